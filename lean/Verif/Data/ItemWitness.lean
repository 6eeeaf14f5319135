import Verif.Data.ItemSets
/-!
The hypotheses of C67 are met: OpenCV's nearest-neighbour formula satisfies `ResizeOk`, and there are small datasets of each kind with
non-trivial poses.
-/
namespace Verif.Data
set_option linter.unusedSectionVars false

/-- OpenCV's `INTER_NEAREST`: output pixel `y` of `H` copies input pixel `⌊y·h/H⌋` of `h`. -/
def nnIdx (h H y : Nat) : Nat := y * h / H

/-- A `Resize` that uses it for all three images. -/
def nnResize (α : Type) : Resize α where
  linear H W t := ⟨[H, W] ++ t.shape.drop 2, fun i => t.get ([nnIdx (t.shape.getD 0 0) H (i.getD 0 0), nnIdx (t.shape.getD 1 0) W (i.getD 1 0)] ++ i.drop 2)⟩
  nearest H W t := ⟨[H, W], fun i => t.get [nnIdx (t.shape.getD 0 0) H (i.getD 0 0), nnIdx (t.shape.getD 1 0) W (i.getD 1 0)]⟩
  nearestL H W t := ⟨[H, W], fun i => t.get [nnIdx (t.shape.getD 0 0) H (i.getD 0 0), nnIdx (t.shape.getD 1 0) W (i.getD 1 0)]⟩

theorem nnIdx_lt {h H y : Nat} (hh : 0 < h) (hy : y < H) : nnIdx h H y < h := by
  rw [nnIdx, Nat.div_lt_iff_lt_mul (by omega), Nat.mul_comm h H]
  exact Nat.mul_lt_mul_of_pos_right hy hh

/-- OpenCV's nearest-neighbour formula meets the assumption on `cv2.resize`. -/
theorem nnResize_ok {α : Type} [Field α] [LinearOrder α] [IsStrictOrderedRing α] : ResizeOk (nnResize α) nnIdx nnIdx where
  linear_shape H W img h w c e _ _ := by simp [nnResize, e]
  linear_range H W img h w c lo hi e hh hw hr y hy x hx k hk := by
    have := hr _ (nnIdx_lt hh hy) _ (nnIdx_lt hw hx) k hk
    simpa [nnResize, e] using this
  nearest_shape H W img h w e _ _ := by simp [nnResize]
  nearest_pixel H W img h w e _ _ y _ x _ := by simp [nnResize, e]
  label_shape H W img h w e _ _ := by simp [nnResize]
  label_pixel H W img h w e _ _ y _ x _ := by simp [nnResize, e]
  inside h H y hh hy := ⟨nnIdx_lt hh hy, nnIdx_lt hh hy⟩

section
variable {α : Type} [Field α] [LinearOrder α] [IsStrictOrderedRing α]

open Classical in
/-- Matrix inversion by choice. -/
noncomputable def someInv (p : M4 α) : M4 α := if h : ∃ q : M4 α, p.mul q = M4.one ∧ q.mul p = M4.one then h.choose else p

theorem someInv_ok : IsInverse (someInv (α := α)) := fun p h => by
  rw [someInv, dif_pos h]; exact h.choose_spec

/-- A translation by `k` along `x`. -/
def shiftX (k : α) : M4 α := ⟨M3.one, ⟨k, 0, 0⟩, V3.zero, 1⟩

theorem shiftX_ok (k : α) : PoseOk (shiftX k) := by
  refine ⟨⟨rfl, rfl⟩, shiftX (-k), ?_, ?_⟩ <;>
    simp [shiftX, M4.mul, M4.one, M3.one, M3.mul, M3.mulVec, V3.dot, V3.add, V3.zero, V3.smul, M3.outer, M3.add, M3.c0, M3.c1, M3.c2]

/-- Files: colour file `p` is 4×6 with value `p`, depth file `p` is 4×6 with value `1000·(p+1)`, label file `p` has label 39. -/
def wC (p : Nat) : Tensor α := ⟨[4, 6, 3], fun _ => p⟩
def wD (p : Nat) : Tensor α := ⟨[4, 6], fun i => if i = [0, 0] then 0 else 1000 * (p + 1)⟩
def wL (_ : Nat) : Tensor Nat := ⟨[4, 6], fun _ => 39⟩

/-- A Scannet item of two frames that meets the hypotheses of `scannet_item`, for all options. -/
theorem scannet_item_hypotheses : ∃ it : ScanItem Nat, ([it] : List _)[0]? = some it ∧ Readable (wC (α := α)) [3] 2 it.color ∧
    Readable (wD (α := α)) [] 2 it.depth ∧ Readable wL [] 2 it.label ∧ 2 ≤ it.pose.length ∧
    (∀ p ∈ it.pose.take 2, PoseOk (shiftX (p : α))) ∧ shiftX ((it.pose.getD 0 0 : Nat) : α) ≠ shiftX ((it.pose.getD 1 0 : Nat) : α) := by
  refine ⟨⟨[0, 1], [0, 1], [0, 1], [0, 1], 5, "scene0000_00".toList⟩, rfl, ?_, ?_, ?_, by decide, fun p _ => shiftX_ok _, ?_⟩
  · exact ⟨by decide, fun i _ p _ => ⟨4, 6, by decide, by decide, rfl⟩⟩
  · exact ⟨by decide, fun i _ p _ => ⟨4, 6, by decide, by decide, rfl⟩⟩
  · exact ⟨by decide, fun i _ p _ => ⟨4, 6, by decide, by decide, rfl⟩⟩
  · simp [shiftX]

/-- The text columns of a translation by `k`. -/
def shiftRows (k : α) : List (List α) := [[1, 0, 0, k], [0, 1, 0, 0], [0, 0, 1, 0], []]

/-- Reading a 4×4 matrix from its rows. -/
def matOf (l : List (List α)) : M4 α :=
  let e (i j : Nat) := (l.getD i []).getD j 0
  ⟨⟨⟨e 0 0, e 0 1, e 0 2⟩, ⟨e 1 0, e 1 1, e 1 2⟩, ⟨e 2 0, e 2 1, e 2 2⟩⟩, ⟨e 0 3, e 1 3, e 2 3⟩, ⟨e 3 0, e 3 1, e 3 2⟩, e 3 3⟩

/-- An ICL trajectory of three frames, windows of two frames, that meets the hypotheses of `icl_item`; there are two items. -/
theorem icl_item_hypotheses : ∃ (w : Win) (lines : List (IclFrame Nat)) (file : List (List α)) (ws : List (List (IclFrame Nat × Nat))),
    0 < w.seqlen ∧ iclItems w false file.length lines = .ok ws ∧ (∀ k, k < lines.length → BlockOk file k) ∧
    (∀ k, k < lines.length → PoseOk (matOf (poseBlock [0, 0, 0, 1] file k))) ∧
    (∀ f ∈ lines, (∃ h w, 0 < h ∧ 0 < w ∧ (wC (α := α) f.color).shape = [h, w, 3]) ∧ ∃ h w, 0 < h ∧ 0 < w ∧ (wD (α := α) f.depth).shape = [h, w]) ∧
    ws.length = 2 := by
  refine ⟨⟨2, 0, 1, 0, none⟩, [⟨0, 0, ['a']⟩, ⟨1, 1, ['b']⟩, ⟨2, 2, ['c']⟩], shiftRows 0 ++ shiftRows 1 ++ shiftRows 2,
    [[(⟨0, 0, ['a']⟩, 0), (⟨1, 1, ['b']⟩, 4)], [(⟨1, 1, ['b']⟩, 4), (⟨2, 2, ['c']⟩, 8)]], by decide, rfl, ?_, ?_, ?_, rfl⟩
  · intro k hk j hj
    have hk : k < 3 := hk
    interval_cases k <;> interval_cases j <;> exact ⟨_, rfl, rfl⟩
  · intro k hk
    have hk : k < 3 := hk
    interval_cases k
    · exact shiftX_ok 0
    · exact shiftX_ok 1
    · exact shiftX_ok 2
  · intro f _
    exact ⟨⟨4, 6, by decide, by decide, rfl⟩, ⟨4, 6, by decide, by decide, rfl⟩⟩

end

/-- A TUM dataset of two sequences, windows of two frames with a gap, that meets the hypotheses of `tum_item`. -/
theorem tum_item_hypotheses : ∃ (eps : ℝ) (w : Win) (seqs : List (List (TumFrame Nat (V3 ℝ × Geom.Quat)))) (items : List (TumItem Nat (V3 ℝ × Geom.Quat))),
    0 < w.seqlen ∧ tumItems w seqs = .ok items ∧
    (∀ s ∈ seqs, ∀ f ∈ s, (∃ h w, 0 < h ∧ 0 < w ∧ (wC (α := ℝ) f.color).shape = [h, w, 3]) ∧ (∃ h w, 0 < h ∧ 0 < w ∧ (wD (α := ℝ) f.depth).shape = [h, w]) ∧
      GoodPose eps f.pose) ∧ 0 < eps ∧ items.length = 2 := by
  have q : ∀ t : V3 ℝ, GoodPose (1 / 2) (t, ⟨0, 0, 0, 1⟩) := fun t => by
    have : (Geom.Quat.mk 0 0 0 1).norm = 1 := by simp [Geom.Quat.norm]
    refine ⟨?_, by rw [this]; norm_num⟩
    rw [this]
    have : √2 ≤ 2 := by rw [Real.sqrt_le_left (by norm_num)]; norm_num
    linarith
  let f : Nat → TumFrame Nat (V3 ℝ × Geom.Quat) := fun k => ⟨k, k, (⟨k, 0, 0⟩, ⟨0, 0, 0, 1⟩), ['f'], (['1'], ['2'], none)⟩
  refine ⟨1 / 2, ⟨2, 1, 2, 0, none⟩, [[f 0, f 1, f 2, f 3], [f 4, f 5, f 6]], [tumItemOf [f 0, f 2], tumItemOf [f 4, f 6]], by decide,
    by simp [tumItems, allWindows, windows, pyRange, offsets, windowLoop, gather, List.range_succ], ?_, by norm_num, rfl⟩
  intro s hs g hg
  have : ∃ k, g = f k := by
    simp only [List.mem_cons, List.not_mem_nil, or_false] at hs
    rcases hs with rfl | rfl <;> simp only [List.mem_cons, List.not_mem_nil, or_false] at hg
    · rcases hg with rfl | rfl | rfl | rfl <;> exact ⟨_, rfl⟩
    · rcases hg with rfl | rfl | rfl <;> exact ⟨_, rfl⟩
  obtain ⟨k, rfl⟩ := this
  exact ⟨⟨4, 6, by decide, by decide, rfl⟩, ⟨4, 6, by decide, by decide, rfl⟩, q _⟩

end Verif.Data
