import Verif.Data.Batch
import Verif.Data.ItemWitness
/-!
Property C68 for the three datasets.
-/
namespace Verif.Data
open Verif.Rgbd
set_option linter.unusedSectionVars false

section
variable {α : Type} [Field α] [LinearOrder α] [IsStrictOrderedRing α]
variable {R : Resize α} {row col : Nat → Nat → Nat → Nat} {o : Opts}

/-- **C68, Scannet.**  A batch of items (with depths, intrinsics and poses), given to `RGBDImages`: at every pixel with a positive depth reading, the
pose of the item's first frame maps the global vertex to the world position of the measurement (depth in units of 1/1000, intrinsics of the scene
scaled to the new size, pose of frame `l`); at every other pixel the vertex is zero. -/
theorem scannet_world (hR : ResizeOk R row col) {P : Type} {n : Nat} (hn : 0 < n) {inv : M4 α → M4 α} (hinv : IsInverse inv) {readM : P → M4 α} {readC readD : P → Tensor α}
    {readL : P → Tensor Nat} {items : List (ScanItem P)} (hd : o.depth = true) (hk : o.intrinsics = true) (hpo : o.pose = true) (eps : α)
    (hfiles : ∀ it ∈ items, Readable readC [3] n it.color ∧ Readable readD [] n it.depth ∧ (o.extra = true → Readable readL [] n it.label) ∧
      n ≤ it.pose.length ∧ ∀ p ∈ it.pose.take n, PoseOk (readM p))
    {idxs : List Nat} (hne : idxs ≠ []) (hidx : ∀ j ∈ idxs, j < items.length) :
    ∃ s g, batchRgbd (scanGetItem R o n inv readM readC readD readL items) idxs o.cf = .ok s ∧ (getGVertex eps s).1 = .ok g ∧
      g.sh = dims5 o.cf idxs.length n o.height o.width 3 ∧
      ∀ (b j : Nat) (it : ScanItem P), idxs[b]? = some j → items[j]? = some it → ∀ l < n, ∀ m0 m f hh ww, it.pose[0]? = some m0 → it.pose[l]? = some m →
        it.depth[l]? = some f → (readD f).shape = [hh, ww] → ∀ y < o.height, ∀ x < o.width,
          ((readD f).get [row hh o.height y, col ww o.width x] ≤ 0 → px3 o.cf g b l y x = V3.zero) ∧
          (0 < (readD f).get [row hh o.height y, col ww o.width x] → applyPose (readM m0) (px3 o.cf g b l y x) = applyPose (readM m)
            (cameraPoint ((readM it.intrinsics).R.r0.x * (o.width / 640) + eps) ((readM it.intrinsics).R.r1.y * (o.height / 480) + eps)
              ((readM it.intrinsics).R.r0.z * (o.width / 640)) ((readM it.intrinsics).R.r1.z * (o.height / 480))
              ((readD f).get [row hh o.height y, col ww o.width x] / 1000) x y)) := by
  cases hit0 : items with
  | nil =>
    exfalso
    obtain ⟨j, js, rfl⟩ := List.exists_cons_of_ne_nil hne
    have := hidx j (by simp)
    simp [hit0] at this
  | cons d0 ds =>
  rw [← hit0]
  obtain ⟨s, g, h1, h2, h3, h4⟩ := batch_world (row := row) (col := col) (o := o) (scale := (1000 : α)) (by norm_num) (readD := readD) eps
    (get := scanGetItem R o n inv readM readC readD readL items) hne hn
    (fun j => scaleIntrinsics4 (readM (items.getD j d0).intrinsics) (o.height / 480) (o.width / 640))
    (fun j => ((items.getD j d0).pose.take n).map readM) (fun j => (items.getD j d0).depth) (fun j hj => by
      have hlt := hidx j hj
      have hit : items[j]? = some items[j] := List.getElem?_eq_getElem hlt
      have hgd : items.getD j d0 = items[j] := by rw [List.getD_eq_getElem?_getD, hit]; rfl
      obtain ⟨f1, f2, f3, f4, f5⟩ := hfiles _ (List.getElem_mem hlt)
      obtain ⟨C, D, Ps, Ts, L, e, e1, e2, e3, e4, _⟩ := scannet_item (o := o) hR hn hinv (readM := readM) (readC := readC) (readD := readD) (readL := readL) hit f1
        (fun _ => f2) f3 (fun _ => ⟨f4, f5⟩)
      rw [hgd]
      refine ⟨C, D, Ps, _, by rw [e]; simp only [opt, hd, hk, hpo, if_true, List.cons_append, List.nil_append]; rfl, e1.1, e2 hd, e3 hpo, ?_, ?_⟩
      · rw [List.length_map, List.length_take]; omega
      · intro p hp
        obtain ⟨q, hq, rfl⟩ := List.mem_map.1 hp
        exact (f5 q hq).1)
  refine ⟨s, g, h1, h2, h3, fun b j it hb hit l hl m0 m f hh ww e0 em ef hf y hy x hx => ?_⟩
  have hgd : items.getD j d0 = it := by rw [List.getD_eq_getElem?_getD, hit]; rfl
  have := h4 b j hb l hl (readM m0) (readM m) f hh ww
    (by rw [hgd, List.getElem?_map, List.getElem?_take_of_lt (by omega), e0]; rfl)
    (by rw [hgd, List.getElem?_map, List.getElem?_take_of_lt hl, em]; rfl) (by rw [hgd]; exact ef) hf y hy x hx
  rw [hgd] at this
  exact this

/-- **C68, ICL** (one trajectory, `start = 0`: with a later start the poses are those of other frames, C11).  As for Scannet, with the ICL camera
and depths in units of 1/5000; frame `l` of item `j` is frame `j·stride + l·(dilation+1)` of the trajectory. -/
theorem icl_world (hR : ResizeOk R row col) {P τ : Type} {inv : M4 α → M4 α} (hinv : IsInverse inv) {bottom : List τ} {mat : List (List τ) → M4 α} {readC readD : P → Tensor α} (w : Win)
    (hs : 0 < w.seqlen) (hstart : w.start = 0) (isTraj0 : Bool) (lines : List (IclFrame P)) (file : List (List τ)) {ws : List (List (IclFrame P × Nat))}
    (hok : iclItems w isTraj0 file.length lines = .ok ws) (hblocks : ∀ k, k < lines.length → BlockOk file k)
    (hposes : ∀ k, k < lines.length → PoseOk (mat (poseBlock bottom file k)))
    (hfiles : ∀ f ∈ lines, (∃ h w, 0 < h ∧ 0 < w ∧ (readC f.color).shape = [h, w, 3]) ∧ ∃ h w, 0 < h ∧ 0 < w ∧ (readD f.depth).shape = [h, w])
    (hd : o.depth = true) (hk : o.intrinsics = true) (hpo : o.pose = true) (eps : α) {idxs : List Nat} (hne : idxs ≠ []) (hidx : ∀ j ∈ idxs, j < ws.length) :
    ∃ s g, batchRgbd (iclGetItem R o w.seqlen inv bottom mat readC readD (ws.map (iclItemOf file))) idxs o.cf = .ok s ∧ (getGVertex eps s).1 = .ok g ∧
      g.sh = dims5 o.cf idxs.length w.seqlen o.height o.width 3 ∧
      ∀ (b j : Nat), idxs[b]? = some j → ∀ l < w.seqlen, ∀ fr hh ww, lines[j * w.stride + l * (w.dilation + 1)]? = some fr → (readD fr.depth).shape = [hh, ww] →
        ∀ y < o.height, ∀ x < o.width,
          ((readD fr.depth).get [row hh o.height y, col ww o.width x] ≤ 0 → px3 o.cf g b l y x = V3.zero) ∧
          (0 < (readD fr.depth).get [row hh o.height y, col ww o.width x] →
            applyPose (mat (poseBlock bottom file (j * w.stride))) (px3 o.cf g b l y x) =
              applyPose (mat (poseBlock bottom file (j * w.stride + l * (w.dilation + 1))))
                (cameraPoint (481.2 * o.width / 640 + eps) (-480 * o.height / 480 + eps) (319.5 * o.width / 640) (239.5 * o.height / 480)
                  ((readD fr.depth).get [row hh o.height y, col ww o.width x] / 5000) x y)) := by
  have key := fun (j : Nat) (hj : j < ws.length) => icl_item (R := R) (row := row) (col := col) (o := o) (readC := readC) (readD := readD) hR hinv w hs isTraj0 lines file hok hblocks hposes hfiles hj
  choose win hwl hwk C D Ps Ts hget hC hD hP _ using key
  obtain ⟨s, g, h1, h2, h3, h4⟩ := batch_world (row := row) (col := col) (o := o) (scale := (5000 : α)) (by norm_num) (readD := readD) eps
    (get := iclGetItem R o w.seqlen inv bottom mat readC readD (ws.map (iclItemOf file))) hne hs (fun _ => iclK o)
    (fun j => (List.range w.seqlen).map fun k => mat (poseBlock bottom file (j * w.stride + k * (w.dilation + 1))))
    (fun j => if hj : j < ws.length then (win j hj).map (·.depth) else []) (fun j hj => by
      have hlt := hidx j hj
      refine ⟨C j hlt, D j hlt, Ps j hlt, _, by rw [hget j hlt]; simp only [opt, hd, hk, hpo, if_true, List.cons_append, List.nil_append]; rfl, (hC j hlt).1,
        by simp only [dif_pos hlt]; exact hD j hlt hd, hP j hlt hpo, by simp, ?_⟩
      intro p hp
      obtain ⟨k, hk', rfl⟩ := List.mem_map.1 hp
      refine (hposes _ ?_).1
      have e := hwk j hlt k (List.mem_range.1 hk')
      rw [List.getElem?_eq_getElem (by rw [hwl]; exact List.mem_range.1 hk')] at e
      have := (List.getElem?_eq_some_iff.1 e.symm).1
      omega)
  refine ⟨s, g, h1, h2, h3, fun b j hb l hl fr hh ww hfr hf y hy x hx => ?_⟩
  have hlt := hidx j (List.mem_of_getElem? hb)
  have hK := icl_intrinsics (α := α) (o := o)
  have := h4 b j hb l hl (mat (poseBlock bottom file (j * w.stride))) (mat (poseBlock bottom file (j * w.stride + l * (w.dilation + 1)))) fr.depth hh ww
    (by simp [List.getElem?_map, hs]) (by simp [List.getElem?_map, hl])
    (by rw [dif_pos hlt, List.getElem?_map, hwk j hlt l hl, hstart, Nat.zero_add, hfr]; rfl) hf y hy x hx
  rw [hK] at this
  exact this

end

section
variable {R : Resize ℝ} {row col : Nat → Nat → Nat → Nat} {o : Opts}

/-- **C68, TUM.**  As for Scannet, with the TUM camera, depths in units of 1/5000 and the poses of the associated trajectory entries. -/
theorem tum_world (hR : ResizeOk R row col) {P : Type} {eps : ℝ} {inv : M4 ℝ → M4 ℝ} (hinv : IsInverse inv) {readC readD : P → Tensor ℝ} (w : Win)
    (hs : 0 < w.seqlen) {seqs : List (List (TumFrame P (V3 ℝ × Geom.Quat)))} {items : List (TumItem P (V3 ℝ × Geom.Quat))} (h : tumItems w seqs = .ok items)
    (hfiles : ∀ s ∈ seqs, ∀ f ∈ s, (∃ h w, 0 < h ∧ 0 < w ∧ (readC f.color).shape = [h, w, 3]) ∧ (∃ h w, 0 < h ∧ 0 < w ∧ (readD f.depth).shape = [h, w]) ∧
      GoodPose eps f.pose)
    (hd : o.depth = true) (hk : o.intrinsics = true) (hpo : o.pose = true) (eps' : ℝ) {idxs : List Nat} (hne : idxs ≠ []) (hidx : ∀ j ∈ idxs, j < items.length) :
    ∃ s g, batchRgbd (tumGetItem R o w.seqlen inv (fun q => pointquaternionToHomogeneous eps q.1 q.2) readC readD items) idxs o.cf = .ok s ∧
      (getGVertex eps' s).1 = .ok g ∧ g.sh = dims5 o.cf idxs.length w.seqlen o.height o.width 3 ∧
      ∀ (b j : Nat), idxs[b]? = some j → ∃ sq ∈ seqs, ∃ i, ∀ l < w.seqlen, ∀ f0 f hh ww, sq[i * w.stride]? = some f0 → sq[i * w.stride + l * (w.dilation + 1)]? = some f →
        (readD f.depth).shape = [hh, ww] → ∀ y < o.height, ∀ x < o.width,
          ((readD f.depth).get [row hh o.height y, col ww o.width x] ≤ 0 → px3 o.cf g b l y x = V3.zero) ∧
          (0 < (readD f.depth).get [row hh o.height y, col ww o.width x] →
            applyPose (pointquaternionToHomogeneous eps f0.pose.1 f0.pose.2) (px3 o.cf g b l y x) =
              applyPose (pointquaternionToHomogeneous eps f.pose.1 f.pose.2)
                (cameraPoint (525 * o.width / 640 + eps') (525 * o.height / 480 + eps') (319.5 * o.width / 640) (239.5 * o.height / 480)
                  ((readD f.depth).get [row hh o.height y, col ww o.width x] / 5000) x y)) := by
  have key := fun (j : Nat) (hj : j < items.length) => tum_item (R := R) (row := row) (col := col) (o := o) (readC := readC) (readD := readD) hR hinv w hs h hfiles hj
  choose sq hsq ii win hwl hwk C D Ps Ts hget hC hD hP _ using key
  have hmem : ∀ j hj, ∀ f ∈ win j hj, f ∈ sq j hj := fun j hj => window_mem (hwl j hj) (hwk j hj)
  obtain ⟨s, g, h1, h2, h3, h4⟩ := batch_world (row := row) (col := col) (o := o) (scale := (5000 : ℝ)) (by norm_num) (readD := readD) eps'
    (get := tumGetItem R o w.seqlen inv (fun q => pointquaternionToHomogeneous eps q.1 q.2) readC readD items) hne hs (fun _ => tumK o)
    (fun j => if hj : j < items.length then (win j hj).map (fun f => pointquaternionToHomogeneous eps f.pose.1 f.pose.2) else [])
    (fun j => if hj : j < items.length then (win j hj).map (·.depth) else []) (fun j hj => by
      have hlt := hidx j hj
      simp only [dif_pos hlt]
      refine ⟨C j hlt, D j hlt, Ps j hlt, _, by rw [hget j hlt]; simp only [opt, hd, hk, hpo, if_true, List.cons_append, List.nil_append]; rfl, (hC j hlt).1,
        hD j hlt hd, hP j hlt hpo, by simp [hwl], ?_⟩
      intro p hp
      obtain ⟨f, hf, rfl⟩ := List.mem_map.1 hp
      obtain ⟨_, _, q1, q2⟩ := hfiles _ (hsq j hlt) f (hmem j hlt f hf)
      exact ((pointquaternion_rigid eps _ q2 _ _ q1 le_rfl).2.2.1).1)
  refine ⟨s, g, h1, h2, h3, fun b j hb => ?_⟩
  have hlt := hidx j (List.mem_of_getElem? hb)
  refine ⟨sq j hlt, hsq j hlt, ii j hlt, fun l hl f0 f hh ww e0 ef hf y hy x hx => ?_⟩
  have k0 := (hwk j hlt 0 hs).1
  rw [Nat.zero_mul, Nat.add_zero, e0] at k0
  have kl := (hwk j hlt l hl).1
  rw [ef] at kl
  have := h4 b j hb l hl (pointquaternionToHomogeneous eps f0.pose.1 f0.pose.2) (pointquaternionToHomogeneous eps f.pose.1 f.pose.2) f.depth hh ww
    (by rw [dif_pos hlt, List.getElem?_map, k0]; rfl) (by rw [dif_pos hlt, List.getElem?_map, kl]; rfl) (by rw [dif_pos hlt, List.getElem?_map, kl]; rfl) hf y hy x hx
  rw [tum_intrinsics] at this
  exact this

end

/-! ### The hypotheses are met -/

/-- Options of the examples: depths, intrinsics and poses returned. -/
def optsW : Opts := ⟨2, 3, false, true, true, true, true, false, false, false, false⟩

/-- A Scannet batch of two items that meets the hypotheses of `scannet_world`, with both kinds of pixels. -/
theorem scannet_world_hypotheses : ∃ items : List (ScanItem Nat), items.length = 2 ∧ optsW.depth = true ∧ optsW.intrinsics = true ∧ optsW.pose = true ∧
    (∀ it ∈ items, Readable (wC (α := ℚ)) [3] 2 it.color ∧ Readable (wD (α := ℚ)) [] 2 it.depth ∧ (optsW.extra = true → Readable wL [] 2 it.label) ∧
      2 ≤ it.pose.length ∧ ∀ p ∈ it.pose.take 2, PoseOk (shiftX (p : ℚ))) ∧
    (∀ p, (wD (α := ℚ) p).get [nnIdx 4 2 0, nnIdx 6 3 0] = 0) ∧ ∀ p, 0 < (wD (α := ℚ) p).get [nnIdx 4 2 1, nnIdx 6 3 2] := by
  have mk : ∀ a b : Nat, Readable (wC (α := ℚ)) [3] 2 [a, b] ∧ Readable (wD (α := ℚ)) [] 2 [a, b] := fun a b =>
    ⟨⟨by simp, fun i _ p _ => ⟨4, 6, by decide, by decide, rfl⟩⟩, ⟨by simp, fun i _ p _ => ⟨4, 6, by decide, by decide, rfl⟩⟩⟩
  refine ⟨[⟨[0, 1], [0, 1], [0, 1], [], 5, ['a']⟩, ⟨[2, 3], [2, 3], [2, 3], [], 5, ['b']⟩], rfl, rfl, rfl, rfl, ?_, fun p => by simp [wD, nnIdx], fun p => ?_⟩
  · intro it hit
    simp only [List.mem_cons, List.not_mem_nil, or_false] at hit
    rcases hit with rfl | rfl
    · exact ⟨(mk _ _).1, (mk _ _).2, fun h => (by cases h), by simp, fun p _ => shiftX_ok _⟩
    · exact ⟨(mk _ _).1, (mk _ _).2, fun h => (by cases h), by simp, fun p _ => shiftX_ok _⟩
  · simp only [wD, nnIdx]
    rw [if_neg (by decide)]
    positivity

end Verif.Data
