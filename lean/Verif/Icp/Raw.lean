import Verif.Icp.Model
import Verif.Fusion.Raw
/-!
`downsample_rgbdimages` of `gradslam/odometry/icputils.py` on frames of either channel order (cf. `Verif.Fusion.Raw`).
-/
namespace Verif.Icp
open Verif Pcs

/-- The size of a dimension of size `n` after `[::k]`. -/
def stride (n k : Nat) : Nat := (n + k - 1) / k

/-- The shape after `[..., ::k, ::k]`: the last two dimensions. -/
def strideLast2 (s : List Nat) (k : Nat) : List Nat :=
  match s.reverse with
  | w :: h :: t => (stride w k :: stride h k :: t).reverse
  | t => t.reverse

section
variable {α : Type*} [Field α] [LinearOrder α]

/-- The shapes in icputils.py:650-669, for one batch element: `mask = valid_depth_mask.squeeze(-1)[..., ::k, ::k]` must index
`global_vertex_map[b][..., ::k, ::k, :]` (IndexError), and the constructor wants clouds of shape `(n, 3)` (ValueError). -/
def dsShape (r : Fusion.Raw α) (k : Nat) : Except Err Unit :=
  if r.gv.sh.d0 = 0 then .ok ()
  else match Fusion.maskIndex [r.gv.sh.d1, stride r.gv.sh.d2 k, stride r.gv.sh.d3 k, r.gv.sh.d4]
      (strideLast2 (Fusion.squeezeLast (Fusion.dimList r.valid.sh)).tail k) with
    | none => .error .indexError
    | some e => if e ≠ [3] then .error .valueError else .ok ()

/-- `downsample_rgbdimages`, icputils.py:623-669 (cf. `downsampleRgbd`). -/
def downsampleRaw (r : Fusion.Raw α) (ds : Int) : Except Err (PC α) :=
  if r.L ≠ 1 then .error .valueError
  else if ds ≤ 0 then .error .valueError
  else match dsShape r ds.toNat with
    | .error e => .error e
    | .ok () => match newList (dsArg r.frame ds.toNat) (dsPicked r.frame ds.toNat r.frame.gv) with
      | .error e => .error (.pcs e)
      | .ok o => .ok o

/-- On channels-last frames it is `downsampleRgbd`. -/
theorem downsampleRaw_last {nrm : V3 α → α} {eps : α} {i : Rgbd.In α} {r : Fusion.Raw α} (h : Fusion.RawOf nrm eps false i r) (ds : Int) :
    downsampleRaw r ds = downsampleRgbd (Fusion.Frame.ofIn nrm eps i) ds := by
  have hL : r.L = (Fusion.Frame.ofIn nrm eps i).L := h.L
  have e1 : r.gv.sh = ⟨i.B, i.L, i.H, i.W, 3⟩ := by rw [h.gv]; rfl
  have e2 : r.valid.sh = ⟨i.B, i.L, i.H, i.W, 1⟩ := by rw [h.validSh]; rfl
  have e3 : dsShape r ds.toNat = .ok () := by
    rw [dsShape, e1, e2]
    simp [Fusion.dimList, Fusion.squeezeLast, strideLast2, Fusion.maskIndex]
  unfold downsampleRaw downsampleRgbd
  simp only [e3, h.frame, hL]
  generalize newList _ _ = x
  cases x <;> rfl

/-- On a channels-first frame it always raises. -/
theorem downsampleRaw_first {nrm : V3 α → α} {eps : α} {i : Rgbd.In α} {r : Fusion.Raw α} (h : Fusion.RawOf nrm eps true i r) (hB : 0 < i.B)
    (hW : 2 ≤ i.W) (ds : Int) : ∃ e, downsampleRaw r ds = .error e := by
  have e1 : r.gv.sh = ⟨i.B, i.L, 3, i.H, i.W⟩ := by rw [h.gv]; rfl
  have e2 : r.valid.sh = ⟨i.B, i.L, 1, i.H, i.W⟩ := by rw [h.validSh]; rfl
  unfold downsampleRaw
  by_cases hL : r.L ≠ 1
  · rw [if_pos hL]; exact ⟨_, rfl⟩
  rw [if_neg hL]
  by_cases hd : ds ≤ 0
  · rw [if_pos hd]; exact ⟨_, rfl⟩
  rw [if_neg hd]
  have hk : 1 ≤ ds.toNat := by omega
  generalize ds.toNat = k at hk
  suffices e3 : dsShape r k = .error .indexError by rw [e3]; exact ⟨_, rfl⟩
  have hw1 : (i.W = 1) ↔ False := ⟨fun e => by omega, False.elim⟩
  rw [dsShape, e1, e2]
  simp only [if_neg hB.ne', Fusion.dimList, Fusion.squeezeLast, strideLast2, Fusion.maskIndex]
  simp only [List.getLast?_cons_cons, List.getLast?_singleton, Option.some.injEq, hw1, if_false, List.tail_cons,
    List.reverse_cons, List.reverse_nil, List.nil_append, List.cons_append, List.isPrefixOf]
  rw [if_neg]
  simp only [Bool.and_eq_true, beq_iff_eq, not_and]
  intro _ h3 _ hw
  rw [stride] at h3 hw
  by_cases hk3 : k < 3
  · rcases (show k = 1 ∨ k = 2 by omega) with rfl | rfl <;> simp at h3
  · have : (i.W + k - 1) / k < i.W := by
      rw [Nat.div_lt_iff_lt_mul (by omega)]
      obtain ⟨a, ha⟩ := Nat.exists_eq_add_of_le hW
      obtain ⟨c, hc⟩ := Nat.exists_eq_add_of_le (show 3 ≤ k by omega)
      rw [ha, hc]
      have : (2 + a) * (3 + c) = 6 + 2 * c + 3 * a + a * c := by ring
      omega
    omega
end
end Verif.Icp
