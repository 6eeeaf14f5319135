import Verif.Icp.Solve
import Verif.Geom.PropsReal
/-!
C53: the rows of the Gauss-Newton system are the linearised point-to-plane residuals of the associated points.
-/
namespace Verif.Icp
open Verif Pcs
set_option linter.unusedSectionVars false

section
variable {α : Type*} [Field α] [LinearOrder α] [IsStrictOrderedRing α]

/-! ### Specification -/

/-- What `knn_points` promises: the index of a nearest target point (ties broken in any way). -/
def NearestIn (nn : List (V3 α) → V3 α → Nat) : Prop :=
  ∀ tgt s, tgt ≠ [] → ∃ d, tgt[nn tgt s]? = some d ∧ ∀ q ∈ tgt, (s.sub d).normSq ≤ (s.sub q).normSq

/-- A source point takes part if no threshold is given or some target point is at *squared* distance below the threshold. -/
def Close (th : Option α) (tgt : List (V3 α)) (s : V3 α) : Prop := ∀ t, th = some t → ∃ q ∈ tgt, (s.sub q).normSq < t

theorem nnDist_eq {nn : List (V3 α) → V3 α → Nat} {tgt : List (V3 α)} {s d : V3 α} (h : tgt[nn tgt s]? = some d) :
    nnDist nn tgt s = (s.sub d).normSq := by
  rw [nnDist, List.getD_eq_getElem?_getD, h]; rfl

theorem keeps_iff {nn : List (V3 α) → V3 α → Nat} (hn : NearestIn nn) {tgt : List (V3 α)} (ht : tgt ≠ []) (th : Option α) (s : V3 α) :
    keeps nn th tgt s = true ↔ Close th tgt s := by
  obtain ⟨d, hd, hmin⟩ := hn tgt s ht
  cases th with
  | none => simp [keeps, Close]
  | some t =>
    simp only [keeps, decide_eq_true_eq, nnDist_eq hd, Close, Option.some.injEq]
    constructor
    · rintro h t rfl; exact ⟨d, List.mem_of_getElem? hd, h⟩
    · intro h; obtain ⟨q, hq, hlt⟩ := h t rfl; exact lt_of_le_of_lt (hmin q hq) hlt

instance (th : Option α) (tgt : List (V3 α)) : DecidablePred (Close th tgt) := fun s => by
  unfold Close
  cases th with
  | none => exact .isTrue (by simp)
  | some t => exact decidable_of_iff (∃ q ∈ tgt, (s.sub q).normSq < t) (by simp)

/-- The source points that take part, in order. -/
def taking (th : Option α) (tgt src : List (V3 α)) : List (V3 α) := src.filter fun s => Close th tgt s

theorem kept_eq {nn : List (V3 α) → V3 α → Nat} (hn : NearestIn nn) {tgt : List (V3 α)} (ht : tgt ≠ []) (th : Option α)
    (src : List (V3 α)) : src.filter (keeps nn th tgt) = taking th tgt src := by
  unfold taking
  congr 1; funext s
  have := keeps_iff hn ht th s
  by_cases h : Close th tgt s
  · rw [decide_eq_true h, this.2 h]
  · rw [decide_eq_false h]; simpa [← this] using h

theorem row_residual (s d n v w : V3 α) :
    dotL (rowA s n) (v.toList ++ w.toList) - entryB s d n = n.dot (((s.add v).add (w.cross s)).sub d) := by
  simp [dotL, rowA, entryB, V3.toList, V3.dot, V3.sub, V3.add, V3.cross]; ring

theorem gaussNewton_eq {nn : List (V3 α) → V3 α → Nat} (hn : NearestIn nn) {src tgt nrm : List (V3 α)} (ht : tgt ≠ [])
    (hl : tgt.length = nrm.length) (th : Option α) :
    gaussNewton nn th src tgt nrm = .ok
      (⟨(taking th tgt src).map fun s => rowA s (nrm.getD (nn tgt s) V3.zero), 6⟩,
       ⟨(taking th tgt src).map fun s => [entryB s (tgt.getD (nn tgt s) V3.zero) (nrm.getD (nn tgt s) V3.zero)], 1⟩,
       (taking th tgt src).map (nn tgt)) := by
  rw [gaussNewton, if_neg (by simpa using hl)]
  simp only [kept_eq hn ht]
  rw [if_neg]
  simp only [List.any_eq_true, Bool.not_eq_true', decide_eq_false_iff_not, not_exists, not_and, not_not]
  intro s _
  obtain ⟨d, hd, _⟩ := hn tgt s ht
  exact (List.getElem?_eq_some_iff.1 hd).1

/-- C53.  For every source cloud, non-empty target cloud with normals, and threshold: row `i` of the system belongs to the `i`-th source
point `s` with a target point closer than the threshold (squared distance); the index returned for it is that of a nearest target point
`d` with normal `n`; and for every twist `(v, ω)` the row's residual `A_i·(v, ω) - b_i` is `n · ((s + v + ω × s) - d)`. -/
theorem gauss_newton_rows {nn : List (V3 α) → V3 α → Nat} (hn : NearestIn nn) {src tgt nrm : List (V3 α)} (ht : tgt ≠ [])
    (hl : tgt.length = nrm.length) (th : Option α) :
    ∃ A b idx, gaussNewton nn th src tgt nrm = .ok (A, b, idx) ∧ A.cols = 6 ∧ A.Valid ∧ b.cols = 1 ∧ b.Valid ∧
      A.rows.length = (taking th tgt src).length ∧ b.rows.length = (taking th tgt src).length ∧
      idx.length = (taking th tgt src).length ∧
      ∀ (i : Nat) (s : V3 α), (taking th tgt src)[i]? = some s → ∃ (j : Nat) (d n : V3 α) (r : List α) (c : α), idx[i]? = some j ∧ tgt[j]? = some d ∧ nrm[j]? = some n ∧
        (∀ q ∈ tgt, (s.sub d).normSq ≤ (s.sub q).normSq) ∧ A.rows[i]? = some r ∧ b.rows[i]? = some [c] ∧
        ∀ v w : V3 α, dotL r (v.toList ++ w.toList) - c = n.dot (((s.add v).add (w.cross s)).sub d) := by
  refine ⟨_, _, _, gaussNewton_eq hn ht hl th, rfl, ?_, rfl, ?_, by simp, by simp, by simp, ?_⟩
  · intro r hr; simp only [List.mem_map] at hr; obtain ⟨s, _, rfl⟩ := hr; rfl
  · intro r hr; simp only [List.mem_map] at hr; obtain ⟨s, _, rfl⟩ := hr; rfl
  · intro i s hs
    obtain ⟨d, hd, hmin⟩ := hn tgt s ht
    have hj : nn tgt s < nrm.length := hl ▸ (List.getElem?_eq_some_iff.1 hd).1
    refine ⟨nn tgt s, d, nrm[nn tgt s], rowA s nrm[nn tgt s], entryB s d nrm[nn tgt s], by simp [hs], hd, List.getElem?_eq_getElem hj, hmin,
      ?_, ?_, fun v w => row_residual s d _ v w⟩
    · simp [hs, List.getD_eq_getElem?_getD, hj]
    · simp only [List.getElem?_map, hs, Option.map_some, List.getD_eq_getElem?_getD, hd, List.getElem?_eq_getElem hj, Option.getD_some]

/-- With a threshold `t` a source point takes part exactly if its *squared* distance to the target cloud is below `t`; in particular for
`t < 1` points at distances between `t` and `√t` take part although they are farther than the threshold. -/
theorem threshold_is_squared (t : α) (s d : V3 α) : s ∈ taking (some t) [d] [s] ↔ (s.sub d).normSq < t := by
  simp [taking, Close]

/-- Number of targets and normals differ: ValueError. -/
theorem gauss_newton_errors (nn : List (V3 α) → V3 α → Nat) (src tgt nrm : List (V3 α)) (th : Option α) (h : tgt.length ≠ nrm.length) :
    gaussNewton nn th src tgt nrm = .error .valueError := by rw [gaussNewton, if_pos h]

/-! ### A concrete nearest-neighbour search -/

/-- First position of a nearest point. -/
def bruteNN : List (V3 α) → V3 α → Nat
  | [], _ => 0
  | [_], _ => 0
  | d :: e :: tgt, s =>
    let j := bruteNN (e :: tgt) s
    if (s.sub d).normSq ≤ (s.sub ((e :: tgt).getD j V3.zero)).normSq then 0 else j + 1

theorem bruteNN_nearest : NearestIn (bruteNN : List (V3 α) → V3 α → Nat) := by
  intro tgt s
  induction tgt with
  | nil => simp
  | cons d tgt ih =>
    intro _
    cases tgt with
    | nil => exact ⟨d, rfl, by simp⟩
    | cons e tgt =>
      obtain ⟨f, hf, hmin⟩ := ih (by simp)
      have hg : (e :: tgt).getD (bruteNN (e :: tgt) s) V3.zero = f := by rw [List.getD_eq_getElem?_getD, hf]; rfl
      rw [bruteNN]
      simp only [hg]
      by_cases h : (s.sub d).normSq ≤ (s.sub f).normSq
      · rw [if_pos h]
        refine ⟨d, rfl, fun q hq => ?_⟩
        rcases List.mem_cons.1 hq with hq | hq
        · rw [hq]
        · exact h.trans (hmin q hq)
      · rw [if_neg h]
        refine ⟨f, by simpa using hf, fun q hq => ?_⟩
        rcases List.mem_cons.1 hq with hq | hq
        · rw [hq]; exact (not_le.1 h).le
        · exact hmin q hq
end

/-- The hypotheses of `gauss_newton_rows` are met, and one of three source points is filtered out. -/
example : gaussNewton bruteNN (some 1) [⟨0, 0, 0⟩, ⟨5, 0, 0⟩, ⟨0, 1, 1/2⟩] [⟨0, 0, 0⟩, ⟨0, 1, 0⟩] [⟨0, 0, 1⟩, ⟨0, 0, 1⟩] =
    .ok ((⟨[[0, 0, 1, 0, 0, 0], [0, 0, 1, 1, 0, 0]], 6⟩ : T2 ℚ), ⟨[[0], [-1/2]], 1⟩, [0, 1]) := by
  simp [gaussNewton, bruteNN, keeps, nnDist, V3.sub, V3.normSq, V3.dot, rowA, entryB, List.filter, V3.zero]
  norm_num

/-- The residual is the first-order expansion: for rotations below the small-angle cut-off of `se3_exp` (so in particular along `t ξ` as
`t → 0`) the point-to-plane error after applying the exponential of the twist differs from the row's residual by exactly the second-order
term `n · (ω × v)`. -/
theorem residual_first_order (eps : ℝ) (s d n v w : V3 ℝ) (hw : Geom.vnorm w < eps) :
    n.dot ((((Geom.se3Exp eps v w).R.mulVec s).add (Geom.se3Exp eps v w).t).sub d) =
      (dotL (rowA s n) (v.toList ++ w.toList) - entryB s d n) + n.dot (w.cross v) := by
  rw [row_residual]
  simp only [Geom.se3Exp, Geom.so3Exp, Geom.se3V, if_pos hw]
  simp [Geom.so3Hat, V3.dot, V3.sub, V3.add, V3.cross, M3.add, M3.one, M3.mulVec]
  ring
end Verif.Icp
