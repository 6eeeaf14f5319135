import Verif.Icp.Down
import Verif.Icp.Provider
/-!
Concrete cases for C56 and C63.
-/
namespace Verif.Icp
open Verif Pcs
set_option maxRecDepth 100000

/-! ### C56 -/

/-- Two single frames of 3 × 5 pixels; the first has no depth in the corner (0, 4), the second none in column 2. -/
def frW : Fusion.Frame ℚ := ⟨2, 1, 3, 5, fun b _ h w => ⟨b, h, w⟩, fun b _ h w => ⟨0, b, h + w⟩, fun b _ h w => ⟨b, h, w⟩, fun b _ _ _ => ⟨1, b, 0⟩,
  fun b _ h w => ⟨10 * b, h, w⟩, fun b _ h w => decide (if b = 0 then ¬ (h = 0 ∧ w = 4) else w ≠ 2), none, fun _ => M4.one⟩

/-- The points, normals and colours of a cloud object. -/
def contents (o : PC ℚ) : List (Option (List (List (List ℚ)))) :=
  [Attr.points, .normals, .colors, .features].map fun X => (getList X o).1.map fun l => l.map fun t => t.rows

/-- Every second row and column, without the pixels that have no depth. -/
theorem downsample_frames_case : frW.L = 1 ∧ 0 < frW.B ∧
    (match downsampleRgbd frW 2 with | .ok o => some ((contents o).getD 0 none) | .error _ => none) =
      some (some [[[0, 0, 0], [0, 0, 2], [0, 2, 0], [0, 2, 2], [0, 2, 4]], [[1, 0, 0], [1, 0, 4], [1, 2, 0], [1, 2, 4]]]) := by
  refine ⟨rfl, by decide, by decide +kernel⟩

/-- A map of two clouds (three points and one point) with normals. -/
def argW : Clouds ℚ
  | .points => some [⟨[[1, 0, 0], [2, 0, 0], [3, 0, 0]], 3⟩, ⟨[[4, 0, 0]], 3⟩]
  | .normals => some [⟨[[0, 0, 1], [0, 0, 2], [0, 0, 3]], 3⟩, ⟨[[0, 0, 4]], 3⟩]
  | _ => none
/-- A table with a pixel off the grid and with entries that are not sorted. -/
def rowsW : List Fusion.Row := [⟨0, 2, 4, 2⟩, ⟨1, 0, 0, 2⟩, ⟨0, 1, 1, 2⟩, ⟨0, 0, 2, 0⟩]

theorem downsample_map_case : (∀ r ∈ rowsW, r.b < 2 → (Fusion.rowAt [⟨[[1, 0, 0], [2, 0, 0], [3, 0, 0]], 3⟩, ⟨[[(4 : ℚ), 0, 0]], 3⟩] r.b r.n).isSome) ∧
    (match newList argW [⟨[[1, 0, 0], [2, 0, 0], [3, 0, 0]], 3⟩, ⟨[[4, 0, 0]], 3⟩] with
      | .error _ => none
      | .ok pc => match (downsamplePointclouds pc rowsW 2).1 with
        | .error _ => none
        | .ok o => some (contents o)) =
      some [some [[[3, 0, 0], [1, 0, 0]], [[4, 0, 0]]], some [[[0, 0, 3], [0, 0, 1]], [[0, 0, 4]]], none, none] := by
  refine ⟨by decide, by decide +kernel⟩

/-! ### C63 -/

/-- A map of a wall with two clouds, and two frame clouds of other sizes. -/
def wallMap : Clouds ℝ
  | .points => some [⟨[[0, 0, 1], [1, 0, 1], [0, 1, 1]], 3⟩, ⟨[[0, 0, 2]], 3⟩]
  | .normals => some [⟨[[0, 0, -1], [0, 0, -1], [0, 0, -1]], 3⟩, ⟨[[0, 0, -1]], 3⟩]
  | _ => none
def wallFrame : Clouds ℝ
  | .points => some [⟨[[0, 0, 2], [1, 1, 2]], 3⟩, ⟨[], 3⟩]
  | _ => none

theorem two_wf {a : Clouds ℝ} {P : List (T2 ℝ)} (hP : a .points = some P) (h : ∀ X l, a X = some l → X ≠ .features ∧ l.length = 2 ∧
    sizes l = sizes P ∧ ∀ t ∈ l, t.cols = 3 ∧ t.Valid) : Wf a P := by
  refine ⟨hP, ?_, fun X l hl => (h X l hl).2.2.1, fun X l hl t ht => ((h X l hl).2.2.2 t ht).2, fun X l hl => ⟨3, fun t ht => ((h X l hl).2.2.2 t ht).1, fun _ => rfl⟩⟩
  intro h0
  have := (h .points P hP).2.1
  rw [h0] at this; cases this

/-- The hypotheses of C63 are met: two clouds each, one frame cloud empty. -/
theorem provider_hypotheses : NearestIn (bruteNN : List (V3 ℝ) → V3 ℝ → Nat) ∧ ∃ maps frames P Q Nn,
    Inv maps wallMap ∧ Inv frames wallFrame ∧ wallMap .points = some Q ∧ wallMap .normals = some Nn ∧ wallFrame .points = some P ∧
    Q.length = P.length ∧ ∀ t ∈ Q, t.rows ≠ [] := by
  have w1 : Wf wallMap _ := two_wf rfl (by
    intro X l hl
    cases X <;> simp only [wallMap, Option.some.injEq, reduceCtorEq] at hl <;> subst hl <;>
      refine ⟨by simp, rfl, rfl, fun t ht => ?_⟩ <;> simp only [List.mem_cons, List.not_mem_nil, or_false] at ht <;>
      rcases ht with rfl | rfl <;> simp [T2.Valid])
  have w2 : Wf wallFrame _ := two_wf rfl (by
    intro X l hl
    cases X <;> simp only [wallFrame, Option.some.injEq, reduceCtorEq] at hl <;> subst hl <;>
      refine ⟨by simp, rfl, rfl, fun t ht => ?_⟩ <;> simp only [List.mem_cons, List.not_mem_nil, or_false] at ht <;>
      rcases ht with rfl | rfl <;> simp [T2.Valid])
  obtain ⟨m, _, hm, hfm⟩ := newList_rep w1
  obtain ⟨f, _, hf, hff⟩ := newList_rep w2
  exact ⟨bruteNN_nearest, m, f, _, _, _, .inr ⟨_, hm, .inr hfm⟩, .inr ⟨_, hf, .inr hff⟩, rfl, rfl, rfl, rfl, by simp⟩

end Verif.Icp
