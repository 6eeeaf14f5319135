import Verif.Fusion.Update
import Mathlib.Data.Rat.Floor
/-!
Concrete cases: the hypotheses of the fusion theorems are met, and the states in which the code violates C34, C37, C39 and C57.
-/
namespace Verif.Fusion
open Verif Pcs

/-- A frame of 2×2 pixels with depth 1 everywhere except at (1,1), where depth is missing; camera at the origin, unit focal length. -/
def in1 (B : Nat) : Rgbd.In ℚ :=
  ⟨B, 1, 2, 2, fun _ _ h w => ⟨h, w, 1⟩, fun _ _ h w => if h = 1 ∧ w = 1 then 0 else 1, fun _ => M4.one, some fun _ _ => M4.one,
    fun _ _ h w => ⟨w, h, 1⟩⟩
def fr1 (B : Nat) : Frame ℚ := Frame.ofIn Rgbd.nrm1 0 (in1 B)

/-- A map of one cloud with two points, one of which is near the frame's surface. -/
def P1 : List (T2 ℚ) := [⟨[[0, 0, 2], [5, 5, 1]], 3⟩]
def N1 : List (T2 ℚ) := [⟨[[0, 0, 1], [1, 0, 0]], 3⟩]
def F1 : List (T2 ℚ) := [⟨[[1], [0]], 1⟩]
def a1 : Clouds ℚ := fun X => match X with | .points => some P1 | .normals => some N1 | .colors => some P1 | .features => some F1
def s1 : PC ℚ := ⟨fun X => if X = .points then some P1 else a1 X, fun _ => none, none, fun _ => none, [2], some true, 1, 2⟩

theorem s1_hist : Hist s1 a1 := by
  refine .fromList (P := P1) rfl ?_ rfl
  intro X l hl t ht r hr
  cases X with
  | points => cases hl; revert r; revert t; decide
  | normals => cases hl; revert r; revert t; decide
  | colors => cases hl; revert r; revert t; decide
  | features => cases hl; revert r; revert t; decide

/-- All hypotheses of `fusion_spec` (and of the theorems it composes) hold here, and the table is not empty. -/
theorem fusion_hypotheses : Inv s1 a1 ∧ a1 .points = some P1 ∧ a1 .normals = some N1 ∧ a1 .colors = some P1 ∧ a1 .features = some F1 ∧
    (∀ t ∈ F1, t.cols = 1) ∧ (s1.lst .points).isSome ∧ (fr1 1).L = 1 ∧ (fr1 1).B = P1.length ∧ (fr1 1).poses = some (fun _ _ => M4.one) ∧
    SmallIdx P1 (fr1 1) ∧ (∀ b n, 0 ≤ conf F1 b n) ∧ ZeroNormals (fr1 1) ∧ (0 : ℚ) ≤ 1 / 2 ∧
    (findCorrespondences Rgbd.nrm1 s1 (fr1 1) 2 (1 / 2)).1 = .ok [⟨0, 0, 0, 0⟩] := by
  refine ⟨s1_hist.inv, rfl, rfl, rfl, rfl, by decide, rfl, rfl, rfl, rfl, ⟨by decide, by decide, by decide, ?_⟩, ?_, ofIn_zeroNormals _ _ _,
    by norm_num, by decide +kernel⟩
  · intro b
    match b with
    | 0 => decide
    | b + 1 => show 0 ≤ _; exact Nat.zero_le _
  · intro b n
    match b, n with
    | 0, 0 => decide +kernel
    | 0, 1 => decide +kernel
    | 0, n + 2 => show (0 : ℚ) ≤ 0; exact le_refl _
    | b + 1, n => show (0 : ℚ) ≤ 0; exact le_refl _

/-- **C39 is violated** when there are correspondences: `update_map_fusion(…, inplace=False)` returns a new map but has also moved the
matched point of the map it was given. -/
theorem inplace_false_mutates : ∃ (s s' res : PC ℚ) (a : Clouds ℚ), Hist s a ∧
    updateMapFusion Rgbd.nrm1 (fun _ => 1) s (fr1 1) 2 (1 / 2) false = (.ok res, s') ∧
    (getList .points s).1 = some [⟨[[0, 0, 2], [5, 5, 1]], 3⟩] ∧ (getList .points s').1 = some [⟨[[0, 0, 3 / 2], [0, 0, 0]], 3⟩] := by
  have h : ∃ res, (updateMapFusion Rgbd.nrm1 (fun _ => 1) s1 (fr1 1) 2 (1 / 2) false).1 = .ok res := by
    have : (updateMapFusion Rgbd.nrm1 (fun _ => 1) s1 (fr1 1) 2 (1 / 2) false).1.isOk = true := by decide +kernel
    revert this
    cases (updateMapFusion Rgbd.nrm1 (fun _ => 1) s1 (fr1 1) 2 (1 / 2) false).1 with
    | error e => intro h; cases h
    | ok r => intro _; exact ⟨r, rfl⟩
  obtain ⟨res, h⟩ := h
  refine ⟨s1, (updateMapFusion Rgbd.nrm1 (fun _ => 1) s1 (fr1 1) 2 (1 / 2) false).2, res, a1, s1_hist, Prod.ext h rfl, by decide +kernel,
    by decide +kernel⟩

/-- **C37 is violated** for points of zero confidence: in the run above the point (5,5,1), which has no correspondence, is moved to the
origin. -/
theorem zero_confidence_lost : ∃ (s : PC ℚ) (a : Clouds ℚ) (s' : PC ℚ), Hist s a ∧ vecAt P1 0 1 = some ⟨5, 5, 1⟩ ∧ a .points = some P1 ∧
    (∀ r ∈ [(⟨0, 0, 0, 0⟩ : Row)], ¬ (r.b = 0 ∧ r.n = 1)) ∧ s' = (fuseWithMap (fun _ => 1) s (fr1 1) [⟨0, 0, 0, 0⟩] true).2 ∧
    (getList .points s').1.map (fun P' => vecAt P' 0 1) = some (some ⟨0, 0, 0⟩) :=
  ⟨s1, a1, _, s1_hist, by decide +kernel, rfl, by simp, rfl, by decide +kernel⟩

/-! ### C34: the excluded state -/

/-- Two clouds of one and two points. -/
def P2 : List (T2 ℚ) := [⟨[[0, 0, 1]], 3⟩, ⟨[[0, 0, 1], [2, 0, 2]], 3⟩]
def a2 : Clouds ℚ := fun X => match X with | .points => some P2 | _ => none
def s2 : PC ℚ := ⟨fun X => if X = .points then some P2 else a2 X, fun _ => none, none, fun _ => none, [1, 2], some false, 2, 2⟩

theorem s2_hist : Hist s2 a2 := by
  refine .fromList (P := P2) rfl ?_ rfl
  intro X l hl t ht r hr
  cases X with
  | points => cases hl; revert r; revert t; decide
  | normals => cases hl
  | colors => cases hl
  | features => cases hl

/-- **C34 is violated** after `rotate_` (here by the identity) of a batch of clouds of different sizes: the visible point 1 of cloud 1, which
projects to row 0, column 1, is reported at column 0, because the clone the function projects has lost the sizes of the clouds. -/
theorem active_wrong : ∃ (s : PC ℚ) (a : Clouds ℚ) (P : List (T2 ℚ)), Hist s a ∧ a .points = some P ∧
    (findActive s (fr1 2)).1 = .ok [⟨0, 0, 0, 0⟩, ⟨1, 0, 0, 0⟩, ⟨1, 1, 0, 0⟩] ∧
    vecAt P 1 1 = some ⟨2, 0, 2⟩ ∧ Visible 2 2 M4.one (toCamera M4.one (⟨2, 0, 2⟩ : V3 ℚ)) ∧
    Nearest (Geom.projectPoint M4.one (.inl (toCamera M4.one (⟨2, 0, 2⟩ : V3 ℚ)))).2 0 ∧
    Nearest (Geom.projectPoint M4.one (.inl (toCamera M4.one (⟨2, 0, 2⟩ : V3 ℚ)))).1 1 := by
  refine ⟨(rotate_ (.single M3.one) true s2).2, _, _, Hist.rotate (.single M3.one) true s2_hist (by simp [Operand.Fits]), rfl, by decide +kernel,
    by decide +kernel, ?_, ?_, ?_⟩
  · unfold Visible; decide +kernel
  · unfold Nearest; decide +kernel
  · unfold Nearest; decide +kernel

/-! ### C57: beyond 2^24 -/

theorem bestRows_single (k : Key ℚ) : bestRows [k] = [⟨k.b, k.n, k.h, k.w⟩] := by
  simp [bestRows, keepFirst, List.dedup_cons_of_notMem]

theorem big_wf (N : Nat) : Wf (fun X : Attr => match X with
    | .points => some [(⟨List.replicate N [0, 0, 0], 3⟩ : T2 ℚ)]
    | .features => some [(⟨List.replicate N [1], 1⟩ : T2 ℚ)]
    | _ => none) [⟨List.replicate N [0, 0, 0], 3⟩] := by
  refine ⟨rfl, by simp, ?_, ?_, ?_⟩
  · intro X l hl
    cases X <;> simp only [Option.some.injEq, reduceCtorEq] at hl <;> subst hl <;> simp [sizes]
  · intro X l hl t ht r hr
    cases X <;> simp only [Option.some.injEq, reduceCtorEq] at hl <;> subst hl <;> rw [List.mem_singleton] at ht <;> subst ht <;>
      rw [List.eq_of_mem_replicate hr] <;> rfl
  · intro X l hl
    cases X <;> simp only [Option.some.injEq, reduceCtorEq] at hl <;> subst hl
    · exact ⟨3, by simp, fun _ => rfl⟩
    · exact ⟨1, by simp, fun h => absurd rfl h⟩

/-- **C57 is violated** for maps of more than 2^24 + 1 points: `find_best_unique_correspondences`, given the single correspondence of map
point 2^24 + 1, returns map point 2^24. -/
theorem best_wrong_index : ∃ (s s' : PC ℚ) (a : Clouds ℚ) (P : List (T2 ℚ)), Inv s a ∧ a .points = some P ∧
    RowsOk P (fr1 1) [⟨0, 2 ^ 24 + 1, 0, 0⟩] ∧
    findBest s (fr1 1) [⟨0, 2 ^ 24 + 1, 0, 0⟩] = (.ok [⟨0, 2 ^ 24, 0, 0⟩], s') := by
  obtain ⟨s, e, r, f⟩ := newList_rep (big_wf (2 ^ 24 + 2))
  have hok : RowsOk [(⟨List.replicate (2 ^ 24 + 2) [0, 0, 0], 3⟩ : T2 ℚ)] (fr1 1) [⟨0, 2 ^ 24 + 1, 0, 0⟩] := by
    intro r hr
    rw [List.mem_singleton] at hr
    subst hr
    refine ⟨?_, by decide, by decide, by decide⟩
    rw [sizeAt_isSome]
    show 2 ^ 24 + 1 < (List.replicate (2 ^ 24 + 2) _).length
    rw [List.length_replicate]
    exact Nat.lt_succ_self _
  obtain ⟨s', e', _⟩ := findBest_eq (fr := fr1 1) (.inr ⟨_, r, .inr f⟩) rfl rfl rfl rfl hok
  refine ⟨s, s', _, _, .inr ⟨_, r, .inr f⟩, rfl, hok, ?_⟩
  rw [e', List.map_singleton, bestRows_single]
  simp only [f32_fails]
  rw [f32_small (Nat.zero_le _)]
end Verif.Fusion
