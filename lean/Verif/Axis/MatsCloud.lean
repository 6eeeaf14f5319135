import Verif.Axis.MatsProps
import Mathlib.Tactic.IntervalCases
/-!
C110: `transform_pointcloud` and `transform_normals` on tensors of any shape, the link of the matrix functions to C21 and C22, concrete cases.
-/
namespace Verif.Axis
open Verif.Nd (Tensor)
open Verif.Nd.Tensor (bidx matmul zipT bc)
variable {α : Type*} [Field α] [LinearOrder α]

theorem checkCloud_iff {p t : Tensor α} : checkCloud p t = .ok () ↔ (∃ n, p.dims = [3, n]) ∧ ∃ ds, t.dims = 4 :: 4 :: ds := by
  unfold checkCloud
  constructor
  · intro h
    split at h
    · cases h
    · rename_i h2
      split at h
      · cases h
      · rename_i h3
        split at h
        · cases h
        · rename_i h4
          obtain ⟨c, r, hp⟩ := rank2 (not_not.1 h2)
          have h3 := not_not.1 h3
          have h4 := not_not.1 h4
          rw [hp, List.head?_cons, Option.some.injEq] at h3
          subst h3
          refine ⟨⟨r, hp⟩, ?_⟩
          match hd : t.dims, h4 with
          | [], h4 => simp at h4
          | [_], h4 => simp at h4
          | a :: b :: ds, h4 =>
            simp at h4
            obtain ⟨rfl, rfl⟩ := h4
            exact ⟨ds, rfl⟩
  · rintro ⟨⟨n, hp⟩, ds, ht⟩
    simp [Tensor.rank, hp, ht]

theorem checkCloud_error {p t : Tensor α} (h : ¬ ((∃ n, p.dims = [3, n]) ∧ ∃ ds, t.dims = 4 :: 4 :: ds)) : checkCloud p t = .error .valueError := by
  have := mt checkCloud_iff.1 h
  unfold checkCloud at this ⊢
  split
  · rfl
  · rename_i h2
    split
    · rfl
    · rename_i h3
      split
      · rfl
      · rename_i h4
        rw [if_neg h2, if_neg h3, if_neg h4] at this
        exact absurd rfl this

/-- **C110**.  `transform_pointcloud` moves point `n` of a cloud of shape `(N, 3)` by the single 4×4 matrix: `R p + t`. -/
theorem cloud_result (p t : Tensor α) (N : ℕ) (hp : p.dims = [3, N]) (ht : t.dims = [4, 4]) :
    ∃ out, transformPointcloud p t = .ok out ∧ out.dims = [3, N] ∧ ∀ n < N, ∀ k < 3,
      out.get [k, n] = ent t k 0 * p.get [0, n] + ent t k 1 * p.get [1, n] + ent t k 2 * p.get [2, n] + ent t k 3 := by
  have g : checkCloud p t = .ok () := checkCloud_iff.2 ⟨⟨N, hp⟩, [], ht⟩
  have o1 : outerCol t = .ok ⟨[3], fun i => t.get (i.insertIdx 0 3)⟩ := by simp [outerCol, Tensor.rank, ht, List.modify, List.modifyTailIdx, List.modifyTailIdx.go]
  have o2 : outerBlock t = ⟨[3, 3], t.get⟩ := by simp [outerBlock, Tensor.rank, ht, List.modify, List.modifyTailIdx, List.modifyTailIdx.go]
  have hb : bc [N, 3] [1, 3] = .ok [N, 3] := by by_cases h : N = 1 <;> simp [bc, h]
  simp only [transformPointcloud, g, o1, o2, mm, transposeT, hp, matmul, ne_eq, not_true, if_false, bc, lift, zipT, Tensor.unsqueeze, Tensor.rank, List.length_singleton,
    Nat.sub_self, List.insertIdx_zero, hb]
  refine ⟨_, rfl, rfl, fun n hn k hk => ?_⟩
  have e1 : (if N = 1 then 0 else n) = n := by split <;> omega
  simp [bidx, e1, sum3_range, ent]

/-- **C110**.  `transform_normals` turns every vector by the rotation part. -/
theorem normals_result (p t : Tensor α) (N : ℕ) (hp : p.dims = [3, N]) (ht : t.dims = [4, 4]) :
    ∃ out, transformNormals p t = .ok out ∧ out.dims = [3, N] ∧ ∀ n < N, ∀ k < 3,
      out.get [k, n] = ent t k 0 * p.get [0, n] + ent t k 1 * p.get [1, n] + ent t k 2 * p.get [2, n] := by
  have g : checkCloud p t = .ok () := checkCloud_iff.2 ⟨⟨N, hp⟩, [], ht⟩
  have o2 : outerBlock t = ⟨[3, 3], t.get⟩ := by simp [outerBlock, Tensor.rank, ht, List.modify, List.modifyTailIdx, List.modifyTailIdx.go]
  simp only [transformNormals, g, o2, mm, transposeT, hp, matmul, ne_eq, not_true, if_false, bc, lift]
  refine ⟨_, rfl, rfl, fun n hn k hk => ?_⟩
  simp [bidx, sum3_range, ent]

theorem outer_head {t : Tensor α} {ds : List ℕ} (ht : t.dims = 4 :: 4 :: ds) (hd : ds ≠ []) : ∃ m es, (outerBlock t).dims = 4 :: m :: es := by
  obtain ⟨d, ds, rfl⟩ : ∃ d ds', ds = d :: ds' := by cases ds with
    | nil => exact absurd rfl hd
    | cons d ds => exact ⟨d, ds, rfl⟩
  have h1 : t.rank = ds.length + 3 := by simp [Tensor.rank, ht]
  show ∃ m es, ((t.dims.modify (t.rank - 1) (min 3)).modify (t.rank - 2) (min 3)) = 4 :: m :: es
  rw [h1, ht, show ds.length + 3 - 1 = ds.length + 1 + 1 by omega, show ds.length + 3 - 2 = ds.length + 1 by omega]
  rw [List.modify_succ_cons, List.modify_succ_cons, List.modify_succ_cons]
  cases hx : ds.length with
  | zero => exact ⟨_, _, by rw [List.modify_zero_cons]⟩
  | succ n => exact ⟨_, _, by rw [List.modify_succ_cons]⟩

theorem outer_mm {p t : Tensor α} {ds : List ℕ} {N : ℕ} (hp : p.dims = [3, N]) (ht : t.dims = 4 :: 4 :: ds) (hd : ds ≠ []) :
    mm (outerBlock t) (transposeT p) = .error .runtimeError := by
  obtain ⟨m, es, h⟩ := outer_head ht hd
  simp only [mm, transposeT, hp, matmul, h, ne_eq]
  rw [if_pos (by omega)]
  rfl

/-- **C110**.  Everything else raises.  A batch of transforms passes the check of the shape (only its last two sizes are looked at) but then
raises RuntimeError, or IndexError from four dimensions on when the second dimension has at most three elements. -/
theorem cloud_errors (p t : Tensor α) (e : MErr) :
    let bad := ¬ ((∃ n, p.dims = [3, n]) ∧ ∃ ds, t.dims = 4 :: 4 :: ds) ∧ e = .valueError
    (transformPointcloud p t = .error e ↔ bad ∨
      ((∃ n, p.dims = [3, n]) ∧ ∃ ds, t.dims = 4 :: 4 :: ds ∧ ds ≠ [] ∧
        e = if ∃ m, t.dims[t.rank - 2]? = some m ∧ 3 < m then .runtimeError else .indexError)) ∧
    (transformNormals p t = .error e ↔ bad ∨ ((∃ n, p.dims = [3, n]) ∧ ∃ ds, t.dims = 4 :: 4 :: ds ∧ ds ≠ [] ∧ e = .runtimeError)) := by
  intro bad
  by_cases h : (∃ n, p.dims = [3, n]) ∧ ∃ ds, t.dims = 4 :: 4 :: ds
  swap
  · have g := checkCloud_error h
    have hb : bad ↔ e = .valueError := by simp only [bad]; tauto
    refine ⟨?_, ?_⟩
    · simp only [transformPointcloud, g, Except.error.injEq, hb]
      constructor
      · exact fun h => .inl h.symm
      · rintro (rfl | ⟨h1, ds, h2, _⟩)
        · rfl
        · exact absurd ⟨h1, ds, h2⟩ h
    · simp only [transformNormals, g, Except.error.injEq, hb]
      constructor
      · exact fun h => .inl h.symm
      · rintro (rfl | ⟨h1, ds, h2, _⟩)
        · rfl
        · exact absurd ⟨h1, ds, h2⟩ h
  · have g := checkCloud_iff.2 h
    have hb : ¬ bad := fun hb => hb.1 h
    obtain ⟨⟨N, hp⟩, ds, ht⟩ := h
    by_cases hd : ds = []
    · subst hd
      obtain ⟨o1, e1, _⟩ := cloud_result p t N hp ht
      obtain ⟨o2, e2, _⟩ := normals_result p t N hp ht
      rw [e1, e2]
      constructor
      · constructor
        · intro h; cases h
        · rintro (h | ⟨_, ds, h1, h2, _⟩)
          · exact absurd h hb
          · rw [ht] at h1; cases h1; exact absurd rfl h2
      · constructor
        · intro h; cases h
        · rintro (h | ⟨_, ds, h1, h2, _⟩)
          · exact absurd h hb
          · rw [ht] at h1; cases h1; exact absurd rfl h2
    · have hm := outer_mm hp ht hd
      constructor
      · have e0 : transformPointcloud p t = .error (if ∃ m, t.dims[t.rank - 2]? = some m ∧ 3 < m then .runtimeError else .indexError) := by
          simp only [transformPointcloud, g, outerCol, hm]
          cases hx : t.dims[t.rank - 2]? with
          | none => simp
          | some m =>
            by_cases h3 : 3 < m
            · simp [h3]
            · simp [h3]
        rw [e0]
        simp only [hb, false_or, Except.error.injEq]
        constructor
        · exact fun h => ⟨⟨N, hp⟩, ds, ht, hd, h.symm⟩
        · rintro ⟨_, ds, _, _, h⟩; exact h.symm
      · have e0 : transformNormals p t = .error .runtimeError := by simp only [transformNormals, g, hm]
        rw [e0]
        simp only [hb, false_or, Except.error.injEq]
        constructor
        · exact fun h => ⟨⟨N, hp⟩, ds, ht, hd, h.symm⟩
        · rintro ⟨_, ds, _, _, h⟩; exact h.symm

/-! ### Link to the models of single matrices -/

/-- The 4×4 tensor that holds a matrix. -/
def ofM4 (M : M4 α) : Tensor α := ⟨[4, 4], fun i => match i with
  | [j, r] =>
    let row : ℕ → V3 α × α := fun r => match r with
      | 0 => (M.R.r0, M.t.x)
      | 1 => (M.R.r1, M.t.y)
      | 2 => (M.R.r2, M.t.z)
      | _ => (M.b, M.s)
    match j with
    | 0 => (row r).1.x
    | 1 => (row r).1.y
    | 2 => (row r).1.z
    | _ => (row r).2
  | _ => 0⟩

variable [IsStrictOrderedRing α]

/-- **C110**.  On 4×4 tensors the three functions are those of C21. -/
theorem mats_are_geom (A B : M4 α) :
    (∃ o, inverseTransfom3d (ofM4 A) = .ok o ∧ o.dims = [4, 4] ∧ ∀ i < 4, ∀ j < 4, ent o i j = ent (ofM4 (Geom.inverseTransform1 A)) i j) ∧
    (∃ o, composeTransforms3d (ofM4 A) (ofM4 B) = .ok o ∧ o.dims = [4, 4] ∧ ∀ i < 4, ∀ j < 4, ent o i j = ent (ofM4 (Geom.composeTransforms1 A B)) i j) := by
  constructor
  · obtain ⟨o, e, d, v⟩ := inverse_result (ofM4 A) 4 4 rfl (by omega) (by omega)
    refine ⟨o, e, d, fun i hi j hj => ?_⟩
    rw [v i j hi hj]
    interval_cases i <;> interval_cases j <;>
      simp [inverseEntry, ent, ofM4, Geom.inverseTransform1, M3.transpose, M3.neg, M3.mulVec, M3.c0, M3.c1, M3.c2, V3.dot, V3.neg, V3.zero] <;> try ring
  · obtain ⟨o, e, d, v⟩ := compose_result (ofM4 A) (ofM4 B) 4 4 rfl rfl (by omega) (by omega)
    refine ⟨o, e, d, fun i hi j hj => ?_⟩
    rw [v i j hi hj]
    interval_cases i <;> interval_cases j <;>
      simp [composeEntry, ent, ofM4, Geom.composeTransforms1, M3.mul, M3.mulVec, M3.transpose, M3.c0, M3.c1, M3.c2, V3.dot, V3.add, V3.zero]

/-- **C110**.  On 4×4 tensors the cloud functions are those of C22: row `n` of the result is the image of row `n`. -/
theorem clouds_are_geom (A : M4 α) (pts : List (V3 α)) (p : Tensor α) (hp : p.dims = [3, pts.length])
    (hv : ∀ n q, pts[n]? = some q → p.get [0, n] = q.x ∧ p.get [1, n] = q.y ∧ p.get [2, n] = q.z) :
    (∃ o, transformPointcloud p (ofM4 A) = .ok o ∧ o.dims = [3, pts.length] ∧
      ∀ n q, (Geom.transformPointcloud A pts)[n]? = some q → o.get [0, n] = q.x ∧ o.get [1, n] = q.y ∧ o.get [2, n] = q.z) ∧
    (∃ o, transformNormals p (ofM4 A) = .ok o ∧ o.dims = [3, pts.length] ∧
      ∀ n q, (Geom.transformNormals A pts)[n]? = some q → o.get [0, n] = q.x ∧ o.get [1, n] = q.y ∧ o.get [2, n] = q.z) := by
  constructor
  · obtain ⟨o, e, d, v⟩ := cloud_result p (ofM4 A) pts.length hp rfl
    refine ⟨o, e, d, fun n q hq => ?_⟩
    rw [Geom.transformPointcloud, List.getElem?_map, Option.map_eq_some_iff] at hq
    obtain ⟨u, hu, rfl⟩ := hq
    obtain ⟨h0, h1, h2⟩ := hv n u hu
    have hn : n < pts.length := (List.getElem?_eq_some_iff.1 hu).1
    rw [v n hn 0 (by omega), v n hn 1 (by omega), v n hn 2 (by omega), h0, h1, h2]
    simp [ent, ofM4, M3.mulVec, V3.dot, V3.add]
  · obtain ⟨o, e, d, v⟩ := normals_result p (ofM4 A) pts.length hp rfl
    refine ⟨o, e, d, fun n q hq => ?_⟩
    rw [Geom.transformNormals, List.getElem?_map, Option.map_eq_some_iff] at hq
    obtain ⟨u, hu, rfl⟩ := hq
    obtain ⟨h0, h1, h2⟩ := hv n u hu
    have hn : n < pts.length := (List.getElem?_eq_some_iff.1 hu).1
    rw [v n hn 0 (by omega), v n hn 1 (by omega), v n hn 2 (by omega), h0, h1, h2]
    simp [ent, ofM4, M3.mulVec, V3.dot]

/-! ### Refutations -/

/-- **C110, what the guard misses**: a 3×4 matrix `[R | t]` is not refused; in its "inverse" the third component of the translation is always 1. -/
theorem inverse_3x4_refuted (t : Tensor α) (ht : t.dims = [4, 3]) : ∃ out, inverseTransfom3d t = .ok out ∧ ent out 2 3 = 1 := by
  obtain ⟨o, e, _, v⟩ := inverse_result t 3 4 ht (by omega) (by omega)
  exact ⟨o, e, by rw [v 2 3 (by omega) (by omega), inverseEntry, if_pos ⟨rfl, rfl⟩]⟩

/-- A larger matrix is not refused either: of a 5×5 matrix only three rows and four columns are used. -/
theorem inverse_5x5_refuted (t : Tensor α) (ht : t.dims = [5, 5]) : ∃ out, inverseTransfom3d t = .ok out ∧ out.dims = [5, 5] ∧ ent out 3 3 = 0 ∧ ent out 4 4 = 1 := by
  obtain ⟨o, e, d, v⟩ := inverse_result t 5 5 ht (by omega) (by omega)
  refine ⟨o, e, d.trans ht, ?_, ?_⟩
  · rw [v 3 3 (by omega) (by omega)]; simp [inverseEntry]
  · rw [v 4 4 (by omega) (by omega)]; simp [inverseEntry]

/-- The documented batch `(N, 4, 4)` raises RuntimeError in all five functions, for every `N`, also `N = 1` and `N = 3`. -/
theorem batch_refuted (N M : ℕ) (t u p : Tensor α) (ht : t.dims = [4, 4, N]) (hu : u.dims = [4, 4, N]) (hp : p.dims = [3, M]) :
    inverseTransfom3d t = .error .runtimeError ∧ composeTransforms3d t u = .error .runtimeError ∧ relativeTransform3d t u = .error .runtimeError ∧
    transformPointcloud p t = .error .runtimeError ∧ transformNormals p t = .error .runtimeError := by
  have h1 : inverseTransfom3d t = .error .runtimeError :=
    (inverse_errors t _).2 (.inr (.inr ⟨⟨4, 4, [N], ht, by simp, by omega, .inl (by simp)⟩, rfl⟩))
  refine ⟨h1, (compose_errors t u _).2 (.inr (.inr (.inr ⟨⟨4, 4, [N], ht, hu.trans ht.symm, by simp, by omega, .inl (by simp)⟩, rfl⟩))),
    by simp only [relativeTransform3d, h1], ?_, ?_⟩
  · refine (cloud_errors p t _).1.2 (.inr ⟨⟨M, hp⟩, [N], ht, by simp, ?_⟩)
    rw [if_pos ⟨4, by simp [Tensor.rank, ht], by omega⟩]
  · exact (cloud_errors p t _).2.2 (.inr ⟨⟨M, hp⟩, [N], ht, by simp, rfl⟩)

/-- `relative_transform_3d` on single 4×4 matrices is the composition of C21. -/
theorem relative_4x4 (A B : M4 α) : ∃ o, relativeTransform3d (ofM4 A) (ofM4 B) = .ok o ∧ o.dims = [4, 4] ∧ ∀ i < 4, ∀ j < 4,
    ent o i j = ent (ofM4 (Geom.composeTransforms1 (Geom.inverseTransform1 A) B)) i j := by
  obtain ⟨u, e, d, v⟩ := (mats_are_geom A A).1
  obtain ⟨o, e', d', v'⟩ := compose_result u (ofM4 B) 4 4 d rfl (by omega) (by omega)
  refine ⟨o, by simp only [relativeTransform3d, e, e'], d'.trans d, fun i hi j hj => ?_⟩
  obtain ⟨o2, _, _, w⟩ := (mats_are_geom (Geom.inverseTransform1 A) B).2
  rw [v' i j hi hj]
  have : composeEntry u (ofM4 B) 4 4 i j = composeEntry (ofM4 (Geom.inverseTransform1 A)) (ofM4 B) 4 4 i j := by
    simp only [composeEntry]
    split
    · rfl
    · split
      · rename_i h; rw [v i hi 0 (by omega), v i hi 1 (by omega), v i hi 2 (by omega)]
      · split
        · rw [v i hi 0 (by omega), v i hi 1 (by omega), v i hi 2 (by omega), v i hi 3 (by omega)]
        · rfl
  rw [this]
  obtain ⟨o3, e3, _, v3⟩ := compose_result (ofM4 (Geom.inverseTransform1 A)) (ofM4 B) 4 4 rfl rfl (by omega) (by omega)
  obtain ⟨o4, e4, _, v4⟩ := (mats_are_geom (Geom.inverseTransform1 A) B).2
  rw [e3] at e4; cases e4
  rw [← v3 i j hi hj, v4 i hi j hj]

end Verif.Axis
