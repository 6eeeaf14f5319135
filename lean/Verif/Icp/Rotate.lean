import Verif.Icp.SmoothStep
import Verif.Icp.Loop
/-!
C80: the orientation of the world, a reflection of it, and the order of the source points do not matter to the two registration routines.
-/
namespace Verif.Icp
open Verif Pcs
set_option linter.unusedSectionVars false

attribute [local simp] V3.zero V3.add V3.sub V3.smul V3.dot V3.cross V3.normSq M3.one M3.c0 M3.c1 M3.c2 M3.transpose M3.mulVec M3.mul M3.add M3.smul M3.det
  M4.one M4.mul

/-! ### Specification -/

/-- An orthogonal matrix: a rotation, or a rotation followed by a reflection. -/
def Orthogonal (A : M3 ℝ) : Prop := A.mul A.transpose = M3.one ∧ A.transpose.mul A = M3.one

/-- The transform `A ∘ T ∘ A⁻¹`: what `T` is called in coordinates turned by `A`. -/
noncomputable def turned (A : M3 ℝ) (T : M4 ℝ) : M4 ℝ := ⟨(A.mul T.R).mul A.transpose, A.mulVec T.t, T.b, T.s⟩

/-- The neighbour search looks at distances only. -/
def ByDistance (nn : List (V3 ℝ) → V3 ℝ → Nat) : Prop :=
  ∀ tgt tgt2 s s2, (tgt.map fun q => (s.sub q).normSq) = (tgt2.map fun q => (s2.sub q).normSq) → nn tgt s = nn tgt2 s2

/-- The second registration fails like the first, or answers the same transform in the turned coordinates, with the same associations. -/
def SameTurned (A : M3 ℝ) (r r2 : Except Err (M4 ℝ × List Nat)) : Prop :=
  (∃ T idx idx2, r = .ok (T, idx) ∧ r2 = .ok (turned A T, idx2) ∧ idx2.Perm idx) ∨ ∃ e, r = .error e ∧ r2 = .error e

/-! ### Linear algebra -/

section
variable {A : M3 ℝ}

theorem m3_ext_mulVec {M N : M3 ℝ} (h : ∀ x, M.mulVec x = N.mulVec x) : M = N := by
  have h1 := h ⟨1, 0, 0⟩; have h2 := h ⟨0, 1, 0⟩; have h3 := h ⟨0, 0, 1⟩
  simp only [M3.mulVec, V3.dot, V3.mk.injEq, mul_one, mul_zero, add_zero, zero_add] at h1 h2 h3
  obtain ⟨a1, a2, a3⟩ := h1; obtain ⟨b1, b2, b3⟩ := h2; obtain ⟨c1, c2, c3⟩ := h3
  ext <;> assumption

theorem back (hA : Orthogonal A) (v : V3 ℝ) : A.transpose.mulVec (A.mulVec v) = v := by
  rw [← M3.mul_mulVec, hA.2, M3.one_mulVec]

theorem forth (hA : Orthogonal A) (v : V3 ℝ) : A.mulVec (A.transpose.mulVec v) = v := by
  rw [← M3.mul_mulVec, hA.1, M3.one_mulVec]

theorem det_sq (hA : Orthogonal A) : A.det * A.det = 1 := by
  have h := congrArg M3.det hA.1
  rw [M3.det_mul] at h
  have e : A.transpose.det = A.det := by simp; ring
  have e1 : (M3.one : M3 ℝ).det = 1 := by simp
  rw [e, e1] at h; exact h

theorem cross_turned (hA : Orthogonal A) (a b : V3 ℝ) : (A.mulVec a).cross (A.mulVec b) = (A.mulVec (a.cross b)).smul A.det := by
  have h : A.transpose.mulVec ((A.mulVec a).cross (A.mulVec b)) = (a.cross b).smul A.det := by
    ext <;> simp <;> ring
  rw [← forth hA ((A.mulVec a).cross (A.mulVec b)), h, M3.mulVec_smul]

theorem turned_affine {T : M4 ℝ} (h : T.Affine) : (turned A T).Affine := h

theorem turned_one (hA : Orthogonal A) : turned A M4.one = M4.one := by
  have e : (turned A M4.one).R = M3.one := by show (A.mul M3.one).mul A.transpose = M3.one; rw [M3.mul_one, hA.1]
  refine M4.ext e ?_ rfl rfl
  ext <;> simp [turned]

theorem turned_mul (hA : Orthogonal A) {T U : M4 ℝ} (hT : T.Affine) (hU : U.Affine) : turned A (T.mul U) = (turned A T).mul (turned A U) := by
  obtain ⟨hb, hs⟩ := hU
  obtain ⟨hb', hs'⟩ := hT
  have hm : ∀ M N : M3 ℝ, ((A.mul M).mul A.transpose).mul ((A.mul N).mul A.transpose) = (A.mul (M.mul N)).mul A.transpose := by
    intro M N
    rw [M3.mul_assoc, ← M3.mul_assoc A.transpose, ← M3.mul_assoc A.transpose, hA.2, M3.one_mul, M3.mul_assoc, M3.mul_assoc, M3.mul_assoc]
  have e1 : (T.mul U).R = T.R.mul U.R := by ext <;> simp [M4.mul, hb, M3.outer]
  have e2 : (T.mul U).t = (T.R.mulVec U.t).add T.t := by ext <;> simp [M4.mul, hs]
  have e3 : ((turned A T).mul (turned A U)).R = (turned A T).R.mul (turned A U).R := by ext <;> simp [M4.mul, turned, hb, M3.outer]
  have e4 : ((turned A T).mul (turned A U)).t = ((turned A T).R.mulVec (turned A U).t).add (turned A T).t := by ext <;> simp [M4.mul, turned, hs]
  refine M4.ext ?_ ?_ ?_ ?_
  · rw [e3]; show (A.mul (T.mul U).R).mul A.transpose = _; rw [e1]; exact (hm _ _).symm
  · rw [e4]; show A.mulVec (T.mul U).t = (((A.mul T.R).mul A.transpose).mulVec (A.mulVec U.t)).add (A.mulVec T.t)
    rw [e2, M3.mul_mulVec, back hA, M3.mul_mulVec, M3.mulVec_add]
  · ext <;> simp [turned, M4.mul, hb, hs, hb', hs']
  · simp [turned, M4.mul, hb, hs, hb', hs']

theorem cloud_turned (hA : Orthogonal A) (T : M4 ℝ) (src : List (V3 ℝ)) :
    Geom.transformPointcloud (turned A T) (src.map A.mulVec) = (Geom.transformPointcloud T src).map A.mulVec := by
  simp only [Geom.transformPointcloud, List.map_map]
  refine List.map_congr_left fun p _ => ?_
  show (((A.mul T.R).mul A.transpose).mulVec (A.mulVec p)).add (A.mulVec T.t) = A.mulVec ((T.R.mulVec p).add T.t)
  rw [M3.mul_mulVec, back hA, M3.mul_mulVec, M3.mulVec_add]

/-! ### The exponential -/

/-- The angular velocity in the turned coordinates (an axial vector). -/
noncomputable def axial (A : M3 ℝ) (w : V3 ℝ) : V3 ℝ := (A.mulVec w).smul A.det

theorem hat_mulVec (w x : V3 ℝ) : (Geom.so3Hat w).mulVec x = w.cross x := by
  ext <;> simp [Geom.so3Hat] <;> ring

theorem axial_cross (hA : Orthogonal A) (w x : V3 ℝ) : (axial A w).cross (A.mulVec x) = A.mulVec (w.cross x) := by
  have h : (axial A w).cross (A.mulVec x) = ((A.mulVec w).cross (A.mulVec x)).smul A.det := by
    rw [axial]; ext <;> simp <;> ring
  rw [h, cross_turned hA]
  have e : ((A.mulVec (w.cross x)).smul A.det).smul A.det = (A.mulVec (w.cross x)).smul (A.det * A.det) := by
    ext <;> simp [V3.smul, mul_assoc]
  rw [e, det_sq hA]; ext <;> simp [V3.smul]

theorem hat_axial (hA : Orthogonal A) (w : V3 ℝ) : Geom.so3Hat (axial A w) = (A.mul (Geom.so3Hat w)).mul A.transpose := by
  refine m3_ext_mulVec fun x => ?_
  rw [hat_mulVec, M3.mul_mulVec, M3.mul_mulVec, hat_mulVec, ← axial_cross hA, forth hA]

theorem normSq_axial (hA : Orthogonal A) (w : V3 ℝ) : (axial A w).normSq = w.normSq := by
  have h : (axial A w).normSq = (A.det * A.det) * ((A.mulVec w).dot (A.mulVec w)) := by rw [axial]; simp only [V3.normSq, V3.dot, V3.smul]; ring
  rw [h, det_sq hA, M3.dot_orthogonal hA.2, one_mul]; rfl

theorem vnorm_axial (hA : Orthogonal A) (w : V3 ℝ) : Geom.vnorm (axial A w) = Geom.vnorm w := by
  have := normSq_axial hA w
  simp only [V3.normSq, V3.dot] at this
  rw [Geom.vnorm, Geom.vnorm, this]

theorem conj_add (M N : M3 ℝ) : (A.mul (M.add N)).mul A.transpose = ((A.mul M).mul A.transpose).add ((A.mul N).mul A.transpose) := by
  refine m3_ext_mulVec fun x => ?_
  have ha : ∀ (M N : M3 ℝ) y, (M.add N).mulVec y = (M.mulVec y).add (N.mulVec y) := fun M N y => by ext <;> simp <;> ring
  rw [M3.mul_mulVec, M3.mul_mulVec, ha, M3.mulVec_add, ha, M3.mul_mulVec, M3.mul_mulVec, M3.mul_mulVec, M3.mul_mulVec]

theorem conj_smul (M : M3 ℝ) (c : ℝ) : (A.mul (M.smul c)).mul A.transpose = ((A.mul M).mul A.transpose).smul c := by
  refine m3_ext_mulVec fun x => ?_
  have ha : ∀ (M : M3 ℝ) y, (M.smul c).mulVec y = (M.mulVec y).smul c := fun M y => by ext <;> simp <;> ring
  rw [M3.mul_mulVec, M3.mul_mulVec, ha, M3.mulVec_smul, ha, M3.mul_mulVec, M3.mul_mulVec]

theorem conj_one (hA : Orthogonal A) : (A.mul M3.one).mul A.transpose = M3.one := by rw [M3.mul_one, hA.1]

theorem conj_sq (hA : Orthogonal A) (M N : M3 ℝ) :
    ((A.mul M).mul A.transpose).mul ((A.mul N).mul A.transpose) = (A.mul (M.mul N)).mul A.transpose := by
  rw [M3.mul_assoc, ← M3.mul_assoc A.transpose, ← M3.mul_assoc A.transpose, hA.2, M3.one_mul, M3.mul_assoc, M3.mul_assoc, M3.mul_assoc]

theorem so3_turned (hA : Orthogonal A) (eps : ℝ) (w : V3 ℝ) : Geom.so3Exp eps (axial A w) = (A.mul (Geom.so3Exp eps w)).mul A.transpose := by
  simp only [Geom.so3Exp, vnorm_axial hA, hat_axial hA]
  split_ifs
  · rw [conj_add, conj_one hA]
  · rw [conj_add, conj_add, conj_one hA, conj_smul, conj_smul, conj_sq hA]

theorem se3V_turned (hA : Orthogonal A) (eps : ℝ) (w : V3 ℝ) : Geom.se3V eps (axial A w) = (A.mul (Geom.se3V eps w)).mul A.transpose := by
  simp only [Geom.se3V, vnorm_axial hA, hat_axial hA]
  split_ifs
  · rw [conj_add, conj_one hA]
  · rw [conj_add, conj_add, conj_one hA, conj_smul, conj_smul, conj_sq hA]

/-- The exponential of a twist in turned coordinates. -/
theorem se3_turned (hA : Orthogonal A) (eps : ℝ) (v w : V3 ℝ) :
    Geom.se3Exp eps (A.mulVec v) (axial A w) = turned A (Geom.se3Exp eps v w) := by
  refine M4.ext (so3_turned hA eps w) ?_ rfl rfl
  show (Geom.se3V eps (axial A w)).mulVec (A.mulVec v) = A.mulVec ((Geom.se3V eps w).mulVec v)
  rw [se3V_turned hA, M3.mul_mulVec, back hA, M3.mul_mulVec]

/-! ### The error and the step -/

variable {nn : List (V3 ℝ) → V3 ℝ → Nat} {th : Option ℝ} {tgt nrm : List (V3 ℝ)}

theorem normSq_turned (hA : Orthogonal A) (a b : V3 ℝ) : ((A.mulVec a).sub (A.mulVec b)).normSq = (a.sub b).normSq := by
  rw [← M3.mulVec_sub, V3.normSq, M3.dot_orthogonal hA.2]; rfl

theorem nn_turned (hA : Orthogonal A) (hd : ByDistance nn) (tgt : List (V3 ℝ)) (s : V3 ℝ) : nn (tgt.map A.mulVec) (A.mulVec s) = nn tgt s := by
  refine hd _ _ _ _ ?_
  rw [List.map_map]
  exact List.map_congr_left fun q _ => normSq_turned hA s q

theorem turned_zero : A.mulVec V3.zero = V3.zero := by ext <;> simp

theorem getD_turned (l : List (V3 ℝ)) (k : Nat) : (l.map A.mulVec).getD k V3.zero = A.mulVec (l.getD k V3.zero) := by
  rw [List.getD_eq_getElem?_getD, List.getD_eq_getElem?_getD, List.getElem?_map]
  cases l[k]? with
  | none => exact turned_zero.symm
  | some x => rfl

theorem planeDist_turned (hA : Orthogonal A) (hd : ByDistance nn) (s p : V3 ℝ) :
    planeDist nn (tgt.map A.mulVec) (nrm.map A.mulVec) (A.mulVec s) (A.mulVec p) = planeDist nn tgt nrm s p := by
  rw [planeDist, nn_turned hA hd, getD_turned, getD_turned, ← M3.mulVec_sub, M3.dot_orthogonal hA.2]; rfl

theorem close_turned (hA : Orthogonal A) (s : V3 ℝ) : Close th (tgt.map A.mulVec) (A.mulVec s) ↔ Close th tgt s := by
  refine forall_congr' fun t => imp_congr_right fun _ => ?_
  simp only [List.mem_map, exists_exists_and_eq_and, normSq_turned hA]

open Classical in
theorem taking_turned (hA : Orthogonal A) (src : List (V3 ℝ)) :
    taking th (tgt.map A.mulVec) (src.map A.mulVec) = (taking th tgt src).map A.mulVec := by
  rw [taking, taking, List.filter_map]
  congr 1
  refine List.filter_congr fun s _ => ?_
  simp only [Function.comp, close_turned hA]

open Classical in
theorem taking_perm {src src2 : List (V3 ℝ)} (h : src2.Perm src) : (taking th tgt src2).Perm (taking th tgt src) := h.filter _

theorem planeErr_turned (hA : Orthogonal A) (hd : ByDistance nn) {src src2 : List (V3 ℝ)} (h : src2.Perm (src.map A.mulVec)) :
    planeErr nn th (tgt.map A.mulVec) (nrm.map A.mulVec) src2 = planeErr nn th tgt nrm src := by
  rw [planeErr, ((taking_perm h).map _).sum_eq, taking_turned hA, List.map_map, planeErr]
  congr 1
  exact List.map_congr_left fun s _ => by simp only [Function.comp, planeDist_turned hA hd]

theorem linCost_turned (hA : Orthogonal A) (hd : ByDistance nn) (damp : ℝ) {src src2 : List (V3 ℝ)} (h : src2.Perm (src.map A.mulVec)) (v w : V3 ℝ) :
    linCost nn th (tgt.map A.mulVec) (nrm.map A.mulVec) damp src2 (A.mulVec v) (axial A w) = linCost nn th tgt nrm damp src v w := by
  rw [linCost, ((taking_perm h).map _).sum_eq, taking_turned hA, List.map_map, linCost, normSq_axial hA]
  congr 1
  · congr 1
    refine List.map_congr_left fun s _ => ?_
    simp only [Function.comp, axial_cross hA, ← M3.mulVec_add, planeDist_turned hA hd]
  · rw [V3.normSq, M3.dot_orthogonal hA.2]; rfl

theorem axial_back (hA : Orthogonal A) (w : V3 ℝ) : axial A ((A.transpose.mulVec w).smul A.det) = w := by
  rw [axial, M3.mulVec_smul, forth hA]
  have : (w.smul A.det).smul A.det = w.smul (A.det * A.det) := by ext <;> simp [V3.smul, mul_assoc]
  rw [this, det_sq hA]; ext <;> simp [V3.smul]

theorem isStep_turned (hA : Orthogonal A) (hd : ByDistance nn) {damp : ℝ} {src src2 : List (V3 ℝ)} (h : src2.Perm (src.map A.mulVec)) {v w : V3 ℝ}
    (hs : IsStep nn th tgt nrm damp src v w) : IsStep nn th (tgt.map A.mulVec) (nrm.map A.mulVec) damp src2 (A.mulVec v) (axial A w) := by
  intro v' w' hne
  have e1 := forth hA v'
  have e2 := axial_back hA w'
  rw [linCost_turned hA hd damp h, ← e1, ← e2, linCost_turned hA hd damp h]
  refine hs _ _ fun hc => hne ?_
  simp only [Prod.mk.injEq] at hc
  rw [← e1, ← e2, hc.1, hc.2]

theorem isStep_unique {damp : ℝ} {src : List (V3 ℝ)} {v w v' w' : V3 ℝ} (h : IsStep nn th tgt nrm damp src v w)
    (h' : IsStep nn th tgt nrm damp src v' w') : v' = v ∧ w' = w := by
  by_contra hc
  have h1 := h v' w' (fun e => hc (by simpa using e))
  have h2 := h' v w (fun e => hc (by simp only [Prod.mk.injEq] at e; exact ⟨e.1.symm, e.2.symm⟩))
  exact lt_asymm h1 h2

/-! ### The histories -/

theorem cloud_perm {T : M4 ℝ} {src src2 : List (V3 ℝ)} (hA : Orthogonal A) (h : src2.Perm (src.map A.mulVec)) :
    (Geom.transformPointcloud (turned A T) src2).Perm ((Geom.transformPointcloud T src).map A.mulVec) := by
  rw [← cloud_turned hA]; exact h.map _

theorem lm_turned (hA : Orthogonal A) (hd : ByDistance nn) {eps : ℝ} {src src2 : List (V3 ℝ)} (hp : src2.Perm (src.map A.mulVec)) {n : Nat}
    {T T2 : Nat → M4 ℝ} {d d2 : Nat → ℝ} (h : LMTrace nn th tgt nrm eps src n T d)
    (h2 : LMTrace nn th (tgt.map A.mulVec) (nrm.map A.mulVec) eps src2 n T2 d2) (hT : (T 0).Affine) (h0 : T2 0 = turned A (T 0)) (hd0 : d2 0 = d 0) :
    ∀ k ≤ n, (T k).Affine ∧ T2 k = turned A (T k) ∧ d2 k = d k := by
  intro k
  induction k with
  | zero => exact fun _ => ⟨hT, h0, hd0⟩
  | succ k ih =>
    intro hk
    obtain ⟨ha, e, ed⟩ := ih (by omega)
    obtain ⟨v, w, s, r⟩ := h.step k (by omega)
    obtain ⟨v2, w2, s2, r2⟩ := h2.step k (by omega)
    rw [e, ed] at s2
    obtain ⟨rfl, rfl⟩ := isStep_unique (isStep_turned hA hd (cloud_perm hA hp) s) s2
    have em : (Geom.se3Exp eps (A.mulVec v) (axial A w)).mul (T2 k) = turned A ((Geom.se3Exp eps v w).mul (T k)) := by
      rw [se3_turned hA, e, turned_mul hA (se3_affine eps _ _) ha]
    have aff : ((Geom.se3Exp eps v w).mul (T k)).Affine := (se3_affine eps v w).mul ha
    rw [em, e, planeErr_turned hA hd (cloud_perm hA hp), planeErr_turned hA hd (cloud_perm hA hp), ed] at r2
    rcases r with ⟨r1, rT, rd⟩ | ⟨r1, rT, rd⟩ <;> rcases r2 with ⟨r1', rT', rd'⟩ | ⟨r1', rT', rd'⟩
    · exact ⟨rT ▸ aff, by rw [rT', rT], by rw [rd', rd]⟩
    · exact absurd r1 (not_lt.2 r1')
    · exact absurd r1' (not_lt.2 r1)
    · exact ⟨rT ▸ ha, by rw [rT', rT], by rw [rd', rd]⟩

theorem grad_turned (hA : Orthogonal A) (hd : ByDistance nn) {eps lmax B B2 nu : ℝ} {src src2 : List (V3 ℝ)} (hp : src2.Perm (src.map A.mulVec)) {n : Nat}
    {T T2 : Nat → M4 ℝ} {d d2 : Nat → ℝ} (h : GradTrace nn th tgt nrm eps lmax B B2 nu src n T d)
    (h2 : GradTrace nn th (tgt.map A.mulVec) (nrm.map A.mulVec) eps lmax B B2 nu src2 n T2 d2) (hT : (T 0).Affine) (h0 : T2 0 = turned A (T 0))
    (hd0 : d2 0 = d 0) : ∀ k ≤ n, (T k).Affine ∧ T2 k = turned A (T k) ∧ d2 k = d k := by
  intro k
  induction k with
  | zero => exact fun _ => ⟨hT, h0, hd0⟩
  | succ k ih =>
    intro hk
    obtain ⟨ha, e, ed⟩ := ih (by omega)
    obtain ⟨v, w, c, s, rc, rT, rd⟩ := h.step k (by omega)
    obtain ⟨v2, w2, c2, s2, rc', rT', rd'⟩ := h2.step k (by omega)
    rw [e, ed] at s2
    obtain ⟨rfl, rfl⟩ := isStep_unique (isStep_turned hA hd (cloud_perm hA hp) s) s2
    have em : ∀ v w, (Geom.se3Exp eps (A.mulVec v) (axial A w)).mul (T2 k) = turned A ((Geom.se3Exp eps v w).mul (T k)) := fun v w => by
      rw [se3_turned hA, e, turned_mul hA (se3_affine eps _ _) ha]
    have es : ∀ x, (axial A w).smul x = axial A (w.smul x) := fun x => by
      rw [axial, axial, M3.mulVec_smul]; ext <;> simp [V3.smul] <;> ring
    rw [em, e, planeErr_turned hA hd (cloud_perm hA hp), planeErr_turned hA hd (cloud_perm hA hp), ← rc] at rc'
    subst rc'
    refine ⟨rT ▸ (se3_affine eps _ _).mul ha, ?_, by rw [rd', rd, ed]⟩
    rw [rT', ← M3.mulVec_smul, es, em, rT]
end

/-! ### The routines -/

section
variable {A : M3 ℝ} {nn : List (V3 ℝ) → V3 ℝ → Nat} {th : Option ℝ}

/-- No source point is kept by the threshold (with an empty target cloud). -/
def NoneKept (nn : List (V3 ℝ) → V3 ℝ → Nat) (th : Option ℝ) (src : List (V3 ℝ)) : Prop := ∀ s ∈ src, keeps nn th [] s = false

theorem gn_empty (src : List (V3 ℝ)) :
    (NoneKept nn th src → gaussNewton nn th src [] [] = .ok (⟨[], 6⟩, ⟨[], 1⟩, [])) ∧
    (¬ NoneKept nn th src → gaussNewton nn th src [] [] = .error .indexError) := by
  constructor
  · intro h
    have : src.filter (keeps nn th []) = [] := List.filter_eq_nil_iff.2 fun s hs => by rw [h s hs]; simp
    simp [gaussNewton, this]
  · intro h
    simp only [NoneKept, not_forall] at h
    obtain ⟨s, hs, hk⟩ := h
    have hk : keeps nn th [] s = true := by simpa using hk
    have : (src.filter (keeps nn th [])).any (fun s => !decide (nn [] s < ([] : List (V3 ℝ)).length)) = true := by
      rw [List.any_eq_true]
      exact ⟨s, List.mem_filter.2 ⟨hs, hk⟩, by simp⟩
    simp only [gaussNewton]
    rw [if_neg (by simp), if_pos this]

theorem solve_empty {damp : ℝ} (hd : 0 < damp) : solveLinearSystem (⟨[], 6⟩ : T2 ℝ) ⟨[], 1⟩ damp = .ok ⟨[[0], [0], [0], [0], [0], [0]], 1⟩ := by
  rw [solveLinearSystem, if_neg (by simp), if_neg (by simp), if_neg (normal_det_ne_zero _ hd)]
  have : (toMat (⟨[], 6⟩ : T2 ℝ)).transpose.mulVec (colVec (⟨[], 6⟩ : T2 ℝ).rows.length ⟨[], 1⟩) = 0 := by
    funext i; simp [Matrix.mulVec, dotProduct]
  rw [this, Matrix.mulVec_zero]
  rfl

theorem exp_zero {eps : ℝ} (heps : 0 < eps) : Geom.se3Exp eps V3.zero V3.zero = M4.one := by
  have hv : Geom.vnorm (V3.zero : V3 ℝ) < eps := by simp [Geom.vnorm, heps]
  refine M4.ext ?_ ?_ rfl rfl
  · show Geom.so3Exp eps V3.zero = M3.one
    rw [Geom.so3Exp, if_pos hv]; ext <;> simp [Geom.so3Hat]
  · show (Geom.se3V eps V3.zero).mulVec V3.zero = V3.zero
    exact turned_zero

theorem cloud_one (src : List (V3 ℝ)) : Geom.transformPointcloud M4.one src = src := by
  rw [Geom.transformPointcloud]
  refine (List.map_congr_left fun p _ => ?_).trans (List.map_id _)
  ext <;> simp

theorem m4_one_mul (T : M4 ℝ) : M4.one.mul T = T := by
  refine M4.ext ?_ ?_ ?_ ?_
  all_goals first | (ext <;> simp [M3.outer]) | simp

/-- The look-ahead with an empty target cloud. -/
theorem lookahead_empty {eps : ℝ} (heps : 0 < eps) (s : State) (hd : 0 < s.damp) :
    (NoneKept nn th s.src → lookahead eps nn th [] [] s = .ok (⟨[[0], [0], [0], [0], [0], [0]], 1⟩, 0, 0, s.src, [])) ∧
    (¬ NoneKept nn th s.src → lookahead eps nn th [] [] s = .error .indexError) := by
  constructor
  · intro h
    rw [lookahead, (gn_empty _).1 h]
    simp only
    rw [solve_empty hd]
    have e : Geom.transformPointcloud (Geom.se3Exp eps (xiV ⟨[[0], [0], [0], [0], [0], [0]], 1⟩) (xiW ⟨[[0], [0], [0], [0], [0], [0]], 1⟩)) s.src = s.src := by
      have : Geom.se3Exp eps (xiV ⟨[[0], [0], [0], [0], [0], [0]], 1⟩) (xiW ⟨[[0], [0], [0], [0], [0], [0]], 1⟩) = M4.one := exp_zero heps
      rw [this, cloud_one]
    simp only [e]
    rw [(gn_empty _).1 h]
    simp [sqErr]
  · intro h
    rw [lookahead, (gn_empty _).2 h]

theorem lookahead_lengths {eps : ℝ} {tgt nrm : List (V3 ℝ)} (h : tgt.length ≠ nrm.length) (s : State) :
    lookahead eps nn th tgt nrm s = .error .valueError := by
  rw [lookahead, gauss_newton_errors _ _ _ _ _ h]

/-- A loop whose step fails at once fails. -/
theorem loop_fails {f : State → Except Err State} {s : State} {e : Err} {n : Nat} (hn : 0 < n) (h : f s = .error e) : loop f n s = .error e := by
  obtain ⟨m, rfl⟩ : ∃ m, n = m + 1 := ⟨n - 1, by omega⟩
  rw [loop, h]

/-- A loop whose step keeps cloud and transform. -/
theorem loop_idle {f : State → Except Err State} {P : State → Prop} (hf : ∀ s, P s → ∃ s', f s = .ok s' ∧ P s' ∧ s'.T = s.T ∧ s'.idx = some []) :
    ∀ (n : Nat) (s : State), P s → 0 < n → ∃ s', loop f n s = .ok s' ∧ s'.T = s.T ∧ s'.idx = some [] := by
  intro n
  induction n with
  | zero => intro s _ h; omega
  | succ n ih =>
    intro s hs _
    obtain ⟨s1, e, h1, h2, h3⟩ := hf s hs
    rcases Nat.eq_zero_or_pos n with rfl | hn
    · exact ⟨s1, by rw [loop, e]; rfl, h2, h3⟩
    · obtain ⟨s2, e2, h4, h5⟩ := ih s1 h1 hn
      exact ⟨s2, by rw [loop, e]; exact e2, h4.trans h2, h5⟩

theorem noneKept_turned (hA : Orthogonal A) {src src2 : List (V3 ℝ)} (hp : src2.Perm (src.map A.mulVec)) :
    NoneKept nn th src2 ↔ NoneKept nn th src := by
  have hk : ∀ s, keeps nn th [] (A.mulVec s) = keeps nn th [] s := by
    intro s
    have h : nnDist nn [] (A.mulVec s) = nnDist nn [] s := by
      have h2 := normSq_turned hA s V3.zero
      rw [turned_zero] at h2
      exact h2
    simp only [keeps, h]
  constructor
  · intro h s hs
    rw [← hk s]
    exact h _ (hp.mem_iff.2 (List.mem_map_of_mem hs))
  · intro h s hs
    obtain ⟨p, hp', rfl⟩ := List.mem_map.1 (hp.mem_iff.1 hs)
    rw [hk]; exact h p hp'

/-- What a registration routine does in the cases without a history: different lengths, no iteration, or an empty target cloud. -/
theorem degenerate {f : List (V3 ℝ) → List (V3 ℝ) → State → Except Err State}
    (hlen : ∀ tgt nrm s, tgt.length ≠ nrm.length → f tgt nrm s = .error .valueError)
    (hidle : ∀ s, 0 < s.damp → NoneKept nn th s.src → ∃ s', f [] [] s = .ok s' ∧ 0 < s'.damp ∧ s'.src = s.src ∧ s'.T = s.T ∧ s'.idx = some [])
    (hbad : ∀ s, 0 < s.damp → ¬ NoneKept nn th s.src → f [] [] s = .error .indexError)
    (src tgt nrm : List (V3 ℝ)) {T0 : M4 ℝ} {n : Int} {damp : ℝ} (hd : 0 < damp) :
    (n ≤ 0 → finish (loop (f tgt nrm) n.toNat (start src damp T0)) = .error .unboundLocalError) ∧
    (1 ≤ n → tgt.length ≠ nrm.length → finish (loop (f tgt nrm) n.toNat (start src damp T0)) = .error .valueError) ∧
    (1 ≤ n → NoneKept nn th (Geom.transformPointcloud T0 src) → finish (loop (f [] []) n.toNat (start src damp T0)) = .ok (T0, [])) ∧
    (1 ≤ n → ¬ NoneKept nn th (Geom.transformPointcloud T0 src) → finish (loop (f [] []) n.toNat (start src damp T0)) = .error .indexError) := by
  refine ⟨fun h => ?_, fun h hl => ?_, fun h hk => ?_, fun h hk => ?_⟩
  · rw [Int.toNat_of_nonpos h]; rfl
  · rw [loop_fails (by omega) (hlen tgt nrm _ hl)]; rfl
  · obtain ⟨s', e, h1, h2⟩ := loop_idle (f := f [] []) (P := fun s => 0 < s.damp ∧ NoneKept nn th s.src) (fun s ⟨a, b⟩ => by
      obtain ⟨s', e, c1, c2, c3, c4⟩ := hidle s a b
      exact ⟨s', e, ⟨c1, c2 ▸ b⟩, c3, c4⟩) n.toNat (start src damp T0) ⟨hd, hk⟩ (by omega)
    rw [e]
    simp only [finish, h2, h1]; rfl
  · rw [loop_fails (by omega) (hbad _ hd hk)]; rfl

/-- **C80** for `point_to_plane_ICP`: turning (or reflecting) all clouds and permuting the source points changes neither whether it
succeeds nor the registration: the answer is the same transform in the turned coordinates, with the same associations. -/
theorem icp_turned (hn : NearestIn nn) (hby : ByDistance nn) (hA : Orthogonal A) {eps : ℝ} (heps : 0 < eps) {src src2 : List (V3 ℝ)}
    (hp : src2.Perm (src.map A.mulVec)) (tgt nrm : List (V3 ℝ)) {T0 : M4 ℝ} (hT : T0.Affine) (n : Int) {damp : ℝ} (hd : 0 < damp) :
    SameTurned A (pointToPlaneICP eps nn src tgt nrm (some T0) n damp th)
      (pointToPlaneICP eps nn src2 (tgt.map A.mulVec) (nrm.map A.mulVec) (some (turned A T0)) n damp th) := by
  have deg := fun src tgt nrm T0 => degenerate (f := icpStep eps nn th) (src := src) (tgt := tgt) (nrm := nrm) (T0 := T0) (n := n)
    (fun tgt nrm s h => by rw [icpStep, lookahead_lengths h])
    (fun s h1 h2 => by
      refine ⟨⟨s.src, s.damp * 2, s.T, some []⟩, ?_, by show 0 < s.damp * 2; linarith, rfl, rfl, rfl⟩
      rw [icpStep, (lookahead_empty heps s h1).1 h2]
      simp only
      rw [if_neg (lt_irrefl _)])
    (fun s h1 h2 => by rw [icpStep, (lookahead_empty heps s h1).2 h2]) hd
  rcases le_or_gt n 0 with h0 | h0
  · exact .inr ⟨_, (deg src tgt nrm T0).1 h0, (deg src2 _ _ (turned A T0)).1 h0⟩
  have h1 : 1 ≤ n := h0
  by_cases hl : tgt.length = nrm.length
  swap
  · exact .inr ⟨_, (deg src tgt nrm T0).2.1 h1 hl, (deg src2 _ _ (turned A T0)).2.1 h1 (by simpa using hl)⟩
  by_cases ht : tgt = []
  · subst ht
    have hm : nrm = [] := List.length_eq_zero_iff.1 hl.symm
    subst hm
    have hk := noneKept_turned (nn := nn) (th := th) hA (cloud_perm (T := T0) hA hp)
    by_cases hk' : NoneKept nn th (Geom.transformPointcloud T0 src)
    · exact .inl ⟨T0, [], [], (deg src [] [] T0).2.2.1 h1 hk', (deg src2 [] [] (turned A T0)).2.2.1 h1 (hk.2 hk'), .refl _⟩
    · exact .inr ⟨_, (deg src [] [] T0).2.2.2 h1 hk', (deg src2 [] [] (turned A T0)).2.2.2 h1 (fun h => hk' (hk.1 h))⟩
  · obtain ⟨T, d, a1, a2, tr, e⟩ := icp_is_lm (th := th) hn ht hl eps src hT hd h1
    obtain ⟨T2, d2, b1, b2, tr2, e2⟩ := icp_is_lm (th := th) hn (tgt := tgt.map A.mulVec) (nrm := nrm.map A.mulVec) (by simpa using ht) (by simpa using hl)
      eps src2 (turned_affine (A := A) hT) hd h1
    have key := lm_turned hA hby hp tr tr2 (a1 ▸ hT) (by rw [b1, a1]) (by rw [b2, a2])
    rw [(key _ le_rfl).2.1] at e2
    refine .inl ⟨_, _, _, e, e2, ?_⟩
    · rw [(key _ (Nat.sub_le _ _)).2.1]
      refine ((taking_perm (cloud_perm hA hp)).map _).trans ?_
      rw [taking_turned hA, List.map_map]
      refine List.Perm.of_eq (List.map_congr_left fun s _ => nn_turned hA hby tgt s)

/-- **C80** for `point_to_plane_gradICP`. -/
theorem gradicp_turned (hn : NearestIn nn) (hby : ByDistance nn) (hA : Orthogonal A) {eps lmax B B2 nu : ℝ} (heps : 0 < eps) (hlm : 1 < lmax)
    {src src2 : List (V3 ℝ)} (hp : src2.Perm (src.map A.mulVec)) (tgt nrm : List (V3 ℝ)) {T0 : M4 ℝ} (hT : T0.Affine) (n : Int) {damp : ℝ} (hd : 0 < damp) :
    SameTurned A (pointToPlaneGradICP eps lmax B B2 nu nn src tgt nrm (some T0) n damp th)
      (pointToPlaneGradICP eps lmax B B2 nu nn src2 (tgt.map A.mulVec) (nrm.map A.mulVec) (some (turned A T0)) n damp th) := by
  have hpos : ∀ e, 0 < dampFactor lmax B e := fun e => lt_trans (by positivity) (dampFactor_between hlm).1
  have deg := fun src tgt nrm T0 => degenerate (f := gradStep eps lmax B B2 nu nn th) (src := src) (tgt := tgt) (nrm := nrm) (T0 := T0) (n := n)
    (fun tgt nrm s h => by rw [gradStep, lookahead_lengths h])
    (fun s h1 h2 => by
      have e0 : ∀ w : ℝ, Geom.se3Exp eps ((xiV (⟨[[0], [0], [0], [0], [0], [0]], 1⟩ : T2 ℝ)).smul w) ((xiW ⟨[[0], [0], [0], [0], [0], [0]], 1⟩).smul w) = M4.one := by
        intro w
        have z : (V3.zero : V3 ℝ).smul w = V3.zero := by ext <;> simp
        show Geom.se3Exp eps ((V3.zero : V3 ℝ).smul w) ((V3.zero : V3 ℝ).smul w) = _
        rw [z, exp_zero heps]
      refine ⟨⟨s.src, s.damp * dampFactor lmax B (clamp70 (0 - 0)), s.T, some []⟩, ?_, mul_pos h1 (hpos _), rfl, rfl, rfl⟩
      rw [gradStep, (lookahead_empty heps s h1).1 h2]
      simp only [e0, cloud_one, m4_one_mul])
    (fun s h1 h2 => by rw [gradStep, (lookahead_empty heps s h1).2 h2]) hd
  rcases le_or_gt n 0 with h0 | h0
  · exact .inr ⟨_, (deg src tgt nrm T0).1 h0, (deg src2 _ _ (turned A T0)).1 h0⟩
  have h1 : 1 ≤ n := h0
  by_cases hl : tgt.length = nrm.length
  swap
  · exact .inr ⟨_, (deg src tgt nrm T0).2.1 h1 hl, (deg src2 _ _ (turned A T0)).2.1 h1 (by simpa using hl)⟩
  by_cases ht : tgt = []
  · subst ht
    have hm : nrm = [] := List.length_eq_zero_iff.1 hl.symm
    subst hm
    have hk := noneKept_turned (nn := nn) (th := th) hA (cloud_perm (T := T0) hA hp)
    by_cases hk' : NoneKept nn th (Geom.transformPointcloud T0 src)
    · exact .inl ⟨T0, [], [], (deg src [] [] T0).2.2.1 h1 hk', (deg src2 [] [] (turned A T0)).2.2.1 h1 (hk.2 hk'), .refl _⟩
    · exact .inr ⟨_, (deg src [] [] T0).2.2.2 h1 hk', (deg src2 [] [] (turned A T0)).2.2.2 h1 (fun h => hk' (hk.1 h))⟩
  · obtain ⟨T, d, a1, a2, tr, e⟩ := grad_is_trace (th := th) (eps := eps) (B := B) (B2 := B2) (nu := nu) hn ht hl hlm src hT hd h1
    obtain ⟨T2, d2, b1, b2, tr2, e2⟩ := grad_is_trace (th := th) (eps := eps) (B := B) (B2 := B2) (nu := nu) hn (tgt := tgt.map A.mulVec)
      (nrm := nrm.map A.mulVec) (by simpa using ht) (by simpa using hl) hlm src2 (turned_affine (A := A) hT) hd h1
    have key := grad_turned hA hby hp tr tr2 (a1 ▸ hT) (by rw [b1, a1]) (by rw [b2, a2])
    rw [(key _ le_rfl).2.1] at e2
    refine .inl ⟨_, _, _, e, e2, ?_⟩
    · rw [(key _ (Nat.sub_le _ _)).2.1]
      refine ((taking_perm (cloud_perm hA hp)).map _).trans ?_
      rw [taking_turned hA, List.map_map]
      refine List.Perm.of_eq (List.map_congr_left fun s _ => nn_turned hA hby tgt s)

/-- The brute-force search looks at distances only. -/
theorem brute_byDistance : ByDistance bruteNN := by
  have key : ∀ (tgt tgt2 : List (V3 ℝ)) (s s2 : V3 ℝ), (tgt.map fun q => (s.sub q).normSq) = (tgt2.map fun q => (s2.sub q).normSq) →
      bruteNN tgt s = bruteNN tgt2 s2 := by
    intro tgt
    induction tgt with
    | nil => intro tgt2 s s2 h; cases tgt2 with
      | nil => rfl
      | cons => simp at h
    | cons d tgt ih =>
      intro tgt2 s s2 h
      cases tgt2 with
      | nil => simp at h
      | cons d2 tgt2 =>
        simp only [List.map_cons, List.cons.injEq] at h
        obtain ⟨h0, h⟩ := h
        cases tgt with
        | nil => cases tgt2 with
          | nil => rfl
          | cons => simp at h
        | cons e tgt => cases tgt2 with
          | nil => simp at h
          | cons e2 tgt2 =>
            have hj := ih _ s s2 h
            obtain ⟨q, hq, _⟩ := bruteNN_nearest (e :: tgt) s (by simp)
            obtain ⟨q2, hq2, _⟩ := bruteNN_nearest (e2 :: tgt2) s2 (by simp)
            have e1 : (e :: tgt).getD (bruteNN (e :: tgt) s) V3.zero = q := by rw [List.getD_eq_getElem?_getD, hq]; rfl
            have e2' : (e2 :: tgt2).getD (bruteNN (e2 :: tgt2) s2) V3.zero = q2 := by rw [List.getD_eq_getElem?_getD, hq2]; rfl
            have hd : (s.sub q).normSq = (s2.sub q2).normSq := by
              have := congrArg (fun l => l[bruteNN (e :: tgt) s]?) h
              simp only [List.getElem?_map] at this
              rw [hq, hj, hq2] at this
              simpa using this
            rw [bruteNN, bruteNN]
            simp only [e1, e2', h0, hd]
            rw [hj]
  exact key
end
end Verif.Icp
