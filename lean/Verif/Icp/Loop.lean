import Verif.Icp.Gauss
import Verif.Geom.Props
/-!
C54: point-to-plane ICP (Levenberg-Marquardt).  C55: gradICP.
-/
namespace Verif.Icp
open Verif Pcs
set_option linter.unusedSectionVars false

/-! ### Specification -/

section
variable (nn : List (V3 ℝ) → V3 ℝ → Nat) (th : Option ℝ) (tgt nrm : List (V3 ℝ))

/-- Signed distance of `p` to the tangent plane of the target point associated with `s`. -/
noncomputable def planeDist (s p : V3 ℝ) : ℝ := (nrm.getD (nn tgt s) V3.zero).dot (p.sub (tgt.getD (nn tgt s) V3.zero))

/-- Sum of the squared point-to-plane distances of the points that take part. -/
noncomputable def planeErr (src : List (V3 ℝ)) : ℝ := ((taking th tgt src).map fun s => planeDist nn tgt nrm s s ^ 2).sum

/-- The damped linearised error of the twist `(v, ω)`. -/
noncomputable def linCost (damp : ℝ) (src : List (V3 ℝ)) (v w : V3 ℝ) : ℝ :=
  ((taking th tgt src).map fun s => planeDist nn tgt nrm s ((s.add v).add (w.cross s)) ^ 2).sum + damp * (v.normSq + w.normSq)

/-- `(v, ω)` is the unique minimiser of the damped linearised error. -/
def IsStep (damp : ℝ) (src : List (V3 ℝ)) (v w : V3 ℝ) : Prop :=
  ∀ v' w', (v', w') ≠ (v, w) → linCost nn th tgt nrm damp src v w < linCost nn th tgt nrm damp src v' w'

/-- The history of transforms `T 0, T 1, …` and damping coefficients `d 0, d 1, …` of `n` iterations of Levenberg-Marquardt on the cloud
`src`: in every iteration the damped linearised step is computed for the cloud moved so far; it is taken, and the damping halved, if it
strictly decreases the point-to-plane error, otherwise the transform stays and the damping is doubled. -/
structure LMTrace (eps : ℝ) (src : List (V3 ℝ)) (n : Nat) (T : Nat → M4 ℝ) (d : Nat → ℝ) : Prop where
  step : ∀ k < n, ∃ v w, IsStep nn th tgt nrm (d k) (Geom.transformPointcloud (T k) src) v w ∧
    (planeErr nn th tgt nrm (Geom.transformPointcloud ((Geom.se3Exp eps v w).mul (T k)) src) <
        planeErr nn th tgt nrm (Geom.transformPointcloud (T k) src) ∧
      T (k + 1) = (Geom.se3Exp eps v w).mul (T k) ∧ d (k + 1) = d k / 2 ∨
     planeErr nn th tgt nrm (Geom.transformPointcloud (T k) src) ≤
        planeErr nn th tgt nrm (Geom.transformPointcloud ((Geom.se3Exp eps v w).mul (T k)) src) ∧
      T (k + 1) = T k ∧ d (k + 1) = d k * 2)

/-- The history of `n` gradICP iterations: the step is always applied, scaled by a weight, and the damping multiplied by a factor; both
depend on the change of error the full step would have caused, clamped to `[-70, 70]`. -/
structure GradTrace (eps lmax B B2 nu : ℝ) (src : List (V3 ℝ)) (n : Nat) (T : Nat → M4 ℝ) (d : Nat → ℝ) : Prop where
  step : ∀ k < n, ∃ v w e, IsStep nn th tgt nrm (d k) (Geom.transformPointcloud (T k) src) v w ∧
    e = clamp70 (planeErr nn th tgt nrm (Geom.transformPointcloud ((Geom.se3Exp eps v w).mul (T k)) src) -
        planeErr nn th tgt nrm (Geom.transformPointcloud (T k) src)) ∧
    T (k + 1) = (Geom.se3Exp eps (v.smul (stepWeight B2 nu e)) (w.smul (stepWeight B2 nu e))).mul (T k) ∧
    d (k + 1) = d k * dampFactor lmax B e
end

/-! ### One look-ahead -/

theorem col_of_six {x : T2 ℝ} (h : x.rows.length = 6) : col x = (xiV x).toList ++ (xiW x).toList := by
  obtain ⟨rows, c⟩ := x
  match rows, h with
  | [a, b, c, d, e, f], _ => rfl

variable {nn : List (V3 ℝ) → V3 ℝ → Nat} {th : Option ℝ} {tgt nrm : List (V3 ℝ)}

theorem entryB_sq (s d n : V3 ℝ) : entryB s d n * entryB s d n = n.dot (s.sub d) ^ 2 := by
  simp [entryB, V3.dot, V3.sub]; ring

theorem sqErr_eq (src : List (V3 ℝ)) :
    sqErr (⟨(taking th tgt src).map fun s => [entryB s (tgt.getD (nn tgt s) V3.zero) (nrm.getD (nn tgt s) V3.zero)], 1⟩ : T2 ℝ) =
      planeErr nn th tgt nrm src := by
  simp only [sqErr, planeErr, List.map_map]
  congr 1
  refine List.map_congr_left fun s _ => ?_
  simp only [Function.comp, List.getD_cons_zero, entryB_sq, planeDist]

theorem cost_lin (damp : ℝ) (v w : V3 ℝ) (l : List (V3 ℝ)) :
    cost (l.map fun s => rowA s (nrm.getD (nn tgt s) V3.zero))
      (col (⟨l.map fun s => [entryB s (tgt.getD (nn tgt s) V3.zero) (nrm.getD (nn tgt s) V3.zero)], 1⟩ : T2 ℝ)) damp (v.toList ++ w.toList) =
      (l.map fun s => planeDist nn tgt nrm s ((s.add v).add (w.cross s)) ^ 2).sum + damp * (v.normSq + w.normSq) := by
  unfold cost
  congr 1
  · simp only [col, List.map_map]
    induction l with
    | nil => rfl
    | cons s l ih =>
      simp only [List.map_cons, List.zipWith_cons_cons, List.sum_cons, Function.comp, List.getD_cons_zero, row_residual, planeDist]
      simp only [planeDist] at ih
      rw [ih]
  · simp [V3.toList, V3.normSq, V3.dot]; left; ring

theorem se3_affine (eps : ℝ) (v w : V3 ℝ) : (Geom.se3Exp eps v w).Affine := ⟨rfl, rfl⟩

theorem compose_cloud (A B : M4 ℝ) (hB : B.Affine) (src : List (V3 ℝ)) :
    Geom.transformPointcloud A (Geom.transformPointcloud B src) = Geom.transformPointcloud (A.mul B) src := by
  obtain ⟨b1, b2⟩ := hB
  simp only [Geom.transformPointcloud, List.map_map]
  refine List.map_congr_left fun p _ => ?_
  simp only [Function.comp]
  ext <;> simp [M4.mul, b1, b2, M3.mulVec, M3.mul, M3.add, M3.outer, V3.dot, V3.add, V3.smul, V3.zero, M3.c0, M3.c1, M3.c2] <;> ring

theorem lookahead_spec (hn : NearestIn nn) (ht : tgt ≠ []) (hl : tgt.length = nrm.length) (eps : ℝ) (s : State) (hd : 0 < s.damp) :
    ∃ xi, lookahead eps nn th tgt nrm s = .ok (xi, planeErr nn th tgt nrm s.src,
        planeErr nn th tgt nrm (Geom.transformPointcloud (Geom.se3Exp eps (xiV xi) (xiW xi)) s.src),
        Geom.transformPointcloud (Geom.se3Exp eps (xiV xi) (xiW xi)) s.src, (taking th tgt s.src).map (nn tgt)) ∧
      IsStep nn th tgt nrm s.damp s.src (xiV xi) (xiW xi) := by
  obtain ⟨x, hx, _, _, h6, _, hmin⟩ := solve_minimises
    (A := ⟨(taking th tgt s.src).map fun s => rowA s (nrm.getD (nn tgt s) V3.zero), 6⟩)
    (b := ⟨(taking th tgt s.src).map fun s => [entryB s (tgt.getD (nn tgt s) V3.zero) (nrm.getD (nn tgt s) V3.zero)], 1⟩)
    (by intro r hr; simp only [List.mem_map] at hr; obtain ⟨s, _, rfl⟩ := hr; rfl) rfl (by simp) hd
  refine ⟨x, ?_, ?_⟩
  · rw [lookahead, gaussNewton_eq hn ht hl th]
    simp only [hx]
    rw [gaussNewton_eq hn ht hl th]
    simp only [sqErr_eq]
  · intro v' w' hne
    have h := hmin (v'.toList ++ w'.toList) (by simp [V3.toList]) (by
      rw [col_of_six h6]
      intro he
      apply hne
      simp only [V3.toList, List.cons_append, List.nil_append, List.cons.injEq, and_true] at he
      obtain ⟨a, b, c, d, e, f⟩ := he
      have h1 : v' = xiV x := V3.ext a b c
      have h2 : w' = xiW x := V3.ext d e f
      rw [h1, h2])
    rw [col_of_six h6, cost_lin, cost_lin] at h
    exact h

/-! ### Point-to-plane ICP -/

theorem icpStep_spec (hn : NearestIn nn) (ht : tgt ≠ []) (hl : tgt.length = nrm.length) (eps : ℝ) (src0 : List (V3 ℝ)) (s : State)
    (hd : 0 < s.damp) (hT : s.T.Affine) (hs : s.src = Geom.transformPointcloud s.T src0) :
    ∃ s' v w, icpStep eps nn th tgt nrm s = .ok s' ∧ 0 < s'.damp ∧ s'.T.Affine ∧ s'.src = Geom.transformPointcloud s'.T src0 ∧
      s'.idx = some ((taking th tgt s.src).map (nn tgt)) ∧ IsStep nn th tgt nrm s.damp s.src v w ∧
      (planeErr nn th tgt nrm (Geom.transformPointcloud ((Geom.se3Exp eps v w).mul s.T) src0) < planeErr nn th tgt nrm s.src ∧
        s'.T = (Geom.se3Exp eps v w).mul s.T ∧ s'.damp = s.damp / 2 ∨
       planeErr nn th tgt nrm s.src ≤ planeErr nn th tgt nrm (Geom.transformPointcloud ((Geom.se3Exp eps v w).mul s.T) src0) ∧
        s'.T = s.T ∧ s'.damp = s.damp * 2) := by
  obtain ⟨xi, e, hstep⟩ := lookahead_spec hn ht hl (th := th) eps s hd
  have hc : Geom.transformPointcloud (Geom.se3Exp eps (xiV xi) (xiW xi)) s.src =
      Geom.transformPointcloud ((Geom.se3Exp eps (xiV xi) (xiW xi)).mul s.T) src0 := by rw [hs, compose_cloud _ _ hT]
  rw [icpStep, e]
  simp only [hc]
  by_cases h : planeErr nn th tgt nrm (Geom.transformPointcloud ((Geom.se3Exp eps (xiV xi) (xiW xi)).mul s.T) src0) <
      planeErr nn th tgt nrm s.src
  · rw [if_pos h]
    exact ⟨_, xiV xi, xiW xi, rfl, by simpa using hd, (se3_affine ..).mul hT, rfl, rfl, hstep, .inl ⟨h, rfl, rfl⟩⟩
  · rw [if_neg h]
    exact ⟨_, xiV xi, xiW xi, rfl, by simpa using hd, hT, hs, rfl, hstep, .inr ⟨not_lt.1 h, rfl, rfl⟩⟩

/-- A run of a loop body that never fails and keeps an invariant, as a sequence of states. -/
theorem loop_run (f : State → Except Err State) (I : State → Prop) (hf : ∀ s, I s → ∃ s', f s = .ok s' ∧ I s') :
    ∀ (n : Nat) (s : State), I s → ∃ σ : Nat → State, σ 0 = s ∧ loop f n s = .ok (σ n) ∧ (∀ k, I (σ k)) ∧ ∀ k, f (σ k) = .ok (σ (k + 1)) := by
  classical
  have hg : ∀ s, ∃ s', I s → f s = .ok s' ∧ I s' := by
    intro s
    by_cases h : I s
    · obtain ⟨s', h1, h2⟩ := hf s h; exact ⟨s', fun _ => ⟨h1, h2⟩⟩
    · exact ⟨s, fun h' => absurd h' h⟩
  choose g hg using hg
  intro n s hs
  let σ : Nat → State := fun k => g^[k] s
  have hσ : ∀ k, σ (k + 1) = g (σ k) := fun k => Function.iterate_succ_apply' g k s
  have hI : ∀ k, I (σ k) := by
    intro k; induction k with
    | zero => exact hs
    | succ k ih => rw [hσ]; exact (hg _ ih).2
  have hstep : ∀ k, f (σ k) = .ok (σ (k + 1)) := fun k => by rw [hσ]; exact (hg _ (hI k)).1
  refine ⟨σ, rfl, ?_, hI, hstep⟩
  have : ∀ n k, loop f n (σ k) = .ok (σ (k + n)) := by
    intro n
    induction n with
    | zero => intro k; rfl
    | succ n ih => intro k; rw [loop, hstep]; simp only [ih]; congr 2; omega
  have h := this n 0
  rw [Nat.zero_add] at h
  exact h

/-- C54.  For every source cloud, non-empty target cloud with normals, affine initial transform, positive damping and `n ≥ 1` iterations,
`point_to_plane_ICP` succeeds, and its answer is the last transform of a Levenberg-Marquardt history started at the initial transform and
damping; the indices are those of the nearest target points of the cloud at the beginning of the last iteration. -/
theorem icp_is_lm (hn : NearestIn nn) (ht : tgt ≠ []) (hl : tgt.length = nrm.length) (eps : ℝ) (src : List (V3 ℝ)) {T0 : M4 ℝ}
    (hT : T0.Affine) {damp : ℝ} (hd : 0 < damp) {n : Int} (hn1 : 1 ≤ n) :
    ∃ (T : Nat → M4 ℝ) (d : Nat → ℝ), T 0 = T0 ∧ d 0 = damp ∧ LMTrace nn th tgt nrm eps src n.toNat T d ∧
      pointToPlaneICP eps nn src tgt nrm (some T0) n damp th =
        .ok (T n.toNat, (taking th tgt (Geom.transformPointcloud (T (n.toNat - 1)) src)).map (nn tgt)) := by
  obtain ⟨σ, h0, hrun, hI, hstep⟩ := loop_run (icpStep eps nn th tgt nrm)
    (fun s => 0 < s.damp ∧ s.T.Affine ∧ s.src = Geom.transformPointcloud s.T src)
    (fun s ⟨a, b, c⟩ => by
      obtain ⟨s', v, w, e, h1, h2, h3, _⟩ := icpStep_spec hn ht hl (th := th) eps src s a b c
      exact ⟨s', e, h1, h2, h3⟩) n.toNat (start src damp T0) ⟨hd, hT, rfl⟩
  refine ⟨fun k => (σ k).T, fun k => (σ k).damp, by simp [h0, start], by simp [h0, start], ⟨fun k _ => ?_⟩, ?_⟩
  · obtain ⟨a, b, c⟩ := hI k
    obtain ⟨s', v, w, e, _, _, _, _, h5, h6⟩ := icpStep_spec hn ht hl (th := th) eps src (σ k) a b c
    rw [hstep] at e
    obtain rfl : σ (k + 1) = s' := by simpa using e
    rw [c] at h5 h6
    exact ⟨v, w, h5, h6⟩
  · rw [pointToPlaneICP, hrun]
    obtain ⟨m, hm⟩ : ∃ m, n.toNat = m + 1 := ⟨n.toNat - 1, by omega⟩
    obtain ⟨a, b, c⟩ := hI m
    obtain ⟨s', v, w, e, _, _, _, h4, _⟩ := icpStep_spec hn ht hl (th := th) eps src (σ m) a b c
    rw [hstep] at e
    obtain rfl : σ (m + 1) = s' := by simpa using e
    rw [hm]
    simp only [finish, h4, c, Nat.add_sub_cancel]

/-- `initial_transform=None` and `numiters ≤ 0` raise (AttributeError, UnboundLocalError), whatever the clouds. -/
theorem icp_raises (eps : ℝ) (src : List (V3 ℝ)) (T0 : M4 ℝ) (n : Int) (damp : ℝ) :
    pointToPlaneICP eps nn src tgt nrm none n damp th = .error .attributeError ∧
    (n ≤ 0 → pointToPlaneICP eps nn src tgt nrm (some T0) n damp th = .error .unboundLocalError) := by
  refine ⟨rfl, fun h => ?_⟩
  rw [pointToPlaneICP, Int.toNat_of_nonpos h]; rfl

section trace
variable {eps : ℝ} {src : List (V3 ℝ)} {n : Nat} {T : Nat → M4 ℝ} {d : Nat → ℝ}

/-- The point-to-plane error never increases along the run, and strictly decreases whenever the transform changes. -/
theorem lm_error_decreases (h : LMTrace nn th tgt nrm eps src n T d) {k : Nat} (hk : k < n) :
    planeErr nn th tgt nrm (Geom.transformPointcloud (T (k + 1)) src) ≤ planeErr nn th tgt nrm (Geom.transformPointcloud (T k) src) ∧
    (T (k + 1) ≠ T k → planeErr nn th tgt nrm (Geom.transformPointcloud (T (k + 1)) src) <
      planeErr nn th tgt nrm (Geom.transformPointcloud (T k) src)) := by
  obtain ⟨v, w, _, h1 | h1⟩ := h.step k hk
  · rw [h1.2.1]; exact ⟨h1.1.le, fun _ => h1.1⟩
  · rw [h1.2.1]; exact ⟨le_refl _, fun h => absurd rfl h⟩

theorem lm_error_le (h : LMTrace nn th tgt nrm eps src n T d) {j k : Nat} (hjk : j ≤ k) (hk : k ≤ n) :
    planeErr nn th tgt nrm (Geom.transformPointcloud (T k) src) ≤ planeErr nn th tgt nrm (Geom.transformPointcloud (T j) src) := by
  induction k, hjk using Nat.le_induction with
  | base => exact le_refl _
  | succ k _ ih => exact ((lm_error_decreases h (by omega)).1).trans (ih (by omega))

/-- Damping after `k` iterations: halved once per accepted step, doubled once per rejected one; hence positive.  The transform is the product
of the accepted increments (in order of acceptance, later ones on the left) and the initial transform, and every increment is the
exponential of a twist. -/
theorem lm_product (h : LMTrace nn th tgt nrm eps src n T d) {k : Nat} (hk : k ≤ n) :
    ∃ steps : List (V3 ℝ × V3 ℝ), steps.length ≤ k ∧ d k = d 0 * 2 ^ (k - steps.length) / 2 ^ steps.length ∧
      T k = steps.foldl (fun T s => (Geom.se3Exp eps s.1 s.2).mul T) (T 0) := by
  induction k with
  | zero => exact ⟨[], by simp, by simp, rfl⟩
  | succ k ih =>
    obtain ⟨st, h1, h2, h3⟩ := ih (by omega)
    obtain ⟨v, w, _, h4 | h4⟩ := h.step k hk
    · refine ⟨st ++ [(v, w)], by simpa using h1, ?_, by rw [List.foldl_append, ← h3, h4.2.1]; rfl⟩
      rw [h4.2.2, h2, List.length_append, List.length_singleton, show k + 1 - (st.length + 1) = k - st.length by omega, pow_succ]
      field_simp
    · refine ⟨st, by omega, ?_, by rw [h4.2.1, h3]⟩
      rw [h4.2.2, h2, show k + 1 - st.length = k - st.length + 1 by omega, pow_succ]
      ring

theorem lm_damp_pos (h : LMTrace nn th tgt nrm eps src n T d) (hd : 0 < d 0) {k : Nat} (hk : k ≤ n) : 0 < d k := by
  obtain ⟨st, _, h2, _⟩ := lm_product h hk
  rw [h2]; positivity

/-- Nothing to gain, nothing changed: if no point takes part (all farther than the threshold) or the cloud already lies on the tangent
planes, all transforms of the run equal the initial one. -/
theorem lm_fixed_at_zero (h : LMTrace nn th tgt nrm eps src n T d) (h0 : planeErr nn th tgt nrm (Geom.transformPointcloud (T 0) src) = 0)
    {k : Nat} (hk : k ≤ n) : T k = T 0 := by
  induction k with
  | zero => rfl
  | succ k ih =>
    have hT := ih (by omega)
    obtain ⟨v, w, _, h4 | h4⟩ := h.step k hk
    · exfalso
      have := h4.1
      rw [hT, h0] at this
      refine absurd this (not_lt.2 ?_)
      exact List.sum_nonneg fun x hx => by
        simp only [List.mem_map] at hx; obtain ⟨s, _, rfl⟩ := hx; exact sq_nonneg _
    · rw [h4.2.1, hT]
end trace

/-- Rigidity, partial: if the initial transform is rigid and every increment's rotation vector is zero or at least as long as the
small-angle cut-off `eps` of `se3_exp`, every transform of the run is rigid.  Missing: increments with `0 < ‖ω‖ < eps`, for which
`se3_exp` does not return a rotation (see `Verif.Geom.so3_exp_small_not_rotation`). -/
theorem lm_rigid_partial {eps : ℝ} (heps : 0 < eps) {T0 : M4 ℝ} (hT : T0.Rigid) (steps : List (V3 ℝ × V3 ℝ))
    (hs : ∀ s ∈ steps, s.2 = V3.zero ∨ eps ≤ Geom.vnorm s.2) :
    (steps.foldl (fun T s => (Geom.se3Exp eps s.1 s.2).mul T) T0).Rigid := by
  induction steps generalizing T0 with
  | nil => exact hT
  | cons s steps ih =>
    refine ih (M4.Rigid.mul ?_ hT) fun s' hs' => hs s' (List.mem_cons_of_mem _ hs')
    rcases hs s (List.mem_cons_self ..) with h | h
    · rw [h, Geom.se3_exp_translation eps heps]
      exact ⟨⟨rfl, rfl⟩, M4.one_rigid.2⟩
    · exact ((Geom.se3_exp_rigid_partial eps heps s.1 s.2).2 h).1

/-- The hypotheses of `icp_is_lm` are met by a run with an accepted step: one point one unit above a plane moves half way with damping 1. -/
theorem icp_example {eps : ℝ} (heps : 0 < eps) :
    pointToPlaneICP eps bruteNN [⟨0, 0, 1⟩] [⟨0, 0, 0⟩] [⟨0, 0, 1⟩] (some M4.one) 1 1 none =
      .ok (⟨M3.one, ⟨0, 0, -1 / 2⟩, V3.zero, 1⟩, [0]) := by
  obtain ⟨T, d, h0, hd, htr, hres⟩ := icp_is_lm (th := none) (tgt := [⟨0, 0, 0⟩]) (nrm := [⟨0, 0, 1⟩]) bruteNN_nearest (by simp) rfl eps
    [⟨0, 0, 1⟩] (T0 := M4.one) ⟨rfl, rfl⟩ (damp := 1) one_pos (n := 1) (le_refl _)
  rw [hres]
  obtain ⟨v, w, hs, hcase⟩ := htr.step 0 (by simp)
  have hcl : Geom.transformPointcloud (M4.one : M4 ℝ) [⟨0, 0, 1⟩] = [⟨0, 0, 1⟩] := by
    simp [Geom.transformPointcloud, M4.one, M3.one, M3.mulVec, V3.dot, V3.add, V3.zero]
  rw [h0, hd, hcl] at hs
  have hcost : ∀ v w : V3 ℝ, linCost bruteNN none [⟨0, 0, 0⟩] [⟨0, 0, 1⟩] 1 [⟨0, 0, 1⟩] v w = (1 + v.z) ^ 2 + (v.normSq + w.normSq) := by
    intro v w
    simp [linCost, taking, Close, planeDist, bruteNN, V3.dot, V3.sub, V3.add, V3.cross]
  have hvw : v = ⟨0, 0, -1 / 2⟩ ∧ w = V3.zero := by
    by_contra hne
    have h := hs ⟨0, 0, -1 / 2⟩ V3.zero (fun h => hne ⟨(Prod.mk.inj h).1.symm, (Prod.mk.inj h).2.symm⟩)
    rw [hcost, hcost] at h
    simp only [V3.normSq, V3.dot, V3.zero] at h
    nlinarith [sq_nonneg v.x, sq_nonneg v.y, sq_nonneg (2 * v.z + 1), sq_nonneg w.x, sq_nonneg w.y, sq_nonneg w.z]
  obtain ⟨rfl, rfl⟩ := hvw
  rw [h0, M4.mul_one, hcl, Geom.se3_exp_translation eps heps] at hcase
  have hmoved : Geom.transformPointcloud (⟨M3.one, ⟨0, 0, -1 / 2⟩, V3.zero, 1⟩ : M4 ℝ) [⟨0, 0, 1⟩] = [⟨0, 0, 1 / 2⟩] := by
    simp [Geom.transformPointcloud, M3.one, M3.mulVec, V3.dot, V3.add]; norm_num
  rw [hmoved] at hcase
  have herr : ∀ z : ℝ, planeErr bruteNN none [⟨0, 0, 0⟩] [⟨0, 0, 1⟩] [⟨0, 0, z⟩] = z ^ 2 := by
    intro z; simp [planeErr, taking, Close, planeDist, bruteNN, V3.dot, V3.sub]
  rw [herr, herr] at hcase
  rcases hcase with h | h
  · rw [show (1 : Int).toNat = 0 + 1 by rfl, h.2.1]
    simp [h0, hcl, taking, Close, bruteNN]
  · exfalso; norm_num at h

/-! ### gradICP -/

theorem gradStep_spec (hn : NearestIn nn) (ht : tgt ≠ []) (hl : tgt.length = nrm.length) {eps lmax B B2 nu : ℝ}
    (src0 : List (V3 ℝ)) (s : State) (hd : 0 < s.damp) (hT : s.T.Affine) (hs : s.src = Geom.transformPointcloud s.T src0) :
    ∃ s' v w e, gradStep eps lmax B B2 nu nn th tgt nrm s = .ok s' ∧ s'.T.Affine ∧
      s'.src = Geom.transformPointcloud s'.T src0 ∧ s'.idx = some ((taking th tgt s.src).map (nn tgt)) ∧
      IsStep nn th tgt nrm s.damp s.src v w ∧
      e = clamp70 (planeErr nn th tgt nrm (Geom.transformPointcloud ((Geom.se3Exp eps v w).mul s.T) src0) - planeErr nn th tgt nrm s.src) ∧
      s'.T = (Geom.se3Exp eps (v.smul (stepWeight B2 nu e)) (w.smul (stepWeight B2 nu e))).mul s.T ∧
      s'.damp = s.damp * dampFactor lmax B e := by
  obtain ⟨xi, e, hstep⟩ := lookahead_spec hn ht hl (th := th) eps s hd
  rw [gradStep, e]
  refine ⟨_, xiV xi, xiW xi, _, rfl, (se3_affine ..).mul hT, ?_, rfl, hstep, ?_, rfl, rfl⟩
  · rw [hs]; exact compose_cloud _ _ hT src0
  · simp only [hs, compose_cloud _ _ hT]

theorem dampFactor_between {lmax B e : ℝ} (h : 1 < lmax) : 1 / lmax < dampFactor lmax B e ∧ dampFactor lmax B e < lmax := by
  have hl : 1 / lmax < lmax := by rw [div_lt_iff₀ (by linarith)]; nlinarith
  have he := Real.exp_pos (-B * e)
  have h1 : 0 < (lmax - 1 / lmax) / (1 + Real.exp (-B * e)) := div_pos (by linarith) (by linarith)
  have h2 : (lmax - 1 / lmax) / (1 + Real.exp (-B * e)) < lmax - 1 / lmax := by
    rw [div_lt_iff₀ (by linarith)]; nlinarith
  unfold dampFactor
  constructor <;> linarith

/-- The multiplier grows with the error change (for `B > 0`): close to `1/λmax` for a step that improves a lot, close to `λmax` for one that
worsens a lot. -/
theorem dampFactor_mono {lmax B : ℝ} (h : 1 < lmax) (hB : 0 < B) {e e' : ℝ} (he : e < e') : dampFactor lmax B e < dampFactor lmax B e' := by
  have hl : 1 / lmax < lmax := by rw [div_lt_iff₀ (by linarith)]; nlinarith
  have h1 : Real.exp (-B * e') < Real.exp (-B * e) := Real.exp_lt_exp.2 (by nlinarith)
  have h2 := Real.exp_pos (-B * e')
  unfold dampFactor
  have : (lmax - 1 / lmax) / (1 + Real.exp (-B * e)) < (lmax - 1 / lmax) / (1 + Real.exp (-B * e')) :=
    div_lt_div_of_pos_left (by linarith) (by linarith) (by linarith)
  linarith

theorem stepWeight_between {B2 nu e : ℝ} (h : 0 < nu) : 0 < stepWeight B2 nu e ∧ stepWeight B2 nu e < 1 := by
  have h1 : 1 < 1 + Real.exp (-B2 * e) := by linarith [Real.exp_pos (-B2 * e)]
  have h2 : 1 < (1 + Real.exp (-B2 * e)) ^ (1 / nu) := Real.one_lt_rpow h1 (by positivity)
  unfold stepWeight
  exact ⟨by positivity, by rw [div_lt_one (by linarith)]; exact h2⟩

/-- The step weight *grows* with the error change: a step that would worsen the error more is applied with a larger weight. -/
theorem stepWeight_mono {B2 nu : ℝ} (h : 0 < nu) (hB : 0 < B2) {e e' : ℝ} (he : e < e') : stepWeight B2 nu e < stepWeight B2 nu e' := by
  have h1 : Real.exp (-B2 * e') < Real.exp (-B2 * e) := Real.exp_lt_exp.2 (by nlinarith)
  have h2 := Real.exp_pos (-B2 * e')
  have h3 : (1 + Real.exp (-B2 * e')) ^ (1 / nu) < (1 + Real.exp (-B2 * e)) ^ (1 / nu) :=
    Real.rpow_lt_rpow (by linarith) (by linarith) (by positivity)
  unfold stepWeight
  exact one_div_lt_one_div_of_lt (Real.rpow_pos_of_pos (by linarith) _) h3

/-- The sign: with the default parameters' signs, the largest worsening gets the largest step, the largest improvement the smallest. -/
theorem stepWeight_extremes {B2 nu : ℝ} (h : 0 < nu) (hB : 0 < B2) (x : ℝ) :
    stepWeight B2 nu (-70) ≤ stepWeight B2 nu (clamp70 x) ∧ stepWeight B2 nu (clamp70 x) ≤ stepWeight B2 nu 70 := by
  have mono : ∀ {a b : ℝ}, a ≤ b → stepWeight B2 nu a ≤ stepWeight B2 nu b := fun {a b} hab => by
    rcases hab.lt_or_eq with h' | h'
    · exact (stepWeight_mono h hB h').le
    · rw [h']
  exact ⟨mono (le_min (le_max_right _ _) (by norm_num)), mono (min_le_right _ _)⟩

/-- C55.  For every source cloud, non-empty target cloud with normals, affine initial transform, positive damping, `λmax > 1` and `n ≥ 1`
iterations, `point_to_plane_gradICP` succeeds and its answer is the last transform of a gradICP history. -/
theorem grad_is_trace (hn : NearestIn nn) (ht : tgt ≠ []) (hl : tgt.length = nrm.length) {eps lmax B B2 nu : ℝ} (hlm : 1 < lmax)
    (src : List (V3 ℝ)) {T0 : M4 ℝ} (hT : T0.Affine) {damp : ℝ} (hd : 0 < damp) {n : Int} (hn1 : 1 ≤ n) :
    ∃ (T : Nat → M4 ℝ) (d : Nat → ℝ), T 0 = T0 ∧ d 0 = damp ∧ GradTrace nn th tgt nrm eps lmax B B2 nu src n.toNat T d ∧
      pointToPlaneGradICP eps lmax B B2 nu nn src tgt nrm (some T0) n damp th =
        .ok (T n.toNat, (taking th tgt (Geom.transformPointcloud (T (n.toNat - 1)) src)).map (nn tgt)) := by
  have hpos : ∀ e, 0 < dampFactor lmax B e := fun e => lt_trans (by positivity) (dampFactor_between hlm).1
  obtain ⟨σ, h0, hrun, hI, hstep⟩ := loop_run (gradStep eps lmax B B2 nu nn th tgt nrm)
    (fun s => 0 < s.damp ∧ s.T.Affine ∧ s.src = Geom.transformPointcloud s.T src)
    (fun s ⟨a, b, c⟩ => by
      obtain ⟨s', v, w, e, he, h1, h2, _, _, _, _, h7⟩ :=
        gradStep_spec hn ht hl (th := th) (eps := eps) (lmax := lmax) (B := B) (B2 := B2) (nu := nu) src s a b c
      exact ⟨s', he, by rw [h7]; exact mul_pos a (hpos e), h1, h2⟩) n.toNat (start src damp T0) ⟨hd, hT, rfl⟩
  refine ⟨fun k => (σ k).T, fun k => (σ k).damp, by simp [h0, start], by simp [h0, start], ⟨fun k _ => ?_⟩, ?_⟩
  · obtain ⟨a, b, c⟩ := hI k
    obtain ⟨s', v, w, e, he, _, _, _, h4, h5, h6, h7⟩ :=
      gradStep_spec hn ht hl (th := th) (eps := eps) (lmax := lmax) (B := B) (B2 := B2) (nu := nu) src (σ k) a b c
    rw [hstep] at he
    obtain rfl : σ (k + 1) = s' := by simpa using he
    rw [c] at h4 h5
    exact ⟨v, w, e, h4, h5, h6, h7⟩
  · rw [pointToPlaneGradICP, hrun]
    obtain ⟨m, hm⟩ : ∃ m, n.toNat = m + 1 := ⟨n.toNat - 1, by omega⟩
    obtain ⟨a, b, c⟩ := hI m
    obtain ⟨s', v, w, e, he, _, _, h3, _⟩ :=
      gradStep_spec hn ht hl (th := th) (eps := eps) (lmax := lmax) (B := B) (B2 := B2) (nu := nu) src (σ m) a b c
    rw [hstep] at he
    obtain rfl : σ (m + 1) = s' := by simpa using he
    rw [hm]
    simp only [finish, h3, c, Nat.add_sub_cancel]

theorem grad_raises {eps lmax B B2 nu : ℝ} (src : List (V3 ℝ)) (T0 : M4 ℝ) (n : Int) (damp : ℝ) :
    pointToPlaneGradICP eps lmax B B2 nu nn src tgt nrm none n damp th = .error .attributeError ∧
    (n ≤ 0 → pointToPlaneGradICP eps lmax B B2 nu nn src tgt nrm (some T0) n damp th = .error .unboundLocalError) := by
  refine ⟨rfl, fun h => ?_⟩
  rw [pointToPlaneGradICP, Int.toNat_of_nonpos h]; rfl

section
variable {eps lmax B B2 nu : ℝ} {src : List (V3 ℝ)} {n : Nat} {T : Nat → M4 ℝ} {d : Nat → ℝ}

/-- The damping stays positive and after `k` iterations lies between `damp / λmaxᵏ` and `damp · λmaxᵏ`. -/
theorem grad_damp_bounds (h : GradTrace nn th tgt nrm eps lmax B B2 nu src n T d) (hlm : 1 < lmax) (hd : 0 < d 0) {k : Nat} (hk : k ≤ n) :
    0 < d k ∧ d 0 / lmax ^ k ≤ d k ∧ d k ≤ d 0 * lmax ^ k := by
  induction k with
  | zero => simp [hd]
  | succ k ih =>
    obtain ⟨h1, h2, h3⟩ := ih (by omega)
    obtain ⟨v, w, e, _, _, _, h4⟩ := h.step k hk
    obtain ⟨b1, b2⟩ := dampFactor_between (B := B) (e := e) hlm
    have hp : 0 < dampFactor lmax B e := lt_trans (by positivity) b1
    rw [h4]
    refine ⟨mul_pos h1 hp, ?_, ?_⟩
    · calc d 0 / lmax ^ (k + 1) = d 0 / lmax ^ k * (1 / lmax) := by rw [pow_succ]; field_simp
        _ ≤ d k * dampFactor lmax B e := mul_le_mul h2 b1.le (by positivity) h1.le
    · calc d k * dampFactor lmax B e ≤ d 0 * lmax ^ k * lmax := mul_le_mul h3 b2.le hp.le (by positivity)
        _ = d 0 * lmax ^ (k + 1) := by rw [pow_succ]; ring

/-- A cloud that already lies on the tangent planes (or has no point taking part) is not moved: every transform equals the initial one. -/
theorem grad_fixed_at_zero (heps : 0 < eps) (hlm : 1 < lmax) (hd : 0 < d 0) (h : GradTrace nn th tgt nrm eps lmax B B2 nu src n T d)
    (h0 : planeErr nn th tgt nrm (Geom.transformPointcloud (T 0) src) = 0) {k : Nat} (hk : k ≤ n) : T k = T 0 := by
  induction k with
  | zero => rfl
  | succ k ih =>
    have hT := ih (by omega)
    obtain ⟨v, w, e, h1, _, h3, _⟩ := h.step k hk
    have hdk := (grad_damp_bounds h hlm hd (k := k) (by omega)).1
    have hz : linCost nn th tgt nrm (d k) (Geom.transformPointcloud (T k) src) V3.zero V3.zero = 0 := by
      rw [hT]
      have : ∀ s : V3 ℝ, (s.add V3.zero).add (V3.zero.cross s) = s := by intro s; ext <;> simp [V3.add, V3.zero, V3.cross]
      unfold linCost
      simp only [this]
      rw [planeErr] at h0
      rw [h0]
      simp [V3.normSq, V3.dot, V3.zero]
    have hvw : v = V3.zero ∧ w = V3.zero := by
      by_contra hne
      have := h1 V3.zero V3.zero (fun he => hne ⟨(Prod.mk.inj he).1.symm, (Prod.mk.inj he).2.symm⟩)
      rw [hz] at this
      refine absurd this (not_lt.2 (add_nonneg (List.sum_nonneg fun x hx => ?_) (mul_nonneg hdk.le ?_)))
      · simp only [List.mem_map] at hx; obtain ⟨s, _, rfl⟩ := hx; exact sq_nonneg _
      · simp only [V3.normSq, V3.dot]; nlinarith [sq_nonneg v.x, sq_nonneg v.y, sq_nonneg v.z, sq_nonneg w.x, sq_nonneg w.y, sq_nonneg w.z]
    have hs : ∀ c : ℝ, (V3.zero : V3 ℝ).smul c = V3.zero := by intro c; ext <;> simp [V3.smul, V3.zero]
    rw [h3, hvw.1, hvw.2, hs, Geom.se3_exp_zero eps heps, M4.one_mul, hT]

/-- The transform is the product of all increments (later ones on the left) and the initial transform. -/
theorem grad_product (h : GradTrace nn th tgt nrm eps lmax B B2 nu src n T d) {k : Nat} (hk : k ≤ n) :
    ∃ steps : List (V3 ℝ × V3 ℝ), steps.length = k ∧ T k = steps.foldl (fun T s => (Geom.se3Exp eps s.1 s.2).mul T) (T 0) := by
  induction k with
  | zero => exact ⟨[], rfl, rfl⟩
  | succ k ih =>
    obtain ⟨st, h1, h2⟩ := ih (by omega)
    obtain ⟨v, w, e, _, _, h4, _⟩ := h.step k hk
    exact ⟨st ++ [(v.smul (stepWeight B2 nu e), w.smul (stepWeight B2 nu e))], by simp [h1], by rw [List.foldl_append, ← h2, h4]; rfl⟩
end

/-- The hypotheses of the gradICP theorems are met: a cloud on the plane, default-like parameters, any number of iterations. -/
theorem grad_example (n : Int) (hn : 1 ≤ n) :
    ∃ idx, pointToPlaneGradICP (1 / 10 ^ 6) 2 1 1 200 bruteNN [⟨3, 4, 0⟩] [⟨0, 0, 0⟩] [⟨0, 0, 1⟩] (some M4.one) n (1 / 10 ^ 8) none =
      .ok (M4.one, idx) := by
  obtain ⟨T, d, h0, hd, htr, hres⟩ := grad_is_trace (th := none) (tgt := [⟨0, 0, 0⟩]) (nrm := [⟨0, 0, 1⟩]) bruteNN_nearest (by simp) rfl
    (eps := 1 / 10 ^ 6) (lmax := 2) (B := 1) (B2 := 1) (nu := 200) (by norm_num)
    [⟨3, 4, 0⟩] (T0 := M4.one) ⟨rfl, rfl⟩ (damp := 1 / 10 ^ 8) (by positivity) hn
  have hT : T n.toNat = M4.one := by
    rw [grad_fixed_at_zero (by positivity) (by norm_num) (by rw [hd]; positivity) htr ?_ (le_refl _), h0]
    rw [h0]
    simp [planeErr, taking, Close, planeDist, bruteNN, Geom.transformPointcloud, M4.one, M3.one, M3.mulVec, V3.dot, V3.sub, V3.add, V3.zero]
  rw [hT] at hres
  exact ⟨_, hres⟩
end Verif.Icp
