import Verif.Icp.SmoothStep
/-!
C77: the transforms returned by gradICP and ICP depend smoothly on clouds, normals, initial transform and damping, wherever no discrete decision is on
the edge.
-/
namespace Verif.Icp
open Verif Pcs Topology Filter
set_option linter.unusedSectionVars false

/-! ### Specification -/

/-- No discrete decision of an iteration is on the edge: associations of the cloud `P` before and `Q` after the full step `(v, ω)` are settled, and the
angle `|ω|` is not exactly the cut-off of the exponential map. -/
structure Calm (eps : ℝ) (th : Option ℝ) (tgt P Q : List (V3 ℝ)) (w : V3 ℝ) : Prop where
  before : ∀ s ∈ P, Settled th tgt s
  after : ∀ s ∈ Q, Settled th tgt s
  angle : Geom.vnorm w ≠ eps

/-- The same for gradICP, with `change` the change of error by the full step: the angle of the weighted step is not exactly the cut-off, and the change is
not exactly at a bound of the clamp. -/
structure GradCalm (eps B2 nu : ℝ) (th : Option ℝ) (tgt P Q : List (V3 ℝ)) (w : V3 ℝ) (change : ℝ) : Prop extends Calm eps th tgt P Q w where
  weighted : Geom.vnorm (w.smul (stepWeight B2 nu (clamp70 change))) ≠ eps
  low : change ≠ -70
  high : change ≠ 70

variable {E : Type*} [NormedAddCommGroup E] [NormedSpace ℝ E] {k : WithTop ℕ∞} {x0 : E}

/-! ### Scalar functions -/

theorem clamp70_smooth {c : E → ℝ} (h : Sm k x0 c) (hl : c x0 ≠ -70) (hh : c x0 ≠ 70) : Sm k x0 fun e => clamp70 (c e) := by
  have hc := h.continuousAt
  rcases lt_or_gt_of_ne hl with h1 | h1
  · refine (Sm.const (-70)).congr ((hc.eventually_lt continuousAt_const h1).mono fun e he => ?_)
    show min (max (c e) (-70)) 70 = _
    rw [max_eq_right he.le, min_eq_left (by norm_num)]
  · rcases lt_or_gt_of_ne hh with h2 | h2
    · refine h.congr (((continuousAt_const.eventually_lt hc h1).and (hc.eventually_lt continuousAt_const h2)).mono fun e he => ?_)
      show min (max (c e) (-70)) 70 = _
      rw [max_eq_left he.1.le, min_eq_left he.2.le]
    · refine (Sm.const 70).congr ((continuousAt_const.eventually_lt hc h2).mono fun e he => ?_)
      show min (max (c e) (-70)) 70 = _
      rw [max_eq_left (by linarith), min_eq_right he.le]

theorem onePlusExp_smooth {c : E → ℝ} (h : Sm k x0 c) (B : ℝ) : Sm k x0 fun e => 1 + Real.exp (-B * c e) :=
  (Sm.const 1).fun_add (ContDiffAt.exp ((Sm.const (-B)).fun_mul h))

theorem onePlusExp_pos (B x : ℝ) : 0 < 1 + Real.exp (-B * x) := by have := Real.exp_pos (-B * x); linarith

theorem stepWeight_smooth {c : E → ℝ} (h : Sm k x0 c) (B2 nu : ℝ) : Sm k x0 fun e => stepWeight B2 nu (c e) := by
  have h1 : Sm k x0 fun e => (1 + Real.exp (-B2 * c e)) ^ (1 / nu) :=
    ContDiffAt.rpow_const_of_ne (onePlusExp_smooth h B2) (onePlusExp_pos _ _).ne'
  exact (Sm.const 1).fun_div h1 (Real.rpow_pos_of_pos (onePlusExp_pos _ _) _).ne'

theorem dampFactor_smooth {c : E → ℝ} (h : Sm k x0 c) (lmax B : ℝ) : Sm k x0 fun e => dampFactor lmax B (c e) :=
  (Sm.const (1 / lmax)).fun_add ((Sm.const (lmax - 1 / lmax)).fun_div (onePlusExp_smooth h B) (onePlusExp_pos _ _).ne')

/-! ### One iteration -/

/-- A state that depends smoothly on the parameter. -/
structure SmState (k : WithTop ℕ∞) (x0 : E) (N : Nat) (σ : E → State) : Prop where
  src : SmL k x0 N fun e => (σ e).src
  damp : Sm k x0 fun e => (σ e).damp
  pos : 0 < (σ x0).damp
  T : SmM4 k x0 fun e => (σ e).T

variable {nn : List (V3 ℝ) → V3 ℝ → Nat} {th : Option ℝ}

section
variable {M N : Nat} {tgt nrm : E → List (V3 ℝ)}

/-- The look-ahead: the step, the two errors and the moved cloud are smooth, the indices constant. -/
theorem lookahead_smooth (hn : NearestIn nn) (hM : 0 < M) (ht : SmL k x0 M tgt) (hm : SmL k x0 M nrm) {eps : ℝ} (heps : 0 < eps) {σ : E → State}
    (hσ : SmState k x0 N σ)
    (hcalm : ∀ v w, IsStep nn th (tgt x0) (nrm x0) (σ x0).damp (σ x0).src v w →
      Calm eps th (tgt x0) (σ x0).src (Geom.transformPointcloud (Geom.se3Exp eps v w) (σ x0).src) w) :
    ∃ (v w : E → V3 ℝ) (xi : E → T2 ℝ) (err newErr : E → ℝ) (one : E → List (V3 ℝ)) (idx : List Nat),
      SmV k x0 v ∧ SmV k x0 w ∧ Sm k x0 err ∧ Sm k x0 newErr ∧ SmL k x0 N one ∧ SmM4 k x0 (fun e => Geom.se3Exp eps (v e) (w e)) ∧
      IsStep nn th (tgt x0) (nrm x0) (σ x0).damp (σ x0).src (v x0) (w x0) ∧
      (∀ e, err e = planeErr nn th (tgt e) (nrm e) (σ e).src) ∧
      (∀ e, newErr e = planeErr nn th (tgt e) (nrm e) (Geom.transformPointcloud (Geom.se3Exp eps (v e) (w e)) (σ e).src)) ∧
      (∀ e, one e = Geom.transformPointcloud (Geom.se3Exp eps (v e) (w e)) (σ e).src) ∧
      ∀ᶠ e in 𝓝 x0, xiV (xi e) = v e ∧ xiW (xi e) = w e ∧ lookahead eps nn th (tgt e) (nrm e) (σ e) = .ok (xi e, err e, newErr e, one e, idx) := by
  have hne : ∀ e, tgt e ≠ [] := fun e => List.ne_nil_of_length_pos (by rw [ht.len e]; exact hM)
  have hl : ∀ e, (tgt e).length = (nrm e).length := fun e => by rw [ht.len, hm.len]
  obtain ⟨xi0, _, hst, hv0, hw0⟩ := lookahead_eq hn (hne x0) (hl x0) eps (th := th) (σ x0) hσ.pos
  have hc := hcalm _ _ hst
  let X : E → Fin 6 → ℝ := fun e => xiOf nn th (tgt e) (nrm e) (σ e).src (σ e).damp
  have hX : ∀ i, Sm k x0 fun e => X e i := xi_smooth hn hM ht hm hσ.src hc.before hσ.damp hσ.pos
  have hv : SmV k x0 fun e => xiOfV (X e) := ⟨hX 0, hX 1, hX 2⟩
  have hw : SmV k x0 fun e => xiOfW (X e) := ⟨hX 3, hX 4, hX 5⟩
  have hexp : SmM4 k x0 fun e => Geom.se3Exp eps (xiOfV (X e)) (xiOfW (X e)) := se3_smooth heps hv hw (by rw [← hw0]; exact hc.angle)
  have hone := SmL.transform hexp hσ.src
  have hafter : ∀ s ∈ Geom.transformPointcloud (Geom.se3Exp eps (xiOfV (X x0)) (xiOfW (X x0))) (σ x0).src, Settled th (tgt x0) s := by
    rw [← hv0, ← hw0]; exact hc.after
  have hst' : IsStep nn th (tgt x0) (nrm x0) (σ x0).damp (σ x0).src (xiOfV (X x0)) (xiOfW (X x0)) := by rw [← hv0, ← hw0]; exact hst
  have hev : ∀ᶠ e in 𝓝 x0, 0 < (σ e).damp := continuousAt_const.eventually_lt hσ.damp.continuousAt hσ.pos
  have hxi : ∀ e, ∃ xi, 0 < (σ e).damp → lookahead eps nn th (tgt e) (nrm e) (σ e) = .ok (xi, planeErr nn th (tgt e) (nrm e) (σ e).src,
        planeErr nn th (tgt e) (nrm e) (Geom.transformPointcloud (Geom.se3Exp eps (xiV xi) (xiW xi)) (σ e).src),
        Geom.transformPointcloud (Geom.se3Exp eps (xiV xi) (xiW xi)) (σ e).src, (taking th (tgt e) (σ e).src).map (nn (tgt e))) ∧
        xiV xi = xiOfV (X e) ∧ xiW xi = xiOfW (X e) := by
    intro e
    by_cases hp : 0 < (σ e).damp
    · obtain ⟨xi, h1, _, h3, h4⟩ := lookahead_eq hn (hne e) (hl e) eps (th := th) (σ e) hp
      exact ⟨xi, fun _ => ⟨h1, h3, h4⟩⟩
    · exact ⟨⟨[], 0⟩, fun h => absurd h hp⟩
  choose xi hxi using hxi
  refine ⟨fun e => xiOfV (X e), fun e => xiOfW (X e), xi, _, _, _, (taking th (tgt x0) (σ x0).src).map (nn (tgt x0)), hv, hw, planeErr_smooth hn hM ht hm hσ.src hc.before,
    planeErr_smooth hn hM ht hm hone hafter, hone, hexp, hst', fun e => rfl, fun e => rfl, fun e => rfl,
    (hev.and (assoc_idx_const (nn := nn) hn hM ht hσ.src hc.before)).mono fun e ⟨hp, hidx⟩ => ?_⟩
  obtain ⟨h1, h2, h3⟩ := hxi e hp
  refine ⟨h2, h3, ?_⟩
  rw [h2, h3, hidx] at h1
  exact h1

/-- One iteration of gradICP. -/
theorem grad_step_smooth (hn : NearestIn nn) (hM : 0 < M) (ht : SmL k x0 M tgt) (hm : SmL k x0 M nrm) {eps lmax B B2 nu : ℝ} (heps : 0 < eps)
    (hlm : 1 < lmax) {σ : E → State} (hσ : SmState k x0 N σ)
    (hcalm : ∀ v w, IsStep nn th (tgt x0) (nrm x0) (σ x0).damp (σ x0).src v w →
      GradCalm eps B2 nu th (tgt x0) (σ x0).src (Geom.transformPointcloud (Geom.se3Exp eps v w) (σ x0).src) w
        (planeErr nn th (tgt x0) (nrm x0) (Geom.transformPointcloud (Geom.se3Exp eps v w) (σ x0).src) - planeErr nn th (tgt x0) (nrm x0) (σ x0).src)) :
    ∃ σ' : E → State, (∀ᶠ e in 𝓝 x0, gradStep eps lmax B B2 nu nn th (tgt e) (nrm e) (σ e) = .ok (σ' e)) ∧ SmState k x0 N σ' ∧
      ∃ i, ∀ e, (σ' e).idx = some i := by
  obtain ⟨v, w, xi, err, newErr, one, idx, hv, hw, herr, hnew, hone, hexp, hst, e1, e2, e3, hev⟩ :=
    lookahead_smooth (th := th) hn hM ht hm heps hσ fun v w h => (hcalm v w h).toCalm
  have hc := hcalm _ _ hst
  rw [← e2, ← e1] at hc
  have hchange := clamp70_smooth (hnew.fun_sub herr) hc.low hc.high
  have hwt := stepWeight_smooth hchange B2 nu
  have hR := se3_smooth heps (SmV.smul hwt hv) (SmV.smul hwt hw) hc.weighted
  have hdf := dampFactor_smooth hchange lmax B
  refine ⟨fun e =>
    ⟨Geom.transformPointcloud (Geom.se3Exp eps ((v e).smul (stepWeight B2 nu (clamp70 (newErr e - err e))))
        ((w e).smul (stepWeight B2 nu (clamp70 (newErr e - err e))))) (σ e).src,
      (σ e).damp * dampFactor lmax B (clamp70 (newErr e - err e)),
      (Geom.se3Exp eps ((v e).smul (stepWeight B2 nu (clamp70 (newErr e - err e))))
        ((w e).smul (stepWeight B2 nu (clamp70 (newErr e - err e))))).mul (σ e).T, some idx⟩, ?_, ?_, idx, fun e => rfl⟩
  · refine hev.mono fun e ⟨h1, h2, h3⟩ => ?_
    rw [gradStep, h3]
    simp only [h1, h2]
  · exact ⟨SmL.transform hR hσ.src, hσ.damp.fun_mul hdf, mul_pos hσ.pos (lt_trans (by positivity) (dampFactor_between hlm).1), hR.mul hσ.T⟩

/-- One iteration of ICP, if the full step does not leave the error exactly unchanged. -/
theorem icp_step_smooth (hn : NearestIn nn) (hM : 0 < M) (ht : SmL k x0 M tgt) (hm : SmL k x0 M nrm) {eps : ℝ} (heps : 0 < eps)
    {σ : E → State} (hσ : SmState k x0 N σ)
    (hcalm : ∀ v w, IsStep nn th (tgt x0) (nrm x0) (σ x0).damp (σ x0).src v w →
      Calm eps th (tgt x0) (σ x0).src (Geom.transformPointcloud (Geom.se3Exp eps v w) (σ x0).src) w ∧
      planeErr nn th (tgt x0) (nrm x0) (Geom.transformPointcloud (Geom.se3Exp eps v w) (σ x0).src) ≠ planeErr nn th (tgt x0) (nrm x0) (σ x0).src) :
    ∃ σ' : E → State, (∀ᶠ e in 𝓝 x0, icpStep eps nn th (tgt e) (nrm e) (σ e) = .ok (σ' e)) ∧ SmState k x0 N σ' ∧ ∃ i, ∀ e, (σ' e).idx = some i := by
  obtain ⟨v, w, xi, err, newErr, one, idx, hv, hw, herr, hnew, hone, hexp, hst, e1, e2, e3, hev⟩ :=
    lookahead_smooth (th := th) hn hM ht hm heps hσ fun v w h => (hcalm v w h).1
  have hc := (hcalm _ _ hst).2
  rw [← e2, ← e1] at hc
  rcases lt_or_gt_of_ne hc with hlt | hgt
  · have hev2 := hnew.continuousAt.eventually_lt herr.continuousAt hlt
    refine ⟨fun e => ⟨one e, (σ e).damp / 2, (Geom.se3Exp eps (v e) (w e)).mul (σ e).T, some idx⟩, ?_, ?_, idx, fun e => rfl⟩
    · refine (hev.and hev2).mono fun e ⟨⟨h1, h2, h3⟩, h4⟩ => ?_
      rw [icpStep, h3]
      simp only [if_pos h4, h1, h2]
    · exact ⟨hone, hσ.damp.fun_div (.const 2) (by norm_num), half_pos hσ.pos, hexp.mul hσ.T⟩
  · have hev2 := herr.continuousAt.eventually_lt hnew.continuousAt hgt
    refine ⟨fun e => ⟨(σ e).src, (σ e).damp * 2, (σ e).T, some idx⟩, ?_, ?_, idx, fun e => rfl⟩
    · refine (hev.and hev2).mono fun e ⟨⟨h1, h2, h3⟩, h4⟩ => ?_
      rw [icpStep, h3]
      simp only [if_neg h4.not_gt]
    · exact ⟨hσ.src, hσ.damp.fun_mul (.const 2), mul_pos hσ.pos two_pos, hσ.T⟩

/-! ### Runs -/

theorem loop_succ (f : State → Except Err State) (s : State) : ∀ (n : Nat) (s' : State), loop f n s = .ok s' → loop f (n + 1) s = f s' := by
  intro n
  induction n generalizing s with
  | zero => intro s' h; cases h; simp only [loop]; cases f s <;> rfl
  | succ n ih =>
    intro s' h
    rw [loop] at h ⊢
    cases hf : f s with
    | error e => rw [hf] at h; cases h
    | ok t => rw [hf] at h; simp only at h ⊢; exact ih t s' h

/-- A run whose iterations are smooth along the sequence of states at `x0`. -/
theorem run_smooth (f : E → State → Except Err State) (st : Nat → State) (hst : ∀ j, f x0 (st j) = .ok (st (j + 1))) (n : Nat)
    (hstep : ∀ j < n, ∀ σ : E → State, SmState k x0 N σ → σ x0 = st j →
      ∃ σ' : E → State, (∀ᶠ e in 𝓝 x0, f e (σ e) = .ok (σ' e)) ∧ SmState k x0 N σ' ∧ ∃ i, ∀ e, (σ' e).idx = some i)
    (σ0 : E → State) (h0 : SmState k x0 N σ0) (hs0 : σ0 x0 = st 0) :
    ∀ j ≤ n, ∃ σ : E → State, (∀ᶠ e in 𝓝 x0, loop (f e) j (σ0 e) = .ok (σ e)) ∧ SmState k x0 N σ ∧ σ x0 = st j ∧
      (0 < j → ∃ i, ∀ e, (σ e).idx = some i) := by
  intro j
  induction j with
  | zero => intro _; exact ⟨σ0, Filter.Eventually.of_forall fun e => rfl, h0, hs0, fun h => absurd h (lt_irrefl _)⟩
  | succ j ih =>
    intro hj
    obtain ⟨σ, h1, h2, h3, _⟩ := ih (by omega)
    obtain ⟨σ', g1, g2, g3⟩ := hstep j (by omega) σ h2 h3
    refine ⟨σ', (h1.and g1).mono fun e ⟨a, b⟩ => ?_, g2, ?_, fun _ => g3⟩
    · rw [loop_succ _ _ _ _ a, b]
    · have := g1.self_of_nhds
      rw [h3, hst j] at this
      exact (Except.ok.inj this).symm

theorem start_smooth {src : E → List (V3 ℝ)} (hs : SmL k x0 N src) {T0 : E → M4 ℝ} (hT : SmM4 k x0 T0) {damp : E → ℝ} (hd : Sm k x0 damp)
    (hpos : 0 < damp x0) : SmState k x0 N fun e => start (src e) (damp e) (T0 e) :=
  ⟨SmL.transform hT hs, hd, hpos, hT⟩

/-- **C77** (gradICP).  Let source cloud, target cloud, normals, initial transform and damping depend `k` times continuously differentiably on a parameter in
any normed space (for example on all of their coordinates), and suppose that in none of the `n ≥ 1` iterations for the parameter `x0` a discrete
decision is on the edge.  Then for all parameters near `x0` gradICP succeeds, the correspondences are the same, and the returned transform is
`k` times continuously differentiable at `x0`. -/
theorem gradicp_smooth (hn : NearestIn nn) (hM : 0 < M) (ht : SmL k x0 M tgt) (hm : SmL k x0 M nrm) {src : E → List (V3 ℝ)} (hs : SmL k x0 N src)
    {T0 : E → M4 ℝ} (hT : SmM4 k x0 T0) (hTa : (T0 x0).Affine) {damp : E → ℝ} (hd : Sm k x0 damp) (hpos : 0 < damp x0) {eps lmax B B2 nu : ℝ}
    (heps : 0 < eps) (hlm : 1 < lmax) {n : Int} (hn1 : 1 ≤ n)
    (hcalm : ∀ T d, T 0 = T0 x0 → d 0 = damp x0 → GradTrace nn th (tgt x0) (nrm x0) eps lmax B B2 nu (src x0) n.toNat T d → ∀ j < n.toNat, ∀ v w,
      IsStep nn th (tgt x0) (nrm x0) (d j) (Geom.transformPointcloud (T j) (src x0)) v w →
      GradCalm eps B2 nu th (tgt x0) (Geom.transformPointcloud (T j) (src x0))
        (Geom.transformPointcloud ((Geom.se3Exp eps v w).mul (T j)) (src x0)) w
        (planeErr nn th (tgt x0) (nrm x0) (Geom.transformPointcloud ((Geom.se3Exp eps v w).mul (T j)) (src x0)) -
          planeErr nn th (tgt x0) (nrm x0) (Geom.transformPointcloud (T j) (src x0)))) :
    ∃ (T : E → M4 ℝ) (idx : List Nat), SmM4 k x0 T ∧
      ∀ᶠ e in 𝓝 x0, pointToPlaneGradICP eps lmax B B2 nu nn (src e) (tgt e) (nrm e) (some (T0 e)) n (damp e) th = .ok (T e, idx) := by
  have hne : tgt x0 ≠ [] := List.ne_nil_of_length_pos (by rw [ht.len x0]; exact hM)
  have hl : (tgt x0).length = (nrm x0).length := by rw [ht.len, hm.len]
  have hdf : ∀ e, 0 < dampFactor lmax B e := fun e => lt_trans (by positivity) (dampFactor_between hlm).1
  obtain ⟨st, h0, hrun, hI, hstep⟩ := loop_run (gradStep eps lmax B B2 nu nn th (tgt x0) (nrm x0))
    (fun s => 0 < s.damp ∧ s.T.Affine ∧ s.src = Geom.transformPointcloud s.T (src x0))
    (fun s ⟨a, b, c⟩ => by
      obtain ⟨s', v, w, e, he, h1, h2, _, _, _, _, h7⟩ :=
        gradStep_spec hn hne hl (th := th) (eps := eps) (lmax := lmax) (B := B) (B2 := B2) (nu := nu) (src x0) s a b c
      exact ⟨s', he, by rw [h7]; exact mul_pos a (hdf e), h1, h2⟩) n.toNat (start (src x0) (damp x0) (T0 x0)) ⟨hpos, hTa, rfl⟩
  have htrace : GradTrace nn th (tgt x0) (nrm x0) eps lmax B B2 nu (src x0) n.toNat (fun j => (st j).T) (fun j => (st j).damp) := by
    refine ⟨fun j _ => ?_⟩
    obtain ⟨a, b, c⟩ := hI j
    obtain ⟨s', v, w, e, he, _, _, _, h4, h5, h6, h7⟩ :=
      gradStep_spec hn hne hl (th := th) (eps := eps) (lmax := lmax) (B := B) (B2 := B2) (nu := nu) (src x0) (st j) a b c
    rw [hstep] at he
    obtain rfl : st (j + 1) = s' := by simpa using he
    rw [c] at h4 h5
    exact ⟨v, w, e, h4, h5, h6, h7⟩
  obtain ⟨σ, h1, h2, h3, h4⟩ := run_smooth (fun e => gradStep eps lmax B B2 nu nn th (tgt e) (nrm e)) st hstep n.toNat
    (fun j hj σ hσ hσj => grad_step_smooth hn hM ht hm heps hlm hσ fun v w hvw => by
      obtain ⟨a, b, c⟩ := hI j
      have := hcalm (fun j => (st j).T) (fun j => (st j).damp) (by simp [h0, start]) (by simp [h0, start]) htrace j hj v w (by
        rw [← c, ← hσj]; exact hvw)
      rw [hσj, c, compose_cloud _ _ b]
      exact this)
    (fun e => start (src e) (damp e) (T0 e)) (start_smooth hs hT hd hpos) h0.symm n.toNat le_rfl
  obtain ⟨i, hi⟩ := h4 (by omega)
  refine ⟨fun e => (σ e).T, i, h2.T, h1.mono fun e he => ?_⟩
  rw [pointToPlaneGradICP, he]
  simp only [finish, hi e]

/-- **C77** (ICP).  The same for ICP, provided that in addition no iteration for the parameter `x0` leaves the error exactly unchanged. -/
theorem icp_smooth (hn : NearestIn nn) (hM : 0 < M) (ht : SmL k x0 M tgt) (hm : SmL k x0 M nrm) {src : E → List (V3 ℝ)} (hs : SmL k x0 N src)
    {T0 : E → M4 ℝ} (hT : SmM4 k x0 T0) (hTa : (T0 x0).Affine) {damp : E → ℝ} (hd : Sm k x0 damp) (hpos : 0 < damp x0) {eps : ℝ}
    (heps : 0 < eps) {n : Int} (hn1 : 1 ≤ n)
    (hcalm : ∀ T d, T 0 = T0 x0 → d 0 = damp x0 → LMTrace nn th (tgt x0) (nrm x0) eps (src x0) n.toNat T d → ∀ j < n.toNat, ∀ v w,
      IsStep nn th (tgt x0) (nrm x0) (d j) (Geom.transformPointcloud (T j) (src x0)) v w →
      Calm eps th (tgt x0) (Geom.transformPointcloud (T j) (src x0)) (Geom.transformPointcloud ((Geom.se3Exp eps v w).mul (T j)) (src x0)) w ∧
      planeErr nn th (tgt x0) (nrm x0) (Geom.transformPointcloud ((Geom.se3Exp eps v w).mul (T j)) (src x0)) ≠
        planeErr nn th (tgt x0) (nrm x0) (Geom.transformPointcloud (T j) (src x0))) :
    ∃ (T : E → M4 ℝ) (idx : List Nat), SmM4 k x0 T ∧
      ∀ᶠ e in 𝓝 x0, pointToPlaneICP eps nn (src e) (tgt e) (nrm e) (some (T0 e)) n (damp e) th = .ok (T e, idx) := by
  have hne : tgt x0 ≠ [] := List.ne_nil_of_length_pos (by rw [ht.len x0]; exact hM)
  have hl : (tgt x0).length = (nrm x0).length := by rw [ht.len, hm.len]
  obtain ⟨st, h0, hrun, hI, hstep⟩ := loop_run (icpStep eps nn th (tgt x0) (nrm x0))
    (fun s => 0 < s.damp ∧ s.T.Affine ∧ s.src = Geom.transformPointcloud s.T (src x0))
    (fun s ⟨a, b, c⟩ => by
      obtain ⟨s', v, w, e, h1, h2, h3, _⟩ := icpStep_spec hn hne hl (th := th) eps (src x0) s a b c
      exact ⟨s', e, h1, h2, h3⟩) n.toNat (start (src x0) (damp x0) (T0 x0)) ⟨hpos, hTa, rfl⟩
  have htrace : LMTrace nn th (tgt x0) (nrm x0) eps (src x0) n.toNat (fun j => (st j).T) (fun j => (st j).damp) := by
    refine ⟨fun j _ => ?_⟩
    obtain ⟨a, b, c⟩ := hI j
    obtain ⟨s', v, w, e, _, _, _, _, h5, h6⟩ := icpStep_spec hn hne hl (th := th) eps (src x0) (st j) a b c
    rw [hstep] at e
    obtain rfl : st (j + 1) = s' := by simpa using e
    rw [c] at h5 h6
    exact ⟨v, w, h5, h6⟩
  obtain ⟨σ, h1, h2, h3, h4⟩ := run_smooth (fun e => icpStep eps nn th (tgt e) (nrm e)) st hstep n.toNat
    (fun j hj σ hσ hσj => icp_step_smooth hn hM ht hm heps hσ fun v w hvw => by
      obtain ⟨a, b, c⟩ := hI j
      have := hcalm (fun j => (st j).T) (fun j => (st j).damp) (by simp [h0, start]) (by simp [h0, start]) htrace j hj v w (by
        rw [← c, ← hσj]; exact hvw)
      rw [hσj, c, compose_cloud _ _ b]
      exact this)
    (fun e => start (src e) (damp e) (T0 e)) (start_smooth hs hT hd hpos) h0.symm n.toNat le_rfl
  obtain ⟨i, hi⟩ := h4 (by omega)
  refine ⟨fun e => (σ e).T, i, h2.T, h1.mono fun e he => ?_⟩
  rw [pointToPlaneICP, he]
  simp only [finish, hi e]

end
end Verif.Icp
