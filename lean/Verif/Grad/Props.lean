import Verif.Grad.Spec
import Mathlib.Analysis.SpecialFunctions.ExpDeriv
import Mathlib.Analysis.SpecialFunctions.Sqrt
import Mathlib.Analysis.SpecialFunctions.Trigonometric.Deriv
import Mathlib.Analysis.SpecialFunctions.Pow.Deriv
import Mathlib.Analysis.SpecialFunctions.Complex.LogDeriv
import Mathlib.Analysis.Calculus.Deriv.Inv
/-! **C106**: back-propagation computes derivatives where all operations are differentiable, and finite numbers where all are tame. -/
namespace Verif.Grad
open Verif Verif.Nan Classical Topology

/-- The local derivatives of an operation. -/
noncomputable def Op.partials (x : ℕ → ℝ) : Op → List (ℕ × ℝ)
  | const _ => []
  | neg a => [(a, -1)]
  | add a b => [(a, 1), (b, 1)]
  | sub a b => [(a, 1), (b, -1)]
  | mul a b => [(a, x b), (b, x a)]
  | div a b => [(a, 1 / x b), (b, -(x a / x b / x b))]
  | scale c a => [(a, c)]
  | recip a => [(a, -(1 / x a * (1 / x a)))]
  | pow a k => [(a, k * x a ^ (k - 1))]
  | rpow a r => [(a, r * x a ^ (r - 1))]
  | exp a => [(a, Real.exp (x a))]
  | sin a => [(a, Real.cos (x a))]
  | cos a => [(a, -Real.sin (x a))]
  | sqrt a => [(a, 1 / (2 * √(x a)))]
  | atan2 a b => [(a, x b / (x a * x a + x b * x b)), (b, -x a / (x a * x a + x b * x b))]
  | sel c a b => [(a, if c.holds x then 1 else 0), (b, if c.holds x then 0 else 1)]
  | norm3 a b c => [(a, x a / √(x a * x a + x b * x b + x c * x c)), (b, x b / √(x a * x a + x b * x b + x c * x c)),
      (c, x c / √(x a * x a + x b * x b + x c * x c))]
  | clamp lo hi a => [(a, if x a < lo ∨ hi < x a then 0 else 1)]

theorem partials_args (x : ℕ → ℝ) (o : Op) : ∀ p ∈ o.partials x, p.1 ∈ o.args := by
  cases o <;> simp [Op.partials, Op.args]

theorem cond_fin (c : Cond) (x : ℕ → ℝ) : c.eval (fun k => .fin (x k)) = decide (c.holds x) := by
  rw [Bool.eq_iff_iff, decide_eq_true_iff]
  cases c <;> simp [Cond.eval, Cond.holds, X.lt, X.isZero, absX]

theorem eval_fin (o : Op) (x : ℕ → ℝ) (h : o.Regular x) : o.eval (fun k => .fin (x k)) = .fin (o.evalR x) := by
  cases o with
  | div a b => simp only [Op.Regular] at h; simp [Op.eval, Op.evalR, X.div, h, ex]
  | recip a => simp only [Op.Regular] at h; simp [Op.eval, Op.evalR, X.div, h, ex]
  | rpow a r => simp only [Op.Regular] at h; simp [Op.eval, Op.evalR, mapX, h]
  | sqrt a => simp only [Op.Regular] at h; simp [Op.eval, Op.evalR, mapX, h.le.not_gt]
  | sel c a b => simp only [Op.eval, Op.evalR, cond_fin]; by_cases hc : c.holds x <;> simp [hc]
  | clamp lo hi a =>
    simp only [Op.eval, Op.evalR, X.clamp, X.lt, reduceCtorEq, if_false, decide_eq_true_eq]
    split_ifs <;> rfl
  | sub a b => simp [Op.eval, Op.evalR, X.neg, X.add, ex, sub_eq_add_neg]
  | _ => simp [Op.eval, Op.evalR, X.neg, X.add, X.mul, X.exp, X.map, X.norm, mapX, atan2X, ex]

theorem pulls_fin (o : Op) (x : ℕ → ℝ) (g : ℝ) (h : o.Regular x) :
    o.pulls (fun k => .fin (x k)) (.fin (o.evalR x)) (.fin g) = (o.partials x).map fun p => (p.1, .fin (g * p.2)) := by
  cases o with
  | div a b =>
    simp only [Op.Regular] at h
    simp [Op.pulls, Op.partials, X.div, X.mul, X.neg, h, ex, div_eq_mul_inv]
  | recip a =>
    simp only [Op.Regular] at h
    simp [Op.pulls, Op.partials, Op.evalR, X.mul, X.neg, ex]
  | pow a k =>
    simp only [Op.pulls, Op.partials, mapX, X.mul, ex, List.map_cons, List.map_nil]
    split_ifs with hk <;> simp [hk]
  | rpow a r =>
    simp only [Op.Regular] at h
    simp only [Op.pulls, Op.partials, mapX, X.mul, ex, List.map_cons, List.map_nil, h, if_true]
    split_ifs with hk <;> simp [hk]
  | sqrt a =>
    simp only [Op.Regular] at h
    have : √(x a) ≠ 0 := (Real.sqrt_pos.2 h).ne'
    simp [Op.pulls, Op.partials, Op.evalR, X.div, X.mul, ex, this, div_eq_mul_inv]
  | atan2 a b =>
    simp only [Op.Regular] at h
    have : x a * x a + x b * x b ≠ 0 := by
      rcases h with h | h
      · have := mul_pos h h; have := mul_self_nonneg (x a); linarith
      · have := mul_self_pos.2 h; have := mul_self_nonneg (x b); linarith
    simp [Op.pulls, Op.partials, X.div, X.mul, X.add, X.neg, ex, this, div_eq_mul_inv, mul_assoc]
  | sel c a b => simp only [Op.pulls, Op.partials, cond_fin]; by_cases hc : c.holds x <;> simp [hc]
  | norm3 a b c =>
    simp only [Op.Regular] at h
    have : √(x a * x a + x b * x b + x c * x c) ≠ 0 := (Real.sqrt_pos.2 h).ne'
    simp [Op.pulls, Op.partials, Op.evalR, X.isZero, X.mul, X.div, ex, this]
    refine ⟨?_, ?_, ?_⟩ <;> ring
  | clamp lo hi a =>
    simp only [Op.pulls, Op.partials, X.lt, List.map_cons, List.map_nil, Bool.or_eq_true, decide_eq_true_eq]
    split_ifs <;> simp
  | _ => simp [Op.pulls, Op.partials, Op.evalR, X.neg, X.mul, X.map, ex]

/-- Near a point where it is regular a mask does not change. -/
theorem cond_eventually (c : Cond) (y : ℝ → ℕ → ℝ) (t₀ : ℝ) (hy : ContinuousAt (fun t => y t c.arg) t₀) (h : c.Regular (y t₀)) :
    ∀ᶠ t in 𝓝 t₀, (c.holds (y t) ↔ c.holds (y t₀)) := by
  have sg : ∀ a : ℕ, ContinuousAt (fun t => y t a) t₀ → y t₀ a ≠ 0 →
      ∀ᶠ t in 𝓝 t₀, (y t a < 0 ↔ y t₀ a < 0) ∧ (0 < y t a ↔ 0 < y t₀ a) ∧ y t a ≠ 0 := by
    intro a ha h0
    rcases lt_or_gt_of_ne h0 with hl | hl
    · filter_upwards [ha.eventually (gt_mem_nhds hl)] with t ht
      exact ⟨by simp [ht, hl], by simp [ht.le.not_gt, hl.le.not_gt], ht.ne⟩
    · filter_upwards [ha.eventually (lt_mem_nhds hl)] with t ht
      exact ⟨by simp [ht.le.not_gt, hl.le.not_gt], by simp [ht, hl], ht.ne'⟩
  cases c with
  | absGt a eps =>
    simp only [Cond.Regular] at h
    rcases lt_or_gt_of_ne h with hl | hl
    · filter_upwards [hy.abs.eventually (gt_mem_nhds hl)] with t ht
      simp only [Cond.holds]; exact ⟨fun k => absurd ht k.le.not_gt, fun k => absurd hl k.le.not_gt⟩
    · filter_upwards [hy.abs.eventually (lt_mem_nhds hl)] with t ht
      simp only [Cond.holds]; exact ⟨fun _ => hl, fun _ => ht⟩
  | lt0 a => filter_upwards [sg a hy h] with t ht using ht.1
  | gt0 a => filter_upwards [sg a hy h] with t ht using ht.2.1
  | eq0 a => filter_upwards [sg a hy h] with t ht using ⟨fun k => absurd k ht.2.2, fun k => absurd k h⟩
  | ne0 a => filter_upwards [sg a hy h] with t ht using ⟨fun _ => h, fun _ => ht.2.2⟩

theorem hasDerivAt_atan2 (u v : ℝ → ℝ) (u' v' t₀ : ℝ) (hu : HasDerivAt u u' t₀) (hv : HasDerivAt v v' t₀) (h : 0 < v t₀ ∨ u t₀ ≠ 0) :
    HasDerivAt (fun t => Geom.atan2 (u t) (v t))
      (v t₀ / (u t₀ * u t₀ + v t₀ * v t₀) * u' + -u t₀ / (u t₀ * u t₀ + v t₀ * v t₀) * v') t₀ := by
  have hf : HasDerivAt (fun t => (⟨v t, u t⟩ : ℂ)) (⟨v', u'⟩ : ℂ) t₀ := by
    have := hv.ofReal_comp.add (hu.ofReal_comp.mul_const Complex.I)
    refine (this.congr_deriv ?_).congr_of_eventuallyEq (Filter.Eventually.of_forall fun t => ?_)
    · exact (Complex.mk_eq_add_mul_I v' u').symm
    · exact Complex.mk_eq_add_mul_I (v t) (u t)
  have hl := hf.clog_real (Complex.mem_slitPlane_iff.2 h)
  have hi := (Complex.imCLM.hasFDerivAt (x := Complex.log ⟨v t₀, u t₀⟩)).comp_hasDerivAt t₀ hl
  refine (hi.congr_deriv ?_).congr_of_eventuallyEq (Filter.Eventually.of_forall fun t => ?_)
  · have e : Complex.normSq ⟨v t₀, u t₀⟩ = u t₀ * u t₀ + v t₀ * v t₀ := by rw [Complex.normSq_mk]; ring
    simp only [Complex.imCLM_apply, Complex.div_im, e]
    ring
  · simp [Geom.atan2, Complex.log_im]

/-- Along a path, an operation has the derivative its local derivatives say. -/
theorem eval_deriv (o : Op) (y : ℝ → ℕ → ℝ) (d : ℕ → ℝ) (t₀ : ℝ) (hy : ∀ k, HasDerivAt (fun t => y t k) (d k) t₀)
    (h : o.Regular (y t₀)) :
    HasDerivAt (fun t => o.evalR (y t)) (((o.partials (y t₀)).map fun p => p.2 * d p.1).sum) t₀ := by
  cases o with
  | const c => simpa [Op.evalR, Op.partials] using hasDerivAt_const t₀ c
  | neg a => exact ((hy a).neg).congr_deriv (by simp [Op.partials])
  | add a b => exact ((hy a).add (hy b)).congr_deriv (by simp [Op.partials])
  | sub a b => exact ((hy a).sub (hy b)).congr_deriv (by simp [Op.partials, sub_eq_add_neg])
  | mul a b => exact ((hy a).mul (hy b)).congr_deriv (by simp [Op.partials]; ring)
  | div a b =>
    simp only [Op.Regular] at h
    refine ((hy a).div (hy b) h).congr_deriv ?_
    simp only [Op.partials, List.map_cons, List.map_nil, List.sum_cons, List.sum_nil]; field_simp; ring
  | scale c a => exact ((hy a).const_mul c).congr_deriv (by simp [Op.partials])
  | recip a =>
    simp only [Op.Regular] at h
    refine (((hy a).inv h).congr_deriv ?_).congr_of_eventuallyEq (Filter.Eventually.of_forall fun t => ?_)
    · simp only [Op.partials, List.map_cons, List.map_nil, List.sum_cons, List.sum_nil]; field_simp; ring
    · simp [Op.evalR]
  | pow a k => exact ((hy a).pow k).congr_deriv (by simp [Op.partials])
  | rpow a r =>
    simp only [Op.Regular] at h
    exact ((hy a).rpow_const (Or.inl h.ne')).congr_deriv (by simp [Op.partials]; ring)
  | exp a => exact ((hy a).exp).congr_deriv (by simp [Op.partials])
  | sin a => exact ((hy a).sin).congr_deriv (by simp [Op.partials])
  | cos a => exact ((hy a).cos).congr_deriv (by simp [Op.partials])
  | sqrt a =>
    simp only [Op.Regular] at h
    exact ((hy a).sqrt h.ne').congr_deriv (by simp [Op.partials]; ring)
  | atan2 a b =>
    simp only [Op.Regular] at h
    exact (hasDerivAt_atan2 _ _ _ _ _ (hy a) (hy b) h).congr_deriv (by simp [Op.partials])
  | sel c a b =>
    have hc := cond_eventually c y t₀ (hy c.arg).continuousAt h
    by_cases k : c.holds (y t₀)
    · refine ((hy a).congr_deriv (by simp [Op.partials, k])).congr_of_eventuallyEq ?_
      filter_upwards [hc] with t ht
      simp [Op.evalR, ht.2 k]
    · refine ((hy b).congr_deriv (by simp [Op.partials, k])).congr_of_eventuallyEq ?_
      filter_upwards [hc] with t ht
      have : ¬ c.holds (y t) := fun q => k (ht.1 q)
      simp [Op.evalR, this]
  | norm3 a b c =>
    simp only [Op.Regular] at h
    have hs := (((hy a).mul (hy a)).add ((hy b).mul (hy b))).add ((hy c).mul (hy c))
    refine (hs.sqrt h.ne').congr_deriv ?_
    simp only [Op.partials, List.map_cons, List.map_nil, List.sum_cons, List.sum_nil, Pi.add_apply, Pi.mul_apply]
    have : √(y t₀ a * y t₀ a + y t₀ b * y t₀ b + y t₀ c * y t₀ c) ≠ 0 := (Real.sqrt_pos.2 h).ne'
    field_simp
    ring
  | clamp lo hi a =>
    obtain ⟨h1, h2⟩ := h
    have ca := (hy a).continuousAt
    rcases lt_or_gt_of_ne h1 with l1 | l1
    · refine ((hasDerivAt_const t₀ lo).congr_deriv (by simp [Op.partials, l1])).congr_of_eventuallyEq ?_
      filter_upwards [ca.eventually (gt_mem_nhds l1)] with t ht
      simp [Op.evalR, ht]
    · rcases lt_or_gt_of_ne h2 with l2 | l2
      · refine ((hy a).congr_deriv (by simp [Op.partials, l1.le.not_gt, l2.le.not_gt])).congr_of_eventuallyEq ?_
        filter_upwards [ca.eventually (gt_mem_nhds l2), ca.eventually (lt_mem_nhds l1)] with t ht ht'
        simp [Op.evalR, ht.le.not_gt, ht'.le.not_gt]
      · refine ((hasDerivAt_const t₀ hi).congr_deriv (by simp [Op.partials, l2])).congr_of_eventuallyEq ?_
        filter_upwards [ca.eventually (lt_mem_nhds l2), ca.eventually (lt_mem_nhds l1)] with t ht ht'
        simp [Op.evalR, ht, ht'.le.not_gt]

/-- The gradients `g` are the real numbers `G`. -/
def Is (g : ℕ → Option N) (G : ℕ → ℝ) : Prop := ∀ k, g k = none ∧ G k = 0 ∨ g k = some (.fin (G k))

theorem acc_is {g : ℕ → Option N} {G : ℕ → ℝ} (h : Is g G) (k : ℕ) (v : ℝ) :
    Is (acc g (k, .fin v)) (Function.update G k (G k + v)) := by
  intro j
  by_cases e : j = k
  · subst e
    right
    rcases h j with ⟨h1, h2⟩ | h1
    · simp [acc, h1, h2]
    · simp [acc, h1, X.add, ex]
  · simpa [acc, Function.update_of_ne e] using h j

theorem fold_is (m : ℕ) (a : ℝ) (l : List (ℕ × ℝ)) : ∀ (g : ℕ → Option N) (G : ℕ → ℝ), Is g G → (∀ p ∈ l, p.1 < m) →
    ∃ G', Is ((l.map fun p => (p.1, (.fin (a * p.2) : N))).foldl acc g) G' ∧
      ∀ d : ℕ → ℝ, ∑ k ∈ Finset.range m, G' k * d k = ∑ k ∈ Finset.range m, G k * d k + a * (l.map fun p => p.2 * d p.1).sum := by
  induction l with
  | nil => intro g G h _; exact ⟨G, h, by simp⟩
  | cons p l ih =>
    intro g G h hl
    obtain ⟨G', h1, h2⟩ := ih _ _ (acc_is h p.1 (a * p.2)) fun q hq => hl q (List.mem_cons_of_mem _ hq)
    refine ⟨G', h1, fun d => ?_⟩
    have hp : p.1 ∈ Finset.range m := Finset.mem_range.2 (hl p (List.mem_cons_self ..))
    have e : ∑ k ∈ Finset.range m, Function.update G p.1 (G p.1 + a * p.2) k * d k
        = ∑ k ∈ Finset.range m, G k * d k + a * p.2 * d p.1 := by
      rw [← Finset.add_sum_erase _ _ hp, ← Finset.add_sum_erase (Finset.range m) (fun k => G k * d k) hp]
      have : ∑ k ∈ (Finset.range m).erase p.1, Function.update G p.1 (G p.1 + a * p.2) k * d k
          = ∑ k ∈ (Finset.range m).erase p.1, G k * d k :=
        Finset.sum_congr rfl fun k hk => by rw [Function.update_of_ne (Finset.ne_of_mem_erase hk)]
      rw [this, Function.update_self]
      ring
    rw [h2 d, e, List.map_cons, List.sum_cons]
    ring

theorem update_fin (x : ℕ → ℝ) (m : ℕ) (v : ℝ) :
    Function.update (fun k => (.fin (x k) : N)) m (.fin v) = fun k => .fin (Function.update x m v k) := by
  funext k
  by_cases e : k = m
  · subst e; simp
  · simp [Function.update_of_ne e]

/-- Where all operations are regular the forward pass computes the real function. -/
theorem run_regular (os : List Op) : ∀ (m : ℕ) (x : ℕ → ℝ), Regular m os x →
    run m os (fun k => .fin (x k)) = fun k => .fin (runR m os x k) := by
  induction os with
  | nil => intro m x _; rfl
  | cons o os ih => intro m x h; rw [run, eval_fin o x h.1, update_fin]; exact ih _ _ h.2

theorem back_main (os : List Op) : ∀ (m : ℕ) (y : ℝ → ℕ → ℝ) (d : ℕ → ℝ) (t₀ : ℝ) (g : ℕ → Option N) (G : ℕ → ℝ),
    Closed m os → Regular m os (y t₀) → (∀ k, HasDerivAt (fun t => y t k) (d k) t₀) → Is g G →
    ∃ G' D : ℕ → ℝ, Is (back m os (fun k => .fin (y t₀ k)) g) G' ∧ (∀ k, HasDerivAt (fun t => runR m os (y t) k) (D k) t₀) ∧
      ∑ k ∈ Finset.range (m + os.length), G k * D k = ∑ k ∈ Finset.range m, G' k * d k := by
  induction os with
  | nil => intro m y d t₀ g G _ _ hy hg; exact ⟨G, d, hg, hy, rfl⟩
  | cons o os ih =>
    intro m y d t₀ g G hc hr hy hg
    have hd := eval_deriv o y d t₀ hy hr.1
    set s := ((o.partials (y t₀)).map fun p => p.2 * d p.1).sum with hs
    obtain ⟨G1, D, i1, i2, i3⟩ := ih (m + 1) (fun t => Function.update (y t) m (o.evalR (y t))) (Function.update d m s) t₀ g G hc.2
      hr.2 (fun k => by
        by_cases e : k = m
        · subst e; simpa using hd
        · simpa [Function.update_of_ne e] using hy k) hg
    have e3 : ∑ k ∈ Finset.range (m + (o :: os).length), G k * D k = ∑ k ∈ Finset.range m, G1 k * d k + G1 m * s := by
      rw [List.length_cons, show m + (os.length + 1) = m + 1 + os.length by omega, i3, Finset.sum_range_succ, Function.update_self]
      congr 1
      exact Finset.sum_congr rfl fun k hk => by rw [Function.update_of_ne (Finset.mem_range.1 hk).ne]
    have eb : back m (o :: os) (fun k => .fin (y t₀ k)) g
        = match back (m + 1) os (fun k => .fin (Function.update (y t₀) m (o.evalR (y t₀)) k)) g m with
          | none => back (m + 1) os (fun k => .fin (Function.update (y t₀) m (o.evalR (y t₀)) k)) g
          | some a => (o.pulls (fun k => .fin (y t₀ k)) (.fin (o.evalR (y t₀))) a).foldl acc
              (back (m + 1) os (fun k => .fin (Function.update (y t₀) m (o.evalR (y t₀)) k)) g) := by
      simp only [back, eval_fin o (y t₀) hr.1, update_fin]
      rfl
    rcases i1 m with ⟨n1, n2⟩ | n1
    · rw [n1] at eb
      refine ⟨G1, D, by rw [eb]; exact i1, i2, ?_⟩
      rw [e3, n2]; ring
    · rw [n1] at eb
      simp only [pulls_fin o (y t₀) _ hr.1] at eb
      obtain ⟨G', f1, f2⟩ := fold_is m (G1 m) (o.partials (y t₀)) _ _ i1 fun p hp => hc.1 _ (partials_args _ _ _ hp)
      exact ⟨G', D, by rw [eb]; exact f1, i2, by rw [e3, f2 d, hs]⟩

/-- **C106**: where all operations are differentiable, back-propagation gives every input the derivative of the weighted sum of the
outputs with respect to that input. -/
theorem back_is_derivative (m : ℕ) (os : List Op) (x : ℕ → ℝ) (hc : Closed m os) (hr : Regular m os x) (outs : Finset ℕ)
    (ho : ∀ k ∈ outs, k < m + os.length) (s : ℕ → ℝ) (j : ℕ) (hj : j < m) :
    ∃ v, gradOf (back m os (fun k => .fin (x k)) (seed outs s)) j = .fin v ∧
      HasDerivAt (fun t => ∑ k ∈ outs, s k * runR m os (Function.update x j t) k) v (x j) := by
  have hx : Function.update x j (x j) = x := Function.update_eq_self j x
  obtain ⟨G', D, b1, b2, b3⟩ := back_main os m (fun t => Function.update x j t) (Pi.single j 1) (x j) (seed outs s)
    (fun k => if k ∈ outs then s k else 0) hc (by rw [hx]; exact hr) (fun k => by
      by_cases e : k = j
      · subst e; simpa using hasDerivAt_id' (x k)
      · simpa [Function.update_of_ne e, Pi.single_eq_of_ne e] using hasDerivAt_const (x j) (x k))
    (fun k => by by_cases e : k ∈ outs <;> simp [seed, e])
  simp only [hx] at b1
  refine ⟨G' j, ?_, ?_⟩
  · rcases b1 j with ⟨h1, h2⟩ | h1
    · simp [gradOf, h1, h2]
    · simp [gradOf, h1]
  · have : G' j = ∑ k ∈ outs, s k * D k := by
      have e1 : ∑ k ∈ Finset.range m, G' k * (Pi.single j 1 : ℕ → ℝ) k = G' j := by
        rw [Finset.sum_eq_single j]
        · simp
        · intro k _ hk; simp [Pi.single_eq_of_ne hk]
        · intro h; exact absurd (Finset.mem_range.2 hj) h
      rw [← e1, ← b3, ← Finset.sum_subset (s₁ := outs) (fun k hk => Finset.mem_range.2 (ho k hk))]
      · exact Finset.sum_congr rfl fun k hk => by rw [if_pos hk]
      · intro k _ hk; rw [if_neg hk]; ring
    rw [this]
    exact HasDerivAt.fun_sum fun k _ => (b2 k).const_mul (s k)

theorem fold_finite (l : List (ℕ × N)) : ∀ g : ℕ → Option N, (∀ k v, g k = some v → Finite v) → (∀ p ∈ l, Finite p.2) →
    ∀ k v, l.foldl acc g k = some v → Finite v := by
  induction l with
  | nil => intro g h _; exact h
  | cons p l ih =>
    intro g h hl
    refine ih _ (fun k v hv => ?_) fun q hq => hl q (List.mem_cons_of_mem _ hq)
    obtain ⟨b, hb⟩ := hl p (List.mem_cons_self ..)
    by_cases e : k = p.1
    · subst e
      rw [acc, Function.update_self, Option.some.injEq] at hv
      cases hg : g p.1 with
      | none => rw [hg] at hv; exact ⟨b, by rw [← hv, ← hb]⟩
      | some y =>
        obtain ⟨a, rfl⟩ := h _ _ hg
        rw [hg, hb] at hv
        exact ⟨a + b, by rw [← hv]; rfl⟩
    · exact h k v (by rwa [acc, Function.update_of_ne e] at hv)

/-- **C106**: where all operations pull finite gradients back to finite gradients, finite gradients of the outputs give finite gradients
of the inputs. -/
theorem back_finite (os : List Op) : ∀ (m : ℕ) (e : ℕ → N) (g : ℕ → Option N), Tame m os e → (∀ k v, g k = some v → Finite v) →
    ∀ k v, back m os e g k = some v → Finite v := by
  induction os with
  | nil => intro m e g _ h; exact h
  | cons o os ih =>
    intro m e g ht hg k v
    have h1 := ih (m + 1) _ g ht.2 hg
    simp only [back]
    generalize hb : back (m + 1) os (Function.update e m (o.eval e)) g = g1 at h1
    cases hm : g1 m with
    | none => exact h1 k v
    | some a =>
      obtain ⟨r, rfl⟩ := h1 m a hm
      exact fold_finite _ _ h1 (ht.1 r) k v

theorem correct_of_regular (m : ℕ) (os : List Op) (x : ℕ → ℝ) (hc : Closed m os) (hr : Regular m os x) (outs : Finset ℕ)
    (ho : ∀ k ∈ outs, k < m + os.length) : CorrectGrads m os outs x := fun s j hj => back_is_derivative m os x hc hr outs ho s j hj

theorem eval_mild (o : Op) (x : ℕ → ℝ) (h : o.Mild x) : o.eval (fun k => .fin (x k)) = .fin (o.evalR x) := by
  cases o with
  | div a b => exact eval_fin _ _ h
  | recip a => exact eval_fin _ _ h
  | rpow a r => exact eval_fin _ _ h
  | sqrt a => exact eval_fin _ _ h
  | sel c a b => simp only [Op.eval, Op.evalR, cond_fin]; by_cases hc : c.holds x <;> simp [hc]
  | clamp lo hi a =>
    simp only [Op.eval, Op.evalR, X.clamp, X.lt, reduceCtorEq, if_false, decide_eq_true_eq]
    split_ifs <;> rfl
  | sub a b => simp [Op.eval, Op.evalR, X.neg, X.add, ex, sub_eq_add_neg]
  | _ => simp [Op.eval, Op.evalR, X.neg, X.add, X.mul, X.exp, X.map, X.norm, mapX, atan2X, ex]

@[simp] theorem finite_fin (a : ℝ) : Finite (.fin a) := ⟨a, rfl⟩

theorem pulls_mild (o : Op) (x : ℕ → ℝ) (h : o.Mild x) (a : ℝ) :
    ∀ p ∈ o.pulls (fun k => .fin (x k)) (.fin (o.evalR x)) (.fin a), Finite p.2 := by
  have reg : o.Regular x → ∀ p ∈ o.pulls (fun k => .fin (x k)) (.fin (o.evalR x)) (.fin a), Finite p.2 := by
    intro hr p hp
    rw [pulls_fin o x a hr, List.mem_map] at hp
    obtain ⟨q, _, rfl⟩ := hp
    exact ⟨_, rfl⟩
  cases o with
  | atan2 y z =>
    simp only [Op.Mild] at h
    have : x y * x y + x z * x z ≠ 0 := by
      rcases h with h | h
      · have := mul_self_pos.2 h; have := mul_self_nonneg (x z); linarith
      · have := mul_self_pos.2 h; have := mul_self_nonneg (x y); linarith
    simp [Op.pulls, X.div, X.mul, X.add, X.neg, ex, this]
  | sel c y z => simp only [Op.pulls, cond_fin]; by_cases hc : c.holds x <;> simp [hc]
  | norm3 y z w =>
    simp only [Op.pulls, List.map_cons, List.map_nil, X.isZero, decide_eq_true_eq]
    by_cases hz : (Op.norm3 y z w).evalR x = 0 <;> simp [hz, X.mul, X.div, ex]
  | clamp lo hi y => simp only [Op.pulls, X.lt, Bool.or_eq_true, decide_eq_true_eq]; split_ifs <;> simp
  | _ => exact reg h

theorem run_mild (os : List Op) : ∀ (m : ℕ) (x : ℕ → ℝ), Mild m os x →
    run m os (fun k => .fin (x k)) = fun k => .fin (runR m os x k) := by
  induction os with
  | nil => intro m x _; rfl
  | cons o os ih => intro m x h; rw [run, eval_mild o x h.1, update_fin]; exact ih _ _ h.2

theorem tame_of_mild (os : List Op) : ∀ (m : ℕ) (x : ℕ → ℝ), Mild m os x → Tame m os (fun k => .fin (x k)) := by
  induction os with
  | nil => intro m x _; trivial
  | cons o os ih =>
    intro m x h
    rw [Tame, eval_mild o x h.1, update_fin]
    exact ⟨pulls_mild o x h.1, ih _ _ h.2⟩

/-- Where all operations are harmless the gradients of the inputs are finite. -/
theorem finite_of_mild (m : ℕ) (os : List Op) (x : ℕ → ℝ) (h : Mild m os x) (outs : Finset ℕ) : FiniteGrads m os outs x := by
  intro s j _
  rw [gradOf]
  cases hg : back m os (fun k => .fin (x k)) (seed outs s) j with
  | none => exact ⟨0, rfl⟩
  | some v =>
    refine back_finite os m _ _ (tame_of_mild os m x h) (fun k v hv => ?_) j v hg
    rw [seed] at hv
    split_ifs at hv
    exact ⟨_, (Option.some.inj hv).symm⟩

end Verif.Grad
