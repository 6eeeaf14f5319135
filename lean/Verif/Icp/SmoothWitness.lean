import Verif.Icp.SmoothRun
/-!
C77: the hypotheses of `gradicp_smooth` and `icp_smooth` are met by concrete registrations with any number of iterations, and without settled
associations the transform returned by gradICP can jump.
-/
namespace Verif.Icp
open Verif Pcs Topology Filter

/-- Translation along the third axis. -/
noncomputable def slide (z : ℝ) : M4 ℝ := ⟨M3.one, ⟨0, 0, z⟩, V3.zero, 1⟩

theorem slide_mul (a b : ℝ) : (slide a).mul (slide b) = slide (a + b) := by
  ext <;> simp [slide, M4.mul, M3.one, M3.mul, M3.add, M3.outer, M3.mulVec, M3.transpose, M3.c0, M3.c1, M3.c2, V3.dot, V3.add, V3.smul, V3.zero, add_comm]

theorem slide_zero : slide 0 = M4.one := rfl

theorem slide_cloud (a z : ℝ) : Geom.transformPointcloud (slide a) [⟨0, 0, z⟩] = [⟨0, 0, z + a⟩] := by
  simp [Geom.transformPointcloud, slide, M3.one, M3.mulVec, V3.dot, V3.add]

/-- The step for one point on the axis, whose nearest target is on the axis, too. -/
theorem axis_step {nn : List (V3 ℝ) → V3 ℝ → Nat} {tgt nrm : List (V3 ℝ)} {z c d : ℝ} (hd : 0 < d)
    (h1 : tgt.getD (nn tgt ⟨0, 0, z⟩) V3.zero = ⟨0, 0, c⟩) (h2 : nrm.getD (nn tgt ⟨0, 0, z⟩) V3.zero = ⟨0, 0, 1⟩) {v w : V3 ℝ}
    (hs : IsStep nn none tgt nrm d [⟨0, 0, z⟩] v w) : v = ⟨0, 0, -(z - c) / (1 + d)⟩ ∧ w = V3.zero := by
  have hcost : ∀ v w : V3 ℝ, linCost nn none tgt nrm d [⟨0, 0, z⟩] v w = (z + v.z - c) ^ 2 + d * (v.normSq + w.normSq) := by
    intro v w
    have hp : ∀ p, planeDist nn tgt nrm ⟨0, 0, z⟩ p = p.z - c := fun p => by rw [planeDist, h1, h2]; simp [V3.dot, V3.sub]
    simp [linCost, taking, Close, hp, V3.add, V3.cross]
  by_contra hne
  have h := hs ⟨0, 0, -(z - c) / (1 + d)⟩ V3.zero (fun h => hne ⟨(Prod.mk.inj h).1.symm, (Prod.mk.inj h).2.symm⟩)
  rw [hcost, hcost] at h
  simp only [V3.normSq, V3.dot, V3.zero] at h
  obtain ⟨u, hu⟩ : ∃ u, u = -(z - c) / (1 + d) := ⟨_, rfl⟩
  have hu' : z - c = -u * (1 + d) := by rw [hu]; field_simp
  rw [← hu, show z + v.z - c = (z - c) + v.z by ring, show z + u - c = (z - c) + u by ring, hu'] at h
  nlinarith [mul_nonneg hd.le (sq_nonneg v.x), mul_nonneg hd.le (sq_nonneg v.y), mul_nonneg hd.le (sq_nonneg (v.z - u)), sq_nonneg (v.z - u),
    mul_nonneg hd.le (sq_nonneg w.x), mul_nonneg hd.le (sq_nonneg w.y), mul_nonneg hd.le (sq_nonneg w.z)]

theorem axis_err {nn : List (V3 ℝ) → V3 ℝ → Nat} {tgt nrm : List (V3 ℝ)} {z c : ℝ}
    (h1 : tgt.getD (nn tgt ⟨0, 0, z⟩) V3.zero = ⟨0, 0, c⟩) (h2 : nrm.getD (nn tgt ⟨0, 0, z⟩) V3.zero = ⟨0, 0, 1⟩) :
    planeErr nn none tgt nrm [⟨0, 0, z⟩] = (z - c) ^ 2 := by
  have hp : ∀ p, planeDist nn tgt nrm ⟨0, 0, z⟩ p = p.z - c := fun p => by rw [planeDist, h1, h2]; simp [V3.dot, V3.sub]
  simp [planeErr, taking, Close, hp]

theorem settled_one (s d : V3 ℝ) : Settled none [d] s :=
  Or.inr ⟨⟨0, by simp, fun j' h hne => absurd (by simpa using h) hne⟩, fun t h => by cases h⟩

theorem vnorm_zero : Geom.vnorm (V3.zero : V3 ℝ) = 0 := by simp [Geom.vnorm, V3.zero]

theorem smul_zero (c : ℝ) : (V3.zero : V3 ℝ).smul c = V3.zero := by simp [V3.smul, V3.zero]

theorem one_target (z : ℝ) : ([⟨0, 0, 0⟩] : List (V3 ℝ)).getD (bruteNN [⟨0, 0, 0⟩] ⟨0, 0, z⟩) V3.zero = ⟨0, 0, 0⟩ ∧
    ([⟨0, 0, 1⟩] : List (V3 ℝ)).getD (bruteNN [⟨0, 0, 0⟩] ⟨0, 0, z⟩) V3.zero = ⟨0, 0, 1⟩ := by
  simp [bruteNN]

theorem axis_cloud_smooth {k : WithTop ℕ∞} (x0 : ℝ) : SmL k x0 1 fun e : ℝ => [⟨0, 0, e⟩] := by
  refine ⟨fun _ => rfl, fun i hi => ?_⟩
  obtain rfl : i = 0 := by omega
  exact ⟨.const 0, .const 0, contDiffAt_id⟩

theorem const_cloud_smooth {k : WithTop ℕ∞} (x0 : ℝ) (l : List (V3 ℝ)) : SmL k x0 l.length fun _ : ℝ => l :=
  ⟨fun _ => rfl, fun _ _ => .const _⟩

/-- The state of a gradICP run of one point above the plane: it stays on the axis between the plane and where it started. -/
theorem grad_axis_trace {eps lmax B B2 nu : ℝ} (heps : 0 < eps) (hlm : 1 < lmax) (hnu : 0 < nu) {n : Nat} {T : Nat → M4 ℝ} {d : Nat → ℝ}
    (h0 : T 0 = M4.one) (hd : 0 < d 0) (htr : GradTrace bruteNN none [⟨0, 0, 0⟩] [⟨0, 0, 1⟩] eps lmax B B2 nu [⟨0, 0, 1⟩] n T d) :
    ∀ j ≤ n, 0 < d j ∧ ∃ z, 0 < z ∧ z ≤ 1 ∧ T j = slide (z - 1) := by
  intro j
  induction j with
  | zero => intro _; exact ⟨hd, 1, one_pos, le_rfl, by rw [h0, sub_self]; rfl⟩
  | succ j ih =>
    intro hj
    obtain ⟨hdj, z, hz, hz1, hT⟩ := ih (by omega)
    obtain ⟨v, w, e, hst, he, hT', hd'⟩ := htr.step j (by omega)
    rw [hT, slide_cloud] at hst
    obtain ⟨rfl, rfl⟩ := axis_step hdj (one_target _).1 (one_target _).2 hst
    have hw := stepWeight_between (B2 := B2) (e := e) hnu
    refine ⟨by rw [hd']; exact mul_pos hdj (lt_trans (by positivity) (dampFactor_between hlm).1), ?_⟩
    have hz' : (1 : ℝ) + (z - 1) - 0 = z := by ring
    rw [hz', smul_zero, Geom.se3_exp_translation eps heps, hT] at hT'
    have hr : 0 < z / (1 + d j) ∧ z / (1 + d j) < z := ⟨by positivity, by rw [div_lt_iff₀ (by linarith)]; nlinarith⟩
    refine ⟨z - stepWeight B2 nu e * (z / (1 + d j)), by nlinarith, by nlinarith, ?_⟩
    rw [hT']
    have : (⟨M3.one, V3.smul (stepWeight B2 nu e) ⟨0, 0, -z / (1 + d j)⟩, V3.zero, 1⟩ : M4 ℝ) = slide (-(stepWeight B2 nu e * (z / (1 + d j)))) := by
      simp only [slide, V3.smul, M4.mk.injEq, V3.mk.injEq, true_and, and_true]
      refine ⟨by ring, by ring, by ring⟩
    rw [this, slide_mul]
    congr 1; ring

/-- No decision of this registration is on an edge. -/
theorem grad_axis_calm (n : Nat) (T : Nat → M4 ℝ) (d : Nat → ℝ) (h0 : T 0 = M4.one) (hd : d 0 = 1 / 10 ^ 8)
    (htr : GradTrace bruteNN none [⟨0, 0, 0⟩] [⟨0, 0, 1⟩] (1 / 10 ^ 6) 2 1 1 200 [⟨0, 0, 1⟩] n T d) (j : Nat) (hj : j < n) (v w : V3 ℝ)
    (hst : IsStep bruteNN none [⟨0, 0, 0⟩] [⟨0, 0, 1⟩] (d j) (Geom.transformPointcloud (T j) [⟨0, 0, 1⟩]) v w) :
    GradCalm (1 / 10 ^ 6) 1 200 none [⟨0, 0, 0⟩] (Geom.transformPointcloud (T j) [⟨0, 0, 1⟩])
      (Geom.transformPointcloud ((Geom.se3Exp (1 / 10 ^ 6) v w).mul (T j)) [⟨0, 0, 1⟩]) w
      (planeErr bruteNN none [⟨0, 0, 0⟩] [⟨0, 0, 1⟩] (Geom.transformPointcloud ((Geom.se3Exp (1 / 10 ^ 6) v w).mul (T j)) [⟨0, 0, 1⟩]) -
        planeErr bruteNN none [⟨0, 0, 0⟩] [⟨0, 0, 1⟩] (Geom.transformPointcloud (T j) [⟨0, 0, 1⟩])) := by
  have heps : (0 : ℝ) < 1 / 10 ^ 6 := by positivity
  obtain ⟨hdj, z, hz, hz1, hT⟩ := grad_axis_trace heps (by norm_num) (by norm_num) h0 (by rw [hd]; positivity) htr j hj.le
  rw [hT, slide_cloud] at hst
  obtain ⟨rfl, rfl⟩ := axis_step hdj (one_target _).1 (one_target _).2 hst
  rw [Geom.se3_exp_translation _ heps]
  have hz' : (1 : ℝ) + (z - 1) - 0 = z := by ring
  have hm : (⟨M3.one, ⟨0, 0, -(1 + (z - 1) - 0) / (1 + d j)⟩, V3.zero, 1⟩ : M4 ℝ) = slide (-z / (1 + d j)) := by rw [hz']; rfl
  have hr : 0 < z / (1 + d j) ∧ z / (1 + d j) < z := ⟨by positivity, by rw [div_lt_iff₀ (by linarith)]; nlinarith⟩
  rw [hm, hT, slide_mul, slide_cloud, slide_cloud, axis_err (one_target _).1 (one_target _).2, axis_err (one_target _).1 (one_target _).2]
  have hc : (1 + (-z / (1 + d j) + (z - 1)) - 0) ^ 2 - (1 + (z - 1) - 0) ^ 2 = (z - z / (1 + d j)) ^ 2 - z ^ 2 := by ring
  rw [hc]
  refine ⟨⟨fun s _ => settled_one _ _, fun s _ => settled_one _ _, ?_⟩, ?_, ?_, ?_⟩
  · rw [vnorm_zero]; exact heps.ne
  · rw [smul_zero, vnorm_zero]; exact heps.ne
  · nlinarith [sq_nonneg (z - z / (1 + d j))]
  · nlinarith

/-- C77, concrete: one point above a plane, any number of iterations of gradICP with the default constants: the returned transform is infinitely often
differentiable in the height of the point. -/
theorem gradicp_smooth_example (n : Int) (hn : 1 ≤ n) :
    ∃ (T : ℝ → M4 ℝ) (idx : List Nat), SmM4 (⊤ : ℕ∞) 1 T ∧ ∀ᶠ e in 𝓝 (1 : ℝ),
      pointToPlaneGradICP (1 / 10 ^ 6) 2 1 1 200 bruteNN [⟨0, 0, e⟩] [⟨0, 0, 0⟩] [⟨0, 0, 1⟩] (some M4.one) n (1 / 10 ^ 8) none = .ok (T e, idx) := by
  have heps : (0 : ℝ) < 1 / 10 ^ 6 := by positivity
  refine gradicp_smooth (th := none) bruteNN_nearest (M := 1) one_pos (const_cloud_smooth (1 : ℝ) [⟨0, 0, 0⟩]) (const_cloud_smooth (1 : ℝ) [⟨0, 0, 1⟩])
    (axis_cloud_smooth 1) (T0 := fun _ => M4.one) (.const _) ⟨rfl, rfl⟩ (damp := fun _ => 1 / 10 ^ 8) (.const _) (by positivity) heps (by norm_num) hn (grad_axis_calm n.toNat)

theorem icp_axis_trace {eps : ℝ} (heps : 0 < eps) {n : Nat} {T : Nat → M4 ℝ} {d : Nat → ℝ}
    (h0 : T 0 = M4.one) (hd : 0 < d 0) (htr : LMTrace bruteNN none [⟨0, 0, 0⟩] [⟨0, 0, 1⟩] eps [⟨0, 0, 1⟩] n T d) :
    ∀ j ≤ n, 0 < d j ∧ ∃ z, 0 < z ∧ T j = slide (z - 1) := by
  intro j
  induction j with
  | zero => intro _; exact ⟨hd, 1, one_pos, by rw [h0, sub_self]; rfl⟩
  | succ j ih =>
    intro hj
    obtain ⟨hdj, z, hz, hT⟩ := ih (by omega)
    obtain ⟨v, w, hst, hcase⟩ := htr.step j (by omega)
    rw [hT, slide_cloud] at hst
    obtain ⟨rfl, rfl⟩ := axis_step hdj (one_target _).1 (one_target _).2 hst
    have hr : 0 < z / (1 + d j) ∧ z / (1 + d j) < z := ⟨by positivity, by rw [div_lt_iff₀ (by linarith)]; nlinarith⟩
    rw [Geom.se3_exp_translation _ heps] at hcase
    have hz' : (1 : ℝ) + (z - 1) - 0 = z := by ring
    have hm : (⟨M3.one, ⟨0, 0, -(1 + (z - 1) - 0) / (1 + d j)⟩, V3.zero, 1⟩ : M4 ℝ) = slide (-z / (1 + d j)) := by rw [hz']; rfl
    rw [hm, hT, slide_mul] at hcase
    rcases hcase with ⟨_, h2, h3⟩ | ⟨_, h2, h3⟩
    · exact ⟨by rw [h3]; positivity, z - z / (1 + d j), by linarith, by rw [h2]; congr 1; ring⟩
    · exact ⟨by rw [h3]; positivity, z, hz, by rw [h2]⟩

theorem icp_axis_calm (n : Nat) (T : Nat → M4 ℝ) (d : Nat → ℝ) (h0 : T 0 = M4.one) (hd : d 0 = 1 / 10 ^ 8)
    (htr : LMTrace bruteNN none [⟨0, 0, 0⟩] [⟨0, 0, 1⟩] (1 / 10 ^ 6) [⟨0, 0, 1⟩] n T d) (j : Nat) (hj : j < n) (v w : V3 ℝ)
    (hst : IsStep bruteNN none [⟨0, 0, 0⟩] [⟨0, 0, 1⟩] (d j) (Geom.transformPointcloud (T j) [⟨0, 0, 1⟩]) v w) :
    Calm (1 / 10 ^ 6) none [⟨0, 0, 0⟩] (Geom.transformPointcloud (T j) [⟨0, 0, 1⟩])
      (Geom.transformPointcloud ((Geom.se3Exp (1 / 10 ^ 6) v w).mul (T j)) [⟨0, 0, 1⟩]) w ∧
      planeErr bruteNN none [⟨0, 0, 0⟩] [⟨0, 0, 1⟩] (Geom.transformPointcloud ((Geom.se3Exp (1 / 10 ^ 6) v w).mul (T j)) [⟨0, 0, 1⟩]) ≠
        planeErr bruteNN none [⟨0, 0, 0⟩] [⟨0, 0, 1⟩] (Geom.transformPointcloud (T j) [⟨0, 0, 1⟩]) := by
  have heps : (0 : ℝ) < 1 / 10 ^ 6 := by positivity
  obtain ⟨hdj, z, hz, hT⟩ := icp_axis_trace heps h0 (by rw [hd]; positivity) htr j hj.le
  rw [hT, slide_cloud] at hst
  obtain ⟨rfl, rfl⟩ := axis_step hdj (one_target _).1 (one_target _).2 hst
  rw [Geom.se3_exp_translation _ heps]
  have hz' : (1 : ℝ) + (z - 1) - 0 = z := by ring
  have hm : (⟨M3.one, ⟨0, 0, -(1 + (z - 1) - 0) / (1 + d j)⟩, V3.zero, 1⟩ : M4 ℝ) = slide (-z / (1 + d j)) := by rw [hz']; rfl
  have hr : 0 < z / (1 + d j) ∧ z / (1 + d j) < z := ⟨by positivity, by rw [div_lt_iff₀ (by linarith)]; nlinarith⟩
  rw [hm, hT, slide_mul, slide_cloud, slide_cloud, axis_err (one_target _).1 (one_target _).2, axis_err (one_target _).1 (one_target _).2]
  refine ⟨⟨fun s _ => settled_one _ _, fun s _ => settled_one _ _, by rw [vnorm_zero]; exact heps.ne⟩, ?_⟩
  have hc : (1 + (-z / (1 + d j) + (z - 1)) - 0) ^ 2 = (z - z / (1 + d j)) ^ 2 := by ring
  rw [hc, hz']
  exact ne_of_lt (by nlinarith)

/-- C77, concrete: the same for ICP. -/
theorem icp_smooth_example (n : Int) (hn : 1 ≤ n) :
    ∃ (T : ℝ → M4 ℝ) (idx : List Nat), SmM4 (⊤ : ℕ∞) 1 T ∧ ∀ᶠ e in 𝓝 (1 : ℝ),
      pointToPlaneICP (1 / 10 ^ 6) bruteNN [⟨0, 0, e⟩] [⟨0, 0, 0⟩] [⟨0, 0, 1⟩] (some M4.one) n (1 / 10 ^ 8) none = .ok (T e, idx) := by
  have heps : (0 : ℝ) < 1 / 10 ^ 6 := by positivity
  refine icp_smooth (th := none) bruteNN_nearest (M := 1) one_pos (const_cloud_smooth (1 : ℝ) [⟨0, 0, 0⟩]) (const_cloud_smooth (1 : ℝ) [⟨0, 0, 1⟩])
    (axis_cloud_smooth 1) (T0 := fun _ => M4.one) (.const _) ⟨rfl, rfl⟩ (damp := fun _ => 1 / 10 ^ 8) (.const _) (by positivity) heps hn (icp_axis_calm n.toNat)

/-! ### A jump -/

theorem two_targets (z : ℝ) : bruteNN [⟨0, 0, -1⟩, ⟨0, 0, 1⟩] ⟨0, 0, z⟩ = if z ≤ 0 then 0 else 1 := by
  have : ((z - -1) * (z - -1) ≤ (z - 1) * (z - 1)) ↔ z ≤ 0 := by constructor <;> intro h <;> nlinarith
  simp only [bruteNN, List.getD_cons_zero, V3.normSq, V3.dot, V3.sub, sub_zero, mul_zero, zero_add]
  by_cases h : z ≤ 0
  · rw [if_pos h, if_pos (this.2 h)]
  · rw [if_neg h, if_neg fun hh => h (this.1 hh)]

/-- The transform that one iteration of gradICP returns for one point between two planes. -/
theorem between_planes (e : ℝ) {c : ℝ} (hc : (e ≤ 0 ∧ c = -1) ∨ (0 < e ∧ c = 1)) {T : M4 ℝ} {idx : List Nat}
    (h : pointToPlaneGradICP (1 / 10 ^ 6) 2 1 1 200 bruteNN [⟨0, 0, e⟩] [⟨0, 0, -1⟩, ⟨0, 0, 1⟩] [⟨0, 0, 1⟩, ⟨0, 0, 1⟩] (some M4.one) 1 (1 / 10 ^ 8)
      none = .ok (T, idx)) : ∃ r : ℝ, 0 < r ∧ T.t.z = r * (c - e) := by
  have heps : (0 : ℝ) < 1 / 10 ^ 6 := by positivity
  obtain ⟨T', d, h0, hd, htr, hres⟩ := grad_is_trace (th := none) (tgt := [⟨0, 0, -1⟩, ⟨0, 0, 1⟩]) (nrm := [⟨0, 0, 1⟩, ⟨0, 0, 1⟩]) bruteNN_nearest
    (by simp) rfl (eps := 1 / 10 ^ 6) (lmax := 2) (B := 1) (B2 := 1) (nu := 200) (by norm_num)
    [⟨0, 0, e⟩] (T0 := M4.one) ⟨rfl, rfl⟩ (damp := 1 / 10 ^ 8) (by positivity) (n := 1) le_rfl
  rw [h] at hres
  obtain ⟨rfl, _⟩ := Prod.mk.inj (Except.ok.inj hres)
  obtain ⟨v, w, x, hst, _, hT', _⟩ := htr.step 0 (by simp)
  rw [h0, ← slide_zero, slide_cloud] at hst
  have hnn : ([⟨0, 0, -1⟩, ⟨0, 0, 1⟩] : List (V3 ℝ)).getD (bruteNN [⟨0, 0, -1⟩, ⟨0, 0, 1⟩] ⟨0, 0, e + 0⟩) V3.zero = ⟨0, 0, c⟩ ∧
      ([⟨0, 0, 1⟩, ⟨0, 0, 1⟩] : List (V3 ℝ)).getD (bruteNN [⟨0, 0, -1⟩, ⟨0, 0, 1⟩] ⟨0, 0, e + 0⟩) V3.zero = ⟨0, 0, 1⟩ := by
    rw [two_targets, add_zero]
    rcases hc with ⟨h, rfl⟩ | ⟨h, rfl⟩
    · rw [if_pos h]; exact ⟨rfl, rfl⟩
    · rw [if_neg h.not_ge]; exact ⟨rfl, rfl⟩
  have hd0 : 0 < d 0 := by rw [hd]; positivity
  obtain ⟨rfl, rfl⟩ := axis_step hd0 hnn.1 hnn.2 hst
  rw [h0, smul_zero, Geom.se3_exp_translation _ heps, M4.mul_one] at hT'
  rw [show (1 : Int).toNat = 0 + 1 by rfl, hT']
  have hw := stepWeight_between (B2 := 1) (nu := 200) (e := x) (by norm_num)
  refine ⟨stepWeight 1 200 x * (1 / (1 + d 0)), by have := hw.1; positivity, ?_⟩
  show stepWeight 1 200 x * (-(e + 0 - c) / (1 + d 0)) = _
  ring

/-- C77, why associations have to be settled: for a point half-way between two planes, the transform returned by gradICP jumps. -/
theorem gradicp_jump {T : ℝ → M4 ℝ} {idx : ℝ → List Nat}
    (h : ∀ e, pointToPlaneGradICP (1 / 10 ^ 6) 2 1 1 200 bruteNN [⟨0, 0, e⟩] [⟨0, 0, -1⟩, ⟨0, 0, 1⟩] [⟨0, 0, 1⟩, ⟨0, 0, 1⟩] (some M4.one) 1 (1 / 10 ^ 8)
      none = .ok (T e, idx e)) : ¬ ContinuousAt (fun e => (T e).t.z) 0 := by
  intro hc
  obtain ⟨r, hr, h0⟩ := between_planes 0 (Or.inl ⟨le_rfl, rfl⟩) (h 0)
  have hneg : (T 0).t.z < 0 := by rw [h0]; nlinarith
  have hev : ∀ᶠ e in 𝓝 (0 : ℝ), (T e).t.z < 0 := hc.eventually_lt continuousAt_const hneg
  obtain ⟨δ, hδ, hball⟩ := Metric.eventually_nhds_iff.1 hev
  obtain ⟨e, he, he1⟩ : ∃ e : ℝ, 0 < e ∧ e < min δ 1 := exists_between (lt_min hδ one_pos)
  obtain ⟨r', hr', h1⟩ := between_planes e (Or.inr ⟨he, rfl⟩) (h e)
  have := hball (y := e) (by rw [Real.dist_eq, sub_zero, abs_of_pos he]; exact lt_of_lt_of_le he1 (min_le_left _ _))
  rw [h1] at this
  have : e < 1 := lt_of_lt_of_le he1 (min_le_right _ _)
  nlinarith

end Verif.Icp
