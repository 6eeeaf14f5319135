import Verif.Icp.Converge
import Verif.Icp.Provider
/-!
C95, continued: the runs of both registration routines.
-/
namespace Verif.Icp
open Verif Geom
set_option linter.unusedSectionVars false

variable {nn : List (V3 ℝ) → V3 ℝ → Nat} {th : Option ℝ} {tgt nrm : List (V3 ℝ)} {pts : List Place} {ρ sep g σ η : ℝ}
variable {G : M4 ℝ} {z δ eps : ℝ}

theorem Near.mono (h : Near G z δ) {z' δ' : ℝ} (hz : z ≤ z') (hδ : δ ≤ δ') : Near G z' δ' := by
  obtain ⟨D, h1, h2⟩ := h.orth
  exact ⟨h.aff, h.dev, ⟨D, h1, h2.trans hδ⟩, h.size.trans hz⟩

theorem Near.exact (h : Near G z δ) : Near G (Icp.size G) δ := ⟨h.aff, h.dev, h.orth, le_rfl⟩

/-! ### What one iteration achieves -/

theorem Scene.weighted (hs : Scene th tgt nrm pts ρ sep g σ η) (heps : 0 < eps) (h : Near G z δ) (hz : z ≤ g ^ 2 / 1024)
    (hδ : δ ≤ g ^ 2 * z / 1024) {v w : V3 ℝ} (hst : tw (v.add G.t) (w.add (vee (dev G))) ≤ g * z / 16) {ω : ℝ} (h0 : 0 ≤ ω) (h1 : ω ≤ 1) :
    Near ((se3Exp eps (v.smul ω) (w.smul ω)).mul G) ((1 - ω + g / 8) * z) (δ + 2 * eps ^ 2) := by
  obtain ⟨k1, k2, k3, k4, k5, k6, k7⟩ := hs.small h hz hδ
  obtain ⟨z0, d0⟩ := h.nonneg
  have g0 := hs.pos
  have g1 := hs.le1
  have e1 : (v.smul ω).add G.t = ((v.add G.t).smul ω).add (G.t.smul (1 - ω)) := by ext <;> simp [V3.add, V3.smul] <;> ring
  have e2 : (w.smul ω).add (vee (dev G)) = ((w.add (vee (dev G))).smul ω).add ((vee (dev G)).smul (1 - ω)) := by
    ext <;> simp [V3.add, V3.smul] <;> ring
  have gz : 0 ≤ g * z := by positivity
  have gz1 : g * z ≤ z := by nlinarith
  have gg : g ^ 2 * z ≤ g * z := mul_le_mul_of_nonneg_right k6 z0
  have hst' : tw ((v.smul ω).add G.t) ((w.smul ω).add (vee (dev G))) ≤ ω * (g * z / 16) + (1 - ω) * z := by
    rw [e1, e2]
    refine (tw_add _ _ _ _).trans ?_
    rw [tw_smul, tw_smul, abs_of_nonneg h0, abs_of_nonneg (by linarith)]
    have a1 := mul_le_mul_of_nonneg_left hst h0
    have a2 : (1 - ω) * tw G.t (vee (dev G)) ≤ (1 - ω) * z := mul_le_mul_of_nonneg_left h.size (by linarith)
    linarith
  have a3 : ω * (g * z / 16) ≤ g * z / 16 := mul_le_of_le_one_left (by positivity) h1
  have a4 : ω * (g * z / 16) ≤ ω * z := mul_le_mul_of_nonneg_left (by linarith) h0
  refine (h.next heps (by linarith) k2 (ε := ω * (g * z / 16) + (1 - ω) * z) (by linarith) hst').mono ?_ le_rfl
  linarith

theorem Scene.shrinks (hs : Scene th tgt nrm pts ρ sep g σ η) (heps : 0 < eps) (h : Near G z δ) (hz : z ≤ g ^ 2 / 1024)
    (hδ : δ ≤ g ^ 2 * z / 1024) {v w : V3 ℝ} (hst : tw (v.add G.t) (w.add (vee (dev G))) ≤ g * z / 16) :
    Near ((se3Exp eps v w).mul G) (g / 8 * z) (δ + 2 * eps ^ 2) := by
  have := hs.weighted heps h hz hδ hst zero_le_one le_rfl
  have e : ∀ u : V3 ℝ, u.smul 1 = u := by intro u; ext <;> simp [V3.smul]
  rw [e, e] at this
  simpa using this

/-- As long as the offset dominates the orthogonality defect and the measurement error, the step decreases the error. -/
theorem Scene.decreases (hs : Scene th tgt nrm pts ρ sep g σ η) (hn : NearestIn nn) (h : Near G (size G) δ) (hp : 0 < size G)
    (hz : size G ≤ g ^ 2 / 1024) (hδ : δ ≤ g ^ 2 * size G / 1024) (hσ : σ ≤ g ^ 2 * size G / 128) (hsep : (1 + ρ) * (2 * size G + η) < sep)
    {G' : M4 ℝ} {δ' : ℝ} (h' : Near G' (g / 8 * size G) δ') (hδ' : δ' ≤ g ^ 2 * size G / 1024) :
    planeErr nn th tgt nrm (moved G' pts) < planeErr nn th tgt nrm (moved G pts) := by
  obtain ⟨k1, k2, k3, k4, k5, k6, k7⟩ := hs.small h hz hδ
  have g0 := hs.pos
  have g1 := hs.le1
  have hρ := hs.rho
  have s0 := hs.sig
  have hst := hs.stays h hz hδ hsep
  set s := size G with hsz
  have gs : 0 < g * s := by positivity
  have gs1 : g * s ≤ s := by nlinarith
  have gg : g ^ 2 * s ≤ g * s := mul_le_mul_of_nonneg_right k6 hp.le
  have hσ1 : σ ≤ g * s / 128 := by linarith
  have n0 := hs.eta0
  have hη := hs.eta
  have hη1 : η ≤ 1 / 64 := by linarith
  have small' : g / 8 * s + 2 * ((g / 8 * s) ^ 2 + δ') ≤ g * s / 6 := by
    have : (g * s) ^ 2 ≤ 1 / 1024 * (g * s) := by nlinarith
    nlinarith
  have hd0' := h'.nonneg
  have hmv : ∀ x ∈ pts, vnorm ((act G' x.seen).sub x.seen) ≤ (1 + ρ) * ((1 + 1 / 64) * (g * s / 6)) := by
    intro x hx
    have b2 := h'.moves (by linarith) (hst x hx).1
    have b4 : (1 + η) * (g / 8 * s + 2 * ((g / 8 * s) ^ 2 + δ')) ≤ (1 + 1 / 64) * (g * s / 6) :=
      mul_le_mul (by linarith) small' (by have := hd0'.2; positivity) (by norm_num)
    have b5 := mul_le_mul_of_nonneg_left b4 (show (0 : ℝ) ≤ 1 + ρ by linarith)
    linarith
  have hst' : ∀ x ∈ pts, vnorm ((act G' x.seen).sub x.pos) < sep := by
    intro x hx
    have e2 : (act G' x.seen).sub x.pos = ((act G' x.seen).sub x.seen).add (x.seen.sub x.pos) := by ext <;> simp [V3.add, V3.sub]
    have b1 := vnorm_add_le ((act G' x.seen).sub x.seen) (x.seen.sub x.pos)
    rw [← e2] at b1
    have b2 := hmv x hx
    have b3 := hs.slide x hx
    have b5 : (1 + ρ) * ((1 + 1 / 64) * (g * s / 6) + η) ≤ (1 + ρ) * (2 * s + η) :=
      mul_le_mul_of_nonneg_left (by linarith) (by linarith)
    linarith
  rw [hs.err hn hst', hs.err hn fun x hx => (hst x hx).2.2.2]
  have hE' : (pts.map fun x => x.nor.dot ((act G' x.seen).sub x.pos) ^ 2).sum ≤ pts.length * ((1 + ρ) * (g * s / 4)) ^ 2 := by
    refine sum_sq_le fun x hx => ?_
    have e2 : x.nor.dot ((act G' x.seen).sub x.pos) = x.nor.dot ((act G' x.seen).sub x.seen) + x.nor.dot (x.seen.sub x.pos) := by
      simp [V3.sub, V3.dot]; ring
    rw [e2]
    have b1 := abs_add_le (x.nor.dot ((act G' x.seen).sub x.seen)) (x.nor.dot (x.seen.sub x.pos))
    have b2 := (dot_le x.nor ((act G' x.seen).sub x.seen)).trans (mul_le_of_le_one_left (vnorm_nonneg _) (hs.normal hx))
    have b3 := hmv x hx
    have b4 := hs.noise x hx
    have b5 : (1 + ρ) * σ ≤ (1 + ρ) * (g * s / 128) := mul_le_mul_of_nonneg_left hσ1 (by linarith)
    have c9 : 0 ≤ (1 + ρ) * (g * s) := by positivity
    linarith
  have hS : nm (symPart (dev G)) ≤ 2 * (s ^ 2 + δ) := h.sym (by linarith)
  have hμ : vnorm (vee (dev G)) ≤ s := h.vee
  have hE := sum_sq_split (l := pts) (a := fun x => x.nor.dot (G.t.add ((vee (dev G)).cross x.pos))) (r := fun x => x.nor.dot ((act G x.seen).sub x.pos))
    (c := (1 + ρ) * (g * s / 32)) (by
      intro x hx
      set u : V3 ℝ := ((vee (dev G)).cross (x.seen.sub x.pos)).add ((symPart (dev G)).mulVec x.seen) with hu
      have a0 : x.nor.dot ((act G x.seen).sub x.pos) - x.nor.dot (G.t.add ((vee (dev G)).cross x.pos)) = x.nor.dot u + x.nor.dot (x.seen.sub x.pos) := by
        have e2 : (act G x.seen).sub x.pos = ((act G x.seen).sub x.seen).add (x.seen.sub x.pos) := by ext <;> simp [V3.add, V3.sub]
        rw [e2, act_sub]; simp [u, V3.add, V3.sub, V3.cross, V3.dot]; ring
      show |x.nor.dot ((act G x.seen).sub x.pos) - x.nor.dot (G.t.add ((vee (dev G)).cross x.pos))| ≤ _
      rw [a0]
      have c0 := abs_add_le (x.nor.dot u) (x.nor.dot (x.seen.sub x.pos))
      have c1 := (dot_le x.nor u).trans (mul_le_of_le_one_left (vnorm_nonneg _) (hs.normal hx))
      have c2 := vnorm_add_le ((vee (dev G)).cross (x.seen.sub x.pos)) ((symPart (dev G)).mulVec x.seen)
      have c3 := hs.noise x hx
      have c4 := cross_le (vee (dev G)) (x.seen.sub x.pos)
      have c5 := nm_mulVec (symPart (dev G)) x.seen
      have c6 : vnorm (vee (dev G)) * vnorm (x.seen.sub x.pos) ≤ s * ((1 + ρ) * (g / 64)) :=
        mul_le_mul hμ ((hs.slide x hx).trans (mul_le_mul_of_nonneg_left hη (by linarith))) (vnorm_nonneg _) hp.le
      have a1 : nm (symPart (dev G)) ≤ g * s / 256 := by linarith
      have c7 : nm (symPart (dev G)) * vnorm x.seen ≤ g * s / 256 * ((1 + ρ) * (1 + 1 / 64)) := by
        refine mul_le_mul a1 ?_ (vnorm_nonneg _) (by positivity)
        have : (1 + ρ) * (1 + η) ≤ (1 + ρ) * (1 + 1 / 64) := mul_le_mul_of_nonneg_left (by linarith) (by linarith)
        linarith [(hst x hx).1]
      have c8 : (1 + ρ) * σ ≤ (1 + ρ) * (g * s / 128) := mul_le_mul_of_nonneg_left hσ1 (by linarith)
      have c9 : 0 ≤ (1 + ρ) * (g * s) := by positivity
      rw [← hu] at c2
      linarith)
  have hcond := hs.cond G.t (vee (dev G))
  rw [tw_normSq, ← size, ← hsz] at hcond
  have hN : (0 : ℝ) < pts.length := by exact_mod_cast List.length_pos_of_ne_nil hs.nonempty
  have hK : 0 < pts.length * (1 + ρ) ^ 2 * (g * s) ^ 2 := by positivity
  generalize (pts.map fun x => x.nor.dot ((act G x.seen).sub x.pos) ^ 2).sum = E at *
  generalize (pts.map fun x => x.nor.dot ((act G' x.seen).sub x.pos) ^ 2).sum = E' at *
  generalize (pts.map fun x => x.nor.dot (G.t.add ((vee (dev G)).cross x.pos)) ^ 2).sum = A at *
  have q1 : g ^ 2 * (pts.length * (1 + ρ) ^ 2) * s ^ 2 = pts.length * (1 + ρ) ^ 2 * (g * s) ^ 2 := by ring
  have q2 : pts.length * ((1 + ρ) * (g * s / 4)) ^ 2 = pts.length * (1 + ρ) ^ 2 * (g * s) ^ 2 / 16 := by ring
  have q3 : pts.length * ((1 + ρ) * (g * s / 32)) ^ 2 = pts.length * (1 + ρ) ^ 2 * (g * s) ^ 2 / 1024 := by ring
  rw [q1] at hcond
  rw [q2] at hE'
  rw [q3] at hE
  linarith

/-! ### The runs -/

/-- The numerical side conditions of a run of `n` iterations: `F` is the floor caused by the truncated exponential (rotation vectors
shorter than `eps`) and by the measurement error `σ`, and initial offset and floor are small against the conditioning and the separation. -/
structure Basin (ρ sep g σ η eps : ℝ) (n : Nat) (z F : ℝ) : Prop where
  cut : 0 < eps
  z0 : 0 ≤ z
  F0 : 0 < F
  floor : 2048 * n * eps ^ 2 ≤ g ^ 2 * F
  noise : 128 * σ ≤ g ^ 2 * F
  zs : z ≤ g ^ 2 / 1024
  Fs : F ≤ g ^ 2 / 1024
  zsep : (1 + ρ) * (2 * z + η) < sep
  Fsep : (1 + ρ) * (2 * F + η) < sep

section
variable {n : Nat} {F : ℝ}

theorem Basin.defect (hm : Basin ρ sep g σ η eps n z F) {k : Nat} (hk : k ≤ n) {Z : ℝ} (hZ : F ≤ Z) : 2 * k * eps ^ 2 ≤ g ^ 2 * Z / 1024 := by
  have h1 : (k : ℝ) ≤ n := by exact_mod_cast hk
  have h2 : 2 * (k : ℝ) * eps ^ 2 ≤ 2 * n * eps ^ 2 := by nlinarith [sq_nonneg eps]
  have h3 : g ^ 2 * F ≤ g ^ 2 * Z := mul_le_mul_of_nonneg_left hZ (sq_nonneg g)
  have := hm.floor
  linarith

theorem Basin.noisy (hm : Basin ρ sep g σ η eps n z F) {Z : ℝ} (hZ : F ≤ Z) : σ ≤ g ^ 2 * Z / 128 := by
  have h3 : g ^ 2 * F ≤ g ^ 2 * Z := mul_le_mul_of_nonneg_left hZ (sq_nonneg g)
  have := hm.noise
  linarith

variable (r : ℝ) in
/-- The bound after `k` iterations. -/
noncomputable def reach (z F : ℝ) (k : Nat) : ℝ := max (r ^ k * z) F

theorem reach_le {r : ℝ} (h0 : 0 ≤ r) (h1 : r ≤ 1) (hz : 0 ≤ z) {k : Nat} : reach r z F k ≤ max z F :=
  max_le_max (mul_le_of_le_one_left hz (pow_le_one₀ h0 h1)) le_rfl

theorem reach_succ {r : ℝ} (h0 : 0 ≤ r) (h1 : r ≤ 1) (hF : 0 ≤ F) {k : Nat} : r * reach r z F k ≤ reach r z F (k + 1) := by
  rw [reach, mul_max_of_nonneg _ _ h0]
  refine max_le ?_ ((mul_le_of_le_one_left hF h1).trans (le_max_right _ _))
  refine le_trans (le_of_eq ?_) (le_max_left _ _)
  rw [pow_succ]; ring

theorem Basin.ok (hm : Basin ρ sep g σ η eps n z F) (hρ : 0 ≤ ρ) {r : ℝ} (h0 : 0 ≤ r) (h1 : r ≤ 1) (k : Nat) {y : ℝ} (hy : y ≤ reach r z F k) :
    y ≤ g ^ 2 / 1024 ∧ (1 + ρ) * (2 * y + η) < sep := by
  have h := hy.trans (reach_le h0 h1 hm.z0)
  rcases le_max_iff.1 h with h | h
  · exact ⟨h.trans hm.zs, (mul_le_mul_of_nonneg_left (by linarith) (by linarith)).trans_lt hm.zsep⟩
  · exact ⟨h.trans hm.Fs, (mul_le_mul_of_nonneg_left (by linarith) (by linarith)).trans_lt hm.Fsep⟩

theorem cloud_moved {Ts : M4 ℝ} (hT : Ts.Affine) {src : List (V3 ℝ)} (hsrc : transformPointcloud Ts src = pts.map Place.seen) (G : M4 ℝ) :
    transformPointcloud (G.mul Ts) src = moved G pts := by
  rw [← compose_cloud _ _ hT, hsrc, moved, transformPointcloud, List.map_map]
  rfl

theorem lm_reach (hs : Scene th tgt nrm pts ρ sep g σ η) (hn : NearestIn nn) (hm : Basin ρ sep g σ η eps n z F) {Ts : M4 ℝ} (hT : Ts.Affine)
    {src : List (V3 ℝ)} (hsrc : transformPointcloud Ts src = pts.map Place.seen) {T : Nat → M4 ℝ} {d : Nat → ℝ}
    (htr : LMTrace nn th tgt nrm eps src n T d) {G0 : M4 ℝ} (h0 : T 0 = G0.mul Ts) (hG0 : Near G0 z 0) (hd0 : 0 < d 0)
    (hd : 2 ^ n * d 0 ≤ pts.length * ((1 + ρ) * (g ^ 2 / 64)) ^ 2) {k : Nat} (hk : k ≤ n) :
    ∃ G, T k = G.mul Ts ∧ Near G (reach (g / 8) z F k) (2 * k * eps ^ 2) ∧ 0 < d k ∧ d k ≤ 2 ^ k * d 0 := by
  have g0 := hs.pos
  have g1 := hs.le1
  have r0 : 0 ≤ g / 8 := by positivity
  have r1 : g / 8 ≤ 1 := by linarith
  induction k with
  | zero => exact ⟨G0, h0, hG0.mono (by simp [reach]) (by simp), hd0, by simp⟩
  | succ k ih =>
    obtain ⟨G, hTk, hG, hdp, hdk⟩ := ih (by omega)
    obtain ⟨v, w, hst, hcase⟩ := htr.step k (by omega)
    rw [hTk, cloud_moved hT hsrc] at hst
    rw [hTk, ← M4.mul_assoc, cloud_moved hT hsrc, cloud_moved hT hsrc] at hcase
    have hdn : d k ≤ pts.length * ((1 + ρ) * (g ^ 2 / 64)) ^ 2 := by
      refine hdk.trans (le_trans ?_ hd)
      exact mul_le_mul_of_nonneg_right (pow_le_pow_right₀ (by norm_num) (by omega)) hd0.le
    have hδ' : 2 * (k : ℝ) * eps ^ 2 + 2 * eps ^ 2 = 2 * ((k + 1 : Nat) : ℝ) * eps ^ 2 := by push_cast; ring
    have hdp' : d (k + 1) = d k / 2 ∨ d (k + 1) = d k * 2 := hcase.imp (·.2.2) (·.2.2)
    have hd1 : 0 < d (k + 1) ∧ d (k + 1) ≤ 2 ^ (k + 1) * d 0 := by
      rw [pow_succ]
      rcases hdp' with e | e <;> rw [e] <;> constructor <;> linarith
    have hFr : F ≤ reach (g / 8) z F (k + 1) := le_max_right _ _
    rcases le_or_gt F (size G) with hF | hF
    · -- the offset dominates: the step is taken
      have hGe := hG.exact
      have hp : 0 < size G := hm.F0.trans_le hF
      obtain ⟨b1, b2⟩ := hm.ok hs.rho r0 r1 k hG.size
      have b3 := hm.defect (show k ≤ n by omega) hF
      have hcl := hs.step hn hGe b1 b3 (hm.noisy hF) b2 hdp.le hdn hst
      have hnew := hs.shrinks (eps := eps) hm.cut hGe b1 b3 hcl
      rw [hδ'] at hnew
      have hlt := hs.decreases hn hGe hp b1 b3 (hm.noisy hF) b2 hnew (hm.defect hk hF)
      rcases hcase with ⟨_, hT1, _⟩ | ⟨hle, _, _⟩
      · refine ⟨_, hT1, hnew.mono ?_ le_rfl, hd1⟩
        exact (mul_le_mul_of_nonneg_left hG.size r0).trans (reach_succ r0 r1 hm.F0.le)
      · exact absurd hlt (not_lt.2 hle)
    · have hGF : Near G F (2 * k * eps ^ 2) := hG.exact.mono hF.le le_rfl
      rcases hcase with ⟨_, hT1, _⟩ | ⟨_, hT1, _⟩
      · have b3 := hm.defect (show k ≤ n by omega) (le_refl F)
        have hcl := hs.step hn hGF hm.Fs b3 (hm.noisy le_rfl) hm.Fsep hdp.le hdn hst
        have hnew := hs.shrinks (eps := eps) hm.cut hGF hm.Fs b3 hcl
        rw [hδ'] at hnew
        exact ⟨_, hT1, hnew.mono ((mul_le_of_le_one_left hm.F0.le r1).trans hFr) le_rfl, hd1⟩
      · refine ⟨G, hT1, hGF.mono hFr ?_, hd1⟩
        rw [← hδ']; nlinarith [sq_nonneg eps]

theorem grad_reach (hs : Scene th tgt nrm pts ρ sep g σ η) (hn : NearestIn nn) (hm : Basin ρ sep g σ η eps n z F) {Ts : M4 ℝ} (hT : Ts.Affine)
    {src : List (V3 ℝ)} (hsrc : transformPointcloud Ts src = pts.map Place.seen) {lmax B B2 nu : ℝ} (hlm : 1 < lmax) (hB : 0 < B2) (hnu : 0 < nu)
    (hω : g / 8 ≤ stepWeight B2 nu (-70)) {T : Nat → M4 ℝ} {d : Nat → ℝ}
    (htr : GradTrace nn th tgt nrm eps lmax B B2 nu src n T d) {G0 : M4 ℝ} (h0 : T 0 = G0.mul Ts) (hG0 : Near G0 z 0) (hd0 : 0 < d 0)
    (hd : lmax ^ n * d 0 ≤ pts.length * ((1 + ρ) * (g ^ 2 / 64)) ^ 2) {k : Nat} (hk : k ≤ n) :
    ∃ G, T k = G.mul Ts ∧ Near G (reach (1 - stepWeight B2 nu (-70) + g / 8) z F k) (2 * k * eps ^ 2) := by
  have g0 := hs.pos
  have w1 := (stepWeight_between (B2 := B2) (e := -70) hnu).2
  set ω0 := stepWeight B2 nu (-70) with hω0
  have r0 : 0 ≤ 1 - ω0 + g / 8 := by linarith
  have r1 : 1 - ω0 + g / 8 ≤ 1 := by linarith
  induction k with
  | zero => exact ⟨G0, h0, hG0.mono (by simp [reach]) (by simp)⟩
  | succ k ih =>
    obtain ⟨G, hTk, hG⟩ := ih (by omega)
    obtain ⟨v, w, e, hst, he, hT1, _⟩ := htr.step k (by omega)
    rw [hTk, cloud_moved hT hsrc] at hst
    obtain ⟨hdp, _, hdk⟩ := grad_damp_bounds htr hlm hd0 (k := k) (by omega)
    have hdn : d k ≤ pts.length * ((1 + ρ) * (g ^ 2 / 64)) ^ 2 := by
      refine hdk.trans (le_trans ?_ hd)
      rw [mul_comm]
      exact mul_le_mul_of_nonneg_right (pow_le_pow_right₀ hlm.le (by omega)) hd0.le
    have hδ' : 2 * (k : ℝ) * eps ^ 2 + 2 * eps ^ 2 = 2 * ((k + 1 : Nat) : ℝ) * eps ^ 2 := by push_cast; ring
    obtain ⟨b1, b2⟩ := hm.ok hs.rho r0 r1 k le_rfl
    have b3 := hm.defect (show k ≤ n by omega) (le_max_right ((1 - ω0 + g / 8) ^ k * z) F)
    have hcl := hs.step hn hG b1 b3 (hm.noisy (le_max_right ((1 - ω0 + g / 8) ^ k * z) F)) b2 hdp.le hdn hst
    obtain ⟨c1, c2⟩ := stepWeight_between (B2 := B2) (e := e) hnu
    have c3 : ω0 ≤ stepWeight B2 nu e := by rw [he]; exact (stepWeight_extremes hnu hB _).1
    have hnew := hs.weighted (eps := eps) hm.cut hG b1 b3 hcl c1.le c2.le
    rw [hδ'] at hnew
    refine ⟨_, by rw [hT1, hTk, ← M4.mul_assoc], hnew.mono ?_ le_rfl⟩
    have hR : 0 ≤ reach (1 - ω0 + g / 8) z F k := hm.F0.le.trans (le_max_right _ _)
    exact (mul_le_mul_of_nonneg_right (by linarith) hR).trans (reach_succ r0 r1 hm.F0.le)
end

/-! ### Agreement on points -/

theorem act_mul {A B : M4 ℝ} (hB : B.Affine) (p : V3 ℝ) : act (A.mul B) p = act A (act B p) := by
  have := compose_cloud A B hB [p]
  simpa [transformPointcloud, act] using this.symm

theorem act_one (p : V3 ℝ) : act M4.one p = p := by
  rw [act, M4.one, M3.one_mulVec]; ext <;> simp [V3.add, V3.zero]

theorem Near.within {Ts : M4 ℝ} (hT : Ts.Affine) (h : Near G z δ) (hδ : δ ≤ 1 / 16) (h2 : z + 2 * (z ^ 2 + δ) ≤ 2 * z) :
    Within (G.mul Ts) Ts (2 * z) := by
  intro p
  have h1 := h.moves hδ (le_refl (vnorm (act Ts p)))
  have e := act_mul (A := G) hT p
  show vnorm ((act (G.mul Ts) p).sub (act Ts p)) ≤ 2 * z * (1 + vnorm (act Ts p))
  rw [e]
  have := vnorm_nonneg (act Ts p)
  nlinarith

/-- The offset between two rigid motions that agree up to `c`. -/
theorem near_of_within {T Ts : M4 ℝ} (hT : T.Rigid) (hTs : Ts.Rigid) {c : ℝ} (hc : c ≤ 1 / 4) (h : Within T Ts c) :
    ∃ G0, T = G0.mul Ts ∧ Near G0 (2 * c) 0 := by
  obtain ⟨i1, i2, i3⟩ := inverse_transform_correct Ts hTs
  have hG := hT.mul i3
  set G0 := T.mul (inverseTransform1 Ts) with hG0
  have e : T = G0.mul Ts := by rw [hG0, M4.mul_assoc, i1, M4.mul_one]
  have hact : ∀ u, vnorm ((act G0 u).sub u) ≤ c * (1 + vnorm u) := by
    intro u
    have := h (act (inverseTransform1 Ts) u)
    have e1 : (Ts.R.mulVec (act (inverseTransform1 Ts) u)).add Ts.t = u := by
      show act Ts (act (inverseTransform1 Ts) u) = u
      rw [← act_mul i3.1, i2, act_one]
    have e2 : (T.R.mulVec (act (inverseTransform1 Ts) u)).add T.t = act G0 u := by
      show act T (act (inverseTransform1 Ts) u) = act G0 u
      rw [← act_mul i3.1]
    rwa [e1, e2] at this
  have hc0 : 0 ≤ c := by
    have := (vnorm_nonneg _).trans (hact V3.zero)
    have e0 : vnorm (V3.zero : V3 ℝ) = 0 := by
      have := vnorm_smul 0 (V3.zero : V3 ℝ)
      simpa [V3.smul, V3.zero] using this
    rw [e0] at this; linarith
  have ht : vnorm G0.t ≤ c := by
    have := hact V3.zero
    have e0 : vnorm (V3.zero : V3 ℝ) = 0 := by
      have := vnorm_smul 0 (V3.zero : V3 ℝ)
      simpa [V3.smul, V3.zero] using this
    have e1 : (act G0 V3.zero).sub V3.zero = G0.t := by ext <;> simp [act, V3.sub, V3.add, V3.zero, M3.mulVec, V3.dot]
    rw [e0, e1] at this; linarith
  have hdev : nm (dev G0) ≤ c := by
    refine nm_le hc0 fun u => ?_
    by_contra hlt
    push Not at hlt
    set x := vnorm ((dev G0).mulVec u) with hx
    have key : ∀ t : ℝ, 0 < t → t * x ≤ c * (t * vnorm u) + 2 * c := by
      intro t ht'
      have h1 := hact (u.smul t)
      have e1 : ((dev G0).mulVec u).smul t = ((act G0 (u.smul t)).sub (u.smul t)).sub G0.t := by
        have : act G0 (u.smul t) = ((u.smul t).add ((dev G0).mulVec (u.smul t))).add G0.t := by
          rw [act, dev_eq G0, mulVec_add', M3.one_mulVec]
        rw [this]; ext <;> simp [V3.smul, V3.sub, V3.add, M3.mulVec, V3.dot] <;> ring
      have h2 := vnorm_smul t ((dev G0).mulVec u)
      rw [abs_of_pos ht', e1] at h2
      have h3 := vnorm_sub_le ((act G0 (u.smul t)).sub (u.smul t)) G0.t
      rw [vnorm_smul, abs_of_pos ht'] at h1
      linarith
    have hd : 0 < x - c * vnorm u := by linarith
    have := key ((2 * c + 1) / (x - c * vnorm u)) (by positivity)
    have e2 : (2 * c + 1) / (x - c * vnorm u) * (x - c * vnorm u) = 2 * c + 1 := div_mul_cancel₀ _ hd.ne'
    linarith [e2]
  refine ⟨G0, e, hG.1, hdev.trans hc, ⟨M3.zero, ?_, nm_le le_rfl fun v => ?_⟩, ?_⟩
  · rw [hG.2.2]; ext <;> simp [M3.add, M3.zero, M3.one, V3.add, V3.zero]
  · have : vnorm ((M3.zero : M3 ℝ).mulVec v) = 0 := by
      have := vnorm_smul 0 (V3.zero : V3 ℝ)
      simpa [V3.smul, V3.zero, M3.zero, M3.mulVec, V3.dot] using this
    rw [this]; simp
  · refine (tw_le_add _ _).trans ?_
    have := (vee_le (dev G0)).trans hdev
    linarith

/-! ### C95 -/

section
variable {src : List (V3 ℝ)} {T0 Ts : M4 ℝ} {c F damp : ℝ} {n : Int}

theorem Basin.within (hm : Basin ρ sep g σ η eps n.toNat (2 * c) F) (hs : Scene th tgt nrm pts ρ sep g σ η) {r : ℝ} (r0 : 0 ≤ r) (r1 : r ≤ 1)
    (hTs : Ts.Affine) {k : Nat} (hk : k ≤ n.toNat) (hG : Near G (reach r (2 * c) F k) (2 * k * eps ^ 2)) :
    Within (G.mul Ts) Ts (2 * reach r (2 * c) F k) ∧ ∀ x ∈ pts, vnorm ((act G x.seen).sub x.pos) < sep := by
  obtain ⟨b1, b2⟩ := hm.ok hs.rho r0 r1 k le_rfl
  have b3 := hm.defect hk (le_max_right (r ^ k * (2 * c)) F)
  obtain ⟨_, k2, _, _, k5, _⟩ := hs.small hG b1 b3
  exact ⟨hG.within hTs (by linarith) k5, fun x hx => (hs.stays hG b1 b3 b2 x hx).2.2.2⟩

/-- C95 (a).  The source is another sampling of the surface of the target: the rigid motion `Ts` brings every source point next to
a target point (up to `(1+ρ)·η`) and onto the plane through it (up to an error of `(1+ρ)·σ`).  Started at a rigid motion
within `c` of `Ts`, `c` and the floor `F` small, and with small damping, `point_to_plane_ICP` returns after `n` iterations a motion within
`2·max (2c·(g/8)ⁿ) F` of `Ts`, and pairs every source point with that target point. -/
theorem icp_converges (hn : NearestIn nn) (hs : Scene th tgt nrm pts ρ sep g σ η) (hTs : Ts.Rigid)
    (hsrc : transformPointcloud Ts src = pts.map Place.seen) (hT0 : T0.Rigid) (hc : Within T0 Ts c)
    (hm : Basin ρ sep g σ η eps n.toNat (2 * c) F) (hd0 : 0 < damp) (hd : 2 ^ n.toNat * damp ≤ pts.length * ((1 + ρ) * (g ^ 2 / 64)) ^ 2)
    (hn1 : 1 ≤ n) :
    ∃ T idx, pointToPlaneICP eps nn src tgt nrm (some T0) n damp th = .ok (T, idx) ∧
      Within T Ts (2 * max ((g / 8) ^ n.toNat * (2 * c)) F) ∧
      idx.map (fun i => (tgt[i]?, nrm[i]?)) = pts.map fun x => (some x.pos, some x.nor) := by
  have g0 := hs.pos
  have g1 := hs.le1
  have r0 : 0 ≤ g / 8 := by positivity
  have r1 : g / 8 ≤ 1 := by linarith
  obtain ⟨T, d, e0, ed, htr, hres⟩ := icp_is_lm (th := th) hn hs.ne hs.len eps src hT0.1 hd0 hn1
  obtain ⟨G0, hG0, hnear⟩ := near_of_within hT0 hTs (by have := hm.zs; nlinarith) hc
  subst ed
  have run := fun k hk => lm_reach hs hn hm hTs.1 hsrc htr (e0.trans hG0) hnear hd0 hd (k := k) hk
  obtain ⟨G, e1, h1, _⟩ := run n.toNat le_rfl
  obtain ⟨G', e2, h2, _⟩ := run (n.toNat - 1) (by omega)
  refine ⟨_, _, hres, ?_, ?_⟩
  · rw [e1]; exact (hm.within hs r0 r1 hTs.1 le_rfl h1).1
  · rw [e2, cloud_moved hTs.1 hsrc]
    exact hs.idx hn (hm.within hs r0 r1 hTs.1 (by omega) h2).2

/-- C95 (b).  The same for `point_to_plane_gradICP`; the rate is `1 - ω + g/8`, where `ω` is the smallest step weight. -/
theorem grad_converges (hn : NearestIn nn) (hs : Scene th tgt nrm pts ρ sep g σ η) (hTs : Ts.Rigid)
    (hsrc : transformPointcloud Ts src = pts.map Place.seen) (hT0 : T0.Rigid) (hc : Within T0 Ts c)
    {lmax B B2 nu : ℝ} (hlm : 1 < lmax) (hB : 0 < B2) (hnu : 0 < nu) (hω : g / 8 ≤ stepWeight B2 nu (-70))
    (hm : Basin ρ sep g σ η eps n.toNat (2 * c) F) (hd0 : 0 < damp) (hd : lmax ^ n.toNat * damp ≤ pts.length * ((1 + ρ) * (g ^ 2 / 64)) ^ 2)
    (hn1 : 1 ≤ n) :
    ∃ T idx, pointToPlaneGradICP eps lmax B B2 nu nn src tgt nrm (some T0) n damp th = .ok (T, idx) ∧
      Within T Ts (2 * max ((1 - stepWeight B2 nu (-70) + g / 8) ^ n.toNat * (2 * c)) F) ∧
      idx.map (fun i => (tgt[i]?, nrm[i]?)) = pts.map fun x => (some x.pos, some x.nor) := by
  have w1 := (stepWeight_between (B2 := B2) (e := -70) hnu).2
  have g0 := hs.pos
  have r0 : 0 ≤ 1 - stepWeight B2 nu (-70) + g / 8 := by linarith
  have r1 : 1 - stepWeight B2 nu (-70) + g / 8 ≤ 1 := by linarith
  obtain ⟨T, d, e0, ed, htr, hres⟩ := grad_is_trace (th := th) (eps := eps) (B := B) (B2 := B2) (nu := nu) hn hs.ne hs.len hlm src hT0.1 hd0 hn1
  obtain ⟨G0, hG0, hnear⟩ := near_of_within hT0 hTs (by have := hm.zs; nlinarith [hs.le1]) hc
  subst ed
  have run := fun k hk => grad_reach hs hn hm hTs.1 hsrc hlm hB hnu hω htr (e0.trans hG0) hnear hd0 hd (k := k) hk
  obtain ⟨G, e1, h1⟩ := run n.toNat le_rfl
  obtain ⟨G', e2, h2⟩ := run (n.toNat - 1) (by omega)
  refine ⟨_, _, hres, ?_, ?_⟩
  · rw [e1]; exact (hm.within hs r0 r1 hTs.1 le_rfl h1).1
  · rw [e2, cloud_moved hTs.1 hsrc]
    exact hs.idx hn (hm.within hs r0 r1 hTs.1 (by omega) h2).2
end

/-! ### The odometry providers -/

open Pcs in
/-- C95 (c).  `ICPOdometryProvider.provide`: one true motion per batch element, each close to the identity (the initial guess of the
provider); the provider returns, per batch element, a motion within the bound of (a). -/
theorem icp_provider_converges (hn : NearestIn nn) {c F damp : ℝ} {n : Int} {maps frames : PC ℝ} {am af : Clouds ℝ} {P Q Nn : List (T2 ℝ)}
    (hM : Inv maps am) (hf : Inv frames af) (hQ : am .points = some Q) (hN : am .normals = some Nn) (hP : af .points = some P)
    (hl : Q.length = P.length) {Ts : Nat → M4 ℝ} {places : Nat → List Place} {N : Nat}
    (hs : ∀ b p q m, P[b]? = some p → Q[b]? = some q → Nn[b]? = some m → Scene th (vecs q) (vecs m) (places b) ρ sep g σ η ∧ (Ts b).Rigid ∧
      transformPointcloud (Ts b) (vecs p) = (places b).map Place.seen ∧ Within M4.one (Ts b) c ∧ N ≤ (places b).length)
    (hm : Basin ρ sep g σ η eps n.toNat (2 * c) F) (hd0 : 0 < damp) (hd : 2 ^ n.toNat * damp ≤ N * ((1 + ρ) * (g ^ 2 / 64)) ^ 2) (hn1 : 1 ≤ n) :
    ∃ T : Nat → M4 ℝ, provide (fun src tgt nrm T0 => pointToPlaneICP eps nn src tgt nrm T0 n damp th) maps frames =
        .ok ((List.range P.length).map T) ∧
      ∀ b < P.length, Within (T b) (Ts b) (2 * max ((g / 8) ^ n.toNat * (2 * c)) F) := by
  have hwm := Fusion.wf_of_inv hM hQ
  have hrun : ∀ b, ∃ R : M4 ℝ × List Nat, b < P.length →
      pointToPlaneICP eps nn (vecs (P.getD b ⟨[], 0⟩)) (vecs (Q.getD b ⟨[], 0⟩)) (vecs (Nn.getD b ⟨[], 0⟩)) (some M4.one) n damp th = .ok R ∧
      Within R.1 (Ts b) (2 * max ((g / 8) ^ n.toNat * (2 * c)) F) := by
    intro b
    by_cases hb : b < P.length
    · have hbQ : b < Q.length := hl ▸ hb
      have hbN : b < Nn.length := by rw [hwm.length hN]; exact hbQ
      obtain ⟨h1, h2, h3, h4, h5⟩ := hs b _ _ _ (List.getElem?_eq_getElem hb) (List.getElem?_eq_getElem hbQ) (List.getElem?_eq_getElem hbN)
      rw [List.getD_eq_getElem _ _ hb, List.getD_eq_getElem _ _ hbQ, List.getD_eq_getElem _ _ hbN]
      obtain ⟨T, idx, e, hw, _⟩ := icp_converges hn h1 h2 h3 M4.one_rigid h4 hm hd0
        (hd.trans (mul_le_mul_of_nonneg_right (by exact_mod_cast h5) (by positivity))) hn1
      exact ⟨(T, idx), fun _ => ⟨e, hw⟩⟩
    · exact ⟨(M4.one, []), fun h => absurd h hb⟩
  choose R hR using hrun
  exact ⟨fun b => (R b).1, provide_eq hM hf hQ hN hP hl fun b hb => (hR b hb).1, fun b hb => (hR b hb).2⟩

open Pcs in
/-- C95 (d).  The same for `GradICPOdometryProvider`. -/
theorem grad_provider_converges (hn : NearestIn nn) {c F damp : ℝ} {n : Int} {maps frames : PC ℝ} {am af : Clouds ℝ} {P Q Nn : List (T2 ℝ)}
    (hM : Inv maps am) (hf : Inv frames af) (hQ : am .points = some Q) (hN : am .normals = some Nn) (hP : af .points = some P)
    (hl : Q.length = P.length) {Ts : Nat → M4 ℝ} {places : Nat → List Place} {N : Nat}
    (hs : ∀ b p q m, P[b]? = some p → Q[b]? = some q → Nn[b]? = some m → Scene th (vecs q) (vecs m) (places b) ρ sep g σ η ∧ (Ts b).Rigid ∧
      transformPointcloud (Ts b) (vecs p) = (places b).map Place.seen ∧ Within M4.one (Ts b) c ∧ N ≤ (places b).length)
    {lmax B B2 nu : ℝ} (hlm : 1 < lmax) (hB : 0 < B2) (hnu : 0 < nu) (hω : g / 8 ≤ stepWeight B2 nu (-70))
    (hm : Basin ρ sep g σ η eps n.toNat (2 * c) F) (hd0 : 0 < damp) (hd : lmax ^ n.toNat * damp ≤ N * ((1 + ρ) * (g ^ 2 / 64)) ^ 2) (hn1 : 1 ≤ n) :
    ∃ T : Nat → M4 ℝ, provide (fun src tgt nrm T0 => pointToPlaneGradICP eps lmax B B2 nu nn src tgt nrm T0 n damp th) maps frames =
        .ok ((List.range P.length).map T) ∧
      ∀ b < P.length, Within (T b) (Ts b) (2 * max ((1 - stepWeight B2 nu (-70) + g / 8) ^ n.toNat * (2 * c)) F) := by
  have hwm := Fusion.wf_of_inv hM hQ
  have hrun : ∀ b, ∃ R : M4 ℝ × List Nat, b < P.length →
      pointToPlaneGradICP eps lmax B B2 nu nn (vecs (P.getD b ⟨[], 0⟩)) (vecs (Q.getD b ⟨[], 0⟩)) (vecs (Nn.getD b ⟨[], 0⟩)) (some M4.one) n damp th = .ok R ∧
      Within R.1 (Ts b) (2 * max ((1 - stepWeight B2 nu (-70) + g / 8) ^ n.toNat * (2 * c)) F) := by
    intro b
    by_cases hb : b < P.length
    · have hbQ : b < Q.length := hl ▸ hb
      have hbN : b < Nn.length := by rw [hwm.length hN]; exact hbQ
      obtain ⟨h1, h2, h3, h4, h5⟩ := hs b _ _ _ (List.getElem?_eq_getElem hb) (List.getElem?_eq_getElem hbQ) (List.getElem?_eq_getElem hbN)
      rw [List.getD_eq_getElem _ _ hb, List.getD_eq_getElem _ _ hbQ, List.getD_eq_getElem _ _ hbN]
      obtain ⟨T, idx, e, hw, _⟩ := grad_converges (B := B) hn h1 h2 h3 M4.one_rigid h4 hlm hB hnu hω hm hd0
        (hd.trans (mul_le_mul_of_nonneg_right (by exact_mod_cast h5) (by positivity))) hn1
      exact ⟨(T, idx), fun _ => ⟨e, hw⟩⟩
    · exact ⟨(M4.one, []), fun h => absurd h hb⟩
  choose R hR using hrun
  exact ⟨fun b => (R b).1, provide_eq hM hf hQ hN hP hl fun b hb => (hR b hb).1, fun b hb => (hR b hb).2⟩
end Verif.Icp
