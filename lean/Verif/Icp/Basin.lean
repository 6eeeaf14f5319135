import Verif.Icp.Norm
/-!
Affine maps near the identity, and what applying one more step does to them (used for C95).
-/
namespace Verif.Icp
open Verif Geom

/-! ### Size of a twist -/

/-- Length of the pair `(v, w)`. -/
noncomputable def tw (v w : V3 ℝ) : ℝ := √(vnorm v ^ 2 + vnorm w ^ 2)

theorem tw_nonneg (v w : V3 ℝ) : 0 ≤ tw v w := Real.sqrt_nonneg _
theorem tw_sq (v w : V3 ℝ) : tw v w ^ 2 = vnorm v ^ 2 + vnorm w ^ 2 := Real.sq_sqrt (by positivity)
theorem tw_normSq (v w : V3 ℝ) : v.normSq + w.normSq = tw v w ^ 2 := by rw [tw_sq, normSq_eq, normSq_eq]
theorem tw_left (v w : V3 ℝ) : vnorm v ≤ tw v w := Real.le_sqrt_of_sq_le (by nlinarith [sq_nonneg (vnorm w)])
theorem tw_right (v w : V3 ℝ) : vnorm w ≤ tw v w := Real.le_sqrt_of_sq_le (by nlinarith [sq_nonneg (vnorm v)])

theorem tw_le_add (v w : V3 ℝ) : tw v w ≤ vnorm v + vnorm w := by
  have h1 := vnorm_nonneg v
  have h2 := vnorm_nonneg w
  exact Real.sqrt_le_iff.2 ⟨by positivity, by nlinarith⟩

theorem tw_mono {v w v' w' : V3 ℝ} (h1 : vnorm v ≤ vnorm v') (h2 : vnorm w ≤ vnorm w') : tw v w ≤ tw v' w' :=
  Real.sqrt_le_sqrt (add_le_add (pow_le_pow_left₀ (vnorm_nonneg _) h1 2) (pow_le_pow_left₀ (vnorm_nonneg _) h2 2))

theorem tw_add (v w v' w' : V3 ℝ) : tw (v.add v') (w.add w') ≤ tw v w + tw v' w' := by
  have a := vnorm_nonneg v; have b := vnorm_nonneg w; have c := vnorm_nonneg v'; have d := vnorm_nonneg w'
  have h1 := vnorm_add_le v v'
  have h2 := vnorm_add_le w w'
  have e0 := vnorm_nonneg (v.add v')
  have e1 := vnorm_nonneg (w.add w')
  have p := tw_nonneg v w; have q := tw_nonneg v' w'
  have ps := tw_sq v w; have qs := tw_sq v' w'
  refine Real.sqrt_le_iff.2 ⟨by positivity, ?_⟩
  have k : vnorm v * vnorm v' + vnorm w * vnorm w' ≤ tw v w * tw v' w' := by
    refine (abs_le_of_sq_le_sq' ?_ (mul_nonneg p q)).2
    rw [mul_pow, ps, qs]
    nlinarith [sq_nonneg (vnorm v * vnorm w' - vnorm w * vnorm v')]
  have m1 : vnorm (v.add v') ^ 2 ≤ (vnorm v + vnorm v') ^ 2 := pow_le_pow_left₀ e0 h1 2
  have m2 : vnorm (w.add w') ^ 2 ≤ (vnorm w + vnorm w') ^ 2 := pow_le_pow_left₀ e1 h2 2
  nlinarith

theorem tw_smul (c : ℝ) (v w : V3 ℝ) : tw (v.smul c) (w.smul c) = |c| * tw v w := by
  have h : tw (v.smul c) (w.smul c) ^ 2 = (|c| * tw v w) ^ 2 := by
    rw [mul_pow, tw_sq, tw_sq, vnorm_smul, vnorm_smul]; ring
  exact (pow_left_inj₀ (tw_nonneg _ _) (mul_nonneg (abs_nonneg _) (tw_nonneg _ _)) two_ne_zero).1 h

theorem tw_neg (v w : V3 ℝ) : tw v.neg w.neg = tw v w := by simp only [tw, vnorm_neg]

/-! ### Rotational and symmetric part -/

/-- The vector of the skew part of a matrix. -/
noncomputable def vee (A : M3 ℝ) : V3 ℝ := ⟨(A.r2.y - A.r1.z) / 2, (A.r0.z - A.r2.x) / 2, (A.r1.x - A.r0.y) / 2⟩
/-- The symmetric part of a matrix. -/
noncomputable def symPart (A : M3 ℝ) : M3 ℝ := (A.add A.transpose).smul (1 / 2)

attribute [local simp] V3.zero V3.add V3.sub V3.neg V3.smul V3.dot V3.cross V3.normSq
  M3.one M3.zero M3.c0 M3.c1 M3.c2 M3.transpose M3.mulVec M3.mul M3.add M3.smul M3.neg M3.outer M3.det

theorem hat_vee (A : M3 ℝ) : so3Hat (vee A) = (A.add A.transpose.neg).smul (1 / 2) := by
  ext <;> simp [so3Hat, vee] <;> ring

theorem split (A : M3 ℝ) : A = (so3Hat (vee A)).add (symPart A) := by
  ext <;> simp [so3Hat, vee, symPart] <;> ring

theorem vee_le (A : M3 ℝ) : vnorm (vee A) ≤ nm A := by
  refine (hat_nm _).trans ?_
  rw [hat_vee]
  have h1 := nm_smul_le (1 / 2) (A.add A.transpose.neg)
  have h2 := nm_add A A.transpose.neg
  have h3 := (nm_neg_le A.transpose).trans (nm_transpose_le A)
  rw [abs_of_pos (by norm_num)] at h1
  linarith

theorem vee_add (A B : M3 ℝ) : vee (A.add B) = (vee A).add (vee B) := by ext <;> simp [vee] <;> ring
theorem vee_hat (w : V3 ℝ) : vee (so3Hat w) = w := by ext <;> simp [vee, so3Hat]

/-- The matrix minus the identity. -/
noncomputable def dev (G : M4 ℝ) : M3 ℝ := G.R.add M3.one.neg

theorem dev_eq (G : M4 ℝ) : G.R = M3.one.add (dev G) := by ext <;> simp [dev]

/-- How far an affine map is from the identity: translation and rotation vector. -/
noncomputable def size (G : M4 ℝ) : ℝ := tw G.t (vee (dev G))

theorem size_nonneg (G : M4 ℝ) : 0 ≤ size G := tw_nonneg _ _

/-- The map is affine, within `z` of the identity, and its matrix is orthogonal up to `δ`. -/
structure Near (G : M4 ℝ) (z δ : ℝ) : Prop where
  aff : G.Affine
  dev : nm (dev G) ≤ 1 / 4
  orth : ∃ D, G.R.transpose.mul G.R = M3.one.add D ∧ nm D ≤ δ
  size : size G ≤ z

variable {G : M4 ℝ} {z δ : ℝ}

theorem Near.nonneg (h : Near G z δ) : 0 ≤ z ∧ 0 ≤ δ := by
  obtain ⟨D, _, hD⟩ := h.orth
  exact ⟨(size_nonneg G).trans h.size, (nm_nonneg D).trans hD⟩

theorem Near.vee (h : Near G z δ) : vnorm (vee (Icp.dev G)) ≤ z := (tw_right _ _).trans h.size
theorem Near.t (h : Near G z δ) : vnorm G.t ≤ z := (tw_left _ _).trans h.size

/-- The symmetric part is of second order. -/
theorem Near.sym (h : Near G z δ) (hδ : δ ≤ 1 / 16) : nm (symPart (Icp.dev G)) ≤ 2 * (z ^ 2 + δ) := by
  obtain ⟨D, hD, hDn⟩ := h.orth
  have e : symPart (Icp.dev G) = (D.add ((Icp.dev G).transpose.mul (Icp.dev G)).neg).smul (1 / 2) := by
    rw [dev_eq G] at hD
    have h0 : D = ((M3.one.add (Icp.dev G)).transpose.mul (M3.one.add (Icp.dev G))).add M3.one.neg := by
      rw [hD]; ext <;> simp
    rw [h0]
    generalize Icp.dev G = Y
    ext <;> simp [symPart] <;> ring
  have h1 : nm (symPart (Icp.dev G)) ≤ (δ + nm (Icp.dev G) ^ 2) / 2 := by
    rw [e]
    have a1 := nm_smul_le (1 / 2) (D.add ((Icp.dev G).transpose.mul (Icp.dev G)).neg)
    rw [abs_of_pos (by norm_num)] at a1
    have a2 := nm_add D ((Icp.dev G).transpose.mul (Icp.dev G)).neg
    have a3 := (nm_neg_le ((Icp.dev G).transpose.mul (Icp.dev G))).trans ((nm_mul _ _).trans
      (mul_le_mul_of_nonneg_right (nm_transpose_le (Icp.dev G)) (nm_nonneg _)))
    nlinarith
  have h2 : nm (Icp.dev G) ≤ vnorm (Icp.vee (Icp.dev G)) + nm (symPart (Icp.dev G)) := by
    conv_lhs => rw [split (Icp.dev G)]
    exact (nm_add _ _).trans (add_le_add (nm_hat _) le_rfl)
  have h3 := h.vee
  have h4 := h.dev
  have h5 := nm_nonneg (Icp.dev G)
  obtain ⟨h6, h7⟩ := h.nonneg
  have h8 := nm_nonneg (symPart (Icp.dev G))
  generalize nm (symPart (Icp.dev G)) = s at *
  generalize nm (Icp.dev G) = y at *
  generalize vnorm (Icp.vee (Icp.dev G)) = m at *
  -- y ≤ z + (δ + y²)/2, y ≤ 1/4
  have k1 : y ≤ 8 / 7 * (z + δ / 2) := by nlinarith
  have k2 : y ^ 2 ≤ (8 / 7 * (z + δ / 2)) ^ 2 := pow_le_pow_left₀ h5 k1 2
  nlinarith [sq_nonneg (z - δ / 2)]

theorem Near.devLe (h : Near G z δ) (hδ : δ ≤ 1 / 16) : nm (Icp.dev G) ≤ z + 2 * (z ^ 2 + δ) := by
  conv_lhs => rw [split (Icp.dev G)]
  exact (nm_add _ _).trans (add_le_add ((nm_hat _).trans h.vee) (h.sym hδ))

/-- The image of a point. -/
noncomputable def act (G : M4 ℝ) (q : V3 ℝ) : V3 ℝ := (G.R.mulVec q).add G.t

/-- How a point moves: the twist, and the symmetric part. -/
theorem act_sub (G : M4 ℝ) (q : V3 ℝ) :
    (act G q).sub q = (G.t.add ((Icp.vee (dev G)).cross q)).add ((symPart (dev G)).mulVec q) := by
  have h : G.R.mulVec q = q.add (((Icp.vee (dev G)).cross q).add ((symPart (dev G)).mulVec q)) := by
    conv_lhs => rw [dev_eq G, mulVec_add', M3.one_mulVec, split (dev G), mulVec_add', so3_hat_cross]
  rw [act, h]
  ext <;> simp <;> ring

theorem Near.moves (h : Near G z δ) (hδ : δ ≤ 1 / 16) {q : V3 ℝ} {ρ : ℝ} (hq : vnorm q ≤ ρ) :
    vnorm ((act G q).sub q) ≤ (1 + ρ) * (z + 2 * (z ^ 2 + δ)) := by
  have e : (act G q).sub q = ((Icp.dev G).mulVec q).add G.t := by
    rw [act, dev_eq G, mulVec_add', M3.one_mulVec]; ext <;> simp <;> ring
  rw [e]
  have h1 := nm_mulVec (Icp.dev G) q
  have h2 := vnorm_add_le ((Icp.dev G).mulVec q) G.t
  have h3 := h.devLe hδ
  have h4 := h.t
  obtain ⟨h5, h6⟩ := h.nonneg
  have h7 := vnorm_nonneg q
  have h8 := nm_nonneg (Icp.dev G)
  have h9 : nm (Icp.dev G) * vnorm q ≤ (z + 2 * (z ^ 2 + δ)) * ρ := mul_le_mul h3 hq h7 (h8.trans h3)
  nlinarith [sq_nonneg z]

/-! ### One more step -/

theorem exp_mul_R {eps : ℝ} (v w : V3 ℝ) (h : G.Affine) : ((se3Exp eps v w).mul G).R = (so3Exp eps w).mul G.R := by
  rw [M4.mul, h.1]; ext <;> simp [se3Exp]
theorem exp_mul_t {eps : ℝ} (v w : V3 ℝ) (h : G.Affine) :
    ((se3Exp eps v w).mul G).t = ((so3Exp eps w).mulVec G.t).add ((se3V eps w).mulVec v) := by
  rw [M4.mul, h.2]; ext <;> simp [se3Exp]

/-- Applying the exponential of a twist that cancels the offset up to `ε`: what remains is `ε` and terms of second order. -/
theorem Near.next {eps : ℝ} (heps : 0 < eps) (h : Near G z δ) (hz : z ≤ 1 / 1000) (hδ : δ ≤ 1 / 1000) {v w : V3 ℝ} {ε : ℝ} (hε : ε ≤ z)
    (he : tw (v.add G.t) (w.add (Icp.vee (Icp.dev G))) ≤ ε) :
    Near ((se3Exp eps v w).mul G) (ε + 20 * (z ^ 2 + δ)) (δ + 2 * eps ^ 2) := by
  obtain ⟨hz0, hδ0⟩ := h.nonneg
  have hε0 : 0 ≤ ε := (tw_nonneg _ _).trans he
  have hδ' : δ ≤ 1 / 16 := by linarith
  set μ := Icp.vee (Icp.dev G) with hμ
  have hμz : vnorm μ ≤ z := h.vee
  have htz := h.t
  have hv : vnorm v ≤ 2 * z := by
    have e : v = (v.add G.t).sub G.t := by ext <;> simp
    have h1 := vnorm_sub_le (v.add G.t) G.t
    rw [← e] at h1
    have := (tw_left (v.add G.t) (w.add μ)).trans he
    linarith
  have hwε : vnorm (w.add μ) ≤ ε := (tw_right (v.add G.t) (w.add μ)).trans he
  have hw : vnorm w ≤ 2 * z := by
    have e : w = (w.add μ).sub μ := by ext <;> simp
    have h1 := vnorm_sub_le (w.add μ) μ
    rw [← e] at h1
    linarith
  have hw0 := vnorm_nonneg w
  have hw1 : vnorm w ≤ 1 := by linarith
  obtain ⟨X, hX, hXn⟩ := so3_second_order (eps := eps) hw1 heps
  obtain ⟨V, hV, hVn⟩ := se3V_first_order (eps := eps) hw1 heps
  obtain ⟨D', hD', hD1, hD2⟩ := so3_defect heps w
  have hXw : nm X ≤ 4 * z ^ 2 := hXn.trans (by nlinarith)
  have hXI : nm ((so3Hat w).add X) ≤ 3 * z := (nm_add _ _).trans (by nlinarith [nm_hat w])
  have hS := h.sym hδ'
  have hY := h.devLe hδ'
  have hY0 := nm_nonneg (Icp.dev G)
  have hτ0 : 0 ≤ z ^ 2 + δ := by positivity
  -- the matrix
  set Rest := (X.add (symPart (Icp.dev G))).add (((so3Hat w).add X).mul (Icp.dev G)) with hRest
  have hdev : Icp.dev ((se3Exp eps v w).mul G) = (so3Hat (w.add μ)).add Rest := by
    have e1 : so3Hat (w.add μ) = (so3Hat w).add (so3Hat μ) := by ext <;> simp [so3Hat] <;> ring
    have e2 : Icp.dev ((se3Exp eps v w).mul G) =
        (((so3Hat w).add X).add ((so3Hat μ).add (symPart (Icp.dev G)))).add (((so3Hat w).add X).mul (Icp.dev G)) := by
      rw [← split (Icp.dev G), Icp.dev, exp_mul_R v w h.aff, hX, dev_eq G]
      generalize Icp.dev G = Y
      generalize so3Hat w = W
      ext <;> simp <;> ring
    rw [e2, e1, hRest]
    generalize ((so3Hat w).add X).mul (Icp.dev G) = Z
    ext <;> simp <;> ring
  have hRn : nm Rest ≤ 12 * (z ^ 2 + δ) := by
    have a1 := nm_add (X.add (symPart (Icp.dev G))) (((so3Hat w).add X).mul (Icp.dev G))
    have a2 := nm_add X (symPart (Icp.dev G))
    have a3 := nm_mul ((so3Hat w).add X) (Icp.dev G)
    have a4 : nm ((so3Hat w).add X) * nm (Icp.dev G) ≤ 3 * z * (z + 2 * (z ^ 2 + δ)) := mul_le_mul hXI hY hY0 (by positivity)
    have a5 : z * (z ^ 2 + δ) ≤ 1 / 1000 * (z ^ 2 + δ) := mul_le_mul_of_nonneg_right hz hτ0
    nlinarith
  have hvee : Icp.vee (Icp.dev ((se3Exp eps v w).mul G)) = (w.add μ).add (Icp.vee Rest) := by
    rw [hdev, vee_add, vee_hat]
  have hveeR : vnorm (Icp.vee Rest) ≤ 12 * (z ^ 2 + δ) := (vee_le _).trans hRn
  -- the translation
  have ht : ((se3Exp eps v w).mul G).t = (v.add G.t).add ((((so3Hat w).add X).mulVec G.t).add (V.mulVec v)) := by
    rw [exp_mul_t v w h.aff, hX, hV, mulVec_add', mulVec_add', mulVec_add', mulVec_add', M3.one_mulVec, M3.one_mulVec]
    generalize (so3Hat w).mulVec G.t = a
    generalize X.mulVec G.t = b
    generalize V.mulVec v = c
    ext <;> simp <;> ring
  have htR : vnorm ((((so3Hat w).add X).mulVec G.t).add (V.mulVec v)) ≤ 8 * (z ^ 2 + δ) := by
    have a1 := vnorm_add_le (((so3Hat w).add X).mulVec G.t) (V.mulVec v)
    have a2 := nm_mulVec ((so3Hat w).add X) G.t
    have a3 := nm_mulVec V v
    have a4 : nm ((so3Hat w).add X) * vnorm G.t ≤ 3 * z * z := mul_le_mul hXI htz (vnorm_nonneg _) (by positivity)
    have a5 : nm V * vnorm v ≤ 2 * z * (2 * z) := mul_le_mul (hVn.trans hw) hv (vnorm_nonneg _) (by positivity)
    nlinarith
  refine ⟨(se3_affine eps v w).mul h.aff, ?_, ?_, ?_⟩
  · rw [hdev]
    have a1 := nm_add (so3Hat (w.add μ)) Rest
    have a2 := (nm_hat (w.add μ)).trans hwε
    nlinarith
  · obtain ⟨D, hD, hDn⟩ := h.orth
    refine ⟨D.add ((G.R.transpose.mul D').mul G.R), ?_, ?_⟩
    · rw [exp_mul_R v w h.aff, M3.transpose_mul, M3.mul_assoc, ← M3.mul_assoc (so3Exp eps w).transpose, hD']
      have e1 : G.R.transpose.mul ((M3.one.add D').mul G.R) = (G.R.transpose.mul G.R).add ((G.R.transpose.mul D').mul G.R) := by
        ext <;> simp <;> ring
      rw [e1, hD]
      ext <;> simp <;> ring
    · have a0 : nm G.R ≤ 5 / 4 := by
        rw [dev_eq G]
        have := nm_add M3.one (Icp.dev G)
        have := nm_one
        have := h.dev
        linarith
      have a1 := nm_add D ((G.R.transpose.mul D').mul G.R)
      have a2 := nm_mul (G.R.transpose.mul D') G.R
      have a3 := nm_mul G.R.transpose D'
      have a4 := nm_transpose_le G.R
      have b0 := nm_nonneg D'
      have b1 := nm_nonneg G.R
      have a5 : nm (G.R.transpose.mul D') ≤ 5 / 4 * eps ^ 2 := a3.trans (mul_le_mul (a4.trans a0) hD2 b0 (by norm_num))
      have a6 : nm (G.R.transpose.mul D') * nm G.R ≤ 5 / 4 * eps ^ 2 * (5 / 4) := mul_le_mul a5 a0 b1 (by positivity)
      nlinarith [sq_nonneg eps]
  · rw [Icp.size, hvee, ht]
    have a1 := tw_add (v.add G.t) (w.add μ) ((((so3Hat w).add X).mulVec G.t).add (V.mulVec v)) (Icp.vee Rest)
    have a2 := tw_le_add ((((so3Hat w).add X).mulVec G.t).add (V.mulVec v)) (Icp.vee Rest)
    linarith
end Verif.Icp
