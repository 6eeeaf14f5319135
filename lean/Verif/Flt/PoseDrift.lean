import Verif.Flt.Pose
/-! **C100**: bounds for the drift of a chain of poses. -/
namespace Verif.Flt
open Verif Geom

/-- `j`-th column of the rotation part. -/
def col (j : Fin 3) (A : M3 ℝ) : V3 ℝ := match j with
  | 0 => A.c0
  | 1 => A.c1
  | 2 => A.c2

theorem compose_col {F : Fmt} {A B C : M4 ℝ} (h : ComposeF F A B C) (j : Fin 3) : MulVecF F A.R (col j B.R) (col j C.R) := by
  obtain ⟨a, b, c, _⟩ := h
  fin_cases j
  · exact a
  · exact b
  · exact c

theorem col_mul (A B : M3 ℝ) (j : Fin 3) : col j (A.mul B) = A.mulVec (col j B) := by fin_cases j <;> rfl

theorem mulVec_sub' (A : M3 ℝ) (v w : V3 ℝ) : (A.mulVec v).sub (A.mulVec w) = A.mulVec (v.sub w) := by
  ext <;> simp [M3.mulVec, V3.sub, V3.dot] <;> ring

/-- `a - c = (a - b) + (b - c)`. -/
theorem vnorm_sub_trans (a b c : V3 ℝ) : vnorm (a.sub c) ≤ vnorm (a.sub b) + vnorm (b.sub c) := by
  have : a.sub c = (a.sub b).add (b.sub c) := by ext <;> simp [V3.sub, V3.add]
  rw [this]; exact Icp.vnorm_add_le _ _

theorem vnorm_le_of_sub (a b : V3 ℝ) : vnorm a ≤ vnorm b + vnorm (a.sub b) := by
  have : a = b.add (a.sub b) := by ext <;> simp [V3.sub, V3.add]
  calc vnorm a = vnorm (b.add (a.sub b)) := by rw [← this]
    _ ≤ _ := Icp.vnorm_add_le _ _

variable {F : Fmt} {T P : Nat → M4 ℝ} {n : Nat} {ρ : ℝ}

/-- The length of the columns. -/
theorem col_length (hu : F.u ≤ 1 / 1000) (hρ : ρ ≤ 1 / 100) (hT : ∀ k < n, NearlyOrthogonal ρ (T k).R) (h : Chain F T n P) (j : Fin 3) {k : Nat}
    (hk : k ≤ n) : vnorm (col j (P k).R) ≤ (1 + 3 / 2 * ρ + 27 / 5 * F.u) ^ k * vnorm (col j (P 0).R) := by
  induction k with
  | zero => simp
  | succ k ih =>
    have ih := ih (by omega)
    have o := hT k hk
    have ρ0 : 0 ≤ ρ := (abs_nonneg _).trans o.1.1
    have u0 := F.u0
    have e := mulVecF_err hu hρ o (compose_col (h k hk) j)
    have l := near_len o (col j (P k).R)
    have s := vnorm_le_of_sub (col j (P (k + 1)).R) ((T k).R.mulVec (col j (P k).R))
    calc _ ≤ (1 + 3 / 2 * ρ + 27 / 5 * F.u) * vnorm (col j (P k).R) := by linarith
      _ ≤ (1 + 3 / 2 * ρ + 27 / 5 * F.u) * ((1 + 3 / 2 * ρ + 27 / 5 * F.u) ^ k * vnorm (col j (P 0).R)) := by gcongr
      _ = _ := by ring

/-- **C100**, orientation.  After `k` frames each axis of the camera is off the exactly composed one by at most
`(1 + 3/2 ρ + 27/5 u)^k - (1 + 3/2 ρ)^k`, about `27/5 k u`: the error grows linearly with the number of frames.  `u` is the unit roundoff, `ρ`
the defect of the transforms that are composed. -/
theorem orientation_drift (hu : F.u ≤ 1 / 1000) (hρ : ρ ≤ 1 / 100) (hT : ∀ k < n, NearlyOrthogonal ρ (T k).R) (h : Chain F T n P) (j : Fin 3) {k : Nat}
    (hk : k ≤ n) : vnorm ((col j (P k).R).sub (col j (running T (P 0) k).R)) ≤
      ((1 + 3 / 2 * ρ + 27 / 5 * F.u) ^ k - (1 + 3 / 2 * ρ) ^ k) * vnorm (col j (P 0).R) := by
  induction k with
  | zero =>
    have : (col j (P 0).R).sub (col j (running T (P 0) 0).R) = V3.zero := by ext <;> simp [running, V3.sub, V3.zero]
    rw [this]; simp [vnorm, V3.zero]
  | succ k ih =>
    have ih := ih (by omega)
    have o := hT k hk
    have ρ0 : 0 ≤ ρ := (abs_nonneg _).trans o.1.1
    have u0 := F.u0
    have e := mulVecF_err hu hρ o (compose_col (h k hk) j)
    have l := col_length hu hρ hT h j (k := k) (by omega)
    have s := vnorm_sub_trans (col j (P (k + 1)).R) ((T k).R.mulVec (col j (P k).R)) (col j (running T (P 0) (k + 1)).R)
    have c : col j (running T (P 0) (k + 1)).R = (T k).R.mulVec (col j (running T (P 0) k).R) := col_mul _ _ j
    rw [c, mulVec_sub'] at s
    have g := near_len o ((col j (P k).R).sub (col j (running T (P 0) k).R))
    rw [c]
    calc _ ≤ 27 / 5 * F.u * ((1 + 3 / 2 * ρ + 27 / 5 * F.u) ^ k * vnorm (col j (P 0).R)) + (1 + 3 / 2 * ρ) *
          (((1 + 3 / 2 * ρ + 27 / 5 * F.u) ^ k - (1 + 3 / 2 * ρ) ^ k) * vnorm (col j (P 0).R)) := by
          have a1 := mul_le_mul_of_nonneg_left l (by positivity : 0 ≤ 27 / 5 * F.u)
          have a2 := mul_le_mul_of_nonneg_left ih (by positivity : 0 ≤ 1 + 3 / 2 * ρ)
          linarith
      _ = _ := by ring

/-- Inner products of columns after one composition. -/
theorem compose_dot (hu : F.u ≤ 1 / 1000) (hρ : ρ ≤ 1 / 100) {A B C : M4 ℝ} (o : NearlyOrthogonal ρ A.R) (h : ComposeF F A B C) (i j : Fin 3) :
    |(col i C.R).dot (col j C.R) - (col i B.R).dot (col j B.R)| ≤ (3 * ρ + 11 * F.u) * (vnorm (col i B.R) * vnorm (col j B.R)) := by
  have ρ0 : 0 ≤ ρ := (abs_nonneg _).trans o.1.1
  have u0 := F.u0
  have ei := mulVecF_err hu hρ o (compose_col h i)
  have ej := mulVecF_err hu hρ o (compose_col h j)
  have li := near_len o (col i B.R)
  have lj := near_len o (col j B.R)
  have d := near_dot o (col i B.R) (col j B.R)
  generalize col i B.R = v at *
  generalize col j B.R = w at *
  generalize col i C.R = v' at *
  generalize col j C.R = w' at *
  have v0 := vnorm_nonneg v
  have w0 := vnorm_nonneg w
  have e : v'.dot w' - v.dot w = (v'.sub (A.R.mulVec v)).dot (A.R.mulVec w) + (A.R.mulVec v).dot (w'.sub (A.R.mulVec w)) +
      (v'.sub (A.R.mulVec v)).dot (w'.sub (A.R.mulVec w)) + ((A.R.mulVec v).dot (A.R.mulVec w) - v.dot w) := by
    simp only [V3.dot, V3.sub]; ring
  have k1 := (Icp.dot_le (v'.sub (A.R.mulVec v)) (A.R.mulVec w)).trans (mul_le_mul ei lj (vnorm_nonneg _) (by positivity))
  have k2 := (Icp.dot_le (A.R.mulVec v) (w'.sub (A.R.mulVec w))).trans (mul_le_mul li ej (vnorm_nonneg _) (by positivity))
  have k3 := (Icp.dot_le (v'.sub (A.R.mulVec v)) (w'.sub (A.R.mulVec w))).trans (mul_le_mul ei ej (vnorm_nonneg _) (by positivity))
  rw [e]
  refine (abs_add_le _ _).trans ?_
  refine (add_le_add_left (abs_add_le _ _) _).trans ?_
  refine (add_le_add_left (add_le_add_left (abs_add_le _ _) _) _).trans ?_
  have z := mul_nonneg v0 w0
  have y1 : F.u * ρ * (vnorm v * vnorm w) ≤ F.u * (1 / 100) * (vnorm v * vnorm w) := by gcongr
  have y2 : F.u * F.u * (vnorm v * vnorm w) ≤ F.u * (1 / 1000) * (vnorm v * vnorm w) := by gcongr
  nlinarith [mul_nonneg u0 z]

/-- The defect of orthogonality after `k` compositions: `(1 + ρ₀) (1 + 3 ρ + 11 u)^k - 1`. -/
noncomputable def defect (ρ₀ ρ u : ℝ) (k : Nat) : ℝ := (1 + ρ₀) * (1 + (3 * ρ + 11 * u)) ^ k - 1

/-- What `NearlyOrthogonal` says about columns. -/
theorem nearly_iff (ρ : ℝ) (R : M3 ℝ) : NearlyOrthogonal ρ R ↔ ∀ i j : Fin 3, |(col i R).dot (col j R) - if i = j then 1 else 0| ≤ ρ := by
  have sym : ∀ a b : V3 ℝ, a.dot b = b.dot a := fun a b => by simp only [V3.dot]; ring
  constructor
  · rintro ⟨⟨h0, h1, h2⟩, h3, h4, h5⟩ i j
    fin_cases i <;> fin_cases j <;> simp [col] <;> first | assumption | (rw [sym]; assumption)
  · intro h
    refine ⟨⟨?_, ?_, ?_⟩, ?_, ?_, ?_⟩
    · simpa [col] using h 0 0
    · simpa [col] using h 1 1
    · simpa [col] using h 2 2
    · simpa [col] using h 0 1
    · simpa [col] using h 0 2
    · simpa [col] using h 1 2

/-- **C100**, orthogonality.  The rotation part of the pose stays nearly orthogonal: its defect grows by at most the factor `1 + 3 ρ + 11 u` per
frame. -/
theorem orthogonality_drift (hu : F.u ≤ 1 / 1000) (hρ : ρ ≤ 1 / 100) (hT : ∀ k < n, NearlyOrthogonal ρ (T k).R) (h : Chain F T n P) {ρ₀ : ℝ}
    (h0 : NearlyOrthogonal ρ₀ (P 0).R) {k : Nat} (hk : k ≤ n) : NearlyOrthogonal (defect ρ₀ ρ F.u k) (P k).R := by
  induction k with
  | zero => simpa [defect] using h0
  | succ k ih =>
    have ih := ih (by omega)
    rw [nearly_iff] at ih ⊢
    have o := hT k hk
    have ρ0 : 0 ≤ ρ := (abs_nonneg _).trans o.1.1
    have u0 := F.u0
    intro i j
    have d := compose_dot hu hρ o (h k hk) i j
    have len : ∀ i : Fin 3, vnorm (col i (P k).R) ^ 2 ≤ 1 + defect ρ₀ ρ F.u k := by
      intro i
      have := (abs_le.1 (ih i i)).2
      rw [if_pos rfl] at this
      have e : (col i (P k).R).dot (col i (P k).R) = vnorm (col i (P k).R) ^ 2 := Icp.normSq_eq _
      linarith
    have p : vnorm (col i (P k).R) * vnorm (col j (P k).R) ≤ 1 + defect ρ₀ ρ F.u k := by
      nlinarith [len i, len j, sq_nonneg (vnorm (col i (P k).R) - vnorm (col j (P k).R))]
    have q := mul_le_mul_of_nonneg_left p (by positivity : 0 ≤ 3 * ρ + 11 * F.u)
    have s := abs_sub_le ((col i (P (k + 1)).R).dot (col j (P (k + 1)).R)) ((col i (P k).R).dot (col j (P k).R)) (if i = j then 1 else 0)
    refine s.trans ((add_le_add (d.trans q) (ih i j)).trans (le_of_eq ?_))
    simp only [defect]; ring

/-- Rounding of one composition: the translation. -/
theorem compose_t (hu : F.u ≤ 1 / 1000) (hρ : ρ ≤ 1 / 100) {A B C : M4 ℝ} (o : NearlyOrthogonal ρ A.R) (h : ComposeF F A B C) :
    vnorm (C.t.sub ((A.R.mulVec B.t).add A.t)) ≤ 13 / 2 * F.u * vnorm B.t + F.u * vnorm A.t := by
  have ρ0 : 0 ≤ ρ := (abs_nonneg _).trans o.1.1
  have u0 := F.u0
  obtain ⟨_, _, _, ⟨r, hr, ht⟩, _, _⟩ := h
  have e := mulVecF_err hu hρ o hr
  have l := near_len o B.t
  have b0 := vnorm_nonneg B.t
  have s := vnorm_sub_trans C.t (r.add A.t) ((A.R.mulVec B.t).add A.t)
  have e2 : (r.add A.t).sub ((A.R.mulVec B.t).add A.t) = r.sub (A.R.mulVec B.t) := by ext <;> simp [V3.sub, V3.add]
  rw [e2] at s
  have rr := vnorm_le_of_sub r (A.R.mulVec B.t)
  have sum := Icp.vnorm_add_le r A.t
  have rn : vnorm (C.t.sub (r.add A.t)) ≤ F.u * vnorm (r.add A.t) := by
    refine (abs_le_of_sq_le_sq' ?_ (mul_nonneg u0 (vnorm_nonneg _))).2
    have q : ∀ x : ℝ, (F.rnd x - x) ^ 2 ≤ F.u ^ 2 * x ^ 2 := by
      intro x
      have := F.err x
      calc (F.rnd x - x) ^ 2 = |F.rnd x - x| ^ 2 := (sq_abs _).symm
        _ ≤ (F.u * |x|) ^ 2 := by gcongr
        _ = _ := by rw [mul_pow, sq_abs]
    rw [mul_pow, vnorm_sq, vnorm_sq, ht]
    simp only [V3.sub, V3.add]
    have := q (r.x + A.t.x); have := q (r.y + A.t.y); have := q (r.z + A.t.z)
    nlinarith
  have y1 : F.u * ρ * vnorm B.t ≤ F.u * (1 / 100) * vnorm B.t := by gcongr
  have y2 : F.u * F.u * vnorm B.t ≤ F.u * (1 / 1000) * vnorm B.t := by gcongr
  have y3 : F.u * vnorm (r.add A.t) ≤ F.u * ((1 + 3 / 2 * ρ) * vnorm B.t + 27 / 5 * F.u * vnorm B.t + vnorm A.t) := by
    gcongr; linarith
  nlinarith [mul_nonneg u0 b0]

/-- **C100**, position.  If the exact positions are within `L` of the world origin and no transform moves by more than `a`, the position after `k`
frames is off the exactly composed one by at most `k (1 + 3/2 ρ + 13/2 u)^k (13/2 L + a) u`. -/
theorem position_drift (hu : F.u ≤ 1 / 1000) (hρ0 : 0 ≤ ρ) (hρ : ρ ≤ 1 / 100) (hT : ∀ k < n, NearlyOrthogonal ρ (T k).R) (h : Chain F T n P) {L a : ℝ}
    (hL : ∀ k < n, vnorm (running T (P 0) k).t ≤ L) (ha : ∀ k < n, vnorm (T k).t ≤ a) {k : Nat} (hk : k ≤ n) :
    vnorm ((P k).t.sub (running T (P 0) k).t) ≤ k * (1 + 3 / 2 * ρ + 13 / 2 * F.u) ^ k * ((13 / 2 * L + a) * F.u) := by
  induction k with
  | zero =>
    have : (P 0).t.sub (running T (P 0) 0).t = V3.zero := by ext <;> simp [running, V3.sub, V3.zero]
    rw [this]; simp [vnorm, V3.zero]
  | succ k ih =>
    have ih := ih (by omega)
    have o := hT k hk
    have u0 := F.u0
    have L0 : 0 ≤ L := (vnorm_nonneg _).trans (hL k hk)
    have a0 : 0 ≤ a := (vnorm_nonneg _).trans (ha k hk)
    have e := compose_t hu hρ o (h k hk)
    have s := vnorm_sub_trans (P (k + 1)).t (((T k).R.mulVec (P k).t).add (T k).t) (running T (P 0) (k + 1)).t
    have c : (running T (P 0) (k + 1)).t = ((T k).R.mulVec (running T (P 0) k).t).add (T k).t := rfl
    have c2 : (((T k).R.mulVec (P k).t).add (T k).t).sub (running T (P 0) (k + 1)).t = (T k).R.mulVec ((P k).t.sub (running T (P 0) k).t) := by
      rw [c, ← mulVec_sub']; ext <;> simp [V3.sub, V3.add]
    rw [c2] at s
    have g := near_len o ((P k).t.sub (running T (P 0) k).t)
    have t := vnorm_le_of_sub (P k).t (running T (P 0) k).t
    have lk := hL k hk
    have ak := ha k hk
    set E := vnorm ((P k).t.sub (running T (P 0) k).t) with hE
    set H := 1 + 3 / 2 * ρ + 13 / 2 * F.u with hH
    set c := (13 / 2 * L + a) * F.u with hc
    have H1 : 1 ≤ H := by rw [hH]; have : 0 ≤ 3 / 2 * ρ + 13 / 2 * F.u := by positivity
                          linarith
    have c0 : 0 ≤ c := by positivity
    have w1 : 13 / 2 * F.u * vnorm (P k).t ≤ 13 / 2 * F.u * (L + E) := by gcongr; linarith
    have w2 : F.u * vnorm (T k).t ≤ F.u * a := by gcongr
    have w3 : vnorm ((P (k + 1)).t.sub (running T (P 0) (k + 1)).t) ≤ H * E + c := by rw [hH, hc]; linarith
    have w4 : H * E ≤ H * (k * H ^ k * c) := by gcongr
    have w5 : c ≤ H ^ (k + 1) * c := le_mul_of_one_le_left c0 (one_le_pow₀ H1)
    push_cast
    calc _ ≤ H * (k * H ^ k * c) + H ^ (k + 1) * c := by linarith
      _ = _ := by ring
end Verif.Flt
