import Verif.Flt.ProjModel
import Mathlib.Tactic.Positivity
/-! Error bounds of the steps of `ProjModel`. -/
namespace Verif.Flt
open Verif

theorem rnd_near (F : Fmt) {x y b m : ℝ} (h : |x - y| ≤ b) (hy : |y| ≤ m) : |F.rnd x - y| ≤ b + F.u * (m + b) := by
  have e := F.err x
  have t : |F.rnd x - y| ≤ |F.rnd x - x| + |x - y| := abs_sub_le _ _ _
  have t2 : |x| ≤ m + b := by
    calc |x| = |y + (x - y)| := by ring_nf
      _ ≤ |y| + |x - y| := abs_add_le _ _
      _ ≤ m + b := by linarith
  have := mul_le_mul_of_nonneg_left t2 F.u0
  linarith

theorem pow3_le {u : ℝ} (h0 : 0 ≤ u) (h : u ≤ 1 / 1000) : (1 + u) ^ 3 - 1 ≤ 31 / 10 * u := by
  nlinarith [mul_nonneg h0 h0, mul_le_mul_of_nonneg_left h h0, mul_le_mul_of_nonneg_left h (mul_nonneg h0 h0)]

theorem pow4_le {u : ℝ} (h0 : 0 ≤ u) (h : u ≤ 1 / 1000) : (1 + u) ^ 4 - 1 ≤ 41 / 10 * u := by
  have h3 := pow3_le h0 h
  have : (1 + u) ^ 4 - 1 = ((1 + u) ^ 3 - 1) * (1 + u) + u := by ring
  rw [this]
  nlinarith [mul_le_mul_of_nonneg_left h h0]

theorem dot3_near {F : Fmt} (hu : F.u ≤ 1 / 1000) {a b : V3 ℝ} {y : ℝ} (h : Dot3 F a b y) :
    |y - a.dot b| ≤ 31 / 10 * F.u * (|a.x * b.x| + |a.y * b.y| + |a.z * b.z|) := by
  have e := dots_error h
  have e1 : sumP [(a.x, b.x), (a.y, b.y), (a.z, b.z)] = a.dot b := by simp [sumP, V3.dot]; ring
  have e2 : sizeP [(a.x, b.x), (a.y, b.y), (a.z, b.z)] = |a.x * b.x| + |a.y * b.y| + |a.z * b.z| := by simp [sizeP]; ring
  rw [e1, e2] at e
  exact e.trans (mul_le_mul_of_nonneg_right (by simpa using pow3_le F.u0 hu) (by positivity))

theorem dot4_near {F : Fmt} (hu : F.u ≤ 1 / 1000) {a b c d x y z w s : ℝ} (h : Dots F [(a, x), (b, y), (c, z), (d, w)] s) :
    |s - (a * x + b * y + c * z + d * w)| ≤ 41 / 10 * F.u * (|a * x| + |b * y| + |c * z| + |d * w|) := by
  have e := dots_error h
  have e1 : sumP [(a, x), (b, y), (c, z), (d, w)] = a * x + b * y + c * z + d * w := by simp [sumP]; ring
  have e2 : sizeP [(a, x), (b, y), (c, z), (d, w)] = |a * x| + |b * y| + |c * z| + |d * w| := by simp [sizeP]; ring
  rw [e1, e2] at e
  exact e.trans (mul_le_mul_of_nonneg_right (by simpa using pow4_le F.u0 hu) (by positivity))

/-- The entries of the inverse intrinsics. -/
theorem inv_near (F : Fmt) (hu : F.u ≤ 1 / 1000) {f c : ℝ} (hf : 0 < f) :
    |F.rnd (1 / F.rnd f) - 1 / f| ≤ 21 / 10 * F.u * (1 / f) ∧
    |F.rnd (F.rnd (-1 * c) / F.rnd f) - -c / f| ≤ 31 / 10 * F.u * (|c| / f) := by
  have u0 := F.u0
  set u := F.u with hu_def
  have es := F.err f
  set s := F.rnd f with hs
  rw [abs_of_pos hf] at es
  have hsl : 999 / 1000 * f ≤ s := by
    have := (abs_le.1 es).1
    nlinarith
  have s0 : 0 < s := by nlinarith
  have hsf : 1 / s ≤ 1001002 / 1000000 * (1 / f) := by
    rw [div_le_iff₀ s0]
    have : 1001002 / 1000000 * (1 / f) * s = 1001002 / 1000000 * (s / f) := by ring
    rw [this]
    have : 999 / 1000 ≤ s / f := by rw [le_div_iff₀ hf]; exact hsl
    linarith
  have hd : |1 / s - 1 / f| ≤ 1001002 / 1000000 * u * (1 / f) := by
    have e1 : 1 / s - 1 / f = (f - s) * (1 / s) * (1 / f) := by field_simp
    rw [e1, abs_mul, abs_mul, abs_of_pos (by positivity : 0 < 1 / s), abs_of_pos (by positivity : 0 < 1 / f)]
    have h1 : |f - s| ≤ u * f := by rw [abs_sub_comm]; exact es
    have h2 : |f - s| * (1 / s) ≤ u * f * (1001002 / 1000000 * (1 / f)) := mul_le_mul h1 hsf (by positivity) (by positivity)
    have h3 : u * f * (1001002 / 1000000 * (1 / f)) = 1001002 / 1000000 * u := by field_simp
    rw [h3] at h2
    exact mul_le_mul_of_nonneg_right h2 (by positivity)
  have pf : 0 < 1 / f := by positivity
  constructor
  · have := rnd_near F hd (le_of_eq (abs_of_pos pf))
    refine this.trans ?_
    rw [← hu_def]
    have : u * (1 / f + 1001002 / 1000000 * u * (1 / f)) ≤ 10011 / 10000 * u * (1 / f) := by
      have : u * (1 / f + 1001002 / 1000000 * u * (1 / f)) = (1 + 1001002 / 1000000 * u) * (u * (1 / f)) := by ring
      rw [this, mul_assoc]
      exact mul_le_mul_of_nonneg_right (by linarith) (by positivity)
    have e3 : 0 ≤ u * (1 / f) := by positivity
    nlinarith
  · have ec := F.err (-1 * c)
    rw [abs_mul, abs_neg, abs_one, one_mul] at ec
    set N := F.rnd (-1 * c) with hN
    have h1 : |N / s - -c / f| ≤ 20021 / 10000 * u * (|c| / f) := by
      have e1 : N / s - -c / f = (N - -1 * c) * (1 / s) + -c * (1 / s - 1 / f) := by ring
      rw [e1]
      have a1 : |(N - -1 * c) * (1 / s)| ≤ u * |c| * (1001002 / 1000000 * (1 / f)) := by
        rw [abs_mul, abs_of_pos (by positivity : 0 < 1 / s)]
        exact mul_le_mul ec hsf (by positivity) (by positivity)
      have a2 : |-c * (1 / s - 1 / f)| ≤ |c| * (1001002 / 1000000 * u * (1 / f)) := by
        rw [abs_mul, abs_neg]; exact mul_le_mul_of_nonneg_left hd (abs_nonneg c)
      refine (abs_add_le _ _).trans ((add_le_add a1 a2).trans ?_)
      have : u * |c| * (1001002 / 1000000 * (1 / f)) + |c| * (1001002 / 1000000 * u * (1 / f)) = 2002004 / 1000000 * (u * (|c| / f)) := by ring
      rw [this, mul_assoc]
      exact mul_le_mul_of_nonneg_right (by norm_num) (by positivity)
    have h2 : |-c / f| ≤ |c| / f := by rw [abs_div, abs_neg, abs_of_pos hf]
    have := rnd_near F h1 h2
    refine this.trans ?_
    rw [← hu_def]
    have e3 : 0 ≤ u * (|c| / f) := by positivity
    nlinarith

/-- One coordinate of the ray: `(a - c) / f` up to `7 u (|a| + |c|) / f`. -/
theorem ray_near {u f a c i j r : ℝ} (u0 : 0 ≤ u) (hu : u ≤ 1 / 1000) (hf : 0 < f)
    (hi : |i - 1 / f| ≤ 21 / 10 * u * (1 / f)) (hj : |j - -c / f| ≤ 31 / 10 * u * (|c| / f))
    (hr : |r - (i * a + j)| ≤ 31 / 10 * u * (|i * a| + |j|)) : |r - (a - c) / f| ≤ 7 * u * ((|a| + |c|) / f) := by
  have pf : 0 < 1 / f := by positivity
  have pa : 0 ≤ |a| / f := by positivity
  have pc : 0 ≤ |c| / f := by positivity
  have hia : |i * a - a / f| ≤ 21 / 10 * u * (|a| / f) := by
    have : i * a - a / f = (i - 1 / f) * a := by ring
    rw [this, abs_mul]
    calc |i - 1 / f| * |a| ≤ 21 / 10 * u * (1 / f) * |a| := mul_le_mul_of_nonneg_right hi (abs_nonneg a)
      _ = _ := by ring
  have bia : |i * a| ≤ 1003 / 1000 * (|a| / f) := by
    have : |i * a| ≤ |i * a - a / f| + |a / f| := by
      calc |i * a| = |(i * a - a / f) + a / f| := by ring_nf
        _ ≤ _ := abs_add_le _ _
    rw [abs_div, abs_of_pos hf] at this
    nlinarith
  have bj : |j| ≤ 1004 / 1000 * (|c| / f) := by
    have : |j| ≤ |j - -c / f| + |-c / f| := by
      calc |j| = |(j - -c / f) + -c / f| := by ring_nf
        _ ≤ _ := abs_add_le _ _
    rw [abs_div, abs_neg, abs_of_pos hf] at this
    nlinarith
  have t : |r - (a - c) / f| ≤ |r - (i * a + j)| + (|i * a - a / f| + |j - -c / f|) := by
    calc |r - (a - c) / f| = |(r - (i * a + j)) + ((i * a - a / f) + (j - -c / f))| := by ring_nf
      _ ≤ _ := (abs_add_le _ _).trans (by gcongr; exact abs_add_le _ _)
  have t2 : 31 / 10 * u * (|i * a| + |j|) ≤ 31 / 10 * u * (1004 / 1000 * (|a| / f) + 1004 / 1000 * (|c| / f)) := by
    apply mul_le_mul_of_nonneg_left _ (by positivity)
    linarith
  have e : (|a| + |c|) / f = |a| / f + |c| / f := by ring
  rw [e]
  nlinarith [mul_nonneg u0 pa, mul_nonneg u0 pc]

/-- Sum of the sizes of the entries. -/
def l1 (v : V3 ℝ) : ℝ := |v.x| + |v.y| + |v.z|

theorem l1_nonneg (v : V3 ℝ) : 0 ≤ l1 v := by unfold l1; positivity

/-- A back-projected vertex. -/
theorem vertex_near (F : Fmt) (hu : F.u ≤ 1 / 1000) {e d : ℝ} {K : M4 ℝ} {px v : V3 ℝ} (hd : 0 < d)
    (h : VertexF F e K px d v) (hz : px.z = 1) (hfx : 0 < K.R.r0.x + e) (hfy : 0 < K.R.r1.y + e) :
    |v.x - d * ((px.x - K.R.r0.z) / (K.R.r0.x + e))| ≤ 9 * F.u * (d * ((|px.x| + |K.R.r0.z|) / (K.R.r0.x + e))) ∧
    |v.y - d * ((px.y - K.R.r1.z) / (K.R.r1.y + e))| ≤ 9 * F.u * (d * ((|px.y| + |K.R.r1.z|) / (K.R.r1.y + e))) ∧
    |v.z - d| ≤ 9 * F.u * d := by
  obtain ⟨r, ⟨h1, h2, h3⟩, rfl⟩ := h
  have u0 := F.u0
  have k1 := dot3_near hu h1
  have k2 := dot3_near hu h2
  have k3 := dot3_near hu h3
  simp only [inverseIntrinsicsF, V3.dot, hz, zero_mul, abs_zero, add_zero, zero_add, mul_one, one_mul, abs_one] at k1 k2 k3
  have r1 := ray_near u0 hu hfx (inv_near F hu (c := K.R.r0.z) hfx).1 (inv_near F hu hfx).2 k1
  have r2 := ray_near u0 hu hfy (inv_near F hu (c := K.R.r1.z) hfy).1 (inv_near F hu hfy).2 k2
  have step : ∀ {r y B : ℝ}, |r - y| ≤ 7 * F.u * B → |y| ≤ B → |F.rnd (r * d) - d * y| ≤ 9 * F.u * (d * B) := by
    intro r y B hr hy
    have hB : 0 ≤ B := (abs_nonneg _).trans hy
    have e1 : |r * d - d * y| ≤ 7 * F.u * B * d := by
      have : r * d - d * y = (r - y) * d := by ring
      rw [this, abs_mul, abs_of_pos hd]
      exact mul_le_mul_of_nonneg_right hr hd.le
    have e2 : |d * y| ≤ d * B := by rw [abs_mul, abs_of_pos hd]; exact mul_le_mul_of_nonneg_left hy hd.le
    refine (rnd_near F e1 e2).trans ?_
    have e3 : 0 ≤ F.u * (d * B) := by positivity
    nlinarith
  refine ⟨step r1 ?_, step r2 ?_, ?_⟩
  · rw [abs_div, abs_of_pos hfx]; gcongr; exact abs_sub _ _
  · rw [abs_div, abs_of_pos hfy]; gcongr; exact abs_sub _ _
  · have := step (r := r.z) (y := 1) (B := 1) (by rw [mul_one]; nlinarith) (by simp)
    simpa using this

/-- A rounded product with a row of entries of size at most 11/10. -/
theorem row_near {F : Fmt} (hu : F.u ≤ 1 / 1000) {a b : V3 ℝ} {y : ℝ} (h : Dot3 F a b y)
    (hx : |a.x| ≤ 11 / 10) (hy : |a.y| ≤ 11 / 10) (hz : |a.z| ≤ 11 / 10) : |y - a.dot b| ≤ 4 * F.u * l1 b := by
  refine (dot3_near hu h).trans ?_
  have u0 := F.u0
  have e1 := mul_le_mul_of_nonneg_right hx (abs_nonneg b.x)
  have e2 := mul_le_mul_of_nonneg_right hy (abs_nonneg b.y)
  have e3 := mul_le_mul_of_nonneg_right hz (abs_nonneg b.z)
  rw [abs_mul, abs_mul, abs_mul]
  calc 31 / 10 * F.u * (|a.x| * |b.x| + |a.y| * |b.y| + |a.z| * |b.z|) ≤ 31 / 10 * F.u * (11 / 10 * l1 b) := by
        apply mul_le_mul_of_nonneg_left _ (by positivity)
        unfold l1; linarith
    _ ≤ 4 * F.u * l1 b := by nlinarith [mul_nonneg u0 (l1_nonneg b)]

theorem dot_le {a b : V3 ℝ} {m : ℝ} (hx : |a.x| ≤ m) (hy : |a.y| ≤ m) (hz : |a.z| ≤ m) : |a.dot b| ≤ m * l1 b := by
  have e1 := mul_le_mul_of_nonneg_right hx (abs_nonneg b.x)
  have e2 := mul_le_mul_of_nonneg_right hy (abs_nonneg b.y)
  have e3 := mul_le_mul_of_nonneg_right hz (abs_nonneg b.z)
  calc |a.dot b| ≤ |a.x * b.x| + |a.y * b.y| + |a.z * b.z| :=
        (abs_add_le _ _).trans (by gcongr; exact abs_add_le _ _)
    _ ≤ _ := by rw [abs_mul, abs_mul, abs_mul]; unfold l1; linarith

/-- The columns of `R` are orthonormal up to `ρ`. -/
def NearlyOrthogonal (ρ : ℝ) (R : M3 ℝ) : Prop :=
  (|R.c0.dot R.c0 - 1| ≤ ρ ∧ |R.c1.dot R.c1 - 1| ≤ ρ ∧ |R.c2.dot R.c2 - 1| ≤ ρ) ∧
  (|R.c0.dot R.c1| ≤ ρ ∧ |R.c0.dot R.c2| ≤ ρ ∧ |R.c1.dot R.c2| ≤ ρ)

theorem col_le {c : V3 ℝ} {ρ : ℝ} (h : |c.dot c - 1| ≤ ρ) (hρ : ρ ≤ 1 / 100) : |c.x| ≤ 11 / 10 ∧ |c.y| ≤ 11 / 10 ∧ |c.z| ≤ 11 / 10 := by
  have h1 := (abs_le.1 h).2
  have h2 : c.x * c.x + c.y * c.y + c.z * c.z ≤ 101 / 100 := by unfold V3.dot at h1; linarith
  refine ⟨?_, ?_, ?_⟩ <;> refine abs_le_of_sq_le_sq ?_ (by norm_num) <;> nlinarith [mul_self_nonneg c.x, mul_self_nonneg c.y, mul_self_nonneg c.z]

theorem sum_close {x y a b : ℝ} (h : |x - y| ≤ a) (hy : |y| ≤ b) : |x| ≤ b + a := by
  calc |x| = |y + (x - y)| := by ring_nf
    _ ≤ |y| + |x - y| := abs_add_le _ _
    _ ≤ _ := by linarith

/-- One coordinate of a world point. -/
theorem world_coord (F : Fmt) (hu : F.u ≤ 1 / 1000) {a v V : V3 ℝ} {D t T r : ℝ}
    (hx : |a.x| ≤ 11 / 10) (hy : |a.y| ≤ 11 / 10) (hz : |a.z| ≤ 11 / 10) (hV : l1 V ≤ D) (hv : l1 (v.sub V) ≤ 9 * F.u * D)
    (ht : |t| ≤ T) (hr : Dot3 F a v r) : |F.rnd (r + t) - (a.dot V + t)| ≤ 16 * F.u * D + F.u * T := by
  have u0 := F.u0
  have D0 : 0 ≤ D := (l1_nonneg V).trans hV
  have h1 := row_near hu hr hx hy hz
  have h2 : l1 v ≤ 1009 / 1000 * D := by
    have e : ∀ x y : ℝ, |x| ≤ |y| + |x - y| := fun x y => sum_close le_rfl le_rfl
    have := e v.x V.x; have := e v.y V.y; have := e v.z V.z
    unfold l1 V3.sub at hv; unfold l1 at hV ⊢
    simp only at hv
    have := mul_le_mul_of_nonneg_right hu D0
    nlinarith
  have h3 : |a.dot v - a.dot V| ≤ 11 / 10 * (9 * F.u * D) := by
    have : a.dot v - a.dot V = a.dot (v.sub V) := by unfold V3.dot V3.sub; ring
    rw [this]
    exact (dot_le hx hy hz).trans (mul_le_mul_of_nonneg_left hv (by norm_num))
  have h4 : |a.dot V| ≤ 11 / 10 * D := (dot_le hx hy hz).trans (mul_le_mul_of_nonneg_left hV (by norm_num))
  have h5 : |(r + t) - (a.dot V + t)| ≤ 14 * F.u * D := by
    calc |(r + t) - (a.dot V + t)| = |(r - a.dot v) + (a.dot v - a.dot V)| := by ring_nf
      _ ≤ |r - a.dot v| + |a.dot v - a.dot V| := abs_add_le _ _
      _ ≤ 4 * F.u * (1009 / 1000 * D) + 11 / 10 * (9 * F.u * D) := by
        have := mul_le_mul_of_nonneg_left h2 (by positivity : 0 ≤ 4 * F.u); linarith
      _ ≤ _ := by nlinarith [mul_nonneg u0 D0]
  have h6 : |a.dot V + t| ≤ 11 / 10 * D + T := (abs_add_le _ _).trans (add_le_add h4 ht)
  refine (rnd_near F h5 h6).trans ?_
  nlinarith [mul_nonneg u0 D0, mul_le_mul_of_nonneg_right hu (mul_nonneg u0 D0)]

/-- One coordinate of the point in the frame of the camera. -/
theorem camera_coord (F : Fmt) (hu : F.u ≤ 1 / 1000) {a p t V q : V3 ℝ} {D T τ ρ r m w : ℝ} (hρ0 : 0 ≤ ρ) (hτ0 : 0 ≤ τ)
    (hx : |a.x| ≤ 11 / 10) (hy : |a.y| ≤ 11 / 10) (hz : |a.z| ≤ 11 / 10) (hV : l1 V ≤ D)
    (tx : |t.x| ≤ T) (ty : |t.y| ≤ T) (tz : |t.z| ≤ T)
    (qx : |q.x| ≤ 11 / 10 * D) (qy : |q.y| ≤ 11 / 10 * D) (qz : |q.z| ≤ 11 / 10 * D)
    (px : |p.x - (q.x + t.x)| ≤ 16 * F.u * D + F.u * T + τ) (py : |p.y - (q.y + t.y)| ≤ 16 * F.u * D + F.u * T + τ)
    (pz : |p.z - (q.z + t.z)| ≤ 16 * F.u * D + F.u * T + τ)
    (hw : |a.dot q - w| ≤ ρ * D) (hwD : |w| ≤ D) (hr : Dot3 F a p r) (hm : Dot3 F a.neg t m) :
    |F.rnd (r + m) - w| ≤ 70 * F.u * D + 29 * F.u * T + 4 * τ + 2 * ρ * D := by
  have u0 := F.u0
  have D0 : 0 ≤ D := (l1_nonneg V).trans hV
  have T0 : 0 ≤ T := (abs_nonneg _).trans tx
  set ε := 16 * F.u * D + F.u * T + τ with hε
  have ε0 : 0 ≤ ε := by positivity
  have uD := mul_nonneg u0 D0
  have uT := mul_nonneg u0 T0
  have uε : F.u * ε ≤ 1 / 1000 * ε := mul_le_mul_of_nonneg_right hu ε0
  have hp : l1 p ≤ 33 / 10 * D + 3 * T + 3 * ε := by
    have b : ∀ {x y s : ℝ}, |x - (y + s)| ≤ ε → |y| ≤ 11 / 10 * D → |s| ≤ T → |x| ≤ 11 / 10 * D + T + ε := by
      intro x y s h1 h2 h3
      exact sum_close h1 ((abs_add_le _ _).trans (add_le_add h2 h3))
    have := b px qx tx; have := b py qy ty; have := b pz qz tz
    unfold l1; linarith
  have h1 := row_near hu hr hx hy hz
  have h2 := row_near hu hm (by simpa [V3.neg] using hx) (by simpa [V3.neg] using hy) (by simpa [V3.neg] using hz)
  have ht : l1 t ≤ 3 * T := by unfold l1; linarith
  have h3 : |a.dot (p.sub (q.add t))| ≤ 11 / 10 * (3 * ε) := by
    refine (dot_le hx hy hz).trans (mul_le_mul_of_nonneg_left ?_ (by norm_num))
    unfold l1 V3.sub V3.add; simp only; linarith
  have e : (r + m) - w = (r - a.dot p) + (m - a.neg.dot t) + (a.dot (p.sub (q.add t)) + (a.dot q - w)) := by
    unfold V3.dot V3.sub V3.add V3.neg; ring
  have b1 := mul_le_mul_of_nonneg_left hp (by positivity : 0 ≤ 4 * F.u)
  have b2 := mul_le_mul_of_nonneg_left ht (by positivity : 0 ≤ 4 * F.u)
  have h4 : |(r + m) - w| ≤ 662 / 10 * F.u * D + 275 / 10 * F.u * T + 332 / 100 * τ + ρ * D := by
    rw [e]
    refine (abs_add_le _ _).trans ((add_le_add (abs_add_le _ _) (abs_add_le _ _)).trans ?_)
    nlinarith
  refine (rnd_near F h4 hwD).trans ?_
  have ρD := mul_nonneg hρ0 D0
  have g := mul_le_mul_of_nonneg_right hu (by positivity : 0 ≤ 662 / 10 * F.u * D + 275 / 10 * F.u * T + 332 / 100 * τ + ρ * D)
  nlinarith

/-- One coordinate of the projection, in units of the depth. -/
theorem project_unit (F : Fmt) (hu : F.u ≤ 1 / 1000) {f e k x X Z a z Δ : ℝ} (hf : 0 < f) (he : 0 ≤ e) (hΔ : Δ ≤ 1 / 100)
    (hX : |X - (x - k) / (f + e)| ≤ Δ) (hZ : |Z - 1| ≤ Δ)
    (ha : |a - (f * X + k * Z)| ≤ 41 / 10 * F.u * (|f * X| + |k * Z|)) (hz : |z - Z| ≤ 41 / 10 * F.u * |Z|) :
    0 < Z ∧ 0 < z ∧ |F.rnd (a / z) - x| ≤ 11 / 10 * ((|x| + |k|) * e / f) + (f + |x| + |k|) * (11 / 10 * Δ + 14 * F.u) := by
  have u0 := F.u0
  have Δ0 : 0 ≤ Δ := (abs_nonneg _).trans hZ
  have Z0 : 99 / 100 ≤ Z := by have := (abs_le.1 hZ).1; linarith
  have Z1 : Z ≤ 101 / 100 := by have := (abs_le.1 hZ).2; linarith
  have Zp : |Z| = Z := abs_of_pos (by linarith)
  have z1 : |z - 1| ≤ Δ + 42 / 10 * F.u := by
    have : |z - 1| ≤ |z - Z| + |Z - 1| := abs_sub_le _ _ _
    rw [Zp] at hz
    have := mul_le_mul_of_nonneg_left Z1 u0
    linarith
  have zl : 985 / 1000 ≤ z := by have := (abs_le.1 z1).1; linarith
  have z0 : 0 < z := by linarith
  refine ⟨by linarith, z0, ?_⟩
  set S := |x| + |k| with hS
  have x0 := abs_nonneg x
  have k0 := abs_nonneg k
  have S0 : 0 ≤ S := by positivity
  have hxk : |x - k| ≤ S := abs_sub _ _
  have hfe : 0 < f + e := by linarith
  -- f * ((x - k) / (f + e)) = (x - k) - (x - k) * (e / (f + e))
  have e1 : |f * ((x - k) / (f + e)) - (x - k)| ≤ S * e / f := by
    have : f * ((x - k) / (f + e)) - (x - k) = -((x - k) * e / (f + e)) := by field_simp; ring
    rw [this, abs_neg, abs_div, abs_mul, abs_of_nonneg he, abs_of_pos hfe]
    gcongr
    linarith
  have e2 : |(x - k) / (f + e)| ≤ S / f := by
    rw [abs_div, abs_of_pos hfe]; gcongr; linarith
  have bX : |X| ≤ S / f + Δ := sum_close hX e2
  have bfX : |f * X| ≤ S + f * (1 / 100) := by
    rw [abs_mul, abs_of_pos hf]
    calc f * |X| ≤ f * (S / f + Δ) := mul_le_mul_of_nonneg_left bX hf.le
      _ = S + f * Δ := by field_simp
      _ ≤ _ := by have := mul_le_mul_of_nonneg_left hΔ hf.le; linarith
  have bkZ : |k * Z| ≤ |k| * (101 / 100) := by rw [abs_mul, Zp]; gcongr
  have e3 : |f * X - f * ((x - k) / (f + e))| ≤ f * Δ := by
    rw [← mul_sub, abs_mul, abs_of_pos hf]; exact mul_le_mul_of_nonneg_left hX hf.le
  have e4 : |k * Z - k| ≤ |k| * Δ := by
    have : k * Z - k = k * (Z - 1) := by ring
    rw [this, abs_mul]; exact mul_le_mul_of_nonneg_left hZ k0
  have b3 := mul_le_mul_of_nonneg_left (add_le_add bfX bkZ) (by positivity : 0 ≤ 41 / 10 * F.u)
  have eu : |a - x| ≤ S * e / f + (f + |k|) * Δ + 41 / 10 * F.u * (S + f * (1 / 100) + |k| * (101 / 100)) := by
    have : a - x = (a - (f * X + k * Z)) + ((f * X - f * ((x - k) / (f + e))) + ((f * ((x - k) / (f + e)) - (x - k)) + (k * Z - k))) := by ring
    rw [this]
    refine (abs_add_le _ _).trans ?_
    have t1 := abs_add_le (f * X - f * ((x - k) / (f + e))) ((f * ((x - k) / (f + e)) - (x - k)) + (k * Z - k))
    have t2 := abs_add_le (f * ((x - k) / (f + e)) - (x - k)) (k * Z - k)
    linarith
  have num : |a - x * z| ≤ S * e / f + (f + S) * Δ + 125 / 10 * F.u * (f + S) := by
    have : a - x * z = (a - x) + -(x * (z - 1)) := by ring
    rw [this]
    refine (abs_add_le _ _).trans ?_
    rw [abs_neg, abs_mul]
    have t1 := mul_le_mul_of_nonneg_left z1 x0
    have := mul_nonneg u0 x0
    have := mul_nonneg u0 k0
    have := mul_nonneg u0 hf.le
    rw [hS] at eu ⊢
    linarith
  have M0 : 0 ≤ S * e / f + (f + S) * Δ + 125 / 10 * F.u * (f + S) := (abs_nonneg _).trans num
  set M := S * e / f + (f + S) * Δ + 125 / 10 * F.u * (f + S) with hM
  have q : |a / z - x| ≤ 1016 / 1000 * M := by
    have : a / z - x = (a - x * z) / z := by field_simp
    rw [this, abs_div, abs_of_pos z0, div_le_iff₀ z0]
    have := mul_le_mul_of_nonneg_left zl M0
    linarith
  have fin := rnd_near F q le_rfl
  refine fin.trans ?_
  have t1 := mul_le_mul_of_nonneg_right hu M0
  have t2 : F.u * |x| ≤ F.u * (f + S) := mul_le_mul_of_nonneg_left (by rw [hS]; linarith) u0
  have t3 : 0 ≤ S * e / f := by positivity
  have t4 : 0 ≤ (f + S) * Δ := by positivity
  have t5 : 0 ≤ F.u * (f + S) := by positivity
  have r : f + |x| + |k| = f + S := by rw [hS]; ring
  rw [r]
  linarith

end Verif.Flt
