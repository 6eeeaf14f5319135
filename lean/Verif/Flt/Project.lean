import Verif.Flt.ProjBounds
import Verif.Flt.Drift
/-!
**C93**: in floating point, a point measured at a pixel is found again at that pixel.  The bound holds for every format and every way of
adding up the products; it says how far from the camera, how close to the world origin and how accurate a rotation is good enough.  The
tolerance of a thousandth of a pixel around the image is what keeps the outermost pixels; in float32 it is not always enough.
-/
namespace Verif.Flt
open Verif

/-- A pinhole camera: focal lengths `fx`, `fy`, principal point `(cx, cy)`. -/
structure PinholeCam (K : M4 ℝ) (fx fy cx cy : ℝ) : Prop where
  r0 : K.R.r0 = ⟨fx, 0, cx⟩
  r1 : K.R.r1 = ⟨0, fy, cy⟩
  r2 : K.R.r2 = ⟨0, 0, 1⟩
  t : K.t = V3.zero
  fx0 : 0 < fx
  fy0 : 0 < fy

/-- `p` is `g` up to `τ` in each coordinate. -/
def Within (τ : ℝ) (p g : V3 ℝ) : Prop := |p.x - g.x| ≤ τ ∧ |p.y - g.y| ≤ τ ∧ |p.z - g.z| ≤ τ

/-- How steep the ray through a pixel can be: `1 + (|x| + |cx|) / fx + (|y| + |cy|) / fy`. -/
noncomputable def steep (fx fy cx cy x y : ℝ) : ℝ := 1 + (|x| + |cx|) / fx + (|y| + |cy|) / fy

/-- Relative error of the point: `u` unit roundoff, `ρ` defect of the rotation, `T` distance from the world origin, `τ` how far the map
point has moved, `d` depth. -/
noncomputable def relErr (u ρ A T τ d : ℝ) : ℝ := (100 * u + 3 * ρ) * A + (40 * u * T + 5 * τ) / d

/-- Error in pixels along one axis. -/
noncomputable def pixErr (e f c x r : ℝ) : ℝ := 2 * ((|x| + |c|) * e / f) + (f + |x| + |c|) * r

theorem within_nonneg {τ : ℝ} {p g : V3 ℝ} (h : Within τ p g) : 0 ≤ τ := (abs_nonneg _).trans h.1

theorem scale_abs {a b m d : ℝ} (hd : 0 < d) (h : |a - b| ≤ m) : |a / d - b / d| ≤ m / d := by
  rw [← sub_div, abs_div, abs_of_pos hd]; gcongr

/-- **C93**, the bound: the point measured at pixel `(x, y)` with depth `d` under the pose `T`, stored in a map (where it may have moved
by `τ`), transformed back and projected in any floating-point format, in front of the camera and within `pixErr` of its own pixel. -/
theorem reprojection_error (F : Fmt) {e fx fy cx cy x y d ρ Tm τ : ℝ} {K T : M4 ℝ} {v g p c : V3 ℝ} {q : ℝ × ℝ}
    (hK : PinholeCam K fx fy cx cy) (he : 0 ≤ e) (hd : 0 < d) (hR : NearlyOrthogonal ρ T.R)
    (hT : Within Tm T.t V3.zero)
    (hv : VertexF F e K ⟨x, y, 1⟩ d v) (hg : WorldF F T v g) (hp : Within τ p g) (hc : CameraF F T p c) (hq : ProjectF F K c q)
    (small : relErr F.u ρ (steep fx fy cx cy x y) Tm τ d ≤ 1 / 100) :
    0 < c.z ∧ |q.1 - x| ≤ pixErr e fx cx x (relErr F.u ρ (steep fx fy cx cy x y) Tm τ d) ∧
      |q.2 - y| ≤ pixErr e fy cy y (relErr F.u ρ (steep fx fy cx cy x y) Tm τ d) := by
  have u0 := F.u0
  have τ0 := within_nonneg hp
  have T0 := within_nonneg hT
  have ρ0 : 0 ≤ ρ := (abs_nonneg _).trans hR.1.1
  have fx0 := hK.fx0
  have fy0 := hK.fy0
  set A := steep fx fy cx cy x y with hA
  have A1 : 1 ≤ A := by
    have : 0 ≤ (|x| + |cx|) / fx := by positivity
    have : 0 ≤ (|y| + |cy|) / fy := by positivity
    rw [hA, steep]; linarith
  have sm := small
  unfold relErr at sm
  have tail0 : 0 ≤ (40 * F.u * Tm + 5 * τ) / d := by positivity
  have head : 100 * F.u + 3 * ρ ≤ 1 / 100 := by
    have := le_mul_of_one_le_right (by positivity : 0 ≤ 100 * F.u + 3 * ρ) A1
    linarith
  have hu : F.u ≤ 1 / 1000 := by linarith
  have hρ : ρ ≤ 1 / 100 := by linarith
  have r0x : K.R.r0.x = fx := by rw [hK.r0]
  have r0z : K.R.r0.z = cx := by rw [hK.r0]
  have r1y : K.R.r1.y = fy := by rw [hK.r1]
  have r1z : K.R.r1.z = cy := by rw [hK.r1]
  have hv' := vertex_near F hu hd hv rfl (by rw [r0x]; linarith) (by rw [r1y]; linarith)
  rw [r0x, r0z, r1y, r1z] at hv'
  simp only at hv'
  obtain ⟨v1, v2, v3⟩ := hv'
  -- the exact vertex
  set V : V3 ℝ := ⟨d * ((x - cx) / (fx + e)), d * ((y - cy) / (fy + e)), d⟩ with hV
  have q1 : (|x| + |cx|) / (fx + e) ≤ (|x| + |cx|) / fx := by gcongr; linarith
  have q2 : (|y| + |cy|) / (fy + e) ≤ (|y| + |cy|) / fy := by gcongr; linarith
  have A0 : 0 ≤ d * A := by positivity
  have Dx : d * ((|x| + |cx|) / (fx + e)) + d * ((|y| + |cy|) / (fy + e)) + d ≤ d * A := by
    have : d * A = d * ((|x| + |cx|) / fx) + d * ((|y| + |cy|) / fy) + d := by rw [hA, steep]; ring
    rw [this]
    gcongr
  have hVl : l1 V ≤ d * A := by
    refine le_trans ?_ Dx
    have a1 : |V.x| ≤ d * ((|x| + |cx|) / (fx + e)) := by
      rw [hV]; simp only
      rw [abs_mul, abs_of_pos hd, abs_div, abs_of_pos (by linarith : 0 < fx + e)]
      gcongr; exact abs_sub _ _
    have a2 : |V.y| ≤ d * ((|y| + |cy|) / (fy + e)) := by
      rw [hV]; simp only
      rw [abs_mul, abs_of_pos hd, abs_div, abs_of_pos (by linarith : 0 < fy + e)]
      gcongr; exact abs_sub _ _
    have a3 : |V.z| = d := abs_of_pos hd
    unfold l1; linarith
  have hvV : l1 (v.sub V) ≤ 9 * F.u * (d * A) := by
    have := mul_le_mul_of_nonneg_left Dx (by positivity : 0 ≤ 9 * F.u)
    unfold l1 V3.sub
    simp only [hV]
    linarith
  -- entries of the rotation
  obtain ⟨b0x, b0y, b0z⟩ := col_le hR.1.1 hρ
  obtain ⟨b1x, b1y, b1z⟩ := col_le hR.1.2.1 hρ
  obtain ⟨b2x, b2y, b2z⟩ := col_le hR.1.2.2 hρ
  simp only [M3.c0, M3.c1, M3.c2] at b0x b0y b0z b1x b1y b1z b2x b2y b2z
  obtain ⟨tx, ty, tz⟩ := hT
  simp only [V3.zero, sub_zero] at tx ty tz
  -- the world point
  obtain ⟨r, ⟨g1, g2, g3⟩, rfl⟩ := hg
  have w1 := world_coord F hu b0x b1x b2x hVl hvV tx g1
  have w2 := world_coord F hu b0y b1y b2y hVl hvV ty g2
  have w3 := world_coord F hu b0z b1z b2z hVl hvV tz g3
  have pw : ∀ {p g w : ℝ}, |p - g| ≤ τ → |g - w| ≤ 16 * F.u * (d * A) + F.u * Tm → |p - w| ≤ 16 * F.u * (d * A) + F.u * Tm + τ := by
    intro p g w h1 h2
    have := abs_sub_le p g w
    linarith
  have p1 := pw hp.1 w1
  have p2 := pw hp.2.1 w2
  have p3 := pw hp.2.2 w3
  -- back to the camera
  obtain ⟨rc, m, ⟨c1, c2, c3⟩, ⟨m1, m2, m3⟩, rfl⟩ := hc
  have qx : |(T.R.mulVec V).x| ≤ 11 / 10 * (d * A) := (dot_le b0x b1x b2x).trans (by linarith)
  have qy : |(T.R.mulVec V).y| ≤ 11 / 10 * (d * A) := (dot_le b0y b1y b2y).trans (by linarith)
  have qz : |(T.R.mulVec V).z| ≤ 11 / 10 * (d * A) := (dot_le b0z b1z b2z).trans (by linarith)
  obtain ⟨⟨o0, o1, o2⟩, o3, o4, o5⟩ := hR
  have orth : ∀ {a b c s : ℝ}, |a| ≤ ρ → |b| ≤ ρ → |c| ≤ ρ → s = a * V.x + b * V.y + c * V.z → |s| ≤ ρ * (d * A) := by
    intro a b c s h1 h2 h3 hs
    have := dot_le (a := ⟨a, b, c⟩) (b := V) h1 h2 h3
    rw [hs]
    exact this.trans (mul_le_mul_of_nonneg_left hVl ρ0)
  have k0 : |T.R.c0.dot (T.R.mulVec V) - V.x| ≤ ρ * (d * A) :=
    orth o0 o3 o4 (by simp only [M3.c0, M3.c1, M3.c2, M3.mulVec, V3.dot]; ring)
  have k1 : |T.R.c1.dot (T.R.mulVec V) - V.y| ≤ ρ * (d * A) :=
    orth o3 o1 o5 (by simp only [M3.c0, M3.c1, M3.c2, M3.mulVec, V3.dot]; ring)
  have k2 : |T.R.c2.dot (T.R.mulVec V) - V.z| ≤ ρ * (d * A) :=
    orth o4 o5 o2 (by simp only [M3.c0, M3.c1, M3.c2, M3.mulVec, V3.dot]; ring)
  have Vx : |V.x| ≤ d * A := le_trans (by unfold l1; linarith [abs_nonneg V.y, abs_nonneg V.z]) hVl
  have Vy : |V.y| ≤ d * A := le_trans (by unfold l1; linarith [abs_nonneg V.x, abs_nonneg V.z]) hVl
  have Vz : |V.z| ≤ d * A := le_trans (by unfold l1; linarith [abs_nonneg V.y, abs_nonneg V.x]) hVl
  have C1 := camera_coord F hu (a := T.R.c0) (q := T.R.mulVec V) ρ0 τ0 b0x b0y b0z hVl tx ty tz qx qy qz p1 p2 p3 k0 Vx c1 m1
  have C2 := camera_coord F hu (a := T.R.c1) (q := T.R.mulVec V) ρ0 τ0 b1x b1y b1z hVl tx ty tz qx qy qz p1 p2 p3 k1 Vy c2 m2
  have C3 := camera_coord F hu (a := T.R.c2) (q := T.R.mulVec V) ρ0 τ0 b2x b2y b2z hVl tx ty tz qx qy qz p1 p2 p3 k2 Vz c3 m3
  set c : V3 ℝ := ⟨F.rnd (rc.x + m.x), F.rnd (rc.y + m.y), F.rnd (rc.z + m.z)⟩ with hc
  -- in units of the depth
  set Δ := 70 * F.u * A + 29 * (F.u * Tm / d) + 4 * (τ / d) + 2 * ρ * A with hΔ
  have tails : (40 * F.u * Tm + 5 * τ) / d = 40 * (F.u * Tm / d) + 5 * (τ / d) := by ring
  have y1 : 0 ≤ F.u * Tm / d := by positivity
  have y2 : 0 ≤ τ / d := by positivity
  have y3 : 0 ≤ F.u * A := by positivity
  have y4 : 0 ≤ ρ * A := by positivity
  have y5 : F.u ≤ F.u * A := le_mul_of_one_le_right u0 A1
  have Δd : (70 * F.u * (d * A) + 29 * F.u * Tm + 4 * τ + 2 * ρ * (d * A)) / d = Δ := by rw [hΔ]; field_simp
  have rel : 11 / 10 * Δ + 14 * F.u ≤ relErr F.u ρ A Tm τ d := by
    rw [relErr, tails, hΔ]; linarith
  have hΔ1 : Δ ≤ 1 / 100 := by linarith
  have D1 : |c.x / d - (x - cx) / (fx + e)| ≤ Δ := by
    have := scale_abs hd C1
    rw [Δd] at this
    have e1 : V.x / d = (x - cx) / (fx + e) := by rw [hV]; simp only; field_simp
    rwa [e1] at this
  have D2 : |c.y / d - (y - cy) / (fy + e)| ≤ Δ := by
    have := scale_abs hd C2
    rw [Δd] at this
    have e1 : V.y / d = (y - cy) / (fy + e) := by rw [hV]; simp only; field_simp
    rwa [e1] at this
  have D3 : |c.z / d - 1| ≤ Δ := by
    have := scale_abs hd C3
    rw [Δd] at this
    have e1 : V.z / d = 1 := by rw [hV]; simp only; field_simp
    rwa [e1] at this
  -- the projection
  obtain ⟨a, b, z, ha, hb, hz, rfl⟩ := hq
  rw [hK.r0, hK.t] at ha
  rw [hK.r1, hK.t] at hb
  rw [hK.r2, hK.t] at hz
  have ha' := dot4_near hu ha
  have hb' := dot4_near hu hb
  have hz' := dot4_near hu hz
  simp only [V3.zero, zero_mul, one_mul, add_zero, zero_add, abs_zero] at ha' hb' hz'
  have scl : ∀ {s f X k Z : ℝ}, |s - (f * X + k * Z)| ≤ 41 / 10 * F.u * (|f * X| + |k * Z|) →
      |s / d - (f * (X / d) + k * (Z / d))| ≤ 41 / 10 * F.u * (|f * (X / d)| + |k * (Z / d)|) := by
    intro s f X k Z h
    have h1 := scale_abs hd h
    have e1 : (f * X + k * Z) / d = f * (X / d) + k * (Z / d) := by ring
    have e2 : 41 / 10 * F.u * (|f * X| + |k * Z|) / d = 41 / 10 * F.u * (|f * (X / d)| + |k * (Z / d)|) := by
      rw [← mul_div_assoc, ← mul_div_assoc, abs_div, abs_div, abs_of_pos hd]; ring
    rw [e1, e2] at h1; exact h1
  have sz : |z / d - c.z / d| ≤ 41 / 10 * F.u * |c.z / d| := by
    have h1 := scale_abs hd hz'
    rw [abs_div, abs_of_pos hd, ← mul_div_assoc]; exact h1
  have P1 := project_unit F hu fx0 he hΔ1 D1 D3 (scl ha') sz
  have P2 := project_unit F hu fy0 he hΔ1 D2 D3 (scl hb') sz
  have cz : 0 < c.z := by
    have := P1.1
    rcases (div_pos_iff).1 this with h | h
    · exact h.1
    · linarith [h.2]
  have z0 : 0 < z := by
    rcases (div_pos_iff).1 P1.2.1 with h | h
    · exact h.1
    · linarith [h.2]
  have gz : Geom.guardZ z = z := if_pos z0.ne'
  have dv : ∀ s : ℝ, s / d / (z / d) = s / z := by intro s; field_simp
  have fin : ∀ {f k x q : ℝ}, 0 < f → |q - x| ≤ 11 / 10 * ((|x| + |k|) * e / f) + (f + |x| + |k|) * (11 / 10 * Δ + 14 * F.u) →
      |q - x| ≤ pixErr e f k x (relErr F.u ρ A Tm τ d) := by
    intro f k x q hf h
    refine h.trans ?_
    unfold pixErr
    have : 0 ≤ (|x| + |k|) * e / f := by positivity
    have := mul_le_mul_of_nonneg_left rel (by positivity : 0 ≤ f + |x| + |k|)
    linarith
  have Q1 := P1.2.2
  have Q2 := P2.2.2
  rw [dv] at Q1 Q2
  simp only [gz]
  exact ⟨cz, fin fx0 Q1, fin fy0 Q2⟩

theorem clamp_nat {n k : Nat} (h : k < n) : Fusion.clampIdx n (k : ℤ) = k := by
  unfold Fusion.clampIdx
  omega

/-- A projection within half a pixel of pixel `(h, w)` is assigned to that pixel. -/
theorem pixel_of_near {H W h w : Nat} {q : ℝ × ℝ} (hh : h < H) (hw : w < W) (h1 : |q.1 - w| < 1 / 2) (h2 : |q.2 - h| < 1 / 2) :
    pixelF H W q = (h, w) := by
  unfold pixelF
  rw [roundEven_near (y := q.1) (k := (w : ℤ)) (by simpa using h1), roundEven_near (y := q.2) (k := (h : ℤ)) (by simpa using h2), clamp_nat hh, clamp_nat hw]

theorem in_range (F : Fmt) {n k : Nat} {x E : ℝ} (hk : k < n) (h : |x - k| ≤ E) (hE : E + F.u * n < 1 / 1000) :
    x > F.rnd (-1 / 1000) ∧ x < F.rnd ((n : ℝ) - 999 / 1000) := by
  have u0 := F.u0
  have k1 : (k : ℝ) + 1 ≤ n := by exact_mod_cast hk
  have k0 : (0 : ℝ) ≤ k := Nat.cast_nonneg k
  have e1 := F.err (-1 / 1000)
  have e2 := F.err ((n : ℝ) - 999 / 1000)
  rw [show |(-1 / 1000 : ℝ)| = 1 / 1000 by norm_num [abs_of_neg]] at e1
  rw [abs_of_pos (by linarith : (0 : ℝ) < (n : ℝ) - 999 / 1000)] at e2
  have a1 := (abs_le.1 e1).2
  have a2 := (abs_le.1 e2).1
  have b1 := (abs_le.1 h).1
  have b2 := (abs_le.1 h).2
  have un : F.u ≤ F.u * n := le_mul_of_one_le_right u0 (by linarith)
  constructor
  · have : F.u * (1 / 1000) ≤ F.u * n := by nlinarith
    linarith
  · have : F.u * ((n : ℝ) - 999 / 1000) ≤ F.u * n := by nlinarith
    linarith

theorem in_range_inside (F : Fmt) {n k : Nat} {x E : ℝ} (hk : k + 1 < n) (hk1 : 1 ≤ k) (h : |x - k| ≤ E) (hE : E < 1 / 2) (hn : F.u * n ≤ 1 / 4) :
    x > F.rnd (-1 / 1000) ∧ x < F.rnd ((n : ℝ) - 999 / 1000) := by
  have u0 := F.u0
  have k1 : (k : ℝ) + 2 ≤ n := by exact_mod_cast hk
  have k0 : (1 : ℝ) ≤ k := by exact_mod_cast hk1
  have e1 := F.err (-1 / 1000)
  have e2 := F.err ((n : ℝ) - 999 / 1000)
  rw [show |(-1 / 1000 : ℝ)| = 1 / 1000 by norm_num [abs_of_neg]] at e1
  rw [abs_of_pos (by linarith : (0 : ℝ) < (n : ℝ) - 999 / 1000)] at e2
  have a1 := (abs_le.1 e1).2
  have a2 := (abs_le.1 e2).1
  have b1 := (abs_le.1 h).1
  have b2 := (abs_le.1 h).2
  have u1 := F.u1
  constructor
  · nlinarith
  · have : F.u * ((n : ℝ) - 999 / 1000) ≤ F.u * n := by nlinarith
    linarith

/-- **C93**, all pixels: if the error bound (plus the rounding of the limits) is below the tolerance of a thousandth of a pixel, the
point is found, at its own pixel, wherever the pixel lies in the image. -/
theorem own_pixel_found (F : Fmt) {e fx fy cx cy d ρ Tm τ : ℝ} {K T : M4 ℝ} {v g p c : V3 ℝ} {q : ℝ × ℝ} {H W h w : Nat}
    (hK : PinholeCam K fx fy cx cy) (he : 0 ≤ e) (hd : 0 < d) (hR : NearlyOrthogonal ρ T.R) (hT : Within Tm T.t V3.zero)
    (hh : h < H) (hw : w < W)
    (hv : VertexF F e K ⟨w, h, 1⟩ d v) (hg : WorldF F T v g) (hp : Within τ p g) (hc : CameraF F T p c) (hq : ProjectF F K c q)
    (small : relErr F.u ρ (steep fx fy cx cy w h) Tm τ d ≤ 1 / 100)
    (bx : pixErr e fx cx w (relErr F.u ρ (steep fx fy cx cy w h) Tm τ d) + F.u * W < 1 / 1000)
    (by' : pixErr e fy cy h (relErr F.u ρ (steep fx fy cx cy w h) Tm τ d) + F.u * H < 1 / 1000) :
    inFrameF F H W c q = true ∧ pixelF H W q = (h, w) := by
  obtain ⟨c0, q1, q2⟩ := reprojection_error F hK he hd hR hT hv hg hp hc hq small
  have u0 := F.u0
  have n1 : 0 ≤ F.u * W := by positivity
  have n2 : 0 ≤ F.u * H := by positivity
  refine ⟨?_, pixel_of_near hh hw (by linarith) (by linarith)⟩
  obtain ⟨i1, i2⟩ := in_range F hw q1 bx
  obtain ⟨i3, i4⟩ := in_range F hh q2 by'
  simp only [inFrameF, Bool.and_eq_true, decide_eq_true_eq]
  exact ⟨⟨⟨⟨i1, i2⟩, i3⟩, i4⟩, c0⟩

/-- **C93**, inner pixels: away from the border of the image an error below half a pixel is harmless. -/
theorem inner_pixel_found (F : Fmt) {e fx fy cx cy d ρ Tm τ : ℝ} {K T : M4 ℝ} {v g p c : V3 ℝ} {q : ℝ × ℝ} {H W h w : Nat}
    (hK : PinholeCam K fx fy cx cy) (he : 0 ≤ e) (hd : 0 < d) (hR : NearlyOrthogonal ρ T.R) (hT : Within Tm T.t V3.zero)
    (hh : 1 ≤ h ∧ h + 1 < H) (hw : 1 ≤ w ∧ w + 1 < W)
    (hv : VertexF F e K ⟨w, h, 1⟩ d v) (hg : WorldF F T v g) (hp : Within τ p g) (hc : CameraF F T p c) (hq : ProjectF F K c q)
    (small : relErr F.u ρ (steep fx fy cx cy w h) Tm τ d ≤ 1 / 100)
    (bx : pixErr e fx cx w (relErr F.u ρ (steep fx fy cx cy w h) Tm τ d) < 1 / 2)
    (by' : pixErr e fy cy h (relErr F.u ρ (steep fx fy cx cy w h) Tm τ d) < 1 / 2)
    (hW : F.u * W ≤ 1 / 4) (hH : F.u * H ≤ 1 / 4) :
    inFrameF F H W c q = true ∧ pixelF H W q = (h, w) := by
  obtain ⟨c0, q1, q2⟩ := reprojection_error F hK he hd hR hT hv hg hp hc hq small
  refine ⟨?_, pixel_of_near (by omega) (by omega) (by linarith) (by linarith)⟩
  obtain ⟨i1, i2⟩ := in_range_inside F hw.2 hw.1 q1 bx hW
  obtain ⟨i3, i4⟩ := in_range_inside F hh.2 hh.1 q2 by' hH
  simp only [inFrameF, Bool.and_eq_true, decide_eq_true_eq]
  exact ⟨⟨⟨⟨i1, i2⟩, i3⟩, i4⟩, c0⟩

end Verif.Flt
