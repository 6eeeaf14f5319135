import Verif.Flt.Project
/-! **C93**: the bounds in numbers, and a point that float32 loses. -/
namespace Verif.Flt
open Verif

/-! ### A VGA camera -/

/-- A typical depth camera: 640 × 480 pixels, focal length 525, principal point in the middle. -/
noncomputable def vga : M4 ℝ := ⟨⟨⟨525, 0, 639 / 2⟩, ⟨0, 525, 479 / 2⟩, ⟨0, 0, 1⟩⟩, V3.zero, V3.zero, 1⟩

theorem vga_cam : PinholeCam vga 525 525 (639 / 2) (479 / 2) := ⟨rfl, rfl, rfl, rfl, by norm_num, by norm_num⟩

theorem vga_steep {h w : Nat} (hh : h < 480) (hw : w < 640) : steep 525 525 (639 / 2) (479 / 2) w h ≤ 21 / 5 := by
  have h1 : (h : ℝ) ≤ 479 := by exact_mod_cast (by omega : h ≤ 479)
  have w1 : (w : ℝ) ≤ 639 := by exact_mod_cast (by omega : w ≤ 639)
  rw [steep, abs_of_nonneg (Nat.cast_nonneg (α := ℝ) w), abs_of_nonneg (Nat.cast_nonneg (α := ℝ) h), abs_of_pos (by norm_num : (0 : ℝ) < 639 / 2),
    abs_of_pos (by norm_num : (0 : ℝ) < 479 / 2)]
  linarith

theorem relErr_le {u ρ A T τ d u' ρ' A' T' τ' d' : ℝ} (u0 : 0 ≤ u) (ρ0 : 0 ≤ ρ) (A0 : 0 ≤ A) (T0 : 0 ≤ T) (τ0 : 0 ≤ τ) (d0 : 0 < d')
    (hu : u ≤ u') (hρ : ρ ≤ ρ') (hA : A ≤ A') (hT : T ≤ T') (hτ : τ ≤ τ') (hd : d' ≤ d) : relErr u ρ A T τ d ≤ relErr u' ρ' A' T' τ' d' := by
  unfold relErr
  have u0' := u0.trans hu
  have ρ0' := ρ0.trans hρ
  have A0' := A0.trans hA
  have T0' := T0.trans hT
  have τ0' := τ0.trans hτ
  gcongr

theorem pixErr_le {e f c x r X r' : ℝ} (e0 : 0 ≤ e) (f0 : 0 < f) (hx : |x| ≤ X) (hr : r ≤ r') (r0 : 0 ≤ r') :
    pixErr e f c x r ≤ 2 * ((X + |c|) * e / f) + (f + X + |c|) * r' := by
  unfold pixErr
  have X0 := (abs_nonneg x).trans hx
  have a1 : (|x| + |c|) * e / f ≤ (X + |c|) * e / f := by gcongr
  have a2 := mul_le_mul_of_nonneg_left hr (by positivity : 0 ≤ f + |x| + |c|)
  have a3 : (f + |x| + |c|) * r' ≤ (f + X + |c|) * r' := by gcongr
  linarith

theorem steep_nonneg {fx fy cx cy x y : ℝ} (h1 : 0 < fx) (h2 : 0 < fy) : 0 ≤ steep fx fy cx cy x y := by unfold steep; positivity

/-- **C93**, float64: with a VGA camera at most 100 units from the world origin, depths of at least 0.1, a rotation orthonormal up to `1e-8`
and map points that have moved by less than `1e-9`, every pixel of the image, the border included, finds its own point. -/
theorem vga_double {d ρ Tm τ : ℝ} {T : M4 ℝ} {v g p c : V3 ℝ} {q : ℝ × ℝ} {h w : Nat}
    (hd : 1 / 10 ≤ d) (hR : NearlyOrthogonal ρ T.R) (hρ : ρ ≤ 1 / 100000000) (hT : Within Tm T.t V3.zero) (hTm : Tm ≤ 100)
    (hτ : τ ≤ 1 / 1000000000) (hh : h < 480) (hw : w < 640)
    (hv : VertexF (bin 53 (by norm_num)) (1 / 1000000) vga ⟨w, h, 1⟩ d v) (hg : WorldF (bin 53 (by norm_num)) T v g) (hp : Within τ p g)
    (hc : CameraF (bin 53 (by norm_num)) T p c) (hq : ProjectF (bin 53 (by norm_num)) vga c q) :
    inFrameF (bin 53 (by norm_num)) 480 640 c q = true ∧ pixelF 480 640 q = (h, w) := by
  have d0 : 0 < d := by linarith
  have ρ0 : 0 ≤ ρ := (abs_nonneg _).trans hR.1.1
  have ub : (bin 53 (by norm_num)).u ≤ 1 / 1000000000000000 := by show ((1 : ℝ) / 2) ^ 53 ≤ _; norm_num
  have r := relErr_le (bin 53 (by norm_num)).u0 ρ0 (steep_nonneg (cx := 639 / 2) (cy := 479 / 2) (x := (w : ℝ)) (y := (h : ℝ)) (by norm_num : (0 : ℝ) < 525) (by norm_num : (0 : ℝ) < 525))
    (within_nonneg hT) (within_nonneg hp) (by norm_num : (0 : ℝ) < 1 / 10) ub hρ (vga_steep hh hw) hTm hτ hd
  have rn : relErr (1 / 1000000000000000) (1 / 100000000) (21 / 5) 100 (1 / 1000000000) (1 / 10) ≤ 1 / 4000000 := by unfold relErr; norm_num
  have r' := r.trans rn
  have h1 : |(h : ℝ)| ≤ 479 := by rw [abs_of_nonneg (Nat.cast_nonneg h)]; exact_mod_cast (by omega : h ≤ 479)
  have w1 : |(w : ℝ)| ≤ 639 := by rw [abs_of_nonneg (Nat.cast_nonneg w)]; exact_mod_cast (by omega : w ≤ 639)
  refine own_pixel_found (bin 53 (by norm_num)) vga_cam (by norm_num) d0 hR hT hh hw hv hg hp hc hq (r'.trans (by norm_num)) ?_ ?_
  · have := pixErr_le (c := 639 / 2) (by norm_num : (0 : ℝ) ≤ 1 / 1000000) (by norm_num : (0 : ℝ) < 525) w1 r' (by norm_num)
    rw [abs_of_pos (by norm_num : (0 : ℝ) < 639 / 2)] at this
    norm_num at this ub ⊢
    linarith
  · have := pixErr_le (c := 479 / 2) (by norm_num : (0 : ℝ) ≤ 1 / 1000000) (by norm_num : (0 : ℝ) < 525) h1 r' (by norm_num)
    rw [abs_of_pos (by norm_num : (0 : ℝ) < 479 / 2)] at this
    norm_num at this ub ⊢
    linarith

/-- **C93**, float32: with the same camera at most 10 units from the world origin, depths of at least 0.1, a rotation orthonormal up to
`1e-6` and map points that have moved by less than `1e-6`, every pixel that is not on the border finds its own point. -/
theorem vga_single {d ρ Tm τ : ℝ} {T : M4 ℝ} {v g p c : V3 ℝ} {q : ℝ × ℝ} {h w : Nat}
    (hd : 1 / 10 ≤ d) (hR : NearlyOrthogonal ρ T.R) (hρ : ρ ≤ 1 / 1000000) (hT : Within Tm T.t V3.zero) (hTm : Tm ≤ 10)
    (hτ : τ ≤ 1 / 1000000) (hh : 1 ≤ h ∧ h + 1 < 480) (hw : 1 ≤ w ∧ w + 1 < 640)
    (hv : VertexF f32Fmt (1 / 1000000) vga ⟨w, h, 1⟩ d v) (hg : WorldF f32Fmt T v g) (hp : Within τ p g)
    (hc : CameraF f32Fmt T p c) (hq : ProjectF f32Fmt vga c q) :
    inFrameF f32Fmt 480 640 c q = true ∧ pixelF 480 640 q = (h, w) := by
  have d0 : 0 < d := by linarith
  have ρ0 : 0 ≤ ρ := (abs_nonneg _).trans hR.1.1
  have ub : f32Fmt.u ≤ 1 / 16777216 := by show ((1 : ℝ) / 2) ^ 24 ≤ _; norm_num
  have r := relErr_le f32Fmt.u0 ρ0 (steep_nonneg (cx := 639 / 2) (cy := 479 / 2) (x := (w : ℝ)) (y := (h : ℝ)) (by norm_num : (0 : ℝ) < 525) (by norm_num : (0 : ℝ) < 525))
    (within_nonneg hT) (within_nonneg hp) (by norm_num : (0 : ℝ) < 1 / 10) ub hρ (vga_steep (by omega) (by omega)) hTm hτ hd
  have rn : relErr (1 / 16777216) (1 / 1000000) (21 / 5) 10 (1 / 1000000) (1 / 10) ≤ 327 / 1000000 := by unfold relErr; norm_num
  have r' := r.trans rn
  have h1 : |(h : ℝ)| ≤ 479 := by rw [abs_of_nonneg (Nat.cast_nonneg h)]; exact_mod_cast (by omega : h ≤ 479)
  have w1 : |(w : ℝ)| ≤ 639 := by rw [abs_of_nonneg (Nat.cast_nonneg w)]; exact_mod_cast (by omega : w ≤ 639)
  refine inner_pixel_found f32Fmt vga_cam (by norm_num) d0 hR hT hh hw hv hg hp hc hq (r'.trans (by norm_num)) ?_ ?_ ?_ ?_
  · have := pixErr_le (c := 639 / 2) (by norm_num : (0 : ℝ) ≤ 1 / 1000000) (by norm_num : (0 : ℝ) < 525) w1 r' (by norm_num)
    rw [abs_of_pos (by norm_num : (0 : ℝ) < 639 / 2)] at this
    norm_num at this ⊢
    linarith
  · have := pixErr_le (c := 479 / 2) (by norm_num : (0 : ℝ) ≤ 1 / 1000000) (by norm_num : (0 : ℝ) < 525) h1 r' (by norm_num)
    rw [abs_of_pos (by norm_num : (0 : ℝ) < 479 / 2)] at this
    norm_num at this ⊢
    linarith
  · norm_num at ub ⊢; linarith
  · norm_num at ub ⊢; linarith

/-- The hypotheses of `vga_double` and `vga_single` are met: the corner pixel in float64 and an inner pixel in float32, depth 2, pose shifted by
`(1, 2, 3)`. -/
theorem vga_case :
    (∃ v g c q, VertexF (bin 53 (by norm_num)) (1 / 1000000) vga ⟨(0 : ℕ), (479 : ℕ), 1⟩ 2 v ∧
      WorldF (bin 53 (by norm_num)) ⟨M3.one, ⟨1, 2, 3⟩, V3.zero, 1⟩ v g ∧ CameraF (bin 53 (by norm_num)) ⟨M3.one, ⟨1, 2, 3⟩, V3.zero, 1⟩ g c ∧
      ProjectF (bin 53 (by norm_num)) vga c q ∧ inFrameF (bin 53 (by norm_num)) 480 640 c q = true ∧ pixelF 480 640 q = (479, 0)) ∧
    (∃ v g c q, VertexF f32Fmt (1 / 1000000) vga ⟨(7 : ℕ), (401 : ℕ), 1⟩ 2 v ∧
      WorldF f32Fmt ⟨M3.one, ⟨1, 2, 3⟩, V3.zero, 1⟩ v g ∧ CameraF f32Fmt ⟨M3.one, ⟨1, 2, 3⟩, V3.zero, 1⟩ g c ∧
      ProjectF f32Fmt vga c q ∧ inFrameF f32Fmt 480 640 c q = true ∧ pixelF 480 640 q = (401, 7)) := by
  have o : NearlyOrthogonal 0 (M3.one : M3 ℝ) := by simp [NearlyOrthogonal, M3.one, M3.c0, M3.c1, M3.c2, V3.dot]
  have t : Within 3 (⟨1, 2, 3⟩ : V3 ℝ) V3.zero := by
    refine ⟨?_, ?_, ?_⟩ <;> simp only [V3.zero] <;> norm_num
  have w : ∀ p : V3 ℝ, Within 0 p p := fun p => by simp [Within]
  constructor
  · obtain ⟨v, g, c, q, h1, h2, h3, h4⟩ := steps_exist (bin 53 (by norm_num)) (1 / 1000000) vga ⟨M3.one, ⟨1, 2, 3⟩, V3.zero, 1⟩ ⟨(0 : ℕ), (479 : ℕ), 1⟩ 2
    exact ⟨v, g, c, q, h1, h2, h3, h4, vga_double (by norm_num) o (by norm_num) t (by norm_num) (by norm_num) (by norm_num) (by norm_num)
      h1 h2 (w g) h3 h4⟩
  · obtain ⟨v, g, c, q, h1, h2, h3, h4⟩ := steps_exist f32Fmt (1 / 1000000) vga ⟨M3.one, ⟨1, 2, 3⟩, V3.zero, 1⟩ ⟨(7 : ℕ), (401 : ℕ), 1⟩ 2
    exact ⟨v, g, c, q, h1, h2, h3, h4, vga_single (by norm_num) o (by norm_num) t (by norm_num) (by norm_num) (by norm_num) (by norm_num)
      h1 h2 (w g) h3 h4⟩

/-! ### A point lost in float32 -/

/-- Sums of the subsets of the products. -/
def subsetSums : List (ℝ × ℝ) → List ℝ
  | [] => [0]
  | p :: l => subsetSums l ++ (subsetSums l).map (p.1 * p.2 + ·)

theorem sumP_perm {l m : List (ℝ × ℝ)} (h : l.Perm m) : sumP l = sumP m := (h.map _).sum_eq

theorem sub_sums {l m : List (ℝ × ℝ)} (h : m.Sublist l) : sumP m ∈ subsetSums l := by
  induction h with
  | slnil => simp [sumP, subsetSums]
  | cons a h ih => exact List.mem_append_left _ ih
  | cons_cons a h ih =>
    refine List.mem_append_right _ (List.mem_map.2 ⟨_, ih, ?_⟩)
    simp [sumP]

/-- If every partial sum is a number of the format, all ways of evaluating give the exact sum. -/
theorem dots_all {F : Fmt} {l : List (ℝ × ℝ)} {y : ℝ} (h : Dots F l y) (hs : ∀ x ∈ subsetSums l, F.Has x) : y = sumP l := by
  have key : ∀ m : List (ℝ × ℝ), m.Subperm l → F.Has (sumP m) := by
    rintro m ⟨k, hk, hkl⟩
    rw [← sumP_perm hk]; exact hs _ (sub_sums hkl)
  clear hs
  induction h with
  | one a b => have k := key [(a, b)] (List.Subperm.refl _); simpa [sumP, Fmt.Has] using k
  | @fma a b l s h ih =>
    have e := ih fun m hm => key m (hm.trans (List.sublist_cons_self _ _).subperm)
    have : sumP ((a, b) :: l) = a * b + sumP l := by simp [sumP]
    rw [e, this]
    have k := key _ (List.Subperm.refl _)
    rwa [this] at k
  | @add l m s t h1 h2 ih1 ih2 =>
    have e1 := ih1 fun k hk => key k (hk.trans (List.sublist_append_left _ _).subperm)
    have e2 := ih2 fun k hk => key k (hk.trans (List.sublist_append_right _ _).subperm)
    have : sumP (l ++ m) = sumP l + sumP m := by simp [sumP]
    rw [e1, e2, this]
    have k := key _ (List.Subperm.refl _)
    rwa [this] at k
  | @perm l m s hp h ih =>
    rw [ih fun k hk => key k (hk.trans hp.subperm), sumP_perm hp]

theorem f32_at {x : ℝ} (k : ℤ) (m : ℕ) (h1 : (2 : ℝ) ^ k ≤ x) (h2 : x < (2 : ℝ) ^ (k + 1)) (h : |x / 2 ^ (k - 23) - m| < 1 / 2) :
    f32Fmt.rnd x = m * 2 ^ (k - 23) := by
  show rndBin 24 x = _
  have x0 : 0 < x := lt_of_lt_of_le (two_zpow_pos k) h1
  rw [rndBin_nonneg x0.le, pos_eq h1 h2]
  have e : k - (24 : ℕ) + 1 = k - 23 := by push_cast; ring
  rw [e, roundEven_near (k := (m : ℤ)) (by simpa using h)]
  simp

theorem f32_has {x : ℝ} (m : ℕ) (j : ℤ) (hm : m ≤ 2 ^ 24) (h : x = m * 2 ^ j) : f32Fmt.Has x := by
  rw [h]; exact (bin_has (p := 24) (by norm_num) hm j).1

theorem f32_has_neg {x : ℝ} (m : ℕ) (j : ℤ) (hm : m ≤ 2 ^ 24) (h : x = -(m * 2 ^ j)) : f32Fmt.Has x := by
  rw [h]; exact (bin_has (p := 24) (by norm_num) hm j).2

theorem has_of {F : Fmt} {x y : ℝ} (h : F.Has y) (e : x = y) : F.Has x := e ▸ h

theorem rnd_of {F : Fmt} {x y : ℝ} (h : F.Has y) (e : x = y) : F.rnd x = y := by rw [e]; exact h

theorem dot3_val {F : Fmt} {a b : V3 ℝ} {y p q r : ℝ} (h : Dot3 F a b y) (h1 : a.x * b.x = p) (h2 : a.y * b.y = q) (h3 : a.z * b.z = r)
    (hs : ∀ s ∈ [0, p, q, r, p + q, p + r, q + r, p + q + r], F.Has s) : y = p + q + r := by
  have := dots_all h ?_
  · rw [this]; simp [sumP, h1, h2, h3]; ring
  · intro x hx
    simp only [subsetSums, h1, h2, h3, List.map_cons, List.map_nil, List.cons_append, List.nil_append, List.mem_cons, List.not_mem_nil,
      or_false, add_zero] at hx
    apply hs
    simp only [List.mem_cons, List.not_mem_nil, or_false]
    rcases hx with h | h | h | h | h | h | h | h <;> simp [h, add_assoc]

theorem dot4_val {F : Fmt} {a b c d x y z w s p r : ℝ} (h : Dots F [(a, x), (b, y), (c, z), (d, w)] s)
    (h2 : b * y = 0) (h4 : d * w = 0) (h1 : a * x = p) (h3 : c * z = r)
    (hs : ∀ s ∈ [0, p, r, p + r], F.Has s) : s = p + r := by
  have := dots_all h ?_
  · rw [this]; simp [sumP, h1, h2, h3, h4]
  · intro x hx
    simp only [subsetSums, h1, h2, h3, h4, List.map_cons, List.map_nil, List.cons_append, List.nil_append, List.mem_cons, List.not_mem_nil,
      or_false, add_zero, zero_add] at hx
    apply hs
    simp only [List.mem_cons, List.not_mem_nil, or_false]
    tauto

/-- A camera with focal length 512 and principal point `(320 + 5/2048, 240)`, standing 128 units from the world origin. -/
noncomputable def lostK : M4 ℝ := ⟨⟨⟨512, 0, 655365 / 2048⟩, ⟨0, 512, 240⟩, ⟨0, 0, 1⟩⟩, V3.zero, V3.zero, 1⟩
noncomputable def lostT : M4 ℝ := ⟨M3.one, ⟨128, 0, 0⟩, V3.zero, 1⟩

theorem lost_cam : PinholeCam lostK 512 512 (655365 / 2048) 240 := ⟨rfl, rfl, rfl, rfl, by norm_num, by norm_num⟩

theorem lost_orth : NearlyOrthogonal 0 lostT.R := by
  simp [NearlyOrthogonal, lostT, M3.one, M3.c0, M3.c1, M3.c2, V3.dot]

theorem lost_within : Within 128 lostT.t V3.zero := by
  simp [Within, lostT, V3.zero]

/-- **C93**, what the tolerance does not cover: in float32, however the sums are evaluated, the point measured at the left edge of the image
(row 240, column 0) at depth 1 projects 1.46 thousandths of a pixel to the left of its own pixel, and is not found. -/
theorem left_edge_lost {v g c : V3 ℝ} {q : ℝ × ℝ}
    (hv : VertexF f32Fmt (1 / 1000000) lostK ⟨(0 : ℕ), (240 : ℕ), 1⟩ 1 v) (hg : WorldF f32Fmt lostT v g)
    (hc : CameraF f32Fmt lostT g c) (hq : ProjectF f32Fmt lostK c q) :
    q = (-3 / 2048, 240) ∧ inFrameF f32Fmt 480 640 c q = false := by
  have H0 : f32Fmt.Has 0 := f32Fmt.zero
  have H1 : f32Fmt.Has 1 := f32_has 1 0 (by norm_num) (by norm_num)
  have Hv : f32Fmt.Has (-655365 / 1048576) := f32_has_neg 655365 (-20) (by norm_num) (by norm_num)
  have Hy : f32Fmt.Has (15 / 32) := f32_has 15 (-5) (by norm_num) (by norm_num)
  have Hy' : f32Fmt.Has (-15 / 32) := f32_has_neg 15 (-5) (by norm_num) (by norm_num)
  have Hf : f32Fmt.rnd (512 + 1 / 1000000) = 512 := by
    rw [f32_at 9 8388608 (by norm_num) (by norm_num) (by norm_num [abs_lt])]; norm_num
  have Hi : f32Fmt.Has (1 / 512) := f32_has 1 (-9) (by norm_num) (by norm_num)
  have Hc : f32Fmt.Has (-655365 / 2048) := f32_has_neg 655365 (-11) (by norm_num) (by norm_num)
  have Hc' : f32Fmt.Has (655365 / 2048) := f32_has 655365 (-11) (by norm_num) (by norm_num)
  have Hd : f32Fmt.Has (-240) := f32_has_neg 240 0 (by norm_num) (by norm_num)
  have Hd' : f32Fmt.Has 240 := f32_has 240 0 (by norm_num) (by norm_num)
  have Hg : f32Fmt.rnd (-655365 / 1048576 + 128) = 16695295 / 131072 := by
    rw [f32_at 6 16695295 (by norm_num) (by norm_num) (by norm_num [abs_lt])]; norm_num
  have Hg' : f32Fmt.Has (16695295 / 131072) := f32_has 16695295 (-17) (by norm_num) (by norm_num)
  have Ht : f32Fmt.Has (-128) := f32_has_neg 128 0 (by norm_num) (by norm_num)
  have Hx : f32Fmt.Has (-81921 / 131072) := f32_has_neg 81921 (-17) (by norm_num) (by norm_num)
  have Ha : f32Fmt.Has (-81921 / 256) := f32_has_neg 81921 (-8) (by norm_num) (by norm_num)
  have Hq : f32Fmt.Has (-3 / 2048) := f32_has_neg 3 (-11) (by norm_num) (by norm_num)
  -- back-projection
  obtain ⟨r, ⟨h1, h2, h3⟩, rfl⟩ := hv
  have e1 : f32Fmt.rnd (-1 * (655365 / 2048)) = -655365 / 2048 := by rw [show (-1 * (655365 / 2048) : ℝ) = -655365 / 2048 by norm_num]; exact Hc
  have e2 : f32Fmt.rnd (-655365 / 2048 / 512) = -655365 / 1048576 := by rw [show (-655365 / 2048 / 512 : ℝ) = -655365 / 1048576 by norm_num]; exact Hv
  have e3 : f32Fmt.rnd (-1 * 240) = -240 := by rw [show (-1 * 240 : ℝ) = -240 by norm_num]; exact Hd
  have e4 : f32Fmt.rnd (-240 / 512) = -15 / 32 := by rw [show (-240 / 512 : ℝ) = -15 / 32 by norm_num]; exact Hy'
  have e5 : f32Fmt.rnd (1 / 512) = 1 / 512 := Hi
  simp only [inverseIntrinsicsF, lostK, Hf, e1, e2, e3, e4, e5] at h1 h2 h3
  have r1 := dot3_val (p := 0) (q := 0) (r := -655365 / 1048576) h1 (by simp) (by simp) (by norm_num)
    (by simp only [List.mem_cons, List.not_mem_nil, or_false]
        rintro s (rfl | rfl | rfl | rfl | rfl | rfl | rfl | rfl) <;> first | (refine has_of H0 ?_; norm_num; done) | (refine has_of Hv ?_; norm_num; done))
  have r2 := dot3_val (p := 0) (q := 15 / 32) (r := -15 / 32) h2 (by simp) (by norm_num) (by norm_num)
    (by simp only [List.mem_cons, List.not_mem_nil, or_false]
        rintro s (rfl | rfl | rfl | rfl | rfl | rfl | rfl | rfl) <;> first | (refine has_of H0 ?_; norm_num; done) | (refine has_of Hy ?_; norm_num; done) | (refine has_of Hy' ?_; norm_num; done))
  have r3 := dot3_val (p := 0) (q := 0) (r := 1) h3 (by simp) (by simp) (by norm_num)
    (by simp only [List.mem_cons, List.not_mem_nil, or_false]
        rintro s (rfl | rfl | rfl | rfl | rfl | rfl | rfl | rfl) <;> first | (refine has_of H0 ?_; norm_num; done) | (refine has_of H1 ?_; norm_num; done))
  have v1 : f32Fmt.rnd (r.x * 1) = -655365 / 1048576 := by rw [r1]; exact rnd_of Hv (by norm_num)
  have v2 : f32Fmt.rnd (r.y * 1) = 0 := by rw [r2, mul_one]; norm_num; exact H0
  have v3 : f32Fmt.rnd (r.z * 1) = 1 := by rw [r3, mul_one]; norm_num; exact H1
  rw [v1, v2, v3] at hg
  -- the world point
  obtain ⟨r', ⟨g1, g2, g3⟩, rfl⟩ := hg
  simp only [lostT, M3.one] at g1 g2 g3
  have s1 := dot3_val (p := -655365 / 1048576) (q := 0) (r := 0) g1 (by norm_num) (by simp) (by norm_num)
    (by simp only [List.mem_cons, List.not_mem_nil, or_false]
        rintro s (rfl | rfl | rfl | rfl | rfl | rfl | rfl | rfl) <;> first | (refine has_of H0 ?_; norm_num; done) | (refine has_of Hv ?_; norm_num; done))
  have s2 := dot3_val (p := 0) (q := 0) (r := 0) g2 (by norm_num) (by simp) (by norm_num)
    (by simp only [List.mem_cons, List.not_mem_nil, or_false]
        rintro s (rfl | rfl | rfl | rfl | rfl | rfl | rfl | rfl) <;> (refine has_of H0 ?_; norm_num; done))
  have s3 := dot3_val (p := 0) (q := 0) (r := 1) g3 (by norm_num) (by simp) (by norm_num)
    (by simp only [List.mem_cons, List.not_mem_nil, or_false]
        rintro s (rfl | rfl | rfl | rfl | rfl | rfl | rfl | rfl) <;> first | (refine has_of H0 ?_; norm_num; done) | (refine has_of H1 ?_; norm_num; done))
  have w1 : f32Fmt.rnd (r'.x + lostT.t.x) = 16695295 / 131072 := by
    rw [s1, ← Hg]; congr 1; simp only [lostT]; norm_num
  have w2 : f32Fmt.rnd (r'.y + lostT.t.y) = 0 := by rw [s2]; simp [lostT, f32Fmt.zero]
  have w3 : f32Fmt.rnd (r'.z + lostT.t.z) = 1 := by rw [s3]; simp [lostT]; exact H1
  rw [w1, w2, w3] at hc
  -- the point seen from the camera
  obtain ⟨rc, m, ⟨c1, c2, c3⟩, ⟨m1, m2, m3⟩, rfl⟩ := hc
  simp only [lostT, M3.one, M3.transpose, M3.c0, M3.c1, M3.c2, M3.neg, V3.neg] at c1 c2 c3 m1 m2 m3
  have k1 := dot3_val (p := 16695295 / 131072) (q := 0) (r := 0) c1 (by norm_num) (by simp) (by norm_num)
    (by simp only [List.mem_cons, List.not_mem_nil, or_false]
        rintro s (rfl | rfl | rfl | rfl | rfl | rfl | rfl | rfl) <;> first | (refine has_of H0 ?_; norm_num; done) | (refine has_of Hg' ?_; norm_num; done))
  have k2 := dot3_val (p := 0) (q := 0) (r := 0) c2 (by norm_num) (by simp) (by norm_num)
    (by simp only [List.mem_cons, List.not_mem_nil, or_false]
        rintro s (rfl | rfl | rfl | rfl | rfl | rfl | rfl | rfl) <;> (refine has_of H0 ?_; norm_num; done))
  have k3 := dot3_val (p := 0) (q := 0) (r := 1) c3 (by norm_num) (by simp) (by norm_num)
    (by simp only [List.mem_cons, List.not_mem_nil, or_false]
        rintro s (rfl | rfl | rfl | rfl | rfl | rfl | rfl | rfl) <;> first | (refine has_of H0 ?_; norm_num; done) | (refine has_of H1 ?_; norm_num; done))
  have l1 := dot3_val (p := -128) (q := 0) (r := 0) m1 (by norm_num) (by simp) (by norm_num)
    (by simp only [List.mem_cons, List.not_mem_nil, or_false]
        rintro s (rfl | rfl | rfl | rfl | rfl | rfl | rfl | rfl) <;> first | (refine has_of H0 ?_; norm_num; done) | (refine has_of Ht ?_; norm_num; done))
  have l2 := dot3_val (p := 0) (q := 0) (r := 0) m2 (by norm_num) (by simp) (by norm_num)
    (by simp only [List.mem_cons, List.not_mem_nil, or_false]
        rintro s (rfl | rfl | rfl | rfl | rfl | rfl | rfl | rfl) <;> (refine has_of H0 ?_; norm_num; done))
  have l3 := dot3_val (p := 0) (q := 0) (r := 0) m3 (by norm_num) (by simp) (by norm_num)
    (by simp only [List.mem_cons, List.not_mem_nil, or_false]
        rintro s (rfl | rfl | rfl | rfl | rfl | rfl | rfl | rfl) <;> (refine has_of H0 ?_; norm_num; done))
  have x1 : f32Fmt.rnd (rc.x + m.x) = -81921 / 131072 := by rw [k1, l1]; exact rnd_of Hx (by norm_num)
  have x2 : f32Fmt.rnd (rc.y + m.y) = 0 := by rw [k2, l2]; norm_num; exact H0
  have x3 : f32Fmt.rnd (rc.z + m.z) = 1 := by rw [k3, l3]; norm_num; exact H1
  rw [x1, x2, x3] at hq ⊢
  -- the projection
  obtain ⟨a, b, z, ha, hb, hz, rfl⟩ := hq
  simp only [lostK, V3.zero] at ha hb hz
  have A1 := dot4_val (p := -81921 / 256) (r := 655365 / 2048) ha (by simp) (by simp) (by norm_num) (by norm_num)
    (by simp only [List.mem_cons, List.not_mem_nil, or_false]
        rintro s (rfl | rfl | rfl | rfl) <;> first | (refine has_of H0 ?_; norm_num; done) | (refine has_of Ha ?_; norm_num; done) | (refine has_of Hc' ?_; norm_num; done) | (refine has_of Hq ?_; norm_num; done))
  have B1 := dot4_val (p := 0) (r := 240) hb (by simp) (by simp) (by norm_num) (by norm_num)
    (by simp only [List.mem_cons, List.not_mem_nil, or_false]
        rintro s (rfl | rfl | rfl | rfl) <;> first | (refine has_of H0 ?_; norm_num; done) | (refine has_of Hd' ?_; norm_num; done))
  have Z1 := dot4_val (p := 0) (r := 1) hz (by simp) (by simp) (by norm_num) (by norm_num)
    (by simp only [List.mem_cons, List.not_mem_nil, or_false]
        rintro s (rfl | rfl | rfl | rfl) <;> first | (refine has_of H0 ?_; norm_num; done) | (refine has_of H1 ?_; norm_num; done))
  have gz : Geom.guardZ z = 1 := by rw [Z1, Geom.guardZ]; norm_num
  have q1 : f32Fmt.rnd (a / Geom.guardZ z) = -3 / 2048 := by rw [gz, A1]; exact rnd_of Hq (by norm_num)
  have q2 : f32Fmt.rnd (b / Geom.guardZ z) = 240 := by rw [gz, B1]; norm_num; exact Hd'
  rw [q1, q2]
  refine ⟨rfl, ?_⟩
  rw [Bool.eq_false_iff]
  intro h
  simp only [inFrameF, Bool.and_eq_true, decide_eq_true_eq] at h
  have lo := h.1.1.1.1
  have er := f32Fmt.err (-1 / 1000)
  rw [show |(-1 / 1000 : ℝ)| = 1 / 1000 by norm_num [abs_of_neg]] at er
  have := (abs_le.1 er).1
  have ub : f32Fmt.u ≤ 1 / 16777216 := by show ((1 : ℝ) / 2) ^ 24 ≤ _; norm_num
  linarith

/-- Without rounding the same point is found at its own pixel: the hypotheses of `own_pixel_found` are met there (and the point is lost to
rounding alone). -/
theorem left_edge_exact {v g c : V3 ℝ} {q : ℝ × ℝ}
    (hv : VertexF exact (1 / 1000000) lostK ⟨(0 : ℕ), (240 : ℕ), 1⟩ 1 v) (hg : WorldF exact lostT v g)
    (hc : CameraF exact lostT g c) (hq : ProjectF exact lostK c q) :
    inFrameF exact 480 640 c q = true ∧ pixelF 480 640 q = (240, 0) := by
  have r : relErr exact.u 0 (steep 512 512 (655365 / 2048) 240 ((0 : ℕ) : ℝ) ((240 : ℕ) : ℝ)) 128 0 1 = 0 := by simp [relErr, exact]
  refine own_pixel_found exact lost_cam (by norm_num) one_pos lost_orth lost_within (by norm_num) (by norm_num) hv hg
    (τ := 0) (by simp [Within]) hc hq (by rw [r]; norm_num) ?_ ?_
  · rw [r, pixErr]; simp [exact]; norm_num [abs_of_pos]
  · rw [r, pixErr]; simp [exact]; norm_num [abs_of_pos]

end Verif.Flt
