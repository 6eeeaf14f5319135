import Verif.Rgbd.Props
import Mathlib.Analysis.SpecialFunctions.Log.Base
/-!
C76: `RGBDImages.plotly` and the helpers `numpy_to_plotly_image`, `img_to_b64str` of structutils.py, up to the arrays given to `cv2.imencode`.

`ndarray.astype("uint8")` is a parameter `cast` of which only its values on [0, 256) are assumed (`IsCast`).  Not modelled: JPEG encoding, the figure
(buttons, sliders, subplots) built around the frames, rounding of floating-point numbers.
-/
namespace Verif.Rgbd
open Verif

/-! ### Model -/

inductive ShowErr
  | indexError | runtimeError | cvError | overflowError | valueError
  deriving DecidableEq, Repr

/-- A `uint8` array of rank 3. -/
structure Pic where
  rows : Nat
  cols : Nat
  chans : Nat
  at' : Nat → Nat → Nat → Int

/-- A `uint8` array of rank 2, shown with a scale. -/
structure Grey where
  rows : Nat
  cols : Nat
  at' : Nat → Nat → Int
  scale : ℝ

/-- One of the returned frames: `{"name": i, "data": [rgb, depth]}` or `{"name": i, "data": [rgb]}`. -/
structure Shown where
  name : Nat
  rgb : Pic
  depth : Option Grey

/-- `tensor.max()` of the entries of a tensor with at least one entry. -/
noncomputable def maxOf : List ℝ → ℝ
  | [] => 0
  | [x] => x
  | x :: y :: l => max x (maxOf (y :: l))

/-- All entries of `t[b]`. -/
def entries5 (t : T5 ℝ) (b : Nat) : List ℝ :=
  (List.range t.sh.d1).flatMap fun l => (List.range t.sh.d2).flatMap fun i => (List.range t.sh.d3).flatMap fun j =>
    (List.range t.sh.d4).map fun k => t.at' b l i j k

/-- All entries of `t[b, ..., 0]`. -/
def entries4 (t : T5 ℝ) (b : Nat) : List ℝ :=
  (List.range t.sh.d1).flatMap fun l => (List.range t.sh.d2).flatMap fun i => (List.range t.sh.d3).map fun j => t.at' b l i j 0

/-- The colour array of frame `l`, rgbdimages.py:812-816. -/
noncomputable def colorPic (cast : ℝ → Int) (t : T5 ℝ) (b l : Nat) : Pic :=
  ⟨t.sh.d2, t.sh.d3, t.sh.d4, fun i j k =>
    cast (min (max (if maxOf (entries5 t b) < 11 / 10 then t.at' b l i j k * 255 else t.at' b l i j k) 0) 255)⟩

/-- `cv2.cvtColor(img, cv2.COLOR_RGB2BGR)`, structutils.py:173: three or four channels, of which three remain in reverse order. -/
def toBgr (p : Pic) : Except ShowErr Pic :=
  if p.chans = 3 ∨ p.chans = 4 then .ok ⟨p.rows, p.cols, 3, fun i j k => p.at' i j (2 - k)⟩ else .error .cvError

/-- `10 ** torch.log10(255.0 / max).floor().item()`, rgbdimages.py:823. -/
noncomputable def depthScale (m : ℝ) : ℝ := (10 : ℝ) ^ ⌊Real.logb 10 (255 / m)⌋

/-- The depth array of frame `l`, rgbdimages.py:822-824. -/
noncomputable def depthPic (cast : ℝ → Int) (t : T5 ℝ) (b l : Nat) : Grey :=
  ⟨t.sh.d2, t.sh.d3, fun i j => cast (t.at' b l i j 0 * depthScale (maxOf (entries4 t b))), depthScale (maxOf (entries4 t b))⟩

/-- `[numpy_to_plotly_image(rgb, i) for ...]`, rgbdimages.py:817, structutils.py:127-178: the array goes through `cvtColor`. -/
noncomputable def colorPics (cast : ℝ → Int) (t : T5 ℝ) (b : Nat) : Nat → Except ShowErr (List Pic)
  | 0 => .ok []
  | l + 1 => match colorPics cast t b l with
    | .error e => .error e
    | .ok ps => match toBgr (colorPic cast t b l) with
      | .error e => .error e
      | .ok p => .ok (ps ++ [p])

/-- `plotly(index, include_depth, as_figure=False)`, rgbdimages.py:764-835.  `max()` of an empty tensor is a RuntimeError.  A largest depth 0 makes the scale
infinite, a negative one NaN; `int(scale)` in `numpy_to_plotly_image` (structutils.py:149) then is an OverflowError or a ValueError. -/
noncomputable def showFrames (cast : ℝ → Int) (index : Int) (withDepth : Bool) (s : Obj ℝ) : Except ShowErr (List Shown) :=
  match resolveInt s.rgb.sh.d0 index with
  | .error _ => .error .indexError
  | .ok b =>
    if entries5 s.rgb b = [] then .error .runtimeError
    else match colorPics cast s.rgb b s.rgb.sh.d1 with
      | .error e => .error e
      | .ok ps =>
        if !withDepth then .ok (ps.zipIdx.map fun q => ⟨q.2, q.1, none⟩)
        else if entries4 s.depth b = [] then .error .runtimeError
        else if maxOf (entries4 s.depth b) = 0 then .error .overflowError
        else if maxOf (entries4 s.depth b) < 0 then .error .valueError
        else .ok (ps.zipIdx.map fun q => ⟨q.2, q.1, some (depthPic cast s.depth b q.2)⟩)

/-! ### Specification -/

/-- What is assumed of `astype("uint8")`: numbers it can represent are rounded towards zero. -/
def IsCast (cast : ℝ → Int) : Prop := ∀ x, 0 ≤ x → x < 256 → cast x = ⌊x⌋

/-- The colour an encoder that takes channels as blue, green, red gives to a pixel. -/
def Pic.color (p : Pic) (h w : Nat) : V3 Int := ⟨p.at' h w 2, p.at' h w 1, p.at' h w 0⟩

/-- Pixels of sequence `b`. -/
def Inside (i : In ℝ) (l h w : Nat) : Prop := l < i.L ∧ h < i.H ∧ w < i.W

/-- All colour values of a sequence have a property. -/
def AllColors (i : In ℝ) (b : Nat) (p : ℝ → Prop) : Prop :=
  ∀ l h w, Inside i l h w → p (i.rgb b l h w).x ∧ p (i.rgb b l h w).y ∧ p (i.rgb b l h w).z

/-- A picture shows frame `l` of sequence `b`: same size, all values are bytes; if the sequence's colours are in [0, 1] they are shown times 255, if
they are in [0, 255] and not all below 1.1 they are shown as they are (rounded down). -/
structure ShowsColor (i : In ℝ) (b l : Nat) (p : Pic) : Prop where
  size : p.rows = i.H ∧ p.cols = i.W ∧ p.chans = 3
  bytes : ∀ h w, (0 ≤ (p.color h w).x ∧ (p.color h w).x ≤ 255) ∧ (0 ≤ (p.color h w).y ∧ (p.color h w).y ≤ 255) ∧
    (0 ≤ (p.color h w).z ∧ (p.color h w).z ≤ 255)
  unit : AllColors i b (fun x => 0 ≤ x ∧ x ≤ 1) → ∀ h w, h < i.H → w < i.W →
    p.color h w = ⟨⌊(i.rgb b l h w).x * 255⌋, ⌊(i.rgb b l h w).y * 255⌋, ⌊(i.rgb b l h w).z * 255⌋⟩
  byte : AllColors i b (fun x => 0 ≤ x ∧ x ≤ 255) → ¬ AllColors i b (fun x => x < 11 / 10) → ∀ h w, h < i.H → w < i.W →
    p.color h w = ⟨⌊(i.rgb b l h w).x⌋, ⌊(i.rgb b l h w).y⌋, ⌊(i.rgb b l h w).z⌋⟩

/-- A picture shows the depth of frame `l` in units of `1 / unit`, rounded down to a byte. -/
structure ShowsDepth (i : In ℝ) (b l : Nat) (unit : ℝ) (g : Grey) : Prop where
  size : g.rows = i.H ∧ g.cols = i.W
  scale : g.scale = unit
  bytes : ∀ h w, h < i.H → w < i.W → 0 ≤ i.depth b l h w →
    0 ≤ g.at' h w ∧ g.at' h w ≤ 255 ∧ (g.at' h w : ℝ) / unit ≤ i.depth b l h w ∧ i.depth b l h w < ((g.at' h w : ℝ) + 1) / unit

/-- The depths of sequence `b`. -/
def depths (i : In ℝ) (b : Nat) : Set ℝ := {d | ∃ l h w, Inside i l h w ∧ d = i.depth b l h w}

/-! ### Proofs -/

theorem maxOf_greatest : ∀ {l : List ℝ}, l ≠ [] → IsGreatest {x | x ∈ l} (maxOf l)
  | [], h => absurd rfl h
  | [x], _ => ⟨by simp [maxOf], fun y hy => by simp at hy; simp [maxOf, hy]⟩
  | x :: y :: l, _ => by
    have ih := maxOf_greatest (l := y :: l) (by simp)
    refine ⟨?_, fun z hz => ?_⟩
    · show max x (maxOf (y :: l)) ∈ x :: y :: l
      rcases max_choice x (maxOf (y :: l)) with h | h
      · rw [h]; exact List.mem_cons_self
      · rw [h]; exact List.mem_cons_of_mem _ ih.1
    · show z ≤ max x (maxOf (y :: l))
      rcases List.mem_cons.1 hz with rfl | hz
      · exact le_max_left _ _
      · exact (ih.2 hz).trans (le_max_right _ _)

theorem mem_entries5 {t : T5 ℝ} {b : Nat} {x : ℝ} :
    x ∈ entries5 t b ↔ ∃ l i j k, l < t.sh.d1 ∧ i < t.sh.d2 ∧ j < t.sh.d3 ∧ k < t.sh.d4 ∧ x = t.at' b l i j k := by
  simp only [entries5, List.mem_flatMap, List.mem_map, List.mem_range]
  constructor
  · rintro ⟨l, hl, i, hi, j, hj, k, hk, rfl⟩; exact ⟨l, i, j, k, hl, hi, hj, hk, rfl⟩
  · rintro ⟨l, i, j, k, hl, hi, hj, hk, rfl⟩; exact ⟨l, hl, i, hi, j, hj, k, hk, rfl⟩

theorem mem_entries4 {t : T5 ℝ} {b : Nat} {x : ℝ} :
    x ∈ entries4 t b ↔ ∃ l i j, l < t.sh.d1 ∧ i < t.sh.d2 ∧ j < t.sh.d3 ∧ x = t.at' b l i j 0 := by
  simp only [entries4, List.mem_flatMap, List.mem_map, List.mem_range]
  constructor
  · rintro ⟨l, hl, i, hi, j, hj, rfl⟩; exact ⟨l, i, j, hl, hi, hj, rfl⟩
  · rintro ⟨l, i, j, hl, hi, hj, rfl⟩; exact ⟨l, hl, i, hi, j, hj, rfl⟩

/-- The scale is the power of ten that brings the largest depth into (25.5, 255]. -/
theorem depthScale_spec {m : ℝ} (hm : 0 < m) : ∃ n : ℤ, depthScale m = 10 ^ n ∧ 25.5 < m * 10 ^ n ∧ m * 10 ^ n ≤ 255 := by
  refine ⟨_, rfl, ?_, ?_⟩
  · have h := Int.lt_floor_add_one (Real.logb 10 (255 / m))
    have h2 := (Real.logb_lt_iff_lt_rpow (b := 10) (by norm_num) (by positivity)).1 h
    rw [show ((⌊Real.logb 10 (255 / m)⌋ : ℝ) + 1) = ((⌊Real.logb 10 (255 / m)⌋ + 1 : ℤ) : ℝ) by push_cast; rfl, Real.rpow_intCast,
      zpow_add_one₀ (by norm_num), div_lt_iff₀ hm] at h2
    linarith
  · have h := Int.floor_le (Real.logb 10 (255 / m))
    have h2 := (Real.le_logb_iff_rpow_le (b := 10) (by norm_num) (by positivity)).1 h
    rw [Real.rpow_intCast, le_div_iff₀ hm] at h2
    linarith

/-- There is only one such power. -/
theorem scale_unique {m : ℝ} {n n' : ℤ} (hm : 0 < m) (h1 : 25.5 < m * (10 : ℝ) ^ n) (h2 : m * (10 : ℝ) ^ n ≤ 255) (h1' : 25.5 < m * (10 : ℝ) ^ n')
    (h2' : m * (10 : ℝ) ^ n' ≤ 255) : n = n' := by
  have key : ∀ {a b : ℤ}, 25.5 < m * (10 : ℝ) ^ b → m * (10 : ℝ) ^ a ≤ 255 → a < b + 1 := by
    intro a b hb ha
    have : (10 : ℝ) ^ a < (10 : ℝ) ^ (b + 1) := by
      rw [zpow_add_one₀ (by norm_num)]
      by_contra hc
      have := mul_le_mul_of_nonneg_left (not_lt.1 hc) hm.le
      nlinarith
    exact (zpow_lt_zpow_iff_right₀ (by norm_num)).1 this
  have := key h1' h2
  have := key h1 h2'
  omega

theorem colorPics_ok {cast : ℝ → Int} {t : T5 ℝ} {b : Nat} (h : t.sh.d4 = 3) : ∀ n, ∃ ps, colorPics cast t b n = .ok ps ∧ ps.length = n ∧
    ∀ l, l < n → ps[l]? = some ⟨t.sh.d2, t.sh.d3, 3, fun i j k => (colorPic cast t b l).at' i j (2 - k)⟩
  | 0 => ⟨[], rfl, rfl, fun l hl => by omega⟩
  | n + 1 => by
    obtain ⟨ps, h1, h2, h3⟩ := colorPics_ok (cast := cast) (b := b) h n
    have hb : toBgr (colorPic cast t b n) = .ok ⟨t.sh.d2, t.sh.d3, 3, fun i j k => (colorPic cast t b n).at' i j (2 - k)⟩ := by
      have h' : (colorPic cast t b n).chans = 3 := h
      rw [toBgr, if_pos (Or.inl h')]
      rfl
    refine ⟨ps ++ [_], by rw [colorPics, h1]; simp only; rw [hb], by simp [h2], fun l hl => ?_⟩
    rcases Nat.lt_succ_iff_lt_or_eq.1 hl with h | rfl
    · rw [List.getElem?_append_left (by omega)]; exact h3 l h
    · rw [List.getElem?_append_right (by omega), h2]; simp

theorem colorPics_error {cast : ℝ → Int} {t : T5 ℝ} {b : Nat} (h : t.sh.d4 ≠ 3 ∧ t.sh.d4 ≠ 4) : ∀ n, 0 < n → colorPics cast t b n = .error .cvError
  | 0, h0 => absurd h0 (by omega)
  | n + 1, _ => by
    have hb : toBgr (colorPic cast t b n) = .error .cvError := by
      rw [toBgr, if_neg]
      exact fun hh => hh.elim h.1 h.2
    rcases Nat.eq_zero_or_pos n with rfl | hn
    · rw [colorPics, colorPics]; simp only; rw [hb]
    · rw [colorPics, colorPics_error h n hn]

theorem px3_comp {β : Type*} (t : T5 β) (b l h w : Nat) :
    (px3 false t b l h w).x = t.at' b l h w 0 ∧ (px3 false t b l h w).y = t.at' b l h w 1 ∧ (px3 false t b l h w).z = t.at' b l h w 2 :=
  ⟨rfl, rfl, rfl⟩

section
variable {nrm : V3 ℝ → ℝ} {eps : ℝ}

theorem all_entries {s : Obj ℝ} {i : In ℝ} (r : Rep nrm eps s i) (hl : s.cf = false) (b : Nat) (p : ℝ → Prop) :
    (∀ x ∈ entries5 s.rgb b, p x) ↔ AllColors i b p := by
  have hsh := r.rgbSh
  have hv := r.rgb
  rw [hl] at hsh hv
  constructor
  · rintro h l hh w ⟨h1, h2, h3⟩
    rw [← hv]
    have hk : ∀ k < 3, p (s.rgb.at' b l hh w k) := fun k hk =>
      h _ (mem_entries5.2 ⟨l, hh, w, k, by rw [hsh]; exact h1, by rw [hsh]; exact h2, by rw [hsh]; exact h3, by rw [hsh]; exact hk, rfl⟩)
    exact ⟨hk 0 (by omega), hk 1 (by omega), hk 2 (by omega)⟩
  · intro h x hx
    obtain ⟨l, hh, w, k, h1, h2, h3, h4, rfl⟩ := mem_entries5.1 hx
    rw [hsh] at h1 h2 h3 h4
    have := h l hh w ⟨h1, h2, h3⟩
    rw [← hv] at this
    change k < 3 at h4
    obtain rfl | rfl | rfl : k = 0 ∨ k = 1 ∨ k = 2 := by omega
    · exact this.1
    · exact this.2.1
    · exact this.2.2

theorem cast_range {cast : ℝ → Int} (hc : IsCast cast) (x : ℝ) : 0 ≤ cast (min (max x 0) 255) ∧ cast (min (max x 0) 255) ≤ 255 := by
  have h0 : 0 ≤ min (max x 0) 255 := le_min (le_max_right _ _) (by norm_num)
  have h1 : min (max x 0) 255 ≤ 255 := min_le_right _ _
  rw [hc _ h0 (by linarith)]
  refine ⟨Int.floor_nonneg.2 h0, ?_⟩
  have := (Int.floor_le (min (max x 0) 255)).trans h1
  exact_mod_cast this

theorem cast_id {cast : ℝ → Int} (hc : IsCast cast) {x : ℝ} (h0 : 0 ≤ x) (h1 : x ≤ 255) : cast (min (max x 0) 255) = ⌊x⌋ := by
  rw [max_eq_left h0, min_eq_left h1, hc _ h0 (by linarith)]

theorem shows_color {cast : ℝ → Int} (hc : IsCast cast) {s : Obj ℝ} {i : In ℝ} (r : Rep nrm eps s i) (hl : s.cf = false) (b l : Nat) (hL : l < i.L)
    (hne : entries5 s.rgb b ≠ []) :
    ShowsColor i b l ⟨s.rgb.sh.d2, s.rgb.sh.d3, 3, fun h w k => (colorPic cast s.rgb b l).at' h w (2 - k)⟩ := by
  have hsh := r.rgbSh
  have hv := r.rgb
  rw [hl] at hsh hv
  have hg := maxOf_greatest hne
  refine ⟨⟨by rw [hsh]; rfl, by rw [hsh]; rfl, rfl⟩, fun h w => ⟨cast_range hc _, cast_range hc _, cast_range hc _⟩, fun h1 h w hh hw => ?_,
    fun h1 h2 h w hh hw => ?_⟩
  · have hm : maxOf (entries5 s.rgb b) < 11 / 10 := lt_of_le_of_lt ((all_entries r hl b _).2 h1 _ hg.1).2 (by norm_num)
    have hp := h1 l h w ⟨hL, hh, hw⟩
    rw [← hv] at hp ⊢
    obtain ⟨⟨a0, a1⟩, ⟨b0, b1⟩, ⟨c0, c1⟩⟩ := hp
    simp only [Pic.color, colorPic, if_pos hm]
    refine V3.ext ?_ ?_ ?_
    · exact cast_id hc (mul_nonneg a0 (by norm_num)) ((mul_le_mul_of_nonneg_right a1 (by norm_num)).trans (by norm_num))
    · exact cast_id hc (mul_nonneg b0 (by norm_num)) ((mul_le_mul_of_nonneg_right b1 (by norm_num)).trans (by norm_num))
    · exact cast_id hc (mul_nonneg c0 (by norm_num)) ((mul_le_mul_of_nonneg_right c1 (by norm_num)).trans (by norm_num))
  · have hm : ¬ maxOf (entries5 s.rgb b) < 11 / 10 := by
      intro hm
      exact h2 ((all_entries r hl b _).1 fun x hx => lt_of_le_of_lt (hg.2 hx) hm)
    have hp := h1 l h w ⟨hL, hh, hw⟩
    rw [← hv] at hp ⊢
    obtain ⟨⟨a0, a1⟩, ⟨b0, b1⟩, ⟨c0, c1⟩⟩ := hp
    simp only [Pic.color, colorPic, if_neg hm]
    exact V3.ext (cast_id hc a0 a1) (cast_id hc b0 b1) (cast_id hc c0 c1)

theorem depth_entries {s : Obj ℝ} {i : In ℝ} (r : Rep nrm eps s i) (hl : s.cf = false) (b : Nat) : {x | x ∈ entries4 s.depth b} = depths i b := by
  have hsh := r.depthSh
  have hv := r.depth
  rw [hl] at hsh hv
  ext x
  simp only [Set.mem_setOf_eq, mem_entries4, depths]
  constructor
  · rintro ⟨l, h, w, h1, h2, h3, rfl⟩
    rw [hsh] at h1 h2 h3
    exact ⟨l, h, w, ⟨h1, h2, h3⟩, hv b l h w⟩
  · rintro ⟨l, h, w, ⟨h1, h2, h3⟩, rfl⟩
    exact ⟨l, h, w, by rw [hsh]; exact h1, by rw [hsh]; exact h2, by rw [hsh]; exact h3, (hv b l h w).symm⟩

theorem shows_depth {cast : ℝ → Int} (hc : IsCast cast) {s : Obj ℝ} {i : In ℝ} (r : Rep nrm eps s i) (hl : s.cf = false) (b l : Nat) (hL : l < i.L)
    {M : ℝ} (hM : IsGreatest (depths i b) M) (h0 : 0 < M) (he : maxOf (entries4 s.depth b) = M) :
    ShowsDepth i b l (depthScale M) (depthPic cast s.depth b l) := by
  have hsh := r.depthSh
  have hv := r.depth
  rw [hl] at hsh hv
  obtain ⟨n, hn, hn1, hn2⟩ := depthScale_spec h0
  have hs : 0 < depthScale M := by rw [hn]; positivity
  refine ⟨⟨by rw [depthPic, hsh]; rfl, by rw [depthPic, hsh]; rfl⟩, by rw [depthPic, he], fun h w hh hw hd => ?_⟩
  have hle : i.depth b l h w ≤ M := hM.2 ⟨l, h, w, ⟨hL, hh, hw⟩, rfl⟩
  have e : (depthPic cast s.depth b l).at' h w = ⌊i.depth b l h w * depthScale M⌋ := by
    show cast (s.depth.at' b l h w 0 * depthScale (maxOf (entries4 s.depth b))) = _
    have : s.depth.at' b l h w 0 = i.depth b l h w := hv b l h w
    rw [he, this]
    refine hc _ (by positivity) ?_
    rw [← hn] at hn2
    have := mul_le_mul_of_nonneg_right hle hs.le
    linarith
  rw [e]
  have hf := Int.floor_le (i.depth b l h w * depthScale M)
  have hf2 := Int.lt_floor_add_one (i.depth b l h w * depthScale M)
  refine ⟨Int.floor_nonneg.2 (by positivity), ?_, ?_, ?_⟩
  · have h3 := mul_le_mul_of_nonneg_right hle hs.le
    rw [← hn] at hn2
    have : (⌊i.depth b l h w * depthScale M⌋ : ℝ) ≤ 255 := by linarith
    exact_mod_cast this
  · rw [div_le_iff₀ hs]; exact hf
  · rw [lt_div_iff₀ hs]; exact hf2

/-- **C76**.  Showing a sequence of a channels-last object, for every object in every history and every index.  The index is that of a Python sequence
(IndexError otherwise).  For a sequence with pixels the frames are numbered in order and each shows the colours of its frame, and if asked for the depth
in units of a power of ten, the same for all frames, chosen such that the largest depth becomes a number above 25.5 and at most 255.  A sequence
without depth measurements is an OverflowError. -/
theorem show_spec {cast : ℝ → Int} (hc : IsCast cast) {s : Obj ℝ} {i : In ℝ} {k : Bool} (hist : Hist nrm eps s i k) (hl : s.cf = false) (index : Int)
    (wd : Bool) :
    (∀ e, resolveInt i.B index = .error e → showFrames cast index wd s = .error .indexError) ∧
    ∀ b, resolveInt i.B index = .ok b →
      ((i.L = 0 ∨ i.H = 0 ∨ i.W = 0) → showFrames cast index wd s = .error .runtimeError) ∧
      (0 < i.L → 0 < i.H → 0 < i.W → ∃ M, IsGreatest (depths i b) M ∧
        (wd = true → M = 0 → showFrames cast index wd s = .error .overflowError) ∧
        (wd = true → M < 0 → showFrames cast index wd s = .error .valueError) ∧
        (wd = false ∨ 0 < M → ∃ fs, showFrames cast index wd s = .ok fs ∧ fs.length = i.L ∧
          ∀ l, l < i.L → ∃ f, fs[l]? = some f ∧ f.name = l ∧ ShowsColor i b l f.rgb ∧
            (wd = false → f.depth = none) ∧
            (wd = true → ∃ g, ∃ n : ℤ, f.depth = some g ∧ 25.5 < M * 10 ^ n ∧ M * 10 ^ n ≤ 255 ∧ ShowsDepth i b l (10 ^ n) g))) := by
  have r := (hist_rep hist).1
  have hsh := r.rgbSh
  have hdsh := r.depthSh
  rw [hl] at hsh hdsh
  have hB : s.rgb.sh.d0 = i.B := by rw [hsh]; rfl
  refine ⟨fun e he => by unfold showFrames; rw [hB, he], fun b hb => ⟨fun hz => ?_, fun hL hH hW => ?_⟩⟩
  · have he : entries5 s.rgb b = [] := by
      rw [List.eq_nil_iff_forall_not_mem]
      intro x hx
      obtain ⟨l, h, w, k, h1, h2, h3, _⟩ := mem_entries5.1 hx
      rw [hsh] at h1 h2 h3
      change l < i.L at h1
      change h < i.H at h2
      change w < i.W at h3
      omega
    unfold showFrames
    rw [hB, hb]
    simp only
    rw [if_pos he]
  have he : entries5 s.rgb b ≠ [] := List.ne_nil_of_mem (mem_entries5.2 ⟨0, 0, 0, 0, by rw [hsh]; exact hL, by rw [hsh]; exact hH, by rw [hsh]; exact hW,
    by rw [hsh]; exact Nat.zero_lt_succ 2, rfl⟩)
  have hd : entries4 s.depth b ≠ [] := List.ne_nil_of_mem (mem_entries4.2 ⟨0, 0, 0, by rw [hdsh]; exact hL, by rw [hdsh]; exact hH, by rw [hdsh]; exact hW, rfl⟩)
  have hg := maxOf_greatest hd
  rw [depth_entries r hl b] at hg
  obtain ⟨ps, hp, hlen, hpl⟩ := colorPics_ok (cast := cast) (t := s.rgb) (b := b) (by rw [hsh]; rfl) s.rgb.sh.d1
  have hd1 : s.rgb.sh.d1 = i.L := by rw [hsh]; rfl
  rw [hd1] at hlen hpl hp
  have hps : ∀ l, l < i.L → ∃ p, ps[l]? = some p ∧ ShowsColor i b l p := fun l hl' => ⟨_, hpl l hl', shows_color hc r hl b l hl' he⟩
  have start : showFrames cast index wd s = if !wd then .ok (ps.zipIdx.map fun q => ⟨q.2, q.1, none⟩)
        else if maxOf (entries4 s.depth b) = 0 then .error .overflowError
        else if maxOf (entries4 s.depth b) < 0 then .error .valueError
        else .ok (ps.zipIdx.map fun q => ⟨q.2, q.1, some (depthPic cast s.depth b q.2)⟩) := by
    unfold showFrames
    rw [hB, hb]
    simp only
    rw [if_neg he, hd1, hp]
    simp only
    rw [if_neg hd]
  refine ⟨_, hg, fun h1 h2 => ?_, fun h1 h2 => ?_, fun h1 => ?_⟩
  · rw [start, h1, if_neg (by decide), if_pos h2]
  · rw [start, h1, if_neg (by decide), if_neg h2.ne, if_pos h2]
  · cases hw : wd with
    | false =>
      rw [hw] at start
      refine ⟨_, start, by simp [hlen], fun l hl' => ?_⟩
      obtain ⟨p, h2, h3⟩ := hps l hl'
      exact ⟨⟨l, p, none⟩, by simp [List.getElem?_zipIdx, h2], rfl, h3, fun _ => rfl, fun h => by cases h⟩
    | true =>
      have h0 : 0 < maxOf (entries4 s.depth b) := h1.resolve_left (by rw [hw]; decide)
      rw [hw, if_neg (by decide), if_neg h0.ne', if_neg h0.le.not_gt] at start
      refine ⟨_, start, by simp [hlen], fun l hl' => ?_⟩
      obtain ⟨p, h2, h3⟩ := hps l hl'
      obtain ⟨n, hn, hn1, hn2⟩ := depthScale_spec h0
      refine ⟨⟨l, p, some (depthPic cast s.depth b l)⟩, by simp [List.getElem?_zipIdx, h2], rfl, h3, fun h => (by cases h), fun _ => ⟨_, n, rfl, hn1, hn2, ?_⟩⟩
      rw [← hn]
      exact shows_depth hc r hl b l hl' hg h0 rfl

/-- **C76** (channels first).  A channels-first object cannot be shown unless its images are three or four pixels wide: its columns are taken for colour
channels. -/
theorem show_channels_first {cast : ℝ → Int} {s : Obj ℝ} {i : In ℝ} {k : Bool} (hist : Hist nrm eps s i k) (hf : s.cf = true) (hL : 0 < i.L) (hH : 0 < i.H)
    (hW : 0 < i.W) (h3 : i.W ≠ 3) (h4 : i.W ≠ 4) (index : Int) (wd : Bool) :
    ∃ e, showFrames cast index wd s = .error e := by
  have r := (hist_rep hist).1
  have hsh := r.rgbSh
  rw [hf] at hsh
  unfold showFrames
  cases hb : resolveInt s.rgb.sh.d0 index with
  | error e => exact ⟨_, rfl⟩
  | ok b =>
    have he : entries5 s.rgb b ≠ [] := List.ne_nil_of_mem (mem_entries5.2 ⟨0, 0, 0, 0, by rw [hsh]; exact hL, by rw [hsh]; exact Nat.zero_lt_succ 2,
      by rw [hsh]; exact hH, by rw [hsh]; exact hW, rfl⟩)
    simp only
    rw [if_neg he, colorPics_error (by rw [hsh]; exact ⟨h3, h4⟩) _ (by rw [hsh]; exact hL)]
    exact ⟨_, rfl⟩

end

/-! ### A concrete case -/

/-- Two frames of 2 by 2 pixels; depths 0 and 2 metres, colours between 0 and 1. -/
noncomputable def rgbShow : T5 ℝ := ⟨⟨1, 2, 2, 2, 3⟩, fun _ l _ _ c => if l = 0 then 0 else if c = 0 then 1 else 1 / 2⟩
noncomputable def depthShow : T5 ℝ := ⟨⟨1, 2, 2, 2, 1⟩, fun _ _ h w _ => if h = 1 ∧ w = 1 then 0 else 2⟩
noncomputable def KShow : TM ℝ := ⟨1, 1, fun _ _ => ⟨⟨⟨2, 0, 1⟩, ⟨0, 2, 1⟩, ⟨0, 0, 1⟩⟩, .zero, .zero, 1⟩⟩
noncomputable def objShow : Obj ℝ := ⟨false, rgbShow, depthShow, KShow, none, none, none, none, none, none, none, rgbShow.sh, none, 1, 2, 2, 2⟩

/-- The hypotheses of `show_spec` are met, and its conclusion determines what is shown: the last frame is named 1 and shows the colour (255, 127, 127),
and depth 2 is shown as 200 with scale 100. -/
theorem show_example : IsCast (fun x => ⌊x⌋) ∧ Hist nrmR 0 objShow (inputsOf rgbShow depthShow KShow none false none) false ∧
    ∃ fs f g, showFrames (fun x => ⌊x⌋) (-1) true objShow = .ok fs ∧ fs.length = 2 ∧ fs[1]? = some f ∧ f.name = 1 ∧ f.rgb.color 0 1 = ⟨255, 127, 127⟩ ∧
      f.depth = some g ∧ g.scale = 100 ∧ g.at' 0 1 = 200 ∧ g.at' 1 1 = 0 := by
  have hc : IsCast (fun x => ⌊x⌋) := fun _ _ _ => rfl
  have hh : Hist nrmR 0 objShow (inputsOf rgbShow depthShow KShow none false none) false := Hist.new rfl
  refine ⟨hc, hh, ?_⟩
  obtain ⟨M, hM, -, -, h3⟩ := ((show_spec hc hh rfl (-1) true).2 0 rfl).2 (by decide) (by decide) (by decide)
  have hM2 : M = 2 := by
    refine le_antisymm ?_ (hM.2 ⟨0, 0, 0, ⟨by decide, by decide, by decide⟩, by simp [inputsOf, chan, depthShow]⟩)
    obtain ⟨l, h, w, -, rfl⟩ := hM.1
    simp only [inputsOf, chan, depthShow]
    norm_num
    split_ifs <;> norm_num
  subst hM2
  obtain ⟨fs, h4, h5, h6⟩ := h3 (Or.inr (by norm_num))
  obtain ⟨f, h7, h8, h9, -, h10⟩ := h6 1 (by decide)
  obtain ⟨g, n, h11, h12, h13, h14⟩ := h10 rfl
  have hn : n = 2 := scale_unique (m := 2) (by norm_num) h12 h13 (by norm_num) (by norm_num)
  subst hn
  have hd : ∀ h w, (inputsOf rgbShow depthShow KShow none false none).depth 0 1 h w = if h = 1 ∧ w = 1 then 0 else 2 := fun h w => rfl
  refine ⟨fs, f, g, h4, h5, h7, h8, ?_, h11, by rw [h14.scale]; norm_num, ?_, ?_⟩
  · have hr : ∀ l h w, (inputsOf rgbShow depthShow KShow none false none).rgb 0 l h w = if l = 0 then ⟨0, 0, 0⟩ else ⟨1, 1 / 2, 1 / 2⟩ := by
      intro l h w
      show px3 false rgbShow 0 l h w = _
      unfold px3 chan rgbShow
      by_cases hl : l = 0 <;> simp [hl]
    rw [h9.unit ?_ 0 1 (by decide) (by decide), hr]
    · norm_num
    · intro l h w _
      simp only [hr]
      split_ifs <;> norm_num
  · obtain ⟨a1, a2, a3, a4⟩ := h14.bytes 0 1 (by decide) (by decide) (by rw [hd]; norm_num)
    rw [hd, if_neg (by decide)] at a3 a4
    have b3 : (g.at' 0 1 : ℝ) ≤ 200 := by rw [div_le_iff₀ (by norm_num)] at a3; norm_num at a3; exact a3
    have b4 : (200 : ℝ) < (g.at' 0 1 : ℝ) + 1 := by rw [lt_div_iff₀ (by norm_num)] at a4; norm_num at a4; exact a4
    have c3 : g.at' 0 1 ≤ 200 := by exact_mod_cast b3
    have c4 : 200 < g.at' 0 1 + 1 := by exact_mod_cast b4
    omega
  · obtain ⟨a1, a2, a3, a4⟩ := h14.bytes 1 1 (by decide) (by decide) (by rw [hd]; norm_num)
    rw [hd, if_pos (by decide)] at a3
    have c3 : g.at' 1 1 ≤ 0 := by rw [div_le_iff₀ (by norm_num)] at a3; norm_num at a3; exact a3
    omega

end Verif.Rgbd
