import Verif.Axis.Props
/-!
C109: laws of the tests (the numbering of dimensions, moving the dimension, exchanging the arguments), the link to the per-point model of C35,
pixel coordinates of any rank, and concrete cases.
-/
namespace Verif.Axis
open Verif.Nd (Tensor)

theorem axis_wrap {n : ℕ} {dim : ℤ} (h0 : 0 ≤ dim) (h1 : dim < n) : axis n (dim - n) = axis n dim := by
  unfold axis
  rw [if_pos h0, if_pos h1]
  split
  · omega
  · rw [if_pos (show -(n : ℤ) ≤ dim - n by omega), Option.some.injEq]; omega

/-- **C109**.  Counting a dimension from the end makes no difference. -/
theorem dim_wrap (a b : Tensor ℝ) (s : Sigma) (keep fl : Bool) (eps th : ℝ) (dim : ℤ) (h0 : 0 ≤ dim) (h1 : dim < a.rank) :
    getAlpha a s (dim - a.rank) keep fl eps = getAlpha a s dim keep fl eps ∧
    arePointsClose a b th (dim - a.rank) = arePointsClose a b th dim ∧
    areNormalsSimilar a b th (dim - a.rank) = areNormalsSimilar a b th dim := by
  refine ⟨?_, ?_, ?_⟩
  · cases s <;> simp only [getAlpha, axis_wrap h0 h1]
  · simp only [arePointsClose, checkPair, axis_wrap h0 h1]
  · simp only [areNormalsSimilar, checkPair, axis_wrap h0 h1]

theorem moved_dims {t : Tensor ℝ} {pre post : List ℕ} (h : t.dims = pre ++ 3 :: post) : (moved pre.length t).dims = [] ++ 3 :: (pre ++ post) := by
  show t.dims.getD _ _ :: t.dims.eraseIdx _ = _
  rw [h, erase_mid]; simp

theorem moved_point {t : Tensor ℝ} {k : ℕ} {i : List ℕ} : point (moved k t) 0 i = point t k i := by
  simp [point, moved, put]

/-- **C109**.  Testing along a dimension is testing along the last one after moving that dimension to the end. -/
theorem moved_same (a b : Tensor ℝ) (s : Sigma) (x eps th : ℝ) (dim : ℤ) (pre post : List ℕ) (ha : a.dims = pre ++ 3 :: post)
    (hb : b.dims = a.dims) (hd : Names a.rank dim pre.length) (hs : SigmaIs s x) :
    (∃ o o', getAlpha a s dim false true eps = .ok o ∧ getAlpha (moved pre.length a) s (-1) false true eps = .ok o' ∧ o.dims = o'.dims ∧
      ∀ i, Inside i o.dims → o.get i = o'.get i) ∧
    (∃ o o', arePointsClose a b th dim = .ok o ∧ arePointsClose (moved pre.length a) (moved pre.length b) th (-1) = .ok o' ∧ o.dims = o'.dims ∧
      ∀ i, Inside i o.dims → o.get i = o'.get i) ∧
    (0 ∉ pre ++ post → ∃ o o' w, areNormalsSimilar a b th dim = .ok (o, w) ∧ areNormalsSimilar (moved pre.length a) (moved pre.length b) th (-1) = .ok (o', w) ∧
      o.dims = o'.dims ∧ ∀ i, Inside i o.dims → o.get i = o'.get i) := by
  have hma := moved_dims ha
  have hmb : (moved pre.length b).dims = (moved pre.length a).dims := by rw [hma, moved_dims (hb.trans ha)]
  have hmd : Names (moved pre.length a).rank (-1) ([] : List ℕ).length := by
    refine ⟨?_, .inr (by simp)⟩
    rw [Tensor.rank, hma]; simp
  have hlen : ∀ {i : List ℕ}, Inside i (pre ++ post) → i.length = pre.length + post.length := fun h => by simpa using List.Forall₂.length_eq h
  have hlen' : ∀ {i : List ℕ}, Inside i (pre ++ post) → i.length = ([] : List ℕ).length + (pre ++ post).length := fun h => by simpa using List.Forall₂.length_eq h
  refine ⟨?_, ?_, fun h0 => ?_⟩
  · obtain ⟨o, e, d, v⟩ := alpha_result a s dim false eps x pre post ha hd hs
    obtain ⟨o', e', d', v'⟩ := alpha_result (moved pre.length a) s (-1) false eps x [] (pre ++ post) hma hmd hs
    simp only [Bool.false_eq_true, if_false] at d d' v v'
    refine ⟨o, o', e, e', d.trans d'.symm, fun i hi => ?_⟩
    rw [d] at hi
    rw [v i (hlen hi), v' i (hlen' hi)]
    exact congrArg _ (moved_point).symm
  · obtain ⟨o, e, d, v⟩ := close_result a b th dim pre post ha hb hd
    obtain ⟨o', e', d', v'⟩ := close_result (moved pre.length a) (moved pre.length b) th (-1) [] (pre ++ post) hma hmb hmd
    refine ⟨o, o', e, e', d.trans d'.symm, fun i hi => ?_⟩
    rw [d] at hi
    have h1 := v i (hlen hi)
    have h2 := v' i (hlen' hi)
    rw [List.length_nil, moved_point, moved_point] at h2
    exact Bool.eq_iff_iff.2 (h1.trans h2.symm)
  · obtain ⟨o, w, e, d, v, hw⟩ := (similar_result a b th dim pre post ha hb hd).2 h0
    obtain ⟨o', w', e', d', v', hw'⟩ := (similar_result (moved pre.length a) (moved pre.length b) th (-1) [] (pre ++ post) hma hmb hmd).2 h0
    obtain rfl : w = w' := by
      refine Bool.eq_iff_iff.2 (hw.trans (Iff.trans ?_ hw'.symm))
      simp only [List.length_nil, moved_point, List.nil_append]
    refine ⟨o, o', w, e, e', d.trans d'.symm, fun i hi => ?_⟩
    rw [d] at hi
    have h1 := v i (hlen hi)
    have h2 := v' i (hlen' hi)
    rw [List.length_nil, moved_point, moved_point] at h2
    exact Bool.eq_iff_iff.2 (h1.trans h2.symm)

/-- **C109**.  The arguments may be exchanged. -/
theorem pair_symm (a b : Tensor ℝ) (th : ℝ) (dim : ℤ) (pre post : List ℕ) (ha : a.dims = pre ++ 3 :: post) (hb : b.dims = a.dims)
    (hd : Names a.rank dim pre.length) :
    (∃ o o', arePointsClose a b th dim = .ok o ∧ arePointsClose b a th dim = .ok o' ∧ o.dims = o'.dims ∧ ∀ i, Inside i o.dims → o.get i = o'.get i) ∧
    (0 ∉ pre ++ post → ∃ o o' w, areNormalsSimilar a b th dim = .ok (o, w) ∧ areNormalsSimilar b a th dim = .ok (o', w) ∧ o.dims = o'.dims ∧
      ∀ i, Inside i o.dims → o.get i = o'.get i) := by
  have hd' : Names b.rank dim pre.length := by rw [Tensor.rank, hb]; exact hd
  have hlen : ∀ {i : List ℕ}, Inside i (pre ++ post) → i.length = pre.length + post.length := fun h => by simpa using List.Forall₂.length_eq h
  have hsw : ∀ p q : V3 ℝ, (p.sub q).normSq = (q.sub p).normSq := fun p q => by simp only [V3.normSq, V3.dot, V3.sub]; ring
  have hdt : ∀ p q : V3 ℝ, p.dot q = q.dot p := fun p q => by simp only [V3.dot]; ring
  refine ⟨?_, fun h0 => ?_⟩
  · obtain ⟨o, e, d, v⟩ := close_result a b th dim pre post ha hb hd
    obtain ⟨o', e', d', v'⟩ := close_result b a th dim pre post (hb.trans ha) hb.symm hd'
    refine ⟨o, o', e, e', d.trans d'.symm, fun i hi => ?_⟩
    rw [d] at hi
    have h1 := v i (hlen hi)
    rw [hsw] at h1
    exact Bool.eq_iff_iff.2 (h1.trans (v' i (hlen hi)).symm)
  · obtain ⟨o, w, e, d, v, hw⟩ := (similar_result a b th dim pre post ha hb hd).2 h0
    obtain ⟨o', w', e', d', v', hw'⟩ := (similar_result b a th dim pre post (hb.trans ha) hb.symm hd').2 h0
    obtain rfl : w = w' := by
      refine Bool.eq_iff_iff.2 (hw.trans (Iff.trans ?_ hw'.symm))
      exact exists_congr fun i => by rw [hdt]
    refine ⟨o, o', w, e, e', d.trans d'.symm, fun i hi => ?_⟩
    rw [d] at hi
    have h1 := v i (hlen hi)
    rw [hdt] at h1
    exact Bool.eq_iff_iff.2 (h1.trans (v' i (hlen hi)).symm)

/-- **C109**.  At every index the two tests are the ones `find_similar_map_points` applies to a pair of points in the model of C35. -/
theorem tests_are_fusion (a b : Tensor ℝ) (th : ℝ) (dim : ℤ) (pre post : List ℕ) (ha : a.dims = pre ++ 3 :: post) (hb : b.dims = a.dims)
    (hd : Names a.rank dim pre.length) (h0 : 0 ∉ pre ++ post) :
    ∃ o o' w, arePointsClose a b th dim = .ok o ∧ areNormalsSimilar a b th dim = .ok (o', w) ∧ ∀ i, Inside i (pre ++ post) →
      o.get i = Fusion.arePointsClose (fun v => Real.sqrt v.normSq) (point a pre.length i) (point b pre.length i) th ∧
      o'.get i = Fusion.areNormalsSimilar (point a pre.length i) (point b pre.length i) th := by
  obtain ⟨o, e, d, v⟩ := close_result a b th dim pre post ha hb hd
  obtain ⟨o', w, e', d', v', _⟩ := (similar_result a b th dim pre post ha hb hd).2 h0
  refine ⟨o, o', w, e, e', fun i hi => ?_⟩
  have hl : i.length = pre.length + post.length := by simpa using List.Forall₂.length_eq hi
  constructor
  · rw [Fusion.arePointsClose, Bool.eq_iff_iff, decide_eq_true_eq]; exact v i hl
  · rw [Fusion.areNormalsSimilar, Bool.eq_iff_iff, decide_eq_true_eq]; exact v' i hl

/-! ### Pixel coordinates -/

/-- **C109**.  `normalize_pixel_coords` on any leading dimensions: row coordinates are scaled by the height, column coordinates by the
width, the shape is kept; other last dimensions raise ValueError, tensors without dimensions IndexError. -/
theorem normalize_nd (t : Tensor ℝ) (h w : ℤ) :
    (t.dims = [] → normalizePixelCoords t h w = .error .indexError ∧ unnormalizePixelCoords t h w = .error .indexError) ∧
    (∀ d ds, t.dims = d :: ds → d ≠ 2 → normalizePixelCoords t h w = .error .valueError ∧ unnormalizePixelCoords t h w = .error .valueError) ∧
    (∀ ds, t.dims = 2 :: ds → h ≠ 1 → w ≠ 1 → ∃ o o', normalizePixelCoords t h w = .ok o ∧ unnormalizePixelCoords t h w = .ok o' ∧ o.dims = t.dims ∧
      o'.dims = t.dims ∧ ∀ i : List ℕ,
        o.get (0 :: i) = 2 * t.get (0 :: i) / (h - 1) - 1 ∧ o.get (1 :: i) = 2 * t.get (1 :: i) / (w - 1) - 1 ∧
        o'.get (0 :: i) = (t.get (0 :: i) + 1) * (h - 1) / 2 ∧ o'.get (1 :: i) = (t.get (1 :: i) + 1) * (w - 1) / 2) := by
  refine ⟨fun hd => ?_, fun d ds hd h2 => ?_, fun ds hd hh hw => ?_⟩
  · simp [normalizePixelCoords, unnormalizePixelCoords, hd]
  · simp [normalizePixelCoords, unnormalizePixelCoords, hd, h2]
  · have e1 : normalizePixelCoords t h w = .ok ((scaleLast (pixelNorm h w) t).mapT fun x => x - 1) := by
      simp [normalizePixelCoords, hd]
    have e2 : unnormalizePixelCoords t h w = .ok (scaleLast (fun j => 1 / pixelNorm h w j) (t.mapT fun x => x + 1)) := by
      simp [unnormalizePixelCoords, hd]
    refine ⟨_, _, e1, e2, rfl, rfl, fun i => ?_⟩
    simp only [scaleLast, Tensor.mapT, pixelNorm, List.headD_cons, if_true, one_ne_zero, if_false]
    refine ⟨?_, ?_, ?_, ?_⟩ <;> field_simp

/-- **C109**.  The two are inverse to each other for images of at least two rows and columns, on any leading dimensions. -/
theorem normalize_roundtrip (t : Tensor ℝ) (h w : ℤ) (hh : h ≠ 1) (hw : w ≠ 1) (ds : List ℕ) (hd : t.dims = 2 :: ds) :
    ∃ o o', normalizePixelCoords t h w = .ok o ∧ unnormalizePixelCoords o h w = .ok o' ∧ o'.dims = t.dims ∧ ∀ i, Inside i t.dims → o'.get i = t.get i := by
  have e1 : normalizePixelCoords t h w = .ok ((scaleLast (pixelNorm h w) t).mapT fun x => x - 1) := by
    simp [normalizePixelCoords, hd]
  have e2 : unnormalizePixelCoords ((scaleLast (pixelNorm h w) t).mapT fun x => x - 1) h w =
      .ok (scaleLast (fun j => 1 / pixelNorm h w j) (((scaleLast (pixelNorm h w) t).mapT fun x => x - 1).mapT fun x => x + 1)) := by
    simp [unnormalizePixelCoords, scaleLast, Tensor.mapT, hd]
  refine ⟨_, _, e1, e2, rfl, fun i _ => ?_⟩
  have h0 : pixelNorm h w (i.headD 0) ≠ 0 := by
    unfold pixelNorm
    refine div_ne_zero two_ne_zero ?_
    split
    · exact sub_ne_zero.2 (by exact_mod_cast hh)
    · exact sub_ne_zero.2 (by exact_mod_cast hw)
  simp only [scaleLast, Tensor.mapT]
  field_simp
  ring

/-! ### Cases -/

/-- Points of shape `(2, 3, 5)`, the coordinates along the middle dimension: `(b, c, n)` holds `b + 10·c·n`. -/
noncomputable def midA : Tensor ℝ := ⟨[5, 3, 2], fun i => match i with
  | [n, c, b] => b + 10 * c * n
  | _ => 0⟩
noncomputable def midB : Tensor ℝ := ⟨[5, 3, 2], fun _ => 0⟩

/-- The middle dimension can be named 1 or -2, and the points are read along it: at `(b, n) = (1, 1)` the point is `(1, 11, 21)`. -/
theorem witness_axis : Names midA.rank 1 1 ∧ Names midA.rank (-2) 1 ∧ point midA 1 [1, 1] = ⟨1, 11, 21⟩ ∧
    (∃ o, arePointsClose midA midB 24 1 = .ok o ∧ o.dims = [5, 2] ∧ o.get [1, 1] = true ∧ o.get [2, 1] = false) ∧
    arePointsClose midA midB 24 (-1) = .error .valueError ∧ arePointsClose midA midB 24 3 = .error .indexError := by
  have h1 : Names midA.rank 1 ([5] : List ℕ).length := by constructor <;> simp [midA, Tensor.rank]
  refine ⟨h1, by constructor <;> simp [midA, Tensor.rank], by simp [point, put, midA]; norm_num, ?_, ?_, ?_⟩
  · obtain ⟨o, e, d, v⟩ := close_result midA midB 24 1 [5] [2] rfl rfl h1
    refine ⟨o, e, d, (v [1, 1] rfl).2 ?_, ?_⟩
    · rw [Real.sqrt_lt' (by norm_num)]
      simp [point, put, midA, midB, V3.sub, V3.normSq, V3.dot]; norm_num
    · refine Bool.eq_false_iff.2 fun h => ?_
      have := (v [2, 1] rfl).1 h
      rw [Real.sqrt_lt' (by norm_num)] at this
      simp [point, put, midA, midB, V3.sub, V3.normSq, V3.dot] at this; norm_num at this
  · exact ((pair_errors midA midB 24 (-1) .valueError).1).2 (.inr (.inr ⟨rfl, ⟨0, by constructor <;> simp [midA, Tensor.rank], by simp [midA]⟩, rfl⟩))
  · exact ((pair_errors midA midB 24 3 .indexError).1).2 (.inr (.inl ⟨rfl, by simp [midA, Tensor.rank], rfl⟩))

/-- On an empty cloud of shape `(0, 3)`, as a map without active points would give, `are_points_close` answers with an empty tensor and
`are_normals_similar` raises. -/
theorem empty_refuted (f : List ℕ → ℝ) (th : ℝ) :
    (∃ o, arePointsClose ⟨[3, 0], f⟩ ⟨[3, 0], f⟩ th (-1) = .ok o ∧ o.dims = [0]) ∧ areNormalsSimilar ⟨[3, 0], f⟩ ⟨[3, 0], f⟩ th (-1) = .error .runtimeError := by
  have h1 : Names (⟨[3, 0], f⟩ : Tensor ℝ).rank (-1) ([] : List ℕ).length := by constructor <;> simp [Tensor.rank]
  constructor
  · obtain ⟨o, e, d, _⟩ := close_result ⟨[3, 0], f⟩ ⟨[3, 0], f⟩ th (-1) [] [0] rfl rfl h1
    exact ⟨o, e, d⟩
  · exact (similar_result ⟨[3, 0], f⟩ ⟨[3, 0], f⟩ th (-1) [] [0] rfl rfl h1).1 (by simp)

/-- A 0-dimensional tensor is a usable `sigma`, a one-element vector is not. -/
theorem witness_sigma (t : Tensor ℝ) (eps : ℝ) (g : List ℕ → ℝ) (ht : t.dims = [3, 7]) :
    (∃ o, getAlpha t (.tensor ⟨[], fun _ => 6 / 10⟩) (-1) true true eps = .ok o ∧ o.dims = [1, 7] ∧
      o.get [0, 4] = Fusion.getAlpha (6 / 10) eps ⟨t.get [0, 4], t.get [1, 4], t.get [2, 4]⟩) ∧
    getAlpha t (.tensor ⟨[1], g⟩) (-1) true true eps = .error .valueError := by
  have h1 : Names t.rank (-1) ([] : List ℕ).length := by constructor <;> simp [Tensor.rank, ht]
  constructor
  · obtain ⟨o, e, d, v⟩ := alpha_result t (.tensor ⟨[], fun _ => 6 / 10⟩) (-1) true eps (6 / 10) [] [7] ht h1 (.inr ⟨_, rfl, rfl, rfl⟩)
    refine ⟨o, e, d, ?_⟩
    have := v [4] rfl
    simpa [put, point] using this
  · refine (alpha_errors ..).2 (.inr (.inr ⟨by simp, rfl, ⟨0, h1, .inr ⟨_, rfl, by simp⟩⟩, rfl⟩))

end Verif.Axis
