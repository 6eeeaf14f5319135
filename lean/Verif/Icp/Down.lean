import Verif.Icp.Loop
import Verif.Fusion.Update
/-!
C56: downsampling.  C63: the odometry providers.
-/
namespace Verif.Icp
open Verif Pcs
set_option linter.unusedSectionVars false

section
variable {α : Type*} [Field α] [LinearOrder α] [IsStrictOrderedRing α]

/-! ### Frames -/

theorem mem_strided {n ds k : Nat} (hd : 0 < ds) : k ∈ strided n ds ↔ k < n ∧ ds ∣ k := by
  simp only [strided, List.mem_map, List.mem_range]
  constructor
  · rintro ⟨i, hi, rfl⟩
    refine ⟨?_, Dvd.intro_left i rfl⟩
    have h2 : i * ds + ds ≤ n + ds - 1 := by
      calc i * ds + ds = (i + 1) * ds := by ring
        _ ≤ (n + ds - 1) / ds * ds := Nat.mul_le_mul_right _ hi
        _ ≤ n + ds - 1 := Nat.div_mul_le_self ..
    omega
  · rintro ⟨hk, i, rfl⟩
    refine ⟨i, ?_, Nat.mul_comm ..⟩
    have : (i + 1) * ds ≤ n + ds - 1 := by
      calc (i + 1) * ds = ds * i + ds := by ring
        _ ≤ n + ds - 1 := by omega
    exact (Nat.le_div_iff_mul_le hd).2 this

theorem strided_sorted (n ds : Nat) (hd : 0 < ds) : (strided n ds).Pairwise (· < ·) := by
  rw [strided, List.pairwise_map]
  exact List.pairwise_lt_range.imp fun h => Nat.mul_lt_mul_of_pos_right h hd

/-- Row-major order of `(row, column)`. -/
def rowMajor (x y : Nat × Nat) : Prop := x.1 < y.1 ∨ x.1 = y.1 ∧ x.2 < y.2

theorem dsPixels_spec (H W ds : Nat) (hd : 0 < ds) (m : Nat → Nat → Nat → Bool) :
    ∃ px : List (Nat × Nat), dsPixels 1 H W ds m = px.map (fun x => (0, x.1, x.2)) ∧ px.Pairwise rowMajor ∧
      ∀ h w, (h, w) ∈ px ↔ h < H ∧ w < W ∧ ds ∣ h ∧ ds ∣ w ∧ m 0 h w = true := by
  refine ⟨((strided H ds).flatMap fun h => (strided W ds).map fun w => (h, w)).filter fun x => m 0 x.1 x.2, ?_, ?_, ?_⟩
  · simp [dsPixels, List.filter_map, List.map_flatMap, Function.comp_def, List.filter_flatMap]
  · apply List.Pairwise.filter
    rw [List.pairwise_flatMap]
    refine ⟨fun h _ => ?_, (strided_sorted H ds hd).imp fun {h1 h2} hlt x hx y hy => ?_⟩
    · rw [List.pairwise_map]; exact (strided_sorted W ds hd).imp fun h => .inr ⟨rfl, h⟩
    · simp only [List.mem_map] at hx hy
      obtain ⟨w1, _, rfl⟩ := hx
      obtain ⟨w2, _, rfl⟩ := hy
      exact .inl hlt
  · intro h w
    simp only [List.mem_filter, List.mem_flatMap, List.mem_map, mem_strided hd, Prod.mk.injEq]
    constructor
    · rintro ⟨⟨h', ⟨h1, h2⟩, w', ⟨h3, h4⟩, rfl, rfl⟩, h5⟩; exact ⟨h1, h3, h2, h4, h5⟩
    · rintro ⟨h1, h3, h2, h4, h5⟩; exact ⟨⟨h, ⟨h1, h2⟩, w, ⟨h3, h4⟩, rfl, rfl⟩, h5⟩

/-- The cloud of the pixels `px` of an image of vectors. -/
def cloudOf (px : List (Nat × Nat)) (f : Nat → Nat → V3 α) : T2 α := ⟨px.map fun x => (f x.1 x.2).toList, 3⟩

/-- Expected attributes: for every frame of the batch, positions, normals and colours of the same pixels in the same order; no features. -/
def framesAt (fr : Fusion.Frame α) (px : Nat → List (Nat × Nat)) : Clouds α
  | .points => some ((List.range fr.B).map fun b => cloudOf (px b) (fr.gv b 0))
  | .normals => some ((List.range fr.B).map fun b => cloudOf (px b) (fr.gn b 0))
  | .colors => some ((List.range fr.B).map fun b => cloudOf (px b) (fr.rgb b 0))
  | .features => none

theorem cloudOf_ok (px : List (Nat × Nat)) (f : Nat → Nat → V3 α) : (cloudOf px f).Valid ∧ (cloudOf px f).cols = 3 := by
  refine ⟨?_, rfl⟩
  intro r hr; simp only [cloudOf, List.mem_map] at hr; obtain ⟨x, _, rfl⟩ := hr; rfl

theorem framesAt_wf {fr : Fusion.Frame α} (hB : 0 < fr.B) (px : Nat → List (Nat × Nat)) :
    Wf (framesAt fr px) ((List.range fr.B).map fun b => cloudOf (px b) (fr.gv b 0)) := by
  have hp : ∀ f : Nat → Nat → Nat → V3 α, ∀ t ∈ (List.range fr.B).map fun b => cloudOf (px b) (f b), t.Valid ∧ t.cols = 3 := by
    intro f t ht
    simp only [List.mem_map] at ht
    obtain ⟨b, _, rfl⟩ := ht
    exact cloudOf_ok _ _
  refine ⟨rfl, ?_, ?_, ?_, ?_⟩
  · intro h0
    have := congrArg List.length h0
    simp at this; omega
  · intro X l hl
    cases X <;> simp only [framesAt, Option.some.injEq, reduceCtorEq] at hl <;> subst hl <;> simp [sizes, cloudOf]
  · intro X l hl t ht
    cases X <;> simp only [framesAt, Option.some.injEq, reduceCtorEq] at hl <;> subst hl
    · exact (hp (fun b => fr.gv b 0) t ht).1
    · exact (hp (fun b => fr.gn b 0) t ht).1
    · exact (hp (fun b => fr.rgb b 0) t ht).1
  · intro X l hl
    cases X <;> simp only [framesAt, Option.some.injEq, reduceCtorEq] at hl <;> subst hl
    · exact ⟨3, fun t ht => (hp (fun b => fr.gv b 0) t ht).2, fun _ => rfl⟩
    · exact ⟨3, fun t ht => (hp (fun b => fr.gn b 0) t ht).2, fun _ => rfl⟩
    · exact ⟨3, fun t ht => (hp (fun b => fr.rgb b 0) t ht).2, fun _ => rfl⟩

/-- C56 (frames).  For every batch of single frames and every ratio `ds ≥ 1`, `downsample_rgbdimages` returns a cloud per frame that
holds, in row-major order, exactly the pixels with valid depth whose row and column are multiples of `ds`, each with the global position,
the global normal and the colour of that pixel. -/
theorem downsample_frames {fr : Fusion.Frame α} (hL : fr.L = 1) (hB : 0 < fr.B) {ds : Int} (hd : 0 < ds) :
    ∃ o px, downsampleRgbd fr ds = .ok o ∧ Inv o (framesAt fr px) ∧ (o.lst .points).isSome ∧
      ∀ b < fr.B, (px b).Pairwise rowMajor ∧
        ∀ h w, (h, w) ∈ px b ↔ h < fr.H ∧ w < fr.W ∧ ds ∣ (h : Int) ∧ ds ∣ (w : Int) ∧ fr.valid b 0 h w = true := by
  obtain ⟨k, rfl⟩ := Int.eq_ofNat_of_zero_le hd.le
  have hk : 0 < k := by exact_mod_cast hd
  choose px h1 h2 h3 using fun b => dsPixels_spec fr.H fr.W k hk (fr.valid b)
  have e : ∀ f : Nat → Nat → Nat → Nat → V3 α, dsPicked fr k f = (List.range fr.B).map fun b => cloudOf (px b) (f b 0) := by
    intro f
    simp only [dsPicked, hL, h1, cloudOf, List.map_map, Function.comp_def]
  have ea : dsArg fr k = framesAt fr px := by
    funext X; cases X <;> simp only [dsArg, framesAt, e]
  obtain ⟨o, ho, hr, hf⟩ := newList_rep (framesAt_wf hB px)
  refine ⟨o, px, ?_, .inr ⟨_, hr, .inr hf⟩, ?_, fun b _ => ⟨h2 b, fun h w => ?_⟩⟩
  · have : ¬ (fr.L ≠ 1) := by simpa using hL
    have h0 : ¬ ((k : Int) ≤ 0) := by omega
    rw [downsampleRgbd, if_neg this, if_neg h0, Int.toNat_natCast, ea, e, ho]
  · have h4 := ho
    unfold newList at h4
    split_ifs at h4
    simp only [Except.ok.injEq] at h4
    rw [← h4]; rfl
  · rw [h3 b h w]; norm_cast

/-- Sequences longer than one frame, and ratios that are not positive, raise ValueError. -/
theorem downsample_frames_errors (fr : Fusion.Frame α) (ds : Int) (h : fr.L ≠ 1 ∨ ds ≤ 0) : downsampleRgbd fr ds = .error .valueError := by
  rw [downsampleRgbd]
  by_cases hL : fr.L ≠ 1
  · rw [if_pos hL]
  · rw [if_neg hL, if_pos (h.resolve_left hL)]

/-! ### Maps -/

/-- The table rows of cloud `b` whose pixel is on the grid. -/
def onGridOf (ds : Int) (rows : List Fusion.Row) (b : Nat) : List Fusion.Row :=
  rows.filter fun r => r.b = b ∧ ds ∣ (r.h : Int) ∧ ds ∣ (r.w : Int)

/-- Expected attributes: for every cloud, the entries of the points listed in the table with a pixel on the grid, in table order. -/
def mapAt (a : Clouds α) (B : Nat) (ds : Int) (rows : List Fusion.Row) : Clouds α
  | .features => none
  | X => (a X).map fun l => (List.range B).map fun b => ⟨(onGridOf ds rows b).map fun r => (Fusion.rowAt l b r.n).getD [], 3⟩

theorem gridRows_filter (ds : Int) (rows : List Fusion.Row) (b : Nat) :
    (gridRows ds rows).filter (fun r => r.b = b) = onGridOf ds rows b := by
  simp only [gridRows, onGridOf, List.filter_filter]
  congr 1; funext r
  simp only [Int.dvd_iff_emod_eq_zero, ← Bool.decide_and]
  congr 1
  exact propext ⟨fun ⟨a, b, c⟩ => ⟨a, c, b⟩, fun ⟨a, c, b⟩ => ⟨a, b, c⟩⟩

theorem getRow_eq {l : List (T2 α)} {b n : Nat} (h : n < (l.getD b ⟨[], 0⟩).rows.length) :
    (l.getD b ⟨[], 0⟩).rows.getD n [] = (Fusion.rowAt l b n).getD [] ∧ (Fusion.rowAt l b n).isSome := by
  rw [List.getD_eq_getElem?_getD] at h ⊢
  unfold Fusion.rowAt
  cases hb : l[b]? with
  | none => rw [hb] at h; simp at h
  | some t =>
    rw [hb] at h
    simp only [Option.getD_some] at h ⊢
    rw [List.getD_eq_getElem?_getD, hb]
    simp [h]

theorem gather_eq {a : Clouds α} {P l : List (T2 α)} (hw : Wf a P) {X : Attr} (hX : X ≠ .features) (hl : a X = some l) {rows : List Fusion.Row}
    (hr : ∀ r ∈ rows, r.b < P.length → (Fusion.rowAt P r.b r.n).isSome) (ds : Int) :
    gather P.length l (gridRows ds rows) = .ok ((List.range P.length).map fun b =>
      ⟨(onGridOf ds rows b).map fun r => (Fusion.rowAt l b r.n).getD [], 3⟩) := by
  have hin : ∀ r ∈ rows, r.b < P.length → r.n < (l.getD r.b ⟨[], 0⟩).rows.length := by
    intro r hrr hb
    have h1 := hr r hrr hb
    rw [← Fusion.rowAt_isSome hw hl] at h1
    unfold Fusion.rowAt at h1
    rw [List.getD_eq_getElem?_getD]
    cases hlb : l[r.b]? with
    | none => rw [hlb] at h1; simp at h1
    | some t => rw [hlb] at h1; simpa using h1
  rw [gather, if_neg]
  · congr 1
    refine List.map_congr_left fun b hb => ?_
    rw [List.mem_range] at hb
    have hc : (l.getD b ⟨[], 0⟩).cols = 3 := by
      have hb' : b < l.length := by rw [hw.length hl]; exact hb
      rw [List.getD_eq_getElem _ _ hb']
      exact hw.cols3 hX hl _ (List.getElem_mem _)
    rw [hc, gridRows_filter]
    congr 1
    refine List.map_congr_left fun r hrr => ?_
    simp only [onGridOf, List.mem_filter, decide_eq_true_eq] at hrr
    have := hin r hrr.1 (by rw [hrr.2.1]; exact hb)
    rw [hrr.2.1] at this
    exact (getRow_eq this).1
  · simp only [List.any_eq_true, Bool.and_eq_true, decide_eq_true_eq, Bool.not_eq_true', decide_eq_false_iff_not, not_exists, not_and, not_not]
    intro r hrr hb
    have : r ∈ rows := by simp only [gridRows, List.mem_filter] at hrr; exact hrr.1.1
    exact hin r this hb

theorem mapAt_wf {a : Clouds α} {P : List (T2 α)} (hw : Wf a P) {rows : List Fusion.Row}
    (hr : ∀ r ∈ rows, r.b < P.length → (Fusion.rowAt P r.b r.n).isSome) (ds : Int) :
    Wf (mapAt a P.length ds rows) ((List.range P.length).map fun b =>
      ⟨(onGridOf ds rows b).map fun r => (Fusion.rowAt P b r.n).getD [], 3⟩) := by
  have key : ∀ X m, mapAt a P.length ds rows X = some m → X ≠ .features ∧ ∃ l, a X = some l ∧
      m = (List.range P.length).map fun b => ⟨(onGridOf ds rows b).map fun r => (Fusion.rowAt l b r.n).getD [], 3⟩ := by
    intro X m hm
    cases X
    all_goals simp only [mapAt, reduceCtorEq, Option.map_eq_some_iff] at hm
    all_goals obtain ⟨l, h1, h2⟩ := hm
    all_goals exact ⟨by simp, l, h1, h2.symm⟩
  refine ⟨?_, ?_, ?_, ?_, ?_⟩
  · simp [mapAt, hw.pts]
  · intro h0
    have := congrArg List.length h0
    simp at this; exact hw.ne this
  · intro X m hm
    obtain ⟨_, l, _, rfl⟩ := key X m hm
    simp [sizes]
  · intro X m hm t ht
    obtain ⟨hX, l, hl, rfl⟩ := key X m hm
    simp only [List.mem_map, List.mem_range] at ht
    obtain ⟨b, hb, rfl⟩ := ht
    intro row hrow
    simp only [List.mem_map] at hrow
    obtain ⟨r, hrr, rfl⟩ := hrow
    simp only [onGridOf, List.mem_filter, decide_eq_true_eq] at hrr
    have h1 := hr r hrr.1 (by rw [hrr.2.1]; exact hb)
    rw [← Fusion.rowAt_isSome hw hl, hrr.2.1] at h1
    obtain ⟨row, e⟩ := Option.isSome_iff_exists.1 h1
    rw [e]
    exact Fusion.valid_row (hw.valid X l hl) (hw.cols3 hX hl) e
  · intro X m hm
    obtain ⟨_, l, _, rfl⟩ := key X m hm
    refine ⟨3, fun t ht => ?_, fun _ => rfl⟩
    simp only [List.mem_map] at ht
    obtain ⟨b, _, rfl⟩ := ht
    rfl

/-- C56 (maps).  For every map in a reachable state, every table whose entries refer to existing points and every ratio `ds ≠ 0`,
`downsample_pointclouds` returns for each cloud exactly the listed points whose pixel has row and column divisible by `ds`, in table order,
with the normals and colours of the same points (and no features); the map itself is unchanged. -/
theorem downsample_map {pc : PC α} {a : Clouds α} {P : List (T2 α)} (hi : Inv pc a) (hP : a .points = some P) {rows : List Fusion.Row}
    (hr : ∀ r ∈ rows, r.b < P.length → (Fusion.rowAt P r.b r.n).isSome) {ds : Int} (hd : ds ≠ 0) :
    ∃ o pc', downsamplePointclouds pc rows ds = (.ok o, pc') ∧ Inv o (mapAt a P.length ds rows) ∧ (o.lst .points).isSome ∧ Inv pc' a ∧
      (pc'.lst .points).isSome := by
  have hw := Fusion.wf_of_inv hi hP
  rcases hi with he | ⟨P', h, hm⟩
  · rw [he.ha] at hP; simp [emptyClouds] at hP
  obtain rfl : P' = P := by have := h.wf.pts; rw [hP] at this; simpa using this.symm
  have gl : ∀ X s, RepN s a P' → MaskOk s a → ∃ s', getList X s = (a X, s') ∧ RepN s' a P' ∧ MaskOk s' a ∧
      ∀ Y, Y = X ∨ (s.lst Y).isSome → (a Y).isSome → (s'.lst Y).isSome := by
    intro X s h hm
    obtain ⟨g, r⟩ := h.getList X
    refine ⟨_, g, r, hm.frame rfl rfl, fun Y hY ha => ?_⟩
    by_cases hy : Y = X
    · subst hy; simpa using ha
    · simpa only [Function.update_of_ne hy] using hY.resolve_left hy
  obtain ⟨s1, g1, r1, m1, l1⟩ := gl .points pc h hm
  obtain ⟨s2, g2, r2, m2, l2⟩ := gl .normals s1 r1 m1
  obtain ⟨s3, g3, r3, m3, l3⟩ := gl .colors s2 r2 m2
  have hPs : (a .points).isSome := by rw [hP]; rfl
  obtain ⟨o, ho, hor, hof⟩ := newList_rep (mapAt_wf hw hr ds)
  have hopt : ∀ X, X ≠ .features → gatherOpt P'.length (a X) (gridRows ds rows) = .ok (mapAt a P'.length ds rows X) := by
    intro X hX
    have hmap : mapAt a P'.length ds rows X = (a X).map fun l => (List.range P'.length).map fun b =>
      ⟨(onGridOf ds rows b).map fun r => (Fusion.rowAt l b r.n).getD [], 3⟩ := by
      cases X <;> first | rfl | exact absurd rfl hX
    rw [hmap]
    cases hl : a X with
    | none => rfl
    | some l => simp only [gatherOpt, gather_eq hw hX hl hr ds, Option.map_some]
  refine ⟨o, s3, ?_, .inr ⟨_, hor, .inr hof⟩, ?_, .inr ⟨P', r3, m3⟩, l3 _ (.inr (l2 _ (.inr (l1 _ (.inl rfl) hPs)) hPs)) hPs⟩
  · have hds : ¬ (ds = 0 ∧ rows ≠ []) := fun h => hd h.1
    rw [downsamplePointclouds, if_neg hds, g1]
    simp only [hP, r1.hB, gather_eq hw (by simp) hP hr ds]
    simp only [g2, r2.hB, hopt .normals (by simp)]
    simp only [g3, r3.hB, hopt .colors (by simp)]
    have earg : dsMapArg ((List.range P'.length).map fun b =>
        ⟨(onGridOf ds rows b).map fun r => (Fusion.rowAt P' b r.n).getD [], 3⟩)
        (mapAt a P'.length ds rows .normals) (mapAt a P'.length ds rows .colors) = mapAt a P'.length ds rows := by
      funext X; cases X <;> simp [dsMapArg, mapAt, hP]
    rw [earg, ho]
  · have h4 := ho
    unfold newList at h4
    split_ifs at h4
    simp only [Except.ok.injEq] at h4
    rw [← h4]; rfl
end
end Verif.Icp
