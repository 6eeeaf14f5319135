import Verif.Fusion.Fuse
import Mathlib.Data.List.Nodup
import Mathlib.Data.List.Perm.Lattice
import Mathlib.Algebra.BigOperators.Group.List.Basic
import Mathlib.Algebra.BigOperators.Group.Finset.Piecewise
import Mathlib.Algebra.BigOperators.Intervals
/-!
Properties of `fuse_with_map` and `update_map_aggregate` (C37, C38, C39, C41).
-/
namespace Verif.Fusion
open Verif Pcs
set_option linter.unusedSectionVars false
set_option linter.unusedSimpArgs false

section
variable {α : Type*} [Field α] [LinearOrder α] [IsStrictOrderedRing α]

/-! ### Specification -/

/-- Average of `p` with weight `c` and `q` with weight `w`. -/
def wAvg (c w : α) (p q : V3 α) : V3 α := ((p.smul c).add (q.smul w)).smul (1 / (c + w))

/-- Number of points of cloud `b`. -/
def sizeAt (P : List (T2 α)) (b : Nat) : Nat := (P.getD b ⟨[], 0⟩).rows.length

/-- How one three-channel attribute changes (`l` before, `l'` after) when the pixels `img` with weights `w` are merged into the map points
of the table's rows. -/
structure MergedAttr (rows : List Row) (F : List (T2 α)) (w : Row → α) (img : Row → V3 α) (l l' : List (T2 α)) : Prop where
  /-- a matched point becomes the weighted average -/
  matched : ∀ r ∈ rows, ∀ x, vecAt l r.b r.n = some x → conf F r.b r.n + w r ≠ 0 →
    vecAt l' r.b r.n = some (wAvg (conf F r.b r.n) (w r) x (img r))
  /-- an unmatched point with confidence is kept -/
  kept : ∀ b n x, vecAt l b n = some x → (∀ r ∈ rows, ¬ (r.b = b ∧ r.n = n)) → conf F b n ≠ 0 → vecAt l' b n = some x
  /-- without matches every point is kept -/
  keptAll : rows = [] → ∀ b n x, vecAt l b n = some x → vecAt l' b n = some x
  /-- an unmatched point without confidence is reset to zero if there is any match -/
  lost : rows ≠ [] → ∀ b n x, vecAt l b n = some x → (∀ r ∈ rows, ¬ (r.b = b ∧ r.n = n)) → conf F b n = 0 →
    vecAt l' b n = some V3.zero

/-- The `k`-th pixel of `img` that satisfies the mask is point `size + k` of the result. -/
def AppendedAttr (fr : Frame α) (m : Nat → Nat → Nat → Nat → Bool) (img : Nat → Nat → Nat → Nat → V3 α) (P l' : List (T2 α)) : Prop :=
  ∀ b < fr.B, ∀ k, vecAt l' b (sizeAt P b + k) = (pixels fr.L fr.H fr.W (m b))[k]?.map fun x => img b x.1 x.2.1 x.2.2

/-! ### Pointwise description -/

theorem sizeAt_eq {P : List (T2 α)} {b : Nat} (hb : b < P.length) : sizeAt P b = P[b].rows.length := by
  simp [sizeAt, List.getD_eq_getElem?_getD, hb]

theorem sizeAt_sizes {P Q : List (T2 α)} (h : sizes P = sizes Q) (b : Nat) : sizeAt P b = sizeAt Q b := by
  have h1 := congrArg (fun z => z[b]?) h
  simp only [sizes, List.getElem?_map] at h1
  simp only [sizeAt, List.getD_eq_getElem?_getD]
  cases hp : P[b]? <;> cases hq : Q[b]? <;> simp [hp, hq] at h1 ⊢
  exact h1

theorem sizeAt_isSome {P : List (T2 α)} {b n : Nat} : (rowAt P b n).isSome ↔ n < sizeAt P b := by
  simp only [rowAt, sizeAt, List.getD_eq_getElem?_getD]
  cases hp : P[b]? with
  | none => simp
  | some t => simp

theorem rowAt_catL {l m : List (T2 α)} (h : l.length = m.length) (b n : Nat) :
    rowAt (catL l m) b n = if n < sizeAt l b then rowAt l b n else rowAt m b (n - sizeAt l b) := by
  by_cases hb : b < l.length
  · have hb' : b < m.length := h ▸ hb
    simp only [rowAt, catL, List.getElem?_zipWith, List.getElem?_eq_getElem hb, List.getElem?_eq_getElem hb', Option.bind_some,
      sizeAt_eq hb]
    split_ifs with hn
    · rw [List.getElem?_append_left hn]
    · rw [List.getElem?_append_right (by omega)]
  · have hb' : ¬ b < m.length := h ▸ hb
    have e1 : l[b]? = none := by simpa using hb
    have e2 : m[b]? = none := by simpa using hb'
    simp [rowAt, catL, List.getElem?_zipWith, e1, e2]

theorem vecAt_cat_old {l m : List (T2 α)} (h : l.length = m.length) {b n : Nat} {x : V3 α} (hx : vecAt l b n = some x) :
    vecAt (catL l m) b n = some x := by
  have : (rowAt l b n).isSome := by
    simp only [vecAt, Option.map_eq_some_iff] at hx; obtain ⟨r, hr, _⟩ := hx; rw [hr]; rfl
  rw [vecAt, rowAt_catL h, if_pos (sizeAt_isSome.1 this)]; exact hx

theorem vecAt_cat_new {l m : List (T2 α)} (h : l.length = m.length) (b k : Nat) :
    vecAt (catL l m) b (sizeAt l b + k) = vecAt m b k := by
  rw [vecAt, rowAt_catL h, if_neg (by omega)]; simp [vecAt]

theorem vecAt_picked {fr : Frame α} {m : Nat → Nat → Nat → Nat → Bool} {f : Nat → Nat → Nat → Nat → V3 α} {b : Nat} (hb : b < fr.B) (k : Nat) :
    vecAt (picked fr m f) b k = (pixels fr.L fr.H fr.W (m b))[k]?.map fun x => f b x.1 x.2.1 x.2.2 := by
  simp only [vecAt, rowAt, picked, List.getElem?_map, List.getElem?_range hb, Option.map_some, Option.bind_some, Option.map_map]
  rfl

theorem conf_pickedAl {al : V3 α → α} {fr : Frame α} {m : Nat → Nat → Nat → Nat → Bool} {b : Nat} (hb : b < fr.B) (k : Nat) :
    rowAt (pickedAl al fr m) b k = (pixels fr.L fr.H fr.W (m b))[k]?.map fun x => [al (fr.v b x.1 x.2.1 x.2.2)] := by
  simp only [rowAt, pickedAl, List.getElem?_map, List.getElem?_range hb, Option.map_some, Option.bind_some]

theorem mergeRow_vec (c a : α) (q : V3 α) (x y z : α) :
    toV3 (mergeRow [c] a q [x, y, z]) = (((⟨x, y, z⟩ : V3 α).smul c).add (q.smul a)).smul (1 / guard0 (c + a)) := by
  simp only [mergeRow, coef, List.mapIdx_cons, List.mapIdx_nil, toV3, List.length_singleton, if_true, List.getD_cons_zero, comp, V3.smul, V3.add]
  ext <;> ring

theorem row_conf {F : List (T2 α)} {b n : Nat} {row : List α} (h : rowAt F b n = some row) (hl : row.length = 1) :
    rowAt F b n = some [conf F b n] := by
  obtain ⟨c, rfl⟩ := List.length_eq_one_iff.1 hl
  simp [conf, h]

theorem valid_row {l : List (T2 α)} {C : Nat} (hv : ∀ t ∈ l, t.Valid) (hc : ∀ t ∈ l, t.cols = C) {b n : Nat} {row : List α}
    (h : rowAt l b n = some row) : row.length = C := by
  simp only [rowAt, Option.bind_eq_some_iff] at h
  obtain ⟨t, ht, hr⟩ := h
  have h1 := hv t (List.mem_of_getElem? ht) row (List.mem_of_getElem? hr)
  rw [h1, hc t (List.mem_of_getElem? ht)]

theorem vecAt_mergeImg {a : Clouds α} {P F l : List (T2 α)} (hw : Wf a P) {X : Attr} (hX : X ≠ .features) (hl : a X = some l)
    (hF : a .features = some F) (hF1 : ∀ t ∈ F, t.cols = 1) (al : V3 α → α) (fr : Frame α) (rows : List Row)
    (f : Nat → Nat → Nat → Nat → V3 α) {b n : Nat} {x : V3 α} (hx : vecAt l b n = some x) :
    vecAt (mergeImg al fr rows F f l) b n = some (((x.smul (conf F b n)).add ((scatter rows f b n).smul (scatterAl al fr rows b n))).smul
      (1 / guard0 (conf F b n + scatterAl al fr rows b n))) := by
  simp only [vecAt, Option.map_eq_some_iff] at hx
  obtain ⟨row, hrow, rfl⟩ := hx
  obtain ⟨x, y, z, rfl⟩ := Wf.rowAt3 hw hX hl hrow
  have hs : (rowAt F b n).isSome := by rw [rowAt_isSome hw hF, ← rowAt_isSome hw hl, hrow]; rfl
  obtain ⟨rf, hrf⟩ := Option.isSome_iff_exists.1 hs
  have hrf' := row_conf hrf (valid_row (hw.valid _ _ hF) hF1 hrf)
  rw [vecAt, mergeImg, rowAt_mapRows, hrow, hrf']
  simp only [Option.map_some, Option.getD_some]
  rw [mergeRow_vec]
  rfl

theorem mergedAttr {a : Clouds α} {P F l : List (T2 α)} (hw : Wf a P) {X : Attr} (hX : X ≠ .features) (hl : a X = some l)
    (hF : a .features = some F) (hF1 : ∀ t ∈ F, t.cols = 1) (al : V3 α → α) (fr : Frame α) {rows : List Row} (hu : UniquePts rows)
    (f : Nat → Nat → Nat → Nat → V3 α) (hne : rows ≠ []) :
    MergedAttr rows F (fun r => al (fr.v r.b 0 r.h r.w)) (fun r => f r.b 0 r.h r.w) l (mergeImg al fr rows F f l) := by
  refine ⟨?_, ?_, ?_, ?_⟩
  · intro r hr x hx hc
    rw [vecAt_mergeImg hw hX hl hF hF1 al fr rows f hx, scatter_some hu hr, scatterAl_some hu hr, guard0, if_neg hc]
    rfl
  · intro b n x hx hun hc
    rw [vecAt_mergeImg hw hX hl hF hF1 al fr rows f hx, scatter_none hun, scatterAl_none hun, add_zero, guard0, if_neg hc]
    congr 1
    ext <;> simp [V3.smul, V3.add, V3.zero] <;> field_simp
  · intro h0; exact absurd h0 hne
  · intro _ b n x hx hun hc
    rw [vecAt_mergeImg hw hX hl hF hF1 al fr rows f hx, scatter_none hun, scatterAl_none hun, add_zero, hc]
    congr 1
    ext <;> simp [V3.smul, V3.add, V3.zero]

theorem MergedAttr.cat {rows : List Row} {F : List (T2 α)} {w : Row → α} {img : Row → V3 α} {l l' m : List (T2 α)}
    (h : MergedAttr rows F w img l l') (hlen : l'.length = m.length) : MergedAttr rows F w img l (catL l' m) :=
  ⟨fun r hr x hx hc => vecAt_cat_old hlen (h.matched r hr x hx hc), fun b n x hx hun hc => vecAt_cat_old hlen (h.kept b n x hx hun hc),
    fun h0 b n x hx => vecAt_cat_old hlen (h.keptAll h0 b n x hx), fun h0 b n x hx hun hc => vecAt_cat_old hlen (h.lost h0 b n x hx hun hc)⟩

theorem MergedAttr.none {F : List (T2 α)} {w : Row → α} {img : Row → V3 α} {l : List (T2 α)} : MergedAttr [] F w img l l :=
  ⟨by simp, fun _ _ _ hx _ _ => hx, fun _ _ _ _ hx => hx, by simp⟩

/-! ### C37 -/

/-- Confidences: a matched point gains its pixel's weight, other points keep theirs. -/
structure MergedConf (rows : List Row) (w : Row → α) (F F' : List (T2 α)) : Prop where
  matched : ∀ r ∈ rows, conf F' r.b r.n = conf F r.b r.n + w r
  kept : ∀ b n, (rowAt F b n).isSome → (∀ r ∈ rows, ¬ (r.b = b ∧ r.n = n)) → conf F' b n = conf F b n

theorem conf_merge {F : List (T2 α)} (hv : ∀ t ∈ F, t.Valid) (hF1 : ∀ t ∈ F, t.cols = 1) (al : V3 α → α) (fr : Frame α) (rows : List Row)
    {b n : Nat} (h : (rowAt F b n).isSome) : conf (mergeConf al fr rows F) b n = conf F b n + scatterAl al fr rows b n := by
  obtain ⟨rf, hrf⟩ := Option.isSome_iff_exists.1 h
  have hrf' := row_conf hrf (valid_row hv hF1 hrf)
  rw [conf, mergeConf, rowAt_mapRows, hrf']
  simp

theorem conf_cat_old {l m : List (T2 α)} (h : l.length = m.length) {b n : Nat} (hx : (rowAt l b n).isSome) : conf (catL l m) b n = conf l b n := by
  rw [conf, rowAt_catL h, if_pos (sizeAt_isSome.1 hx)]; rfl

/-- **C37**.  For every map with points, normals, colours and confidences, every frame of the same batch size and every table of map points
and pixels in which no map point occurs twice: `fuse_with_map` succeeds and returns a map in which every matched point, normal and colour
is the confidence-weighted average `(c·p + α·q)/(c + α)` and has confidence `c + α`, every unmatched point with non-zero confidence is
unchanged, and the pixels that are neither matched nor without depth follow in row-major order, with their weight as confidence.
`Inv res a'` says that every getter of the result returns these values (`inv_obs`), padded with zeros. -/
theorem fuse_spec {s : PC α} {a : Clouds α} {P Nn C F : List (T2 α)} (hi : Inv s a) (hP : a .points = some P)
    (hNn : a .normals = some Nn) (hC : a .colors = some C) (hF : a .features = some F) (hF1 : ∀ t ∈ F, t.cols = 1)
    {fr : Frame α} {rows : List Row} (hB : fr.B = P.length) (hr : RowsOk P fr rows) (hu : UniquePts rows) (al : V3 α → α) (inplace : Bool) :
    ∃ res s' P' Nn' C' F', fuseWithMap al s fr rows inplace = (.ok res, s') ∧
      (∃ a', Inv res a' ∧ a' .points = some P' ∧ a' .normals = some Nn' ∧ a' .colors = some C' ∧ a' .features = some F') ∧
      (∀ b < fr.B, sizeAt P' b = sizeAt P b + (pixels fr.L fr.H fr.W (newMask fr rows b)).length) ∧
      MergedAttr rows F (fun r => al (fr.v r.b 0 r.h r.w)) (fun r => fr.gv r.b 0 r.h r.w) P P' ∧
      MergedAttr rows F (fun r => al (fr.v r.b 0 r.h r.w)) (fun r => fr.gn r.b 0 r.h r.w) Nn Nn' ∧
      MergedAttr rows F (fun r => al (fr.v r.b 0 r.h r.w)) (fun r => fr.rgb r.b 0 r.h r.w) C C' ∧
      MergedConf rows (fun r => al (fr.v r.b 0 r.h r.w)) F F' ∧
      AppendedAttr fr (newMask fr rows) fr.gv P P' ∧ AppendedAttr fr (newMask fr rows) fr.gn P Nn' ∧
      AppendedAttr fr (newMask fr rows) fr.rgb P C' ∧
      (∀ b < fr.B, ∀ k, rowAt F' b (sizeAt P b + k) =
        (pixels fr.L fr.H fr.W (newMask fr rows b))[k]?.map fun x => [al (fr.v b x.1 x.2.1 x.2.2)]) := by
  have hw : Wf a P := by
    rcases hi with h | ⟨P', h, _⟩
    · rw [h.noPoints] at hP; cases hP
    · have := h.wf.pts; rw [hP] at this; rw [Option.some.inj this]; exact h.wf
  obtain ⟨res, s', e, h1, _, _, _⟩ := fuse_rep hi hP hNn hC hF hF1 hB hr al inplace
  set m := newMask fr rows with hm
  have hlen : ∀ {X l}, a X = some l → l.length = fr.B := fun hl => by rw [hw.length hl, hB]
  have szs : ∀ {X l}, a X = some l → ∀ b, sizeAt l b = sizeAt P b := fun hl b => sizeAt_sizes (hw.rows _ _ hl) b
  have pl : ∀ f, (picked fr m f).length = fr.B := picked_length fr m
  have pal : (pickedAl al fr m).length = fr.B := by simp [pickedAl]
  have psz : ∀ f b, b < fr.B → sizeAt (picked fr m f) b = (pixels fr.L fr.H fr.W (m b)).length := by
    intro f b hb
    rw [sizeAt_eq (by rw [pl]; exact hb)]
    simp [picked]
  have szcat : ∀ {l q : List (T2 α)} {b}, l.length = q.length → b < l.length → sizeAt (catL l q) b = sizeAt l b + sizeAt q b := by
    intro l q b h hb
    have hb' : b < q.length := h ▸ hb
    rw [sizeAt_eq (by rw [catL_length h]; exact hb), sizeAt_eq hb, sizeAt_eq hb']
    simp [catL]
  -- one description for the two cases
  have cases : ∃ P1 N1 C1 F1, mergedOr al fr rows P Nn C F a .points = some P1 ∧ mergedOr al fr rows P Nn C F a .normals = some N1 ∧
      mergedOr al fr rows P Nn C F a .colors = some C1 ∧ mergedOr al fr rows P Nn C F a .features = some F1 ∧
      sizes P1 = sizes P ∧ sizes N1 = sizes P ∧ sizes C1 = sizes P ∧ sizes F1 = sizes P ∧
      MergedAttr rows F (fun r => al (fr.v r.b 0 r.h r.w)) (fun r => fr.gv r.b 0 r.h r.w) P P1 ∧
      MergedAttr rows F (fun r => al (fr.v r.b 0 r.h r.w)) (fun r => fr.gn r.b 0 r.h r.w) Nn N1 ∧
      MergedAttr rows F (fun r => al (fr.v r.b 0 r.h r.w)) (fun r => fr.rgb r.b 0 r.h r.w) C C1 ∧
      MergedConf rows (fun r => al (fr.v r.b 0 r.h r.w)) F F1 := by
    by_cases h0 : rows = []
    · subst h0
      refine ⟨P, Nn, C, F, by simp [mergedOr, hP], by simp [mergedOr, hNn], by simp [mergedOr, hC], by simp [mergedOr, hF],
        rfl, hw.rows _ _ hNn, hw.rows _ _ hC, hw.rows _ _ hF, .none, .none, .none, ⟨by simp, fun _ _ _ _ => rfl⟩⟩
    · refine ⟨mergeImg al fr rows F fr.gv P, mergeImg al fr rows F fr.gn Nn, mergeImg al fr rows F fr.rgb C, mergeConf al fr rows F,
        by rw [mergedOr, if_neg h0]; rfl, by rw [mergedOr, if_neg h0]; rfl, by rw [mergedOr, if_neg h0]; rfl,
        by rw [mergedOr, if_neg h0]; rfl, sizes_mapRows _ _, (sizes_mapRows _ _).trans (hw.rows _ _ hNn),
        (sizes_mapRows _ _).trans (hw.rows _ _ hC), (sizes_mapRows _ _).trans (hw.rows _ _ hF),
        mergedAttr hw (by simp) hP hF hF1 al fr hu _ h0, mergedAttr hw (by simp) hNn hF hF1 al fr hu _ h0,
        mergedAttr hw (by simp) hC hF hF1 al fr hu _ h0, ⟨?_, ?_⟩⟩
      · intro r hmem
        have hs : (rowAt F r.b r.n).isSome := by rw [rowAt_isSome hw hF]; exact (hr r hmem).1
        rw [conf_merge (hw.valid _ _ hF) hF1 al fr rows hs, scatterAl_some hu hmem]
      · intro b n hs hun
        rw [conf_merge (hw.valid _ _ hF) hF1 al fr rows hs, scatterAl_none hun, add_zero]
  obtain ⟨P1, N1, C1, F1, q1, q2, q3, q4, z1, z2, z3, z4, m1, m2, m3, m4⟩ := cases
  have lenOf : ∀ {l : List (T2 α)}, sizes l = sizes P → l.length = fr.B := by
    intro l h; have := congrArg List.length h; simpa [sizes, hB] using this
  refine ⟨res, s', catL P1 (picked fr m fr.gv), catL N1 (picked fr m fr.gn), catL C1 (picked fr m fr.rgb), catL F1 (pickedAl al fr m), e,
    ⟨_, h1, specAppend_some q1 rfl, specAppend_some q2 rfl, specAppend_some q3 rfl, specAppend_some q4 rfl⟩, ?_,
    m1.cat (by rw [lenOf z1, pl]), m2.cat (by rw [lenOf z2, pl]), m3.cat (by rw [lenOf z3, pl]), ⟨?_, ?_⟩, ?_, ?_, ?_, ?_⟩
  · intro b hb
    rw [szcat (by rw [lenOf z1, pl]) (by rw [lenOf z1]; exact hb), psz _ _ hb, sizeAt_sizes z1]
  · intro r hmem
    have hs : (rowAt F1 r.b r.n).isSome := by
      rw [sizeAt_isSome, sizeAt_sizes z4, ← sizeAt_isSome]; exact (hr r hmem).1
    rw [conf_cat_old (by rw [lenOf z4, pal]) hs, m4.matched r hmem]
  · intro b n hs hun
    have hs' : (rowAt F1 b n).isSome := by
      rw [sizeAt_isSome, sizeAt_sizes z4, ← sizeAt_isSome, ← rowAt_isSome hw hF]; exact hs
    rw [conf_cat_old (by rw [lenOf z4, pal]) hs', m4.kept b n hs hun]
  · intro b hb k
    rw [← sizeAt_sizes z1, vecAt_cat_new (by rw [lenOf z1, pl]), vecAt_picked hb]
  · intro b hb k
    rw [← sizeAt_sizes z2, vecAt_cat_new (by rw [lenOf z2, pl]), vecAt_picked hb]
  · intro b hb k
    rw [← sizeAt_sizes z3, vecAt_cat_new (by rw [lenOf z3, pl]), vecAt_picked hb]
  · intro b hb k
    rw [← sizeAt_sizes z4, rowAt_catL (by rw [lenOf z4, pal]), if_neg (by omega), Nat.add_sub_cancel_left, conf_pickedAl hb]

/-- **C37**, the fused point lies on the segment between the map point and the measurement. -/
theorem wAvg_segment {c w : α} (hc : 0 ≤ c) (hw : 0 < w) (p q : V3 α) :
    ∃ t, 0 < t ∧ t ≤ 1 ∧ wAvg c w p q = p.add ((q.sub p).smul t) := by
  have h : 0 < c + w := by linarith
  refine ⟨w / (c + w), by positivity, (div_le_one h).2 (by linarith), ?_⟩
  ext <;> simp only [wAvg, V3.add, V3.sub, V3.smul] <;> field_simp <;> ring

/-! ### C38: pixels -/

/-- Row-major order of `(time, row, column)`. -/
def pixBefore (x y : Nat × Nat × Nat) : Prop := x.1 < y.1 ∨ x.1 = y.1 ∧ (x.2.1 < y.2.1 ∨ x.2.1 = y.2.1 ∧ x.2.2 < y.2.2)

/-- `pixels` lists exactly the pixels that satisfy the mask, in row-major order. -/
theorem pixels_spec (L H W : Nat) (m : Nat → Nat → Nat → Bool) :
    (∀ l h w, (l, h, w) ∈ pixels L H W m ↔ l < L ∧ h < H ∧ w < W ∧ m l h w = true) ∧ (pixels L H W m).Pairwise pixBefore := by
  constructor
  · intro l h w
    simp only [pixels, List.mem_filter, List.mem_flatMap, List.mem_range, List.mem_map, Prod.mk.injEq]
    constructor
    · rintro ⟨⟨l', hl, h', hh, w', hw, rfl, rfl, rfl⟩, hm⟩; exact ⟨hl, hh, hw, hm⟩
    · rintro ⟨hl, hh, hw, hm⟩; exact ⟨⟨l, hl, h, hh, w, hw, rfl, rfl, rfl⟩, hm⟩
  · apply List.Pairwise.filter
    rw [List.pairwise_flatMap]
    refine ⟨?_, ?_⟩
    · intro l _
      rw [List.pairwise_flatMap]
      refine ⟨?_, ?_⟩
      · intro h _
        rw [List.pairwise_map]
        exact List.pairwise_lt_range.imp fun h => .inr ⟨rfl, .inr ⟨rfl, h⟩⟩
      · refine List.pairwise_lt_range.imp fun {h1 h2} hlt x hx y hy => ?_
        simp only [List.mem_map] at hx hy
        obtain ⟨w1, _, rfl⟩ := hx
        obtain ⟨w2, _, rfl⟩ := hy
        exact .inr ⟨rfl, .inl hlt⟩
    · refine List.pairwise_lt_range.imp fun {l1 l2} hlt x hx y hy => ?_
      simp only [List.mem_flatMap, List.mem_map] at hx hy
      obtain ⟨h1, _, w1, _, rfl⟩ := hx
      obtain ⟨h2, _, w2, _, rfl⟩ := hy
      exact .inl hlt

theorem pixels_nodup (L H W : Nat) (m : Nat → Nat → Nat → Bool) : (pixels L H W m).Nodup := by
  refine (pixels_spec L H W m).2.imp fun {x y} h e => ?_
  subst e; unfold pixBefore at h; omega

theorem newMask_iff (fr : Frame α) (rows : List Row) (b h w : Nat) :
    newMask fr rows b 0 h w = true ↔ fr.valid b 0 h w = true ∧ ∀ r ∈ rows, ¬ (r.b = b ∧ r.h = h ∧ r.w = w) := by
  simp only [newMask, beq_self_eq_true, Bool.true_and, Bool.and_eq_true, Bool.not_eq_true', List.any_eq_false, decide_eq_true_eq]
  exact and_comm

/-- The pixels of the table's rows of batch element `b`. -/
def rowPixels (rows : List Row) (b : Nat) : List (Nat × Nat × Nat) := (rows.filter fun r => r.b = b).map fun r => (0, r.h, r.w)

/-- **C38**, first half.  The valid pixels of frame `b` are the appended pixels together with the merged pixels, each exactly once. -/
theorem pixels_split {fr : Frame α} {rows : List Row} (hL : fr.L = 1) (hx : UniquePix rows)
    (hr : ∀ r ∈ rows, r.h < fr.H ∧ r.w < fr.W ∧ fr.valid r.b 0 r.h r.w = true) (b : Nat) :
    (pixels fr.L fr.H fr.W (fr.valid b)).Perm (pixels fr.L fr.H fr.W (newMask fr rows b) ++ rowPixels rows b) := by
  have hn : (rowPixels rows b).Nodup := by
    rw [rowPixels, List.nodup_iff_pairwise_ne, List.pairwise_map]
    refine List.Pairwise.imp_of_mem ?_ (List.Pairwise.filter _ hx)
    intro r s hr hs h e
    simp only [List.mem_filter, decide_eq_true_eq] at hr hs
    simp only [Prod.mk.injEq, true_and] at e
    exact h ⟨hr.2.trans hs.2.symm, e⟩
  have hmem : ∀ h w, (0, h, w) ∈ rowPixels rows b ↔ ∃ r ∈ rows, r.b = b ∧ r.h = h ∧ r.w = w := by
    intro h w
    simp only [rowPixels, List.mem_map, List.mem_filter, decide_eq_true_eq, Prod.mk.injEq, true_and]
    constructor
    · rintro ⟨r, ⟨h1, h2⟩, h3⟩; exact ⟨r, h1, h2, h3⟩
    · rintro ⟨r, h1, h2, h3⟩; exact ⟨r, ⟨h1, h2⟩, h3⟩
  have hzero : ∀ x ∈ rowPixels rows b, x.1 = 0 := by
    intro x hx
    simp only [rowPixels, List.mem_map] at hx
    obtain ⟨r, _, rfl⟩ := hx; rfl
  apply (List.perm_ext_iff_of_nodup (pixels_nodup _ _ _ _) _).2
  · rintro ⟨l, h, w⟩
    rw [List.mem_append, (pixels_spec _ _ _ _).1, (pixels_spec _ _ _ _).1, hL]
    constructor
    · rintro ⟨h1, h2, h3, h4⟩
      obtain rfl : l = 0 := by omega
      by_cases hc : ∃ r ∈ rows, r.b = b ∧ r.h = h ∧ r.w = w
      · exact .inr ((hmem h w).2 hc)
      · left
        refine ⟨h1, h2, h3, (newMask_iff fr rows b h w).2 ⟨h4, ?_⟩⟩
        intro r hr hh; exact hc ⟨r, hr, hh⟩
    · rintro (⟨h1, h2, h3, h4⟩ | hc)
      · obtain rfl : l = 0 := by omega
        exact ⟨h1, h2, h3, ((newMask_iff fr rows b h w).1 h4).1⟩
      · obtain rfl : l = 0 := hzero _ hc
        obtain ⟨r, hm, rfl, rfl, rfl⟩ := (hmem h w).1 hc
        exact ⟨by omega, hr r hm⟩
  · rw [List.nodup_append]
    refine ⟨pixels_nodup _ _ _ _, hn, ?_⟩
    rintro ⟨l, h, w⟩ h1 ⟨l', h', w'⟩ h2 e
    simp only [Prod.mk.injEq] at e
    obtain ⟨rfl, rfl, rfl⟩ := e
    obtain rfl : l = 0 := hzero _ h2
    obtain ⟨r, hm, hh⟩ := (hmem h w).1 h2
    exact ((newMask_iff fr rows b h w).1 ((pixels_spec _ _ _ _).1 0 h w |>.1 h1).2.2.2).2 r hm hh

/-! ### C38: confidence -/

/-- Sum of the confidences of cloud `b`. -/
def totalConf (F : List (T2 α)) (b : Nat) : α := ∑ n ∈ Finset.range (sizeAt F b), conf F b n

theorem scatterAl_sum {al : V3 α → α} {fr : Frame α} {rows : List Row} (hu : UniquePts rows) (b N : Nat)
    (hN : ∀ r ∈ rows, r.b = b → r.n < N) :
    ∑ n ∈ Finset.range N, scatterAl al fr rows b n = ((rows.filter fun r => r.b = b).map fun r => al (fr.v b 0 r.h r.w)).sum := by
  induction rows with
  | nil => simp [scatterAl, lastAt]
  | cons r rows ih =>
    have hu' : UniquePts rows := (List.pairwise_cons.1 hu).2
    have hne := (List.pairwise_cons.1 hu).1
    have key : ∀ n, scatterAl al fr (r :: rows) b n = (if r.b = b ∧ r.n = n then al (fr.v b 0 r.h r.w) else 0) + scatterAl al fr rows b n := by
      intro n
      split_ifs with h
      · obtain ⟨rfl, rfl⟩ := h
        rw [scatterAl_some hu (List.mem_cons_self ..), scatterAl_none, add_zero]
        intro s hs hh
        exact hne s hs ⟨hh.1.symm, hh.2.symm⟩
      · rw [zero_add]
        by_cases hex : ∃ s ∈ rows, s.b = b ∧ s.n = n
        · obtain ⟨s, hs, rfl, rfl⟩ := hex
          rw [scatterAl_some hu (List.mem_cons_of_mem _ hs), scatterAl_some hu' hs]
        · rw [scatterAl_none, scatterAl_none]
          · intro s hs hh; exact hex ⟨s, hs, hh⟩
          · intro s hs hh
            rcases List.mem_cons.1 hs with hs | hs
            · rw [hs] at hh; exact h hh
            · exact hex ⟨s, hs, hh⟩
    rw [Finset.sum_congr rfl fun n _ => key n, Finset.sum_add_distrib, ih hu' (fun s hs => hN s (List.mem_cons_of_mem _ hs))]
    by_cases hb : r.b = b
    · have hlt := hN r (List.mem_cons_self ..) hb
      simp only [hb, true_and, List.filter_cons, decide_true, if_true, List.map_cons, List.sum_cons]
      rw [Finset.sum_ite_eq, if_pos (Finset.mem_range.2 hlt)]
    · simp only [hb, false_and, if_false, Finset.sum_const_zero, zero_add, List.filter_cons, decide_false, Bool.false_eq_true]

theorem sum_range_getD (f : Nat → α) (l : List α) (h : ∀ k, k < l.length → f k = l.getD k 0) : ∑ k ∈ Finset.range l.length, f k = l.sum := by
  induction l using List.reverseRecOn with
  | nil => simp
  | append_singleton l x ih =>
    rw [List.length_append, List.length_singleton, Finset.sum_range_succ, List.sum_append, List.sum_singleton]
    rw [ih, h l.length (by simp)]
    · simp
    · intro k hk
      rw [h k (by simp; omega)]
      simp [List.getD_eq_getElem?_getD, List.getElem?_append_left hk]

/-- **C38**, second half.  If no map point and no pixel occurs twice in the table and matched pixels have valid depth (every table that
`find_correspondences` returns for `dot_th ≥ 0` is one, see C42), cloud `b` grows by the number of valid pixels minus the number of matched
pixels, and its total confidence grows by the sum of the weights of all valid pixels. -/
theorem fuse_conserves {s : PC α} {a : Clouds α} {P Nn C F : List (T2 α)} (hi : Inv s a) (hP : a .points = some P)
    (hNn : a .normals = some Nn) (hC : a .colors = some C) (hF : a .features = some F) (hF1 : ∀ t ∈ F, t.cols = 1)
    {fr : Frame α} {rows : List Row} (hL : fr.L = 1) (hB : fr.B = P.length) (hr : RowsOk P fr rows) (hu : UniquePts rows)
    (hx : UniquePix rows) (hv : ∀ r ∈ rows, fr.valid r.b 0 r.h r.w = true) (al : V3 α → α) (inplace : Bool) :
    ∃ res s' a' P' F', fuseWithMap al s fr rows inplace = (.ok res, s') ∧ Inv res a' ∧ a' .points = some P' ∧ a' .features = some F' ∧
      ∀ b < fr.B, sizeAt P' b + (rows.filter fun r => r.b = b).length = sizeAt P b + (pixels fr.L fr.H fr.W (fr.valid b)).length ∧
        totalConf F' b = totalConf F b + ((pixels fr.L fr.H fr.W (fr.valid b)).map fun x => al (fr.v b x.1 x.2.1 x.2.2)).sum := by
  obtain ⟨res, s', P', Nn', C', F', e, ⟨a', i', p', n', c', f'⟩, hsz, _, _, _, hmc, _, _, _, hap⟩ :=
    fuse_spec hi hP hNn hC hF hF1 hB hr hu al inplace
  have wf_of : ∀ {s : PC α} {a : Clouds α} {P}, Inv s a → a .points = some P → Wf a P := by
    intro s a P hi hP
    rcases hi with h | ⟨P', h, _⟩
    · rw [h.noPoints] at hP; cases hP
    · have := h.wf.pts; rw [hP] at this; rw [Option.some.inj this]; exact h.wf
  have hw := wf_of hi hP
  have hw' := wf_of i' p'
  refine ⟨res, s', a', P', F', e, i', p', f', ?_⟩
  intro b hb
  have hperm := pixels_split hL hx (fun r hm => ⟨(hr r hm).2.2.1, (hr r hm).2.2.2, hv r hm⟩) b
  constructor
  · have := hperm.length_eq
    simp only [List.length_append, rowPixels, List.length_map] at this
    rw [hsz b hb]; omega
  · have e1 : sizeAt F' b = sizeAt P b + (pixels fr.L fr.H fr.W (newMask fr rows b)).length := by
      rw [sizeAt_sizes (hw'.rows _ _ f'), hsz b hb]
    have e2 : sizeAt F b = sizeAt P b := sizeAt_sizes (hw.rows _ _ hF) b
    rw [totalConf, e1, Finset.sum_range_add, totalConf, e2]
    have hold : ∀ n ∈ Finset.range (sizeAt P b), conf F' b n = conf F b n + scatterAl al fr rows b n := by
      intro n hn
      have hs : (rowAt F b n).isSome := by rw [sizeAt_isSome, e2]; exact Finset.mem_range.1 hn
      by_cases hex : ∃ r ∈ rows, r.b = b ∧ r.n = n
      · obtain ⟨r, hm, rfl, rfl⟩ := hex
        rw [hmc.matched r hm, scatterAl_some hu hm]
      · have hun : ∀ r ∈ rows, ¬ (r.b = b ∧ r.n = n) := fun r hm hh => hex ⟨r, hm, hh⟩
        rw [hmc.kept b n hs hun, scatterAl_none hun, add_zero]
    rw [Finset.sum_congr rfl hold, Finset.sum_add_distrib, scatterAl_sum hu b _ (fun r hm hbb => by
      have := (hr r hm).1; rw [hbb] at this; exact sizeAt_isSome.1 this)]
    have hnew : ∑ k ∈ Finset.range (pixels fr.L fr.H fr.W (newMask fr rows b)).length, conf F' b (sizeAt P b + k) =
        ((pixels fr.L fr.H fr.W (newMask fr rows b)).map fun x => al (fr.v b x.1 x.2.1 x.2.2)).sum := by
      rw [← sum_range_getD (fun k => conf F' b (sizeAt P b + k))]
      · simp
      · intro k hk
        rw [conf, hap b hb]
        have hk' : k < (pixels fr.L fr.H fr.W (newMask fr rows b)).length := by simpa using hk
        simp [List.getD_eq_getElem?_getD, List.getElem?_eq_getElem hk']
    rw [hnew, (hperm.map _).sum_eq, List.map_append, List.sum_append]
    simp only [rowPixels, List.map_map, Function.comp_def]
    ring

end
end Verif.Fusion
