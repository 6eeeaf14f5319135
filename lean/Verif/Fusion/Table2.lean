import Verif.Fusion.Table
/-!
C114, the functions that compute correspondences, on a table that the caller wrote: `find_similar_map_points` and
`find_best_unique_correspondences` with negative, out-of-range or repeated entries.
-/
namespace Verif.Fusion
open Verif Pcs
set_option linter.unusedSectionVars false
set_option linter.unusedSimpArgs false

/-! ### Model -/

section
variable {α : Type*} [Field α] [LinearOrder α]

/-- `find_similar_map_points` on any int64 table, fusionutils.py:290-411: the entries are resolved by the index expressions of lines
383-388 and 396; the rows that are returned are the caller's rows. -/
def similarTable (nrm : V3 α → α) (pc : PC α) (fr : Frame α) (t : List IRow) (distTh dotTh : α) :
    Except Err (List IRow × List Bool) × PC α :=
  if fr.L ≠ 1 then (.error valueError, pc)
  else
    let (h, pc) := hasAttr .points pc
    if !h || t.length = 0 then (.ok ([], []), pc)
    else if fr.B ≠ pc.B then (.error valueError, pc)
    else
      let (hn, pc) := hasAttr .normals pc
      if !hn then (.error valueError, pc)
      else match getPad .points pc with
        | (.error e, pc) => (.error (.pcs e), pc)
        | (.ok p, pc) => match getPad .normals pc with
          | (.error e, pc) => (.error (.pcs e), pc)
          | (.ok nn, pc) => match resolve (shape3 (p.getD [])).1 (shape3 (p.getD [])).2.1 fr t with
            | none => (.error (.pcs .indexError), pc)
            | some rows =>
              let mask := rows.map fun r => similarAt nrm fr rows (p.getD []) (nn.getD []) distTh dotTh r.b r.n
              (.ok (((t.zip mask).filter (·.2)).map (·.1), mask), pc)
end

namespace Tab
/-- `int64 → float32 → int64`. -/
def f32 (i : Int) : Int := if 0 ≤ i then (Fusion.f32 i.natAbs : Int) else -(Fusion.f32 i.natAbs : Int)

/-- A row `[b, h, w, 1/ccount, dist², n]` of `unique_criteria_bhwcrn`: the columns taken from the table are its raw entries,
fusionutils.py:508-515. -/
structure Key (α : Type*) where
  b : Int
  h : Int
  w : Int
  invc : α
  dist : α
  n : Int
  deriving DecidableEq

section
variable {α : Type*} [Field α] [LinearOrder α]

/-- Lexicographic comparison of the rows. -/
def keyLE (x y : Key α) : Prop :=
  x.b < y.b ∨ x.b = y.b ∧ (x.h < y.h ∨ x.h = y.h ∧ (x.w < y.w ∨ x.w = y.w ∧ (x.invc < y.invc ∨ x.invc = y.invc ∧
    (x.dist < y.dist ∨ x.dist = y.dist ∧ x.n ≤ y.n))))

instance : DecidableRel (keyLE (α := α)) := fun _ _ => by unfold keyLE; infer_instance

/-- fusionutils.py:489-517. -/
def keyOf (fr : Frame α) (p f : List (T2 α)) (i : IRow) (r : Row) : Key α :=
  ⟨f32 i.b, f32 i.h, f32 i.w, 1 / ((cell f r.b r.n).getD 0 0 + 1 / 10 ^ 20),
    ((toV3 (cell p r.b r.n)).sub (fr.gv r.b 0 r.h r.w)).normSq, f32 i.n⟩

/-- The rows that differ from their predecessor in one of the first three columns, fusionutils.py:527-536. -/
def keepFirst : Option (Key α) → List (Key α) → List (Key α)
  | _, [] => []
  | none, k :: ks => k :: keepFirst (some k) ks
  | some j, k :: ks => if k.b = j.b ∧ k.h = j.h ∧ k.w = j.w then keepFirst (some k) ks else k :: keepFirst (some k) ks

/-- fusionutils.py:519-546. -/
def bestRows (ks : List (Key α)) : List IRow :=
  (keepFirst none (ks.insertionSort keyLE).dedup).map fun k => ⟨k.b, k.n, k.h, k.w⟩
end
end Tab

section
variable {α : Type*} [Field α] [LinearOrder α]

/-- `find_best_unique_correspondences` on any int64 table, fusionutils.py:414-546: the entries are resolved where the map and the vertex map
are indexed (lines 489-503), but the keys that are compared are the caller's numbers. -/
def bestTable (pc : PC α) (fr : Frame α) (t : List IRow) : Except Err (List IRow) × PC α :=
  if fr.L ≠ 1 then (.error valueError, pc)
  else
    let (h, pc) := hasAttr .points pc
    if !h || t.length = 0 then (.ok [], pc)
    else if fr.B ≠ pc.B then (.error valueError, pc)
    else
      let (hf, pc) := hasAttr .features pc
      if !hf then (.error valueError, pc)
      else match getPad .features pc with
        | (.error e, pc) => (.error (.pcs e), pc)
        | (.ok f, pc) => match getPad .points pc with
          | (.error e, pc) => (.error (.pcs e), pc)
          | (.ok p, pc) => match resolve (shape3 (p.getD [])).1 (shape3 (p.getD [])).2.1 fr t with
            | none => (.error (.pcs .indexError), pc)
            | some rows => (.ok (Tab.bestRows (List.zipWith (Tab.keyOf fr (p.getD []) (f.getD [])) t rows)), pc)
end

/-! ### find_similar_map_points -/

section
variable {α : Type*} [Field α] [LinearOrder α] [IsStrictOrderedRing α]

/-- What happens before the table is looked at. -/
theorem similarTable_start {nrm : V3 α → α} {pc : PC α} {a : Clouds α} {P Nn : List (T2 α)} {fr : Frame α} {t : List IRow} {distTh dotTh : α}
    (hi : Inv pc a) (hP : a .points = some P) (hn : a .normals = some Nn) (hL : fr.L = 1) (hB : fr.B = P.length) {N : Nat}
    (hN : Longest P N) (ht : t ≠ []) :
    ∃ pc', Inv pc' a ∧ similarTable nrm pc fr t distTh dotTh = match resolve P.length N fr t with
      | none => (.error (.pcs .indexError), pc')
      | some rows =>
        let mask := rows.map fun r => similarAt nrm fr rows (padL N P) (padL N Nn) distTh dotTh r.b r.n
        (.ok (((t.zip mask).filter (·.2)).map (·.1), mask), pc') := by
  rcases hi with h | ⟨P', h, hm⟩
  · rw [h.noPoints] at hP; cases hP
  obtain rfl : P' = P := by have := h.wf.pts; rw [hP] at this; exact (Option.some.inj this).symm
  obtain ⟨s1, e1, r1, f1, p1, _⟩ := h.hasAttr .points
  obtain ⟨s2, e2, r2, f2, p2, _⟩ := r1.hasAttr .normals
  obtain ⟨s3, e3, r3, _, f3, _⟩ := r2.getPad .points
  obtain ⟨s4, e4, r4, _, f4, _⟩ := r3.getPad .normals
  rw [hP] at e3
  rw [hn] at e4
  simp only [Option.map_some] at e3 e4
  have hs := shape_pad r2 hP (h.wf.cols3 (by simp) hP)
  rw [r2.hN, maxL_longest hN] at hs e3
  rw [r3.hN, maxL_longest hN] at e4
  refine ⟨s4, .inr ⟨P', r4, (((hm.frame f1.eq f1.mask).frame f2.eq f2.mask).frame f3.eq f3.mask).frame f4.eq f4.mask⟩, ?_⟩
  have hl : t.length ≠ 0 := fun h0 => ht (List.length_eq_zero_iff.1 h0)
  simp only [similarTable, hL, ne_eq, not_true_eq_false, if_false, e1, h.hasPoints, Bool.not_true, Bool.false_or, decide_eq_true_eq, hl]
  rw [if_neg (by rw [hB, r1.hB]; simp)]
  simp only [e2, hn, Option.isSome_some, Bool.not_true, Bool.false_eq_true, if_false, e3, e4, Option.getD_some, hs]

/-- **C114**: `find_similar_map_points` raises IndexError for an entry out of range; the map is not changed. -/
theorem similar_index_error {nrm : V3 α → α} {pc : PC α} {a : Clouds α} {P Nn : List (T2 α)} {fr : Frame α} {t : List IRow}
    {distTh dotTh : α} (hi : Inv pc a) (hP : a .points = some P) (hn : a .normals = some Nn) (hL : fr.L = 1) (hB : fr.B = P.length) {N : Nat}
    (hN : Longest P N) {i : IRow} (ht : i ∈ t) (ho : OutOfRange P.length N fr i) :
    ∃ pc', similarTable nrm pc fr t distTh dotTh = (.error (.pcs .indexError), pc') ∧ Inv pc' a := by
  obtain ⟨pc', h1, h2⟩ := similarTable_start (nrm := nrm) (distTh := distTh) (dotTh := dotTh) hi hP hn hL hB hN (List.ne_nil_of_mem ht)
  rw [resolve_none.2 ⟨i, ht, ho⟩] at h2
  exact ⟨pc', h2, h1⟩

/-- **C114**: otherwise the caller's rows are returned, filtered by a mask with one entry per row.  All rows that denote the same map point
get the verdict of the last of them; a row that denotes a place behind the end of its cloud is dropped (if `dot_th ≥ 0`). -/
theorem similar_table {nrm : V3 α → α} {pc : PC α} {a : Clouds α} {P Nn : List (T2 α)} {fr : Frame α} {t : List IRow}
    {distTh dotTh : α} (hi : Inv pc a) (hP : a .points = some P) (hn : a .normals = some Nn) (hL : fr.L = 1) (hB : fr.B = P.length) {N : Nat}
    (hN : Longest P N) (ht : t ≠ []) {rows : List Row} (hr : List.Forall₂ (DenotesRow P.length N fr) t rows) :
    ∃ out mask pc', similarTable nrm pc fr t distTh dotTh = (.ok (out, mask), pc') ∧ Inv pc' a ∧ mask.length = t.length ∧
      out = ((t.zip mask).filter (·.2)).map (·.1) ∧
      ∀ (k : Nat) r q, rows[k]? = some r → LastFor rows q → q.b = r.b → q.n = r.n →
        (∀ p m, vecAt P r.b r.n = some p → vecAt Nn r.b r.n = some m →
          (mask[k]? = some true ↔ nrm ((fr.gv q.b 0 q.h q.w).sub p) < distTh ∧ dotTh < (fr.gn q.b 0 q.h q.w).dot m)) ∧
        (rowAt P r.b r.n = none → 0 ≤ dotTh → mask[k]? = some false) := by
  obtain ⟨pc', h1, h2⟩ := similarTable_start (nrm := nrm) (distTh := distTh) (dotTh := dotTh) hi hP hn hL hB hN ht
  rw [resolve_iff.2 hr] at h2
  refine ⟨_, _, pc', h2, h1, by rw [List.length_map, hr.length_eq], rfl, ?_⟩
  intro k r q hk hq hqb hqn
  have hw : Wf a P := inv_wf hi hP
  have e1 : lastAt rows r.b r.n = some q := by rw [← hqb, ← hqn]; exact lastAt_last hq
  have hrm : r ∈ rows := List.mem_of_getElem? hk
  have hden : r.b < P.length ∧ r.n < N := by
    obtain ⟨k', hk', rfl⟩ := List.getElem_of_mem hrm
    have h1 : k' < t.length := by rw [hr.length_eq]; exact hk'
    obtain ⟨d1, d2, _, _⟩ := hr.get h1 hk'
    exact ⟨d1.1, d2.1⟩
  simp only [List.getElem?_map, hk, Option.map_some, Option.some.injEq, similarAt, scatter, e1, arePointsClose, areNormalsSimilar,
    Bool.and_eq_true, decide_eq_true_eq]
  constructor
  · intro p m hp hm
    simp only [vecAt, Option.map_eq_some_iff] at hp hm
    obtain ⟨x, hx, rfl⟩ := hp
    obtain ⟨y, hy, rfl⟩ := hm
    rw [cell_padL hx, cell_padL hy]
  · intro hnone hd
    have hnn : rowAt Nn r.b r.n = none := rowAt_of_sizes (hw.rows _ _ hn) hnone
    have hc := cell_padL_none (C := 3) (N := N) (by rw [hw.length hn]; exact hden.1) (by
      intro u hu
      have := le_maxL (List.mem_map_of_mem (f := fun t : T2 α => t.rows.length) hu)
      have h6 : sizes Nn = sizes P := hw.rows _ _ hn
      have h5 : maxL (sizes Nn) = N := by rw [h6, maxL_longest hN]
      rw [← h5]; exact this) (hw.cols3 (by simp) hn) hnn hden.2
    rw [hc]
    have hz : (fr.gn q.b 0 q.h q.w).dot (toV3 (List.replicate 3 (0 : α))) = 0 := by simp [toV3, V3.dot, List.replicate]
    rw [hz, Bool.and_eq_false_iff]
    right
    simp only [gt_iff_lt, decide_eq_false_iff_not, not_lt]
    exact hd
end

/-! ### find_best_unique_correspondences -/

namespace Tab
section
variable {α : Type*} [Field α] [LinearOrder α] [IsStrictOrderedRing α]

theorem keyLE_trans {x y z : Key α} (h1 : keyLE x y) (h2 : keyLE y z) : keyLE x z := by
  unfold keyLE at *
  rcases h1 with h1 | ⟨e1, h1⟩
  · rcases h2 with h2 | ⟨e2, _⟩
    · left; omega
    · left; omega
  rcases h2 with h2 | ⟨e2, h2⟩
  · left; omega
  refine .inr ⟨e1.trans e2, ?_⟩
  rcases h1 with h1 | ⟨e3, h1⟩
  · rcases h2 with h2 | ⟨e4, _⟩
    · left; omega
    · left; omega
  rcases h2 with h2 | ⟨e4, h2⟩
  · left; omega
  refine .inr ⟨e3.trans e4, ?_⟩
  rcases h1 with h1 | ⟨e5, h1⟩
  · rcases h2 with h2 | ⟨e6, _⟩
    · left; omega
    · left; omega
  rcases h2 with h2 | ⟨e6, h2⟩
  · left; omega
  refine .inr ⟨e5.trans e6, ?_⟩
  rcases h1 with h1 | ⟨e7, h1⟩
  · rcases h2 with h2 | ⟨e8, _⟩
    · left; exact h1.trans h2
    · left; rw [← e8]; exact h1
  rcases h2 with h2 | ⟨e8, h2⟩
  · left; rw [e7]; exact h2
  refine .inr ⟨e7.trans e8, ?_⟩
  rcases h1 with h1 | ⟨e9, h1⟩
  · rcases h2 with h2 | ⟨e8, _⟩
    · left; exact h1.trans h2
    · left; rw [← e8]; exact h1
  rcases h2 with h2 | ⟨e10, h2⟩
  · left; rw [e9]; exact h2
  exact .inr ⟨e9.trans e10, h1.trans h2⟩

theorem keyLE_total (x y : Key α) : keyLE x y ∨ keyLE y x := by
  unfold keyLE
  rcases lt_trichotomy x.b y.b with h | h | h
  · exact .inl (.inl h)
  · rcases lt_trichotomy x.h y.h with h' | h' | h'
    · exact .inl (.inr ⟨h, .inl h'⟩)
    · rcases lt_trichotomy x.w y.w with k | k | k
      · exact .inl (.inr ⟨h, .inr ⟨h', .inl k⟩⟩)
      · rcases lt_trichotomy x.invc y.invc with k' | k' | k'
        · exact .inl (.inr ⟨h, .inr ⟨h', .inr ⟨k, .inl k'⟩⟩⟩)
        · rcases lt_trichotomy x.dist y.dist with l | l | l
          · exact .inl (.inr ⟨h, .inr ⟨h', .inr ⟨k, .inr ⟨k', .inl l⟩⟩⟩⟩)
          · rcases le_total x.n y.n with m | m
            · exact .inl (.inr ⟨h, .inr ⟨h', .inr ⟨k, .inr ⟨k', .inr ⟨l, m⟩⟩⟩⟩⟩)
            · exact .inr (.inr ⟨h.symm, .inr ⟨h'.symm, .inr ⟨k.symm, .inr ⟨k'.symm, .inr ⟨l.symm, m⟩⟩⟩⟩⟩)
          · exact .inr (.inr ⟨h.symm, .inr ⟨h'.symm, .inr ⟨k.symm, .inr ⟨k'.symm, .inl l⟩⟩⟩⟩)
        · exact .inr (.inr ⟨h.symm, .inr ⟨h'.symm, .inr ⟨k.symm, .inl k'⟩⟩⟩)
      · exact .inr (.inr ⟨h.symm, .inr ⟨h'.symm, .inl k⟩⟩)
    · exact .inr (.inr ⟨h.symm, .inl h'⟩)
  · exact .inr (.inl h)

instance : Std.Total (keyLE (α := α)) := ⟨keyLE_total⟩
instance : IsTrans (Key α) keyLE := ⟨fun _ _ _ => keyLE_trans⟩

/-- Same pixel, and pixel order. -/
def samePix (x y : Key α) : Prop := x.b = y.b ∧ x.h = y.h ∧ x.w = y.w
def pixLt (x y : Key α) : Prop := x.b < y.b ∨ x.b = y.b ∧ (x.h < y.h ∨ x.h = y.h ∧ x.w < y.w)

theorem keyLE_pix {x y : Key α} (h : keyLE x y) : pixLt x y ∨ samePix x y := by
  unfold keyLE at h; unfold pixLt samePix
  rcases h with h | ⟨e, h | ⟨e', h | ⟨e'', _⟩⟩⟩
  · exact .inl (.inl h)
  · exact .inl (.inr ⟨e, .inl h⟩)
  · exact .inl (.inr ⟨e, .inr ⟨e', h⟩⟩)
  · exact .inr ⟨e, e', e''⟩

theorem pixLt_trans {x y z : Key α} (h : pixLt x y) (k : pixLt y z) : pixLt x z := by unfold pixLt at *; omega
theorem pixLt_same {x y z : Key α} (h : samePix x y) (k : pixLt y z) : pixLt x z := by unfold pixLt samePix at *; omega
theorem pixLt_ne {x y : Key α} (h : pixLt x y) : ¬ samePix x y := by unfold pixLt samePix at *; omega

theorem keepFirst_spec : ∀ (l : List (Key α)) (j : Key α), (j :: l).Pairwise keyLE →
    (keepFirst (some j) l).Sublist l ∧ (∀ k ∈ keepFirst (some j) l, pixLt j k) ∧ (keepFirst (some j) l).Pairwise pixLt ∧
    ∀ k ∈ l, samePix j k ∨ ∃ k' ∈ keepFirst (some j) l, samePix k' k ∧ keyLE k' k := by
  intro l
  induction l with
  | nil => intro j _; simp [keepFirst]
  | cons k ks ih =>
    intro j hj
    rw [List.pairwise_cons] at hj
    obtain ⟨i1, i2, i3, i4⟩ := ih k hj.2
    have hjk := hj.1 k (by simp)
    by_cases hs : k.b = j.b ∧ k.h = j.h ∧ k.w = j.w
    · have hs' : samePix j k := ⟨hs.1.symm, hs.2.1.symm, hs.2.2.symm⟩
      simp only [keepFirst, if_pos hs]
      refine ⟨i1.cons _, fun x hx => pixLt_same hs' (i2 x hx), i3, ?_⟩
      intro x hx
      rcases List.mem_cons.1 hx with rfl | hx
      · exact .inl hs'
      · rcases i4 x hx with h | h
        · left; unfold samePix at *; omega
        · exact .inr h
    · have hlt : pixLt j k := by
        rcases keyLE_pix hjk with h | h
        · exact h
        · exact absurd ⟨h.1.symm, h.2.1.symm, h.2.2.symm⟩ hs
      simp only [keepFirst, if_neg hs]
      refine ⟨i1.cons_cons _, ?_, ?_, ?_⟩
      · intro x hx
        rcases List.mem_cons.1 hx with rfl | hx
        · exact hlt
        · exact pixLt_trans hlt (i2 x hx)
      · rw [List.pairwise_cons]; exact ⟨i2, i3⟩
      · intro x hx
        right
        rcases List.mem_cons.1 hx with rfl | hx
        · exact ⟨x, by simp, ⟨rfl, rfl, rfl⟩, (keyLE_total x x).elim id id⟩
        · rcases i4 x hx with h | ⟨k', hk', h⟩
          · exact ⟨k, by simp, h, (List.pairwise_cons.1 hj.2).1 x hx⟩
          · exact ⟨k', by simp [hk'], h⟩

theorem keepFirst_none (l : List (Key α)) (hl : l.Pairwise keyLE) :
    (keepFirst none l).Sublist l ∧ (keepFirst none l).Pairwise pixLt ∧
    ∀ k ∈ l, ∃ k' ∈ keepFirst none l, samePix k' k ∧ keyLE k' k := by
  cases l with
  | nil => simp [keepFirst]
  | cons k ks =>
    obtain ⟨i1, i2, i3, i4⟩ := keepFirst_spec ks k hl
    simp only [keepFirst]
    refine ⟨i1.cons_cons _, List.pairwise_cons.2 ⟨i2, i3⟩, ?_⟩
    intro x hx
    rcases List.mem_cons.1 hx with rfl | hx
    · exact ⟨x, by simp, ⟨rfl, rfl, rfl⟩, (keyLE_total x x).elim id id⟩
    · rcases i4 x hx with h | ⟨k', hk', h⟩
      · exact ⟨k, by simp, h, (List.pairwise_cons.1 hl).1 x hx⟩
      · exact ⟨k', by simp [hk'], h⟩

theorem bestRows_spec (ks : List (Key α)) : ∃ best : List (Key α),
    bestRows ks = best.map (fun k => (⟨k.b, k.n, k.h, k.w⟩ : IRow)) ∧ (∀ k ∈ best, k ∈ ks) ∧ best.Pairwise pixLt ∧
    ∀ k ∈ ks, ∃ k' ∈ best, samePix k' k ∧ keyLE k' k := by
  have hs : ((ks.insertionSort keyLE).dedup).Pairwise keyLE :=
    (List.pairwise_insertionSort (keyLE (α := α)) ks).sublist (List.dedup_sublist _)
  obtain ⟨h1, h2, h3⟩ := keepFirst_none _ hs
  have hm : ∀ k, k ∈ (ks.insertionSort keyLE).dedup ↔ k ∈ ks := by
    intro k; rw [List.mem_dedup]; exact (List.perm_insertionSort _ ks).mem_iff
  exact ⟨_, rfl, fun k hk => (hm k).1 (h1.subset hk), h2, fun k hk => h3 k ((hm k).2 hk)⟩

theorem f32_small {i : Int} (h : -2 ^ 24 ≤ i ∧ i ≤ 2 ^ 24) : f32 i = i := by
  unfold f32
  have e := Fusion.f32_small (n := i.natAbs) (by omega)
  rw [e]
  split_ifs <;> omega
end
end Tab

section
variable {α : Type*} [Field α] [LinearOrder α] [IsStrictOrderedRing α]

/-- Every entry is a number that float32 holds exactly. -/
def SmallEntries (t : List IRow) : Prop := ∀ i ∈ t, (-2 ^ 24 ≤ i.b ∧ i.b ≤ 2 ^ 24) ∧ (-2 ^ 24 ≤ i.n ∧ i.n ≤ 2 ^ 24) ∧
  (-2 ^ 24 ≤ i.h ∧ i.h ≤ 2 ^ 24) ∧ (-2 ^ 24 ≤ i.w ∧ i.w ≤ 2 ^ 24)

/-- The same spelling of the same pixel. -/
def SameSpelling (i j : IRow) : Prop := i.b = j.b ∧ i.h = j.h ∧ i.w = j.w

theorem bestTable_start {pc : PC α} {a : Clouds α} {P F : List (T2 α)} {fr : Frame α} {t : List IRow}
    (hi : Inv pc a) (hP : a .points = some P) (hF : a .features = some F) (hL : fr.L = 1) (hB : fr.B = P.length) {N : Nat}
    (hN : Longest P N) (ht : t ≠ []) :
    ∃ pc', Inv pc' a ∧ bestTable pc fr t = match resolve P.length N fr t with
      | none => (.error (.pcs .indexError), pc')
      | some rows => (.ok (Tab.bestRows (List.zipWith (Tab.keyOf fr (padL N P) (padL N F)) t rows)), pc') := by
  rcases hi with h | ⟨P', h, hm⟩
  · rw [h.noPoints] at hP; cases hP
  obtain rfl : P' = P := by have := h.wf.pts; rw [hP] at this; exact (Option.some.inj this).symm
  obtain ⟨s1, e1, r1, f1, p1, _⟩ := h.hasAttr .points
  obtain ⟨s2, e2, r2, f2, p2, _⟩ := r1.hasAttr .features
  obtain ⟨s3, e3, r3, _, f3, _⟩ := r2.getPad .features
  obtain ⟨s4, e4, r4, _, f4, _⟩ := r3.getPad .points
  rw [hF] at e3
  rw [hP] at e4
  simp only [Option.map_some] at e3 e4
  have hs := shape_pad r3 hP (h.wf.cols3 (by simp) hP)
  rw [r2.hN, maxL_longest hN] at e3
  rw [r3.hN, maxL_longest hN] at e4 hs
  refine ⟨s4, .inr ⟨P', r4, (((hm.frame f1.eq f1.mask).frame f2.eq f2.mask).frame f3.eq f3.mask).frame f4.eq f4.mask⟩, ?_⟩
  have hl : t.length ≠ 0 := fun h0 => ht (List.length_eq_zero_iff.1 h0)
  simp only [bestTable, hL, ne_eq, not_true_eq_false, if_false, e1, h.hasPoints, Bool.not_true, Bool.false_or, decide_eq_true_eq, hl]
  rw [if_neg (by rw [hB, r1.hB]; simp)]
  simp only [e2, hF, Option.isSome_some, Bool.not_true, Bool.false_eq_true, if_false, e3, e4, Option.getD_some, hs]

/-- **C114**: `find_best_unique_correspondences` raises IndexError for an entry out of range; the map is not changed. -/
theorem best_index_error {pc : PC α} {a : Clouds α} {P F : List (T2 α)} {fr : Frame α} {t : List IRow}
    (hi : Inv pc a) (hP : a .points = some P) (hF : a .features = some F) (hL : fr.L = 1) (hB : fr.B = P.length) {N : Nat}
    (hN : Longest P N) {i : IRow} (ht : i ∈ t) (ho : OutOfRange P.length N fr i) :
    ∃ pc', bestTable pc fr t = (.error (.pcs .indexError), pc') ∧ Inv pc' a := by
  obtain ⟨pc', h1, h2⟩ := bestTable_start hi hP hF hL hB hN (List.ne_nil_of_mem ht)
  rw [resolve_none.2 ⟨i, ht, ho⟩] at h2
  exact ⟨pc', h2, h1⟩

/-- **C114**: otherwise the result consists of rows of the table, one for every spelling of a pixel, and the chosen row denotes a point of
highest confidence, among those of smallest distance, among all rows with that spelling.  (Rows that denote existing points, of
non-negative confidence; entries up to 2^24.) -/
theorem best_table {pc : PC α} {a : Clouds α} {P F : List (T2 α)} {fr : Frame α} {t : List IRow}
    (hi : Inv pc a) (hP : a .points = some P) (hF : a .features = some F) (hL : fr.L = 1) (hB : fr.B = P.length) {N : Nat}
    (hN : Longest P N) (ht : t ≠ []) {rows : List Row} (hr : List.Forall₂ (DenotesRow P.length N fr) t rows)
    (hp : ∀ r ∈ rows, (rowAt P r.b r.n).isSome) (hc : ∀ r ∈ rows, 0 ≤ conf F r.b r.n) (he : SmallEntries t) :
    ∃ out pc', bestTable pc fr t = (.ok out, pc') ∧ Inv pc' a ∧ (∀ i ∈ out, i ∈ t) ∧ out.Pairwise (fun i j => ¬ SameSpelling i j) ∧
      ∀ i r, (i, r) ∈ t.zip rows → ∃ j q, (j, q) ∈ t.zip rows ∧ j ∈ out ∧ SameSpelling j i ∧
        (conf F r.b r.n < conf F q.b q.n ∨ conf F q.b q.n = conf F r.b r.n ∧
          (rayDist P fr q < rayDist P fr r ∨ rayDist P fr q = rayDist P fr r ∧ j.n ≤ i.n)) := by
  obtain ⟨pc', h1, h2⟩ := bestTable_start hi hP hF hL hB hN ht
  rw [resolve_iff.2 hr] at h2
  have hw : Wf a P := inv_wf hi hP
  obtain ⟨best, e1, b1, b2, b3⟩ := Tab.bestRows_spec (List.zipWith (Tab.keyOf fr (padL N P) (padL N F)) t rows)
  have hkey : ∀ k, k ∈ List.zipWith (Tab.keyOf fr (padL N P) (padL N F)) t rows ↔
      ∃ i r, (i, r) ∈ t.zip rows ∧ k = (⟨i.b, i.h, i.w, 1 / (conf F r.b r.n + 1 / 10 ^ 20), rayDist P fr r, i.n⟩ : Tab.Key α) := by
    intro k
    have hzw : List.zipWith (Tab.keyOf fr (padL N P) (padL N F)) t rows = (t.zip rows).map fun x => Tab.keyOf fr (padL N P) (padL N F) x.1 x.2 := by
      rw [List.map_zip_eq_zipWith]; rfl
    rw [hzw, List.mem_map]
    have hone : ∀ i r, (i, r) ∈ t.zip rows → Tab.keyOf fr (padL N P) (padL N F) i r =
        (⟨i.b, i.h, i.w, 1 / (conf F r.b r.n + 1 / 10 ^ 20), rayDist P fr r, i.n⟩ : Tab.Key α) := by
      intro i r hm
      obtain ⟨m1, m2⟩ := List.of_mem_zip hm
      obtain ⟨x1, x2, x3, x4⟩ := he i m1
      have hsome := hp r m2
      obtain ⟨row, hrow⟩ := Option.isSome_iff_exists.1 hsome
      obtain ⟨row', hrow'⟩ := Option.isSome_iff_exists.1 ((rowAt_isSome hw hF r.b r.n).trans hsome)
      simp only [Tab.keyOf, Tab.f32_small x1, Tab.f32_small x2, Tab.f32_small x3, Tab.f32_small x4, cell_padL hrow, cell_padL hrow', conf,
        rayDist, vecAt, hrow, hrow', Option.map_some, Option.getD_some]
    constructor
    · rintro ⟨⟨i, r⟩, hm, rfl⟩; exact ⟨i, r, hm, hone i r hm⟩
    · rintro ⟨i, r, hm, rfl⟩; exact ⟨(i, r), hm, hone i r hm⟩
  simp only [e1] at h2
  refine ⟨_, pc', h2, h1, ?_, ?_, ?_⟩
  · intro i hm
    obtain ⟨k, hk, rfl⟩ := List.mem_map.1 hm
    obtain ⟨j, r, hz, rfl⟩ := (hkey k).1 (b1 k hk)
    exact (List.of_mem_zip hz).1
  · rw [List.pairwise_map]
    exact b2.imp fun h k => Tab.pixLt_ne h k
  · intro i r hz
    obtain ⟨k, hk, hs, hle⟩ := b3 _ ((hkey _).2 ⟨i, r, hz, rfl⟩)
    obtain ⟨j, q, hz', rfl⟩ := (hkey k).1 (b1 k hk)
    refine ⟨j, q, hz', List.mem_map.2 ⟨_, hk, rfl⟩, hs, ?_⟩
    have hcs := inv_conf_lt (hc q (List.of_mem_zip hz').2) (hc r (List.of_mem_zip hz).2)
    unfold Tab.keyLE at hle
    obtain ⟨s1, s2, s3⟩ := hs
    simp only at hle s1 s2 s3
    rcases hle with h | ⟨_, h | ⟨_, h | ⟨_, h⟩⟩⟩
    · omega
    · omega
    · omega
    · rcases h with h | ⟨h, h'⟩
      · left; exact hcs.1.1 h
      · right; exact ⟨hcs.2.1 h, h'⟩
end

/-! ### Concrete cases -/

/-- The pixel (1, 0) spelled in two ways: both rows survive, so the table that is returned is not one-to-one - points 0 and 1 of cloud 1
are both matched with this pixel.  Spelled in one way, one of them survives. -/
theorem best_twice :
    (match (bestTable sT (fr1 2) [⟨1, 0, 1, 0⟩, ⟨1, 1, -1, 0⟩]).1 with | .ok o => some o | .error _ => none) =
      some [⟨1, 1, -1, 0⟩, ⟨1, 0, 1, 0⟩] ∧
    (match (bestTable sT (fr1 2) [⟨1, 0, 1, 0⟩, ⟨1, 1, 1, 0⟩]).1 with | .ok o => some o | .error _ => none) =
      some [⟨1, 0, 1, 0⟩] ∧
    Denotes 2 1 1 ∧ Denotes 2 1 (-1) := by
  refine ⟨by decide +kernel, by decide +kernel, ?_, ?_⟩ <;> (unfold Denotes; decide)

/-- The hypotheses of `best_table` hold in the first of these cases. -/
theorem best_table_case : List.Forall₂ (DenotesRow PT.length 2 (fr1 2)) [⟨1, 0, 1, 0⟩, ⟨1, 1, -1, 0⟩] [⟨1, 0, 1, 0⟩, ⟨1, 1, 1, 0⟩] ∧
    (∀ r ∈ [(⟨1, 0, 1, 0⟩ : Row), ⟨1, 1, 1, 0⟩], (rowAt PT r.b r.n).isSome) ∧
    (∀ r ∈ [(⟨1, 0, 1, 0⟩ : Row), ⟨1, 1, 1, 0⟩], 0 ≤ conf FT r.b r.n) ∧ SmallEntries [⟨1, 0, 1, 0⟩, ⟨1, 1, -1, 0⟩] ∧
    (fr1 2).L = 1 := by
  refine ⟨.cons ?_ (.cons ?_ .nil), by decide, by decide +kernel, by unfold SmallEntries; decide, rfl⟩
  · unfold DenotesRow Denotes; decide
  · unfold DenotesRow Denotes; decide

/-- Repetition: the pixel (0, 0) matches point 0 of cloud 1 (the vertex there is the point), but a later row for the same point names a
pixel that does not, and both rows are dropped; in the other order both are kept.  A place behind the end of cloud 0 is dropped. -/
theorem similar_repeated :
    (match (similarTable Rgbd.nrm1 sT (fr1 2) [⟨1, 0, 0, 0⟩, ⟨1, 0, 0, 1⟩, ⟨0, -1, 0, 0⟩] 1 (1 / 2)).1 with | .ok o => some o.2 | .error _ => none) =
      some [false, false, false] ∧
    (match (similarTable Rgbd.nrm1 sT (fr1 2) [⟨1, 0, 0, 1⟩, ⟨-1, -2, -2, -2⟩, ⟨0, -1, 0, 0⟩] 1 (1 / 2)).1 with
      | .ok o => some o | .error _ => none) = some ([⟨1, 0, 0, 1⟩, ⟨-1, -2, -2, -2⟩], [true, true, false]) := by
  refine ⟨by decide +kernel, by decide +kernel⟩
end Verif.Fusion
