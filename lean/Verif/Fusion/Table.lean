import Verif.Fusion.FuseProps
import Verif.Fusion.Witness
/-!
C114: `fuse_with_map` on a lookup table that the caller wrote: entries may be negative, out of range or repeated.
-/
namespace Verif.Fusion
open Verif Pcs
set_option linter.unusedSectionVars false
set_option linter.unusedSimpArgs false

/-! ### Model -/

/-- A row of the int64 tensor `pc2im_bnhw`. -/
structure IRow where
  b : Int
  n : Int
  h : Int
  w : Int
  deriving DecidableEq, Repr

/-- An entry of an index tensor for an axis of size `n`: negative entries count from the end, others out of range raise. -/
def wrap (n : Nat) (i : Int) : Option Nat :=
  if 0 ≤ i then (if i < n then some i.toNat else none) else if -n ≤ i then some (i + n).toNat else none

section
variable {α : Type*}

/-- The indices of one row: `b` and `n` of the map's padded tensors, `h` and `w` of the images.  Simplified: the batch index is
resolved against the batch size of the map (the code indexes the frame's tensors with it as well; the theorems assume equal sizes). -/
def resolveRow (B N : Nat) (fr : Frame α) (r : IRow) : Option Row :=
  match wrap B r.b, wrap N r.n, wrap fr.H r.h, wrap fr.W r.w with
  | some b, some n, some h, some w => some ⟨b, n, h, w⟩
  | _, _, _, _ => none

/-- The whole table, `none` for an IndexError. -/
def resolve (B N : Nat) (fr : Frame α) : List IRow → Option (List Row)
  | [] => some []
  | r :: t => match resolveRow B N fr r, resolve B N fr t with
    | some q, some qs => some (q :: qs)
    | _, _ => none
end

section
variable {α : Type*} [Field α] [LinearOrder α]

/-- `fuse_with_map` on any int64 table, fusionutils.py:580-722: the table is used only if the map has points and the table has rows;
then the index expressions of lines 665-676 and 704 resolve its entries (line 659 has made `points_padded`, whose size is the
size of the longest cloud). -/
def fuseTable (al : V3 α → α) (pc : PC α) (fr : Frame α) (t : List IRow) (inplace : Bool) : Except Err (PC α) × PC α :=
  let (h, pc) := hasAttr .points pc
  let (ok, pc) := if h then requireAll [.normals, .colors, .features] pc else (true, pc)
  if !ok then (.error valueError, pc)
  else if !h || decide (t.length = 0) then fuseWithMap al pc fr [] inplace
  else match getPad .points pc with
    | (.error e, pc) => (.error (.pcs e), pc)
    | (.ok p, pc) => match resolve (shape3 (p.getD [])).1 (shape3 (p.getD [])).2.1 fr t with
      | none => (.error (.pcs .indexError), pc)
      | some rows => fuseWithMap al pc fr rows inplace
end

/-! ### Specification -/

/-- Python's reading of an index: `i` denotes element `k` of an axis with `n` elements. -/
def Denotes (n k : Nat) (i : Int) : Prop := k < n ∧ (i = k ∨ i = (k : Int) - n)

section
variable {α : Type*}

/-- `N` is the number of points of the longest cloud. -/
def Longest (P : List (T2 α)) (N : Nat) : Prop := (∀ t ∈ P, t.rows.length ≤ N) ∧ ∃ t ∈ P, t.rows.length = N

/-- The row of the table denotes place `n` of cloud `b` and the pixel `(h, w)`. -/
def DenotesRow (B N : Nat) (fr : Frame α) (i : IRow) (r : Row) : Prop :=
  Denotes B r.b i.b ∧ Denotes N r.n i.n ∧ Denotes fr.H r.h i.h ∧ Denotes fr.W r.w i.w

/-- An entry of the row is out of range. -/
def OutOfRange (B N : Nat) (fr : Frame α) (i : IRow) : Prop :=
  (i.b < -B ∨ B ≤ i.b) ∨ (i.n < -N ∨ N ≤ i.n) ∨ (i.h < -fr.H ∨ fr.H ≤ i.h) ∨ (i.w < -fr.W ∨ fr.W ≤ i.w)
end

/-- `r` is the last row of the table for its map point. -/
def LastFor (rows : List Row) (r : Row) : Prop :=
  ∃ l1 l2, rows = l1 ++ r :: l2 ∧ ∀ q ∈ l2, ¬ (q.b = r.b ∧ q.n = r.n)

section
variable {α : Type*} [Field α] [LinearOrder α]

/-- How one three-channel attribute changes: the last row of each map point is merged, earlier rows for it have no effect on it. -/
structure MergedLast (rows : List Row) (F : List (T2 α)) (w : Row → α) (img : Row → V3 α) (l l' : List (T2 α)) : Prop where
  matched : ∀ r, LastFor rows r → ∀ x, vecAt l r.b r.n = some x → conf F r.b r.n + w r ≠ 0 →
    vecAt l' r.b r.n = some (wAvg (conf F r.b r.n) (w r) x (img r))
  kept : ∀ b n x, vecAt l b n = some x → (∀ r ∈ rows, ¬ (r.b = b ∧ r.n = n)) → conf F b n ≠ 0 → vecAt l' b n = some x

/-- Confidences: only the weight of the last row is added. -/
structure ConfLast (rows : List Row) (w : Row → α) (F F' : List (T2 α)) : Prop where
  matched : ∀ r, LastFor rows r → (rowAt F r.b r.n).isSome → conf F' r.b r.n = conf F r.b r.n + w r
  kept : ∀ b n, (rowAt F b n).isSome → (∀ r ∈ rows, ¬ (r.b = b ∧ r.n = n)) → conf F' b n = conf F b n
end

/-! ### Indices -/

theorem wrap_iff {n k : Nat} {i : Int} : wrap n i = some k ↔ Denotes n k i := by
  unfold wrap Denotes
  split_ifs <;> simp only [Option.some.injEq, reduceCtorEq, false_iff] <;> omega

theorem wrap_none {n : Nat} {i : Int} : wrap n i = none ↔ i < -n ∨ n ≤ i := by
  unfold wrap
  split_ifs <;> simp only [reduceCtorEq, false_iff, true_iff] <;> omega

section
variable {α : Type*}

theorem resolveRow_iff {B N : Nat} {fr : Frame α} {i : IRow} {r : Row} : resolveRow B N fr i = some r ↔ DenotesRow B N fr i r := by
  unfold DenotesRow
  simp only [← wrap_iff]
  unfold resolveRow
  cases wrap B i.b <;> cases wrap N i.n <;> cases wrap fr.H i.h <;> cases wrap fr.W i.w <;> simp
  rcases r with ⟨b, n, h, w⟩
  simp

theorem resolveRow_none {B N : Nat} {fr : Frame α} {i : IRow} : resolveRow B N fr i = none ↔ OutOfRange B N fr i := by
  unfold OutOfRange
  simp only [← wrap_none]
  unfold resolveRow
  cases wrap B i.b <;> cases wrap N i.n <;> cases wrap fr.H i.h <;> cases wrap fr.W i.w <;> simp

theorem resolve_iff {B N : Nat} {fr : Frame α} : ∀ {t : List IRow} {rows : List Row},
    resolve B N fr t = some rows ↔ List.Forall₂ (DenotesRow B N fr) t rows
  | [], rows => by cases rows <;> simp [resolve]
  | i :: t, rows => by
    unfold resolve
    cases hr : resolveRow B N fr i with
    | none =>
      simp only [reduceCtorEq, false_iff]
      intro h
      cases h with
      | cons h _ => rw [resolveRow_iff.2 h] at hr; cases hr
    | some q =>
      cases ht : resolve B N fr t with
      | none =>
        simp only [reduceCtorEq, false_iff]
        intro h
        cases h with
        | cons _ h => rw [resolve_iff.2 h] at ht; cases ht
      | some qs =>
        simp only [Option.some.injEq]
        constructor
        · rintro rfl; exact .cons (resolveRow_iff.1 hr) (resolve_iff.1 ht)
        · intro h
          cases h with
          | cons h1 h2 =>
            rw [resolveRow_iff.2 h1] at hr; rw [resolve_iff.2 h2] at ht
            cases hr; cases ht; rfl

theorem resolve_none {B N : Nat} {fr : Frame α} : ∀ {t : List IRow}, resolve B N fr t = none ↔ ∃ i ∈ t, OutOfRange B N fr i
  | [] => by simp [resolve]
  | i :: t => by
    have ih := resolve_none (B := B) (N := N) (fr := fr) (t := t)
    rw [List.exists_mem_cons_iff, ← ih, ← resolveRow_none]
    conv_lhs => unfold resolve
    cases resolveRow B N fr i <;> cases resolve B N fr t <;> simp

theorem maxL_longest {P : List (T2 α)} {N : Nat} (h : Longest P N) : maxL (sizes P) = N := by
  obtain ⟨h1, t, ht, e⟩ := h
  apply le_antisymm
  · have hne : sizes P ≠ [] := by intro h0; simp [sizes] at h0; subst h0; cases ht
    obtain ⟨u, hu, e'⟩ := List.mem_map.1 (maxL_mem hne)
    have e2 : u.rows.length = maxL (sizes P) := e'
    rw [← e2]; exact h1 u hu
  · rw [← e]; exact le_maxL (List.mem_map_of_mem ht)

theorem lastAt_last {rows : List Row} {r : Row} (h : LastFor rows r) : lastAt rows r.b r.n = some r := by
  obtain ⟨l1, l2, rfl, h⟩ := h
  have h0 : l2.reverse.find? (fun x => decide (x.b = r.b ∧ x.n = r.n)) = none := by
    rw [List.find?_eq_none]; intro x hx; simpa using h x (by simpa using hx)
  simp only [lastAt, List.reverse_append, List.reverse_cons, List.append_assoc, List.find?_append, h0]
  simp

theorem LastFor.mem {rows : List Row} {r : Row} (h : LastFor rows r) : r ∈ rows := by
  obtain ⟨l1, l2, rfl, _⟩ := h; simp

/-- Every point that the table names has a last row. -/
theorem exists_last : ∀ {rows : List Row} {q : Row}, q ∈ rows → ∃ r, LastFor rows r ∧ r.b = q.b ∧ r.n = q.n
  | [], _, h => by cases h
  | p :: rows, q, h => by
    by_cases hq : ∃ q' ∈ rows, q'.b = q.b ∧ q'.n = q.n
    · obtain ⟨q', hm, hb, hn⟩ := hq
      obtain ⟨r, ⟨l1, l2, rfl, h2⟩, k1, k2⟩ := exists_last hm
      exact ⟨r, ⟨p :: l1, l2, rfl, h2⟩, k1.trans hb, k2.trans hn⟩
    · rcases List.mem_cons.1 h with rfl | h
      · exact ⟨q, ⟨[], rows, rfl, fun x hx k => hq ⟨x, hx, k⟩⟩, rfl, rfl⟩
      · exact absurd ⟨q, h, rfl, rfl⟩ hq
end

/-! ### Results -/

section
variable {α : Type*} [Field α] [LinearOrder α] [IsStrictOrderedRing α]

theorem inv_wf {s : PC α} {a : Clouds α} {P : List (T2 α)} (hi : Inv s a) (hP : a .points = some P) : Wf a P := by
  rcases hi with h | ⟨P', h, _⟩
  · rw [h.noPoints] at hP; cases hP
  · have := h.wf.pts; rw [hP] at this; rw [Option.some.inj this]; exact h.wf

/-- What happens before the table is looked at. -/
theorem fuseTable_start {s : PC α} {a : Clouds α} {P Nn C F : List (T2 α)} (hi : Inv s a) (hP : a .points = some P)
    (hNn : a .normals = some Nn) (hC : a .colors = some C) (hF : a .features = some F)
    (fr : Frame α) (al : V3 α → α) (inplace : Bool) :
    ∃ s', Inv s' a ∧ ∀ t : List IRow, t ≠ [] → fuseTable al s fr t inplace = match resolve P.length (maxL (sizes P)) fr t with
      | none => (.error (.pcs .indexError), s')
      | some rows => fuseWithMap al s' fr rows inplace := by
  rcases hi with h | ⟨P', h, hm⟩
  · rw [h.noPoints] at hP; cases hP
  obtain rfl : P' = P := by have := h.wf.pts; rw [hP] at this; exact (Option.some.inj this).symm
  obtain ⟨s1, e1, r1, f1, _⟩ := h.hasAttr .points
  obtain ⟨s2, e2, r2, f2, _⟩ := r1.hasAttr .normals
  obtain ⟨s3, e3, r3, f3, _⟩ := r2.hasAttr .colors
  obtain ⟨s4, e4, r4, f4, _⟩ := r3.hasAttr .features
  obtain ⟨s5, e5, r5, _, f5, _⟩ := r4.getPad .points
  rw [hP] at e1 e5; rw [hNn] at e2; rw [hC] at e3; rw [hF] at e4
  simp only [Option.isSome_some, Option.map_some] at e1 e2 e3 e4 e5
  have hm5 : MaskOk s5 a := ((((hm.frame f1.eq f1.mask).frame f2.eq f2.mask).frame f3.eq f3.mask).frame f4.eq f4.mask).frame f5.eq f5.mask
  have sp := shape_pad r4 hP (r4.wf.cols3 (by simp) hP)
  rw [r4.hN] at sp e5
  refine ⟨s5, .inr ⟨P', r5, hm5⟩, fun t ht => ?_⟩
  have hl : t.length ≠ 0 := fun h0 => ht (List.length_eq_zero_iff.1 h0)
  simp only [fuseTable, e1, requireAll, e2, e3, e4, e5, if_true, Bool.not_true, Bool.false_eq_true, if_false, Option.getD_some, sp,
    Bool.false_or, decide_eq_true_eq, hl]

/-- **C114 (indices)**: an entry out of range raises IndexError and changes nothing. -/
theorem table_index_error {s : PC α} {a : Clouds α} {P Nn C F : List (T2 α)} (hi : Inv s a) (hP : a .points = some P)
    (hNn : a .normals = some Nn) (hC : a .colors = some C) (hF : a .features = some F) {N : Nat} (hN : Longest P N)
    {fr : Frame α} {t : List IRow} {i : IRow} (ht : i ∈ t) (ho : OutOfRange P.length N fr i)
    (al : V3 α → α) (inplace : Bool) : ∃ s', fuseTable al s fr t inplace = (.error (.pcs .indexError), s') ∧ Inv s' a := by
  obtain ⟨s', h1, h2⟩ := fuseTable_start hi hP hNn hC hF fr al inplace
  have h2 := h2 t (List.ne_nil_of_mem ht)
  rw [maxL_longest hN, resolve_none.2 ⟨i, ht, ho⟩] at h2
  exact ⟨s', h2, h1⟩

/-- The table means the rows it denotes. -/
theorem table_rows {s : PC α} {a : Clouds α} {P Nn C F : List (T2 α)} (hi : Inv s a) (hP : a .points = some P)
    (hNn : a .normals = some Nn) (hC : a .colors = some C) (hF : a .features = some F) {N : Nat} (hN : Longest P N)
    {fr : Frame α} {t : List IRow} {rows : List Row} (ht : t ≠ []) (hr : List.Forall₂ (DenotesRow P.length N fr) t rows)
    (al : V3 α → α) (inplace : Bool) : ∃ s', Inv s' a ∧ fuseTable al s fr t inplace = fuseWithMap al s' fr rows inplace := by
  obtain ⟨s', h1, h2⟩ := fuseTable_start hi hP hNn hC hF fr al inplace
  have h2 := h2 t ht
  rw [maxL_longest hN, resolve_iff.2 hr] at h2
  exact ⟨s', h1, h2⟩

theorem lastAt_same {rows rows' : List Row} (hset : ∀ r, r ∈ rows ↔ r ∈ rows')
    (hone : ∀ r ∈ rows, ∀ q ∈ rows, r.b = q.b → r.n = q.n → r = q) (b n : Nat) : lastAt rows b n = lastAt rows' b n := by
  cases h : lastAt rows b n with
  | none =>
    rw [lastAt_none] at h
    exact (lastAt_none.2 fun r hr => h r ((hset r).2 hr)).symm
  | some r =>
    obtain ⟨h1, h2, h3⟩ := lastAt_some h
    cases h' : lastAt rows' b n with
    | none =>
      rw [lastAt_none] at h'
      exact absurd ⟨h2, h3⟩ (h' r ((hset r).1 h1))
    | some q =>
      obtain ⟨k1, k2, k3⟩ := lastAt_some h'
      rw [hone r h1 q ((hset q).2 k1) (h2.trans k2.symm) (h3.trans k3.symm)]

/-- **C114 (order and spelling)**: two tables that denote the same pairs of points and pixels, no point with two pixels, have exactly the
same effect: the order of the rows, repetitions of a row and the spelling of the indices do not matter. -/
theorem table_same {s : PC α} {a : Clouds α} {P Nn C F : List (T2 α)} (hi : Inv s a) (hP : a .points = some P)
    (hNn : a .normals = some Nn) (hC : a .colors = some C) (hF : a .features = some F) {N : Nat} (hN : Longest P N)
    {fr : Frame α} {t t' : List IRow} {rows rows' : List Row} (ht : t ≠ []) (hr : List.Forall₂ (DenotesRow P.length N fr) t rows)
    (hr' : List.Forall₂ (DenotesRow P.length N fr) t' rows') (hset : ∀ r, r ∈ rows ↔ r ∈ rows')
    (hone : ∀ r ∈ rows, ∀ q ∈ rows, r.b = q.b → r.n = q.n → r = q)
    (al : V3 α → α) (inplace : Bool) : fuseTable al s fr t inplace = fuseTable al s fr t' inplace := by
  have hne : rows ≠ [] := by rintro rfl; cases hr; exact ht rfl
  have hne' : rows' ≠ [] := by
    obtain ⟨r, hr⟩ := List.exists_mem_of_ne_nil rows hne
    exact List.ne_nil_of_mem ((hset r).1 hr)
  have ht' : t' ≠ [] := by rintro rfl; cases hr'; exact hne' rfl
  obtain ⟨s', _, h2⟩ := fuseTable_start hi hP hNn hC hF fr al inplace
  rw [h2 t ht, h2 t' ht', maxL_longest hN, resolve_iff.2 hr, resolve_iff.2 hr']
  have hlast := lastAt_same hset hone
  have e1 : scatter (α := α) rows = scatter rows' := by funext f b n; simp only [scatter, hlast]
  have e2 : scatterAl al fr rows = scatterAl al fr rows' := by funext b n; simp only [scatterAl, hlast]
  have e3 : ∀ B N, rowsInRange rows B N fr = rowsInRange rows' B N fr := by
    intro B N
    rw [Bool.eq_iff_iff]
    simp only [rowsInRange, List.all_eq_true]
    exact ⟨fun h r hr => h r ((hset r).2 hr), fun h r hr => h r ((hset r).1 hr)⟩
  have e4 : newMask fr rows = newMask fr rows' := by
    funext b l h w
    have : (rows.any fun r => r.b = b ∧ r.h = h ∧ r.w = w) = rows'.any fun r => r.b = b ∧ r.h = h ∧ r.w = w := by
      rw [Bool.eq_iff_iff]
      simp only [List.any_eq_true]
      exact ⟨fun ⟨r, hr, k⟩ => ⟨r, (hset r).1 hr, k⟩, fun ⟨r, hr, k⟩ => ⟨r, (hset r).2 hr, k⟩⟩
    simp only [newMask, this]
  have e5 : ∀ pc, mergeStep al pc fr rows = mergeStep al pc fr rows' := by
    intro pc; simp only [mergeStep, e1, e2, e3]
  have l1 : decide (rows.length ≠ 0) = true := by simp [hne]
  have l2 : decide (rows'.length ≠ 0) = true := by simp [hne']
  show fuseWithMap al s' fr rows inplace = fuseWithMap al s' fr rows' inplace
  have hm : ∀ h : Bool, newMask fr (if (h && true) = true then rows else []) = newMask fr (if (h && true) = true then rows' else []) := by
    intro h; cases h
    · rfl
    · simpa using e4
  simp only [fuseWithMap, l1, l2, e5, hm]

theorem mergedLast {a : Clouds α} {P F l m : List (T2 α)} (hw : Wf a P) {X : Attr} (hX : X ≠ .features) (hl : a X = some l)
    (hF : a .features = some F) (hF1 : ∀ t ∈ F, t.cols = 1) (al : V3 α → α) (fr : Frame α) (rows : List Row)
    (f : Nat → Nat → Nat → Nat → V3 α) (hlen : (mergeImg al fr rows F f l).length = m.length) :
    MergedLast rows F (fun r => al (fr.v r.b 0 r.h r.w)) (fun r => f r.b 0 r.h r.w) l (catL (mergeImg al fr rows F f l) m) := by
  refine ⟨?_, ?_⟩
  · intro r hr x hx hc
    refine vecAt_cat_old hlen ?_
    have e1 : scatter rows f r.b r.n = f r.b 0 r.h r.w := by simp [scatter, lastAt_last hr]
    have e2 : scatterAl al fr rows r.b r.n = al (fr.v r.b 0 r.h r.w) := by simp [scatterAl, lastAt_last hr]
    rw [vecAt_mergeImg hw hX hl hF hF1 al fr rows f hx, e1, e2, guard0, if_neg hc]
    rfl
  · intro b n x hx hun hc
    refine vecAt_cat_old hlen ?_
    rw [vecAt_mergeImg hw hX hl hF hF1 al fr rows f hx, scatter_none hun, scatterAl_none hun, add_zero, guard0, if_neg hc]
    congr 1
    ext <;> simp [V3.smul, V3.add, V3.zero] <;> field_simp

/-- **C114 (repetitions)**: if every row denotes an existing point, only the last row for each point is merged into it; the pixels that any
row names are not appended, all other pixels with depth are. -/
theorem table_fuse {s : PC α} {a : Clouds α} {P Nn C F : List (T2 α)} (hi : Inv s a) (hP : a .points = some P)
    (hNn : a .normals = some Nn) (hC : a .colors = some C) (hF : a .features = some F) (hF1 : ∀ t ∈ F, t.cols = 1)
    {N : Nat} (hN : Longest P N) {fr : Frame α} (hB : fr.B = P.length) {t : List IRow} {rows : List Row} (ht : t ≠ [])
    (hr : List.Forall₂ (DenotesRow P.length N fr) t rows) (hp : ∀ r ∈ rows, (rowAt P r.b r.n).isSome) (al : V3 α → α) (inplace : Bool) :
    ∃ res s' P' Nn' C' F' m, fuseTable al s fr t inplace = (.ok res, s') ∧
      (∃ a', Inv res a' ∧ a' .points = some P' ∧ a' .normals = some Nn' ∧ a' .colors = some C' ∧ a' .features = some F') ∧
      MergedLast rows F (fun r => al (fr.v r.b 0 r.h r.w)) (fun r => fr.gv r.b 0 r.h r.w) P P' ∧
      MergedLast rows F (fun r => al (fr.v r.b 0 r.h r.w)) (fun r => fr.gn r.b 0 r.h r.w) Nn Nn' ∧
      MergedLast rows F (fun r => al (fr.v r.b 0 r.h r.w)) (fun r => fr.rgb r.b 0 r.h r.w) C C' ∧
      ConfLast rows (fun r => al (fr.v r.b 0 r.h r.w)) F F' ∧
      (∀ b l h w, m b l h w = true ↔ fr.valid b l h w = true ∧ ¬ (l = 0 ∧ ∃ r ∈ rows, r.b = b ∧ r.h = h ∧ r.w = w)) ∧
      (∀ b < fr.B, sizeAt P' b = sizeAt P b + (pixels fr.L fr.H fr.W (m b)).length) ∧
      AppendedAttr fr m fr.gv P P' ∧ AppendedAttr fr m fr.gn P Nn' ∧ AppendedAttr fr m fr.rgb P C' := by
  obtain ⟨s0, hi0, e0⟩ := table_rows hi hP hNn hC hF hN ht hr al inplace
  have hok : RowsOk P fr rows := by
    intro r hmem
    obtain ⟨k, hk, rfl⟩ := List.getElem_of_mem hmem
    have h1 : k < t.length := by rw [hr.length_eq]; exact hk
    obtain ⟨d1, d2, d3, d4⟩ := hr.get h1 hk
    exact ⟨hp _ hmem, by rw [hB]; exact d1.1, d3.1, d4.1⟩
  have hne : rows ≠ [] := by
    rintro rfl; cases hr; exact ht rfl
  have hw : Wf a P := inv_wf hi hP
  obtain ⟨res, s', e, h1, _⟩ := fuse_rep hi0 hP hNn hC hF hF1 hB hok al inplace
  rw [← e0] at e
  set m := newMask fr rows with hm
  have pl : ∀ f, (picked fr m f).length = fr.B := picked_length fr m
  have pal : (pickedAl al fr m).length = fr.B := by simp [pickedAl]
  have hlen : ∀ {X l}, a X = some l → l.length = fr.B := fun hl => by rw [hw.length hl, hB]
  have lm : ∀ {X l} f, a X = some l → (mergeImg al fr rows F f l).length = fr.B := fun f hl => by
    rw [mergeImg, mapRows_length, hlen hl]
  have lf : (mergeConf al fr rows F).length = fr.B := by rw [mergeConf, mapRows_length, hlen hF]
  have sz : ∀ {X l} f, a X = some l → ∀ b, sizeAt (mergeImg al fr rows F f l) b = sizeAt P b := fun f hl b =>
    sizeAt_sizes ((sizes_mapRows _ _).trans (hw.rows _ _ hl)) b
  have app : ∀ {X l} f g, a X = some l → AppendedAttr fr m g P (catL (mergeImg al fr rows F f l) (picked fr m g)) := by
    intro X l f g hl b hb k
    rw [← sz f hl, vecAt_cat_new (by rw [lm f hl, pl]), vecAt_picked hb]
  have hmo : mergedOr al fr rows P Nn C F a = mergeClouds al fr rows P Nn C F := if_neg hne
  rw [hmo] at h1
  refine ⟨res, s', catL (mergeImg al fr rows F fr.gv P) (picked fr m fr.gv), catL (mergeImg al fr rows F fr.gn Nn) (picked fr m fr.gn),
    catL (mergeImg al fr rows F fr.rgb C) (picked fr m fr.rgb), catL (mergeConf al fr rows F) (pickedAl al fr m), m, e,
    ⟨_, h1, specAppend_some rfl rfl, specAppend_some rfl rfl, specAppend_some rfl rfl, specAppend_some rfl rfl⟩,
    mergedLast hw (by simp) hP hF hF1 al fr rows _ (by rw [lm _ hP, pl]), mergedLast hw (by simp) hNn hF hF1 al fr rows _ (by rw [lm _ hNn, pl]),
    mergedLast hw (by simp) hC hF hF1 al fr rows _ (by rw [lm _ hC, pl]), ⟨?_, ?_⟩, ?_, ?_, app _ _ hP, app _ _ hNn, app _ _ hC⟩
  · intro r hl hs
    have hs' : (rowAt (mergeConf al fr rows F) r.b r.n).isSome := by rw [mergeConf, rowAt_mapRows]; simpa using hs
    have e2 : scatterAl al fr rows r.b r.n = al (fr.v r.b 0 r.h r.w) := by simp [scatterAl, lastAt_last hl]
    rw [conf_cat_old (by rw [lf, pal]) hs', conf_merge (hw.valid _ _ hF) hF1 al fr rows hs, e2]
  · intro b n hs hun
    have hs' : (rowAt (mergeConf al fr rows F) b n).isSome := by rw [mergeConf, rowAt_mapRows]; simpa using hs
    rw [conf_cat_old (by rw [lf, pal]) hs', conf_merge (hw.valid _ _ hF) hF1 al fr rows hs, scatterAl_none hun, add_zero]
  · intro b l h w
    simp only [hm, newMask, Bool.and_eq_true, Bool.not_eq_true', Bool.and_eq_false_iff, beq_eq_false_iff_ne, List.any_eq_false,
      decide_eq_true_eq]
    constructor
    · rintro ⟨h1, h2⟩
      refine ⟨h2, ?_⟩
      rintro ⟨h3, r, h4, h5⟩
      rcases h1 with h1 | h1
      · exact h1 h3
      · exact h1 r h4 h5
    · rintro ⟨h1, h2⟩
      refine ⟨?_, h1⟩
      by_cases h3 : l = 0
      · exact .inr fun r hr k => h2 ⟨h3, r, hr, k⟩
      · exact .inl h3
  · intro b hb
    have h3 : sizeAt (catL (mergeImg al fr rows F fr.gv P) (picked fr m fr.gv)) b =
        sizeAt (mergeImg al fr rows F fr.gv P) b + sizeAt (picked fr m fr.gv) b := by
      have q1 : b < (mergeImg al fr rows F fr.gv P).length := by rw [lm _ hP]; exact hb
      have q2 : b < (picked fr m fr.gv).length := by rw [pl]; exact hb
      rw [sizeAt_eq (by rw [catL_length (by rw [lm _ hP, pl])]; exact q1), sizeAt_eq q1, sizeAt_eq q2]
      simp [catL]
    have h4 : sizeAt (picked fr m fr.gv) b = (pixels fr.L fr.H fr.W (m b)).length := by
      rw [sizeAt_eq (by rw [pl]; exact hb)]; simp [picked]
    rw [h3, sz _ hP, h4]
/-! ### Places behind the end of a cloud -/

theorem rowAt_padL_none {P : List (T2 α)} {N b n C : Nat} (hb : b < P.length) (hN : ∀ t ∈ P, t.rows.length ≤ N) (hc : ∀ t ∈ P, t.cols = C)
    (h : rowAt P b n = none) (hn : n < N) : rowAt (padL N P) b n = some (List.replicate C 0) := by
  have h1 : (padL N P)[b]? = some (padT N P[b]) := by simp [padL, hb]
  simp only [rowAt, List.getElem?_eq_getElem hb, Option.bind_some] at h
  have h2 : P[b].rows.length ≤ n := List.getElem?_eq_none_iff.1 h
  have h3 := padT_cell (N := N) P[b] n hn (hN _ (List.getElem_mem hb))
  rw [dif_neg (by omega), hc _ (List.getElem_mem hb)] at h3
  simp only [rowAt, h1, Option.bind_some, h3]

theorem rowAt_of_sizes {l P : List (T2 α)} (h : sizes l = sizes P) {b n : Nat} (hn : rowAt P b n = none) : rowAt l b n = none := by
  have h1 := sizeAt_sizes h b
  cases hl : rowAt l b n with
  | none => rfl
  | some x =>
    have h2 : n < sizeAt l b := sizeAt_isSome.1 (by rw [hl]; rfl)
    rw [h1] at h2
    have h3 := sizeAt_isSome.2 h2
    rw [hn] at h3; cases h3

/-- **C114 (short clouds)**: negative point indices count from the end of the longest cloud of the batch.  A row that denotes a place
behind the end of its own, shorter, cloud raises ValueError and changes nothing (unless the vertex it names is the origin or has weight
zero). -/
theorem table_padding {s : PC α} {a : Clouds α} {P Nn C F : List (T2 α)} (hi : Inv s a) (hP : a .points = some P)
    (hNn : a .normals = some Nn) (hC : a .colors = some C) (hF : a .features = some F) (hF1 : ∀ t ∈ F, t.cols = 1)
    {N : Nat} (hN : Longest P N) {fr : Frame α} (hB : fr.B = P.length) {t : List IRow} {rows : List Row}
    (hr : List.Forall₂ (DenotesRow P.length N fr) t rows) {r : Row} (hl : LastFor rows r) (hnone : rowAt P r.b r.n = none)
    {al : V3 α → α} (ha : al (fr.v r.b 0 r.h r.w) ≠ 0) (hv : fr.gv r.b 0 r.h r.w ≠ V3.zero) (inplace : Bool) :
    ∃ s', fuseTable al s fr t inplace = (.error (.pcs .valueError), s') ∧ Inv s' a := by
  have hne : rows ≠ [] := List.ne_nil_of_mem hl.mem
  have ht : t ≠ [] := by rintro rfl; cases hr; exact hne rfl
  obtain ⟨s0, hi0, e0⟩ := table_rows hi hP hNn hC hF hN ht hr al inplace
  rw [e0]
  have hden : ∀ q ∈ rows, q.b < P.length ∧ q.n < N ∧ q.h < fr.H ∧ q.w < fr.W := by
    intro q hmem
    obtain ⟨k, hk, rfl⟩ := List.getElem_of_mem hmem
    have h1 : k < t.length := by rw [hr.length_eq]; exact hk
    obtain ⟨d1, d2, d3, d4⟩ := hr.get h1 hk
    exact ⟨d1.1, d2.1, d3.1, d4.1⟩
  rcases hi0 with h | ⟨P', h, hm⟩
  · rw [h.noPoints] at hP; cases hP
  obtain rfl : P' = P := by have := h.wf.pts; rw [hP] at this; exact (Option.some.inj this).symm
  obtain ⟨s1, e1, r1, f1, _⟩ := h.hasAttr .points
  obtain ⟨s2, e2, r2, f2, _⟩ := r1.hasAttr .normals
  obtain ⟨s3, e3, r3, f3, _⟩ := r2.hasAttr .colors
  obtain ⟨s4, e4, r4, f4, _⟩ := r3.hasAttr .features
  obtain ⟨s5, e5, r5, _, f5, _⟩ := r4.getPad .points
  obtain ⟨s6, e6, r6, _, f6, _⟩ := r5.getPad .normals
  obtain ⟨s7, e7, r7, _, f7, _⟩ := r6.getPad .colors
  obtain ⟨s8, e8, r8, _, f8, _⟩ := r7.getPad .features
  rw [hP] at e1 e5; rw [hNn] at e2 e6; rw [hC] at e3 e7; rw [hF] at e4 e8
  simp only [Option.isSome_some, Option.map_some] at e1 e2 e3 e4 e5 e6 e7 e8
  have hm8 : MaskOk s8 a := (((((((hm.frame f1.eq f1.mask).frame f2.eq f2.mask).frame f3.eq f3.mask).frame f4.eq f4.mask).frame
    f5.eq f5.mask).frame f6.eq f6.mask).frame f7.eq f7.mask).frame f8.eq f8.mask
  have sp := shape_pad r4 hP (r4.wf.cols3 (by simp) hP)
  have sf := shape_pad r7 hF hF1
  rw [r4.hN, maxL_longest hN] at sp e5
  rw [r5.hN, maxL_longest hN] at e6
  rw [r6.hN, maxL_longest hN] at e7
  rw [r7.hN, maxL_longest hN] at sf e8
  have h8N : s8.N = N := by rw [r8.hN, maxL_longest hN]
  have hin : rowsInRange rows P'.length N fr = true := by
    simp only [rowsInRange, List.all_eq_true, Bool.and_eq_true, decide_eq_true_eq]
    intro q hq
    obtain ⟨d1, d2, d3, d4⟩ := hden q hq
    exact ⟨⟨⟨⟨d1, d2⟩, by rw [hB]; exact d1⟩, d3⟩, d4⟩
  -- the points setter refuses
  set g : Nat → Nat → List α → List α := fun b n x =>
    mergeRow (cell (padL N F) b n) (scatterAl al fr rows b n) (scatter rows fr.gv b n) x with hg
  obtain ⟨d1, d2, _, _⟩ := hden r hl.mem
  have hPc := h.wf.cols3 (X := .points) (by simp) hP
  have hfn : rowAt F r.b r.n = none := by
    have := rowAt_isSome h.wf hF r.b r.n
    rw [hnone] at this
    cases hf : rowAt F r.b r.n with
    | none => rfl
    | some _ => rw [hf] at this; cases this
  have hcell : cell (padL N F) r.b r.n = [0] := by
    rw [cell_padL_none (C := 1) (by rw [h.wf.length hF]; exact d1) ?_ hF1 hfn d2]
    · rfl
    · intro u hu
      have := h.row_le hF u hu
      rwa [h.hN, maxL_longest hN] at this
  have hrow : rowAt (mapRows g (padL N P')) r.b r.n = some (g r.b r.n (List.replicate 3 0)) := by
    rw [rowAt_mapRows, rowAt_padL_none d1 hN.1 hPc hnone d2]; rfl
  have hq : g r.b r.n (List.replicate 3 0) ≠ List.replicate 3 0 := by
    intro h0
    apply hv
    have x1 : scatter rows fr.gv r.b r.n = fr.gv r.b 0 r.h r.w := by simp [scatter, lastAt_last hl]
    have x2 : scatterAl al fr rows r.b r.n = al (fr.v r.b 0 r.h r.w) := by simp [scatterAl, lastAt_last hl]
    simp only [hg, hcell, x1, x2] at h0
    simp only [mergeRow, List.replicate, List.mapIdx_cons, List.mapIdx_nil, coef, comp, guard0, List.length_singleton, if_true,
      List.getD_cons_zero, zero_mul, zero_add, if_neg ha, List.cons.injEq, mul_eq_zero, one_div, inv_eq_zero, ha, or_false, false_or,
      and_true] at h0
    ext
    · simpa [V3.zero, ha] using h0.1
    · simpa [V3.zero, ha] using h0.2.1
    · simpa [V3.zero, ha] using h0.2.2
  have hval : ∀ u ∈ mapRows g (padL N P'), u.Valid ∧ u.rows.length = N ∧ u.cols = 3 := by
    have y1 : ∀ u ∈ padL N P', u.Valid := by
      intro u hu
      obtain ⟨v, hv', rfl⟩ := List.mem_map.1 hu
      exact padT_valid (h.wf.valid _ _ hP v hv')
    have y2 : ∀ u ∈ padL N P', u.cols = 3 := by
      intro u hu
      obtain ⟨v, hv', rfl⟩ := List.mem_map.1 hu
      exact hPc v hv'
    intro u hu
    refine ⟨mapRows_valid y1 (fun _ _ _ => mergeRow_length _ _ _ _) u hu, ?_, mapRows_cols y2 u hu⟩
    obtain ⟨b, v, hv', rfl⟩ := mem_mapRows hu
    obtain ⟨w, hw', rfl⟩ := List.mem_map.1 hv'
    simp only [List.length_mapIdx]
    exact padT_rows_length (hN.1 w hw')
  rcases r8.setPad_cases .points (mapRows g (padL N P')) ⟨N, 3, hval⟩ with ⟨s9, e9, r9, q1, q2⟩ | ⟨l, C', el, zl, _, hlc, hl3, _⟩
  · refine ⟨s9, ?_, .inr ⟨P', r9, hm8.frame q1 q2⟩⟩
    have hlen : rows.length ≠ 0 := fun h0 => hne (List.length_eq_zero_iff.1 h0)
    simp only [fuseWithMap, e1, requireAll, e2, e3, e4, if_true, Bool.not_true, Bool.false_eq_true, if_false, Bool.true_and,
      decide_eq_true_eq, hlen, ne_eq, not_false_eq_true, mergeStep, e5, e6, e7, e8, Option.getD_some, sp, sf, hin, not_true_eq_false,
      false_and, setPads]
    rw [← hg, e9]
  · exfalso
    rw [h8N] at el
    have z1 : rowAt l r.b r.n = none := rowAt_of_sizes zl hnone
    have z2 : r.b < l.length := by
      have := congrArg List.length zl; simp [sizes] at this; omega
    have z3 : ∀ u ∈ l, u.rows.length ≤ N := by
      intro u hu
      rw [← maxL_longest hN, ← zl]; exact le_maxL (List.mem_map_of_mem hu)
    have z4 := rowAt_padL_none z2 z3 hlc z1 d2
    rw [← el, hrow, hl3 (by simp)] at z4
    exact hq (Option.some.inj z4)
end

/-! ### Concrete cases -/

/-- Two clouds of one and two points with everything that fusion needs. -/
def PT : List (T2 ℚ) := [⟨[[0, 0, 2]], 3⟩, ⟨[[0, 0, 1], [2, 0, 2]], 3⟩]
def NT : List (T2 ℚ) := [⟨[[0, 0, 1]], 3⟩, ⟨[[0, 0, 1], [0, 0, 1]], 3⟩]
def FT : List (T2 ℚ) := [⟨[[1]], 1⟩, ⟨[[1], [1]], 1⟩]
def aT : Clouds ℚ := fun X => match X with | .points => some PT | .normals => some NT | .colors => some PT | .features => some FT
def sT : PC ℚ := ⟨fun X => if X = .points then some PT else aT X, fun _ => none, none, fun _ => none, [1, 2], some false, 2, 2⟩

theorem sT_hist : Hist sT aT := by
  refine .fromList (P := PT) rfl ?_ rfl
  intro X l hl t ht r hr
  cases X with
  | points => cases hl; revert r; revert t; decide
  | normals => cases hl; revert r; revert t; decide
  | colors => cases hl; revert r; revert t; decide
  | features => cases hl; revert r; revert t; decide

theorem longest_PT : Longest PT 2 := by unfold Longest; decide

/-- Two rows for the last point of the last cloud, in both spellings: the hypotheses of `table_fuse` hold, … -/
theorem table_fuse_case : List.Forall₂ (DenotesRow PT.length 2 (fr1 2)) [⟨-1, -1, -2, 0⟩, ⟨1, 1, 0, 1⟩] [⟨1, 1, 0, 0⟩, ⟨1, 1, 0, 1⟩] ∧
    (∀ r ∈ [(⟨1, 1, 0, 0⟩ : Row), ⟨1, 1, 0, 1⟩], (rowAt PT r.b r.n).isSome) ∧ LastFor [⟨1, 1, 0, 0⟩, ⟨1, 1, 0, 1⟩] ⟨1, 1, 0, 1⟩ ∧
    (fr1 2).B = PT.length ∧ (∀ t ∈ FT, t.cols = 1) := by
  refine ⟨.cons ?_ (.cons ?_ .nil), by decide, ⟨[⟨1, 1, 0, 0⟩], [], rfl, by simp⟩, rfl, by decide⟩
  · unfold DenotesRow Denotes; decide
  · unfold DenotesRow Denotes; decide

/-- … and the point (2, 0, 2) is merged with the vertex (1, 0, 1) of the second row only; the pixel (0, 0) that the first row names is
neither merged nor appended: cloud 1 gets the one remaining pixel with depth. -/
theorem table_fuse_run :
    (match (fuseTable (fun _ => 1) sT (fr1 2) [⟨-1, -1, -2, 0⟩, ⟨1, 1, 0, 1⟩] true).1 with
      | .ok res => (getList .points res).1.map fun P' => (vecAt P' 1 1, sizeAt P' 0, sizeAt P' 1, vecAt P' 1 2)
      | .error _ => none) = some (some ⟨3 / 2, 0, 3 / 2⟩, 4, 3, some ⟨0, 1, 1⟩) := by decide +kernel

/-- The hypotheses of `table_same` hold for two tables of different length and spelling. -/
theorem table_same_case : List.Forall₂ (DenotesRow PT.length 2 (fr1 2)) [⟨0, 0, 0, 1⟩, ⟨-1, -1, -2, 0⟩, ⟨1, 1, 0, 0⟩] [⟨0, 0, 0, 1⟩, ⟨1, 1, 0, 0⟩, ⟨1, 1, 0, 0⟩] ∧
    List.Forall₂ (DenotesRow PT.length 2 (fr1 2)) [⟨1, 1, 0, 0⟩, ⟨0, 0, 0, -1⟩] [⟨1, 1, 0, 0⟩, ⟨0, 0, 0, 1⟩] ∧
    (∀ r, r ∈ [(⟨0, 0, 0, 1⟩ : Row), ⟨1, 1, 0, 0⟩, ⟨1, 1, 0, 0⟩] ↔ r ∈ [(⟨1, 1, 0, 0⟩ : Row), ⟨0, 0, 0, 1⟩]) ∧
    (∀ r ∈ [(⟨0, 0, 0, 1⟩ : Row), ⟨1, 1, 0, 0⟩, ⟨1, 1, 0, 0⟩], ∀ q ∈ [(⟨0, 0, 0, 1⟩ : Row), ⟨1, 1, 0, 0⟩, ⟨1, 1, 0, 0⟩],
      r.b = q.b → r.n = q.n → r = q) := by
  refine ⟨.cons ?_ (.cons ?_ (.cons ?_ .nil)), .cons ?_ (.cons ?_ .nil), ?_, by decide⟩
  · unfold DenotesRow Denotes; decide
  · unfold DenotesRow Denotes; decide
  · unfold DenotesRow Denotes; decide
  · unfold DenotesRow Denotes; decide
  · unfold DenotesRow Denotes; decide
  · intro r; simp only [List.mem_cons, List.not_mem_nil, or_false]; tauto

/-- Index `-1` in the shorter cloud: the hypotheses of `table_padding` hold. -/
theorem table_padding_case : List.Forall₂ (DenotesRow PT.length 2 (fr1 2)) [⟨0, -1, 0, 0⟩] [⟨0, 1, 0, 0⟩] ∧ rowAt PT 0 1 = none ∧
    (fr1 2).gv 0 0 0 0 ≠ V3.zero ∧
    (match (fuseTable (fun _ => 1) sT (fr1 2) [⟨0, -1, 0, 0⟩] false).1 with | .error e => some e | .ok _ => none) =
      some (.pcs .valueError) := by
  refine ⟨.cons ?_ .nil, by decide, by decide +kernel, by decide +kernel⟩
  unfold DenotesRow Denotes; decide

/-- One past the end. -/
theorem table_index_case : OutOfRange PT.length 2 (fr1 2) ⟨0, 2, 0, 0⟩ ∧ OutOfRange PT.length 2 (fr1 2) ⟨-3, 0, 0, 0⟩ ∧
    ¬ OutOfRange PT.length 2 (fr1 2) ⟨-2, -2, -2, -2⟩ := by unfold OutOfRange; decide
end Verif.Fusion
