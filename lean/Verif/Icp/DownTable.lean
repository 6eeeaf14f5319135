import Verif.Icp.Down
import Verif.Icp.DownWitness
import Verif.Fusion.Table
/-!
C115: `downsample_pointclouds` on a lookup table that the caller wrote.
-/
namespace Verif.Icp
open Verif Pcs Fusion
set_option linter.unusedSectionVars false

/-! ### Model -/
section
variable {α : Type*} [Field α] [LinearOrder α]

/-- The rows of the int64 table whose pixel is on the grid, icputils.py:595-597 (`%` of an integer tensor; only comparison with zero
matters, for which the sign conventions of remainders agree). -/
def gridTable (ds : Int) (t : List IRow) : List IRow := (t.filter fun r => r.h % ds = 0).filter fun r => r.w % ds = 0

/-- `[x_list[b][table[table[..., 0] == b][..., 1]] for b in range(B)]`, icputils.py:599-619: the batch index is compared with `b`,
the point index indexes the cloud's own tensor. -/
def gatherTable (B : Nat) (l : List (T2 α)) (t : List IRow) : Except Err (List (T2 α)) :=
  if (List.range B).any fun (b : Nat) => (t.filter fun r => r.b = (b : Int)).any fun r => (wrap (l.getD b ⟨[], 0⟩).rows.length r.n).isNone then
    .error .indexError
  else .ok ((List.range B).map fun (b : Nat) =>
    ⟨(t.filter fun r => r.b = (b : Int)).filterMap fun r => (wrap (l.getD b ⟨[], 0⟩).rows.length r.n).map fun n =>
      (l.getD b ⟨[], 0⟩).rows.getD n [], (l.getD b ⟨[], 0⟩).cols⟩)

/-- `None if x_list is None else [...]`. -/
def gatherTableOpt (B : Nat) (o : Option (List (T2 α))) (t : List IRow) : Except Err (Option (List (T2 α))) :=
  match o with
  | none => .ok none
  | some l => match gatherTable B l t with
    | .error e => .error e
    | .ok l => .ok (some l)

/-- `downsample_pointclouds` on any int64 table, icputils.py:548-620 (errors as in `downsamplePointclouds`).  Returns the result and the
map (its caches may have been filled). -/
def downsampleTable (pc : PC α) (t : List IRow) (ds : Int) : Except Err (PC α) × PC α :=
  if ds = 0 ∧ t ≠ [] then (.error .runtimeError, pc)
  else
    let t := gridTable ds t
    let (p, pc) := getList .points pc
    match (match p with
      | none => if pc.B = 0 then .ok [] else .error (.pcs .typeError)
      | some l => gatherTable pc.B l t : Except Err (List (T2 α))) with
    | .error e => (.error e, pc)
    | .ok P =>
      let (n, pc) := getList .normals pc
      match gatherTableOpt pc.B n t with
      | .error e => (.error e, pc)
      | .ok Nn =>
        let (c, pc) := getList .colors pc
        match gatherTableOpt pc.B c t with
        | .error e => (.error e, pc)
        | .ok C => match newList (dsMapArg P Nn C) P with
          | .error e => (.error (.pcs e), pc)
          | .ok o => (.ok o, pc)

/-! ### Specification -/

/-- The rows of the table for cloud `b` whose row and column are multiples of `ds`, in the order of the table. -/
def ForCloud (t : List IRow) (ds : Int) (b : Nat) : List IRow := t.filter fun r => decide (r.b = b ∧ ds ∣ r.h ∧ ds ∣ r.w)

/-- `o` holds, for every cloud of `l`, exactly the rows that the entries of its table rows denote. -/
def Taken (t : List IRow) (ds : Int) (l o : List (T2 α)) : Prop :=
  o.length = l.length ∧ ∀ (b : Nat) (c d : T2 α), l[b]? = some c → o[b]? = some d →
    d.cols = c.cols ∧ List.Forall₂ (fun (r : IRow) x => ∃ k, Denotes c.rows.length k r.n ∧ c.rows[k]? = some x) (ForCloud t ds b) d.rows

/-- An entry of a row that is used lies outside its cloud. -/
def Outside (P : List (T2 α)) (ds : Int) (r : IRow) : Prop :=
  ds ∣ r.h ∧ ds ∣ r.w ∧ ∃ (b : Nat) (c : T2 α), r.b = b ∧ P[b]? = some c ∧ (r.n < -c.rows.length ∨ c.rows.length ≤ r.n)

/-! ### Proofs -/

theorem gridTable_filter (ds : Int) (t : List IRow) (b : Nat) :
    ((gridTable ds t).filter fun r => r.b = (b : Int)) = ForCloud t ds b := by
  simp only [gridTable, ForCloud, List.filter_filter]
  congr 1
  funext r
  simp only [← Int.dvd_iff_emod_eq_zero, ← Bool.decide_and]
  congr 1
  apply propext; tauto

theorem mem_forCloud {ds : Int} {t : List IRow} {b : Nat} {r : IRow} :
    r ∈ ForCloud t ds b ↔ r ∈ t ∧ r.b = b ∧ ds ∣ r.h ∧ ds ∣ r.w := by simp [ForCloud]

theorem gatherTable_error {B : Nat} {l : List (T2 α)} (hB : B = l.length) {t : List IRow} {ds : Int}
    (h : ∃ r ∈ t, Outside l ds r) : gatherTable B l (gridTable ds t) = .error .indexError := by
  obtain ⟨r, hr, h1, h2, b, c, h3, h4, h5⟩ := h
  rw [gatherTable, if_pos]
  simp only [gridTable_filter]
  rw [List.any_eq_true]
  have hb : b < l.length := (List.getElem?_eq_some_iff.1 h4).1
  refine ⟨b, List.mem_range.2 (hB ▸ hb), ?_⟩
  rw [List.any_eq_true]
  refine ⟨r, mem_forCloud.2 ⟨hr, h3, h1, h2⟩, ?_⟩
  rw [List.getD_eq_getElem?_getD, h4, Option.getD_some, wrap_none.2 h5]; rfl

/-- What a run of `gatherTable` collects. -/
def takenOf (t : List IRow) (ds : Int) (l : List (T2 α)) : List (T2 α) := (List.range l.length).map fun b =>
  ⟨(ForCloud t ds b).filterMap fun r => (wrap (l.getD b ⟨[], 0⟩).rows.length r.n).map fun n =>
      (l.getD b ⟨[], 0⟩).rows.getD n [], (l.getD b ⟨[], 0⟩).cols⟩

theorem gatherTable_ok {B : Nat} {l : List (T2 α)} (hB : B = l.length) {t : List IRow} {ds : Int}
    (h : ∀ r ∈ t, ¬ Outside l ds r) : gatherTable B l (gridTable ds t) = .ok (takenOf t ds l) := by
  subst hB
  rw [gatherTable, if_neg]
  · simp only [gridTable_filter]; rfl
  · simp only [gridTable_filter]
    rw [List.any_eq_true]
    rintro ⟨b, hb, h6⟩
    rw [List.any_eq_true] at h6
    obtain ⟨r, hr, h7⟩ := h6
    rw [mem_forCloud] at hr
    have hb' := List.mem_range.1 hb
    rw [Option.isNone_iff_eq_none, wrap_none, List.getD_eq_getElem _ _ hb'] at h7
    exact h r hr.1 ⟨hr.2.2.1, hr.2.2.2, b, _, hr.2.1, List.getElem?_eq_getElem hb', h7⟩

theorem forall2_filterMap {β γ : Type*} {f : β → Option γ} {R : β → γ → Prop} : ∀ {l : List β}, (∀ x ∈ l, ∃ y, f x = some y ∧ R x y) →
    List.Forall₂ R l (l.filterMap f)
  | [], _ => by simp
  | x :: l, h => by
    obtain ⟨y, h1, h2⟩ := h x (by simp)
    rw [List.filterMap_cons_some h1]
    exact .cons h2 (forall2_filterMap fun z hz => h z (by simp [hz]))

theorem taken_takenOf {t : List IRow} {ds : Int} {l : List (T2 α)} (h : ∀ r ∈ t, ¬ Outside l ds r) : Taken t ds l (takenOf t ds l) := by
  refine ⟨by simp [takenOf], fun b c d hc hd => ?_⟩
  have hb : b < l.length := (List.getElem?_eq_some_iff.1 hc).1
  simp only [takenOf, List.getElem?_map, List.getElem?_range hb, Option.map_some, Option.some.injEq] at hd
  subst hd
  simp only [List.getD_eq_getElem?_getD (l := l), hc, Option.getD_some, true_and]
  refine forall2_filterMap fun r hr => ?_
  rw [mem_forCloud] at hr
  cases hw : wrap c.rows.length r.n with
  | none => exact absurd ⟨hr.2.2.1, hr.2.2.2, b, c, hr.2.1, hc, wrap_none.1 hw⟩ (h r hr.1)
  | some k =>
    refine ⟨_, rfl, k, wrap_iff.1 hw, ?_⟩
    have hk := (wrap_iff.1 hw).1
    simp only [List.getD_eq_getElem _ _ hk, List.getElem?_eq_getElem hk]

theorem outside_sizes {l P : List (T2 α)} (h : sizes l = sizes P) {ds : Int} {r : IRow} : Outside l ds r → Outside P ds r := by
  rintro ⟨h1, h2, b, c, h3, h4, h5⟩
  have hs : (sizes l)[b]? = some c.rows.length := by simp [sizes, h4]
  rw [h] at hs
  simp only [sizes, List.getElem?_map, Option.map_eq_some_iff] at hs
  obtain ⟨d, hd, hn⟩ := hs
  exact ⟨h1, h2, b, d, h3, hd, by rw [hn]; exact h5⟩

/-- The contents of the result. -/
def tableAt (a : Clouds α) (ds : Int) (t : List IRow) : Clouds α
  | .features => none
  | X => (a X).map (takenOf t ds)

theorem length_takenOf {t : List IRow} {ds : Int} {c : T2 α} {b : Nat} {l : List (T2 α)} (hc : l[b]? = some c) 
    (h : ∀ r ∈ t, ¬ Outside l ds r) : ∀ d, (takenOf t ds l)[b]? = some d → d.rows.length = (ForCloud t ds b).length := fun d hd =>
  (((taken_takenOf h).2 b c d hc hd).2.length_eq).symm

theorem sizes_takenOf {t : List IRow} {ds : Int} {l : List (T2 α)} (h : ∀ r ∈ t, ¬ Outside l ds r) :
    sizes (takenOf t ds l) = (List.range l.length).map fun b => (ForCloud t ds b).length := by
  apply List.ext_getElem?
  intro b
  by_cases hb : b < l.length
  · have h1 : b < (takenOf t ds l).length := by simpa [takenOf] using hb
    have h2 := length_takenOf (List.getElem?_eq_getElem hb) h _ (List.getElem?_eq_getElem h1)
    simp only [sizes, List.getElem?_map, List.getElem?_eq_getElem h1, List.getElem?_range hb, Option.map_some, h2]
  · simp [sizes, takenOf, hb]

theorem tableAt_wf {a : Clouds α} {P : List (T2 α)} (hw : Wf a P) {t : List IRow} {ds : Int} (h : ∀ r ∈ t, ¬ Outside P ds r) :
    Wf (tableAt a ds t) (takenOf t ds P) := by
  have key : ∀ X m, tableAt a ds t X = some m → X ≠ .features ∧ ∃ l, a X = some l ∧ m = takenOf t ds l := by
    intro X m hm
    cases X
    all_goals simp only [tableAt, reduceCtorEq, Option.map_eq_some_iff] at hm
    all_goals obtain ⟨l, h1, h2⟩ := hm
    all_goals exact ⟨by simp, l, h1, h2.symm⟩
  have hl : ∀ X l, a X = some l → ∀ r ∈ t, ¬ Outside l ds r := fun X l hl r hr ho =>
    h r hr (outside_sizes (hw.rows X l hl) ho)
  refine ⟨?_, ?_, ?_, ?_, ?_⟩
  · simp [tableAt, hw.pts]
  · intro h0
    have := congrArg List.length h0
    simp [takenOf] at this; exact hw.ne this
  · intro X m hm
    obtain ⟨_, l, h1, rfl⟩ := key X m hm
    have e1 := sizes_takenOf (hl X l h1)
    rw [hw.length h1, ← sizes_takenOf h] at e1
    exact e1
  · intro X m hm u hu
    obtain ⟨hX, l, h1, rfl⟩ := key X m hm
    obtain ⟨b, hb, e⟩ := List.getElem_of_mem hu
    have hb' : b < l.length := by simpa [takenOf] using hb
    have ht := (taken_takenOf (hl X l h1)).2 b _ u (List.getElem?_eq_getElem hb') (by rw [List.getElem?_eq_getElem hb, e])
    intro row hrow
    obtain ⟨i, hi, e'⟩ := List.getElem_of_mem hrow
    have hi' : i < (ForCloud t ds b).length := by rw [ht.2.length_eq]; exact hi
    obtain ⟨k, _, hk⟩ := (List.forall₂_iff_get.1 ht.2).2 i hi' hi
    have hm : row ∈ (l[b]).rows := by
      have := List.mem_of_getElem? hk
      simpa [e'] using this
    rw [ht.1]
    exact hw.valid X l h1 _ (List.getElem_mem hb') row hm
  · intro X m hm
    obtain ⟨hX, l, h1, rfl⟩ := key X m hm
    refine ⟨3, fun u hu => ?_, fun _ => rfl⟩
    simp only [takenOf, List.mem_map, List.mem_range] at hu
    obtain ⟨b, hb, rfl⟩ := hu
    have := hw.cols3 hX h1 _ (List.getElem_mem hb)
    simpa only [List.getD_eq_getElem _ _ hb] using this
end

section
variable {α : Type*} [Field α] [LinearOrder α] [IsStrictOrderedRing α]

theorem getList_rep {a : Clouds α} {P : List (T2 α)} (X : Attr) (s : PC α) (h : RepN s a P) (hm : MaskOk s a) :
    ∃ s', getList X s = (a X, s') ∧ RepN s' a P ∧ MaskOk s' a := by
  obtain ⟨g, r⟩ := h.getList X
  exact ⟨_, g, r, hm.frame rfl rfl⟩

/-- C115 (values).  For every map in a reachable state and every int64 table none of whose used entries lies outside its cloud, the
result holds for each cloud exactly the points that its rows denote (negative entries count from the end of the cloud itself), in the
order of the table and as often as they are listed; rows whose batch index is no cloud of the map are ignored, negative ones too; the
normals and colours follow their points, and there are no features.  The map is unchanged. -/
theorem table_downsample {pc : PC α} {a : Clouds α} {P : List (T2 α)} (hi : Inv pc a) (hP : a .points = some P) {t : List IRow} {ds : Int}
    (hd : ds ≠ 0) (h : ∀ r ∈ t, ¬ Outside P ds r) :
    ∃ o b pc', downsampleTable pc t ds = (.ok o, pc') ∧ Inv o b ∧ Inv pc' a ∧ b .features = none ∧
      ∀ X, X ≠ .features → (a X = none ∧ b X = none ∨ ∃ l m, a X = some l ∧ b X = some m ∧ Taken t ds l m) := by
  have hw := Fusion.wf_of_inv hi hP
  rcases hi with he | ⟨P', h0, hm⟩
  · rw [he.ha] at hP; simp [emptyClouds] at hP
  obtain rfl : P' = P := by have := h0.wf.pts; rw [hP] at this; simpa using this.symm
  obtain ⟨s1, g1, r1, m1⟩ := getList_rep .points pc h0 hm
  obtain ⟨s2, g2, r2, m2⟩ := getList_rep .normals s1 r1 m1
  obtain ⟨s3, g3, r3, m3⟩ := getList_rep .colors s2 r2 m2
  have hl : ∀ X l, a X = some l → ∀ r ∈ t, ¬ Outside l ds r := fun X l hl r hr ho =>
    h r hr (outside_sizes (hw.rows X l hl) ho)
  obtain ⟨o, ho, hor, hof⟩ := newList_rep (tableAt_wf hw h)
  have hopt : ∀ X, X ≠ .features → gatherTableOpt P'.length (a X) (gridTable ds t) = .ok (tableAt a ds t X) := by
    intro X hX
    have hmap : tableAt a ds t X = (a X).map (takenOf t ds) := by
      cases X <;> first | rfl | exact absurd rfl hX
    rw [hmap]
    cases e : a X with
    | none => rfl
    | some l => simp only [gatherTableOpt, gatherTable_ok (hw.length e).symm (hl X l e), Option.map_some]
  refine ⟨o, tableAt a ds t, s3, ?_, .inr ⟨_, hor, .inr hof⟩, .inr ⟨P', r3, m3⟩, rfl, fun X hX => ?_⟩
  · have hds : ¬ (ds = 0 ∧ t ≠ []) := fun h => hd h.1
    rw [downsampleTable, if_neg hds, g1]
    simp only [hP, r1.hB, gatherTable_ok rfl h]
    simp only [g2, r2.hB, hopt .normals (by simp)]
    simp only [g3, r3.hB, hopt .colors (by simp)]
    have earg : dsMapArg (takenOf t ds P') (tableAt a ds t .normals) (tableAt a ds t .colors) = tableAt a ds t := by
      funext X; cases X <;> simp [dsMapArg, tableAt, hP]
    rw [earg, ho]
  · have hmap : tableAt a ds t X = (a X).map (takenOf t ds) := by
      cases X <;> first | rfl | exact absurd rfl hX
    rw [hmap]
    cases e : a X with
    | none => exact .inl ⟨rfl, rfl⟩
    | some l => exact .inr ⟨l, _, rfl, rfl, taken_takenOf (hl X l e)⟩

/-- C115 (errors).  A used entry outside its cloud raises IndexError; the ratio 0 raises RuntimeError unless the table is empty.  The
map is unchanged. -/
theorem table_downsample_error {pc : PC α} {a : Clouds α} {P : List (T2 α)} (hi : Inv pc a) (hP : a .points = some P) {t : List IRow}
    {ds : Int} :
    (ds ≠ 0 → (∃ r ∈ t, Outside P ds r) → ∃ pc', downsampleTable pc t ds = (.error .indexError, pc') ∧ Inv pc' a) ∧
    (ds = 0 → t ≠ [] → downsampleTable pc t ds = (.error .runtimeError, pc)) := by
  refine ⟨fun hd h => ?_, fun hd h => by rw [downsampleTable, if_pos ⟨hd, h⟩]⟩
  rcases hi with he | ⟨P', h0, hm⟩
  · rw [he.ha] at hP; simp [emptyClouds] at hP
  obtain rfl : P' = P := by have := h0.wf.pts; rw [hP] at this; simpa using this.symm
  obtain ⟨s1, g1, r1, m1⟩ := getList_rep .points pc h0 hm
  refine ⟨s1, ?_, .inr ⟨P', r1, m1⟩⟩
  have hds : ¬ (ds = 0 ∧ t ≠ []) := fun h => hd h.1
  rw [downsampleTable, if_neg hds, g1]
  simp only [hP, r1.hB, gatherTable_error rfl h]

/-- A row of natural numbers as a row of the int64 table. -/
def ofRow (r : Fusion.Row) : IRow := ⟨r.b, r.n, r.h, r.w⟩

theorem wrap_nat (n k : Nat) : wrap n (k : Int) = if k < n then some k else none := by
  unfold wrap
  simp

theorem gatherTable_nat (B : Nat) (l : List (T2 α)) (rows : List Fusion.Row) :
    gatherTable B l (rows.map ofRow) = gather B l rows := by
  have hf : ∀ b : Nat, ((rows.map ofRow).filter fun r => r.b = (b : Int)) = (rows.filter fun r => r.b = b).map ofRow := by
    intro b
    rw [List.filter_map]
    congr 2
    funext r
    simp [ofRow]
  unfold gatherTable gather
  simp only [hf]
  have hc : ((List.range B).any fun (b : Nat) => ((rows.filter fun r => r.b = b).map ofRow).any fun r =>
      (wrap (l.getD b ⟨[], 0⟩).rows.length r.n).isNone) = rows.any fun r => decide (r.b < B) && !decide (r.n < (l.getD r.b ⟨[], 0⟩).rows.length) := by
    rw [Bool.eq_iff_iff]
    simp only [List.any_eq_true, List.mem_range, List.mem_map, List.mem_filter, decide_eq_true_eq, Bool.and_eq_true, Bool.not_eq_true',
      decide_eq_false_iff_not]
    constructor
    · rintro ⟨b, hb, i, ⟨r, ⟨hr, rfl⟩, rfl⟩, hi⟩
      refine ⟨r, hr, hb, fun h => ?_⟩
      rw [show (ofRow r).n = (r.n : Int) from rfl, wrap_nat, if_pos h] at hi
      cases hi
    · rintro ⟨r, hr, hb, hn⟩
      refine ⟨r.b, hb, _, ⟨r, ⟨hr, rfl⟩, rfl⟩, ?_⟩
      rw [show (ofRow r).n = (r.n : Int) from rfl, wrap_nat, if_neg hn]; rfl
  simp only [hc]
  split_ifs with h
  · rfl
  · congr 1
    refine List.map_congr_left fun b hb => ?_
    congr 1
    rw [List.mem_range] at hb
    rw [List.filterMap_map, ← List.filterMap_eq_map]
    refine List.filterMap_congr fun r hr => ?_
    simp only [List.mem_filter, decide_eq_true_eq] at hr
    obtain ⟨hr, rfl⟩ := hr
    have hn : r.n < (l.getD r.b ⟨[], 0⟩).rows.length := by
      by_contra hn
      exact h (List.any_eq_true.2 ⟨r, hr, by simp only [hb, hn, decide_true, decide_false, Bool.not_false, Bool.and_self]⟩)
    simp only [Function.comp_apply, show (ofRow r).n = (r.n : Int) from rfl, wrap_nat, if_pos hn, Option.map_some]

/-- C115 (agreement).  On tables without negative entries this is the function of C56. -/
theorem table_downsample_nat (pc : PC α) (rows : List Fusion.Row) (ds : Int) :
    downsampleTable pc (rows.map ofRow) ds = downsamplePointclouds pc rows ds := by
  have hg : gridTable ds (rows.map ofRow) = (gridRows ds rows).map ofRow := by
    simp only [gridTable, gridRows, List.filter_map]
    rfl
  have ho : ∀ B (o : Option (List (T2 α))), gatherTableOpt B o ((gridRows ds rows).map ofRow) = gatherOpt B o (gridRows ds rows) := by
    intro B o
    cases o with
    | none => rfl
    | some l => simp only [gatherTableOpt, gatherOpt, gatherTable_nat]; rfl
  unfold downsampleTable downsamplePointclouds
  simp only [hg, gatherTable_nat, ho, ne_eq, List.map_eq_nil_iff]
  rfl
end

/-! ### Concrete cases -/
set_option maxRecDepth 100000

/-- Two clouds of three points and one point. -/
def PW : List (T2 ℚ) := [⟨[[1, 0, 0], [2, 0, 0], [3, 0, 0]], 3⟩, ⟨[[4, 0, 0]], 3⟩]
/-- A table with negative, repeated and foreign entries, and an entry outside its cloud off the grid. -/
def tW : List IRow := [⟨0, -1, -4, 2⟩, ⟨1, -1, 0, -2⟩, ⟨-1, 0, 0, 0⟩, ⟨2, 7, 0, 0⟩, ⟨1, -3, 1, 0⟩, ⟨0, 2, 0, 0⟩, ⟨0, 0, 2, 2⟩]

theorem table_downsample_case : (∀ r ∈ tW, ¬ Outside PW 2 r) ∧
    (match newList argW PW with
      | .error _ => none
      | .ok pc => match (downsampleTable pc tW 2).1 with
        | .error _ => none
        | .ok o => some (contents o)) =
      some [some [[[3, 0, 0], [3, 0, 0], [1, 0, 0]], [[4, 0, 0]]], some [[[0, 0, 3], [0, 0, 3], [0, 0, 1]], [[0, 0, 4]]], none, none] := by
  refine ⟨?_, by decide +kernel⟩
  rintro r hr ⟨h1, h2, b, c, h3, h4, h5⟩
  simp only [tW, List.mem_cons, List.not_mem_nil, or_false] at hr
  rcases hr with rfl | rfl | rfl | rfl | rfl | rfl | rfl
  all_goals simp only at h1 h2 h3 h5
  · obtain rfl : b = 0 := by omega
    simp only [PW, List.getElem?_cons_zero, Option.some.injEq] at h4; subst h4; simp at h5
  · obtain rfl : b = 1 := by omega
    simp only [PW, List.getElem?_cons_zero, List.getElem?_cons_succ, Option.some.injEq] at h4; subst h4; simp at h5
  · omega
  · obtain rfl : b = 2 := by omega
    simp [PW] at h4
  · omega
  · obtain rfl : b = 0 := by omega
    simp only [PW, List.getElem?_cons_zero, Option.some.injEq] at h4; subst h4; simp at h5
  · obtain rfl : b = 0 := by omega
    simp only [PW, List.getElem?_cons_zero, Option.some.injEq] at h4; subst h4; simp at h5

/-- `(1, -2)` is an entry outside the second cloud, although the longest cloud has three points. -/
theorem table_downsample_error_case : Outside PW 2 ⟨1, -2, 0, 0⟩ ∧
    (match newList argW PW with
      | .error _ => none
      | .ok pc => match (downsampleTable pc [⟨1, -2, 0, 0⟩] 2).1 with
        | .error e => some e
        | .ok _ => none) = some .indexError := by
  refine ⟨⟨by decide, by decide, 1, ⟨[[4, 0, 0]], 3⟩, rfl, rfl, .inl (by decide)⟩, by decide +kernel⟩

end Verif.Icp
