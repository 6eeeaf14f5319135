import Verif.Fusion.Table2
/-!
C116: the functions on maps and frames of `gradslam/slam/fusionutils.py` on arguments of any type and tables of any dtype and shape.
-/
namespace Verif.Fusion.Args
open Verif Pcs Fusion
set_option linter.unusedSectionVars false
set_option linter.unusedSimpArgs false

/-! ### Model -/

/-- `raise TypeError`. -/
abbrev typeError : Err := .pcs .typeError

/-- The argument `pointclouds`. -/
inductive PcArg (α : Type*)
  | pc (s : PC α)
  | other

/-- The argument `rgbdimages`: an RGBDImages object, a tensor or array (it has a shape and a length), or something without a shape. -/
inductive FrameArg (α : Type*)
  | rgbd (fr : Frame α)
  | shaped (s : List Nat)
  | other

/-- The argument `pc2im_bnhw`: an int64 tensor, a tensor of another dtype, or something else.  (Sizes and indices outermost first.) -/
inductive TabArg
  | int64 (dims : List Nat) (get : List Nat → Int)
  | otherDtype (dims : List Nat)
  | other

/-- A threshold: a Python number, or something else. -/
inductive NumArg (α : Type*)
  | number (x : α)
  | other

/-- The rows of a tensor with `n` rows of four entries. -/
def rowsOf (n : Nat) (get : List Nat → Int) : List IRow :=
  (List.range n).map fun i => ⟨get [i, 0], get [i, 1], get [i, 2], get [i, 3]⟩

/-- `pc2im_bnhw.ndim == 2 and pc2im_bnhw.shape[1] == 4` (both tests raise ValueError), with the rows. -/
def tableOf (dims : List Nat) (get : List Nat → Int) : Except Err (List IRow) :=
  if dims.length ≠ 2 then .error valueError
  else if dims.getD 1 0 ≠ 4 then .error valueError
  else .ok (rowsOf (dims.getD 0 0) get)

section
variable {α : Type*} [Field α] [LinearOrder α]

/-- What a call does to the argument `pointclouds`. -/
def onMap {β : Type*} : Except Err β × PC α → Except Err β × PcArg α
  | (r, s) => (r, .pc s)

/-- `find_active_map_points`, fusionutils.py:217-237. -/
def activeArgs [FloorRing α] (pc : PcArg α) (fr : FrameArg α) : Except Err (List Row) × PcArg α :=
  match pc with
  | .other => (.error typeError, pc)
  | .pc s => match fr with
    | .rgbd f => onMap (findActive s f)
    | _ => (.error typeError, pc)

/-- `find_similar_map_points`, fusionutils.py:324-411.  The thresholds are looked at in `are_points_close` and `are_normals_similar`
(lines 112, 169), which are called when the map has points and the table has rows, after all indexing.  The result of the comparison is not
used if a threshold is no number, so 0 stands for it. -/
def similarArgs (nrm : V3 α → α) (pc : PcArg α) (fr : FrameArg α) (tab : TabArg) (distTh dotTh : NumArg α) :
    Except Err (List IRow × List Bool) × PcArg α :=
  match pc with
  | .other => (.error typeError, pc)
  | .pc s => match fr with
    | .shaped _ => (.error typeError, pc)
    | .other => (.error typeError, pc)
    | .rgbd f => match tab with
      | .other => (.error typeError, pc)
      | .otherDtype _ => (.error typeError, pc)
      | .int64 dims get =>
        if f.L ≠ 1 then (.error valueError, pc)
        else match tableOf dims get with
          | .error e => (.error e, pc)
          | .ok t => match distTh, dotTh with
            | .number x, .number y => onMap (similarTable nrm s f t x y)
            | _, _ => match similarTable nrm s f t 0 0 with
              | (.error e, s) => (.error e, .pc s)
              | (.ok (o, m), s) => if m = [] then (.ok (o, m), .pc s) else (.error typeError, .pc s)

/-- The part of `find_best_unique_correspondences` after the shape checks, for a `rgbdimages` that is no RGBDImages object but has a length
`n`, fusionutils.py:472-498: only `b` and `n` of the table are used before the missing attribute `global_vertex_map` raises. -/
def bestForeign (s : PC α) (n : Nat) (t : List IRow) : Except Err (List IRow) × PC α :=
  let (h, s) := hasAttr .points s
  if !h || t.length = 0 then (.ok [], s)
  else if n ≠ s.B then (.error valueError, s)
  else
    let (hf, s) := hasAttr .features s
    if !hf then (.error valueError, s)
    else match getPad .features s with
      | (.error e, s) => (.error (.pcs e), s)
      | (.ok f, s) => if t.all fun r => (wrap (shape3 (f.getD [])).1 r.b).isSome && (wrap (shape3 (f.getD [])).2.1 r.n).isSome then
          (.error .attributeError, s) else (.error (.pcs .indexError), s)

/-- `find_best_unique_correspondences`, fusionutils.py:440-546: the type of `rgbdimages` is not tested. -/
def bestArgs (pc : PcArg α) (fr : FrameArg α) (tab : TabArg) : Except Err (List IRow) × PcArg α :=
  match pc with
  | .other => (.error typeError, pc)
  | .pc s => match tab with
    | .other => (.error typeError, pc)
    | .otherDtype _ => (.error typeError, pc)
    | .int64 dims get => match fr with
      | .other => (.error .attributeError, pc)
      | .shaped sh => match sh[1]? with
        | none => (.error (.pcs .indexError), pc)
        | some l => if l ≠ 1 then (.error valueError, pc)
          else match tableOf dims get with
            | .error e => (.error e, pc)
            | .ok t => onMap (bestForeign s (sh.getD 0 0) t)
      | .rgbd f =>
        if f.L ≠ 1 then (.error valueError, pc)
        else match tableOf dims get with
          | .error e => (.error e, pc)
          | .ok t => onMap (bestTable s f t)

/-- `fuse_with_map`, fusionutils.py:607-722. -/
def fuseArgs (al : V3 α → α) (pc : PcArg α) (fr : FrameArg α) (tab : TabArg) (inplace : Bool) : Except Err (PC α) × PcArg α :=
  match pc with
  | .other => (.error typeError, pc)
  | .pc s => match fr with
    | .shaped _ => (.error typeError, pc)
    | .other => (.error typeError, pc)
    | .rgbd f => match tab with
      | .other => (.error typeError, pc)
      | .otherDtype _ => (.error typeError, pc)
      | .int64 dims get => match tableOf dims get with
        | .error e => (.error e, pc)
        | .ok t => onMap (fuseTable al s f t inplace)

/-- `update_map_aggregate`, fusionutils.py:742-758. -/
def aggregateArgs (pc : PcArg α) (fr : FrameArg α) (inplace : Bool) : Except Err (PC α) × PcArg α :=
  match pc with
  | .other => (.error typeError, pc)
  | .pc s => match fr with
    | .rgbd f => onMap (updateMapAggregate s f inplace)
    | _ => (.error typeError, pc)

/-! ### Specification -/

/-- Not a Pointclouds object. -/
def NotMap (pc : PcArg α) : Prop := ∀ s, pc ≠ .pc s
/-- Not an RGBDImages object. -/
def NotFrame (fr : FrameArg α) : Prop := ∀ f, fr ≠ .rgbd f
/-- Not an int64 tensor. -/
def NotInt64 (tab : TabArg) : Prop := ∀ d g, tab ≠ .int64 d g
/-- Not a number. -/
def NotNumber (x : NumArg α) : Prop := ∀ y, x ≠ .number y

/-- The call raises `e`; the argument is as it was: the same, or a map object with the same contents. -/
def Raises {β : Type*} (r : Except Err β × PcArg α) (e : Err) (a : Clouds α) : Prop := r.1 = .error e ∧ ∃ s', r.2 = .pc s' ∧ Inv s' a

/-- The call returns `x`, and the map has the same contents. -/
def Returns {β : Type*} (r : Except Err β × PcArg α) (x : β) (a : Clouds α) : Prop := r.1 = .ok x ∧ ∃ s', r.2 = .pc s' ∧ Inv s' a

/-! ### Proofs -/

/-- C116 (types).  An argument of the wrong type raises TypeError, whatever the other arguments are. -/
theorem wrong_type [FloorRing α] (nrm al : V3 α → α) (pc : PcArg α) (fr : FrameArg α) (tab : TabArg) (x y : NumArg α) (inplace : Bool) :
    (NotMap pc ∨ NotFrame fr → activeArgs pc fr = (.error typeError, pc) ∧ aggregateArgs pc fr inplace = (.error typeError, pc)) ∧
    (NotMap pc ∨ NotFrame fr ∨ NotInt64 tab → similarArgs nrm pc fr tab x y = (.error typeError, pc) ∧
      fuseArgs al pc fr tab inplace = (.error typeError, pc)) ∧
    (NotMap pc ∨ NotInt64 tab → bestArgs pc fr tab = (.error typeError, pc)) := by
  unfold NotMap NotFrame NotInt64 activeArgs aggregateArgs similarArgs fuseArgs bestArgs
  cases pc <;> cases fr <;> cases tab <;> simp

theorem tableOf_bad {dims : List Nat} {get : List Nat → Int} (h : ∀ n, dims ≠ [n, 4]) : tableOf dims get = .error valueError := by
  unfold tableOf
  split_ifs with h1 h2
  · rfl
  · rfl
  · exfalso
    match dims, h1, h2, h with
    | [n, m], _, h2, h => simp only [List.getD_cons_succ, List.getD_cons_zero, not_not] at h2; subst h2; exact h n rfl
    | [], h1, _, _ => simp at h1
    | [_], h1, _, _ => simp at h1
    | _ :: _ :: _ :: _, h1, _, _ => simp at h1

theorem tableOf_good (n : Nat) (get : List Nat → Int) : tableOf [n, 4] get = .ok (rowsOf n get) := by simp [tableOf]

/-- C116 (shapes).  A table that has not exactly four columns raises ValueError, even if the map is empty; so do sequences longer than one
frame where correspondences are computed. -/
theorem wrong_shape (nrm al : V3 α → α) {s : PC α} {f : Frame α} {dims : List Nat} (get : List Nat → Int) (x y : NumArg α) (inplace : Bool) :
    ((f.L ≠ 1 ∨ ∀ n, dims ≠ [n, 4]) → similarArgs nrm (.pc s) (.rgbd f) (.int64 dims get) x y = (.error valueError, .pc s) ∧
      bestArgs (.pc s) (.rgbd f) (.int64 dims get) = (.error valueError, .pc s)) ∧
    ((∀ n, dims ≠ [n, 4]) → fuseArgs al (.pc s) (.rgbd f) (.int64 dims get) inplace = (.error valueError, .pc s)) := by
  refine ⟨fun h => ?_, fun h => by simp only [fuseArgs, tableOf_bad h]⟩
  by_cases hL : f.L ≠ 1
  · simp only [similarArgs, bestArgs, if_pos hL, and_self]
  · have h := h.resolve_left hL
    simp only [similarArgs, bestArgs, if_neg hL, tableOf_bad h, and_self]

end

section
variable {α : Type*} [Field α] [LinearOrder α] [IsStrictOrderedRing α]

theorem hasAttr_inv {s : PC α} {a : Clouds α} (hi : Inv s a) (X : Attr) : ∃ s', hasAttr X s = ((a X).isSome, s') ∧ Inv s' a ∧ s'.B = s.B := by
  rcases hi with h | ⟨P, h, hm⟩
  · obtain ⟨s', e, r⟩ := h.hasAttr X
    refine ⟨s', ?_, .inl r, by rw [r.hB, h.hB]⟩
    rw [e, h.ha]; rfl
  · obtain ⟨s', e, r, f, _⟩ := h.hasAttr X
    exact ⟨s', e, .inr ⟨P, r, hm.frame f.eq f.mask⟩, by rw [r.hB, h.hB]⟩

theorem B_inv {s : PC α} {a : Clouds α} {P : List (T2 α)} (hi : Inv s a) (hP : a .points = some P) : s.B = P.length := by
  rcases hi with h | ⟨P', h, _⟩
  · rw [h.noPoints] at hP; cases hP
  · have := h.wf.pts; rw [hP] at this; rw [h.hB, Option.some.inj this]

/-- C116 (tables).  The rows of a tensor are, in order, its rows of four entries. -/
theorem rowsOf_spec (n : Nat) (get : List Nat → Int) (t : List IRow) :
    rowsOf n get = t ↔ t.length = n ∧ ∀ (i : Nat) (r : IRow), t[i]? = some r →
      r.b = get [i, 0] ∧ r.n = get [i, 1] ∧ r.h = get [i, 2] ∧ r.w = get [i, 3] := by
  constructor
  · rintro rfl
    refine ⟨by simp [rowsOf], fun i r h => ?_⟩
    simp only [rowsOf, List.getElem?_map, Option.map_eq_some_iff] at h
    obtain ⟨j, hj, rfl⟩ := h
    rw [List.getElem?_eq_some_iff] at hj
    obtain ⟨_, hj⟩ := hj
    rw [List.getElem_range] at hj
    subst hj
    exact ⟨rfl, rfl, rfl, rfl⟩
  · rintro ⟨rfl, h⟩
    apply List.ext_getElem (by simp [rowsOf])
    intro i h1 h2
    obtain ⟨a, b, c, d⟩ := h i _ (List.getElem?_eq_getElem h2)
    simp only [rowsOf, List.getElem_map, List.getElem_range]
    rw [← a, ← b, ← c, ← d]

theorem length_rowsOf (n : Nat) (get : List Nat → Int) : (rowsOf n get).length = n := by simp [rowsOf]

theorem rowsOf_ne {n : Nat} (h : 0 < n) (get : List Nat → Int) : rowsOf n get ≠ [] := by
  intro h0
  have := congrArg List.length h0
  rw [length_rowsOf] at this
  simp at this; omega

theorem resolve_some {B N : Nat} {fr : Frame α} {t : List IRow} (h : ∀ i ∈ t, ¬ OutOfRange B N fr i) :
    ∃ rows, resolve B N fr t = some rows := by
  cases e : resolve B N fr t with
  | none => obtain ⟨i, h1, h2⟩ := resolve_none.1 e; exact absurd h2 (h i h1)
  | some rows => exact ⟨rows, rfl⟩

/-- C116 (right types).  With a map, a frame, a table of `n` rows and numbers, the calls are those of C35-C37 and C114. -/
theorem right_types [FloorRing α] (nrm al : V3 α → α) (s : PC α) (f : Frame α) (n : Nat) (get : List Nat → Int) (x y : α) (inplace : Bool) :
    activeArgs (.pc s) (.rgbd f) = ((findActive s f).1, .pc (findActive s f).2) ∧
    similarArgs nrm (.pc s) (.rgbd f) (.int64 [n, 4] get) (.number x) (.number y) =
      ((similarTable nrm s f (rowsOf n get) x y).1, .pc (similarTable nrm s f (rowsOf n get) x y).2) ∧
    bestArgs (.pc s) (.rgbd f) (.int64 [n, 4] get) = ((bestTable s f (rowsOf n get)).1, .pc (bestTable s f (rowsOf n get)).2) ∧
    fuseArgs al (.pc s) (.rgbd f) (.int64 [n, 4] get) inplace =
      ((fuseTable al s f (rowsOf n get) inplace).1, .pc (fuseTable al s f (rowsOf n get) inplace).2) ∧
    aggregateArgs (.pc s) (.rgbd f) inplace = ((updateMapAggregate s f inplace).1, .pc (updateMapAggregate s f inplace).2) := by
  refine ⟨rfl, ?_, ?_, ?_, rfl⟩
  · by_cases hL : f.L ≠ 1
    · simp only [similarArgs, similarTable, if_pos hL]
    · simp only [similarArgs, if_neg hL, tableOf_good]; rfl
  · by_cases hL : f.L ≠ 1
    · simp only [bestArgs, bestTable, if_pos hL]
    · simp only [bestArgs, if_neg hL, tableOf_good]; rfl
  · simp only [fuseArgs, tableOf_good]; rfl

/-- C116 (`find_similar_map_points`).  What a call with a map, a frame and a table of `n` rows does.  If the map has no points or the table
has no rows, nothing else is looked at: neither the entries, nor the batch sizes, nor the types of the thresholds.  Otherwise other batch
sizes or missing normals raise ValueError; then an entry out of range raises IndexError; then a threshold that is no number raises
TypeError; else the call succeeds.  The map never changes. -/
theorem similar_outcome (nrm : V3 α → α) {s : PC α} {a : Clouds α} (hi : Inv s a) {f : Frame α} (hL : f.L = 1) (n : Nat)
    (get : List Nat → Int) (x y : NumArg α) :
    (a .points = none ∨ n = 0 → Returns (similarArgs nrm (.pc s) (.rgbd f) (.int64 [n, 4] get) x y) ([], []) a) ∧
    ∀ P N, a .points = some P → Longest P N → 0 < n →
      (f.B ≠ P.length ∨ a .normals = none → Raises (similarArgs nrm (.pc s) (.rgbd f) (.int64 [n, 4] get) x y) valueError a) ∧
      (f.B = P.length → (a .normals).isSome →
        ((∃ i ∈ rowsOf n get, OutOfRange P.length N f i) →
          Raises (similarArgs nrm (.pc s) (.rgbd f) (.int64 [n, 4] get) x y) (.pcs .indexError) a) ∧
        ((∀ i ∈ rowsOf n get, ¬ OutOfRange P.length N f i) →
          (NotNumber x ∨ NotNumber y → Raises (similarArgs nrm (.pc s) (.rgbd f) (.int64 [n, 4] get) x y) typeError a) ∧
          (∀ u v, x = .number u → y = .number v →
            ∃ r, r.2.length = n ∧ Returns (similarArgs nrm (.pc s) (.rgbd f) (.int64 [n, 4] get) x y) r a))) := by
  have hL' : ¬ f.L ≠ 1 := by simp [hL]
  -- the table and the thresholds meet the code of C114
  have lift : ∀ {r : Except Err (List IRow × List Bool)} {s'}, (∀ u v, similarTable nrm s f (rowsOf n get) u v = (r, s')) →
      (∀ o m, r = .ok (o, m) → m = []) → similarArgs nrm (.pc s) (.rgbd f) (.int64 [n, 4] get) x y = (r, .pc s') := by
    intro r s' h1 h2
    simp only [similarArgs, if_neg hL', tableOf_good]
    rcases r with e | ⟨o, m⟩
    · cases x <;> cases y <;> simp only [h1, onMap]
    · have := h2 o m rfl
      subst this
      cases x <;> cases y <;> simp only [h1, onMap, if_true]
  refine ⟨fun h => ?_, fun P N hP hN hn => ⟨fun h => ?_, fun hB hnn => ⟨fun h => ?_, fun h => ⟨fun hx => ?_, fun u v hu hv => ?_⟩⟩⟩⟩
  · obtain ⟨s1, e1, i1, _⟩ := hasAttr_inv hi .points
    have hc : (!(a .points).isSome || decide ((rowsOf n get).length = 0)) = true := by
      rw [length_rowsOf]; rcases h with h | h <;> simp [h]
    have e := lift (r := .ok ([], [])) (s' := s1) (fun u v => by simp only [similarTable, if_neg hL', e1, hc, if_true]) (by simp)
    exact ⟨by rw [e], s1, by rw [e], i1⟩
  · obtain ⟨s1, e1, i1, b1⟩ := hasAttr_inv hi .points
    obtain ⟨s2, e2, i2, _⟩ := hasAttr_inv i1 .normals
    have hc : ¬ (!(a .points).isSome || decide ((rowsOf n get).length = 0)) = true := by rw [length_rowsOf]; simp [hP]; omega
    by_cases hB : f.B ≠ s1.B
    · have e := lift (r := .error valueError) (s' := s1)
        (fun u v => by simp only [similarTable, if_neg hL', e1, if_neg hc, if_pos hB]) (by simp)
      exact ⟨by rw [e], s1, by rw [e], i1⟩
    · have hn0 : a .normals = none := h.resolve_left (by rw [b1, B_inv hi hP] at hB; exact hB)
      have e := lift (r := .error valueError) (s' := s2)
        (fun u v => by simp only [similarTable, if_neg hL', e1, if_neg hc, if_neg hB, e2, hn0, Option.isSome_none, Bool.not_false, if_true])
        (by simp)
      exact ⟨by rw [e], s2, by rw [e], i2⟩
  · obtain ⟨Nn, hNn⟩ := Option.isSome_iff_exists.1 hnn
    have hd : ∀ u v, ∃ pc', Inv pc' a ∧ similarTable nrm s f (rowsOf n get) u v = (.error (.pcs .indexError), pc') := by
      intro u v
      obtain ⟨i, h1, h2⟩ := h
      obtain ⟨pc', k1, k2⟩ := similar_index_error (nrm := nrm) (distTh := u) (dotTh := v) hi hP hNn hL hB hN h1 h2
      exact ⟨pc', k2, k1⟩
    obtain ⟨p0, i0, d0⟩ := hd 0 0
    unfold Raises
    simp only [similarArgs, if_neg hL', tableOf_good]
    cases x with
    | other => simp only [d0]; exact ⟨trivial, p0, rfl, i0⟩
    | number u => cases y with
      | other => simp only [d0]; exact ⟨trivial, p0, rfl, i0⟩
      | number v => obtain ⟨p1, i1, d1⟩ := hd u v; simp only [d1, onMap]; exact ⟨trivial, p1, rfl, i1⟩
  · obtain ⟨Nn, hNn⟩ := Option.isSome_iff_exists.1 hnn
    obtain ⟨rows, hr⟩ := resolve_some h
    obtain ⟨pc', k1, k2⟩ := similarTable_start (nrm := nrm) (distTh := 0) (dotTh := 0) hi hP hNn hL hB hN (rowsOf_ne hn get)
    rw [hr] at k2
    have hm : rows ≠ [] := by
      have := (resolve_iff.1 hr).length_eq
      rw [length_rowsOf] at this
      intro h0; rw [h0] at this; simp at this; omega
    unfold Raises
    have e : similarArgs nrm (.pc s) (.rgbd f) (.int64 [n, 4] get) x y = (.error typeError, .pc pc') := by
      simp only [similarArgs, if_neg hL', tableOf_good]
      cases x with
      | other => simp only [k2, List.map_eq_nil_iff, hm, if_false]
      | number u => cases y with
        | other => simp only [k2, List.map_eq_nil_iff, hm, if_false]
        | number v => rcases hx with hx | hx <;> exact absurd rfl (hx _)
    rw [e]
    exact ⟨rfl, pc', rfl, k1⟩
  · subst hu hv
    obtain ⟨Nn, hNn⟩ := Option.isSome_iff_exists.1 hnn
    obtain ⟨rows, hr⟩ := resolve_some h
    obtain ⟨pc', k1, k2⟩ := similarTable_start (nrm := nrm) (distTh := u) (dotTh := v) hi hP hNn hL hB hN (rowsOf_ne hn get)
    rw [hr] at k2
    have e : similarArgs nrm (.pc s) (.rgbd f) (.int64 [n, 4] get) (.number u) (.number v) =
        onMap (similarTable nrm s f (rowsOf n get) u v) := by simp only [similarArgs, if_neg hL', tableOf_good]
    rw [e, k2]
    refine ⟨_, ?_, rfl, pc', rfl, k1⟩
    rw [List.length_map, ← (resolve_iff.1 hr).length_eq, length_rowsOf]

/-- C116 (`find_best_unique_correspondences`, frames).  The same without thresholds, with features in place of normals. -/
theorem best_outcome {s : PC α} {a : Clouds α} (hi : Inv s a) {f : Frame α} (hL : f.L = 1) (n : Nat) (get : List Nat → Int) :
    (a .points = none ∨ n = 0 → Returns (bestArgs (.pc s) (.rgbd f) (.int64 [n, 4] get)) [] a) ∧
    ∀ P N, a .points = some P → Longest P N → 0 < n →
      (f.B ≠ P.length ∨ a .features = none → Raises (bestArgs (.pc s) (.rgbd f) (.int64 [n, 4] get)) valueError a) ∧
      (f.B = P.length → (a .features).isSome →
        ((∃ i ∈ rowsOf n get, OutOfRange P.length N f i) → Raises (bestArgs (.pc s) (.rgbd f) (.int64 [n, 4] get)) (.pcs .indexError) a) ∧
        ((∀ i ∈ rowsOf n get, ¬ OutOfRange P.length N f i) → ∃ r, Returns (bestArgs (.pc s) (.rgbd f) (.int64 [n, 4] get)) r a)) := by
  have hL' : ¬ f.L ≠ 1 := by simp [hL]
  have e0 : bestArgs (.pc s) (.rgbd f) (.int64 [n, 4] get) = onMap (bestTable s f (rowsOf n get)) := by
    simp only [bestArgs, if_neg hL', tableOf_good]
  rw [e0]
  obtain ⟨s1, e1, i1, b1⟩ := hasAttr_inv hi .points
  refine ⟨fun h => ?_, fun P N hP hN hn => ⟨fun h => ?_, fun hB hf => ⟨fun h => ?_, fun h => ?_⟩⟩⟩
  · have hc : (!(a .points).isSome || decide ((rowsOf n get).length = 0)) = true := by
      rw [length_rowsOf]; rcases h with h | h <;> simp [h]
    simp only [bestTable, if_neg hL', e1, hc, if_true, onMap]
    exact ⟨rfl, s1, rfl, i1⟩
  · obtain ⟨s2, e2, i2, _⟩ := hasAttr_inv i1 .features
    have hc : ¬ (!(a .points).isSome || decide ((rowsOf n get).length = 0)) = true := by rw [length_rowsOf]; simp [hP]; omega
    by_cases hB : f.B ≠ s1.B
    · simp only [bestTable, if_neg hL', e1, if_neg hc, if_pos hB, onMap]
      exact ⟨rfl, s1, rfl, i1⟩
    · have hf : a .features = none := h.resolve_left (by rw [b1, B_inv hi hP] at hB; exact hB)
      simp only [bestTable, if_neg hL', e1, if_neg hc, if_neg hB, e2, hf, Option.isSome_none, Bool.not_false, if_true, onMap]
      exact ⟨rfl, s2, rfl, i2⟩
  · obtain ⟨F, hF⟩ := Option.isSome_iff_exists.1 hf
    obtain ⟨i, h1, h2⟩ := h
    obtain ⟨pc', k1, k2⟩ := best_index_error hi hP hF hL hB hN h1 h2
    rw [k1]
    exact ⟨rfl, pc', rfl, k2⟩
  · obtain ⟨F, hF⟩ := Option.isSome_iff_exists.1 hf
    obtain ⟨rows, hr⟩ := resolve_some h
    obtain ⟨pc', k1, k2⟩ := bestTable_start hi hP hF hL hB hN (rowsOf_ne hn get)
    rw [hr] at k2
    rw [k2]
    exact ⟨_, rfl, pc', rfl, k1⟩

/-- C116 (`find_best_unique_correspondences`, other objects in place of a frame).  The type of `rgbdimages` is not tested: a tensor or array
of shape `(_, 1, ...)` is accepted, with an empty result, if the map has no points or the table no rows.  Otherwise the call raises
ValueError (other length, or no features), IndexError (a batch or point index out of range) or AttributeError.  Shapes with another
second dimension raise ValueError, with fewer than two dimensions IndexError; objects without a shape AttributeError. -/
theorem best_foreign {s : PC α} {a : Clouds α} (hi : Inv s a) (n : Nat) (get : List Nat → Int) :
    (∀ B rest, (a .points = none ∨ n = 0 → Returns (bestArgs (.pc s) (.shaped (B :: 1 :: rest)) (.int64 [n, 4] get)) [] a) ∧
      ∀ P N, a .points = some P → Longest P N → 0 < n →
        (B ≠ P.length ∨ a .features = none → Raises (bestArgs (.pc s) (.shaped (B :: 1 :: rest)) (.int64 [n, 4] get)) valueError a) ∧
        (B = P.length → (a .features).isSome →
          Raises (bestArgs (.pc s) (.shaped (B :: 1 :: rest)) (.int64 [n, 4] get)) .attributeError a ∨
          Raises (bestArgs (.pc s) (.shaped (B :: 1 :: rest)) (.int64 [n, 4] get)) (.pcs .indexError) a)) ∧
    (∀ B l rest, l ≠ 1 → Raises (bestArgs (.pc s) (.shaped (B :: l :: rest)) (.int64 [n, 4] get)) valueError a) ∧
    (∀ sh : List Nat, sh.length < 2 → Raises (bestArgs (.pc s) (.shaped sh) (.int64 [n, 4] get)) (.pcs .indexError) a) ∧
    Raises (bestArgs (.pc s) .other (.int64 [n, 4] get)) .attributeError a := by
  obtain ⟨s1, e1, i1, b1⟩ := hasAttr_inv hi .points
  refine ⟨fun B rest => ?_, fun B l rest h => ?_, fun sh h => ?_, rfl, s, rfl, hi⟩
  · have e0 : bestArgs (.pc s) (.shaped (B :: 1 :: rest)) (.int64 [n, 4] get) = onMap (bestForeign s B (rowsOf n get)) := by
      simp [bestArgs, tableOf_good]
    rw [e0]
    refine ⟨fun h => ?_, fun P N hP hN hn => ⟨fun h => ?_, fun hB hf => ?_⟩⟩
    · have hc : (!(a .points).isSome || decide ((rowsOf n get).length = 0)) = true := by
        rw [length_rowsOf]; rcases h with h | h <;> simp [h]
      simp only [bestForeign, e1, hc, if_true, onMap]
      exact ⟨rfl, s1, rfl, i1⟩
    · obtain ⟨s2, e2, i2, _⟩ := hasAttr_inv i1 .features
      have hc : ¬ (!(a .points).isSome || decide ((rowsOf n get).length = 0)) = true := by rw [length_rowsOf]; simp [hP]; omega
      by_cases hB : B ≠ s1.B
      · simp only [bestForeign, e1, if_neg hc, if_pos hB, onMap]
        exact ⟨rfl, s1, rfl, i1⟩
      · have hf : a .features = none := h.resolve_left (by rw [b1, B_inv hi hP] at hB; exact hB)
        simp only [bestForeign, e1, if_neg hc, if_neg hB, e2, hf, Option.isSome_none, Bool.not_false, if_true, onMap]
        exact ⟨rfl, s2, rfl, i2⟩
    · obtain ⟨s2, e2, i2, _⟩ := hasAttr_inv i1 .features
      have hc : ¬ (!(a .points).isSome || decide ((rowsOf n get).length = 0)) = true := by rw [length_rowsOf]; simp [hP]; omega
      have hB' : ¬ B ≠ s1.B := by rw [b1, B_inv hi hP]; simpa using hB
      obtain ⟨s3, e3, i3⟩ : ∃ s3, getPad .features s2 = (.ok ((a .features).map (padL (maxL (sizes P)))), s3) ∧ Inv s3 a := by
        rcases i2 with h | ⟨P', h, hm⟩
        · rw [h.noPoints] at hP; cases hP
        obtain rfl : P' = P := by have := h.wf.pts; rw [hP] at this; exact (Option.some.inj this).symm
        obtain ⟨s', e, r, _, f, _⟩ := h.getPad .features
        rw [h.hN] at e
        exact ⟨s', e, .inr ⟨P', r, hm.frame f.eq f.mask⟩⟩
      simp only [bestForeign, e1, if_neg hc, if_neg hB', e2, hf, Bool.not_true, Bool.false_eq_true, if_false, e3]
      split_ifs
      · exact .inl ⟨rfl, s3, rfl, i3⟩
      · exact .inr ⟨rfl, s3, rfl, i3⟩
  · have : bestArgs (.pc s) (.shaped (B :: l :: rest)) (.int64 [n, 4] get) = (.error valueError, .pc s) := by
      simp [bestArgs, h]
    rw [this]; exact ⟨rfl, s, rfl, hi⟩
  · have : bestArgs (.pc s) (.shaped sh) (.int64 [n, 4] get) = (.error (.pcs .indexError), .pc s) := by
      match sh, h with
      | [], _ => rfl
      | [_], _ => rfl
    rw [this]; exact ⟨rfl, s, rfl, hi⟩

/-- C116 (`fuse_with_map`).  If the map has no points, only the shape of the table is looked at: tables of any rows, in or out of range, give
the same outcome.  A map with points but without normals, colours or features raises ValueError, whatever the rows.  An entry out of range
raises IndexError (with C114 for the rest).  The map never changes when the call raises. -/
theorem fuse_outcome (al : V3 α → α) {s : PC α} {a : Clouds α} (hi : Inv s a) (f : Frame α) (n : Nat) (get : List Nat → Int)
    (inplace : Bool) :
    (a .points = none → ∀ n' get', fuseArgs al (.pc s) (.rgbd f) (.int64 [n, 4] get) inplace =
      fuseArgs al (.pc s) (.rgbd f) (.int64 [n', 4] get') inplace) ∧
    ((a .points).isSome → (a .normals = none ∨ a .colors = none ∨ a .features = none) →
      Raises (fuseArgs al (.pc s) (.rgbd f) (.int64 [n, 4] get) inplace) valueError a) ∧
    (∀ P N, a .points = some P → Longest P N → (a .normals).isSome → (a .colors).isSome → (a .features).isSome →
      (∃ i ∈ rowsOf n get, OutOfRange P.length N f i) →
      Raises (fuseArgs al (.pc s) (.rgbd f) (.int64 [n, 4] get) inplace) (.pcs .indexError) a) := by
  have e0 : ∀ n get, fuseArgs al (.pc s) (.rgbd f) (.int64 [n, 4] get) inplace = onMap (fuseTable al s f (rowsOf n get) inplace) :=
    fun n get => by simp only [fuseArgs, tableOf_good]
  obtain ⟨s1, e1, i1, _⟩ := hasAttr_inv hi .points
  refine ⟨fun h n' get' => ?_, fun hp h => ?_, fun P N hP hN h1 h2 h3 h => ?_⟩
  · rw [e0, e0]
    simp only [fuseTable, e1, h, Option.isSome_none, Bool.false_eq_true, if_false, Bool.not_true, Bool.not_false, Bool.true_or, if_true]
  · rw [e0]
    obtain ⟨s2, e2, i2, _⟩ := hasAttr_inv i1 .normals
    obtain ⟨s3, e3, i3, _⟩ := hasAttr_inv i2 .colors
    obtain ⟨s4, e4, i4, _⟩ := hasAttr_inv i3 .features
    have key : ∃ s', requireAll [.normals, .colors, .features] s1 = (false, s') ∧ Inv s' a := by
      simp only [requireAll, e2]
      by_cases hn : (a .normals).isSome
      · simp only [hn, if_true, e3]
        by_cases hc : (a .colors).isSome
        · simp only [hc, if_true, e4]
          have hf : a .features = none := by
            rcases h with h | h | h
            · rw [h] at hn; cases hn
            · rw [h] at hc; cases hc
            · exact h
          rw [hf]; exact ⟨s4, rfl, i4⟩
        · simp only [hc]; exact ⟨s3, rfl, i3⟩
      · simp only [hn]; exact ⟨s2, rfl, i2⟩
    obtain ⟨s', k1, k2⟩ := key
    simp only [fuseTable, e1, hp, if_true, k1, Bool.not_false, onMap]
    exact ⟨rfl, s', rfl, k2⟩
  · rw [e0]
    obtain ⟨Nn, hNn⟩ := Option.isSome_iff_exists.1 h1
    obtain ⟨C, hC⟩ := Option.isSome_iff_exists.1 h2
    obtain ⟨F, hF⟩ := Option.isSome_iff_exists.1 h3
    obtain ⟨i, k1, k2⟩ := h
    obtain ⟨s', k3, k4⟩ := table_index_error hi hP hNn hC hF hN k1 k2 al inplace
    rw [k3]; exact ⟨rfl, s', rfl, k4⟩
end

/-! ### Concrete cases -/

/-- A map of two clouds meets the hypotheses; with the table `[[1, -1, 0, 1]]` the call of `find_similar_map_points` succeeds for numbers
and raises TypeError for a threshold that is none; an empty table is accepted with that threshold. -/
theorem args_case : Inv sT aT ∧ (fr1 2).L = 1 ∧ (fr1 2).B = PT.length ∧ aT .points = some PT ∧ Longest PT 2 ∧ (aT .normals).isSome ∧
    (∀ i ∈ rowsOf 1 (fun k => [1, -1, 0, 1].getD (k.getD 1 0) 0), ¬ OutOfRange PT.length 2 (fr1 2) i) ∧
    (similarArgs (fun v => v.normSq) (.pc sT) (.rgbd (fr1 2)) (.int64 [1, 4] fun k => [1, -1, 0, 1].getD (k.getD 1 0) 0)
      (.number 1000) (.number (-1000))).1 = .ok ([⟨1, -1, 0, 1⟩], [true]) ∧
    (similarArgs (fun v => v.normSq) (.pc sT) (.rgbd (fr1 2)) (.int64 [1, 4] fun k => [1, -1, 0, 1].getD (k.getD 1 0) 0)
      .other (.number 0)).1 = .error typeError ∧
    (similarArgs (fun v => v.normSq) (.pc sT) (.rgbd (fr1 2)) (.int64 [0, 4] fun _ => 0) .other .other).1 = .ok ([], []) ∧
    (bestArgs (.pc sT) (.shaped [7, 1, 5]) (.int64 [0, 4] fun _ => 0)).1 = .ok [] ∧
    (bestArgs (.pc sT) (.shaped [2, 1, 5]) (.int64 [1, 4] fun _ => 0)).1 = .error .attributeError := by
  refine ⟨?_, rfl, rfl, rfl, longest_PT, by decide, ?_, ?_, ?_, ?_, ?_, ?_⟩
  · exact sT_hist.inv
  · unfold OutOfRange; decide
  all_goals decide +kernel
end Verif.Fusion.Args
