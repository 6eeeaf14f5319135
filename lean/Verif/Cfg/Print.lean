import Verif.Cfg.Lemmas
import Mathlib.Data.String.Basic
import Mathlib.Data.List.Basic
import Mathlib.Data.List.TakeWhile
import Mathlib.Data.List.Nodup
import Mathlib.Data.List.Sort
/-!
Model of `CfgNode.__str__` (gradslam/config/cfgnode.py:144-163) and property C70: the printed text of a config determines its options and their
printed values, and depends on nothing else.
-/
namespace Verif.Cfg

/-! ### Model -/

/-- `s.split("\n")`, cfgnode.py:146. -/
def splitNl : List Char → List (List Char)
  | [] => [[]]
  | c :: s => if c = '\n' then [] :: splitNl s else
    match splitNl s with
    | [] => [[c]]
    | l :: ls => (c :: l) :: ls

/-- `"\n".join(lines)`, cfgnode.py:151, 162. -/
def joinNl : List (List Char) → List Char
  | [] => []
  | [l] => l
  | l :: ls => l ++ '\n' :: joinNl ls

/-- `_indent(s_, num_spaces)`, cfgnode.py:145-153. -/
def indent (n : Nat) (s : List Char) : List Char :=
  match splitNl s with
  | [] => s
  | [_] => s
  | first :: rest => first ++ '\n' :: joinNl (rest.map (List.replicate n ' ' ++ ·))

/-- An entry of `sorted(self.items())` with `str(v)` already computed: key, whether the value is a `CfgNode`, text. -/
abbrev Item := String × Bool × List Char

/-- `"{}:{}{}".format(k, separator, str(v))`, cfgnode.py:158-159. -/
def attrRaw (e : Item) : List Char := e.1.toList ++ ':' :: (if e.2.1 then '\n' else ' ') :: e.2.2

/-- `_indent(attr_str, 2)`, cfgnode.py:160. -/
def attrStr (e : Item) : List Char := indent 2 (attrRaw e)

/-- `sorted(self.items())`, cfgnode.py:157.  Keys of a dict are distinct, so only keys are compared. -/
def sortItems (l : List Item) : List Item := l.insertionSort fun a b => a.1 ≤ b.1

/-- `"\n".join(s)` over the sorted items, cfgnode.py:155-163. -/
def joinItems (l : List Item) : List Char := joinNl ((sortItems l).map attrStr)

/-- The items of a node with the texts of their values.  `show` is Python's `str` on leaf values, `showDict` on plain dicts. -/
def items (sh : Leaf → List Char) (shDict : Tree → List Char) : Tree → List Item
  | .nil => []
  | .leaf k l rest => (k, false, sh l) :: items sh shDict rest
  | .sub k none es rest => (k, false, shDict es) :: items sh shDict rest
  | .sub k (some _) es rest => (k, true, joinItems (items sh shDict es)) :: items sh shDict rest

/-- `CfgNode.__str__`, cfgnode.py:144-163. -/
def str (sh : Leaf → List Char) (shDict : Tree → List Char) (t : Tree) : List Char := joinItems (items sh shDict t)

/-! ### Specification -/

/-- Keys that can be told from the rest of a line: no colon, no line break, not starting with a space. -/
def GoodKey (k : String) : Prop := ':' ∉ k.toList ∧ '\n' ∉ k.toList ∧ k.toList.head? ≠ some ' '

/-- All keys of the node and of the nodes below are good. -/
def GoodKeys : Tree → Prop
  | .nil => True
  | .leaf k _ rest => GoodKey k ∧ GoodKeys rest
  | .sub k none _ rest => GoodKey k ∧ GoodKeys rest
  | .sub k (some _) es rest => GoodKey k ∧ GoodKeys es ∧ GoodKeys rest

/-- What is printed of a value: the text of a leaf (or plain dict), `none` for a section. -/
def render (sh : Leaf → List Char) (shDict : Tree → List Char) : Val → Option (List Char)
  | .leaf l => some (sh l)
  | .sub none es => some (shDict es)
  | .sub (some _) _ => none

/-- The option at path `p`: `none` if there is none, otherwise what is printed of it. -/
def shown (sh : Leaf → List Char) (shDict : Tree → List Char) (p : List String) (t : Tree) : Option (Option (List Char)) :=
  (at_ p (.sub (some .fresh) t)).map (render sh shDict)

/-! ### Proofs -/

theorem splitNl_ne (s : List Char) : splitNl s ≠ [] := by
  cases s with
  | nil => simp [splitNl]
  | cons c s => rw [splitNl]; split <;> [simp; (split <;> simp)]

theorem splitNl_cons {c : Char} (h : c ≠ '\n') (s : List Char) : splitNl (c :: s) = (c :: (splitNl s).headD []) :: (splitNl s).tail := by
  rw [splitNl, if_neg h]
  cases hs : splitNl s with
  | nil => exact absurd hs (splitNl_ne s)
  | cons l ls => rfl

theorem splitNl_append_nl (a b : List Char) : splitNl (a ++ '\n' :: b) = splitNl a ++ splitNl b := by
  induction a with
  | nil => simp [splitNl]
  | cons c a ih =>
    by_cases h : c = '\n'
    · simp only [List.cons_append, splitNl, h, if_true, ih]
    · rw [List.cons_append, splitNl_cons h, splitNl_cons h, ih]
      cases hs : splitNl a with
      | nil => exact absurd hs (splitNl_ne a)
      | cons l ls => rfl

theorem splitNl_none {s : List Char} (h : '\n' ∉ s) : splitNl s = [s] := by
  induction s with
  | nil => rfl
  | cons c s ih =>
    simp only [List.mem_cons, not_or] at h
    rw [splitNl_cons (fun e => h.1 e.symm), ih h.2]; rfl

theorem splitNl_mem {s l : List Char} (h : l ∈ splitNl s) : '\n' ∉ l := by
  induction s generalizing l with
  | nil => simp only [splitNl, List.mem_singleton] at h; subst h; simp
  | cons c s ih =>
    by_cases hc : c = '\n'
    · simp only [splitNl, hc, if_true, List.mem_cons] at h
      rcases h with rfl | h
      · simp
      · exact ih h
    · rw [splitNl_cons hc] at h
      cases hs : splitNl s with
      | nil => exact absurd hs (splitNl_ne s)
      | cons x xs =>
        rw [hs] at h ih
        simp only [List.headD_cons, List.tail_cons, List.mem_cons] at h
        rcases h with rfl | h
        · have := ih (l := x) (by simp)
          simp only [List.mem_cons, not_or]
          exact ⟨fun e => hc e.symm, this⟩
        · exact ih (by simp [h])

theorem joinNl_cons {l : List Char} {ls : List (List Char)} (h : ls ≠ []) : joinNl (l :: ls) = l ++ '\n' :: joinNl ls := by
  cases ls with
  | nil => exact absurd rfl h
  | cons a as => rfl

/-- Splitting a join of arbitrary texts gives the lines of the texts, one after the other. -/
theorem splitNl_join {ls : List (List Char)} (h : ls ≠ []) : splitNl (joinNl ls) = ls.flatMap splitNl := by
  induction ls with
  | nil => exact absurd rfl h
  | cons l ls ih =>
    cases ls with
    | nil => simp [joinNl]
    | cons a as => rw [joinNl_cons (by simp), splitNl_append_nl, ih (by simp)]; rfl

theorem joinNl_split (s : List Char) : joinNl (splitNl s) = s := by
  induction s with
  | nil => rfl
  | cons c s ih =>
    by_cases hc : c = '\n'
    · simp only [splitNl, hc, if_true]
      rw [joinNl_cons (splitNl_ne s), ih]; rfl
    · rw [splitNl_cons hc]
      cases hs : splitNl s with
      | nil => exact absurd hs (splitNl_ne s)
      | cons x xs =>
        rw [hs] at ih
        simp only [List.headD_cons, List.tail_cons]
        cases xs with
        | nil => simpa [joinNl] using ih
        | cons y ys => rw [joinNl_cons (by simp)] at ih ⊢; rw [List.cons_append, ih]

theorem splitNl_inj {a b : List Char} (h : splitNl a = splitNl b) : a = b := by
  rw [← joinNl_split a, h, joinNl_split]

/-- `_indent` prefixes every line but the first. -/
theorem splitNl_indent (n : Nat) (s : List Char) : splitNl (indent n s) = (splitNl s).headD [] :: (splitNl s).tail.map (List.replicate n ' ' ++ ·) := by
  rw [indent]
  cases hs : splitNl s with
  | nil => exact absurd hs (splitNl_ne s)
  | cons a as =>
    cases as with
    | nil => simp [hs]
    | cons b bs =>
      simp only [List.headD_cons, List.tail_cons]
      have hm : ∀ l ∈ a :: b :: bs, '\n' ∉ l := fun l hl => splitNl_mem (hs ▸ hl)
      rw [splitNl_append_nl, splitNl_none (hm a (by simp)), splitNl_join (by simp), List.singleton_append]
      congr 1
      have : ∀ L : List (List Char), (∀ l ∈ L, '\n' ∉ l) → (L.map (List.replicate n ' ' ++ ·)).flatMap splitNl = L.map (List.replicate n ' ' ++ ·) := by
        intro L hL
        induction L with
        | nil => rfl
        | cons x xs ih =>
          rw [List.map_cons, List.flatMap_cons, splitNl_none, ih fun l hl => hL l (by simp [hl])]; rfl
          simp only [List.mem_append, List.mem_replicate, not_or]
          exact ⟨(fun h => absurd h.2 (by decide)), hL x (by simp)⟩
      exact this _ fun l hl => hm l (by simp [List.mem_cons.1 hl])

theorem indent_inj {n : Nat} {a b : List Char} (h : indent n a = indent n b) : a = b := by
  have := congrArg splitNl h
  rw [splitNl_indent, splitNl_indent] at this
  simp only [List.cons.injEq] at this
  obtain ⟨h1, h2⟩ := this
  have h3 : (splitNl a).tail = (splitNl b).tail := List.map_injective_iff.2 (fun x y hxy => List.append_cancel_left hxy) h2
  apply splitNl_inj
  cases ha : splitNl a with
  | nil => exact absurd ha (splitNl_ne a)
  | cons x xs =>
    cases hb : splitNl b with
    | nil => exact absurd hb (splitNl_ne b)
    | cons y ys => rw [ha, hb] at h1 h3; simp_all

theorem colon_inj {k k' r r' : List Char} (h : ':' ∉ k) (h' : ':' ∉ k') (e : k ++ ':' :: r = k' ++ ':' :: r') : k = k' ∧ r = r' := by
  induction k generalizing k' with
  | nil =>
    cases k' with
    | nil => simpa using e
    | cons c k' => simp only [List.nil_append, List.cons_append, List.cons.injEq] at e; exact absurd (e.1 ▸ List.mem_cons_self) h'
  | cons c k ih =>
    cases k' with
    | nil => simp only [List.nil_append, List.cons_append, List.cons.injEq] at e; exact absurd (e.1 ▸ List.mem_cons_self) h
    | cons c' k' =>
      simp only [List.cons_append, List.cons.injEq] at e
      simp only [List.mem_cons, not_or] at h h'
      obtain ⟨rfl, e⟩ := e
      obtain ⟨rfl, rfl⟩ := ih h.2 h'.2 e
      exact ⟨rfl, rfl⟩

theorem attrStr_inj {e e' : Item} (h : GoodKey e.1) (h' : GoodKey e'.1) (he : attrStr e = attrStr e') : e = e' := by
  have := indent_inj he
  obtain ⟨h1, h2⟩ := colon_inj h.1 h'.1 this
  obtain ⟨k, b, x⟩ := e
  obtain ⟨k', b', x'⟩ := e'
  have hk : k = k' := String.toList_injective h1
  subst hk
  simp only [List.cons.injEq] at h2
  obtain ⟨h2, rfl⟩ := h2
  have : b = b' := by revert h2; cases b <;> cases b' <;> simp
  rw [this]

/-- Does a line start with a space? -/
def indented (l : List Char) : Bool := l.head? == some ' '

/-- The lines of one item: the first starts with the key, the others are indented. -/
theorem attr_lines {e : Item} (h : GoodKey e.1) : ∃ first rest, splitNl (attrStr e) = first :: rest ∧ indented first = false ∧ ':' ∈ first ∧ ∀ l ∈ rest, indented l = true := by
  refine ⟨_, _, splitNl_indent 2 _, ?_, ?_, ?_⟩
  · rw [attrRaw]
    cases hk : e.1.toList with
    | nil => rw [List.nil_append, splitNl_cons (by decide)]; rfl
    | cons c k =>
      obtain ⟨h1, h2, h3⟩ := h
      rw [hk] at h2 h3
      rw [List.cons_append, splitNl_cons (fun e => h2 (by simp [e]))]
      simpa [indented] using h3
  · rw [attrRaw]
    obtain ⟨_, h2, _⟩ := h
    generalize hk : e.1.toList = k at h2
    clear hk
    induction k with
    | nil => rw [List.nil_append, splitNl_cons (by decide)]; simp
    | cons c k ih =>
      simp only [List.mem_cons, not_or] at h2
      rw [List.cons_append, splitNl_cons fun e => h2.1 e.symm]
      simp only [List.headD_cons, List.mem_cons]
      exact .inr (ih h2.2)
  · intro l hl
    obtain ⟨x, _, rfl⟩ := List.mem_map.1 hl
    rfl

theorem blocks_inj {L L' : List Item} (h : ∀ e ∈ L, GoodKey e.1) (h' : ∀ e ∈ L', GoodKey e.1)
    (he : (L.map attrStr).flatMap splitNl = (L'.map attrStr).flatMap splitNl) : L = L' := by
  have hd : ∀ L : List Item, (∀ e ∈ L, GoodKey e.1) → ∀ l, ((L.map attrStr).flatMap splitNl).head? = some l → indented l = false := by
    intro L hL l hl
    cases L with
    | nil => simp at hl
    | cons e L =>
      obtain ⟨f, r, e1, e2, _⟩ := attr_lines (hL e (by simp))
      simp only [List.map_cons, List.flatMap_cons, e1, List.cons_append, List.head?_cons, Option.some.injEq] at hl
      rw [← hl]; exact e2
  have tw : ∀ (r X : List (List Char)), (∀ l ∈ r, indented l = true) → (∀ l, X.head? = some l → indented l = false) → (r ++ X).takeWhile indented = r ∧ (r ++ X).dropWhile indented = X := by
    intro r X hr hX
    induction r with
    | nil =>
      cases X with
      | nil => simp
      | cons x X => have := hX x rfl; simp [this]
    | cons y r ih =>
      have := ih fun l hl => hr l (by simp [hl])
      simp [hr y (by simp), this]
  induction L generalizing L' with
  | nil =>
    cases L' with
    | nil => rfl
    | cons e L' =>
      obtain ⟨f, r, e1, _⟩ := attr_lines (h' e (by simp))
      simp [e1] at he
  | cons e L ih =>
    obtain ⟨f, r, e1, _, _, e2⟩ := attr_lines (h e (by simp))
    cases L' with
    | nil => simp [e1] at he
    | cons e' L' =>
      obtain ⟨f', r', e1', _, _, e2'⟩ := attr_lines (h' e' (by simp))
      simp only [List.map_cons, List.flatMap_cons, e1, e1', List.cons_append, List.cons.injEq] at he
      obtain ⟨rfl, he⟩ := he
      have hL : ∀ e ∈ L, GoodKey e.1 := fun x hx => h x (by simp [hx])
      have hL' : ∀ e ∈ L', GoodKey e.1 := fun x hx => h' x (by simp [hx])
      have a := tw r _ e2 (hd L hL)
      have a' := tw r' _ e2' (hd L' hL')
      rw [he] at a
      have er : r = r' := a.1.symm.trans a'.1
      have ex := a.2.symm.trans a'.2
      have e3 : e = e' := attrStr_inj (h e (by simp)) (h' e' (by simp)) (splitNl_inj (by rw [e1, e1', er]))
      rw [e3, ih hL hL' ex]

/-- From the text of a list of sorted items, the list can be recovered. -/
theorem lines_inj {L L' : List Item} (h : ∀ e ∈ L, GoodKey e.1) (h' : ∀ e ∈ L', GoodKey e.1)
    (he : joinNl (L.map attrStr) = joinNl (L'.map attrStr)) : L = L' := by
  have one : ∀ L : List Item, (∀ e ∈ L, GoodKey e.1) → joinNl (L.map attrStr) = [] → L = [] := by
    intro L hL hj
    cases L with
    | nil => rfl
    | cons e L =>
      obtain ⟨f, r, e1, _, e2, _⟩ := attr_lines (hL e (by simp))
      have := congrArg splitNl hj
      rw [splitNl_join (by simp), List.map_cons, List.flatMap_cons, e1] at this
      simp only [splitNl, List.cons_append, List.cons.injEq] at this
      rw [this.1] at e2; simp at e2
  cases L with
  | nil => exact (one L' h' he.symm).symm
  | cons e L =>
    cases L' with
    | nil => exact one _ h he
    | cons e' L' => exact blocks_inj h h' (by rw [← splitNl_join (by simp), he, splitNl_join (by simp)])

section
variable (sh : Leaf → List Char) (shDict : Tree → List Char)

/-- Text and kind of the value of an item. -/
def itemOf (k : String) : Val → Item
  | .leaf l => (k, false, sh l)
  | .sub none es => (k, false, shDict es)
  | .sub (some _) es => (k, true, str sh shDict es)

theorem items_keys (t : Tree) : (items sh shDict t).map (·.1) = t.keys := by
  induction t with
  | nil => rfl
  | leaf k l r ih => simp [items, Tree.keys, ih]
  | sub k kd es r _ ih => cases kd <;> simp [items, Tree.keys, ih]

theorem keys_nodup {t : Tree} (h : t.Distinct) : t.keys.Nodup := by
  induction t with
  | nil => simp [Tree.keys]
  | leaf k l r ih => exact List.nodup_cons.2 ⟨h.1, ih h.2⟩
  | sub k kd es r _ ih => exact List.nodup_cons.2 ⟨h.1, ih h.2.2⟩

theorem mem_items {t : Tree} (h : t.Distinct) (e : Item) : e ∈ items sh shDict t ↔ ∃ v, t.get e.1 = some v ∧ e = itemOf sh shDict e.1 v := by
  have key : ∀ (k : String) (v : Val) (r : Tree), k ∉ r.keys → (e ∈ items sh shDict r ↔ ∃ v, r.get e.1 = some v ∧ e = itemOf sh shDict e.1 v) →
      (e ∈ itemOf sh shDict k v :: items sh shDict r ↔ ∃ w, (if k = e.1 then some v else r.get e.1) = some w ∧ e = itemOf sh shDict e.1 w) := by
    intro k v r hk ih
    have hkey : ∀ v, (itemOf sh shDict k v).1 = k := by intro v; rcases v with l | ⟨_ | _, _⟩ <;> rfl
    by_cases hke : k = e.1
    · subst hke
      rw [if_pos rfl, List.mem_cons]
      constructor
      · rintro (he | he)
        · exact ⟨v, rfl, he⟩
        · refine absurd ?_ hk
          rw [← items_keys sh shDict r]
          exact List.mem_map.2 ⟨e, he, rfl⟩
      · rintro ⟨w, hw, he⟩
        cases hw; exact .inl he
    · rw [if_neg hke, List.mem_cons, ← ih]
      constructor
      · rintro (he | he)
        · exact absurd (by rw [he, hkey]) hke
        · exact he
      · exact .inr
  induction t with
  | nil => simp [items, Tree.get]
  | leaf k l r ih => simpa [items, Tree.get, itemOf] using key k (.leaf l) r h.1 (ih h.2)
  | sub k kd es r _ ih =>
    cases kd with
    | none => simpa [items, Tree.get, itemOf] using key k (.sub none es) r h.1 (ih h.2.2)
    | some f => simpa [items, Tree.get, itemOf, str] using key k (.sub (some f) es) r h.1 (ih h.2.2)

theorem goodKeys_mem {t : Tree} (h : GoodKeys t) : ∀ e ∈ items sh shDict t, GoodKey e.1 := by
  induction t with
  | nil => simp [items]
  | leaf k l r ih =>
    intro e he
    rcases List.mem_cons.1 he with rfl | he
    · exact h.1
    · exact ih h.2 e he
  | sub k kd es r _ ih =>
    cases kd with
    | none =>
      intro e he
      rcases List.mem_cons.1 he with rfl | he
      · exact h.1
      · exact ih h.2 e he
    | some f =>
      intro e he
      rcases List.mem_cons.1 he with rfl | he
      · exact h.1
      · exact ih h.2.2 e he

theorem get_sub {t : Tree} (hd : t.Distinct) (hg : GoodKeys t) {k : String} {f : Flags} {es : Tree} (h : t.get k = some (.sub (some f) es)) :
    es.Distinct ∧ GoodKeys es ∧ sizeOf es < sizeOf t := by
  induction t with
  | nil => cases h
  | leaf k' l r ih =>
    rw [Tree.get] at h
    split at h
    · cases h
    · obtain ⟨a, b, c⟩ := ih hd.2 hg.2 h
      exact ⟨a, b, by simp only [Tree.leaf.sizeOf_spec]; omega⟩
  | sub k' kd es' r _ ih =>
    rw [Tree.get] at h
    split at h
    · cases h; exact ⟨hd.2.1, hg.2.1, by simp only [Tree.sub.sizeOf_spec]; omega⟩
    · have hg' : GoodKeys r := by cases kd <;> [exact hg.2; exact hg.2.2]
      obtain ⟨a, b, c⟩ := ih hd.2.2 hg' h
      exact ⟨a, b, by simp only [Tree.sub.sizeOf_spec]; omega⟩

instance {β : Type} : Std.Total fun a b : String × β => a.1 ≤ b.1 := ⟨fun a b => le_total a.1 b.1⟩
instance {β : Type} : IsTrans (String × β) fun a b => a.1 ≤ b.1 := ⟨fun _ _ _ => le_trans⟩

theorem pairwise_sort {β : Type} (l : List (String × β)) : (l.insertionSort fun a b => a.1 ≤ b.1).Pairwise fun a b => a.1 ≤ b.1 := List.pairwise_insertionSort _ l

theorem sortItems_perm (l : List Item) : (sortItems l).Perm l := List.perm_insertionSort _ l

theorem sortItems_congr {l l' : List Item} (h : l.Perm l') (hn : (l.map (·.1)).Nodup) : sortItems l = sortItems l' := by
  have hs : ∀ l : List Item, (sortItems l).Pairwise fun a b => a.1 ≤ b.1 := fun l => pairwise_sort l
  refine List.Perm.eq_of_pairwise (fun a b ha hb h1 h2 => ?_) (hs l) (hs l') (((sortItems_perm l).trans h).trans (sortItems_perm l').symm)
  have hab : a.1 = b.1 := le_antisymm h1 h2
  have ha' : a ∈ l := (sortItems_perm l).mem_iff.1 ha
  have hb' : b ∈ l := h.mem_iff.2 ((sortItems_perm l').mem_iff.1 hb)
  exact List.inj_on_of_nodup_map hn ha' hb' hab

theorem shown_cons (k : String) (p : List String) (t : Tree) : shown sh shDict (k :: p) t =
    match t.get k with
    | none => none
    | some v => (at_ p v).map (render sh shDict) := by
  rw [shown, at_]
  cases t.get k <;> rfl

theorem at_flags (p : List String) (f : Flags) (es : Tree) : (at_ p (.sub (some f) es)).map (render sh shDict) = shown sh shDict p es := by
  cases p with
  | nil => rfl
  | cons k p => rfl

/-- **C70.**  Two configs print the same text exactly if they have the same options (the same sections, and leaves with the same printed value).
Neither insertion order, nor the frozen / new-allowed state, nor registered deprecated and renamed keys are visible. -/
theorem print_determines {t t' : Tree} (hd : t.Distinct) (hd' : t'.Distinct) (hg : GoodKeys t) (hg' : GoodKeys t') :
    str sh shDict t = str sh shDict t' ↔ ∀ p, shown sh shDict p t = shown sh shDict p t' := by
  constructor
  · intro h p
    induction p generalizing t t' with
    | nil => rfl
    | cons k p ih =>
      have hs : sortItems (items sh shDict t) = sortItems (items sh shDict t') := by
        refine lines_inj ?_ ?_ h
        · exact fun e he => goodKeys_mem sh shDict hg e ((sortItems_perm _).mem_iff.1 he)
        · exact fun e he => goodKeys_mem sh shDict hg' e ((sortItems_perm _).mem_iff.1 he)
      have hm : ∀ e, e ∈ items sh shDict t ↔ e ∈ items sh shDict t' := fun e => by
        rw [← (sortItems_perm (items sh shDict t)).mem_iff, hs, (sortItems_perm _).mem_iff]
      have hk : ∀ v, (itemOf sh shDict k v).1 = k := by intro v; rcases v with l | ⟨_ | _, _⟩ <;> rfl
      have hiff : ∀ e : Item, e.1 = k → ((∃ v, t.get k = some v ∧ e = itemOf sh shDict k v) ↔ ∃ v, t'.get k = some v ∧ e = itemOf sh shDict k v) := fun e he => by
        have := hm e
        rw [mem_items sh shDict hd, mem_items sh shDict hd', he] at this
        exact this
      rw [shown_cons, shown_cons]
      cases hv : t.get k with
      | none =>
        cases hv' : t'.get k with
        | none => rfl
        | some v' =>
          obtain ⟨v, e, _⟩ := (hiff _ (hk v')).2 ⟨v', hv', rfl⟩
          rw [hv] at e; cases e
      | some v =>
        obtain ⟨v', hv', hit⟩ := (hiff _ (hk v)).1 ⟨v, hv, rfl⟩
        rw [hv']
        rcases v with l | ⟨_ | f, es⟩ <;> rcases v' with l' | ⟨_ | f', es'⟩ <;> simp only [itemOf, Prod.mk.injEq, true_and, Bool.false_eq_true, Bool.true_eq_false, false_and] at hit
        · cases p <;> simp [at_, render, hit]
        · cases p <;> simp [at_, render, hit]
        · cases p <;> simp [at_, render, hit]
        · cases p <;> simp [at_, render, hit]
        · obtain ⟨a, b, _⟩ := get_sub hd hg hv
          obtain ⟨a', b', _⟩ := get_sub hd' hg' hv'
          simp only [at_flags]
          exact ih a a' b b' hit
  · induction hn : sizeOf t using Nat.strongRecOn generalizing t t' with
    | ind n ih =>
    intro h
    subst hn
    have key : ∀ e, e ∈ items sh shDict t ↔ e ∈ items sh shDict t' := by
      intro e
      rw [mem_items sh shDict hd, mem_items sh shDict hd']
      have h0 := h [e.1]
      have hp := fun p => h (e.1 :: p)
      simp only [shown_cons] at h0 hp
      cases hv : t.get e.1 with
      | none =>
        rw [hv] at h0
        cases hv' : t'.get e.1 with
        | none => simp
        | some v' => rw [hv'] at h0; simp [at_] at h0
      | some v =>
        rw [hv] at h0 hp
        cases hv' : t'.get e.1 with
        | none => rw [hv'] at h0; simp [at_] at h0
        | some v' =>
          rw [hv'] at h0 hp
          simp only [at_, Option.map_some, Option.some.injEq] at h0
          have : itemOf sh shDict e.1 v = itemOf sh shDict e.1 v' := by
            rcases v with l | ⟨_ | f, es⟩ <;> rcases v' with l' | ⟨_ | f', es'⟩ <;> simp only [render, Option.some.injEq, reduceCtorEq] at h0
            · simp [itemOf, h0]
            · simp [itemOf, h0]
            · simp [itemOf, h0]
            · simp [itemOf, h0]
            · obtain ⟨a, b, c⟩ := get_sub hd hg hv
              obtain ⟨a', b', _⟩ := get_sub hd' hg' hv'
              simp only [itemOf]
              rw [ih _ c a a' b b' rfl fun p => by simpa only [at_flags] using hp p]
          simp [this]
    have hperm : (items sh shDict t).Perm (items sh shDict t') := by
      rw [List.perm_ext_iff_of_nodup]
      · exact key
      · exact List.Nodup.of_map _ (by rw [items_keys]; exact keys_nodup hd)
      · exact List.Nodup.of_map _ (by rw [items_keys]; exact keys_nodup hd')
    rw [str, str, joinItems, joinItems, sortItems_congr hperm (by rw [items_keys]; exact keys_nodup hd)]

/-- The entries of a node in insertion order. -/
def entries : Tree → List (String × Val)
  | .nil => []
  | .leaf k l rest => (k, .leaf l) :: entries rest
  | .sub k kd es rest => (k, .sub kd es) :: entries rest

/-- The lines printed for one entry: a section is its name followed by its own lines, two spaces further in; any other value starts on the line of
its key (further lines of its text two spaces further in). -/
def entryLines : String × Val → List (List Char)
  | (k, .sub (some _) es) => (k.toList ++ [':']) :: (splitNl (str sh shDict es)).map ([' ', ' '] ++ ·)
  | (k, v) =>
    let text := splitNl ((render sh shDict v).getD [])
    (k.toList ++ [':', ' '] ++ text.headD []) :: text.tail.map ([' ', ' '] ++ ·)

theorem splitNl_prefix {k : List Char} (hk : '\n' ∉ k) (s : List Char) : splitNl (k ++ s) = (k ++ (splitNl s).headD []) :: (splitNl s).tail := by
  induction k with
  | nil =>
    cases hs : splitNl s with
    | nil => exact absurd hs (splitNl_ne s)
    | cons a as => simp [hs]
  | cons c k ih =>
    simp only [List.mem_cons, not_or] at hk
    rw [List.cons_append, splitNl_cons fun e => hk.1 e.symm, ih hk.2]; rfl

theorem entries_items (t : Tree) : items sh shDict t = (entries t).map fun x => itemOf sh shDict x.1 x.2 := by
  induction t with
  | nil => rfl
  | leaf k l r ih => simp [items, entries, itemOf, ih]
  | sub k kd es r _ ih => cases kd <;> simp [items, entries, itemOf, ih, str]

/-- **C70, layout.**  The lines of the text of a non-empty config are the lines of its entries, in the order of their keys. -/
theorem print_lines {t : Tree} (hd : t.Distinct) (hne : t ≠ .nil) (hk : ∀ k ∈ t.keys, '\n' ∉ k.toList) :
    ∃ order : List (String × Val), order.Perm (entries t) ∧ (order.Pairwise fun a b => a.1 < b.1) ∧
      splitNl (str sh shDict t) = order.flatMap (entryLines sh shDict) := by
  let so := (entries t).insertionSort fun a b => a.1 ≤ b.1
  have hp : so.Perm (entries t) := List.perm_insertionSort _ _
  have hkey : ∀ x : String × Val, (itemOf sh shDict x.1 x.2).1 = x.1 := by rintro ⟨k, l | ⟨_ | _, _⟩⟩ <;> rfl
  have hkeys : (entries t).map (·.1) = t.keys := by
    rw [← items_keys sh shDict t, entries_items, List.map_map]
    exact List.map_congr_left fun x _ => (hkey x).symm
  have hn : ((entries t).map (·.1)).Nodup := by rw [hkeys]; exact keys_nodup hd
  have hs : so.Pairwise fun a b => a.1 ≤ b.1 := pairwise_sort _
  have hlt : so.Pairwise fun a b => a.1 < b.1 := by
    have hn' : (so.map (·.1)).Nodup := ((hp.map (·.1)).nodup_iff).2 hn
    have hn'' : so.Pairwise fun a b => a.1 ≠ b.1 := List.pairwise_map.1 hn'
    exact (hs.and hn'').imp fun {a b} h => lt_of_le_of_ne h.1 h.2
  refine ⟨_, hp, hlt, ?_⟩
  have hsort : sortItems (items sh shDict t) = so.map fun x => itemOf sh shDict x.1 x.2 := by
    have h1 : sortItems (items sh shDict t) = sortItems (so.map fun x => itemOf sh shDict x.1 x.2) :=
      sortItems_congr (by rw [entries_items]; exact (hp.map _).symm) (by rw [items_keys]; exact keys_nodup hd)
    rw [h1]
    refine List.Pairwise.insertionSort_eq ?_
    rw [List.pairwise_map]
    exact hs.imp fun {a b} h => by rw [hkey, hkey]; exact h
  rw [str, joinItems, hsort, List.map_map, splitNl_join, List.flatMap_map]
  · have : ∀ L : List (String × Val), (∀ x ∈ L, '\n' ∉ x.1.toList) → (L.flatMap fun x => splitNl ((attrStr ∘ fun x => itemOf sh shDict x.1 x.2) x)) = L.flatMap (entryLines sh shDict) := by
      intro L hL
      induction L with
      | nil => rfl
      | cons x L ih =>
        rw [List.flatMap_cons, List.flatMap_cons, ih fun y hy => hL y (by simp [hy])]
        congr 1
        have hx := hL x (by simp)
        obtain ⟨k, v⟩ := x
        have hx2 : '\n' ∉ k.toList ++ [':', ' '] := by simp only [List.mem_append, not_or]; exact ⟨hx, by decide⟩
        have hx1 : '\n' ∉ k.toList ++ [':'] := by simp only [List.mem_append, not_or]; exact ⟨hx, by decide⟩
        rw [Function.comp, attrStr, splitNl_indent]
        have leaf : ∀ text, splitNl (attrRaw (k, false, text)) = (k.toList ++ [':', ' '] ++ (splitNl text).headD []) :: (splitNl text).tail := fun text => by
          rw [attrRaw, ← splitNl_prefix hx2]; simp
        have node : ∀ text, splitNl (attrRaw (k, true, text)) = (k.toList ++ [':']) :: splitNl text := fun text => by
          have := splitNl_append_nl (k.toList ++ [':']) text
          rw [splitNl_none hx1] at this
          rw [attrRaw]; simpa using this
        rcases v with l | ⟨_ | f, es⟩
        · show _ = entryLines sh shDict (k, .leaf l)
          rw [itemOf, leaf]; rfl
        · show _ = entryLines sh shDict (k, .sub none es)
          rw [itemOf, leaf]; rfl
        · show _ = entryLines sh shDict (k, .sub (some f) es)
          rw [itemOf, node]; rfl
    refine this _ fun x hx => hk _ ?_
    rw [← hkeys]
    exact List.mem_map_of_mem (hp.mem_iff.1 hx)
  · intro h0
    have h1 := congrArg List.length h0
    rw [List.length_map, hp.length_eq] at h1
    cases t <;> simp_all [entries]

end

/-! ### Concrete cases -/

/-- Printing of leaves by their payload. -/
def shP (l : Leaf) : List Char := l.payload.toList

/-- Sections, an empty section, unsorted keys, a value of two lines. -/
def cfgP : Tree := .sub "train" (some .fresh) (.leaf "lr" ⟨.float, "0.1"⟩ (.leaf "epochs" ⟨.int, "5"⟩ .nil))
  (.leaf "name" ⟨.str, "a\nb"⟩ (.sub "extra" (some .fresh) .nil .nil))

theorem print_example : cfgP.Distinct ∧ GoodKeys cfgP ∧ cfgP ≠ .nil ∧
    String.ofList (str shP (fun _ => []) cfgP) = "extra:\n  \nname: a\n  b\ntrain:\n  epochs: 5\n  lr: 0.1" := by
  refine ⟨by simp [cfgP, Tree.Distinct, Tree.keys], ?_, by simp [cfgP], by decide +kernel⟩
  refine ⟨by unfold GoodKey; decide, ⟨by unfold GoodKey; decide, by unfold GoodKey; decide, trivial⟩, by unfold GoodKey; decide, by unfold GoodKey; decide, trivial, trivial⟩

/-- The condition on keys is needed: with a colon in a key, two different configs print the same text. -/
theorem print_ambiguous_colon : ∃ t t' : Tree, t.Distinct ∧ t'.Distinct ∧ str shP (fun _ => []) t = str shP (fun _ => []) t' ∧
    shown shP (fun _ => []) ["a"] t ≠ shown shP (fun _ => []) ["a"] t' := by
  refine ⟨.leaf "a" ⟨.str, "b: c"⟩ .nil, .leaf "a: b" ⟨.str, "c"⟩ .nil, by simp [Tree.Distinct, Tree.keys], by simp [Tree.Distinct, Tree.keys], by decide +kernel, by decide +kernel⟩

end Verif.Cfg
