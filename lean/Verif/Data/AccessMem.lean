import Verif.Data.Access
/-!
**C103**, the memory of a dataset object and of the items it has handed out.
-/
namespace Verif.Data

section
variable {α : Type}

/-- What a program that uses a dataset does: ask for an item, or overwrite entry `p` of the `j`-th item it got so far in place
(`item[p][...] = v`, `item[p].mul_(…)`). -/
inductive Use (α : Type)
  | get (idx : Int)
  | write (j p : Nat) (v : Out α)

/-- The tensors (and strings) that exist, cell 0 being `dataset.intrinsics`, and, for each item handed out, which cells its entries are. -/
structure Store (α : Type) where
  mem : List (Out α)
  items : List (List Nat)

/-- Put the entries of a tuple into memory: a shared entry is cell 0, the others are new cells. -/
def putAll : List (Slot α) → List (Out α) → List Nat × List (Out α)
  | [], mem => ([], mem)
  | .shared :: l, mem => (0 :: (putAll l mem).1, (putAll l mem).2)
  | .fresh v :: l, mem => (mem.length :: (putAll l (mem ++ [v])).1, (putAll l (mem ++ [v])).2)

/-- Strings cannot be overwritten, and a tensor cannot be overwritten by a string (TypeError). -/
def Out.isText : Out α → Bool
  | .text _ => true
  | _ => false

/-- One step of a program; an exception leaves everything as it was. -/
def Store.step (get : Int → Except Err (List (Slot α))) (w : Store α) : Use α → Store α
  | .get idx => match get idx with
    | .error _ => w
    | .ok l => ⟨(putAll l w.mem).2, w.items ++ [(putAll l w.mem).1]⟩
  | .write j p v => match w.items[j]? with
    | none => w
    | some it => match it[p]? with
      | none => w
      | some r => match w.mem[r]? with
        | none => w
        | some x => if x.isText || v.isText then w else { w with mem := w.mem.set r v }

/-- A program. -/
def Store.run (get : Int → Except Err (List (Slot α))) (w : Store α) (us : List (Use α)) : Store α := us.foldl (Store.step get) w

/-- A dataset just constructed: its intrinsics, no item handed out. -/
def Store.new (K : Out α) : Store α := ⟨[K], []⟩

/-- What a program sees in entry `p` of the `j`-th item it got. -/
def Store.see (w : Store α) (j p : Nat) : Option (Out α) :=
  match w.items[j]? with
  | none => none
  | some it => match it[p]? with
    | none => none
    | some r => w.mem[r]?

/-- What `dataset[idx]` returns now, as values. -/
def Store.ask (get : Int → Except Err (List (Slot α))) (w : Store α) (idx : Int) : Except Err (List (Option (Out α))) :=
  match get idx with
  | .error e => .error e
  | .ok l => .ok ((putAll l w.mem).1.map fun r => (putAll l w.mem).2[r]?)

/-! ### Specification: items are values, except that there is one intrinsics tensor -/

/-- Specification state: the value of the one shared tensor, and the items, whose other entries are values of their own. -/
structure Shelf (α : Type) where
  K : Out α
  items : List (List (Slot α))

/-- The entry `p` of item `j` according to the specification. -/
def Shelf.see (s : Shelf α) (j p : Nat) : Option (Out α) :=
  match s.items[j]? with
  | none => none
  | some it => match it[p]? with
    | none => none
    | some x => some (x.val s.K)

/-- One step of the specification: an item is a new list of values; a write changes the one entry it names, or the shared tensor. -/
def Shelf.step (get : Int → Except Err (List (Slot α))) (s : Shelf α) : Use α → Shelf α
  | .get idx => match get idx with
    | .error _ => s
    | .ok l => { s with items := s.items ++ [l] }
  | .write j p v => match s.items[j]? with
    | none => s
    | some it => match it[p]? with
      | none => s
      | some .shared => if s.K.isText || v.isText then s else { s with K := v }
      | some (.fresh x) => if x.isText || v.isText then s else { s with items := s.items.set j (it.set p (.fresh v)) }

def Shelf.run (get : Int → Except Err (List (Slot α))) (s : Shelf α) (us : List (Use α)) : Shelf α := us.foldl (Shelf.step get) s

/-! ### Refinement -/

/-- Cell `r` of memory is what the entry `x` stands for. -/
def Holds (mem : List (Out α)) (r : Nat) (x : Slot α) : Prop :=
  match x with
  | .shared => r = 0
  | .fresh v => 0 < r ∧ mem[r]? = some v

/-- The invariant: cell 0 is the shared tensor; the entries of the items are the cells they should be; no two entries have a cell other than 0 in common. -/
structure InStep (w : Store α) (s : Shelf α) : Prop where
  K : w.mem[0]? = some s.K
  len : w.items.length = s.items.length
  ent : ∀ (j : Nat) (it : List Nat) (l : List (Slot α)), w.items[j]? = some it → s.items[j]? = some l → it.length = l.length ∧ ∀ (p r : Nat) (x : Slot α), it[p]? = some r → l[p]? = some x → Holds w.mem r x
  sep : ∀ (j j' : Nat) (it it' : List Nat) (p p' r : Nat), w.items[j]? = some it → w.items[j']? = some it' → it[p]? = some r → it'[p']? = some r → r ≠ 0 → j = j' ∧ p = p'

theorem holds_lt {mem : List (Out α)} {r : Nat} {x : Slot α} (h0 : 0 < mem.length) (h : Holds mem r x) : r < mem.length := by
  cases x with
  | shared => exact h ▸ h0
  | fresh v => exact (List.getElem?_eq_some_iff.1 h.2).1

theorem putAll_spec (l : List (Slot α)) : ∀ mem : List (Out α), 0 < mem.length →
    (∃ new, (putAll l mem).2 = mem ++ new) ∧ (putAll l mem).1.length = l.length ∧
    (∀ (p r : Nat) (x : Slot α), (putAll l mem).1[p]? = some r → l[p]? = some x → Holds (putAll l mem).2 r x) ∧
    (∀ (p r : Nat), (putAll l mem).1[p]? = some r → r ≠ 0 → mem.length ≤ r) ∧
    (∀ (p p' r : Nat), (putAll l mem).1[p]? = some r → (putAll l mem).1[p']? = some r → r ≠ 0 → p = p') := by
  induction l with
  | nil =>
    intro mem h
    exact ⟨⟨[], by simp [putAll]⟩, rfl, by simp [putAll], by simp [putAll], by simp [putAll]⟩
  | cons x l ih =>
    intro mem h
    cases x with
    | shared =>
      obtain ⟨a, b, c, d, e⟩ := ih mem h
      refine ⟨a, by simp [putAll, b], ?_, ?_, ?_⟩
      · intro p r x hp hx
        rcases p with _ | p
        · simp only [putAll, List.getElem?_cons_zero, Option.some.injEq] at hp hx
          subst hp hx; rfl
        · exact c p r x (by simpa [putAll] using hp) (by simpa using hx)
      · intro p r hp hr
        rcases p with _ | p
        · simp only [putAll, List.getElem?_cons_zero, Option.some.injEq] at hp
          exact absurd hp.symm hr
        · exact d p r (by simpa [putAll] using hp) hr
      · intro p p' r hp hp' hr
        rcases p with _ | p
        · simp only [putAll, List.getElem?_cons_zero, Option.some.injEq] at hp
          exact absurd hp.symm hr
        rcases p' with _ | p'
        · simp only [putAll, List.getElem?_cons_zero, Option.some.injEq] at hp'
          exact absurd hp'.symm hr
        rw [e p p' r (by simpa [putAll] using hp) (by simpa [putAll] using hp') hr]
    | fresh v =>
      obtain ⟨⟨new, a⟩, b, c, d, e⟩ := ih (mem ++ [v]) (by simp)
      simp only [List.length_append, List.length_cons, List.length_nil] at d
      refine ⟨⟨v :: new, by simp [putAll, a]⟩, by simp [putAll, b], ?_, ?_, ?_⟩
      · intro p r x hp hx
        rcases p with _ | p
        · simp only [putAll, List.getElem?_cons_zero, Option.some.injEq] at hp hx
          subst hp hx
          refine ⟨h, ?_⟩
          show (putAll l (mem ++ [v])).2[mem.length]? = some v
          rw [a]; simp
        · exact c p r x (by simpa [putAll] using hp) (by simpa using hx)
      · intro p r hp hr
        rcases p with _ | p
        · simp only [putAll, List.getElem?_cons_zero, Option.some.injEq] at hp
          omega
        · have := d p r (by simpa [putAll] using hp) hr
          omega
      · intro p p' r hp hp' hr
        rcases p with _ | p <;> rcases p' with _ | p'
        · rfl
        · simp only [putAll, List.getElem?_cons_zero, Option.some.injEq] at hp
          have := d p' r (by simpa [putAll] using hp') hr
          omega
        · simp only [putAll, List.getElem?_cons_zero, Option.some.injEq] at hp'
          have := d p r (by simpa [putAll] using hp) hr
          omega
        · rw [e p p' r (by simpa [putAll] using hp) (by simpa [putAll] using hp') hr]

theorem holds_append {mem new : List (Out α)} {r : Nat} {x : Slot α} (h : Holds mem r x) : Holds (mem ++ new) r x := by
  cases x with
  | shared => exact h
  | fresh v => exact ⟨h.1, by rw [List.getElem?_append_left (List.getElem?_eq_some_iff.1 h.2).1]; exact h.2⟩

theorem rel_get {w : Store α} {s : Shelf α} (h : InStep w s) (l : List (Slot α)) :
    InStep ⟨(putAll l w.mem).2, w.items ++ [(putAll l w.mem).1]⟩ { s with items := s.items ++ [l] } := by
  have h0 : 0 < w.mem.length := (List.getElem?_eq_some_iff.1 h.K).1
  obtain ⟨⟨new, a⟩, b, c, d, e⟩ := putAll_spec l w.mem h0
  have old : ∀ {j : Nat} {it : List Nat}, w.items[j]? = some it → ∀ {p r : Nat}, it[p]? = some r → r < w.mem.length := by
    intro j it hj p r hp
    obtain ⟨l', hl'⟩ : ∃ l', s.items[j]? = some l' := ⟨_, List.getElem?_eq_getElem (h.len ▸ (List.getElem?_eq_some_iff.1 hj).1)⟩
    obtain ⟨k1, k2⟩ := h.ent j it l' hj hl'
    exact holds_lt h0 (k2 p r _ hp (List.getElem?_eq_getElem (k1 ▸ (List.getElem?_eq_some_iff.1 hp).1)))
  have cut : ∀ {β : Type} (xs : List β) (y : β) (j : Nat) (z : β), (xs ++ [y])[j]? = some z → xs[j]? = some z ∨ (j = xs.length ∧ z = y) := by
    intro β xs y j z hz
    rcases Nat.lt_trichotomy j xs.length with k | k | k
    · rw [List.getElem?_append_left k] at hz; exact Or.inl hz
    · subst k; simp at hz; exact Or.inr ⟨rfl, hz.symm⟩
    · rw [List.getElem?_eq_none (by simp; omega)] at hz; cases hz
  refine ⟨?_, by simp [h.len], ?_, ?_⟩
  · show (putAll l w.mem).2[0]? = _
    rw [a, List.getElem?_append_left h0, h.K]
  · intro j it l' hj hl'
    rcases cut _ _ _ _ hj with k | ⟨k, k'⟩
    · have hlt := (List.getElem?_eq_some_iff.1 k).1
      rw [List.getElem?_append_left (by rw [← h.len]; exact hlt)] at hl'
      obtain ⟨k1, k2⟩ := h.ent j it l' k hl'
      refine ⟨k1, fun p r x hp hx => ?_⟩
      show Holds (putAll l w.mem).2 r x
      rw [a]; exact holds_append (k2 p r x hp hx)
    · subst k k'
      rw [h.len, List.getElem?_concat_length] at hl'
      cases hl'
      exact ⟨b, fun p r x hp hx => c p r x hp hx⟩
  · intro j j' it it' p p' r hj hj' hp hp' hr
    rcases cut _ _ _ _ hj with k | ⟨k, k'⟩ <;> rcases cut _ _ _ _ hj' with m | ⟨m, m'⟩
    · exact h.sep j j' it it' p p' r k m hp hp' hr
    · subst m'
      have x1 := old k hp
      have x2 := d p' r hp' hr
      omega
    · subst k'
      have x1 := old m hp'
      have x2 := d p r hp hr
      omega
    · subst k k' m m'
      exact ⟨rfl, e p p' r hp hp' hr⟩

theorem rel_step {get : Int → Except Err (List (Slot α))} {w : Store α} {s : Shelf α} (h : InStep w s) (u : Use α) : InStep (w.step get u) (s.step get u) := by
  have h0 : 0 < w.mem.length := (List.getElem?_eq_some_iff.1 h.K).1
  cases u with
  | get idx =>
    simp only [Store.step, Shelf.step]
    cases hg : get idx with
    | error e => exact h
    | ok l => exact rel_get h l
  | write j p v =>
    simp only [Store.step, Shelf.step]
    cases hj : w.items[j]? with
    | none =>
      rw [List.getElem?_eq_none_iff, h.len, ← List.getElem?_eq_none_iff] at hj
      simp only [hj]; exact h
    | some it =>
      obtain ⟨l, hl⟩ : ∃ l, s.items[j]? = some l := ⟨_, List.getElem?_eq_getElem (h.len ▸ (List.getElem?_eq_some_iff.1 hj).1)⟩
      obtain ⟨k1, k2⟩ := h.ent j it l hj hl
      simp only [hl]
      cases hp : it[p]? with
      | none =>
        rw [List.getElem?_eq_none_iff, k1, ← List.getElem?_eq_none_iff] at hp
        simp only [hp]; exact h
      | some r =>
        obtain ⟨x, hx⟩ : ∃ x, l[p]? = some x := ⟨_, List.getElem?_eq_getElem (k1 ▸ (List.getElem?_eq_some_iff.1 hp).1)⟩
        have hh := k2 p r x hp hx
        simp only [hx]
        cases x with
        | shared =>
          cases hh
          simp only [h.K]
          by_cases ht : (s.K.isText || v.isText) = true
          · rw [if_pos ht, if_pos ht]; exact h
          · rw [if_neg ht, if_neg ht]
            refine ⟨by simp [h0], h.len, fun j' it' l' hj' hl' => ?_, h.sep⟩
            obtain ⟨m1, m2⟩ := h.ent j' it' l' hj' hl'
            refine ⟨m1, fun p' r' x' hp' hx' => ?_⟩
            have mm := m2 p' r' x' hp' hx'
            cases x' with
            | shared => exact mm
            | fresh v' => exact ⟨mm.1, by rw [List.getElem?_set_ne (by have := mm.1; omega)]; exact mm.2⟩
        | fresh old =>
          obtain ⟨r0, hr⟩ := hh
          simp only [hr]
          by_cases ht : (old.isText || v.isText) = true
          · rw [if_pos ht, if_pos ht]; exact h
          · rw [if_neg ht, if_neg ht]
            have hjl : j < s.items.length := (List.getElem?_eq_some_iff.1 hl).1
            have hpl : p < l.length := (List.getElem?_eq_some_iff.1 hx).1
            refine ⟨by rw [List.getElem?_set_ne (by omega)]; exact h.K, by simp [h.len], fun j' it' l' hj' hl' => ?_, h.sep⟩
            by_cases hjj : j = j'
            · subst hjj
              rw [hj] at hj'
              cases hj'
              rw [List.getElem?_set_self hjl] at hl'
              cases hl'
              refine ⟨by simp [k1], fun p' r' x' hp' hx' => ?_⟩
              by_cases hpp : p = p'
              · subst hpp
                rw [hp] at hp'
                cases hp'
                rw [List.getElem?_set_self hpl] at hx'
                cases hx'
                exact ⟨r0, by simp [(List.getElem?_eq_some_iff.1 hr).1]⟩
              · rw [List.getElem?_set_ne hpp] at hx'
                have mm := k2 p' r' x' hp' hx'
                cases x' with
                | shared => exact mm
                | fresh v' =>
                  refine ⟨mm.1, ?_⟩
                  rw [List.getElem?_set_ne]
                  · exact mm.2
                  · rintro rfl
                    exact hpp (h.sep j j it it p p' r hj hj hp hp' (by omega)).2
            · rw [List.getElem?_set_ne hjj] at hl'
              obtain ⟨m1, m2⟩ := h.ent j' it' l' hj' hl'
              refine ⟨m1, fun p' r' x' hp' hx' => ?_⟩
              have mm := m2 p' r' x' hp' hx'
              cases x' with
              | shared => exact mm
              | fresh v' =>
                refine ⟨mm.1, ?_⟩
                rw [List.getElem?_set_ne]
                · exact mm.2
                · rintro rfl
                  exact hjj (h.sep j j' it it' p p' r hj hj' hp hp' (by omega)).1

theorem rel_run {get : Int → Except Err (List (Slot α))} (us : List (Use α)) : ∀ {w : Store α} {s : Shelf α}, InStep w s → InStep (w.run get us) (s.run get us) := by
  induction us with
  | nil => exact fun h => h
  | cons u us ih => exact fun h => ih (rel_step h u)

theorem rel_new (K : Out α) : InStep (Store.new K) ⟨K, []⟩ := ⟨rfl, rfl, by simp [Store.new], by simp [Store.new]⟩

theorem rel_see {w : Store α} {s : Shelf α} (h : InStep w s) (j p : Nat) : w.see j p = s.see j p := by
  unfold Store.see Shelf.see
  cases hj : w.items[j]? with
  | none =>
    rw [List.getElem?_eq_none_iff, h.len, ← List.getElem?_eq_none_iff] at hj
    rw [hj]
  | some it =>
    obtain ⟨l, hl⟩ : ∃ l, s.items[j]? = some l := ⟨_, List.getElem?_eq_getElem (h.len ▸ (List.getElem?_eq_some_iff.1 hj).1)⟩
    obtain ⟨k1, k2⟩ := h.ent j it l hj hl
    simp only [hl]
    cases hp : it[p]? with
    | none =>
      rw [List.getElem?_eq_none_iff, k1, ← List.getElem?_eq_none_iff] at hp
      rw [hp]
    | some r =>
      obtain ⟨x, hx⟩ : ∃ x, l[p]? = some x := ⟨_, List.getElem?_eq_getElem (k1 ▸ (List.getElem?_eq_some_iff.1 hp).1)⟩
      have hh := k2 p r x hp hx
      simp only [hx]
      cases x with
      | shared => cases hh; exact h.K
      | fresh v => exact hh.2

theorem rel_ask {get : Int → Except Err (List (Slot α))} {w : Store α} {s : Shelf α} (h : InStep w s) (idx : Int) :
    w.ask get idx = mapOk (List.map fun x => some (x.val s.K)) (get idx) := by
  have h0 : 0 < w.mem.length := (List.getElem?_eq_some_iff.1 h.K).1
  unfold Store.ask
  cases get idx with
  | error e => rfl
  | ok l =>
    obtain ⟨⟨new, a⟩, b, c, -, -⟩ := putAll_spec l w.mem h0
    simp only [mapOk, Except.ok.injEq]
    refine List.ext_getElem? fun p => ?_
    simp only [List.getElem?_map]
    cases hp : (putAll l w.mem).1[p]? with
    | none =>
      rw [List.getElem?_eq_none_iff, b, ← List.getElem?_eq_none_iff] at hp
      rw [hp]; rfl
    | some r =>
      obtain ⟨x, hx⟩ : ∃ x, l[p]? = some x := ⟨_, List.getElem?_eq_getElem (b ▸ (List.getElem?_eq_some_iff.1 hp).1)⟩
      have hh := c p r x hp hx
      simp only [hx, Option.map_some, Option.some.injEq]
      cases x with
      | shared => cases hh; rw [a, List.getElem?_append_left h0, h.K]; rfl
      | fresh v => exact hh.2

/-- **C103, the whole behaviour**: whatever a program does, it sees items whose entries are values of their own, except for the one intrinsics
tensor, which all items have in common; and what the next `dataset[idx]` returns depends only on that tensor's contents. -/
theorem uses_refine (get : Int → Except Err (List (Slot α))) (K : Out α) (us : List (Use α)) :
    (∀ j p, ((Store.new K).run get us).see j p = (Shelf.run get ⟨K, []⟩ us).see j p) ∧
    ∀ idx, ((Store.new K).run get us).ask get idx = mapOk (List.map fun x => some (x.val (Shelf.run get ⟨K, []⟩ us).K)) (get idx) :=
  ⟨fun j p => rel_see (rel_run us (rel_new K)) j p, fun idx => rel_ask (rel_run us (rel_new K)) idx⟩
end
end Verif.Data
