import Verif.Cfg.Props
/-!
Property C86: assigning and reading options as attributes (`cfg.A.B.name = value`, `cfg.A.B.name`).

`CfgNode.__getattr__` (cfgnode.py:116-120) is only consulted when Python's normal lookup finds nothing: the attributes of the class (methods of
`dict` and of `CfgNode`) and the four internal fields in the instance's `__dict__` come first.  `cls` says which names are attributes of the
class (it depends on the Python version).

Trees are values here: a node object stored under two names, or kept by the caller, is not modelled as shared.
-/
namespace Verif.Cfg

/-- What an attribute expression gives: an option, something that is not an option (a method, an internal field), or an AttributeError. -/
inductive Read
  | option (v : Val)
  | other
  | missing
  deriving DecidableEq, Repr

/-- `cfg.name` on a node, cfgnode.py:116-120, after Python's own lookup; attributes of other objects are not options. -/
def getattr (cls : String → Bool) (name : String) : Val → Read
  | .sub (some _) es =>
    if internalNames.contains name || cls name then .other
    else match es.get name with
      | some v => .option v
      | none => .missing
  | _ => .other

/-- Replace an entry of a node. -/
def Val.put (k : String) (c : Val) : Val → Val
  | .sub kd es => .sub kd (es.set k c)
  | v => v

/-- `cfg.A.B.name = value`, cfgnode.py:116-142: walk by attribute access, then `__setattr__`.  Assigning an attribute of a method, of an internal
set, dict or bool, or of a plain dict raises AttributeError, as does a missing option. -/
def assignAt (cls : String → Bool) (name : String) (value : Val) : List String → Val → Except Err Val
  | [], v => setattr name value v
  | k :: ks, v =>
    match getattr cls k v with
    | .option c =>
      match assignAt cls name value ks c with
      | .ok c' => .ok (Val.put k c' v)
      | .error e => .error e
    | _ => .error .attributeError

/-- `cfg.A.B.name`. -/
def readAt (cls : String → Bool) : List String → Val → Read
  | [], v => .option v
  | k :: ks, v =>
    match getattr cls k v with
    | .option c => readAt cls ks c
    | r => r

/-! ### Specification -/

/-- A value that may be stored: a leaf of one of the six types, or a `CfgNode`. -/
def Storable : Val → Prop
  | .leaf l => l.ty ∈ [PyType.tuple, .list, .str, .int, .float, .bool]
  | .sub kd _ => kd.isSome = true

/-- Names that attribute syntax never reaches: the internal fields and the attributes of the class. -/
def Shadowed (cls : String → Bool) (k : String) : Prop :=
  k = "__immutable__" ∨ k = "__deprecated_keys__" ∨ k = "__renamed_keys__" ∨ k = "__new_allowed__" ∨ cls k = true

theorem shadowed_iff (cls : String → Bool) (k : String) : (internalNames.contains k || cls k) = true ↔ Shadowed cls k := by
  simp [internalNames, Shadowed, or_assoc]

theorem setattr_ok_iff (name : String) (value v v' : Val) :
    setattr name value v = .ok v' ↔ ∃ f es, v = .sub (some f) es ∧ f.immutable = false ∧
      name ∉ ["__immutable__", "__deprecated_keys__", "__renamed_keys__", "__new_allowed__"] ∧ Storable value ∧
      v' = .sub (some f) (es.set name value) := by
  cases v with
  | leaf l => simp [setattr]
  | sub kd es =>
    cases kd with
    | none => simp [setattr]
    | some f =>
      simp only [setattr]
      by_cases hf : f.immutable = true
      · simp only [hf, if_true]
        constructor
        · intro h; cases h
        · rintro ⟨g, es', h, hg, _⟩; cases h; rw [hf] at hg; cases hg
      · have hf' : f.immutable = false := by simpa using hf
        simp only [hf', Bool.false_eq_true, if_false]
        by_cases hn : internalNames.contains name = true
        · simp only [hn, if_true]
          constructor
          · intro h; cases h
          · rintro ⟨g, es', h, _, hg, _⟩
            exact absurd (by simpa [internalNames] using hn) hg
        · have hn' : name ∉ ["__immutable__", "__deprecated_keys__", "__renamed_keys__", "__new_allowed__"] := by
            simpa [internalNames] using hn
          simp only [hn]
          have hv : ∀ l : Leaf, (l.valid = true ↔ l.ty ∈ [PyType.tuple, .list, .str, .int, .float, .bool]) := by
            rintro ⟨ty, pl⟩; cases ty <;> simp [Leaf.valid]
          cases value with
          | leaf l =>
            simp only [Storable, ← hv l]
            by_cases hl : l.valid = true
            · simp only [hl, if_true]
              constructor
              · intro h; cases h; exact ⟨f, es, rfl, hf', hn', (by simp), rfl⟩
              · rintro ⟨g, es', h, _, _, _, rfl⟩; cases h; rfl
            · simp [hl]
          | sub kd' e' =>
            cases kd' with
            | none => simp [Storable]
            | some g' =>
              simp only [Storable]
              constructor
              · intro h; cases h; exact ⟨f, es, rfl, hf', hn', (by simp), rfl⟩
              · rintro ⟨g, es', h, _, _, _, rfl⟩; cases h; rfl

theorem setattr_error (name : String) (value : Val) (f : Flags) (es : Tree) (e : Err) (h : setattr name value (.sub (some f) es) = .error e) :
    (e = .attributeError ↔ f.immutable = true) ∧ (e = .assertion ↔ f.immutable = false) := by
  simp only [setattr] at h
  by_cases hf : f.immutable = true
  · simp only [hf, if_true] at h; cases h; simp [hf]
  · have hf' : f.immutable = false := by simpa using hf
    simp only [hf', Bool.false_eq_true, if_false] at h
    have : e = .assertion := by
      split at h
      · cases h; rfl
      · split at h
        · split at h
          · cases h
          · cases h; rfl
        · cases h; rfl
        · cases h
    subst this; simp [hf']

theorem getattr_option (cls : String → Bool) (k : String) (v c : Val) :
    getattr cls k v = .option c ↔ ∃ f es, v = .sub (some f) es ∧ ¬ Shadowed cls k ∧ es.get k = some c := by
  cases v with
  | leaf l => simp [getattr]
  | sub kd es =>
    cases kd with
    | none => simp [getattr]
    | some f =>
      by_cases hs : (internalNames.contains k || cls k) = true
      · have h1 := (shadowed_iff cls k).1 hs
        simp only [getattr, hs, if_true]
        constructor
        · intro h; cases h
        · rintro ⟨_, _, _, h, _⟩; exact absurd h1 h
      · have h1 : ¬ Shadowed cls k := fun h => hs ((shadowed_iff cls k).2 h)
        simp only [getattr, hs]
        cases hg : es.get k with
        | none =>
          constructor
          · intro h; simp at h
          · rintro ⟨g, e', h, _, h'⟩; cases h; rw [hg] at h'; cases h'
        | some w =>
          constructor
          · intro h; simp at h; exact ⟨f, es, rfl, h1, by rw [hg, h]⟩
          · rintro ⟨g, e', h, _, h'⟩; cases h; rw [hg] at h'; simpa using h'

/-- Reading an option by attributes is looking it up, provided no name on the way is shadowed. -/
theorem readAt_option (cls : String → Bool) (p : List String) (v w : Val) :
    readAt cls p v = .option w ↔ (∀ k ∈ p, ¬ Shadowed cls k) ∧ at_ p v = some w := by
  induction p generalizing v with
  | nil => simp [readAt, at_]
  | cons k ks ih =>
    simp only [readAt]
    constructor
    · intro h
      cases hg : getattr cls k v with
      | other => rw [hg] at h; cases h
      | missing => rw [hg] at h; cases h
      | option c =>
        rw [hg] at h
        obtain ⟨f, es, rfl, hs, he⟩ := (getattr_option cls k v c).1 hg
        obtain ⟨h1, h2⟩ := (ih c).1 h
        refine ⟨fun x hx => ?_, ?_⟩
        · rcases List.mem_cons.1 hx with h' | h'
          · exact h' ▸ hs
          · exact h1 x h'
        · rw [at_cons_node, he]; exact h2
    · rintro ⟨h1, h2⟩
      cases v with
      | leaf l => cases h2
      | sub kd es =>
        cases kd with
        | none => cases h2
        | some f =>
          rw [at_cons_node] at h2
          cases he : es.get k with
          | none => rw [he] at h2; cases h2
          | some c =>
            rw [he] at h2
            rw [(getattr_option cls k _ c).2 ⟨f, es, rfl, h1 k (List.mem_cons_self ..), he⟩]
            exact (ih c).2 ⟨fun x hx => h1 x (List.mem_cons_of_mem _ hx), h2⟩

/-- The tree after the option at `p ++ [name]` was replaced. -/
structure Replaced (p : List String) (name : String) (value v v' : Val) : Prop where
  /-- The option has the value. -/
  here : at_ (p ++ [name]) v' = some value
  /-- Everything that is neither the option, below it, nor a node on the way to it, is as before. -/
  elsewhere : ∀ q, ¬ (p ++ [name]) <+: q → ¬ q <+: p → at_ q v' = at_ q v
  /-- The nodes on the way keep their internal state and the names and order of their options, except for a possible new name at the end. -/
  above : ∀ q, q <+: p → ∃ f es es', at_ q v = some (.sub (some f) es) ∧ at_ q v' = some (.sub (some f) es') ∧
    (es'.keys = es.keys ∨ (q = p ∧ name ∉ es.keys ∧ es'.keys = es.keys ++ [name]))

theorem get_set_same (k : String) (v : Val) (t : Tree) : (t.set k v).get k = some v := by
  have := t
  induction t with
  | nil => cases v <;> simp [Tree.set, Tree.cons, Tree.get]
  | leaf k' l r ih => by_cases h : k' = k <;> cases v <;> simp_all [Tree.set, Tree.cons, Tree.get]
  | sub k' kd es r _ ih => by_cases h : k' = k <;> cases v <;> simp_all [Tree.set, Tree.cons, Tree.get]

/-- The nodes on the way to the assigned option. -/
theorem assign_ok (cls : String → Bool) (name : String) (value : Val) (p : List String) (v v' : Val) (h : assignAt cls name value p v = .ok v') :
    ((∀ k ∈ p, ¬ Shadowed cls k) ∧ ∃ f es, at_ p v = some (.sub (some f) es) ∧ f.immutable = false) ∧
      name ∉ ["__immutable__", "__deprecated_keys__", "__renamed_keys__", "__new_allowed__"] ∧ Storable value ∧ Replaced p name value v v' := by
  induction p generalizing v v' with
  | nil =>
    obtain ⟨f, es, rfl, hf, hn, hs, rfl⟩ := (setattr_ok_iff name value v v').1 h
    refine ⟨⟨by simp, f, es, rfl, hf⟩, hn, hs, ⟨?_, ?_, ?_⟩⟩
    · simp only [List.nil_append, at_cons_node, get_set_same]; rfl
    · intro q h1 h2
      cases q with
      | nil => exact absurd (List.prefix_refl _) h2
      | cons k ks =>
        have hk : name ≠ k := by
          rintro rfl; exact h1 ⟨ks, by simp⟩
        rw [at_cons_node, at_cons_node, get_set_ne hk]
    · intro q hq
      have : q = [] := List.prefix_nil.1 hq
      subst this
      refine ⟨f, es, es.set name value, rfl, rfl, ?_⟩
      cases hg : es.get name with
      | none => exact Or.inr ⟨rfl, (get_none_iff name es).1 hg, keys_set_new hg value⟩
      | some w => exact Or.inl (keys_set_mem hg value)
  | cons k ks ih =>
    simp only [assignAt] at h
    cases hg : getattr cls k v with
    | other => rw [hg] at h; cases h
    | missing => rw [hg] at h; cases h
    | option c =>
      rw [hg] at h
      obtain ⟨f, es, rfl, hs, he⟩ := (getattr_option cls k v c).1 hg
      cases hc : assignAt cls name value ks c with
      | error e => simp only [hc] at h; cases h
      | ok c' =>
        simp only [hc] at h
        have hv' : v' = .sub (some f) (es.set k c') := by simp [Val.put] at h; exact h.symm
        subst hv'
        obtain ⟨⟨h1, nf, nes, h2, h3⟩, h4, h5, h6⟩ := ih c c' hc
        refine ⟨⟨fun x hx => ?_, nf, nes, ?_, h3⟩, h4, h5, ⟨?_, ?_, ?_⟩⟩
        · rcases List.mem_cons.1 hx with h' | h'
          · exact h' ▸ hs
          · exact h1 x h'
        · rw [at_cons_node, he]; exact h2
        · rw [List.cons_append, at_cons_node, get_set_same]; exact h6.here
        · intro q hq1 hq2
          cases q with
          | nil => exact absurd (List.nil_prefix) hq2
          | cons x xs =>
            by_cases hx : k = x
            · subst hx
              rw [at_cons_node, at_cons_node, get_set_same, he]
              refine h6.elsewhere xs (fun hh => hq1 ?_) (fun hh => hq2 ?_)
              · simpa [List.cons_append, List.cons_prefix_cons] using hh
              · simpa [List.cons_prefix_cons] using hh
            · rw [at_cons_node, at_cons_node, get_set_ne hx]
        · intro q hq
          cases q with
          | nil => exact ⟨f, es, es.set k c', rfl, rfl, Or.inl (keys_set_mem he c')⟩
          | cons x xs =>
            obtain ⟨rfl, hq'⟩ := List.cons_prefix_cons.1 hq
            obtain ⟨g, e1, e2, a1, a2, a3⟩ := h6.above xs hq'
            refine ⟨g, e1, e2, ?_, ?_, ?_⟩
            · rw [at_cons_node, he]; exact a1
            · rw [at_cons_node, get_set_same]; exact a2
            · rcases a3 with a3 | ⟨rfl, a3⟩
              · exact Or.inl a3
              · exact Or.inr ⟨rfl, a3⟩

/-- **C86 (a)**. `cfg.A.B.name = value` succeeds exactly when every name on the way is an option that attribute syntax can reach, the last one is a node
that is not frozen (whatever the state of the nodes above it), the name is not one of the four internal ones and the value is of a permitted type or
a `CfgNode`; whether new options are "allowed" and whether the option existed, with which type, plays no role.  Then exactly this option is replaced. -/
theorem assign_iff (cls : String → Bool) (name : String) (value : Val) (p : List String) (v : Val) :
    ((∃ v', assignAt cls name value p v = .ok v') ↔
      ((∀ k ∈ p, ¬ Shadowed cls k) ∧ ∃ f es, at_ p v = some (.sub (some f) es) ∧ f.immutable = false) ∧
        name ∉ ["__immutable__", "__deprecated_keys__", "__renamed_keys__", "__new_allowed__"] ∧ Storable value) ∧
    (∀ v', assignAt cls name value p v = .ok v' → Replaced p name value v v') := by
  refine ⟨⟨?_, ?_⟩, fun v' h => (assign_ok cls name value p v v' h).2.2.2⟩
  · rintro ⟨v', h⟩
    obtain ⟨h1, h2, h3, _⟩ := assign_ok cls name value p v v' h
    exact ⟨h1, h2, h3⟩
  · rintro ⟨⟨h1, f, es, h2, h3⟩, h4, h5⟩
    induction p generalizing v with
    | nil =>
      have hv : v = .sub (some f) es := by simpa [at_] using h2
      subst hv
      exact ⟨_, (setattr_ok_iff name value _ _).2 ⟨f, es, rfl, h3, h4, h5, rfl⟩⟩
    | cons k ks ih =>
      cases v with
      | leaf l => cases h2
      | sub kd es0 =>
        cases kd with
        | none => cases h2
        | some g =>
          rw [at_cons_node] at h2
          cases he : es0.get k with
          | none => rw [he] at h2; cases h2
          | some c =>
            rw [he] at h2
            obtain ⟨c', hc'⟩ := ih c (fun x hx => h1 x (List.mem_cons_of_mem _ hx)) h2
            refine ⟨Val.put k c' (.sub (some g) es0), ?_⟩
            simp only [assignAt, (getattr_option cls k _ c).2 ⟨g, es0, rfl, h1 k (List.mem_cons_self ..), he⟩, hc']

/-- **C86 (b)**. A failing assignment raises AttributeError when the way to the node is not open or the node is frozen, and AssertionError when the node is
reached and open but the name is internal or the value not permitted. -/
theorem assign_error (cls : String → Bool) (name : String) (value : Val) (p : List String) (v : Val) (e : Err)
    (h : assignAt cls name value p v = .error e) :
    (e = .assertion ↔ (∀ k ∈ p, ¬ Shadowed cls k) ∧ ∃ f es, at_ p v = some (.sub (some f) es) ∧ f.immutable = false) ∧
    (e = .assertion ∨ e = .attributeError) := by
  induction p generalizing v with
  | nil =>
    cases v with
    | leaf l => simp [assignAt, setattr] at h; subst h; simp [at_]
    | sub kd es =>
      cases kd with
      | none => simp [assignAt, setattr] at h; subst h; simp [at_]
      | some f =>
        obtain ⟨h1, h2⟩ := setattr_error name value f es e h
        refine ⟨h2.trans ⟨fun hf => ⟨by simp, f, es, rfl, hf⟩, ?_⟩, ?_⟩
        · rintro ⟨_, g, e', hg, hgf⟩; simp [at_] at hg; rw [hg.1]; exact hgf
        · cases hf : f.immutable with
          | true => exact Or.inr (h1.2 hf)
          | false => exact Or.inl (h2.2 hf)
  | cons k ks ih =>
    simp only [assignAt] at h
    cases hg : getattr cls k v with
    | option c =>
      rw [hg] at h
      obtain ⟨f, es, rfl, hs, he⟩ := (getattr_option cls k v c).1 hg
      cases hc : assignAt cls name value ks c with
      | ok c' => simp only [hc] at h; cases h
      | error e' =>
        simp only [hc] at h
        have : e' = e := by simpa using h
        subst this
        obtain ⟨h1, h2⟩ := ih c hc
        refine ⟨h1.trans ⟨?_, ?_⟩, h2⟩
        · rintro ⟨a, g, e2, b⟩
          refine ⟨fun x hx => ?_, g, e2, ?_⟩
          · rcases List.mem_cons.1 hx with h' | h'
            · exact h' ▸ hs
            · exact a x h'
          · rw [at_cons_node, he]; exact b
        · rintro ⟨a, g, e2, b⟩
          refine ⟨fun x hx => a x (List.mem_cons_of_mem _ hx), g, e2, ?_⟩
          rw [at_cons_node, he] at b; exact b
    | other =>
      rw [hg] at h
      have : e = .attributeError := by simpa using h.symm
      subst this
      refine ⟨⟨fun h => by simp at h, ?_⟩, Or.inr rfl⟩
      rintro ⟨a, g, e2, b, _⟩
      exfalso
      obtain ⟨w, hw⟩ : ∃ w, readAt cls (k :: ks) v = .option w := ⟨_, (readAt_option cls (k :: ks) v _).2 ⟨a, b⟩⟩
      simp [readAt, hg] at hw
    | missing =>
      rw [hg] at h
      have : e = .attributeError := by simpa using h.symm
      subst this
      refine ⟨⟨fun h => by simp at h, ?_⟩, Or.inr rfl⟩
      rintro ⟨a, g, e2, b, _⟩
      exfalso
      obtain ⟨w, hw⟩ : ∃ w, readAt cls (k :: ks) v = .option w := ⟨_, (readAt_option cls (k :: ks) v _).2 ⟨a, b⟩⟩
      simp [readAt, hg] at hw

/-- **C86 (c)**. Reading the option back gives the assigned value — unless its name is an attribute of the class: the assignment succeeds, but
reading `cfg.name` gives the method. -/
theorem assign_read (cls : String → Bool) (name : String) (value : Val) (p : List String) (v v' : Val) (h : assignAt cls name value p v = .ok v') :
    (cls name = false → readAt cls (p ++ [name]) v' = .option value) ∧
    (cls name = true → ∀ w, readAt cls (p ++ [name]) v' ≠ .option w) := by
  obtain ⟨⟨h1, _⟩, h2, _, h4⟩ := assign_ok cls name value p v v' h
  constructor
  · intro hc
    refine (readAt_option cls _ _ _).2 ⟨fun k hk => ?_, h4.here⟩
    rcases List.mem_append.1 hk with hk | hk
    · exact h1 k hk
    · have hk' : k = name := by simpa using hk
      subst hk'
      rintro (h | h | h | h | h)
      · exact h2 (by simp [h])
      · exact h2 (by simp [h])
      · exact h2 (by simp [h])
      · exact h2 (by simp [h])
      · simp only [hc] at h; cases h
  · intro hc w hw
    have := ((readAt_option cls _ _ _).1 hw).1 name (by simp)
    exact this (by simp [Shadowed, hc])

/-- **C86 (d)**. What the constructor gives is open at every level, and only its top node takes new options in a merge: `new_allowed` is not handed on
to the nested nodes. -/
theorem construct_open (t : Tree) (na : Bool) (v : Val) (h : construct t na = .ok v) (p : List String) (f : Flags) (es : Tree)
    (hp : at_ p v = some (.sub (some f) es)) :
    f.immutable = false ∧ f.deprecated = [] ∧ f.renamed = [] ∧ (f.newAllowed = true ↔ p = [] ∧ na = true) := by
  have hfr : ∀ (t t' : Tree), build t = .ok t' → ∀ (p : List String) (g f : Flags) (es : Tree), p ≠ [] →
      at_ p (.sub (some g) t') = some (.sub (some f) es) → f = ⟨false, false, [], []⟩ := by
    intro t
    induction t with
    | nil =>
      intro t' ht p g f es hp ha
      simp [build] at ht; subst ht
      cases p with
      | nil => exact absurd rfl hp
      | cons k ks => simp [at_cons_node, Tree.get] at ha
    | leaf k l r ih =>
      intro t' ht p g f es hp ha
      simp only [build] at ht
      split at ht
      · cases hr : build r with
        | error e => simp [hr, bind, Except.bind] at ht
        | ok r' =>
          simp [hr, bind, Except.bind] at ht; subst ht
          cases p with
          | nil => exact absurd rfl hp
          | cons x xs =>
            rw [at_cons_node] at ha
            simp only [Tree.get] at ha
            by_cases hx : k = x
            · simp only [hx, if_true] at ha
              cases xs <;> simp [at_] at ha
            · simp only [hx, if_false] at ha
              exact ih r' hr (x :: xs) g f es (by simp) (by rw [at_cons_node]; exact ha)
      · cases ht
    | sub k kd e r ihe ih =>
      intro t' ht p g f es hp ha
      simp only [build] at ht
      cases he : build e with
      | error e => simp [he, bind, Except.bind] at ht
      | ok e' =>
        cases hr : build r with
        | error e => simp [he, hr, bind, Except.bind] at ht
        | ok r' =>
          simp [he, hr, bind, Except.bind] at ht; subst ht
          cases p with
          | nil => exact absurd rfl hp
          | cons x xs =>
            rw [at_cons_node] at ha
            simp only [Tree.get] at ha
            by_cases hx : k = x
            · simp only [hx, if_true] at ha
              cases xs with
              | nil => simp [at_, Flags.fresh] at ha; exact ha.1.symm
              | cons y ys => exact ihe e' he (y :: ys) .fresh f es (by simp) ha
            · simp only [hx, if_false] at ha
              exact ih r' hr (x :: xs) g f es (by simp) (by rw [at_cons_node]; exact ha)
  simp only [construct] at h
  cases hb : build t with
  | error e => simp [hb, bind, Except.bind] at h
  | ok t' =>
    simp [hb, bind, Except.bind, Flags.fresh] at h; subst h
    by_cases hn : p = []
    · subst hn
      simp [at_] at hp
      obtain ⟨rfl, rfl⟩ := hp
      simp
    · have := hfr t t' hb p _ f es hn hp
      subst this
      simp [hn]

/-- A concrete case: with `cls` true of `items`, on `CN({'A': 'x', 'B': {'C': [3], 'D': 2}})`, a new option of any name can be added below `B`, an
existing one can change its type, and the option `items` can be stored but not read; on the frozen config with `B` defrosted, only `B` is open. -/
theorem assign_case :
    (∃ v', assignAt (· == "items") "NEW" (.leaf ⟨.float, "0.5"⟩) ["B"] (.sub (some .fresh) base) = .ok v') ∧
    (∃ v', assignAt (· == "items") "D" (.leaf ⟨.str, "two"⟩) ["B"] (.sub (some .fresh) base) = .ok v' ∧
      readAt (· == "items") ["B", "D"] v' = .option (.leaf ⟨.str, "two"⟩)) ∧
    (∃ v', assignAt (· == "items") "items" (.leaf ⟨.int, "1"⟩) [] (.sub (some .fresh) base) = .ok v' ∧
      at_ ["items"] v' = some (.leaf ⟨.int, "1"⟩) ∧ readAt (· == "items") ["items"] v' = .other) ∧
    assignAt (· == "items") "__immutable__" (.leaf ⟨.bool, "True"⟩) ["B"] (.sub (some .fresh) base) = .error .assertion ∧
    assignAt (· == "items") "A" (.leaf ⟨.str, "y"⟩) [] (freeze (.sub (some .fresh) base)) = .error .attributeError := by
  refine ⟨⟨_, rfl⟩, ⟨_, rfl, rfl⟩, ⟨_, rfl, rfl, rfl⟩, by decide, by decide⟩

end Verif.Cfg
