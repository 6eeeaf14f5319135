import Verif.Cfg.Lemmas
/-! Property theorems C01–C06 about `CfgNode` (`gradslam/config/cfgnode.py`). -/
namespace Verif.Cfg

/-! ### A concrete configuration used by the non-vacuity examples -/

/-- `literal_eval` on the few strings used below: "1" is an int, everything else is not a literal. -/
def lit0 (s : String) : LitRes :=
  if s = "1" then .leaf ⟨.int, "1"⟩ else if s = "(1,2)" then .leaf ⟨.tuple, "1,2"⟩ else .pass

/-- `CN({'A': 'x', 'B': {'C': [3], 'D': 2}})`. -/
def base : Tree :=
  .leaf "A" ⟨.str, "x"⟩ (.sub "B" (some .fresh) (.leaf "C" ⟨.list, "3"⟩ (.leaf "D" ⟨.int, "2"⟩ .nil)) .nil)

/-- `CN({'B': {'C': '(1,2)'}})`. -/
def over : Tree := .sub "B" (some .fresh) (.leaf "C" ⟨.str, "(1,2)"⟩ .nil) .nil

/-! ### Histories of merges -/

/-- One merge call on a config. -/
inductive MergeOp
  | other (cfg : Val)                 -- `cfg.merge_from_other_cfg(other)`
  | list (l : List Val)               -- `cfg.merge_from_list(l)`

/-- Execute one merge on the node `(f, es)`; whether or not it raises, the object keeps the entries returned. -/
def MergeOp.run (lit : String → LitRes) (f : Flags) (es : Tree) : MergeOp → Tree
  | .other o => (mergeFromOther lit f es o).1
  | .list l => (mergeFromList lit f es l).1

/-- A `merge_from_list` whose values are not dicts (a dict value would *replace* a whole sub-config). -/
def MergeOp.noDictValue : MergeOp → Prop
  | .other _ => True
  | .list l => ∀ v ∈ l, ∃ x, v = .leaf x

theorem assignPath_shape (lit : String → LitRes) (x : Leaf) (key : List String) :
    ∀ (f : Flags) (es es' : Tree), assignPath lit (.leaf x) key es = .ok es' →
      ∀ p w, at_ p (.sub (some f) es) = some w →
        ∃ w', at_ p (.sub (some f) es') = some w' ∧ SameShape w w' := by
  induction key with
  | nil => intro f es es' h; simp [assignPath] at h
  | cons k ks ih =>
    intro f es es' h p w hp
    cases ks with
    | nil =>
      unfold assignPath at h
      cases hk : es.get k with
      | none => simp [hk] at h
      | some old =>
        simp only [hk] at h
        cases hd : decode lit (.leaf x) with
        | error e => simp [hd, bind, Except.bind] at h
        | ok v =>
          cases hc : coerce v old with
          | error e => simp [hd, hc, bind, Except.bind] at h
          | ok v' =>
            simp [hd, hc, bind, Except.bind] at h; subst h
            have hnn := coerce_leaf_not_node hd hc
            refine at_set_shape hk ?_ hp
            intro q y hq
            cases q with
            | nil =>
              simp only [at_, Option.some.injEq] at hq; subst hq
              refine ⟨v', rfl, coerce_ty hc, ?_⟩
              intro f es he; subst he; simp [Val.ty] at hnn
            | cons k' q =>
              cases old with
              | leaf _ => simp [at_] at hq
              | sub kd es => cases kd with
                | none => simp [at_] at hq
                | some f => simp [Val.ty] at hnn
    | cons k' ks =>
      unfold assignPath at h
      cases hk : es.get k with
      | none => simp [hk] at h
      | some old =>
        cases old with
        | leaf _ => simp [hk] at h
        | sub kd bes =>
          simp only [hk] at h
          cases ha : assignPath lit (.leaf x) (k' :: ks) bes with
          | error e => simp [ha, bind, Except.bind] at h
          | ok bes' =>
            simp [ha, bind, Except.bind] at h; subst h
            refine at_set_shape hk ?_ hp
            intro q y hq
            cases kd with
            | some cf => exact ih cf bes bes' ha q y hq
            | none =>
              cases q with
              | nil =>
                simp only [at_, Option.some.injEq] at hq; subst hq
                exact ⟨_, rfl, rfl, by intro f es he; simp at he⟩
              | cons _ _ => simp [at_] at hq

theorem listLoop_shape (lit : String → LitRes) (f : Flags) :
    ∀ (n : Nat) (l : List Val), l.length ≤ n → (∀ v ∈ l, ∃ x, v = .leaf x) → ∀ (es : Tree) (p : List String) (w : Val),
      at_ p (.sub (some f) es) = some w →
      ∃ w', at_ p (.sub (some f) (listLoop lit f l es).1) = some w' ∧ SameShape w w' := by
  intro n
  induction n with
  | zero =>
    intro l hl _ es p w hp
    have : l = [] := by cases l <;> simp_all
    subst this; exact ⟨w, by simpa [listLoop] using hp, SameShape.refl w⟩
  | succ n ih =>
    intro l hl hv es p w hp
    match l, hl, hv with
    | [], _, _ => exact ⟨w, by simpa [listLoop] using hp, SameShape.refl w⟩
    | [_], _, _ => exact ⟨w, by simpa [listLoop] using hp, SameShape.refl w⟩
    | k :: v :: rest, hl, hv =>
      unfold listLoop
      split
      · exact ⟨w, hp, SameShape.refl w⟩
      · rename_i es' hs
        have hrest := ih rest (by simp at hl; omega) (fun v h => hv v (by simp [h])) es' p
        obtain ⟨x, hx⟩ := hv v (by simp)
        subst hx
        unfold listStep at hs
        split at hs
        · split at hs
          · simp at hs; subst hs; exact hrest w hp
          · split at hs
            · simp at hs
            · obtain ⟨w1, h1, s1⟩ := assignPath_shape lit x _ f es es' hs p w hp
              obtain ⟨w2, h2, s2⟩ := hrest w1 h1
              exact ⟨w2, h2, s1.trans s2⟩
        · simp at hs

/-- **C01** (all histories). Along every sequence of merges — successful or raising — every option reachable by
attribute access keeps its Python type (so a list/tuple override is stored with the declared type); nested nodes stay
nodes with the same internal flags, and keep their option names.  Scope: `merge_from_list` values that are not dicts
(see `mergeList_dict_value_replaces_node` for what a dict value does). -/
theorem merge_history_preserves_types_partial (lit : String → LitRes) (f : Flags) (ops : List MergeOp)
    (hops : ∀ op ∈ ops, op.noDictValue) (es : Tree) (p : List String) (old : Val)
    (hp : at_ p (.sub (some f) es) = some old) :
    ∃ new, at_ p (.sub (some f) (ops.foldl (MergeOp.run lit f) es)) = some new ∧ SameShape old new := by
  induction ops generalizing es old with
  | nil => exact ⟨old, hp, SameShape.refl old⟩
  | cons op ops ih =>
    have hstep : ∃ w, at_ p (.sub (some f) (op.run lit f es)) = some w ∧ SameShape old w := by
      cases op with
      | other o =>
        cases o with
        | leaf l => exact ⟨old, hp, SameShape.refl old⟩
        | sub kd a =>
          cases kd with
          | none => exact ⟨old, hp, SameShape.refl old⟩
          | some af => exact mergeEnts_shape lit f a [] f es p old hp
      | list l =>
        simp only [MergeOp.run, mergeFromList]
        split
        · exact listLoop_shape lit f l.length l (Nat.le_refl _) (hops (.list l) (by simp)) es p old hp
        · exact ⟨old, hp, SameShape.refl old⟩
    obtain ⟨w, hw, sw⟩ := hstep
    obtain ⟨w', hw', sw'⟩ := ih (fun op h => hops op (by simp [h])) (op.run lit f es) w hw
    exact ⟨w', hw', sw.trans sw'⟩

/-- Non-vacuity: a two-merge history on `base`; option `B.C` (a list) is overridden by a tuple and stays a list. -/
example : (∀ op ∈ [MergeOp.other (.sub (some .fresh) over), .list [.leaf ⟨.str, "B.D"⟩, .leaf ⟨.int, "7"⟩]],
      op.noDictValue) ∧
    at_ ["B", "C"] (.sub (some .fresh) base) = some (.leaf ⟨.list, "3"⟩) ∧
    at_ ["B", "C"] (.sub (some .fresh) ([MergeOp.other (.sub (some .fresh) over),
      .list [.leaf ⟨.str, "B.D"⟩, .leaf ⟨.int, "7"⟩]].foldl (MergeOp.run lit0 .fresh) base))
      = some (.leaf ⟨.list, "1,2"⟩) ∧
    at_ ["B", "D"] (.sub (some .fresh) ([MergeOp.other (.sub (some .fresh) over),
      .list [.leaf ⟨.str, "B.D"⟩, .leaf ⟨.int, "7"⟩]].foldl (MergeOp.run lit0 .fresh) base))
      = some (.leaf ⟨.int, "7"⟩) := by
  refine ⟨?_, by decide, by decide, by decide⟩
  intro op h; simp at h; rcases h with rfl | rfl
  · trivial
  · intro v hv; simp at hv; rcases hv with rfl | rfl <;> exact ⟨_, rfl⟩

/-- **C01, scalar form**: a successful or failing merge never stores a value of another type at an existing option. -/
theorem merge_other_preserves_types (lit : String → LitRes) (f : Flags) (es : Tree) (other : Val)
    (p : List String) (old : Val) (hp : at_ p (.sub (some f) es) = some old) :
    ∃ new, at_ p (.sub (some f) (mergeFromOther lit f es other).1) = some new ∧ new.ty = old.ty := by
  obtain ⟨w, h, s⟩ := merge_history_preserves_types_partial lit f [.other other]
    (by intro op h; simp at h; subst h; trivial) es p old hp
  exact ⟨w, h, s.1⟩

example : ∃ old, at_ ["B", "C"] (.sub (some .fresh) base) = some old := ⟨.leaf ⟨.list, "3"⟩, by decide⟩

/-- Why C01 is `_partial`: a dict passed as a value to `merge_from_list` replaces the whole sub-config, so options
below it disappear (witness). -/
theorem mergeList_dict_value_replaces_node :
    ∃ (f : Flags) (es : Tree) (l : List Val) (p : List String),
      (mergeFromList lit0 f es l).2 = none ∧
      (at_ p (.sub (some f) es)).isSome = true ∧
      (at_ p (.sub (some f) (mergeFromList lit0 f es l).1)) = none :=
  ⟨.fresh, base, [.leaf ⟨.str, "B"⟩, .sub none .nil], ["B", "C"], by decide, by decide, by decide⟩

/-! ### C02 freeze / defrost -/

/-- All internal nodes reachable by attribute access have `immutable = b`. -/
theorem at_setImmutable (b : Bool) (t : Tree) :
    ∀ k, (setImmutable b t).get k =
      (t.get k).map (fun v => match v with
        | .leaf l => .leaf l
        | .sub none es => .sub none es
        | .sub (some f) es => .sub (some { f with immutable := b }) (setImmutable b es)) := by
  induction t with
  | nil => intro k; rfl
  | leaf k' l r ih => intro k; by_cases h : k' = k <;> simp [setImmutable, Tree.get, h, ih]
  | sub k' kd es r _ ih =>
    intro k
    cases kd <;> by_cases h : k' = k <;> simp [setImmutable, Tree.get, h, ih]

/-- **C02 (a)**. On a frozen config, `cfg.A.B.name = value` raises `AttributeError` for every path, name and value. -/
theorem frozen_rejects_setattr (p : List String) (name : String) (value : Val) (f : Flags) (es : Tree) :
    setattrAt name value p (freeze (.sub (some f) es)) = .error .attributeError := by
  induction p generalizing f es with
  | nil => simp [setattrAt, freeze, setattr]
  | cons k ks ih =>
    simp only [setattrAt, freeze, at_setImmutable]
    cases hk : es.get k with
    | none => simp
    | some c =>
      cases c with
      | leaf l => cases ks <;> simp [setattrAt, setattr, bind, Except.bind]
      | sub kd ces =>
        cases kd with
        | none => cases ks <;> simp [setattrAt, setattr, bind, Except.bind]
        | some cf =>
          have := ih cf ces
          simp only [freeze] at this
          simp [this, bind, Except.bind]

example : setattrAt "C" (.leaf ⟨.list, "9"⟩) ["B"] (.sub (some .fresh) base) ≠ .error .attributeError := by decide
example : setattrAt "C" (.leaf ⟨.list, "9"⟩) ["B"] (freeze (.sub (some .fresh) base)) = .error .attributeError :=
  frozen_rejects_setattr _ _ _ _ _

/-- **C02 (b)**. Freezing and defrosting change no stored value: every leaf reachable before is reachable, equal, after
(and no leaf appears). -/
theorem freeze_preserves_values (p : List String) (f : Flags) (es : Tree) (l : Leaf) :
    (at_ p (freeze (.sub (some f) es)) = some (.leaf l) ↔ at_ p (.sub (some f) es) = some (.leaf l)) ∧
    (at_ p (defrost (.sub (some f) es)) = some (.leaf l) ↔ at_ p (.sub (some f) es) = some (.leaf l)) := by
  induction p generalizing f es with
  | nil => simp [at_, freeze, defrost]
  | cons k ks ih =>
    simp only [freeze, defrost, at_cons_node, at_setImmutable]
    cases hk : es.get k with
    | none => simp
    | some c =>
      cases c with
      | leaf l' => simp
      | sub kd ces =>
        cases kd with
        | none => simp
        | some cf => simpa [freeze, defrost] using ih cf ces

/-- **C02 (c)**. After `defrost()`, assignment of a valid leaf to a non-internal name succeeds at every node of the tree,
and the assigned value is what is read back. -/
theorem defrost_allows_setattr (p : List String) (name : String) (l : Leaf) (hl : l.valid = true)
    (hn : name ∉ internalNames) (f : Flags) (es : Tree) (nf : Flags) (nes : Tree)
    (hp : at_ p (.sub (some f) es) = some (.sub (some nf) nes)) :
    ∃ t, setattrAt name (.leaf l) p (defrost (.sub (some f) es)) = .ok t ∧ at_ (p ++ [name]) t = some (.leaf l) := by
  induction p generalizing f es with
  | nil =>
    refine ⟨.sub (some { f with immutable := false }) ((setImmutable false es).set name (.leaf l)), ?_, ?_⟩
    · have : internalNames.contains name = false := by simpa using hn
      simp only [setattrAt, defrost, setattr, this, hl]; simp
    · simp only [List.nil_append, at_cons_node]; simp [at_]
  | cons k ks ih =>
    rw [at_cons_node] at hp
    cases hk : es.get k with
    | none => simp [hk] at hp
    | some c =>
      rw [hk] at hp
      simp only [Option.bind_some] at hp
      cases c with
      | leaf l' => cases ks <;> simp [at_] at hp
      | sub kd ces =>
        cases kd with
        | none => cases ks <;> simp [at_] at hp
        | some cf =>
          obtain ⟨t, ht, hr⟩ := ih cf ces hp
          simp only [defrost] at ht
          refine ⟨.sub (some { f with immutable := false }) ((setImmutable false es).set k t), ?_, ?_⟩
          · simp only [setattrAt, defrost, at_setImmutable, hk, Option.map_some, ht, bind, Except.bind]
          · simp only [List.cons_append, at_cons_node, get_set_self, Option.bind_some]
            exact hr

example : at_ ["B"] (.sub (some .fresh) base) =
    some (.sub (some .fresh) (.leaf "C" ⟨.list, "3"⟩ (.leaf "D" ⟨.int, "2"⟩ .nil))) ∧
    "C" ∉ internalNames ∧ (⟨.list, "9"⟩ : Leaf).valid = true := by decide

/-- **C02, what the code does not guarantee**: a frozen config is still modified by `merge_from_list`,
`merge_from_other_cfg` and item assignment (witnesses). -/
theorem frozen_config_still_mergeable :
    ∃ (f : Flags) (es : Tree) (l : List Val) (o : Val) (p : List String),
      freeze (.sub (some f) es) = .sub (some f) es ∧
      (mergeFromList lit0 f es l).2 = none ∧
      at_ p (.sub (some f) (mergeFromList lit0 f es l).1) ≠ at_ p (.sub (some f) es) ∧
      (mergeFromOther lit0 f es o).2 = none ∧
      at_ p (.sub (some f) (mergeFromOther lit0 f es o).1) ≠ at_ p (.sub (some f) es) ∧
      (setItem "A" (.leaf ⟨.str, "zzz"⟩) (.sub (some f) es) ≠ .ok (.sub (some f) es)) := by
  refine ⟨{ Flags.fresh with immutable := true }, setImmutable true base,
    [.leaf ⟨.str, "B.D"⟩, .leaf ⟨.int, "7"⟩], .sub (some .fresh) (.sub "B" none (.leaf "D" ⟨.int, "8"⟩ .nil) .nil),
    ["B", "D"], ?_, ?_, ?_, ?_, ?_, ?_⟩ <;> decide

/-! ### C03 unknown keys -/

/-- **C03 (a)**. If the merge does not raise, then wherever the overriding tree names a key that the receiving node
lacks and does not accept as new, that full dotted key was registered as deprecated on the root. -/
theorem merge_success_no_unknown (lit : String → LitRes) (root : Flags) (a : Tree) :
    ∀ (pre : List String) (bf : Flags) (b : Tree), a.Distinct → (mergeEnts lit root pre a bf b).2 = none →
      ∀ (p : List String) (k : String) (nf : Flags) (nes : Tree) (v : Val),
        at_ p (.sub (some bf) b) = some (.sub (some nf) nes) → nf.newAllowed = false → nes.get k = none →
        named (p ++ [k]) (.sub none a) = some v →
        ".".intercalate (pre ++ p ++ [k]) ∈ root.deprecated := by
  show ∀ (pre : List String) (bf : Flags) (b : Tree), a.Distinct → (mergeEnts lit root pre a bf b).2 = none →
      ∀ (p : List String) (k : String) (nf : Flags) (nes : Tree) (v : Val),
        at_ p (.sub (some bf) b) = some (.sub (some nf) nes) → nf.newAllowed = false → nes.get k = none →
        named (p ++ [k]) (.sub none a) = some v →
        joinKey (pre ++ p) k ∈ root.deprecated
  induction a with
  | nil =>
    intro pre bf b _ _ p k nf nes v _ _ _ hn
    cases p <;> simp [named, Tree.get] at hn
  | leaf k0 l rest ih =>
    intro pre bf b hd hok p k nf nes v hb hnew hmiss hn
    simp only [Tree.Distinct] at hd
    unfold mergeEnts at hok
    split at hok
    · simp at hok
    · rename_i v0 hdec
      cases p with
      | nil =>
        simp only [at_, Option.some.injEq, Val.sub.injEq] at hb
        obtain ⟨h1, h2⟩ := hb; subst h1 h2
        by_cases hkk : k0 = k
        · subst hkk
          rw [hmiss] at hok
          simp only [hnew, Bool.false_eq_true, if_false] at hok
          split at hok
          · simp at hok
          · rename_i hm
            unfold missing at hm
            split at hm
            · rename_i hc; simpa using hc
            · simp at hm
        · have hn' : named ([] ++ [k]) (.sub none rest) = some v := by
            simpa [named, Tree.get, hkk] using hn
          repeat' split at hok
          all_goals first
            | (simp at hok; done)
            | exact ih pre bf b hd.2 hok [] k bf b v rfl hnew hmiss hn'
            | exact ih pre bf _ hd.2 hok [] k bf _ v rfl hnew (by rw [get_set_ne hkk]; exact hmiss) hn'
      | cons k1 q =>
        by_cases hkk : k0 = k1
        · subst hkk
          cases q <;> simp [named, Tree.get] at hn
        · have hn' : named ((k1 :: q) ++ [k]) (.sub none rest) = some v := by
            simpa [named, Tree.get, hkk] using hn
          repeat' split at hok
          all_goals first
            | (simp at hok; done)
            | exact ih pre bf b hd.2 hok (k1 :: q) k nf nes v hb hnew hmiss hn'
            | exact ih pre bf _ hd.2 hok (k1 :: q) k nf nes v
                (by rw [at_cons_node] at hb ⊢; rw [get_set_ne hkk]; exact hb) hnew hmiss hn'
  | sub k0 kd es rest ihe ih =>
    intro pre bf b hd hok p k nf nes v hb hnew hmiss hn
    simp only [Tree.Distinct] at hd
    unfold mergeEnts at hok
    split at hok
    · simp at hok
    · rename_i v0 hdec
      cases p with
      | nil =>
        simp only [at_, Option.some.injEq, Val.sub.injEq] at hb
        obtain ⟨h1, h2⟩ := hb; subst h1 h2
        by_cases hkk : k0 = k
        · subst hkk
          rw [hmiss] at hok
          simp only [hnew, Bool.false_eq_true, if_false] at hok
          split at hok
          · simp at hok
          · rename_i hm
            unfold missing at hm
            split at hm
            · rename_i hc; simpa using hc
            · simp at hm
        · have hn' : named ([] ++ [k]) (.sub none rest) = some v := by
            simpa [named, Tree.get, hkk] using hn
          repeat' split at hok
          all_goals first
            | (simp at hok; done)
            | exact ih pre bf b hd.2.2 hok [] k bf b v rfl hnew hmiss hn'
            | exact ih pre bf _ hd.2.2 hok [] k bf _ v rfl hnew (by rw [get_set_ne hkk]; exact hmiss) hn'
      | cons k1 q =>
        by_cases hkk : k0 = k1
        · subst hkk
          rw [at_cons_node] at hb
          cases hg : b.get k0 with
          | none => simp [hg] at hb
          | some c =>
            rw [hg] at hb hok
            simp only [Option.bind_some] at hb
            have hn' : named (q ++ [k]) (.sub none es) = some v := by
              cases q <;> simpa [named, Tree.get] using hn
            cases c with
            | leaf l => cases q <;> simp [at_] at hb
            | sub ckd ces =>
              cases ckd with
              | none => cases q <;> simp [at_] at hb
              | some cf =>
                simp only at hok
                split at hok
                · simp at hok
                · rename_i bes' he
                  have := ihe (pre ++ [k0]) cf ces hd.2.1 (by rw [he]) q k nf nes v hb hnew hmiss hn'
                  simpa using this
        · have hn' : named ((k1 :: q) ++ [k]) (.sub none rest) = some v := by
            simpa [named, Tree.get, hkk] using hn
          repeat' split at hok
          all_goals first
            | (simp at hok; done)
            | exact ih pre bf b hd.2.2 hok (k1 :: q) k nf nes v hb hnew hmiss hn'
            | exact ih pre bf _ hd.2.2 hok (k1 :: q) k nf nes v
                (by rw [at_cons_node] at hb ⊢; rw [get_set_ne hkk]; exact hb) hnew hmiss hn'

/-- **C03**. A `merge_from_other_cfg` call whose argument names, anywhere, a key unknown to the receiver (not present,
not accepted as new, not deprecated) raises. -/
theorem unknown_key_raises (lit : String → LitRes) (f af : Flags) (es a : Tree) (ha : a.Distinct)
    (p : List String) (k : String) (nf : Flags) (nes : Tree) (v : Val)
    (hnode : at_ p (.sub (some f) es) = some (.sub (some nf) nes)) (hnew : nf.newAllowed = false)
    (hmiss : nes.get k = none) (hnamed : named (p ++ [k]) (.sub (some af) a) = some v)
    (hdep : ".".intercalate (p ++ [k]) ∉ f.deprecated) :
    (mergeFromOther lit f es (.sub (some af) a)).2 ≠ none := by
  intro hok
  have hn' : named (p ++ [k]) (.sub none a) = some v := by
    cases p <;> simpa [named] using hnamed
  have := merge_success_no_unknown lit f a [] f es ha hok p k nf nes v hnode hnew hmiss hn'
  exact hdep (by simpa using this)

/-- **C03 (b)**. Whatever is merged, the option names of every node that does not allow new keys are unchanged, in the
same order, and the node keeps its flags. -/
theorem merge_keeps_option_names (lit : String → LitRes) (f : Flags) (es : Tree) (other : Val)
    (p : List String) (nf : Flags) (nes : Tree) (hnew : nf.newAllowed = false)
    (hp : at_ p (.sub (some f) es) = some (.sub (some nf) nes)) :
    ∃ nes', at_ p (.sub (some f) (mergeFromOther lit f es other).1) = some (.sub (some nf) nes') ∧
      nes'.keys = nes.keys := by
  obtain ⟨w, h, s⟩ := merge_history_preserves_types_partial lit f [.other other]
    (by intro op h; simp at h; subst h; trivial) es p _ hp
  obtain ⟨es', he, _, hk⟩ := s.2 nf nes rfl
  subst he
  exact ⟨es', h, hk hnew⟩

/-- Non-vacuity of C03: the misspelt nested option `B.E`. -/
example : ∃ nes, (Tree.sub "B" none (.leaf "E" ⟨.int, "1"⟩ .nil) .nil).Distinct ∧
    at_ ["B"] (.sub (some .fresh) base) = some (.sub (some .fresh) nes) ∧ nes.get "E" = none ∧
    named (["B"] ++ ["E"]) (.sub (some .fresh) (Tree.sub "B" none (.leaf "E" ⟨.int, "1"⟩ .nil) .nil))
      = some (.leaf ⟨.int, "1"⟩) ∧
    ".".intercalate (["B"] ++ ["E"]) ∉ Flags.fresh.deprecated :=
  ⟨_, by simp [Tree.Distinct, Tree.keys], rfl, by decide, by decide, by decide⟩

/-- **C03 (c)**. A key registered as deprecated (and absent from the receiver) is ignored; a renamed or unknown one raises
`KeyError` and leaves the receiver unchanged. -/
theorem deprecated_ignored_renamed_raises (lit : String → LitRes) (f af : Flags) (es : Tree) (k : String) (l : Leaf)
    (hnew : f.newAllowed = false) (hmiss : es.get k = none) (hl : l.ty ≠ .str) :
    (k ∈ f.deprecated →
      mergeFromOther lit f es (.sub (some af) (.leaf k l .nil)) = (es, none)) ∧
    (k ∉ f.deprecated →
      mergeFromOther lit f es (.sub (some af) (.leaf k l .nil)) = (es, some .keyError)) := by
  have hj : joinKey [] k = k := rfl
  constructor <;> intro h <;>
    simp [mergeFromOther, mergeEnts, decode, hl, hmiss, hnew, missing, hj, h]

example : (({ Flags.fresh with deprecated := ["OLD"] } : Flags).newAllowed = false) ∧ base.get "OLD" = none ∧
    "OLD" ∈ ({ Flags.fresh with deprecated := ["OLD"] } : Flags).deprecated := by decide

/-! ### C04 exactly the named options are overridden -/

/-- **C04 (a)**. After a successful merge each leaf named by the overriding tree at an existing option holds the decoded,
coerced value from the overriding tree. -/
theorem merge_sets_named (lit : String → LitRes) (root : Flags) (a : Tree) :
    ∀ (pre : List String) (bf : Flags) (b b' : Tree), a.Distinct → mergeEnts lit root pre a bf b = (b', none) →
      ∀ (p : List String) (l : Leaf) (old : Val),
        named p (.sub none a) = some (.leaf l) → at_ p (.sub (some bf) b) = some old →
        ∃ v v', decode lit (.leaf l) = .ok v ∧ coerce v old = .ok v' ∧ at_ p (.sub (some bf) b') = some v' := by
  induction a with
  | nil =>
    intro pre bf b b' _ _ p l old hn _
    cases p <;> simp [named, Tree.get] at hn
  | leaf k0 l0 rest ih =>
    intro pre bf b b' hd hok p l old hn hb
    simp only [Tree.Distinct] at hd
    cases p with
    | nil => simp [named] at hn
    | cons k1 q =>
      by_cases hkk : k0 = k1
      · subst hkk
        cases q with
        | cons k2 q => simp [named, Tree.get] at hn
        | nil =>
          simp only [named, Tree.get, if_true, Option.some.injEq, Val.leaf.injEq] at hn
          subst hn
          rw [at_cons_node] at hb
          cases hg : b.get k0 with
          | none => simp [hg] at hb
          | some c =>
            simp only [hg, Option.bind_some, at_, Option.some.injEq] at hb; subst hb
            unfold mergeEnts at hok
            cases hdec : decode lit (.leaf l0) with
            | error e => simp [hdec] at hok
            | ok v =>
              simp only [hdec, hg] at hok
              cases hc : coerce v c with
              | error e => simp [hc] at hok
              | ok v' =>
                simp only [hc] at hok
                refine ⟨v, v', rfl, hc, ?_⟩
                have := mergeEnts_get_other lit root rest pre bf (b.set k0 v') k0 hd.1
                rw [hok] at this
                rw [at_cons_node, this, get_set_self]; rfl
      · have hn' : named (k1 :: q) (.sub none rest) = some (.leaf l) := by
          simpa [named, Tree.get, hkk] using hn
        unfold mergeEnts at hok
        repeat' split at hok
        all_goals first
          | (simp at hok; done)
          | exact ih pre bf b b' hd.2 hok (k1 :: q) l old hn' hb
          | exact ih pre bf _ b' hd.2 hok (k1 :: q) l old hn'
              (by rw [at_cons_node] at hb ⊢; rw [get_set_ne hkk]; exact hb)
  | sub k0 kd es rest ihe ih =>
    intro pre bf b b' hd hok p l old hn hb
    simp only [Tree.Distinct] at hd
    cases p with
    | nil => simp [named] at hn
    | cons k1 q =>
      by_cases hkk : k0 = k1
      · subst hkk
        have hn' : named q (.sub none es) = some (.leaf l) := by
          cases q with
          | nil => simp [named, Tree.get] at hn
          | cons k2 q => simpa [named, Tree.get] using hn
        rw [at_cons_node] at hb
        cases hg : b.get k0 with
        | none => simp [hg] at hb
        | some c =>
          simp only [hg, Option.bind_some] at hb
          unfold mergeEnts at hok
          cases hdec : decode lit (.sub kd es) with
          | error e => simp [hdec] at hok
          | ok v =>
            simp only [hdec, hg] at hok
            cases c with
            | leaf l => simp at hok
            | sub ckd ces =>
              cases ckd with
              | none => simp at hok
              | some cf =>
                simp only at hok
                cases he : mergeEnts lit root (pre ++ [k0]) es cf ces with
                | mk bes' err =>
                  cases err with
                  | some e => simp [he] at hok
                  | none =>
                    simp only [he] at hok
                    obtain ⟨v, v', h1, h2, h3⟩ := ihe (pre ++ [k0]) cf ces bes' hd.2.1 he q l old hn' hb
                    refine ⟨v, v', h1, h2, ?_⟩
                    have := mergeEnts_get_other lit root rest pre bf (b.set k0 (.sub (some cf) bes')) k0 hd.1
                    rw [hok] at this
                    rw [at_cons_node, this, get_set_self]
                    exact h3
      · have hn' : named (k1 :: q) (.sub none rest) = some (.leaf l) := by
          simpa [named, Tree.get, hkk] using hn
        unfold mergeEnts at hok
        repeat' split at hok
        all_goals first
          | (simp at hok; done)
          | exact ih pre bf b b' hd.2.2 hok (k1 :: q) l old hn' hb
          | exact ih pre bf _ b' hd.2.2 hok (k1 :: q) l old hn'
              (by rw [at_cons_node] at hb ⊢; rw [get_set_ne hkk]; exact hb)

/-- **C04 (b)**. An option the overriding tree does not name keeps its value, whether or not the merge raises. -/
theorem merge_keeps_unnamed (lit : String → LitRes) (root : Flags) (a : Tree) :
    ∀ (pre : List String) (bf : Flags) (b : Tree) (p : List String) (l : Leaf), a.Distinct →
        named p (.sub none a) = none → at_ p (.sub (some bf) b) = some (.leaf l) →
        at_ p (.sub (some bf) (mergeEnts lit root pre a bf b).1) = some (.leaf l) := by
  induction a with
  | nil => intro pre bf b p l _ _ hb; simpa [mergeEnts] using hb
  | leaf k0 l0 rest ih =>
    intro pre bf b p l hd hn hb
    simp only [Tree.Distinct] at hd
    cases p with
    | nil => simp [named] at hn
    | cons k1 q =>
      by_cases hkk : k0 = k1
      · subst hkk
        cases q with
        | nil => simp [named, Tree.get] at hn
        | cons k2 q =>
          -- the overriding tree has a leaf where the receiver has a node: type mismatch
          cases hg : b.get k0 with
          | none => rw [at_cons_node, hg] at hb; simp at hb
          | some c =>
            have hb' := hb
            rw [at_cons_node, hg] at hb'
            simp only [Option.bind_some] at hb'
            have hc : c.ty = .node := by
              cases c with
              | leaf _ => simp [at_] at hb'
              | sub kd _ => cases kd <;> simp_all [at_, Val.ty]
            unfold mergeEnts
            split
            · exact hb
            · rename_i v hdec
              simp only [hg]
              split
              · exact hb
              · rename_i v' hco
                exact absurd hc (coerce_leaf_not_node hdec hco)
      · have hn' : named (k1 :: q) (.sub none rest) = none := by
          simpa [named, Tree.get, hkk] using hn
        unfold mergeEnts
        repeat' split
        all_goals first
          | exact hb
          | exact ih pre bf b (k1 :: q) l hd.2 hn' hb
          | exact ih pre bf _ (k1 :: q) l hd.2 hn' (by rw [at_cons_node] at hb ⊢; rw [get_set_ne hkk]; exact hb)
  | sub k0 kd es rest ihe ih =>
    intro pre bf b p l hd hn hb
    simp only [Tree.Distinct] at hd
    cases p with
    | nil => simp [named] at hn
    | cons k1 q =>
      by_cases hkk : k0 = k1
      · subst hkk
        have hn' : named q (.sub none es) = none := by
          cases q with
          | nil => simp [named, Tree.get] at hn
          | cons k2 q => simpa [named, Tree.get] using hn
        cases hg : b.get k0 with
        | none => rw [at_cons_node, hg] at hb; simp at hb
        | some c =>
          have hb' := hb
          rw [at_cons_node, hg] at hb'
          simp only [Option.bind_some] at hb'
          unfold mergeEnts
          split
          · exact hb
          · simp only [hg]
            cases c with
            | leaf _ => exact hb
            | sub ckd ces =>
              cases ckd with
              | none => exact hb
              | some cf =>
                have h1 := ihe (pre ++ [k0]) cf ces q l hd.2.1 hn' hb'
                simp only
                split
                · rename_i bes' e he
                  rw [he] at h1
                  rw [at_cons_node, get_set_self]; exact h1
                · rename_i bes' he
                  rw [he] at h1
                  rw [at_cons_node, mergeEnts_get_other lit root rest _ _ _ _ hd.1, get_set_self]; exact h1
      · have hn' : named (k1 :: q) (.sub none rest) = none := by
          simpa [named, Tree.get, hkk] using hn
        unfold mergeEnts
        repeat' split
        all_goals first
          | exact hb
          | exact ih pre bf b (k1 :: q) l hd.2.2 hn' hb
          | exact ih pre bf _ (k1 :: q) l hd.2.2 hn' (by rw [at_cons_node] at hb ⊢; rw [get_set_ne hkk]; exact hb)
          | (rw [at_cons_node] at hb ⊢; rw [get_set_ne hkk]; exact hb)

/-- **C04**. Both halves for the public method `merge_from_other_cfg`: after a successful call each named leaf holds the
overriding value (decoded, coerced to the declared type) and each unnamed option is unchanged. -/
theorem merge_overrides_exactly_named (lit : String → LitRes) (f af : Flags) (es es' a : Tree) (ha : a.Distinct)
    (hok : mergeFromOther lit f es (.sub (some af) a) = (es', none)) (p : List String) (old : Leaf)
    (hp : at_ p (.sub (some f) es) = some (.leaf old)) :
    (∀ l, named p (.sub (some af) a) = some (.leaf l) →
      ∃ v v', decode lit (.leaf l) = .ok v ∧ coerce v (.leaf old) = .ok v' ∧ at_ p (.sub (some f) es') = some v') ∧
    (named p (.sub (some af) a) = none → at_ p (.sub (some f) es') = some (.leaf old)) := by
  have hnm : ∀ r, named p (.sub (some af) a) = r → (p ≠ [] → named p (.sub none a) = r) := by
    intro r h hp
    cases p with
    | nil => exact absurd rfl hp
    | cons k q => simpa [named] using h
  have hp0 : p ≠ [] := by rintro rfl; simp [at_] at hp
  constructor
  · intro l hl
    exact merge_sets_named lit f a [] f es es' ha hok p l _ (hnm _ hl hp0) hp
  · intro hl
    have := merge_keeps_unnamed lit f a [] f es p old ha (hnm _ hl hp0) hp
    simp only [mergeFromOther] at hok
    rwa [hok] at this

example : over.Distinct ∧ mergeFromOther lit0 .fresh base (.sub (some .fresh) over)
      = (.leaf "A" ⟨.str, "x"⟩ (.sub "B" (some .fresh) (.leaf "C" ⟨.list, "1,2"⟩ (.leaf "D" ⟨.int, "2"⟩ .nil)) .nil), none) ∧
    at_ ["B", "C"] (.sub (some .fresh) base) = some (.leaf ⟨.list, "3"⟩) ∧
    named ["B", "C"] (.sub (some .fresh) over) = some (.leaf ⟨.str, "(1,2)"⟩) ∧
    named ["A"] (.sub (some .fresh) over) = none :=
  ⟨by simp [over, Tree.Distinct, Tree.keys], by decide, by decide, by decide, by decide⟩

theorem NoNew_get {t : Tree} (h : t.NoNew) {k : String} {f : Flags} {es : Tree}
    (hk : t.get k = some (.sub (some f) es)) : f.newAllowed = false ∧ es.NoNew := by
  induction t with
  | nil => simp [Tree.get] at hk
  | leaf k' l r ih =>
    by_cases hkk : k' = k
    · simp [Tree.get, hkk] at hk
    · simp only [Tree.get, hkk, if_false] at hk; exact ih h hk
  | sub k' kd es' r _ ih =>
    by_cases hkk : k' = k
    · simp only [Tree.get, hkk, if_true, Option.some.injEq, Val.sub.injEq] at hk
      obtain ⟨h1, h2⟩ := hk; subst h1 h2; exact ⟨h.1, h.2.1⟩
    · simp only [Tree.get, hkk, if_false] at hk
      cases kd with
      | none => exact ih h hk
      | some f' => exact ih h.2.2 hk

theorem NoNew_set {t : Tree} (h : t.NoNew) {k : String} {v v0 : Val} (hg : t.get k = some v0)
    (hv : ∀ f es, v = .sub (some f) es → f.newAllowed = false ∧ es.NoNew) : (t.set k v).NoNew := by
  induction t with
  | nil => simp [Tree.get] at hg
  | leaf k' l r ih =>
    by_cases hkk : k' = k
    · rw [Tree.set, if_pos hkk]
      cases v with
      | leaf l => exact h
      | sub kd es => cases kd with
        | none => exact h
        | some f => exact ⟨(hv f es rfl).1, (hv f es rfl).2, h⟩
    · simp only [Tree.get, hkk, if_false] at hg
      rw [Tree.set, if_neg hkk]; exact ih h hg
  | sub k' kd es' r _ ih =>
    have hr : r.NoNew := by cases kd with
      | none => exact h
      | some f => exact h.2.2
    by_cases hkk : k' = k
    · rw [Tree.set, if_pos hkk]
      cases v with
      | leaf l => exact hr
      | sub kd es => cases kd with
        | none => exact hr
        | some f => exact ⟨(hv f es rfl).1, (hv f es rfl).2, hr⟩
    · simp only [Tree.get, hkk, if_false] at hg
      rw [Tree.set, if_neg hkk]
      cases kd with
      | none => exact ih hr hg
      | some f => exact ⟨h.1, h.2.1, ih hr hg⟩

theorem mergeEnts_NoNew (lit : String → LitRes) (root : Flags) (a : Tree) :
    ∀ (pre : List String) (bf : Flags) (b : Tree), bf.newAllowed = false → b.NoNew →
      (mergeEnts lit root pre a bf b).1.NoNew := by
  induction a with
  | nil => intro pre bf b _ h; exact h
  | leaf k l rest ih =>
    intro pre bf b hf hb
    unfold mergeEnts
    split
    · exact hb
    · rename_i v hd
      split
      · rename_i old hg
        split
        · exact hb
        · rename_i v' hc
          apply ih _ _ _ hf
          refine NoNew_set hb hg ?_
          intro f es he; subst he
          have h1 := coerce_leaf_not_node hd hc
          have h2 := coerce_ty hc
          exact absurd h2.symm h1
      · rw [if_neg (by simp [hf])]
        split
        · exact hb
        · exact ih _ _ _ hf hb
  | sub k kd es rest ihe ih =>
    intro pre bf b hf hb
    unfold mergeEnts
    split
    · exact hb
    · split
      · rename_i cf bes hg
        have hc := NoNew_get hb hg
        have h1 := ihe (pre ++ [k]) cf bes hc.1 hc.2
        split
        · rename_i bes' e he
          rw [he] at h1
          refine NoNew_set hb hg ?_
          intro f es h; simp only [Val.sub.injEq, Option.some.injEq] at h
          obtain ⟨h2, h3⟩ := h; subst h2 h3; exact ⟨hc.1, h1⟩
        · rename_i bes' he
          rw [he] at h1
          apply ih _ _ _ hf
          refine NoNew_set hb hg ?_
          intro f es h; simp only [Val.sub.injEq, Option.some.injEq] at h
          obtain ⟨h2, h3⟩ := h; subst h2 h3; exact ⟨hc.1, h1⟩
      · exact hb
      · rw [if_neg (by simp [hf])]
        split
        · exact hb
        · exact ih _ _ _ hf hb

theorem mergeEnts_idem (lit : String → LitRes) (root : Flags) (a : Tree) :
    ∀ (pre : List String) (bf : Flags) (b b' : Tree), a.Distinct → bf.newAllowed = false → b.NoNew →
      mergeEnts lit root pre a bf b = (b', none) → mergeEnts lit root pre a bf b' = (b', none) := by
  induction a with
  | nil => intro pre bf b b' _ _ _ _; rfl
  | leaf k l rest ih =>
    intro pre bf b b' hd hf hb hok
    simp only [Tree.Distinct] at hd
    unfold mergeEnts at hok ⊢
    cases hdec : decode lit (.leaf l) with
    | error e => simp [hdec] at hok
    | ok v =>
      simp only [hdec] at hok ⊢
      cases hg : b.get k with
      | none =>
        simp only [hg, hf, Bool.false_eq_true, if_false] at hok
        cases hm : missing root (joinKey pre k) with
        | some e => simp [hm] at hok
        | none =>
          simp only [hm] at hok
          have h2 := mergeEnts_get_other lit root rest pre bf b k hd.1
          rw [hok, hg] at h2
          simp only [h2, hf, Bool.false_eq_true, if_false]
          exact ih pre bf b b' hd.2 hf hb hok
      | some old =>
        simp only [hg] at hok
        cases hc : coerce v old with
        | error e => simp [hc] at hok
        | ok v' =>
          simp only [hc] at hok
          have h2 := mergeEnts_get_other lit root rest pre bf (b.set k v') k hd.1
          rw [hok, get_set_self] at h2
          have hc' : coerce v v' = .ok v' := by rw [coerce_congr (coerce_ty hc)]; exact hc
          simp only at h2
          simp only [h2, hc', set_get_self h2]
          refine ih pre bf (b.set k v') b' hd.2 hf ?_ hok
          refine NoNew_set hb hg ?_
          intro f es he; subst he
          exact absurd (coerce_ty hc).symm (coerce_leaf_not_node hdec hc)
  | sub k kd es rest ihe ih =>
    intro pre bf b b' hd hf hb hok
    simp only [Tree.Distinct] at hd
    unfold mergeEnts at hok ⊢
    cases hdec : decode lit (.sub kd es) with
    | error e => simp [hdec] at hok
    | ok v =>
      simp only [hdec] at hok ⊢
      cases hg : b.get k with
      | none =>
        simp only [hg, hf, Bool.false_eq_true, if_false] at hok
        cases hm : missing root (joinKey pre k) with
        | some e => simp [hm] at hok
        | none =>
          simp only [hm] at hok
          have h2 := mergeEnts_get_other lit root rest pre bf b k hd.1
          rw [hok, hg] at h2
          simp only [h2, hf, Bool.false_eq_true, if_false]
          exact ih pre bf b b' hd.2.2 hf hb hok
      | some old =>
        simp only [hg] at hok
        cases old with
        | leaf _ => simp at hok
        | sub okd bes =>
          cases okd with
          | none => simp at hok
          | some cf =>
            simp only at hok
            have hcn := NoNew_get hb hg
            cases he : mergeEnts lit root (pre ++ [k]) es cf bes with
            | mk bes' err =>
              cases err with
              | some e => simp [he] at hok
              | none =>
                simp only [he] at hok
                have h1 := ihe (pre ++ [k]) cf bes bes' hd.2.1 hcn.1 hcn.2 he
                have h2 := mergeEnts_get_other lit root rest pre bf (b.set k (.sub (some cf) bes')) k hd.1
                rw [hok, get_set_self] at h2
                simp only at h2
                simp only [h2, h1, set_get_self h2]
                refine ih pre bf (b.set k (.sub (some cf) bes')) b' hd.2.2 hf ?_ hok
                refine NoNew_set hb hg ?_
                intro f es' h; simp only [Val.sub.injEq, Option.some.injEq] at h
                obtain ⟨h3, h4⟩ := h; subst h3 h4
                have := mergeEnts_NoNew lit root es (pre ++ [k]) cf bes hcn.1 hcn.2
                rw [he] at this
                exact ⟨hcn.1, this⟩

/-- **C04 (c)**. Merging the same config twice is the same as merging it once, for configs that accept no new keys. -/
theorem merge_idempotent_partial (lit : String → LitRes) (f : Flags) (es es' : Tree) (other : Val)
    (hnew : f.newAllowed = false) (hn : es.NoNew) (hd : ∀ af a, other = .sub (some af) a → a.Distinct)
    (hok : mergeFromOther lit f es other = (es', none)) :
    mergeFromOther lit f es' other = (es', none) := by
  cases other with
  | leaf l => simp [mergeFromOther] at hok
  | sub kd a =>
    cases kd with
    | none => simp [mergeFromOther] at hok
    | some af => exact mergeEnts_idem lit f a [] f es es' (hd af a rfl) hnew hn hok

example : base.NoNew ∧ Flags.fresh.newAllowed = false ∧ over.Distinct ∧
    (mergeFromOther lit0 .fresh base (.sub (some .fresh) over)).2 = none :=
  ⟨by simp [base, Tree.NoNew, Flags.fresh], rfl, by simp [over, Tree.Distinct, Tree.keys], by decide⟩

/-- Why (c) is `_partial`: with `new_allowed=True` a nested node is inserted without decoding its strings, and the second
merge of the very same config raises `ValueError`. -/
theorem merge_not_idempotent_with_new_keys :
    ∃ (f : Flags) (es : Tree) (other : Val),
      (mergeFromOther lit0 f es other).2 = none ∧
      (mergeFromOther lit0 f (mergeFromOther lit0 f es other).1 other).2 = some .valueError :=
  ⟨{ Flags.fresh with newAllowed := true }, .nil,
    .sub (some .fresh) (.sub "N" (some .fresh) (.leaf "S" ⟨.str, "1"⟩ .nil) .nil), by decide, by decide⟩

/-- A config cannot always be merged with its own clone: a string option whose text is a Python literal is decoded to the
literal's type and rejected. -/
theorem merge_with_own_clone_can_raise :
    ∃ (f : Flags) (es : Tree), (mergeFromOther lit0 f es (.sub (some f) es)).2 = some .valueError :=
  ⟨.fresh, .leaf "S" ⟨.str, "1"⟩ .nil, by decide⟩

/-! ### C05 merge_from_list -/

/-- **C05 (a)**. Odd-length lists are rejected before anything is changed. -/
theorem mergeList_odd (lit : String → LitRes) (f : Flags) (es : Tree) (l : List Val) (h : l.length % 2 = 1) :
    mergeFromList lit f es l = (es, some .assertion) := by
  simp [mergeFromList, h]

example : [Val.leaf ⟨.str, "A"⟩].length % 2 = 1 := rfl

theorem listLoop_append (lit : String → LitRes) (f : Flags) :
    ∀ (n : Nat) (l1 l2 : List Val) (es : Tree), l1.length ≤ n → l1.length % 2 = 0 →
      listLoop lit f (l1 ++ l2) es =
        (match listLoop lit f l1 es with
          | (es1, none) => listLoop lit f l2 es1
          | (es1, some e) => (es1, some e)) := by
  intro n
  induction n with
  | zero =>
    intro l1 l2 es h _
    have : l1 = [] := by cases l1 <;> simp_all
    subst this; simp [listLoop]
  | succ n ih =>
    intro l1 l2 es h he
    match l1, h, he with
    | [], _, _ => simp [listLoop]
    | [x], _, he => simp at he
    | k :: v :: rest, h, he =>
      simp only [List.cons_append, listLoop]
      cases hs : listStep lit f k v es with
      | error e => simp
      | ok es' =>
        simp only
        exact ih rest l2 es' (by simp at h; omega) (by simp at he; omega)

/-- **C05 (b)**. The pairs are processed strictly in order, and if a later pair raises, the effect of all the earlier
pairs stays (the call is not atomic). -/
theorem mergeList_in_order (lit : String → LitRes) (f : Flags) (es : Tree) (l1 l2 : List Val)
    (h1 : l1.length % 2 = 0) (h2 : l2.length % 2 = 0) :
    mergeFromList lit f es (l1 ++ l2) =
      (match mergeFromList lit f es l1 with
        | (es1, none) => mergeFromList lit f es1 l2
        | (es1, some e) => (es1, some e)) := by
  have h12 : (l1 ++ l2).length % 2 = 0 := by simp; omega
  simp only [mergeFromList, h1, h2, h12, if_true]
  exact listLoop_append lit f l1.length l1 l2 es (Nat.le_refl _) h1

example : mergeFromList lit0 .fresh base
    ([.leaf ⟨.str, "B.D"⟩, .leaf ⟨.int, "7"⟩] ++ [.leaf ⟨.str, "B.E"⟩, .leaf ⟨.int, "7"⟩]) =
    (.leaf "A" ⟨.str, "x"⟩ (.sub "B" (some .fresh) (.leaf "C" ⟨.list, "3"⟩ (.leaf "D" ⟨.int, "7"⟩ .nil)) .nil),
      some .assertion) := by decide

/-- What a path evaluates to inside the receiving dictionary (through nodes and plain dicts, as `d[subkey]` walks). -/
theorem assignPath_spec (lit : String → LitRes) (v : Val) (key : List String) :
    ∀ (es es' : Tree), assignPath lit v key es = .ok es' →
      (∃ old v' v'', named key (.sub none es) = some old ∧ decode lit v = .ok v' ∧ coerce v' old = .ok v'' ∧
        named key (.sub none es') = some v'') ∧
      (∀ p, ¬ key <+: p → ¬ p <+: key → named p (.sub none es') = named p (.sub none es)) := by
  induction key with
  | nil => intro es es' h; simp [assignPath] at h
  | cons k ks ih =>
    intro es es' h
    cases ks with
    | nil =>
      unfold assignPath at h
      cases hk : es.get k with
      | none => simp [hk] at h
      | some old =>
        simp only [hk] at h
        cases hd : decode lit v with
        | error e => simp [hd, bind, Except.bind] at h
        | ok v' =>
          cases hc : coerce v' old with
          | error e => simp [hd, hc, bind, Except.bind] at h
          | ok v'' =>
            simp [hd, hc, bind, Except.bind] at h; subst h
            refine ⟨⟨old, v', v'', by simp [named, hk], rfl, hc, by simp [named]⟩, ?_⟩
            intro p hp hp'
            cases p with
            | nil => simp at hp'
            | cons k1 q =>
              have hne : k ≠ k1 := by rintro rfl; exact hp ⟨q, rfl⟩
              simp only [named, get_set_ne hne]
    | cons k' ks =>
      unfold assignPath at h
      cases hk : es.get k with
      | none => simp [hk] at h
      | some old =>
        cases old with
        | leaf _ => simp [hk] at h
        | sub kd bes =>
          simp only [hk] at h
          cases ha : assignPath lit v (k' :: ks) bes with
          | error e => simp [ha, bind, Except.bind] at h
          | ok bes' =>
            simp [ha, bind, Except.bind] at h; subst h
            obtain ⟨⟨old, v', v'', h1, h2, h3, h4⟩, h5⟩ := ih bes bes' ha
            refine ⟨⟨old, v', v'', ?_, h2, h3, ?_⟩, ?_⟩
            · simpa [named, hk] using h1
            · simpa [named] using h4
            · intro p hp hp'
              cases p with
              | nil => simp at hp'
              | cons k1 q =>
                by_cases hne : k = k1
                · subst hne
                  have hq : ¬ (k' :: ks) <+: q := fun ⟨t, ht⟩ => hp ⟨t, by simp [ht]⟩
                  have hq' : ¬ q <+: (k' :: ks) := fun ⟨t, ht⟩ => hp' ⟨t, by simp [← ht]⟩
                  have := h5 q hq hq'
                  cases q with
                  | nil => simp at hq'
                  | cons k2 q => simpa [named, hk] using this
                · simp only [named, get_set_ne hne]

/-- **C05 (c)**. One successful pair `(full_key, value)` whose key is not deprecated sets exactly that option to the decoded
and coerced value; every path unrelated to it is unchanged. -/
theorem mergeList_pair (lit : String → LitRes) (f : Flags) (es es' : Tree) (fullKey : String) (v : Val)
    (hdep : fullKey ∉ f.deprecated)
    (hok : mergeFromList lit f es [.leaf ⟨.str, fullKey⟩, v] = (es', none)) :
    (∃ old v' v'', named (splitDots fullKey) (.sub none es) = some old ∧ decode lit v = .ok v' ∧
      coerce v' old = .ok v'' ∧ named (splitDots fullKey) (.sub none es') = some v'') ∧
    (∀ p, ¬ splitDots fullKey <+: p → ¬ p <+: splitDots fullKey →
      named p (.sub none es') = named p (.sub none es)) := by
  simp only [mergeFromList, listLoop, listStep, List.length_cons, List.length_nil] at hok
  split at hok
  · split at hok
    · simp at hok
    · rename_i es'' hs
      split at hs
      · rename_i hc; simp at hc; exact absurd hc hdep
      · split at hs
        · simp at hs
        · simp at hok; subst hok
          exact assignPath_spec lit v _ es es'' hs
  · simp at hok

example : "B.D" ∉ Flags.fresh.deprecated ∧ splitDots "B.D" = ["B", "D"] ∧
    (mergeFromList lit0 .fresh base [.leaf ⟨.str, "B.D"⟩, .leaf ⟨.int, "7"⟩]).2 = none := by decide

/-- **C05 (d)**. Deprecated keys are skipped, renamed keys raise `KeyError`, in both cases nothing changes. -/
theorem mergeList_deprecated_renamed (lit : String → LitRes) (f : Flags) (es : Tree) (fullKey : String) (v : Val) :
    (fullKey ∈ f.deprecated → mergeFromList lit f es [.leaf ⟨.str, fullKey⟩, v] = (es, none)) ∧
    (fullKey ∉ f.deprecated → fullKey ∈ f.renamed →
      mergeFromList lit f es [.leaf ⟨.str, fullKey⟩, v] = (es, some .keyError)) := by
  constructor
  · intro h; simp [mergeFromList, listLoop, listStep, h]
  · intro h h'; simp [mergeFromList, listLoop, listStep, h, h']

/-- **C05 (e)**. A key that does not exist raises and leaves the config unchanged. -/
theorem mergeList_missing (lit : String → LitRes) (f : Flags) (es : Tree) (fullKey : String) (v : Val)
    (hdep : fullKey ∉ f.deprecated) (hmiss : named (splitDots fullKey) (.sub none es) = none) :
    ∃ e, mergeFromList lit f es [.leaf ⟨.str, fullKey⟩, v] = (es, some e) := by
  cases h : mergeFromList lit f es [.leaf ⟨.str, fullKey⟩, v] with
  | mk es' err =>
    cases err with
    | none =>
      obtain ⟨⟨old, _, _, h1, _⟩, _⟩ := mergeList_pair lit f es es' fullKey v hdep h
      rw [hmiss] at h1; simp at h1
    | some e =>
      refine ⟨e, ?_⟩
      simp only [mergeFromList, listLoop] at h
      split at h
      · split at h
        · simp at h; simp [h]
        · simp at h
      · simp at h; simp [h]

example : named (splitDots "B.E") (.sub none base) = none := by decide

/-! ### C06 dict round trip -/

/-- Content of a config with all internal state reset: what "the same options and values" means. -/
def strip : Tree → Tree
  | .nil => .nil
  | .leaf k l r => .leaf k l (strip r)
  | .sub k _ es r => .sub k (some .fresh) (strip es) (strip r)

/-- All leaves have permitted types and no plain dict occurs. -/
def Permitted : Tree → Prop
  | .nil => True
  | .leaf _ l r => l.ty ∈ [PyType.tuple, .list, .str, .int, .float, .bool] ∧ Permitted r
  | .sub _ kd es r => kd.isSome = true ∧ Permitted es ∧ Permitted r

theorem valid_of_ty {l : Leaf} (h : l.ty ∈ [PyType.tuple, .list, .str, .int, .float, .bool]) : l.valid = true := by
  rcases l with ⟨ty, pl⟩; cases ty <;> simp_all [Leaf.valid]

/-- **C06 (a)**. Every config whose leaves have permitted types converts to plain dicts (what `dump` serialises), and
building a `CfgNode` from that dict gives a config with the same options and values. -/
theorem dict_round_trip (t : Tree) (h : Permitted t) :
    ∃ d, toDict t = .ok d ∧ build d = .ok (strip t) := by
  induction t with
  | nil => exact ⟨.nil, rfl, rfl⟩
  | leaf k l r ih =>
    obtain ⟨d, h1, h2⟩ := ih h.2
    exact ⟨.leaf k l d, by simp [toDict, valid_of_ty h.1, h1, bind, Except.bind],
      by simp [build, valid_of_ty h.1, h2, bind, Except.bind, strip]⟩
  | sub k kd es r ihe ih =>
    obtain ⟨hk, he, hr⟩ := h
    obtain ⟨d, h1, h2⟩ := ih hr
    obtain ⟨e, h3, h4⟩ := ihe he
    cases kd with
    | none => simp at hk
    | some f =>
      exact ⟨.sub k none e d, by simp [toDict, h1, h3, bind, Except.bind],
        by simp [build, h2, h4, bind, Except.bind, strip]⟩

/-- **C06 (b)**. Stripping internal state changes no option value: every leaf is found at the same path. -/
theorem strip_same_values (t : Tree) (h : Permitted t) (f g : Flags) (p : List String) (l : Leaf) :
    at_ p (.sub (some f) t) = some (.leaf l) ↔ at_ p (.sub (some g) (strip t)) = some (.leaf l) := by
  have key : ∀ (t : Tree), Permitted t → ∀ k, (strip t).get k = (t.get k).map (fun v => match v with
      | .leaf l => .leaf l
      | .sub _ es => .sub (some .fresh) (strip es)) ∧
      (∀ kd es, t.get k = some (.sub kd es) → kd.isSome = true ∧ Permitted es) := by
    intro t
    induction t with
    | nil => intro _ k; simp [strip, Tree.get]
    | leaf k' l' r ih =>
      intro h k
      by_cases hk : k' = k
      · simp [strip, Tree.get, hk]
      · simpa [strip, Tree.get, hk] using ih h.2 k
    | sub k' kd es r _ ih =>
      intro h k
      by_cases hk : k' = k
      · simp only [strip, Tree.get, hk, if_true, Option.map_some, true_and]
        intro kd' es' he; simp at he; obtain ⟨h1, h2⟩ := he; subst h1 h2; exact ⟨h.1, h.2.1⟩
      · simpa [strip, Tree.get, hk] using ih h.2.2 k
  induction p generalizing t f g with
  | nil => simp [at_]
  | cons k q ih =>
    rw [at_cons_node, at_cons_node, (key t h k).1]
    cases hg : t.get k with
    | none => simp
    | some c =>
      cases c with
      | leaf l' => cases q <;> simp [at_]
      | sub kd es =>
        obtain ⟨h1, h2⟩ := (key t h k).2 kd es hg
        cases kd with
        | none => simp at h1
        | some cf => simpa using ih es h2 cf .fresh

/-- All leaf values occurring in a nested dict, at any depth. -/
def leaves : Tree → List Leaf
  | .nil => []
  | .leaf _ l r => l :: leaves r
  | .sub _ _ es r => leaves es ++ leaves r

theorem build_ok_iff (t : Tree) :
    ((∀ l ∈ leaves t, l.valid = true) → build t = .ok (strip t)) ∧
    ((∃ l ∈ leaves t, l.valid = false) → build t = .error .assertion) := by
  induction t with
  | nil => simp [leaves, build, strip]
  | leaf k l r ih =>
    constructor
    · intro h
      have hl := h l (by simp [leaves])
      have hr := ih.1 (fun x hx => h x (by simp [leaves, hx]))
      simp [build, hl, hr, strip, bind, Except.bind]
    · rintro ⟨x, hx, hv⟩
      by_cases hl : l.valid = true
      · have hxr : x ∈ leaves r := by
          simp only [leaves, List.mem_cons] at hx
          rcases hx with rfl | hx
          · rw [hl] at hv; simp at hv
          · exact hx
        simp [build, hl, ih.2 ⟨x, hxr, hv⟩, bind, Except.bind]
      · simp [build, hl]
  | sub k kd es r ihe ih =>
    constructor
    · intro h
      have he := ihe.1 (fun x hx => h x (by simp [leaves, hx]))
      have hr := ih.1 (fun x hx => h x (by simp [leaves, hx]))
      simp [build, he, hr, strip, bind, Except.bind]
    · rintro ⟨x, hx, hv⟩
      simp only [leaves, List.mem_append] at hx
      by_cases hes : ∃ l ∈ leaves es, l.valid = false
      · simp [build, ihe.2 hes, bind, Except.bind]
      · have he := ihe.1 (fun y hy => by
          cases hyv : y.valid with
          | true => rfl
          | false => exact absurd ⟨y, hy, hyv⟩ hes)
        have hxr : x ∈ leaves r := by
          rcases hx with hx | hx
          · exact absurd ⟨x, hx, hv⟩ hes
          · exact hx
        simp [build, he, ih.2 ⟨x, hxr, hv⟩, bind, Except.bind]

/-- **C06 (c)**. `CfgNode(d)` succeeds exactly when every leaf of the nested dict has a permitted type — the result then
has the options and values of `d` — and raises `AssertionError` otherwise. -/
theorem construct_iff (t : Tree) (na : Bool) :
    ((∀ l ∈ leaves t, l.ty ∈ [PyType.tuple, .list, .str, .int, .float, .bool]) →
      construct t na = .ok (.sub (some ⟨false, na, [], []⟩) (strip t))) ∧
    ((∃ l ∈ leaves t, l.ty ∉ [PyType.tuple, .list, .str, .int, .float, .bool]) →
      construct t na = .error .assertion) := by
  have hv : ∀ l : Leaf, (l.valid = true ↔ l.ty ∈ [PyType.tuple, .list, .str, .int, .float, .bool]) := by
    rintro ⟨ty, pl⟩; cases ty <;> simp [Leaf.valid]
  constructor
  · intro h
    have := (build_ok_iff t).1 (fun l hl => (hv l).2 (h l hl))
    simp [construct, this, bind, Except.bind, Flags.fresh]
  · rintro ⟨l, hl, hn⟩
    have := (build_ok_iff t).2 ⟨l, hl, by
      cases h : l.valid with
      | false => rfl
      | true => exact absurd ((hv l).1 h) hn⟩
    simp [construct, this, bind, Except.bind]

example : Permitted base ∧ (∀ l ∈ leaves base, l.ty ∈ [PyType.tuple, .list, .str, .int, .float, .bool]) ∧
    (∃ l ∈ leaves (.sub "X" none (.leaf "Y" ⟨.none, ""⟩ .nil) base),
      l.ty ∉ [PyType.tuple, .list, .str, .int, .float, .bool]) := by
  refine ⟨by simp [base, Permitted], by decide, by decide⟩

end Verif.Cfg
