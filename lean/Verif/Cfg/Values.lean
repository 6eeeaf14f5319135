import Verif.Cfg.Props
/-!
Specification of the two value conversions of a merge (decoding, coercion) and of dotted keys, independent of the model's
helpers, and properties C03, C04, C05 restated with it.
-/
namespace Verif.Cfg

/-! ### Specification -/

/-- The value a merge argument stands for (docstring of `_decode_cfg_value`): a string that is a Python literal stands for
that literal, any other string for itself, a non-string leaf for itself, a dict for the `CfgNode` with the same content. -/
inductive Denotes (lit : String → LitRes) : Val → Val → Prop
  | literal (s : String) (l : Leaf) : lit s = .leaf l → Denotes lit (.leaf ⟨.str, s⟩) (.leaf l)
  | dictLiteral (s : String) (es : Tree) : lit s = .dict es → Denotes lit (.leaf ⟨.str, s⟩) (.sub none es)
  | plain (s : String) : lit s = .pass → Denotes lit (.leaf ⟨.str, s⟩) (.leaf ⟨.str, s⟩)
  | other (l : Leaf) : l.ty ≠ .str → Denotes lit (.leaf l) (.leaf l)
  | dict (kd : Option Flags) (es : Tree) :
      (∀ l ∈ leaves es, l.ty ∈ [PyType.tuple, .list, .str, .int, .float, .bool]) →
      Denotes lit (.sub kd es) (.sub (some .fresh) (strip es))

/-- `StoredAs new declared stored`: a new value is stored as is if it has the type of the declared one; a tuple offered to a list
option is stored as a list and vice versa; nothing else may be stored. -/
inductive StoredAs : Val → Val → Val → Prop
  | same (v old : Val) : v.ty = old.ty → StoredAs v old v
  | toList (x y : String) : StoredAs (.leaf ⟨.tuple, x⟩) (.leaf ⟨.list, y⟩) (.leaf ⟨.list, x⟩)
  | toTuple (x y : String) : StoredAs (.leaf ⟨.list, x⟩) (.leaf ⟨.tuple, y⟩) (.leaf ⟨.tuple, x⟩)

/-- `key` is the list of components of the dotted key `s`. -/
def IsPath (s : String) (key : List String) : Prop :=
  key ≠ [] ∧ (∀ k ∈ key, '.' ∉ k.toList) ∧ ".".intercalate key = s

/-! ### The conversions meet the specification -/

/-- Decoding yields exactly the denoted value; otherwise it raises. -/
theorem decode_iff (lit : String → LitRes) (v w : Val) : decode lit v = .ok w ↔ Denotes lit v w := by
  cases v with
  | leaf l =>
    rcases l with ⟨ty, s⟩
    by_cases ht : ty = .str
    · subst ht
      cases hl : lit s with
      | leaf l' =>
        simp only [decode, hl, if_true]
        constructor
        · rintro h; cases h; exact .literal s l' hl
        · intro h; cases h <;> simp_all
      | dict es =>
        simp only [decode, hl, if_true]
        constructor
        · rintro h; cases h; exact .dictLiteral s es hl
        · intro h; cases h <;> simp_all
      | pass =>
        simp only [decode, hl, if_true]
        constructor
        · rintro h; cases h; exact .plain s hl
        · intro h; cases h <;> simp_all
      | raise =>
        simp only [decode, hl, if_true]
        constructor
        · intro h; cases h
        · intro h; cases h <;> simp_all
    · simp only [decode, ht, if_false]
      constructor
      · intro h; cases h; exact .other _ ht
      · intro h; cases h <;> simp_all
  | sub kd es =>
    have hv : ∀ l : Leaf, l.valid = false → l.ty ∉ [PyType.tuple, .list, .str, .int, .float, .bool] := by
      rintro ⟨ty, pl⟩; cases ty <;> simp [Leaf.valid]
    constructor
    · intro h
      by_cases hp : ∀ l ∈ leaves es, l.ty ∈ [PyType.tuple, .list, .str, .int, .float, .bool]
      · have hb := (build_ok_iff es).1 (fun l hl => valid_of_ty (hp l hl))
        simp only [decode, hb, bind, Except.bind, Except.ok.injEq] at h
        subst h; exact .dict kd es hp
      · have hb := (build_ok_iff es).2 (by
          simp only [Classical.not_forall] at hp
          obtain ⟨l, hl, hn⟩ := hp
          refine ⟨l, hl, ?_⟩
          cases hlv : l.valid with
          | false => rfl
          | true =>
            exfalso; apply hn
            rcases l with ⟨ty, pl⟩; cases ty <;> simp_all [Leaf.valid])
        simp [decode, hb, bind, Except.bind] at h
    · intro h
      cases h with
      | dict _ _ hp =>
        have hb := (build_ok_iff es).1 (fun l hl => valid_of_ty (hp l hl))
        simp [decode, hb, bind, Except.bind]

/-- Coercion stores exactly what the specification allows; otherwise it raises `ValueError`. -/
theorem coerce_iff (v old w : Val) : coerce v old = .ok w ↔ StoredAs v old w := by
  constructor
  · intro h
    unfold coerce at h
    split at h
    · rename_i ht; cases h; exact .same _ _ ht
    · split at h
      · rename_i r o _
        rcases r with ⟨rt, rp⟩; rcases o with ⟨ot, op⟩
        split at h
        · rename_i hc; cases h; obtain ⟨rfl, rfl⟩ := hc; exact .toList _ _
        · split at h
          · rename_i hc; cases h; obtain ⟨rfl, rfl⟩ := hc; exact .toTuple _ _
          · cases h
      · cases h
  · intro h
    cases h with
    | same _ _ ht => simp [coerce, ht]
    | toList => simp [coerce, Val.ty]
    | toTuple => simp [coerce, Val.ty]

theorem coerce_error (v old : Val) (e : Err) (h : coerce v old = .error e) : e = .valueError := by
  unfold coerce at h
  repeat' split at h
  all_goals first | (cases h; done) | (cases h; rfl)

theorem splitChars_ne (l : List Char) : splitChars l ≠ [] := by
  cases l with
  | nil => simp [splitChars]
  | cons c cs => unfold splitChars; repeat' split
                 all_goals simp

theorem splitChars_nodot (l : List Char) : ∀ w ∈ splitChars l, '.' ∉ w := by
  induction l with
  | nil => simp [splitChars]
  | cons c cs ih =>
    unfold splitChars
    split
    · intro w hw; rcases List.mem_cons.1 hw with rfl | hw
      · simp
      · exact ih w hw
    · rename_i hc
      split
      · simp [Ne.symm hc]
      · rename_i w ws hs
        rw [hs] at ih
        intro x hx; rcases List.mem_cons.1 hx with rfl | hx
        · simp only [List.mem_cons, not_or]; exact ⟨Ne.symm hc, ih w (by simp)⟩
        · exact ih x (by simp [hx])

theorem intercalate_splitChars (l : List Char) : ['.'].intercalate (splitChars l) = l := by
  induction l with
  | nil => simp [splitChars]
  | cons c cs ih =>
    unfold splitChars
    split
    · rename_i hc
      rw [List.intercalate_cons_of_ne_nil (splitChars_ne cs), ih, hc]; simp
    · cases hs : splitChars cs with
      | nil => exact absurd hs (splitChars_ne cs)
      | cons w ws =>
        rw [hs] at ih
        simp only
        cases ws with
        | nil => rw [List.intercalate_singleton] at ih ⊢; rw [ih]
        | cons x xs => rw [List.intercalate_cons_cons] at ih ⊢; rw [← ih]; simp

theorem splitChars_append_dot (w : List Char) (hw : '.' ∉ w) (r : List Char) :
    splitChars (w ++ '.' :: r) = w :: splitChars r := by
  induction w with
  | nil => simp [splitChars]
  | cons c cs ih =>
    simp only [List.mem_cons, not_or] at hw
    simp [splitChars, ih hw.2, Ne.symm hw.1]

theorem splitChars_single (w : List Char) (hw : '.' ∉ w) : splitChars w = [w] := by
  induction w with
  | nil => simp [splitChars]
  | cons c cs ih =>
    simp only [List.mem_cons, not_or] at hw
    simp [splitChars, ih hw.2, Ne.symm hw.1]

theorem splitChars_intercalate : ∀ (ws : List (List Char)), ws ≠ [] → (∀ w ∈ ws, '.' ∉ w) →
    splitChars (['.'].intercalate ws) = ws
  | [], h, _ => absurd rfl h
  | [w], _, h => by rw [List.intercalate_singleton]; exact splitChars_single w (h w (by simp))
  | w :: x :: xs, _, h => by
    rw [List.intercalate_cons_cons]
    simp only [List.append_assoc, List.singleton_append]
    rw [splitChars_append_dot w (h w (by simp)),
      splitChars_intercalate (x :: xs) (by simp) (fun y hy => h y (by simp [hy]))]

/-- Splitting a key at the dots gives its components, and only them. -/
theorem splitDots_iff (s : String) (key : List String) : splitDots s = key ↔ IsPath s key := by
  have hmm : ∀ l : List String, (l.map String.toList).map String.ofList = l := by
    intro l; simp [Function.comp_def]
  constructor
  · rintro rfl
    refine ⟨by simp [splitDots, splitChars_ne], ?_, ?_⟩
    · intro k hk
      simp only [splitDots, List.mem_map] at hk
      obtain ⟨w, hw, rfl⟩ := hk
      simpa using splitChars_nodot _ w hw
    · apply String.toList_injective
      rw [String.toList_intercalate]
      simp only [splitDots, List.map_map, Function.comp_def, String.toList_ofList, List.map_id']
      exact intercalate_splitChars _
  · rintro ⟨h1, h2, rfl⟩
    simp only [splitDots, String.toList_intercalate]
    have := splitChars_intercalate (key.map String.toList) (by simpa using h1)
      (by intro w hw; obtain ⟨k, hk, rfl⟩ := List.mem_map.1 hw; exact h2 k hk)
    rw [show ".".toList = ['.'] from rfl, this, hmm]

/-! ### The properties -/

/-- **C04**. After a successful `merge_from_other_cfg` each named leaf holds the value the overriding leaf stands for, stored with
the declared type, and each option that is not named is unchanged. -/
theorem merge_overrides (lit : String → LitRes) (f af : Flags) (es es' a : Tree) (ha : a.Distinct)
    (hok : mergeFromOther lit f es (.sub (some af) a) = (es', none)) (p : List String) (old : Leaf)
    (hp : at_ p (.sub (some f) es) = some (.leaf old)) :
    (∀ l, named p (.sub (some af) a) = some (.leaf l) →
      ∃ v v', Denotes lit (.leaf l) v ∧ StoredAs v (.leaf old) v' ∧ at_ p (.sub (some f) es') = some v') ∧
    (named p (.sub (some af) a) = none → at_ p (.sub (some f) es') = some (.leaf old)) := by
  obtain ⟨h1, h2⟩ := merge_overrides_exactly_named lit f af es es' a ha hok p old hp
  refine ⟨fun l hl => ?_, h2⟩
  obtain ⟨v, v', d, c, r⟩ := h1 l hl
  exact ⟨v, v', (decode_iff ..).1 d, (coerce_iff ..).1 c, r⟩

theorem mergeEnts_adds_new (lit : String → LitRes) (root : Flags) (a : Tree) :
    ∀ (pre : List String) (bf : Flags) (b b' : Tree), a.Distinct → mergeEnts lit root pre a bf b = (b', none) →
      ∀ (p : List String) (k : String) (nf : Flags) (nes : Tree) (v : Val),
        at_ p (.sub (some bf) b) = some (.sub (some nf) nes) → nf.newAllowed = true → nes.get k = none →
        named (p ++ [k]) (.sub none a) = some v →
        ∃ w, decode lit v = .ok w ∧ at_ (p ++ [k]) (.sub (some bf) b') = some w := by
  -- what is stored under a top-level key that the receiver lacks
  have fin : ∀ (rest : Tree) (pre : List String) (bf : Flags) (b b' : Tree) (k : String) (w : Val),
      k ∉ rest.keys → mergeEnts lit root pre rest bf (b.set k w) = (b', none) →
      at_ [k] (.sub (some bf) b') = some w := by
    intro rest pre bf b b' k w hk hok
    have := mergeEnts_get_other lit root rest pre bf (b.set k w) k hk
    rw [hok] at this
    rw [at_cons_node, this, get_set_self]; rfl
  induction a with
  | nil =>
    intro pre bf b b' _ _ p k nf nes v _ _ _ hn
    cases p <;> simp [named, Tree.get] at hn
  | leaf k0 l0 rest ih =>
    intro pre bf b b' hd hok p k nf nes v hb hnew hmiss hn
    simp only [Tree.Distinct] at hd
    cases p with
    | nil =>
      simp only [at_, Option.some.injEq, Val.sub.injEq] at hb
      obtain ⟨h1, h2⟩ := hb; subst h1 h2
      by_cases hkk : k0 = k
      · subst hkk
        simp only [List.nil_append, named, Tree.get, if_true, Option.some.injEq] at hn
        subst hn
        unfold mergeEnts at hok
        cases hdec : decode lit (.leaf l0) with
        | error e => simp [hdec] at hok
        | ok w =>
          simp only [hdec, hmiss, hnew, if_true] at hok
          exact ⟨w, rfl, fin rest pre bf b b' k0 w hd.1 hok⟩
      · have hn' : named ([] ++ [k]) (.sub none rest) = some v := by
          simpa [named, Tree.get, hkk] using hn
        unfold mergeEnts at hok
        repeat' split at hok
        all_goals first
          | (simp at hok; done)
          | exact ih pre bf b b' hd.2 hok [] k bf b v rfl hnew hmiss hn'
          | exact ih pre bf _ b' hd.2 hok [] k bf _ v rfl hnew (by rw [get_set_ne hkk]; exact hmiss) hn'
    | cons k1 q =>
      by_cases hkk : k0 = k1
      · subst hkk
        cases q <;> simp [named, Tree.get] at hn
      · have hn' : named (k1 :: q ++ [k]) (.sub none rest) = some v := by
          simpa [named, Tree.get, hkk] using hn
        unfold mergeEnts at hok
        repeat' split at hok
        all_goals first
          | (simp at hok; done)
          | exact ih pre bf b b' hd.2 hok (k1 :: q) k nf nes v hb hnew hmiss hn'
          | exact ih pre bf _ b' hd.2 hok (k1 :: q) k nf nes v
              (by rw [at_cons_node] at hb ⊢; rw [get_set_ne hkk]; exact hb) hnew hmiss hn'
  | sub k0 kd es rest ihe ih =>
    intro pre bf b b' hd hok p k nf nes v hb hnew hmiss hn
    simp only [Tree.Distinct] at hd
    cases p with
    | nil =>
      simp only [at_, Option.some.injEq, Val.sub.injEq] at hb
      obtain ⟨h1, h2⟩ := hb; subst h1 h2
      by_cases hkk : k0 = k
      · subst hkk
        simp only [List.nil_append, named, Tree.get, if_true, Option.some.injEq] at hn
        subst hn
        unfold mergeEnts at hok
        cases hdec : decode lit (.sub kd es) with
        | error e => simp [hdec] at hok
        | ok w =>
          simp only [hdec, hmiss, hnew, if_true] at hok
          exact ⟨w, rfl, fin rest pre bf b b' k0 w hd.1 hok⟩
      · have hn' : named ([] ++ [k]) (.sub none rest) = some v := by
          simpa [named, Tree.get, hkk] using hn
        unfold mergeEnts at hok
        repeat' split at hok
        all_goals first
          | (simp at hok; done)
          | exact ih pre bf b b' hd.2.2 hok [] k bf b v rfl hnew hmiss hn'
          | exact ih pre bf _ b' hd.2.2 hok [] k bf _ v rfl hnew (by rw [get_set_ne hkk]; exact hmiss) hn'
    | cons k1 q =>
      by_cases hkk : k0 = k1
      · subst hkk
        have hn' : named (q ++ [k]) (.sub none es) = some v := by
          cases q with
          | nil => simpa [named, Tree.get] using hn
          | cons k2 q => simpa [named, Tree.get] using hn
        rw [at_cons_node] at hb
        cases hg : b.get k0 with
        | none => simp [hg] at hb
        | some c =>
          simp only [hg, Option.bind_some] at hb
          unfold mergeEnts at hok
          cases hdec : decode lit (.sub kd es) with
          | error e => simp [hdec] at hok
          | ok v0 =>
            simp only [hdec, hg] at hok
            cases c with
            | leaf l => simp at hok
            | sub ckd ces =>
              cases ckd with
              | none => simp at hok
              | some cf =>
                simp only at hok
                cases he : mergeEnts lit root (pre ++ [k0]) es cf ces with
                | mk bes' err =>
                  cases err with
                  | some e => simp [he] at hok
                  | none =>
                    simp only [he] at hok
                    obtain ⟨w, h1, h2⟩ := ihe (pre ++ [k0]) cf ces bes' hd.2.1 he q k nf nes v hb hnew hmiss hn'
                    refine ⟨w, h1, ?_⟩
                    have := mergeEnts_get_other lit root rest pre bf (b.set k0 (.sub (some cf) bes')) k0 hd.1
                    rw [hok] at this
                    rw [List.cons_append, at_cons_node, this, get_set_self]
                    exact h2
      · have hn' : named (k1 :: q ++ [k]) (.sub none rest) = some v := by
          simpa [named, Tree.get, hkk] using hn
        unfold mergeEnts at hok
        repeat' split at hok
        all_goals first
          | (simp at hok; done)
          | exact ih pre bf b b' hd.2.2 hok (k1 :: q) k nf nes v hb hnew hmiss hn'
          | exact ih pre bf _ b' hd.2.2 hok (k1 :: q) k nf nes v
              (by rw [at_cons_node] at hb ⊢; rw [get_set_ne hkk]; exact hb) hnew hmiss hn'

/-- **C04 (new options)**. Where the receiving node allows new options and lacks the named one, a successful merge adds it with the
value the overriding entry stands for. -/
theorem merge_adds_new (lit : String → LitRes) (f af : Flags) (es es' a : Tree) (ha : a.Distinct)
    (hok : mergeFromOther lit f es (.sub (some af) a) = (es', none))
    (p : List String) (k : String) (nf : Flags) (nes : Tree) (v : Val)
    (hnode : at_ p (.sub (some f) es) = some (.sub (some nf) nes)) (hnew : nf.newAllowed = true)
    (hmiss : nes.get k = none) (hnamed : named (p ++ [k]) (.sub (some af) a) = some v) :
    ∃ w, Denotes lit v w ∧ at_ (p ++ [k]) (.sub (some f) es') = some w := by
  have hn' : named (p ++ [k]) (.sub none a) = some v := by
    cases p <;> simpa [named] using hnamed
  obtain ⟨w, h1, h2⟩ := mergeEnts_adds_new lit f a [] f es es' ha hok p k nf nes v hnode hnew hmiss hn'
  exact ⟨w, (decode_iff ..).1 h1, h2⟩

/-- Non-vacuity: a new option `N = 1` (given as the string "1") merged into a node that allows new options. -/
example : ∃ es', mergeFromOther lit0 { Flags.fresh with newAllowed := true } base
      (.sub (some .fresh) (.leaf "N" ⟨.str, "1"⟩ .nil)) = (es', none) ∧ base.get "N" = none ∧
    at_ ["N"] (.sub (some .fresh) es') = some (.leaf ⟨.int, "1"⟩) :=
  ⟨_, by rfl, by decide, by decide⟩

/-- What `assignPath` needs and does, as an equivalence. -/
theorem assignPath_ok_iff (lit : String → LitRes) (v : Val) (key : List String) (hk : key ≠ []) (es : Tree) :
    (∃ es', assignPath lit v key es = .ok es') ↔
      ∃ old v' v'', named key (.sub none es) = some old ∧ Denotes lit v v' ∧ StoredAs v' old v'' := by
  constructor
  · rintro ⟨es', h⟩
    obtain ⟨⟨old, v', v'', h1, h2, h3, _⟩, _⟩ := assignPath_spec lit v key es es' h
    exact ⟨old, v', v'', h1, (decode_iff ..).1 h2, (coerce_iff ..).1 h3⟩
  · rintro ⟨old, v', v'', h1, h2, h3⟩
    have h2 := (decode_iff ..).2 h2
    have h3 := (coerce_iff ..).2 h3
    induction key generalizing es with
    | nil => exact absurd rfl hk
    | cons k ks ih =>
      cases ks with
      | nil =>
        cases hg : es.get k with
        | none => simp [named, hg] at h1
        | some o =>
          simp only [named, hg] at h1
          cases h1
          exact ⟨_, by simp [assignPath, hg, h2, h3, bind, Except.bind]; rfl⟩
      | cons k' ks =>
        cases hg : es.get k with
        | none => simp [named, hg] at h1
        | some o =>
          cases o with
          | leaf l => simp [named, hg] at h1
          | sub kd ces =>
            have h1' : named (k' :: ks) (.sub none ces) = some old := by simpa [named, hg] using h1
            obtain ⟨es', he⟩ := ih (by simp) ces h1'
            exact ⟨_, by simp [assignPath, hg, he, bind, Except.bind]; rfl⟩

/-- **C05**. One pair `(full_key, value)` with a key that is neither deprecated nor renamed: the call succeeds exactly when the dotted
path leads to an existing option and the value stands for something storable there; then that option holds the stored value
and every path unrelated to it is unchanged. Otherwise it raises and nothing changes. -/
theorem mergeList_pair_spec (lit : String → LitRes) (f : Flags) (es : Tree) (fullKey : String) (key : List String) (v : Val)
    (hkey : IsPath fullKey key) (hdep : fullKey ∉ f.deprecated) (hren : fullKey ∉ f.renamed) :
    ((∃ old v' v'', named key (.sub none es) = some old ∧ Denotes lit v v' ∧ StoredAs v' old v'') →
      ∃ es' old v' v'', mergeFromList lit f es [.leaf ⟨.str, fullKey⟩, v] = (es', none) ∧
        named key (.sub none es) = some old ∧ Denotes lit v v' ∧ StoredAs v' old v'' ∧
        named key (.sub none es') = some v'' ∧
        ∀ p, ¬ key <+: p → ¬ p <+: key → named p (.sub none es') = named p (.sub none es)) ∧
    ((¬ ∃ old v' v'', named key (.sub none es) = some old ∧ Denotes lit v v' ∧ StoredAs v' old v'') →
      ∃ e, mergeFromList lit f es [.leaf ⟨.str, fullKey⟩, v] = (es, some e)) := by
  have hs := (splitDots_iff fullKey key).2 hkey
  have hrun : mergeFromList lit f es [.leaf ⟨.str, fullKey⟩, v] =
      (match assignPath lit v key es with
        | .error e => (es, some e)
        | .ok es' => (es', none)) := by
    simp only [mergeFromList, List.length_cons, List.length_nil, listLoop, listStep]
    simp only [List.contains_iff_mem, hdep, hren, hs, if_false, if_true]
    cases assignPath lit v key es <;> rfl
  have hiff := assignPath_ok_iff lit v key hkey.1 es
  rw [hrun]
  constructor
  · intro h
    obtain ⟨es', he⟩ := hiff.2 h
    obtain ⟨⟨old, v', v'', h1, h2, h3, h4⟩, h5⟩ := assignPath_spec lit v key es es' he
    exact ⟨es', old, v', v'', by rw [he], h1, (decode_iff ..).1 h2, (coerce_iff ..).1 h3, h4, h5⟩
  · intro h
    cases he : assignPath lit v key es with
    | ok es' => exact absurd (hiff.1 ⟨es', he⟩) h
    | error e => exact ⟨e, rfl⟩

/-- Non-vacuity of C05: `merge_from_list(["B.C", "(1,2)"])` on `base`. -/
example : IsPath "B.C" ["B", "C"] ∧ "B.C" ∉ Flags.fresh.deprecated ∧ "B.C" ∉ Flags.fresh.renamed ∧
    named ["B", "C"] (.sub none base) = some (.leaf ⟨.list, "3"⟩) ∧
    Denotes lit0 (.leaf ⟨.str, "(1,2)"⟩) (.leaf ⟨.tuple, "1,2"⟩) ∧
    StoredAs (.leaf ⟨.tuple, "1,2"⟩) (.leaf ⟨.list, "3"⟩) (.leaf ⟨.list, "1,2"⟩) :=
  ⟨(splitDots_iff ..).1 (by decide), by decide, by decide, by decide, .literal _ _ rfl, .toList _ _⟩

/-- **C03 (e)**. Only a `CfgNode` may be merged: a plain dict or a leaf raises `AssertionError` and changes nothing. -/
theorem merge_rejects_non_node (lit : String → LitRes) (f : Flags) (es : Tree) (other : Val)
    (h : ∀ af a, other ≠ .sub (some af) a) : mergeFromOther lit f es other = (es, some .assertion) := by
  cases other with
  | leaf l => rfl
  | sub kd a => cases kd with
    | none => rfl
    | some af => exact absurd rfl (h af a)

example : ∀ af a, Val.sub none base ≠ .sub (some af) a := by intro af a h; cases h

/-- **C03 (d)**. Registering a key as deprecated makes merges ignore it; registering one as renamed makes `merge_from_list` reject
it; registering twice raises `AssertionError`; nothing else about the config changes. -/
theorem registered_keys (f : Flags) (key : String) :
    (∀ f', registerDeprecated key f = .ok f' →
      f'.immutable = f.immutable ∧ f'.newAllowed = f.newAllowed ∧ f'.renamed = f.renamed ∧
      (∀ k, k ∈ f'.deprecated ↔ k = key ∨ k ∈ f.deprecated) ∧
      registerDeprecated key f' = .error .assertion ∧
      ∀ (lit : String → LitRes) (es : Tree) (v : Val), mergeFromList lit f' es [.leaf ⟨.str, key⟩, v] = (es, none)) ∧
    (∀ f', registerRenamed key f = .ok f' →
      f'.immutable = f.immutable ∧ f'.newAllowed = f.newAllowed ∧ f'.deprecated = f.deprecated ∧
      (∀ k, k ∈ f'.renamed ↔ k = key ∨ k ∈ f.renamed) ∧
      registerRenamed key f' = .error .assertion ∧
      ∀ (lit : String → LitRes) (es : Tree) (v : Val), key ∉ f.deprecated →
        mergeFromList lit f' es [.leaf ⟨.str, key⟩, v] = (es, some .keyError)) ∧
    (registerDeprecated key f = .error .assertion ↔ key ∈ f.deprecated) ∧
    (registerRenamed key f = .error .assertion ↔ key ∈ f.renamed) := by
  refine ⟨?_, ?_, ?_, ?_⟩
  · intro f' h
    unfold registerDeprecated at h
    split at h
    · cases h
    · cases h
      refine ⟨rfl, rfl, rfl, by intro k; simp [or_comm], by simp [registerDeprecated], ?_⟩
      intro lit es v
      exact (mergeList_deprecated_renamed lit _ es key v).1 (by simp)
  · intro f' h
    unfold registerRenamed at h
    split at h
    · cases h
    · cases h
      refine ⟨rfl, rfl, rfl, by intro k; simp [or_comm], by simp [registerRenamed], ?_⟩
      intro lit es v hd
      exact (mergeList_deprecated_renamed lit _ es key v).2 hd (by simp)
  · unfold registerDeprecated; split <;> simp_all
  · unfold registerRenamed; split <;> simp_all

example : ∃ f', registerDeprecated "OLD.X" .fresh = .ok f' ∧ registerRenamed "OLD.Y" f' ≠ .error .assertion :=
  ⟨_, rfl, by decide⟩

end Verif.Cfg
