import Verif.Cfg.Model
/-! Specification vocabulary and helper lemmas for the config model. -/
namespace Verif.Cfg

/-! ## Specification vocabulary -/

/-- What `cfg.A.B…` evaluates to (attribute access goes through nested `CfgNode`s only). -/
def at_ : List String → Val → Option Val
  | [], v => some v
  | k :: ks, .sub (some _) es =>
    match es.get k with
    | some c => at_ ks c
    | none => none
  | _ :: _, _ => none

/-- What the overriding tree says at a path (its nested values may be plain dicts or `CfgNode`s). -/
def named : List String → Val → Option Val
  | [], v => some v
  | k :: ks, .sub _ es =>
    match es.get k with
    | some c => named ks c
    | none => none
  | _ :: _, _ => none

/-- Dictionary keys are distinct at every level (always true of Python dicts). -/
def Tree.Distinct : Tree → Prop
  | .nil => True
  | .leaf k _ rest => k ∉ rest.keys ∧ rest.Distinct
  | .sub k _ es rest => k ∉ rest.keys ∧ es.Distinct ∧ rest.Distinct

/-- No node below (or at) this one accepts new keys. -/
def Tree.NoNew : Tree → Prop
  | .nil => True
  | .leaf _ _ rest => rest.NoNew
  | .sub _ none _ rest => rest.NoNew
  | .sub _ (some f) es rest => f.newAllowed = false ∧ es.NoNew ∧ rest.NoNew

/-- `new` has the Python type `old` had, and if `old` is a `CfgNode` then `new` is one with the same internal flags and
the same option names (old names first, new ones only if new keys are allowed). -/
def SameShape (old new : Val) : Prop :=
  new.ty = old.ty ∧
  ∀ f es, old = .sub (some f) es →
    ∃ es', new = .sub (some f) es' ∧ es.keys <+: es'.keys ∧ (f.newAllowed = false → es'.keys = es.keys)

/-! ## Dictionary lemmas -/

@[simp] theorem get_cons_self (k : String) (v : Val) (t : Tree) : (Tree.cons k v t).get k = some v := by
  cases v <;> simp [Tree.cons, Tree.get]

@[simp] theorem get_cons_ne {k k' : String} (h : k ≠ k') (v : Val) (t : Tree) :
    (Tree.cons k v t).get k' = t.get k' := by
  cases v <;> simp [Tree.cons, Tree.get, h]

@[simp] theorem keys_cons (k : String) (v : Val) (t : Tree) : (Tree.cons k v t).keys = k :: t.keys := by
  cases v <;> simp [Tree.cons, Tree.keys]

@[simp] theorem get_set_self (k : String) (v : Val) (t : Tree) : (t.set k v).get k = some v := by
  induction t with
  | nil => simp [Tree.set]
  | leaf k' l r ih => by_cases h : k' = k <;> simp [Tree.set, h, Tree.get, ih]
  | sub k' kd es r _ ih => by_cases h : k' = k <;> simp [Tree.set, h, Tree.get, ih]

theorem get_set_ne {k k' : String} (h : k ≠ k') (v : Val) (t : Tree) : (t.set k v).get k' = t.get k' := by
  induction t with
  | nil => simp [Tree.set, h, Tree.get]
  | leaf k'' l r ih =>
    by_cases h1 : k'' = k
    · subst h1; simp [Tree.set, h, Tree.get]
    · simp [Tree.set, h1, Tree.get, ih]
  | sub k'' kd es r _ ih =>
    by_cases h1 : k'' = k
    · subst h1; simp [Tree.set, h, Tree.get]
    · simp [Tree.set, h1, Tree.get, ih]

theorem get_none_iff (k : String) (t : Tree) : t.get k = none ↔ k ∉ t.keys := by
  induction t with
  | nil => simp [Tree.get, Tree.keys]
  | leaf k' l r ih =>
    by_cases h : k' = k
    · simp [Tree.get, Tree.keys, h]
    · have h' : ¬ k = k' := fun e => h e.symm
      simp [Tree.get, Tree.keys, h, h', ih]
  | sub k' kd es r _ ih =>
    by_cases h : k' = k
    · simp [Tree.get, Tree.keys, h]
    · have h' : ¬ k = k' := fun e => h e.symm
      simp [Tree.get, Tree.keys, h, h', ih]

theorem keys_set_mem {k : String} {t : Tree} {v0 : Val} (h : t.get k = some v0) (v : Val) :
    (t.set k v).keys = t.keys := by
  induction t with
  | nil => simp [Tree.get] at h
  | leaf k' l r ih =>
    by_cases h1 : k' = k
    · simp [Tree.set, h1, Tree.keys]
    · simp only [Tree.get, h1, if_false] at h; simp [Tree.set, h1, Tree.keys, ih h]
  | sub k' kd es r _ ih =>
    by_cases h1 : k' = k
    · simp [Tree.set, h1, Tree.keys]
    · simp only [Tree.get, h1, if_false] at h; simp [Tree.set, h1, Tree.keys, ih h]

theorem keys_set_new {k : String} {t : Tree} (h : t.get k = none) (v : Val) :
    (t.set k v).keys = t.keys ++ [k] := by
  induction t with
  | nil => simp [Tree.set, Tree.keys]
  | leaf k' l r ih =>
    by_cases h1 : k' = k
    · simp [Tree.get, h1] at h
    · simp only [Tree.get, h1, if_false] at h; simp [Tree.set, h1, Tree.keys, ih h]
  | sub k' kd es r _ ih =>
    by_cases h1 : k' = k
    · simp [Tree.get, h1] at h
    · simp only [Tree.get, h1, if_false] at h; simp [Tree.set, h1, Tree.keys, ih h]

theorem set_get_self {k : String} {t : Tree} {v : Val} (h : t.get k = some v) : t.set k v = t := by
  induction t with
  | nil => simp [Tree.get] at h
  | leaf k' l r ih =>
    by_cases h1 : k' = k
    · simp [Tree.get, h1] at h; subst h; simp [Tree.set, h1, Tree.cons]
    · simp only [Tree.get, h1, if_false] at h; simp [Tree.set, h1, ih h]
  | sub k' kd es r _ ih =>
    by_cases h1 : k' = k
    · simp [Tree.get, h1] at h; subst h; simp [Tree.set, h1, Tree.cons]
    · simp only [Tree.get, h1, if_false] at h; simp [Tree.set, h1, ih h]

theorem set_set (k : String) (v w : Val) (t : Tree) : (t.set k v).set k w = t.set k w := by
  induction t with
  | nil => cases v <;> simp [Tree.set, Tree.cons]
  | leaf k' l r ih =>
    by_cases h1 : k' = k
    · cases v <;> simp [Tree.set, h1, Tree.cons]
    · simp [Tree.set, h1, ih]
  | sub k' kd es r _ ih =>
    by_cases h1 : k' = k
    · cases v <;> simp [Tree.set, h1, Tree.cons]
    · simp [Tree.set, h1, ih]

/-! ## decode / coerce -/

theorem coerce_ty {r o v : Val} (h : coerce r o = .ok v) : v.ty = o.ty := by
  unfold coerce at h
  split at h
  · simp at h; subst h; assumption
  · split at h
    · split at h
      · rename_i h2; simp at h; subst h; simp [Val.ty, h2.2]
      · split at h
        · rename_i h2; simp at h; subst h; simp [Val.ty, h2.2]
        · simp at h
    · simp at h

theorem coerce_congr {o o' : Val} (h : o'.ty = o.ty) (r : Val) : coerce r o' = coerce r o := by
  unfold coerce
  rw [h]
  split
  · rfl
  · cases r with
    | sub kd es => rfl
    | leaf r =>
      cases o with
      | leaf o =>
        cases o' with
        | leaf o' => simp [Val.ty] at h; simp [h]
        | sub kd es => cases kd <;> simp [Val.ty] at h
      | sub kd es =>
        cases o' with
        | leaf o' => cases kd <;> simp [Val.ty] at h
        | sub kd es => rfl

theorem decode_leaf_ty {lit : String → LitRes} {l : Leaf} {v : Val} (h : decode lit (.leaf l) = .ok v) :
    v.ty ≠ .node := by
  simp only [decode] at h
  split at h
  · split at h <;> simp at h <;> subst h <;> simp [Val.ty]
  · simp at h; subst h; simp [Val.ty]

theorem decode_sub_ok {lit : String → LitRes} {kd : Option Flags} {es : Tree} {v : Val}
    (h : decode lit (.sub kd es) = .ok v) : ∃ e, build es = .ok e ∧ v = .sub (some .fresh) e := by
  unfold decode at h
  cases hb : build es with
  | error e => simp [hb, bind, Except.bind] at h
  | ok e => simp [hb, bind, Except.bind] at h; exact ⟨e, rfl, h.symm⟩

theorem coerce_leaf_not_node {lit : String → LitRes} {l : Leaf} {v v' old : Val}
    (hd : decode lit (.leaf l) = .ok v) (hc : coerce v old = .ok v') : old.ty ≠ .node := by
  intro ho
  unfold coerce at hc
  have := decode_leaf_ty hd
  split at hc
  · rename_i h; rw [ho] at h; exact this h
  · split at hc
    · simp [Val.ty] at ho
    · simp at hc

/-! ## SameShape -/

theorem SameShape.refl (v : Val) : SameShape v v :=
  ⟨rfl, fun _ es h => ⟨es, h, List.prefix_rfl, fun _ => rfl⟩⟩

theorem SameShape.trans {a b c : Val} (h1 : SameShape a b) (h2 : SameShape b c) : SameShape a c := by
  refine ⟨h2.1.trans h1.1, fun f es h => ?_⟩
  obtain ⟨es', hb, hp, hk⟩ := h1.2 f es h
  obtain ⟨es'', hc, hp', hk'⟩ := h2.2 f es' hb
  exact ⟨es'', hc, hp.trans hp', fun hn => (hk' hn).trans (hk hn)⟩

theorem at_cons_node (k : String) (ks : List String) (f : Flags) (es : Tree) :
    at_ (k :: ks) (.sub (some f) es) = (es.get k).bind (at_ ks) := by
  simp only [at_]; cases es.get k <;> rfl

/-- Replacing the value of one key by one of the same shape preserves every path. -/
theorem at_set_shape {f : Flags} {es : Tree} {k : String} {old v : Val} (hk : es.get k = some old)
    (hsub : ∀ q w, at_ q old = some w → ∃ w', at_ q v = some w' ∧ SameShape w w')
    {p : List String} {w : Val} (hp : at_ p (.sub (some f) es) = some w) :
    ∃ w', at_ p (.sub (some f) (es.set k v)) = some w' ∧ SameShape w w' := by
  cases p with
  | nil =>
    simp only [at_, Option.some.injEq] at hp; subst hp
    refine ⟨_, rfl, rfl, ?_⟩
    intro f' es' h
    obtain ⟨hf, he⟩ : f = f' ∧ es = es' := by simpa using h
    subst hf; subst he
    refine ⟨_, rfl, ?_, fun _ => keys_set_mem hk v⟩
    rw [keys_set_mem hk v]; exact List.prefix_rfl
  | cons k' q =>
    rw [at_cons_node] at hp ⊢
    by_cases h : k = k'
    · subst h; rw [hk] at hp; simpa using hsub q w hp
    · rw [get_set_ne h]; exact ⟨w, hp, SameShape.refl w⟩

/-- Adding a key that was absent, in a node that allows new keys, preserves every path. -/
theorem at_set_new {f : Flags} {es : Tree} {k : String} (hk : es.get k = none) (hn : f.newAllowed = true) (v : Val)
    {p : List String} {w : Val} (hp : at_ p (.sub (some f) es) = some w) :
    ∃ w', at_ p (.sub (some f) (es.set k v)) = some w' ∧ SameShape w w' := by
  cases p with
  | nil =>
    simp only [at_, Option.some.injEq] at hp; subst hp
    refine ⟨_, rfl, rfl, ?_⟩
    intro f' es' h
    obtain ⟨hf, he⟩ : f = f' ∧ es = es' := by simpa using h
    subst hf; subst he
    refine ⟨_, rfl, ?_, fun hc => by simp [hn] at hc⟩
    rw [keys_set_new hk v]; exact List.prefix_append _ _
  | cons k' q =>
    rw [at_cons_node] at hp ⊢
    by_cases h : k = k'
    · subst h; rw [hk] at hp; simp at hp
    · rw [get_set_ne h]; exact ⟨w, hp, SameShape.refl w⟩

/-- The central lemma: a merge (successful or not) preserves the shape at every path. -/
theorem mergeEnts_shape (lit : String → LitRes) (root : Flags) (a : Tree) :
    ∀ (pre : List String) (bf : Flags) (b : Tree) (p : List String) (w : Val),
      at_ p (.sub (some bf) b) = some w →
      ∃ w', at_ p (.sub (some bf) (mergeEnts lit root pre a bf b).1) = some w' ∧ SameShape w w' := by
  induction a with
  | nil => intro pre bf b p w h; exact ⟨w, by simpa [mergeEnts] using h, SameShape.refl w⟩
  | leaf k l rest ih =>
    intro pre bf b p w h
    unfold mergeEnts
    split
    · exact ⟨w, h, SameShape.refl w⟩
    · rename_i v hd
      split
      · rename_i old hk
        split
        · exact ⟨w, h, SameShape.refl w⟩
        · rename_i v' hc
          have hnn := coerce_leaf_not_node hd hc
          obtain ⟨w1, h1, s1⟩ := at_set_shape (v := v') hk (by
            intro q x hq
            cases q with
            | nil =>
              simp only [at_, Option.some.injEq] at hq; subst hq
              refine ⟨v', rfl, coerce_ty hc, ?_⟩
              intro f es he; subst he; simp [Val.ty] at hnn
            | cons k' q =>
              cases old with
              | leaf _ => simp [at_] at hq
              | sub kd es => cases kd with
                | none => simp [at_] at hq
                | some f => simp [Val.ty] at hnn) h
          obtain ⟨w2, h2, s2⟩ := ih pre bf (b.set k v') p w1 h1
          exact ⟨w2, h2, s1.trans s2⟩
      · rename_i hk
        split
        · rename_i hn
          obtain ⟨w1, h1, s1⟩ := at_set_new hk hn v h
          obtain ⟨w2, h2, s2⟩ := ih pre bf (b.set k v) p w1 h1
          exact ⟨w2, h2, s1.trans s2⟩
        · split
          · exact ⟨w, h, SameShape.refl w⟩
          · exact ih pre bf b p w h
  | sub k kd es rest ihe ih =>
    intro pre bf b p w h
    unfold mergeEnts
    split
    · exact ⟨w, h, SameShape.refl w⟩
    · rename_i v hd
      split
      · rename_i cf bes hk
        have hsub := ihe (pre ++ [k]) cf bes
        split
        · rename_i bes' e he
          rw [he] at hsub
          exact at_set_shape hk hsub h
        · rename_i bes' he
          rw [he] at hsub
          obtain ⟨w1, h1, s1⟩ := at_set_shape hk hsub h
          obtain ⟨w2, h2, s2⟩ := ih pre bf _ p w1 h1
          exact ⟨w2, h2, s1.trans s2⟩
      · exact ⟨w, h, SameShape.refl w⟩
      · rename_i hk
        split
        · rename_i hn
          obtain ⟨w1, h1, s1⟩ := at_set_new hk hn v h
          obtain ⟨w2, h2, s2⟩ := ih pre bf (b.set k v) p w1 h1
          exact ⟨w2, h2, s1.trans s2⟩
        · split
          · exact ⟨w, h, SameShape.refl w⟩
          · exact ih pre bf b p w h

/-- Keys not in `a` are untouched at top level. -/
theorem mergeEnts_get_other (lit : String → LitRes) (root : Flags) (a : Tree) :
    ∀ (pre : List String) (bf : Flags) (b : Tree) (k : String), k ∉ a.keys →
      ((mergeEnts lit root pre a bf b).1).get k = b.get k := by
  induction a with
  | nil => intro pre bf b k _; simp [mergeEnts]
  | leaf k' l rest ih =>
    intro pre bf b k hk
    simp only [Tree.keys, List.mem_cons, not_or] at hk
    have hne : k' ≠ k := fun h => hk.1 h.symm
    unfold mergeEnts
    repeat' split
    all_goals first
      | rfl
      | (rw [ih _ _ _ _ hk.2]; done)
      | (rw [ih _ _ _ _ hk.2, get_set_ne hne])
  | sub k' kd es rest _ ih =>
    intro pre bf b k hk
    simp only [Tree.keys, List.mem_cons, not_or] at hk
    have hne : k' ≠ k := fun h => hk.1 h.symm
    unfold mergeEnts
    repeat' split
    all_goals first
      | rfl
      | (rw [ih _ _ _ _ hk.2]; done)
      | (rw [get_set_ne hne]; done)
      | (rw [ih _ _ _ _ hk.2, get_set_ne hne])

theorem build_valid_idem {t t' : Tree} (h : build t = .ok t') : build t' = .ok t' := by
  induction t generalizing t' with
  | nil => simp [build] at h; subst h; rfl
  | leaf k l r ih =>
    unfold build at h
    split at h
    · rename_i hv
      cases hr : build r with
      | error e => simp [hr, bind, Except.bind] at h
      | ok r' =>
        simp [hr, bind, Except.bind] at h; subst h
        simp [build, hv, ih hr, bind, Except.bind]
    · simp at h
  | sub k kd es r ihe ih =>
    unfold build at h
    cases he : build es with
    | error e => simp [he, bind, Except.bind] at h
    | ok e' =>
      cases hr : build r with
      | error e => simp [he, hr, bind, Except.bind] at h
      | ok r' =>
        simp [he, hr, bind, Except.bind] at h; subst h
        simp [build, ihe he, ih hr, bind, Except.bind]

/-- Justifies the transcription of the recursive call: merging the rebuilt copy `cls(v)` and merging the original
entries are the same computation. -/
theorem mergeEnts_build (lit : String → LitRes) (root : Flags) (a : Tree) :
    ∀ (a' : Tree) (pre : List String) (bf : Flags) (b : Tree), build a = .ok a' →
      mergeEnts lit root pre a' bf b = mergeEnts lit root pre a bf b := by
  induction a with
  | nil => intro a' pre bf b h; simp [build] at h; subst h; rfl
  | leaf k l r ih =>
    intro a' pre bf b h
    unfold build at h
    split at h
    · cases hr : build r with
      | error e => simp [hr, bind, Except.bind] at h
      | ok r' =>
        simp [hr, bind, Except.bind] at h; subst h
        simp only [mergeEnts, fun pre bf b => ih r' pre bf b hr]
    · simp at h
  | sub k kd es r ihe ih =>
    intro a' pre bf b h
    unfold build at h
    cases he : build es with
    | error e => simp [he, bind, Except.bind] at h
    | ok e' =>
      cases hr : build r with
      | error e => simp [he, hr, bind, Except.bind] at h
      | ok r' =>
        simp [he, hr, bind, Except.bind] at h; subst h
        have hd : decode lit (.sub (some .fresh) e') = decode lit (.sub kd es) := by
          simp [decode, he, build_valid_idem he, bind, Except.bind]
        simp only [mergeEnts, fun pre bf b => ih r' pre bf b hr, fun pre bf b => ihe e' pre bf b he, hd]

end Verif.Cfg
