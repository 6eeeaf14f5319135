import Verif.CfgMem.Value
import Verif.Cfg.Lemmas
/-!
`merge_from_other_cfg` on objects does what `Cfg.mergeEnts` does on values, provided no node of the receiver occurs in it twice.
-/
namespace Verif.CfgMem
open Verif.Cfg

theorem tyOf_value {H : Heap} {r : Ref} {v : Val} {f : List Nat} (h : Holds H r v f) : tyOf H r = v.ty := by
  cases v with
  | leaf l =>
    rcases h.1 with ⟨rfl, _⟩ | ⟨id, rfl, h2, h3⟩
    · rfl
    · rw [tyOf, h2, Val.ty, h3]
  | sub kd t =>
    obtain ⟨id, ce, g, rfl, hc, _, _⟩ := h
    rw [tyOf, hc]
    cases kd <;> rfl

theorem decode_value (lit : String → LitRes) {lim : Nat} {H : Heap} {r : Ref} {v : Val} {fp : List Nat} (hv : Holds H r v fp) (hd : depth v ≤ lim) :
    Makes H (Cfg.decode lit v) (CfgMem.decode lit lim H r) := by
  cases v with
  | leaf l =>
    rcases hv.1 with ⟨rfl, hty⟩ | ⟨id, rfl, h2, h3⟩
    · rw [Cfg.decode, CfgMem.decode]
      by_cases hs : l.ty = .str
      · rw [if_pos hs, if_pos hs]
        cases hl : lit l.payload with
        | leaf l' =>
          obtain ⟨e1, h1⟩ := ofLeaf_value H l'
          exact ⟨_, _, [], rfl, e1, ⟨h1, rfl⟩, FreshFp.nil _ _⟩
        | dict t =>
          obtain ⟨f, e1, h1, g1⟩ := ofTree_value t H
          have e2 := Ext.append (ofTree H t).1 (.map none (ofTree H t).2)
          exact ⟨_, _, _, rfl, e1.trans e2, ⟨_, _, f, rfl, by simp, h1.ext e2, rfl⟩, g1.snoc e1.1 _⟩
        | pass => exact ⟨H, .atom l, [], rfl, Ext.refl H, hv.2 ▸ hv, FreshFp.nil _ _⟩
        | raise => rfl
      · rw [if_neg hs, if_neg hs]
        exact ⟨H, .atom l, [], rfl, Ext.refl H, hv.2 ▸ hv, FreshFp.nil _ _⟩
    · rw [Cfg.decode, CfgMem.decode, h2, if_neg (by rw [h3]; decide)]
      exact ⟨H, .obj id, [], rfl, Ext.refl H, hv.2 ▸ hv, FreshFp.nil _ _⟩
  | sub kd t =>
    obtain ⟨id, ce, g, rfl, hc, ht, rfl⟩ := hv
    have h1 := construct_value lim H id kd t (id :: g) false ⟨id, ce, g, rfl, hc, ht, rfl⟩ hd
    rw [CfgMem.decode, hc]
    exact h1

/-- What `_check_and_coerce_cfg_value_type` must return. -/
def Keeps (H : Heap) (f : List Nat) (want : Except Err Val) (got : Except Fail (Heap × Ref)) : Prop :=
  match want with
  | .error e => got = .error (.py e)
  | .ok v => ∃ H' r, got = .ok (H', r) ∧ Ext H H' ∧ Holds H' r v f

theorem coerce_value {H : Heap} {r old : Ref} {v o : Val} {f fo : List Nat} (hv : Holds H r v f) (ho : Holds H old o fo) :
    Keeps H f (Cfg.coerce v o) (CfgMem.coerce H r old) := by
  unfold Cfg.coerce CfgMem.coerce
  rw [tyOf_value hv, tyOf_value ho]
  by_cases ht : v.ty = o.ty
  · rw [if_pos ht, if_pos ht]
    exact ⟨H, r, rfl, Ext.refl H, hv⟩
  · rw [if_neg ht, if_neg ht]
    have inj : ∀ {q : Leaf} {p : PyType}, (Val.leaf q).ty = .leaf p → q.ty = p := fun h => Ty.leaf.inj h
    have nosub : ∀ {kd : Option Flags} {t : Tree} {p : PyType}, (Val.sub kd t).ty ≠ .leaf p := by
      intro kd t p h
      cases kd <;> cases h
    cases v with
    | leaf l =>
      obtain ⟨hl, rfl⟩ := hv
      rcases hl with ⟨rfl, hty⟩ | ⟨id, rfl, h2, h3⟩
      · cases o with
        | leaf q =>
          by_cases h1 : l.ty = .tuple ∧ q.ty = .list
          · have h1' : l.ty = .tuple ∧ (Val.leaf q).ty = .leaf .list := ⟨h1.1, by rw [Val.ty, h1.2]⟩
            simp only [if_pos h1, if_pos h1']
            exact ⟨_, _, rfl, Ext.append _ _, ⟨Or.inr ⟨_, rfl, by simp, rfl⟩, rfl⟩⟩
          · have h1' : ¬ (l.ty = .tuple ∧ (Val.leaf q).ty = .leaf .list) := fun h => h1 ⟨h.1, inj h.2⟩
            have h2' : ¬ (l.ty = .list ∧ q.ty = .tuple) := fun h => hty h.1
            simp only [if_neg h1, if_neg h1', if_neg h2']
            rfl
        | sub kd t =>
          have h1' : ¬ (l.ty = .tuple ∧ (Val.sub kd t).ty = .leaf .list) := fun h => nosub h.2
          simp only [if_neg h1']
          rfl
      · simp only [h2]
        cases o with
        | leaf q =>
          have h0 : ¬ (l.ty = .tuple ∧ q.ty = .list) := fun h => by rw [h3] at h; exact absurd h.1 (by decide)
          by_cases h1 : q.ty = .tuple
          · have h1' : (Val.leaf q).ty = .leaf .tuple := by rw [Val.ty, h1]
            have h2' : l.ty = .list ∧ q.ty = .tuple := ⟨h3, h1⟩
            simp only [if_neg h0, if_pos h2', if_pos h1']
            refine ⟨H, _, rfl, Ext.refl H, ⟨Or.inl ⟨rfl, fun h => by cases h⟩, rfl⟩⟩
          · have h1' : ¬ (Val.leaf q).ty = .leaf .tuple := fun h => h1 (inj h)
            have h2' : ¬ (l.ty = .list ∧ q.ty = .tuple) := fun h => h1 h.2
            simp only [if_neg h0, if_neg h2', if_neg h1']
            rfl
        | sub kd t =>
          have h1' : ¬ (Val.sub kd t).ty = .leaf .tuple := nosub
          simp only [if_neg h1']
          rfl
    | sub kd t =>
      obtain ⟨id, ce, g, rfl, hc, -, rfl⟩ := hv
      simp only [hc]
      cases o <;> rfl

/-! ### Entries -/

theorem look_value {H : Heap} {k : String} : ∀ {t : Tree} {es : Ents} {f : List Nat}, HoldsEnts H es t f →
    (t.get k = none → look k es = none ∧ ∀ H' r' v' fv, KeepLists H H' → (∀ id ∈ f, H'[id]? = H[id]?) → Holds H' r' v' fv →
      HoldsEnts H' (put k r' es) (t.set k v') (f ++ fv)) ∧
    ∀ v, t.get k = some v → ∃ r f1 fv f2, look k es = some r ∧ Holds H r v fv ∧ f = f1 ++ (fv ++ f2) ∧ put k r es = es ∧
      ∀ H' r' v' fv', KeepLists H H' → (∀ id, id ∈ f1 ∨ id ∈ f2 → H'[id]? = H[id]?) → Holds H' r' v' fv' →
        HoldsEnts H' (put k r' es) (t.set k v') (f1 ++ (fv' ++ f2)) := by
  have consH : ∀ {H : Heap} {r : Ref} {v : Val} {fv : List Nat} {es : Ents} {t : Tree} {f : List Nat}, Holds H r v fv → HoldsEnts H es t f →
      HoldsEnts H ((k, r) :: es) (Tree.cons k v t) (fv ++ f) := by
    intro H r v fv es t f hv ht
    cases v with
    | leaf l => obtain ⟨hl, rfl⟩ := hv; exact ⟨r, es, rfl, hl, ht⟩
    | sub kd c => obtain ⟨id, ce, g, rfl, hc, hg, rfl⟩ := hv; exact ⟨id, ce, es, g, f, rfl, hc, hg, ht, rfl⟩
  intro t
  induction t with
  | nil =>
    intro es f h
    obtain ⟨rfl, rfl⟩ := h
    refine ⟨fun _ => ⟨rfl, fun H' r' v' fv _ _ hv => ?_⟩, fun v hv => by cases hv⟩
    have hnil : HoldsEnts H' [] .nil [] := ⟨rfl, rfl⟩
    have := consH hv hnil
    rw [List.append_nil] at this
    exact this
  | leaf k' l rest ih =>
    intro es f h
    obtain ⟨r, es', rfl, hl, hr⟩ := h
    obtain ⟨i1, i2⟩ := ih hr
    by_cases hk : k' = k
    · refine ⟨fun hn => ?_, fun v hv => ?_⟩
      · rw [Tree.get, if_pos hk] at hn; cases hn
      · rw [Tree.get, if_pos hk] at hv
        cases hv
        refine ⟨r, [], [], f, by rw [look, if_pos hk], ⟨hl, rfl⟩, by simp, by rw [put, if_pos hk, hk], fun H' r' v' fv' hkl hfr hv' => ?_⟩
        rw [put, if_pos hk, Tree.set, if_pos hk, List.nil_append]
        exact consH hv' (hr.frame hkl fun id hid => hfr id (Or.inr hid))
    · refine ⟨fun hn => ?_, fun v hv => ?_⟩
      · rw [Tree.get, if_neg hk] at hn
        obtain ⟨j1, j2⟩ := i1 hn
        refine ⟨by rw [look, if_neg hk]; exact j1, fun H' r' v' fv hkl hfr hv' => ?_⟩
        rw [put, if_neg hk, Tree.set, if_neg hk]
        exact ⟨r, _, rfl, hl.frame hkl, j2 H' r' v' fv hkl hfr hv'⟩
      · rw [Tree.get, if_neg hk] at hv
        obtain ⟨r1, f1, fv, f2, j1, j2, j3, j4, j5⟩ := i2 v hv
        refine ⟨r1, f1, fv, f2, by rw [look, if_neg hk]; exact j1, j2, j3, by rw [put, if_neg hk, j4], fun H' r' v' fv' hkl hfr hv' => ?_⟩
        rw [put, if_neg hk, Tree.set, if_neg hk]
        exact ⟨r, _, rfl, hl.frame hkl, j5 H' r' v' fv' hkl hfr hv'⟩
  | sub k' kd t rest iht ihr =>
    intro es f h
    obtain ⟨id, ce, es', g1, g2, rfl, hc, ht, hr, rfl⟩ := h
    obtain ⟨i1, i2⟩ := ihr hr
    by_cases hk : k' = k
    · refine ⟨fun hn => ?_, fun v hv => ?_⟩
      · rw [Tree.get, if_pos hk] at hn; cases hn
      · rw [Tree.get, if_pos hk] at hv
        cases hv
        refine ⟨.obj id, [], id :: g1, g2, by rw [look, if_pos hk], ⟨id, ce, g1, rfl, hc, ht, rfl⟩, by simp, by rw [put, if_pos hk, hk], fun H' r' v' fv' hkl hfr hv' => ?_⟩
        rw [put, if_pos hk, Tree.set, if_pos hk, List.nil_append]
        exact consH hv' (hr.frame hkl fun id hid => hfr id (Or.inr hid))
    · have keepHead : ∀ H', KeepLists H H' → (∀ i, i = id ∨ i ∈ g1 → H'[i]? = H[i]?) → H'[id]? = some (.map kd ce) ∧ HoldsEnts H' ce t g1 :=
        fun H' hkl hfr => ⟨(hfr id (Or.inl rfl)).trans hc, ht.frame hkl fun i hi => hfr i (Or.inr hi)⟩
      refine ⟨fun hn => ?_, fun v hv => ?_⟩
      · rw [Tree.get, if_neg hk] at hn
        obtain ⟨j1, j2⟩ := i1 hn
        refine ⟨by rw [look, if_neg hk]; exact j1, fun H' r' v' fv hkl hfr hv' => ?_⟩
        rw [put, if_neg hk, Tree.set, if_neg hk]
        obtain ⟨a, b⟩ := keepHead H' hkl fun i hi => hfr i (by
          rcases hi with hi | hi
          · rw [hi]; exact List.mem_cons_self
          · exact List.mem_cons_of_mem _ (List.mem_append_left _ hi))
        exact ⟨id, ce, _, g1, g2 ++ fv, rfl, a, b, j2 H' r' v' fv hkl (fun i hi => hfr i (List.mem_cons_of_mem _ (List.mem_append_right _ hi))) hv', by simp⟩
      · rw [Tree.get, if_neg hk] at hv
        obtain ⟨r1, f1, fv, f2, j1, j2, j3, j4, j5⟩ := i2 v hv
        refine ⟨r1, id :: (g1 ++ f1), fv, f2, by rw [look, if_neg hk]; exact j1, j2, by simp [j3], by rw [put, if_neg hk, j4], fun H' r' v' fv' hkl hfr hv' => ?_⟩
        rw [put, if_neg hk, Tree.set, if_neg hk]
        obtain ⟨a, b⟩ := keepHead H' hkl fun i hi => hfr i (Or.inl (by
          rcases hi with hi | hi
          · rw [hi]; exact List.mem_cons_self
          · exact List.mem_cons_of_mem _ (List.mem_append_left _ hi)))
        refine ⟨id, ce, _, g1, f1 ++ (fv' ++ f2), rfl, a, b, j5 H' r' v' fv' hkl (fun i hi => hfr i ?_) hv', by simp⟩
        rcases hi with hi | hi
        · exact Or.inl (List.mem_cons_of_mem _ (List.mem_append_right _ hi))
        · exact Or.inr hi

/-! ### The value-level loop, one entry at a time -/

theorem cfg_decode_err {lit : String → LitRes} {root : Flags} {pre : List String} {k : String} {v : Val} {rest b : Tree} {bf : Flags} {e : Err}
    (h : Cfg.decode lit v = .error e) : mergeEnts lit root pre (Tree.cons k v rest) bf b = (b, some e) := by
  cases v <;> (rw [Tree.cons, mergeEnts, h])

theorem decode_leaf_shape {lit : String → LitRes} {l : Leaf} {v : Val} (h : Cfg.decode lit (.leaf l) = .ok v) : ∀ f t, v ≠ .sub (some f) t := by
  rintro f t rfl
  rw [Cfg.decode] at h
  split at h
  · split at h <;> cases h
  · cases h

theorem coerce_shape {v o w : Val} (h : Cfg.coerce v o = .ok w) (hv : ∀ f t, v ≠ .sub (some f) t) : ∀ f t, w ≠ .sub (some f) t := by
  unfold Cfg.coerce at h
  split at h
  · cases h; exact hv
  · split at h
    · split at h
      · cases h; intro f t h; cases h
      · split at h
        · cases h; intro f t h; cases h
        · cases h
    · cases h

theorem decode_sub {lit : String → LitRes} {kd : Option Flags} {t : Tree} {v : Val} (h : Cfg.decode lit (.sub kd t) = .ok v) :
    ∃ t', build t = .ok t' ∧ v = .sub (some .fresh) t' := by
  rw [Cfg.decode] at h
  cases hb : build t with
  | error e => rw [hb] at h; cases h
  | ok t' => rw [hb] at h; cases h; exact ⟨t', rfl, rfl⟩

theorem coerce_node {f : Flags} {t : Tree} {o : Val} : (∃ cf bes, o = .sub (some cf) bes ∧ Cfg.coerce (.sub (some f) t) o = .ok (.sub (some f) t)) ∨
    ((∀ cf bes, o ≠ .sub (some cf) bes) ∧ Cfg.coerce (.sub (some f) t) o = .error .valueError) := by
  cases o with
  | leaf l => exact Or.inr ⟨fun _ _ h => (by cases h), rfl⟩
  | sub kd bes =>
    cases kd with
    | none => exact Or.inr ⟨fun _ _ h => (by cases h), rfl⟩
    | some cf => exact Or.inl ⟨cf, bes, rfl, rfl⟩

theorem cfg_coerce_err {lit : String → LitRes} {root : Flags} {pre : List String} {k : String} {v v' old : Val} {rest b : Tree} {bf : Flags} {e : Err}
    (h : Cfg.decode lit v = .ok v') (hg : b.get k = some old) (hc : Cfg.coerce v' old = .error e) :
    mergeEnts lit root pre (Tree.cons k v rest) bf b = (b, some e) := by
  cases v with
  | leaf l => rw [Tree.cons, mergeEnts, h, hg]; simp only [hc]
  | sub kd t =>
    obtain ⟨t', -, rfl⟩ := decode_sub h
    rw [Tree.cons, mergeEnts, h, hg]
    rcases coerce_node (f := .fresh) (t := t') (o := old) with ⟨cf, bes, rfl, h2⟩ | ⟨h1, h2⟩
    · rw [h2] at hc; cases hc
    · rw [h2] at hc
      cases hc
      cases old with
      | leaf => rfl
      | sub kd2 bes =>
        cases kd2 with
        | none => rfl
        | some cf => exact absurd rfl (h1 cf bes)

theorem cfg_set {lit : String → LitRes} {root : Flags} {pre : List String} {k : String} {v v' v'' old : Val} {rest b : Tree} {bf : Flags}
    (h : Cfg.decode lit v = .ok v') (hg : b.get k = some old) (hc : Cfg.coerce v' old = .ok v'') (hs : ∀ f t, v'' ≠ .sub (some f) t) :
    mergeEnts lit root pre (Tree.cons k v rest) bf b = mergeEnts lit root pre rest bf (b.set k v'') := by
  cases v with
  | leaf l => rw [Tree.cons, mergeEnts, h, hg]; simp only [hc]
  | sub kd t =>
    obtain ⟨t', -, rfl⟩ := decode_sub h
    rcases coerce_node (f := .fresh) (t := t') (o := old) with ⟨cf, bes, rfl, h2⟩ | ⟨h1, h2⟩
    · rw [h2] at hc; cases hc; exact absurd rfl (hs _ _)
    · rw [h2] at hc; cases hc

theorem cfg_rec {lit : String → LitRes} {root : Flags} {pre : List String} {k : String} {v v' old : Val} {rest b : Tree} {bf f : Flags} {t : Tree}
    (h : Cfg.decode lit v = .ok v') (hg : b.get k = some old) (hc : Cfg.coerce v' old = .ok (.sub (some f) t)) :
    v' = .sub (some f) t ∧ ∃ cf bes, old = .sub (some cf) bes ∧
      mergeEnts lit root pre (Tree.cons k v rest) bf b = match (mergeEnts lit root (pre ++ [k]) t cf bes).2 with
        | some e => (b.set k (.sub (some cf) (mergeEnts lit root (pre ++ [k]) t cf bes).1), some e)
        | none => mergeEnts lit root pre rest bf (b.set k (.sub (some cf) (mergeEnts lit root (pre ++ [k]) t cf bes).1)) := by
  cases v with
  | leaf l => exact absurd rfl (coerce_shape hc (decode_leaf_shape h) f t)
  | sub kd t0 =>
    obtain ⟨t', hb, rfl⟩ := decode_sub h
    rcases coerce_node (f := .fresh) (t := t') (o := old) with ⟨cf, bes, rfl, h2⟩ | ⟨h1, h2⟩
    · rw [h2] at hc
      cases hc
      refine ⟨rfl, cf, bes, rfl, ?_⟩
      rw [Tree.cons, mergeEnts, h, hg, mergeEnts_build lit root t0 t _ cf bes hb]
      dsimp only
      generalize mergeEnts lit root (pre ++ [k]) t0 cf bes = q
      obtain ⟨q1, q2⟩ := q
      cases q2 <;> rfl
    · rw [h2] at hc; cases hc

theorem cfg_new {lit : String → LitRes} {root : Flags} {pre : List String} {k : String} {v v' : Val} {rest b : Tree} {bf : Flags}
    (h : Cfg.decode lit v = .ok v') (hg : b.get k = none) :
    mergeEnts lit root pre (Tree.cons k v rest) bf b = if bf.newAllowed then mergeEnts lit root pre rest bf (b.set k v')
      else match missing root (joinKey pre k) with
        | some e => (b, some e)
        | none => mergeEnts lit root pre rest bf b := by
  cases v with
  | leaf l => rw [Tree.cons, mergeEnts, h, hg]; rfl
  | sub kd t => rw [Tree.cons, mergeEnts, h, hg]; rfl

/-! ### The loop -/

/-- The dict or node object `b` holds the options `tb`, and no dict or node occurs in it twice. -/
def MapAt (H : Heap) (b : Nat) (kd : Option Flags) (tb : Tree) (fp : List Nat) : Prop :=
  (∃ bes, H[b]? = some (.map kd bes) ∧ HoldsEnts H bes tb fp) ∧ (b :: fp).Nodup

/-- The same for a node with the flags `bf`. -/
abbrev Node (H : Heap) (b : Nat) (bf : Flags) (tb : Tree) (fp : List Nat) : Prop := MapAt H b (some bf) tb fp

/-- Only the node `b` and the nodes in it are written; its nodes afterwards are old ones or new objects. -/
structure Upd (H H' : Heap) (b : Nat) (fp fp' : List Nat) : Prop where
  len : H.length ≤ H'.length
  frame : ∀ id, id < H.length → id ∉ b :: fp → H'[id]? = H[id]?
  sub : ∀ id ∈ fp', id ∈ fp ∨ H.length ≤ id

theorem Upd.trans {H H' H'' : Heap} {b : Nat} {fp fp' fp'' : List Nat} (h : Upd H H' b fp fp') (h' : Upd H' H'' b fp' fp'') : Upd H H'' b fp fp'' := by
  refine ⟨Nat.le_trans h.len h'.len, fun id hi hn => ?_, fun id hid => ?_⟩
  · rw [h'.frame id (Nat.lt_of_lt_of_le hi h.len) fun hm => ?_, h.frame id hi hn]
    rcases List.mem_cons.1 hm with hm | hm
    · exact hn (hm ▸ List.mem_cons_self)
    · rcases h.sub id hm with h1 | h1
      · exact hn (List.mem_cons_of_mem _ h1)
      · omega
  · rcases h'.sub id hid with h1 | h1
    · exact h.sub id h1
    · exact Or.inr (Nat.le_trans h.len h1)

theorem Ext.upd {H H' : Heap} (h : Ext H H') (b : Nat) (fp : List Nat) : Upd H H' b fp fp :=
  ⟨h.1, fun id hi _ => h.2 id hi, fun _ hi => Or.inl hi⟩

theorem HoldsEnts.isMap {H : Heap} : ∀ {t : Tree} {es : Ents} {f : List Nat}, HoldsEnts H es t f → ∀ id ∈ f, ∃ kd ce, H[id]? = some (.map kd ce) := by
  intro t
  induction t with
  | nil => intro es f h; rw [h.2]; exact fun _ h => absurd h List.not_mem_nil
  | leaf k l rest ih => intro es f h; obtain ⟨r, es', _, _, h⟩ := h; exact ih h
  | sub k kd t rest iht ihr =>
    intro es f h
    obtain ⟨id, ce, es', f1, f2, h1, hc, ht, hr, rfl⟩ := h
    intro i hi
    rcases List.mem_cons.1 hi with hi | hi
    · rw [hi]; exact ⟨kd, ce, hc⟩
    · rcases List.mem_append.1 hi with hi | hi
      · exact iht ht i hi
      · exact ihr hr i hi

theorem MapAt.isMap {H : Heap} {b : Nat} {kd : Option Flags} {tb : Tree} {fp : List Nat} (h : MapAt H b kd tb fp) : ∀ id ∈ b :: fp, ∃ kd ce, H[id]? = some (.map kd ce) := by
  intro id hid
  obtain ⟨⟨bes, hb, he⟩, -⟩ := h
  rcases List.mem_cons.1 hid with h | h
  · rw [h]; exact ⟨_, _, hb⟩
  · exact he.isMap id h

theorem MapAt.lt {H : Heap} {b : Nat} {kd : Option Flags} {tb : Tree} {fp : List Nat} (h : MapAt H b kd tb fp) : ∀ id ∈ b :: fp, id < H.length := by
  intro id hid
  obtain ⟨kd, ce, hc⟩ := h.isMap id hid
  exact (List.getElem?_eq_some_iff.1 hc).1

theorem MapAt.ext {H H' : Heap} {b : Nat} {kd : Option Flags} {tb : Tree} {fp : List Nat} (h : MapAt H b kd tb fp) (he : Ext H H') : MapAt H' b kd tb fp := by
  obtain ⟨⟨bes, hb, h1⟩, h2⟩ := h
  exact ⟨⟨bes, he.get hb, h1.ext he⟩, h2⟩

theorem Upd.keep {H H' : Heap} {b : Nat} {kd : Option Flags} {tb : Tree} {fp fp' : List Nat} (h : Upd H H' b fp fp') (hn : MapAt H b kd tb fp) : KeepLists H H' := by
  intro id p hp
  rw [h.frame id (List.getElem?_eq_some_iff.1 hp).1 fun hm => ?_, hp]
  obtain ⟨kd, ce, hc⟩ := hn.isMap id hm
  rw [hp] at hc
  cases hc

/-- What a merge into `b` must do. -/
def Merges (H : Heap) (b : Nat) (bf : Flags) (fp : List Nat) (want : Tree × Option Err) (got : Heap × Option Fail) : Prop :=
  got.2 = want.2.map Fail.py ∧ ∃ fp', Node got.1 b bf want.1 fp' ∧ Upd H got.1 b fp fp'

theorem setEnt_value {H : Heap} {b : Nat} {bk : Option Flags} {tb : Tree} {fp fv : List Nat} (hn : MapAt H b bk tb fp) {k : String} {r : Ref} {v : Val}
    (hv : Holds H r v fv) (hfv : fv.Nodup) (hd : ∀ id ∈ fv, id ∉ b :: fp) :
    ∃ fp', MapAt (setEnt H b k r) b bk (tb.set k v) fp' ∧ (∀ id ∈ fp', id ∈ fp ∨ id ∈ fv) ∧ (setEnt H b k r).length = H.length ∧
      ∀ id, id ≠ b → (setEnt H b k r)[id]? = H[id]? := by
  obtain ⟨⟨bes, hb, he⟩, hnd⟩ := hn
  have hlt := (List.getElem?_eq_some_iff.1 hb).1
  have hnd' := List.nodup_cons.1 hnd
  have hset : setEnt H b k r = H.set b (.map bk (put k r bes)) := by rw [setEnt, hb]
  have hne : ∀ id, id ≠ b → (setEnt H b k r)[id]? = H[id]? := fun id h => by rw [hset, List.getElem?_set_ne (fun h' => h h'.symm)]
  have hbb : (setEnt H b k r)[b]? = some (.map bk (put k r bes)) := by rw [hset, List.getElem?_set_self hlt]
  have hlen : (setEnt H b k r).length = H.length := by rw [hset]; simp
  have hkl : KeepLists H (setEnt H b k r) := by
    intro id p hp
    have hidb : id ≠ b := fun h => by
      rw [h, hb] at hp
      cases hp
    rw [hne id hidb, hp]
  have hv' : Holds (setEnt H b k r) r v fv := hv.frame hkl fun id hid => hne id fun h => hd id hid (h ▸ List.mem_cons_self)
  have hfv' : ∀ id ∈ fv, id ∉ fp := fun id h h' => hd id h (List.mem_cons_of_mem _ h')
  have hbv : b ∉ fv := fun h => hd b h List.mem_cons_self
  obtain ⟨i1, i2⟩ := look_value (k := k) he
  cases hg : tb.get k with
  | none =>
    obtain ⟨-, j⟩ := i1 hg
    refine ⟨fp ++ fv, ⟨⟨_, hbb, j _ r v fv hkl (fun id hid => hne id fun h => hnd'.1 (h ▸ hid)) hv'⟩, ?_⟩, fun id hid => List.mem_append.1 hid, hlen, hne⟩
    refine List.nodup_cons.2 ⟨fun h => ?_, List.nodup_append.2 ⟨hnd'.2, hfv, fun a ha c hc hac => hfv' c hc (hac ▸ ha)⟩⟩
    rcases List.mem_append.1 h with h | h
    · exact hnd'.1 h
    · exact hbv h
  | some old =>
    obtain ⟨ro, f1, fo, f2, -, -, rfl, -, j⟩ := i2 old hg
    obtain ⟨hb1, hnd2⟩ := hnd'
    obtain ⟨n1, n2, n3⟩ := List.nodup_append.1 hnd2
    obtain ⟨n4, n5, n6⟩ := List.nodup_append.1 n2
    have hmem : ∀ id, id ∈ f1 ∨ id ∈ f2 → id ∈ f1 ++ (fo ++ f2) := by
      intro id h
      rcases h with h | h
      · exact List.mem_append_left _ h
      · exact List.mem_append_right _ (List.mem_append_right _ h)
    refine ⟨f1 ++ (fv ++ f2), ⟨⟨_, hbb, j _ r v fv hkl (fun id hid => hne id fun h => hb1 (h ▸ hmem id hid)) hv'⟩, ?_⟩, fun id hid => ?_, hlen, hne⟩
    · refine List.nodup_cons.2 ⟨fun h => ?_, List.nodup_append.2 ⟨n1, List.nodup_append.2 ⟨hfv, n5, fun a ha c hc hac => ?_⟩, fun a ha c hc hac => ?_⟩⟩
      · rcases List.mem_append.1 h with h | h
        · exact hb1 (hmem b (Or.inl h))
        · rcases List.mem_append.1 h with h | h
          · exact hbv h
          · exact hb1 (hmem b (Or.inr h))
      · exact hfv' a ha (hmem a (Or.inr (hac ▸ hc)))
      · rcases List.mem_append.1 hc with hc | hc
        · exact hfv' c hc (hmem c (Or.inl (hac ▸ ha)))
        · exact n3 a ha c (List.mem_append_right _ hc) hac
    · rcases List.mem_append.1 hid with h | h
      · exact Or.inl (hmem id (Or.inl h))
      · rcases List.mem_append.1 h with h | h
        · exact Or.inr h
        · exact Or.inl (hmem id (Or.inr h))

/-- Both loops, on an entry holding `v`. -/
theorem entry_value {lit : String → LitRes} {lim : Nat} {root : Flags} {rec : List String → Heap → Ents → Nat → Heap × Option Fail} {n : Nat}
    (hrec : ∀ pre H es ta fa b bf tb fp, HoldsEnts H es ta fa → depthT ta < n → depthT ta ≤ lim → Node H b bf tb fp → (∀ id ∈ fa, id ∉ b :: fp) →
      Merges H b bf fp (mergeEnts lit root pre ta bf tb) (rec pre H es b))
    {pre : List String} {k : String} {r : Ref} {v : Val} {fv : List Nat} {es : Ents} {rest : Tree} {fa : List Nat} {H : Heap} {b : Nat} {bf : Flags} {tb : Tree} {fp : List Nat}
    (hv : Holds H r v fv) (hr : HoldsEnts H es rest fa) (hdv : depth v ≤ n) (hdl : depth v ≤ lim) (hn : Node H b bf tb fp) (hfa : ∀ id ∈ fa, id ∉ b :: fp)
    (ih : ∀ (H1 : Heap) (tb1 : Tree) (fp1 : List Nat), HoldsEnts H1 es rest fa → Node H1 b bf tb1 fp1 → (∀ id ∈ fa, id ∉ b :: fp1) →
      Merges H1 b bf fp1 (mergeEnts lit root pre rest bf tb1) (mergeLoop lit lim root rec pre H1 es b)) :
    Merges H b bf fp (mergeEnts lit root pre (Tree.cons k v rest) bf tb) (mergeLoop lit lim root rec pre H ((k, r) :: es) b) := by
  have next : ∀ (H1 : Heap) (tb1 : Tree) (fp1 : List Nat), Upd H H1 b fp fp1 → Node H1 b bf tb1 fp1 →
      Merges H b bf fp (mergeEnts lit root pre rest bf tb1) (mergeLoop lit lim root rec pre H1 es b) := by
    intro H1 tb1 fp1 hu hn1
    have hr1 : HoldsEnts H1 es rest fa := hr.frame (hu.keep hn) fun id hid => hu.frame id (hr.lt id hid) (hfa id hid)
    obtain ⟨a, fp2, c, d⟩ := ih H1 tb1 fp1 hr1 hn1 fun id hid hm => by
      rcases List.mem_cons.1 hm with h | h
      · exact hfa id hid (h ▸ List.mem_cons_self)
      · rcases hu.sub id h with h | h
        · exact hfa id hid (List.mem_cons_of_mem _ h)
        · have := hr.lt id hid; omega
    exact ⟨a, fp2, c, hu.trans d⟩
  obtain ⟨H1, m1, r1, fp1, h1, e1, -, hv1⟩ := copyRef_holds lim H [] r v fv (Ext.refl H) (fun i j h => absurd h List.not_mem_nil) hv hdl
  have hdec := decode_value lit hv1 hdl
  rw [mergeLoop, h1]
  cases hd : Cfg.decode lit v with
  | error e =>
    rw [hd] at hdec
    have hdec' : CfgMem.decode lit lim H1 r1 = .error (.py e) := hdec
    simp only [hdec']
    rw [cfg_decode_err hd]
    exact ⟨rfl, fp, hn.ext e1, e1.upd b fp⟩
  | ok v' =>
    rw [hd] at hdec
    obtain ⟨H2, r2, fp2, h2, e2, hv2, hf2⟩ := hdec
    have e12 := e1.trans e2
    have hn2 := hn.ext e12
    simp only [h2]
    obtain ⟨⟨bes, hb2, hes2⟩, hnd⟩ := hn2
    simp only [hb2]
    have hfresh : ∀ id ∈ fp2, id ∉ b :: fp := fun id hid hm => by
      have := (hf2.2 id hid).1
      have := hn.lt id hm
      have := e1.1
      omega
    obtain ⟨i1, i2⟩ := look_value (k := k) hes2
    have setCase : ∀ (H3 : Heap) (r3 : Ref) (v3 : Val), Ext H2 H3 → Holds H3 r3 v3 fp2 →
        Merges H b bf fp (mergeEnts lit root pre rest bf (tb.set k v3)) (mergeLoop lit lim root rec pre (setEnt H3 b k r3) es b) := by
      intro H3 r3 v3 e3 hv3
      obtain ⟨fp', hn', hsub, hlen, hne⟩ := setEnt_value (k := k) (hn.ext (e12.trans e3)) hv3 hf2.1 hfresh
      refine next _ _ fp' ⟨?_, fun id hid hm => ?_, fun id hid => ?_⟩ hn'
      · rw [hlen]; exact (e12.trans e3).1
      · rw [hne id fun h => hm (h ▸ List.mem_cons_self), (e12.trans e3).2 id hid]
      · rcases hsub id hid with h | h
        · exact Or.inl h
        · have := (hf2.2 id h).1
          have := e1.1
          exact Or.inr (by omega)
    cases hg : tb.get k with
    | none =>
      obtain ⟨j1, -⟩ := i1 hg
      simp only [j1]
      rw [cfg_new hd hg]
      by_cases hna : bf.newAllowed = true
      · rw [if_pos hna, if_pos hna]
        exact setCase H2 r2 v' (Ext.refl H2) hv2
      · rw [if_neg hna, if_neg hna]
        cases missing root (joinKey pre k) with
        | some e => exact ⟨rfl, fp, hn.ext e12, e12.upd b fp⟩
        | none => exact next _ _ fp (e12.upd b fp) (hn.ext e12)
    | some old =>
      obtain ⟨ro, f1, fo, f2, j1, j2, j3, j4, j5⟩ := i2 old hg
      simp only [j1]
      have hco := coerce_value hv2 j2
      cases hc : Cfg.coerce v' old with
      | error e =>
        rw [hc] at hco
        have hco' : CfgMem.coerce H2 r2 ro = .error (.py e) := hco
        simp only [hco']
        rw [cfg_coerce_err hd hg hc]
        exact ⟨rfl, fp, hn.ext e12, e12.upd b fp⟩
      | ok v3 =>
        rw [hc] at hco
        obtain ⟨H3, r3, h3, e3, hv3⟩ := hco
        simp only [h3]
        by_cases hshape : ∃ f t, v3 = .sub (some f) t
        · obtain ⟨f, t, rfl⟩ := hshape
          obtain ⟨rfl, cf, cb, rfl, heq⟩ := cfg_rec (root := root) (pre := pre) (rest := rest) (bf := bf) hd hg hc
          obtain ⟨i, ves, g, rfl, hci, hves, hfp2⟩ := hv3
          obtain ⟨c, ces, fc, rfl, hcc, hces, hfo⟩ := j2
          simp only [hci]
          have e123 := e12.trans e3
          subst hfo
          subst j3
          obtain ⟨hb1, hnd2⟩ := List.nodup_cons.1 hnd
          obtain ⟨n1, n2, n3⟩ := List.nodup_append.1 hnd2
          obtain ⟨n4, n5, n6⟩ := List.nodup_append.1 n2
          have hcn : Node H3 c cf cb fc := ⟨⟨ces, e3.get hcc, hces.ext e3⟩, n4⟩
          have hdt : 1 + depthT t ≤ depth v := by
            cases v with
            | leaf l => exact absurd rfl (decode_leaf_shape hd f t)
            | sub kd t0 =>
              obtain ⟨t', hb', h'⟩ := decode_sub hd
              cases h'
              rw [depth]
              have : ∀ (a a' : Tree), build a = .ok a' → depthT a' = depthT a := by
                intro a
                induction a with
                | nil => intro a' h; rw [build] at h; cases h; rfl
                | leaf k l r ih =>
                  intro a' h
                  rw [build] at h
                  split at h
                  · cases hbr : build r with
                    | error e => rw [hbr] at h; cases h
                    | ok r' => rw [hbr] at h; cases h; rw [depthT, depthT, ih r' hbr]
                  · cases h
                | sub k kd s r ihs ihr =>
                  intro a' h
                  rw [build] at h
                  cases hbs : build s with
                  | error e => rw [hbs] at h; cases h
                  | ok s' =>
                    rw [hbs] at h
                    cases hbr : build r with
                    | error e => rw [hbr] at h; cases h
                    | ok r' => rw [hbr] at h; cases h; rw [depthT, depthT, ihs s' hbs, ihr r' hbr]
              rw [this _ _ hb']
              exact Nat.le_refl _
          have hgd : ∀ id ∈ g, id ∉ c :: fc := fun id hid hm => hfresh id (hfp2 ▸ List.mem_cons_of_mem _ hid)
            (List.mem_cons_of_mem _ (List.mem_append_right _ (List.mem_append_left _ hm)))
          obtain ⟨r1, fc', hcn', hu⟩ := hrec (pre ++ [k]) H3 ves t g c cf cb fc hves (by omega) (by omega) hcn hgd
          have hmemc : ∀ id ∈ c :: fc, id ∈ f1 ++ ((c :: fc) ++ f2) := fun id h => List.mem_append_right _ (List.mem_append_left _ h)
          have hkl : KeepLists H2 (rec (pre ++ [k]) H3 ves c).1 := fun id p hp => hu.keep hcn id p (e3.keep id p hp)
          have hfr : ∀ id, id < H2.length → id ∉ c :: fc → (rec (pre ++ [k]) H3 ves c).1[id]? = H2[id]? := fun id h1 h2 => by
            rw [hu.frame id (Nat.lt_of_lt_of_le h1 e3.1) h2, e3.2 id h1]
          have hlt2 : ∀ id ∈ b :: (f1 ++ ((c :: fc) ++ f2)), id < H2.length := (hn.ext e12).lt
          obtain ⟨⟨ces', hcc', hces'⟩, hndc⟩ := hcn'
          have hbes' := j5 _ (.obj c) (.sub (some cf) _) (c :: fc') hkl (fun id hid => by
              refine hfr id (hlt2 id (List.mem_cons_of_mem _ ?_)) fun hm => ?_
              · rcases hid with h | h
                · exact List.mem_append_left _ h
                · exact List.mem_append_right _ (List.mem_append_right _ h)
              · rcases hid with h | h
                · exact n3 id h id (List.mem_append_left _ hm) rfl
                · exact n6 id hm id h rfl) ⟨c, ces', fc', rfl, hcc', hces', rfl⟩
          rw [j4] at hbes'
          have hbb : (rec (pre ++ [k]) H3 ves c).1[b]? = some (.map (some bf) bes) := by
            rw [hfr b (hlt2 b List.mem_cons_self) fun hm => hb1 (hmemc b hm), hb2]
          have hnew : ∀ id ∈ c :: fc', id ∈ c :: fc ∨ H2.length ≤ id := by
            intro id hid
            rcases List.mem_cons.1 hid with h | h
            · rw [h]; exact Or.inl List.mem_cons_self
            · rcases hu.sub id h with h | h
              · exact Or.inl (List.mem_cons_of_mem _ h)
              · exact Or.inr (Nat.le_trans e3.1 h)
          have hsub : ∀ id ∈ f1 ++ ((c :: fc') ++ f2), id ∈ f1 ++ ((c :: fc) ++ f2) ∨ H2.length ≤ id := by
            intro id hid
            rcases List.mem_append.1 hid with h | h
            · exact Or.inl (List.mem_append_left _ h)
            · rcases List.mem_append.1 h with h | h
              · rcases hnew id h with h | h
                · exact Or.inl (hmemc id h)
                · exact Or.inr h
              · exact Or.inl (List.mem_append_right _ (List.mem_append_right _ h))
          have hnode : Node (rec (pre ++ [k]) H3 ves c).1 b bf (tb.set k (.sub (some cf) (mergeEnts lit root (pre ++ [k]) t cf cb).1)) (f1 ++ ((c :: fc') ++ f2)) := by
            refine ⟨⟨bes, hbb, hbes'⟩, List.nodup_cons.2 ⟨fun h => ?_, List.nodup_append.2 ⟨n1, List.nodup_append.2 ⟨hndc, n5, fun a ha d hd had => ?_⟩, fun a ha d hd had => ?_⟩⟩⟩
            · rcases hsub b h with h | h
              · exact hb1 h
              · have := hlt2 b List.mem_cons_self; omega
            · rcases hnew a ha with h | h
              · exact n6 a h d hd had
              · have := hlt2 d (List.mem_cons_of_mem _ (List.mem_append_right _ (List.mem_append_right _ hd))); omega
            · have hal := hlt2 a (List.mem_cons_of_mem _ (List.mem_append_left _ ha))
              rcases List.mem_append.1 hd with h | h
              · rcases hnew d h with h | h
                · exact n3 a ha d (List.mem_append_left _ h) had
                · omega
              · exact n3 a ha d (List.mem_append_right _ h) had
          have hupd : Upd H (rec (pre ++ [k]) H3 ves c).1 b (f1 ++ ((c :: fc) ++ f2)) (f1 ++ ((c :: fc') ++ f2)) := by
            refine ⟨Nat.le_trans e123.1 hu.len, fun id hid hm => ?_, fun id hid => ?_⟩
            · rw [hfr id (Nat.lt_of_lt_of_le hid e12.1) fun h => hm (List.mem_cons_of_mem _ (hmemc id h)), e12.2 id hid]
            · rcases hsub id hid with h | h
              · exact Or.inl h
              · exact Or.inr (Nat.le_trans e12.1 h)
          rw [heq]
          generalize hq : rec (pre ++ [k]) H3 ves c = q at *
          obtain ⟨H4, e4⟩ := q
          simp only at r1 hnode hupd
          cases hm : (mergeEnts lit root (pre ++ [k]) t cf cb).2 with
          | some e =>
            rw [hm] at r1
            subst r1
            exact ⟨rfl, _, hnode, hupd⟩
          | none =>
            rw [hm] at r1
            subst r1
            exact next H4 _ _ hupd hnode
        · have hshape' : ∀ f t, v3 ≠ .sub (some f) t := fun f t h => hshape ⟨f, t, h⟩
          rw [cfg_set hd hg hc hshape']
          have hset := setCase H3 r3 v3 e3 hv3
          cases r3 with
          | atom l => exact hset
          | obj i =>
            cases ro with
            | atom l => exact hset
            | obj c =>
              cases hi : H3[i]? with
              | none => simp only [hi]; exact hset
              | some cell =>
                cases cell with
                | list p => simp only [hi]; exact hset
                | map kd ents =>
                  cases kd with
                  | none => simp only [hi]; exact hset
                  | some f =>
                    exfalso
                    cases v3 with
                    | leaf l =>
                      rcases hv3.1 with ⟨h, _⟩ | ⟨i', h, h2, _⟩
                      · cases h
                      · cases h; rw [hi] at h2; cases h2
                    | sub kd t =>
                      obtain ⟨i', ce, g, h, h2, _⟩ := hv3
                      cases h
                      rw [hi] at h2
                      cases h2
                      exact hshape' _ _ rfl

theorem mergeLoop_value {lit : String → LitRes} {lim : Nat} {root : Flags} {rec : List String → Heap → Ents → Nat → Heap × Option Fail} {n : Nat}
    (hrec : ∀ pre H es ta fa b bf tb fp, HoldsEnts H es ta fa → depthT ta < n → depthT ta ≤ lim → Node H b bf tb fp → (∀ id ∈ fa, id ∉ b :: fp) →
      Merges H b bf fp (mergeEnts lit root pre ta bf tb) (rec pre H es b)) :
    ∀ (ta : Tree) (pre : List String) (H : Heap) (es : Ents) (fa : List Nat) (b : Nat) (bf : Flags) (tb : Tree) (fp : List Nat),
      HoldsEnts H es ta fa → depthT ta ≤ n → depthT ta ≤ lim → Node H b bf tb fp → (∀ id ∈ fa, id ∉ b :: fp) →
      Merges H b bf fp (mergeEnts lit root pre ta bf tb) (mergeLoop lit lim root rec pre H es b) := by
  intro ta
  induction ta with
  | nil =>
    intro pre H es fa b bf tb fp h _ _ hn _
    obtain ⟨rfl, rfl⟩ := h
    exact ⟨rfl, fp, hn, (Ext.refl H).upd b fp⟩
  | leaf k l rest ih =>
    intro pre H es fa b bf tb fp h hd hd' hn hfa
    obtain ⟨r, es', rfl, hl, hr⟩ := h
    rw [depthT] at hd hd'
    exact entry_value hrec (v := .leaf l) (fv := []) ⟨hl, rfl⟩ hr (by rw [depth]; omega) (by rw [depth]; omega) hn hfa
      fun H1 tb1 fp1 a c d => ih pre H1 es' fa b bf tb1 fp1 a (by omega) (by omega) c d
  | sub k kd t rest iht ihr =>
    intro pre H es fa b bf tb fp h hd hd' hn hfa
    obtain ⟨id, ce, es', f1, f2, rfl, hc, ht, hr, rfl⟩ := h
    rw [depthT] at hd hd'
    exact entry_value hrec (v := .sub kd t) (fv := id :: f1) ⟨id, ce, f1, rfl, hc, ht, rfl⟩ hr (by rw [depth]; omega) (by rw [depth]; omega) hn
      (fun i hi => hfa i (List.mem_cons_of_mem _ (List.mem_append_right _ hi)))
      fun H1 tb1 fp1 a c d => ihr pre H1 es' f2 b bf tb1 fp1 a (by omega) (by omega) c d

theorem merge_value {lit : String → LitRes} {lim : Nat} {root : Flags} : ∀ (n : Nat) (pre : List String) (H : Heap) (es : Ents) (ta : Tree) (fa : List Nat) (b : Nat)
    (bf : Flags) (tb : Tree) (fp : List Nat), HoldsEnts H es ta fa → depthT ta < n → depthT ta ≤ lim → Node H b bf tb fp → (∀ id ∈ fa, id ∉ b :: fp) →
      Merges H b bf fp (mergeEnts lit root pre ta bf tb) (merge lit lim root n pre H es b) := by
  intro n
  induction n with
  | zero => intro pre H es ta fa b bf tb fp _ h; omega
  | succ n ih =>
    intro pre H es ta fa b bf tb fp h hd hd' hn hfa
    exact mergeLoop_value ih ta pre H es fa b bf tb fp h (by omega) hd' hn hfa

/-- **C89.** `self.merge_from_other_cfg(other)` on objects: when no node occurs twice in the receiver, none of its nodes occurs in `other`, and
`other` is nested less than the recursion limit, the call raises what the value model raises and leaves in the receiver what the value model
leaves, again with no node twice. -/
theorem mergeFromOther_value {lit : String → LitRes} {lim : Nat} {H : Heap} {self : Nat} {other : Ref} {f : Flags} {t : Tree} {fp : List Nat} {v : Val} {fa : List Nat}
    (hs : Node H self f t fp) (ho : Holds H other v fa) (hd : depth v ≤ lim) (hfa : ∀ id ∈ fa, id ∉ self :: fp) :
    Merges H self f fp (Cfg.mergeFromOther lit f t v) (CfgMem.mergeFromOther lit lim H self other) := by
  have stay : ∀ {e}, Merges H self f fp (t, some e) (H, some (.py e)) := ⟨rfl, fp, hs, (Ext.refl H).upd self fp⟩
  cases v with
  | leaf l =>
    rcases ho.1 with ⟨rfl, _⟩ | ⟨i, rfl, h2, _⟩
    · exact stay
    · rw [CfgMem.mergeFromOther, h2]
      exact stay
  | sub kd ta =>
    obtain ⟨i, ce, g, rfl, hc, hg, rfl⟩ := ho
    obtain ⟨⟨bes, hb, he⟩, hnd⟩ := hs
    rw [CfgMem.mergeFromOther, hc, hb]
    cases kd with
    | none => exact stay
    | some af =>
      rw [depth] at hd
      exact merge_value lim [] H ce ta g self f t fp hg (by omega) (by omega) ⟨⟨bes, hb, he⟩, hnd⟩ fun id hid => hfa id (List.mem_cons_of_mem _ hid)

end Verif.CfgMem
