import Verif.CfgMem.Isolation
/-!
The value stored in a heap (`Cfg/Model`), and the operations that create objects: `clone`, construction, literals.
-/
namespace Verif.CfgMem
open Verif.Cfg

/-- The reference holds this leaf: a list is an object, anything else is the value itself. -/
def HoldsLeaf (H : Heap) (r : Ref) (l : Leaf) : Prop :=
  (r = .atom l ∧ l.ty ≠ .list) ∨ (∃ id, r = .obj id ∧ H[id]? = some (.list l.payload) ∧ l.ty = .list)

/-- The entries hold these options, in this order; `fp` lists the dict and node objects met on the way. -/
def HoldsEnts (H : Heap) : Ents → Tree → List Nat → Prop
  | es, .nil, fp => es = [] ∧ fp = []
  | es, .leaf k l rest, fp => ∃ r es', es = (k, r) :: es' ∧ HoldsLeaf H r l ∧ HoldsEnts H es' rest fp
  | es, .sub k kd t rest, fp => ∃ id ce es' f1 f2, es = (k, .obj id) :: es' ∧ H[id]? = some (.map kd ce) ∧ HoldsEnts H ce t f1 ∧
      HoldsEnts H es' rest f2 ∧ fp = id :: (f1 ++ f2)

/-- The reference holds this value. -/
def Holds (H : Heap) (r : Ref) : Val → List Nat → Prop
  | .leaf l, fp => HoldsLeaf H r l ∧ fp = []
  | .sub kd t, fp => ∃ id ce f, r = .obj id ∧ H[id]? = some (.map kd ce) ∧ HoldsEnts H ce t f ∧ fp = id :: f

/-- Nesting depth: `deepcopy` and `CfgNode(...)` recurse this far. -/
def depthT : Tree → Nat
  | .nil => 0
  | .leaf _ _ rest => max 1 (depthT rest)
  | .sub _ _ t rest => max (1 + depthT t) (depthT rest)

def depth : Val → Nat
  | .leaf _ => 1
  | .sub _ t => 1 + depthT t

theorem holdsLeaf_fun {H : Heap} {r : Ref} {l l' : Leaf} (h : HoldsLeaf H r l) (h' : HoldsLeaf H r l') : l = l' := by
  rcases h with ⟨h1, h2⟩ | ⟨i, h1, h2, h3⟩ <;> rcases h' with ⟨g1, g2⟩ | ⟨j, g1, g2, g3⟩
  · rw [h1] at g1; cases g1; rfl
  · rw [h1] at g1; cases g1
  · rw [h1] at g1; cases g1
  · rw [h1] at g1; cases g1
    rw [h2] at g2
    cases l; cases l'
    simp_all

theorem holdsEnts_fun {H : Heap} : ∀ (t t' : Tree) (es : Ents) (f f' : List Nat), HoldsEnts H es t f → HoldsEnts H es t' f' → t = t' ∧ f = f' := by
  intro t
  induction t with
  | nil =>
    intro t' es f f' h h'
    obtain ⟨rfl, rfl⟩ := h
    cases t' with
    | nil => exact ⟨rfl, h'.2.symm⟩
    | leaf => obtain ⟨_, _, h, _⟩ := h'; cases h
    | sub => obtain ⟨_, _, _, _, _, h, _⟩ := h'; cases h
  | leaf k l rest ih =>
    intro t' es f f' h h'
    obtain ⟨r, es', rfl, hl, hr⟩ := h
    cases t' with
    | nil => cases h'.1
    | leaf k' l' rest' =>
      obtain ⟨r', es'', h1, hl', hr'⟩ := h'
      cases h1
      obtain ⟨rfl, rfl⟩ := ih _ _ _ _ hr hr'
      rw [holdsLeaf_fun hl hl']
      exact ⟨rfl, rfl⟩
    | sub k' kd' t' rest' =>
      obtain ⟨id, ce, es'', f1, f2, h1, hc, _⟩ := h'
      cases h1
      rcases hl with ⟨h, _⟩ | ⟨i, h, h2, _⟩
      · cases h
      · cases h; rw [h2] at hc; cases hc
  | sub k kd t rest iht ihr =>
    intro t' es f f' h h'
    obtain ⟨id, ce, es', f1, f2, rfl, hc, ht, hr, rfl⟩ := h
    cases t' with
    | nil => cases h'.1
    | leaf k' l' rest' =>
      obtain ⟨r', es'', h1, hl, hr'⟩ := h'
      cases h1
      rcases hl with ⟨h, _⟩ | ⟨i, h, h2, _⟩
      · cases h
      · cases h; rw [h2] at hc; cases hc
    | sub k' kd' t' rest' =>
      obtain ⟨id', ce', es'', g1, g2, h1, hc', ht', hr', rfl⟩ := h'
      cases h1
      rw [hc] at hc'
      cases hc'
      obtain ⟨rfl, rfl⟩ := iht _ _ _ _ ht ht'
      obtain ⟨rfl, rfl⟩ := ihr _ _ _ _ hr hr'
      exact ⟨rfl, rfl⟩

/-- A reference holds at most one value. -/
theorem holds_fun {H : Heap} {r : Ref} {v v' : Val} {f f' : List Nat} (h : Holds H r v f) (h' : Holds H r v' f') : v = v' ∧ f = f' := by
  cases v with
  | leaf l => cases v' with
    | leaf l' => exact ⟨by rw [holdsLeaf_fun h.1 h'.1], h.2.trans h'.2.symm⟩
    | sub kd t =>
      obtain ⟨id, ce, g, rfl, hc, _⟩ := h'
      rcases h.1 with ⟨h, _⟩ | ⟨i, h, h2, _⟩
      · cases h
      · cases h; rw [h2] at hc; cases hc
  | sub kd t => cases v' with
    | leaf l =>
      obtain ⟨id, ce, g, rfl, hc, _⟩ := h
      rcases h'.1 with ⟨h, _⟩ | ⟨i, h, h2, _⟩
      · cases h
      · cases h; rw [h2] at hc; cases hc
    | sub kd' t' =>
      obtain ⟨id, ce, g, rfl, hc, ht, rfl⟩ := h
      obtain ⟨id', ce', g', h, hc', ht', rfl⟩ := h'
      cases h
      rw [hc] at hc'
      cases hc'
      obtain ⟨rfl, rfl⟩ := holdsEnts_fun _ _ _ _ _ ht ht'
      exact ⟨rfl, rfl⟩

/-- List objects keep their content. -/
def KeepLists (H H' : Heap) : Prop := ∀ (id : Nat) (p : String), H[id]? = some (Cell.list p) → H'[id]? = some (Cell.list p)

theorem HoldsLeaf.frame {H H' : Heap} (hk : KeepLists H H') {r : Ref} {l : Leaf} (h : HoldsLeaf H r l) : HoldsLeaf H' r l := by
  rcases h with h | ⟨id, h1, h2, h3⟩
  · exact Or.inl h
  · exact Or.inr ⟨id, h1, hk _ _ h2, h3⟩

theorem HoldsEnts.frame {H H' : Heap} (hk : KeepLists H H') : ∀ {t : Tree} {es : Ents} {f : List Nat}, (∀ id ∈ f, H'[id]? = H[id]?) →
    HoldsEnts H es t f → HoldsEnts H' es t f := by
  intro t
  induction t with
  | nil => intro es f _ h; exact h
  | leaf k l rest ih =>
    intro es f hf h
    obtain ⟨r, es', h1, h2, h3⟩ := h
    exact ⟨r, es', h1, h2.frame hk, ih hf h3⟩
  | sub k kd t rest iht ihr =>
    intro es f hf h
    obtain ⟨id, ce, es', f1, f2, h1, hc, ht, hr, rfl⟩ := h
    refine ⟨id, ce, es', f1, f2, h1, (hf id List.mem_cons_self).trans hc, iht (fun i hi => hf i ?_) ht, ihr (fun i hi => hf i ?_) hr, rfl⟩
    · exact List.mem_cons_of_mem _ (List.mem_append_left _ hi)
    · exact List.mem_cons_of_mem _ (List.mem_append_right _ hi)

theorem Holds.frame {H H' : Heap} (hk : KeepLists H H') {v : Val} {r : Ref} {f : List Nat} (hf : ∀ id ∈ f, H'[id]? = H[id]?)
    (h : Holds H r v f) : Holds H' r v f := by
  cases v with
  | leaf l => exact ⟨h.1.frame hk, h.2⟩
  | sub kd t =>
    obtain ⟨id, ce, g, h1, hc, ht, rfl⟩ := h
    exact ⟨id, ce, g, h1, (hf id List.mem_cons_self).trans hc, ht.frame hk fun i hi => hf i (List.mem_cons_of_mem _ hi), rfl⟩

/-- `H'` is `H` with more objects. -/
def Ext (H H' : Heap) : Prop := H.length ≤ H'.length ∧ ∀ id, id < H.length → H'[id]? = H[id]?

theorem Ext.refl (H : Heap) : Ext H H := ⟨Nat.le_refl _, fun _ _ => rfl⟩
theorem Ext.trans {H H' H'' : Heap} (h : Ext H H') (h' : Ext H' H'') : Ext H H'' :=
  ⟨Nat.le_trans h.1 h'.1, fun id hi => (h'.2 id (Nat.lt_of_lt_of_le hi h.1)).trans (h.2 id hi)⟩
theorem Ext.append (H : Heap) (c : Cell) : Ext H (H ++ [c]) := ⟨by simp, fun id hi => List.getElem?_append_left hi⟩
theorem Ext.get {H H' : Heap} (h : Ext H H') {id : Nat} {c : Cell} (hc : H[id]? = some c) : H'[id]? = some c :=
  (h.2 id (List.getElem?_eq_some_iff.1 hc).1).trans hc
theorem Ext.keep {H H' : Heap} (h : Ext H H') : KeepLists H H' := fun _ _ => h.get

theorem HoldsEnts.lt {H : Heap} : ∀ {t : Tree} {es : Ents} {f : List Nat}, HoldsEnts H es t f → ∀ id ∈ f, id < H.length := by
  intro t
  induction t with
  | nil => intro es f h; rw [h.2]; exact fun _ h => absurd h List.not_mem_nil
  | leaf k l rest ih => intro es f h; obtain ⟨r, es', _, _, h⟩ := h; exact ih h
  | sub k kd t rest iht ihr =>
    intro es f h
    obtain ⟨id, ce, es', f1, f2, h1, hc, ht, hr, rfl⟩ := h
    intro i hi
    rcases List.mem_cons.1 hi with hi | hi
    · rw [hi]; exact (List.getElem?_eq_some_iff.1 hc).1
    · rcases List.mem_append.1 hi with hi | hi
      · exact iht ht i hi
      · exact ihr hr i hi

theorem Holds.lt {H : Heap} {v : Val} {r : Ref} {f : List Nat} (h : Holds H r v f) : ∀ id ∈ f, id < H.length := by
  cases v with
  | leaf l => rw [h.2]; exact fun _ h => absurd h List.not_mem_nil
  | sub kd t =>
    obtain ⟨id, ce, g, _, hc, ht, rfl⟩ := h
    intro i hi
    rcases List.mem_cons.1 hi with hi | hi
    · rw [hi]; exact (List.getElem?_eq_some_iff.1 hc).1
    · exact ht.lt i hi

theorem HoldsEnts.ext {H H' : Heap} (he : Ext H H') {t : Tree} {es : Ents} {f : List Nat} (h : HoldsEnts H es t f) : HoldsEnts H' es t f :=
  h.frame he.keep fun id hi => he.2 id (h.lt id hi)
theorem Holds.ext {H H' : Heap} (he : Ext H H') {v : Val} {r : Ref} {f : List Nat} (h : Holds H r v f) : Holds H' r v f :=
  h.frame he.keep fun id hi => he.2 id (h.lt id hi)
theorem HoldsLeaf.ext {H H' : Heap} (he : Ext H H') {l : Leaf} {r : Ref} (h : HoldsLeaf H r l) : HoldsLeaf H' r l := h.frame he.keep

/-- Values that are not written to keep their value. -/
theorem Unchanged.holds {H H' : Heap} {y : Ref} (h : Unchanged H H' y) {v : Val} {f : List Nat} (hv : Holds H y v f) : Holds H' y v f := by
  have key : ∀ (t : Tree) (es : Ents) (f : List Nat) (pre : ∀ k j, (k, Ref.obj j) ∈ es → Reach H y j), HoldsEnts H es t f → HoldsEnts H' es t f := by
    intro t
    induction t with
    | nil => intro es f _ h; exact h
    | leaf k l rest ih =>
      intro es f pre hh
      obtain ⟨r, es', rfl, h2, h3⟩ := hh
      refine ⟨r, es', rfl, ?_, ih _ _ (fun k j hm => pre k j (List.mem_cons_of_mem _ hm)) h3⟩
      rcases h2 with h2 | ⟨id, rfl, h2, h4⟩
      · exact Or.inl h2
      · exact Or.inr ⟨id, rfl, (h.1 id (pre k id List.mem_cons_self)).trans h2, h4⟩
    | sub k kd t rest iht ihr =>
      intro es f pre hh
      obtain ⟨id, ce, es', f1, f2, rfl, hc, ht, hr, rfl⟩ := hh
      have hid := pre k id List.mem_cons_self
      exact ⟨id, ce, es', f1, f2, rfl, (h.1 id hid).trans hc, iht _ _ (fun k j hm => .step hid hc hm) ht,
        ihr _ _ (fun k j hm => pre k j (List.mem_cons_of_mem _ hm)) hr, rfl⟩
  cases v with
  | leaf l =>
    refine ⟨?_, hv.2⟩
    rcases hv.1 with h2 | ⟨id, rfl, h2, h4⟩
    · exact Or.inl h2
    · exact Or.inr ⟨id, rfl, (h.1 id (.here rfl)).trans h2, h4⟩
  | sub kd t =>
    obtain ⟨id, ce, g, rfl, hc, ht, rfl⟩ := hv
    exact ⟨id, ce, g, rfl, (h.1 id (.here rfl)).trans hc, key _ _ _ (fun k j hm => .step (.here rfl) hc hm) ht, rfl⟩

/-! ### `copy.deepcopy` -/

/-- What has been copied holds what its source held. -/
def MemoOk (H0 H : Heap) (m : Memo) : Prop := ∀ i j, (i, j) ∈ m → ∀ v f, Holds H0 (.obj i) v f → ∃ f', Holds H (.obj j) v f'

theorem MemoOk.ext {H0 H H' : Heap} {m : Memo} (h : MemoOk H0 H m) (he : Ext H H') : MemoOk H0 H' m := fun i j hm v f hv => by
  obtain ⟨f', h'⟩ := h i j hm v f hv
  exact ⟨f', h'.ext he⟩

theorem copyEnts_holds {f : Heap → Memo → Ref → Option (Heap × Memo × Ref)} {H0 : Heap} {n : Nat}
    (hf : ∀ H m r v fp, Ext H0 H → MemoOk H0 H m → Holds H0 r v fp → depth v ≤ n →
      ∃ H' m' r' fp', f H m r = some (H', m', r') ∧ Ext H H' ∧ MemoOk H0 H' m' ∧ Holds H' r' v fp') :
    ∀ (t : Tree) (es : Ents) (fp : List Nat) (H : Heap) (m : Memo), Ext H0 H → MemoOk H0 H m → HoldsEnts H0 es t fp → depthT t ≤ n →
      ∃ H' m' es' fp', copyEnts f H m es = some (H', m', es') ∧ Ext H H' ∧ MemoOk H0 H' m' ∧ HoldsEnts H' es' t fp' := by
  intro t
  induction t with
  | nil =>
    intro es fp H m he hm h _
    obtain ⟨rfl, rfl⟩ := h
    exact ⟨H, m, [], [], rfl, Ext.refl H, hm, rfl, rfl⟩
  | leaf k l rest ih =>
    intro es fp H m he hm h hd
    obtain ⟨r, es', rfl, hl, hr⟩ := h
    rw [depthT] at hd
    have h1 : ∃ H' m' r' fp', f H m r = some (H', m', r') ∧ Ext H H' ∧ MemoOk H0 H' m' ∧ Holds H' r' (.leaf l) fp' := by
      rcases Nat.lt_or_ge n 1 with hn | hn
      · omega
      · exact hf H m r (.leaf l) [] he hm ⟨hl, rfl⟩ hn
    obtain ⟨H1, m1, r1, fp1, h1, e1, hm1, hv1⟩ := h1
    obtain ⟨H2, m2, es2, fp2, h2, e2, hm2, hv2⟩ := ih es' fp H1 m1 (he.trans e1) hm1 hr (by omega)
    refine ⟨H2, m2, (k, r1) :: es2, fp2, ?_, e1.trans e2, hm2, r1, es2, rfl, hv1.1.ext e2, hv2⟩
    rw [copyEnts, h1]
    simp only [h2]
  | sub k kd t rest iht ihr =>
    intro es fp H m he hm h hd
    obtain ⟨id, ce, es', f1, f2, rfl, hc, ht, hr, rfl⟩ := h
    rw [depthT] at hd
    obtain ⟨H1, m1, r1, fp1, h1, e1, hm1, hv1⟩ := hf H m (.obj id) (.sub kd t) (id :: f1) he hm ⟨id, ce, f1, rfl, hc, ht, rfl⟩ (by rw [depth]; omega)
    obtain ⟨H2, m2, es2, fp2, h2, e2, hm2, hv2⟩ := ihr es' f2 H1 m1 (he.trans e1) hm1 hr (by omega)
    obtain ⟨id1, ce1, g1, rfl, hc1, ht1, rfl⟩ := hv1
    refine ⟨H2, m2, (k, .obj id1) :: es2, id1 :: (g1 ++ fp2), ?_, e1.trans e2, hm2, id1, ce1, es2, g1, fp2, rfl, e2.get hc1, ht1.ext e2, hv2, rfl⟩
    rw [copyEnts, h1]
    simp only [h2]

theorem copyRef_atom (n : Nat) (H : Heap) (m : Memo) (l : Leaf) : copyRef n H m (.atom l) = some (H, m, .atom l) := by
  cases n <;> rfl

/-- A deep copy of a value nested at most `n` levels succeeds and holds the same value. -/
theorem copyRef_holds {H0 : Heap} : ∀ (n : Nat) (H : Heap) (m : Memo) (r : Ref) (v : Val) (fp : List Nat), Ext H0 H → MemoOk H0 H m → Holds H0 r v fp → depth v ≤ n →
    ∃ H' m' r' fp', copyRef n H m r = some (H', m', r') ∧ Ext H H' ∧ MemoOk H0 H' m' ∧ Holds H' r' v fp' := by
  intro n
  induction n with
  | zero =>
    intro H m r v fp he hm hv hd
    cases v with
    | leaf l => rw [depth] at hd; omega
    | sub kd t => rw [depth] at hd; omega
  | succ n ih =>
    intro H m r v fp he hm hv hd
    cases r with
    | atom l =>
      refine ⟨H, m, .atom l, fp, rfl, Ext.refl H, hm, hv.ext he⟩
    | obj id =>
      rw [copyRef]
      cases hl : m.lookup id with
      | some j =>
        obtain ⟨f', h'⟩ := hm id j (lookup_mem hl) v fp hv
        exact ⟨H, m, .obj j, f', rfl, Ext.refl H, hm, h'⟩
      | none =>
        cases v with
        | leaf l =>
          rcases hv.1 with ⟨h, _⟩ | ⟨i, h, h2, h3⟩
          · cases h
          · cases h
            have e1 := Ext.append H (.list l.payload)
            have hnew : Holds (H ++ [.list l.payload]) (.obj H.length) (.leaf l) [] :=
              ⟨Or.inr ⟨H.length, rfl, by simp, h3⟩, rfl⟩
            simp only [he.get h2]
            refine ⟨_, _, _, [], rfl, e1, fun a b hab v' f' hv' => ?_, hnew⟩
            rcases List.mem_cons.1 hab with hab | hab
            · cases hab
              obtain ⟨rfl, rfl⟩ := holds_fun hv' hv
              exact ⟨[], hnew⟩
            · exact (hm.ext e1) a b hab v' f' hv'
        | sub kd t =>
          obtain ⟨i, ce, g, h, hc, ht, rfl⟩ := hv
          cases h
          rw [depth] at hd
          obtain ⟨H1, m1, es1, fp1, h1, e1, hm1, hv1⟩ := copyEnts_holds (H0 := H0) (n := n) (f := copyRef n) ih t ce g H m he hm ht (by omega)
          simp only [he.get hc, h1]
          have e2 := Ext.append H1 (.map kd es1)
          have hnew : Holds (H1 ++ [.map kd es1]) (.obj H1.length) (.sub kd t) (H1.length :: fp1) :=
            ⟨H1.length, es1, fp1, rfl, by simp, hv1.ext e2, rfl⟩
          refine ⟨_, _, _, _, rfl, e1.trans e2, fun a b hab v' f' hv' => ?_, hnew⟩
          rcases List.mem_cons.1 hab with hab | hab
          · cases hab
            have hsrc : Holds H0 (.obj id) (.sub kd t) (id :: g) := ⟨id, ce, g, rfl, hc, ht, rfl⟩
            obtain ⟨rfl, rfl⟩ := holds_fun hv' hsrc
            exact ⟨_, hnew⟩
          · exact (hm1.ext e2) a b hab v' f' hv'

/-- **C89.** `clone()` succeeds on every config nested less than the recursion limit, and the clone has the same options, in the same order,
and the same internal state (frozen or not, deprecated and renamed keys) at every level. -/
theorem clone_value {lim : Nat} {H : Heap} {r : Ref} {v : Val} {fp : List Nat} (hv : Holds H r v fp) (hd : depth v ≤ lim) :
    ∃ H' r' fp', clone lim H r = .ok (H', r') ∧ Holds H' r' v fp' := by
  obtain ⟨H', m', r', fp', h1, -, -, h2⟩ := copyRef_holds lim H [] r v fp (Ext.refl H) (fun i j h => absurd h List.not_mem_nil) hv hd
  exact ⟨H', r', fp', by rw [clone, h1], h2⟩

/-! ### Construction -/

/-- New objects only, each met once. -/
def FreshFp (H H' : Heap) (fp : List Nat) : Prop := fp.Nodup ∧ ∀ id ∈ fp, H.length ≤ id ∧ id < H'.length

theorem FreshFp.nil (H H' : Heap) : FreshFp H H' [] := ⟨List.nodup_nil, fun _ h => absurd h List.not_mem_nil⟩

theorem FreshFp.cons_append {H H1 H2 : Heap} {f1 f2 : List Nat} (h1 : FreshFp H H1 f1) (h2 : FreshFp H1 H2 f2) (hl : H.length ≤ H1.length)
    (hl2 : H1.length ≤ H2.length) : FreshFp H H2 (f1 ++ f2) := by
  refine ⟨List.nodup_append.2 ⟨h1.1, h2.1, fun a ha b hb => ?_⟩, fun id hid => ?_⟩
  · have := h1.2 a ha; have := h2.2 b hb; omega
  · rcases List.mem_append.1 hid with h | h
    · have := h1.2 id h; omega
    · have := h2.2 id h; omega

theorem FreshFp.snoc {H H1 : Heap} {f1 : List Nat} (h1 : FreshFp H H1 f1) (hl : H.length ≤ H1.length) (c : Cell) : FreshFp H (H1 ++ [c]) (H1.length :: f1) := by
  refine ⟨List.nodup_cons.2 ⟨fun h => ?_, h1.1⟩, fun id hid => ?_⟩
  · have := h1.2 _ h; omega
  · rcases List.mem_cons.1 hid with h | h
    · rw [h]; simp; omega
    · have := h1.2 id h; simp; omega

/-- What `CfgNode(...)` and `_decode_cfg_value` must return. -/
def Makes (H : Heap) (want : Except Err Val) (got : Except Fail (Heap × Ref)) : Prop :=
  match want with
  | .error e => got = .error (.py e)
  | .ok v => ∃ H' r fp, got = .ok (H', r) ∧ Ext H H' ∧ Holds H' r v fp ∧ FreshFp H H' fp

theorem buildEnts_value {new : Heap → Ref → Except Fail (Heap × Ref)} {n : Nat}
    (hn : ∀ H id kd t fp, Holds H (.obj id) (.sub kd t) fp → depth (.sub kd t) ≤ n → Makes H (Cfg.construct t false) (new H (.obj id))) :
    ∀ (t : Tree) (es : Ents) (fp : List Nat) (H : Heap), HoldsEnts H es t fp → depthT t ≤ n →
      match build t with
      | .error e => buildEnts new H es = .error (.py e)
      | .ok t' => ∃ H' es' fp', buildEnts new H es = .ok (H', es') ∧ Ext H H' ∧ HoldsEnts H' es' t' fp' ∧ FreshFp H H' fp' := by
  intro t
  induction t with
  | nil =>
    intro es fp H h _
    obtain ⟨rfl, rfl⟩ := h
    exact ⟨H, [], [], rfl, Ext.refl H, ⟨rfl, rfl⟩, FreshFp.nil _ _⟩
  | leaf k l rest ih =>
    intro es fp H h hd
    obtain ⟨r, es', rfl, hl, hr⟩ := h
    rw [depthT] at hd
    have hih := ih es' fp H hr (by omega)
    rw [build]
    have hb : buildVal new H r = if l.valid then .ok (H, r) else .error (.py .assertion) := by
      rcases hl with ⟨rfl, _⟩ | ⟨id, rfl, h2, h3⟩
      · rfl
      · have : l.valid = true := by rw [Leaf.valid, h3]
        rw [buildVal, if_pos this, h2]
    rw [buildEnts, hb]
    by_cases hv : l.valid = true
    · rw [if_pos hv, if_pos hv]
      cases hb' : build rest with
      | error e =>
        rw [hb'] at hih
        simp only at hih ⊢
        rw [hih]
        rfl
      | ok t' =>
        rw [hb'] at hih
        obtain ⟨H', es2, fp', h1, e1, h2, h3⟩ := hih
        simp only [h1]
        exact ⟨H', (k, r) :: es2, fp', rfl, e1, ⟨r, es2, rfl, hl.ext e1, h2⟩, h3⟩
    · rw [if_neg hv, if_neg hv]
  | sub k kd t rest iht ihr =>
    intro es fp H h hd
    obtain ⟨id, ce, es', f1, f2, rfl, hc, ht, hr, rfl⟩ := h
    rw [depthT] at hd
    have h1 := hn H id kd t (id :: f1) ⟨id, ce, f1, rfl, hc, ht, rfl⟩ (by rw [depth]; omega)
    rw [buildEnts, buildVal, hc]
    rw [build]
    unfold Cfg.construct at h1
    cases hb : build t with
    | error e =>
      rw [hb] at h1
      have h1' : new H (.obj id) = .error (.py e) := h1
      simp only [h1']
      rfl
    | ok t' =>
      rw [hb] at h1
      obtain ⟨H1, r1, fp1, h1, e1, hv1, hf1⟩ := h1
      have hih := ihr es' f2 H1 (hr.ext e1) (by omega)
      simp only [h1]
      cases hb' : build rest with
      | error e =>
        rw [hb'] at hih
        simp only at hih
        simp only [hih]
        rfl
      | ok t'' =>
        rw [hb'] at hih
        obtain ⟨H2, es2, fp2, h2, e2, hv2, hf2⟩ := hih
        simp only [h2]
        obtain ⟨id1, ce1, g1, rfl, hc1, ht1, rfl⟩ := hv1
        exact ⟨H2, (k, .obj id1) :: es2, _, rfl, e1.trans e2, ⟨id1, ce1, es2, g1, fp2, rfl, e2.get hc1, ht1.ext e2, hv2, rfl⟩,
          hf1.cons_append hf2 e1.1 e2.1⟩

/-- **C89.** `CfgNode(d)` on objects does what `Cfg.construct` does on values, and every node of the result is new and occurs once: nodes shared
inside `d` are shared no more. -/
theorem construct_value : ∀ (n : Nat) (H : Heap) (id : Nat) (kd : Option Flags) (t : Tree) (fp : List Nat) (na : Bool),
    Holds H (.obj id) (.sub kd t) fp → depth (.sub kd t) ≤ n → Makes H (Cfg.construct t na) (CfgMem.construct n H (.obj id) na) := by
  intro n
  induction n with
  | zero => intro H id kd t fp na _ hd; rw [depth] at hd; omega
  | succ n ih =>
    intro H id kd t fp na hv hd
    obtain ⟨H1, m1, r1, fp1, h1, e1, -, hv1⟩ := copyRef_holds (n + 1) H [] (.obj id) _ fp (Ext.refl H) (fun i j h => absurd h List.not_mem_nil) hv hd
    obtain ⟨id1, ce1, g1, rfl, hc1, ht1, rfl⟩ := hv1
    rw [depth] at hd
    have hb := buildEnts_value (new := fun H r => CfgMem.construct n H r false) (n := n) (fun H id kd t fp h h' => ih H id kd t fp false h h')
      t ce1 g1 H1 ht1 (by omega)
    rw [CfgMem.construct, h1]
    simp only [hc1]
    unfold Cfg.construct
    cases hbt : build t with
    | error e =>
      rw [hbt] at hb
      simp only at hb
      simp only [hb]
      rfl
    | ok t' =>
      rw [hbt] at hb
      obtain ⟨H2, es2, fp2, h2, e2, hv2, hf2⟩ := hb
      simp only [h2]
      have e3 := Ext.append H2 (.map (some { Flags.fresh with newAllowed := na }) es2)
      refine ⟨_, _, H2.length :: fp2, rfl, (e1.trans e2).trans e3, ⟨H2.length, es2, fp2, rfl, by simp, hv2.ext e3, rfl⟩, ?_⟩
      refine FreshFp.snoc (H := H) ⟨hf2.1, fun i hi => ?_⟩ (e1.trans e2).1 _
      have := hf2.2 i hi
      have := e1.1
      omega

theorem ofLeaf_value (H : Heap) (l : Leaf) : Ext H (ofLeaf H l).1 ∧ HoldsLeaf (ofLeaf H l).1 (ofLeaf H l).2 l := by
  unfold ofLeaf
  split
  · exact ⟨Ext.append _ _, Or.inr ⟨H.length, rfl, by simp, ‹_›⟩⟩
  · exact ⟨Ext.refl _, Or.inl ⟨rfl, ‹_›⟩⟩

theorem ofTree_value : ∀ (t : Tree) (H : Heap), ∃ fp, Ext H (ofTree H t).1 ∧ HoldsEnts (ofTree H t).1 (ofTree H t).2 t fp ∧ FreshFp H (ofTree H t).1 fp
  | .nil, H => ⟨[], Ext.refl H, ⟨rfl, rfl⟩, FreshFp.nil _ _⟩
  | .leaf k l rest, H => by
    obtain ⟨e1, h1⟩ := ofLeaf_value H l
    obtain ⟨fp, e2, h2, h3⟩ := ofTree_value rest (ofLeaf H l).1
    refine ⟨fp, e1.trans e2, ⟨_, _, rfl, h1.ext e2, h2⟩, h3.1, fun id hid => ?_⟩
    have := h3.2 id hid
    have := e1.1
    exact ⟨by omega, (h3.2 id hid).2⟩
  | .sub k kd t rest, H => by
    obtain ⟨f1, e1, h1, g1⟩ := ofTree_value t H
    have e2 := Ext.append (ofTree H t).1 (.map kd (ofTree H t).2)
    obtain ⟨f2, e3, h3, g3⟩ := ofTree_value rest ((ofTree H t).1 ++ [.map kd (ofTree H t).2])
    refine ⟨(ofTree H t).1.length :: (f1 ++ f2), (e1.trans e2).trans e3,
      ⟨(ofTree H t).1.length, (ofTree H t).2, _, f1, f2, rfl, e3.get (by simp), (h1.ext e2).ext e3, h3, rfl⟩, ?_⟩
    exact (g1.snoc e1.1 _).cons_append g3 (e1.trans e2).1 e3.1

end Verif.CfgMem
