import Verif.CfgMem.Merge
/-!
`merge_from_list` and `freeze` on objects do what the value model does, provided no dict or node of the receiver occurs in it twice.
-/
namespace Verif.CfgMem
open Verif.Cfg

/-- Replacing what a nested dict or node holds. -/
theorem plug {H : Heap} {b : Nat} {kd : Option Flags} {t : Tree} {fp : List Nat} (h : MapAt H b kd t fp) {k : String} {ckd : Option Flags} {tc : Tree}
    (hg : t.get k = some (.sub ckd tc)) :
    ∃ c fc bes, H[b]? = some (.map kd bes) ∧ look k bes = some (.obj c) ∧ MapAt H c ckd tc fc ∧ (∀ id ∈ c :: fc, id ∈ fp) ∧
      ∀ H' ckd' tc' fc', Upd H H' c fc fc' → MapAt H' c ckd' tc' fc' → ∃ fp', MapAt H' b kd (t.set k (.sub ckd' tc')) fp' ∧ Upd H H' b fp fp' := by
  have h0 := h
  obtain ⟨⟨bes, hb, he⟩, hnd⟩ := h
  obtain ⟨ro, f1, fo, f2, j1, j2, rfl, j4, j5⟩ := (look_value (k := k) he).2 _ hg
  obtain ⟨c, ces, fc, rfl, hcc, hces, rfl⟩ := j2
  obtain ⟨hb1, hnd2⟩ := List.nodup_cons.1 hnd
  obtain ⟨n1, n2, n3⟩ := List.nodup_append.1 hnd2
  obtain ⟨n4, n5, n6⟩ := List.nodup_append.1 n2
  have hmemc : ∀ id ∈ c :: fc, id ∈ f1 ++ ((c :: fc) ++ f2) := fun id h => List.mem_append_right _ (List.mem_append_left _ h)
  have hcn : MapAt H c ckd tc fc := ⟨⟨ces, hcc, hces⟩, n4⟩
  refine ⟨c, fc, bes, hb, j1, hcn, hmemc, fun H' ckd' tc' fc' hu hm => ?_⟩
  have hlt : ∀ id ∈ b :: (f1 ++ ((c :: fc) ++ f2)), id < H.length := h0.lt
  obtain ⟨⟨ces', hcc', hces'⟩, hndc⟩ := hm
  have hbes' := j5 H' (.obj c) (.sub ckd' tc') (c :: fc') (hu.keep hcn) (fun id hid => by
      refine hu.frame id (hlt id (List.mem_cons_of_mem _ ?_)) fun hm => ?_
      · rcases hid with h | h
        · exact List.mem_append_left _ h
        · exact List.mem_append_right _ (List.mem_append_right _ h)
      · rcases hid with h | h
        · exact n3 id h id (List.mem_append_left _ hm) rfl
        · exact n6 id hm id h rfl) ⟨c, ces', fc', rfl, hcc', hces', rfl⟩
  rw [j4] at hbes'
  have hbb : H'[b]? = some (.map kd bes) := by
    rw [hu.frame b (hlt b List.mem_cons_self) fun hm => hb1 (hmemc b hm), hb]
  have hnew : ∀ id ∈ c :: fc', id ∈ c :: fc ∨ H.length ≤ id := by
    intro id hid
    rcases List.mem_cons.1 hid with h | h
    · rw [h]; exact Or.inl List.mem_cons_self
    · rcases hu.sub id h with h | h
      · exact Or.inl (List.mem_cons_of_mem _ h)
      · exact Or.inr h
  have hsub : ∀ id ∈ f1 ++ ((c :: fc') ++ f2), id ∈ f1 ++ ((c :: fc) ++ f2) ∨ H.length ≤ id := by
    intro id hid
    rcases List.mem_append.1 hid with h | h
    · exact Or.inl (List.mem_append_left _ h)
    · rcases List.mem_append.1 h with h | h
      · rcases hnew id h with h | h
        · exact Or.inl (hmemc id h)
        · exact Or.inr h
      · exact Or.inl (List.mem_append_right _ (List.mem_append_right _ h))
  refine ⟨f1 ++ ((c :: fc') ++ f2), ⟨⟨bes, hbb, hbes'⟩, List.nodup_cons.2 ⟨fun h => ?_,
    List.nodup_append.2 ⟨n1, List.nodup_append.2 ⟨hndc, n5, fun a ha d hd had => ?_⟩, fun a ha d hd had => ?_⟩⟩⟩, ⟨hu.len, fun id hid hm => ?_, hsub⟩⟩
  · rcases hsub b h with h | h
    · exact hb1 h
    · have := hlt b List.mem_cons_self; omega
  · rcases hnew a ha with h | h
    · exact n6 a h d hd had
    · have := hlt d (List.mem_cons_of_mem _ (List.mem_append_right _ (List.mem_append_right _ hd))); omega
  · have hal := hlt a (List.mem_cons_of_mem _ (List.mem_append_left _ ha))
    rcases List.mem_append.1 hd with h | h
    · rcases hnew d h with h | h
      · exact n3 a ha d (List.mem_append_left _ h) had
      · omega
    · exact n3 a ha d (List.mem_append_right _ h) had
  · exact hu.frame id hid fun h => hm (List.mem_cons_of_mem _ (hmemc id h))

/-! ### `merge_from_list` -/

/-- What an assignment into `b` must do. -/
def Assigns (H : Heap) (b : Nat) (kd : Option Flags) (fp : List Nat) (want : Except Err Tree) (got : Except Fail Heap) : Prop :=
  match want with
  | .error e => got = .error (.py e)
  | .ok t => ∃ H' fp', got = .ok H' ∧ MapAt H' b kd t fp' ∧ Upd H H' b fp fp'

theorem assign_value (lit : String → LitRes) {lim : Nat} {r : Ref} {v : Val} : ∀ (ks : List String) (H : Heap) (b : Nat) (kd : Option Flags) (t : Tree) (fp fv : List Nat),
    MapAt H b kd t fp → Holds H r v fv → depth v ≤ lim → Assigns H b kd fp (assignPath lit v ks t) (assign lit lim H b ks r)
  | [], H, b, kd, t, fp, fv, hm, hv, hd => by
    rw [assignPath, assign, walk]
    rfl
  | [k], H, b, kd, t, fp, fv, hm, hv, hd => by
    have hm0 := hm
    obtain ⟨⟨bes, hb, he⟩, hnd⟩ := hm
    rw [assignPath, assign, walk, hb]
    cases hg : t.get k with
    | none =>
      obtain ⟨j1, -⟩ := (look_value (k := k) he).1 hg
      simp only [j1]
      rfl
    | some old =>
      obtain ⟨ro, f1, fo, f2, j1, -⟩ := (look_value (k := k) he).2 _ hg
      simp only [j1, Option.isSome_some, if_true]
      have hdec := decode_value lit hv hd
      cases hdv : Cfg.decode lit v with
      | error e =>
        rw [hdv] at hdec
        have hdec' : CfgMem.decode lit lim H r = .error (.py e) := hdec
        simp only [hdec']
        rfl
      | ok v2 =>
        rw [hdv] at hdec
        obtain ⟨H2, r2, fp2, h2, e2, hv2, hf2⟩ := hdec
        simp only [h2, e2.get hb, j1]
        obtain ⟨ro', f1', fo', f2', j1', j2', -⟩ := (look_value (k := k) (he.ext e2)).2 _ hg
        rw [j1] at j1'
        cases j1'
        have hco := coerce_value hv2 j2'
        simp only [bind, Except.bind]
        cases hc : Cfg.coerce v2 old with
        | error e =>
          rw [hc] at hco
          have hco' : CfgMem.coerce H2 r2 ro = .error (.py e) := hco
          simp only [hco']
          rfl
        | ok v3 =>
          rw [hc] at hco
          obtain ⟨H3, r3, h3, e3, hv3⟩ := hco
          simp only [h3]
          have e23 := e2.trans e3
          obtain ⟨fp', hn', hsub, hlen, hne⟩ := setEnt_value (k := k) (hm0.ext e23) hv3 hf2.1 fun id hid hmem => by
            have := (hf2.2 id hid).1
            have := hm0.lt id hmem
            omega
          refine ⟨_, fp', rfl, hn', ⟨by rw [hlen]; exact e23.1, fun id hid hmem => ?_, fun id hid => ?_⟩⟩
          · rw [hne id fun h => hmem (h ▸ List.mem_cons_self), e23.2 id hid]
          · rcases hsub id hid with h | h
            · exact Or.inl h
            · exact Or.inr (hf2.2 id h).1
  | k :: k' :: ks, H, b, kd, t, fp, fv, hm, hv, hd => by
    rw [assignPath]
    have hm0 := hm
    cases hg : t.get k with
    | none =>
      obtain ⟨⟨bes, hb, he⟩, hnd⟩ := hm
      obtain ⟨j1, -⟩ := (look_value (k := k) he).1 hg
      rw [assign, walk, hb]
      simp only [j1]
      rfl
    | some old =>
      cases old with
      | leaf l =>
        obtain ⟨⟨bes, hb, he⟩, hnd⟩ := hm
        obtain ⟨ro, f1, fo, f2, j1, j2, -⟩ := (look_value (k := k) he).2 _ hg
        rw [assign, walk, hb]
        simp only [j1]
        rcases j2.1 with ⟨rfl, _⟩ | ⟨i, rfl, h2, _⟩
        · rfl
        · cases ks with
          | nil => simp only [walk, h2]; rfl
          | cons a as => simp only [walk, h2]; rfl
      | sub ckd tc =>
        obtain ⟨c, fc, bes, hb, j1, hcm, -, hplug⟩ := plug hm hg
        have ih := assign_value lit (k' :: ks) H c ckd tc fc fv hcm hv hd
        have heq : assign lit lim H b (k :: k' :: ks) r = assign lit lim H c (k' :: ks) r := by
          rw [assign, assign, walk, hb]
          simp only [j1]
        rw [heq]
        simp only [bind, Except.bind]
        cases ha : assignPath lit v (k' :: ks) tc with
        | error e => rw [ha] at ih; exact ih
        | ok t' =>
          rw [ha] at ih
          obtain ⟨H', fc', h1, h2, h3⟩ := ih
          obtain ⟨fp', h4, h5⟩ := hplug H' ckd t' fc' h3 h2
          exact ⟨H', fp', h1, h4, h5⟩

theorem listStep_value (lit : String → LitRes) {lim : Nat} {root : Flags} {r : Ref} {v : Val} {key : String} {H : Heap} {b : Nat} {kd : Option Flags} {t : Tree} {fp fv : List Nat}
    (hm : MapAt H b kd t fp) (hv : Holds H r v fv) (hd : depth v ≤ lim) :
    Assigns H b kd fp (Cfg.listStep lit root (.leaf ⟨.str, key⟩) v t) (CfgMem.listStep lit lim root H b key r) := by
  rw [CfgMem.listStep]
  unfold Cfg.listStep
  dsimp only
  by_cases h1 : root.deprecated.contains key = true
  · rw [if_pos h1, if_pos h1]
    exact ⟨H, fp, rfl, hm, (Ext.refl H).upd b fp⟩
  · rw [if_neg h1, if_neg h1]
    by_cases h2 : root.renamed.contains key = true
    · rw [if_pos h2, if_pos h2]
      rfl
    · rw [if_neg h2, if_neg h2]
      exact assign_value lit _ H b kd t fp fv hm hv hd

/-- The list argument of `merge_from_list`, as values: `[k1, v1, k2, v2, ...]`. -/
def flatArgs : List (String × Ref × Val) → List Val
  | [] => []
  | (k, _, v) :: qs => .leaf ⟨.str, k⟩ :: v :: flatArgs qs

theorem flatArgs_even : ∀ (qs : List (String × Ref × Val)), (flatArgs qs).length % 2 = 0
  | [] => rfl
  | (k, r, v) :: qs => by
    have := flatArgs_even qs
    simp only [flatArgs, List.length_cons]
    omega

/-- **C89.** `self.merge_from_list([k1, v1, ...])` on objects raises what the value model raises and leaves in the receiver what it leaves, for string
keys and values that share no dict or node with the receiver. -/
theorem mergeFromList_value {lit : String → LitRes} {lim : Nat} {root : Flags} {b : Nat} {f : Flags} : ∀ (qs : List (String × Ref × Val)) {H : Heap} {t : Tree} {fp : List Nat},
    Node H b f t fp → (∀ q ∈ qs, depth q.2.2 ≤ lim ∧ ∃ fv, Holds H q.2.1 q.2.2 fv ∧ ∀ id ∈ fv, id ∉ b :: fp) →
    Merges H b f fp (Cfg.mergeFromList lit root t (flatArgs qs)) (CfgMem.mergeFromList lit lim root b H (qs.map fun q => (q.1, q.2.1))) := by
  intro qs
  induction qs with
  | nil =>
    intro H t fp hm _
    exact ⟨rfl, fp, hm, (Ext.refl H).upd b fp⟩
  | cons q qs ih =>
    intro H t fp hm hq
    obtain ⟨k, r, v⟩ := q
    obtain ⟨hd, fv, hv, -⟩ := hq _ List.mem_cons_self
    have hstep := listStep_value lit (root := root) (key := k) hm hv hd
    have hev := flatArgs_even ((k, r, v) :: qs)
    rw [Cfg.mergeFromList, if_pos hev]
    rw [flatArgs, listLoop, List.map_cons, CfgMem.mergeFromList]
    cases hs : Cfg.listStep lit root (.leaf ⟨.str, k⟩) v t with
    | error e =>
      rw [hs] at hstep
      have hstep' : CfgMem.listStep lit lim root H b k r = .error (.py e) := hstep
      simp only [hstep']
      exact ⟨rfl, fp, hm, (Ext.refl H).upd b fp⟩
    | ok t1 =>
      rw [hs] at hstep
      obtain ⟨H1, fp1, h1, hm1, hu1⟩ := hstep
      simp only [h1]
      have hih := ih hm1 fun q hq' => by
        obtain ⟨hd', fv', hv', hdis⟩ := hq q (List.mem_cons_of_mem _ hq')
        refine ⟨hd', fv', hv'.frame (hu1.keep hm) fun id hid => hu1.frame id (hv'.lt id hid) (hdis id hid), fun id hid hmem => ?_⟩
        rcases List.mem_cons.1 hmem with h | h
        · exact hdis id hid (h ▸ List.mem_cons_self)
        · rcases hu1.sub id h with h | h
          · exact hdis id hid (List.mem_cons_of_mem _ h)
          · have := hv'.lt id hid; omega
      rw [Cfg.mergeFromList, if_pos (flatArgs_even qs)] at hih
      obtain ⟨a, fp2, c, d⟩ := hih
      exact ⟨a, fp2, c, hu1.trans d⟩

/-! ### `freeze`, `defrost` -/

theorem immutableEnts_value {v : Bool} {g : Heap → Nat → Heap} {n : Nat}
    (hg : ∀ H b f t fp, Node H b f t fp → depthT t < n →
      Node (g H b) b { f with immutable := v } (setImmutable v t) fp ∧ (g H b).length = H.length ∧ ∀ id, id ∉ b :: fp → (g H b)[id]? = H[id]?) :
    ∀ (t : Tree) (es : Ents) (fp : List Nat) (H : Heap), HoldsEnts H es t fp → fp.Nodup → depthT t ≤ n →
      HoldsEnts (immutableEnts g H es) es (setImmutable v t) fp ∧ (immutableEnts g H es).length = H.length ∧
        ∀ id, id ∉ fp → (immutableEnts g H es)[id]? = H[id]? := by
  intro t
  induction t with
  | nil =>
    intro es fp H h _ _
    obtain ⟨rfl, rfl⟩ := h
    exact ⟨⟨rfl, rfl⟩, rfl, fun _ _ => rfl⟩
  | leaf k l rest ih =>
    intro es fp H h hnd hd
    obtain ⟨r, es', rfl, hl, hr⟩ := h
    rw [depthT] at hd
    obtain ⟨a, b, c⟩ := ih es' fp H hr hnd (by omega)
    have heq : immutableEnts g H ((k, r) :: es') = immutableEnts g H es' := by
      rcases hl with ⟨rfl, _⟩ | ⟨i, rfl, h2, _⟩
      · rw [immutableEnts]
      · rw [immutableEnts, h2]
    rw [heq]
    refine ⟨⟨r, es', rfl, ?_, a⟩, b, c⟩
    refine hl.frame fun id p hp => ?_
    rw [c id fun hm => ?_, hp]
    obtain ⟨kd, ce, hc⟩ := hr.isMap id hm
    rw [hp] at hc
    cases hc
  | sub k kd t rest iht ihr =>
    intro es fp H h hnd hd
    obtain ⟨id, ce, es', f1, f2, rfl, hc, ht, hr, rfl⟩ := h
    rw [depthT] at hd
    obtain ⟨n1, n2⟩ := List.nodup_cons.1 hnd
    obtain ⟨n3, n4, n5⟩ := List.nodup_append.1 n2
    have hid2 : id ∉ f2 := fun h => n1 (List.mem_append_right _ h)
    have keepL : ∀ {H1 H2 : Heap} {ts : Tree} {e : Ents} {q : List Nat}, HoldsEnts H1 e ts q → (∀ i, i ∉ q → H2[i]? = H1[i]?) → KeepLists H1 H2 := by
      intro H1 H2 ts e q hq hf i p hp
      rw [hf i fun hm => ?_, hp]
      obtain ⟨kd, ce, hc⟩ := hq.isMap i hm
      rw [hp] at hc
      cases hc
    cases kd with
    | none =>
      have heq : immutableEnts g H ((k, .obj id) :: es') = immutableEnts g H es' := by rw [immutableEnts, hc]
      rw [heq]
      obtain ⟨a, b, c⟩ := ihr es' f2 H hr n4 (by omega)
      refine ⟨⟨id, ce, es', f1, f2, rfl, (c id hid2).trans hc, ht.frame (keepL hr c) fun i hi => c i fun h => n5 i hi i h rfl, a, rfl⟩, b, fun i hi => c i fun h => ?_⟩
      exact hi (List.mem_cons_of_mem _ (List.mem_append_right _ h))
    | some f =>
      have heq : immutableEnts g H ((k, .obj id) :: es') = immutableEnts g (g H id) es' := by rw [immutableEnts, hc]
      rw [heq]
      have hnode : Node H id f t f1 := ⟨⟨ce, hc, ht⟩, List.nodup_cons.2 ⟨fun h => n1 (List.mem_append_left _ h), n3⟩⟩
      obtain ⟨⟨⟨ce', hc', ht'⟩, -⟩, hlen, hfr⟩ := hg H id f t f1 hnode (by omega)
      have hkl : KeepLists H (g H id) := by
        intro i p hp
        rw [hfr i fun hm => ?_, hp]
        obtain ⟨kd, ce, hc⟩ := hnode.isMap i hm
        rw [hp] at hc
        cases hc
      have hr' : HoldsEnts (g H id) es' rest f2 := hr.frame hkl fun i hi => hfr i fun hm => by
        rcases List.mem_cons.1 hm with h | h
        · exact hid2 (h ▸ hi)
        · exact n5 i h i hi rfl
      obtain ⟨a, b, c⟩ := ihr es' f2 (g H id) hr' n4 (by omega)
      refine ⟨⟨id, ce', es', f1, f2, rfl, (c id hid2).trans hc', ht'.frame (keepL hr' c) fun i hi => c i fun h => n5 i hi i h rfl, a, rfl⟩, b.trans hlen, fun i hi => ?_⟩
      rw [c i fun h => hi (List.mem_cons_of_mem _ (List.mem_append_right _ h)), hfr i fun h => hi ?_]
      rcases List.mem_cons.1 h with h | h
      · rw [h]; exact List.mem_cons_self
      · exact List.mem_cons_of_mem _ (List.mem_append_left _ h)

theorem immutable_value {v : Bool} : ∀ (n : Nat) (H : Heap) (b : Nat) (f : Flags) (t : Tree) (fp : List Nat), Node H b f t fp → depthT t < n →
    Node (CfgMem.immutable v n H b) b { f with immutable := v } (setImmutable v t) fp ∧ (CfgMem.immutable v n H b).length = H.length ∧
      ∀ id, id ∉ b :: fp → (CfgMem.immutable v n H b)[id]? = H[id]? := by
  intro n
  induction n with
  | zero => intro H b f t fp _ h; omega
  | succ n ih =>
    intro H b f t fp hn hd
    have hn0 := hn
    obtain ⟨⟨bes, hb, he⟩, hnd⟩ := hn
    obtain ⟨n1, n2⟩ := List.nodup_cons.1 hnd
    have hlt := (List.getElem?_eq_some_iff.1 hb).1
    rw [CfgMem.immutable, hb]
    dsimp only
    have hne : ∀ id, id ≠ b → (H.set b (.map (some { f with immutable := v }) bes))[id]? = H[id]? := fun id h => List.getElem?_set_ne (fun h' => h h'.symm)
    have hkl : KeepLists H (H.set b (.map (some { f with immutable := v }) bes)) := by
      intro i p hp
      have hib : i ≠ b := fun h => by
        rw [h, hb] at hp
        cases hp
      rw [hne i hib, hp]
    have he' := he.frame hkl fun id hid => hne id fun h => n1 (h ▸ hid)
    obtain ⟨a, c, d⟩ := immutableEnts_value (v := v) ih t bes fp _ he' n2 (by omega)
    refine ⟨⟨⟨bes, ?_, a⟩, hnd⟩, c.trans (by simp), fun id hid => ?_⟩
    · rw [d b n1, List.getElem?_set_self hlt]
    · rw [d id fun h => hid (List.mem_cons_of_mem _ h), hne id fun h => hid (h ▸ List.mem_cons_self)]

/-- **C89.** `freeze()` and `defrost()` on objects: the node and all nodes nested in nodes change their flag, nothing else changes. -/
theorem freeze_value {lim : Nat} {H : Heap} {b : Nat} {f : Flags} {t : Tree} {fp : List Nat} (hn : Node H b f t fp) (hd : depthT t < lim) (v : Bool) :
    Holds (CfgMem.immutable v lim H b) (.obj b) (if v then freeze (.sub (some f) t) else defrost (.sub (some f) t)) (b :: fp) ∧
      ∀ id, id ∉ b :: fp → (CfgMem.immutable v lim H b)[id]? = H[id]? := by
  obtain ⟨⟨⟨bes, hb, he⟩, -⟩, -, hf⟩ := immutable_value (v := v) lim H b f t fp hn hd
  refine ⟨?_, hf⟩
  cases v
  · exact ⟨b, bes, fp, rfl, hb, he, rfl⟩
  · exact ⟨b, bes, fp, rfl, hb, he, rfl⟩

/-! ### Assignment and key registration -/

/-- What a call on the node `b` that may raise must do. -/
def Sets (H : Heap) (b : Nat) (want : Except Err Val) (got : Except Fail Heap) : Prop :=
  match want with
  | .error e => got = .error (.py e)
  | .ok v => ∃ H' fp', got = .ok H' ∧ Holds H' (.obj b) v (b :: fp') ∧ (b :: fp').Nodup ∧ H'.length = H.length ∧ ∀ id, id ≠ b → H'[id]? = H[id]?

/-- **C89.** `node.name = value` on objects: raises what the value model raises, otherwise the node holds what the value model says and no other object
changes. -/
theorem setattr_value {H : Heap} {b : Nat} {f : Flags} {t : Tree} {fp fv : List Nat} (hn : Node H b f t fp) {name : String} {r : Ref} {v : Val}
    (hv : Holds H r v fv) (hfv : fv.Nodup) (hd : ∀ id ∈ fv, id ∉ b :: fp) :
    Sets H b (Cfg.setattr name v (.sub (some f) t)) (CfgMem.setattr H b name r) := by
  obtain ⟨fp', ⟨⟨bes', hb', he'⟩, hnd'⟩, -, hlen, hne⟩ := setEnt_value (k := name) hn hv hfv hd
  have hset : Holds (setEnt H b name r) (.obj b) (.sub (some f) (t.set name v)) (b :: fp') := ⟨b, bes', fp', rfl, hb', he', rfl⟩
  obtain ⟨⟨bes, hb, he⟩, hnd⟩ := hn
  unfold CfgMem.setattr
  unfold Cfg.setattr
  rw [hb]
  dsimp only
  by_cases h1 : f.immutable = true
  · rw [if_pos h1, if_pos h1]; rfl
  · rw [if_neg h1, if_neg h1]
    by_cases h2 : internalNames.contains name = true
    · rw [if_pos h2, if_pos h2]; rfl
    · rw [if_neg h2, if_neg h2]
      cases v with
      | leaf l =>
        rcases hv.1 with ⟨rfl, _⟩ | ⟨i, rfl, h3, h4⟩
        · dsimp only
          by_cases h5 : l.valid = true
          · rw [if_pos h5, if_pos h5]
            exact ⟨_, fp', rfl, hset, hnd', hlen, hne⟩
          · rw [if_neg h5, if_neg h5]; rfl
        · have h5 : l.valid = true := by rw [Leaf.valid, h4]
          dsimp only
          simp only [if_pos h5, h3]
          exact ⟨_, fp', rfl, hset, hnd', hlen, hne⟩
      | sub kd s =>
        obtain ⟨i, ce, g, rfl, hc, -, -⟩ := hv
        simp only [hc]
        cases kd with
        | none => rfl
        | some cf => exact ⟨_, fp', rfl, hset, hnd', hlen, hne⟩

/-- **C89.** `d[name] = value` on objects (no check at all), likewise. -/
theorem setitem_value {H : Heap} {b : Nat} {kd : Option Flags} {t : Tree} {fp fv : List Nat} (hn : MapAt H b kd t fp) {name : String} {r : Ref} {v : Val}
    (hv : Holds H r v fv) (hfv : fv.Nodup) (hd : ∀ id ∈ fv, id ∉ b :: fp) :
    Sets H b (Cfg.setItem name v (.sub kd t)) (.ok (CfgMem.setitem H b name r)) := by
  obtain ⟨fp', ⟨⟨bes', hb', he'⟩, hnd'⟩, -, hlen, hne⟩ := setEnt_value (k := name) hn hv hfv hd
  exact ⟨_, fp', rfl, ⟨b, bes', fp', rfl, hb', he', rfl⟩, hnd', hlen, hne⟩

/-- **C89.** Registering a key changes the flags of this node only. -/
theorem register_value {H : Heap} {b : Nat} {f : Flags} {t : Tree} {fp : List Nat} (hn : Node H b f t fp) (reg : Flags → Except Err Flags) :
    Sets H b (match reg f with | .error e => .error e | .ok f' => .ok (.sub (some f') t)) (CfgMem.register reg H b) := by
  obtain ⟨⟨bes, hb, he⟩, hnd⟩ := hn
  rw [CfgMem.register, hb]
  dsimp only
  cases reg f with
  | error e => rfl
  | ok f' =>
    have hlt := (List.getElem?_eq_some_iff.1 hb).1
    have hne : ∀ id, id ≠ b → (H.set b (.map (some f') bes))[id]? = H[id]? := fun id h => List.getElem?_set_ne (fun h' => h h'.symm)
    refine ⟨_, fp, rfl, ⟨b, bes, fp, rfl, List.getElem?_set_self hlt, he.frame (fun i p hp => ?_) fun id hid => hne id fun h => (List.nodup_cons.1 hnd).1 (h ▸ hid), rfl⟩,
      hnd, by simp, hne⟩
    have hib : i ≠ b := fun h => by
      rw [h, hb] at hp
      cases hp
    rw [hne i hib, hp]

/-- **C89.** `node[k]` returns a reference to the value the value model has there. -/
theorem get_value {H : Heap} {r : Ref} {kd : Option Flags} {t : Tree} {fp : List Nat} (h : Holds H r (.sub kd t) fp) (k : String) :
    match t.get k with
    | none => CfgMem.get H k r = none
    | some v => ∃ r' fv, CfgMem.get H k r = some r' ∧ Holds H r' v fv ∧ ∀ id ∈ fv, id ∈ fp := by
  obtain ⟨b, bes, g, rfl, hb, he, rfl⟩ := h
  rw [CfgMem.get, hb]
  dsimp only
  cases hg : t.get k with
  | none => exact ((look_value (k := k) he).1 hg).1
  | some v =>
    obtain ⟨ro, f1, fo, f2, j1, j2, rfl, -⟩ := (look_value (k := k) he).2 _ hg
    exact ⟨ro, fo, j1, j2, fun id hid => List.mem_cons_of_mem _ (List.mem_append_right _ (List.mem_append_left _ hid))⟩

/-- **C89.** An in-place list method is seen through every reference to that list object, and through no other. -/
theorem mutate_value {H : Heap} {id : Nat} {p0 p : String} (h : H[id]? = some (.list p0)) :
    Holds (mutate H id p) (.obj id) (.leaf ⟨.list, p⟩) [] ∧ ∀ j, j ≠ id → (mutate H id p)[j]? = H[j]? := by
  rw [mutate, h]
  exact ⟨⟨Or.inr ⟨id, rfl, List.getElem?_set_self (List.getElem?_eq_some_iff.1 h).1, rfl⟩, rfl⟩, fun j hj => List.getElem?_set_ne (fun h => hj h.symm)⟩

end Verif.CfgMem
