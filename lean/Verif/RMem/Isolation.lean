import Verif.RMem.World
/-!
C83: who sees whose writes.

* No call changes an object it is not given, however much memory the objects share, and no call writes into a tensor the caller holds.
* A write of the caller is seen by the objects of the same family only: copies made by `clone`, by changing the layout, by `to` another device
  or by indexing with a list of sequences stay as they are whatever happens to the original.
* As long as the caller does not write into tensors, and the objects' tensors are where the objects say, objects behave as if every tensor were a
  value: `Verif.Rgbd.Model`.
-/
namespace Verif.RMem
open Verif
set_option linter.unusedSectionVars false

section
variable {α : Type*} [Field α] [LinearOrder α]

/-- `owner` says which family a storage belongs to. -/
structure Inv (w : World α) (owner : Nat → Nat) : Prop where
  objs : ∀ f o, (f, o) ∈ w.objs → ∀ r, Holds o r → r < w.mem.next ∧ owner r = f
  held : ∀ f r, (f, r) ∈ w.held → r < w.mem.next ∧ owner r = f

theorem Inv.ok {w : World α} {owner : Nat → Nat} (h : Inv w owner) {i f : Nat} {o : Obj} (hi : w.objs[i]? = some (f, o)) : Ok w.mem o :=
  fun r hr => (h.objs f o (List.mem_of_getElem? hi) r hr).1

theorem prevObj_some {prev : Option (Nat × Nat × Obj)} {p : Obj} (h : prevObj prev = some p) : ∃ j g, prev = some (j, g, p) := by
  rcases prev with _ | ⟨j, g, q⟩
  · simp [prevObj] at h
  · simp only [prevObj, Option.map_some, Option.some.injEq] at h
    subst h
    exact ⟨j, g, rfl⟩

theorem Inv.prevOk {w : World α} {owner : Nat → Nat} (h : Inv w owner) {i : Nat} {prev : Option (Nat × Nat × Obj)}
    (hp : ∀ j g p, prev = some (j, g, p) → w.objs[j]? = some (g, p) ∧ j ≠ i) (p : Obj) (hq : prevObj prev = some p) : Ok w.mem p := by
  obtain ⟨j, g, rfl⟩ := prevObj_some hq
  exact h.ok (hp j g p rfl).1

/-- A step that allocates, the new storages going to family `g`. -/
theorem Inv.grow {w : World α} {owner : Nat → Nat} (h : Inv w owner) {m' : Mem α} (e : Ext w.mem m') (g : Nat) {L : List (Nat × Obj)}
    {H : List (Nat × Nat)}
    (hL : ∀ f o, (f, o) ∈ L → (f, o) ∈ w.objs ∨ ∀ r, Holds o r → (r < w.mem.next ∧ owner r = f) ∨ (f = g ∧ w.mem.next ≤ r ∧ r < m'.next))
    (hH : ∀ f r, (f, r) ∈ H → (r < w.mem.next ∧ owner r = f) ∨ (f = g ∧ w.mem.next ≤ r ∧ r < m'.next)) :
    Inv ⟨m', L, H⟩ fun r => if r < w.mem.next then owner r else g := by
  have key : ∀ f r, (r < w.mem.next ∧ owner r = f) ∨ (f = g ∧ w.mem.next ≤ r ∧ r < m'.next) →
      r < m'.next ∧ (if r < w.mem.next then owner r else g) = f := by
    rintro f r (⟨k1, k2⟩ | ⟨k1, k2, k3⟩)
    · exact ⟨k1.trans_le e.next, by rw [if_pos k1, k2]⟩
    · exact ⟨k3, by rw [if_neg (by omega), k1]⟩
  refine ⟨fun f o ho r hr => key f r ?_, fun f r hr => key f r (hH f r hr)⟩
  rcases hL f o ho with k | k
  · exact .inl (h.objs f o k r hr)
  · exact k r hr

/-- A step that changes one object. -/
theorem Inv.change {w : World α} {owner : Nat → Nat} (h : Inv w owner) {m' : Mem α} {i f : Nat} {o o' : Obj} (hi : w.objs[i]? = some (f, o))
    (e : Ext w.mem m') (hg : ∀ r, Holds o' r → Holds o r ∨ (f, r) ∈ w.held ∨ (w.mem.next ≤ r ∧ r < m'.next)) :
    ∃ owner', Inv ⟨m', w.objs.set i (f, o'), w.held⟩ owner' := by
  have hm := List.mem_of_getElem? hi
  refine ⟨_, h.grow e f (fun f1 o1 h1 => ?_) fun f1 r h1 => .inl (h.held f1 r h1)⟩
  rcases List.mem_or_eq_of_mem_set h1 with k | k
  · exact .inl k
  · simp only [Prod.mk.injEq] at k
    obtain ⟨rfl, rfl⟩ := k
    refine .inr fun r hr => ?_
    rcases hg r hr with k | k | k
    · exact .inl (h.objs _ _ hm r k)
    · exact .inl (h.held _ _ k)
    · exact .inr ⟨rfl, k⟩

/-- A step that makes a new object. -/
theorem Inv.make {w : World α} {owner : Nat → Nat} (h : Inv w owner) {m' : Mem α} {g : Nat} {c : Obj} {src : Nat → Prop} {u : Prop}
    (hf : Makes w.mem src u m' c) (hs : ∀ r, src r → r < w.mem.next ∧ owner r = g) : ∃ owner', Inv ⟨m', w.objs ++ [(g, c)], w.held⟩ owner' := by
  refine ⟨_, h.grow hf.ext g (fun f1 o1 h1 => ?_) fun f1 r h1 => .inl (h.held f1 r h1)⟩
  rcases List.mem_append.1 h1 with k | k
  · exact .inl k
  · simp only [List.mem_singleton, Prod.mk.injEq] at k
    obtain ⟨rfl, rfl⟩ := k
    refine .inr fun r hr => ?_
    rcases hf.own r hr with k | k
    · exact .inl (hs r k)
    · exact .inr ⟨rfl, k⟩

/-- What a reachable world looks like. -/
theorem Step.inv {w w' : World α} {e : Ev} (s : Step w e w') {owner : Nat → Nat} (h : Inv w owner) : ∃ owner', Inv w' owner' := by
  rcases s with ⟨f, c⟩ | ⟨i, f, o, r, hi, hr⟩ | ⟨f, r, c, hr⟩ | ⟨f, a, cf, d, m', c, ha, hc⟩ | ⟨i, f, o, op, vop, hi, hop⟩ |
    ⟨i, f, o, v, op, vop, hi, hop, hv⟩ | ⟨i, f, g, o, c, m', hi, hc⟩ | ⟨i, f, o, c, m', hi, hc⟩ | ⟨i, f, g, o, c, m', idx, hi, hc, hg⟩ |
    ⟨cur, a, copy, i, f, g, o, c, m', hi, hc, hg⟩ | ⟨i, f, g, o, c, m', op, vop, hi, hop, hc⟩ | ⟨i, f, o, m', hi, hc⟩ |
    ⟨i, f, live, prev, S, ctg, pc, inplace, hi, hp, hf⟩ | ⟨i, f, g, o, S, ctg, d, pc, T, m', hi, hc⟩
  · refine ⟨_, h.grow (Ext.alloc _ _ _) f (fun f1 o1 h1 => .inl h1) fun f1 r h1 => ?_⟩
    rcases List.mem_append.1 h1 with k | k
    · exact .inl (h.held _ _ k)
    · simp only [List.mem_singleton, Prod.mk.injEq] at k
      obtain ⟨rfl, rfl⟩ := k
      exact .inr ⟨rfl, le_rfl, by simp [Mem.alloc]⟩
  · refine ⟨owner, h.objs, fun f1 r1 h1 => ?_⟩
    rcases List.mem_append.1 h1 with k | k
    · exact h.held _ _ k
    · simp only [List.mem_singleton, Prod.mk.injEq] at k
      obtain ⟨rfl, rfl⟩ := k
      exact h.objs _ _ (List.mem_of_getElem? hi) _ hr
  · exact ⟨owner, h.objs, h.held⟩
  · exact h.make (new_makes (fun r hr => (h.held _ _ (ha r hr)).1) hc).1 fun r hr => h.held _ _ (ha r hr)
  · have g := hop.grows (h.ok hi)
    exact h.change hi g.ext fun r hr => (g.own r hr).imp_right .inr
  · refine h.change hi .rfl fun r hr => ?_
    rcases (hop.sim w.mem o).1.own r hr with k | ⟨q, rfl, k⟩
    · exact .inl k
    · exact .inr (.inl (hv r (mem_refs.2 ⟨q, rfl, k⟩)))
  · exact h.make (clone_makes (h.ok hi) hc).1 fun r hr => hr.elim
  · exact h.make (detach_makes (h.ok hi) hc).1 fun r hr => h.objs _ _ (List.mem_of_getElem? hi) r hr
  · refine h.make (getitem_makes (h.ok hi) hc).1 fun r hr => ?_
    rcases hg with rfl | ⟨a, b, hab, hl⟩
    · exact h.objs _ _ (List.mem_of_getElem? hi) r hr.1
    · have := hr.2 a b hab
      rw [hl] at this; simp at this
  · refine h.make (to_makes (h.ok hi) hc).1 fun r hr => ?_
    rcases hg with rfl | hg
    · exact h.objs _ _ (List.mem_of_getElem? hi) r hr.1
    · exact absurd hr.2 (hg r hr.1)
  · exact h.make (relaid_makes hop (h.ok hi) hc).1 fun r hr => hr.elim
  · exact ⟨_, h.grow (raises_ext (h.ok hi) hc) 0 (fun f1 o1 h1 => .inl h1) fun f1 r h1 => .inl (h.held f1 r h1)⟩
  · have k := (slamStep_sim S ctg pc inplace (h.ok hi) (h.prevOk hp)).1
    refine ⟨_, h.grow k.ext f (fun f1 o1 h1 => ?_) fun f1 r h1 => .inl (h.held f1 r h1)⟩
    rcases List.mem_or_eq_of_mem_set h1 with k1 | k1
    · exact .inl k1
    · simp only [Prod.mk.injEq] at k1
      obtain ⟨rfl, rfl⟩ := k1
      refine .inr fun r hr => ?_
      rcases k.own r hr with k1 | k1 | ⟨⟨e, k1⟩, p, v, k2, k3, rfl⟩
      · exact .inl (h.objs _ _ (List.mem_of_getElem? hi) r k1)
      · exact .inr ⟨rfl, k1⟩
      · obtain ⟨j, g, rfl⟩ := prevObj_some k2
        obtain ⟨hj, _⟩ := hp j g p rfl
        rcases hf with ⟨x, hx⟩ | hf
        · rw [hx] at k1; simp at k1
        · obtain rfl := hf j g p rfl
          exact .inl (h.objs _ _ (List.mem_of_getElem? hj) _ (.inr (.inl ⟨_, v, k3, rfl⟩)))
  · obtain ⟨e, k1, k2, _, _⟩ := (forward_sim S ctg d (h.ok hi)).1 pc T m' hc
    refine ⟨_, h.grow e g (fun f1 o1 h1 => .inl h1) fun f1 r h1 => ?_⟩
    rcases List.mem_append.1 h1 with k | k
    · exact .inl (h.held _ _ k)
    · simp only [List.mem_singleton, Prod.mk.injEq] at k
      obtain ⟨rfl, rfl⟩ := k
      exact .inr ⟨rfl, k1, k2⟩

theorem reach_inv {w : World α} (h : Reach w) : ∃ owner, Inv w owner := by
  induction h with
  | start m h => exact ⟨fun _ => 0, by simp, by simp⟩
  | step _ s ih => obtain ⟨owner, ih⟩ := ih; exact s.inv ih

/-- Every call leaves the existing storages alone. -/
theorem Step.frame {w w' : World α} {is ts : List Nat} (s : Step w (.call is ts) w') {owner : Nat → Nat} (h : Inv w owner) :
    Ext w.mem w'.mem ∧ ∀ k, k ∉ is → k < w.objs.length → w'.objs[k]? = w.objs[k]? := by
  have e1 : ∀ {k i : Nat} {p : Nat × Obj}, k ∉ [i] → (w.objs.set i p)[k]? = w.objs[k]? := by
    intro k i p hk
    simp only [List.mem_singleton] at hk
    exact List.getElem?_set_ne (fun e => hk e.symm)
  have e2 : ∀ {k : Nat} {p : Nat × Obj}, k < w.objs.length → (w.objs ++ [p])[k]? = w.objs[k]? := fun hk => List.getElem?_append_left hk
  generalize he : Ev.call is ts = e at s
  rcases s with ⟨f, c⟩ | ⟨i, f, o, r, hi, hr⟩ | ⟨f, r, c, hr⟩ | ⟨f, a, cf, d, m', c, ha, hc⟩ | ⟨i, f, o, op, vop, hi, hop⟩ |
    ⟨i, f, o, v, op, vop, hi, hop, hv⟩ | ⟨i, f, g, o, c, m', hi, hc⟩ | ⟨i, f, o, c, m', hi, hc⟩ | ⟨i, f, g, o, c, m', idx, hi, hc, hg⟩ |
    ⟨cur, a, copy, i, f, g, o, c, m', hi, hc, hg⟩ | ⟨i, f, g, o, c, m', op, vop, hi, hop, hc⟩ | ⟨i, f, o, m', hi, hc⟩ |
    ⟨i, f, live, prev, S, ctg, pc, inplace, hi, hp, hf⟩ | ⟨i, f, g, o, S, ctg, d, pc, T, m', hi, hc⟩
  all_goals simp only [Ev.call.injEq, reduceCtorEq] at he
  all_goals obtain ⟨rfl, rfl⟩ := he
  · refine ⟨?_, fun _ _ _ => rfl⟩
    dsimp only; exact Ext.alloc _ _ _
  · exact ⟨.rfl, fun _ _ _ => rfl⟩
  · exact ⟨(new_makes (fun r hr => (h.held _ _ (ha r hr)).1) hc).1.ext, fun _ _ hk => e2 hk⟩
  · exact ⟨(hop.grows (h.ok hi)).ext, fun _ hk _ => e1 hk⟩
  · exact ⟨.rfl, fun _ hk _ => e1 hk⟩
  · exact ⟨(clone_makes (h.ok hi) hc).1.ext, fun _ _ hk => e2 hk⟩
  · exact ⟨(detach_makes (h.ok hi) hc).1.ext, fun _ _ hk => e2 hk⟩
  · exact ⟨(getitem_makes (h.ok hi) hc).1.ext, fun _ _ hk => e2 hk⟩
  · exact ⟨(to_makes (h.ok hi) hc).1.ext, fun _ _ hk => e2 hk⟩
  · exact ⟨(relaid_makes hop (h.ok hi) hc).1.ext, fun _ _ hk => e2 hk⟩
  · exact ⟨raises_ext (h.ok hi) hc, fun _ _ _ => rfl⟩
  · exact ⟨(slamStep_sim S ctg pc inplace (h.ok hi) (h.prevOk hp)).1.ext, fun _ hk _ => e1 hk⟩
  · exact ⟨((forward_sim S ctg d (h.ok hi)).1 pc T m' hc).1, fun _ _ _ => rfl⟩

/-- **Calls have no side effects on other objects.**  Whatever method is called, every object the call is not given keeps all its fields and
everything stored in them, even if it shares tensors with the object the method is called on; and every tensor the caller holds keeps its
contents (in particular the tensors the object was made of, and those returned by getters). -/
theorem call_keeps_others {w w' : World α} {is ts : List Nat} (hw : Reach w) (s : Step w (.call is ts) w') :
    (∀ k f o, k ∉ is → w.objs[k]? = some (f, o) → w'.objs[k]? = some (f, o) ∧ val w'.mem o = val w.mem o) ∧
    ∀ f r, (f, r) ∈ w.held → w'.mem.cell r = w.mem.cell r := by
  obtain ⟨owner, h⟩ := reach_inv hw
  obtain ⟨e, hk⟩ := s.frame h
  refine ⟨fun k f o hn hi => ⟨?_, val_ext (h.ok hi) e⟩, fun f r hr => e.cell r (h.held f r hr).1⟩
  rw [hk k hn (List.getElem?_eq_some_iff.1 hi).1, hi]

/-- **A write is seen within its family only.** -/
theorem write_keeps_families {w w' : World α} {f : Nat} (hw : Reach w) (s : Step w (.write f) w') :
    w'.objs = w.objs ∧ w'.held = w.held ∧ (∀ g o, (g, o) ∈ w.objs → g ≠ f → val w'.mem o = val w.mem o) ∧
    ∀ g r, (g, r) ∈ w.held → g ≠ f → w'.mem.cell r = w.mem.cell r := by
  obtain ⟨owner, h⟩ := reach_inv hw
  rcases s with _ | _ | ⟨f, r, c, hr⟩
  have key : ∀ q g, owner q = g → g ≠ f → (w.mem.poke r c).cell q = w.mem.cell q := by
    intro q g h1 h2
    have : q ≠ r := fun e => h2 (by rw [← h1, e]; exact (h.held f r hr).2)
    simp [Mem.poke, this]
  exact ⟨rfl, rfl, fun g o hg hn => val_congr fun q hq => key q g (h.objs g o hg q hq).2 hn, fun g q hg hn => key q g (h.held g q hg).2 hn⟩

/-- Something happening to family `f`: a write into one of its tensors, or a call on its objects. -/
def StepIn (f : Nat) (w w' : World α) : Prop :=
  Step w (.write f) w' ∨ ∃ is ts, Step w (.call is ts) w' ∧ ∀ i ∈ is, ∀ g o, w.objs[i]? = some (g, o) → g = f

/-- A program that works with family `f` only. -/
def WorksOn (f : Nat) : World α → World α → Prop := Relation.ReflTransGen (StepIn f)

theorem StepIn.reach {f : Nat} {w w' : World α} (h : StepIn f w w') (hw : Reach w) : Reach w' := by
  rcases h with s | ⟨is, ts, s, _⟩ <;> exact .step hw s

/-- **Isolation.**  However long a program works with the objects and tensors of family `f` – setters, getters, changes of layout, views,
copies, writes into tensors –, the objects of other families keep all their contents. -/
theorem isolation {f : Nat} {w w' : World α} (hw : Reach w) (h : WorksOn f w w') {k g : Nat} {o : Obj} (hk : w.objs[k]? = some (g, o)) (hg : g ≠ f) :
    Reach w' ∧ w'.objs[k]? = some (g, o) ∧ val w'.mem o = val w.mem o := by
  induction h with
  | refl => exact ⟨hw, hk, rfl⟩
  | tail _ s ih =>
    obtain ⟨h1, h2, h3⟩ := ih
    refine ⟨s.reach h1, ?_⟩
    rcases s with s | ⟨is, ts, s, hi⟩
    · obtain ⟨e1, _, e2, _⟩ := write_keeps_families h1 s
      exact ⟨by rw [e1]; exact h2, (e2 g o (List.mem_of_getElem? h2) hg).trans h3⟩
    · obtain ⟨e1, _⟩ := call_keeps_others h1 s
      have := e1 k g o (fun hk => hg (hi k hk g o h2)) h2
      exact ⟨this.1, this.2.trans h3⟩

/-- A new object at the end of the list, of another family than the object `i`: whatever is done with the one, the other stays. -/
theorem new_independent {w w1 : World α} {e : Ev} (hw : Reach w) {i f g : Nat} {o c : Obj} {m' : Mem α} (hi : w.objs[i]? = some (f, o)) (hg : g ≠ f)
    (h1 : w1 = ⟨m', w.objs ++ [(g, c)], w.held⟩) (s : Step w e w1) :
    (∀ w2, WorksOn f w1 w2 → w2.objs[w.objs.length]? = some (g, c) ∧ val w2.mem c = val w1.mem c) ∧
    ∀ w2, WorksOn g w1 w2 → w2.objs[i]? = some (f, o) ∧ val w2.mem o = val w1.mem o := by
  have hw1 : Reach w1 := .step hw s
  have hlt := (List.getElem?_eq_some_iff.1 hi).1
  have hkc : w1.objs[w.objs.length]? = some (g, c) := by rw [h1]; simp
  have hki : w1.objs[i]? = some (f, o) := by
    rw [h1]; simp only
    rw [List.getElem?_append_left hlt, hi]
  exact ⟨fun w2 h2 => (isolation hw1 h2 hkc hg).2, fun w2 h2 => (isolation hw1 h2 hki (Ne.symm hg)).2⟩

/-- **`clone` is a deep copy.**  Take any reachable program state and clone its `i`-th object.  Then the copy has the value `Rgbd.clone` gives,
the object is untouched, and whatever is done afterwards with one of the two – anything but a call that is given objects of the other's
family – does not change the other. -/
theorem clone_independent {w w1 : World α} (hw : Reach w) {i f g : Nat} {o c : Obj} {m' : Mem α} (hi : w.objs[i]? = some (f, o)) (hg : g ≠ f)
    (h : RMem.clone w.mem o = (.ok c, m')) (h1 : w1 = ⟨m', w.objs ++ [(g, c)], w.held⟩) :
    Rgbd.clone (val w.mem o) = .ok (val w1.mem c) ∧ val w1.mem o = val w.mem o ∧
    (∀ w2, WorksOn f w1 w2 → w2.objs[w.objs.length]? = some (g, c) ∧ val w2.mem c = val w1.mem c) ∧
    ∀ w2, WorksOn g w1 w2 → w2.objs[i]? = some (f, o) ∧ val w2.mem o = val w1.mem o := by
  obtain ⟨owner, hI⟩ := reach_inv hw
  obtain ⟨k1, k2⟩ := clone_makes (hI.ok hi) h
  have s : Step w (.call [i] []) w1 := by rw [h1]; exact .clone w i f g o c m' hi h
  obtain ⟨a, b⟩ := new_independent hw hi hg h1 s
  subst h1
  exact ⟨k2, val_ext (hI.ok hi) k1.ext, a, b⟩

/-- **`to` another device is a deep copy**, provided nothing of the object is on that device already. -/
theorem to_independent {w w1 : World α} (hw : Reach w) {cur : Nat} {a : DevArg} {copy : Bool} {i f g : Nat} {o c : Obj} {m' : Mem α}
    (hi : w.objs[i]? = some (f, o)) (hg : g ≠ f) (hd : ∀ r, Holds o r → (w.mem.cell r).dev ≠ a.meant cur)
    (h : toDevice cur a copy w.mem o = (.ok (.new c), m')) (h1 : w1 = ⟨m', w.objs ++ [(g, c)], w.held⟩) :
    Rgbd.clone (val w.mem o) = .ok (val w1.mem c) ∧ val w1.mem o = val w.mem o ∧
    (∀ w2, WorksOn f w1 w2 → w2.objs[w.objs.length]? = some (g, c) ∧ val w2.mem c = val w1.mem c) ∧
    ∀ w2, WorksOn g w1 w2 → w2.objs[i]? = some (f, o) ∧ val w2.mem o = val w1.mem o := by
  obtain ⟨owner, hI⟩ := reach_inv hw
  obtain ⟨k1, k2, _⟩ := to_makes (hI.ok hi) h
  have s : Step w (.call [i] []) w1 := by rw [h1]; exact .moved w cur a copy i f g o c m' hi h (.inr hd)
  obtain ⟨a, b⟩ := new_independent hw hi hg h1 s
  subst h1
  exact ⟨k2, val_ext (hI.ok hi) k1.ext, a, b⟩

/-- **A copy in the other layout is a deep copy.** -/
theorem relaid_independent {w w1 : World α} (hw : Reach w) {i f g : Nat} {o c : Obj} {m' : Mem α} {op vop} (hop : Relaid op vop)
    (hi : w.objs[i]? = some (f, o)) (hg : g ≠ f) (h : op w.mem o = (.ok (.new c), m')) (h1 : w1 = ⟨m', w.objs ++ [(g, c)], w.held⟩) :
    (∃ s, Rgbd.clone (val w.mem o) = .ok s ∧ val w1.mem c = vop s) ∧ val w1.mem o = val w.mem o ∧
    (∀ w2, WorksOn f w1 w2 → w2.objs[w.objs.length]? = some (g, c) ∧ val w2.mem c = val w1.mem c) ∧
    ∀ w2, WorksOn g w1 w2 → w2.objs[i]? = some (f, o) ∧ val w2.mem o = val w1.mem o := by
  obtain ⟨owner, hI⟩ := reach_inv hw
  obtain ⟨k1, k2⟩ := relaid_makes hop (hI.ok hi) h
  have s : Step w (.call [i] []) w1 := by rw [h1]; exact .relaid w i f g o c m' op vop hi hop h
  obtain ⟨a, b⟩ := new_independent hw hi hg h1 s
  subst h1
  exact ⟨k2, val_ext (hI.ok hi) k1.ext, a, b⟩

/-- **Picking sequences by a list makes a deep copy.** -/
theorem picked_independent {w w1 : World α} (hw : Reach w) {idx : Rgbd.Index} {a b : Rgbd.Ix} (hab : Rgbd.twoIx idx = .ok (a, b)) (hl : isList a = true)
    {i f g : Nat} {o c : Obj} {m' : Mem α} (hi : w.objs[i]? = some (f, o)) (hg : g ≠ f) (h : getitem idx w.mem o = (.ok c, m'))
    (h1 : w1 = ⟨m', w.objs ++ [(g, c)], w.held⟩) :
    Rgbd.getitem idx (val w.mem o) = .ok (val w1.mem c) ∧ val w1.mem o = val w.mem o ∧
    (∀ w2, WorksOn f w1 w2 → w2.objs[w.objs.length]? = some (g, c) ∧ val w2.mem c = val w1.mem c) ∧
    ∀ w2, WorksOn g w1 w2 → w2.objs[i]? = some (f, o) ∧ val w2.mem o = val w1.mem o := by
  obtain ⟨owner, hI⟩ := reach_inv hw
  obtain ⟨k1, k2⟩ := getitem_makes (hI.ok hi) h
  have s : Step w (.call [i] []) w1 := by rw [h1]; exact .getitem w i f g o c m' idx hi h (.inr ⟨a, b, hab, hl⟩)
  obtain ⟨a, b⟩ := new_independent hw hi hg h1 s
  subst h1
  exact ⟨k2, val_ext (hI.ok hi) k1.ext, a, b⟩

/-! ### Devices and values -/

/-- Every object has all its tensors on the device it names. -/
def Honest (w : World α) : Prop := ∀ f o, (f, o) ∈ w.objs → Uni w.mem o

theorem sameDev_of {w : World α} {i f : Nat} {live : Obj} {prev : Option (Nat × Nat × Obj)} (_ : w.objs[i]? = some (f, live))
    (h : ∀ r ∈ refs (prevPoses prev), (w.mem.cell r).dev = live.dev) : SameDev w.mem live (prevObj prev) := by
  intro p P h1 h2
  exact h P.ref (mem_refs.2 ⟨P, by simp [prevPoses, h1, h2], rfl⟩)

/-- **Objects stay where they say.**  Only a setter that is given a tensor on another device, or a SLAM step whose
previous frame has its poses on another device, can break it. -/
theorem honest_kept {w w' : World α} {e : Ev} (hw : Reach w) (hh : Honest w) (s : Step w e w')
    (hs : ∀ is ts, e = .call is ts → ∀ i ∈ is, ∀ f o, w.objs[i]? = some (f, o) → ∀ r ∈ ts, (w.mem.cell r).dev = o.dev) : Honest w' := by
  obtain ⟨owner, h⟩ := reach_inv hw
  have keep : ∀ {m' : Mem α}, Ext w.mem m' → ∀ f o, (f, o) ∈ w.objs → Uni m' o := fun e f o hm =>
    (hh f o hm).ext (fun r hr => (h.objs f o hm r hr).1) e
  have make : ∀ {m' : Mem α} {g : Nat} {c : Obj} {H : List (Nat × Nat)}, Ext w.mem m' → Uni m' c → Honest (⟨m', w.objs ++ [(g, c)], H⟩ : World α) := by
    intro m' g c H e u f1 o1 h1
    rcases List.mem_append.1 h1 with k | k
    · exact keep e f1 o1 k
    · simp only [List.mem_singleton, Prod.mk.injEq] at k
      obtain ⟨rfl, rfl⟩ := k
      exact u
  have change : ∀ {m' : Mem α} {i f : Nat} {o' : Obj} {H : List (Nat × Nat)}, Ext w.mem m' → Uni m' o' →
      Honest (⟨m', w.objs.set i (f, o'), H⟩ : World α) := by
    intro m' i f o' H e u f1 o1 h1
    rcases List.mem_or_eq_of_mem_set h1 with k | k
    · exact keep e f1 o1 k
    · simp only [Prod.mk.injEq] at k
      obtain ⟨rfl, rfl⟩ := k
      exact u
  rcases s with ⟨f, c⟩ | ⟨i, f, o, r, hi, hr⟩ | ⟨f, r, c, hr⟩ | ⟨f, a, cf, d, m', c, ha, hc⟩ | ⟨i, f, o, op, vop, hi, hop⟩ |
    ⟨i, f, o, v, op, vop, hi, hop, hv⟩ | ⟨i, f, g, o, c, m', hi, hc⟩ | ⟨i, f, o, c, m', hi, hc⟩ | ⟨i, f, g, o, c, m', idx, hi, hc, hg⟩ |
    ⟨cur, a, copy, i, f, g, o, c, m', hi, hc, hg⟩ | ⟨i, f, g, o, c, m', op, vop, hi, hop, hc⟩ | ⟨i, f, o, m', hi, hc⟩ |
    ⟨i, f, live, prev, S, ctg, pc, inplace, hi, hp, hf⟩ | ⟨i, f, g, o, S, ctg, d, pc, T, m', hi, hc⟩
  · exact keep (Ext.alloc w.mem 1 fun _ => c)
  · exact hh
  · intro f1 o1 h1 q hq
    have := hh f1 o1 h1 q hq
    simp only [Mem.poke]
    split_ifs with hqr
    · subst hqr; exact this
    · exact this
  · have k := (new_makes (fun r hr => (h.held _ _ (ha r hr)).1) hc).1
    exact make k.ext (k.uni trivial)
  · have g := hop.grows (h.ok hi)
    exact change g.ext (g.uni (h.ok hi) (hh _ _ (List.mem_of_getElem? hi)))
  · have k := (hop.sim w.mem o).1
    refine change .rfl fun r hr => ?_
    rw [k.dev]
    rcases k.own r hr with k1 | ⟨q, rfl, k1⟩
    · exact hh _ _ (List.mem_of_getElem? hi) r k1
    · exact hs _ _ rfl i (by simp) f o hi r (mem_refs.2 ⟨q, rfl, k1⟩)
  · have k := (clone_makes (h.ok hi) hc).1
    exact make k.ext (k.uni (hh _ _ (List.mem_of_getElem? hi)))
  · have k := (detach_makes (h.ok hi) hc).1
    exact make k.ext (k.uni (hh _ _ (List.mem_of_getElem? hi)))
  · have k := (getitem_makes (h.ok hi) hc).1
    exact make k.ext (k.uni (hh _ _ (List.mem_of_getElem? hi)))
  · have k := (to_makes (h.ok hi) hc).1
    exact make k.ext (k.uni trivial)
  · have k := (relaid_makes hop (h.ok hi) hc).1
    exact make k.ext (k.uni (hh _ _ (List.mem_of_getElem? hi)))
  · exact keep (raises_ext (h.ok hi) hc)
  · obtain ⟨k, k1⟩ := slamStep_sim S ctg pc inplace (h.ok hi) (h.prevOk hp)
    exact change k.ext (k1 (hh _ _ (List.mem_of_getElem? hi)) (sameDev_of hi fun r hr => hs _ _ rfl i (by simp) f live hi r hr)).1
  · exact keep ((forward_sim S ctg d (h.ok hi)).1 pc T m' hc).1

/-- What a program does to the values of its objects when tensors are values. -/
inductive VStep : List (Rgbd.Obj α) → List (Rgbd.Obj α) → Prop
  | none (L : List (Rgbd.Obj α)) : VStep L L
  | new (L : List (Rgbd.Obj α)) (rgb depth K poses cf pix s) (h : Rgbd.new rgb depth K poses cf pix = .ok s) : VStep L (L ++ [s])
  | method (L : List (Rgbd.Obj α)) (i : Nat) (s) (op vop) (h : L[i]? = some s) (hop : Method op vop) : VStep L (L.set i (vop s))
  | rgb (L : List (Rgbd.Obj α)) (i : Nat) (s t) (h : L[i]? = some s) : VStep L (L.set i (Rgbd.setRgb t s).2)
  | depth (L : List (Rgbd.Obj α)) (i : Nat) (s t) (h : L[i]? = some s) : VStep L (L.set i (Rgbd.setDepth t s).2)
  | intrinsics (L : List (Rgbd.Obj α)) (i : Nat) (s t) (h : L[i]? = some s) : VStep L (L.set i (Rgbd.setK t s).2)
  | poses (L : List (Rgbd.Obj α)) (i : Nat) (s t) (h : L[i]? = some s) : VStep L (L.set i (Rgbd.setPoses t s).2)
  /-- `clone()`, `detach()`, `to(…)` -/
  | copy (L : List (Rgbd.Obj α)) (i : Nat) (s c) (h : L[i]? = some s) (hc : Rgbd.clone s = .ok c) : VStep L (L ++ [c])
  /-- `to_channels_first()`, `to_channels_last()` -/
  | relaid (L : List (Rgbd.Obj α)) (i : Nat) (s c vop) (h : L[i]? = some s) (hv : vop = Rgbd.toLast_ ∨ vop = Rgbd.toFirst_)
      (hc : Rgbd.clone s = .ok c) : VStep L (L ++ [vop c])
  | getitem (L : List (Rgbd.Obj α)) (i : Nat) (s c idx) (h : L[i]? = some s) (hc : Rgbd.getitem idx s = .ok c) : VStep L (L ++ [c])
  /-- `slam.step(pointclouds, live, prev)` -/
  | slam (L : List (Rgbd.Obj α)) (i : Nat) (s : Rgbd.Obj α) (prev : Option (Rgbd.Obj α)) [FloorRing α] (S : Slam.Sys α) (pc : Pcs.PC α) (inplace : Bool)
      (h : L[i]? = some s) (hp : ∀ p, prev = some p → ∃ j, j ≠ i ∧ L[j]? = some p) : VStep L (L.set i (Slam.step S pc s prev inplace).2.2)

/-- The values of the objects. -/
def values (w : World α) : List (Rgbd.Obj α) := w.objs.map fun p => val w.mem p.2

/-- **Tensors are values as long as nobody writes into them.**  In a reachable state in which the objects are where they say, a call of any
method changes the values of the objects as `Verif.Rgbd.Model` says, and a SLAM step as `Verif.Slam.Model` says, provided setters are given
tensors, and steps previous poses, on the device of the object. -/
theorem calls_on_values {w w' : World α} {is ts : List Nat} (hw : Reach w) (hh : Honest w) (s : Step w (.call is ts) w')
    (hs : ∀ i ∈ is, ∀ f o, w.objs[i]? = some (f, o) → ∀ r ∈ ts, (w.mem.cell r).dev = o.dev) :
    VStep (values w) (values w') := by
  obtain ⟨owner, h⟩ := reach_inv hw
  have e0 := (s.frame h).1
  have ev : ∀ {m' : Mem α}, Ext w.mem m' → (w.objs.map fun p => val m' p.2) = values w := fun e =>
    List.map_congr_left fun p hp => val_ext (fun r hr => (h.objs p.1 p.2 hp r hr).1) e
  have es : ∀ {m' : Mem α} {i f : Nat} {o' : Obj}, Ext w.mem m' → ((w.objs.set i (f, o')).map fun p => val m' p.2) = (values w).set i (val m' o') :=
    fun e => by rw [List.map_set, ev e]
  have eg : ∀ {i f : Nat} {o : Obj}, w.objs[i]? = some (f, o) → (values w)[i]? = some (val w.mem o) := fun hi => by
    simp [values, hi]
  generalize he : Ev.call is ts = e at s
  rcases s with ⟨f, c⟩ | ⟨i, f, o, r, hi, hr⟩ | ⟨f, r, c, hr⟩ | ⟨f, a, cf, d, m', c, ha, hc⟩ | ⟨i, f, o, op, vop, hi, hop⟩ |
    ⟨i, f, o, v, op, vop, hi, hop, hv⟩ | ⟨i, f, g, o, c, m', hi, hc⟩ | ⟨i, f, o, c, m', hi, hc⟩ | ⟨i, f, g, o, c, m', idx, hi, hc, hg⟩ |
    ⟨cur, a, copy, i, f, g, o, c, m', hi, hc, hg⟩ | ⟨i, f, g, o, c, m', op, vop, hi, hop, hc⟩ | ⟨i, f, o, m', hi, hc⟩ |
    ⟨i, f, live, prev, S, ctg, pc, inplace, hi, hp, hf⟩ | ⟨i, f, g, o, S, ctg, d, pc, T, m', hi, hc⟩
  all_goals simp only [Ev.call.injEq, reduceCtorEq] at he
  all_goals obtain ⟨rfl, rfl⟩ := he
  all_goals simp only at e0
  all_goals refine (id : VStep (values w) (List.map (fun p : Nat × Obj => val (α := α) _ p.2) _) → _) ?_
  all_goals try rw [List.map_append]
  all_goals try rw [es e0]
  all_goals try rw [ev e0]
  all_goals try simp only [List.map_cons, List.map_nil]
  · exact .none _
  · exact .none _
  · exact .new _ _ _ _ _ _ _ _ (new_makes (fun r hr => (h.held _ _ (ha r hr)).1) hc).2.1
  · rw [← hop.val (h.ok hi) (hh _ _ (List.mem_of_getElem? hi))]; exact .method _ _ _ _ _ (eg hi) hop
  · have k := congrArg Prod.snd (hop.sim w.mem o).2
    simp only at k
    rw [← k]
    rcases hop with v | v | v | v
    · exact .rgb _ _ _ _ (eg hi)
    · exact .depth _ _ _ _ (eg hi)
    · exact .intrinsics _ _ _ _ (eg hi)
    · exact .poses _ _ _ _ (eg hi)
  · exact .copy _ _ _ _ (eg hi) (clone_makes (h.ok hi) hc).2
  · exact .copy _ _ _ _ (eg hi) (detach_makes (h.ok hi) hc).2
  · exact .getitem _ _ _ _ _ (eg hi) (getitem_makes (h.ok hi) hc).2
  · exact .copy _ _ _ _ (eg hi) (to_makes (h.ok hi) hc).2.1
  · obtain ⟨s, k1, k2⟩ := (relaid_makes hop (h.ok hi) hc).2
    rw [k2]
    refine .relaid _ _ _ _ _ (eg hi) ?_ k1
    rcases hop with _ | _
    · exact .inl rfl
    · exact .inr rfl
  · exact .none _
  · have k := (slamStep_sim S ctg pc inplace (h.ok hi) (h.prevOk hp)).2 (hh _ _ (List.mem_of_getElem? hi))
      (sameDev_of hi fun r hr => hs i (by simp) f live hi r hr)
    have k2 := congrArg (fun x => x.2.2) k.2
    simp only at k2
    rw [← k2]
    refine .slam _ _ _ _ S pc inplace (eg hi) fun p hq => ?_
    obtain ⟨q, hq1, rfl⟩ := Option.map_eq_some_iff.1 hq
    obtain ⟨j, g, rfl⟩ := prevObj_some hq1
    exact ⟨j, (hp j g q rfl).2, eg (hp j g q rfl).1⟩
  · exact .none _

/-- A call that gives setters only tensors on the device of the object. -/
def QuietStep (w w' : World α) : Prop := ∃ is ts, Step w (.call is ts) w' ∧
  ∀ i ∈ is, ∀ f o, w.objs[i]? = some (f, o) → ∀ r ∈ ts, (w.mem.cell r).dev = o.dev

/-- The same for whole programs: starting from a reachable, honest state, however many calls are made. -/
theorem programs_on_values {w w' : World α} (hw : Reach w) (hh : Honest w) (h : Relation.ReflTransGen QuietStep w w') :
    Reach w' ∧ Honest w' ∧ Relation.ReflTransGen VStep (values w) (values w') := by
  induction h with
  | refl => exact ⟨hw, hh, .refl⟩
  | tail _ s ih =>
    obtain ⟨h1, h2, h3⟩ := ih
    obtain ⟨is, ts, s, hs⟩ := s
    refine ⟨.step h1 s, honest_kept h1 h2 s fun is' ts' e => ?_, h3.tail (calls_on_values h1 h2 s hs)⟩
    simp only [Ev.call.injEq] at e
    obtain ⟨rfl, rfl⟩ := e
    exact hs
end
end Verif.RMem
