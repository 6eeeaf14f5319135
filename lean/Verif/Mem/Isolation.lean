import Verif.Mem.World2
/-!
C81: who sees whose writes.

* No call changes an object it is not given, however much memory the objects share; a call never writes into a tensor the caller holds.
* A write of the caller is seen by the objects of the same family only.  So a copy made by `clone`, by an out-of-place operation or by `to`
  another device stays as it is whatever happens to the original and its views, and conversely.
* As long as the caller does not write into tensors, objects behave as if every tensor were a value: `Verif.PC.Model`.
* What shares memory and what does not, method by method.
-/
namespace Verif.Mem
open Verif Verif.Pcs
set_option linter.unusedSectionVars false

section
variable {α : Type*} [Field α] [LinearOrder α]

/-- Every call leaves the existing storages alone. -/
theorem Step.frame {w w' : World α} {is : List Nat} (s : Step w (.call is) w') {owner : Nat → Nat} (h : Inv w owner) :
    Ext w.mem w'.mem ∧ ∀ k, k ∉ is → k < w.objs.length → w'.objs[k]? = w.objs[k]? := by
  have e1 : ∀ {k i : Nat} {p : Nat × Obj}, k ∉ [i] → (w.objs.set i p)[k]? = w.objs[k]? := by
    intro k i p hk
    simp only [List.mem_singleton] at hk
    exact List.getElem?_set_ne (fun e => hk e.symm)
  have e2 : ∀ {k : Nat} {p : Nat × Obj}, k < w.objs.length → (w.objs ++ [p])[k]? = w.objs[k]? := fun hk => List.getElem?_append_left hk
  have e3 : ∀ {k i : Nat} {p q : Nat × Obj}, k ∉ [i] → k < w.objs.length → (w.objs.set i p ++ [q])[k]? = w.objs[k]? := fun h1 h2 => by
    rw [List.getElem?_append_left (by simpa using h2)]; exact e1 h1
  generalize he : Ev.call is = e at s
  rcases s with ⟨f, c⟩ | ⟨i, f, o, r, hi, hr⟩ | ⟨f, r, c, hr⟩ | ⟨f, d⟩ | ⟨f, arg, P, d, m', c, hP, ha, hc⟩ | ⟨f, arg, P, d, m', c, hP, ha, hc⟩ |
    ⟨i, f, o, op, vop, hi, hop⟩ | ⟨i, f, o, X, ts, hi, ht⟩ | ⟨i, f, o, X, t, hi, ht⟩ | ⟨i, f, g, o, c, hi, hc⟩ |
    ⟨i, f, g, o, c, op, vop, hi, hop, hc⟩ | ⟨i, f, o, c, hi, hc⟩ | ⟨i, f, o, c, idx, hi, hc⟩ | ⟨cur, a, copy, i, f, g, o, c, hi, hc, hg⟩ |
    ⟨i, j, f, g, s, o, hij, hi, hj⟩ | ⟨i, f, o, hi⟩ | ⟨i, f, o, m', o', hi, hc⟩ |
    ⟨i, f, o, inplace, op, vop, hi, hop, hn⟩ | ⟨i, f, g, o, c, inplace, op, vop, hi, hop, hc⟩ |
    ⟨f, S, d, frames, c, T, m', hc⟩
  all_goals simp only [Ev.call.injEq, reduceCtorEq] at he
  all_goals subst he
  · refine ⟨?_, fun _ _ _ => rfl⟩
    dsimp only; exact Ext.alloc _ _ _
  · exact ⟨.rfl, fun _ _ _ => rfl⟩
  · exact ⟨(newEmpty_fresh w.mem d).1.ext, fun _ _ hk => e2 hk⟩
  · rcases newList_sim hP d (fun r hr => (h.held _ _ (ha r hr)).1) with ⟨e, _, k⟩ | ⟨s, c', m1, _, k, _, hf, hu, _⟩
    · rw [hc] at k; simp at k
    · rw [hc] at k
      simp only [Prod.mk.injEq, Except.ok.injEq] at k
      obtain ⟨rfl, rfl⟩ := k
      exact ⟨hf.ext, fun _ _ hk => e2 hk⟩
  · rcases newTensor_sim hP d (fun r hr => (h.held _ _ (ha r hr)).1) with ⟨e, _, k⟩ | ⟨s, c', m1, _, k, _, hf, hu, _⟩
    · rw [hc] at k; simp at k
    · rw [hc] at k
      simp only [Prod.mk.injEq, Except.ok.injEq] at k
      obtain ⟨rfl, rfl⟩ := k
      exact ⟨hf.ext, fun _ _ hk => e2 hk⟩
  · exact ⟨(hop.sim (h.ok hi)).2.ext, fun _ hk _ => e1 hk⟩
  · exact ⟨(setList_sim X ts (h.ok hi) fun r ⟨v, hv, e⟩ => by
      obtain ⟨f1, h1⟩ := ht v hv
      rw [← e]; exact (h.held _ _ h1).1).grows.ext, fun _ hk _ => e1 hk⟩
  · obtain ⟨f1, h1⟩ := ht
    exact ⟨(setPad_grows X t (h.ok hi) (h.held _ _ h1).1).ext, fun _ hk _ => e1 hk⟩
  · exact ⟨(clone_sim (h.ok hi)).grows.ext, fun _ hk hl => e3 hk hl⟩
  · exact ⟨(outOfPlace_sim (fun m o h => hop.sim m o h) (h.ok hi)).grows.ext, fun _ hk hl => e3 hk hl⟩
  · exact ⟨(detach_sim (h.ok hi)).grows.ext, fun _ hk hl => e3 hk hl⟩
  · exact ⟨(getitem_sim idx (h.ok hi)).grows.ext, fun _ hk hl => e3 hk hl⟩
  · rcases to_sim cur a copy (h.ok hi) with k | ⟨_, _, hgr⟩
    · rw [k.2] at hc; simp at hc
    · exact ⟨hgr.ext, fun _ hk hl => e3 hk hl⟩
  · refine ⟨(append_grows (h.ok hi) (h.ok hj)).ext, fun k hk hl => ?_⟩
    simp only [List.mem_cons, List.not_mem_nil, or_false, not_or] at hk
    simp only
    rw [List.getElem?_set_ne (fun e => hk.2 e.symm), List.getElem?_set_ne (fun e => hk.1 e.symm)]
  · exact ⟨(appendSelf_grows (h.ok hi)).ext, fun _ hk _ => e1 hk⟩
  · exact ⟨(raises_grows (h.ok hi) hc).ext, fun _ hk _ => e1 hk⟩
  · exact ⟨(hop.sim (h.ok hi) (h.uni _ _ (List.mem_of_getElem? hi))).grows.ext, fun _ hk _ => e1 hk⟩
  · exact ⟨(hop.sim (h.ok hi) (h.uni _ _ (List.mem_of_getElem? hi))).grows.ext, fun _ hk hl => e3 hk hl⟩
  · exact ⟨(forward_new hc).2.1.ext, fun _ _ hk => e2 hk⟩

/-- **Calls have no side effects on other objects.**  Whatever function is called, every object the call is not given keeps all its fields and
everything stored in them, even if it shares tensors with the object the function is called on; and every tensor the caller holds keeps
its contents. -/
theorem call_keeps_others {w w' : World α} {is : List Nat} (hw : Reach w) (s : Step w (.call is) w') :
    (∀ k f o, k ∉ is → w.objs[k]? = some (f, o) → w'.objs[k]? = some (f, o) ∧ val w'.mem o = val w.mem o) ∧
    ∀ f r, (f, r) ∈ w.held → w'.mem.cell r = w.mem.cell r := by
  obtain ⟨owner, h⟩ := reach_inv hw
  obtain ⟨e, hk⟩ := s.frame h
  refine ⟨fun k f o hn hi => ⟨?_, val_ext (h.ok hi) e⟩, fun f r hr => e.cell r (h.held f r hr).1⟩
  rw [hk k hn (List.getElem?_eq_some_iff.1 hi).1, hi]

/-- **A write is seen within its family only.** -/
theorem write_keeps_families {w w' : World α} {f : Nat} (hw : Reach w) (s : Step w (.write f) w') :
    w'.objs = w.objs ∧ w'.held = w.held ∧ (∀ g o, (g, o) ∈ w.objs → g ≠ f → val w'.mem o = val w.mem o) ∧
    ∀ g r, (g, r) ∈ w.held → g ≠ f → w'.mem.cell r = w.mem.cell r := by
  obtain ⟨owner, h⟩ := reach_inv hw
  rcases s with _ | _ | ⟨f, r, c, hr⟩
  have key : ∀ q g, owner q = g → g ≠ f → (w.mem.poke r c).cell q = w.mem.cell q := by
    intro q g h1 h2
    have : q ≠ r := fun e => h2 (by rw [← h1, e]; exact (h.held f r hr).2)
    simp [Mem.poke, this]
  exact ⟨rfl, rfl, fun g o hg hn => val_congr fun q hq => key q g (h.objs g o hg q hq).2 hn, fun g q hg hn => key q g (h.held g q hg).2 hn⟩

/-- Something happening to family `f`: a write into one of its tensors, or a call on its objects. -/
def StepIn (f : Nat) (w w' : World α) : Prop :=
  Step w (.write f) w' ∨ ∃ is, Step w (.call is) w' ∧ ∀ i ∈ is, ∀ g o, w.objs[i]? = some (g, o) → g = f

/-- A program that works with family `f` only. -/
def WorksOn (f : Nat) : World α → World α → Prop := Relation.ReflTransGen (StepIn f)

theorem StepIn.reach {f : Nat} {w w' : World α} (h : StepIn f w w') (hw : Reach w) : Reach w' := by
  rcases h with s | ⟨is, s, _⟩ <;> exact .step hw s

/-- **Isolation.**  However long a program works with the objects and tensors of family `f` – in-place operations, setters, views,
further copies, writes into tensors –, the objects of other families keep all their contents. -/
theorem isolation {f : Nat} {w w' : World α} (hw : Reach w) (h : WorksOn f w w') {k g : Nat} {o : Obj} (hk : w.objs[k]? = some (g, o)) (hg : g ≠ f) :
    Reach w' ∧ w'.objs[k]? = some (g, o) ∧ val w'.mem o = val w.mem o := by
  induction h with
  | refl => exact ⟨hw, hk, rfl⟩
  | tail _ s ih =>
    obtain ⟨h1, h2, h3⟩ := ih
    refine ⟨s.reach h1, ?_⟩
    rcases s with s | ⟨is, s, hi⟩
    · obtain ⟨e1, _, e2, _⟩ := write_keeps_families h1 s
      exact ⟨by rw [e1]; exact h2, (e2 g o (List.mem_of_getElem? h2) hg).trans h3⟩
    · obtain ⟨e1, _⟩ := call_keeps_others h1 s
      have := e1 k g o (fun hk => hg (hi k hk g o h2)) h2
      exact ⟨this.1, this.2.trans h3⟩

/-- **`clone` is a deep copy.**  Take any reachable program state and clone its `i`-th object.  Then (1) object and copy have the value the
object had (up to the cached answer to `has_points`, see `Pcs.clone`), and (2) whatever is done afterwards with one of the two –
anything but a call that is given objects of the other's family – does not change the other. -/
theorem clone_independent {w w1 : World α} (hw : Reach w) {i f g : Nat} {o c : Obj} (hi : w.objs[i]? = some (f, o)) (hg : g ≠ f)
    (h : (Mem.clone w.mem o).1 = .ok c)
    (h1 : w1 = ⟨(Mem.clone w.mem o).2.1, w.objs.set i (f, (Mem.clone w.mem o).2.2) ++ [(g, c)], w.held⟩) :
    Pcs.clone (val w.mem o) = (.ok (val w1.mem c), val w1.mem (Mem.clone w.mem o).2.2) ∧
    (∀ w2, WorksOn f w1 w2 → w2.objs[w.objs.length]? = some (g, c) ∧ val w2.mem c = val w1.mem c) ∧
    ∀ w2, WorksOn g w1 w2 → w2.objs[i]? = some (f, (Mem.clone w.mem o).2.2) ∧ val w2.mem (Mem.clone w.mem o).2.2 = val w1.mem (Mem.clone w.mem o).2.2 := by
  obtain ⟨owner, hI⟩ := reach_inv hw
  have s := clone_sim (hI.ok hi)
  have hw1 : Reach w1 := by rw [h1]; exact .step hw (.clone w i f g o c hi h)
  have hlt := (List.getElem?_eq_some_iff.1 hi).1
  have hkc : w1.objs[w.objs.length]? = some (g, c) := by
    rw [h1]; simp only
    rw [List.getElem?_append_right (by simp)]
    simp
  have hki : w1.objs[i]? = some (f, (Mem.clone w.mem o).2.2) := by
    rw [h1]; simp only
    rw [List.getElem?_append_left (by simpa using hlt)]
    simp [hlt]
  refine ⟨?_, fun w2 h2 => (isolation hw1 h2 hkc hg).2, fun w2 h2 => (isolation hw1 h2 hki (Ne.symm hg)).2⟩
  have a := s.out
  have b := s.val
  rw [h] at a
  rw [h1]
  exact Prod.ext a b

/-! ### Values -/

/-- What a program does to the values of its objects when tensors are values. -/
inductive VStep : List (PC α) → List (PC α) → Prop
  | none (L : List (PC α)) : VStep L L
  | empty (L : List (PC α)) : VStep L (L ++ [Pcs.newEmpty])
  | fromList (L : List (PC α)) (arg P s) (hP : arg .points = some P) (h : Pcs.newList arg P = .ok s) : VStep L (L ++ [s])
  | fromTensor (L : List (PC α)) (arg P s) (hP : arg .points = some P) (h : Pcs.newTensor arg P = .ok s) : VStep L (L ++ [s])
  | method (L : List (PC α)) (i : Nat) (s : PC α) (op vop) (h : L[i]? = some s) (hop : Method op vop) : VStep L (L.set i (vop s))
  | assignList (L : List (PC α)) (i : Nat) (s : PC α) (X ts) (h : L[i]? = some s) : VStep L (L.set i (Pcs.setList X ts s).2)
  | assignPad (L : List (PC α)) (i : Nat) (s : PC α) (X t) (h : L[i]? = some s) : VStep L (L.set i (Pcs.setPad X t s).2)
  /-- `clone()`, `detach()`, `to(…)` -/
  | copy (L : List (PC α)) (i : Nat) (s c : PC α) (h : L[i]? = some s) (hc : (Pcs.clone s).1 = .ok c ∨ (recopy s).1 = .ok c) :
    VStep L (L.set i (Pcs.clone s).2 ++ [c])
  | outOfPlace (L : List (PC α)) (i : Nat) (s c : PC α) (op vop) (h : L[i]? = some s) (hop : Geometric op vop) (hc : (Pcs.outOfPlace vop s).1 = .ok c) :
    VStep L (L.set i (Pcs.outOfPlace vop s).2 ++ [c])
  | getitem (L : List (PC α)) (i : Nat) (s c : PC α) (idx) (h : L[i]? = some s) (hc : (Pcs.getitem idx s).1 = .ok c) :
    VStep L (L.set i (Pcs.getitem idx s).2 ++ [c])
  | append (L : List (PC α)) (i j : Nat) (s o : PC α) (hij : i ≠ j) (hi : L[i]? = some s) (hj : L[j]? = some o) :
    VStep L ((L.set i (Pcs.append s o).2.1).set j (Pcs.append s o).2.2)
  | appendSelf (L : List (PC α)) (i : Nat) (s : PC α) (hi : L[i]? = some s) (h : (Pcs.hasAttr .points s).1 = true) :
    VStep L (L.set i (Pcs.append s s).2.1)
  /-- a call that makes an object raises -/
  | raises (L : List (PC α)) (i : Nat) (s s' : PC α) (h : L[i]? = some s)
      (hs : s' = (Pcs.clone s).2 ∨ (∃ idx, s' = (Pcs.getitem idx s).2) ∨ ∃ op vop, Geometric op vop ∧ s' = (Pcs.outOfPlace vop s).2) : VStep L (L.set i s')
  /-- a mapping function, in place (the map returned is the object) or raising -/
  | maps (L : List (PC α)) (i : Nat) (s : PC α) (inplace : Bool) (op vop) (h : L[i]? = some s) (hop : Mapping inplace op vop)
      (hn : (vop s).1 = some (vop s).2 ∨ (vop s).1 = none) : VStep L (L.set i (vop s).2)
  /-- a mapping function, returning a new map -/
  | mapsNew (L : List (PC α)) (i : Nat) (s c : PC α) (op vop) (h : L[i]? = some s) (hop : Mapping false op vop) (hc : (vop s).1 = some c) :
    VStep L (L.set i (vop s).2 ++ [c])
  | forward [FloorRing α] (L : List (PC α)) (S : Slam.Sys α) (frames : Rgbd.Obj α) (c : PC α) (T : Rgbd.TM α) (h : Slam.forward S frames = .ok (c, T)) :
    VStep L (L ++ [c])

/-- The values of the objects. -/
def values (w : World α) : List (PC α) := w.objs.map fun p => val w.mem p.2

theorem recopy_self (s : PC α) : (recopy s).2 = (Pcs.clone s).2 := by
  unfold recopy
  generalize Pcs.clone s = p
  rcases p with ⟨r, s1⟩
  rcases r with e | c <;> rfl

/-- **Tensors are values as long as nobody writes into them.**  In a reachable state, a call of any function changes the values of the
objects as `Verif.PC.Model` says. -/
theorem calls_on_values {w w' : World α} {is : List Nat} (hw : Reach w) (s : Step w (.call is) w') : VStep (values w) (values w') := by
  obtain ⟨owner, h⟩ := reach_inv hw
  have e0 := (s.frame h).1
  have ev : ∀ {m' : Mem α}, Ext w.mem m' → (w.objs.map fun p => val m' p.2) = values w := fun e =>
    List.map_congr_left fun p hp => val_ext (fun r hr => (h.objs p.1 p.2 hp r hr).1) e
  have es : ∀ {m' : Mem α} {i f : Nat} {o' : Obj}, Ext w.mem m' → ((w.objs.set i (f, o')).map fun p => val m' p.2) = (values w).set i (val m' o') :=
    fun e => by rw [List.map_set, ev e]
  have eg : ∀ {i f : Nat} {o : Obj}, w.objs[i]? = some (f, o) → (values w)[i]? = some (val w.mem o) := fun hi => by
    simp [values, hi]
  generalize he : Ev.call is = e at s
  rcases s with ⟨f, c⟩ | ⟨i, f, o, r, hi, hr⟩ | ⟨f, r, c, hr⟩ | ⟨f, d⟩ | ⟨f, arg, P, d, m', c, hP, ha, hc⟩ | ⟨f, arg, P, d, m', c, hP, ha, hc⟩ |
    ⟨i, f, o, op, vop, hi, hop⟩ | ⟨i, f, o, X, ts, hi, ht⟩ | ⟨i, f, o, X, t, hi, ht⟩ | ⟨i, f, g, o, c, hi, hc⟩ |
    ⟨i, f, g, o, c, op, vop, hi, hop, hc⟩ | ⟨i, f, o, c, hi, hc⟩ | ⟨i, f, o, c, idx, hi, hc⟩ | ⟨cur, a, copy, i, f, g, o, c, hi, hc, hg⟩ |
    ⟨i, j, f, g, s, o, hij, hi, hj⟩ | ⟨i, f, o, hi⟩ | ⟨i, f, o, m', o', hi, hc⟩ |
    ⟨i, f, o, inplace, op, vop, hi, hop, hn⟩ | ⟨i, f, g, o, c, inplace, op, vop, hi, hop, hc⟩ |
    ⟨f, S, d, frames, c, T, m', hc⟩
  all_goals simp only [Ev.call.injEq, reduceCtorEq] at he
  all_goals subst he
  all_goals simp only at e0
  all_goals refine (id : VStep (values w) (List.map (fun p : Nat × Obj => val (α := α) _ p.2) _) → _) ?_
  all_goals try rw [List.map_append]
  all_goals try rw [es e0]
  all_goals try rw [ev e0]
  all_goals try simp only [List.map_cons, List.map_nil]
  · exact .none _
  · exact .none _
  · rw [newEmpty_val]; exact .empty _
  · rcases newList_sim hP d (fun r hr => (h.held _ _ (ha r hr)).1) with ⟨e, _, k⟩ | ⟨s, c', m1, hs, k, hv, hf, hu, _⟩
    · rw [hc] at k; simp at k
    · rw [hc] at k
      simp only [Prod.mk.injEq, Except.ok.injEq] at k
      obtain ⟨rfl, rfl⟩ := k
      rw [hv]
      exact .fromList _ _ _ _ (by simp [readLists, hP]) hs
  · rcases newTensor_sim hP d (fun r hr => (h.held _ _ (ha r hr)).1) with ⟨e, _, k⟩ | ⟨s, c', m1, hs, k, hv, hf, hu, _⟩
    · rw [hc] at k; simp at k
    · rw [hc] at k
      simp only [Prod.mk.injEq, Except.ok.injEq] at k
      obtain ⟨rfl, rfl⟩ := k
      rw [hv]
      exact .fromTensor _ _ _ _ (by simp [hP]) hs
  · rw [← (hop.sim (h.ok hi)).1]; exact .method _ _ _ _ _ (eg hi) hop
  · rw [← (setList_sim X ts (h.ok hi) fun r ⟨v, hv, e⟩ => by
      obtain ⟨f1, h1⟩ := ht v hv
      rw [← e]; exact (h.held _ _ h1).1).val]
    exact .assignList _ _ _ _ _ (eg hi)
  · obtain ⟨f1, h1⟩ := ht
    by_cases hd : (w.mem.cell t).dev = o.dev
    · rw [← (setPad_sim X t (h.ok hi) (h.held _ _ h1).1 hd).val]; exact .assignPad _ _ _ _ _ (eg hi)
    · rw [setPad_refused X t hd]
      have := VStep.method (values w) i _ _ _ (eg hi) (.has .points)
      simp only [hasAttr_sim] at this
      exact this
  · have s := clone_sim (h.ok hi)
    have a := s.out
    rw [hc] at a
    rw [← s.val]
    exact .copy _ _ _ _ (eg hi) (.inl a)
  · have s := outOfPlace_sim (fun m o h => hop.sim m o h) (h.ok hi)
    have a := s.out
    rw [hc] at a
    rw [← s.val]
    exact .outOfPlace _ _ _ _ _ _ (eg hi) hop a
  · have s := detach_sim (h.ok hi)
    have a := s.out
    rw [hc] at a
    rw [← s.val, recopy_self]
    exact .copy _ _ _ _ (eg hi) (.inr a)
  · have s := getitem_sim idx (h.ok hi)
    have a := s.out
    rw [hc] at a
    rw [← s.val]
    exact .getitem _ _ _ _ _ (eg hi) a
  · rcases to_sim cur a copy (h.ok hi) with k | ⟨k, hv, hgr⟩
    · rw [k.2] at hc; simp at hc
    · rw [← hv]
      rcases k with ⟨_, e, _, k⟩ | ⟨c', k, mv, k1, k2⟩
      · rw [hc] at k; simp at k
      · rw [hc] at k
        simp only [Except.ok.injEq, Moved.new.injEq] at k
        subst k
        refine .copy _ _ _ _ (eg hi) ?_
        rcases hb : a.same o.dev with _ | _
        · exact .inr (k2 hb)
        · exact .inl (k1 hb)
  · rw [List.map_set, es e0]
    by_cases hd : o.dev = s.dev
    · have t := append_sim (h.ok hi) (h.ok hj) hd
      rw [← t.vs, ← t.vo]
      exact .append _ _ _ _ _ hij (eg hi) (eg hj)
    · have e : Verif.Mem.append w.mem s o = (.error .valueError, w.mem, s, o) := by unfold Verif.Mem.append; rw [if_pos hd]
      rw [e]
      have q : ((values w).set i (val w.mem s)).set j (val w.mem o) = values w := by
        apply List.ext_getElem?
        intro k
        by_cases hkj : k = j
        · subst hkj
          rw [List.getElem?_set_self (by simpa [values] using (List.getElem?_eq_some_iff.1 hj).1), eg hj]
        · rw [List.getElem?_set_ne (fun e => hkj e.symm)]
          by_cases hki : k = i
          · subst hki
            rw [List.getElem?_set_self (by simpa [values] using (List.getElem?_eq_some_iff.1 hi).1), eg hi]
          · rw [List.getElem?_set_ne (fun e => hki e.symm)]
      simp only
      rw [q]
      exact .none _
  · unfold Mem.appendSelf
    have e := hasAttr_sim w.mem .points o
    by_cases hb : (hasAttr .points o).1 = true
    · simp only [hb, if_true]
      rw [← (append_sim (h.ok hi) (h.ok hi) rfl).vs]
      exact .appendSelf _ _ _ (eg hi) (by rw [e]; exact hb)
    · simp only [hb, if_false]
      have := VStep.method (values w) i _ _ _ (eg hi) (.has .points)
      simp only [hasAttr_sim] at this
      exact this
  · refine .raises _ _ _ _ (eg hi) ?_
    have ho := h.ok hi
    rcases hc with ⟨e, h⟩ | ⟨e, idx, h⟩ | ⟨e, h⟩ | ⟨e, cur, a, copy, h⟩ | ⟨e, op, vop, hop, h⟩
    · have := (clone_sim ho).val; rw [h] at this; exact .inl this.symm
    · have := (getitem_sim idx ho).val; rw [h] at this; exact .inr (.inl ⟨idx, this.symm⟩)
    · have := (detach_sim ho).val; rw [h, recopy_self] at this; exact .inl this.symm
    · rcases to_sim cur a copy ho with k | k
      · rw [k.2] at h; simp at h
      · have := k.2.1; rw [h] at this; exact .inl this.symm
    · have := (outOfPlace_sim (fun m o h => hop.sim m o h) ho).val; rw [h] at this; exact .inr (.inr ⟨op, vop, hop, this.symm⟩)
  · have s := hop.sim (h.ok hi) (h.uni _ _ (List.mem_of_getElem? hi))
    rw [← s.val]
    refine .maps _ _ _ _ _ _ (eg hi) hop ?_
    rw [s.out]
    rcases hn with k | k <;> rw [k]
    · exact .inl (by rw [s.val]; rfl)
    · exact .inr rfl
  · have s := hop.sim (h.ok hi) (h.uni _ _ (List.mem_of_getElem? hi))
    have hf : inplace = false := by
      rcases inplace with _ | _
      · rfl
      · have := (s.kind _ hc).2 rfl; cases this
    subst hf
    rw [← s.val]
    refine .mapsNew _ _ _ _ _ _ (eg hi) hop ?_
    rw [s.out, hc]; rfl
  · exact .forward _ _ _ _ _ (forward_new hc).1

/-- A program in which the caller does not write into tensors. -/
def Calls : World α → World α → Prop := Relation.ReflTransGen fun w w' => ∃ is, Step w (.call is) w'

/-- Over whole programs: without writes of the caller the objects take the values the value model gives them. -/
theorem programs_on_values {w w' : World α} (hw : Reach w) (h : Calls w w') :
    Reach w' ∧ Relation.ReflTransGen VStep (values w) (values w') := by
  induction h with
  | refl => exact ⟨hw, .refl⟩
  | tail _ s ih =>
    obtain ⟨is, s⟩ := s
    exact ⟨.step ih.1 s, ih.2.tail (calls_on_values ih.1 s)⟩

end
end Verif.Mem
