import Verif.Mem.World
/-! Ownership: in every reachable world the storages of different families are disjoint, and the objects are on the device they name. -/
namespace Verif.Mem
open Verif Verif.Pcs
set_option linter.unusedSectionVars false

section
variable {α : Type*}

theorem getList_self (X : Attr) (m : Mem α) (o : Obj) (r : Nat) (h : Holds (getList X m o).2 r) : Holds o r := by
  rcases (getList_grows X m o).own r h with k | k
  · exact k
  · omega

theorem detach_self (m : Mem α) (o : Obj) : (detach m o).2.2 = (hasAttr .points o).2 := by
  have h := clone_self m o
  unfold detach
  generalize clone m o = p at h ⊢
  rcases p with ⟨r, m1, o1⟩
  rcases r with e | c <;> exact h

theorem toDevice_self (cur : Nat) (a : DevArg) (copy : Bool) (m : Mem α) (o : Obj) :
    (toDevice cur a copy m o).2.2 = o ∨ (toDevice cur a copy m o).2.2 = (hasAttr .points o).2 := by
  have h := clone_self m o
  unfold toDevice
  generalize clone m o = p at h ⊢
  rcases p with ⟨r, m1, o1⟩
  split_ifs
  · exact .inl rfl
  · rcases r with e | c
    · exact .inr h
    · simp only; split_ifs <;> exact .inr h

theorem outOfPlace_self [Field α] (op : Mem α → Obj → Except Err Unit × Mem α × Obj) (m : Mem α) (o : Obj) :
    (outOfPlace op m o).2.2 = (hasAttr .points o).2 := by
  have h := clone_self m o
  unfold outOfPlace
  generalize clone m o = p at h ⊢
  rcases p with ⟨r, m1, o1⟩
  rcases r with e | c
  · exact h
  · simp only; split <;> exact h

theorem selectAttr_self (idx : Index) (X : Attr) (m : Mem α) (o : Obj) (r : Nat) (h : Holds (selectAttr idx X m o).2 r) : Holds o r := by
  unfold selectAttr at h
  have k := has_self X o r
  generalize hasAttr X o = p at h k
  rcases p with ⟨b, o1⟩
  rcases b with _ | _
  · exact k h
  · simp only [Bool.not_true, Bool.false_eq_true, if_false] at h
    have k2 := getList_self X m o1 r
    generalize getList X m o1 = q at h k2
    rcases q with ⟨l, o2⟩
    simp only at h
    split at h <;> exact k (k2 h)

theorem getitem_self (idx : Index) (m : Mem α) (o : Obj) (r : Nat) (h : Holds (getitem idx m o).2.2 r) : Holds o r := by
  unfold getitem at h
  have k0 := has_self .points o r
  generalize hasAttr .points o = p at h k0
  rcases p with ⟨b, o0⟩
  rcases b with _ | _
  · exact k0 h
  · simp only [Bool.not_true, Bool.false_eq_true, if_false] at h
    have k1 := selectAttr_self idx .points m o0 r
    generalize selectAttr idx .points m o0 = p at h k1
    rcases p with ⟨p, o1⟩
    rcases p with e | p
    · exact k0 (k1 h)
    simp only at h
    have k2 := selectAttr_self idx .normals m o1 r
    generalize selectAttr idx .normals m o1 = p at h k2
    rcases p with ⟨n, o2⟩
    rcases n with e | n
    · exact k0 (k1 (k2 h))
    simp only at h
    have k3 := selectAttr_self idx .colors m o2 r
    generalize selectAttr idx .colors m o2 = p at h k3
    rcases p with ⟨c, o3⟩
    rcases c with e | c
    · exact k0 (k1 (k2 (k3 h)))
    simp only at h
    have k4 := selectAttr_self idx .features m o3 r
    generalize selectAttr idx .features m o3 = p at h k4
    rcases p with ⟨f, o4⟩
    rcases f with e | f <;> exact k0 (k1 (k2 (k3 (k4 h))))
end

section
variable {α : Type*} [Field α] [LinearOrder α]

/-- `owner` says which family a storage belongs to. -/
structure Inv (w : World α) (owner : Nat → Nat) : Prop where
  uni : ∀ f o, (f, o) ∈ w.objs → Uni w.mem o
  objs : ∀ f o, (f, o) ∈ w.objs → ∀ r, Holds o r → r < w.mem.next ∧ owner r = f
  held : ∀ f r, (f, r) ∈ w.held → r < w.mem.next ∧ owner r = f

theorem Inv.ok {w : World α} {owner : Nat → Nat} (h : Inv w owner) {i f : Nat} {o : Obj} (hi : w.objs[i]? = some (f, o)) : Ok w.mem o :=
  fun r hr => (h.objs f o (List.mem_of_getElem? hi) r hr).1

/-- A step that allocates, the new storages going to family `g`. -/
theorem Inv.grow {w : World α} {owner : Nat → Nat} (h : Inv w owner) {m' : Mem α} (e : Ext w.mem m') (g : Nat) {L : List (Nat × Obj)}
    {H : List (Nat × Nat)}
    (hL : ∀ f o, (f, o) ∈ L → (f, o) ∈ w.objs ∨
      (Uni m' o ∧ ∀ r, Holds o r → (r < w.mem.next ∧ owner r = f) ∨ (f = g ∧ w.mem.next ≤ r ∧ r < m'.next)))
    (hH : ∀ f r, (f, r) ∈ H → (r < w.mem.next ∧ owner r = f) ∨ (f = g ∧ w.mem.next ≤ r ∧ r < m'.next)) :
    Inv ⟨m', L, H⟩ fun r => if r < w.mem.next then owner r else g := by
  have key : ∀ f r, (r < w.mem.next ∧ owner r = f) ∨ (f = g ∧ w.mem.next ≤ r ∧ r < m'.next) →
      r < m'.next ∧ (if r < w.mem.next then owner r else g) = f := by
    rintro f r (⟨k1, k2⟩ | ⟨k1, k2, k3⟩)
    · exact ⟨k1.trans_le e.next, by rw [if_pos k1, k2]⟩
    · exact ⟨k3, by rw [if_neg (by omega), k1]⟩
  refine ⟨fun f o ho => ?_, fun f o ho r hr => key f r ?_, fun f r hr => key f r (hH f r hr)⟩
  · rcases hL f o ho with k | k
    · exact (h.uni f o k).ext (fun r hr => (h.objs f o k r hr).1) e
    · exact k.1
  · rcases hL f o ho with k | k
    · exact .inl (h.objs f o k r hr)
    · exact k.2 r hr

/-- A step that changes one object. -/
theorem Inv.change {w : World α} {owner : Nat → Nat} (h : Inv w owner) {m' : Mem α} {i f : Nat} {o o' : Obj} (hi : w.objs[i]? = some (f, o))
    (g : Grows w.mem o m' o') : ∃ owner', Inv ⟨m', w.objs.set i (f, o'), w.held⟩ owner' := by
  have hm := List.mem_of_getElem? hi
  refine ⟨_, h.grow g.ext f (fun f1 o1 h1 => ?_) fun f1 r h1 => .inl (h.held f1 r h1)⟩
  rcases List.mem_or_eq_of_mem_set h1 with k | k
  · exact .inl k
  · simp only [Prod.mk.injEq] at k
    obtain ⟨rfl, rfl⟩ := k
    refine .inr ⟨g.uni (h.ok hi) (h.uni _ _ hm), fun r hr => ?_⟩
    rcases g.own r hr with k | k
    · exact .inl (h.objs _ _ hm r k)
    · exact .inr ⟨rfl, k⟩

/-- A step that makes a new object. -/
theorem Inv.make {w : World α} {owner : Nat → Nat} (h : Inv w owner) {m' : Mem α} {g : Nat} {c : Obj} {src : Nat → Prop} (hf : Fresh w.mem m' src c)
    (hu : Uni m' c) (hs : ∀ r, src r → Holds c r → r < w.mem.next ∧ owner r = g) : ∃ owner', Inv ⟨m', w.objs ++ [(g, c)], w.held⟩ owner' := by
  refine ⟨_, h.grow hf.ext g (fun f1 o1 h1 => ?_) fun f1 r h1 => .inl (h.held f1 r h1)⟩
  rcases List.mem_append.1 h1 with k | k
  · exact .inl k
  · simp only [List.mem_singleton, Prod.mk.injEq] at k
    obtain ⟨rfl, rfl⟩ := k
    refine .inr ⟨hu, fun r hr => ?_⟩
    rcases hf.own r hr with k | k
    · exact .inl (hs r k hr)
    · exact .inr ⟨rfl, k⟩

/-- A step that makes a new object out of another one. -/
theorem Inv.copy {w : World α} {owner : Nat → Nat} (h : Inv w owner) {m' : Mem α} {i f g : Nat} {o o' c : Obj} {src : Nat → Prop}
    (hi : w.objs[i]? = some (f, o)) (hg : Grows w.mem o m' o') (ho : ∀ r, Holds o' r → Holds o r) (hf : Fresh w.mem m' src c) (hu : Uni m' c)
    (hs : ∀ r, src r → r < w.mem.next ∧ owner r = g) : ∃ owner', Inv ⟨m', w.objs.set i (f, o') ++ [(g, c)], w.held⟩ owner' := by
  have hm := List.mem_of_getElem? hi
  refine ⟨_, h.grow hf.ext g (fun f1 o1 h1 => ?_) fun f1 r h1 => .inl (h.held f1 r h1)⟩
  rcases List.mem_append.1 h1 with k | k
  · rcases List.mem_or_eq_of_mem_set k with k | k
    · exact .inl k
    · simp only [Prod.mk.injEq] at k
      obtain ⟨rfl, rfl⟩ := k
      exact .inr ⟨hg.uni (h.ok hi) (h.uni _ _ hm), fun r hr => .inl (h.objs _ _ hm r (ho r hr))⟩
  · simp only [List.mem_singleton, Prod.mk.injEq] at k
    obtain ⟨rfl, rfl⟩ := k
    refine .inr ⟨hu, fun r hr => ?_⟩
    rcases hf.own r hr with k | k
    · exact .inl (hs r k)
    · exact .inr ⟨rfl, k⟩

/-- A step that changes an object and makes a new one, the storages of the two being disjoint. -/
theorem Inv.split {w : World α} {owner : Nat → Nat} (h : Inv w owner) {m' : Mem α} {i f g : Nat} {o o' c : Obj} (hi : w.objs[i]? = some (f, o))
    (hg : Grows w.mem o m' o') (hf : Fresh w.mem m' (fun _ => False) c) (hd : ∀ q, Holds c q → ¬ Holds o' q) (hu : Uni m' c) :
    ∃ owner', Inv ⟨m', w.objs.set i (f, o') ++ [(g, c)], w.held⟩ owner' := by
  classical
  have hm := List.mem_of_getElem? hi
  have old : ∀ r, r < w.mem.next → (if r < w.mem.next then owner r else if Holds c r then g else f) = owner r := fun r hr => if_pos hr
  refine ⟨fun r => if r < w.mem.next then owner r else if Holds c r then g else f, fun f1 o1 h1 => ?_, fun f1 o1 h1 r hr => ?_, fun f1 r h1 => ?_⟩
  · rcases List.mem_append.1 h1 with k | k
    · rcases List.mem_or_eq_of_mem_set k with k | k
      · exact (h.uni _ _ k).ext (fun r hr => (h.objs _ _ k r hr).1) hf.ext
      · simp only [Prod.mk.injEq] at k
        obtain ⟨rfl, rfl⟩ := k
        exact hg.uni (h.ok hi) (h.uni _ _ hm)
    · simp only [List.mem_singleton, Prod.mk.injEq] at k
      obtain ⟨rfl, rfl⟩ := k
      exact hu
  · rcases List.mem_append.1 h1 with k | k
    · rcases List.mem_or_eq_of_mem_set k with k | k
      · have := h.objs _ _ k r hr
        exact ⟨this.1.trans_le hf.ext.next, by simp only [old r this.1]; exact this.2⟩
      · simp only [Prod.mk.injEq] at k
        obtain ⟨rfl, rfl⟩ := k
        rcases hg.own r hr with k | k
        · have := h.objs _ _ hm r k
          exact ⟨this.1.trans_le hf.ext.next, by simp only [old r this.1]; exact this.2⟩
        · exact ⟨k.2, by rw [if_neg (not_lt.2 k.1), if_neg fun hc => hd r hc hr]⟩
    · simp only [List.mem_singleton, Prod.mk.injEq] at k
      obtain ⟨rfl, rfl⟩ := k
      rcases hf.own r hr with k | k
      · exact k.elim
      · exact ⟨k.2, by rw [if_neg (not_lt.2 k.1), if_pos hr]⟩
  · have := h.held _ _ h1
    exact ⟨this.1.trans_le hf.ext.next, by simp only [old r this.1]; exact this.2⟩

theorem append_grows {m : Mem α} {s o : Obj} (hs : Ok m s) (ho : Ok m o) : Two m s o (append m s o).2.1 (append m s o).2.2.1 (append m s o).2.2.2 := by
  by_cases hd : o.dev = s.dev
  · exact (append_sim hs ho hd).two
  · unfold append
    rw [if_pos hd]
    exact .rfl

theorem appendSelf_grows {m : Mem α} {o : Obj} (ho : Ok m o) : Grows m o (appendSelf m o).2.1 (appendSelf m o).2.2 := by
  unfold appendSelf
  split_ifs
  · have t := append_grows ho ho
    exact ⟨t.ext, t.owns, t.devs, fun a b => t.uni a a b b rfl⟩
  · exact hasAttr_grows m .points o

theorem raises_grows {m m' : Mem α} {o o' : Obj} (ho : Ok m o)
    (h : (∃ e, clone m o = (.error e, m', o')) ∨ (∃ e idx, getitem idx m o = (.error e, m', o')) ∨
        (∃ e, detach m o = (.error e, m', o')) ∨ (∃ e cur a copy, toDevice cur a copy m o = (.error e, m', o')) ∨
        ∃ e op vop, Geometric op vop ∧ outOfPlace op m o = (.error e, m', o')) : Grows m o m' o' := by
  rcases h with ⟨e, h⟩ | ⟨e, idx, h⟩ | ⟨e, h⟩ | ⟨e, cur, a, copy, h⟩ | ⟨e, op, vop, hop, h⟩
  · have := (clone_sim ho).grows; rw [h] at this; exact this
  · have := (getitem_sim idx ho).grows; rw [h] at this; exact this
  · have := (detach_sim ho).grows; rw [h] at this; exact this
  · rcases to_sim cur a copy ho with k | k
    · rw [k.2] at h; simp at h
    · have := k.2.2; rw [h] at this; exact this
  · have := (outOfPlace_sim (fun m o h => hop.sim m o h) ho).grows; rw [h] at this; exact this

/-- What a reachable world looks like. -/
theorem Step.inv {w w' : World α} {e : Ev} (s : Step w e w') {owner : Nat → Nat} (h : Inv w owner) : ∃ owner', Inv w' owner' := by
  rcases s with ⟨f, c⟩ | ⟨i, f, o, r, hi, hr⟩ | ⟨f, r, c, hr⟩ | ⟨f, d⟩ | ⟨f, arg, P, d, m', c, hP, ha, hc⟩ | ⟨f, arg, P, d, m', c, hP, ha, hc⟩ |
    ⟨i, f, o, op, vop, hi, hop⟩ | ⟨i, f, o, X, ts, hi, ht⟩ | ⟨i, f, o, X, t, hi, ht⟩ | ⟨i, f, g, o, c, hi, hc⟩ |
    ⟨i, f, g, o, c, op, vop, hi, hop, hc⟩ | ⟨i, f, o, c, hi, hc⟩ | ⟨i, f, o, c, idx, hi, hc⟩ | ⟨cur, a, copy, i, f, g, o, c, hi, hc, hg⟩ |
    ⟨i, j, f, g, s, o, hij, hi, hj⟩ | ⟨i, f, o, hi⟩ | ⟨i, f, o, m', o', hi, hc⟩ |
    ⟨i, f, o, inplace, op, vop, hi, hop, hn⟩ | ⟨i, f, g, o, c, inplace, op, vop, hi, hop, hc⟩ |
    ⟨f, S, d, frames, c, T, m', hc⟩
  · refine ⟨_, h.grow (Ext.alloc _ _ _) f (fun f1 o1 h1 => .inl h1) fun f1 r h1 => ?_⟩
    rcases List.mem_append.1 h1 with k | k
    · exact .inl (h.held _ _ k)
    · simp only [List.mem_singleton, Prod.mk.injEq] at k
      obtain ⟨rfl, rfl⟩ := k
      exact .inr ⟨rfl, le_rfl, by simp⟩
  · refine ⟨owner, h.uni, h.objs, fun f1 r1 h1 => ?_⟩
    rcases List.mem_append.1 h1 with k | k
    · exact h.held _ _ k
    · simp only [List.mem_singleton, Prod.mk.injEq] at k
      obtain ⟨rfl, rfl⟩ := k
      exact h.objs _ _ (List.mem_of_getElem? hi) _ hr
  · refine ⟨owner, fun f1 o1 h1 q hq => ?_, h.objs, h.held⟩
    have := h.uni f1 o1 h1 q hq
    simp only [Mem.poke]
    split_ifs with hqr
    · subst hqr; exact this
    · exact this
  · exact h.make (newEmpty_fresh w.mem d).1 (newEmpty_fresh w.mem d).2 fun r hr => hr.elim
  · rcases newList_sim hP d (fun r hr => (h.held _ _ (ha r hr)).1) with ⟨e, _, k⟩ | ⟨s, c', m1, _, k, _, hf, hu, _⟩
    · rw [hc] at k; simp at k
    · rw [hc] at k
      simp only [Prod.mk.injEq, Except.ok.injEq] at k
      obtain ⟨rfl, rfl⟩ := k
      exact h.make hf hu fun r hr _ => h.held _ _ (ha r hr)
  · rcases newTensor_sim hP d (fun r hr => (h.held _ _ (ha r hr)).1) with ⟨e, _, k⟩ | ⟨s, c', m1, _, k, _, hf, hu, _⟩
    · rw [hc] at k; simp at k
    · rw [hc] at k
      simp only [Prod.mk.injEq, Except.ok.injEq] at k
      obtain ⟨rfl, rfl⟩ := k
      exact h.make hf hu fun r hr _ => h.held _ _ (ha r hr)
  · exact h.change hi (hop.sim (h.ok hi)).2
  · exact h.change hi (setList_sim X ts (h.ok hi) fun r ⟨v, hv, e⟩ => by
      obtain ⟨f1, h1⟩ := ht v hv
      rw [← e]; exact (h.held _ _ h1).1).grows
  · obtain ⟨f1, h1⟩ := ht
    exact h.change hi (setPad_grows X t (h.ok hi) (h.held _ _ h1).1)
  · have s := clone_sim (h.ok hi)
    exact h.copy hi s.grows (fun r hr => has_self .points o r (by rw [clone_self] at hr; exact hr)) (s.fresh c hc)
      (s.uni c hc (h.ok hi) (h.uni _ _ (List.mem_of_getElem? hi))).1 fun r hr => hr.elim
  · have s := outOfPlace_sim (fun m o h => hop.sim m o h) (h.ok hi)
    exact h.copy hi s.grows (fun r hr => has_self .points o r (by rw [outOfPlace_self] at hr; exact hr)) (s.fresh c hc)
      (s.uni c hc (h.ok hi) (h.uni _ _ (List.mem_of_getElem? hi))).1 fun r hr => hr.elim
  · have s := detach_sim (h.ok hi)
    exact h.copy hi s.grows (fun r hr => has_self .points o r (by rw [detach_self] at hr; exact hr)) (s.fresh c hc)
      (s.uni c hc (h.ok hi) (h.uni _ _ (List.mem_of_getElem? hi))).1 fun r hr => h.objs _ _ (List.mem_of_getElem? hi) r hr
  · have s := getitem_sim idx (h.ok hi)
    exact h.copy hi s.grows (fun r hr => getitem_self idx w.mem o r hr) (s.fresh c hc)
      (s.uni c hc (h.ok hi) (h.uni _ _ (List.mem_of_getElem? hi))).1 fun r hr => h.objs _ _ (List.mem_of_getElem? hi) r hr
  · have hm := List.mem_of_getElem? hi
    rcases to_sim cur a copy (h.ok hi) with k | ⟨k, _, hgr⟩
    · rw [k.2] at hc; simp at hc
    · rcases k with ⟨_, e, _, k⟩ | ⟨c', k, mv, _⟩
      · rw [hc] at k; simp at k
      · rw [hc] at k
        simp only [Except.ok.injEq, Moved.new.injEq] at k
        subst k
        refine h.copy hi hgr (fun r hr => ?_) mv.fresh (mv.uni (h.uni _ _ hm)) fun r hr => ?_
        · rcases toDevice_self cur a copy w.mem o with k | k
          · rw [k] at hr; exact hr
          · rw [k] at hr; exact has_self .points o r hr
        · obtain ⟨k1, k2, k3⟩ := hr
          rcases hg with hg | hg | hg
          · rw [hg]; exact h.objs _ _ hm r k2
          · rw [k1] at hg; simp at hg
          · exact absurd (by rw [← k3]; exact h.uni _ _ hm r k2) hg
  · have t := append_grows (h.ok hi) (h.ok hj)
    have mi := List.mem_of_getElem? hi
    have mj := List.mem_of_getElem? hj
    have oks := h.ok hi
    have oko := h.ok hj
    by_cases hd : o.dev = s.dev
    · refine ⟨_, h.grow t.ext f (fun f1 o1 h1 => ?_) fun f1 r h1 => .inl (h.held f1 r h1)⟩
      rcases List.mem_or_eq_of_mem_set h1 with k | k
      · rcases List.mem_or_eq_of_mem_set k with k | k
        · exact .inl k
        · simp only [Prod.mk.injEq] at k
          obtain ⟨rfl, rfl⟩ := k
          refine .inr ⟨t.uni oks oko (h.uni _ _ mi) (h.uni _ _ mj) hd, fun r hr => ?_⟩
          rcases t.owns r hr with k | k
          · exact .inl (h.objs _ _ mi r k)
          · exact .inr ⟨rfl, k⟩
      · simp only [Prod.mk.injEq] at k
        obtain ⟨rfl, rfl⟩ := k
        exact .inr ⟨t.unio oko (h.uni _ _ mj), fun r hr => .inl (h.objs _ _ mj r (t.owno r hr))⟩
    · have e : Verif.Mem.append w.mem s o = (.error .valueError, w.mem, s, o) := by unfold Verif.Mem.append; rw [if_pos hd]
      rw [e]
      refine ⟨owner, fun f1 o1 h1 => ?_, fun f1 o1 h1 => ?_, h.held⟩
      all_goals
        rcases List.mem_or_eq_of_mem_set h1 with k | k
        · rcases List.mem_or_eq_of_mem_set k with k | k
          · first | exact h.uni _ _ k | exact h.objs _ _ k
          · simp only [Prod.mk.injEq] at k
            obtain ⟨rfl, rfl⟩ := k
            first | exact h.uni _ _ mi | exact h.objs _ _ mi
        · simp only [Prod.mk.injEq] at k
          obtain ⟨rfl, rfl⟩ := k
          first | exact h.uni _ _ mj | exact h.objs _ _ mj
  · exact h.change hi (appendSelf_grows (h.ok hi))
  · exact h.change hi (raises_grows (h.ok hi) hc)
  · exact h.change hi (hop.sim (h.ok hi) (h.uni _ _ (List.mem_of_getElem? hi))).grows
  · have s := hop.sim (h.ok hi) (h.uni _ _ (List.mem_of_getElem? hi))
    exact h.split hi s.grows (s.fresh c hc).1 (s.fresh c hc).2 (s.uni c hc).1
  · have s := forward_new hc
    exact h.make s.2.1 s.2.2.1 fun r hr => hr.elim

theorem reach_inv {w : World α} (h : Reach w) : ∃ owner, Inv w owner := by
  induction h with
  | start m h => exact ⟨fun _ => 0, by simp, by simp, by simp⟩
  | step _ s ih => obtain ⟨owner, ih⟩ := ih; exact s.inv ih
end
end Verif.Mem
