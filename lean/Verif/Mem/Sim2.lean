import Verif.Mem.Sim
/-! Setters and geometric operations: the memory model refines the value model. -/
namespace Verif.Mem
open Verif Verif.Pcs
set_option linter.unusedSectionVars false
set_option linter.unusedSimpArgs false

section
variable {α : Type*}

/-! ### Passing on lists of tensors -/

/-- What passing on a list of tensors does. -/
structure PassOk {β γ : Type*} (p : Pass α) (refs : β → Nat → Prop) (rd : Mem α → β → γ) (m : Mem α) (x : β) (m' : Mem α) (x' : β) : Prop where
  ext : Ext m m'
  rd : rd m' x' = rd m x
  own : ∀ r, refs x' r → (refs x r ∧ p.keep (m.cell r) = true) ∨
    (m.next ≤ r ∧ r < m'.next ∧ ∃ q, refs x q ∧ p.keep (m.cell q) = false ∧ (m'.cell r).dev = p.dev (m.cell q))

/-- The storages of a list of tensors. -/
def listRefs (l : List View) (r : Nat) : Prop := ∃ v ∈ l, v.ref = r
def oneRefs (x r : Nat) : Prop := r = x

theorem T2.take_all (t : T2 α) : T2.take t.rows.length t = t := by cases t; simp [T2.take]

theorem passList_ok (p : Pass α) (m : Mem α) (l : List View) (h : ∀ r, listRefs l r → r < m.next) :
    PassOk p listRefs (fun m l => l.map m.read) m l (passList p m l).1 (passList p m l).2 := by
  refine ⟨by unfold passList; dsimp only; exact Ext.alloc m _ _, ?_, ?_⟩
  · apply List.ext_getElem
    · simp [passList]
    · intro i h1 h2
      simp only [passList, List.length_map, List.length_mapIdx] at h1 h2
      simp only [passList, List.getElem_map, List.getElem_mapIdx]
      split_ifs
      · exact read_congr (alloc_old _ _ _ (h _ ⟨_, List.getElem_mem h2, rfl⟩))
      · simp only [Mem.read, alloc_new, List.getD_cons_zero, List.getD, List.getElem?_eq_getElem h2, Option.getD_some]
        exact T2.take_all (T2.take _ _)
  · rintro r ⟨v, hv, rfl⟩
    obtain ⟨i, hi, rfl⟩ := List.getElem_of_mem hv
    simp only [passList, List.length_mapIdx] at hi
    simp only [passList, List.getElem_mapIdx]
    split_ifs with hk
    · exact .inl ⟨⟨_, List.getElem_mem hi, rfl⟩, hk⟩
    · refine .inr ⟨Nat.le_add_right _ _, by simp; exact hi, (l[i]).ref, ⟨_, List.getElem_mem hi, rfl⟩, by simpa using hk, ?_⟩
      simp only [alloc_new, List.getD, List.getElem?_eq_getElem hi, Option.getD_some]

variable [Zero α]

theorem setList_sim (X : Attr) (ts : List View) {m : Mem α} {o : Obj} (h : Ok m o) (ht : ∀ r, listRefs ts r → r < m.next) :
    Sim m o plain (setList X ts m o) (Pcs.setList X (ts.map m.read) (val m o)) := by
  unfold setList Pcs.setList
  rw [hasAttr_sim]
  have g1 := hasAttr_grows m .points o
  have hk := g1.ok h
  generalize hasAttr .points o = p at g1 hk ⊢
  rcases p with ⟨b, o1⟩
  simp only at g1 hk ⊢
  by_cases hb : b = true
  swap
  · simp only [hb, Bool.not_false, if_true]; exact .intro rfl rfl g1
  simp only [hb, Bool.not_true, Bool.false_eq_true, if_false, List.length_map]
  refine .before g1 ?_
  have eB : (val m o1).B = o1.B := rfl
  rw [eB]
  by_cases hB : o1.B ≠ ts.length
  · rw [if_pos hB, if_pos hB]; exact .intro rfl rfl .rfl
  rw [if_neg hB, if_neg hB, getList_sim]
  have g2 := getList_grows .points m o1
  have hk2 := g2.ok hk
  generalize getList .points m o1 = p at g2 hk2 ⊢
  rcases p with ⟨P, o2⟩
  simp only at g2 hk2 ⊢
  refine .before g2 ?_
  have eP : (Option.map (fun l => List.map m.read l) P).getD [] = List.map m.read (P.getD []) := by cases P <;> rfl
  rw [eP]
  split_ifs
  · exact .intro rfl rfl .rfl
  · exact .intro rfl rfl .rfl
  · rename_i hX
    have hp := passList_ok ⟨fun _ => false, fun _ => o2.dev⟩ m ts ht
    generalize passList ⟨fun _ => false, fun _ => o2.dev⟩ m ts = q at hp ⊢
    rcases q with ⟨m', l'⟩
    obtain ⟨he, hr, hw⟩ := hp
    simp only at he hr hw ⊢
    refine .intro rfl ?_ ⟨he, ?_, rfl, ?_⟩
    · subst hX
      have e := val_ext hk2 he
      simp only [val, PC.mk.injEq, and_true, true_and] at e ⊢
      refine ⟨?_, ?_, e.2.2.1.symm, e.2.2.2.symm⟩
      · funext Y
        by_cases hY : Y = .points
        · subst hY; simp only [Function.update_self, Option.map_some]; rw [hr]
        · simp only [Function.update_of_ne hY]; exact (congrFun e.1 Y).symm
      · funext Y
        by_cases hY : Y = .points
        · subst hY; simp only [Function.update_self, Option.map_none]
        · simp only [Function.update_of_ne hY]; exact (congrFun e.2.1 Y).symm
    · rintro r (h | h | ⟨Y, h⟩ | ⟨Y, k, h, v, hv, rfl⟩)
      · exact .inl (.inl h)
      · exact .inl (.inr (.inl h))
      · by_cases hY : Y = .points
        · subst hY; simp [Function.update_self] at h
        · simp only [Function.update_of_ne hY] at h; exact .inl (holds_pad h)
      · by_cases hY : Y = X
        · subst hY
          simp only [Function.update_self, Option.some.injEq] at h; subst h
          rcases hw _ ⟨v, hv, rfl⟩ with ⟨_, h0⟩ | ⟨h1, h2, _⟩
          · simp at h0
          · exact .inr ⟨h1, h2⟩
        · simp only [Function.update_of_ne hY] at h; exact .inl (holds_lst h hv)
    · rintro hok u r (h | h | ⟨Y, h⟩ | ⟨Y, k, h, v, hv, rfl⟩)
      · exact (u.ext hok he) r (.inl h)
      · exact (u.ext hok he) r (.inr (.inl h))
      · by_cases hY : Y = .points
        · subst hY; simp [Function.update_self] at h
        · simp only [Function.update_of_ne hY] at h; exact (u.ext hok he) r (holds_pad h)
      · by_cases hY : Y = X
        · subst hY
          simp only [Function.update_self, Option.some.injEq] at h; subst h
          rcases hw _ ⟨v, hv, rfl⟩ with ⟨_, h0⟩ | ⟨_, _, q, _, _, h2⟩
          · simp at h0
          · exact h2
        · simp only [Function.update_of_ne hY] at h; exact (u.ext hok he) _ (holds_lst h hv)
  · rename_i hX
    have hp := passList_ok ⟨fun _ => false, fun _ => o2.dev⟩ m ts ht
    generalize passList ⟨fun _ => false, fun _ => o2.dev⟩ m ts = q at hp ⊢
    rcases q with ⟨m', l'⟩
    obtain ⟨he, hr, hw⟩ := hp
    simp only at he hr hw ⊢
    refine .intro rfl ?_ ⟨he, ?_, rfl, ?_⟩
    · have e := val_ext hk2 he
      simp only [val, PC.mk.injEq, and_true, true_and] at e ⊢
      refine ⟨?_, e.2.1.symm, e.2.2.1.symm, e.2.2.2.symm⟩
      funext Y
      by_cases hY : Y = X
      · subst hY; simp only [Function.update_self, Option.map_some]; rw [hr]
      · simp only [Function.update_of_ne hY]; exact (congrFun e.1 Y).symm
    · rintro r (h | h | ⟨Y, h⟩ | ⟨Y, k, h, v, hv, rfl⟩)
      · exact .inl (.inl h)
      · exact .inl (.inr (.inl h))
      · exact .inl (holds_pad h)
      · by_cases hY : Y = X
        · subst hY
          simp only [Function.update_self, Option.some.injEq] at h; subst h
          rcases hw _ ⟨v, hv, rfl⟩ with ⟨_, h0⟩ | ⟨h1, h2, _⟩
          · simp at h0
          · exact .inr ⟨h1, h2⟩
        · simp only [Function.update_of_ne hY] at h; exact .inl (holds_lst h hv)
    · rintro hok u r (h | h | ⟨Y, h⟩ | ⟨Y, k, h, v, hv, rfl⟩)
      · exact (u.ext hok he) r (.inl h)
      · exact (u.ext hok he) r (.inr (.inl h))
      · exact (u.ext hok he) r (holds_pad h)
      · by_cases hY : Y = X
        · subst hY
          simp only [Function.update_self, Option.some.injEq] at h; subst h
          rcases hw _ ⟨v, hv, rfl⟩ with ⟨_, h0⟩ | ⟨_, _, q, _, _, h2⟩
          · simp at h0
          · exact h2
        · simp only [Function.update_of_ne hY] at h; exact (u.ext hok he) _ (holds_lst h hv)

omit [Zero α] in
/-- A new padded tensor for one attribute whose list is dropped. -/
theorem val_newPad {m : Mem α} {o : Obj} (hk : Ok m o) (X : Attr) (f : Nat → Cell α) :
    val (m.alloc 1 f) { o with pad := Function.update o.pad X (some m.next), lst := Function.update o.lst X none } =
      { val m o with pad := Function.update (val m o).pad X (some (f 0).vals), lst := Function.update (val m o).lst X none } := by
  have := val_ext hk (Ext.alloc m 1 f)
  simp only [val, PC.mk.injEq, and_true, true_and] at this ⊢
  refine ⟨?_, ?_, this.2.2.1, this.2.2.2⟩
  · funext Y
    by_cases hY : Y = X
    · subst hY; simp
    · simp only [Function.update_of_ne hY]; exact congrFun this.1 Y
  · funext Y
    by_cases hY : Y = X
    · subst hY; simp
    · simp only [Function.update_of_ne hY]; exact congrFun this.2.1 Y

omit [Zero α] in
theorem newPad_grows {m : Mem α} {o : Obj} (X : Attr) (f : Nat → Cell α) (hd : Ok m o → Uni m o → (f 0).dev = o.dev) :
    Grows m o (m.alloc 1 f) { o with pad := Function.update o.pad X (some m.next), lst := Function.update o.lst X none } := by
  refine Grows.alloc rfl fun q hq => ?_
  rcases hq with h | h | ⟨Y, h⟩ | ⟨Y, l, h, v, hv, rfl⟩
  · exact .inl (.inl h)
  · exact .inl (.inr (.inl h))
  · by_cases hY : Y = X
    · subst hY
      simp only [Function.update_self, Option.some.injEq] at h
      exact .inr ⟨0, Nat.zero_lt_one, by omega, hd⟩
    · simp only [Function.update_of_ne hY] at h; exact .inl (holds_pad h)
  · by_cases hY : Y = X
    · subst hY; simp at h
    · simp only [Function.update_of_ne hY] at h; exact .inl (holds_lst h hv)

theorem setPad_sim [DecidableEq α] (X : Attr) (t : Nat) {m : Mem α} {o : Obj} (h : Ok m o) (ht : t < m.next) (hd : (m.cell t).dev = o.dev) :
    Sim m o plain (setPad X t m o) (Pcs.setPad X (m.cell t).vals (val m o)) := by
  unfold setPad Pcs.setPad
  rw [hasAttr_sim]
  have g1 := hasAttr_grows m .points o
  have hk := g1.ok h
  generalize hasAttr .points o = p at g1 hk ⊢
  rcases p with ⟨b, o1⟩
  simp only at g1 hk ⊢
  by_cases hb : b = true
  swap
  · simp only [hb, Bool.not_false, if_true]; exact .intro rfl rfl g1
  simp only [hb, Bool.not_true, Bool.false_eq_true, if_false]
  rw [if_neg (not_not.2 (hd.trans g1.dev.symm))]
  refine .before g1 ?_
  have s1 := getPad_sim .points hk
  generalize getPad .points m o1 = p at s1 ⊢
  generalize Pcs.getPad .points (val m o1) = q at s1 ⊢
  rcases p with ⟨r1, m1, o2⟩
  rcases q with ⟨r1', v1⟩
  obtain ⟨ho, hv, hg⟩ := s1
  simp only at ho hv hg
  subst ho hv
  refine .before hg ?_
  have hk := hg.ok hk
  rw [← hg.ext.cell t ht]
  rcases r1 with e | p
  · exact .intro rfl rfl .rfl
  · simp only [padOut, Except.map]
    have en : (val m1 o2).num = (m1.cell o2.num).nums := rfl
    rw [en]
    split_ifs
    · exact .intro rfl rfl .rfl
    · exact .intro rfl rfl .rfl
    · exact .intro rfl rfl .rfl
    · refine .intro rfl ?_ (newPad_grows _ _ fun _ _ => rfl)
      rw [val_newPad hk]; rfl

/-- A tensor on another device is refused. -/
theorem setPad_refused [DecidableEq α] (X : Attr) (t : Nat) {m : Mem α} {o : Obj} (hd : (m.cell t).dev ≠ o.dev) :
    setPad X t m o = (.error .valueError, m, (hasAttr .points o).2) := by
  unfold setPad
  have g1 := hasAttr_grows m .points o
  generalize hasAttr .points o = p at g1 ⊢
  rcases p with ⟨b, o1⟩
  simp only at g1 ⊢
  rcases b with _ | _
  · simp
  · simp only [Bool.not_true, Bool.false_eq_true, if_false]
    rw [if_pos (by rw [g1.dev]; exact hd)]

theorem setPad_grows [DecidableEq α] (X : Attr) (t : Nat) {m : Mem α} {o : Obj} (h : Ok m o) (ht : t < m.next) :
    Grows m o (setPad X t m o).2.1 (setPad X t m o).2.2 := by
  by_cases hd : (m.cell t).dev = o.dev
  · exact (setPad_sim X t h ht hd).grows
  · rw [setPad_refused X t hd]; exact hasAttr_grows m .points o
end

/-! ### Geometric operations -/
section geo
variable {α : Type*} [Field α]

theorem rebind_val (X : Attr) (g : Nat → Nat → List α → List α) {m : Mem α} {o : Obj} (h : Ok m o) :
    val (rebind X g m o).1 (rebind X g m o).2 =
      { val m o with pad := Function.update (val m o).pad X (((val m o).pad X).map (mapRows g)), lst := Function.update (val m o).lst X none } := by
  unfold rebind
  have e : (val m o).pad X = (o.pad X).map fun r => (m.cell r).vals := rfl
  rw [e]
  rcases ep : o.pad X with _ | r
  · simp only [Option.map_none]
    rw [val_setLst]
    have : Function.update (val m o).pad X none = (val m o).pad := by
      funext Y
      by_cases hY : Y = X
      · subst hY; simp [val, ep]
      · simp [Function.update_of_ne hY]
    rw [this]; rfl
  · simp only [Option.map_some]
    rw [val_newPad h]

theorem rebind_grows (X : Attr) (g : Nat → Nat → List α → List α) {m : Mem α} {o : Obj} : Grows m o (rebind X g m o).1 (rebind X g m o).2 := by
  unfold rebind
  rcases ep : o.pad X with _ | r
  · refine .sub (fun q hq => ?_) rfl
    rcases hq with h | h | ⟨Y, h⟩ | ⟨Y, l, h, v, hv, rfl⟩
    · exact .inl h
    · exact .inr (.inl h)
    · exact holds_pad h
    · by_cases hY : Y = X
      · subst hY; simp at h
      · simp only [Function.update_of_ne hY] at h; exact holds_lst h hv
  · dsimp only
    refine newPad_grows X _ ?_
    intro _ u
    exact u r (holds_pad ep)

theorem bitsOf_map (m : Mem α) (r : Option Nat) : (r.map fun r => (m.cell r).bits).getD [] = bitsOf m r := rfl

theorem offset_sim (f : Nat → Nat → Nat → α) {m : Mem α} {o : Obj} (h : Ok m o) :
    Sim m o plain (offset_ f m o) (Pcs.offset_ f (val m o)) := by
  unfold offset_ Pcs.offset_
  rw [hasAttr_sim]
  have g1 := hasAttr_grows m .points o
  have hk := g1.ok h
  generalize hasAttr .points o = p at g1 hk ⊢
  rcases p with ⟨b, o1⟩
  simp only at g1 hk ⊢
  by_cases hb : b = true
  swap
  · simp only [hb, Bool.not_false, if_true]; exact .intro rfl rfl g1
  simp only [hb, Bool.not_true, Bool.false_eq_true, if_false]
  refine .before g1 ?_
  have s1 := getPad_sim .points hk
  generalize getPad .points m o1 = p at s1 ⊢
  generalize Pcs.getPad .points (val m o1) = q at s1 ⊢
  rcases p with ⟨r1, m1, o2⟩
  rcases q with ⟨r1', v1⟩
  obtain ⟨ho, hv, hg⟩ := s1
  simp only at ho hv hg
  subst ho hv
  refine .before hg ?_
  have hk := hg.ok hk
  rcases r1 with e | p
  · exact .intro rfl rfl .rfl
  · simp only [padOut, Except.map]
    rw [getMask_sim m1 o2 hk]
    have g3 := getMask_grows m1 o2
    have hk3 := g3.ok hk
    generalize getMask m1 o2 = p at g3 hk3 ⊢
    rcases p with ⟨k, m2, o3⟩
    simp only at g3 hk3 ⊢
    refine .before g3 (.intro rfl ?_ (rebind_grows _ _))
    rw [rebind_val _ _ hk3]; rfl

theorem scale_sim (f : Nat → Nat → Nat → α) {m : Mem α} {o : Obj} (h : Ok m o) :
    Sim m o plain (scale_ f m o) (Pcs.scale_ f (val m o)) := by
  unfold scale_ Pcs.scale_
  rw [hasAttr_sim]
  have g1 := hasAttr_grows m .points o
  have hk := g1.ok h
  generalize hasAttr .points o = p at g1 hk ⊢
  rcases p with ⟨b, o1⟩
  simp only at g1 hk ⊢
  by_cases hb : b = true
  swap
  · simp only [hb, Bool.not_false, if_true]; exact .intro rfl rfl g1
  simp only [hb, Bool.not_true, Bool.false_eq_true, if_false]
  refine .before g1 ?_
  have s1 := getPad_sim .points hk
  generalize getPad .points m o1 = p at s1 ⊢
  generalize Pcs.getPad .points (val m o1) = q at s1 ⊢
  rcases p with ⟨r1, m1, o2⟩
  rcases q with ⟨r1', v1⟩
  obtain ⟨ho, hv, hg⟩ := s1
  simp only at ho hv hg
  subst ho hv
  refine .before hg ?_
  have hk := hg.ok hk
  rcases r1 with e | p
  · exact .intro rfl rfl .rfl
  · simp only [padOut, Except.map]
    rw [getMask_sim m1 o2 hk]
    have g3 := getMask_grows m1 o2
    have hk3 := g3.ok hk
    generalize getMask m1 o2 = p at g3 hk3 ⊢
    rcases p with ⟨k, m2, o3⟩
    simp only at g3 hk3 ⊢
    refine .before g3 (.intro rfl ?_ (rebind_grows _ _))
    rw [rebind_val _ _ hk3]; rfl

theorem projection_sim [LinearOrder α] (K : Operand (M4 α)) {m : Mem α} {o : Obj} (h : Ok m o) :
    Sim m o plain (pinholeProjection_ K m o) (Pcs.pinholeProjection_ K (val m o)) := by
  unfold pinholeProjection_ Pcs.pinholeProjection_
  rw [hasAttr_sim]
  have g1 := hasAttr_grows m .points o
  have hk := g1.ok h
  generalize hasAttr .points o = p at g1 hk ⊢
  rcases p with ⟨b, o1⟩
  simp only at g1 hk ⊢
  by_cases hb : b = true
  swap
  · simp only [hb, Bool.not_false, if_true]; exact .intro rfl rfl g1
  simp only [hb, Bool.not_true, Bool.false_eq_true, if_false]
  refine .before g1 ?_
  have s1 := getPad_sim .points hk
  generalize getPad .points m o1 = p at s1 ⊢
  generalize Pcs.getPad .points (val m o1) = q at s1 ⊢
  rcases p with ⟨r1, m1, o2⟩
  rcases q with ⟨r1', v1⟩
  obtain ⟨ho, hv, hg⟩ := s1
  simp only at ho hv hg
  subst ho hv
  refine .before hg ?_
  have hk := hg.ok hk
  rcases r1 with e | p
  · exact .intro rfl rfl .rfl
  · simp only [padOut, Except.map]
    have eB : (val m1 o2).B = o2.B := rfl
    rw [eB]
    by_cases hB : K.badSize o2.B = true
    · rw [if_pos hB, if_pos hB]; exact .intro rfl rfl .rfl
    rw [if_neg hB, if_neg hB, getMask_sim m1 o2 hk]
    have g3 := getMask_grows m1 o2
    have hk3 := g3.ok hk
    generalize getMask m1 o2 = p at g3 hk3 ⊢
    rcases p with ⟨k, m2, o3⟩
    simp only at g3 hk3 ⊢
    refine .before g3 (.intro rfl ?_ (rebind_grows _ _))
    rw [rebind_val _ _ hk3]; rfl

theorem rotate_sim (R : Operand (M3 α)) (pre : Bool) {m : Mem α} {o : Obj} (h : Ok m o) :
    Sim m o plain (rotate_ R pre m o) (Pcs.rotate_ R pre (val m o)) := by
  unfold rotate_ Pcs.rotate_
  have eB : (val m o).B = o.B := rfl
  rw [eB]
  by_cases hB : R.badSize o.B = true
  · rw [if_pos hB, if_pos hB]; exact .intro rfl rfl .rfl
  rw [if_neg hB, if_neg hB, hasAttr_sim]
  have g1 := hasAttr_grows m .points o
  have hk := g1.ok h
  generalize hasAttr .points o = p at g1 hk ⊢
  rcases p with ⟨b, o1⟩
  simp only at g1 hk ⊢
  by_cases hb : b = true
  swap
  · simp only [hb, Bool.not_false, if_true]; exact .intro rfl rfl g1
  simp only [hb, Bool.not_true, Bool.false_eq_true, if_false]
  refine .before g1 ?_
  have s1 := getPad_sim .points hk
  generalize getPad .points m o1 = p at s1 ⊢
  generalize Pcs.getPad .points (val m o1) = q at s1 ⊢
  rcases p with ⟨r1, m1, o2⟩
  rcases q with ⟨r1', v1⟩
  obtain ⟨ho, hv, hg⟩ := s1
  simp only at ho hv hg
  subst ho hv
  refine .before hg ?_
  have hk := hg.ok hk
  rcases r1 with e | p
  · exact .intro rfl rfl .rfl
  · simp only [padOut, Except.map]
    refine .intro rfl ?_ ((rebind_grows _ _).trans (rebind_grows _ _))
    rw [rebind_val _ _ ((rebind_grows _ _).ok hk), rebind_val _ _ hk]
    simp only
    rw [Function.update_of_ne (show Attr.normals ≠ Attr.points by decide)]

theorem transform_sim (T : Operand (M4 α)) (pre : Bool) {m : Mem α} {o : Obj} (h : Ok m o) :
    Sim m o plain (transform_ T pre m o) (Pcs.transform_ T pre (val m o)) := by
  unfold transform_ Pcs.transform_
  have eB : (val m o).B = o.B := rfl
  rw [eB]
  by_cases hB : T.badSize o.B = true
  · rw [if_pos hB, if_pos hB]; exact .intro rfl rfl .rfl
  rw [if_neg hB, if_neg hB, hasAttr_sim]
  have g1 := hasAttr_grows m .points o
  have hk := g1.ok h
  generalize hasAttr .points o = p at g1 hk ⊢
  rcases p with ⟨b, o1⟩
  simp only at g1 hk ⊢
  by_cases hb : b = true
  swap
  · simp only [hb, Bool.not_false, if_true]; exact .intro rfl rfl g1
  simp only [hb, Bool.not_true, Bool.false_eq_true, if_false]
  refine .before g1 ?_
  have s1 := getPad_sim .points hk
  generalize getPad .points m o1 = p at s1 ⊢
  generalize Pcs.getPad .points (val m o1) = q at s1 ⊢
  rcases p with ⟨r1, m1, o2⟩
  rcases q with ⟨r1', v1⟩
  obtain ⟨ho, hv, hg⟩ := s1
  simp only at ho hv hg
  subst ho hv
  refine .before hg ?_
  have hk := hg.ok hk
  rcases r1 with e | p
  · exact .intro rfl rfl .rfl
  · simp only [padOut, Except.map]
    have s2 := rotate_sim (T.map M4.R) pre hk
    generalize rotate_ (T.map M4.R) pre m1 o2 = p at s2 ⊢
    generalize Pcs.rotate_ (T.map M4.R) pre (val m1 o2) = q at s2 ⊢
    rcases p with ⟨r1, m2, o3⟩
    rcases q with ⟨r1', v1⟩
    obtain ⟨ho, hv, hg⟩ := s2
    simp only [plain] at ho hv hg
    subst ho hv
    refine .before hg ?_
    have hk := hg.ok hk
    rcases r1' with e | _
    · exact .intro rfl rfl .rfl
    · exact offset_sim _ hk
end geo
end Verif.Mem
