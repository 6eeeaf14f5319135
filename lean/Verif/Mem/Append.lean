import Verif.Mem.Copy3
/-! `append_points`: the memory model refines the value model; the result is stored in new storages only. -/
namespace Verif.Mem
open Verif Verif.Pcs
set_option linter.unusedSectionVars false
set_option linter.unusedSimpArgs false

section
variable {α : Type*}

/-- What a method of `s` with argument `o` may do to memory and to the two objects. -/
structure Two (m : Mem α) (s o : Obj) (m' : Mem α) (s' o' : Obj) : Prop where
  ext : Ext m m'
  owns : ∀ q, Holds s' q → Holds s q ∨ (m.next ≤ q ∧ q < m'.next)
  owno : ∀ q, Holds o' q → Holds o q
  devs : s'.dev = s.dev
  devo : o'.dev = o.dev
  uni : Ok m s → Ok m o → Uni m s → Uni m o → o.dev = s.dev → Uni m' s'

theorem Two.oks {m m' : Mem α} {s o s' o' : Obj} (g : Two m s o m' s' o') (h : Ok m s) : Ok m' s' := fun r hr => by
  rcases g.owns r hr with k | k
  · exact (h r k).trans_le g.ext.next
  · exact k.2

theorem Two.oko {m m' : Mem α} {s o s' o' : Obj} (g : Two m s o m' s' o') (h : Ok m o) : Ok m' o' := fun r hr =>
  (h r (g.owno r hr)).trans_le g.ext.next

theorem Two.unio {m m' : Mem α} {s o s' o' : Obj} (g : Two m s o m' s' o') (h : Ok m o) (u : Uni m o) : Uni m' o' := fun r hr => by
  rw [g.ext.cell r (h r (g.owno r hr)), g.devo]; exact u r (g.owno r hr)

theorem Two.rfl {m : Mem α} {s o : Obj} : Two m s o m s o := ⟨.rfl, fun _ h => .inl h, fun _ h => h, Eq.refl _, Eq.refl _, fun _ _ u _ _ => u⟩

theorem Two.trans {m m' m'' : Mem α} {s o s' o' s'' o'' : Obj} (g : Two m s o m' s' o') (k : Two m' s' o' m'' s'' o'') : Two m s o m'' s'' o'' := by
  refine ⟨g.ext.trans k.ext, fun r hr => ?_, fun r hr => g.owno r (k.owno r hr), k.devs.trans g.devs, k.devo.trans g.devo, fun a b c d e =>
    k.uni (g.oks a) (g.oko b) (g.uni a b c d e) (g.unio b d) (by rw [g.devo, g.devs, e])⟩
  rcases k.owns r hr with h | h
  · rcases g.owns r h with h' | h'
    · exact .inl h'
    · exact .inr ⟨h'.1, h'.2.trans_le k.ext.next⟩
  · exact .inr ⟨g.ext.next.trans h.1, h.2⟩

/-- A step that only touches `s`, without allocating. -/
theorem Two.left {m : Mem α} {s o s' : Obj} (g : Grows m s m s') : Two m s o m s' o :=
  ⟨.rfl, g.own, fun _ h => h, g.dev, Eq.refl _, fun a _ u _ _ => g.uni a u⟩

/-- A step that only touches `o`, without allocating. -/
theorem Two.right {m : Mem α} {s o o' : Obj} (g : Grows m o m o') : Two m s o m s o' :=
  ⟨.rfl, fun _ h => .inl h, fun r hr => by
    rcases g.own r hr with h | ⟨h1, h2⟩
    · exact h
    · omega, Eq.refl _, g.dev, fun _ _ u _ _ => u⟩

/-- What is proved about a method with an argument. -/
structure Appends (m : Mem α) (s o : Obj) (r : Except Err Unit × Mem α × Obj × Obj) (v : Except Err Unit × PC α × PC α) : Prop where
  out : v.1 = r.1
  vs : v.2.1 = val r.2.1 r.2.2.1
  vo : v.2.2 = val r.2.1 r.2.2.2
  two : Two m s o r.2.1 r.2.2.1 r.2.2.2

theorem Appends.intro {m m' : Mem α} {s o s' o' : Obj} {b : Except Err Unit} {vs vo : PC α} (h1 : vs = val m' s') (h2 : vo = val m' o')
    (h3 : Two m s o m' s' o') : Appends m s o (b, m', s', o') (b, vs, vo) := ⟨rfl, h1, h2, h3⟩

theorem Appends.before {m m' : Mem α} {s o s' o' : Obj} {r v} (g : Two m s o m' s' o') (h : Appends m' s' o' r v) : Appends m s o r v :=
  ⟨h.out, h.vs, h.vo, g.trans h.two⟩

theorem catLists_ok (m : Mem α) (l k : List View) :
    Ext m (catLists m l k).1 ∧
    (catLists m l k).2.map (catLists m l k).1.read =
      List.zipWith (fun t u => (⟨t.rows ++ u.rows, t.cols⟩ : T2 α)) (l.map m.read) (k.map m.read) ∧
    ∀ v ∈ (catLists m l k).2, m.next ≤ v.ref ∧ v.ref < (catLists m l k).1.next ∧
      ∃ w ∈ l, ((catLists m l k).1.cell v.ref).dev = (m.cell w.ref).dev := by
  unfold catLists
  refine ⟨by dsimp only; exact Ext.alloc m _ _, ?_, ?_⟩
  · apply List.ext_getElem
    · simp
    · intro i h1 h2
      simp only [List.length_map, List.length_mapIdx, List.length_zipWith] at h1 h2
      have hz : i < (List.zipWith (fun v w => (⟨(m.read v).rows ++ (m.read w).rows, (m.read v).cols⟩ : T2 α)) l k).length := by
        simpa using h1
      have key : ∀ (c : List (T2 α)) (hc : i < c.length) (d : Nat → Dev), (m.alloc c.length fun i => ⟨d i, [c.getD i ⟨[], 0⟩], [], []⟩).read
          ⟨m.next + i, 0, c[i].rows.length⟩ = c[i] := by
        intro c hc d
        unfold Mem.read
        simp only [alloc_new, List.getD_cons_zero]
        rw [show c.getD i ⟨[], 0⟩ = c[i] by simp [List.getD, List.getElem?_eq_getElem hc]]
        exact T2.take_all _
      simp only [List.getElem_map, List.getElem_mapIdx]
      rw [key _ hz]
      simp only [List.getElem_zipWith, List.getElem_map]
  · intro v hv
    obtain ⟨i, hi, rfl⟩ := List.getElem_of_mem hv
    simp only [List.length_mapIdx, List.length_zipWith] at hi
    simp only [List.getElem_mapIdx, alloc_next, alloc_new, List.length_zipWith]
    refine ⟨Nat.le_add_right _ _, by omega, l[i], List.getElem_mem _, ?_⟩
    simp only [List.getD, List.getElem?_eq_getElem (show i < l.length by omega), Option.getD_some]

/-- Replacing the list of one attribute by new tensors and dropping its padded tensor. -/
theorem newLst_two {m m' : Mem α} {s o : Obj} {X : Attr} {l : List View} (e : Ext m m')
    (hl : ∀ v ∈ l, m.next ≤ v.ref ∧ v.ref < m'.next ∧ (Uni m s → (m'.cell v.ref).dev = s.dev)) {pad' : Attr → Option Nat}
    (hp : ∀ Y r, pad' Y = some r → s.pad Y = some r) :
    Two m s o m' { s with lst := Function.update s.lst X (some l), pad := pad' } o := by
  refine ⟨e, ?_, fun _ h => h, rfl, rfl, ?_⟩
  · rintro r (h | h | ⟨Y, h⟩ | ⟨Y, k, h, v, hv, rfl⟩)
    · exact .inl (.inl h)
    · exact .inl (.inr (.inl h))
    · exact .inl (holds_pad (hp Y r h))
    · by_cases hY : Y = X
      · subst hY
        simp only [Function.update_self, Option.some.injEq] at h; subst h
        exact .inr ⟨(hl v hv).1, (hl v hv).2.1⟩
      · simp only [Function.update_of_ne hY] at h; exact .inl (holds_lst h hv)
  · rintro hok _ u _ _ r (h | h | ⟨Y, h⟩ | ⟨Y, k, h, v, hv, rfl⟩)
    · exact (u.ext hok e) r (.inl h)
    · exact (u.ext hok e) r (.inr (.inl h))
    · exact (u.ext hok e) r (holds_pad (hp Y r h))
    · by_cases hY : Y = X
      · subst hY
        simp only [Function.update_self, Option.some.injEq] at h; subst h
        exact (hl v hv).2.2 u
      · simp only [Function.update_of_ne hY] at h; exact (u.ext hok e) _ (holds_lst h hv)

theorem val_newLst {m m' : Mem α} {s : Obj} (hs : Ok m s) (e : Ext m m') (X : Attr) (l : List View) (pad' : Attr → Option Nat)
    (hp : ∀ Y r, pad' Y = some r → s.pad Y = some r) :
    val m' { s with lst := Function.update s.lst X (some l), pad := pad' } =
      { val m s with lst := Function.update (val m s).lst X (some (l.map m'.read)), pad := fun Y => (pad' Y).map fun r => (m.cell r).vals } := by
  have := val_ext hs e
  simp only [val, PC.mk.injEq, and_true, true_and] at this ⊢
  refine ⟨?_, ?_, this.2.2.1, this.2.2.2⟩
  · funext Y
    by_cases hY : Y = X
    · subst hY; simp
    · simp only [Function.update_of_ne hY]; exact congrFun this.1 Y
  · funext Y
    rcases hY : pad' Y with _ | r
    · rfl
    · simp only [Option.map_some, Option.some.injEq]
      rw [e.cell r (hs r (holds_pad (hp Y r hY)))]

theorem dropPad {s : Obj} {X : Attr} : ∀ Y r, Function.update s.pad X none Y = some r → s.pad Y = some r := fun Y r h => by
  by_cases hY : Y = X
  · subst hY; simp at h
  · simpa [Function.update_of_ne hY] using h

/-- Read the lists of both objects. -/
theorem appendAttr_sim (X : Attr) {m : Mem α} {s o : Obj} (hs : Ok m s) (ho : Ok m o) :
    Pcs.appendAttr X (val m s) (val m o) =
      (val (appendAttr X m s o).1 (appendAttr X m s o).2.1, val (appendAttr X m s o).1 (appendAttr X m s o).2.2) ∧
    Two m s o (appendAttr X m s o).1 (appendAttr X m s o).2.1 (appendAttr X m s o).2.2 := by
  unfold appendAttr Pcs.appendAttr
  rw [getList_sim, getList_sim]
  have g1 := getList_grows X m s
  have h1 := fun l => getList_holds X m s (l := l)
  have g2 := getList_grows X m o
  have k1 := g1.ok hs
  have k2 := g2.ok ho
  generalize getList X m s = p at g1 h1 k1 ⊢
  generalize getList X m o = q at g2 k2 ⊢
  rcases p with ⟨l, s1⟩
  rcases q with ⟨k, o1⟩
  simp only at g1 h1 g2 k1 k2 ⊢
  obtain ⟨c1, c2, c3⟩ := catLists_ok m (l.getD []) (k.getD [])
  generalize catLists m (l.getD []) (k.getD []) = q at c1 c2 c3 ⊢
  rcases q with ⟨m', r⟩
  simp only at c1 c2 c3 ⊢
  have el : (Option.map (fun l => List.map m.read l) l).getD [] = List.map m.read (l.getD []) := by cases l <;> rfl
  have ek : (Option.map (fun l => List.map m.read l) k).getD [] = List.map m.read (k.getD []) := by cases k <;> rfl
  rw [el, ek, ← c2]
  refine ⟨Prod.ext ?_ ?_, ?_⟩
  · simp only
    rw [val_newLst k1 c1 X r _ dropPad]
    have e : (fun Y => (Function.update s1.pad X none Y).map fun r => (m.cell r).vals) = Function.update (val m s1).pad X none := by
      funext Y
      by_cases hY : Y = X
      · subst hY; simp
      · simp only [Function.update_of_ne hY, val]
    rw [e]
  · simp only; rw [val_ext k2 c1]
  · refine (Two.left g1).trans ((Two.right g2).trans (newLst_two c1 (fun v hv => ?_) dropPad))
    obtain ⟨a1, a2, w, hw, a3⟩ := c3 v hv
    refine ⟨a1, a2, fun u => ?_⟩
    rw [a3]
    rcases l with _ | l
    · simp at hw
    · exact u _ (h1 l rfl w hw)

theorem appendIf_sim (X : Attr) {m : Mem α} {s o : Obj} (hs : Ok m s) (ho : Ok m o) :
    Pcs.appendIf X (val m s) (val m o) =
      (val (appendIf X m s o).1 (appendIf X m s o).2.1, val (appendIf X m s o).1 (appendIf X m s o).2.2) ∧
    Two m s o (appendIf X m s o).1 (appendIf X m s o).2.1 (appendIf X m s o).2.2 := by
  unfold appendIf Pcs.appendIf
  rw [hasAttr_sim]
  have g1 := hasAttr_grows m X s
  have k1 := g1.ok hs
  generalize hasAttr X s = p at g1 k1 ⊢
  rcases p with ⟨b, s1⟩
  simp only at g1 k1 ⊢
  rcases b with _ | _
  · exact ⟨rfl, .left g1⟩
  · obtain ⟨e, t⟩ := appendAttr_sim X k1 ho
    exact ⟨e, (Two.left g1).trans t⟩

/-- Copying a list of tensors into an attribute. -/
theorem copyList_sim (X : Attr) {m : Mem α} {s o : Obj} {l : Option (List View)} (hs : Ok m s)
    (hl : ∀ r, optRefs listRefs l r → r < m.next) {q : Mem α × Option (List View)} (hq : q = passOpt (passList ⟨fun _ => false, fun _ => s.dev⟩) m l) :
    val q.1 { s with lst := Function.update s.lst X q.2 } =
      { val m s with lst := Function.update (val m s).lst X (l.map fun k => k.map m.read) } ∧
    Two m s o q.1 { s with lst := Function.update s.lst X q.2 } o := by
  have h := (passOpt_passes (passList_passes (⟨fun _ => false, fun _ => s.dev⟩ : Pass α))).ok m l hl
  rw [← hq] at h
  clear hq
  rcases q with ⟨m', l'⟩
  obtain ⟨he, hr, hw⟩ := h
  simp only at he hr hw ⊢
  refine ⟨?_, he, ?_, fun _ h => h, rfl, rfl, ?_⟩
  · rw [val_setLst, hr, val_ext hs he]
  · rintro r (h | h | ⟨Y, h⟩ | ⟨Y, k, h, v, hv, rfl⟩)
    · exact .inl (.inl h)
    · exact .inl (.inr (.inl h))
    · exact .inl (holds_pad h)
    · by_cases hY : Y = X
      · subst hY
        simp only [Function.update_self] at h
        rcases hw v.ref ⟨k, h, v, hv, rfl⟩ with ⟨_, h0⟩ | ⟨h1, h2, _⟩
        · simp at h0
        · exact .inr ⟨h1, h2⟩
      · simp only [Function.update_of_ne hY] at h; exact .inl (holds_lst h hv)
  · rintro hok _ u _ _ r (h | h | ⟨Y, h⟩ | ⟨Y, k, h, v, hv, rfl⟩)
    · exact (u.ext hok he) r (.inl h)
    · exact (u.ext hok he) r (.inr (.inl h))
    · exact (u.ext hok he) r (holds_pad h)
    · by_cases hY : Y = X
      · subst hY
        simp only [Function.update_self] at h
        rcases hw v.ref ⟨k, h, v, hv, rfl⟩ with ⟨_, h0⟩ | ⟨_, _, q, _, _, h2⟩
        · simp at h0
        · exact h2
      · simp only [Function.update_of_ne hY] at h; exact (u.ext hok he) _ (holds_lst h hv)

theorem getList_lt (X : Attr) {m : Mem α} {o : Obj} (ho : Ok m o) : ∀ r, optRefs listRefs (getList X m o).1 r → r < m.next := by
  rintro r ⟨l, hl, v, hv, rfl⟩
  exact (getList_grows X m o).ok ho _ (getList_holds X m o hl v hv)

theorem copyAttr_sim (X : Attr) {m : Mem α} {s o : Obj} (hs : Ok m s) (ho : Ok m o) :
    Pcs.copyAttr X (val m s) (val m o) =
      (val (copyAttr X m s o).1 (copyAttr X m s o).2.1, val (copyAttr X m s o).1 (copyAttr X m s o).2.2) ∧
    Two m s o (copyAttr X m s o).1 (copyAttr X m s o).2.1 (copyAttr X m s o).2.2 := by
  unfold copyAttr Pcs.copyAttr
  rw [hasAttr_sim]
  have g1 := hasAttr_grows m X o
  have k1 := g1.ok ho
  generalize hasAttr X o = p at g1 k1 ⊢
  rcases p with ⟨b, o1⟩
  simp only at g1 k1 ⊢
  rcases b with _ | _
  · exact ⟨rfl, .right g1⟩
  · simp only [if_true]
    rw [getList_sim]
    have g2 := getList_grows X m o1
    have k2 := g2.ok k1
    have hlt := getList_lt X k1
    generalize getList X m o1 = p at g2 k2 hlt ⊢
    rcases p with ⟨l, o2⟩
    simp only at g2 k2 hlt ⊢
    obtain ⟨e, t⟩ := copyList_sim X (o := o2) hs hlt rfl
    exact ⟨by rw [e, val_ext k2 t.ext], ((Two.right g1).trans (Two.right g2)).trans t⟩

/-- `append_points` with objects on the same device. -/
theorem append_sim {m : Mem α} {s o : Obj} (hs : Ok m s) (ho : Ok m o) (hd : o.dev = s.dev) :
    Appends m s o (append m s o) (Pcs.append (val m s) (val m o)) := by
  unfold append Pcs.append
  rw [if_neg (not_not.2 hd), hasAttr_sim]
  have g1 := hasAttr_grows m .points o
  have ho := g1.ok ho
  generalize hasAttr .points o = p at g1 ho ⊢
  rcases p with ⟨b, o1⟩
  simp only at g1 ho ⊢
  have T1 : Two m s o m s o1 := .right g1
  rcases b with _ | _
  · simp only [Bool.not_false, if_true]; exact .intro rfl rfl T1
  simp only [Bool.not_true, Bool.false_eq_true, if_false]
  rw [hasAttr_sim]
  refine .before T1 ?_
  have hd : o1.dev = s.dev := g1.dev.trans hd
  clear T1 g1
  have g1 := hasAttr_grows m .points s
  have hs := g1.ok hs
  generalize hasAttr .points s = p at g1 hs ⊢
  rcases p with ⟨b, s1⟩
  simp only at g1 hs ⊢
  refine .before (Two.left g1) ?_
  have hd : o1.dev = s1.dev := hd.trans g1.dev.symm
  clear g1
  rcases b with _ | _
  · -- an empty object takes copies
    simp only [Bool.not_false, if_true]
    rw [getList_sim]
    have g2 := getList_grows .points m o1
    have k2 := g2.ok ho
    have hlt := getList_lt .points ho
    generalize getList .points m o1 = p at g2 k2 hlt ⊢
    rcases p with ⟨l, o2⟩
    simp only at g2 k2 hlt ⊢
    refine .before (Two.right g2) ?_
    obtain ⟨e, t⟩ := copyList_sim .points (o := o2) hs hlt rfl
    rw [← e, ← val_ext k2 t.ext]
    refine .before t ?_
    have hs := t.oks hs
    have ho := t.oko k2
    have hd : o2.dev = s1.dev := g2.dev.trans hd
    generalize passOpt (passList ⟨fun _ => false, fun _ => s1.dev⟩) m l = q at hs ho ⊢
    rcases q with ⟨m1, l1⟩
    simp only at hs ho ⊢
    have hd : o2.dev = ({ s1 with lst := Function.update s1.lst .points l1 } : Obj).dev := hd
    clear e t hlt g2 k2
    generalize ({ s1 with lst := Function.update s1.lst .points l1 } : Obj) = s2 at hs hd ⊢
    obtain ⟨e, t⟩ := copyAttr_sim .normals hs ho
    rw [e]
    have hs := t.oks hs
    have ho := t.oko ho
    have hd : (copyAttr .normals m1 s2 o2).2.2.dev = (copyAttr .normals m1 s2 o2).2.1.dev := by rw [t.devs, t.devo]; exact hd
    generalize copyAttr .normals m1 s2 o2 = q at t hs ho hd ⊢
    rcases q with ⟨m2, s3, o3⟩
    simp only at t hs ho hd ⊢
    refine .before t ?_
    clear e t
    obtain ⟨e, t⟩ := copyAttr_sim .colors hs ho
    rw [e]
    have hs := t.oks hs
    have ho := t.oko ho
    have hd : (copyAttr .colors m2 s3 o3).2.2.dev = (copyAttr .colors m2 s3 o3).2.1.dev := by rw [t.devs, t.devo]; exact hd
    generalize copyAttr .colors m2 s3 o3 = q at t hs ho hd ⊢
    rcases q with ⟨m3, s4, o4⟩
    simp only at t hs ho hd ⊢
    refine .before t ?_
    clear e t
    obtain ⟨e, t⟩ := copyAttr_sim .features hs ho
    rw [e]
    have hs := t.oks hs
    have ho := t.oko ho
    have hd : (copyAttr .features m3 s4 o4).2.2.dev = (copyAttr .features m3 s4 o4).2.1.dev := by rw [t.devs, t.devo]; exact hd
    generalize copyAttr .features m3 s4 o4 = q at t hs ho hd ⊢
    rcases q with ⟨m4, s5, o5⟩
    simp only at t hs ho hd ⊢
    refine .before t ?_
    clear e t
    have hs' : Ok m4 { s5 with has := o5.has, B := o5.B, N := o5.N, eq := o5.eq } := hs
    obtain ⟨e1, hval, hown, hdev⟩ := passInternal_ok Pass.clone ho hs'
    refine .intro hval.symm (val_ext ho e1).symm ⟨e1, fun r hr => ?_, fun _ h => h, hdev, rfl, fun a b u w ed r hr => ?_⟩
    · rcases hown r hr with k | ⟨_, k⟩ | ⟨k1, k2, _⟩
      · exact .inl (show Holds s5 r from k.holds)
      · simp [Pass.clone] at k
      · exact .inr ⟨k1, k2⟩
    · rw [hdev]
      rcases hown r hr with k | ⟨_, k⟩ | ⟨_, _, q, k1, _, k2⟩
      · have : Holds s5 r := k.holds
        rw [e1.cell r (hs r this)]; exact u r this
      · simp [Pass.clone] at k
      · rw [k2]; exact (w q k1).trans ed
  · simp only [Bool.not_true, Bool.false_eq_true, if_false]
    have eB : (val m s1).B = s1.B := rfl
    have eB' : (val m o1).B = o1.B := rfl
    rw [eB, eB']
    by_cases hB : o1.B ≠ s1.B
    · rw [if_pos hB, if_pos hB]; exact .intro rfl rfl .rfl
    rw [if_neg hB, if_neg hB]
    clear eB eB' hB
    -- normals
    rw [hasAttr_sim, hasAttr_sim]
    have g1 := hasAttr_grows m .normals s1
    have hs := g1.ok hs
    have g2 := hasAttr_grows m .normals o1
    have ho := g2.ok ho
    generalize hasAttr .normals s1 = p at g1 hs ⊢
    generalize hasAttr .normals o1 = q at g2 ho ⊢
    rcases p with ⟨b1, s2⟩
    rcases q with ⟨b2, o2⟩
    simp only at g1 g2 hs ho ⊢
    refine .before ((Two.left g1).trans (Two.right g2)) ?_
    clear g1 g2
    by_cases hb : b1 ≠ b2
    · rw [if_pos hb, if_pos hb]; exact .intro rfl rfl .rfl
    rw [if_neg hb, if_neg hb]
    clear hb
    -- colors
    rw [hasAttr_sim, hasAttr_sim]
    have g1 := hasAttr_grows m .colors s2
    have hs := g1.ok hs
    have g2 := hasAttr_grows m .colors o2
    have ho := g2.ok ho
    generalize hasAttr .colors s2 = p at g1 hs ⊢
    generalize hasAttr .colors o2 = q at g2 ho ⊢
    rcases p with ⟨b1, s3⟩
    rcases q with ⟨b2, o3⟩
    simp only at g1 g2 hs ho ⊢
    refine .before ((Two.left g1).trans (Two.right g2)) ?_
    clear g1 g2
    by_cases hb : b1 ≠ b2
    · rw [if_pos hb, if_pos hb]; exact .intro rfl rfl .rfl
    rw [if_neg hb, if_neg hb]
    clear hb
    -- features
    rw [hasAttr_sim, hasAttr_sim]
    have g1 := hasAttr_grows m .features s3
    have hs := g1.ok hs
    have g2 := hasAttr_grows m .features o3
    have ho := g2.ok ho
    generalize hasAttr .features s3 = p at g1 hs ⊢
    generalize hasAttr .features o3 = q at g2 ho ⊢
    rcases p with ⟨f1, s4⟩
    rcases q with ⟨f2, o4⟩
    simp only at g1 g2 hs ho ⊢
    refine .before ((Two.left g1).trans (Two.right g2)) ?_
    clear g1 g2
    by_cases hb : f1 ≠ f2
    · rw [if_pos hb, if_pos hb]; exact .intro rfl rfl .rfl
    rw [if_neg hb, if_neg hb]
    clear hb
    -- widths
    have n1 : (if f1 = true then Pcs.numFeatures (val m s4) else (0, val m s4)) =
        ((if f1 = true then numFeatures m s4 else (0, s4)).1, val m (if f1 = true then numFeatures m s4 else (0, s4)).2) := by
      cases f1
      · rfl
      · simp only [if_true]; exact numFeatures_sim m s4
    have n2 : (if f1 = true then Pcs.numFeatures (val m o4) else (0, val m o4)) =
        ((if f1 = true then numFeatures m o4 else (0, o4)).1, val m (if f1 = true then numFeatures m o4 else (0, o4)).2) := by
      cases f1
      · rfl
      · simp only [if_true]; exact numFeatures_sim m o4
    rw [n1, n2]
    have g1 : Grows m s4 m (if f1 = true then numFeatures m s4 else (0, s4)).2 := by
      cases f1
      · exact .rfl
      · exact numFeatures_grows m s4
    have g2 : Grows m o4 m (if f1 = true then numFeatures m o4 else (0, o4)).2 := by
      cases f1
      · exact .rfl
      · exact numFeatures_grows m o4
    have hs := g1.ok hs
    have ho := g2.ok ho
    clear n1 n2
    generalize (if f1 = true then numFeatures m s4 else (0, s4)) = p at g1 hs ⊢
    generalize (if f1 = true then numFeatures m o4 else (0, o4)) = q at g2 ho ⊢
    rcases p with ⟨w1, s5⟩
    rcases q with ⟨w2, o5⟩
    simp only at g1 g2 hs ho ⊢
    refine .before ((Two.left g1).trans (Two.right g2)) ?_
    clear g1 g2
    by_cases hb : w1 ≠ w2
    · rw [if_pos hb, if_pos hb]; exact .intro rfl rfl .rfl
    rw [if_neg hb, if_neg hb]
    clear hb
    -- the four attributes
    obtain ⟨e, t⟩ := appendAttr_sim .points hs ho
    rw [e]
    have hs := t.oks hs
    have ho := t.oko ho
    generalize appendAttr .points m s5 o5 = q at t hs ho ⊢
    rcases q with ⟨m1, s6, o6⟩
    simp only at t hs ho ⊢
    refine .before t ?_
    clear e t
    obtain ⟨e, t⟩ := appendIf_sim .normals hs ho
    rw [e]
    have hs := t.oks hs
    have ho := t.oko ho
    generalize appendIf .normals m1 s6 o6 = q at t hs ho ⊢
    rcases q with ⟨m2, s7, o7⟩
    simp only at t hs ho ⊢
    refine .before t ?_
    clear e t
    obtain ⟨e, t⟩ := appendIf_sim .colors hs ho
    rw [e]
    have hs := t.oks hs
    have ho := t.oko ho
    generalize appendIf .colors m2 s7 o7 = q at t hs ho ⊢
    rcases q with ⟨m3, s8, o8⟩
    simp only at t hs ho ⊢
    refine .before t ?_
    clear e t
    obtain ⟨e, t⟩ := appendIf_sim .features hs ho
    rw [e]
    have hs := t.oks hs
    have ho := t.oko ho
    generalize appendIf .features m3 s8 o8 = q at t hs ho ⊢
    rcases q with ⟨m4, s9, o9⟩
    simp only at t hs ho ⊢
    refine .before t ?_
    clear e t
    have en : (val m4 s9).num = (m4.cell s9.num).nums := rfl
    have en' : (val m4 o9).num = (m4.cell o9.num).nums := rfl
    rw [en, en']
    generalize List.zipWith (· + ·) (m4.cell s9.num).nums (m4.cell o9.num).nums = num
    refine .intro ?_ (val_ext ho (Ext.alloc m4 1 _)).symm ⟨Ext.alloc m4 1 _, ?_, fun _ h => h, rfl, rfl, ?_⟩
    · have := val_ext hs (Ext.alloc m4 1 fun _ => ⟨s9.dev, [], [], num⟩)
      simp only [val, PC.mk.injEq, and_true, true_and, alloc_new0, Option.map_none] at this ⊢
      exact ⟨this.1.symm, this.2.1.symm⟩
    · rintro r (h | h | ⟨Y, h⟩ | ⟨Y, k, h, v, hv, rfl⟩)
      · simp only at h; subst h; exact .inr ⟨le_rfl, by simp⟩
      · simp at h
      · exact .inl (holds_pad h)
      · exact .inl (holds_lst h hv)
    · rintro hok _ u _ _ r (h | h | ⟨Y, h⟩ | ⟨Y, k, h, v, hv, rfl⟩)
      · simp only at h; subst h; simp
      · simp at h
      · exact (u.ext hok (Ext.alloc m4 1 _)) r (holds_pad h)
      · exact (u.ext hok (Ext.alloc m4 1 _)) _ (holds_lst h hv)
end
end Verif.Mem
