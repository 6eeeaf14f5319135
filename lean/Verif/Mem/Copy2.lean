import Verif.Mem.Copy
/-! `detach`, `to`, indexing and the out-of-place operations. -/
namespace Verif.Mem
open Verif Verif.Pcs
set_option linter.unusedSectionVars false
set_option linter.unusedSimpArgs false

section
variable {α : Type*}

/-- The values of `detach()` and of a copying `to(...)`: those of the clone, with the internal tensors of `self`, pointclouds.py:1046-1099. -/
def recopy (s : PC α) : Except Err (PC α) × PC α :=
  match Pcs.clone s with
  | (.error e, s) => (.error e, s)
  | (.ok c, s) => (.ok (copyInternal s c), s)

theorem copyInternal_idem (s c : PC α) : copyInternal s (copyInternal s c) = copyInternal s c := by
  simp only [copyInternal, PC.mk.injEq, and_true, true_and]
  constructor
  · funext X
    split_ifs <;> rfl
  · split_ifs <;> rfl

/-- The internal tensors are the same already. -/
theorem recopy_eq (s : PC α) (h : (Pcs.hasAttr .points s).1 = true) : recopy s = Pcs.clone s := by
  unfold recopy Pcs.clone
  generalize Pcs.hasAttr .points s = p at h ⊢
  rcases p with ⟨b, s1⟩
  simp only at h
  subst h
  simp only [Bool.not_true, Bool.false_eq_true, if_false]
  rcases s1.lst .points with _ | P
  · rcases s1.pad .points with _ | P
    · rfl
    · simp only
      rcases Pcs.newTensor s1.pad P with e | c
      · rfl
      · simp only [Except.map, copyInternal_idem]
  · simp only
    rcases Pcs.newList s1.lst P with e | c
    · rfl
    · simp only [Except.map, copyInternal_idem]

theorem copyInternal_pad {s c : PC α} {X : Attr} (hc : c.pad X ≠ none → s.pad X ≠ none) (h : (copyInternal s c).pad X ≠ none) : s.pad X ≠ none := by
  intro h0
  rw [show (copyInternal s c).pad X = if (s.pad X).isSome then s.pad X else c.pad X from rfl] at h
  simp only [h0, Option.isSome_none, Bool.false_eq_true, if_false] at h
  exact hc h h0

theorem copyInternal_mask {s c : PC α} (hc : c.mask = none) (h : (copyInternal s c).mask ≠ none) : s.mask ≠ none := by
  intro h0
  rw [show (copyInternal s c).mask = if s.mask.isSome then s.mask else c.mask from rfl] at h
  simp only [h0, Option.isSome_none, Bool.false_eq_true, if_false] at h
  exact h hc

theorem newList_internal {arg : Attr → Option (List (T2 α))} {P : List (T2 α)} {c : PC α} (h : Pcs.newList arg P = .ok c) :
    (∀ X, c.pad X = none) ∧ c.mask = none := by
  simp only [Pcs.newList] at h
  split_ifs at h
  simp only [Except.ok.injEq] at h
  subst h
  exact ⟨fun _ => rfl, rfl⟩

theorem newTensor_internal {arg : Attr → Option (List (T2 α))} {P : List (T2 α)} {c : PC α} (h : Pcs.newTensor arg P = .ok c) (hP : arg .points = some P) :
    (∀ X, c.pad X = arg X) ∧ c.mask = none := by
  simp only [Pcs.newTensor] at h
  split_ifs at h
  simp only [Except.ok.injEq] at h
  subst h
  refine ⟨fun X => ?_, rfl⟩
  show (if X = .points then some P else arg X) = arg X
  split_ifs with hX
  · rw [hX, hP]
  · rfl

/-- A clone has a padded tensor (a mask) only if the original has. -/
theorem clone_keeps {s c s' : PC α} (h : Pcs.clone s = (.ok c, s')) : (∀ X, c.pad X ≠ none → s'.pad X ≠ none) ∧ (c.mask ≠ none → s'.mask ≠ none) := by
  unfold Pcs.clone at h
  generalize Pcs.hasAttr .points s = p at h
  rcases p with ⟨b, s1⟩
  rcases b with _ | _
  · simp only [Bool.not_false, if_true, Prod.mk.injEq, Except.ok.injEq] at h
    obtain ⟨rfl, rfl⟩ := h
    exact ⟨fun X h => absurd rfl h, fun h => absurd rfl h⟩
  · simp only [Bool.not_true, Bool.false_eq_true, if_false] at h
    rcases hl : s1.lst .points with _ | P
    · rcases hp : s1.pad .points with _ | P
      · simp [hl, hp] at h
      · simp only [hl, hp, Prod.mk.injEq] at h
        obtain ⟨h, rfl⟩ := h
        rcases ht : Pcs.newTensor s1.pad P with e | t
        · simp [ht, Except.map] at h
        · simp only [ht, Except.map, Except.ok.injEq] at h
          obtain ⟨h1, h2⟩ := newTensor_internal ht hp
          subst h
          exact ⟨fun X => copyInternal_pad (by rw [h1]; exact id), copyInternal_mask h2⟩
    · simp only [hl, Prod.mk.injEq] at h
      obtain ⟨h, rfl⟩ := h
      rcases ht : Pcs.newList s1.lst P with e | t
      · simp [ht, Except.map] at h
      · simp only [ht, Except.map, Except.ok.injEq] at h
        obtain ⟨h1, h2⟩ := newList_internal ht
        subst h
        exact ⟨fun X => copyInternal_pad (fun h => absurd (h1 X) h), copyInternal_mask h2⟩

theorem clone_keeps_pad {s c s' : PC α} (h : Pcs.clone s = (.ok c, s')) (X : Attr) : c.pad X ≠ none → s'.pad X ≠ none := (clone_keeps h).1 X
theorem clone_keeps_mask {s c s' : PC α} (h : Pcs.clone s = (.ok c, s')) : c.mask ≠ none → s'.mask ≠ none := (clone_keeps h).2

theorem detach_sim {m : Mem α} {o : Obj} (h : Ok m o) : Copies m o (Holds o) (detach m o) (recopy (val m o)) := by
  unfold detach recopy
  have s1 := clone_sim h
  generalize clone m o = p at s1 ⊢
  generalize Pcs.clone (val m o) = q at s1 ⊢
  rcases p with ⟨r1, m1, o1⟩
  rcases q with ⟨r1', v1⟩
  obtain ⟨hr, hv, hg, hf, hu⟩ := s1
  simp only at hr hv hg hf hu
  subst hr hv
  rcases r1 with e | c
  · exact ⟨rfl, rfl, hg, fun c hc => by simp at hc, fun c hc => by simp at hc⟩
  · simp only [Except.map]
    have fc := hf c rfl
    have oc : Ok m1 c := fc.ok fun _ h => h.elim
    have oo := hg.ok h
    obtain ⟨e1, hval, hown, hdev⟩ := passInternal_ok Pass.detach oo oc
    refine ⟨?_, (val_ext oo e1).symm, hg.trans ⟨e1, fun r h => .inl h, rfl, fun h u => u.ext h e1⟩, ?_, ?_⟩
    · simp only [Except.map]; rw [hval]
    · intro c' hc'
      simp only [Except.ok.injEq] at hc'
      subst hc'
      refine ⟨hg.ext.trans e1, fun r hr => ?_⟩
      rcases hown r hr with k | ⟨k, _⟩ | ⟨_, _, q, _, k, _⟩
      · rcases fc.own r k.holds with k | k
        · exact k.elim
        · exact .inr ⟨k.1, k.2.trans_le e1.next⟩
      · rcases hg.own r k with k | k
        · exact .inl k
        · exact .inr ⟨k.1, k.2.trans_le e1.next⟩
      · simp [Pass.detach] at k
    · intro c' hc' ho u
      simp only [Except.ok.injEq] at hc'
      subst hc'
      obtain ⟨u1, u2⟩ := hu c rfl ho u
      refine ⟨fun r hr => ?_, hdev.trans u2⟩
      simp only
      rw [hdev]
      rcases hown r hr with k | ⟨k, _⟩ | ⟨_, _, q, _, k, _⟩
      · rw [e1.cell r (oc r k.holds)]; exact u1 r k.holds
      · rw [e1.cell r (oo r k), u2, ← hg.dev]; exact hg.uni ho u r k
      · simp [Pass.detach] at k

/-- What `to` returns and does. -/
structure MovesTo (m : Mem α) (o : Obj) (d : Dev) (src : Nat → Prop) (c : Obj) (m' : Mem α) : Prop where
  fresh : Fresh m m' src c
  uni : Uni m o → Uni m' c
  dev : Uni m o → c.dev = d

/-- `to`: the object itself if nothing is to be done, otherwise a new object with the same values on the requested device. -/
theorem to_sim (cur : Nat) (a : DevArg) (copy : Bool) {m : Mem α} {o : Obj} (h : Ok m o) :
    ((copy = false ∧ a.same o.dev = true) ∧ toDevice cur a copy m o = (.ok .self, m, o)) ∨
    (¬(copy = false ∧ a.same o.dev = true) ∧
      (∃ e, (recopy (val m o)).1 = .error e ∧ (toDevice cur a copy m o).1 = .error e) ∨
      ∃ c, (toDevice cur a copy m o).1 = .ok (.new c) ∧
        MovesTo m o (a.meant cur) (fun r => a.same o.dev = false ∧ Holds o r ∧ (m.cell r).dev = a.meant cur) c (toDevice cur a copy m o).2.1 ∧
        (a.same o.dev = true → (Pcs.clone (val m o)).1 = .ok (val (toDevice cur a copy m o).2.1 c)) ∧
        (a.same o.dev = false → (recopy (val m o)).1 = .ok (val (toDevice cur a copy m o).2.1 c))) ∧
      (Pcs.clone (val m o)).2 = val (toDevice cur a copy m o).2.1 (toDevice cur a copy m o).2.2 ∧
      Grows m o (toDevice cur a copy m o).2.1 (toDevice cur a copy m o).2.2 := by
  unfold toDevice
  by_cases hs : copy = false ∧ a.same o.dev = true
  · left
    refine ⟨hs, ?_⟩
    simp [hs.1, hs.2]
  · right
    have hs' : (!copy && a.same o.dev) = false := by
      cases copy <;> simp_all
    simp only [hs', Bool.false_eq_true, if_false]
    have s1 := clone_sim h
    have er : recopy (val m o) = match Pcs.clone (val m o) with
      | (.error e, s) => (.error e, s)
      | (.ok c, s) => (.ok (copyInternal s c), s) := rfl
    generalize clone m o = p at s1 ⊢
    generalize hq : Pcs.clone (val m o) = q at s1 er ⊢
    rw [er]
    rcases p with ⟨r1, m1, o1⟩
    rcases q with ⟨r1', v1⟩
    obtain ⟨hr, hv, hg, hf, hu⟩ := s1
    simp only at hr hv hg hf hu
    subst hr hv
    have edev : o1.dev = o.dev := hg.dev
    rcases r1 with e | c
    · exact ⟨.inl ⟨hs, e, rfl, rfl⟩, rfl, hg⟩
    · have hcl : Pcs.clone (val m o) = (.ok (val m1 c), val m1 o1) := hq
      simp only [Except.map]
      have fc := hf c rfl
      have oc : Ok m1 c := fc.ok fun _ h => h.elim
      have oo := hg.ok h
      by_cases hsame : a.same o.dev = true
      · have hd : a.meant cur = o.dev := by
          cases a <;> simp_all [DevArg.same, DevArg.meant]
        rw [edev, hsame]
        refine ⟨.inr ⟨c, rfl, ⟨fc.mono fun _ h => h.elim, fun u => (hu c rfl h u).1, fun u => ?_⟩, fun _ => rfl, fun h => by simp at h⟩, rfl, hg⟩
        rw [hd]; exact (hu c rfl h u).2
      · have hsame : a.same o.dev = false := by simpa using hsame
        rw [edev, hsame]
        simp only [Bool.false_eq_true, if_false]
        set d := a.meant cur with hd
        have h1 := each_ok (passList_passes (Pass.to (α := α) d)) m1 c.lst fun X r ⟨x, hx, v, hv, hr⟩ => oc r (by rw [← hr]; exact holds_lst hx hv)
        generalize each (passList (Pass.to d)) m1 c.lst = q at h1 ⊢
        rcases q with ⟨m2, l2⟩
        simp only at h1 ⊢
        have hl2 : ∀ X l v, l2 X = some l → v ∈ l → m.next ≤ v.ref ∧ v.ref < m2.next ∧ (m2.cell v.ref).dev = d := by
          intro X l v hl hv
          rcases (h1.each X).own v.ref ⟨l, hl, v, hv, rfl⟩ with ⟨⟨x, hx, w, hw, hr⟩, k⟩ | ⟨k1, k2, q, _, _, k4⟩
          · have hh : Holds c v.ref := by rw [← hr]; exact holds_lst hx hw
            rcases fc.own _ hh with k' | k'
            · exact k'.elim
            · refine ⟨k'.1, k'.2.trans_le h1.ext.next, ?_⟩
              rw [h1.ext.cell _ k'.2]
              simpa [Pass.to] using k
          · exact ⟨hg.ext.next.trans k1, k2, k4⟩
        have oc2 : Ok m2 { c with lst := l2, dev := d } := by
          rintro r (k | k | ⟨X, k⟩ | ⟨X, l, k, v, hv, rfl⟩)
          · exact (oc.ext h1.ext) r (.inl k)
          · exact (oc.ext h1.ext) r (.inr (.inl k))
          · exact (oc.ext h1.ext) r (holds_pad k)
          · exact (hl2 X l v k hv).2.1
        have oo2 := oo.ext h1.ext
        obtain ⟨e1, hval, hown, hdev⟩ := passInternal_ok (Pass.to d) oo2 oc2
        have eT := h1.ext.trans e1
        have hvc : val m2 { c with lst := l2, dev := d } = val m1 c := by
          have := val_ext oc h1.ext
          rw [← this]
          simp only [val, PC.mk.injEq, and_true, true_and]
          funext X
          have k1 := (h1.each X).rd
          have k2 := congrFun (congrArg PC.lst this) X
          simp only [val] at k2
          exact Eq.trans k1 k2.symm
        refine ⟨.inr ⟨_, rfl, ⟨⟨hg.ext.trans eT, ?_⟩, ?_, fun _ => hdev⟩, fun h => by simp at h, fun _ => ?_⟩, (val_ext oo eT).symm,
          hg.trans ⟨eT, fun r h => .inl h, rfl, fun h u => u.ext h eT⟩⟩
        · intro r hr
          rcases hown r hr with k | ⟨k, k2⟩ | ⟨k1, k2, _⟩
          · right
            rcases k with ⟨_, k⟩ | ⟨X, _, k⟩ | ⟨X, l, k, v, hv, rfl⟩
            · rcases fc.own r (holds_mask k) with k' | k'
              · exact k'.elim
              · exact ⟨k'.1, k'.2.trans_le eT.next⟩
            · rcases fc.own r (holds_pad k) with k' | k'
              · exact k'.elim
              · exact ⟨k'.1, k'.2.trans_le eT.next⟩
            · exact ⟨(hl2 X l v k hv).1, (hl2 X l v k hv).2.1.trans_le e1.next⟩
          · rcases hg.own r k with k' | k'
            · refine .inl ⟨trivial, k', ?_⟩
              rw [h1.ext.cell r (oo r k), hg.ext.cell r (h r k')] at k2
              simpa [Pass.to] using k2
            · exact .inr ⟨k'.1, k'.2.trans_le eT.next⟩
          · exact .inr ⟨(hg.ext.trans h1.ext).next.trans k1, k2⟩
        · intro u r hr
          rw [hdev]
          rcases hown r hr with k | ⟨k, k2⟩ | ⟨_, _, q, _, _, k4⟩
          · rcases k with ⟨k0, k⟩ | ⟨X, k0, k⟩ | ⟨X, l, k, v, hv, rfl⟩
            · simp only at k
              have := clone_keeps_mask hcl (by simp [val, k])
              simp [val, k0] at this
            · simp only at k
              have := clone_keeps_pad hcl X (by simp [val, k])
              simp [val, k0] at this
            · rw [e1.cell _ (hl2 X l v k hv).2.1]; exact (hl2 X l v k hv).2.2
          · rw [e1.cell r (oo2 r k)]
            simpa [Pass.to] using k2
          · exact k4
        · rw [hval, hvc, val_ext oo h1.ext]
end
end Verif.Mem
