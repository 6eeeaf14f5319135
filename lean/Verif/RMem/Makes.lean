import Verif.RMem.Layout
/-! What the calls that make objects do to memory. -/
namespace Verif.RMem
open Verif
set_option linter.unusedSectionVars false

section
variable {α : Type*} [Field α] [LinearOrder α]

/-- A new object: what it holds is new, or a storage with property `src`; all on the device it names if `u`. -/
structure Makes (m : Mem α) (src : Nat → Prop) (u : Prop) (m' : Mem α) (c : Obj) : Prop where
  ext : Ext m m'
  own : ∀ r, Holds c r → src r ∨ (m.next ≤ r ∧ r < m'.next)
  uni : u → Uni m' c

theorem kept_holds {pb : Base → Pass α} {po : Opt → Pass α} {m : Mem α} {o : Obj} {r : Nat} (h : Kept pb po m o r) : Holds o r := by
  rcases h with ⟨b, h, _⟩ | ⟨x, v, h, k, _⟩
  · exact .inl ⟨b, h⟩
  · exact .inr (.inl ⟨x, v, h, k⟩)

/-- Copies that stay on their device. -/
theorem Copied.makes {vr : Except Rgbd.Err (Rgbd.Obj α)} {pb : Base → Pass α} {po : Opt → Pass α} {m m' : Mem α} {o c : Obj} {r : Except Rgbd.Err Obj × Mem α}
    (h : Copied vr pb po m o r) (e : r = (.ok c, m')) (hb : ∀ b, (pb b).Stays) (ho : ∀ x, (po x).Stays) :
    Ext m m' ∧ (∀ q, Holds c q → Kept pb po m o q ∨ (m.next ≤ q ∧ q < m'.next)) ∧ vr = .ok (val m' c) ∧ Together m o.base ∧ Passed pb po m o m' c := by
  subst e
  obtain ⟨h0, ⟨e, _, k⟩ | ⟨_, _, k⟩ | ⟨h1, c', k, h2, h3⟩⟩ := h
  · simp at k
  · simp at k
  · simp only [Except.ok.injEq] at k
    subst k
    exact ⟨h0, fun q hq => h3.own hb ho q hq, h2, h1, h3⟩

/-- Passing on locally keeps an object on its device. -/
theorem Passed.uni {pb : Base → Pass α} {po : Opt → Pass α} {m m' : Mem α} {o c : Obj} (h : Passed pb po m o m' c) (hb : ∀ b, (pb b).Local)
    (ho : ∀ x, (po x).Local) (hd : c.dev = m.dev (o.base .rgb)) (hu : Uni m o) : Uni m' c := by
  intro r hr
  rw [hd, hu.base]
  rcases hr with ⟨b, rfl⟩ | ⟨x, v, hx, rfl⟩ | ⟨v, hv, _⟩
  · exact ((h.base b).local (hb b)).trans (hu.base b)
  · obtain ⟨w, hw, k⟩ := h.opt_of hx
    exact (k.local (ho x)).trans (hu.opt hw)
  · rw [h.valid] at hv; simp at hv

theorem clone_makes {m m' : Mem α} {o c : Obj} (ho : Ok m o) (h : clone m o = (.ok c, m')) :
    Makes m (fun _ => False) (Uni m o) m' c ∧ Rgbd.clone (val m o) = .ok (val m' c) := by
  have hd := clone_dev (c := c) ho (by rw [h])
  obtain ⟨h1, h2, h3, h4, h5⟩ := (clone_sim ho).makes h (fun _ => stays_clone) (fun _ => stays_clone)
  refine ⟨⟨h1, fun r hr => ?_, fun u => h5.uni (fun _ _ => rfl) (fun _ _ => rfl) hd u⟩, h3⟩
  rcases h2 r hr with k | k
  · rcases k with ⟨_, _, k⟩ | ⟨_, _, _, _, k⟩ <;> simp [Pass.clone] at k
  · exact .inr k

theorem detach_makes {m m' : Mem α} {o c : Obj} (ho : Ok m o) (h : detach m o = (.ok c, m')) :
    Makes m (Holds o) (Uni m o) m' c ∧ Rgbd.clone (val m o) = .ok (val m' c) := by
  have hd := (detach_sim ho).2 c (by rw [h])
  obtain ⟨h1, h2, h3, h4, h5⟩ := (detach_sim ho).1.makes h (fun _ => stays_detach) (fun _ => stays_detach)
  exact ⟨⟨h1, fun r hr => (h2 r hr).imp_left kept_holds, fun u => h5.uni (fun _ _ => rfl) (fun _ _ => rfl) hd u⟩, h3⟩

theorem getitem_makes {m m' : Mem α} {o c : Obj} {idx : Rgbd.Index} (ho : Ok m o) (h : getitem idx m o = (.ok c, m')) :
    Makes m (fun r => Holds o r ∧ ∀ a b, Rgbd.twoIx idx = .ok (a, b) → isList a = false) (Uni m o) m' c ∧ Rgbd.getitem idx (val m o) = .ok (val m' c) := by
  rcases getitem_sim idx ho with ⟨e, _, k⟩ | ⟨a, b, is, js, h1, h2, h3, h4, h5⟩
  · rw [h] at k; simp at k
  · have sb : ∀ b', (indexBase (α := α) a b is js b').Stays := fun b' => by cases b' <;> exact stays_index _ _
    have lb : ∀ b', (indexBase (α := α) a b is js b').Local := fun b' => by cases b' <;> exact fun _ => rfl
    obtain ⟨k1, k2, k3, k4, k5⟩ := h4.makes h sb (fun _ => stays_index _ _)
    refine ⟨⟨k1, fun r hr => ?_, fun u => k5.uni lb (fun _ _ => rfl) (h5 c (by rw [h])) u⟩, k3⟩
    rcases k2 r hr with k | k
    · refine .inl ⟨kept_holds k, fun a' b' e => ?_⟩
      rw [h1] at e
      simp only [Except.ok.injEq, Prod.mk.injEq] at e
      obtain ⟨rfl, rfl⟩ := e
      rcases k with ⟨b', _, k⟩ | ⟨_, _, _, _, k⟩
      · rcases b' with _ | _ | _ <;> simp [indexBase, Pass.index] at k <;> simp [k]
      · simp [Pass.index] at k; simp [k]
    · exact .inr k

theorem to_makes {m m' : Mem α} {o c : Obj} {cur : Nat} {a : DevArg} {copy : Bool} (ho : Ok m o) (h : toDevice cur a copy m o = (.ok (.new c), m')) :
    Makes m (fun r => Holds o r ∧ (m.cell r).dev = a.meant cur) True m' c ∧ Rgbd.clone (val m o) = .ok (val m' c) ∧ c.dev = a.meant cur := by
  rcases to_sim cur a copy ho with ⟨_, _, k⟩ | ⟨_, r, k1, k2, k3⟩
  · rw [h] at k; simp at k
  · rcases r with ⟨r, m1⟩
    rw [h] at k2
    simp only [Prod.mk.injEq] at k2
    obtain ⟨k2, rfl⟩ := k2
    rcases r with e | c'
    · simp [Except.map] at k2
    simp only [Except.map, Except.ok.injEq, Moved.new.injEq] at k2
    subst k2
    have hd := k3 c rfl
    obtain ⟨h1, h2, h3, h4, h5⟩ := k1.makes rfl (fun _ => stays_to _) (fun _ => stays_to _)
    refine ⟨⟨h1, fun r hr => ?_, fun _ r hr => ?_⟩, h3, hd⟩
    · rcases h2 r hr with k | k
      · refine .inl ⟨kept_holds k, ?_⟩
        rcases k with ⟨_, _, k⟩ | ⟨_, _, _, _, k⟩ <;> simpa [Pass.to] using k
      · exact .inr k
    · rw [hd]
      rcases hr with ⟨b, rfl⟩ | ⟨x, v, hx, rfl⟩ | ⟨v, hv, _⟩
      · exact (h5.base b).to_dev
      · obtain ⟨w, _, k⟩ := h5.opt_of hx
        exact k.to_dev
      · rw [h5.valid] at hv; simp at hv

end
end Verif.RMem
