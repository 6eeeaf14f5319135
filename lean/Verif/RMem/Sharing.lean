import Verif.RMem.Isolation
/-!
C83/C84: what exactly is shared, and where things are.

The constructor and the setters keep the caller's tensors; `detach`, slices and `to` the device the tensors are on already hand out the tensors of the
object – the last one even with `copy=True`.
-/
namespace Verif.RMem
open Verif
set_option linter.unusedSectionVars false

section
variable {α : Type*} [Field α] [LinearOrder α]

/-- Every tensor of the object is one that did not exist in `m`. -/
def AllNew (m : Mem α) (c : Obj) : Prop := ∀ r, Holds c r → m.next ≤ r

/-! ### Sharing -/

/-- **The constructor keeps the tensors it is given** (on the device they are on) … -/
theorem new_shares {m m' : Mem α} {a : Args} {cf : Bool} {d : Option Dev} {c : Obj} (ha : ∀ r ∈ a.list, r < m.next)
    (h : new m a cf d = (.ok c, m')) (hd : d = none ∨ d = some (m.dev a.rgb)) :
    c.base .rgb = a.rgb ∧ c.base .depth = a.depth ∧ c.base .intrinsics = a.K ∧ c.opt .poses = a.poses ∧ c.opt .pix = a.pix ∧
    c.opt .vertex = none ∧ c.opt .normal = none ∧ c.opt .gvertex = none ∧ c.opt .gnormal = none ∧ c.valid = none := by
  rcases new_sim cf d (fun r hr => ha r ((a.mem_list r).2 hr)) with ⟨e, _, k⟩ | ⟨_, _, k⟩ | ⟨h0, s, c', m1, h1, k, h2, h3, h4⟩
  · rw [h] at k; simp at k
  · rw [h] at k; simp at k
  rw [h] at k
  simp only [Prod.mk.injEq, Except.ok.injEq] at k
  obtain ⟨rfl, rfl⟩ := k
  obtain ⟨o1, o2⟩ := (oneDevice_iff m a).1 h0
  have hdev : c.dev = m.dev a.rgb := by rw [h3]; rcases hd with rfl | rfl <;> rfl
  have hb : ∀ b, c.base b = a.base b := fun b => (h4.base b).to_kept ((o1 b).trans hdev.symm)
  have ho : ∀ x, c.opt x = a.opt x := by
    intro x
    rcases h4.opt x with ⟨k1, k2⟩ | ⟨v, v', k1, k2, k3⟩
    · rw [k2]; exact k1.symm
    · rw [k2, k3.to_kept ((o2 x v k1).trans hdev.symm)]; exact k1.symm
  exact ⟨hb .rgb, hb .depth, hb .intrinsics, ho .poses, ho .pix, ho .vertex, ho .normal, ho .gvertex, ho .gnormal, h4.valid⟩

/-- … and copies all of them if it is given another device. -/
theorem new_moves {m m' : Mem α} {a : Args} {cf : Bool} {d : Dev} {c : Obj} (ha : ∀ r ∈ a.list, r < m.next)
    (h : new m a cf (some d) = (.ok c, m')) (hd : d ≠ m.dev a.rgb) : AllNew m c ∧ c.dev = d := by
  rcases new_sim cf (some d) (fun r hr => ha r ((a.mem_list r).2 hr)) with ⟨e, _, k⟩ | ⟨_, _, k⟩ | ⟨h0, s, c', m1, h1, k, h2, h3, h4⟩
  · rw [h] at k; simp at k
  · rw [h] at k; simp at k
  rw [h] at k
  simp only [Prod.mk.injEq, Except.ok.injEq] at k
  obtain ⟨rfl, rfl⟩ := k
  obtain ⟨o1, o2⟩ := (oneDevice_iff m a).1 h0
  simp only [Option.getD_some] at h3
  refine ⟨fun r hr => ?_, h3⟩
  rcases h4.own (fun _ => stays_to _) (fun _ => stays_to _) r hr with k | k
  · exfalso
    rcases k with ⟨b, e, k⟩ | ⟨x, v, hx, e, k⟩
    · simp only [Pass.to, decide_eq_true_eq] at k
      exact hd (by rw [← h3, ← k, ← e]; exact o1 b)
    · simp only [Pass.to, decide_eq_true_eq] at k
      exact hd (by rw [← h3, ← k, ← e]; exact o2 x v hx)
  · exact k.1

/-- **The setters keep the tensor they are given**, wherever it is, and nothing else changes hands: only its shape is looked at. -/
theorem set_shares (v : View) (m : Mem α) (o : Obj) :
    ((setRgb v m o).1 = .ok () ↔ (m.read v).img.sh = o.rgbShape) ∧ ((setRgb v m o).1 = .ok () → (setRgb v m o).2.base .rgb = v) ∧
    ((setDepth v m o).1 = .ok () ↔ o.depthImageShape = some (m.read v).img.sh) ∧ ((setDepth v m o).1 = .ok () → (setDepth v m o).2.base .depth = v) ∧
    ((setK v m o).1 = .ok () ↔ (m.read v).mat.d0 = o.B ∧ (m.read v).mat.d1 = 1) ∧ ((setK v m o).1 = .ok () → (setK v m o).2.base .intrinsics = v) ∧
    ((setPoses (some v) m o).1 = .ok () ↔ (m.read v).mat.d0 = o.B ∧ (m.read v).mat.d1 = o.L) ∧
    ((setPoses (some v) m o).1 = .ok () → (setPoses (some v) m o).2.opt .poses = some v) := by
  refine ⟨?_, ?_, ?_, ?_, ?_, ?_, ?_, ?_⟩
  · unfold setRgb; split_ifs with h
    · simpa using h
    · simpa using h
  · unfold setRgb; split_ifs with h
    · simp
    · simp [Obj.setBase]
  · unfold setDepth
    rcases o.depthImageShape with _ | sh
    · simp
    · simp only; split_ifs with h
      · simpa [eq_comm] using h
      · simpa [eq_comm] using h
  · unfold setDepth
    rcases o.depthImageShape with _ | sh
    · simp
    · simp only; split_ifs with h
      · simp
      · simp [Obj.setBase, Obj.drop]
  · unfold setK; split_ifs with h
    · simpa [Prod.ext_iff] using h
    · simpa [Prod.ext_iff] using h
  · unfold setK; split_ifs with h
    · simp
    · simp [Obj.setBase, Obj.drop]
  · unfold setPoses; split_ifs with h
    · simp [Pcs.okOpt, Prod.ext_iff] at h ⊢; tauto
    · simp [Pcs.okOpt, Prod.ext_iff] at h ⊢; tauto
  · unfold setPoses; split_ifs with h
    · simp
    · simp [Obj.dropGlobal]

/-- The nine internal tensors of `c` are those of `o`. -/
def SameTensors (o c : Obj) : Prop := c.base = o.base ∧ c.opt = o.opt

/-- **`detach` copies nothing**: the nine tensors of the result are those of the object.  (It drops the mask.) -/
theorem detach_shares {m m' : Mem α} {o c : Obj} (ho : Ok m o) (h : detach m o = (.ok c, m')) : SameTensors o c ∧ c.valid = none := by
  obtain ⟨_, _, _, _, h5⟩ := (detach_sim ho).1.makes h (fun _ => stays_detach) (fun _ => stays_detach)
  refine ⟨⟨funext fun b => (h5.base b).kept rfl, funext fun x => ?_⟩, h5.valid⟩
  rcases h5.opt x with ⟨k1, k2⟩ | ⟨v, v', k1, k2, k3⟩
  · rw [k1, k2]
  · rw [k1, k2, k3.kept rfl]; rfl

/-- **`clone` copies everything.** -/
theorem clone_new {m m' : Mem α} {o c : Obj} (ho : Ok m o) (h : clone m o = (.ok c, m')) : AllNew m c ∧ c.valid = none := by
  refine ⟨fun r hr => ?_, ?_⟩
  · rcases (clone_makes ho h).1.own r hr with k | k
    · exact k.elim
    · exact k.1
  · obtain ⟨_, _, _, _, h5⟩ := (clone_sim ho).makes h (fun _ => stays_clone) (fun _ => stays_clone)
    exact h5.valid

/-- **`to` hands out the tensors that are on the device already and copies the others – whether or not a copy is asked for.** -/
theorem to_shares {cur : Nat} {a : DevArg} {copy : Bool} {m m' : Mem α} {o c : Obj} (ho : Ok m o) (h : toDevice cur a copy m o = (.ok (.new c), m')) :
    (∀ b, if m.dev (o.base b) = a.meant cur then c.base b = o.base b else m.next ≤ (c.base b).ref) ∧
    ∀ x, (o.opt x = none ∧ c.opt x = none) ∨
      ∃ v v', o.opt x = some v ∧ c.opt x = some v' ∧ if m.dev v = a.meant cur then v' = v else m.next ≤ v'.ref := by
  rcases to_sim cur a copy ho with ⟨_, _, k⟩ | ⟨_, r, k1, k2, k3⟩
  · rw [h] at k; simp at k
  rcases r with ⟨r, m1⟩
  rw [h] at k2
  simp only [Prod.mk.injEq] at k2
  obtain ⟨k2, rfl⟩ := k2
  rcases r with e | c'
  · simp [Except.map] at k2
  simp only [Except.map, Except.ok.injEq, Moved.new.injEq] at k2
  subst k2
  obtain ⟨_, _, _, _, h5⟩ := k1.makes rfl (fun _ => stays_to _) (fun _ => stays_to _)
  have key : ∀ {v v' : View}, Became (Pass.to (a.meant cur)) m m' v v' → if m.dev v = a.meant cur then v' = v else m.next ≤ v'.ref := by
    intro v v' k
    split_ifs with e
    · exact k.to_kept e
    · exact (k.copied (decide_eq_false e)).1
  refine ⟨fun b => key (h5.base b), fun x => ?_⟩
  rcases h5.opt x with k | ⟨v, v', q1, q2, q3⟩
  · exact .inl k
  · exact .inr ⟨v, v', q1, q2, key q3⟩

/-- For an object that is where it says: `to(own device, copy=True)` returns an object with the nine tensors of `self`. -/
theorem to_own_shares {cur : Nat} {a : DevArg} {copy : Bool} {m m' : Mem α} {o c : Obj} (ho : Ok m o) (hu : Uni m o) (hd : a.meant cur = o.dev)
    (h : toDevice cur a copy m o = (.ok (.new c), m')) : SameTensors o c := by
  obtain ⟨h1, h2⟩ := to_shares ho h
  refine ⟨funext fun b => ?_, funext fun x => ?_⟩
  · have := h1 b
    rwa [if_pos ((hu.base b).trans hd.symm)] at this
  · rcases h2 x with ⟨k1, k2⟩ | ⟨v, v', k1, k2, k3⟩
    · rw [k1, k2]
    · rw [if_pos ((hu.opt k1).trans hd.symm)] at k3
      rw [k1, k2, k3]

/-- **Indexing**: with ints and slices all tensors of the result are views of the object's; a list as second entry copies everything but the
intrinsics, which are still the object's; a list as first entry copies everything. -/
theorem getitem_shares {m m' : Mem α} {o c : Obj} {idx : Rgbd.Index} {a b : Rgbd.Ix} (ho : Ok m o) (hab : Rgbd.twoIx idx = .ok (a, b))
    (h : getitem idx m o = (.ok c, m')) :
    ((∀ l, a ≠ .list l) → (∀ l, b ≠ .list l) →
      (∀ k, (c.base k).ref = (o.base k).ref) ∧ ∀ x, (c.opt x).map View.ref = (o.opt x).map View.ref) ∧
    ((∀ l, a ≠ .list l) → (∃ l, b = .list l) →
      (c.base .intrinsics).ref = (o.base .intrinsics).ref ∧ m.next ≤ (c.base .rgb).ref ∧ m.next ≤ (c.base .depth).ref ∧
      ∀ x v, c.opt x = some v → m.next ≤ v.ref) ∧
    ((∃ l, a = .list l) → AllNew m c) := by
  have no : ∀ {a : Rgbd.Ix}, (∀ l, a ≠ .list l) → isList a = false := by
    intro a k; cases a <;> first | rfl | exact absurd rfl (k _)
  have yes : ∀ {a : Rgbd.Ix}, (∃ l, a = .list l) → isList a = true := by rintro a ⟨l, rfl⟩; rfl
  refine ⟨?_, ?_, fun hl r hr => ?_⟩
  rotate_left 2
  · rcases (getitem_makes ho h).1.own r hr with k | k
    · have := k.2 a b hab
      rw [yes hl] at this; simp at this
    · exact k.1
  all_goals
    rcases getitem_sim idx ho with ⟨e, _, k⟩ | ⟨a', b', is, js, h1, h2, h3, h4, h5⟩
    · rw [h] at k; simp at k
    rw [hab] at h1
    simp only [Except.ok.injEq, Prod.mk.injEq] at h1
    obtain ⟨rfl, rfl⟩ := h1
    have sb : ∀ b', (indexBase (α := α) a b is js b').Stays := fun b' => by cases b' <;> exact stays_index _ _
    obtain ⟨_, _, _, _, k5⟩ := h4.makes h sb (fun _ => stays_index _ _)
    intro la' lb'
    have la := no la'
  · have lb := no lb'
    refine ⟨fun k => ?_, fun x => ?_⟩
    · have q := (k5.base k).kept (by rcases k with _ | _ | _ <;> simp [indexBase, Pass.index, la, lb])
      rw [q, sb]
    · rcases k5.opt x with ⟨q1, q2⟩ | ⟨v, v', q1, q2, q3⟩
      · rw [q1, q2]
      · have q := q3.kept (by simp [Pass.index, la, lb])
        rw [q1, q2, q]
        simp only [Option.map_some, Option.some.injEq]
        exact stays_index _ _ v
  · have lb := yes lb'
    refine ⟨?_, ?_, ?_, fun x v hv => ?_⟩
    · have q := (k5.base .intrinsics).kept (by simp [indexBase, Pass.index, la])
      rw [q, sb]
    · exact ((k5.base .rgb).copied (by simp [indexBase, Pass.index, lb])).1
    · exact ((k5.base .depth).copied (by simp [indexBase, Pass.index, lb])).1
    · obtain ⟨w, hw, q⟩ := k5.opt_of hv
      exact (q.copied (by simp [Pass.index, lb])).1

/-! ### Devices -/

/-- **Constructed objects are where they say**: on the device asked for, or else on the arguments' device; arguments on different devices are
refused with a ValueError. -/
theorem new_device {m : Mem α} {a : Args} (cf : Bool) (d : Option Dev) (ha : ∀ r ∈ a.list, r < m.next) :
    (∀ c m', new m a cf d = (.ok c, m') → Uni m' c ∧ c.dev = d.getD (m.dev a.rgb)) ∧
    ((∃ s, newVal m a cf = .ok s) → ((new m a cf d).1 = .error .valueError ↔
      ∃ r ∈ a.list, (m.cell r).dev ≠ m.dev a.rgb)) := by
  refine ⟨fun c m' h => ?_, fun ⟨s, hs⟩ => ?_⟩
  · obtain ⟨k, _, h3⟩ := new_makes ha h
    exact ⟨k.uni trivial, h3⟩
  · have key : a.oneDevice m = true ↔ ∀ r ∈ a.list, (m.cell r).dev = m.dev a.rgb := by
      rw [oneDevice_iff]
      constructor
      · rintro ⟨h1, h2⟩ r hr
        rcases (a.mem_list r).1 hr with ⟨b, rfl⟩ | ⟨x, v, hx, rfl⟩
        · exact h1 b
        · exact h2 x v hx
      · exact fun h => ⟨fun b => h _ ((a.mem_list _).2 (.inl ⟨b, rfl⟩)), fun x v hx => h _ ((a.mem_list _).2 (.inr ⟨x, v, hx, rfl⟩))⟩
    rcases new_sim cf d (fun r hr => ha r ((a.mem_list r).2 hr)) with ⟨e, k, _⟩ | ⟨k0, _, k⟩ | ⟨h0, s', c', m1, h1, k, h2, h3, h4⟩
    · rw [hs] at k; simp at k
    · rw [k]
      simp only [true_iff]
      by_contra hn
      push Not at hn
      rw [key.2 hn] at k0; simp at k0
    · rw [k]
      simp only [reduceCtorEq, false_iff, not_exists, not_and, not_not]
      exact key.1 h0

/-- **`to` moves everything**: whatever happened before, all tensors of the result are on the device, which is the one it names. -/
theorem to_device {cur : Nat} {a : DevArg} {copy : Bool} {m m' : Mem α} {o c : Obj} (ho : Ok m o) (h : toDevice cur a copy m o = (.ok (.new c), m')) :
    Uni m' c ∧ c.dev = a.meant cur := ⟨(to_makes ho h).1.uni trivial, (to_makes ho h).2.2⟩

/-- `to` returns the object itself exactly if no copy is asked for and the object names the device. -/
theorem to_self_iff {cur : Nat} {a : DevArg} {copy : Bool} {m : Mem α} {o : Obj} (ho : Ok m o) :
    (toDevice cur a copy m o).1 = .ok .self ↔ copy = false ∧ o.dev = a.meant cur := by
  rcases to_sim cur a copy ho with ⟨h1, h2, k⟩ | ⟨h1, r, _, k2, _⟩
  · rw [k]; simp [h1, h2]
  · rw [k2]
    constructor
    · intro h
      rcases r with ⟨r, m1⟩
      rcases r with e | c <;> simp [Except.map] at h
    · rintro ⟨h3, h4⟩
      rcases h1 with h1 | h1
      · rw [h3] at h1; simp at h1
      · exact absurd h4 h1

/-- `to_channels_last` and `to_channels_first` return the object itself exactly if no copy is asked for and the layout is already the one asked
for; a copy that is asked for is made also then. -/
theorem relaid_self_iff (ctg : View → Bool) (copy : Bool) (m : Mem α) (o : Obj) :
    ((toLast ctg copy m o).1 = .ok .self ↔ copy = false ∧ o.cf = false) ∧
    ((toFirst ctg copy m o).1 = .ok .self ↔ copy = false ∧ o.cf = true) := by
  have key : ∀ f : Mem α → Obj → Mem α × Obj, (cloneThen f m o).1 ≠ .ok .self := by
    intro f
    unfold cloneThen
    rcases clone m o with ⟨_ | c, m1⟩ <;> simp
  unfold toLast toFirst
  constructor
  · cases copy <;> cases h : o.cf <;> simp [key]
  · cases copy <;> cases h : o.cf <;> simp [key]

/-- **Setters can take an object apart**: copying, detaching, moving and re-laying it then fail with a ValueError exactly if colour image, depth image
and intrinsics are not on one device (the poses may be anywhere). -/
theorem apart_iff {m : Mem α} {o : Obj} (ho : Ok m o) {s : Rgbd.Obj α} (hs : Rgbd.clone (val m o) = .ok s) :
    ((clone m o).1 = .error .valueError ↔ ¬Together m o.base) ∧ ((detach m o).1 = .error .valueError ↔ ¬Together m o.base) ∧
    (∀ cur a copy, copy = true ∨ o.dev ≠ a.meant cur → ((toDevice cur a copy m o).1 = .error .valueError ↔ ¬Together m o.base)) := by
  refine ⟨?_, ?_, fun cur a copy hc => ?_⟩
  · obtain ⟨_, ⟨e, k, _⟩ | ⟨k, _, k2⟩ | ⟨k, c, k2, _⟩⟩ := clone_sim ho
    · rw [hs] at k; simp at k
    · rw [k2]; simp [k]
    · rw [k2]; simp [k]
  · obtain ⟨_, ⟨e, k, _⟩ | ⟨k, _, k2⟩ | ⟨k, c, k2, _⟩⟩ := (detach_sim ho).1
    · rw [hs] at k; simp at k
    · rw [k2]; simp [k]
    · rw [k2]; simp [k]
  · rcases to_sim cur a copy ho with ⟨h1, h2, _⟩ | ⟨_, r, ⟨_, k⟩, k3, _⟩
    · rcases hc with hc | hc
      · rw [h1] at hc; simp at hc
      · exact absurd h2 hc
    · rw [k3]
      rcases k with ⟨e, k, _⟩ | ⟨k, _, k2⟩ | ⟨k, c, k2, _⟩
      · rw [hs] at k; simp at k
      · rw [k2]; simp [k, Except.map]
      · rw [k2]; simp [k, Except.map]

/-- The same for indexing. -/
theorem getitem_apart_iff {m : Mem α} {o : Obj} (ho : Ok m o) {idx : Rgbd.Index} {s : Rgbd.Obj α} (hs : Rgbd.getitem idx (val m o) = .ok s) :
    (getitem idx m o).1 = .error .valueError ↔ ¬Together m o.base := by
  rcases getitem_sim idx ho with ⟨e, k, _⟩ | ⟨a, b, is, js, _, _, _, ⟨_, k⟩, _⟩
  · rw [hs] at k; simp at k
  · rcases k with ⟨e, k, _⟩ | ⟨k, _, k2⟩ | ⟨k, c, k2, _⟩
    · rw [hs] at k; simp at k
    · rw [k2]; simp [k]
    · rw [k2]; simp [k]

/-- **The vertex map of an object that is not together cannot be computed**: RuntimeError if the intrinsics, or pixel positions given by the
user, are on another device than the depth image. -/
theorem vertex_apart (eps : α) {m : Mem α} {o : Obj} (ho : Ok m o) (hv : o.opt .vertex = none)
    (h : (o.opt .pix = none ∧ m.dev (o.base .intrinsics) ≠ m.dev (o.base .depth)) ∨
      ∃ p, o.opt .pix = some p ∧ (m.dev (o.base .intrinsics) ≠ m.dev p ∨ m.dev p ≠ m.dev (o.base .depth))) :
    (getVertex eps m o).1 = .error .runtimeError := by
  unfold getVertex cached
  rw [hv]
  simp only
  have : (computeVertex eps m o).1 = .error .runtimeError := by
    unfold computeVertex needPix
    rcases h with ⟨h1, h2⟩ | ⟨p, h1, h2⟩
    · rw [h1]
      simp only [store, Function.update_self, Option.getD_some]
      rw [fresh_view, fresh_dev, (fresh_ext m _ _).dev (ho.base .intrinsics), (fresh_ext m _ _).dev (ho.base .depth), if_pos (.inl h2)]
    · rw [h1]
      simp only [h1, Option.getD_some]
      rw [if_pos h2]
  generalize computeVertex eps m o = p at this ⊢
  rcases p with ⟨r, m1, o1⟩
  simp only at this
  subst this
  rfl

/-- … while for an object that is where it says no device error can occur: all getters return what `Verif.Rgbd.Model` says. -/
theorem honest_getters (nrm : V3 α → α) (eps : α) {m : Mem α} {o : Obj} (ho : Ok m o) (hu : Uni m o) :
    Rgbd.getVertex eps (val m o) = seen (getVertex eps m o) ∧ Rgbd.getGVertex eps (val m o) = seen (getGVertex eps m o) ∧
    Rgbd.getNormal nrm eps (val m o) = seen (getNormal nrm eps m o) ∧ Rgbd.getGNormal nrm eps (val m o) = seen (getGNormal nrm eps m o) :=
  ⟨getVertex_val eps ho hu, getGVertex_val eps ho hu, getNormal_val nrm eps ho hu, getGNormal_val nrm eps ho hu⟩
end
end Verif.RMem
