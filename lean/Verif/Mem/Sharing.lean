import Verif.Mem.Isolation
/-!
C81/C82: what exactly is shared, and where things are.

`detach`, indexing, the constructor and `to` the device the object is on already hand out the tensors of the object, the last one even
with `copy=True` if the device is written as a string or as "cuda" without a number.
-/
namespace Verif.Mem
open Verif Verif.Pcs
set_option linter.unusedSectionVars false

section
variable {α : Type*}

theorem passOne_keep {p : Pass α} {m : Mem α} {r : Nat} (h : p.keep (m.cell r) = true) : passOne p m r = (m, r) := by
  unfold passOne; rw [if_pos h]

theorem each_keep {p : Pass α} {m : Mem α} {a : Attr → Option Nat} (h : ∀ X r, a X = some r → p.keep (m.cell r) = true) :
    each (passOne p) m a = (m, a) := by
  have k : ∀ X, passOpt (passOne p) m (a X) = (m, a X) := by
    intro X
    rcases e : a X with _ | r
    · rfl
    · simp only [passOpt, passOne_keep (h X r e)]
  unfold each
  simp only [k]
  refine Prod.ext rfl ?_
  funext X
  cases X <;> rfl

/-- If every tensor is kept, the object gets the very tensors of `s`. -/
theorem passInternal_keep {p : Pass α} {m : Mem α} {s c : Obj} (h : ∀ r, Holds s r → p.keep (m.cell r) = true) :
    passInternal p m s c = (m, { c with pad := (fun X => if (s.pad X).isSome then s.pad X else c.pad X), mask := (if s.mask.isSome then s.mask else c.mask), num := s.num }) := by
  unfold passInternal
  rw [each_keep fun X r e => h r (holds_pad e)]
  have k : passOpt (passOne p) m s.mask = (m, s.mask) := by
    rcases e : s.mask with _ | r
    · rfl
    · simp only [passOpt, passOne_keep (h r (holds_mask e))]
  simp only [k, passOne_keep (h s.num (holds_num s))]

theorem hasAttr_fields (X : Attr) (o : Obj) : (hasAttr X o).2.pad = o.pad ∧ (hasAttr X o).2.mask = o.mask ∧ (hasAttr X o).2.num = o.num ∧
    (hasAttr X o).2.lst = o.lst ∧ (hasAttr X o).2.dev = o.dev := by
  obtain ⟨g, e⟩ := hasAttr_eta X o
  rw [e]; exact ⟨rfl, rfl, rfl, rfl, rfl⟩

/-- The tensors of `c` that are padded tensors, mask or sizes of `o`: all of them. -/
structure SharesInternals (o c : Obj) : Prop where
  pad : ∀ X r, o.pad X = some r → c.pad X = some r
  mask : ∀ r, o.mask = some r → c.mask = some r
  num : c.num = o.num

/-- **`detach` does not copy the padded tensors, the mask and the sizes**: those of the result are those of the object. -/
theorem detach_shares {m : Mem α} {o c : Obj} (h : (detach m o).1 = .ok c) : SharesInternals o c := by
  unfold detach at h
  have hs := clone_self m o
  obtain ⟨f1, f2, f3, _, _⟩ := hasAttr_fields .points o
  generalize clone m o = p at h hs
  rcases p with ⟨r, m1, o1⟩
  simp only at hs
  rcases r with e | c0
  · simp at h
  · simp only [passInternal_keep (p := Pass.detach) (m := m1) (s := o1) fun _ _ => rfl, Except.ok.injEq] at h
    subst h
    rw [← hs] at f1 f2 f3
    exact ⟨fun X r hX => by simp [f1, hX], fun r hr => by simp [f2, hr], f3⟩

/-- **`to` the object's own device, written as a string or as "cuda" without a number, does not copy them either – whether or not a copy is
asked for.** -/
theorem to_shares (cur : Nat) (a : DevArg) (copy : Bool) {m : Mem α} {o c : Obj} (ho : Ok m o) (hu : Uni m o) (ha : a.same o.dev = false)
    (hd : a.meant cur = o.dev) (h : (toDevice cur a copy m o).1 = .ok (.new c)) : SharesInternals o c := by
  unfold toDevice at h
  have hs := clone_self m o
  have hc := clone_sim ho
  obtain ⟨f1, f2, f3, f4, f5⟩ := hasAttr_fields .points o
  generalize clone m o = p at h hs hc
  generalize Pcs.clone (val m o) = q at hc
  rcases p with ⟨r, m1, o1⟩
  simp only at hs
  rw [← hs] at f1 f2 f3 f4 f5
  simp only [ha, Bool.and_false, Bool.false_eq_true, if_false] at h
  rcases r with e | c0
  · simp at h
  · have ok1 : Ok m1 o1 := hc.grows.ok ho
    have u1 : Uni m1 o1 := hc.grows.uni ho hu
    have okc : Ok m1 c0 := (hc.fresh c0 rfl).ok fun _ h => h.elim
    have ha' : a.same o1.dev = false := by rw [f5]; exact ha
    simp only [ha', Bool.false_eq_true, if_false, Except.ok.injEq, Moved.new.injEq] at h
    have e1 := each_ok (passList_passes (Pass.to (α := α) (a.meant cur))) m1 c0.lst fun X r hr => okc r (by
      obtain ⟨l, hl, v, hv, e⟩ := hr
      rw [← e]; exact holds_lst hl hv)
    have hk : ∀ r, Holds o1 r → (Pass.to (α := α) (a.meant cur)).keep ((each (passList (Pass.to (a.meant cur))) m1 c0.lst).1.cell r) = true := by
      intro r hr
      rw [e1.ext.cell r (ok1 r hr)]
      simp only [Pass.to, decide_eq_true_eq]
      rw [u1 r hr, f5, hd]
    rw [passInternal_keep hk] at h
    subst h
    exact ⟨fun X r hX => by simp [f1, hX], fun r hr => by simp [f2, hr], f3⟩

/-- The constructor does not copy either (if no other device is asked for): the object consists of the caller's tensors. -/
theorem tensor_shares {m m' : Mem α} {arg : Attr → Option Nat} {P : Nat} {c : Obj}
    (hd : ∀ X r, arg X = some r → (m.cell r).dev = (m.cell P).dev) (h : newTensor m arg P none = (.ok c, m')) : c.pad = arg := by
  unfold newTensor at h
  split at h
  · simp at h
  · simp only [Prod.mk.injEq, Except.ok.injEq, Option.getD_none] at h
    rw [each_keep fun X r e => by simp [Pass.to, hd X r e]] at h
    rw [← h.1]

/-- A constructor given lists of tensors that are all on the device of the first one uses these tensors. -/
theorem list_shares {m : Mem α} {arg : Attr → Option (List View)} {P : List View} {c : Obj} (hP : arg .points = some P)
    (hlt : ∀ r, argRefs listRefs arg r → r < m.next) (hd : ∀ r, argRefs listRefs arg r → (m.cell r).dev = (m.cell (P.headD ⟨0, 0, 0⟩).ref).dev)
    (h : (newList m arg P none).1 = .ok c) : ∀ X l, c.lst X = some l → ∀ v ∈ l, argRefs listRefs arg v.ref := by
  unfold newList at h
  split at h
  · simp at h
  · simp only [Except.ok.injEq, Option.getD_none] at h
    subst h
    intro X l hl v hv
    have e := (each_ok (passList_passes (Pass.to (α := α) (m.cell (P.headD ⟨0, 0, 0⟩).ref).dev)) m arg fun X r hr => hlt r ⟨X, hr⟩).each X
    rcases e.own v.ref ⟨l, hl, v, hv, rfl⟩ with ⟨k, _⟩ | ⟨_, _, q, k1, k2, _⟩
    · exact ⟨X, k⟩
    · simp [Pass.to, hd q ⟨X, k1⟩] at k2

theorem getitem_shape {idx : Index} {m : Mem α} {o c : Obj} (h : (getitem idx m o).1 = .ok c) :
    ∃ P n k f, (∀ r, argRefs listRefs (four (some P) n k f) r → Holds o r) ∧ (newList m (four (some P) n k f) P none).1 = .ok c := by
  unfold getitem at h
  have k0 := fun r => has_self .points o r
  generalize hasAttr .points o = p at h k0
  rcases p with ⟨b, o0⟩
  rcases b with _ | _
  · simp at h
  simp only [Bool.not_true, Bool.false_eq_true, if_false] at h
  have s1 := (selectAttr_sim idx .points m o0).2.2
  have k1 := fun r => selectAttr_self idx .points m o0 r
  generalize selectAttr idx .points m o0 = p at h k1 s1
  rcases p with ⟨p, o1⟩
  rcases p with e | p
  · simp at h
  simp only at h
  have s2 := (selectAttr_sim idx .normals m o1).2.2
  have k2 := fun r => selectAttr_self idx .normals m o1 r
  generalize selectAttr idx .normals m o1 = p at h k2 s2
  rcases p with ⟨n, o2⟩
  rcases n with e | n
  · simp at h
  simp only at h
  have s3 := (selectAttr_sim idx .colors m o2).2.2
  have k3 := fun r => selectAttr_self idx .colors m o2 r
  generalize selectAttr idx .colors m o2 = p at h k3 s3
  rcases p with ⟨k, o3⟩
  rcases k with e | k
  · simp at h
  simp only at h
  have s4 := (selectAttr_sim idx .features m o3).2.2
  generalize selectAttr idx .features m o3 = p at h s4
  rcases p with ⟨f, o4⟩
  rcases f with e | f
  · simp at h
  simp only at h
  rcases p with _ | P
  · unfold newList at h
    simp [Pcs.newList] at h
  · refine ⟨P, n, k, f, ?_, h⟩
    rintro r ⟨X, hX⟩
    cases X with
    | points => exact k0 r (s1 _ rfl r hX)
    | normals => exact k0 r (k1 r (s2 n rfl r hX))
    | colors => exact k0 r (k1 r (k2 r (s3 k rfl r hX)))
    | features => exact k0 r (k1 r (k2 r (k3 r (s4 f rfl r hX))))

/-- **Indexing does not copy**: every point, normal, color and feature of `pcs[idx]` is stored in a tensor of `pcs`. -/
theorem getitem_shares {idx : Index} {m : Mem α} {o c : Obj} (ho : Ok m o) (hu : Uni m o) (h : (getitem idx m o).1 = .ok c) :
    ∀ X l, c.lst X = some l → ∀ v ∈ l, Holds o v.ref := by
  obtain ⟨P, n, k, f, hr, hc⟩ := getitem_shape h
  have hne : P ≠ [] := by
    rintro rfl
    unfold newList at hc
    simp [Pcs.newList] at hc
  obtain ⟨v0, P', rfl⟩ := List.exists_cons_of_ne_nil hne
  intro X l hl v hv
  refine hr _ (list_shares rfl (fun r h => ho r (hr r h)) (fun r h => ?_) hc X l hl v hv)
  rw [hu r (hr r h)]
  exact (hu _ (hr _ ⟨.points, _, rfl, v0, by simp, rfl⟩)).symm
end

/-! ### Devices -/
section
variable {α : Type*} [Field α] [LinearOrder α]

/-- **Every tensor of an object is on the device the object says it is on**, in every state a program can reach. -/
theorem device_honest {w : World α} (hw : Reach w) {f : Nat} {o : Obj} (h : (f, o) ∈ w.objs) {r : Nat} (hr : Holds o r) :
    (w.mem.cell r).dev = o.dev := by
  obtain ⟨owner, hI⟩ := reach_inv hw
  exact hI.uni f o h r hr

/-- **`to(device, copy)`** in every reachable state: it returns the object itself exactly if no copy is asked for and the device is given as
the very `torch.device` the object is on; otherwise, unless the copying itself fails (`Pcs.clone`), it returns a new object on the requested
device, all of whose tensors are on this device, with the values of the copy. -/
theorem to_device {w : World α} (hw : Reach w) {i f : Nat} {o : Obj} (hi : w.objs[i]? = some (f, o)) (cur : Nat) (a : DevArg) (copy : Bool) :
    ((toDevice cur a copy w.mem o).1 = .ok .self ↔ copy = false ∧ a = .exact o.dev) ∧
    ∀ c, (toDevice cur a copy w.mem o).1 = .ok (.new c) →
      c.dev = a.meant cur ∧ (∀ r, Holds c r → ((toDevice cur a copy w.mem o).2.1.cell r).dev = a.meant cur) ∧
      ((Pcs.clone (val w.mem o)).1 = .ok (val (toDevice cur a copy w.mem o).2.1 c) ∨
        (recopy (val w.mem o)).1 = .ok (val (toDevice cur a copy w.mem o).2.1 c)) := by
  obtain ⟨owner, hI⟩ := reach_inv hw
  have hu := hI.uni f o (List.mem_of_getElem? hi)
  have hsame : a.same o.dev = true ↔ a = .exact o.dev := by
    rcases a with d | d | _ | _ <;> simp [DevArg.same, eq_comm]
  rw [← hsame]
  rcases to_sim cur a copy (hI.ok hi) with ⟨k1, k2⟩ | ⟨k, _, _⟩
  · refine ⟨⟨fun _ => k1, fun _ => by rw [k2]⟩, fun c hc => ?_⟩
    rw [k2] at hc; simp at hc
  · rcases k with ⟨k0, e, _, k⟩ | ⟨c', k, mv, k1, k2⟩
    · refine ⟨⟨fun h => by rw [k] at h; simp at h, fun h => absurd h k0⟩, fun c hc => ?_⟩
      rw [k] at hc; simp at hc
    · refine ⟨⟨fun h => by rw [k] at h; simp at h, fun h => ?_⟩, fun c hc => ?_⟩
      · unfold toDevice at k
        simp [h.1, h.2] at k
      · rw [k] at hc
        simp only [Except.ok.injEq, Moved.new.injEq] at hc
        subst hc
        refine ⟨mv.dev hu, fun r hr => by rw [mv.uni hu r hr, mv.dev hu], ?_⟩
        rcases hb : a.same o.dev with _ | _
        · exact .inr (k2 hb)
        · exact .inl (k1 hb)

/-- **What the device argument means**: `to(torch.device("cuda", i))`, `to("cuda:i")`, `to("cpu")` give an object on exactly the device named; a
"cuda" without an index, as a `torch.device` or as a string, gives one on the current GPU. -/
theorem to_named {w : World α} (hw : Reach w) {i f : Nat} {o c : Obj} (hi : w.objs[i]? = some (f, o)) (cur : Nat) (copy : Bool) (d : Dev) :
    ((toDevice cur (.exact d) copy w.mem o).1 = .ok (.new c) → c.dev = d) ∧
    ((toDevice cur (.name d) copy w.mem o).1 = .ok (.new c) → c.dev = d) ∧
    ((toDevice cur .anyGpu copy w.mem o).1 = .ok (.new c) → c.dev = .gpu cur) ∧
    ((toDevice cur .anyGpuName copy w.mem o).1 = .ok (.new c) → c.dev = .gpu cur) :=
  ⟨fun h => ((to_device hw hi cur _ copy).2 c h).1, fun h => ((to_device hw hi cur _ copy).2 c h).1,
    fun h => ((to_device hw hi cur _ copy).2 c h).1, fun h => ((to_device hw hi cur _ copy).2 c h).1⟩
end
end Verif.Mem
