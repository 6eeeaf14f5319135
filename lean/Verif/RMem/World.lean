import Verif.RMem.SlamFwd
import Mathlib.Logic.Relation
/-!
A program using `RGBDImages`: memory, the objects made so far, the tensors the caller has a hand on, and everything that can happen to
them: the constructor, getters, setters, copies, indexing, changes of layout and of device, and writes of the caller into tensors it holds.

Every object and every tensor carries a number, its *family*, as in `Verif.Mem.World`: the members of a family were obtained from each other
without a copy.  Unlike `Pointclouds`, whose setters copy, `RGBDImages` keeps the very tensors it is given.
-/
namespace Verif.RMem
open Verif
set_option linter.unusedSectionVars false

section
variable {α : Type*} [Field α] [LinearOrder α]

/-- The state of a program. -/
structure World (α : Type*) where
  mem : Mem α
  /-- the objects, with their families -/
  objs : List (Nat × Obj)
  /-- the storages of the tensors the caller holds, with their families -/
  held : List (Nat × Nat)

/-- The methods that change an object in place (getters cache what they compute), and what they are on values. -/
inductive Method : (Mem α → Obj → Mem α × Obj) → (Rgbd.Obj α → Rgbd.Obj α) → Prop
  | valid : Method (fun m o => (getValid m o).2) (fun s => (Rgbd.getValid s).2)
  | vertex (eps : α) : Method (fun m o => (getVertex eps m o).2) (fun s => (Rgbd.getVertex eps s).2)
  | gvertex (eps : α) : Method (fun m o => (getGVertex eps m o).2) (fun s => (Rgbd.getGVertex eps s).2)
  | normal (nrm : V3 α → α) (eps : α) : Method (fun m o => (getNormal nrm eps m o).2) (fun s => (Rgbd.getNormal nrm eps s).2)
  | gnormal (nrm : V3 α → α) (eps : α) : Method (fun m o => (getGNormal nrm eps m o).2) (fun s => (Rgbd.getGNormal nrm eps s).2)
  | last (ctg : View → Bool) : Method (toLast_ ctg) Rgbd.toLast_
  | first (ctg : View → Bool) : Method (toFirst_ ctg) Rgbd.toFirst_

/-- The setters, with the tensor given, and what they are on values. -/
inductive Setter : Option View → (Mem α → Obj → Except Rgbd.Err Unit × Obj) → (Mem α → Rgbd.Obj α → Except Rgbd.Err Unit × Rgbd.Obj α) → Prop
  | rgb (v : View) : Setter (some v) (setRgb v) (fun m => Rgbd.setRgb (m.read v).img)
  | depth (v : View) : Setter (some v) (setDepth v) (fun m => Rgbd.setDepth (m.read v).img)
  | intrinsics (v : View) : Setter (some v) (setK v) (fun m => Rgbd.setK (m.read v).mat)
  | poses (v : Option View) : Setter v (setPoses v) (fun m => Rgbd.setPoses (v.map fun v => (m.read v).mat))

/-- Copies in the other layout. -/
inductive Relaid : (Mem α → Obj → Except Rgbd.Err Moved × Mem α) → (Rgbd.Obj α → Rgbd.Obj α) → Prop
  | last (ctg : View → Bool) (copy : Bool) : Relaid (toLast ctg copy) Rgbd.toLast_
  | first (ctg : View → Bool) (copy : Bool) : Relaid (toFirst ctg copy) Rgbd.toFirst_

/-- What happens: the caller writes into a tensor of family `f`, or calls a function; `is` are the numbers of the objects the call is
given, `ts` the storages of the tensors it is given. -/
inductive Ev
  | write (f : Nat)
  | call (is ts : List Nat)

/-- The storage of an optional tensor. -/
def refs (v : Option View) : List Nat := v.toList.map View.ref

/-- The previous frame of a SLAM step, and its poses. -/
def prevObj (prev : Option (Nat × Nat × Obj)) : Option Obj := prev.map (·.2.2)

def prevPoses (prev : Option (Nat × Nat × Obj)) : Option View := (prevObj prev).bind (·.opt .poses)

/-- The storages of the constructor's arguments. -/
def Args.list (a : Args) : List Nat := [a.rgb.ref, a.depth.ref, a.K.ref] ++ refs a.poses ++ refs a.pix

/-- One thing happening. -/
inductive Step : World α → Ev → World α → Prop
  /-- the caller makes a tensor -/
  | tensor (w : World α) (f : Nat) (c : Cell α) :
    Step w (.call [] []) ⟨w.mem.alloc 1 fun _ => c, w.objs, w.held ++ [(f, w.mem.next)]⟩
  /-- the caller gets hold of a tensor of an object (of what a getter returned, say) -/
  | grab (w : World α) (i f : Nat) (o : Obj) (r : Nat) (hi : w.objs[i]? = some (f, o)) (hr : Holds o r) :
    Step w (.call [i] []) ⟨w.mem, w.objs, w.held ++ [(f, r)]⟩
  /-- the caller writes into a tensor -/
  | write (w : World α) (f r : Nat) (c : Cont α) (hr : (f, r) ∈ w.held) : Step w (.write f) ⟨w.mem.poke r c, w.objs, w.held⟩
  /-- `RGBDImages(rgb, depth, …)` from tensors of one family -/
  | new (w : World α) (f : Nat) (a : Args) (cf : Bool) (d : Option Dev) (m' : Mem α) (c : Obj) (ha : ∀ r ∈ a.list, (f, r) ∈ w.held)
      (h : new w.mem a cf d = (.ok c, m')) : Step w (.call [] a.list) ⟨m', w.objs ++ [(f, c)], w.held⟩
  /-- a getter or a change of layout in place, successful or not -/
  | method (w : World α) (i f : Nat) (o : Obj) (op vop) (hi : w.objs[i]? = some (f, o)) (h : Method op vop) :
    Step w (.call [i] []) ⟨(op w.mem o).1, w.objs.set i (f, (op w.mem o).2), w.held⟩
  /-- a setter, accepted or refused, with a tensor of the same family -/
  | assign (w : World α) (i f : Nat) (o : Obj) (v : Option View) (op vop) (hi : w.objs[i]? = some (f, o)) (h : Setter v op vop)
      (hv : ∀ r ∈ refs v, (f, r) ∈ w.held) : Step w (.call [i] (refs v)) ⟨w.mem, w.objs.set i (f, (op w.mem o).2), w.held⟩
  /-- `clone()`: the copy may belong to any family -/
  | clone (w : World α) (i f g : Nat) (o c : Obj) (m' : Mem α) (hi : w.objs[i]? = some (f, o)) (h : clone w.mem o = (.ok c, m')) :
    Step w (.call [i] []) ⟨m', w.objs ++ [(g, c)], w.held⟩
  /-- `detach()`: the result belongs to the family of the object -/
  | detach (w : World α) (i f : Nat) (o c : Obj) (m' : Mem α) (hi : w.objs[i]? = some (f, o)) (h : detach w.mem o = (.ok c, m')) :
    Step w (.call [i] []) ⟨m', w.objs ++ [(f, c)], w.held⟩
  /-- `o[idx]`: the result belongs to the family of the object, unless the first entry of the index is a list -/
  | getitem (w : World α) (i f g : Nat) (o c : Obj) (m' : Mem α) (idx : Rgbd.Index) (hi : w.objs[i]? = some (f, o))
      (h : getitem idx w.mem o = (.ok c, m')) (hg : g = f ∨ ∃ a b, Rgbd.twoIx idx = .ok (a, b) ∧ isList a = true) :
    Step w (.call [i] []) ⟨m', w.objs ++ [(g, c)], w.held⟩
  /-- `to(device, copy)` returning a new object: any family if none of the object's tensors is on the device -/
  | moved (w : World α) (cur : Nat) (a : DevArg) (copy : Bool) (i f g : Nat) (o c : Obj) (m' : Mem α) (hi : w.objs[i]? = some (f, o))
      (h : toDevice cur a copy w.mem o = (.ok (.new c), m')) (hg : g = f ∨ ∀ r, Holds o r → (w.mem.cell r).dev ≠ a.meant cur) :
    Step w (.call [i] []) ⟨m', w.objs ++ [(g, c)], w.held⟩
  /-- `to_channels_first(copy)`, `to_channels_last(copy)` returning a new object: any family -/
  | relaid (w : World α) (i f g : Nat) (o c : Obj) (m' : Mem α) (op vop) (hi : w.objs[i]? = some (f, o)) (hop : Relaid op vop)
      (h : op w.mem o = (.ok (.new c), m')) : Step w (.call [i] []) ⟨m', w.objs ++ [(g, c)], w.held⟩
  /-- one of these raises: nothing but memory is left behind -/
  | raises (w : World α) (i f : Nat) (o : Obj) (m' : Mem α) (hi : w.objs[i]? = some (f, o))
      (h : (∃ e, clone w.mem o = (.error e, m')) ∨ (∃ e idx, getitem idx w.mem o = (.error e, m')) ∨ (∃ e, detach w.mem o = (.error e, m')) ∨
        (∃ e cur a copy, toDevice cur a copy w.mem o = (.error e, m')) ∨ ∃ e op vop, Relaid op vop ∧ op w.mem o = (.error e, m')) :
    Step w (.call [i] []) ⟨m', w.objs, w.held⟩
  /-- `slam.step(pointclouds, live, prev, inplace)`, successful or not; if it raises, the live frame may be left with the poses of the previous
  frame, so the two then have to be of one family -/
  | slam (w : World α) (i f : Nat) (live : Obj) (prev : Option (Nat × Nat × Obj)) [FloorRing α] (S : Slam.Sys α) (ctg : View → Bool) (pc : Pcs.PC α)
      (inplace : Bool) (hi : w.objs[i]? = some (f, live)) (hp : ∀ j g p, prev = some (j, g, p) → w.objs[j]? = some (g, p) ∧ j ≠ i)
      (hf : (∃ x, (slamStep S ctg pc w.mem live (prevObj prev) inplace).1 = .ok x) ∨ ∀ j g p, prev = some (j, g, p) → g = f) :
    Step w (.call [i] (refs (prevPoses prev))) ⟨(slamStep S ctg pc w.mem live (prevObj prev) inplace).2.2.1,
      w.objs.set i (f, (slamStep S ctg pc w.mem live (prevObj prev) inplace).2.2.2), w.held⟩
  /-- `slam(frames)`: the caller gets the poses; they may belong to any family -/
  | forward (w : World α) (i f g : Nat) (o : Obj) [FloorRing α] (S : Slam.Sys α) (ctg : View → Bool) (d : Dev) (pc : Pcs.PC α) (T : View) (m' : Mem α)
      (hi : w.objs[i]? = some (f, o)) (h : forward S ctg d w.mem o = .ok (pc, T, m')) :
    Step w (.call [i] []) ⟨m', w.objs, w.held ++ [(g, T.ref)]⟩

/-- A world that a program can reach. -/
inductive Reach : World α → Prop
  | start (m : Mem α) (h : m.next = 0) : Reach ⟨m, [], []⟩
  | step {w w' : World α} {e : Ev} (h : Reach w) (s : Step w e w') : Reach w'

/-! ### Lemmas about single steps -/

theorem Method.grows {op : Mem α → Obj → Mem α × Obj} {vop : Rgbd.Obj α → Rgbd.Obj α} (h : Method op vop) {m : Mem α} {o : Obj} (ho : Ok m o) :
    Grows m o (op m o).1 (op m o).2 := by
  rcases h with _ | eps | eps | ⟨nrm, eps⟩ | ⟨nrm, eps⟩ | ctg | ctg
  · exact getValid_grows m o
  · exact getVertex_grows eps m o
  · exact getGVertex_grows eps m o
  · exact getNormal_grows nrm eps m o
  · exact getGNormal_grows nrm eps m o
  · exact (toLast__sim ctg ho).1
  · exact (toFirst__sim ctg ho).1

theorem Method.val {op : Mem α → Obj → Mem α × Obj} {vop : Rgbd.Obj α → Rgbd.Obj α} (h : Method op vop) {m : Mem α} {o : Obj} (ho : Ok m o)
    (hu : Uni m o) : vop (val m o) = val (op m o).1 (op m o).2 := by
  rcases h with _ | eps | eps | ⟨nrm, eps⟩ | ⟨nrm, eps⟩ | ctg | ctg
  · exact congrArg Prod.snd (getValid_val ho).1
  · exact congrArg Prod.snd (getVertex_val eps ho hu)
  · exact congrArg Prod.snd (getGVertex_val eps ho hu)
  · exact congrArg Prod.snd (getNormal_val nrm eps ho hu)
  · exact congrArg Prod.snd (getGNormal_val nrm eps ho hu)
  · exact (toLast__sim ctg ho).2.symm
  · exact (toFirst__sim ctg ho).2.symm

theorem Setter.sim {v : Option View} {op : Mem α → Obj → Except Rgbd.Err Unit × Obj} {vop} (h : Setter v op vop) (m : Mem α) (o : Obj) :
    Sets m o v (op m o).2 ∧ vop m (val m o) = ((op m o).1, val m (op m o).2) := by
  rcases h with v | v | v | v
  · exact setRgb_sim v m o
  · exact setDepth_sim v m o
  · exact setK_sim v m o
  · exact setPoses_sim v m o

theorem Relaid.sim {op : Mem α → Obj → Except Rgbd.Err Moved × Mem α} {vop : Rgbd.Obj α → Rgbd.Obj α} (h : Relaid op vop) {m : Mem α} {o : Obj} (ho : Ok m o) :
    (op m o = (.ok .self, m)) ∨ (Ext m (op m o).2 ∧
    ((∃ e, Rgbd.clone (RMem.val m o) = .error e ∧ (op m o).1 = .error e) ∨
     (¬Together m o.base ∧ (∃ s, Rgbd.clone (RMem.val m o) = .ok s) ∧ (op m o).1 = .error .valueError) ∨
     (Together m o.base ∧ ∃ c s, (op m o).1 = .ok (.new c) ∧ Rgbd.clone (RMem.val m o) = .ok s ∧ RMem.val (op m o).2 c = vop s ∧
       c.dev = m.dev (o.base .rgb) ∧ (Uni m o → Uni (op m o).2 c) ∧ ∀ r, Holds c r → m.next ≤ r ∧ r < (op m o).2.next))) := by
  rcases h with ⟨ctg, copy⟩ | ⟨ctg, copy⟩
  · unfold toLast
    split_ifs
    · exact .inl rfl
    · exact .inr (cloneThen_sim (fun m o h => toLast__sim ctg h) ho)
  · unfold toFirst
    split_ifs
    · exact .inl rfl
    · exact .inr (cloneThen_sim (fun m o h => toFirst__sim ctg h) ho)

theorem mem_refs {v : Option View} {r : Nat} : r ∈ refs v ↔ ∃ w, v = some w ∧ w.ref = r := by
  rcases v with _ | v <;> simp [refs, eq_comm]

theorem Args.mem_list (a : Args) (r : Nat) : r ∈ a.list ↔ a.Refs r := by
  simp only [Args.list, Args.Refs, List.mem_append, List.mem_cons, List.not_mem_nil, or_false, mem_refs]
  constructor
  · rintro (((h | h | h) | ⟨v, h, k⟩) | ⟨v, h, k⟩)
    · exact .inl ⟨.rgb, h.symm⟩
    · exact .inl ⟨.depth, h.symm⟩
    · exact .inl ⟨.intrinsics, h.symm⟩
    · exact .inr ⟨.poses, v, h, k⟩
    · exact .inr ⟨.pix, v, h, k⟩
  · rintro (⟨b, h⟩ | ⟨x, v, h, k⟩)
    · rcases b with _ | _ | _
      · exact .inl (.inl (.inl h.symm))
      · exact .inl (.inl (.inr (.inl h.symm)))
      · exact .inl (.inl (.inr (.inr h.symm)))
    · rcases x with _ | _ | _ | _ | _ | _
      · exact .inl (.inr ⟨v, h, k⟩)
      · exact .inr ⟨v, h, k⟩
      all_goals simp [Args.opt] at h

/-! ### What the calls that make objects do -/

theorem new_makes {m m' : Mem α} {a : Args} {cf : Bool} {d : Option Dev} {c : Obj} (ha : ∀ r ∈ a.list, r < m.next)
    (h : new m a cf d = (.ok c, m')) :
    Makes m (· ∈ a.list) True m' c ∧ newVal m a cf = .ok (val m' c) ∧ c.dev = d.getD (m.dev a.rgb) := by
  rcases new_sim cf d (fun r hr => ha r ((a.mem_list r).2 hr)) with ⟨e, _, k⟩ | ⟨_, _, k⟩ | ⟨_, s, c', m1, h1, k, h2, h3, h4⟩
  · rw [h] at k; simp at k
  · rw [h] at k; simp at k
  · rw [h] at k
    simp only [Prod.mk.injEq, Except.ok.injEq] at k
    obtain ⟨rfl, rfl⟩ := k
    refine ⟨⟨h4.ext, fun r hr => ?_, fun _ r hr => ?_⟩, by rw [h1, h2], h3⟩
    · rcases h4.own (fun _ => stays_to _) (fun _ => stays_to _) r hr with k | k
      · exact .inl ((a.mem_list r).2 ((of_holds _ _ _ _ r).1 (kept_holds k)))
      · exact .inr k
    · rcases hr with ⟨b, rfl⟩ | ⟨x, v, hx, rfl⟩ | ⟨v, hv, _⟩
      · exact (h4.base b).to_dev
      · obtain ⟨w, _, k⟩ := h4.opt_of hx
        exact k.to_dev
      · rw [h4.valid] at hv; simp at hv

theorem relaid_makes {m m' : Mem α} {o c : Obj} {op vop} (hop : Relaid op vop) (ho : Ok m o) (h : op m o = (.ok (.new c), m')) :
    Makes m (fun _ => False) (Uni m o) m' c ∧ ∃ s, Rgbd.clone (val m o) = .ok s ∧ val m' c = vop s := by
  rcases hop.sim ho with k | ⟨e, ⟨_, _, k⟩ | ⟨_, _, k⟩ | ⟨_, c', s, k, h1, h2, h3, h4, h5⟩⟩
  · rw [h] at k; simp at k
  · rw [h] at k; simp at k
  · rw [h] at k; simp at k
  · rw [h] at k e h2 h4 h5
    simp only [Except.ok.injEq, Moved.new.injEq] at k
    subst k
    exact ⟨⟨e, fun r hr => .inr (h5 r hr), h4⟩, s, h1, h2⟩

theorem raises_ext {m m' : Mem α} {o : Obj} (ho : Ok m o)
    (h : (∃ e, clone m o = (.error e, m')) ∨ (∃ e idx, getitem idx m o = (.error e, m')) ∨ (∃ e, detach m o = (.error e, m')) ∨
        (∃ e cur a copy, toDevice cur a copy m o = (.error e, m')) ∨ ∃ e op vop, Relaid op vop ∧ op m o = (.error e, m')) : Ext m m' := by
  rcases h with ⟨e, h⟩ | ⟨e, idx, h⟩ | ⟨e, h⟩ | ⟨e, cur, a, copy, h⟩ | ⟨e, op, vop, hop, h⟩
  · have := (clone_sim ho).1; rw [h] at this; exact this
  · rcases getitem_sim idx ho with ⟨_, _, k⟩ | ⟨_, _, _, _, _, _, _, k, _⟩
    · rw [h] at k
      simp only [Prod.mk.injEq] at k
      rw [k.2]; exact .rfl
    · have := k.1; rw [h] at this; exact this
  · have := (detach_sim ho).1.1; rw [h] at this; exact this
  · rcases to_sim cur a copy ho with ⟨_, _, k⟩ | ⟨_, r, k1, k2, _⟩
    · rw [k] at h; simp at h
    · have := k1.1
      rw [h] at k2
      simp only [Prod.mk.injEq] at k2
      rw [← k2.2] at this
      exact this
  · rcases hop.sim ho with k | ⟨k, _⟩
    · rw [k] at h; simp at h
    · rw [h] at k; exact k
end
end Verif.RMem
