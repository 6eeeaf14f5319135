import Verif.Mem.MapSim2
import Mathlib.Logic.Relation
/-!
A program using `Pointclouds`: memory, the objects made so far and the tensors the caller has a hand on, and everything that can
happen to them: constructors, getters, setters, geometric operations, copies, indexing, appending, mapping and SLAM steps (the object being
the map), and writes of the caller into tensors it holds.

Every object and every tensor carries a number, its *family*.  Families only do bookkeeping (no method looks at them): the members of a family
are the objects and tensors that were obtained from each other without a copy being documented.  What is obtained by `clone`, by an
out-of-place operation or by `to` another device may be given any family, in particular a new one.
-/
namespace Verif.Mem
open Verif Verif.Pcs
set_option linter.unusedSectionVars false

section
variable {α : Type*} [Field α] [LinearOrder α]

/-- The state of a program. -/
structure World (α : Type*) where
  mem : Mem α
  /-- the objects, with their families -/
  objs : List (Nat × Obj)
  /-- the storages of the tensors the caller holds, with their families -/
  held : List (Nat × Nat)

/-- The methods that change an object in place, and what they are on values. -/
inductive Method : (Mem α → Obj → Mem α × Obj) → (PC α → PC α) → Prop
  /-- `has_points`, … -/
  | has (X : Attr) : Method (fun m o => (m, (hasAttr X o).2)) (fun s => (Pcs.hasAttr X s).2)
  /-- `num_features` -/
  | width : Method (fun m o => (m, (numFeatures m o).2)) (fun s => (Pcs.numFeatures s).2)
  /-- `points_list`, … -/
  | lst (X : Attr) : Method (fun m o => (m, (getList X m o).2)) (fun s => (Pcs.getList X s).2)
  /-- `points_padded`, … -/
  | pad (X : Attr) : Method (fun m o => (getPad X m o).2) (fun s => (Pcs.getPad X s).2)
  /-- `nonpad_mask` -/
  | mask : Method (fun m o => (getMask m o).2) (fun s => (Pcs.getMask s).2)
  | offset (f : Nat → Nat → Nat → α) : Method (fun m o => (offset_ f m o).2) (fun s => (Pcs.offset_ f s).2)
  | scale (f : Nat → Nat → Nat → α) : Method (fun m o => (scale_ f m o).2) (fun s => (Pcs.scale_ f s).2)
  | rotate (R : Operand (M3 α)) (pre : Bool) : Method (fun m o => (rotate_ R pre m o).2) (fun s => (Pcs.rotate_ R pre s).2)
  | transform (T : Operand (M4 α)) (pre : Bool) : Method (fun m o => (transform_ T pre m o).2) (fun s => (Pcs.transform_ T pre s).2)
  | project (K : Operand (M4 α)) : Method (fun m o => (pinholeProjection_ K m o).2) (fun s => (Pcs.pinholeProjection_ K s).2)

/-- The geometric operations that exist out of place too, pointclouds.py:300-397. -/
inductive Geometric : (Mem α → Obj → Except Err Unit × Mem α × Obj) → (PC α → Except Err Unit × PC α) → Prop
  | offset (f : Nat → Nat → Nat → α) : Geometric (offset_ f) (Pcs.offset_ f)
  | scale (f : Nat → Nat → Nat → α) : Geometric (scale_ f) (Pcs.scale_ f)
  | rotate (R : Operand (M3 α)) (pre : Bool) : Geometric (rotate_ R pre) (Pcs.rotate_ R pre)
  | transform (T : Operand (M4 α)) (pre : Bool) : Geometric (transform_ T pre) (Pcs.transform_ T pre)
  | project (K : Operand (M4 α)) : Geometric (pinholeProjection_ K) (Pcs.pinholeProjection_ K)

/-- What a function that returns a map did: `none` if it raised. -/
def outcome {ε β γ : Type*} (r : Except ε β × γ) : Option β × γ := (r.1.toOption, r.2)

/-- The functions that are given a map, update it in place or not, and return a map: `update_map_aggregate` (fusionutils.py:725-758),
`update_map_fusion` (:761-789) and `step` (icpslam.py:140-178, of ICPSLAM and PointFusion, with any odometry), and what they are on
values.  Frames are values (see `Verif.Mem.Map`). -/
inductive Mapping : Bool → (Mem α → Obj → Option Moved × Mem α × Obj) → (PC α → Option (PC α) × PC α) → Prop
  | aggregate (fr : Fusion.Frame α) (inplace : Bool) :
    Mapping inplace (fun m o => outcome (updateMapAggregate m o fr inplace)) (fun s => outcome (Fusion.updateMapAggregate s fr inplace))
  | fusion [FloorRing α] (nrm al : V3 α → α) (fr : Fusion.Raw α) (distTh dotTh : α) (inplace : Bool) :
    Mapping inplace (fun m o => outcome (updateMapFusion nrm al m o fr distTh dotTh inplace))
      (fun s => outcome (Fusion.updateMapFusionRaw nrm al s fr distTh dotTh inplace))
  | step [FloorRing α] (S : Slam.Sys α) (live : Rgbd.Obj α) (prev : Option (Rgbd.Obj α)) (inplace : Bool) :
    Mapping inplace (fun m o => outcome (mapPart Prod.fst (slamStep S m o live prev inplace)))
      (fun s => outcome ((Slam.step S s live prev inplace).1.map Prod.fst, (Slam.step S s live prev inplace).2.1))

/-- `pcs.append_points(pcs)`, pointclouds.py:1117-1237 with both names for the same object: the object is the one `append` returns as
`self`, except that without points `append` returns at once. -/
def appendSelf (m : Mem α) (o : Obj) : Except Err Unit × Mem α × Obj :=
  if (hasAttr .points o).1 then ((append m o o).1, (append m o o).2.1, (append m o o).2.2.1) else (.ok (), m, (hasAttr .points o).2)

/-- What happens: the caller writes into a tensor of family `f`, or calls a function; `is` are the numbers of the objects the call is
given (as `self` or as argument). -/
inductive Ev
  | write (f : Nat)
  | call (is : List Nat)

/-- The caller holds (a view of) the storage. -/
def Has (w : World α) (r : Nat) : Prop := ∃ f, (f, r) ∈ w.held

/-- One thing happening. -/
inductive Step : World α → Ev → World α → Prop
  /-- the caller makes a tensor -/
  | tensor (w : World α) (f : Nat) (c : Cell α) :
    Step w (.call []) ⟨w.mem.alloc 1 fun _ => c, w.objs, w.held ++ [(f, w.mem.next)]⟩
  /-- the caller gets hold of a tensor of an object (of what a getter returned, say) -/
  | grab (w : World α) (i f : Nat) (o : Obj) (r : Nat) (hi : w.objs[i]? = some (f, o)) (hr : Holds o r) :
    Step w (.call [i]) ⟨w.mem, w.objs, w.held ++ [(f, r)]⟩
  /-- the caller writes into a tensor -/
  | write (w : World α) (f r : Nat) (c : Cell α) (hr : (f, r) ∈ w.held) : Step w (.write f) ⟨w.mem.poke r c, w.objs, w.held⟩
  /-- `Pointclouds(device=d)` -/
  | empty (w : World α) (f : Nat) (d : Dev) : Step w (.call []) ⟨(newEmpty w.mem d).1, w.objs ++ [(f, (newEmpty w.mem d).2)], w.held⟩
  /-- `Pointclouds(points=[…], …)` from tensors of one family -/
  | fromList (w : World α) (f : Nat) (arg : Attr → Option (List View)) (P : List View) (d : Option Dev) (m' : Mem α) (c : Obj)
      (hP : arg .points = some P) (ha : ∀ r, argRefs listRefs arg r → (f, r) ∈ w.held) (h : newList w.mem arg P d = (.ok c, m')) :
    Step w (.call []) ⟨m', w.objs ++ [(f, c)], w.held⟩
  /-- `Pointclouds(points=tensor, …)` -/
  | fromTensor (w : World α) (f : Nat) (arg : Attr → Option Nat) (P : Nat) (d : Option Dev) (m' : Mem α) (c : Obj)
      (hP : arg .points = some P) (ha : ∀ r, argRefs oneRefs arg r → (f, r) ∈ w.held) (h : newTensor w.mem arg P d = (.ok c, m')) :
    Step w (.call []) ⟨m', w.objs ++ [(f, c)], w.held⟩
  /-- a getter or an in-place operation, successful or not -/
  | method (w : World α) (i f : Nat) (o : Obj) (op : Mem α → Obj → Mem α × Obj) (vop : PC α → PC α) (hi : w.objs[i]? = some (f, o))
      (h : Method op vop) : Step w (.call [i]) ⟨(op w.mem o).1, w.objs.set i (f, (op w.mem o).2), w.held⟩
  /-- `X_list = ts` with tensors of any family -/
  | assignList (w : World α) (i f : Nat) (o : Obj) (X : Attr) (ts : List View) (hi : w.objs[i]? = some (f, o)) (ht : ∀ v ∈ ts, Has w v.ref) :
    Step w (.call [i]) ⟨(setList X ts w.mem o).2.1, w.objs.set i (f, (setList X ts w.mem o).2.2), w.held⟩
  /-- `X_padded = t` with a tensor of any family -/
  | assignPad (w : World α) (i f : Nat) (o : Obj) (X : Attr) (t : Nat) (hi : w.objs[i]? = some (f, o)) (ht : Has w t) :
    Step w (.call [i]) ⟨(setPad X t w.mem o).2.1, w.objs.set i (f, (setPad X t w.mem o).2.2), w.held⟩
  /-- `clone()`: the copy may belong to any family -/
  | clone (w : World α) (i f g : Nat) (o c : Obj) (hi : w.objs[i]? = some (f, o)) (h : (clone w.mem o).1 = .ok c) :
    Step w (.call [i]) ⟨(clone w.mem o).2.1, w.objs.set i (f, (clone w.mem o).2.2) ++ [(g, c)], w.held⟩
  /-- `pcs + f`, `pcs.rotate(…)`, …: the result may belong to any family -/
  | outOfPlace (w : World α) (i f g : Nat) (o c : Obj) (op vop) (hi : w.objs[i]? = some (f, o)) (hop : Geometric op vop)
      (h : (outOfPlace op w.mem o).1 = .ok c) :
    Step w (.call [i]) ⟨(outOfPlace op w.mem o).2.1, w.objs.set i (f, (outOfPlace op w.mem o).2.2) ++ [(g, c)], w.held⟩
  /-- `detach()`: the result belongs to the family of the object -/
  | detach (w : World α) (i f : Nat) (o c : Obj) (hi : w.objs[i]? = some (f, o)) (h : (detach w.mem o).1 = .ok c) :
    Step w (.call [i]) ⟨(detach w.mem o).2.1, w.objs.set i (f, (detach w.mem o).2.2) ++ [(f, c)], w.held⟩
  /-- `pcs[idx]`: the result belongs to the family of the object -/
  | getitem (w : World α) (i f : Nat) (o c : Obj) (idx : Index) (hi : w.objs[i]? = some (f, o)) (h : (getitem idx w.mem o).1 = .ok c) :
    Step w (.call [i]) ⟨(getitem idx w.mem o).2.1, w.objs.set i (f, (getitem idx w.mem o).2.2) ++ [(f, c)], w.held⟩
  /-- `to(device, copy)` returning a new object: any family if the device is another one, or if it is the object's device and given as such;
  the object's family if it is the object's device but written differently (a string, or "cuda" without number) -/
  | moved (w : World α) (cur : Nat) (a : DevArg) (copy : Bool) (i f g : Nat) (o c : Obj) (hi : w.objs[i]? = some (f, o))
      (h : (toDevice cur a copy w.mem o).1 = .ok (.new c)) (hg : g = f ∨ a.same o.dev = true ∨ a.meant cur ≠ o.dev) :
    Step w (.call [i]) ⟨(toDevice cur a copy w.mem o).2.1, w.objs.set i (f, (toDevice cur a copy w.mem o).2.2) ++ [(g, c)], w.held⟩
  /-- `pcs.append_points(other)`, accepted or refused -/
  | append (w : World α) (i j f g : Nat) (s o : Obj) (hij : i ≠ j) (hi : w.objs[i]? = some (f, s)) (hj : w.objs[j]? = some (g, o)) :
    Step w (.call [i, j]) ⟨(append w.mem s o).2.1,
      (w.objs.set i (f, (append w.mem s o).2.2.1)).set j (g, (append w.mem s o).2.2.2), w.held⟩
  /-- `pcs.append_points(pcs)` (see `appendSelf`) -/
  | appendSelf (w : World α) (i f : Nat) (o : Obj) (hi : w.objs[i]? = some (f, o)) :
    Step w (.call [i]) ⟨(appendSelf w.mem o).2.1, w.objs.set i (f, (appendSelf w.mem o).2.2), w.held⟩
  /-- a call that raises and leaves its object behind (constructors that raise leave nothing) -/
  | raises (w : World α) (i f : Nat) (o : Obj) (m' : Mem α) (o' : Obj) (hi : w.objs[i]? = some (f, o))
      (h : (∃ e, clone w.mem o = (.error e, m', o')) ∨ (∃ e idx, getitem idx w.mem o = (.error e, m', o')) ∨
        (∃ e, detach w.mem o = (.error e, m', o')) ∨ (∃ e cur a copy, toDevice cur a copy w.mem o = (.error e, m', o')) ∨
        ∃ e op vop, Geometric op vop ∧ outOfPlace op w.mem o = (.error e, m', o')) :
    Step w (.call [i]) ⟨m', w.objs.set i (f, o'), w.held⟩
  /-- a mapping function that updates the map in place, or raises -/
  | maps (w : World α) (i f : Nat) (o : Obj) (inplace : Bool) (op vop) (hi : w.objs[i]? = some (f, o)) (h : Mapping inplace op vop)
      (hn : (op w.mem o).1 = some .self ∨ (op w.mem o).1 = none) :
    Step w (.call [i]) ⟨(op w.mem o).2.1, w.objs.set i (f, (op w.mem o).2.2), w.held⟩
  /-- a mapping function that returns a new map: the new map may belong to any family -/
  | mapsNew (w : World α) (i f g : Nat) (o c : Obj) (inplace : Bool) (op vop) (hi : w.objs[i]? = some (f, o)) (h : Mapping inplace op vop)
      (hc : (op w.mem o).1 = some (.new c)) :
    Step w (.call [i]) ⟨(op w.mem o).2.1, w.objs.set i (f, (op w.mem o).2.2) ++ [(g, c)], w.held⟩

  /-- `forward` of a SLAM system on device `d`: the map belongs to any family (frames are values) -/
  | forward (w : World α) (f : Nat) [FloorRing α] (S : Slam.Sys α) (d : Dev) (frames : Rgbd.Obj α) (c : Obj) (T : Rgbd.TM α) (m' : Mem α)
      (h : forward S d w.mem frames = .ok (c, T, m')) : Step w (.call []) ⟨m', w.objs ++ [(f, c)], w.held⟩

/-- A world that a program can reach. -/
inductive Reach : World α → Prop
  | start (m : Mem α) (h : m.next = 0) : Reach ⟨m, [], []⟩
  | step {w w' : World α} {e : Ev} (h : Reach w) (s : Step w e w') : Reach w'

/-! ### Lemmas about single steps -/

theorem Method.sim {op : Mem α → Obj → Mem α × Obj} {vop : PC α → PC α} (h : Method op vop) {m : Mem α} {o : Obj} (ho : Ok m o) :
    vop (val m o) = val (op m o).1 (op m o).2 ∧ Grows m o (op m o).1 (op m o).2 := by
  rcases h with X | _ | X | X | _ | f | f | ⟨R, pre⟩ | ⟨T, pre⟩ | K
  · exact ⟨by simp only [hasAttr_sim], hasAttr_grows m X o⟩
  · exact ⟨by simp only [numFeatures_sim], numFeatures_grows m o⟩
  · exact ⟨by simp only [getList_sim], getList_grows X m o⟩
  · exact ⟨(getPad_sim X ho).val, (getPad_sim X ho).grows⟩
  · exact ⟨by simp only [getMask_sim m o ho], getMask_grows m o⟩
  · exact ⟨(offset_sim f ho).val, (offset_sim f ho).grows⟩
  · exact ⟨(scale_sim f ho).val, (scale_sim f ho).grows⟩
  · exact ⟨(rotate_sim R pre ho).val, (rotate_sim R pre ho).grows⟩
  · exact ⟨(transform_sim T pre ho).val, (transform_sim T pre ho).grows⟩
  · exact ⟨(projection_sim K ho).val, (projection_sim K ho).grows⟩

theorem Geometric.sim {op : Mem α → Obj → Except Err Unit × Mem α × Obj} {vop : PC α → Except Err Unit × PC α} (h : Geometric op vop)
    (m : Mem α) (o : Obj) (ho : Ok m o) : Sim m o plain (op m o) (vop (val m o)) := by
  rcases h with f | f | ⟨R, pre⟩ | ⟨T, pre⟩ | K
  · exact offset_sim f ho
  · exact scale_sim f ho
  · exact rotate_sim R pre ho
  · exact transform_sim T pre ho
  · exact projection_sim K ho

theorem toOption_some {ε β : Type*} {r : Except ε β} {b : β} (h : r.toOption = some b) : r = .ok b := by
  rcases r with e | x
  · cases h
  · cases h; rfl

theorem toOption_map {ε β γ : Type*} (f : β → γ) (r : Except ε β) : (r.map f).toOption = r.toOption.map f := by
  rcases r with e | x <;> rfl

/-- What is proved about a mapping function. -/
structure MapsTo (inplace : Bool) (m : Mem α) (o : Obj) (r : Option Moved × Mem α × Obj) (v : Option (PC α) × PC α) : Prop where
  out : v.1 = r.1.map (result r.2.1 r.2.2)
  val : v.2 = val r.2.1 r.2.2
  grows : Grows m o r.2.1 r.2.2
  kind : ∀ x, r.1 = some x → (x = .self ↔ inplace = true)
  fresh : ∀ c, r.1 = some (.new c) → Fresh m r.2.1 (fun _ => False) c ∧ ∀ q, Holds c q → ¬ Holds r.2.2 q
  uni : ∀ c, r.1 = some (.new c) → Uni r.2.1 c ∧ c.dev = o.dev

theorem Maps.forget {ε : Type*} {i : Bool} {m : Mem α} {o : Obj} {r : Except ε Moved × Mem α × Obj} {v : Except ε (PC α) × PC α}
    (h : Maps i m o r v) : MapsTo i m o (outcome r) (outcome v) :=
  ⟨by simp only [outcome]; rw [h.out, toOption_map], h.val, h.grows, fun x hx => h.kind x (toOption_some hx),
    fun c hc => h.fresh c (toOption_some hc), fun c hc => h.uni c (toOption_some hc)⟩

theorem Mapping.sim {inplace : Bool} {op : Mem α → Obj → Option Moved × Mem α × Obj} {vop : PC α → Option (PC α) × PC α} (h : Mapping inplace op vop)
    {m : Mem α} {o : Obj} (ho : Ok m o) (hu : Uni m o) : MapsTo inplace m o (op m o) (vop (Mem.val m o)) := by
  rcases h with ⟨fr, _⟩ | ⟨nrm, al, fr, dt, nt, _⟩ | ⟨S, live, prev, _⟩
  · exact (updateMapAggregate_maps fr _ ho hu).forget
  · exact (updateMapFusion_maps nrm al fr dt nt _ ho hu).forget
  · exact (slamStep_maps S live prev _ ho hu).1.forget
end
end Verif.Mem
