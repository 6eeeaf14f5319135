import Verif.Mem.Isolation
import Verif.Mem.Witness
import Verif.Slam.Witness
/-!
C98: the memory of maps during mapping and SLAM.

The functions in question (`Mapping`) are `update_map_aggregate`, `update_map_fusion` and `step`; the theorems hold in every state a program
can reach (`Reach`), whatever objects share memory and whatever the caller has written into tensors before.
-/
namespace Verif.Mem
open Verif Verif.Pcs
set_option linter.unusedSectionVars false

section
variable {α : Type*} [Field α] [LinearOrder α]
variable {w : World α} {i f : Nat} {o : Obj} {inplace : Bool} {op : Mem α → Obj → Option Moved × Mem α × Obj} {vop : PC α → Option (PC α) × PC α}

/-- **A map update writes into no existing tensor**: whether it succeeds or raises, in place or not, every tensor in existence keeps its
contents and its device, in particular every tensor the caller holds (say, the `points_padded` of the map taken before the update), and
every other object, even one that shares tensors with the map, keeps its value. -/
theorem mapping_keeps_tensors (hw : Reach w) (hi : w.objs[i]? = some (f, o)) (hop : Mapping inplace op vop) :
    (∀ q, q < w.mem.next → (op w.mem o).2.1.cell q = w.mem.cell q) ∧
    (∀ g q, (g, q) ∈ w.held → (op w.mem o).2.1.cell q = w.mem.cell q) ∧
    ∀ k g p, k ≠ i → w.objs[k]? = some (g, p) → val (op w.mem o).2.1 p = val w.mem p := by
  obtain ⟨owner, h⟩ := reach_inv hw
  have e := (hop.sim (h.ok hi) (h.uni _ _ (List.mem_of_getElem? hi))).grows.ext
  exact ⟨e.cell, fun g q hq => e.cell q (h.held g q hq).1, fun k g p _ hk => val_ext (h.ok hk) e⟩

/-- **What is returned.**  With `inplace=True` the object that was given; with `inplace=False` a new object that shares no tensor with the
map that was given, with any other object or with anything the caller holds, on the device of the map, all its tensors included. -/
theorem mapping_result (hw : Reach w) (hi : w.objs[i]? = some (f, o)) (hop : Mapping inplace op vop) {x : Moved} (hx : (op w.mem o).1 = some x) :
    (inplace = true → x = .self) ∧
    (inplace = false → ∃ c, x = .new c ∧ c.dev = o.dev ∧
      (∀ q, Holds c q → ((op w.mem o).2.1.cell q).dev = o.dev) ∧ (∀ q, Holds c q → ¬ Holds (op w.mem o).2.2 q) ∧
      (∀ (k g : Nat) (p : Obj) (q : Nat), w.objs[k]? = some (g, p) → Holds p q → ¬ Holds c q) ∧ ∀ g q, (g, q) ∈ w.held → ¬ Holds c q) := by
  obtain ⟨owner, h⟩ := reach_inv hw
  have s := hop.sim (h.ok hi) (h.uni _ _ (List.mem_of_getElem? hi))
  refine ⟨fun e => (s.kind x hx).2 e, fun e => ?_⟩
  rcases x with _ | c
  · have := (s.kind _ hx).1 rfl
    rw [e] at this; cases this
  · obtain ⟨hf, hd⟩ := s.fresh c hx
    obtain ⟨hu, hdev⟩ := s.uni c hx
    have new : ∀ q, q < w.mem.next → ¬ Holds c q := fun q hq hc => by
      rcases hf.own q hc with k | k
      · exact k
      · exact absurd hq (not_lt.2 k.1)
    exact ⟨c, rfl, hdev, fun q hq => (hu q hq).trans hdev, hd, fun k g p q hk hp => new q (h.ok hk q hp), fun g q hq => new q (h.held g q hq).1⟩

/-- The map given keeps its device, and the tensors it refers to are on it. -/
theorem mapping_device (hw : Reach w) (hi : w.objs[i]? = some (f, o)) (hop : Mapping inplace op vop) :
    (op w.mem o).2.2.dev = o.dev ∧ ∀ q, Holds (op w.mem o).2.2 q → ((op w.mem o).2.1.cell q).dev = o.dev := by
  obtain ⟨owner, h⟩ := reach_inv hw
  have hu := h.uni _ _ (List.mem_of_getElem? hi)
  have s := (hop.sim (h.ok hi) hu).grows
  exact ⟨s.dev, fun q hq => (s.uni (h.ok hi) hu q hq).trans s.dev⟩

/-- **Values.**  The outcome and the value of the map given are those of the value model (`Verif.Fusion`, `Verif.Slam`), computed from the value the
map has at the moment of the call. -/
theorem mapping_values (hw : Reach w) (hi : w.objs[i]? = some (f, o)) (hop : Mapping inplace op vop) :
    (vop (val w.mem o)).1 = (op w.mem o).1.map (result (op w.mem o).2.1 (op w.mem o).2.2) ∧
    (vop (val w.mem o)).2 = val (op w.mem o).2.1 (op w.mem o).2.2 := by
  obtain ⟨owner, h⟩ := reach_inv hw
  have s := hop.sim (h.ok hi) (h.uni _ _ (List.mem_of_getElem? hi))
  exact ⟨s.out, s.val⟩

/-- `step`: the poses it returns and the live frame are those of the value model too. -/
theorem step_values [FloorRing α] (hw : Reach w) (hi : w.objs[i]? = some (f, o)) (S : Slam.Sys α) (live : Rgbd.Obj α)
    (prev : Option (Rgbd.Obj α)) (inplace : Bool) :
    posesOf (slamStep S w.mem o live prev inplace).1 = posesOf (Slam.step S (val w.mem o) live prev inplace).1 ∧
    (slamStep S w.mem o live prev inplace).2.2.2 = (Slam.step S (val w.mem o) live prev inplace).2.2 := by
  obtain ⟨owner, h⟩ := reach_inv hw
  exact (slamStep_maps S live prev inplace (h.ok hi) (h.uni _ _ (List.mem_of_getElem? hi))).2

/-- **The new map is independent.**  After a successful update with `inplace=False`: whatever is done with the map that was given, with its views
and tensors (further SLAM steps in place, setters, writes of the caller into its tensors, …) leaves the new map as it is, and conversely. -/
theorem new_map_independent {w1 : World α} (hw : Reach w) {g : Nat} {c : Obj} (hi : w.objs[i]? = some (f, o)) (hg : g ≠ f)
    (hop : Mapping inplace op vop) (hc : (op w.mem o).1 = some (.new c))
    (h1 : w1 = ⟨(op w.mem o).2.1, w.objs.set i (f, (op w.mem o).2.2) ++ [(g, c)], w.held⟩) :
    vop (val w.mem o) = (some (val w1.mem c), val w1.mem (op w.mem o).2.2) ∧
    (∀ w2, WorksOn f w1 w2 → w2.objs[w.objs.length]? = some (g, c) ∧ val w2.mem c = val w1.mem c) ∧
    ∀ w2, WorksOn g w1 w2 → w2.objs[i]? = some (f, (op w.mem o).2.2) ∧ val w2.mem (op w.mem o).2.2 = val w1.mem (op w.mem o).2.2 := by
  have hw1 : Reach w1 := by rw [h1]; exact .step hw (.mapsNew w i f g o c inplace op vop hi hop hc)
  have hlt := (List.getElem?_eq_some_iff.1 hi).1
  have hkc : w1.objs[w.objs.length]? = some (g, c) := by
    rw [h1]; simp only
    rw [List.getElem?_append_right (by simp)]
    simp
  have hki : w1.objs[i]? = some (f, (op w.mem o).2.2) := by
    rw [h1]; simp only
    rw [List.getElem?_append_left (by simpa using hlt)]
    simp [hlt]
  refine ⟨?_, fun w2 h2 => (isolation hw1 h2 hkc hg).2, fun w2 h2 => (isolation hw1 h2 hki (Ne.symm hg)).2⟩
  obtain ⟨a, b⟩ := mapping_values hw hi hop
  rw [hc] at a
  rw [h1]
  exact Prod.ext a b

/-- **`forward` makes a new map**: the map and the poses of the value model; the map shares no tensor with any object or with anything the caller
holds, and is on the device of the SLAM object; no existing tensor is written to. -/
theorem forward_map [FloorRing α] (hw : Reach w) (S : Slam.Sys α) (d : Dev) (frames : Rgbd.Obj α) {c : Obj} {T : Rgbd.TM α} {m' : Mem α}
    (h : forward S d w.mem frames = .ok (c, T, m')) :
    Slam.forward S frames = .ok (val m' c, T) ∧ c.dev = d ∧ (∀ q, Holds c q → (m'.cell q).dev = d) ∧
    (∀ (k g : Nat) (p : Obj) (q : Nat), w.objs[k]? = some (g, p) → Holds p q → ¬ Holds c q) ∧ (∀ g q, (g, q) ∈ w.held → ¬ Holds c q) ∧
    ∀ q, q < w.mem.next → m'.cell q = w.mem.cell q := by
  obtain ⟨owner, hI⟩ := reach_inv hw
  obtain ⟨a, hf, hu, hd⟩ := forward_new h
  have new : ∀ q, q < w.mem.next → ¬ Holds c q := fun q hq hc => by
    rcases hf.own q hc with k | k
    · exact k
    · exact absurd hq (not_lt.2 k.1)
  exact ⟨a, hd, fun q hq => (hu q hq).trans hd, fun k g p q hk hp => new q (hI.ok hk q hp), fun g q hq => new q (hI.held g q hq).1, hf.ext.cell⟩

/-- `forward` raises exactly if it does so on values, with the same exception. -/
theorem forward_raises [FloorRing α] (S : Slam.Sys α) (d : Dev) (m : Mem α) (frames : Rgbd.Obj α) (e : Slam.Err) :
    forward S d m frames = .error e ↔ Slam.forward S frames = .error e := by
  have k := forward_sim S d m frames
  generalize forward S d m frames = x at k ⊢
  generalize Slam.forward S frames = y at k ⊢
  rcases x with e1 | x <;> rcases y with e2 | y
  · have : e1 = e2 := k
    simp [this]
  · exact k.elim
  · exact k.elim
  · simp
end

/-! ### A program: two steps of `PointFusion` -/
section
set_option maxRecDepth 100000
open Slam in
/-- The two frames of the sequence of `Verif.Slam.Witness`. -/
def liveW (s : Nat) : Rgbd.Obj ℚ := match frameAt seqW s with
  | .ok o => o
  | .error _ => seqW

def movedTo (r : Option Moved) : Obj := match r with
  | some (.new c) => c
  | _ => objA

/-- `slam = PointFusion(odom="gt"); pcs = Pointclouds(); slam.step(pcs, frame0, None, inplace=True)`. -/
def opW (s : Nat) (inplace : Bool) : Mem ℚ → Obj → Option Moved × Mem ℚ × Obj :=
  fun m o => outcome (mapPart Prod.fst (slamStep Slam.gtFusion m o (liveW s) none inplace))
def vopW (s : Nat) (inplace : Bool) : PC ℚ → Option (PC ℚ) × PC ℚ :=
  fun p => outcome ((Slam.step Slam.gtFusion p (liveW s) none inplace).1.map Prod.fst, (Slam.step Slam.gtFusion p (liveW s) none inplace).2.1)
theorem mappingW (s : Nat) (inplace : Bool) : Mapping inplace (opW s inplace) (vopW s inplace) := .step Slam.gtFusion (liveW s) none inplace

def memE : Mem ℚ := (newEmpty m0 .cpu).1
def objE : Obj := (newEmpty m0 .cpu).2
def wE : World ℚ := ⟨memE, [(0, objE)], []⟩
def memF : Mem ℚ := (opW 0 true memE objE).2.1
def objF : Obj := (opW 0 true memE objE).2.2
/-- `t = pcs.points_padded`. -/
def memP : Mem ℚ := (getPad .points memF objF).2.1
def objP : Obj := (getPad .points memF objF).2.2
def tP : Nat := (objP.pad .points).getD 0
def wP : World ℚ := ⟨memP, [(0, objP)], [(0, tP)]⟩
/-- `new, poses = slam.step(pcs, frame1, None, inplace=False)`. -/
def memQ : Mem ℚ := (opW 1 false memP objP).2.1
def objQ : Obj := (opW 1 false memP objP).2.2
def newQ : Obj := movedTo (opW 1 false memP objP).1

theorem is_self {r : Option Moved} (h : (match r with | some .self => true | _ => false) = true) : r = some .self := by
  rcases r with _ | _ | _
  · cases h
  · rfl
  · cases h
theorem is_new {r : Option Moved} (h : (match r with | some (.new _) => true | _ => false) = true) : r = some (.new (movedTo r)) := by
  rcases r with _ | _ | _
  · cases h
  · cases h
  · rfl

theorem reachP : Reach wP := by
  have s1 : Reach wE := .step (.start m0 rfl) (.empty ⟨m0, [], []⟩ 0 .cpu)
  have s2 : Reach (⟨memF, [(0, objF)], []⟩ : World ℚ) :=
    .step s1 (.maps wE 0 0 objE true _ _ rfl (mappingW 0 true) (.inl (is_self (by decide +kernel))))
  have s3 : Reach (⟨memP, [(0, objP)], []⟩ : World ℚ) := .step s2 (.method _ 0 0 objF _ _ rfl (.pad .points))
  exact .step s3 (.grab _ 0 0 objP tP rfl (.inr (.inr (.inl ⟨.points, by decide +kernel⟩))))

/-- The hypotheses of C98 are met in a state in which the caller holds the padded points of the map: the second step merges into the map
given (C50), yet the tensor the caller holds keeps the old points, and the new map has the merged and the new points.  Writing into the
points of the map given leaves the new map as it is. -/
theorem mapping_case : Reach wP ∧ wP.objs[0]? = some (0, objP) ∧ (opW 1 false wP.mem objP).1 = some (.new newQ) ∧
    (val memP objP).pad .points = some [⟨[[-1, -1, 2], [0, -1, 2], [-1, 0, 2]], 3⟩] ∧
    (val memQ objQ).pad .points = some [⟨[[-1, -1, 2], [0, -1, 2], [-21 / 16, 0, 5 / 2]], 3⟩] ∧
    (memQ.cell tP).vals = [⟨[[-1, -1, 2], [0, -1, 2], [-1, 0, 2]], 3⟩] ∧
    (val memQ newQ).lst .points = some [⟨[[-1, -1, 2], [0, -1, 2], [-21 / 16, 0, 5 / 2], [-13 / 8, -3 / 2, 3], [-1 / 8, -3 / 2, 3]], 3⟩] ∧
    (val (memQ.poke ((objQ.pad .points).getD 0) cellB) objQ).pad .points = some [⟨[[7, 7, 7]], 3⟩] ∧
    (val (memQ.poke ((objQ.pad .points).getD 0) cellB) newQ).lst .points = (val memQ newQ).lst .points :=
  ⟨reachP, rfl, is_new (by decide +kernel), by decide +kernel, by decide +kernel, by decide +kernel, by decide +kernel, by decide +kernel,
    by decide +kernel⟩

/-- `forward` succeeds on the sequence. -/
theorem forward_case : ∃ c T m', forward Slam.gtFusion .cpu wP.mem Slam.seqW = .ok (c, T, m') ∧ c.B = 1 ∧ Reach wP := by
  have h : (match forward Slam.gtFusion .cpu wP.mem Slam.seqW with | .ok x => decide (x.1.B = 1) | .error _ => false) = true := by decide +kernel
  generalize forward Slam.gtFusion .cpu wP.mem Slam.seqW = r at h ⊢
  rcases r with e | ⟨c, T, m'⟩
  · cases h
  · exact ⟨c, T, m', rfl, by simpa using h, reachP⟩
end
end Verif.Mem
