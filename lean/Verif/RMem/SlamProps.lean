import Verif.RMem.Isolation
import Verif.RMem.Witness
import Verif.Slam.RaiseWitness
/-!
C99: the memory of frames during SLAM.

In a program that uses `RGBDImages` and SLAM objects and may write into any tensor it holds at any moment:

* neither `step` nor `forward` writes into an existing tensor;
* the poses `step` returns are the very tensor of the live frame: with odometry a new one, without odometry the one the frame had before the
  call, which the program may share with other frames;
* a successful step makes the live frame share nothing it did not share before; a step that raises may leave it with the tensor of poses of the
  previous frame.
-/
namespace Verif.RMem
open Verif Verif.Pcs
set_option linter.unusedSectionVars false

section
variable {α : Type*} [Field α] [LinearOrder α] [FloorRing α] {w : World α} {i f : Nat} {live : Obj} {prev : Option (Nat × Nat × Obj)}

/-- The previous frame is one of the objects of the program, and not the live frame. -/
def IsPrev (w : World α) (i : Nat) (prev : Option (Nat × Nat × Obj)) : Prop := ∀ j g p, prev = some (j, g, p) → w.objs[j]? = some (g, p) ∧ j ≠ i

/-- **`step` writes into no existing tensor**, whether it succeeds or raises: every tensor that exists keeps its contents and its device, and
every frame (the previous frame in particular, also if it shares tensors with the live frame) keeps its value. -/
theorem slam_step_keeps_tensors (hw : Reach w) (hi : w.objs[i]? = some (f, live)) (hp : IsPrev w i prev) (S : Slam.Sys α) (ctg : View → Bool)
    (pc : PC α) (inplace : Bool) :
    (∀ q, q < w.mem.next → (slamStep S ctg pc w.mem live (prevObj prev) inplace).2.2.1.cell q = w.mem.cell q) ∧
    (∀ g q, (g, q) ∈ w.held → (slamStep S ctg pc w.mem live (prevObj prev) inplace).2.2.1.cell q = w.mem.cell q) ∧
    ∀ (k g : Nat) (p : Obj), w.objs[k]? = some (g, p) → val (slamStep S ctg pc w.mem live (prevObj prev) inplace).2.2.1 p = val w.mem p := by
  obtain ⟨owner, h⟩ := reach_inv hw
  have e := (slamStep_sim S ctg pc inplace (h.ok hi) (h.prevOk hp)).1.ext
  exact ⟨e.cell, fun g q hq => e.cell q (h.held g q hq).1, fun k g p hk => val_ext (h.ok hk) e⟩

/-- **The poses returned are the tensor of the live frame.**  With odometry (a provider and a previous frame) it is a new tensor, which no other
object and nobody else refers to; otherwise it is the tensor the live frame had before the call. -/
theorem slam_step_poses (hw : Reach w) (hi : w.objs[i]? = some (f, live)) (hp : IsPrev w i prev) (S : Slam.Sys α) (ctg : View → Bool)
    (pc : PC α) (inplace : Bool) {pc' : PC α} {T : View} (h : (slamStep S ctg pc w.mem live (prevObj prev) inplace).1 = .ok (pc', T)) :
    (slamStep S ctg pc w.mem live (prevObj prev) inplace).2.2.2.opt .poses = some T ∧
    ((S.odom.isGt = true ∨ prev = none) → live.opt .poses = some T) ∧
    (S.odom.isGt = false → prev ≠ none → (∀ (k g : Nat) (p : Obj), w.objs[k]? = some (g, p) → ¬ Holds p T.ref) ∧ ∀ g, (g, T.ref) ∉ w.held) := by
  obtain ⟨owner, hI⟩ := reach_inv hw
  obtain ⟨k1, k2⟩ := (slamStep_sim S ctg pc inplace (hI.ok hi) (hI.prevOk hp)).1.out pc' T h
  refine ⟨k1, fun hc => ?_, fun h1 h2 => ?_⟩
  · rcases k2 with k | ⟨a, ⟨p, _, b, _⟩, _⟩
    · exact k.2
    · obtain ⟨j, g, rfl⟩ := prevObj_some b
      simp [a] at hc
  · rcases k2 with ⟨k | k, _⟩ | ⟨_, _, k, _⟩
    · rw [h1] at k; simp at k
    · rcases prev with _ | x
      · exact absurd rfl h2
      · simp [prevObj] at k
    · exact ⟨fun _ _ p hk hq => absurd (hI.ok hk _ hq) (not_lt.2 k), fun g hg => absurd (hI.held g _ hg).1 (not_lt.2 k)⟩

/-- **What the live frame refers to afterwards**: tensors it referred to before, and new ones that no other object refers to; if the step
raised, possibly the poses of the previous frame. -/
theorem slam_step_sharing (hw : Reach w) (hi : w.objs[i]? = some (f, live)) (hp : IsPrev w i prev) (S : Slam.Sys α) (ctg : View → Bool)
    (pc : PC α) (inplace : Bool) {q : Nat} (hq : Holds (slamStep S ctg pc w.mem live (prevObj prev) inplace).2.2.2 q) :
    Holds live q ∨ ((∀ (k g : Nat) (p : Obj), w.objs[k]? = some (g, p) → ¬ Holds p q) ∧ ∀ g, (g, q) ∉ w.held) ∨
    (∃ e, (slamStep S ctg pc w.mem live (prevObj prev) inplace).1 = .error e) ∧ ∃ j g p v, prev = some (j, g, p) ∧ p.opt .poses = some v ∧ v.ref = q := by
  obtain ⟨owner, hI⟩ := reach_inv hw
  rcases (slamStep_sim S ctg pc inplace (hI.ok hi) (hI.prevOk hp)).1.own q hq with k | k | ⟨k1, p, v, k2, k3, k4⟩
  · exact .inl k
  · exact .inr (.inl ⟨fun _ _ p hk hq => absurd (hI.ok hk _ hq) (not_lt.2 k.1), fun g hg => absurd (hI.held g _ hg).1 (not_lt.2 k.1)⟩)
  · obtain ⟨j, g, rfl⟩ := prevObj_some k2
    exact .inr (.inr ⟨k1, j, g, p, v, rfl, k3, k4⟩)

/-- **Values.**  If the tensors of the live frame and the poses of the previous frame are on the device of the live frame: exceptions, map, poses
and the live frame are those of `Slam.step`, computed from the values the frames have at the moment of the call. -/
theorem slam_step_values (hw : Reach w) (hh : Honest w) (hi : w.objs[i]? = some (f, live)) (hp : IsPrev w i prev)
    (hd : ∀ r ∈ refs (prevPoses prev), (w.mem.cell r).dev = live.dev) (S : Slam.Sys α) (ctg : View → Bool) (pc : PC α) (inplace : Bool) :
    Slam.step S pc (val w.mem live) ((prevObj prev).map (val w.mem)) inplace =
      ((slamStep S ctg pc w.mem live (prevObj prev) inplace).1.map
          (fun x => (x.1, ((slamStep S ctg pc w.mem live (prevObj prev) inplace).2.2.1.read x.2).mat)),
        (slamStep S ctg pc w.mem live (prevObj prev) inplace).2.1,
        val (slamStep S ctg pc w.mem live (prevObj prev) inplace).2.2.1 (slamStep S ctg pc w.mem live (prevObj prev) inplace).2.2.2) := by
  obtain ⟨owner, h⟩ := reach_inv hw
  exact ((slamStep_sim S ctg pc inplace (h.ok hi) (h.prevOk hp)).2 (hh _ _ (List.mem_of_getElem? hi)) (sameDev_of hi hd)).2

/-- **Frames stay independent.**  Two frames that share no memory (are of different families) do not after a successful step either: whatever
is done afterwards with the one, with its views and tensors – the poses returned by the step among them –, leaves the other as it is. -/
theorem frames_stay_independent {w1 : World α} (hw : Reach w) {j g : Nat} {p : Obj} (hi : w.objs[i]? = some (f, live)) (hj : w.objs[j]? = some (g, p))
    (hg : g ≠ f) (S : Slam.Sys α) (ctg : View → Bool) (pc : PC α) (inplace : Bool) {x : PC α × View}
    (h : (slamStep S ctg pc w.mem live (some p) inplace).1 = .ok x)
    (h1 : w1 = ⟨(slamStep S ctg pc w.mem live (some p) inplace).2.2.1,
      w.objs.set i (f, (slamStep S ctg pc w.mem live (some p) inplace).2.2.2), w.held⟩) :
    (∀ w2, WorksOn f w1 w2 → w2.objs[j]? = some (g, p) ∧ val w2.mem p = val w.mem p) ∧
    ∀ w2, WorksOn g w1 w2 → w2.objs[i]? = some (f, (slamStep S ctg pc w.mem live (some p) inplace).2.2.2) ∧
      val w2.mem (slamStep S ctg pc w.mem live (some p) inplace).2.2.2 =
      val w1.mem (slamStep S ctg pc w.mem live (some p) inplace).2.2.2 := by
  have hn : j ≠ i := fun e => by
    subst e
    rw [hi] at hj
    simp only [Option.some.injEq, Prod.mk.injEq] at hj
    exact hg hj.1.symm
  have hp : IsPrev w i (some (j, g, p)) := fun j1 g1 p1 e => by
    simp only [Option.some.injEq, Prod.mk.injEq] at e
    obtain ⟨rfl, rfl, rfl⟩ := e
    exact ⟨hj, hn⟩
  have s : Step w (.call [i] (refs (prevPoses (some (j, g, p))))) w1 := by
    rw [h1]; exact .slam w i f live (some (j, g, p)) S ctg pc inplace hi hp (.inl ⟨x, h⟩)
  have hw1 : Reach w1 := .step hw s
  have hlt := (List.getElem?_eq_some_iff.1 hi).1
  have hkj : w1.objs[j]? = some (g, p) := by
    rw [h1]; simp only
    rw [List.getElem?_set_ne (Ne.symm hn), hj]
  have hki : w1.objs[i]? = some (f, (slamStep S ctg pc w.mem live (some p) inplace).2.2.2) := by
    rw [h1]; simp [hlt]
  have hv : val w1.mem p = val w.mem p := by
    rw [h1]; exact (slam_step_keeps_tensors hw hi hp S ctg pc inplace).2.2 j g p hj
  exact ⟨fun w2 h2 => ⟨(isolation hw1 h2 hkj hg).2.1, (isolation hw1 h2 hkj hg).2.2.trans hv⟩, fun w2 h2 => (isolation hw1 h2 hki (Ne.symm hg)).2⟩

/-- **`forward` leaves the batch of frames alone**: it writes into no existing tensor; the poses it returns are a new tensor on the device of the
SLAM object, which shares memory with nothing. -/
theorem forward_frames (hw : Reach w) {o : Obj} (hi : w.objs[i]? = some (f, o)) (S : Slam.Sys α) (ctg : View → Bool) (d : Dev) {pc : PC α} {T : View}
    {m' : Mem α} (h : forward S ctg d w.mem o = .ok (pc, T, m')) :
    (∀ q, q < w.mem.next → m'.cell q = w.mem.cell q) ∧ (∀ (k g : Nat) (p : Obj), w.objs[k]? = some (g, p) → val m' p = val w.mem p) ∧
    (∀ (k g : Nat) (p : Obj), w.objs[k]? = some (g, p) → ¬ Holds p T.ref) ∧ (∀ g, (g, T.ref) ∉ w.held) ∧ m'.dev T = d := by
  obtain ⟨owner, hI⟩ := reach_inv hw
  obtain ⟨e, k1, _, _, k3⟩ := (forward_sim S ctg d (hI.ok hi)).1 pc T m' h
  exact ⟨e.cell, fun _ _ p hk => val_ext (hI.ok hk) e, fun _ _ p hk hq => absurd (hI.ok hk _ hq) (not_lt.2 k1),
    fun g hg => absurd (hI.held g _ hg).1 (not_lt.2 k1), k3⟩

/-- Its outcome is that of `Slam.forward` on the value of the batch, exceptions included, whatever device the batch is on. -/
theorem forward_frames_values (hw : Reach w) (hh : Honest w) {o : Obj} (hi : w.objs[i]? = some (f, o)) (S : Slam.Sys α) (ctg : View → Bool) (d : Dev) :
    Slam.forward S (val w.mem o) = (forward S ctg d w.mem o).map fun x => (x.1, (x.2.2.read x.2.1).mat) := by
  obtain ⟨owner, hI⟩ := reach_inv hw
  exact (forward_sim S ctg d (hI.ok hi)).2 (hh _ _ (List.mem_of_getElem? hi))
end

/-! ### A program -/
section
set_option maxRecDepth 100000

/-- `rgb, depth, K, poses` of the sequence of `Verif.Slam.Witness`. -/
def cellsS : Nat → Cell ℚ
  | 0 => ⟨.cpu, .ofImg Rgbd.rgb0⟩
  | 1 => ⟨.cpu, .ofImg Slam.depthW⟩
  | 2 => ⟨.cpu, .ofMat Rgbd.K0⟩
  | _ => ⟨.cpu, .ofMat Slam.poseW⟩
def memS : Mem ℚ := ⟨4, fun r => cellsS r⟩
def argsS : Args := ⟨⟨0, []⟩, ⟨1, []⟩, ⟨2, []⟩, some ⟨3, []⟩, none⟩

/-- `seq = RGBDImages(rgb, depth, K, poses)`. -/
def seqS : Obj := made (new memS argsS false none).1
def mem1 : Mem ℚ := (new memS argsS false none).2
/-- `f0 = seq[:, 0].clone()`. -/
def ixS (s : Nat) : Rgbd.Index := .tup [.slice none none none, .int s]
def view0 : Obj := made (getitem (ixS 0) mem1 seqS).1
def mem2 : Mem ℚ := (getitem (ixS 0) mem1 seqS).2
def f0 : Obj := made (clone mem2 view0).1
def mem3 : Mem ℚ := (clone mem2 view0).2
/-- `f1 = seq[:, 1]`. -/
def f1 : Obj := made (getitem (ixS 1) mem3 seqS).1
def mem4 : Mem ℚ := (getitem (ixS 1) mem3 seqS).2
/-- `seq`, a view of its first frame, a copy of it, and a view of its second frame. -/
def wS : World ℚ := ⟨mem4, [(0, seqS), (0, view0), (1, f0), (0, f1)], [(0, 0), (0, 1), (0, 2), (0, 3)]⟩

/-- Reachable, with everything on the device it names. -/
def Good (w : World ℚ) : Prop := Reach w ∧ Honest w

theorem Good.step {w w' : World ℚ} {e : Ev} (h : Good w) (s : Step w e w')
    (hs : ∀ is ts, e = .call is ts → is = [] ∨ ts = [] := by intro is ts h; cases h; simp [refs, prevPoses, prevObj]) : Good w' :=
  ⟨.step h.1 s, honest_kept h.1 h.2 s fun is ts e i hi _ _ _ r hr => by
    rcases hs is ts e with rfl | rfl
    · simp at hi
    · simp at hr⟩

/-- The four tensors made one after the other. -/
theorem reachS0 : Reach (⟨memS, [], wS.held⟩ : World ℚ) := by
  have a0 : Reach (⟨⟨0, fun r => cellsS r⟩, [], []⟩ : World ℚ) := .start _ rfl
  have a1 := Reach.step a0 (.tensor _ 0 (cellsS 0))
  have a2 := Reach.step a1 (.tensor _ 0 (cellsS 1))
  have a3 := Reach.step a2 (.tensor _ 0 (cellsS 2))
  have a4 := Reach.step a3 (.tensor _ 0 (cellsS 3))
  have k : ∃ m, Reach (⟨m, [], wS.held⟩ : World ℚ) ∧ m.next = 4 ∧ m.cell = memS.cell := by
    refine ⟨_, a4, rfl, ?_⟩
    funext r
    simp only [Mem.alloc, memS]
    rcases r with _ | _ | _ | r
    · rfl
    · rfl
    · rfl
    · have : ¬(r + 3 < 3) := by omega
      simp [cellsS]
  obtain ⟨⟨n, c⟩, h, h1, h2⟩ := k
  simp only at h1 h2
  subst h1 h2
  exact h

theorem reachS : Good wS := by
  have a5 : Good (⟨memS, [], wS.held⟩ : World ℚ) := ⟨reachS0, by intro f o h; simp at h⟩
  have a6 : Good (⟨mem1, [(0, seqS)], [(0, 0), (0, 1), (0, 2), (0, 3)]⟩ : World ℚ) :=
    a5.step (.new _ 0 argsS false none mem1 seqS (by simp [Args.list, argsS, refs, wS]) (Prod.ext (made_spec (by decide +kernel)) rfl))
  have a7 := a6.step (.getitem _ 0 0 0 seqS view0 mem2 (ixS 0) rfl (Prod.ext (made_spec (by decide +kernel)) rfl) (.inl rfl))
  have a8 := a7.step (.clone _ 1 0 1 view0 f0 mem3 rfl (Prod.ext (made_spec (by decide +kernel)) rfl))
  exact a8.step (.getitem _ 0 0 0 seqS f1 mem4 (ixS 1) rfl (Prod.ext (made_spec (by decide +kernel)) rfl) (.inl rfl))

/-- `slam = PointFusion(…); pcs, T0 = slam.step(Pointclouds(), f0, None)`: the map, memory, the frame. -/
def stepS (S : Slam.Sys ℚ) (pc : PC ℚ) (m : Mem ℚ) (live : Obj) (prev : Option Obj) := slamStep S (fun _ => true) pc m live prev true
def mapOf (r : Except Slam.Err (PC ℚ × View) × PC ℚ × Mem ℚ × Obj) : PC ℚ := match r.1 with
  | .ok x => x.1
  | .error _ => r.2.1
def posesTOf (r : Except Slam.Err (PC ℚ × View) × PC ℚ × Mem ℚ × Obj) : Option View := match r.1 with
  | .ok x => some x.2
  | .error _ => none
def first : Except Slam.Err (PC ℚ × View) × PC ℚ × Mem ℚ × Obj := stepS Slam.upFusion newEmpty mem4 f0 none
/-- … and `slam.step(pcs, f1, f0)`. -/
def second (S : Slam.Sys ℚ) : Except Slam.Err (PC ℚ × View) × PC ℚ × Mem ℚ × Obj := stepS S (mapOf first) first.2.2.1 f1 (some first.2.2.2)
def wS1 : World ℚ := ⟨first.2.2.1, [(0, seqS), (0, view0), (1, first.2.2.2), (0, f1)], wS.held⟩

theorem isOkS {r : Except Slam.Err (PC ℚ × View)} (h : r.isOk = true) : ∃ x, r = .ok x := by
  cases r with
  | error => simp [Except.isOk, Except.toBool] at h
  | ok c => exact ⟨c, rfl⟩

theorem reachS1 : Good wS1 :=
  reachS.step (.slam wS 2 1 f0 none Slam.upFusion (fun _ => true) newEmpty true rfl (by simp) (.inl (isOkS (by decide +kernel))))

/-- The pose of the first frame a frame refers to. -/
def poseOf (m : Mem ℚ) (o : Obj) : Option (M4 ℚ) := (o.opt .poses).map fun v => (m.read v).mat.at' 0 0

/-- The hypotheses of C99 are met in a program in which the previous frame is a copy, the live frame a view of the batch.  With odometry the
second step returns a new tensor; with ground truth it returns the live frame's tensor, which is a part of the poses of the batch: a write into
what `step` returned is a write into the batch.  After a provider that raises, `live_frame.poses` is the tensor of the previous frame, and a
write into the one changes the pose of the other. -/
theorem slam_memory_case : Reach wS1 ∧ Honest wS1 ∧ wS1.objs[3]? = some (0, f1) ∧ wS1.objs[2]? = some (1, first.2.2.2) ∧
    IsPrev wS1 3 (some (2, 1, first.2.2.2)) ∧ (∀ r ∈ refs (prevPoses (some (2, 1, first.2.2.2))), (wS1.mem.cell r).dev = f1.dev) ∧ (second Slam.upFusion).1.isOk = true ∧
    (posesTOf (second Slam.upFusion)).map (fun v => decide (first.2.2.1.next ≤ v.ref)) = some true ∧
    (second Slam.upFusion).2.2.2.opt .poses = posesTOf (second Slam.upFusion) ∧
    posesTOf (second Slam.gtFusion) = f1.opt .poses ∧ (posesTOf (second Slam.gtFusion)).map View.ref = some 3 ∧
    (second Slam.brokenSlam).1.isOk = false ∧ (second Slam.brokenSlam).2.2.2.opt .poses = first.2.2.2.opt .poses ∧
    poseOf (second Slam.brokenSlam).2.2.1 first.2.2.2 = some M4.one ∧
    (((second Slam.brokenSlam).2.2.2.opt .poses).bind fun v => poseOf ((second Slam.brokenSlam).2.2.1.poke v.ref (.ofMat ⟨1, 1, fun _ _ => ⟨.one, ⟨7, 0, 0⟩, .zero, 1⟩⟩)) first.2.2.2) =
      some ⟨.one, ⟨7, 0, 0⟩, .zero, 1⟩ :=
  ⟨reachS1.1, reachS1.2, rfl, rfl, by
    intro j g p e
    simp only [Option.some.injEq, Prod.mk.injEq] at e
    obtain ⟨rfl, rfl, rfl⟩ := e
    exact ⟨rfl, by decide⟩, by decide +kernel, by decide +kernel, by decide +kernel, by decide +kernel, by decide +kernel, by decide +kernel, by decide +kernel,
    by decide +kernel, by decide +kernel, by decide +kernel⟩

/-- `forward` succeeds on the batch of that program, on another device. -/
theorem forward_memory_case : ∃ pc T m', forward Slam.upFusion (fun _ => true) (.gpu 0) wS1.mem seqS = .ok (pc, T, m') ∧ Reach wS1 ∧
    wS1.objs[0]? = some (0, seqS) := by
  have h : (forward Slam.upFusion (fun _ => true) (.gpu 0) wS1.mem seqS).isOk = true := by decide +kernel
  generalize forward Slam.upFusion (fun _ => true) (.gpu 0) wS1.mem seqS = r at h ⊢
  rcases r with e | ⟨c, T, m'⟩
  · cases h
  · exact ⟨c, T, m', rfl, reachS1.1, rfl⟩
end
end Verif.RMem
