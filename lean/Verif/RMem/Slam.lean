import Verif.RMem.Layout
import Verif.Slam.Model
/-!
Memory model of a SLAM step and of `forward` (`gradslam/slam/icpslam.py`, `pointfusion.py`), frame side: which tensors the frames refer to
and which tensor is returned as poses.

Every function is the function of `Verif.Slam` (or `Verif.Fusion`) of the same name with the frames as objects in memory (`Verif.RMem.Obj`).

Simplifications: the map is a value (`Verif.Mem.Map` is about its memory; no function called here writes into a tensor of a frame);
`live_frame` and `prev_frame` are different objects.
-/
namespace Verif.RMem
open Verif Verif.Pcs

section
variable {α : Type*} [Field α] [LinearOrder α]

/-- Matrix contents. -/
def Cont.ofMat (t : Rgbd.TM α) : Cont α := ⟨⟨⟨0, 0, 0, 0, 0⟩, fun _ _ _ _ _ => 0⟩, t, noImg⟩

/-- The tensors the functions of `fusionutils.py` and `icputils.py` read from a frame, fusionutils.py:356-360, :498, :655-657, :701-706,
icputils.py:528-541: global vertex and normal map, vertex map, normal map, mask. -/
def readMaps (nrm : V3 α → α) (eps : α) (m : Mem α) (o : Obj) : Except Rgbd.Err (View × View × View × View × View) × Mem α × Obj :=
  match getGVertex eps m o with
  | (.error e, m, o) => (.error e, m, o)
  | (.ok gv, m, o) => match getGNormal nrm eps m o with
    | (.error e, m, o) => (.error e, m, o)
    | (.ok gn, m, o) => match getVertex eps m o with
      | (.error e, m, o) => (.error e, m, o)
      | (.ok v, m, o) => match getNormal nrm eps m o with
        | (.error e, m, o) => (.error e, m, o)
        | (.ok n, m, o) => match getValid m o with
          | (k, m, o) => (.ok (gv, gn, v, n, k), m, o)

/-- What is read (cf. `Fusion.readRaw`). -/
def rawOf (m : Mem α) (o : Obj) (x : View × View × View × View × View) : Fusion.Raw α :=
  ⟨o.B, o.L, o.H, o.W, (m.read x.1).img, (m.read x.2.1).img, (m.read x.2.2.1).img, (m.read x.2.2.2.1).img, (m.read (o.base .rgb)).img,
    (m.read x.2.2.2.2).bit, (o.opt .poses).map fun v => Rgbd.TM.at' (m.read v).mat, fun b => (m.read (o.base .intrinsics)).mat.at' b 0⟩

/-- What is read from a channels-last frame (cf. `Fusion.readFrame`). -/
def frameOf (m : Mem α) (o : Obj) (x : View × View × View × View × View) : Fusion.Frame α :=
  ⟨o.B, o.L, o.H, o.W, Rgbd.px3 false (m.read x.1).img, Rgbd.px3 false (m.read x.2.1).img, Rgbd.px3 false (m.read x.2.2.1).img,
    Rgbd.px3 false (m.read x.2.2.2.1).img, Rgbd.px3 false (m.read (o.base .rgb)).img, fun b l h w => (m.read x.2.2.2.2).bit.at' b l h w 0,
    (o.opt .poses).map fun v => Rgbd.TM.at' (m.read v).mat, fun b => (m.read (o.base .intrinsics)).mat.at' b 0⟩

/-- `_localize` with a provider, icpslam.py:238-247 (cf. `Slam.odometry`): `live_frame.poses = prev_frame.poses` makes the live frame refer to
the tensor `P` of the previous frame; `compose_transformations` makes a new tensor. -/
def odometry [FloorRing α] (S : Slam.Sys α) (provide : PC α → PC α → Except Icp.Err (List (M4 α))) (pc : PC α) (m : Mem α) (live prev : Obj)
    (P : View) : Except Slam.Err View × PC α × Mem α × Obj :=
  match setPoses (some P) m live with
  | (.error e, live) => (.error (.rgbd e), pc, m, live)
  | (.ok (), live) => match readMaps S.nrm S.eps m live with
    | (.error e, m, live) => (.error (.rgbd e), pc, m, live)
    | (.ok x, m, live) => match Icp.downsampleRaw (rawOf m live x) S.ds with
      | .error e => (.error (.icp e), pc, m, live)
      | .ok framesPc => match Fusion.findActive pc (Slam.camera (val m prev)) with
        | (.error e, pc) => (.error (.fusion e), pc, m, live)
        | (.ok rows, pc) => match Icp.downsamplePointclouds pc rows S.ds with
          | (.error e, pc) => (.error (.icp e), pc, m, live)
          | (.ok mapsPc, pc) => match provide mapsPc framesPc with
            | .error e => (.error (.icp e), pc, m, live)
            | .ok T =>
              let p := m.fresh (m.dev P) (.ofMat ⟨T.length, 1, fun b _ => Geom.composeTransforms1 (T.getD b M4.one) ((m.read P).mat.at' b 0)⟩)
              (.ok p.2, pc, p.1, live)

/-- `_localize`, icpslam.py:180-247: without odometry the tensor of the live frame itself. -/
def localize [FloorRing α] (S : Slam.Sys α) (pc : PC α) (m : Mem α) (live : Obj) (prev : Option Obj) : Except Slam.Err View × PC α × Mem α × Obj :=
  match S.odom, prev with
  | .prov provide, some prev => match prev.opt .poses with
    | none => (.error .valueError, pc, m, live)
    | some P => odometry S provide pc m live prev P
  | _, _ => match live.opt .poses with
    | none => (.error .valueError, pc, m, live)
    | some P => (.ok P, pc, m, live)

/-- What `pointclouds_from_rgbdimages` reads, structures/utils.py:38-52: `rgbdimages.to_channels_last()` is the frame itself or a new object
(cf. `Slam.readAggregate`). -/
def readAggregate (S : Slam.Sys α) (ctg : View → Bool) (m : Mem α) (live : Obj) : Except Rgbd.Err (Fusion.Frame α) × Mem α × Obj :=
  match toLast ctg false m live with
  | (.error e, m) => (.error e, m, live)
  | (.ok .self, m) => match readMaps S.nrm S.eps m live with
    | (.error e, m, live) => (.error e, m, live)
    | (.ok x, m, live) => (.ok (frameOf m live x), m, live)
  | (.ok (.new c), m) => match readMaps S.nrm S.eps m c with
    | (.error e, m, _) => (.error e, m, live)
    | (.ok x, m, c) => (.ok (frameOf m c x), m, live)

/-- `_map`, icpslam.py:249-264 and pointfusion.py:107-112. -/
def mapStep [FloorRing α] (S : Slam.Sys α) (ctg : View → Bool) (pc : PC α) (m : Mem α) (live : Obj) (inplace : Bool) :
    Except Slam.Err (PC α) × PC α × Mem α × Obj :=
  match S.mapper with
  | .aggregate => match readAggregate S ctg m live with
    | (.error e, m, live) => (.error (.rgbd e), pc, m, live)
    | (.ok fr, m, live) => match Fusion.updateMapAggregate pc fr inplace with
      | (.error e, pc) => (.error (.fusion e), pc, m, live)
      | (.ok r, pc) => (.ok r, pc, m, live)
  | .fusion d t => match readMaps S.nrm S.eps m live with
    | (.error e, m, live) => (.error (.rgbd e), pc, m, live)
    | (.ok x, m, live) => match Fusion.updateMapFusionRaw S.nrm S.al pc (rawOf m live x) d t inplace with
      | (.error e, pc) => (.error (.fusion e), pc, m, live)
      | (.ok r, pc) => (.ok r, pc, m, live)

/-- `step`, icpslam.py:140-178 (cf. `Slam.step`): the tensor returned as poses is the one assigned to `live_frame.poses`. -/
def slamStep [FloorRing α] (S : Slam.Sys α) (ctg : View → Bool) (pc : PC α) (m : Mem α) (live : Obj) (prev : Option Obj) (inplace : Bool) :
    Except Slam.Err (PC α × View) × PC α × Mem α × Obj :=
  match localize S pc m live prev with
  | (.error e, pc, m, live) => (.error e, pc, m, live)
  | (.ok T, pc, m, live) => match setPoses (some T) m live with
    | (.error e, live) => (.error (.rgbd e), pc, m, live)
    | (.ok (), live) => match mapStep S ctg pc m live inplace with
      | (.error e, pc, m, live) => (.error e, pc, m, live)
      | (.ok r, pc, m, live) => (.ok (r, T), pc, m, live)

/-! ### forward -/

/-- `frames[:, s].to(self.device)`, icpslam.py:125: a view of the batch, or a copy on device `d`. -/
def frameAt (d : Dev) (m : Mem α) (frames : Obj) (s : Nat) : Except Slam.Err Obj × Mem α :=
  match getitem (.tup [.slice none none none, .int s]) m frames with
  | (.error e, m) => (.error (.rgbd e), m)
  | (.ok o, m) => match toDevice 0 (.exact d) false m o with
    | (.error e, m) => (.error (.rgbd e), m)
    | (.ok .self, m) => (.ok o, m)
    | (.ok (.new c), m) => (.ok c, m)

/-- The live frame, icpslam.py:125-131. -/
def liveFrame (d : Dev) (m : Mem α) (frames : Obj) (s : Nat) : Except Slam.Err Obj × Mem α :=
  match frameAt d m frames s with
  | (.error e, m) => (.error e, m)
  | (.ok live, m) =>
    if s = 0 ∧ live.opt .poses = none then
      match m.fresh d (.ofMat (Slam.eyes frames.B)) with
      | (m, v) => match setPoses (some v) m live with
        | (.error e, _) => (.error (.rgbd e), m)
        | (.ok (), live) => (.ok live, m)
    else (.ok live, m)

/-- The variables of `forward` that live across iterations (cf. `Slam.Loop`); `poses` is the filled part of `recovered_poses`. -/
structure Loop (α : Type*) where
  pc : PC α
  mem : Mem α
  prev : Option Obj
  poses : List (Nat → M4 α)

/-- One iteration of the loop of `forward`, icpslam.py:125-137: `recovered_poses[:, s] = live_frame.poses[:, 0]` copies. -/
def iter [FloorRing α] (S : Slam.Sys α) (ctg : View → Bool) (d : Dev) (frames : Obj) (s : Nat) (x : Loop α) : Except Slam.Err (Loop α) :=
  match liveFrame d x.mem frames s with
  | (.error e, _) => .error e
  | (.ok live, m) => match slamStep S ctg x.pc m live x.prev true with
    | (.error e, _, _, _) => .error e
    | (.ok (pc, T), _, m, live) => match setPoses (some T) m live with
      | (.error e, _) => .error (.rgbd e)
      | (.ok (), live) => .ok ⟨pc, m, if S.odom.isGt then none else some live, x.poses ++ [fun b => (m.read T).mat.at' b 0]⟩

/-- `for s in range(n)`, icpslam.py:124. -/
def iters [FloorRing α] (S : Slam.Sys α) (ctg : View → Bool) (d : Dev) (m : Mem α) (frames : Obj) : Nat → Except Slam.Err (Loop α)
  | 0 => .ok ⟨newEmpty, m, none, []⟩
  | n + 1 => match iters S ctg d m frames n with
    | .error e => .error e
    | .ok x => iter S ctg d frames n x

/-- `forward`, icpslam.py:99-138, on device `d`: the map, `recovered_poses` (`torch.empty(…)`, :122, a tensor of its own), and memory. -/
def forward [FloorRing α] (S : Slam.Sys α) (ctg : View → Bool) (d : Dev) (m : Mem α) (frames : Obj) : Except Slam.Err (PC α × View × Mem α) :=
  match iters S ctg d m frames frames.L with
  | .error e => .error e
  | .ok x =>
    let p := x.mem.fresh d (.ofMat ⟨frames.B, frames.L, fun b s => x.poses.getD s (fun _ => M4.one) b⟩)
    .ok (x.pc, p.2, p.1)
end
end Verif.RMem
