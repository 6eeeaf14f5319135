import Verif.Fusion.ReadFrame
import Verif.Icp.Raw
import Mathlib.Analysis.SpecialFunctions.Trigonometric.Basic
/-!
Model of `gradslam/slam/icpslam.py` (class `ICPSLAM`) and `gradslam/slam/pointfusion.py` (class `PointFusion`).

The map is a `Pointclouds` object, frames are `RGBDImages` objects; every call returns its outcome and the caller's objects afterwards.
Simplifications: those of the modules used; warnings, devices (all objects are on the device of the SLAM object, so `.to(device)` returns
the object itself) and the TypeError branches are left out; `live_frame` and `prev_frame` are different objects.  Frames may have either
channel order: the functions that index pixels as `[b, 0, h, w]` are modelled on the tensors as they are (`Verif.Fusion.Raw`,
`Verif.Icp.Raw`).
-/
namespace Verif.Slam
open Verif Pcs

inductive Err
  | valueError
  | rgbd (e : Rgbd.Err)
  | fusion (e : Fusion.Err)
  | icp (e : Icp.Err)
  deriving DecidableEq, Repr

section
variable {α : Type*} [Field α] [LinearOrder α]

/-- `self.odom` and `self.odomprov`: ground truth, or a provider (`provide(maps, frames)`: one transform per batch element). -/
inductive Odom (α : Type*) where
  | gt
  | prov (provide : PC α → PC α → Except Icp.Err (List (M4 α)))

/-- Which `_map` the class has: `ICPSLAM._map` or `PointFusion._map` with `dist_th`, `dot_th`. -/
inductive Mapper (α : Type*) where
  | aggregate
  | fusion (distTh dotTh : α)

/-- A SLAM object.  `al` is the confidence weight for the object's `sigma`, `nrm` is `torch.norm`, `eps` the constant of
`inverse_intrinsics`. -/
structure Sys (α : Type*) where
  odom : Odom α
  ds : Int
  mapper : Mapper α
  nrm : V3 α → α
  al : V3 α → α
  eps : α

def Odom.isGt : Odom α → Bool
  | .gt => true
  | .prov _ => false

/-- What `find_active_map_points` reads of a frame: shape, poses, intrinsics (no map is computed). -/
def camera (s : Rgbd.Obj α) : Fusion.Frame α :=
  ⟨s.B, s.L, s.H, s.W, fun _ _ _ _ => .zero, fun _ _ _ _ => .zero, fun _ _ _ _ => .zero, fun _ _ _ _ => .zero, fun _ _ _ _ => .zero,
    fun _ _ _ _ => false, s.poses.map Rgbd.TM.at', fun b => s.K.at' b 0⟩

/-- Run a function that reads from a frame object. -/
def withFrame {β : Type*} (nrm : V3 α → α) (eps : α) (o : Rgbd.Obj α) (f : Fusion.Raw α → Except Err β) : Except Err β × Rgbd.Obj α :=
  match Fusion.readRaw nrm eps o with
  | (.error e, o) => (.error (.rgbd e), o)
  | (.ok fr, o) => (f fr, o)

/-- `_localize` with a provider, icpslam.py:238-247. -/
def odometry [FloorRing α] (S : Sys α) (provide : PC α → PC α → Except Icp.Err (List (M4 α))) (pc : PC α) (live prev : Rgbd.Obj α)
    (P : Rgbd.TM α) : Except Err (Rgbd.TM α) × PC α × Rgbd.Obj α :=
  match Rgbd.setPoses (some P) live with
  | (.error e, live) => (.error (.rgbd e), pc, live)
  | (.ok (), live) => match withFrame S.nrm S.eps live (fun fr => match Icp.downsampleRaw fr S.ds with
      | .error e => .error (.icp e)
      | .ok o => .ok o) with
    | (.error e, live) => (.error e, pc, live)
    | (.ok framesPc, live) => match Fusion.findActive pc (camera prev) with
      | (.error e, pc) => (.error (.fusion e), pc, live)
      | (.ok rows, pc) => match Icp.downsamplePointclouds pc rows S.ds with
        | (.error e, pc) => (.error (.icp e), pc, live)
        | (.ok mapsPc, pc) => match provide mapsPc framesPc with
          | .error e => (.error (.icp e), pc, live)
          | .ok T => (.ok ⟨T.length, 1, fun b _ => Geom.composeTransforms1 (T.getD b M4.one) (P.at' b 0)⟩, pc, live)

/-- `_localize`, icpslam.py:180-247. -/
def localize [FloorRing α] (S : Sys α) (pc : PC α) (live : Rgbd.Obj α) (prev : Option (Rgbd.Obj α)) :
    Except Err (Rgbd.TM α) × PC α × Rgbd.Obj α :=
  match S.odom, prev with
  | .prov provide, some prev => match prev.poses with
    | none => (.error .valueError, pc, live)
    | some P => odometry S provide pc live prev P
  | _, _ => match live.poses with
    | none => (.error .valueError, pc, live)
    | some P => (.ok P, pc, live)

/-- What `pointclouds_from_rgbdimages` reads: it works on `rgbdimages.to_channels_last()`, a copy if the frame is channels-first
(structures/utils.py:39). -/
def readAggregate (S : Sys α) (live : Rgbd.Obj α) : Except Rgbd.Err (Fusion.Frame α) × Rgbd.Obj α :=
  if live.cf then match Rgbd.toLast false live with
    | .error e => (.error e, live)
    | .ok o => ((Fusion.readFrame S.nrm S.eps o).1, live)
  else Fusion.readFrame S.nrm S.eps live

/-- `_map`, icpslam.py:249-264 and pointfusion.py:107-112. -/
def mapStep [FloorRing α] (S : Sys α) (pc : PC α) (live : Rgbd.Obj α) (inplace : Bool) : Except Err (PC α) × PC α × Rgbd.Obj α :=
  match S.mapper with
  | .aggregate => match readAggregate S live with
    | (.error e, live) => (.error (.rgbd e), pc, live)
    | (.ok fr, live) => match Fusion.updateMapAggregate pc fr inplace with
      | (.error e, pc) => (.error (.fusion e), pc, live)
      | (.ok r, pc) => (.ok r, pc, live)
  | .fusion d t => match Fusion.readRaw S.nrm S.eps live with
    | (.error e, live) => (.error (.rgbd e), pc, live)
    | (.ok fr, live) => match Fusion.updateMapFusionRaw S.nrm S.al pc fr d t inplace with
      | (.error e, pc) => (.error (.fusion e), pc, live)
      | (.ok r, pc) => (.ok r, pc, live)

/-- `step`, icpslam.py:140-178.  Returns `(pointclouds, poses)` and the caller's map and live frame afterwards (the previous frame is
only read).  `live_frame.poses` after the assignment is the value assigned, so the last read of `live_frame.poses` returns it. -/
def step [FloorRing α] (S : Sys α) (pc : PC α) (live : Rgbd.Obj α) (prev : Option (Rgbd.Obj α)) (inplace : Bool) :
    Except Err (PC α × Rgbd.TM α) × PC α × Rgbd.Obj α :=
  match localize S pc live prev with
  | (.error e, pc, live) => (.error e, pc, live)
  | (.ok T, pc, live) => match Rgbd.setPoses (some T) live with
    | (.error e, live) => (.error (.rgbd e), pc, live)
    | (.ok (), live) => match mapStep S pc live inplace with
      | (.error e, pc, live) => (.error e, pc, live)
      | (.ok r, pc, live) => (.ok (r, T), pc, live)

/-- `frames[:, s]`. -/
def frameAt (frames : Rgbd.Obj α) (s : Nat) : Except Err (Rgbd.Obj α) :=
  match Rgbd.getitem (.tup [.slice none none none, .int s]) frames with
  | .error e => .error (.rgbd e)
  | .ok o => .ok o

/-- `torch.eye(4).view(1, 1, 4, 4).repeat(batch_size, 1, 1, 1)`. -/
def eyes (B : Nat) : Rgbd.TM α := ⟨B, 1, fun _ _ => M4.one⟩

/-- One iteration of the loop of `forward` up to the call of `self.step`, icpslam.py:125-132: the live frame. -/
def liveFrame (frames : Rgbd.Obj α) (s : Nat) : Except Err (Rgbd.Obj α) :=
  match frameAt frames s with
  | .error e => .error e
  | .ok live =>
    if s = 0 ∧ live.poses = none then match Rgbd.setPoses (some (eyes frames.B)) live with
      | (.error e, _) => .error (.rgbd e)
      | (.ok (), live) => .ok live
    else .ok live

/-- The variables of `forward` that live across iterations: `pointclouds`, `prev_frame`, and the filled part of `recovered_poses`. -/
structure Loop (α : Type*) where
  pc : PC α
  prev : Option (Rgbd.Obj α)
  poses : List (Nat → M4 α)

/-- One iteration of the loop of `forward`, icpslam.py:125-137. -/
def iter [FloorRing α] (S : Sys α) (frames : Rgbd.Obj α) (s : Nat) (x : Loop α) : Except Err (Loop α) :=
  match liveFrame frames s with
  | .error e => .error e
  | .ok live => match step S x.pc live x.prev true with
    | (.error e, _, _) => .error e
    | (.ok (pc, T), _, live) => match Rgbd.setPoses (some T) live with
      | (.error e, _) => .error (.rgbd e)
      | (.ok (), live) => .ok ⟨pc, if S.odom.isGt then none else some live, x.poses ++ [fun b => T.at' b 0]⟩

/-- `for s in range(n)` from the state before the loop. -/
def iters [FloorRing α] (S : Sys α) (frames : Rgbd.Obj α) : Nat → Except Err (Loop α)
  | 0 => .ok ⟨newEmpty, none, []⟩
  | n + 1 => match iters S frames n with
    | .error e => .error e
    | .ok x => iter S frames n x

/-- `forward`, icpslam.py:99-138: the map and `recovered_poses`. -/
def forward [FloorRing α] (S : Sys α) (frames : Rgbd.Obj α) : Except Err (PC α × Rgbd.TM α) :=
  match iters S frames frames.L with
  | .error e => .error e
  | .ok x => .ok (x.pc, ⟨frames.B, frames.L, fun b s => x.poses.getD s (fun _ => M4.one) b⟩)
end

/-! ### Constructors -/

/-- The keyword arguments shared by the two classes. -/
structure Params where
  ds : Int
  numiters : Int
  damp : ℝ
  distThresh : Option ℝ
  lambdaMax : ℝ
  B : ℝ
  B2 : ℝ
  nu : ℝ

/-- The odometry object chosen by `ICPSLAM.__init__`, icpslam.py:80-94; `nn` is the nearest-neighbour search and `epsE` the small-angle
cut-off of `se3_exp`. -/
noncomputable def odomOf (nn : List (V3 ℝ) → V3 ℝ → Nat) (epsE : ℝ) (p : Params) (odom : String) : Except Err (Odom ℝ) :=
  if odom = "gt" then .ok .gt
  else if odom = "icp" then
    .ok (.prov (Icp.provide fun src tgt nrm T0 => Icp.pointToPlaneICP epsE nn src tgt nrm T0 p.numiters p.damp p.distThresh))
  else if odom = "gradicp" then
    .ok (.prov (Icp.provide fun src tgt nrm T0 =>
      Icp.pointToPlaneGradICP epsE p.lambdaMax p.B p.B2 p.nu nn src tgt nrm T0 p.numiters p.damp p.distThresh))
  else .error .valueError

/-- `ICPSLAM(odom=..., ...)`, icpslam.py:65-97. -/
noncomputable def icpSlam (nn : List (V3 ℝ) → V3 ℝ → Nat) (epsE eps : ℝ) (nrm al : V3 ℝ → ℝ) (p : Params) (odom : String) : Except Err (Sys ℝ) :=
  match odomOf nn epsE p odom with
  | .error e => .error e
  | .ok o => .ok ⟨o, p.ds, .aggregate, nrm, al, eps⟩

/-- `PointFusion(odom=..., dist_th=..., angle_th=..., sigma=..., ...)`, pointfusion.py:53-105: the angle threshold is in degrees. -/
noncomputable def pointFusion (nn : List (V3 ℝ) → V3 ℝ → Nat) (epsE eps : ℝ) (nrm : V3 ℝ → ℝ) (al : ℝ → V3 ℝ → ℝ) (p : Params) (odom : String)
    (distTh angleTh sigma : ℝ) : Except Err (Sys ℝ) :=
  match odomOf nn epsE p odom with
  | .error e => .error e
  | .ok o => .ok ⟨o, p.ds, .fusion distTh (Real.cos (angleTh * Real.pi / 180)), nrm, al sigma, eps⟩
end Verif.Slam
