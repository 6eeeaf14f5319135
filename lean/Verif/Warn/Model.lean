import Verif.Slam.Loop
import Verif.Slam.Thresholds
/-!
The warnings of SLAM.

Each function here lists, in order, the warnings that one of the functions of `Fusion/Model`, `Fusion/Raw` and `Slam/Model` emits when it is
called on the same arguments; the control flow between the warnings is that of those models.  A warning is emitted at its line if the call
gets there; a later exception does not take it back.  Warning filters (`warnings.simplefilter`) act on what is listed here.
-/
namespace Verif.Warn
open Verif Pcs Fusion Slam

inductive Warn
  /-- "No active map points were found", fusionutils.py:285. -/
  | noActive
  /-- "No similar map points were found (despite total {0} active points across the batch)", fusionutils.py:404-409. -/
  | noSimilar (active : Nat)
  /-- "Max of dot product was {0} > 1. ...", fusionutils.py:188-194. -/
  | dots
  /-- "`prev_frame` is not used when using `odom='gt'`", icpslam.py:221-223. -/
  | prevIgnored
  /-- "`prev_frame` was None despite `{}` odometry method. Using `live_frame` poses.", icpslam.py:226-230. -/
  | prevMissing
  deriving DecidableEq, Repr

section
variable {α : Type*} [Field α] [LinearOrder α]

/-- `find_active_map_points`, fusionutils.py:284-285: after all checks, if the table has no row.  Without points the function has
returned before (:236-237). -/
def activeWarn [FloorRing α] (pc : PC α) (fr : Fusion.Frame α) : List Warn :=
  match (findActive pc fr).1 with
  | .error _ => []
  | .ok rows => if (hasAttr .points pc).1 && decide (rows.length = 0) then [.noActive] else []

/-- `are_normals_similar`, fusionutils.py:187-194: some entry of the product of the padded normals with the frame's exceeds 1.001. -/
def dotsExceed (fr : Fusion.Frame α) (rows : List Row) (nn : List (T2 α)) : Bool :=
  (List.range (shape3 nn).1).any fun b => (List.range (shape3 nn).2.1).any fun n =>
    decide (1001 / 1000 < (scatter rows fr.gn b n).dot (toV3 (cell nn b n)))

/-- `find_similar_map_points`, fusionutils.py:360-409: nothing on the early return (:361-364) and on errors (all errors come before the
tests); otherwise the warning of `are_normals_similar`, then that of an empty table. -/
def similarWarn (nrm : V3 α → α) (pc : PC α) (r : Raw α) (rows : List Row) (distTh dotTh : α) : List Warn :=
  match (findSimilarRaw nrm pc r rows distTh dotTh).1 with
  | .error _ => []
  | .ok (out, _) =>
    if !(hasAttr .points pc).1 || decide (rows.length = 0) then []
    else
      (match (getPad .normals (getPad .points (hasAttr .normals (hasAttr .points pc).2).2).2).1 with
        | .ok nn => if dotsExceed r.frame rows (nn.getD []) then [.dots] else []
        | .error _ => []) ++
      if out.length = 0 then [.noSimilar rows.length] else []

/-- `_map`, icpslam.py:249-264 and pointfusion.py:107-112: `update_map_aggregate` warns about nothing; `update_map_fusion` first looks for
active points (reading only the camera of the frame), then for similar ones (reading its maps). -/
def mapWarn [FloorRing α] (S : Sys α) (pc : PC α) (live : Rgbd.Obj α) : List Warn :=
  match S.mapper with
  | .aggregate => []
  | .fusion d t =>
    activeWarn pc (camera live) ++
    match (findActive pc (camera live)) with
    | (.error _, _) => []
    | (.ok rows, pc) => match (readRaw S.nrm S.eps live).1 with
      | .error _ => []
      | .ok fr => similarWarn S.nrm pc fr rows d t

/-- `_localize`, icpslam.py:219-247. -/
def localizeWarn [FloorRing α] (S : Sys α) (pc : PC α) (live : Rgbd.Obj α) (prev : Option (Rgbd.Obj α)) : List Warn :=
  match S.odom, prev with
  | .gt, some _ => [.prevIgnored]
  | .gt, none => []
  | .prov _, none => if (hasAttr .points pc).1 then [.prevMissing] else []
  | .prov _, some prev => match prev.poses with
    | none => []
    | some P => match Rgbd.setPoses (some P) live with
      | (.error _, _) => []
      | (.ok (), live) => match (withFrame S.nrm S.eps live (fun fr => match Icp.downsampleRaw fr S.ds with
          | .error e => .error (.icp e)
          | .ok o => .ok o)).1 with
        | .error _ => []
        | .ok _ => activeWarn pc (camera prev)

/-- `step`, icpslam.py:140-178. -/
def stepWarn [FloorRing α] (S : Sys α) (pc : PC α) (live : Rgbd.Obj α) (prev : Option (Rgbd.Obj α)) : List Warn :=
  localizeWarn S pc live prev ++
  match localize S pc live prev with
  | (.error _, _, _) => []
  | (.ok T, pc, live) => match Rgbd.setPoses (some T) live with
    | (.error _, _) => []
    | (.ok (), live) => mapWarn S pc live

/-- Iteration `s` of the loop of `forward` from the state `x`, icpslam.py:125-137. -/
def iterWarn [FloorRing α] (S : Sys α) (frames : Rgbd.Obj α) (s : Nat) (x : Loop α) : List Warn :=
  match liveFrame frames s with
  | .error _ => []
  | .ok live => stepWarn S x.pc live x.prev

/-- The first `n` iterations; none after a failed one. -/
def itersWarn [FloorRing α] (S : Sys α) (frames : Rgbd.Obj α) : Nat → List Warn
  | 0 => []
  | n + 1 => itersWarn S frames n ++
    match iters S frames n with
    | .error _ => []
    | .ok x => iterWarn S frames n x

/-- `forward`. -/
def forwardWarn [FloorRing α] (S : Sys α) (frames : Rgbd.Obj α) : List Warn := itersWarn S frames frames.L
end

end Verif.Warn
