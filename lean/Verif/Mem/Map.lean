import Verif.Mem.Model
import Verif.Slam.Model
/-!
Memory model of mapping and of a SLAM step (`gradslam/slam/fusionutils.py`, `icpslam.py`, `pointfusion.py`), map side: which tensors the
map given to a step and the map returned by it refer to afterwards.

Every function is the function of `Verif.Fusion`, `Verif.Icp` or `Verif.Slam` of the same name with the map as an object in memory
(`Verif.Mem.Obj`).  What is computed from the frame (boolean masks and advanced indexing copy) is put into new storages.

Simplifications: frames are values (`Verif.RMem` is about their memory); the frame is on the device of the map (as in
`ICPSLAM.forward`, which moves every frame to its device; otherwise torch raises).
-/
namespace Verif.Mem
open Verif Verif.Pcs

section
variable {α : Type*} [Field α] [LinearOrder α]

/-- The contents of a padded tensor (`[]` if there is none). -/
def valsOf (m : Mem α) (r : Option Nat) : List (T2 α) := (r.map fun r => (m.cell r).vals).getD []

/-- New 2-D tensors with the given values on device `d`: what `[image[b][mask[b]] for b in range(B)]` makes. -/
def newTensors (d : Dev) (m : Mem α) (l : List (T2 α)) : Mem α × List View :=
  (m.alloc l.length fun i => ⟨d, [l.getD i ⟨[], 0⟩], [], []⟩, l.mapIdx fun i t => ⟨m.next + i, 0, t.rows.length⟩)

/-- `None if x is None else …`. -/
def newOpt (d : Dev) (m : Mem α) : Option (List (T2 α)) → Mem α × Option (List View)
  | none => (m, none)
  | some l => ((newTensors d m l).1, some (newTensors d m l).2)

/-- `Pointclouds(points=new_points, normals=…, …)` with new tensors, fusionutils.py:710-717, structures/utils.py:41-57,
icputils.py:620. -/
def construct (d : Dev) (m : Mem α) (arg : Attr → Option (List (T2 α))) : Except Err Obj × Mem α :=
  let p := newOpt d m (arg .points)
  let n := newOpt d p.1 (arg .normals)
  let c := newOpt d n.1 (arg .colors)
  let f := newOpt d c.1 (arg .features)
  newList f.1 (four p.2 n.2 c.2 f.2) (p.2.getD []) none

/-! ### Reading the map -/

/-- `find_active_map_points`, fusionutils.py:198-287 (cf. `Fusion.findActive`): `pointclouds.transform(…)` is a new object. -/
def findActive [FloorRing α] (m : Mem α) (o : Obj) (fr : Fusion.Frame α) : Except Fusion.Err (List Fusion.Row) × Mem α × Obj :=
  if fr.L ≠ 1 then (.error Fusion.valueError, m, o)
  else
    let (h, o) := hasAttr .points o
    if !h then (.ok [], m, o)
    else if fr.B ≠ o.B then (.error Fusion.valueError, m, o)
    else match fr.poses with
      | none => (.error .attributeError, m, o)
      | some T =>
        match outOfPlace (transform_ (.batch ((List.range fr.B).map fun b => Geom.inverseTransform1 (T b 0))) true) m o with
        | (.error e, m, o) => (.error (.pcs e), m, o)
        | (.ok c, m, o) => match getPad .points m c with
          | (.error e, m, _) => (.error (.pcs e), m, o)
          | (.ok p, m, c) => match pinholeProjection_ (.batch ((List.range fr.B).map fr.K)) m c with
            | (.error e, m, _) => (.error (.pcs e), m, o)
            | (.ok (), m1, c) => match getPad .points m1 c with
              | (.error e, m, _) => (.error (.pcs e), m, o)
              | (.ok q, m2, _) =>
                let (k, m3, o) := getMask m2 o
                (.ok (Fusion.activeRows fr.H fr.W (valsOf m p) (valsOf m2 q) (bitsOf m3 k)), m3, o)

/-- `find_similar_map_points`, fusionutils.py:290-411 (cf. `Fusion.findSimilarRaw`). -/
def findSimilar (nrm : V3 α → α) (m : Mem α) (o : Obj) (r : Fusion.Raw α) (rows : List Fusion.Row) (distTh dotTh : α) :
    Except Fusion.Err (List Fusion.Row × List Bool) × Mem α × Obj :=
  if r.L ≠ 1 then (.error Fusion.valueError, m, o)
  else
    let (h, o) := hasAttr .points o
    if !h || rows.length = 0 then (.ok ([], []), m, o)
    else if r.B ≠ o.B then (.error Fusion.valueError, m, o)
    else
      let (hn, o) := hasAttr .normals o
      if !hn then (.error Fusion.valueError, m, o)
      else match getPad .points m o with
        | (.error e, m, o) => (.error (.pcs e), m, o)
        | (.ok p, m1, o) => match getPad .normals m1 o with
          | (.error e, m, o) => (.error (.pcs e), m, o)
          | (.ok nn, m, o) =>
            if !Fusion.rowsInRange rows (shape3 (valsOf m1 p)).1 (shape3 (valsOf m1 p)).2.1 r.frame then (.error (.pcs .indexError), m, o)
            else if !r.fits then (.error (.pcs .runtimeError), m, o)
            else
              let keep := fun x : Fusion.Row => Fusion.similarAt nrm r.frame rows (valsOf m1 p) (valsOf m nn) distTh dotTh x.b x.n
              (.ok (rows.filter keep, rows.map keep), m, o)

/-- `find_best_unique_correspondences`, fusionutils.py:414-546 (cf. `Fusion.findBestRaw`). -/
def findBest (m : Mem α) (o : Obj) (r : Fusion.Raw α) (rows : List Fusion.Row) : Except Fusion.Err (List Fusion.Row) × Mem α × Obj :=
  if r.L ≠ 1 then (.error Fusion.valueError, m, o)
  else
    let (h, o) := hasAttr .points o
    if !h || rows.length = 0 then (.ok [], m, o)
    else if r.B ≠ o.B then (.error Fusion.valueError, m, o)
    else
      let (hf, o) := hasAttr .features o
      if !hf then (.error Fusion.valueError, m, o)
      else match getPad .features m o with
        | (.error e, m, o) => (.error (.pcs e), m, o)
        | (.ok f, m1, o) => match getPad .points m1 o with
          | (.error e, m, o) => (.error (.pcs e), m, o)
          | (.ok p, m, o) =>
            if !Fusion.rowsInRange rows (shape3 (valsOf m p)).1 (shape3 (valsOf m p)).2.1 r.frame then (.error (.pcs .indexError), m, o)
            else if !r.fits then (.error (.pcs .runtimeError), m, o)
            else (.ok (Fusion.bestRows (rows.map (Fusion.keyOf r.frame (valsOf m p) (valsOf m1 f)))), m, o)

/-- `find_correspondences`, fusionutils.py:549-577. -/
def findCorrespondences [FloorRing α] (nrm : V3 α → α) (m : Mem α) (o : Obj) (r : Fusion.Raw α) (distTh dotTh : α) :
    Except Fusion.Err (List Fusion.Row) × Mem α × Obj :=
  match findActive m o r.camera with
  | (.error e, m, o) => (.error e, m, o)
  | (.ok rows, m, o) => match findSimilar nrm m o r rows distTh dotTh with
    | (.error e, m, o) => (.error e, m, o)
    | (.ok (rows, _), m, o) => findBest m o r rows

/-! ### Updating the map -/

/-- Assign new tensors to several padded attributes in turn (the setter clones them), stopping at the first error. -/
def setPads : List (Attr × List (T2 α)) → Mem α → Obj → Except Fusion.Err Unit × Mem α × Obj
  | [], m, o => (.ok (), m, o)
  | (X, v) :: rest, m, o => match setPad X m.next (m.alloc 1 fun _ => ⟨o.dev, v, [], []⟩) o with
    | (.error e, m, o) => (.error (.pcs e), m, o)
    | (.ok (), m, o) => setPads rest m o

/-- The block `if pointclouds.has_points and pc2im_bnhw.shape[0] != 0: ...`, fusionutils.py:659-699 (cf. `Fusion.mergeStep`): new tensors
are computed and assigned; no tensor of the map is written to. -/
def mergeStep (al : V3 α → α) (m : Mem α) (o : Obj) (fr : Fusion.Frame α) (rows : List Fusion.Row) : Except Fusion.Err Unit × Mem α × Obj :=
  match getPad .points m o with
  | (.error e, m, o) => (.error (.pcs e), m, o)
  | (.ok p, m1, o) => match getPad .normals m1 o with
    | (.error e, m, o) => (.error (.pcs e), m, o)
    | (.ok nn, m2, o) => match getPad .colors m2 o with
      | (.error e, m, o) => (.error (.pcs e), m, o)
      | (.ok cc, m3, o) => match getPad .features m3 o with
        | (.error e, m, o) => (.error (.pcs e), m, o)
        | (.ok f, m, o) =>
          let f := valsOf m f
          if !Fusion.rowsInRange rows (shape3 (valsOf m1 p)).1 (shape3 (valsOf m1 p)).2.1 fr then (.error (.pcs .indexError), m, o)
          else if (shape3 f).2.2 ≠ 1 ∧ (shape3 f).2.2 ≠ 3 then (.error (.pcs .runtimeError), m, o)
          else
            let a := Fusion.scatterAl al fr rows
            setPads
              [(.points, mapRows (fun b n r => Fusion.mergeRow (Fusion.cell f b n) (a b n) (Fusion.scatter rows fr.gv b n) r) (valsOf m1 p)),
               (.normals, mapRows (fun b n r => Fusion.mergeRow (Fusion.cell f b n) (a b n) (Fusion.scatter rows fr.gn b n) r) (valsOf m2 nn)),
               (.colors, mapRows (fun b n r => Fusion.mergeRow (Fusion.cell f b n) (a b n) (Fusion.scatter rows fr.rgb b n) r) (valsOf m3 cc)),
               (.features, mapRows (fun b n r => r.map fun c => c + a b n) f)] m o

/-- `if not inplace: pointclouds = pointclouds.clone()`, `pointclouds.append_points(new)`, `return pointclouds`, fusionutils.py:718-722 and
:755-758: the map returned is the object itself or a new one. -/
def cloneAppend (inplace : Bool) (m : Mem α) (o new : Obj) : Except Fusion.Err Moved × Mem α × Obj :=
  if inplace then match append m o new with
    | (.error e, m, o, _) => (.error (.pcs e), m, o)
    | (.ok (), m, o, _) => (.ok .self, m, o)
  else match clone m o with
    | (.error e, m, o) => (.error (.pcs e), m, o)
    | (.ok c, m, o) => match append m c new with
      | (.error e, m, _, _) => (.error (.pcs e), m, o)
      | (.ok (), m, c, _) => (.ok (.new c), m, o)

/-- The attribute checks at the top of `fuse_with_map`, fusionutils.py:639-651. -/
def requireAll : List Attr → Obj → Bool × Obj
  | [], o => (true, o)
  | X :: rest, o =>
    let (h, o) := hasAttr X o
    if h then requireAll rest o else (false, o)

/-- `fuse_with_map`, fusionutils.py:580-722 (cf. `Fusion.fuseWithMapRaw`). -/
def fuseWithMap (al : V3 α → α) (m : Mem α) (o : Obj) (r : Fusion.Raw α) (rows : List Fusion.Row) (inplace : Bool) :
    Except Fusion.Err Moved × Mem α × Obj :=
  let (h, o) := hasAttr .points o
  let (ok, o) := if h then requireAll [.normals, .colors, .features] o else (true, o)
  if !ok then (.error Fusion.valueError, m, o)
  else if r.v.sh.d4 ≠ 3 then (.error Fusion.valueError, m, o)
  else
    let use := h && decide (rows.length ≠ 0)
    match (if use then mergeStep al m o r.frame rows else (.ok (), m, o)) with
    | (.error e, m, o) => (.error e, m, o)
    | (.ok (), m, o) => match Fusion.pickShape r with
      | .error e => (.error e, m, o)
      | .ok () =>
        let k := Fusion.newMask r.frame (if use then rows else [])
        match construct o.dev m (Fusion.newArg al r.frame k) with
        | (.error e, m) => (.error (.pcs e), m, o)
        | (.ok new, m) => cloneAppend inplace m o new

/-- `update_map_fusion`, fusionutils.py:761-789. -/
def updateMapFusion [FloorRing α] (nrm al : V3 α → α) (m : Mem α) (o : Obj) (r : Fusion.Raw α) (distTh dotTh : α) (inplace : Bool) :
    Except Fusion.Err Moved × Mem α × Obj :=
  match findCorrespondences nrm m o r distTh dotTh with
  | (.error e, m, o) => (.error e, m, o)
  | (.ok rows, m, o) => fuseWithMap al m o r rows inplace

/-- `update_map_aggregate`, fusionutils.py:725-758, with `pointclouds_from_rgbdimages`, structures/utils.py:7-57 (valid pixels only, so the
tensors are new). -/
def updateMapAggregate (m : Mem α) (o : Obj) (fr : Fusion.Frame α) (inplace : Bool) : Except Fusion.Err Moved × Mem α × Obj :=
  if fr.L ≠ 1 then (.error Fusion.valueError, m, o)
  else match construct o.dev m (Fusion.frameArg fr true fr.valid) with
    | (.error e, m) => (.error (.pcs e), m, o)
    | (.ok new, m) => cloneAppend inplace m o new

/-! ### A SLAM step -/

/-- The points picked from the lists, icputils.py:599-606 (`points_list` is None for a map without points). -/
def dsPoints (B : Nat) (p : Option (List (T2 α))) (rows : List Fusion.Row) : Except Icp.Err (List (T2 α)) :=
  match p with
  | none => if B = 0 then .ok [] else .error (.pcs .typeError)
  | some l => Icp.gather B l rows

/-- `downsample_pointclouds`, icputils.py:548-620 (cf. `Icp.downsamplePointclouds`): advanced indexing makes new tensors. -/
def downsample (m : Mem α) (o : Obj) (rows : List Fusion.Row) (ds : Int) : Except Icp.Err Obj × Mem α × Obj :=
  if ds = 0 ∧ rows ≠ [] then (.error .runtimeError, m, o)
  else
    let rows := Icp.gridRows ds rows
    let (p, o) := getList .points m o
    match dsPoints o.B (p.map fun l => l.map m.read) rows with
    | .error e => (.error e, m, o)
    | .ok P =>
      let (n, o) := getList .normals m o
      match Icp.gatherOpt o.B (n.map fun l => l.map m.read) rows with
      | .error e => (.error e, m, o)
      | .ok Nn =>
        let (c, o) := getList .colors m o
        match Icp.gatherOpt o.B (c.map fun l => l.map m.read) rows with
        | .error e => (.error e, m, o)
        | .ok C => match construct o.dev m (Icp.dsMapArg P Nn C) with
          | (.error e, m) => (.error (.pcs e), m, o)
          | (.ok k, m) => (.ok k, m, o)

/-- `_localize` with a provider, icpslam.py:238-247 (cf. `Slam.odometry`); the provider only reads the two clouds it is given. -/
def odometry [FloorRing α] (S : Slam.Sys α) (provide : PC α → PC α → Except Icp.Err (List (M4 α))) (m : Mem α) (o : Obj)
    (live prev : Rgbd.Obj α) (P : Rgbd.TM α) : Except Slam.Err (Rgbd.TM α) × Mem α × Obj × Rgbd.Obj α :=
  match Rgbd.setPoses (some P) live with
  | (.error e, live) => (.error (.rgbd e), m, o, live)
  | (.ok (), live) => match Slam.withFrame S.nrm S.eps live (fun fr => match Icp.downsampleRaw fr S.ds with
      | .error e => .error (.icp e)
      | .ok o => .ok o) with
    | (.error e, live) => (.error e, m, o, live)
    | (.ok framesPc, live) => match findActive m o (Slam.camera prev) with
      | (.error e, m, o) => (.error (.fusion e), m, o, live)
      | (.ok rows, m, o) => match downsample m o rows S.ds with
        | (.error e, m, o) => (.error (.icp e), m, o, live)
        | (.ok c, m, o) => match provide (val m c) framesPc with
          | .error e => (.error (.icp e), m, o, live)
          | .ok T => (.ok ⟨T.length, 1, fun b _ => Geom.composeTransforms1 (T.getD b M4.one) (P.at' b 0)⟩, m, o, live)

/-- `_localize`, icpslam.py:180-247. -/
def localize [FloorRing α] (S : Slam.Sys α) (m : Mem α) (o : Obj) (live : Rgbd.Obj α) (prev : Option (Rgbd.Obj α)) :
    Except Slam.Err (Rgbd.TM α) × Mem α × Obj × Rgbd.Obj α :=
  match S.odom, prev with
  | .prov provide, some prev => match prev.poses with
    | none => (.error .valueError, m, o, live)
    | some P => odometry S provide m o live prev P
  | _, _ => match live.poses with
    | none => (.error .valueError, m, o, live)
    | some P => (.ok P, m, o, live)

/-- `_map`, icpslam.py:249-264 and pointfusion.py:107-112. -/
def mapStep [FloorRing α] (S : Slam.Sys α) (m : Mem α) (o : Obj) (live : Rgbd.Obj α) (inplace : Bool) :
    Except Slam.Err Moved × Mem α × Obj × Rgbd.Obj α :=
  match S.mapper with
  | .aggregate => match Slam.readAggregate S live with
    | (.error e, live) => (.error (.rgbd e), m, o, live)
    | (.ok fr, live) => match updateMapAggregate m o fr inplace with
      | (.error e, m, o) => (.error (.fusion e), m, o, live)
      | (.ok r, m, o) => (.ok r, m, o, live)
  | .fusion d t => match Fusion.readRaw S.nrm S.eps live with
    | (.error e, live) => (.error (.rgbd e), m, o, live)
    | (.ok fr, live) => match updateMapFusion S.nrm S.al m o fr d t inplace with
      | (.error e, m, o) => (.error (.fusion e), m, o, live)
      | (.ok r, m, o) => (.ok r, m, o, live)

/-- `step`, icpslam.py:140-178 (cf. `Slam.step`). -/
def slamStep [FloorRing α] (S : Slam.Sys α) (m : Mem α) (o : Obj) (live : Rgbd.Obj α) (prev : Option (Rgbd.Obj α)) (inplace : Bool) :
    Except Slam.Err (Moved × Rgbd.TM α) × Mem α × Obj × Rgbd.Obj α :=
  match localize S m o live prev with
  | (.error e, m, o, live) => (.error e, m, o, live)
  | (.ok T, m, o, live) => match Rgbd.setPoses (some T) live with
    | (.error e, live) => (.error (.rgbd e), m, o, live)
    | (.ok (), live) => match mapStep S m o live inplace with
      | (.error e, m, o, live) => (.error e, m, o, live)
      | (.ok r, m, o, live) => (.ok (r, T), m, o, live)

/-! ### forward -/

/-- The variables of `forward` that live across iterations (cf. `Slam.Loop`), with memory. -/
structure Loop (α : Type*) where
  mem : Mem α
  obj : Obj
  prev : Option (Rgbd.Obj α)
  poses : List (Nat → M4 α)

/-- The object a call returned, the object given to it being `o`. -/
def Moved.get (o : Obj) : Moved → Obj
  | .self => o
  | .new c => c

/-- One iteration of the loop of `forward`, icpslam.py:125-137 (cf. `Slam.iter`). -/
def iter [FloorRing α] (S : Slam.Sys α) (frames : Rgbd.Obj α) (s : Nat) (x : Loop α) : Except Slam.Err (Loop α) :=
  match Slam.liveFrame frames s with
  | .error e => .error e
  | .ok live => match slamStep S x.mem x.obj live x.prev true with
    | (.error e, _, _, _) => .error e
    | (.ok (r, T), m, o, live) => match Rgbd.setPoses (some T) live with
      | (.error e, _) => .error (.rgbd e)
      | (.ok (), live) => .ok ⟨m, r.get o, if S.odom.isGt then none else some live, x.poses ++ [fun b => T.at' b 0]⟩

/-- `for s in range(n)`, from `pointclouds = Pointclouds(device=self.device)`, icpslam.py:120-124. -/
def iters [FloorRing α] (S : Slam.Sys α) (d : Dev) (m : Mem α) (frames : Rgbd.Obj α) : Nat → Except Slam.Err (Loop α)
  | 0 => .ok ⟨(newEmpty m d).1, (newEmpty m d).2, none, []⟩
  | n + 1 => match iters S d m frames n with
    | .error e => .error e
    | .ok x => iter S frames n x

/-- `forward`, icpslam.py:99-138, on device `d`: the map, `recovered_poses`, and memory afterwards. -/
def forward [FloorRing α] (S : Slam.Sys α) (d : Dev) (m : Mem α) (frames : Rgbd.Obj α) : Except Slam.Err (Obj × Rgbd.TM α × Mem α) :=
  match iters S d m frames frames.L with
  | .error e => .error e
  | .ok x => .ok (x.obj, ⟨frames.B, frames.L, fun b s => x.poses.getD s (fun _ => M4.one) b⟩, x.mem)
end
end Verif.Mem
