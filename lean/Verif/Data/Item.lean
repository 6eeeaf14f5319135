import Verif.Data.ImagesProps
import Verif.Data.SeqProps
import Verif.Data.Files
/-!
Model of `__getitem__` of the three datasets (tum.py, icl.py, scannet.py): reading, preprocessing and assembling one item.

Not modelled: decoding of image files (`imageio.imread` is a function from paths to images), `cv2.resize` (a parameter, `Resize`), the
casts between float64 and float32.  The images of one item are loaded colour first, then depth, then labels; the code loads them frame
by frame, which differs only in which exception is raised when several files are bad.
-/
namespace Verif.Data

section
variable {α : Type} [Field α]

/-- The options stored by the constructors: tum.py:139-153, icl.py:147-160, scannet.py:87-101. `extra` is `return_timestamps` (TUM) or
`return_labels` (Scannet), `scannet20` is `seg_classes.lower() == "scannet20"`. -/
structure Opts where
  height : Nat
  width : Nat
  cf : Bool
  normalize : Bool
  depth : Bool
  intrinsics : Bool
  pose : Bool
  transform : Bool
  names : Bool
  extra : Bool
  scannet20 : Bool

/-- `cv2.resize` with `INTER_LINEAR` on `(h, w, c)` images and with `INTER_NEAREST` on `(h, w)` images; arguments height, width, image. -/
structure Resize (α : Type) where
  linear : Nat → Nat → Tensor α → Tensor α
  nearest : Nat → Nat → Tensor α → Tensor α
  nearestL : Nat → Nat → Tensor Nat → Tensor Nat

/-- `_preprocess_color`, tum.py:436-457, icl.py:468-489, scannet.py:289-310. -/
def colorOne (R : Resize α) (o : Opts) (img : Tensor α) : Except Err (Tensor α) :=
  let color := R.linear o.height o.width img
  let color := if o.normalize then normalizeImage color else color
  if o.cf then channelsFirst color else .ok color

/-- `np.expand_dims(x, -1)`. -/
def expandLast {β : Type} (t : Tensor β) : Tensor β := ⟨t.shape ++ [1], fun i => t.get i.dropLast⟩

/-- `_preprocess_depth`, tum.py:459-481, icl.py:491-513, scannet.py:312-334; `scale` is `self.scaling_factor`. -/
def depthOne (R : Resize α) (o : Opts) (scale : α) (img : Tensor α) : Except Err (Tensor α) :=
  let depth := expandLast (R.nearest o.height o.width img)
  match if o.cf then channelsFirst depth else .ok depth with
  | .error e => .error e
  | .ok d => .ok { d with get := fun i => d.get i / scale }

/-- `nyu40_to_scannet20` on one label: the passes of `nyu40ToScannet20` (Images.lean) act on every pixel by itself (`remap_pointwise`). -/
@[irreducible] def remapLabel (l : Nat) : Nat := remapping.foldl (fun l p => if l = p.1 then p.2 else l) l

/-- `_preprocess_label`, scannet.py:375-394. -/
def labelOne (R : Resize α) (o : Opts) (img : Tensor Nat) : Except Err (Tensor Nat) :=
  let label := R.nearestL o.height o.width img
  .ok (expandLast (if o.scannet20 then { label with get := fun i => remapLabel (label.get i) } else label))

/-- `torch.stack(l, 0)`: RuntimeError for an empty list and for tensors of different shapes. -/
def stackT {β : Type} : List (Tensor β) → Except Err (Tensor β)
  | [] => .error .runtimeError
  | t :: ts =>
    if ts.all (fun u => u.shape = t.shape) then
      .ok ⟨(ts.length + 1) :: t.shape, fun i => ((t :: ts).getD (i.headD 0) t).get i.tail⟩
    else .error .runtimeError

/-- `for i in range(self.seqlen): seq.append(preprocess(imread(paths[i])))` and `torch.stack(seq, 0)`, tum.py:386-408,
icl.py:424-446, scannet.py:231-261. -/
def imageSeq {β P : Type} (n : Nat) (paths : List P) (load : P → Except Err (Tensor β)) : Except Err (Tensor β) :=
  match gather paths (List.range n) with
  | .error e => .error e
  | .ok ps => match mapE load ps with
    | .error e => .error e
    | .ok ts => stackT ts

/-- `torch.stack` of pose matrices. -/
def stackM (l : List (M4 α)) : Except Err (List (M4 α)) := if l.isEmpty then .error .runtimeError else .ok l

/-- Apply `f` to a result that may have failed. -/
def mapOk {β γ : Type} (f : β → γ) : Except Err β → Except Err γ
  | .error e => .error e
  | .ok v => .ok (f v)

/-- One entry of the returned tuple: an image tensor, a tensor of 4×4 matrices, a string, a label tensor. -/
inductive Out (α : Type)
  | tensor (t : Tensor α)
  | mats (l : List (M4 α))
  | text (s : List Char)
  | labels (t : Tensor Nat)

/-- `if flag: output.append(value)`, where the value is computed only then. -/
def appendIf {β : Type} (flag : Bool) (value : Except Err β) (out : List β) : Except Err (List β) :=
  if flag then match value with
    | .error e => .error e
    | .ok v => .ok (out ++ [v])
  else .ok out

/-- Convert the result of a computation into an entry of the tuple. -/
def entry {β : Type} (f : β → Out α) : Except Err β → Except Err (Out α)
  | .error e => .error e
  | .ok v => .ok (f v)

/-- `pose_seq` of the output: `_preprocess_poses(torch.stack(pose_seq, 0))`, tum.py:414-417, icl.py:452-455, scannet.py:269-272. -/
def poseOut (inv : M4 α → M4 α) (poses : List (M4 α)) : Except Err (List (M4 α)) :=
  match stackM poses with
  | .error e => .error e
  | .ok ps => preprocessPoses inv ps

/-- The common part of the three `__getitem__`s: tum.py:385-426, icl.py:423-464, scannet.py:229-283.  `poses` is the list of loaded pose
matrices (loaded only if a pose or transform output is asked for), `K` the intrinsics entry. -/
def itemCore {P : Type} (R : Resize α) (o : Opts) (n : Nat) (scale : α) (inv : M4 α → M4 α) (readC readD : P → Tensor α)
    (cpaths dpaths : List P) (K : M4 α) (poses : Except Err (List (M4 α))) (name : List Char) : Except Err (List (Out α)) :=
  match imageSeq n cpaths (fun p => colorOne R o (readC p)) with
  | .error e => .error e
  | .ok color =>
    match appendIf o.depth (entry .tensor (imageSeq n dpaths fun p => depthOne R o scale (readD p))) [.tensor color] with
    | .error e => .error e
    | .ok out =>
      match appendIf o.intrinsics (.ok (.mats [K])) out with
      | .error e => .error e
      | .ok out =>
        match (if o.pose || o.transform then poses else .ok []) with
        | .error e => .error e
        | .ok ps =>
          match appendIf o.pose (entry .mats (poseOut inv ps)) out with
          | .error e => .error e
          | .ok out =>
            match appendIf o.transform (entry .mats (stackM (posesToTransforms inv ps))) out with
            | .error e => .error e
            | .ok out => appendIf o.names (.ok (.text name)) out

/-- The intrinsics entry of TUM: tum.py:141-142 and 337-343. -/
def tumK (o : Opts) : M4 α :=
  scaleIntrinsics4 ⟨⟨⟨525, 0, 639 / 2⟩, ⟨0, 525, 479 / 2⟩, ⟨0, 0, 1⟩⟩, V3.zero, V3.zero, 1⟩ (o.height / 480) (o.width / 640)

/-- The intrinsics entry of ICL: icl.py:149-150 and 378-384. -/
def iclK (o : Opts) : M4 α :=
  scaleIntrinsics4 ⟨⟨⟨2406 / 5, 0, 639 / 2⟩, ⟨0, -480, 479 / 2⟩, ⟨0, 0, 1⟩⟩, V3.zero, V3.zero, 1⟩ (o.height / 480) (o.width / 640)

/-- What the TUM constructor stores per item (tum.py:328-335): the window's files, poses, name and stamps. -/
structure TumItem (P Q : Type) where
  color : List P
  depth : List P
  poses : List Q
  name : List Char
  stamps : List (List Char × List Char × Option (List Char))

/-- `"\n".join(["rgb {} depth {} pose {}".format(*t) for t in timestamp_seq])`, tum.py:429-431. -/
def stampText (ts : List (List Char × List Char × Option (List Char))) : List Char :=
  List.intercalate "\n".toList (ts.map fun t => "rgb ".toList ++ t.1 ++ " depth ".toList ++ t.2.1 ++ " pose ".toList ++ t.2.2.getD "None".toList)

/-- `TUM.__getitem__`, tum.py:352-434; `hom` is `pointquaternion_to_homogeneous` (:398-400, 501-515).  Negative `idx` is not modelled. -/
def tumGetItem {P Q : Type} (R : Resize α) (o : Opts) (n : Nat) (inv : M4 α → M4 α) (hom : Q → M4 α) (readC readD : P → Tensor α)
    (items : List (TumItem P Q)) (idx : Nat) : Except Err (List (Out α)) :=
  match items[idx]? with
  | none => .error .indexError
  | some it =>
    match itemCore R o n 5000 inv readC readD it.color it.depth (tumK o) (.ok (it.poses.map hom)) it.name with
    | .error e => .error e
    | .ok out => appendIf o.extra (.ok (.text (stampText it.stamps))) out

/-- What the ICL constructor stores per item (icl.py:372-376): files, pose file and start lines, name. -/
structure IclItem (P τ : Type) where
  color : List P
  depth : List P
  poseFile : List (List τ)
  poseLines : List Nat
  name : List Char

/-- `ICL.__getitem__`, icl.py:393-466; `mat` is the conversion of 4×4 text columns to a matrix (:568). -/
def iclGetItem {P τ : Type} (R : Resize α) (o : Opts) (n : Nat) (inv : M4 α → M4 α) (bottom : List τ) (mat : List (List τ) → M4 α)
    (readC readD : P → Tensor α) (items : List (IclItem P τ)) (idx : Nat) : Except Err (List (Out α)) :=
  match items[idx]? with
  | none => .error .indexError
  | some it =>
    itemCore R o n 5000 inv readC readD it.color it.depth (iclK o)
      (mapOk (List.map mat) (loadPoses bottom it.poseFile it.poseLines)) it.name

/-- What the Scannet constructor stores per item (scannet.py:180-186). -/
structure ScanItem (P : Type) where
  color : List P
  depth : List P
  pose : List P
  label : List P
  intrinsics : P
  name : List Char

/-- `Scannet.__getitem__`, scannet.py:195-287; `readM` is `np.loadtxt` of a 4×4 matrix.  Labels come after the name. -/
def scanGetItem {P : Type} (R : Resize α) (o : Opts) (n : Nat) (inv : M4 α → M4 α) (readM : P → M4 α) (readC readD : P → Tensor α)
    (readL : P → Tensor Nat) (items : List (ScanItem P)) (idx : Nat) : Except Err (List (Out α)) :=
  match items[idx]? with
  | none => .error .indexError
  | some it =>
    match itemCore R o n 1000 inv readC readD it.color it.depth
        (scaleIntrinsics4 (readM it.intrinsics) (o.height / 480) (o.width / 640))
        (mapOk (List.map readM) (gather it.pose (List.range n))) it.name with
    | .error e => .error e
    | .ok out => appendIf o.extra (entry .labels (imageSeq n it.label fun p => labelOne R o (readL p))) out

end
end Verif.Data
