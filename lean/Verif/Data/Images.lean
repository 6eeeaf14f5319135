import Verif.Geom.Model
import Verif.Data.Window
/-!
Model of `datautils.py` (images, intrinsics, poses) and of the label functions of `scannet.py`.
-/
namespace Verif.Data

/-! ### Labels -/

/-- The table of `nyu40_to_scannet20`, scannet.py:494-524. -/
def remapping : List (Nat × Nat) :=
  [(0, 0), (13, 0), (15, 0), (17, 0), (18, 0), (19, 0), (20, 0), (21, 0), (22, 0), (23, 0), (25, 0), (26, 0), (27, 0),
   (29, 0), (30, 0), (31, 0), (32, 0), (35, 0), (37, 0), (38, 0), (40, 0),
   (14, 13), (16, 14), (24, 15), (28, 16), (33, 17), (34, 18), (36, 19), (39, 20)]

/-- One pass `label[np.where(label == src)] = tar` over the whole image, scannet.py:525-526. -/
def remapPass (img : List (List Nat)) (p : Nat × Nat) : List (List Nat) :=
  img.map (·.map fun l => if l = p.1 then p.2 else l)

/-- `nyu40_to_scannet20`, scannet.py:482-527: the passes run one after the other on the same image. -/
def nyu40ToScannet20 (img : List (List Nat)) : List (List Nat) := remapping.foldl remapPass img

/-- Python colours `(r, g, b)`. -/
abbrev Rgb := Nat × Nat × Nat

/-- `get_color_encoding("nyu40")`, scannet.py:406-452. -/
def nyu40 : List (String × Rgb) :=
  [("unlabeled", (0, 0, 0)), ("wall", (174, 199, 232)), ("floor", (152, 223, 138)), ("cabinet", (31, 119, 180)),
   ("bed", (255, 187, 120)), ("chair", (188, 189, 34)), ("sofa", (140, 86, 75)), ("table", (255, 152, 150)),
   ("door", (214, 39, 40)), ("window", (197, 176, 213)), ("bookshelf", (148, 103, 189)), ("picture", (196, 156, 148)),
   ("counter", (23, 190, 207)), ("blinds", (178, 76, 76)), ("desk", (247, 182, 210)), ("shelves", (66, 188, 102)),
   ("curtain", (219, 219, 141)), ("dresser", (140, 57, 197)), ("pillow", (202, 185, 52)), ("mirror", (51, 176, 203)),
   ("floormat", (200, 54, 131)), ("clothes", (92, 193, 61)), ("ceiling", (78, 71, 183)), ("books", (172, 114, 82)),
   ("refrigerator", (255, 127, 14)), ("television", (91, 163, 138)), ("paper", (153, 98, 156)), ("towel", (140, 153, 101)),
   ("showercurtain", (158, 218, 229)), ("box", (100, 125, 154)), ("whiteboard", (178, 127, 135)),
   ("person", (120, 185, 128)), ("nightstand", (146, 111, 194)), ("toilet", (44, 160, 44)), ("sink", (112, 128, 144)),
   ("lamp", (96, 207, 209)), ("bathtub", (227, 119, 194)), ("bag", (213, 92, 176)), ("otherstructure", (94, 106, 211)),
   ("otherfurniture", (82, 84, 163)), ("otherprop", (100, 85, 144))]

/-- `get_color_encoding("scannet20")`, scannet.py:453-479. -/
def scannet20 : List (String × Rgb) :=
  [("unlabeled", (0, 0, 0)), ("wall", (174, 199, 232)), ("floor", (152, 223, 138)), ("cabinet", (31, 119, 180)),
   ("bed", (255, 187, 120)), ("chair", (188, 189, 34)), ("sofa", (140, 86, 75)), ("table", (255, 152, 150)),
   ("door", (214, 39, 40)), ("window", (197, 176, 213)), ("bookshelf", (148, 103, 189)), ("picture", (196, 156, 148)),
   ("counter", (23, 190, 207)), ("desk", (247, 182, 210)), ("curtain", (219, 219, 141)), ("refrigerator", (255, 127, 14)),
   ("showercurtain", (158, 218, 229)), ("toilet", (44, 160, 44)), ("sink", (112, 128, 144)), ("bathtub", (227, 119, 194)),
   ("otherfurniture", (82, 84, 163))]

/-- One pass `label_image[prediction == idx] = color` of `create_label_image`, datautils.py:261-262. -/
def paintPass (pred : List (List Nat)) (img : List (List Rgb)) (p : Nat × Rgb) : List (List Rgb) :=
  List.zipWith (List.zipWith fun l c => if l = p.1 then p.2 else c) pred img

/-- `create_label_image`, datautils.py:242-263, with the palette given as a list of colours: start from zeros, paint the colours in
order. -/
def createLabelImage (pred : List (List Nat)) (palette : List Rgb) : List (List Rgb) :=
  (palette.zipIdx.map fun p => (p.2, p.1)).foldl (paintPass pred) (pred.map (·.map fun _ => (0, 0, 0)))

/-! ### Images -/

/-- A tensor: shape and element function (indices outside the shape are irrelevant). -/
structure Tensor (α : Type*) where
  shape : List Nat
  get : List Nat → α

/-- `normalize_image`, datautils.py:19-37, element-wise. -/
def normalizeImage {α : Type*} [Field α] (t : Tensor α) : Tensor α := { t with get := fun i => t.get i / 255 }

/-- The axis order computed by `channels_first`, datautils.py:64-65: `ordering = list(range(ndim))`, then the simultaneous
assignment to positions -2, -1, -3. -/
def channelOrdering (ndim : Nat) : List Nat :=
  (((List.range ndim).set (ndim - 2) (ndim - 3)).set (ndim - 1) (ndim - 2)).set (ndim - 3) (ndim - 1)

/-- `torch.permute` / `np.transpose`: output axis `j` is input axis `ord[j]`; the input index at axis `a` is the output index at the
position where `a` occurs in `ord`. -/
def permute {α : Type*} (ord : List Nat) (t : Tensor α) : Tensor α :=
  ⟨ord.map fun a => t.shape.getD a 0,
   fun idx => t.get ((List.range ord.length).map fun a => idx.getD (ord.idxOf a) 0)⟩

/-- `channels_first`, datautils.py:40-70 (the warning at :61-63 has no effect). -/
def channelsFirst {α : Type*} (t : Tensor α) : Except Err (Tensor α) :=
  if t.shape.length < 3 then .error .valueError else .ok (permute (channelOrdering t.shape.length) t)

/-! ### Intrinsics and poses -/

variable {α : Type*} [Field α]

/-- `scale_intrinsics` on a 3×3 matrix, datautils.py:96-117. -/
def scaleIntrinsics3 (K : M3 α) (h w : α) : M3 α :=
  ⟨⟨K.r0.x * w, K.r0.y, K.r0.z * w⟩, ⟨K.r1.x, K.r1.y * h, K.r1.z * h⟩, K.r2⟩

/-- `scale_intrinsics` on a 4×4 matrix, datautils.py:96-117. -/
def scaleIntrinsics4 (K : M4 α) (h w : α) : M4 α := { K with R := scaleIntrinsics3 K.R h w }

/-- `poses_to_transforms`, datautils.py:218-239; `inv` is `np.linalg.inv`. -/
def posesToTransforms (inv : M4 α → M4 α) (poses : List (M4 α)) : List (M4 α) :=
  match poses with
  | [] => []
  | _ => M4.one :: List.zipWith (fun p q => (inv p).mul q) poses poses.tail

/-- `_preprocess_poses` of TUM (tum.py:483-499), ICL (icl.py:515-533) and Scannet (scannet.py:358-373):
`relative_transformation(poses[0] repeated, poses)`; `poses[0]` raises IndexError on an empty sequence. -/
def preprocessPoses (inv : M4 α → M4 α) (poses : List (M4 α)) : Except Err (List (M4 α)) :=
  match poses with
  | [] => .error .indexError
  | p0 :: _ => .ok (poses.map fun p => Geom.composeTransforms1 (inv p0) p)

end Verif.Data
