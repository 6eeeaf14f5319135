import Verif.Geom.Model
import Verif.PC.Model
/-!
Model of `gradslam/structures/rgbdimages.py` (class `RGBDImages`).

The object is a record of its private fields; every getter, setter and method is a function from the record to an outcome and the record
afterwards (getters fill caches, failing calls may have done part of their work).

A rank-5 tensor is its shape and a function from five indices to its entries.  `(B, L, 4, 4)` and `(B, 1, 4, 4)` tensors have their last
two dimensions folded into `M4`.  `torch.norm` is a parameter `nrm`, the `eps` of `inverse_intrinsics` a parameter `eps`.
Devices and memory sharing are in Verif/RMem (C83, C84), plotting in Verif/Rgbd/Show (C76).  Not modelled: dtypes, assigning `None` to the
images or the intrinsics.
-/
namespace Verif.Rgbd
open Verif

inductive Err
  | valueError | indexError | runtimeError | attributeError
  deriving DecidableEq, Repr

/-- `tensor.shape` of a rank-5 tensor. -/
@[ext] structure Shape5 where
  d0 : Nat
  d1 : Nat
  d2 : Nat
  d3 : Nat
  d4 : Nat
  deriving DecidableEq, Repr

/-- A rank-5 tensor. -/
@[ext] structure T5 (β : Type*) where
  sh : Shape5
  at' : Nat → Nat → Nat → Nat → Nat → β

/-- A `(d0, d1, 4, 4)` tensor. -/
@[ext] structure TM (α : Type*) where
  d0 : Nat
  d1 : Nat
  at' : Nat → Nat → M4 α

/-- Shape of an image tensor with `C` channels: `(B, L, C, H, W)` or `(B, L, H, W, C)`. -/
def dims5 (cf : Bool) (B L H W C : Nat) : Shape5 := if cf then ⟨B, L, C, H, W⟩ else ⟨B, L, H, W, C⟩

section
variable {β : Type*}

/-- The image tensor in the given layout whose channel `c` at batch `b`, time `l`, row `h`, column `w` is `f b l h w c`. -/
def mk5 (cf : Bool) (B L H W C : Nat) (f : Nat → Nat → Nat → Nat → Nat → β) : T5 β :=
  ⟨dims5 cf B L H W C, fun b l i j k => if cf then f b l j k i else f b l i j k⟩

/-- Channel `c` of pixel `(h, w)` of an image tensor in the given layout. -/
def chan (cf : Bool) (t : T5 β) (b l h w c : Nat) : β := if cf then t.at' b l c h w else t.at' b l h w c

/-- The first three channels of a pixel. -/
def px3 (cf : Bool) (t : T5 β) (b l h w : Nat) : V3 β := ⟨chan cf t b l h w 0, chan cf t b l h w 1, chan cf t b l h w 2⟩

/-- `t.permute(0, 1, 3, 4, 2)`. -/
def perm01342 (t : T5 β) : T5 β := ⟨⟨t.sh.d0, t.sh.d1, t.sh.d3, t.sh.d4, t.sh.d2⟩, fun b l h w c => t.at' b l c h w⟩

/-- `t.permute(0, 1, 4, 2, 3)`. -/
def perm01423 (t : T5 β) : T5 β := ⟨⟨t.sh.d0, t.sh.d1, t.sh.d4, t.sh.d2, t.sh.d3⟩, fun b l c h w => t.at' b l h w c⟩

/-- `t[is, js]` for the selected positions of the first two dimensions. -/
def T5.sel (is js : List Nat) (t : T5 β) : T5 β :=
  ⟨{ t.sh with d0 := is.length, d1 := js.length }, fun b l i j k => t.at' (is.getD b 0) (js.getD l 0) i j k⟩

/-- `t[is, js]` for a `(B, L, 4, 4)` tensor. -/
def TM.sel (is js : List Nat) (t : TM β) : TM β := ⟨is.length, js.length, fun b l => t.at' (is.getD b 0) (js.getD l 0)⟩

/-- `t[is, :]`. -/
def TM.sel0 (is : List Nat) (t : TM β) : TM β := ⟨is.length, t.d1, fun b l => t.at' (is.getD b 0) l⟩
end

/-! ### Broadcasting -/

/-- One dimension of torch's broadcasting rule. -/
def bdim (a b : Nat) : Option Nat := if a = b then some a else if a = 1 then some b else if b = 1 then some a else none

/-- torch's broadcasting rule for two rank-5 shapes. -/
def bshape (a b : Shape5) : Option Shape5 :=
  match bdim a.d0 b.d0, bdim a.d1 b.d1, bdim a.d2 b.d2, bdim a.d3 b.d3, bdim a.d4 b.d4 with
  | some x0, some x1, some x2, some x3, some x4 => some ⟨x0, x1, x2, x3, x4⟩
  | _, _, _, _, _ => none

/-- Index into a dimension of size `d` broadcast to size `D`. -/
def bix (d D i : Nat) : Nat := if d = D then i else 0

section
variable {α : Type*}

/-- `a * b` for rank-5 tensors (RuntimeError if the shapes do not broadcast). -/
def bmul [Mul α] (x y : T5 α) : Except Err (T5 α) :=
  match bshape x.sh y.sh with
  | none => .error .runtimeError
  | some D => .ok ⟨D, fun i j k l m =>
      x.at' (bix x.sh.d0 D.d0 i) (bix x.sh.d1 D.d1 j) (bix x.sh.d2 D.d2 k) (bix x.sh.d3 D.d3 l) (bix x.sh.d4 D.d4 m) *
      y.at' (bix y.sh.d0 D.d0 i) (bix y.sh.d1 D.d1 j) (bix y.sh.d2 D.d2 k) (bix y.sh.d3 D.d3 l) (bix y.sh.d4 D.d4 m)⟩

/-- `mask.to(dtype)`. -/
def toNum [Zero α] [One α] (m : T5 Bool) : T5 α := ⟨m.sh, fun i j k l n => if m.at' i j k l n then 1 else 0⟩

/-- The private fields of an `RGBDImages` object, rgbdimages.py:100-183.  `depthImageShape` is the field `_depth_image_shape`, which the
constructor does not create (it creates `_depth_shape`). -/
@[ext] structure Obj (α : Type*) where
  cf : Bool
  rgb : T5 α
  depth : T5 α
  K : TM α
  poses : Option (TM α)
  pix : Option (T5 α)
  vertex : Option (T5 α)
  normal : Option (T5 α)
  gvertex : Option (T5 α)
  gnormal : Option (T5 α)
  valid : Option (T5 Bool)
  rgbShape : Shape5
  depthImageShape : Option Shape5
  B : Nat
  L : Nat
  H : Nat
  W : Nat

/-- Replace the size of the channel dimension (`cdim`). -/
def Shape5.setC (cf : Bool) (s : Shape5) (c : Nat) : Shape5 := if cf then { s with d2 := c } else { s with d4 := c }

/-- Size of the channel dimension. -/
def Shape5.chans (cf : Bool) (s : Shape5) : Nat := if cf then s.d2 else s.d4

/-- `(*shape[:cdim], *shape[cdim+1:], 3)`, rgbdimages.py:126-130. -/
def Shape5.pixShape (cf : Bool) (s : Shape5) : Shape5 := if cf then ⟨s.d0, s.d1, s.d3, s.d4, 3⟩ else ⟨s.d0, s.d1, s.d2, s.d3, 3⟩

/-- `RGBDImages(rgb, depth, intrinsics, poses, channels_first, pixel_pos=...)`, rgbdimages.py:67-183. -/
def new (rgb depth : T5 α) (K : TM α) (poses : Option (TM α)) (cf : Bool) (pix : Option (T5 α)) : Except Err (Obj α) :=
  if rgb.sh.chans cf ≠ 3 then .error .valueError
  else if depth.sh ≠ rgb.sh.setC cf 1 then .error .valueError
  else if (K.d0, K.d1) ≠ (rgb.sh.d0, 1) then .error .valueError
  else if !Pcs.okOpt poses (fun p => decide ((p.d0, p.d1) = (rgb.sh.d0, rgb.sh.d1))) then .error .valueError
  else if !Pcs.okOpt pix (fun p => decide (p.sh = rgb.sh.pixShape cf)) then .error .valueError
  else .ok ⟨cf, rgb, depth, K, poses, pix, none, none, none, none, none, rgb.sh, none, rgb.sh.d0, rgb.sh.d1,
    if cf then rgb.sh.d3 else rgb.sh.d2, if cf then rgb.sh.d4 else rgb.sh.d3⟩

/-! ### Getters -/
section getters
variable [Field α] [LinearOrder α]

/-- `valid_depth_mask`, rgbdimages.py:319-332. -/
def getValid (s : Obj α) : T5 Bool × Obj α :=
  match s.valid with
  | some m => (m, s)
  | none =>
    let m : T5 Bool := ⟨s.depth.sh, fun i j k l n => decide (s.depth.at' i j k l n > 0)⟩
    (m, { s with valid := some m })

/-- The pixel positions built by `_compute_vertex_map`, rgbdimages.py:647-661: channels `(column, row, 1)`. -/
def meshPix (B L H W : Nat) : T5 α :=
  ⟨⟨B, L, H, W, 3⟩, fun _ _ h w c =>
    match c with
    | 0 => (Geom.meshgrid H W false h w).2
    | 1 => (Geom.meshgrid H W false h w).1
    | _ => 1⟩

/-- The two einsums of `_compute_vertex_map`, rgbdimages.py:666-675: `Kinv @ pixel` in the layout of the object. -/
def rays (eps : α) (cf : Bool) (B L H W : Nat) (K : TM α) (pix : T5 α) : T5 α :=
  mk5 cf B L H W 3 fun b l h w c =>
    Pcs.comp ((Geom.inverseIntrinsics4 eps (K.at' b 0)).R.mulVec (px3 false pix b l h w)) c

/-- `_compute_vertex_map`, rgbdimages.py:643-679.  `self._vertex_map` is assigned before the masking. -/
def computeVertex (eps : α) (s : Obj α) : Except Err Unit × Obj α :=
  let s := { s with pix := some (s.pix.getD (meshPix s.B s.L s.H s.W)) }
  match bmul (rays eps s.cf s.B s.L s.H s.W s.K (s.pix.getD (meshPix s.B s.L s.H s.W))) s.depth with
  | .error e => (.error e, s)
  | .ok v =>
    let s := { s with vertex := some v }
    let (m, s) := getValid s
    match bmul v (toNum m) with
    | .error e => (.error e, s)
    | .ok v => (.ok (), { s with vertex := some v })

/-- `vertex_map`, rgbdimages.py:343-355. -/
def getVertex (eps : α) (s : Obj α) : Except Err (T5 α) × Obj α :=
  match s.vertex with
  | some v => (.ok v, s)
  | none => match computeVertex eps s with
    | (.error e, s) => (.error e, s)
    | (.ok (), s) => (.ok (s.vertex.getD s.rgb), s)

/-- `einsum(rmat, map)` in the layout of the object, rgbdimages.py:694-703 and :755-762. -/
def rotMap (cf : Bool) (s : Shape5) (P : TM α) (t : T5 α) : T5 α :=
  ⟨s, fun b l i j k =>
    if cf then Pcs.comp ((P.at' b l).R.mulVec (px3 true t b l j k)) i
    else Pcs.comp ((P.at' b l).R.mulVec (px3 false t b l i j)) k⟩

/-- `map + tvec.view(B, L, 3, 1, 1)` or `map + tvec.view(B, L, 1, 1, 3)`, rgbdimages.py:698, :703. -/
def addT (cf : Bool) (P : TM α) (t : T5 α) : T5 α :=
  ⟨t.sh, fun b l i j k => t.at' b l i j k + Pcs.comp (P.at' b l).t (if cf then i else k)⟩

/-- `_compute_global_vertex_map`, rgbdimages.py:681-708. -/
def computeGVertex (eps : α) (s : Obj α) : Except Err Unit × Obj α :=
  match s.poses with
  | none => match getVertex eps s with
    | (.error e, s) => (.error e, s)
    | (.ok v, s) => (.ok (), { s with gvertex := some v })
  | some P => match getVertex eps s with
    | (.error e, s) => (.error e, s)
    | (.ok v, s) =>
      let g := addT s.cf P (rotMap s.cf v.sh P v)
      let s := { s with gvertex := some g }
      let (m, s) := getValid s
      match bmul g (toNum m) with
      | .error e => (.error e, s)
      | .ok g => (.ok (), { s with gvertex := some g })

/-- `global_vertex_map`, rgbdimages.py:371-383. -/
def getGVertex (eps : α) (s : Obj α) : Except Err (T5 α) × Obj α :=
  match s.gvertex with
  | some v => (.ok v, s)
  | none => match computeGVertex eps s with
    | (.error e, s) => (.error e, s)
    | (.ok (), s) => (.ok (s.gvertex.getD s.rgb), s)

/-- Forward difference along one axis of size `n`, the last entry repeating the one before, rgbdimages.py:712-732: at position `i` the
difference of positions `j + 1` and `j` with `j = i`, except `j = n - 2` for `i = n - 1`. -/
def fdiff (n : Nat) (f : Nat → V3 α) (i : Nat) : V3 α :=
  let j := if i = n - 1 then n - 2 else i
  (f (j + 1)).sub (f j)

/-- The normal at a pixel before masking, rgbdimages.py:734-739. -/
def rawNormal (nrm : V3 α → α) (cf : Bool) (H W : Nat) (v : T5 α) (b l h w : Nat) : V3 α :=
  let dh := fdiff W (fun w => px3 cf v b l h w) w
  let dv := fdiff H (fun h => px3 cf v b l h w) h
  let n := dh.cross dv
  let r := if nrm n = 0 then 1 else nrm n
  ⟨n.x / r, n.y / r, n.z / r⟩

/-- `_compute_normal_map`, rgbdimages.py:710-743 (`dhoriz[..., -2]` fails for one column, `dverti[..., -2, :]` for one row). -/
def computeNormal (nrm : V3 α → α) (eps : α) (s : Obj α) : Except Err Unit × Obj α :=
  match getVertex eps s with
  | (.error e, s) => (.error e, s)
  | (.ok v, s) =>
    if s.W < 2 ∨ s.H < 2 then (.error .indexError, s)
    else
      let n := mk5 s.cf s.B s.L s.H s.W 3 fun b l h w c => Pcs.comp (rawNormal nrm s.cf s.H s.W v b l h w) c
      let s := { s with normal := some n }
      let (m, s) := getValid s
      match bmul n (toNum m) with
      | .error e => (.error e, s)
      | .ok n => (.ok (), { s with normal := some n })

/-- `normal_map`, rgbdimages.py:357-369. -/
def getNormal (nrm : V3 α → α) (eps : α) (s : Obj α) : Except Err (T5 α) × Obj α :=
  match s.normal with
  | some v => (.ok v, s)
  | none => match computeNormal nrm eps s with
    | (.error e, s) => (.error e, s)
    | (.ok (), s) => (.ok (s.normal.getD s.rgb), s)

/-- `_compute_global_normal_map`, rgbdimages.py:745-762 (no masking). -/
def computeGNormal (nrm : V3 α → α) (eps : α) (s : Obj α) : Except Err Unit × Obj α :=
  match getNormal nrm eps s with
  | (.error e, s) => (.error e, s)
  | (.ok n, s) => match s.poses with
    | none => (.ok (), { s with gnormal := some n })
    | some P => (.ok (), { s with gnormal := some (rotMap s.cf n.sh P n) })

/-- `global_normal_map`, rgbdimages.py:385-397. -/
def getGNormal (nrm : V3 α → α) (eps : α) (s : Obj α) : Except Err (T5 α) × Obj α :=
  match s.gnormal with
  | some v => (.ok v, s)
  | none => match computeGNormal nrm eps s with
    | (.error e, s) => (.error e, s)
    | (.ok (), s) => (.ok (s.gnormal.getD s.rgb), s)

end getters

/-! ### Setters -/

/-- `rgb_image = v`, rgbdimages.py:399-411. -/
def setRgb (v : T5 α) (s : Obj α) : Except Err Unit × Obj α :=
  if v.sh ≠ s.rgbShape then (.error .valueError, s) else (.ok (), { s with rgb := v })

/-- `depth_image = v`, rgbdimages.py:413-429: reads `_depth_image_shape`; does not drop `_valid_depth_mask`. -/
def setDepth (v : T5 α) (s : Obj α) : Except Err Unit × Obj α :=
  match s.depthImageShape with
  | none => (.error .attributeError, s)
  | some sh =>
    if v.sh ≠ sh then (.error .valueError, s)
    else (.ok (), { s with depth := v, vertex := none, normal := none, gvertex := none, gnormal := none })

/-- `intrinsics = v`, rgbdimages.py:431-447. -/
def setK (v : TM α) (s : Obj α) : Except Err Unit × Obj α :=
  if (v.d0, v.d1) ≠ (s.B, 1) then (.error .valueError, s)
  else (.ok (), { s with K := v, vertex := none, normal := none, gvertex := none, gnormal := none })

/-- `poses = v`, rgbdimages.py:449-463 (`None` is accepted). -/
def setPoses (v : Option (TM α)) (s : Obj α) : Except Err Unit × Obj α :=
  if !Pcs.okOpt v (fun p => decide ((p.d0, p.d1) = (s.B, s.L))) then (.error .valueError, s)
  else (.ok (), { s with poses := v, gvertex := none, gnormal := none })

/-! ### Copies and layouts -/

/-- `clone`, rgbdimages.py:479-497 (`detach`, :465-477, and a copying `to`, :499-525, return the same values): a new object from the
images and the intrinsics, then every internal tensor is copied; `_valid_depth_mask` is not one of them. -/
def clone (s : Obj α) : Except Err (Obj α) :=
  match new s.rgb s.depth s.K none s.cf none with
  | .error e => .error e
  | .ok o => .ok { o with
      poses := s.poses, pix := s.pix, vertex := s.vertex, normal := s.normal, gvertex := s.gvertex, gnormal := s.gnormal }

/-- `to_channels_last_`, rgbdimages.py:575-595. -/
def toLast_ (s : Obj α) : Obj α :=
  if !s.cf then s
  else { s with
    rgb := perm01342 s.rgb, depth := perm01342 s.depth, vertex := s.vertex.map perm01342, gvertex := s.gvertex.map perm01342
    normal := s.normal.map perm01342, gnormal := s.gnormal.map perm01342, cf := false
    rgbShape := (perm01342 s.rgb).sh, depthImageShape := some (perm01342 s.depth).sh }

/-- `to_channels_first_`, rgbdimages.py:597-617. -/
def toFirst_ (s : Obj α) : Obj α :=
  if s.cf then s
  else { s with
    rgb := perm01423 s.rgb, depth := perm01423 s.depth, vertex := s.vertex.map perm01423, gvertex := s.gvertex.map perm01423
    normal := s.normal.map perm01423, gnormal := s.gnormal.map perm01423, cf := true
    rgbShape := (perm01423 s.rgb).sh, depthImageShape := some (perm01423 s.depth).sh }

/-- `to_channels_last(copy)`, rgbdimages.py:543-557. -/
def toLast (copy : Bool) (s : Obj α) : Except Err (Obj α) :=
  if !(copy || s.cf) then .ok s else (clone s).map toLast_

/-- `to_channels_first(copy)`, rgbdimages.py:559-573. -/
def toFirst (copy : Bool) (s : Obj α) : Except Err (Obj α) :=
  if !copy && s.cf then .ok s else (clone s).map toFirst_

/-! ### Indexing -/

/-- One entry of an index tuple. -/
inductive Ix
  | int (i : Int)
  | slice (start stop step : Option Int)
  | list (l : List Int)

/-- The argument of `rgbd[...]`: an int, a tuple, or something else. -/
inductive Index
  | int (i : Int)
  | tup (l : List Ix)
  | other

/-- torch slicing: a step that is not positive is a ValueError. -/
def resolveSlice (n : Nat) (a b c : Option Int) : Except Err (List Nat) :=
  let step := c.getD 1
  if step ≤ 0 then .error .valueError
  else
    let lo := Pcs.sliceLo n step a
    .ok ((List.range (Pcs.rangeLen lo (Pcs.sliceHi n step b) step)).map fun (k : Nat) => (lo + (k : Int) * step).toNat)

/-- One position of a list index. -/
def resolveInt (n : Nat) (i : Int) : Except Err Nat :=
  if 0 ≤ i then (if i < n then .ok i.toNat else .error .indexError)
  else if 0 ≤ i + n then .ok (i + n).toNat else .error .indexError

def resolveInts (n : Nat) : List Int → Except Err (List Nat)
  | [] => .ok []
  | i :: is => match resolveInt n i with
    | .error e => .error e
    | .ok k => match resolveInts n is with
      | .error e => .error e
      | .ok ks => .ok (k :: ks)

/-- The positions selected by one entry; an int `x` is turned into `slice(x, x + 1)`, rgbdimages.py:196-205. -/
def resolve (n : Nat) : Ix → Except Err (List Nat)
  | .int x => resolveSlice n (some x) (some (x + 1)) none
  | .slice a b c => resolveSlice n a b c
  | .list l => resolveInts n l

/-- The two entries used, rgbdimages.py:194-205; a tuple with fewer than two entries fails at `_index_slices[1]`. -/
def twoIx : Index → Except Err (Ix × Ix)
  | .int i => .ok (.int i, .slice none none none)
  | .tup [a, b] => .ok (a, b)
  | .tup _ => .error .indexError
  | .other => .error .indexError

/-- Building the selected object, rgbdimages.py:207-234. -/
def selected (is js : List Nat) (s : Obj α) : Except Err (Obj α) :=
  if is.length = 0 then .error .indexError
  else if js.length = 0 then .error .indexError
  else match new (s.rgb.sel is js) (s.depth.sel is js) (s.K.sel0 is) none s.cf none with
    | .error e => .error e
    | .ok o => .ok { o with
        poses := s.poses.map (TM.sel is js), pix := s.pix.map (T5.sel is js), vertex := s.vertex.map (T5.sel is js)
        normal := s.normal.map (T5.sel is js), gvertex := s.gvertex.map (T5.sel is js)
        gnormal := s.gnormal.map (T5.sel is js) }

/-- Both entries are lists (torch then pairs them up and the result has rank 4, which the constructor rejects). -/
def bothLists : Ix → Ix → Bool
  | .list _, .list _ => true
  | _, _ => false

/-- `__getitem__`, rgbdimages.py:185-236. -/
def getitem (idx : Index) (s : Obj α) : Except Err (Obj α) :=
  match twoIx idx with
  | .error e => .error e
  | .ok (a, b) => match resolve s.B a with
    | .error e => .error e
    | .ok is => match resolve s.L b with
      | .error e => .error e
      | .ok js =>
        if bothLists a b then
          (if is.length ≠ js.length ∧ is.length ≠ 1 ∧ js.length ≠ 1 then .error .indexError
           else if is.length = 0 ∨ js.length = 0 then .error .indexError else .error .valueError)
        else selected is js s

end
end Verif.Rgbd
