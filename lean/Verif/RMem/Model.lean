import Verif.Rgbd.Model
import Verif.Mem.Model
/-!
Memory model of `gradslam/structures/rgbdimages.py`: which tensors of an `RGBDImages` object are stored where, on which device, and which of
them share their storage with tensors of other objects or with tensors the caller holds.

`Verif.Rgbd.Model` treats tensors as values.  Here a tensor is a view: a storage and the indexing steps applied to it.  An object is a record of
views, and every method says which views the object has afterwards and what was allocated.  No method of the class writes into an existing
tensor (`_compute_normal_map` writes into tensors it has just made, rgbdimages.py:712-731); the caller can (`Mem.poke`).

Simplifications: no dtypes and no strides – whether a permuted tensor happens to be contiguous already (then `.contiguous()` does not copy) is a
parameter `ctg`; an allocation block may be larger than what ends up being referred to.
-/
namespace Verif.RMem
open Verif
export Verif.Mem (Dev DevArg)

/-- What a storage may contain: a rank-5 tensor, a `(·, ·, 4, 4)` tensor, or a boolean rank-5 tensor (only one part is used). -/
structure Cont (α : Type*) where
  img : Rgbd.T5 α
  mat : Rgbd.TM α
  bit : Rgbd.T5 Bool

structure Cell (α : Type*) where
  dev : Dev
  cont : Cont α

structure Mem (α : Type*) where
  next : Nat
  cell : Nat → Cell α

/-- Indexing steps that make a view: `t[is, js]` and `t[is, :]` with slices, and the two permutations of the layouts. -/
inductive Op
  | sel (is js : List Nat)
  | sel0 (is : List Nat)
  | last
  | first
  deriving DecidableEq, Repr

/-- A tensor: the storage it lives in and the indexing steps that lead to it. -/
structure View where
  ref : Nat
  ops : List Op
  deriving DecidableEq, Repr

/-- The tensors every object has. -/
inductive Base
  | rgb | depth | intrinsics
  deriving DecidableEq, Repr

/-- The tensors an object may have; with `Base` the list `_INTERNAL_TENSORS`, rgbdimages.py:55-65. -/
inductive Opt
  | poses | pix | vertex | normal | gvertex | gnormal
  deriving DecidableEq, Repr

/-- Positions in allocation blocks. -/
def Base.idx : Base → Nat
  | .rgb => 0
  | .depth => 1
  | .intrinsics => 2

def Opt.idx : Opt → Nat
  | .poses => 3
  | .pix => 4
  | .vertex => 5
  | .normal => 6
  | .gvertex => 7
  | .gnormal => 8

/-- The private fields of an `RGBDImages` object, rgbdimages.py:100-183, tensors replaced by views. -/
structure Obj where
  base : Base → View
  opt : Opt → Option View
  valid : Option View
  cf : Bool
  rgbShape : Rgbd.Shape5
  depthImageShape : Option Rgbd.Shape5
  B : Nat
  L : Nat
  H : Nat
  W : Nat
  dev : Dev

section
variable {α : Type*}

def noImg : Rgbd.T5 Bool := ⟨⟨0, 0, 0, 0, 0⟩, fun _ _ _ _ _ => false⟩

/-- Allocate `k` cells with the given contents. -/
def Mem.alloc (m : Mem α) (k : Nat) (f : Nat → Cell α) : Mem α :=
  ⟨m.next + k, fun r => if r < m.next then m.cell r else f (r - m.next)⟩

/-- Write into the storage at `r`: any new contents, on the same device. -/
def Mem.poke (m : Mem α) (r : Nat) (c : Cont α) : Mem α :=
  ⟨m.next, fun q => if q = r then ⟨(m.cell r).dev, c⟩ else m.cell q⟩

/-- One indexing step. -/
def Op.app (c : Cont α) : Op → Cont α
  | .sel is js => ⟨c.img.sel is js, c.mat.sel is js, c.bit.sel is js⟩
  | .sel0 is => ⟨c.img, c.mat.sel0 is, c.bit⟩
  | .last => ⟨Rgbd.perm01342 c.img, c.mat, Rgbd.perm01342 c.bit⟩
  | .first => ⟨Rgbd.perm01423 c.img, c.mat, Rgbd.perm01423 c.bit⟩

/-- A further step. -/
def View.step (v : View) (op : Op) : View := ⟨v.ref, v.ops ++ [op]⟩

/-- The value of a tensor. -/
def Mem.read (m : Mem α) (v : View) : Cont α := v.ops.foldl Op.app (m.cell v.ref).cont

/-- The device of a tensor. -/
def Mem.dev (m : Mem α) (v : View) : Dev := (m.cell v.ref).dev

/-- The object as `Verif.Rgbd.Model` sees it: what its fields contain at the moment. -/
def val (m : Mem α) (o : Obj) : Rgbd.Obj α where
  cf := o.cf
  rgb := (m.read (o.base .rgb)).img
  depth := (m.read (o.base .depth)).img
  K := (m.read (o.base .intrinsics)).mat
  poses := (o.opt .poses).map fun v => (m.read v).mat
  pix := (o.opt .pix).map fun v => (m.read v).img
  vertex := (o.opt .vertex).map fun v => (m.read v).img
  normal := (o.opt .normal).map fun v => (m.read v).img
  gvertex := (o.opt .gvertex).map fun v => (m.read v).img
  gnormal := (o.opt .gnormal).map fun v => (m.read v).img
  valid := o.valid.map fun v => (m.read v).bit
  rgbShape := o.rgbShape
  depthImageShape := o.depthImageShape
  B := o.B
  L := o.L
  H := o.H
  W := o.W

/-- The storages an object refers to. -/
def Holds (o : Obj) (r : Nat) : Prop :=
  (∃ b, (o.base b).ref = r) ∨ (∃ x v, o.opt x = some v ∧ v.ref = r) ∨ ∃ v, o.valid = some v ∧ v.ref = r

/-- A new tensor with the given contents. -/
def Mem.fresh (m : Mem α) (d : Dev) (c : Cont α) : Mem α × View := (m.alloc 1 fun _ => ⟨d, c⟩, ⟨m.next, []⟩)

/-- Image contents. -/
def Cont.ofImg [Field α] (t : Rgbd.T5 α) : Cont α := ⟨t, ⟨0, 0, fun _ _ => M4.one⟩, noImg⟩
/-- Mask contents. -/
def Cont.ofBit [Field α] (t : Rgbd.T5 Bool) : Cont α := ⟨⟨⟨0, 0, 0, 0, 0⟩, fun _ _ _ _ _ => 0⟩, ⟨0, 0, fun _ _ => M4.one⟩, t⟩

/-! ### Passing tensors on: `.clone()`, `.to(device)`, `.detach()`, `[…]`, `.permute(…).contiguous()` -/

/-- How a tensor is passed on: as the view `view t` if `keep t`, otherwise as a copy of that view on device `dev`. -/
structure Pass (α : Type*) where
  keep : Cell α → View → Bool
  view : View → View
  dev : Cell α → Dev

/-- `t.clone()`. -/
def Pass.clone : Pass α := ⟨fun _ _ => false, id, fun c => c.dev⟩
/-- `t.to(d)`: the tensor itself if it is on `d` already. -/
def Pass.to (d : Dev) : Pass α := ⟨fun c _ => c.dev = d, id, fun _ => d⟩
/-- `t.detach()`: a tensor on the same storage. -/
def Pass.detach : Pass α := ⟨fun _ _ => true, id, fun c => c.dev⟩
/-- `t` itself. -/
def Pass.same : Pass α := ⟨fun _ _ => true, id, fun c => c.dev⟩
/-- `t[…]`: a view with ints and slices, a copy if one of the indices is a list. -/
def Pass.index (copy : Bool) (op : Op) : Pass α := ⟨fun _ _ => !copy, fun v => v.step op, fun c => c.dev⟩
/-- `t.permute(…).contiguous()`, rgbdimages.py:619-641: no copy if the permuted tensor is contiguous. -/
def Pass.permute (ctg : View → Bool) (op : Op) : Pass α := ⟨fun _ v => ctg v, fun v => v.step op, fun c => c.dev⟩

/-- One tensor; `r` is the storage of the copy if there is one. -/
def Pass.one (p : Pass α) (m : Mem α) (r : Nat) (v : View) : View := if p.keep (m.cell v.ref) v then p.view v else ⟨r, []⟩

/-- The cell of the copy. -/
def Pass.cell (p : Pass α) (m : Mem α) (v : View) : Cell α := ⟨p.dev (m.cell v.ref), m.read (p.view v)⟩

/-- The block of copies. -/
def copies (pb : Base → Pass α) (po : Opt → Pass α) (m : Mem α) (o : Obj) : Nat → Cell α
  | 0 => (pb .rgb).cell m (o.base .rgb)
  | 1 => (pb .depth).cell m (o.base .depth)
  | 2 => (pb .intrinsics).cell m (o.base .intrinsics)
  | 3 => (po .poses).cell m ((o.opt .poses).getD ⟨0, []⟩)
  | 4 => (po .pix).cell m ((o.opt .pix).getD ⟨0, []⟩)
  | 5 => (po .vertex).cell m ((o.opt .vertex).getD ⟨0, []⟩)
  | 6 => (po .normal).cell m ((o.opt .normal).getD ⟨0, []⟩)
  | 7 => (po .gvertex).cell m ((o.opt .gvertex).getD ⟨0, []⟩)
  | _ => (po .gnormal).cell m ((o.opt .gnormal).getD ⟨0, []⟩)

/-- Pass on the nine internal tensors, each in its own way: `for k in self._INTERNAL_TENSORS: …`. -/
def passAll (pb : Base → Pass α) (po : Opt → Pass α) (m : Mem α) (o : Obj) : Mem α × (Base → View) × (Opt → Option View) :=
  (m.alloc 9 (copies pb po m o),
   fun b => (pb b).one m (m.next + b.idx) (o.base b), fun x => (o.opt x).map fun v => (po x).one m (m.next + x.idx) v)

/-! ### Construction -/

/-- The arguments of the constructor: as an object's tensors, of which only these five are there. -/
structure Args where
  rgb : View
  depth : View
  K : View
  poses : Option View
  pix : Option View

def Args.base (a : Args) : Base → View
  | .rgb => a.rgb
  | .depth => a.depth
  | .intrinsics => a.K

def Args.opt (a : Args) : Opt → Option View
  | .poses => a.poses
  | .pix => a.pix
  | _ => none

/-- `len(set(devices)) == 1`, rgbdimages.py:149-157. -/
def Args.oneDevice (m : Mem α) (a : Args) : Bool :=
  m.dev a.depth = m.dev a.rgb && m.dev a.K = m.dev a.rgb && Pcs.okOpt a.poses (fun v => m.dev v = m.dev a.rgb) &&
    Pcs.okOpt a.pix (fun v => m.dev v = m.dev a.rgb)

/-- The object with the fields of a value and the given tensors. -/
def Obj.of (s : Rgbd.Obj α) (b : Base → View) (x : Opt → Option View) (d : Dev) : Obj :=
  ⟨b, x, none, s.cf, s.rgbShape, s.depthImageShape, s.B, s.L, s.H, s.W, d⟩

/-- `RGBDImages(rgb, depth, intrinsics, poses, channels_first, device, pixel_pos=…)`, rgbdimages.py:67-183: the shape checks are those of
`Rgbd.new`; the object keeps the tensors it is given, moved to `device` if there is one. -/
def new (m : Mem α) (a : Args) (cf : Bool) (d : Option Dev) : Except Rgbd.Err Obj × Mem α :=
  match Rgbd.new (m.read a.rgb).img (m.read a.depth).img (m.read a.K).mat (a.poses.map fun v => (m.read v).mat) cf
      (a.pix.map fun v => (m.read v).img) with
  | .error e => (.error e, m)
  | .ok s =>
    if !a.oneDevice m then (.error .valueError, m)
    else
      let e := d.getD (m.dev a.rgb)
      let p := passAll (fun _ => Pass.to e) (fun _ => Pass.to e) m (Obj.of s a.base a.opt e)
      (.ok (Obj.of s p.2.1 p.2.2 e), p.1)

/-! ### Getters -/
section getters
variable [Field α] [LinearOrder α]

/-- `depth > 0`, rgbdimages.py:331. -/
def maskOf (t : Rgbd.T5 α) : Rgbd.T5 Bool := ⟨t.sh, fun i j k l n => decide (t.at' i j k l n > 0)⟩

/-- `valid_depth_mask`, rgbdimages.py:319-332. -/
def getValid (m : Mem α) (o : Obj) : View × Mem α × Obj :=
  match o.valid with
  | some v => (v, m, o)
  | none =>
    let p := m.fresh (m.dev (o.base .depth)) (.ofBit (maskOf (m.read (o.base .depth)).img))
    (p.2, p.1, { o with valid := some p.2 })

/-- Store a computed tensor in an optional field. -/
def store (x : Opt) (d : Dev) (t : Rgbd.T5 α) (m : Mem α) (o : Obj) : Mem α × Obj :=
  let p := m.fresh d (.ofImg t)
  (p.1, { o with opt := Function.update o.opt x (some p.2) })

/-- `self._X = self._X * self.valid_depth_mask.to(dtype)`, rgbdimages.py:676-679, :705-708, :740-743, where `self._X` has just been given the
value `t` on device `d`; RuntimeError if the mask is on another device. -/
def masked (x : Opt) (d : Dev) (t : Rgbd.T5 α) (m : Mem α) (o : Obj) : Except Rgbd.Err Unit × Mem α × Obj :=
  match store x d t m o with
  | (m, o) => match getValid m o with
    | (v, m, o) =>
      if m.dev v ≠ d then (.error .runtimeError, m, o)
      else match Rgbd.bmul t (Rgbd.toNum (m.read v).bit) with
        | .error e => (.error e, m, o)
        | .ok t => (.ok (), store x d t m o)

/-- The first part of `_compute_vertex_map`, rgbdimages.py:645-661: pixel positions on the device of the depth image unless there are some. -/
def needPix (m : Mem α) (o : Obj) : Mem α × Obj :=
  match o.opt .pix with
  | some _ => (m, o)
  | none => store .pix (m.dev (o.base .depth)) (Rgbd.meshPix o.B o.L o.H o.W) m o

/-- `_compute_vertex_map`, rgbdimages.py:643-679: RuntimeError if intrinsics, pixel positions and depth are not on one device. -/
def computeVertex (eps : α) (m : Mem α) (o : Obj) : Except Rgbd.Err Unit × Mem α × Obj :=
  match needPix m o with
  | (m, o) =>
    let pix := (o.opt .pix).getD (o.base .rgb)
    if m.dev (o.base .intrinsics) ≠ m.dev pix ∨ m.dev pix ≠ m.dev (o.base .depth) then (.error .runtimeError, m, o)
    else match Rgbd.bmul (Rgbd.rays eps o.cf o.B o.L o.H o.W (m.read (o.base .intrinsics)).mat (m.read pix).img)
        (m.read (o.base .depth)).img with
      | .error e => (.error e, m, o)
      | .ok v => masked .vertex (m.dev (o.base .depth)) v m o

/-- A cached map: computed at the first access. -/
def cached (x : Opt) (f : Mem α → Obj → Except Rgbd.Err Unit × Mem α × Obj) (m : Mem α) (o : Obj) : Except Rgbd.Err View × Mem α × Obj :=
  match o.opt x with
  | some v => (.ok v, m, o)
  | none => match f m o with
    | (.error e, m, o) => (.error e, m, o)
    | (.ok (), m, o) => (.ok ((o.opt x).getD (o.base .rgb)), m, o)

/-- `vertex_map`, rgbdimages.py:343-355. -/
def getVertex (eps : α) : Mem α → Obj → Except Rgbd.Err View × Mem α × Obj := cached .vertex (computeVertex eps)

/-- `_compute_global_vertex_map`, rgbdimages.py:681-708 (`.clone()` without poses, :684). -/
def computeGVertex (eps : α) (m : Mem α) (o : Obj) : Except Rgbd.Err Unit × Mem α × Obj :=
  match o.opt .poses with
  | none => match getVertex eps m o with
    | (.error e, m, o) => (.error e, m, o)
    | (.ok v, m, o) => (.ok (), store .gvertex (m.dev v) (m.read v).img m o)
  | some P => match getVertex eps m o with
    | (.error e, m, o) => (.error e, m, o)
    | (.ok v, m, o) =>
      if m.dev P ≠ m.dev v then (.error .runtimeError, m, o)
      else masked .gvertex (m.dev v)
        (Rgbd.addT o.cf (m.read P).mat (Rgbd.rotMap o.cf (m.read v).img.sh (m.read P).mat (m.read v).img)) m o

/-- `global_vertex_map`, rgbdimages.py:371-383. -/
def getGVertex (eps : α) : Mem α → Obj → Except Rgbd.Err View × Mem α × Obj := cached .gvertex (computeGVertex eps)

/-- `_compute_normal_map`, rgbdimages.py:710-743. -/
def computeNormal (nrm : V3 α → α) (eps : α) (m : Mem α) (o : Obj) : Except Rgbd.Err Unit × Mem α × Obj :=
  match getVertex eps m o with
  | (.error e, m, o) => (.error e, m, o)
  | (.ok v, m, o) =>
    if o.W < 2 ∨ o.H < 2 then (.error .indexError, m, o)
    else masked .normal (m.dev v) (Rgbd.mk5 o.cf o.B o.L o.H o.W 3 fun b l h w c =>
      Pcs.comp (Rgbd.rawNormal nrm o.cf o.H o.W (m.read v).img b l h w) c) m o

/-- `normal_map`, rgbdimages.py:357-369. -/
def getNormal (nrm : V3 α → α) (eps : α) : Mem α → Obj → Except Rgbd.Err View × Mem α × Obj := cached .normal (computeNormal nrm eps)

/-- `_compute_global_normal_map`, rgbdimages.py:745-762 (`.clone()` without poses, :748). -/
def computeGNormal (nrm : V3 α → α) (eps : α) (m : Mem α) (o : Obj) : Except Rgbd.Err Unit × Mem α × Obj :=
  match getNormal nrm eps m o with
  | (.error e, m, o) => (.error e, m, o)
  | (.ok n, m, o) => match o.opt .poses with
    | none => (.ok (), store .gnormal (m.dev n) (m.read n).img m o)
    | some P =>
      if m.dev P ≠ m.dev n then (.error .runtimeError, m, o)
      else (.ok (), store .gnormal (m.dev n) (Rgbd.rotMap o.cf (m.read n).img.sh (m.read P).mat (m.read n).img) m o)

/-- `global_normal_map`, rgbdimages.py:385-397. -/
def getGNormal (nrm : V3 α → α) (eps : α) : Mem α → Obj → Except Rgbd.Err View × Mem α × Obj := cached .gnormal (computeGNormal nrm eps)

end getters

/-! ### Setters: the object keeps the tensor it is given; the device is not looked at -/

/-- Replace a tensor. -/
def Obj.setBase (o : Obj) (b : Base) (v : View) : Obj := { o with base := Function.update o.base b v }

/-- Drop the maps that depend on depth and intrinsics. -/
def Obj.drop (o : Obj) : Obj :=
  { o with opt := fun | .poses => o.opt .poses | .pix => o.opt .pix | _ => none }

/-- Drop the maps that depend on the poses. -/
def Obj.dropGlobal (o : Obj) : Obj :=
  { o with opt := fun | .poses => o.opt .poses | .pix => o.opt .pix | .vertex => o.opt .vertex | .normal => o.opt .normal | _ => none }

/-- `rgb_image = v`, rgbdimages.py:399-411, with `_assert_shape`, :904-915. -/
def setRgb (v : View) (m : Mem α) (o : Obj) : Except Rgbd.Err Unit × Obj :=
  if (m.read v).img.sh ≠ o.rgbShape then (.error .valueError, o) else (.ok (), o.setBase .rgb v)

/-- `depth_image = v`, rgbdimages.py:413-429: reads `_depth_image_shape`; does not drop `_valid_depth_mask`. -/
def setDepth (v : View) (m : Mem α) (o : Obj) : Except Rgbd.Err Unit × Obj :=
  match o.depthImageShape with
  | none => (.error .attributeError, o)
  | some sh => if (m.read v).img.sh ≠ sh then (.error .valueError, o) else (.ok (), (o.setBase .depth v).drop)

/-- `intrinsics = v`, rgbdimages.py:431-447. -/
def setK (v : View) (m : Mem α) (o : Obj) : Except Rgbd.Err Unit × Obj :=
  if ((m.read v).mat.d0, (m.read v).mat.d1) ≠ (o.B, 1) then (.error .valueError, o) else (.ok (), (o.setBase .intrinsics v).drop)

/-- `poses = v`, rgbdimages.py:449-463 (`None` is accepted). -/
def setPoses (v : Option View) (m : Mem α) (o : Obj) : Except Rgbd.Err Unit × Obj :=
  if !Pcs.okOpt v (fun p => decide (((m.read p).mat.d0, (m.read p).mat.d1) = (o.B, o.L))) then (.error .valueError, o)
  else (.ok (), ({ o with opt := Function.update o.opt .poses v } : Obj).dropGlobal)

/-! ### Copies, devices and layouts -/

/-- A new object from the three images, then the other internal tensors of `self` are passed on: `clone`, rgbdimages.py:479-497, and
`__getitem__`, :219-235.  `valid` (`_valid_depth_mask`) is not an internal tensor. -/
def rebuild (p : Mem α × (Base → View) × (Opt → Option View)) (cf : Bool) : Except Rgbd.Err Obj × Mem α :=
  match new p.1 ⟨p.2.1 .rgb, p.2.1 .depth, p.2.1 .intrinsics, none, none⟩ cf none with
  | (.error e, m) => (.error e, m)
  | (.ok c, m) => (.ok { c with opt := p.2.2 }, m)

/-- `clone`, rgbdimages.py:479-497. -/
def clone (m : Mem α) (o : Obj) : Except Rgbd.Err Obj × Mem α :=
  rebuild (passAll (fun _ => Pass.clone) (fun _ => Pass.clone) m o) o.cf

/-- `detach`, rgbdimages.py:465-477: clone, then every internal tensor is replaced by the detached tensor **of self**. -/
def detach (m : Mem α) (o : Obj) : Except Rgbd.Err Obj × Mem α :=
  match clone m o with
  | (.error e, m) => (.error e, m)
  | (.ok c, m) =>
    let p := passAll (fun _ => Pass.detach) (fun _ => Pass.detach) m o
    (.ok { c with base := p.2.1, opt := p.2.2 }, p.1)

/-- What `to` returns: the object itself or a new one. -/
inductive Moved
  | self
  | new (c : Obj)

/-- `to(device, copy)`, rgbdimages.py:499-525: the device is made definite first; then clone, and every internal tensor is replaced by
`v.to(device)` of the tensor **of self**. -/
def toDevice (cur : Nat) (a : DevArg) (copy : Bool) (m : Mem α) (o : Obj) : Except Rgbd.Err Moved × Mem α :=
  let d := a.meant cur
  if !copy && o.dev = d then (.ok .self, m)
  else match clone m o with
    | (.error e, m) => (.error e, m)
    | (.ok c, m) =>
      let p := passAll (fun _ => Pass.to d) (fun _ => Pass.to d) m o
      (.ok (.new { c with base := p.2.1, opt := p.2.2, dev := d }), p.1)

/-- `cpu()`, rgbdimages.py:527-533. -/
def cpu (cur : Nat) : Mem α → Obj → Except Rgbd.Err Moved × Mem α := toDevice cur (.exact .cpu) false
/-- `cuda()`, rgbdimages.py:535-541. -/
def cuda (cur : Nat) : Mem α → Obj → Except Rgbd.Err Moved × Mem α := toDevice cur .anyGpu false

/-- Which of the tensors a change of layout permutes, rgbdimages.py:583-590, :605-612. -/
def permBase (q : Pass α) : Base → Pass α
  | .intrinsics => Pass.same
  | _ => q

def permOpt (q : Pass α) : Opt → Pass α
  | .poses => Pass.same
  | .pix => Pass.same
  | _ => q

/-- The common part of the two changes of layout. -/
def relayout (ctg : View → Bool) (op : Op) (cf : Bool) (m : Mem α) (o : Obj) : Mem α × Obj :=
  let p := passAll (permBase (Pass.permute ctg op)) (permOpt (Pass.permute ctg op)) m o
  (p.1, { o with base := p.2.1, opt := p.2.2, cf := cf, rgbShape := (p.1.read (p.2.1 .rgb)).img.sh,
                 depthImageShape := some (p.1.read (p.2.1 .depth)).img.sh })

/-- `to_channels_last_`, rgbdimages.py:575-595. -/
def toLast_ (ctg : View → Bool) (m : Mem α) (o : Obj) : Mem α × Obj := if !o.cf then (m, o) else relayout ctg .last false m o

/-- `to_channels_first_`, rgbdimages.py:597-617. -/
def toFirst_ (ctg : View → Bool) (m : Mem α) (o : Obj) : Mem α × Obj := if o.cf then (m, o) else relayout ctg .first true m o

/-- `self.clone().to_channels_…_()`. -/
def cloneThen (f : Mem α → Obj → Mem α × Obj) (m : Mem α) (o : Obj) : Except Rgbd.Err Moved × Mem α :=
  match clone m o with
  | (.error e, m) => (.error e, m)
  | (.ok c, m) => (.ok (.new (f m c).2), (f m c).1)

/-- `to_channels_last(copy)`, rgbdimages.py:543-557. -/
def toLast (ctg : View → Bool) (copy : Bool) (m : Mem α) (o : Obj) : Except Rgbd.Err Moved × Mem α :=
  if !(copy || o.cf) then (.ok .self, m) else cloneThen (toLast_ ctg) m o

/-- `to_channels_first(copy)`, rgbdimages.py:559-573. -/
def toFirst (ctg : View → Bool) (copy : Bool) (m : Mem α) (o : Obj) : Except Rgbd.Err Moved × Mem α :=
  if !copy && o.cf then (.ok .self, m) else cloneThen (toFirst_ ctg) m o

/-! ### Indexing -/

/-- Is the entry a list (then torch copies)? -/
def isList : Rgbd.Ix → Bool
  | .list _ => true
  | _ => false

/-- How the images are indexed, rgbdimages.py:207, :220-221. -/
def indexBase (a b : Rgbd.Ix) (is js : List Nat) : Base → Pass α
  | .intrinsics => Pass.index (isList a) (.sel0 is)
  | _ => Pass.index (isList a || isList b) (.sel is js)

/-- `__getitem__`, rgbdimages.py:185-236: images, poses and maps are indexed by both entries, the intrinsics by the first one. -/
def getitem (idx : Rgbd.Index) (m : Mem α) (o : Obj) : Except Rgbd.Err Obj × Mem α :=
  match Rgbd.twoIx idx with
  | .error e => (.error e, m)
  | .ok (a, b) => match Rgbd.resolve o.B a with
    | .error e => (.error e, m)
    | .ok is => match Rgbd.resolve o.L b with
      | .error e => (.error e, m)
      | .ok js =>
        if Rgbd.bothLists a b then
          (if is.length ≠ js.length ∧ is.length ≠ 1 ∧ js.length ≠ 1 then (.error .indexError, m)
           else if is.length = 0 ∨ js.length = 0 then (.error .indexError, m) else (.error .valueError, m))
        else if is.length = 0 then (.error .indexError, m)
        else if js.length = 0 then (.error .indexError, m)
        else
          rebuild (passAll (indexBase a b is js) (fun _ => Pass.index (isList a || isList b) (.sel is js)) m o) o.cf

end
end Verif.RMem
