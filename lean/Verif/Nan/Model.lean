import Verif.Common.Lin
/-!
**C101**, **C102**: NaN and infinite values.  The parts of the code that turn depth images into maps, update maps and register frames, over *any*
arithmetic: `Ar α` is just the list of operations torch applies to numbers, with no law at all (rounding, overflow, special values are all
allowed).  `Strict A nan` says which laws of NaN an arithmetic has.  With the arithmetic of a field these functions are those of the other models
(`Nan/Link.lean`); `Nan/Float.lean` has an arithmetic with NaN, infinities and rounding.

One batch element and one frame at a time, channels last; checks of types and shapes are left out.
-/
namespace Verif.Nan
open Verif

/-- The operations torch applies to numbers.  `sum` is any sum (`einsum`, `matmul`, `dot`, `sum`): the order of the additions is not fixed.
`norm` is `Tensor.norm` of three numbers, `isZero x` is `x == 0`, `pw x k` is `torch.pow(x, k)`, `root x y` is `x ** y`. -/
structure Ar (α : Type*) where
  zero : α
  one : α
  add : α → α → α
  sub : α → α → α
  neg : α → α
  mul : α → α → α
  div : α → α → α
  sum : List α → α
  norm : V3 α → α
  lt : α → α → Bool
  isZero : α → Bool
  sin : α → α
  cos : α → α
  exp : α → α
  pw : α → Nat → α
  root : α → α → α
  clamp : α → α → α → α

/-- The laws of NaN (IEEE 754, and torch for `clamp`, `norm`, `pow`): a result computed from NaN is NaN, a comparison with NaN is false.
(`x ** 0` is 1 for every `x`.) -/
structure Strict {α : Type*} (A : Ar α) (nan : α → Prop) : Prop where
  add : ∀ x y, nan x ∨ nan y → nan (A.add x y)
  sub : ∀ x y, nan x ∨ nan y → nan (A.sub x y)
  neg : ∀ x, nan x → nan (A.neg x)
  mul : ∀ x y, nan x ∨ nan y → nan (A.mul x y)
  div : ∀ x y, nan x ∨ nan y → nan (A.div x y)
  sum : ∀ l, (∃ x ∈ l, nan x) → nan (A.sum l)
  norm : ∀ v, nan v.x ∨ nan v.y ∨ nan v.z → nan (A.norm v)
  lt : ∀ x y, nan x ∨ nan y → A.lt x y = false
  isZero : ∀ x, nan x → A.isZero x = false
  sin : ∀ x, nan x → nan (A.sin x)
  cos : ∀ x, nan x → nan (A.cos x)
  exp : ∀ x, nan x → nan (A.exp x)
  pw : ∀ x k, nan x → 0 < k → nan (A.pw x k)
  root : ∀ x y, nan x → A.isZero y = false → nan (A.root x y)
  clamp : ∀ x a b, nan x → nan (A.clamp x a b)

variable {α : Type*} (A : Ar α)

/-! ### Vectors and matrices -/

/-- Row times column of a `matmul` or `einsum` over three entries. -/
def dot (a v : V3 α) : α := A.sum [A.mul a.x v.x, A.mul a.y v.y, A.mul a.z v.z]
def mulVec (M : M3 α) (v : V3 α) : V3 α := ⟨dot A M.r0 v, dot A M.r1 v, dot A M.r2 v⟩
def vadd (a b : V3 α) : V3 α := ⟨A.add a.x b.x, A.add a.y b.y, A.add a.z b.z⟩
def vsub (a b : V3 α) : V3 α := ⟨A.sub a.x b.x, A.sub a.y b.y, A.sub a.z b.z⟩
/-- Element-wise operation with one number. -/
def vmul (a : V3 α) (c : α) : V3 α := ⟨A.mul a.x c, A.mul a.y c, A.mul a.z c⟩
def vsm (c : α) (a : V3 α) : V3 α := ⟨A.mul c a.x, A.mul c a.y, A.mul c a.z⟩
def vdiv (a : V3 α) (c : α) : V3 α := ⟨A.div a.x c, A.div a.y c, A.div a.z c⟩
/-- `torch.cross`. -/
def cross (a b : V3 α) : V3 α :=
  ⟨A.sub (A.mul a.y b.z) (A.mul a.z b.y), A.sub (A.mul a.z b.x) (A.mul a.x b.z), A.sub (A.mul a.x b.y) (A.mul a.y b.x)⟩
/-- `mask.to(dtype)`. -/
def num (b : Bool) : α := if b then A.one else A.zero

/-! ### rgbdimages.py -/

/-- One frame: `kinv` is `inverse_intrinsics(intrinsics)[..., :3, :3]`, `pix` the homogeneous pixel positions, `pose` the rotation and the
translation. -/
structure Fr (α : Type*) where
  H : Nat
  W : Nat
  kinv : M3 α
  pix : Nat → Nat → V3 α
  depth : Nat → Nat → α
  rgb : Nat → Nat → V3 α
  pose : Option (M3 α × V3 α)

/-- `valid_depth_mask`, rgbdimages.py:330-332. -/
def valid (f : Fr α) (h w : Nat) : Bool := A.lt A.zero (f.depth h w)

/-- `_compute_vertex_map`, rgbdimages.py:662-679. -/
def vertex (f : Fr α) (h w : Nat) : V3 α := vmul A (vmul A (mulVec A f.kinv (f.pix h w)) (f.depth h w)) (num A (valid A f h w))

/-- `_compute_global_vertex_map`, rgbdimages.py:681-708. -/
def gvertex (f : Fr α) (h w : Nat) : V3 α := match f.pose with
  | none => vertex A f h w
  | some (R, t) => vmul A (vadd A (mulVec A R (vertex A f h w)) t) (num A (valid A f h w))

/-- Forward differences, rgbdimages.py:712-732: the last position repeats the one before. -/
def fwdIx (n i : Nat) : Nat := if i = n - 1 then n - 2 else i
def dhoriz (f : Fr α) (h w : Nat) : V3 α := vsub A (vertex A f h (fwdIx f.W w + 1)) (vertex A f h (fwdIx f.W w))
def dverti (f : Fr α) (h w : Nat) : V3 α := vsub A (vertex A f (fwdIx f.H h + 1) w) (vertex A f (fwdIx f.H h) w)

/-- `_compute_normal_map`, rgbdimages.py:734-743. -/
def normal (f : Fr α) (h w : Nat) : V3 α :=
  let n := cross A (dhoriz A f h w) (dverti A f h w)
  let r := A.norm n
  vmul A (vdiv A n (if A.isZero r then A.one else r)) (num A (valid A f h w))

/-- `_compute_global_normal_map`, rgbdimages.py:745-762. -/
def gnormal (f : Fr α) (h w : Nat) : V3 α := match f.pose with
  | none => normal A f h w
  | some (R, _) => mulVec A R (normal A f h w)

/-! ### structures/utils.py and fusionutils.py -/

/-- The pixels of a frame, row by row. -/
def pixels (f : Fr α) : List (Nat × Nat) := (List.range f.H).flatMap fun h => (List.range f.W).map fun w => (h, w)

/-- A point of a map: position, normal, colour, confidence. -/
@[ext] structure Pt (α : Type*) where
  p : V3 α
  n : V3 α
  c : V3 α
  cc : α
  deriving DecidableEq

/-- `get_alpha`, fusionutils.py:72-75; `sig` is `2 * sigma ** 2`, `lo`, `hi` the clamping bounds. -/
def alpha (sig lo hi : α) (v : V3 α) : α :=
  A.clamp (A.exp (A.div (A.neg (A.sum [A.mul v.x v.x, A.mul v.y v.y, A.mul v.z v.z])) sig)) lo hi

/-- The point measured at a pixel. -/
def measured (al : V3 α → α) (f : Fr α) (x : Nat × Nat) : Pt α :=
  ⟨gvertex A f x.1 x.2, gnormal A f x.1 x.2, f.rgb x.1 x.2, al (vertex A f x.1 x.2)⟩

/-- The points `update_map_aggregate` appends (structures/utils.py:47-51), the first map of `update_map_fusion`: the measured points with valid
depth, row by row. -/
def cloud (al : V3 α → α) (f : Fr α) : List (Pt α) := ((pixels f).filter fun x => valid A f x.1 x.2).map (measured A al f)

/-- `find_active_map_points`, fusionutils.py:249-282, at one map point: `look p` is the position in the camera frame, in front (`z > 0`), and the
pixel it projects to if it is inside the image. `Rc`, `tc` is the inverse of the pose, `proj` the projection with the image bounds and rounding. -/
def active (Rc : M3 α) (tc : V3 α) (proj : V3 α → Option (Nat × Nat)) (p : V3 α) : Option (Nat × Nat) :=
  let q := vadd A (mulVec A Rc p) tc
  if A.lt A.zero q.z then proj q else none

/-- `find_similar_map_points`, fusionutils.py:384-399, at one map point and pixel. -/
def similar (f : Fr α) (dth nth : α) (m : Pt α) (x : Nat × Nat) : Bool :=
  A.lt (A.norm (vsub A (gvertex A f x.1 x.2) m.p)) dth && A.lt nth (dot A (gnormal A f x.1 x.2) m.n)

/-- Rows `(n, pixel)` of the table after both tests. -/
def candidates (see : V3 α → Option (Nat × Nat)) (f : Fr α) (dth nth : α) (map : List (Pt α)) : List (Nat × Nat × Nat) :=
  (List.range map.length).filterMap fun i => match map[i]? with
    | none => none
    | some m => match see m.p with
      | none => none
      | some x => if similar A f dth nth m x then some (i, x) else none

/-- The averages, fusionutils.py:668-697, at one map point: `x` is the pixel it is merged with, if any (else zeros are added). -/
def merge (al : V3 α → α) (f : Fr α) (m : Pt α) (x : Option (Nat × Nat)) : Pt α :=
  let q : Pt α := match x with
    | some x => measured A al f x
    | none => ⟨⟨A.zero, A.zero, A.zero⟩, ⟨A.zero, A.zero, A.zero⟩, ⟨A.zero, A.zero, A.zero⟩, A.zero⟩
  let cc := A.add m.cc q.cc
  let i := A.div A.one (if A.isZero cc then A.one else cc)
  let avg := fun a b : V3 α => vmul A (vadd A (vsm A m.cc a) (vsm A q.cc b)) i
  ⟨avg m.p q.p, avg m.n q.n, avg m.c q.c, cc⟩

/-- `update_map_fusion`, fusionutils.py:634-718 and :762-812: `best` is `find_best_unique_correspondences` (any choice among the candidates, see
`Chooses`). -/
def fuse (al : V3 α → α) (see : V3 α → Option (Nat × Nat)) (best : List (Nat × Nat × Nat) → List (Nat × Nat × Nat)) (dth nth : α) (map : List (Pt α))
    (f : Fr α) : List (Pt α) :=
  let rows := best (candidates A see f dth nth map)
  let merged := if rows = [] then map else (List.range map.length).filterMap fun i => map[i]?.map fun m =>
    merge A al f m ((rows.find? fun r => r.1 = i).map fun r => r.2)
  merged ++ ((pixels f).filter fun x => valid A f x.1 x.2 && !rows.any fun r => r.2 = x).map (measured A al f)

/-- What is assumed of `find_best_unique_correspondences` here: it returns some of the rows it is given. -/
def Chooses (best : List (Nat × Nat × Nat) → List (Nat × Nat × Nat)) : Prop := ∀ l, ∀ r ∈ best l, r ∈ l

/-! ### icputils.py -/

/-- One entry of `b`, icputils.py:230. -/
def entryB (s d n : V3 α) : α :=
  A.add (A.add (A.mul n.x (A.sub d.x s.x)) (A.mul n.y (A.sub d.y s.y))) (A.mul n.z (A.sub d.z s.z))

/-- One row of `A`, icputils.py:227-229. -/
def rowA (s n : V3 α) : List α :=
  [n.x, n.y, n.z, A.sub (A.mul n.z s.y) (A.mul n.y s.z), A.sub (A.mul n.x s.z) (A.mul n.z s.x), A.sub (A.mul n.y s.x) (A.mul n.x s.y)]

/-- Exceptions of the routines that are parameters here. -/
abbrev Res (ε β : Type*) := Except ε β

/-- What registration uses besides arithmetic: `knn tgt s` is `knn_points` (distance and index of the neighbour), `solve` is
`solve_linear_system` (it may raise: `torch.inverse`), `bad` the exception for an index outside the target. -/
structure Tools (α ε : Type*) where
  knn : List (V3 α) → V3 α → α × Nat
  solve : List (List α) → List α → α → Except ε (V3 α × V3 α)
  bad : ε

variable {ε : Type*} (tl : Tools α ε)

/-- The source points kept by `dist_filter`, icputils.py:203-207, with their neighbours. -/
def pairs (th : Option α) (src tgt : List (V3 α)) : List (V3 α × Nat) :=
  (src.filter fun s => match th with
    | none => true
    | some t => A.lt (tl.knn tgt s).1 t).map fun s => (s, (tl.knn tgt s).2)

/-- `gauss_newton_solve`, icputils.py:203-232. -/
def gaussNewton (th : Option α) (src tgt nrm : List (V3 α)) : Except ε (List (List α) × List α × List Nat) :=
  let ps := pairs A tl th src tgt
  if ps.any fun x => !decide (x.2 < tgt.length) then .error tl.bad
  else .ok (ps.map fun x => rowA A x.1 (nrm.getD x.2 ⟨A.zero, A.zero, A.zero⟩),
    ps.map fun x => entryB A x.1 (tgt.getD x.2 ⟨A.zero, A.zero, A.zero⟩) (nrm.getD x.2 ⟨A.zero, A.zero, A.zero⟩), ps.map fun x => x.2)

/-- `torch.dot(residual, residual)`. -/
def sqErr (b : List α) : α := A.sum (b.map fun x => A.mul x x)

/-- `so3_hat`, se3utils.py:11-26. -/
def hat (w : V3 α) : M3 α :=
  ⟨⟨A.zero, A.neg w.z, w.y⟩, ⟨w.z, A.zero, A.neg w.x⟩, ⟨A.neg w.y, w.x, A.zero⟩⟩

def madd (X Y : M3 α) : M3 α := ⟨vadd A X.r0 Y.r0, vadd A X.r1 Y.r1, vadd A X.r2 Y.r2⟩
def msmul (c : α) (X : M3 α) : M3 α := ⟨vsm A c X.r0, vsm A c X.r1, vsm A c X.r2⟩
def mmul (X Y : M3 α) : M3 α :=
  ⟨⟨dot A X.r0 Y.c0, dot A X.r0 Y.c1, dot A X.r0 Y.c2⟩, ⟨dot A X.r1 Y.c0, dot A X.r1 Y.c1, dot A X.r1 Y.c2⟩,
    ⟨dot A X.r2 Y.c0, dot A X.r2 Y.c1, dot A X.r2 Y.c2⟩⟩
def eye : M3 α := ⟨⟨A.one, A.zero, A.zero⟩, ⟨A.zero, A.one, A.zero⟩, ⟨A.zero, A.zero, A.one⟩⟩

/-- `se3_exp`, se3utils.py:77-115; `eps` is `_eps`. -/
def se3Exp (eps : α) (v w : V3 α) : M4 α :=
  let W := hat A w
  let th := A.norm w
  let small := madd A (eye A) W
  let B := A.div (A.sub A.one (A.cos th)) (A.pw th 2)
  let R := if A.lt th eps then small
    else madd A (madd A (eye A) (msmul A (A.div (A.sin th) th) W)) (msmul A B (mmul A W W))
  let V := if A.lt th eps then small
    else madd A (madd A (eye A) (msmul A B W)) (msmul A (A.div (A.sub th (A.sin th)) (A.pw th 3)) (mmul A W W))
  ⟨R, mulVec A V v, ⟨A.zero, A.zero, A.zero⟩, A.one⟩

/-- `transform_pointcloud`, geometryutils.py:780-794. -/
def transform (T : M4 α) (l : List (V3 α)) : List (V3 α) := l.map fun p => vadd A (mulVec A T.R p) T.t

/-- Row times column of a 4×4 `torch.mm`. -/
def dot4 (a : V3 α) (a3 : α) (b : V3 α) (b3 : α) : α := A.sum [A.mul a.x b.x, A.mul a.y b.y, A.mul a.z b.z, A.mul a3 b3]

/-- `torch.mm` of 4×4 matrices. -/
def mm (X Y : M4 α) : M4 α :=
  let row := fun (r : V3 α) (r3 : α) => (⟨dot4 A r r3 Y.R.c0 Y.b.x, dot4 A r r3 Y.R.c1 Y.b.y, dot4 A r r3 Y.R.c2 Y.b.z⟩ : V3 α)
  let last := fun (r : V3 α) (r3 : α) => dot4 A r r3 Y.t Y.s
  ⟨⟨row X.R.r0 X.t.x, row X.R.r1 X.t.y, row X.R.r2 X.t.z⟩, ⟨last X.R.r0 X.t.x, last X.R.r1 X.t.y, last X.R.r2 X.t.z⟩, row X.b X.s, last X.b X.s⟩

/-- The variables of the loops: `src_pc`, `damp`, `transform`. -/
structure St (α : Type*) where
  src : List (V3 α)
  damp : α
  T : M4 α

/-- Common part of both loops, icputils.py:327-354 and :497-524: `xi`, `err`, `new_err`, `one_step_pc`. -/
def lookahead (eps : α) (th : Option α) (tgt nrm : List (V3 α)) (s : St α) : Except ε ((V3 α × V3 α) × α × α × List (V3 α)) :=
  match gaussNewton A tl th s.src tgt nrm with
  | .error e => .error e
  | .ok (M, b, _) => match tl.solve M b s.damp with
    | .error e => .error e
    | .ok xi =>
      let one := transform A (se3Exp A eps xi.1 xi.2) s.src
      match gaussNewton A tl th one tgt nrm with
      | .error e => .error e
      | .ok (_, b', _) => .ok (xi, sqErr A b, sqErr A b', one)

/-- One iteration of `point_to_plane_ICP`, icputils.py:326-365. -/
def icpStep (eps two : α) (th : Option α) (tgt nrm : List (V3 α)) (s : St α) : Except ε (St α) :=
  match lookahead A tl eps th tgt nrm s with
  | .error e => .error e
  | .ok (xi, err, newErr, one) =>
    if A.lt newErr err then .ok ⟨one, A.div s.damp two, mm A (se3Exp A eps xi.1 xi.2) s.T⟩
    else .ok ⟨s.src, A.mul s.damp two, s.T⟩

/-- Constants of `point_to_plane_gradICP`: `70`, `lambda_min`, `lambda_max`, `B`, `B2`, `nu`. -/
structure Grad (α : Type*) where
  seventy : α
  lmin : α
  lmax : α
  B : α
  B2 : α
  nu : α

/-- One iteration of `point_to_plane_gradICP`, icputils.py:496-543. -/
def gradStep (eps : α) (g : Grad α) (th : Option α) (tgt nrm : List (V3 α)) (s : St α) : Except ε (St α) :=
  match lookahead A tl eps th tgt nrm s with
  | .error e => .error e
  | .ok (xi, err, newErr, _) =>
    let d := A.clamp (A.sub newErr err) (A.neg g.seventy) g.seventy
    let damp := A.add g.lmin (A.div (A.sub g.lmax g.lmin) (A.add A.one (A.exp (A.mul (A.neg g.B) d))))
    let sig := A.div A.one (A.root (A.add A.one (A.exp (A.mul (A.neg g.B2) d))) (A.div A.one g.nu))
    let R := se3Exp A eps (vsm A sig xi.1) (vsm A sig xi.2)
    .ok ⟨transform A R s.src, A.mul s.damp damp, mm A R s.T⟩

/-- `for it in range(n)`. -/
def iterate (step : St α → Except ε (St α)) : Nat → St α → Except ε (St α)
  | 0, s => .ok s
  | n + 1, s => match step s with
    | .error e => .error e
    | .ok s => iterate step n s

/-- `point_to_plane_ICP` / `point_to_plane_gradICP` from an initial transform: the `transform` they return. -/
def register (step : St α → Except ε (St α)) (n : Nat) (src : List (V3 α)) (damp : α) (T0 : M4 α) : Except ε (M4 α) :=
  match iterate step n ⟨transform A T0 src, damp, T0⟩ with
  | .error e => .error e
  | .ok s => .ok s.T

/-- kornia's `compose_transformations`, as called at icpslam.py:245-247: rotation and translation of the new pose. -/
def compose (T P : M4 α) : M4 α :=
  ⟨mmul A T.R P.R, vadd A (mulVec A T.R P.t) T.t, ⟨A.zero, A.zero, A.zero⟩, A.one⟩
end Verif.Nan
