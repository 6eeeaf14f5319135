import Verif.Nd.Model
/-!
Model of the functions of `gradslam/geometry/geometryutils.py` that take whole transformation matrices — `inverse_transfom_3d`,
`compose_transforms_3d`, `relative_transform_3d`, `transform_pointcloud`, `transform_normals` — on tensors of ANY shape.
Tensors are those of `Verif.Nd.Model` (sizes and indices innermost first).

Simplifications: exact field arithmetic; the type checks are omitted.
-/
namespace Verif.Axis
open Verif.Nd (Tensor)
open Verif.Nd.Tensor (bidx matmul zipT)

/-- Exceptions. -/
inductive MErr
  | typeError | valueError | indexError | runtimeError | assertion
  deriving DecidableEq, Repr

variable {α : Type*} [Field α] [LinearOrder α]

/-- `t[..., :3, :3]`. -/
def block (t : Tensor α) : Tensor α :=
  match t.dims with
  | c :: r :: ds => ⟨min 3 c :: min 3 r :: ds, t.get⟩
  | _ => t

/-- `t[..., :3, 3]`: IndexError when the last dimension has no element 3. -/
def col3 (t : Tensor α) : Except MErr (Tensor α) :=
  match t.dims with
  | c :: r :: ds => if 3 < c then .ok ⟨min 3 r :: ds, fun i => t.get (3 :: i)⟩ else .error .indexError
  | _ => .error .indexError

/-- `torch.transpose(t, -1, -2)`. -/
def transposeT (t : Tensor α) : Tensor α :=
  match t.dims with
  | c :: r :: ds => ⟨r :: c :: ds, fun i => match i with
      | a :: b :: is => t.get (b :: a :: is)
      | _ => t.get i⟩
  | _ => t

/-- Exceptions of the tensor operations. -/
def lift {β : Type*} : Except Nd.Err β → Except MErr β
  | .ok x => .ok x
  | .error _ => .error .runtimeError

/-- `torch.matmul` with a first argument of at least two dimensions: a one-dimensional second argument is a vector, everything else is
multiplied as matrices with broadcast leading dimensions (a tensor of shape `(N, 3)` is ONE matrix, not `N` vectors). -/
def mm (a b : Tensor α) : Except MErr (Tensor α) :=
  match b.dims with
  | [k'] =>
    match a.dims with
    | k :: m :: ds =>
      if k = k' then .ok ⟨m :: ds, fun i => match i with
        | r :: is => ∑ l ∈ Finset.range k, a.get (l :: r :: is) * b.get [l]
        | [] => 0⟩
      else .error .runtimeError
    | _ => .error .runtimeError
  | _ => lift (matmul a b)

/-- Can a value of shape `v` be assigned to a region of shape `s`?  Surplus leading dimensions must be 1. -/
def assignable : List ℕ → List ℕ → Bool
  | [], _ => true
  | v :: vs, [] => v = 1 && assignable vs []
  | v :: vs, s :: ss => (v = s || v = 1) && assignable vs ss

/-- `t[..., :3, :3] = v`. -/
def setBlock (t v : Tensor α) : Except MErr (Tensor α) :=
  match t.dims with
  | c :: r :: ds =>
    if assignable v.dims (min 3 c :: min 3 r :: ds) then
      .ok ⟨t.dims, fun i => match i with
        | a :: b :: _ => if a < 3 ∧ b < 3 then v.get (bidx v.dims i) else t.get i
        | _ => t.get i⟩
    else .error .runtimeError
  | _ => .error .indexError

/-- `t[..., :3, 3] = v`. -/
def setCol3 (t v : Tensor α) : Except MErr (Tensor α) :=
  match t.dims with
  | c :: r :: ds =>
    if 3 < c then
      if assignable v.dims (min 3 r :: ds) then
        .ok ⟨t.dims, fun i => match i with
          | a :: b :: is => if a = 3 ∧ b < 3 then v.get (bidx v.dims (b :: is)) else t.get i
          | _ => t.get i⟩
      else .error .runtimeError
    else .error .indexError
  | _ => .error .indexError

/-- `t[..., -1, -1] = 1.0`. -/
def setCorner (t : Tensor α) : Except MErr (Tensor α) :=
  match t.dims with
  | c :: r :: ds =>
    if 0 < c ∧ 0 < r then
      .ok ⟨t.dims, fun i => match i with
        | a :: b :: _ => if a = c - 1 ∧ b = r - 1 then 1 else t.get i
        | _ => t.get i⟩
    else .error .indexError
  | _ => .error .indexError

/-- `torch.zeros_like(t)`. -/
def zerosLike (t : Tensor α) : Tensor α := ⟨t.dims, fun _ => 0⟩

/-- The packing shared by geometryutils.py:236-239 and :296-299. -/
def pack (t rot vec : Tensor α) : Except MErr (Tensor α) :=
  match setBlock (zerosLike t) rot with
  | .error e => .error e
  | .ok a =>
    match setCol3 a vec with
    | .error e => .error e
    | .ok b => setCorner b

/-- The guard of geometryutils.py:222-225 (and :263, :275): `not dim in (2, 3) and shape[-2, :] == (4, 4)`.  `shape[-2, :]` raises TypeError
whenever it is evaluated, so the guard never raises ValueError, and lets every tensor with two or three dimensions pass. -/
def guardRank (t : Tensor α) : Except MErr Unit :=
  if t.rank = 2 ∨ t.rank = 3 then .ok () else .error .typeError

/-- `inverse_transfom_3d`, geometryutils.py:205-241. -/
def inverseTransfom3d (t : Tensor α) : Except MErr (Tensor α) :=
  match guardRank t with
  | .error e => .error e
  | .ok _ =>
    match col3 t with
    | .error e => .error e
    | .ok tvec =>
      let rinv := transposeT (block t)
      match mm (rinv.mapT (- ·)) tvec with
      | .error e => .error e
      | .ok v => pack t rinv v

/-- `compose_transforms_3d`, geometryutils.py:257-301. -/
def composeTransforms3d (t u : Tensor α) : Except MErr (Tensor α) :=
  match guardRank t with
  | .error e => .error e
  | .ok _ =>
    match guardRank u with
    | .error e => .error e
    | .ok _ =>
      if t.dims ≠ u.dims then .error .assertion else
      match col3 t with
      | .error e => .error e
      | .ok t1 =>
        match col3 u with
        | .error e => .error e
        | .ok t2 =>
          match mm (block t) (block u) with
          | .error e => .error e
          | .ok r =>
            match mm (block t) t2 with
            | .error e => .error e
            | .ok v =>
              match lift (zipT (· + ·) v t1) with
              | .error e => .error e
              | .ok v => pack t r v

/-- `relative_transform_3d`, geometryutils.py:393-410. -/
def relativeTransform3d (t u : Tensor α) : Except MErr (Tensor α) :=
  match inverseTransfom3d t with
  | .error e => .error e
  | .ok i => composeTransforms3d i u

/-- `t[:3, :3]`: the two OUTERMOST dimensions. -/
def outerBlock (t : Tensor α) : Tensor α :=
  ⟨(t.dims.modify (t.rank - 1) (min 3)).modify (t.rank - 2) (min 3), t.get⟩

/-- `t[:3, 3]`: the outermost dimension is cut, of the next one element 3 is taken. -/
def outerCol (t : Tensor α) : Except MErr (Tensor α) :=
  match t.dims[t.rank - 2]? with
  | none => .error .indexError
  | some n =>
    if 3 < n then .ok ⟨(t.dims.modify (t.rank - 1) (min 3)).eraseIdx (t.rank - 2), fun i => t.get (i.insertIdx (t.rank - 2) 3)⟩
    else .error .indexError

/-- The checks of `transform_pointcloud` (geometryutils.py:758-779) and `transform_normals` (:811-826): the transform is only required to
END in `(4, 4)`. -/
def checkCloud (p t : Tensor α) : Except MErr Unit :=
  if p.rank ≠ 2 then .error .valueError
  else if p.dims.head? ≠ some 3 then .error .valueError
  else if t.dims.take 2 ≠ [4, 4] then .error .valueError
  else .ok ()

/-- `transform_pointcloud`, geometryutils.py:758-794.  (The final `transpose(0, 1)` is reached with two dimensions only.) -/
def transformPointcloud (p t : Tensor α) : Except MErr (Tensor α) :=
  match checkCloud p t with
  | .error e => .error e
  | .ok _ =>
    match outerCol t with
    | .error e => .error e
    | .ok tvec =>
      match mm (outerBlock t) (transposeT p) with
      | .error e => .error e
      | .ok q =>
        match lift (zipT (· + ·) q (tvec.unsqueeze (tvec.rank - 1))) with
        | .error e => .error e
        | .ok q => .ok (transposeT q)

/-- `transform_normals`, geometryutils.py:811-837. -/
def transformNormals (p t : Tensor α) : Except MErr (Tensor α) :=
  match checkCloud p t with
  | .error e => .error e
  | .ok _ =>
    match mm (outerBlock t) (transposeT p) with
    | .error e => .error e
    | .ok q => .ok (transposeT q)

end Verif.Axis
