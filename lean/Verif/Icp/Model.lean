import Verif.Geom.ModelReal
import Verif.PC.Model
import Verif.Fusion.Model
import Mathlib.LinearAlgebra.Matrix.NonsingularInverse
import Mathlib.Analysis.SpecialFunctions.Exp
import Mathlib.Analysis.SpecialFunctions.Pow.Real
/-!
Model of `gradslam/odometry/icputils.py`, `icp.py`, `gradicp.py` and `groundtruth.py`.

Simplifications: exact arithmetic (a field, or ℝ where `sin`, `cos`, `exp`, `√` occur); the TypeError branches and the checks on the number
of dimensions are left out (they hold by typing here); clouds of shape `(1, N, 3)` are lists of vectors.  `knn_points` of the package
`chamferdist` is the parameter `nn` (see `NearestIn`), together with its documented result: the *squared* distance to the neighbour.
-/
namespace Verif.Icp
open Verif Pcs

/-- Exceptions. -/
inductive Err
  | valueError | runtimeError | attributeError | unboundLocalError | indexError
  | pcs (e : Pcs.Err)
  deriving DecidableEq, Repr

/-! ### solve_linear_system -/
section
variable {α : Type*} [Field α]

/-- A 2-D tensor as a matrix. -/
def toMat (t : T2 α) : Matrix (Fin t.rows.length) (Fin t.cols) α := fun i j => (t.rows.getD i []).getD j 0

/-- The entries of a one-column tensor. -/
def colVec (n : Nat) (t : T2 α) : Fin n → α := fun i => (t.rows.getD i []).getD 0 0

/-- `A_t @ A + eye * damp`, icputils.py:84-87. -/
def normalMatrix (A : T2 α) (damp : α) : Matrix (Fin A.cols) (Fin A.cols) α :=
  (toMat A).transpose * toMat A + damp • (1 : Matrix (Fin A.cols) (Fin A.cols) α)

/-- `solve_linear_system`, icputils.py:22-90.  `torch.inverse` raises RuntimeError on a singular matrix. -/
noncomputable def solveLinearSystem [DecidableEq α] (A b : T2 α) (damp : α) : Except Err (T2 α) :=
  if b.cols ≠ 1 then .error .valueError
  else if A.rows.length ≠ b.rows.length then .error .valueError
  else if (normalMatrix A damp).det = 0 then .error .runtimeError
  else
    let x := (normalMatrix A damp)⁻¹.mulVec ((toMat A).transpose.mulVec (colVec A.rows.length b))
    .ok ⟨List.ofFn fun i => [x i], 1⟩
end

/-! ### gauss_newton_solve -/
section
variable {α : Type*} [Field α] [LinearOrder α]

/-- `knn_points(src, tgt).dists` for one source point: the squared distance to the neighbour. -/
def nnDist (nn : List (V3 α) → V3 α → Nat) (tgt : List (V3 α)) (s : V3 α) : α :=
  (s.sub (tgt.getD (nn tgt s) V3.zero)).normSq

/-- `dist_filter`, icputils.py:203-207. -/
def keeps (nn : List (V3 α) → V3 α → Nat) (th : Option α) (tgt : List (V3 α)) (s : V3 α) : Bool :=
  match th with
  | none => true
  | some t => decide (nnDist nn tgt s < t)

/-- One row of `A`, icputils.py:227-229. -/
def rowA (s n : V3 α) : List α :=
  [n.x, n.y, n.z, n.z * s.y - n.y * s.z, n.x * s.z - n.z * s.x, n.y * s.x - n.x * s.y]

/-- One entry of `b`, icputils.py:230. -/
def entryB (s d n : V3 α) : α := n.x * (d.x - s.x) + n.y * (d.y - s.y) + n.z * (d.z - s.z)

/-- `gauss_newton_solve`, icputils.py:93-232: `A`, `b` and `chamfer_indices`.  A neighbour index outside the target cloud (only
possible when that cloud is empty) makes `index_select` fail. -/
def gaussNewton (nn : List (V3 α) → V3 α → Nat) (th : Option α) (src tgt nrm : List (V3 α)) :
    Except Err (T2 α × T2 α × List Nat) :=
  if tgt.length ≠ nrm.length then .error .valueError
  else
    let kept := src.filter (keeps nn th tgt)
    if kept.any fun s => !decide (nn tgt s < tgt.length) then .error .indexError
    else .ok
      (⟨kept.map fun s => rowA s (nrm.getD (nn tgt s) V3.zero), 6⟩,
       ⟨kept.map fun s => [entryB s (tgt.getD (nn tgt s) V3.zero) (nrm.getD (nn tgt s) V3.zero)], 1⟩,
       kept.map (nn tgt))

/-- `torch.dot(residual, residual)` with `residual = b[:, 0]`, icputils.py:331,340. -/
def sqErr (b : T2 α) : α := (b.rows.map fun r => r.getD 0 0 * r.getD 0 0).sum

/-- `xi[:3]`, `xi[3:]` of a `(6, 1)` tensor. -/
def xiV (x : T2 α) : V3 α := ⟨(x.rows.getD 0 []).getD 0 0, (x.rows.getD 1 []).getD 0 0, (x.rows.getD 2 []).getD 0 0⟩
def xiW (x : T2 α) : V3 α := ⟨(x.rows.getD 3 []).getD 0 0, (x.rows.getD 4 []).getD 0 0, (x.rows.getD 5 []).getD 0 0⟩
end

/-! ### point_to_plane_ICP -/

/-- The variables that live across iterations: `src_pc`, `damp`, `transform`, `chamfer_indices` (unbound before the first iteration). -/
structure State where
  src : List (V3 ℝ)
  damp : ℝ
  T : M4 ℝ
  idx : Option (List Nat)

/-- The look-ahead common to both loops, icputils.py:327-354 and :497-524: the system's solution `xi`, `err`, `new_err`, `one_step_pc`
and `chamfer_indices`. -/
noncomputable def lookahead (eps : ℝ) (nn : List (V3 ℝ) → V3 ℝ → Nat) (th : Option ℝ) (tgt nrm : List (V3 ℝ)) (s : State) :
    Except Err (T2 ℝ × ℝ × ℝ × List (V3 ℝ) × List Nat) :=
  match gaussNewton nn th s.src tgt nrm with
  | .error e => .error e
  | .ok (A, b, idx) => match solveLinearSystem A b s.damp with
    | .error e => .error e
    | .ok xi =>
      let one := Geom.transformPointcloud (Geom.se3Exp eps (xiV xi) (xiW xi)) s.src
      match gaussNewton nn th one tgt nrm with
      | .error e => .error e
      | .ok (_, b', _) => .ok (xi, sqErr b, sqErr b', one, idx)

/-- One iteration of `point_to_plane_ICP`, icputils.py:326-365. -/
noncomputable def icpStep (eps : ℝ) (nn : List (V3 ℝ) → V3 ℝ → Nat) (th : Option ℝ) (tgt nrm : List (V3 ℝ)) (s : State) :
    Except Err State :=
  match lookahead eps nn th tgt nrm s with
  | .error e => .error e
  | .ok (xi, err, newErr, one, idx) =>
    if newErr < err then .ok ⟨one, s.damp / 2, (Geom.se3Exp eps (xiV xi) (xiW xi)).mul s.T, some idx⟩
    else .ok ⟨s.src, s.damp * 2, s.T, some idx⟩

/-- `for it in range(n)`. -/
def loop (f : State → Except Err State) : Nat → State → Except Err State
  | 0, s => .ok s
  | n + 1, s => match f s with
    | .error e => .error e
    | .ok s => loop f n s

/-- `return transform, chamfer_indices`: the name is unbound if no iteration ran. -/
def finish : Except Err State → Except Err (M4 ℝ × List Nat)
  | .error e => .error e
  | .ok s => match s.idx with
    | none => .error .unboundLocalError
    | some i => .ok (s.T, i)

/-- The state before the first iteration, icputils.py:310-324 and :479-494. -/
noncomputable def start (src : List (V3 ℝ)) (damp : ℝ) (T0 : M4 ℝ) : State :=
  ⟨Geom.transformPointcloud T0 src, damp, T0, none⟩

/-- `point_to_plane_ICP`, icputils.py:235-367.  `initial_transform.ndim` (:298) is evaluated before the `None` default is replaced
(:311). -/
noncomputable def pointToPlaneICP (eps : ℝ) (nn : List (V3 ℝ) → V3 ℝ → Nat) (src tgt nrm : List (V3 ℝ)) (T0 : Option (M4 ℝ))
    (numiters : Int) (damp : ℝ) (th : Option ℝ) : Except Err (M4 ℝ × List Nat) :=
  match T0 with
  | none => .error .attributeError
  | some T0 => finish (loop (icpStep eps nn th tgt nrm) numiters.toNat (start src damp T0))

/-! ### point_to_plane_gradICP -/

/-- `errdiff.clamp(-70.0, 70.0)`, icputils.py:530. -/
noncomputable def clamp70 (x : ℝ) : ℝ := min (max x (-70)) 70

/-- The damping multiplier, icputils.py:532-534, with `lambda_min = 1 / lambda_max` (:485). -/
noncomputable def dampFactor (lmax B e : ℝ) : ℝ := 1 / lmax + (lmax - 1 / lmax) / (1 + Real.exp (-B * e))

/-- The step weight `sigmoid`, icputils.py:538. -/
noncomputable def stepWeight (B2 nu e : ℝ) : ℝ := 1 / (1 + Real.exp (-B2 * e)) ^ (1 / nu)

/-- One iteration of `point_to_plane_gradICP`, icputils.py:496-543. -/
noncomputable def gradStep (eps lmax B B2 nu : ℝ) (nn : List (V3 ℝ) → V3 ℝ → Nat) (th : Option ℝ) (tgt nrm : List (V3 ℝ)) (s : State) :
    Except Err State :=
  match lookahead eps nn th tgt nrm s with
  | .error e => .error e
  | .ok (xi, err, newErr, _, idx) =>
    let e := clamp70 (newErr - err)
    let w := stepWeight B2 nu e
    let R := Geom.se3Exp eps ((xiV xi).smul w) ((xiW xi).smul w)
    .ok ⟨Geom.transformPointcloud R s.src, s.damp * dampFactor lmax B e, R.mul s.T, some idx⟩

/-- `point_to_plane_gradICP`, icputils.py:370-545 (`1 / lambda_max` with `lambda_max = 0` is a ZeroDivisionError in Python; not modelled:
the theorems assume `lambda_max > 0`). -/
noncomputable def pointToPlaneGradICP (eps lmax B B2 nu : ℝ) (nn : List (V3 ℝ) → V3 ℝ → Nat) (src tgt nrm : List (V3 ℝ))
    (T0 : Option (M4 ℝ)) (numiters : Int) (damp : ℝ) (th : Option ℝ) : Except Err (M4 ℝ × List Nat) :=
  match T0 with
  | none => .error .attributeError
  | some T0 => finish (loop (gradStep eps lmax B B2 nu nn th tgt nrm) numiters.toNat (start src damp T0))

/-! ### Downsampling -/
section
variable {α : Type*} [Field α] [LinearOrder α]

/-- The positions selected by `[::ds]` from a dimension of size `n`. -/
def strided (n ds : Nat) : List Nat := (List.range ((n + ds - 1) / ds)).map (· * ds)

/-- The pixels selected by `[..., ::ds, ::ds]` followed by a boolean mask (row-major). -/
def dsPixels (L H W ds : Nat) (m : Nat → Nat → Nat → Bool) : List (Nat × Nat × Nat) :=
  ((List.range L).flatMap fun l => (strided H ds).flatMap fun h => (strided W ds).map fun w => (l, h, w)).filter
    fun x => m x.1 x.2.1 x.2.2

/-- `[image[b][..., ::ds, ::ds, :][mask[b]] for b in range(B)]`. -/
def dsPicked (fr : Fusion.Frame α) (ds : Nat) (f : Nat → Nat → Nat → Nat → V3 α) : List (T2 α) :=
  (List.range fr.B).map fun b => ⟨(dsPixels fr.L fr.H fr.W ds (fr.valid b)).map fun x => (f b x.1 x.2.1 x.2.2).toList, 3⟩

/-- The arguments of the constructor call, icputils.py:656-669. -/
def dsArg (fr : Fusion.Frame α) (ds : Nat) : Attr → Option (List (T2 α))
  | .points => some (dsPicked fr ds fr.gv)
  | .normals => some (dsPicked fr ds fr.gn)
  | .colors => some (dsPicked fr ds fr.rgb)
  | .features => none

/-- `downsample_rgbdimages`, icputils.py:623-669; torch slices need a positive step (ValueError). -/
def downsampleRgbd (fr : Fusion.Frame α) (ds : Int) : Except Err (PC α) :=
  if fr.L ≠ 1 then .error .valueError
  else if ds ≤ 0 then .error .valueError
  else match newList (dsArg fr ds.toNat) (dsPicked fr ds.toNat fr.gv) with
    | .error e => .error (.pcs e)
    | .ok o => .ok o

/-- `[x_list[b][table[table[..., 0] == b][..., 1]] for b in range(B)]`, icputils.py:599-619; an index outside the cloud is an
IndexError. -/
def gather (B : Nat) (l : List (T2 α)) (rows : List Fusion.Row) : Except Err (List (T2 α)) :=
  if rows.any fun r => decide (r.b < B) && !decide (r.n < (l.getD r.b ⟨[], 0⟩).rows.length) then .error .indexError
  else .ok ((List.range B).map fun b =>
    ⟨(rows.filter fun r => r.b = b).map fun r => (l.getD b ⟨[], 0⟩).rows.getD r.n [], (l.getD b ⟨[], 0⟩).cols⟩)

/-- `None if x_list is None else [...]`. -/
def gatherOpt (B : Nat) (o : Option (List (T2 α))) (rows : List Fusion.Row) : Except Err (Option (List (T2 α))) :=
  match o with
  | none => .ok none
  | some l => match gather B l rows with
    | .error e => .error e
    | .ok l => .ok (some l)

/-- `points`, `normals`, `colors` of the constructor call, icputils.py:620. -/
def dsMapArg (P : List (T2 α)) (Nn C : Option (List (T2 α))) : Attr → Option (List (T2 α))
  | .points => some P
  | .normals => Nn
  | .colors => C
  | .features => none

/-- The rows of the table whose pixel is on the grid, icputils.py:595-597. -/
def gridRows (ds : Int) (rows : List Fusion.Row) : List Fusion.Row :=
  (rows.filter fun r => (r.h : Int) % ds = 0).filter fun r => (r.w : Int) % ds = 0

/-- `downsample_pointclouds`, icputils.py:548-620.  An integer tensor modulo 0 raises RuntimeError (if it has entries).  Subscripting
`points_list = None` is a TypeError (only reached for a non-zero batch size).  Returns the result and the map (its caches may have been
filled). -/
def downsamplePointclouds (pc : PC α) (rows : List Fusion.Row) (ds : Int) : Except Err (PC α) × PC α :=
  if ds = 0 ∧ rows ≠ [] then (.error .runtimeError, pc)
  else
    let rows := gridRows ds rows
    let (p, pc) := getList .points pc
    match (match p with
      | none => if pc.B = 0 then .ok [] else .error (.pcs .typeError)
      | some l => gather pc.B l rows : Except Err (List (T2 α))) with
    | .error e => (.error e, pc)
    | .ok P =>
      let (n, pc) := getList .normals pc
      match gatherOpt pc.B n rows with
      | .error e => (.error e, pc)
      | .ok Nn =>
        let (c, pc) := getList .colors pc
        match gatherOpt pc.B c rows with
        | .error e => (.error e, pc)
        | .ok C => match newList (dsMapArg P Nn C) P with
          | .error e => (.error (.pcs e), pc)
          | .ok o => (.ok o, pc)

/-! ### Odometry providers -/

/-- A cloud's tensor as vectors. -/
def vecs (t : T2 α) : List (V3 α) := t.rows.map Fusion.toV3

/-- Run `f 0`, `f 1`, ... and collect the results, stopping at the first error. -/
def collect {β : Type*} (f : Nat → Except Err β) : List Nat → Except Err (List β)
  | [] => .ok []
  | b :: bs => match f b with
    | .error e => .error e
    | .ok x => match collect f bs with
      | .error e => .error e
      | .ok xs => .ok (x :: xs)

/-- `ICPOdometryProvider.provide` (icp.py:36-97) and `GradICPOdometryProvider.provide` (gradicp.py:57-122): one registration per batch
element from the identity; `icp src tgt nrm T0` is the registration routine with the provider's parameters.  The list getters only fill
caches of the two arguments, which is not recorded here.  `torch.stack([])` is a RuntimeError. -/
def provide (icp : List (V3 α) → List (V3 α) → List (V3 α) → Option (M4 α) → Except Err (M4 α × List Nat)) (maps frames : PC α) :
    Except Err (List (M4 α)) :=
  match (getList .normals maps).1 with
  | none => .error .valueError
  | some Nn =>
    if maps.B ≠ frames.B then .error .valueError
    else if maps.B = 0 then .error .runtimeError
    else match (getList .points maps).1, (getList .points frames).1 with
      | some Q, some P => collect (fun b => match icp (vecs (P.getD b ⟨[], 0⟩)) (vecs (Q.getD b ⟨[], 0⟩)) (vecs (Nn.getD b ⟨[], 0⟩)) (some M4.one) with
          | .error e => .error e
          | .ok (T, _) => .ok T) (List.range maps.B)
      | _, _ => .error (.pcs .typeError)

/-- `GroundTruthOdometryProvider.provide`, groundtruth.py:15-75, on frame objects with shape `(B, L)` and optional poses.  `inv` is
`torch.inverse` on one matrix (`none`: singular, RuntimeError). -/
def groundTruthProvide (inv : M4 α → Option (M4 α)) (B1 L1 : Nat) (p1 : Option (Nat → Nat → M4 α)) (B2 L2 : Nat)
    (p2 : Option (Nat → Nat → M4 α)) : Except Err (List (M4 α)) :=
  match p1 with
  | none => .error .valueError
  | some p1 => match p2 with
    | none => .error .valueError
    | some p2 =>
      if L1 ≠ 1 then .error .valueError
      else if L2 ≠ 1 then .error .valueError
      else if B1 ≠ B2 then .error .valueError
      else collect (fun b => match inv (p1 b 0) with
        | none => .error .runtimeError
        | some _ => .ok (Geom.relativeTransformation (fun T => (inv T).getD T) false (p1 b 0) (p2 b 0))) (List.range B1)
end
end Verif.Icp
