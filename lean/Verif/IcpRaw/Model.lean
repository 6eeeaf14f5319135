import Verif.Icp.Loop
import Verif.Nd.Model
/-!
The registration functions of `gradslam/odometry/icputils.py` on arguments of ANY type and tensors of ANY shape, with all their
checks in the order of the code (`Verif.Icp.Model` has the same functions on clouds that already have the right shape).

Tensors are those of `Verif.Nd.Model`: sizes and indices INNERMOST FIRST, so that a tensor of shape `(1, N, 3)` has
`dims = [3, N, 1]` and its element `[0, n, k]` is `get [k, n, 0]`.

Simplifications: real arithmetic; dtype and device are not modelled here (C82, C105); `damp` of the two loops is a number; in the
loops the tensors `A`, `b`, `xi` go straight from one function to the next (they have the right shape by construction).
-/
namespace Verif.IcpRaw
open Verif Pcs Nd

/-- Exceptions. -/
inductive Err
  | typeError | valueError | attributeError | zeroDivisionError | indexError | runtimeError | unboundLocalError
  deriving DecidableEq, Repr

/-- The exceptions of the functions on clouds. -/
def conv : Icp.Err → Err
  | .valueError => .valueError
  | .runtimeError => .runtimeError
  | .attributeError => .attributeError
  | .unboundLocalError => .unboundLocalError
  | .indexError => .indexError
  | .pcs _ => .valueError

/-- `Except` with the exceptions translated. -/
def lift {β : Type*} : Except Icp.Err β → Except Err β
  | .ok x => .ok x
  | .error e => .error (conv e)

/-- A Python value as an argument. -/
inductive Arg
  | tensor (t : Tensor ℝ)
  | none
  | float (x : ℝ)
  | int (n : ℤ)
  | other

/-- `isinstance(x, float) or isinstance(x, int)`, with the value. -/
def Arg.number? : Arg → Option ℝ
  | .float x => some x
  | .int n => some n
  | _ => .none

/-- `isinstance(dist_thresh, float) or isinstance(dist_thresh, int) or dist_thresh is None`, icputils.py:139-143, with the value. -/
def Arg.thresh? : Arg → Option (Option ℝ)
  | .float x => some (some x)
  | .int n => some (some n)
  | .none => some .none
  | _ => .none

/-- `isinstance(damp, float) or torch.is_tensor(damp)`, icputils.py:54; an `int` is rejected. -/
def Arg.isDamp : Arg → Bool
  | .float _ => true
  | .tensor _ => true
  | _ => false

/-! ### solve_linear_system -/

/-- A 2-D tensor by rows. -/
def toT2 (t : Tensor ℝ) : T2 ℝ :=
  ⟨(List.range (t.dims.getD 1 0)).map fun r => (List.range (t.dims.getD 0 0)).map fun c => t.get [c, r], t.dims.getD 0 0⟩

/-- The checks on `A` and `b` and the solution, icputils.py:66-90. -/
noncomputable def solveT (A b : Tensor ℝ) (damp : ℝ) : Except Err (T2 ℝ) :=
  if A.rank ≠ 2 then .error .valueError
  else if b.rank ≠ 2 then .error .valueError
  else if b.dims[0]? ≠ some 1 then .error .valueError
  else if A.dims[1]? ≠ b.dims[1]? then .error .valueError
  else lift (Icp.solveLinearSystem (toT2 A) (toT2 b) damp)

/-- `solve_linear_system`, icputils.py:22-90. -/
noncomputable def solve (A b damp : Arg) : Except Err (T2 ℝ) :=
  match A with
  | .tensor A => match b with
    | .tensor b => match damp with
      | .tensor d => if d.rank ≠ 0 then .error .valueError else solveT A b (d.get [])
      | .float x => solveT A b x
      | _ => .error .typeError
    | _ => .error .typeError
  | _ => .error .typeError

/-! ### gauss_newton_solve -/

/-- The points of a tensor of shape `(1, N, 3)`. -/
def cloud (t : Tensor ℝ) : List (V3 ℝ) :=
  (List.range (t.dims.getD 1 0)).map fun n => ⟨t.get [0, n, 0], t.get [1, n, 0], t.get [2, n, 0]⟩

/-- The tensor of shape `(1, N, 3)` of a cloud: `.unsqueeze(0)` of the result of `transform_pointcloud`. -/
noncomputable def ofCloud (l : List (V3 ℝ)) : Tensor ℝ :=
  ⟨[3, l.length, 1], fun i =>
    let p := l.getD (i.getD 1 0) V3.zero
    match i.getD 0 0 with
    | 0 => p.x
    | 1 => p.y
    | _ => p.z⟩

/-- The checks on the shapes, icputils.py:149-193, and the result. -/
noncomputable def gaussT (nn : List (V3 ℝ) → V3 ℝ → Nat) (th : Option ℝ) (s t m : Tensor ℝ) : Except Err (T2 ℝ × T2 ℝ × List Nat) :=
  if s.rank ≠ 3 then .error .valueError
  else if t.rank ≠ 3 then .error .valueError
  else if m.rank ≠ 3 then .error .valueError
  else if s.dims[2]? ≠ some 1 then .error .valueError
  else if t.dims[2]? ≠ some 1 then .error .valueError
  else if m.dims[2]? ≠ some 1 then .error .valueError
  else if t.dims[1]? ≠ m.dims[1]? then .error .valueError
  else if s.dims[0]? ≠ some 3 then .error .valueError
  else if t.dims[0]? ≠ some 3 then .error .valueError
  else if m.dims[0]? ≠ some 3 then .error .valueError
  else lift (Icp.gaussNewton nn th (cloud s) (cloud t) (cloud m))

/-- `gauss_newton_solve`, icputils.py:93-232. -/
noncomputable def gauss (nn : List (V3 ℝ) → V3 ℝ → Nat) (src tgt nrm th : Arg) : Except Err (T2 ℝ × T2 ℝ × List Nat) :=
  match src with
  | .tensor s => match tgt with
    | .tensor t => match nrm with
      | .tensor m => match th.thresh? with
        | some th => gaussT nn th s t m
        | .none => .error .typeError
      | _ => .error .typeError
    | _ => .error .typeError
  | _ => .error .typeError

/-! ### point_to_plane_ICP -/

/-- `src_pc[0]`. -/
def first (t : Tensor ℝ) : Except Err (Tensor ℝ) :=
  match t.dims.getLast? with
  | .none => .error .indexError
  | some 0 => .error .indexError
  | some _ => .ok ⟨t.dims.dropLast, fun i => t.get (i ++ [0])⟩

/-- The `(4, 4)` matrix in a tensor. -/
def matOf (t : Tensor ℝ) : M4 ℝ :=
  ⟨⟨⟨t.get [0, 0], t.get [1, 0], t.get [2, 0]⟩, ⟨t.get [0, 1], t.get [1, 1], t.get [2, 1]⟩, ⟨t.get [0, 2], t.get [1, 2], t.get [2, 2]⟩⟩,
   ⟨t.get [3, 0], t.get [3, 1], t.get [3, 2]⟩, ⟨t.get [0, 3], t.get [1, 3], t.get [2, 3]⟩, t.get [3, 3]⟩

/-- `transform_pointcloud`, geometryutils.py:737-794, for a `(4, 4)` transform: the checks on the cloud and the moved points. -/
noncomputable def transformCloud (T : M4 ℝ) (p : Tensor ℝ) : Except Err (List (V3 ℝ)) :=
  if p.rank ≠ 2 then .error .valueError
  else if p.dims[0]? ≠ some 3 then .error .valueError
  else .ok (Geom.transformPointcloud T ((List.range (p.dims.getD 1 0)).map fun n => ⟨p.get [0, n], p.get [1, n], p.get [2, n]⟩))

/-- The look-ahead common to both loops, icputils.py:327-354 and :497-524, calling `gauss_newton_solve` on the target and threshold
as they were passed. -/
noncomputable def lookahead (eps : ℝ) (nn : List (V3 ℝ) → V3 ℝ → Nat) (tgt nrm th : Arg) (s : Icp.State) :
    Except Err (T2 ℝ × ℝ × ℝ × List (V3 ℝ) × List Nat) :=
  match gauss nn (.tensor (ofCloud s.src)) tgt nrm th with
  | .error e => .error e
  | .ok (A, b, idx) => match lift (Icp.solveLinearSystem A b s.damp) with
    | .error e => .error e
    | .ok xi =>
      let one := Geom.transformPointcloud (Geom.se3Exp eps (Icp.xiV xi) (Icp.xiW xi)) s.src
      match gauss nn (.tensor (ofCloud one)) tgt nrm th with
      | .error e => .error e
      | .ok (_, b', _) => .ok (xi, Icp.sqErr b, Icp.sqErr b', one, idx)

/-- One iteration of `point_to_plane_ICP`, icputils.py:326-365. -/
noncomputable def icpStep (eps : ℝ) (nn : List (V3 ℝ) → V3 ℝ → Nat) (tgt nrm th : Arg) (s : Icp.State) : Except Err Icp.State :=
  match lookahead eps nn tgt nrm th s with
  | .error e => .error e
  | .ok (xi, err, newErr, one, idx) =>
    if newErr < err then .ok ⟨one, s.damp / 2, (Geom.se3Exp eps (Icp.xiV xi) (Icp.xiW xi)).mul s.T, some idx⟩
    else .ok ⟨s.src, s.damp * 2, s.T, some idx⟩

/-- `for it in range(n)`. -/
def loop (f : Icp.State → Except Err Icp.State) : Nat → Icp.State → Except Err Icp.State
  | 0, s => .ok s
  | n + 1, s => match f s with
    | .error e => .error e
    | .ok s => loop f n s

/-- `return transform, chamfer_indices`. -/
def finish : Except Err Icp.State → Except Err (M4 ℝ × List Nat)
  | .error e => .error e
  | .ok s => match s.idx with
    | .none => .error .unboundLocalError
    | some i => .ok (s.T, i)

/-- Everything after the checks on `initial_transform`, icputils.py:310-367 and :479-545, with the loop body `f`. -/
noncomputable def run (f : Icp.State → Except Err Icp.State) (src T0 : Tensor ℝ) (numiters : ℤ) (damp : ℝ) :
    Except Err (M4 ℝ × List Nat) :=
  match first src with
  | .error e => .error e
  | .ok p => match transformCloud (matOf T0) p with
    | .error e => .error e
    | .ok l => finish (loop f numiters.toNat ⟨l, damp, matOf T0, .none⟩)

/-- `torch.is_tensor` / `isinstance` checks that both registrations make, icputils.py:274-297 and :425-448: the source, and
`initial_transform` (if any) and `numiters`. -/
def common (src tgt nrm T0 numiters : Arg) : Except Err (Tensor ℝ × Option (Tensor ℝ) × ℤ) :=
  match src with
  | .tensor s => match tgt with
    | .tensor _ => match nrm with
      | .tensor _ => match (match T0 with
          | .tensor T => some (some T)
          | .none => some .none
          | _ => .none : Option (Option (Tensor ℝ))) with
        | some T0 => match numiters with
          | .int n => .ok (s, T0, n)
          | _ => .error .typeError
        | .none => .error .typeError
      | _ => .error .typeError
    | _ => .error .typeError
  | _ => .error .typeError

/-- The checks on `initial_transform`, icputils.py:298-309 and :467-478: `None` has no attribute `ndim`. -/
def checkT0 : Option (Tensor ℝ) → Except Err (Tensor ℝ)
  | .none => .error .attributeError
  | some T =>
    if T.rank ≠ 2 then .error .valueError
    else if ¬ (T.dims[1]? = some 4 ∧ T.dims[0]? = some 4) then .error .valueError
    else .ok T

/-- `point_to_plane_ICP`, icputils.py:235-367. -/
noncomputable def icp (eps : ℝ) (nn : List (V3 ℝ) → V3 ℝ → Nat) (src tgt nrm T0 numiters : Arg) (damp : ℝ) (th : Arg) :
    Except Err (M4 ℝ × List Nat) :=
  match common src tgt nrm T0 numiters with
  | .error e => .error e
  | .ok (s, T0, n) => match checkT0 T0 with
    | .error e => .error e
    | .ok T => run (icpStep eps nn tgt nrm th) s T n damp

/-! ### point_to_plane_gradICP -/

/-- One iteration of `point_to_plane_gradICP`, icputils.py:496-543; `1 / nu` is evaluated in every iteration (:538). -/
noncomputable def gradStep (eps lmax B B2 nu : ℝ) (nn : List (V3 ℝ) → V3 ℝ → Nat) (tgt nrm th : Arg) (s : Icp.State) :
    Except Err Icp.State :=
  match lookahead eps nn tgt nrm th s with
  | .error e => .error e
  | .ok (xi, err, newErr, _, idx) =>
    if nu = 0 then .error .zeroDivisionError
    else
      let e := Icp.clamp70 (newErr - err)
      let w := Icp.stepWeight B2 nu e
      let R := Geom.se3Exp eps ((Icp.xiV xi).smul w) ((Icp.xiW xi).smul w)
      .ok ⟨Geom.transformPointcloud R s.src, s.damp * Icp.dampFactor lmax B e, R.mul s.T, some idx⟩

/-- `point_to_plane_gradICP`, icputils.py:370-545: the checks on the four parameters (:449-466) come before those on
`initial_transform`; `lambda_min = 1 / lambda_max` (:485). -/
noncomputable def gradIcp (eps : ℝ) (nn : List (V3 ℝ) → V3 ℝ → Nat) (src tgt nrm T0 numiters : Arg) (damp : ℝ) (th lmax B B2 nu : Arg) :
    Except Err (M4 ℝ × List Nat) :=
  match common src tgt nrm T0 numiters with
  | .error e => .error e
  | .ok (s, T0, n) => match lmax.number?, B.number?, B2.number?, nu.number? with
    | some lmax, some B, some B2, some nu => match checkT0 T0 with
      | .error e => .error e
      | .ok T =>
        if lmax = 0 then .error .zeroDivisionError
        else run (gradStep eps lmax B B2 nu nn tgt nrm th) s T n damp
    | _, _, _, _ => .error .typeError
end Verif.IcpRaw
