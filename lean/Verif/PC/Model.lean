import Verif.Geom.Model
import Mathlib.Data.List.Dedup
/-!
Model of `gradslam/structures/pointclouds.py` (class `Pointclouds`) and of `structutils.list_to_padded` / `padded_to_list`.

The object is a record of its private fields; every method is a function from the record to a result *and* the record afterwards
(reading a property may fill caches, a failing call may have done part of its work).  The four attributes points / normals /
colors / features are treated by the same code text four times; here they are an index `Attr`.

Devices and the sharing of tensor memory are in Verif/Mem (C81, C82).  Not modelled: dtypes, non-tensor arguments (TypeError branches).
-/
namespace Verif.Pcs
open Verif

inductive Err
  | typeError | valueError | indexError | runtimeError
  deriving DecidableEq, Repr

inductive Attr
  | points | normals | colors | features
  deriving DecidableEq, Repr

/-- A 2-D tensor: its rows and its number of columns (needed when there are no rows). -/
@[ext] structure T2 (α : Type*) where
  rows : List (List α)
  cols : Nat
  deriving DecidableEq

/-- A tensor is rectangular. -/
def T2.Valid {α : Type*} (t : T2 α) : Prop := ∀ r ∈ t.rows, r.length = t.cols

/-- `tensor.shape`. -/
def T2.shape {α : Type*} (t : T2 α) : Nat × Nat := (t.rows.length, t.cols)

/-- `tensor.shape` of a 3-D tensor given as the list of its slices. -/
def shape3 {α : Type*} (p : List (T2 α)) : Nat × Nat × Nat :=
  (p.length, ((p.head?.map T2.shape).getD (0, 0)).1, ((p.head?.map T2.shape).getD (0, 0)).2)

/-- The private fields of a `Pointclouds` object, pointclouds.py:90-108 (`_B`, `_N` at :165-169, :215-216, :228-229). -/
structure PC (α : Type*) where
  lst : Attr → Option (List (T2 α))
  pad : Attr → Option (List (T2 α))
  mask : Option (List (List Bool))
  has : Attr → Option Bool
  num : List Nat
  eq : Option Bool
  B : Nat
  N : Nat

section
variable {α : Type*}

/-- Largest element, 0 for the empty list (`tensor.max()`). -/
def maxL (l : List Nat) : Nat := l.foldr max 0

/-- `len(t.unique()) == 1` for a non-empty tensor. -/
def equi (l : List Nat) : Bool := l.all (· == l.headD 0)

/-- Apply a function to every row of a (padded) tensor, given batch index and row index. -/
def mapRows (g : Nat → Nat → List α → List α) (p : List (T2 α)) : List (T2 α) :=
  p.mapIdx fun b t => { t with rows := t.rows.mapIdx fun n r => g b n r }

/-! ### Construction -/

/-- `Pointclouds()`, pointclouds.py:222-231. -/
def newEmpty : PC α := ⟨fun _ => none, fun _ => none, none, fun _ => none, [0], none, 0, 0⟩

/-- `x is None or p(x)`. -/
def okOpt {β : Type*} (o : Option β) (p : β → Bool) : Bool :=
  match o with
  | none => true
  | some x => p x

/-- `Pointclouds(points=[...], normals=..., colors=..., features=...)` with lists of 2-D tensors, pointclouds.py:76-88, :110-170.
`arg X` is the list given for attribute `X`. -/
def newList (arg : Attr → Option (List (T2 α))) (P : List (T2 α)) : Except Err (PC α) :=
  if P.length = 0 then .error .valueError
  else if P.any (fun p => p.cols ≠ 3) then .error .valueError
  else if !okOpt (arg .normals) (fun n => n.map T2.shape = P.map T2.shape) then .error .valueError
  else if !okOpt (arg .colors) (fun c => c.map T2.shape = P.map T2.shape) then .error .valueError
  else if !okOpt (arg .features) (fun f => f.map (·.rows.length) = P.map (·.rows.length)) then .error .valueError
  else if !okOpt (arg .features) (fun f => (f.map (·.cols)).dedup.length = 1) then .error .valueError
  else
    let num := P.map (·.rows.length)
    .ok ⟨fun X => if X = .points then some P else arg X, fun _ => none, none, fun _ => none, num, some (equi num), P.length,
      maxL num⟩

/-- `Pointclouds(points=tensor, ...)` with 3-D tensors, pointclouds.py:76-88, :172-220. -/
def newTensor (arg : Attr → Option (List (T2 α))) (P : List (T2 α)) : Except Err (PC α) :=
  if P.length = 0 then .error .valueError
  else if (shape3 P).2.2 ≠ 3 then .error .valueError
  else if !okOpt (arg .normals) (fun n => shape3 n = shape3 P) then .error .valueError
  else if !okOpt (arg .colors) (fun c => shape3 c = shape3 P) then .error .valueError
  else if !okOpt (arg .features) (fun f => ((shape3 f).1, (shape3 f).2.1) = ((shape3 P).1, (shape3 P).2.1)) then .error .valueError
  else
    .ok ⟨fun _ => none, fun X => if X = .points then some P else arg X, none, fun _ => none,
      List.replicate P.length (shape3 P).2.1, some true, P.length, (shape3 P).2.1⟩

/-! ### Presence queries and getters -/

/-- `has_points` / `has_normals` / `has_colors` / `has_features`, pointclouds.py:616-666. -/
def hasAttr (X : Attr) (s : PC α) : Bool × PC α :=
  match s.has X with
  | some b => (b, s)
  | none =>
    let b := (s.lst X).isSome || (s.pad X).isSome
    (b, { s with has := Function.update s.has X (some b) })

/-- `num_features`, pointclouds.py:668-680. -/
def numFeatures (s : PC α) : Nat × PC α :=
  let (h, s) := hasAttr .features s
  if !h then (0, s)
  else match s.pad .features with
    | some p => ((shape3 p).2.2, s)
    | none => match s.lst .features with
      | some l => ((shape3 l).2.2, s)
      | none => (0, s)

/-- `t[:n]`. -/
def T2.take (n : Nat) (t : T2 α) : T2 α := ⟨t.rows.take n, t.cols⟩

/-- `points_list` and the other list getters, pointclouds.py:682-736. -/
def getList (X : Attr) (s : PC α) : Option (List (T2 α)) × PC α :=
  match s.lst X, s.pad X with
  | some l, _ => (some l, s)
  | none, none => (none, s)
  | none, some p =>
    let l := List.zipWith (fun t n => T2.take n t) p s.num
    (some l, { s with lst := Function.update s.lst X (some l) })

/-- `nonpad_mask`, pointclouds.py:790-809. -/
def getMask (s : PC α) : Option (List (List Bool)) × PC α :=
  match s.mask with
  | some m => (some m, s)
  | none =>
    let (h, s) := hasAttr .points s
    if h then
      let m := (List.range s.B).map fun b => (List.range s.N).map fun n =>
        decide (n < if s.eq = some true then s.num.headD 0 else s.num.getD b 0)
      (some m, { s with mask := some m })
    else (none, s)

variable [Zero α]

/-- One item of the loop of `list_to_padded`, structutils.py:81-85: `x_padded[i, :y.shape[0], :y.shape[1]] = y` on zeros (the slices
do not reach outside, otherwise the assignment fails). -/
def padItem (N C : Nat) (y : T2 α) : Except Err (T2 α) :=
  if y.rows.length = 0 then .ok ⟨List.replicate N (List.replicate C 0), C⟩
  else if y.rows.length ≤ N ∧ y.cols ≤ C then
    .ok ⟨y.rows.map (fun r => r ++ List.replicate (C - y.cols) 0) ++ List.replicate (N - y.rows.length) (List.replicate C 0), C⟩
  else .error .runtimeError

/-- Run a fallible function over a list, stop at the first error. -/
def mapE {β γ : Type*} (f : β → Except Err γ) : List β → Except Err (List γ)
  | [] => .ok []
  | x :: xs => match f x with
    | .error e => .error e
    | .ok y => match mapE f xs with
      | .error e => .error e
      | .ok ys => .ok (y :: ys)

/-- `list_to_padded` with `pad_size=(N, C)`, `pad_value=0.0`, structutils.py:47-86.  `torch.stack` needs equal shapes and at least
one tensor. -/
def listToPadded (x : List (T2 α)) (N C : Nat) (eq : Option Bool) : Except Err (List (T2 α)) :=
  if eq = some true then
    if x.length = 0 then .error .runtimeError
    else if x.all (fun t => t.shape = (x.headD ⟨[], 0⟩).shape) then .ok x else .error .runtimeError
  else if x.length = 0 then .error .indexError
  else mapE (padItem N C) x

/-- `list_to_padded` with `pad_size=None`, structutils.py:69-71 (`max()` of an empty sequence is a ValueError). -/
def listToPaddedAuto (x : List (T2 α)) (eq : Bool) : Except Err (List (T2 α)) :=
  if eq then listToPadded x 0 0 (some true)
  else
    let ne := x.filter fun y => y.rows.length > 0
    if ne.length = 0 then .error .valueError
    else listToPadded x (maxL (ne.map (·.rows.length))) (maxL (ne.map (·.cols))) (some false)

/-- `padded_to_list` with integer split sizes, structutils.py:89-124. -/
def paddedToList (x : List (T2 α)) (sizes : Option (List Nat)) : Except Err (List (T2 α)) :=
  match sizes with
  | none => .ok x
  | some ns => if x.length ≠ ns.length then .error .valueError else .ok (List.zipWith (fun t n => T2.take n t) x ns)

/-- One of the three statements `self._X_padded = None if self._X_list is None else list_to_padded(...)` of `_compute_padded`,
pointclouds.py:960-995. -/
def fillPad (X : Attr) (C : Nat) (s : PC α) : Except Err Unit × PC α :=
  match s.lst X with
  | none => (.ok (), { s with pad := Function.update s.pad X none })
  | some l => match listToPadded l s.N C s.eq with
    | .error e => (.error e, s)
    | .ok p => (.ok (), { s with pad := Function.update s.pad X (some p) })

/-- `_compute_padded`, pointclouds.py:948-995. -/
def computePadded (s : PC α) : Except Err Unit × PC α :=
  let (h, s) := hasAttr .points s
  if !h then (.ok (), s)
  else if (s.pad .points).isSome then (.ok (), s)
  else match s.lst .points with
    | none => (.error .typeError, s)
    | some _ =>
      match fillPad .points 3 s with
      | (.error e, s) => (.error e, s)
      | (.ok (), s) => match fillPad .normals 3 s with
        | (.error e, s) => (.error e, s)
        | (.ok (), s) => match fillPad .colors 3 s with
          | (.error e, s) => (.error e, s)
          | (.ok (), s) =>
            let (C, s) := if (s.lst .features).isSome then numFeatures s else (0, s)
            fillPad .features C s

/-- `points_padded` and the other padded getters, pointclouds.py:738-788. -/
def getPad (X : Attr) (s : PC α) : Except Err (Option (List (T2 α))) × PC α :=
  match computePadded s with
  | (.error e, s) => (.error e, s)
  | (.ok (), s) => (.ok (s.pad X), s)

/-! ### Setters -/

/-- The zero check of `_assert_set_padded`, pointclouds.py:1419-1427: `value[b][N_b:].eq(0).all()` for each `b`. -/
def zeroBeyond [DecidableEq α] (v : List (T2 α)) (num : List Nat) : Bool :=
  (List.zipWith (fun (t : T2 α) n => (t.rows.drop n).all fun r => r.all fun x => x = 0) v num).all id

/-- `points_padded = v` and the other padded setters, pointclouds.py:880-946, with `_assert_set_padded`, :1385-1427. -/
def setPad [DecidableEq α] (X : Attr) (v : List (T2 α)) (s : PC α) : Except Err Unit × PC α :=
  let (h, s) := hasAttr .points s
  if !h then (.error .valueError, s)
  else match getPad .points s with
    | (.error e, s) => (.error e, s)
    | (.ok p, s) =>
      let ps := shape3 (p.getD [])
      if X = .features ∧ ((shape3 v).1, (shape3 v).2.1) ≠ (ps.1, ps.2.1) then (.error .valueError, s)
      else if X ≠ .features ∧ shape3 v ≠ ps then (.error .valueError, s)
      else if !zeroBeyond v s.num then (.error .valueError, s)
      else (.ok (), { s with pad := Function.update s.pad X (some v), lst := Function.update s.lst X none })

/-- `points_list = v` and the other list setters, pointclouds.py:824-878, with `_assert_set_list`, :1429-1467.  Only the points
setter drops the padded tensor: the other three assign to the misspelt field `_noramls_padded`. -/
def setList (X : Attr) (v : List (T2 α)) (s : PC α) : Except Err Unit × PC α :=
  let (h, s) := hasAttr .points s
  if !h then (.error .valueError, s)
  else if s.B ≠ v.length then (.error .valueError, s)
  else
    let (p, s) := getList .points s
    let P := p.getD []
    if X = .features ∧ v.map (·.rows.length) ≠ P.map (·.rows.length) then (.error .valueError, s)
    else if X ≠ .features ∧ v.map T2.shape ≠ P.map T2.shape then (.error .valueError, s)
    else (.ok (), { s with lst := Function.update s.lst X (some v),
                           pad := if X = .points then Function.update s.pad .points none else s.pad })

/-! ### clone -/

/-- Copying `_INTERNAL_TENSORS` that are tensors, pointclouds.py:1040-1044 and :1167-1170 (the field list is at :54-61). -/
def copyInternal (s other : PC α) : PC α :=
  { other with
    pad := fun X => if (s.pad X).isSome then s.pad X else other.pad X
    mask := if s.mask.isSome then s.mask else other.mask
    num := s.num }

/-- `clone`, pointclouds.py:997-1044 (`detach`, :1046-1065, returns the same values). -/
def clone (s : PC α) : Except Err (PC α) × PC α :=
  let (h, s) := hasAttr .points s
  if !h then (.ok newEmpty, s)
  else match s.lst .points with
    | some P => ((newList s.lst P).map (copyInternal s), s)
    | none => match s.pad .points with
      | some P => ((newTensor s.pad P).map (copyInternal s), s)
      | none => (.error .typeError, s)

/-! ### append_points -/

/-- One block `if self.has_X: self._X_list = [cat(...)]; self._X_padded = None`, pointclouds.py:1203-1228.  Returns both objects: the
getters may fill caches of the argument too. -/
def appendAttr (X : Attr) (s o : PC α) : PC α × PC α :=
  let (l, s) := getList X s
  let (m, o) := getList X o
  ({ s with lst := Function.update s.lst X (some (List.zipWith (fun t u => ⟨t.rows ++ u.rows, t.cols⟩) (l.getD []) (m.getD []))),
            pad := Function.update s.pad X none }, o)

def appendIf (X : Attr) (s o : PC α) : PC α × PC α :=
  let (h, s) := hasAttr X s
  if h then appendAttr X s o else (s, o)

/-- Copy one attribute list into an empty object, pointclouds.py:1145-1159. -/
def copyAttr (X : Attr) (s o : PC α) : PC α × PC α :=
  let (h, o) := hasAttr X o
  if h then
    let (l, o) := getList X o
    ({ s with lst := Function.update s.lst X l }, o)
  else (s, o)

/-- `append_points`, pointclouds.py:1117-1237.  Returns the outcome, the object and the argument afterwards. -/
def append (s o : PC α) : Except Err Unit × PC α × PC α :=
  let (ho, o) := hasAttr .points o
  if !ho then (.ok (), s, o)
  else
    let (hs, s) := hasAttr .points s
    if !hs then
      let (l, o) := getList .points o
      let s := { s with lst := Function.update s.lst .points l }
      let (s, o) := copyAttr .normals s o
      let (s, o) := copyAttr .colors s o
      let (s, o) := copyAttr .features s o
      let s := copyInternal o { s with has := o.has, B := o.B, N := o.N, eq := o.eq }
      (.ok (), s, o)
    else if o.B ≠ s.B then (.error .valueError, s, o)
    else
      let (n1, s) := hasAttr .normals s
      let (n2, o) := hasAttr .normals o
      if n1 ≠ n2 then (.error .valueError, s, o)
      else
        let (c1, s) := hasAttr .colors s
        let (c2, o) := hasAttr .colors o
        if c1 ≠ c2 then (.error .valueError, s, o)
        else
          let (f1, s) := hasAttr .features s
          let (f2, o) := hasAttr .features o
          if f1 ≠ f2 then (.error .valueError, s, o)
          else
            let (k1, s) := if f1 then numFeatures s else (0, s)
            let (k2, o) := if f1 then numFeatures o else (0, o)
            if k1 ≠ k2 then (.error .valueError, s, o)
            else
              let (s, o) := appendAttr .points s o
              let (s, o) := appendIf .normals s o
              let (s, o) := appendIf .colors s o
              let (s, o) := appendIf .features s o
              let num := List.zipWith (· + ·) s.num o.num
              (.ok (), { s with num := num, eq := some (equi num), N := maxL num, mask := none }, o)

end

/-! ### Geometric operations -/
section geo
variable {α : Type*} [Field α]

/-- `mask.to(dtype)[b][n]`. -/
def maskVal (m : List (List Bool)) (b n : Nat) : α := if (m.getD b []).getD n false then 1 else 0

/-- Replace the padded points by `g` of them, drop the list (the common end of the in-place methods). -/
def setPts (g : Nat → Nat → List α → List α) (s : PC α) : PC α :=
  { s with pad := Function.update s.pad .points ((s.pad .points).map (mapRows g)), lst := Function.update s.lst .points none }

/-- `offset_`, pointclouds.py:399-430.  `f b n c` is the offset broadcast to the shape `(B, N, 3)` (scalar, `(3)`, `(B,1,3)`, … alike). -/
def offset_ (f : Nat → Nat → Nat → α) (s : PC α) : Except Err Unit × PC α :=
  let (h, s) := hasAttr .points s
  if !h then (.ok (), s)
  else match getPad .points s with
    | (.error e, s) => (.error e, s)
    | (.ok _, s) =>
      let (m, s) := getMask s
      (.ok (), setPts (fun b n r => r.mapIdx fun c x => x + f b n c * maskVal (m.getD []) b n) s)

/-- `scale_`, pointclouds.py:432-464. -/
def scale_ (f : Nat → Nat → Nat → α) (s : PC α) : Except Err Unit × PC α :=
  let (h, s) := hasAttr .points s
  if !h then (.ok (), s)
  else match getPad .points s with
    | (.error e, s) => (.error e, s)
    | (.ok _, s) =>
      let (m, s) := getMask s
      (.ok (), setPts (fun b n r => r.mapIdx fun c x => x * f b n c * maskVal (m.getD []) b n) s)

/-- Row vector times 3×3 matrix. -/
def rowMul (M : M3 α) : List α → List α
  | [x, y, z] => [x * M.r0.x + y * M.r1.x + z * M.r2.x, x * M.r0.y + y * M.r1.y + z * M.r2.y, x * M.r0.z + y * M.r1.z + z * M.r2.z]
  | r => r

/-- An operand that is either one matrix or a batch of them. -/
inductive Operand (M : Type*)
  | single (m : M)
  | batch (ms : List M)

def Operand.at {M : Type*} (d : M) : Operand M → Nat → M
  | .single m, _ => m
  | .batch ms, b => ms.getD b d

def Operand.map {M M' : Type*} (f : M → M') : Operand M → Operand M'
  | .single m => .single (f m)
  | .batch ms => .batch (ms.map f)

/-- `operand.ndim == 3 and operand.shape[0] != self._B`. -/
def Operand.badSize {M : Type*} : Operand M → Nat → Bool
  | .single _, _ => false
  | .batch ms, B => ms.length ≠ B

/-- `rotate_`, pointclouds.py:466-524. -/
def rotate_ (R : Operand (M3 α)) (pre : Bool) (s : PC α) : Except Err Unit × PC α :=
  if R.badSize s.B then (.error .valueError, s)
  else
    let (h, s) := hasAttr .points s
    if !h then (.ok (), s)
    else match getPad .points s with
      | (.error e, s) => (.error e, s)
      | (.ok _, s) =>
        let g := fun b (_ : Nat) r => rowMul (if pre then (R.at M3.one b).transpose else R.at M3.one b) r
        (.ok (), { s with
          pad := Function.update (Function.update s.pad .points ((s.pad .points).map (mapRows g)))
            .normals ((s.pad .normals).map (mapRows g))
          lst := Function.update (Function.update s.lst .points none) .normals none })

/-- The entries `tvec[b, 0, c]`. -/
def comp (t : V3 α) : Nat → α
  | 0 => t.x
  | 1 => t.y
  | _ => t.z

/-- `transform_`, pointclouds.py:526-573. -/
def transform_ (T : Operand (M4 α)) (pre : Bool) (s : PC α) : Except Err Unit × PC α :=
  if T.badSize s.B then (.error .valueError, s)
  else
    let (h, s) := hasAttr .points s
    if !h then (.ok (), s)
    else match getPad .points s with
      | (.error e, s) => (.error e, s)
      | (.ok _, s) =>
        match rotate_ (T.map M4.R) pre s with
        | (.error e, s) => (.error e, s)
        | (.ok (), s) => offset_ (fun b _ c => comp (T.at M4.one b).t c) s

/-- The row of `homogenize_points(project_points(points, intrinsics))`: `[u, v, 1]`. -/
def projRow [LinearOrder α] (K : M4 α) : List α → List α
  | [x, y, z] => let uv := Geom.projectPoint K (.inl ⟨x, y, z⟩); [uv.1, uv.2, 1]
  | r => r

/-- `pinhole_projection_`, pointclouds.py:575-614; `project_points` needs a batch of intrinsics to have the batch size. -/
def pinholeProjection_ [LinearOrder α] (K : Operand (M4 α)) (s : PC α) : Except Err Unit × PC α :=
  let (h, s) := hasAttr .points s
  if !h then (.ok (), s)
  else match getPad .points s with
    | (.error e, s) => (.error e, s)
    | (.ok _, s) =>
      if K.badSize s.B then (.error .valueError, s)
      else
        let (m, s) := getMask s
        (.ok (), setPts (fun b n r => (projRow (K.at M4.one b) r).map fun x => x * maskVal (m.getD []) b n) s)

/-- Out-of-place versions: `self.clone().op_(...)`, pointclouds.py:300-397 (`+`, `-`, `*`, `/`, `@`, `rotate`, `transform`,
`pinhole_projection`).  Returns the new object and `self` afterwards. -/
def outOfPlace (op : PC α → Except Err Unit × PC α) (s : PC α) : Except Err (PC α) × PC α :=
  match clone s with
  | (.error e, s) => (.error e, s)
  | (.ok c, s) => match op c with
    | (.error e, _) => (.error e, s)
    | (.ok (), c) => (.ok c, s)

/-- `pcs + f`, pointclouds.py:300-307. -/
def add (f : Nat → Nat → Nat → α) := outOfPlace (offset_ f)
/-- `pcs - f`, pointclouds.py:309-323. -/
def sub (f : Nat → Nat → Nat → α) := outOfPlace (offset_ fun b n c => f b n c * -1)
/-- `pcs * f`, pointclouds.py:325-332. -/
def mul (f : Nat → Nat → Nat → α) := outOfPlace (scale_ f)
/-- `pcs / f`, pointclouds.py:334-351. -/
def div (f : Nat → Nat → Nat → α) := outOfPlace (scale_ fun b n c => 1 / f b n c)
end geo

/-! ### Indexing -/
section index
variable {α : Type*}

/-- The argument of `pcs[...]`: an int, a slice, a list (or integer tensor) of ints, or a boolean mask. -/
inductive Index
  | int (i : Int)
  | slice (start stop step : Option Int)
  | list (l : List Int)
  | mask (m : List Bool)

/-- Python list indexing by one int. -/
def pyIndex (n : Nat) (i : Int) : Except Err Nat :=
  if 0 ≤ i then (if i < n then .ok i.toNat else .error .indexError)
  else if 0 ≤ i + n then .ok (i + n).toNat else .error .indexError

/-- Python's `slice.indices(n)`: start, stop after clamping. -/
def sliceLo (n : Nat) (step : Int) : Option Int → Int
  | none => if 0 < step then 0 else n - 1
  | some x => if 0 < step then (if x < 0 then max (x + n) 0 else min x n) else (if x < 0 then max (x + n) (-1) else min x (n - 1))

def sliceHi (n : Nat) (step : Int) : Option Int → Int
  | none => if 0 < step then n else -1
  | some x => if 0 < step then (if x < 0 then max (x + n) 0 else min x n) else (if x < 0 then max (x + n) (-1) else min x (n - 1))

/-- The number of elements of `range(lo, hi, step)`. -/
def rangeLen (lo hi step : Int) : Nat :=
  if 0 < step then (if lo < hi then ((hi - lo - 1) / step + 1).toNat else 0)
  else (if hi < lo then ((lo - hi - 1) / (-step) + 1).toNat else 0)

/-- The positions selected from a list of length `n`. -/
def resolve (n : Nat) : Index → Except Err (List Nat)
  | .int i => match pyIndex n i with | .ok k => .ok [k] | .error e => .error e
  | .slice a b c =>
    let step := c.getD 1
    if step = 0 then .error .valueError
    else
      let lo := sliceLo n step a
      .ok ((List.range (rangeLen lo (sliceHi n step b) step)).map fun (k : Nat) => (lo + (k : Int) * step).toNat)
  | .list l => mapE (pyIndex n) l
  | .mask m => mapE (pyIndex n) (((List.range m.length).filter fun k => m.getD k false).map Int.ofNat)

/-- `[l[i] for i in index]`. -/
def select (idx : Index) (l : List (T2 α)) : Except Err (List (T2 α)) :=
  match resolve l.length idx with
  | .error e => .error e
  | .ok is => .ok (is.map fun i => l.getD i ⟨[], 0⟩)

/-- `normals = self.normals_list[index] if self.has_normals else None` and the like. -/
def selectAttr (idx : Index) (X : Attr) (s : PC α) : Except Err (Option (List (T2 α))) × PC α :=
  let (h, s) := hasAttr X s
  if !h then (.ok none, s)
  else
    let (l, s) := getList X s
    match select idx (l.getD []) with
    | .error e => (.error e, s)
    | .ok m => (.ok (some m), s)

/-- `__getitem__`, pointclouds.py:242-298. -/
def getitem (idx : Index) (s : PC α) : Except Err (PC α) × PC α :=
  let (h, s) := hasAttr .points s
  if !h then (.error .indexError, s)
  else
    match selectAttr idx .points s with
    | (.error e, s) => (.error e, s)
    | (.ok p, s) => match selectAttr idx .normals s with
      | (.error e, s) => (.error e, s)
      | (.ok n, s) => match selectAttr idx .colors s with
        | (.error e, s) => (.error e, s)
        | (.ok c, s) => match selectAttr idx .features s with
          | (.error e, s) => (.error e, s)
          | (.ok f, s) =>
            (newList (fun X => match X with | .points => p | .normals => n | .colors => c | .features => f) (p.getD []), s)

end index
end Verif.Pcs
