import Verif.PC.Props2
import Verif.Rgbd.Spec
import Mathlib.Algebra.Order.Floor.Defs
import Mathlib.Data.List.Sort
import Mathlib.Data.List.Dedup
/-!
Model of `gradslam/slam/fusionutils.py` and `gradslam/structures/utils.py`.

The map is a `Pointclouds` object (`Verif.Pcs.PC`) and every call threads its state: getters fill caches, a failing call may have done
part of its work.  The live frames are read-only; what the functions read of them is the record `Frame`, filled from an `RGBDImages`
object by `Frame.ofIn` (the values its getters return, see C43).

Simplifications: exact field arithmetic; `exp` enters through the parameter `al` (the confidence weight of a camera-space point, see
`Fusion/Alpha.lean` for the real-number function) and `torch.norm` through `nrm`; warnings, dtypes, devices and the TypeError branches
for arguments of the wrong Python type are left out; table entries are non-negative (as every table produced by these functions);
frames are channels-last (the functions index pixels as `[b, 0, h, w]`).
-/
namespace Verif.Fusion
open Verif Pcs

inductive Err
  | pcs (e : Pcs.Err)
  | attributeError
  deriving DecidableEq, Repr

/-- `raise ValueError`. -/
abbrev valueError : Err := .pcs .valueError

/-- A row `[b, n, h, w]` of a correspondence table `pc2im_bnhw`. -/
@[ext] structure Row where
  b : Nat
  n : Nat
  h : Nat
  w : Nat
  deriving DecidableEq, Repr

/-- What the functions read of an `RGBDImages` object: `shape`, `global_vertex_map`, `global_normal_map`, `vertex_map`, `normal_map`,
`rgb_image`, `valid_depth_mask`, `poses`, `intrinsics` (indices: batch, time, row, column). -/
structure Frame (α : Type*) where
  B : Nat
  L : Nat
  H : Nat
  W : Nat
  gv : Nat → Nat → Nat → Nat → V3 α
  gn : Nat → Nat → Nat → Nat → V3 α
  v : Nat → Nat → Nat → Nat → V3 α
  ln : Nat → Nat → Nat → Nat → V3 α
  rgb : Nat → Nat → Nat → Nat → V3 α
  valid : Nat → Nat → Nat → Nat → Bool
  poses : Option (Nat → Nat → M4 α)
  K : Nat → M4 α

section
variable {α : Type*} [Field α] [LinearOrder α]

/-- The values of the getters of an `RGBDImages` object with inputs `i`. -/
def Frame.ofIn (nrm : V3 α → α) (eps : α) (i : Rgbd.In α) : Frame α :=
  ⟨i.B, i.L, i.H, i.W, Rgbd.gvertexAt eps i, Rgbd.gnormalAt nrm eps i, Rgbd.vertexAt eps i, Rgbd.normalAt nrm eps i, i.rgb,
    fun b l h w => decide (0 < i.depth b l h w), i.poses, i.K⟩

/-- `t[b, n]` of a `(B, N, C)` tensor. -/
def cell (p : List (T2 α)) (b n : Nat) : List α := (p.getD b ⟨[], 0⟩).rows.getD n []

/-- A length-3 row as a vector. -/
def toV3 : List α → V3 α
  | [x, y, z] => ⟨x, y, z⟩
  | _ => V3.zero

/-! ### find_active_map_points -/

/-- `tensor.round()`: nearest integer, ties to even. -/
def roundEven [FloorRing α] (x : α) : Int :=
  if x - ⌊x⌋ < 1 / 2 then ⌊x⌋ else if 1 / 2 < x - ⌊x⌋ then ⌊x⌋ + 1 else if ⌊x⌋ % 2 = 0 then ⌊x⌋ else ⌊x⌋ + 1

/-- `t.clamp(0, n - 1)` of an integer. -/
def clampIdx (n : Nat) (k : Int) : Nat := (min (max k 0) (n - 1)).toNat

/-- `is_in_frame` at one point, fusionutils.py:251-266: `z` is the camera-space depth, `q` the projected row `[u, v, 1]`, `m` the
`nonpad_mask` entry. -/
def isInFrame (H W : Nat) (z : α) (q : List α) (m : Bool) : Bool :=
  decide (q.getD 0 0 > -1 / 1000) && decide (q.getD 0 0 < (W : α) - 999 / 1000) && decide (q.getD 1 0 > -1 / 1000) &&
    decide (q.getD 1 0 < (H : α) - 999 / 1000) && decide (z > 0) && m

/-- Rows of the table for one cloud and for the batch, fusionutils.py:267-282 (boolean-mask indexing is row-major; the float32
`meshgrid` indices are exact for maps of up to 2^24 points). -/
def activeRows [FloorRing α] (H W : Nat) (p q : List (T2 α)) (m : List (List Bool)) : List Row :=
  (List.range q.length).flatMap fun b =>
    ((List.range (q.getD b ⟨[], 0⟩).rows.length).filter fun n =>
      isInFrame H W ((cell p b n).getD 2 0) (cell q b n) ((m.getD b []).getD n false)).map fun n =>
        ⟨b, n, clampIdx H (roundEven ((cell q b n).getD 1 0)), clampIdx W (roundEven ((cell q b n).getD 0 0))⟩

/-- `find_active_map_points`, fusionutils.py:198-287.  `inverse_transformation` (:249) is kornia's: `Rᵀ`, `-Rᵀt`.  `poses` is `None`
when the frame has no poses: `None.squeeze` is an AttributeError. -/
def findActive [FloorRing α] (pc : PC α) (fr : Frame α) : Except Err (List Row) × PC α :=
  if fr.L ≠ 1 then (.error valueError, pc)
  else
    let (h, pc) := hasAttr .points pc
    if !h then (.ok [], pc)
    else if fr.B ≠ pc.B then (.error valueError, pc)
    else match fr.poses with
      | none => (.error .attributeError, pc)
      | some T =>
        match outOfPlace (transform_ (.batch ((List.range fr.B).map fun b => Geom.inverseTransform1 (T b 0))) true) pc with
        | (.error e, pc) => (.error (.pcs e), pc)
        | (.ok c, pc) => match getPad .points c with
          | (.error e, _) => (.error (.pcs e), pc)
          | (.ok p, c) => match pinholeProjection_ (.batch ((List.range fr.B).map fr.K)) c with
            | (.error e, _) => (.error (.pcs e), pc)
            | (.ok (), c) => match getPad .points c with
              | (.error e, _) => (.error (.pcs e), pc)
              | (.ok q, _) =>
                let (m, pc) := getMask pc
                (.ok (activeRows fr.H fr.W (p.getD []) (q.getD []) (m.getD [])), pc)

/-! ### find_similar_map_points -/

/-- `are_points_close` at one pair, fusionutils.py:76-130. -/
def arePointsClose (nrm : V3 α → α) (p q : V3 α) (distTh : α) : Bool := decide (nrm (p.sub q) < distTh)

/-- `are_normals_similar` at one pair, fusionutils.py:133-195. -/
def areNormalsSimilar (m n : V3 α) (dotTh : α) : Bool := decide (m.dot n > dotTh)

/-- The row that wrote to `(b, n)` last in `x[rows[:, 0], rows[:, 1]] = ...` (CPU order for duplicates). -/
def lastAt (rows : List Row) (b n : Nat) : Option Row := rows.reverse.find? fun r => r.b = b ∧ r.n = n

/-- `x = zeros; x[rows[:, 0], rows[:, 1]] = image[rows[:, 0], 0, rows[:, 2], rows[:, 3]]`, entry `(b, n)`. -/
def scatter (rows : List Row) (f : Nat → Nat → Nat → Nat → V3 α) (b n : Nat) : V3 α :=
  match lastAt rows b n with
  | some r => f r.b 0 r.h r.w
  | none => V3.zero

/-- All indices of the table are inside the map's padded tensors and the frame's images (else IndexError). -/
def rowsInRange (rows : List Row) (B N : Nat) (fr : Frame α) : Bool :=
  rows.all fun r => decide (r.b < B) && decide (r.n < N) && decide (r.b < fr.B) && decide (r.h < fr.H) && decide (r.w < fr.W)

/-- `mask[b, n]`, fusionutils.py:384-399. -/
def similarAt (nrm : V3 α → α) (fr : Frame α) (rows : List Row) (p nn : List (T2 α)) (distTh dotTh : α) (b n : Nat) : Bool :=
  arePointsClose nrm (scatter rows fr.gv b n) (toV3 (cell p b n)) distTh &&
    areNormalsSimilar (scatter rows fr.gn b n) (toV3 (cell nn b n)) dotTh

/-- `find_similar_map_points`, fusionutils.py:290-411: the filtered table and the filter. -/
def findSimilar (nrm : V3 α → α) (pc : PC α) (fr : Frame α) (rows : List Row) (distTh dotTh : α) :
    Except Err (List Row × List Bool) × PC α :=
  if fr.L ≠ 1 then (.error valueError, pc)
  else
    let (h, pc) := hasAttr .points pc
    if !h || rows.length = 0 then (.ok ([], []), pc)
    else if fr.B ≠ pc.B then (.error valueError, pc)
    else
      let (hn, pc) := hasAttr .normals pc
      if !hn then (.error valueError, pc)
      else match getPad .points pc with
        | (.error e, pc) => (.error (.pcs e), pc)
        | (.ok p, pc) => match getPad .normals pc with
          | (.error e, pc) => (.error (.pcs e), pc)
          | (.ok nn, pc) =>
            if !rowsInRange rows (shape3 (p.getD [])).1 (shape3 (p.getD [])).2.1 fr then (.error (.pcs .indexError), pc)
            else
              let keep := fun r : Row => similarAt nrm fr rows (p.getD []) (nn.getD []) distTh dotTh r.b r.n
              (.ok (rows.filter keep, rows.map keep), pc)

/-! ### find_best_unique_correspondences -/

/-- Number of bits of `n` beyond the 24 that a float32 significand holds. -/
def excess (n : Nat) : Nat := n.log2 - 23

/-- `int64 → float32 → int64`: round to 24 significant bits, ties to even. -/
def f32 (n : Nat) : Nat :=
  if n < 2 ^ 24 then n
  else
    let u := 2 ^ excess n
    let q := n / u
    let r := n % u
    if 2 * r < u then q * u else if u < 2 * r then (q + 1) * u else if q % 2 = 0 then q * u else (q + 1) * u

/-- A row `[b, h, w, 1/ccount, dist², n]` of `unique_criteria_bhwcrn`. -/
structure Key (α : Type*) where
  b : Nat
  h : Nat
  w : Nat
  invc : α
  dist : α
  n : Nat
  deriving DecidableEq

/-- Lexicographic comparison of the rows. -/
def keyLE (x y : Key α) : Prop :=
  x.b < y.b ∨ x.b = y.b ∧ (x.h < y.h ∨ x.h = y.h ∧ (x.w < y.w ∨ x.w = y.w ∧ (x.invc < y.invc ∨ x.invc = y.invc ∧
    (x.dist < y.dist ∨ x.dist = y.dist ∧ x.n ≤ y.n))))

instance : DecidableRel (keyLE (α := α)) := fun _ _ => by unfold keyLE; infer_instance

/-- fusionutils.py:489-517: confidence is the (only) feature column. -/
def keyOf (fr : Frame α) (p f : List (T2 α)) (r : Row) : Key α :=
  ⟨f32 r.b, f32 r.h, f32 r.w, 1 / ((cell f r.b r.n).getD 0 0 + 1 / 10 ^ 20),
    ((toV3 (cell p r.b r.n)).sub (fr.gv r.b 0 r.h r.w)).normSq, f32 r.n⟩

/-- The rows that differ from their predecessor in one of the first three columns, fusionutils.py:527-536. -/
def keepFirst : Option (Key α) → List (Key α) → List (Key α)
  | _, [] => []
  | none, k :: ks => k :: keepFirst (some k) ks
  | some j, k :: ks => if k.b = j.b ∧ k.h = j.h ∧ k.w = j.w then keepFirst (some k) ks else k :: keepFirst (some k) ks

/-- `torch.unique(rows, dim=0)` (sorted, without duplicates) and the selection of the first row of each pixel,
fusionutils.py:519-546. -/
def bestRows (ks : List (Key α)) : List Row :=
  (keepFirst none (ks.insertionSort keyLE).dedup).map fun k => ⟨k.b, k.n, k.h, k.w⟩

/-- `find_best_unique_correspondences`, fusionutils.py:414-546. -/
def findBest (pc : PC α) (fr : Frame α) (rows : List Row) : Except Err (List Row) × PC α :=
  if fr.L ≠ 1 then (.error valueError, pc)
  else
    let (h, pc) := hasAttr .points pc
    if !h || rows.length = 0 then (.ok [], pc)
    else if fr.B ≠ pc.B then (.error valueError, pc)
    else
      let (hf, pc) := hasAttr .features pc
      if !hf then (.error valueError, pc)
      else match getPad .features pc with
        | (.error e, pc) => (.error (.pcs e), pc)
        | (.ok f, pc) => match getPad .points pc with
          | (.error e, pc) => (.error (.pcs e), pc)
          | (.ok p, pc) =>
            if !rowsInRange rows (shape3 (p.getD [])).1 (shape3 (p.getD [])).2.1 fr then (.error (.pcs .indexError), pc)
            else (.ok (bestRows (rows.map (keyOf fr (p.getD []) (f.getD [])))), pc)

/-- `find_correspondences`, fusionutils.py:549-577. -/
def findCorrespondences [FloorRing α] (nrm : V3 α → α) (pc : PC α) (fr : Frame α) (distTh dotTh : α) : Except Err (List Row) × PC α :=
  match findActive pc fr with
  | (.error e, pc) => (.error e, pc)
  | (.ok rows, pc) => match findSimilar nrm pc fr rows distTh dotTh with
    | (.error e, pc) => (.error e, pc)
    | (.ok (rows, _), pc) => findBest pc fr rows

/-! ### fuse_with_map -/

/-- `frame_alphas[b, n]`. -/
def scatterAl (al : V3 α → α) (fr : Frame α) (rows : List Row) (b n : Nat) : α :=
  match lastAt rows b n with
  | some r => al (fr.v r.b 0 r.h r.w)
  | none => 0

/-- `torch.where(c == 0, 1, c)`. -/
def guard0 (c : α) : α := if c = 0 then 1 else c

/-- `ccounts * x` for one entry `k` of the three: a single feature column is broadcast, three columns are taken element-wise. -/
def coef (c : List α) (k : Nat) : α := if c.length = 1 then c.getD 0 0 else c.getD k 0

/-- One row of `(map_ccounts * X + frame_alphas * frame_X) * inv_updated_ccounts`, fusionutils.py:678-698. -/
def mergeRow (c : List α) (a : α) (q : V3 α) (r : List α) : List α :=
  r.mapIdx fun k x => (coef c k * x + a * comp q k) * (1 / guard0 (coef c k + a))

/-- Assign several padded attributes in turn, stopping at the first error. -/
def setPads : List (Attr × List (T2 α)) → PC α → Except Err Unit × PC α
  | [], pc => (.ok (), pc)
  | (X, v) :: rest, pc => match setPad X v pc with
    | (.error e, pc) => (.error (.pcs e), pc)
    | (.ok (), pc) => setPads rest pc

/-- The block `if pointclouds.has_points and pc2im_bnhw.shape[0] != 0: ...`, fusionutils.py:659-699.  The padded setters act on the
object given to `fuse_with_map`.  `map_ccounts * points` broadcasts only for 1 or 3 feature columns. -/
def mergeStep (al : V3 α → α) (pc : PC α) (fr : Frame α) (rows : List Row) : Except Err Unit × PC α :=
  match getPad .points pc with
  | (.error e, pc) => (.error (.pcs e), pc)
  | (.ok p, pc) => match getPad .normals pc with
    | (.error e, pc) => (.error (.pcs e), pc)
    | (.ok nn, pc) => match getPad .colors pc with
      | (.error e, pc) => (.error (.pcs e), pc)
      | (.ok cc, pc) => match getPad .features pc with
        | (.error e, pc) => (.error (.pcs e), pc)
        | (.ok f, pc) =>
          let f := f.getD []
          if !rowsInRange rows (shape3 (p.getD [])).1 (shape3 (p.getD [])).2.1 fr then (.error (.pcs .indexError), pc)
          else if (shape3 f).2.2 ≠ 1 ∧ (shape3 f).2.2 ≠ 3 then (.error (.pcs .runtimeError), pc)
          else
            let a := scatterAl al fr rows
            setPads
              [(.points, mapRows (fun b n r => mergeRow (cell f b n) (a b n) (scatter rows fr.gv b n) r) (p.getD [])),
               (.normals, mapRows (fun b n r => mergeRow (cell f b n) (a b n) (scatter rows fr.gn b n) r) (nn.getD [])),
               (.colors, mapRows (fun b n r => mergeRow (cell f b n) (a b n) (scatter rows fr.rgb b n) r) (cc.getD [])),
               (.features, mapRows (fun b n r => r.map fun c => c + a b n) f)] pc

/-- The pixels of batch element `b` selected by a mask, row-major over time, row and column. -/
def pixels (L H W : Nat) (m : Nat → Nat → Nat → Bool) : List (Nat × Nat × Nat) :=
  ((List.range L).flatMap fun l => (List.range H).flatMap fun h => (List.range W).map fun w => (l, h, w)).filter fun x => m x.1 x.2.1 x.2.2

/-- `new_mask`, fusionutils.py:702-707: not matched and with valid depth. -/
def newMask (fr : Frame α) (rows : List Row) (b l h w : Nat) : Bool :=
  !(l == 0 && rows.any fun r => r.b = b ∧ r.h = h ∧ r.w = w) && fr.valid b l h w

/-- `[image[b][mask[b]] for b in range(B)]` for a three-channel image. -/
def picked (fr : Frame α) (m : Nat → Nat → Nat → Nat → Bool) (f : Nat → Nat → Nat → Nat → V3 α) : List (T2 α) :=
  (List.range fr.B).map fun b => ⟨(pixels fr.L fr.H fr.W (m b)).map fun x => (f b x.1 x.2.1 x.2.2).toList, 3⟩

/-- `[alpha_image[b][mask[b]] for b in range(B)]`. -/
def pickedAl (al : V3 α → α) (fr : Frame α) (m : Nat → Nat → Nat → Nat → Bool) : List (T2 α) :=
  (List.range fr.B).map fun b => ⟨(pixels fr.L fr.H fr.W (m b)).map fun x => [al (fr.v b x.1 x.2.1 x.2.2)], 1⟩

/-- The arguments of the constructor call, fusionutils.py:710-717. -/
def newArg (al : V3 α → α) (fr : Frame α) (m : Nat → Nat → Nat → Nat → Bool) : Attr → Option (List (T2 α))
  | .points => some (picked fr m fr.gv)
  | .normals => some (picked fr m fr.gn)
  | .colors => some (picked fr m fr.rgb)
  | .features => some (pickedAl al fr m)

/-- `if not inplace: pointclouds = pointclouds.clone()`, `pointclouds.append_points(new)`, `return pointclouds`,
fusionutils.py:718-722 and :755-758.  Returns the result and the object given by the caller afterwards. -/
def cloneAppend (inplace : Bool) (pc o : PC α) : Except Err (PC α) × PC α :=
  if inplace then match append pc o with
    | (.error e, pc, _) => (.error (.pcs e), pc)
    | (.ok (), pc, _) => (.ok pc, pc)
  else match clone pc with
    | (.error e, pc) => (.error (.pcs e), pc)
    | (.ok c, pc) => match append c o with
      | (.error e, _, _) => (.error (.pcs e), pc)
      | (.ok (), c, _) => (.ok c, pc)

/-- The three attribute checks at the top of `fuse_with_map`, fusionutils.py:639-651. -/
def requireAll : List Attr → PC α → Bool × PC α
  | [], pc => (true, pc)
  | X :: rest, pc =>
    let (h, pc) := hasAttr X pc
    if h then requireAll rest pc else (false, pc)

/-- `fuse_with_map`, fusionutils.py:580-722.  Returns the result and the object given by the caller afterwards. -/
def fuseWithMap (al : V3 α → α) (pc : PC α) (fr : Frame α) (rows : List Row) (inplace : Bool) : Except Err (PC α) × PC α :=
  let (h, pc) := hasAttr .points pc
  let (ok, pc) := if h then requireAll [.normals, .colors, .features] pc else (true, pc)
  if !ok then (.error valueError, pc)
  else
    let use := h && decide (rows.length ≠ 0)
    match (if use then mergeStep al pc fr rows else (.ok (), pc)) with
    | (.error e, pc) => (.error e, pc)
    | (.ok (), pc) =>
      let m := newMask fr (if use then rows else [])
      match newList (newArg al fr m) (picked fr m fr.gv) with
      | .error e => (.error (.pcs e), pc)
      | .ok o => cloneAppend inplace pc o

/-! ### update_map_aggregate, update_map_fusion -/

/-- The arguments of the constructor call of `pointclouds_from_rgbdimages`: no features. -/
def frameArg (fr : Frame α) (glob : Bool) (m : Nat → Nat → Nat → Nat → Bool) : Attr → Option (List (T2 α))
  | .points => some (picked fr m (if glob then fr.gv else fr.v))
  | .normals => some (picked fr m (if glob then fr.gn else fr.ln))
  | .colors => some (picked fr m fr.rgb)
  | .features => none

/-- `pointclouds_from_rgbdimages`, structures/utils.py:7-57. -/
def pointcloudsFromRgbd (fr : Frame α) (glob filt : Bool) : Except Err (PC α) :=
  if fr.L ≠ 1 then .error valueError
  else
    match (if filt then newList (frameArg fr glob fr.valid) (picked fr fr.valid (if glob then fr.gv else fr.v))
      else newTensor (frameArg fr glob fun _ _ _ _ => true) (picked fr (fun _ _ _ _ => true) (if glob then fr.gv else fr.v))) with
    | .error e => .error (.pcs e)
    | .ok o => .ok o

/-- `update_map_aggregate`, fusionutils.py:725-758. -/
def updateMapAggregate (pc : PC α) (fr : Frame α) (inplace : Bool) : Except Err (PC α) × PC α :=
  match pointcloudsFromRgbd fr true true with
  | .error e => (.error e, pc)
  | .ok o => cloneAppend inplace pc o

/-- `update_map_fusion`, fusionutils.py:761-789. -/
def updateMapFusion [FloorRing α] (nrm al : V3 α → α) (pc : PC α) (fr : Frame α) (distTh dotTh : α) (inplace : Bool) :
    Except Err (PC α) × PC α :=
  match findCorrespondences nrm pc fr distTh dotTh with
  | (.error e, pc) => (.error e, pc)
  | (.ok rows, pc) => fuseWithMap al pc fr rows inplace
end
end Verif.Fusion
