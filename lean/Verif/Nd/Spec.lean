import Verif.Nd.Model
/-!
Specification vocabulary of C108, independent of the model's tensor operations.  Shapes and indices are listed innermost
dimension first.
-/
namespace Verif.Nd.Spec

variable {α : Type*} [Field α] [LinearOrder α]

/-- `i` is an index of a tensor with these sizes. -/
def Inside (i dims : List ℕ) : Prop := List.Forall₂ (· < ·) i dims

/-- Two lists of sizes of the same length fit together: at every place they agree or one of them is 1. -/
def Fit (s t : List ℕ) : Prop := List.Forall₂ (fun a b => a = b ∨ a = 1 ∨ b = 1) s t

/-- The sizes two fitting lists of sizes have together. -/
def join (s t : List ℕ) : List ℕ := List.zipWith (fun a b => if a = 1 then b else a) s t

/-- Which element of a tensor with sizes `s` belongs to index `i` of the joint shape: dimensions of size 1 are repeated. -/
def src (s i : List ℕ) : List ℕ := List.zipWith (fun d j => if d = 1 then 0 else j) s i

/-- The homogeneous coordinates of a point given by `c` coordinates: a 1 is appended. -/
def homog (c : ℕ) (p : ℕ → α) (l : ℕ) : α := if l < c then p l else 1

/-- Coordinate `r` of a 4×4 matrix times a 4-vector. -/
def mul4 (M : ℕ → ℕ → α) (h : ℕ → α) (r : ℕ) : α := M r 0 * h 0 + M r 1 * h 1 + M r 2 * h 2 + M r 3 * h 3

/-- Coordinate `r` of a 3×3 matrix times a 3-vector. -/
def mul3 (M : ℕ → ℕ → α) (h : ℕ → α) (r : ℕ) : α := M r 0 * h 0 + M r 1 * h 1 + M r 2 * h 2

/-- Pixel coordinate `k` (0: u, 1: v) of a point `q` in homogeneous image coordinates: divided by the third coordinate
unless that is zero. -/
def pixel (q : ℕ → α) (k : ℕ) : α := q k / (if q 2 ≠ 0 then q 2 else 1)

/-- Euclidean coordinates of a homogeneous point whose last coordinate is `w`: divided by `w` unless `|w| ≤ eps`. -/
def euclid (eps w x : α) : α := (if eps < |w| then 1 / w else 1) * x

end Verif.Nd.Spec
