import Verif.Fusion.Model
import Mathlib.Algebra.Order.Floor.Ring
import Mathlib.Algebra.Order.Group.Unbundled.Int
/-!
Specification vocabulary for the fusion functions: plain clouds (lists of rows), rigid motion, visibility, nearest integer, matches.
-/
namespace Verif.Fusion
open Verif Pcs

/-- Row `n` of cloud `b` of an attribute. -/
def rowAt {α : Type*} (l : List (T2 α)) (b n : Nat) : Option (List α) := l[b]?.bind fun t => t.rows[n]?

section
variable {α : Type*} [Field α]

/-- Row `n` of cloud `b` as a vector. -/
def vecAt (l : List (T2 α)) (b n : Nat) : Option (V3 α) := (rowAt l b n).map toV3

/-- A world point seen from a camera with pose `T = (R, t)`: `Rᵀ (p - t)`. -/
def toCamera (T : M4 α) (p : V3 α) : V3 α := T.R.transpose.mulVec (p.sub T.t)

variable [LinearOrder α]

/-- `k` is the integer nearest to `x` (the even one if there are two). -/
def Nearest (x : α) (k : Nat) : Prop := |x - k| ≤ 1 / 2 ∧ (|x - k| = 1 / 2 → Even k)

/-- A camera-space point is in front of the camera and projects into the `H × W` image (with a tolerance of a thousandth of a pixel
around the outermost pixel centres). -/
def Visible (H W : Nat) (K : M4 α) (X : V3 α) : Prop :=
  0 < X.z ∧
  (-1 / 1000 < (Geom.projectPoint K (.inl X)).1 ∧ (Geom.projectPoint K (.inl X)).1 < (W : α) - 1 + 1 / 1000) ∧
  (-1 / 1000 < (Geom.projectPoint K (.inl X)).2 ∧ (Geom.projectPoint K (.inl X)).2 < (H : α) - 1 + 1 / 1000)
end

/-- Lexicographic order of `(b, n)`. -/
def Row.before (r s : Row) : Prop := r.b < s.b ∨ r.b = s.b ∧ r.n < s.n
end Verif.Fusion
