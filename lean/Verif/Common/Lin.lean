import Mathlib.Algebra.Field.Basic
import Mathlib.Algebra.Field.Rat
import Mathlib.Tactic.Ring
import Mathlib.Tactic.LinearCombination
import Mathlib.Tactic.FieldSimp
import Mathlib.Tactic.NormNum
/-!
Small vectors and matrices used by every area model.  torch tensors of trailing shape `(3,)`, `(3,3)` and `(4,4)` are
records over a field `α` (exact arithmetic; rounding is not modelled).  Nothing here models a gradslam function: these
are the textbook operations torch provides (`matmul`, `transpose`, element-wise arithmetic).
-/
namespace Verif

/-- A 3-vector (last dimension of a `(…,3)` tensor). -/
@[ext] structure V3 (α : Type*) where
  x : α
  y : α
  z : α
  deriving DecidableEq, Repr

/-- A 3×3 matrix, by rows. -/
@[ext] structure M3 (α : Type*) where
  r0 : V3 α
  r1 : V3 α
  r2 : V3 α
  deriving DecidableEq, Repr

/-- A 4×4 matrix in block form `[[R, t], [bᵀ, s]]`. -/
@[ext] structure M4 (α : Type*) where
  R : M3 α
  t : V3 α
  b : V3 α
  s : α
  deriving DecidableEq, Repr

/-- A homogeneous 4-vector `(v, w)`. -/
@[ext] structure V4 (α : Type*) where
  v : V3 α
  w : α
  deriving DecidableEq, Repr

variable {α : Type*} [Field α]

namespace V3
def zero : V3 α := ⟨0, 0, 0⟩
def add (a b : V3 α) : V3 α := ⟨a.x + b.x, a.y + b.y, a.z + b.z⟩
def sub (a b : V3 α) : V3 α := ⟨a.x - b.x, a.y - b.y, a.z - b.z⟩
def neg (a : V3 α) : V3 α := ⟨-a.x, -a.y, -a.z⟩
def smul (c : α) (a : V3 α) : V3 α := ⟨c * a.x, c * a.y, c * a.z⟩
def dot (a b : V3 α) : α := a.x * b.x + a.y * b.y + a.z * b.z
def cross (a b : V3 α) : V3 α := ⟨a.y * b.z - a.z * b.y, a.z * b.x - a.x * b.z, a.x * b.y - a.y * b.x⟩
def normSq (a : V3 α) : α := dot a a
def toList {β : Type*} (a : V3 β) : List β := [a.x, a.y, a.z]
end V3

namespace M3
def one : M3 α := ⟨⟨1, 0, 0⟩, ⟨0, 1, 0⟩, ⟨0, 0, 1⟩⟩
def zero : M3 α := ⟨.zero, .zero, .zero⟩
def c0 (A : M3 α) : V3 α := ⟨A.r0.x, A.r1.x, A.r2.x⟩
def c1 (A : M3 α) : V3 α := ⟨A.r0.y, A.r1.y, A.r2.y⟩
def c2 (A : M3 α) : V3 α := ⟨A.r0.z, A.r1.z, A.r2.z⟩
def transpose (A : M3 α) : M3 α := ⟨A.c0, A.c1, A.c2⟩
def mulVec (A : M3 α) (v : V3 α) : V3 α := ⟨A.r0.dot v, A.r1.dot v, A.r2.dot v⟩
def mul (A B : M3 α) : M3 α :=
  ⟨⟨A.r0.dot B.c0, A.r0.dot B.c1, A.r0.dot B.c2⟩,
   ⟨A.r1.dot B.c0, A.r1.dot B.c1, A.r1.dot B.c2⟩,
   ⟨A.r2.dot B.c0, A.r2.dot B.c1, A.r2.dot B.c2⟩⟩
def add (A B : M3 α) : M3 α := ⟨A.r0.add B.r0, A.r1.add B.r1, A.r2.add B.r2⟩
def smul (c : α) (A : M3 α) : M3 α := ⟨A.r0.smul c, A.r1.smul c, A.r2.smul c⟩
def neg (A : M3 α) : M3 α := ⟨A.r0.neg, A.r1.neg, A.r2.neg⟩
/-- Outer product `a bᵀ`. -/
def outer (a b : V3 α) : M3 α := ⟨b.smul a.x, b.smul a.y, b.smul a.z⟩
def det (A : M3 α) : α := A.r0.dot (A.r1.cross A.r2)
end M3

/-- Specification: `R` is a proper rotation (orthogonal with determinant one). -/
def IsRotation (R : M3 α) : Prop :=
  R.mul R.transpose = M3.one ∧ R.transpose.mul R = M3.one ∧ R.det = 1

namespace M4
def one : M4 α := ⟨.one, .zero, .zero, 1⟩
/-- 4×4 matrix product in block form. -/
def mul (A B : M4 α) : M4 α :=
  ⟨(A.R.mul B.R).add (M3.outer A.t B.b), (A.R.mulVec B.t).add (A.t.smul B.s),
   (B.R.transpose.mulVec A.b).add (B.b.smul A.s), A.b.dot B.t + A.s * B.s⟩
/-- 4×4 matrix times homogeneous vector. -/
def mulVec (A : M4 α) (p : V4 α) : V4 α :=
  ⟨(A.R.mulVec p.v).add (A.t.smul p.w), A.b.dot p.v + A.s * p.w⟩
end M4

/-- Specification: last row is `(0,0,0,1)`. -/
def M4.Affine (T : M4 α) : Prop := T.b = V3.zero ∧ T.s = 1
/-- Specification: a rigid transform. -/
def M4.Rigid (T : M4 α) : Prop := T.Affine ∧ T.R.mul T.R.transpose = M3.one ∧ T.R.transpose.mul T.R = M3.one

attribute [local simp] V3.zero V3.add V3.sub V3.neg V3.smul V3.dot V3.cross V3.normSq
  M3.one M3.zero M3.c0 M3.c1 M3.c2 M3.transpose M3.mulVec M3.mul M3.add M3.smul M3.neg M3.outer M3.det
  M4.one M4.mul M4.mulVec

theorem M3.mul_assoc (A B C : M3 α) : (A.mul B).mul C = A.mul (B.mul C) := by
  ext <;> simp <;> ring
theorem M3.one_mul (A : M3 α) : M3.one.mul A = A := by ext <;> simp
theorem M3.mul_one (A : M3 α) : A.mul M3.one = A := by ext <;> simp
theorem M3.mul_mulVec (A B : M3 α) (v : V3 α) : (A.mul B).mulVec v = A.mulVec (B.mulVec v) := by
  ext <;> simp <;> ring
theorem M3.one_mulVec (v : V3 α) : (M3.one : M3 α).mulVec v = v := by ext <;> simp
theorem M3.transpose_mul (A B : M3 α) : (A.mul B).transpose = B.transpose.mul A.transpose := by
  ext <;> simp <;> ring
omit [Field α] in
theorem M3.transpose_transpose (A : M3 α) : A.transpose.transpose = A := rfl
theorem M3.det_mul (A B : M3 α) : (A.mul B).det = A.det * B.det := by simp; ring
theorem M3.mulVec_add (A : M3 α) (v w : V3 α) : A.mulVec (v.add w) = (A.mulVec v).add (A.mulVec w) := by
  ext <;> simp <;> ring
theorem M3.mulVec_sub (A : M3 α) (v w : V3 α) : A.mulVec (v.sub w) = (A.mulVec v).sub (A.mulVec w) := by
  ext <;> simp <;> ring
theorem M3.mulVec_smul (A : M3 α) (c : α) (v : V3 α) : A.mulVec (v.smul c) = (A.mulVec v).smul c := by
  ext <;> simp <;> ring
theorem M3.dot_mulVec (A : M3 α) (v w : V3 α) : (A.mulVec v).dot w = v.dot (A.transpose.mulVec w) := by
  simp; ring

/-- Orthogonal matrices preserve dot products. -/
theorem M3.dot_orthogonal {R : M3 α} (h : R.transpose.mul R = M3.one) (v w : V3 α) :
    (R.mulVec v).dot (R.mulVec w) = v.dot w := by
  rw [M3.dot_mulVec, ← M3.mul_mulVec, h, M3.one_mulVec]

theorem M4.mul_assoc (A B C : M4 α) : (A.mul B).mul C = A.mul (B.mul C) := by
  ext <;> simp <;> ring
theorem M4.one_mul (A : M4 α) : M4.one.mul A = A := by ext <;> simp
theorem M4.mul_one (A : M4 α) : A.mul M4.one = A := by ext <;> simp
theorem M4.mul_mulVec (A B : M4 α) (p : V4 α) : (A.mul B).mulVec p = A.mulVec (B.mulVec p) := by
  ext <;> simp <;> ring

theorem M4.one_rigid : (M4.one : M4 α).Rigid := by
  refine ⟨⟨rfl, rfl⟩, ?_, ?_⟩ <;> ext <;> simp

theorem M4.Affine.mul {A B : M4 α} (hA : A.Affine) (hB : B.Affine) : (A.mul B).Affine := by
  obtain ⟨a1, a2⟩ := hA; obtain ⟨b1, b2⟩ := hB
  constructor
  · simp [M4.mul, a1, a2, b1]
  · simp [M4.mul, a1, a2, b2]

theorem M4.Rigid.mul {A B : M4 α} (hA : A.Rigid) (hB : B.Rigid) : (A.mul B).Rigid := by
  have hR : (A.mul B).R = A.R.mul B.R := by
    obtain ⟨b1, b2⟩ := hB.1
    ext <;> simp [M4.mul, b1]
  refine ⟨hA.1.mul hB.1, ?_, ?_⟩
  · rw [hR, M3.transpose_mul, M3.mul_assoc, ← M3.mul_assoc B.R, hB.2.1, M3.one_mul, hA.2.1]
  · rw [hR, M3.transpose_mul, M3.mul_assoc, ← M3.mul_assoc A.R.transpose, hA.2.2, M3.one_mul, hB.2.2]

end Verif
