import Verif.Grad.Model
import Mathlib.Analysis.Calculus.Deriv.Basic
import Mathlib.Algebra.BigOperators.Group.Finset.Basic
/-!
**C106**, specification: the real function a sequence of operations stands for, and the points where it is differentiable for the reason
that every operation is.
-/
namespace Verif.Grad
open Verif Verif.Nan Classical

def Cond.holds (x : ℕ → ℝ) : Cond → Prop
  | absGt a eps => eps < |x a|
  | lt0 a => x a < 0
  | gt0 a => 0 < x a
  | eq0 a => x a = 0
  | ne0 a => x a ≠ 0

/-- The mask does not change nearby. -/
def Cond.Regular (x : ℕ → ℝ) : Cond → Prop
  | absGt a eps => |x a| ≠ eps
  | lt0 a => x a ≠ 0
  | gt0 a => x a ≠ 0
  | eq0 a => x a ≠ 0
  | ne0 a => x a ≠ 0

/-- The real function of an operation. -/
noncomputable def Op.evalR (x : ℕ → ℝ) : Op → ℝ
  | const c => c
  | neg a => - x a
  | add a b => x a + x b
  | sub a b => x a - x b
  | mul a b => x a * x b
  | div a b => x a / x b
  | scale c a => c * x a
  | recip a => 1 / x a
  | pow a k => x a ^ k
  | rpow a r => x a ^ r
  | exp a => Real.exp (x a)
  | sin a => Real.sin (x a)
  | cos a => Real.cos (x a)
  | sqrt a => √(x a)
  | atan2 a b => Geom.atan2 (x a) (x b)
  | sel c a b => if c.holds x then x a else x b
  | norm3 a b c => √(x a * x a + x b * x b + x c * x c)
  | clamp lo hi a => if x a < lo then lo else if hi < x a then hi else x a

/-- The operation is differentiable at its arguments. -/
def Op.Regular (x : ℕ → ℝ) : Op → Prop
  | div _ b => x b ≠ 0
  | recip a => x a ≠ 0
  | rpow a _ => 0 < x a
  | sqrt a => 0 < x a
  | atan2 a b => 0 < x b ∨ x a ≠ 0
  | sel c _ _ => c.Regular x
  | norm3 a b c => 0 < x a * x a + x b * x b + x c * x c
  | clamp lo hi a => x a ≠ lo ∧ x a ≠ hi
  | _ => True

/-- The nodes an operation reads. -/
def Cond.arg : Cond → ℕ
  | absGt a _ => a
  | lt0 a => a
  | gt0 a => a
  | eq0 a => a
  | ne0 a => a

def Op.args : Op → List ℕ
  | const _ => []
  | neg a => [a]
  | add a b => [a, b]
  | sub a b => [a, b]
  | mul a b => [a, b]
  | div a b => [a, b]
  | scale _ a => [a]
  | recip a => [a]
  | pow a _ => [a]
  | rpow a _ => [a]
  | exp a => [a]
  | sin a => [a]
  | cos a => [a]
  | sqrt a => [a]
  | atan2 a b => [a, b]
  | sel c a b => [c.arg, a, b]
  | norm3 a b c => [a, b, c]
  | clamp _ _ a => [a]

/-- Operations read earlier nodes only. -/
def Closed (m : ℕ) : List Op → Prop
  | [] => True
  | o :: os => (∀ k ∈ o.args, k < m) ∧ Closed (m + 1) os

/-- The real function of a sequence of operations. -/
noncomputable def runR (m : ℕ) : List Op → (ℕ → ℝ) → (ℕ → ℝ)
  | [], x => x
  | o :: os, x => runR (m + 1) os (Function.update x m (o.evalR x))

/-- Every operation is differentiable where the sequence applies it. -/
def Regular (m : ℕ) : List Op → (ℕ → ℝ) → Prop
  | [], _ => True
  | o :: os, x => o.Regular x ∧ Regular (m + 1) os (Function.update x m (o.evalR x))

/-- A finite number. -/
def Finite (v : N) : Prop := ∃ a : ℝ, v = .fin a

/-- The gradient a node has received, nothing being 0. -/
noncomputable def gradOf (g : ℕ → Option N) (k : ℕ) : N := (g k).getD (.fin 0)

/-- Gradients for the outputs: `s k` for the nodes `k` of `outs`. -/
noncomputable def seed (outs : Finset ℕ) (s : ℕ → ℝ) : ℕ → Option N := fun k => if k ∈ outs then some (.fin (s k)) else none

/-- The operation has finite local derivatives or hides that it has none: masks, clamping and the norm count as harmless. -/
def Op.Mild (x : ℕ → ℝ) : Op → Prop
  | div _ b => x b ≠ 0
  | recip a => x a ≠ 0
  | rpow a _ => 0 < x a
  | sqrt a => 0 < x a
  | atan2 a b => x a ≠ 0 ∨ x b ≠ 0
  | _ => True

/-- Every operation is harmless where the sequence applies it. -/
def Mild (m : ℕ) : List Op → (ℕ → ℝ) → Prop
  | [], _ => True
  | o :: os, x => o.Mild x ∧ Mild (m + 1) os (Function.update x m (o.evalR x))

/-- At the input `x`, whatever the (finite) gradients of the outputs, the gradient of every input is finite. -/
def FiniteGrads (m : ℕ) (os : List Op) (outs : Finset ℕ) (x : ℕ → ℝ) : Prop :=
  ∀ (s : ℕ → ℝ), ∀ j < m, Finite (gradOf (back m os (fun k => .fin (x k)) (seed outs s)) j)

/-- At the input `x`, whatever the gradients `s` of the outputs, the gradient of every input is the partial derivative with respect to
that input of the sum of the outputs weighted with `s`. -/
def CorrectGrads (m : ℕ) (os : List Op) (outs : Finset ℕ) (x : ℕ → ℝ) : Prop :=
  ∀ (s : ℕ → ℝ), ∀ j < m, ∃ v : ℝ, gradOf (back m os (fun k => .fin (x k)) (seed outs s)) j = .fin v ∧
    HasDerivAt (fun t => ∑ k ∈ outs, s k * runR m os (Function.update x j t) k) v (x j)

/-- All operations pull finite gradients back to finite gradients. -/
def Tame (m : ℕ) : List Op → (ℕ → N) → Prop
  | [], _ => True
  | o :: os, e => (∀ a : ℝ, ∀ p ∈ o.pulls e (o.eval e) (.fin a), Finite p.2) ∧ Tame (m + 1) os (Function.update e m (o.eval e))

end Verif.Grad
