import Verif.Nan.Float
import Verif.Geom.AxisAngle
import Mathlib.Analysis.SpecialFunctions.Pow.Real
/-!
**C106**, model: back-propagation through the code of gradslam.

Every function of gradslam is a sequence of torch operations, and torch differentiates it by recording the sequence and pulling the
gradients of the outputs back through it, operation by operation (`torch/tools/autograd/derivatives.yaml` gives the formulas).  The code
of one point (or pixel, or quaternion) is modelled as such a sequence of scalar operations: nodes `0, …, m-1` are the inputs and the
`i`-th operation computes node `m+i` from earlier nodes.  Numbers have NaN and infinities (`Verif/Nan/Float.lean`), rounding is not
modelled: finite results are exact and do not overflow.
-/
namespace Verif.Grad
open Verif Verif.Nan

/-- Exact arithmetic on finite numbers. -/
noncomputable def ex : Fns ℝ where
  rnd := .fin
  nrm := fun v => √(v.x * v.x + v.y * v.y + v.z * v.z)
  sn := Real.sin
  cs := Real.cos
  ex := Real.exp
  rt := fun a b => a ^ b

/-- A number. -/
abbrev N := X ℝ

/-- The masks of `torch.where` in gradslam. -/
inductive Cond
  /-- `torch.abs(w) > eps`, geometryutils.py:74, projutils.py:87 -/
  | absGt (a : ℕ) (eps : ℝ)
  /-- `cos_theta < 0.0`, geometryutils.py:110 -/
  | lt0 (a : ℕ)
  /-- `sin_sq_theta > 0.0`, geometryutils.py:117 -/
  | gt0 (a : ℕ)
  /-- `norm == 0`, rgbdimages.py:737-739; fusionutils.py:693-697 -/
  | eq0 (a : ℕ)
  /-- `z != 0`, projutils.py:235-236, geometryutils.py:649-650, 731-732 -/
  | ne0 (a : ℕ)

/-- The torch operations used by the differentiable code of gradslam. -/
inductive Op
  | const (c : ℝ)
  | neg (a : ℕ)
  | add (a b : ℕ)
  | sub (a b : ℕ)
  | mul (a b : ℕ)
  | div (a b : ℕ)
  | scale (c : ℝ) (a : ℕ)
  | recip (a : ℕ)
  | pow (a k : ℕ)
  | rpow (a : ℕ) (r : ℝ)
  | exp (a : ℕ)
  | sin (a : ℕ)
  | cos (a : ℕ)
  | sqrt (a : ℕ)
  | atan2 (a b : ℕ)
  | sel (c : Cond) (a b : ℕ)
  | norm3 (a b c : ℕ)
  | clamp (lo hi : ℝ) (a : ℕ)

/-- Comparison and absolute value. -/
noncomputable def absX : N → N
  | .nan => .nan
  | .inf _ => .inf false
  | .fin a => .fin |a|

noncomputable def Cond.eval (e : ℕ → N) : Cond → Bool
  | absGt a eps => X.lt (.fin eps) (absX (e a))
  | lt0 a => X.lt (e a) (.fin 0)
  | gt0 a => X.lt (.fin 0) (e a)
  | eq0 a => X.isZero (e a)
  | ne0 a => !X.isZero (e a)

/-- A function on finite numbers (`none`: not a number); gradslam does not apply these to infinities. -/
noncomputable def mapX (f : ℝ → Option ℝ) : N → N
  | .fin a => match f a with | some b => .fin b | none => .nan
  | _ => .nan

/-- `torch.atan2(y, x)` on finite numbers. -/
noncomputable def atan2X : N → N → N
  | .fin y, .fin x => .fin (Geom.atan2 y x)
  | _, _ => .nan

/-- The value an operation computes. -/
noncomputable def Op.eval (e : ℕ → N) : Op → N
  | const c => .fin c
  | neg a => (e a).neg
  | add a b => X.add ex (e a) (e b)
  | sub a b => X.add ex (e a) (e b).neg
  | mul a b => X.mul ex (e a) (e b)
  | div a b => X.div ex (e a) (e b)
  | scale c a => X.mul ex (.fin c) (e a)
  | recip a => X.div ex (.fin 1) (e a)
  | pow a k => mapX (fun x => some (x ^ k)) (e a)
  | rpow a r => mapX (fun x => if 0 < x then some (x ^ r) else none) (e a)
  | exp a => X.exp ex (e a)
  | sin a => X.map ex Real.sin (e a)
  | cos a => X.map ex Real.cos (e a)
  | sqrt a => mapX (fun x => if x < 0 then none else some √x) (e a)
  | atan2 a b => atan2X (e a) (e b)
  | sel c a b => if c.eval e then e a else e b
  | norm3 a b c => X.norm ex ⟨e a, e b, e c⟩
  | clamp lo hi a => X.clamp (e a) (.fin lo) (.fin hi)

/-- What an operation sends to its arguments when its result `r` has gradient `g` (torch: `derivatives.yaml`, `FunctionsManual.cpp`). -/
noncomputable def Op.pulls (e : ℕ → N) (r g : N) : Op → List (ℕ × N)
  | const _ => []
  | neg a => [(a, g.neg)]
  | add a b => [(a, g), (b, g)]
  | sub a b => [(a, g), (b, g.neg)]
  | mul a b => [(a, X.mul ex g (e b)), (b, X.mul ex g (e a))]
  -- grad / other; -grad * ((self / other) / other)
  | div a b => [(a, X.div ex g (e b)), (b, X.mul ex g.neg (X.div ex (X.div ex (e a) (e b)) (e b)))]
  | scale c a => [(a, X.mul ex g (.fin c))]
  -- -grad * (result * result)
  | recip a => [(a, X.mul ex g.neg (X.mul ex r r))]
  -- exponent == 0 ? zeros : grad * (exponent * self.pow(exponent - 1))
  | pow a k => [(a, if k = 0 then .fin 0 else X.mul ex g (X.mul ex (.fin k) (mapX (fun x => some (x ^ (k - 1))) (e a))))]
  | rpow a p => [(a, if p = 0 then .fin 0 else
      X.mul ex g (X.mul ex (.fin p) (mapX (fun x => if 0 < x then some (x ^ (p - 1)) else none) (e a))))]
  -- grad * result
  | exp a => [(a, X.mul ex g r)]
  | sin a => [(a, X.mul ex g (X.map ex Real.cos (e a)))]
  | cos a => [(a, X.mul ex g (X.map ex Real.sin (e a)).neg)]
  -- grad / (2 * result)
  | sqrt a => [(a, X.div ex g (X.mul ex (.fin 2) r))]
  -- recip = (self * self + other * other).reciprocal(); grad * other * recip; grad * -self * recip
  | atan2 a b =>
    let q := X.div ex (.fin 1) (X.add ex (X.mul ex (e a) (e a)) (X.mul ex (e b) (e b)))
    [(a, X.mul ex (X.mul ex g (e b)) q), (b, X.mul ex (X.mul ex g (e a).neg) q)]
  -- where(condition, grad, 0); where(condition, 0, grad)
  | sel c a b => [(a, if c.eval e then g else .fin 0), (b, if c.eval e then .fin 0 else g)]
  -- self * (grad / norm), masked to 0 where norm == 0
  | norm3 a b c => [a, b, c].map fun i => (i, if X.isZero r then .fin 0 else X.mul ex (e i) (X.div ex g r))
  -- where(self >= min && self <= max, grad, 0)
  | clamp lo hi a => [(a, if X.lt (e a) (.fin lo) || X.lt (.fin hi) (e a) then .fin 0 else g)]

/-- The forward pass: the value of every node. -/
noncomputable def run (m : ℕ) : List Op → (ℕ → N) → (ℕ → N)
  | [], e => e
  | o :: os, e => run (m + 1) os (Function.update e m (o.eval e))

/-- Add a gradient to what node `p.1` has received (`none`: nothing received). -/
noncomputable def acc (g : ℕ → Option N) (p : ℕ × N) : ℕ → Option N :=
  Function.update g p.1 (some (match g p.1 with | none => p.2 | some y => X.add ex y p.2))

/-- The backward pass, from the gradients `g` of the outputs to those of the inputs; operations that receive no gradient are not run. -/
noncomputable def back (m : ℕ) : List Op → (ℕ → N) → (ℕ → Option N) → (ℕ → Option N)
  | [], _, g => g
  | o :: os, e, g =>
    let g' := back (m + 1) os (Function.update e m (o.eval e)) g
    match g' m with
    | none => g'
    | some a => (o.pulls e (o.eval e) a).foldl acc g'

end Verif.Grad
