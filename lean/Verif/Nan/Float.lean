import Verif.Nan.Register
import Mathlib.Algebra.Order.Field.Rat
import Mathlib.Algebra.Order.Ring.Abs
/-! **C101**, **C102**: an arithmetic with NaN, infinities, rounding and overflow; infinite depths; concrete cases. -/
namespace Verif.Nan
open Verif

/-- Floating-point values: NaN, infinities (`true`: negative), finite numbers (signed zeros are not distinguished). -/
inductive X (K : Type*)
  | nan
  | inf (neg : Bool)
  | fin (a : K)
  deriving DecidableEq

/-- What is left open: how a finite exact result is rounded (it may overflow), and the functions on finite numbers. -/
structure Fns (K : Type*) where
  rnd : K → X K
  nrm : V3 K → K
  sn : K → K
  cs : K → K
  ex : K → K
  rt : K → K → K

variable {K : Type*} [Field K] [LinearOrder K] (F : Fns K)

namespace X
def neg : X K → X K
  | nan => nan
  | inf s => inf !s
  | fin a => fin (-a)

def add : X K → X K → X K
  | nan, _ => nan
  | _, nan => nan
  | inf s, inf t => if s = t then inf s else nan
  | inf s, fin _ => inf s
  | fin _, inf t => inf t
  | fin a, fin b => F.rnd (a + b)

def mul : X K → X K → X K
  | nan, _ => nan
  | _, nan => nan
  | inf s, inf t => inf (s != t)
  | inf s, fin a => if a = 0 then nan else inf (s != decide (a < 0))
  | fin a, inf s => if a = 0 then nan else inf (s != decide (a < 0))
  | fin a, fin b => F.rnd (a * b)

def div : X K → X K → X K
  | nan, _ => nan
  | _, nan => nan
  | inf _, inf _ => nan
  | inf s, fin a => inf (s != decide (a < 0))
  | fin _, inf _ => fin 0
  | fin a, fin b => if b = 0 then (if a = 0 then nan else inf (decide (a < 0))) else F.rnd (a / b)

def lt : X K → X K → Bool
  | nan, _ => false
  | _, nan => false
  | inf s, inf t => s && !t
  | inf s, fin _ => s
  | fin _, inf t => !t
  | fin a, fin b => decide (a < b)

def isZero : X K → Bool
  | fin a => decide (a = 0)
  | _ => false

def norm (v : V3 (X K)) : X K := match v.x, v.y, v.z with
  | nan, _, _ => nan
  | _, nan, _ => nan
  | _, _, nan => nan
  | fin a, fin b, fin c => F.rnd (F.nrm ⟨a, b, c⟩)
  | _, _, _ => inf false

/-- A function on finite numbers, NaN elsewhere. -/
def map (f : K → K) : X K → X K
  | fin a => F.rnd (f a)
  | _ => nan

def exp : X K → X K
  | nan => nan
  | inf false => inf false
  | inf true => fin 0
  | fin a => F.rnd (F.ex a)

def pw (x : X K) : Nat → X K
  | 0 => fin 1
  | k + 1 => mul F (pw x k) x

def root (x y : X K) : X K := if isZero y then fin 1 else match x, y with
  | fin a, fin b => F.rnd (F.rt a b)
  | inf false, fin b => if b < 0 then fin 0 else inf false
  | _, _ => nan

def clamp (x a b : X K) : X K := if x = nan then nan else if lt x a then a else if lt b x then b else x
end X

/-- The arithmetic. -/
def ieee : Ar (X K) where
  zero := .fin 0
  one := .fin 1
  add := X.add F
  sub := fun x y => X.add F x y.neg
  neg := X.neg
  mul := X.mul F
  div := X.div F
  sum := fun l => l.foldl (X.add F) (.fin 0)
  norm := X.norm F
  lt := X.lt
  isZero := X.isZero
  sin := X.map F F.sn
  cos := X.map F F.cs
  exp := X.exp F
  pw := X.pw F
  root := X.root F
  clamp := X.clamp

theorem add_nan (x y : X K) (h : x = .nan ∨ y = .nan) : X.add F x y = .nan := by rcases h with rfl | rfl <;> [rfl; (cases x <;> rfl)]
theorem mul_nan (x y : X K) (h : x = .nan ∨ y = .nan) : X.mul F x y = .nan := by rcases h with rfl | rfl <;> [rfl; (cases x <;> rfl)]

theorem foldl_nan (l : List (X K)) : l.foldl (X.add F) .nan = .nan := by
  induction l with
  | nil => rfl
  | cons a l ih => exact ih

theorem sum_nan (l : List (X K)) (s : X K) (h : .nan ∈ l) : l.foldl (X.add F) s = .nan := by
  induction l generalizing s with
  | nil => cases h
  | cons a l ih =>
    rcases List.mem_cons.1 h with e | h
    · rw [List.foldl_cons, add_nan F s a (.inr e.symm)]; exact foldl_nan F l
    · exact ih _ h

/-- It has the laws of NaN. -/
theorem ieee_strict : Strict (ieee F) (· = .nan) where
  add := add_nan F
  sub := fun x y h => add_nan F _ _ (h.imp id fun h => by rw [h]; rfl)
  neg := fun x h => by subst h; rfl
  mul := mul_nan F
  div := fun x y h => by rcases h with rfl | rfl <;> [rfl; (cases x <;> rfl)]
  sum := fun l ⟨x, h, e⟩ => sum_nan F l _ (e ▸ h)
  norm := fun ⟨a, b, c⟩ h => by
    simp only at h
    show X.norm F _ = _
    rcases h with rfl | rfl | rfl
    · rfl
    · cases a <;> rfl
    · cases a <;> cases b <;> rfl
  lt := fun x y h => by rcases h with rfl | rfl <;> [rfl; (cases x <;> rfl)]
  isZero := fun x h => by subst h; rfl
  sin := fun x h => by subst h; rfl
  cos := fun x h => by subst h; rfl
  exp := fun x h => by subst h; rfl
  pw := fun x k h hk => by
    obtain ⟨k, rfl⟩ := Nat.exists_eq_succ_of_ne_zero hk.ne'
    exact mul_nan F _ _ (.inr h)
  root := fun x y h hy => by
    have e : x = .nan := h
    have k : X.isZero y = false := hy
    subst e
    change (X.root F .nan y) = .nan
    unfold X.root
    rw [k]; rfl
  clamp := fun x a b h => by subst h; rfl

/-! ### Infinite depths -/

/-- Not a finite number. -/
def NonFin (x : X K) : Prop := ∀ a, x ≠ .fin a

omit [Field K] [LinearOrder K] in
theorem nonfin_cases {x : X K} (h : NonFin x) : x = .nan ∨ ∃ s, x = .inf s := by
  cases x with
  | nan => exact .inl rfl
  | inf s => exact .inr ⟨s, rfl⟩
  | fin a => exact absurd rfl (h a)

theorem add_nonfin (x y : X K) (h : NonFin x ∨ NonFin y) : NonFin (X.add F x y) := by
  rcases h with h | h <;> rcases nonfin_cases h with rfl | ⟨s, rfl⟩
  · intro a k; cases k
  · rcases y with _ | t | b
    · intro a k; cases k
    · intro a k; simp only [X.add] at k; split at k <;> cases k
    · intro a k; cases k
  · rw [add_nan F x _ (.inr rfl)]; intro a k; cases k
  · rcases x with _ | t | b
    · intro a k; cases k
    · intro a k; simp only [X.add] at k; split at k <;> cases k
    · intro a k; cases k

theorem mul_nonfin (x y : X K) (h : NonFin x ∨ NonFin y) : NonFin (X.mul F x y) := by
  rcases h with h | h <;> rcases nonfin_cases h with rfl | ⟨s, rfl⟩
  · intro a k; cases k
  · rcases y with _ | t | b
    · intro a k; cases k
    · intro a k; cases k
    · intro a k; simp only [X.mul] at k; split at k <;> cases k
  · rw [mul_nan F x _ (.inr rfl)]; intro a k; cases k
  · rcases x with _ | t | b
    · intro a k; cases k
    · intro a k; cases k
    · intro a k; simp only [X.mul] at k; split at k <;> cases k

theorem foldl_nonfin (l : List (X K)) (s : X K) (h : NonFin s ∨ ∃ x ∈ l, NonFin x) : NonFin (l.foldl (X.add F) s) := by
  induction l generalizing s with
  | nil => rcases h with h | ⟨x, hx, _⟩ <;> [exact h; cases hx]
  | cons a l ih =>
    rw [List.foldl_cons]
    refine ih _ ?_
    rcases h with h | ⟨x, hx, h⟩
    · exact .inl (add_nonfin F _ _ (.inl h))
    · rcases List.mem_cons.1 hx with rfl | hx
      · exact .inl (add_nonfin F _ _ (.inr h))
      · exact .inr ⟨x, hx, h⟩

variable {F}

/-- **C101**: an infinite depth does *not* count as missing, and its pixel gives a point of the map whose coordinates are not finite: without a pose
the third one is not, with a pose none is.  (`K⁻¹` has last row `(0, 0, 1)`, the pixel's third coordinate is 1, and 0 and 1 are numbers of the
format.) -/
theorem inf_depth_enters [IsStrictOrderedRing K] (al : V3 (X K) → X K) {f : Fr (X K)} {h w : Nat} {a b : K} (hH : h < f.H) (hW : w < f.W)
    (hd : f.depth h w = .inf false) (h0 : F.rnd 0 = .fin 0) (h1 : F.rnd 1 = .fin 1) (hk : f.kinv.r2 = ⟨.fin 0, .fin 0, .fin 1⟩)
    (hp : f.pix h w = ⟨.fin a, .fin b, .fin 1⟩) :
    valid (ieee F) f h w = true ∧ (vertex (ieee F) f h w).z = .inf false ∧
      measured (ieee F) al f (h, w) ∈ cloud (ieee F) al f ∧ NonFin (measured (ieee F) al f (h, w)).p.z ∧
      (f.pose ≠ none → NonFin (measured (ieee F) al f (h, w)).p.x ∧ NonFin (measured (ieee F) al f (h, w)).p.y) := by
  have v : valid (ieee F) f h w = true := by rw [valid, hd]; rfl
  have one0 : (1 : K) ≠ 0 := one_ne_zero
  have z : (vertex (ieee F) f h w).z = .inf false := by
    have d : dot (ieee F) f.kinv.r2 (f.pix h w) = .fin 1 := by
      rw [hk, hp]
      simp [dot, ieee, X.mul, X.add, h0, h1]
    have e : (vertex (ieee F) f h w).z = X.mul F (X.mul F (dot (ieee F) f.kinv.r2 (f.pix h w)) (f.depth h w)) (num (ieee F) (valid (ieee F) f h w)) := rfl
    rw [e, d, hd, v]
    have n1 : ¬ (1 : K) < 0 := not_lt.2 zero_le_one
    simp [num, ieee, X.mul, n1]
  have mem : (h, w) ∈ (pixels f).filter fun x => valid (ieee F) f x.1 x.2 := by
    rw [List.mem_filter]
    refine ⟨?_, v⟩
    simp only [pixels, List.mem_flatMap, List.mem_map, List.mem_range, Prod.mk.injEq]
    exact ⟨h, hH, w, hW, rfl, rfl⟩
  have nf : NonFin (vertex (ieee F) f h w).z := by rw [z]; intro a k; cases k
  have key : ∀ R t, f.pose = some (R, t) → NonFin (gvertex (ieee F) f h w).x ∧ NonFin (gvertex (ieee F) f h w).y ∧ NonFin (gvertex (ieee F) f h w).z := by
    intro R t e
    have r : ∀ (r : V3 (X K)) (c m : X K), NonFin (X.mul F (X.add F (dot (ieee F) r (vertex (ieee F) f h w)) c) m) := fun r c m =>
      mul_nonfin F _ _ (.inl (add_nonfin F _ _ (.inl (foldl_nonfin F _ _ (.inr ⟨_, List.mem_cons_of_mem _ (List.mem_cons_of_mem _ List.mem_cons_self), mul_nonfin F r.z _ (.inr nf)⟩)))))
    rw [gvertex, e]
    exact ⟨r _ _ _, r _ _ _, r _ _ _⟩
  refine ⟨v, z, List.mem_map_of_mem mem, ?_, ?_⟩
  · show NonFin (gvertex (ieee F) f h w).z
    rcases e : f.pose with _ | ⟨R, t⟩
    · rw [gvertex, e]; exact nf
    · exact (key R t e).2.2
  · intro hp
    rcases e : f.pose with _ | ⟨R, t⟩
    · exact absurd e hp
    · exact ⟨(key R t e).1, (key R t e).2.1⟩

/-! ### Concrete cases -/

/-- Rational numbers, not rounded; the 1-norm. -/
def ratFns : Fns ℚ := ⟨.fin, fun v => |v.x| + |v.y| + |v.z|, fun a => a, fun _ => 1, fun _ => 1, fun a _ => a⟩

/-- A 3×3 frame with a depth of 2 everywhere except `d` in the middle. -/
def nine (d : X ℚ) : Fr (X ℚ) where
  H := 3
  W := 3
  kinv := ⟨⟨.fin 1, .fin 0, .fin (-1)⟩, ⟨.fin 0, .fin 1, .fin (-1)⟩, ⟨.fin 0, .fin 0, .fin 1⟩⟩
  pix := fun h w => ⟨.fin w, .fin h, .fin 1⟩
  depth := fun h w => if h = 1 ∧ w = 1 then d else .fin 2
  rgb := fun h w => ⟨.fin h, .fin w, .fin 0⟩
  pose := some (eye (ieee ratFns), ⟨.fin 1, .fin 0, .fin 0⟩)

theorem nine_same (d e : X ℚ) : Same (nine d) (nine e) 1 1 := by
  refine ⟨rfl, fun h w k => ?_⟩
  have : ¬ (h = 1 ∧ w = 1) := fun e => k (by rw [e.1, e.2])
  simp [nine, this]

/-- The middle pixel's NaN: no point for it, 8 points in the map; the normals of its left, upper, right and lower neighbour are NaN (3 rows and
columns: all border rules apply), the corner's is not. -/
theorem nan_case : valid (ieee ratFns) (nine .nan) 1 1 = false ∧ (cloud (ieee ratFns) (fun _ => .fin 1) (nine .nan)).length = 8 ∧
    gnormal (ieee ratFns) (nine .nan) 1 0 = ⟨.nan, .nan, .nan⟩ ∧ gnormal (ieee ratFns) (nine .nan) 0 1 = ⟨.nan, .nan, .nan⟩ ∧
    gnormal (ieee ratFns) (nine .nan) 1 2 = ⟨.nan, .nan, .nan⟩ ∧ gnormal (ieee ratFns) (nine .nan) 2 1 = ⟨.nan, .nan, .nan⟩ ∧
    gnormal (ieee ratFns) (nine .nan) 0 0 = ⟨.fin 0, .fin 0, .fin 1⟩ ∧ gvertex (ieee ratFns) (nine .nan) 1 1 = ⟨.nan, .nan, .nan⟩ ∧
    gvertex (ieee ratFns) (nine (.fin 0)) 1 1 = ⟨.fin 0, .fin 0, .fin 0⟩ := by decide +kernel

/-- The middle pixel's infinity: 9 points, one of them nowhere. -/
theorem inf_case : (cloud (ieee ratFns) (fun _ => .fin 1) (nine (.inf false))).length = 9 ∧
    gvertex (ieee ratFns) (nine (.inf false)) 1 1 = ⟨.nan, .nan, .nan⟩ ∧ (vertex (ieee ratFns) (nine (.inf false)) 1 1).z = .inf false := by decide +kernel

/-- Sees every finite point at its own pixel of `nine`. -/
def seeNine (p : V3 (X ℚ)) : Option (Nat × Nat) := active (ieee ratFns) (eye (ieee ratFns)) ⟨.fin (-1), .fin 0, .fin 0⟩
  (fun q => if q = ⟨.fin (-2), .fin (-2), .fin 2⟩ then some (0, 0) else if q = ⟨.fin (-2), .fin 0, .fin 2⟩ then some (1, 0) else none) p

/-- The same frame fused again: pixel `(0, 0)` is merged, pixel `(1, 0)`, whose point is in the map as well, is appended again. -/
theorem fuse_case : let m := cloud (ieee ratFns) (fun _ => .fin 1) (nine .nan)
    (candidates (ieee ratFns) seeNine (nine .nan) (.fin 1) (.fin (1 / 2)) m) = [(0, 0, 0)] ∧
    (fuse (ieee ratFns) (fun _ => .fin 1) seeNine id (.fin 1) (.fin (1 / 2)) m (nine .nan)).length = 15 ∧
    (fuse (ieee ratFns) (fun _ => .fin 1) seeNine id (.fin 1) (.fin (1 / 2)) m (nine .nan))[0]? = some
      ⟨⟨.fin (-1), .fin (-2), .fin 2⟩, ⟨.fin 0, .fin 0, .fin 1⟩, ⟨.fin 0, .fin 0, .fin 0⟩, .fin 2⟩ ∧
    (candidates (ieee ratFns) seeNine (nine (.fin 2)) (.fin 1) (.fin (1 / 2)) (cloud (ieee ratFns) (fun _ => .fin 1) (nine (.fin 2)))) = [(0, 0, 0), (3, 1, 0)] := by
  decide +kernel

/-- Registration of a point with a target whose normal is NaN: a solver that answers `(1, 0, 0)`. -/
def oneTools : Tools (X ℚ) Unit := ⟨fun _ _ => (.fin 0, 0), fun _ _ _ => .ok (⟨.fin 1, .fin 0, .fin 0⟩, ⟨.fin 0, .fin 0, .fin 0⟩), ()⟩

/-- The identity. -/
def id4 : M4 (X ℚ) := ⟨eye (ieee ratFns), ⟨.fin 0, .fin 0, .fin 0⟩, ⟨.fin 0, .fin 0, .fin 0⟩, .fin 1⟩

/-- With a finite normal the step is accepted and the point moves onto the target's plane; with a NaN normal nothing happens. -/
theorem icp_case : BadPair (ieee ratFns) (· = .nan) oneTools none (transform (ieee ratFns) id4 [⟨.fin 0, .fin 0, .fin 0⟩])
      [⟨.fin 1, .fin 0, .fin 0⟩] [⟨.nan, .nan, .nan⟩] ∧
    register (ieee ratFns) (icpStep (ieee ratFns) oneTools (.fin (1 / 1000)) (.fin 2) none [⟨.fin 1, .fin 0, .fin 0⟩] [⟨.nan, .nan, .nan⟩]) 1
      [⟨.fin 0, .fin 0, .fin 0⟩] (.fin 1) id4 = .ok id4 ∧
    register (ieee ratFns) (icpStep (ieee ratFns) oneTools (.fin (1 / 1000)) (.fin 2) none [⟨.fin 1, .fin 0, .fin 0⟩] [⟨.fin 1, .fin 0, .fin 0⟩]) 1
      [⟨.fin 0, .fin 0, .fin 0⟩] (.fin 1) id4 = .ok { id4 with t := ⟨.fin 1, .fin 0, .fin 0⟩ } := by
  refine ⟨⟨(⟨.fin 0, .fin 0, .fin 0⟩, 0), by decide +kernel, .inr (.inr (.inl rfl))⟩, ?_, ?_⟩
  · decide +kernel
  · decide +kernel

/-- Constants of gradICP. -/
def gradOne : Grad (X ℚ) := ⟨.fin 70, .fin (1 / 2), .fin 2, .fin 1, .fin 1, .fin 200⟩

theorem grad_case : (ieee ratFns).isZero ((ieee ratFns).div (ieee ratFns).one gradOne.nu) = false ∧
    register (ieee ratFns) (gradStep (ieee ratFns) oneTools (.fin (1 / 1000)) gradOne none [⟨.fin 1, .fin 0, .fin 0⟩] [⟨.nan, .nan, .nan⟩]) 1
      [⟨.fin 0, .fin 0, .fin 0⟩] (.fin 1) id4 =
      .ok ⟨⟨⟨.nan, .nan, .nan⟩, ⟨.nan, .nan, .nan⟩, ⟨.nan, .nan, .nan⟩⟩, ⟨.nan, .nan, .nan⟩, ⟨.fin 0, .fin 0, .fin 0⟩, .fin 1⟩ := by
  refine ⟨by decide +kernel, by decide +kernel⟩
end Verif.Nan
