import Verif.PC.Model
import Mathlib.Tactic.Linarith
import Mathlib.Tactic.Ring
/-!
Specification of a batch of pointclouds, independent of how the class stores it: for every attribute, the list of the clouds'
tensors, or `none` if the batch does not have the attribute (a batch without points is empty).
-/
namespace Verif.Pcs
open Verif

/-- The abstract value: for each attribute the list of the clouds' tensors. -/
abbrev Clouds (α : Type*) := Attr → Option (List (T2 α))

section
variable {α : Type*}

/-- Number of points of each cloud. -/
def sizes (P : List (T2 α)) : List Nat := P.map fun t => t.rows.length

/-- Well-formed non-empty batch with points `P`: at least one cloud, and every attribute has one rectangular tensor per cloud, with as
many rows as the cloud has points, a common number of columns, and 3 columns unless it is `features`. -/
structure Wf (a : Clouds α) (P : List (T2 α)) : Prop where
  pts : a .points = some P
  ne : P ≠ []
  rows : ∀ X l, a X = some l → l.map (fun t => t.rows.length) = sizes P
  valid : ∀ X l, a X = some l → ∀ t ∈ l, t.Valid
  cols : ∀ X l, a X = some l → ∃ C, (∀ t ∈ l, t.cols = C) ∧ (X ≠ .features → C = 3)

/-- The empty batch. -/
def emptyClouds : Clouds α := fun _ => none

variable [Zero α]

/-- A cloud's tensor padded with zero rows to `N` rows. -/
def padT (N : Nat) (t : T2 α) : T2 α := ⟨t.rows ++ List.replicate (N - t.rows.length) (List.replicate t.cols 0), t.cols⟩

def padL (N : Nat) (l : List (T2 α)) : List (T2 α) := l.map (padT N)

/-- What `X_padded` should return: every cloud zero-padded to the size of the largest. -/
def specPad (a : Clouds α) (X : Attr) : Option (List (T2 α)) :=
  match a .points with
  | none => none
  | some P => (a X).map (padL (maxL (sizes P)))

/-- What `nonpad_mask` should return. -/
def maskOf (P : List (T2 α)) : List (List Bool) :=
  P.map fun t => (List.range (maxL (sizes P))).map fun n => decide (n < t.rows.length)

def specMask (a : Clouds α) : Option (List (List Bool)) := (a .points).map maskOf

/-- What `num_points_per_pointcloud` should return (the class uses `[0]` for an empty batch). -/
def specNum (a : Clouds α) : List Nat :=
  match a .points with
  | none => [0]
  | some P => sizes P
end

/-! ### Abstract operations -/
section
variable {α : Type*}

/-- `append_points`: cloud by cloud concatenation of every attribute. -/
def specAppend (a b : Clouds α) : Clouds α := fun X =>
  match a X, b X with
  | some l, some m => some (List.zipWith (fun t u => ⟨t.rows ++ u.rows, t.cols⟩) l m)
  | _, _ => none

/-- Both batches have the same number of clouds, the same attributes and the same feature width. -/
def Compatible (a b : Clouds α) : Prop :=
  ((a .points).map List.length = (b .points).map List.length) ∧ (∀ X, (a X).isSome = (b X).isSome) ∧
  ∀ l m, a .features = some l → b .features = some m → ∀ t ∈ l, ∀ u ∈ m, t.cols = u.cols

/-- Selecting clouds by positions. -/
def specSelect (is : List Nat) (a : Clouds α) : Clouds α := fun X => (a X).map fun l => is.map fun i => l.getD i ⟨[], 0⟩

/-- Replace one attribute. -/
def specSet (X : Attr) (l : List (T2 α)) (a : Clouds α) : Clouds α := Function.update a X (some l)

/-- Apply `g` to every point (cloud index, point index, coordinates), leave the other attributes alone. -/
def onPoints (g : Nat → Nat → List α → List α) (a : Clouds α) : Clouds α := fun X =>
  if X = .points then (a .points).map (mapRows g) else a X

/-- Apply `g` to every point and every normal. -/
def onPointsNormals (g : Nat → Nat → List α → List α) (a : Clouds α) : Clouds α := fun X =>
  if X = .points ∨ X = .normals then (a X).map (mapRows g) else a X

end
end Verif.Pcs
