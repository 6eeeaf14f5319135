import Verif.Rgbd.Model
/-!
Specification of a batch of RGB-D sequences, independent of caches and memory layout: the inputs, and the maps derived from them.
-/
namespace Verif.Rgbd
open Verif

/-- The current inputs of an object: sizes, colour and depth of every pixel, intrinsics per batch element, optional pose per frame,
homogeneous pixel coordinates. -/
@[ext] structure In (α : Type*) where
  B : Nat
  L : Nat
  H : Nat
  W : Nat
  rgb : Nat → Nat → Nat → Nat → V3 α
  depth : Nat → Nat → Nat → Nat → α
  K : Nat → M4 α
  poses : Option (Nat → Nat → M4 α)
  pix : Nat → Nat → Nat → Nat → V3 α

section
variable {α : Type*} [Field α] [LinearOrder α]

/-- Back-projection of a pixel: depth times the ray through it. -/
def backproj (eps : α) (K : M4 α) (p : V3 α) (d : α) : V3 α :=
  ⟨d * ((p.x - K.R.r0.z * p.z) / (K.R.r0.x + eps)), d * ((p.y - K.R.r1.z * p.z) / (K.R.r1.y + eps)), d * p.z⟩

/-- Local vertex: zero where the depth is missing. -/
def vertexAt (eps : α) (i : In α) (b l h w : Nat) : V3 α :=
  if 0 < i.depth b l h w then backproj eps (i.K b) (i.pix b l h w) (i.depth b l h w) else V3.zero

/-- Vertex in the world frame. -/
def gvertexAt (eps : α) (i : In α) (b l h w : Nat) : V3 α :=
  match i.poses with
  | none => vertexAt eps i b l h w
  | some P => if 0 < i.depth b l h w then ((P b l).R.mulVec (vertexAt eps i b l h w)).add (P b l).t else V3.zero

/-- Forward neighbour pairs: the last position uses the pair before it. -/
def fwd (n k : Nat) : Nat := if k + 1 = n then k - 1 else k

/-- A vector divided by its length (left alone if the length is zero). -/
def unit (nrm : V3 α → α) (n : V3 α) : V3 α := if nrm n = 0 then n else ⟨n.x / nrm n, n.y / nrm n, n.z / nrm n⟩

/-- The tangent to the right and the tangent downwards. -/
def tanW (eps : α) (i : In α) (b l h w : Nat) : V3 α :=
  (vertexAt eps i b l h (fwd i.W w + 1)).sub (vertexAt eps i b l h (fwd i.W w))
def tanH (eps : α) (i : In α) (b l h w : Nat) : V3 α :=
  (vertexAt eps i b l (fwd i.H h + 1) w).sub (vertexAt eps i b l (fwd i.H h) w)

/-- Local normal. -/
def normalAt (nrm : V3 α → α) (eps : α) (i : In α) (b l h w : Nat) : V3 α :=
  if 0 < i.depth b l h w then unit nrm ((tanW eps i b l h w).cross (tanH eps i b l h w)) else V3.zero

/-- Normal in the world frame. -/
def gnormalAt (nrm : V3 α → α) (eps : α) (i : In α) (b l h w : Nat) : V3 α :=
  match i.poses with
  | none => normalAt nrm eps i b l h w
  | some P => (P b l).R.mulVec (normalAt nrm eps i b l h w)

/-- The tensor, in the given layout, with these pixel values. -/
def image (cf : Bool) (i : In α) (f : Nat → Nat → Nat → Nat → V3 α) : T5 α :=
  mk5 cf i.B i.L i.H i.W 3 fun b l h w c => Pcs.comp (f b l h w) c

/-- The inputs of the selected frames. -/
def In.sel (is js : List Nat) (i : In α) : In α :=
  { i with
    B := is.length, L := js.length
    rgb := fun b l => i.rgb (is.getD b 0) (js.getD l 0)
    depth := fun b l => i.depth (is.getD b 0) (js.getD l 0)
    K := fun b => i.K (is.getD b 0)
    poses := i.poses.map fun P b l => P (is.getD b 0) (js.getD l 0)
    pix := fun b l => i.pix (is.getD b 0) (js.getD l 0) }
end
end Verif.Rgbd
