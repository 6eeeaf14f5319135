import Verif.Rgbd.Shapes
import Verif.Rgbd.Props
/-!
Concrete cases for C104: accepted and refused arguments, and an object after layout changes, a failing and a successful assignment, and indexing.
-/
namespace Verif.Rgbd
open Verif

/-- Documented arguments exist in both layouts, and near misses are refused: an image in the other layout, one pose too few, intrinsics per frame. -/
theorem witness_args :
    Documented false [2, 3, 5, 7, 3] [2, 3, 5, 7, 1] [2, 1, 4, 4] (some [2, 3, 4, 4]) (some [2, 3, 5, 7, 3]) ∧
    Documented true [2, 3, 3, 5, 7] [2, 3, 1, 5, 7] [2, 1, 4, 4] none (some [2, 3, 5, 7, 3]) ∧
    checkArgs true [2, 3, 5, 7, 3] [2, 3, 5, 7, 1] [2, 1, 4, 4] none none = .error .valueError ∧
    checkArgs false [2, 3, 5, 7, 3] [2, 3, 5, 7, 1] [2, 1, 4, 4] (some [2, 2, 4, 4]) none = .error .valueError ∧
    checkArgs false [2, 3, 5, 7, 3] [2, 3, 5, 7, 1] [2, 3, 4, 4] none none = .error .valueError ∧
    checkArgs false [3, 5, 7, 3] [3, 5, 7, 1] [1, 4, 4] none none = .error .valueError :=
  ⟨⟨2, 3, 5, 7, rfl, rfl, rfl, Or.inr rfl, Or.inr rfl⟩, ⟨2, 3, 5, 7, rfl, rfl, rfl, Or.inl rfl, Or.inr rfl⟩, rfl, rfl, rfl, rfl⟩

/-- An object converted to channels first in place, given a depth image in the old layout (refused) and one in the new layout (accepted), whose maps
were read, and which was then indexed to one frame and converted back in a copy. -/
theorem witness_had : ∃ s o : Obj ℚ, Had nrm1 0 s ∧ s.cf = true ∧ s.depth.sh.list = [1, 2, 1, 2, 2] ∧ s.depth.at' 0 0 0 0 0 = 9 ∧
    Had nrm1 0 o ∧ o.cf = false ∧ (o.B, o.L, o.H, o.W) = (1, 1, 2, 2) ∧ o.rgb.sh.list = [1, 1, 2, 2, 3] := by
  have h0 := Had.new (nrm := nrm1) (eps := (0 : ℚ)) obj0_new
  have h1 := Had.toFirst_ h0
  have h2 := Had.setDepth (⟨⟨1, 2, 2, 2, 1⟩, fun _ _ _ _ _ => 7⟩ : T5 ℚ) h1
  have h3 := Had.setDepth (⟨⟨1, 2, 1, 2, 2⟩, fun _ _ _ _ _ => 9⟩ : T5 ℚ) h2
  have h4 := Had.getitem (o := _) (.tup [.int 0, .int 1]) h3 rfl
  have h5 := Had.toLast (o := _) true h4 rfl
  exact ⟨_, _, h3, rfl, rfl, rfl, h5, rfl, rfl, rfl⟩
end Verif.Rgbd
