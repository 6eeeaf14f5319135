import Verif.Geom.Props
/-! Property C18 for whole clouds of pixels. -/
namespace Verif.Geom
variable {α : Type*} [Field α] [LinearOrder α] [IsStrictOrderedRing α]

/-- **C18 (e)**. `unproject_points` on a cloud demands one depth per pixel (ValueError otherwise) and returns one point per pixel, each made from
its own pixel and depth. -/
theorem unproject_points_cloud (Kinv : M3 α) (pxs : List ((α × α) ⊕ V3 α)) (depths : List α) :
    (pxs.length ≠ depths.length → unprojectPoints Kinv pxs depths = .error .valueError) ∧
    (pxs.length = depths.length → ∃ out, unprojectPoints Kinv pxs depths = .ok out ∧ out.length = pxs.length ∧
      ∀ (n : Nat) (px : (α × α) ⊕ V3 α) (d : α), pxs[n]? = some px → depths[n]? = some d → out[n]? = some (unprojectPoint Kinv px d)) := by
  constructor
  · intro h; simp [unprojectPoints, h]
  · intro h
    refine ⟨_, by simp only [unprojectPoints, h, ne_eq, not_true, if_false]; rfl, by simp [h], fun n px d h1 h2 => ?_⟩
    simp [List.getElem?_zipWith, h1, h2]

/-- **C18 (f)**. Projecting a cloud and unprojecting the pixels with the depths of the points gives the cloud back. -/
theorem unproject_project_cloud (fx fy cx cy skew : α) (Kinv : M3 α) (hK : Kinv.mul (pinhole fx fy cx cy skew) = M3.one) (cloud : List (V3 α))
    (hz : ∀ X ∈ cloud, X.z ≠ 0) :
    ∃ pxs, projectPoints (.inr [cameraMatrix (pinhole fx fy cx cy skew)]) [cloud.map .inl] = .ok [pxs] ∧
      unprojectPoints Kinv (pxs.map .inl) (cloud.map V3.z) = .ok cloud := by
  refine ⟨cloud.map fun X => projectPoint (cameraMatrix (pinhole fx fy cx cy skew)) (.inl X), by simp [projectPoints, Function.comp_def], ?_⟩
  rw [unprojectPoints, if_neg (by simp)]
  congr 1
  rw [List.map_map, List.zipWith_map]
  refine List.ext_getElem (by simp) fun n h1 h2 => ?_
  simp only [List.getElem_zipWith, Function.comp_apply]
  exact unproject_project fx fy cx cy skew Kinv hK _ (hz _ (List.getElem_mem h2))

/-- Witness: a camera and a cloud of two points. -/
example : (⟨⟨1/2, 0, -1/2⟩, ⟨0, 1/4, -3/4⟩, ⟨0, 0, 1⟩⟩ : M3 ℚ).mul (pinhole 2 4 1 3 0) = M3.one ∧ ∀ X ∈ [(⟨1, 2, 5⟩ : V3 ℚ), ⟨0, 1, -1⟩], X.z ≠ 0 := by
  refine ⟨?_, ?_⟩
  · ext <;> norm_num [pinhole, M3.mul, M3.one, V3.dot, M3.c0, M3.c1, M3.c2]
  · simp

end Verif.Geom
