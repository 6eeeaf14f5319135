import Verif.Fusion.Update
/-!
What the fusion functions read from an `RGBDImages` object is the record `Frame.ofIn` of its inputs.
-/
namespace Verif.Fusion
open Verif
set_option linter.unusedSectionVars false

section
variable {α : Type*} [Field α] [LinearOrder α]

/-- Reading everything the functions of `fusionutils.py` use from a frame object (each function reads a part of it; reading only fills
caches).  Pixels are indexed channels-last, as the functions do (`[b, 0, h, w]`). -/
def readFrame (nrm : V3 α → α) (eps : α) (s : Rgbd.Obj α) : Except Rgbd.Err (Frame α) × Rgbd.Obj α :=
  match Rgbd.getGVertex eps s with
  | (.error e, s) => (.error e, s)
  | (.ok gv, s) => match Rgbd.getGNormal nrm eps s with
    | (.error e, s) => (.error e, s)
    | (.ok gn, s) => match Rgbd.getVertex eps s with
      | (.error e, s) => (.error e, s)
      | (.ok v, s) => match Rgbd.getNormal nrm eps s with
        | (.error e, s) => (.error e, s)
        | (.ok n, s) =>
          let (m, s) := Rgbd.getValid s
          (.ok ⟨s.B, s.L, s.H, s.W, Rgbd.px3 false gv, Rgbd.px3 false gn, Rgbd.px3 false v, Rgbd.px3 false n, Rgbd.px3 false s.rgb,
            fun b l h w => m.at' b l h w 0, s.poses.map Rgbd.TM.at', fun b => s.K.at' b 0⟩, s)

/-- For every channels-last object in a state reachable by the public API (`Rep` is the invariant of histories, `Rgbd.hist_rep`) with images
of at least 2×2 pixels, the reads succeed and give exactly `Frame.ofIn` of the object's current inputs; the object is only changed in its
caches. -/
theorem readFrame_spec {nrm : V3 α → α} {eps : α} {s : Rgbd.Obj α} {i : Rgbd.In α} (r : Rgbd.Rep nrm eps s i) (hc : s.cf = false)
    (hH : 2 ≤ i.H) (hW : 2 ≤ i.W) :
    ∃ s', readFrame nrm eps s = (.ok (Frame.ofIn nrm eps i), s') ∧ Rgbd.Rep nrm eps s' i ∧ Rgbd.Same s s' := by
  have h22 : ∀ t : Rgbd.T5 α, Rgbd.needs22 i t = .ok t := by
    intro t; rw [Rgbd.needs22, if_neg (by omega)]
  obtain ⟨a1, a2, a3⟩ := Rgbd.getGVertex_rep r
  cases hg1 : Rgbd.getGVertex eps s with
  | mk o1 s1 =>
    rw [hg1] at a1 a2 a3
    simp only at a1 a2 a3
    obtain ⟨b1, b2, b3⟩ := Rgbd.getGNormal_rep a2
    cases hg2 : Rgbd.getGNormal nrm eps s1 with
    | mk o2 s2 =>
      rw [hg2] at b1 b2 b3
      simp only at b1 b2 b3
      obtain ⟨c1, c2, c3⟩ := Rgbd.getVertex_rep b2
      cases hg3 : Rgbd.getVertex eps s2 with
      | mk o3 s3 =>
        rw [hg3] at c1 c2 c3
        simp only at c1 c2 c3
        obtain ⟨d1, d2, d3⟩ := Rgbd.getNormal_rep c2
        cases hg4 : Rgbd.getNormal nrm eps s3 with
        | mk o4 s4 =>
          rw [hg4] at d1 d2 d3
          simp only at d1 d2 d3
          obtain ⟨_, e2, e3, _⟩ := Rgbd.getValid_rep d2
          have e4 := Rgbd.getValid_same s4
          have same := (((a3.trans b3).trans c3).trans d3)
          have cf1 : s1.cf = false := a3.cf.trans hc
          have cf2 : s2.cf = false := b3.cf.trans cf1
          have cf3 : s3.cf = false := c3.cf.trans cf2
          have cf4 : s4.cf = false := d3.cf.trans cf3
          have cf5 : (Rgbd.getValid s4).2.cf = false := e4.cf.trans cf4
          refine ⟨(Rgbd.getValid s4).2, ?_, e3, same.trans e4⟩
          rw [h22] at b1 d1
          rw [hc] at a1; rw [cf1] at b1; rw [cf2] at c1; rw [cf3] at d1
          subst a1; subst b1; subst c1; subst d1
          simp only [readFrame, hg1, hg2, hg3, hg4]
          simp only [Frame.ofIn, Prod.mk.injEq, Except.ok.injEq, and_true, Frame.mk.injEq]
          have hrgb := e3.rgb
          rw [cf5] at hrgb
          have hval := e2
          rw [cf4] at hval
          refine ⟨e3.hB, e3.hL, e3.hH, e3.hW, ?_, ?_, ?_, ?_, ?_, ?_, e3.poses, ?_⟩
          · funext b l h w; exact Rgbd.px3_image false i _ b l h w
          · funext b l h w; exact Rgbd.px3_image false i _ b l h w
          · funext b l h w; exact Rgbd.px3_image false i _ b l h w
          · funext b l h w; exact Rgbd.px3_image false i _ b l h w
          · funext b l h w; exact hrgb b l h w
          · funext b l h w
            have := hval b l h w
            simpa [Rgbd.chan] using this
          · funext b; exact e3.K b
end
end Verif.Fusion
