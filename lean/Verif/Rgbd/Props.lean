import Verif.Rgbd.Hist
import Verif.Geom.Props
import Verif.PC.Idx
import Mathlib.Analysis.SpecialFunctions.Sqrt
/-!
Properties C43 - C46 of `RGBDImages`.
-/
namespace Verif.Rgbd
open Verif
set_option linter.unusedSectionVars false
set_option linter.unusedSimpArgs false

section
variable {α : Type*} [Field α] [LinearOrder α] [IsStrictOrderedRing α]
variable {nrm : V3 α → α} {eps : α}

/-! ### C43 -/

/-- C43 (vertices).  For every object in every history: `vertex_map` and `global_vertex_map` succeed, have the shape of the images; at a
pixel with positive depth `d` the vertex is the back-projection of the pixel and the global vertex its rigid transform by the pose (the
vertex itself without poses); at every other pixel both are zero. -/
theorem vertex_maps_spec {s : Obj α} {i : In α} {k : Bool} (h : Hist nrm eps s i k) :
    ∃ v g, (getVertex eps s).1 = .ok v ∧ (getGVertex eps s).1 = .ok g ∧
      v.sh = dims5 s.cf i.B i.L i.H i.W 3 ∧ g.sh = dims5 s.cf i.B i.L i.H i.W 3 ∧
      ∀ b l h w,
        (0 < i.depth b l h w →
          chan s.cf v b l h w 0 = i.depth b l h w * (((i.pix b l h w).x - (i.K b).R.r0.z * (i.pix b l h w).z) / ((i.K b).R.r0.x + eps)) ∧
          chan s.cf v b l h w 1 = i.depth b l h w * (((i.pix b l h w).y - (i.K b).R.r1.z * (i.pix b l h w).z) / ((i.K b).R.r1.y + eps)) ∧
          chan s.cf v b l h w 2 = i.depth b l h w * (i.pix b l h w).z ∧
          (∀ P, i.poses = some P → px3 s.cf g b l h w = ((P b l).R.mulVec (px3 s.cf v b l h w)).add (P b l).t) ∧
          (i.poses = none → px3 s.cf g b l h w = px3 s.cf v b l h w)) ∧
        (i.depth b l h w ≤ 0 → px3 s.cf v b l h w = V3.zero ∧ px3 s.cf g b l h w = V3.zero) := by
  obtain ⟨r, _⟩ := hist_rep h
  refine ⟨_, _, (getVertex_rep r).1, (getGVertex_rep r).1, rfl, rfl, ?_⟩
  intro b l h w
  simp only [px3_image]
  constructor
  · intro hd
    simp only [image, chan_mk5, Pcs.comp, vertexAt, if_pos hd, backproj, true_and]
    constructor
    · intro P hP; simp [gvertexAt, hP, hd, vertexAt, backproj]
    · intro hP; simp [gvertexAt, hP, vertexAt, hd, backproj]
  · intro hd
    have hd' : ¬ 0 < i.depth b l h w := not_lt.mpr hd
    refine ⟨by simp [vertexAt, hd'], ?_⟩
    cases hp : i.poses <;> simp [gvertexAt, hp, hd', vertexAt]

/-- C43 (pixel grid).  Without user-supplied pixel positions the pixel coordinates are (column, row, 1). -/
theorem default_pixels {rgb depth : T5 α} {K : TM α} {poses : Option (TM α)} {cf : Bool} {s : Obj α}
    (_ : new rgb depth K poses cf none = .ok s) (b l h w : Nat)
    (hh : h < (inputsOf rgb depth K poses cf none).H) (hw : w < (inputsOf rgb depth K poses cf none).W) :
    (inputsOf rgb depth K poses cf none).pix b l h w = ⟨(w : α), (h : α), 1⟩ := by
  have key : ∀ n k : Nat, k < n → Geom.linspace (0 : α) ((n : α) - 1) n k = k := by
    intro n k hk
    unfold Geom.linspace
    by_cases h1 : n = 1
    · have : k = 0 := by omega
      simp [h1, this]
    · have : (n : α) - 1 ≠ 0 := by
        have : (n : α) ≠ 1 := by exact_mod_cast h1
        exact sub_ne_zero.mpr this
      rw [if_neg h1]; field_simp; ring
  simp only [inputsOf, Option.getD_none, px3, chan, meshPix, Geom.meshgrid] at hh hw ⊢
  have e1 := key _ _ hh
  have e2 := key _ _ hw
  exact V3.ext (by simpa using e2) (by simpa using e1) (by simp)

/-- C43 (re-projection).  A back-projected pixel projects back with a relative error `eps / (f + eps)`, exactly for `eps = 0`. -/
theorem backproj_reprojects (K : M4 α) (u v d : α) (hd : 0 < d) (hx : K.R.r0.x + eps ≠ 0) (hy : K.R.r1.y + eps ≠ 0) :
    let p := backproj eps K ⟨u, v, 1⟩ d
    p.z = d ∧
    K.R.r0.x * p.x / p.z + K.R.r0.z = u - eps / (K.R.r0.x + eps) * (u - K.R.r0.z) ∧
    K.R.r1.y * p.y / p.z + K.R.r1.z = v - eps / (K.R.r1.y + eps) * (v - K.R.r1.z) := by
  have hd' : d ≠ 0 := ne_of_gt hd
  simp only [backproj]
  refine ⟨by ring, ?_, ?_⟩
  · field_simp; ring
  · field_simp; ring

/-- C43 (normals).  For every object in every history with at least two rows and columns: `normal_map` and `global_normal_map` succeed;
at a pixel with positive depth the normal is the normalised cross product of the tangent to the right and the tangent downwards, where
the last column (row) uses the tangent of the one before, and the global normal is the rotated normal; elsewhere both are zero. -/
theorem normal_maps_spec {s : Obj α} {i : In α} {k : Bool} (h : Hist nrm eps s i k) (hH : 2 ≤ i.H) (hW : 2 ≤ i.W) :
    ∃ v n g, (getVertex eps s).1 = .ok v ∧ (getNormal nrm eps s).1 = .ok n ∧ (getGNormal nrm eps s).1 = .ok g ∧
      n.sh = dims5 s.cf i.B i.L i.H i.W 3 ∧ g.sh = dims5 s.cf i.B i.L i.H i.W 3 ∧
      ∀ b l h w, h < i.H → w < i.W →
        (0 < i.depth b l h w →
          px3 s.cf n b l h w = unit nrm (V3.cross
            ((px3 s.cf v b l h (min w (i.W - 2) + 1)).sub (px3 s.cf v b l h (min w (i.W - 2))))
            ((px3 s.cf v b l (min h (i.H - 2) + 1) w).sub (px3 s.cf v b l (min h (i.H - 2)) w)))) ∧
        (i.depth b l h w ≤ 0 → px3 s.cf n b l h w = V3.zero) ∧
        (∀ P, i.poses = some P → px3 s.cf g b l h w = (P b l).R.mulVec (px3 s.cf n b l h w)) ∧
        (i.poses = none → px3 s.cf g b l h w = px3 s.cf n b l h w) ∧
        (i.depth b l h w ≤ 0 → px3 s.cf g b l h w = V3.zero) := by
  obtain ⟨r, _⟩ := hist_rep h
  have hs : ¬ (i.H < 2 ∨ i.W < 2) := by omega
  have e1 := (getNormal_rep r).1
  have e2 := (getGNormal_rep r).1
  rw [needs22, if_neg hs] at e1 e2
  refine ⟨_, _, _, (getVertex_rep r).1, e1, e2, rfl, rfl, ?_⟩
  intro b l h w hh hw
  simp only [px3_image]
  have f1 : fwd i.W w = min w (i.W - 2) := by unfold fwd; split_ifs <;> omega
  have f2 : fwd i.H h = min h (i.H - 2) := by unfold fwd; split_ifs <;> omega
  refine ⟨?_, ?_, ?_, ?_, ?_⟩
  · intro hd
    simp only [normalAt, if_pos hd, tanW, tanH, f1, f2]
  · intro hd
    simp [normalAt, not_lt.mpr hd]
  · intro P hP; simp [gnormalAt, hP]
  · intro hP; simp [gnormalAt, hP]
  · intro hd
    cases hp : i.poses <;> simp [gnormalAt, hp, normalAt, not_lt.mpr hd, M3.mulVec, V3.dot, V3.zero]

/-- `nrm` is the Euclidean norm. -/
def IsNorm (nrm : V3 α → α) : Prop := ∀ v, 0 ≤ nrm v ∧ nrm v * nrm v = v.dot v

/-- C43 (normals are unit vectors orthogonal to the surface tangents, or zero). -/
theorem normal_unit_orthogonal (hn : IsNorm nrm) (a c : V3 α) :
    let n := unit nrm (a.cross c)
    (n = V3.zero ∧ a.cross c = V3.zero ∨ n.dot n = 1) ∧ n.dot a = 0 ∧ n.dot c = 0 := by
  intro n
  obtain ⟨h0, h1⟩ := hn (a.cross c)
  by_cases hz : nrm (a.cross c) = 0
  · have hv : a.cross c = V3.zero := by
      rw [hz] at h1
      simp only [V3.dot, mul_zero] at h1
      have hx := mul_self_nonneg (a.cross c).x
      have hy := mul_self_nonneg (a.cross c).y
      have hzz := mul_self_nonneg (a.cross c).z
      have e1 : (a.cross c).x = 0 := mul_self_eq_zero.mp (by linarith)
      have e2 : (a.cross c).y = 0 := mul_self_eq_zero.mp (by linarith)
      have e3 : (a.cross c).z = 0 := mul_self_eq_zero.mp (by linarith)
      ext <;> simp [e1, e2, e3, V3.zero]
    have : n = V3.zero := by simp only [n, unit, hz, if_true]; exact hv
    rw [this]
    exact ⟨Or.inl ⟨rfl, hv⟩, by simp [V3.dot, V3.zero], by simp [V3.dot, V3.zero]⟩
  · have e : n = ⟨(a.cross c).x / nrm (a.cross c), (a.cross c).y / nrm (a.cross c), (a.cross c).z / nrm (a.cross c)⟩ := by
      simp [n, unit, hz]
    rw [e]
    refine ⟨Or.inr ?_, ?_, ?_⟩
    · simp only [V3.dot] at h1 ⊢
      field_simp
      linear_combination -h1
    · simp only [V3.dot, V3.cross]; field_simp; ring
    · simp only [V3.dot, V3.cross]; field_simp; ring

/-- C43.  An image with a single row or column has no normals: both normal getters raise IndexError. -/
theorem normal_needs_two {s : Obj α} {i : In α} {k : Bool} (h : Hist nrm eps s i k) (hs : i.H < 2 ∨ i.W < 2) :
    (getNormal nrm eps s).1 = .error .indexError ∧ (getGNormal nrm eps s).1 = .error .indexError := by
  obtain ⟨r, _⟩ := hist_rep h
  rw [(getNormal_rep r).1, (getGNormal_rep r).1, needs22, needs22, if_pos hs, if_pos hs]
  exact ⟨rfl, rfl⟩

/-! ### C44 -/

/-- Two objects return the same five derived maps, or raise the same errors (the mask is compared where it is defined). -/
def SameDerived (nrm : V3 α → α) (eps : α) (s s' : Obj α) : Prop :=
  (getVertex eps s).1 = (getVertex eps s').1 ∧ (getNormal nrm eps s).1 = (getNormal nrm eps s').1 ∧
  (getGVertex eps s).1 = (getGVertex eps s').1 ∧ (getGNormal nrm eps s).1 = (getGNormal nrm eps s').1 ∧
  (getValid s).1.sh = (getValid s').1.sh ∧
  ∀ b l h w, chan s.cf (getValid s).1 b l h w 0 = chan s'.cf (getValid s').1 b l h w 0

/-- C44.  Whatever was read and assigned before, the derived maps are those of an object freshly constructed from the current inputs.
Partial: assigning the depth and converting the layout in place are only covered while nothing derived has been read; without that the
property is false (`stale_mask_after_depth`, `stale_mask_after_layout`). -/
theorem derived_maps_fresh_partial {s s' : Obj α} {i : In α} {k : Bool} (h : Hist nrm eps s i k)
    {rgb depth : T5 α} {K : TM α} {poses : Option (TM α)} {pix : Option (T5 α)}
    (hn : new rgb depth K poses s.cf pix = .ok s') (hi : inputsOf rgb depth K poses s.cf pix = i) :
    SameDerived nrm eps s s' := by
  obtain ⟨r, _⟩ := hist_rep h
  have r' : Rep nrm eps s' i := hi ▸ new_rep hn
  have hc : s'.cf = s.cf := by obtain ⟨_, _, _, _, _, rfl⟩ := new_ok hn; rfl
  refine ⟨?_, ?_, ?_, ?_, ?_, ?_⟩
  · rw [(getVertex_rep r).1, (getVertex_rep r').1, hc]
  · rw [(getNormal_rep r).1, (getNormal_rep r').1, hc]
  · rw [(getGVertex_rep r).1, (getGVertex_rep r').1, hc]
  · rw [(getGNormal_rep r).1, (getGNormal_rep r').1, hc]
  · rw [(getValid_rep r).1, (getValid_rep r').1, hc]
  · intro b l h w
    rw [(getValid_rep r).2.1, (getValid_rep r').2.1]

/-- The current inputs of an object are readable and can always be used to construct the fresh object that
`derived_maps_fresh_partial` compares with. -/
theorem fresh_exists {s : Obj α} {i : In α} {k : Bool} (h : Hist nrm eps s i k) :
    ∃ s', new s.rgb s.depth s.K s.poses s.cf s.pix = .ok s' ∧ inputsOf s.rgb s.depth s.K s.poses s.cf s.pix = i := by
  obtain ⟨r, _⟩ := hist_rep h
  have hsz : s.rgb.sh.d0 = i.B ∧ s.rgb.sh.d1 = i.L ∧ (if s.cf then s.rgb.sh.d3 else s.rgb.sh.d2) = i.H ∧
      (if s.cf then s.rgb.sh.d4 else s.rgb.sh.d3) = i.W := by
    rw [r.rgbSh]; cases s.cf <;> simp [dims5]
  have p1 : ¬ (!Pcs.okOpt s.poses (fun p => decide ((p.d0, p.d1) = (s.rgb.sh.d0, s.rgb.sh.d1)))) = true := by
    cases hp : s.poses with
    | none => simp [Pcs.okOpt]
    | some p => simp [Pcs.okOpt, r.posesSh p hp, hsz.1, hsz.2.1]
  have p2 : ¬ (!Pcs.okOpt s.pix (fun p => decide (p.sh = s.rgb.sh.pixShape s.cf))) = true := by
    cases hp : s.pix with
    | none => simp [Pcs.okOpt]
    | some p =>
      simp only [Pcs.okOpt, r.pixSh p hp, r.rgbSh]
      cases s.cf <;> simp [dims5, Shape5.pixShape]
  constructor
  · constructor
    · unfold new
      rw [if_neg (by rw [r.rgbSh]; cases s.cf <;> simp [dims5, Shape5.chans]),
        if_neg (by rw [r.rgbSh, r.depthSh]; cases s.cf <;> simp [dims5, Shape5.setC]),
        if_neg (by rw [r.KSh.1, r.KSh.2, hsz.1]; simp), if_neg p1, if_neg p2]
    · unfold inputsOf
      have h1 : px3 s.cf s.rgb = i.rgb := by funext b l h w; exact r.rgb b l h w
      have h2 : (fun b l h w => chan s.cf s.depth b l h w 0) = i.depth := by funext b l h w; exact r.depth b l h w
      have h3 : (fun b => s.K.at' b 0) = i.K := by funext b; exact r.K b
      have h4 := r.pix
      unfold pixOf at h4
      rw [r.hB, r.hL, r.hH, r.hW] at h4
      rw [hsz.1, hsz.2.1, hsz.2.2.1, hsz.2.2.2, h1, h2, h3, r.poses, h4]

/-- C44.  A failing assignment changes nothing. -/
theorem failed_assignment_changes_nothing (s : Obj α) :
    (∀ v e s', setRgb v s = (.error e, s') → s' = s) ∧ (∀ v e s', setDepth v s = (.error e, s') → s' = s) ∧
    (∀ v e s', setK v s = (.error e, s') → s' = s) ∧ (∀ v e s', setPoses v s = (.error e, s') → s' = s) := by
  refine ⟨?_, ?_, ?_, ?_⟩ <;> intro v e s' h
  · unfold setRgb at h; split_ifs at h <;> simp_all
  · unfold setDepth at h
    cases hd : s.depthImageShape with
    | none => simp [hd] at h; exact h.2.symm
    | some sh => rw [hd] at h; simp only at h; split_ifs at h <;> simp_all
  · unfold setK at h; split_ifs at h <;> simp_all
  · unfold setPoses at h; split_ifs at h <;> simp_all

/-- C44.  Assigning poses, intrinsics or colours of the right shape always succeeds, of a wrong shape always raises ValueError. -/
theorem assignment_succeeds_iff_shape {s : Obj α} {i : In α} {k : Bool} (h : Hist nrm eps s i k) :
    (∀ v, (setRgb v s).1 = if v.sh = s.rgb.sh then .ok () else .error .valueError) ∧
    (∀ v, (setK v s).1 = if v.d0 = i.B ∧ v.d1 = 1 then .ok () else .error .valueError) ∧
    (∀ p, (setPoses (some p) s).1 = if p.d0 = i.B ∧ p.d1 = i.L then .ok () else .error .valueError) := by
  obtain ⟨r, _⟩ := hist_rep h
  refine ⟨?_, ?_, ?_⟩ <;> intro v
  · unfold setRgb; rw [r.rgbShape]; split_ifs <;> simp_all
  · unfold setK; rw [r.hB]; split_ifs <;> simp_all
  · unfold setPoses; rw [r.hB, r.hL]
    by_cases hv : v.d0 = i.B ∧ v.d1 = i.L
    · simp [Pcs.okOpt, hv]
    · rw [if_neg hv, if_pos (by rw [not_and_or] at hv; simpa [Pcs.okOpt] using hv)]

/-- C44 (what fails).  On an object that has not had its layout converted, assigning `depth_image` raises AttributeError, whatever the
value: the setter reads a field that the constructor does not create. -/
theorem depth_setter_broken {rgb depth : T5 α} {K : TM α} {poses : Option (TM α)} {cf : Bool} {pix : Option (T5 α)} {s : Obj α}
    (h : new rgb depth K poses cf pix = .ok s) (v : T5 α) : (setDepth v s).1 = .error .attributeError := by
  obtain ⟨_, _, _, _, _, rfl⟩ := new_ok h
  rfl

/-! ### C45 -/

/-- Everything a user can read from an object. -/
structure SameReads (nrm : V3 α → α) (eps : α) (s s' : Obj α) : Prop where
  cf : s'.cf = s.cf
  rgb : s'.rgb = s.rgb
  depth : s'.depth = s.depth
  K : s'.K = s.K
  poses : s'.poses = s.poses
  derived : SameDerived nrm eps s s'

theorem sameDerived_of_rep {s s' : Obj α} {i : In α} (r : Rep nrm eps s i) (r' : Rep nrm eps s' i) (hc : s'.cf = s.cf) :
    SameDerived nrm eps s s' := by
  refine ⟨?_, ?_, ?_, ?_, ?_, ?_⟩
  · rw [(getVertex_rep r).1, (getVertex_rep r').1, hc]
  · rw [(getNormal_rep r).1, (getNormal_rep r').1, hc]
  · rw [(getGVertex_rep r).1, (getGVertex_rep r').1, hc]
  · rw [(getGNormal_rep r).1, (getGNormal_rep r').1, hc]
  · rw [(getValid_rep r).1, (getValid_rep r').1, hc]
  · intro b l h w
    rw [(getValid_rep r).2.1, (getValid_rep r').2.1]

/-- C45.  `clone` returns an object from which the same things are read. -/
theorem clone_same_reads {s : Obj α} {i : In α} {k : Bool} (h : Hist nrm eps s i k) :
    ∃ o, clone s = .ok o ∧ SameReads nrm eps s o := by
  obtain ⟨r, _⟩ := hist_rep h
  obtain ⟨o, ho, ro, _, h1, h2, h3, h4, h5⟩ := clone_rep r
  exact ⟨o, ho, h1, h2, h3, h4, h5, sameDerived_of_rep r ro h1⟩

/-- C45.  `to_channels_first` moves element `(b,l,h,w,c)` to `(b,l,c,h,w)` in the colour image, the depth image, the vertex maps, the
normal maps and the mask, keeps poses and intrinsics, and does not change the object it is called on. -/
theorem to_channels_first_permutes {s : Obj α} {i : In α} {k : Bool} (h : Hist nrm eps s i k) (hl : s.cf = false) (c : Bool) :
    ∃ o, toFirst c s = .ok o ∧ o.cf = true ∧ o.K = s.K ∧ o.poses = s.poses ∧
      (o.rgb.sh = ⟨i.B, i.L, 3, i.H, i.W⟩ ∧ ∀ b l h w c, o.rgb.at' b l c h w = s.rgb.at' b l h w c) ∧
      (o.depth.sh = ⟨i.B, i.L, 1, i.H, i.W⟩ ∧ ∀ b l h w c, o.depth.at' b l c h w = s.depth.at' b l h w c) ∧
      (getVertex eps o).1 = (getVertex eps s).1.map perm01423 ∧ (getGVertex eps o).1 = (getGVertex eps s).1.map perm01423 ∧
      (getNormal nrm eps o).1 = (getNormal nrm eps s).1.map perm01423 ∧
      (getGNormal nrm eps o).1 = (getGNormal nrm eps s).1.map perm01423 ∧
      (getValid o).1.sh = ⟨i.B, i.L, 1, i.H, i.W⟩ ∧ (∀ b l h w, (getValid o).1.at' b l 0 h w = (getValid s).1.at' b l h w 0) := by
  obtain ⟨r, _⟩ := hist_rep h
  obtain ⟨d, hd, rd, vd, h1, h2, h3, h4, h5⟩ := clone_rep r
  have hcf : d.cf = false := h1.trans hl
  have e : toFirst c s = .ok (toFirst_ d) := by
    unfold toFirst
    rw [if_neg (by simp [hl]), hd]; rfl
  obtain ⟨ro, co, _⟩ := toFirst_rep_ rd (Or.inl vd)
  have er : (toFirst_ d).rgb = perm01423 s.rgb := by simp [toFirst_, hcf, h2]
  have ed : (toFirst_ d).depth = perm01423 s.depth := by simp [toFirst_, hcf, h3]
  have eK : (toFirst_ d).K = s.K := by simp [toFirst_, hcf, h4]
  have eP : (toFirst_ d).poses = s.poses := by simp [toFirst_, hcf, h5]
  refine ⟨_, e, co, eK, eP, ⟨?_, ?_⟩, ⟨?_, ?_⟩, ?_, ?_, ?_, ?_, ?_, ?_⟩
  · have := ro.rgbSh; rw [co] at this; simpa [dims5] using this
  · intro b l h w c; rw [er]; rfl
  · have := ro.depthSh; rw [co] at this; simpa [dims5] using this
  · intro b l h w c; rw [ed]; rfl
  · rw [(getVertex_rep ro).1, (getVertex_rep r).1, co, hl]; simp [Except.map, perm_first_image]
  · rw [(getGVertex_rep ro).1, (getGVertex_rep r).1, co, hl]; simp [Except.map, perm_first_image]
  · rw [(getNormal_rep ro).1, (getNormal_rep r).1, co, hl]; simp only [needs22]; split_ifs <;> simp [Except.map, perm_first_image]
  · rw [(getGNormal_rep ro).1, (getGNormal_rep r).1, co, hl]; simp only [needs22]; split_ifs <;> simp [Except.map, perm_first_image]
  · have := (getValid_rep ro).1; rw [co] at this; simpa [dims5] using this
  · intro b l h w
    have a := (getValid_rep ro).2.1 b l h w
    have b' := (getValid_rep r).2.1 b l h w
    rw [co] at a; rw [hl] at b'
    simp only [chan, if_true] at a
    simp only [chan, Bool.false_eq_true, if_false] at b'
    rw [a, b']

/-- C45.  Converting to channels first and back returns an object from which exactly the same is read, and so does the other way round;
converting to the layout an object already has is the identity (`copy=False`) or a clone. -/
theorem channel_round_trip {s : Obj α} {i : In α} {k : Bool} (h : Hist nrm eps s i k) (c c' : Bool) :
    (s.cf = false → ∃ o o', toFirst c s = .ok o ∧ toLast c' o = .ok o' ∧ SameReads nrm eps s o') ∧
    (s.cf = true → ∃ o o', toLast c s = .ok o ∧ toFirst c' o = .ok o' ∧ SameReads nrm eps s o') ∧
    (s.cf = true → toFirst false s = .ok s) ∧ (s.cf = false → toLast false s = .ok s) ∧
    (s.cf = true → ∃ o, toFirst true s = .ok o ∧ SameReads nrm eps s o) ∧
    (s.cf = false → ∃ o, toLast true s = .ok o ∧ SameReads nrm eps s o) := by
  obtain ⟨r, _⟩ := hist_rep h
  obtain ⟨d, hd, rd, vd, h1, h2, h3, h4, h5⟩ := clone_rep r
  refine ⟨?_, ?_, ?_, ?_, ?_, ?_⟩
  · intro hl
    have hcf : d.cf = false := h1.trans hl
    obtain ⟨ro, co, vo⟩ := toFirst_rep_ rd (Or.inl vd)
    obtain ⟨f, hf, rf, vf, f1, f2, f3, f4, f5⟩ := clone_rep ro
    have e : toFirst c s = .ok (toFirst_ d) := by
      unfold toFirst; rw [if_neg (by simp [hl]), hd]; rfl
    have e' : toLast c' (toFirst_ d) = .ok (toLast_ f) := by
      unfold toLast; rw [if_neg (by simp [co]), hf]; rfl
    have hff : f.cf = true := f1.trans co
    obtain ⟨rl, cl, _⟩ := toLast_rep_ rf (Or.inl vf)
    refine ⟨_, _, e, e', cl.trans hl.symm, ?_, ?_, ?_, ?_, sameDerived_of_rep r rl (cl.trans hl.symm)⟩
    · simp [toLast_, hff, f2, toFirst_, hcf, h2, perm01342, perm01423]
    · simp [toLast_, hff, f3, toFirst_, hcf, h3, perm01342, perm01423]
    · simp [toLast_, hff, f4, toFirst_, hcf, h4]
    · simp [toLast_, hff, f5, toFirst_, hcf, h5]
  · intro hl
    have hcf : d.cf = true := h1.trans hl
    obtain ⟨ro, co, vo⟩ := toLast_rep_ rd (Or.inl vd)
    obtain ⟨f, hf, rf, vf, f1, f2, f3, f4, f5⟩ := clone_rep ro
    have e : toLast c s = .ok (toLast_ d) := by
      unfold toLast; rw [if_neg (by simp [hl]), hd]; rfl
    have e' : toFirst c' (toLast_ d) = .ok (toFirst_ f) := by
      unfold toFirst; rw [if_neg (by simp [co]), hf]; rfl
    have hff : f.cf = false := f1.trans co
    obtain ⟨rl, cl, _⟩ := toFirst_rep_ rf (Or.inl vf)
    refine ⟨_, _, e, e', cl.trans hl.symm, ?_, ?_, ?_, ?_, sameDerived_of_rep r rl (cl.trans hl.symm)⟩
    · simp [toLast_, hff, f2, toFirst_, hcf, h2, perm01342, perm01423]
    · simp [toLast_, hff, f3, toFirst_, hcf, h3, perm01342, perm01423]
    · simp [toLast_, hff, f4, toFirst_, hcf, h4]
    · simp [toLast_, hff, f5, toFirst_, hcf, h5]
  · intro hl; simp [toFirst, hl]
  · intro hl; simp [toLast, hl]
  · intro hl
    have hcf : d.cf = true := h1.trans hl
    have e : toFirst true s = .ok d := by simp [toFirst, hd, Except.map, toFirst_, hcf]
    exact ⟨d, e, h1, h2, h3, h4, h5, sameDerived_of_rep r rd h1⟩
  · intro hl
    have hcf : d.cf = false := h1.trans hl
    have e : toLast true s = .ok d := by simp [toLast, hd, Except.map, toLast_, hcf]
    exact ⟨d, e, h1, h2, h3, h4, h5, sameDerived_of_rep r rd h1⟩

/-! ### C46 -/

theorem resolveSlice_lt {n : Nat} {a b c : Option Int} {is : List Nat} (h : resolveSlice n a b c = .ok is) : ∀ i ∈ is, i < n := by
  unfold resolveSlice at h
  simp only at h
  split_ifs at h with hs
  intro i hi
  cases h
  simp only [List.mem_map, List.mem_range] at hi
  obtain ⟨k, hk, rfl⟩ := hi
  have := Pcs.slice_elem n (c.getD 1) (by omega) a b k hk
  omega

theorem resolveInts_lt {n : Nat} : ∀ {l : List Int} {is : List Nat}, resolveInts n l = .ok is → ∀ i ∈ is, i < n := by
  intro l
  induction l with
  | nil => intro is h i hi; simp [resolveInts] at h; subst h; simp at hi
  | cons x xs ih =>
    intro is h i hi
    unfold resolveInts at h
    cases hx : resolveInt n x with
    | error e => simp [hx] at h
    | ok k =>
      rw [hx] at h
      simp only at h
      cases hr : resolveInts n xs with
      | error e => simp [hr] at h
      | ok ks =>
        rw [hr] at h
        simp only [Except.ok.injEq] at h
        subst h
        rcases List.mem_cons.1 hi with rfl | hi
        · unfold resolveInt at hx; split_ifs at hx <;> simp at hx <;> omega
        · exact ih hr i hi

theorem resolve_lt {n : Nat} {x : Ix} {is : List Nat} (h : resolve n x = .ok is) : ∀ i ∈ is, i < n := by
  cases x with
  | int i => exact resolveSlice_lt (a := some i) (b := some (i + 1)) (c := none) h
  | slice a b c => exact resolveSlice_lt h
  | list l => exact resolveInts_lt h

theorem positions_lt {B L : Nat} {idx : Index} {is js : List Nat} (h : positions B L idx = .ok (is, js)) :
    (∀ i ∈ is, i < B) ∧ ∀ j ∈ js, j < L := by
  unfold positions at h
  cases ht : twoIx idx with
  | error e => simp [ht] at h
  | ok ab =>
    obtain ⟨a, b⟩ := ab
    rw [ht] at h; simp only at h
    cases hi : resolve B a with
    | error e => simp [hi] at h
    | ok is' =>
      rw [hi] at h; simp only at h
      cases hj : resolve L b with
      | error e => simp [hj] at h
      | ok js' =>
        rw [hj] at h
        simp only [Except.ok.injEq, Prod.mk.injEq] at h
        obtain ⟨rfl, rfl⟩ := h
        exact ⟨resolve_lt hi, resolve_lt hj⟩

theorem except_map_sel {x : Except Err (T5 α)} {i : In α} {t : T5 α} (f : T5 α → T5 α) (h : x = needs22 i t) :
    x.map f = needs22 i (f t) := by
  rw [h]; unfold needs22; split_ifs <;> rfl

/-- C46.  Indexing selects the same batch positions `is` and time positions `js` (all in range) of the colour image, the depth image, the
intrinsics, the poses and all five derived maps: the derived maps of the selection are the selection of the derived maps. -/
theorem getitem_aligned {s o : Obj α} {i : In α} {k : Bool} (h : Hist nrm eps s i k) {idx : Index} (ho : getitem idx s = .ok o) :
    ∃ is js, positions i.B i.L idx = .ok (is, js) ∧ is ≠ [] ∧ js ≠ [] ∧ (∀ b ∈ is, b < i.B) ∧ (∀ l ∈ js, l < i.L) ∧
      o.cf = s.cf ∧ o.rgb = s.rgb.sel is js ∧ o.depth = s.depth.sel is js ∧ o.K = s.K.sel0 is ∧
      o.poses = s.poses.map (TM.sel is js) ∧
      (getVertex eps o).1 = (getVertex eps s).1.map (T5.sel is js) ∧ (getNormal nrm eps o).1 = (getNormal nrm eps s).1.map (T5.sel is js) ∧
      (getGVertex eps o).1 = (getGVertex eps s).1.map (T5.sel is js) ∧
      (getGNormal nrm eps o).1 = (getGNormal nrm eps s).1.map (T5.sel is js) ∧
      (∀ b l h w, chan o.cf (getValid o).1 b l h w 0 = chan s.cf (getValid s).1 (is.getD b 0) (js.getD l 0) h w 0) := by
  obtain ⟨r, _⟩ := hist_rep h
  obtain ⟨is, js, hp, h1, h2, ro, _, h3, h4, h5, h6, h7⟩ := getitem_rep r ho
  obtain ⟨l1, l2⟩ := positions_lt hp
  refine ⟨is, js, hp, h1, h2, l1, l2, h3, h4, h5, h6, h7, ?_, ?_, ?_, ?_, ?_⟩
  · rw [(getVertex_rep ro).1, (getVertex_rep r).1, h3]
    simp only [Except.map, image_sel]; rfl
  · rw [except_map_sel _ (getNormal_rep r).1, (getNormal_rep ro).1, h3, image_sel]; rfl
  · rw [(getGVertex_rep ro).1, (getGVertex_rep r).1, h3]
    simp only [Except.map, image_sel]
    congr 1
    exact image_congr fun b l h w => gvertexAt_sel i is js b l h w
  · rw [except_map_sel _ (getGNormal_rep r).1, (getGNormal_rep ro).1, h3, image_sel]
    have e : image s.cf (i.sel is js) (gnormalAt nrm eps (i.sel is js)) =
        image s.cf (i.sel is js) fun b l => gnormalAt nrm eps i (is.getD b 0) (js.getD l 0) :=
      image_congr fun b l h w => gnormalAt_sel i is js b l h w
    rw [e]; rfl
  · intro b l h w
    rw [(getValid_rep ro).2.1, (getValid_rep r).2.1]; rfl

/-- C46.  Which positions: a non-negative int below the length selects itself, a slice `a:b` with `0 ≤ a ≤ b ≤ n` selects `a, …, b-1`, the
full slice everything; an int below `-1` counts from the end; the int `-1` selects nothing. -/
theorem index_positions (n : Nat) :
    (∀ i : Nat, i < n → resolve n (.int i) = .ok [i]) ∧
    (∀ a b : Nat, a ≤ b → b ≤ n → resolve n (.slice (some a) (some b) none) = .ok (List.range' a (b - a))) ∧
    resolve n (.slice none none none) = .ok (List.range n) ∧
    (∀ i : Nat, 2 ≤ i → i ≤ n → resolve n (.int (-i)) = .ok [n - i]) ∧
    resolve n (.int (-1)) = .ok [] ∧
    (∀ i : Nat, n ≤ i → resolve n (.int i) = .ok []) := by
  have key : ∀ lo hi : Nat, lo ≤ hi → (List.range (Pcs.rangeLen lo hi 1)).map (fun k : Nat => ((lo : Int) + (k : Int) * 1).toNat) =
      List.range' lo (hi - lo) := by
    intro lo hi hle
    have : Pcs.rangeLen lo hi 1 = hi - lo := by
      unfold Pcs.rangeLen
      simp only [Int.reduceLT, if_true]
      split_ifs <;> omega
    rw [this, List.range'_eq_map_range]
    apply List.map_congr_left
    intro k _
    omega
  have gen : ∀ (a b : Option Int) (lo hi : Nat), Pcs.sliceLo n 1 a = lo → Pcs.sliceHi n 1 b = hi → lo ≤ hi →
      resolveSlice n a b none = .ok (List.range' lo (hi - lo)) := by
    intro a b lo hi h1 h2 h3
    unfold resolveSlice
    simp only [Option.getD_none]
    rw [if_neg (by decide), h1, h2, key lo hi h3]
  refine ⟨?_, ?_, ?_, ?_, ?_, ?_⟩
  · intro i hi
    have := gen (some i) (some (i + 1)) i (i + 1) (by simp only [Pcs.sliceLo]; split_ifs <;> omega)
      (by simp only [Pcs.sliceHi]; split_ifs <;> omega) (by omega)
    simpa [resolve] using this
  · intro a b h1 h2
    exact gen (some a) (some b) a b (by simp only [Pcs.sliceLo]; split_ifs <;> omega)
      (by simp only [Pcs.sliceHi]; split_ifs <;> omega) h1
  · have := gen none none 0 n (by simp [Pcs.sliceLo]) (by simp [Pcs.sliceHi]) (by omega)
    simpa [resolve, List.range_eq_range'] using this
  · intro i h2 hi
    have := gen (some (-i)) (some (-i + 1)) (n - i) (n - i + 1) (by simp only [Pcs.sliceLo]; split_ifs <;> omega)
      (by simp only [Pcs.sliceHi]; split_ifs <;> omega) (by omega)
    simpa [resolve] using this
  · have : resolveSlice n (some (-1)) (some 0) none = .ok [] := by
      unfold resolveSlice
      have h0 : Pcs.rangeLen (Pcs.sliceLo n 1 (some (-1))) (Pcs.sliceHi n 1 (some 0)) 1 = 0 := by
        simp only [Pcs.rangeLen, Pcs.sliceLo, Pcs.sliceHi]
        split_ifs <;> omega
      simp only [Option.getD_none]
      rw [if_neg (by decide), h0]; rfl
    simpa [resolve] using this
  · intro i hi
    have : resolveSlice n (some i) (some (i + 1)) none = .ok [] := by
      unfold resolveSlice
      have h0 : Pcs.rangeLen (Pcs.sliceLo n 1 (some (i : Int))) (Pcs.sliceHi n 1 (some ((i : Int) + 1))) 1 = 0 := by
        simp only [Pcs.rangeLen, Pcs.sliceLo, Pcs.sliceHi]
        split_ifs <;> omega
      simp only [Option.getD_none]
      rw [if_neg (by decide), h0]; rfl
    simpa [resolve] using this

/-- C46.  Two lists (torch would pair them up) are always refused, whatever they select; one list in either place is fine as long as it selects
something in range. -/
theorem two_lists_refused (s : Obj α) (x y : List Int) : ∃ e, getitem (.tup [.list x, .list y]) s = .error e := by
  unfold getitem twoIx
  simp only
  rcases resolve s.B (.list x) with e | is
  · exact ⟨_, rfl⟩
  rcases resolve s.L (.list y) with e | js
  · exact ⟨_, rfl⟩
  simp only [bothLists, if_true]
  split_ifs <;> exact ⟨_, rfl⟩

/-- C46 (success and failure).  In-range ints succeed, alone and in a pair; ints past the end, the int `-1`, bare slices and lists, and
tuples of any other length than two raise IndexError. -/
theorem getitem_outcomes {s : Obj α} {i : In α} {k : Bool} (h : Hist nrm eps s i k) :
    (∀ b : Nat, b < i.B → 0 < i.L → ∃ o, getitem (.int b) s = .ok o) ∧
    (∀ b l : Nat, b < i.B → l < i.L → ∃ o, getitem (.tup [.int b, .int l]) s = .ok o) ∧
    (∀ b : Nat, i.B ≤ b → getitem (.int b) s = .error .indexError) ∧
    (∀ b l : Nat, b < i.B → i.L ≤ l → getitem (.tup [.int b, .int l]) s = .error .indexError) ∧
    getitem (.int (-1)) s = .error .indexError ∧ getitem .other s = .error .indexError ∧
    (∀ l : List Ix, l.length ≠ 2 → getitem (.tup l) s = .error .indexError) := by
  obtain ⟨r, _⟩ := hist_rep h
  have hall : resolve i.L (.slice none none none) = .ok (List.range i.L) := (index_positions i.L).2.2.1
  have one : ∀ n b, b < n → resolve n (.int ((b : Nat) : Int)) = .ok [b] := fun n b hb => (index_positions n).1 b hb
  have big : ∀ n b, n ≤ b → resolve n (.int ((b : Nat) : Int)) = .ok [] := fun n b hb => (index_positions n).2.2.2.2.2 b hb
  have neg1 : ∀ n, resolve n (.int (-1)) = .ok [] := fun n => (index_positions n).2.2.2.2.1
  refine ⟨?_, ?_, ?_, ?_, ?_, rfl, ?_⟩
  · intro b hb hL
    obtain ⟨o, ho, _⟩ := selected_rep (is := [b]) (js := List.range i.L) r (by simp) (by simp; omega)
    exact ⟨o, by simp [getitem, twoIx, r.hB, r.hL, one _ _ hb, hall, bothLists, ho]⟩
  · intro b l hb hl
    obtain ⟨o, ho, _⟩ := selected_rep (is := [b]) (js := [l]) r (by simp) (by simp)
    exact ⟨o, by simp [getitem, twoIx, r.hB, r.hL, one _ _ hb, one _ _ hl, bothLists, ho]⟩
  · intro b hb
    simp [getitem, twoIx, r.hB, r.hL, big _ _ hb, hall, bothLists, selected]
  · intro b l hb hl
    simp [getitem, twoIx, r.hB, r.hL, one _ _ hb, big _ _ hl, bothLists, selected]
  · simp [getitem, twoIx, r.hB, r.hL, neg1, hall, bothLists, selected]
  · intro l hl
    match l with
    | [] => rfl
    | [a] => rfl
    | [a, b] => simp at hl
    | a :: b :: c :: t => rfl
end

/-! ### Witnesses -/

/-- `torch.norm` over the reals is a Euclidean norm. -/
noncomputable def nrmR (v : V3 ℝ) : ℝ := Real.sqrt (v.dot v)
theorem nrmR_isNorm : IsNorm nrmR := by
  intro v
  have : 0 ≤ v.dot v := by simp only [V3.dot]; nlinarith [mul_self_nonneg v.x, mul_self_nonneg v.y, mul_self_nonneg v.z]
  exact ⟨Real.sqrt_nonneg _, Real.mul_self_sqrt this⟩

/-- A 1-norm, for computable examples. -/
def nrm1 (v : V3 ℚ) : ℚ := |v.x| + |v.y| + |v.z|
/-- One batch element, two frames of 2×2 pixels, channels last; pixel (1,1) has no depth. -/
def rgb0 : T5 ℚ := ⟨⟨1, 2, 2, 2, 3⟩, fun _ l h w c => l + h + w + c⟩
def depth0 : T5 ℚ := ⟨⟨1, 2, 2, 2, 1⟩, fun _ _ h w _ => if h = 1 ∧ w = 1 then 0 else 2⟩
def K0 : TM ℚ := ⟨1, 1, fun _ _ => ⟨⟨⟨2, 0, 1⟩, ⟨0, 2, 1⟩, ⟨0, 0, 1⟩⟩, .zero, .zero, 1⟩⟩
def pose0 : TM ℚ := ⟨1, 2, fun _ l => ⟨.one, ⟨l, 0, 0⟩, .zero, 1⟩⟩
def obj0 : Obj ℚ := ⟨false, rgb0, depth0, K0, some pose0, none, none, none, none, none, none, rgb0.sh, none, 1, 2, 2, 2⟩
theorem obj0_new : new rgb0 depth0 K0 (some pose0) false none = .ok obj0 := rfl
theorem obj0_hist : Hist nrm1 (0 : ℚ) obj0 (inputsOf rgb0 depth0 K0 (some pose0) false none) false := Hist.new obj0_new
/-- The hypotheses of the theorems above are met by an object with valid and missing depth, poses, two rows and columns, after a read
and an assignment. -/
theorem witness_hist : ∃ s i, Hist nrm1 (0 : ℚ) s i true ∧ 2 ≤ i.H ∧ 2 ≤ i.W ∧ 0 < i.depth 0 1 0 1 ∧ i.depth 0 1 1 1 = 0 ∧
    i.poses.isSome ∧ s.cf = false := by
  have h1 := Hist.readGNormal obj0_hist
  have h2 := Hist.setPoses (s' := { (getGNormal nrm1 0 obj0).2 with poses := some pose0, gvertex := none, gnormal := none })
    (v := some pose0) h1 (by rfl)
  exact ⟨_, _, h2, by decide, by decide, by decide +kernel, by decide +kernel, rfl, rfl⟩
theorem witness_index : ∃ o, getitem (.tup [.int 0, .int 1]) obj0 = .ok o := ⟨_, rfl⟩

/-- C44 (negation).  Reading the mask, then assigning a depth image, leaves the old mask: an object that was converted to channels last
in place, had its mask read, and was then given an all-zero depth image still reports every pixel as valid, and a freshly constructed
object does not. -/
theorem stale_mask_after_depth :
    ∃ (s1 s2 f : Obj ℚ) (z : T5 ℚ), Hist nrm1 (0 : ℚ) s1 (inputsOf rgb0 depth0 K0 (some pose0) false none) true ∧
      setDepth z s1 = (.ok (), s2) ∧ new s2.rgb s2.depth s2.K s2.poses s2.cf none = .ok f ∧
      (getValid s2).1.at' 0 0 0 0 0 = true ∧ (getValid f).1.at' 0 0 0 0 0 = false := by
  have h0 := Hist.readValid (Hist.toLast_ (Hist.toFirst_ obj0_hist))
  exact ⟨_, _, _, ⟨⟨1, 2, 2, 2, 1⟩, fun _ _ _ _ _ => 0⟩, h0, rfl, rfl, by decide +kernel, by decide +kernel⟩

/-- C44, C45 (negation).  Converting the layout in place after the mask was read leaves the mask in the old layout: its shape is no longer
the shape of the depth image, and computing the vertex map raises RuntimeError (here 2×2 images: 2 does not broadcast with 3). -/
theorem stale_mask_after_layout :
    ∃ s1 : Obj ℚ, Hist nrm1 (0 : ℚ) s1 (inputsOf rgb0 depth0 K0 (some pose0) false none) true ∧
      (getValid (toFirst_ s1)).1.sh ≠ (toFirst_ s1).depth.sh ∧ (getVertex 0 (toFirst_ s1)).1 = .error .runtimeError := by
  exact ⟨_, Hist.readValid obj0_hist, by decide, rfl⟩

end Verif.Rgbd
