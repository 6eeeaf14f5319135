import Verif.Fusion.FuseProps
import Verif.Rgbd.Props
/-!
`find_correspondences`, `update_map_fusion`, `update_map_aggregate`: C39, C41, C42 and the composed pipeline.
-/
namespace Verif.Fusion
open Verif Pcs
set_option linter.unusedSectionVars false
set_option linter.unusedSimpArgs false

section
variable {α : Type*} [Field α] [LinearOrder α] [IsStrictOrderedRing α]

theorem wf_of_inv {s : PC α} {a : Clouds α} {P} (hi : Inv s a) (hP : a .points = some P) : Wf a P := by
  rcases hi with h | ⟨P', h, _⟩
  · rw [h.noPoints] at hP; cases hP
  · have := h.wf.pts; rw [hP] at this; rw [Option.some.inj this]; exact h.wf

/-! ### The whole association -/

section
variable [FloorRing α]

/-- A map point and a pixel are candidates: the point is visible, the pixel is the nearest to its projection, and point and normal agree with
the frame's within the thresholds. -/
structure Candidate (nrm : V3 α → α) (P Nn : List (T2 α)) (fr : Frame α) (T : Nat → Nat → M4 α) (distTh dotTh : α) (r : Row) : Prop where
  pix : r.h < fr.H ∧ r.w < fr.W
  visible : ∃ p, vecAt P r.b r.n = some p ∧ Visible fr.H fr.W (fr.K r.b) (toCamera (T r.b 0) p) ∧
    Nearest (Geom.projectPoint (fr.K r.b) (.inl (toCamera (T r.b 0) p))).2 r.h ∧
    Nearest (Geom.projectPoint (fr.K r.b) (.inl (toCamera (T r.b 0) p))).1 r.w
  similar : ∃ p m, vecAt P r.b r.n = some p ∧ vecAt Nn r.b r.n = some m ∧
    nrm ((fr.gv r.b 0 r.h r.w).sub p) < distTh ∧ dotTh < (fr.gn r.b 0 r.h r.w).dot m

/-- Every index fits a float32 significand. -/
def SmallIdx (P : List (T2 α)) (fr : Frame α) : Prop :=
  fr.B ≤ 2 ^ 24 ∧ fr.H ≤ 2 ^ 24 ∧ fr.W ≤ 2 ^ 24 ∧ ∀ b, sizeAt P b ≤ 2 ^ 24

/-- **C34–C36 composed**.  `find_correspondences` returns, for every pixel that has candidates, exactly one of them, the preferred one; no
pixel and no map point occurs twice; the map is not changed. -/
theorem correspondences_spec {nrm : V3 α → α} {pc : PC α} {a : Clouds α} {P Nn F : List (T2 α)} {fr : Frame α} {T : Nat → Nat → M4 α}
    {distTh dotTh : α} (hi : Inv pc a) (hP : a .points = some P) (hn : a .normals = some Nn) (hF : a .features = some F)
    (hg : (pc.lst .points).isSome ∨ pc.mask.isSome ∨ equi (sizes P) = true) (hL : fr.L = 1) (hB : fr.B = P.length)
    (hT : fr.poses = some T) (hs : SmallIdx P fr) (hc : ∀ b n, 0 ≤ conf F b n) :
    ∃ rows pc', findCorrespondences nrm pc fr distTh dotTh = (.ok rows, pc') ∧ Inv pc' a ∧
      ((pc'.lst .points).isSome = (pc.lst .points).isSome) ∧ pc'.mask.isSome ∧
      UniquePts rows ∧ UniquePix rows ∧ RowsOk P fr rows ∧
      (∀ r ∈ rows, Candidate nrm P Nn fr T distTh dotTh r) ∧
      (∀ r, Candidate nrm P Nn fr T distTh dotTh r → ∃ s ∈ rows, (s.b = r.b ∧ s.h = r.h ∧ s.w = r.w) ∧ Preferred P F fr s r) := by
  obtain ⟨r1, p1, e1, i1, l1, k1, o1, m1⟩ := active_spec_partial hi hP hg hL hB hT
  have u1 := sorted_uniquePts o1
  have ok1 : RowsOk P fr r1 := by
    intro r hr
    obtain ⟨h1, h2, p, h3, _⟩ := (m1 r).1 hr
    have h4 : (rowAt P r.b r.n).isSome := by
      simp only [vecAt, Option.map_eq_some_iff] at h3; obtain ⟨row, hr', _⟩ := h3; rw [hr']; rfl
    exact ⟨h4, by rw [hB]; exact (rowAt_lt h4).1, h1, h2⟩
  obtain ⟨r2, mk, p2, e2, i2, l2, k2, s2, _, m2⟩ := similar_spec (nrm := nrm) (distTh := distTh) (dotTh := dotTh) i1 hP hn hL hB u1 ok1
  have ok2 : RowsOk P fr r2 := fun r hr => ok1 r (s2.subset hr)
  have u2 : UniquePts r2 := u1.sublist s2
  have ex : ∀ r ∈ r2, RowExact r := by
    intro r hr
    obtain ⟨h1, h2, h3, h4⟩ := ok2 r hr
    obtain ⟨b1, b2, b3, b4⟩ := hs
    have := sizeAt_isSome.1 h1
    have := b4 r.b
    exact rowExact_of_le ⟨by omega, by omega, by omega, by omega⟩
  obtain ⟨r3, p3, e3, i3, l3, k3, s3, u3, m3⟩ := best_spec i2 hP hF hL hB ok2 ex (fun r _ => hc r.b r.n)
  refine ⟨r3, p3, by simp only [findCorrespondences, e1, e2, e3], i3, by rw [l3, l2, l1], by rw [k3, k2]; exact k1, ?_, u3,
    fun r hr => ok2 r (s3 r hr), ?_, ?_⟩
  · refine List.Pairwise.imp_of_mem ?_ u3
    intro x y hx hy hne hxy
    have := u2.eq (s3 x hx) (s3 y hy) hxy.1 hxy.2
    subst this
    exact hne ⟨rfl, rfl, rfl⟩
  · intro r hr
    obtain ⟨h1, h2, h3⟩ := (m1 r).1 (s2.subset (s3 r hr))
    exact ⟨⟨h1, h2⟩, h3, (m2 r (s2.subset (s3 r hr))).1 (s3 r hr)⟩
  · intro r hr
    have h1 : r ∈ r1 := (m1 r).2 ⟨hr.pix.1, hr.pix.2, hr.visible⟩
    exact m3 r ((m2 r h1).2 hr.similar)

/-! ### C42 -/

/-- The frame's normal is zero wherever depth is missing. -/
def ZeroNormals (fr : Frame α) : Prop := ∀ b h w, fr.valid b 0 h w = false → fr.gn b 0 h w = V3.zero

/-- Frames built from `RGBDImages` are such frames. -/
theorem ofIn_zeroNormals (nrm : V3 α → α) (eps : α) (i : Rgbd.In α) : ZeroNormals (Frame.ofIn nrm eps i) := by
  intro b h w hv
  simp only [Frame.ofIn, decide_eq_false_iff_not] at hv ⊢
  have h0 : Rgbd.normalAt nrm eps i b 0 h w = V3.zero := by rw [Rgbd.normalAt, if_neg hv]
  unfold Rgbd.gnormalAt
  cases i.poses with
  | none => exact h0
  | some P => simp only [h0]; simp [M3.mulVec, V3.dot, V3.zero]

/-- **C42**.  With `dot_th ≥ 0` no candidate, hence no correspondence, has a pixel without depth. -/
theorem candidate_valid {nrm : V3 α → α} {P Nn : List (T2 α)} {fr : Frame α} {T : Nat → Nat → M4 α} {distTh dotTh : α} (hz : ZeroNormals fr)
    (hd : 0 ≤ dotTh) {r : Row} (hr : Candidate nrm P Nn fr T distTh dotTh r) : fr.valid r.b 0 r.h r.w = true := by
  by_contra hv
  obtain ⟨p, m, _, _, _, h⟩ := hr.similar
  rw [hz _ _ _ (by simpa using hv)] at h
  simp [V3.dot, V3.zero] at h
  linarith

/-- **C42**.  `update_map_fusion` with `dot_th ≥ 0`: the table of merged pixels contains only pixels with valid depth and the appended
pixels have valid depth; together with C37 (`fuse_spec`) and C38 (`fuse_conserves`) this describes the new map completely: its size and its
total confidence grow exactly by the measurements with valid depth. -/
theorem fusion_spec {nrm al : V3 α → α} {pc : PC α} {a : Clouds α} {P Nn C F : List (T2 α)} {fr : Frame α} {T : Nat → Nat → M4 α}
    {distTh dotTh : α} (hi : Inv pc a) (hP : a .points = some P) (hn : a .normals = some Nn) (hC : a .colors = some C)
    (hF : a .features = some F) (hF1 : ∀ t ∈ F, t.cols = 1)
    (hg : (pc.lst .points).isSome ∨ pc.mask.isSome ∨ equi (sizes P) = true) (hL : fr.L = 1) (hB : fr.B = P.length)
    (hT : fr.poses = some T) (hs : SmallIdx P fr) (hc : ∀ b n, 0 ≤ conf F b n) (hz : ZeroNormals fr) (hd : 0 ≤ dotTh) (inplace : Bool) :
    ∃ rows res pc' a' P' F', updateMapFusion nrm al pc fr distTh dotTh inplace = (.ok res, pc') ∧ Inv res a' ∧ (res.lst .points).isSome ∧
      a' .points = some P' ∧ a' .features = some F' ∧ (∀ X, (a' X).isSome) ∧
      (∀ r ∈ rows, Candidate nrm P Nn fr T distTh dotTh r ∧ fr.valid r.b 0 r.h r.w = true) ∧
      (∀ r, Candidate nrm P Nn fr T distTh dotTh r → ∃ s ∈ rows, (s.b = r.b ∧ s.h = r.h ∧ s.w = r.w) ∧ Preferred P F fr s r) ∧
      UniquePts rows ∧ UniquePix rows ∧
      MergedAttr rows F (fun r => al (fr.v r.b 0 r.h r.w)) (fun r => fr.gv r.b 0 r.h r.w) P P' ∧
      MergedConf rows (fun r => al (fr.v r.b 0 r.h r.w)) F F' ∧
      (∀ b < fr.B, ∀ x ∈ pixels fr.L fr.H fr.W (newMask fr rows b), fr.valid b x.1 x.2.1 x.2.2 = true) ∧
      (∀ b < fr.B, sizeAt P' b + (rows.filter fun r => r.b = b).length = sizeAt P b + (pixels fr.L fr.H fr.W (fr.valid b)).length) ∧
      (∀ b < fr.B, totalConf F' b = totalConf F b + ((pixels fr.L fr.H fr.W (fr.valid b)).map fun x => al (fr.v b x.1 x.2.1 x.2.2)).sum) ∧
      (inplace = true → pc' = res) ∧ (inplace = false → rows = [] → Inv pc' a) := by
  obtain ⟨rows, p1, e1, i1, _, _, u1, x1, ok1, c1, c2⟩ :=
    correspondences_spec (nrm := nrm) (distTh := distTh) (dotTh := dotTh) hi hP hn hF hg hL hB hT hs hc
  have hv : ∀ r ∈ rows, fr.valid r.b 0 r.h r.w = true := fun r hr => candidate_valid hz hd (c1 r hr)
  obtain ⟨res, s', e2, j2, l2, t2, f2⟩ := fuse_rep i1 hP hn hC hF hF1 hB ok1 al inplace
  obtain ⟨res', s'', P', Nn', C', F', e3, ⟨a', i', q1, q2, q3, q4⟩, hsz, m1, _, _, m4, _⟩ :=
    fuse_spec i1 hP hn hC hF hF1 hB ok1 u1 al inplace
  rw [e2] at e3
  simp only [Prod.mk.injEq, Except.ok.injEq] at e3
  obtain ⟨rfl, rfl⟩ := e3
  obtain ⟨res', s'', a'', P'', F'', e4, i'', q1', q4', hcons⟩ := fuse_conserves i1 hP hn hC hF hF1 hL hB ok1 u1 x1 hv al inplace
  rw [e2] at e4
  simp only [Prod.mk.injEq, Except.ok.injEq] at e4
  obtain ⟨rfl, rfl⟩ := e4
  -- the abstract value of a state is unique
  have hu : a'' = a' := by
    funext X
    rw [← (inv_obs i'').list X, ← (inv_obs i').list X]
  subst hu
  rw [q1] at q1'; rw [q4] at q4'
  cases q1'; cases q4'
  refine ⟨rows, res, s', a'', P', F', by simp only [updateMapFusion, e1, e2], i', l2, q1, q4, ?_, fun r hr => ⟨c1 r hr, hv r hr⟩, c2, u1, x1,
    m1, m4, ?_, fun b hb => (hcons b hb).1, fun b hb => (hcons b hb).2, t2, ?_⟩
  · intro X; cases X
    · rw [q1]; rfl
    · rw [q2]; rfl
    · rw [q3]; rfl
    · rw [q4]; rfl
  · rintro b hb ⟨l, h, w⟩ hx
    have := ((pixels_spec _ _ _ _).1 l h w).1 hx
    obtain ⟨h1, _, _, h4⟩ := this
    have h1' : l = 0 := by omega
    subst h1'
    exact ((newMask_iff fr rows b h w).1 h4).1
  · intro hin h0
    have := f2 hin
    rw [mergedOr, if_pos h0] at this
    exact this

/-- `update_map_fusion` on an empty map appends every valid pixel. -/
theorem fusion_empty {nrm al : V3 α → α} {pc : PC α} {a : Clouds α} (hi : Inv pc a) (hP : a .points = none) {fr : Frame α}
    (hL : fr.L = 1) (hB : 0 < fr.B) (distTh dotTh : α) (inplace : Bool) :
    ∃ res pc', updateMapFusion nrm al pc fr distTh dotTh inplace = (.ok res, pc') ∧ Inv res (newArg al fr fr.valid) ∧
      (res.lst .points).isSome ∧ (inplace = true → pc' = res) ∧ (inplace = false → Inv pc' a) := by
  rcases hi with h | ⟨P', h, hm⟩
  swap
  · rw [h.wf.pts] at hP; cases hP
  obtain ⟨s1, e1, r1⟩ := h.hasAttr .points
  obtain ⟨s2, e2, r2⟩ := r1.hasAttr .points
  obtain ⟨s3, e3, r3⟩ := r2.hasAttr .points
  obtain ⟨res, s', e4, i4, l4, t4, f4⟩ := fuse_empty (.inl r3) hP (fr := fr) [] hB al inplace
  have hmask : newMask fr [] = fr.valid := by
    funext b l h w; simp [newMask]
  rw [hmask] at i4
  refine ⟨res, s', ?_, i4, l4, t4, f4⟩
  have ec : findCorrespondences nrm pc fr distTh dotTh = (.ok [], s3) := by
    simp only [findCorrespondences, findActive, hL, ne_eq, not_true_eq_false, if_false, e1, Bool.not_false, if_true, findSimilar, e2,
      Bool.true_or, findBest, e3]
  simp only [updateMapFusion, ec, e4]
end

/-! ### C41, C39 -/

/-- **C41**.  `update_map_aggregate` appends to cloud `b` exactly one point per pixel of frame `b` with valid depth, in row-major order,
with the normal and colour of the same pixel, after the points the map already had. -/
theorem aggregate_spec {pc : PC α} {a : Clouds α} {P Nn C : List (T2 α)} (hi : Inv pc a) (hP : a .points = some P)
    (hn : a .normals = some Nn) (hC : a .colors = some C) (hF : a .features = none) {fr : Frame α} (hL : fr.L = 1) (hB : fr.B = P.length)
    (inplace : Bool) :
    ∃ res pc' P' Nn' C', updateMapAggregate pc fr inplace = (.ok res, pc') ∧
      (∃ a', Inv res a' ∧ a' .points = some P' ∧ a' .normals = some Nn' ∧ a' .colors = some C' ∧ a' .features = none) ∧
      (∀ b < fr.B, sizeAt P' b = sizeAt P b + (pixels fr.L fr.H fr.W (fr.valid b)).length) ∧
      (∀ b n x, vecAt P b n = some x → vecAt P' b n = some x) ∧ (∀ b n x, vecAt Nn b n = some x → vecAt Nn' b n = some x) ∧
      (∀ b n x, vecAt C b n = some x → vecAt C' b n = some x) ∧
      AppendedAttr fr fr.valid fr.gv P P' ∧ AppendedAttr fr fr.valid fr.gn P Nn' ∧ AppendedAttr fr fr.valid fr.rgb P C' ∧
      (inplace = true → pc' = res) ∧ (inplace = false → Inv pc' a) := by
  have hw := wf_of_inv hi hP
  have hpos : 0 < fr.B := by rw [hB]; exact List.length_pos_iff.2 hw.ne
  have hcompat : Compatible a (frameArg fr true fr.valid) := by
    refine ⟨by simp [hP, frameArg, picked_length, hB], ?_, ?_⟩
    · intro X; cases X <;> simp [hP, hn, hC, hF, frameArg]
    · intro l m hl; rw [hF] at hl; cases hl
  obtain ⟨res, s', e, i, _, t, f⟩ := aggregate_rep hi hL hpos (fun _ => hcompat) inplace
  have hg : specGrow a (frameArg fr true fr.valid) = specAppend a (frameArg fr true fr.valid) := by simp [specGrow, hP]
  rw [hg] at i
  have len : ∀ {X l} (f), a X = some l → l.length = (picked fr fr.valid f).length := fun f hl => by rw [hw.length hl, picked_length, hB]
  have sz : ∀ {X l}, a X = some l → ∀ b, sizeAt l b = sizeAt P b := fun hl b => sizeAt_sizes (hw.rows _ _ hl) b
  refine ⟨res, s', catL P (picked fr fr.valid fr.gv), catL Nn (picked fr fr.valid fr.gn), catL C (picked fr fr.valid fr.rgb), e,
    ⟨_, i, specAppend_some hP rfl, specAppend_some hn rfl, specAppend_some hC rfl, by simp [specAppend, hF]⟩, ?_,
    fun b n x hx => vecAt_cat_old (len _ hP) hx, fun b n x hx => vecAt_cat_old (len _ hn) hx, fun b n x hx => vecAt_cat_old (len _ hC) hx,
    ?_, ?_, ?_, t, f⟩
  · intro b hb
    have hb1 : b < P.length := hB ▸ hb
    have hb2 : b < (picked fr fr.valid fr.gv).length := by rw [picked_length]; exact hb
    rw [sizeAt_eq (by rw [catL_length (len _ hP)]; exact hb1), sizeAt_eq hb1]
    simp [catL, picked]
  · intro b hb k; rw [vecAt_cat_new (len _ hP), vecAt_picked hb]
  · intro b hb k; rw [← sz hn, vecAt_cat_new (len _ hn), vecAt_picked hb]
  · intro b hb k; rw [← sz hC, vecAt_cat_new (len _ hC), vecAt_picked hb]

/-- **C41** on an empty map: the result consists of exactly the valid pixels. -/
theorem aggregate_empty {pc : PC α} {a : Clouds α} (hi : Inv pc a) (hP : a .points = none) {fr : Frame α} (hL : fr.L = 1) (hB : 0 < fr.B)
    (inplace : Bool) :
    ∃ res pc', updateMapAggregate pc fr inplace = (.ok res, pc') ∧ Inv res (frameArg fr true fr.valid) ∧
      (inplace = true → pc' = res) ∧ (inplace = false → Inv pc' a) := by
  obtain ⟨res, s', e, i, _, t, f⟩ := aggregate_rep hi hL hB (fun h => absurd hP h) inplace
  rw [specGrow, if_pos hP] at i
  exact ⟨res, s', e, i, t, f⟩

/-- **C41**: sequences of length other than one are refused and the map is not changed; likewise an incompatible map. -/
theorem aggregate_errors {pc : PC α} {a : Clouds α} (hi : Inv pc a) {fr : Frame α} (inplace : Bool) :
    (fr.L ≠ 1 → updateMapAggregate pc fr inplace = (.error valueError, pc)) ∧
    (fr.L = 1 → 0 < fr.B → a .points ≠ none → ¬ Compatible a (frameArg fr true fr.valid) →
      ∃ pc', updateMapAggregate pc fr inplace = (.error valueError, pc') ∧ Inv pc' a) := by
  constructor
  · intro h; simp [updateMapAggregate, pointcloudsFromRgbd, h]
  · intro hL hB hne hc
    obtain ⟨o, eo, ro, fo⟩ := newList_rep (frame_wf hB true fr.valid)
    rcases hi with h | ⟨P, h, hm⟩
    · exact absurd h.noPoints hne
    simp only [if_true] at eo
    cases inplace with
    | true =>
      obtain ⟨s', o', e, r, _, f, _⟩ := h.append_error ro hc
      refine ⟨s', ?_, .inr ⟨P, r, hm.frame f.eq f.mask⟩⟩
      simp only [updateMapAggregate, pointcloudsFromRgbd, hL, ne_eq, not_true_eq_false, if_false, if_true, eo, cloneAppend, e]
    | false =>
      obtain ⟨c, s', e, r, rc, f, _⟩ := h.clone
      obtain ⟨c', o', e', _⟩ := rc.append_error ro hc
      refine ⟨s', ?_, .inr ⟨P, r, hm.frame f.eq f.mask⟩⟩
      simp only [updateMapAggregate, pointcloudsFromRgbd, hL, ne_eq, not_true_eq_false, if_false, if_true, eo, cloneAppend, e, e',
        Bool.false_eq_true]

/-! ### Refused calls -/

section
variable [FloorRing α]

/-- `find_active_map_points`: sequences of length other than one and maps of another batch size are refused with ValueError, a frame without
poses with AttributeError; an empty map gives an empty table.  The map keeps its value. -/
theorem active_errors {pc : PC α} {a : Clouds α} {fr : Frame α} (hi : Inv pc a) :
    (fr.L ≠ 1 → findActive pc fr = (.error valueError, pc)) ∧
    (fr.L = 1 → a .points = none → ∃ pc', findActive pc fr = (.ok [], pc') ∧ Inv pc' a) ∧
    (∀ P, fr.L = 1 → a .points = some P → fr.B ≠ P.length → ∃ pc', findActive pc fr = (.error valueError, pc') ∧ Inv pc' a) ∧
    (∀ P, fr.L = 1 → a .points = some P → fr.B = P.length → fr.poses = none →
      ∃ pc', findActive pc fr = (.error .attributeError, pc') ∧ Inv pc' a) := by
  refine ⟨fun h => by simp [findActive, h], ?_, ?_, ?_⟩
  · intro hL hP
    rcases hi with h | ⟨P', h, _⟩
    · obtain ⟨s1, e1, r1⟩ := h.hasAttr .points
      exact ⟨s1, by simp [findActive, hL, e1], .inl r1⟩
    · rw [h.wf.pts] at hP; cases hP
  · intro P hL hP hB
    rcases hi with h | ⟨P', h, hm⟩
    · rw [h.noPoints] at hP; cases hP
    obtain rfl : P' = P := by have := h.wf.pts; rw [hP] at this; exact (Option.some.inj this).symm
    obtain ⟨s1, e1, r1, f1, _⟩ := h.hasAttr .points
    refine ⟨s1, ?_, .inr ⟨P', r1, hm.frame f1.eq f1.mask⟩⟩
    simp only [findActive, hL, ne_eq, not_true_eq_false, if_false, e1, h.hasPoints, Bool.not_true, Bool.false_eq_true]
    rw [if_pos (by rw [r1.hB]; exact hB)]
  · intro P hL hP hB hT
    rcases hi with h | ⟨P', h, hm⟩
    · rw [h.noPoints] at hP; cases hP
    obtain rfl : P' = P := by have := h.wf.pts; rw [hP] at this; exact (Option.some.inj this).symm
    obtain ⟨s1, e1, r1, f1, _⟩ := h.hasAttr .points
    refine ⟨s1, ?_, .inr ⟨P', r1, hm.frame f1.eq f1.mask⟩⟩
    simp only [findActive, hL, ne_eq, not_true_eq_false, if_false, e1, h.hasPoints, Bool.not_true, Bool.false_eq_true]
    rw [if_neg (by rw [r1.hB, not_not]; exact hB), hT]
end

/-- A non-empty map without normals is refused by `find_similar_map_points`, one without confidences by
`find_best_unique_correspondences`, one without normals, colours or confidences by `fuse_with_map`. -/
theorem attribute_errors {nrm al : V3 α → α} {pc : PC α} {a : Clouds α} {P : List (T2 α)} {fr : Frame α} {rows : List Row} (hi : Inv pc a)
    (hP : a .points = some P) (hL : fr.L = 1) (hB : fr.B = P.length) (hr : rows ≠ []) (distTh dotTh : α) (inplace : Bool) :
    (a .normals = none → ∃ pc', findSimilar nrm pc fr rows distTh dotTh = (.error valueError, pc') ∧ Inv pc' a) ∧
    (a .features = none → ∃ pc', findBest pc fr rows = (.error valueError, pc') ∧ Inv pc' a) ∧
    ((∃ X, a X = none) → ∃ pc', fuseWithMap al pc fr rows inplace = (.error valueError, pc') ∧ Inv pc' a) := by
  rcases hi with h | ⟨P', h, hm⟩
  · rw [h.noPoints] at hP; cases hP
  obtain rfl : P' = P := by have := h.wf.pts; rw [hP] at this; exact (Option.some.inj this).symm
  obtain ⟨s1, e1, r1, f1, _⟩ := h.hasAttr .points
  have hr' : decide (rows.length = 0) = false := by simpa using hr
  have hB' : ¬ fr.B ≠ s1.B := by rw [r1.hB, not_not]; exact hB
  refine ⟨?_, ?_, ?_⟩
  · intro hn
    obtain ⟨s2, e2, r2, f2, _⟩ := r1.hasAttr .normals
    refine ⟨s2, ?_, .inr ⟨P', r2, (hm.frame f1.eq f1.mask).frame f2.eq f2.mask⟩⟩
    simp only [findSimilar, hL, ne_eq, not_true_eq_false, if_false, e1, h.hasPoints, Bool.not_true, Bool.false_or, hr', Bool.false_eq_true]
    rw [if_neg hB', e2, hn]; rfl
  · intro hn
    obtain ⟨s2, e2, r2, f2, _⟩ := r1.hasAttr .features
    refine ⟨s2, ?_, .inr ⟨P', r2, (hm.frame f1.eq f1.mask).frame f2.eq f2.mask⟩⟩
    simp only [findBest, hL, ne_eq, not_true_eq_false, if_false, e1, h.hasPoints, Bool.not_true, Bool.false_or, hr', Bool.false_eq_true]
    rw [if_neg hB', e2, hn]; rfl
  · rintro ⟨X, hX⟩
    have key : ∀ (l : List Attr) (s : PC α), RepN s a P' → MaskOk s a → X ∈ l →
        ∃ s', requireAll l s = (false, s') ∧ RepN s' a P' ∧ MaskOk s' a := by
      intro l
      induction l with
      | nil => intro s _ _ hx; cases hx
      | cons Y l ih =>
        intro s hs hms hx
        obtain ⟨s', e, r', f', _⟩ := hs.hasAttr Y
        have hm' := hms.frame f'.eq f'.mask
        simp only [requireAll, e]
        cases hy : a Y with
        | none => exact ⟨s', by simp, r', hm'⟩
        | some y =>
          have : X ≠ Y := by rintro rfl; rw [hX] at hy; cases hy
          obtain ⟨s'', e'', r'', m''⟩ := ih s' r' hm' (by rcases List.mem_cons.1 hx with hx | hx; exact absurd hx this; exact hx)
          exact ⟨s'', by simp [e''], r'', m''⟩
    have hmem : X ∈ [Attr.normals, .colors, .features] := by
      cases X
      · rw [hP] at hX; cases hX
      all_goals simp
    obtain ⟨s2, e2, r2, m2⟩ := key _ s1 r1 (hm.frame f1.eq f1.mask) hmem
    refine ⟨s2, ?_, .inr ⟨P', r2, m2⟩⟩
    simp only [fuseWithMap, e1, h.hasPoints, if_true, e2, Bool.not_false]

end
end Verif.Fusion
