import Verif.Flt.Format
import Verif.Fusion.FuseProps
/-!
`fuse_with_map` (gradslam/slam/fusionutils.py) in floating point: the model of `Verif.Fusion.Model` with every arithmetic operation rounded
(C90).  The values of the map and of the frame are arbitrary numbers.  Overflow, underflow, infinities and NaN are not modelled.
-/
namespace Verif.Flt
open Verif Pcs Fusion

/-- One entry of `(map_ccounts * X + frame_alphas * frame_X) * inv_updated_ccounts`, fusionutils.py:678-698: the count `c`, the weight `a`,
the map's value `x` and the frame's value `q`. -/
noncomputable def mergeF (F : Fmt) (c a x q : ℝ) : ℝ :=
  F.rnd (F.rnd (F.rnd (c * x) + F.rnd (a * q)) * F.rnd (1 / guard0 (F.rnd (c + a))))

/-- One row of the merged attribute, fusionutils.py:678-698 (cf. `Fusion.mergeRow`). -/
noncomputable def mergeRowF (F : Fmt) (c : List ℝ) (a : ℝ) (q : V3 ℝ) (r : List ℝ) : List ℝ :=
  r.mapIdx fun k x => mergeF F (coef c k) a x (comp q k)

/-- The merge block of `fuse_with_map`, fusionutils.py:659-699 (cf. `Fusion.mergeStep`). -/
noncomputable def mergeStepF (F : Fmt) (al : V3 ℝ → ℝ) (pc : PC ℝ) (fr : Frame ℝ) (rows : List Row) : Except Fusion.Err Unit × PC ℝ :=
  match getPad .points pc with
  | (.error e, pc) => (.error (.pcs e), pc)
  | (.ok p, pc) => match getPad .normals pc with
    | (.error e, pc) => (.error (.pcs e), pc)
    | (.ok nn, pc) => match getPad .colors pc with
      | (.error e, pc) => (.error (.pcs e), pc)
      | (.ok cc, pc) => match getPad .features pc with
        | (.error e, pc) => (.error (.pcs e), pc)
        | (.ok f, pc) =>
          let f := f.getD []
          if !rowsInRange rows (shape3 (p.getD [])).1 (shape3 (p.getD [])).2.1 fr then (.error (.pcs .indexError), pc)
          else if (shape3 f).2.2 ≠ 1 ∧ (shape3 f).2.2 ≠ 3 then (.error (.pcs .runtimeError), pc)
          else
            let a := scatterAl al fr rows
            setPads
              [(.points, mapRows (fun b n r => mergeRowF F (cell f b n) (a b n) (scatter rows fr.gv b n) r) (p.getD [])),
               (.normals, mapRows (fun b n r => mergeRowF F (cell f b n) (a b n) (scatter rows fr.gn b n) r) (nn.getD [])),
               (.colors, mapRows (fun b n r => mergeRowF F (cell f b n) (a b n) (scatter rows fr.rgb b n) r) (cc.getD [])),
               (.features, mapRows (fun b n r => r.map fun c => F.rnd (c + a b n)) f)] pc

/-- `fuse_with_map`, fusionutils.py:580-722 (cf. `Fusion.fuseWithMap`): the result and the object given by the caller afterwards. -/
noncomputable def fuseWithMapF (F : Fmt) (al : V3 ℝ → ℝ) (pc : PC ℝ) (fr : Frame ℝ) (rows : List Row) (inplace : Bool) :
    Except Fusion.Err (PC ℝ) × PC ℝ :=
  let (h, pc) := hasAttr .points pc
  let (ok, pc) := if h then requireAll [.normals, .colors, .features] pc else (true, pc)
  if !ok then (.error valueError, pc)
  else
    let use := h && decide (rows.length ≠ 0)
    match (if use then mergeStepF F al pc fr rows else (.ok (), pc)) with
    | (.error e, pc) => (.error e, pc)
    | (.ok (), pc) =>
      let m := newMask fr (if use then rows else [])
      match newList (newArg al fr m) (picked fr m fr.gv) with
      | .error e => (.error (.pcs e), pc)
      | .ok o => cloneAppend inplace pc o

/-- Without rounding these are the functions of `Verif.Fusion.Model`. -/
theorem mergeRowF_exact (c : List ℝ) (a : ℝ) (q : V3 ℝ) (r : List ℝ) : mergeRowF exact c a q r = mergeRow c a q r := rfl

theorem mergeStepF_exact (al : V3 ℝ → ℝ) (pc : PC ℝ) (fr : Frame ℝ) (rows : List Row) : mergeStepF exact al pc fr rows = mergeStep al pc fr rows := by
  unfold mergeStepF mergeStep
  have e : ∀ x, exact.rnd x = x := fun _ => rfl
  simp only [mergeRowF_exact, e]
  rcases getPad .points pc with ⟨_ | p, pc⟩
  · rfl
  simp only
  rcases getPad .normals pc with ⟨_ | nn, pc⟩
  · rfl
  simp only
  rcases getPad .colors pc with ⟨_ | cc, pc⟩
  · rfl
  simp only
  rcases getPad .features pc with ⟨_ | f, pc⟩
  · rfl
  rfl

/-- **C90**, the model: without rounding `fuseWithMapF` is `fuseWithMap`. -/
theorem fuse_exact (al : V3 ℝ → ℝ) (pc : PC ℝ) (fr : Frame ℝ) (rows : List Row) (inplace : Bool) :
    fuseWithMapF exact al pc fr rows inplace = fuseWithMap al pc fr rows inplace := by
  unfold fuseWithMapF fuseWithMap
  simp only [mergeStepF_exact]
  rcases hasAttr .points pc with ⟨h, pc⟩
  simp only
  generalize (if h = true then requireAll [.normals, .colors, .features] pc else (true, pc)) = z
  split_ifs
  · rfl
  · rcases mergeStep al z.2 fr rows with ⟨_ | _, pc⟩
    · rfl
    · simp only
      rcases newList (newArg al fr (newMask fr rows)) (picked fr (newMask fr rows) fr.gv) with _ | _ <;> rfl
  · simp only
    rcases newList (newArg al fr (newMask fr [])) (picked fr (newMask fr []) fr.gv) with _ | _ <;> rfl

/-! ### The result on plain clouds -/

theorem mergeF_zero (F : Fmt) (c : ℝ) : mergeF F c 0 0 0 = 0 := by simp [mergeF, F.zero]

noncomputable def mergeImgF (F : Fmt) (al : V3 ℝ → ℝ) (fr : Frame ℝ) (rows : List Row) (Q : List (T2 ℝ)) (f : Nat → Nat → Nat → Nat → V3 ℝ)
    (l : List (T2 ℝ)) : List (T2 ℝ) :=
  mapRows (fun b n r => mergeRowF F ((rowAt Q b n).getD []) (scatterAl al fr rows b n) (scatter rows f b n) r) l

noncomputable def mergeConfF (F : Fmt) (al : V3 ℝ → ℝ) (fr : Frame ℝ) (rows : List Row) (Q : List (T2 ℝ)) : List (T2 ℝ) :=
  mapRows (fun b n r => r.map fun c => F.rnd (c + scatterAl al fr rows b n)) Q

noncomputable def mergeCloudsF (F : Fmt) (al : V3 ℝ → ℝ) (fr : Frame ℝ) (rows : List Row) (P Nn C Q : List (T2 ℝ)) : Clouds ℝ
  | .points => some (mergeImgF F al fr rows Q fr.gv P)
  | .normals => some (mergeImgF F al fr rows Q fr.gn Nn)
  | .colors => some (mergeImgF F al fr rows Q fr.rgb C)
  | .features => some (mergeConfF F al fr rows Q)

theorem mergeRowF_length (F : Fmt) (c : List ℝ) (a : ℝ) (q : V3 ℝ) (r : List ℝ) : (mergeRowF F c a q r).length = r.length := by simp [mergeRowF]

theorem mergeF_pad (F : Fmt) {s : PC ℝ} {a : Clouds ℝ} {P Q l : List (T2 ℝ)} (h : RepN s a P) {X : Attr} (hX : X ≠ .features) (hl : a X = some l)
    (hQ : a .features = some Q) {fr : Frame ℝ} {rows : List Row} (hr : RowsOk P fr rows)
    (al : V3 ℝ → ℝ) (f : Nat → Nat → Nat → Nat → V3 ℝ) {N : Nat} :
    mapRows (fun b n r => mergeRowF F (cell (padL N Q) b n) (scatterAl al fr rows b n) (scatter rows f b n) r) (padL N l) =
      padL N (mergeImgF F al fr rows Q f l) := by
  unfold mergeImgF
  apply mapRows_padL' (C := 3) (h.wf.cols3 hX hl)
  · intro b n r hrow
    have h1 : (rowAt Q b n).isSome := by
      rw [rowAt_isSome h.wf hQ, ← rowAt_isSome h.wf hl, hrow]; rfl
    obtain ⟨row, hrow'⟩ := Option.isSome_iff_exists.1 h1
    rw [cell_padL hrow', hrow']; rfl
  · intro b n hb hnone hn
    have h1 : rowAt P b n = none := by
      have := rowAt_isSome h.wf hl b n
      rw [hnone] at this
      cases hp : rowAt P b n with
      | none => rfl
      | some _ => rw [hp] at this; cases this
    have hu := unmatched_of_none hr h1
    rw [scatter_none hu, scatterAl_none hu]
    simp [mergeRowF, mergeF, F.zero, List.replicate, List.mapIdx_cons]

theorem mergeConfF_pad (F : Fmt) {s : PC ℝ} {a : Clouds ℝ} {P Q : List (T2 ℝ)} (h : RepN s a P) (hQ : a .features = some Q) {C : Nat}
    (hC : ∀ t ∈ Q, t.cols = C) {fr : Frame ℝ} {rows : List Row} (hr : RowsOk P fr rows) (al : V3 ℝ → ℝ) {N : Nat} :
    mapRows (fun b n r => r.map fun c => F.rnd (c + scatterAl al fr rows b n)) (padL N Q) = padL N (mergeConfF F al fr rows Q) := by
  unfold mergeConfF
  apply mapRows_padL' (C := C) hC
  · intros; rfl
  · intro b n hb hnone hn
    have h1 : rowAt P b n = none := by
      have := rowAt_isSome h.wf hQ b n
      rw [hnone] at this
      cases hp : rowAt P b n with
      | none => rfl
      | some _ => rw [hp] at this; cases this
    rw [scatterAl_none (unmatched_of_none hr h1)]
    simp [F.zero]

theorem mergeStepF_rep (F : Fmt) {s : PC ℝ} {a : Clouds ℝ} {P Nn C Q : List (T2 ℝ)} (h : RepN s a P) (hm : MaskOk s a)
    (hNn : a .normals = some Nn) (hC : a .colors = some C) (hQ : a .features = some Q) (hQ1 : ∀ t ∈ Q, t.cols = 1)
    {fr : Frame ℝ} {rows : List Row} (hr : RowsOk P fr rows) (al : V3 ℝ → ℝ) :
    ∃ s' P', mergeStepF F al s fr rows = (.ok (), s') ∧ RepN s' (mergeCloudsF F al fr rows P Nn C Q) P' ∧ sizes P' = sizes P ∧
      MaskOk s' (mergeCloudsF F al fr rows P Nn C Q) := by
  have hP := h.wf.pts
  obtain ⟨s1, e1, r1, _, f1, _⟩ := h.getPad .points
  obtain ⟨s2, e2, r2, _, f2, _⟩ := r1.getPad .normals
  obtain ⟨s3, e3, r3, _, f3, _⟩ := r2.getPad .colors
  obtain ⟨s4, e4, r4, _, f4, _⟩ := r3.getPad .features
  rw [hP] at e1; rw [hNn] at e2; rw [hC] at e3; rw [hQ] at e4
  simp only [Option.map_some] at e1 e2 e3 e4
  have hm4 : MaskOk s4 a := (((hm.frame f1.eq f1.mask).frame f2.eq f2.mask).frame f3.eq f3.mask).frame f4.eq f4.mask
  have sp := shape_pad h hP (h.wf.cols3 (by simp) hP)
  have sf := shape_pad r3 hQ hQ1
  set N := maxL (sizes P) with hN
  rw [h.hN, ← hN] at e1 sp
  rw [r1.hN, ← hN] at e2
  rw [r2.hN, ← hN] at e3
  rw [r3.hN, ← hN] at e4 sf
  have hin : rowsInRange rows P.length N fr = true := rowsInRange_ok rfl hr
  have lenM : ∀ f b n (r : List ℝ), (mergeRowF F ((rowAt Q b n).getD []) (scatterAl al fr rows b n) (scatter rows f b n) r).length = r.length :=
    fun _ _ _ _ => mergeRowF_length _ _ _ _ _
  obtain ⟨t1, P1, a1, q1, z1, k1⟩ := setPad_step (X := .points) (l := mergeImgF F al fr rows Q fr.gv P) r4 hm4 (by rw [hP]; rfl)
    (sizes_mapRows _ _) (mapRows_valid (h.wf.valid _ _ hP) (lenM _)) (mapRows_cols (h.wf.cols3 (by simp) hP)) (fun _ => rfl) hN
  obtain ⟨t2, P2, a2, q2, z2, k2⟩ := setPad_step (X := .normals) (l := mergeImgF F al fr rows Q fr.gn Nn) q1 k1 (by simp [specSet, hNn])
    ((sizes_mapRows _ _).trans ((h.wf.rows _ _ hNn).trans z1.symm)) (mapRows_valid (h.wf.valid _ _ hNn) (lenM _))
    (mapRows_cols (h.wf.cols3 (by simp) hNn)) (fun _ => rfl) (hN.trans (by rw [z1]))
  obtain ⟨t3, P3, a3, q3, z3, k3⟩ := setPad_step (X := .colors) (l := mergeImgF F al fr rows Q fr.rgb C) q2 k2 (by simp [specSet, hC])
    ((sizes_mapRows _ _).trans ((h.wf.rows _ _ hC).trans (z2.trans z1).symm)) (mapRows_valid (h.wf.valid _ _ hC) (lenM _))
    (mapRows_cols (h.wf.cols3 (by simp) hC)) (fun _ => rfl) (hN.trans (by rw [z2, z1]))
  obtain ⟨t4, P4, a4, q4, z4, k4⟩ := setPad_step (X := .features) (l := mergeConfF F al fr rows Q) q3 k3 (by simp [specSet, hQ])
    ((sizes_mapRows _ _).trans ((h.wf.rows _ _ hQ).trans (z3.trans (z2.trans z1)).symm)) (mapRows_valid (h.wf.valid _ _ hQ) (by simp))
    (mapRows_cols hQ1) (by simp) (hN.trans (by rw [z3, z2, z1]))
  have heq : specSet .features (mergeConfF F al fr rows Q) (specSet .colors (mergeImgF F al fr rows Q fr.rgb C)
      (specSet .normals (mergeImgF F al fr rows Q fr.gn Nn) (specSet .points (mergeImgF F al fr rows Q fr.gv P) a))) =
      mergeCloudsF F al fr rows P Nn C Q := by
    funext X; cases X <;> simp [specSet, mergeCloudsF, Function.update]
  rw [heq] at q4 k4
  refine ⟨t4, P4, ?_, q4, z4.trans (z3.trans (z2.trans z1)), k4⟩
  simp only [mergeStepF, e1, e2, e3, e4, Option.getD_some, sp, sf, hin, Bool.not_true, Bool.false_eq_true, if_false, ne_eq,
    not_true_eq_false, false_and]
  rw [mergeF_pad F h (X := .points) (by simp) hP hQ hr al fr.gv, mergeF_pad F h (X := .normals) (by simp) hNn hQ hr al fr.gn,
    mergeF_pad F h (X := .colors) (by simp) hC hQ hr al fr.rgb, mergeConfF_pad F h hQ hQ1 hr al]
  simp only [setPads, a1, a2, a3, a4]

noncomputable def mergedOrF (F : Fmt) (al : V3 ℝ → ℝ) (fr : Frame ℝ) (rows : List Row) (P Nn C Q : List (T2 ℝ)) (a : Clouds ℝ) : Clouds ℝ :=
  if rows = [] then a else mergeCloudsF F al fr rows P Nn C Q

theorem fuseF_rep (F : Fmt) {s : PC ℝ} {a : Clouds ℝ} {P Nn C Q : List (T2 ℝ)} (hi : Inv s a) (hP : a .points = some P)
    (hNn : a .normals = some Nn) (hC : a .colors = some C) (hQ : a .features = some Q) (hQ1 : ∀ t ∈ Q, t.cols = 1)
    {fr : Frame ℝ} {rows : List Row} (hB : fr.B = P.length) (hr : RowsOk P fr rows) (al : V3 ℝ → ℝ) (inplace : Bool) :
    ∃ res s', fuseWithMapF F al s fr rows inplace = (.ok res, s') ∧
      Inv res (specAppend (mergedOrF F al fr rows P Nn C Q a) (newArg al fr (newMask fr rows))) ∧ (res.lst .points).isSome ∧
      (inplace = true → s' = res) ∧ (inplace = false → Inv s' (mergedOrF F al fr rows P Nn C Q a)) := by
  rcases hi with h | ⟨P', h, hm⟩
  · rw [h.noPoints] at hP; cases hP
  obtain rfl : P' = P := by have := h.wf.pts; rw [hP] at this; exact (Option.some.inj this).symm
  obtain ⟨s1, e1, r1, f1, _⟩ := h.hasAttr .points
  obtain ⟨s2, e2, r2, f2, _⟩ := r1.hasAttr .normals
  obtain ⟨s3, e3, r3, f3, _⟩ := r2.hasAttr .colors
  obtain ⟨s4, e4, r4, f4, _⟩ := r3.hasAttr .features
  rw [hP] at e1; rw [hNn] at e2; rw [hC] at e3; rw [hQ] at e4
  simp only [Option.isSome_some] at e1 e2 e3 e4
  have hm4 : MaskOk s4 a := (((hm.frame f1.eq f1.mask).frame f2.eq f2.mask).frame f3.eq f3.mask).frame f4.eq f4.mask
  have hpos : 0 < fr.B := by rw [hB]; exact List.length_pos_iff.2 h.wf.ne
  obtain ⟨o, eo, ro, fo⟩ := newList_rep (picked_wf hpos al (newMask fr rows))
  have hmerge : ∃ s5, (if (decide (rows.length ≠ 0)) = true then mergeStepF F al s4 fr rows else (.ok (), s4)) = (.ok (), s5) ∧
      Inv s5 (mergedOrF F al fr rows P' Nn C Q a) := by
    by_cases h0 : rows = []
    · exact ⟨s4, by simp [h0], .inr ⟨P', by rw [mergedOrF, if_pos h0]; exact r4, by rw [mergedOrF, if_pos h0]; exact hm4⟩⟩
    · obtain ⟨s5, P5, e5, r5, _, m5⟩ := mergeStepF_rep F r4 hm4 hNn hC hQ hQ1 hr al
      exact ⟨s5, by simp [h0, e5], .inr ⟨P5, by rw [mergedOrF, if_neg h0]; exact r5, by rw [mergedOrF, if_neg h0]; exact m5⟩⟩
  obtain ⟨s5, e5, i5⟩ := hmerge
  have hall : ∀ X, (mergedOrF F al fr rows P' Nn C Q a X).isSome := by
    intro X
    unfold mergedOrF
    split_ifs
    · cases X <;> simp [hP, hNn, hC, hQ]
    · cases X <;> rfl
  have hcompat : Compatible (mergedOrF F al fr rows P' Nn C Q a) (newArg al fr (newMask fr rows)) := by
    refine ⟨?_, fun X => by rw [hall, newArg_some], ?_⟩
    · unfold mergedOrF
      split_ifs
      · simp [hP, newArg, picked_length, hB]
      · simp [mergeCloudsF, newArg, picked_length, hB, mergeImgF, mapRows_length]
    · intro l m hl hm' t ht u hu
      have hl1 : t.cols = 1 := by
        unfold mergedOrF at hl
        split_ifs at hl
        · rw [hQ] at hl; cases hl; exact hQ1 t ht
        · simp only [mergeCloudsF, Option.some.injEq] at hl; subst hl
          exact mapRows_cols hQ1 t ht
      simp only [newArg, Option.some.injEq] at hm'; subst hm'
      simp only [pickedAl, List.mem_map] at hu
      obtain ⟨b, _, rfl⟩ := hu
      exact hl1
  have hne : mergedOrF F al fr rows P' Nn C Q a .points ≠ none := by
    intro h0; have := hall .points; rw [h0] at this; cases this
  obtain ⟨res, s', e6, h1, h2, h3, h4⟩ := cloneAppend_rep i5 ro fo (fun _ => hcompat) inplace
  rw [specGrow, if_neg hne] at h1
  refine ⟨res, s', ?_, h1, h2, h3, h4⟩
  have hrows : (if decide (rows.length ≠ 0) = true then rows else []) = rows := by
    by_cases h0 : rows = [] <;> simp [h0]
  simp only [fuseWithMapF, e1, requireAll, e2, e3, e4, if_true, Bool.not_true, Bool.false_eq_true, if_false, Bool.true_and]
  rw [e5, hrows]
  simp only [eo, e6]
end Verif.Flt
