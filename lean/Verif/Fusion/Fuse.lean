import Verif.Fusion.Match
/-!
`fuse_with_map` and `update_map_aggregate` refine operations on plain clouds.
-/
namespace Verif.Fusion
open Verif Pcs
set_option linter.unusedSectionVars false
set_option linter.unusedSimpArgs false

section
variable {α : Type*} [Field α] [LinearOrder α] [IsStrictOrderedRing α]

/-! ### Padded maps -/

/-- A map of padded tensors that does `g` to the real rows and keeps zero rows is the padding of the mapped clouds (any width). -/
theorem mapRows_padL' {g g' : Nat → Nat → List α → List α} {N C : Nat} {P : List (T2 α)} (hc : ∀ t ∈ P, t.cols = C)
    (hreal : ∀ b n r, rowAt P b n = some r → g' b n r = g b n r)
    (hzero : ∀ b n, b < P.length → rowAt P b n = none → n < N → g' b n (List.replicate C 0) = List.replicate C 0) :
    mapRows g' (padL N P) = padL N (mapRows g P) := by
  apply List.ext_getElem
  · simp [mapRows]
  · intro b h1 h2
    have hb : b < P.length := by simpa [mapRows] using h1
    rw [mapRows_getElem]
    simp only [padL, List.getElem_map, mapRows_getElem]
    have hcb : P[b].cols = C := hc _ (List.getElem_mem _)
    apply T2.ext
    · simp only [padT, List.length_mapIdx]
      rw [List.mapIdx_append]
      congr 1
      · apply List.ext_getElem
        · simp
        · intro n h3 h4
          simp only [List.getElem_mapIdx]
          have hn : n < P[b].rows.length := by simpa using h3
          apply hreal
          simp [rowAt, hb, hn]
      · apply List.ext_getElem
        · simp
        · intro n h3 h4
          simp only [List.getElem_mapIdx, List.getElem_replicate, hcb]
          have h3' : n < N - P[b].rows.length := by simpa using h3
          refine hzero b _ hb ?_ (by omega)
          simp [rowAt, hb]
    · rfl

theorem mapRows_valid {g : Nat → Nat → List α → List α} {P : List (T2 α)} (hv : ∀ t ∈ P, t.Valid) (hg : ∀ b n r, (g b n r).length = r.length) :
    ∀ t ∈ mapRows g P, t.Valid := by
  intro t ht
  obtain ⟨b, u, hu, rfl⟩ := mem_mapRows ht
  intro r hr
  obtain ⟨n, hn, rfl⟩ := List.mem_mapIdx.1 hr
  simp only [hg]
  exact hv u hu _ (List.getElem_mem _)

theorem mapRows_cols {g : Nat → Nat → List α → List α} {P : List (T2 α)} {C : Nat} (hc : ∀ t ∈ P, t.cols = C) :
    ∀ t ∈ mapRows g P, t.cols = C := by
  intro t ht
  obtain ⟨b, u, hu, rfl⟩ := mem_mapRows ht
  exact hc u hu

theorem setPad_step {s : PC α} {a : Clouds α} {P l : List (T2 α)} {X : Attr} {N C : Nat} (h : RepN s a P) (hm : MaskOk s a)
    (hX : (a X).isSome) (hs : sizes l = sizes P) (hv : ∀ t ∈ l, t.Valid) (hc : ∀ t ∈ l, t.cols = C) (h3 : X ≠ .features → C = 3)
    (hN : N = maxL (sizes P)) :
    ∃ s' P', setPad X (padL N l) s = (.ok (), s') ∧ RepN s' (specSet X l a) P' ∧ sizes P' = sizes P ∧ MaskOk s' (specSet X l a) := by
  have hh : s.has X ≠ some false := by
    intro h0; have := h.hhas X _ h0; rw [hX] at this; cases this
  obtain ⟨s', e, hr, heq, hmk⟩ := h.setPad hs hv hc h3 hh
  have hsz : sizes (if X = .points then l else P) = sizes P := by split_ifs <;> simp [hs]
  rw [hN, ← h.hN]
  exact ⟨s', _, e, hr, hsz, hm.congr h.wf.pts hr.wf.pts hsz heq hmk⟩

/-! ### The merge step on plain clouds -/

/-- The batch after the merge block: points, normals and colours of every row are averaged with the scattered frame values, the features
get the scattered weight added. -/
def mergeImg (al : V3 α → α) (fr : Frame α) (rows : List Row) (F : List (T2 α)) (f : Nat → Nat → Nat → Nat → V3 α) (l : List (T2 α)) :
    List (T2 α) :=
  mapRows (fun b n r => mergeRow ((rowAt F b n).getD []) (scatterAl al fr rows b n) (scatter rows f b n) r) l

def mergeConf (al : V3 α → α) (fr : Frame α) (rows : List Row) (F : List (T2 α)) : List (T2 α) :=
  mapRows (fun b n r => r.map fun c => c + scatterAl al fr rows b n) F

def mergeClouds (al : V3 α → α) (fr : Frame α) (rows : List Row) (P Nn C F : List (T2 α)) : Clouds α
  | .points => some (mergeImg al fr rows F fr.gv P)
  | .normals => some (mergeImg al fr rows F fr.gn Nn)
  | .colors => some (mergeImg al fr rows F fr.rgb C)
  | .features => some (mergeConf al fr rows F)

theorem mergeRow_length (c : List α) (a : α) (q : V3 α) (r : List α) : (mergeRow c a q r).length = r.length := by simp [mergeRow]

theorem scatter_none {rows : List Row} {f : Nat → Nat → Nat → Nat → V3 α} {b n : Nat} (h : ∀ r ∈ rows, ¬ (r.b = b ∧ r.n = n)) :
    scatter rows f b n = V3.zero := by simp [scatter, lastAt_none.2 h]

theorem scatterAl_none {al : V3 α → α} {fr : Frame α} {rows : List Row} {b n : Nat} (h : ∀ r ∈ rows, ¬ (r.b = b ∧ r.n = n)) :
    scatterAl al fr rows b n = 0 := by simp [scatterAl, lastAt_none.2 h]

theorem scatter_some {rows : List Row} (hu : UniquePts rows) {r : Row} (hr : r ∈ rows) (f : Nat → Nat → Nat → Nat → V3 α) :
    scatter rows f r.b r.n = f r.b 0 r.h r.w := by simp [scatter, lastAt_mem hu hr]

theorem scatterAl_some {al : V3 α → α} {fr : Frame α} {rows : List Row} (hu : UniquePts rows) {r : Row} (hr : r ∈ rows) :
    scatterAl al fr rows r.b r.n = al (fr.v r.b 0 r.h r.w) := by simp [scatterAl, lastAt_mem hu hr]

theorem unmatched_of_none {P : List (T2 α)} {fr : Frame α} {rows : List Row} (hr : RowsOk P fr rows) {b n : Nat} (h : rowAt P b n = none) :
    ∀ r ∈ rows, ¬ (r.b = b ∧ r.n = n) := by
  rintro r hmem ⟨rfl, rfl⟩
  have := (hr r hmem).1
  rw [h] at this; cases this

theorem cell_padL_none {P : List (T2 α)} {N b n C : Nat} (hb : b < P.length) (hN : ∀ t ∈ P, t.rows.length ≤ N) (hc : ∀ t ∈ P, t.cols = C)
    (h : rowAt P b n = none) (hn : n < N) : cell (padL N P) b n = List.replicate C 0 := by
  have h1 : (padL N P)[b]? = some (padT N P[b]) := by simp [padL, hb]
  simp only [rowAt, List.getElem?_eq_getElem hb, Option.bind_some] at h
  have h2 : P[b].rows.length ≤ n := List.getElem?_eq_none_iff.1 h
  have h3 := padT_cell (N := N) P[b] n hn (hN _ (List.getElem_mem hb))
  rw [dif_neg (by omega), hc _ (List.getElem_mem hb)] at h3
  simp only [cell, List.getD_eq_getElem?_getD, h1, Option.getD_some, h3]

theorem merge_pad {s : PC α} {a : Clouds α} {P F l : List (T2 α)} (h : RepN s a P) {X : Attr} (hX : X ≠ .features) (hl : a X = some l)
    (hF : a .features = some F) {fr : Frame α} {rows : List Row} (hr : RowsOk P fr rows)
    (al : V3 α → α) (f : Nat → Nat → Nat → Nat → V3 α) {N : Nat} (hN : N = maxL (sizes P)) :
    mapRows (fun b n r => mergeRow (cell (padL N F) b n) (scatterAl al fr rows b n) (scatter rows f b n) r) (padL N l) =
      padL N (mergeImg al fr rows F f l) := by
  unfold mergeImg
  apply mapRows_padL' (C := 3) (h.wf.cols3 hX hl)
  · intro b n r hrow
    have h1 : (rowAt F b n).isSome := by
      rw [rowAt_isSome h.wf hF, ← rowAt_isSome h.wf hl, hrow]; rfl
    obtain ⟨row, hrow'⟩ := Option.isSome_iff_exists.1 h1
    rw [cell_padL hrow', hrow']; rfl
  · intro b n hb hnone hn
    have h1 : rowAt P b n = none := by
      have := rowAt_isSome h.wf hl b n
      rw [hnone] at this
      cases hp : rowAt P b n with
      | none => rfl
      | some _ => rw [hp] at this; cases this
    have hu := unmatched_of_none hr h1
    rw [scatter_none hu, scatterAl_none hu]
    simp [mergeRow, List.replicate, List.mapIdx_cons]

theorem mergeConf_pad {s : PC α} {a : Clouds α} {P F : List (T2 α)} (h : RepN s a P) (hF : a .features = some F) {C : Nat}
    (hC : ∀ t ∈ F, t.cols = C) {fr : Frame α} {rows : List Row} (hr : RowsOk P fr rows) (al : V3 α → α) {N : Nat} :
    mapRows (fun b n r => r.map fun c => c + scatterAl al fr rows b n) (padL N F) = padL N (mergeConf al fr rows F) := by
  unfold mergeConf
  apply mapRows_padL' (C := C) hC
  · intros; rfl
  · intro b n hb hnone hn
    have h1 : rowAt P b n = none := by
      have := rowAt_isSome h.wf hF b n
      rw [hnone] at this
      cases hp : rowAt P b n with
      | none => rfl
      | some _ => rw [hp] at this; cases this
    rw [scatterAl_none (unmatched_of_none hr h1)]
    simp

theorem mergeStep_rep {s : PC α} {a : Clouds α} {P Nn C F : List (T2 α)} (h : RepN s a P) (hm : MaskOk s a)
    (hNn : a .normals = some Nn) (hC : a .colors = some C) (hF : a .features = some F) (hF1 : ∀ t ∈ F, t.cols = 1)
    {fr : Frame α} {rows : List Row} (hr : RowsOk P fr rows) (al : V3 α → α) :
    ∃ s' P', mergeStep al s fr rows = (.ok (), s') ∧ RepN s' (mergeClouds al fr rows P Nn C F) P' ∧ sizes P' = sizes P ∧
      MaskOk s' (mergeClouds al fr rows P Nn C F) := by
  have hP := h.wf.pts
  obtain ⟨s1, e1, r1, _, f1, _⟩ := h.getPad .points
  obtain ⟨s2, e2, r2, _, f2, _⟩ := r1.getPad .normals
  obtain ⟨s3, e3, r3, _, f3, _⟩ := r2.getPad .colors
  obtain ⟨s4, e4, r4, _, f4, _⟩ := r3.getPad .features
  rw [hP] at e1; rw [hNn] at e2; rw [hC] at e3; rw [hF] at e4
  simp only [Option.map_some] at e1 e2 e3 e4
  have hm4 : MaskOk s4 a := (((hm.frame f1.eq f1.mask).frame f2.eq f2.mask).frame f3.eq f3.mask).frame f4.eq f4.mask
  have sp := shape_pad h hP (h.wf.cols3 (by simp) hP)
  have sf := shape_pad r3 hF hF1
  set N := maxL (sizes P) with hN
  rw [h.hN, ← hN] at e1 sp
  rw [r1.hN, ← hN] at e2
  rw [r2.hN, ← hN] at e3
  rw [r3.hN, ← hN] at e4 sf
  have hin : rowsInRange rows P.length N fr = true := rowsInRange_ok rfl hr
  have lenM : ∀ f b n (r : List α), (mergeRow ((rowAt F b n).getD []) (scatterAl al fr rows b n) (scatter rows f b n) r).length = r.length :=
    fun _ _ _ _ => mergeRow_length _ _ _ _
  -- the four assignments
  obtain ⟨t1, P1, a1, q1, z1, k1⟩ := setPad_step (X := .points) (l := mergeImg al fr rows F fr.gv P) r4 hm4 (by rw [hP]; rfl)
    (sizes_mapRows _ _) (mapRows_valid (h.wf.valid _ _ hP) (lenM _)) (mapRows_cols (h.wf.cols3 (by simp) hP)) (fun _ => rfl) hN
  obtain ⟨t2, P2, a2, q2, z2, k2⟩ := setPad_step (X := .normals) (l := mergeImg al fr rows F fr.gn Nn) q1 k1 (by simp [specSet, hNn])
    ((sizes_mapRows _ _).trans ((h.wf.rows _ _ hNn).trans z1.symm)) (mapRows_valid (h.wf.valid _ _ hNn) (lenM _))
    (mapRows_cols (h.wf.cols3 (by simp) hNn)) (fun _ => rfl) (hN.trans (by rw [z1]))
  obtain ⟨t3, P3, a3, q3, z3, k3⟩ := setPad_step (X := .colors) (l := mergeImg al fr rows F fr.rgb C) q2 k2 (by simp [specSet, hC])
    ((sizes_mapRows _ _).trans ((h.wf.rows _ _ hC).trans (z2.trans z1).symm)) (mapRows_valid (h.wf.valid _ _ hC) (lenM _))
    (mapRows_cols (h.wf.cols3 (by simp) hC)) (fun _ => rfl) (hN.trans (by rw [z2, z1]))
  obtain ⟨t4, P4, a4, q4, z4, k4⟩ := setPad_step (X := .features) (l := mergeConf al fr rows F) q3 k3 (by simp [specSet, hF])
    ((sizes_mapRows _ _).trans ((h.wf.rows _ _ hF).trans (z3.trans (z2.trans z1)).symm)) (mapRows_valid (h.wf.valid _ _ hF) (by simp))
    (mapRows_cols hF1) (by simp) (hN.trans (by rw [z3, z2, z1]))
  have heq : specSet .features (mergeConf al fr rows F) (specSet .colors (mergeImg al fr rows F fr.rgb C)
      (specSet .normals (mergeImg al fr rows F fr.gn Nn) (specSet .points (mergeImg al fr rows F fr.gv P) a))) =
      mergeClouds al fr rows P Nn C F := by
    funext X; cases X <;> simp [specSet, mergeClouds, Function.update]
  rw [heq] at q4 k4
  refine ⟨t4, P4, ?_, q4, z4.trans (z3.trans (z2.trans z1)), k4⟩
  simp only [mergeStep, e1, e2, e3, e4, Option.getD_some, sp, sf, hin, Bool.not_true, Bool.false_eq_true, if_false, ne_eq,
    not_true_eq_false, false_and]
  rw [merge_pad h (X := .points) (by simp) hP hF hr al fr.gv hN, merge_pad h (X := .normals) (by simp) hNn hF hr al fr.gn hN,
    merge_pad h (X := .colors) (by simp) hC hF hr al fr.rgb hN, mergeConf_pad h hF hF1 hr al]
  simp only [setPads, a1, a2, a3, a4]

/-! ### New clouds -/

theorem picked_sizes (fr : Frame α) (m : Nat → Nat → Nat → Nat → Bool) (f : Nat → Nat → Nat → Nat → V3 α) :
    (picked fr m f).map (fun t => t.rows.length) = (List.range fr.B).map fun b => (pixels fr.L fr.H fr.W (m b)).length := by
  simp [picked]

theorem picked_wf {fr : Frame α} (hB : 0 < fr.B) (al : V3 α → α) (m : Nat → Nat → Nat → Nat → Bool) :
    Wf (newArg al fr m) (picked fr m fr.gv) := by
  have hp : ∀ f, ∀ t ∈ picked fr m f, t.Valid ∧ t.cols = 3 := by
    intro f t ht
    simp only [picked, List.mem_map] at ht
    obtain ⟨b, _, rfl⟩ := ht
    refine ⟨?_, rfl⟩
    intro r hr
    simp only [List.mem_map] at hr
    obtain ⟨x, _, rfl⟩ := hr
    rfl
  have ha : ∀ t ∈ pickedAl al fr m, t.Valid ∧ t.cols = 1 := by
    intro t ht
    simp only [pickedAl, List.mem_map] at ht
    obtain ⟨b, _, rfl⟩ := ht
    refine ⟨?_, rfl⟩
    intro r hr
    simp only [List.mem_map] at hr
    obtain ⟨x, _, rfl⟩ := hr
    rfl
  refine ⟨rfl, ?_, ?_, ?_, ?_⟩
  · intro h0
    have := congrArg List.length h0
    simp [picked] at this; omega
  · intro X l hl
    cases X <;> simp only [newArg, Option.some.injEq] at hl <;> subst hl <;> simp [picked_sizes, sizes, pickedAl]
  · intro X l hl t ht
    cases X <;> simp only [newArg, Option.some.injEq] at hl <;> subst hl
    · exact (hp _ t ht).1
    · exact (hp _ t ht).1
    · exact (hp _ t ht).1
    · exact (ha t ht).1
  · intro X l hl
    cases X <;> simp only [newArg, Option.some.injEq] at hl <;> subst hl
    · exact ⟨3, fun t ht => (hp _ t ht).2, fun _ => rfl⟩
    · exact ⟨3, fun t ht => (hp _ t ht).2, fun _ => rfl⟩
    · exact ⟨3, fun t ht => (hp _ t ht).2, fun _ => rfl⟩
    · exact ⟨1, fun t ht => (ha t ht).2, fun h => absurd rfl h⟩

theorem frame_wf {fr : Frame α} (hB : 0 < fr.B) (glob : Bool) (m : Nat → Nat → Nat → Nat → Bool) :
    Wf (frameArg fr glob m) (picked fr m (if glob then fr.gv else fr.v)) := by
  have hp : ∀ f, ∀ t ∈ picked fr m f, t.Valid ∧ t.cols = 3 := by
    intro f t ht
    simp only [picked, List.mem_map] at ht
    obtain ⟨b, _, rfl⟩ := ht
    refine ⟨?_, rfl⟩
    intro r hr
    simp only [List.mem_map] at hr
    obtain ⟨x, _, rfl⟩ := hr
    rfl
  refine ⟨rfl, ?_, ?_, ?_, ?_⟩
  · intro h0
    have := congrArg List.length h0
    simp [picked] at this; omega
  · intro X l hl
    cases X <;> simp only [frameArg, Option.some.injEq, reduceCtorEq] at hl <;> subst hl <;> simp [picked_sizes, sizes]
  · intro X l hl t ht
    cases X <;> simp only [frameArg, Option.some.injEq, reduceCtorEq] at hl <;> subst hl
    · exact (hp _ t ht).1
    · exact (hp _ t ht).1
    · exact (hp _ t ht).1
  · intro X l hl
    cases X <;> simp only [frameArg, Option.some.injEq, reduceCtorEq] at hl <;> subst hl
    · exact ⟨3, fun t ht => (hp _ t ht).2, fun _ => rfl⟩
    · exact ⟨3, fun t ht => (hp _ t ht).2, fun _ => rfl⟩
    · exact ⟨3, fun t ht => (hp _ t ht).2, fun _ => rfl⟩

/-! ### Clone and append -/

/-- Appending a well-formed batch to a (possibly empty) map. -/
def specGrow (a b : Clouds α) : Clouds α := if a .points = none then b else specAppend a b

theorem cloneAppend_rep {s o : PC α} {a b : Clouds α} {Q : List (T2 α)} (hs : Inv s a) (k : RepN o b Q) (hk : FlagOk o b)
    (hc : a .points ≠ none → Compatible a b) (inplace : Bool) :
    ∃ res s', cloneAppend inplace s o = (.ok res, s') ∧ Inv res (specGrow a b) ∧ ((res.lst .points).isSome) ∧
      (inplace = true → s' = res) ∧ (inplace = false → Inv s' a) := by
  rcases hs with h | ⟨P, h, hm⟩
  · have ha := h.noPoints
    have hg : specGrow a b = b := by simp [specGrow, ha]
    rw [hg]
    cases inplace with
    | true =>
      obtain ⟨s', o', e, hr, _, h1, h2, _, _, hl⟩ := append_to_empty h k
      refine ⟨s', s', by simp [cloneAppend, e], .inr ⟨Q, hr, .inr ?_⟩, ?_, fun _ => rfl, by simp⟩
      · intro Q' hQ'; rw [h2]; exact hk Q' hQ'
      · exact hl
    | false =>
      obtain ⟨s', e, hr, hr'⟩ := h.clone
      obtain ⟨s2, o', e2, hr2, _, h1, h2, _, _, hl⟩ := append_to_empty hr' k
      refine ⟨s2, s', by simp [cloneAppend, e, e2], .inr ⟨Q, hr2, .inr ?_⟩, ?_, by simp, fun _ => .inl hr⟩
      · intro Q' hQ'; rw [h2]; exact hk Q' hQ'
      · exact hl
  · have ha : a .points ≠ none := by rw [h.wf.pts]; simp
    have hg : specGrow a b = specAppend a b := by simp [specGrow, ha]
    rw [hg]
    cases inplace with
    | true =>
      obtain ⟨s', o', e, hr, _, hf, _, _, hl⟩ := h.append k (hc ha)
      exact ⟨s', s', by simp [cloneAppend, e], .inr ⟨_, hr, .inr hf⟩, hl, fun _ => rfl, by simp⟩
    | false =>
      obtain ⟨c, s', e, hr, hc', f, _⟩ := h.clone
      obtain ⟨s2, o', e2, hr2, _, hf, _, _, hl⟩ := hc'.append k (hc ha)
      exact ⟨s2, s', by simp [cloneAppend, e, e2], .inr ⟨_, hr2, .inr hf⟩, hl, by simp,
        fun _ => .inr ⟨P, hr, hm.frame f.eq f.mask⟩⟩

/-! ### fuse_with_map and update_map_aggregate -/

theorem picked_length (fr : Frame α) (m : Nat → Nat → Nat → Nat → Bool) (f : Nat → Nat → Nat → Nat → V3 α) : (picked fr m f).length = fr.B := by
  simp [picked]

/-- The map before new points are appended: merged if there are matches, else as it was. -/
def mergedOr (al : V3 α → α) (fr : Frame α) (rows : List Row) (P Nn C F : List (T2 α)) (a : Clouds α) : Clouds α :=
  if rows = [] then a else mergeClouds al fr rows P Nn C F

theorem newArg_some (al : V3 α → α) (fr : Frame α) (m : Nat → Nat → Nat → Nat → Bool) (X : Attr) : (newArg al fr m X).isSome := by
  cases X <;> rfl

/-- `fuse_with_map` on a non-empty map. -/
theorem fuse_rep {s : PC α} {a : Clouds α} {P Nn C F : List (T2 α)} (hi : Inv s a) (hP : a .points = some P)
    (hNn : a .normals = some Nn) (hC : a .colors = some C) (hF : a .features = some F) (hF1 : ∀ t ∈ F, t.cols = 1)
    {fr : Frame α} {rows : List Row} (hB : fr.B = P.length) (hr : RowsOk P fr rows) (al : V3 α → α) (inplace : Bool) :
    ∃ res s', fuseWithMap al s fr rows inplace = (.ok res, s') ∧
      Inv res (specAppend (mergedOr al fr rows P Nn C F a) (newArg al fr (newMask fr rows))) ∧ (res.lst .points).isSome ∧
      (inplace = true → s' = res) ∧ (inplace = false → Inv s' (mergedOr al fr rows P Nn C F a)) := by
  rcases hi with h | ⟨P', h, hm⟩
  · rw [h.noPoints] at hP; cases hP
  obtain rfl : P' = P := by have := h.wf.pts; rw [hP] at this; exact (Option.some.inj this).symm
  obtain ⟨s1, e1, r1, f1, _⟩ := h.hasAttr .points
  obtain ⟨s2, e2, r2, f2, _⟩ := r1.hasAttr .normals
  obtain ⟨s3, e3, r3, f3, _⟩ := r2.hasAttr .colors
  obtain ⟨s4, e4, r4, f4, _⟩ := r3.hasAttr .features
  rw [hP] at e1; rw [hNn] at e2; rw [hC] at e3; rw [hF] at e4
  simp only [Option.isSome_some] at e1 e2 e3 e4
  have hm4 : MaskOk s4 a := (((hm.frame f1.eq f1.mask).frame f2.eq f2.mask).frame f3.eq f3.mask).frame f4.eq f4.mask
  have hpos : 0 < fr.B := by rw [hB]; exact List.length_pos_iff.2 h.wf.ne
  obtain ⟨o, eo, ro, fo⟩ := newList_rep (picked_wf hpos al (newMask fr rows))
  -- the map after the merge block
  have hmerge : ∃ s5, (if (decide (rows.length ≠ 0)) = true then mergeStep al s4 fr rows else (.ok (), s4)) = (.ok (), s5) ∧
      Inv s5 (mergedOr al fr rows P' Nn C F a) := by
    by_cases h0 : rows = []
    · exact ⟨s4, by simp [h0], .inr ⟨P', by rw [mergedOr, if_pos h0]; exact r4, by rw [mergedOr, if_pos h0]; exact hm4⟩⟩
    · obtain ⟨s5, P5, e5, r5, _, m5⟩ := mergeStep_rep r4 hm4 hNn hC hF hF1 hr al
      exact ⟨s5, by simp [h0, e5], .inr ⟨P5, by rw [mergedOr, if_neg h0]; exact r5, by rw [mergedOr, if_neg h0]; exact m5⟩⟩
  obtain ⟨s5, e5, i5⟩ := hmerge
  have hall : ∀ X, (mergedOr al fr rows P' Nn C F a X).isSome := by
    intro X
    unfold mergedOr
    split_ifs
    · cases X <;> simp [hP, hNn, hC, hF]
    · cases X <;> rfl
  have hcompat : Compatible (mergedOr al fr rows P' Nn C F a) (newArg al fr (newMask fr rows)) := by
    refine ⟨?_, fun X => by rw [hall, newArg_some], ?_⟩
    · unfold mergedOr
      split_ifs
      · simp [hP, newArg, picked_length, hB]
      · simp [mergeClouds, newArg, picked_length, hB, mergeImg, mapRows_length]
    · intro l m hl hm' t ht u hu
      have hl1 : t.cols = 1 := by
        unfold mergedOr at hl
        split_ifs at hl
        · rw [hF] at hl; cases hl; exact hF1 t ht
        · simp only [mergeClouds, Option.some.injEq] at hl; subst hl
          exact mapRows_cols hF1 t ht
      simp only [newArg, Option.some.injEq] at hm'; subst hm'
      simp only [pickedAl, List.mem_map] at hu
      obtain ⟨b, _, rfl⟩ := hu
      exact hl1
  have hne : mergedOr al fr rows P' Nn C F a .points ≠ none := by
    intro h0; have := hall .points; rw [h0] at this; cases this
  obtain ⟨res, s', e6, h1, h2, h3, h4⟩ := cloneAppend_rep i5 ro fo (fun _ => hcompat) inplace
  rw [specGrow, if_neg hne] at h1
  refine ⟨res, s', ?_, h1, h2, h3, h4⟩
  have hrows : (if decide (rows.length ≠ 0) = true then rows else []) = rows := by
    by_cases h0 : rows = [] <;> simp [h0]
  simp only [fuseWithMap, e1, requireAll, e2, e3, e4, if_true, Bool.not_true, Bool.false_eq_true, if_false, Bool.true_and]
  rw [e5, hrows]
  simp only [eo, e6]

/-- `fuse_with_map` on an empty map: everything valid is appended. -/
theorem fuse_empty {s : PC α} {a : Clouds α} (hi : Inv s a) (hP : a .points = none) {fr : Frame α} (rows : List Row) (hB : 0 < fr.B)
    (al : V3 α → α) (inplace : Bool) :
    ∃ res s', fuseWithMap al s fr rows inplace = (.ok res, s') ∧ Inv res (newArg al fr (newMask fr [])) ∧ (res.lst .points).isSome ∧
      (inplace = true → s' = res) ∧ (inplace = false → Inv s' a) := by
  rcases hi with h | ⟨P', h, hm⟩
  swap
  · rw [h.wf.pts] at hP; cases hP
  obtain ⟨s1, e1, r1⟩ := h.hasAttr .points
  obtain ⟨o, eo, ro, fo⟩ := newList_rep (picked_wf hB al (newMask fr []))
  obtain ⟨res, s', e6, h1, h2, h3, h4⟩ := cloneAppend_rep (.inl r1) ro fo (fun hh => absurd hP hh) inplace
  rw [specGrow, if_pos hP] at h1
  refine ⟨res, s', ?_, h1, h2, h3, h4⟩
  simp only [fuseWithMap, e1, Bool.false_eq_true, if_false, Bool.not_true, Bool.false_and, eo, e6]

/-- `update_map_aggregate`. -/
theorem aggregate_rep {s : PC α} {a : Clouds α} (hi : Inv s a) {fr : Frame α} (hL : fr.L = 1) (hB : 0 < fr.B)
    (hc : a .points ≠ none → Compatible a (frameArg fr true fr.valid)) (inplace : Bool) :
    ∃ res s', updateMapAggregate s fr inplace = (.ok res, s') ∧ Inv res (specGrow a (frameArg fr true fr.valid)) ∧
      (res.lst .points).isSome ∧ (inplace = true → s' = res) ∧ (inplace = false → Inv s' a) := by
  obtain ⟨o, eo, ro, fo⟩ := newList_rep (frame_wf hB true fr.valid)
  obtain ⟨res, s', e6, h1⟩ := cloneAppend_rep hi ro fo hc inplace
  refine ⟨res, s', ?_, h1⟩
  simp only [if_true] at eo
  simp only [updateMapAggregate, pointcloudsFromRgbd, hL, ne_eq, not_true_eq_false, if_false, if_true, eo, e6]

end
end Verif.Fusion
