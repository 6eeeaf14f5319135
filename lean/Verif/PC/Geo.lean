import Verif.PC.Refine4
/-! The geometric operations of `Pointclouds` act on the batch as specified and keep the padding zero. -/
namespace Verif.Pcs
open Verif
set_option linter.unusedSectionVars false
set_option linter.unusedSimpArgs false

section
variable {α : Type*}

theorem mapRows_length (g : Nat → Nat → List α → List α) (P : List (T2 α)) : (mapRows g P).length = P.length := by simp [mapRows]

theorem mapRows_getElem (g : Nat → Nat → List α → List α) (P : List (T2 α)) (b : Nat) (h : b < (mapRows g P).length) :
    (mapRows g P)[b] = { P[b]'(by simpa [mapRows] using h) with rows := (P[b]'(by simpa [mapRows] using h)).rows.mapIdx (g b) } := by
  simp [mapRows]

theorem sizes_mapRows (g : Nat → Nat → List α → List α) (P : List (T2 α)) : sizes (mapRows g P) = sizes P := by
  apply List.ext_getElem
  · simp [sizes, mapRows]
  · intro b h1 h2
    simp [sizes, mapRows]

theorem mem_mapRows {g : Nat → Nat → List α → List α} {P : List (T2 α)} {t : T2 α} (h : t ∈ mapRows g P) :
    ∃ b, ∃ u ∈ P, t = { u with rows := u.rows.mapIdx (g b) } := by
  obtain ⟨b, hb, rfl⟩ := List.getElem_of_mem h
  rw [mapRows_getElem]
  exact ⟨b, _, List.getElem_mem _, rfl⟩

theorem Wf.mapAttr {a : Clouds α} {P} (h : Wf a P) (S : Attr → Prop) [DecidablePred S] (hS : S .points) (g : Nat → Nat → List α → List α)
    (hg : ∀ b n r, r.length = 3 → (g b n r).length = 3) (hf : ¬ S .features) :
    Wf (fun X => if S X then (a X).map (mapRows g) else a X) (mapRows g P) := by
  have key : ∀ X l, (if S X then (a X).map (mapRows g) else a X) = some l → ∃ m, a X = some m ∧ ((S X ∧ l = mapRows g m) ∨ l = m) := by
    intro X l hl
    split_ifs at hl with hX
    · obtain ⟨m, hm, rfl⟩ := Option.map_eq_some_iff.1 hl
      exact ⟨m, hm, .inl ⟨hX, rfl⟩⟩
    · exact ⟨l, hl, .inr rfl⟩
  have hn : ∀ X, S X → X ≠ .features := by rintro X hX rfl; exact hf hX
  refine ⟨by simp [hS, h.pts], ?_, ?_, ?_, ?_⟩
  · intro h0; apply h.ne; apply List.length_eq_zero_iff.1; rw [← mapRows_length g P, h0]; rfl
  · intro X l hl
    rw [sizes_mapRows]
    obtain ⟨m, hm, ⟨_, rfl⟩ | rfl⟩ := key X l hl
    · show sizes (mapRows g m) = _
      rw [sizes_mapRows]; exact h.rows X m hm
    · exact h.rows X _ hm
  · intro X l hl t ht
    obtain ⟨m, hm, ⟨hX, rfl⟩ | rfl⟩ := key X l hl
    · obtain ⟨b, u, hu, rfl⟩ := mem_mapRows ht
      have h3 := h.valid X m hm u hu
      obtain ⟨C, hc, hC⟩ := h.cols X m hm
      have hu3 : u.cols = 3 := by rw [hc u hu, hC (hn X hX)]
      intro r hr
      obtain ⟨n, hn', rfl⟩ := List.getElem_of_mem hr
      simp only [List.getElem_mapIdx]
      have := h3 _ (List.getElem_mem (by simpa using hn'))
      rw [hu3] at this
      show _ = u.cols
      rw [hu3]; exact hg _ _ _ this
    · exact h.valid X _ hm t ht
  · intro X l hl
    obtain ⟨m, hm, ⟨hX, rfl⟩ | rfl⟩ := key X l hl
    · obtain ⟨C, hc, hC⟩ := h.cols X m hm
      refine ⟨C, ?_, hC⟩
      intro t ht
      obtain ⟨b, u, hu, rfl⟩ := mem_mapRows ht
      exact hc u hu
    · exact h.cols X _ hm

variable [Zero α]

/-- A map of padded tensors that does `g` to the real rows and keeps zero rows is the padding of the mapped clouds. -/
theorem mapRows_padL {g g' : Nat → Nat → List α → List α} {N : Nat} {P : List (T2 α)} (hv : ∀ t ∈ P, t.Valid) (hc : ∀ t ∈ P, t.cols = 3)
    (hreal : ∀ b n r (hb : b < P.length), n < P[b].rows.length → r.length = 3 → g' b n r = g b n r)
    (hzero : ∀ b n (hb : b < P.length), P[b].rows.length ≤ n → n < N → g' b n [0, 0, 0] = [0, 0, 0]) :
    mapRows g' (padL N P) = padL N (mapRows g P) := by
  apply List.ext_getElem
  · simp [mapRows]
  · intro b h1 h2
    have hb : b < P.length := by simpa [mapRows] using h1
    rw [mapRows_getElem]
    simp only [padL, List.getElem_map, mapRows_getElem]
    have hcb : P[b].cols = 3 := hc _ (List.getElem_mem _)
    apply T2.ext
    · simp only [padT, List.length_mapIdx]
      rw [List.mapIdx_append]
      congr 1
      · apply List.ext_getElem
        · simp
        · intro n h3 h4
          simp only [List.getElem_mapIdx]
          have hn : n < P[b].rows.length := by simpa using h3
          apply hreal _ _ _ hb hn
          rw [hv _ (List.getElem_mem hb) _ (List.getElem_mem hn), hcb]
      · apply List.ext_getElem
        · simp
        · intro n h3 h4
          simp only [List.getElem_mapIdx, List.getElem_replicate, hcb]
          have h3' : n < N - P[b].rows.length := by simpa using h3
          exact hzero b _ hb (by omega) (by omega)
    · rfl

/-- The object that holds the padded tensors of the mapped clouds, and no list for the mapped attributes. -/
theorem RepN.mapped {s : PC α} {a P} (h : RepN s a P) (hp : ∀ X, s.pad X = (a X).map (padL s.N)) (S : Attr → Prop) [DecidablePred S]
    (hS : S .points) (hf : ¬ S .features) (g g' : Nat → Nat → List α → List α) (hg : ∀ b n r, r.length = 3 → (g b n r).length = 3)
    (hreal : ∀ b n r (hb : b < P.length), n < P[b].rows.length → r.length = 3 → g' b n r = g b n r)
    (hzero : ∀ b n (hb : b < P.length), P[b].rows.length ≤ n → n < s.N → g' b n [0, 0, 0] = [0, 0, 0])
    {s' : PC α} (e1 : ∀ X, s'.pad X = if S X then (s.pad X).map (mapRows g') else s.pad X)
    (e2 : ∀ X, s'.lst X = if S X then none else s.lst X) (e3 : s'.has = s.has) (e4 : s'.mask = s.mask) (e5 : s'.num = s.num)
    (e6 : s'.B = s.B) (e7 : s'.N = s.N) :
    RepN s' (fun X => if S X then (a X).map (mapRows g) else a X) (mapRows g P) := by
  have hpad : ∀ X, s'.pad X = (if S X then (a X).map (mapRows g) else a X).map (padL s'.N) := by
    intro X
    rw [e1, e7, hp]
    split_ifs with hX
    · cases hx : a X with
      | none => rfl
      | some l =>
        simp only [Option.map_some, Option.some.injEq]
        have hlen := h.wf.length hx
        have hsz : ∀ b (hb : b < P.length), (l[b]'(by omega)).rows.length = P[b].rows.length := by
          intro b hb
          have := congrArg (fun z => z[b]?) (h.wf.rows X l hx)
          simp only [sizes, List.getElem?_map, List.getElem?_eq_getElem hb, List.getElem?_eq_getElem (show b < l.length by omega),
            Option.map_some, Option.some.injEq] at this
          exact this
        apply mapRows_padL (h.wf.valid X l hx) (h.wf.cols3 (by rintro rfl; exact hf hX) hx)
        · intro b n r hb hn hr
          exact hreal b n r (by omega) (by rw [← hsz b (by omega)]; exact hn) hr
        · intro b n hb hn hN
          exact hzero b n (by omega) (by rw [← hsz b (by omega)]; exact hn) hN
    · rfl
  refine ⟨h.wf.mapAttr S hS g hg hf, ?_, ?_, ?_, ?_, fun X => .inr (hpad X), .inr hpad, ?_, ?_⟩
  · rw [e6, h.hB, mapRows_length]
  · rw [e5, h.hnum, sizes_mapRows]
  · rw [e7, h.hN, sizes_mapRows]
  · intro X
    rw [e2]
    split_ifs with hX
    · exact .inl rfl
    · exact h.hlst X
  · intro X b hb
    rw [e3] at hb
    rw [h.hhas X b hb]
    split_ifs <;> cases a X <;> rfl
  · intro m hm
    rw [e4] at hm
    rw [h.hmask m hm]
    exact (maskOf_congr (sizes_mapRows g P)).symm

end

section geo
variable {α : Type*} [Field α]

/-- The value of the mask at a point and at padding. -/
theorem maskVal_maskOf {P : List (T2 α)} {b n : Nat} (hb : b < P.length) :
    (n < P[b].rows.length → (maskVal (maskOf P) b n : α) = 1) ∧ (P[b].rows.length ≤ n → n < maxL (sizes P) → (maskVal (maskOf P) b n : α) = 0) := by
  have e : (maskOf P).getD b [] = (List.range (maxL (sizes P))).map fun n => decide (n < P[b].rows.length) := by
    simp [maskOf, List.getD_eq_getElem?_getD, hb]
  simp only [maskVal, e]
  constructor
  · intro hn
    have : n < maxL (sizes P) := lt_of_lt_of_le hn (le_maxL (by simp only [sizes]; exact List.mem_map_of_mem (List.getElem_mem hb)))
    simp [List.getD_eq_getElem?_getD, this, hn]
  · intro h1 h2
    simp [List.getD_eq_getElem?_getD, h2, h1]

theorem len3 {β : Type*} {r : List β} (h : r.length = 3) : ∃ x y z, r = [x, y, z] := by
  match r, h with
  | [x, y, z], _ => exact ⟨x, y, z, rfl⟩

theorem flag_of_sizes {s s' : PC α} {a a' : Clouds α} {P P' : List (T2 α)} (h1 : a .points = some P) (h2 : a' .points = some P')
    (h3 : sizes P' = sizes P) (h4 : s'.eq = s.eq) (h : FlagOk s a) : FlagOk s' a' := by
  intro Q hQ
  rw [h2, Option.some.injEq] at hQ; subst hQ
  rw [h4, h3]; exact h P h1

/-- The common form of the masked in-place operations. -/
theorem RepN.masked {s : PC α} {a P} (h : RepN s a P) (hm : MaskOk s a) (g : Nat → Nat → List α → List α)
    (g' : List (List Bool) → Nat → Nat → List α → List α)
    (hg : ∀ b n r, r.length = 3 → (g b n r).length = 3)
    (h1 : ∀ m b n r, r.length = 3 → (maskVal m b n : α) = 1 → g' m b n r = g b n r)
    (h0 : ∀ m b n, (maskVal m b n : α) = 0 → g' m b n [0, 0, 0] = [0, 0, 0]) :
    ∃ s1 s2, Pcs.getPad .points s = (.ok ((a .points).map (padL s.N)), s1) ∧ Pcs.getMask s1 = (some (maskOf P), s2) ∧
      RepN (setPts (g' ((some (maskOf P)).getD [])) s2) (onPoints g a) (mapRows g P) ∧
      (setPts (g' ((some (maskOf P)).getD [])) s2).eq = s.eq ∧ (setPts (g' ((some (maskOf P)).getD [])) s2).mask.isSome := by
  obtain ⟨s1, e1, hr1, hp1, hf1, _⟩ := h.getPad .points
  have hm1 : MaskOk s1 a := by
    rcases hm with hm | hm
    · left; rw [hf1.mask]; exact hm
    · right; intro Q hQ; rw [hf1.eq]; exact hm Q hQ
  obtain ⟨s2, e2, hr2, hmask2, hl2, hpad2, heq2, hB2, hN2, hn2⟩ := hr1.getMask hm1
  refine ⟨s1, s2, e1, e2, ?_, ?_, ?_⟩
  · have hp2 : ∀ X, s2.pad X = (a X).map (padL s2.N) := by intro X; rw [hpad2, hN2]; exact hp1 X
    have heq : onPoints g a = fun X => if X = .points then (a X).map (mapRows g) else a X := by
      funext X; simp only [onPoints]; split_ifs with hX
      · subst hX; rfl
      · rfl
    rw [heq]
    refine hr2.mapped hp2 (· = .points) rfl (by simp) g (g' (maskOf P)) hg ?_ ?_ ?_ ?_ rfl rfl rfl rfl rfl
    · intro b n r hb hn hr
      exact h1 _ _ _ _ hr ((maskVal_maskOf hb).1 hn)
    · intro b n hb hn hN
      exact h0 _ _ _ ((maskVal_maskOf hb).2 hn (by rw [← hr2.hN]; exact hN))
    · intro X
      simp only [setPts, Option.getD_some]
      by_cases hX : X = .points
      · subst hX; simp
      · simp [Function.update_of_ne hX, hX]
    · intro X
      simp only [setPts]
      by_cases hX : X = .points
      · subst hX; simp
      · simp [Function.update_of_ne hX, hX]
  · show s2.eq = s.eq
    rw [heq2, hf1.eq]
  · show s2.mask.isSome = true
    rw [hmask2]; rfl

/-- `offset_`: every point is moved, padding stays zero. -/
theorem RepN.offset_ {s : PC α} {a P} (h : RepN s a P) (hm : MaskOk s a) (f : Nat → Nat → Nat → α) :
    ∃ s', Pcs.offset_ f s = (.ok (), s') ∧
      RepN s' (onPoints (fun b n r => r.mapIdx fun c x => x + f b n c) a) (mapRows (fun b n r => r.mapIdx fun c x => x + f b n c) P) ∧
      s'.eq = s.eq ∧ s'.mask.isSome := by
  obtain ⟨s0, e0, hr0, hf0, _⟩ := h.hasAttr .points
  have hm0 : MaskOk s0 a := by
    rcases hm with hm | hm
    · left; rw [hf0.mask]; exact hm
    · right; intro Q hQ; rw [hf0.eq]; exact hm Q hQ
  obtain ⟨s1, s2, e1, e2, hr, heq, hmk⟩ := hr0.masked hm0 (fun b n r => r.mapIdx fun c x => x + f b n c)
    (fun m b n r => r.mapIdx fun c x => x + f b n c * maskVal m b n) (by intro b n r hr; simp [hr])
    (by intro m b n r hr hv; simp [hv]) (by intro m b n hv; simp [hv])
  refine ⟨_, ?_, hr, ?_, hmk⟩
  · simp only [Pcs.offset_, e0, h.hasPoints, Bool.not_true, Bool.false_eq_true, if_false, e1, e2]
  · rw [heq, hf0.eq]

/-- `scale_`. -/
theorem RepN.scale_ {s : PC α} {a P} (h : RepN s a P) (hm : MaskOk s a) (f : Nat → Nat → Nat → α) :
    ∃ s', Pcs.scale_ f s = (.ok (), s') ∧
      RepN s' (onPoints (fun b n r => r.mapIdx fun c x => x * f b n c) a) (mapRows (fun b n r => r.mapIdx fun c x => x * f b n c) P) ∧
      s'.eq = s.eq ∧ s'.mask.isSome := by
  obtain ⟨s0, e0, hr0, hf0, _⟩ := h.hasAttr .points
  have hm0 : MaskOk s0 a := by
    rcases hm with hm | hm
    · left; rw [hf0.mask]; exact hm
    · right; intro Q hQ; rw [hf0.eq]; exact hm Q hQ
  obtain ⟨s1, s2, e1, e2, hr, heq, hmk⟩ := hr0.masked hm0 (fun b n r => r.mapIdx fun c x => x * f b n c)
    (fun m b n r => r.mapIdx fun c x => x * f b n c * maskVal m b n) (by intro b n r hr; simp [hr])
    (by intro m b n r hr hv; simp [hv]) (by intro m b n hv; simp [hv])
  refine ⟨_, ?_, hr, ?_, hmk⟩
  · simp only [Pcs.scale_, e0, h.hasPoints, Bool.not_true, Bool.false_eq_true, if_false, e1, e2]
  · rw [heq, hf0.eq]

/-- A batched operand has one matrix per cloud. -/
def Operand.Fits {M : Type*} (R : Operand M) (B : Nat) : Prop :=
  match R with
  | .single _ => True
  | .batch ms => ms.length = B

theorem Operand.Fits.not_bad {M : Type*} {R : Operand M} {B : Nat} (h : R.Fits B) : R.badSize B = false := by
  cases R with
  | single m => rfl
  | batch ms => simp only [Operand.Fits] at h; simp [Operand.badSize, h]

theorem Operand.bad_of {M : Type*} {R : Operand M} {B : Nat} (h : ¬ R.Fits B) : R.badSize B = true := by
  cases R with
  | single m => exact absurd trivial h
  | batch ms => simp only [Operand.Fits] at h; simp [Operand.badSize, h]

theorem Operand.map_at {M M' : Type*} (f : M → M') (d : M) (d' : M') (hd : f d = d') (R : Operand M) (b : Nat) :
    (R.map f).at d' b = f (R.at d b) := by
  cases R with
  | single m => rfl
  | batch ms =>
    simp only [Operand.map, Operand.at, List.getD_eq_getElem?_getD, List.getElem?_map]
    cases ms[b]? with
    | none => simp [hd]
    | some x => rfl

theorem Operand.Fits.map {M M' : Type*} {f : M → M'} {R : Operand M} {B : Nat} (h : R.Fits B) : (R.map f).Fits B := by
  cases R with
  | single m => trivial
  | batch ms => simpa [Operand.Fits, Operand.map] using h

theorem RepN.rotate_ {s : PC α} {a P} (h : RepN s a P) (R : Operand (M3 α)) (pre : Bool) (hR : R.Fits P.length) :
    ∃ s', Pcs.rotate_ R pre s = (.ok (), s') ∧
      RepN s' (onPointsNormals (fun b _ r => rowMul (if pre then (R.at M3.one b).transpose else R.at M3.one b) r) a)
        (mapRows (fun b _ r => rowMul (if pre then (R.at M3.one b).transpose else R.at M3.one b) r) P) ∧
      s'.eq = s.eq ∧ s'.mask = s.mask := by
  obtain ⟨s0, e0, hr0, hf0, _⟩ := h.hasAttr .points
  obtain ⟨s1, e1, hr1, hp1, hf1, _⟩ := hr0.getPad .points
  have hbad : R.badSize s.B = false := by rw [h.hB]; exact hR.not_bad
  have hgen : ∀ (M : Nat → M3 α), ∀ s' : PC α, s' = { s1 with
          pad := Function.update (Function.update s1.pad .points ((s1.pad .points).map (mapRows fun b _ r => rowMul (M b) r)))
            .normals ((s1.pad .normals).map (mapRows fun b _ r => rowMul (M b) r))
          lst := Function.update (Function.update s1.lst .points none) .normals none } →
      RepN s' (onPointsNormals (fun b _ r => rowMul (M b) r) a) (mapRows (fun b _ r => rowMul (M b) r) P) := by
    intro M s' hs'
    subst hs'
    refine hr1.mapped hp1 (fun X => X = .points ∨ X = .normals) (.inl rfl) (by simp) _ (fun b _ r => rowMul (M b) r) ?_ ?_ ?_ ?_ ?_ rfl rfl rfl rfl rfl
    · intro b n r hr
      obtain ⟨x, y, z, rfl⟩ := len3 hr
      rfl
    · intros; rfl
    · intros; simp [rowMul]
    · intro X; cases X <;> simp [Function.update]
    · intro X; cases X <;> simp [Function.update]
  refine ⟨_, ?_, hgen _ _ rfl, ?_, ?_⟩
  · simp only [Pcs.rotate_, e0, h.hasPoints, Bool.not_true, Bool.false_eq_true, if_false, e1]
    rw [if_neg (by rw [hbad]; simp)]
  · show s1.eq = s.eq
    rw [hf1.eq, hf0.eq]
  · show s1.mask = s.mask
    rw [hf1.mask, hf0.mask]

/-- The rotation applied to a row by `rotate_` / `transform_`. -/
def rotRow (R : Operand (M3 α)) (pre : Bool) (b : Nat) (r : List α) : List α :=
  rowMul (if pre then (R.at M3.one b).transpose else R.at M3.one b) r

theorem M4.one_R : (M4.one : M4 α).R = M3.one := rfl

/-- `transform_` rotates points and normals and then translates the points. -/
theorem RepN.transform_ {s : PC α} {a P} (h : RepN s a P) (hm : MaskOk s a) (T : Operand (M4 α)) (pre : Bool) (hT : T.Fits P.length) :
    ∃ s', Pcs.transform_ T pre s = (.ok (), s') ∧
      RepN s' (onPoints (fun b _ r => r.mapIdx fun c x => x + comp (T.at M4.one b).t c)
          (onPointsNormals (fun b _ r => rotRow (T.map M4.R) pre b r) a))
        (mapRows (fun b _ r => r.mapIdx fun c x => x + comp (T.at M4.one b).t c) (mapRows (fun b _ r => rotRow (T.map M4.R) pre b r) P)) ∧
      s'.eq = s.eq ∧ s'.mask.isSome := by
  obtain ⟨s0, e0, hr0, hf0, _⟩ := h.hasAttr .points
  obtain ⟨s1, e1, hr1, hp1, hf1, _⟩ := hr0.getPad .points
  obtain ⟨s2, e2, hr2, heq2, hmk2⟩ := hr1.rotate_ (T.map M4.R) pre hT.map
  have hm2 : MaskOk s2 (onPointsNormals (fun b _ r => rotRow (T.map M4.R) pre b r) a) := by
    rcases hm with hm | hm
    · left; rw [hmk2, hf1.mask, hf0.mask]; exact hm
    · right
      exact flag_of_sizes (s := s) (a := a) h.wf.pts hr2.wf.pts (sizes_mapRows _ _) (by rw [heq2, hf1.eq, hf0.eq]) hm
  obtain ⟨s3, e3, hr3, heq3, hmk3⟩ := hr2.offset_ hm2 (fun b _ c => comp (T.at M4.one b).t c)
  refine ⟨s3, ?_, hr3, ?_, hmk3⟩
  · simp only [Pcs.transform_]
    rw [if_neg (by rw [h.hB, hT.not_bad]; simp)]
    simp only [e0, h.hasPoints, Bool.not_true, Bool.false_eq_true, if_false, e1, e2]
    exact e3
  · rw [heq3, heq2, hf1.eq, hf0.eq]

theorem RepN.pinhole [LinearOrder α] {s : PC α} {a P} (h : RepN s a P) (hm : MaskOk s a) (K : Operand (M4 α)) (hK : K.Fits P.length) :
    ∃ s', Pcs.pinholeProjection_ K s = (.ok (), s') ∧
      RepN s' (onPoints (fun b _ r => projRow (K.at M4.one b) r) a) (mapRows (fun b _ r => projRow (K.at M4.one b) r) P) ∧
      s'.eq = s.eq ∧ s'.mask.isSome := by
  obtain ⟨s0, e0, hr0, hf0, _⟩ := h.hasAttr .points
  have hm0 : MaskOk s0 a := by
    rcases hm with hm | hm
    · left; rw [hf0.mask]; exact hm
    · right; intro Q hQ; rw [hf0.eq]; exact hm Q hQ
  obtain ⟨s1, s2, e1, e2, hr, heq, hmk⟩ := hr0.masked hm0 (fun b _ r => projRow (K.at M4.one b) r)
    (fun m b n r => (projRow (K.at M4.one b) r).map fun x => x * maskVal m b n)
    (by intro b n r hr; obtain ⟨x, y, z, rfl⟩ := len3 hr; rfl)
    (by intro m b n r hr hv; simp [hv]) (by intro m b n hv; simp [hv, projRow])
  have hB : s1.B = P.length := by
    obtain ⟨s1', e1', hr1', _⟩ := hr0.getPad .points
    rw [e1'] at e1; cases e1; exact hr1'.hB
  refine ⟨_, ?_, hr, ?_, hmk⟩
  · simp only [Pcs.pinholeProjection_, e0, h.hasPoints, Bool.not_true, Bool.false_eq_true, if_false, e1]
    rw [if_neg (by rw [hB, hK.not_bad]; simp)]
    simp only [e2]
  · rw [heq, hf0.eq]

/-- Wrong batch sizes are rejected and change nothing. -/
theorem RepN.rotate_bad {s : PC α} {a P} (h : RepN s a P) (R : Operand (M3 α)) (pre : Bool) (hR : ¬ R.Fits P.length) :
    Pcs.rotate_ R pre s = (.error .valueError, s) := by
  simp only [Pcs.rotate_]
  rw [if_pos (by rw [h.hB]; exact Operand.bad_of hR)]

theorem RepN.transform_bad {s : PC α} {a P} (h : RepN s a P) (T : Operand (M4 α)) (pre : Bool) (hT : ¬ T.Fits P.length) :
    Pcs.transform_ T pre s = (.error .valueError, s) := by
  simp only [Pcs.transform_]
  rw [if_pos (by rw [h.hB]; exact Operand.bad_of hT)]

theorem RepN.pinhole_bad [LinearOrder α] {s : PC α} {a P} (h : RepN s a P) (K : Operand (M4 α)) (hK : ¬ K.Fits P.length) :
    ∃ s', Pcs.pinholeProjection_ K s = (.error .valueError, s') ∧ RepN s' a P ∧ s'.eq = s.eq ∧ s'.mask = s.mask := by
  obtain ⟨s0, e0, hr0, hf0, _⟩ := h.hasAttr .points
  obtain ⟨s1, e1, hr1, _, hf1, _⟩ := hr0.getPad .points
  refine ⟨s1, ?_, hr1, by rw [hf1.eq, hf0.eq], by rw [hf1.mask, hf0.mask]⟩
  simp only [Pcs.pinholeProjection_, e0, h.hasPoints, Bool.not_true, Bool.false_eq_true, if_false, e1]
  rw [if_pos (by rw [hr1.hB]; exact Operand.bad_of hK)]

/-- The geometric operations leave an empty object empty. -/
theorem RepE.geo [LinearOrder α] {s : PC α} {a} (h : RepE s a) (f : Nat → Nat → Nat → α) (R : Operand (M3 α)) (T K : Operand (M4 α)) (pre : Bool) :
    (∃ s', Pcs.offset_ f s = (.ok (), s') ∧ RepE s' a) ∧ (∃ s', Pcs.scale_ f s = (.ok (), s') ∧ RepE s' a) ∧
    (R.Fits 0 → ∃ s', Pcs.rotate_ R pre s = (.ok (), s') ∧ RepE s' a) ∧ (T.Fits 0 → ∃ s', Pcs.transform_ T pre s = (.ok (), s') ∧ RepE s' a) ∧
    (∃ s', Pcs.pinholeProjection_ K s = (.ok (), s') ∧ RepE s' a) := by
  obtain ⟨s1, e, hr⟩ := h.hasAttr .points
  refine ⟨⟨s1, ?_, hr⟩, ⟨s1, ?_, hr⟩, fun hR => ⟨s1, ?_, hr⟩, fun hT => ⟨s1, ?_, hr⟩, ⟨s1, ?_, hr⟩⟩
  · simp [Pcs.offset_, e]
  · simp [Pcs.scale_, e]
  · simp [Pcs.rotate_, e, h.hB, hR.not_bad]
  · simp [Pcs.transform_, e, h.hB, hT.not_bad]
  · simp [Pcs.pinholeProjection_, e]

end geo
end Verif.Pcs
