import Verif.PC.Refine3
/-! `append_points` preserves the representation relation. -/
namespace Verif.Pcs
open Verif
set_option linter.unusedSectionVars false
set_option linter.unusedSimpArgs false

section
variable {α : Type*} [Zero α]

/-- Concatenation of two batches' tensors. -/
def catL (l m : List (T2 α)) : List (T2 α) := List.zipWith (fun t u => ⟨t.rows ++ u.rows, t.cols⟩) l m

/-- `catL` of optional attributes. -/
def catO (x y : Option (List (T2 α))) : Option (List (T2 α)) :=
  match x, y with
  | some l, some m => some (catL l m)
  | _, _ => none

theorem specAppend_eq (a b : Clouds α) (X : Attr) : specAppend a b X = catO (a X) (b X) := by
  simp only [specAppend, catO]
  cases a X <;> cases b X <;> rfl

theorem catL_length {l m : List (T2 α)} (h : l.length = m.length) : (catL l m).length = l.length := by simp [catL, h]

theorem sizes_catL : ∀ l m : List (T2 α), sizes (catL l m) = List.zipWith (· + ·) (sizes l) (sizes m) := by
  intro l
  induction l with
  | nil => intro m; cases m <;> rfl
  | cons t l ih =>
    intro m
    cases m with
    | nil => rfl
    | cons u m => 
      have := ih m
      simp only [catL, sizes, List.zipWith_cons_cons, List.map_cons, List.length_append] at *
      rw [this]

theorem mem_catL {l m : List (T2 α)} {x : T2 α} (h : x ∈ catL l m) : ∃ t ∈ l, ∃ u ∈ m, x = ⟨t.rows ++ u.rows, t.cols⟩ := by
  induction l generalizing m with
  | nil => cases m <;> simp [catL] at h
  | cons t l ih =>
    cases m with
    | nil => simp [catL] at h
    | cons u m =>
      simp only [catL, List.zipWith_cons_cons, List.mem_cons] at h
      rcases h with h | h
      · exact ⟨t, by simp, u, by simp, h⟩
      · obtain ⟨t', ht', u', hu', e⟩ := ih h
        exact ⟨t', by simp [ht'], u', by simp [hu'], e⟩

theorem specAppend_some {a b : Clouds α} {X l m} (ha : a X = some l) (hb : b X = some m) : specAppend a b X = some (catL l m) := by
  simp [specAppend, ha, hb, catL]

theorem Wf.append {a b : Clouds α} {P Q} (ha : Wf a P) (hb : Wf b Q) (hc : Compatible a b) : Wf (specAppend a b) (catL P Q) := by
  obtain ⟨h1, h2, h3⟩ := hc
  rw [ha.pts, hb.pts] at h1
  have hlen : P.length = Q.length := by simpa using h1
  have key : ∀ X x, specAppend a b X = some x → ∃ l m, a X = some l ∧ b X = some m ∧ x = catL l m := by
    intro X x hx
    cases hl : a X with
    | none => simp [specAppend, hl] at hx
    | some l =>
      cases hm : b X with
      | none => simp [specAppend, hl, hm] at hx
      | some m => rw [specAppend_some hl hm, Option.some.injEq] at hx; exact ⟨l, m, rfl, rfl, hx.symm⟩
  have wid : ∀ X l m, a X = some l → b X = some m → ∃ C, (∀ t ∈ l, t.cols = C) ∧ (∀ u ∈ m, u.cols = C) ∧ (X ≠ .features → C = 3) := by
    intro X l m hl hm
    by_cases hX : X = .features
    · subst hX
      obtain ⟨C, hC, _⟩ := ha.cols _ l hl
      refine ⟨C, hC, ?_, by simp⟩
      obtain ⟨t, ht⟩ := List.exists_mem_of_ne_nil l (ha.ne_nil hl)
      intro u hu
      rw [← h3 l m hl hm t ht u hu, hC t ht]
    · exact ⟨3, ha.cols3 hX hl, hb.cols3 hX hm, fun _ => rfl⟩
  refine ⟨specAppend_some ha.pts hb.pts, ?_, ?_, ?_, ?_⟩
  · intro h0
    have := catL_length hlen
    rw [h0] at this
    exact ha.ne (List.length_eq_zero_iff.1 this.symm)
  · intro X x hx
    obtain ⟨l, m, hl, hm, rfl⟩ := key X x hx
    show sizes (catL l m) = sizes (catL P Q)
    rw [sizes_catL, sizes_catL, ha.sizes_of hl, hb.sizes_of hm]
  · intro X x hx t ht
    obtain ⟨l, m, hl, hm, rfl⟩ := key X x hx
    obtain ⟨C, hC, hC', _⟩ := wid X l m hl hm
    obtain ⟨t', ht', u', hu', rfl⟩ := mem_catL ht
    intro r hr
    rcases List.mem_append.1 hr with hr | hr
    · exact ha.valid X l hl t' ht' r hr
    · have := hb.valid X m hm u' hu' r hr
      rw [this, hC' u' hu', ← hC t' ht']
  · intro X x hx
    obtain ⟨l, m, hl, hm, rfl⟩ := key X x hx
    obtain ⟨C, hC, _, h3'⟩ := wid X l m hl hm
    refine ⟨C, ?_, h3'⟩
    intro t ht
    obtain ⟨t', ht', _, _, rfl⟩ := mem_catL ht
    exact hC t' ht'

/-- What is known of one attribute of an object while `append_points` is running. -/
structure Slot (s : PC α) (X : Attr) (o : Option (List (T2 α))) : Prop where
  lst : s.lst X = none ∨ s.lst X = o
  pad : s.pad X = none ∨ s.pad X = o.map (padL s.N)
  pres : ((s.lst X).isSome || (s.pad X).isSome) = o.isSome
  num : ∀ l, o = some l → s.num = l.map fun t => t.rows.length

theorem RepN.slot {s : PC α} {a P} (h : RepN s a P) (X : Attr) : Slot s X (a X) :=
  ⟨h.hlst X, h.hpad X, h.present X, fun l hl => by rw [h.hnum, ← h.wf.rows X l hl]⟩

theorem appendAttr_local {s o : PC α} {X : Attr} {l m : List (T2 α)} (hs : Slot s X (some l)) (ho : Slot o X (some m)) :
    appendAttr X s o = ({ s with lst := Function.update s.lst X (some (catL l m)), pad := Function.update s.pad X none },
      { o with lst := Function.update o.lst X (some m) }) := by
  simp only [appendAttr, getList_local hs.lst hs.pad hs.pres hs.num, getList_local ho.lst ho.pad ho.pres ho.num,
    Function.update_idem, Option.getD_some, catL]

theorem appendIf_local {s o : PC α} {X : Attr} {x y : Option (List (T2 α))} (hs : Slot s X x) (ho : Slot o X y)
    (hxy : x.isSome = y.isSome) (hh : s.has X = some x.isSome) :
    appendIf X s o = ({ s with
        lst := Function.update s.lst X (catO x y),
        pad := Function.update s.pad X none },
      { o with lst := Function.update o.lst X y }) := by
  simp only [appendIf, Pcs.hasAttr, hh]
  cases x with
  | none =>
    cases y with
    | some m => simp at hxy
    | none =>
      have h1 : s.lst X = none ∧ s.pad X = none := by
        have := hs.pres
        simp only [Option.isSome_none, Bool.or_eq_false_iff, Option.isSome_eq_false_iff, Option.isNone_iff_eq_none] at this
        exact this
      have h2 : o.lst X = none := by
        have := ho.pres
        simp only [Option.isSome_none, Bool.or_eq_false_iff, Option.isSome_eq_false_iff, Option.isNone_iff_eq_none] at this
        exact this.1
      have e1 : Function.update s.lst X none = s.lst := by rw [← h1.1, Function.update_eq_self]
      have e2 : Function.update s.pad X none = s.pad := by rw [← h1.2, Function.update_eq_self]
      have e3 : Function.update o.lst X none = o.lst := by rw [← h2, Function.update_eq_self]
      have e0 : catO (none : Option (List (T2 α))) none = none := rfl
      simp [e0, e1, e2, e3]
  | some l =>
    cases y with
    | none => simp at hxy
    | some m => simp only [Option.isSome_some, if_true]; exact appendAttr_local hs ho

/-- `append_points` of two non-empty compatible objects. -/
theorem RepN.append {s o : PC α} {a b : Clouds α} {P Q} (h : RepN s a P) (k : RepN o b Q) (hc : Compatible a b) :
    ∃ s' o', Pcs.append s o = (.ok (), s', o') ∧ RepN s' (specAppend a b) (catL P Q) ∧ RepN o' b Q ∧ FlagOk s' (specAppend a b) ∧
      o'.mask = o.mask ∧ o'.eq = o.eq ∧ (s'.lst .points).isSome := by
  obtain ⟨hc1, hc2, hc3⟩ := hc
  have hB : P.length = Q.length := by rw [h.wf.pts, k.wf.pts] at hc1; simpa using hc1
  obtain ⟨o1, eo1, ko1, fo1, po1, _, _, _⟩ := k.hasAttr .points
  obtain ⟨s1, es1, hs1, fs1, ps1, _, _, _⟩ := h.hasAttr .points
  obtain ⟨s2, es2, hs2, fs2, ps2, _, n2, _⟩ := hs1.hasAttr .normals
  obtain ⟨o2, eo2, ko2, fo2, po2, _, _, _⟩ := ko1.hasAttr .normals
  obtain ⟨s3, es3, hs3, fs3, ps3, _, n3, c3⟩ := hs2.hasAttr .colors
  obtain ⟨o3, eo3, ko3, fo3, po3, _, _, _⟩ := ko2.hasAttr .colors
  obtain ⟨s4, es4, hs4, fs4, ps4, _, n4, c4⟩ := hs3.hasAttr .features
  obtain ⟨o4, eo4, ko4, fo4, po4, _, _, _⟩ := ko3.hasAttr .features
  obtain ⟨k1, s5, k2, o5, es5, eo5, hs5, ko5, fs5, fo5, hk, hn, hcl, hfe⟩ : ∃ k1 s5 k2 o5,
      (if (a .features).isSome then Pcs.numFeatures s4 else (0, s4)) = (k1, s5) ∧
      (if (a .features).isSome then Pcs.numFeatures o4 else (0, o4)) = (k2, o5) ∧ RepN s5 a P ∧ RepN o5 b Q ∧ Frame s4 s5 ∧
      Frame o4 o5 ∧ k1 = k2 ∧ s5.has .normals = some (a .normals).isSome ∧ s5.has .colors = some (a .colors).isSome ∧
      s5.has .features = some (a .features).isSome := by
    have g1 := c4 .normals _ (c3 .normals _ n2)
    have g2 := c4 .colors _ n3
    cases hf : a .features with
    | none => exact ⟨0, s4, 0, o4, rfl, rfl, hs4, ko4, Frame.refl _, Frame.refl _, rfl, g1, g2, by rw [n4, hf]⟩
    | some l =>
      obtain ⟨k1, s5, e, hr, hf5, _, _, h1, _, hcc⟩ := hs4.numFeatures
      obtain ⟨k2, o5, e', hr', hf5', _, _, h1', _, _⟩ := ko4.numFeatures
      refine ⟨k1, s5, k2, o5, e, e', hr, hr', hf5, hf5', ?_, hcc _ _ g1, hcc _ _ g2, by rw [hcc _ _ n4, hf]⟩
      have hb := hc2 .features
      rw [hf] at hb
      obtain ⟨m, hm⟩ := Option.isSome_iff_exists.1 hb.symm
      obtain ⟨t, ht⟩ := List.exists_mem_of_ne_nil l (h.wf.ne_nil hf)
      obtain ⟨u, hu⟩ := List.exists_mem_of_ne_nil m (k.wf.ne_nil hm)
      rw [← h1 l hf t ht, ← h1' m hm u hu]
      exact hc3 l m hf hm t ht u hu
  -- the four concatenations
  let s6 : PC α := { s5 with lst := Function.update s5.lst .points (some (catL P Q)), pad := Function.update s5.pad .points none }
  let o6 : PC α := { o5 with lst := Function.update o5.lst .points (some Q) }
  have E6 : appendAttr .points s5 o5 = (s6, o6) :=
    appendAttr_local (by rw [← h.wf.pts]; exact hs5.slot _) (by rw [← k.wf.pts]; exact ko5.slot _)
  let cat (X : Attr) : Option (List (T2 α)) := catO (a X) (b X)
  let s7 : PC α := { s6 with lst := Function.update s6.lst .normals (cat .normals), pad := Function.update s6.pad .normals none }
  let o7 : PC α := { o6 with lst := Function.update o6.lst .normals (b .normals) }
  have E7 : appendIf .normals s6 o6 = (s7, o7) :=
    appendIf_local (s := s6) (o := o6) (x := a .normals) (y := b .normals) ⟨(hs5.slot .normals).lst, (hs5.slot .normals).pad, (hs5.slot .normals).pres, (hs5.slot .normals).num⟩
      ⟨(ko5.slot .normals).lst, (ko5.slot .normals).pad, (ko5.slot .normals).pres, (ko5.slot .normals).num⟩ (hc2 _) hn
  let s8 : PC α := { s7 with lst := Function.update s7.lst .colors (cat .colors), pad := Function.update s7.pad .colors none }
  let o8 : PC α := { o7 with lst := Function.update o7.lst .colors (b .colors) }
  have E8 : appendIf .colors s7 o7 = (s8, o8) :=
    appendIf_local (s := s7) (o := o7) (x := a .colors) (y := b .colors) ⟨(hs5.slot .colors).lst, (hs5.slot .colors).pad, (hs5.slot .colors).pres, (hs5.slot .colors).num⟩
      ⟨(ko5.slot .colors).lst, (ko5.slot .colors).pad, (ko5.slot .colors).pres, (ko5.slot .colors).num⟩ (hc2 _) hcl
  let s9 : PC α := { s8 with lst := Function.update s8.lst .features (cat .features), pad := Function.update s8.pad .features none }
  let o9 : PC α := { o8 with lst := Function.update o8.lst .features (b .features) }
  have E9 : appendIf .features s8 o8 = (s9, o9) :=
    appendIf_local (s := s8) (o := o8) (x := a .features) (y := b .features) ⟨(hs5.slot .features).lst, (hs5.slot .features).pad, (hs5.slot .features).pres, (hs5.slot .features).num⟩
      ⟨(ko5.slot .features).lst, (ko5.slot .features).pad, (ko5.slot .features).pres, (ko5.slot .features).num⟩ (hc2 _) hfe
  have hnum : List.zipWith (· + ·) s9.num o9.num = sizes (catL P Q) := by
    rw [sizes_catL]
    show List.zipWith (· + ·) s5.num o5.num = _
    rw [hs5.hnum, ko5.hnum]
  let s10 : PC α := { s9 with num := sizes (catL P Q), eq := some (equi (sizes (catL P Q))), N := maxL (sizes (catL P Q)), mask := none }
  have hobj : Pcs.append s o = (.ok (), s10, o9) := by
    have hBB : o1.B = s1.B := by rw [ko1.hB, hs1.hB, hB]
    simp only [Pcs.append, eo1, k.hasPoints, Bool.not_true, Bool.false_eq_true, if_false, es1, h.hasPoints, hBB, ne_eq,
      not_true_eq_false, es2, eo2, hc2 .normals, es3, eo3, hc2 .colors, es4, eo4, hc2 .features]
    rw [← hc2 .features]
    simp only [es5, eo5, hk, not_true_eq_false, if_false, E6, E7, E8, E9, hnum]
    rfl
  refine ⟨s10, o9, hobj, ?_, ?_, ?_, ?_, ?_, rfl⟩
  · have hl : ∀ X, s9.lst X = specAppend a b X := by
      intro X
      cases X
      · show some (catL P Q) = _
        rw [specAppend_some h.wf.pts k.wf.pts]
      all_goals (rw [specAppend_eq]; rfl)
    have hp : ∀ X, s9.pad X = none := by intro X; cases X <;> rfl
    refine ⟨h.wf.append k.wf ⟨hc1, hc2, hc3⟩, ?_, rfl, rfl, fun X => .inr (hl X), fun X => .inl (hp X), .inl ⟨hp .points, hl, rfl⟩, ?_, by simp [s10]⟩
    · show s5.B = _
      rw [hs5.hB, catL_length hB]
    · intro X bb hb
      have h1 := hs5.hhas X bb hb
      rw [h1]
      have h2 := hc2 X
      cases hx : a X with
      | none => simp [specAppend, hx]
      | some l =>
        rw [hx] at h2
        obtain ⟨m, hm⟩ := Option.isSome_iff_exists.1 h2.symm
        rw [specAppend_some hx hm]; rfl
  · have hl : ∀ X, o9.lst X = b X := by
      intro X
      cases X
      · exact k.wf.pts.symm
      · rfl
      · rfl
      · rfl
    refine { ko5 with hlst := fun X => .inr (hl X), hmain := ?_ }
    rcases ko5.hmain with ⟨h1, h2, h3⟩ | h'
    · exact .inl ⟨h1, hl, h3⟩
    · exact .inr h'
  · intro R hR
    rw [specAppend_some h.wf.pts k.wf.pts, Option.some.injEq] at hR; subst hR; rfl
  · show o5.mask = _
    rw [fo5.mask, fo4.mask, fo3.mask, fo2.mask, fo1.mask]
  · show o5.eq = _
    rw [fo5.eq, fo4.eq, fo3.eq, fo2.eq, fo1.eq]

/-- Appending incompatible non-empty objects raises ValueError and changes neither. -/
theorem RepN.append_error {s o : PC α} {a b : Clouds α} {P Q} (h : RepN s a P) (k : RepN o b Q) (hc : ¬ Compatible a b) :
    ∃ s' o', Pcs.append s o = (.error .valueError, s', o') ∧ RepN s' a P ∧ RepN o' b Q ∧ Frame s s' ∧ Frame o o' := by
  obtain ⟨o1, eo1, ko1, fo1, -⟩ := k.hasAttr .points
  obtain ⟨s1, es1, hs1, fs1, -⟩ := h.hasAttr .points
  have start : Pcs.append s o = Pcs.append s o := rfl
  simp only [Pcs.append, eo1, k.hasPoints, Bool.not_true, Bool.false_eq_true, if_false, es1, h.hasPoints] at start ⊢
  by_cases hB : o1.B ≠ s1.B
  · exact ⟨s1, o1, by rw [if_pos hB], hs1, ko1, fs1, fo1⟩
  rw [if_neg hB]
  obtain ⟨s2, es2, hs2, fs2', -⟩ := hs1.hasAttr .normals
  obtain ⟨o2, eo2, ko2, fo2', -⟩ := ko1.hasAttr .normals
  simp only [es2, eo2]
  have fs2 := fs1.trans fs2'
  have fo2 := fo1.trans fo2'
  by_cases hn : (a .normals).isSome ≠ (b .normals).isSome
  · exact ⟨s2, o2, by rw [if_pos hn], hs2, ko2, fs2, fo2⟩
  rw [if_neg hn]
  obtain ⟨s3, es3, hs3, fs3', -⟩ := hs2.hasAttr .colors
  obtain ⟨o3, eo3, ko3, fo3', -⟩ := ko2.hasAttr .colors
  simp only [es3, eo3]
  have fs3 := fs2.trans fs3'
  have fo3 := fo2.trans fo3'
  by_cases hcl : (a .colors).isSome ≠ (b .colors).isSome
  · exact ⟨s3, o3, by rw [if_pos hcl], hs3, ko3, fs3, fo3⟩
  rw [if_neg hcl]
  obtain ⟨s4, es4, hs4, fs4', -⟩ := hs3.hasAttr .features
  obtain ⟨o4, eo4, ko4, fo4', -⟩ := ko3.hasAttr .features
  simp only [es4, eo4]
  have fs4 := fs3.trans fs4'
  have fo4 := fo3.trans fo4'
  by_cases hf : (a .features).isSome ≠ (b .features).isSome
  · exact ⟨s4, o4, by rw [if_pos hf], hs4, ko4, fs4, fo4⟩
  rw [if_neg hf]
  rw [not_not] at hB hn hcl hf
  have hlen : P.length = Q.length := by rw [← hs1.hB, ← ko1.hB, hB]
  have hall : ∀ X, (a X).isSome = (b X).isSome := by
    intro X
    cases X
    · rw [h.wf.pts, k.wf.pts]; rfl
    · exact hn
    · exact hcl
    · exact hf
  cases hfa : a .features with
  | none =>
    exfalso
    apply hc
    refine ⟨by rw [h.wf.pts, k.wf.pts]; simp [hlen], hall, ?_⟩
    intro l m hl; rw [hfa] at hl; simp at hl
  | some l =>
    obtain ⟨k1, s5, e, hr, f5, _, _, h1, -⟩ := hs4.numFeatures
    obtain ⟨k2, o5, e', hr', f5', _, _, h1', -⟩ := ko4.numFeatures
    simp only [Option.isSome_some, if_true, e, e']
    have hk : k1 ≠ k2 := by
      intro hk
      apply hc
      refine ⟨by rw [h.wf.pts, k.wf.pts]; simp [hlen], hall, ?_⟩
      intro l' m hl' hm t ht u hu
      rw [h1 l' hl' t ht, h1' m hm u hu, hk]
    exact ⟨s5, o5, by rw [if_pos hk], hr, hr', fs4.trans f5, fo4.trans f5'⟩

/-- Appending an empty object changes nothing. -/
theorem append_empty_right {s o : PC α} {b : Clouds α} (k : RepE o b) :
    ∃ o', Pcs.append s o = (.ok (), s, o') ∧ RepE o' b := by
  obtain ⟨o1, eo1, ko1⟩ := k.hasAttr .points
  exact ⟨o1, by simp [Pcs.append, eo1], ko1⟩

theorem copyAttr_local {s o : PC α} {b : Clouds α} {Q} (k : RepN o b Q) (X : Attr) (hs : s.lst X = none) :
    ∃ o', copyAttr X s o = ({ s with lst := Function.update s.lst X (b X) }, o') ∧ RepN o' b Q ∧ o'.mask = o.mask ∧ o'.eq = o.eq ∧
      (∀ Y, o'.lst Y = b Y ∨ o'.lst Y = o.lst Y) ∧ o'.pad = o.pad := by
  obtain ⟨o1, e1, k1, f1, p1, _, _, _⟩ := k.hasAttr X
  obtain ⟨e2, k2⟩ := k1.getList X
  simp only [copyAttr, e1]
  cases hx : b X with
  | none =>
    refine ⟨o1, ?_, k1, f1.mask, f1.eq, fun Y => .inr (by rw [f1.lst]), p1⟩
    have e : Function.update s.lst X none = s.lst := by rw [← hs, Function.update_eq_self]
    simp [e]
  | some l =>
    simp only [Option.isSome_some, if_true, e2, hx]
    rw [hx] at k2
    refine ⟨_, rfl, k2, f1.mask, f1.eq, ?_, p1⟩
    intro Y
    by_cases hy : Y = X
    · subst hy; left; simp [hx]
    · right; simp only [Function.update_of_ne hy]; rw [f1.lst]

/-- Appending to an empty object copies the argument. -/
theorem append_to_empty {s o : PC α} {a b : Clouds α} {Q} (h : RepE s a) (k : RepN o b Q) :
    ∃ s' o', Pcs.append s o = (.ok (), s', o') ∧ RepN s' b Q ∧ RepN o' b Q ∧ s'.mask = o.mask ∧ s'.eq = o.eq ∧
      o'.mask = o.mask ∧ o'.eq = o.eq ∧ (s'.lst .points).isSome := by
  obtain ⟨o1, eo1, ko1, fo1, po1, _, _, _⟩ := k.hasAttr .points
  obtain ⟨s1, es1, hs1⟩ := h.hasAttr .points
  obtain ⟨e2, ko2⟩ := ko1.getList .points
  let s2 : PC α := { s1 with lst := Function.update s1.lst .points (b .points) }
  obtain ⟨o3, e3, ko3, m3, q3, _, _⟩ := copyAttr_local ko2 .normals (s := s2) (by simp [s2, hs1.hlst])
  let s3 : PC α := { s2 with lst := Function.update s2.lst .normals (b .normals) }
  obtain ⟨o4, e4, ko4, m4, q4, _, _⟩ := copyAttr_local ko3 .colors (s := s3) (by simp [s3, s2, hs1.hlst])
  let s4 : PC α := { s3 with lst := Function.update s3.lst .colors (b .colors) }
  obtain ⟨o5, e5, ko5, m5, q5, _, _⟩ := copyAttr_local ko4 .features (s := s4) (by simp [s4, s3, s2, hs1.hlst])
  let s5 : PC α := { s4 with lst := Function.update s4.lst .features (b .features) }
  have hmask : o5.mask = o.mask := by rw [m5, m4, m3]; exact fo1.mask
  have heq : o5.eq = o.eq := by rw [q5, q4, q3]; exact fo1.eq
  refine ⟨copyInternal o5 { s5 with has := o5.has, B := o5.B, N := o5.N, eq := o5.eq }, o5, ?_, ?_, ko5, ?_, heq, hmask, heq,
    by show (b .points).isSome = true; rw [k.wf.pts]; rfl⟩
  · simp only [Pcs.append, eo1, k.hasPoints, Bool.not_true, Bool.false_eq_true, if_false, es1, Bool.not_false, if_true, e2]
    rw [show ({ s1 with lst := Function.update s1.lst .points (b .points) } : PC α) = s2 from rfl]
    simp only [e3]
    rw [show ({ s2 with lst := Function.update s2.lst .normals (b .normals) } : PC α) = s3 from rfl]
    simp only [e4]
    rw [show ({ s3 with lst := Function.update s3.lst .colors (b .colors) } : PC α) = s4 from rfl]
    simp only [e5]
    rfl
  · have hl : ∀ X, (copyInternal o5 { s5 with has := o5.has, B := o5.B, N := o5.N, eq := o5.eq }).lst X = b X := by
      intro X; cases X <;> rfl
    have hp : ∀ X, (copyInternal o5 { s5 with has := o5.has, B := o5.B, N := o5.N, eq := o5.eq }).pad X = o5.pad X := by
      intro X
      show (if (o5.pad X).isSome then o5.pad X else s1.pad X) = o5.pad X
      rw [hs1.hpad X]; cases o5.pad X <;> rfl
    refine ⟨k.wf, ko5.hB, ko5.hnum, ko5.hN, fun X => .inr (hl X), ?_, ?_, ko5.hhas, ?_⟩
    · intro X; rw [hp]; exact ko5.hpad X
    · rcases ko5.hmain with ⟨h1, _, h3⟩ | h'
      · exact .inl ⟨by rw [hp]; exact h1, hl, h3⟩
      · right; intro X; rw [hp]; exact h' X
    · intro m hm
      have e : (copyInternal o5 { s5 with has := o5.has, B := o5.B, N := o5.N, eq := o5.eq }).mask =
          if o5.mask.isSome then o5.mask else s1.mask := rfl
      rw [e, hs1.hmask] at hm
      cases hk : o5.mask with
      | none => rw [hk] at hm; simp at hm
      | some m' => rw [hk] at hm; simp at hm; subst hm; exact ko5.hmask _ hk
  · have e : (copyInternal o5 { s5 with has := o5.has, B := o5.B, N := o5.N, eq := o5.eq }).mask =
        if o5.mask.isSome then o5.mask else s1.mask := rfl
    rw [e, hs1.hmask, hmask]; cases o.mask <;> rfl

end
end Verif.Pcs
