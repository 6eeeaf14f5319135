import Verif.PC.Idx
import Mathlib.Algebra.Order.Field.Basic
/-!
Histories of `Pointclouds` objects: `Hist s a` says that the object `s` can be obtained by constructing, reading, assigning,
transforming, cloning, appending and indexing, and that the same history carried out on plain lists of clouds gives the batch `a`.

The side conditions on a few steps exclude exactly the states in which the class is known to misbehave (negation theorems for
each of them are in `Verif.PC.Props`): cloning an object whose points are only held in padded form, whose clouds have different
sizes and whose mask has not been read; assigning an attribute whose absence has been cached; assigning an attribute list after
padded tensors have been computed; assigning `points_list` while another attribute is only held in padded form.
-/
namespace Verif.Pcs
open Verif
set_option linter.unusedSectionVars false
set_option linter.unusedSimpArgs false

section
variable {α : Type*}

/-- Cut the padding of a padded tensor, given the sizes of the clouds. -/
def unpad (ns : List Nat) (v : List (T2 α)) : List (T2 α) := List.zipWith (fun t n => T2.take n t) v ns

/-- The number of clouds of a batch. -/
def count (a : Clouds α) : Nat := ((a .points).map List.length).getD 0

variable [Field α] [LinearOrder α]

inductive Hist : PC α → Clouds α → Prop
  /-- `Pointclouds()` -/
  | empty : Hist newEmpty emptyClouds
  /-- `Pointclouds(points=[...], ...)`, when it does not raise -/
  | fromList {arg : Clouds α} {P s} (hP : arg .points = some P) (hv : ∀ X l, arg X = some l → ∀ t ∈ l, t.Valid)
      (h : newList arg P = .ok s) : Hist s arg
  /-- `Pointclouds(points=tensor, ...)`, when it does not raise -/
  | fromTensor {arg : Clouds α} {P s} (hP : arg .points = some P) (hv : ∀ X l, arg X = some l → Rect l)
      (h : newTensor arg P = .ok s) : Hist s arg
  /-- reading `has_X`, `num_features`, `X_list`, `X_padded`, `nonpad_mask` -/
  | query {s a} (X) (h : Hist s a) : Hist (hasAttr X s).2 a
  | width {s a} (h : Hist s a) : Hist (numFeatures s).2 a
  | readList {s a} (X) (h : Hist s a) : Hist (getList X s).2 a
  | readPad {s a} (X) (h : Hist s a) : Hist (getPad X s).2 a
  | readMask {s a} (h : Hist s a) : Hist (getMask s).2 a
  /-- `pcs.X_padded = v`, accepted or refused -/
  | assignPad {s a s'} (X) (v : List (T2 α)) (h : Hist s a) (hv : Rect v) (hh : s.has X ≠ some false)
      (e : setPad X v s = (.ok (), s')) : Hist s' (specSet X (unpad (specNum a) v) a)
  | assignPadError {s a s' e} (X) (v : List (T2 α)) (h : Hist s a) (hv : Rect v) (he : setPad X v s = (.error e, s')) : Hist s' a
  /-- `pcs.X_list = l`, accepted or refused -/
  | assignPoints {s a s'} (l : List (T2 α)) (h : Hist s a) (hv : ∀ t ∈ l, t.Valid) (hl : ∀ Y, s.pad Y ≠ none → s.lst Y ≠ none ∨ Y = .points)
      (hf : FlagOk s a) (e : setList .points l s = (.ok (), s')) : Hist s' (specSet .points l a)
  | assignList {s a s'} (X) (l : List (T2 α)) (h : Hist s a) (hv : ∀ t ∈ l, t.Valid) (hX : X ≠ .points)
      (hC : ∃ C, ∀ t ∈ l, t.cols = C) (hp : s.pad .points = none ∧ s.pad X = none) (hh : s.has X ≠ some false)
      (e : setList X l s = (.ok (), s')) : Hist s' (specSet X l a)
  | assignListError {s a s' e} (X) (l : List (T2 α)) (h : Hist s a) (he : setList X l s = (.error e, s')) : Hist s' a
  /-- `pcs.offset_(f)` … `pcs.pinhole_projection_(K)` -/
  | offset {s a} (f) (h : Hist s a) : Hist (offset_ f s).2 (onPoints (fun b n r => r.mapIdx fun c x => x + f b n c) a)
  | scale {s a} (f) (h : Hist s a) : Hist (scale_ f s).2 (onPoints (fun b n r => r.mapIdx fun c x => x * f b n c) a)
  | rotate {s a} (R pre) (h : Hist s a) (hR : R.Fits (count a)) :
      Hist (rotate_ R pre s).2 (onPointsNormals (fun b _ r => rotRow R pre b r) a)
  | transform {s a} (T : Operand (M4 α)) (pre) (h : Hist s a) (hT : T.Fits (count a)) :
      Hist (transform_ T pre s).2 (onPoints (fun b _ r => r.mapIdx fun c x => x + comp (T.at M4.one b).t c)
        (onPointsNormals (fun b _ r => rotRow (T.map M4.R) pre b r) a))
  | project {s a} (K : Operand (M4 α)) (h : Hist s a) (hK : K.Fits (count a)) :
      Hist (pinholeProjection_ K s).2 (onPoints (fun b _ r => projRow (K.at M4.one b) r) a)
  | rotateError {s a s' e} (R pre) (h : Hist s a) (he : rotate_ R pre s = (.error e, s')) : Hist s' a
  | transformError {s a s' e} (T : Operand (M4 α)) (pre) (h : Hist s a) (he : transform_ T pre s = (.error e, s')) : Hist s' a
  | projectError {s a s' e} (K : Operand (M4 α)) (h : Hist s a) (he : pinholeProjection_ K s = (.error e, s')) : Hist s' a
  /-- `pcs.clone()`: the source and the copy -/
  | cloned {s a} (h : Hist s a) : Hist (clone s).2 a
  | clone {s a c s'} (h : Hist s a) (hg : (s.lst .points).isSome ∨ s.mask.isSome ∨ equi (specNum a) = true) (e : clone s = (.ok c, s')) :
      Hist c a
  /-- `pcs.append_points(other)`: outcome, object and argument -/
  | append {s a o b s' o'} (h : Hist s a) (k : Hist o b) (ha : a .points ≠ none) (hb : b .points ≠ none)
      (e : append s o = (.ok (), s', o')) : Hist s' (specAppend a b)
  | appendToEmpty {s a o b s' o'} (h : Hist s a) (k : Hist o b) (ha : a .points = none) (e : append s o = (.ok (), s', o')) : Hist s' b
  | appendEmpty {s a o b s' o'} (h : Hist s a) (k : Hist o b) (hb : b .points = none) (e : append s o = (.ok (), s', o')) : Hist s' a
  | appended {s a o b r s' o'} (h : Hist s a) (k : Hist o b) (e : append s o = (r, s', o')) : Hist o' b
  | appendError {s a o b e s' o'} (h : Hist s a) (k : Hist o b) (he : append s o = (.error e, s', o')) : Hist s' a
  /-- `pcs[idx]`: the source and the selection -/
  | indexed {s a} (idx) (h : Hist s a) : Hist (getitem idx s).2 a
  | getitem {s a is c s'} (idx) (h : Hist s a) (hi : resolve (count a) idx = .ok is) (e : getitem idx s = (.ok c, s')) :
      Hist c (specSelect is a)

/-- The invariant of histories. -/
def Inv (s : PC α) (a : Clouds α) : Prop := RepE s a ∨ ∃ P, RepN s a P ∧ MaskOk s a

theorem MaskOk.congr {s s' : PC α} {a a' : Clouds α} {P P' : List (T2 α)} (h1 : a .points = some P) (h2 : a' .points = some P')
    (h3 : sizes P' = sizes P) (h4 : s'.eq = s.eq) (h5 : s'.mask = s.mask) (h : MaskOk s a) : MaskOk s' a' := by
  rcases h with h | h
  · left; rw [h5]; exact h
  · right; exact flag_of_sizes h1 h2 h3 h4 h

theorem MaskOk.frame {s s' : PC α} {a : Clouds α} (h4 : s'.eq = s.eq) (h5 : s'.mask = s.mask) (h : MaskOk s a) : MaskOk s' a := by
  rcases h with h | h
  · left; rw [h5]; exact h
  · right; intro Q hQ; rw [h4]; exact h Q hQ

theorem RepN.count {s : PC α} {a P} (h : RepN s a P) : count a = P.length := by simp [Pcs.count, h.wf.pts]
theorem RepE.count {s : PC α} {a} (h : RepE s a) : count a = 0 := by simp [Pcs.count, h.ha, emptyClouds]
theorem RepE.noPoints {s : PC α} {a} (h : RepE s a) : a .points = none := by rw [h.ha]; rfl

theorem newTensor_wf {arg : Attr → Option (List (T2 α))} {P : List (T2 α)} {s : PC α} (hP : arg .points = some P)
    (hval : ∀ X l, arg X = some l → Rect l) (h : newTensor arg P = .ok s) : Wf arg P ∧ ∃ N, ∀ t ∈ P, t.rows.length = N := by
  simp only [newTensor] at h
  split_ifs at h with c1 c2 c3 c4 c5
  have hne : P ≠ [] := by intro h0; subst h0; simp at c1
  obtain ⟨N, C, hN⟩ := hval _ _ hP
  have hsP : shape3 P = (P.length, N, C) := shape3_rect hne fun t ht => (hN t ht).2
  have hC : C = 3 := by rw [hsP] at c2; simpa using c2
  subst hC
  have inv : ∀ X l, arg X = some l → ((shape3 l).1, (shape3 l).2.1) = (P.length, N) →
      ∃ C', (∀ t ∈ l, t.rows.length = N ∧ t.cols = C') ∧ l.length = P.length ∧ (shape3 l).2.2 = C' := by
    intro X l hl he
    obtain ⟨n, c, hn⟩ := hval X l hl
    have hlen : l.length = P.length := congrArg Prod.fst he
    have hlne : l ≠ [] := by intro h0; subst h0; exact c1 hlen.symm
    have hs := shape3_rect hlne fun t ht => (hn t ht).2
    rw [hs] at he
    have : n = N := congrArg Prod.snd he
    subst this
    exact ⟨c, fun t ht => (hn t ht).2, hlen, by rw [hs]⟩
  have all : ∀ X l, arg X = some l → ∃ C', (∀ t ∈ l, t.rows.length = N ∧ t.cols = C') ∧ l.length = P.length ∧ (X ≠ .features → C' = 3) := by
    intro X l hl
    cases X with
    | points =>
      rw [hP, Option.some.injEq] at hl; subst hl
      exact ⟨3, fun t ht => (hN t ht).2, rfl, fun _ => rfl⟩
    | normals =>
      have : shape3 l = shape3 P := by rw [hl] at c3; simpa [okOpt] using c3
      obtain ⟨C', h1, h2, h3⟩ := inv _ l hl (by rw [this, hsP])
      exact ⟨C', h1, h2, fun _ => by rw [← h3, this, hsP]⟩
    | colors =>
      have : shape3 l = shape3 P := by rw [hl] at c4; simpa [okOpt] using c4
      obtain ⟨C', h1, h2, h3⟩ := inv _ l hl (by rw [this, hsP])
      exact ⟨C', h1, h2, fun _ => by rw [← h3, this, hsP]⟩
    | features =>
      have : ((shape3 l).1, (shape3 l).2.1) = ((shape3 P).1, (shape3 P).2.1) := by
        rw [hl] at c5; simp only [okOpt, Bool.not_eq_true', decide_eq_false_iff_not, not_not] at c5; exact c5
      obtain ⟨C', h1, h2, h3⟩ := inv _ l hl (by rw [this, hsP])
      exact ⟨C', h1, h2, by simp⟩
  refine ⟨⟨hP, hne, ?_, ?_, ?_⟩, N, fun t ht => (hN t ht).2.1⟩
  · intro X l hl
    obtain ⟨C', h1, h2, _⟩ := all X l hl
    apply List.ext_getElem
    · simp [sizes, h2]
    · intro i h3 h4
      simp only [sizes, List.getElem_map]
      rw [(h1 _ (List.getElem_mem _)).1, (hN _ (List.getElem_mem _)).2.1]
  · intro X l hl t ht
    obtain ⟨n, c, hn⟩ := hval X l hl
    exact (hn t ht).1
  · intro X l hl
    obtain ⟨C', h1, h2, h3⟩ := all X l hl
    exact ⟨C', fun t ht => (h1 t ht).2, h3⟩

theorem unpad_padL {l : List (T2 α)} {N : Nat} : unpad (sizes l) (padL N l) = l := zip_take N l

/-- The outcome of assigning a list, in terms of the batch only. -/
theorem RepN.setList_cases {s : PC α} {a P} (h : RepN s a P) (X : Attr) (l : List (T2 α)) :
    (∃ s', Pcs.setList X l s = (.error .valueError, s') ∧ RepN s' a P ∧ s'.eq = s.eq ∧ s'.mask = s.mask) ∨
    (sizes l = sizes P ∧ (X ≠ .features → ∀ t ∈ l, t.cols = 3) ∧ ∃ s', Pcs.setList X l s = (.ok (), s')) := by
  obtain ⟨s1, e1, hr1, hf1, hp1, hh1, _, _⟩ := h.hasAttr .points
  obtain ⟨e2, hr2⟩ := hr1.getList .points
  by_cases c0 : P.length ≠ l.length
  · refine .inl ⟨s1, ?_, hr1, hf1.eq, hf1.mask⟩
    simp only [Pcs.setList, e1, h.hasPoints, Bool.not_true, Bool.false_eq_true, if_false, hr1.hB]
    rw [if_pos c0]
  · have e : Pcs.setList X l s = if X = .features ∧ l.map (·.rows.length) ≠ P.map (·.rows.length) then
          (.error .valueError, { s1 with lst := Function.update s1.lst .points (a .points) })
        else if X ≠ .features ∧ l.map T2.shape ≠ P.map T2.shape then
          (.error .valueError, { s1 with lst := Function.update s1.lst .points (a .points) })
        else (.ok (), { s1 with
          lst := Function.update (Function.update s1.lst .points (a .points)) X (some l)
          pad := (if X = .points then Function.update s1.pad .points none else s1.pad) }) := by
      simp only [Pcs.setList, e1, h.hasPoints, Bool.not_true, Bool.false_eq_true, if_false]
      rw [if_neg (by rw [hr1.hB]; exact c0), e2]
      simp only [h.wf.pts, Option.getD_some]
    by_cases c1 : X = .features ∧ l.map (·.rows.length) ≠ P.map (·.rows.length)
    · exact .inl ⟨_, by rw [e, if_pos c1], hr2, hf1.eq, hf1.mask⟩
    · by_cases c2 : X ≠ .features ∧ l.map T2.shape ≠ P.map T2.shape
      · exact .inl ⟨_, by rw [e, if_neg c1, if_pos c2], hr2, hf1.eq, hf1.mask⟩
      · right
        have hok : ∃ s', Pcs.setList X l s = (.ok (), s') := ⟨_, by rw [e, if_neg c1, if_neg c2]⟩
        by_cases hX : X = .features
        · refine ⟨?_, fun h0 => absurd hX h0, hok⟩
          by_contra h0; exact c1 ⟨hX, h0⟩
        · have hs : l.map T2.shape = P.map T2.shape := by by_contra h0; exact c2 ⟨hX, h0⟩
          refine ⟨?_, ?_, hok⟩
          · have := congrArg (List.map Prod.fst) hs
            simpa [sizes, Function.comp_def, T2.shape] using this
          · intro _ t ht
            have : t.shape ∈ P.map T2.shape := by rw [← hs]; exact List.mem_map_of_mem ht
            obtain ⟨u, hu, he⟩ := List.mem_map.1 this
            have := congrArg Prod.snd he
            simp only [T2.shape] at this
            rw [← this]; exact h.wf.cols3 (by simp) h.wf.pts u hu

theorem onPoints_empty (g : Nat → Nat → List α → List α) : onPoints g emptyClouds = emptyClouds := by
  funext X; simp [onPoints, emptyClouds]
theorem onPointsNormals_empty (g : Nat → Nat → List α → List α) : onPointsNormals g emptyClouds = emptyClouds := by
  funext X; simp [onPointsNormals, emptyClouds]

theorem onPoints_pts (g : Nat → Nat → List α → List α) {a : Clouds α} {P} (h : a .points = some P) : onPoints g a .points = some (mapRows g P) := by
  simp [onPoints, h]

/-- Every object produced by a history stands for the batch produced by the same history. -/
theorem Hist.inv {s : PC α} {a : Clouds α} (h : Hist s a) : Inv s a := by
  induction h with
  | empty => exact .inl newEmpty_rep
  | fromList hP hv h =>
    have hw := newList_wf hP hv h
    obtain ⟨s', e, hr, hf⟩ := newList_rep hw
    rw [e] at h; cases h
    exact .inr ⟨_, hr, .inr hf⟩
  | fromTensor hP hv h =>
    obtain ⟨hw, N, hN⟩ := newTensor_wf hP hv h
    obtain ⟨s', e, hr, hf⟩ := newTensor_rep hw hN
    rw [e] at h; cases h
    exact .inr ⟨_, hr, .inr hf⟩
  | query X _ ih =>
    rcases ih with h | ⟨P, h, hm⟩
    · obtain ⟨s', e, hr⟩ := h.hasAttr X; rw [e]; exact .inl hr
    · obtain ⟨s', e, hr, hf, _⟩ := h.hasAttr X; rw [e]; exact .inr ⟨P, hr, hm.frame hf.eq hf.mask⟩
  | width _ ih =>
    rcases ih with h | ⟨P, h, hm⟩
    · obtain ⟨s', e, hr⟩ := h.hasAttr .features
      left
      have : ∀ s0 : PC α, Pcs.hasAttr .features s0 = (false, s') → (numFeatures s0).2 = s' := by
        intro s0 h0; simp [numFeatures, h0]
      rw [this _ e]; exact hr
    · obtain ⟨k, s', e, hr, hf, _⟩ := h.numFeatures; rw [e]; exact .inr ⟨P, hr, hm.frame hf.eq hf.mask⟩
  | readList X _ ih =>
    rcases ih with h | ⟨P, h, hm⟩
    · rw [h.getList X]; exact .inl h
    · obtain ⟨e, hr⟩ := h.getList X; rw [e]; exact .inr ⟨P, hr, hm.frame rfl rfl⟩
  | readPad X _ ih =>
    rcases ih with h | ⟨P, h, hm⟩
    · obtain ⟨s', e, hr⟩ := h.getPad X; rw [e]; exact .inl hr
    · obtain ⟨s', e, hr, _, hf, _⟩ := h.getPad X; rw [e]; exact .inr ⟨P, hr, hm.frame hf.eq hf.mask⟩
  | readMask _ ih =>
    rcases ih with h | ⟨P, h, hm⟩
    · obtain ⟨s', e, hr⟩ := h.getMask; rw [e]; exact .inl hr
    · obtain ⟨s', e, hr, hk, _⟩ := h.getMask hm; rw [e]; exact .inr ⟨P, hr, .inl (by rw [hk]; rfl)⟩
  | @assignPad s a s' X v _ hv hh e ih =>
    rcases ih with h | ⟨P, h, hm⟩
    · obtain ⟨s1, e1, _⟩ := h.hasAttr .points
      simp [setPad, e1] at e
    · rcases h.setPad_cases X v hv with ⟨s1, e1, _⟩ | ⟨l, C, rfl, hs, hval, hc, h3, _⟩
      · rw [e1] at e; simp at e
      · obtain ⟨s1, e1, hr, he, hk⟩ := h.setPad hs hval hc h3 hh
        rw [e1] at e; cases e
        have : unpad (specNum a) (padL s.N l) = l := by
          simp only [specNum, h.wf.pts]; rw [← hs]; exact unpad_padL
        rw [this]
        refine .inr ⟨_, hr, hm.congr h.wf.pts hr.wf.pts ?_ he hk⟩
        split_ifs
        · exact hs
        · rfl
  | assignPadError X v _ hv he ih =>
    rcases ih with h | ⟨P, h, hm⟩
    · obtain ⟨s1, e1, hr⟩ := h.hasAttr .points
      simp only [setPad, e1, Bool.not_false, if_true] at he
      cases he; exact .inl hr
    · rcases h.setPad_cases X v hv with ⟨s1, e1, hr, h1, h2⟩ | ⟨_, _, _, _, _, _, _, s1, e1⟩
      · rw [e1] at he; cases he
        exact .inr ⟨P, hr, hm.frame h1 h2⟩
      · rw [e1] at he; simp at he
  | @assignPoints s a s' l _ hv hl hf e ih =>
    rcases ih with h | ⟨P, h, hm⟩
    · obtain ⟨s1, e1, _⟩ := h.hasAttr .points
      simp [setList, e1] at e
    · rcases h.setList_cases .points l with ⟨s1, e1, _⟩ | ⟨hs, h3, _⟩
      · rw [e1] at e; simp at e
      · obtain ⟨s1, e1, hr, he, hk⟩ := h.setList (X := .points) hs hv (h3 (by simp)) (fun _ => rfl) (by
          simp only [if_true]
          refine ⟨?_, hf⟩
          intro Y hY
          rcases h.hlst Y with h0 | h0
          · rcases h.hpad Y with h1 | h1
            · have := h.present Y
              rw [h0, h1] at this
              simp only [Option.isSome_none, Bool.or_self] at this
              cases hY' : a Y with
              | none => exact h0
              | some _ => rw [hY'] at this; simp at this
            · cases hY' : a Y with
              | none => exact h0
              | some _ =>
                have := hl Y (by rw [h1, hY']; simp)
                rcases this with h' | h'
                · exact absurd h0 h'
                · exact absurd h' hY
          · exact h0)
        rw [e1] at e; cases e
        refine .inr ⟨_, hr, hm.congr h.wf.pts hr.wf.pts ?_ he hk⟩
        simp [hs]
  | assignList X l _ hv hX hC hp hh e ih =>
    rcases ih with h | ⟨P, h, hm⟩
    · obtain ⟨s1, e1, _⟩ := h.hasAttr .points
      simp [setList, e1] at e
    · rcases h.setList_cases X l with ⟨s1, e1, _⟩ | ⟨hs, h3, _⟩
      · rw [e1] at e; simp at e
      · obtain ⟨C, hC⟩ := hC
        have hlne : l ≠ [] := by
          intro h0; subst h0
          have := congrArg List.length hs
          simp only [sizes, List.length_map, List.length_nil] at this
          exact h.wf.ne (List.length_eq_zero_iff.1 this.symm)
        obtain ⟨t, ht⟩ := List.exists_mem_of_ne_nil l hlne
        obtain ⟨s1, e1, hr, he, hk⟩ := h.setList (X := X) hs hv hC (fun h0 => by rw [← hC t ht]; exact h3 h0 t ht) (by
          simp only [hX, if_false]; exact ⟨hp.1, hp.2, hh⟩)
        rw [e1] at e; cases e
        refine .inr ⟨_, hr, hm.congr h.wf.pts hr.wf.pts ?_ he hk⟩
        simp [hX]
  | assignListError X l _ he ih =>
    rcases ih with h | ⟨P, h, hm⟩
    · obtain ⟨s1, e1, hr⟩ := h.hasAttr .points
      simp only [setList, e1, Bool.not_false, if_true] at he
      cases he; exact .inl hr
    · rcases h.setList_cases X l with ⟨s1, e1, hr, h1, h2⟩ | ⟨_, _, s1, e1⟩
      · rw [e1] at he; cases he
        exact .inr ⟨P, hr, hm.frame h1 h2⟩
      · rw [e1] at he; simp at he
  | offset f _ ih =>
    rcases ih with h | ⟨P, h, hm⟩
    · obtain ⟨s', e, hr⟩ := (h.geo f (.single M3.one) (.single M4.one) (.single M4.one) true).1
      rw [e, h.ha, onPoints_empty]; rw [h.ha] at hr; exact .inl hr
    · obtain ⟨s', e, hr, _, hk⟩ := h.offset_ hm f
      rw [e]; exact .inr ⟨_, hr, .inl hk⟩
  | scale f _ ih =>
    rcases ih with h | ⟨P, h, hm⟩
    · obtain ⟨s', e, hr⟩ := (h.geo f (.single M3.one) (.single M4.one) (.single M4.one) true).2.1
      rw [e, h.ha, onPoints_empty]; rw [h.ha] at hr; exact .inl hr
    · obtain ⟨s', e, hr, _, hk⟩ := h.scale_ hm f
      rw [e]; exact .inr ⟨_, hr, .inl hk⟩
  | rotate R pre _ hR ih =>
    rcases ih with h | ⟨P, h, hm⟩
    · rw [h.count] at hR
      obtain ⟨s', e, hr⟩ := (h.geo (fun _ _ _ => 0) R (.single M4.one) (.single M4.one) pre).2.2.1 hR
      rw [e, h.ha, onPointsNormals_empty]; rw [h.ha] at hr; exact .inl hr
    · rw [h.count] at hR
      obtain ⟨s', e, hr, he, hk⟩ := h.rotate_ R pre hR
      rw [e]; exact .inr ⟨_, hr, hm.congr h.wf.pts hr.wf.pts (sizes_mapRows _ _) he hk⟩
  | transform T pre _ hT ih =>
    rcases ih with h | ⟨P, h, hm⟩
    · rw [h.count] at hT
      obtain ⟨s', e, hr⟩ := (h.geo (fun _ _ _ => 0) (.single M3.one) T (.single M4.one) pre).2.2.2.1 hT
      rw [e, h.ha, onPointsNormals_empty, onPoints_empty]; rw [h.ha] at hr; exact .inl hr
    · rw [h.count] at hT
      obtain ⟨s', e, hr, _, hk⟩ := h.transform_ hm T pre hT
      rw [e]; exact .inr ⟨_, hr, .inl hk⟩
  | project K _ hK ih =>
    rcases ih with h | ⟨P, h, hm⟩
    · obtain ⟨s', e, hr⟩ := (h.geo (fun _ _ _ => 0) (.single M3.one) (.single M4.one) K true).2.2.2.2
      rw [e, h.ha, onPoints_empty]; rw [h.ha] at hr; exact .inl hr
    · rw [h.count] at hK
      obtain ⟨s', e, hr, _, hk⟩ := h.pinhole hm K hK
      rw [e]; exact .inr ⟨_, hr, .inl hk⟩
  | rotateError R pre _ he ih =>
    rcases ih with h | ⟨P, h, hm⟩
    · by_cases hR : R.Fits 0
      · obtain ⟨s', e, hr⟩ := (h.geo (fun _ _ _ => 0) R (.single M4.one) (.single M4.one) pre).2.2.1 hR
        rw [e] at he; simp at he
      · simp only [rotate_, h.hB, Operand.bad_of hR, if_true] at he
        cases he; exact .inl h
    · by_cases hR : R.Fits P.length
      · obtain ⟨s', e, _⟩ := h.rotate_ R pre hR
        rw [e] at he; simp at he
      · rw [h.rotate_bad R pre hR] at he; cases he; exact .inr ⟨P, h, hm⟩
  | transformError T pre _ he ih =>
    rcases ih with h | ⟨P, h, hm⟩
    · by_cases hT : T.Fits 0
      · obtain ⟨s', e, hr⟩ := (h.geo (fun _ _ _ => 0) (.single M3.one) T (.single M4.one) pre).2.2.2.1 hT
        rw [e] at he; simp at he
      · simp only [transform_, h.hB, Operand.bad_of hT, if_true] at he
        cases he; exact .inl h
    · by_cases hT : T.Fits P.length
      · obtain ⟨s', e, _⟩ := h.transform_ hm T pre hT
        rw [e] at he; simp at he
      · rw [h.transform_bad T pre hT] at he; cases he; exact .inr ⟨P, h, hm⟩
  | projectError K _ he ih =>
    rcases ih with h | ⟨P, h, hm⟩
    · obtain ⟨s', e, hr⟩ := (h.geo (fun _ _ _ => 0) (.single M3.one) (.single M4.one) K true).2.2.2.2
      rw [e] at he; simp at he
    · by_cases hK : K.Fits P.length
      · obtain ⟨s', e, _⟩ := h.pinhole hm K hK
        rw [e] at he; simp at he
      · obtain ⟨s', e, hr, h1, h2⟩ := h.pinhole_bad K hK
        rw [e] at he; cases he; exact .inr ⟨P, hr, hm.frame h1 h2⟩
  | cloned _ ih =>
    rcases ih with h | ⟨P, h, hm⟩
    · obtain ⟨s', e, hr, _⟩ := h.clone; rw [e]; exact .inl hr
    · obtain ⟨c, s', e, hr, _, hf, _⟩ := h.clone; rw [e]; exact .inr ⟨P, hr, hm.frame hf.eq hf.mask⟩
  | clone _ hg e ih =>
    rcases ih with h | ⟨P, h, hm⟩
    · obtain ⟨s1, e1, _, hr⟩ := h.clone; rw [e1] at e; cases e; exact .inl hr
    · obtain ⟨c, s1, e1, _, hr, _, _, hk, hfl, _⟩ := h.clone
      rw [e1] at e; cases e
      refine .inr ⟨P, hr, ?_⟩
      rcases hg with hg | hg | hg
      · exact .inr (hfl (.inl hg))
      · left; rw [hk]; exact hg
      · right; apply hfl; right; simpa [specNum, h.wf.pts] using hg
  | @append s a o b s' o' _ _ ha hb e ih ik =>
    rcases ih with h | ⟨P, h, hm⟩
    · exact absurd h.noPoints ha
    · rcases ik with k | ⟨Q, k, km⟩
      · exact absurd k.noPoints hb
      · by_cases hc : Compatible a b
        · obtain ⟨s1, o1, e1, hr, _, hf, _⟩ := h.append k hc
          rw [e1] at e; cases e
          exact .inr ⟨_, hr, .inr hf⟩
        · obtain ⟨s1, o1, e1, _⟩ := h.append_error k hc
          rw [e1] at e; simp at e
  | @appendToEmpty s a o b s' o' _ _ ha e ih ik =>
    rcases ih with h | ⟨P, h, hm⟩
    · rcases ik with k | ⟨Q, k, km⟩
      · obtain ⟨o1, e1, _⟩ := append_empty_right (s := s) k
        rw [e1] at e; cases e
        rw [k.ha, ← h.ha]; exact .inl h
      · obtain ⟨s1, o1, e1, hr, _, h1, h2, _⟩ := append_to_empty h k
        rw [e1] at e; cases e
        exact .inr ⟨Q, hr, km.frame h2 h1⟩
    · rw [h.wf.pts] at ha; simp at ha
  | @appendEmpty s a o b s' o' _ _ hb e ih ik =>
    rcases ik with k | ⟨Q, k, km⟩
    · obtain ⟨o1, e1, _⟩ := append_empty_right (s := s) k
      rw [e1] at e; cases e
      exact ih
    · rw [k.wf.pts] at hb; simp at hb
  | @appended s a o b r s' o' _ _ e ih ik =>
    rcases ik with k | ⟨Q, k, km⟩
    · obtain ⟨o1, e1, hr⟩ := append_empty_right (s := s) k
      rw [e1] at e; cases e
      exact .inl hr
    · rcases ih with h | ⟨P, h, hm⟩
      · obtain ⟨s1, o1, e1, _, hr, _, _, h1, h2, _⟩ := append_to_empty h k
        rw [e1] at e; cases e
        exact .inr ⟨Q, hr, km.frame h2 h1⟩
      · by_cases hc : Compatible a b
        · obtain ⟨s1, o1, e1, _, hr, _, h1, h2, _⟩ := h.append k hc
          rw [e1] at e; cases e
          exact .inr ⟨Q, hr, km.frame h2 h1⟩
        · obtain ⟨s1, o1, e1, _, hr, _, hf⟩ := h.append_error k hc
          rw [e1] at e; cases e
          exact .inr ⟨Q, hr, km.frame hf.eq hf.mask⟩
  | @appendError s a o b e s' o' _ _ he ih ik =>
    rcases ik with k | ⟨Q, k, km⟩
    · obtain ⟨o1, e1, hr⟩ := append_empty_right (s := s) k
      rw [e1] at he; simp at he
    · rcases ih with h | ⟨P, h, hm⟩
      · obtain ⟨s1, o1, e1, _⟩ := append_to_empty h k
        rw [e1] at he; simp at he
      · by_cases hc : Compatible a b
        · obtain ⟨s1, o1, e1, _⟩ := h.append k hc
          rw [e1] at he; simp at he
        · obtain ⟨s1, o1, e1, hr, _, hf, _⟩ := h.append_error k hc
          rw [e1] at he; cases he
          exact .inr ⟨P, hr, hm.frame hf.eq hf.mask⟩
  | @indexed s a idx _ ih =>
    rcases ih with h | ⟨P, h, hm⟩
    · obtain ⟨s', e, hr⟩ := h.getitem idx; rw [e]; exact .inl hr
    · obtain ⟨s', hr, h1, h2, g1, g2, g3⟩ := h.getitem idx
      have : (Pcs.getitem idx s).2 = s' := by
        cases hres : resolve P.length idx with
        | error e => rw [g3 e hres]
        | ok is =>
          by_cases hne : is = []
          · subst hne; rw [g2 hres]
          · obtain ⟨c, e, _⟩ := g1 is hres hne; rw [e]
      rw [this]; exact .inr ⟨P, hr, hm.frame h2 h1⟩
  | @getitem s a is c s' idx _ hi e ih =>
    rcases ih with h | ⟨P, h, hm⟩
    · obtain ⟨s'', e1, hr⟩ := h.getitem idx; rw [e1] at e; simp at e
    · rw [h.count] at hi
      obtain ⟨s', hr, h1, h2, g1, g2, g3⟩ := h.getitem idx
      by_cases hne : is = []
      · subst hne; rw [g2 hi] at e; simp at e
      · obtain ⟨c', e', hr', hf'⟩ := g1 is hi hne
        rw [e'] at e; cases e
        exact .inr ⟨_, hr', .inr hf'⟩

end
end Verif.Pcs
