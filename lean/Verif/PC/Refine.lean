import Verif.PC.Spec
import Mathlib.Data.List.Basic
/-! The representation relation between a `Pointclouds` object and the batch it stands for, and its preservation. -/
namespace Verif.Pcs
open Verif
set_option linter.unusedSectionVars false
set_option linter.unusedSimpArgs false

section
variable {α : Type*}

/-! ### List facts -/

theorem le_maxL {l : List Nat} {n : Nat} (h : n ∈ l) : n ≤ maxL l := by
  induction l with
  | nil => simp at h
  | cons x xs ih =>
    simp only [maxL, List.foldr_cons] at *
    rcases List.mem_cons.1 h with rfl | h
    · exact le_max_left _ _
    · exact le_trans (ih h) (le_max_right _ _)

theorem maxL_const {l : List Nat} {k : Nat} (hne : l ≠ []) (h : ∀ n ∈ l, n = k) : maxL l = k := by
  induction l with
  | nil => exact absurd rfl hne
  | cons x xs ih =>
    have hx := h x (by simp)
    subst hx
    by_cases hxs : xs = []
    · subst hxs; simp [maxL]
    · have := ih hxs (fun n hn => h n (by simp [hn]))
      simp only [maxL, List.foldr_cons] at *
      rw [this]; simp

theorem equi_true {l : List Nat} (hne : l ≠ []) (h : equi l = true) : ∀ n ∈ l, n = maxL l := by
  have h' : ∀ n ∈ l, n = l.headD 0 := by simpa [equi] using h
  intro n hn
  rw [maxL_const hne h']
  exact h' n hn

theorem equi_const {l : List Nat} (k : Nat) (h : ∀ n ∈ l, n = k) : equi l = true := by
  cases l with
  | nil => rfl
  | cons x xs =>
    simp only [equi, List.all_eq_true, List.headD_cons, beq_iff_eq]
    intro n hn; rw [h n hn, h x (by simp)]

theorem maxL_mem {l : List Nat} (hne : l ≠ []) : maxL l ∈ l := by
  induction l with
  | nil => exact absurd rfl hne
  | cons x xs ih =>
    by_cases hxs : xs = []
    · subst hxs; simp [maxL]
    · have := ih hxs
      simp only [maxL, List.foldr_cons] at *
      rcases le_total x (List.foldr max 0 xs) with h | h
      · rw [max_eq_right h]; exact List.mem_cons_of_mem _ this
      · rw [max_eq_left h]; simp

theorem mapE_ok {β γ : Type*} {f : β → Except Err γ} {g : β → γ} {l : List β} (h : ∀ x ∈ l, f x = .ok (g x)) :
    mapE f l = .ok (l.map g) := by
  induction l with
  | nil => rfl
  | cons x xs ih =>
    simp only [mapE, h x (by simp), ih (fun y hy => h y (by simp [hy])), List.map_cons]

variable [Zero α]

@[simp] theorem padT_cols (N : Nat) (t : T2 α) : (padT N t).cols = t.cols := rfl
theorem padT_rows_length {N : Nat} {t : T2 α} (h : t.rows.length ≤ N) : (padT N t).rows.length = N := by
  simp [padT]; omega
@[simp] theorem padT_take (N : Nat) (t : T2 α) : T2.take t.rows.length (padT N t) = t := by
  simp [T2.take, padT]
theorem padT_valid {N : Nat} {t : T2 α} (h : t.Valid) : (padT N t).Valid := by
  intro r hr
  simp only [padT, List.mem_append, List.mem_replicate] at hr
  rcases hr with hr | ⟨_, rfl⟩
  · exact h r hr
  · simp
theorem padT_self {t : T2 α} {N : Nat} (h : t.rows.length = N) : padT N t = t := by
  subst h; simp [padT]
@[simp] theorem padL_length (N : Nat) (l : List (T2 α)) : (padL N l).length = l.length := by simp [padL]

theorem padItem_ok {N C : Nat} {t : T2 α} (hc : t.cols = C) (hn : t.rows.length ≤ N) :
    padItem N C t = .ok (padT N t) := by
  subst hc
  simp only [padItem]
  split_ifs with h0 h1
  · simp only [padT]; rw [List.length_eq_zero_iff.1 h0]; simp
  · simp [padT]
  · exact absurd ⟨hn, le_refl _⟩ h1

theorem listToPadded_ok {l : List (T2 α)} {N C : Nat} {eq : Option Bool} (hne : l ≠ []) (hc : ∀ t ∈ l, t.cols = C)
    (hn : ∀ t ∈ l, t.rows.length ≤ N) (heq : eq = some true → ∀ t ∈ l, t.rows.length = N) :
    listToPadded l N C eq = .ok (padL N l) := by
  have hl : l.length ≠ 0 := by simpa using hne
  simp only [listToPadded, hl, if_false]
  split_ifs with h1 h2
  · congr 1
    conv_lhs => rw [← List.map_id l]
    apply List.map_congr_left
    intro t ht
    rw [padT_self (heq h1 t ht)]; rfl
  · exfalso
    apply h2
    obtain ⟨x, xs, rfl⟩ := List.exists_cons_of_ne_nil hne
    simp only [List.all_eq_true, decide_eq_true_eq, List.headD_cons]
    intro t ht
    simp [T2.shape, hc t ht, hc x (by simp), heq h1 t ht, heq h1 x (by simp)]
  · exact mapE_ok fun t ht => padItem_ok (hc t ht) (hn t ht)

/-! ### The representation relation -/

/-- A non-empty object `s` stands for the batch `a` with points `P`. -/
structure RepN (s : PC α) (a : Clouds α) (P : List (T2 α)) : Prop where
  wf : Wf a P
  hB : s.B = P.length
  hnum : s.num = sizes P
  hN : s.N = maxL (sizes P)
  hlst : ∀ X, s.lst X = none ∨ s.lst X = a X
  hpad : ∀ X, s.pad X = none ∨ s.pad X = (a X).map (padL s.N)
  hmain : (s.pad .points = none ∧ (∀ X, s.lst X = a X) ∧ s.eq = some (equi (sizes P))) ∨
    ∀ X, s.pad X = (a X).map (padL s.N)
  hhas : ∀ X b, s.has X = some b → b = (a X).isSome
  hmask : ∀ m, s.mask = some m → m = maskOf P

/-- `s` is an empty object. -/
structure RepE (s : PC α) (a : Clouds α) : Prop where
  ha : a = emptyClouds
  hlst : ∀ X, s.lst X = none
  hpad : ∀ X, s.pad X = none
  hmask : s.mask = none
  hhas : ∀ X b, s.has X = some b → b = false
  hnum : s.num = [0]
  hB : s.B = 0
  hN : s.N = 0

/-- `s` stands for the batch `a`. -/
def Rep (s : PC α) (a : Clouds α) : Prop := RepE s a ∨ ∃ P, RepN s a P

/-- The size flag describes the data (it does not after `clone` of an object held only in padded form). -/
def FlagOk (s : PC α) (a : Clouds α) : Prop := ∀ P, a .points = some P → s.eq = some (equi (sizes P))

/-- `nonpad_mask` is either cached or will be computed from a flag that describes the data. -/
def MaskOk (s : PC α) (a : Clouds α) : Prop := s.mask.isSome ∨ FlagOk s a

theorem RepN.row_le {s : PC α} {a P} (h : RepN s a P) {X l} (hl : a X = some l) : ∀ t ∈ l, t.rows.length ≤ s.N := by
  intro t ht
  rw [h.hN]
  apply le_maxL
  rw [← h.wf.rows X l hl]
  exact List.mem_map_of_mem ht

theorem Wf.length {a : Clouds α} {P} (h : Wf a P) {X l} (hl : a X = some l) : l.length = P.length := by
  have := congrArg List.length (h.rows X l hl); simpa [sizes] using this

theorem Wf.ne_nil {a : Clouds α} {P} (h : Wf a P) {X l} (hl : a X = some l) : l ≠ [] := by
  have := h.length hl
  intro h0; subst h0
  exact h.ne (List.length_eq_zero_iff.1 this.symm)

theorem sizes_ne {P : List (T2 α)} (h : P ≠ []) : sizes P ≠ [] := by simpa [sizes] using h

theorem RepN.present {s : PC α} {a P} (h : RepN s a P) (X : Attr) :
    ((s.lst X).isSome || (s.pad X).isSome) = (a X).isSome := by
  rcases h.hmain with ⟨_, hl, _⟩ | hp
  · rw [hl X]
    rcases h.hpad X with e | e <;> rw [e] <;> simp
  · rw [hp X]
    rcases h.hlst X with e | e <;> rw [e] <;> simp

/-- `s'` holds the same data as `s` except possibly for the padded tensors and the presence caches. -/
structure Frame (s s' : PC α) : Prop where
  lst : s'.lst = s.lst
  mask : s'.mask = s.mask
  eq : s'.eq = s.eq
  num : s'.num = s.num
  B : s'.B = s.B
  N : s'.N = s.N

theorem Frame.refl (s : PC α) : Frame s s := ⟨rfl, rfl, rfl, rfl, rfl, rfl⟩
theorem Frame.trans {s t u : PC α} (h : Frame s t) (k : Frame t u) : Frame s u :=
  ⟨k.lst.trans h.lst, k.mask.trans h.mask, k.eq.trans h.eq, k.num.trans h.num, k.B.trans h.B, k.N.trans h.N⟩

/-- Presence queries answer truthfully and change no observable. -/
theorem RepN.hasAttr {s : PC α} {a P} (h : RepN s a P) (X : Attr) :
    ∃ s', Pcs.hasAttr X s = ((a X).isSome, s') ∧ RepN s' a P ∧ Frame s s' ∧ s'.pad = s.pad ∧
      (∀ Y, s'.has Y = some false → s.has Y = some false ∨ (Y = X ∧ a X = none)) ∧
      s'.has X = some (a X).isSome ∧ ∀ Y c, s.has Y = some c → s'.has Y = some c := by
  cases hx : s.has X with
  | some b =>
    have := h.hhas X b hx
    subst this
    exact ⟨s, by simp [Pcs.hasAttr, hx], h, Frame.refl s, rfl, fun _ h => .inl h, hx, fun _ _ h => h⟩
  | none =>
    refine ⟨{ s with has := Function.update s.has X (some (a X).isSome) }, ?_, ?_, ⟨rfl, rfl, rfl, rfl, rfl, rfl⟩, rfl, ?_,
      by simp, ?_⟩
    · simp [Pcs.hasAttr, hx, h.present X]
    · refine { h with hhas := ?_ }
      intro Y b hb
      by_cases hy : Y = X
      · subst hy; simpa using hb.symm
      · simp only [Function.update_of_ne hy] at hb; exact h.hhas Y b hb
    · intro Y hY
      by_cases hy : Y = X
      · subst hy; right; simpa using hY
      · left; simpa only [Function.update_of_ne hy] using hY
    · intro Y c hY
      by_cases hy : Y = X
      · subst hy; rw [hx] at hY; simp at hY
      · simpa only [Function.update_of_ne hy] using hY

theorem RepN.hasPoints {s : PC α} {a P} (h : RepN s a P) : (a .points).isSome = true := by rw [h.wf.pts]; rfl

theorem RepE.hasAttr {s : PC α} {a} (h : RepE s a) (X : Attr) :
    ∃ s', Pcs.hasAttr X s = (false, s') ∧ RepE s' a := by
  cases hx : s.has X with
  | some b =>
    have := h.hhas X b hx
    subst this
    exact ⟨s, by simp [Pcs.hasAttr, hx], h⟩
  | none =>
    refine ⟨{ s with has := Function.update s.has X (some false) }, by simp [Pcs.hasAttr, hx, h.hlst X, h.hpad X], ?_⟩
    refine { h with hhas := ?_ }
    intro Y b hb
    by_cases hy : Y = X
    · subst hy; simpa using hb.symm
    · simp only [Function.update_of_ne hy] at hb; exact h.hhas Y b hb

theorem fillPad_ok {s : PC α} {X : Attr} {C : Nat} {o : Option (List (T2 α))} (hl : s.lst X = o)
    (hne : ∀ l, o = some l → l ≠ []) (hc : ∀ l, o = some l → ∀ t ∈ l, t.cols = C)
    (hn : ∀ l, o = some l → ∀ t ∈ l, t.rows.length ≤ s.N)
    (heq : s.eq = some true → ∀ l, o = some l → ∀ t ∈ l, t.rows.length = s.N) :
    fillPad X C s = (.ok (), { s with pad := Function.update s.pad X (o.map (padL s.N)) }) := by
  cases o with
  | none => simp [fillPad, hl]
  | some l =>
    simp [fillPad, hl, listToPadded_ok (hne l rfl) (hc l rfl) (hn l rfl) (fun h => heq h l rfl)]

theorem head_cols {l : List (T2 α)} {C : Nat} (hne : l ≠ []) (hc : ∀ t ∈ l, t.cols = C) : (shape3 l).2.2 = C := by
  obtain ⟨x, xs, rfl⟩ := List.exists_cons_of_ne_nil hne
  simp [shape3, T2.shape, hc x (by simp)]

theorem Wf.cols3 {a : Clouds α} {P} (h : Wf a P) {X l} (hX : X ≠ .features) (hl : a X = some l) : ∀ t ∈ l, t.cols = 3 := by
  obtain ⟨C, hc, h3⟩ := h.cols X l hl
  intro t ht; rw [hc t ht, h3 hX]

/-- `num_features` is the number of feature columns. -/
theorem RepN.numFeatures {s : PC α} {a P} (h : RepN s a P) :
    ∃ k s', Pcs.numFeatures s = (k, s') ∧ RepN s' a P ∧ Frame s s' ∧ s'.pad = s.pad ∧ (a .features = none → k = 0) ∧
      (∀ l, a .features = some l → ∀ t ∈ l, t.cols = k) ∧
      (∀ Y, s'.has Y = some false → s.has Y = some false ∨ (Y = .features ∧ a .features = none)) ∧
      ∀ Y c, s.has Y = some c → s'.has Y = some c := by
  obtain ⟨s', e, hr, h1, h2, h8, _, h9⟩ := h.hasAttr .features
  cases hf : a .features with
  | none =>
    refine ⟨0, s', ?_, hr, h1, h2, fun _ => rfl, by simp, fun Y hY => (h8 Y hY).imp id (fun h => ⟨h.1, rfl⟩), h9⟩
    simp only [Pcs.numFeatures, e, hf]; simp
  | some l =>
    obtain ⟨C, hc, _⟩ := h.wf.cols .features l hf
    have hne := h.wf.ne_nil hf
    have hpc : (shape3 (padL s'.N l)).2.2 = C := by
      apply head_cols
      · intro h0; apply hne; simpa [padL] using h0
      · intro t ht
        obtain ⟨u, hu, rfl⟩ := List.mem_map.1 ht
        exact hc u hu
    refine ⟨C, s', ?_, hr, h1, h2, by simp, ?_, fun Y hY => (h8 Y hY).imp id (fun h => by simp [hf] at h), h9⟩
    · simp only [Pcs.numFeatures, e, hf]
      have hp := hr.hpad .features
      rw [hf] at hp
      rcases hp with hp | hp
      · have hl : s'.lst .features = some l := by
          rcases hr.hmain with ⟨_, hl, _⟩ | hm
          · rw [hl, hf]
          · rw [hm, hf] at hp; simp at hp
        simp [hp, hl, head_cols hne hc]
      · simp [hp, hpc]
    · intro m hm; cases hm; exact hc

theorem numFeatures_of {s : PC α} {l : List (T2 α)} {C N : Nat} (hl : s.lst .features = some l)
    (hh : ∀ b, s.has .features = some b → b = true)
    (hp : s.pad .features = none ∨ s.pad .features = some (padL N l)) (hne : l ≠ []) (hc : ∀ t ∈ l, t.cols = C) :
    ∃ hs : Attr → Option Bool, Pcs.numFeatures s = (C, { s with has := hs }) ∧
      ∀ Y, hs Y = s.has Y ∨ (Y = .features ∧ hs Y = some true) := by
  have hpc : (shape3 (padL N l)).2.2 = C := by
    apply head_cols
    · intro h0; apply hne; simpa [padL] using h0
    · intro t ht
      obtain ⟨u, hu, rfl⟩ := List.mem_map.1 ht
      exact hc u hu
  have key : ∀ s' : PC α, s'.pad = s.pad → s'.lst = s.lst →
      (match s'.pad .features with
        | some p => ((shape3 p).2.2, s')
        | none => match s'.lst .features with
          | some l => ((shape3 l).2.2, s')
          | none => (0, s')) = (C, s') := by
    intro s' h1 h2
    rw [h1, h2, hl]
    rcases hp with e | e <;> rw [e]
    · simp [head_cols hne hc]
    · simp [hpc]
  cases hf : s.has .features with
  | some b =>
    have hb := hh b hf
    subst hb
    refine ⟨s.has, ?_, fun Y => .inl rfl⟩
    simp only [Pcs.numFeatures, Pcs.hasAttr, hf, Bool.not_true, Bool.false_eq_true, if_false]
    exact key s rfl rfl
  | none =>
    refine ⟨Function.update s.has .features (some true), ?_, ?_⟩
    · simp only [Pcs.numFeatures, Pcs.hasAttr, hf, hl, Option.isSome_some, Bool.true_or, Bool.not_true, Bool.false_eq_true, if_false]
      have := key { s with has := Function.update s.has .features (some true) } rfl rfl
      simp only [hl] at this; exact this
    · intro Y
      by_cases hy : Y = .features
      · right; subst hy; simp
      · left; simp [Function.update_of_ne hy]

/-- `_compute_padded` succeeds, fills every padded tensor with the zero-padded clouds and changes no observable. -/
theorem RepN.computePadded {s : PC α} {a P} (h : RepN s a P) :
    ∃ s', Pcs.computePadded s = (.ok (), s') ∧ RepN s' a P ∧ (∀ X, s'.pad X = (a X).map (padL s'.N)) ∧ Frame s s' ∧
      (∀ Y, s'.has Y = some false → s.has Y = some false) := by
  obtain ⟨s1, e1, hr1, hf1, hp1, hh1, _, _⟩ := h.hasAttr .points
  have hh1' : ∀ Y, s1.has Y = some false → s.has Y = some false := fun Y hY =>
    (hh1 Y hY).resolve_right fun h' => by rw [h.wf.pts] at h'; simp at h'
  have hpts := h.hasPoints
  simp only [Pcs.computePadded, e1, hpts, Bool.not_true, Bool.false_eq_true, if_false]
  by_cases hp : (s1.pad .points).isSome
  · refine ⟨s1, by simp [hp], hr1, ?_, hf1, hh1'⟩
    rcases hr1.hmain with ⟨h0, _⟩ | hm
    · rw [h0] at hp; simp at hp
    · exact hm
  · have hP1 : s1.pad .points = none ∧ (∀ X, s1.lst X = a X) ∧ s1.eq = some (equi (sizes P)) := by
      rcases hr1.hmain with h' | hm
      · exact h'
      · rw [hm, h.wf.pts] at hp; simp at hp
    obtain ⟨_, hl, heq⟩ := hP1
    have heq' : s1.eq = some true → ∀ X l, a X = some l → ∀ t ∈ l, t.rows.length = s1.N := by
      intro h' X l hX t ht
      rw [heq, Option.some.injEq] at h'
      rw [hr1.hN]
      apply equi_true (sizes_ne h.wf.ne) h'
      rw [← h.wf.rows X l hX]
      exact List.mem_map_of_mem ht
    have F : ∀ (X : Attr) (C : Nat) (s2 : PC α), s2.lst = s1.lst → s2.N = s1.N → s2.eq = s1.eq →
        (∀ l, a X = some l → ∀ t ∈ l, t.cols = C) →
        fillPad X C s2 = (.ok (), { s2 with pad := Function.update s2.pad X ((a X).map (padL s1.N)) }) := by
      intro X C s2 h1 h2 h3 h4
      rw [← h2]
      apply fillPad_ok
      · rw [h1, hl]
      · intro l hX; exact h.wf.ne_nil hX
      · exact h4
      · intro l hX; rw [h2]; exact hr1.row_le hX
      · intro h' l hX; rw [h2]; exact heq' (by rw [← h3]; exact h') X l hX
    simp only [hp, Bool.false_eq_true, if_false, hl .points, h.wf.pts]
    let s2 : PC α := { s1 with pad := Function.update s1.pad .points ((a .points).map (padL s1.N)) }
    let s3 : PC α := { s2 with pad := Function.update s2.pad .normals ((a .normals).map (padL s1.N)) }
    let s4 : PC α := { s3 with pad := Function.update s3.pad .colors ((a .colors).map (padL s1.N)) }
    have E2 : fillPad .points 3 s1 = (.ok (), s2) := F .points 3 s1 rfl rfl rfl (fun l hX => h.wf.cols3 (by simp) hX)
    have E3 : fillPad .normals 3 s2 = (.ok (), s3) := F .normals 3 s2 rfl rfl rfl (fun l hX => h.wf.cols3 (by simp) hX)
    have E4 : fillPad .colors 3 s3 = (.ok (), s4) := F .colors 3 s3 rfl rfl rfl (fun l hX => h.wf.cols3 (by simp) hX)
    obtain ⟨k, hs, E5, hhs, hk⟩ : ∃ k hs, (if (s4.lst .features).isSome then Pcs.numFeatures s4 else (0, s4)) =
        (k, ({ s4 with has := hs } : PC α)) ∧ (∀ Y, hs Y = s1.has Y ∨ (Y = .features ∧ hs Y = some true ∧ (a .features).isSome)) ∧
        ∀ l, a .features = some l → ∀ t ∈ l, t.cols = k := by
      have e4 : s4.lst .features = a .features := hl .features
      cases hf : a .features with
      | none =>
        refine ⟨0, s4.has, ?_, fun Y => .inl rfl, by simp⟩
        rw [e4, hf]; rfl
      | some l =>
        obtain ⟨C, hc, _⟩ := h.wf.cols .features l hf
        have hp4 : s4.pad .features = none ∨ s4.pad .features = some (padL s1.N l) := by
          have : s4.pad .features = s1.pad .features := rfl
          rw [this]
          have h0 := hr1.hpad .features
          rw [hf] at h0; exact h0
        have hh4 : ∀ b, s4.has .features = some b → b = true := by
          intro b hb
          have := hr1.hhas .features b hb
          rw [this, hf]; rfl
        obtain ⟨hs, e, h'⟩ := numFeatures_of (s := s4) (l := l) (by rw [e4, hf]) hh4 hp4 (h.wf.ne_nil hf) hc
        refine ⟨C, hs, ?_, ?_, ?_⟩
        · rw [e4, hf]; exact e
        · intro Y
          rcases h' Y with h' | ⟨h', h''⟩
          · exact .inl h'
          · exact .inr ⟨h', h'', rfl⟩
        · intro m hm; cases hm; exact hc
    have E6 := F .features k { s4 with has := hs } rfl rfl rfl hk
    simp only [E2, E3, E4, E5]
    refine ⟨_, E6, ?_, ?_, ?_, ?_⟩
    · refine { hr1 with hpad := ?_, hmain := ?_, hhas := ?_ }
      · intro X; right; cases X <;> simp [s4, s3, s2, Function.update]
      · right; intro X; cases X <;> simp [s4, s3, s2, Function.update]
      · intro X b hb
        rcases hhs X with h' | ⟨h', h'', h3⟩
        · exact hr1.hhas X b (by rw [← h']; exact hb)
        · subst h'; simp only at hb; rw [h''] at hb; rw [h3]; simpa using hb.symm
    · intro X; cases X <;> simp [s4, s3, s2, Function.update]
    · exact hf1.trans ⟨rfl, rfl, rfl, rfl, rfl, rfl⟩
    · intro Y hY
      rcases hhs Y with h' | ⟨h', h'', h3⟩
      · exact hh1' Y (by rw [← h']; exact hY)
      · simp only at hY; rw [h''] at hY; simp at hY

/-! ### Getters -/

theorem zip_take (N : Nat) (l : List (T2 α)) :
    List.zipWith (fun t n => T2.take n t) (padL N l) (l.map fun t => t.rows.length) = l := by
  induction l with
  | nil => rfl
  | cons t l ih =>
    simp only [padL, List.map_cons, List.zipWith_cons_cons, padT_take] at *
    rw [ih]

theorem getList_local {s : PC α} {X : Attr} {o : Option (List (T2 α))} (hl : s.lst X = none ∨ s.lst X = o)
    (hp : s.pad X = none ∨ s.pad X = o.map (padL s.N)) (hpres : ((s.lst X).isSome || (s.pad X).isSome) = o.isSome)
    (hnum : ∀ l, o = some l → s.num = l.map fun t => t.rows.length) :
    Pcs.getList X s = (o, { s with lst := Function.update s.lst X o }) := by
  simp only [Pcs.getList]
  cases h1 : s.lst X with
  | some l =>
    rw [h1] at hl
    have : o = some l := by rcases hl with h | h; simp at h; exact h.symm
    subst this
    have e : Function.update s.lst X (some l) = s.lst := by rw [← h1, Function.update_eq_self]
    simp only [e]
  | none =>
    cases h2 : s.pad X with
    | none =>
      have : o = none := by simpa [h1, h2] using hpres.symm
      subst this
      have e : Function.update s.lst X none = s.lst := by rw [← h1, Function.update_eq_self]
      simp only [e]
    | some p =>
      rw [h2] at hp
      cases o with
      | none => simp at hp
      | some l =>
        simp only [reduceCtorEq, Option.map_some, Option.some.injEq, false_or] at hp
        subst hp
        simp only [hnum l rfl, zip_take]

/-- The list getters return the clouds' tensors and change no observable. -/
theorem RepN.getList {s : PC α} {a P} (h : RepN s a P) (X : Attr) :
    Pcs.getList X s = (a X, { s with lst := Function.update s.lst X (a X) }) ∧
    RepN { s with lst := Function.update s.lst X (a X) } a P := by
  refine ⟨getList_local (h.hlst X) (h.hpad X) (h.present X) fun l hl => by rw [h.hnum, ← h.wf.rows X l hl], ?_⟩
  refine { h with hlst := ?_, hmain := ?_ }
  · intro Y
    by_cases hy : Y = X
    · subst hy; simp
    · simpa only [Function.update_of_ne hy] using h.hlst Y
  · rcases h.hmain with ⟨h1, h2, h3⟩ | h'
    · refine .inl ⟨h1, ?_, h3⟩
      intro Y
      by_cases hy : Y = X
      · subst hy; simp
      · simpa only [Function.update_of_ne hy] using h2 Y
    · exact .inr h'

theorem mask_eq {P : List (T2 α)} {eq : Option Bool} (h : eq = some (equi (sizes P))) :
    ((List.range P.length).map fun b => (List.range (maxL (sizes P))).map fun n =>
        decide (n < if eq = some true then (sizes P).headD 0 else (sizes P).getD b 0)) = maskOf P := by
  apply List.ext_getElem
  · simp [maskOf]
  · intro b h1 h2
    have hb : b < P.length := by simpa using h1
    simp only [maskOf, List.getElem_map, List.getElem_range]
    have hs : (sizes P).getD b 0 = P[b].rows.length := by
      simp [sizes, List.getD_eq_getElem?_getD, List.getElem?_eq_getElem hb]
    split_ifs with he
    · rw [h, Option.some.injEq] at he
      have he' : ∀ n ∈ sizes P, n = (sizes P).headD 0 := by simpa [equi] using he
      rw [← he' P[b].rows.length (List.mem_map.2 ⟨P[b], by simp, rfl⟩)]
    · rw [hs]

/-- `nonpad_mask` is true exactly at the points, if the mask is cached or the size flag describes the data. -/
theorem RepN.getMask {s : PC α} {a P} (h : RepN s a P) (hm : MaskOk s a) :
    ∃ s', Pcs.getMask s = (some (maskOf P), s') ∧ RepN s' a P ∧ s'.mask = some (maskOf P) ∧ s'.lst = s.lst ∧ s'.pad = s.pad ∧
      s'.eq = s.eq ∧ s'.B = s.B ∧ s'.N = s.N ∧ s'.num = s.num := by
  cases hk : s.mask with
  | some m =>
    have := h.hmask m hk
    subst this
    exact ⟨s, by simp [Pcs.getMask, hk], h, hk, rfl, rfl, rfl, rfl, rfl, rfl⟩
  | none =>
    obtain ⟨s1, e1, hr1, hf1, hp1, _, _, _⟩ := h.hasAttr .points
    have hflag : s.eq = some (equi (sizes P)) := by
      rcases hm with h' | h'
      · rw [hk] at h'; simp at h'
      · exact h' P h.wf.pts
    refine ⟨{ s1 with mask := some (maskOf P) }, ?_, ?_, rfl, hf1.lst, hp1, hf1.eq, hf1.B, hf1.N, hf1.num⟩
    · simp only [Pcs.getMask, hk, e1, h.hasPoints, if_true]
      rw [hr1.hB, hr1.hN, hr1.hnum, mask_eq (hf1.eq.trans hflag)]
    · refine { hr1 with hmask := ?_ }
      intro m hm'
      simp only [Option.some.injEq] at hm'
      exact hm'.symm

/-- The padded getters return the zero-padded clouds and change no observable. -/
theorem RepN.getPad {s : PC α} {a P} (h : RepN s a P) (X : Attr) :
    ∃ s', Pcs.getPad X s = (.ok ((a X).map (padL s.N)), s') ∧ RepN s' a P ∧ (∀ Y, s'.pad Y = (a Y).map (padL s'.N)) ∧ Frame s s' ∧
      (∀ Y, s'.has Y = some false → s.has Y = some false) := by
  obtain ⟨s', e, hr, hp, hf, hh⟩ := h.computePadded
  refine ⟨s', ?_, hr, hp, hf, hh⟩
  simp only [Pcs.getPad, e, hp X, hf.N]

/-! ### Empty objects -/

theorem RepE.computePadded {s : PC α} {a} (h : RepE s a) : ∃ s', Pcs.computePadded s = (.ok (), s') ∧ RepE s' a := by
  obtain ⟨s', e, hr⟩ := h.hasAttr .points
  exact ⟨s', by simp [Pcs.computePadded, e], hr⟩

theorem RepE.getPad {s : PC α} {a} (h : RepE s a) (X : Attr) : ∃ s', Pcs.getPad X s = (.ok none, s') ∧ RepE s' a := by
  obtain ⟨s', e, hr⟩ := h.computePadded
  exact ⟨s', by simp [Pcs.getPad, e, hr.hpad X], hr⟩

theorem RepE.getList {s : PC α} {a} (h : RepE s a) (X : Attr) : Pcs.getList X s = (none, s) := by
  simp [Pcs.getList, h.hlst X, h.hpad X]

theorem RepE.getMask {s : PC α} {a} (h : RepE s a) : ∃ s', Pcs.getMask s = (none, s') ∧ RepE s' a := by
  obtain ⟨s', e, hr⟩ := h.hasAttr .points
  exact ⟨s', by simp [Pcs.getMask, h.hmask, e], hr⟩

end
end Verif.Pcs
