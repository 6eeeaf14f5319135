import Verif.PC.Refine
/-! Setters, construction and clone preserve the representation relation. -/
namespace Verif.Pcs
open Verif
set_option linter.unusedSectionVars false
set_option linter.unusedSimpArgs false

section
variable {α : Type*} [Zero α]

theorem Wf.sizes_of {a : Clouds α} {P} (h : Wf a P) {X l} (hl : a X = some l) : sizes l = sizes P := h.rows X l hl

/-- `sizes` determines the padded length. -/
theorem shape3_padL {l : List (T2 α)} {N C : Nat} (hne : l ≠ []) (hn : ∀ t ∈ l, t.rows.length ≤ N) (hc : ∀ t ∈ l, t.cols = C) :
    shape3 (padL N l) = (l.length, N, C) := by
  obtain ⟨x, xs, rfl⟩ := List.exists_cons_of_ne_nil hne
  simp only [shape3, padL_length, padL, List.map_cons, List.head?_cons, Option.map_some, Option.getD_some, T2.shape, padT_cols,
    padT_rows_length (hn x (by simp)), hc x (by simp)]
  simp

theorem zeroBeyond_padL [DecidableEq α] (N : Nat) (l : List (T2 α)) : zeroBeyond (padL N l) (sizes l) = true := by
  induction l with
  | nil => rfl
  | cons t l ih =>
    simp only [zeroBeyond, padL, sizes, List.map_cons, List.zipWith_cons_cons, List.all_cons, id, Bool.and_eq_true] at *
    refine ⟨?_, ih⟩
    simp only [padT, List.drop_left, List.all_eq_true]
    intro r hr x hx
    rw [List.mem_replicate] at hr
    obtain ⟨_, rfl⟩ := hr
    rw [List.mem_replicate] at hx
    simp [hx.2]

/-- The updated batch is well formed. -/
theorem Wf.set {a : Clouds α} {P} (h : Wf a P) {X : Attr} {l : List (T2 α)} (hs : sizes l = sizes P) (hv : ∀ t ∈ l, t.Valid) {C : Nat}
    (hc : ∀ t ∈ l, t.cols = C) (h3 : X ≠ .features → C = 3) : Wf (specSet X l a) (if X = .points then l else P) := by
  have hlen : l.length = P.length := by have := congrArg List.length hs; simpa [sizes] using this
  have hsz : sizes (if X = .points then l else P) = sizes P := by split_ifs <;> simp [hs]
  refine ⟨?_, ?_, ?_, ?_, ?_⟩
  · by_cases hX : X = .points
    · subst hX; simp [specSet]
    · simp only [specSet, Function.update_of_ne (Ne.symm hX), hX, if_false, h.pts]
  · split_ifs
    · intro h0; subst h0; exact h.ne (List.length_eq_zero_iff.1 hlen.symm)
    · exact h.ne
  · intro Y m hm
    rw [hsz]
    by_cases hy : Y = X
    · subst hy; simp only [specSet, Function.update_self, Option.some.injEq] at hm; subst hm; exact hs
    · simp only [specSet, Function.update_of_ne hy] at hm; exact h.rows Y m hm
  · intro Y m hm
    by_cases hy : Y = X
    · subst hy; simp only [specSet, Function.update_self, Option.some.injEq] at hm; subst hm; exact hv
    · simp only [specSet, Function.update_of_ne hy] at hm; exact h.valid Y m hm
  · intro Y m hm
    by_cases hy : Y = X
    · subst hy; simp only [specSet, Function.update_self, Option.some.injEq] at hm; subst hm; exact ⟨C, hc, h3⟩
    · simp only [specSet, Function.update_of_ne hy] at hm; exact h.cols Y m hm

/-- Mask of a batch depends only on the sizes. -/
theorem maskOf_congr {P Q : List (T2 α)} (h : sizes P = sizes Q) : maskOf P = maskOf Q := by
  have e : ∀ P : List (T2 α), maskOf P = (sizes P).map fun k => (List.range (maxL (sizes P))).map fun n => decide (n < k) := by
    intro P; simp [maskOf, sizes, Function.comp_def]
  rw [e, e, h]

theorem flag_set {s : PC α} {a : Clouds α} {P} (hw : Wf a P) (X : Attr) {l : List (T2 α)} (hs : sizes l = sizes P) :
    FlagOk s a ↔ FlagOk s (specSet X l a) := by
  constructor
  · intro h Q hQ
    have hP := h P hw.pts
    by_cases hX : X = .points
    · subst hX; simp only [specSet, Function.update_self, Option.some.injEq] at hQ; subst hQ; rw [hs]; exact hP
    · simp only [specSet, Function.update_of_ne (Ne.symm hX), hw.pts, Option.some.injEq] at hQ; subst hQ; exact hP
  · intro h Q hQ
    rw [hw.pts, Option.some.injEq] at hQ; subst hQ
    by_cases hX : X = .points
    · subst hX; have := h l (by simp [specSet]); rw [hs] at this; exact this
    · exact h P (by simp only [specSet, Function.update_of_ne (Ne.symm hX), hw.pts])

/-- Assigning the zero-padded form of a replacement `l` (one tensor per cloud with the cloud's number of rows) succeeds and afterwards
the object stands for the batch with `X` replaced by `l`, provided the presence of `X` is not cached as absent. -/
theorem RepN.setPad [DecidableEq α] {s : PC α} {a P} (h : RepN s a P) {X : Attr} {l : List (T2 α)} {C : Nat} (hs : sizes l = sizes P)
    (hv : ∀ t ∈ l, t.Valid) (hc : ∀ t ∈ l, t.cols = C) (h3 : X ≠ .features → C = 3) (hh : s.has X ≠ some false) :
    ∃ s', Pcs.setPad X (padL s.N l) s = (.ok (), s') ∧ RepN s' (specSet X l a) (if X = .points then l else P) ∧
      s'.eq = s.eq ∧ s'.mask = s.mask := by
  have hlen : l.length = P.length := by have := congrArg List.length hs; simpa [sizes] using this
  have hne : l ≠ [] := by intro h0; subst h0; exact h.wf.ne (List.length_eq_zero_iff.1 hlen.symm)
  have hle : ∀ t ∈ l, t.rows.length ≤ s.N := by
    intro t ht; rw [h.hN, ← hs]; exact le_maxL (List.mem_map_of_mem ht)
  obtain ⟨s1, e1, hr1, hf1, hp1, hh1, _, _⟩ := h.hasAttr .points
  obtain ⟨s2, e2, hr2, hp2, hf2, hh2⟩ := hr1.getPad .points
  have hN2 : s2.N = s.N := hf2.N.trans hf1.N
  have hsP : shape3 (((a .points).map (padL s1.N)).getD []) = (P.length, s.N, 3) := by
    rw [h.wf.pts, hf1.N]
    exact shape3_padL h.wf.ne (h.row_le h.wf.pts) (h.wf.cols3 (by simp) h.wf.pts)
  have hsv : shape3 (padL s.N l) = (P.length, s.N, C) := by rw [shape3_padL hne hle hc, hlen]
  have hz : zeroBeyond (padL s.N l) s2.num = true := by
    rw [hr2.hnum, ← hs]; exact zeroBeyond_padL _ _
  have hsz : sizes (if X = .points then l else P) = sizes P := by split_ifs <;> simp [hs]
  refine ⟨{ s2 with pad := Function.update s2.pad X (some (padL s.N l)), lst := Function.update s2.lst X none }, ?_, ?_,
    hf2.eq.trans hf1.eq, hf2.mask.trans hf1.mask⟩
  · simp only [Pcs.setPad, e1, h.hasPoints, Bool.not_true, Bool.false_eq_true, if_false, e2, hsP, hsv, hz]
    rw [if_neg (by simp), if_neg]
    intro h0
    exact h0.2 (by rw [h3 h0.1])
  · refine ⟨h.wf.set hs hv hc h3, ?_, ?_, ?_, ?_, ?_, ?_, ?_, ?_⟩
    · show s2.B = _
      rw [hr2.hB]; split_ifs <;> simp [hlen]
    · show s2.num = _
      rw [hr2.hnum, hsz]
    · show s2.N = _
      rw [hr2.hN, hsz]
    · intro Y
      by_cases hy : Y = X
      · subst hy; simp
      · simp only [Function.update_of_ne hy, specSet]; exact hr2.hlst Y
    · intro Y
      right
      by_cases hy : Y = X
      · subst hy; simp [specSet, hN2]
      · simp only [Function.update_of_ne hy, specSet]; exact hp2 Y
    · right
      intro Y
      by_cases hy : Y = X
      · subst hy; simp [specSet, hN2]
      · simp only [Function.update_of_ne hy, specSet]; exact hp2 Y
    · intro Y b hb
      by_cases hy : Y = X
      · subst hy
        simp only [specSet, Function.update_self, Option.isSome_some]
        cases b with
        | true => rfl
        | false =>
          exfalso
          rcases hh1 Y (hh2 Y hb) with h' | ⟨rfl, h'⟩
          · exact hh h'
          · rw [h.wf.pts] at h'; simp at h'
      · simp only [specSet, Function.update_of_ne hy]; exact hr2.hhas Y b hb
    · intro m hm
      rw [maskOf_congr hsz]; exact hr2.hmask m hm

/-- A 3-D tensor is a list of equally shaped rectangular slices. -/
def Rect (v : List (T2 α)) : Prop := ∃ n c, ∀ t ∈ v, t.Valid ∧ t.rows.length = n ∧ t.cols = c

theorem unpad_of_zero [DecidableEq α] {N C : Nat} : ∀ (v : List (T2 α)) (ns : List Nat), v.length = ns.length →
    (∀ n ∈ ns, n ≤ N) → (∀ t ∈ v, t.Valid ∧ t.rows.length = N ∧ t.cols = C) → zeroBeyond v ns = true →
    ∃ l, v = padL N l ∧ sizes l = ns ∧ (∀ t ∈ l, t.Valid) ∧ ∀ t ∈ l, t.cols = C := by
  intro v
  induction v with
  | nil => intro ns h _ _ _; refine ⟨[], rfl, ?_, by simp, by simp⟩; simp only [List.length_nil] at h; simp [sizes, List.length_eq_zero_iff.1 h.symm]
  | cons t v ih =>
    intro ns hlen hle hv hz
    cases ns with
    | nil => simp at hlen
    | cons n ns =>
      have hz' : (((t.rows.drop n).all fun r => r.all fun x => decide (x = 0)) && zeroBeyond v ns) = true := by
        simpa [zeroBeyond] using hz
      rw [Bool.and_eq_true] at hz'
      obtain ⟨l, e1, e2, e3, e4⟩ := ih ns (by simpa using hlen) (fun k hk => hle k (by simp [hk])) (fun u hu => hv u (by simp [hu])) hz'.2
      obtain ⟨hv1, hv2, hv3⟩ := hv t (by simp)
      have hn := hle n (by simp)
      have hd : t.rows.drop n = List.replicate (N - n) (List.replicate C 0) := by
        rw [List.eq_replicate_iff]
        refine ⟨by simp [hv2], ?_⟩
        intro r hr
        rw [List.eq_replicate_iff]
        refine ⟨by rw [← hv3]; exact hv1 r (List.mem_of_mem_drop hr), ?_⟩
        intro x hx
        have := List.all_eq_true.1 hz'.1 r hr
        simpa using List.all_eq_true.1 this x hx
      refine ⟨T2.take n t :: l, ?_, ?_, ?_, ?_⟩
      · simp only [padL, List.map_cons] at *
        rw [← e1]
        congr 1
        ext1
        · have hm : min n t.rows.length = n := by omega
          simp only [padT, T2.take, List.length_take, hm]
          conv_lhs => rw [← List.take_append_drop n t.rows, hd]
          rw [hv3]
        · rfl
      · simp only [sizes, List.map_cons, T2.take, List.length_take] at *
        rw [e2, hv2, min_eq_left hn]
      · intro u hu
        rcases List.mem_cons.1 hu with rfl | hu
        · intro r hr; exact hv1 r (List.mem_of_mem_take hr)
        · exact e3 u hu
      · intro u hu
        rcases List.mem_cons.1 hu with rfl | hu
        · exact hv3
        · exact e4 u hu

/-- An assignment of a tensor is either refused with ValueError, changing nothing observable, or the tensor is the zero-padded form of
an admissible replacement. -/
theorem RepN.setPad_cases [DecidableEq α] {s : PC α} {a P} (h : RepN s a P) (X : Attr) (v : List (T2 α)) (hv : Rect v) :
    (∃ s', Pcs.setPad X v s = (.error .valueError, s') ∧ RepN s' a P ∧ s'.eq = s.eq ∧ s'.mask = s.mask) ∨
    ∃ l C, v = padL s.N l ∧ sizes l = sizes P ∧ (∀ t ∈ l, t.Valid) ∧ (∀ t ∈ l, t.cols = C) ∧ (X ≠ .features → C = 3) ∧
      ∃ s', Pcs.setPad X v s = (.ok (), s') := by
  obtain ⟨s1, e1, hr1, hf1, hp1, hh1, _, _⟩ := h.hasAttr .points
  obtain ⟨s2, e2, hr2, hp2, hf2, hh2⟩ := hr1.getPad .points
  have hsP : shape3 (((a .points).map (padL s1.N)).getD []) = (P.length, s.N, 3) := by
    rw [h.wf.pts, hf1.N]
    exact shape3_padL h.wf.ne (h.row_le h.wf.pts) (h.wf.cols3 (by simp) h.wf.pts)
  have e : Pcs.setPad X v s = if X = .features ∧ ((shape3 v).1, (shape3 v).2.1) ≠ (P.length, s.N) then (.error .valueError, s2)
      else if X ≠ .features ∧ shape3 v ≠ (P.length, s.N, 3) then (.error .valueError, s2)
      else if !zeroBeyond v s2.num then (.error .valueError, s2)
      else (.ok (), { s2 with pad := Function.update s2.pad X (some v), lst := Function.update s2.lst X none }) := by
    simp only [Pcs.setPad, e1, h.hasPoints, Bool.not_true, Bool.false_eq_true, if_false, e2, hsP]
  by_cases c1 : X = .features ∧ ((shape3 v).1, (shape3 v).2.1) ≠ (P.length, s.N)
  · exact .inl ⟨s2, by rw [e, if_pos c1], hr2, hf2.eq.trans hf1.eq, hf2.mask.trans hf1.mask⟩
  by_cases c2 : X ≠ .features ∧ shape3 v ≠ (P.length, s.N, 3)
  · exact .inl ⟨s2, by rw [e, if_neg c1, if_pos c2], hr2, hf2.eq.trans hf1.eq, hf2.mask.trans hf1.mask⟩
  by_cases c3 : zeroBeyond v s2.num = true
  · right
    have hpos : 0 < P.length := List.length_pos_iff.2 h.wf.ne
    have hsh : (shape3 v).1 = P.length ∧ (shape3 v).2.1 = s.N ∧ (X ≠ .features → (shape3 v).2.2 = 3) := by
      by_cases hX : X = .features
      · have : ((shape3 v).1, (shape3 v).2.1) = (P.length, s.N) := by by_contra h0; exact c1 ⟨hX, h0⟩
        rw [Prod.mk.injEq] at this
        exact ⟨this.1, this.2, fun h0 => absurd hX h0⟩
      · have : shape3 v = (P.length, s.N, 3) := by by_contra h0; exact c2 ⟨hX, h0⟩
        rw [this]; simp
    have hlen : v.length = P.length := hsh.1
    obtain ⟨n, c, hr⟩ := hv
    have hvne : v ≠ [] := by intro h0; subst h0; simp at hlen; omega
    obtain ⟨t, ts, rfl⟩ := List.exists_cons_of_ne_nil hvne
    have h1 : n = s.N := by
      rw [← hsh.2.1]; simp [shape3, T2.shape, (hr t (by simp)).2.1]
    have h2 : X ≠ .features → c = 3 := by
      intro hX; rw [← hsh.2.2 hX]; simp [shape3, T2.shape, (hr t (by simp)).2.2]
    subst h1
    obtain ⟨l, e1, e2, e3, e4⟩ := unpad_of_zero (t :: ts) (sizes P) (by rw [hlen]; simp [sizes])
      (fun k hk => by rw [h.hN]; exact le_maxL hk) hr (by rw [← hr2.hnum]; exact c3)
    exact ⟨l, c, e1, e2, e3, e4, h2, _, by rw [e, if_neg c1, if_neg c2, if_neg (by rw [c3]; simp)]⟩
  · exact .inl ⟨s2, by rw [e, if_neg c1, if_neg c2, if_pos (by simpa using c3)], hr2, hf2.eq.trans hf1.eq, hf2.mask.trans hf1.mask⟩

/-- List assignment, on the states where it is sound: for points, every present attribute is held as a list and the size flag
describes the data; for another attribute, nothing has been padded yet and its absence is not cached. -/
theorem RepN.setList {s : PC α} {a P} (h : RepN s a P) {X : Attr} {l : List (T2 α)} {C : Nat} (hs : sizes l = sizes P)
    (hv : ∀ t ∈ l, t.Valid) (hc : ∀ t ∈ l, t.cols = C) (h3 : X ≠ .features → C = 3)
    (hg : if X = .points then (∀ Y, Y ≠ .points → s.lst Y = a Y) ∧ FlagOk s a
      else s.pad .points = none ∧ s.pad X = none ∧ s.has X ≠ some false) :
    ∃ s', Pcs.setList X l s = (.ok (), s') ∧ RepN s' (specSet X l a) (if X = .points then l else P) ∧
      s'.eq = s.eq ∧ s'.mask = s.mask := by
  have hlen : l.length = P.length := by have := congrArg List.length hs; simpa [sizes] using this
  obtain ⟨s1, e1, hr1, hf1, hp1, hh1, _, _⟩ := h.hasAttr .points
  obtain ⟨e2, hr2⟩ := hr1.getList .points
  have hsz : sizes (if X = .points then l else P) = sizes P := by split_ifs <;> simp [hs]
  have hsh : X ≠ .features → l.map T2.shape = P.map T2.shape := by
    intro hX
    have e : ∀ l : List (T2 α), (∀ t ∈ l, t.cols = 3) → l.map T2.shape = (sizes l).map fun n => (n, 3) := by
      intro l hl
      simp only [sizes, List.map_map]
      apply List.map_congr_left
      intro t ht; simp [T2.shape, hl t ht]
    rw [e l (fun t ht => by rw [hc t ht, h3 hX]), e P (h.wf.cols3 (by simp) h.wf.pts), hs]
  refine ⟨{ s1 with
      lst := Function.update (Function.update s1.lst .points (a .points)) X (some l),
      pad := if X = .points then Function.update s1.pad .points none else s1.pad }, ?_, ?_, ?_, ?_⟩
  · simp only [Pcs.setList, e1, h.hasPoints, Bool.not_true, Bool.false_eq_true, if_false, hr1.hB, hlen, ne_eq, not_true_eq_false,
      e2, h.wf.pts, Option.getD_some]
    have c1 : ¬(X = .features ∧ ¬(l.map fun t => t.rows.length) = P.map fun t => t.rows.length) := fun h0 => h0.2 hs
    have c2 : ¬(¬X = .features ∧ ¬l.map T2.shape = P.map T2.shape) := fun h0 => h0.2 (hsh h0.1)
    rw [if_neg c1, if_neg c2]
    rfl
  · refine ⟨h.wf.set hs hv hc h3, ?_, ?_, ?_, ?_, ?_, ?_, ?_, ?_⟩
    · show s1.B = _
      rw [hr1.hB]; split_ifs <;> simp [hlen]
    · show s1.num = _
      rw [hr1.hnum, hsz]
    · show s1.N = _
      rw [hr1.hN, hsz]
    · intro Y
      by_cases hy : Y = X
      · subst hy; simp [specSet]
      · simp only [Function.update_of_ne hy, specSet]; exact hr2.hlst Y
    · intro Y
      by_cases hy : Y = X
      · subst hy
        left
        by_cases hp : Y = .points
        · subst hp; simp
        · simp only [hp, if_false] at hg ⊢; rw [hp1]; exact hg.2.1
      · by_cases hp : X = .points
        · subst hp; simp only [if_true, Function.update_of_ne hy, specSet]; exact hr1.hpad Y
        · simp only [hp, if_false, specSet, Function.update_of_ne hy]; exact hr1.hpad Y
    · left
      by_cases hp : X = .points
      · subst hp
        simp only [if_true] at hg ⊢
        refine ⟨by simp, ?_, ?_⟩
        · intro Y
          by_cases hy : Y = .points
          · subst hy; simp [specSet]
          · simp only [Function.update_of_ne hy, specSet, hf1.lst]; exact hg.1 Y hy
        · show s1.eq = _
          rw [hf1.eq, hs]; exact hg.2 P h.wf.pts
      · simp only [hp, if_false] at hg ⊢
        have hP1 : s1.pad .points = none ∧ (∀ X, s1.lst X = a X) ∧ s1.eq = some (equi (sizes P)) := by
          rcases hr1.hmain with h' | h'
          · exact h'
          · exfalso
            have := h' .points
            rw [hp1, hg.1, h.wf.pts] at this; simp at this
        refine ⟨hP1.1, ?_, hP1.2.2⟩
        intro Y
        by_cases hy : Y = X
        · subst hy; simp [specSet]
        · simp only [Function.update_of_ne hy, specSet]
          by_cases hyp : Y = .points
          · subst hyp; simp
          · simp only [Function.update_of_ne hyp]; exact hP1.2.1 Y
    · intro Y b hb
      by_cases hy : Y = X
      · subst hy
        simp only [specSet, Function.update_self, Option.isSome_some]
        cases b with
        | true => rfl
        | false =>
          exfalso
          rcases hh1 Y hb with h' | ⟨rfl, h'⟩
          · by_cases hp : Y = .points
            · subst hp
              have := h.hhas .points false h'
              rw [h.wf.pts] at this; simp at this
            · simp only [hp, if_false] at hg; exact hg.2.2 h'
          · rw [h.wf.pts] at h'; simp at h'
      · simp only [specSet, Function.update_of_ne hy]; exact hr2.hhas Y b hb
    · intro m hm
      rw [maskOf_congr hsz]; exact hr1.hmask m hm
  · exact hf1.eq
  · exact hf1.mask

end
end Verif.Pcs
