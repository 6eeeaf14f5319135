import Verif.PC.Refine2
/-! Construction, clone and append preserve the representation relation. -/
namespace Verif.Pcs
open Verif
set_option linter.unusedSectionVars false
set_option linter.unusedSimpArgs false

section
variable {α : Type*} [Zero α]

theorem dedup_const {l : List Nat} {k : Nat} (hne : l ≠ []) (h : ∀ n ∈ l, n = k) : l.dedup.length = 1 := by
  have : l = List.replicate l.length k := List.eq_replicate_iff.2 ⟨rfl, h⟩
  rw [this, List.dedup_replicate, if_neg (by simpa using hne)]; rfl
where
  List.dedup_replicate {n k : Nat} : (List.replicate n k).dedup = if n = 0 then [] else [k] := by
    induction n with
    | zero => rfl
    | succ n ih =>
      rw [List.replicate_succ]
      by_cases hn : n = 0
      · subst hn; rfl
      · rw [List.dedup_cons_of_mem (by simp [hn]), ih]; simp [hn]

theorem shape_map_of {P l : List (T2 α)} (hr : sizes l = sizes P) {C : Nat} (hl : ∀ t ∈ l, t.cols = C) (hP : ∀ t ∈ P, t.cols = C) :
    l.map T2.shape = P.map T2.shape := by
  have e : ∀ l : List (T2 α), (∀ t ∈ l, t.cols = C) → l.map T2.shape = (sizes l).map fun n => (n, C) := by
    intro l hl
    simp only [sizes, List.map_map]
    apply List.map_congr_left
    intro t ht; simp [T2.shape, hl t ht]
  rw [e l hl, e P hP, hr]

/-- The list constructor accepts (a part of) a well-formed batch. -/
theorem newList_ok {a : Clouds α} {P} (h : Wf a P) {arg : Attr → Option (List (T2 α))} (harg : ∀ X, arg X = none ∨ arg X = a X) :
    newList arg P = .ok ⟨fun X => if X = .points then some P else arg X, fun _ => none, none, fun _ => none, sizes P,
      some (equi (sizes P)), P.length, maxL (sizes P)⟩ := by
  have h1 : ¬ P.length = 0 := by simpa using h.ne
  have h2 : ¬ (P.any fun p => decide (p.cols ≠ 3)) = true := by
    simp only [List.any_eq_true, decide_eq_true_eq, not_exists, not_and, not_not]
    exact h.cols3 (by simp) h.pts
  have sh : ∀ X, X ≠ .features → okOpt (arg X) (fun n => decide (n.map T2.shape = P.map T2.shape)) = true := by
    intro X hX
    rcases harg X with e | e
    · rw [e]; rfl
    · rw [e]
      cases hx : a X with
      | none => rfl
      | some l =>
        simp only [okOpt, decide_eq_true_eq]
        exact shape_map_of (h.sizes_of hx) (h.cols3 hX hx) (h.cols3 (by simp) h.pts)
  have f1 : okOpt (arg .features) (fun f => decide ((f.map fun t => t.rows.length) = P.map fun t => t.rows.length)) = true := by
    rcases harg .features with e | e
    · rw [e]; rfl
    · rw [e]
      cases hx : a .features with
      | none => rfl
      | some l => simp only [okOpt, decide_eq_true_eq]; exact h.rows _ l hx
  have f2 : okOpt (arg .features) (fun f => decide ((f.map fun t => t.cols).dedup.length = 1)) = true := by
    rcases harg .features with e | e
    · rw [e]; rfl
    · rw [e]
      cases hx : a .features with
      | none => rfl
      | some l =>
        simp only [okOpt, decide_eq_true_eq]
        obtain ⟨C, hc, _⟩ := h.cols _ l hx
        apply dedup_const (k := C)
        · simpa using h.ne_nil hx
        · intro n hn
          obtain ⟨t, ht, rfl⟩ := List.mem_map.1 hn
          exact hc t ht
  simp only [newList, h1, h2, sh .normals (by simp), sh .colors (by simp), f1, f2, if_false, Bool.not_true, Bool.false_eq_true]
  rfl

/-- A freshly built list object stands for its arguments. -/
theorem newList_rep {a : Clouds α} {P} (h : Wf a P) : ∃ s, newList a P = .ok s ∧ RepN s a P ∧ FlagOk s a := by
  refine ⟨_, newList_ok h (fun X => .inr rfl), ?_, ?_⟩
  · have e : ∀ X, (if X = .points then some P else a X) = a X := by
      intro X; split_ifs with hX
      · subst hX; rw [h.pts]
      · rfl
    refine ⟨h, rfl, rfl, rfl, fun X => .inr (e X), fun X => .inl rfl, .inl ⟨rfl, e, rfl⟩, by simp, by simp⟩
  · intro Q hQ; rw [h.pts, Option.some.injEq] at hQ; subst hQ; rfl

/-- What an accepted list argument looks like: the constructor's checks are exactly well-formedness (for rectangular tensors). -/
theorem newList_wf {arg : Attr → Option (List (T2 α))} {P : List (T2 α)} {s : PC α} (hP : arg .points = some P)
    (hval : ∀ X l, arg X = some l → ∀ t ∈ l, t.Valid) (h : newList arg P = .ok s) : Wf arg P := by
  simp only [newList] at h
  split_ifs at h with c1 c2 c3 c4 c5 c6
  have hne : P ≠ [] := by intro h0; subst h0; simp at c1
  have h3 : ∀ t ∈ P, t.cols = 3 := by simpa using c2
  have inv : ∀ {l : List (T2 α)}, l.map T2.shape = P.map T2.shape → sizes l = sizes P ∧ ∀ t ∈ l, t.cols = 3 := by
    intro l hl
    constructor
    · have := congrArg (List.map Prod.fst) hl
      simpa [sizes, Function.comp_def, T2.shape] using this
    · intro t ht
      have : t.shape ∈ P.map T2.shape := by rw [← hl]; exact List.mem_map_of_mem ht
      obtain ⟨u, hu, he⟩ := List.mem_map.1 this
      have := congrArg Prod.snd he
      simp only [T2.shape] at this
      rw [← this]; exact h3 u hu
  have n3 : ∀ l, arg .normals = some l → l.map T2.shape = P.map T2.shape := by
    intro l hl; rw [hl] at c3; simpa [okOpt] using c3
  have n4 : ∀ l, arg .colors = some l → l.map T2.shape = P.map T2.shape := by
    intro l hl; rw [hl] at c4; simpa [okOpt] using c4
  have n5 : ∀ l, arg .features = some l → (l.map fun t => t.rows.length) = P.map fun t => t.rows.length := by
    intro l hl; rw [hl] at c5; simpa [okOpt] using c5
  have n6 : ∀ l, arg .features = some l → (l.map fun t => t.cols).dedup.length = 1 := by
    intro l hl; rw [hl] at c6; simpa [okOpt] using c6
  refine ⟨hP, hne, ?_, hval, ?_⟩
  · intro X l hl
    cases X with
    | points => rw [hP, Option.some.injEq] at hl; subst hl; rfl
    | normals => exact (inv (n3 l hl)).1
    | colors => exact (inv (n4 l hl)).1
    | features => exact n5 l hl
  · intro X l hl
    cases X with
    | points => rw [hP, Option.some.injEq] at hl; subst hl; exact ⟨3, h3, fun _ => rfl⟩
    | normals => exact ⟨3, (inv (n3 l hl)).2, fun _ => rfl⟩
    | colors => exact ⟨3, (inv (n4 l hl)).2, fun _ => rfl⟩
    | features =>
      obtain ⟨C, hC⟩ := List.length_eq_one_iff.1 (n6 l hl)
      refine ⟨C, ?_, by simp⟩
      intro t ht
      have : t.cols ∈ (l.map fun t => t.cols).dedup := List.mem_dedup.2 (List.mem_map_of_mem ht)
      rw [hC] at this; simpa using this

theorem padL_self {l : List (T2 α)} {N : Nat} (h : ∀ t ∈ l, t.rows.length = N) : padL N l = l := by
  conv_rhs => rw [← List.map_id l]
  apply List.map_congr_left
  intro t ht; rw [padT_self (h t ht)]; rfl

theorem shape3_rect {v : List (T2 α)} {n c : Nat} (hne : v ≠ []) (h : ∀ t ∈ v, t.rows.length = n ∧ t.cols = c) :
    shape3 v = (v.length, n, c) := by
  obtain ⟨x, xs, rfl⟩ := List.exists_cons_of_ne_nil hne
  simp [shape3, T2.shape, (h x (by simp)).1, (h x (by simp)).2]

/-- The tensor constructor accepts (a part of) padded attribute tensors of one shape. -/
theorem newTensor_ok {arg : Attr → Option (List (T2 α))} {P : List (T2 α)} {N : Nat} (hne : P ≠ [])
    (hP : ∀ t ∈ P, t.rows.length = N ∧ t.cols = 3)
    (harg : ∀ X l, X ≠ .points → arg X = some l → l.length = P.length ∧ ∃ C, (∀ t ∈ l, t.rows.length = N ∧ t.cols = C) ∧
      (X ≠ .features → C = 3)) :
    newTensor arg P = .ok ⟨fun _ => none, fun X => if X = .points then some P else arg X, none, fun _ => none,
      List.replicate P.length N, some true, P.length, N⟩ := by
  have hsP := shape3_rect hne hP
  have h1 : ¬ P.length = 0 := by simpa using hne
  have hl : ∀ X l, X ≠ .points → arg X = some l → ∃ C, shape3 l = (P.length, N, C) ∧ (X ≠ .features → C = 3) := by
    intro X l hX hx
    obtain ⟨hlen, C, hC, h3⟩ := harg X l hX hx
    refine ⟨C, ?_, h3⟩
    rw [← hlen]
    apply shape3_rect _ hC
    intro h0; subst h0; exact h1 hlen.symm
  have sh : ∀ X, X ≠ .points → X ≠ .features → okOpt (arg X) (fun n => decide (shape3 n = shape3 P)) = true := by
    intro X hX hX'
    cases hx : arg X with
    | none => rfl
    | some l =>
      obtain ⟨C, e, h3⟩ := hl X l hX hx
      simp [okOpt, e, hsP, h3 hX']
  have sf : okOpt (arg .features) (fun f => decide (((shape3 f).1, (shape3 f).2.1) = ((shape3 P).1, (shape3 P).2.1))) = true := by
    cases hx : arg .features with
    | none => rfl
    | some l =>
      obtain ⟨C, e, _⟩ := hl .features l (by simp) hx
      simp [okOpt, e, hsP]
  have h2 : ¬ (shape3 P).2.2 ≠ 3 := by simp [hsP]
  simp only [newTensor, h1, h2, sh .normals (by simp) (by simp), sh .colors (by simp) (by simp), sf, if_false, Bool.not_true,
    Bool.false_eq_true]
  simp [hsP]

/-- A freshly built tensor object stands for its arguments; all clouds have the same size. -/
theorem newTensor_rep {a : Clouds α} {P} (h : Wf a P) {N : Nat} (hN : ∀ t ∈ P, t.rows.length = N) :
    ∃ s, newTensor a P = .ok s ∧ RepN s a P ∧ FlagOk s a := by
  have hsz : sizes P = List.replicate P.length N := by
    rw [List.eq_replicate_iff]
    refine ⟨by simp [sizes], ?_⟩
    intro n hn
    obtain ⟨t, ht, rfl⟩ := List.mem_map.1 hn
    exact hN t ht
  have hrow : ∀ X l, a X = some l → ∀ t ∈ l, t.rows.length = N := by
    intro X l hl t ht
    have : t.rows.length ∈ sizes P := by rw [← h.rows X l hl]; exact List.mem_map_of_mem ht
    rw [hsz] at this
    exact (List.mem_replicate.1 this).2
  have hmax : maxL (sizes P) = N := by
    apply maxL_const (sizes_ne h.ne)
    intro n hn; rw [hsz] at hn; exact (List.mem_replicate.1 hn).2
  have hok := newTensor_ok (arg := a) (P := P) (N := N) h.ne (fun t ht => ⟨hN t ht, h.cols3 (by simp) h.pts t ht⟩) (by
    intro X l hX hx
    obtain ⟨C, hc, h3⟩ := h.cols X l hx
    exact ⟨h.length hx, C, fun t ht => ⟨hrow X l hx t ht, hc t ht⟩, h3⟩)
  have e : ∀ X, (if X = .points then some P else a X) = (a X).map (padL N) := by
    intro X
    have e1 : (if X = .points then some P else a X) = a X := by
      split_ifs with hX
      · subst hX; rw [h.pts]
      · rfl
    rw [e1]
    cases hx : a X with
    | none => rfl
    | some l => rw [Option.map_some, padL_self (hrow X l hx)]
  refine ⟨_, hok, ?_, ?_⟩
  · exact ⟨h, rfl, hsz.symm, hmax.symm, fun X => .inl rfl, fun X => .inr (e X), .inr e, by simp, by simp⟩
  · intro Q hQ; rw [h.pts, Option.some.injEq] at hQ; subst hQ
    show some true = _
    rw [equi_const N]
    intro n hn; rw [hsz] at hn; exact (List.mem_replicate.1 hn).2

/-- `clone` succeeds, does not change the object, and the copy stands for the same batch.  The copy's size flag describes the data if the
points are held as a list or all clouds have the same size. -/
theorem RepN.clone {s : PC α} {a P} (h : RepN s a P) :
    ∃ c s', Pcs.clone s = (.ok c, s') ∧ RepN s' a P ∧ RepN c a P ∧ Frame s s' ∧ s'.pad = s.pad ∧ c.mask = s.mask ∧
      ((s.lst .points).isSome ∨ equi (sizes P) = true → FlagOk c a) ∧ (∀ X, c.has X = none) := by
  obtain ⟨s1, e1, hr1, hf1, hp1, _, _, _⟩ := h.hasAttr .points
  cases hl : s1.lst .points with
  | some Q =>
    have hQ : Q = P := by
      rcases hr1.hlst .points with h' | h'
      · rw [hl] at h'; simp at h'
      · rw [hl, h.wf.pts] at h'; simpa using h'
    subst hQ
    have hok := newList_ok h.wf (arg := s1.lst) hr1.hlst
    refine ⟨_, s1, by simp only [Pcs.clone, e1, h.hasPoints, hl, hok]; rfl, hr1, ?_, hf1, hp1, ?_, ?_, ?_⟩
    · have ep : ∀ X, (if (s1.pad X).isSome then s1.pad X else none) = s1.pad X := by
        intro X; cases s1.pad X <;> rfl
      refine ⟨h.wf, rfl, hr1.hnum, rfl, ?_, ?_, ?_, by simp [copyInternal], ?_⟩
      · intro X
        show (if X = .points then some Q else s1.lst X) = none ∨ (if X = .points then some Q else s1.lst X) = a X
        split_ifs with hX
        · right; subst hX; rw [h.wf.pts]
        · exact hr1.hlst X
      · intro X
        show (if (s1.pad X).isSome then s1.pad X else none) = none ∨ (if (s1.pad X).isSome then s1.pad X else none) = (a X).map (padL (maxL (sizes Q)))
        rw [ep, ← hr1.hN]; exact hr1.hpad X
      · rcases hr1.hmain with ⟨h1, h2, h3⟩ | h'
        · left
          refine ⟨?_, ?_, rfl⟩
          · show (if (s1.pad .points).isSome then s1.pad .points else none) = none
            rw [ep, h1]
          · intro X
            show (if X = .points then some Q else s1.lst X) = a X
            split_ifs with hX
            · subst hX; rw [h.wf.pts]
            · exact h2 X
        · right
          intro X
          show (if (s1.pad X).isSome then s1.pad X else none) = (a X).map (padL (maxL (sizes Q)))
          rw [ep, ← hr1.hN]; exact h' X
      · intro m hm
        simp only [copyInternal] at hm
        cases hk : s1.mask with
        | none => rw [hk] at hm; simp at hm
        | some m' => rw [hk] at hm; simp at hm; subst hm; exact hr1.hmask _ hk
    · show (if s1.mask.isSome then s1.mask else none) = s.mask
      rw [hf1.mask]; cases s.mask <;> rfl
    · intro _ R hR; rw [h.wf.pts, Option.some.injEq] at hR; subst hR; rfl
    · intro X; rfl
  | none =>
    have hm : ∀ X, s1.pad X = (a X).map (padL s1.N) := by
      rcases hr1.hmain with ⟨_, h2, _⟩ | h'
      · have := h2 .points; rw [hl, h.wf.pts] at this; simp at this
      · exact h'
    have hpp : s1.pad .points = some (padL s1.N P) := by rw [hm, h.wf.pts]; rfl
    have hne' : padL s1.N P ≠ [] := by intro h0; exact h.wf.ne (by simpa [padL] using h0)
    have mem : ∀ X l C, a X = some l → (∀ t ∈ l, t.cols = C) → ∀ t ∈ padL s1.N l, t.rows.length = s1.N ∧ t.cols = C := by
      intro X l C hx hC t ht
      obtain ⟨u, hu, rfl⟩ := List.mem_map.1 ht
      exact ⟨padT_rows_length (hr1.row_le hx u hu), hC u hu⟩
    have hok := newTensor_ok (arg := s1.pad) (P := padL s1.N P) (N := s1.N) hne'
      (mem .points P 3 h.wf.pts (h.wf.cols3 (by simp) h.wf.pts)) (by
        intro X l hX hx
        rw [hm X] at hx
        cases hax : a X with
        | none => rw [hax] at hx; simp at hx
        | some m =>
          rw [hax, Option.map_some, Option.some.injEq] at hx
          subst hx
          obtain ⟨C, hc, h3⟩ := h.wf.cols X m hax
          exact ⟨by simp [h.wf.length hax], C, mem X m C hax hc, h3⟩)
    have hl0 : s.lst .points = none := by rw [← hf1.lst]; exact hl
    refine ⟨_, s1, by simp only [Pcs.clone, e1, h.hasPoints, hl, hpp, hok]; rfl, hr1, ?_, hf1, hp1, ?_, ?_, ?_⟩
    · have ep : ∀ X, (if (s1.pad X).isSome then s1.pad X else if X = .points then some (padL s1.N P) else s1.pad X) =
          (a X).map (padL s1.N) := by
        intro X
        rw [← hm X]
        cases hx : s1.pad X with
        | some p => rfl
        | none =>
          simp only [Option.isSome_none, Bool.false_eq_true, if_false]
          split_ifs with hX
          · subst hX; rw [hpp] at hx; simp at hx
          · rfl
      refine ⟨h.wf, by simp [copyInternal], hr1.hnum, hr1.hN, fun X => .inl rfl, fun X => .inr (ep X), .inr ep,
        by simp [copyInternal], ?_⟩
      intro m hm'
      simp only [copyInternal] at hm'
      cases hk : s1.mask with
      | none => rw [hk] at hm'; simp at hm'
      | some m' => rw [hk] at hm'; simp at hm'; subst hm'; exact hr1.hmask _ hk
    · show (if s1.mask.isSome then s1.mask else none) = s.mask
      rw [hf1.mask]; cases s.mask <;> rfl
    · intro hc R hR
      rw [h.wf.pts, Option.some.injEq] at hR; subst hR
      rcases hc with h' | h'
      · rw [hl0] at h'; simp at h'
      · show some true = _
        rw [h']
    · intro X; rfl

theorem newEmpty_rep : RepE (newEmpty : PC α) emptyClouds :=
  ⟨rfl, fun _ => rfl, fun _ => rfl, rfl, by simp [newEmpty], rfl, rfl, rfl⟩

theorem RepE.clone {s : PC α} {a} (h : RepE s a) : ∃ s', Pcs.clone s = (.ok newEmpty, s') ∧ RepE s' a ∧ RepE (newEmpty : PC α) a := by
  obtain ⟨s', e, hr⟩ := h.hasAttr .points
  refine ⟨s', by simp [Pcs.clone, e], hr, ?_⟩
  rw [h.ha]; exact newEmpty_rep

end
end Verif.Pcs
