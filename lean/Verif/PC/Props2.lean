import Verif.PC.Props
/-!
Assignments (C27), presence (C32), conversion between lists and padded tensors (C25), the witnesses that the hypotheses of the
theorems are met, and the states in which the class violates the properties.
-/
namespace Verif.Pcs
open Verif
set_option linter.unusedSectionVars false
set_option linter.unusedSimpArgs false

section
variable {α : Type*} [Field α] [LinearOrder α]

/-! ### C27 assignments -/

/-- C27.  Assigning a padded tensor to an attribute (whose absence has not been cached): either it is refused with ValueError and
nothing changes, or every getter shows the assigned clouds afterwards.  It is accepted exactly if it has the right shape and is zero
beyond each cloud. -/
theorem assignPad_spec {s : PC α} {a : Clouds α} (h : Hist s a) (X : Attr) (v : List (T2 α)) (hv : Rect v) (hh : s.has X ≠ some false) :
    (∃ s', setPad X v s = (.error .valueError, s') ∧ Obs s' a) ∨
    ∃ s' l, setPad X v s = (.ok (), s') ∧ v = padL (maxL (specNum a)) l ∧ sizes l = specNum a ∧ Obs s' (specSet X l a) := by
  rcases h.inv with h' | ⟨P, h', hm⟩
  · obtain ⟨s1, e1, _⟩ := h'.hasAttr .points
    have e : setPad X v s = (.error .valueError, s1) := by simp [setPad, e1]
    exact .inl ⟨s1, e, hist_obs (.assignPadError X v h hv e)⟩
  · rcases h'.setPad_cases X v hv with ⟨s1, e, _⟩ | ⟨l, C, rfl, hs, hval, hc, h3, s1, e⟩
    · exact .inl ⟨s1, e, hist_obs (.assignPadError X v h hv e)⟩
    · right
      have hn : specNum a = sizes P := by simp [specNum, h'.wf.pts]
      have := hist_obs (.assignPad X _ h hv hh e)
      have e2 : unpad (specNum a) (padL s.N l) = l := by rw [hn, ← hs]; exact unpad_padL
      rw [e2] at this
      refine ⟨s1, l, e, ?_, ?_, this⟩
      · rw [hn, ← h'.hN]
      · rw [hn, hs]

/-- C27.  Assigning an attribute list before anything has been padded is visible through every getter. -/
theorem assignList_visible_partial {s : PC α} {a : Clouds α} (h : Hist s a) (X : Attr) (l : List (T2 α)) (hX : X ≠ .points)
    (hv : ∀ t ∈ l, t.Valid) (hC : ∃ C, (∀ t ∈ l, t.cols = C) ∧ (X ≠ .features → C = 3)) (hp : a .points ≠ none) (hs : sizes l = specNum a)
    (hpad : s.pad .points = none ∧ s.pad X = none) (hh : s.has X ≠ some false) :
    ∃ s', setList X l s = (.ok (), s') ∧ Obs s' (specSet X l a) := by
  rcases h.inv with h' | ⟨P, h', hm⟩
  · exact absurd h'.noPoints hp
  · have hn : specNum a = sizes P := by simp [specNum, h'.wf.pts]
    obtain ⟨C, hC, h3⟩ := hC
    obtain ⟨s', e, _⟩ := h'.setList (X := X) (hs.trans hn) hv hC h3 (by simp only [hX, if_false]; exact ⟨hpad.1, hpad.2, hh⟩)
    exact ⟨s', e, hist_obs (.assignList X l h hv hX ⟨C, hC⟩ hpad hh e)⟩

/-- C27.  In every state an accepted list assignment is at least visible through the list getter of that attribute. -/
theorem assignList_list {s s' : PC α} (X : Attr) (l : List (T2 α)) (e : setList X l s = (.ok (), s')) : (getList X s').1 = some l := by
  simp only [setList] at e
  have : s'.lst X = some l := by
    split_ifs at e <;> (cases e <;> simp)
  simp only [getList, this]

/-- C32.  After every history (assignments to attributes whose absence has been cached excepted, see `presence_stale`) the presence
queries tell exactly which attributes can be read, and querying does not change the answer. -/
theorem presence_partial {s : PC α} {a : Clouds α} (h : Hist s a) (X Y : Attr) :
    ((hasAttr X s).1 = true ↔ (getList X s).1 ≠ none) ∧ ((hasAttr X s).1 = true → ∃ p, (getPad X s).1 = .ok (some p)) ∧
    (hasAttr X (hasAttr Y s).2).1 = (hasAttr X s).1 := by
  have ho := hist_obs h
  have ho' := hist_obs (h.query Y)
  rw [ho.presence X, ho'.presence X, ho.list X, ho.padded X]
  refine ⟨?_, ?_, rfl⟩
  · cases a X <;> simp
  · intro hx
    rcases hist_wf h with rfl | ⟨P, hw⟩
    · simp [emptyClouds] at hx
    · obtain ⟨l, hl⟩ := Option.isSome_iff_exists.1 hx
      exact ⟨_, by rw [specPad, hw.pts, hl]; rfl⟩

/-! ### C25 conversion -/

/-- The entry of a batch of tensors at batch index `b`, row `n`, column `c` (0 if there is none). -/
def cell (p : List (T2 α)) (b n c : Nat) : α := ((p.getD b ⟨[], 0⟩).rows.getD n []).getD c 0

theorem padItem_cases {N C : Nat} (y : T2 α) (hv : y.Valid) (hr : y.rows.length ≤ N) (hc : y.rows.length ≠ 0 → y.cols ≤ C) :
    ∃ z, padItem N C y = .ok z ∧ z.rows.length = N ∧ z.cols = C ∧ z.Valid ∧
      ∀ n c, (z.rows.getD n []).getD c 0 = if n < y.rows.length ∧ c < y.cols then (y.rows.getD n []).getD c 0 else 0 := by
  simp only [padItem]
  by_cases h0 : y.rows.length = 0
  · rw [if_pos h0]
    refine ⟨_, rfl, by simp, rfl, ?_, ?_⟩
    · intro r hr'; rw [(List.mem_replicate.1 hr').2]; simp
    · intro n c
      rw [if_neg (by omega)]
      simp only [List.getD_eq_getElem?_getD, List.getElem?_replicate]
      split_ifs
      · simp only [Option.getD_some, List.getElem?_replicate]; split_ifs <;> rfl
      · rfl
  · rw [if_neg h0, if_pos ⟨hr, hc h0⟩]
    have hc' := hc h0
    refine ⟨_, rfl, by simp; omega, rfl, ?_, ?_⟩
    · intro r hr'
      rcases List.mem_append.1 hr' with hr' | hr'
      · obtain ⟨q, hq, rfl⟩ := List.mem_map.1 hr'
        have := hv q hq
        simp [this]; omega
      · rw [(List.mem_replicate.1 hr').2]; simp
    · intro n c
      rw [List.getD_eq_getElem?_getD (l := _ ++ _), List.getElem?_append, List.length_map]
      by_cases hn : n < y.rows.length
      · rw [if_pos hn, List.getElem?_map, List.getElem?_eq_getElem hn]
        have hl := hv _ (List.getElem_mem hn)
        have e0 : y.rows.getD n [] = y.rows[n] := by simp [List.getD_eq_getElem?_getD, hn]
        rw [e0]
        simp only [List.getD_eq_getElem?_getD, Option.map_some, Option.getD_some, List.getElem?_append, hl]
        by_cases hcc : c < y.cols
        · rw [if_pos hcc, if_pos ⟨hn, hcc⟩]
        · rw [if_neg hcc, if_neg (fun h => hcc h.2), List.getElem?_replicate]; split_ifs <;> rfl
      · rw [if_neg hn, List.getElem?_replicate]
        have hn' : ¬ (n < y.rows.length ∧ c < y.cols) := fun h => hn h.1
        rw [if_neg hn']
        split_ifs
        · simp only [List.getD_eq_getElem?_getD, Option.getD_some, List.getElem?_replicate]; split_ifs <;> rfl
        · rfl

/-- C25.  `list_to_padded` without a pad size: any list of tensors of which at least one is non-empty becomes one tensor of shape
(B, max rows, max columns) whose entries are the list's entries, and zero beyond each tensor's rows and columns. -/
theorem list_to_padded_spec (l : List (T2 α)) (hv : ∀ t ∈ l, t.Valid) (hne : ∃ t ∈ l, t.rows ≠ []) :
    ∃ p N C, listToPaddedAuto l false = .ok p ∧ p.length = l.length ∧ (∀ t ∈ p, t.rows.length = N ∧ t.cols = C ∧ t.Valid) ∧
      (∀ t ∈ l, t.rows.length ≤ N) ∧ (∃ t ∈ l, t.rows.length = N) ∧ (∀ t ∈ l, t.rows ≠ [] → t.cols ≤ C) ∧ (∃ t ∈ l, t.rows ≠ [] ∧ t.cols = C) ∧
      ∀ b (hb : b < l.length) n c, cell p b n c = if n < l[b].rows.length ∧ c < l[b].cols then cell l b n c else 0 := by
  obtain ⟨t0, ht0, h0⟩ := hne
  have hmem : t0 ∈ l.filter fun y => y.rows.length > 0 := by
    rw [List.mem_filter]; exact ⟨ht0, by simpa [List.length_pos_iff] using h0⟩
  have hl0 : l.length ≠ 0 := by intro h; rw [List.length_eq_zero_iff.1 h] at ht0; simp at ht0
  have hf : (l.filter fun y => y.rows.length > 0).length ≠ 0 := by
    intro h; rw [List.length_eq_zero_iff.1 h] at hmem; simp at hmem
  let N := maxL ((l.filter fun y => y.rows.length > 0).map (·.rows.length))
  let C := maxL ((l.filter fun y => y.rows.length > 0).map (·.cols))
  have inF : ∀ t ∈ l, t.rows ≠ [] → t ∈ l.filter fun y => y.rows.length > 0 := by
    intro t ht h; rw [List.mem_filter]; exact ⟨ht, by simpa [List.length_pos_iff] using h⟩
  have hN : ∀ t ∈ l, t.rows.length ≤ N := by
    intro t ht
    by_cases h : t.rows = []
    · simp [h]
    · exact le_maxL (List.mem_map_of_mem (f := fun t : T2 α => t.rows.length) (inF t ht h))
  have hC : ∀ t ∈ l, t.rows ≠ [] → t.cols ≤ C := fun t ht h =>
    le_maxL (List.mem_map_of_mem (f := fun t : T2 α => t.cols) (inF t ht h))
  have hne' : ∀ f : T2 α → Nat, (l.filter fun y => y.rows.length > 0).map f ≠ [] := by
    intro f h; rw [List.map_eq_nil_iff] at h; rw [h] at hmem; simp at hmem
  obtain ⟨tn, htn, en⟩ := List.mem_map.1 (maxL_mem (hne' (·.rows.length)))
  obtain ⟨tc, htc, ec⟩ := List.mem_map.1 (maxL_mem (hne' (·.cols)))
  have hz : ∀ y : T2 α, ∃ z, y ∈ l → padItem N C y = .ok z ∧ z.rows.length = N ∧ z.cols = C ∧ z.Valid ∧
      ∀ n c, (z.rows.getD n []).getD c 0 = if n < y.rows.length ∧ c < y.cols then (y.rows.getD n []).getD c 0 else 0 := by
    intro y
    by_cases hy : y ∈ l
    · obtain ⟨z, hz⟩ := padItem_cases (N := N) (C := C) y (hv y hy) (hN y hy) (fun h => hC y hy (by simpa using h))
      exact ⟨z, fun _ => hz⟩
    · exact ⟨y, fun h => absurd h hy⟩
  choose z hz using hz
  refine ⟨l.map z, N, C, ?_, by simp, ?_, hN, ⟨tn, (List.mem_filter.1 htn).1, en⟩, hC, ⟨tc, (List.mem_filter.1 htc).1, ?_, ec⟩, ?_⟩
  · simp only [listToPaddedAuto, Bool.false_eq_true, if_false, hf, listToPadded, Option.some.injEq, hl0]
    exact mapE_ok fun y hy => (hz y hy).1
  · intro t ht
    obtain ⟨y, hy, rfl⟩ := List.mem_map.1 ht
    exact ⟨(hz y hy).2.1, (hz y hy).2.2.1, (hz y hy).2.2.2.1⟩
  · have := (List.mem_filter.1 htc).2
    simpa [List.length_pos_iff] using this
  · intro b hb n c
    have e1 : (l.map z).getD b ⟨[], 0⟩ = z l[b] := by simp [List.getD_eq_getElem?_getD, hb]
    have e2 : l.getD b ⟨[], 0⟩ = l[b] := by simp [List.getD_eq_getElem?_getD, hb]
    simp only [cell, e1, e2]
    exact (hz _ (List.getElem_mem hb)).2.2.2.2 n c

/-- C25.  If in addition all tensors have the same number of columns, cutting the padded tensor at the sizes gives the list back. -/
theorem padded_roundtrip (l : List (T2 α)) (C : Nat) (hc : ∀ t ∈ l, t.cols = C) (hne : ∃ t ∈ l, t.rows ≠ []) :
    ∃ p, listToPaddedAuto l false = .ok p ∧ paddedToList p (some (sizes l)) = .ok l := by
  obtain ⟨t0, ht0, h0⟩ := hne
  have hl0 : l ≠ [] := by rintro rfl; simp at ht0
  have hmem : t0 ∈ l.filter fun y => y.rows.length > 0 := by
    rw [List.mem_filter]; exact ⟨ht0, by simpa [List.length_pos_iff] using h0⟩
  have hf : (l.filter fun y => y.rows.length > 0).length ≠ 0 := by
    intro h; rw [List.length_eq_zero_iff.1 h] at hmem; simp at hmem
  have hC : maxL ((l.filter fun y => y.rows.length > 0).map (·.cols)) = C := by
    apply maxL_const
    · intro h; rw [List.map_eq_nil_iff] at h; rw [h] at hmem; simp at hmem
    · intro n hn
      obtain ⟨t, ht, rfl⟩ := List.mem_map.1 hn
      exact hc t (List.mem_filter.1 ht).1
  have hN : ∀ t ∈ l, t.rows.length ≤ maxL ((l.filter fun y => y.rows.length > 0).map (·.rows.length)) := by
    intro t ht
    by_cases h : t.rows = []
    · simp [h]
    · refine le_maxL (List.mem_map_of_mem (f := fun t : T2 α => t.rows.length) ?_)
      rw [List.mem_filter]; exact ⟨ht, by simpa [List.length_pos_iff] using h⟩
  refine ⟨padL (maxL ((l.filter fun y => y.rows.length > 0).map (·.rows.length))) l, ?_, ?_⟩
  · simp only [listToPaddedAuto, Bool.false_eq_true, if_false, hf, hC]
    exact listToPadded_ok hl0 hc hN (by simp)
  · simp only [paddedToList]
    rw [if_neg (by simp [sizes])]
    congr 1
    exact zip_take _ l

/-- C25.  `padded_to_list` with split sizes cuts every slice, without sizes it returns the slices, and a wrong number of sizes raises. -/
theorem padded_to_list_spec (p : List (T2 α)) :
    paddedToList p none = .ok p ∧
    (∀ ns : List Nat, ns.length ≠ p.length → paddedToList p (some ns) = .error .valueError) ∧
    ∀ ns : List Nat, ns.length = p.length → ∃ l, paddedToList p (some ns) = .ok l ∧ l.length = p.length ∧
      ∀ b (h1 : b < l.length) (h2 : b < p.length) (h3 : b < ns.length), l[b].cols = p[b].cols ∧ l[b].rows = p[b].rows.take ns[b] := by
  refine ⟨rfl, ?_, ?_⟩
  · intro ns h; simp only [paddedToList]; rw [if_pos (Ne.symm h)]
  · intro ns h
    refine ⟨_, by simp only [paddedToList]; rw [if_neg (by simp [h])], by simp [h], ?_⟩
    intro b h1 h2 h3
    simp [T2.take]

/-- C25.  A list in which every tensor is empty cannot be padded: `max()` of an empty sequence raises ValueError. -/
theorem list_to_padded_all_empty (l : List (T2 α)) (h : ∀ t ∈ l, t.rows = []) : listToPaddedAuto l false = .error .valueError := by
  have : (l.filter fun y => y.rows.length > 0) = [] := by
    rw [List.filter_eq_nil_iff]; intro t ht; simp [h t ht]
  simp [listToPaddedAuto, this]

/-- C25.  With `equisized=True` tensors of one shape are stacked as they are and anything else raises. -/
theorem list_to_padded_equisized (l : List (T2 α)) (hne : l ≠ []) :
    ((∀ t ∈ l, ∀ u ∈ l, t.shape = u.shape) → listToPaddedAuto l true = .ok l) ∧
    ((∃ t ∈ l, ∃ u ∈ l, t.shape ≠ u.shape) → listToPaddedAuto l true = .error .runtimeError) := by
  obtain ⟨x, xs, rfl⟩ := List.exists_cons_of_ne_nil hne
  constructor
  · intro h
    have : ((x :: xs).all fun t => decide (t.shape = ((x :: xs).headD ⟨[], 0⟩).shape)) = true := by
      rw [List.all_eq_true]; intro t ht; simpa using h t ht x (by simp)
    simp only [listToPaddedAuto, listToPadded, if_true, this]
    simp
  · rintro ⟨t, ht, u, hu, hne⟩
    have : ((x :: xs).all fun t => decide (t.shape = ((x :: xs).headD ⟨[], 0⟩).shape)) = false := by
      rw [Bool.eq_false_iff]
      intro hall
      rw [List.all_eq_true] at hall
      have h1 := hall t ht
      have h2 := hall u hu
      simp only [decide_eq_true_eq] at h1 h2
      exact hne (h1.trans h2.symm)
    simp only [listToPaddedAuto, listToPadded, if_true, this]
    simp

end

/-! ### Witnesses and violations, over the rationals -/
section witness

/-- Two clouds of one and two points. -/
def P0 : List (T2 ℚ) := [⟨[[1, 2, 3]], 3⟩, ⟨[[4, 5, 6], [7, 8, 9]], 3⟩]
def C0 : List (T2 ℚ) := [⟨[[1, 0, 0]], 3⟩, ⟨[[0, 1, 0], [0, 0, 1]], 3⟩]
def C1 : List (T2 ℚ) := [⟨[[9, 9, 9]], 3⟩, ⟨[[8, 8, 8], [7, 7, 7]], 3⟩]
def a0 : Clouds ℚ := fun X => match X with | .points => some P0 | .colors => some C0 | _ => none
/-- `Pointclouds(points=P0, colors=C0)`. -/
def s0 : PC ℚ := ⟨fun X => if X = .points then some P0 else a0 X, fun _ => none, none, fun _ => none, [1, 2], some false, 2, 2⟩
/-- The zero-padded form of the points. -/
def V0 : List (T2 ℚ) := [⟨[[1, 2, 3], [0, 0, 0]], 3⟩, ⟨[[4, 5, 6], [7, 8, 9]], 3⟩]

theorem s0_new : newList a0 P0 = .ok s0 := by
  have : newList a0 P0 = .ok ⟨fun X => if X = .points then some P0 else a0 X, fun _ => none, none, fun _ => none,
      P0.map (·.rows.length), some (equi (P0.map (·.rows.length))), P0.length, maxL (P0.map (·.rows.length))⟩ := by
    rfl
  rw [this]; rfl

theorem s0_hist : Hist s0 a0 := by
  refine .fromList (P := P0) rfl ?_ s0_new
  intro X l hl t ht r hr
  cases X with
  | points => cases hl; revert r; revert t; decide
  | normals => cases hl
  | colors => cases hl; revert r; revert t; decide
  | features => cases hl

/-- The hypotheses of the history theorems are met by a real history: build, move, read, copy, append, select. -/
example : ∃ s a, Hist (α := ℚ) s a ∧ a .points = some [⟨[[5, 6, 7], [8, 9, 10], [5, 6, 7], [8, 9, 10]], 3⟩] := by
  have h1 := Hist.offset (fun _ _ _ => 1) s0_hist
  have h2 := Hist.readList .points h1
  obtain ⟨c, s', e, _, _, h3⟩ := clone_obs_partial h2 (.inl (by
    rcases h1.inv with h | ⟨P, h, _⟩
    · have := h.noPoints; simp [onPoints, a0] at this
    · rw [(h.getList .points).1]; simp [onPoints, a0]))
  obtain ⟨s4, o4, e4, _, _, h4, _⟩ := append_spec h3 h3 (by simp [onPoints, a0]) (by simp [onPoints, a0]) (by
    refine ⟨rfl, fun _ => rfl, ?_⟩
    intro l m hl; simp [onPoints, a0] at hl)
  obtain ⟨c5, s5, e5, ho5, _⟩ := getitem_spec h4 (.int (-1)) (by simp [specAppend, onPoints, a0]) (is := [1])
    ((resolve_int _ (-1)).1 1 (by simp [count, specAppend, onPoints, a0, P0, mapRows]) (.inr (by simp [count, specAppend, onPoints, a0, P0, mapRows])))
    (by simp)
  refine ⟨c5, _, .getitem (.int (-1)) h4 (is := [1]) ((resolve_int _ (-1)).1 1 (by simp [count, specAppend, onPoints, a0, P0, mapRows]) (.inr (by simp [count, specAppend, onPoints, a0, P0, mapRows]))) e5, ?_⟩
  simp [specSelect, specAppend, onPoints, a0, P0, mapRows, List.mapIdx_cons]
  norm_num

/-- The object after `pcs.points_padded = V0`: points only in padded form. -/
theorem padded_only : ∃ s', setPad .points V0 s0 = (.ok (), s') ∧ Hist s' (specSet .points P0 a0) ∧ s'.lst .points = none ∧
    s'.mask = none := by
  have hv : Rect V0 := by
    refine ⟨2, 3, ?_⟩
    intro t ht
    refine ⟨?_, ?_, ?_⟩
    · revert t; unfold T2.Valid; decide
    · revert t; decide
    · revert t; decide
  have e : setPad .points V0 s0 = (.ok (), (setPad .points V0 s0).2) := by
    rw [Prod.ext_iff]; exact ⟨by decide +kernel, rfl⟩
  exact ⟨_, e, .assignPad .points V0 s0_hist hv (by simp [s0]) e, by decide +kernel, by decide +kernel⟩

/-- C29 is violated in the excluded state: after assigning `points_padded` (or rotating) a batch of clouds of different sizes, the
clone's mask hides a real point, so a later `offset_` on the clone leaves that point behind. -/
theorem clone_loses_mask : ∃ (s : PC ℚ) (a : Clouds ℚ) (c s' : PC ℚ), Hist s a ∧ clone s = (.ok c, s') ∧
    (getMask s).1 = some [[true, false], [true, true]] ∧ (getMask c).1 = some [[true, false], [true, false]] ∧
    (getList .points (offset_ (fun _ _ _ => 1) c).2).1 = some [⟨[[2, 3, 4]], 3⟩, ⟨[[5, 6, 7], [7, 8, 9]], 3⟩] := by
  obtain ⟨s1, e1, h1, _⟩ := padded_only
  obtain ⟨c, s', e, _⟩ := clone_getters h1
  have hs : s1 = (setPad .points V0 s0).2 := by rw [e1]
  have hc : (clone s1).1 = .ok c := by rw [e]
  refine ⟨s1, _, c, s', h1, e, ?_, ?_, ?_⟩
  · rw [hs]; decide +kernel
  · have : (clone (setPad .points V0 s0).2).1.map (fun c => (getMask c).1) = .ok (some [[true, false], [true, false]]) := by decide +kernel
    rw [← hs, hc] at this
    simpa [Except.map] using this
  · have : (clone (setPad .points V0 s0).2).1.map (fun c => (getList .points (offset_ (fun _ _ _ => 1) c).2).1) =
        .ok (some [⟨[[2, 3, 4]], 3⟩, ⟨[[5, 6, 7], [7, 8, 9]], 3⟩]) := by decide +kernel
    rw [← hs, hc] at this
    simpa [Except.map] using this

/-- C27 is violated once padded tensors exist: an accepted `colors_list` assignment is not visible through `colors_padded`. -/
theorem list_assignment_stale : ∃ (s : PC ℚ) (a : Clouds ℚ) (s' : PC ℚ), Hist s a ∧ setList .colors C1 s = (.ok (), s') ∧
    (getList .colors s').1 = some C1 ∧ (getPad .colors s').1 = .ok (specPad a0 .colors) ∧ specPad a0 .colors ≠ some (padL 2 C1) := by
  have h1 := Hist.readPad .points s0_hist
  have e : setList .colors C1 (getPad .points s0).2 = (.ok (), (setList .colors C1 (getPad .points s0).2).2) := by
    rw [Prod.ext_iff]; exact ⟨by decide +kernel, rfl⟩
  exact ⟨_, _, _, h1, e, by decide +kernel, by decide +kernel, by decide +kernel⟩

/-- C32 is violated after an absent attribute has been queried: the assignment is accepted and readable, `has_normals` stays false,
and `append_points` therefore silently ignores the normals' existence. -/
theorem presence_stale : ∃ (s : PC ℚ) (a : Clouds ℚ) (s' : PC ℚ), Hist s a ∧ setPad .normals V0 s = (.ok (), s') ∧
    (getPad .normals s').1 = .ok (some V0) ∧ (hasAttr .normals s').1 = false := by
  have h1 := Hist.query .normals s0_hist
  have e : setPad .normals V0 (hasAttr .normals s0).2 = (.ok (), (setPad .normals V0 (hasAttr .normals s0).2).2) := by
    rw [Prod.ext_iff]; exact ⟨by decide +kernel, rfl⟩
  exact ⟨_, _, _, h1, e, by decide +kernel, by decide +kernel⟩

/-- C26 is violated by `points_list` assignment while another attribute is held only in padded form: the attribute disappears. -/
theorem points_assignment_loses_normals : ∃ (s : PC ℚ) (a : Clouds ℚ) (s' : PC ℚ), Hist s a ∧ a .normals = some P0 ∧
    setList .points C1 s = (.ok (), s') ∧ (getPad .points s').1 = .ok (some (padL 2 C1)) ∧ (getPad .normals s').1 = .ok none := by
  have hv : Rect V0 := by
    refine ⟨2, 3, ?_⟩
    intro t ht
    refine ⟨?_, ?_, ?_⟩
    · revert t; unfold T2.Valid; decide
    · revert t; decide
    · revert t; decide
  have e0 : setPad .normals V0 s0 = (.ok (), (setPad .normals V0 s0).2) := by
    rw [Prod.ext_iff]; exact ⟨by decide +kernel, rfl⟩
  have h1 := Hist.assignPad .normals V0 s0_hist hv (by simp [s0]) e0
  have e : setList .points C1 (setPad .normals V0 s0).2 = (.ok (), (setList .points C1 (setPad .normals V0 s0).2).2) := by
    rw [Prod.ext_iff]; exact ⟨by decide +kernel, rfl⟩
  exact ⟨_, _, _, h1, by decide +kernel, e, by decide +kernel, by decide +kernel⟩

/-- C33 is not maintained by `features_list` assignment: feature tensors of different widths are accepted and reading
`features_padded` afterwards raises. -/
theorem features_assignment_mixed_width : ∃ (s : PC ℚ) (a : Clouds ℚ) (s' : PC ℚ), Hist s a ∧
    setList .features [⟨[[1]], 1⟩, ⟨[[1, 2], [3, 4]], 2⟩] s = (.ok (), s') ∧ (getPad .features s').1 = .error .runtimeError := by
  have e : setList .features [⟨[[1]], 1⟩, ⟨[[1, 2], [3, 4]], 2⟩] s0 = (.ok (), (setList .features [⟨[[1]], 1⟩, ⟨[[1, 2], [3, 4]], 2⟩] s0).2) := by
    rw [Prod.ext_iff]; exact ⟨by decide +kernel, rfl⟩
  exact ⟨_, _, _, s0_hist, e, by decide +kernel⟩

/-- C25 needs equal widths: tensors of different widths are padded in columns too and do not come back. -/
theorem roundtrip_fails_on_widths : ∃ (l p : List (T2 ℚ)), listToPaddedAuto l false = .ok p ∧ paddedToList p (some (sizes l)) ≠ .ok l := by
  refine ⟨[⟨[[1]], 1⟩, ⟨[[1, 2]], 2⟩], [⟨[[1, 0]], 2⟩, ⟨[[1, 2]], 2⟩], by decide +kernel, by decide +kernel⟩

/-- The guards of `assignList_visible_partial` and of `outOfPlace_spec` are met by the fresh object. -/
example : (∃ s', setList .normals C1 s0 = (.ok (), s') ∧ Obs s' (specSet .normals C1 a0)) ∧
    ∃ c s', add (fun _ _ _ => 1) s0 = (.ok c, s') ∧ Obs s' a0 := by
  refine ⟨assignList_visible_partial s0_hist .normals C1 (by simp) ?_ ⟨3, by decide, fun _ => rfl⟩ (by simp [a0]) (by decide) ⟨rfl, rfl⟩ (by simp [s0]), ?_⟩
  · intro t ht; revert t; unfold T2.Valid; decide
  · obtain ⟨c, s', e, _, ho⟩ := (outOfPlace_spec s0_hist (.inl rfl) (fun _ _ _ => 1)).1
    exact ⟨c, s', e, ho⟩

end witness
end Verif.Pcs
