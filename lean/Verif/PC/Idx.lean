import Verif.PC.Geo
/-! Indexing of `Pointclouds`. -/
namespace Verif.Pcs
open Verif
set_option linter.unusedSectionVars false
set_option linter.unusedSimpArgs false

theorem pyIndex_ok {n : Nat} {i : Int} {k : Nat} (h : pyIndex n i = .ok k) : k < n ∧ ((i = k ∧ 0 ≤ i) ∨ (i = k - n ∧ i < 0)) := by
  simp only [pyIndex] at h
  split_ifs at h with h1 h2 h2
  · cases h; omega
  · cases h; omega

theorem pyIndex_error {n : Nat} {i : Int} {e : Err} (h : pyIndex n i = .error e) : e = .indexError ∧ (i < -n ∨ n ≤ i) := by
  simp only [pyIndex] at h
  split_ifs at h with h1 h2 h2
  · cases h; exact ⟨rfl, by omega⟩
  · cases h; exact ⟨rfl, by omega⟩

theorem mapE_spec {β γ : Type*} {f : β → Except Err γ} : ∀ {l : List β} {m : List γ}, mapE f l = .ok m →
    List.Forall₂ (fun x y => f x = .ok y) l m := by
  intro l
  induction l with
  | nil => intro m h; cases h; exact .nil
  | cons x xs ih =>
    intro m h
    simp only [mapE] at h
    cases hx : f x with
    | error e => rw [hx] at h; simp at h
    | ok y =>
      cases hxs : mapE f xs with
      | error e => rw [hx, hxs] at h; simp at h
      | ok ys =>
        rw [hx, hxs] at h
        simp only [Except.ok.injEq] at h
        subst h
        exact .cons hx (ih hxs)

theorem mapE_mem {β γ : Type*} {f : β → Except Err γ} {l : List β} {m : List γ} (h : mapE f l = .ok m) {y : γ} (hy : y ∈ m) :
    ∃ x ∈ l, f x = .ok y := by
  have := mapE_spec h
  clear h
  induction this with
  | nil => simp at hy
  | cons h1 h2 ih =>
    rcases List.mem_cons.1 hy with rfl | hy
    · exact ⟨_, by simp, h1⟩
    · obtain ⟨x, hx, h⟩ := ih hy; exact ⟨x, by simp [hx], h⟩

/-- Both ends of a Python slice after clamping. -/
theorem slice_bounds (n : Nat) (step : Int) (a b : Option Int) :
    (0 < step → 0 ≤ sliceLo n step a ∧ sliceHi n step b ≤ n) ∧ (step < 0 → sliceLo n step a ≤ n - 1 ∧ -1 ≤ sliceHi n step b) := by
  constructor
  · intro h
    constructor
    · cases a <;> simp only [sliceLo, h, if_true] <;> (try split_ifs) <;> omega
    · cases b <;> simp only [sliceHi, h, if_true] <;> (try split_ifs) <;> omega
  · intro h
    have h' : ¬ 0 < step := by omega
    constructor
    · cases a <;> simp only [sliceLo, h', if_false] <;> (try split_ifs) <;> omega
    · cases b <;> simp only [sliceHi, h', if_false] <;> (try split_ifs) <;> omega

/-- `range(lo, hi, step)`: the k-th element is before the end iff `k` is less than the length. -/
theorem rangeLen_iff (lo hi step : Int) (hs : step ≠ 0) (k : Nat) :
    k < rangeLen lo hi step ↔ (if 0 < step then lo + k * step < hi else hi < lo + k * step) := by
  simp only [rangeLen]
  by_cases h : 0 < step
  · simp only [h, if_true]
    by_cases h1 : lo < hi
    · simp only [h1, if_true]
      have hq : 0 ≤ (hi - lo - 1) / step := Int.ediv_nonneg (by omega) (by omega)
      have := Int.le_ediv_iff_mul_le h (a := (k : Int)) (b := hi - lo - 1)
      constructor
      · intro hk
        have : (k : Int) ≤ (hi - lo - 1) / step := by omega
        have := (Int.le_ediv_iff_mul_le h).1 this
        omega
      · intro hk
        have : (k : Int) ≤ (hi - lo - 1) / step := (Int.le_ediv_iff_mul_le h).2 (by omega)
        omega
    · simp only [h1, if_false]
      have : 0 ≤ (k : Int) * step := mul_nonneg (by omega) (by omega)
      omega
  · simp only [h, if_false]
    have hn : 0 < -step := by omega
    by_cases h1 : hi < lo
    · simp only [h1, if_true]
      have hq : 0 ≤ (lo - hi - 1) / (-step) := Int.ediv_nonneg (by omega) (by omega)
      have e : (k : Int) * (-step) = -((k : Int) * step) := by ring
      constructor
      · intro hk
        have : (k : Int) ≤ (lo - hi - 1) / (-step) := by omega
        have := (Int.le_ediv_iff_mul_le hn).1 this
        omega
      · intro hk
        have : (k : Int) ≤ (lo - hi - 1) / (-step) := (Int.le_ediv_iff_mul_le hn).2 (by omega)
        omega
    · simp only [h1, if_false]
      have : 0 ≤ (k : Int) * (-step) := mul_nonneg (by omega) (by omega)
      have e : (k : Int) * (-step) = -((k : Int) * step) := by ring
      omega

/-- The elements of a slice are in range and form the arithmetic progression from the clamped start. -/
theorem slice_elem (n : Nat) (step : Int) (hs : step ≠ 0) (a b : Option Int) (k : Nat)
    (hk : k < rangeLen (sliceLo n step a) (sliceHi n step b) step) :
    0 ≤ sliceLo n step a + k * step ∧ sliceLo n step a + k * step < n := by
  have hb := slice_bounds n step a b
  have hi := (rangeLen_iff _ _ _ hs k).1 hk
  by_cases h : 0 < step
  · simp only [h, if_true] at hi
    have := hb.1 h
    have : 0 ≤ (k : Int) * step := mul_nonneg (by omega) (by omega)
    omega
  · simp only [h, if_false] at hi
    have := hb.2 (by omega)
    have : 0 ≤ (k : Int) * (-step) := mul_nonneg (by omega) (by omega)
    have e : (k : Int) * (-step) = -((k : Int) * step) := by ring
    omega

/-- Every selected position is a position of the list. -/
theorem resolve_lt {n : Nat} {idx : Index} {is : List Nat} (h : resolve n idx = .ok is) : ∀ i ∈ is, i < n := by
  intro i hi
  cases idx with
  | int j =>
    simp only [resolve] at h
    cases hj : pyIndex n j with
    | error e => rw [hj] at h; simp at h
    | ok k =>
      rw [hj] at h
      simp only [Except.ok.injEq] at h
      subst h
      simp only [List.mem_singleton] at hi
      subst hi
      exact (pyIndex_ok hj).1
  | slice a b c =>
    simp only [resolve] at h
    split_ifs at h with h0
    simp only [Except.ok.injEq] at h
    subst h
    obtain ⟨k, hk, rfl⟩ := List.mem_map.1 hi
    have := slice_elem n _ h0 a b k (List.mem_range.1 hk)
    omega
  | list l =>
    obtain ⟨x, _, hx⟩ := mapE_mem h hi
    exact (pyIndex_ok hx).1
  | mask m =>
    obtain ⟨x, _, hx⟩ := mapE_mem h hi
    exact (pyIndex_ok hx).1

section
variable {α : Type*} [Zero α]

theorem Wf.select {a : Clouds α} {P} (h : Wf a P) {is : List Nat} (hne : is ≠ []) (hlt : ∀ i ∈ is, i < P.length) :
    Wf (specSelect is a) (is.map fun i => P.getD i ⟨[], 0⟩) := by
  have key : ∀ X l, specSelect is a X = some l → ∃ m, a X = some m ∧ l = is.map fun i => m.getD i ⟨[], 0⟩ := by
    intro X l hl
    simp only [specSelect] at hl
    obtain ⟨m, hm, rfl⟩ := Option.map_eq_some_iff.1 hl
    exact ⟨m, hm, rfl⟩
  have memm : ∀ {m : List (T2 α)}, m.length = P.length → ∀ t ∈ is.map (fun i => m.getD i ⟨[], 0⟩), t ∈ m := by
    intro m hm t ht
    obtain ⟨i, hi, rfl⟩ := List.mem_map.1 ht
    have : i < m.length := by rw [hm]; exact hlt i hi
    rw [List.getD_eq_getElem?_getD, List.getElem?_eq_getElem this]
    exact List.getElem_mem _
  refine ⟨by simp [specSelect, h.pts], by simpa using hne, ?_, ?_, ?_⟩
  · intro X l hl
    obtain ⟨m, hm, rfl⟩ := key X l hl
    have hlen := h.length hm
    simp only [sizes, List.map_map]
    apply List.map_congr_left
    intro i hi
    have h1 : i < P.length := hlt i hi
    have h2 : i < m.length := by omega
    have := congrArg (fun z => z[i]?) (h.rows X m hm)
    simp only [sizes, List.getElem?_map, List.getElem?_eq_getElem h1, List.getElem?_eq_getElem h2, Option.map_some, Option.some.injEq] at this
    simp [List.getD_eq_getElem?_getD, List.getElem?_eq_getElem h1, List.getElem?_eq_getElem h2, this]
  · intro X l hl t ht
    obtain ⟨m, hm, rfl⟩ := key X l hl
    exact h.valid X m hm t (memm (h.length hm) t ht)
  · intro X l hl
    obtain ⟨m, hm, rfl⟩ := key X l hl
    obtain ⟨C, hc, h3⟩ := h.cols X m hm
    exact ⟨C, fun t ht => hc t (memm (h.length hm) t ht), h3⟩

theorem RepN.selectAttr {s : PC α} {a P} (h : RepN s a P) (idx : Index) (X : Attr) :
    ∃ s', RepN s' a P ∧ s'.mask = s.mask ∧ s'.eq = s.eq ∧ (∀ Y, s.lst Y = a Y → s'.lst Y = a Y) ∧ s'.pad = s.pad ∧
      (∀ is, resolve P.length idx = .ok is → Pcs.selectAttr idx X s = (.ok (specSelect is a X), s')) ∧
      (∀ e, resolve P.length idx = .error e → a X ≠ none → Pcs.selectAttr idx X s = (.error e, s')) := by
  obtain ⟨s1, e1, hr1, f1, hp1, _⟩ := h.hasAttr X
  obtain ⟨e2, hr2⟩ := hr1.getList X
  simp only [Pcs.selectAttr, e1]
  cases hx : a X with
  | none =>
    refine ⟨s1, hr1, f1.mask, f1.eq, fun Y hY => by rw [f1.lst]; exact hY, hp1, ?_, by simp⟩
    intro is his
    simp [specSelect, hx]
  | some l =>
    have hlen := h.wf.length hx
    refine ⟨_, hr2, f1.mask, f1.eq, ?_, hp1, ?_, ?_⟩
    · intro Y hY
      show Function.update s1.lst X (a X) Y = a Y
      by_cases hyx : Y = X
      · subst hyx; simp
      · rw [Function.update_of_ne hyx, f1.lst]; exact hY
    · intro is his
      simp only [Option.isSome_some, Bool.not_true, Bool.false_eq_true, if_false, e2, hx, Option.getD_some, select, hlen, his, specSelect,
        Option.map_some]
    · intro e he _
      simp only [Option.isSome_some, Bool.not_true, Bool.false_eq_true, if_false, e2, hx, Option.getD_some, select, hlen, he]

/-- The new record built by `__getitem__`. -/
def fourAttrs (p n c f : Option (List (T2 α))) : Attr → Option (List (T2 α)) := fun X =>
  match X with
  | .points => p
  | .normals => n
  | .colors => c
  | .features => f

theorem fourAttrs_eta (a : Clouds α) : fourAttrs (a .points) (a .normals) (a .colors) (a .features) = a := by
  funext X; cases X <;> rfl

/-- Indexing: the outcome in every case. -/
theorem RepN.getitem {s : PC α} {a P} (h : RepN s a P) (idx : Index) :
    ∃ s', RepN s' a P ∧ s'.mask = s.mask ∧ s'.eq = s.eq ∧
      (∀ is, resolve P.length idx = .ok is → is ≠ [] → ∃ c, Pcs.getitem idx s = (.ok c, s') ∧
        RepN c (specSelect is a) (is.map fun i => P.getD i ⟨[], 0⟩) ∧ FlagOk c (specSelect is a)) ∧
      (resolve P.length idx = .ok [] → Pcs.getitem idx s = (.error .valueError, s')) ∧
      (∀ e, resolve P.length idx = .error e → Pcs.getitem idx s = (.error e, s')) := by
  obtain ⟨s0, e0, hr0, f0, hp0, _⟩ := h.hasAttr .points
  obtain ⟨s1, hr1, m1, q1, _, _, ok1, er1⟩ := hr0.selectAttr idx .points
  obtain ⟨s2, hr2, m2, q2, _, _, ok2, _⟩ := hr1.selectAttr idx .normals
  obtain ⟨s3, hr3, m3, q3, _, _, ok3, _⟩ := hr2.selectAttr idx .colors
  obtain ⟨s4, hr4, m4, q4, _, _, ok4, _⟩ := hr3.selectAttr idx .features
  cases hres : resolve P.length idx with
  | error e =>
    refine ⟨s1, hr1, by rw [m1, f0.mask], by rw [q1, f0.eq], by simp, by simp, ?_⟩
    intro e' he'
    cases he'
    simp only [Pcs.getitem, e0, h.hasPoints, Bool.not_true, Bool.false_eq_true, if_false,
      er1 e hres (by rw [h.wf.pts]; simp)]
  | ok is =>
    have hobj : Pcs.getitem idx s = (newList (specSelect is a) (is.map fun i => P.getD i ⟨[], 0⟩), s4) := by
      simp only [Pcs.getitem, e0, h.hasPoints, Bool.not_true, Bool.false_eq_true, if_false, ok1 is hres, ok2 is hres, ok3 is hres, ok4 is hres]
      have e1 : (specSelect is a .points).getD [] = is.map fun i => P.getD i ⟨[], 0⟩ := by simp [specSelect, h.wf.pts]
      rw [e1]
      congr 1
      congr 1
      funext X
      cases X <;> rfl
    refine ⟨s4, hr4, by rw [m4, m3, m2, m1, f0.mask], by rw [q4, q3, q2, q1, f0.eq], ?_, ?_, by simp⟩
    · intro is' his' hne
      cases his'
      obtain ⟨c, hc, hrc, hfc⟩ := newList_rep (h.wf.select hne (resolve_lt hres))
      exact ⟨c, by rw [hobj, hc], hrc, hfc⟩
    · intro his'
      simp only [Except.ok.injEq] at his'
      subst his'
      rw [hobj]
      simp [newList]

theorem RepE.getitem {s : PC α} {a} (h : RepE s a) (idx : Index) : ∃ s', Pcs.getitem idx s = (.error .indexError, s') ∧ RepE s' a := by
  obtain ⟨s1, e, hr⟩ := h.hasAttr .points
  exact ⟨s1, by simp [Pcs.getitem, e], hr⟩

end
end Verif.Pcs
