import Verif.Fusion.Active
/-!
C35, C36, C57: `find_similar_map_points` and `find_best_unique_correspondences`.
-/
namespace Verif.Fusion
open Verif Pcs
set_option linter.unusedSectionVars false
set_option linter.unusedSimpArgs false

/-- No map point occurs twice in the table. -/
def UniquePts (rows : List Row) : Prop := rows.Pairwise fun r s => ¬ (r.b = s.b ∧ r.n = s.n)

/-- No pixel occurs twice in the table. -/
def UniquePix (rows : List Row) : Prop := rows.Pairwise fun r s => ¬ (r.b = s.b ∧ r.h = s.h ∧ r.w = s.w)

/-- Every row refers to a point of the map and a pixel of the frame. -/
def RowsOk {α : Type*} (P : List (T2 α)) (fr : Frame α) (rows : List Row) : Prop :=
  ∀ r ∈ rows, (rowAt P r.b r.n).isSome ∧ r.b < fr.B ∧ r.h < fr.H ∧ r.w < fr.W

theorem sorted_uniquePts {rows : List Row} (h : rows.Pairwise Row.before) : UniquePts rows := by
  refine h.imp fun {r s} h k => ?_
  unfold Row.before at h; omega

theorem pairwise_sym_mem {γ : Type*} {R : γ → γ → Prop} (hs : ∀ x y, R x y → R y x) {l : List γ} (h : l.Pairwise R) {x y : γ}
    (hx : x ∈ l) (hy : y ∈ l) (hne : x ≠ y) : R x y := by
  induction l with
  | nil => cases hx
  | cons z l ih =>
    rw [List.pairwise_cons] at h
    rcases List.mem_cons.1 hx with hx | hx <;> rcases List.mem_cons.1 hy with hy | hy
    · exact absurd (hx.trans hy.symm) hne
    · rw [hx]; exact h.1 y hy
    · rw [hy]; exact hs _ _ (h.1 x hx)
    · exact ih h.2 hx hy

theorem UniquePts.eq {rows : List Row} (h : UniquePts rows) {r s : Row} (hr : r ∈ rows) (hs : s ∈ rows) (hb : r.b = s.b) (hn : r.n = s.n) :
    r = s := by
  by_contra hne
  exact pairwise_sym_mem (fun x y h k => h ⟨k.1.symm, k.2.symm⟩) h hr hs hne ⟨hb, hn⟩

theorem lastAt_mem {rows : List Row} {r : Row} (hu : UniquePts rows) (hr : r ∈ rows) : lastAt rows r.b r.n = some r := by
  unfold lastAt
  cases hf : rows.reverse.find? (fun x => decide (x.b = r.b ∧ x.n = r.n)) with
  | none => rw [List.find?_eq_none] at hf; exact absurd (hf r (by simpa using hr)) (by simp)
  | some s =>
    have hs := List.mem_of_find?_eq_some hf
    have hp := List.find?_some hf
    simp only [decide_eq_true_eq] at hp
    rw [hu.eq (by simpa using hs) hr hp.1 hp.2]

theorem lastAt_none {rows : List Row} {b n : Nat} : lastAt rows b n = none ↔ ∀ r ∈ rows, ¬ (r.b = b ∧ r.n = n) := by
  unfold lastAt
  rw [List.find?_eq_none]
  simp

theorem lastAt_some {rows : List Row} {b n : Nat} {r : Row} (h : lastAt rows b n = some r) : r ∈ rows ∧ r.b = b ∧ r.n = n := by
  unfold lastAt at h
  have h1 := List.mem_of_find?_eq_some h
  have h2 := List.find?_some h
  simp only [decide_eq_true_eq] at h2
  exact ⟨by simpa using h1, h2⟩

section
variable {α : Type*} [Field α] [LinearOrder α] [IsStrictOrderedRing α]

theorem rowAt_isSome {a : Clouds α} {P} (hw : Wf a P) {X l} (hl : a X = some l) (b n : Nat) :
    (rowAt l b n).isSome = (rowAt P b n).isSome := by
  have h := congrArg (fun z => z[b]?) (hw.rows X l hl)
  simp only [sizes, List.getElem?_map] at h
  simp only [rowAt]
  cases h1 : l[b]? <;> cases h2 : P[b]? <;> simp only [h1, h2, Option.map_none, Option.map_some, Option.some.injEq, reduceCtorEq] at h <;>
    simp [h]
  rename_i t u
  by_cases hn : n < u.rows.length
  · simp [hn, h]
  · simp [hn, h]

theorem rowsInRange_ok {P : List (T2 α)} {N : Nat} {fr : Frame α} {rows : List Row} (hN : N = maxL (sizes P)) (h : RowsOk P fr rows) :
    rowsInRange rows P.length N fr = true := by
  simp only [rowsInRange, List.all_eq_true, Bool.and_eq_true, decide_eq_true_eq]
  intro r hr
  obtain ⟨h1, h2, h3, h4⟩ := h r hr
  obtain ⟨h5, h6⟩ := rowAt_lt h1
  exact ⟨⟨⟨⟨h5, hN ▸ h6⟩, h2⟩, h3⟩, h4⟩

theorem shape_pad {s : PC α} {a : Clouds α} {P} (h : RepN s a P) {X l C} (hl : a X = some l) (hc : ∀ t ∈ l, t.cols = C) :
    shape3 (padL s.N l) = (P.length, s.N, C) := by
  rw [shape3_padL (h.wf.ne_nil hl) (h.row_le hl) hc, h.wf.length hl]

/-- **C35**.  For every map with normals and every table of map points and pixels without repeated map points (every table that
`find_active_map_points` returns is one): the result is the sub-table of exactly the rows whose map point is nearer than `dist_th` to the
frame's vertex at the pixel and whose normal has dot product above `dot_th` with the frame's normal there, in the same order; the mask
marks them; the map is not changed. -/
theorem similar_spec {nrm : V3 α → α} {pc : PC α} {a : Clouds α} {P Nn : List (T2 α)} {fr : Frame α} {rows : List Row} {distTh dotTh : α}
    (hi : Inv pc a) (hP : a .points = some P) (hn : a .normals = some Nn) (hL : fr.L = 1) (hB : fr.B = P.length)
    (hu : UniquePts rows) (hr : RowsOk P fr rows) :
    ∃ out mask pc', findSimilar nrm pc fr rows distTh dotTh = (.ok (out, mask), pc') ∧ Inv pc' a ∧
      pc'.lst = pc.lst ∧ pc'.mask = pc.mask ∧ out.Sublist rows ∧ mask = rows.map (fun r => decide (r ∈ out)) ∧
      ∀ r ∈ rows, r ∈ out ↔ ∃ p m, vecAt P r.b r.n = some p ∧ vecAt Nn r.b r.n = some m ∧
        nrm ((fr.gv r.b 0 r.h r.w).sub p) < distTh ∧ dotTh < (fr.gn r.b 0 r.h r.w).dot m := by
  rcases hi with h | ⟨P', h, hm⟩
  · rw [h.noPoints] at hP; cases hP
  obtain rfl : P' = P := by have := h.wf.pts; rw [hP] at this; exact (Option.some.inj this).symm
  obtain ⟨s1, e1, r1, f1, p1, _⟩ := h.hasAttr .points
  by_cases h0 : rows.length = 0
  · have : rows = [] := List.length_eq_zero_iff.1 h0
    subst this
    refine ⟨[], [], s1, ?_, .inr ⟨P', r1, hm.frame f1.eq f1.mask⟩, f1.lst, f1.mask, by simp, rfl, by simp⟩
    simp [findSimilar, hL, e1, h.hasPoints]
  obtain ⟨s2, e2, r2, f2, p2, _⟩ := r1.hasAttr .normals
  obtain ⟨s3, e3, r3, _, f3, _⟩ := r2.getPad .points
  obtain ⟨s4, e4, r4, _, f4, _⟩ := r3.getPad .normals
  rw [hP] at e3
  rw [hn] at e4
  simp only [Option.map_some] at e3 e4
  have hs := shape_pad r2 hP (h.wf.cols3 (by simp) hP)
  have hin : rowsInRange rows P'.length s2.N fr = true := rowsInRange_ok (by rw [r2.hN]) hr
  have hout : findSimilar nrm pc fr rows distTh dotTh =
      (.ok (rows.filter fun r => similarAt nrm fr rows (padL s2.N P') (padL s3.N Nn) distTh dotTh r.b r.n,
        rows.map fun r => similarAt nrm fr rows (padL s2.N P') (padL s3.N Nn) distTh dotTh r.b r.n), s4) := by
    simp only [findSimilar, hL, ne_eq, not_true_eq_false, if_false, e1, h.hasPoints, Bool.not_true, Bool.false_or, decide_eq_true_eq, h0]
    rw [if_neg (by rw [hB, r1.hB]; simp)]
    simp only [e2, hn, Option.isSome_some, Bool.not_true, Bool.false_eq_true, if_false, e3, e4, Option.getD_some, hs, hin]
  refine ⟨_, _, s4, hout, .inr ⟨P', r4, (((hm.frame f1.eq f1.mask).frame f2.eq f2.mask).frame f3.eq f3.mask).frame f4.eq f4.mask⟩,
    by rw [f4.lst, f3.lst, f2.lst, f1.lst], by rw [f4.mask, f3.mask, f2.mask, f1.mask], List.filter_sublist, ?_, ?_⟩
  · apply List.map_congr_left
    intro r hmem
    simp only [List.mem_filter, hmem, true_and, Bool.decide_eq_true]
  · intro r hmem
    simp only [List.mem_filter, hmem, true_and]
    obtain ⟨hsome, _⟩ := hr r hmem
    obtain ⟨row, hrow⟩ := Option.isSome_iff_exists.1 hsome
    obtain ⟨row', hrow'⟩ := Option.isSome_iff_exists.1 ((rowAt_isSome h.wf hn r.b r.n).trans hsome)
    simp only [similarAt, scatter, lastAt_mem hu hmem, cell_padL hrow, cell_padL hrow', arePointsClose, areNormalsSimilar, Bool.and_eq_true,
      decide_eq_true_eq, vecAt, hrow, hrow', Option.map_some, Option.some.injEq]
    constructor
    · rintro ⟨h1, h2⟩; exact ⟨_, _, rfl, rfl, h1, h2⟩
    · rintro ⟨_, _, rfl, rfl, h1, h2⟩; exact ⟨h1, h2⟩

/-! ### Sorting and selecting -/

theorem keyLE_trans {x y z : Key α} (h1 : keyLE x y) (h2 : keyLE y z) : keyLE x z := by
  unfold keyLE at *
  rcases h1 with h1 | ⟨e1, h1⟩
  · rcases h2 with h2 | ⟨e2, _⟩
    · left; omega
    · left; omega
  rcases h2 with h2 | ⟨e2, h2⟩
  · left; omega
  refine .inr ⟨e1.trans e2, ?_⟩
  rcases h1 with h1 | ⟨e3, h1⟩
  · rcases h2 with h2 | ⟨e4, _⟩
    · left; omega
    · left; omega
  rcases h2 with h2 | ⟨e4, h2⟩
  · left; omega
  refine .inr ⟨e3.trans e4, ?_⟩
  rcases h1 with h1 | ⟨e5, h1⟩
  · rcases h2 with h2 | ⟨e6, _⟩
    · left; omega
    · left; omega
  rcases h2 with h2 | ⟨e6, h2⟩
  · left; omega
  refine .inr ⟨e5.trans e6, ?_⟩
  rcases h1 with h1 | ⟨e7, h1⟩
  · rcases h2 with h2 | ⟨e8, _⟩
    · left; exact h1.trans h2
    · left; rw [← e8]; exact h1
  rcases h2 with h2 | ⟨e8, h2⟩
  · left; rw [e7]; exact h2
  refine .inr ⟨e7.trans e8, ?_⟩
  rcases h1 with h1 | ⟨e9, h1⟩
  · rcases h2 with h2 | ⟨e8, _⟩
    · left; exact h1.trans h2
    · left; rw [← e8]; exact h1
  rcases h2 with h2 | ⟨e10, h2⟩
  · left; rw [e9]; exact h2
  exact .inr ⟨e9.trans e10, h1.trans h2⟩

theorem keyLE_total (x y : Key α) : keyLE x y ∨ keyLE y x := by
  unfold keyLE
  rcases lt_trichotomy x.b y.b with h | h | h
  · exact .inl (.inl h)
  · rcases lt_trichotomy x.h y.h with h' | h' | h'
    · exact .inl (.inr ⟨h, .inl h'⟩)
    · rcases lt_trichotomy x.w y.w with k | k | k
      · exact .inl (.inr ⟨h, .inr ⟨h', .inl k⟩⟩)
      · rcases lt_trichotomy x.invc y.invc with k' | k' | k'
        · exact .inl (.inr ⟨h, .inr ⟨h', .inr ⟨k, .inl k'⟩⟩⟩)
        · rcases lt_trichotomy x.dist y.dist with l | l | l
          · exact .inl (.inr ⟨h, .inr ⟨h', .inr ⟨k, .inr ⟨k', .inl l⟩⟩⟩⟩)
          · rcases le_total x.n y.n with m | m
            · exact .inl (.inr ⟨h, .inr ⟨h', .inr ⟨k, .inr ⟨k', .inr ⟨l, m⟩⟩⟩⟩⟩)
            · exact .inr (.inr ⟨h.symm, .inr ⟨h'.symm, .inr ⟨k.symm, .inr ⟨k'.symm, .inr ⟨l.symm, m⟩⟩⟩⟩⟩)
          · exact .inr (.inr ⟨h.symm, .inr ⟨h'.symm, .inr ⟨k.symm, .inr ⟨k'.symm, .inl l⟩⟩⟩⟩)
        · exact .inr (.inr ⟨h.symm, .inr ⟨h'.symm, .inr ⟨k.symm, .inl k'⟩⟩⟩)
      · exact .inr (.inr ⟨h.symm, .inr ⟨h'.symm, .inl k⟩⟩)
    · exact .inr (.inr ⟨h.symm, .inl h'⟩)
  · exact .inr (.inl h)

instance : Std.Total (keyLE (α := α)) := ⟨keyLE_total⟩
instance : IsTrans (Key α) keyLE := ⟨fun _ _ _ => keyLE_trans⟩

/-- Same pixel, and pixel order. -/
def samePix (x y : Key α) : Prop := x.b = y.b ∧ x.h = y.h ∧ x.w = y.w
def pixLt (x y : Key α) : Prop := x.b < y.b ∨ x.b = y.b ∧ (x.h < y.h ∨ x.h = y.h ∧ x.w < y.w)

theorem keyLE_pix {x y : Key α} (h : keyLE x y) : pixLt x y ∨ samePix x y := by
  unfold keyLE at h; unfold pixLt samePix
  rcases h with h | ⟨e, h | ⟨e', h | ⟨e'', _⟩⟩⟩
  · exact .inl (.inl h)
  · exact .inl (.inr ⟨e, .inl h⟩)
  · exact .inl (.inr ⟨e, .inr ⟨e', h⟩⟩)
  · exact .inr ⟨e, e', e''⟩

theorem pixLt_trans {x y z : Key α} (h : pixLt x y) (k : pixLt y z) : pixLt x z := by unfold pixLt at *; omega
theorem pixLt_same {x y z : Key α} (h : samePix x y) (k : pixLt y z) : pixLt x z := by unfold pixLt samePix at *; omega
theorem pixLt_ne {x y : Key α} (h : pixLt x y) : ¬ samePix x y := by unfold pixLt samePix at *; omega

theorem keepFirst_spec : ∀ (l : List (Key α)) (j : Key α), (j :: l).Pairwise keyLE →
    (keepFirst (some j) l).Sublist l ∧ (∀ k ∈ keepFirst (some j) l, pixLt j k) ∧ (keepFirst (some j) l).Pairwise pixLt ∧
    ∀ k ∈ l, samePix j k ∨ ∃ k' ∈ keepFirst (some j) l, samePix k' k ∧ keyLE k' k := by
  intro l
  induction l with
  | nil => intro j _; simp [keepFirst]
  | cons k ks ih =>
    intro j hj
    rw [List.pairwise_cons] at hj
    obtain ⟨i1, i2, i3, i4⟩ := ih k hj.2
    have hjk := hj.1 k (by simp)
    by_cases hs : k.b = j.b ∧ k.h = j.h ∧ k.w = j.w
    · have hs' : samePix j k := ⟨hs.1.symm, hs.2.1.symm, hs.2.2.symm⟩
      simp only [keepFirst, if_pos hs]
      refine ⟨i1.cons _, fun x hx => pixLt_same hs' (i2 x hx), i3, ?_⟩
      intro x hx
      rcases List.mem_cons.1 hx with rfl | hx
      · exact .inl hs'
      · rcases i4 x hx with h | h
        · left; unfold samePix at *; omega
        · exact .inr h
    · have hlt : pixLt j k := by
        rcases keyLE_pix hjk with h | h
        · exact h
        · exact absurd ⟨h.1.symm, h.2.1.symm, h.2.2.symm⟩ hs
      simp only [keepFirst, if_neg hs]
      refine ⟨i1.cons_cons _, ?_, ?_, ?_⟩
      · intro x hx
        rcases List.mem_cons.1 hx with rfl | hx
        · exact hlt
        · exact pixLt_trans hlt (i2 x hx)
      · rw [List.pairwise_cons]; exact ⟨i2, i3⟩
      · intro x hx
        right
        rcases List.mem_cons.1 hx with rfl | hx
        · exact ⟨x, by simp, ⟨rfl, rfl, rfl⟩, (keyLE_total x x).elim id id⟩
        · rcases i4 x hx with h | ⟨k', hk', h⟩
          · exact ⟨k, by simp, h, (List.pairwise_cons.1 hj.2).1 x hx⟩
          · exact ⟨k', by simp [hk'], h⟩

theorem keepFirst_none (l : List (Key α)) (hl : l.Pairwise keyLE) :
    (keepFirst none l).Sublist l ∧ (keepFirst none l).Pairwise pixLt ∧
    ∀ k ∈ l, ∃ k' ∈ keepFirst none l, samePix k' k ∧ keyLE k' k := by
  cases l with
  | nil => simp [keepFirst]
  | cons k ks =>
    obtain ⟨i1, i2, i3, i4⟩ := keepFirst_spec ks k hl
    simp only [keepFirst]
    refine ⟨i1.cons_cons _, List.pairwise_cons.2 ⟨i2, i3⟩, ?_⟩
    intro x hx
    rcases List.mem_cons.1 hx with rfl | hx
    · exact ⟨x, by simp, ⟨rfl, rfl, rfl⟩, (keyLE_total x x).elim id id⟩
    · rcases i4 x hx with h | ⟨k', hk', h⟩
      · exact ⟨k, by simp, h, (List.pairwise_cons.1 hl).1 x hx⟩
      · exact ⟨k', by simp [hk'], h⟩

theorem bestRows_spec (ks : List (Key α)) : ∃ best : List (Key α),
    bestRows ks = best.map (fun k => ⟨k.b, k.n, k.h, k.w⟩) ∧ (∀ k ∈ best, k ∈ ks) ∧ best.Pairwise pixLt ∧
    ∀ k ∈ ks, ∃ k' ∈ best, samePix k' k ∧ keyLE k' k := by
  have hs : ((ks.insertionSort keyLE).dedup).Pairwise keyLE :=
    (List.pairwise_insertionSort (keyLE (α := α)) ks).sublist (List.dedup_sublist _)
  obtain ⟨h1, h2, h3⟩ := keepFirst_none _ hs
  have hm : ∀ k, k ∈ (ks.insertionSort keyLE).dedup ↔ k ∈ ks := by
    intro k; rw [List.mem_dedup]; exact (List.perm_insertionSort _ ks).mem_iff
  exact ⟨_, rfl, fun k hk => (hm k).1 (h1.subset hk), h2, fun k hk => h3 k ((hm k).2 hk)⟩

/-! ### float32 indices -/

/-- **C57**.  The float32 round trip is exact precisely for the numbers that are multiples of the rounding unit. -/
theorem f32_exact_iff (n : Nat) : f32 n = n ↔ 2 ^ excess n ∣ n := by
  unfold f32
  by_cases h : n < 2 ^ 24
  · rw [if_pos h]
    have : excess n = 0 := by
      unfold excess
      by_cases h0 : n = 0
      · subst h0; decide
      · have := (Nat.log2_lt h0).2 h; omega
    simp [this]
  · rw [if_neg h]
    have hu : 0 < 2 ^ excess n := by positivity
    have hd := Nat.div_add_mod n (2 ^ excess n)
    constructor
    · intro he
      simp only at he
      split_ifs at he <;> exact Dvd.intro_left _ he
    · rintro hdvd
      have h0 : n % 2 ^ excess n = 0 := Nat.mod_eq_zero_of_dvd hdvd
      simp only [h0, mul_zero, hu, if_true]
      exact Nat.div_mul_cancel hdvd

/-- **C57**.  Indices up to 2^24 survive; the next one does not. -/
theorem f32_small {n : Nat} (h : n ≤ 2 ^ 24) : f32 n = n := by
  rcases lt_or_eq_of_le h with h | h
  · rw [f32, if_pos h]
  · subst h; decide +kernel

theorem f32_fails : f32 (2 ^ 24 + 1) = 2 ^ 24 := by decide +kernel

/-- Every index of the row survives the float32 round trip. -/
def RowExact (r : Row) : Prop := f32 r.b = r.b ∧ f32 r.n = r.n ∧ f32 r.h = r.h ∧ f32 r.w = r.w

theorem rowExact_of_le {r : Row} (h : r.b ≤ 2 ^ 24 ∧ r.n ≤ 2 ^ 24 ∧ r.h ≤ 2 ^ 24 ∧ r.w ≤ 2 ^ 24) : RowExact r :=
  ⟨f32_small h.1, f32_small h.2.1, f32_small h.2.2.1, f32_small h.2.2.2⟩

/-- Confidence of point `(b, n)`: its first feature. -/
def conf (F : List (T2 α)) (b n : Nat) : α := ((rowAt F b n).getD []).getD 0 0

/-- Squared distance between the map point of a row and the frame's vertex at its pixel. -/
def rayDist (P : List (T2 α)) (fr : Frame α) (r : Row) : α :=
  (((vecAt P r.b r.n).getD V3.zero).sub (fr.gv r.b 0 r.h r.w)).normSq

/-- `s` is preferred to `r`: higher confidence, then smaller distance, then smaller index. -/
def Preferred (P F : List (T2 α)) (fr : Frame α) (s r : Row) : Prop :=
  conf F r.b r.n < conf F s.b s.n ∨ conf F s.b s.n = conf F r.b r.n ∧
    (rayDist P fr s < rayDist P fr r ∨ rayDist P fr s = rayDist P fr r ∧ s.n ≤ r.n)

theorem inv_conf_lt {c d : α} (hc : 0 ≤ c) (hd : 0 ≤ d) : (1 / (c + 1 / 10 ^ 20) < 1 / (d + 1 / 10 ^ 20) ↔ d < c) ∧
    (1 / (c + 1 / 10 ^ 20) = 1 / (d + 1 / 10 ^ 20) ↔ c = d) := by
  have he : (0 : α) < 1 / 10 ^ 20 := by positivity
  constructor
  · rw [one_div_lt_one_div (by linarith) (by linarith)]
    constructor <;> intro h <;> linarith
  · constructor
    · intro h
      rw [one_div (c + _), one_div (d + _), inv_inj] at h
      linarith
    · rintro rfl; rfl

theorem findBest_eq {pc : PC α} {a : Clouds α} {P F : List (T2 α)} {fr : Frame α} {rows : List Row}
    (hi : Inv pc a) (hP : a .points = some P) (hF : a .features = some F) (hL : fr.L = 1) (hB : fr.B = P.length)
    (hr : RowsOk P fr rows) :
    ∃ pc', findBest pc fr rows = (.ok (bestRows (rows.map fun r => ⟨f32 r.b, f32 r.h, f32 r.w, 1 / (conf F r.b r.n + 1 / 10 ^ 20), rayDist P fr r,
      f32 r.n⟩)), pc') ∧ Inv pc' a ∧ pc'.lst = pc.lst ∧ pc'.mask = pc.mask := by
  rcases hi with h | ⟨P', h, hm⟩
  · rw [h.noPoints] at hP; cases hP
  obtain rfl : P' = P := by have := h.wf.pts; rw [hP] at this; exact (Option.some.inj this).symm
  obtain ⟨s1, e1, r1, f1, p1, _⟩ := h.hasAttr .points
  by_cases h0 : rows.length = 0
  · have : rows = [] := List.length_eq_zero_iff.1 h0
    subst this
    refine ⟨s1, ?_, .inr ⟨P', r1, hm.frame f1.eq f1.mask⟩, f1.lst, f1.mask⟩
    simp [findBest, hL, e1, h.hasPoints, bestRows, keepFirst]
  obtain ⟨s2, e2, r2, f2, p2, _⟩ := r1.hasAttr .features
  obtain ⟨s3, e3, r3, _, f3, _⟩ := r2.getPad .features
  obtain ⟨s4, e4, r4, _, f4, _⟩ := r3.getPad .points
  rw [hF] at e3
  rw [hP] at e4
  simp only [Option.map_some] at e3 e4
  have hs := shape_pad r3 hP (h.wf.cols3 (by simp) hP)
  have hin : rowsInRange rows P'.length s3.N fr = true := rowsInRange_ok (by rw [r3.hN]) hr
  refine ⟨s4, ?_, .inr ⟨P', r4, (((hm.frame f1.eq f1.mask).frame f2.eq f2.mask).frame f3.eq f3.mask).frame f4.eq f4.mask⟩,
    by rw [f4.lst, f3.lst, f2.lst, f1.lst], by rw [f4.mask, f3.mask, f2.mask, f1.mask]⟩
  simp only [findBest, hL, ne_eq, not_true_eq_false, if_false, e1, h.hasPoints, Bool.not_true, Bool.false_or, decide_eq_true_eq, h0]
  rw [if_neg (by rw [hB, r1.hB]; simp)]
  simp only [e2, hF, Option.isSome_some, Bool.not_true, Bool.false_eq_true, if_false, e3, e4, Option.getD_some, hs, hin]
  congr 3
  apply List.map_congr_left
  intro r hmem
  obtain ⟨hsome, _⟩ := hr r hmem
  obtain ⟨row, hrow⟩ := Option.isSome_iff_exists.1 hsome
  obtain ⟨row', hrow'⟩ := Option.isSome_iff_exists.1 ((rowAt_isSome h.wf hF r.b r.n).trans hsome)
  simp only [keyOf, cell_padL hrow, cell_padL hrow', conf, rayDist, vecAt, hrow, hrow', Option.map_some, Option.getD_some]

/-- **C36**.  For every map with non-negative confidences and every table of map points and pixels (with indices that float32 can hold):
the result contains only rows of the table, at most one per pixel, one for every pixel of the table, and the chosen row has the highest
confidence, among those the smallest distance to the frame's vertex, among those the smallest index; the map is not changed. -/
theorem best_spec {pc : PC α} {a : Clouds α} {P F : List (T2 α)} {fr : Frame α} {rows : List Row}
    (hi : Inv pc a) (hP : a .points = some P) (hF : a .features = some F) (hL : fr.L = 1) (hB : fr.B = P.length)
    (hr : RowsOk P fr rows) (he : ∀ r ∈ rows, RowExact r) (hc : ∀ r ∈ rows, 0 ≤ conf F r.b r.n) :
    ∃ out pc', findBest pc fr rows = (.ok out, pc') ∧ Inv pc' a ∧ pc'.lst = pc.lst ∧ pc'.mask = pc.mask ∧ (∀ r ∈ out, r ∈ rows) ∧ UniquePix out ∧
      ∀ r ∈ rows, ∃ s ∈ out, (s.b = r.b ∧ s.h = r.h ∧ s.w = r.w) ∧ Preferred P F fr s r := by
  obtain ⟨pc', e, hi', hl', hk'⟩ := findBest_eq hi hP hF hL hB hr
  obtain ⟨best, e1, h1, h2, h3⟩ := bestRows_spec (rows.map fun r => (⟨f32 r.b, f32 r.h, f32 r.w, 1 / (conf F r.b r.n + 1 / 10 ^ 20),
    rayDist P fr r, f32 r.n⟩ : Key α))
  rw [e1] at e
  refine ⟨_, pc', e, hi', hl', hk', ?_, ?_, ?_⟩
  · intro r hmem
    obtain ⟨k, hk, rfl⟩ := List.mem_map.1 hmem
    obtain ⟨r, hr', rfl⟩ := List.mem_map.1 (h1 k hk)
    obtain ⟨x1, x2, x3, x4⟩ := he r hr'
    simp only [x1, x2, x3, x4]; exact hr'
  · unfold UniquePix
    rw [List.pairwise_map]
    exact h2.imp fun h => by have := pixLt_ne h; unfold samePix at this; exact this
  · intro r hmem
    obtain ⟨k, hk, hs, hle⟩ := h3 _ (List.mem_map_of_mem hmem)
    obtain ⟨s, hs', rfl⟩ := List.mem_map.1 (h1 k hk)
    obtain ⟨x1, x2, x3, x4⟩ := he s hs'
    obtain ⟨y1, y2, y3, y4⟩ := he r hmem
    simp only [samePix, x1, x3, x4, y1, y3, y4] at hs
    refine ⟨_, List.mem_map_of_mem hk, ?_, ?_⟩
    · simp only [x1, x3, x4]; exact hs
    · have hcs := inv_conf_lt (hc s hs') (hc r hmem)
      have hle : 1 / (conf F s.b s.n + 1 / 10 ^ 20) < 1 / (conf F r.b r.n + 1 / 10 ^ 20) ∨
          1 / (conf F s.b s.n + 1 / 10 ^ 20) = 1 / (conf F r.b r.n + 1 / 10 ^ 20) ∧
            (rayDist P fr s < rayDist P fr r ∨ rayDist P fr s = rayDist P fr r ∧ s.n ≤ r.n) := by
        simp only [keyLE, x1, x2, x3, x4, y1, y2, y3, y4] at hle
        rcases hle with h | ⟨_, h | ⟨_, h | ⟨_, h⟩⟩⟩
        · omega
        · omega
        · omega
        · exact h
      have hsame : (⟨f32 s.b, f32 s.n, f32 s.h, f32 s.w⟩ : Row) = s := by rw [x1, x2, x3, x4]
      show Preferred P F fr ⟨f32 s.b, f32 s.n, f32 s.h, f32 s.w⟩ r
      rw [hsame]
      unfold Preferred
      rcases hle with h | ⟨h, h'⟩
      · left; exact hcs.1.1 h
      · right; exact ⟨hcs.2.1 h, h'⟩

end
end Verif.Fusion
