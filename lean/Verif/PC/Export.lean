import Verif.PC.Props2
import Mathlib.Algebra.Order.Floor.Ring
import Mathlib.Data.Rat.Floor
/-!
C75: exporting a cloud for visualisation (`Pointclouds.open3d`, `Pointclouds.plotly`).

The random permutation is an argument `perm` (`torch.randperm`): the theorems hold for every permutation.  Not modelled: what open3d and plotly do with
the arrays they are given (dtype conversions, figures).
-/
namespace Verif.Pcs
open Verif

section
variable {α : Type*} [Field α] [LinearOrder α]

/-! ### Model -/

/-- `perm[:m]` for an int `m`. -/
def upTo (l : List Nat) (m : Int) : List Nat := if m < 0 then l.take (m + l.length).toNat else l.take m.toNat

/-- Which rows are exported: all, or those of `perm[:max_num_points]`, pointclouds.py:1268-1272, :1327-1331. -/
def chosen (perm : Nat → List Nat) (maxN : Option Int) (n : Nat) : List Nat :=
  match maxN with
  | none => List.range n
  | some m => if m < n then upTo (perm n) m else List.range n

/-- `t[point_inds]`. -/
def pickRows (inds : List Nat) (t : T2 α) : List (List α) := inds.map fun k => t.rows.getD k []

/-- `torch.clamp(x, min=0, max=hi)`. -/
def clamp (hi x : α) : α := min (max x 0) hi

/-- `open3d`'s treatment of the colours, pointclouds.py:1280-1283: if the largest is above 1.1 they are taken to be in the range 0 to 255. -/
def unitColors (c : List (List α)) : List (List α) :=
  c.map fun r => r.map fun x => clamp 1 (if c.any fun r => r.any fun y => 11 / 10 < y then x / 255 else x)

/-- `plotly`'s treatment of the colours, pointclouds.py:1341-1343: unless some colour reaches 1.1 they are taken to be in the range 0 to 1. -/
def byteColors [FloorRing α] (c : List (List α)) : List (List Int) :=
  c.map fun r => r.map fun x => ⌊clamp 255 (if c.all fun r => r.all fun y => y < 11 / 10 then x * 255 else x)⌋

/-- The rows of attribute `X` of cloud `b`, if the object has the attribute and it is asked for.  -/
def exported (perm : Nat → List Nat) (maxN : Option Int) (b n : Nat) (X : Attr) (want : Bool) (s : PC α) : Option (List (List α)) × PC α :=
  let (h, s) := hasAttr X s
  if h && want then
    let (l, s) := getList X s
    (some (pickRows (chosen perm maxN n) ((l.getD []).getD b ⟨[], 0⟩)), s)
  else (none, s)

/-- What `open3d` puts into the `open3d.geometry.PointCloud`. -/
structure Cloud3d (α : Type*) where
  points : List (List α)
  colors : Option (List (List α))
  normals : Option (List (List α))

/-- `open3d(index, include_colors, max_num_points, include_normals)`, pointclouds.py:1239-1294.  `max()` of a tensor without elements raises. -/
def open3d (perm : Nat → List Nat) (index : Int) (withColors : Bool) (maxN : Option Int) (withNormals : Bool) (s : PC α) :
    Except Err (Cloud3d α) × PC α :=
  match pyIndex s.num.length index with
  | .error e => (.error e, s)
  | .ok b =>
    let n := s.num.getD b 0
    match getList .points s with
    | (none, s) => (.error .typeError, s)
    | (some P, s) =>
      let pts := pickRows (chosen perm maxN n) (P.getD b ⟨[], 0⟩)
      match exported perm maxN b n .colors withColors s with
      | (some [], s) => (.error .runtimeError, s)
      | (c, s) =>
        let (m, s) := exported perm maxN b n .normals withNormals s
        (.ok ⟨pts, c.map unitColors, m⟩, s)

/-- The coordinates and colours `plotly` puts into the `Scatter3d`. -/
structure Scatter (α : Type*) where
  points : List (List α)
  colors : Option (List (List Int))

/-- `plotly(index, include_colors, max_num_points)`, pointclouds.py:1296-1356. -/
def plotly [FloorRing α] (perm : Nat → List Nat) (index : Int) (withColors : Bool) (maxN : Option Int) (s : PC α) : Except Err (Scatter α) × PC α :=
  match pyIndex s.num.length index with
  | .error e => (.error e, s)
  | .ok b =>
    let n := s.num.getD b 0
    match getList .points s with
    | (none, s) => (.error .typeError, s)
    | (some P, s) =>
      let pts := pickRows (chosen perm maxN n) (P.getD b ⟨[], 0⟩)
      match exported perm maxN b n .colors withColors s with
      | (some [], s) => (.error .runtimeError, s)
      | (c, s) => (.ok ⟨pts, c.map byteColors⟩, s)

/-! ### Specification -/

/-- Row `k` of attribute `X` of cloud `b`. -/
def Clouds.row (a : Clouds α) (X : Attr) (b k : Nat) : List α := (((a X).getD []).getD b ⟨[], 0⟩).rows.getD k []

/-- The number of points of cloud `b`. -/
def Clouds.size (a : Clouds α) (b : Nat) : Nat := (((a .points).getD []).getD b ⟨[], 0⟩).rows.length

/-- Which points may be exported: all of them in order if there is no limit, or the limit is not below their number; otherwise as many different points
as the limit says (a negative limit leaves out that many). -/
structure Selection (maxN : Option Int) (n : Nat) (inds : List Nat) : Prop where
  lt : ∀ k ∈ inds, k < n
  nodup : inds.Nodup
  all : (∀ m, maxN = some m → (n : Int) ≤ m) → inds = List.range n
  limit : ∀ m, maxN = some m → m < n → (inds.length : Int) = if m < 0 then max 0 (n + m) else m

/-- The exported values of attribute `X`: present if the clouds have it and it is asked for. -/
def Clouds.values (a : Clouds α) (X : Attr) (want : Bool) (b : Nat) (inds : List Nat) : Option (List (List α)) :=
  if (a X).isSome ∧ want = true then some (inds.map fun k => a.row X b k) else none

theorem chosen_selection {perm : Nat → List Nat} (hp : ∀ n, (perm n).Perm (List.range n)) (maxN : Option Int) (n : Nat) :
    Selection maxN n (chosen perm maxN n) := by
  have hl : (perm n).length = n := by rw [(hp n).length_eq, List.length_range]
  have hu : ∀ m, (∀ k ∈ upTo (perm n) m, k < n) ∧ (upTo (perm n) m).Nodup := by
    intro m
    have hsub : ∃ j, upTo (perm n) m = (perm n).take j := by unfold upTo; split_ifs <;> exact ⟨_, rfl⟩
    obtain ⟨j, hj⟩ := hsub
    rw [hj]
    exact ⟨fun k hk => List.mem_range.1 ((hp n).mem_iff.1 (List.mem_of_mem_take hk)), ((hp n).nodup_iff.2 List.nodup_range).sublist (List.take_sublist _ _)⟩
  have hr : (∀ k ∈ List.range n, k < n) ∧ (List.range n).Nodup := ⟨fun k hk => List.mem_range.1 hk, List.nodup_range⟩
  cases maxN with
  | none => exact ⟨hr.1, hr.2, fun _ => rfl, fun m h => by cases h⟩
  | some m =>
    by_cases hm : m < n
    · have e : chosen perm (some m) n = upTo (perm n) m := by simp only [chosen, if_pos hm]
      refine ⟨by rw [e]; exact (hu m).1, by rw [e]; exact (hu m).2, fun h => absurd (h m rfl) (by omega), fun m' h _ => ?_⟩
      cases h
      rw [e, upTo]
      split_ifs with h0
      · rw [List.length_take, hl]; omega
      · rw [List.length_take, hl]; omega
    · have e : chosen perm (some m) n = List.range n := by simp only [chosen, if_neg hm]
      exact ⟨by rw [e]; exact hr.1, by rw [e]; exact hr.2, fun _ => e, fun m' h h' => by cases h; exact absurd h' hm⟩

theorem num_spec {s : PC α} {a : Clouds α} (h : Hist s a) {P : List (T2 α)} (hP : a .points = some P) : s.num = sizes P := by
  rcases h.inv with h | ⟨Q, h, _⟩
  · rw [h.noPoints] at hP; cases hP
  · have := h.wf.pts; rw [hP] at this; cases this; exact h.hnum

theorem num_empty {s : PC α} {a : Clouds α} (h : Hist s a) (hP : a .points = none) : s.num = [0] := by
  rcases h.inv with h | ⟨Q, h, _⟩
  · exact h.hnum
  · have := h.wf.pts; rw [hP] at this; cases this

/-- The optional values exported. -/
theorem exported_spec {s : PC α} {a : Clouds α} (h : Hist s a) (perm : Nat → List Nat) (maxN : Option Int) (b n : Nat) (X : Attr) (want : Bool) :
    ∃ s', exported perm maxN b n X want s = (a.values X want b (chosen perm maxN n), s') ∧ Hist s' a := by
  have ho := inv_obs h.inv
  have hq := Hist.query X h
  have ho2 := inv_obs hq.inv
  unfold exported
  have e1 : hasAttr X s = ((a X).isSome, (hasAttr X s).2) := Prod.ext (ho.presence X) rfl
  rw [e1]
  simp only
  have e2 : getList X (hasAttr X s).2 = (a X, (getList X (hasAttr X s).2).2) := Prod.ext (ho2.list X) rfl
  rw [e2]
  by_cases hw : (a X).isSome ∧ want = true
  · refine ⟨_, ?_, Hist.readList X hq⟩
    rw [if_pos (by simpa using hw), Clouds.values, if_pos hw]
    rfl
  · refine ⟨_, ?_, hq⟩
    rw [if_neg (by simpa using hw), Clouds.values, if_neg hw]

/-- **C75** (`open3d`).  For every object in every history, every index, limit and permutation.  No cloud: IndexError or TypeError.  Otherwise, the index is
that of a Python list; the exported points, colours and normals are the rows of the same selection of points (all of them in order without an
effective limit), colours only if asked for and present, likewise normals; colours of an empty selection are a RuntimeError.  The object keeps its
contents. -/
theorem open3d_spec {s : PC α} {a : Clouds α} (h : Hist s a) {perm : Nat → List Nat} (hp : ∀ n, (perm n).Perm (List.range n)) (index : Int)
    (wc : Bool) (maxN : Option Int) (wn : Bool) :
    ∃ r s', open3d perm index wc maxN wn s = (r, s') ∧ Hist s' a ∧
      (a .points = none → r = .error (if index = 0 ∨ index = -1 then .typeError else .indexError)) ∧
      ∀ P, a .points = some P → (∀ e, pyIndex P.length index = .error e → r = .error .indexError) ∧
        ∀ b, pyIndex P.length index = .ok b → ∃ inds, Selection maxN (a.size b) inds ∧
          r = if a.values .colors wc b inds = some [] then .error .runtimeError else
            .ok ⟨inds.map fun k => a.row .points b k, (a.values .colors wc b inds).map unitColors, a.values .normals wn b inds⟩ := by
  have ho := inv_obs h.inv
  have hr := Hist.readList .points h
  have e1 : getList .points s = (a .points, (getList .points s).2) := Prod.ext (ho.list .points) rfl
  unfold open3d
  cases hP : a .points with
  | none =>
    rw [num_empty h hP]
    cases hi : pyIndex [0].length index with
    | error e =>
      refine ⟨_, _, rfl, h, fun _ => ?_, fun P hP' => by cases hP'⟩
      obtain ⟨rfl, hb⟩ := pyIndex_error hi
      rw [if_neg (by simp only [List.length_singleton] at hb; omega)]
    | ok b =>
      rw [e1, hP]
      refine ⟨_, _, rfl, hr, fun _ => ?_, fun P hP' => by cases hP'⟩
      obtain ⟨hb, hb'⟩ := pyIndex_ok hi
      rw [if_pos (by simp only [List.length_singleton] at hb hb'; omega)]
  | some P =>
    rw [num_spec h hP]
    have hl : (sizes P).length = P.length := by simp [sizes]
    rw [hl]
    cases hi : pyIndex P.length index with
    | error e =>
      refine ⟨_, _, rfl, h, fun h' => (by cases h'), fun P' hP' => ?_⟩
      cases hP'
      refine ⟨fun e' he => (by rw [(pyIndex_error hi).1]), fun b hb => ?_⟩
      rw [hi] at hb; cases hb
    | ok b =>
      rw [e1, hP]
      simp only
      obtain ⟨s2, e2, h2⟩ := exported_spec hr perm maxN b ((sizes P).getD b 0) .colors wc
      obtain ⟨s3, e3, h3⟩ := exported_spec h2 perm maxN b ((sizes P).getD b 0) .normals wn
      rw [e2]
      have hb := (pyIndex_ok hi).1
      have hsz : (sizes P).getD b 0 = a.size b := by
        rw [Clouds.size, hP]
        simp [sizes, List.getD_eq_getElem?_getD, List.getElem?_eq_getElem hb]
      rw [hsz] at e3 ⊢
      have hsel := chosen_selection hp maxN (a.size b)
      generalize hinds : chosen perm maxN (a.size b) = inds at *
      have hpts : pickRows inds (P.getD b ⟨[], 0⟩) = inds.map fun k => a.row .points b k := by
        simp only [pickRows, Clouds.row, hP, Option.getD_some]
      cases hv : a.values .colors wc b inds with
      | none =>
        simp only [e3]
        refine ⟨_, _, rfl, h3, fun h' => (by cases h'), fun P' hP' => ?_⟩
        cases hP'
        refine ⟨fun e' he => (by rw [hi] at he; cases he), fun b' hb' => ?_⟩
        rw [hi] at hb'; cases hb'
        exact ⟨inds, hsel, by rw [hv, if_neg (by simp), hpts]⟩
      | some c =>
        cases c with
        | nil =>
          refine ⟨_, _, rfl, h2, fun h' => (by cases h'), fun P' hP' => ?_⟩
          cases hP'
          refine ⟨fun e' he => (by rw [hi] at he; cases he), fun b' hb' => ?_⟩
          rw [hi] at hb'; cases hb'
          exact ⟨inds, hsel, by rw [hv, if_pos rfl]⟩
        | cons c cs =>
          simp only [e3]
          refine ⟨_, _, rfl, h3, fun h' => (by cases h'), fun P' hP' => ?_⟩
          cases hP'
          refine ⟨fun e' he => (by rw [hi] at he; cases he), fun b' hb' => ?_⟩
          rw [hi] at hb'; cases hb'
          exact ⟨inds, hsel, by rw [hv, if_neg (by simp), hpts]⟩

/-- **C75** (`plotly`). The same for `plotly`, with the colours as bytes. -/
theorem plotly_spec [FloorRing α] {s : PC α} {a : Clouds α} (h : Hist s a) {perm : Nat → List Nat} (hp : ∀ n, (perm n).Perm (List.range n)) (index : Int)
    (wc : Bool) (maxN : Option Int) :
    ∃ r s', plotly perm index wc maxN s = (r, s') ∧ Hist s' a ∧
      (a .points = none → r = .error (if index = 0 ∨ index = -1 then .typeError else .indexError)) ∧
      ∀ P, a .points = some P → (∀ e, pyIndex P.length index = .error e → r = .error .indexError) ∧
        ∀ b, pyIndex P.length index = .ok b → ∃ inds, Selection maxN (a.size b) inds ∧
          r = if a.values .colors wc b inds = some [] then .error .runtimeError else
            .ok ⟨inds.map fun k => a.row .points b k, (a.values .colors wc b inds).map byteColors⟩ := by
  have ho := inv_obs h.inv
  have hr := Hist.readList .points h
  have e1 : getList .points s = (a .points, (getList .points s).2) := Prod.ext (ho.list .points) rfl
  unfold plotly
  cases hP : a .points with
  | none =>
    rw [num_empty h hP]
    cases hi : pyIndex [0].length index with
    | error e =>
      refine ⟨_, _, rfl, h, fun _ => ?_, fun P hP' => by cases hP'⟩
      obtain ⟨rfl, hb⟩ := pyIndex_error hi
      rw [if_neg (by simp only [List.length_singleton] at hb; omega)]
    | ok b =>
      rw [e1, hP]
      refine ⟨_, _, rfl, hr, fun _ => ?_, fun P hP' => by cases hP'⟩
      obtain ⟨hb, hb'⟩ := pyIndex_ok hi
      rw [if_pos (by simp only [List.length_singleton] at hb hb'; omega)]
  | some P =>
    rw [num_spec h hP]
    have hl : (sizes P).length = P.length := by simp [sizes]
    rw [hl]
    cases hi : pyIndex P.length index with
    | error e =>
      refine ⟨_, _, rfl, h, fun h' => (by cases h'), fun P' hP' => ?_⟩
      cases hP'
      refine ⟨fun e' he => (by rw [(pyIndex_error hi).1]), fun b hb => ?_⟩
      rw [hi] at hb; cases hb
    | ok b =>
      rw [e1, hP]
      simp only
      obtain ⟨s2, e2, h2⟩ := exported_spec hr perm maxN b ((sizes P).getD b 0) .colors wc
      rw [e2]
      have hb := (pyIndex_ok hi).1
      have hsz : (sizes P).getD b 0 = a.size b := by
        rw [Clouds.size, hP]
        simp [sizes, List.getD_eq_getElem?_getD, List.getElem?_eq_getElem hb]
      rw [hsz]
      have hsel := chosen_selection hp maxN (a.size b)
      generalize hinds : chosen perm maxN (a.size b) = inds at *
      have hpts : pickRows inds (P.getD b ⟨[], 0⟩) = inds.map fun k => a.row .points b k := by
        simp only [pickRows, Clouds.row, hP, Option.getD_some]
      cases hv : a.values .colors wc b inds with
      | none =>
        refine ⟨_, _, rfl, h2, fun h' => (by cases h'), fun P' hP' => ?_⟩
        cases hP'
        refine ⟨fun e' he => (by rw [hi] at he; cases he), fun b' hb' => ?_⟩
        rw [hi] at hb'; cases hb'
        exact ⟨inds, hsel, by rw [hv, if_neg (by simp), hpts]⟩
      | some c =>
        cases c with
        | nil =>
          refine ⟨_, _, rfl, h2, fun h' => (by cases h'), fun P' hP' => ?_⟩
          cases hP'
          refine ⟨fun e' he => (by rw [hi] at he; cases he), fun b' hb' => ?_⟩
          rw [hi] at hb'; cases hb'
          exact ⟨inds, hsel, by rw [hv, if_pos rfl]⟩
        | cons c cs =>
          refine ⟨_, _, rfl, h2, fun h' => (by cases h'), fun P' hP' => ?_⟩
          cases hP'
          refine ⟨fun e' he => (by rw [hi] at he; cases he), fun b' hb' => ?_⟩
          rw [hi] at hb'; cases hb'
          exact ⟨inds, hsel, by rw [hv, if_neg (by simp), hpts]⟩

end

section
variable {α : Type*} [Field α] [LinearOrder α] [IsStrictOrderedRing α] [FloorRing α]

/-- Entry `j` of colour `k`. -/
def entry {β : Type*} (c : List (List β)) (k j : Nat) : Option β := (c[k]?.getD [])[j]?

theorem entry_map {β γ : Type*} (f : β → γ) (c : List (List β)) (k j : Nat) : entry (c.map fun r => r.map f) k j = (entry c k j).map f := by
  unfold entry
  rw [List.getElem?_map]
  cases c[k]? <;> simp

theorem entry_mem {β : Type*} {c : List (List β)} {k j : Nat} {x : β} (h : entry c k j = some x) : ∃ r ∈ c, x ∈ r := by
  unfold entry at h
  cases hr : c[k]? with
  | none => rw [hr] at h; simp at h
  | some r => rw [hr] at h; exact ⟨r, List.mem_of_getElem? hr, List.mem_of_getElem? h⟩

/-- **C75** (colours).  Colours given to open3d lie between 0 and 1; colours in that range are exported as they are, and colours between 0 and 255 of which
one exceeds 1.1 are divided by 255.  Colours given to plotly lie between 0 and 255; colours between 0 and 1 are multiplied by 255 and colours between 0
and 255 of which one is at least 1.1 are taken as they are, both rounded down. -/
theorem exported_colors (c : List (List α)) (k j : Nat) (x : α) (h : entry c k j = some x) :
    (∃ y, entry (unitColors c) k j = some y ∧ 0 ≤ y ∧ y ≤ 1 ∧
      ((∀ r ∈ c, ∀ z ∈ r, 0 ≤ z ∧ z ≤ 1) → y = x) ∧
      ((∀ r ∈ c, ∀ z ∈ r, 0 ≤ z ∧ z ≤ 255) → (∃ r ∈ c, ∃ z ∈ r, 11 / 10 < z) → y = x / 255)) ∧
    (∃ y, entry (byteColors c) k j = some y ∧ 0 ≤ y ∧ y ≤ 255 ∧
      ((∀ r ∈ c, ∀ z ∈ r, 0 ≤ z ∧ z ≤ 1) → y = ⌊x * 255⌋) ∧
      ((∀ r ∈ c, ∀ z ∈ r, 0 ≤ z ∧ z ≤ 255) → (∃ r ∈ c, ∃ z ∈ r, 11 / 10 ≤ z) → y = ⌊x⌋)) := by
  obtain ⟨r, hr, hx⟩ := entry_mem h
  refine ⟨⟨_, by rw [unitColors, entry_map, h]; rfl, ?_, min_le_right _ _, fun h1 => ?_, fun h1 h2 => ?_⟩,
    ⟨_, by rw [byteColors, entry_map, h]; rfl, ?_, ?_, fun h1 => ?_, fun h1 h2 => ?_⟩⟩
  · exact le_min (le_max_right _ _) zero_le_one
  · rw [if_neg ?_]
    · exact clampId (h1 r hr x hx).1 (h1 r hr x hx).2
    · simp only [List.any_eq_true, decide_eq_true_eq, not_exists, not_and, not_lt]
      intro r' hr' z hz
      have := (h1 r' hr' z hz).2
      refine this.trans ?_
      norm_num
  · rw [if_pos ?_]
    · have := h1 r hr x hx
      exact clampId (div_nonneg this.1 (by norm_num)) ((div_le_one (by norm_num)).2 this.2)
    · simpa only [List.any_eq_true, decide_eq_true_eq] using h2
  · exact Int.floor_nonneg.2 (le_min (le_max_right _ _) (by norm_num))
  · rw [← Int.cast_le (R := α)]
    refine (Int.floor_le _).trans ((min_le_right _ _).trans (by norm_num))
  · show ⌊clamp 255 (if _ then x * 255 else x)⌋ = _
    rw [if_pos ?_]
    · have := h1 r hr x hx
      have e : clamp 255 (x * 255) = x * 255 := clampId (mul_nonneg this.1 (by norm_num)) (by linarith [this.2])
      rw [e]
    · simp only [List.all_eq_true, decide_eq_true_eq]
      intro r' hr' z hz
      refine lt_of_le_of_lt (h1 r' hr' z hz).2 ?_
      norm_num
  · show ⌊clamp 255 (if _ then x * 255 else x)⌋ = _
    rw [if_neg ?_]
    · have := h1 r hr x hx
      have e : clamp 255 x = x := clampId this.1 this.2
      rw [e]
    · simp only [List.all_eq_true, decide_eq_true_eq]
      intro h3
      obtain ⟨r', hr', z, hz, hz1⟩ := h2
      exact absurd (h3 r' hr' z hz) (not_lt.2 hz1)
where
  clampId {hi x : α} (h0 : 0 ≤ x) (h1 : x ≤ hi) : clamp hi x = x := by rw [clamp, max_eq_left h0, min_eq_left h1]

end

/-! ### Concrete cases -/

/-- The hypotheses of C75 are met; cloud 1 with its colours, restricted to one point by the reversed order of indices; cloud -1 is the same cloud. -/
theorem export_example : (∀ n, ((List.range n).reverse).Perm (List.range n)) ∧ Hist s0 a0 ∧
    (open3d (fun n => (List.range n).reverse) 1 true (some 1) false s0).1 = (open3d (fun n => (List.range n).reverse) (-1) true (some 1) false s0).1 ∧
    ∃ o, (open3d (fun n => (List.range n).reverse) 1 true (some 1) false s0).1 = .ok o ∧ o.points = [[7, 8, 9]] ∧ o.colors = some [[0, 0, 1]] :=
  ⟨fun n => List.reverse_perm _, s0_hist, rfl, _, rfl, rfl, by decide +kernel⟩

/-- The range of the colours is guessed from the exported points: a dark point (1, 1, 1) of a cloud with colours between 0 and 255 is black
if a brighter point is exported along with it, and white if it is exported alone. -/
theorem export_guesses_range : unitColors [[1, 1, 1], [255, 255, 255]] = [[1 / 255, 1 / 255, 1 / 255], [1, 1, (1 : ℚ)]] ∧
    unitColors [[1, 1, 1]] = [[1, 1, (1 : ℚ)]] ∧ byteColors [[1, 1, 1], [255, 255, (255 : ℚ)]] = [[1, 1, 1], [255, 255, 255]] ∧
    byteColors [[1, 1, (1 : ℚ)]] = [[255, 255, 255]] := by
  refine ⟨by decide +kernel, by decide +kernel, by decide +kernel, by decide +kernel⟩

end Verif.Pcs
