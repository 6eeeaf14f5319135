import Mathlib.Tactic.Linarith
import Mathlib.Tactic.Ring
import Mathlib.Data.List.Basic
import Mathlib.Data.List.Range
/-!
Model of the sequence windowing of the TUM and ICL datasets, and properties C07 and C08.
-/
namespace Verif.Data

/-- Python exceptions raised by the dataset code. -/
inductive Err
  | typeError | valueError | indexError | keyError | nameError | runtimeError
  deriving DecidableEq, Repr

/-- Python slicing `l[start:end]` for non-negative bounds. -/
def slice {β : Type*} (l : List β) (start stop : Nat) : List β := (l.take stop).drop start

/-- The windowing arguments of `TUM(...)` / `ICL(...)` (tum.py:115-123, icl.py:124-132).  Non-int arguments, which raise
TypeError (tum.py:155-164, 177-180), are excluded by typing. -/
structure WinArgs where
  seqlen : Int := 4
  dilation : Option Int := none
  stride : Option Int := none
  start : Option Int := none
  stop : Option Int := none

/-- The validated arguments. -/
structure Win where
  seqlen : Nat
  dilation : Nat
  stride : Nat
  start : Nat
  stop : Option Nat
  deriving DecidableEq, Repr

/-- Argument validation, tum.py:165-193 and icl.py:170-194. -/
def validate (a : WinArgs) : Except Err Win :=
  let dilation := a.dilation.getD 0
  let stride := a.stride.getD (a.seqlen * (dilation + 1))
  let start := a.start.getD 0
  if a.seqlen < 0 then .error .valueError
  else if dilation < 0 then .error .valueError
  else if stride < 0 then .error .valueError
  else if start < 0 then .error .valueError
  else match a.stop with
    | none => .ok ⟨a.seqlen.toNat, dilation.toNat, stride.toNat, start.toNat, none⟩
    | some e =>
      if e > start then .ok ⟨a.seqlen.toNat, dilation.toNat, stride.toNat, start.toNat, some e.toNat⟩
      else .error .valueError

/-- Python's `range(0, n, step)`; a zero step raises ValueError. -/
def pyRange (n step : Nat) : Except Err (List Nat) :=
  if step = 0 then .error .valueError
  else .ok ((List.range ((n + step - 1) / step)).map (· * step))

/-- `idx = np.arange(seqlen) * (dilation + 1)`, tum.py:281 and icl.py:295. -/
def offsets (seqlen dilation : Nat) : List Nat := (List.range seqlen).map (· * (dilation + 1))

/-- `[files[i] for i in inds]`: a list comprehension of look-ups, IndexError when out of range. -/
def gather {β : Type*} (frames : List β) : List Nat → Except Err (List β)
  | [] => .ok []
  | i :: is =>
    match frames[i]? with
    | none => .error .indexError
    | some x =>
      match gather frames is with
      | .error e => .error e
      | .ok xs => .ok (x :: xs)

/-- The window loop, tum.py:317-326 and icl.py:355-368: `break` at the first start whose last frame is out of range;
`idx[-1]` raises IndexError for an empty `idx`. -/
def windowLoop {β : Type*} (frames : List β) (idx : List Nat) : List Nat → Except Err (List (List β))
  | [] => .ok []
  | s :: ss =>
    match idx.getLast? with
    | none => .error .indexError
    | some last =>
      if s + last ≥ frames.length then .ok []
      else
        match gather frames (idx.map (s + ·)) with
        | .error e => .error e
        | .ok w =>
          match windowLoop frames idx ss with
          | .error e => .error e
          | .ok ws => .ok (w :: ws)

/-- All windows of one trajectory whose frames (after the start/end cut) are `frames`; tum.py:316-326, icl.py:354-368. -/
def windows {β : Type*} (w : Win) (frames : List β) : Except Err (List (List β)) :=
  match pyRange frames.length w.stride with
  | .error e => .error e
  | .ok starts => windowLoop frames (offsets w.seqlen w.dilation) starts

/-- The dataset's item list over all trajectories, in order (tum.py:282-326, icl.py:296-368). -/
def allWindows {β : Type*} (w : Win) : List (List β) → Except Err (List (List β))
  | [] => .ok []
  | t :: ts =>
    match windows w t with
    | .error e => .error e
    | .ok a =>
      match allWindows w ts with
      | .error e => .error e
      | .ok b => .ok (a ++ b)

/-! ### Properties -/

theorem slice_getElem? {β : Type*} (l : List β) (s e i : Nat) (h : s + i < e) : (slice l s e)[i]? = l[s + i]? := by
  simp [slice, List.getElem?_drop, h]

theorem slice_length {β : Type*} (l : List β) (s e : Nat) : (slice l s e).length = min e l.length - s := by
  simp [slice]

theorem gather_ok {β : Type*} (frames : List β) (is : List Nat) (h : ∀ i ∈ is, i < frames.length) :
    ∃ xs, gather frames is = .ok xs ∧ xs.length = is.length ∧
      ∀ (k : Nat) (hk : k < is.length), xs[k]? = frames[is[k]]? := by
  induction is with
  | nil => exact ⟨[], rfl, rfl, by simp⟩
  | cons i is ih =>
    obtain ⟨xs, hx, hl, hg⟩ := ih (fun j hj => h j (by simp [hj]))
    have hi : i < frames.length := h i (by simp)
    refine ⟨frames[i] :: xs, ?_, by simp [hl], ?_⟩
    · simp [gather, List.getElem?_eq_getElem hi, hx]
    · intro k hk
      cases k with
      | zero => simp [List.getElem?_eq_getElem hi]
      | succ k =>
        simp only [List.length_cons] at hk
        simpa using hg k (by omega)

theorem offsets_last (seqlen dil : Nat) (h : 0 < seqlen) :
    (offsets seqlen dil).getLast? = some ((seqlen - 1) * (dil + 1)) := by
  obtain ⟨m, rfl⟩ : ∃ m, seqlen = m + 1 := ⟨seqlen - 1, by omega⟩
  simp [offsets, List.range_succ]

/-- The loop run from the `m`-th start onwards. -/
theorem windowLoop_spec {β : Type*} (frames : List β) (seqlen dil stride : Nat) (hs : 0 < seqlen) :
    ∀ (c m : Nat), (∀ i, m + c ≤ i → frames.length ≤ i * stride + (seqlen - 1) * (dil + 1)) →
    ∃ ws, windowLoop frames (offsets seqlen dil) ((List.range' m c).map (· * stride)) = .ok ws ∧
      (∀ i, i < ws.length ↔ (m + i) * stride + (seqlen - 1) * (dil + 1) < frames.length) ∧
      ∀ i w, ws[i]? = some w → w.length = seqlen ∧
        ∀ k < seqlen, w[k]? = frames[(m + i) * stride + k * (dil + 1)]? := by
  intro c
  induction c with
  | zero =>
    intro m hm
    refine ⟨[], rfl, ?_, by simp⟩
    intro i
    have := hm (m + i) (by omega)
    simp; omega
  | succ c ih =>
    intro m hm
    simp only [List.range'_succ, List.map_cons, windowLoop, offsets_last seqlen dil hs]
    by_cases hb : m * stride + (seqlen - 1) * (dil + 1) ≥ frames.length
    · refine ⟨[], by simp [hb], ?_, by simp⟩
      intro i
      have : m * stride ≤ (m + i) * stride := Nat.mul_le_mul_right _ (by omega)
      simp; omega
    · obtain ⟨ws, hws, hcount, hget⟩ := ih (m + 1) (fun i hi => hm i (by omega))
      have hin : ∀ j ∈ (offsets seqlen dil).map (m * stride + ·), j < frames.length := by
        intro j hj
        simp only [offsets, List.map_map, List.mem_map, List.mem_range, Function.comp] at hj
        obtain ⟨k, hk, rfl⟩ := hj
        have : k * (dil + 1) ≤ (seqlen - 1) * (dil + 1) := Nat.mul_le_mul_right _ (by omega)
        omega
      obtain ⟨w, hw, hwl, hwg⟩ := gather_ok frames _ hin
      refine ⟨w :: ws, by simp [hb, hw, hws], ?_, ?_⟩
      · intro i
        cases i with
        | zero => simp; omega
        | succ i =>
          have := hcount i
          simp only [List.length_cons, Nat.add_lt_add_iff_right]
          rw [this, show m + 1 + i = m + (i + 1) by omega]
      · intro i w' hi
        cases i with
        | zero =>
          simp at hi; subst hi
          refine ⟨by simpa [offsets] using hwl, ?_⟩
          intro k hk
          have := hwg k (by simpa [offsets] using hk)
          simpa [offsets] using this
        | succ i =>
          simp at hi
          have := hget i w' hi
          rwa [show m + 1 + i = m + (i + 1) by omega] at this

/-- Everything about one trajectory's windows in one statement. -/
theorem windows_spec {β : Type*} (w : Win) (frames : List β) (hs : 0 < w.seqlen) (hst : 0 < w.stride) :
    ∃ ws, windows w frames = .ok ws ∧
      (∀ i, i < ws.length ↔ i * w.stride + (w.seqlen - 1) * (w.dilation + 1) < frames.length) ∧
      ∀ i win, ws[i]? = some win → win.length = w.seqlen ∧
        ∀ k < w.seqlen, win[k]? = frames[i * w.stride + k * (w.dilation + 1)]? := by
  have hr : pyRange frames.length w.stride =
      .ok ((List.range' 0 ((frames.length + w.stride - 1) / w.stride)).map (· * w.stride)) := by
    simp [pyRange, show w.stride ≠ 0 by omega, List.range_eq_range']
  have hend : ∀ i, 0 + (frames.length + w.stride - 1) / w.stride ≤ i →
      frames.length ≤ i * w.stride + (w.seqlen - 1) * (w.dilation + 1) := by
    intro i hi
    have h1 : (frames.length + w.stride - 1) < ((frames.length + w.stride - 1) / w.stride + 1) * w.stride := by
      have := Nat.div_add_mod (frames.length + w.stride - 1) w.stride
      have h2 := Nat.mod_lt (frames.length + w.stride - 1) hst
      rw [Nat.add_mul, Nat.mul_comm]; omega
    have h2 : ((frames.length + w.stride - 1) / w.stride) * w.stride ≤ i * w.stride :=
      Nat.mul_le_mul_right _ (by omega)
    rw [Nat.add_mul] at h1
    omega
  obtain ⟨ws, h1, h2, h3⟩ := windowLoop_spec frames w.seqlen w.dilation w.stride hs _ 0 hend
  refine ⟨ws, by simp only [windows, hr, h1], ?_, ?_⟩
  · intro i; simpa using h2 i
  · intro i win h; simpa using h3 i win h

/-- **C07**. Whenever window extraction succeeds on frames cut to `[start, end)` from the trajectory `all`, every window has
exactly `seqlen` frames, frame `k` of window `i` is the trajectory frame number `start + i*stride + k*(dilation+1)`, that
number lies in `[start, end)` and inside the trajectory (so indices are strictly increasing by `dilation+1`). -/
theorem window_frames {β : Type*} (w : Win) (all : List β) (stop : Nat) (hs : 0 < w.seqlen) (ws : List (List β))
    (hok : windows w (slice all w.start stop) = .ok ws) (i : Nat) (win : List β) (hi : ws[i]? = some win) :
    win.length = w.seqlen ∧ ∀ k < w.seqlen,
      let f := w.start + i * w.stride + k * (w.dilation + 1)
      w.start ≤ f ∧ f < stop ∧ f < all.length ∧ win[k]? = all[f]? := by
  by_cases hst : w.stride = 0
  · simp [windows, pyRange, hst] at hok
  obtain ⟨ws', h1, h2, h3⟩ := windows_spec w (slice all w.start stop) hs (by omega)
  rw [h1] at hok; cases hok
  obtain ⟨hl, hg⟩ := h3 i win hi
  refine ⟨hl, ?_⟩
  intro k hk
  have hlt : i < ws.length := by
    by_contra hc
    rw [List.getElem?_eq_none (by omega)] at hi; simp at hi
  have hb := (h2 i).1 hlt
  rw [slice_length] at hb
  have hk' : k * (w.dilation + 1) ≤ (w.seqlen - 1) * (w.dilation + 1) := Nat.mul_le_mul_right _ (by omega)
  refine ⟨by omega, by omega, by omega, ?_⟩
  rw [hg k hk, slice_getElem? _ _ _ _ (by omega), ← Nat.add_assoc]

/-- **C08 (a)**. Every window that fits is present and no other: window `i` exists exactly when its last frame
`i*stride + (seqlen-1)*(dilation+1)` is inside the trajectory.  Hence the count is the closed form in `window_count`. -/
theorem windows_all_fitting {β : Type*} (w : Win) (frames : List β) (hs : 0 < w.seqlen) (hst : 0 < w.stride) :
    ∃ ws, windows w frames = .ok ws ∧
      ∀ i, i < ws.length ↔ i * w.stride + (w.seqlen - 1) * (w.dilation + 1) < frames.length := by
  obtain ⟨ws, h1, h2, _⟩ := windows_spec w frames hs hst
  exact ⟨ws, h1, h2⟩

/-- **C08 (b)**. Closed form of the number of windows. -/
theorem window_count {β : Type*} (w : Win) (frames : List β) (hs : 0 < w.seqlen) (hst : 0 < w.stride) :
    ∃ ws, windows w frames = .ok ws ∧
      ws.length = (frames.length + w.stride - 1 - (w.seqlen - 1) * (w.dilation + 1)) / w.stride := by
  obtain ⟨ws, h1, h2⟩ := windows_all_fitting w frames hs hst
  refine ⟨ws, h1, ?_⟩
  apply le_antisymm
  · by_contra hc
    push Not at hc
    have h3 := (h2 ((frames.length + w.stride - 1 - (w.seqlen - 1) * (w.dilation + 1)) / w.stride)).1 hc
    generalize (w.seqlen - 1) * (w.dilation + 1) = s at *
    have h4 := Nat.div_add_mod (frames.length + w.stride - 1 - s) w.stride
    have h5 := Nat.mod_lt (frames.length + w.stride - 1 - s) hst
    rw [Nat.mul_comm] at h4
    omega
  · rw [Nat.div_le_iff_le_mul_add_pred hst]
    have h3 := (h2 ws.length).not.1 (lt_irrefl _)
    rw [Nat.mul_comm w.stride]
    omega

/-- **C08 (c)**. With the default stride (`stride=None`) two different windows have no frame in common. -/
theorem default_stride_disjoint {β : Type*} (a : WinArgs) (w : Win) (hv : validate a = .ok w) (hd : a.stride = none)
    (frames : List β) (hnd : frames.Nodup) (ws : List (List β)) (hok : windows w frames = .ok ws)
    (i j : Nat) (wi wj : List β) (hi : ws[i]? = some wi) (hj : ws[j]? = some wj) (hij : i ≠ j) : List.Disjoint wi wj := by
  have hstride : w.stride = w.seqlen * (w.dilation + 1) := by
    simp only [validate, hd, Option.getD_none] at hv
    split_ifs at hv with h1 h2 h3 h4
    have hx : (a.seqlen * (a.dilation.getD 0 + 1)).toNat = a.seqlen.toNat * ((a.dilation.getD 0).toNat + 1) := by
      obtain ⟨s, hs⟩ := Int.eq_ofNat_of_zero_le (not_lt.1 h1)
      obtain ⟨d, hd'⟩ := Int.eq_ofNat_of_zero_le (not_lt.1 h2)
      rw [hs, hd']
      norm_cast
    cases hstop : a.stop with
    | none => simp only [hstop, Except.ok.injEq] at hv; subst hv; exact hx
    | some e =>
      simp only [hstop] at hv
      split_ifs at hv
      simp only [Except.ok.injEq] at hv; subst hv; exact hx
  by_cases hs : w.seqlen = 0
  · rw [hs] at hstride; simp [windows, pyRange, hstride] at hok
  have hst : 0 < w.stride := by rw [hstride]; exact Nat.mul_pos (by omega) (by omega)
  obtain ⟨ws', h1, h2, h3⟩ := windows_spec w frames (by omega) hst
  rw [h1] at hok; cases hok
  obtain ⟨li, gi⟩ := h3 i wi hi
  obtain ⟨lj, gj⟩ := h3 j wj hj
  intro x hxi hxj
  obtain ⟨k, hk, rfl⟩ := List.getElem_of_mem hxi
  obtain ⟨l, hl, hxl⟩ := List.getElem_of_mem hxj
  have e1 := gi k (by omega)
  have e2 := gj l (by omega)
  rw [List.getElem?_eq_getElem hk] at e1
  rw [List.getElem?_eq_getElem hl, hxl] at e2
  have e3 : i * w.stride + k * (w.dilation + 1) = j * w.stride + l * (w.dilation + 1) := by
    have hlt : i * w.stride + k * (w.dilation + 1) < frames.length := by
      by_contra hc
      rw [List.getElem?_eq_none (by omega)] at e1; simp at e1
    exact (List.getElem?_inj hlt hnd).1 (e1.symm.trans e2)
  rw [hstride] at e3
  have e4 : (i * w.seqlen + k) * (w.dilation + 1) = (j * w.seqlen + l) * (w.dilation + 1) := by
    rw [Nat.add_mul, Nat.add_mul, Nat.mul_assoc, Nat.mul_assoc]; exact e3
  have e5 : i * w.seqlen + k = j * w.seqlen + l := Nat.eq_of_mul_eq_mul_right (by omega) e4
  apply hij
  have a1 : (i * w.seqlen + k) / w.seqlen = i := by
    rw [Nat.mul_comm, Nat.mul_add_div (by omega), Nat.div_eq_of_lt (by omega)]; simp
  have a2 : (j * w.seqlen + l) / w.seqlen = j := by
    rw [Nat.mul_comm, Nat.mul_add_div (by omega), Nat.div_eq_of_lt (by omega)]; simp
  rw [← a1, e5, a2]

/-- **C08 (d)**. Arguments outside their domain raise ValueError; all others are accepted with the defaults filled in. -/
theorem window_args_checked (a : WinArgs) :
    (∃ w, validate a = .ok w) ↔
      0 ≤ a.seqlen ∧ (∀ d, a.dilation = some d → 0 ≤ d) ∧ (∀ s, a.stride = some s → 0 ≤ s) ∧
      (∀ s, a.start = some s → 0 ≤ s) ∧ (∀ e, a.stop = some e → (a.start.getD 0) < e) := by
  rcases a with ⟨sl, dil, str, st, en⟩
  constructor
  · rintro ⟨w, h⟩
    simp only [validate] at h
    split_ifs at h with h1 h2 h3 h4
    refine ⟨not_lt.1 h1, ?_, ?_, ?_, ?_⟩
    · rintro d hd; simp only at hd; subst hd; simpa using h2
    · rintro s hs; simp only at hs; subst hs; simpa using h3
    · rintro s hs; simp only at hs; subst hs; simpa using h4
    · rintro e he; simp only at he; subst he
      simp only at h
      split_ifs at h with h5
      exact h5
  · rintro ⟨h1, h2, h3, h4, h5⟩
    simp only at h1 h2 h3 h4 h5
    have d0 : 0 ≤ dil.getD 0 := by cases dil <;> simp_all
    have s0 : 0 ≤ st.getD 0 := by cases st <;> simp_all
    have t0 : 0 ≤ str.getD (sl * (dil.getD 0 + 1)) := by
      cases str with
      | none => exact mul_nonneg h1 (by omega)
      | some s => simpa using h3
    simp only [validate, not_lt.2 h1, not_lt.2 d0, not_lt.2 s0, not_lt.2 t0, if_false]
    cases en with
    | none => exact ⟨_, rfl⟩
    | some e => simp [h5 e rfl]

theorem window_args_error_is_valueError (a : WinArgs) (e : Err) (h : validate a = .error e) : e = .valueError := by
  simp only [validate] at h
  split_ifs at h <;> try (cases h; rfl)
  revert h
  cases a.stop with
  | none => simp
  | some e => simp only; split_ifs <;> simp_all

/-- **C08 (e)**, what the checks let through: `stride = 0` passes validation and then always raises ValueError; `seqlen = 0`
with an explicit positive stride passes validation and raises IndexError on any non-empty trajectory. -/
theorem zero_stride_or_seqlen_raise {β : Type*} (w : Win) (frames : List β) :
    (w.stride = 0 → windows w frames = .error .valueError) ∧
    (w.stride ≠ 0 → w.seqlen = 0 → frames ≠ [] → windows w frames = .error .indexError) := by
  constructor
  · intro h; simp [windows, pyRange, h]
  · intro h h0 hf
    have hl : 0 < frames.length := List.length_pos_iff.2 hf
    have : 0 < (frames.length + w.stride - 1) / w.stride := Nat.div_pos (by omega) (by omega)
    obtain ⟨m, hm⟩ : ∃ m, (frames.length + w.stride - 1) / w.stride = m + 1 := ⟨_ - 1, (Nat.succ_pred_eq_of_pos this).symm⟩
    simp [windows, pyRange, h, hm, h0, offsets, List.range_succ_eq_map, windowLoop]

/-- The item list of the dataset is the concatenation, in order, of the windows of each trajectory. -/
theorem dataset_items {β : Type*} (w : Win) (trajs : List (List β)) (hs : 0 < w.seqlen) (hst : 0 < w.stride) :
    ∃ per : List (List (List β)), per.length = trajs.length ∧ allWindows w trajs = .ok per.flatten ∧
      ∀ (t : Nat) (ht : t < trajs.length) (hp : t < per.length), windows w trajs[t] = .ok per[t] := by
  induction trajs with
  | nil => exact ⟨[], rfl, rfl, by simp⟩
  | cons t ts ih =>
    obtain ⟨per, hl, ha, hg⟩ := ih
    obtain ⟨ws, h1, _⟩ := windows_spec w t hs hst
    refine ⟨ws :: per, by simp [hl], by simp [allWindows, h1, ha], ?_⟩
    intro i hi hp
    cases i with
    | zero => simpa using h1
    | succ i => simpa using hg i (by simpa using hi) (by simpa using hp)

/-- The example in the docstring of `TUM` (tum.py:44-58): seqlen=4, dilation=1, stride=3, start=2. -/
example : validate { seqlen := 4, dilation := some 1, stride := some 3, start := some 2 } = .ok ⟨4, 1, 3, 2, none⟩ ∧
    windows ⟨4, 1, 3, 2, none⟩ (slice (List.range 12) 2 12) = .ok [[2, 4, 6, 8], [5, 7, 9, 11]] := by decide
example : validate { seqlen := 3 } = .ok ⟨3, 0, 3, 0, none⟩ ∧
    windows ⟨3, 0, 3, 0, none⟩ (List.range 8) = .ok [[0, 1, 2], [3, 4, 5]] ∧ (List.range 8).Nodup := by decide

end Verif.Data
