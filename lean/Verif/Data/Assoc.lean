import Verif.Data.Window
import Mathlib.Algebra.Order.Field.Basic
import Mathlib.Algebra.Order.Ring.Abs
import Mathlib.Algebra.Order.Field.Rat
import Mathlib.Data.String.Basic
import Mathlib.Data.List.Sort
/-!
Model of `tumutils.associate` and `TUM._findAssociations`, and properties C09, C10 and C61.

A time stamp is a string, used as a dictionary key and compared lexicographically by `sort()`; `val` is Python's `float(·)`.
Stamps on which `float` raises are excluded.  Arithmetic is exact.
-/
namespace Verif.Data
set_option linter.unusedSectionVars false

variable {κ : Type*} [LinearOrder κ] {α : Type*} [Field α] [LinearOrder α] [IsStrictOrderedRing α]

/-- `abs(float(a) - (float(b) + offset))`, tumutils.py:202. -/
def stampDiff (val : κ → α) (offset : α) (a b : κ) : α := |val a - (val b + offset)|

/-- `potential_matches`, tumutils.py:201-207. -/
def candidates (val : κ → α) (offset maxDiff : α) (first second : List κ) : List (α × κ × κ) :=
  first.flatMap fun a => second.filterMap fun b =>
    if stampDiff val offset a b < maxDiff then some (stampDiff val offset a b, a, b) else none

/-- Python's tuple order on `(diff, a, b)`. -/
def tripleLe (x y : α × κ × κ) : Bool :=
  x.1 < y.1 || (x.1 = y.1 && (x.2.1 < y.2.1 || (x.2.1 = y.2.1 && x.2.2 ≤ y.2.2)))

/-- Python's tuple order on `(a, b)`. -/
def pairLe (x y : κ × κ) : Bool := x.1 < y.1 || (x.1 = y.1 && x.2 ≤ y.2)

/-- The greedy loop, tumutils.py:208-213; `list.remove` deletes the first occurrence. -/
def greedy : List (α × κ × κ) → List κ → List κ → List (κ × κ)
  | [], _, _ => []
  | (_, a, b) :: r, f, s =>
    if a ∈ f ∧ b ∈ s then (a, b) :: greedy r (f.erase a) (s.erase b) else greedy r f s

/-- `associate`, tumutils.py:182-216; `first`, `second` are the key lists of the two dictionaries. -/
def associate (val : κ → α) (offset maxDiff : α) (first second : List κ) : List (κ × κ) :=
  (greedy ((candidates val offset maxDiff first second).mergeSort tripleLe) first second).mergeSort pairLe

/-- Dictionary look-up in a list of pairs with distinct keys. -/
def lookup? {δ : Type*} (d : List (κ × δ)) (k : κ) : Option δ := (d.find? (·.1 = k)).map (·.2)

/-- `TUM._findAssociations` with a pose file, tum.py:542-554: associate rgb with depth, then the matched depth stamps with the
poses, and put the rgb stamp back through `matches_dict`.  A missing key would be a KeyError. -/
def findAssociations {κ : Type} [LinearOrder κ] (val : κ → α) (maxDiff : α) (rgb depth poses : List κ) : Except Err (List (κ × κ × κ)) :=
  let matchesDict := (associate val 0 maxDiff rgb depth).map fun m => (m.2, m.1)
  let second := associate val 0 maxDiff (matchesDict.map (·.1)) poses
  second.mapM fun m => match lookup? matchesDict m.1 with
    | none => .error .keyError
    | some r => .ok (r, m.1, m.2)

/-! ### Lemmas -/

theorem mem_candidates (val : κ → α) (offset maxDiff : α) (first second : List κ) (d : α) (a b : κ) :
    (d, a, b) ∈ candidates val offset maxDiff first second ↔
      a ∈ first ∧ b ∈ second ∧ d = stampDiff val offset a b ∧ d < maxDiff := by
  simp only [candidates, List.mem_flatMap, List.mem_filterMap]
  constructor
  · rintro ⟨a', ha, b', hb, h⟩
    split_ifs at h with hd
    simp only [Option.some.injEq, Prod.mk.injEq] at h
    obtain ⟨rfl, rfl, rfl⟩ := h
    exact ⟨ha, hb, rfl, hd⟩
  · rintro ⟨ha, hb, rfl, hd⟩
    exact ⟨a, ha, b, hb, by simp [hd]⟩

theorem tripleLe_trans (x y z : α × κ × κ) : tripleLe x y → tripleLe y z → tripleLe x z := by
  simp only [tripleLe, Bool.or_eq_true, Bool.and_eq_true, decide_eq_true_eq]
  rintro (h | ⟨h, h' | ⟨h', h''⟩⟩) (k | ⟨k, k' | ⟨k', k''⟩⟩)
  · exact .inl (h.trans k)
  · exact .inl (k ▸ h)
  · exact .inl (k ▸ h)
  · exact .inl (h ▸ k)
  · exact .inr ⟨h.trans k, .inl (h'.trans k')⟩
  · exact .inr ⟨h.trans k, .inl (k' ▸ h')⟩
  · exact .inl (h ▸ k)
  · exact .inr ⟨h.trans k, .inl (h' ▸ k')⟩
  · exact .inr ⟨h.trans k, .inr ⟨h'.trans k', h''.trans k''⟩⟩

theorem tripleLe_total (x y : α × κ × κ) : (tripleLe x y || tripleLe y x) = true := by
  simp only [tripleLe, Bool.or_eq_true, Bool.and_eq_true, decide_eq_true_eq]
  rcases lt_trichotomy x.1 y.1 with h | h | h
  · exact .inl (.inl h)
  · rcases lt_trichotomy x.2.1 y.2.1 with k | k | k
    · exact .inl (.inr ⟨h, .inl k⟩)
    · rcases le_total x.2.2 y.2.2 with l | l
      · exact .inl (.inr ⟨h, .inr ⟨k, l⟩⟩)
      · exact .inr (.inr ⟨h.symm, .inr ⟨k.symm, l⟩⟩)
    · exact .inr (.inr ⟨h.symm, .inl k⟩)
  · exact .inr (.inl h)

theorem pairLe_trans (x y z : κ × κ) : pairLe x y → pairLe y z → pairLe x z := by
  simp only [pairLe, Bool.or_eq_true, Bool.and_eq_true, decide_eq_true_eq]
  rintro (h' | ⟨h', h''⟩) (k' | ⟨k', k''⟩)
  · exact .inl (h'.trans k')
  · exact .inl (k' ▸ h')
  · exact .inl (h' ▸ k')
  · exact .inr ⟨h'.trans k', h''.trans k''⟩

theorem pairLe_total (x y : κ × κ) : (pairLe x y || pairLe y x) = true := by
  simp only [pairLe, Bool.or_eq_true, Bool.and_eq_true, decide_eq_true_eq]
  rcases lt_trichotomy x.1 y.1 with k | k | k
  · exact .inl (.inl k)
  · rcases le_total x.2 y.2 with l | l
    · exact .inl (.inr ⟨k, l⟩)
    · exact .inr (.inr ⟨k.symm, l⟩)
  · exact .inr (.inl k)

theorem tripleLe_refl (x : α × κ × κ) : tripleLe x x = true := by simp [tripleLe]

theorem greedy_mem (P : List (α × κ × κ)) : ∀ (f s : List κ) (a b : κ), (a, b) ∈ greedy P f s →
    a ∈ f ∧ b ∈ s ∧ ∃ d, (d, a, b) ∈ P := by
  induction P with
  | nil => simp [greedy]
  | cons t r ih =>
    obtain ⟨d, a', b'⟩ := t
    intro f s a b h
    simp only [greedy] at h
    split_ifs at h with hc
    · rcases List.mem_cons.1 h with h | h
      · simp only [Prod.mk.injEq] at h
        obtain ⟨rfl, rfl⟩ := h
        exact ⟨hc.1, hc.2, d, by simp⟩
      · obtain ⟨h1, h2, d', h3⟩ := ih _ _ _ _ h
        exact ⟨List.mem_of_mem_erase h1, List.mem_of_mem_erase h2, d', by simp [h3]⟩
    · obtain ⟨h1, h2, d', h3⟩ := ih _ _ _ _ h
      exact ⟨h1, h2, d', by simp [h3]⟩

theorem greedy_nodup (P : List (α × κ × κ)) : ∀ (f s : List κ), f.Nodup → s.Nodup →
    ((greedy P f s).map (·.1)).Nodup ∧ ((greedy P f s).map (·.2)).Nodup := by
  induction P with
  | nil => simp [greedy]
  | cons t r ih =>
    obtain ⟨d, a', b'⟩ := t
    intro f s hf hs
    simp only [greedy]
    split_ifs with hc
    · obtain ⟨h1, h2⟩ := ih (f.erase a') (s.erase b') (hf.erase _) (hs.erase _)
      simp only [List.map_cons, List.nodup_cons]
      refine ⟨⟨?_, h1⟩, ⟨?_, h2⟩⟩
      · intro hm
        obtain ⟨⟨x, y⟩, hxy, rfl⟩ := List.mem_map.1 hm
        have := (greedy_mem r _ _ _ _ hxy).1
        exact (List.Nodup.not_mem_erase hf) this
      · intro hm
        obtain ⟨⟨x, y⟩, hxy, rfl⟩ := List.mem_map.1 hm
        have := (greedy_mem r _ _ _ _ hxy).2.1
        exact (List.Nodup.not_mem_erase hs) this
    · exact ih f s hf hs

theorem greedy_blocking (P : List (α × κ × κ)) : ∀ (f s : List κ), P.Pairwise (fun x y => tripleLe x y = true) →
    ∀ d a b, (d, a, b) ∈ P → a ∈ f → b ∈ s →
    ∃ d' a' b', (a', b') ∈ greedy P f s ∧ (d', a', b') ∈ P ∧ (a' = a ∨ b' = b) ∧
      tripleLe (d', a', b') (d, a, b) = true := by
  induction P with
  | nil => simp
  | cons t r ih =>
    obtain ⟨d0, a0, b0⟩ := t
    intro f s hp d a b hm ha hb
    rw [List.pairwise_cons] at hp
    simp only [greedy]
    by_cases hc : a0 ∈ f ∧ b0 ∈ s
    · simp only [hc, and_self, if_true]
      by_cases hab : a0 = a ∨ b0 = b
      · refine ⟨d0, a0, b0, by simp, by simp, hab, ?_⟩
        rcases List.mem_cons.1 hm with h | h
        · rw [h]; exact tripleLe_refl _
        · exact hp.1 _ h
      · push Not at hab
        rcases List.mem_cons.1 hm with h | h
        · simp only [Prod.mk.injEq] at h; exact absurd h.2.1.symm hab.1
        · obtain ⟨d', a', b', h1, h2, h3, h4⟩ := ih (f.erase a0) (s.erase b0) hp.2 d a b h
            ((List.mem_erase_of_ne hab.1.symm).2 ha) ((List.mem_erase_of_ne hab.2.symm).2 hb)
          exact ⟨d', a', b', by simp [h1], by simp [h2], h3, h4⟩
    · simp only [hc, if_false]
      rcases List.mem_cons.1 hm with h | h
      · simp only [Prod.mk.injEq] at h
        obtain ⟨_, rfl, rfl⟩ := h
        exact absurd ⟨ha, hb⟩ hc
      · obtain ⟨d', a', b', h1, h2, h3, h4⟩ := ih f s hp.2 d a b h ha hb
        exact ⟨d', a', b', h1, by simp [h2], h3, h4⟩

/-! ### Properties -/

/-- **C09**. The pairs returned by `associate` consist of a stamp of the first and a stamp of the second file within
`max_difference`, and no stamp of either file is used twice. -/
theorem associate_one_to_one (val : κ → α) (offset maxDiff : α) (first second : List κ)
    (hf : first.Nodup) (hs : second.Nodup) :
    (∀ a b, (a, b) ∈ associate val offset maxDiff first second →
      a ∈ first ∧ b ∈ second ∧ |val a - (val b + offset)| < maxDiff) ∧
    ((associate val offset maxDiff first second).map (·.1)).Nodup ∧
    ((associate val offset maxDiff first second).map (·.2)).Nodup := by
  have hperm := List.mergeSort_perm
    (greedy ((candidates val offset maxDiff first second).mergeSort tripleLe) first second) pairLe
  obtain ⟨n1, n2⟩ := greedy_nodup ((candidates val offset maxDiff first second).mergeSort tripleLe) first second hf hs
  refine ⟨?_, ?_, ?_⟩
  · intro a b h
    rw [associate, hperm.mem_iff] at h
    obtain ⟨h1, h2, d, h3⟩ := greedy_mem _ _ _ _ _ h
    rw [(List.mergeSort_perm _ _).mem_iff, mem_candidates] at h3
    obtain ⟨_, _, rfl, h4⟩ := h3
    exact ⟨h1, h2, h4⟩
  · exact ((hperm.map _).nodup_iff).2 n1
  · exact ((hperm.map _).nodup_iff).2 n2

/-- **C10 (a)**. Greedy by time difference: every admissible pair is either matched or blocked by a matched pair that shares a
stamp with it and is at most as far apart (with equal distance, it comes first in stamp order).  In particular the matching
is maximal: no admissible pair of two unused stamps remains. -/
theorem associate_greedy (val : κ → α) (offset maxDiff : α) (first second : List κ) (a b : κ) (ha : a ∈ first)
    (hb : b ∈ second) (hd : |val a - (val b + offset)| < maxDiff) :
    ∃ a' b', (a', b') ∈ associate val offset maxDiff first second ∧ (a' = a ∨ b' = b) ∧
      |val a' - (val b' + offset)| ≤ |val a - (val b + offset)| ∧
      (|val a' - (val b' + offset)| = |val a - (val b + offset)| → a' < a ∨ (a' = a ∧ b' ≤ b)) := by
  have hperm := List.mergeSort_perm
    (greedy ((candidates val offset maxDiff first second).mergeSort tripleLe) first second) pairLe
  have hsorted : ((candidates val offset maxDiff first second).mergeSort tripleLe).Pairwise
      (fun x y => tripleLe x y = true) := List.pairwise_mergeSort tripleLe_trans tripleLe_total _
  have hm : (stampDiff val offset a b, a, b) ∈ (candidates val offset maxDiff first second).mergeSort tripleLe := by
    rw [(List.mergeSort_perm _ _).mem_iff, mem_candidates]
    exact ⟨ha, hb, rfl, hd⟩
  obtain ⟨d', a', b', h1, h2, h3, h4⟩ := greedy_blocking _ first second hsorted _ a b hm ha hb
  rw [(List.mergeSort_perm _ _).mem_iff, mem_candidates] at h2
  obtain ⟨_, _, rfl, _⟩ := h2
  refine ⟨a', b', by rw [associate, hperm.mem_iff]; exact h1, h3, ?_, ?_⟩
  · simp only [tripleLe, Bool.or_eq_true, Bool.and_eq_true, decide_eq_true_eq] at h4
    simp only [stampDiff] at h4
    rcases h4 with h | ⟨h, _⟩
    · exact h.le
    · exact h.le
  · intro he
    simp only [tripleLe, Bool.or_eq_true, Bool.and_eq_true, decide_eq_true_eq] at h4
    simp only [stampDiff] at h4
    rcases h4 with h | ⟨_, h⟩
    · exact absurd he h.ne
    · exact h

/-- **C10 (b)**. Maximality, stated directly. -/
theorem associate_maximal (val : κ → α) (offset maxDiff : α) (first second : List κ) (a b : κ) (ha : a ∈ first)
    (hb : b ∈ second) (hd : |val a - (val b + offset)| < maxDiff) :
    a ∈ (associate val offset maxDiff first second).map (·.1) ∨
    b ∈ (associate val offset maxDiff first second).map (·.2) := by
  obtain ⟨a', b', h1, h2, _⟩ := associate_greedy val offset maxDiff first second a b ha hb hd
  rcases h2 with rfl | rfl
  · exact .inl (List.mem_map.2 ⟨_, h1, rfl⟩)
  · exact .inr (List.mem_map.2 ⟨_, h1, rfl⟩)

/-- **C10 (c)**. The result is sorted by (first, second) stamp *as strings*; when string order agrees with time order on the
first file, frames come out in temporal order. -/
theorem associate_sorted_partial (val : κ → α) (offset maxDiff : α) (first second : List κ)
    (hf : first.Nodup) (hs : second.Nodup)
    (hmono : ∀ a ∈ first, ∀ b ∈ first, a < b → val a < val b) :
    ((associate val offset maxDiff first second).map (·.1)).Pairwise (· < ·) ∧
    ((associate val offset maxDiff first second).map fun m => val m.1).Pairwise (· < ·) := by
  obtain ⟨hmem, hnd, _⟩ := associate_one_to_one val offset maxDiff first second hf hs
  have hsorted : (associate val offset maxDiff first second).Pairwise (fun x y => pairLe x y = true) :=
    List.pairwise_mergeSort pairLe_trans pairLe_total _
  have h1 : (associate val offset maxDiff first second).Pairwise (fun x y => x.1 < y.1) := by
    rw [List.Nodup, List.pairwise_map] at hnd
    refine (hsorted.and hnd).imp ?_
    rintro x y ⟨hle, hne⟩
    simp only [pairLe, Bool.or_eq_true, Bool.and_eq_true, decide_eq_true_eq] at hle
    rcases hle with h | ⟨h, _⟩
    · exact h
    · exact absurd h hne
  refine ⟨List.pairwise_map.2 h1, ?_⟩
  rw [List.pairwise_map]
  refine h1.imp_of_mem ?_
  intro x y hx hy hxy
  exact hmono _ (hmem x.1 x.2 hx).1 _ (hmem y.1 y.2 hy).1 hxy

/-- **C10, the part that fails**: the sort is lexicographic on the stamp strings, so stamps whose integer parts have different
numbers of digits are returned out of temporal order (here `val` is the numeric value of the three strings). -/
theorem associate_not_temporal :
    ∃ (val : String → ℚ) (first second : List String), val "9.5" = 19/2 ∧ val "10.5" = 21/2 ∧
      first = ["9.5", "10.5"] ∧ second = ["9.5", "10.5"] ∧
      associate val 0 (1/50) first second = [("10.5", "10.5"), ("9.5", "9.5")] := by
  refine ⟨fun s => if s = "9.5" then 19/2 else 21/2, ["9.5", "10.5"], ["9.5", "10.5"], by simp, by simp, rfl, rfl, ?_⟩
  have e : ¬ ("10.5" = "9.5") := by decide
  have lt1 : ("10.5" : String) < "9.5" := by decide
  have nlt : ¬ ("9.5" : String) < "10.5" := not_lt.2 lt1.le
  have hc : candidates (fun s : String => if s = "9.5" then (19/2 : ℚ) else 21/2) 0 (1/50)
      ["9.5", "10.5"] ["9.5", "10.5"] = [(0, "9.5", "9.5"), (0, "10.5", "10.5")] := by
    have a1 : |(19/2 : ℚ) - 21/2| = 1 := by norm_num
    have a2 : |(21/2 : ℚ) - 19/2| = 1 := by norm_num
    simp only [candidates, stampDiff, List.flatMap_cons, List.flatMap_nil, List.filterMap_cons, List.filterMap_nil, e,
      if_true, if_false, add_zero, sub_self, abs_zero, a1, a2]
    norm_num
  rw [associate, hc]
  simp [List.mergeSort, List.MergeSort.Internal.splitInTwo, tripleLe, pairLe, greedy, nlt, lt1]

example : (["9.5", "10.5"] : List String).Nodup := by decide
example : ∃ a ∈ (["a"] : List String), ∃ b ∈ (["b"] : List String),
    |(fun _ => (1:ℚ)) a - ((fun _ => (1:ℚ)) b + 0)| < 1/50 := ⟨"a", by simp, "b", by simp, by norm_num⟩
example : (["1.0", "2.0"] : List String).Nodup ∧ ∀ a ∈ (["1.0", "2.0"] : List String), ∀ b ∈ (["1.0", "2.0"] : List String),
    a < b → (if a = "1.0" then (1:ℚ) else 2) < (if b = "1.0" then (1:ℚ) else 2) := by
  have nlt : ¬ ("2.0" : String) < "1.0" := not_lt.2 (show ("1.0" : String) < "2.0" by decide).le
  refine ⟨by decide, ?_⟩
  intro a ha b hb h
  simp only [List.mem_cons, List.not_mem_nil, or_false] at ha hb
  rcases ha with rfl | rfl <;> rcases hb with rfl | rfl
  · exact absurd h (lt_irrefl _)
  · have e : ¬ ("2.0" : String) = "1.0" := by decide
    simp only [e, if_true, if_false]; norm_num
  · exact absurd h nlt
  · exact absurd h (lt_irrefl _)

theorem lookup?_of_mem {δ : Type*} (d : List (κ × δ)) (h : (d.map (·.1)).Nodup) (k : κ) (v : δ) (hm : (k, v) ∈ d) :
    lookup? d k = some v := by
  induction d with
  | nil => simp at hm
  | cons p d ih =>
    simp only [List.map_cons, List.nodup_cons] at h
    by_cases hk : p.1 = k
    · rcases List.mem_cons.1 hm with rfl | hm
      · simp [lookup?]
      · exact absurd (List.mem_map.2 ⟨_, hm, rfl⟩) (hk ▸ h.1)
    · rcases List.mem_cons.1 hm with rfl | hm
      · exact absurd rfl hk
      · have := ih h.2 hm
        simpa [lookup?, List.find?_cons, hk] using this

theorem mapM_ok {δ ε : Type} (g : δ → Except Err ε) (l : List δ) (h : ∀ x ∈ l, ∃ y, g x = .ok y) :
    ∃ ys, l.mapM g = .ok ys ∧ List.Forall₂ (fun x y => g x = .ok y) l ys := by
  induction l with
  | nil => exact ⟨[], rfl, .nil⟩
  | cons x l ih =>
    obtain ⟨y, hy⟩ := h x (by simp)
    obtain ⟨ys, hys, hf⟩ := ih (fun z hz => h z (by simp [hz]))
    refine ⟨y :: ys, ?_, .cons hy hf⟩
    simp [List.mapM_cons, hy, hys]; rfl

/-- **C61**. `TUM._findAssociations` never fails on the dictionaries it builds, and every returned frame is an rgb stamp, a
depth stamp and a pose stamp with rgb–depth and depth–pose differences below `max_difference` (so rgb and pose are less than
twice that apart); no rgb image, depth image or pose is used in two frames. -/
theorem find_associations_spec {κ : Type} [LinearOrder κ] (val : κ → α) (maxDiff : α) (rgb depth poses : List κ)
    (hr : rgb.Nodup) (hd : depth.Nodup) (hp : poses.Nodup) :
    ∃ fs, findAssociations val maxDiff rgb depth poses = .ok fs ∧
      (∀ r d p, (r, d, p) ∈ fs → r ∈ rgb ∧ d ∈ depth ∧ p ∈ poses ∧
        |val r - val d| < maxDiff ∧ |val d - val p| < maxDiff ∧ |val r - val p| < 2 * maxDiff) ∧
      (fs.map (·.1)).Nodup ∧ (fs.map (·.2.1)).Nodup ∧ (fs.map (·.2.2)).Nodup := by
  obtain ⟨m1, n1, n1'⟩ := associate_one_to_one val 0 maxDiff rgb depth hr hd
  set A := associate val 0 maxDiff rgb depth with hA
  have hkeys : ((A.map fun m => (m.2, m.1)).map (·.1)) = A.map (·.2) := by simp [List.map_map, Function.comp_def]
  have hkn : ((A.map fun m => (m.2, m.1)).map (·.1)).Nodup := by rw [hkeys]; exact n1'
  obtain ⟨m2, n2, n2'⟩ := associate_one_to_one val 0 maxDiff ((A.map fun m => (m.2, m.1)).map (·.1)) poses hkn hp
  set B := associate val 0 maxDiff ((A.map fun m => (m.2, m.1)).map (·.1)) poses with hB
  have hlook : ∀ x ∈ B, ∃ r, (r, x.1) ∈ A ∧ lookup? (A.map fun m => (m.2, m.1)) x.1 = some r := by
    intro x hx
    have h1 := (m2 x.1 x.2 hx).1
    rw [hkeys] at h1
    obtain ⟨⟨r, d⟩, hrd, hxd⟩ := List.mem_map.1 h1
    simp only at hxd
    refine ⟨r, hxd ▸ hrd, ?_⟩
    apply lookup?_of_mem _ hkn
    exact List.mem_map.2 ⟨(r, d), hrd, by simp [hxd]⟩
  obtain ⟨fs, hfs, hall⟩ := mapM_ok (fun m : κ × κ => match lookup? (A.map fun m => (m.2, m.1)) m.1 with
    | none => .error .keyError
    | some r => .ok (r, m.1, m.2)) B (by
      intro x hx
      obtain ⟨r, _, h2⟩ := hlook x hx
      exact ⟨(r, x.1, x.2), by simp [h2]⟩)
  -- each output triple comes from the input pair at the same position
  have hsnd : fs.map (·.2) = B := by
    have : ∀ {l : List (κ × κ)} {l' : List (κ × κ × κ)}, List.Forall₂ (fun m y =>
        (match lookup? (A.map fun m => (m.2, m.1)) m.1 with
          | none => (Except.error Err.keyError : Except Err (κ × κ × κ))
          | some r => .ok (r, m.1, m.2)) = .ok y) l l' → l'.map (·.2) = l := by
     intro l l' h
     induction h with
     | nil => rfl
     | @cons x y l l' hxy _ ih =>
      simp only [List.map_cons, ih]
      congr 1
      revert hxy
      cases lookup? (A.map fun m => (m.2, m.1)) x.1 with
      | none => simp
      | some r => simp only [Except.ok.injEq]; rintro rfl; rfl
    exact this hall
  have hfst : ∀ y ∈ fs, (y.1, y.2.1) ∈ A := by
    have : ∀ {l : List (κ × κ)} {l' : List (κ × κ × κ)}, List.Forall₂ (fun m y =>
        (match lookup? (A.map fun m => (m.2, m.1)) m.1 with
          | none => (Except.error Err.keyError : Except Err (κ × κ × κ))
          | some r => .ok (r, m.1, m.2)) = .ok y) l l' → (∀ x ∈ l, x ∈ B) → ∀ y ∈ l', (y.1, y.2.1) ∈ A := by
      intro l l' h
      induction h with
      | nil => simp
      | @cons x y l l' hxy _ ih =>
        intro hsub z hz
        rcases List.mem_cons.1 hz with rfl | hz
        · obtain ⟨r, h1, h2⟩ := hlook x (hsub x (by simp))
          simp only [h2, Except.ok.injEq] at hxy
          subst hxy; exact h1
        · exact ih (fun x hx => hsub x (by simp [hx])) z hz
    exact this hall (fun x hx => hx)
  refine ⟨fs, hfs, ?_, ?_, ?_, ?_⟩
  · intro r d p h
    have h1 := hfst _ h
    have h2 : (d, p) ∈ B := by rw [← hsnd]; exact List.mem_map.2 ⟨_, h, rfl⟩
    obtain ⟨a1, a2, a3⟩ := m1 r d h1
    obtain ⟨_, b2, b3⟩ := m2 d p h2
    rw [add_zero] at a3 b3
    refine ⟨a1, a2, b2, a3, b3, ?_⟩
    rw [abs_lt] at *
    constructor <;> linarith [a3.1, a3.2, b3.1, b3.2]
  · -- rgb stamps: distinct because distinct depth stamps have distinct partners
    have hd1 : (fs.map (·.2.1)).Nodup := by
      have : fs.map (·.2.1) = (fs.map (·.2)).map (·.1) := by simp [List.map_map, Function.comp_def]
      rw [this, hsnd]; exact n2
    rw [List.Nodup, List.pairwise_map] at hd1 ⊢
    refine hd1.imp_of_mem ?_
    intro x y hx hy hne heq
    apply hne
    have e1 := hfst x hx
    have e2 := hfst y hy
    rw [← heq] at e2
    have := List.inj_on_of_nodup_map n1 e1 e2 rfl
    simpa using this
  · have : fs.map (·.2.1) = (fs.map (·.2)).map (·.1) := by simp [List.map_map, Function.comp_def]
    rw [this, hsnd]; exact n2
  · have : fs.map (·.2.2) = (fs.map (·.2)).map (·.2) := by simp [List.map_map, Function.comp_def]
    rw [this, hsnd]; exact n2'

end Verif.Data
