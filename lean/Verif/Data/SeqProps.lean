import Verif.Data.Files
import Mathlib.Tactic.IntervalCases
/-! Properties C11 (ICL poses) and C12 (Scannet scenes). -/
namespace Verif.Data
set_option linter.unusedSimpArgs false

/-! ### C11 -/

theorem iclPoseLines_spec {β : Type*} (n : Nat) : ∀ (xs : List β) (k : Nat) (r : List (β × Nat)),
    iclPoseLines n k xs = .ok r → r = (List.range xs.length).zipWith (fun j x => (x, (k + j) * 4)) xs
  | [], k, r, h => by simp [iclPoseLines] at h; simp [h]
  | x :: xs, k, r, h => by
    simp only [iclPoseLines] at h
    split_ifs at h with h1
    cases h2 : iclPoseLines n (k + 1) xs with
    | error e => simp [h2] at h
    | ok r' =>
      simp only [h2, Except.ok.injEq] at h
      have := iclPoseLines_spec n xs (k + 1) r' h2
      rw [← h, this, List.length_cons, List.range_succ_eq_map, List.zipWith_cons_cons, List.zipWith_map_left]
      simp [Nat.add_assoc, Nat.add_comm 1]

/-- What the frame list handed to the windowing contains. -/
theorem iclPoseLines_get {β : Type*} (n : Nat) (xs : List β) (r : List (β × Nat)) (h : iclPoseLines n 0 xs = .ok r) :
    r.length = xs.length ∧ ∀ j, r[j]? = xs[j]?.map fun x => (x, j * 4) := by
  have := iclPoseLines_spec n xs 0 r h
  subst this
  refine ⟨by simp, ?_⟩
  intro j
  by_cases hj : j < xs.length
  · simp [List.getElem?_zipWith, hj]
  · simp [List.getElem?_zipWith, hj, List.getElem?_eq_none (not_lt.1 hj)]

/-- Specification: the `k`-th pose block of a pose file, lines `4k, 4k+1, 4k+2` with the bottom row added. -/
def poseBlock {τ : Type*} (bottom : List τ) (file : List (List τ)) (k : Nat) : List (List τ) :=
  [file.getD (4 * k) [], file.getD (4 * k + 1) [], file.getD (4 * k + 2) [], bottom]

/-- Specification: block `k` is complete and has four columns per line. -/
def BlockOk {τ : Type*} (file : List (List τ)) (k : Nat) : Prop :=
  ∀ j < 3, ∃ l, file[4 * k + j]? = some l ∧ l.length = 4

theorem loadPosesLoop_spec {τ : Type*} (bottom : List τ) (file : List (List τ)) (S : List Nat) :
    ∀ (m i : Nat) (ks : List Nat), file.length - i ≤ m → ks.Pairwise (· < ·) → (∀ k ∈ ks, BlockOk file k) →
    (∀ k ∈ ks, i ≤ 4 * k) → (∀ j, i ≤ j → (j ∈ S ↔ ∃ k ∈ ks, j = 4 * k)) →
    loadPosesLoop bottom S i [] false (file.drop i) = .ok (ks.map (poseBlock bottom file)) := by
  intro m
  induction m using Nat.strong_induction_on with
  | _ m IH =>
  intro i ks hm hs hok hge hS
  by_cases hi : file.length ≤ i
  · rw [List.drop_eq_nil_of_le hi]
    cases ks with
    | nil => rfl
    | cons k ks =>
      obtain ⟨l, hl, _⟩ := hok k (by simp) 0 (by omega)
      have h2 := hge k (by simp)
      rw [List.getElem?_eq_none (by omega)] at hl; simp at hl
  push Not at hi
  rw [List.drop_eq_getElem_cons hi, loadPosesLoop]
  by_cases hiS : i ∈ S
  · -- a block starts here
    obtain ⟨k, hk, hik⟩ := (hS i le_rfl).1 hiS
    obtain ⟨ks', rfl⟩ : ∃ ks', ks = k :: ks' := by
      cases ks with
      | nil => simp at hk
      | cons k0 ks' =>
        refine ⟨ks', ?_⟩
        rcases List.mem_cons.1 hk with rfl | hk'
        · rfl
        · have h1 := (List.pairwise_cons.1 hs).1 k hk'
          have h2 := hge k0 (by simp)
          omega
    obtain ⟨l0, e0, c0⟩ := hok k (by simp) 0 (by omega)
    obtain ⟨l1, e1, c1⟩ := hok k (by simp) 1 (by omega)
    obtain ⟨l2, e2, c2⟩ := hok k (by simp) 2 (by omega)
    rw [Nat.add_zero, ← hik] at e0
    rw [← hik] at e1 e2
    obtain ⟨b0, e0⟩ := List.getElem?_eq_some_iff.1 e0
    obtain ⟨b1, e1⟩ := List.getElem?_eq_some_iff.1 e1
    obtain ⟨b2, e2⟩ := List.getElem?_eq_some_iff.1 e2
    have ih := IH (file.length - (i + 3)) (by omega) (i + 3) ks' le_rfl (List.pairwise_cons.1 hs).2
      (fun k' h' => hok k' (by simp [h']))
      (fun k' h' => by have := (List.pairwise_cons.1 hs).1 k' h'; omega)
      (fun j hj => by
        rw [hS j (by omega)]
        constructor
        · rintro ⟨k', hk', rfl⟩
          rcases List.mem_cons.1 hk' with rfl | h
          · omega
          · exact ⟨k', h, rfl⟩
        · rintro ⟨k', hk', rfl⟩; exact ⟨k', by simp [hk'], rfl⟩)
    have hd : file.drop (i + 1) = l1 :: l2 :: file.drop (i + 3) := by
      rw [List.drop_eq_getElem_cons b1, e1, List.drop_eq_getElem_cons b2, e2]
    have ih' : loadPosesLoop bottom S (i + 1 + 1 + 1) [] false (file.drop (i + 3)) = _ := ih
    rw [e0, hd]
    simp only [loadPosesLoop, hiS, not_true_eq_false, false_and, if_false, c0, c1, c2, ne_eq, List.nil_append,
      List.length_cons, List.length_nil, List.cons_append, Bool.true_eq_false, and_false, Nat.reduceAdd, if_true,
      Nat.reduceEqDiff, ih']
    simp only [List.map_cons, poseBlock, ← hik, List.getD_eq_getElem?_getD, List.getElem?_eq_getElem b0,
      List.getElem?_eq_getElem b1, List.getElem?_eq_getElem b2, e0, e1, e2, Option.getD_some]
  · simp only [hiS, not_false_eq_true, and_self, if_true]
    exact IH (file.length - (i + 1)) (by omega) (i + 1) ks le_rfl hs hok
      (fun k hk => by
        have h1 := hge k hk
        have : i ≠ 4 * k := by rintro rfl; exact hiS ((hS _ le_rfl).2 ⟨k, hk, rfl⟩)
        omega)
      (fun j hj => hS j (by omega))

/-- `_loadPoses` with start lines `4k₁ < 4k₂ < …` of complete blocks returns exactly those blocks in that order. -/
theorem loadPoses_spec {τ : Type*} (bottom : List τ) (file : List (List τ)) (ks : List Nat) (hs : ks.Pairwise (· < ·))
    (hok : ∀ k ∈ ks, BlockOk file k) :
    loadPoses bottom file (ks.map (· * 4)) = .ok (ks.map (poseBlock bottom file)) := by
  have := loadPosesLoop_spec bottom file (ks.map (· * 4)) file.length 0 ks (by simp) hs hok (by simp)
    (fun j _ => by
      simp only [List.mem_map]
      constructor
      · rintro ⟨k, hk, rfl⟩; exact ⟨k, hk, by omega⟩
      · rintro ⟨k, hk, rfl⟩; exact ⟨k, hk, by omega⟩)
  simpa [loadPoses] using this

/-- **What the ICL dataset returns**, for every start/end/stride/dilation: frame `k` of item `i` is the association line number
`f = start + i*stride + k*(dilation+1)`, and the pose returned with it is pose block number `f - start`. -/
theorem icl_item_poses {β : Type*} (w : Win) (hs : 0 < w.seqlen) (isTraj0 : Bool) (lines : List β)
    {τ : Type*} (bottom : List τ) (file : List (List τ)) (items : List (List (β × Nat)))
    (hok : iclItems w isTraj0 file.length lines = .ok items) (hblocks : ∀ k, k < lines.length → BlockOk file k)
    (i : Nat) (item : List (β × Nat)) (hi : items[i]? = some item) :
    item.length = w.seqlen ∧
    (∀ k < w.seqlen, (item.map (·.1))[k]? = lines[w.start + i * w.stride + k * (w.dilation + 1)]?) ∧
    loadPoses bottom file (item.map (·.2)) =
      .ok ((List.range w.seqlen).map fun k => poseBlock bottom file (i * w.stride + k * (w.dilation + 1))) := by
  simp only [iclItems] at hok
  cases hp : iclPoseLines file.length 0 (iclLines isTraj0 w.start w.stop lines) with
  | error e => simp [hp] at hok
  | ok fs =>
    simp only [hp] at hok
    obtain ⟨hl, hg⟩ := iclPoseLines_get _ _ _ hp
    by_cases hst : w.stride = 0
    · simp [windows, pyRange, hst] at hok
    obtain ⟨ws, h1, h2, h3⟩ := windows_spec w fs hs (by omega)
    rw [h1] at hok; cases hok
    obtain ⟨il, ig⟩ := h3 i item hi
    have hlt : i < items.length := by
      by_contra hc
      rw [List.getElem?_eq_none (by omega)] at hi; simp at hi
    have hb := (h2 i).1 hlt
    have hcut : (iclLines isTraj0 w.start w.stop lines).length + w.start ≤ lines.length ∨
        (iclLines isTraj0 w.start w.stop lines).length = 0 := by
      simp only [iclLines, slice_length]
      cases isTraj0 <;> simp <;> omega
    have hin : ∀ k < w.seqlen, i * w.stride + k * (w.dilation + 1) < fs.length := by
      intro k hk
      have : k * (w.dilation + 1) ≤ (w.seqlen - 1) * (w.dilation + 1) := Nat.mul_le_mul_right _ (by omega)
      omega
    have hget : ∀ k < w.seqlen, ∃ x, lines[w.start + i * w.stride + k * (w.dilation + 1)]? = some x ∧
        item[k]? = some (x, (i * w.stride + k * (w.dilation + 1)) * 4) := by
      intro k hk
      have hk' := hin k hk
      rw [hl] at hk'
      rw [ig k hk, hg]
      have e : (iclLines isTraj0 w.start w.stop lines)[i * w.stride + k * (w.dilation + 1)]? =
          lines[w.start + i * w.stride + k * (w.dilation + 1)]? := by
        simp only [iclLines, slice_length] at hk' ⊢
        rw [slice_getElem? _ _ _ _ (by omega), ← Nat.add_assoc]
        cases isTraj0 with
        | false => simp
        | true =>
          simp only [if_true, List.length_dropLast] at hk' ⊢
          rw [List.getElem?_dropLast]
          simp only [if_pos (show w.start + i * w.stride + k * (w.dilation + 1) < lines.length - 1 by omega)]
      rw [e]
      have hlt' : w.start + i * w.stride + k * (w.dilation + 1) < lines.length := by omega
      exact ⟨_, List.getElem?_eq_getElem hlt', by rw [List.getElem?_eq_getElem hlt']; rfl⟩
    refine ⟨il, ?_, ?_⟩
    · intro k hk
      obtain ⟨x, hx, hx'⟩ := hget k hk
      simp [hx', hx]
    · have hnums : item.map (·.2) = ((List.range w.seqlen).map fun k => i * w.stride + k * (w.dilation + 1)).map (· * 4) := by
        apply List.ext_getElem?
        intro k
        by_cases hk : k < w.seqlen
        · obtain ⟨x, _, hx'⟩ := hget k hk
          simp [hx', hk]
        · rw [List.getElem?_eq_none (by simp; omega), List.getElem?_eq_none (by simp; omega)]
      rw [hnums, loadPoses_spec, List.map_map]
      · rfl
      · rw [List.pairwise_map]
        exact List.pairwise_lt_range.imp (fun {a b} h => by
          have : a * (w.dilation + 1) < b * (w.dilation + 1) := Nat.mul_lt_mul_of_pos_right h (by omega)
          omega)
      · intro k hk
        simp only [List.mem_map, List.mem_range] at hk
        obtain ⟨j, hj, rfl⟩ := hk
        have := hin j hj
        exact hblocks _ (by omega)

/-- **C11, the part that holds** (`start` 0 or None): every frame comes with its own pose. -/
theorem icl_pose_aligned_partial {β : Type*} (w : Win) (hs : 0 < w.seqlen) (h0 : w.start = 0) (isTraj0 : Bool)
    (lines : List β) {τ : Type*} (bottom : List τ) (file : List (List τ)) (items : List (List (β × Nat)))
    (hok : iclItems w isTraj0 file.length lines = .ok items) (hblocks : ∀ k, k < lines.length → BlockOk file k)
    (i : Nat) (item : List (β × Nat)) (hi : items[i]? = some item) :
    ∃ frameNo : Nat → Nat, (∀ k < w.seqlen, (item.map (·.1))[k]? = lines[frameNo k]?) ∧
      loadPoses bottom file (item.map (·.2)) = .ok ((List.range w.seqlen).map fun k => poseBlock bottom file (frameNo k)) := by
  obtain ⟨_, h2, h3⟩ := icl_item_poses w hs isTraj0 lines bottom file items hok hblocks i item hi
  refine ⟨fun k => w.start + i * w.stride + k * (w.dilation + 1), h2, ?_⟩
  simpa [h0] using h3

/-- **C11, the part that fails**: with `start > 0` the poses are those of the frames `start` positions earlier.  Concretely, frames
0..3 with poses 0..3 and `start=2` return frames 2,3 with poses 0,1. -/
theorem icl_start_misaligns :
    ∃ (file : List (List Nat)) (lines : List Nat) (items : List (List (Nat × Nat))),
      (∀ k < 4, BlockOk file k ∧ poseBlock [0, 0, 0, 1] file k =
        [[k, 0, 0, 0], [k, 0, 0, 1], [k, 0, 0, 2], [0, 0, 0, 1]]) ∧ lines = [0, 1, 2, 3] ∧
      iclItems ⟨2, 0, 2, 2, none⟩ false file.length lines = .ok items ∧
      items.map (·.map (·.1)) = [[2, 3]] ∧
      loadPoses [0, 0, 0, 1] file (((items.headD []).map (·.2))) =
        .ok [[[0, 0, 0, 0], [0, 0, 0, 1], [0, 0, 0, 2], [0, 0, 0, 1]], [[1, 0, 0, 0], [1, 0, 0, 1], [1, 0, 0, 2], [0, 0, 0, 1]]] := by
  refine ⟨[[0, 0, 0, 0], [0, 0, 0, 1], [0, 0, 0, 2], [], [1, 0, 0, 0], [1, 0, 0, 1], [1, 0, 0, 2], [],
    [2, 0, 0, 0], [2, 0, 0, 1], [2, 0, 0, 2], [], [3, 0, 0, 0], [3, 0, 0, 1], [3, 0, 0, 2], []], [0, 1, 2, 3],
    [[(2, 0), (3, 4)]], ?_, rfl, by decide, by decide, by decide⟩
  intro k hk
  constructor
  · intro j hj
    interval_cases k <;> interval_cases j <;> simp
  · interval_cases k <;> decide

/-- The off-by-one in the length check (icl.py:338, `>` instead of `>=`): with 1 pose block (4 lines) and 2 frames, line number 4
is accepted although the file ends there, and the item silently has one pose fewer than frames. -/
theorem icl_missing_pose_not_detected :
    iclItems ⟨2, 0, 2, 0, none⟩ false 4 ["f0", "f1"] = .ok [[("f0", 0), ("f1", 4)]] ∧
    loadPoses [9] [[1, 1, 1, 1], [2, 2, 2, 2], [3, 3, 3, 3], []] [0, 4] =
      .ok [[[1, 1, 1, 1], [2, 2, 2, 2], [3, 3, 3, 3], [9]]] := by decide

/-! ### C12 -/

theorem gather_range {β : Type*} (l : List β) (n : Nat) (h : n ≤ l.length) : gather l (List.range n) = .ok (l.take n) := by
  obtain ⟨xs, h1, h2, h3⟩ := gather_ok l (List.range n) (fun i hi => by simp at hi; omega)
  rw [h1]
  congr 1
  apply List.ext_getElem?
  intro k
  by_cases hk : k < n
  · rw [h3 k (by simpa using hk)]; simp [hk]
  · rw [List.getElem?_eq_none (by simp at h2; omega), List.getElem?_eq_none (by simp; omega)]

theorem gather_range_error {β : Type*} (l : List β) (n : Nat) (h : l.length < n) :
    gather l (List.range n) = .error .indexError := by
  have : ∀ (m s : Nat), s ≤ l.length → l.length < s + m → gather l (List.range' s m) = .error .indexError := by
    intro m
    induction m with
    | zero => intro s h1 h2; omega
    | succ m ih =>
      intro s h1 h2
      simp only [List.range'_succ, gather]
      by_cases hs : s < l.length
      · simp [List.getElem?_eq_getElem hs, ih (s + 1) (by omega) (by omega)]
      · simp [List.getElem?_eq_none (not_lt.1 hs)]
  rw [List.range_eq_range']
  exact this n 0 (by omega) (by omega)

theorem scanLoop_fixed {β : Type*} (start : Nat) (stop sl : Int) : ∀ (scenes : List (List β)) (s : Scan β),
    scanLoop false start stop sl scenes = .ok s → s.seqlen = sl ∧
      s.files = scenes.map (fun l => slice l start stop.toNat)
  | [], s, h => by simp only [scanLoop, Except.ok.injEq] at h; subst h; simp
  | l :: ls, s, h => by
    simp only [scanLoop, Bool.false_eq_true, if_false] at h
    split_ifs at h with h1
    cases hsl : slice l start stop.toNat with
    | nil => simp [hsl] at h
    | cons f fs =>
      simp only [hsl] at h
      cases hr : scanLoop false start stop sl ls with
      | error e => simp [hr] at h
      | ok s' =>
        simp only [hr, Except.ok.injEq] at h
        obtain ⟨a, b⟩ := scanLoop_fixed start stop sl ls s' hr
        subst h
        simp [a, b, hsl]

theorem scanLoop_full {β : Type*} (start : Nat) (stop : Int) : ∀ (scenes : List (List β)) (sl : Int) (s : Scan β),
    scanLoop true start stop sl scenes = .ok s →
      s.seqlen = ((scenes.getLast?.map fun l => (l.length : Int) - start).getD sl) ∧
      s.files = scenes.map (fun l => l.drop start) ∧ ∀ l ∈ scenes, start < l.length
  | [], sl, s, h => by simp only [scanLoop, Except.ok.injEq] at h; subst h; simp
  | l :: ls, sl, s, h => by
    simp only [scanLoop, if_true] at h
    split_ifs at h with h1
    have e : slice l start (l.length : Int).toNat = l.drop start := by simp [slice]
    rw [e] at h
    cases hsl : l.drop start with
    | nil => simp [hsl] at h
    | cons f fs =>
      simp only [hsl] at h
      cases hr : scanLoop true start stop ((l.length : Int) - start) ls with
      | error e => simp [hr] at h
      | ok s' =>
        simp only [hr, Except.ok.injEq] at h
        obtain ⟨a, b, c⟩ := scanLoop_full start stop ls _ s' hr
        subst h
        refine ⟨?_, by simp [b, hsl], ?_⟩
        · rw [a]
          cases ls with
          | nil => simp
          | cons l' ls =>
            simp [List.getLast?_cons_cons, List.getLast?_eq_some_getLast]
        · intro x hx
          rcases List.mem_cons.1 hx with rfl | hx
          · by_contra hc
            rw [List.drop_eq_nil_of_le (not_lt.1 hc)] at hsl; simp at hsl
          · exact c x hx

/-- **C12 (a)**. With an explicit `end`, if every scene has at least `end` frames, the constructor (when it succeeds) yields for each
scene exactly its frames `start … end-1`. -/
theorem scannet_fixed_range {β : Type*} (start stop : Nat) (scenes : List (List β)) (s : Scan β)
    (hok : scanInit start stop scenes = .ok s) (hlen : ∀ l ∈ scenes, stop ≤ l.length)
    (i : Nat) (l : List β) (hi : scenes[i]? = some l) :
    scanItem s i = .ok (slice l start stop) ∧ (slice l start stop).length = stop - start := by
  simp only [scanInit, show ¬ ((start : Int) < 0) by omega, if_false] at hok
  by_cases h1 : (stop : Int) = -1 ∨ (stop : Int) > start
  · rw [if_neg (not_not.2 h1)] at hok
    have hf : ¬ ((stop : Int) = -1) := by omega
    simp only [hf, decide_false, Int.toNat_natCast] at hok
    obtain ⟨a, b⟩ := scanLoop_fixed _ _ _ _ _ hok
    have hl : stop ≤ l.length := hlen l (List.mem_of_getElem? hi)
    have hll : (slice l start stop).length = stop - start := by rw [slice_length]; omega
    refine ⟨?_, hll⟩
    have e : s.files[i]? = some (slice l start stop) := by simp [b, hi]
    simp only [scanItem, e, a]
    rw [gather_range _ _ (by rw [hll]; omega)]
    rw [List.take_of_length_le (by rw [hll]; omega)]
  · rw [if_pos h1] at hok; simp at hok

/-- **C12 (b), what full-sequence mode (`end = -1`) returns** for scene `i`: the number of frames is that of the *last* scene.  A
scene at least as long as the last one is silently truncated to that many frames; a shorter one raises IndexError. -/
theorem scannet_full_sequence {β : Type*} (start : Nat) (scenes : List (List β)) (last : List β) (s : Scan β)
    (hok : scanInit start (-1) scenes = .ok s) (hlast : scenes.getLast? = some last)
    (i : Nat) (l : List β) (hi : scenes[i]? = some l) :
    scanItem s i = if last.length ≤ l.length then .ok ((l.drop start).take (last.length - start)) else .error .indexError := by
  simp only [scanInit, show ¬ ((start : Int) < 0) by omega, if_false] at hok
  simp only [true_or, not_true_eq_false, if_false, decide_true] at hok
  obtain ⟨a, b, c⟩ := scanLoop_full _ _ _ _ _ hok
  simp only [hlast, Option.map_some, Option.getD_some, Int.toNat_natCast] at a b c
  have e : s.files[i]? = some (l.drop start) := by simp [b, hi]
  have hlt := c last (List.mem_of_getLast? hlast)
  have hlt' := c l (List.mem_of_getElem? hi)
  have hn : s.seqlen.toNat = last.length - start := by omega
  simp only [scanItem, e, hn]
  split_ifs with h
  · exact gather_range _ _ (by simp; omega)
  · exact gather_range_error _ _ (by simp; omega)

/-- **C12, the part that holds in full-sequence mode**: if all scenes have the same length every item is complete. -/
theorem scannet_full_equal_lengths_partial {β : Type*} (start : Nat) (scenes : List (List β)) (n : Nat) (s : Scan β)
    (hok : scanInit start (-1) scenes = .ok s) (hlen : ∀ l ∈ scenes, l.length = n)
    (i : Nat) (l : List β) (hi : scenes[i]? = some l) : scanItem s i = .ok (l.drop start) := by
  have hmem := List.mem_of_getElem? hi
  obtain ⟨last, hlast⟩ : ∃ last, scenes.getLast? = some last := by
    cases h : scenes.getLast? with
    | none => rw [List.getLast?_eq_none_iff] at h; subst h; simp at hmem
    | some x => exact ⟨x, rfl⟩
  rw [scannet_full_sequence start scenes last s hok hlast i l hi]
  have h1 := hlen last (List.mem_of_getLast? hlast)
  have h2 := hlen l hmem
  rw [if_pos (by omega), List.take_of_length_le (by simp; omega)]

/-- **C12, the part that fails**: two scenes of lengths 3 and 2: the first item loses a frame; in the other order reading it raises. -/
theorem scannet_full_lengths_mixed :
    scanInit 0 (-1) [[0, 1, 2], [10, 11]] = .ok ⟨2, [[0, 1, 2], [10, 11]]⟩ ∧
    scanItem ⟨2, [[0, 1, 2], [10, 11]]⟩ 0 = .ok [0, 1] ∧
    scanInit 0 (-1) [[10, 11], [0, 1, 2]] = .ok ⟨3, [[10, 11], [0, 1, 2]]⟩ ∧
    scanItem ⟨3, [[10, 11], [0, 1, 2]]⟩ 0 = .error .indexError := by decide

/-- An explicit `end` beyond a scene's length is not detected when `end - start` still fits: reading the item raises IndexError. -/
theorem scannet_end_beyond_scene :
    scanInit 2 4 [[0, 1, 2]] = .ok ⟨2, [[2]]⟩ ∧ scanItem ⟨2, [[2]]⟩ 0 = .error .indexError := by decide

example : scanInit 1 3 [[0, 1, 2], [5, 6, 7, 8]] = .ok ⟨2, [[1, 2], [6, 7]]⟩ ∧
    scanItem ⟨2, [[1, 2], [6, 7]]⟩ 1 = .ok [6, 7] := by decide
example : iclItems ⟨2, 0, 2, 0, none⟩ true 12 ["a", "b", "c"] = .ok [[("a", 0), ("b", 4)]] ∧
    (∀ k < 2, BlockOk [[1, 2, 3, 4], [1, 2, 3, 4], [1, 2, 3, 4], [], [1, 2, 3, 4], [1, 2, 3, 4], [1, 2, 3, 4]] k) := by
  refine ⟨by decide, ?_⟩
  intro k hk j hj
  interval_cases k <;> interval_cases j <;> simp

/-- **C11, the length check**. The constructor's check compares four times the last frame number with the number of *lines* of the pose
file: it raises `ValueError` exactly when `4 (n - 1)` exceeds it, `n` being the number of frames kept. -/
theorem icl_length_check {β : Type*} (w : Win) (hs : 0 < w.seqlen) (hst : 0 < w.stride) (isTraj0 : Bool) (posesLen : Nat)
    (lines : List β) :
    (iclItems w isTraj0 posesLen lines = .error .valueError ↔
      posesLen < 4 * ((iclLines isTraj0 w.start w.stop lines).length - 1)) ∧
    (posesLen ≥ 4 * ((iclLines isTraj0 w.start w.stop lines).length - 1) →
      ∃ items, iclItems w isTraj0 posesLen lines = .ok items) := by
  have key : ∀ (xs : List β) (k : Nat),
      (posesLen < 4 * (k + xs.length - 1) ∧ xs ≠ [] → iclPoseLines posesLen k xs = .error .valueError) ∧
      (posesLen ≥ 4 * (k + xs.length - 1) ∨ xs = [] → ∃ r, iclPoseLines posesLen k xs = .ok r) := by
    intro xs
    induction xs with
    | nil => intro k; simp [iclPoseLines]
    | cons x xs ih =>
      intro k
      obtain ⟨h1, h2⟩ := ih (k + 1)
      constructor
      · rintro ⟨h, _⟩
        simp only [iclPoseLines]
        by_cases hk : k * 4 > posesLen
        · simp [hk]
        · have hne : xs ≠ [] := by rintro rfl; simp at h; omega
          simp only [List.length_cons] at h
          rw [if_neg hk, h1 ⟨by omega, hne⟩]
      · intro h
        have hle : posesLen ≥ 4 * (k + (x :: xs).length - 1) := by
          rcases h with h | h
          · exact h
          · cases h
        simp only [List.length_cons] at hle
        have hk : ¬ k * 4 > posesLen := by omega
        obtain ⟨r, hr⟩ := h2 (by left; omega)
        exact ⟨(x, k * 4) :: r, by simp only [iclPoseLines, if_neg hk, hr]⟩
  obtain ⟨h1, h2⟩ := key (iclLines isTraj0 w.start w.stop lines) 0
  simp only [Nat.zero_add] at h1 h2
  have hok : posesLen ≥ 4 * ((iclLines isTraj0 w.start w.stop lines).length - 1) →
      ∃ items, iclItems w isTraj0 posesLen lines = .ok items := by
    intro h
    obtain ⟨r, hr⟩ := h2 (Or.inl h)
    obtain ⟨ws, hw, _⟩ := windows_spec w r hs hst
    exact ⟨ws, by simp only [iclItems, hr, hw]⟩
  refine ⟨⟨?_, ?_⟩, hok⟩
  · intro h
    by_contra hc
    obtain ⟨items, hi⟩ := hok (by omega)
    rw [hi] at h; cases h
  · intro h
    have hne : iclLines isTraj0 w.start w.stop lines ≠ [] := by
      intro hn; rw [hn] at h; simp at h
    simp only [iclItems, h1 ⟨h, hne⟩]

/-- **C12, when the constructor succeeds** (explicit `end`): every scene must have at least `end - start` metadata lines and more than
`start` of them; otherwise the first scene that does not decides between `ValueError` and `IndexError`. -/
theorem scannet_init_iff {β : Type*} (start stop : Nat) (scenes : List (List β)) :
    ((∃ s, scanInit start stop scenes = .ok s) ↔
      start < stop ∧ ∀ l ∈ scenes, stop - start ≤ l.length ∧ start < l.length) ∧
    (∀ pre l post, start < stop → scenes = pre ++ l :: post →
      (∀ x ∈ pre, stop - start ≤ x.length ∧ start < x.length) →
      (l.length < stop - start → scanInit start stop scenes = .error .valueError) ∧
      (stop - start ≤ l.length → l.length ≤ start → scanInit start stop scenes = .error .indexError)) ∧
    (stop ≤ start → scanInit start stop scenes = .error .valueError) := by
  have hslice : ∀ l : List β, start < stop → (slice l start stop = [] ↔ l.length ≤ start) := by
    intro l h
    rw [← List.length_eq_zero_iff, slice_length]; omega
  have hloop : ∀ (scenes : List (List β)), start < stop →
      ((∀ l ∈ scenes, stop - start ≤ l.length ∧ start < l.length) →
        ∃ s, scanLoop false start stop ((stop : Int) - start) scenes = .ok s) ∧
      (∀ pre l post, scenes = pre ++ l :: post → (∀ x ∈ pre, stop - start ≤ x.length ∧ start < x.length) →
        (l.length < stop - start → scanLoop false start stop ((stop : Int) - start) scenes = .error .valueError) ∧
        (stop - start ≤ l.length → l.length ≤ start →
          scanLoop false start stop ((stop : Int) - start) scenes = .error .indexError)) := by
    intro scenes hlt
    induction scenes with
    | nil => refine ⟨fun _ => ⟨_, rfl⟩, ?_⟩; intro pre l post h; simp at h
    | cons y ys ih =>
      have hgood : stop - start ≤ y.length ∧ start < y.length → ∃ f fs, slice y start stop = f :: fs ∧
          scanLoop false start stop ((stop : Int) - start) (y :: ys) =
            (match scanLoop false start stop ((stop : Int) - start) ys with
              | .error e => .error e
              | .ok s => .ok { s with files := (f :: fs) :: s.files }) := by
        intro h
        obtain ⟨f, fs, hf⟩ := List.exists_cons_of_ne_nil (fun h0 => absurd ((hslice y hlt).1 h0) (by omega))
        refine ⟨f, fs, hf, ?_⟩
        simp only [scanLoop, Bool.false_eq_true, if_false, Int.toNat_natCast, hf]
        rw [if_neg (by omega)]
        cases scanLoop false start (stop : Int) ((stop : Int) - start) ys <;> rfl
      refine ⟨?_, ?_⟩
      · intro h
        obtain ⟨f, fs, _, he⟩ := hgood (h y (by simp))
        obtain ⟨s, hs⟩ := ih.1 (fun l hl => h l (by simp [hl]))
        exact ⟨_, by rw [he, hs]⟩
      · intro pre l post hsc hpre
        cases pre with
        | nil =>
          simp only [List.nil_append, List.cons.injEq] at hsc
          obtain ⟨rfl, rfl⟩ := hsc
          constructor
          · intro h
            simp only [scanLoop, Bool.false_eq_true, if_false]
            rw [if_pos (by omega)]
          · intro h1 h2
            simp only [scanLoop, Bool.false_eq_true, if_false, Int.toNat_natCast, (hslice y hlt).2 h2]
            rw [if_neg (by omega)]
        | cons z zs =>
          simp only [List.cons_append, List.cons.injEq] at hsc
          obtain ⟨rfl, rfl⟩ := hsc
          obtain ⟨f, fs, _, he⟩ := hgood (hpre y (by simp))
          obtain ⟨a, b⟩ := ih.2 zs l post rfl (fun x hx => hpre x (by simp [hx]))
          exact ⟨fun h => by rw [he, a h], fun h h' => by rw [he, b h h']⟩
  have hinit : start < stop →
      scanInit (start : Int) (stop : Int) scenes = scanLoop false start stop ((stop : Int) - start) scenes := by
    intro h
    simp only [scanInit, show ¬ ((start : Int) < 0) by omega, if_false, Int.toNat_natCast]
    rw [if_neg (by omega)]
    have : decide ((stop : Int) = -1) = false := by simp
    rw [this]
  have hbad : stop ≤ start → scanInit (start : Int) (stop : Int) scenes = .error .valueError := by
    intro h
    simp only [scanInit, show ¬ ((start : Int) < 0) by omega, if_false]
    rw [if_pos (by omega)]
  refine ⟨⟨?_, ?_⟩, ?_, hbad⟩
  · rintro ⟨s, hs⟩
    have hlt : start < stop := by
      by_contra hc
      rw [hbad (by omega)] at hs; cases hs
    refine ⟨hlt, ?_⟩
    by_contra hc
    -- take the first offending scene
    have hex : ∀ (scs : List (List β)), ¬ (∀ l ∈ scs, stop - start ≤ l.length ∧ start < l.length) →
        ∃ pre l post, scs = pre ++ l :: post ∧ (∀ x ∈ pre, stop - start ≤ x.length ∧ start < x.length) ∧
          ¬ (stop - start ≤ l.length ∧ start < l.length) := by
      intro scs
      induction scs with
      | nil => intro h; simp at h
      | cons y ys ih =>
        intro h
        by_cases hy : stop - start ≤ y.length ∧ start < y.length
        · obtain ⟨pre, l, post, h1, h2, h3⟩ := ih (fun h' => h (by
            intro l hl; rcases List.mem_cons.1 hl with rfl | hl
            · exact hy
            · exact h' l hl))
          refine ⟨y :: pre, l, post, by rw [h1]; rfl, ?_, h3⟩
          intro x hx; rcases List.mem_cons.1 hx with rfl | hx
          · exact hy
          · exact h2 x hx
        · exact ⟨[], y, ys, rfl, by simp, hy⟩
    obtain ⟨pre, l, post, h1, h2, h3⟩ := hex scenes hc
    obtain ⟨a, b⟩ := (hloop scenes hlt).2 pre l post h1 h2
    rw [hinit hlt] at hs
    by_cases hl : l.length < stop - start
    · rw [a hl] at hs; cases hs
    · rw [b (by omega) (by omega)] at hs; cases hs
  · rintro ⟨hlt, h⟩
    rw [hinit hlt]; exact (hloop scenes hlt).1 h
  · intro pre l post hlt hsc hpre
    rw [hinit hlt]; exact (hloop scenes hlt).2 pre l post hsc hpre

example : (2 : Nat) < 4 ∧ ([[0, 1], [0, 1, 2]] : List (List Nat)) = [] ++ [0, 1] :: [[0, 1, 2]] ∧
    4 - 2 ≤ [0, 1].length ∧ [0, 1].length ≤ 2 ∧ scanInit 2 4 [[0, 1], [0, 1, 2]] = .error .indexError := by decide

end Verif.Data
