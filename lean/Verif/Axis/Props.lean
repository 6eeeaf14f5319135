import Verif.Axis.Model
import Verif.Fusion.Alpha
import Verif.Fusion.Model
import Verif.Geom.Model
/-!
C109: confidence weights, distance and normal tests along any dimension of tensors of any rank.
-/
namespace Verif.Axis
open Verif.Nd (Tensor)

/-! ### Specification -/

/-- Index `i` with a coordinate `j` put at place `k`. -/
def put (k j : ℕ) (i : List ℕ) : List ℕ := i.take k ++ j :: i.drop k

/-- `dim` names dimension number `k` (counted from the innermost) of a tensor with `n` dimensions: as in Python, `dim` counts from
the outermost one, negative values from the end. -/
def Names (n : ℕ) (dim : ℤ) (k : ℕ) : Prop := k < n ∧ (dim = n - 1 - k ∨ dim = -1 - k)

/-- The vector at index `i` of the other dimensions. -/
def point (t : Tensor ℝ) (k : ℕ) (i : List ℕ) : V3 ℝ := ⟨t.get (put k 0 i), t.get (put k 1 i), t.get (put k 2 i)⟩

/-- The value of a usable `sigma`: a number, or a tensor without dimensions. -/
def SigmaIs (s : Sigma) (x : ℝ) : Prop := s = .number x ∨ ∃ t, s = .tensor t ∧ t.dims = [] ∧ t.get [] = x

/-- The tensor with dimension `k` moved to the end. -/
def moved (k : ℕ) (t : Tensor ℝ) : Tensor ℝ :=
  ⟨t.dims.getD k 0 :: t.dims.eraseIdx k, fun i => t.get (put k (i.headD 0) i.tail)⟩

/-! ### Helpers -/

theorem axis_names {n : ℕ} {dim : ℤ} {k : ℕ} : axis n dim = some k ↔ Names n dim k := by
  unfold axis Names
  split
  · split
    · rw [Option.some.injEq]; omega
    · simp only [reduceCtorEq, false_iff]; omega
  · split
    · rw [Option.some.injEq]; omega
    · simp only [reduceCtorEq, false_iff]; omega

theorem axis_none {n : ℕ} {dim : ℤ} : axis n dim = none ↔ ¬ (-(n : ℤ) ≤ dim ∧ dim < n) := by
  unfold axis
  split
  · split <;> simp <;> omega
  · split <;> simp <;> omega

theorem insertIdx_put : ∀ {i : List ℕ} {k : ℕ}, k ≤ i.length → ∀ j, i.insertIdx k j = put k j i
  | i, 0, _, j => by simp [put]
  | [], k + 1, h, j => by simp at h
  | a :: i, k + 1, h, j => by
    have := insertIdx_put (i := i) (k := k) (by simpa using h) j
    rw [List.insertIdx_succ_cons, this]; simp [put]

theorem set_put : ∀ {i : List ℕ} {k : ℕ}, k ≤ i.length → ∀ a j, (put k a i).set k j = put k j i
  | i, 0, _, a, j => by simp [put]
  | [], k + 1, h, a, j => by simp at h
  | b :: i, k + 1, h, a, j => by
    have := set_put (i := i) (k := k) (by simpa using h) a j
    simp only [put, List.take_succ_cons, List.drop_succ_cons, List.cons_append, List.set_cons_succ, List.cons.injEq, true_and] at this ⊢
    exact this

theorem erase_mid {pre post : List ℕ} {a : ℕ} : (pre ++ a :: post).eraseIdx pre.length = pre ++ post := by
  induction pre with
  | nil => rfl
  | cons b pre ih => simpa using ih

theorem set_mid {pre post : List ℕ} {a b : ℕ} : (pre ++ a :: post).set pre.length b = pre ++ b :: post := by
  induction pre with
  | nil => rfl
  | cons b pre ih => simpa using ih

theorem get_mid {pre post : List ℕ} {a : ℕ} : (pre ++ a :: post)[pre.length]? = some a := by simp

theorem sum3_point {t : Tensor ℝ} {k : ℕ} {i : List ℕ} (h : k ≤ i.length) :
    (sum3 fun j => t.get (i.insertIdx k j) ^ 2) = (point t k i).x ^ 2 + (point t k i).y ^ 2 + (point t k i).z ^ 2 := by
  simp only [sum3, insertIdx_put h, point]

/-! ### get_alpha -/

/-- **C109**.  `get_alpha` is the confidence weight of C40 at every index, whatever the rank and whichever dimension holds the
coordinates; the other dimensions are kept, the dimension itself is dropped or, with `keepdim`, kept with size 1. -/
theorem alpha_result (t : Tensor ℝ) (s : Sigma) (dim : ℤ) (keep : Bool) (eps x : ℝ) (pre post : List ℕ)
    (ht : t.dims = pre ++ 3 :: post) (hd : Names t.rank dim pre.length) (hs : SigmaIs s x) :
    ∃ out, getAlpha t s dim keep true eps = .ok out ∧ out.dims = (if keep then pre ++ 1 :: post else pre ++ post) ∧
      ∀ i : List ℕ, i.length = pre.length + post.length →
        out.get (if keep then put pre.length 0 i else i) = Fusion.getAlpha x eps (point t pre.length i) := by
  have ha := axis_names.2 hd
  have hg : t.dims[pre.length]? = some 3 := by rw [ht]; exact get_mid
  have key : getAlpha t s dim keep true eps = .ok ((if keep then reduceKeep pre.length (fun v : ℕ → ℝ => sum3 fun j => v j ^ 2) t
      else reduce pre.length (fun v : ℕ → ℝ => sum3 fun j => v j ^ 2) t).mapT fun y => min (max (Real.exp (-y / (2 * x ^ 2))) eps) (101 / 100)) := by
    rcases hs with rfl | ⟨u, rfl, hu, rfl⟩
    · simp only [getAlpha, ha, hg]; simp
    · have hr : u.rank = 0 := by simp [Tensor.rank, hu]
      simp only [getAlpha, ha, hg, hr]; simp
  refine ⟨_, key, ?_, ?_⟩
  · cases keep
    · show t.dims.eraseIdx _ = _
      rw [ht, erase_mid]; rfl
    · show t.dims.set _ _ = _
      rw [ht, set_mid]; rfl
  · intro i hi
    have hk : pre.length ≤ i.length := by omega
    cases keep
    · simp only [Bool.false_eq_true, if_false, Tensor.mapT, reduce, sum3_point hk, Fusion.getAlpha]
    · simp only [if_true, Tensor.mapT, reduceKeep, set_put hk, sum3, Fusion.getAlpha, point]

/-- **C109**.  Which arguments `get_alpha` refuses, and how: the type checks come first, then the range of `dim`, then the size of
that dimension, then the rank of `sigma`. -/
theorem alpha_errors (t : Tensor ℝ) (s : Sigma) (dim : ℤ) (keep fl : Bool) (eps : ℝ) (e : Err) :
    getAlpha t s dim keep fl eps = .error e ↔
      ((s = .other ∨ fl = false) ∧ e = .typeError) ∨
      (s ≠ .other ∧ fl = true ∧ ¬ (-(t.rank : ℤ) ≤ dim ∧ dim < t.rank) ∧ e = .indexError) ∨
      (s ≠ .other ∧ fl = true ∧ (∃ k, Names t.rank dim k ∧ (t.dims[k]? ≠ some 3 ∨ ∃ u, s = .tensor u ∧ u.dims ≠ [])) ∧ e = .valueError) := by
  cases hs : s with
  | other => simp [getAlpha, eq_comm]
  | number x =>
    cases fl
    · simp [getAlpha, eq_comm]
    · cases ha : axis t.rank dim with
      | none =>
        have h := axis_none.1 ha
        have hn : ¬ ∃ k, Names t.rank dim k ∧ (t.dims[k]? ≠ some 3 ∨ ∃ u, Sigma.number x = .tensor u ∧ u.dims ≠ []) := by
          rintro ⟨k, hk, _⟩; rw [axis_names.2 hk] at ha; cases ha
        rw [eq_false hn, eq_true h]
        simp [getAlpha, ha, eq_comm]
      | some k =>
        have h : -(t.rank : ℤ) ≤ dim ∧ dim < t.rank := by
          by_contra h; rw [axis_none.2 h] at ha; cases ha
        have hn : (∃ k, Names t.rank dim k ∧ (t.dims[k]? ≠ some 3 ∨ ∃ u, Sigma.number x = .tensor u ∧ u.dims ≠ [])) ↔ t.dims[k]? ≠ some 3 := by
          constructor
          · rintro ⟨k', hk', h | ⟨u, hu, _⟩⟩
            · rw [axis_names.2 hk'] at ha; cases ha; exact h
            · cases hu
          · exact fun h => ⟨k, axis_names.1 ha, .inl h⟩
        rw [hn]
        simp only [getAlpha, ha, Bool.true_eq_false, if_false, h]
        split
        · rename_i h3; simp only [Except.error.injEq]; simp [h3, eq_comm]
        · rename_i h3; simp [h3]
  | tensor u =>
    cases fl
    · simp [getAlpha, eq_comm]
    · cases ha : axis t.rank dim with
      | none =>
        have h := axis_none.1 ha
        have hn : ¬ ∃ k, Names t.rank dim k ∧ (t.dims[k]? ≠ some 3 ∨ ∃ v, Sigma.tensor u = .tensor v ∧ v.dims ≠ []) := by
          rintro ⟨k, hk, _⟩; rw [axis_names.2 hk] at ha; cases ha
        rw [eq_false hn, eq_true h]
        simp [getAlpha, ha, eq_comm]
      | some k =>
        have h : -(t.rank : ℤ) ≤ dim ∧ dim < t.rank := by
          by_contra h; rw [axis_none.2 h] at ha; cases ha
        have hn : (∃ k, Names t.rank dim k ∧ (t.dims[k]? ≠ some 3 ∨ ∃ v, Sigma.tensor u = .tensor v ∧ v.dims ≠ [])) ↔ (t.dims[k]? ≠ some 3 ∨ u.dims ≠ []) := by
          constructor
          · rintro ⟨k', hk', h | ⟨v, hv, h⟩⟩
            · rw [axis_names.2 hk'] at ha; cases ha; exact .inl h
            · cases hv; exact .inr h
          · rintro (h | h)
            · exact ⟨k, axis_names.1 ha, .inl h⟩
            · exact ⟨k, axis_names.1 ha, .inr ⟨u, rfl, h⟩⟩
        have hr : u.rank ≠ 0 ↔ u.dims ≠ [] := by simp [Tensor.rank]
        rw [hn]
        simp only [getAlpha, ha, Bool.true_eq_false, if_false, h]
        split
        · rename_i h3; simp only [Except.error.injEq]; simp [h3, eq_comm]
        · rename_i h3
          split
          · rename_i h4; simp only [Except.error.injEq]; simp [hr.1 h4, eq_comm]
          · rename_i h4; simp [h3, not_not.1 (mt hr.2 h4)]

/-! ### The two tests -/

theorem checkPair_ok {a b : Tensor ℝ} {dim : ℤ} {pre post : List ℕ} (ha : a.dims = pre ++ 3 :: post) (hb : b.dims = a.dims)
    (hd : Names a.rank dim pre.length) : checkPair a b dim = .ok pre.length := by
  have hg : a.dims[pre.length]? = some 3 := by rw [ha]; exact get_mid
  simp only [checkPair, hb, axis_names.2 hd, hg]; simp

theorem checkPair_error {a b : Tensor ℝ} {dim : ℤ} {e : Err} : checkPair a b dim = .error e ↔
    (a.dims ≠ b.dims ∧ e = .valueError) ∨ (a.dims = b.dims ∧ ¬ (-(a.rank : ℤ) ≤ dim ∧ dim < a.rank) ∧ e = .indexError) ∨
    (a.dims = b.dims ∧ (∃ k, Names a.rank dim k ∧ a.dims[k]? ≠ some 3) ∧ e = .valueError) := by
  unfold checkPair
  split
  · rename_i h; simp only [Except.error.injEq]; simp [h, eq_comm]
  · rename_i h
    have h := not_not.1 h
    cases ha : axis a.rank dim with
    | none =>
      have h' := axis_none.1 ha
      have hn : ¬ ∃ k, Names a.rank dim k ∧ a.dims[k]? ≠ some 3 := by
        rintro ⟨k, hk, _⟩; rw [axis_names.2 hk] at ha; cases ha
      rw [eq_false hn, eq_true h', eq_true h]
      simp [h, eq_comm]
    | some k =>
      have h' : -(a.rank : ℤ) ≤ dim ∧ dim < a.rank := by
        by_contra h; rw [axis_none.2 h] at ha; cases ha
      have hn : (∃ k, Names a.rank dim k ∧ a.dims[k]? ≠ some 3) ↔ a.dims[k]? ≠ some 3 := by
        constructor
        · rintro ⟨k', hk', h⟩
          rw [axis_names.2 hk'] at ha; cases ha; exact h
        · exact fun h => ⟨k, axis_names.1 ha, h⟩
      rw [hn]
      simp only
      split
      · rename_i h3
        rw [eq_true h3, eq_true h]
        simp [h, h', eq_comm]
      · rename_i h3
        have h3 := not_not.1 h3
        rw [h] at h3
        simp [h3, h, h']

/-- **C109**.  `are_points_close` compares, at every index, the Euclidean distance of the two points there with the threshold. -/
theorem close_result (a b : Tensor ℝ) (th : ℝ) (dim : ℤ) (pre post : List ℕ) (ha : a.dims = pre ++ 3 :: post) (hb : b.dims = a.dims)
    (hd : Names a.rank dim pre.length) :
    ∃ out, arePointsClose a b th dim = .ok out ∧ out.dims = pre ++ post ∧ ∀ i : List ℕ, i.length = pre.length + post.length →
      (out.get i = true ↔ Real.sqrt (((point a pre.length i).sub (point b pre.length i)).normSq) < th) := by
  refine ⟨_, by rw [arePointsClose, checkPair_ok ha hb hd], ?_, ?_⟩
  · show a.dims.eraseIdx _ = _
    rw [ha, erase_mid]
  · intro i hi
    have hk : pre.length ≤ i.length := by omega
    simp only [decide_eq_true_eq, reduce, zip, sum3, insertIdx_put hk, point, V3.sub, V3.normSq, V3.dot, sq]

/-- **C109**.  `are_normals_similar` compares, at every index, the dot product of the two vectors there with the threshold, and warns exactly
if some dot product exceeds 1.001.  Unlike `are_points_close` it raises RuntimeError on tensors without elements. -/
theorem similar_result (a b : Tensor ℝ) (th : ℝ) (dim : ℤ) (pre post : List ℕ) (ha : a.dims = pre ++ 3 :: post) (hb : b.dims = a.dims)
    (hd : Names a.rank dim pre.length) :
    (0 ∈ pre ++ post → areNormalsSimilar a b th dim = .error .runtimeError) ∧
    (0 ∉ pre ++ post → ∃ out w, areNormalsSimilar a b th dim = .ok (out, w) ∧ out.dims = pre ++ post ∧
      (∀ i : List ℕ, i.length = pre.length + post.length → (out.get i = true ↔ th < (point a pre.length i).dot (point b pre.length i))) ∧
      (w = true ↔ ∃ i, Inside i (pre ++ post) ∧ 1.001 < (point a pre.length i).dot (point b pre.length i))) := by
  have hdm : (reduce pre.length sum3 (zip (· * ·) a b)).dims = pre ++ post := by
    show a.dims.eraseIdx _ = _
    rw [ha, erase_mid]
  have hv : ∀ i : List ℕ, i.length = pre.length + post.length → (reduce pre.length sum3 (zip (· * ·) a b)).get i =
      (point a pre.length i).dot (point b pre.length i) := by
    intro i hi
    have hk : pre.length ≤ i.length := by omega
    simp only [reduce, zip, sum3, insertIdx_put hk, point, V3.dot]
  constructor
  · intro h0
    simp only [areNormalsSimilar, checkPair_ok ha hb hd]
    rw [if_pos (by rw [hdm]; exact h0)]
  · intro h0
    refine ⟨_, _, by simp only [areNormalsSimilar, checkPair_ok ha hb hd]; rw [if_neg (by rw [hdm]; exact h0)], hdm, ?_, ?_⟩
    · intro i hi
      rw [decide_eq_true_eq, hv i hi]
    · rw [@decide_eq_true_eq _ (Classical.propDecidable _), hdm]
      refine exists_congr fun i => and_congr_right fun hi => ?_
      have : i.length = pre.length + post.length := by
        have := List.Forall₂.length_eq hi
        simpa using this
      rw [hv i this]; norm_num

/-- **C109**.  Which arguments the two tests refuse, and how: different shapes first, then the range of `dim`, then the size. -/
theorem pair_errors (a b : Tensor ℝ) (th : ℝ) (dim : ℤ) (e : Err) :
    let bad := (a.dims ≠ b.dims ∧ e = .valueError) ∨ (a.dims = b.dims ∧ ¬ (-(a.rank : ℤ) ≤ dim ∧ dim < a.rank) ∧ e = .indexError) ∨
      (a.dims = b.dims ∧ (∃ k, Names a.rank dim k ∧ a.dims[k]? ≠ some 3) ∧ e = .valueError)
    (arePointsClose a b th dim = .error e ↔ bad) ∧
    (areNormalsSimilar a b th dim = .error e ↔ bad ∨
      (e = .runtimeError ∧ ∃ pre post, a.dims = pre ++ 3 :: post ∧ b.dims = a.dims ∧ Names a.rank dim pre.length ∧ 0 ∈ pre ++ post)) := by
  intro bad
  have hbad : checkPair a b dim = .error e ↔ bad := checkPair_error
  cases hc : checkPair a b dim with
  | error e' =>
    refine ⟨by rw [← hbad, arePointsClose, hc]; simp, ?_⟩
    rw [← hbad, hc]
    simp only [areNormalsSimilar, hc]
    constructor
    · exact fun h => .inl (by cases h; rfl)
    · rintro (h | ⟨_, pre, post, h1, h2, h3, _⟩)
      · cases h; rfl
      · rw [checkPair_ok h1 h2 h3] at hc; cases hc
  | ok k =>
    have hb : ¬ bad := fun h => by rw [hbad.2 h] at hc; cases hc
    refine ⟨by rw [arePointsClose, hc]; simp [hb], ?_⟩
    have hdec : ∃ pre post, a.dims = pre ++ 3 :: post ∧ b.dims = a.dims ∧ Names a.rank dim pre.length := by
      unfold checkPair at hc
      split at hc
      · cases hc
      · rename_i h
        split at hc
        · cases hc
        · rename_i k' hk'
          split at hc
          · cases hc
          · rename_i h3
            have h3 := not_not.1 h3
            cases hc
            obtain ⟨hl, he⟩ := List.getElem?_eq_some_iff.1 h3
            refine ⟨a.dims.take k, a.dims.drop (k + 1), ?_, (not_not.1 h).symm, ?_⟩
            · conv_lhs => rw [← List.take_append_drop k a.dims, List.drop_eq_getElem_cons hl, he]
            · rw [List.length_take, min_eq_left hl.le]; exact axis_names.1 hk'
    simp only [hb, false_or]
    constructor
    · intro h
      obtain ⟨pre, post, h1, h2, h3⟩ := hdec
      obtain ⟨s1, s2⟩ := similar_result a b th dim pre post h1 h2 h3
      by_cases h0 : 0 ∈ pre ++ post
      · rw [s1 h0] at h; cases h
        exact ⟨rfl, pre, post, h1, h2, h3, h0⟩
      · obtain ⟨_, _, h', _⟩ := s2 h0
        rw [h'] at h; cases h
    · rintro ⟨rfl, pre, post, h1, h2, h3, h0⟩
      exact (similar_result a b th dim pre post h1 h2 h3).1 h0

end Verif.Axis
