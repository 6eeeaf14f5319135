import Verif.Flt.Model
import Mathlib.Algebra.BigOperators.Group.List.Basic
/-!
C90: one number of one map point under repeated fusion in floating point, against the exact weighted mean.
-/
namespace Verif.Flt
open Verif Pcs Fusion

/-- Count and value of a map point. -/
structure Cell where
  c : ℝ
  x : ℝ

/-- One call of `fuse_with_map` that has matches: the point is merged with the value `q` of weight `w` (`w = 0`, `q = 0` if it is not matched). -/
noncomputable def Cell.step (F : Fmt) (p : Cell) (e : ℝ × ℝ) : Cell := ⟨F.rnd (p.c + e.1), mergeF F p.c e.1 p.x e.2⟩

/-- Total weight, weighted sum and weighted sum of sizes of a point of weight `c` at `x` and measurements `(w, q)`. -/
def total (c : ℝ) (es : List (ℝ × ℝ)) : ℝ := c + (es.map fun e => e.1).sum
def wsum (c x : ℝ) (es : List (ℝ × ℝ)) : ℝ := c * x + (es.map fun e => e.1 * e.2).sum
def wsize (c x : ℝ) (es : List (ℝ × ℝ)) : ℝ := c * |x| + (es.map fun e => e.1 * |e.2|).sum

/-! ### Factors -/

theorem factor_near {u d : ℝ} (hd : |d| ≤ u) {g a : ℝ} (hg : 1 ≤ g) (ha : |a - 1| ≤ g - 1) : |a * (1 + d) - 1| ≤ g * (1 + u) - 1 := by
  have hu : 0 ≤ u := (abs_nonneg d).trans hd
  have e : a * (1 + d) - 1 = (a - 1) * (1 + d) + d := by ring
  have h1 : |1 + d| ≤ 1 + u := (abs_add_le 1 d).trans (by rw [abs_one]; linarith)
  calc |a * (1 + d) - 1| ≤ |(a - 1) * (1 + d)| + |d| := by rw [e]; exact abs_add_le _ _
    _ ≤ (g - 1) * (1 + u) + u := by
        rw [abs_mul]
        exact add_le_add (mul_le_mul ha h1 (abs_nonneg _) (by linarith)) hd
    _ = g * (1 + u) - 1 := by ring

theorem factor_one {u d : ℝ} (hd : |d| ≤ u) : |(1 + d) - 1| ≤ (1 + u) - 1 := by simpa using hd

theorem four_factors {u d1 d2 d3 d4 : ℝ} (h1 : |d1| ≤ u) (h2 : |d2| ≤ u) (h3 : |d3| ≤ u) (h4 : |d4| ≤ u) :
    |(1 + d1) * (1 + d2) * (1 + d3) * (1 + d4) - 1| ≤ (1 + u) ^ 4 - 1 := by
  have hu : 0 ≤ u := (abs_nonneg d1).trans h1
  have k1 := factor_one h1
  have k2 := factor_near h2 (by linarith) k1
  have k3 := factor_near h3 (by nlinarith) k2
  have k4 := factor_near h4 (by nlinarith [mul_nonneg hu hu]) k3
  calc _ ≤ _ := k4
    _ = (1 + u) ^ 4 - 1 := by ring

/-! ### One call -/

/-- The rounded weight sum after a call is the rounded weight sum before plus the new term, each off by four roundings. -/
theorem step_sum (F : Fmt) {p : Cell} {e : ℝ × ℝ} (hc : 0 < p.c) (he : 0 ≤ e.1) :
    0 < (p.step F e).c ∧ ∃ t1 t2, |t1 - 1| ≤ (1 + F.u) ^ 4 - 1 ∧ |t2 - 1| ≤ (1 + F.u) ^ 4 - 1 ∧
      (p.step F e).c * (p.step F e).x = p.c * p.x * t1 + e.1 * e.2 * t2 := by
  have hpos : 0 < F.rnd (p.c + e.1) := F.pos_of_pos (by linarith)
  refine ⟨hpos, ?_⟩
  obtain ⟨d1, h1, k1⟩ := F.factor (p.c * p.x)
  obtain ⟨d2, h2, k2⟩ := F.factor (e.1 * e.2)
  obtain ⟨d3, h3, k3⟩ := F.factor (F.rnd (p.c * p.x) + F.rnd (e.1 * e.2))
  obtain ⟨d4, h4, k4⟩ := F.factor (1 / F.rnd (p.c + e.1))
  obtain ⟨d5, h5, k5⟩ := F.factor (F.rnd (F.rnd (p.c * p.x) + F.rnd (e.1 * e.2)) * F.rnd (1 / F.rnd (p.c + e.1)))
  refine ⟨(1 + d1) * (1 + d3) * (1 + d4) * (1 + d5), (1 + d2) * (1 + d3) * (1 + d4) * (1 + d5), four_factors h1 h3 h4 h5,
    four_factors h2 h3 h4 h5, ?_⟩
  show F.rnd (p.c + e.1) * mergeF F p.c e.1 p.x e.2 = _
  rw [mergeF, guard0, if_neg hpos.ne', k5, k4, k3, k1, k2]
  field_simp

/-- **C90**.  What happens to a point that is not matched in a call that has matches: its count stays exactly the same, each of its numbers
is rounded three times. -/
theorem idle_step (F : Fmt) {p : Cell} (hc : 0 < p.c) (hr : F.Has p.c) :
    (p.step F (0, 0)).c = p.c ∧ |(p.step F (0, 0)).x - p.x| ≤ ((1 + F.u) ^ 3 - 1) * |p.x| ∧
    (F.Has (p.c * p.x) → F.Has (1 / p.c) → F.Has p.x → (p.step F (0, 0)).x = p.x) := by
  have hr' : F.rnd p.c = p.c := hr
  have e : (p.step F (0, 0)).x = F.rnd (F.rnd (p.c * p.x) * F.rnd (1 / p.c)) := by
    show mergeF F p.c 0 p.x 0 = _
    simp only [mergeF, add_zero, mul_zero, F.zero, hr', F.idem, guard0, if_neg hc.ne']
  refine ⟨by simp [Cell.step, hr'], ?_, ?_⟩
  · obtain ⟨d1, h1, k1⟩ := F.factor (p.c * p.x)
    obtain ⟨d2, h2, k2⟩ := F.factor (1 / p.c)
    obtain ⟨d3, h3, k3⟩ := F.factor (F.rnd (p.c * p.x) * F.rnd (1 / p.c))
    have hu := F.u0
    have n1 := factor_one h1
    have n2 := factor_near h2 (by linarith) n1
    have n3 := factor_near h3 (by nlinarith) n2
    have : (p.step F (0, 0)).x - p.x = ((1 + d1) * (1 + d2) * (1 + d3) - 1) * p.x := by
      rw [e, k3, k1, k2]; field_simp
    rw [this, abs_mul]
    refine mul_le_mul_of_nonneg_right ?_ (abs_nonneg _)
    calc _ ≤ _ := n3
      _ = (1 + F.u) ^ 3 - 1 := by ring
  · intro a b d
    have a' : F.rnd (p.c * p.x) = p.c * p.x := a
    have b' : F.rnd (1 / p.c) = 1 / p.c := b
    rw [e, a', b']
    have : p.c * p.x * (1 / p.c) = p.x := by field_simp
    rw [this]; exact d

/-! ### Many calls -/

theorem wsize_nonneg {c x : ℝ} {es : List (ℝ × ℝ)} (hc : 0 ≤ c) (he : ∀ e ∈ es, 0 ≤ e.1) : 0 ≤ wsize c x es := by
  unfold wsize
  have : 0 ≤ (es.map fun e => e.1 * |e.2|).sum := List.sum_nonneg fun y hy => by
    obtain ⟨e, h, rfl⟩ := List.mem_map.1 hy
    exact mul_nonneg (he e h) (abs_nonneg _)
  have := mul_nonneg hc (abs_nonneg x)
  linarith

theorem abs_wsum {c x : ℝ} {es : List (ℝ × ℝ)} (hc : 0 ≤ c) (he : ∀ e ∈ es, 0 ≤ e.1) : |wsum c x es| ≤ wsize c x es := by
  unfold wsum wsize
  have key : |(es.map fun e => e.1 * e.2).sum| ≤ (es.map fun e => e.1 * |e.2|).sum := by
    induction es with
    | nil => simp
    | cons e es ih =>
      simp only [List.map_cons, List.sum_cons]
      refine (abs_add_le _ _).trans (add_le_add ?_ (ih fun e' h => he e' (List.mem_cons_of_mem _ h)))
      rw [abs_mul, abs_of_nonneg (he e (List.mem_cons_self ..))]
  refine (abs_add_le _ _).trans (add_le_add ?_ key)
  rw [abs_mul, abs_of_nonneg hc]

theorem total_snoc (c : ℝ) (es : List (ℝ × ℝ)) (e : ℝ × ℝ) : total c (es ++ [e]) = total c es + e.1 := by simp [total]; ring
theorem wsum_snoc (c x : ℝ) (es : List (ℝ × ℝ)) (e : ℝ × ℝ) : wsum c x (es ++ [e]) = wsum c x es + e.1 * e.2 := by simp [wsum]; ring
theorem wsize_snoc (c x : ℝ) (es : List (ℝ × ℝ)) (e : ℝ × ℝ) : wsize c x (es ++ [e]) = wsize c x es + e.1 * |e.2| := by simp [wsize]; ring

theorem total_pos {c : ℝ} {es : List (ℝ × ℝ)} (hc : 0 < c) (he : ∀ e ∈ es, 0 ≤ e.1) : 0 < total c es := by
  have : 0 ≤ (es.map fun e => e.1).sum := List.sum_nonneg fun y hy => by
    obtain ⟨e, h, rfl⟩ := List.mem_map.1 hy
    exact he e h
  unfold total; linarith

/-- Counts and rounded weight sums after any sequence of calls. -/
theorem track_sums (F : Fmt) {c x : ℝ} (hc : 0 < c) (es : List (ℝ × ℝ)) (he : ∀ e ∈ es, 0 ≤ e.1) :
    let p := es.foldl (Cell.step F) ⟨c, x⟩
    0 < p.c ∧ (1 - F.u) ^ es.length * total c es ≤ p.c ∧ p.c ≤ (1 + F.u) ^ es.length * total c es ∧
    |p.c * p.x - wsum c x es| ≤ (((1 + F.u) ^ 4) ^ es.length - 1) * wsize c x es := by
  induction es using List.reverseRecOn with
  | nil => simp [total, wsum, hc]
  | append_singleton es e ih =>
    have he0 : ∀ e ∈ es, 0 ≤ e.1 := fun e' h => he e' (List.mem_append_left _ h)
    have hw : 0 ≤ e.1 := he e (by simp)
    have ih := ih he0
    simp only [List.foldl_append, List.foldl_cons, List.foldl_nil, List.length_append, List.length_singleton, total_snoc, wsum_snoc, wsize_snoc]
    set p := es.foldl (Cell.step F) ⟨c, x⟩ with hp
    obtain ⟨i1, i2, i3, i4⟩ := ih
    have hu := F.u0
    have hu1 := F.u1
    set k := es.length
    obtain ⟨s1, t1, t2, n1, n2, s2⟩ := step_sum F i1 hw
    have hT := total_pos hc he0
    refine ⟨s1, ?_, ?_, ?_⟩
    · show _ ≤ F.rnd (p.c + e.1)
      refine le_trans ?_ (F.lower (by linarith))
      rw [pow_succ]
      have a : (1 - F.u) ^ k * e.1 ≤ e.1 := by
        have := pow_le_one₀ (n := k) (by linarith : (0 : ℝ) ≤ 1 - F.u) (by linarith)
        nlinarith
      have b : (1 - F.u) ^ k * (total c es + e.1) ≤ p.c + e.1 := by rw [mul_add]; linarith
      nlinarith
    · show F.rnd (p.c + e.1) ≤ _
      refine (F.upper (by linarith)).trans ?_
      rw [pow_succ]
      have a : e.1 ≤ (1 + F.u) ^ k * e.1 := by
        have := one_le_pow₀ (n := k) (by linarith : (1 : ℝ) ≤ 1 + F.u)
        nlinarith
      have b : p.c + e.1 ≤ (1 + F.u) ^ k * (total c es + e.1) := by rw [mul_add]; linarith
      nlinarith
    · set g := (1 + F.u) ^ 4 with hg
      have hg1 : 1 ≤ g := one_le_pow₀ (by linarith)
      have hgk : 1 ≤ g ^ k := one_le_pow₀ hg1
      have hA := wsize_nonneg (x := x) hc.le he0
      have hS := abs_wsum (x := x) hc.le he0
      set S := wsum c x es
      set A := wsize c x es
      have ht1 : |t1| ≤ g := by
        have : |t1| ≤ |t1 - 1| + |(1 : ℝ)| := by
          have := abs_add_le (t1 - 1) 1
          simpa using this
        rw [abs_one] at this; linarith
      have e1 : (p.step F e).c * (p.step F e).x - (S + e.1 * e.2) = (p.c * p.x - S) * t1 + S * (t1 - 1) + e.1 * e.2 * (t2 - 1) := by
        rw [s2]; ring
      rw [e1]
      have b1 : |(p.c * p.x - S) * t1| ≤ (g ^ k - 1) * A * g := by
        rw [abs_mul]; exact mul_le_mul i4 ht1 (abs_nonneg _) (mul_nonneg (by linarith) hA)
      have b2 : |S * (t1 - 1)| ≤ A * (g - 1) := by
        rw [abs_mul]; exact mul_le_mul hS n1 (abs_nonneg _) hA
      have b3 : |e.1 * e.2 * (t2 - 1)| ≤ e.1 * |e.2| * (g - 1) := by
        rw [abs_mul, abs_mul, abs_of_nonneg hw]; exact mul_le_mul_of_nonneg_left n2 (mul_nonneg hw (abs_nonneg _))
      have b4 : e.1 * |e.2| * (g - 1) ≤ e.1 * |e.2| * (g ^ (k + 1) - 1) := by
        refine mul_le_mul_of_nonneg_left ?_ (mul_nonneg hw (abs_nonneg _))
        rw [pow_succ]; nlinarith
      calc _ ≤ |(p.c * p.x - S) * t1| + |S * (t1 - 1)| + |e.1 * e.2 * (t2 - 1)| := abs_add_three _ _ _
        _ ≤ (g ^ k - 1) * A * g + A * (g - 1) + e.1 * |e.2| * (g ^ (k + 1) - 1) := by linarith
        _ = (g ^ (k + 1) - 1) * (A + e.1 * |e.2|) := by rw [pow_succ]; ring

/-- **C90**, one number of one map point.  After any sequence of `k` calls with matches, in any format, the number is within the fraction
`(1+u)^(4k) / (1-u)^k - 1` of the exact weighted mean (of the mean size of the numbers averaged), and the count within the factors
`(1±u)^k` of the exact sum of the weights. -/
theorem track_error (F : Fmt) {c x : ℝ} (hc : 0 < c) (es : List (ℝ × ℝ)) (he : ∀ e ∈ es, 0 ≤ e.1) :
    let p := es.foldl (Cell.step F) ⟨c, x⟩
    (1 - F.u) ^ es.length * total c es ≤ p.c ∧ p.c ≤ (1 + F.u) ^ es.length * total c es ∧
    |p.x - wsum c x es / total c es| ≤ ((1 + F.u) ^ (4 * es.length) / (1 - F.u) ^ es.length - 1) * (wsize c x es / total c es) := by
  obtain ⟨h0, h1, h2, h3⟩ := track_sums F (x := x) hc es he
  refine ⟨h1, h2, ?_⟩
  set p := es.foldl (Cell.step F) ⟨c, x⟩
  have hu := F.u0
  have hu1 := F.u1
  rw [pow_mul]
  set g := ((1 + F.u) ^ 4) ^ es.length with hg
  set l := (1 - F.u) ^ es.length with hl
  set r := (1 + F.u) ^ es.length with hr
  have hl0 : 0 < l := pow_pos (by linarith) _
  have hl1 : l ≤ 1 := pow_le_one₀ (by linarith) (by linarith)
  have hr1 : 1 ≤ r := one_le_pow₀ (by linarith)
  have hlr : l * r ≤ 1 := by
    rw [hl, hr, ← mul_pow]
    exact pow_le_one₀ (mul_nonneg (by linarith) (by linarith)) (by nlinarith)
  have hg1 : 1 ≤ g := one_le_pow₀ (one_le_pow₀ (by linarith))
  have hT := total_pos hc he
  have hA := wsize_nonneg (x := x) hc.le he
  have hS := abs_wsum (x := x) hc.le he
  set S := wsum c x es
  set A := wsize c x es
  set T := total c es
  have i1 : 1 / p.c ≤ 1 / (l * T) := one_div_le_one_div_of_le (mul_pos hl0 hT) h1
  have i2 : |1 / p.c - 1 / T| ≤ (1 / l - 1) / T := by
    have e1 : (1 / l - 1) / T = 1 / (l * T) - 1 / T := by field_simp
    rw [e1, abs_le]
    constructor
    · have : 1 / (r * T) ≤ 1 / p.c := one_div_le_one_div_of_le h0 h2
      have k : 1 / T + 1 / T ≤ 1 / (r * T) + 1 / (l * T) := by
        rw [← sub_nonneg]
        have : 1 / (r * T) + 1 / (l * T) - (1 / T + 1 / T) = (l + r - 2 * (l * r)) / (l * r * T) := by field_simp; ring
        rw [this]
        refine div_nonneg ?_ (by positivity)
        have : 0 ≤ (1 - l) * (r - 1) := mul_nonneg (by linarith) (by linarith)
        nlinarith
      linarith
    · linarith
  have e2 : p.x - S / T = (p.c * p.x - S) * (1 / p.c) + S * (1 / p.c - 1 / T) := by field_simp; ring
  rw [e2]
  calc _ ≤ |(p.c * p.x - S) * (1 / p.c)| + |S * (1 / p.c - 1 / T)| := abs_add_le _ _
    _ ≤ (g - 1) * A * (1 / (l * T)) + A * ((1 / l - 1) / T) := by
        rw [abs_mul, abs_mul, abs_of_pos (one_div_pos.2 h0)]
        exact add_le_add (mul_le_mul h3 i1 (one_div_pos.2 h0).le (mul_nonneg (by linarith) hA)) (mul_le_mul hS i2 (abs_nonneg _) hA)
    _ = (g / l - 1) * (A / T) := by field_simp; ring
end Verif.Flt
