import Verif.Fusion.Active
import Mathlib.Data.Int.Log
import Mathlib.Data.Real.Archimedean
/-!
Floating-point arithmetic with an unbounded exponent: what IEEE 754 `+ - * /` return as long as nothing overflows or underflows.

`Fmt` lists what the theorems on rounding (C90, C91) use of a format: every operation returns the exact result rounded by `rnd`.  `bin p` is
the binary format with `p` significant bits, rounding to nearest, ties to even; `bin 24` is float32 and `bin 53` float64 without the limits
of the exponent.  `exact` is arithmetic without rounding.
-/
namespace Verif.Flt
open Verif Fusion

/-- A format: rounding is monotone, keeps the numbers of the format and 0, and moves a number by at most the fraction `u` of its size. -/
structure Fmt where
  rnd : ℝ → ℝ
  u : ℝ
  u0 : 0 ≤ u
  u1 : u < 1
  err : ∀ x, |rnd x - x| ≤ u * |x|
  mono : Monotone rnd
  idem : ∀ x, rnd (rnd x) = rnd x

/-- `x` is a number of the format. -/
def Fmt.Has (F : Fmt) (x : ℝ) : Prop := F.rnd x = x

/-- No rounding. -/
def exact : Fmt := ⟨id, 0, le_rfl, one_pos, fun x => by simp, monotone_id, fun _ => rfl⟩

/-! ### Rounding to the nearest integer -/

theorem roundEven_int (m : ℤ) : roundEven (m : ℝ) = m := by
  unfold roundEven
  rw [if_pos]
  · exact Int.floor_intCast m
  · rw [Int.floor_intCast]; norm_num

theorem roundEven_mono {x y : ℝ} (h : x ≤ y) : roundEven x ≤ roundEven y := by
  have hf : ⌊x⌋ ≤ ⌊y⌋ := Int.floor_le_floor h
  have up : ∀ z : ℝ, ⌊z⌋ ≤ roundEven z ∧ roundEven z ≤ ⌊z⌋ + 1 := by
    intro z; unfold roundEven; split_ifs <;> omega
  rcases lt_or_eq_of_le hf with hlt | heq
  · have := (up x).2; have := (up y).1; omega
  · unfold roundEven
    rw [← heq]
    split_ifs <;> first | omega | linarith

/-- Positive part of `bin`: round to a multiple of `2 ^ e`, where `2 ^ (e + p - 1) ≤ x < 2 ^ (e + p)`. -/
noncomputable def pos (p : ℕ) (x : ℝ) : ℝ :=
  (roundEven (x / 2 ^ (Int.log 2 x - p + 1)) : ℝ) * 2 ^ (Int.log 2 x - p + 1)

/-- Round to nearest with `p` significant bits, ties to even. -/
noncomputable def rndBin (p : ℕ) (x : ℝ) : ℝ := if x < 0 then -pos p (-x) else pos p x

theorem two_zpow_pos (e : ℤ) : (0 : ℝ) < 2 ^ e := zpow_pos (by norm_num) e

theorem log_le' {x : ℝ} (hx : 0 < x) : (2 : ℝ) ^ Int.log 2 x ≤ x := by
  simpa using Int.zpow_log_le_self (b := 2) one_lt_two hx

theorem lt_log' (x : ℝ) : x < (2 : ℝ) ^ (Int.log 2 x + 1) := by
  simpa using Int.lt_zpow_succ_log_self (b := 2) one_lt_two x

theorem log_eq' {x : ℝ} {k : ℤ} (h : (2 : ℝ) ^ k ≤ x) (h' : x < (2 : ℝ) ^ (k + 1)) : Int.log 2 x = k := by
  have hx : 0 < x := lt_of_lt_of_le (two_zpow_pos k) h
  have a : k ≤ Int.log 2 x := (Int.zpow_le_iff_le_log (b := 2) one_lt_two hx).1 (by simpa using h)
  have b : Int.log 2 x < k + 1 := (Int.lt_zpow_iff_log_lt (b := 2) one_lt_two hx).1 (by simpa using h')
  omega

/-- What `pos` is on a known binade. -/
theorem pos_eq {p : ℕ} {x : ℝ} {k : ℤ} (h : (2 : ℝ) ^ k ≤ x) (h' : x < (2 : ℝ) ^ (k + 1)) :
    pos p x = (roundEven (x / 2 ^ (k - p + 1)) : ℝ) * 2 ^ (k - p + 1) := by
  rw [pos, log_eq' h h']

theorem pos_zero (p : ℕ) : pos p 0 = 0 := by
  have : roundEven ((0 : ℝ)) = 0 := by simpa using roundEven_int 0
  rw [pos, zero_div, this]; simp

/-- A number with at most `p` significant bits is kept. -/
theorem pos_rep {p : ℕ} (hp : 1 ≤ p) {m : ℕ} (hm : m ≤ 2 ^ p) (j : ℤ) : pos p ((m : ℝ) * 2 ^ j) = (m : ℝ) * 2 ^ j := by
  rcases Nat.eq_zero_or_pos m with rfl | hm0
  · simp [pos_zero]
  have hx : (0 : ℝ) < (m : ℝ) * 2 ^ j := mul_pos (by exact_mod_cast hm0) (two_zpow_pos j)
  have key : ∀ (n : ℤ) (e : ℤ), (m : ℝ) * 2 ^ j = (n : ℝ) * 2 ^ e → e = Int.log 2 ((m : ℝ) * 2 ^ j) - p + 1 →
      pos p ((m : ℝ) * 2 ^ j) = (m : ℝ) * 2 ^ j := by
    intro n e h he
    rw [pos, ← he]
    have : (m : ℝ) * 2 ^ j / 2 ^ e = (n : ℝ) := by rw [h, mul_div_assoc, div_self (two_zpow_pos e).ne', mul_one]
    rw [this, roundEven_int, h]
  have hle : (m : ℝ) * 2 ^ j ≤ 2 ^ ((p : ℤ) + j) := by
    rw [zpow_add₀ (by norm_num), zpow_natCast]
    exact mul_le_mul_of_nonneg_right (by exact_mod_cast hm) (two_zpow_pos j).le
  rcases lt_or_eq_of_le hle with hlt | heq
  · have hlog : Int.log 2 ((m : ℝ) * 2 ^ j) < (p : ℤ) + j := (Int.lt_zpow_iff_log_lt (b := 2) one_lt_two hx).1 (by simpa using hlt)
    obtain ⟨d, hd⟩ : ∃ d : ℕ, (d : ℤ) = j - (Int.log 2 ((m : ℝ) * 2 ^ j) - p + 1) := ⟨(j - (Int.log 2 ((m : ℝ) * 2 ^ j) - p + 1)).toNat, by omega⟩
    refine key ((m : ℤ) * 2 ^ d) _ ?_ rfl
    push_cast
    rw [mul_assoc]
    congr 1
    rw [← zpow_natCast, ← zpow_add₀ (by norm_num), hd]
    congr 1; ring
  · have hlog : Int.log 2 ((m : ℝ) * 2 ^ j) = (p : ℤ) + j := by
      rw [heq]; exact_mod_cast Int.log_zpow (b := 2) (R := ℝ) one_lt_two ((p : ℤ) + j)
    refine key (2 ^ (p - 1)) _ ?_ rfl
    rw [hlog, heq]
    push_cast
    rw [← zpow_natCast, ← zpow_add₀ (by norm_num)]
    congr 1; omega

/-- `pos` of a positive number is a number with `p` bits in the binade or the next power of two. -/
theorem pos_bits {p : ℕ} (hp : 1 ≤ p) {x : ℝ} (hx : 0 < x) :
    ∃ m : ℕ, m ≤ 2 ^ p ∧ 2 ^ (p - 1) ≤ m ∧ pos p x = (m : ℝ) * 2 ^ (Int.log 2 x - p + 1) := by
  set e := Int.log 2 x - p + 1 with he
  have h1 : ((2 ^ (p - 1) : ℕ) : ℤ) ≤ roundEven (x / 2 ^ e) := by
    rw [← roundEven_int ((2 ^ (p - 1) : ℕ) : ℤ)]
    apply roundEven_mono
    rw [le_div_iff₀ (two_zpow_pos e)]
    push_cast
    rw [← zpow_natCast, ← zpow_add₀ (by norm_num)]
    have : (((p - 1 : ℕ) : ℤ) + e) = Int.log 2 x := by omega
    rw [this]; exact log_le' hx
  have h2 : roundEven (x / 2 ^ e) ≤ ((2 ^ p : ℕ) : ℤ) := by
    rw [← roundEven_int ((2 ^ p : ℕ) : ℤ)]
    apply roundEven_mono
    rw [div_le_iff₀ (two_zpow_pos e)]
    push_cast
    rw [← zpow_natCast, ← zpow_add₀ (by norm_num)]
    have : ((p : ℤ) + e) = Int.log 2 x + 1 := by omega
    rw [this]; exact (lt_log' x).le
  obtain ⟨m, hm⟩ := Int.eq_ofNat_of_zero_le (le_trans (Int.natCast_nonneg _) h1)
  rw [hm] at h1 h2
  refine ⟨m, by exact_mod_cast h2, by exact_mod_cast h1, ?_⟩
  rw [pos, ← he, hm, Int.cast_natCast]

theorem pos_nonneg {p : ℕ} (hp : 1 ≤ p) {x : ℝ} (hx : 0 ≤ x) : 0 ≤ pos p x := by
  rcases hx.eq_or_lt with rfl | hx
  · rw [pos_zero]
  · obtain ⟨m, _, _, h⟩ := pos_bits hp hx
    rw [h]; exact mul_nonneg (Nat.cast_nonneg m) (two_zpow_pos _).le

theorem pos_err (p : ℕ) {x : ℝ} (hx : 0 ≤ x) : |pos p x - x| ≤ (1 / 2) ^ p * x := by
  rcases hx.eq_or_lt with rfl | hx
  · simp [pos_zero]
  rw [pos]
  set e := Int.log 2 x - p + 1 with he
  have h := (roundEven_spec (x / 2 ^ e)).1
  have e1 : (roundEven (x / 2 ^ e) : ℝ) * 2 ^ e - x = -((x / 2 ^ e - (roundEven (x / 2 ^ e) : ℤ)) * 2 ^ e) := by
    rw [sub_mul, div_mul_cancel₀ _ (two_zpow_pos e).ne']; ring
  rw [e1, abs_neg, abs_mul, abs_of_pos (two_zpow_pos e)]
  calc |x / 2 ^ e - (roundEven (x / 2 ^ e) : ℤ)| * 2 ^ e ≤ 1 / 2 * 2 ^ e := mul_le_mul_of_nonneg_right h (two_zpow_pos e).le
    _ = (1 / 2) ^ p * 2 ^ Int.log 2 x := by
      have : (2 : ℝ) ^ e = 2 ^ Int.log 2 x * ((1 / 2) ^ p * 2) := by
        rw [he, zpow_add₀ (by norm_num), zpow_sub₀ (by norm_num), zpow_natCast, zpow_one, one_div, inv_pow]; field_simp
      rw [this]; ring
    _ ≤ (1 / 2) ^ p * x := mul_le_mul_of_nonneg_left (log_le' hx) (by positivity)

theorem pos_mono {p : ℕ} (hp : 1 ≤ p) {x y : ℝ} (hx : 0 ≤ x) (h : x ≤ y) : pos p x ≤ pos p y := by
  rcases hx.eq_or_lt with rfl | hx
  · rw [pos_zero]; exact pos_nonneg hp h
  have hy : 0 < y := hx.trans_le h
  rcases lt_or_eq_of_le (Int.log_mono_right (b := 2) hx h) with hl | hl
  · obtain ⟨m, hm, _, em⟩ := pos_bits hp hx
    obtain ⟨n, _, hn, en⟩ := pos_bits hp hy
    rw [em, en]
    have a : (m : ℝ) * 2 ^ (Int.log 2 x - p + 1) ≤ 2 ^ (Int.log 2 x + 1) := by
      calc (m : ℝ) * 2 ^ (Int.log 2 x - p + 1) ≤ 2 ^ p * 2 ^ (Int.log 2 x - p + 1) :=
            mul_le_mul_of_nonneg_right (by exact_mod_cast hm) (two_zpow_pos _).le
        _ = 2 ^ (Int.log 2 x + 1) := by
            rw [← zpow_natCast, ← zpow_add₀ (by norm_num)]; congr 1; ring
    have b : (2 : ℝ) ^ Int.log 2 y ≤ (n : ℝ) * 2 ^ (Int.log 2 y - p + 1) := by
      calc (2 : ℝ) ^ Int.log 2 y = 2 ^ (p - 1) * 2 ^ (Int.log 2 y - p + 1) := by
            rw [← zpow_natCast, ← zpow_add₀ (by norm_num)]; congr 1; omega
        _ ≤ (n : ℝ) * 2 ^ (Int.log 2 y - p + 1) := mul_le_mul_of_nonneg_right (by exact_mod_cast hn) (two_zpow_pos _).le
    refine a.trans (le_trans ?_ b)
    exact zpow_le_zpow_right₀ (by norm_num) (by omega)
  · rw [pos, pos, hl]
    refine mul_le_mul_of_nonneg_right ?_ (two_zpow_pos _).le
    exact_mod_cast roundEven_mono (div_le_div_of_nonneg_right h (two_zpow_pos _).le)

theorem rndBin_nonneg {p : ℕ} {x : ℝ} (hx : 0 ≤ x) : rndBin p x = pos p x := if_neg (not_lt.2 hx)
theorem rndBin_neg (p : ℕ) (x : ℝ) : rndBin p (-x) = -rndBin p x := by
  unfold rndBin
  rcases lt_trichotomy x 0 with h | h | h
  · rw [if_neg (by linarith), if_pos h]; ring
  · subst h; simp [pos_zero]
  · rw [if_pos (by linarith), if_neg (by linarith), neg_neg]

/-- The binary format with `p` significant bits. -/
noncomputable def bin (p : ℕ) (hp : 1 ≤ p) : Fmt where
  rnd := rndBin p
  u := (1 / 2) ^ p
  u0 := by positivity
  u1 := pow_lt_one₀ (by norm_num) (by norm_num) (by omega)
  err x := by
    rcases le_or_gt 0 x with h | h
    · rw [rndBin_nonneg h, abs_of_nonneg h]; exact pos_err p h
    · rw [rndBin, if_pos h, abs_of_neg h, show -pos p (-x) - x = -(pos p (-x) - -x) by ring, abs_neg]
      exact pos_err p (by linarith)
  mono x y h := by
    unfold rndBin
    split_ifs with h1 h2 h2
    · exact neg_le_neg (pos_mono hp (by linarith) (by linarith))
    · have := pos_nonneg hp (x := -x) (by linarith)
      have := pos_nonneg hp (x := y) (by linarith)
      linarith
    · linarith
    · exact pos_mono hp (by linarith) h
  idem x := by
    have key : ∀ x, 0 ≤ x → rndBin p (pos p x) = pos p x := by
      intro x hx
      rw [rndBin_nonneg (pos_nonneg hp hx)]
      rcases hx.eq_or_lt with rfl | hx
      · rw [pos_zero, pos_zero]
      · obtain ⟨m, hm, _, h⟩ := pos_bits hp hx
        rw [h]; exact pos_rep hp hm _
    rcases le_or_gt 0 x with h | h
    · rw [rndBin_nonneg h]; exact key x h
    · have e : rndBin p x = -pos p (-x) := if_pos h
      rw [e, rndBin_neg, key _ (by linarith)]

/-- Numbers of the binary format: `± m * 2 ^ j` with `m ≤ 2 ^ p`. -/
theorem bin_has {p : ℕ} (hp : 1 ≤ p) {m : ℕ} (hm : m ≤ 2 ^ p) (j : ℤ) : (bin p hp).Has ((m : ℝ) * 2 ^ j) ∧ (bin p hp).Has (-((m : ℝ) * 2 ^ j)) := by
  have h : rndBin p ((m : ℝ) * 2 ^ j) = (m : ℝ) * 2 ^ j := by
    rw [rndBin_nonneg (mul_nonneg (Nat.cast_nonneg m) (two_zpow_pos j).le)]; exact pos_rep hp hm j
  exact ⟨h, by show rndBin p _ = _; rw [rndBin_neg, h]⟩

/-- float32 without the limits of the exponent. -/
noncomputable def f32Fmt : Fmt := bin 24 (by norm_num)

/-! ### Consequences of the laws of a format -/

theorem Fmt.zero (F : Fmt) : F.rnd 0 = 0 := by
  have := F.err 0
  simpa using this

theorem Fmt.nonneg (F : Fmt) {x : ℝ} (h : 0 ≤ x) : 0 ≤ F.rnd x := by
  have := F.mono h
  rwa [F.zero] at this

theorem Fmt.upper (F : Fmt) {x : ℝ} (h : 0 ≤ x) : F.rnd x ≤ (1 + F.u) * x := by
  have := (abs_le.1 (F.err x)).2
  rw [abs_of_nonneg h] at this; linarith

theorem Fmt.lower (F : Fmt) {x : ℝ} (h : 0 ≤ x) : (1 - F.u) * x ≤ F.rnd x := by
  have := (abs_le.1 (F.err x)).1
  rw [abs_of_nonneg h] at this; linarith

theorem Fmt.pos_of_pos (F : Fmt) {x : ℝ} (h : 0 < x) : 0 < F.rnd x :=
  lt_of_lt_of_le (mul_pos (by linarith [F.u1]) h) (F.lower h.le)

/-- Rounding multiplies by a factor between `1 - u` and `1 + u`. -/
theorem Fmt.factor (F : Fmt) (x : ℝ) : ∃ d, |d| ≤ F.u ∧ F.rnd x = x * (1 + d) := by
  rcases eq_or_ne x 0 with rfl | h
  · exact ⟨0, by simpa using F.u0, by simp [F.zero]⟩
  · refine ⟨(F.rnd x - x) / x, ?_, by field_simp; ring⟩
    rw [abs_div, div_le_iff₀ (abs_pos.2 h)]
    exact F.err x

theorem Fmt.abs_rnd (F : Fmt) (x : ℝ) : |F.rnd x| ≤ (1 + F.u) * |x| := by
  have := F.err x
  calc |F.rnd x| = |(F.rnd x - x) + x| := by ring_nf
    _ ≤ |F.rnd x - x| + |x| := abs_add_le _ _
    _ ≤ (1 + F.u) * |x| := by linarith
end Verif.Flt
