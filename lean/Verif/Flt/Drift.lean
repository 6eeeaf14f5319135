import Verif.Flt.Props
import Verif.Fusion.Witness
/-!
C90: in float32 a point that is never matched does move, one rounding step per call, and when it does not.
-/
namespace Verif.Flt
open Verif Pcs Fusion

/-! ### Every sequence of calls succeeds -/

theorem inv_points {s : PC ℝ} {a a' : Clouds ℝ} (h : Inv s a) (h' : Inv s a') : a = a' := by
  funext X
  rw [← (inv_obs h).list X, (inv_obs h').list X]

/-- **C90**, the runs the theorems speak about exist: every sequence of calls with frames of the map's batch size and tables that refer to
points of the map and pixels of the frame, no map point twice, succeeds in floating point. -/
theorem runs_succeed (F : Fmt) {al : V3 ℝ → ℝ} (hal : ∀ p, 0 < al p ∧ F.Has (al p)) (cs : List Call) :
    ∀ {s : PC ℝ} {a : Clouds ℝ} {P Q : List (T2 ℝ)}, Inv s a → FusionMap a P Q → Counted F Q →
      (∀ c ∈ cs, c.fr.B = P.length ∧ RowsOk P c.fr c.rows ∧ UniquePts c.rows) → ∃ t, Runs F al s cs t := by
  induction cs with
  | nil => intro s a P Q _ _ _ _; exact ⟨s, .nil s⟩
  | cons c cs ih =>
    intro s a P Q hi hm hc hok
    obtain ⟨hB, hr, hu⟩ := hok c (List.mem_cons_self ..)
    obtain ⟨s', s0, a', P', Q', e, i', m', c', _⟩ := fuse_call_rounding F hi hm hc hal c.inplace hB hr hu
    obtain ⟨a2, P2, Q2, i2, m2, hl, hsome, _⟩ := fuseF_values F hi hm hB hr hu e
    obtain rfl := inv_points i' i2
    obtain rfl : P' = P2 := by have := m'.pts; rw [m2.pts] at this; exact (Option.some.inj this).symm
    obtain ⟨t, ht⟩ := ih i' m' c' fun d hd => by
      obtain ⟨k1, k2, k3⟩ := hok d (List.mem_cons_of_mem _ hd)
      exact ⟨by rw [hl, hB, k1], fun r hr => ⟨hsome _ _ (k2 r hr).1, (k2 r hr).2⟩, k3⟩
    refine ⟨t, .cons s s' t c cs s0 ?_ ?_ hu e ht⟩
    · intro a3 P3 i3 h3
      obtain rfl := inv_points hi i3
      have := hm.pts; rw [h3] at this; rw [Option.some.inj this]; exact hB
    · intro a3 P3 i3 h3
      obtain rfl := inv_points hi i3
      have := hm.pts; rw [h3] at this; rw [Option.some.inj this]; exact hr

/-! ### Updates of a point that is never matched -/

theorem idle_updates {al : V3 ℝ → ℝ} {X : Attr} {i : Nat} {cs : List Call} {b n : Nat} (hno : ∀ c ∈ cs, hit c.rows b n = none) :
    updates al X i cs b n = List.replicate (cs.filter fun c => c.rows ≠ []).length (0, 0) := by
  rw [updates, List.eq_replicate_iff]
  refine ⟨by simp, fun e he => ?_⟩
  simp only [List.mem_map, List.mem_filter] at he
  obtain ⟨c, ⟨hc, _⟩, rfl⟩ := he
  rw [seen, hno c hc]

/-- **C90**, when an idle point stays: if its number `x`, the reciprocal of its count and their product are numbers of the format, then any
sequence of calls in which the point is never matched keeps the number exactly. -/
theorem idle_kept (F : Fmt) {al : V3 ℝ → ℝ} {s t : PC ℝ} {cs : List Call} (h : Runs F al s cs t)
    {a : Clouds ℝ} {P Q : List (T2 ℝ)} (hi : Inv s a) (hm : FusionMap a P Q) {X : Attr} {l : List (T2 ℝ)} (hX : X ≠ .features)
    (hl : a X = some l) {b n : Nat} {x : V3 ℝ} (hx : vecAt l b n = some x) (hc : 0 < conf Q b n) (hr : F.Has (conf Q b n))
    (hr' : F.Has (1 / conf Q b n)) (hno : ∀ c ∈ cs, hit c.rows b n = none) (i : Nat) (hxi : F.Has (comp x i))
    (hp : F.Has (conf Q b n * comp x i)) :
    ∃ a' l' x', Inv t a' ∧ a' X = some l' ∧ vecAt l' b n = some x' ∧ comp x' i = comp x i := by
  obtain ⟨a', P', Q', i', m', hv⟩ := run_track F h hi hm
  obtain ⟨l', hl', hv⟩ := hv X l hX hl
  obtain ⟨x', hx', hf⟩ := hv b n x hx
  refine ⟨a', l', x', i', hl', hx', ?_⟩
  have key : ∀ k : Nat, (List.replicate k ((0 : ℝ), (0 : ℝ))).foldl (Cell.step F) ⟨conf Q b n, comp x i⟩ = ⟨conf Q b n, comp x i⟩ := by
    intro k
    induction k with
    | zero => rfl
    | succ k ih =>
      rw [List.replicate_succ', List.foldl_append, ih, List.foldl_cons, List.foldl_nil]
      obtain ⟨g1, _, g3⟩ := idle_step F (p := ⟨conf Q b n, comp x i⟩) hc hr
      have e1 := g1; have e2 := g3 hp hr' hxi
      generalize hz : Cell.step F ⟨conf Q b n, comp x i⟩ (0, 0) = z at e1 e2
      obtain ⟨zc, zx⟩ := z
      simp only at e1 e2
      rw [e1, e2]
  have := hf i
  rw [idle_updates hno, key] at this
  exact (congrArg Cell.x this).symm

/-! ### A float32 point that drifts -/

theorem roundEven_near {y : ℝ} {k : ℤ} (h : |y - k| < 1 / 2) : roundEven y = k := by
  have h1 := (roundEven_spec y).1
  have h2 : |((roundEven y - k : ℤ) : ℝ)| < 1 := by
    push_cast
    calc |(roundEven y : ℝ) - k| = |(y - k) - (y - (roundEven y : ℤ))| := by ring_nf
      _ ≤ |y - k| + |y - (roundEven y : ℤ)| := abs_sub _ _
      _ < 1 := by linarith
  have h3 : |roundEven y - k| < 1 := by exact_mod_cast h2
  have := Int.abs_lt_one_iff.1 h3
  omega

/-- Rounding in float32 of a number between 1 and 2, and between 1/2 and 1. -/
theorem f32_one {x : ℝ} {m : ℕ} (h1 : 1 ≤ x) (h2 : x < 2) (h : |x * 8388608 - m| < 1 / 2) : f32Fmt.rnd x = m / 8388608 := by
  show rndBin 24 x = _
  rw [rndBin_nonneg (by linarith), pos_eq (k := 0) (by simpa using h1) (by simpa using h2)]
  have e : (2 : ℝ) ^ ((0 : ℤ) - (24 : ℕ) + 1) = 1 / 8388608 := by norm_num
  rw [e, roundEven_near (k := (m : ℤ))]
  · push_cast; ring
  · have : x / (1 / 8388608) - ((m : ℤ) : ℝ) = x * 8388608 - m := by push_cast; ring
    rw [this]; exact h

theorem f32_half {x : ℝ} {m : ℕ} (h1 : 1 / 2 ≤ x) (h2 : x < 1) (h : |x * 16777216 - m| < 1 / 2) : f32Fmt.rnd x = m / 16777216 := by
  show rndBin 24 x = _
  rw [rndBin_nonneg (by linarith), pos_eq (k := -1) (by norm_num; linarith) (by norm_num; linarith)]
  have e : (2 : ℝ) ^ ((-1 : ℤ) - (24 : ℕ) + 1) = 1 / 16777216 := by norm_num
  rw [e, roundEven_near (k := (m : ℤ))]
  · push_cast; ring
  · have : x / (1 / 16777216) - ((m : ℤ) : ℝ) = x * 16777216 - m := by push_cast; ring
    rw [this]; exact h

/-- The count of the example, about 1.00017. -/
noncomputable def driftC : ℝ := 8390048 / 8388608

theorem driftC_has : f32Fmt.Has driftC := by
  have := (bin_has (p := 24) (by norm_num) (m := 8390048) (by norm_num) (-23)).1
  have e : ((8390048 : ℕ) : ℝ) * 2 ^ (-23 : ℤ) = driftC := by rw [driftC]; norm_num
  rwa [e] at this

/-- One call in which the point is not matched: the number decreases by one unit in the last place. -/
theorem drift_step {m : ℕ} (h1 : 16381189 ≤ m) (h2 : m ≤ 16383999) :
    Cell.step f32Fmt ⟨driftC, m / 8388608⟩ (0, 0) = ⟨driftC, ((m - 1 : ℕ) : ℝ) / 8388608⟩ := by
  have g1 : (16381189 : ℝ) ≤ m := by exact_mod_cast h1
  have g2 : (m : ℝ) ≤ 16383999 := by exact_mod_cast h2
  have hc : f32Fmt.rnd driftC = driftC := driftC_has
  have hc0 : driftC ≠ 0 := by rw [driftC]; norm_num
  have k1 : f32Fmt.rnd (driftC * (m / 8388608)) = ((m + 2812 : ℕ) : ℝ) / 8388608 := by
    apply f32_one
    · rw [driftC]; linarith
    · rw [driftC]; linarith
    · rw [driftC, abs_lt]; push_cast; constructor <;> linarith
  have k2 : f32Fmt.rnd (1 / driftC) = ((16774336 : ℕ) : ℝ) / 16777216 := by
    apply f32_half
    · rw [driftC]; norm_num
    · rw [driftC]; norm_num
    · rw [driftC, abs_lt]; norm_num
  have k3 : f32Fmt.rnd (((m + 2812 : ℕ) : ℝ) / 8388608 * (((16774336 : ℕ) : ℝ) / 16777216)) = ((m - 1 : ℕ) : ℝ) / 8388608 := by
    have e : ((m - 1 : ℕ) : ℝ) = m - 1 := by rw [Nat.cast_sub (by omega)]; simp
    apply f32_one
    · push_cast; linarith
    · push_cast; linarith
    · rw [e, abs_lt]; push_cast; constructor <;> linarith
  have e : (Cell.step f32Fmt ⟨driftC, m / 8388608⟩ (0, 0)) =
      ⟨driftC, f32Fmt.rnd (f32Fmt.rnd (driftC * (m / 8388608)) * f32Fmt.rnd (1 / driftC))⟩ := by
    simp only [Cell.step, mergeF, add_zero, mul_zero, f32Fmt.zero, hc, f32Fmt.idem, guard0, if_neg hc0]
  rw [e, k1, k2, k3]

theorem drift_steps (k : ℕ) (hk : k ≤ 2811) :
    (List.replicate k ((0 : ℝ), (0 : ℝ))).foldl (Cell.step f32Fmt) ⟨driftC, 16383999 / 8388608⟩ = ⟨driftC, (16383999 - k) / 8388608⟩ := by
  induction k with
  | zero => simp
  | succ k ih =>
    have e : ((16383999 : ℝ) - k) / 8388608 = ((16383999 - k : ℕ) : ℝ) / 8388608 := by
      rw [Nat.cast_sub (by omega)]; norm_num
    rw [List.replicate_succ', List.foldl_append, ih (by omega), List.foldl_cons, List.foldl_nil, e, drift_step (by omega) (by omega),
      Nat.cast_sub (by omega), Nat.cast_sub (by omega)]
    push_cast; congr 1; ring

/-- **C90**, an idle point does move.  In float32, take any run of `k ≤ 2811` calls with matches (and any number of calls without), none of
them for point `(b, n)`, whose count is `8390048 / 2^23` (about 1.00017) and one of whose numbers is `16383999 / 2^23` (about 1.9531): that
number ends up exactly `k` units in the last place lower, `(16383999 - k) / 2^23`.  After 2811 calls it is off by more than 3e-4. -/
theorem idle_drifts {al : V3 ℝ → ℝ} {s t : PC ℝ} {cs : List Call} (h : Runs f32Fmt al s cs t)
    {a : Clouds ℝ} {P Q : List (T2 ℝ)} (hi : Inv s a) (hm : FusionMap a P Q) {X : Attr} {l : List (T2 ℝ)} (hX : X ≠ .features)
    (hl : a X = some l) {b n : Nat} {x : V3 ℝ} (hx : vecAt l b n = some x) (hc : conf Q b n = 8390048 / 8388608) {i : Nat}
    (hxi : comp x i = 16383999 / 8388608) (hno : ∀ c ∈ cs, hit c.rows b n = none) (hk : (cs.filter fun c => c.rows ≠ []).length ≤ 2811) :
    ∃ a' l' x', Inv t a' ∧ a' X = some l' ∧ vecAt l' b n = some x' ∧
      comp x' i = (16383999 - (cs.filter fun c => c.rows ≠ []).length) / 8388608 := by
  obtain ⟨a', P', Q', i', m', hv⟩ := run_track f32Fmt h hi hm
  obtain ⟨l', hl', hv⟩ := hv X l hX hl
  obtain ⟨x', hx', hf⟩ := hv b n x hx
  refine ⟨a', l', x', i', hl', hx', ?_⟩
  have := hf i
  rw [idle_updates hno, hxi, show conf Q b n = driftC from hc, drift_steps _ hk] at this
  exact (congrArg Cell.x this).symm

/-! ### A map for which all this happens -/

/-- One cloud of two points; the first has the count and the coordinate of `idle_drifts`, the second has count 1. -/
noncomputable def dP : List (T2 ℝ) := [⟨[[16383999 / 8388608, 0, 1], [0, 0, 2]], 3⟩]
noncomputable def dQ : List (T2 ℝ) := [⟨[[8390048 / 8388608], [1]], 1⟩]
noncomputable def dA : Clouds ℝ := fun X => match X with | .points => some dP | .normals => some dP | .colors => some dP | .features => some dQ
noncomputable def dS : PC ℝ := ⟨fun X => if X = .points then some dP else dA X, fun _ => none, none, fun _ => none, [2], some true, 1, 2⟩

theorem dS_hist : Hist dS dA := by
  refine .fromList (P := dP) rfl ?_ rfl
  intro X l hl t ht r hr
  have hp : ∀ t ∈ dP, ∀ r ∈ t.rows, r.length = t.cols := by
    intro t ht r hr
    simp only [dP, List.mem_singleton] at ht; subst ht
    simp only [List.mem_cons, List.not_mem_nil, or_false] at hr
    rcases hr with rfl | rfl <;> rfl
  cases X with
  | points => cases hl; exact hp t ht r hr
  | normals => cases hl; exact hp t ht r hr
  | colors => cases hl; exact hp t ht r hr
  | features =>
    cases hl
    simp only [dQ, List.mem_singleton] at ht; subst ht
    simp only [List.mem_cons, List.not_mem_nil, or_false] at hr
    rcases hr with rfl | rfl <;> rfl

theorem dA_map : FusionMap dA dP dQ := ⟨rfl, rfl, rfl, rfl, by intro t ht; simp only [dQ, List.mem_singleton] at ht; subst ht; rfl⟩

theorem f32_has_one : f32Fmt.Has 1 := by
  have := (bin_has (p := 24) (by norm_num) (m := 1) (by norm_num) 0).1
  have e : ((1 : ℕ) : ℝ) * 2 ^ (0 : ℤ) = 1 := by simp
  rw [e] at this; exact this

theorem dQ_counted : Counted f32Fmt dQ := by
  intro b n h
  match b, n with
  | 0, 0 => exact ⟨by show (0 : ℝ) < 8390048 / 8388608; norm_num, driftC_has⟩
  | 0, 1 => exact ⟨one_pos, f32_has_one⟩
  | 0, n + 2 => simp [rowAt, dQ] at h
  | b + 1, n => simp [rowAt, dQ] at h

/-- A frame of one pixel with depth. -/
noncomputable def dFr : Frame ℝ := ⟨1, 1, 1, 1, fun _ _ _ _ => ⟨0, 0, 1⟩, fun _ _ _ _ => ⟨0, 0, 1⟩, fun _ _ _ _ => ⟨0, 0, 1⟩,
  fun _ _ _ _ => ⟨0, 0, 1⟩, fun _ _ _ _ => ⟨0, 0, 1⟩, fun _ _ _ _ => true, some fun _ _ => M4.one, fun _ => M4.one⟩

/-- **C90**, the case exists: for every `k ≤ 2811` there is a run of `k` calls on a real map, every call matching the second point only, after
which the first point's `x` coordinate is `(16383999 - k) / 2^23` in float32, although it is not in any table; the run meets the hypotheses
of all theorems above. -/
theorem drift_case (k : ℕ) (hk : k ≤ 2811) : ∃ (cs : List Call) (t : PC ℝ) (a' : Clouds ℝ) (l' : List (T2 ℝ)) (x' : V3 ℝ),
    cs.length = k ∧ (∀ c ∈ cs, c.rows = [⟨0, 1, 0, 0⟩] ∧ hit c.rows 0 0 = none) ∧ Runs f32Fmt (fun _ => 1) dS cs t ∧
    vecAt dP 0 0 = some ⟨16383999 / 8388608, 0, 1⟩ ∧ Inv t a' ∧ a' .points = some l' ∧ vecAt l' 0 0 = some x' ∧
    x'.x = (16383999 - k) / 8388608 := by
  set c : Call := ⟨dFr, [⟨0, 1, 0, 0⟩], true⟩ with hcd
  have h1 : ∀ d ∈ List.replicate k c, d = c := fun d hd => List.eq_of_mem_replicate hd
  have one : f32Fmt.Has 1 := f32_has_one
  obtain ⟨t, ht⟩ := runs_succeed f32Fmt (al := fun _ => 1) (fun _ => ⟨one_pos, one⟩) (List.replicate k c) dS_hist.inv dA_map dQ_counted
    (fun d hd => by
      rw [h1 d hd]
      refine ⟨rfl, ?_, List.pairwise_singleton _ _⟩
      intro r hr
      simp only [hcd, List.mem_singleton] at hr
      subst hr
      exact ⟨rfl, by decide, by decide, by decide⟩)
  have hh : hit c.rows 0 0 = none := by decide
  have hl : ((List.replicate k c).filter fun c => c.rows ≠ []).length = k := by
    rw [List.filter_eq_self.2 (fun d hd => by rw [h1 d hd]; rfl), List.length_replicate]
  obtain ⟨a', l', x', i', hl', hx', e⟩ := idle_drifts ht dS_hist.inv dA_map (X := .points) (by simp) rfl (b := 0) (n := 0) (i := 0) rfl rfl rfl
    (fun d hd => by rw [h1 d hd]; exact hh) (by rw [hl]; exact hk)
  rw [hl] at e
  exact ⟨_, t, a', l', x', List.length_replicate, fun d hd => by rw [h1 d hd]; exact ⟨rfl, hh⟩, ht, rfl, i', hl', hx', e⟩

/-- The hypotheses of `idle_kept` are met, for example, by every number of the format of a point whose count is a power of two. -/
theorem idle_kept_hypotheses (p : ℕ) (hp : 1 ≤ p) (m : ℕ) (hm : m ≤ 2 ^ p) (j k : ℤ) :
    let F := bin p hp; let c : ℝ := 2 ^ j; let x : ℝ := m * 2 ^ k
    0 < c ∧ F.Has c ∧ F.Has (1 / c) ∧ F.Has x ∧ F.Has (c * x) := by
  intro F c x
  have one : ∀ j : ℤ, F.Has (2 ^ j) := fun j => by
    have := (bin_has hp (m := 1) (Nat.one_le_two_pow) j).1
    simpa using this
  refine ⟨two_zpow_pos j, one j, ?_, (bin_has hp hm k).1, ?_⟩
  · have : 1 / c = (2 : ℝ) ^ (-j) := by simp [c, zpow_neg]
    rw [this]; exact one _
  · have : c * x = (m : ℝ) * 2 ^ (j + k) := by
      simp only [c, x]; rw [zpow_add₀ (by norm_num)]; ring
    rw [this]; exact (bin_has hp hm _).1
end Verif.Flt
