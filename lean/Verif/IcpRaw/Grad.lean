import Verif.IcpRaw.Table
import Verif.Icp.Norm
/-!
The decision table of `point_to_plane_gradICP`, and concrete cases (C111).
-/
namespace Verif.IcpRaw
open Verif Pcs Nd

/-- The number in an argument. -/
def value (a : Arg) : ℝ := (limit a).getD 0

theorem number_value {a : Arg} (h : IsNumber a) : a.number? = some (value a) := by
  rcases h with ⟨x, rfl⟩ | ⟨n, rfl⟩ <;> rfl

section
variable {eps : ℝ} {nn : List (V3 ℝ) → V3 ℝ → Nat} {damp : ℝ}

/-- C111, 1.  Wrong types: TypeError; the four parameters must be floats or ints. -/
theorem grad_type {src tgt nrm T0 numiters th lmax B B2 nu : Arg}
    (h : ¬ (TypesOk src tgt nrm T0 numiters ∧ IsNumber lmax ∧ IsNumber B ∧ IsNumber B2 ∧ IsNumber nu)) :
    gradIcp eps nn src tgt nrm T0 numiters damp th lmax B B2 nu = .error .typeError := by
  unfold gradIcp
  by_cases h1 : TypesOk src tgt nrm T0 numiters
  swap
  · rw [common_bad h1]
  obtain ⟨⟨s, rfl⟩, ⟨t, rfl⟩, ⟨m, rfl⟩, hT, n, rfl⟩ := h1
  have hp : ¬ (IsNumber lmax ∧ IsNumber B ∧ IsNumber B2 ∧ IsNumber nu) :=
    fun h2 => h ⟨⟨⟨s, rfl⟩, ⟨t, rfl⟩, ⟨m, rfl⟩, hT, n, rfl⟩, h2⟩
  have key : lmax.number? = .none ∨ B.number? = .none ∨ B2.number? = .none ∨ nu.number? = .none := by
    simp only [number_none]
    tauto
  have hc : ∃ x, common (.tensor s) (.tensor t) (.tensor m) T0 (.int n) = .ok x := by
    rcases hT with ⟨T, rfl⟩ | rfl <;> exact ⟨_, rfl⟩
  obtain ⟨⟨a, b, c⟩, hc⟩ := hc
  simp only [hc]
  generalize lmax.number? = p at *
  generalize B.number? = q at *
  generalize B2.number? = r at *
  generalize nu.number? = w at *
  rcases key with rfl | rfl | rfl | rfl
  · rfl
  · cases p <;> rfl
  · cases p <;> cases q <;> rfl
  · cases p <;> cases q <;> cases r <;> rfl

variable {lmax B B2 nu : Arg} (hl : IsNumber lmax) (hB : IsNumber B) (hB2 : IsNumber B2) (hnu : IsNumber nu)
include hl hB hB2 hnu

theorem grad_open {s t m : Tensor ℝ} {T0 : Option (Tensor ℝ)} {a : Arg} {n : ℤ} {th : Arg}
    (ha : a = match T0 with | .none => .none | some T => .tensor T) :
    gradIcp eps nn (.tensor s) (.tensor t) (.tensor m) a (.int n) damp th lmax B B2 nu =
      match checkT0 T0 with
      | .error e => .error e
      | .ok T => if value lmax = 0 then .error .zeroDivisionError
          else run (gradStep eps (value lmax) (value B) (value B2) (value nu) nn (.tensor t) (.tensor m) th) s T n damp := by
  subst ha
  unfold gradIcp
  rw [number_value hl, number_value hB, number_value hB2, number_value hnu]
  cases T0 <;> rfl

/-- C111, 2.  Without an initial transform (the default): AttributeError. -/
theorem grad_none {s t m : Tensor ℝ} {n : ℤ} {th : Arg} :
    gradIcp eps nn (.tensor s) (.tensor t) (.tensor m) .none (.int n) damp th lmax B B2 nu = .error .attributeError := by
  rw [grad_open hl hB hB2 hnu (T0 := .none) rfl]; rfl

/-- C111, 3.  An initial transform of a shape other than `(4, 4)`: ValueError. -/
theorem grad_T0 {s t m T : Tensor ℝ} {n : ℤ} {th : Arg} (h : shape T ≠ [4, 4]) :
    gradIcp eps nn (.tensor s) (.tensor t) (.tensor m) (.tensor T) (.int n) damp th lmax B B2 nu = .error .valueError := by
  rw [grad_open hl hB hB2 hnu (T0 := some T) rfl, checkT0_bad h]

/-- C111, 3b.  `lambda_max = 0`: ZeroDivisionError, before the source is looked at. -/
theorem grad_lmax {s t m T : Tensor ℝ} {n : ℤ} {th : Arg} (hT : shape T = [4, 4]) (h0 : value lmax = 0) :
    gradIcp eps nn (.tensor s) (.tensor t) (.tensor m) (.tensor T) (.int n) damp th lmax B B2 nu = .error .zeroDivisionError := by
  rw [grad_open hl hB hB2 hnu (T0 := some T) rfl, checkT0_good hT]
  simp only [if_pos h0]

theorem grad_run {s t m T : Tensor ℝ} {n : ℤ} {th : Arg} (hT : shape T = [4, 4]) (h0 : value lmax ≠ 0) :
    gradIcp eps nn (.tensor s) (.tensor t) (.tensor m) (.tensor T) (.int n) damp th lmax B B2 nu =
      run (gradStep eps (value lmax) (value B) (value B2) (value nu) nn (.tensor t) (.tensor m) th) s T n damp := by
  rw [grad_open hl hB hB2 hnu (T0 := some T) rfl, checkT0_good hT]
  simp only [if_neg h0]

/-- C111, 4.  A source that is a scalar, or whose batch is empty: IndexError. -/
theorem grad_src_index {s t m T : Tensor ℝ} {n : ℤ} {th : Arg} (hT : shape T = [4, 4]) (h0 : value lmax ≠ 0)
    (h : (shape s).head? = .none ∨ (shape s).head? = some 0) :
    gradIcp eps nn (.tensor s) (.tensor t) (.tensor m) (.tensor T) (.int n) damp th lmax B B2 nu = .error .indexError := by
  rw [grad_run hl hB hB2 hnu hT h0, run_index h]

/-- C111, 5.  Any other source not of shape `(B, N, 3)`: ValueError. -/
theorem grad_src_value {s t m T : Tensor ℝ} {n : ℤ} {th : Arg} (hT : shape T = [4, 4]) (h0 : value lmax ≠ 0)
    (h1 : (shape s).head? ≠ .none) (h2 : (shape s).head? ≠ some 0) (h : ∀ B N, shape s ≠ [B, N, 3]) :
    gradIcp eps nn (.tensor s) (.tensor t) (.tensor m) (.tensor T) (.int n) damp th lmax B B2 nu = .error .valueError := by
  rw [grad_run hl hB hB2 hnu hT h0, run_value h1 h2 h]

/-- C111, 6.  No iterations: UnboundLocalError. -/
theorem grad_no_iterations {s t m T : Tensor ℝ} {n : ℤ} {th : Arg} {b N : Nat} (hT : shape T = [4, 4]) (h0 : value lmax ≠ 0)
    (hs : shape s = [b + 1, N, 3]) (hn : n ≤ 0) :
    gradIcp eps nn (.tensor s) (.tensor t) (.tensor m) (.tensor T) (.int n) damp th lmax B B2 nu = .error .unboundLocalError := by
  rw [grad_run hl hB hB2 hnu hT h0, run_good hs, finish_unbound rfl hn]

/-- C111, 7.  A threshold that is neither a number nor `None`: TypeError. -/
theorem grad_thresh {s t m T : Tensor ℝ} {n : ℤ} {th : Arg} {b N : Nat} (hT : shape T = [4, 4]) (h0 : value lmax ≠ 0)
    (hs : shape s = [b + 1, N, 3]) (hn : 1 ≤ n) (hth : ¬ IsThresh th) :
    gradIcp eps nn (.tensor s) (.tensor t) (.tensor m) (.tensor T) (.int n) damp th lmax B B2 nu = .error .typeError := by
  rw [grad_run hl hB hB2 hnu hT h0, run_good hs, finish_fails hn]
  unfold gradStep
  rw [lookahead_fails fun l => gauss_type fun h => hth h.2.2.2]

/-- C111, 8.  Target and normals not of the same shape `(1, Nt, 3)`: ValueError. -/
theorem grad_target {s t m T : Tensor ℝ} {n : ℤ} {th : Arg} {b N : Nat} (hT : shape T = [4, 4]) (h0 : value lmax ≠ 0)
    (hs : shape s = [b + 1, N, 3]) (hn : 1 ≤ n) (hth : IsThresh th) (h : ¬ ∃ Nt, shape t = [1, Nt, 3] ∧ shape m = [1, Nt, 3]) :
    gradIcp eps nn (.tensor s) (.tensor t) (.tensor m) (.tensor T) (.int n) damp th lmax B B2 nu = .error .valueError := by
  rw [grad_run hl hB hB2 hnu hT h0, run_good hs, finish_fails hn]
  unfold gradStep
  rw [lookahead_fails fun l => gauss_value ⟨⟨_, rfl⟩, ⟨_, rfl⟩, ⟨_, rfl⟩, hth⟩ ?_]
  rintro ⟨_, Nt, _, ⟨_, e1, h1⟩, ⟨_, e2, h2⟩⟩
  cases e1; cases e2
  exact h ⟨Nt, h1, h2⟩

/-- C111, 8b.  `nu = 0`: ZeroDivisionError in the first iteration (given a target with points and a positive damping). -/
theorem grad_nu (hnn : Icp.NearestIn nn) (hd : 0 < damp) {s t m T : Tensor ℝ} {n : ℤ} {th : Arg} {b N Nt : Nat} (hT : shape T = [4, 4])
    (h0 : value lmax ≠ 0) (hs : shape s = [b + 1, N, 3]) (hn : 1 ≤ n) (hth : IsThresh th) (ht : shape t = [1, Nt, 3])
    (hm : shape m = [1, Nt, 3]) (hNt : Nt ≠ 0) (h : value nu = 0) :
    gradIcp eps nn (.tensor s) (.tensor t) (.tensor m) (.tensor T) (.int n) damp th lmax B B2 nu = .error .zeroDivisionError := by
  rw [grad_run hl hB hB2 hnu hT h0, run_good hs, finish_fails hn]
  unfold gradStep
  rw [lookahead_good hth ht hm]
  obtain ⟨xi, e, _⟩ := Icp.lookahead_spec hnn (by simpa using hNt) (by simp) (th := limit th) (tgt := (List.range Nt).map (pointAt t))
    (nrm := (List.range Nt).map (pointAt m)) eps
    (⟨Geom.transformPointcloud (matOf T) ((List.range N).map (pointAt s)), damp, matOf T, .none⟩ : Icp.State) hd
  rw [e]
  simp only [lift, if_pos h]

/-- C111, 9.  In all remaining cases it is the registration (C55) of the FIRST cloud of the source batch. -/
theorem grad_good {s t m T : Tensor ℝ} {n : ℤ} {th : Arg} {b N Nt : Nat} (hT : shape T = [4, 4]) (h0 : value lmax ≠ 0)
    (hs : shape s = [b + 1, N, 3]) (hth : IsThresh th) (ht : shape t = [1, Nt, 3]) (hm : shape m = [1, Nt, 3]) (hnu0 : value nu ≠ 0) :
    gradIcp eps nn (.tensor s) (.tensor t) (.tensor m) (.tensor T) (.int n) damp th lmax B B2 nu =
      lift (Icp.pointToPlaneGradICP eps (value lmax) (value B) (value B2) (value nu) nn ((List.range N).map (pointAt s))
        ((List.range Nt).map (pointAt t)) ((List.range Nt).map (pointAt m)) (some (matOf T)) n damp (limit th)) := by
  rw [grad_run hl hB hB2 hnu hT h0, run_good hs, loop_lift (gradStep_good hnu0 hth ht hm)]
  rfl

omit hl hB hB2 hnu in
/-- C111.  Only the first cloud of a source batch matters. -/
theorem grad_first_only {s s' : Tensor ℝ} {tgt nrm T0 numiters th : Arg} {b b' N : Nat} (hs : shape s = [b + 1, N, 3])
    (hs' : shape s' = [b' + 1, N, 3]) (h : ∀ n k, n < N → k < 3 → s.get [k, n, 0] = s'.get [k, n, 0]) :
    gradIcp eps nn (.tensor s) tgt nrm T0 numiters damp th lmax B B2 nu =
      gradIcp eps nn (.tensor s') tgt nrm T0 numiters damp th lmax B B2 nu := by
  have hp : (List.range N).map (pointAt s) = (List.range N).map (pointAt s') := by
    refine List.map_congr_left fun n hn => ?_
    have hn := List.mem_range.1 hn
    simp only [pointAt, h n 0 hn (by omega), h n 1 hn (by omega), h n 2 hn (by omega)]
  by_cases h1 : TypesOk (.tensor s) tgt nrm T0 numiters ∧ IsNumber lmax ∧ IsNumber B ∧ IsNumber B2 ∧ IsNumber nu
  swap
  · rw [grad_type h1, grad_type]
    exact fun h2 => h1 ⟨⟨⟨s, rfl⟩, h2.1.2⟩, h2.2⟩
  obtain ⟨⟨_, ⟨t, rfl⟩, ⟨m, rfl⟩, ⟨T, rfl⟩ | rfl, n, rfl⟩, hl, hB, hB2, hnu⟩ := h1
  swap
  · rw [grad_none hl hB hB2 hnu, grad_none hl hB hB2 hnu]
  by_cases hT : shape T = [4, 4]
  swap
  · rw [grad_T0 hl hB hB2 hnu hT, grad_T0 hl hB hB2 hnu hT]
  by_cases h0 : value lmax = 0
  · rw [grad_lmax hl hB hB2 hnu hT h0, grad_lmax hl hB hB2 hnu hT h0]
  rw [grad_run hl hB hB2 hnu hT h0, grad_run hl hB hB2 hnu hT h0, run_good hs, run_good hs', hp]
end

/-! ### Concrete cases -/

/-- The entry in row `r` and column `c` of a matrix (`Tensor.get` takes the last index first). -/
def entry (T : Tensor ℝ) (r c : Nat) : ℝ := T.get [c, r]

/-- What the initial transform does to a point: row `r` of the upper three gives the `r`-th coordinate, its last column is the translation;
the last row of the transform is kept. -/
theorem matOf_moves (T : Tensor ℝ) (p : V3 ℝ) :
    Geom.transformPointcloud (matOf T) [p] =
      [⟨entry T 0 0 * p.x + entry T 0 1 * p.y + entry T 0 2 * p.z + entry T 0 3,
        entry T 1 0 * p.x + entry T 1 1 * p.y + entry T 1 2 * p.z + entry T 1 3,
        entry T 2 0 * p.x + entry T 2 1 * p.y + entry T 2 2 * p.z + entry T 2 3⟩] ∧
    (matOf T).b = ⟨entry T 3 0, entry T 3 1, entry T 3 2⟩ ∧ (matOf T).s = entry T 3 3 := ⟨rfl, rfl, rfl⟩

/-- The tensor of shape `(4, 4)` of the identity. -/
noncomputable def eye4 : Tensor ℝ := ⟨[4, 4], fun i => if i.getD 0 0 = i.getD 1 0 then 1 else 0⟩

theorem matOf_eye4 : matOf eye4 = M4.one := by
  simp [matOf, eye4, M4.one, M3.one, V3.zero]

/-- Two sources: batch element 0 is the point `(0, 0, 1)`, batch element 1 the point `(5, 5, 5)`. -/
noncomputable def twoSources : Tensor ℝ := ⟨[3, 1, 2], fun i => if i.getD 2 0 = 0 then (if i.getD 0 0 = 2 then 1 else 0) else 5⟩

/-- One target point: the origin; its normal is `(0, 0, 1)`. -/
noncomputable def oneTarget : Tensor ℝ := ⟨[3, 1, 1], fun _ => 0⟩
noncomputable def oneNormal : Tensor ℝ := ⟨[3, 1, 1], fun i => if i.getD 0 0 = 2 then 1 else 0⟩

/-- A batch of two sources is registered as if only the first had been passed: half a unit down (with damping 1), and the same two
clouds as targets are rejected. -/
theorem icp_batch_example {eps : ℝ} (heps : 0 < eps) :
    icp eps Icp.bruteNN (.tensor twoSources) (.tensor oneTarget) (.tensor oneNormal) (.tensor eye4) (.int 1) 1 .none =
      .ok (⟨M3.one, ⟨0, 0, -1 / 2⟩, V3.zero, 1⟩, [0]) ∧
    icp eps Icp.bruteNN (.tensor twoSources) (.tensor twoSources) (.tensor twoSources) (.tensor eye4) (.int 1) 1 .none =
      .error .valueError := by
  constructor
  · rw [icp_good (B := 1) (N := 1) (Nt := 1) rfl rfl (Or.inl rfl) rfl rfl, matOf_eye4]
    have := Icp.icp_example heps
    have e1 : (List.range 1).map (pointAt twoSources) = [⟨0, 0, 1⟩] := by simp [pointAt, twoSources]
    have e2 : (List.range 1).map (pointAt oneTarget) = [⟨0, 0, 0⟩] := by simp [pointAt, oneTarget]
    have e3 : (List.range 1).map (pointAt oneNormal) = [⟨0, 0, 1⟩] := by simp [pointAt, oneNormal]
    rw [e1, e2, e3]
    have e4 : limit Arg.none = (.none : Option ℝ) := rfl
    rw [e4, this]; rfl
  · refine icp_target (B := 1) (N := 1) rfl rfl (le_refl _) (Or.inl rfl) ?_
    rintro ⟨Nt, h, _⟩
    simp [shape, twoSources] at h

/-- The hypotheses of the gradICP table are met: an int `lambda_max` of 0 and of 2. -/
theorem grad_example {eps : ℝ} :
    gradIcp eps Icp.bruteNN (.tensor twoSources) (.tensor oneTarget) (.tensor oneNormal) (.tensor eye4) (.int 3) 1 .none (.int 0) (.float 1)
      (.float 1) (.int 200) = .error .zeroDivisionError ∧
    (∃ T idx, gradIcp eps Icp.bruteNN (.tensor twoSources) (.tensor oneTarget) (.tensor oneNormal) (.tensor eye4) (.int 3) 1 .none (.int 2)
      (.float 1) (.float 1) (.int 200) = .ok (T, idx)) := by
  have hi : ∀ n, IsNumber (.int n) := fun n => Or.inr ⟨n, rfl⟩
  have hf : ∀ x, IsNumber (.float x) := fun x => Or.inl ⟨x, rfl⟩
  refine ⟨grad_lmax (hi _) (hf _) (hf _) (hi _) rfl (by simp [value, limit]), ?_⟩
  rw [grad_good (hi _) (hf _) (hf _) (hi _) rfl (by simp [value, limit]) (b := 1) (N := 1) (Nt := 1) rfl (Or.inl rfl) rfl rfl
    (by simp [value, limit]), matOf_eye4]
  obtain ⟨T, d, _, _, _, h⟩ := Icp.grad_is_trace (th := limit .none) (tgt := (List.range 1).map (pointAt oneTarget))
    (nrm := (List.range 1).map (pointAt oneNormal)) Icp.bruteNN_nearest (by simp) (by simp) (eps := eps) (lmax := value (.int 2))
    (B := value (.float 1)) (B2 := value (.float 1)) (nu := value (.int 200)) (by norm_num [value, limit])
    ((List.range 1).map (pointAt twoSources)) (T0 := M4.one) ⟨rfl, rfl⟩ (damp := 1) one_pos (n := 3) (by norm_num)
  rw [h]
  exact ⟨_, _, rfl⟩

/-- The hypotheses of the table of `gauss_newton_solve` and `solve_linear_system` are met. -/
theorem small_examples :
    (∃ r, gauss Icp.bruteNN (.tensor oneTarget) (.tensor oneTarget) (.tensor oneNormal) (.int 3) = .ok r) ∧
    gauss Icp.bruteNN (.tensor twoSources) (.tensor oneTarget) (.tensor oneNormal) (.int 3) = .error .valueError ∧
    gauss Icp.bruteNN (.tensor oneTarget) (.tensor oneTarget) (.tensor oneNormal) (.tensor oneTarget) = .error .typeError ∧
    (∃ x, solve (.tensor ⟨[2, 1], fun _ => 1⟩) (.tensor ⟨[1, 1], fun _ => 1⟩) (.float 1) = .ok x) ∧
    solve (.tensor ⟨[2, 1], fun _ => 1⟩) (.tensor ⟨[1, 1], fun _ => 1⟩) (.int 1) = .error .typeError ∧
    solve (.tensor ⟨[2, 1], fun _ => 1⟩) (.tensor ⟨[1], fun _ => 1⟩) (.float 1) = .error .valueError := by
  refine ⟨?_, ?_, rfl, ?_, rfl, ?_⟩
  · refine (gauss_answers_iff Icp.bruteNN_nearest fun t h => ?_).2
      ⟨⟨1, 1, ⟨_, rfl, rfl⟩, ⟨_, rfl, rfl⟩, ⟨_, rfl, rfl⟩⟩, Or.inr (Or.inr ⟨3, rfl⟩)⟩
    cases h; simp [shape, oneTarget]
  · refine gauss_value ⟨⟨_, rfl⟩, ⟨_, rfl⟩, ⟨_, rfl⟩, Or.inr (Or.inr ⟨3, rfl⟩)⟩ ?_
    rintro ⟨_, _, ⟨t, h, h1⟩, _⟩
    cases h; simp [shape, twoSources] at h1
  · obtain ⟨x, h, _⟩ := solve_good (A := ⟨[2, 1], fun _ => 1⟩) (b := ⟨[1, 1], fun _ => 1⟩) (damp := .float 1) (m := 1) (n := 2) rfl rfl
      (Or.inr ⟨1, rfl⟩) (by simp [dampValue])
    exact ⟨x, h⟩
  · refine solve_value ⟨⟨_, rfl⟩, ⟨_, rfl⟩, Or.inr ⟨1, rfl⟩⟩ ?_
    rintro ⟨⟨m, n, _, ⟨b, h, h1⟩⟩, _⟩
    cases h; simp [shape] at h1
end Verif.IcpRaw
