import Verif.IcpRaw.Props
/-!
The complete decision table of `point_to_plane_ICP` and `point_to_plane_gradICP` (C111): which exception, or which answer, for
every combination of arguments.
-/
namespace Verif.IcpRaw
open Verif Pcs Nd

/-- The types both registrations insist on: three tensors, a tensor or `None`, an int. -/
def TypesOk (src tgt nrm T0 numiters : Arg) : Prop :=
  IsTensor src ∧ IsTensor tgt ∧ IsTensor nrm ∧ (IsTensor T0 ∨ T0 = .none) ∧ ∃ n, numiters = .int n

theorem common_bad {src tgt nrm T0 numiters : Arg} (h : ¬ TypesOk src tgt nrm T0 numiters) :
    common src tgt nrm T0 numiters = .error .typeError := by
  unfold common
  cases src <;> try rfl
  cases tgt <;> try rfl
  cases nrm <;> try rfl
  cases T0 <;> try rfl
  all_goals cases numiters <;> try rfl
  · exact absurd ⟨⟨_, rfl⟩, ⟨_, rfl⟩, ⟨_, rfl⟩, Or.inl ⟨_, rfl⟩, _, rfl⟩ h
  · exact absurd ⟨⟨_, rfl⟩, ⟨_, rfl⟩, ⟨_, rfl⟩, Or.inr rfl, _, rfl⟩ h

theorem checkT0_bad {T : Tensor ℝ} (h : shape T ≠ [4, 4]) : checkT0 (some T) = .error .valueError := by
  unfold checkT0
  by_cases h1 : T.rank ≠ 2
  · simp only [if_pos h1]
  · simp only [if_neg h1]
    rw [if_pos]
    rintro ⟨h2, h3⟩
    apply h
    rw [shape2_iff]
    obtain ⟨ds, g⟩ := T
    rw [ne_eq, not_not] at h1
    match ds, h1, h2, h3 with
    | [x, y], _, h2, h3 => simp at h2 h3; simp [h2, h3]

theorem checkT0_good {T : Tensor ℝ} (h : shape T = [4, 4]) : checkT0 (some T) = .ok T := by
  rw [shape2_iff] at h
  unfold checkT0 Tensor.rank
  simp [h]

section
variable {f : Icp.State → Except Err Icp.State} {src T0 : Tensor ℝ} {n : ℤ} {damp : ℝ}

/-- No first element: a source without dimensions, or with none of its batch elements. -/
theorem run_index (h : (shape src).head? = .none ∨ (shape src).head? = some 0) : run f src T0 n damp = .error .indexError := by
  have e : (shape src).head? = src.dims.getLast? := by simp [shape]
  rw [e] at h
  unfold run first
  rcases h with h | h <;> simp only [h]

theorem first_ok {k : Nat} (h : (shape src).head? = some (k + 1)) :
    first src = .ok ⟨src.dims.dropLast, fun i => src.get (i ++ [0])⟩ := by
  have e : (shape src).head? = src.dims.getLast? := by simp [shape]
  rw [e] at h
  unfold first
  simp only [h]

theorem run_value (h0 : (shape src).head? ≠ .none) (h1 : (shape src).head? ≠ some 0) (h : ∀ B N, shape src ≠ [B, N, 3]) :
    run f src T0 n damp = .error .valueError := by
  obtain ⟨k, hk⟩ : ∃ k, (shape src).head? = some (k + 1) := by
    cases hs : (shape src).head? with
    | none => exact absurd hs h0
    | some m => cases m with
      | zero => exact absurd hs h1
      | succ k => exact ⟨k, rfl⟩
  unfold run
  rw [first_ok hk]
  have : transformCloud (matOf T0) ⟨src.dims.dropLast, fun i => src.get (i ++ [0])⟩ = .error .valueError := by
    unfold transformCloud
    by_cases h2 : Tensor.rank (⟨src.dims.dropLast, fun i => src.get (i ++ [0])⟩ : Tensor ℝ) ≠ 2
    · rw [if_pos h2]
    · rw [if_neg h2, if_pos]
      intro h3
      obtain ⟨ds, g⟩ := src
      rw [ne_eq, not_not] at h2
      simp only [Tensor.rank, List.length_dropLast] at h2
      match ds, h2, h3, h with
      | [x, y, z], _, h3, h => simp at h3; exact h z y (by simp [shape, h3])
  simp only [this]

theorem run_good {B N : Nat} (h : shape src = [B + 1, N, 3]) :
    run f src T0 n damp = finish (loop f n.toNat ⟨Geom.transformPointcloud (matOf T0) ((List.range N).map (pointAt src)), damp, matOf T0, .none⟩) := by
  have hd := shape_iff.1 h
  unfold run
  rw [first_ok (k := B) (by rw [h]; rfl)]
  have : transformCloud (matOf T0) ⟨src.dims.dropLast, fun i => src.get (i ++ [0])⟩ =
      .ok (Geom.transformPointcloud (matOf T0) ((List.range N).map (pointAt src))) := by
    unfold transformCloud Tensor.rank
    simp only [hd, List.dropLast, List.length, List.getElem?_cons_zero, List.getD_cons_succ, List.getD_cons_zero, ne_eq,
      not_true, if_false]
    rfl
  simp only [this]

theorem finish_fails {s : Icp.State} {e : Err} (hn : 1 ≤ n) (h : f s = .error e) : finish (loop f n.toNat s) = .error e := by
  obtain ⟨m, hm⟩ : ∃ m, n.toNat = m + 1 := ⟨n.toNat - 1, by omega⟩
  rw [hm, loop, h]; rfl

theorem finish_unbound {s : Icp.State} (hs : s.idx = .none) (hn : n ≤ 0) : finish (loop f n.toNat s) = .error .unboundLocalError := by
  rw [Int.toNat_of_nonpos hn]
  simp only [loop, finish, hs]
end

section
variable {eps : ℝ} {nn : List (V3 ℝ) → V3 ℝ → Nat} {tgt nrm th : Arg}

theorem lookahead_fails {s : Icp.State} {e : Err} (h : ∀ l, gauss nn (.tensor (ofCloud l)) tgt nrm th = .error e) :
    lookahead eps nn tgt nrm th s = .error e := by
  unfold lookahead; simp only [h]

theorem lookahead_good {t m : Tensor ℝ} {Nt : Nat} (hth : IsThresh th) (ht : shape t = [1, Nt, 3]) (hm : shape m = [1, Nt, 3])
    (s : Icp.State) : lookahead eps nn (.tensor t) (.tensor m) th s =
      lift (Icp.lookahead eps nn (limit th) ((List.range Nt).map (pointAt t)) ((List.range Nt).map (pointAt m)) s) := by
  have hg : ∀ l, gauss nn (.tensor (ofCloud l)) (.tensor t) (.tensor m) th =
      lift (Icp.gaussNewton nn (limit th) l ((List.range Nt).map (pointAt t)) ((List.range Nt).map (pointAt m))) := by
    intro l
    rw [gauss_good (Ns := l.length) hth rfl ht hm, ← cloud_eq (t := ofCloud l) (N := l.length) rfl, cloud_ofCloud]
  unfold lookahead Icp.lookahead
  rw [hg]
  generalize Icp.gaussNewton nn _ s.src _ _ = g
  rcases g with e | ⟨A, b, idx⟩
  · rfl
  simp only [lift]
  generalize Icp.solveLinearSystem A b s.damp = x
  rcases x with e | xi
  · rfl
  simp only [hg]
  generalize Icp.gaussNewton nn _ _ _ _ = g
  rcases g with e | ⟨A, b, idx⟩ <;> rfl

theorem loop_lift {f : Icp.State → Except Err Icp.State} {g : Icp.State → Except Icp.Err Icp.State} (h : ∀ s, f s = lift (g s)) :
    ∀ n s, finish (loop f n s) = lift (Icp.finish (Icp.loop g n s)) := by
  intro n
  induction n with
  | zero =>
    intro s
    simp only [loop, Icp.loop, finish, Icp.finish]
    cases s.idx <;> rfl
  | succ n ih =>
    intro s
    rw [loop, Icp.loop, h]
    generalize g s = x
    rcases x with e | s'
    · rfl
    · exact ih s'

theorem icpStep_good {t m : Tensor ℝ} {Nt : Nat} (hth : IsThresh th) (ht : shape t = [1, Nt, 3]) (hm : shape m = [1, Nt, 3])
    (s : Icp.State) : icpStep eps nn (.tensor t) (.tensor m) th s =
      lift (Icp.icpStep eps nn (limit th) ((List.range Nt).map (pointAt t)) ((List.range Nt).map (pointAt m)) s) := by
  unfold icpStep Icp.icpStep
  rw [lookahead_good hth ht hm]
  generalize Icp.lookahead eps nn _ _ _ s = g
  rcases g with e | ⟨xi, err, ne, one, idx⟩
  · rfl
  · simp only [lift]; split <;> rfl

theorem gradStep_good {lmax B B2 nu : ℝ} (hnu : nu ≠ 0) {t m : Tensor ℝ} {Nt : Nat} (hth : IsThresh th) (ht : shape t = [1, Nt, 3])
    (hm : shape m = [1, Nt, 3]) (s : Icp.State) : gradStep eps lmax B B2 nu nn (.tensor t) (.tensor m) th s =
      lift (Icp.gradStep eps lmax B B2 nu nn (limit th) ((List.range Nt).map (pointAt t)) ((List.range Nt).map (pointAt m)) s) := by
  unfold gradStep Icp.gradStep
  rw [lookahead_good hth ht hm]
  generalize Icp.lookahead eps nn _ _ _ s = g
  rcases g with e | ⟨xi, err, ne, one, idx⟩
  · rfl
  · simp only [lift]; rw [if_neg hnu]
end

/-! ### point_to_plane_ICP -/
section
variable {eps : ℝ} {nn : List (V3 ℝ) → V3 ℝ → Nat} {damp : ℝ}

/-- C111, 1.  A source, target or normals that is not a tensor, an initial transform that is neither a tensor nor `None`, a number of
iterations that is not an int: TypeError, whatever the other arguments are. -/
theorem icp_type {src tgt nrm T0 numiters th : Arg} (h : ¬ TypesOk src tgt nrm T0 numiters) :
    icp eps nn src tgt nrm T0 numiters damp th = .error .typeError := by
  unfold icp; rw [common_bad h]

/-- C111, 2.  Without an initial transform (the default): AttributeError. -/
theorem icp_none {s t m : Tensor ℝ} {n : ℤ} {th : Arg} :
    icp eps nn (.tensor s) (.tensor t) (.tensor m) .none (.int n) damp th = .error .attributeError := rfl

/-- C111, 3.  An initial transform of a shape other than `(4, 4)`: ValueError. -/
theorem icp_T0 {s t m T : Tensor ℝ} {n : ℤ} {th : Arg} (h : shape T ≠ [4, 4]) :
    icp eps nn (.tensor s) (.tensor t) (.tensor m) (.tensor T) (.int n) damp th = .error .valueError := by
  simp only [icp, common, checkT0_bad h]

theorem icp_run {s t m T : Tensor ℝ} {n : ℤ} {th : Arg} (h : shape T = [4, 4]) :
    icp eps nn (.tensor s) (.tensor t) (.tensor m) (.tensor T) (.int n) damp th =
      run (icpStep eps nn (.tensor t) (.tensor m) th) s T n damp := by
  simp only [icp, common, checkT0_good h]

/-- C111, 4.  A source that is a scalar, or whose batch is empty: IndexError. -/
theorem icp_src_index {s t m T : Tensor ℝ} {n : ℤ} {th : Arg} (hT : shape T = [4, 4])
    (h : (shape s).head? = .none ∨ (shape s).head? = some 0) :
    icp eps nn (.tensor s) (.tensor t) (.tensor m) (.tensor T) (.int n) damp th = .error .indexError := by
  rw [icp_run hT, run_index h]

/-- C111, 5.  Any other source not of shape `(B, N, 3)`: ValueError. -/
theorem icp_src_value {s t m T : Tensor ℝ} {n : ℤ} {th : Arg} (hT : shape T = [4, 4]) (h0 : (shape s).head? ≠ .none)
    (h1 : (shape s).head? ≠ some 0) (h : ∀ B N, shape s ≠ [B, N, 3]) :
    icp eps nn (.tensor s) (.tensor t) (.tensor m) (.tensor T) (.int n) damp th = .error .valueError := by
  rw [icp_run hT, run_value h0 h1 h]

/-- C111, 6.  No iterations: UnboundLocalError, even if the target, the normals or the threshold are unusable. -/
theorem icp_no_iterations {s t m T : Tensor ℝ} {n : ℤ} {th : Arg} {B N : Nat} (hT : shape T = [4, 4]) (hs : shape s = [B + 1, N, 3])
    (hn : n ≤ 0) : icp eps nn (.tensor s) (.tensor t) (.tensor m) (.tensor T) (.int n) damp th = .error .unboundLocalError := by
  rw [icp_run hT, run_good hs, finish_unbound rfl hn]

/-- C111, 7.  A threshold that is neither a number nor `None`: TypeError. -/
theorem icp_thresh {s t m T : Tensor ℝ} {n : ℤ} {th : Arg} {B N : Nat} (hT : shape T = [4, 4]) (hs : shape s = [B + 1, N, 3])
    (hn : 1 ≤ n) (hth : ¬ IsThresh th) :
    icp eps nn (.tensor s) (.tensor t) (.tensor m) (.tensor T) (.int n) damp th = .error .typeError := by
  rw [icp_run hT, run_good hs, finish_fails hn]
  unfold icpStep
  rw [lookahead_fails fun l => gauss_type fun h => hth h.2.2.2]

/-- C111, 8.  Target and normals not of the same shape `(1, Nt, 3)`, a batch of several targets among them: ValueError. -/
theorem icp_target {s t m T : Tensor ℝ} {n : ℤ} {th : Arg} {B N : Nat} (hT : shape T = [4, 4]) (hs : shape s = [B + 1, N, 3])
    (hn : 1 ≤ n) (hth : IsThresh th) (h : ¬ ∃ Nt, shape t = [1, Nt, 3] ∧ shape m = [1, Nt, 3]) :
    icp eps nn (.tensor s) (.tensor t) (.tensor m) (.tensor T) (.int n) damp th = .error .valueError := by
  rw [icp_run hT, run_good hs, finish_fails hn]
  unfold icpStep
  rw [lookahead_fails fun l => gauss_value ⟨⟨_, rfl⟩, ⟨_, rfl⟩, ⟨_, rfl⟩, hth⟩ ?_]
  rintro ⟨_, Nt, _, ⟨_, e1, h1⟩, ⟨_, e2, h2⟩⟩
  cases e1; cases e2
  exact h ⟨Nt, h1, h2⟩

/-- C111, 9.  In all remaining cases it is the registration (C54) of the FIRST cloud of the source batch. -/
theorem icp_good {s t m T : Tensor ℝ} {n : ℤ} {th : Arg} {B N Nt : Nat} (hT : shape T = [4, 4]) (hs : shape s = [B + 1, N, 3])
    (hth : IsThresh th) (ht : shape t = [1, Nt, 3]) (hm : shape m = [1, Nt, 3]) :
    icp eps nn (.tensor s) (.tensor t) (.tensor m) (.tensor T) (.int n) damp th =
      lift (Icp.pointToPlaneICP eps nn ((List.range N).map (pointAt s)) ((List.range Nt).map (pointAt t)) ((List.range Nt).map (pointAt m))
        (some (matOf T)) n damp (limit th)) := by
  rw [icp_run hT, run_good hs, loop_lift (icpStep_good hth ht hm)]
  rfl

/-- The cases are exhaustive: `point_to_plane_ICP` answers exactly for the types and shapes of case 9 with at least one iteration
(given a non-empty target and a positive damping). -/
theorem icp_answers_iff (hn : Icp.NearestIn nn) (hd : 0 < damp) {src tgt nrm T0 numiters th : Arg}
    (hne : ∀ t, tgt = .tensor t → shape t ≠ [1, 0, 3]) :
    (∃ r, icp eps nn src tgt nrm T0 numiters damp th = .ok r) ↔
      (∃ B N, 1 ≤ B ∧ Shaped src [B, N, 3]) ∧ (∃ Nt, Shaped tgt [1, Nt, 3] ∧ Shaped nrm [1, Nt, 3]) ∧ Shaped T0 [4, 4] ∧
        (∃ n, numiters = .int n ∧ 1 ≤ n) ∧ IsThresh th := by
  constructor
  · rintro ⟨r, hr⟩
    by_cases h1 : TypesOk src tgt nrm T0 numiters
    swap
    · rw [icp_type h1] at hr; cases hr
    obtain ⟨⟨s, rfl⟩, ⟨t, rfl⟩, ⟨m, rfl⟩, ⟨T, rfl⟩ | rfl, n, rfl⟩ := h1
    swap
    · rw [icp_none] at hr; cases hr
    by_cases hT : shape T = [4, 4]
    swap
    · rw [icp_T0 hT] at hr; cases hr
    by_cases hi : (shape s).head? = .none ∨ (shape s).head? = some 0
    · rw [icp_src_index hT hi] at hr; cases hr
    push Not at hi
    by_cases hs : ∀ B N, shape s ≠ [B, N, 3]
    · rw [icp_src_value hT hi.1 hi.2 hs] at hr; cases hr
    push Not at hs
    obtain ⟨B, N, hs⟩ := hs
    obtain ⟨B, rfl⟩ : ∃ k, B = k + 1 := by
      cases B with
      | zero => exact absurd (by rw [hs]; rfl) hi.2
      | succ k => exact ⟨k, rfl⟩
    by_cases hn1 : n ≤ 0
    · rw [icp_no_iterations hT hs hn1] at hr; cases hr
    have hn1 : 1 ≤ n := by omega
    by_cases hth : IsThresh th
    swap
    · rw [icp_thresh hT hs hn1 hth] at hr; cases hr
    by_cases ht : ∃ Nt, shape t = [1, Nt, 3] ∧ shape m = [1, Nt, 3]
    swap
    · rw [icp_target hT hs hn1 hth ht] at hr; cases hr
    obtain ⟨Nt, ht, hm⟩ := ht
    exact ⟨⟨B + 1, N, by omega, s, rfl, hs⟩, ⟨Nt, ⟨t, rfl, ht⟩, m, rfl, hm⟩, ⟨T, rfl, hT⟩, ⟨n, rfl, hn1⟩, hth⟩
  · rintro ⟨⟨B, N, hB, s, rfl, hs⟩, ⟨Nt, ⟨t, rfl, ht⟩, m, rfl, hm⟩, ⟨T, rfl, hT⟩, ⟨n, rfl, hn1⟩, hth⟩
    obtain ⟨B, rfl⟩ : ∃ k, B = k + 1 := ⟨B - 1, by omega⟩
    have hNt : Nt ≠ 0 := fun h => hne t rfl (by rw [ht, h])
    rw [icp_good hT hs hth ht hm, Icp.pointToPlaneICP]
    obtain ⟨σ, h0, hrun, hI, hstep⟩ := Icp.loop_run (Icp.icpStep eps nn (limit th) ((List.range Nt).map (pointAt t)) ((List.range Nt).map (pointAt m)))
      (fun s => 0 < s.damp)
      (fun s a => by
        obtain ⟨xi, e, _⟩ := Icp.lookahead_spec hn (by simpa using hNt) (by simp) (th := limit th) (tgt := (List.range Nt).map (pointAt t))
          (nrm := (List.range Nt).map (pointAt m)) eps s a
        rw [Icp.icpStep, e]
        by_cases hlt : Icp.planeErr nn (limit th) ((List.range Nt).map (pointAt t)) ((List.range Nt).map (pointAt m))
            (Geom.transformPointcloud (Geom.se3Exp eps (Icp.xiV xi) (Icp.xiW xi)) s.src) <
            Icp.planeErr nn (limit th) ((List.range Nt).map (pointAt t)) ((List.range Nt).map (pointAt m)) s.src
        · simp only [if_pos hlt]; exact ⟨_, rfl, by simpa using half_pos a⟩
        · simp only [if_neg hlt]; exact ⟨_, rfl, by simpa using a⟩) n.toNat
      (Icp.start ((List.range N).map (pointAt s)) damp (matOf T)) hd
    simp only [hrun]
    obtain ⟨k, hk⟩ : ∃ k, n.toNat = k + 1 := ⟨n.toNat - 1, by omega⟩
    have hidx : ∃ i, (σ n.toNat).idx = some i := by
      have h2 := hstep k
      rw [Icp.icpStep] at h2
      obtain ⟨xi, e, _⟩ := Icp.lookahead_spec hn (by simpa using hNt) (by simp) (th := limit th) (tgt := (List.range Nt).map (pointAt t))
        (nrm := (List.range Nt).map (pointAt m)) eps (σ k) (hI k)
      rw [e] at h2
      dsimp only at h2
      rw [hk]
      split at h2 <;> (injection h2 with h2; rw [← h2]; exact ⟨_, rfl⟩)
    obtain ⟨i, hi⟩ := hidx
    simp only [Icp.finish, hi, lift]
    exact ⟨_, rfl⟩

/-- C111.  Only the first cloud of a source batch matters: two sources with the same number of points and the same first cloud (their
other clouds and their numbers may differ) give the same outcome, whatever the other arguments are. -/
theorem icp_first_only {s s' : Tensor ℝ} {tgt nrm T0 numiters th : Arg} {B B' N : Nat} (hs : shape s = [B + 1, N, 3])
    (hs' : shape s' = [B' + 1, N, 3]) (h : ∀ n k, n < N → k < 3 → s.get [k, n, 0] = s'.get [k, n, 0]) :
    icp eps nn (.tensor s) tgt nrm T0 numiters damp th = icp eps nn (.tensor s') tgt nrm T0 numiters damp th := by
  have hp : (List.range N).map (pointAt s) = (List.range N).map (pointAt s') := by
    refine List.map_congr_left fun n hn => ?_
    have hn := List.mem_range.1 hn
    simp only [pointAt, h n 0 hn (by omega), h n 1 hn (by omega), h n 2 hn (by omega)]
  by_cases h1 : TypesOk (.tensor s) tgt nrm T0 numiters
  swap
  · rw [icp_type h1, icp_type]
    exact fun h2 => h1 ⟨⟨s, rfl⟩, h2.2⟩
  obtain ⟨_, ⟨t, rfl⟩, ⟨m, rfl⟩, ⟨T, rfl⟩ | rfl, n, rfl⟩ := h1
  swap
  · rw [icp_none, icp_none]
  by_cases hT : shape T = [4, 4]
  swap
  · rw [icp_T0 hT, icp_T0 hT]
  rw [icp_run hT, icp_run hT, run_good hs, run_good hs', hp]
end
end Verif.IcpRaw
