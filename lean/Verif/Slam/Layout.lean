import Verif.Slam.Witness
/-!
C91: channels-first frames in the SLAM classes.
-/
namespace Verif.Slam
open Verif Pcs
set_option maxRecDepth 100000

section
variable {α : Type*} [Field α] [LinearOrder α] [IsStrictOrderedRing α] [FloorRing α]

/-- The outcomes of two runs are the same to a user: the same error, or maps that answer every accessor alike and equal poses. -/
def SameOutcome (B L : Nat) (x y : Except Err (PC α × Rgbd.TM α)) : Prop :=
  (∃ e, x = .error e ∧ y = .error e) ∨
  (∃ m R m' R' a, x = .ok (m, R) ∧ y = .ok (m', R') ∧ Obs m a ∧ Obs m' a ∧ R.d0 = B ∧ R'.d0 = B ∧ R.d1 = L ∧ R'.d1 = L ∧
    ∀ b < B, ∀ t < L, R'.at' b t = R.at' b t)

theorem layout_ignored {S : Sys α} (hS : S.odom = .gt) {f f' : Rgbd.Obj α} {i : Rgbd.In α} (h : SeqOk S f i) (h' : SeqOk S f' i) (hs : SysOk S i) :
    SameOutcome i.B i.L (forward S f) (forward S f') := by
  have hposes : f.poses.map Rgbd.TM.at' = f'.poses.map Rgbd.TM.at' := h.rep.poses.trans h'.rep.poses.symm
  have ss : SameStart f f' i i i.L := by
    refine ⟨rfl, rfl, rfl, ?_, ?_, fun _ _ _ _ => rfl, fun _ _ _ _ => rfl, fun _ _ => rfl, fun _ _ _ _ => rfl⟩
    · have := congrArg Option.isSome hposes
      simpa using this.symm
    · intro P P' hP hP' b _ t _
      have a := h.rep.poses; have c := h'.rep.poses
      rw [hP, Option.map_some] at a; rw [hP', Option.map_some, ← a] at c
      simp only [Option.some.injEq] at c
      rw [c]
  have hx : ∀ provide, S.odom = .prov provide → Ext provide := by intro p hp; rw [hS] at hp; cases hp
  rcases forward_run h hs with ⟨m, R, Ts, a, e, r, hl, hm, d0, d1, _, hR⟩ | ⟨e, Ts, a, he, r, hl, hloc⟩
  · rcases forward_run h' hs with ⟨m', R', Ts', a', e', r', hl', hm', d0', d1', _, hR'⟩ | ⟨e', Ts', a', he', r', hl', hloc'⟩
    · obtain ⟨rfl, rfl⟩ := run_unique hx (run_transfer ss h.B r (by omega)) r' (by omega)
      refine .inr ⟨m, R, m', R', _, e, e', inv_obs hm.inv, inv_obs hm'.inv, d0, d0', d1, d1', fun b hb t ht => ?_⟩
      obtain ⟨T, hT⟩ : ∃ T, Ts'[t]? = some T := ⟨_, List.getElem?_eq_getElem (by omega)⟩
      rw [hR t T hT b, hR' t T hT b]
    · have hg := located_gt (.inl hS) hloc'
      rw [sameStart_given ss h.B (by omega)] at hg
      obtain ⟨T, hT⟩ : ∃ T, Ts[Ts'.length]? = some T := ⟨_, List.getElem?_eq_getElem (by omega)⟩
      rw [run_gt hS r _ T hT] at hg; cases hg
  · have hg := located_gt (.inl hS) hloc
    have hn : given f i Ts.length = none := by
      cases hq : given f i Ts.length with
      | none => rfl
      | some T => rw [hq] at hg; cases hg
    have hev : e = .valueError := by rw [hn] at hg; cases hg; rfl
    rcases forward_run h' hs with ⟨m', R', Ts', a', e', r', hl', hm', d0', d1', _, hR'⟩ | ⟨e', Ts', a', he', r', hl', hloc'⟩
    · obtain ⟨T, hT⟩ : ∃ T, Ts'[Ts.length]? = some T := ⟨_, List.getElem?_eq_getElem (by omega)⟩
      have := run_gt hS r' _ T hT
      rw [sameStart_given ss h.B (by omega), hn] at this; cases this
    · have hg' := located_gt (.inl hS) hloc'
      refine .inl ⟨.valueError, by rw [he, hev], ?_⟩
      rw [he']
      cases hq : given f' i Ts'.length with
      | none => rw [hq] at hg'; cases hg'; rfl
      | some T => rw [hq] at hg'; cases hg'

/-- **C91** (`ICPSLAM(odom="gt")`).  Two sequence objects with the same images, intrinsics and poses, in whatever channel order and with
whatever history each, give the same poses and maps that answer every accessor alike (or the same error). -/
theorem icpslam_gt_either_layout {S : Sys α} (hS : S.odom = .gt) (hM : S.mapper = .aggregate) {f f' : Rgbd.Obj α} {i : Rgbd.In α}
    (h : Rgbd.Rep S.nrm S.eps f i) (h' : Rgbd.Rep S.nrm S.eps f' i) (hB : 0 < i.B) (hH : 2 ≤ i.H) (hW : 2 ≤ i.W) :
    SameOutcome i.B i.L (forward S f) (forward S f') := by
  have g : S.odom.isGt = true := by rw [hS]; rfl
  exact layout_ignored hS ⟨h, fun _ => ⟨hM, g⟩, hB, hH, hW⟩ ⟨h', fun _ => ⟨hM, g⟩, hB, hH, hW⟩
    ⟨fun e => (by rw [g] at e; cases e), fun p hp => (by rw [hS] at hp; cases hp), .inl hM⟩

/-! ### Raising -/

theorem odometry_first {S : Sys α} {live : Rgbd.Obj α} {i : Rgbd.In α} (h : Rgbd.Rep S.nrm S.eps live i) (hcf : live.cf = true) (hB : 0 < i.B)
    (hH : 2 ≤ i.H) (hW : 2 ≤ i.W) (provide) (pc : PC α) (prev : Rgbd.Obj α) (P : Rgbd.TM α) :
    ∃ e pc' live', odometry S provide pc live prev P = (.error e, pc', live') := by
  unfold odometry
  cases hsp : Rgbd.setPoses (some P) live with
  | mk o l1 =>
    cases o with
    | error e => exact ⟨_, _, _, rfl⟩
    | ok u =>
      have r1 := (Rgbd.setPoses_rep h hsp).1
      have c1 : l1.cf = true := by
        unfold Rgbd.setPoses at hsp
        split_ifs at hsp
        · simp at hsp
        · simp only [Prod.mk.injEq, true_and] at hsp; subst hsp; exact hcf
      obtain ⟨x, l2, e2, hx, _, _⟩ := Fusion.readRaw_spec r1 hH hW
      rw [c1] at hx
      obtain ⟨e, he⟩ := Icp.downsampleRaw_first hx hB hW S.ds
      simp only [withFrame, e2, he]
      exact ⟨_, _, _, rfl⟩

/-- With a provider, `step` on a channels-first frame raises as soon as there is a previous frame. -/
theorem localize_first {S : Sys α} {live : Rgbd.Obj α} {i : Rgbd.In α} (h : Rgbd.Rep S.nrm S.eps live i) (hcf : live.cf = true) (hB : 0 < i.B)
    (hH : 2 ≤ i.H) (hW : 2 ≤ i.W) {provide} (hS : S.odom = .prov provide) (pc : PC α) (prev : Rgbd.Obj α) :
    ∃ e pc' live', localize S pc live (some prev) = (.error e, pc', live') := by
  unfold localize
  rw [hS]
  cases hp : prev.poses with
  | none => simp only [hp]; exact ⟨_, _, _, rfl⟩
  | some P => simp only [hp]; exact odometry_first h hcf hB hH hW provide pc prev P

theorem mapStep_first {S : Sys α} {live : Rgbd.Obj α} {i : Rgbd.In α} (h : Rgbd.Rep S.nrm S.eps live i) (hcf : live.cf = true) (hL : i.L = 1)
    (hB : 0 < i.B) (hH : 2 ≤ i.H) (hW : 2 ≤ i.W) {d t : α} (hM : S.mapper = .fusion d t) (pc : PC α) (inplace : Bool) :
    ∃ e pc' live', mapStep S pc live inplace = (.error e, pc', live') := by
  obtain ⟨x, l2, e2, hx, _, _⟩ := Fusion.readRaw_spec h hH hW
  rw [hcf] at hx
  obtain ⟨e, pc', he⟩ := Fusion.updateMapFusionRaw_first hx hL hB hH S.al pc d t inplace
  simp only [mapStep, hM, e2, he]
  exact ⟨_, _, _, rfl⟩

/-- **C91** (`PointFusion.step`).  Whatever the map, the previous frame and the odometry are: a channels-first live frame raises. -/
theorem fusion_step_needs_channels_last {S : Sys α} {live : Rgbd.Obj α} {i : Rgbd.In α} (h : Rgbd.Rep S.nrm S.eps live i) (hcf : live.cf = true)
    (hL : i.L = 1) (hB : 0 < i.B) (hH : 2 ≤ i.H) (hW : 2 ≤ i.W) {d t : α} (hM : S.mapper = .fusion d t) (pc : PC α) (prev : Option (Rgbd.Obj α))
    (inplace : Bool) : ∃ e pc' live', step S pc live prev inplace = (.error e, pc', live') := by
  by_cases hg : S.odom = .gt ∨ prev = none
  · unfold step
    rw [localize_gt hg]
    cases hp : live.poses with
    | none => exact ⟨_, _, _, rfl⟩
    | some P =>
      simp only [ofPoses]
      cases hsp : Rgbd.setPoses (some P) live with
      | mk o l1 =>
        cases o with
        | error e => exact ⟨_, _, _, rfl⟩
        | ok u =>
          have r1 := (Rgbd.setPoses_rep h hsp).1
          have c1 : l1.cf = true := by
            unfold Rgbd.setPoses at hsp
            split_ifs at hsp
            · simp at hsp
            · simp only [Prod.mk.injEq, true_and] at hsp; subst hsp; exact hcf
          obtain ⟨e, pc', l2, he⟩ := mapStep_first r1 c1 hL hB hH hW hM pc inplace
          simp only [he]
          exact ⟨_, _, _, rfl⟩
  · rw [not_or] at hg
    cases ho : S.odom with
    | gt => exact absurd ho hg.1
    | prov provide =>
      cases prev with
      | none => exact absurd rfl hg.2
      | some prev =>
        obtain ⟨e, pc', l', he⟩ := localize_first h hcf hB hH hW ho pc prev
        simp only [step, he]
        exact ⟨_, _, _, rfl⟩

/-- **C91** (odometry).  `ICPSLAM` and `PointFusion` with `odom="icp"` or `"gradicp"`: `step` with a channels-first live frame and a previous
frame raises. -/
theorem odometry_step_needs_channels_last {S : Sys α} {live : Rgbd.Obj α} {i : Rgbd.In α} (h : Rgbd.Rep S.nrm S.eps live i) (hcf : live.cf = true)
    (hB : 0 < i.B) (hH : 2 ≤ i.H) (hW : 2 ≤ i.W) (hS : S.odom.isGt = false) (pc : PC α) (prev : Rgbd.Obj α) (inplace : Bool) :
    ∃ e pc' live', step S pc live (some prev) inplace = (.error e, pc', live') := by
  cases ho : S.odom with
  | gt => rw [ho] at hS; cases hS
  | prov provide =>
    obtain ⟨e, pc', l', he⟩ := localize_first h hcf hB hH hW ho pc prev
    simp only [step, he]
    exact ⟨_, _, _, rfl⟩

theorem iters_error {S : Sys α} {f : Rgbd.Obj α} {n : Nat} (h : ∃ e, iters S f n = .error e) : ∀ k, n ≤ k → ∃ e, iters S f k = .error e := by
  intro k hk
  induction k, hk using Nat.le_induction with
  | base => exact h
  | succ k _ ih => obtain ⟨e, he⟩ := ih; exact ⟨e, by rw [iters, he]⟩

theorem liveFrame_first {S : Sys α} {f : Rgbd.Obj α} {i : Rgbd.In α} (h : Rgbd.Rep S.nrm S.eps f i) (hcf : f.cf = true)
    (hB : 0 < i.B) (hH : 2 ≤ i.H) (hW : 2 ≤ i.W) {t : Nat} (ht : t < i.L) :
    ∃ o j, liveFrame f t = .ok o ∧ Rgbd.Rep S.nrm S.eps o j ∧ o.cf = true ∧ j.L = 1 ∧ 0 < j.B ∧ 2 ≤ j.H ∧ 2 ≤ j.W := by
  let S' : Sys α := ⟨.gt, S.ds, .aggregate, S.nrm, S.al, S.eps⟩
  obtain ⟨o, e, ok, _⟩ := liveFrame_ok (S := S') (frames := f) (i := i) ⟨h, fun _ => ⟨rfl, rfl⟩, hB, hH, hW⟩ ht
  refine ⟨o, _, e, ok.rep, ?_, ok.L, ok.B, ok.H, ok.W⟩
  obtain ⟨o', ho, r, _, hc, _⟩ := Rgbd.selected_rep (is := List.range i.B) (js := [t]) h (by simp; omega) (by simp)
  have hall : Rgbd.resolve i.B (.slice none none none) = .ok (List.range i.B) := (Rgbd.index_positions i.B).2.2.1
  have hone : Rgbd.resolve i.L (.int ((t : Nat) : Int)) = .ok [t] := (Rgbd.index_positions i.L).1 t ht
  have e' : frameAt f t = .ok o' := by
    simp [frameAt, Rgbd.getitem, Rgbd.twoIx, h.hB, h.hL, hall, hone, Rgbd.bothLists, ho]
  simp only [liveFrame, e'] at e
  split_ifs at e with hc0
  · unfold Rgbd.setPoses at e
    split_ifs at e with hs
    simp only [Except.ok.injEq] at e
    subst e
    exact hc.trans hcf
  · simp only [Except.ok.injEq] at e
    subst e; exact hc.trans hcf

/-- **C91** (`PointFusion`).  A channels-first sequence raises: it is never read as if it were channels-last. -/
theorem fusion_needs_channels_last {S : Sys α} {f : Rgbd.Obj α} {i : Rgbd.In α} (h : Rgbd.Rep S.nrm S.eps f i) (hcf : f.cf = true)
    (hL : 0 < i.L) (hB : 0 < i.B) (hH : 2 ≤ i.H) (hW : 2 ≤ i.W) {d t : α} (hM : S.mapper = .fusion d t) : ∃ e, forward S f = .error e := by
  obtain ⟨o, j, eo, r, co, jL, jB, jH, jW⟩ := liveFrame_first h hcf hB hH hW hL
  obtain ⟨e, pc', l', he⟩ := fusion_step_needs_channels_last r co jL jB jH jW hM newEmpty none true
  have h1 : ∃ e, iters S f 1 = .error e := ⟨e, by simp only [iters, iter, eo, he]⟩
  obtain ⟨e, he⟩ := iters_error h1 f.L (by rw [h.hL]; omega)
  exact ⟨e, by simp only [forward, he]⟩

/-- **C91** (odometry).  With `odom="icp"` or `"gradicp"` a channels-first sequence of two or more frames raises. -/
theorem odometry_needs_channels_last {S : Sys α} {f : Rgbd.Obj α} {i : Rgbd.In α} (h : Rgbd.Rep S.nrm S.eps f i) (hcf : f.cf = true)
    (hL : 2 ≤ i.L) (hB : 0 < i.B) (hH : 2 ≤ i.H) (hW : 2 ≤ i.W) (hS : S.odom.isGt = false) : ∃ e, forward S f = .error e := by
  have h2 : ∃ e, iters S f 2 = .error e := by
    cases h1 : iters S f 1 with
    | error e => exact iters_error ⟨e, h1⟩ 2 (by omega)
    | ok x =>
      obtain ⟨o, j, eo, r, co, jL, jB, jH, jW⟩ := liveFrame_first h hcf hB hH hW (show 1 < i.L by omega)
      have hprev : ∃ p, x.prev = some p := by
        have h1' := h1
        simp only [iters, iter] at h1'
        split at h1'
        · cases h1'
        · split at h1'
          · cases h1'
          · split at h1'
            · cases h1'
            · simp only [hS, Except.ok.injEq] at h1'
              subst h1'; exact ⟨_, rfl⟩
      obtain ⟨p, hp⟩ := hprev
      obtain ⟨e, pc', l', he⟩ := odometry_step_needs_channels_last r co jB jH jW hS x.pc p true
      exact ⟨e, by rw [iters, h1]; simp only [iter, eo, hp, he]⟩
  obtain ⟨e, he⟩ := iters_error h2 f.L (by rw [h.hL]; omega)
  exact ⟨e, by simp only [forward, he]⟩

/-- **C91** (one frame).  A sequence of one frame needs no odometry: the result is that of `odom="gt"`, in either channel order. -/
theorem one_frame_needs_no_odometry (S : Sys α) (f : Rgbd.Obj α) (hL : f.L = 1) : forward S f = forward { S with odom := .gt } f := by
  have key : ∀ live, step S newEmpty live none true = step { S with odom := .gt } newEmpty live none true := by
    intro live
    unfold step
    rw [localize_gt (.inr rfl), localize_gt (.inl rfl)]
    rfl
  have h1 : ∀ T : Sys α, iters T f 1 = iter T f 0 ⟨newEmpty, none, []⟩ := fun _ => rfl
  simp only [forward, hL, h1, iter, key]
  cases liveFrame f 0 with
  | error e => rfl
  | ok live =>
    simp only
    generalize step { S with odom := .gt } newEmpty live none true = x
    obtain ⟨x | ⟨pc, T⟩, pc', live'⟩ := x
    · rfl
    · simp only
      generalize Rgbd.setPoses (some T) live' = y
      obtain ⟨y | _, l⟩ := y <;> rfl
end

/-! ### Concrete cases -/

/-- The sequence of `Verif.Slam.Witness`, converted to channels-first. -/
def seqF : Rgbd.Obj ℚ := Rgbd.toFirst_ seqW
theorem seqF_hist : Rgbd.Hist Rgbd.nrm1 (0 : ℚ) seqF inW false := .toFirst_ seqW_hist

/-- The hypotheses of the theorems are met by the two objects with the same inputs; `ICPSLAM(odom="gt")` gives six points and the given
poses on both, `PointFusion` and odometry raise on the channels-first one only. -/
theorem layout_case : Rgbd.Rep gtSlam.nrm gtSlam.eps seqW inW ∧ Rgbd.Rep gtSlam.nrm gtSlam.eps seqF inW ∧ seqW.cf = false ∧ seqF.cf = true ∧
    inW.B = 1 ∧ inW.L = 2 ∧ inW.H = 2 ∧ inW.W = 2 ∧
    summary gtSlam seqF = some ([M4.one, ⟨.one, ⟨-1 / 8, 0, 0⟩, .zero, 1⟩], [6]) ∧ summary gtSlam seqF = summary gtSlam seqW ∧
    summary gtFusion seqF = none ∧ summary upFusion seqF = none ∧ (summary upFusion seqW).isSome :=
  ⟨(Rgbd.hist_rep seqW_hist).1, (Rgbd.hist_rep seqF_hist).1, rfl, rfl, rfl, rfl, rfl, rfl, by decide +kernel, by decide +kernel,
    by decide +kernel, by decide +kernel, by decide +kernel⟩

def depth3 : Rgbd.T5 ℚ := ⟨⟨1, 2, 3, 3, 1⟩, fun _ _ h w _ => 2 + h + w⟩
def rgb3 : Rgbd.T5 ℚ := ⟨⟨1, 2, 3, 3, 3⟩, fun _ _ h w _ => h + w⟩
def pose3 : Rgbd.TM ℚ := ⟨1, 2, fun _ _ => M4.one⟩
def seq3 : Rgbd.Obj ℚ := ⟨false, rgb3, depth3, Rgbd.K0, some pose3, none, none, none, none, none, none, rgb3.sh, none, 1, 2, 3, 3⟩
theorem seq3_new : Rgbd.new rgb3 depth3 Rgbd.K0 (some pose3) false none = .ok seq3 := rfl
def looseFusion : Sys ℚ := ⟨.gt, 1, .fusion 100 (-1), Rgbd.nrm1, fun _ => 1, 0⟩

/-- The points of the map of the first frame, before and after a `step` with the second frame in channels-first order that raises. -/
def raisedStep (S : Sys ℚ) (o : Rgbd.Obj ℚ) : Option (List (List (List ℚ)) × List (List (List ℚ))) :=
  match iters S o 1, frameAt (Rgbd.toFirst_ o) 1 with
  | .ok x, .ok live => match step S x.pc live x.prev true with
    | (.error _, pc, _) => some (secondStep.pts x.pc, secondStep.pts pc)
    | _ => none
  | _, _ => none

/-- **C91** (what raising leaves behind).  On frames of width 3 the misread pixels are merged before the shapes are found not to match: the
call raises, and the map it was given has been changed. -/
theorem raised_step_changes_map : ∃ before after, raisedStep looseFusion seq3 = some (before, after) ∧ before ≠ after ∧
    before = [[[-1, -1, 2], [0, -3 / 2, 3], [2, -2, 4], [-3 / 2, 0, 3], [0, 0, 4], [5 / 2, 0, 5], [-2, 2, 4], [0, 5 / 2, 5], [3, 3, 6]]] ∧
    after = [[[-1, -1 / 2, 2], [-3 / 4, -3 / 4, 11 / 4], [0, -1, 7 / 2], [-5 / 4, -3 / 4, 1 / 2], [0, 0, 2], [9 / 4, 5 / 4, 4],
      [0, 5 / 2, 4], [3 / 2, 13 / 4, 5], [7 / 2, 4, 6]]] :=
  ⟨_, _, by decide +kernel, by decide +kernel, rfl, rfl⟩
end Verif.Slam
