import Verif.Slam.Real
/-!
C117: which parameters of a SLAM object matter, and when a bad one is noticed.
-/
namespace Verif.Slam
open Verif Pcs
set_option linter.unusedSectionVars false

/-! ### Specification -/
section
variable {α : Type*} [Field α] [LinearOrder α]

/-- Objects of the same class with the same mapping parameters: the odometry method and all its parameters may differ. -/
def SameMapping (S S' : Sys α) : Prop := S.mapper = S'.mapper ∧ S.nrm = S'.nrm ∧ S.al = S'.al ∧ S.eps = S'.eps

/-- The same odometry method with the same parameters: the class and the mapping parameters may differ. -/
def SameOdometry (S S' : Sys α) : Prop := S.odom = S'.odom ∧ S.ds = S'.ds ∧ S.nrm = S'.nrm ∧ S.eps = S'.eps

/-- The call raises. -/
def Fails {β γ : Type*} (r : Except β γ) : Prop := ∃ e, r = .error e
end

/-! ### Proofs -/
section
variable {α : Type*} [Field α] [LinearOrder α] [IsStrictOrderedRing α] [FloorRing α]

theorem mapStep_same {S S' : Sys α} (h : SameMapping S S') (pc : PC α) (live : Rgbd.Obj α) (inplace : Bool) :
    mapStep S pc live inplace = mapStep S' pc live inplace := by
  obtain ⟨o, d, m, n, a, e⟩ := S
  obtain ⟨o', d', m', n', a', e'⟩ := S'
  obtain ⟨h1, h2, h3, h4⟩ := h
  simp only at h1 h2 h3 h4
  subst h1 h2 h3 h4
  rfl

theorem localize_none (S S' : Sys α) (pc : PC α) (live : Rgbd.Obj α) : localize S pc live none = localize S' pc live none := by
  unfold localize
  cases S.odom <;> cases S'.odom <;> rfl

theorem localize_gt_any {S S' : Sys α} (h : S.odom = .gt) (pc : PC α) (live : Rgbd.Obj α) (prev : Option (Rgbd.Obj α)) :
    localize S pc live prev = localize S' pc live none := by
  unfold localize
  rw [h]
  cases S'.odom <;> rfl

/-- C117 (mapping parameters and poses).  The pose that a step finds for a frame does not depend on the class of the object, nor on
`dist_th`, `angle_th` and `sigma`. -/
theorem localize_same {S S' : Sys α} (h : SameOdometry S S') (pc : PC α) (live : Rgbd.Obj α) (prev : Option (Rgbd.Obj α)) :
    localize S pc live prev = localize S' pc live prev := by
  obtain ⟨o, d, m, n, a, e⟩ := S
  obtain ⟨o', d', m', n', a', e'⟩ := S'
  obtain ⟨h1, h2, h3, h4⟩ := h
  simp only at h1 h2 h3 h4
  subst h1 h2 h3 h4
  rfl

/-- C117 (steps without a previous frame).  The odometry method and its parameters do not matter. -/
theorem step_none {S S' : Sys α} (h : SameMapping S S') (pc : PC α) (live : Rgbd.Obj α) (inplace : Bool) :
    step S pc live none inplace = step S' pc live none inplace := by
  unfold step
  rw [localize_none S S']
  simp only [mapStep_same h]

/-- C117 (ground truth).  The downsampling ratio and the previous frame do not matter. -/
theorem step_gt {S S' : Sys α} (h : SameMapping S S') (hg : S.odom = .gt) (pc : PC α) (live : Rgbd.Obj α) (prev : Option (Rgbd.Obj α))
    (inplace : Bool) : step S pc live prev inplace = step S' pc live none inplace := by
  unfold step
  rw [localize_gt_any hg (S' := S')]
  simp only [mapStep_same h]

theorem iter_none {S S' : Sys α} (h : SameMapping S S') (frames : Rgbd.Obj α) (s : Nat) (pc : PC α) (l : List (Nat → M4 α)) :
    (∃ e, iter S frames s ⟨pc, none, l⟩ = .error e ∧ iter S' frames s ⟨pc, none, l⟩ = .error e) ∨
    ∃ x y, iter S frames s ⟨pc, none, l⟩ = .ok x ∧ iter S' frames s ⟨pc, none, l⟩ = .ok y ∧ x.pc = y.pc ∧ x.poses = y.poses ∧
      (S.odom = .gt → x.prev = none) ∧ (S'.odom = .gt → y.prev = none) ∧ (S.odom ≠ .gt → x.prev.isSome) := by
  unfold iter
  cases e1 : liveFrame frames s with
  | error e => exact .inl ⟨e, rfl, rfl⟩
  | ok live =>
    simp only [step_none h]
    rcases e2 : step S' pc live none true with ⟨r, pc', live'⟩
    cases r with
    | error e => exact .inl ⟨e, rfl, rfl⟩
    | ok r =>
      obtain ⟨m, T⟩ := r
      simp only
      rcases e3 : Rgbd.setPoses (some T) live' with ⟨r, l'⟩
      cases r with
      | error e => exact .inl ⟨_, rfl, rfl⟩
      | ok u =>
        refine .inr ⟨_, _, rfl, rfl, rfl, rfl, fun h => by simp [h, Odom.isGt], fun h => by simp [h, Odom.isGt], fun h => ?_⟩
        cases ho : S.odom with
        | gt => exact absurd ho h
        | prov f => simp [Odom.isGt]

/-- C117 (short sequences).  On sequences of at most one frame the odometry method and its parameters do not matter. -/
theorem forward_one {S S' : Sys α} (h : SameMapping S S') {frames : Rgbd.Obj α} (hL : frames.L ≤ 1) :
    forward S frames = forward S' frames := by
  rcases (show frames.L = 0 ∨ frames.L = 1 by omega) with h0 | h0
  · unfold forward; rw [h0]; rfl
  · unfold forward
    rw [h0]
    simp only [iters]
    rcases iter_none h frames 0 (newEmpty : PC α) [] with ⟨e, e1, e2⟩ | ⟨x, y, e1, e2, h1, h2, _⟩
    · rw [e1, e2]
    · rw [e1, e2]; simp only [h1, h2]

theorem iters_gt {S S' : Sys α} (h : SameMapping S S') (hg : S.odom = .gt) (hg' : S'.odom = .gt) (frames : Rgbd.Obj α) (n : Nat) :
    iters S frames n = iters S' frames n ∧ ∀ x, iters S frames n = .ok x → x.prev = none := by
  induction n with
  | zero => exact ⟨rfl, fun x h => by cases h; rfl⟩
  | succ n ih =>
    obtain ⟨i1, i2⟩ := ih
    simp only [iters, ← i1]
    cases e : iters S frames n with
    | error e => exact ⟨rfl, fun x h => by cases h⟩
    | ok x =>
      obtain ⟨pc, prev, l⟩ := x
      obtain rfl : prev = none := i2 _ e
      simp only
      rcases iter_none h frames n pc l with ⟨e, e1, e2⟩ | ⟨x, y, e1, e2, h1, h2, h3, h4, _⟩
      · rw [e1, e2]; exact ⟨rfl, fun x h => by cases h⟩
      · rw [e1, e2]
        have k3 := h3 hg
        have k4 := h4 hg'
        clear h3 h4
        obtain ⟨xp, xv, xl⟩ := x
        obtain ⟨yp, yv, yl⟩ := y
        simp only at h1 h2 k3 k4
        subst h1 h2 k3 k4
        exact ⟨rfl, fun z hz => by cases hz; rfl⟩

/-- C117 (ground truth, sequences). -/
theorem forward_gt {S S' : Sys α} (h : SameMapping S S') (hg : S.odom = .gt) (hg' : S'.odom = .gt) (frames : Rgbd.Obj α) :
    forward S frames = forward S' frames := by
  unfold forward
  rw [(iters_gt h hg hg' frames frames.L).1]

/-- An object whose every registration fails. -/
def Useless (S : Sys α) : Prop := ∃ f, S.odom = .prov f ∧ (S.ds ≤ 0 ∨ ∀ a b, Fails (f a b))

theorem localize_useless {S : Sys α} (h : Useless S) (pc : PC α) (live prev : Rgbd.Obj α) : Fails (localize S pc live (some prev)).1 := by
  obtain ⟨f, ho, h⟩ := h
  unfold localize
  rw [ho]
  simp only
  cases prev.poses with
  | none => exact ⟨_, rfl⟩
  | some P =>
    simp only [odometry]
    rcases Rgbd.setPoses (some P) live with ⟨r, l1⟩
    cases r with
    | error e => exact ⟨_, rfl⟩
    | ok u =>
      simp only
      generalize hw : withFrame S.nrm S.eps l1 _ = w
      rcases w with ⟨r, l2⟩
      cases r with
      | error e => exact ⟨_, rfl⟩
      | ok fp =>
        rcases h with h | h
        · exfalso
          unfold withFrame at hw
          rcases hx : Fusion.readRaw S.nrm S.eps l1 with ⟨r, l3⟩
          rw [hx] at hw
          cases r with
          | error e => simp at hw
          | ok fr =>
            have : Fails (Icp.downsampleRaw fr S.ds) := by
              unfold Icp.downsampleRaw
              split_ifs
              · exact ⟨_, rfl⟩
              · exact ⟨_, rfl⟩
            obtain ⟨e, he⟩ := this
            simp [he] at hw
        · simp only
          rcases Fusion.findActive pc (camera prev) with ⟨r, pc1⟩
          cases r with
          | error e => exact ⟨_, rfl⟩
          | ok rows =>
            simp only
            rcases Icp.downsamplePointclouds pc1 rows S.ds with ⟨r, pc2⟩
            cases r with
            | error e => exact ⟨_, rfl⟩
            | ok mp =>
              obtain ⟨e, he⟩ := h mp fp
              simp only [he]
              exact ⟨_, rfl⟩

/-- C117 (late failure).  If every registration fails, every step with a previous frame raises, ... -/
theorem step_useless {S : Sys α} (h : Useless S) (pc : PC α) (live prev : Rgbd.Obj α) (inplace : Bool) :
    Fails (step S pc live (some prev) inplace).1 := by
  obtain ⟨e, he⟩ := localize_useless h pc live prev
  unfold step
  rcases hl : localize S pc live (some prev) with ⟨r, a, b⟩
  rw [hl] at he
  simp only at he
  rw [he]
  exact ⟨_, rfl⟩

/-- ... and so does every sequence of two or more frames. -/
theorem forward_useless {S : Sys α} (h : Useless S) {frames : Rgbd.Obj α} (hL : 2 ≤ frames.L) : Fails (forward S frames) := by
  have key : ∀ n, Fails (iters S frames (n + 2)) := by
    intro n
    induction n with
    | succ n ih => obtain ⟨e, he⟩ := ih; exact ⟨e, by rw [iters, he]⟩
    | zero =>
      have e0 : iters S frames 1 = iter S frames 0 ⟨newEmpty, none, []⟩ := rfl
      unfold iters
      rw [e0]
      rcases iter_none (S := S) (S' := S) ⟨rfl, rfl, rfl, rfl⟩ frames 0 (newEmpty : PC α) [] with ⟨e, e1, _⟩ | ⟨x, y, e1, _, _, _, _, _, h5⟩
      · rw [e1]; exact ⟨_, rfl⟩
      · rw [e1]
        obtain ⟨f, ho, _⟩ := id h
        obtain ⟨p, hp⟩ := Option.isSome_iff_exists.1 (h5 (by rw [ho]; simp))
        simp only [iter]
        cases liveFrame frames 1 with
        | error e => exact ⟨_, rfl⟩
        | ok live =>
          simp only [hp]
          obtain ⟨e, he⟩ := step_useless h x.pc live p true
          rcases hs : step S x.pc live (some p) true with ⟨r, a, b⟩
          rw [hs] at he
          simp only at he
          rw [he]
          exact ⟨_, rfl⟩
  obtain ⟨n, hn⟩ := Nat.exists_eq_add_of_le hL
  obtain ⟨e, he⟩ := key n
  unfold forward
  rw [hn, Nat.add_comm, he]
  exact ⟨_, rfl⟩
end

/-! ### The constructors -/

/-- C117 (`odom="icp"`).  `lambda_max`, `B`, `B2` and `nu` do not matter; for ground truth only the ratio is even stored. -/
theorem constructor_ignores (nn : List (V3 ℝ) → V3 ℝ → Nat) (epsE eps : ℝ) (nrm al : V3 ℝ → ℝ) (al' : ℝ → V3 ℝ → ℝ) (p q : Params)
    (d an sg : ℝ) (hds : p.ds = q.ds) :
    (p.numiters = q.numiters → p.damp = q.damp → p.distThresh = q.distThresh →
      icpSlam nn epsE eps nrm al p "icp" = icpSlam nn epsE eps nrm al q "icp" ∧
      pointFusion nn epsE eps nrm al' p "icp" d an sg = pointFusion nn epsE eps nrm al' q "icp" d an sg) ∧
    icpSlam nn epsE eps nrm al p "gt" = icpSlam nn epsE eps nrm al q "gt" ∧
    pointFusion nn epsE eps nrm al' p "gt" d an sg = pointFusion nn epsE eps nrm al' q "gt" d an sg := by
  refine ⟨fun h1 h2 h3 => ?_, ?_⟩
  · have : odomOf nn epsE p "icp" = odomOf nn epsE q "icp" := by
      simp only [odomOf, show ¬ ("icp" = "gt") by decide, if_false, if_true, h1, h2, h3]
    simp only [icpSlam, pointFusion, this, hds, and_self]
  · simp only [icpSlam, pointFusion, odomOf, if_true, hds, and_self]

theorem provide_no_iterations {icp : List (V3 ℝ) → List (V3 ℝ) → List (V3 ℝ) → Option (M4 ℝ) → Except Icp.Err (M4 ℝ × List Nat)}
    (h : ∀ a b c d, Fails (icp a b c d)) (x y : PC ℝ) : Fails (Icp.provide icp x y) := by
  unfold Icp.provide
  cases (getList .normals x).1 with
  | none => exact ⟨_, rfl⟩
  | some Nn =>
    simp only
    split_ifs with h1 h2
    · exact ⟨_, rfl⟩
    · exact ⟨_, rfl⟩
    · cases (getList .points x).1 <;> cases (getList .points y).1
      · exact ⟨_, rfl⟩
      · exact ⟨_, rfl⟩
      · exact ⟨_, rfl⟩
      · rename_i Q P
        simp only
        obtain ⟨n, hn⟩ := Nat.exists_eq_succ_of_ne_zero h2
        rw [hn, List.range_succ_eq_map]
        obtain ⟨e, he⟩ := h (Icp.vecs (P.getD 0 ⟨[], 0⟩)) (Icp.vecs (Q.getD 0 ⟨[], 0⟩)) (Icp.vecs (Nn.getD 0 ⟨[], 0⟩)) (some M4.one)
        refine ⟨e, ?_⟩
        simp only [Icp.collect, he]

/-- C117 (bad parameters are noticed late).  An object made with a ratio or a number of iterations that is not positive is useless unless
it uses ground truth: by `step_useless` and `forward_useless` every step with a previous frame and every longer sequence raises, while by
`step_none` and `forward_one` first frames are processed as with good parameters. -/
theorem bad_parameters {nn : List (V3 ℝ) → V3 ℝ → Nat} {epsE eps : ℝ} {nrm : V3 ℝ → ℝ} {p : Params} {odom : String} {S : Sys ℝ}
    (h : Made nn epsE eps nrm p odom S) (ho : odom ≠ "gt") (hb : p.ds ≤ 0 ∨ p.numiters ≤ 0) : Useless S := by
  obtain ⟨h1, h2, _⟩ := made_cases h
  have hz : p.numiters ≤ 0 → p.numiters.toNat = 0 := fun h => by omega
  rcases odom_cases h1 with ⟨h, _⟩ | ⟨_, h⟩ | ⟨_, h⟩
  · exact absurd h ho
  all_goals
    refine ⟨_, h, ?_⟩
    rcases hb with hb | hb
    · exact .inl (by rw [h2]; exact hb)
    · refine .inr fun a b => provide_no_iterations (fun s t n T0 => ?_) a b
      cases T0 with
      | none => exact ⟨_, rfl⟩
      | some T0 =>
        simp only [Icp.pointToPlaneICP, Icp.pointToPlaneGradICP, hz hb, Icp.loop, Icp.finish, Icp.start]
        exact ⟨_, rfl⟩

/-- Objects with other odometry meet the hypotheses, and the constructors make useless ones. -/
theorem param_case : (∀ (nrm : V3 ℝ → ℝ) (al : ℝ → V3 ℝ → ℝ), SameMapping (⟨.gt, -3, .fusion 1 2, nrm, al 1, 0⟩ : Sys ℝ)
      ⟨.prov fun _ _ => .error .valueError, 4, .fusion 1 2, nrm, al 1, 0⟩) ∧
    ∀ nn nrm, ∃ S, Made nn 0 0 nrm ⟨0, 20, 1, none, 2, 1, 1, 200⟩ "icp" S ∧ Useless S := by
  refine ⟨fun nrm al => ⟨rfl, rfl, rfl, rfl⟩, fun nn nrm => ?_⟩
  have hm : Made nn 0 0 nrm ⟨0, 20, 1, none, 2, 1, 1, 200⟩ "icp" _ := .inl rfl
  exact ⟨_, hm, bad_parameters hm (by decide) (.inl le_rfl)⟩
end Verif.Slam
