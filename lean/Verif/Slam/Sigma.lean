import Verif.Slam.Args
import Verif.Slam.Raise
/-!
C119: PointFusion objects with thresholds or a sigma of any type.
-/
namespace Verif.Slam.Args
open Verif Pcs Slam
set_option linter.unusedSectionVars false
set_option linter.unusedSimpArgs false

/-! ### Model -/

/-- The parameter `sigma`: a number or a 0-dimensional tensor (with the weights `al` it gives), a tensor with dimensions, or something else. -/
inductive SigmaArg (α : Type*)
  | scalar (al : V3 α → α)
  | tensor
  | other

/-- A threshold: a Python float or int, or something else. -/
inductive NumArg
  | number (x : ℝ)
  | other

section
variable {α : Type*} [Field α] [LinearOrder α]

/-- `fuse_with_map` with right types of the other arguments: what precedes `get_alpha`, fusionutils.py:637-655; `get_alpha`, :46-66, tests the
type of `sigma`, then the shape of the points, then the dimensions of `sigma`. -/
def fuseSigma (sg : SigmaArg α) (pc : PC α) (r : Fusion.Raw α) (rows : List Fusion.Row) (inplace : Bool) : Except Fusion.Err (PC α) × PC α :=
  match sg with
  | .scalar al => Fusion.fuseWithMapRaw al pc r rows inplace
  | .tensor =>
    let (h, pc) := hasAttr .points pc
    let (ok, pc) := if h then Fusion.requireAll [.normals, .colors, .features] pc else (true, pc)
    if !ok then (.error Fusion.valueError, pc)
    else if r.v.sh.d4 ≠ 3 then (.error Fusion.valueError, pc)
    else (.error Fusion.valueError, pc)
  | .other =>
    let (h, pc) := hasAttr .points pc
    let (ok, pc) := if h then Fusion.requireAll [.normals, .colors, .features] pc else (true, pc)
    if !ok then (.error Fusion.valueError, pc)
    else (.error (.pcs .typeError), pc)

/-- `update_map_fusion`, fusionutils.py:761-789. -/
def updateSigma [FloorRing α] (nrm : V3 α → α) (sg : SigmaArg α) (pc : PC α) (r : Fusion.Raw α) (d t : α) (inplace : Bool) :
    Except Fusion.Err (PC α) × PC α :=
  match Fusion.findCorrespondencesRaw nrm pc r d t with
  | (.error e, pc) => (.error e, pc)
  | (.ok rows, pc) => fuseSigma sg pc r rows inplace

/-- `PointFusion._map`, pointfusion.py:107-112 (cf. `mapStep`). -/
def mapSigma [FloorRing α] (S : Sys α) (sg : SigmaArg α) (d t : α) (pc : PC α) (live : Rgbd.Obj α) (inplace : Bool) :
    Except Slam.Err (PC α) × PC α × Rgbd.Obj α :=
  match Fusion.readRaw S.nrm S.eps live with
  | (.error e, live) => (.error (.rgbd e), pc, live)
  | (.ok fr, live) => match updateSigma S.nrm sg pc fr d t inplace with
    | (.error e, pc) => (.error (.fusion e), pc, live)
    | (.ok r, pc) => (.ok r, pc, live)

/-- `step` of a PointFusion object with thresholds `d`, `t` and the given `sigma` (the fields `S.mapper`, `S.al` are not used). -/
def stepSigma [FloorRing α] (S : Sys α) (sg : SigmaArg α) (d t : α) (pc : PC α) (live : Rgbd.Obj α) (prev : Option (Rgbd.Obj α))
    (inplace : Bool) : Except Slam.Err (PC α × Rgbd.TM α) × PC α × Rgbd.Obj α :=
  match localize S pc live prev with
  | (.error e, pc, live) => (.error e, pc, live)
  | (.ok T, pc, live) => match Rgbd.setPoses (some T) live with
    | (.error e, live) => (.error (.rgbd e), pc, live)
    | (.ok (), live) => match mapSigma S sg d t pc live inplace with
      | (.error e, pc, live) => (.error e, pc, live)
      | (.ok r, pc, live) => (.ok (r, T), pc, live)
end

/-- `PointFusion(...)` with thresholds of any type, pointfusion.py:70-105: the constructor of ICPSLAM runs first. -/
noncomputable def pointFusionArgs (nn : List (V3 ℝ) → V3 ℝ → Nat) (epsE eps : ℝ) (nrm : V3 ℝ → ℝ) (al : ℝ → V3 ℝ → ℝ) (p : Params) (odom : String)
    (distTh angleTh : NumArg) (sigma : ℝ) : Except Slam.Err (Sys ℝ) :=
  match odomOf nn epsE p odom with
  | .error e => .error e
  | .ok o => match distTh with
    | .other => .error typeError
    | .number d => match angleTh with
      | .other => .error typeError
      | .number t => .ok ⟨o, p.ds, .fusion d (Real.cos (t * Real.pi / 180)), nrm, al sigma, eps⟩

/-! ### Specification -/

/-- The object with the mapping of PointFusion with thresholds `d`, `t` and weights `al`. -/
def fusing {α : Type*} [Field α] [LinearOrder α] (S : Sys α) (al : V3 α → α) (d t : α) : Sys α := { S with mapper := .fusion d t, al := al }

/-- What is raised for a `sigma` that is no scalar. -/
def sigmaError {α : Type*} : SigmaArg α → Slam.Err
  | .other => typeError
  | _ => .fusion (.pcs .valueError)

/-! ### Proofs -/
section
variable {α : Type*} [Field α] [LinearOrder α] [IsStrictOrderedRing α] [FloorRing α]

/-- C119 (scalars).  With a number or a 0-dimensional tensor, `step` is that of C42-C49. -/
theorem sigma_scalar (S : Sys α) (al : V3 α → α) (d t : α) (pc : PC α) (live : Rgbd.Obj α) (prev : Option (Rgbd.Obj α)) (inplace : Bool) :
    stepSigma S (.scalar al) d t pc live prev inplace = step (fusing S al d t) pc live prev inplace := by
  have e : localize S pc live prev = localize (fusing S al d t) pc live prev := localize_same ⟨rfl, rfl, rfl, rfl⟩ ..
  unfold stepSigma step
  rw [e]
  rfl

theorem fuseSigma_bad {sg : SigmaArg α} (h : ∀ al, sg ≠ .scalar al) (pc : PC α) (r : Fusion.Raw α) (rows : List Fusion.Row) (inplace : Bool) :
    Fails (fuseSigma sg pc r rows inplace).1 ∧
    (∀ (l : Bool) (a : Clouds α), Kept l a pc → Kept l a (fuseSigma sg pc r rows inplace).2) ∧
    ∀ al x s, Fusion.fuseWithMapRaw al pc r rows inplace = (.ok x, s) →
      ∃ e, (fuseSigma sg pc r rows inplace).1 = .error e ∧ Slam.Err.fusion e = sigmaError sg := by
  have kq : ∀ (l : Bool) (a : Clouds α), Kept l a pc →
      Kept l a (if (hasAttr .points pc).1 then Fusion.requireAll [.normals, .colors, .features] (hasAttr .points pc).2
        else (true, (hasAttr .points pc).2)).2 := by
    intro l a k
    split_ifs
    · exact (k.hasAttr .points).requireAll _
    · exact k.hasAttr .points
  cases sg with
  | scalar al => exact absurd rfl (h al)
  | tensor =>
    simp only [fuseSigma, Fusion.fuseWithMapRaw]
    rcases h1 : hasAttr .points pc with ⟨b, p1⟩
    rw [h1] at kq
    simp only at kq ⊢
    rcases h2 : (if b = true then Fusion.requireAll [.normals, .colors, .features] p1 else (true, p1)) with ⟨c, p2⟩
    rw [h2] at kq
    simp only at kq ⊢
    refine ⟨?_, fun l a k => ?_, fun al x s hx => ?_⟩
    · split_ifs <;> exact ⟨_, rfl⟩
    · split_ifs <;> exact kq l a k
    · split_ifs <;> exact ⟨_, rfl, rfl⟩
  | other =>
    simp only [fuseSigma, Fusion.fuseWithMapRaw]
    rcases h1 : hasAttr .points pc with ⟨b, p1⟩
    rw [h1] at kq
    simp only at kq ⊢
    rcases h2 : (if b = true then Fusion.requireAll [.normals, .colors, .features] p1 else (true, p1)) with ⟨c, p2⟩
    rw [h2] at kq
    simp only at kq ⊢
    refine ⟨?_, fun l a k => ?_, fun al x s hx => ?_⟩
    · split_ifs <;> exact ⟨_, rfl⟩
    · split_ifs <;> exact kq l a k
    · cases c with
      | false => simp at hx
      | true => exact ⟨_, rfl, rfl⟩

/-- C119 (a sigma that is no scalar).  Every step raises, whatever the frame and the map are - the first one too, with any odometry -, and the
map keeps its contents.  A step that would have succeeded with some scalar raises TypeError (ValueError for a tensor with dimensions), and the
live frame is then as after the successful step: it has the new poses. -/
theorem sigma_bad (S : Sys α) {sg : SigmaArg α} (h : ∀ al, sg ≠ .scalar al) (d t : α) (pc : PC α) (live : Rgbd.Obj α)
    (prev : Option (Rgbd.Obj α)) (inplace : Bool) :
    Fails (stepSigma S sg d t pc live prev inplace).1 ∧
    (∀ (l : Bool) (a : Clouds α), Kept l a pc → Kept l a (stepSigma S sg d t pc live prev inplace).2.1) ∧
    ∀ al x s live', step (fusing S al d t) pc live prev inplace = (.ok x, s, live') →
      (stepSigma S sg d t pc live prev inplace).1 = .error (sigmaError sg) ∧ (stepSigma S sg d t pc live prev inplace).2.2 = live' := by
  have kl : ∀ (l : Bool) (a : Clouds α), Kept l a pc → Kept l a (localize S pc live prev).2.1 := fun l a k => k.localize S live prev
  have key : ∀ al, step (fusing S al d t) pc live prev inplace = stepSigma S (.scalar al) d t pc live prev inplace :=
    fun al => (sigma_scalar S al d t pc live prev inplace).symm
  simp only [key]
  unfold stepSigma
  rcases hl : localize S pc live prev with ⟨r, p1, l1⟩
  rw [hl] at kl
  simp only at kl
  cases r with
  | error e => exact ⟨⟨_, rfl⟩, kl, fun al x s l' hx => by simp at hx⟩
  | ok T =>
    simp only
    rcases Rgbd.setPoses (some T) l1 with ⟨r, l2⟩
    cases r with
    | error e => exact ⟨⟨_, rfl⟩, kl, fun al x s l' hx => by simp at hx⟩
    | ok u =>
      simp only [mapSigma]
      rcases Fusion.readRaw S.nrm S.eps l2 with ⟨r, l3⟩
      cases r with
      | error e => exact ⟨⟨_, rfl⟩, kl, fun al x s l' hx => by simp at hx⟩
      | ok fr =>
        have kc : ∀ (l : Bool) (a : Clouds α), Kept l a pc → Kept l a (Fusion.findCorrespondencesRaw S.nrm p1 fr d t).2 :=
          fun l a k => (kl l a k).findCorrespondencesRaw S.nrm fr d t
        simp only [updateSigma]
        rcases hc : Fusion.findCorrespondencesRaw S.nrm p1 fr d t with ⟨r, p2⟩
        rw [hc] at kc
        simp only at kc
        cases r with
        | error e => exact ⟨⟨_, rfl⟩, kc, fun al x s l' hx => by simp at hx⟩
        | ok rows =>
          obtain ⟨⟨e, he⟩, f2, f3⟩ := fuseSigma_bad h p2 fr rows inplace
          rcases hf : fuseSigma sg p2 fr rows inplace with ⟨r, p3⟩
          rw [hf] at he f2 f3
          simp only at he f2 f3
          subst he
          simp only [hf]
          refine ⟨⟨_, rfl⟩, fun l a k => f2 l a (kc l a k), fun al x s l' hx => ?_⟩
          simp only [fuseSigma] at hx
          rcases hg : Fusion.fuseWithMapRaw al p2 fr rows inplace with ⟨r, p4⟩
          rw [hg] at hx
          cases r with
          | error e' => simp at hx
          | ok y =>
            obtain ⟨e', h1, h2⟩ := f3 al y p4 hg
            simp only [Except.error.injEq] at h1
            simp only [Prod.mk.injEq, Except.ok.injEq] at hx
            subst h1
            exact ⟨by simp only [h2], hx.2.2⟩
end

/-- C119 (constructor).  A wrong name of the odometry raises ValueError whatever the thresholds are; then a threshold that is no number raises
TypeError; else the object is made, whatever the values of the thresholds are. -/
theorem constructor_types (nn : List (V3 ℝ) → V3 ℝ → Nat) (epsE eps : ℝ) (nrm : V3 ℝ → ℝ) (al : ℝ → V3 ℝ → ℝ) (p : Params) (odom : String)
    (dist angle : NumArg) (sigma : ℝ) :
    (odom ∉ ["gt", "icp", "gradicp"] → pointFusionArgs nn epsE eps nrm al p odom dist angle sigma = .error .valueError) ∧
    (odom ∈ ["gt", "icp", "gradicp"] → ((∀ x, dist ≠ .number x) ∨ (∀ x, angle ≠ .number x) →
        pointFusionArgs nn epsE eps nrm al p odom dist angle sigma = .error typeError) ∧
      ∀ d t, dist = .number d → angle = .number t → ∃ S, pointFusionArgs nn epsE eps nrm al p odom dist angle sigma = .ok S ∧
        pointFusion nn epsE eps nrm al p odom d t sigma = .ok S) := by
  have bad : odom ∉ ["gt", "icp", "gradicp"] → odomOf nn epsE p odom = .error .valueError := by
    intro h
    simp only [List.mem_cons, List.not_mem_nil, or_false, not_or] at h
    simp only [odomOf, if_neg h.1, if_neg h.2.1, if_neg h.2.2]
  have good : odom ∈ ["gt", "icp", "gradicp"] → ∃ o, odomOf nn epsE p odom = .ok o := by
    intro h
    simp only [List.mem_cons, List.not_mem_nil, or_false] at h
    rcases h with h | h | h <;> subst h <;> exact ⟨_, rfl⟩
  refine ⟨fun h => by simp only [pointFusionArgs, bad h], fun h => ?_⟩
  obtain ⟨o, ho⟩ := good h
  refine ⟨fun h => ?_, fun d t h1 h2 => ?_⟩
  · unfold pointFusionArgs
    rw [ho]
    cases dist <;> cases angle <;> simp at h ⊢
  · subst h1 h2
    exact ⟨⟨o, p.ds, .fusion d (Real.cos (t * Real.pi / 180)), nrm, al sigma, eps⟩, by simp only [pointFusionArgs, ho], by simp only [pointFusion, ho]⟩

/-- A sigma that is no scalar; an empty map is kept. -/
theorem sigma_case : (∀ al : V3 ℚ → ℚ, SigmaArg.other ≠ .scalar al) ∧ (∀ al : V3 ℚ → ℚ, SigmaArg.tensor ≠ .scalar al) ∧
    (∀ inplace, Fails (stepSigma (⟨.gt, 4, .aggregate, fun v => v.normSq, fun _ => 1, 0⟩ : Sys ℚ) .other 1 1 newEmpty oneFrame none inplace).1) ∧
    "lidar" ∉ ["gt", "icp", "gradicp"] ∧ "gt" ∈ ["gt", "icp", "gradicp"] :=
  ⟨fun _ h => (nomatch h), fun _ h => (nomatch h), fun i => (sigma_bad _ (sg := .other) (fun _ h => (nomatch h)) 1 1 newEmpty oneFrame none i).1,
    by decide, by decide⟩
end Verif.Slam.Args
