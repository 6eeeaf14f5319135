import Verif.Slam.ParamUse
import Verif.Icp.DownTable
/-!
C118: SLAM objects, odometry providers and downsampling on arguments of any type.
-/
namespace Verif.Slam.Args
open Verif Pcs Slam
set_option linter.unusedSectionVars false
set_option linter.unusedSimpArgs false

/-! ### Model -/

/-- `raise TypeError`. -/
abbrev typeError : Slam.Err := .fusion (.pcs .typeError)
/-- `raise TypeError` in the odometry functions. -/
abbrev icpTypeError : Icp.Err := .pcs .typeError

/-- An argument that should be a Pointclouds object. -/
inductive MapArg (α : Type*)
  | pc (s : PC α)
  | other

/-- An argument that should be an RGBDImages object. -/
inductive FrameArg (α : Type*)
  | rgbd (o : Rgbd.Obj α)
  | other

/-- The argument `prev_frame`: `None`, a frame, or something else. -/
inductive PrevArg (α : Type*)
  | none
  | rgbd (o : Rgbd.Obj α)
  | other

/-- An argument that should be an int (bools are ints). -/
inductive IntArg
  | int (n : Int)
  | other

/-- An int64 tensor of any shape (sizes and indices outermost first), or no tensor.  Tensors of other dtypes are not modelled. -/
inductive TabArg
  | int64 (dims : List Nat) (get : List Nat → Int)
  | other

/-- The rows of a tensor with `n` rows of four entries. -/
def rowsOf (n : Nat) (get : List Nat → Int) : List Fusion.IRow :=
  (List.range n).map fun i => ⟨get [i, 0], get [i, 1], get [i, 2], get [i, 3]⟩

section
variable {α : Type*} [Field α] [LinearOrder α]

/-- `step` with right types of an object whose `dsratio` is no int: `downsample_rgbdimages` raises (icputils.py:640) after the poses of the
live frame have been replaced (icpslam.py:239).  Without odometry the ratio is not looked at. -/
def stepBad [FloorRing α] (S : Sys α) (pc : PC α) (live : Rgbd.Obj α) (prev : Option (Rgbd.Obj α)) (inplace : Bool) :
    Except Slam.Err (PC α × Rgbd.TM α) × PC α × Rgbd.Obj α :=
  match S.odom, prev with
  | .prov _, some p => match p.poses with
    | none => (.error .valueError, pc, live)
    | some P => match Rgbd.setPoses (some P) live with
      | (.error e, live) => (.error (.rgbd e), pc, live)
      | (.ok (), live) => (.error typeError, pc, live)
  | _, _ => step S pc live prev inplace

/-- `step` with right types of an object whose `dsratio` is `ds` (the field `S.ds` is not used). -/
def stepDs [FloorRing α] (S : Sys α) (ds : IntArg) (pc : PC α) (live : Rgbd.Obj α) (prev : Option (Rgbd.Obj α)) (inplace : Bool) :
    Except Slam.Err (PC α × Rgbd.TM α) × PC α × Rgbd.Obj α :=
  match ds with
  | .int n => step { S with ds := n } pc live prev inplace
  | .other => stepBad S pc live prev inplace

/-- `step`, icpslam.py:169-178, and the checks of `_localize`, icpslam.py:201-219. -/
def stepArgs [FloorRing α] (S : Sys α) (ds : IntArg) (pc : MapArg α) (live : FrameArg α) (prev : PrevArg α) (inplace : Bool) :
    Except Slam.Err (PC α × Rgbd.TM α) × MapArg α × FrameArg α :=
  match live with
  | .other => (.error typeError, pc, live)
  | .rgbd l => match pc with
    | .other => (.error typeError, pc, live)
    | .pc s => match prev with
      | .other => (.error typeError, pc, live)
      | .none => match stepDs S ds s l none inplace with
        | (r, s, l) => (r, .pc s, .rgbd l)
      | .rgbd p => match stepDs S ds s l (some p) inplace with
        | (r, s, l) => (r, .pc s, .rgbd l)

/-- One iteration of the loop of `forward`, icpslam.py:125-137 (cf. `iter`). -/
def iterBad [FloorRing α] (S : Sys α) (frames : Rgbd.Obj α) (s : Nat) (x : Loop α) : Except Slam.Err (Loop α) :=
  match liveFrame frames s with
  | .error e => .error e
  | .ok live => match stepBad S x.pc live x.prev true with
    | (.error e, _, _) => .error e
    | (.ok (pc, T), _, live) => match Rgbd.setPoses (some T) live with
      | (.error e, _) => .error (.rgbd e)
      | (.ok (), live) => .ok ⟨pc, if S.odom.isGt then none else some live, x.poses ++ [fun b => T.at' b 0]⟩

/-- The loop of `forward`. -/
def itersBad [FloorRing α] (S : Sys α) (frames : Rgbd.Obj α) : Nat → Except Slam.Err (Loop α)
  | 0 => .ok ⟨newEmpty, none, []⟩
  | n + 1 => match itersBad S frames n with
    | .error e => .error e
    | .ok x => iterBad S frames n x

/-- `forward`, icpslam.py:115-138. -/
def forwardArgs [FloorRing α] (S : Sys α) (ds : IntArg) (frames : FrameArg α) : Except Slam.Err (PC α × Rgbd.TM α) :=
  match frames with
  | .other => .error typeError
  | .rgbd f => match ds with
    | .int n => forward { S with ds := n } f
    | .other => match itersBad S f f.L with
      | .error e => .error e
      | .ok x => .ok (x.pc, ⟨f.B, f.L, fun b s => x.poses.getD s (fun _ => M4.one) b⟩)

/-- `ICPOdometryProvider.provide` and `GradICPOdometryProvider.provide`, icp.py:57-68, gradicp.py:78-89.  `icp n` is the registration with
`n` iterations; if `numiters` is no int it raises before anything else can (icputils.py:294, 445: what precedes are tests that the tensors
made from the clouds are tensors). -/
def provideArgs (icp : Int → List (V3 α) → List (V3 α) → List (V3 α) → Option (M4 α) → Except Icp.Err (M4 α × List Nat)) (numiters : IntArg)
    (maps frames : MapArg α) : Except Icp.Err (List (M4 α)) :=
  match maps with
  | .other => .error icpTypeError
  | .pc m => match frames with
    | .other => .error icpTypeError
    | .pc f => match numiters with
      | .int n => Icp.provide (icp n) m f
      | .other => Icp.provide (fun _ _ _ _ => .error icpTypeError) m f

/-- `GroundTruthOdometryProvider.provide`, groundtruth.py:31-42. -/
def groundTruthArgs (inv : M4 α → Option (M4 α)) (o1 o2 : FrameArg α) : Except Icp.Err (List (M4 α)) :=
  match o1 with
  | .other => .error icpTypeError
  | .rgbd a => match o2 with
    | .other => .error icpTypeError
    | .rgbd b => Icp.groundTruthProvide inv a.B a.L (a.poses.map Rgbd.TM.at') b.B b.L (b.poses.map Rgbd.TM.at')

/-- `downsample_pointclouds`, icputils.py:568-592. -/
def downsampleArgs (pc : MapArg α) (tab : TabArg) (ds : IntArg) : Except Icp.Err (PC α) × MapArg α :=
  match pc with
  | .other => (.error icpTypeError, pc)
  | .pc s => match tab with
    | .other => (.error icpTypeError, pc)
    | .int64 dims get => match ds with
      | .other => (.error icpTypeError, pc)
      | .int n =>
        if dims.length ≠ 2 then (.error .valueError, pc)
        else if dims.getD 1 0 ≠ 4 then (.error .valueError, pc)
        else match Icp.downsampleTable s (rowsOf (dims.getD 0 0) get) n with
          | (r, s) => (r, .pc s)

/-! ### Specification -/

/-- Not a Pointclouds object. -/
def NotMap (pc : MapArg α) : Prop := ∀ s, pc ≠ .pc s
/-- Not an RGBDImages object. -/
def NotFrame (o : FrameArg α) : Prop := ∀ x, o ≠ .rgbd x
/-- Neither `None` nor an RGBDImages object. -/
def NotPrev (o : PrevArg α) : Prop := o ≠ .none ∧ ∀ x, o ≠ .rgbd x
/-- Not an int. -/
def NotInt (n : IntArg) : Prop := ∀ k, n ≠ .int k
/-- Not a tensor. -/
def NotTable (t : TabArg) : Prop := ∀ d g, t ≠ .int64 d g

/-- The tensor `get` with `k` rows of four entries is the list of rows `t`. -/
def IsTable (k : Nat) (get : List Nat → Int) (t : List Fusion.IRow) : Prop :=
  t.length = k ∧ ∀ (i : Nat) (r : Fusion.IRow), t[i]? = some r → r.b = get [i, 0] ∧ r.n = get [i, 1] ∧ r.h = get [i, 2] ∧ r.w = get [i, 3]

/-- The argument `prev_frame` for an optional frame. -/
def prevOf : Option (Rgbd.Obj α) → PrevArg α
  | none => .none
  | some p => .rgbd p
end

/-! ### Proofs -/
section
variable {α : Type*} [Field α] [LinearOrder α] [IsStrictOrderedRing α] [FloorRing α]

/-- C118 (steps, wrong types).  If the live frame, the map or the previous frame has a wrong type, `step` raises TypeError and changes neither
the map nor the live frame, for every object: also when the previous frame would not have been used (ground truth). -/
theorem step_wrong_type (S : Sys α) (ds : IntArg) (pc : MapArg α) (live : FrameArg α) (prev : PrevArg α) (inplace : Bool)
    (h : NotFrame live ∨ NotMap pc ∨ NotPrev prev) : stepArgs S ds pc live prev inplace = (.error typeError, pc, live) := by
  unfold NotFrame NotMap NotPrev at h
  unfold stepArgs
  cases live <;> cases pc <;> cases prev <;> simp at h ⊢

/-- C118 (steps, right types).  With arguments of the right types and an int as ratio the call is `step` of C42-C49. -/
theorem step_right_type (S : Sys α) (n : Int) (pc : PC α) (live : Rgbd.Obj α) (prev : Option (Rgbd.Obj α)) (inplace : Bool) :
    ∀ r s l, step { S with ds := n } pc live prev inplace = (r, s, l) →
      stepArgs S (.int n) (.pc pc) (.rgbd live) (prevOf prev) inplace = (r, .pc s, .rgbd l) := by
  intro r s l h
  cases prev <;> simp only [stepArgs, prevOf, stepDs, h]

/-- C118 (a ratio that is no int, unused).  Without previous frame or with ground truth, it has no effect. -/
theorem bad_ratio_unused (S : Sys α) (n : Int) {ds : IntArg} (hd : NotInt ds) (pc : PC α) (live : Rgbd.Obj α) (prev : Option (Rgbd.Obj α))
    (inplace : Bool) (h : prev = none ∨ S.odom = .gt) :
    stepArgs S ds (.pc pc) (.rgbd live) (prevOf prev) inplace = stepArgs S (.int n) (.pc pc) (.rgbd live) (prevOf prev) inplace := by
  obtain rfl : ds = .other := by cases ds <;> simp [NotInt] at hd ⊢
  have key : stepBad S pc live prev inplace = step { S with ds := n } pc live prev inplace := by
    rcases h with h | h
    · subst h
      rw [step_none (S := { S with ds := n }) (S' := S) ⟨rfl, rfl, rfl, rfl⟩]
      unfold stepBad
      cases S.odom <;> rfl
    · have e : stepBad S pc live prev inplace = step S pc live prev inplace := by unfold stepBad; rw [h]
      rw [e, step_gt (S := S) (S' := S) ⟨rfl, rfl, rfl, rfl⟩ h,
        step_gt (S := { S with ds := n }) (S' := S) ⟨rfl, rfl, rfl, rfl⟩ h]
  cases prev <;> simp only [stepArgs, prevOf, stepDs, key]

/-- C118 (a ratio that is no int, used).  With a provider and a previous frame the call raises: ValueError, changing nothing, if the previous
frame has no poses or its poses do not fit the live frame; else TypeError, and then the poses of the live frame have already been replaced by
those of the previous frame (its images and intrinsics are unchanged; the map is unchanged). -/
theorem bad_ratio_used {S : Sys α} {f : PC α → PC α → Except Icp.Err (List (M4 α))} (ho : S.odom = .prov f) {ds : IntArg} (hd : NotInt ds)
    (pc : PC α) (live p : Rgbd.Obj α) (inplace : Bool) :
    (p.poses = none → stepArgs S ds (.pc pc) (.rgbd live) (.rgbd p) inplace = (.error .valueError, .pc pc, .rgbd live)) ∧
    ∀ P, p.poses = some P →
      ((P.d0 ≠ live.B ∨ P.d1 ≠ live.L) →
        stepArgs S ds (.pc pc) (.rgbd live) (.rgbd p) inplace = (.error (.rgbd .valueError), .pc pc, .rgbd live)) ∧
      (P.d0 = live.B → P.d1 = live.L → ∃ l', stepArgs S ds (.pc pc) (.rgbd live) (.rgbd p) inplace = (.error typeError, .pc pc, .rgbd l') ∧
        l'.poses = some P ∧ l'.rgb = live.rgb ∧ l'.depth = live.depth ∧ l'.K = live.K) := by
  obtain rfl : ds = .other := by cases ds <;> simp [NotInt] at hd ⊢
  refine ⟨fun h => by simp only [stepArgs, stepDs, stepBad, ho, h], fun P hP => ⟨fun h => ?_, fun h0 h1 => ?_⟩⟩
  · have e : Rgbd.setPoses (some P) live = (.error .valueError, live) := by
      rw [Rgbd.setPoses, if_pos]
      simp only [Pcs.okOpt, Prod.mk.injEq, Bool.not_eq_true', decide_eq_false_iff_not]
      rintro ⟨a, b⟩
      rcases h with h | h
      · exact h a
      · exact h b
    simp only [stepArgs, stepDs, stepBad, ho, hP, e]
  · have e : Rgbd.setPoses (some P) live = (.ok (), { live with poses := some P, gvertex := none, gnormal := none }) := by
      rw [Rgbd.setPoses, if_neg]
      simp [Pcs.okOpt, h0, h1]
    refine ⟨{ live with poses := some P, gvertex := none, gnormal := none }, ?_, rfl, rfl, rfl, rfl⟩
    simp only [stepArgs, stepDs, stepBad, ho, hP, e]

theorem iterBad_gt {S : Sys α} (hg : S.odom = .gt) (frames : Rgbd.Obj α) (s : Nat) (x : Loop α) : iterBad S frames s x = iter S frames s x := by
  have e : ∀ pc live prev i, stepBad S pc live prev i = step S pc live prev i := fun _ _ _ _ => by unfold stepBad; rw [hg]
  simp only [iterBad, iter, e]
  rfl

theorem iterBad_none (S : Sys α) (frames : Rgbd.Obj α) (s : Nat) (pc : PC α) (l : List (Nat → M4 α)) :
    iterBad S frames s ⟨pc, none, l⟩ = iter S frames s ⟨pc, none, l⟩ := by
  have e : ∀ pc live i, stepBad S pc live none i = step S pc live none i := fun _ _ _ => by unfold stepBad; cases S.odom <;> rfl
  simp only [iterBad, iter, e]
  rfl

theorem stepBad_fails {S : Sys α} {f : PC α → PC α → Except Icp.Err (List (M4 α))} (ho : S.odom = .prov f) (pc : PC α)
    (live p : Rgbd.Obj α) (inplace : Bool) : Fails (stepBad S pc live (some p) inplace).1 := by
  unfold stepBad
  rw [ho]
  simp only
  cases p.poses with
  | none => exact ⟨_, rfl⟩
  | some P =>
    simp only
    rcases Rgbd.setPoses (some P) live with ⟨r, l⟩
    cases r <;> exact ⟨_, rfl⟩

/-- C118 (sequences).  `forward` raises TypeError if its argument is no RGBDImages object.  A ratio that is no int has no effect on sequences
of at most one frame and with ground truth; with a provider every longer sequence raises. -/
theorem forward_types (S : Sys α) (ds : IntArg) (frames : FrameArg α) :
    (NotFrame frames → forwardArgs S ds frames = .error typeError) ∧
    (∀ f n, frames = .rgbd f → ds = .int n → forwardArgs S ds frames = forward { S with ds := n } f) ∧
    ∀ f, frames = .rgbd f → NotInt ds →
      (f.L ≤ 1 ∨ S.odom = .gt → ∀ n, forwardArgs S ds frames = forwardArgs S (.int n) frames) ∧
      (2 ≤ f.L → S.odom ≠ .gt → Fails (forwardArgs S ds frames)) := by
  refine ⟨fun h => ?_, fun f n h1 h2 => by subst h1 h2; rfl, fun f hf hd => ?_⟩
  · cases frames with
    | rgbd x => exact absurd rfl (h x)
    | other => rfl
  · subst hf
    obtain rfl : ds = .other := by cases ds <;> simp [NotInt] at hd ⊢
    refine ⟨fun h n => ?_, fun hL ho => ?_⟩
    · have key : itersBad S f f.L = iters S f f.L := by
        rcases h with h | h
        · rcases (show f.L = 0 ∨ f.L = 1 by omega) with h0 | h0
          · rw [h0]; rfl
          · rw [h0]; simp only [itersBad, iters, iterBad_none]
        · generalize f.L = k
          induction k with
          | zero => rfl
          | succ k ih =>
            simp only [itersBad, iters, ih]
            cases iters S f k with
            | error e => rfl
            | ok x => exact iterBad_gt h f k x
      have e : forwardArgs S .other (.rgbd f) = forward S f := by simp only [forwardArgs, forward, key]; rfl
      rw [e]
      rcases h with h | h
      · exact forward_one (S := S) (S' := { S with ds := n }) ⟨rfl, rfl, rfl, rfl⟩ h
      · exact forward_gt (S := S) (S' := { S with ds := n }) ⟨rfl, rfl, rfl, rfl⟩ h h f
    · cases hs : S.odom with
      | gt => exact absurd hs ho
      | prov g =>
        have key : ∀ k, Fails (itersBad S f (k + 2)) := by
          intro k
          induction k with
          | succ k ih => obtain ⟨e, he⟩ := ih; exact ⟨e, by rw [itersBad, he]⟩
          | zero =>
            have e0 : itersBad S f 1 = iterBad S f 0 ⟨newEmpty, none, []⟩ := rfl
            unfold itersBad
            rw [e0, iterBad_none]
            rcases iter_none (S := S) (S' := S) ⟨rfl, rfl, rfl, rfl⟩ f 0 (newEmpty : PC α) [] with ⟨e, e1, _⟩ | ⟨x, y, e1, _, _, _, _, _, h5⟩
            · rw [e1]; exact ⟨_, rfl⟩
            · rw [e1]
              obtain ⟨p, hp⟩ := Option.isSome_iff_exists.1 (h5 ho)
              simp only [iterBad]
              cases liveFrame f 1 with
              | error e => exact ⟨_, rfl⟩
              | ok live =>
                simp only [hp]
                obtain ⟨e, he⟩ := stepBad_fails hs x.pc live p true
                rcases hq : stepBad S x.pc live (some p) true with ⟨r, a, b⟩
                rw [hq] at he
                simp only at he
                rw [he]
                exact ⟨_, rfl⟩
        obtain ⟨k, hk⟩ := Nat.exists_eq_add_of_le hL
        obtain ⟨e, he⟩ := key k
        exact ⟨e, by simp only [forwardArgs, hk, Nat.add_comm 2 k, he]⟩

/-- C118 (providers).  The providers raise TypeError for arguments of the wrong type, whatever the others are.  A number of iterations that is
no int is noticed last: maps without normals and other batch sizes raise ValueError first, and otherwise the call fails. -/
theorem provider_types (icp : Int → List (V3 α) → List (V3 α) → List (V3 α) → Option (M4 α) → Except Icp.Err (M4 α × List Nat))
    (numiters : IntArg) (maps frames : MapArg α) (inv : M4 α → Option (M4 α)) (o1 o2 : FrameArg α) :
    (NotMap maps ∨ NotMap frames → provideArgs icp numiters maps frames = .error icpTypeError) ∧
    (NotFrame o1 ∨ NotFrame o2 → groundTruthArgs inv o1 o2 = .error icpTypeError) ∧
    (∀ a b, o1 = .rgbd a → o2 = .rgbd b →
      groundTruthArgs inv o1 o2 = Icp.groundTruthProvide inv a.B a.L (a.poses.map Rgbd.TM.at') b.B b.L (b.poses.map Rgbd.TM.at')) ∧
    (∀ m f, maps = .pc m → frames = .pc f → (∀ n, numiters = .int n → provideArgs icp numiters maps frames = Icp.provide (icp n) m f) ∧
      (NotInt numiters → ((getList .normals m).1 = none ∨ m.B ≠ f.B → provideArgs icp numiters maps frames = .error .valueError) ∧
        ((getList .normals m).1.isSome → m.B = f.B → 0 < m.B → provideArgs icp numiters maps frames = .error icpTypeError))) := by
  refine ⟨fun h => ?_, fun h => ?_, fun a b h1 h2 => by subst h1 h2; rfl, fun m f hm hf => ?_⟩
  · unfold NotMap at h
    unfold provideArgs
    cases maps <;> cases frames <;> simp at h ⊢
  · unfold NotFrame at h
    unfold groundTruthArgs
    cases o1 <;> cases o2 <;> simp at h ⊢
  · subst hm hf
    refine ⟨fun n h => by subst h; rfl, fun hn => ?_⟩
    obtain rfl : numiters = .other := by cases numiters <;> simp [NotInt] at hn ⊢
    refine ⟨fun h => ?_, fun h1 h2 h3 => ?_⟩
    · simp only [provideArgs, Icp.provide]
      rcases h with h | h
      · rw [h]
      · cases (getList .normals m).1 with
        | none => rfl
        | some N => simp only [if_pos h]
    · obtain ⟨N, hN⟩ := Option.isSome_iff_exists.1 h1
      simp only [provideArgs, Icp.provide, hN, if_neg (not_not.2 h2), if_neg h3.ne']
      cases (getList .points m).1 <;> cases (getList .points f).1 <;> try rfl
      obtain ⟨k, hk⟩ := Nat.exists_eq_succ_of_ne_zero h3.ne'
      simp only [hk, List.range_succ_eq_map, Icp.collect]

/-- The rows of a tensor are what `IsTable` says. -/
theorem rowsOf_unique {k : Nat} {get : List Nat → Int} {t : List Fusion.IRow} (h : IsTable k get t) : rowsOf k get = t := by
  obtain ⟨rfl, h⟩ := h
  apply List.ext_getElem (by simp [rowsOf])
  intro i h1 h2
  obtain ⟨a, b, c, d⟩ := h i _ (List.getElem?_eq_getElem h2)
  simp only [rowsOf, List.getElem_map, List.getElem_range]
  rw [← a, ← b, ← c, ← d]

/-- Every tensor with four columns has rows. -/
theorem rowsOf_exists (k : Nat) (get : List Nat → Int) : IsTable k get (rowsOf k get) := by
  refine ⟨by simp [rowsOf], fun i r h => ?_⟩
  simp only [rowsOf, List.getElem?_map, Option.map_eq_some_iff] at h
  obtain ⟨j, hj, rfl⟩ := h
  rw [List.getElem?_eq_some_iff] at hj
  obtain ⟨_, hj⟩ := hj
  rw [List.getElem_range] at hj
  subst hj
  exact ⟨rfl, rfl, rfl, rfl⟩

/-- C118 (`downsample_pointclouds`).  Wrong types raise TypeError, before shapes are looked at; a table that has not exactly two dimensions
and four columns raises ValueError, even if it has no rows; else the call is that of C115.  The map is unchanged when the call raises so. -/
theorem downsample_types (pc : MapArg α) (tab : TabArg) (ds : IntArg) :
    (NotMap pc ∨ NotTable tab ∨ NotInt ds → downsampleArgs pc tab ds = (.error icpTypeError, pc)) ∧
    ∀ s dims get n, pc = .pc s → tab = .int64 dims get → ds = .int n →
      ((∀ k, dims ≠ [k, 4]) → downsampleArgs pc tab ds = (.error .valueError, pc)) ∧
      ∀ k t, dims = [k, 4] → IsTable k get t → ∀ r s', Icp.downsampleTable s t n = (r, s') → downsampleArgs pc tab ds = (r, .pc s') := by
  constructor
  · intro h
    unfold NotMap NotTable NotInt at h
    unfold downsampleArgs
    cases pc <;> cases tab <;> cases ds <;> simp at h ⊢
  · rintro s dims get n rfl rfl rfl
    refine ⟨fun h => ?_, ?_⟩
    · unfold downsampleArgs
      simp only
      split_ifs with h1 h2
      · rfl
      · rfl
      · exfalso
        match dims, h1, h2, h with
        | [a, m], _, h2, h => simp only [List.getD_cons_succ, List.getD_cons_zero, not_not] at h2; subst h2; exact h a rfl
        | [], h1, _, _ => simp at h1
        | [_], h1, _, _ => simp at h1
        | _ :: _ :: _ :: _, h1, _, _ => simp at h1
    · rintro k t rfl ht r s' h
      rw [← rowsOf_unique ht] at h
      simp [downsampleArgs, h]
end

/-! ### Concrete cases -/

/-- A frame of one pixel with the identity as pose. -/
def oneFrame : Rgbd.Obj ℚ := ⟨false, ⟨⟨1, 1, 1, 1, 3⟩, fun _ _ _ _ _ => 1⟩, ⟨⟨1, 1, 1, 1, 1⟩, fun _ _ _ _ _ => 1⟩, ⟨1, 1, fun _ _ => M4.one⟩,
  some ⟨1, 1, fun _ _ => M4.one⟩, none, none, none, none, none, none, ⟨1, 1, 1, 1, 3⟩, none, 1, 1, 1, 1⟩

/-- A step with a provider, a previous frame and a ratio that is no int; the same call with a previous frame that is a tensor; with ground
truth; a table with three columns. -/
theorem args_case :
    let S : Sys ℚ := ⟨.prov fun _ _ => .error .valueError, 4, .aggregate, fun v => v.normSq, fun _ => 1, 0⟩
    (stepArgs S .other (.pc newEmpty) (.rgbd { oneFrame with poses := none }) (.rgbd oneFrame) false).1 = .error typeError ∧
    (stepArgs { S with odom := .gt } (.int 4) (.pc newEmpty) (.rgbd oneFrame) .other false).1 = .error typeError ∧
    Fails (forwardArgs S .other (.rgbd { oneFrame with L := 2 })) ∧
    (downsampleArgs (.pc (newEmpty : PC ℚ)) (.int64 [0, 3] fun _ => 0) (.int 2)).1 = .error .valueError := by
  intro S
  refine ⟨?_, rfl, ?_, rfl⟩
  · obtain ⟨l, h, _⟩ := ((bad_ratio_used (S := S) (ds := .other) rfl (by simp [NotInt]) newEmpty { oneFrame with poses := none } oneFrame
      false).2 _ rfl).2 rfl rfl
    rw [h]
  · exact ((forward_types S .other (.rgbd { oneFrame with L := 2 })).2.2 _ rfl (by simp [NotInt])).2 le_rfl (by simp [S])
end Verif.Slam.Args
