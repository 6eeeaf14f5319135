import Verif.Nan.Model
import Verif.Icp.Model
/-! With the arithmetic of a field, the functions of `Nan/Model.lean` are those of the models of `rgbdimages.py` (`Verif.Rgbd`) and `icputils.py`
(`Verif.Icp`). -/
namespace Verif.Nan
open Verif

/-- Exact arithmetic. -/
def fieldAr {α : Type*} [Field α] [LinearOrder α] (nrm : V3 α → α) (sn cs ex : α → α) (rt : α → α → α) : Ar α where
  zero := 0
  one := 1
  add := (· + ·)
  sub := (· - ·)
  neg := fun x => -x
  mul := (· * ·)
  div := (· / ·)
  sum := List.sum
  norm := nrm
  lt := fun x y => decide (x < y)
  isZero := fun x => decide (x = 0)
  sin := sn
  cos := cs
  exp := ex
  pw := fun x k => x ^ k
  root := rt
  clamp := fun x a b => min (max x a) b

section maps
variable {α : Type*} [Field α] [LinearOrder α] (nrm : V3 α → α) (sn cs ex : α → α) (rt : α → α → α)

/-- Frame `l` of batch element `b`. -/
def frOf (eps : α) (i : Rgbd.In α) (b l : Nat) : Fr α :=
  ⟨i.H, i.W, (Geom.inverseIntrinsics4 eps (i.K b)).R, i.pix b l, i.depth b l, i.rgb b l, i.poses.map fun P => ((P b l).R, (P b l).t)⟩

theorem mulVec_link (M : M3 α) (v : V3 α) : mulVec (fieldAr nrm sn cs ex rt) M v = M.mulVec v := by
  ext <;> simp [mulVec, dot, fieldAr, M3.mulVec, V3.dot] <;> ring

theorem valid_link (eps : α) (i : Rgbd.In α) (b l h w : Nat) :
    valid (fieldAr nrm sn cs ex rt) (frOf eps i b l) h w = decide (0 < i.depth b l h w) := rfl

theorem vertex_link (eps : α) (i : Rgbd.In α) (b l h w : Nat) :
    vertex (fieldAr nrm sn cs ex rt) (frOf eps i b l) h w = Rgbd.vertexAt eps i b l h w := by
  rw [vertex, mulVec_link, valid_link, Rgbd.vertexAt]
  by_cases c : 0 < i.depth b l h w
  · simp only [c, decide_true, if_true, num]
    ext <;> simp [vmul, fieldAr, frOf, Rgbd.backproj, Geom.inverseIntrinsics4, Geom.inverseIntrinsics3, M3.mulVec, V3.dot] <;> ring
  · simp only [c, decide_false, if_false, num]
    ext <;> simp [vmul, fieldAr, V3.zero]

theorem gvertex_link (eps : α) (i : Rgbd.In α) (b l h w : Nat) :
    gvertex (fieldAr nrm sn cs ex rt) (frOf eps i b l) h w = Rgbd.gvertexAt eps i b l h w := by
  rw [gvertex, Rgbd.gvertexAt, vertex_link, valid_link]
  cases hp : i.poses with
  | none => simp [frOf, hp]
  | some P =>
    simp only [frOf, hp, Option.map_some, mulVec_link]
    by_cases c : 0 < i.depth b l h w
    · simp only [c, decide_true, if_true, num]
      ext <;> simp [vmul, vadd, fieldAr, V3.add]
    · simp only [c, decide_false, if_false, num]
      ext <;> simp [vmul, fieldAr, V3.zero]

theorem fwdIx_link (n k : Nat) : fwdIx n k = Rgbd.fwd n k := by unfold fwdIx Rgbd.fwd; split <;> split <;> omega

theorem normal_link (eps : α) (i : Rgbd.In α) (b l h w : Nat) :
    normal (fieldAr nrm sn cs ex rt) (frOf eps i b l) h w = Rgbd.normalAt nrm eps i b l h w := by
  have d1 : dhoriz (fieldAr nrm sn cs ex rt) (frOf eps i b l) h w = Rgbd.tanW eps i b l h w := by
    rw [dhoriz, vertex_link, vertex_link, fwdIx_link]; rfl
  have d2 : dverti (fieldAr nrm sn cs ex rt) (frOf eps i b l) h w = Rgbd.tanH eps i b l h w := by
    rw [dverti, vertex_link, vertex_link, fwdIx_link]; rfl
  have c1 : ∀ x y : V3 α, cross (fieldAr nrm sn cs ex rt) x y = x.cross y := fun _ _ => rfl
  rw [normal, d1, d2, c1, valid_link, Rgbd.normalAt]
  generalize (Rgbd.tanW eps i b l h w).cross (Rgbd.tanH eps i b l h w) = n
  have z : (fieldAr nrm sn cs ex rt).norm n = nrm n := rfl
  have z2 : (fieldAr nrm sn cs ex rt).isZero (nrm n) = decide (nrm n = 0) := rfl
  simp only [z, z2]
  by_cases c : 0 < i.depth b l h w
  · simp only [c, decide_true, if_true, num, Rgbd.unit]
    by_cases e : nrm n = 0
    · simp [e, vmul, vdiv, fieldAr]
    · simp [e, vmul, vdiv, fieldAr]
  · simp only [c, decide_false, if_false, num]
    ext <;> simp [vmul, fieldAr, V3.zero]

theorem gnormal_link (eps : α) (i : Rgbd.In α) (b l h w : Nat) :
    gnormal (fieldAr nrm sn cs ex rt) (frOf eps i b l) h w = Rgbd.gnormalAt nrm eps i b l h w := by
  rw [gnormal, Rgbd.gnormalAt, normal_link]
  cases hp : i.poses with
  | none => simp [frOf, hp]
  | some P => simp only [frOf, hp, Option.map_some, mulVec_link]

/-- The averages are the confidence-weighted means of C37. -/
theorem merge_link (al : V3 α → α) (f : Fr α) (m : Pt α) (x : Nat × Nat) (h : m.cc + al (vertex (fieldAr nrm sn cs ex rt) f x.1 x.2) ≠ 0) :
    let A := fieldAr nrm sn cs ex rt
    let a := al (vertex A f x.1 x.2)
    merge A al f m (some x) = ⟨((m.p.smul m.cc).add ((gvertex A f x.1 x.2).smul a)).smul (1 / (m.cc + a)),
      ((m.n.smul m.cc).add ((gnormal A f x.1 x.2).smul a)).smul (1 / (m.cc + a)), ((m.c.smul m.cc).add ((f.rgb x.1 x.2).smul a)).smul (1 / (m.cc + a)), m.cc + a⟩ := by
  intro A a
  have z : A.isZero (A.add m.cc a) = false := decide_eq_false h
  have i : A.div A.one (A.add m.cc a) = 1 / (m.cc + a) := rfl
  have e : ∀ p q : V3 α, vmul A (vadd A (vsm A m.cc p) (vsm A a q)) (1 / (m.cc + a)) = ((p.smul m.cc).add (q.smul a)).smul (1 / (m.cc + a)) := by
    intro p q
    ext <;> simp [vmul, vadd, vsm, A, fieldAr, V3.add, V3.smul] <;> ring
  have k : merge A al f m (some x) = ⟨vmul A (vadd A (vsm A m.cc m.p) (vsm A a (gvertex A f x.1 x.2))) (A.div A.one (if A.isZero (A.add m.cc a) then A.one else A.add m.cc a)),
      vmul A (vadd A (vsm A m.cc m.n) (vsm A a (gnormal A f x.1 x.2))) (A.div A.one (if A.isZero (A.add m.cc a) then A.one else A.add m.cc a)),
      vmul A (vadd A (vsm A m.cc m.c) (vsm A a (f.rgb x.1 x.2))) (A.div A.one (if A.isZero (A.add m.cc a) then A.one else A.add m.cc a)), A.add m.cc a⟩ := rfl
  rw [k, z]
  simp only [Bool.false_eq_true, if_false, i, e]
  rfl
end maps

/-! ### Registration -/
noncomputable section
open Icp

/-- Exact real arithmetic. -/
def realAr : Ar ℝ := fieldAr Geom.vnorm Real.sin Real.cos Real.exp fun x y => x ^ y

/-- The neighbour search and the solver of the model of `icputils.py`. -/
def realTools (nn : List (V3 ℝ) → V3 ℝ → Nat) : Tools ℝ Err where
  knn := fun tgt s => (nnDist nn tgt s, nn tgt s)
  solve := fun M b d => match solveLinearSystem ⟨M, 6⟩ ⟨b.map fun x => [x], 1⟩ d with
    | .error e => .error e
    | .ok x => .ok (xiV x, xiW x)
  bad := .indexError

theorem gaussNewton_link (nn : List (V3 ℝ) → V3 ℝ → Nat) (th : Option ℝ) (src tgt nrm : List (V3 ℝ)) (hl : tgt.length = nrm.length) :
    Icp.gaussNewton nn th src tgt nrm = match Nan.gaussNewton realAr (realTools nn) th src tgt nrm with
      | .error e => .error e
      | .ok (M, b, ix) => .ok (⟨M, 6⟩, ⟨b.map fun x => [x], 1⟩, ix) := by
  have hp : pairs realAr (realTools nn) th src tgt = (src.filter (keeps nn th tgt)).map fun s => (s, nn tgt s) := by
    rw [pairs]
    congr 1
    refine List.filter_congr fun s _ => ?_
    cases th <;> rfl
  rw [Icp.gaussNewton, if_neg (by simpa using hl), Nan.gaussNewton, hp]
  simp only [List.any_map, List.map_map]
  have z : (⟨realAr.zero, realAr.zero, realAr.zero⟩ : V3 ℝ) = V3.zero := rfl
  have a : ((src.filter (keeps nn th tgt)).any fun s => !decide (nn tgt s < tgt.length)) =
      (src.filter (keeps nn th tgt)).any ((fun x : V3 ℝ × Nat => !decide (x.2 < tgt.length)) ∘ fun s => (s, nn tgt s)) := rfl
  rw [← a]
  split
  · rfl
  · rw [z]
    simp only [List.map_map]
    rfl

theorem transform_link (T : M4 ℝ) (l : List (V3 ℝ)) : transform realAr T l = Geom.transformPointcloud T l := by
  rw [transform, Geom.transformPointcloud]
  refine List.map_congr_left fun p _ => ?_
  rw [show mulVec realAr T.R p = T.R.mulVec p from mulVec_link _ _ _ _ _ _ _]
  rfl

theorem mm_link (X Y : M4 ℝ) : mm realAr X Y = X.mul Y := by
  ext <;> simp [mm, dot4, realAr, fieldAr, M4.mul, M3.mul, M3.add, M3.outer, V3.add, V3.smul, V3.dot, M3.mulVec, M3.transpose, M3.c0, M3.c1, M3.c2] <;> ring

theorem exp_link (eps : ℝ) (v w : V3 ℝ) : Nan.se3Exp realAr eps v w = Geom.se3Exp eps v w := by
  have n : realAr.norm w = Geom.vnorm w := rfl
  have l : ∀ x y, realAr.lt x y = decide (x < y) := fun _ _ => rfl
  have ma : ∀ X Y : M3 ℝ, madd realAr X Y = X.add Y := fun _ _ => rfl
  have ms : ∀ (c : ℝ) (X : M3 ℝ), msmul realAr c X = X.smul c := fun _ _ => rfl
  have mu : ∀ X Y : M3 ℝ, mmul realAr X Y = X.mul Y := by
    intro X Y
    ext <;> simp [mmul, dot, realAr, fieldAr, M3.mul, V3.dot, M3.c0, M3.c1, M3.c2] <;> ring
  have hh : hat realAr w = Geom.so3Hat w := rfl
  have ey : eye realAr = M3.one := rfl
  have mv : ∀ (M : M3 ℝ) (v : V3 ℝ), mulVec realAr M v = M.mulVec v := fun M v => mulVec_link _ _ _ _ _ _ _
  simp only [Nan.se3Exp, n, l, ma, ms, mu, hh, ey, mv, decide_eq_true_eq]
  rfl

theorem sqErr_link (b : List ℝ) : Nan.sqErr realAr b = Icp.sqErr ⟨b.map fun x => [x], 1⟩ := by
  simp only [Nan.sqErr, Icp.sqErr, List.map_map]
  rfl

variable (eps : ℝ) (nn : List (V3 ℝ) → V3 ℝ → Nat) (th : Option ℝ) (tgt nrm : List (V3 ℝ))

/-- The variables of the loop, without `chamfer_indices`. -/
def forget (s : State) : St ℝ := ⟨s.src, s.damp, s.T⟩

theorem lookahead_link (hl : tgt.length = nrm.length) (s : State) : Nan.lookahead realAr (realTools nn) eps th tgt nrm (forget s) =
    match Icp.lookahead eps nn th tgt nrm s with
    | .error e => .error e
    | .ok (xi, err, newErr, one, _) => .ok ((xiV xi, xiW xi), err, newErr, one) := by
  rw [Icp.lookahead, gaussNewton_link nn th s.src tgt nrm hl, Nan.lookahead]
  rw [show (forget s).src = s.src from rfl]
  rcases Nan.gaussNewton realAr (realTools nn) th s.src tgt nrm with e | ⟨M, b, ix⟩
  · rfl
  · simp only
    have hs : (realTools nn).solve M b (forget s).damp = match solveLinearSystem ⟨M, 6⟩ ⟨b.map fun x => [x], 1⟩ s.damp with
      | .error e => .error e
      | .ok x => .ok (xiV x, xiW x) := rfl
    rw [hs]
    rcases solveLinearSystem ⟨M, 6⟩ ⟨b.map fun x => [x], 1⟩ s.damp with e | x
    · rfl
    · simp only [exp_link, transform_link, forget]
      rw [gaussNewton_link nn th _ tgt nrm hl]
      rcases Nan.gaussNewton realAr (realTools nn) th (Geom.transformPointcloud (Geom.se3Exp eps (xiV x) (xiW x)) s.src) tgt nrm with e | ⟨M', b', ix'⟩
      · rfl
      · simp only [sqErr_link]

theorem icpStep_link (hl : tgt.length = nrm.length) (s : State) : Nan.icpStep realAr (realTools nn) eps 2 th tgt nrm (forget s) =
    match Icp.icpStep eps nn th tgt nrm s with
    | .error e => .error e
    | .ok s => .ok (forget s) := by
  rw [Nan.icpStep, lookahead_link eps nn th tgt nrm hl, Icp.icpStep]
  rcases Icp.lookahead eps nn th tgt nrm s with e | ⟨xi, err, newErr, one, ix⟩
  · rfl
  · have l : realAr.lt newErr err = decide (newErr < err) := rfl
    simp only [l, decide_eq_true_eq, exp_link, mm_link]
    split <;> rfl

theorem gradStep_link (hl : tgt.length = nrm.length) (lmax B B2 nu : ℝ) (s : State) :
    Nan.gradStep realAr (realTools nn) eps ⟨70, 1 / lmax, lmax, B, B2, nu⟩ th tgt nrm (forget s) =
    match Icp.gradStep eps lmax B B2 nu nn th tgt nrm s with
    | .error e => .error e
    | .ok s => .ok (forget s) := by
  rw [Nan.gradStep, lookahead_link eps nn th tgt nrm hl, Icp.gradStep]
  rcases Icp.lookahead eps nn th tgt nrm s with e | ⟨xi, err, newErr, one, ix⟩
  · rfl
  · simp only [exp_link, mm_link, transform_link]
    rfl

theorem iterate_link {f : State → Except Err State} {f' : St ℝ → Except Err (St ℝ)}
    (h : ∀ s, f' (forget s) = match f s with
      | .error e => .error e
      | .ok s => .ok (forget s)) (n : Nat) (s : State) : iterate f' n (forget s) = match loop f n s with
      | .error e => .error e
      | .ok s => .ok (forget s) := by
  induction n generalizing s with
  | zero => rfl
  | succ n ih =>
    rw [iterate, loop, h]
    rcases f s with e | s'
    · rfl
    · exact ih s'

theorem loop_idx {f : State → Except Err State} (hf : ∀ s s', f s = .ok s' → s'.idx ≠ none) (n : Nat) {s s' : State} (h : loop f (n + 1) s = .ok s') :
    s'.idx ≠ none := by
  induction n generalizing s with
  | zero =>
    rw [loop] at h
    rcases e : f s with e' | s1
    · rw [e] at h; cases h
    · rw [e] at h; obtain rfl := Except.ok.inj h; exact hf _ _ e
  | succ n ih =>
    rw [loop] at h
    rcases e : f s with e' | s1
    · rw [e] at h; cases h
    · rw [e] at h; exact ih h

theorem register_link {f : State → Except Err State} {f' : St ℝ → Except Err (St ℝ)} (h : ∀ s, f' (forget s) = match f s with
      | .error e => .error e
      | .ok s => .ok (forget s)) (hf : ∀ s s', f s = .ok s' → s'.idx ≠ none) (n : Nat) (src : List (V3 ℝ)) (damp : ℝ) (T0 : M4 ℝ) :
    register realAr f' (n + 1) src damp T0 = match finish (loop f (n + 1) (start src damp T0)) with
      | .error e => .error e
      | .ok (T, _) => .ok T := by
  rw [register, transform_link, show (⟨Geom.transformPointcloud T0 src, damp, T0⟩ : St ℝ) = forget (start src damp T0) from rfl, iterate_link h]
  rcases e : loop f (n + 1) (start src damp T0) with e' | s
  · rfl
  · have k := loop_idx hf n e
    rw [finish]
    rcases hi : s.idx with _ | ix
    · exact absurd hi k
    · rfl

/-- `point_to_plane_ICP` of the model of `icputils.py`. -/
theorem icp_link (hl : tgt.length = nrm.length) (n : Nat) (src : List (V3 ℝ)) (damp : ℝ) (T0 : M4 ℝ) :
    register realAr (Nan.icpStep realAr (realTools nn) eps 2 th tgt nrm) (n + 1) src damp T0 =
    match pointToPlaneICP eps nn src tgt nrm (some T0) (n + 1 : Nat) damp th with
      | .error e => .error e
      | .ok (T, _) => .ok T := by
  refine register_link (icpStep_link eps nn th tgt nrm hl) (fun s s' h => ?_) n src damp T0
  unfold Icp.icpStep at h
  split at h
  · cases h
  · split at h <;> (obtain rfl := Except.ok.inj h; simp)

/-- `point_to_plane_gradICP` of the model of `icputils.py`. -/
theorem grad_link (hl : tgt.length = nrm.length) (lmax B B2 nu : ℝ) (n : Nat) (src : List (V3 ℝ)) (damp : ℝ) (T0 : M4 ℝ) :
    register realAr (Nan.gradStep realAr (realTools nn) eps ⟨70, 1 / lmax, lmax, B, B2, nu⟩ th tgt nrm) (n + 1) src damp T0 =
    match pointToPlaneGradICP eps lmax B B2 nu nn src tgt nrm (some T0) (n + 1 : Nat) damp th with
      | .error e => .error e
      | .ok (T, _) => .ok T := by
  refine register_link (gradStep_link eps nn th tgt nrm hl lmax B B2 nu) (fun s s' h => ?_) n src damp T0
  unfold Icp.gradStep at h
  split at h
  · cases h
  · obtain rfl := Except.ok.inj h; simp
end
end Verif.Nan
