import Verif.Nan.Local
/-! **C102**: what a NaN among the matched points does to registration. -/
namespace Verif.Nan
open Verif

variable {α ε : Type*} {A : Ar α} {nan : α → Prop} {tl : Tools α ε} {eps two : α} {th : Option α} {src tgt nrm : List (V3 α)} {T0 : M4 α} {damp : α}

/-- Some pair that is matched has a NaN: in the source point, in the target point or in the target normal. -/
def BadPair (A : Ar α) (nan : α → Prop) (tl : Tools α ε) (th : Option α) (src tgt nrm : List (V3 α)) : Prop :=
  ∃ x ∈ pairs A tl th src tgt, Some3 nan x.1 ∨ Some3 nan (tgt.getD x.2 ⟨A.zero, A.zero, A.zero⟩) ∨ Some3 nan (nrm.getD x.2 ⟨A.zero, A.zero, A.zero⟩)

/-- Rotation and translation are NaN, entry by entry. -/
def TopNan (nan : α → Prop) (T : M4 α) : Prop := (All3 nan T.R.r0 ∧ All3 nan T.R.r1 ∧ All3 nan T.R.r2) ∧ All3 nan T.t

variable (S : Strict A nan)
include S

theorem entry_nan {s d n : V3 α} (h : Some3 nan s ∨ Some3 nan d ∨ Some3 nan n) : nan (entryB A s d n) := by
  have k : nan (A.mul n.x (A.sub d.x s.x)) ∨ nan (A.mul n.y (A.sub d.y s.y)) ∨ nan (A.mul n.z (A.sub d.z s.z)) := by
    rcases h with (h | h | h) | (h | h | h) | (h | h | h)
    · exact .inl (S.mul _ _ (.inr (S.sub _ _ (.inr h))))
    · exact .inr (.inl (S.mul _ _ (.inr (S.sub _ _ (.inr h)))))
    · exact .inr (.inr (S.mul _ _ (.inr (S.sub _ _ (.inr h)))))
    · exact .inl (S.mul _ _ (.inr (S.sub _ _ (.inl h))))
    · exact .inr (.inl (S.mul _ _ (.inr (S.sub _ _ (.inl h)))))
    · exact .inr (.inr (S.mul _ _ (.inr (S.sub _ _ (.inl h)))))
    · exact .inl (S.mul _ _ (.inl h))
    · exact .inr (.inl (S.mul _ _ (.inl h)))
    · exact .inr (.inr (S.mul _ _ (.inl h)))
  rcases k with k | k | k
  · exact S.add _ _ (.inl (S.add _ _ (.inl k)))
  · exact S.add _ _ (.inl (S.add _ _ (.inr k)))
  · exact S.add _ _ (.inr k)

/-- The error of a bad pairing is NaN. -/
theorem err_nan (hb : BadPair A nan tl th src tgt nrm) {M : List (List α)} {b : List α} {ix : List Nat}
    (h : gaussNewton A tl th src tgt nrm = .ok (M, b, ix)) : nan (sqErr A b) := by
  unfold gaussNewton at h
  simp only at h
  split at h
  · cases h
  · simp only [Except.ok.injEq, Prod.mk.injEq] at h
    obtain ⟨_, rfl, _⟩ := h
    obtain ⟨x, hx, k⟩ := hb
    exact S.sum _ ⟨_, List.mem_map_of_mem (List.mem_map_of_mem hx), S.mul _ _ (.inl (entry_nan S k))⟩

theorem lookahead_nan {s : St α} (hb : BadPair A nan tl th s.src tgt nrm) {xi : V3 α × V3 α} {err newErr : α} {one : List (V3 α)}
    (h : lookahead A tl eps th tgt nrm s = .ok (xi, err, newErr, one)) : nan err := by
  unfold lookahead at h
  cases e : gaussNewton A tl th s.src tgt nrm with
  | error e' => rw [e] at h; cases h
  | ok r =>
    obtain ⟨M, b, ix⟩ := r
    rw [e] at h
    simp only at h
    split at h
    · cases h
    · split at h
      · cases h
      · simp only [Except.ok.injEq, Prod.mk.injEq] at h
        obtain ⟨_, rfl, _⟩ := h
        exact err_nan S hb e

/-- **C102**, `point_to_plane_ICP`: if some matched pair has a NaN, no step is ever accepted.  Unless the linear solver raises, the initial
transform is returned after every number of iterations, with no sign that nothing was aligned. -/
theorem icp_freezes (hb : BadPair A nan tl th (transform A T0 src) tgt nrm) (n : Nat) :
    register A (icpStep A tl eps two th tgt nrm) n src damp T0 = .ok T0 ∨
      ∃ e, register A (icpStep A tl eps two th tgt nrm) n src damp T0 = .error e := by
  have key : ∀ n (s : St α), BadPair A nan tl th s.src tgt nrm → (∃ s', iterate (icpStep A tl eps two th tgt nrm) n s = .ok s' ∧ s'.T = s.T) ∨
      ∃ e, iterate (icpStep A tl eps two th tgt nrm) n s = .error e := by
    intro n
    induction n with
    | zero => intro s _; exact .inl ⟨s, rfl, rfl⟩
    | succ n ih =>
      intro s hs
      rw [iterate, icpStep]
      cases e : lookahead A tl eps th tgt nrm s with
      | error e' => exact .inr ⟨e', rfl⟩
      | ok r =>
        obtain ⟨xi, err, newErr, one⟩ := r
        have k := lookahead_nan S hs e
        simp only [S.lt _ _ (.inr k)]
        exact ih ⟨s.src, A.mul s.damp two, s.T⟩ hs
  rcases key n ⟨transform A T0 src, damp, T0⟩ hb with ⟨s', h1, h2⟩ | ⟨e, h⟩
  · left; rw [register, h1]; exact congrArg Except.ok h2
  · right; exact ⟨e, by rw [register, h]⟩

/-! ### gradICP -/

theorem dot4_nan {a b : V3 α} {a3 b3 : α} (h : Some3 nan a ∨ Some3 nan b) : nan (dot4 A a a3 b b3) := by
  refine S.sum _ ?_
  have m : ∀ {x y : α}, x ∈ [y] → x = y := fun h => List.mem_singleton.1 h
  rcases h with (h | h | h) | (h | h | h)
  · exact ⟨A.mul a.x b.x, by simp, S.mul _ _ (.inl h)⟩
  · exact ⟨A.mul a.y b.y, by simp, S.mul _ _ (.inl h)⟩
  · exact ⟨A.mul a.z b.z, by simp, S.mul _ _ (.inl h)⟩
  · exact ⟨A.mul a.x b.x, by simp, S.mul _ _ (.inr h)⟩
  · exact ⟨A.mul a.y b.y, by simp, S.mul _ _ (.inr h)⟩
  · exact ⟨A.mul a.z b.z, by simp, S.mul _ _ (.inr h)⟩

theorem mm_left {X : M4 α} (h : TopNan nan X) (Y : M4 α) : TopNan nan (mm A X Y) := by
  obtain ⟨⟨a, b, c⟩, -⟩ := h
  have d : ∀ {r : V3 α}, All3 nan r → ∀ (r3 : α) (y : V3 α) (y3 : α), nan (dot4 A r r3 y y3) := fun k _ _ _ => dot4_nan S (.inl k.some)
  exact ⟨⟨⟨d a _ _ _, d a _ _ _, d a _ _ _⟩, ⟨d b _ _ _, d b _ _ _, d b _ _ _⟩, ⟨d c _ _ _, d c _ _ _, d c _ _ _⟩⟩, d a _ _ _, d b _ _ _, d c _ _ _⟩

theorem mm_right (X : M4 α) {Y : M4 α} (h : TopNan nan Y) : TopNan nan (mm A X Y) ∧ All3 nan (mm A X Y).b ∧ nan (mm A X Y).s := by
  obtain ⟨⟨a, b, c⟩, t⟩ := h
  have c0 : Some3 nan Y.R.c0 := .inl a.1
  have c1 : Some3 nan Y.R.c1 := .inl a.2.1
  have c2 : Some3 nan Y.R.c2 := .inl a.2.2
  have d : ∀ {y : V3 α}, Some3 nan y → ∀ (r : V3 α) (r3 : α) (y3 : α), nan (dot4 A r r3 y y3) := fun k _ _ _ => dot4_nan S (.inr k)
  have r : ∀ (r : V3 α) (r3 y3 y4 y5 : α), All3 nan ⟨dot4 A r r3 Y.R.c0 y3, dot4 A r r3 Y.R.c1 y4, dot4 A r r3 Y.R.c2 y5⟩ :=
    fun _ _ _ _ _ => ⟨d c0 _ _ _, d c1 _ _ _, d c2 _ _ _⟩
  exact ⟨⟨⟨r _ _ _ _ _, r _ _ _ _ _, r _ _ _ _ _⟩, d t.some _ _ _, d t.some _ _ _, d t.some _ _ _⟩, r _ _ _ _ _, d t.some _ _ _⟩

theorem exp_nan {v w : V3 α} (hv : All3 nan v) (hw : All3 nan w) : TopNan nan (se3Exp A eps v w) := by
  have n : nan (A.norm w) := S.norm _ hw.some
  have a : nan (A.div (A.sin (A.norm w)) (A.norm w)) := S.div _ _ (.inr n)
  refine ⟨?_, mulVec_nan S hv.some⟩
  have e : (se3Exp A eps v w).R = madd A (madd A (eye A) (msmul A (A.div (A.sin (A.norm w)) (A.norm w)) (hat A w)))
      (msmul A (A.div (A.sub A.one (A.cos (A.norm w))) (A.pw (A.norm w) 2)) (mmul A (hat A w) (hat A w))) := by
    simp only [se3Exp, S.lt _ _ (.inl n)]
    rfl
  rw [e]
  have k : ∀ r r0 q : V3 α, All3 nan (vadd A (vadd A r0 (vsm A (A.div (A.sin (A.norm w)) (A.norm w)) r)) q) :=
    fun r r0 q => vadd_nan S (.inl (vadd_nan S (.inr (vsm_nan S (.inr a)))))
  exact ⟨k _ _ _, k _ _ _, k _ _ _⟩

variable {g : Grad α}

theorem gradStep_nan {s s' : St α} (hb : BadPair A nan tl th s.src tgt nrm) (hnu : A.isZero (A.div A.one g.nu) = false)
    (h : gradStep A tl eps g th tgt nrm s = .ok s') : TopNan nan s'.T := by
  unfold gradStep at h
  cases e : lookahead A tl eps th tgt nrm s with
  | error e' => rw [e] at h; cases h
  | ok r =>
    obtain ⟨xi, err, newErr, one⟩ := r
    have k := lookahead_nan S hb e
    rw [e] at h
    simp only [Except.ok.injEq] at h
    subst h
    have sg := S.div A.one _ (.inr (S.root _ _ (S.add A.one _ (.inr (S.exp _ (S.mul (A.neg g.B2) _ (.inr (S.clamp _ (A.neg g.seventy) g.seventy
      (S.sub newErr err (.inr k))))))) ) hnu))
    exact mm_left S (exp_nan S (vsm_nan S (.inr sg)) (vsm_nan S (.inr sg))) _

omit S in
theorem gradStep_mul {s s' : St α} (h : gradStep A tl eps g th tgt nrm s = .ok s') : ∃ X, s'.T = mm A X s.T := by
  unfold gradStep at h
  cases e : lookahead A tl eps th tgt nrm s with
  | error e' => rw [e] at h; cases h
  | ok r =>
    obtain ⟨xi, err, newErr, one⟩ := r
    rw [e] at h
    simp only [Except.ok.injEq] at h
    subst h
    exact ⟨_, rfl⟩

theorem grad_later (n : Nat) {s s' : St α} (hs : TopNan nan s.T) (h : iterate (gradStep A tl eps g th tgt nrm) n s = .ok s') :
    TopNan nan s'.T ∧ (0 < n → All3 nan s'.T.b ∧ nan s'.T.s) := by
  induction n generalizing s with
  | zero => obtain rfl := Except.ok.inj h; exact ⟨hs, fun k => absurd k (lt_irrefl _)⟩
  | succ n ih =>
    rw [iterate] at h
    cases e : gradStep A tl eps g th tgt nrm s with
    | error e' => rw [e] at h; cases h
    | ok s1 =>
      rw [e] at h
      simp only at h
      obtain ⟨X, hX⟩ := gradStep_mul e
      have k := mm_right S X hs
      rw [← hX] at k
      have r := ih k.1 h
      refine ⟨r.1, fun _ => ?_⟩
      rcases Nat.eq_zero_or_pos n with rfl | hn
      · obtain rfl := Except.ok.inj h; exact k.2
      · exact r.2 hn

/-- **C102**, `point_to_plane_gradICP`: if some matched pair has a NaN, the rotation and the translation that are returned are NaN in every entry
(after two iterations the whole matrix is), unless the linear solver raises. -/
theorem grad_poisons (hb : BadPair A nan tl th (transform A T0 src) tgt nrm) (hnu : A.isZero (A.div A.one g.nu) = false) (n : Nat) {T : M4 α}
    (h : register A (gradStep A tl eps g th tgt nrm) (n + 1) src damp T0 = .ok T) :
    TopNan nan T ∧ (0 < n → All3 nan T.b ∧ nan T.s) := by
  unfold register at h
  cases e : iterate (gradStep A tl eps g th tgt nrm) (n + 1) ⟨transform A T0 src, damp, T0⟩ with
  | error e' => rw [e] at h; cases h
  | ok s =>
    rw [e] at h
    obtain rfl := Except.ok.inj h
    rw [iterate] at e
    cases e1 : gradStep A tl eps g th tgt nrm ⟨transform A T0 src, damp, T0⟩ with
    | error e' => rw [e1] at e; cases e
    | ok s1 =>
      rw [e1] at e
      exact grad_later S n (gradStep_nan S hb hnu e1) e

/-! ### The rest of the sequence -/

theorem compose_nan (T : M4 α) {P : M4 α} (h : TopNan nan P) : TopNan nan (compose A T P) := by
  obtain ⟨⟨a, b, c⟩, t⟩ := h
  have c0 : Some3 nan P.R.c0 := .inl a.1
  have c1 : Some3 nan P.R.c1 := .inl a.2.1
  have c2 : Some3 nan P.R.c2 := .inl a.2.2
  have d : ∀ {y : V3 α}, Some3 nan y → ∀ r : V3 α, nan (dot A r y) := fun k _ => dot_nan S (.inr k)
  exact ⟨⟨⟨d c0 _, d c1 _, d c2 _⟩, ⟨d c0 _, d c1 _, d c2 _⟩, ⟨d c0 _, d c1 _, d c2 _⟩⟩, vadd_nan S (.inl (mulVec_nan S t.some))⟩

theorem compose_nan_left {T : M4 α} (h : TopNan nan T) (P : M4 α) : TopNan nan (compose A T P) := by
  obtain ⟨⟨a, b, c⟩, t⟩ := h
  have d : ∀ {y : V3 α}, All3 nan y → ∀ r : V3 α, nan (dot A y r) := fun k _ => dot_nan S (.inl k.some)
  exact ⟨⟨⟨d a _, d a _, d a _⟩, ⟨d b _, d b _, d b _⟩, ⟨d c _, d c _, d c _⟩⟩, vadd_nan S (.inr t)⟩

/-- **C102**: a sequence of poses computed by composing each frame's transform with the pose before.  Once a transform is NaN, the pose of that frame
and of every later frame is, whatever is found for the later frames. -/
theorem nan_forever {Ts Ps : Nat → M4 α} (hP : ∀ k, Ps (k + 1) = compose A (Ts k) (Ps k)) {k : Nat} (hT : TopNan nan (Ts k)) {j : Nat} (hj : k < j) :
    TopNan nan (Ps j) := by
  obtain ⟨d, rfl⟩ : ∃ d, j = k + 1 + d := ⟨j - (k + 1), by omega⟩
  induction d with
  | zero => rw [Nat.add_zero, hP]; exact compose_nan_left S hT _
  | succ d ih => rw [← Nat.add_assoc, hP]; exact compose_nan S _ (ih (by omega))

/-- **C102**: every point of a frame with such a pose is NaN, in all coordinates, and its normal is. -/
theorem nan_pose_points {f : Fr α} {T : M4 α} (hf : f.pose = some (T.R, T.t)) (hT : TopNan nan T) (h w : Nat) :
    All3 nan (gvertex A f h w) ∧ All3 nan (gnormal A f h w) := by
  obtain ⟨⟨a, b, c⟩, t⟩ := hT
  constructor
  · rw [gvertex, hf]; exact vmul_nan S (.inl (vadd_nan S (.inr t)))
  · rw [gnormal, hf]; exact ⟨dot_nan S (.inl a.some), dot_nan S (.inl b.some), dot_nan S (.inl c.some)⟩
end Verif.Nan
