import Verif.Slam.Batch
import Verif.Slam.Real
import Verif.Slam.Final
import Mathlib.Analysis.SpecialFunctions.Trigonometric.Inverse
/-!
C72: what `dist_th`, `angle_th` and `sigma` of `PointFusion` mean for the maps `forward` returns: which pixels are merged into which map points when one
more frame is processed, and what becomes of the rest.
-/
namespace Verif.Slam
open Verif Pcs
set_option linter.unusedSectionVars false
set_option linter.unusedSimpArgs false

section
variable {α : Type*} [Field α] [LinearOrder α] [IsStrictOrderedRing α] [FloorRing α]

/-- The last frame of a run: the run over the frames before it succeeds with the same poses, and the last frame, at the pose returned for it, changes
the map of that run into the final map. -/
theorem last_step {S : Sys α} {frames pre : Rgbd.Obj α} {i : Rgbd.In α} (hf : SeqOk S frames i) (hs : SysOk S i)
    (hx : ∀ provide, S.odom = .prov provide → Ext provide) {k : Nat} (hk : 0 < k) (hL : i.L = k + 1)
    (h : Rgbd.getitem (.tup [.slice none none none, .slice (some 0) (some k) none]) frames = .ok pre) {m' : PC α} {R : Rgbd.TM α}
    (hfw : forward S frames = .ok (m', R)) :
    ∃ m Rp a a' Ts T, forward S pre = .ok (m, Rp) ∧ (∀ b, ∀ t < k, Rp.at' b t = R.at' b t) ∧ Inv m a ∧ Inv m' a' ∧ Run S frames i Ts a ∧ Ts.length = k ∧
      (∀ (t : Nat) T, Ts[t]? = some T → ∀ b, R.at' b t = T.at' b 0) ∧ (∀ b, T.at' b 0 = R.at' b k) ∧
      MapChange S (posed (snap i k) T) a a' := by
  obtain ⟨m, Rp, hp, hR⟩ := (forward_prefix hf hs hx hk (by omega) h).1 m' R hfw
  obtain ⟨ip, hip, hLp, hss⟩ := seq_prefix hf hk (by omega) h
  have hsp : SysOk S ip := by
    refine ⟨hs.ds, hs.prov, ?_⟩
    rcases hs.map with h | ⟨h1, h2, h3, h4, h5⟩
    · exact .inl h
    · refine .inr ⟨h1, hss.B ▸ h2, hss.H ▸ h3, hss.W ▸ h4, ?_⟩
      rw [hss.H, hss.W, hLp]
      exact (Nat.mul_le_mul_right _ (by omega)).trans h5
  rcases forward_run hf hs with ⟨m1, R1, Us, a', e1, r1, hl1, hm1, _, _, _, hR1⟩ | ⟨e, _, _, e1, _⟩
  swap
  · rw [hfw] at e1; cases e1
  rw [hfw] at e1; cases e1
  rcases forward_run hip hsp with ⟨m2, R2, Vs, a2, e2, r2, hl2, hm2, _, _, _, hR2⟩ | ⟨e, _, _, e2, _⟩
  swap
  · rw [hp] at e2; cases e2
  rw [hp] at e2; cases e2
  cases r1 with
  | start => simp at hl1; omega
  | @next Ts a T _ r hloc hc =>
    have hl : Ts.length = k := by simp at hl1; omega
    have r' := run_transfer hss hf.B r hl.le
    obtain ⟨rfl, rfl⟩ := run_unique hx r' r2 (by rw [hl, hl2, hLp])
    refine ⟨m, Rp, a2, a', Vs, T, hp, hR, hm2.inv, hm1.inv, r, hl, fun t U hU b => ?_, fun b => ?_, by rw [← hl]; exact hc⟩
    · exact hR1 t U (by rw [List.getElem?_append_left (List.getElem?_eq_some_iff.1 hU).1]; exact hU) b
    · exact (hR1 k T (by rw [← hl]; simp) b).symm

/-- The images of a frame at pose `T`, at a pixel with depth. -/
theorem image_world (S : Sys α) (i : Rgbd.In α) {b t : Nat} (hb : b < i.B) (T : Rgbd.TM α) {y x : Nat} (hd : 0 < i.depth b t y x) :
    Rgbd.vertexAt S.eps (posed (snap i t) T) b 0 y x = Rgbd.vertexAt S.eps i b t y x ∧
    Rgbd.gvertexAt S.eps (posed (snap i t) T) b 0 y x = worldValue S i b t (T.at' b 0) (y, x) .points ∧
    Rgbd.gnormalAt S.nrm S.eps (posed (snap i t) T) b 0 y x = worldValue S i b t (T.at' b 0) (y, x) .normals ∧
    (posed (snap i t) T).rgb b 0 y x = worldValue S i b t (T.at' b 0) (y, x) .colors := by
  obtain ⟨_, _, hH, hW, h⟩ := snap_spec i t
  obtain ⟨h1, h2, h3, h4, _⟩ := h b hb
  have hv : ∀ y x, Rgbd.vertexAt S.eps (posed (snap i t) T) b 0 y x = Rgbd.vertexAt S.eps i b t y x := by
    intro y x
    simp only [Rgbd.vertexAt, posed, h2, h3, h4]
  have hn : ∀ y x, Rgbd.normalAt S.nrm S.eps (posed (snap i t) T) b 0 y x = Rgbd.normalAt S.nrm S.eps i b t y x := by
    intro y x
    have e1 : (posed (snap i t) T).W = i.W := hW
    have e2 : (posed (snap i t) T).H = i.H := hH
    have e3 : (posed (snap i t) T).depth b 0 y x = i.depth b t y x := by show (snap i t).depth b 0 y x = _; rw [h2]
    simp only [Rgbd.normalAt, Rgbd.tanW, Rgbd.tanH, hv, e1, e2, e3]
  have hd' : 0 < (posed (snap i t) T).depth b 0 y x := by show 0 < (snap i t).depth b 0 y x; rw [h2]; exact hd
  refine ⟨hv y x, ?_, ?_, ?_⟩
  · have e : Rgbd.gvertexAt S.eps (posed (snap i t) T) b 0 y x =
        if 0 < (posed (snap i t) T).depth b 0 y x then
          ((T.at' b 0).R.mulVec (Rgbd.vertexAt S.eps (posed (snap i t) T) b 0 y x)).add (T.at' b 0).t else V3.zero := rfl
    rw [e, if_pos hd', hv]; rfl
  · rw [Rgbd.gnormalAt]
    simp only [posed, worldValue]
    rw [← hn y x]; rfl
  · show (snap i t).rgb b 0 y x = _
    rw [h1]; rfl
end

/-! ### Angles -/

/-- The length of a vector. -/
noncomputable abbrev len (v : V3 ℝ) : ℝ := Real.sqrt (v.dot v)

/-- The angle between two vectors in degrees (90 if one of them is zero). -/
noncomputable def angleDeg (a b : V3 ℝ) : ℝ := Real.arccos (a.dot b / (len a * len b)) * 180 / Real.pi

theorem len_mul (v : V3 ℝ) : len v * len v = v.dot v := Real.mul_self_sqrt (by simp only [V3.dot]; nlinarith [mul_self_nonneg v.x, mul_self_nonneg v.y, mul_self_nonneg v.z])

theorem dot_sq_le (a b : V3 ℝ) : a.dot b * a.dot b ≤ (a.dot a) * (b.dot b) := by
  simp only [V3.dot]
  nlinarith [sq_nonneg (a.x * b.y - a.y * b.x), sq_nonneg (a.x * b.z - a.z * b.x), sq_nonneg (a.y * b.z - a.z * b.y)]

theorem abs_dot_le (a b : V3 ℝ) : |a.dot b| ≤ len a * len b := by
  have h : |a.dot b| * |a.dot b| ≤ (len a * len b) * (len a * len b) := by
    rw [abs_mul_abs_self]
    calc a.dot b * a.dot b ≤ a.dot a * b.dot b := dot_sq_le a b
      _ = _ := by rw [← len_mul a, ← len_mul b]; ring
  exact (mul_self_le_mul_self_iff (abs_nonneg _) (by positivity)).2 h

/-- The dot product in terms of lengths and angle. -/
theorem dot_angle (a b : V3 ℝ) : a.dot b = len a * len b * Real.cos (angleDeg a b * Real.pi / 180) := by
  have e : angleDeg a b * Real.pi / 180 = Real.arccos (a.dot b / (len a * len b)) := by
    rw [angleDeg]; field_simp
  have h := abs_dot_le a b
  rw [e]
  by_cases h0 : len a * len b = 0
  · rw [h0] at h ⊢
    rw [zero_mul]
    exact abs_nonpos_iff.1 h
  · have hp : 0 < len a * len b := lt_of_le_of_ne (by positivity) (Ne.symm h0)
    have h1 : |a.dot b / (len a * len b)| ≤ 1 := by rw [abs_div, abs_of_pos hp]; exact (div_le_one hp).2 h
    rw [Real.cos_arccos (abs_le.1 h1).1 (abs_le.1 h1).2, mul_div_cancel₀ _ h0]

theorem angle_range (a b : V3 ℝ) : 0 ≤ angleDeg a b ∧ angleDeg a b ≤ 180 := by
  have := Real.pi_pos
  refine ⟨by unfold angleDeg; have := Real.arccos_nonneg (a.dot b / (len a * len b)); positivity, ?_⟩
  rw [angleDeg, div_le_iff₀ Real.pi_pos]
  nlinarith [Real.arccos_le_pi (a.dot b / (len a * len b))]

theorem cos_deg_lt {x y : ℝ} (hx : 0 ≤ x ∧ x ≤ 180) (hy : 0 ≤ y ∧ y ≤ 180) : Real.cos (y * Real.pi / 180) < Real.cos (x * Real.pi / 180) ↔ x < y := by
  have hp := Real.pi_pos
  have hm : ∀ z : ℝ, 0 ≤ z ∧ z ≤ 180 → z * Real.pi / 180 ∈ Set.Icc 0 Real.pi := fun z hz =>
    ⟨by have := hz.1; positivity, by rw [div_le_iff₀ (by norm_num)]; nlinarith [hz.2]⟩
  rw [Real.strictAntiOn_cos.lt_iff_gt (hm y hy) (hm x hx)]
  constructor
  · intro h
    have h' : x * Real.pi / 180 < y * Real.pi / 180 := h
    rw [div_lt_div_iff_of_pos_right (by norm_num)] at h'
    exact lt_of_mul_lt_mul_right h' hp.le
  · intro h
    show x * Real.pi / 180 < y * Real.pi / 180
    rw [div_lt_div_iff_of_pos_right (by norm_num)]
    exact mul_lt_mul_of_pos_right h hp

/-- Vectors of length at most one whose dot product exceeds the cosine of an angle of at most 90 degrees are less than that angle apart. -/
theorem angle_lt {a b : V3 ℝ} {th : ℝ} (ht : 0 ≤ th ∧ th ≤ 90) (ha : len a ≤ 1) (hb : len b ≤ 1) (h : Real.cos (th * Real.pi / 180) < a.dot b) :
    angleDeg a b < th := by
  have hp := Real.pi_pos
  have h0 : 0 ≤ th * Real.pi / 180 := by have := ht.1; positivity
  have hc : 0 ≤ Real.cos (th * Real.pi / 180) :=
    Real.cos_nonneg_of_neg_pi_div_two_le_of_le (by linarith) (by rw [div_le_iff₀ (by norm_num)]; nlinarith [ht.2])
  rw [← cos_deg_lt (angle_range a b) ⟨ht.1, by linarith [ht.2]⟩]
  rw [dot_angle] at h
  have hl : len a * len b ≤ 1 := mul_le_one₀ ha (Real.sqrt_nonneg _) hb
  have hl0 : 0 ≤ len a * len b := by positivity
  by_contra hcon
  have hcon := not_lt.1 hcon
  nlinarith [mul_le_mul_of_nonneg_left hcon hl0]

/-- Unit vectors less than an angle of at most 180 degrees apart have a dot product above its cosine. -/
theorem dot_gt {a b : V3 ℝ} {th : ℝ} (ht : 0 ≤ th ∧ th ≤ 180) (ha : len a = 1) (hb : len b = 1) (h : angleDeg a b < th) :
    Real.cos (th * Real.pi / 180) < a.dot b := by
  rw [dot_angle, ha, hb, one_mul, one_mul]
  exact (cos_deg_lt (angle_range a b) ht).2 h

/-! ### Normals of a map are never longer than one -/

section
variable {α : Type*} [Field α] [LinearOrder α] [IsStrictOrderedRing α] [FloorRing α]

theorem normal_le {nrm : V3 α → α} (hn : Rgbd.IsNorm nrm) (eps : α) (i : Rgbd.In α) (b l h w : Nat) :
    (Rgbd.normalAt nrm eps i b l h w).dot (Rgbd.normalAt nrm eps i b l h w) ≤ 1 := by
  rw [Rgbd.normalAt]
  split_ifs
  · rcases (Rgbd.normal_unit_orthogonal hn (Rgbd.tanW eps i b l h w) (Rgbd.tanH eps i b l h w)).1 with ⟨h, _⟩ | h
    · rw [h]; simp [V3.dot, V3.zero]
    · exact h.le
  · simp [V3.dot, V3.zero]

theorem wAvg_le {c w : α} (hc : 0 ≤ c) (hw : 0 < w) {p q : V3 α} (hp : p.dot p ≤ 1) (hq : q.dot q ≤ 1) :
    (Fusion.wAvg c w p q).dot (Fusion.wAvg c w p q) ≤ 1 := by
  obtain ⟨t, t0, t1, e⟩ := Fusion.wAvg_segment hc hw p q
  have hpq : p.dot q ≤ 1 := by
    simp only [V3.dot] at hp hq ⊢
    nlinarith [sq_nonneg (p.x - q.x), sq_nonneg (p.y - q.y), sq_nonneg (p.z - q.z)]
  have h : (Fusion.wAvg c w p q).dot (Fusion.wAvg c w p q) = (1 - t) * (1 - t) * p.dot p + 2 * (t * (1 - t)) * p.dot q + t * t * q.dot q := by
    rw [e]; simp only [V3.dot, V3.add, V3.sub, V3.smul]; ring
  have a1 := mul_le_mul_of_nonneg_left hp (mul_self_nonneg (1 - t))
  have a2 := mul_le_mul_of_nonneg_left hpq (mul_nonneg t0.le (sub_nonneg.2 t1))
  have a3 := mul_le_mul_of_nonneg_left hq (mul_self_nonneg t)
  rw [h]; nlinarith [a1, a2, a3]

theorem vecAt_lt {l : List (T2 α)} {b n : Nat} {v : V3 α} (h : Fusion.vecAt l b n = some v) : b < l.length := by
  simp only [Fusion.vecAt, Option.map_eq_some_iff] at h
  obtain ⟨r, h, _⟩ := h
  by_contra hb
  simp [Fusion.rowAt, List.getElem?_eq_none (not_lt.1 hb)] at h

/-- Every normal of a map `PointFusion` builds is the weighted mean of observed normals, so its length is at most one. -/
theorem run_normals_le {S : Sys α} {frames : Rgbd.Obj α} {i : Rgbd.In α} (hB : 0 < i.B) {d t : α} (hS : S.mapper = .fusion d t) (hn : Rgbd.IsNorm S.nrm)
    (hal : ∀ p, 0 < S.al p) {Ts : List (Rgbd.TM α)} {a : Clouds α} (r : Run S frames i Ts a)
    (hR : ∀ T ∈ Ts, ∀ b < i.B, (T.at' b 0).R.transpose.mul (T.at' b 0).R = M3.one) :
    ∀ Nn, a .normals = some Nn → ∀ b n v, Fusion.vecAt Nn b n = some v → v.dot v ≤ 1 := by
  induction r with
  | start => intro Nn h; cases h
  | @next Ts a T a' r hloc hc ih =>
    have hB' : (posed (snap i Ts.length) T).B = i.B := (snap_spec i Ts.length).1
    have hg' : ∀ b < i.B, ∀ (x : Nat × Nat × Nat), x.1 = 0 → (Rgbd.gnormalAt S.nrm S.eps (posed (snap i Ts.length) T) b x.1 x.2.1 x.2.2).dot
        (Rgbd.gnormalAt S.nrm S.eps (posed (snap i Ts.length) T) b x.1 x.2.1 x.2.2) ≤ 1 := by
      intro b hb x hx
      have e : Rgbd.gnormalAt S.nrm S.eps (posed (snap i Ts.length) T) b x.1 x.2.1 x.2.2 =
          (T.at' b x.1).R.mulVec (Rgbd.normalAt S.nrm S.eps (posed (snap i Ts.length) T) b x.1 x.2.1 x.2.2) := rfl
      rw [e, hx, M3.dot_orthogonal (hR T (by simp) b hb)]
      exact normal_le hn _ _ _ _ _ _
    have hpix : ∀ (m : Nat → Nat → Nat → Bool) (k : Nat) (x : Nat × Nat × Nat), (Fusion.pixels 1 (posed (snap i Ts.length) T).H (posed (snap i Ts.length) T).W m)[k]? = some x → x.1 = 0 := by
      intro m k x hx
      have := ((Fusion.pixels_spec 1 (posed (snap i Ts.length) T).H (posed (snap i Ts.length) T).W m).1 x.1 x.2.1 x.2.2).1 (List.mem_of_getElem? hx)
      omega
    unfold MapChange at hc
    rw [hS] at hc; simp only at hc
    cases hP : a .points with
    | none =>
      rw [hP] at hc; simp only at hc
      subst hc
      intro Nn hN b n v hv
      simp only [Fusion.newArg, Option.some.injEq] at hN
      subst hN
      have hb : b < i.B := by
        have := vecAt_lt hv
        rw [Fusion.picked_length] at this
        exact hB' ▸ this
      rw [Fusion.vecAt_picked (show b < (view S (posed (snap i Ts.length) T)).B by show b < (posed (snap i Ts.length) T).B; rw [hB']; exact hb), Option.map_eq_some_iff] at hv
      obtain ⟨x, hx, rfl⟩ := hv
      exact hg' b hb x (hpix _ _ _ hx)
    | some P =>
      rw [hP] at hc; simp only at hc
      obtain ⟨T', P', rows, hT', f⟩ := hc
      obtain ⟨F, l, l', hF, hl, hl', m1, m2, m3⟩ := f.merged .normals (Rgbd.gnormalAt S.nrm S.eps (posed (snap i Ts.length) T)) (by simp)
      intro Nn hN b n v hv
      rw [hl'] at hN; cases hN
      have hb : b < i.B := by
        have := vecAt_lt hv
        rw [f.wf.length hl', f.batch] at this
        exact hB' ▸ this
      by_cases hlt : n < Fusion.sizeAt P b
      · obtain ⟨row, hrow⟩ := Option.isSome_iff_exists.1 (show (Fusion.rowAt l b n).isSome by
          rw [Fusion.rowAt_isSome f.oldWf hl]; exact Fusion.sizeAt_isSome.2 hlt)
        have hx : Fusion.vecAt l b n = some (Fusion.toV3 row) := by simp [Fusion.vecAt, hrow]
        have hx1 := ih (fun T hT => hR T (by simp [hT])) l hl b n _ hx
        by_cases hr : ∃ r ∈ rows, r.b = b ∧ r.n = n
        · obtain ⟨r', hr', rfl, rfl⟩ := hr
          rw [m1 r' hr' _ hx] at hv; cases hv
          exact wAvg_le (conf_nonneg (run_conf hB hal hS r F hF) _ _) (hal _) hx1 (hg' _ hb (0, r'.h, r'.w) rfl)
        · rw [m2 b n _ hx (fun r hr' h => hr ⟨r, hr', h⟩)] at hv; cases hv
          exact hx1
      · obtain ⟨k, rfl⟩ : ∃ k, n = Fusion.sizeAt P b + k := ⟨n - Fusion.sizeAt P b, by omega⟩
        rw [m3 b (hB'.symm ▸ hb), Option.map_eq_some_iff] at hv
        obtain ⟨x, hx, rfl⟩ := hv
        exact hg' b hb x (hpix _ _ _ hx)
end

/-! ### C72 -/

/-- Specification: the map point `p` is seen by a camera with pose `T`, and `(y, x)` is the pixel nearest to its image. -/
def Shows (i : Rgbd.In ℝ) (b : Nat) (T : M4 ℝ) (p : V3 ℝ) (y x : Nat) : Prop :=
  y < i.H ∧ x < i.W ∧ Fusion.Visible i.H i.W (i.K b) (Fusion.toCamera T p) ∧
    Fusion.Nearest (Geom.projectPoint (i.K b) (.inl (Fusion.toCamera T p))).2 y ∧
    Fusion.Nearest (Geom.projectPoint (i.K b) (.inl (Fusion.toCamera T p))).1 x

/-- Specification: point `n` of cloud `b` is a better partner for a measurement at `q` than point `n'`: higher confidence, or the same and closer, or
the same and a smaller index (or the same point). -/
def Better (old : Attr → List (T2 ℝ)) (q : V3 ℝ) (b n n' : Nat) : Prop :=
  Fusion.conf (old .features) b n' < Fusion.conf (old .features) b n ∨ Fusion.conf (old .features) b n = Fusion.conf (old .features) b n' ∧
    ∀ p p', Fusion.vecAt (old .points) b n = some p → Fusion.vecAt (old .points) b n' = some p' →
      len (p.sub q) < len (p'.sub q) ∨ len (p.sub q) = len (p'.sub q) ∧ n ≤ n'

/-- Specification: the weight of a measurement `v` metres from the camera: a Gaussian of the distance, at least `1e-7`. -/
noncomputable def gaussWeight (sigma : ℝ) (v : V3 ℝ) : ℝ := max (Real.exp (-(v.dot v) / (2 * sigma ^ 2))) (1 / 10 ^ 7)

theorem gaussWeight_eq (sigma : ℝ) (v : V3 ℝ) : Fusion.getAlpha sigma (1 / 10 ^ 7) v = gaussWeight sigma v := by
  have h := Fusion.exp_le_one sigma v
  have e : v.x ^ 2 + v.y ^ 2 + v.z ^ 2 = v.dot v := by simp only [V3.dot]; ring
  rw [Fusion.getAlpha, gaussWeight, ← e]
  exact min_eq_left (max_le (h.trans (by norm_num)) (by norm_num))

theorem len_lt_iff (u v : V3 ℝ) : len u < len v ↔ u.dot u < v.dot v :=
  Real.sqrt_lt_sqrt_iff (by simp only [V3.dot]; nlinarith [mul_self_nonneg u.x, mul_self_nonneg u.y, mul_self_nonneg u.z])

theorem len_eq_iff (u v : V3 ℝ) : len u = len v ↔ u.dot u = v.dot v :=
  Real.sqrt_inj (by simp only [V3.dot]; nlinarith [mul_self_nonneg u.x, mul_self_nonneg u.y, mul_self_nonneg u.z])
    (by simp only [V3.dot]; nlinarith [mul_self_nonneg v.x, mul_self_nonneg v.y, mul_self_nonneg v.z])

theorem len_sub_comm (u v : V3 ℝ) : len (u.sub v) = len (v.sub u) := by
  rw [len_eq_iff]; simp only [V3.dot, V3.sub]; ring

theorem len_le_one {v : V3 ℝ} (h : v.dot v ≤ 1) : len v ≤ 1 := Real.sqrt_le_one.2 h

/-- Specification: which pixels of frame `k` (with the poses `T b`) are merged with which of the old map points, given the thresholds. -/
structure MergeTable (S : Sys ℝ) (i : Rgbd.In ℝ) (k : Nat) (T : Nat → M4 ℝ) (distTh angleTh : ℝ) (old : Attr → List (T2 ℝ)) (rows : List Fusion.Row) :
    Prop where
  /-- a point is merged with at most one pixel, and a pixel with at most one point -/
  points : rows.Pairwise fun r s => ¬ (r.b = s.b ∧ r.n = s.n)
  pixels : rows.Pairwise fun r s => ¬ (r.b = s.b ∧ r.h = s.h ∧ r.w = s.w)
  /-- merged pixels have depth, show the map point, and measure a point within `dist_th` and a normal within `angle_th` degrees of it -/
  sound : ∀ r ∈ rows, r.b < i.B ∧ 0 < i.depth r.b k r.h r.w ∧ ∃ p m, Fusion.vecAt (old .points) r.b r.n = some p ∧
    Fusion.vecAt (old .normals) r.b r.n = some m ∧ Shows i r.b (T r.b) p r.h r.w ∧
    len ((worldValue S i r.b k (T r.b) (r.h, r.w) .points).sub p) < distTh ∧
    angleDeg (worldValue S i r.b k (T r.b) (r.h, r.w) .normals) m < angleTh
  /-- if a pixel shows a map point, with unit normals, and both are within the thresholds, then the pixel is merged, and with the best such point -/
  complete : ∀ b n y x p m, b < i.B → Fusion.vecAt (old .points) b n = some p → Fusion.vecAt (old .normals) b n = some m → Shows i b (T b) p y x →
    len ((worldValue S i b k (T b) (y, x) .points).sub p) < distTh →
    len (worldValue S i b k (T b) (y, x) .normals) = 1 → len m = 1 → angleDeg (worldValue S i b k (T b) (y, x) .normals) m < angleTh →
    ∃ r ∈ rows, r.b = b ∧ r.h = y ∧ r.w = x ∧ Better old (worldValue S i b k (T b) (y, x) .points) b r.n n

/-- Specification: the pixels with depth of frame `k` of sequence `b` that are not merged. -/
noncomputable def newPixels (i : Rgbd.In ℝ) (k : Nat) (rows : List Fusion.Row) (b : Nat) : List (Nat × Nat) :=
  (depthPixels i b k).filter fun x => decide (∀ r ∈ rows, ¬ (r.b = b ∧ r.h = x.1 ∧ r.w = x.2))

/-- Specification: the new map.  Merged points, normals and colours become the mean of the old value (weighted with the old confidence) and the measured
value (weighted with the Gaussian weight), the weight is added to the confidence, other points stay as they are, and the pixels with depth that were
not merged are appended in row-major order with their weights as confidences. -/
structure NewMap (S : Sys ℝ) (i : Rgbd.In ℝ) (k : Nat) (T : Nat → M4 ℝ) (sigma : ℝ) (old new : Attr → List (T2 ℝ)) (rows : List Fusion.Row) : Prop where
  merged : ∀ X, X ≠ .features → ∀ r ∈ rows, ∀ v, Fusion.vecAt (old X) r.b r.n = some v → Fusion.vecAt (new X) r.b r.n =
    some (Fusion.wAvg (Fusion.conf (old .features) r.b r.n) (gaussWeight sigma (Rgbd.vertexAt S.eps i r.b k r.h r.w)) v
      (worldValue S i r.b k (T r.b) (r.h, r.w) X))
  kept : ∀ X, X ≠ .features → ∀ b n v, Fusion.vecAt (old X) b n = some v → (∀ r ∈ rows, ¬ (r.b = b ∧ r.n = n)) → Fusion.vecAt (new X) b n = some v
  added : ∀ X, X ≠ .features → ∀ b < i.B, ∀ j, Fusion.vecAt (new X) b (Fusion.sizeAt (old .points) b + j) =
    (newPixels i k rows b)[j]?.map fun x => worldValue S i b k (T b) x X
  confMerged : ∀ r ∈ rows, Fusion.conf (new .features) r.b r.n =
    Fusion.conf (old .features) r.b r.n + gaussWeight sigma (Rgbd.vertexAt S.eps i r.b k r.h r.w)
  confKept : ∀ b n, n < Fusion.sizeAt (old .points) b → (∀ r ∈ rows, ¬ (r.b = b ∧ r.n = n)) →
    Fusion.conf (new .features) b n = Fusion.conf (old .features) b n
  confAdded : ∀ b < i.B, ∀ j, Fusion.rowAt (new .features) b (Fusion.sizeAt (old .points) b + j) =
    (newPixels i k rows b)[j]?.map fun x => [gaussWeight sigma (Rgbd.vertexAt S.eps i b k x.1 x.2)]

/-- **C72**.  `PointFusion(dist_th, angle_th, sigma)` with `0 ≤ angle_th ≤ 90` (degrees), any odometry, and a batch of sequences of `k + 1` frames on which
`forward` succeeds with poses whose rotation parts are orthogonal: `forward` on the first `k` frames succeeds with the same poses, and the final map
arises from the map it returns by merging exactly the pixels of the last frame described by `MergeTable` as described by `NewMap`.  No normal of the
map is ever longer than one. -/
theorem pointfusion_thresholds {nn : List (V3 ℝ) → V3 ℝ → Nat} {epsE eps : ℝ} {p : Params} {odom : String} {distTh angleTh sigma : ℝ} {S : Sys ℝ}
    (hS : pointFusion nn epsE eps Rgbd.nrmR (fun sigma => Fusion.getAlpha sigma (1 / 10 ^ 7)) p odom distTh angleTh sigma = .ok S)
    (ha : 0 ≤ angleTh ∧ angleTh ≤ 90) (hds : odom = "gt" ∨ 0 < p.ds) {frames pre : Rgbd.Obj ℝ} {i : Rgbd.In ℝ} (hi : SmallSeq S i) (hf : SeqOk S frames i)
    {k : Nat} (hk : 0 < k) (hL : i.L = k + 1)
    (hpre : Rgbd.getitem (.tup [.slice none none none, .slice (some 0) (some k) none]) frames = .ok pre) {m' : PC ℝ} {R : Rgbd.TM ℝ}
    (hfw : forward S frames = .ok (m', R)) (hR : ∀ b < i.B, ∀ t ≤ k, (R.at' b t).R.transpose.mul (R.at' b t).R = M3.one) :
    ∃ m Rp, forward S pre = .ok (m, Rp) ∧ (∀ b, ∀ t < k, Rp.at' b t = R.at' b t) ∧
      ∃ old new : Attr → List (T2 ℝ), (∀ X, (getList X m).1 = some (old X) ∧ (getList X m').1 = some (new X)) ∧
        (∀ b n v, Fusion.vecAt (old .normals) b n = some v → len v ≤ 1) ∧
        ∃ rows, MergeTable S i k (fun b => R.at' b k) distTh angleTh old rows ∧ NewMap S i k (fun b => R.at' b k) sigma old new rows := by
  obtain ⟨hs, hx⟩ := made_sysOk (nrm := Rgbd.nrmR) (.inr ⟨distTh, angleTh, sigma, hS⟩) hds hi
  have hSe : S.nrm = Rgbd.nrmR ∧ S.mapper = .fusion distTh (Real.cos (angleTh * Real.pi / 180)) ∧ S.al = gaussWeight sigma := by
    rw [pointFusion] at hS
    cases ho : odomOf nn epsE p odom with
    | error e => rw [ho] at hS; cases hS
    | ok o => rw [ho] at hS; cases hS; exact ⟨rfl, rfl, funext fun v => gaussWeight_eq sigma v⟩
  obtain ⟨hnrm, hmap, hal⟩ := hSe
  have halp : ∀ q, 0 < S.al q := fun q => by rw [hal, gaussWeight]; exact lt_max_of_lt_right (by norm_num)
  have hcos : 0 ≤ Real.cos (angleTh * Real.pi / 180) := by
    have hp := Real.pi_pos
    have h0 : 0 ≤ angleTh * Real.pi / 180 := by have := ha.1; positivity
    exact Real.cos_nonneg_of_neg_pi_div_two_le_of_le (by linarith) (by rw [div_le_iff₀ (by norm_num)]; nlinarith [ha.2])
  obtain ⟨m, Rp, a, a', Ts, T, h1, h2, h3, h4, h5, h6, h7, h8, h9⟩ := last_step hf hs hx hk hL hpre hfw
  have hne : Ts ≠ [] := by intro h; rw [h] at h6; simp at h6; omega
  obtain ⟨P, hP⟩ := Option.ne_none_iff_exists'.1 ((run_empty h5).2 hne)
  have hc := h9
  unfold MapChange at hc
  rw [hmap] at hc; simp only [hP] at hc
  obtain ⟨T', P', rows, hT', f⟩ := hc
  have hT : T' = T.at' := by
    have : (posed (snap i k) T).poses = some T.at' := rfl
    rw [this] at hT'; cases hT'; rfl
  subst hT
  obtain ⟨Sp1, _, SpH, SpW, Sp⟩ := snap_spec i k
  have hB' : (posed (snap i k) T).B = i.B := Sp1
  have hH' : (posed (snap i k) T).H = i.H := SpH
  have hW' : (posed (snap i k) T).W = i.W := SpW
  have hD' : ∀ b < i.B, (posed (snap i k) T).depth b 0 = i.depth b k := fun b hb => (Sp b hb).2.1
  have hK' : ∀ b < i.B, (posed (snap i k) T).K b = i.K b := fun b hb => (Sp b hb).2.2.1
  obtain ⟨F, Pl, Pl', hF, hPl, hPl', mp1, mp2, mp3⟩ := f.merged .points (Rgbd.gvertexAt S.eps (posed (snap i k) T)) (by simp)
  obtain ⟨F2, Nn, Nn', hF2, hN, hN', mn1, mn2, mn3⟩ := f.merged .normals (Rgbd.gnormalAt S.nrm S.eps (posed (snap i k) T)) (by simp)
  obtain ⟨F3, Cl, Cl', hF3, hC, hC', mc1, mc2, mc3⟩ := f.merged .colors (posed (snap i k) T).rgb (by simp)
  obtain ⟨F4, F', hF4, hF', _, cf1, cf2, _⟩ := f.conf
  rw [hF] at hF2 hF3 hF4; cases hF2; cases hF3; cases hF4
  rw [hP] at hPl; cases hPl
  have o := inv_obs h3
  have o' := inv_obs h4
  have hRT : ∀ T ∈ Ts, ∀ b < i.B, (T.at' b 0).R.transpose.mul (T.at' b 0).R = M3.one := by
    intro U hU b hb
    obtain ⟨t, ht, hU⟩ := List.getElem_of_mem hU
    rw [← h7 t U (by rw [List.getElem?_eq_getElem ht, hU]) b]
    exact hR b hb t (by omega)
  have hnl := run_normals_le hf.B hmap (hnrm ▸ Rgbd.nrmR_isNorm) halp h5 hRT Nn hN
  have hgl : ∀ b < i.B, ∀ y x, len (worldValue S i b k (R.at' b k) (y, x) .normals) ≤ 1 := by
    intro b hb y x
    refine len_le_one ?_
    simp only [worldValue]
    rw [M3.dot_orthogonal (hR b hb k le_rfl)]
    exact normal_le (hnrm ▸ Rgbd.nrmR_isNorm) _ _ _ _ _ _
  have hvalid : ∀ b < i.B, ∀ y x, (view S (posed (snap i k) T)).valid b 0 y x = true ↔ 0 < i.depth b k y x := by
    intro b hb y x
    show decide (0 < (posed (snap i k) T).depth b 0 y x) = true ↔ _
    rw [hD' b hb, decide_eq_true_eq]
  -- the rows
  have hrb : ∀ r ∈ rows, r.b < i.B := fun r hr => hB' ▸ (f.inside r hr).2.1
  have hrd : ∀ r ∈ rows, 0 < i.depth r.b k r.h r.w := fun r hr => (hvalid _ (hrb r hr) _ _).1
    (Fusion.candidate_valid (Fusion.ofIn_zeroNormals _ _ _) hcos (f.cand Nn hN r hr))
  have himg : ∀ b < i.B, ∀ y x, 0 < i.depth b k y x → Rgbd.vertexAt S.eps (posed (snap i k) T) b 0 y x = Rgbd.vertexAt S.eps i b k y x ∧
      Rgbd.gvertexAt S.eps (posed (snap i k) T) b 0 y x = worldValue S i b k (R.at' b k) (y, x) .points ∧
      Rgbd.gnormalAt S.nrm S.eps (posed (snap i k) T) b 0 y x = worldValue S i b k (R.at' b k) (y, x) .normals ∧
      (posed (snap i k) T).rgb b 0 y x = worldValue S i b k (R.at' b k) (y, x) .colors := by
    intro b hb y x hd
    rw [← h8 b]; exact image_world S i hb T hd
  let old : Attr → List (T2 ℝ) := fun X => match X with | .points => P | .normals => Nn | .colors => Cl | .features => F
  let new : Attr → List (T2 ℝ) := fun X => match X with | .points => Pl' | .normals => Nn' | .colors => Cl' | .features => F'
  have hpixels : ∀ b < i.B, Fusion.pixels 1 (posed (snap i k) T).H (posed (snap i k) T).W (Fusion.newMask (view S (posed (snap i k) T)) rows b) =
      (newPixels i k rows b).map fun x => (0, x.1, x.2) := by
    intro b hb
    rw [pixels_one, hH', hW', newPixels, depthPixels, List.filter_filter]
    congr 1
    refine List.filter_congr fun x _ => ?_
    rw [Bool.eq_iff_iff, Fusion.newMask_iff, hvalid b hb, Bool.and_eq_true, decide_eq_true_eq, decide_eq_true_eq, and_comm]
  have hnew : ∀ b < i.B, ∀ (j : Nat) (x : Nat × Nat), (newPixels i k rows b)[j]? = some x → 0 < i.depth b k x.1 x.2 := by
    intro b hb j x hx
    have := List.mem_of_getElem? hx
    rw [newPixels, depthPixels, List.mem_filter, List.mem_filter] at this
    simpa using this.1.2
  refine ⟨m, Rp, h1, h2, old, new, fun X => ?_, fun b n v hv => len_le_one (hnl b n v hv), rows, ?_, ?_⟩
  · rw [o.list, o'.list]
    cases X
    · exact ⟨hP, hPl'⟩
    · exact ⟨hN, hN'⟩
    · exact ⟨hC, hC'⟩
    · exact ⟨hF, hF'⟩
  · refine ⟨f.pts, f.pix, fun r hr => ?_, fun b n y x q v hb hq hv hsh hdist hl1 hl2 hang => ?_⟩
    · have hb := hrb r hr
      have hd := hrd r hr
      obtain ⟨⟨c1, c2⟩, ⟨q, c3, c4, c5, c6⟩, ⟨q', v, c7, c8, c9, c10⟩⟩ := f.cand Nn hN r hr
      rw [c3] at c7; cases c7
      obtain ⟨i1, i2, i3, i4⟩ := himg r.b hb r.h r.w hd
      have eH : (view S (posed (snap i k) T)).H = i.H := hH'
      have eW : (view S (posed (snap i k) T)).W = i.W := hW'
      have eK : (view S (posed (snap i k) T)).K r.b = i.K r.b := hK' r.b hb
      rw [eH, eW, eK, h8] at c4
      rw [eK, h8] at c5 c6
      refine ⟨hb, hd, q, v, c3, c8, ⟨eH ▸ c1, eW ▸ c2, c4, c5, c6⟩, ?_, ?_⟩
      · have : (view S (posed (snap i k) T)).gv r.b 0 r.h r.w = worldValue S i r.b k (R.at' r.b k) (r.h, r.w) .points := i2
        rw [this, hnrm] at c9; exact c9
      · have : (view S (posed (snap i k) T)).gn r.b 0 r.h r.w = worldValue S i r.b k (R.at' r.b k) (r.h, r.w) .normals := i3
        rw [this] at c10
        exact angle_lt ha (hgl _ hb _ _) (len_le_one (hnl _ _ _ c8)) c10
    · have hd : 0 < i.depth b k y x := by
        by_contra hd
        rw [worldValue, Rgbd.normalAt, if_neg hd] at hl1
        have : ((R.at' b k).R.mulVec V3.zero).dot ((R.at' b k).R.mulVec V3.zero) = 0 := by simp [M3.mulVec, V3.dot, V3.zero]
        rw [len, this, Real.sqrt_zero] at hl1
        exact zero_ne_one hl1
      obtain ⟨i1, i2, i3, i4⟩ := himg b hb y x hd
      obtain ⟨s1, s2, s3, s4, s5⟩ := hsh
      have eH : (view S (posed (snap i k) T)).H = i.H := hH'
      have eW : (view S (posed (snap i k) T)).W = i.W := hW'
      have eK : (view S (posed (snap i k) T)).K b = i.K b := hK' b hb
      have egv : (view S (posed (snap i k) T)).gv b 0 y x = worldValue S i b k (R.at' b k) (y, x) .points := i2
      have egn : (view S (posed (snap i k) T)).gn b 0 y x = worldValue S i b k (R.at' b k) (y, x) .normals := i3
      have hcand : Fusion.Candidate S.nrm P Nn (view S (posed (snap i k) T)) T.at' distTh (Real.cos (angleTh * Real.pi / 180)) ⟨b, n, y, x⟩ := by
        refine ⟨⟨eH.symm ▸ s1, eW.symm ▸ s2⟩, ⟨q, hq, ?_, ?_, ?_⟩, ⟨q, v, hq, hv, ?_, ?_⟩⟩
        · rw [eH, eW, eK, h8]; exact s3
        · rw [eK, h8]; exact s4
        · rw [eK, h8]; exact s5
        · rw [egv, hnrm]; exact hdist
        · rw [egn]; exact dot_gt ⟨ha.1, by linarith [ha.2]⟩ hl1 hl2 hang
      obtain ⟨r, hr, ⟨e1, e2, e3⟩, hpref⟩ := f.best Nn F hN hF _ hcand
      refine ⟨r, hr, e1, e2, e3, ?_⟩
      simp only at e1 e2 e3
      have hrd : ∀ (r : Fusion.Row), r.b = b → r.h = y → r.w = x → ∀ u, Fusion.vecAt P b r.n = some u →
          Fusion.rayDist P (view S (posed (snap i k) T)) r =
            (u.sub (worldValue S i b k (R.at' b k) (y, x) .points)).dot (u.sub (worldValue S i b k (R.at' b k) (y, x) .points)) := by
        rintro ⟨rb, rn, rh, rw'⟩ rfl rfl rfl u hu
        rw [Fusion.rayDist]
        simp only at hu
        simp only [hu, Option.getD_some, V3.normSq, egv]
      rcases hpref with h | ⟨h, h'⟩
      · left; rw [e1] at h; exact h
      · right
        rw [e1] at h
        refine ⟨h, fun u u' hu hu' => ?_⟩
        rw [hrd r e1 e2 e3 u hu, hrd ⟨b, n, y, x⟩ rfl rfl rfl u' hu'] at h'
        rw [len_lt_iff, len_eq_iff]; exact h'
  · have key : ∀ {l l' : List (T2 ℝ)} {img : Nat → Nat → Nat → Nat → V3 ℝ} {X : Attr},
        (∀ r ∈ rows, ∀ x, Fusion.vecAt l r.b r.n = some x → Fusion.vecAt l' r.b r.n = some (Fusion.wAvg (Fusion.conf F r.b r.n)
          (S.al (Rgbd.vertexAt S.eps (posed (snap i k) T) r.b 0 r.h r.w)) x (img r.b 0 r.h r.w))) →
        (∀ b < i.B, ∀ y x, 0 < i.depth b k y x → img b 0 y x = worldValue S i b k (R.at' b k) (y, x) X) →
        ∀ r ∈ rows, ∀ v, Fusion.vecAt l r.b r.n = some v → Fusion.vecAt l' r.b r.n = some (Fusion.wAvg (Fusion.conf F r.b r.n)
          (gaussWeight sigma (Rgbd.vertexAt S.eps i r.b k r.h r.w)) v (worldValue S i r.b k (R.at' r.b k) (r.h, r.w) X)) := by
      intro l l' img X hm himg' r hr v hv
      rw [hm r hr v hv, himg' r.b (hrb r hr) _ _ (hrd r hr), (himg r.b (hrb r hr) _ _ (hrd r hr)).1, hal]
    have key2 : ∀ {l' : List (T2 ℝ)} {img : Nat → Nat → Nat → Nat → V3 ℝ} {X : Attr},
        (∀ b < (posed (snap i k) T).B, ∀ j, Fusion.vecAt l' b (Fusion.sizeAt P b + j) =
          (Fusion.pixels 1 (posed (snap i k) T).H (posed (snap i k) T).W (Fusion.newMask (view S (posed (snap i k) T)) rows b))[j]?.map
            fun x => img b x.1 x.2.1 x.2.2) →
        (∀ b < i.B, ∀ y x, 0 < i.depth b k y x → img b 0 y x = worldValue S i b k (R.at' b k) (y, x) X) →
        ∀ b < i.B, ∀ j, Fusion.vecAt l' b (Fusion.sizeAt P b + j) = (newPixels i k rows b)[j]?.map fun x => worldValue S i b k (R.at' b k) x X := by
      intro l' img X hm himg' b hb j
      rw [hm b (hB'.symm ▸ hb), hpixels b hb, List.getElem?_map, Option.map_map]
      cases hx : (newPixels i k rows b)[j]? with
      | none => rfl
      | some x => simp only [Option.map_some, Function.comp]; rw [himg' b hb _ _ (hnew b hb j x hx)]
    refine ⟨fun X hX => ?_, fun X hX => ?_, fun X hX => ?_, fun r hr => ?_, fun b n hn hr => ?_, fun b hb j => ?_⟩
    · cases X
      · exact key mp1 fun b hb y x hd => (himg b hb y x hd).2.1
      · exact key mn1 fun b hb y x hd => (himg b hb y x hd).2.2.1
      · exact key mc1 fun b hb y x hd => (himg b hb y x hd).2.2.2
      · exact absurd rfl hX
    · cases X
      · exact mp2
      · exact mn2
      · exact mc2
      · exact absurd rfl hX
    · cases X
      · exact key2 mp3 fun b hb y x hd => (himg b hb y x hd).2.1
      · exact key2 mn3 fun b hb y x hd => (himg b hb y x hd).2.2.1
      · exact key2 mc3 fun b hb y x hd => (himg b hb y x hd).2.2.2
      · exact absurd rfl hX
    · have := cf1.matched r hr
      rw [(himg r.b (hrb r hr) _ _ (hrd r hr)).1, hal] at this
      exact this
    · refine cf1.kept b n ?_ hr
      rw [Fusion.rowAt_isSome f.oldWf hF]; exact Fusion.sizeAt_isSome.2 hn
    · have := cf2 b (hB'.symm ▸ hb) j
      rw [hpixels b hb, List.getElem?_map, Option.map_map] at this
      refine this.trans ?_
      cases hx : (newPixels i k rows b)[j]? with
      | none => rfl
      | some x => simp only [Option.map_some, Function.comp]; rw [(himg b hb _ _ (hnew b hb j x hx)).1, hal]
end Verif.Slam
