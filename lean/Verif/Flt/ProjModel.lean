import Verif.Flt.Format
import Verif.Rgbd.Spec
import Mathlib.Data.List.Perm.Basic
/-!
Back-projection, change of frame and projection in floating point: the steps a measured pixel goes through on its way into the map and back
to the image.  Every elementary operation returns its exact result rounded; a sum of products may be evaluated in any order, with or
without fused multiply-adds (`Dots`), because torch does not say how `matmul` and `einsum` add up.
-/
namespace Verif.Flt
open Verif

/-- `Dots F l y`: some way of evaluating the sum of the products of the pairs `l` in the format `F` gives `y`.  Products may be rounded
on their own (`one`) or added to a partial sum with a single rounding (`fma`), partial sums may be added in any grouping (`add`) and in
any order (`perm`). -/
inductive Dots (F : Fmt) : List (ℝ × ℝ) → ℝ → Prop
  | one (a b : ℝ) : Dots F [(a, b)] (F.rnd (a * b))
  | fma (a b : ℝ) {l : List (ℝ × ℝ)} {s : ℝ} : Dots F l s → Dots F ((a, b) :: l) (F.rnd (a * b + s))
  | add {l m : List (ℝ × ℝ)} {s t : ℝ} : Dots F l s → Dots F m t → Dots F (l ++ m) (F.rnd (s + t))
  | perm {l m : List (ℝ × ℝ)} {s : ℝ} : l.Perm m → Dots F l s → Dots F m s

/-- A rounded inner product of two 3-vectors. -/
def Dot3 (F : Fmt) (a b : V3 ℝ) (y : ℝ) : Prop := Dots F [(a.x, b.x), (a.y, b.y), (a.z, b.z)] y

/-- A rounded product of a 3×3 matrix and a vector (`torch.matmul`, `torch.einsum` over one index). -/
def MulVecF (F : Fmt) (A : M3 ℝ) (v w : V3 ℝ) : Prop := Dot3 F A.r0 v w.x ∧ Dot3 F A.r1 v w.y ∧ Dot3 F A.r2 v w.z

/-- `inverse_intrinsics`, projutils.py:437-450, rounded: `1.0 / (fx + eps)`, `-1.0 * cx / (fx + eps)`. -/
noncomputable def inverseIntrinsicsF (F : Fmt) (eps : ℝ) (K : M3 ℝ) : M3 ℝ :=
  ⟨⟨F.rnd (1 / F.rnd (K.r0.x + eps)), 0, F.rnd (F.rnd (-1 * K.r0.z) / F.rnd (K.r0.x + eps))⟩,
   ⟨0, F.rnd (1 / F.rnd (K.r1.y + eps)), F.rnd (F.rnd (-1 * K.r1.z) / F.rnd (K.r1.y + eps))⟩,
   ⟨0, 0, 1⟩⟩

/-- `_compute_vertex_map` at a pixel with positive depth `d`, rgbdimages.py:643-680: the inverse intrinsics times `(x, y, 1)`, times the
depth (times the mask, which is 1 and changes nothing). -/
def VertexF (F : Fmt) (eps : ℝ) (K : M4 ℝ) (px : V3 ℝ) (d : ℝ) (v : V3 ℝ) : Prop :=
  ∃ r, MulVecF F (inverseIntrinsicsF F eps K.R) px r ∧ v = ⟨F.rnd (r.x * d), F.rnd (r.y * d), F.rnd (r.z * d)⟩

/-- `_compute_global_vertex_map` at a pixel with positive depth, rgbdimages.py:682-708: rotate, then add the translation. -/
def WorldF (F : Fmt) (T : M4 ℝ) (v g : V3 ℝ) : Prop :=
  ∃ r, MulVecF F T.R v r ∧ g = ⟨F.rnd (r.x + T.t.x), F.rnd (r.y + T.t.y), F.rnd (r.z + T.t.z)⟩

/-- `pointclouds.transform(inverse_transformation(poses))` at one point, fusionutils.py:249-250: kornia's inverse is `Rᵀ` and `-Rᵀ t`;
`transform_` (pointclouds.py:526-573) rotates the point and adds the offset. -/
def CameraF (F : Fmt) (T : M4 ℝ) (p c : V3 ℝ) : Prop :=
  ∃ r m, MulVecF F T.R.transpose p r ∧ MulVecF F T.R.transpose.neg T.t m ∧
    c = ⟨F.rnd (r.x + m.x), F.rnd (r.y + m.y), F.rnd (r.z + m.z)⟩

/-- `project_points` at one point, projutils.py:206-238: the intrinsics times `(X, Y, Z, 1)`, then two divisions by the guarded third
coordinate. -/
def ProjectF (F : Fmt) (K : M4 ℝ) (c : V3 ℝ) (q : ℝ × ℝ) : Prop :=
  ∃ a b z, Dots F [(K.R.r0.x, c.x), (K.R.r0.y, c.y), (K.R.r0.z, c.z), (K.t.x, 1)] a ∧
    Dots F [(K.R.r1.x, c.x), (K.R.r1.y, c.y), (K.R.r1.z, c.z), (K.t.y, 1)] b ∧
    Dots F [(K.R.r2.x, c.x), (K.R.r2.y, c.y), (K.R.r2.z, c.z), (K.t.z, 1)] z ∧
    q = (F.rnd (a / Geom.guardZ z), F.rnd (b / Geom.guardZ z))

/-- `is_in_frame` at a point of the map, fusionutils.py:251-266: the limits `-1e-3` and `width - 0.999` are rounded to the format of the
tensor they are compared with. -/
noncomputable def inFrameF (F : Fmt) (H W : Nat) (c : V3 ℝ) (q : ℝ × ℝ) : Bool :=
  decide (q.1 > F.rnd (-1 / 1000)) && decide (q.1 < F.rnd ((W : ℝ) - 999 / 1000)) && decide (q.2 > F.rnd (-1 / 1000)) &&
    decide (q.2 < F.rnd ((H : ℝ) - 999 / 1000)) && decide (c.z > 0)

/-- The pixel of the table entry, fusionutils.py:267-273: round, clamp; `(row, column)`. -/
noncomputable def pixelF (H W : Nat) (q : ℝ × ℝ) : Nat × Nat :=
  (Fusion.clampIdx H (Fusion.roundEven q.2), Fusion.clampIdx W (Fusion.roundEven q.1))

/-! ### Sums of products -/

/-- The exact sum and the sum of the sizes. -/
def sumP (l : List (ℝ × ℝ)) : ℝ := (l.map fun p => p.1 * p.2).sum
def sizeP (l : List (ℝ × ℝ)) : ℝ := (l.map fun p => |p.1 * p.2|).sum

theorem sizeP_nonneg (l : List (ℝ × ℝ)) : 0 ≤ sizeP l := by
  apply List.sum_nonneg; intro x hx; obtain ⟨p, _, rfl⟩ := List.mem_map.1 hx; exact abs_nonneg _

theorem abs_sumP (l : List (ℝ × ℝ)) : |sumP l| ≤ sizeP l := by
  induction l with
  | nil => simp [sumP, sizeP]
  | cons a l ih =>
    simp only [sumP, sizeP, List.map_cons, List.sum_cons] at ih ⊢
    exact (abs_add_le _ _).trans (by linarith)

theorem Dots.ne_nil {F : Fmt} {l : List (ℝ × ℝ)} {y : ℝ} (h : Dots F l y) : 1 ≤ l.length := by
  induction h with
  | one a b => simp
  | fma a b _ _ => simp
  | add _ _ h1 _ => simp; omega
  | perm hp _ ih => rwa [← hp.length_eq]

/-- Whatever the order of evaluation, the result is the exact sum up to `(1 + u) ^ n - 1` times the sum of the sizes of the products. -/
theorem dots_error {F : Fmt} {l : List (ℝ × ℝ)} {y : ℝ} (h : Dots F l y) :
    |y - sumP l| ≤ ((1 + F.u) ^ l.length - 1) * sizeP l := by
  have hu := F.u0
  have pw : ∀ n : ℕ, 1 ≤ (1 + F.u) ^ n := fun n => one_le_pow₀ (by linarith)
  induction h with
  | one a b => simpa [sumP, sizeP] using F.err (a * b)
  | @fma a b l s h ih =>
    have e := F.err (a * b + s)
    have hs := abs_sumP l
    have hz := sizeP_nonneg l
    have hp := pw l.length
    have e1 : sumP ((a, b) :: l) = a * b + sumP l := by simp [sumP]
    have e2 : sizeP ((a, b) :: l) = |a * b| + sizeP l := by simp [sizeP]
    rw [e1, e2, List.length_cons, pow_succ]
    have t1 : |F.rnd (a * b + s) - (a * b + sumP l)| ≤ |F.rnd (a * b + s) - (a * b + s)| + |s - sumP l| := by
      calc _ = |(F.rnd (a * b + s) - (a * b + s)) + (s - sumP l)| := by ring_nf
        _ ≤ _ := abs_add_le _ _
    have t2 : |a * b + s| ≤ |a * b| + |s - sumP l| + sizeP l := by
      calc |a * b + s| = |a * b + ((s - sumP l) + sumP l)| := by ring_nf
        _ ≤ |a * b| + (|s - sumP l| + |sumP l|) := (abs_add_le _ _).trans (by gcongr; exact abs_add_le _ _)
        _ ≤ _ := by linarith
    have t3 : F.u * |a * b + s| ≤ F.u * (|a * b| + ((1 + F.u) ^ l.length - 1) * sizeP l + sizeP l) := by gcongr; linarith
    have t4 : 0 ≤ ((1 + F.u) ^ l.length - 1) * F.u := mul_nonneg (by linarith) hu
    have t5 := mul_nonneg (mul_nonneg (by linarith : 0 ≤ (1 + F.u) ^ l.length - 1) (by linarith : 0 ≤ 1 + F.u)) (abs_nonneg (a * b))
    nlinarith [abs_nonneg (a * b)]
  | @add l m s t h1 h2 ih1 ih2 =>
    have e := F.err (s + t)
    have hs := abs_sumP l
    have ht := abs_sumP m
    have hz := sizeP_nonneg l
    have hz' := sizeP_nonneg m
    have e1 : sumP (l ++ m) = sumP l + sumP m := by simp [sumP]
    have e2 : sizeP (l ++ m) = sizeP l + sizeP m := by simp [sizeP]
    have gl : (1 + F.u) * (1 + F.u) ^ l.length ≤ (1 + F.u) ^ (l ++ m).length := by
      rw [← pow_succ']; exact pow_le_pow_right₀ (by linarith) (by have := h2.ne_nil; simp; omega)
    have gm : (1 + F.u) * (1 + F.u) ^ m.length ≤ (1 + F.u) ^ (l ++ m).length := by
      rw [← pow_succ']; exact pow_le_pow_right₀ (by linarith) (by have := h1.ne_nil; simp; omega)
    rw [e1, e2]
    have t1 : |F.rnd (s + t) - (sumP l + sumP m)| ≤ |F.rnd (s + t) - (s + t)| + (|s - sumP l| + |t - sumP m|) := by
      calc _ = |(F.rnd (s + t) - (s + t)) + ((s - sumP l) + (t - sumP m))| := by ring_nf
        _ ≤ _ := (abs_add_le _ _).trans (by gcongr; exact abs_add_le _ _)
    have t2 : |s + t| ≤ (|s - sumP l| + sizeP l) + (|t - sumP m| + sizeP m) := by
      calc |s + t| = |((s - sumP l) + sumP l) + ((t - sumP m) + sumP m)| := by ring_nf
        _ ≤ (|s - sumP l| + |sumP l|) + (|t - sumP m| + |sumP m|) :=
          (abs_add_le _ _).trans (by gcongr <;> exact abs_add_le _ _)
        _ ≤ _ := by linarith
    have t3 : F.u * |s + t| ≤ F.u * ((1 + F.u) ^ l.length * sizeP l + (1 + F.u) ^ m.length * sizeP m) := by gcongr; linarith
    have t4 := mul_le_mul_of_nonneg_right gl hz
    have t5 := mul_le_mul_of_nonneg_right gm hz'
    nlinarith
  | @perm l m s hp h ih =>
    have e1 : sumP m = sumP l := (hp.map _).sum_eq.symm
    have e2 : sizeP m = sizeP l := (hp.map _).sum_eq.symm
    rw [e1, e2, ← hp.length_eq]; exact ih

/-- There is always a way to evaluate: the theorems below are about something. -/
theorem dots_exists (F : Fmt) {l : List (ℝ × ℝ)} (h : l ≠ []) : ∃ y, Dots F l y := by
  induction l with
  | nil => exact absurd rfl h
  | cons a l ih =>
    rcases l with _ | ⟨c, l⟩
    · exact ⟨_, .one a.1 a.2⟩
    · obtain ⟨s, hs⟩ := ih (by simp)
      exact ⟨_, .fma a.1 a.2 hs⟩

/-- Without rounding every way of evaluating gives the sum. -/
theorem dots_exact {l : List (ℝ × ℝ)} (h : l ≠ []) (y : ℝ) : Dots exact l y ↔ y = sumP l := by
  have key : ∀ y, Dots exact l y → y = sumP l := by
    intro y hy
    have e := dots_error hy
    have : (1 + exact.u) = 1 := by show (1 + (0:ℝ)) = 1; ring
    rw [this, one_pow, sub_self, zero_mul] at e
    have := abs_nonpos_iff.1 e
    linarith
  refine ⟨key y, ?_⟩
  rintro rfl
  obtain ⟨z, hz⟩ := dots_exists exact h
  rw [← key z hz]; exact hz

/-! ### Without rounding the steps are those of the model of the code -/

theorem dot3_exact (a b : V3 ℝ) (y : ℝ) : Dot3 exact a b y ↔ y = a.dot b := by
  rw [Dot3, dots_exact (by simp)]
  simp [sumP, V3.dot, add_assoc]

theorem mulVec_exact (A : M3 ℝ) (v w : V3 ℝ) : MulVecF exact A v w ↔ w = A.mulVec v := by
  rw [MulVecF, dot3_exact, dot3_exact, dot3_exact]
  constructor
  · rintro ⟨h1, h2, h3⟩; exact V3.ext h1 h2 h3
  · rintro rfl; exact ⟨rfl, rfl, rfl⟩

theorem vertex_exact (eps : ℝ) (K : M4 ℝ) (px : V3 ℝ) (d : ℝ) (v : V3 ℝ) :
    VertexF exact eps K px d v ↔ v = Rgbd.backproj eps K px d := by
  have key : ∀ r, MulVecF exact (inverseIntrinsicsF exact eps K.R) px r →
      (⟨exact.rnd (r.x * d), exact.rnd (r.y * d), exact.rnd (r.z * d)⟩ : V3 ℝ) = Rgbd.backproj eps K px d := by
    intro r hr
    rw [mulVec_exact] at hr
    subst hr
    simp only [exact, id, inverseIntrinsicsF, M3.mulVec, V3.dot, Rgbd.backproj]
    congr 1 <;> ring
  constructor
  · rintro ⟨r, hr, rfl⟩; exact key r hr
  · rintro rfl
    have hr := (mulVec_exact (inverseIntrinsicsF exact eps K.R) px _).2 rfl
    exact ⟨_, hr, (key _ hr).symm⟩

theorem world_exact (T : M4 ℝ) (v g : V3 ℝ) : WorldF exact T v g ↔ g = (T.R.mulVec v).add T.t := by
  constructor
  · rintro ⟨r, hr, rfl⟩; rw [mulVec_exact] at hr; subst hr; rfl
  · rintro rfl; exact ⟨_, (mulVec_exact _ _ _).2 rfl, rfl⟩

theorem camera_exact (T : M4 ℝ) (p c : V3 ℝ) : CameraF exact T p c ↔ c = Fusion.toCamera T p := by
  have key : (⟨exact.rnd ((T.R.transpose.mulVec p).x + (T.R.transpose.neg.mulVec T.t).x), exact.rnd ((T.R.transpose.mulVec p).y +
      (T.R.transpose.neg.mulVec T.t).y), exact.rnd ((T.R.transpose.mulVec p).z + (T.R.transpose.neg.mulVec T.t).z)⟩ : V3 ℝ) =
      Fusion.toCamera T p := by
    simp only [exact, id, Fusion.toCamera, M3.mulVec, M3.neg, V3.neg, V3.dot, V3.sub, M3.transpose, M3.c0, M3.c1, M3.c2]
    congr 1 <;> ring
  constructor
  · rintro ⟨r, m, hr, hm, rfl⟩
    rw [mulVec_exact] at hr hm; subst hr hm; exact key
  · rintro rfl; exact ⟨_, _, (mulVec_exact _ _ _).2 rfl, (mulVec_exact _ _ _).2 rfl, key.symm⟩

theorem project_exact (K : M4 ℝ) (c : V3 ℝ) (q : ℝ × ℝ) : ProjectF exact K c q ↔ q = Geom.projectPoint K (.inl c) := by
  have e : ∀ a b x y z w : ℝ, sumP [(a, c.x), (b, c.y), (x, c.z), (y, 1)] = a * c.x + b * c.y + x * c.z + y := by
    intro a b x y z w; simp [sumP]; ring
  have key : ∀ a b z, Dots exact [(K.R.r0.x, c.x), (K.R.r0.y, c.y), (K.R.r0.z, c.z), (K.t.x, 1)] a →
    Dots exact [(K.R.r1.x, c.x), (K.R.r1.y, c.y), (K.R.r1.z, c.z), (K.t.y, 1)] b →
    Dots exact [(K.R.r2.x, c.x), (K.R.r2.y, c.y), (K.R.r2.z, c.z), (K.t.z, 1)] z →
    (exact.rnd (a / Geom.guardZ z), exact.rnd (b / Geom.guardZ z)) = Geom.projectPoint K (.inl c) := by
    intro a b z ha hb hz
    rw [dots_exact (by simp)] at ha hb hz
    subst ha hb hz
    simp only [exact, id, Geom.projectPoint, M4.mulVec, V3.dot, M3.mulVec, V3.add, V3.smul, sumP, List.map_cons, List.map_nil,
      List.sum_cons, List.sum_nil]
    congr 2 <;> first | ring | (congr 1; ring)
  constructor
  · rintro ⟨a, b, z, ha, hb, hz, rfl⟩; exact key a b z ha hb hz
  · rintro rfl
    exact ⟨_, _, _, (dots_exact (by simp) _).2 rfl, (dots_exact (by simp) _).2 rfl, (dots_exact (by simp) _).2 rfl,
      (key _ _ _ ((dots_exact (by simp) _).2 rfl) ((dots_exact (by simp) _).2 rfl) ((dots_exact (by simp) _).2 rfl)).symm⟩

theorem inFrame_exact (H W : Nat) (c : V3 ℝ) (q : ℝ × ℝ) :
    inFrameF exact H W c q = Fusion.isInFrame H W c.z [q.1, q.2, 1] true := by
  rw [Bool.eq_iff_iff]
  simp only [inFrameF, Fusion.isInFrame, Bool.and_eq_true, decide_eq_true_eq]
  simp [exact]

/-- Every pixel goes through the steps with some result. -/
theorem steps_exist (F : Fmt) (eps : ℝ) (K T : M4 ℝ) (px : V3 ℝ) (d : ℝ) :
    ∃ v g c q, VertexF F eps K px d v ∧ WorldF F T v g ∧ CameraF F T g c ∧ ProjectF F K c q := by
  have mv : ∀ (A : M3 ℝ) (v : V3 ℝ), ∃ w, MulVecF F A v w := by
    intro A v
    obtain ⟨a, ha⟩ := dots_exists F (l := [(A.r0.x, v.x), (A.r0.y, v.y), (A.r0.z, v.z)]) (by simp)
    obtain ⟨b, hb⟩ := dots_exists F (l := [(A.r1.x, v.x), (A.r1.y, v.y), (A.r1.z, v.z)]) (by simp)
    obtain ⟨c, hc⟩ := dots_exists F (l := [(A.r2.x, v.x), (A.r2.y, v.y), (A.r2.z, v.z)]) (by simp)
    exact ⟨⟨a, b, c⟩, ha, hb, hc⟩
  obtain ⟨r1, h1⟩ := mv (inverseIntrinsicsF F eps K.R) px
  obtain ⟨r2, h2⟩ := mv T.R ⟨F.rnd (r1.x * d), F.rnd (r1.y * d), F.rnd (r1.z * d)⟩
  obtain ⟨r3, h3⟩ := mv T.R.transpose ⟨F.rnd (r2.x + T.t.x), F.rnd (r2.y + T.t.y), F.rnd (r2.z + T.t.z)⟩
  obtain ⟨r4, h4⟩ := mv T.R.transpose.neg T.t
  obtain ⟨a, ha⟩ := dots_exists F (l := [(K.R.r0.x, F.rnd (r3.x + r4.x)), (K.R.r0.y, F.rnd (r3.y + r4.y)), (K.R.r0.z, F.rnd (r3.z + r4.z)), (K.t.x, 1)]) (by simp)
  obtain ⟨b, hb⟩ := dots_exists F (l := [(K.R.r1.x, F.rnd (r3.x + r4.x)), (K.R.r1.y, F.rnd (r3.y + r4.y)), (K.R.r1.z, F.rnd (r3.z + r4.z)), (K.t.y, 1)]) (by simp)
  obtain ⟨z, hz⟩ := dots_exists F (l := [(K.R.r2.x, F.rnd (r3.x + r4.x)), (K.R.r2.y, F.rnd (r3.y + r4.y)), (K.R.r2.z, F.rnd (r3.z + r4.z)), (K.t.z, 1)]) (by simp)
  exact ⟨_, _, _, _, ⟨r1, h1, rfl⟩, ⟨r2, h2, rfl⟩, ⟨r3, r4, h3, h4, rfl⟩, ⟨a, b, z, ha, hb, hz, rfl⟩⟩

end Verif.Flt
