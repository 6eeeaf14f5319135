import Verif.Icp.Smooth
import Verif.Fusion.Alpha
import Verif.Slam.Unique
/-!
C78: mapping is differentiable.  This file: what a frame shows (points, normals, weights) depends smoothly on depth, colours, intrinsics and poses.
-/
namespace Verif.Slam
open Verif Pcs Topology Filter
open Verif.Icp (Sm SmV SmM3 SmM4)
set_option linter.unusedSectionVars false

variable {E : Type*} [NormedAddCommGroup E] [NormedSpace ℝ E] {k : WithTop ℕ∞} {x0 : E}

/-! ### Specification -/

/-- Colours, depths and intrinsics of a batch of sequences that depend `k` times continuously differentiably on a parameter.  At `x0` no pixel is on the edge of
having depth (it has depth, or it has none near `x0`), focal lengths are not degenerate, and at every pixel with depth the two tangents of the surface
are independent (or dependent near `x0`, as between missing neighbours). -/
structure SmIn (k : WithTop ℕ∞) (x0 : E) (eps : ℝ) (i : E → Rgbd.In ℝ) : Prop where
  dims : ∀ e, (i e).B = (i x0).B ∧ (i e).L = (i x0).L ∧ (i e).H = (i x0).H ∧ (i e).W = (i x0).W
  rgb : ∀ b < (i x0).B, ∀ l < (i x0).L, ∀ h < (i x0).H, ∀ w < (i x0).W, SmV k x0 fun e => (i e).rgb b l h w
  depth : ∀ b < (i x0).B, ∀ l < (i x0).L, ∀ h < (i x0).H, ∀ w < (i x0).W, Sm k x0 fun e => (i e).depth b l h w
  pix : ∀ b < (i x0).B, ∀ l < (i x0).L, ∀ h < (i x0).H, ∀ w < (i x0).W, SmV k x0 fun e => (i e).pix b l h w
  K : ∀ b < (i x0).B, SmM4 k x0 fun e => (i e).K b
  seen : ∀ b < (i x0).B, ∀ l < (i x0).L, ∀ h < (i x0).H, ∀ w < (i x0).W, 0 < (i x0).depth b l h w ∨ ∀ᶠ e in 𝓝 x0, ¬ 0 < (i e).depth b l h w
  focal : ∀ b < (i x0).B, ((i x0).K b).R.r0.x + eps ≠ 0 ∧ ((i x0).K b).R.r1.y + eps ≠ 0
  surface : ∀ b < (i x0).B, ∀ l < (i x0).L, ∀ h < (i x0).H, ∀ w < (i x0).W, 0 < (i x0).depth b l h w →
    (Rgbd.tanW eps (i x0) b l h w).cross (Rgbd.tanH eps (i x0) b l h w) ≠ V3.zero ∨
    ∀ᶠ e in 𝓝 x0, (Rgbd.tanW eps (i e) b l h w).cross (Rgbd.tanH eps (i e) b l h w) = V3.zero

/-- A function of a point is `k` times continuously differentiable at `p`. -/
def SmAt (k : WithTop ℕ∞) (al : V3 ℝ → ℝ) (p : V3 ℝ) : Prop := ContDiffAt ℝ k (fun q : ℝ × ℝ × ℝ => al ⟨q.1, q.2.1, q.2.2⟩) (p.x, p.y, p.z)

/-! ### Combinators -/

/-- A decision that does not change near `x0`. -/
def Stable (x0 : E) (p : E → Prop) : Prop := (∀ᶠ e in 𝓝 x0, p e) ∨ ∀ᶠ e in 𝓝 x0, ¬ p e

theorem Stable.iff {p : E → Prop} (h : Stable x0 p) : ∀ᶠ e in 𝓝 x0, (p e ↔ p x0) := by
  rcases h with h | h
  · exact h.mono fun e he => iff_of_true he h.self_of_nhds
  · exact h.mono fun e he => iff_of_false he h.self_of_nhds

theorem Stable.and {p q : E → Prop} (hp : Stable x0 p) (hq : p x0 → Stable x0 q) : Stable x0 fun e => p e ∧ q e := by
  rcases hp with hp | hp
  · rcases hq hp.self_of_nhds with hq | hq
    · exact .inl (hp.and hq)
    · exact .inr (hq.mono fun e h h' => h h'.2)
  · exact .inr (hp.mono fun e h h' => h h'.1)

theorem Stable.congr {p q : E → Prop} (hp : Stable x0 p) (h : ∀ᶠ e in 𝓝 x0, (q e ↔ p e)) : Stable x0 q := by
  rcases hp with hp | hp
  · exact .inl ((hp.and h).mono fun e ⟨a, b⟩ => b.2 a)
  · exact .inr ((hp.and h).mono fun e ⟨a, b⟩ c => a (b.1 c))

theorem stable_lt {f g : E → ℝ} (hf : ContinuousAt f x0) (hg : ContinuousAt g x0) (h : f x0 ≠ g x0) : Stable x0 fun e => f e < g e := by
  rcases lt_or_gt_of_ne h with h | h
  · exact .inl (hf.eventually_lt hg h)
  · exact .inr ((hg.eventually_lt hf h).mono fun e he => he.not_gt)

theorem stable_const (p : Prop) : Stable x0 fun _ => p := by
  by_cases h : p
  · exact .inl (Eventually.of_forall fun _ => h)
  · exact .inr (Eventually.of_forall fun _ => h)

theorem SmV.cross {a b : E → V3 ℝ} (ha : SmV k x0 a) (hb : SmV k x0 b) : SmV k x0 fun e => (a e).cross (b e) :=
  ⟨(ha.y.fun_mul hb.z).fun_sub (ha.z.fun_mul hb.y), (ha.z.fun_mul hb.x).fun_sub (ha.x.fun_mul hb.z), (ha.x.fun_mul hb.y).fun_sub (ha.y.fun_mul hb.x)⟩

theorem smAt_comp {al : V3 ℝ → ℝ} {v : E → V3 ℝ} (hv : SmV k x0 v) (h : SmAt k al (v x0)) : Sm k x0 fun e => al (v e) := by
  have hc : ContDiffAt ℝ k (fun e => ((v e).x, (v e).y, (v e).z)) x0 := ContDiffAt.prodMk hv.x (ContDiffAt.prodMk hv.y hv.z)
  exact ContDiffAt.comp (f := fun e => ((v e).x, (v e).y, (v e).z)) (g := fun q : ℝ × ℝ × ℝ => al ⟨q.1, q.2.1, q.2.2⟩) x0 h hc

/-- The weight of a measurement is smooth unless the Gaussian is exactly at the lower bound of the clamp. -/
theorem getAlpha_smAt {sigma eps : ℝ} (he : 0 < eps) (he1 : eps ≤ 1) {p : V3 ℝ} (h : Real.exp (-p.normSq / (2 * sigma ^ 2)) ≠ eps) :
    SmAt k (Fusion.getAlpha sigma eps) p := by
  have hg : ContDiffAt ℝ k (fun q : ℝ × ℝ × ℝ => Real.exp (-(⟨q.1, q.2.1, q.2.2⟩ : V3 ℝ).normSq / (2 * sigma ^ 2))) (p.x, p.y, p.z) := by
    have hx : SmV k (p.x, p.y, p.z) fun q : ℝ × ℝ × ℝ => (⟨q.1, q.2.1, q.2.2⟩ : V3 ℝ) :=
      ⟨contDiffAt_fst, contDiffAt_fst.comp _ contDiffAt_snd, contDiffAt_snd.comp _ contDiffAt_snd⟩
    exact ContDiffAt.exp (ContDiffAt.div_const (hx.normSq.fun_neg) _)
  rcases lt_or_gt_of_ne h with hlt | hgt
  · refine (contDiffAt_const (c := eps)).congr_of_eventuallyEq ((hg.continuousAt.eventually_lt continuousAt_const hlt).mono fun q hq => ?_)
    exact (Fusion.alpha_range he he1 _).2.2.2.2 hq.le
  · refine hg.congr_of_eventuallyEq ((continuousAt_const.eventually_lt hg.continuousAt hgt).mono fun q hq => ?_)
    exact (Fusion.alpha_range he he1 _).2.2.2.1 hq.le

/-! ### Vertices and normals -/

section
variable {eps : ℝ} {i : E → Rgbd.In ℝ}

theorem seen_stable (hi : SmIn k x0 eps i) {b l h w : Nat} (hb : b < (i x0).B) (hl : l < (i x0).L) (hh : h < (i x0).H) (hw : w < (i x0).W) :
    Stable x0 fun e => 0 < (i e).depth b l h w := by
  rcases hi.seen b hb l hl h hh w hw with hs | hs
  · exact .inl (continuousAt_const.eventually_lt (hi.depth b hb l hl h hh w hw).continuousAt hs)
  · exact .inr hs

theorem backproj_smooth (hi : SmIn k x0 eps i) {b l h w : Nat} (hb : b < (i x0).B) (hl : l < (i x0).L) (hh : h < (i x0).H) (hw : w < (i x0).W) :
    SmV k x0 fun e => Rgbd.backproj eps ((i e).K b) ((i e).pix b l h w) ((i e).depth b l h w) := by
  have hd := hi.depth b hb l hl h hh w hw
  have hp := hi.pix b hb l hl h hh w hw
  have hK := hi.K b hb
  obtain ⟨f1, f2⟩ := hi.focal b hb
  exact ⟨hd.fun_mul ((hp.x.fun_sub (hK.R.r0.z.fun_mul hp.z)).fun_div (hK.R.r0.x.fun_add (.const eps)) f1),
    hd.fun_mul ((hp.y.fun_sub (hK.R.r1.z.fun_mul hp.z)).fun_div (hK.R.r1.y.fun_add (.const eps)) f2), hd.fun_mul hp.z⟩

theorem vertex_smooth (hi : SmIn k x0 eps i) {b l h w : Nat} (hb : b < (i x0).B) (hl : l < (i x0).L) (hh : h < (i x0).H) (hw : w < (i x0).W) :
    SmV k x0 fun e => Rgbd.vertexAt eps (i e) b l h w := by
  rcases seen_stable hi hb hl hh hw with hs | hs
  · exact (backproj_smooth hi hb hl hh hw).congr (hs.mono fun e he => by simp only [Rgbd.vertexAt, if_pos he])
  · exact (SmV.const V3.zero).congr (hs.mono fun e he => by simp only [Rgbd.vertexAt, if_neg he])

theorem fwd_lt {n k : Nat} (hn : 2 ≤ n) (hk : k < n) : Rgbd.fwd n k < n ∧ Rgbd.fwd n k + 1 < n := by
  unfold Rgbd.fwd; split_ifs <;> omega

theorem nrmR_zero {v : V3 ℝ} : Rgbd.nrmR v = 0 ↔ v = V3.zero := by
  rw [Rgbd.nrmR, Real.sqrt_eq_zero (by simp only [V3.dot]; nlinarith [mul_self_nonneg v.x, mul_self_nonneg v.y, mul_self_nonneg v.z])]
  constructor
  · intro h
    simp only [V3.dot] at h
    have hx : v.x = 0 := by nlinarith [mul_self_nonneg v.x, mul_self_nonneg v.y, mul_self_nonneg v.z]
    have hy : v.y = 0 := by nlinarith [mul_self_nonneg v.x, mul_self_nonneg v.y, mul_self_nonneg v.z]
    have hz : v.z = 0 := by nlinarith [mul_self_nonneg v.x, mul_self_nonneg v.y, mul_self_nonneg v.z]
    exact V3.ext hx hy hz
  · rintro rfl; simp [V3.dot, V3.zero]

theorem nrmR_smooth {v : E → V3 ℝ} (hv : SmV k x0 v) (h : v x0 ≠ V3.zero) : Sm k x0 fun e => Rgbd.nrmR (v e) := by
  refine ContDiffAt.sqrt (hv.dot hv) fun h0 => h ?_
  rw [← nrmR_zero, Rgbd.nrmR, h0, Real.sqrt_zero]

theorem nrmR_cont {v : E → V3 ℝ} (hv : SmV k x0 v) : ContinuousAt (fun e => Rgbd.nrmR (v e)) x0 :=
  Real.continuous_sqrt.continuousAt.comp (hv.dot hv).continuousAt

theorem unit_smooth {v : E → V3 ℝ} (hv : SmV k x0 v) (h : v x0 ≠ V3.zero ∨ ∀ᶠ e in 𝓝 x0, v e = V3.zero) : SmV k x0 fun e => Rgbd.unit Rgbd.nrmR (v e) := by
  rcases h with h | h
  · have hn := nrmR_smooth hv h
    have h0 : Rgbd.nrmR (v x0) ≠ 0 := fun h' => h (nrmR_zero.1 h')
    have hev : ∀ᶠ e in 𝓝 x0, Rgbd.nrmR (v e) ≠ 0 := hn.continuousAt.eventually_ne h0
    refine Icp.SmV.congr (f := fun e => ⟨(v e).x / Rgbd.nrmR (v e), (v e).y / Rgbd.nrmR (v e), (v e).z / Rgbd.nrmR (v e)⟩)
      ⟨hv.x.fun_div hn h0, hv.y.fun_div hn h0, hv.z.fun_div hn h0⟩ (hev.mono fun e he => ?_)
    simp only [Rgbd.unit, if_neg he]
  · refine (SmV.const V3.zero).congr (h.mono fun e he => ?_)
    simp only [Rgbd.unit, he, if_pos (nrmR_zero.2 rfl)]

theorem normal_smooth (hi : SmIn k x0 eps i) (hH : 2 ≤ (i x0).H) (hW : 2 ≤ (i x0).W) {b l h w : Nat} (hb : b < (i x0).B) (hl : l < (i x0).L)
    (hh : h < (i x0).H) (hw : w < (i x0).W) : SmV k x0 fun e => Rgbd.normalAt Rgbd.nrmR eps (i e) b l h w := by
  have hv : ∀ {h w}, h < (i x0).H → w < (i x0).W → SmV k x0 fun e => Rgbd.vertexAt eps (i e) b l h w := fun hh hw => vertex_smooth hi hb hl hh hw
  rcases seen_stable hi hb hl hh hw with hs | hs
  · have ht1 : SmV k x0 fun e => Rgbd.tanW eps (i e) b l h w := by
      have := (hv hh (fwd_lt hW hw).2).sub (hv hh (fwd_lt hW hw).1)
      refine this.congr (Eventually.of_forall fun e => ?_)
      simp only [Rgbd.tanW, (hi.dims e).2.2.2]
    have ht2 : SmV k x0 fun e => Rgbd.tanH eps (i e) b l h w := by
      have := (hv (fwd_lt hH hh).2 hw).sub (hv (fwd_lt hH hh).1 hw)
      refine this.congr (Eventually.of_forall fun e => ?_)
      simp only [Rgbd.tanH, (hi.dims e).2.2.1]
    refine (unit_smooth (SmV.cross ht1 ht2) (hi.surface b hb l hl h hh w hw hs.self_of_nhds)).congr (hs.mono fun e he => ?_)
    simp only [Rgbd.normalAt, if_pos he]
  · exact (SmV.const V3.zero).congr (hs.mono fun e he => by simp only [Rgbd.normalAt, if_neg he])

/-! ### Frames at poses -/

/-- Poses of one time step that depend smoothly on the parameter. -/
def SmPose (k : WithTop ℕ∞) (x0 : E) (B : Nat) (T : E → Rgbd.TM ℝ) : Prop := ∀ b < B, SmM4 k x0 fun e => (T e).at' b 0

theorem gvertex_smooth (hi : SmIn k x0 eps i) {T : E → Rgbd.TM ℝ} (hT : SmPose k x0 (i x0).B T) {b h w : Nat} (hb : b < (i x0).B) (hl : 0 < (i x0).L)
    (hh : h < (i x0).H) (hw : w < (i x0).W) : SmV k x0 fun e => Rgbd.gvertexAt eps (posed (i e) (T e)) b 0 h w := by
  have hv := vertex_smooth hi hb hl hh hw
  have eq : ∀ e, Rgbd.gvertexAt eps (posed (i e) (T e)) b 0 h w =
      if 0 < (i e).depth b 0 h w then (((T e).at' b 0).R.mulVec (Rgbd.vertexAt eps (i e) b 0 h w)).add ((T e).at' b 0).t else V3.zero := fun e => rfl
  rcases seen_stable hi hb hl hh hw with hs | hs
  · refine (((hT b hb).R.mulVec hv).add (hT b hb).t).congr (hs.mono fun e he => ?_)
    exact (eq e).trans (if_pos he)
  · refine (SmV.const V3.zero).congr (hs.mono fun e he => ?_)
    exact (eq e).trans (if_neg he)

theorem gnormal_smooth (hi : SmIn k x0 eps i) (hH : 2 ≤ (i x0).H) (hW : 2 ≤ (i x0).W) {T : E → Rgbd.TM ℝ} (hT : SmPose k x0 (i x0).B T) {b h w : Nat}
    (hb : b < (i x0).B) (hl : 0 < (i x0).L) (hh : h < (i x0).H) (hw : w < (i x0).W) :
    SmV k x0 fun e => Rgbd.gnormalAt Rgbd.nrmR eps (posed (i e) (T e)) b 0 h w :=
  (hT b hb).R.mulVec (normal_smooth hi hH hW hb hl hh hw)

/-- One frame of a smooth batch of sequences. -/
theorem snap_smooth (hi : SmIn k x0 eps i) {t : Nat} (ht : t < (i x0).L) : SmIn k x0 eps fun e => snap (i e) t := by
  have hB : ∀ e, (snap (i e) t).B = (i x0).B := fun e => ((snap_spec (i e) t).1).trans (hi.dims e).1
  have hS : ∀ e, ∀ b < (i x0).B, (snap (i e) t).rgb b 0 = (i e).rgb b t ∧ (snap (i e) t).depth b 0 = (i e).depth b t ∧ (snap (i e) t).K b = (i e).K b ∧
      (snap (i e) t).pix b 0 = (i e).pix b t := by
    intro e b hb
    obtain ⟨h1, h2, h3, h4, _⟩ := (snap_spec (i e) t).2.2.2.2 b (by rw [(hi.dims e).1]; exact hb)
    exact ⟨h1, h2, h3, h4⟩
  have hv : ∀ e, ∀ b < (i x0).B, ∀ h w, Rgbd.vertexAt eps (snap (i e) t) b 0 h w = Rgbd.vertexAt eps (i e) b t h w := by
    intro e b hb h w
    obtain ⟨h1, h2, h3, h4⟩ := hS e b hb
    simp only [Rgbd.vertexAt, h2, h3, h4]
  have l0 : ∀ {l}, l < (snap (i x0) t).L → l = 0 := fun {l} hl => by have : (snap (i x0) t).L = 1 := rfl; omega
  constructor
  · intro e; exact ⟨by rw [hB, hB], rfl, (hi.dims e).2.2.1, (hi.dims e).2.2.2⟩
  all_goals intro b hb; rw [hB x0] at hb
  · intro l hl h hh w hw; cases l0 hl; simp only [(hS _ b hb).1]; exact hi.rgb b hb t ht h hh w hw
  · intro l hl h hh w hw; cases l0 hl; simp only [(hS _ b hb).2.1]; exact hi.depth b hb t ht h hh w hw
  · intro l hl h hh w hw; cases l0 hl; simp only [(hS _ b hb).2.2.2]; exact hi.pix b hb t ht h hh w hw
  · simp only [(hS _ b hb).2.2.1]; exact hi.K b hb
  · intro l hl h hh w hw; cases l0 hl; simp only [(hS _ b hb).2.1]; exact hi.seen b hb t ht h hh w hw
  · simp only [(hS _ b hb).2.2.1]; exact hi.focal b hb
  · intro l hl h hh w hw; cases l0 hl
    have e1 : ∀ e, Rgbd.tanW eps (snap (i e) t) b 0 h w = Rgbd.tanW eps (i e) b t h w := fun e => by
      simp only [Rgbd.tanW, hv e b hb]; rfl
    have e2 : ∀ e, Rgbd.tanH eps (snap (i e) t) b 0 h w = Rgbd.tanH eps (i e) b t h w := fun e => by
      simp only [Rgbd.tanH, hv e b hb]; rfl
    simp only [(hS _ b hb).2.1, e1, e2]; exact hi.surface b hb t ht h hh w hw

end
end Verif.Slam
