import Verif.Icp.Loop
import Mathlib.Analysis.SpecialFunctions.Pow.Deriv
import Mathlib.Analysis.SpecialFunctions.Sqrt
import Mathlib.Analysis.SpecialFunctions.ExpDeriv
import Mathlib.Analysis.SpecialFunctions.Trigonometric.Deriv
/-!
C77: gradICP is differentiable.  This file: smoothness of the ingredients (association, linear system, exponential map).

`Sm k x0 f` says that the real-valued function `f` of a parameter in any normed space is `k` times continuously differentiable at `x0`; vectors, matrices
and clouds are smooth if their entries are.
-/
namespace Verif.Icp
open Verif Pcs Topology Filter
set_option linter.unusedSectionVars false

variable {E : Type*} [NormedAddCommGroup E] [NormedSpace ℝ E]

/-! ### Specification -/

/-- `k` times continuously differentiable at `x0`. -/
abbrev Sm (k : WithTop ℕ∞) (x0 : E) (f : E → ℝ) : Prop := ContDiffAt ℝ k f x0

/-- The same for the entries of a vector, a 3×3 and a 4×4 matrix. -/
structure SmV (k : WithTop ℕ∞) (x0 : E) (f : E → V3 ℝ) : Prop where
  x : Sm k x0 fun e => (f e).x
  y : Sm k x0 fun e => (f e).y
  z : Sm k x0 fun e => (f e).z

structure SmM3 (k : WithTop ℕ∞) (x0 : E) (f : E → M3 ℝ) : Prop where
  r0 : SmV k x0 fun e => (f e).r0
  r1 : SmV k x0 fun e => (f e).r1
  r2 : SmV k x0 fun e => (f e).r2

structure SmM4 (k : WithTop ℕ∞) (x0 : E) (f : E → M4 ℝ) : Prop where
  R : SmM3 k x0 fun e => (f e).R
  t : SmV k x0 fun e => (f e).t
  b : SmV k x0 fun e => (f e).b
  s : Sm k x0 fun e => (f e).s

/-- A cloud of `N` points that depend smoothly on the parameter. -/
structure SmL (k : WithTop ℕ∞) (x0 : E) (N : Nat) (f : E → List (V3 ℝ)) : Prop where
  len : ∀ e, (f e).length = N
  get : ∀ i < N, SmV k x0 fun e => (f e).getD i V3.zero

/-- The association of a point is settled: it is farther from all targets than the threshold, or it has one nearest target, nearer than the
threshold. -/
def Settled (th : Option ℝ) (tgt : List (V3 ℝ)) (s : V3 ℝ) : Prop :=
  (∃ t, th = some t ∧ ∀ d ∈ tgt, t < (s.sub d).normSq) ∨
  ((∃ j, j < tgt.length ∧ ∀ j', j' < tgt.length → j' ≠ j → (s.sub (tgt.getD j V3.zero)).normSq < (s.sub (tgt.getD j' V3.zero)).normSq) ∧
    Close th tgt s)

/-! ### Arithmetic -/
section
variable {k : WithTop ℕ∞} {x0 : E}

theorem Sm.const (c : ℝ) : Sm k x0 fun _ => c := contDiffAt_const

theorem Sm.fun_add {f g : E → ℝ} (hf : Sm k x0 f) (hg : Sm k x0 g) : Sm k x0 fun e => f e + g e := ContDiffAt.add hf hg
theorem Sm.fun_sub {f g : E → ℝ} (hf : Sm k x0 f) (hg : Sm k x0 g) : Sm k x0 fun e => f e - g e := ContDiffAt.sub hf hg
theorem Sm.fun_mul {f g : E → ℝ} (hf : Sm k x0 f) (hg : Sm k x0 g) : Sm k x0 fun e => f e * g e := ContDiffAt.mul hf hg
theorem Sm.fun_neg {f : E → ℝ} (hf : Sm k x0 f) : Sm k x0 fun e => -f e := ContDiffAt.neg hf
theorem Sm.fun_div {f g : E → ℝ} (hf : Sm k x0 f) (hg : Sm k x0 g) (h0 : g x0 ≠ 0) : Sm k x0 fun e => f e / g e := ContDiffAt.div hf hg h0
theorem Sm.continuousAt {f : E → ℝ} (hf : Sm k x0 f) : ContinuousAt f x0 := ContDiffAt.continuousAt hf

theorem SmV.const (v : V3 ℝ) : SmV k x0 fun _ => v := ⟨.const _, .const _, .const _⟩

theorem SmV.add {a b : E → V3 ℝ} (ha : SmV k x0 a) (hb : SmV k x0 b) : SmV k x0 fun e => (a e).add (b e) :=
  ⟨ha.x.fun_add hb.x, ha.y.fun_add hb.y, ha.z.fun_add hb.z⟩

theorem SmV.sub {a b : E → V3 ℝ} (ha : SmV k x0 a) (hb : SmV k x0 b) : SmV k x0 fun e => (a e).sub (b e) :=
  ⟨ha.x.fun_sub hb.x, ha.y.fun_sub hb.y, ha.z.fun_sub hb.z⟩

theorem SmV.smul {c : E → ℝ} {a : E → V3 ℝ} (hc : Sm k x0 c) (ha : SmV k x0 a) : SmV k x0 fun e => (a e).smul (c e) :=
  ⟨hc.fun_mul ha.x, hc.fun_mul ha.y, hc.fun_mul ha.z⟩

theorem SmV.dot {a b : E → V3 ℝ} (ha : SmV k x0 a) (hb : SmV k x0 b) : Sm k x0 fun e => (a e).dot (b e) :=
  ((ha.x.fun_mul hb.x).fun_add (ha.y.fun_mul hb.y)).fun_add (ha.z.fun_mul hb.z)

theorem SmV.normSq {a : E → V3 ℝ} (ha : SmV k x0 a) : Sm k x0 fun e => (a e).normSq := ha.dot ha

theorem SmM3.c0 {A : E → M3 ℝ} (h : SmM3 k x0 A) : SmV k x0 fun e => (A e).c0 := ⟨h.r0.x, h.r1.x, h.r2.x⟩
theorem SmM3.c1 {A : E → M3 ℝ} (h : SmM3 k x0 A) : SmV k x0 fun e => (A e).c1 := ⟨h.r0.y, h.r1.y, h.r2.y⟩
theorem SmM3.c2 {A : E → M3 ℝ} (h : SmM3 k x0 A) : SmV k x0 fun e => (A e).c2 := ⟨h.r0.z, h.r1.z, h.r2.z⟩
theorem SmM3.transpose {A : E → M3 ℝ} (h : SmM3 k x0 A) : SmM3 k x0 fun e => (A e).transpose := ⟨h.c0, h.c1, h.c2⟩
theorem SmM3.const (A : M3 ℝ) : SmM3 k x0 fun _ => A := ⟨.const _, .const _, .const _⟩
theorem SmM3.add {A B : E → M3 ℝ} (ha : SmM3 k x0 A) (hb : SmM3 k x0 B) : SmM3 k x0 fun e => (A e).add (B e) :=
  ⟨ha.r0.add hb.r0, ha.r1.add hb.r1, ha.r2.add hb.r2⟩
theorem SmM3.smul {c : E → ℝ} {A : E → M3 ℝ} (hc : Sm k x0 c) (ha : SmM3 k x0 A) : SmM3 k x0 fun e => (A e).smul (c e) :=
  ⟨.smul hc ha.r0, .smul hc ha.r1, .smul hc ha.r2⟩
theorem SmM3.mulVec {A : E → M3 ℝ} {v : E → V3 ℝ} (ha : SmM3 k x0 A) (hv : SmV k x0 v) : SmV k x0 fun e => (A e).mulVec (v e) :=
  ⟨ha.r0.dot hv, ha.r1.dot hv, ha.r2.dot hv⟩
theorem SmM3.mul {A B : E → M3 ℝ} (ha : SmM3 k x0 A) (hb : SmM3 k x0 B) : SmM3 k x0 fun e => (A e).mul (B e) :=
  ⟨⟨ha.r0.dot hb.c0, ha.r0.dot hb.c1, ha.r0.dot hb.c2⟩, ⟨ha.r1.dot hb.c0, ha.r1.dot hb.c1, ha.r1.dot hb.c2⟩,
    ⟨ha.r2.dot hb.c0, ha.r2.dot hb.c1, ha.r2.dot hb.c2⟩⟩
theorem SmM3.outer {a b : E → V3 ℝ} (ha : SmV k x0 a) (hb : SmV k x0 b) : SmM3 k x0 fun e => M3.outer (a e) (b e) :=
  ⟨.smul ha.x hb, .smul ha.y hb, .smul ha.z hb⟩

theorem SmM4.const (A : M4 ℝ) : SmM4 k x0 fun _ => A := ⟨.const _, .const _, .const _, .const _⟩
theorem SmM4.mul {A B : E → M4 ℝ} (ha : SmM4 k x0 A) (hb : SmM4 k x0 B) : SmM4 k x0 fun e => (A e).mul (B e) :=
  ⟨(ha.R.mul hb.R).add (.outer ha.t hb.b), (ha.R.mulVec hb.t).add (.smul hb.s ha.t),
    (hb.R.transpose.mulVec ha.b).add (.smul ha.s hb.b), (ha.b.dot hb.t).fun_add (ha.s.fun_mul hb.s)⟩

theorem transform_getD (T : M4 ℝ) (l : List (V3 ℝ)) {i : Nat} (h : i < l.length) :
    (Geom.transformPointcloud T l).getD i V3.zero = (T.R.mulVec (l.getD i V3.zero)).add T.t := by
  simp [Geom.transformPointcloud, List.getD_eq_getElem?_getD, h]

theorem SmL.transform {N : Nat} {T : E → M4 ℝ} {f : E → List (V3 ℝ)} (hT : SmM4 k x0 T) (hf : SmL k x0 N f) :
    SmL k x0 N fun e => Geom.transformPointcloud (T e) (f e) := by
  refine ⟨fun e => by simp [Geom.transformPointcloud, hf.len e], fun i hi => ?_⟩
  have : (fun e => (Geom.transformPointcloud (T e) (f e)).getD i V3.zero) = fun e => ((T e).R.mulVec ((f e).getD i V3.zero)).add (T e).t := by
    funext e
    exact transform_getD _ _ (by rw [hf.len]; exact hi)
  rw [this]
  exact (hT.R.mulVec (hf.get i hi)).add hT.t

/-! ### The exponential map -/

theorem SmM3.so3Hat {w : E → V3 ℝ} (h : SmV k x0 w) : SmM3 k x0 fun e => Geom.so3Hat (w e) :=
  ⟨⟨.const 0, h.z.fun_neg, h.y⟩, ⟨h.z, .const 0, h.x.fun_neg⟩, ⟨h.y.fun_neg, h.x, .const 0⟩⟩

theorem Sm.congr {f g : E → ℝ} (hf : Sm k x0 f) (h : g =ᶠ[𝓝 x0] f) : Sm k x0 g := ContDiffAt.congr_of_eventuallyEq hf h

theorem SmV.congr {f g : E → V3 ℝ} (hf : SmV k x0 f) (h : g =ᶠ[𝓝 x0] f) : SmV k x0 g :=
  ⟨hf.x.congr (h.mono fun e he => by simp only [he]), hf.y.congr (h.mono fun e he => by simp only [he]),
    hf.z.congr (h.mono fun e he => by simp only [he])⟩

theorem SmM3.congr {f g : E → M3 ℝ} (hf : SmM3 k x0 f) (h : g =ᶠ[𝓝 x0] f) : SmM3 k x0 g :=
  ⟨hf.r0.congr (h.mono fun e he => by simp only [he]), hf.r1.congr (h.mono fun e he => by simp only [he]),
    hf.r2.congr (h.mono fun e he => by simp only [he])⟩

theorem vnorm_cont {w : E → V3 ℝ} (h : SmV k x0 w) : ContinuousAt (fun e => Geom.vnorm (w e)) x0 := by
  have := (h.dot h).continuousAt
  exact Real.continuous_sqrt.continuousAt.comp this

theorem vnorm_smooth {w : E → V3 ℝ} (h : SmV k x0 w) (h0 : 0 < Geom.vnorm (w x0)) : Sm k x0 fun e => Geom.vnorm (w e) :=
  ContDiffAt.sqrt (h.dot h) (Real.sqrt_pos.1 h0).ne'

/-- Both matrices of the exponential map are smooth away from the small-angle cut-off. -/
theorem exp_smooth {eps : ℝ} (heps : 0 < eps) {w : E → V3 ℝ} (h : SmV k x0 w) (hne : Geom.vnorm (w x0) ≠ eps) :
    SmM3 k x0 (fun e => Geom.so3Exp eps (w e)) ∧ SmM3 k x0 (fun e => Geom.se3V eps (w e)) := by
  have hW := SmM3.so3Hat h
  rcases lt_or_gt_of_ne hne with hlt | hgt
  · have hev : ∀ᶠ e in 𝓝 x0, Geom.vnorm (w e) < eps := (vnorm_cont h).eventually_lt continuousAt_const hlt
    have hs := (SmM3.const M3.one).add hW
    exact ⟨hs.congr (hev.mono fun e he => by simp only [Geom.so3Exp, if_pos he]), hs.congr (hev.mono fun e he => by simp only [Geom.se3V, if_pos he])⟩
  · have hev : ∀ᶠ e in 𝓝 x0, eps < Geom.vnorm (w e) := continuousAt_const.eventually_lt (vnorm_cont h) hgt
    have h0 : 0 < Geom.vnorm (w x0) := heps.trans hgt
    have hθ := vnorm_smooth h h0
    have hsin : Sm k x0 fun e => Real.sin (Geom.vnorm (w e)) := ContDiffAt.sin hθ
    have hcos : Sm k x0 fun e => Real.cos (Geom.vnorm (w e)) := ContDiffAt.cos hθ
    have hp : ∀ n : Nat, Sm k x0 fun e => Geom.vnorm (w e) ^ n := fun n => ContDiffAt.pow hθ n
    have hA := hsin.fun_div hθ h0.ne'
    have hB := ((Sm.const 1).fun_sub hcos).fun_div (hp 2) (pow_pos h0 2).ne'
    have hC := (hθ.fun_sub hsin).fun_div (hp 3) (pow_pos h0 3).ne'
    refine ⟨(((SmM3.const M3.one).add (.smul hA hW)).add (.smul hB (hW.mul hW))).congr (hev.mono fun e he => ?_),
      (((SmM3.const M3.one).add (.smul hB hW)).add (.smul hC (hW.mul hW))).congr (hev.mono fun e he => ?_)⟩
    · simp only [Geom.so3Exp, if_neg he.not_gt]
    · simp only [Geom.se3V, if_neg he.not_gt]

theorem se3_smooth {eps : ℝ} (heps : 0 < eps) {v w : E → V3 ℝ} (hv : SmV k x0 v) (h : SmV k x0 w) (hne : Geom.vnorm (w x0) ≠ eps) :
    SmM4 k x0 fun e => Geom.se3Exp eps (v e) (w e) :=
  ⟨(exp_smooth heps h hne).1, (exp_smooth heps h hne).2.mulVec hv, .const _, .const 1⟩

/-! ### Association -/

variable {nn : List (V3 ℝ) → V3 ℝ → Nat} {th : Option ℝ}

/-- Near `x0` a settled association does not change. -/
theorem settled_near (hn : NearestIn nn) {M : Nat} (hM : 0 < M) {tgt : E → List (V3 ℝ)} (ht : SmL k x0 M tgt) {s : E → V3 ℝ} (hs : SmV k x0 s)
    (h : Settled th (tgt x0) (s x0)) :
    (∀ᶠ e in 𝓝 x0, ¬ Close th (tgt e) (s e)) ∨ ∃ j < M, ∀ᶠ e in 𝓝 x0, Close th (tgt e) (s e) ∧ nn (tgt e) (s e) = j := by
  have hd : ∀ j < M, ContinuousAt (fun e => ((s e).sub ((tgt e).getD j V3.zero)).normSq) x0 := fun j hj => (hs.sub (ht.get j hj)).normSq.continuousAt
  have hmem : ∀ e, ∀ d ∈ tgt e, ∃ j < M, d = (tgt e).getD j V3.zero := by
    intro e d hd
    obtain ⟨j, hj, rfl⟩ := List.getElem_of_mem hd
    refine ⟨j, by rw [← ht.len e]; exact hj, ?_⟩
    rw [List.getD_eq_getElem?_getD, List.getElem?_eq_getElem hj]; rfl
  have hget : ∀ e, ∀ j < M, (tgt e).getD j V3.zero ∈ tgt e := by
    intro e j hj
    have hj' : j < (tgt e).length := by rw [ht.len e]; exact hj
    rw [List.getD_eq_getElem?_getD, List.getElem?_eq_getElem hj']
    exact List.getElem_mem hj'
  have hne : ∀ e, tgt e ≠ [] := fun e => List.ne_nil_of_length_pos (by rw [ht.len e]; exact hM)
  rcases h with ⟨t, rfl, hfar⟩ | ⟨⟨j, hj, hmin⟩, hclose⟩
  · left
    have hev : ∀ᶠ e in 𝓝 x0, ∀ j ∈ Finset.range M, t < ((s e).sub ((tgt e).getD j V3.zero)).normSq := by
      rw [Filter.eventually_all_finset]
      intro j hj
      have hj := Finset.mem_range.1 hj
      exact continuousAt_const.eventually_lt (hd j hj) (hfar _ (hget x0 j hj))
    refine hev.mono fun e he hc => ?_
    obtain ⟨q, hq, hlt⟩ := hc t rfl
    obtain ⟨j, hj, rfl⟩ := hmem e q hq
    exact absurd hlt (he j (Finset.mem_range.2 hj)).not_gt
  · right
    rw [ht.len] at hj hmin
    have hev : ∀ᶠ e in 𝓝 x0, ∀ j' ∈ Finset.range M, j' ≠ j →
        ((s e).sub ((tgt e).getD j V3.zero)).normSq < ((s e).sub ((tgt e).getD j' V3.zero)).normSq := by
      rw [Filter.eventually_all_finset]
      intro j' hj'
      by_cases hjj : j' = j
      · exact Filter.Eventually.of_forall fun e h => absurd hjj h
      · exact ((hd j hj).eventually_lt (hd j' (Finset.mem_range.1 hj')) (hmin j' (Finset.mem_range.1 hj') hjj)).mono fun e h _ => h
    have hev2 : ∀ᶠ e in 𝓝 x0, Close th (tgt e) (s e) := by
      cases th with
      | none => exact Filter.Eventually.of_forall fun e t h => by cases h
      | some t =>
        obtain ⟨q, hq, hlt⟩ := hclose t rfl
        obtain ⟨i, hi, rfl⟩ := hmem x0 q hq
        refine ((hd i hi).eventually_lt continuousAt_const hlt).mono fun e he t' ht' => ?_
        cases ht'
        exact ⟨_, hget e i hi, he⟩
    refine ⟨j, hj, (hev.and hev2).mono fun e ⟨h1, h2⟩ => ⟨h2, ?_⟩⟩
    obtain ⟨d, hd', hle⟩ := hn (tgt e) (s e) (hne e)
    by_contra hjj
    have hlen : nn (tgt e) (s e) < M := by rw [← ht.len e]; exact (List.getElem?_eq_some_iff.1 hd').1
    have := h1 _ (Finset.mem_range.2 hlen) hjj
    rw [List.getD_eq_getElem?_getD (i := nn (tgt e) (s e)), hd'] at this
    exact absurd this (hle _ (hget e j hj)).not_gt

theorem taking_sum (tgt src : List (V3 ℝ)) (f : V3 ℝ → ℝ) {N : Nat} (hN : src.length = N) :
    ((taking th tgt src).map f).sum = ∑ i : Fin N, if Close th tgt (src.getD i V3.zero) then f (src.getD i V3.zero) else 0 := by
  rw [← sum_map_fin (fun s => if Close th tgt s then f s else 0) V3.zero N src hN]
  unfold taking
  induction src generalizing N with
  | nil => rfl
  | cons s l ih =>
    rw [List.filter_cons, List.map_cons, List.sum_cons, ← ih rfl]
    by_cases h : Close th tgt s
    · rw [if_pos (by simpa using h), if_pos h, List.map_cons, List.sum_cons]
    · rw [if_neg (by simpa using h), if_neg h, zero_add]

/-- Sums over the associated points are smooth. -/
theorem assoc_sum_smooth (hn : NearestIn nn) {M N : Nat} (hM : 0 < M) {tgt nrm src : E → List (V3 ℝ)} (ht : SmL k x0 M tgt) (hm : SmL k x0 M nrm)
    (hs : SmL k x0 N src) (hset : ∀ s ∈ src x0, Settled th (tgt x0) s) (φ : V3 ℝ → V3 ℝ → V3 ℝ → ℝ)
    (hφ : ∀ a b c : E → V3 ℝ, SmV k x0 a → SmV k x0 b → SmV k x0 c → Sm k x0 fun e => φ (a e) (b e) (c e)) :
    Sm k x0 fun e => ((taking th (tgt e) (src e)).map fun s =>
      φ s ((tgt e).getD (nn (tgt e) s) V3.zero) ((nrm e).getD (nn (tgt e) s) V3.zero)).sum := by
  have : (fun e => ((taking th (tgt e) (src e)).map fun s => φ s ((tgt e).getD (nn (tgt e) s) V3.zero) ((nrm e).getD (nn (tgt e) s) V3.zero)).sum) =
      fun e => ∑ i : Fin N, if Close th (tgt e) ((src e).getD i V3.zero) then
        φ ((src e).getD i V3.zero) ((tgt e).getD (nn (tgt e) ((src e).getD i V3.zero)) V3.zero)
          ((nrm e).getD (nn (tgt e) ((src e).getD i V3.zero)) V3.zero) else 0 := by
    funext e
    exact taking_sum _ _ _ (hs.len e)
  rw [this]
  refine ContDiffAt.sum fun i _ => ?_
  have hi : (src x0).getD i V3.zero ∈ src x0 := by
    have hj' : (i : Nat) < (src x0).length := by rw [hs.len x0]; exact i.2
    rw [List.getD_eq_getElem?_getD, List.getElem?_eq_getElem hj']
    exact List.getElem_mem hj'
  rcases settled_near hn hM ht (hs.get i i.2) (hset _ hi) with h | ⟨j, hj, h⟩
  · exact (Sm.const 0).congr (h.mono fun e he => if_neg he)
  · refine (hφ _ _ _ (hs.get i i.2) (ht.get j hj) (hm.get j hj)).congr (h.mono fun e ⟨h1, h2⟩ => ?_)
    simp only [if_pos h1, h2]

/-- The indices of the associated points are constant near `x0`. -/
theorem assoc_idx_const (hn : NearestIn nn) {M N : Nat} (hM : 0 < M) {tgt src : E → List (V3 ℝ)} (ht : SmL k x0 M tgt)
    (hs : SmL k x0 N src) (hset : ∀ s ∈ src x0, Settled th (tgt x0) s) :
    ∀ᶠ e in 𝓝 x0, (taking th (tgt e) (src e)).map (nn (tgt e)) = (taking th (tgt x0) (src x0)).map (nn (tgt x0)) := by
  have key : ∀ e, (taking th (tgt e) (src e)).map (nn (tgt e)) = (List.range N).filterMap fun i =>
      if Close th (tgt e) ((src e).getD i V3.zero) then some (nn (tgt e) ((src e).getD i V3.zero)) else none := by
    intro e
    have h1 : src e = (List.range N).map fun i => (src e).getD i V3.zero := by
      refine List.ext_getElem? fun i => ?_
      by_cases hi : i < N
      · have hj' : i < (src e).length := by rw [hs.len]; exact hi
        simp [List.getElem?_eq_getElem hj', hi]
      · simp [hi, hs.len e]
    conv_lhs => rw [h1]
    rw [taking, List.filter_map, List.map_map, ← List.filterMap_eq_map, List.filterMap_filter]
    refine List.filterMap_congr fun i _ => ?_
    simp only [Function.comp, decide_eq_true_eq]
  have hev : ∀ᶠ e in 𝓝 x0, ∀ i ∈ Finset.range N,
      (if Close th (tgt e) ((src e).getD i V3.zero) then some (nn (tgt e) ((src e).getD i V3.zero)) else none) =
      (if Close th (tgt x0) ((src x0).getD i V3.zero) then some (nn (tgt x0) ((src x0).getD i V3.zero)) else none) := by
    rw [Filter.eventually_all_finset]
    intro i hi
    have hi := Finset.mem_range.1 hi
    have hm : (src x0).getD i V3.zero ∈ src x0 := by
      have hj' : i < (src x0).length := by rw [hs.len x0]; exact hi
      rw [List.getD_eq_getElem?_getD, List.getElem?_eq_getElem hj']
      exact List.getElem_mem hj'
    rcases settled_near hn hM ht (hs.get i hi) (hset _ hm) with h | ⟨j, hj, h⟩
    · refine h.mono fun e he => ?_
      rw [if_neg he, if_neg h.self_of_nhds]
    · refine h.mono fun e he => ?_
      rw [if_pos he.1, if_pos h.self_of_nhds.1, he.2, h.self_of_nhds.2]
  refine hev.mono fun e he => ?_
  rw [key, key]
  exact List.filterMap_congr fun i hi => he i (Finset.mem_range.2 (List.mem_range.1 hi))

end
end Verif.Icp
