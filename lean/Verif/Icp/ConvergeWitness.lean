import Verif.Icp.ConvergeRun
import Verif.Icp.DownWitness
import Mathlib.Analysis.Complex.ExponentialBounds
/-!
C95, a concrete registration: six points, a quarter turn, other samples of the planes through them with
measurement errors, an initial guess that is off by a small turn and shift.
-/
namespace Verif.Icp.ConvergeWitness
open Verif Verif.Icp Geom

noncomputable section
/-- The source samples the six planes elsewhere, -/
def e : ℝ := 1 + 1 / 1000
/-- and with measurement errors. -/
def k : ℝ := 1 / 10 ^ 10
def places : List Place :=
  [⟨⟨0, 1, 0⟩, ⟨1, 0, 0⟩, ⟨k, e, 0⟩⟩, ⟨⟨0, -1, 0⟩, ⟨1, 0, 0⟩, ⟨k, -e, 1 / 1000⟩⟩, ⟨⟨0, 0, 1⟩, ⟨0, 1, 0⟩, ⟨0, -k, e⟩⟩, ⟨⟨0, 0, -1⟩, ⟨0, 1, 0⟩, ⟨0, -k, -1⟩⟩,
    ⟨⟨1, 0, 0⟩, ⟨0, 0, 1⟩, ⟨1, 0, k⟩⟩, ⟨⟨-1, 0, 0⟩, ⟨0, 0, 1⟩, ⟨-e, 1 / 1000, -k⟩⟩]
def tgt : List (V3 ℝ) := places.map Place.pos
def nrm : List (V3 ℝ) := places.map Place.nor
/-- The measured points, brought home. -/
def seen : List (V3 ℝ) := places.map Place.seen
/-- A quarter turn and a shift. -/
def Ts : M4 ℝ := ⟨⟨⟨0, -1, 0⟩, ⟨1, 0, 0⟩, ⟨0, 0, 1⟩⟩, ⟨1, 2, 3⟩, ⟨0, 0, 0⟩, 1⟩
def src : List (V3 ℝ) := transformPointcloud (inverseTransform1 Ts) seen
/-- Tangent of half the initial turn. -/
def h : ℝ := 1 / 2 ^ 17
def G0 : M4 ℝ := ⟨⟨⟨(1 - h ^ 2) / (1 + h ^ 2), -(2 * h / (1 + h ^ 2)), 0⟩, ⟨2 * h / (1 + h ^ 2), (1 - h ^ 2) / (1 + h ^ 2), 0⟩, ⟨0, 0, 1⟩⟩, ⟨2 * h, 0, 0⟩, ⟨0, 0, 0⟩, 1⟩
def T0 : M4 ℝ := G0.mul Ts

theorem vnorm_of_sq {v : V3 ℝ} {c : ℝ} (hc : 0 ≤ c) (e : v.normSq = c ^ 2) : vnorm v = c := by
  rw [normSq_eq] at e
  exact (pow_left_inj₀ (vnorm_nonneg _) hc two_ne_zero).1 e

theorem le_of_normSq {v : V3 ℝ} {c : ℝ} (hc : 0 ≤ c) (e : v.normSq ≤ c ^ 2) : vnorm v ≤ c := by
  rw [normSq_eq] at e
  exact (pow_le_pow_iff_left₀ (vnorm_nonneg _) hc two_ne_zero).1 e

theorem ge_of_normSq {v : V3 ℝ} {c : ℝ} (hc : 0 ≤ c) (e : c ^ 2 ≤ v.normSq) : c ≤ vnorm v := by
  rw [normSq_eq] at e
  exact (pow_le_pow_iff_left₀ hc (vnorm_nonneg _) two_ne_zero).1 e

theorem scene : Scene (some 1) tgt nrm places 1 (1 / 2) (1 / 4) (1 / 10 ^ 10) (1 / 1000) where
  len := by simp [tgt, nrm]
  nonempty := by simp [places]
  on := by
    intro x hx
    simp only [places, List.mem_cons, List.not_mem_nil, or_false] at hx
    rcases hx with rfl | rfl | rfl | rfl | rfl | rfl <;> simp [tgt, nrm, places]
  noise := by
    intro x hx
    simp only [places, List.mem_cons, List.not_mem_nil, or_false] at hx
    rcases hx with rfl | rfl | rfl | rfl | rfl | rfl <;> exact abs_le.2 (by norm_num [V3.normSq, V3.dot, V3.sub, e, k])
  slide := by
    intro x hx
    simp only [places, List.mem_cons, List.not_mem_nil, or_false] at hx
    rcases hx with rfl | rfl | rfl | rfl | rfl | rfl <;> exact le_of_normSq (by norm_num) (by norm_num [V3.normSq, V3.dot, V3.sub, e, k])
  eta0 := by norm_num
  eta := by norm_num
  sig := by norm_num
  unit := by
    intro n hn
    simp only [nrm, places, List.map_cons, List.map_nil, List.mem_cons, List.not_mem_nil, or_false] at hn
    rcases hn with rfl | rfl | rfl | rfl | rfl | rfl <;> exact le_of_normSq (by norm_num) (by norm_num [V3.normSq, V3.dot])
  bound := by
    intro n hn
    simp only [places, List.mem_cons, List.not_mem_nil, or_false] at hn
    rcases hn with rfl | rfl | rfl | rfl | rfl | rfl <;> exact le_of_normSq (by norm_num) (by norm_num [V3.normSq, V3.dot])
  apart := by
    intro i j a b hi hj hij
    refine ge_of_normSq (by norm_num) ?_
    have li : i < 6 := (List.getElem?_eq_some_iff.1 hi).1
    have lj : j < 6 := (List.getElem?_eq_some_iff.1 hj).1
    interval_cases i <;> interval_cases j <;> first
      | exact absurd rfl hij
      | (simp [tgt, places] at hi hj; subst hi; subst hj; norm_num [V3.normSq, V3.dot, V3.sub])
  thr := by rintro t ⟨rfl⟩; norm_num
  rho := by norm_num
  pos := by norm_num
  le1 := by norm_num
  cond := by
    intro v w
    simp [places, V3.dot, V3.add, V3.cross, V3.normSq]
    nlinarith [sq_nonneg v.x, sq_nonneg v.y, sq_nonneg v.z, sq_nonneg w.x, sq_nonneg w.y, sq_nonneg w.z]

theorem Ts_rigid : Ts.Rigid := by
  refine ⟨⟨rfl, rfl⟩, ?_, ?_⟩ <;> ext <;> simp [Ts, M3.mul, M3.transpose, M3.one, V3.dot, M3.c0, M3.c1, M3.c2]

theorem G0_rigid : G0.Rigid := by
  have h0 : (1 : ℝ) + h ^ 2 ≠ 0 := by positivity
  refine ⟨⟨rfl, rfl⟩, ?_, ?_⟩ <;> ext <;> simp [G0, M3.mul, M3.transpose, M3.one, V3.dot, M3.c0, M3.c1, M3.c2] <;> field_simp <;> ring

theorem src_placed : transformPointcloud Ts src = places.map Place.seen := by
  have := (inverse_transform_correct Ts Ts_rigid)
  rw [src, compose_cloud _ _ this.2.2.1, this.2.1]
  simp [transformPointcloud, M4.one, M3.one_mulVec, V3.add, V3.zero, seen]

theorem G0_moves (u : V3 ℝ) : vnorm ((act G0 u).sub u) ≤ 1 / 2 ^ 16 * (1 + vnorm u) := by
  have h0 : (0 : ℝ) < 1 + h ^ 2 := by positivity
  have e1 : (act G0 u).sub u = V3.add ⟨-(2 * h / (1 + h ^ 2)) * (h * u.x + u.y), 2 * h / (1 + h ^ 2) * (u.x - h * u.y), 0⟩ ⟨2 * h, 0, 0⟩ := by
    ext <;> simp [act, G0, V3.sub, V3.add, M3.mulVec, V3.dot] <;> field_simp <;> ring
  rw [e1]
  refine (vnorm_add_le _ _).trans ?_
  have hh : h = 1 / 2 ^ 17 := rfl
  have a1 : vnorm (⟨2 * h, 0, 0⟩ : V3 ℝ) ≤ 1 / 2 ^ 16 := le_of_normSq (by positivity) (by simp [V3.normSq, V3.dot, hh]; norm_num)
  have a2 : vnorm (⟨-(2 * h / (1 + h ^ 2)) * (h * u.x + u.y), 2 * h / (1 + h ^ 2) * (u.x - h * u.y), 0⟩ : V3 ℝ) ≤ 1 / 2 ^ 16 * vnorm u := by
    refine le_of_normSq (mul_nonneg (by positivity) (vnorm_nonneg _)) ?_
    rw [mul_pow, ← normSq_eq]
    have : V3.normSq (⟨-(2 * h / (1 + h ^ 2)) * (h * u.x + u.y), 2 * h / (1 + h ^ 2) * (u.x - h * u.y), 0⟩ : V3 ℝ) =
        4 * h ^ 2 / (1 + h ^ 2) * (u.x ^ 2 + u.y ^ 2) := by simp [V3.normSq, V3.dot]; field_simp; ring
    rw [this]
    have b1 : 4 * h ^ 2 / (1 + h ^ 2) ≤ (1 / 2 ^ 16) ^ 2 := by
      rw [div_le_iff₀ h0]; rw [hh]; norm_num
    have b2 : u.x ^ 2 + u.y ^ 2 ≤ u.normSq := by simp [V3.normSq, V3.dot]; nlinarith [sq_nonneg u.z]
    exact mul_le_mul b1 b2 (by positivity) (by positivity)
  have := vnorm_nonneg u
  linarith

theorem start_close : Within T0 Ts (1 / 2 ^ 15) := by
  intro p
  have e : (T0.R.mulVec p).add T0.t = act G0 (act Ts p) := act_mul Ts_rigid.1 p
  rw [e]
  show vnorm ((act G0 (act Ts p)).sub (act Ts p)) ≤ 1 / 2 ^ 15 * (1 + vnorm (act Ts p))
  have := G0_moves (act Ts p)
  have := vnorm_nonneg (act Ts p)
  linarith

/-- The initial guess is off by more than `10⁻⁵`. -/
theorem start_off : ¬ Within T0 Ts (1 / 10 ^ 5) := by
  intro hw
  have := hw (act (inverseTransform1 Ts) V3.zero)
  have inv := inverse_transform_correct Ts Ts_rigid
  have e : (T0.R.mulVec (act (inverseTransform1 Ts) V3.zero)).add T0.t = act G0 (act Ts (act (inverseTransform1 Ts) V3.zero)) := act_mul Ts_rigid.1 _
  have e2 : (Ts.R.mulVec (act (inverseTransform1 Ts) V3.zero)).add Ts.t = V3.zero := by
    show act Ts (act (inverseTransform1 Ts) V3.zero) = V3.zero
    rw [← act_mul inv.2.2.1, inv.2.1, act_one]
  rw [e] at this
  rw [show act Ts (act (inverseTransform1 Ts) V3.zero) = V3.zero from e2, e2] at this
  have e3 : (act G0 V3.zero).sub V3.zero = ⟨2 * h, 0, 0⟩ := by
    ext <;> simp [act, G0, V3.sub, V3.add, M3.mulVec, V3.dot, V3.zero]
  have e4 : vnorm (V3.zero : V3 ℝ) = 0 := vnorm_of_sq le_rfl (by simp [V3.normSq, V3.dot, V3.zero])
  have e5 : vnorm (⟨2 * h, 0, 0⟩ : V3 ℝ) = 1 / 2 ^ 16 := vnorm_of_sq (by positivity) (by simp [V3.normSq, V3.dot, h]; norm_num)
  rw [e3, e4, e5] at this
  norm_num at this

theorem ten : (10 : Int).toNat = 10 := rfl

theorem basin : Basin 1 (1 / 2) (1 / 4) (1 / 10 ^ 10) (1 / 1000) (1 / 10 ^ 6) (10 : Int).toNat (2 * (1 / 2 ^ 15)) (1 / 10 ^ 6) := by
  rw [ten]; constructor <;> norm_num

theorem icp_bound : 2 * max (((1 / 4 : ℝ) / 8) ^ (10 : Int).toNat * (2 * (1 / 2 ^ 15))) (1 / 10 ^ 6) = 2 / 10 ^ 6 := by
  rw [ten, max_eq_right (by norm_num)]; norm_num

/-- Ten iterations of point-to-plane ICP from the wrong guess (off by more than `10⁻⁵`): the answer is within `2·10⁻⁶`, with all partners right. -/
theorem icp_run : ∃ T idx, pointToPlaneICP (1 / 10 ^ 6) bruteNN src tgt nrm (some T0) 10 (1 / 10 ^ 8) (some 1) = .ok (T, idx) ∧
    Within T Ts (2 / 10 ^ 6) ∧ idx.map (fun i => (tgt[i]?, nrm[i]?)) = places.map fun x => (some x.pos, some x.nor) := by
  obtain ⟨T, idx, h1, h2, h3⟩ := icp_converges (n := 10) bruteNN_nearest scene Ts_rigid src_placed (G0_rigid.mul Ts_rigid) start_close basin
    (damp := 1 / 10 ^ 8) (by norm_num) (by simp [places]; norm_num) (by norm_num)
  refine ⟨T, idx, h1, ?_, h3⟩
  rwa [icp_bound] at h2

/-- The smallest step weight with gradICP's default parameters. -/
theorem weight : 3 / 5 ≤ stepWeight 1 200 (-70) := by
  have h1 : (1 + Real.exp (-1 * -70)) ^ ((1 : ℝ) / 200) ≤ 5 / 3 := by
    have a1 : 1 + Real.exp (-1 * -70) ≤ Real.exp 100 := by
      have b1 : Real.exp (-1 * -70) = Real.exp 70 := by norm_num
      have b2 : Real.exp 100 = Real.exp 70 * Real.exp 30 := by rw [← Real.exp_add]; norm_num
      have b3 : (1 : ℝ) ≤ Real.exp 70 := Real.one_le_exp (by norm_num)
      have b4 : (31 : ℝ) ≤ Real.exp 30 := by have := Real.add_one_le_exp (30 : ℝ); linarith
      rw [b1, b2]; nlinarith
    have a2 : (1 + Real.exp (-1 * -70)) ^ ((1 : ℝ) / 200) ≤ (Real.exp 100) ^ ((1 : ℝ) / 200) :=
      Real.rpow_le_rpow (by positivity) a1 (by norm_num)
    rw [← Real.exp_mul] at a2
    have a3 : Real.exp (100 * (1 / 200)) ≤ 5 / 3 := by
      have b : Real.exp (100 * (1 / 200)) ^ 2 = Real.exp 1 := by rw [← Real.exp_nat_mul]; norm_num
      have := Real.exp_one_lt_d9
      nlinarith [Real.exp_pos (100 * (1 / 200))]
    exact a2.trans a3
  have h2 : 0 < (1 + Real.exp (-1 * -70)) ^ ((1 : ℝ) / 200) := by positivity
  rw [stepWeight, le_div_iff₀ h2]
  linarith

theorem grad_bound : 2 * max ((1 - stepWeight 1 200 (-70) + (1 / 4 : ℝ) / 8) ^ (10 : Int).toNat * (2 * (1 / 2 ^ 15))) (1 / 10 ^ 6) = 2 / 10 ^ 6 := by
  have w := weight
  have w1 := (stepWeight_between (B2 := 1) (nu := 200) (e := -70) (by norm_num)).2
  rw [max_eq_right]
  · norm_num
  · have : (1 - stepWeight 1 200 (-70) + (1 / 4 : ℝ) / 8) ^ (10 : Int).toNat ≤ (1 / 2) ^ (10 : Int).toNat :=
      pow_le_pow_left₀ (by linarith) (by linarith) _
    have e2 : ((1 : ℝ) / 2) ^ (10 : Int).toNat = 1 / 1024 := by rw [ten]; norm_num
    rw [e2] at this
    linarith

/-- The same with gradICP and its default parameters. -/
theorem grad_run : ∃ T idx, pointToPlaneGradICP (1 / 10 ^ 6) 2 1 1 200 bruteNN src tgt nrm (some T0) 10 (1 / 10 ^ 8) (some 1) = .ok (T, idx) ∧
    Within T Ts (2 / 10 ^ 6) ∧ idx.map (fun i => (tgt[i]?, nrm[i]?)) = places.map fun x => (some x.pos, some x.nor) := by
  have w := weight
  have w1 := (stepWeight_between (B2 := 1) (nu := 200) (e := -70) (by norm_num)).2
  obtain ⟨T, idx, h1, h2, h3⟩ := grad_converges (n := 10) (lmax := 2) (B := 1) (B2 := 1) (nu := 200) bruteNN_nearest scene Ts_rigid src_placed (G0_rigid.mul Ts_rigid)
    start_close (by norm_num) (by norm_num) (by norm_num) (by linarith) basin (damp := 1 / 10 ^ 8) (by norm_num) (by simp [places]; norm_num) (by norm_num)
  refine ⟨T, idx, h1, ?_, h3⟩
  rwa [grad_bound] at h2

/-! ### The providers -/

open Pcs

def cloudOf (l : List (V3 ℝ)) : T2 ℝ := ⟨l.map V3.toList, 3⟩

theorem vecs_cloud (l : List (V3 ℝ)) : vecs (cloudOf l) = l := by
  simp only [vecs, cloudOf, List.map_map]
  conv_rhs => rw [← List.map_id l]
  exact List.map_congr_left fun p _ => rfl

/-- A batch of two maps of the same object; the first frame has moved, the second has not. -/
def maps : Clouds ℝ
  | .points => some [cloudOf tgt, cloudOf tgt]
  | .normals => some [cloudOf nrm, cloudOf nrm]
  | _ => none
def frames : Clouds ℝ
  | .points => some [cloudOf (transformPointcloud (inverseTransform1 G0) seen), cloudOf seen]
  | _ => none
def truth : Nat → M4 ℝ | 0 => G0 | _ => M4.one

theorem G0_close : Within M4.one G0 (1 / 2 ^ 15) := by
  intro p
  change vnorm ((act M4.one p).sub (act G0 p)) ≤ 1 / 2 ^ 15 * (1 + vnorm (act G0 p))
  have h1 := G0_moves p
  have e : (act M4.one p).sub (act G0 p) = ((act G0 p).sub p).neg := by rw [act_one]; ext <;> simp [V3.sub, V3.neg]
  rw [e, vnorm_neg]
  have e2 : p = (act G0 p).sub ((act G0 p).sub p) := by ext <;> simp [V3.sub]
  have h2 := vnorm_sub_le (act G0 p) ((act G0 p).sub p)
  rw [← e2] at h2
  have := vnorm_nonneg (act G0 p)
  linarith

theorem one_close : Within M4.one M4.one (1 / 2 ^ 15) := by
  intro p
  have : vnorm (((M4.one.R.mulVec p).add M4.one.t).sub ((M4.one.R.mulVec p).add M4.one.t)) = 0 :=
    vnorm_of_sq le_rfl (by simp [V3.normSq, V3.dot, V3.sub])
  rw [this]
  have := vnorm_nonneg ((M4.one.R.mulVec p).add M4.one.t)
  positivity

theorem provider_scene : ∀ b p q m, [cloudOf (transformPointcloud (inverseTransform1 G0) seen), cloudOf seen][b]? = some p →
    [cloudOf tgt, cloudOf tgt][b]? = some q → [cloudOf nrm, cloudOf nrm][b]? = some m →
    Scene (some 1) (vecs q) (vecs m) places 1 (1 / 2) (1 / 4) (1 / 10 ^ 10) (1 / 1000) ∧ (truth b).Rigid ∧
      transformPointcloud (truth b) (vecs p) = places.map Place.seen ∧ Within M4.one (truth b) (1 / 2 ^ 15) ∧ 6 ≤ places.length := by
  intro b p q m hp hq hm
  match b with
  | 0 =>
    simp only [List.getElem?_cons_zero, Option.some.injEq] at hp hq hm
    subst hp hq hm
    rw [vecs_cloud, vecs_cloud, vecs_cloud]
    refine ⟨scene, G0_rigid, ?_, G0_close, by simp [places]⟩
    have := inverse_transform_correct G0 G0_rigid
    rw [truth, compose_cloud _ _ this.2.2.1, this.2.1]
    simp [transformPointcloud, M4.one, M3.one_mulVec, V3.add, V3.zero, seen]
  | 1 =>
    simp only [List.getElem?_cons_zero, List.getElem?_cons_succ, Option.some.injEq] at hp hq hm
    subst hp hq hm
    rw [vecs_cloud, vecs_cloud, vecs_cloud]
    refine ⟨scene, M4.one_rigid, ?_, one_close, by simp [places]⟩
    simp [truth, transformPointcloud, M4.one, M3.one_mulVec, V3.add, V3.zero, seen]
  | b + 2 => simp at hp

theorem cloud_valid (l : List (V3 ℝ)) : (cloudOf l).cols = 3 ∧ (cloudOf l).Valid := by
  refine ⟨rfl, ?_⟩
  intro r hr
  obtain ⟨v, _, rfl⟩ := List.mem_map.1 hr
  rfl

theorem provider_clouds : ∃ m f, Inv m maps ∧ Inv f frames := by
  have w1 : Wf maps _ := two_wf rfl (by
    intro X l hl
    cases X <;> simp only [maps, Option.some.injEq, reduceCtorEq] at hl <;> subst hl <;>
      refine ⟨by simp, rfl, by simp [sizes, cloudOf, tgt, nrm], fun t ht => ?_⟩ <;> simp only [List.mem_cons, List.not_mem_nil, or_false] at ht <;>
      rcases ht with rfl | rfl <;> exact cloud_valid _)
  have w2 : Wf frames _ := two_wf rfl (by
    intro X l hl
    cases X <;> simp only [frames, Option.some.injEq, reduceCtorEq] at hl <;> subst hl <;>
      refine ⟨by simp, rfl, rfl, fun t ht => ?_⟩ <;> simp only [List.mem_cons, List.not_mem_nil, or_false] at ht <;>
      rcases ht with rfl | rfl <;> exact cloud_valid _)
  obtain ⟨m, _, hm, hfm⟩ := newList_rep w1
  obtain ⟨f, _, hf, hff⟩ := newList_rep w2
  exact ⟨m, f, .inr ⟨_, hm, .inr hfm⟩, .inr ⟨_, hf, .inr hff⟩⟩

/-- Both providers find the motion of the first frame and the rest of the second. -/
theorem provider_run : ∃ m f, Inv m maps ∧ Inv f frames ∧
    (∃ T : Nat → M4 ℝ, provide (fun src tgt nrm T0 => pointToPlaneICP (1 / 10 ^ 6) bruteNN src tgt nrm T0 10 (1 / 10 ^ 8) (some 1)) m f =
        .ok [T 0, T 1] ∧ Within (T 0) G0 (2 / 10 ^ 6) ∧ Within (T 1) M4.one (2 / 10 ^ 6)) ∧
    (∃ T : Nat → M4 ℝ, provide (fun src tgt nrm T0 => pointToPlaneGradICP (1 / 10 ^ 6) 2 1 1 200 bruteNN src tgt nrm T0 10 (1 / 10 ^ 8) (some 1)) m f =
        .ok [T 0, T 1] ∧ Within (T 0) G0 (2 / 10 ^ 6) ∧ Within (T 1) M4.one (2 / 10 ^ 6)) := by
  obtain ⟨m, f, hm, hf⟩ := provider_clouds
  refine ⟨m, f, hm, hf, ?_, ?_⟩
  · obtain ⟨T, e, h⟩ := icp_provider_converges (n := 10) (damp := 1 / 10 ^ 8) bruteNN_nearest hm hf rfl rfl rfl rfl (Ts := truth) provider_scene basin
      (by norm_num) (by rw [ten]; norm_num) (by norm_num)
    rw [icp_bound] at h
    exact ⟨T, e, h 0 (by simp), h 1 (by simp)⟩
  · have w := weight
    obtain ⟨T, e, h⟩ := grad_provider_converges (n := 10) (lmax := 2) (B := 1) (B2 := 1) (nu := 200) (damp := 1 / 10 ^ 8) bruteNN_nearest hm hf
      rfl rfl rfl rfl (Ts := truth) provider_scene (by norm_num) (by norm_num) (by norm_num) (by linarith) basin
      (by norm_num) (by rw [ten]; norm_num) (by norm_num)
    rw [grad_bound] at h
    exact ⟨T, e, h 0 (by simp), h 1 (by simp)⟩
end
end Verif.Icp.ConvergeWitness
