import Verif.Icp.Basin
import Verif.Icp.Loop
/-!
C95: started close enough to the true motion, `point_to_plane_ICP` and `point_to_plane_gradICP` converge to it.
-/
namespace Verif.Icp
open Verif Geom
set_option linter.unusedSectionVars false

/-! ### Specification -/

/-- The two maps agree on every point up to `r`, relative to the distance from the origin. -/
def Within (T T' : M4 ℝ) (r : ℝ) : Prop :=
  ∀ p : V3 ℝ, vnorm (((T.R.mulVec p).add T.t).sub ((T'.R.mulVec p).add T'.t)) ≤ r * (1 + vnorm ((T'.R.mulVec p).add T'.t))

/-- Where a source point belongs: a target point, its normal, and where the true motion brings the measured source point. -/
structure Place where
  pos : V3 ℝ
  nor : V3 ℝ
  seen : V3 ℝ

/-- A target with normals, and the places `pts` where the source points belong: each is a target point, at distance at most `ρ` from the
origin; the measured point lies in its neighbourhood (up to `η`) and on the plane through it (up to `σ`, both relative to `1+ρ`); different target points are `2·sep` apart; normals have length at most one; and the
places determine the motion: a twist `(v, w)` of length `x` moves them along their normals by at least `g·(1+ρ)·x` in the root mean square. -/
structure Scene (th : Option ℝ) (tgt nrm : List (V3 ℝ)) (pts : List Place) (ρ sep g σ η : ℝ) : Prop where
  len : tgt.length = nrm.length
  nonempty : pts ≠ []
  on : ∀ x ∈ pts, (x.pos, x.nor) ∈ tgt.zip nrm
  noise : ∀ x ∈ pts, |x.nor.dot (x.seen.sub x.pos)| ≤ (1 + ρ) * σ
  slide : ∀ x ∈ pts, vnorm (x.seen.sub x.pos) ≤ (1 + ρ) * η
  unit : ∀ n ∈ nrm, vnorm n ≤ 1
  bound : ∀ x ∈ pts, vnorm x.pos ≤ ρ
  apart : ∀ (i j : Nat) (a b : V3 ℝ), tgt[i]? = some a → tgt[j]? = some b → i ≠ j → 2 * sep ≤ vnorm (a.sub b)
  thr : ∀ t, th = some t → sep ^ 2 ≤ t
  rho : 0 ≤ ρ
  sig : 0 ≤ σ
  eta0 : 0 ≤ η
  eta : η ≤ g / 64
  pos : 0 < g
  le1 : g ≤ 1
  cond : ∀ v w : V3 ℝ, g ^ 2 * (pts.length * (1 + ρ) ^ 2) * (v.normSq + w.normSq) ≤ (pts.map fun x => x.nor.dot (v.add (w.cross x.pos)) ^ 2).sum

/-! ### Correspondences -/

variable {nn : List (V3 ℝ) → V3 ℝ → Nat} {th : Option ℝ} {tgt nrm : List (V3 ℝ)} {pts : List Place} {ρ sep g σ η : ℝ}

theorem Scene.ne (hs : Scene th tgt nrm pts ρ sep g σ η) : tgt ≠ [] := by
  obtain ⟨x, hx⟩ := List.exists_mem_of_ne_nil _ hs.nonempty
  have := hs.on x hx
  rintro rfl
  simp at this

theorem zip_mem {a b : List (V3 ℝ)} {x : V3 ℝ × V3 ℝ} (h : x ∈ a.zip b) : ∃ i : Nat, a[i]? = some x.1 ∧ b[i]? = some x.2 := by
  obtain ⟨i, hi, e⟩ := List.mem_iff_getElem.1 h
  rw [List.getElem_zip] at e
  simp only [List.length_zip] at hi
  exact ⟨i, by rw [← e, List.getElem?_eq_getElem], by rw [← e, List.getElem?_eq_getElem]⟩

theorem Scene.normal (hs : Scene th tgt nrm pts ρ sep g σ η) {x : Place} (hx : x ∈ pts) : vnorm x.nor ≤ 1 := by
  obtain ⟨i, _, h⟩ := zip_mem (hs.on x hx)
  exact hs.unit _ (List.mem_of_getElem? h)

/-- A point close to its place is associated with that place. -/
theorem Scene.partner (hs : Scene th tgt nrm pts ρ sep g σ η) (hn : NearestIn nn) {x : Place} (hx : x ∈ pts) {p : V3 ℝ}
    (hp : vnorm (p.sub x.pos) < sep) : tgt[nn tgt p]? = some x.pos ∧ nrm[nn tgt p]? = some x.nor := by
  obtain ⟨i, h1, h2⟩ := zip_mem (hs.on x hx)
  obtain ⟨d, h3, h4⟩ := hn tgt p hs.ne
  have h5 := h4 x.pos (List.mem_of_getElem? h1)
  rw [normSq_eq, normSq_eq] at h5
  have h6 : vnorm (p.sub d) ≤ vnorm (p.sub x.pos) := by
    exact (pow_le_pow_iff_left₀ (vnorm_nonneg _) (vnorm_nonneg _) two_ne_zero).1 h5
  by_cases hij : nn tgt p = i
  · rw [hij]; exact ⟨h1, h2⟩
  · exfalso
    have h7 := hs.apart _ _ _ _ h3 h1 hij
    have e : d.sub x.pos = (p.sub x.pos).sub (p.sub d) := by ext <;> simp [V3.sub]
    rw [e] at h7
    have := vnorm_sub_le (p.sub x.pos) (p.sub d)
    linarith

theorem Scene.partner_getD (hs : Scene th tgt nrm pts ρ sep g σ η) (hn : NearestIn nn) {x : Place} (hx : x ∈ pts) {p : V3 ℝ}
    (hp : vnorm (p.sub x.pos) < sep) (p' : V3 ℝ) : planeDist nn tgt nrm p p' = x.nor.dot (p'.sub x.pos) := by
  obtain ⟨h1, h2⟩ := hs.partner hn hx hp
  rw [planeDist, List.getD_eq_getElem?_getD, List.getD_eq_getElem?_getD, h1, h2]
  rfl

theorem Scene.takes (hs : Scene th tgt nrm pts ρ sep g σ η) {x : Place} (hx : x ∈ pts) {p : V3 ℝ}
    (hp : vnorm (p.sub x.pos) < sep) : Close th tgt p := by
  intro t ht
  obtain ⟨i, h1, _⟩ := zip_mem (hs.on x hx)
  refine ⟨x.pos, List.mem_of_getElem? h1, ?_⟩
  rw [normSq_eq]
  exact (pow_lt_pow_left₀ hp (vnorm_nonneg _) two_ne_zero).trans_le (hs.thr t ht)

/-- The cloud whose points are `act G` of their places. -/
noncomputable def moved (G : M4 ℝ) (pts : List Place) : List (V3 ℝ) := pts.map fun x => act G x.seen

section
variable {G : M4 ℝ} (hs : Scene th tgt nrm pts ρ sep g σ η) (hn : NearestIn nn) (hc : ∀ x ∈ pts, vnorm ((act G x.seen).sub x.pos) < sep)
include hs hc

theorem Scene.all : taking th tgt (moved G pts) = moved G pts := by
  rw [taking, List.filter_eq_self]
  intro s h
  obtain ⟨x, hx, rfl⟩ := List.mem_map.1 h
  exact decide_eq_true (hs.takes hx (hc x hx))

include hn

theorem Scene.err : planeErr nn th tgt nrm (moved G pts) = (pts.map fun x => x.nor.dot ((act G x.seen).sub x.pos) ^ 2).sum := by
  rw [planeErr, hs.all hc, moved, List.map_map]
  congr 1
  refine List.map_congr_left fun x hx => ?_
  simp only [Function.comp, hs.partner_getD hn hx (hc x hx)]

theorem Scene.lin (d : ℝ) (v w : V3 ℝ) : linCost nn th tgt nrm d (moved G pts) v w =
    (pts.map fun x => x.nor.dot ((((act G x.seen).add v).add (w.cross (act G x.seen))).sub x.pos) ^ 2).sum + d * (v.normSq + w.normSq) := by
  rw [linCost, hs.all hc, moved, List.map_map]
  congr 2
  refine List.map_congr_left fun x hx => ?_
  simp only [Function.comp, hs.partner_getD hn hx (hc x hx)]

theorem Scene.idx : ((taking th tgt (moved G pts)).map (nn tgt)).map (fun i => (tgt[i]?, nrm[i]?)) = pts.map fun x => (some x.pos, some x.nor) := by
  rw [hs.all hc, moved, List.map_map, List.map_map]
  refine List.map_congr_left fun x hx => ?_
  obtain ⟨h1, h2⟩ := hs.partner hn hx (hc x hx)
  simp only [Function.comp, h1, h2]
end

/-! ### Sums of squares -/

theorem sum_sq_le {l : List Place} {f : Place → ℝ} {c : ℝ} (h : ∀ x ∈ l, |f x| ≤ c) :
    (l.map fun x => f x ^ 2).sum ≤ l.length * c ^ 2 := by
  induction l with
  | nil => simp
  | cons x l ih =>
    have h1 := ih fun y hy => h y (List.mem_cons_of_mem _ hy)
    have h2 : f x ^ 2 ≤ c ^ 2 := sq_le_sq' (by linarith [(abs_le.1 (h x (List.mem_cons_self ..))).1]) ((abs_le.1 (h x (List.mem_cons_self ..))).2)
    simp only [List.map_cons, List.sum_cons, List.length_cons]
    push_cast
    linarith

/-- `Σ a² ≤ 2 Σ r² + 2 N c²` when `r - a` is at most `c`. -/
theorem sum_sq_split {l : List Place} {a r : Place → ℝ} {c : ℝ} (h : ∀ x ∈ l, |r x - a x| ≤ c) :
    (l.map fun x => a x ^ 2).sum ≤ 2 * (l.map fun x => r x ^ 2).sum + 2 * (l.length * c ^ 2) := by
  induction l with
  | nil => simp
  | cons x l ih =>
    have h1 := ih fun y hy => h y (List.mem_cons_of_mem _ hy)
    obtain ⟨h2, h3⟩ := abs_le.1 (h x (List.mem_cons_self ..))
    have h4 : (r x - a x) ^ 2 ≤ c ^ 2 := sq_le_sq' h2 h3
    simp only [List.map_cons, List.sum_cons, List.length_cons]
    push_cast
    nlinarith [sq_nonneg (2 * r x - a x)]

/-! ### One step -/

section
variable {G : M4 ℝ} {z δ : ℝ} (hs : Scene th tgt nrm pts ρ sep g σ η) (h : Near G z δ) (hz : z ≤ g ^ 2 / 1024) (hδ : δ ≤ g ^ 2 * z / 1024)

/-- The second-order quantity of the bounds. -/
theorem Scene.small (hs : Scene th tgt nrm pts ρ sep g σ η) (h : Near G z δ) (hz : z ≤ g ^ 2 / 1024) (hδ : δ ≤ g ^ 2 * z / 1024) :
    z ≤ 1 / 1024 ∧ δ ≤ 1 / 1000 ∧ 0 ≤ z ^ 2 + δ ∧ z ^ 2 + δ ≤ g ^ 2 * z / 512 ∧ z + 2 * (z ^ 2 + δ) ≤ 2 * z ∧ g ^ 2 ≤ g ∧ g ^ 2 ≤ 1 := by
  obtain ⟨z0, d0⟩ := h.nonneg
  have g0 := hs.pos
  have g1 := hs.le1
  have g2 : g ^ 2 ≤ g := by nlinarith
  have k1 : z ^ 2 ≤ g ^ 2 * z / 1024 := by nlinarith
  have k2 : g ^ 2 * z ≤ z := by nlinarith
  refine ⟨by linarith, by linarith, by positivity, by linarith, by linarith, g2, by linarith⟩

theorem Scene.stays (hs : Scene th tgt nrm pts ρ sep g σ η) (h : Near G z δ) (hz : z ≤ g ^ 2 / 1024) (hδ : δ ≤ g ^ 2 * z / 1024)
    (hsep : (1 + ρ) * (2 * z + η) < sep) : ∀ x ∈ pts, vnorm x.seen ≤ (1 + ρ) * (1 + η) - 1 ∧
    vnorm ((act G x.seen).sub x.seen) ≤ 2 * (1 + ρ) * z ∧
    vnorm ((act G x.seen).sub x.pos) ≤ (1 + ρ) * (2 * z + η) ∧ vnorm ((act G x.seen).sub x.pos) < sep := by
  intro x hx
  obtain ⟨k1, k2, k3, k4, k5, _, k7⟩ := hs.small h hz hδ
  obtain ⟨z0, d0⟩ := h.nonneg
  have s0 := hs.eta0
  have s1 : η ≤ 1 / 64 := by linarith [hs.eta, hs.le1]
  have hρ := hs.rho
  have hzz : g ^ 2 * z ≤ z := mul_le_of_le_one_left z0 k7
  have a1 : vnorm x.seen ≤ (1 + ρ) * (1 + η) - 1 := by
    have e : x.seen = x.pos.add (x.seen.sub x.pos) := by ext <;> simp [V3.add, V3.sub]
    have := vnorm_add_le x.pos (x.seen.sub x.pos)
    rw [← e] at this
    linarith [hs.bound x hx, hs.slide x hx]
  have h1 := h.moves (by linarith) a1
  have e2 : (act G x.seen).sub x.pos = ((act G x.seen).sub x.seen).add (x.seen.sub x.pos) := by ext <;> simp [V3.add, V3.sub]
  have h3 := vnorm_add_le ((act G x.seen).sub x.seen) (x.seen.sub x.pos)
  rw [← e2] at h3
  have h4 := hs.slide x hx
  have h5 : (1 + η) * (z + 2 * (z ^ 2 + δ)) ≤ 2 * z := by
    have b1 : z + 2 * (z ^ 2 + δ) ≤ (1 + 1 / 256) * z := by linarith
    have b2 : (1 + η) * (z + 2 * (z ^ 2 + δ)) ≤ (1 + 1 / 64) * ((1 + 1 / 256) * z) := mul_le_mul (by linarith) b1 (by linarith) (by norm_num)
    linarith
  have h6 : (1 + ρ) * ((1 + η) * (z + 2 * (z ^ 2 + δ))) ≤ (1 + ρ) * (2 * z) := mul_le_mul_of_nonneg_left h5 (by linarith)
  have h1' : vnorm ((act G x.seen).sub x.seen) ≤ (1 + ρ) * ((1 + η) * (z + 2 * (z ^ 2 + δ))) := by linarith
  refine ⟨a1, by linarith, by linarith, by linarith⟩

set_option maxHeartbeats 1000000 in
/-- The twist the solver returns cancels the offset up to a small fraction. -/
theorem Scene.step (hs : Scene th tgt nrm pts ρ sep g σ η) (hn : NearestIn nn) (h : Near G z δ) (hz : z ≤ g ^ 2 / 1024)
    (hδ : δ ≤ g ^ 2 * z / 1024) (hσ : σ ≤ g ^ 2 * z / 128) (hsep : (1 + ρ) * (2 * z + η) < sep) {d : ℝ} (hd0 : 0 ≤ d)
    (hd : d ≤ pts.length * ((1 + ρ) * (g ^ 2 / 64)) ^ 2) {v w : V3 ℝ} (hst : IsStep nn th tgt nrm d (moved G pts) v w) :
    tw (v.add G.t) (w.add (vee (dev G))) ≤ g * z / 16 := by
  obtain ⟨k1, k2, k3, k4, k5, k6, k7⟩ := hs.small h hz hδ
  have hst' := hs.stays h hz hδ hsep
  have hc : ∀ x ∈ pts, vnorm ((act G x.seen).sub x.pos) < sep := fun x hx => (hst' x hx).2.2.2
  obtain ⟨z0, d0⟩ := h.nonneg
  have g0 := hs.pos
  have hρ := hs.rho
  have s0 := hs.sig
  have n0 := hs.eta0
  have hη := hs.eta
  have hη1 : η ≤ 1 / 4 := by linarith [hs.le1]
  set μ := vee (dev G) with hμ
  set τ := z ^ 2 + δ with hτ
  set κ := 5 * τ + σ with hκ
  have hμz : vnorm μ ≤ z := h.vee
  have hS : nm (symPart (dev G)) ≤ 2 * τ := h.sym (by linarith)
  -- the remainder
  let rem : Place → V3 ℝ := fun x => ((symPart (dev G)).mulVec x.seen).sub (μ.cross ((act G x.seen).sub x.seen))
  let e : Place → ℝ := fun x => x.nor.dot (rem x) + x.nor.dot (x.seen.sub x.pos)
  have he : ∀ x ∈ pts, |e x| ≤ (1 + ρ) * κ := by
    intro x hx
    obtain ⟨c1, c2, c3, _⟩ := hst' x hx
    have a0 : |e x| ≤ _ := abs_add_le (x.nor.dot (rem x)) (x.nor.dot (x.seen.sub x.pos))
    have a1 := dot_le x.nor (rem x)
    have a2 : vnorm (rem x) ≤ _ := vnorm_sub_le ((symPart (dev G)).mulVec x.seen) (μ.cross ((act G x.seen).sub x.seen))
    have a3 := nm_mulVec (symPart (dev G)) x.seen
    have a4 := cross_le μ ((act G x.seen).sub x.seen)
    have a5 : nm (symPart (dev G)) * vnorm x.seen ≤ 2 * τ * ((1 + ρ) * (1 + 1 / 4)) := by
      refine mul_le_mul hS ?_ (vnorm_nonneg _) (by positivity)
      have : (1 + ρ) * (1 + η) ≤ (1 + ρ) * (1 + 1 / 4) := mul_le_mul_of_nonneg_left (by linarith) (by linarith)
      linarith
    have a6 : vnorm μ * vnorm ((act G x.seen).sub x.seen) ≤ z * (2 * (1 + ρ) * z) := mul_le_mul hμz c2 (vnorm_nonneg _) z0
    have a7 : vnorm x.nor * vnorm (rem x) ≤ vnorm (rem x) := mul_le_of_le_one_left (vnorm_nonneg _) (hs.normal hx)
    have a8 : z * (2 * (1 + ρ) * z) ≤ 2 * (1 + ρ) * τ := by
      have : z ^ 2 ≤ τ := by linarith
      nlinarith
    have a9 := hs.noise x hx
    have a10 : 0 ≤ (1 + ρ) * τ := by positivity
    have a11 : (1 + ρ) * κ = 5 * ((1 + ρ) * τ) + (1 + ρ) * σ := by rw [hκ]; ring
    rw [a11]
    linarith
  have hres : ∀ (x : Place) (v w : V3 ℝ), x.nor.dot ((((act G x.seen).add v).add (w.cross (act G x.seen))).sub x.pos) =
      x.nor.dot ((v.add G.t).add ((w.add μ).cross (act G x.seen))) + e x := by
    intro x v w
    show _ = _ + (x.nor.dot (((symPart (dev G)).mulVec x.seen).sub (μ.cross ((act G x.seen).sub x.seen))) + x.nor.dot (x.seen.sub x.pos))
    have b2 := act_sub G x.seen
    rw [← hμ] at b2
    have b3 : (symPart (dev G)).mulVec x.seen = ((act G x.seen).sub x.seen).sub (G.t.add (μ.cross x.seen)) := by
      rw [b2]; ext <;> simp [V3.add, V3.sub]
    rw [b3]
    simp [V3.add, V3.sub, V3.cross, V3.dot]
    ring
  -- compare with the exact cancellation
  have hmin : linCost nn th tgt nrm d (moved G pts) v w ≤ linCost nn th tgt nrm d (moved G pts) G.t.neg μ.neg := by
    by_cases heq : (G.t.neg, μ.neg) = (v, w)
    · rw [← (Prod.mk.inj heq).1, ← (Prod.mk.inj heq).2]
    · exact (hst _ _ heq).le
  rw [hs.lin hn hc, hs.lin hn hc] at hmin
  simp only [hres] at hmin
  have hzero : (pts.map fun x => (x.nor.dot ((G.t.neg.add G.t).add ((μ.neg.add μ).cross (act G x.seen))) + e x) ^ 2).sum ≤
      pts.length * ((1 + ρ) * κ) ^ 2 := by
    refine sum_sq_le fun x hx => ?_
    have : x.nor.dot ((G.t.neg.add G.t).add ((μ.neg.add μ).cross (act G x.seen))) = 0 := by
      simp [V3.add, V3.neg, V3.cross, V3.dot]
    rw [this, zero_add]
    exact he x hx
  have hdz : d * (G.t.neg.normSq + μ.neg.normSq) ≤ pts.length * ((1 + ρ) * (g ^ 2 / 64)) ^ 2 * z ^ 2 := by
    have : G.t.neg.normSq + μ.neg.normSq ≤ z ^ 2 := by
      rw [tw_normSq, tw_neg]
      exact pow_le_pow_left₀ (tw_nonneg _ _) h.size 2
    exact mul_le_mul hd this (by rw [tw_normSq]; positivity) (by positivity)
  have hdv : 0 ≤ d * (v.normSq + w.normSq) := mul_nonneg hd0 (by rw [tw_normSq]; positivity)
  set v' := v.add G.t with hv'
  set w' := w.add μ with hw'
  set ε := tw v' w' with hε
  have hε0 : 0 ≤ ε := tw_nonneg _ _
  have hwε : vnorm w' ≤ ε := tw_right _ _
  have hcond := hs.cond v' w'
  rw [tw_normSq, ← hε] at hcond
  have hsplit := sum_sq_split (l := pts) (a := fun x => x.nor.dot (v'.add (w'.cross x.pos)))
    (r := fun x => x.nor.dot (v'.add (w'.cross (act G x.seen))) + e x) (c := ε * ((1 + ρ) * (2 * z + η)) + (1 + ρ) * κ) (by
      intro x hx
      have a0 : x.nor.dot (v'.add (w'.cross (act G x.seen))) + e x - x.nor.dot (v'.add (w'.cross x.pos)) =
          x.nor.dot (w'.cross ((act G x.seen).sub x.pos)) + e x := by
        simp [V3.add, V3.sub, V3.cross, V3.dot]; ring
      show |x.nor.dot (v'.add (w'.cross (act G x.seen))) + e x - x.nor.dot (v'.add (w'.cross x.pos))| ≤ _
      rw [a0]
      have a1 := dot_le x.nor (w'.cross ((act G x.seen).sub x.pos))
      have a2 := cross_le w' ((act G x.seen).sub x.pos)
      have a3 : vnorm w' * vnorm ((act G x.seen).sub x.pos) ≤ ε * ((1 + ρ) * (2 * z + η)) := mul_le_mul hwε (hst' x hx).2.2.1 (vnorm_nonneg _) hε0
      have a4 : vnorm x.nor * vnorm (w'.cross ((act G x.seen).sub x.pos)) ≤ vnorm (w'.cross ((act G x.seen).sub x.pos)) :=
        mul_le_of_le_one_left (vnorm_nonneg _) (hs.normal hx)
      have a5 := abs_add_le (x.nor.dot (w'.cross ((act G x.seen).sub x.pos))) (e x)
      have := he x hx
      linarith)
  have hN : (0 : ℝ) < pts.length := by exact_mod_cast List.length_pos_of_ne_nil hs.nonempty
  have hNB : (0 : ℝ) < pts.length * (1 + ρ) ^ 2 := by positivity
  -- everything over `N (1+ρ)²`
  have main : pts.length * (1 + ρ) ^ 2 * (g ^ 2 * ε ^ 2) ≤ pts.length * (1 + ρ) ^ 2 *
      (2 * (κ ^ 2 + (g ^ 2 / 64) ^ 2 * z ^ 2) + 2 * ((2 * z + η) * ε + κ) ^ 2) := by
    linear_combination hcond + hsplit + 2 * hmin + 2 * hzero + 2 * hdz + 2 * hdv
  have main' := le_of_mul_le_mul_left main hNB
  have κ0 : 0 ≤ κ := by positivity
  have q1 : κ ≤ g * (9 / 512 * (g * z)) := by
    rw [hκ]
    linarith [k4, show g * (9 / 512 * (g * z)) = 9 / 512 * (g ^ 2 * z) by ring]
  set y := g * z with hy
  have y0 : 0 ≤ y := by positivity
  -- κ ≤ 9 g y / 512, z ≤ g / 1024
  have q2 : κ ^ 2 ≤ (g * (9 / 512 * y)) ^ 2 := pow_le_pow_left₀ κ0 q1 2
  have q3 : z ≤ g / 1024 := by linarith
  have q4 : (2 * z + η) * ε + κ ≤ g * (9 / 512 * ε + 9 / 512 * y) := by
    have : (2 * z + η) * ε ≤ 9 / 512 * g * ε := mul_le_mul_of_nonneg_right (by linarith) hε0
    linarith
  have q5 : ((2 * z + η) * ε + κ) ^ 2 ≤ (g * (9 / 512 * ε + 9 / 512 * y)) ^ 2 := pow_le_pow_left₀ (by positivity) q4 2
  have q6 : (g ^ 2 / 64) ^ 2 * z ^ 2 = g ^ 2 * (y / 64) ^ 2 := by rw [hy]; ring
  have q7 : g ^ 2 * ε ^ 2 ≤ g ^ 2 * (2 * ((9 / 512 * y) ^ 2 + (y / 64) ^ 2) + 2 * (9 / 512 * ε + 9 / 512 * y) ^ 2) := by
    calc g ^ 2 * ε ^ 2 ≤ _ := main'
      _ ≤ 2 * ((g * (9 / 512 * y)) ^ 2 + g ^ 2 * (y / 64) ^ 2) + 2 * (g * (9 / 512 * ε + 9 / 512 * y)) ^ 2 := by rw [q6]; linarith
      _ = _ := by ring
  have q8 := le_of_mul_le_mul_left q7 (by positivity)
  by_contra hlt
  push Not at hlt
  have q9 : y < 16 * ε := by linarith
  nlinarith
end
end Verif.Icp
