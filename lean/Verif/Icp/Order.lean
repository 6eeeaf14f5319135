import Verif.Icp.Rotate
/-!
C97: the order in which the source points and the target points are listed does not matter to the two registration routines, as long as
target points that are equally near have the same tangent plane.
-/
namespace Verif.Icp
open Verif Pcs
set_option linter.unusedSectionVars false

/-! ### Specification -/

/-- Two target points with normals have the same tangent plane: every point has the same squared distance to both. -/
def SamePlane (q m q' m' : V3 ℝ) : Prop := ∀ p : V3 ℝ, m.dot (p.sub q) ^ 2 = m'.dot (p.sub q') ^ 2

/-- The target points nearest to `s` (there may be several) all have the same tangent plane. -/
def Untied (tgt nrm : List (V3 ℝ)) (s : V3 ℝ) : Prop :=
  ∀ (k j : Nat) (q m q' m' : V3 ℝ), tgt[k]? = some q → nrm[k]? = some m → tgt[j]? = some q' → nrm[j]? = some m' →
    (∀ x ∈ tgt, (s.sub q).normSq ≤ (s.sub x).normSq) → (∀ x ∈ tgt, (s.sub q').normSq ≤ (s.sub x).normSq) → SamePlane q m q' m'

/-- `tgt2` lists the points of `tgt` in another order, and `nrm2` the normals of `nrm` in the same other order. -/
structure Reorders (tgt nrm tgt2 nrm2 : List (V3 ℝ)) : Prop where
  len : tgt.length = nrm.length ↔ tgt2.length = nrm2.length
  pts : tgt2.Perm tgt
  perm : (tgt2.zip nrm2).Perm (tgt.zip nrm)

/-- The second registration fails like the first, or answers the same transform and, for the same moved source points (in some order),
the indices of target points that the search finds nearest. -/
def SameAnswer (nn : List (V3 ℝ) → V3 ℝ → Nat) (tgt tgt2 : List (V3 ℝ)) (r r2 : Except Err (M4 ℝ × List Nat)) : Prop :=
  (∃ (T : M4 ℝ) (moved moved2 : List (V3 ℝ)), r = .ok (T, moved.map (nn tgt)) ∧ r2 = .ok (T, moved2.map (nn tgt2)) ∧ moved2.Perm moved) ∨ ∃ e, r = .error e ∧ r2 = .error e

/-- Points that are kept are untied, in the cloud `X`. -/
def UntiedCloud (th : Option ℝ) (tgt nrm X : List (V3 ℝ)) : Prop := ∀ s ∈ taking th tgt X, Untied tgt nrm s

/-! ### Proof -/

section
variable {nn : List (V3 ℝ) → V3 ℝ → Nat} {th : Option ℝ} {tgt nrm tgt2 nrm2 : List (V3 ℝ)}

theorem Reorders.refl (tgt nrm : List (V3 ℝ)) : Reorders tgt nrm tgt nrm := ⟨Iff.rfl, .refl _, .refl _⟩

theorem mem_zip_of {β γ : Type*} {l : List β} {m : List γ} {k : Nat} {a : β} {b : γ} (h1 : l[k]? = some a) (h2 : m[k]? = some b) : (a, b) ∈ l.zip m := by
  have : (l.zip m)[k]? = some (a, b) := by rw [List.zip, List.getElem?_zipWith, h1, h2]
  exact List.mem_of_getElem? this

theorem of_mem_zip {β γ : Type*} {l : List β} {m : List γ} {a : β} {b : γ} (h : (a, b) ∈ l.zip m) : ∃ k : Nat, l[k]? = some a ∧ m[k]? = some b := by
  obtain ⟨k, hk⟩ := List.getElem?_of_mem h
  rw [List.zip, List.getElem?_zipWith] at hk
  cases h1 : l[k]? <;> cases h2 : m[k]? <;> rw [h1, h2] at hk <;> simp at hk
  exact ⟨k, by rw [h1, hk.1], by rw [h2, hk.2]⟩

theorem planeDist_order (hn : NearestIn nn) (hr : Reorders tgt nrm tgt2 nrm2) (hl : tgt.length = nrm.length) (ht : tgt ≠ []) {s : V3 ℝ}
    (hu : Untied tgt nrm s) (p : V3 ℝ) : planeDist nn tgt2 nrm2 s p ^ 2 = planeDist nn tgt nrm s p ^ 2 := by
  have ht2 : tgt2 ≠ [] := fun h => ht (by have := hr.pts; rw [h] at this; exact (List.Perm.nil_eq this).symm)
  have hl2 := hr.len.1 hl
  obtain ⟨d, hd, hmin⟩ := hn tgt s ht
  obtain ⟨d2, hd2, hmin2⟩ := hn tgt2 s ht2
  obtain ⟨m, hm⟩ : ∃ m, nrm[nn tgt s]? = some m := by
    have := (List.getElem?_eq_some_iff.1 hd).1
    exact ⟨_, List.getElem?_eq_getElem (by omega)⟩
  obtain ⟨m2, hm2⟩ : ∃ m, nrm2[nn tgt2 s]? = some m := by
    have := (List.getElem?_eq_some_iff.1 hd2).1
    exact ⟨_, List.getElem?_eq_getElem (by omega)⟩
  obtain ⟨j, hj, hj'⟩ := of_mem_zip (hr.perm.subset (mem_zip_of hd2 hm2))
  have := hu _ _ _ _ _ _ hj hj' hd hm (fun x hx => hmin2 x (hr.pts.symm.subset hx)) hmin p
  simp only [planeDist, List.getD_eq_getElem?_getD, hd, hd2, hm, hm2, Option.getD_some]
  exact this

theorem close_order (hp : tgt2.Perm tgt) (s : V3 ℝ) : Close th tgt2 s ↔ Close th tgt s := by
  unfold Close
  exact forall₂_congr fun t _ => ⟨fun ⟨q, h, h'⟩ => ⟨q, hp.subset h, h'⟩, fun ⟨q, h, h'⟩ => ⟨q, hp.symm.subset h, h'⟩⟩

theorem taking_order (hp : tgt2.Perm tgt) {X X2 : List (V3 ℝ)} (hx : X2.Perm X) : (taking th tgt2 X2).Perm (taking th tgt X) := by
  have : taking th tgt2 X2 = taking th tgt X2 := by
    unfold taking; congr 1; funext s; exact decide_eq_decide.2 (close_order hp s)
  rw [this]; exact hx.filter _

variable {X X2 : List (V3 ℝ)}

theorem planeErr_order (hn : NearestIn nn) (hr : Reorders tgt nrm tgt2 nrm2) (hl : tgt.length = nrm.length) (ht : tgt ≠ [])
    (hx : X2.Perm X) (hu : UntiedCloud th tgt nrm X) : planeErr nn th tgt2 nrm2 X2 = planeErr nn th tgt nrm X := by
  unfold planeErr
  rw [((taking_order hr.pts hx).map _).sum_eq]
  congr 1
  exact List.map_congr_left fun s hs => planeDist_order hn hr hl ht (hu s hs) s

theorem linCost_order (hn : NearestIn nn) (hr : Reorders tgt nrm tgt2 nrm2) (hl : tgt.length = nrm.length) (ht : tgt ≠ [])
    (hx : X2.Perm X) (hu : UntiedCloud th tgt nrm X) (damp : ℝ) (v w : V3 ℝ) :
    linCost nn th tgt2 nrm2 damp X2 v w = linCost nn th tgt nrm damp X v w := by
  unfold linCost
  rw [((taking_order hr.pts hx).map _).sum_eq]
  congr 2
  exact List.map_congr_left fun s hs => planeDist_order hn hr hl ht (hu s hs) _

theorem isStep_order (hn : NearestIn nn) (hr : Reorders tgt nrm tgt2 nrm2) (hl : tgt.length = nrm.length) (ht : tgt ≠ [])
    (hx : X2.Perm X) (hu : UntiedCloud th tgt nrm X) {damp : ℝ} {v w : V3 ℝ} (h : IsStep nn th tgt nrm damp X v w) :
    IsStep nn th tgt2 nrm2 damp X2 v w := by
  intro v' w' hne
  rw [linCost_order hn hr hl ht hx hu, linCost_order hn hr hl ht hx hu]
  exact h v' w' hne

/-- No ties along a history: not for the cloud at the beginning of an iteration, and not for the cloud moved by the step computed in it. -/
def UntiedRun (nn : List (V3 ℝ) → V3 ℝ → Nat) (th : Option ℝ) (tgt nrm : List (V3 ℝ)) (eps : ℝ) (src : List (V3 ℝ)) (n : Nat) (T : Nat → M4 ℝ)
    (d : Nat → ℝ) : Prop :=
  ∀ k < n, UntiedCloud th tgt nrm (Geom.transformPointcloud (T k) src) ∧
    ∀ v w, IsStep nn th tgt nrm (d k) (Geom.transformPointcloud (T k) src) v w →
      UntiedCloud th tgt nrm (Geom.transformPointcloud ((Geom.se3Exp eps v w).mul (T k)) src)

variable {src src2 : List (V3 ℝ)} {eps : ℝ}

theorem lm_order (hn : NearestIn nn) (hr : Reorders tgt nrm tgt2 nrm2) (hl : tgt.length = nrm.length) (ht : tgt ≠ []) (hp : src2.Perm src) {n : Nat}
    {T T2 : Nat → M4 ℝ} {d d2 : Nat → ℝ} (h : LMTrace nn th tgt nrm eps src n T d) (h2 : LMTrace nn th tgt2 nrm2 eps src2 n T2 d2)
    (hu : UntiedRun nn th tgt nrm eps src n T d) (h0 : T2 0 = T 0) (hd0 : d2 0 = d 0) : ∀ k ≤ n, T2 k = T k ∧ d2 k = d k := by
  have cp : ∀ M, (Geom.transformPointcloud M src2).Perm (Geom.transformPointcloud M src) := fun M => hp.map _
  intro k
  induction k with
  | zero => exact fun _ => ⟨h0, hd0⟩
  | succ k ih =>
    intro hk
    obtain ⟨e, ed⟩ := ih (by omega)
    obtain ⟨v, w, s, r⟩ := h.step k (by omega)
    obtain ⟨v2, w2, s2, r2⟩ := h2.step k (by omega)
    obtain ⟨u1, u2⟩ := hu k (by omega)
    rw [e, ed] at s2
    obtain ⟨rfl, rfl⟩ := isStep_unique (isStep_order hn hr hl ht (cp _) u1 s) s2
    rw [e, planeErr_order hn hr hl ht (cp _) u1, planeErr_order hn hr hl ht (cp _) (u2 _ _ s), ed] at r2
    rcases r with ⟨r1, rT, rd⟩ | ⟨r1, rT, rd⟩ <;> rcases r2 with ⟨r1', rT', rd'⟩ | ⟨r1', rT', rd'⟩
    · exact ⟨by rw [rT', rT], by rw [rd', rd]⟩
    · exact absurd r1 (not_lt.2 r1')
    · exact absurd r1' (not_lt.2 r1)
    · exact ⟨by rw [rT', rT], by rw [rd', rd]⟩

theorem grad_order (hn : NearestIn nn) (hr : Reorders tgt nrm tgt2 nrm2) (hl : tgt.length = nrm.length) (ht : tgt ≠ []) (hp : src2.Perm src) {n : Nat}
    {lmax B B2 nu : ℝ} {T T2 : Nat → M4 ℝ} {d d2 : Nat → ℝ} (h : GradTrace nn th tgt nrm eps lmax B B2 nu src n T d)
    (h2 : GradTrace nn th tgt2 nrm2 eps lmax B B2 nu src2 n T2 d2)
    (hu : UntiedRun nn th tgt nrm eps src n T d) (h0 : T2 0 = T 0) (hd0 : d2 0 = d 0) : ∀ k ≤ n, T2 k = T k ∧ d2 k = d k := by
  have cp : ∀ M, (Geom.transformPointcloud M src2).Perm (Geom.transformPointcloud M src) := fun M => hp.map _
  intro k
  induction k with
  | zero => exact fun _ => ⟨h0, hd0⟩
  | succ k ih =>
    intro hk
    obtain ⟨e, ed⟩ := ih (by omega)
    obtain ⟨v, w, c, s, rc, rT, rd⟩ := h.step k (by omega)
    obtain ⟨v2, w2, c2, s2, rc', rT', rd'⟩ := h2.step k (by omega)
    obtain ⟨u1, u2⟩ := hu k (by omega)
    rw [e, ed] at s2
    obtain ⟨rfl, rfl⟩ := isStep_unique (isStep_order hn hr hl ht (cp _) u1 s) s2
    rw [e, planeErr_order hn hr hl ht (cp _) u1, planeErr_order hn hr hl ht (cp _) (u2 _ _ s), ← rc] at rc'
    subst rc'
    exact ⟨by rw [rT', rT, e], by rw [rd', rd, ed]⟩

theorem noneKept_order (hp : src2.Perm src) : NoneKept nn th src2 ↔ NoneKept nn th src :=
  ⟨fun h s hs => h s (hp.symm.subset hs), fun h s hs => h s (hp.subset hs)⟩

/-- **C97** for `point_to_plane_ICP`: listing the source points in another order, and the target points (with their normals) in another
order, changes neither whether it succeeds nor the transform it returns, provided that no source point is, during the registration, equally
near to target points with different tangent planes. -/
theorem icp_order (hn : NearestIn nn) (heps : 0 < eps) (hp : src2.Perm src) (hr : Reorders tgt nrm tgt2 nrm2) {T0 : M4 ℝ} (hT : T0.Affine)
    (n : Int) {damp : ℝ} (hd : 0 < damp)
    (hu : ∀ T d, T 0 = T0 → d 0 = damp → LMTrace nn th tgt nrm eps src n.toNat T d → UntiedRun nn th tgt nrm eps src n.toNat T d) :
    SameAnswer nn tgt tgt2 (pointToPlaneICP eps nn src tgt nrm (some T0) n damp th) (pointToPlaneICP eps nn src2 tgt2 nrm2 (some T0) n damp th) := by
  have deg := fun src tgt nrm T0 => degenerate (f := icpStep eps nn th) (src := src) (tgt := tgt) (nrm := nrm) (T0 := T0) (n := n)
    (fun tgt nrm s h => by rw [icpStep, lookahead_lengths h])
    (fun s h1 h2 => by
      refine ⟨⟨s.src, s.damp * 2, s.T, some []⟩, ?_, by show 0 < s.damp * 2; linarith, rfl, rfl, rfl⟩
      rw [icpStep, (lookahead_empty heps s h1).1 h2]
      simp only
      rw [if_neg (lt_irrefl _)])
    (fun s h1 h2 => by rw [icpStep, (lookahead_empty heps s h1).2 h2]) hd
  rcases le_or_gt n 0 with h0 | h0
  · exact .inr ⟨_, (deg src tgt nrm T0).1 h0, (deg src2 _ _ T0).1 h0⟩
  have h1 : 1 ≤ n := h0
  by_cases hl : tgt.length = nrm.length
  swap
  · exact .inr ⟨_, (deg src tgt nrm T0).2.1 h1 hl, (deg src2 _ _ T0).2.1 h1 (fun h => hl (hr.len.2 h))⟩
  have hl2 := hr.len.1 hl
  by_cases ht : tgt = []
  · subst ht
    have e2 : tgt2 = [] := hr.pts.eq_nil
    subst e2
    have hm : nrm = [] := List.length_eq_zero_iff.1 hl.symm
    have hm2 : nrm2 = [] := List.length_eq_zero_iff.1 hl2.symm
    subst hm; subst hm2
    have hk := noneKept_order (nn := nn) (th := th) (hp.map fun p => (T0.R.mulVec p).add T0.t)
    by_cases hk' : NoneKept nn th (Geom.transformPointcloud T0 src)
    · exact .inl ⟨T0, [], [], (deg src [] [] T0).2.2.1 h1 hk', (deg src2 [] [] T0).2.2.1 h1 (hk.2 hk'), .refl _⟩
    · exact .inr ⟨_, (deg src [] [] T0).2.2.2 h1 hk', (deg src2 [] [] T0).2.2.2 h1 (fun h => hk' (hk.1 h))⟩
  · have ht2 : tgt2 ≠ [] := fun h => ht (by have := hr.pts; rw [h] at this; exact (List.Perm.nil_eq this).symm)
    obtain ⟨T, d, a1, a2, tr, e⟩ := icp_is_lm (th := th) hn ht hl eps src hT hd h1
    obtain ⟨T2, d2, b1, b2, tr2, e2⟩ := icp_is_lm (th := th) hn ht2 hl2 eps src2 hT hd h1
    have key := lm_order hn hr hl ht hp tr tr2 (hu T d a1 a2 tr) (by rw [b1, a1]) (by rw [b2, a2])
    rw [(key _ le_rfl).1, (key _ (Nat.sub_le _ _)).1] at e2
    exact .inl ⟨_, _, _, e, e2, taking_order hr.pts (hp.map _)⟩

/-- **C97** for `point_to_plane_gradICP`. -/
theorem gradicp_order (hn : NearestIn nn) {lmax B B2 nu : ℝ} (heps : 0 < eps) (hlm : 1 < lmax) (hp : src2.Perm src)
    (hr : Reorders tgt nrm tgt2 nrm2) {T0 : M4 ℝ} (hT : T0.Affine) (n : Int) {damp : ℝ} (hd : 0 < damp)
    (hu : ∀ T d, T 0 = T0 → d 0 = damp → GradTrace nn th tgt nrm eps lmax B B2 nu src n.toNat T d → UntiedRun nn th tgt nrm eps src n.toNat T d) :
    SameAnswer nn tgt tgt2 (pointToPlaneGradICP eps lmax B B2 nu nn src tgt nrm (some T0) n damp th)
      (pointToPlaneGradICP eps lmax B B2 nu nn src2 tgt2 nrm2 (some T0) n damp th) := by
  have hpos : ∀ e, 0 < dampFactor lmax B e := fun e => lt_trans (by positivity) (dampFactor_between hlm).1
  have deg := fun src tgt nrm T0 => degenerate (f := gradStep eps lmax B B2 nu nn th) (src := src) (tgt := tgt) (nrm := nrm) (T0 := T0) (n := n)
    (fun tgt nrm s h => by rw [gradStep, lookahead_lengths h])
    (fun s h1 h2 => by
      have e0 : ∀ w : ℝ, Geom.se3Exp eps ((xiV (⟨[[0], [0], [0], [0], [0], [0]], 1⟩ : T2 ℝ)).smul w) ((xiW ⟨[[0], [0], [0], [0], [0], [0]], 1⟩).smul w) = M4.one := by
        intro w
        have z : (V3.zero : V3 ℝ).smul w = V3.zero := by ext <;> simp [V3.smul, V3.zero]
        show Geom.se3Exp eps ((V3.zero : V3 ℝ).smul w) ((V3.zero : V3 ℝ).smul w) = _
        rw [z, exp_zero heps]
      refine ⟨⟨s.src, s.damp * dampFactor lmax B (clamp70 (0 - 0)), s.T, some []⟩, ?_, mul_pos h1 (hpos _), rfl, rfl, rfl⟩
      rw [gradStep, (lookahead_empty heps s h1).1 h2]
      simp only [e0, cloud_one, m4_one_mul])
    (fun s h1 h2 => by rw [gradStep, (lookahead_empty heps s h1).2 h2]) hd
  rcases le_or_gt n 0 with h0 | h0
  · exact .inr ⟨_, (deg src tgt nrm T0).1 h0, (deg src2 _ _ T0).1 h0⟩
  have h1 : 1 ≤ n := h0
  by_cases hl : tgt.length = nrm.length
  swap
  · exact .inr ⟨_, (deg src tgt nrm T0).2.1 h1 hl, (deg src2 _ _ T0).2.1 h1 (fun h => hl (hr.len.2 h))⟩
  have hl2 := hr.len.1 hl
  by_cases ht : tgt = []
  · subst ht
    have e2 : tgt2 = [] := hr.pts.eq_nil
    subst e2
    have hm : nrm = [] := List.length_eq_zero_iff.1 hl.symm
    have hm2 : nrm2 = [] := List.length_eq_zero_iff.1 hl2.symm
    subst hm; subst hm2
    have hk := noneKept_order (nn := nn) (th := th) (hp.map fun p => (T0.R.mulVec p).add T0.t)
    by_cases hk' : NoneKept nn th (Geom.transformPointcloud T0 src)
    · exact .inl ⟨T0, [], [], (deg src [] [] T0).2.2.1 h1 hk', (deg src2 [] [] T0).2.2.1 h1 (hk.2 hk'), .refl _⟩
    · exact .inr ⟨_, (deg src [] [] T0).2.2.2 h1 hk', (deg src2 [] [] T0).2.2.2 h1 (fun h => hk' (hk.1 h))⟩
  · have ht2 : tgt2 ≠ [] := fun h => ht (by have := hr.pts; rw [h] at this; exact (List.Perm.nil_eq this).symm)
    obtain ⟨T, d, a1, a2, tr, e⟩ := grad_is_trace (th := th) (eps := eps) (B := B) (B2 := B2) (nu := nu) hn ht hl hlm src hT hd h1
    obtain ⟨T2, d2, b1, b2, tr2, e2⟩ := grad_is_trace (th := th) (eps := eps) (B := B) (B2 := B2) (nu := nu) hn ht2 hl2 hlm src2 hT hd h1
    have key := grad_order hn hr hl ht hp tr tr2 (hu T d a1 a2 tr) (by rw [b1, a1]) (by rw [b2, a2])
    rw [(key _ le_rfl).1, (key _ (Nat.sub_le _ _)).1] at e2
    exact .inl ⟨_, _, _, e, e2, taking_order hr.pts (hp.map _)⟩

/-! ### When there are no ties -/

/-- Target points that are not on the same tangent plane are at least twice as far apart as the matching radius (whose square is `t`). -/
def Spaced (t : ℝ) (tgt nrm : List (V3 ℝ)) : Prop :=
  ∀ (k j : Nat) (q m q' m' : V3 ℝ), tgt[k]? = some q → nrm[k]? = some m → tgt[j]? = some q' → nrm[j]? = some m' → 4 * t ≤ (q.sub q').normSq ∨ SamePlane q m q' m'

/-- Spaced targets: no cloud has ties. -/
theorem untied_of_spaced {t : ℝ} (h : Spaced t tgt nrm) (X : List (V3 ℝ)) : UntiedCloud (some t) tgt nrm X := by
  intro s hs k j q m q' m' h1 h2 h3 h4 n1 n2
  rcases h k j q m q' m' h1 h2 h3 h4 with hf | hf
  · exfalso
    obtain ⟨x, hx, hlt⟩ := (of_decide_eq_true (List.mem_filter.1 hs).2 : Close (some t) tgt s) t rfl
    have a := lt_of_le_of_lt (n1 x hx) hlt
    have b := lt_of_le_of_lt (n2 x hx) hlt
    have par : (q.sub q').normSq + ((s.sub q).add (s.sub q')).normSq = 2 * ((s.sub q).normSq + (s.sub q').normSq) := by
      simp only [V3.normSq, V3.dot, V3.sub, V3.add]; ring
    have pos : 0 ≤ ((s.sub q).add (s.sub q')).normSq := by simp only [V3.normSq, V3.dot]; nlinarith [mul_self_nonneg ((s.sub q).add (s.sub q')).x, mul_self_nonneg ((s.sub q).add (s.sub q')).y, mul_self_nonneg ((s.sub q).add (s.sub q')).z]
    linarith
  · exact hf

theorem untiedRun_of_spaced {t : ℝ} (h : Spaced t tgt nrm) (n : Nat) (T : Nat → M4 ℝ) (d : Nat → ℝ) : UntiedRun nn (some t) tgt nrm eps src n T d :=
  fun _ _ => ⟨untied_of_spaced h _, fun _ _ _ => untied_of_spaced h _⟩

end
end Verif.Icp
