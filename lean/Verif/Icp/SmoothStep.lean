import Verif.Icp.Smooth
/-!
C77: one iteration of ICP and of gradICP depends smoothly on the data.
-/
namespace Verif.Icp
open Verif Pcs Topology Filter
set_option linter.unusedSectionVars false

variable {E : Type*} [NormedAddCommGroup E] [NormedSpace ℝ E] {k : WithTop ℕ∞} {x0 : E}

/-! ### Solving the linear system -/

theorem Sm.fun_prod {ι : Type*} {s : Finset ι} {f : ι → E → ℝ} (h : ∀ i ∈ s, Sm k x0 (f i)) : Sm k x0 fun e => ∏ i ∈ s, f i e := by
  classical
  induction s using Finset.induction_on with
  | empty => simpa using Sm.const (k := k) (x0 := x0) 1
  | insert a s ha ih =>
    simp only [Finset.prod_insert ha]
    exact (h a (Finset.mem_insert_self a s)).fun_mul (ih fun i hi => h i (Finset.mem_insert_of_mem hi))

theorem det_smooth {n : Nat} {A : E → Matrix (Fin n) (Fin n) ℝ} (h : ∀ i j, Sm k x0 fun e => A e i j) : Sm k x0 fun e => (A e).det := by
  simp only [Matrix.det_apply']
  exact ContDiffAt.sum fun σ _ => (Sm.const _).fun_mul (Sm.fun_prod fun i _ => h _ _)

/-- The solution of a linear system with a regular matrix. -/
theorem solution_smooth {n : Nat} {A : E → Matrix (Fin n) (Fin n) ℝ} {g : E → Fin n → ℝ} (hA : ∀ i j, Sm k x0 fun e => A e i j)
    (hg : ∀ i, Sm k x0 fun e => g e i) (h0 : (A x0).det ≠ 0) (i : Fin n) : Sm k x0 fun e => ((A e)⁻¹.mulVec (g e)) i := by
  have hd := det_smooth hA
  have hc : Sm k x0 fun e => ((A e).updateCol i (g e)).det := det_smooth fun a b => by
    by_cases hb : b = i
    · subst hb; simpa using hg a
    · simpa [Matrix.updateCol_apply, hb] using hA a b
  have hev : ∀ᶠ e in 𝓝 x0, (A e).det ≠ 0 := hd.continuousAt.eventually_ne h0
  refine (hc.fun_div hd h0).congr (hev.mono fun e he => ?_)
  have := congrFun (Matrix.det_smul_inv_mulVec_eq_cramer (A e) (g e) (Ne.isUnit he)) i
  rw [Pi.smul_apply, smul_eq_mul, Matrix.cramer_apply] at this
  rw [eq_div_iff he, mul_comm]
  exact this

variable {nn : List (V3 ℝ) → V3 ℝ → Nat} {th : Option ℝ}

/-- The system of one iteration. -/
noncomputable def sysA (nn : List (V3 ℝ) → V3 ℝ → Nat) (th : Option ℝ) (tgt nrm src : List (V3 ℝ)) : T2 ℝ :=
  ⟨(taking th tgt src).map fun s => rowA s (nrm.getD (nn tgt s) V3.zero), 6⟩
noncomputable def sysB (nn : List (V3 ℝ) → V3 ℝ → Nat) (th : Option ℝ) (tgt nrm src : List (V3 ℝ)) : T2 ℝ :=
  ⟨(taking th tgt src).map fun s => [entryB s (tgt.getD (nn tgt s) V3.zero) (nrm.getD (nn tgt s) V3.zero)], 1⟩

/-- Entry of the normal matrix without damping. -/
theorem ata_eq {A : T2 ℝ} (i j : Fin A.cols) :
    ((toMat A).transpose * toMat A) i j = (A.rows.map fun r => r.getD i 0 * r.getD j 0).sum := by
  rw [Matrix.mul_apply, sum_map_fin (fun r : List ℝ => r.getD i 0 * r.getD j 0) [] A.rows.length A.rows rfl]
  rfl

theorem normalMatrix_entry {A : T2 ℝ} (d : ℝ) (i j : Fin A.cols) :
    normalMatrix A d i j = (A.rows.map fun r => r.getD i 0 * r.getD j 0).sum + d * (1 : Matrix (Fin A.cols) (Fin A.cols) ℝ) i j := by
  rw [normalMatrix, Matrix.add_apply, Matrix.smul_apply, smul_eq_mul, ata_eq]

theorem atb_eq {α : Type*} (l : List α) (f : α → List ℝ) (g : α → ℝ) (c : Nat) (i : Fin c) :
    ((toMat (⟨l.map f, c⟩ : T2 ℝ)).transpose.mulVec (colVec (l.map f).length (⟨l.map fun s => [g s], 1⟩ : T2 ℝ))) i =
      (l.map fun s => (f s).getD i 0 * g s).sum := by
  have h2 : (l.map fun s => (f s).getD i 0 * g s) = (l.map fun s => ((f s, g s) : List ℝ × ℝ)).map fun p => p.1.getD i 0 * p.2 := by
    rw [List.map_map]; rfl
  rw [h2, sum_map_fin (fun p : List ℝ × ℝ => p.1.getD i 0 * p.2) ([], 0) (l.map f).length _ (by simp)]
  rw [Matrix.mulVec, dotProduct]
  refine Finset.sum_congr rfl fun k _ => ?_
  have hk : (k : Nat) < l.length := by have := k.2; simpa using this
  simp [toMat, colVec, List.getD_eq_getElem?_getD, hk]

/-- Entries of a row are smooth in the point and the normal. -/
theorem rowA_smooth (i : Nat) {s n : E → V3 ℝ} (hs : SmV k x0 s) (hn : SmV k x0 n) : Sm k x0 fun e => (rowA (s e) (n e)).getD i 0 := by
  match i with
  | 0 => exact hn.x
  | 1 => exact hn.y
  | 2 => exact hn.z
  | 3 => exact (hn.z.fun_mul hs.y).fun_sub (hn.y.fun_mul hs.z)
  | 4 => exact (hn.x.fun_mul hs.z).fun_sub (hn.z.fun_mul hs.x)
  | 5 => exact (hn.y.fun_mul hs.x).fun_sub (hn.x.fun_mul hs.y)
  | i + 6 => exact Sm.const 0

theorem entryB_smooth {s d n : E → V3 ℝ} (hs : SmV k x0 s) (hd : SmV k x0 d) (hn : SmV k x0 n) : Sm k x0 fun e => entryB (s e) (d e) (n e) :=
  ((hn.x.fun_mul (hd.x.fun_sub hs.x)).fun_add (hn.y.fun_mul (hd.y.fun_sub hs.y))).fun_add (hn.z.fun_mul (hd.z.fun_sub hs.z))

/-- The solution `xi` of the damped system. -/
noncomputable def xiOf (nn : List (V3 ℝ) → V3 ℝ → Nat) (th : Option ℝ) (tgt nrm src : List (V3 ℝ)) (damp : ℝ) : Fin 6 → ℝ :=
  (normalMatrix (sysA nn th tgt nrm src) damp)⁻¹.mulVec ((toMat (sysA nn th tgt nrm src)).transpose.mulVec
    (colVec (sysA nn th tgt nrm src).rows.length (sysB nn th tgt nrm src)))

noncomputable def xiOfV (x : Fin 6 → ℝ) : V3 ℝ := ⟨x 0, x 1, x 2⟩
noncomputable def xiOfW (x : Fin 6 → ℝ) : V3 ℝ := ⟨x 3, x 4, x 5⟩

theorem xi_smooth (hn : NearestIn nn) {M N : Nat} (hM : 0 < M) {tgt nrm src : E → List (V3 ℝ)} (ht : SmL k x0 M tgt) (hm : SmL k x0 M nrm)
    (hs : SmL k x0 N src) (hset : ∀ s ∈ src x0, Settled th (tgt x0) s) {damp : E → ℝ} (hd : Sm k x0 damp) (hpos : 0 < damp x0) (i : Fin 6) :
    Sm k x0 fun e => xiOf nn th (tgt e) (nrm e) (src e) (damp e) i := by
  refine solution_smooth (A := fun e => normalMatrix (sysA nn th (tgt e) (nrm e) (src e)) (damp e)) (n := 6) (fun i j => ?_) (fun i => ?_)
    (normal_det_ne_zero _ hpos) i
  · have : (fun e => normalMatrix (sysA nn th (tgt e) (nrm e) (src e)) (damp e) i j) = fun e =>
        ((taking th (tgt e) (src e)).map fun s => (rowA s ((nrm e).getD (nn (tgt e) s) V3.zero)).getD i 0 *
          (rowA s ((nrm e).getD (nn (tgt e) s) V3.zero)).getD j 0).sum + damp e * (1 : Matrix (Fin 6) (Fin 6) ℝ) i j := by
      funext e
      refine (normalMatrix_entry (A := sysA nn th (tgt e) (nrm e) (src e)) (damp e) i j).trans ?_
      simp only [sysA, List.map_map]
      rfl
    rw [this]
    exact (assoc_sum_smooth hn hM ht hm hs hset (fun s _ n => (rowA s n).getD i 0 * (rowA s n).getD j 0)
      fun a b c ha _ hc => (rowA_smooth i ha hc).fun_mul (rowA_smooth j ha hc)).fun_add (hd.fun_mul (.const _))
  · have : (fun e => ((toMat (sysA nn th (tgt e) (nrm e) (src e))).transpose.mulVec
        (colVec (sysA nn th (tgt e) (nrm e) (src e)).rows.length (sysB nn th (tgt e) (nrm e) (src e)))) i) = fun e =>
        ((taking th (tgt e) (src e)).map fun s => (rowA s ((nrm e).getD (nn (tgt e) s) V3.zero)).getD i 0 *
          entryB s ((tgt e).getD (nn (tgt e) s) V3.zero) ((nrm e).getD (nn (tgt e) s) V3.zero)).sum := by
      funext e
      exact atb_eq _ _ _ 6 i
    rw [this]
    exact assoc_sum_smooth hn hM ht hm hs hset (fun s d n => (rowA s n).getD i 0 * entryB s d n)
      fun a b c ha hb hc => (rowA_smooth i ha hc).fun_mul (entryB_smooth ha hb hc)

theorem planeErr_smooth (hn : NearestIn nn) {M N : Nat} (hM : 0 < M) {tgt nrm src : E → List (V3 ℝ)} (ht : SmL k x0 M tgt) (hm : SmL k x0 M nrm)
    (hs : SmL k x0 N src) (hset : ∀ s ∈ src x0, Settled th (tgt x0) s) :
    Sm k x0 fun e => planeErr nn th (tgt e) (nrm e) (src e) :=
  assoc_sum_smooth hn hM ht hm hs hset (fun s d n => n.dot (s.sub d) ^ 2) fun a b c ha hb hc => by
    have h := hc.dot (ha.sub hb)
    exact ContDiffAt.pow h 2

/-! ### The look-ahead -/

/-- The look-ahead in closed form. -/
theorem lookahead_eq (hn : NearestIn nn) {tgt nrm : List (V3 ℝ)} (ht : tgt ≠ []) (hl : tgt.length = nrm.length) (eps : ℝ) (s : State) (hd : 0 < s.damp) :
    ∃ xi, lookahead eps nn th tgt nrm s = .ok (xi, planeErr nn th tgt nrm s.src,
        planeErr nn th tgt nrm (Geom.transformPointcloud (Geom.se3Exp eps (xiV xi) (xiW xi)) s.src),
        Geom.transformPointcloud (Geom.se3Exp eps (xiV xi) (xiW xi)) s.src, (taking th tgt s.src).map (nn tgt)) ∧
      IsStep nn th tgt nrm s.damp s.src (xiV xi) (xiW xi) ∧ xiV xi = xiOfV (xiOf nn th tgt nrm s.src s.damp) ∧
      xiW xi = xiOfW (xiOf nn th tgt nrm s.src s.damp) := by
  obtain ⟨xi, h1, h2⟩ := lookahead_spec hn ht hl (th := th) eps s hd
  refine ⟨xi, h1, h2, ?_⟩
  have hx : solveLinearSystem (sysA nn th tgt nrm s.src) (sysB nn th tgt nrm s.src) s.damp =
      .ok ⟨List.ofFn fun i => [xiOf nn th tgt nrm s.src s.damp i], 1⟩ := by
    rw [solveLinearSystem, if_neg (by simp [sysB]), if_neg (by simp [sysA, sysB]), if_neg (normal_det_ne_zero _ hd)]
    rfl
  rw [lookahead, gaussNewton_eq hn ht hl th] at h1
  change (match solveLinearSystem (sysA nn th tgt nrm s.src) (sysB nn th tgt nrm s.src) s.damp with
    | .error e => _
    | .ok xi => _) = _ at h1
  rw [hx] at h1
  simp only at h1
  rw [gaussNewton_eq hn ht hl th] at h1
  simp only [Except.ok.injEq, Prod.mk.injEq] at h1
  obtain ⟨rfl, _⟩ := h1
  exact ⟨V3.ext rfl rfl rfl, V3.ext rfl rfl rfl⟩

end Verif.Icp
