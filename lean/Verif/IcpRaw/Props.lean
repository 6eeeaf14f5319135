import Verif.IcpRaw.Model
/-!
Which exception, or which answer, the registration functions give for every combination of arguments (C111).
-/
namespace Verif.IcpRaw
open Verif Pcs Nd

/-- `t.shape`, outermost first. -/
def shape (t : Tensor ℝ) : List Nat := t.dims.reverse

/-- The argument is a tensor. -/
def IsTensor (a : Arg) : Prop := ∃ t, a = .tensor t

/-- The argument is a distance threshold: a float, an int or `None`. -/
def IsThresh (a : Arg) : Prop := a = .none ∨ (∃ x, a = .float x) ∨ ∃ n, a = .int n

/-- The argument is a float or an int. -/
def IsNumber (a : Arg) : Prop := (∃ x, a = .float x) ∨ ∃ n, a = .int n

/-- The argument is a tensor of the given shape. -/
def Shaped (a : Arg) (sh : List Nat) : Prop := ∃ t, a = .tensor t ∧ shape t = sh

/-- The number in a threshold argument. -/
def limit : Arg → Option ℝ
  | .float x => some x
  | .int n => some n
  | _ => .none

/-- The `n`-th point of batch element 0. -/
def pointAt (t : Tensor ℝ) (n : Nat) : V3 ℝ := ⟨t.get [0, n, 0], t.get [1, n, 0], t.get [2, n, 0]⟩

theorem cloud_eq {t : Tensor ℝ} {N : Nat} (h : t.dims[1]? = some N) : cloud t = (List.range N).map (pointAt t) := by
  simp only [cloud, List.getD_eq_getElem?_getD, h, Option.getD_some]
  rfl

theorem cloud_ofCloud (l : List (V3 ℝ)) : cloud (ofCloud l) = l := by
  rw [cloud_eq (N := l.length) rfl]
  refine List.ext_getElem (by simp) fun i h1 h2 => ?_
  simp [pointAt, ofCloud, List.getD_eq_getElem?_getD, h2]

theorem shape_iff {t : Tensor ℝ} {a b c : Nat} : shape t = [a, b, c] ↔ t.dims = [c, b, a] := by
  unfold shape
  constructor
  · intro h; have := congrArg List.reverse h; simpa using this
  · intro h; rw [h]; rfl

theorem shape2_iff {t : Tensor ℝ} {a b : Nat} : shape t = [a, b] ↔ t.dims = [b, a] := by
  unfold shape
  constructor
  · intro h; have := congrArg List.reverse h; simpa using this
  · intro h; rw [h]; rfl

theorem shape0_iff {t : Tensor ℝ} : shape t = [] ↔ t.dims = [] := by simp [shape]

theorem thresh_none {a : Arg} : a.thresh? = .none ↔ ¬ IsThresh a := by
  cases a <;> simp [Arg.thresh?, IsThresh]

theorem thresh_some {a : Arg} (h : IsThresh a) : a.thresh? = some (limit a) := by
  rcases h with rfl | ⟨x, rfl⟩ | ⟨n, rfl⟩ <;> rfl

theorem number_none {a : Arg} : a.number? = .none ↔ ¬ IsNumber a := by
  cases a <;> simp [Arg.number?, IsNumber]

theorem number_some {a : Arg} (h : IsNumber a) : a.number? = limit a := by
  rcases h with ⟨x, rfl⟩ | ⟨n, rfl⟩ <;> rfl

theorem dims3 {t : Tensor ℝ} {c a : Nat} (h : t.rank = 3) (h0 : t.dims[0]? = some c) (h2 : t.dims[2]? = some a) :
    ∃ b, t.dims = [c, b, a] := by
  obtain ⟨ds, g⟩ := t
  match ds, h, h0, h2 with
  | [x, y, z], _, h0, h2 => simp at h0 h2; exact ⟨y, by simp [h0, h2]⟩

/-! ### gauss_newton_solve -/
section
variable {nn : List (V3 ℝ) → V3 ℝ → Nat}

theorem gaussT_bad {th : Option ℝ} {s t m : Tensor ℝ}
    (h : ¬ ∃ Ns Nt, s.dims = [3, Ns, 1] ∧ t.dims = [3, Nt, 1] ∧ m.dims = [3, Nt, 1]) : gaussT nn th s t m = .error .valueError := by
  unfold gaussT
  by_cases h1 : s.rank ≠ 3
  · rw [if_pos h1]
  rw [if_neg h1]
  by_cases h2 : t.rank ≠ 3
  · rw [if_pos h2]
  rw [if_neg h2]
  by_cases h3 : m.rank ≠ 3
  · rw [if_pos h3]
  rw [if_neg h3]
  by_cases h4 : s.dims[2]? ≠ some 1
  · rw [if_pos h4]
  rw [if_neg h4]
  by_cases h5 : t.dims[2]? ≠ some 1
  · rw [if_pos h5]
  rw [if_neg h5]
  by_cases h6 : m.dims[2]? ≠ some 1
  · rw [if_pos h6]
  rw [if_neg h6]
  by_cases h7 : t.dims[1]? ≠ m.dims[1]?
  · rw [if_pos h7]
  rw [if_neg h7]
  by_cases h8 : s.dims[0]? ≠ some 3
  · rw [if_pos h8]
  rw [if_neg h8]
  by_cases h9 : t.dims[0]? ≠ some 3
  · rw [if_pos h9]
  rw [if_neg h9]
  by_cases h10 : m.dims[0]? ≠ some 3
  · rw [if_pos h10]
  rw [if_neg h10]
  exfalso
  rw [ne_eq, not_not] at h1 h2 h3 h4 h5 h6 h7 h8 h9 h10
  obtain ⟨Ns, e1⟩ := dims3 h1 h8 h4
  obtain ⟨Nt, e2⟩ := dims3 h2 h9 h5
  obtain ⟨Nm, e3⟩ := dims3 h3 h10 h6
  rw [e2, e3] at h7
  simp at h7
  exact h ⟨Ns, Nt, e1, e2, by rw [e3, h7]⟩

theorem gaussT_good {th : Option ℝ} {s t m : Tensor ℝ} {Ns Nt : Nat} (hs : s.dims = [3, Ns, 1]) (ht : t.dims = [3, Nt, 1])
    (hm : m.dims = [3, Nt, 1]) : gaussT nn th s t m = lift (Icp.gaussNewton nn th (cloud s) (cloud t) (cloud m)) := by
  unfold gaussT Tensor.rank
  simp [hs, ht, hm]

/-- C111.  `gauss_newton_solve`: an argument of the wrong type is a TypeError, whatever the others are. -/
theorem gauss_type {src tgt nrm th : Arg} (h : ¬ (IsTensor src ∧ IsTensor tgt ∧ IsTensor nrm ∧ IsThresh th)) :
    gauss nn src tgt nrm th = .error .typeError := by
  unfold gauss
  cases src <;> try rfl
  cases tgt <;> try rfl
  cases nrm <;> try rfl
  have : th.thresh? = .none := thresh_none.2 fun h' => h ⟨⟨_, rfl⟩, ⟨_, rfl⟩, ⟨_, rfl⟩, h'⟩
  simp only [this]

/-- C111.  `gauss_newton_solve`: with the right types, any shapes other than `(1, Ns, 3)`, `(1, Nt, 3)`, `(1, Nt, 3)` are a ValueError. -/
theorem gauss_value {src tgt nrm th : Arg} (h : IsTensor src ∧ IsTensor tgt ∧ IsTensor nrm ∧ IsThresh th)
    (hs : ¬ ∃ Ns Nt, Shaped src [1, Ns, 3] ∧ Shaped tgt [1, Nt, 3] ∧ Shaped nrm [1, Nt, 3]) :
    gauss nn src tgt nrm th = .error .valueError := by
  obtain ⟨⟨s, rfl⟩, ⟨t, rfl⟩, ⟨m, rfl⟩, hth⟩ := h
  simp only [gauss, thresh_some hth]
  refine gaussT_bad ?_
  rintro ⟨Ns, Nt, e1, e2, e3⟩
  exact hs ⟨Ns, Nt, ⟨s, rfl, shape_iff.2 e1⟩, ⟨t, rfl, shape_iff.2 e2⟩, ⟨m, rfl, shape_iff.2 e3⟩⟩

/-- C111.  `gauss_newton_solve`: on the documented types and shapes it computes on the points of the three tensors. -/
theorem gauss_good {s t m : Tensor ℝ} {th : Arg} {Ns Nt : Nat} (hth : IsThresh th) (hs : shape s = [1, Ns, 3]) (ht : shape t = [1, Nt, 3])
    (hm : shape m = [1, Nt, 3]) :
    gauss nn (.tensor s) (.tensor t) (.tensor m) th = lift (Icp.gaussNewton nn (limit th) ((List.range Ns).map (pointAt s))
      ((List.range Nt).map (pointAt t)) ((List.range Nt).map (pointAt m))) := by
  rw [shape_iff] at hs ht hm
  simp only [gauss, thresh_some hth]
  rw [gaussT_good hs ht hm, cloud_eq (by rw [hs]; rfl), cloud_eq (by rw [ht]; rfl), cloud_eq (by rw [hm]; rfl)]

/-- C111.  It therefore answers exactly on the documented shapes (given points to match with), with one row per source point closer
than the threshold. -/
theorem gauss_answers_iff (hn : Icp.NearestIn nn) {src tgt nrm th : Arg} (hne : ∀ t, tgt = .tensor t → shape t ≠ [1, 0, 3]) :
    (∃ r, gauss nn src tgt nrm th = .ok r) ↔
      (∃ Ns Nt, Shaped src [1, Ns, 3] ∧ Shaped tgt [1, Nt, 3] ∧ Shaped nrm [1, Nt, 3]) ∧ IsThresh th := by
  constructor
  · rintro ⟨r, hr⟩
    by_cases h1 : IsTensor src ∧ IsTensor tgt ∧ IsTensor nrm ∧ IsThresh th
    · refine ⟨?_, h1.2.2.2⟩
      by_contra h2
      rw [gauss_value h1 h2] at hr
      cases hr
    · rw [gauss_type h1] at hr
      cases hr
  · rintro ⟨⟨Ns, Nt, ⟨s, rfl, hs⟩, ⟨t, rfl, ht⟩, ⟨m, rfl, hm⟩⟩, hth⟩
    have hNt : Nt ≠ 0 := fun h => hne t rfl (by rw [ht, h])
    rw [gauss_good hth hs ht hm, Icp.gaussNewton_eq hn (by simpa using hNt) (by simp)]
    exact ⟨_, rfl⟩
end

/-! ### solve_linear_system -/

/-- `solve_linear_system`: TypeErrors, an `int` damping among them. -/
theorem solve_type {A b damp : Arg} (h : ¬ (IsTensor A ∧ IsTensor b ∧ (IsTensor damp ∨ ∃ x, damp = .float x))) :
    solve A b damp = .error .typeError := by
  unfold solve
  cases A <;> try rfl
  cases b <;> try rfl
  cases damp <;> first | rfl | exact absurd ⟨⟨_, rfl⟩, ⟨_, rfl⟩, Or.inl ⟨_, rfl⟩⟩ h | exact absurd ⟨⟨_, rfl⟩, ⟨_, rfl⟩, Or.inr ⟨_, rfl⟩⟩ h

/-- `solve_linear_system`: with the right types, any shapes other than `(m, n)`, `(m, 1)` and a 0-dimensional damping are a ValueError. -/
theorem solve_value {A b damp : Arg} (h : IsTensor A ∧ IsTensor b ∧ (IsTensor damp ∨ ∃ x, damp = .float x))
    (hs : ¬ ((∃ m n, Shaped A [m, n] ∧ Shaped b [m, 1]) ∧ (Shaped damp [] ∨ ∃ x, damp = .float x))) :
    solve A b damp = .error .valueError := by
  obtain ⟨⟨A, rfl⟩, ⟨b, rfl⟩, hd⟩ := h
  have key : (∃ m n, A.dims = [n, m] ∧ b.dims = [1, m]) ∨ ∀ x, solveT A b x = .error .valueError := by
    by_contra hc
    push Not at hc
    obtain ⟨h0, x, hx⟩ := hc
    unfold solveT at hx
    split_ifs at hx with h1 h2 h3 h4 <;> try exact hx rfl
    push Not at h1 h2 h3 h4
    obtain ⟨da, ga⟩ := A
    obtain ⟨db, gb⟩ := b
    match da, db, h1, h2, h3, h4 with
    | [n, m], [k, m'], _, _, h3, h4 =>
      simp at h3 h4
      exact h0 m n rfl (by simp [h3, h4])
  rcases key with ⟨m, n, e1, e2⟩ | key
  · have hd' : ¬ (Shaped damp [] ∨ ∃ x, damp = .float x) := fun hd' =>
      hs ⟨⟨m, n, ⟨A, rfl, shape2_iff.2 e1⟩, ⟨b, rfl, shape2_iff.2 e2⟩⟩, hd'⟩
    rcases hd with ⟨d, rfl⟩ | ⟨x, rfl⟩
    · simp only [solve]
      rw [if_pos]
      intro h0
      exact hd' (Or.inl ⟨d, rfl, shape0_iff.2 (List.eq_nil_of_length_eq_zero h0)⟩)
    · exact absurd (Or.inr ⟨x, rfl⟩) hd'
  · rcases hd with ⟨d, rfl⟩ | ⟨x, rfl⟩
    · simp only [solve, key]; split <;> rfl
    · simp only [solve, key]

/-- The value of a damping argument. -/
def dampValue : Arg → ℝ
  | .tensor d => d.get []
  | .float x => x
  | _ => 0

/-- `solve_linear_system`: on the documented types and shapes and with positive damping it answers, and the answer solves the normal
equations `(AᵀA + damp I) x = Aᵀ b`. -/
theorem solve_good {A b : Tensor ℝ} {damp : Arg} {m n : Nat} (hA : shape A = [m, n]) (hb : shape b = [m, 1])
    (hd : Shaped damp [] ∨ ∃ x, damp = .float x) (hpos : 0 < dampValue damp) :
    ∃ x : T2 ℝ, solve (.tensor A) (.tensor b) damp = .ok x ∧ x.cols = 1 ∧ x.rows.length = n ∧ ∀ j < n,
      ∑ i ∈ Finset.range m, A.get [j, i] * (∑ k ∈ Finset.range n, A.get [k, i] * (Icp.col x).getD k 0 - b.get [0, i])
        + dampValue damp * (Icp.col x).getD j 0 = 0 := by
  rw [shape2_iff] at hA hb
  have e : solve (.tensor A) (.tensor b) damp = lift (Icp.solveLinearSystem (toT2 A) (toT2 b) (dampValue damp)) := by
    have : ∀ x, solveT A b x = lift (Icp.solveLinearSystem (toT2 A) (toT2 b) x) := by
      intro x; unfold solveT Tensor.rank; simp [hA, hb]
    rcases hd with ⟨d, rfl, h0⟩ | ⟨x, rfl⟩
    · rw [shape0_iff] at h0
      simp only [solve]
      rw [if_neg (by simp [Tensor.rank, h0]), this]; rfl
    · simp only [solve, this]; rfl
  have c1 : (toT2 A).cols = n := by simp [toT2, hA]
  have c2 : (toT2 A).rows.length = m := by simp [toT2, hA]
  obtain ⟨x, h1, h2, _, h4, h5, _⟩ := Icp.solve_minimises (A := toT2 A) (b := toT2 b) (by
    intro r hr
    simp only [toT2, List.mem_map] at hr
    obtain ⟨_, _, rfl⟩ := hr
    simp [toT2]) (by simp [toT2, hb]) (by simp [toT2, hA, hb]) hpos
  refine ⟨x, by rw [e, h1]; rfl, h2, by rw [h4, c1], fun j hj => ?_⟩
  have h6 := h5 j (by rw [c1]; exact hj)
  have hcol : (Icp.col x).length = n := by rw [Icp.col_length, h4, c1]
  rw [Icp.gradAt, Icp.sum_zipWith _ [] 0 m (toT2 A).rows (Icp.col (toT2 b)) c2 (by rw [Icp.col_length]; simp [toT2, hb])] at h6
  refine Eq.trans ?_ h6
  rw [Finset.sum_range]
  congr 1
  refine Finset.sum_congr rfl fun i _ => ?_
  have hr : (toT2 A).rows.getD i [] = (List.range n).map fun c => A.get [c, i] := by
    simp [toT2, hA, List.getD_eq_getElem?_getD, i.2]
  have hbi : (Icp.col (toT2 b)).getD i 0 = b.get [0, i] := by
    simp [Icp.col, toT2, hb, List.getD_eq_getElem?_getD, i.2]
  rw [hr, hbi, Icp.dotL_eq (n := n) (by simp) hcol, Finset.sum_range]
  congr 1
  · simp [List.getD_eq_getElem?_getD, hj]
  · congr 1
    refine Finset.sum_congr rfl fun k _ => ?_
    simp [List.getD_eq_getElem?_getD, k.2]
end Verif.IcpRaw
