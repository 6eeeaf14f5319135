import Verif.Icp.Down
/-!
C63: the odometry providers.
-/
namespace Verif.Icp
open Verif Pcs
set_option linter.unusedSectionVars false

section
variable {α : Type*} [Field α] [LinearOrder α] [IsStrictOrderedRing α]

theorem collect_ok {β : Type*} {f : Nat → Except Err β} {g : Nat → β} : ∀ {l : List Nat}, (∀ b ∈ l, f b = .ok (g b)) →
    collect f l = .ok (l.map g) := by
  intro l
  induction l with
  | nil => intro _; rfl
  | cons b l ih =>
    intro h
    rw [collect, h b (List.mem_cons_self ..)]
    simp only [ih fun c hc => h c (List.mem_cons_of_mem _ hc), List.map_cons]

theorem collect_error {β : Type*} {f : Nat → Except Err β} {e : Err} : ∀ {l : List Nat} {b : Nat}, b ∈ l → (∀ c ∈ l, ∀ e', f c = .error e' → e' = e) →
    f b = .error e → collect f l = .error e := by
  intro l
  induction l with
  | nil => intro b hb; simp at hb
  | cons c l ih =>
    intro b hb hall he
    rw [collect]
    cases hc : f c with
    | error e' => rw [hall c (List.mem_cons_self ..) e' hc]
    | ok x =>
      have hb' : b ∈ l := by
        rcases List.mem_cons.1 hb with h | h
        · rw [h, hc] at he; simp at he
        · exact h
      simp only [ih hb' (fun d hd => hall d (List.mem_cons_of_mem _ hd)) he]

/-- The points handed to a registration: point `k` is row `k` of the cloud, its columns are `x`, `y`, `z`. -/
theorem handed_in_order (t : T2 α) : (vecs t).length = t.rows.length ∧
    ∀ (k : Nat) (x y z : α), t.rows[k]? = some [x, y, z] → (vecs t)[k]? = some ⟨x, y, z⟩ := by
  refine ⟨by simp [vecs], fun k x y z h => ?_⟩
  simp [vecs, h, Fusion.toV3]

/-- The provider runs one registration per batch element, each from the identity, source = frame cloud, target = map cloud and normals. -/
theorem provide_eq {icp : List (V3 α) → List (V3 α) → List (V3 α) → Option (M4 α) → Except Err (M4 α × List Nat)} {maps frames : PC α}
    {am af : Clouds α} {P Q Nn : List (T2 α)} (hm : Inv maps am) (hf : Inv frames af) (hQ : am .points = some Q) (hN : am .normals = some Nn)
    (hP : af .points = some P) (hl : Q.length = P.length) {R : Nat → M4 α × List Nat}
    (hR : ∀ b < P.length, icp (vecs (P.getD b ⟨[], 0⟩)) (vecs (Q.getD b ⟨[], 0⟩)) (vecs (Nn.getD b ⟨[], 0⟩)) (some M4.one) = .ok (R b)) :
    provide icp maps frames = .ok ((List.range P.length).map fun b => (R b).1) := by
  have om := inv_obs hm
  have of := inv_obs hf
  have e1 : maps.B = P.length := by rw [om.size, count, hQ]; simpa using hl
  have e2 : frames.B = P.length := by rw [of.size, count, hP]; rfl
  have hne : P.length ≠ 0 := by have := (Fusion.wf_of_inv hf hP).ne; simpa using this
  rw [provide, om.list, hN]
  simp only [e1, e2, ne_eq, not_true_eq_false, if_false, hne]
  rw [om.list, of.list, hQ, hP]
  exact collect_ok fun b hb => by rw [hR b (List.mem_range.1 hb)]

/-- A map without normals, or with a different batch size, is a ValueError. -/
theorem provide_errors {icp : List (V3 α) → List (V3 α) → List (V3 α) → Option (M4 α) → Except Err (M4 α × List Nat)} {maps frames : PC α}
    {am af : Clouds α} (hm : Inv maps am) (hf : Inv frames af) (h : am .normals = none ∨ count am ≠ count af) :
    provide icp maps frames = .error .valueError := by
  have om := inv_obs hm
  have of := inv_obs hf
  rw [provide, om.list]
  cases hN : am .normals with
  | none => rfl
  | some Nn =>
    have : maps.B ≠ frames.B := by rw [om.size, of.size]; exact h.resolve_left (by simp [hN])
    simp only [this, ne_eq, not_false_eq_true, if_true]

/-! ### Ground truth -/

/-- C63 (ground truth).  If both batches have poses, are of length 1 and of equal size, and the first poses are invertible, the provider
returns for each batch element the transform `T` with `pose₁ ∘ T = pose₂`. -/
theorem ground_truth_relative {inv : M4 α → Option (M4 α)} (hinv : ∀ T S, inv T = some S → T.mul S = M4.one ∧ S.mul T = M4.one) {B : Nat}
    {p1 p2 : Nat → Nat → M4 α} (h1 : ∀ b < B, (p1 b 0).Affine ∧ (inv (p1 b 0)).isSome) (h2 : ∀ b < B, (p2 b 0).Affine) :
    ∃ T : Nat → M4 α, groundTruthProvide inv B 1 (some p1) B 1 (some p2) = .ok ((List.range B).map T) ∧
      ∀ b < B, (p1 b 0).mul (T b) = p2 b 0 := by
  refine ⟨fun b => Geom.relativeTransformation (fun T => (inv T).getD T) false (p1 b 0) (p2 b 0), ?_, fun b hb => ?_⟩
  · rw [groundTruthProvide]
    simp only [ne_eq, not_true_eq_false, if_false]
    refine collect_ok fun b hb => ?_
    obtain ⟨S, hS⟩ := Option.isSome_iff_exists.1 (h1 b (List.mem_range.1 hb)).2
    rw [hS]
  · obtain ⟨ha, hi⟩ := h1 b hb
    obtain ⟨S, hS⟩ := Option.isSome_iff_exists.1 hi
    obtain ⟨hS1, hS2⟩ := hinv _ _ hS
    have hSa : S.Affine := by
      obtain ⟨a1, a2⟩ := ha
      obtain ⟨e1, e2⟩ := (M4.ext_iff.1 hS1).2.2
      simp only [M4.mul, M4.one, a1, a2] at e1 e2
      constructor
      · rw [← e1]; ext <;> simp [V3.add, V3.smul, V3.zero, M3.mulVec, V3.dot]
      · rw [← e2]; simp [V3.dot, V3.zero]
    have := Geom.compose_is_matrix_product S (p2 b 0) hSa (h2 b hb)
    show (p1 b 0).mul (Geom.relativeTransformation _ _ _ _) = _
    simp only [Geom.relativeTransformation, hS, Option.getD_some, Bool.false_eq_true, if_false]
    rw [this, ← M4.mul_assoc, hS1, M4.one_mul]

/-- Missing poses, sequences longer than one frame and different batch sizes raise ValueError; a singular pose raises RuntimeError. -/
theorem ground_truth_errors {inv : M4 α → Option (M4 α)} {B1 L1 B2 L2 : Nat} {p1 p2 : Option (Nat → Nat → M4 α)} :
    (p1 = none ∨ p2 = none ∨ L1 ≠ 1 ∨ L2 ≠ 1 ∨ B1 ≠ B2 → groundTruthProvide inv B1 L1 p1 B2 L2 p2 = .error .valueError) ∧
    (∀ q1 q2 b, p1 = some q1 → p2 = some q2 → L1 = 1 → L2 = 1 → B1 = B2 → b < B1 → inv (q1 b 0) = none →
      groundTruthProvide inv B1 L1 p1 B2 L2 p2 = .error .runtimeError) := by
  constructor
  · intro h
    cases p1 with
    | none => rfl
    | some q1 => cases p2 with
      | none => rfl
      | some q2 =>
        simp only [reduceCtorEq, false_or] at h
        rw [groundTruthProvide]
        by_cases h1 : L1 ≠ 1
        · rw [if_pos h1]
        · rw [if_neg h1]
          by_cases h2 : L2 ≠ 1
          · rw [if_pos h2]
          · rw [if_neg h2, if_pos ((h.resolve_left h1).resolve_left h2)]
  · rintro q1 q2 b rfl rfl rfl rfl rfl hb hn
    rw [groundTruthProvide]
    simp only [ne_eq, not_true_eq_false, if_false]
    refine collect_error (b := b) (by simpa using hb) (fun c _ e' he => ?_) (by simp [hn])
    cases hc : inv (q1 c 0) with
    | none => rw [hc] at he; simpa using he.symm
    | some S => rw [hc] at he; simp at he

/-- The hypotheses are met by an inverse of translations. -/
example : ∃ T : Nat → M4 ℚ, groundTruthProvide (fun T => some ⟨M3.one, T.t.neg, V3.zero, 1⟩) 1 1
    (some fun _ _ => ⟨M3.one, ⟨1, 0, 0⟩, V3.zero, 1⟩) 1 1 (some fun _ _ => ⟨M3.one, ⟨3, 0, 0⟩, V3.zero, 1⟩) = .ok ((List.range 1).map T) ∧
    T 0 = ⟨M3.one, ⟨2, 0, 0⟩, V3.zero, 1⟩ :=
  ⟨fun _ => ⟨M3.one, ⟨2, 0, 0⟩, V3.zero, 1⟩, by decide +kernel, rfl⟩
end

/-! ### ICP -/

/-- C63 (ICP).  For all batches with equally many frame and map clouds, every map cloud non-empty and with normals, positive damping and at
least one iteration, `ICPOdometryProvider.provide` returns one transform per batch element; it is the end of a Levenberg-Marquardt history
from the identity, so applying it to the frame cloud never increases the point-to-plane error to the map cloud. -/
theorem icp_provider {nn : List (V3 ℝ) → V3 ℝ → Nat} (hn : NearestIn nn) (eps : ℝ) {th : Option ℝ} {damp : ℝ} (hd : 0 < damp) {n : Int}
    (hn1 : 1 ≤ n) {maps frames : PC ℝ} {am af : Clouds ℝ} {P Q Nn : List (T2 ℝ)} (hm : Inv maps am) (hf : Inv frames af)
    (hQ : am .points = some Q) (hN : am .normals = some Nn) (hP : af .points = some P) (hl : Q.length = P.length)
    (hne : ∀ t ∈ Q, t.rows ≠ []) :
    ∃ T : Nat → M4 ℝ, provide (fun src tgt nrm T0 => pointToPlaneICP eps nn src tgt nrm T0 n damp th) maps frames =
        .ok ((List.range P.length).map T) ∧
      ∀ b p q m, P[b]? = some p → Q[b]? = some q → Nn[b]? = some m →
        (∃ (τ : Nat → M4 ℝ) (d : Nat → ℝ), τ 0 = M4.one ∧ d 0 = damp ∧ LMTrace nn th (vecs q) (vecs m) eps (vecs p) n.toNat τ d ∧ T b = τ n.toNat) ∧
        planeErr nn th (vecs q) (vecs m) (Geom.transformPointcloud (T b) (vecs p)) ≤ planeErr nn th (vecs q) (vecs m) (vecs p) := by
  have hwm := Fusion.wf_of_inv hm hQ
  have hrun : ∀ b, ∃ R : M4 ℝ × List Nat, b < P.length →
      pointToPlaneICP eps nn (vecs (P.getD b ⟨[], 0⟩)) (vecs (Q.getD b ⟨[], 0⟩)) (vecs (Nn.getD b ⟨[], 0⟩)) (some M4.one) n damp th = .ok R ∧
      ∃ (τ : Nat → M4 ℝ) (d : Nat → ℝ), τ 0 = M4.one ∧ d 0 = damp ∧
        LMTrace nn th (vecs (Q.getD b ⟨[], 0⟩)) (vecs (Nn.getD b ⟨[], 0⟩)) eps (vecs (P.getD b ⟨[], 0⟩)) n.toNat τ d ∧ R.1 = τ n.toNat := by
    intro b
    by_cases hb : b < P.length
    · have hbQ : b < Q.length := hl ▸ hb
      have hbN : b < Nn.length := by rw [hwm.length hN]; exact hbQ
      have ht : vecs (Q.getD b ⟨[], 0⟩) ≠ [] := by
        rw [List.getD_eq_getElem _ _ hbQ]
        simpa [vecs] using hne _ (List.getElem_mem hbQ)
      have hlen : (vecs (Q.getD b ⟨[], 0⟩)).length = (vecs (Nn.getD b ⟨[], 0⟩)).length := by
        rw [List.getD_eq_getElem _ _ hbQ, List.getD_eq_getElem _ _ hbN]
        have h1 : sizes Nn = sizes Q := hwm.rows _ _ hN
        have h2 : (sizes Nn)[b]? = (sizes Q)[b]? := by rw [h1]
        simp only [sizes, List.getElem?_map, List.getElem?_eq_getElem hbQ, List.getElem?_eq_getElem hbN, Option.map_some, Option.some.injEq] at h2
        simp [vecs, h2]
      obtain ⟨τ, d, h0, hd0, htr, hres⟩ := icp_is_lm (th := th) hn ht hlen eps (vecs (P.getD b ⟨[], 0⟩)) (T0 := M4.one) ⟨rfl, rfl⟩ hd hn1
      exact ⟨_, fun _ => ⟨hres, τ, d, h0, hd0, htr, rfl⟩⟩
    · exact ⟨(M4.one, []), fun h => absurd h hb⟩
  choose R hR using hrun
  refine ⟨fun b => (R b).1, provide_eq hm hf hQ hN hP hl fun b hb => (hR b hb).1, ?_⟩
  intro b p q m hp hq hmm
  have hb : b < P.length := (List.getElem?_eq_some_iff.1 hp).1
  obtain ⟨_, τ, d, h0, hd0, htr, hT⟩ := hR b hb
  have g : ∀ {l : List (T2 ℝ)} {t : T2 ℝ}, l[b]? = some t → l.getD b ⟨[], 0⟩ = t := by
    intro l t h; rw [List.getD_eq_getElem?_getD, h]; rfl
  rw [g hp, g hq, g hmm] at htr
  refine ⟨⟨τ, d, h0, hd0, htr, hT⟩, ?_⟩
  have := lm_error_le htr (Nat.zero_le _) (le_refl n.toNat)
  have hid : Geom.transformPointcloud (M4.one : M4 ℝ) (vecs p) = vecs p := by
    simp only [Geom.transformPointcloud]
    conv_rhs => rw [← List.map_id (vecs p)]
    refine List.map_congr_left fun x _ => ?_
    ext <;> simp [M4.one, M3.one, M3.mulVec, V3.dot, V3.add, V3.zero]
  rw [h0, hid] at this
  simp only [hT]; exact this

/-- The same for `GradICPOdometryProvider` (whose steps are not guaranteed to decrease the error). -/
theorem gradicp_provider {nn : List (V3 ℝ) → V3 ℝ → Nat} (hn : NearestIn nn) {eps lmax B B2 nu : ℝ} (hlm : 1 < lmax) {th : Option ℝ} {damp : ℝ}
    (hd : 0 < damp) {n : Int}
    (hn1 : 1 ≤ n) {maps frames : PC ℝ} {am af : Clouds ℝ} {P Q Nn : List (T2 ℝ)} (hm : Inv maps am) (hf : Inv frames af)
    (hQ : am .points = some Q) (hN : am .normals = some Nn) (hP : af .points = some P) (hl : Q.length = P.length)
    (hne : ∀ t ∈ Q, t.rows ≠ []) :
    ∃ T : Nat → M4 ℝ, provide (fun src tgt nrm T0 => pointToPlaneGradICP eps lmax B B2 nu nn src tgt nrm T0 n damp th) maps frames =
        .ok ((List.range P.length).map T) ∧
      ∀ b p q m, P[b]? = some p → Q[b]? = some q → Nn[b]? = some m →
        ∃ (τ : Nat → M4 ℝ) (d : Nat → ℝ), τ 0 = M4.one ∧ d 0 = damp ∧
          GradTrace nn th (vecs q) (vecs m) eps lmax B B2 nu (vecs p) n.toNat τ d ∧ T b = τ n.toNat := by
  have hwm := Fusion.wf_of_inv hm hQ
  have hrun : ∀ b, ∃ R : M4 ℝ × List Nat, b < P.length →
      pointToPlaneGradICP eps lmax B B2 nu nn (vecs (P.getD b ⟨[], 0⟩)) (vecs (Q.getD b ⟨[], 0⟩)) (vecs (Nn.getD b ⟨[], 0⟩)) (some M4.one) n damp th = .ok R ∧
      ∃ (τ : Nat → M4 ℝ) (d : Nat → ℝ), τ 0 = M4.one ∧ d 0 = damp ∧
        GradTrace nn th (vecs (Q.getD b ⟨[], 0⟩)) (vecs (Nn.getD b ⟨[], 0⟩)) eps lmax B B2 nu (vecs (P.getD b ⟨[], 0⟩)) n.toNat τ d ∧ R.1 = τ n.toNat := by
    intro b
    by_cases hb : b < P.length
    · have hbQ : b < Q.length := hl ▸ hb
      have hbN : b < Nn.length := by rw [hwm.length hN]; exact hbQ
      have ht : vecs (Q.getD b ⟨[], 0⟩) ≠ [] := by
        rw [List.getD_eq_getElem _ _ hbQ]
        simpa [vecs] using hne _ (List.getElem_mem hbQ)
      have hlen : (vecs (Q.getD b ⟨[], 0⟩)).length = (vecs (Nn.getD b ⟨[], 0⟩)).length := by
        rw [List.getD_eq_getElem _ _ hbQ, List.getD_eq_getElem _ _ hbN]
        have h1 : sizes Nn = sizes Q := hwm.rows _ _ hN
        have h2 : (sizes Nn)[b]? = (sizes Q)[b]? := by rw [h1]
        simp only [sizes, List.getElem?_map, List.getElem?_eq_getElem hbQ, List.getElem?_eq_getElem hbN, Option.map_some, Option.some.injEq] at h2
        simp [vecs, h2]
      obtain ⟨τ, d, h0, hd0, htr, hres⟩ := grad_is_trace (th := th) (eps := eps) (B := B) (B2 := B2) (nu := nu) hn ht hlen hlm
        (vecs (P.getD b ⟨[], 0⟩)) (T0 := M4.one) ⟨rfl, rfl⟩ hd hn1
      exact ⟨_, fun _ => ⟨hres, τ, d, h0, hd0, htr, rfl⟩⟩
    · exact ⟨(M4.one, []), fun h => absurd h hb⟩
  choose R hR using hrun
  refine ⟨fun b => (R b).1, provide_eq hm hf hQ hN hP hl fun b hb => (hR b hb).1, ?_⟩
  intro b p q m hp hq hmm
  have hb : b < P.length := (List.getElem?_eq_some_iff.1 hp).1
  obtain ⟨_, τ, d, h0, hd0, htr, hT⟩ := hR b hb
  have g : ∀ {l : List (T2 ℝ)} {t : T2 ℝ}, l[b]? = some t → l.getD b ⟨[], 0⟩ = t := by
    intro l t h; rw [List.getD_eq_getElem?_getD, h]; rfl
  rw [g hp, g hq, g hmm] at htr
  exact ⟨τ, d, h0, hd0, htr, hT⟩
end Verif.Icp
