import Verif.Nd.Props
import Mathlib.Data.Nat.ModEq
/-!
C108, continued: `homogenize_points`, `unhomogenize_points`, `inverse_intrinsics`, `transform_pts_3d`, `transform_pts_nd_KF`,
`cam2pixel`, `pixel2cam`, `cam2pixel_KF` and `quaternion_to_rotation_matrix` on tensors of any rank.
-/
namespace Verif.Nd
set_option linter.unusedSectionVars false
open Verif.Nd Verif.Nd.Tensor Verif.Nd.Spec

variable {α : Type*} [Field α] [LinearOrder α]

/-! ### Homogeneous coordinates -/

/-- `homogenize_points` accepts exactly the tensors with at least two dimensions, appends one coordinate equal to 1 and
keeps everything else. -/
theorem homogenize_result (pts : Tensor α) :
    (pts.rank < 2 → homogenizePoints pts = .error .valueError) ∧
    ∀ d m ds, pts.dims = d :: m :: ds → ∃ out, homogenizePoints pts = .ok out ∧ out.dims = (d + 1) :: m :: ds ∧
      ∀ k is, out.get (k :: is) = homog d (fun l => pts.get (l :: is)) k := by
  refine ⟨fun h => by unfold homogenizePoints; rw [if_pos h], ?_⟩
  intro d m ds h
  refine ⟨_, homogenizePoints_ok h, by simp [padOne, h], ?_⟩
  intro k is
  simp [padOne, h, homog]

/-- `unhomogenize_points` accepts exactly the tensors with at least two dimensions, drops the last coordinate and divides
the others by it. -/
theorem unhomogenize_result (eps : α) (pts : Tensor α) :
    (pts.rank < 2 → unhomogenizePoints eps pts = .error .valueError) ∧
    ∀ d m ds, pts.dims = d :: m :: ds → ∃ out, unhomogenizePoints eps pts = .ok out ∧ out.dims = (d - 1) :: m :: ds ∧
      ∀ k is, k < d - 1 → Inside is (m :: ds) →
        out.get (k :: is) = euclid eps (pts.get ((d - 1) :: is)) (pts.get (k :: is)) := by
  refine ⟨fun h => by unfold unhomogenizePoints; rw [if_pos h], ?_⟩
  intro d m ds h
  have hfit : Fit (min 1 d :: m :: ds) (min (d - 1) d :: m :: ds) :=
    List.Forall₂.cons (by omega) (fit_refl _)
  refine ⟨_, by
    unfold unhomogenizePoints
    rw [if_neg (by simp [Tensor.rank, h])]
    simp only [h, zipT, mapT, sliceTo, bc_fit hfit]
    rfl, ?_, ?_⟩
  · show join _ _ = _
    have := join_refl (m :: ds)
    simp only [join] at this
    rw [join, List.zipWith_cons_cons, this]
    congr 1
    split <;> omega
  · intro k is hk his
    have hb : bidx (m :: ds) is = is := by rw [bidx_src (inside_length his).symm, src_self his]
    have hk' : (if min (d - 1) d = 1 then 0 else k) = k := by split <;> omega
    simp only [bidx, hb, hk', euclid]

/-! ### `inverse_intrinsics` -/

/-- `inverse_intrinsics` accepts exactly `(*, 3, 3)` and `(*, 4, 4)`, keeps the shape, and each matrix of the result depends
only on the corresponding matrix of the argument: `1/(f + eps)` on the diagonal, `-c/(f + eps)` in the third column, 1 in
the remaining diagonal places, 0 elsewhere. -/
theorem intrinsics_result (eps : α) (K : Tensor α) :
    ((∃ out, inverseIntrinsics eps K = .ok out) ↔ ∃ n ds, K.dims = n :: n :: ds ∧ (n = 3 ∨ n = 4)) ∧
    (∀ e, inverseIntrinsics eps K = .error e → e = .valueError) ∧
    ∀ out, inverseIntrinsics eps K = .ok out → out.dims = K.dims ∧ ∀ is n ds, K.dims = n :: n :: ds →
      ∀ r c, r < n → c < n → out.get (c :: r :: is) =
        if r = c then (if r = 0 then 1 / (K.get (0 :: 0 :: is) + eps)
          else if r = 1 then 1 / (K.get (1 :: 1 :: is) + eps) else 1)
        else if c = 2 ∧ r = 0 then -K.get (2 :: 0 :: is) / (K.get (0 :: 0 :: is) + eps)
        else if c = 2 ∧ r = 1 then -K.get (2 :: 1 :: is) / (K.get (1 :: 1 :: is) + eps)
        else 0 := by
  unfold inverseIntrinsics
  rcases hK : K.dims with _ | ⟨c, _ | ⟨r, ds⟩⟩
  · simp
  · simp
  · by_cases h : (c = 3 ∧ r = 3) ∨ (c = 4 ∧ r = 4)
    · simp only [if_pos h]
      refine ⟨⟨fun _ => ⟨c, ds, by rcases h with ⟨rfl, rfl⟩ | ⟨rfl, rfl⟩ <;> rfl, by omega⟩, fun _ => ⟨_, rfl⟩⟩,
        (fun e he => (by cases he)), ?_⟩
      intro out ho
      have ho := (Except.ok.inj ho).symm
      subst ho
      refine ⟨rfl, ?_⟩
      intro is n ds' hn r' c' hr hc
      simp only [List.cons.injEq] at hn
      obtain ⟨rfl, rfl, rfl⟩ := hn
      dsimp only
      rcases h with ⟨rfl, -⟩ | ⟨rfl, -⟩
      · rcases r' with _ | _ | _ | r' <;> rcases c' with _ | _ | _ | c' <;> first | omega | simp
      · rcases r' with _ | _ | _ | _ | r' <;> rcases c' with _ | _ | _ | _ | c' <;> first | omega | simp
    · simp only [if_neg h]
      refine ⟨⟨fun ⟨_, ho⟩ => (by cases ho), fun ⟨n, ds', hn, h'⟩ => ?_⟩, fun e he => (by cases he; rfl), fun o ho => (by cases ho)⟩
      simp only [List.cons.injEq] at hn
      omega

/-! ### `transform_pts_3d` -/

/-- The product with a single matrix, whose leading dimensions are `j` ones. -/
theorem matmul_single {t h : Tensor α} {m : ℕ} {bs : List ℕ} (j : ℕ) (ht : t.dims = [4, 4])
    (hh : h.dims = 4 :: m :: bs) (hj : j ≤ (m :: bs).length) :
    ∃ p, matmul (expand j t) (h.unsqueeze 0) = .ok p ∧ p.dims = 1 :: 4 :: m :: bs ∧
      ∀ r is, Inside is (m :: bs) → p.get (0 :: r :: is) =
        mul4 (fun r l => t.get [l, r]) (fun l => h.get (l :: is)) r := by
  have h1 : (expand j t).dims = 4 :: 4 :: List.replicate j 1 := by rw [expand_dims, ht]; rfl
  have h2 : (h.unsqueeze 0).dims = 1 :: 4 :: m :: bs := by simp [unsqueeze, hh]
  have hbc : ∀ (j : ℕ) (s : List ℕ), j ≤ s.length → bc (List.replicate j 1) s = .ok s := by
    intro j
    induction j with
    | zero => intro s _; rfl
    | succ j ih =>
      intro s hs
      rcases s with _ | ⟨a, s⟩
      · simp at hs
      · rw [List.replicate_succ, bc, if_pos (by simp), ih s (by simpa using hs)]
        simp
  have hlen : ∀ (s i : List ℕ), (bidx s i).length = s.length := by
    intro s
    induction s with
    | nil => intro i; rfl
    | cons a s ih =>
      intro i
      rcases i with _ | ⟨b, i⟩ <;> simp [bidx, ih]
  refine ⟨_, by
    rw [matmul, h1, h2]
    simp only [ne_eq, not_true_eq_false, if_false, hbc j (m :: bs) hj]
    rfl, rfl, ?_⟩
  intro r is his
  have hb : bidx (m :: bs) is = is := by rw [bidx_src (inside_length his).symm, src_self his]
  have ht2 : t.rank = 2 := by simp [Tensor.rank, ht]
  have he : ∀ l, (expand j t).get (l :: r :: bidx (List.replicate j 1) is) = t.get [l, r] := by
    intro l
    rw [expand_get _ _ _ (by simp [hlen, ht2]; omega), ht2]
    simp
  simp only [he, hb, unsqueeze]
  simp [Finset.sum_range_succ, mul4]

/-- C108 (`transform_pts_3d`): accepted are exactly points with at least two dimensions and 3 or 4 coordinates and a 4×4
matrix.  Only for points with FOUR dimensions the result is the transformed points; for every other rank, the documented
`N × 3` included, it is an empty tensor of shape `(*, 4, 0)`. -/
theorem transform3d_result (eps : α) (pts t : Tensor α) :
    ((∃ out, transformPts3d eps pts t = .ok out) ↔
      t.dims = [4, 4] ∧ ∃ c m bs, pts.dims = c :: m :: bs ∧ (c = 3 ∨ c = 4)) ∧
    ∀ out c m bs, transformPts3d eps pts t = .ok out → pts.dims = c :: m :: bs →
      (bs.length = 2 → out.dims = 3 :: m :: bs ∧ ∀ k i js, k < 3 → i < m → Inside js bs →
        out.get (k :: i :: js) =
          let q := mul4 (fun r l => t.get [l, r]) (homog c (fun l => pts.get (l :: i :: js)))
          euclid eps (q 3) (q k)) ∧
      (bs.length ≠ 2 → out.dims = 0 :: 4 :: m :: bs) := by
  -- everything on accepted shapes
  have key : ∀ c m bs, t.dims = [4, 4] → pts.dims = c :: m :: bs → (c = 3 ∨ c = 4) →
      ∃ out, transformPts3d eps pts t = .ok out ∧
      (bs.length = 2 → out.dims = 3 :: m :: bs ∧ ∀ k i js, k < 3 → i < m → Inside js bs →
        out.get (k :: i :: js) =
          let q := mul4 (fun r l => t.get [l, r]) (homog c (fun l => pts.get (l :: i :: js)))
          euclid eps (q 3) (q k)) ∧
      (bs.length ≠ 2 → out.dims = 0 :: 4 :: m :: bs) := by
    intro c m bs ht hp hc
    obtain ⟨h, hh, hd, hg⟩ := homog_step hp hc
    have hr : ¬ pts.rank < 2 := by simp [Tensor.rank, hp]
    have htr : t.rank = 2 := by simp [Tensor.rank, ht]
    have hhr : h.rank = bs.length + 2 := by simp [Tensor.rank, hd]
    by_cases hb : bs.length = 2
    · obtain ⟨p, hpp, hpd, hpg⟩ := matmul_single 2 ht hd (by simp; omega)
      have hs : p.squeezeLast.dims = 4 :: m :: bs := by simp [squeezeLast, hpd]
      have hsg : ∀ is, p.squeezeLast.get is = p.get (0 :: is) := by intro is; simp [squeezeLast, hpd]
      obtain ⟨q, hq, hqd, hqg⟩ := (unhomogenize_result eps p.squeezeLast).2 4 m bs hs
      refine ⟨q.sliceTo 3, ?_, fun _ => ⟨by simp [sliceTo, hqd], ?_⟩, fun h' => absurd hb h'⟩
      · unfold transformPts3d
        rw [if_neg hr, if_neg (by omega), if_neg (by simp [ht])]
        simp only [hh, hhr, hb, if_true, hpp, hq]
      · intro k i js hk hi hjs
        have hin : Inside (i :: js) (m :: bs) := List.Forall₂.cons hi hjs
        have : (q.sliceTo 3).get = q.get := by simp [sliceTo, hqd]
        rw [this, hqg k (i :: js) (by omega) hin, hsg, hsg, hpg _ _ hin, hpg _ _ hin]
        simp only [mul4, hg _ _ (show 0 < 3 + 1 by omega), hg _ _ (show 1 < 3 + 1 by omega),
          hg _ _ (show 2 < 3 + 1 by omega), hg _ _ (show 3 < 3 + 1 by omega)]
    · obtain ⟨p, hpp, hpd, hpg⟩ := matmul_single 1 ht hd (by simp)
      obtain ⟨q, hq, hqd, hqg⟩ := (unhomogenize_result eps p).2 1 4 (m :: bs) hpd
      refine ⟨q.sliceTo 3, ?_, fun h' => absurd h' hb, fun _ => by simp [sliceTo, hqd]⟩
      unfold transformPts3d
      rw [if_neg hr, if_neg (by omega), if_neg (by simp [ht])]
      have h4 : ¬ bs.length + 2 = 4 := by omega
      simp only [hh, hhr, h4, if_false, hpp, hq]
  have acc : (∃ out, transformPts3d eps pts t = .ok out) ↔
      t.dims = [4, 4] ∧ ∃ c m bs, pts.dims = c :: m :: bs ∧ (c = 3 ∨ c = 4) := by
    constructor
    · rintro ⟨out, ho⟩
      unfold transformPts3d at ho
      by_cases hr : pts.rank < 2
      · rw [if_pos hr] at ho; cases ho
      rw [if_neg hr] at ho
      by_cases htr : t.rank ≠ 2
      · rw [if_pos htr] at ho; cases ho
      rw [if_neg htr] at ho
      by_cases ht : t.dims ≠ [4, 4]
      · rw [if_pos ht] at ho; cases ho
      rw [if_neg ht] at ho
      rw [not_not] at ht
      refine ⟨ht, ?_⟩
      rcases hp : pts.dims with _ | ⟨c, _ | ⟨m, bs⟩⟩
      · simp [Tensor.rank, hp] at hr
      · simp [Tensor.rank, hp] at hr
      · refine ⟨c, m, bs, rfl, ?_⟩
        by_contra hc
        rw [not_or] at hc
        have h3 : ¬ pts.dims.head? = some 3 := by rw [hp]; simpa using hc.1
        rw [if_neg h3] at ho
        have hbad : ∀ j, matmul (expand j t) (pts.unsqueeze 0) = .error .runtimeError := by
          intro j
          have h1 : (expand j t).dims = 4 :: 4 :: List.replicate j 1 := by rw [expand_dims, ht]; rfl
          have h2 : (pts.unsqueeze 0).dims = 1 :: c :: m :: bs := by simp [unsqueeze, hp]
          rw [matmul, h1, h2]
          simp only [ne_eq]
          rw [if_pos (by omega)]
        by_cases h4 : pts.rank = 4
        · simp only [h4, if_true, hbad] at ho
          cases ho
        · simp only [h4, if_false, hbad] at ho
          cases ho
    · rintro ⟨ht, c, m, bs, hp, hc⟩
      obtain ⟨out, ho, _⟩ := key c m bs ht hp hc
      exact ⟨out, ho⟩
  refine ⟨acc, ?_⟩
  intro out c m bs ho hp
  obtain ⟨ht, c', m', bs', hp', hc⟩ := acc.1 ⟨out, ho⟩
  rw [hp] at hp'
  simp only [List.cons.injEq] at hp'
  obtain ⟨rfl, rfl, rfl⟩ := hp'
  obtain ⟨out', ho', h⟩ := key c m bs ht hp hc
  rw [ho] at ho'
  cases ho'
  exact h

/-! ### `transform_pts_nd_KF` -/

/-- C108 (`transform_pts_nd_KF`, documented use): points `(B, N, D)` and transforms `(B, R, D+1)`: every point of batch element
`b` is transformed by matrix `b`. -/
theorem kf_batched (eps : α) (pts tform : Tensor α) (B N D R : ℕ) (hp : pts.dims = [D, N, B])
    (ht : tform.dims = [D + 1, R, B]) :
    ∃ out, transformPtsNdKF eps pts tform = .ok out ∧ out.dims = [R - 1, N, B] ∧
      ∀ k n b, k < R - 1 → n < N → b < B →
        let q := fun r => ∑ l ∈ Finset.range (D + 1), tform.get [l, r, b] * homog D (fun l => pts.get [l, n, b]) l
        out.get [k, n, b] = euclid eps (q (R - 1)) (q k) := by
  have h1 : (tform.unsqueeze (tform.rank - 1)).dims = [D + 1, R, 1, B] := by simp [unsqueeze, Tensor.rank, ht]
  have hh : homogenizePoints pts = .ok pts.padOne := homogenizePoints_ok hp
  have h2 : (pts.padOne.unsqueeze 0).dims = [1, D + 1, N, B] := by simp [unsqueeze, padOne, hp]
  have hfit : Fit [1, B] [N, B] := List.Forall₂.cons (by simp) (fit_refl _)
  obtain ⟨p, hpp, hpd, hpg⟩ : ∃ p, matmul (tform.unsqueeze (tform.rank - 1)) (pts.padOne.unsqueeze 0) = .ok p ∧
      p.dims = [1, R, N, B] ∧ ∀ r n b, n < N → b < B → p.get [0, r, n, b] =
        ∑ l ∈ Finset.range (D + 1), tform.get [l, r, b] * homog D (fun l => pts.get [l, n, b]) l := by
    refine ⟨_, by
      rw [matmul, h1, h2]
      simp only [ne_eq, not_true_eq_false, if_false, bc_fit hfit]
      rfl, by simp [join], ?_⟩
    intro r n b hn hb
    dsimp only
    refine Finset.sum_congr rfl ?_
    intro l _
    have e1 : (if N = 1 then 0 else n) = n := by split <;> omega
    have e2 : (if B = 1 then 0 else b) = b := by split <;> omega
    simp [bidx, e1, e2, unsqueeze, Tensor.rank, ht, padOne, hp, homog]
  have hs : p.squeezeLast.dims = [R, N, B] := by simp [squeezeLast, hpd]
  have hsg : ∀ is, p.squeezeLast.get is = p.get (0 :: is) := by intro is; simp [squeezeLast, hpd]
  obtain ⟨q, hq, hqd, hqg⟩ := (unhomogenize_result eps p.squeezeLast).2 R N [B] hs
  refine ⟨q, ?_, hqd, ?_⟩
  · unfold transformPtsNdKF
    simp [hp, ht]
    simp only [hh, hpp, hq]
  · intro k n b hk hn hb
    dsimp only
    rw [hqg k [n, b] hk (List.Forall₂.cons hn (List.Forall₂.cons hb List.Forall₂.nil)), hsg, hsg, hpg _ _ _ hn hb,
      hpg _ _ _ hn hb]

/-- C108 (`transform_pts_nd_KF` on images): points `(B, H, W, D)` and transforms `(B, R, D+1)` are accepted exactly when `B`
and `H` agree or one of them is 1, and then the points of ROW `h` are transformed by matrix `h` (matrix 0 when `B = 1`), not
those of batch element `b` by matrix `b`. -/
theorem kf_images (eps : α) (pts tform : Tensor α) (B H W D R : ℕ) (hp : pts.dims = [D, W, H, B])
    (ht : tform.dims = [D + 1, R, B]) :
    ((∃ out, transformPtsNdKF eps pts tform = .ok out) ↔ (B = H ∨ B = 1 ∨ H = 1)) ∧
    (¬ (B = H ∨ B = 1 ∨ H = 1) → transformPtsNdKF eps pts tform = .error .runtimeError) ∧
    ∀ out, transformPtsNdKF eps pts tform = .ok out →
      out.dims = [R - 1, W, if B = 1 then H else B, B] ∧
      ∀ k w h b, k < R - 1 → w < W → h < (if B = 1 then H else B) → b < B →
        let q := fun r => ∑ l ∈ Finset.range (D + 1), tform.get [l, r, if B = 1 then 0 else h] *
          homog D (fun l => pts.get [l, w, if H = 1 then 0 else h, b]) l
        out.get [k, w, h, b] = euclid eps (q (R - 1)) (q k) := by
  have h1 : (tform.unsqueeze (tform.rank - 1)).dims = [D + 1, R, 1, B] := by simp [unsqueeze, Tensor.rank, ht]
  have hh : homogenizePoints pts = .ok pts.padOne := homogenizePoints_ok hp
  have h2 : (pts.padOne.unsqueeze 0).dims = [1, D + 1, W, H, B] := by simp [unsqueeze, padOne, hp]
  by_cases hBH : B = H ∨ B = 1 ∨ H = 1
  · have hbc : bc [1, B] [W, H, B] = .ok [W, if B = 1 then H else B, B] := by
      rw [bc, if_pos (by simp), bc, if_pos hBH, bc]
      simp
    obtain ⟨p, hpp, hpd, hpg⟩ : ∃ p, matmul (tform.unsqueeze (tform.rank - 1)) (pts.padOne.unsqueeze 0) = .ok p ∧
        p.dims = [1, R, W, if B = 1 then H else B, B] ∧ ∀ r w h b, w < W → b < B → p.get [0, r, w, h, b] =
          ∑ l ∈ Finset.range (D + 1), tform.get [l, r, if B = 1 then 0 else h] *
            homog D (fun l => pts.get [l, w, if H = 1 then 0 else h, b]) l := by
      refine ⟨_, by
        rw [matmul, h1, h2]
        simp only [ne_eq, not_true_eq_false, if_false, hbc]
        rfl, rfl, ?_⟩
      intro r w h b hw hb
      dsimp only
      refine Finset.sum_congr rfl ?_
      intro l _
      have e1 : (if W = 1 then 0 else w) = w := by split <;> omega
      have e2 : (if B = 1 then 0 else b) = b := by split <;> omega
      simp [bidx, e1, e2, unsqueeze, Tensor.rank, ht, padOne, hp, homog]
    have hs : p.squeezeLast.dims = [R, W, if B = 1 then H else B, B] := by simp [squeezeLast, hpd]
    have hsg : ∀ is, p.squeezeLast.get is = p.get (0 :: is) := by intro is; simp [squeezeLast, hpd]
    obtain ⟨q, hq, hqd, hqg⟩ := (unhomogenize_result eps p.squeezeLast).2 R W [if B = 1 then H else B, B] hs
    have hrun : transformPtsNdKF eps pts tform = .ok q := by
      unfold transformPtsNdKF
      simp [hp, ht]
      simp only [hh, hpp, hq]
    refine ⟨⟨fun _ => hBH, fun _ => ⟨q, hrun⟩⟩, fun h => absurd hBH h, ?_⟩
    intro out ho
    rw [hrun] at ho
    cases ho
    refine ⟨hqd, ?_⟩
    intro k w h b hk hw hh' hb
    dsimp only
    rw [hqg k [w, h, b] hk (List.Forall₂.cons hw (List.Forall₂.cons hh' (List.Forall₂.cons hb List.Forall₂.nil))),
      hsg, hsg, hpg _ _ _ _ hw hb, hpg _ _ _ _ hw hb]
  · have hbc : bc [1, B] [W, H, B] = .error .runtimeError := by
      rw [bc, if_pos (by simp), bc, if_neg hBH]
    have hrun : transformPtsNdKF eps pts tform = .error .runtimeError := by
      unfold transformPtsNdKF
      simp [hp, ht]
      have hm : matmul (tform.unsqueeze (tform.rank - 1)) (pts.padOne.unsqueeze 0) = .error .runtimeError := by
        rw [matmul, h1, h2]
        simp only [ne_eq, not_true_eq_false, if_false, hbc]
      simp only [hh, hm]
    rw [hrun]
    exact ⟨⟨fun ⟨_, h⟩ => (by cases h), fun h => absurd h hBH⟩, fun _ => rfl, fun _ h => (by cases h)⟩

/-! ### The camera functions of geometryutils.py -/

/-- C108 (`cam2pixel`): accepted are exactly points `(B, H, W, 3)` and a 4×4 matrix; the documented `H × W × 3` raises
ValueError.  The result is `(B, H, W, 2)`, each pixel from its own point: transformed, made Euclidean, divided by the guarded depth. -/
theorem cam2pixel_result (eps : α) (cam proj : Tensor α) :
    ((∃ out, cam2pixel eps cam proj = .ok out) ↔ proj.dims = [4, 4] ∧ ∃ w h b, cam.dims = [3, w, h, b]) ∧
    (∀ w h, cam.dims = [3, w, h] → proj.dims = [4, 4] → cam2pixel eps cam proj = .error .valueError) ∧
    ∀ out w h b, cam2pixel eps cam proj = .ok out → cam.dims = [3, w, h, b] → out.dims = [2, w, h, b] ∧
      ∀ k x y z, k < 2 → x < w → y < h → z < b → out.get [k, x, y, z] =
        let q := mul4 (fun r l => proj.get [l, r]) (homog 3 (fun l => cam.get [l, x, y, z]))
        pixel (fun r => euclid eps (q 3) (q r)) k := by
  have key : ∀ w h b, proj.dims = [4, 4] → cam.dims = [3, w, h, b] → ∃ out, cam2pixel eps cam proj = .ok out ∧
      out.dims = [2, w, h, b] ∧
      ∀ k x y z, k < 2 → x < w → y < h → z < b → out.get [k, x, y, z] =
        let q := mul4 (fun r l => proj.get [l, r]) (homog 3 (fun l => cam.get [l, x, y, z]))
        pixel (fun r => euclid eps (q 3) (q r)) k := by
    intro w h b hp hc
    obtain ⟨p, hpp⟩ := (transform3d_result eps cam proj).1.2 ⟨hp, 3, w, [h, b], hc, .inl rfl⟩
    obtain ⟨hpd, hpg⟩ := ((transform3d_result eps cam proj).2 p 3 w [h, b] hpp hc).1 rfl
    obtain ⟨q, hq, hqd, hqg⟩ := divideByZ_ok hpd (le_refl 3)
    refine ⟨q, ?_, hqd, ?_⟩
    · unfold cam2pixel
      rw [if_neg (by simp [Tensor.rank, hc]), if_neg (by simp [hc]), if_neg (by simp [Tensor.rank, hp]),
        if_neg (by simp [Tensor.rank, hc])]
      simp only [hpp, hq]
    · intro k x y z hk hx hy hz
      have hin : Inside [y, z] [h, b] := List.Forall₂.cons hy (List.Forall₂.cons hz List.Forall₂.nil)
      rw [hqg k [x, y, z] hk (List.Forall₂.cons hx hin)]
      have e0 := hpg 0 x [y, z] (by omega) hx hin
      have e1 := hpg 1 x [y, z] (by omega) hx hin
      have e2 := hpg 2 x [y, z] (by omega) hx hin
      dsimp only at e0 e1 e2 ⊢
      rcases k with _ | _ | k
      · simp only [pixel, e0, e2]
      · simp only [pixel, e1, e2, Nat.zero_add]
      · omega
  have acc : (∃ out, cam2pixel eps cam proj = .ok out) ↔ proj.dims = [4, 4] ∧ ∃ w h b, cam.dims = [3, w, h, b] := by
    constructor
    · rintro ⟨out, ho⟩
      unfold cam2pixel at ho
      by_cases h1 : cam.rank ≠ 3 ∧ cam.rank ≠ 4
      · rw [if_pos h1] at ho; cases ho
      rw [if_neg h1] at ho
      by_cases h2 : cam.dims.head? ≠ some 3
      · rw [if_pos h2] at ho; cases ho
      rw [if_neg h2] at ho
      by_cases h3 : proj.rank ≠ 2 ∨ proj.dims.getLast? ≠ some 4
      · rw [if_pos h3] at ho; cases ho
      rw [if_neg h3] at ho
      by_cases h4 : cam.rank ≠ 4
      · rw [if_pos h4] at ho; cases ho
      rw [if_neg h4] at ho
      rcases hp : transformPts3d eps cam proj with e | p
      · simp only [hp] at ho; cases ho
      · refine ⟨((transform3d_result eps cam proj).1.1 ⟨p, hp⟩).1, ?_⟩
        rw [not_not] at h2 h4
        rcases hd : cam.dims with _ | ⟨a, _ | ⟨b, _ | ⟨c, _ | ⟨d, _ | ⟨e, l⟩⟩⟩⟩⟩ <;>
          simp [Tensor.rank, hd] at h4 h2
        subst h2
        exact ⟨b, c, d, rfl⟩
    · rintro ⟨hp, w, h, b, hc⟩
      obtain ⟨out, ho, _⟩ := key w h b hp hc
      exact ⟨out, ho⟩
  refine ⟨acc, ?_, ?_⟩
  · intro w h hc hp
    unfold cam2pixel
    rw [if_neg (by simp [Tensor.rank, hc]), if_neg (by simp [hc]), if_neg (by simp [Tensor.rank, hp]),
      if_pos (by simp [Tensor.rank, hc])]
  · intro out w h b ho hc
    obtain ⟨out', ho', h'⟩ := key w h b (acc.1 ⟨out, ho⟩).1 hc
    rw [ho] at ho'
    cases ho'
    exact h'

/-- C108 (`pixel2cam`, depth): a depth without exactly four dimensions is refused, so the documented `H × W` always is. -/
theorem pixel2cam_depth (eps : α) (depth kinv px out : Tensor α) (ho : pixel2cam eps depth kinv px = .ok out) :
    kinv.dims = [4, 4] ∧ depth.rank = 4 ∧ ∃ c m bs, px.dims = c :: m :: bs ∧ (c = 3 ∨ c = 4) := by
  unfold pixel2cam at ho
  split at ho
  · cases ho
  split at ho
  · cases ho
  rename_i hk
  rw [not_not] at hk
  rcases hp : transformPts3d eps px kinv with e | p
  · simp only [hp] at ho; cases ho
  simp only [hp] at ho
  refine ⟨hk, ?_, ((transform3d_result eps px kinv).1.1 ⟨p, hp⟩).2⟩
  rcases hd : depth.dims with _ | ⟨a, _ | ⟨b, _ | ⟨c, _ | ⟨d, _ | ⟨e, l⟩⟩⟩⟩⟩ <;>
    simp only [permute0231, hd] at ho <;> first | (cases ho) | simp [Tensor.rank, hd]

/-- C108 (`pixel2cam`): for pixels with four dimensions and a depth `(B, C, H, W)` the call is accepted exactly when the shapes
fit, and the result is the transformed pixel times the depth.  Pixels of any other rank (the documented `H × W × 3` included) give an empty tensor or are refused. -/
theorem pixel2cam_result (eps : α) (depth kinv px : Tensor α) (c m : ℕ) (bs : List ℕ) (w h ch b : ℕ)
    (hk : kinv.dims = [4, 4]) (hpx : px.dims = c :: m :: bs) (hc : c = 3 ∨ c = 4) (hd : depth.dims = [w, h, ch, b]) :
    (bs.length = 2 → ((∃ out, pixel2cam eps depth kinv px = .ok out) ↔ Fit (3 :: m :: bs) [ch, w, h, b]) ∧
      ∀ out, pixel2cam eps depth kinv px = .ok out → out.dims = join (3 :: m :: bs) [ch, w, h, b] ∧
        ∀ k x y z, Inside [k, x, y, z] (join (3 :: m :: bs) [ch, w, h, b]) → k < 3 →
          out.get [k, x, y, z] =
            let q := mul4 (fun r l => kinv.get [l, r]) (homog c (fun l => px.get (l :: src (m :: bs) [x, y, z])))
            euclid eps (q 3) (q k) * depth.get [if w = 1 then 0 else x, if h = 1 then 0 else y,
              if ch = 1 then 0 else k, if b = 1 then 0 else z]) ∧
    (bs.length ≠ 2 → ∀ out, pixel2cam eps depth kinv px = .ok out → out.dims.head? = some 0) := by
  obtain ⟨p, hp⟩ := (transform3d_result eps px kinv).1.2 ⟨hk, c, m, bs, hpx, hc⟩
  have hrun : pixel2cam eps depth kinv px = zipT (· * ·) p ⟨[ch, w, h, b], fun i => match i with
      | [ic, iw, ih, ib] => depth.get [iw, ih, ic, ib]
      | _ => 0⟩ := by
    unfold pixel2cam
    rw [if_neg (by simp [Tensor.rank, hk]), if_neg (by simp [hk])]
    simp only [hp, permute0231, hd]
    rfl
  rw [hrun]
  constructor
  · intro hb
    obtain ⟨hpd, hpg⟩ := ((transform3d_result eps px kinv).2 p c m bs hp hpx).1 hb
    obtain ⟨b1, b2, rfl⟩ : ∃ b1 b2, bs = [b1, b2] := by
      rcases bs with _ | ⟨b1, _ | ⟨b2, _ | ⟨b3, l⟩⟩⟩ <;> simp at hb
      exact ⟨b1, b2, rfl⟩
    by_cases hf : Fit (3 :: m :: [b1, b2]) [ch, w, h, b]
    · have hz : ∀ t : Tensor α, t.dims = [ch, w, h, b] → zipT (· * ·) p t =
          .ok ⟨join (3 :: m :: [b1, b2]) [ch, w, h, b], fun i => p.get (bidx p.dims i) * t.get (bidx t.dims i)⟩ := by
        intro t htd
        simp only [zipT, htd, hpd, bc_fit hf]
      rw [hz _ rfl]
      refine ⟨⟨fun _ => hf, fun _ => ⟨_, rfl⟩⟩, ?_⟩
      intro out ho
      have ho := (Except.ok.inj ho).symm
      subst ho
      refine ⟨rfl, ?_⟩
      intro k x y z hin hk3
      have hx : (if m = 1 then 0 else x) < m ∧ (if b1 = 1 then 0 else y) < b1 ∧ (if b2 = 1 then 0 else z) < b2 := by
        simp only [Fit, List.forall₂_cons] at hf
        simp only [Inside, join, List.zipWith_cons_cons, List.forall₂_cons] at hin
        obtain ⟨-, hf1, hf2, hf3, -⟩ := hf
        obtain ⟨-, hi1, hi2, hi3, -⟩ := hin
        refine ⟨?_, ?_, ?_⟩
        · split at hi1 <;> split <;> omega
        · split at hi2 <;> split <;> omega
        · split at hi3 <;> split <;> omega
      have := hpg k (if m = 1 then 0 else x) [if b1 = 1 then 0 else y, if b2 = 1 then 0 else z] hk3 hx.1
        (List.Forall₂.cons hx.2.1 (List.Forall₂.cons hx.2.2 List.Forall₂.nil))
      simp only [hpd, bidx, src, List.zipWith_cons_cons, List.zipWith_nil_left]
      rw [if_neg (show ¬ (3 = 1) by omega), this]
    · have hz : ∀ t : Tensor α, t.dims = [ch, w, h, b] → zipT (· * ·) p t = .error .runtimeError := by
        intro t htd
        simp only [zipT, htd, hpd, bc_not_fit (s := 3 :: m :: [b1, b2]) (t := [ch, w, h, b]) rfl hf]
      rw [hz _ rfl]
      exact ⟨⟨fun ⟨_, h'⟩ => (by cases h'), fun h' => absurd h' hf⟩, fun _ h' => (by cases h')⟩
  · intro hb out ho
    have hpd := ((transform3d_result eps px kinv).2 p c m bs hp hpx).2 hb
    simp only [zipT, hpd] at ho
    rw [bc] at ho
    by_cases hch : 0 = ch ∨ 0 = 1 ∨ ch = 1
    · rw [if_pos hch] at ho
      rcases hbc : bc (4 :: m :: bs) [w, h, b] with e | r
      · simp only [hbc] at ho; cases ho
      · simp only [hbc] at ho
        have ho := (Except.ok.inj ho).symm
        subst ho
        simp
    · rw [if_neg hch] at ho
      cases ho

/-- C108 (`cam2pixel_KF`, documented use): coordinates `H × W × 3` with one 4×4 matrix are never accepted. -/
theorem cam2pixelKF_doc (eps : α) (cam proj : Tensor α) (H W : ℕ) (hc : cam.dims = [3, W, H]) (hp : proj.dims = [4, 4]) :
    ¬ ∃ out, cam2pixelKF eps cam proj = .ok out := by
  rintro ⟨out, ho⟩
  unfold cam2pixelKF at ho
  rw [if_neg (by simp [Tensor.rank, hc]), if_neg (by simp [hc]), if_neg (by simp [Tensor.rank, hp])] at ho
  rcases ht : transformPtsNdKF eps cam proj with e | p
  · simp only [ht] at ho; cases ho
  simp only [ht] at ho
  -- the result of the transform has no coordinate left
  have h1 : (proj.unsqueeze (proj.rank - 1)).dims = [4, 1, 4] := by simp [unsqueeze, Tensor.rank, hp]
  have hh : homogenizePoints cam = .ok cam.padOne := homogenizePoints_ok hc
  have h2 : (cam.padOne.unsqueeze 0).dims = [1, 4, W, H] := by simp [unsqueeze, padOne, hc]
  have hd : p.dims.head? = some 0 := by
    unfold transformPtsNdKF at ht
    simp [hp, hc] at ht
    split at ht
    · simp only [hh] at ht
      rcases hm : matmul (proj.unsqueeze (proj.rank - 1)) (cam.padOne.unsqueeze 0) with e | q
      · simp only [hm] at ht; cases ht
      · simp only [hm] at ht
        rw [matmul, h1, h2] at hm
        simp only [ne_eq, not_true_eq_false, if_false] at hm
        rcases hb : bc [4] [W, H] with e | r
        · simp only [hb] at hm; cases hm
        · simp only [hb] at hm
          have hm := (Except.ok.inj hm).symm
          obtain ⟨a, ha⟩ : ∃ a, r = [a, H] := by
            rw [bc] at hb
            split at hb
            · simp only [bc] at hb
              exact ⟨_, (Except.ok.inj hb).symm⟩
            · cases hb
          have hq : q.squeezeLast.dims = 1 :: a :: [H] := by rw [hm, ha]; simp [squeezeLast]
          obtain ⟨o, ho', hod, _⟩ := (unhomogenize_result eps q.squeezeLast).2 1 a [H] hq
          rw [ho'] at ht
          cases ht
          rw [hod]
          rfl
    · cases ht
  rcases hpd : p.dims with _ | ⟨d, ds⟩
  · simp [hpd] at hd
  · rw [hpd] at hd
    simp only [List.head?_cons, Option.some.injEq] at hd
    subst hd
    simp [divideByZ, select, hpd] at ho

/-- C108 (`cam2pixel_KF`, batched): points `(B, N, 3)` and matrices `(B, 4, 4)`. -/
theorem cam2pixelKF_batched (eps : α) (cam proj : Tensor α) (B N : ℕ) (hc : cam.dims = [3, N, B])
    (hp : proj.dims = [4, 4, B]) : ∃ out, cam2pixelKF eps cam proj = .ok out ∧ out.dims = [2, N, B] ∧
      ∀ k n b, k < 2 → n < N → b < B → out.get [k, n, b] =
        let q := mul4 (fun r l => proj.get [l, r, b]) (homog 3 (fun l => cam.get [l, n, b]))
        pixel (fun r => euclid eps (q 3) (q r)) k := by
  obtain ⟨p, hpp, hpd, hpg⟩ := kf_batched eps cam proj B N 3 4 hc hp
  obtain ⟨q, hq, hqd, hqg⟩ := divideByZ_ok hpd (by omega)
  refine ⟨q, ?_, hqd, ?_⟩
  · unfold cam2pixelKF
    rw [if_neg (by simp [Tensor.rank, hc]), if_neg (by simp [hc]), if_neg (by simp [Tensor.rank, hp])]
    simp only [hpp, hq]
  · intro k n b hk hn hb
    rw [hqg k [n, b] hk (List.Forall₂.cons hn (List.Forall₂.cons hb List.Forall₂.nil))]
    have hm : ∀ r, ∑ l ∈ Finset.range (3 + 1), proj.get [l, r, b] * homog 3 (fun l => cam.get [l, n, b]) l =
        mul4 (fun r l => proj.get [l, r, b]) (homog 3 (fun l => cam.get [l, n, b])) r := by
      intro r
      simp [Finset.sum_range_succ, mul4]
    have e0 := hpg 0 n b (by omega) hn hb
    have e1 := hpg 1 n b (by omega) hn hb
    have e2 := hpg 2 n b (by omega) hn hb
    simp only [hm] at e0 e1 e2
    dsimp only
    rcases k with _ | _ | k
    · simp only [pixel, e0, e2]
    · simp only [pixel, e1, e2, Nat.zero_add]
    · omega

/-! ### `quaternion_to_rotation_matrix` -/

/-- Row-major place of an index (innermost first). -/
def flatten : List ℕ → List ℕ → ℕ
  | d :: ds, i :: is => i + d * flatten ds is
  | _, _ => 0

theorem unflatten_flatten : ∀ {is ds : List ℕ}, Inside is ds → unflatten ds (flatten ds is) = is ∧ flatten ds is < ds.prod
  | [], [], _ => by simp [unflatten, flatten]
  | i :: is, d :: ds, h => by
    rw [Inside, List.forall₂_cons] at h
    obtain ⟨h1, h2⟩ := unflatten_flatten h.2
    rw [flatten, unflatten, Nat.add_mul_mod_self_left, Nat.mod_eq_of_lt h.1, Nat.add_mul_div_left _ _ (by omega),
      Nat.div_eq_of_lt h.1, Nat.zero_add, h1, List.prod_cons]
    refine ⟨rfl, ?_⟩
    calc i + d * flatten ds is < d + d * flatten ds is := by omega
      _ = d * (flatten ds is + 1) := by ring
      _ ≤ d * ds.prod := Nat.mul_le_mul_left _ h2

/-- C108 (`quaternion_to_rotation_matrix`): accepted are exactly the tensors whose last size is 4.  One quaternion gives one
`3 × 3` matrix; all other shapes `(*, 4)` give a list `(n, 3, 3)` of all matrices in row-major order, so that the documented
`(*, 3, 3)` is returned for at most two dimensions only (`ds` has at most one element). -/
theorem quat_result (rot : (ℕ → α) → ℕ → α) (q : Tensor α) :
    ((∃ out, quatToRot rot q = .ok out) ↔ ∃ ds, q.dims = 4 :: ds) ∧
    ∀ out ds, quatToRot rot q = .ok out → q.dims = 4 :: ds →
      (ds = [] → out.dims = [3, 3] ∧ ∀ r c, out.get [c, r] = rot (fun k => q.get [k]) (3 * r + c)) ∧
      (ds ≠ [] → out.dims = [3, 3, ds.prod] ∧ ∀ is r c, Inside is ds →
        out.get [c, r, flatten ds is] = rot (fun k => q.get (k :: is)) (3 * r + c)) ∧
      (out.dims = 3 :: 3 :: ds ↔ ds.length ≤ 1) := by
  unfold quatToRot
  rcases hq : q.dims with _ | ⟨d, ds⟩
  · simp
  · by_cases h4 : d = 4
    · subst h4
      simp only [ne_eq, not_true_eq_false, if_false]
      by_cases hds : ds = []
      · subst hds
        simp only [if_true]
        refine ⟨⟨fun _ => ⟨[], rfl⟩, fun _ => ⟨_, rfl⟩⟩, ?_⟩
        intro out ds' ho hd'
        have ho := (Except.ok.inj ho).symm
        subst ho
        simp only [List.cons.injEq, true_and] at hd'
        subst hd'
        simp
      · simp only [hds, if_false]
        refine ⟨⟨fun _ => ⟨ds, rfl⟩, fun _ => ⟨_, rfl⟩⟩, ?_⟩
        intro out ds' ho hd'
        have ho := (Except.ok.inj ho).symm
        subst ho
        simp only [List.cons.injEq, true_and] at hd'
        subst hd'
        refine ⟨fun h => absurd h hds, fun _ => ⟨rfl, ?_⟩, ?_⟩
        · intro is r c his
          simp only [(unflatten_flatten his).1]
        · rcases ds with _ | ⟨a, _ | ⟨b, l⟩⟩
          · exact absurd rfl hds
          · simp
          · simp
    · simp only [ne_eq, h4, not_false_eq_true, if_true]
      refine ⟨⟨fun ⟨_, h⟩ => (by cases h), fun ⟨ds', h⟩ => ?_⟩, fun _ _ h => by cases h⟩
      simp only [List.cons.injEq] at h
      exact absurd h.1 h4

end Verif.Nd
