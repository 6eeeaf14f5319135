import Verif.Data.Images
import Verif.Geom.Props
import Mathlib.Algebra.Order.Field.Rat
/-! Properties C13, C14, C15, C16, C60. -/
namespace Verif.Data
set_option linter.unusedSectionVars false
set_option linter.unusedSimpArgs false

/-! ### C13 labels -/

/-- Specification: the ScanNet20 id of the class with the same name, 0 if that class does not exist there. -/
def sameClass (l : Nat) : Nat :=
  match nyu40[l]? with
  | some (name, _) => if name ∈ scannet20.map (·.1) then (scannet20.map (·.1)).idxOf name else 0
  | none => l

theorem remap_pointwise (ps : List (Nat × Nat)) : ∀ img : List (List Nat),
    ps.foldl remapPass img = img.map (·.map fun l => ps.foldl (fun l p => if l = p.1 then p.2 else l) l) := by
  induction ps with
  | nil => intro img; simp
  | cons p ps ih => intro img; simp [ih, remapPass, List.map_map, Function.comp_def]

theorem remap_pixel : ∀ l : Fin 41, remapping.foldl (fun l p => if l = p.1 then p.2 else l) l.val = sameClass l.val ∧
    sameClass l.val ≤ 20 := by decide

theorem remap_large (ps : List (Nat × Nat)) (l : Nat) (h : ∀ p ∈ ps, p.1 < l) :
    ps.foldl (fun l p => if l = p.1 then p.2 else l) l = l := by
  induction ps with
  | nil => rfl
  | cons p ps ih =>
    have := h p (by simp)
    rw [List.foldl_cons, if_neg (by omega)]
    exact ih (fun q hq => h q (by simp [hq]))

/-- **C13**. For every label image (any size) whose labels are NYU40 labels, every pixel is relabelled to the ScanNet20 id of the class
of the same name, or 0 if that class was dropped; the result is in 0..20 and depends on that pixel only. -/
theorem nyu40_to_scannet20_same_class (img : List (List Nat)) (h : ∀ row ∈ img, ∀ l ∈ row, l ≤ 40) :
    nyu40ToScannet20 img = img.map (·.map sameClass) ∧ ∀ row ∈ nyu40ToScannet20 img, ∀ l ∈ row, l ≤ 20 := by
  have e : nyu40ToScannet20 img = img.map (·.map sameClass) := by
    rw [nyu40ToScannet20, remap_pointwise]
    apply List.map_congr_left
    intro row hr
    apply List.map_congr_left
    intro l hl
    exact (remap_pixel ⟨l, by have := h row hr l hl; omega⟩).1
  refine ⟨e, ?_⟩
  rw [e]
  intro row hr l hl
  obtain ⟨row', hr', rfl⟩ := List.mem_map.1 hr
  obtain ⟨l', hl', rfl⟩ := List.mem_map.1 hl
  exact (remap_pixel ⟨l', by have := h row' hr' l' hl'; omega⟩).2

/-- Labels above 40 (not NYU40 labels) are passed through unchanged, so they stay outside 0..20. -/
theorem nyu40_to_scannet20_out_of_range (img : List (List Nat)) (h : ∀ row ∈ img, ∀ l ∈ row, 40 < l) :
    nyu40ToScannet20 img = img := by
  rw [nyu40ToScannet20, remap_pointwise]
  conv_rhs => rw [← List.map_id img]
  apply List.map_congr_left
  intro row hr
  conv_rhs => rw [id, ← List.map_id row]
  apply List.map_congr_left
  intro l hl
  have h40 := h row hr l hl
  apply remap_large
  have : ∀ p ∈ remapping, p.1 ≤ 40 := by decide
  intro p hp
  have := this p hp
  omega

/-- The 20 kept classes keep their name, and different kept classes stay different. -/
theorem kept_classes : (∀ l : Fin 41, (∃ p ∈ scannet20, p.1 = (nyu40[l.val]?.getD ("", (0, 0, 0))).1) →
      (scannet20[sameClass l.val]?).map (·.1) = (nyu40[l.val]?).map (·.1)) ∧
    (scannet20.map (·.1)).Nodup ∧ (nyu40.map (·.1)).Nodup := by
  refine ⟨by decide, by decide, by decide⟩

example : nyu40ToScannet20 [[0, 13, 14], [39, 24, 40]] = [[0, 0, 13], [20, 15, 0]] := by decide

/-! ### C60 label colours -/

theorem paint_pointwise (ps : List (Nat × Rgb)) : ∀ (f : Nat → Rgb) (pred : List (List Nat)),
    ps.foldl (paintPass pred) (pred.map (·.map f)) =
      pred.map (·.map fun l => ps.foldl (fun c p => if l = p.1 then p.2 else c) (f l)) := by
  induction ps with
  | nil => intro f pred; simp
  | cons p ps ih =>
    intro f pred
    have e : paintPass pred (pred.map (·.map f)) p = pred.map (·.map fun l => if l = p.1 then p.2 else f l) := by
      simp only [paintPass]
      rw [List.zipWith_map_right, List.zipWith_self]
      apply List.map_congr_left
      intro row _
      rw [List.zipWith_map_right, List.zipWith_self]
    rw [List.foldl_cons, e, ih]
    simp

theorem paint_pixel (palette : List Rgb) : ∀ (k l : Nat) (c : Rgb),
    ((palette.zipIdx k).map fun p => (p.2, p.1)).foldl (fun c p => if l = p.1 then p.2 else c) c =
      if k ≤ l ∧ l < k + palette.length then palette.getD (l - k) c else c := by
  induction palette with
  | nil => intro k l c; simp
  | cons x xs ih =>
    intro k l c
    simp only [List.zipIdx_cons, List.map_cons, List.foldl_cons, ih, List.length_cons]
    by_cases h1 : l = k
    · subst h1; simp
    · by_cases h2 : k ≤ l ∧ l < k + (xs.length + 1)
      · obtain ⟨m, rfl⟩ : ∃ m, l = k + 1 + m := ⟨l - (k + 1), by omega⟩
        have h3 : k + 1 ≤ k + 1 + m ∧ k + 1 + m < k + 1 + xs.length := by omega
        simp only [h2, h3, and_self, if_true, h1, if_false]
        rw [show k + 1 + m - k = m + 1 by omega, show k + 1 + m - (k + 1) = m by omega, List.getD_cons_succ]
      · have h3 : ¬ (k + 1 ≤ l ∧ l < k + 1 + xs.length) := by omega
        simp only [h2, h3, if_false, h1]

/-- **C60 (a)**. `create_label_image` gives every pixel the palette colour of its label, black for labels without a colour, for
every image and every palette. -/
theorem create_label_image_spec (pred : List (List Nat)) (palette : List Rgb) :
    createLabelImage pred palette = pred.map (·.map fun l => palette.getD l (0, 0, 0)) := by
  rw [createLabelImage, paint_pointwise]
  apply List.map_congr_left; intro row _
  apply List.map_congr_left; intro l _
  rw [paint_pixel]
  by_cases h : l < palette.length
  · simp [h]
  · simp [h]

theorem colour_pixel : ∀ l : Fin 41, (scannet20.map (·.2)).getD (sameClass l.val) (0, 0, 0) =
    if (nyu40.map (·.1)).getD l.val "" ∈ scannet20.map (·.1) then (nyu40.map (·.2)).getD l.val (0, 0, 0) else (0, 0, 0) := by
  decide

/-- **C60 (b)**. Converting labels to ScanNet20 and then colouring gives each pixel the colour the NYU40 palette would have given it,
or black if its class was dropped. -/
theorem colours_consistent (img : List (List Nat)) (h : ∀ row ∈ img, ∀ l ∈ row, l ≤ 40) :
    createLabelImage (nyu40ToScannet20 img) (scannet20.map (·.2)) =
      img.map (·.map fun l => if (nyu40.map (·.1)).getD l "" ∈ scannet20.map (·.1) then
        (nyu40.map (·.2)).getD l (0, 0, 0) else (0, 0, 0)) := by
  rw [create_label_image_spec, (nyu40_to_scannet20_same_class img h).1, List.map_map]
  apply List.map_congr_left; intro row hr
  simp only [Function.comp, List.map_map]
  apply List.map_congr_left; intro l hl
  exact colour_pixel ⟨l, by have := h row hr l hl; omega⟩

example : createLabelImage [[0, 1], [2, 9]] [(0, 0, 0), (7, 7, 7), (8, 8, 8)] = [[(0, 0, 0), (7, 7, 7)], [(8, 8, 8), (0, 0, 0)]] := by
  decide

/-! ### C14 poses -/
section poses
variable {α : Type*} [Field α] [LinearOrder α] [IsStrictOrderedRing α]

/-- Specification: `inv` inverts every pose of the sequence. -/
def Inverts (inv : M4 α → M4 α) (poses : List (M4 α)) : Prop :=
  ∀ p ∈ poses, p.mul (inv p) = M4.one ∧ (inv p).mul p = M4.one

theorem inv_affine {p q : M4 α} (hp : p.Affine) (h : q.mul p = M4.one) : q.Affine := by
  obtain ⟨hb, hs⟩ := hp
  have h1 := congrArg M4.b h
  have h2 := congrArg M4.s h
  have h3 := congrArg M4.R h
  have h4 := congrArg M4.t h
  -- the bottom row of q·p is q.b·(p.R, p.t) + q.s (0,0,0,1); multiplying by p's inverse on the right recovers q's
  simp only [M4.mul, M4.one, hb, hs] at h1 h2 h3 h4
  have hR : q.R.mul p.R = M3.one := by
    rw [← h3]; ext <;> simp [M3.add, M3.outer, V3.add, V3.smul, V3.zero]
  have hRt : p.R.transpose.mulVec q.b = V3.zero := by
    rw [← h1]; ext <;> simp [V3.add, V3.smul, V3.zero]
  have hb0 : q.b = V3.zero := by
    have hT : q.R.transpose.mul p.R.transpose = (p.R.mul q.R).transpose := (M3.transpose_mul _ _).symm
    have hcomm : p.R.mul q.R = M3.one := by
      -- a left inverse of a 3×3 matrix over a field is a right inverse
      have hdet : q.R.det * p.R.det = 1 := by rw [← M3.det_mul, hR]; simp [M3.det, M3.one, V3.dot, V3.cross]
      have hd : q.R.det ≠ 0 := left_ne_zero_of_mul_eq_one hdet
      obtain ⟨adj, hadj⟩ : ∃ B : M3 α, B.mul q.R = M3.one := by
        refine ⟨M3.smul (1 / q.R.det) ⟨⟨q.R.r1.y * q.R.r2.z - q.R.r1.z * q.R.r2.y, q.R.r0.z * q.R.r2.y - q.R.r0.y * q.R.r2.z,
            q.R.r0.y * q.R.r1.z - q.R.r0.z * q.R.r1.y⟩,
          ⟨q.R.r1.z * q.R.r2.x - q.R.r1.x * q.R.r2.z, q.R.r0.x * q.R.r2.z - q.R.r0.z * q.R.r2.x,
            q.R.r0.z * q.R.r1.x - q.R.r0.x * q.R.r1.z⟩,
          ⟨q.R.r1.x * q.R.r2.y - q.R.r1.y * q.R.r2.x, q.R.r0.y * q.R.r2.x - q.R.r0.x * q.R.r2.y,
            q.R.r0.x * q.R.r1.y - q.R.r0.y * q.R.r1.x⟩⟩, ?_⟩
        have hinv : 1 / q.R.det * q.R.det = 1 := one_div_mul_cancel hd
        generalize 1 / q.R.det = e at hinv ⊢
        simp only [M3.det, V3.dot, V3.cross] at hinv
        ext <;> simp only [M3.mul, M3.smul, V3.smul, V3.dot, M3.c0, M3.c1, M3.c2, M3.one] <;>
          first | ring1 | linear_combination hinv
      have : p.R = adj := by
        have := congrArg (fun X => adj.mul X) hR
        simp only [← M3.mul_assoc, hadj, M3.one_mul, M3.mul_one] at this
        exact this
      rw [this, hadj]
    have := congrArg (fun v => q.R.transpose.mulVec v) hRt
    simp only [← M3.mul_mulVec, hT, hcomm] at this
    have e1 : (M3.one : M3 α).transpose = M3.one := rfl
    rw [e1, M3.one_mulVec] at this
    rw [this]; ext <;> simp [M3.mulVec, V3.dot, V3.zero]
  refine ⟨hb0, ?_⟩
  rw [hb0] at h2
  simpa [V3.dot, V3.zero] using h2

theorem compose_eq_mul (A B : M4 α) (hA : A.Affine) (hB : B.Affine) : Geom.composeTransforms1 A B = A.mul B :=
  Geom.compose_is_matrix_product A B hA hB

/-- **C14 (a)**. For every sequence of invertible affine poses, the returned poses are `P₀⁻¹ Pᵢ`, in particular the first is the identity,
and `P₀` times a returned pose gives the original back (no information is lost beyond `P₀`). -/
theorem preprocess_poses_spec (inv : M4 α → M4 α) (p0 : M4 α) (ps : List (M4 α)) (hinv : Inverts inv (p0 :: ps))
    (haff : ∀ p ∈ p0 :: ps, p.Affine) :
    ∃ out : List (M4 α), preprocessPoses inv (p0 :: ps) = .ok out ∧ out.length = (p0 :: ps).length ∧
      out[0]? = some M4.one ∧
      ∀ (i : Nat) (p : M4 α), (p0 :: ps)[i]? = some p → ∃ o : M4 α, out[i]? = some o ∧ o = (inv p0).mul p ∧ p0.mul o = p := by
  have hi := hinv p0 (by simp)
  have ha := inv_affine (haff p0 (by simp)) hi.2
  refine ⟨_, rfl, by simp, ?_, ?_⟩
  · simp [compose_eq_mul _ _ ha (haff p0 (by simp)), hi.2]
  · intro i p hp
    refine ⟨(inv p0).mul p, ?_, rfl, ?_⟩
    · have hm := List.mem_of_getElem? hp
      rw [List.getElem?_map, hp, Option.map_some, compose_eq_mul _ _ ha (haff p hm)]
    · rw [← M4.mul_assoc, hi.1, M4.one_mul]

theorem transforms_get (inv : M4 α → M4 α) (poses : List (M4 α)) (i : Nat) (p q : M4 α)
    (hp : poses[i]? = some p) (hq : poses[i + 1]? = some q) :
    (posesToTransforms inv poses)[i + 1]? = some ((inv p).mul q) := by
  cases poses with
  | nil => simp at hp
  | cons a as => simp only [posesToTransforms, List.getElem?_cons_succ, List.getElem?_zipWith, List.tail_cons] at *; simp [hp, hq]

/-- **C14 (b)**. The frame-to-frame transforms start with the identity, entry `i+1` is `Pᵢ⁻¹ Pᵢ₊₁`, and the product of the first `i+1`
of them is `P₀⁻¹ Pᵢ`, i.e. exactly pose `i` of the returned pose sequence: the two outputs of a dataset item agree. -/
theorem transforms_compose_to_poses (inv : M4 α → M4 α) (p0 : M4 α) (ps : List (M4 α)) (hinv : Inverts inv (p0 :: ps)) :
    (posesToTransforms inv (p0 :: ps)).length = (p0 :: ps).length ∧
    (posesToTransforms inv (p0 :: ps))[0]? = some M4.one ∧
    ∀ i p, (p0 :: ps)[i]? = some p →
      ((posesToTransforms inv (p0 :: ps)).take (i + 1)).foldl M4.mul M4.one = (inv p0).mul p := by
  refine ⟨by simp [posesToTransforms], rfl, ?_⟩
  intro i
  induction i with
  | zero =>
    intro p hp
    simp only [List.getElem?_cons_zero, Option.some.injEq] at hp
    subst hp
    simp [posesToTransforms, M4.one_mul, (hinv p0 (by simp)).2]
  | succ i ih =>
    intro q hq
    have hlt : i + 1 < (p0 :: ps).length := by
      by_contra hc; rw [List.getElem?_eq_none (by omega)] at hq; simp at hq
    obtain ⟨p, hp⟩ : ∃ p, (p0 :: ps)[i]? = some p := ⟨_, List.getElem?_eq_getElem (by omega)⟩
    have hT := transforms_get inv (p0 :: ps) i p q hp hq
    rw [List.take_add_one, List.foldl_append, ih p hp, hT]
    simp only [Option.toList_some, List.foldl_cons, List.foldl_nil]
    rw [M4.mul_assoc, ← M4.mul_assoc p, (hinv p (List.mem_of_getElem? hp)).1, M4.one_mul]

/-- Witness: two rigid poses and their inverses. -/
example : Inverts Geom.inverseTransform1 [(M4.one : M4 ℚ), Geom.T90] := by
  intro p hp
  simp only [List.mem_cons, List.not_mem_nil, or_false] at hp
  rcases hp with rfl | rfl
  · constructor <;> (ext <;> simp [Geom.inverseTransform1, M4.mul, M4.one, M3.mul, M3.transpose, M3.c0, M3.c1, M3.c2,
      M3.one, M3.add, M3.outer, M3.neg, M3.mulVec, V3.dot, V3.add, V3.smul, V3.neg, V3.zero])
  · constructor <;> (ext <;> simp [Geom.inverseTransform1, Geom.T90, M4.mul, M4.one, M3.mul, M3.transpose, M3.c0, M3.c1, M3.c2,
      M3.one, M3.add, M3.outer, M3.neg, M3.mulVec, V3.dot, V3.add, V3.smul, V3.neg, V3.zero])

end poses

/-! ### C15 intrinsics -/
section intr
variable {α : Type*} [Field α] [LinearOrder α] [IsStrictOrderedRing α]

/-- **C15**. For every skew-free intrinsics matrix (4×4 with last rows as usual), every point and all ratios, projecting with the scaled
matrix gives the pixel of the original matrix with `u` multiplied by the width ratio and `v` by the height ratio. -/
theorem scale_intrinsics_commutes (fx fy cx cy hr wr : α) (X : V3 α) :
    Geom.projectPoint (scaleIntrinsics4 ⟨⟨⟨fx, 0, cx⟩, ⟨0, fy, cy⟩, ⟨0, 0, 1⟩⟩, V3.zero, V3.zero, 1⟩ hr wr) (.inl X) =
      let uv := Geom.projectPoint ⟨⟨⟨fx, 0, cx⟩, ⟨0, fy, cy⟩, ⟨0, 0, 1⟩⟩, V3.zero, V3.zero, 1⟩ (.inl X)
      (wr * uv.1, hr * uv.2) := by
  simp [Geom.projectPoint, scaleIntrinsics4, scaleIntrinsics3, M4.mulVec, M3.mulVec, V3.dot, V3.add, V3.smul, V3.zero]
  constructor <;> ring

/-- Scaling twice is scaling by the products, scaling by 1 does nothing, and the last rows are untouched. -/
theorem scale_intrinsics_laws (K : M4 α) (h w h' w' : α) :
    scaleIntrinsics4 (scaleIntrinsics4 K h w) h' w' = scaleIntrinsics4 K (h * h') (w * w') ∧
    scaleIntrinsics4 K 1 1 = K ∧ (scaleIntrinsics4 K h w).R.r2 = K.R.r2 ∧ (scaleIntrinsics4 K h w).b = K.b ∧
    (scaleIntrinsics4 K h w).s = K.s := by
  refine ⟨?_, ?_, rfl, rfl, rfl⟩
  · ext <;> simp [scaleIntrinsics4, scaleIntrinsics3, mul_assoc]
  · ext <;> simp [scaleIntrinsics4, scaleIntrinsics3]

/-- **C15, the part that fails**: the skew entry is not scaled, so with non-zero skew the scaled matrix projects elsewhere. -/
theorem scale_intrinsics_skew_wrong :
    ∃ (K : M4 ℚ) (X : V3 ℚ), K.R.r0.y ≠ 0 ∧
      (Geom.projectPoint (scaleIntrinsics4 K 2 2) (.inl X)).1 ≠ 2 * (Geom.projectPoint K (.inl X)).1 := by
  refine ⟨⟨⟨⟨1, 1, 0⟩, ⟨0, 1, 0⟩, ⟨0, 0, 1⟩⟩, V3.zero, V3.zero, 1⟩, ⟨0, 1, 1⟩, by norm_num, ?_⟩
  simp [Geom.projectPoint, Geom.guardZ, scaleIntrinsics4, scaleIntrinsics3, M4.mulVec, M3.mulVec, V3.dot, V3.add, V3.smul, V3.zero]

/-! ### C16 images -/

/-- **C16 (a)**. `normalize_image` keeps the shape, divides by 255, maps `[0,255]` into `[0,1]` and loses nothing: multiplying by 255
recovers every element. -/
theorem normalize_image_spec (t : Tensor α) :
    (normalizeImage t).shape = t.shape ∧ (∀ i, (normalizeImage t).get i * 255 = t.get i) ∧
    ∀ i, 0 ≤ t.get i → t.get i ≤ 255 → 0 ≤ (normalizeImage t).get i ∧ (normalizeImage t).get i ≤ 1 := by
  refine ⟨rfl, fun i => ?_, fun i h0 h1 => ⟨div_nonneg h0 (by norm_num), ?_⟩⟩
  · simp [normalizeImage]
  · simp only [normalizeImage]; rw [div_le_one (by norm_num)]; exact h1

end intr

theorem channelOrdering_eq (n : Nat) : channelOrdering (n + 3) = List.range n ++ [n + 2, n, n + 1] := by
  have e1 : n + 3 - 2 = n + 1 := by omega
  have e2 : n + 3 - 3 = n := by omega
  have e3 : n + 3 - 1 = n + 2 := by omega
  have hr : List.range (n + 3) = List.range n ++ [n, n + 1, n + 2] := by
    simp [List.range_succ]
  simp only [channelOrdering, hr, e1, e2, e3]
  rw [List.set_append_right _ _ (by simp), List.set_append_right _ _ (by simp), List.set_append_right _ _ (by simp)]
  simp [show n + 1 - n = 1 by omega, show n + 2 - n = 2 by omega]

/-- **C16 (b)**. `channels_first` on any tensor of rank ≥ 3 of shape `(…, H, W, C)` has shape `(…, C, H, W)` and its element `(…, c, h, w)`
is the input's element `(…, h, w, c)`; lower ranks raise ValueError. -/
theorem channels_first_spec {α : Type*} (t : Tensor α) (pre : List Nat) (H W C : Nat) (hs : t.shape = pre ++ [H, W, C]) :
    ∃ out, channelsFirst t = .ok out ∧ out.shape = pre ++ [C, H, W] ∧
      ∀ (ipre : List Nat) (c h w : Nat), ipre.length = pre.length →
        out.get (ipre ++ [c, h, w]) = t.get (ipre ++ [h, w, c]) := by
  have hl : t.shape.length = pre.length + 3 := by simp [hs]
  refine ⟨permute (channelOrdering (pre.length + 3)) t, by simp [channelsFirst, hl], ?_, ?_⟩
  · rw [channelOrdering_eq]
    simp only [permute, hs, List.map_append, List.map_cons, List.map_nil]
    congr 1
    · apply List.ext_getElem?
      intro k
      by_cases hk : k < pre.length
      · simp [hk, List.getElem?_append_left]
      · simp [List.getElem?_eq_none (not_lt.1 hk), hk]
    · simp [List.getD_eq_getElem?_getD, List.getElem?_append_right]
  · intro ipre c h w hi
    simp only [permute]
    congr 1
    rw [channelOrdering_eq]
    have hlen : (List.range pre.length ++ [pre.length + 2, pre.length, pre.length + 1]).length = pre.length + 3 := by simp
    rw [hlen]
    have hidx : ∀ a < pre.length, (List.range pre.length ++ [pre.length + 2, pre.length, pre.length + 1]).idxOf a = a := by
      intro a ha
      rw [List.idxOf_append_of_mem (by simpa using ha)]
      have := List.Nodup.idxOf_getElem (List.nodup_range (n := pre.length)) a (by simpa using ha)
      simpa using this
    have hidx' : ∀ j, pre.length ≤ j → (List.range pre.length ++ [pre.length + 2, pre.length, pre.length + 1]).idxOf j =
        pre.length + [pre.length + 2, pre.length, pre.length + 1].idxOf j := by
      intro j hj
      rw [List.idxOf_append_of_notMem (by simpa using hj)]; simp
    have hr : List.range (pre.length + 3) = List.range pre.length ++ [pre.length, pre.length + 1, pre.length + 2] := by
      simp [List.range_succ]
    rw [hr, List.map_append]
    congr 1
    · apply List.ext_getElem?
      intro k
      by_cases hk : k < pre.length
      · have hk' : k < ipre.length := by omega
        simp only [List.getElem?_map, List.getElem?_range hk, Option.map_some, hidx k hk, List.getD_eq_getElem?_getD,
          List.getElem?_append_left hk', List.getElem?_eq_getElem hk', Option.getD_some]
      · rw [List.getElem?_eq_none (by simp; omega), List.getElem?_eq_none (by omega)]
    · simp only [List.map_cons, List.map_nil, hidx' _ (le_refl _), hidx' _ (Nat.le_add_right _ 1), hidx' _ (Nat.le_add_right _ 2)]
      rw [← hi]
      simp [List.idxOf_cons, List.getD_eq_getElem?_getD, List.getElem?_append_right]

theorem channels_first_rank_check {α : Type*} (t : Tensor α) (h : t.shape.length < 3) :
    channelsFirst t = .error .valueError := by simp [channelsFirst, h]

example : (⟨[2, 480, 640, 3], fun i => i⟩ : Tensor (List Nat)).shape = [2] ++ [480, 640, 3] := rfl

end Verif.Data
