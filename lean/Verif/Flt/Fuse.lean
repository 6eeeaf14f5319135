import Verif.Flt.Track
/-!
C90: maps under repeated calls of `fuse_with_map` in floating point.
-/
namespace Verif.Flt
open Verif Pcs Fusion

/-! ### Specification vocabulary -/

/-- Which image of a frame an attribute of the map is merged with: positions, normals or colours. -/
def imgOf (fr : Frame ℝ) : Attr → Nat → Nat → Nat → Nat → V3 ℝ
  | .points => fr.gv
  | .normals => fr.gn
  | _ => fr.rgb

/-- The row of the table for map point `(b, n)`, if there is one. -/
def hit (rows : List Row) (b n : Nat) : Option Row := rows.find? fun r => r.b = b ∧ r.n = n

/-- Weight and value (coordinate `i` of attribute `X`) with which map point `(b, n)` is updated by a call: those of its pixel, or nothing. -/
def seen (al : V3 ℝ → ℝ) (X : Attr) (i : Nat) (fr : Frame ℝ) (rows : List Row) (b n : Nat) : ℝ × ℝ :=
  match hit rows b n with
  | some r => (al (fr.v r.b 0 r.h r.w), comp (imgOf fr X r.b 0 r.h r.w) i)
  | none => (0, 0)

/-- A call of `fuse_with_map`: frame, table, `inplace`. -/
structure Call where
  fr : Frame ℝ
  rows : List Row
  inplace : Bool

/-- The updates of map point `(b, n)` by the calls that have matches. -/
def updates (al : V3 ℝ → ℝ) (X : Attr) (i : Nat) (cs : List Call) (b n : Nat) : List (ℝ × ℝ) :=
  (cs.filter fun c => c.rows ≠ []).map fun c => seen al X i c.fr c.rows b n

/-- The map has points, normals, colours and one feature column: `a` are the clouds it holds. -/
structure FusionMap (a : Clouds ℝ) (P Q : List (T2 ℝ)) : Prop where
  pts : a .points = some P
  nrm : (a .normals).isSome
  col : (a .colors).isSome
  feat : a .features = some Q
  one : ∀ t ∈ Q, t.cols = 1

/-- Calls one after the other, each on the result of the one before; every table refers to points of the map and pixels of the frame and
names no map point twice. -/
inductive Runs (F : Fmt) (al : V3 ℝ → ℝ) : PC ℝ → List Call → PC ℝ → Prop
  | nil (s) : Runs F al s [] s
  | cons (s s' t : PC ℝ) (c : Call) (cs : List Call) (s0 : PC ℝ) (hB : ∀ a P, Inv s a → a .points = some P → c.fr.B = P.length)
      (hr : ∀ a P, Inv s a → a .points = some P → RowsOk P c.fr c.rows) (hu : UniquePts c.rows)
      (h : fuseWithMapF F al s c.fr c.rows c.inplace = (.ok s', s0)) (hs : Runs F al s' cs t) : Runs F al s (c :: cs) t

/-! ### One call -/

theorem hit_lastAt {rows : List Row} (hu : UniquePts rows) (b n : Nat) : lastAt rows b n = hit rows b n := by
  cases h : hit rows b n with
  | none =>
    rw [lastAt_none]
    intro r hr k
    have := List.find?_eq_none.1 h r hr
    simp [k] at this
  | some r =>
    have h1 := List.mem_of_find?_eq_some h
    have h2 := List.find?_some h
    simp only [decide_eq_true_eq] at h2
    obtain ⟨rfl, rfl⟩ := h2
    exact lastAt_mem hu h1

theorem seen_eq {al : V3 ℝ → ℝ} {X : Attr} {i : Nat} {fr : Frame ℝ} {rows : List Row} (hu : UniquePts rows) (b n : Nat) :
    seen al X i fr rows b n = (scatterAl al fr rows b n, comp (scatter rows (imgOf fr X) b n) i) := by
  unfold seen scatterAl scatter
  rw [hit_lastAt hu]
  cases hit rows b n with
  | none => simp only [Prod.mk.injEq, true_and]; rcases i with _ | _ | i <;> rfl
  | some r => rfl

theorem toV3_merge (F : Fmt) (c a : ℝ) (q : V3 ℝ) (x y z : ℝ) (i : Nat) :
    comp (toV3 (mergeRowF F [c] a q [x, y, z])) i = mergeF F c a (comp ⟨x, y, z⟩ i) (comp q i) := by
  simp only [mergeRowF, coef, List.mapIdx_cons, List.mapIdx_nil, toV3, List.length_singleton, if_true, List.getD_cons_zero]
  rcases i with _ | _ | i <;> rfl

/-- One call: the values of the result. -/
theorem fuseF_values (F : Fmt) {s s' s0 : PC ℝ} {a : Clouds ℝ} {P Q : List (T2 ℝ)} (hi : Inv s a) (hm : FusionMap a P Q) {al : V3 ℝ → ℝ}
    {fr : Frame ℝ} {rows : List Row} {ip : Bool} (hB : fr.B = P.length) (hr : RowsOk P fr rows) (hu : UniquePts rows)
    (h : fuseWithMapF F al s fr rows ip = (.ok s', s0)) :
    ∃ a' P' Q', Inv s' a' ∧ FusionMap a' P' Q' ∧ P'.length = fr.B ∧
      (∀ b n, (rowAt P b n).isSome → (rowAt P' b n).isSome) ∧
      (∀ b n, (rowAt P b n).isSome → conf Q' b n = if rows = [] then conf Q b n else F.rnd (conf Q b n + (seen al .points 0 fr rows b n).1)) ∧
      (∀ X l, X ≠ .features → a X = some l → ∃ l', a' X = some l' ∧ ∀ b n x, vecAt l b n = some x → ∃ x', vecAt l' b n = some x' ∧
        ∀ i, comp x' i = if rows = [] then comp x i else
          mergeF F (conf Q b n) (seen al X i fr rows b n).1 (comp x i) (seen al X i fr rows b n).2) ∧
      (∀ b < fr.B, ∀ k, rowAt Q' b (sizeAt P b + k) =
        (pixels fr.L fr.H fr.W (newMask fr rows b))[k]?.map fun x => [al (fr.v b x.1 x.2.1 x.2.2)]) ∧
      (∀ X, X ≠ .features → ∀ l', a' X = some l' → AppendedAttr fr (newMask fr rows) (imgOf fr X) P l') := by
  obtain ⟨Nn, hNn⟩ := Option.isSome_iff_exists.1 hm.nrm
  obtain ⟨C, hC⟩ := Option.isSome_iff_exists.1 hm.col
  have hP := hm.pts
  have hQ := hm.feat
  have hw : Wf a P := by
    rcases hi with h | ⟨P', h, _⟩
    · rw [h.noPoints] at hP; cases hP
    · have := h.wf.pts; rw [hP] at this; rw [Option.some.inj this]; exact h.wf
  obtain ⟨res, s1, e, h1, _, _, _⟩ := fuseF_rep F hi hP hNn hC hQ hm.one hB hr al ip
  rw [h] at e
  simp only [Prod.mk.injEq, Except.ok.injEq] at e
  obtain ⟨rfl, rfl⟩ := e
  set m := newMask fr rows with hmm
  have pl : ∀ f, (picked fr m f).length = fr.B := picked_length fr m
  have pal : (pickedAl al fr m).length = fr.B := by simp [pickedAl]
  -- the map before the new points are appended
  have mid : ∃ P1 N1 C1 Q1, mergedOrF F al fr rows P Nn C Q a .points = some P1 ∧ mergedOrF F al fr rows P Nn C Q a .normals = some N1 ∧
      mergedOrF F al fr rows P Nn C Q a .colors = some C1 ∧ mergedOrF F al fr rows P Nn C Q a .features = some Q1 ∧
      sizes P1 = sizes P ∧ sizes N1 = sizes P ∧ sizes C1 = sizes P ∧ sizes Q1 = sizes P ∧ (∀ t ∈ Q1, t.cols = 1) ∧
      (∀ b n, (rowAt P b n).isSome → conf Q1 b n = if rows = [] then conf Q b n else F.rnd (conf Q b n + scatterAl al fr rows b n)) ∧
      (∀ X l l1, X ≠ .features → a X = some l → mergedOrF F al fr rows P Nn C Q a X = some l1 → ∀ b n x, vecAt l b n = some x →
        ∃ x', vecAt l1 b n = some x' ∧ ∀ i, comp x' i = if rows = [] then comp x i else
          mergeF F (conf Q b n) (scatterAl al fr rows b n) (comp x i) (comp (scatter rows (imgOf fr X) b n) i)) := by
    by_cases h0 : rows = []
    · have em : mergedOrF F al fr rows P Nn C Q a = a := by rw [mergedOrF, if_pos h0]
      rw [em]
      refine ⟨P, Nn, C, Q, hP, hNn, hC, hQ, rfl, hw.rows _ _ hNn, hw.rows _ _ hC, hw.rows _ _ hQ, hm.one, fun b n _ => by rw [if_pos h0], ?_⟩
      intro X l l1 _ hl hl1 b n x hx
      rw [hl] at hl1; cases hl1
      exact ⟨x, hx, fun i => by rw [if_pos h0]⟩
    · have em : mergedOrF F al fr rows P Nn C Q a = mergeCloudsF F al fr rows P Nn C Q := by rw [mergedOrF, if_neg h0]
      rw [em]
      refine ⟨_, _, _, _, rfl, rfl, rfl, rfl, sizes_mapRows _ _, (sizes_mapRows _ _).trans (hw.rows _ _ hNn),
        (sizes_mapRows _ _).trans (hw.rows _ _ hC), (sizes_mapRows _ _).trans (hw.rows _ _ hQ), mapRows_cols hm.one, ?_, ?_⟩
      · intro b n hs
        rw [if_neg h0]
        have hs' : (rowAt Q b n).isSome := by rw [rowAt_isSome hw hQ]; exact hs
        obtain ⟨rf, hrf⟩ := Option.isSome_iff_exists.1 hs'
        have hrf' := row_conf hrf (valid_row (hw.valid _ _ hQ) hm.one hrf)
        rw [conf, mergeConfF, rowAt_mapRows, hrf']
        simp
      · intro X l l1 hX hl hl1 b n x hx
        have el : l1 = mergeImgF F al fr rows Q (imgOf fr X) l := by
          cases X with
          | points => rw [hP] at hl; cases hl; simp only [mergeCloudsF, Option.some.injEq] at hl1; exact hl1.symm
          | normals => rw [hNn] at hl; cases hl; simp only [mergeCloudsF, Option.some.injEq] at hl1; exact hl1.symm
          | colors => rw [hC] at hl; cases hl; simp only [mergeCloudsF, Option.some.injEq] at hl1; exact hl1.symm
          | features => exact absurd rfl hX
        subst el
        simp only [vecAt, Option.map_eq_some_iff] at hx
        obtain ⟨row, hrow, rfl⟩ := hx
        obtain ⟨x, y, z, rfl⟩ := Wf.rowAt3 hw hX hl hrow
        have hs : (rowAt Q b n).isSome := by rw [rowAt_isSome hw hQ, ← rowAt_isSome hw hl, hrow]; rfl
        obtain ⟨rf, hrf⟩ := Option.isSome_iff_exists.1 hs
        have hrf' := row_conf hrf (valid_row (hw.valid _ _ hQ) hm.one hrf)
        refine ⟨_, by rw [vecAt, mergeImgF, rowAt_mapRows, hrow, Option.map_some, Option.map_some], fun i => ?_⟩
        rw [if_neg h0, hrf', Option.getD_some, toV3_merge]
        rfl
  obtain ⟨P1, N1, C1, Q1, q1, q2, q3, q4, z1, z2, z3, z4, one1, hconf, hval⟩ := mid
  have lenOf : ∀ {l : List (T2 ℝ)}, sizes l = sizes P → l.length = fr.B := by
    intro l h; have := congrArg List.length h; simpa [sizes, hB] using this
  have g1 := specAppend_some (b := newArg al fr m) q1 rfl
  have g2 := specAppend_some (b := newArg al fr m) q2 rfl
  have g3 := specAppend_some (b := newArg al fr m) q3 rfl
  have g4 := specAppend_some (b := newArg al fr m) q4 rfl
  have somecat : ∀ {l q : List (T2 ℝ)}, l.length = q.length → ∀ b n, (rowAt l b n).isSome → rowAt (catL l q) b n = rowAt l b n := by
    intro l q hl b n hs
    rw [rowAt_catL hl, if_pos (sizeAt_isSome.1 hs)]
  refine ⟨_, _, _, h1, ⟨g1, by rw [g2]; rfl, by rw [g3]; rfl, g4, ?_⟩, by rw [catL_length (by rw [lenOf z1, pl]), lenOf z1], ?_, ?_, ?_, ?_, ?_⟩
  · intro t ht
    obtain ⟨b, hb, rfl⟩ := List.getElem_of_mem ht
    have hb1 : b < Q1.length := by rw [lenOf z4]; rw [catL_length (by rw [lenOf z4, pal])] at hb; rwa [lenOf z4] at hb
    simp only [catL, List.getElem_zipWith]
    exact one1 _ (List.getElem_mem hb1)
  · intro b n hs
    have hs' : (rowAt P1 b n).isSome := by rw [sizeAt_isSome, sizeAt_sizes z1, ← sizeAt_isSome]; exact hs
    rw [somecat (by rw [lenOf z1, pl]) b n hs']; exact hs'
  · intro b n hs
    have hs' : (rowAt Q1 b n).isSome := by rw [sizeAt_isSome, sizeAt_sizes z4, ← sizeAt_isSome]; exact hs
    rw [conf_cat_old (by rw [lenOf z4, pal]) hs', hconf b n hs, seen_eq hu]
  · intro X l hX hl
    have key : ∀ l1 q, mergedOrF F al fr rows P Nn C Q a X = some l1 → newArg al fr m X = some q → l1.length = q.length → ∃ l',
        specAppend (mergedOrF F al fr rows P Nn C Q a) (newArg al fr m) X = some l' ∧ ∀ b n x, vecAt l b n = some x → ∃ x', vecAt l' b n = some x' ∧
        ∀ i, comp x' i = if rows = [] then comp x i else
          mergeF F (conf Q b n) (seen al X i fr rows b n).1 (comp x i) (seen al X i fr rows b n).2 := by
      intro l1 q hl1 hq hlen
      refine ⟨_, specAppend_some hl1 hq, fun b n x hx => ?_⟩
      obtain ⟨x', hx', hc⟩ := hval X l l1 hX hl hl1 b n x hx
      refine ⟨x', vecAt_cat_old hlen hx', fun i => ?_⟩
      rw [seen_eq hu]; exact hc i
    cases X with
    | points => exact key _ _ q1 rfl (by rw [lenOf z1, pl])
    | normals => exact key _ _ q2 rfl (by rw [lenOf z2, pl])
    | colors => exact key _ _ q3 rfl (by rw [lenOf z3, pl])
    | features => exact absurd rfl hX
  · intro b hb k
    rw [← sizeAt_sizes z4, rowAt_catL (by rw [lenOf z4, pal]), if_neg (by omega), Nat.add_sub_cancel_left, conf_pickedAl hb]
  · intro X hX l' hl'
    have key : ∀ l1, specAppend (mergedOrF F al fr rows P Nn C Q a) (newArg al fr m) X = some (catL l1 (picked fr m (imgOf fr X))) →
        sizes l1 = sizes P → AppendedAttr fr m (imgOf fr X) P l' := by
      intro l1 e hz b hb k
      rw [hl'] at e; cases e
      rw [← sizeAt_sizes hz, vecAt_cat_new (by rw [lenOf hz, pl]), vecAt_picked hb]
    cases X with
    | points => exact key P1 g1 z1
    | normals => exact key N1 g2 z2
    | colors => exact key C1 g3 z3
    | features => exact absurd rfl hX
end Verif.Flt
