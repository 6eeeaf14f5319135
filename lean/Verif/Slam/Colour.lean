import Verif.Slam.Batch
import Verif.Slam.Real
import Verif.Slam.Moved
/-!
C92: colours do not influence poses and geometry; the colours of the map are weighted means of the colours seen, with weights that do not
depend on colours.
-/
namespace Verif.Slam
open Verif Pcs
set_option linter.unusedSectionVars false
set_option linter.unusedSimpArgs false

section
variable {α : Type*} [Field α] [LinearOrder α] [IsStrictOrderedRing α] [FloorRing α]

/-- The inputs with other colours. -/
def recolour (g : Nat → Nat → Nat → Nat → V3 α) (i : Rgbd.In α) : Rgbd.In α := { i with rgb := g }

/-- A relation between colours that is kept by weighted means `(u p + v q) / (u + v)` with positive weights. -/
def Convex (R : V3 α → V3 α → Prop) : Prop :=
  ∀ u v p q p' q', 0 < u → 0 < v → R p p' → R q q' → R (Fusion.wAvg u v p q) (Fusion.wAvg u v p' q')

/-- Two maps with the same points, normals and confidences, and related colours. -/
structure Alike (R : V3 α → V3 α → Prop) (a c : Clouds α) : Prop where
  same : ∀ X, X ≠ .colors → c X = a X
  none : c .colors = none ↔ a .colors = none
  rel : ∀ l m, a .colors = some l → c .colors = some m → ∀ b n p q, Fusion.vecAt l b n = some p → Fusion.vecAt m b n = some q → R p q

/-- The provider's answer does not depend on colours. -/
def Blind (provide : PC α → PC α → Except Icp.Err (List (M4 α))) : Prop :=
  ∀ m m' f f' a a' c c', Inv m a → Inv m' a' → Inv f c → Inv f' c' → (∀ X, X ≠ .colors → a' X = a X) → (∀ X, X ≠ .colors → c' X = c X) →
    provide m f = provide m' f'

/-- The ICP providers do not look at colours. -/
theorem icp_provide_blind (icp : List (V3 α) → List (V3 α) → List (V3 α) → Option (M4 α) → Except Icp.Err (M4 α × List Nat)) :
    Blind (Icp.provide icp) := by
  intro m m' f f' a a' c c' hm hm' hf hf' ha hc
  have o1 := inv_obs hm; have o2 := inv_obs hm'; have o3 := inv_obs hf; have o4 := inv_obs hf'
  have e1 : count a' = count a := by unfold count; rw [ha .points (by simp)]
  have e2 : count c' = count c := by unfold count; rw [hc .points (by simp)]
  simp only [Icp.provide, o1.list, o2.list, o3.list, o4.list, o1.size, o2.size, o3.size, o4.size, e1, e2, ha .points (by simp), ha .normals (by simp),
    hc .points (by simp)]

variable {R : V3 α → V3 α → Prop} {g : Nat → Nat → Nat → Nat → V3 α} {S : Sys α} {i : Rgbd.In α}

/-! ### Localisation -/

theorem question_blind {a c : Clouds α} {P : List (T2 α)} {ip : Rgbd.In α} {g' : Nat → Nat → Nat → Nat → V3 α} {Q : Rgbd.TM α} {m f m' f' : PC α}
    (h : Question S a P i ip Q m f) (h' : Question S c P (recolour g i) (recolour g' ip) Q m' f') (ha : ∀ X, X ≠ .colors → c X = a X) {provide}
    (hx : Blind provide) : provide m f = provide m' f' := by
  obtain ⟨rows, ar, im⟩ := h.maps
  obtain ⟨rows', ar', im'⟩ := h'.maps
  obtain ⟨px, hf, hp⟩ := h.frames
  obtain ⟨px', hf', hp'⟩ := h'.frames
  have e1 : rows' = rows := rows_unique ar'.sorted ar.sorted fun r => by rw [ar'.mem, ar.mem]; exact Iff.rfl
  have e2 : ∀ b < i.B, px' b = px b := fun b hb => px_unique (hp' b hb).1 (hp b hb).1 fun x y => by rw [(hp' b hb).2, (hp b hb).2]; exact Iff.rfl
  refine hx _ _ _ _ _ _ _ _ im im' hf hf' (fun X hX => ?_) (fun X hX => ?_)
  · rw [e1]
    cases X with
    | colors => exact absurd rfl hX
    | points => simp only [Icp.mapAt]; rw [ha .points (by simp)]
    | normals => simp only [Icp.mapAt]; rw [ha .normals (by simp)]
    | features => rfl
  · cases X with
    | colors => exact absurd rfl hX
    | features => rfl
    | points =>
      simp only [Icp.framesAt, Option.some.injEq]
      refine List.map_congr_left fun b hb => ?_
      rw [e2 b (List.mem_range.1 hb)]; rfl
    | normals =>
      simp only [Icp.framesAt, Option.some.injEq]
      refine List.map_congr_left fun b hb => ?_
      rw [e2 b (List.mem_range.1 hb)]; rfl

/-! ### One fusion step -/

variable {d t : α} {T : Nat → Nat → M4 α} {a a1 c a2 : Clouds α} {P P1 P2 : List (T2 α)} {rows1 rows2 : List Fusion.Row}

theorem cand_colour {Nn : List (T2 α)} {r : Fusion.Row} :
    Fusion.Candidate S.nrm P Nn (view S (recolour g i)) T d t r ↔ Fusion.Candidate S.nrm P Nn (view S i) T d t r :=
  ⟨fun h => ⟨h.pix, h.visible, h.similar⟩, fun h => ⟨h.pix, h.visible, h.similar⟩⟩

theorem rows_colour (h : ∀ X, X ≠ .colors → c X = a X) (h1 : FusionStep S d t i T a a1 P P1 rows1)
    (h2 : FusionStep S d t (recolour g i) T c a2 P P2 rows2) : ∀ r, r ∈ rows1 ↔ r ∈ rows2 := by
  obtain ⟨⟨Nn, hN⟩, _, ⟨F, hF⟩⟩ := step_attrs h1
  have hN2 : c .normals = some Nn := (h .normals (by simp)).trans hN
  have hF2 : c .features = some F := (h .features (by simp)).trans hF
  have key : ∀ {r s : Fusion.Row}, Fusion.Preferred P F (view S i) s r → Fusion.Preferred P F (view S i) r s → s.n = r.n := fun p q => preferred_antisymm q p |>.symm
  intro r
  constructor
  · intro hr
    obtain ⟨s, hs, e, p⟩ := h2.best Nn F hN2 hF2 r (cand_colour.2 (h1.cand Nn hN r hr))
    obtain ⟨r', hr', e', p'⟩ := h1.best Nn F hN hF s (cand_colour.1 (h2.cand Nn hN2 s hs))
    have : r' = r := same_pixel h1.pix hr' hr ⟨e'.1.trans e.1, e'.2.1.trans e.2.1, e'.2.2.trans e.2.2⟩
    subst this
    have : s = r' := Fusion.Row.ext e.1 (key p p') e.2.1 e.2.2
    exact this ▸ hs
  · intro hr
    obtain ⟨s, hs, e, p⟩ := h1.best Nn F hN hF r (cand_colour.1 (h2.cand Nn hN2 r hr))
    obtain ⟨r', hr', e', p'⟩ := h2.best Nn F hN2 hF2 s (cand_colour.2 (h1.cand Nn hN s hs))
    have : r' = r := same_pixel h2.pix hr' hr ⟨e'.1.trans e.1, e'.2.1.trans e.2.1, e'.2.2.trans e.2.2⟩
    subst this
    have : s = r' := Fusion.Row.ext e.1 (key p p') e.2.1 e.2.2
    exact this ▸ hs

theorem mask_colour (hmem : ∀ r, r ∈ rows1 ↔ r ∈ rows2) (b : Nat) :
    Fusion.newMask (view S (recolour g i)) rows2 b = Fusion.newMask (view S i) rows1 b := by
  funext l h w
  rw [Bool.eq_iff_iff]
  cases l with
  | zero => rw [Fusion.newMask_iff, Fusion.newMask_iff]; simp only [hmem]; exact Iff.rfl
  | succ l => simp [Fusion.newMask]; rfl

/-- A three-channel attribute after the step: related, if it was before and the images are. -/
theorem three_colour {R : V3 α → V3 α → Prop} (h : ∀ X, X ≠ .colors → c X = a X) (h1 : FusionStep S d t i T a a1 P P1 rows1)
    (h2 : FusionStep S d t (recolour g i) T c a2 P P2 rows2) {X : Attr} {img img2 : Nat → Nat → Nat → Nat → V3 α}
    (hX : (X, img) ∈ [(Attr.points, Rgbd.gvertexAt S.eps i), (.normals, Rgbd.gnormalAt S.nrm S.eps i), (.colors, i.rgb)])
    (hX2 : (X, img2) ∈ [(Attr.points, Rgbd.gvertexAt S.eps i), (.normals, Rgbd.gnormalAt S.nrm S.eps i), (.colors, g)])
    (hconf : ∀ F, a .features = some F → ∀ b n, (Fusion.rowAt F b n).isSome → 0 < Fusion.conf F b n) (hal : ∀ p, 0 < S.al p)
    (hR : Convex R) (hold : ∀ l m, a X = some l → c X = some m → ∀ b n p q, Fusion.vecAt l b n = some p → Fusion.vecAt m b n = some q → R p q)
    (himg : ∀ b < i.B, ∀ y < i.H, ∀ x < i.W, (0 < i.depth b 0 y x ∨ t < 0) → R (img b 0 y x) (img2 b 0 y x))
    {l1 l2 : List (T2 α)} (e1 : a1 X = some l1) (e2 : a2 X = some l2) :
    ∀ b n p q, Fusion.vecAt l1 b n = some p → Fusion.vecAt l2 b n = some q → R p q := by
  have hmem := rows_colour h h1 h2
  obtain ⟨F, l, l1', hF, hl, hl1, m1, k1, n1⟩ := h1.merged X img hX
  obtain ⟨F2, l', l2', hF2, hl', hl2, m2, k2, n2⟩ := h2.merged X img2 hX2
  rw [e1] at hl1; rw [e2] at hl2; cases hl1; cases hl2
  rw [h .features (by simp), hF] at hF2; cases hF2
  obtain ⟨⟨Nn, hN⟩, _, _⟩ := step_attrs h1
  intro b n p q hp hq
  by_cases hb : b < i.B
  · by_cases hn : n < Fusion.sizeAt P b
    · have hs : (Fusion.rowAt l b n).isSome := by
        rw [Fusion.sizeAt_isSome, Fusion.sizeAt_sizes (h1.oldWf.rows _ _ hl)]; exact hn
      have hs' : (Fusion.rowAt l' b n).isSome := by
        rw [Fusion.sizeAt_isSome, Fusion.sizeAt_sizes (h2.oldWf.rows _ _ hl')]; exact hn
      have hsF : (Fusion.rowAt F b n).isSome := by
        rw [Fusion.sizeAt_isSome, Fusion.sizeAt_sizes (h1.oldWf.rows _ _ hF)]; exact hn
      obtain ⟨row, hrow⟩ := Option.isSome_iff_exists.1 hs
      obtain ⟨row', hrow'⟩ := Option.isSome_iff_exists.1 hs'
      have hv : Fusion.vecAt l b n = some (Fusion.toV3 row) := by simp [Fusion.vecAt, hrow]
      have hv' : Fusion.vecAt l' b n = some (Fusion.toV3 row') := by simp [Fusion.vecAt, hrow']
      have hr := hold l l' hl hl' b n _ _ hv hv'
      by_cases hex : ∃ r ∈ rows1, r.b = b ∧ r.n = n
      · obtain ⟨r, hr1, rfl, rfl⟩ := hex
        rw [m1 r hr1 _ hv] at hp
        rw [m2 r ((hmem r).1 hr1) _ hv'] at hq
        cases hp; cases hq
        refine hR _ _ _ _ _ _ (hconf F hF _ _ hsF) (hal _) hr (himg _ hb _ (h1.inside r hr1).2.2.1 _ (h1.inside r hr1).2.2.2 ?_)
        by_cases ht : t < 0
        · exact .inr ht
        · have := Fusion.candidate_valid (Fusion.ofIn_zeroNormals S.nrm S.eps i) (not_lt.1 ht) (h1.cand Nn hN r hr1)
          exact .inl (by simpa [Fusion.Frame.ofIn] using this)
      · rw [k1 b n _ hv fun r hr hh => hex ⟨r, hr, hh⟩] at hp
        rw [k2 b n _ hv' fun r hr hh => hex ⟨r, (hmem r).2 hr, hh⟩] at hq
        cases hp; cases hq; exact hr
    · obtain ⟨k, rfl⟩ := Nat.exists_eq_add_of_le (not_lt.1 hn)
      rw [n1 b hb] at hp
      rw [n2 b hb, mask_colour hmem] at hq
      change ((Fusion.pixels 1 i.H i.W (Fusion.newMask (view S i) rows1 b))[k]?.map fun x => img2 b x.1 x.2.1 x.2.2) = some q at hq
      cases hz : (Fusion.pixels 1 i.H i.W (Fusion.newMask (view S i) rows1 b))[k]? with
      | none => rw [hz] at hp; cases hp
      | some z =>
        rw [hz] at hp hq
        cases hp; cases hq
        have hz' := ((Fusion.pixels_spec 1 i.H i.W (Fusion.newMask (view S i) rows1 b)).1 z.1 z.2.1 z.2.2).1 (List.mem_of_getElem? hz)
        have z0 : z.1 = 0 := by omega
        show R (img b z.1 z.2.1 z.2.2) (img2 b z.1 z.2.1 z.2.2)
        rw [z0] at hz' ⊢
        refine himg b hb _ hz'.2.1 _ hz'.2.2.1 (.inl ?_)
        have := ((Fusion.newMask_iff _ _ _ _ _).1 hz'.2.2.2).1
        simpa [Fusion.Frame.ofIn] using this
  · have : l1.length = i.B := (h1.wf.length e1).trans h1.batch
    simp [Fusion.vecAt, Fusion.rowAt, List.getElem?_eq_none (show l1.length ≤ b by omega)] at hp

theorem clouds_of_vec {l m : List (T2 α)} (hlen : l.length = m.length) (hl : ∀ t ∈ l, t.cols = 3) (hm : ∀ t ∈ m, t.cols = 3) (vl : ∀ t ∈ l, t.Valid)
    (vm : ∀ t ∈ m, t.Valid) (hs : ∀ b, Fusion.sizeAt l b = Fusion.sizeAt m b)
    (h : ∀ b n p q, Fusion.vecAt l b n = some p → Fusion.vecAt m b n = some q → p = q) : m = l := by
  refine (cloud_ext hlen hl hm fun b n => ?_).symm
  by_cases hn : n < Fusion.sizeAt l b
  · obtain ⟨x, hx⟩ := Option.isSome_iff_exists.1 (Fusion.sizeAt_isSome.2 hn)
    obtain ⟨y, hy⟩ := Option.isSome_iff_exists.1 (Fusion.sizeAt_isSome.2 (hs b ▸ hn))
    rw [hx, hy, row_of_vec (Fusion.valid_row vl hl hx) (Fusion.valid_row vm hm hy)
      (h b n _ _ (by rw [Fusion.vecAt, hx]; rfl) (by rw [Fusion.vecAt, hy]; rfl))]
  · have n1 : Fusion.rowAt l b n = none := by
      cases h1 : Fusion.rowAt l b n with
      | none => rfl
      | some x => exact absurd (Fusion.sizeAt_isSome.1 (by simp [h1])) hn
    have n2 : Fusion.rowAt m b n = none := by
      cases h1 : Fusion.rowAt m b n with
      | none => rfl
      | some x => exact absurd (Fusion.sizeAt_isSome.1 (by simp [h1])) (hs b ▸ hn)
    rw [n1, n2]

theorem convex_eq : Convex (α := α) (fun p q => p = q) := by intro u v p q p' q' _ _ h1 h2; subst h1; subst h2; rfl

/-- After a fusion step over the same frames with other colours. -/
theorem fusion_colour (hA : Alike R a c) (h1 : FusionStep S d t i T a a1 P P1 rows1) (h2 : FusionStep S d t (recolour g i) T c a2 P P2 rows2)
    (hconf : ∀ F, a .features = some F → ∀ b n, (Fusion.rowAt F b n).isSome → 0 < Fusion.conf F b n) (hal : ∀ p, 0 < S.al p)
    (hR : Convex R) (himg : ∀ b < i.B, ∀ y < i.H, ∀ x < i.W, (0 < i.depth b 0 y x ∨ t < 0) → R (i.rgb b 0 y x) (g b 0 y x)) : Alike R a1 a2 := by
  have hmem := rows_colour hA.same h1 h2
  have hb1 : P1.length = i.B := h1.batch
  have hb2 : P2.length = i.B := h2.batch
  have hsz : ∀ b, Fusion.sizeAt P1 b = Fusion.sizeAt P2 b := by
    intro b
    by_cases hb : b < i.B
    · rw [h1.size b hb, h2.size b hb, mask_colour hmem]; rfl
    · simp [Fusion.sizeAt, List.getD_eq_getElem?_getD, List.getElem?_eq_none (show P1.length ≤ b by omega),
        List.getElem?_eq_none (show P2.length ≤ b by omega)]
  have geo : ∀ X img, (X, img) ∈ [(Attr.points, Rgbd.gvertexAt S.eps i), (.normals, Rgbd.gnormalAt S.nrm S.eps i)] → a2 X = a1 X := by
    intro X img hX
    have hX1 : (X, img) ∈ [(Attr.points, Rgbd.gvertexAt S.eps i), (.normals, Rgbd.gnormalAt S.nrm S.eps i), (.colors, i.rgb)] := by
      simp only [List.mem_cons, List.not_mem_nil, or_false] at hX ⊢; tauto
    have hX2 : (X, img) ∈ [(Attr.points, Rgbd.gvertexAt S.eps i), (.normals, Rgbd.gnormalAt S.nrm S.eps i), (.colors, g)] := by
      simp only [List.mem_cons, List.not_mem_nil, or_false] at hX ⊢; tauto
    have hXc : X ≠ .colors ∧ X ≠ .features := by
      simp only [List.mem_cons, Prod.mk.injEq, List.not_mem_nil, or_false] at hX
      rcases hX with ⟨rfl, _⟩ | ⟨rfl, _⟩ <;> simp
    obtain ⟨_, l, l1, _, hl, hl1, _⟩ := h1.merged X img hX1
    obtain ⟨_, l', l2, _, hl', hl2, _⟩ := h2.merged X img hX2
    obtain ⟨C1, c1, d1⟩ := h1.wf.cols X l1 hl1
    obtain ⟨C2, c2, d2⟩ := h2.wf.cols X l2 hl2
    rw [d1 hXc.2] at c1; rw [d2 hXc.2] at c2
    rw [hl1, hl2]
    congr 1
    refine clouds_of_vec ?_ c1 c2 (h1.wf.valid _ _ hl1) (h2.wf.valid _ _ hl2) (fun b => ?_)
      (three_colour hA.same h1 h2 hX1 hX2 hconf hal convex_eq (fun l m e1 e2 b n p q hp hq => ?_) (fun _ _ _ _ _ _ _ => rfl) hl1 hl2)
    · rw [h1.wf.length hl1, h2.wf.length hl2, hb1, hb2]
    · rw [Fusion.sizeAt_sizes (h1.wf.rows _ _ hl1), Fusion.sizeAt_sizes (h2.wf.rows _ _ hl2)]; exact hsz b
    · rw [hA.same X hXc.1, e1] at e2; cases e2
      rw [hp] at hq; cases hq; rfl
  have colour : ∀ X img, (X, img) ∈ [(Attr.colors, i.rgb)] → ∃ l1 l2, a1 X = some l1 ∧ a2 X = some l2 := by
    intro X img hX
    simp only [List.mem_cons, Prod.mk.injEq, List.not_mem_nil, or_false] at hX
    obtain ⟨rfl, rfl⟩ := hX
    obtain ⟨_, _, l1, _, _, hl1, _⟩ := h1.merged .colors i.rgb (by simp)
    obtain ⟨_, _, l2, _, _, hl2, _⟩ := h2.merged .colors g (by simp [recolour])
    exact ⟨l1, l2, hl1, hl2⟩
  obtain ⟨k1, k2, hk1, hk2⟩ := colour .colors i.rgb (by simp)
  refine ⟨fun X hX => ?_, by simp [hk1, hk2], fun l m hl hm => ?_⟩
  · cases X with
    | colors => exact absurd rfl hX
    | points => exact geo .points (Rgbd.gvertexAt S.eps i) (by simp)
    | normals => exact geo .normals (Rgbd.gnormalAt S.nrm S.eps i) (by simp)
    | features =>
      obtain ⟨F, F1, hF, hF1, c1, m1, n1, _⟩ := h1.conf
      obtain ⟨F', F2, hF', hF2, c2, m2, n2, _⟩ := h2.conf
      rw [hA.same .features (by simp), hF] at hF'; cases hF'
      rw [hF1, hF2]
      congr 1
      refine cloud_ext (by rw [h1.wf.length hF1, h2.wf.length hF2, hb1, hb2]) c2 c1 fun b n => ?_
      by_cases hb : b < i.B
      · by_cases hn : n < Fusion.sizeAt P b
        · have s1 : (Fusion.rowAt F1 b n).isSome := by
            rw [Fusion.sizeAt_isSome, Fusion.sizeAt_sizes (h1.wf.rows _ _ hF1), h1.size b hb]; omega
          have s2 : (Fusion.rowAt F2 b n).isSome := by
            rw [Fusion.sizeAt_isSome, Fusion.sizeAt_sizes (h2.wf.rows _ _ hF2), h2.size b hb]; omega
          obtain ⟨x, hx⟩ := Option.isSome_iff_exists.1 s1
          obtain ⟨y, hy⟩ := Option.isSome_iff_exists.1 s2
          have hs : (Fusion.rowAt F b n).isSome := by
            rw [Fusion.sizeAt_isSome, Fusion.sizeAt_sizes (h1.oldWf.rows _ _ hF)]; exact hn
          rw [Fusion.row_conf hx (Fusion.valid_row (h1.wf.valid _ _ hF1) c1 hx), Fusion.row_conf hy (Fusion.valid_row (h2.wf.valid _ _ hF2) c2 hy)]
          by_cases hex : ∃ r ∈ rows1, r.b = b ∧ r.n = n
          · obtain ⟨r, hr, rfl, rfl⟩ := hex
            rw [m1.matched r hr, m2.matched r ((hmem r).1 hr)]; rfl
          · rw [m1.kept b n hs fun r hr hh => hex ⟨r, hr, hh⟩, m2.kept b n hs fun r hr hh => hex ⟨r, (hmem r).2 hr, hh⟩]
        · obtain ⟨k, rfl⟩ := Nat.exists_eq_add_of_le (not_lt.1 hn)
          rw [n1 b hb, n2 b hb, mask_colour hmem]; rfl
      · have hz : ∀ {q : List (T2 α)}, q.length = i.B → Fusion.rowAt q b n = none := by
          intro q hq
          simp [Fusion.rowAt, List.getElem?_eq_none (show q.length ≤ b by omega)]
        rw [hz ((h1.wf.length hF1).trans hb1), hz ((h2.wf.length hF2).trans hb2)]
  · exact three_colour hA.same h1 h2 (X := .colors) (img := i.rgb) (img2 := g) (by simp) (by simp) hconf hal hR (hA.rel) himg hl hm

/-! ### New points -/

theorem picked_colour (hL : i.L = 1) (himg : ∀ b < i.B, ∀ y < i.H, ∀ x < i.W, 0 < i.depth b 0 y x → R (i.rgb b 0 y x) (g b 0 y x)) (b n : Nat) {p q : V3 α}
    (hp : Fusion.vecAt (Fusion.picked (view S i) (view S i).valid i.rgb) b n = some p)
    (hq : Fusion.vecAt (Fusion.picked (view S (recolour g i)) (view S (recolour g i)).valid g) b n = some q) : R p q := by
  by_cases hb : b < i.B
  · rw [Fusion.vecAt, Fusion.picked, rowAt_range _ _ (show b < (view S i).B from hb)] at hp
    rw [Fusion.vecAt, Fusion.picked, rowAt_range _ _ (show b < (view S (recolour g i)).B from hb)] at hq
    change (((Fusion.pixels i.L i.H i.W ((view S i).valid b)).map fun x => (i.rgb b x.1 x.2.1 x.2.2).toList)[n]?).map Fusion.toV3 = some p at hp
    change (((Fusion.pixels i.L i.H i.W ((view S i).valid b)).map fun x => (g b x.1 x.2.1 x.2.2).toList)[n]?).map Fusion.toV3 = some q at hq
    rw [hL] at hp hq
    simp only [List.getElem?_map, Option.map_map] at hp hq
    cases hx : (Fusion.pixels 1 i.H i.W ((view S i).valid b))[n]? with
    | none => rw [hx] at hp; cases hp
    | some x =>
      rw [hx] at hp hq
      simp only [Option.map_some, Function.comp, toV3_toList, Option.some.injEq] at hp hq
      subst hp; subst hq
      have hx' := ((Fusion.pixels_spec 1 i.H i.W ((view S i).valid b)).1 x.1 x.2.1 x.2.2).1 (List.mem_of_getElem? hx)
      have h0 : x.1 = 0 := by omega
      rw [h0] at hx' ⊢
      exact himg b hb _ hx'.2.1 _ hx'.2.2.1 (by simpa [Fusion.Frame.ofIn] using hx'.2.2.2)
  · rw [Fusion.vecAt, Fusion.rowAt, Fusion.picked, List.getElem?_eq_none (by rw [List.length_map, List.length_range]; exact not_lt.1 hb)] at hp
    cases hp

theorem newArg_colour (hL : i.L = 1) (himg : ∀ b < i.B, ∀ y < i.H, ∀ x < i.W, 0 < i.depth b 0 y x → R (i.rgb b 0 y x) (g b 0 y x)) :
    Alike R (Fusion.newArg S.al (view S i) (view S i).valid) (Fusion.newArg S.al (view S (recolour g i)) (view S (recolour g i)).valid) := by
  refine ⟨fun X hX => ?_, by simp [Fusion.newArg], fun l m hl hm b n p q hp hq => ?_⟩
  · cases X with
    | colors => exact absurd rfl hX
    | points => rfl
    | normals => rfl
    | features => rfl
  · cases hl; cases hm
    exact picked_colour hL himg b n hp hq

theorem grow_colour (hA : Alike R a c) (hL : i.L = 1) (himg : ∀ b < i.B, ∀ y < i.H, ∀ x < i.W, 0 < i.depth b 0 y x → R (i.rgb b 0 y x) (g b 0 y x))
    (ha : ∀ P, a .points = some P → Wf a P ∧ P.length = i.B) (hc : ∀ P, c .points = some P → Wf c P ∧ P.length = i.B) :
    Alike R (Fusion.specGrow a (addition S i)) (Fusion.specGrow c (addition S (recolour g i))) := by
  have hp := hA.same .points (by simp)
  cases hP : a .points with
  | none =>
    rw [Fusion.specGrow, if_pos hP, Fusion.specGrow, if_pos (hp.trans hP)]
    refine ⟨fun X hX => ?_, by simp [Fusion.frameArg], fun l m hl hm b n p q hp hq => ?_⟩
    · cases X with
      | colors => exact absurd rfl hX
      | points => rfl
      | normals => rfl
      | features => rfl
    · cases hl; cases hm
      exact picked_colour hL himg b n hp hq
  | some P =>
    obtain ⟨wa, la⟩ := ha P hP
    obtain ⟨wc, _⟩ := hc P (hp.trans hP)
    rw [Fusion.specGrow, if_neg (by simp [hP]), Fusion.specGrow, if_neg (by rw [hp]; simp [hP])]
    refine ⟨fun X hX => ?_, ?_, fun l m hl hm b n p q hp' hq' => ?_⟩
    · unfold specAppend
      rw [hA.same X hX]
      cases X with
      | colors => exact absurd rfl hX
      | points => rfl
      | normals => rfl
      | features => rfl
    · have := hA.none
      cases h1 : a .colors with
      | none => simp [specAppend, h1, this.2 h1]
      | some l =>
        obtain ⟨m, hm⟩ := Option.ne_none_iff_exists'.1 (fun hc => absurd (this.1 hc) (by simp [h1]) : c .colors ≠ none)
        simp [specAppend, h1, hm, Fusion.frameArg]
    · cases h1 : a .colors with
      | none => simp [specAppend, h1] at hl
      | some l0 =>
        cases h2 : c .colors with
        | none => simp [specAppend, h2] at hm
        | some m0 =>
          rw [specAppend_some h1 (show addition S i .colors = some (Fusion.picked (view S i) (view S i).valid i.rgb) from rfl)] at hl
          rw [specAppend_some h2 (show addition S (recolour g i) .colors =
            some (Fusion.picked (view S (recolour g i)) (view S (recolour g i)).valid g) from rfl)] at hm
          cases hl; cases hm
          have e1 : l0.length = (Fusion.picked (view S i) (view S i).valid i.rgb).length := by
            rw [wa.length h1, la, Fusion.picked_length]; rfl
          have e2 : m0.length = (Fusion.picked (view S (recolour g i)) (view S (recolour g i)).valid g).length := by
            rw [wc.length h2, la, Fusion.picked_length]; rfl
          have es : Fusion.sizeAt m0 b = Fusion.sizeAt l0 b := Fusion.sizeAt_sizes ((wc.rows _ _ h2).trans (wa.rows _ _ h1).symm) b
          rw [Fusion.vecAt, Fusion.rowAt_catL e1] at hp'
          rw [Fusion.vecAt, Fusion.rowAt_catL e2, es] at hq'
          by_cases hn : n < Fusion.sizeAt l0 b
          · rw [if_pos hn] at hp' hq'
            exact hA.rel l0 m0 h1 h2 b n p q hp' hq'
          · rw [if_neg hn] at hp' hq'
            exact picked_colour hL himg b _ hp' hq'

/-! ### Whole runs -/

variable {frames frames' : Rgbd.Obj α} {i' : Rgbd.In α}

/-- Colours that are read: those of pixels with depth, and all of them if `dot_th < 0` (an angle threshold above 90 degrees). -/
def Read (S : Sys α) (i : Rgbd.In α) (b t y x : Nat) : Prop := 0 < i.depth b t y x ∨ ∃ d th, S.mapper = .fusion d th ∧ th < 0

theorem change_colour (hB : 0 < i.B) {Ts : List (Rgbd.TM α)} (r : Run S frames i Ts a) {Us : List (Rgbd.TM α)} (r2 : Run S frames (recolour g i) Us c)
    (hR : Convex R) (hal : S.mapper = .aggregate ∨ ∀ p, 0 < S.al p)
    (himg : ∀ b < i.B, ∀ y < i.H, ∀ x < i.W, Read S i b Ts.length y x → R (i.rgb b Ts.length y x) (g b Ts.length y x)) (hA : Alike R a c) {Q : Rgbd.TM α}
    (h1 : MapChange S (posed (snap i Ts.length) Q) a a1) (h2 : MapChange S (posed (snap (recolour g i) Ts.length) Q) c a2) : Alike R a1 a2 := by
  have hj : posed (snap (recolour g i) Ts.length) Q = recolour (snap (recolour g i) Ts.length).rgb (posed (snap i Ts.length) Q) := rfl
  obtain ⟨s1, _, s3, s4, sp⟩ := snap_spec i Ts.length
  obtain ⟨_, _, _, _, sp2⟩ := snap_spec (recolour g i) Ts.length
  have him : ∀ b < (posed (snap i Ts.length) Q).B, ∀ y < i.H, ∀ x < i.W, Read S i b Ts.length y x →
      R ((posed (snap i Ts.length) Q).rgb b 0 y x) ((snap (recolour g i) Ts.length).rgb b 0 y x) := by
    intro b hb y hy x hx hread
    have hb' : b < i.B := by rw [← s1]; exact hb
    have := himg b hb' y hy x hx hread
    rw [(sp2 b hb').1]
    show R ((snap i Ts.length).rgb b 0 y x) _
    rw [(sp b hb').1]; exact this
  have hdep : ∀ b < (posed (snap i Ts.length) Q).B, ∀ y x, (posed (snap i Ts.length) Q).depth b 0 y x = i.depth b Ts.length y x := by
    intro b hb y x
    have hb' : b < i.B := by rw [← s1]; exact hb
    show (snap i Ts.length).depth b 0 y x = _
    rw [(sp b hb').2.1]
  rw [hj] at h2
  unfold MapChange at h1 h2
  cases hM : S.mapper with
  | aggregate =>
    rw [hM] at h1 h2; simp only at h1 h2
    subst h1; subst h2
    refine grow_colour hA rfl (fun b hb y hy x hx hd => him b hb y hy x hx (.inl (by rw [← hdep b hb]; exact hd))) (fun P hP => ?_) (fun P hP => ?_)
    · obtain ⟨w, l, _⟩ := run_wf hB r P hP
      exact ⟨w, l.trans s1.symm⟩
    · obtain ⟨w, l, _⟩ := run_wf (i := recolour g i) hB r2 P hP
      exact ⟨w, l.trans s1.symm⟩
  | fusion d t =>
    rw [hM] at h1 h2; simp only at h1 h2
    have hal' : ∀ p, 0 < S.al p := by
      rcases hal with h | h
      · rw [hM] at h; cases h
      · exact h
    cases hP : a .points with
    | none =>
      rw [hP] at h1; rw [hA.same .points (by simp), hP] at h2
      simp only at h1 h2
      subst h1; subst h2
      exact newArg_colour rfl (fun b hb y hy x hx hd => him b hb y hy x hx (.inl (by rw [← hdep b hb]; exact hd)))
    | some P =>
      rw [hP] at h1; rw [hA.same .points (by simp), hP] at h2
      simp only at h1 h2
      obtain ⟨T, P1, rows1, hT, f1⟩ := h1
      obtain ⟨U, P2, rows2, hU, f2⟩ := h2
      cases hT; cases hU
      refine fusion_colour hA f1 f2 (run_conf hB hal' hM r) hal' hR fun b hb y hy x hx hd => him b hb y hy x hx ?_
      rcases hd with hd | hd
      · exact .inl (by rw [← hdep b hb]; exact hd)
      · exact .inr ⟨d, t, hM, hd⟩

theorem located_colour (hx : ∀ provide, S.odom = .prov provide → Blind provide) (hA : Alike R a c) {Ts : List (Rgbd.TM α)} {r r' : Except Err (Rgbd.TM α)}
    (h : Located S frames i Ts a r) (h' : Located S frames (recolour g i) Ts c r') : r' = r := by
  unfold Located at h h'
  cases ho : S.odom with
  | gt => rw [ho] at h h'; exact h'.trans h.symm
  | prov provide =>
    rw [ho] at h h'
    cases hl : Ts.getLast? with
    | none => rw [hl] at h h'; exact h'.trans h.symm
    | some Q =>
      rw [hl] at h h'
      obtain ⟨P, m, f, hP, q, e⟩ := h
      obtain ⟨P', m', f', hP', q', e'⟩ := h'
      rw [hA.same .points (by simp), hP] at hP'; cases hP'
      have q2 : Question S c P (recolour (snap (recolour g i) Ts.length).rgb (snap i Ts.length))
        (recolour (snap (recolour g i) (Ts.length - 1)).rgb (posed (snap i (Ts.length - 1)) Q)) Q m' f' := q'
      rw [e, e', question_blind q q2 hA.same (hx provide ho)]

theorem alike_empty : Alike R (emptyClouds : Clouds α) emptyClouds := ⟨fun _ _ => rfl, Iff.rfl, fun l m h => by cases h⟩

theorem run_colour (hx : ∀ provide, S.odom = .prov provide → Blind provide) (hB : 0 < i.B) (hR : Convex R) (hal : S.mapper = .aggregate ∨ ∀ p, 0 < S.al p)
    (himg : ∀ b < i.B, ∀ t < i.L, ∀ y < i.H, ∀ x < i.W, Read S i b t y x → R (i.rgb b t y x) (g b t y x)) {Ts : List (Rgbd.TM α)}
    (r : Run S frames i Ts a) : Ts.length ≤ i.L → ∀ {Us c}, Run S frames (recolour g i) Us c → Us.length = Ts.length → Us = Ts ∧ Alike R a c := by
  induction r with
  | start =>
    intro _ Us c r2 hl
    cases r2 with
    | start => exact ⟨rfl, alike_empty⟩
    | next => simp at hl
  | @next Ts a T a' r hloc hc ih =>
    intro hle Us c r2 hl
    cases r2 with
    | start => simp at hl
    | @next Us b U _ r2 hloc2 hc2 =>
      simp only [List.length_append, List.length_singleton] at hl hle
      obtain ⟨rfl, hA⟩ := ih (by omega) r2 (by omega)
      have := located_colour hx hA hloc hloc2
      cases this
      exact ⟨rfl, change_colour hB r r2 hR hal (himg · · _ (by omega)) hA hc hc2⟩

theorem run_nil {Us : List (Rgbd.TM α)} (r : Run S frames i Us a) (h : Us = []) : a = emptyClouds := by
  cases r with
  | start => rfl
  | next => simp at h

theorem run_next {Us : List (Rgbd.TM α)} (r : Run S frames i Us a) : ∀ k < Us.length, ∃ a' T, Run S frames i (Us.take k) a' ∧ Located S frames i (Us.take k) a' (.ok T) := by
  induction r with
  | start => intro k h; simp at h
  | @next Us b U b' ru hlu hcu ih =>
    intro k hk
    simp only [List.length_append, List.length_singleton] at hk
    rcases Nat.lt_or_ge k Us.length with h | h
    · rw [List.take_append_of_le_length h.le]; exact ih k h
    · obtain rfl : k = Us.length := by omega
      rw [List.take_append_of_le_length (le_refl _), List.take_length]
      exact ⟨b, U, ru, hlu⟩

/-- Two sequences with the same depth images, intrinsics, pixel coordinates and poses. -/
structure SameDepth (frames frames' : Rgbd.Obj α) (i i' : Rgbd.In α) : Prop where
  B : i'.B = i.B
  L : i'.L = i.L
  H : i'.H = i.H
  W : i'.W = i.W
  posed : frames'.poses.isSome = frames.poses.isSome
  poses : ∀ P P', frames.poses = some P → frames'.poses = some P' → ∀ b < i.B, ∀ t < i.L, P'.at' b t = P.at' b t
  depth : ∀ b < i.B, ∀ t < i.L, i'.depth b t = i.depth b t
  K : ∀ b < i.B, i'.K b = i.K b
  pix : ∀ b < i.B, ∀ t < i.L, i'.pix b t = i.pix b t

/-- Specification: what two runs over sequences that differ only in colours have in common.  `R` is what is known about the colours. -/
def SameGeometry (R : V3 α → V3 α → Prop) (B L : Nat) (x y : Except Err (PC α × Rgbd.TM α)) : Prop :=
  (∃ e, x = .error e ∧ y = .error e) ∨
  ∃ m Q m' Q', x = .ok (m, Q) ∧ y = .ok (m', Q') ∧ (∀ b < B, ∀ t < L, Q'.at' b t = Q.at' b t) ∧
    (getList .points m').1 = (getList .points m).1 ∧ (getList .normals m').1 = (getList .normals m).1 ∧
    (getList .features m').1 = (getList .features m).1 ∧
    (((getList .colors m).1 = none ∧ (getList .colors m').1 = none) ∨
      ∃ l l', (getList .colors m).1 = some l ∧ (getList .colors m').1 = some l' ∧ l'.map (·.rows.length) = l.map (·.rows.length) ∧
        ∀ b n p q, Fusion.vecAt l b n = some p → Fusion.vecAt l' b n = some q → R p q)

theorem forward_colour (hf : SeqOk S frames i) (hs : SysOk S i) (hf' : SeqOk S frames' i') (hs' : SysOk S i')
    (hx : ∀ provide, S.odom = .prov provide → Blind provide) (h : SameDepth frames frames' i i') (hR : Convex R)
    (himg : ∀ b < i.B, ∀ t < i.L, ∀ y < i.H, ∀ x < i.W, Read S i b t y x → R (i.rgb b t y x) (i'.rgb b t y x)) :
    SameGeometry R i.B i.L (forward S frames) (forward S frames') := by
  have ss : SameStart frames' frames i' (recolour i'.rgb i) i.L := by
    refine ⟨h.B.symm, h.H.symm, h.W.symm, h.posed.symm, ?_, fun _ _ _ _ => rfl, ?_, ?_, ?_⟩
    · intro P P' hP hP' b hb t ht; exact (h.poses P' P hP' hP b (h.B ▸ hb) t ht).symm
    · intro b hb t ht; exact (h.depth b (h.B ▸ hb) t ht).symm
    · intro b hb; exact (h.K b (h.B ▸ hb)).symm
    · intro b hb t ht; exact (h.pix b (h.B ▸ hb) t ht).symm
  have hal : S.mapper = .aggregate ∨ ∀ p, 0 < S.al p := hs.map.imp id fun h => h.1
  have key : ∀ {Ts Us : List (Rgbd.TM α)} {a c}, Run S frames i Ts a → Run S frames (recolour i'.rgb i) Us c → Ts.length ≤ i.L → Us.length = Ts.length →
      Us = Ts ∧ Alike R a c := fun r r2 hl he => run_colour hx hf.B hR hal himg r hl r2 he
  have move : ∀ {Us c}, Run S frames' i' Us c → Us.length ≤ i.L → Run S frames (recolour i'.rgb i) Us c :=
    fun r hl => run_transfer ss hf'.B r hl
  rcases forward_run hf hs with ⟨m, Q, Ts, a, e, r, hl, hm, _, _, _, hQ⟩ | ⟨e, Ts, a, he, r, hl, hloc⟩
  · rcases forward_run hf' hs' with ⟨m', Q', Us, c, e', r', hl', hm', _, _, _, hQ'⟩ | ⟨e', Us, c, he', r', hl', hloc'⟩
    · have hL := h.L
      obtain ⟨rfl, hA⟩ := key r (move r' (by omega)) (by omega) (by omega)
      refine .inr ⟨m, Q, m', Q', e, e', fun b hb t ht => ?_, ?_, ?_, ?_, ?_⟩
      · obtain ⟨T, hT⟩ : ∃ T, Us[t]? = some T := ⟨_, List.getElem?_eq_getElem (by omega)⟩
        rw [hQ t T hT b, hQ' t T hT b]
      · rw [(inv_obs hm.inv).list, (inv_obs hm'.inv).list, hA.same .points (by simp)]
      · rw [(inv_obs hm.inv).list, (inv_obs hm'.inv).list, hA.same .normals (by simp)]
      · rw [(inv_obs hm.inv).list, (inv_obs hm'.inv).list, hA.same .features (by simp)]
      · rw [(inv_obs hm.inv).list, (inv_obs hm'.inv).list]
        cases hc : a .colors with
        | none => exact .inl ⟨rfl, hA.none.2 hc⟩
        | some l =>
          obtain ⟨l', hl'⟩ := Option.ne_none_iff_exists'.1 (fun hn => absurd (hA.none.1 hn) (by simp [hc]) : c .colors ≠ none)
          obtain ⟨Pa, hPa⟩ : ∃ Pa, a .points = some Pa := by
            refine Option.ne_none_iff_exists'.1 ((run_empty r).2 ?_)
            intro h0
            rw [run_nil r h0] at hc; cases hc
          refine .inr ⟨l, l', rfl, hl', ?_, hA.rel l l' hc hl'⟩
          exact ((run_wf hf'.B r' Pa ((hA.same .points (by simp)).trans hPa)).1.rows _ _ hl').trans
            ((run_wf hf.B r Pa hPa).1.rows _ _ hc).symm
    · exfalso
      have hL := h.L
      obtain ⟨a', T, rp, hlp⟩ := run_next r Us.length (by omega)
      obtain ⟨e1, hA⟩ := key rp (move r' (by omega)) (by simp; omega) (by simp; omega)
      rw [← e1] at hlp
      have := located_colour hx hA hlp (located_transfer ss hf'.B (by omega) hloc')
      cases this
  · rcases forward_run hf' hs' with ⟨m', Q', Us, c, e', r', hl', hm', _, _, _, hQ'⟩ | ⟨e', Us, c, he', r', hl', hloc'⟩
    · exfalso
      have hL := h.L
      obtain ⟨c', T, rp, hlp⟩ := run_next r' Ts.length (by omega)
      obtain ⟨e1, hA⟩ := key r (move rp (by simp; omega)) (by omega) (by simp; omega)
      have := located_colour hx hA hloc (e1 ▸ located_transfer ss hf'.B (by simp; omega) hlp)
      cases this
    · have hL := h.L
      rcases Nat.lt_trichotomy Us.length Ts.length with hlt | heq | hgt
      · exfalso
        obtain ⟨a', T, rp, hlp⟩ := run_next r Us.length hlt
        obtain ⟨e1, hA⟩ := key rp (move r' (by omega)) (by simp; omega) (by simp; omega)
        rw [← e1] at hlp
        have := located_colour hx hA hlp (located_transfer ss hf'.B (by omega) hloc')
        cases this
      · obtain ⟨rfl, hA⟩ := key r (move r' (by omega)) (by omega) heq
        have := located_colour hx hA hloc (located_transfer ss hf'.B (by omega) hloc')
        cases this
        exact .inl ⟨e, he, he'⟩
      · exfalso
        obtain ⟨c', T, rp, hlp⟩ := run_next r' Ts.length hgt
        obtain ⟨e1, hA⟩ := key r (move rp (by simp; omega)) (by omega) (by simp; omega)
        have := located_colour hx hA hloc (e1 ▸ located_transfer ss hf'.B (by simp; omega) hlp)
        cases this
end

/-! ### The constructors -/

theorem made_blind {nn : List (V3 ℝ) → V3 ℝ → Nat} {epsE eps : ℝ} {nrm : V3 ℝ → ℝ} {p : Params} {odom : String} {S : Sys ℝ}
    (h : Made nn epsE eps nrm p odom S) : ∀ provide, S.odom = .prov provide → Blind provide := by
  intro provide hp
  rcases odom_cases (made_cases h).1 with ⟨_, hc⟩ | ⟨_, hc⟩ | ⟨_, hc⟩ <;> rw [hc] at hp <;> cases hp <;> exact icp_provide_blind _

/-- **C92** (colours are carried along).  `ICPSLAM` and `PointFusion`, with any odometry: two batches of sequences that differ only in their
colour images give the same error or the same poses and maps with equal points, normals and confidences, in the same order.  Whatever
relation between colours is kept by weighted means and holds between the two images at the pixels with depth also holds between the
colours of the two maps, point by point. -/
theorem colours_are_carried {nn : List (V3 ℝ) → V3 ℝ → Nat} {epsE eps : ℝ} {nrm : V3 ℝ → ℝ} {p : Params} {odom : String} {S : Sys ℝ}
    (h : Made nn epsE eps nrm p odom S) (hds : odom = "gt" ∨ 0 < p.ds) {frames frames' : Rgbd.Obj ℝ} {i i' : Rgbd.In ℝ} (hi : SmallSeq S i)
    (hf : SeqOk S frames i) (hf' : SeqOk S frames' i') (hd : SameDepth frames frames' i i') {R : V3 ℝ → V3 ℝ → Prop} (hR : Convex R)
    (himg : ∀ b < i.B, ∀ t < i.L, ∀ y < i.H, ∀ x < i.W, Read S i b t y x → R (i.rgb b t y x) (i'.rgb b t y x)) :
    SameGeometry R i.B i.L (forward S frames) (forward S frames') :=
  forward_colour hf (made_sysOk h hds hi).1 hf'
    (made_sysOk h hds (show SmallSeq S i' from by unfold SmallSeq; rw [hd.B, hd.H, hd.W, hd.L]; exact hi)).1 (made_blind h) hd hR himg

/-- **C92** (colours do not influence geometry).  Change the colour images in any way whatsoever: the outcome is the same error, or the same
poses, points, normals and confidences, and as many colours. -/
theorem geometry_ignores_colours {nn : List (V3 ℝ) → V3 ℝ → Nat} {epsE eps : ℝ} {nrm : V3 ℝ → ℝ} {p : Params} {odom : String} {S : Sys ℝ}
    (h : Made nn epsE eps nrm p odom S) (hds : odom = "gt" ∨ 0 < p.ds) {frames frames' : Rgbd.Obj ℝ} {i i' : Rgbd.In ℝ} (hi : SmallSeq S i)
    (hf : SeqOk S frames i) (hf' : SeqOk S frames' i') (hd : SameDepth frames frames' i i') :
    SameGeometry (fun _ _ => True) i.B i.L (forward S frames) (forward S frames') :=
  colours_are_carried h hds hi hf hf' hd (fun _ _ _ _ _ _ _ _ _ _ => trivial) fun _ _ _ _ _ _ _ _ _ => trivial

theorem convex_affine {α : Type*} [Field α] [LinearOrder α] [IsStrictOrderedRing α] [FloorRing α] (A : M3 α) (o : V3 α) : Convex fun p q : V3 α => q = (A.mulVec p).add o := by
  intro u v p q p' q' hu hv h1 h2
  subst h1; subst h2
  have hs : u + v ≠ 0 := (add_pos hu hv).ne'
  exact movePt_wAvg ⟨A, o, V3.zero, 1⟩ hs p q

/-- **C92** (converting colours before or after is the same).  If the second batch has the colours of the first sent through an affine map
`c ↦ A c + o` (scaling 0-255 to 0-1, exchanging channels, greying, adjusting brightness, ...), then the second map is the first with its
colours sent through that map. -/
theorem recolouring_commutes {nn : List (V3 ℝ) → V3 ℝ → Nat} {epsE eps : ℝ} {nrm : V3 ℝ → ℝ} {p : Params} {odom : String} {S : Sys ℝ}
    (h : Made nn epsE eps nrm p odom S) (hds : odom = "gt" ∨ 0 < p.ds) {frames frames' : Rgbd.Obj ℝ} {i i' : Rgbd.In ℝ} (hi : SmallSeq S i)
    (hf : SeqOk S frames i) (hf' : SeqOk S frames' i') (hd : SameDepth frames frames' i i') (A : M3 ℝ) (o : V3 ℝ)
    (himg : ∀ b < i.B, ∀ t < i.L, ∀ y < i.H, ∀ x < i.W, Read S i b t y x → i'.rgb b t y x = (A.mulVec (i.rgb b t y x)).add o) :
    SameGeometry (fun p q => q = (A.mulVec p).add o) i.B i.L (forward S frames) (forward S frames') :=
  colours_are_carried h hds hi hf hf' hd (convex_affine A o) himg

theorem SameDepth.refl {α : Type*} (frames : Rgbd.Obj α) (i : Rgbd.In α) : SameDepth frames frames i i :=
  ⟨rfl, rfl, rfl, rfl, rfl, fun P P' h h' b _ t _ => by rw [h] at h'; cases h'; rfl, fun _ _ _ _ => rfl, fun _ _ => rfl, fun _ _ _ _ => rfl⟩

theorem wAvg_mem {u v lo hi x y : ℝ} (hu : 0 < u) (hv : 0 < v) (hx : lo ≤ x ∧ x ≤ hi) (hy : lo ≤ y ∧ y ≤ hi) :
    lo ≤ 1 / (u + v) * (u * x + v * y) ∧ 1 / (u + v) * (u * x + v * y) ≤ hi := by
  have hs : 0 < u + v := add_pos hu hv
  rw [one_div_mul_eq_div, le_div_iff₀ hs, div_le_iff₀ hs]
  constructor <;> nlinarith [mul_le_mul_of_nonneg_left hx.1 hu.le, mul_le_mul_of_nonneg_left hy.1 hv.le, mul_le_mul_of_nonneg_left hx.2 hu.le,
    mul_le_mul_of_nonneg_left hy.2 hv.le]

/-- A colour with all channels between `lo` and `hi`. -/
def InRange (lo hi : ℝ) (c : V3 ℝ) : Prop := (lo ≤ c.x ∧ c.x ≤ hi) ∧ (lo ≤ c.y ∧ c.y ≤ hi) ∧ (lo ≤ c.z ∧ c.z ≤ hi)

/-- **C92** (colours stay in range).  If the colour channels of all pixels with depth are between `lo` and `hi` (0 and 1, or 0 and 255), so are
those of every point of the returned map. -/
theorem colours_stay_in_range {nn : List (V3 ℝ) → V3 ℝ → Nat} {epsE eps : ℝ} {nrm : V3 ℝ → ℝ} {p : Params} {odom : String} {S : Sys ℝ}
    (h : Made nn epsE eps nrm p odom S) (hds : odom = "gt" ∨ 0 < p.ds) {frames : Rgbd.Obj ℝ} {i : Rgbd.In ℝ} (hi : SmallSeq S i)
    (hf : SeqOk S frames i) {lo hi' : ℝ} (himg : ∀ b < i.B, ∀ t < i.L, ∀ y < i.H, ∀ x < i.W, Read S i b t y x → InRange lo hi' (i.rgb b t y x))
    {m : PC ℝ} {Q : Rgbd.TM ℝ} (hfw : forward S frames = .ok (m, Q)) {l : List (T2 ℝ)} (hl : (getList .colors m).1 = some l) :
    ∀ b n c, Fusion.vecAt l b n = some c → InRange lo hi' c := by
  have hR : Convex fun p _ : V3 ℝ => InRange lo hi' p := by
    intro u v p q p' q' hu hv h1 h2
    exact ⟨wAvg_mem hu hv h1.1 h2.1, wAvg_mem hu hv h1.2.1 h2.2.1, wAvg_mem hu hv h1.2.2 h2.2.2⟩
  intro b n c hc
  rcases colours_are_carried h hds hi hf hf (.refl _ _) hR himg with ⟨e, h1, _⟩ | ⟨m1, Q1, m2, Q2, h1, h2, _, _, _, _, h3⟩
  · rw [hfw] at h1; cases h1
  · rw [hfw] at h1 h2; cases h1; cases h2
    rcases h3 with ⟨h3, _⟩ | ⟨l1, l2, h3, h4, _, h5⟩
    · rw [hl] at h3; cases h3
    · rw [hl] at h3 h4; cases h3; cases h4
      exact h5 b n c c hc hc

end Verif.Slam
