import Verif.Slam.Step
/-!
`_map` and `step`: what the map becomes, for both classes.
-/
namespace Verif.Slam
open Verif Pcs
set_option linter.unusedSectionVars false
set_option linter.unusedSimpArgs false

section
variable {α : Type*} [Field α] [LinearOrder α] [IsStrictOrderedRing α] [FloorRing α]

/-- What a frame shows, at the poses it has. -/
abbrev view (S : Sys α) (i : Rgbd.In α) : Fusion.Frame α := Fusion.Frame.ofIn S.nrm S.eps i

/-- The points `ICPSLAM` adds for a frame: every pixel with depth, with its normal and colour. -/
abbrev addition (S : Sys α) (i : Rgbd.In α) : Clouds α := Fusion.frameArg (view S i) true (view S i).valid

theorem compatible_addition {S : Sys α} {i : Rgbd.In α} {a : Clouds α} (hs : MapShape (.aggregate : Mapper α) i.B a) (hne : a .points ≠ none) :
    Compatible a (addition S i) := by
  obtain ⟨P, hP⟩ := Option.ne_none_iff_exists'.1 hne
  obtain ⟨h1, h2, h3, h4⟩ := hs P hP
  obtain ⟨Nn, hN⟩ := Option.isSome_iff_exists.1 h2
  obtain ⟨C, hC⟩ := Option.isSome_iff_exists.1 h3
  refine ⟨by simp [hP, Fusion.frameArg, Fusion.picked_length, h1, Fusion.Frame.ofIn], ?_, ?_⟩
  · intro X; cases X <;> simp [hP, hN, hC, h4, Fusion.frameArg]
  · intro l m hl; rw [h4] at hl; cases hl

theorem specAppend_features_none {a b : Clouds α} (h : a .features = none) : specAppend a b .features = none := by
  simp [specAppend, h]

theorem shape_grow {S : Sys α} {i : Rgbd.In α} {a : Clouds α} (hs : MapShape (.aggregate : Mapper α) i.B a) :
    MapShape (.aggregate : Mapper α) i.B (Fusion.specGrow a (addition S i)) := by
  by_cases hne : a .points = none
  · rw [Fusion.specGrow, if_pos hne]
    intro P hP
    simp only [Fusion.frameArg, Option.some.injEq] at hP
    subst hP
    exact ⟨by simp [Fusion.picked_length, Fusion.Frame.ofIn], rfl, rfl, rfl⟩
  · rw [Fusion.specGrow, if_neg hne]
    obtain ⟨P, hP⟩ := Option.ne_none_iff_exists'.1 hne
    obtain ⟨h1, h2, h3, h4⟩ := hs P hP
    obtain ⟨Nn, hN⟩ := Option.isSome_iff_exists.1 h2
    obtain ⟨C, hC⟩ := Option.isSome_iff_exists.1 h3
    intro P' hP'
    rw [specAppend_some hP rfl] at hP'
    simp only [Option.some.injEq] at hP'
    subst hP'
    refine ⟨?_, by rw [specAppend_some hN rfl]; rfl, by rw [specAppend_some hC rfl]; rfl, specAppend_features_none h4⟩
    rw [catL_length (by rw [Fusion.picked_length, h1]; rfl), h1]

theorem grow_points {a b : Clouds α} (hb : (b .points).isSome) : Fusion.specGrow a b .points ≠ none := by
  obtain ⟨Q, hQ⟩ := Option.isSome_iff_exists.1 hb
  cases hP : a .points with
  | none => rw [Fusion.specGrow, if_pos hP, hQ]; simp
  | some P => rw [Fusion.specGrow, if_neg (by simp [hP]), specAppend_some hP hQ]; simp

/-- `ICPSLAM._map` (also for channels-first frames): the map grows by every pixel with depth. -/
theorem map_aggregate {S : Sys α} (hS : S.mapper = .aggregate) {pc : PC α} {a : Clouds α} {live : Rgbd.Obj α} {i : Rgbd.In α}
    (hr : Rgbd.Rep S.nrm S.eps live i) (hL : i.L = 1) (hB : 0 < i.B) (hH : 2 ≤ i.H) (hW : 2 ≤ i.W)
    (hm : MapOk S.mapper i.B pc a) (inplace : Bool) :
    ∃ res pc' live', mapStep S pc live inplace = (.ok res, pc', live') ∧ MapOk S.mapper i.B res (Fusion.specGrow a (addition S i)) ∧
      Rgbd.Rep S.nrm S.eps live' i ∧ Rgbd.Same live live' ∧ (inplace = true → pc' = res) ∧ (inplace = false → Inv pc' a) := by
  have hsh : MapShape (.aggregate : Mapper α) i.B a := hS ▸ hm.shape
  obtain ⟨res, pc', e, j, l, t, f⟩ := Fusion.aggregate_rep (fr := view S i) hm.inv hL hB (fun h => compatible_addition hsh h) inplace
  have hread : ∃ live', readAggregate S live = (.ok (view S i), live') ∧ Rgbd.Rep S.nrm S.eps live' i ∧ Rgbd.Same live live' := by
    rw [readAggregate]
    cases hc : live.cf with
    | false =>
      obtain ⟨o', e', r', s'⟩ := Fusion.readFrame_spec hr hc hH hW
      exact ⟨o', by simpa using e', r', s'⟩
    | true =>
      obtain ⟨d, hd, _⟩ := Rgbd.clone_rep hr
      have ht : Rgbd.toLast false live = .ok (Rgbd.toLast_ d) := by simp [Rgbd.toLast, hc, hd, Except.map]
      obtain ⟨r1, c1, _⟩ := Rgbd.toLast_rep hr ht
      obtain ⟨o', e', _⟩ := Fusion.readFrame_spec r1 c1 hH hW
      exact ⟨live, by simp only [ht, e']; rfl, hr, Rgbd.Same.refl _⟩
  obtain ⟨live', e2, r2, s2⟩ := hread
  refine ⟨res, pc', live', ?_, ⟨j, fun _ => l, by rw [hS]; exact shape_grow hsh⟩, r2, s2, t, f⟩
  simp only [mapStep, hS, e2, e]

/-- Sizes of the map's clouds are bounded by `n`. -/
def SizeLe (n : Nat) (a : Clouds α) : Prop := ∀ P, a .points = some P → ∀ b, Fusion.sizeAt P b ≤ n

/-- How `PointFusion._map` changes a non-empty map `a` into `a'`, given the frame `i` (seen from the poses `T`): the table `rows` contains for
every pixel with candidates the preferred one; matched points are averaged with their pixel, other points are untouched; the pixels with
depth that are not matched are appended, with their weights as confidences. -/
structure FusionStep (S : Sys α) (d t : α) (i : Rgbd.In α) (T : Nat → Nat → M4 α) (a a' : Clouds α) (P P' : List (T2 α)) (rows : List Fusion.Row) :
    Prop where
  old : a .points = some P
  new : a' .points = some P'
  cand : ∀ Nn, a .normals = some Nn → ∀ r ∈ rows, Fusion.Candidate S.nrm P Nn (view S i) T d t r
  best : ∀ Nn F, a .normals = some Nn → a .features = some F → ∀ r, Fusion.Candidate S.nrm P Nn (view S i) T d t r →
    ∃ s ∈ rows, (s.b = r.b ∧ s.h = r.h ∧ s.w = r.w) ∧ Fusion.Preferred P F (view S i) s r
  oldWf : Wf a P
  wf : Wf a' P'
  batch : P'.length = i.B
  pts : Fusion.UniquePts rows
  pix : Fusion.UniquePix rows
  inside : Fusion.RowsOk P (view S i) rows
  size : ∀ b < i.B, Fusion.sizeAt P' b = Fusion.sizeAt P b + (Fusion.pixels 1 i.H i.W (Fusion.newMask (view S i) rows b)).length
  merged : ∀ X img, (X, img) ∈ [(Attr.points, Rgbd.gvertexAt S.eps i), (.normals, Rgbd.gnormalAt S.nrm S.eps i), (.colors, i.rgb)] →
    ∃ F l l', a .features = some F ∧ a X = some l ∧ a' X = some l' ∧
      (∀ r ∈ rows, ∀ x, Fusion.vecAt l r.b r.n = some x →
        Fusion.vecAt l' r.b r.n =
          some (Fusion.wAvg (Fusion.conf F r.b r.n) (S.al (Rgbd.vertexAt S.eps i r.b 0 r.h r.w)) x (img r.b 0 r.h r.w))) ∧
      (∀ b n x, Fusion.vecAt l b n = some x → (∀ r ∈ rows, ¬ (r.b = b ∧ r.n = n)) → Fusion.vecAt l' b n = some x) ∧
      (∀ b < i.B, ∀ k, Fusion.vecAt l' b (Fusion.sizeAt P b + k) =
        (Fusion.pixels 1 i.H i.W (Fusion.newMask (view S i) rows b))[k]?.map fun x => img b x.1 x.2.1 x.2.2)
  conf : ∃ F F', a .features = some F ∧ a' .features = some F' ∧
    (∀ t ∈ F', t.cols = 1) ∧
    Fusion.MergedConf rows (fun r => S.al (Rgbd.vertexAt S.eps i r.b 0 r.h r.w)) F F' ∧
    (∀ b < i.B, ∀ k, Fusion.rowAt F' b (Fusion.sizeAt P b + k) =
      (Fusion.pixels 1 i.H i.W (Fusion.newMask (view S i) rows b))[k]?.map fun x => [S.al (Rgbd.vertexAt S.eps i b x.1 x.2.1 x.2.2)]) ∧
    (0 ≤ t → ∀ b < i.B,
      Fusion.sizeAt P' b + (rows.filter fun r => r.b = b).length = Fusion.sizeAt P b + (Fusion.pixels 1 i.H i.W ((view S i).valid b)).length ∧
      Fusion.totalConf F' b = Fusion.totalConf F b +
        ((Fusion.pixels 1 i.H i.W ((view S i).valid b)).map fun x => S.al (Rgbd.vertexAt S.eps i b x.1 x.2.1 x.2.2)).sum)

theorem conf_nonneg {F : List (T2 α)} (h : ∀ b n, (Fusion.rowAt F b n).isSome → 0 < Fusion.conf F b n) (b n : Nat) : 0 ≤ Fusion.conf F b n := by
  cases hr : Fusion.rowAt F b n with
  | none => simp [Fusion.conf, hr]
  | some r => exact (h b n (by simp [hr])).le

theorem features_cols {al : V3 α → α} {fr : Fusion.Frame α} {rows : List Fusion.Row} {P Nn C F : List (T2 α)} {a b : Clouds α} {m F' : List (T2 α)}
    (hF : a .features = some F) (hF1 : ∀ t ∈ F, t.cols = 1) (hb : b .features = some m)
    (hF' : specAppend (Fusion.mergedOr al fr rows P Nn C F a) b .features = some F') : ∀ t ∈ F', t.cols = 1 := by
  have h1 : ∃ F1, Fusion.mergedOr al fr rows P Nn C F a .features = some F1 ∧ ∀ t ∈ F1, t.cols = 1 := by
    rw [Fusion.mergedOr]
    split_ifs with h0
    · exact ⟨F, hF, hF1⟩
    · exact ⟨_, rfl, Fusion.mapRows_cols hF1⟩
  obtain ⟨F1, e1, c1⟩ := h1
  rw [specAppend_some e1 hb] at hF'
  cases hF'
  intro t ht
  obtain ⟨u, hu, _, _, rfl⟩ := mem_catL ht
  exact c1 u hu

/-- `a''` is `a'` without the points appended after the first clouds `P`. -/
def Truncated (P : List (T2 α)) (a' a'' : Clouds α) : Prop :=
  ∀ X l', a' X = some l' → ∃ l'', a'' X = some l'' ∧
    ∀ b n, Fusion.rowAt l'' b n = if n < Fusion.sizeAt P b then Fusion.rowAt l' b n else none

theorem sizeAt_mapRows (g : Nat → Nat → List α → List α) (P : List (T2 α)) (b : Nat) : Fusion.sizeAt (mapRows g P) b = Fusion.sizeAt P b := by
  refine eq_of_forall_lt_iff fun n => ?_
  rw [← Fusion.sizeAt_isSome, Fusion.rowAt_mapRows, Option.isSome_map, Fusion.sizeAt_isSome]

theorem truncated_append {P Nn C F : List (T2 α)} {a : Clouds α} {al : V3 α → α} {fr : Fusion.Frame α} {rows : List Fusion.Row} (hw : Wf a P)
    (hN : a .normals = some Nn) (hC : a .colors = some C) (hF : a .features = some F) (hB : fr.B = P.length)
    (m : Nat → Nat → Nat → Nat → Bool) :
    Truncated P (specAppend (Fusion.mergedOr al fr rows P Nn C F a) (Fusion.newArg al fr m)) (Fusion.mergedOr al fr rows P Nn C F a) := by
  have key : ∀ X l, a X = some l → ∃ l'', Fusion.mergedOr al fr rows P Nn C F a X = some l'' ∧ l''.length = P.length ∧
      ∀ b, Fusion.sizeAt l'' b = Fusion.sizeAt P b := by
    intro X l hX
    have hl := hw.length hX
    have hs := fun b => Fusion.sizeAt_sizes (hw.rows _ _ hX) b
    rw [Fusion.mergedOr]
    split_ifs with h0
    · exact ⟨l, hX, hl, hs⟩
    · cases X with
      | points =>
        rw [hw.pts] at hX; cases hX
        exact ⟨_, rfl, by simp [Fusion.mergeImg, mapRows_length], fun b => by rw [Fusion.mergeImg, sizeAt_mapRows]⟩
      | normals =>
        rw [hN] at hX; cases hX
        exact ⟨_, rfl, by simp [Fusion.mergeImg, mapRows_length, hl], fun b => by rw [Fusion.mergeImg, sizeAt_mapRows, hs]⟩
      | colors =>
        rw [hC] at hX; cases hX
        exact ⟨_, rfl, by simp [Fusion.mergeImg, mapRows_length, hl], fun b => by rw [Fusion.mergeImg, sizeAt_mapRows, hs]⟩
      | features =>
        rw [hF] at hX; cases hX
        exact ⟨_, rfl, by simp [Fusion.mergeConf, mapRows_length, hl], fun b => by rw [Fusion.mergeConf, sizeAt_mapRows, hs]⟩
  have some' : ∀ X, ∃ l, a X = some l := by
    intro X
    cases X
    exacts [⟨_, hw.pts⟩, ⟨_, hN⟩, ⟨_, hC⟩, ⟨_, hF⟩]
  intro X l' hl'
  obtain ⟨l, hX⟩ := some' X
  obtain ⟨l'', e, hlen, hsz⟩ := key X l hX
  obtain ⟨q, hq⟩ := Option.isSome_iff_exists.1 (Fusion.newArg_some al fr m X)
  have hql : q.length = P.length := by
    cases X <;> simp only [Fusion.newArg, Option.some.injEq] at hq <;> subst hq <;> simp [Fusion.picked, Fusion.pickedAl, hB]
  rw [specAppend_some e hq] at hl'
  cases hl'
  refine ⟨l'', e, fun b n => ?_⟩
  rw [Fusion.rowAt_catL (hlen.trans hql.symm), hsz]
  split_ifs with h
  · rfl
  · have := Fusion.sizeAt_isSome (P := l'') (b := b) (n := n)
    rw [hsz] at this
    cases hr : Fusion.rowAt l'' b n with
    | none => rfl
    | some r => exact absurd (this.1 (by simp [hr])) h

/-- `PointFusion._map` on a non-empty map.  With `inplace=False` the caller's map keeps its number of points but its matched points are
replaced by the merged ones. -/
theorem map_fusion {S : Sys α} {d t : α} (hS : S.mapper = .fusion d t) (hal : ∀ p, 0 < S.al p) {pc : PC α} {a : Clouds α} {P : List (T2 α)}
    {live : Rgbd.Obj α} {i : Rgbd.In α} {T : Nat → Nat → M4 α} (hl : LiveOk S live i) (hT : i.poses = some T)
    (hm : MapOk S.mapper i.B pc a) (hP : a .points = some P) (hs : Fusion.SmallIdx P (view S i)) :
    ∃ a' P' rows, FusionStep S d t i T a a' P P' rows ∧ ∀ inplace,
      ∃ res pc' live', mapStep S pc live inplace = (.ok res, pc', live') ∧ MapOk S.mapper i.B res a' ∧
        LiveOk S live' i ∧ Rgbd.Same live live' ∧ (inplace = true → pc' = res) ∧
        (inplace = false → ∃ a'', Inv pc' a'' ∧ Truncated P a' a'' ∧ (rows = [] → a'' = a)) := by
  obtain ⟨hlen, hn', hc', hf'⟩ := hm.shape P hP
  rw [hS] at hf'
  obtain ⟨F, hF, hF1, hpos⟩ := hf'
  obtain ⟨Nn, hN⟩ := Option.isSome_iff_exists.1 hn'
  obtain ⟨C, hC⟩ := Option.isSome_iff_exists.1 hc'
  have hnn := conf_nonneg hpos
  have hw := Fusion.wf_of_inv hm.inv hP
  obtain ⟨x0, live', e0, hx0, ok0, s0⟩ := live_read hl (hl.last (.inl (by rw [hS]; simp)))
  have hBP : (view S i).B = P.length := hlen.symm
  have hVL : (view S i).L = 1 := hl.L
  obtain ⟨rows, p1, e1, i1, _, _, u1, x1, ok1, c1, c2⟩ :=
    Fusion.correspondences_spec (nrm := S.nrm) (distTh := d) (dotTh := t) hm.inv hP hN hF (.inl (hm.lst (by simp [hP]))) hVL hBP hT hs hnn
  have hrep := Fusion.fuse_rep i1 hP hN hC hF hF1 hBP ok1 S.al
  obtain ⟨res, s', e2, j2, l2, t2, f2⟩ := hrep true
  obtain ⟨res', s'', P', Nn', C', F', e3, ⟨a', i', q1, q2, q3, q4⟩, hsz, m1, m2, m3, m4, ap1, ap2, ap3, ap4⟩ :=
    Fusion.fuse_spec i1 hP hN hC hF hF1 hBP ok1 u1 S.al true
  rw [e2] at e3
  simp only [Prod.mk.injEq, Except.ok.injEq] at e3
  obtain ⟨rfl, rfl⟩ := e3
  have hu : ∀ {a''}, Inv res a'' → a'' = a' := by
    intro a'' i''
    funext X
    rw [← (inv_obs i'').list X, ← (inv_obs i').list X]
  have ha' := hu j2
  have hw' := Fusion.wf_of_inv i' q1
  have hlen' : P'.length = i.B := by
    have := congrArg (fun c : Clouds α => (c .points).map List.length) ha'
    simp only [q1, Option.map_some] at this
    have h1 : ∃ P1, Fusion.mergedOr S.al (view S i) rows P Nn C F a .points = some P1 ∧ P1.length = P.length := by
      rw [Fusion.mergedOr]
      split_ifs with h0
      · exact ⟨P, hP, rfl⟩
      · exact ⟨_, rfl, by simp [Fusion.mergeImg, mapRows_length]⟩
    obtain ⟨P1, g1, g2⟩ := h1
    rw [specAppend_some g1 rfl, Option.map_some, catL_length (by rw [g2, Fusion.picked_length, hBP])] at this
    rw [← Option.some.inj this, g2, hlen]
  have hposF' : ∀ b n, (Fusion.rowAt F' b n).isSome → 0 < Fusion.conf F' b n := by
    intro b n hs'
    have hb : b < i.B := by
      have := (Fusion.rowAt_lt hs').1
      rw [hw'.length q4, hlen'] at this; exact this
    by_cases hn : n < Fusion.sizeAt P b
    · have hsF : (Fusion.rowAt F b n).isSome := by
        rw [Fusion.sizeAt_isSome, Fusion.sizeAt_sizes (hw.rows _ _ hF)]; exact hn
      have h0 := hpos b n hsF
      by_cases hex : ∃ r ∈ rows, r.b = b ∧ r.n = n
      · obtain ⟨r, hr, rfl, rfl⟩ := hex
        rw [m4.matched r hr]
        have := hal ((view S i).v r.b 0 r.h r.w)
        linarith
      · rw [m4.kept b n hsF fun r hr hh => hex ⟨r, hr, hh⟩]; exact h0
    · obtain ⟨k, rfl⟩ := Nat.exists_eq_add_of_le (not_lt.1 hn)
      have := ap4 b hb k
      rw [this] at hs'
      rw [Fusion.conf, this]
      cases hk : (Fusion.pixels (view S i).L (view S i).H (view S i).W (Fusion.newMask (view S i) rows b))[k]? with
      | none => rw [hk] at hs'; simp at hs'
      | some x => simpa using hal _
  have hgood : ∀ r ∈ rows, Fusion.conf F r.b r.n + S.al (Rgbd.vertexAt S.eps i r.b 0 r.h r.w) ≠ 0 := by
    intro r hr
    have h1 := hnn r.b r.n
    have h2 := hal (Rgbd.vertexAt S.eps i r.b 0 r.h r.w)
    exact ne_of_gt (by linarith)
  have hkeep : ∀ {X l}, a X = some l → ∀ b n x, Fusion.vecAt l b n = some x → Fusion.conf F b n ≠ 0 := by
    intro X l hX b n x hx
    have h1 : (Fusion.rowAt l b n).isSome := by
      simp only [Fusion.vecAt, Option.map_eq_some_iff] at hx; obtain ⟨row, hr', _⟩ := hx; rw [hr']; rfl
    have h2 : (Fusion.rowAt F b n).isSome := by
      rw [Fusion.rowAt_isSome hw hF, ← Fusion.rowAt_isSome hw hX]; exact h1
    exact ne_of_gt (hpos b n h2)
  have hattr : ∀ {X l l' img}, a X = some l → a' X = some l' →
      Fusion.MergedAttr rows F (fun r => S.al ((view S i).v r.b 0 r.h r.w)) (fun r => img r.b 0 r.h r.w) l l' →
      Fusion.AppendedAttr (view S i) (Fusion.newMask (view S i) rows) img P l' →
      ∃ F l l', a .features = some F ∧ a X = some l ∧ a' X = some l' ∧
      (∀ r ∈ rows, ∀ x, Fusion.vecAt l r.b r.n = some x →
        Fusion.vecAt l' r.b r.n =
          some (Fusion.wAvg (Fusion.conf F r.b r.n) (S.al (Rgbd.vertexAt S.eps i r.b 0 r.h r.w)) x (img r.b 0 r.h r.w))) ∧
      (∀ b n x, Fusion.vecAt l b n = some x → (∀ r ∈ rows, ¬ (r.b = b ∧ r.n = n)) → Fusion.vecAt l' b n = some x) ∧
      (∀ b < i.B, ∀ k, Fusion.vecAt l' b (Fusion.sizeAt P b + k) =
        (Fusion.pixels 1 i.H i.W (Fusion.newMask (view S i) rows b))[k]?.map fun x => img b x.1 x.2.1 x.2.2) := by
    intro X l l' img hX hX' hmm hap
    refine ⟨F, l, l', hF, hX, hX', fun r hr x hx => hmm.matched r hr x hx (hgood r hr),
      fun b n x hx hun => hmm.kept b n x hx hun (hkeep hX b n x hx), fun b hb k => ?_⟩
    have := hap b hb k
    rw [hVL] at this
    exact this
  have hcols := features_cols (al := S.al) (fr := view S i) (rows := rows) (P := P) (Nn := Nn) (C := C)
    (b := Fusion.newArg S.al (view S i) (Fusion.newMask (view S i) rows)) (F' := F') hF hF1 rfl (by rw [ha', q4])
  refine ⟨a', P', rows, ⟨hP, q1, ?_, ?_, hw, hw', hlen', u1, x1, ok1, ?_, ?_, F, F', hF, q4, hcols, m4, ?_, ?_⟩, fun inplace => ?_⟩
  · intro N2 hN2; rw [hN] at hN2; cases hN2; exact c1
  · intro N2 F2 hN2 hF2; rw [hN] at hN2; rw [hF] at hF2; cases hN2; cases hF2; exact c2
  · intro b hb
    have := hsz b hb
    rw [hVL] at this; exact this
  · intro X img hX
    simp only [List.mem_cons, Prod.mk.injEq, List.not_mem_nil, or_false] at hX
    rcases hX with ⟨rfl, rfl⟩ | ⟨rfl, rfl⟩ | ⟨rfl, rfl⟩
    · exact hattr hP q1 m1 ap1
    · exact hattr hN q2 m2 ap2
    · exact hattr hC q3 m3 ap3
  · intro b hb k
    have := ap4 b hb k
    rw [hVL] at this; exact this
  · intro ht b hb
    have hv : ∀ r ∈ rows, (view S i).valid r.b 0 r.h r.w = true := fun r hr =>
      Fusion.candidate_valid (Fusion.ofIn_zeroNormals S.nrm S.eps i) ht (c1 r hr)
    obtain ⟨res', s'', a'', P'', F'', e4, i'', q1', q4', hcons⟩ := Fusion.fuse_conserves i1 hP hN hC hF hF1 hVL hBP ok1 u1 x1 hv S.al true
    rw [e2] at e4
    simp only [Prod.mk.injEq, Except.ok.injEq] at e4
    obtain ⟨rfl, rfl⟩ := e4
    have := hu i''
    subst this
    rw [q1] at q1'; rw [q4] at q4'
    cases q1'; cases q4'
    have := hcons b hb
    rw [hVL] at this; exact this
  · obtain ⟨res, s', e2, j2, l2, t2, f2⟩ := hrep inplace
    refine ⟨res, s', live', ?_, ⟨ha' ▸ j2, fun _ => l2, ?_⟩, ok0, s0, t2, ?_⟩
    · simp only [mapStep, hS, e0, Fusion.updateMapFusionRaw_last hx0, Fusion.updateMapFusion, e1, e2]
    · intro P2 hP2
      rw [q1] at hP2; cases hP2
      rw [hS]
      exact ⟨hlen', by rw [q2]; rfl, by rw [q3]; rfl, F', q4, hcols, hposF'⟩
    · intro hin
      refine ⟨_, f2 hin, ?_, fun h0 => by rw [Fusion.mergedOr, if_pos h0]⟩
      rw [← ha']
      exact truncated_append hw hN hC hF hBP _

/-- `PointFusion._map` on an empty map. -/
theorem map_fusion_empty {S : Sys α} {d t : α} (hS : S.mapper = .fusion d t) (hal : ∀ p, 0 < S.al p) {pc : PC α} {a : Clouds α}
    {live : Rgbd.Obj α} {i : Rgbd.In α} (hl : LiveOk S live i) (hm : MapOk S.mapper i.B pc a) (hP : a .points = none) (inplace : Bool) :
    ∃ res pc' live', mapStep S pc live inplace = (.ok res, pc', live') ∧
      MapOk S.mapper i.B res (Fusion.newArg S.al (view S i) (view S i).valid) ∧ LiveOk S live' i ∧ Rgbd.Same live live' ∧
      (inplace = true → pc' = res) ∧ (inplace = false → Inv pc' a) := by
  obtain ⟨x0, live', e0, hx0, ok0, s0⟩ := live_read hl (hl.last (.inl (by rw [hS]; simp)))
  obtain ⟨res, pc', e, j, l, t', f⟩ := Fusion.fusion_empty (nrm := S.nrm) (al := S.al) (fr := view S i) hm.inv hP hl.L hl.B d t inplace
  refine ⟨res, pc', live', by simp only [mapStep, hS, e0, Fusion.updateMapFusionRaw_last hx0, e], ⟨j, fun _ => l, ?_⟩, ok0, s0, t', f⟩
  intro P hP
  simp only [Fusion.newArg, Option.some.injEq] at hP
  subst hP
  rw [hS]
  refine ⟨by simp [Fusion.picked_length, Fusion.Frame.ofIn], rfl, rfl, _, rfl, ?_, ?_⟩
  · intro t ht
    simp only [Fusion.pickedAl, List.mem_map] at ht
    obtain ⟨b, _, rfl⟩ := ht; rfl
  · intro b n hs
    have hb : b < (view S i).B := by
      have := (Fusion.rowAt_lt hs).1
      simpa [Fusion.pickedAl] using this
    rw [Fusion.conf_pickedAl hb] at hs
    rw [Fusion.conf, Fusion.conf_pickedAl hb]
    cases hk : (Fusion.pixels (view S i).L (view S i).H (view S i).W ((view S i).valid b))[n]? with
    | none => rw [hk] at hs; simp at hs
    | some x => simpa using hal _

end
end Verif.Slam
