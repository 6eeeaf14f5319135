import Verif.Slam.Layout
/-!
What a call of `step` that raises leaves behind (C94).

`Kept l a s` is the invariant carried through every function on the path: the object `s` still holds the batch of clouds `a`, and, if `l`,
it is still in list form.
-/
namespace Verif.Slam
open Verif Pcs
set_option linter.unusedSectionVars false
set_option linter.unusedSimpArgs false

section
variable {α : Type*} [Field α] [LinearOrder α] [IsStrictOrderedRing α] [FloorRing α]

/-- The object holds the clouds `a` (in list form, if `l`). -/
structure Kept (l : Bool) (a : Clouds α) (s : PC α) : Prop where
  inv : Inv s a
  lst : l = true → (s.lst .points).isSome

variable {l : Bool} {a : Clouds α}

/-! ### Reading keeps the clouds -/

theorem Kept.empty {s : PC α} (h : RepE s a) (k : Kept l a s) : l = false := by
  cases l with
  | false => rfl
  | true => have := k.lst rfl; rw [h.hlst .points] at this; cases this

theorem Kept.hasAttr {s : PC α} (k : Kept l a s) (X : Attr) : Kept l a (Pcs.hasAttr X s).2 := by
  rcases k.inv with h | ⟨P, h, hm⟩
  · have := k.empty h; subst this
    obtain ⟨s', e, hr⟩ := h.hasAttr X; rw [e]; exact ⟨.inl hr, by simp⟩
  · obtain ⟨s', e, hr, hf, _⟩ := h.hasAttr X; rw [e]; exact ⟨.inr ⟨P, hr, hm.frame hf.eq hf.mask⟩, by simp only; rw [hf.lst]; exact k.lst⟩

theorem Kept.getList {s : PC α} (k : Kept l a s) (X : Attr) : Kept l a (Pcs.getList X s).2 := by
  rcases k.inv with h | ⟨P, h, hm⟩
  · have := k.empty h; subst this
    rw [h.getList X]; exact ⟨.inl h, by simp⟩
  · obtain ⟨e, hr⟩ := h.getList X
    rw [e]
    refine ⟨.inr ⟨P, hr, hm.frame rfl rfl⟩, fun hl => ?_⟩
    by_cases hX : Attr.points = X
    · subst hX; simp [h.wf.pts]
    · simpa [Function.update_of_ne hX] using k.lst hl

theorem Kept.getPad {s : PC α} (k : Kept l a s) (X : Attr) : Kept l a (Pcs.getPad X s).2 := by
  rcases k.inv with h | ⟨P, h, hm⟩
  · have := k.empty h; subst this
    obtain ⟨s', e, hr⟩ := h.getPad X; rw [e]; exact ⟨.inl hr, by simp⟩
  · obtain ⟨s', e, hr, _, hf, _⟩ := h.getPad X; rw [e]
    exact ⟨.inr ⟨P, hr, hm.frame hf.eq hf.mask⟩, by simp only; rw [hf.lst]; exact k.lst⟩

theorem Kept.getMask {s : PC α} (k : Kept l a s) : Kept l a (Pcs.getMask s).2 := by
  rcases k.inv with h | ⟨P, h, hm⟩
  · have := k.empty h; subst this
    obtain ⟨s', e, hr⟩ := h.getMask; rw [e]; exact ⟨.inl hr, by simp⟩
  · obtain ⟨s', e, hr, hk, hl, _⟩ := h.getMask hm; rw [e]
    exact ⟨.inr ⟨P, hr, .inl (by rw [hk]; rfl)⟩, by simp only; rw [hl]; exact k.lst⟩

theorem Kept.clone {s : PC α} (k : Kept l a s) : Kept l a (Pcs.clone s).2 := by
  rcases k.inv with h | ⟨P, h, hm⟩
  · have := k.empty h; subst this
    obtain ⟨s', e, hr, _⟩ := h.clone; rw [e]; exact ⟨.inl hr, by simp⟩
  · obtain ⟨c, s', e, hr, _, hf, _⟩ := h.clone; rw [e]
    exact ⟨.inr ⟨P, hr, hm.frame hf.eq hf.mask⟩, by simp only; rw [hf.lst]; exact k.lst⟩

theorem Kept.outOfPlace {s : PC α} (k : Kept l a s) (op : PC α → Except Pcs.Err Unit × PC α) : Kept l a (Pcs.outOfPlace op s).2 := by
  have := k.clone
  unfold Pcs.outOfPlace
  generalize Pcs.clone s = x at this ⊢
  obtain ⟨_ | c, p⟩ := x
  · exact this
  · simp only at this ⊢
    generalize op c = y
    obtain ⟨_ | _, _⟩ := y <;> exact this

/-- A refused `append_points`. -/
theorem Kept.append {s o s' o' : PC α} {b : Clouds α} {Q : List (T2 α)} {e : Pcs.Err} (k : Kept l a s) (ko : RepN o b Q)
    (he : Pcs.append s o = (.error e, s', o')) : Kept l a s' := by
  rcases k.inv with h | ⟨P, h, hm⟩
  · obtain ⟨s1, o1, e1, _⟩ := append_to_empty h ko
    rw [e1] at he; simp at he
  · by_cases hc : Compatible a b
    · obtain ⟨s1, o1, e1, _⟩ := h.append ko hc
      rw [e1] at he; simp at he
    · obtain ⟨s1, o1, e1, hr, _, hf, _⟩ := h.append_error ko hc
      rw [e1] at he; cases he
      exact ⟨.inr ⟨P, hr, hm.frame hf.eq hf.mask⟩, by rw [hf.lst]; exact k.lst⟩

/-- `clone` and `append_points`, when one of them raises. -/
theorem Kept.cloneAppend {s o s' : PC α} {b : Clouds α} {Q : List (T2 α)} {e : Fusion.Err} (k : Kept l a s) (ko : RepN o b Q) {inplace : Bool}
    (he : Fusion.cloneAppend inplace s o = (.error e, s')) : Kept l a s' := by
  unfold Fusion.cloneAppend at he
  cases inplace with
  | true =>
    simp only [if_true] at he
    generalize hx : Pcs.append s o = x at he
    obtain ⟨_ | _, s1, o1⟩ := x
    · simp only [Prod.mk.injEq] at he
      obtain ⟨_, rfl⟩ := he
      exact k.append ko hx
    · simp at he
  | false =>
    simp only [Bool.false_eq_true, if_false] at he
    have kc := k.clone
    generalize Pcs.clone s = x at he kc
    obtain ⟨_ | c, s1⟩ := x
    · simp only [Prod.mk.injEq] at he
      obtain ⟨_, rfl⟩ := he
      exact kc
    · simp only at he
      generalize Pcs.append c o = y at he
      obtain ⟨_ | _, c1, o1⟩ := y
      · simp only [Prod.mk.injEq] at he
        obtain ⟨_, rfl⟩ := he
        exact kc
      · simp at he

/-! ### The functions on the path of a step -/

theorem keptIf {β : Type*} {p : Prop} [Decidable p] {x y : β × PC α} (hx : Kept l a x.2) (hy : Kept l a y.2) : Kept l a (if p then x else y).2 := by
  split_ifs
  · exact hx
  · exact hy

theorem Kept.findActive {s : PC α} (k : Kept l a s) (fr : Fusion.Frame α) : Kept l a (Fusion.findActive s fr).2 := by
  unfold Fusion.findActive
  split_ifs with hL
  · exact k
  have k1 := k.hasAttr .points
  generalize Pcs.hasAttr .points s = x at k1 ⊢
  obtain ⟨h, s1⟩ := x
  simp only at k1 ⊢
  split_ifs with h1 h2
  · exact k1
  · exact k1
  cases fr.poses with
  | none => exact k1
  | some T =>
    simp only
    have k2 := k1.outOfPlace (transform_ (.batch ((List.range fr.B).map fun b => Geom.inverseTransform1 (T b 0))) true)
    generalize Pcs.outOfPlace _ s1 = y at k2 ⊢
    obtain ⟨_ | c, s2⟩ := y
    · exact k2
    simp only at k2 ⊢
    generalize Pcs.getPad .points c = z
    obtain ⟨_ | p, c⟩ := z
    · exact k2
    simp only
    generalize pinholeProjection_ _ c = z
    obtain ⟨_ | p, c⟩ := z
    · exact k2
    simp only
    generalize Pcs.getPad .points c = z
    obtain ⟨_ | q, c⟩ := z
    · exact k2
    exact k2.getMask

theorem Kept.findSimilarRaw {s : PC α} (k : Kept l a s) (nrm : V3 α → α) (r : Fusion.Raw α) (rows : List Fusion.Row) (d t : α) :
    Kept l a (Fusion.findSimilarRaw nrm s r rows d t).2 := by
  unfold Fusion.findSimilarRaw
  refine keptIf k ?_
  have k1 := k.hasAttr .points
  generalize Pcs.hasAttr .points s = x at k1 ⊢
  obtain ⟨h, s1⟩ := x
  simp only at k1 ⊢
  refine keptIf k1 (keptIf k1 ?_)
  have k2 := k1.hasAttr .normals
  generalize Pcs.hasAttr .normals s1 = x at k2 ⊢
  obtain ⟨h', s2⟩ := x
  simp only at k2 ⊢
  refine keptIf k2 ?_
  have k3 := k2.getPad .points
  generalize Pcs.getPad .points s2 = x at k3 ⊢
  obtain ⟨_ | p, s3⟩ := x
  · exact k3
  simp only at k3 ⊢
  have k4 := k3.getPad .normals
  generalize Pcs.getPad .normals s3 = x at k4 ⊢
  obtain ⟨_ | n, s4⟩ := x
  · exact k4
  simp only at k4 ⊢
  exact keptIf k4 (keptIf k4 k4)

theorem Kept.findBestRaw {s : PC α} (k : Kept l a s) (r : Fusion.Raw α) (rows : List Fusion.Row) : Kept l a (Fusion.findBestRaw s r rows).2 := by
  unfold Fusion.findBestRaw
  refine keptIf k ?_
  have k1 := k.hasAttr .points
  generalize Pcs.hasAttr .points s = x at k1 ⊢
  obtain ⟨h, s1⟩ := x
  simp only at k1 ⊢
  refine keptIf k1 (keptIf k1 ?_)
  have k2 := k1.hasAttr .features
  generalize Pcs.hasAttr .features s1 = x at k2 ⊢
  obtain ⟨h', s2⟩ := x
  simp only at k2 ⊢
  refine keptIf k2 ?_
  have k3 := k2.getPad .features
  generalize Pcs.getPad .features s2 = x at k3 ⊢
  obtain ⟨_ | p, s3⟩ := x
  · exact k3
  simp only at k3 ⊢
  have k4 := k3.getPad .points
  generalize Pcs.getPad .points s3 = x at k4 ⊢
  obtain ⟨_ | n, s4⟩ := x
  · exact k4
  simp only at k4 ⊢
  exact keptIf k4 (keptIf k4 k4)

theorem Kept.findCorrespondencesRaw {s : PC α} (k : Kept l a s) (nrm : V3 α → α) (r : Fusion.Raw α) (d t : α) :
    Kept l a (Fusion.findCorrespondencesRaw nrm s r d t).2 := by
  unfold Fusion.findCorrespondencesRaw
  have k1 := k.findActive r.camera
  generalize Fusion.findActive s r.camera = x at k1 ⊢
  obtain ⟨_ | rows, s1⟩ := x
  · exact k1
  simp only at k1 ⊢
  have k2 := k1.findSimilarRaw nrm r rows d t
  generalize Fusion.findSimilarRaw nrm s1 r rows d t = x at k2 ⊢
  obtain ⟨_ | rows, s2⟩ := x
  · exact k2
  exact k2.findBestRaw r rows.1

theorem Kept.findSimilar {s : PC α} (k : Kept l a s) (nrm : V3 α → α) (r : Fusion.Frame α) (rows : List Fusion.Row) (d t : α) :
    Kept l a (Fusion.findSimilar nrm s r rows d t).2 := by
  unfold Fusion.findSimilar
  refine keptIf k ?_
  have k1 := k.hasAttr .points
  generalize Pcs.hasAttr .points s = x at k1 ⊢
  obtain ⟨h, s1⟩ := x
  simp only at k1 ⊢
  refine keptIf k1 (keptIf k1 ?_)
  have k2 := k1.hasAttr .normals
  generalize Pcs.hasAttr .normals s1 = x at k2 ⊢
  obtain ⟨h', s2⟩ := x
  simp only at k2 ⊢
  refine keptIf k2 ?_
  have k3 := k2.getPad .points
  generalize Pcs.getPad .points s2 = x at k3 ⊢
  obtain ⟨_ | p, s3⟩ := x
  · exact k3
  simp only at k3 ⊢
  have k4 := k3.getPad .normals
  generalize Pcs.getPad .normals s3 = x at k4 ⊢
  obtain ⟨_ | n, s4⟩ := x
  · exact k4
  simp only at k4 ⊢
  exact keptIf k4 k4

theorem Kept.findBest {s : PC α} (k : Kept l a s) (r : Fusion.Frame α) (rows : List Fusion.Row) : Kept l a (Fusion.findBest s r rows).2 := by
  unfold Fusion.findBest
  refine keptIf k ?_
  have k1 := k.hasAttr .points
  generalize Pcs.hasAttr .points s = x at k1 ⊢
  obtain ⟨h, s1⟩ := x
  simp only at k1 ⊢
  refine keptIf k1 (keptIf k1 ?_)
  have k2 := k1.hasAttr .features
  generalize Pcs.hasAttr .features s1 = x at k2 ⊢
  obtain ⟨h', s2⟩ := x
  simp only at k2 ⊢
  refine keptIf k2 ?_
  have k3 := k2.getPad .features
  generalize Pcs.getPad .features s2 = x at k3 ⊢
  obtain ⟨_ | p, s3⟩ := x
  · exact k3
  simp only at k3 ⊢
  have k4 := k3.getPad .points
  generalize Pcs.getPad .points s3 = x at k4 ⊢
  obtain ⟨_ | n, s4⟩ := x
  · exact k4
  simp only at k4 ⊢
  exact keptIf k4 k4

theorem Kept.findCorrespondences {s : PC α} (k : Kept l a s) (nrm : V3 α → α) (r : Fusion.Frame α) (d t : α) :
    Kept l a (Fusion.findCorrespondences nrm s r d t).2 := by
  unfold Fusion.findCorrespondences
  have k1 := k.findActive r
  generalize Fusion.findActive s r = x at k1 ⊢
  obtain ⟨_ | rows, s1⟩ := x
  · exact k1
  simp only at k1 ⊢
  have k2 := k1.findSimilar nrm r rows d t
  generalize Fusion.findSimilar nrm s1 r rows d t = x at k2 ⊢
  obtain ⟨_ | rows, s2⟩ := x
  · exact k2
  exact k2.findBest r rows.1

theorem Kept.requireAll {s : PC α} (k : Kept l a s) (L : List Attr) : Kept l a (Fusion.requireAll L s).2 := by
  induction L generalizing s with
  | nil => exact k
  | cons X L ih =>
    unfold Fusion.requireAll
    have k1 := k.hasAttr X
    generalize Pcs.hasAttr X s = x at k1 ⊢
    obtain ⟨h, s1⟩ := x
    simp only at k1 ⊢
    split_ifs
    · exact ih k1
    · exact k1

theorem Kept.downsamplePointclouds {s : PC α} (k : Kept l a s) (rows : List Fusion.Row) (ds : Int) :
    Kept l a (Icp.downsamplePointclouds s rows ds).2 := by
  unfold Icp.downsamplePointclouds
  split_ifs with h0
  · exact k
  have k1 := k.getList .points
  generalize Pcs.getList .points s = x at k1 ⊢
  obtain ⟨p, s1⟩ := x
  simp only at k1 ⊢
  cases p
  case' none => generalize (if s1.B = 0 then (Except.ok [] : Except Icp.Err (List (T2 α))) else .error (.pcs .typeError)) = y
  case' some lp => simp only; generalize Icp.gather s1.B lp (Icp.gridRows ds rows) = y
  all_goals
    obtain _ | P := y
    · exact k1
    simp only
    have k2 := k1.getList .normals
    generalize Pcs.getList .normals s1 = x at k2 ⊢
    obtain ⟨n, s2⟩ := x
    simp only at k2 ⊢
    generalize Icp.gatherOpt s2.B n (Icp.gridRows ds rows) = y
    obtain _ | Nn := y
    · exact k2
    simp only
    have k3 := k2.getList .colors
    generalize Pcs.getList .colors s2 = x at k3 ⊢
    obtain ⟨c, s3⟩ := x
    simp only at k3 ⊢
    generalize Icp.gatherOpt s3.B c (Icp.gridRows ds rows) = y
    obtain _ | C := y
    · exact k3
    simp only
    generalize newList (Icp.dsMapArg P Nn C) P = y
    obtain _ | o := y <;> exact k3

/-- Localisation never changes the map, whether it raises or not. -/
theorem Kept.localize {s : PC α} (k : Kept l a s) (S : Sys α) (live : Rgbd.Obj α) (prev : Option (Rgbd.Obj α)) :
    Kept l a (localize S s live prev).2.1 := by
  have key : ∀ provide p P, Kept l a (odometry S provide s live p P).2.1 := by
    intro provide p P
    unfold odometry
    generalize Rgbd.setPoses (some P) live = x
    obtain ⟨_ | _, live1⟩ := x
    · exact k
    simp only
    generalize withFrame S.nrm S.eps live1 _ = x
    obtain ⟨_ | f, live2⟩ := x
    · exact k
    simp only
    have k1 := k.findActive (camera p)
    generalize Fusion.findActive s (camera p) = x at k1 ⊢
    obtain ⟨_ | rows, s1⟩ := x
    · exact k1
    simp only at k1 ⊢
    have k2 := k1.downsamplePointclouds rows S.ds
    generalize Icp.downsamplePointclouds s1 rows S.ds = x at k2 ⊢
    obtain ⟨_ | m, s2⟩ := x
    · exact k2
    simp only at k2 ⊢
    generalize provide m f = y
    obtain _ | T := y <;> exact k2
  unfold Slam.localize
  cases S.odom with
  | gt => cases live.poses <;> exact k
  | prov provide =>
    cases prev with
    | none => cases live.poses <;> exact k
    | some p =>
      simp only
      cases p.poses with
      | none => exact k
      | some P => exact key provide p P

/-! ### Map updates that raise -/

/-- A map whose features are neither one nor three wide is refused before anything is assigned. -/
theorem Kept.merge {s : PC α} (k : Kept l a s) {P F : List (T2 α)} (hP : a .points = some P) (hF : a .features = some F)
    (hw : ∀ t ∈ F, t.cols ≠ 1 ∧ t.cols ≠ 3) (al : V3 α → α) (fr : Fusion.Frame α) (rows : List Fusion.Row) :
    ∃ e s', Fusion.mergeStep al s fr rows = (.error e, s') ∧ Kept l a s' := by
  rcases k.inv with h | ⟨P', h, hm⟩
  · rw [h.noPoints] at hP; cases hP
  obtain rfl : P' = P := by have := h.wf.pts; rw [hP] at this; exact (Option.some.inj this).symm
  obtain ⟨s1, e1, r1, _, f1, _⟩ := h.getPad .points
  obtain ⟨s2, e2, r2, _, f2, _⟩ := r1.getPad .normals
  obtain ⟨s3, e3, r3, _, f3, _⟩ := r2.getPad .colors
  obtain ⟨s4, e4, r4, _, f4, _⟩ := r3.getPad .features
  have hk : Kept l a s4 := ⟨.inr ⟨_, r4, (((hm.frame f1.eq f1.mask).frame f2.eq f2.mask).frame f3.eq f3.mask).frame f4.eq f4.mask⟩,
    by rw [f4.lst, f3.lst, f2.lst, f1.lst]; exact k.lst⟩
  obtain ⟨C, hC, _⟩ := h.wf.cols .features F hF
  have hne : F ≠ [] := by
    intro h0
    have := congrArg List.length (h.wf.rows .features F hF)
    simp only [h0, List.map_nil, List.length_nil, sizes, List.length_map] at this
    exact h.wf.ne (List.length_eq_zero_iff.1 this.symm)
  obtain ⟨t, ht⟩ := List.exists_mem_of_ne_nil F hne
  have hwd : (shape3 (padL s3.N F)).2.2 = C := by
    obtain ⟨x, xs, rfl⟩ := List.exists_cons_of_ne_nil hne
    simp [shape3, padL, T2.shape, padT, hC x (by simp)]
  have h13 : C ≠ 1 ∧ C ≠ 3 := by rw [← hC t ht]; exact hw t ht
  unfold Fusion.mergeStep
  rw [e1]; simp only
  rw [e2]; simp only
  rw [e3]; simp only
  rw [e4, hF]; simp only [Option.map_some, Option.getD_some]
  split_ifs with c1 c2
  · exact ⟨_, _, rfl, hk⟩
  · exact ⟨_, _, rfl, hk⟩
  · rw [hwd] at c2; exact absurd h13 c2

/-- The matches of a call that found any refer to points of the map and pixels of the frame. -/
theorem corr_rows {nrm : V3 α → α} {pc pc' : PC α} {P Nn F : List (T2 α)} {fr : Fusion.Frame α} {d t : α} {rows : List Fusion.Row}
    (k : Kept true a pc) (hP : a .points = some P) (hn : a .normals = some Nn) (hF : a .features = some F)
    (hs : Fusion.SmallIdx P fr) (h : Fusion.findCorrespondences nrm pc fr d t = (.ok rows, pc')) :
    fr.B = P.length ∧ Fusion.RowsOk P fr rows := by
  obtain ⟨x1, _, x3, x4⟩ := Fusion.active_errors (fr := fr) k.inv
  have no : ∀ e p, Fusion.findActive pc fr = (.error e, p) → False := by
    intro e p he
    rw [Fusion.findCorrespondences, he] at h; cases h
  have hL : fr.L = 1 := by by_contra hL; exact no _ _ (x1 hL)
  have hB : fr.B = P.length := by by_contra hB; obtain ⟨_, e, _⟩ := x3 P hL hP hB; exact no _ _ e
  have hT : ∃ T, fr.poses = some T := by
    cases hT : fr.poses with
    | some T => exact ⟨T, rfl⟩
    | none => obtain ⟨_, e, _⟩ := x4 P hL hP hB hT; exact (no _ _ e).elim
  obtain ⟨T, hT⟩ := hT
  refine ⟨hB, ?_⟩
  obtain ⟨r1, p1, e1, i1, l1, k1, o1, m1⟩ := Fusion.active_spec_partial k.inv hP (.inl (k.lst rfl)) hL hB hT
  have ok1 : Fusion.RowsOk P fr r1 := by
    intro r hr
    obtain ⟨h1, h2, p, h3, _⟩ := (m1 r).1 hr
    have h4 : (Fusion.rowAt P r.b r.n).isSome := by
      simp only [Fusion.vecAt, Option.map_eq_some_iff] at h3; obtain ⟨row, hr', _⟩ := h3; rw [hr']; rfl
    exact ⟨h4, by rw [hB]; exact (Fusion.rowAt_lt h4).1, h1, h2⟩
  obtain ⟨r2, mk, p2, e2, i2, l2, k2, s2, _, m2⟩ := Fusion.similar_spec (nrm := nrm) (distTh := d) (dotTh := t) i1 hP hn hL hB
    (Fusion.sorted_uniquePts o1) ok1
  have ok2 : Fusion.RowsOk P fr r2 := fun r hr => ok1 r (s2.subset hr)
  obtain ⟨p3, e3, _⟩ := Fusion.findBest_eq i2 hP hF hL hB ok2
  obtain ⟨best, eb, hb, _⟩ := Fusion.bestRows_spec (r2.map fun r => (⟨Fusion.f32 r.b, Fusion.f32 r.h, Fusion.f32 r.w,
    1 / (Fusion.conf F r.b r.n + 1 / 10 ^ 20), Fusion.rayDist P fr r, Fusion.f32 r.n⟩ : Fusion.Key α))
  rw [eb] at e3
  simp only [Fusion.findCorrespondences, e1, e2, e3, Prod.mk.injEq, Except.ok.injEq] at h
  obtain ⟨rfl, _⟩ := h
  intro r hmem
  obtain ⟨q, hq, rfl⟩ := List.mem_map.1 hmem
  obtain ⟨r, hr', rfl⟩ := List.mem_map.1 (hb q hq)
  obtain ⟨h1, h2, h3, h4⟩ := ok2 r hr'
  obtain ⟨b1, b2, b3, b4⟩ := hs
  have := Fusion.sizeAt_isSome.1 h1
  have := b4 r.b
  obtain ⟨y1, y2, y3, y4⟩ := Fusion.rowExact_of_le (r := r) ⟨by omega, by omega, by omega, by omega⟩
  simp only [y1, y2, y3, y4]
  exact ok2 r hr'

theorem Kept.has {s : PC α} (k : Kept l a s) (X : Attr) : (Pcs.hasAttr X s).1 = (a X).isSome := (inv_obs k.inv).presence X

theorem Kept.required {s : PC α} (k : Kept l a s) (L : List Attr) (h : (Fusion.requireAll L s).1 = true) : ∀ X ∈ L, (a X).isSome := by
  induction L generalizing s with
  | nil => intro X hX; cases hX
  | cons Y L ih =>
    unfold Fusion.requireAll at h
    have k1 := k.hasAttr Y
    have hy := k.has Y
    generalize Pcs.hasAttr Y s = x at k1 h hy
    obtain ⟨b, s1⟩ := x
    simp only at k1 h hy
    intro X hX
    cases b with
    | false => simp at h
    | true =>
      simp only [if_true] at h
      rcases List.mem_cons.1 hX with rfl | hX'
      · exact hy.symm
      · exact ih k1 h X hX'

/-- The clouds of the new points, when the constructor accepts them. -/
theorem new_rep {al : V3 α → α} {fr : Fusion.Frame α} {m : Nat → Nat → Nat → Nat → Bool} {o : PC α}
    (h : newList (Fusion.newArg al fr m) (Fusion.picked fr m fr.gv) = .ok o) : RepN o (Fusion.newArg al fr m) (Fusion.picked fr m fr.gv) := by
  rcases Nat.eq_zero_or_pos fr.B with h0 | hB
  · rw [newList, if_pos (by rw [Fusion.picked_length]; exact h0)] at h; cases h
  · obtain ⟨o', eo, ro, fo⟩ := newList_rep (Fusion.picked_wf hB al m)
    rw [eo] at h; cases h; exact ro

/-- `fuse_with_map` that raises, for features that are not three wide. -/
theorem Kept.fuse {s s' : PC α} (k : Kept l a s) {al : V3 α → α} {fr : Fusion.Frame α} {rows : List Fusion.Row} {inplace : Bool} {e : Fusion.Err}
    (hw : ∀ F, a .features = some F → ∀ t ∈ F, t.cols ≠ 3)
    (hr : ∀ P, (∀ X, (a X).isSome) → a .points = some P → fr.B = P.length ∧ Fusion.RowsOk P fr rows)
    (h : Fusion.fuseWithMap al s fr rows inplace = (.error e, s')) : Kept l a s' := by
  -- if every attribute is there and the features are one wide, the call succeeds
  by_cases hbad : (∀ X, (a X).isSome) ∧ ∀ F, a .features = some F → ∀ t ∈ F, t.cols = 1
  · obtain ⟨hall, h1⟩ := hbad
    obtain ⟨P, hP⟩ := Option.isSome_iff_exists.1 (hall .points)
    obtain ⟨Nn, hN⟩ := Option.isSome_iff_exists.1 (hall .normals)
    obtain ⟨C, hC⟩ := Option.isSome_iff_exists.1 (hall .colors)
    obtain ⟨F, hF⟩ := Option.isSome_iff_exists.1 (hall .features)
    obtain ⟨hB, hok⟩ := hr P hall hP
    obtain ⟨res, s1, e1, _⟩ := Fusion.fuse_rep k.inv hP hN hC hF (h1 F hF) hB hok al inplace
    rw [e1] at h; cases h
  unfold Fusion.fuseWithMap at h
  have k1 := k.hasAttr .points
  have h1 := k.has .points
  generalize Pcs.hasAttr .points s = x at k1 h h1
  obtain ⟨b, s1⟩ := x
  simp only at k1 h h1
  have kx : Kept l a (if b then Fusion.requireAll [.normals, .colors, .features] s1 else (true, s1)).2 := keptIf (k1.requireAll _) k1
  have hx : (if b then Fusion.requireAll [.normals, .colors, .features] s1 else (true, s1)).1 = true → b = true →
      ∀ X ∈ [Attr.normals, .colors, .features], (a X).isSome := by
    intro ht hb
    rw [if_pos hb] at ht
    exact k1.required _ ht
  generalize (if b then Fusion.requireAll [.normals, .colors, .features] s1 else (true, s1)) = y at kx hx h
  obtain ⟨ok, s2⟩ := y
  simp only at kx hx h
  cases ok with
  | false =>
    simp only [Bool.not_false, if_true, Prod.mk.injEq] at h
    obtain ⟨_, rfl⟩ := h
    exact kx
  | true =>
    simp only [Bool.not_true, Bool.false_eq_true, if_false] at h
    have tail : ∀ m, (match newList (Fusion.newArg al fr m) (Fusion.picked fr m fr.gv) with
        | .error e => (.error (.pcs e), s2)
        | .ok o => Fusion.cloneAppend inplace s2 o : Except Fusion.Err (PC α) × PC α) = (.error e, s') → Kept l a s' := by
      intro m hm
      cases hn : newList (Fusion.newArg al fr m) (Fusion.picked fr m fr.gv) with
      | error e' => rw [hn] at hm; simp only [Prod.mk.injEq] at hm; obtain ⟨_, rfl⟩ := hm; exact kx
      | ok o => rw [hn] at hm; exact kx.cloneAppend (new_rep hn) hm
    by_cases hu : (b && decide (rows.length ≠ 0)) = true
    · rw [if_pos hu] at h
      have hb : b = true := (Bool.and_eq_true _ _ ▸ hu).1
      have hall : ∀ X, (a X).isSome := by
        intro X
        cases X with
        | points => rw [← h1]; exact hb
        | normals => exact hx rfl hb _ (by simp)
        | colors => exact hx rfl hb _ (by simp)
        | features => exact hx rfl hb _ (by simp)
      obtain ⟨P, hP⟩ := Option.isSome_iff_exists.1 (hall .points)
      obtain ⟨F, hF⟩ := Option.isSome_iff_exists.1 (hall .features)
      obtain ⟨c, hc, _⟩ := (Fusion.wf_of_inv k.inv hP).cols .features F hF
      have h13 : ∀ t ∈ F, t.cols ≠ 1 ∧ t.cols ≠ 3 := by
        intro t ht
        refine ⟨fun h0 => hbad ⟨hall, ?_⟩, hw F hF t ht⟩
        intro F' hF' t' ht'
        rw [hF] at hF'; cases hF'
        rw [hc t' ht', ← hc t ht, h0]
      obtain ⟨e', s3, e3, k3⟩ := kx.merge hP hF h13 al fr rows
      rw [e3] at h
      simp only [Prod.mk.injEq] at h
      obtain ⟨_, rfl⟩ := h
      exact k3
    · rw [if_neg hu] at h
      exact tail _ h

/-- `update_map_aggregate` that raises. -/
theorem Kept.aggregate {s s' : PC α} (k : Kept l a s) {fr : Fusion.Frame α} {inplace : Bool} {e : Fusion.Err}
    (h : Fusion.updateMapAggregate s fr inplace = (.error e, s')) : Kept l a s' := by
  unfold Fusion.updateMapAggregate at h
  cases ho : Fusion.pointcloudsFromRgbd fr true true with
  | error e' => rw [ho] at h; simp only [Prod.mk.injEq] at h; obtain ⟨_, rfl⟩ := h; exact k
  | ok o =>
    rw [ho] at h
    simp only at h
    unfold Fusion.pointcloudsFromRgbd at ho
    split_ifs at ho with hL hT
    swap
    · exact absurd rfl hT
    rcases Nat.eq_zero_or_pos fr.B with h0 | hB
    · rw [newList, if_pos (by rw [Fusion.picked_length]; exact h0)] at ho; cases ho
    · obtain ⟨o', eo, ro, fo⟩ := newList_rep (Fusion.frame_wf hB true fr.valid)
      simp only [if_true] at eo
      rw [eo] at ho; cases ho
      exact k.cloneAppend ro h

/-- `fuse_with_map` on images whose last dimension is not three raises before anything is assigned. -/
theorem Kept.fuseRaw {s : PC α} (k : Kept l a s) {al : V3 α → α} {r : Fusion.Raw α} (hv : r.v.sh.d4 ≠ 3) (rows : List Fusion.Row) (inplace : Bool) :
    Kept l a (Fusion.fuseWithMapRaw al s r rows inplace).2 := by
  unfold Fusion.fuseWithMapRaw
  have k1 := k.hasAttr .points
  generalize Pcs.hasAttr .points s = x at k1 ⊢
  obtain ⟨b, s1⟩ := x
  simp only at k1 ⊢
  have kx : Kept l a (if b then Fusion.requireAll [.normals, .colors, .features] s1 else (true, s1)).2 := keptIf (k1.requireAll _) k1
  generalize (if b then Fusion.requireAll [.normals, .colors, .features] s1 else (true, s1)) = y at kx ⊢
  obtain ⟨ok, s2⟩ := y
  simp only at kx ⊢
  refine keptIf kx ?_
  rw [if_pos hv]
  exact kx

/-! ### `step` -/

/-- The frame object still holds the images, intrinsics and poses `i`. -/
structure Held (S : Sys α) (cf : Bool) (i : Rgbd.In α) (Q : Option (Rgbd.TM α)) (o : Rgbd.Obj α) : Prop where
  rep : Rgbd.Rep S.nrm S.eps o i
  cf : o.cf = cf
  poses : o.poses = Q

theorem same_valid {o o' : Rgbd.Obj α} {v : Option (Rgbd.T5 Bool)} (h : o' = { o with valid := v }) : Rgbd.Same o o' := by
  subst h; exact ⟨rfl, rfl, rfl, rfl, rfl, rfl⟩

theorem readRaw_held {S : Sys α} {o : Rgbd.Obj α} {i : Rgbd.In α} (r : Rgbd.Rep S.nrm S.eps o i) :
    Rgbd.Rep S.nrm S.eps (Fusion.readRaw S.nrm S.eps o).2 i ∧ Rgbd.Same o (Fusion.readRaw S.nrm S.eps o).2 := by
  unfold Fusion.readRaw
  obtain ⟨-, a2, a3⟩ := Rgbd.getGVertex_rep r
  generalize Rgbd.getGVertex S.eps o = x at a2 a3 ⊢
  obtain ⟨_ | v1, o1⟩ := x
  · exact ⟨a2, a3⟩
  simp only at a2 a3 ⊢
  obtain ⟨-, b2, b3⟩ := Rgbd.getGNormal_rep a2
  generalize Rgbd.getGNormal S.nrm S.eps o1 = x at b2 b3 ⊢
  obtain ⟨_ | v2, o2⟩ := x
  · exact ⟨b2, a3.trans b3⟩
  simp only at b2 b3 ⊢
  obtain ⟨-, c2, c3⟩ := Rgbd.getVertex_rep b2
  generalize Rgbd.getVertex S.eps o2 = x at c2 c3 ⊢
  obtain ⟨_ | v3, o3⟩ := x
  · exact ⟨c2, (a3.trans b3).trans c3⟩
  simp only at c2 c3 ⊢
  obtain ⟨-, d2, d3⟩ := Rgbd.getNormal_rep c2
  generalize Rgbd.getNormal S.nrm S.eps o3 = x at d2 d3 ⊢
  obtain ⟨_ | v4, o4⟩ := x
  · exact ⟨d2, ((a3.trans b3).trans c3).trans d3⟩
  simp only at d2 d3 ⊢
  obtain ⟨-, -, e2, e3⟩ := Rgbd.getValid_rep d2
  exact ⟨e2, (((a3.trans b3).trans c3).trans d3).trans (same_valid e3)⟩

theorem readFrame_held {S : Sys α} {o : Rgbd.Obj α} {i : Rgbd.In α} (r : Rgbd.Rep S.nrm S.eps o i) :
    Rgbd.Rep S.nrm S.eps (Fusion.readFrame S.nrm S.eps o).2 i ∧ Rgbd.Same o (Fusion.readFrame S.nrm S.eps o).2 := by
  unfold Fusion.readFrame
  obtain ⟨-, a2, a3⟩ := Rgbd.getGVertex_rep r
  generalize Rgbd.getGVertex S.eps o = x at a2 a3 ⊢
  obtain ⟨_ | v1, o1⟩ := x
  · exact ⟨a2, a3⟩
  simp only at a2 a3 ⊢
  obtain ⟨-, b2, b3⟩ := Rgbd.getGNormal_rep a2
  generalize Rgbd.getGNormal S.nrm S.eps o1 = x at b2 b3 ⊢
  obtain ⟨_ | v2, o2⟩ := x
  · exact ⟨b2, a3.trans b3⟩
  simp only at b2 b3 ⊢
  obtain ⟨-, c2, c3⟩ := Rgbd.getVertex_rep b2
  generalize Rgbd.getVertex S.eps o2 = x at c2 c3 ⊢
  obtain ⟨_ | v3, o3⟩ := x
  · exact ⟨c2, (a3.trans b3).trans c3⟩
  simp only at c2 c3 ⊢
  obtain ⟨-, d2, d3⟩ := Rgbd.getNormal_rep c2
  generalize Rgbd.getNormal S.nrm S.eps o3 = x at d2 d3 ⊢
  obtain ⟨_ | v4, o4⟩ := x
  · exact ⟨d2, ((a3.trans b3).trans c3).trans d3⟩
  simp only at d2 d3 ⊢
  obtain ⟨-, -, e2, e3⟩ := Rgbd.getValid_rep d2
  exact ⟨e2, (((a3.trans b3).trans c3).trans d3).trans (same_valid e3)⟩

/-- When a raising map update leaves the map alone: always for `ICPSLAM`; for `PointFusion` if the map's features are not three wide, and
the frame (of at least 2×2 pixels) is channels-last or not three pixels wide.  Indices fit in float32, and the map is in list form. -/
def Safe (S : Sys α) (l : Bool) (a : Clouds α) (live : Rgbd.Obj α) (i : Rgbd.In α) : Prop :=
  S.mapper = .aggregate ∨
  (Rgbd.Rep S.nrm S.eps live i ∧ 2 ≤ i.H ∧ 2 ≤ i.W ∧
    ((live.cf = true ∧ i.W ≠ 3) ∨
     (live.cf = false ∧ (∀ F, a .features = some F → ∀ t ∈ F, t.cols ≠ 3) ∧ (a .points ≠ none → l = true) ∧
      ∀ P, a .points = some P → Fusion.SmallIdx P (view S i))))

theorem Safe.posed {S : Sys α} {live live' : Rgbd.Obj α} {i : Rgbd.In α} {T : Rgbd.TM α} (h : Safe S l a live i)
    (hs : Rgbd.Rep S.nrm S.eps live' (posed i T)) (hc : live'.cf = live.cf) : Safe S l a live' (Slam.posed i T) := by
  rcases h with h | ⟨_, h1, h2, h3⟩
  · exact .inl h
  · refine .inr ⟨hs, h1, h2, ?_⟩
    rw [hc]
    exact h3

theorem Kept.mapStep {S : Sys α} {s s' : PC α} {live live' : Rgbd.Obj α} {i : Rgbd.In α} {inplace : Bool} {e : Err} (k : Kept l a s)
    (hs : Safe S l a live i) (h : mapStep S s live inplace = (.error e, s', live')) : Kept l a s' := by
  unfold Slam.mapStep at h
  cases hM : S.mapper with
  | aggregate =>
    rw [hM] at h
    simp only at h
    generalize readAggregate S live = x at h
    obtain ⟨_ | fr, live1⟩ := x
    · simp only [Prod.mk.injEq] at h; obtain ⟨_, rfl, _⟩ := h; exact k
    simp only at h
    generalize hx : Fusion.updateMapAggregate s fr inplace = x at h
    obtain ⟨_ | _, s1⟩ := x
    · simp only [Prod.mk.injEq] at h; obtain ⟨_, rfl, _⟩ := h; exact k.aggregate hx
    · simp at h
  | fusion d t =>
    rcases hs with hs | ⟨rep, hH, hW, hc⟩
    · rw [hM] at hs; cases hs
    rw [hM] at h
    simp only at h
    obtain ⟨x, live1, ex, hraw, _⟩ := Fusion.readRaw_spec rep hH hW
    rw [ex] at h
    simp only at h
    have key : ∀ {e s'}, Fusion.updateMapFusionRaw S.nrm S.al s x d t inplace = (.error e, s') → Kept l a s' := by
      intro e s' hx
      rcases hc with ⟨hcf, hW3⟩ | ⟨hcf, hw3, hl, hsm⟩
      · rw [hcf] at hraw
        have hv : x.v.sh.d4 ≠ 3 := by rw [hraw.v]; simpa [Rgbd.image, Rgbd.mk5, Rgbd.dims5] using hW3
        unfold Fusion.updateMapFusionRaw at hx
        have k1 := k.findCorrespondencesRaw S.nrm x d t
        generalize Fusion.findCorrespondencesRaw S.nrm s x d t = y at hx k1
        obtain ⟨_ | rows, s1⟩ := y
        · simp only [Prod.mk.injEq] at hx; obtain ⟨_, rfl⟩ := hx; exact k1
        · have k2 := k1.fuseRaw (al := S.al) hv rows inplace
          simp only at hx k2
          rw [hx] at k2
          exact k2
      · rw [hcf] at hraw
        rw [Fusion.updateMapFusionRaw_last hraw] at hx
        unfold Fusion.updateMapFusion at hx
        have k1 := k.findCorrespondences S.nrm (Fusion.Frame.ofIn S.nrm S.eps i) d t
        generalize hy : Fusion.findCorrespondences S.nrm s (Fusion.Frame.ofIn S.nrm S.eps i) d t = y at hx k1
        obtain ⟨_ | rows, s1⟩ := y
        · simp only [Prod.mk.injEq] at hx; obtain ⟨_, rfl⟩ := hx; exact k1
        · simp only at hx k1
          refine k1.fuse hw3 ?_ hx
          intro P hall hP
          obtain ⟨Nn, hN⟩ := Option.isSome_iff_exists.1 (hall .normals)
          obtain ⟨F, hF⟩ := Option.isSome_iff_exists.1 (hall .features)
          have hlt : l = true := hl (by rw [hP]; simp)
          subst hlt
          exact corr_rows k hP hN hF (hsm P hP) hy
    generalize hx : Fusion.updateMapFusionRaw S.nrm S.al s x d t inplace = y at h
    obtain ⟨_ | _, s1⟩ := y
    · simp only [Prod.mk.injEq] at h; obtain ⟨_, rfl, _⟩ := h; exact key hx
    · simp at h

theorem Held.of {S : Sys α} {o o' : Rgbd.Obj α} {i : Rgbd.In α} {cf : Bool} {Q : Option (Rgbd.TM α)} (h : Held S cf i Q o)
    (r : Rgbd.Rep S.nrm S.eps o' i) (s : Rgbd.Same o o') : Held S cf i Q o' := ⟨r, s.cf.trans h.cf, s.poses.trans h.poses⟩

theorem setPoses_cases (o : Rgbd.Obj α) (T : Rgbd.TM α) : Rgbd.setPoses (some T) o = (.error .valueError, o) ∨
    Rgbd.setPoses (some T) o = (.ok (), { o with poses := some T, gvertex := none, gnormal := none }) := by
  unfold Rgbd.setPoses
  split_ifs
  · exact .inl rfl
  · exact .inr rfl

theorem Held.setPoses {S : Sys α} {o o' : Rgbd.Obj α} {i : Rgbd.In α} {cf : Bool} {Q : Option (Rgbd.TM α)} {T : Rgbd.TM α} (h : Held S cf i Q o)
    (e : Rgbd.setPoses (some T) o = (.ok (), o')) : Held S cf (posed i T) (some T) o' := by
  have r := (Rgbd.setPoses_rep h.rep e).1
  rcases setPoses_cases o T with h1 | h1
  · rw [h1] at e; cases e
  · rw [h1] at e
    simp only [Prod.mk.injEq, true_and] at e
    subst e
    exact ⟨r, h.cf, rfl⟩

/-- What localisation does to the live frame: nothing, or (with a provider and a previous frame) it moves it to the previous frame's poses. -/
theorem localize_held {S : Sys α} {pc : PC α} {live : Rgbd.Obj α} {i : Rgbd.In α} {cf : Bool} {Q : Option (Rgbd.TM α)} (h : Held S cf i Q live)
    (prev : Option (Rgbd.Obj α)) :
    (Held S cf i Q (localize S pc live prev).2.2 ∧
      ∀ provide p P, S.odom = .prov provide → prev = some p → p.poses = some P → (P.d0, P.d1) ≠ (live.B, live.L)) ∨
    ∃ provide p P, S.odom = .prov provide ∧ prev = some p ∧ p.poses = some P ∧ Held S cf (posed i P) (some P) (localize S pc live prev).2.2 := by
  unfold localize
  cases ho : S.odom with
  | gt => left; cases live.poses <;> exact ⟨h, fun _ _ _ h0 => by cases h0⟩
  | prov provide =>
    cases prev with
    | none => left; cases live.poses <;> exact ⟨h, fun _ _ _ _ h0 => by cases h0⟩
    | some p =>
      simp only
      cases hp : p.poses with
      | none => exact .inl ⟨h, fun _ _ _ _ h0 h1 => by cases h0; rw [hp] at h1; cases h1⟩
      | some P =>
        simp only
        unfold odometry
        generalize hx : Rgbd.setPoses (some P) live = x
        obtain ⟨_ | _, live1⟩ := x
        · left
          rcases setPoses_cases live P with h1 | h1
          · rw [h1, Prod.mk.injEq] at hx
            obtain ⟨_, rfl⟩ := hx
            refine ⟨h, fun _ _ _ _ h0 h2 h3 => ?_⟩
            cases h0; rw [hp] at h2; cases h2
            unfold Rgbd.setPoses at h1
            rw [if_neg (by simp [Pcs.okOpt, h3])] at h1
            simp at h1
          · rw [h1, Prod.mk.injEq] at hx
            exact absurd hx.1 (by simp)
        · right
          refine ⟨provide, p, P, rfl, rfl, hp, ?_⟩
          have h1 := h.setPoses hx
          have h2 : ∀ f : Fusion.Raw α → Except Err (PC α), Held S cf (posed i P) (some P) (withFrame S.nrm S.eps live1 f).2 := by
            intro f
            unfold withFrame
            obtain ⟨r, sm⟩ := readRaw_held h1.rep
            have h3 := h1.of r sm
            generalize Fusion.readRaw S.nrm S.eps live1 = y at h3 ⊢
            obtain ⟨_ | _, live2⟩ := y <;> exact h3
          simp only
          have h2 := h2 (fun fr => match Icp.downsampleRaw fr S.ds with
            | .error e => .error (.icp e)
            | .ok o => .ok o)
          generalize withFrame S.nrm S.eps live1 _ = x at h2 ⊢
          obtain ⟨_ | f, live2⟩ := x
          · exact h2
          simp only at h2 ⊢
          generalize Fusion.findActive pc (camera p) = x
          obtain ⟨_ | rows, s1⟩ := x
          · exact h2
          simp only
          generalize Icp.downsamplePointclouds s1 rows S.ds = x
          obtain ⟨_ | m, s2⟩ := x
          · exact h2
          simp only
          generalize provide m f = y
          obtain _ | T := y <;> exact h2

theorem mapStep_held {S : Sys α} {pc : PC α} {live : Rgbd.Obj α} {i : Rgbd.In α} {cf : Bool} {Q : Option (Rgbd.TM α)} (h : Held S cf i Q live)
    (inplace : Bool) : Held S cf i Q (mapStep S pc live inplace).2.2 := by
  unfold mapStep
  cases S.mapper with
  | aggregate =>
    simp only
    have h1 : Held S cf i Q (readAggregate S live).2 := by
      unfold readAggregate
      split_ifs
      · generalize Rgbd.toLast false live = x
        obtain _ | o := x <;> exact h
      · obtain ⟨r, sm⟩ := readFrame_held h.rep
        exact h.of r sm
    generalize readAggregate S live = x at h1 ⊢
    obtain ⟨_ | fr, live1⟩ := x
    · exact h1
    simp only at h1 ⊢
    generalize Fusion.updateMapAggregate pc fr inplace = x
    obtain ⟨_ | _, s1⟩ := x <;> exact h1
  | fusion d t =>
    simp only
    obtain ⟨r, sm⟩ := readRaw_held h.rep
    have h1 := h.of r sm
    generalize Fusion.readRaw S.nrm S.eps live = x at h1 ⊢
    obtain ⟨_ | fr, live1⟩ := x
    · exact h1
    simp only at h1 ⊢
    generalize Fusion.updateMapFusionRaw S.nrm S.al pc fr d t inplace = x
    obtain ⟨_ | _, s1⟩ := x <;> exact h1

/-- **C94** (the map).  Whatever the previous frame, the odometry, the live frame's shape, poses and batch size are: if `step` raises, the map
it was given still holds exactly the clouds it held, whether `inplace` or not. -/
theorem raised_step_keeps_map {S : Sys α} {pc pc' : PC α} {live live' : Rgbd.Obj α} {i : Rgbd.In α} {prev : Option (Rgbd.Obj α)} {inplace : Bool}
    {e : Err} (k : Kept l a pc) (hs : Safe S l a live i) (h : step S pc live prev inplace = (.error e, pc', live')) : Kept l a pc' := by
  unfold step at h
  have k1 := k.localize S live prev
  have hh : ∀ {cf Q}, Held S cf i Q live → _ := fun H => localize_held (pc := pc) H prev
  generalize localize S pc live prev = x at h k1 hh
  obtain ⟨_ | T, pc1, live1⟩ := x
  · simp only [Prod.mk.injEq] at h; obtain ⟨_, rfl, _⟩ := h; exact k1
  simp only at h k1
  generalize hy : Rgbd.setPoses (some T) live1 = y at h
  obtain ⟨_ | _, live2⟩ := y
  · simp only [Prod.mk.injEq] at h; obtain ⟨_, rfl, _⟩ := h; exact k1
  simp only at h
  have hs2 : Safe S l a live2 (posed i T) := by
    rcases hs with hs | ⟨rep, hrest⟩
    · exact .inl hs
    · have H : Held S live.cf i live.poses live := ⟨rep, rfl, rfl⟩
      rcases hh H with ⟨H1, _⟩ | ⟨_, _, P, _, _, _, H1⟩
      · have H2 := H1.setPoses hy
        exact Safe.posed (.inr ⟨rep, hrest⟩) H2.rep H2.cf
      · have H2 := H1.setPoses hy
        exact Safe.posed (.inr ⟨rep, hrest⟩) H2.rep H2.cf
  generalize hz : mapStep S pc1 live2 inplace = z at h
  obtain ⟨_ | _, pc2, live3⟩ := z
  · simp only [Prod.mk.injEq] at h; obtain ⟨_, rfl, _⟩ := h; exact k1.mapStep hs2 hz
  · simp at h

/-- **C94** (in terms of reads).  The same for a map with any history of operations: after the raise every accessor reads what it read before. -/
theorem raised_step_map_reads {S : Sys α} {pc pc' : PC α} {live live' : Rgbd.Obj α} {i : Rgbd.In α} {prev : Option (Rgbd.Obj α)} {inplace : Bool}
    {e : Err} (k : Pcs.Hist pc a) (hs : Safe S (pc.lst .points).isSome a live i) (h : step S pc live prev inplace = (.error e, pc', live')) :
    Obs pc a ∧ Obs pc' a :=
  ⟨hist_obs k, inv_obs (raised_step_keeps_map (l := (pc.lst .points).isSome) ⟨k.inv, id⟩ hs h).inv⟩

/-- **C94** (the live frame).  If `step` raises, the live frame keeps its images and intrinsics, and its poses are one of three: those it had;
those of the previous frame (localisation had already assigned them); those just computed (the map update raised). -/
theorem raised_step_frame {S : Sys α} {pc pc' : PC α} {live live' : Rgbd.Obj α} {i : Rgbd.In α} {prev : Option (Rgbd.Obj α)} {inplace : Bool}
    {e : Err} (hr : Rgbd.Rep S.nrm S.eps live i) (h : step S pc live prev inplace = (.error e, pc', live')) :
    Held S live.cf i live.poses live' ∨
    (∃ provide p P, S.odom = .prov provide ∧ prev = some p ∧ p.poses = some P ∧ Held S live.cf (posed i P) (some P) live') ∨
    (∃ T pc1 live1, localize S pc live prev = (.ok T, pc1, live1) ∧ Held S live.cf (posed i T) (some T) live') := by
  have hh := localize_held (pc := pc) (⟨hr, rfl, rfl⟩ : Held S live.cf i live.poses live) prev
  unfold step at h
  generalize hx : localize S pc live prev = x at h hh
  obtain ⟨_ | T, pc1, live1⟩ := x
  · simp only [Prod.mk.injEq] at h; obtain ⟨_, _, rfl⟩ := h
    rcases hh with ⟨hh, _⟩ | hh
    · exact .inl hh
    · exact .inr (.inl hh)
  simp only at h hh
  generalize hy : Rgbd.setPoses (some T) live1 = y at h
  obtain ⟨_ | _, live2⟩ := y
  · simp only [Prod.mk.injEq] at h; obtain ⟨_, _, rfl⟩ := h
    have : live2 = live1 := by
      rcases setPoses_cases live1 T with h1 | h1
      · rw [h1, Prod.mk.injEq] at hy; exact hy.2.symm
      · rw [h1, Prod.mk.injEq] at hy; exact absurd hy.1 (by simp)
    subst this
    rcases hh with ⟨hh, _⟩ | hh
    · exact .inl hh
    · exact .inr (.inl hh)
  simp only at h
  right; right
  refine ⟨T, pc1, live1, rfl, ?_⟩
  have H : Held S live.cf (posed i T) (some T) live2 := by
    rcases hh with ⟨hh, _⟩ | ⟨_, _, P, _, _, _, hh⟩
    · exact hh.setPoses hy
    · exact hh.setPoses hy
  have H3 := mapStep_held (pc := pc1) H inplace
  generalize mapStep S pc1 live2 inplace = z at h H3
  obtain ⟨_ | _, pc2, live3⟩ := z
  · simp only [Prod.mk.injEq] at h; obtain ⟨_, _, rfl⟩ := h; exact H3
  · simp at h

/-- **C94** (the trap).  If localisation against a previous frame of the same batch size raises (for instance because the odometry provider
does), the live frame has been moved to the previous frame's poses: what it had is gone. -/
theorem raised_localisation_moves_frame {S : Sys α} {provide} (ho : S.odom = .prov provide) {pc pc1 : PC α} {live prev live1 : Rgbd.Obj α}
    {P : Rgbd.TM α} {e : Err} (hp : prev.poses = some P) (hB : P.d0 = live.B) (hL : P.d1 = live.L)
    (hl : localize S pc live (some prev) = (.error e, pc1, live1)) (inplace : Bool) :
    ∃ pc' live', step S pc live (some prev) inplace = (.error e, pc', live') ∧ live' = live1 ∧
      (∀ i, Rgbd.Rep S.nrm S.eps live i → live'.poses = some P ∧ Rgbd.Rep S.nrm S.eps live' (posed i P)) := by
  refine ⟨pc1, live1, step_error hl inplace, rfl, fun i hr => ?_⟩
  have H : Held S live.cf i live.poses live := ⟨hr, rfl, rfl⟩
  have hh := localize_held (pc := pc) H (some prev)
  rw [hl] at hh
  rcases hh with ⟨_, hh⟩ | ⟨_, p, P', _, hpp, hpP, hh⟩
  · exact absurd (by rw [hB, hL]) (hh provide prev P ho rfl hp)
  · cases hpp
    rw [hp] at hpP; cases hpP
    exact ⟨hh.poses, hh.rep⟩

/-! ### Going on after a step that raised -/

/-- The outcomes of two calls of `step` are the same to a user: the same error, or equal poses and maps that hold the same clouds. -/
def SameResult (x y : Except Err (PC α × Rgbd.TM α)) : Prop :=
  (∃ e, x = .error e ∧ y = .error e) ∨ (∃ m m' T a, x = .ok (m, T) ∧ y = .ok (m', T) ∧ Obs m a ∧ Obs m' a)

theorem placed_unique {S : Sys α} (hx : ∀ provide, S.odom = .prov provide → Ext provide) {i : Rgbd.In α} {live : Rgbd.Obj α}
    {prev : Option (Rgbd.Obj α)} (hp : PrevOk S i a prev) {r r' : Except Err (Rgbd.TM α)} (h : Placed S a i live prev r)
    (h' : Placed S a i live prev r') : r = r' := by
  rcases h with ⟨h1, rfl⟩ | ⟨pr, p, Q, P, m, f, o1, o2, o3, o4, o5, rfl⟩
  · rcases h' with ⟨_, rfl⟩ | ⟨pr, p, Q, P, m, f, o1, o2, _⟩
    · rfl
    · rcases h1 with h1 | h1
      · rw [h1] at o1; cases o1
      · rw [h1] at o2; cases o2
  · rcases h' with ⟨h1, _⟩ | ⟨pr', p', Q', P', m', f', q1, q2, q3, q4, q5, rfl⟩
    · rcases h1 with h1 | h1
      · rw [h1] at o1; cases o1
      · rw [h1] at o2; cases o2
    · rw [o1] at q1; cases q1
      rw [o2] at q2; cases q2
      rw [o3] at q3; cases q3
      rw [o4] at q4; cases q4
      rcases hp with hp | hp | ⟨p', ip, Q', e1, ok, _⟩
      · rw [hp] at o1; cases o1
      · rw [hp] at o2; cases o2
      · rw [o2] at e1; cases e1
        rw [question_unique (o5 ip ok) (q5 ip ok) (hx _ o1)]

/-- **C94** (going on).  After a step that raised, any later step gives what it would have given without the failed one: a frame that cannot
be used can be dropped. -/
theorem failed_step_can_be_skipped {S : Sys α} (hx : ∀ provide, S.odom = .prov provide → Ext provide)
    (hpv : ∀ provide, S.odom = .prov provide → ∀ maps fr ans c Q, Inv fr c → c .points = some Q → provide maps fr = .ok ans →
      ans.length = Q.length) (hds : S.odom.isGt = false → 0 < S.ds)
    {B : Nat} {pc pc' : PC α} (hm : MapOk S.mapper B pc a)
    -- the step that raised
    {bad bad' : Rgbd.Obj α} {ib : Rgbd.In α} {prevb : Option (Rgbd.Obj α)} {ipb : Bool} {e : Err}
    (hs : Safe S (a .points).isSome a bad ib) (h : step S pc bad prevb ipb = (.error e, pc', bad'))
    -- a later step
    {live : Rgbd.Obj α} {i : Rgbd.In α} {prev : Option (Rgbd.Obj α)} (hB : i.B = B) (hl : LiveOk S live i) (hp : PrevOk S i a prev)
    (hc : ∀ T, MapCond S (posed i T) a) (inplace : Bool) :
    MapOk S.mapper B pc' a ∧ SameResult (step S pc live prev inplace).1 (step S pc' live prev inplace).1 := by
  subst hB
  have k : Kept (a .points).isSome a pc := ⟨hm.inv, fun h0 => hm.lst (by
    intro h1; rw [h1] at h0; cases h0)⟩
  have k' := raised_step_keeps_map k hs h
  have hm' : MapOk S.mapper i.B pc' a := ⟨k'.inv, fun h0 => k'.lst (by
    cases h1 : a .points with
    | none => exact absurd h1 h0
    | some _ => rfl), hm.shape⟩
  refine ⟨hm', ?_⟩
  obtain ⟨r, hr, hre, hrt⟩ := step_any hm hl hp hc hds hpv
  obtain ⟨r', hr', hre', hrt'⟩ := step_any hm' hl hp hc hds hpv
  obtain rfl := placed_unique hx hp hr hr'
  cases r with
  | error e =>
    obtain ⟨_, _, e1, _⟩ := hre e rfl inplace
    obtain ⟨_, _, e2, _⟩ := hre' e rfl inplace
    exact .inl ⟨e, by rw [e1], by rw [e2]⟩
  | ok T =>
    obtain ⟨_, _, a1, c1, _, s1⟩ := hrt T rfl
    obtain ⟨_, _, a2, c2, _, s2⟩ := hrt' T rfl
    obtain rfl := change_unique c1 c2
    obtain ⟨m1, _, _, e1, ok1, _⟩ := s1 inplace
    obtain ⟨m2, _, _, e2, ok2, _⟩ := s2 inplace
    exact .inr ⟨m1, m2, T, a1, by rw [e1], by rw [e2], inv_obs ok1.inv, inv_obs ok2.inv⟩
end
end Verif.Slam
