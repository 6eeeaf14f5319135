import Verif.Slam.Final
/-!
Two runs over corresponding sequences: batch element `k` of the second sequence shows what element `σ k` of the first shows, from poses
moved by a rigid transform `G k` of the world.  Then poses and map of the second run are those of the first, moved.  With `G = 1` this is
C65 (batch elements do not influence each other), with `σ = id` it is C66 (the choice of the world frame does not matter).
-/
namespace Verif.Slam
open Verif Pcs
set_option linter.unusedSectionVars false
set_option linter.unusedSimpArgs false

section
variable {α : Type*} [Field α] [LinearOrder α] [IsStrictOrderedRing α] [FloorRing α]

/-- A point moved by a transform of the world. -/
def movePt (g : M4 α) (p : V3 α) : V3 α := (g.R.mulVec p).add g.t

/-- A row of an attribute after a transform of the world: points are moved, normals rotated, colours and features kept. -/
def act (g : M4 α) : Attr → List α → List α
  | .points, r => (movePt g (Fusion.toV3 r)).toList
  | .normals, r => (g.R.mulVec (Fusion.toV3 r)).toList
  | .colors, r => r
  | .features, r => r

/-- The pose of a camera after a transform of the world (the first three rows of `g · T`). -/
structure PoseMoved (g T U : M4 α) : Prop where
  R : U.R = g.R.mul T.R
  t : U.t = movePt g T.t
  b : U.b = T.b
  s : U.s = T.s

/-- Cloud `k` of `c` is cloud `σ k` of `a` moved by `G k`, for all attributes. -/
structure Moved (n : Nat) (σ : Nat → Nat) (G : Nat → M4 α) (a c : Clouds α) : Prop where
  attr : ∀ X, c X = none ↔ a X = none
  len : ∀ X m, c X = some m → m.length = n
  row : ∀ X l m, a X = some l → c X = some m → ∀ k < n, ∀ j, Fusion.rowAt m k j = (Fusion.rowAt l (σ k) j).map (act (G k) X)

/-- Frame `k` of `j` shows what frame `σ k` of `i` shows. -/
structure SameScene (n : Nat) (σ : Nat → Nat) (i j : Rgbd.In α) : Prop where
  B : j.B = n
  sub : ∀ k < n, σ k < i.B
  H : j.H = i.H
  W : j.W = i.W
  rgb : ∀ k < n, j.rgb k 0 = i.rgb (σ k) 0
  depth : ∀ k < n, j.depth k 0 = i.depth (σ k) 0
  K : ∀ k < n, j.K k = i.K (σ k)
  pix : ∀ k < n, j.pix k 0 = i.pix (σ k) 0

/-! ### Vectors -/

theorem toV3_toList (v : V3 α) : Fusion.toV3 v.toList = v := rfl

theorem movePt_sub (g : M4 α) (p q : V3 α) : (movePt g p).sub (movePt g q) = g.R.mulVec (p.sub q) := by
  ext <;> simp [movePt, M3.mulVec, V3.dot, V3.add, V3.sub] <;> ring

theorem movePt_one (p : V3 α) : movePt M4.one p = p := by
  ext <;> simp [movePt, M4.one, M3.one, M3.mulVec, V3.dot, V3.add, V3.zero]

theorem mulVec_zero (A : M3 α) : A.mulVec V3.zero = V3.zero := by
  ext <;> simp [M3.mulVec, V3.dot, V3.zero]

theorem movePt_wAvg (g : M4 α) {c w : α} (h : c + w ≠ 0) (p q : V3 α) :
    Fusion.wAvg c w (movePt g p) (movePt g q) = movePt g (Fusion.wAvg c w p q) := by
  ext <;> simp only [Fusion.wAvg, movePt, M3.mulVec, V3.dot, V3.add, V3.smul] <;> field_simp <;> ring

theorem mulVec_wAvg (A : M3 α) (c w : α) (p q : V3 α) : Fusion.wAvg c w (A.mulVec p) (A.mulVec q) = A.mulVec (Fusion.wAvg c w p q) := by
  ext <;> simp only [Fusion.wAvg, M3.mulVec, V3.dot, V3.add, V3.smul] <;> ring

/-- The camera sees the same: coordinates in the camera frame do not change. -/
theorem toCamera_moved {g T U : M4 α} (hg : g.Rigid) (h : PoseMoved g T U) (p : V3 α) :
    Fusion.toCamera U (movePt g p) = Fusion.toCamera T p := by
  rw [Fusion.toCamera, h.t, movePt_sub, h.R, M3.transpose_mul, M3.mul_mulVec, ← M3.mul_mulVec g.R.transpose, hg.2.2, M3.one_mulVec]
  rfl

theorem normSq_moved {g : M4 α} (hg : g.Rigid) (p q : V3 α) : ((movePt g p).sub (movePt g q)).normSq = (p.sub q).normSq := by
  rw [movePt_sub, V3.normSq, M3.dot_orthogonal hg.2.2]; rfl

/-! ### Images -/

variable {n : Nat} {σ : Nat → Nat} {G : Nat → M4 α} {i j : Rgbd.In α}

theorem vertex_same (h : SameScene n σ i j) (eps : α) {k : Nat} (hk : k < n) (y x : Nat) :
    Rgbd.vertexAt eps j k 0 y x = Rgbd.vertexAt eps i (σ k) 0 y x := by
  simp only [Rgbd.vertexAt, h.depth k hk, h.K k hk, h.pix k hk]

theorem normal_same (h : SameScene n σ i j) (nrm : V3 α → α) (eps : α) {k : Nat} (hk : k < n) (y x : Nat) :
    Rgbd.normalAt nrm eps j k 0 y x = Rgbd.normalAt nrm eps i (σ k) 0 y x := by
  simp only [Rgbd.normalAt, Rgbd.tanW, Rgbd.tanH, h.depth k hk, h.H, h.W, vertex_same h eps hk]

theorem gvertex_moved (h : SameScene n σ i j) (eps : α) {T U : Nat → Nat → M4 α} (hT : i.poses = some T) (hU : j.poses = some U) {k : Nat}
    (hk : k < n) (hp : PoseMoved (G k) (T (σ k) 0) (U k 0)) {y x : Nat} (hd : 0 < i.depth (σ k) 0 y x ∨ G k = M4.one) :
    Rgbd.gvertexAt eps j k 0 y x = movePt (G k) (Rgbd.gvertexAt eps i (σ k) 0 y x) := by
  simp only [Rgbd.gvertexAt, hT, hU, h.depth k hk, vertex_same h eps hk]
  split_ifs with hd'
  · rw [hp.R, hp.t, M3.mul_mulVec]
    ext <;> simp [movePt, M3.mulVec, V3.dot, V3.add] <;> ring
  · rw [hd.resolve_left hd', movePt_one]

theorem gnormal_moved (h : SameScene n σ i j) (nrm : V3 α → α) (eps : α) {T U : Nat → Nat → M4 α} (hT : i.poses = some T) (hU : j.poses = some U)
    {k : Nat} (hk : k < n) (hp : PoseMoved (G k) (T (σ k) 0) (U k 0)) (y x : Nat) :
    Rgbd.gnormalAt nrm eps j k 0 y x = (G k).R.mulVec (Rgbd.gnormalAt nrm eps i (σ k) 0 y x) := by
  simp only [Rgbd.gnormalAt, hT, hU, normal_same h nrm eps hk, hp.R, M3.mul_mulVec]

/-! ### Clouds -/

theorem moved_points {a c : Clouds α} (h : Moved n σ G a c) {l m : List (T2 α)} (hl : a .points = some l) (hm : c .points = some m) {k : Nat}
    (hk : k < n) (x : Nat) : Fusion.vecAt m k x = (Fusion.vecAt l (σ k) x).map (movePt (G k)) := by
  rw [Fusion.vecAt, h.row .points l m hl hm k hk, Fusion.vecAt]
  cases Fusion.rowAt l (σ k) x <;> simp [act, toV3_toList]

theorem moved_normals {a c : Clouds α} (h : Moved n σ G a c) {l m : List (T2 α)} (hl : a .normals = some l) (hm : c .normals = some m) {k : Nat}
    (hk : k < n) (x : Nat) : Fusion.vecAt m k x = (Fusion.vecAt l (σ k) x).map (G k).R.mulVec := by
  rw [Fusion.vecAt, h.row .normals l m hl hm k hk, Fusion.vecAt]
  cases Fusion.rowAt l (σ k) x <;> simp [act, toV3_toList]

theorem moved_colors {a c : Clouds α} (h : Moved n σ G a c) {l m : List (T2 α)} (hl : a .colors = some l) (hm : c .colors = some m) {k : Nat}
    (hk : k < n) (x : Nat) : Fusion.vecAt m k x = Fusion.vecAt l (σ k) x := by
  rw [Fusion.vecAt, h.row .colors l m hl hm k hk, Fusion.vecAt]
  cases Fusion.rowAt l (σ k) x <;> simp [act]

theorem moved_conf {a c : Clouds α} (h : Moved n σ G a c) {l m : List (T2 α)} (hl : a .features = some l) (hm : c .features = some m) {k : Nat}
    (hk : k < n) (x : Nat) : Fusion.conf m k x = Fusion.conf l (σ k) x := by
  rw [Fusion.conf, h.row .features l m hl hm k hk, Fusion.conf]
  cases Fusion.rowAt l (σ k) x <;> simp [act]

theorem moved_size {a c : Clouds α} (h : Moved n σ G a c) {X : Attr} {l m : List (T2 α)} (hl : a X = some l) (hm : c X = some m) {k : Nat}
    (hk : k < n) : Fusion.sizeAt m k = Fusion.sizeAt l (σ k) := by
  refine eq_of_forall_lt_iff fun x => ?_
  rw [← Fusion.sizeAt_isSome, ← Fusion.sizeAt_isSome, h.row X l m hl hm k hk, Option.isSome_map]

theorem moved_empty : Moved n σ G (emptyClouds : Clouds α) emptyClouds := by
  refine ⟨fun _ => Iff.rfl, fun X m h => ?_, fun X l m h => ?_⟩ <;> simp [emptyClouds] at h

/-! ### New points -/

/-- The image of an attribute, before and after. -/
theorem img_moved (h : SameScene n σ i j) (S : Sys α) {T U : Nat → Nat → M4 α} (hT : i.poses = some T) (hU : j.poses = some U)
    {k : Nat} (hk : k < n) (hp : PoseMoved (G k) (T (σ k) 0) (U k 0)) {y x : Nat} (hd : 0 < i.depth (σ k) 0 y x ∨ G k = M4.one) :
    ((view S j).gv k 0 y x).toList = act (G k) .points ((view S i).gv (σ k) 0 y x).toList ∧
    ((view S j).gn k 0 y x).toList = act (G k) .normals ((view S i).gn (σ k) 0 y x).toList ∧
    ((view S j).rgb k 0 y x).toList = act (G k) .colors ((view S i).rgb (σ k) 0 y x).toList ∧
    [S.al ((view S j).v k 0 y x)] = act (G k) .features [S.al ((view S i).v (σ k) 0 y x)] := by
  refine ⟨?_, ?_, ?_, ?_⟩
  · rw [act, toV3_toList]; exact congrArg V3.toList (gvertex_moved h S.eps hT hU hk hp hd)
  · rw [act, toV3_toList]; exact congrArg V3.toList (gnormal_moved h S.nrm S.eps hT hU hk hp y x)
  · show (j.rgb k 0 y x).toList = _; rw [h.rgb k hk]; rfl
  · show [S.al (Rgbd.vertexAt S.eps j k 0 y x)] = _; rw [vertex_same h S.eps hk]; rfl

theorem rowAt_range (B : Nat) (f : Nat → T2 α) {b : Nat} (hb : b < B) (x : Nat) : Fusion.rowAt ((List.range B).map f) b x = (f b).rows[x]? := by
  simp [Fusion.rowAt, hb]

/-- The pixels of two corresponding masks, attribute by attribute. -/
theorem picked_moved {fr fr' : Fusion.Frame α} (hB : fr'.B = n) (hsub : ∀ k < n, σ k < fr.B) (hL : fr.L = 1) (hL' : fr'.L = 1) (hH : fr'.H = fr.H)
    (hW : fr'.W = fr.W) {m m' : Nat → Nat → Nat → Nat → Bool} (hm : ∀ k < n, ∀ y x, m' k 0 y x = m (σ k) 0 y x) {C : Nat}
    {f f' : Nat → Nat → Nat → Nat → List α} {X : Attr} (hf : ∀ k < n, ∀ y x, m (σ k) 0 y x = true → f' k 0 y x = act (G k) X (f (σ k) 0 y x)) :
    ∀ k < n, ∀ q, Fusion.rowAt ((List.range fr'.B).map fun b => (⟨(Fusion.pixels fr'.L fr'.H fr'.W (m' b)).map fun x => f' b x.1 x.2.1 x.2.2, C⟩ : T2 α)) k q =
      (Fusion.rowAt ((List.range fr.B).map fun b => (⟨(Fusion.pixels fr.L fr.H fr.W (m b)).map fun x => f b x.1 x.2.1 x.2.2, C⟩ : T2 α)) (σ k) q).map (act (G k) X) := by
  intro k hk q
  rw [rowAt_range _ _ (by omega), rowAt_range _ _ (hsub k hk), hL, hL', hH, hW]
  have e : Fusion.pixels 1 fr.H fr.W (m' k) = Fusion.pixels 1 fr.H fr.W (m (σ k)) := by
    rw [pixels_one, pixels_one]
    congr 1
    refine List.filter_congr fun x _ => ?_
    rw [hm k hk]
  rw [e]
  simp only [List.getElem?_map, Option.map_map]
  cases hx : (Fusion.pixels 1 fr.H fr.W (m (σ k)))[q]? with
  | none => rfl
  | some x =>
    have hx' := ((Fusion.pixels_spec 1 fr.H fr.W (m (σ k))).1 x.1 x.2.1 x.2.2).1 (List.mem_of_getElem? hx)
    have h0 : x.1 = 0 := by omega
    simp only [Option.map_some, Function.comp, Option.some.injEq]
    rw [h0] at hx' ⊢
    exact hf k hk _ _ hx'.2.2.2

theorem valid_same (h : SameScene n σ i j) (S : Sys α) {k : Nat} (hk : k < n) (y x : Nat) : (view S j).valid k 0 y x = (view S i).valid (σ k) 0 y x := by
  show decide (0 < j.depth k 0 y x) = decide (0 < i.depth (σ k) 0 y x)
  rw [h.depth k hk]

/-- The points a frame adds through corresponding masks of valid pixels. -/
theorem newArg_moved (h : SameScene n σ i j) (S : Sys α) (hLi : i.L = 1) (hLj : j.L = 1) {T U : Nat → Nat → M4 α} (hT : i.poses = some T)
    (hU : j.poses = some U) (hp : ∀ k < n, PoseMoved (G k) (T (σ k) 0) (U k 0)) :
    Moved n σ G (Fusion.newArg S.al (view S i) (view S i).valid) (Fusion.newArg S.al (view S j) (view S j).valid) := by
  have hd : ∀ {k y x}, (view S i).valid (σ k) 0 y x = true → 0 < i.depth (σ k) 0 y x ∨ G k = M4.one := fun hv => .inl (by simpa [view, Fusion.Frame.ofIn] using hv)
  refine ⟨fun X => by cases X <;> simp [Fusion.newArg], fun X m hm => ?_, fun X l m hl hm => ?_⟩
  · cases X <;> simp only [Fusion.newArg, Option.some.injEq] at hm <;> subst hm
    · rw [Fusion.picked_length]; exact h.B
    · rw [Fusion.picked_length]; exact h.B
    · rw [Fusion.picked_length]; exact h.B
    · simp only [Fusion.pickedAl, List.length_map, List.length_range]; exact h.B
  · cases X <;> simp only [Fusion.newArg, Option.some.injEq] at hl hm <;> subst hl <;> subst hm
    · exact picked_moved (fr := view S i) (fr' := view S j) (f := fun b l y x => ((view S i).gv b l y x).toList)
        (f' := fun b l y x => ((view S j).gv b l y x).toList) h.B h.sub hLi hLj h.H h.W (fun k hk y x => valid_same h S hk y x)
        fun k hk y x hv => (img_moved h S hT hU hk (hp k hk) (hd hv)).1
    · exact picked_moved (fr := view S i) (fr' := view S j) (f := fun b l y x => ((view S i).gn b l y x).toList)
        (f' := fun b l y x => ((view S j).gn b l y x).toList) h.B h.sub hLi hLj h.H h.W (fun k hk y x => valid_same h S hk y x)
        fun k hk y x hv => (img_moved h S hT hU hk (hp k hk) (hd hv)).2.1
    · exact picked_moved (fr := view S i) (fr' := view S j) (f := fun b l y x => ((view S i).rgb b l y x).toList)
        (f' := fun b l y x => ((view S j).rgb b l y x).toList) h.B h.sub hLi hLj h.H h.W (fun k hk y x => valid_same h S hk y x)
        fun k hk y x hv => (img_moved h S hT hU hk (hp k hk) (hd hv)).2.2.1
    · exact picked_moved (fr := view S i) (fr' := view S j) (f := fun b l y x => [S.al ((view S i).v b l y x)])
        (f' := fun b l y x => [S.al ((view S j).v b l y x)]) h.B h.sub hLi hLj h.H h.W (fun k hk y x => valid_same h S hk y x)
        fun k hk y x hv => (img_moved h S hT hU hk (hp k hk) (hd hv)).2.2.2

theorem addition_moved (h : SameScene n σ i j) (S : Sys α) (hLi : i.L = 1) (hLj : j.L = 1) {T U : Nat → Nat → M4 α} (hT : i.poses = some T)
    (hU : j.poses = some U) (hp : ∀ k < n, PoseMoved (G k) (T (σ k) 0) (U k 0)) :
    Moved n σ G (addition S i) (addition S j) := by
  have hm := newArg_moved h S hLi hLj hT hU hp
  have e : ∀ (x : Rgbd.In α) X, X ≠ .features → addition S x X = Fusion.newArg S.al (view S x) (view S x).valid X := by
    intro x X hX; cases X <;> first | rfl | exact absurd rfl hX
  refine ⟨fun X => by cases X <;> simp [Fusion.frameArg], fun X m hm' => ?_, fun X l m hl hm' => ?_⟩
  · by_cases hX : X = .features
    · subst hX; cases hm'
    · rw [e j X hX] at hm'; exact hm.len X m hm'
  · by_cases hX : X = .features
    · subst hX; cases hm'
    · rw [e i X hX] at hl; rw [e j X hX] at hm'; exact hm.row X l m hl hm'

theorem append_moved {a c x y : Clouds α} (h : Moved n σ G a c) (hx : Moved n σ G x y) {P : List (T2 α)} (hP : a .points = some P)
    (hla : ∀ X l m, a X = some l → x X = some m → l.length = m.length) : Moved n σ G (Fusion.specGrow a x) (Fusion.specGrow c y) := by
  have hc : c .points ≠ none := fun hc => by rw [(h.attr .points).1 hc] at hP; cases hP
  have ha : a .points ≠ none := by simp [hP]
  simp only [Fusion.specGrow, ha, hc, if_false]
  have both : ∀ X, (∃ l m l' m', a X = some l ∧ x X = some m ∧ c X = some l' ∧ y X = some m') ∨
      (specAppend a x X = none ∧ specAppend c y X = none) := by
    intro X
    cases h1 : a X with
    | none => exact .inr ⟨by simp [specAppend, h1], by simp [specAppend, (h.attr X).2 h1]⟩
    | some l =>
      cases h2 : x X with
      | none => exact .inr ⟨by simp [specAppend, h1, h2], by
          have := (hx.attr X).2 h2
          cases h3 : c X <;> simp [specAppend, this, h3]⟩
      | some m =>
        obtain ⟨l', hl'⟩ := Option.ne_none_iff_exists'.1 (fun hc => absurd ((h.attr X).1 hc) (by simp [h1]) : c X ≠ none)
        obtain ⟨m', hm'⟩ := Option.ne_none_iff_exists'.1 (fun hc => absurd ((hx.attr X).1 hc) (by simp [h2]) : y X ≠ none)
        exact .inl ⟨l, m, l', m', rfl, rfl, hl', hm'⟩
  refine ⟨fun X => ?_, fun X q hq => ?_, fun X q q' hq hq' => ?_⟩
  · rcases both X with ⟨l, m, l', m', h1, h2, h3, h4⟩ | ⟨h1, h2⟩
    · rw [specAppend_some h1 h2, specAppend_some h3 h4]; simp
    · simp [h1, h2]
  · rcases both X with ⟨l, m, l', m', h1, h2, h3, h4⟩ | ⟨h1, h2⟩
    · rw [specAppend_some h3 h4] at hq
      cases hq
      rw [catL_length ((h.len X _ h3).trans (hx.len X _ h4).symm)]
      exact h.len X _ h3
    · rw [h2] at hq; cases hq
  · rcases both X with ⟨l, m, l', m', h1, h2, h3, h4⟩ | ⟨h1, h2⟩
    · rw [specAppend_some h1 h2] at hq; rw [specAppend_some h3 h4] at hq'
      cases hq; cases hq'
      intro k hk r
      rw [Fusion.rowAt_catL (hla X l m h1 h2), Fusion.rowAt_catL ((h.len X _ h3).trans (hx.len X _ h4).symm), moved_size h h1 h3 hk]
      split_ifs with hr
      · exact h.row X l l' h1 h3 k hk r
      · exact hx.row X m m' h2 h4 k hk _
    · rw [h1] at hq; cases hq

/-! ### The fusion update -/

/-- A row of the second table as a row of the first. -/
def lift (σ : Nat → Nat) (r : Fusion.Row) : Fusion.Row := { r with b := σ r.b }

/-- What `fusion_moved` is about. -/
structure Pair (S : Sys α) (n : Nat) (σ : Nat → Nat) (G : Nat → M4 α) (t : α) (i j : Rgbd.In α) (T U : Nat → Nat → M4 α) (a c : Clouds α) : Prop where
  scene : SameScene n σ i j
  hT : i.poses = some T
  hU : j.poses = some U
  pose : ∀ k < n, PoseMoved (G k) (T (σ k) 0) (U k 0)
  rigid : ∀ k < n, (G k).Rigid
  norm : ∀ k < n, ∀ v, S.nrm ((G k).R.mulVec v) = S.nrm v
  thr : 0 ≤ t ∨ ∀ k < n, G k = M4.one
  map : Moved n σ G a c

variable {S : Sys α} {d t : α} {T U : Nat → Nat → M4 α} {a a' c c' : Clouds α} {P P' Q Q' Nn Nm F E : List (T2 α)} {rows rows2 : List Fusion.Row}

theorem cand_iff (h : Pair S n σ G t i j T U a c) (hP : a .points = some P) (hQ : c .points = some Q) (hN : a .normals = some Nn)
    (hM : c .normals = some Nm) {r : Fusion.Row} (hr : r.b < n) :
    Fusion.Candidate S.nrm Q Nm (view S j) U d t r ↔ Fusion.Candidate S.nrm P Nn (view S i) T d t (lift σ r) := by
  have eH : (view S j).H = (view S i).H := h.scene.H
  have eW : (view S j).W = (view S i).W := h.scene.W
  have eK : (view S j).K r.b = (view S i).K (σ r.b) := h.scene.K _ hr
  have hpt := moved_points h.map hP hQ hr r.n
  have hnt := moved_normals h.map hN hM hr r.n
  have en : ∀ m, ((view S j).gn r.b 0 r.h r.w).dot ((G r.b).R.mulVec m) = ((view S i).gn (σ r.b) 0 r.h r.w).dot m := by
    intro m
    have := gnormal_moved h.scene S.nrm S.eps h.hT h.hU hr (h.pose _ hr) r.h r.w
    show (Rgbd.gnormalAt S.nrm S.eps j r.b 0 r.h r.w).dot _ = _
    rw [this, M3.dot_orthogonal (h.rigid _ hr).2.2]; rfl
  have ev : (0 < i.depth (σ r.b) 0 r.h r.w ∨ G r.b = M4.one) → ∀ p, S.nrm (((view S j).gv r.b 0 r.h r.w).sub (movePt (G r.b) p)) =
      S.nrm (((view S i).gv (σ r.b) 0 r.h r.w).sub p) := by
    intro hd p
    have := gvertex_moved h.scene S.eps h.hT h.hU hr (h.pose _ hr) hd
    show S.nrm ((Rgbd.gvertexAt S.eps j r.b 0 r.h r.w).sub _) = _
    rw [this, movePt_sub, h.norm _ hr]; rfl
  have hcam : ∀ p, Fusion.toCamera (U r.b 0) (movePt (G r.b) p) = Fusion.toCamera (T (σ r.b) 0) p := toCamera_moved (h.rigid _ hr) (h.pose _ hr)
  constructor
  · intro hc
    have hd : 0 < i.depth (σ r.b) 0 r.h r.w ∨ G r.b = M4.one := by
      rcases h.thr with ht | ht
      · left
        have := Fusion.candidate_valid (Fusion.ofIn_zeroNormals S.nrm S.eps j) ht hc
        have h2 := valid_same h.scene S hr r.h r.w
        have h3 : (view S i).valid (σ r.b) 0 r.h r.w = true := h2 ▸ this
        simpa [view, Fusion.Frame.ofIn] using h3
      · exact .inr (ht _ hr)
    refine ⟨by rw [← eH, ← eW]; exact hc.pix, ?_, ?_⟩
    · obtain ⟨p, h1, h2⟩ := hc.visible
      rw [hpt, Option.map_eq_some_iff] at h1
      obtain ⟨q, hq, rfl⟩ := h1
      rw [hcam, eH, eW, eK] at h2
      exact ⟨q, hq, h2⟩
    · obtain ⟨p, m, h1, h2, h3, h4⟩ := hc.similar
      rw [hpt, Option.map_eq_some_iff] at h1
      rw [hnt, Option.map_eq_some_iff] at h2
      obtain ⟨q, hq, rfl⟩ := h1
      obtain ⟨m', hm', rfl⟩ := h2
      rw [ev hd] at h3
      rw [en] at h4
      exact ⟨q, m', hq, hm', h3, h4⟩
  · intro hc
    have hd : 0 < i.depth (σ r.b) 0 r.h r.w ∨ G r.b = M4.one := by
      rcases h.thr with ht | ht
      · left
        have h3 : (view S i).valid (σ r.b) 0 r.h r.w = true := Fusion.candidate_valid (Fusion.ofIn_zeroNormals S.nrm S.eps i) ht hc
        simpa [view, Fusion.Frame.ofIn] using h3
      · exact .inr (ht _ hr)
    refine ⟨by rw [eH, eW]; exact hc.pix, ?_, ?_⟩
    · obtain ⟨p, h1, h2⟩ := hc.visible
      have h1' : Fusion.vecAt P (σ r.b) r.n = some p := h1
      refine ⟨movePt (G r.b) p, by rw [hpt, h1']; rfl, ?_⟩
      rw [hcam, eH, eW, eK]; exact h2
    · obtain ⟨p, m, h1, h2, h3, h4⟩ := hc.similar
      have h1' : Fusion.vecAt P (σ r.b) r.n = some p := h1
      have h2' : Fusion.vecAt Nn (σ r.b) r.n = some m := h2
      refine ⟨movePt (G r.b) p, (G r.b).R.mulVec m, by rw [hpt, h1']; rfl, by rw [hnt, h2']; rfl, ?_, ?_⟩
      · rw [ev hd]; exact h3
      · rw [en]; exact h4

theorem cand_valid (h : Pair S n σ G t i j T U a c) {r : Fusion.Row} (hr : r.b < n)
    (hc : Fusion.Candidate S.nrm P Nn (view S i) T d t (lift σ r)) : 0 < i.depth (σ r.b) 0 r.h r.w ∨ G r.b = M4.one := by
  rcases h.thr with ht | ht
  · left
    have h3 : (view S i).valid (σ r.b) 0 r.h r.w = true := Fusion.candidate_valid (Fusion.ofIn_zeroNormals S.nrm S.eps i) ht hc
    simpa [view, Fusion.Frame.ofIn] using h3
  · exact .inr (ht _ hr)

theorem dist_moved (h : Pair S n σ G t i j T U a c) (hP : a .points = some P) (hQ : c .points = some Q) {r : Fusion.Row} (hr : r.b < n)
    (hc : Fusion.Candidate S.nrm P Nn (view S i) T d t (lift σ r)) : Fusion.rayDist Q (view S j) r = Fusion.rayDist P (view S i) (lift σ r) := by
  have hd := cand_valid h hr hc
  obtain ⟨p, h1, _⟩ := hc.visible
  have h1' : Fusion.vecAt P (σ r.b) r.n = some p := h1
  have hpt := moved_points h.map hP hQ hr r.n
  have hv : (view S j).gv r.b 0 r.h r.w = movePt (G r.b) ((view S i).gv (σ r.b) 0 r.h r.w) :=
    gvertex_moved h.scene S.eps h.hT h.hU hr (h.pose _ hr) hd
  have e2 : Fusion.vecAt P (lift σ r).b (lift σ r).n = some p := h1
  rw [Fusion.rayDist, Fusion.rayDist, hpt, h1', e2, hv]
  exact normSq_moved (h.rigid _ hr) _ _

theorem pref_iff (h : Pair S n σ G t i j T U a c) (hP : a .points = some P) (hQ : c .points = some Q) (hF : a .features = some F)
    (hE : c .features = some E) {r s : Fusion.Row} (hr : r.b < n) (hs : s.b < n)
    (hcr : Fusion.Candidate S.nrm P Nn (view S i) T d t (lift σ r)) (hcs : Fusion.Candidate S.nrm P Nn (view S i) T d t (lift σ s)) :
    Fusion.Preferred Q E (view S j) s r ↔ Fusion.Preferred P F (view S i) (lift σ s) (lift σ r) := by
  unfold Fusion.Preferred
  rw [dist_moved h hP hQ hr hcr, dist_moved h hP hQ hs hcs, moved_conf h.map hF hE hr, moved_conf h.map hF hE hs]
  exact Iff.rfl

theorem preferred_antisymm {fr : Fusion.Frame α} {r s : Fusion.Row} (h : Fusion.Preferred P F fr s r) (h' : Fusion.Preferred P F fr r s) : s.n = r.n := by
  unfold Fusion.Preferred at h h'
  rcases h with p | ⟨p1, p | ⟨p2, p3⟩⟩ <;> rcases h' with q | ⟨q1, q | ⟨q2, q3⟩⟩
  · exact absurd p (lt_asymm q)
  · exact absurd p (by rw [q1]; exact lt_irrefl _)
  · exact absurd p (by rw [q1]; exact lt_irrefl _)
  · exact absurd q (by rw [p1]; exact lt_irrefl _)
  · exact absurd p (lt_asymm q)
  · exact absurd p (by rw [q2]; exact lt_irrefl _)
  · exact absurd q (by rw [p1]; exact lt_irrefl _)
  · exact absurd q (by rw [p2]; exact lt_irrefl _)
  · omega

theorem step_attrs (f : FusionStep S d t i T a a' P P' rows) : (∃ Nn, a .normals = some Nn) ∧ (∃ C, a .colors = some C) ∧ ∃ F, a .features = some F := by
  obtain ⟨_, l, _, _, hl, _⟩ := f.merged .normals (Rgbd.gnormalAt S.nrm S.eps i) (by simp)
  obtain ⟨_, l', _, _, hl', _⟩ := f.merged .colors i.rgb (by simp)
  obtain ⟨F, _, hF, _⟩ := f.conf
  exact ⟨⟨l, hl⟩, ⟨l', hl'⟩, ⟨F, hF⟩⟩

/-- The two tables of merged pixels correspond. -/
theorem rows_iff (h : Pair S n σ G t i j T U a c) (f : FusionStep S d t i T a a' P P' rows) (f2 : FusionStep S d t j U c c' Q Q' rows2)
    {r : Fusion.Row} (hr : r.b < n) : r ∈ rows2 ↔ lift σ r ∈ rows := by
  obtain ⟨⟨Nn, hN⟩, _, ⟨F, hF⟩⟩ := step_attrs f
  obtain ⟨⟨Nm, hM⟩, _, ⟨E, hE⟩⟩ := step_attrs f2
  constructor
  · intro hm
    have hc := f2.cand Nm hM r hm
    have hc1 := (cand_iff h f.old f2.old hN hM hr).1 hc
    obtain ⟨s, hs, e, p⟩ := f.best Nn F hN hF _ hc1
    have es : s = lift σ { r with n := s.n } := Fusion.Row.ext e.1 rfl e.2.1 e.2.2
    have hcs : Fusion.Candidate S.nrm P Nn (view S i) T d t (lift σ { r with n := s.n }) := es ▸ f.cand Nn hN s hs
    have hc2 := (cand_iff h f.old f2.old hN hM (r := { r with n := s.n }) hr).2 hcs
    obtain ⟨r', hr', e', p'⟩ := f2.best Nm E hM hE _ hc2
    have : r' = r := same_pixel f2.pix hr' hm e'
    subst this
    rw [es] at p
    have p2 := (pref_iff h f.old f2.old hF hE (r := r') (s := { r' with n := s.n }) hr hr hc1 hcs).2 p
    have hn := preferred_antisymm p2 p'
    have : s = lift σ r' := Fusion.Row.ext e.1 hn e.2.1 e.2.2
    exact this ▸ hs
  · intro hm
    have hc1 := f.cand Nn hN _ hm
    have hc := (cand_iff h f.old f2.old hN hM hr).2 hc1
    obtain ⟨s, hs, e, p⟩ := f2.best Nm E hM hE _ hc
    have hsb : s.b < n := by rw [e.1]; exact hr
    have hcs := (cand_iff h f.old f2.old hN hM hsb).1 (f2.cand Nm hM s hs)
    obtain ⟨r', hr', e', p'⟩ := f.best Nn F hN hF _ hcs
    have : r' = lift σ r := same_pixel f.pix hr' hm
      ⟨e'.1.trans (by show σ s.b = σ r.b; rw [e.1]), e'.2.1.trans e.2.1, e'.2.2.trans e.2.2⟩
    subst this
    have p2 := (pref_iff h f.old f2.old hF hE hr hsb hc1 hcs).1 p
    have hn := preferred_antisymm p2 p'
    have : s = r := Fusion.Row.ext e.1 hn e.2.1 e.2.2
    exact this ▸ hs

theorem mask_same (h : Pair S n σ G t i j T U a c) (f : FusionStep S d t i T a a' P P' rows) (f2 : FusionStep S d t j U c c' Q Q' rows2)
    {k : Nat} (hk : k < n) (y x : Nat) : Fusion.newMask (view S j) rows2 k 0 y x = Fusion.newMask (view S i) rows (σ k) 0 y x := by
  rw [Bool.eq_iff_iff, Fusion.newMask_iff, Fusion.newMask_iff, valid_same h.scene S hk]
  refine and_congr_right fun _ => ⟨fun hn r hr he => ?_, fun hn r hr he => ?_⟩
  · obtain ⟨e1, e2, e3⟩ := he
    have : r = lift σ { r with b := k } := Fusion.Row.ext e1 rfl rfl rfl
    rw [this] at hr
    exact hn _ ((rows_iff h f f2 (r := { r with b := k }) hk).2 hr) ⟨rfl, e2, e3⟩
  · obtain ⟨e1, e2, e3⟩ := he
    exact hn _ ((rows_iff h f f2 (by rw [e1]; exact hk)).1 hr) ⟨by show σ r.b = _; rw [e1], e2, e3⟩

theorem pixels_same (h : Pair S n σ G t i j T U a c) (f : FusionStep S d t i T a a' P P' rows) (f2 : FusionStep S d t j U c c' Q Q' rows2)
    {k : Nat} (hk : k < n) : Fusion.pixels 1 j.H j.W (Fusion.newMask (view S j) rows2 k) = Fusion.pixels 1 i.H i.W (Fusion.newMask (view S i) rows (σ k)) := by
  rw [pixels_one, pixels_one, h.scene.H, h.scene.W]
  congr 1
  exact List.filter_congr fun x _ => mask_same h f f2 hk x.1 x.2

theorem new_pixel {rows : List Fusion.Row} {b : Nat} {x : Nat × Nat × Nat} (hx : x ∈ Fusion.pixels 1 i.H i.W (Fusion.newMask (view S i) rows b)) :
    x.1 = 0 ∧ 0 < i.depth b 0 x.2.1 x.2.2 := by
  obtain ⟨h1, _, _, h4⟩ := ((Fusion.pixels_spec 1 i.H i.W _).1 x.1 x.2.1 x.2.2).1 hx
  have h0 : x.1 = 0 := by omega
  rw [h0] at h4
  refine ⟨h0, ?_⟩
  have := ((Fusion.newMask_iff (view S i) rows b _ _).1 h4).1
  simpa [view, Fusion.Frame.ofIn] using this

/-- Three-channel attributes after the update. -/
theorem three_moved (h : Pair S n σ G t i j T U a c) (f : FusionStep S d t i T a a' P P' rows) (f2 : FusionStep S d t j U c c' Q Q' rows2)
    (hal : ∀ p, 0 < S.al p) (hpos : ∀ F, a .features = some F → ∀ b n, (Fusion.rowAt F b n).isSome → 0 < Fusion.conf F b n) {X : Attr}
    {img img2 : Nat → Nat → Nat → Nat → V3 α} {mv : Nat → V3 α → V3 α}
    (hX : (X, img) ∈ [(Attr.points, Rgbd.gvertexAt S.eps i), (.normals, Rgbd.gnormalAt S.nrm S.eps i), (.colors, i.rgb)])
    (hX2 : (X, img2) ∈ [(Attr.points, Rgbd.gvertexAt S.eps j), (.normals, Rgbd.gnormalAt S.nrm S.eps j), (.colors, j.rgb)])
    (hold : ∀ l m, a X = some l → c X = some m → ∀ k < n, ∀ x, Fusion.vecAt m k x = (Fusion.vecAt l (σ k) x).map (mv k))
    (himg : ∀ k < n, ∀ y x, (0 < i.depth (σ k) 0 y x ∨ G k = M4.one) → img2 k 0 y x = mv k (img (σ k) 0 y x))
    (hw : ∀ k (u v : α), u + v ≠ 0 → ∀ p q, Fusion.wAvg u v (mv k p) (mv k q) = mv k (Fusion.wAvg u v p q)) {l' m' : List (T2 α)}
    (hl' : a' X = some l') (hm' : c' X = some m') : ∀ k < n, ∀ x, Fusion.vecAt m' k x = (Fusion.vecAt l' (σ k) x).map (mv k) := by
  obtain ⟨⟨Nn, hN⟩, _, _⟩ := step_attrs f
  obtain ⟨F, l, l1, hF, hl, hl1, m1, k1, n1⟩ := f.merged X img hX
  obtain ⟨E, m, l2, hE, hm, hl2, m2, k2, n2⟩ := f2.merged X img2 hX2
  rw [hl1] at hl'; rw [hl2] at hm'; cases hl'; cases hm'
  intro k hk x
  have hsz : Fusion.sizeAt Q k = Fusion.sizeAt P (σ k) := moved_size h.map f.old f2.old hk
  by_cases hx : x < Fusion.sizeAt P (σ k)
  · have hs : (Fusion.rowAt l (σ k) x).isSome := by
      rw [Fusion.sizeAt_isSome, Fusion.sizeAt_sizes (f.oldWf.rows _ _ hl)]; exact hx
    have hsF : (Fusion.rowAt F (σ k) x).isSome := by
      rw [Fusion.sizeAt_isSome, Fusion.sizeAt_sizes (f.oldWf.rows _ _ hF)]; exact hx
    obtain ⟨row, hrow⟩ := Option.isSome_iff_exists.1 hs
    have hv : Fusion.vecAt l (σ k) x = some (Fusion.toV3 row) := by simp [Fusion.vecAt, hrow]
    have hv2 : Fusion.vecAt m k x = some (mv k (Fusion.toV3 row)) := by rw [hold l m hl hm k hk, hv]; rfl
    by_cases hex : ∃ r ∈ rows2, r.b = k ∧ r.n = x
    · obtain ⟨r, hr, rfl, rfl⟩ := hex
      have hr1 := (rows_iff h f f2 hk).1 hr
      have hc := f.cand Nn hN _ hr1
      have hd := cand_valid h hk hc
      have hpc := hpos F hF _ _ hsF
      have hp2 := hal (Rgbd.vertexAt S.eps i (σ r.b) 0 r.h r.w)
      have e1 : Fusion.vecAt l' (σ r.b) r.n = some (Fusion.wAvg (Fusion.conf F (σ r.b) r.n) (S.al (Rgbd.vertexAt S.eps i (σ r.b) 0 r.h r.w))
        (Fusion.toV3 row) (img (σ r.b) 0 r.h r.w)) := m1 _ hr1 _ hv
      rw [m2 r hr _ hv2, e1, moved_conf h.map hF hE hk, vertex_same h.scene S.eps hk, himg _ hk _ _ hd, hw]
      · rfl
      · exact (add_pos hpc hp2).ne'
    · rw [k2 k x _ hv2 fun r hr hh => hex ⟨r, hr, hh⟩, k1 (σ k) x _ hv fun r hr hh => ?_]
      · rfl
      · have e : r = lift σ { r with b := k } := Fusion.Row.ext hh.1 rfl rfl rfl
        rw [e] at hr
        exact hex ⟨_, (rows_iff h f f2 (r := { r with b := k }) hk).2 hr, rfl, hh.2⟩
  · obtain ⟨q, rfl⟩ := Nat.exists_eq_add_of_le (not_lt.1 hx)
    rw [n1 _ (h.scene.sub k hk), ← hsz, n2 k (by rw [h.scene.B]; exact hk), pixels_same h f f2 hk]
    cases hq : (Fusion.pixels 1 i.H i.W (Fusion.newMask (view S i) rows (σ k)))[q]? with
    | none => rfl
    | some z =>
      obtain ⟨z0, hz⟩ := new_pixel (List.mem_of_getElem? hq)
      simp only [Option.map_some, Option.some.injEq]
      rw [z0]
      exact himg k hk _ _ (.inl hz)

theorem row_vec {r : List α} (h : r.length = 3) : (Fusion.toV3 r).toList = r := by
  match r, h with
  | [x, y, z], _ => rfl

/-- The map after the update is moved like the map before it. -/
theorem fusion_moved (h : Pair S n σ G t i j T U a c) (f : FusionStep S d t i T a a' P P' rows) (f2 : FusionStep S d t j U c c' Q Q' rows2)
    (hal : ∀ p, 0 < S.al p) (hpos : ∀ F, a .features = some F → ∀ b n, (Fusion.rowAt F b n).isSome → 0 < Fusion.conf F b n) :
    Moved n σ G a' c' := by
  have e3 : ∀ {z z' : Clouds α} {x : Rgbd.In α} {V W W' rr X l}, FusionStep S d t x V z z' W W' rr → X ≠ .features → z' X = some l →
      ∀ b y r, Fusion.rowAt l b y = some r → r.length = 3 := by
    intro z z' x V W W' rr X l g hX hl b y r hr
    obtain ⟨C, hC, hC3⟩ := g.wf.cols X l hl
    rw [hC3 hX] at hC
    exact Fusion.valid_row (g.wf.valid X l hl) hC hr
  have some1 : ∀ {z z' : Clouds α} {x : Rgbd.In α} {V W W' rr}, FusionStep S d t x V z z' W W' rr → ∀ X, z' X ≠ none := by
    intro z z' x V W W' rr g X
    cases X with
    | points => rw [g.new]; simp
    | normals => obtain ⟨_, _, l, _, _, hl, _⟩ := g.merged .normals (Rgbd.gnormalAt S.nrm S.eps x) (by simp); rw [hl]; simp
    | colors => obtain ⟨_, _, l, _, _, hl, _⟩ := g.merged .colors x.rgb (by simp); rw [hl]; simp
    | features => obtain ⟨_, l, _, hl, _⟩ := g.conf; rw [hl]; simp
  refine ⟨fun X => ⟨fun hc => absurd hc (some1 f2 X), fun hc => absurd hc (some1 f X)⟩, fun X m hm => ?_, fun X l' m' hl' hm' => ?_⟩
  · rw [f2.wf.length hm, f2.batch, h.scene.B]
  -- from vectors to rows
  have up : X ≠ .features → ∀ mv : Nat → V3 α → V3 α, (∀ k < n, ∀ x, Fusion.vecAt m' k x = (Fusion.vecAt l' (σ k) x).map (mv k)) →
      (∀ k r, r.length = 3 → act (G k) X r = (mv k (Fusion.toV3 r)).toList) →
      ∀ k < n, ∀ x, Fusion.rowAt m' k x = (Fusion.rowAt l' (σ k) x).map (act (G k) X) := by
    intro hX mv hv hact k hk x
    have := hv k hk x
    simp only [Fusion.vecAt] at this
    cases h1 : Fusion.rowAt m' k x with
    | none =>
      cases h2 : Fusion.rowAt l' (σ k) x with
      | none => rfl
      | some y => rw [h1, h2] at this; cases this
    | some z =>
      cases h2 : Fusion.rowAt l' (σ k) x with
      | none => rw [h1, h2] at this; cases this
      | some y =>
        rw [h1, h2] at this
        simp only [Option.map_some, Option.some.injEq] at this ⊢
        rw [hact k y (e3 f hX hl' _ _ _ h2), ← this, row_vec (e3 f2 hX hm' _ _ _ h1)]
  cases X with
  | points =>
    refine up (by simp) (fun k => movePt (G k)) ?_ (fun _ _ _ => rfl)
    exact three_moved h f f2 hal hpos (X := .points) (img := Rgbd.gvertexAt S.eps i) (img2 := Rgbd.gvertexAt S.eps j) (by simp) (by simp)
      (fun l m hl hm k hk x => moved_points h.map hl hm hk x)
      (fun k hk y x hd => gvertex_moved h.scene S.eps h.hT h.hU hk (h.pose k hk) hd) (fun k u v huv p q => movePt_wAvg (G k) huv p q) hl' hm'
  | normals =>
    refine up (by simp) (fun k => (G k).R.mulVec) ?_ (fun _ _ _ => rfl)
    exact three_moved h f f2 hal hpos (X := .normals) (img := Rgbd.gnormalAt S.nrm S.eps i) (img2 := Rgbd.gnormalAt S.nrm S.eps j) (by simp) (by simp)
      (fun l m hl hm k hk x => moved_normals h.map hl hm hk x)
      (fun k hk y x _ => gnormal_moved h.scene S.nrm S.eps h.hT h.hU hk (h.pose k hk) y x) (fun k u v _ p q => mulVec_wAvg (G k).R u v p q) hl' hm'
  | colors =>
    refine up (by simp) (fun _ => id) ?_ (fun _ r hr => (row_vec hr).symm)
    exact three_moved h f f2 hal hpos (X := .colors) (img := i.rgb) (img2 := j.rgb) (by simp) (by simp)
      (fun l m hl hm k hk x => by rw [Option.map_id]; exact moved_colors h.map hl hm hk x)
      (fun k hk y x _ => by rw [h.scene.rgb k hk]; rfl) (fun k u v _ p q => rfl) hl' hm'
  | features =>
    obtain ⟨F, F1, hF, hF1, c1, m1, n1, _⟩ := f.conf
    obtain ⟨E, E1, hE, hE1, c2, m2, n2, _⟩ := f2.conf
    rw [hF1] at hl'; rw [hE1] at hm'; cases hl'; cases hm'
    intro k hk x
    have hkB : k < j.B := by rw [h.scene.B]; exact hk
    have hsz : Fusion.sizeAt Q k = Fusion.sizeAt P (σ k) := moved_size h.map f.old f2.old hk
    have hid : ∀ o : Option (List α), o.map (act (G k) .features) = o := by intro o; cases o <;> rfl
    rw [hid]
    by_cases hx : x < Fusion.sizeAt P (σ k)
    · have s1 : (Fusion.rowAt l' (σ k) x).isSome := by
        rw [Fusion.sizeAt_isSome, Fusion.sizeAt_sizes (f.wf.rows _ _ hF1), f.size _ (h.scene.sub k hk)]; omega
      have s2 : (Fusion.rowAt m' k x).isSome := by
        rw [Fusion.sizeAt_isSome, Fusion.sizeAt_sizes (f2.wf.rows _ _ hE1), f2.size _ hkB]; omega
      obtain ⟨y, hy⟩ := Option.isSome_iff_exists.1 s1
      obtain ⟨z, hz⟩ := Option.isSome_iff_exists.1 s2
      have o1 : (Fusion.rowAt F (σ k) x).isSome := by
        rw [Fusion.sizeAt_isSome, Fusion.sizeAt_sizes (f.oldWf.rows _ _ hF)]; exact hx
      have o2 : (Fusion.rowAt E k x).isSome := by
        rw [Fusion.sizeAt_isSome, Fusion.sizeAt_sizes (f2.oldWf.rows _ _ hE)]; omega
      rw [Fusion.row_conf hy (Fusion.valid_row (f.wf.valid _ _ hF1) c1 hy), Fusion.row_conf hz (Fusion.valid_row (f2.wf.valid _ _ hE1) c2 hz)]
      by_cases hex : ∃ r ∈ rows2, r.b = k ∧ r.n = x
      · obtain ⟨r, hr, rfl, rfl⟩ := hex
        have e1 : Fusion.conf l' (σ r.b) r.n = Fusion.conf F (σ r.b) r.n + S.al (Rgbd.vertexAt S.eps i (σ r.b) 0 r.h r.w) :=
          m1.matched _ ((rows_iff h f f2 hk).1 hr)
        rw [m2.matched r hr, e1, moved_conf h.map hF hE hk, vertex_same h.scene S.eps hk]
      · rw [m2.kept k x o2 fun r hr hh => hex ⟨r, hr, hh⟩, m1.kept (σ k) x o1 fun r hr hh => ?_, moved_conf h.map hF hE hk]
        have e : r = lift σ { r with b := k } := Fusion.Row.ext hh.1 rfl rfl rfl
        rw [e] at hr
        exact hex ⟨_, (rows_iff h f f2 (r := { r with b := k }) hk).2 hr, rfl, hh.2⟩
    · obtain ⟨q, rfl⟩ := Nat.exists_eq_add_of_le (not_lt.1 hx)
      rw [n1 _ (h.scene.sub k hk), ← hsz, n2 k hkB, pixels_same h f f2 hk]
      cases hq : (Fusion.pixels 1 i.H i.W (Fusion.newMask (view S i) rows (σ k)))[q]? with
      | none => rfl
      | some z =>
        obtain ⟨z0, _⟩ := new_pixel (List.mem_of_getElem? hq)
        simp only [Option.map_some, Option.some.injEq]
        rw [z0, vertex_same h.scene S.eps hk]

end
end Verif.Slam
