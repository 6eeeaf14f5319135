import Verif.Slam.Batch
import Verif.Slam.Real
/-!
C88: the unit of length does not matter.  Two runs over the same sequence measured in two units: depths, translations of the given
poses and the length parameters of the second (`dist_th`, `sigma`) are `s` times those of the first.  Then the second map is the first
map, measured in the second unit.
-/
namespace Verif.Slam
open Verif Pcs
set_option linter.unusedSectionVars false
set_option linter.unusedSimpArgs false

section
variable {α : Type*} [Field α] [LinearOrder α] [IsStrictOrderedRing α] [FloorRing α]

/-- A row of an attribute in the second unit: points are scaled, everything else is kept. -/
def rescale (s : α) : Attr → List α → List α
  | .points, r => (V3.smul s (Fusion.toV3 r)).toList
  | .normals, r => r
  | .colors, r => r
  | .features, r => r

/-- The clouds of `c` are those of `a` in the second unit. -/
structure Scaled (n : Nat) (s : α) (a c : Clouds α) : Prop where
  attr : ∀ X, c X = none ↔ a X = none
  len : ∀ X m, c X = some m → m.length = n
  row : ∀ X l m, a X = some l → c X = some m → ∀ k < n, ∀ j, Fusion.rowAt m k j = (Fusion.rowAt l k j).map (rescale s X)

/-- A pose in the second unit. -/
structure PoseScaled (s : α) (T U : M4 α) : Prop where
  R : U.R = T.R
  t : U.t = V3.smul s T.t
  b : U.b = T.b
  s : U.s = T.s

/-- An ordinary 4 × 4 intrinsics matrix: the third row is `0 0 1`, the fourth column vanishes in the first three rows. -/
def Camera (K : M4 α) : Prop := K.R.r2 = ⟨0, 0, 1⟩ ∧ K.t = V3.zero

/-- `j` shows what `i` shows, with depth in the second unit. -/
structure ScaledScene (n : Nat) (s : α) (i j : Rgbd.In α) : Prop where
  B : j.B = n
  B1 : i.B = n
  H : j.H = i.H
  W : j.W = i.W
  rgb : ∀ k < n, j.rgb k 0 = i.rgb k 0
  depth : ∀ k < n, ∀ y x, j.depth k 0 y x = s * i.depth k 0 y x
  K : ∀ k < n, j.K k = i.K k
  cam : ∀ k < n, Camera (i.K k)
  pix : ∀ k < n, j.pix k 0 = i.pix k 0

/-- Thresholds in the second unit. -/
def ScaledMapper (s : α) : Mapper α → Mapper α → Prop
  | .aggregate, m => m = .aggregate
  | .fusion d t, m => m = .fusion (s * d) t

/-- The second object works in the second unit. -/
structure ScaledSys (s : α) (S S2 : Sys α) : Prop where
  pos : 0 < s
  gt : S.odom = .gt
  gt2 : S2.odom = .gt
  nrm : S2.nrm = S.nrm
  eps : S2.eps = S.eps
  hom : ∀ c v, 0 < c → S.nrm (V3.smul c v) = c * S.nrm v
  al : ∀ v, S2.al (V3.smul s v) = S.al v
  mapper : ScaledMapper s S.mapper S2.mapper

variable {n : Nat} {s : α} {i j : Rgbd.In α} {S S2 : Sys α}

/-! ### Images -/

theorem depth_pos (h : ScaledScene n s i j) (hs : 0 < s) {k : Nat} (hk : k < n) (y x : Nat) : 0 < j.depth k 0 y x ↔ 0 < i.depth k 0 y x := by
  rw [h.depth k hk]; exact mul_pos_iff_of_pos_left hs

theorem vertex_scaled (h : ScaledScene n s i j) (hs : 0 < s) (eps : α) {k : Nat} (hk : k < n) (y x : Nat) :
    Rgbd.vertexAt eps j k 0 y x = V3.smul s (Rgbd.vertexAt eps i k 0 y x) := by
  simp only [Rgbd.vertexAt]
  by_cases hd : 0 < i.depth k 0 y x
  · rw [if_pos ((depth_pos h hs hk y x).2 hd), if_pos hd, h.depth k hk, h.K k hk, h.pix k hk]
    ext <;> simp [Rgbd.backproj, V3.smul, mul_assoc]
  · rw [if_neg (fun hc => hd ((depth_pos h hs hk y x).1 hc)), if_neg hd]
    ext <;> simp [V3.smul, V3.zero]

theorem gvertex_scaled (h : ScaledScene n s i j) (hs : 0 < s) (eps : α) {T U : Nat → Nat → M4 α} (hT : i.poses = some T) (hU : j.poses = some U)
    {k : Nat} (hk : k < n) (hp : PoseScaled s (T k 0) (U k 0)) (y x : Nat) :
    Rgbd.gvertexAt eps j k 0 y x = V3.smul s (Rgbd.gvertexAt eps i k 0 y x) := by
  simp only [Rgbd.gvertexAt, hT, hU, depth_pos h hs hk, vertex_scaled h hs eps hk, hp.R, hp.t]
  split_ifs
  · ext <;> simp [V3.smul, V3.add, M3.mulVec, V3.dot] <;> ring
  · ext <;> simp [V3.smul, V3.zero]

theorem unit_scaled {nrm : V3 α → α} (hom : ∀ c v, 0 < c → nrm (V3.smul c v) = c * nrm v) {c : α} (hc : 0 < c) {v : V3 α}
    (h0 : nrm v = 0 → v = V3.zero) : Rgbd.unit nrm (V3.smul c v) = Rgbd.unit nrm v := by
  simp only [Rgbd.unit, hom c v hc, mul_eq_zero, hc.ne', false_or]
  split_ifs with h
  · rw [h0 h]; ext <;> simp [V3.smul, V3.zero]
  · ext <;> simp only [V3.smul] <;> exact mul_div_mul_left _ _ hc.ne'

theorem normal_scaled (h : ScaledScene n s i j) (hS : ScaledSys s S S2) (h0 : ∀ v, S.nrm v = 0 → v = V3.zero) {k : Nat} (hk : k < n) (y x : Nat) :
    Rgbd.normalAt S2.nrm S2.eps j k 0 y x = Rgbd.normalAt S.nrm S.eps i k 0 y x := by
  have e : (Rgbd.tanW S.eps j k 0 y x).cross (Rgbd.tanH S.eps j k 0 y x) =
      V3.smul (s * s) ((Rgbd.tanW S.eps i k 0 y x).cross (Rgbd.tanH S.eps i k 0 y x)) := by
    simp only [Rgbd.tanW, Rgbd.tanH, h.H, h.W, vertex_scaled h hS.pos S.eps hk]
    ext <;> simp only [V3.cross, V3.sub, V3.smul] <;> ring
  simp only [Rgbd.normalAt, hS.nrm, hS.eps, e, depth_pos h hS.pos hk, unit_scaled hS.hom (mul_pos hS.pos hS.pos) (h0 _)]

theorem gnormal_scaled (h : ScaledScene n s i j) (hS : ScaledSys s S S2) (h0 : ∀ v, S.nrm v = 0 → v = V3.zero) {T U : Nat → Nat → M4 α}
    (hT : i.poses = some T) (hU : j.poses = some U) {k : Nat} (hk : k < n) (hp : PoseScaled s (T k 0) (U k 0)) (y x : Nat) :
    Rgbd.gnormalAt S2.nrm S2.eps j k 0 y x = Rgbd.gnormalAt S.nrm S.eps i k 0 y x := by
  simp only [Rgbd.gnormalAt, hT, hU, normal_scaled h hS h0 hk, hp.R]

theorem toCamera_scaled {T U : M4 α} (h : PoseScaled s T U) (p : V3 α) : Fusion.toCamera U (V3.smul s p) = V3.smul s (Fusion.toCamera T p) := by
  rw [Fusion.toCamera, Fusion.toCamera, h.t, h.R]
  ext <;> simp only [M3.transpose, M3.mulVec, V3.dot, V3.sub, V3.smul] <;> ring

theorem project_scaled {K : M4 α} (hK : Camera K) (hs : 0 < s) {p : V3 α} (hp : 0 < p.z) :
    Geom.projectPoint K (.inl (V3.smul s p)) = Geom.projectPoint K (.inl p) := by
  obtain ⟨h1, h2⟩ := hK
  have hz : p.z ≠ 0 := hp.ne'
  have hs' : s ≠ 0 := hs.ne'
  simp only [Geom.projectPoint, M4.mulVec, M3.mulVec, V3.add, V3.smul, V3.dot, h1, h2, V3.zero, Geom.guardZ, mul_zero, add_zero, zero_mul, zero_add, one_mul, ne_eq, mul_eq_zero, hs', hz,
    or_self, not_false_eq_true, if_true]
  refine Prod.ext ?_ ?_
  · simp only []; field_simp
  · simp only []; field_simp

/-! ### Clouds -/

theorem scaled_points {a c : Clouds α} (h : Scaled n s a c) {l m : List (T2 α)} (hl : a .points = some l) (hm : c .points = some m) {k : Nat}
    (hk : k < n) (x : Nat) : Fusion.vecAt m k x = (Fusion.vecAt l k x).map (V3.smul s) := by
  rw [Fusion.vecAt, h.row .points l m hl hm k hk, Fusion.vecAt]
  cases Fusion.rowAt l k x <;> simp [rescale, toV3_toList]

theorem scaled_other {a c : Clouds α} (h : Scaled n s a c) {X : Attr} (hX : X ≠ .points) {l m : List (T2 α)} (hl : a X = some l) (hm : c X = some m)
    {k : Nat} (hk : k < n) (x : Nat) : Fusion.rowAt m k x = Fusion.rowAt l k x := by
  rw [h.row X l m hl hm k hk]
  cases X with
  | points => exact absurd rfl hX
  | normals => cases Fusion.rowAt l k x <;> rfl
  | colors => cases Fusion.rowAt l k x <;> rfl
  | features => cases Fusion.rowAt l k x <;> rfl

theorem scaled_conf {a c : Clouds α} (h : Scaled n s a c) {l m : List (T2 α)} (hl : a .features = some l) (hm : c .features = some m) {k : Nat}
    (hk : k < n) (x : Nat) : Fusion.conf m k x = Fusion.conf l k x := by
  rw [Fusion.conf, scaled_other h (by simp) hl hm hk, Fusion.conf]

theorem scaled_size {a c : Clouds α} (h : Scaled n s a c) {X : Attr} {l m : List (T2 α)} (hl : a X = some l) (hm : c X = some m) {k : Nat}
    (hk : k < n) : Fusion.sizeAt m k = Fusion.sizeAt l k := by
  refine eq_of_forall_lt_iff fun x => ?_
  rw [← Fusion.sizeAt_isSome, ← Fusion.sizeAt_isSome, h.row X l m hl hm k hk, Option.isSome_map]

theorem scaled_empty : Scaled n s (emptyClouds : Clouds α) emptyClouds := by
  refine ⟨fun _ => Iff.rfl, fun X m h => ?_, fun X l m h => ?_⟩ <;> simp [emptyClouds] at h

/-! ### New points -/

/-- The two frames, in all that the map reads of them. -/
structure Frames (n : Nat) (s : α) (S S2 : Sys α) (i j : Rgbd.In α) (T U : Nat → Nat → M4 α) : Prop where
  scene : ScaledScene n s i j
  sys : ScaledSys s S S2
  zero : ∀ v, S.nrm v = 0 → v = V3.zero
  hT : i.poses = some T
  hU : j.poses = some U
  pose : ∀ k < n, PoseScaled s (T k 0) (U k 0)

variable {T U : Nat → Nat → M4 α}

theorem valid_scaled (h : Frames n s S S2 i j T U) {k : Nat} (hk : k < n) (y x : Nat) : (view S2 j).valid k 0 y x = (view S i).valid k 0 y x := by
  show decide (0 < j.depth k 0 y x) = decide (0 < i.depth k 0 y x)
  exact decide_eq_decide.2 (depth_pos h.scene h.sys.pos hk y x)

theorem img_scaled (h : Frames n s S S2 i j T U) {k : Nat} (hk : k < n) (y x : Nat) :
    (view S2 j).gv k 0 y x = V3.smul s ((view S i).gv k 0 y x) ∧ (view S2 j).gn k 0 y x = (view S i).gn k 0 y x ∧
    (view S2 j).rgb k 0 y x = (view S i).rgb k 0 y x ∧ S2.al ((view S2 j).v k 0 y x) = S.al ((view S i).v k 0 y x) := by
  refine ⟨?_, gnormal_scaled h.scene h.sys h.zero h.hT h.hU hk (h.pose k hk) y x, ?_, ?_⟩
  · show Rgbd.gvertexAt S2.eps j k 0 y x = _
    rw [h.sys.eps]; exact gvertex_scaled h.scene h.sys.pos S.eps h.hT h.hU hk (h.pose k hk) y x
  · show j.rgb k 0 y x = _; rw [h.scene.rgb k hk]; rfl
  · show S2.al (Rgbd.vertexAt S2.eps j k 0 y x) = _
    rw [h.sys.eps, vertex_scaled h.scene h.sys.pos S.eps hk, h.sys.al]; rfl

theorem picked_scaled (h : Frames n s S S2 i j T U) (hL : i.L = 1) (hL' : j.L = 1) {C : Nat} {f f' : Nat → Nat → Nat → Nat → List α} {X : Attr}
    (hf : ∀ k < n, ∀ y x, f' k 0 y x = rescale s X (f k 0 y x)) :
    ∀ k < n, ∀ q, Fusion.rowAt ((List.range j.B).map fun b => (⟨(Fusion.pixels j.L j.H j.W ((view S2 j).valid b)).map fun x => f' b x.1 x.2.1 x.2.2, C⟩ : T2 α)) k q =
      (Fusion.rowAt ((List.range i.B).map fun b => (⟨(Fusion.pixels i.L i.H i.W ((view S i).valid b)).map fun x => f b x.1 x.2.1 x.2.2, C⟩ : T2 α)) k q).map (rescale s X) := by
  intro k hk q
  rw [rowAt_range _ _ (by rw [h.scene.B]; exact hk), rowAt_range _ _ (by rw [h.scene.B1]; exact hk), hL, hL', h.scene.H, h.scene.W]
  have e : Fusion.pixels 1 i.H i.W ((view S2 j).valid k) = Fusion.pixels 1 i.H i.W ((view S i).valid k) := by
    rw [pixels_one, pixels_one]
    congr 1
    exact List.filter_congr fun x _ => valid_scaled h hk _ _
  rw [e]
  simp only [List.getElem?_map, Option.map_map]
  cases hx : (Fusion.pixels 1 i.H i.W ((view S i).valid k))[q]? with
  | none => rfl
  | some x =>
    have hx' := ((Fusion.pixels_spec 1 i.H i.W ((view S i).valid k)).1 x.1 x.2.1 x.2.2).1 (List.mem_of_getElem? hx)
    have h0 : x.1 = 0 := by omega
    simp only [Option.map_some, Function.comp, Option.some.injEq]
    rw [h0]
    exact hf k hk _ _

theorem newArg_scaled (h : Frames n s S S2 i j T U) (hLi : i.L = 1) (hLj : j.L = 1) :
    Scaled n s (Fusion.newArg S.al (view S i) (view S i).valid) (Fusion.newArg S2.al (view S2 j) (view S2 j).valid) := by
  refine ⟨fun X => by cases X <;> simp [Fusion.newArg], fun X m hm => ?_, fun X l m hl hm => ?_⟩
  · cases X <;> simp only [Fusion.newArg, Option.some.injEq] at hm <;> subst hm
    · rw [Fusion.picked_length]; exact h.scene.B
    · rw [Fusion.picked_length]; exact h.scene.B
    · rw [Fusion.picked_length]; exact h.scene.B
    · simp only [Fusion.pickedAl, List.length_map, List.length_range]; exact h.scene.B
  · cases X <;> simp only [Fusion.newArg, Option.some.injEq] at hl hm <;> subst hl <;> subst hm
    · exact picked_scaled (X := .points) (f := fun b l y x => ((view S i).gv b l y x).toList) (f' := fun b l y x => ((view S2 j).gv b l y x).toList) h hLi hLj
        fun k hk y x => by rw [(img_scaled h hk y x).1]; rfl
    · exact picked_scaled (X := .normals) (f := fun b l y x => ((view S i).gn b l y x).toList) (f' := fun b l y x => ((view S2 j).gn b l y x).toList) h hLi hLj
        fun k hk y x => by rw [(img_scaled h hk y x).2.1]; rfl
    · exact picked_scaled (X := .colors) (f := fun b l y x => ((view S i).rgb b l y x).toList) (f' := fun b l y x => ((view S2 j).rgb b l y x).toList) h hLi hLj
        fun k hk y x => by rw [(img_scaled h hk y x).2.2.1]; rfl
    · exact picked_scaled (X := .features) (f := fun b l y x => [S.al ((view S i).v b l y x)]) (f' := fun b l y x => [S2.al ((view S2 j).v b l y x)]) h hLi hLj
        fun k hk y x => by rw [(img_scaled h hk y x).2.2.2]; rfl

theorem addition_scaled (h : Frames n s S S2 i j T U) (hLi : i.L = 1) (hLj : j.L = 1) : Scaled n s (addition S i) (addition S2 j) := by
  have hm := newArg_scaled h hLi hLj
  have e : ∀ (S : Sys α) (x : Rgbd.In α) X, X ≠ .features → addition S x X = Fusion.newArg S.al (view S x) (view S x).valid X := by
    intro S x X hX; cases X <;> first | rfl | exact absurd rfl hX
  refine ⟨fun X => by cases X <;> simp [Fusion.frameArg], fun X m hm' => ?_, fun X l m hl hm' => ?_⟩
  · by_cases hX : X = .features
    · subst hX; cases hm'
    · rw [e S2 j X hX] at hm'; exact hm.len X m hm'
  · by_cases hX : X = .features
    · subst hX; cases hm'
    · rw [e S i X hX] at hl; rw [e S2 j X hX] at hm'; exact hm.row X l m hl hm'

theorem append_scaled {a c x y : Clouds α} (h : Scaled n s a c) (hx : Scaled n s x y) {P : List (T2 α)} (hP : a .points = some P)
    (hla : ∀ X l m, a X = some l → x X = some m → l.length = m.length) : Scaled n s (Fusion.specGrow a x) (Fusion.specGrow c y) := by
  have hc : c .points ≠ none := fun hc => by rw [(h.attr .points).1 hc] at hP; cases hP
  have ha : a .points ≠ none := by simp [hP]
  simp only [Fusion.specGrow, ha, hc, if_false]
  have both : ∀ X, (∃ l m l' m', a X = some l ∧ x X = some m ∧ c X = some l' ∧ y X = some m') ∨
      (specAppend a x X = none ∧ specAppend c y X = none) := by
    intro X
    cases h1 : a X with
    | none => exact .inr ⟨by simp [specAppend, h1], by simp [specAppend, (h.attr X).2 h1]⟩
    | some l =>
      cases h2 : x X with
      | none => exact .inr ⟨by simp [specAppend, h1, h2], by
          have := (hx.attr X).2 h2
          cases h3 : c X <;> simp [specAppend, this, h3]⟩
      | some m =>
        obtain ⟨l', hl'⟩ := Option.ne_none_iff_exists'.1 (fun hc => absurd ((h.attr X).1 hc) (by simp [h1]) : c X ≠ none)
        obtain ⟨m', hm'⟩ := Option.ne_none_iff_exists'.1 (fun hc => absurd ((hx.attr X).1 hc) (by simp [h2]) : y X ≠ none)
        exact .inl ⟨l, m, l', m', rfl, rfl, hl', hm'⟩
  refine ⟨fun X => ?_, fun X q hq => ?_, fun X q q' hq hq' => ?_⟩
  · rcases both X with ⟨l, m, l', m', h1, h2, h3, h4⟩ | ⟨h1, h2⟩
    · rw [specAppend_some h1 h2, specAppend_some h3 h4]; simp
    · simp [h1, h2]
  · rcases both X with ⟨l, m, l', m', h1, h2, h3, h4⟩ | ⟨h1, h2⟩
    · rw [specAppend_some h3 h4] at hq
      cases hq
      rw [catL_length ((h.len X _ h3).trans (hx.len X _ h4).symm)]
      exact h.len X _ h3
    · rw [h2] at hq; cases hq
  · rcases both X with ⟨l, m, l', m', h1, h2, h3, h4⟩ | ⟨h1, h2⟩
    · rw [specAppend_some h1 h2] at hq; rw [specAppend_some h3 h4] at hq'
      cases hq; cases hq'
      intro k hk r
      rw [Fusion.rowAt_catL (hla X l m h1 h2), Fusion.rowAt_catL ((h.len X _ h3).trans (hx.len X _ h4).symm), scaled_size h h1 h3 hk]
      split_ifs with hr
      · exact h.row X l l' h1 h3 k hk r
      · exact hx.row X m m' h2 h4 k hk _
    · rw [h1] at hq; cases hq

/-! ### The fusion update -/

variable {d t : α} {a a' c c' : Clouds α} {P P' Q Q' Nn Nm F E : List (T2 α)} {rows rows2 : List Fusion.Row}

theorem cand_scaled (h : Frames n s S S2 i j T U) (hm : Scaled n s a c) (hP : a .points = some P) (hQ : c .points = some Q)
    (hN : a .normals = some Nn) (hM : c .normals = some Nm) {r : Fusion.Row} (hr : r.b < n) :
    Fusion.Candidate S2.nrm Q Nm (view S2 j) U (s * d) t r ↔ Fusion.Candidate S.nrm P Nn (view S i) T d t r := by
  have eH : (view S2 j).H = (view S i).H := h.scene.H
  have eW : (view S2 j).W = (view S i).W := h.scene.W
  have eK : (view S2 j).K r.b = (view S i).K r.b := h.scene.K _ hr
  have hK : Camera ((view S i).K r.b) := h.scene.cam _ hr
  have hs := h.sys.pos
  have hpt := scaled_points hm hP hQ hr r.n
  have hnt : Fusion.vecAt Nm r.b r.n = Fusion.vecAt Nn r.b r.n := by rw [Fusion.vecAt, scaled_other hm (by simp) hN hM hr]; rfl
  have en : (view S2 j).gn r.b 0 r.h r.w = (view S i).gn r.b 0 r.h r.w := (img_scaled h hr _ _).2.1
  have ev : ∀ p, S2.nrm (((view S2 j).gv r.b 0 r.h r.w).sub (V3.smul s p)) = s * S.nrm (((view S i).gv r.b 0 r.h r.w).sub p) := by
    intro p
    rw [(img_scaled h hr _ _).1, h.sys.nrm, ← h.sys.hom s _ hs]
    congr 1
    ext <;> simp only [V3.sub, V3.smul] <;> ring
  have hcam : ∀ p, Fusion.toCamera (U r.b 0) (V3.smul s p) = V3.smul s (Fusion.toCamera (T r.b 0) p) := toCamera_scaled (h.pose _ hr)
  have hz : ∀ q : V3 α, 0 < (V3.smul s q).z ↔ 0 < q.z := fun q => mul_pos_iff_of_pos_left hs
  constructor
  · intro hc
    refine ⟨by rw [← eH, ← eW]; exact hc.pix, ?_, ?_⟩
    · obtain ⟨p, h1, h2⟩ := hc.visible
      rw [hpt, Option.map_eq_some_iff] at h1
      obtain ⟨q, hq, rfl⟩ := h1
      have hq0 := (hz _).1 (by have := h2.1.1; rwa [hcam] at this)
      rw [Fusion.Visible, hcam, eH, eW, eK, project_scaled hK hs hq0, hz] at h2
      exact ⟨q, hq, h2⟩
    · obtain ⟨p, m, h1, h2, h3, h4⟩ := hc.similar
      rw [hpt, Option.map_eq_some_iff] at h1
      obtain ⟨q, hq, rfl⟩ := h1
      rw [ev] at h3
      rw [en] at h4
      exact ⟨q, m, hq, hnt ▸ h2, (mul_lt_mul_iff_right₀ hs).1 h3, h4⟩
  · intro hc
    refine ⟨by rw [eH, eW]; exact hc.pix, ?_, ?_⟩
    · obtain ⟨p, h1, h2⟩ := hc.visible
      have hq0 := h2.1.1
      refine ⟨V3.smul s p, by rw [hpt, h1]; rfl, ?_⟩
      rw [Fusion.Visible, hcam, eH, eW, eK, project_scaled hK hs hq0, hz]; exact h2
    · obtain ⟨p, m, h1, h2, h3, h4⟩ := hc.similar
      refine ⟨V3.smul s p, m, by rw [hpt, h1]; rfl, hnt ▸ h2, ?_, ?_⟩
      · rw [ev]; exact (mul_lt_mul_iff_right₀ hs).2 h3
      · rw [en]; exact h4

theorem dist_scaled (h : Frames n s S S2 i j T U) (hm : Scaled n s a c) (hP : a .points = some P) (hQ : c .points = some Q) {r : Fusion.Row}
    (hr : r.b < n) : Fusion.rayDist Q (view S2 j) r = s * s * Fusion.rayDist P (view S i) r := by
  rw [Fusion.rayDist, Fusion.rayDist, scaled_points hm hP hQ hr, (img_scaled h hr _ _).1]
  have e : ((Fusion.vecAt P r.b r.n).map (V3.smul s)).getD V3.zero = V3.smul s ((Fusion.vecAt P r.b r.n).getD V3.zero) := by
    cases Fusion.vecAt P r.b r.n with
    | none => ext <;> simp [V3.smul, V3.zero]
    | some p => rfl
  rw [e]
  simp only [V3.normSq, V3.dot, V3.sub, V3.smul]; ring

theorem pref_scaled (h : Frames n s S S2 i j T U) (hm : Scaled n s a c) (hP : a .points = some P) (hQ : c .points = some Q)
    (hF : a .features = some F) (hE : c .features = some E) {r q : Fusion.Row} (hr : r.b < n) (hq : q.b < n) :
    Fusion.Preferred Q E (view S2 j) q r ↔ Fusion.Preferred P F (view S i) q r := by
  have hss : 0 < s * s := mul_pos h.sys.pos h.sys.pos
  unfold Fusion.Preferred
  rw [dist_scaled h hm hP hQ hr, dist_scaled h hm hP hQ hq, scaled_conf hm hF hE hr, scaled_conf hm hF hE hq, mul_lt_mul_iff_right₀ hss,
    mul_right_inj' hss.ne']

theorem rows_scaled (h : Frames n s S S2 i j T U) (hm : Scaled n s a c) (f : FusionStep S d t i T a a' P P' rows)
    (f2 : FusionStep S2 (s * d) t j U c c' Q Q' rows2) {r : Fusion.Row} (hr : r.b < n) : r ∈ rows2 ↔ r ∈ rows := by
  obtain ⟨⟨Nn, hN⟩, _, ⟨F, hF⟩⟩ := step_attrs f
  obtain ⟨⟨Nm, hM⟩, _, ⟨E, hE⟩⟩ := step_attrs f2
  have hc := fun {r : Fusion.Row} (hr : r.b < n) => cand_scaled h hm (d := d) (t := t) f.old f2.old hN hM hr
  constructor
  · intro hm2
    have hc1 := (hc hr).1 (f2.cand Nm hM r hm2)
    obtain ⟨q, hq, e, p⟩ := f.best Nn F hN hF _ hc1
    have hqb : q.b < n := by rw [e.1]; exact hr
    obtain ⟨r', hr', e', p'⟩ := f2.best Nm E hM hE _ ((hc hqb).2 (f.cand Nn hN q hq))
    have : r' = r := same_pixel f2.pix hr' hm2 ⟨e'.1.trans e.1, e'.2.1.trans e.2.1, e'.2.2.trans e.2.2⟩
    subst this
    have hn := preferred_antisymm p ((pref_scaled h hm f.old f2.old hF hE hqb hr).1 p')
    have : q = r' := Fusion.Row.ext e.1 hn e.2.1 e.2.2
    exact this ▸ hq
  · intro hm1
    have hc1 := (hc hr).2 (f.cand Nn hN r hm1)
    obtain ⟨q, hq, e, p⟩ := f2.best Nm E hM hE _ hc1
    have hqb : q.b < n := by rw [e.1]; exact hr
    obtain ⟨r', hr', e', p'⟩ := f.best Nn F hN hF _ ((hc hqb).1 (f2.cand Nm hM q hq))
    have : r' = r := same_pixel f.pix hr' hm1 ⟨e'.1.trans e.1, e'.2.1.trans e.2.1, e'.2.2.trans e.2.2⟩
    subst this
    have hn := preferred_antisymm ((pref_scaled h hm f.old f2.old hF hE hr hqb).1 p) p'
    have : q = r' := Fusion.Row.ext e.1 hn e.2.1 e.2.2
    exact this ▸ hq

theorem newPixels_scaled (h : Frames n s S S2 i j T U) (hm : Scaled n s a c) (f : FusionStep S d t i T a a' P P' rows)
    (f2 : FusionStep S2 (s * d) t j U c c' Q Q' rows2) {k : Nat} (hk : k < n) :
    Fusion.pixels 1 j.H j.W (Fusion.newMask (view S2 j) rows2 k) = Fusion.pixels 1 i.H i.W (Fusion.newMask (view S i) rows k) := by
  rw [pixels_one, pixels_one, h.scene.H, h.scene.W]
  congr 1
  refine List.filter_congr fun x _ => ?_
  rw [Bool.eq_iff_iff, Fusion.newMask_iff, Fusion.newMask_iff, valid_scaled h hk]
  refine and_congr_right fun _ => ⟨fun hn r hr he => ?_, fun hn r hr he => ?_⟩
  · exact hn r ((rows_scaled h hm f f2 (by rw [he.1]; exact hk)).2 hr) he
  · exact hn r ((rows_scaled h hm f f2 (by rw [he.1]; exact hk)).1 hr) he

theorem three_scaled (h : Frames n s S S2 i j T U) (hm : Scaled n s a c) (f : FusionStep S d t i T a a' P P' rows)
    (f2 : FusionStep S2 (s * d) t j U c c' Q Q' rows2) {X : Attr} {img img2 : Nat → Nat → Nat → Nat → V3 α} {mv : V3 α → V3 α}
    (hX : (X, img) ∈ [(Attr.points, Rgbd.gvertexAt S.eps i), (.normals, Rgbd.gnormalAt S.nrm S.eps i), (.colors, i.rgb)])
    (hX2 : (X, img2) ∈ [(Attr.points, Rgbd.gvertexAt S2.eps j), (.normals, Rgbd.gnormalAt S2.nrm S2.eps j), (.colors, j.rgb)])
    (hold : ∀ l m, a X = some l → c X = some m → ∀ k < n, ∀ x, Fusion.vecAt m k x = (Fusion.vecAt l k x).map mv)
    (himg : ∀ k < n, ∀ y x, img2 k 0 y x = mv (img k 0 y x))
    (hw : ∀ (u v : α), ∀ p q, Fusion.wAvg u v (mv p) (mv q) = mv (Fusion.wAvg u v p q)) {l' m' : List (T2 α)}
    (hl' : a' X = some l') (hm' : c' X = some m') : ∀ k < n, ∀ x, Fusion.vecAt m' k x = (Fusion.vecAt l' k x).map mv := by
  obtain ⟨F, l, l1, hF, hl, hl1, m1, k1, n1⟩ := f.merged X img hX
  obtain ⟨E, m, l2, hE, hm2, hl2, m2, k2, n2⟩ := f2.merged X img2 hX2
  rw [hl1] at hl'; rw [hl2] at hm'; cases hl'; cases hm'
  intro k hk x
  have hsz : Fusion.sizeAt Q k = Fusion.sizeAt P k := scaled_size hm f.old f2.old hk
  by_cases hx : x < Fusion.sizeAt P k
  · have hs : (Fusion.rowAt l k x).isSome := by
      rw [Fusion.sizeAt_isSome, Fusion.sizeAt_sizes (f.oldWf.rows _ _ hl)]; exact hx
    obtain ⟨row, hrow⟩ := Option.isSome_iff_exists.1 hs
    have hv : Fusion.vecAt l k x = some (Fusion.toV3 row) := by simp [Fusion.vecAt, hrow]
    have hv2 : Fusion.vecAt m k x = some (mv (Fusion.toV3 row)) := by rw [hold l m hl hm2 k hk, hv]; rfl
    by_cases hex : ∃ r ∈ rows2, r.b = k ∧ r.n = x
    · obtain ⟨r, hr, rfl, rfl⟩ := hex
      have hr1 := (rows_scaled h hm f f2 hk).1 hr
      have ea : S2.al (Rgbd.vertexAt S2.eps j r.b 0 r.h r.w) = S.al (Rgbd.vertexAt S.eps i r.b 0 r.h r.w) := (img_scaled h hk r.h r.w).2.2.2
      rw [m2 r hr _ hv2, m1 r hr1 _ hv, scaled_conf hm hF hE hk, ea, himg _ hk, hw]
      rfl
    · rw [k2 k x _ hv2 fun r hr hh => hex ⟨r, hr, hh⟩, k1 k x _ hv fun r hr hh => ?_]
      · rfl
      · exact hex ⟨r, (rows_scaled h hm f f2 (by rw [hh.1]; exact hk)).2 hr, hh⟩
  · obtain ⟨q, rfl⟩ := Nat.exists_eq_add_of_le (not_lt.1 hx)
    rw [n1 _ (by rw [h.scene.B1]; exact hk), ← hsz, n2 k (by rw [h.scene.B]; exact hk), newPixels_scaled h hm f f2 hk]
    cases hq : (Fusion.pixels 1 i.H i.W (Fusion.newMask (view S i) rows k))[q]? with
    | none => rfl
    | some z =>
      obtain ⟨z0, hz⟩ := new_pixel (List.mem_of_getElem? hq)
      simp only [Option.map_some, Option.some.injEq]
      rw [z0]
      exact himg k hk _ _

theorem wAvg_smul (u v : α) (p q : V3 α) : Fusion.wAvg u v (V3.smul s p) (V3.smul s q) = V3.smul s (Fusion.wAvg u v p q) := by
  ext <;> simp only [Fusion.wAvg, V3.add, V3.smul] <;> ring

/-- The map after the update is scaled like the map before it. -/
theorem fusion_scaled (h : Frames n s S S2 i j T U) (hm : Scaled n s a c) (f : FusionStep S d t i T a a' P P' rows)
    (f2 : FusionStep S2 (s * d) t j U c c' Q Q' rows2) : Scaled n s a' c' := by
  have e3 : ∀ {S : Sys α} {d : α} {z z' : Clouds α} {x : Rgbd.In α} {V W W' rr X l}, FusionStep S d t x V z z' W W' rr → X ≠ .features → z' X = some l →
      ∀ b y r, Fusion.rowAt l b y = some r → r.length = 3 := by
    intro S d z z' x V W W' rr X l g hX hl b y r hr
    obtain ⟨C, hC, hC3⟩ := g.wf.cols X l hl
    rw [hC3 hX] at hC
    exact Fusion.valid_row (g.wf.valid X l hl) hC hr
  have some1 : ∀ {S : Sys α} {d : α} {z z' : Clouds α} {x : Rgbd.In α} {V W W' rr}, FusionStep S d t x V z z' W W' rr → ∀ X, z' X ≠ none := by
    intro S d z z' x V W W' rr g X
    cases X with
    | points => rw [g.new]; simp
    | normals => obtain ⟨_, _, l, _, _, hl, _⟩ := g.merged .normals (Rgbd.gnormalAt S.nrm S.eps x) (by simp); rw [hl]; simp
    | colors => obtain ⟨_, _, l, _, _, hl, _⟩ := g.merged .colors x.rgb (by simp); rw [hl]; simp
    | features => obtain ⟨_, l, _, hl, _⟩ := g.conf; rw [hl]; simp
  refine ⟨fun X => ⟨fun hc => absurd hc (some1 f2 X), fun hc => absurd hc (some1 f X)⟩, fun X m hm => ?_, fun X l' m' hl' hm' => ?_⟩
  · rw [f2.wf.length hm, f2.batch, h.scene.B]
  have up : X ≠ .features → ∀ mv : V3 α → V3 α, (∀ k < n, ∀ x, Fusion.vecAt m' k x = (Fusion.vecAt l' k x).map mv) →
      (∀ r, r.length = 3 → rescale s X r = (mv (Fusion.toV3 r)).toList) →
      ∀ k < n, ∀ x, Fusion.rowAt m' k x = (Fusion.rowAt l' k x).map (rescale s X) := by
    intro hX mv hv hact k hk x
    have := hv k hk x
    simp only [Fusion.vecAt] at this
    cases h1 : Fusion.rowAt m' k x with
    | none =>
      cases h2 : Fusion.rowAt l' k x with
      | none => rfl
      | some y => rw [h1, h2] at this; cases this
    | some z =>
      cases h2 : Fusion.rowAt l' k x with
      | none => rw [h1, h2] at this; cases this
      | some y =>
        rw [h1, h2] at this
        simp only [Option.map_some, Option.some.injEq] at this ⊢
        rw [hact y (e3 f hX hl' _ _ _ h2), ← this, row_vec (e3 f2 hX hm' _ _ _ h1)]
  have same : ∀ {Y : Attr}, Y ≠ .points → ∀ l m, a Y = some l → c Y = some m → ∀ k < n, ∀ x, Fusion.vecAt m k x = (Fusion.vecAt l k x).map id := by
    intro Y hY l m hl hm2 k hk x
    rw [Option.map_id, Fusion.vecAt, scaled_other hm hY hl hm2 hk]; rfl
  cases X with
  | points =>
    refine up (by simp) (V3.smul s) ?_ (fun _ _ => rfl)
    exact three_scaled h hm f f2 (X := .points) (img := Rgbd.gvertexAt S.eps i) (img2 := Rgbd.gvertexAt S2.eps j) (by simp) (by simp)
      (fun l m hl hm2 k hk x => scaled_points hm hl hm2 hk x) (fun k hk y x => (img_scaled h hk y x).1) (fun u v p q => wAvg_smul u v p q) hl' hm'
  | normals =>
    refine up (by simp) id ?_ (fun r hr => (row_vec hr).symm)
    exact three_scaled h hm f f2 (X := .normals) (img := Rgbd.gnormalAt S.nrm S.eps i) (img2 := Rgbd.gnormalAt S2.nrm S2.eps j) (by simp) (by simp)
      (same (by simp)) (fun k hk y x => (img_scaled h hk y x).2.1) (fun u v p q => rfl) hl' hm'
  | colors =>
    refine up (by simp) id ?_ (fun r hr => (row_vec hr).symm)
    exact three_scaled h hm f f2 (X := .colors) (img := i.rgb) (img2 := j.rgb) (by simp) (by simp)
      (same (by simp)) (fun k hk y x => (img_scaled h hk y x).2.2.1) (fun u v p q => rfl) hl' hm'
  | features =>
    obtain ⟨F, F1, hF, hF1, c1, m1, n1, _⟩ := f.conf
    obtain ⟨E, E1, hE, hE1, c2, m2, n2, _⟩ := f2.conf
    rw [hF1] at hl'; rw [hE1] at hm'; cases hl'; cases hm'
    intro k hk x
    have hkB : k < j.B := by rw [h.scene.B]; exact hk
    have hkB1 : k < i.B := by rw [h.scene.B1]; exact hk
    have hsz : Fusion.sizeAt Q k = Fusion.sizeAt P k := scaled_size hm f.old f2.old hk
    have hid : ∀ o : Option (List α), o.map (rescale s .features) = o := by intro o; cases o <;> rfl
    rw [hid]
    by_cases hx : x < Fusion.sizeAt P k
    · have s1 : (Fusion.rowAt l' k x).isSome := by
        rw [Fusion.sizeAt_isSome, Fusion.sizeAt_sizes (f.wf.rows _ _ hF1), f.size _ hkB1]; omega
      have s2 : (Fusion.rowAt m' k x).isSome := by
        rw [Fusion.sizeAt_isSome, Fusion.sizeAt_sizes (f2.wf.rows _ _ hE1), f2.size _ hkB]; omega
      obtain ⟨y, hy⟩ := Option.isSome_iff_exists.1 s1
      obtain ⟨z, hz⟩ := Option.isSome_iff_exists.1 s2
      have o1 : (Fusion.rowAt F k x).isSome := by
        rw [Fusion.sizeAt_isSome, Fusion.sizeAt_sizes (f.oldWf.rows _ _ hF)]; exact hx
      have o2 : (Fusion.rowAt E k x).isSome := by
        rw [Fusion.sizeAt_isSome, Fusion.sizeAt_sizes (f2.oldWf.rows _ _ hE)]; omega
      rw [Fusion.row_conf hy (Fusion.valid_row (f.wf.valid _ _ hF1) c1 hy), Fusion.row_conf hz (Fusion.valid_row (f2.wf.valid _ _ hE1) c2 hz)]
      by_cases hex : ∃ r ∈ rows2, r.b = k ∧ r.n = x
      · obtain ⟨r, hr, rfl, rfl⟩ := hex
        have ea : S2.al (Rgbd.vertexAt S2.eps j r.b 0 r.h r.w) = S.al (Rgbd.vertexAt S.eps i r.b 0 r.h r.w) := (img_scaled h hk r.h r.w).2.2.2
        rw [m2.matched r hr, m1.matched r ((rows_scaled h hm f f2 hk).1 hr), scaled_conf hm hF hE hk, ea]
      · rw [m2.kept k x o2 fun r hr hh => hex ⟨r, hr, hh⟩, m1.kept k x o1 fun r hr hh => ?_, scaled_conf hm hF hE hk]
        exact hex ⟨r, (rows_scaled h hm f f2 (by rw [hh.1]; exact hk)).2 hr, hh⟩
    · obtain ⟨q, rfl⟩ := Nat.exists_eq_add_of_le (not_lt.1 hx)
      rw [n1 _ hkB1, ← hsz, n2 k hkB, newPixels_scaled h hm f f2 hk]
      cases hq : (Fusion.pixels 1 i.H i.W (Fusion.newMask (view S i) rows k))[q]? with
      | none => rfl
      | some z =>
        obtain ⟨z0, _⟩ := new_pixel (List.mem_of_getElem? hq)
        simp only [Option.map_some, Option.some.injEq]
        have ea : S2.al (Rgbd.vertexAt S2.eps j k 0 z.2.1 z.2.2) = S.al (Rgbd.vertexAt S.eps i k 0 z.2.1 z.2.2) := (img_scaled h hk _ _).2.2.2
        rw [z0, ea]

/-! ### Whole runs -/

variable {frames frames2 : Rgbd.Obj α} {i2 : Rgbd.In α}

/-- Two sequences: the second is the first in the second unit. -/
structure SeqScaled (s : α) (frames frames2 : Rgbd.Obj α) (i i2 : Rgbd.In α) : Prop where
  len : i2.L = i.L
  scene : ∀ t < i.L, ScaledScene i.B s (snap i t) (snap i2 t)
  given : ∀ t < i.L, ∀ T U, given frames i t = some T → given frames2 i2 t = some U → ∀ k < i.B, PoseScaled s (T.at' k 0) (U.at' k 0)

theorem change_scaled (hq : SeqScaled s frames frames2 i i2) (hS : ScaledSys s S S2) (h0 : ∀ v, S.nrm v = 0 → v = V3.zero) (hB : 0 < i.B)
    {Ts : List (Rgbd.TM α)} {a a' c c' : Clouds α} (r : Run S frames i Ts a) (hlt : Ts.length < i.L) (hm : Scaled i.B s a c) {T U : Rgbd.TM α}
    (hp : ∀ k < i.B, PoseScaled s (T.at' k 0) (U.at' k 0)) (h1 : MapChange S (posed (snap i Ts.length) T) a a')
    (h2 : MapChange S2 (posed (snap i2 Ts.length) U) c c') : Scaled i.B s a' c' := by
  have sc0 := hq.scene Ts.length hlt
  have fr : Frames i.B s S S2 (posed (snap i Ts.length) T) (posed (snap i2 Ts.length) U) T.at' U.at' :=
    ⟨⟨sc0.B, sc0.B1, sc0.H, sc0.W, sc0.rgb, sc0.depth, sc0.K, sc0.cam, sc0.pix⟩, hS, h0, rfl, rfl, hp⟩
  have hmap := hS.mapper
  unfold MapChange at h1 h2
  cases hM : S.mapper with
  | aggregate =>
    rw [hM] at h1 hmap; simp only [ScaledMapper] at h1 hmap
    rw [hmap] at h2; simp only at h2
    subst h1; subst h2
    have ad := addition_scaled fr rfl rfl
    cases hP : a .points with
    | none =>
      rw [Fusion.specGrow, if_pos hP, Fusion.specGrow, if_pos ((hm.attr .points).2 hP)]; exact ad
    | some P =>
      obtain ⟨hw, hlen, _⟩ := run_wf hB r P hP
      refine append_scaled hm ad hP fun X l m hl hm' => ?_
      have : m.length = i.B := by
        rw [← (snap_spec i Ts.length).1]
        cases X <;> simp only [Fusion.frameArg, Option.some.injEq, reduceCtorEq] at hm' <;> subst hm' <;> rw [Fusion.picked_length] <;> rfl
      rw [hw.length hl, hlen, this]
  | fusion d t =>
    rw [hM] at h1 hmap; simp only [ScaledMapper] at h1 hmap
    rw [hmap] at h2; simp only at h2
    cases hP : a .points with
    | none =>
      have hc := (hm.attr .points).2 hP
      rw [hP] at h1; rw [hc] at h2
      simp only at h1 h2
      subst h1; subst h2
      exact newArg_scaled fr rfl rfl
    | some P =>
      obtain ⟨Q, hQ⟩ := Option.ne_none_iff_exists'.1 (fun hc => absurd ((hm.attr .points).1 hc) (by simp [hP]) : c .points ≠ none)
      rw [hP] at h1; rw [hQ] at h2
      simp only at h1 h2
      obtain ⟨T', P', rows, hT, f⟩ := h1
      obtain ⟨U', Q', rows2, hU, f2⟩ := h2
      cases hT; cases hU
      exact fusion_scaled fr hm f f2

theorem run_scaled (hq : SeqScaled s frames frames2 i i2) (hS : ScaledSys s S S2) (h0 : ∀ v, S.nrm v = 0 → v = V3.zero) (hB : 0 < i.B)
    {Ts : List (Rgbd.TM α)} {a : Clouds α} (r : Run S frames i Ts a) :
    Ts.length ≤ i.L → ∀ {Us c}, Run S2 frames2 i2 Us c → Us.length = Ts.length → Scaled i.B s a c := by
  induction r with
  | start =>
    intro _ Us c r2 hl
    cases r2 with
    | start => exact scaled_empty
    | next => simp at hl
  | @next Ts a T a' r hloc hc ih =>
    intro hle Us c r2 hl
    cases r2 with
    | start => simp at hl
    | @next Us b U _ r2 hloc2 hc2 =>
      simp only [List.length_append, List.length_singleton] at hl hle
      have hl' : Us.length = Ts.length := by omega
      have hm := ih (by omega) r2 hl'
      have gT := run_gt hS.gt (Run.next r hloc hc) Ts.length T (by simp)
      have gU := run_gt hS.gt2 (Run.next r2 hloc2 hc2) Us.length U (by simp)
      rw [hl'] at hc2 gU
      exact change_scaled hq hS h0 hB r (by omega) hm (hq.given _ (by omega) T U gT gU) hc hc2

/-- Specification: row `x` of cloud `b` of an attribute in the second unit: points are multiplied by `s`, everything else is the same. -/
def RowScaled (s : α) (l l2 : List (T2 α)) (b x : Nat) : Attr → Prop
  | .points => Fusion.vecAt l2 b x = (Fusion.vecAt l b x).map fun p => ⟨s * p.x, s * p.y, s * p.z⟩
  | .normals => Fusion.rowAt l2 b x = Fusion.rowAt l b x
  | .colors => Fusion.rowAt l2 b x = Fusion.rowAt l b x
  | .features => Fusion.rowAt l2 b x = Fusion.rowAt l b x

theorem forward_scaled (hS : ScaledSys s S S2) (hn : Rgbd.IsNorm S.nrm) (hf : SeqOk S frames i) (hs : SysOk S i) (hf2 : SeqOk S2 frames2 i2)
    (hs2 : SysOk S2 i2) (hL : 0 < i.L)
    (hB : i2.B = i.B) (hLL : i2.L = i.L) (hH : i2.H = i.H) (hW : i2.W = i.W)
    (himg : ∀ b < i.B, ∀ t < i.L, i2.rgb b t = i.rgb b t ∧ i2.pix b t = i.pix b t ∧ ∀ y x, i2.depth b t y x = s * i.depth b t y x)
    (hK : ∀ b < i.B, Camera (i.K b) ∧ i2.K b = i.K b) {P P2 : Rgbd.TM α} (hP : frames.poses = some P) (hP2 : frames2.poses = some P2)
    (hT : ∀ b < i.B, ∀ t < i.L, PoseScaled s (P.at' b t) (P2.at' b t)) :
    ∃ m R m2 R2, forward S frames = .ok (m, R) ∧ forward S2 frames2 = .ok (m2, R2) ∧
      (∀ b < i.B, ∀ t < i.L, R.at' b t = P.at' b t ∧ R2.at' b t = P2.at' b t) ∧
      ∀ X, ((getList X m).1 = none ∧ (getList X m2).1 = none) ∨
        ∃ l l2, (getList X m).1 = some l ∧ (getList X m2).1 = some l2 ∧ l.length = i.B ∧ l2.length = i.B ∧ ∀ b < i.B, ∀ x, RowScaled s l l2 b x X := by
  have hz : ∀ v, S.nrm v = 0 → v = V3.zero := by
    intro v hv
    have := (hn v).2
    rw [hv] at this
    simp only [V3.dot, mul_zero] at this
    have hx := mul_self_nonneg v.x; have hy := mul_self_nonneg v.y; have hz := mul_self_nonneg v.z
    have e1 : v.x * v.x = 0 := by linarith
    have e2 : v.y * v.y = 0 := by linarith
    have e3 : v.z * v.z = 0 := by linarith
    exact V3.ext (mul_self_eq_zero.1 e1) (mul_self_eq_zero.1 e2) (mul_self_eq_zero.1 e3)
  have hq : SeqScaled s frames frames2 i i2 := by
    refine ⟨hLL, fun t ht => ?_, fun t ht T U hgT hgU k hk => ?_⟩
    · obtain ⟨s1, _, s3, s4, q⟩ := snap_spec i t
      obtain ⟨u1, _, u3, u4, u⟩ := snap_spec i2 t
      refine ⟨u1.trans hB, s1, by rw [u3, s3, hH], by rw [u4, s4, hW], ?_, ?_, ?_, ?_, ?_⟩
      · intro k hk; rw [(u k (hB ▸ hk)).1, (himg k hk t ht).1]; exact ((q k hk).1).symm
      · intro k hk y x; rw [(u k (hB ▸ hk)).2.1, (himg k hk t ht).2.2, (q k hk).2.1]
      · intro k hk; rw [(u k (hB ▸ hk)).2.2.1, (hK k hk).2]; exact ((q k hk).2.2.1).symm
      · intro k hk; rw [(q k hk).2.2.1]; exact (hK k hk).1
      · intro k hk; rw [(u k (hB ▸ hk)).2.2.2.1, (himg k hk t ht).2.1]; exact ((q k hk).2.2.2.1).symm
    · obtain ⟨_, _, h1⟩ := given_some hgT
      obtain ⟨_, _, h2⟩ := given_some hgU
      have h1' := h1 k hk
      have h2' := h2 k (hB ▸ hk)
      rw [hP] at h1'; rw [hP2] at h2'
      simp only at h1' h2'
      rw [h1', h2']
      exact hT k hk t ht
  obtain ⟨m0, R0, e0, _, _, hR⟩ := gt_returns_given_poses hf hs hS.gt hP
  obtain ⟨m20, R20, e20, _, _, hR2⟩ := gt_returns_given_poses hf2 hs2 hS.gt2 hP2
  rcases forward_run hf hs with ⟨m, R, Ts, a, e, r, hl, hm, _⟩ | ⟨e, Ts, a, e1, _⟩
  swap
  · rw [e0] at e1; cases e1
  rcases forward_run hf2 hs2 with ⟨m2, R2, Us, c, e2, r2, hl2, hm2, _⟩ | ⟨e, Ts, a, e1, _⟩
  swap
  · rw [e20] at e1; cases e1
  rw [e] at e0; cases e0
  rw [e2] at e20; cases e20
  have mv := run_scaled hq hS hz hf.B r hl.le r2 (by rw [hl2, hl, hLL])
  have hne : a .points ≠ none := (run_empty r).2 (by rintro rfl; simp at hl; omega)
  refine ⟨_, _, _, _, e, e2, fun b hb t ht => ⟨hR b hb t ht, hR2 b (hB ▸ hb) t (hLL ▸ ht)⟩, fun X => ?_⟩
  rw [(inv_obs hm.inv).list, (inv_obs hm2.inv).list]
  cases hX : a X with
  | none => exact .inl ⟨rfl, (mv.attr X).2 hX⟩
  | some l =>
    obtain ⟨q, hq'⟩ := Option.ne_none_iff_exists'.1 (fun hc => absurd ((mv.attr X).1 hc) (by simp [hX]) : c X ≠ none)
    obtain ⟨Pa, hPa⟩ := Option.ne_none_iff_exists'.1 hne
    have hl : l.length = i.B := ((Fusion.wf_of_inv hm.inv hPa).length hX).trans (hm.shape Pa hPa).1
    refine .inr ⟨l, q, rfl, hq', hl, mv.len X q hq', fun b hb x => ?_⟩
    cases X with
    | points => exact scaled_points mv hX hq' hb x
    | normals => exact scaled_other mv (by simp) hX hq' hb x
    | colors => exact scaled_other mv (by simp) hX hq' hb x
    | features => exact scaled_other mv (by simp) hX hq' hb x

end

/-! ### The constructors -/

theorem norm_homogeneous {nrm : V3 ℝ → ℝ} (hn : Rgbd.IsNorm nrm) (c : ℝ) (v : V3 ℝ) (hc : 0 < c) : nrm (V3.smul c v) = c * nrm v := by
  obtain ⟨h1, h2⟩ := hn (V3.smul c v)
  obtain ⟨h3, h4⟩ := hn v
  refine (mul_self_inj h1 (mul_nonneg hc.le h3)).1 ?_
  rw [h2, mul_mul_mul_comm, h4]
  simp only [V3.dot, V3.smul]; ring

theorem alpha_homogeneous {s : ℝ} (hs : 0 < s) (sigma eps : ℝ) (p : V3 ℝ) :
    Fusion.getAlpha (s * sigma) eps (V3.smul s p) = Fusion.getAlpha sigma eps p := by
  have e : -((s * p.x) ^ 2 + (s * p.y) ^ 2 + (s * p.z) ^ 2) / (2 * (s * sigma) ^ 2) = -(p.x ^ 2 + p.y ^ 2 + p.z ^ 2) / (2 * sigma ^ 2) := by
    have h1 : -((s * p.x) ^ 2 + (s * p.y) ^ 2 + (s * p.z) ^ 2) = s ^ 2 * -(p.x ^ 2 + p.y ^ 2 + p.z ^ 2) := by ring
    have h2 : 2 * (s * sigma) ^ 2 = s ^ 2 * (2 * sigma ^ 2) := by ring
    rw [h1, h2, mul_div_mul_left _ _ (by positivity)]
  simp only [Fusion.getAlpha, V3.smul, e]

/-- The two objects: two `ICPSLAM(odom="gt")`, or `PointFusion(odom="gt", dist_th=d, angle_th=a, sigma=g)` and
`PointFusion(odom="gt", dist_th=s*d, angle_th=a, sigma=s*g)`. -/
def MadeScaled (nn : List (V3 ℝ) → V3 ℝ → Nat) (epsE eps : ℝ) (nrm : V3 ℝ → ℝ) (p : Params) (s : ℝ) (S S2 : Sys ℝ) : Prop :=
  (icpSlam nn epsE eps nrm (Fusion.getAlpha (6 / 10) (1 / 10 ^ 7)) p "gt" = .ok S ∧
    icpSlam nn epsE eps nrm (Fusion.getAlpha (s * (6 / 10)) (1 / 10 ^ 7)) p "gt" = .ok S2) ∨
  ∃ distTh angleTh sigma,
    pointFusion nn epsE eps nrm (fun sigma => Fusion.getAlpha sigma (1 / 10 ^ 7)) p "gt" distTh angleTh sigma = .ok S ∧
    pointFusion nn epsE eps nrm (fun sigma => Fusion.getAlpha sigma (1 / 10 ^ 7)) p "gt" (s * distTh) angleTh (s * sigma) = .ok S2

/-- **C88** (the unit of length does not matter).  Measure a batch of sequences in another unit: depths and the translations of the given
poses are multiplied by `s > 0`, colours, intrinsics and rotations are the same.  With ground-truth odometry, `forward` of the object
whose length parameters (`dist_th` and `sigma`; `ICPSLAM` has none) are multiplied by `s` too returns the map of the first batch in the
new unit: every cloud has the same points in the same order, multiplied by `s`, and the same normals, colours and confidences.  This
holds for every threshold and with missing depth anywhere. -/
theorem unit_of_length {nn : List (V3 ℝ) → V3 ℝ → Nat} {epsE eps : ℝ} {nrm : V3 ℝ → ℝ} (hn : Rgbd.IsNorm nrm) {p : Params} {s : ℝ} (hs0 : 0 < s)
    {S S2 : Sys ℝ} (hS : MadeScaled nn epsE eps nrm p s S S2) {frames frames2 : Rgbd.Obj ℝ} {i i2 : Rgbd.In ℝ}
    (hf : SeqOk S frames i) (hs : SysOk S i) (hf2 : SeqOk S2 frames2 i2) (hs2 : SysOk S2 i2) (hL : 0 < i.L)
    (hB : i2.B = i.B) (hLL : i2.L = i.L) (hH : i2.H = i.H) (hW : i2.W = i.W)
    (himg : ∀ b < i.B, ∀ t < i.L, i2.rgb b t = i.rgb b t ∧ i2.pix b t = i.pix b t ∧ ∀ y x, i2.depth b t y x = s * i.depth b t y x)
    (hK : ∀ b < i.B, Camera (i.K b) ∧ i2.K b = i.K b) {P P2 : Rgbd.TM ℝ} (hP : frames.poses = some P) (hP2 : frames2.poses = some P2)
    (hT : ∀ b < i.B, ∀ t < i.L, (P2.at' b t).R = (P.at' b t).R ∧ (P2.at' b t).t = ⟨s * (P.at' b t).t.x, s * (P.at' b t).t.y, s * (P.at' b t).t.z⟩ ∧
      (P2.at' b t).b = (P.at' b t).b ∧ (P2.at' b t).s = (P.at' b t).s) :
    ∃ m R m2 R2, forward S frames = .ok (m, R) ∧ forward S2 frames2 = .ok (m2, R2) ∧
      (∀ b < i.B, ∀ t < i.L, R.at' b t = P.at' b t ∧ R2.at' b t = P2.at' b t) ∧
      ∀ X, ((getList X m).1 = none ∧ (getList X m2).1 = none) ∨
        ∃ l l2, (getList X m).1 = some l ∧ (getList X m2).1 = some l2 ∧ l.length = i.B ∧ l2.length = i.B ∧ ∀ b < i.B, ∀ x, RowScaled s l l2 b x X := by
  have hsys : S.nrm = nrm ∧ ScaledSys s S S2 := by
    have hgt : odomOf nn epsE p "gt" = .ok .gt := by rw [odomOf, if_pos rfl]
    rcases hS with ⟨h1, h2⟩ | ⟨d, an, sg, h1, h2⟩
    · rw [icpSlam, hgt] at h1 h2
      cases h1; cases h2
      exact ⟨rfl, hs0, rfl, rfl, rfl, rfl, fun c v hc => norm_homogeneous hn c v hc, fun v => alpha_homogeneous hs0 _ _ v, rfl⟩
    · rw [pointFusion, hgt] at h1 h2
      cases h1; cases h2
      exact ⟨rfl, hs0, rfl, rfl, rfl, rfl, fun c v hc => norm_homogeneous hn c v hc, fun v => alpha_homogeneous hs0 _ _ v, rfl⟩
  exact forward_scaled hsys.2 (hsys.1 ▸ hn) hf hs hf2 hs2 hL hB hLL hH hW himg hK hP hP2
    fun b hb t ht => ⟨(hT b hb t ht).1, (hT b hb t ht).2.1, (hT b hb t ht).2.2.1, (hT b hb t ht).2.2.2⟩

end Verif.Slam
