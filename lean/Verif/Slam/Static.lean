import Verif.Slam.Thresholds
/-!
C74 (map part): a camera that does not move in a scene that does not change.  What the map of `PointFusion` contains after any number of frames.
-/
namespace Verif.Slam
open Verif Pcs
set_option linter.unusedSectionVars false
set_option linter.unusedSimpArgs false

section
variable {α : Type*} [Field α] [LinearOrder α] [IsStrictOrderedRing α] [FloorRing α]

/-! ### Specification -/

/-- All frames of the sequences show the same. -/
structure SameFrames (i : Rgbd.In α) : Prop where
  depth : ∀ b < i.B, ∀ t < i.L, i.depth b t = i.depth b 0
  rgb : ∀ b < i.B, ∀ t < i.L, i.rgb b t = i.rgb b 0
  pix : ∀ b < i.B, ∀ t < i.L, i.pix b t = i.pix b 0

/-- The point measured by a pixel projects back to that pixel: it counts as visible and the pixel is the nearest to its image. -/
def Reprojects (S : Sys α) (i : Rgbd.In α) (b y x : Nat) : Prop :=
  Fusion.Visible i.H i.W (i.K b) (Rgbd.vertexAt S.eps i b 0 y x) ∧
    Fusion.Nearest (Geom.projectPoint (i.K b) (.inl (Rgbd.vertexAt S.eps i b 0 y x))).2 y ∧
    Fusion.Nearest (Geom.projectPoint (i.K b) (.inl (Rgbd.vertexAt S.eps i b 0 y x))).1 x

/-- The pixels with depth but without a normal (the neighbouring measurements are collinear with the camera, for example both missing). -/
def flatPixels (S : Sys α) (i : Rgbd.In α) (b : Nat) : List (Nat × Nat) :=
  (depthPixels i b 0).filter fun x => decide (Rgbd.normalAt S.nrm S.eps i b 0 x.1 x.2 = V3.zero)

/-- The pixels whose measurements make up the map of `PointFusion` after `k` frames: those of the first frame, and once more those without normal for
every further frame. -/
def stillPixels (S : Sys α) (i : Rgbd.In α) (b k : Nat) : List (Nat × Nat) :=
  depthPixels i b 0 ++ (List.replicate (k - 1) (flatPixels S i b)).flatten

/-- The confidence after `k` frames: the weight of one measurement, times the number of frames if there is a normal. -/
def stillConf (S : Sys α) (i : Rgbd.In α) (b k : Nat) (x : Nat × Nat) : α :=
  (if Rgbd.normalAt S.nrm S.eps i b 0 x.1 x.2 = V3.zero then 1 else (k : α)) * S.al (Rgbd.vertexAt S.eps i b 0 x.1 x.2)

/-- The map after `k` frames with poses `G`. -/
structure StillMap (S : Sys α) (i : Rgbd.In α) (G : Nat → M4 α) (k : Nat) (a : Clouds α) : Prop where
  vec : ∀ X, X ≠ .features → ∃ l, a X = some l ∧ ∀ b < i.B, ∀ n, Fusion.vecAt l b n = (stillPixels S i b k)[n]?.map fun x => worldValue S i b 0 (G b) x X
  conf : ∃ F, a .features = some F ∧ (∀ t ∈ F, t.cols = 1) ∧ ∀ b < i.B, ∀ n, Fusion.rowAt F b n = (stillPixels S i b k)[n]?.map fun x => [stillConf S i b k x]

/-! ### Lemmas -/

theorem nearest_unique {x : α} {k m : Nat} (hk : Fusion.Nearest x k) (hm : Fusion.Nearest x m) : k = m := by
  obtain ⟨h1, h2⟩ := hk
  obtain ⟨h3, h4⟩ := hm
  have key : ∀ {k m : Nat}, k < m → |x - (k : α)| ≤ 1 / 2 → (|x - (k : α)| = 1 / 2 → Even k) → |x - (m : α)| ≤ 1 / 2 → (|x - (m : α)| = 1 / 2 → Even m) → False := by
    intro k m hlt h1 h2 h3 h4
    have hc : (k : α) + 1 ≤ m := by exact_mod_cast hlt
    have a1 := abs_le.1 h1
    have a2 := abs_le.1 h3
    have e1 : x = k + 1 / 2 := by linarith [a1.2, a2.1]
    have e2 : (m : α) = k + 1 := by linarith [a1.2, a2.1]
    have p1 := h2 (by rw [e1, abs_of_nonneg] <;> norm_num)
    have p2 := h4 (by rw [e1, e2, abs_of_nonpos] <;> norm_num <;> linarith)
    have e3 : m = k + 1 := by exact_mod_cast e2
    subst e3
    exact (Nat.not_even_iff_odd.2 p1.add_one) p2
  rcases Nat.lt_trichotomy k m with h | h | h
  · exact (key h h1 h2 h3 h4).elim
  · exact h
  · exact (key h h3 h4 h1 h2).elim

theorem toCamera_world {G : M4 α} (hG : G.R.transpose.mul G.R = M3.one) (v : V3 α) : Fusion.toCamera G ((G.R.mulVec v).add G.t) = v := by
  have e : ((G.R.mulVec v).add G.t).sub G.t = G.R.mulVec v := by ext <;> simp [V3.add, V3.sub]
  rw [Fusion.toCamera, e, ← M3.mul_mulVec, hG, M3.one_mulVec]

theorem depthPixels_nodup (i : Rgbd.In α) (b t : Nat) : (depthPixels i b t).Nodup := by
  have h := Fusion.pixels_nodup 1 i.H i.W (fun _ h w => decide (0 < i.depth b t h w))
  rw [pixels_one] at h
  exact List.Nodup.of_map _ h

theorem mem_depthPixels (i : Rgbd.In α) (b t : Nat) (x : Nat × Nat) : x ∈ depthPixels i b t ↔ x.1 < i.H ∧ x.2 < i.W ∧ 0 < i.depth b t x.1 x.2 := by
  obtain ⟨y, x⟩ := x
  simp only [depthPixels, List.mem_filter, List.mem_flatMap, List.mem_map, List.mem_range, decide_eq_true_eq, Prod.mk.injEq]
  constructor
  · rintro ⟨⟨y', hy, x', hx, rfl, rfl⟩, h⟩; exact ⟨hy, hx, h⟩
  · rintro ⟨hy, hx, h⟩; exact ⟨⟨y, hy, x, hx, rfl, rfl⟩, h⟩

theorem still_succ (S : Sys α) (i : Rgbd.In α) (b : Nat) {k : Nat} (hk : 0 < k) : stillPixels S i b (k + 1) = stillPixels S i b k ++ flatPixels S i b := by
  obtain ⟨m, rfl⟩ : ∃ m, k = m + 1 := ⟨k - 1, by omega⟩
  simp only [stillPixels, Nat.add_sub_cancel, List.append_assoc]
  rw [List.replicate_succ', List.flatten_append]
  simp

theorem still_one (S : Sys α) (i : Rgbd.In α) (b : Nat) : stillPixels S i b 1 = depthPixels i b 0 := by
  simp [stillPixels]

theorem mem_still {S : Sys α} {i : Rgbd.In α} {b k : Nat} {x : Nat × Nat} (h : x ∈ stillPixels S i b k) : x ∈ depthPixels i b 0 := by
  simp only [stillPixels, List.mem_append, List.mem_flatten, List.mem_replicate] at h
  rcases h with h | ⟨l, ⟨_, rfl⟩, h⟩
  · exact h
  · exact (List.mem_filter.1 h).1

/-- An entry with a normal belongs to the first frame. -/
theorem still_index {S : Sys α} {i : Rgbd.In α} {b k n : Nat} {x : Nat × Nat} (h : (stillPixels S i b k)[n]? = some x)
    (hx : Rgbd.normalAt S.nrm S.eps i b 0 x.1 x.2 ≠ V3.zero) : (depthPixels i b 0)[n]? = some x := by
  by_cases hn : n < (depthPixels i b 0).length
  · rw [stillPixels, List.getElem?_append_left hn] at h; exact h
  · rw [stillPixels, List.getElem?_append_right (not_lt.1 hn)] at h
    have := List.mem_of_getElem? h
    simp only [List.mem_flatten, List.mem_replicate] at this
    obtain ⟨l, ⟨_, rfl⟩, h⟩ := this
    exact absurd (by simpa using (List.mem_filter.1 h).2) hx

theorem first_index (S : Sys α) (i : Rgbd.In α) {b k n : Nat} {x : Nat × Nat} (h : (depthPixels i b 0)[n]? = some x) : (stillPixels S i b k)[n]? = some x := by
  rw [stillPixels, List.getElem?_append_left (List.getElem?_eq_some_iff.1 h).1]; exact h

theorem wAvg_self {c w : α} (h : c + w ≠ 0) (p : V3 α) : Fusion.wAvg c w p p = p := by
  ext <;> simp only [Fusion.wAvg, V3.smul, V3.add] <;> field_simp

/-- All frames have the same images. -/
theorem same_images {S : Sys α} {i : Rgbd.In α} (h : SameFrames i) {b t : Nat} (hb : b < i.B) (ht : t < i.L) (G : M4 α) :
    (∀ y x, Rgbd.vertexAt S.eps i b t y x = Rgbd.vertexAt S.eps i b 0 y x) ∧ (∀ y x, Rgbd.normalAt S.nrm S.eps i b t y x = Rgbd.normalAt S.nrm S.eps i b 0 y x) ∧
    ∀ x X, worldValue S i b t G x X = worldValue S i b 0 G x X := by
  have hv : ∀ y x, Rgbd.vertexAt S.eps i b t y x = Rgbd.vertexAt S.eps i b 0 y x := by
    intro y x; simp only [Rgbd.vertexAt, h.depth b hb t ht, h.pix b hb t ht]
  have hn : ∀ y x, Rgbd.normalAt S.nrm S.eps i b t y x = Rgbd.normalAt S.nrm S.eps i b 0 y x := by
    intro y x; simp only [Rgbd.normalAt, Rgbd.tanW, Rgbd.tanH, hv, h.depth b hb t ht]
  refine ⟨hv, hn, fun x X => ?_⟩
  cases X <;> simp only [worldValue, hv, hn, h.rgb b hb t ht]

theorem unit_normal {nrm : V3 α → α} (hn : Rgbd.IsNorm nrm) (eps : α) (i : Rgbd.In α) (b l y x : Nat) (h : Rgbd.normalAt nrm eps i b l y x ≠ V3.zero) :
    (Rgbd.normalAt nrm eps i b l y x).dot (Rgbd.normalAt nrm eps i b l y x) = 1 := by
  rw [Rgbd.normalAt] at h ⊢
  split_ifs at h ⊢
  · rcases (Rgbd.normal_unit_orthogonal hn (Rgbd.tanW eps i b l y x) (Rgbd.tanH eps i b l y x)).1 with ⟨h', _⟩ | h'
    · exact absurd h' h
    · exact h'
  · exact absurd rfl h

theorem nrm_zero {nrm : V3 α → α} (hn : Rgbd.IsNorm nrm) : nrm V3.zero = 0 := by
  have := (hn V3.zero).2
  simpa [V3.dot, V3.zero] using this

/-! ### One more frame -/

theorem still_step {S : Sys α} {i : Rgbd.In α} {G : Nat → M4 α} {d t : α} (hd : 0 < d) (ht : 0 ≤ t ∧ t < 1) (hn : Rgbd.IsNorm S.nrm)
    (hal : ∀ p, 0 < S.al p) (hsame : SameFrames i) (hG : ∀ b < i.B, (G b).R.transpose.mul (G b).R = M3.one)
    (hre : ∀ b < i.B, ∀ x ∈ depthPixels i b 0, Reprojects S i b x.1 x.2) {k : Nat} (hk : 0 < k) (hkL : k < i.L) {T : Rgbd.TM α}
    (hT : ∀ b < i.B, T.at' b 0 = G b) {a a' : Clouds α} (hm : StillMap S i G k a) {P P' : List (T2 α)} {rows : List Fusion.Row}
    (f : FusionStep S d t (posed (snap i k) T) T.at' a a' P P' rows) : StillMap S i G (k + 1) a' := by
  obtain ⟨Sp1, _, SpH, SpW, Sp⟩ := snap_spec i k
  have hB' : (posed (snap i k) T).B = i.B := Sp1
  have hH' : (posed (snap i k) T).H = i.H := SpH
  have hW' : (posed (snap i k) T).W = i.W := SpW
  have himg : ∀ b < i.B, ∀ y x, 0 < i.depth b 0 y x → Rgbd.vertexAt S.eps (posed (snap i k) T) b 0 y x = Rgbd.vertexAt S.eps i b 0 y x ∧
      Rgbd.gvertexAt S.eps (posed (snap i k) T) b 0 y x = worldValue S i b 0 (G b) (y, x) .points ∧
      Rgbd.gnormalAt S.nrm S.eps (posed (snap i k) T) b 0 y x = worldValue S i b 0 (G b) (y, x) .normals ∧
      (posed (snap i k) T).rgb b 0 y x = worldValue S i b 0 (G b) (y, x) .colors := by
    intro b hb y x hd
    obtain ⟨s1, s2, s3⟩ := same_images (S := S) hsame hb hkL (G b)
    have := image_world S i (t := k) hb T (y := y) (x := x) (by rw [hsame.depth b hb k hkL]; exact hd)
    rw [hT b hb] at this
    simpa only [s1, s2, s3] using this
  have hvalid : ∀ b < i.B, ∀ y x, (view S (posed (snap i k) T)).valid b 0 y x = true ↔ 0 < i.depth b 0 y x := by
    intro b hb y x
    show decide (0 < (posed (snap i k) T).depth b 0 y x) = true ↔ _
    have : (posed (snap i k) T).depth b 0 = i.depth b k := (Sp b hb).2.1
    rw [this, hsame.depth b hb k hkL, decide_eq_true_eq]
  obtain ⟨P0, hP0, pts⟩ := hm.vec .points (by simp)
  obtain ⟨Nn, hN, nrms⟩ := hm.vec .normals (by simp)
  obtain ⟨F, hF, hF1, cfs⟩ := hm.conf
  obtain rfl : P = P0 := by have := f.old; rw [hP0] at this; cases this; rfl
  have hrb : ∀ r ∈ rows, r.b < i.B := fun r hr => hB' ▸ (f.inside r hr).2.1
  have hcam : ∀ b < i.B, ∀ x, Fusion.toCamera (G b) (worldValue S i b 0 (G b) x .points) = Rgbd.vertexAt S.eps i b 0 x.1 x.2 := fun b hb x =>
    toCamera_world (hG b hb) _
  have hdotN : ∀ b < i.B, ∀ x, (worldValue S i b 0 (G b) x .normals).dot (worldValue S i b 0 (G b) x .normals) =
      (Rgbd.normalAt S.nrm S.eps i b 0 x.1 x.2).dot (Rgbd.normalAt S.nrm S.eps i b 0 x.1 x.2) := fun b hb x => M3.dot_orthogonal (hG b hb) _ _
  have eK : ∀ b < i.B, (view S (posed (snap i k) T)).K b = i.K b := fun b hb => (Sp b hb).2.2.1
  have eH : (view S (posed (snap i k) T)).H = i.H := hH'
  have eW : (view S (posed (snap i k) T)).W = i.W := hW'
  -- the table
  have hA : ∀ r ∈ rows, (depthPixels i r.b 0)[r.n]? = some (r.h, r.w) ∧ Rgbd.normalAt S.nrm S.eps i r.b 0 r.h r.w ≠ V3.zero := by
    intro r hr
    have hb := hrb r hr
    have hval := (hvalid _ hb _ _).1 (Fusion.candidate_valid (Fusion.ofIn_zeroNormals _ _ _) ht.1 (f.cand Nn hN r hr))
    obtain ⟨⟨c1, c2⟩, ⟨q, c3, c4, c5, c6⟩, ⟨q', v, c7, c8, c9, c10⟩⟩ := f.cand Nn hN r hr
    rw [pts r.b hb, Option.map_eq_some_iff] at c3
    obtain ⟨x, hx, rfl⟩ := c3
    rw [eK r.b hb, hT r.b hb, hcam r.b hb] at c5 c6
    obtain ⟨_, r2, r3⟩ := hre r.b hb x (mem_still (List.mem_of_getElem? hx))
    have e1 := nearest_unique c5 r2
    have e2 := nearest_unique c6 r3
    have ex : x = (r.h, r.w) := Prod.ext e1.symm e2.symm
    subst ex
    rw [nrms r.b hb, hx] at c8
    simp only [Option.map_some, Option.some.injEq] at c8
    have hnz : Rgbd.normalAt S.nrm S.eps i r.b 0 r.h r.w ≠ V3.zero := by
      intro h0
      have : (view S (posed (snap i k) T)).gn r.b 0 r.h r.w = worldValue S i r.b 0 (G r.b) (r.h, r.w) .normals := (himg r.b hb _ _ hval).2.2.1
      rw [this, ← c8, hdotN r.b hb, h0] at c10
      simp [V3.dot, V3.zero] at c10
      exact absurd c10 (not_lt.2 ht.1)
    exact ⟨still_index hx hnz, hnz⟩
  have hC : ∀ b < i.B, ∀ (n : Nat) (x : Nat × Nat), (depthPixels i b 0)[n]? = some x → Rgbd.normalAt S.nrm S.eps i b 0 x.1 x.2 ≠ V3.zero →
      ∃ r ∈ rows, r.b = b ∧ r.n = n ∧ r.h = x.1 ∧ r.w = x.2 := by
    intro b hb n x hx hnz
    have hmem := (mem_depthPixels i b 0 x).1 (List.mem_of_getElem? hx)
    have hq := first_index S i (k := k) hx
    obtain ⟨r1, r2, r3⟩ := hre b hb x (List.mem_of_getElem? hx)
    obtain ⟨i1, i2, i3, i4⟩ := himg b hb x.1 x.2 hmem.2.2
    have egv : (view S (posed (snap i k) T)).gv b 0 x.1 x.2 = worldValue S i b 0 (G b) x .points := i2
    have egn : (view S (posed (snap i k) T)).gn b 0 x.1 x.2 = worldValue S i b 0 (G b) x .normals := i3
    have hp : Fusion.vecAt P b n = some (worldValue S i b 0 (G b) x .points) := by rw [pts b hb, hq]; rfl
    have hv : Fusion.vecAt Nn b n = some (worldValue S i b 0 (G b) x .normals) := by rw [nrms b hb, hq]; rfl
    have hcand : Fusion.Candidate S.nrm P Nn (view S (posed (snap i k) T)) T.at' d t ⟨b, n, x.1, x.2⟩ := by
      refine ⟨⟨eH.symm ▸ hmem.1, eW.symm ▸ hmem.2.1⟩, ⟨_, hp, ?_, ?_, ?_⟩, ⟨_, _, hp, hv, ?_, ?_⟩⟩
      · rw [eH, eW, eK b hb, hT b hb, hcam b hb]; exact r1
      · rw [eK b hb, hT b hb, hcam b hb]; exact r2
      · rw [eK b hb, hT b hb, hcam b hb]; exact r3
      · simp only [egv]
        have : ∀ u : V3 α, u.sub u = V3.zero := by intro u; ext <;> simp [V3.sub, V3.zero]
        rw [this, nrm_zero hn]; exact hd
      · simp only [egn]
        rw [hdotN b hb, unit_normal hn _ _ _ _ _ _ hnz]; exact ht.2
    obtain ⟨r, hr, ⟨e1, e2, e3⟩, _⟩ := f.best Nn F hN hF _ hcand
    simp only at e1 e2 e3
    obtain ⟨h1, h2⟩ := hA r hr
    refine ⟨r, hr, e1, ?_, e2, e3⟩
    rw [e1, e2, e3] at h1
    have hlt := (List.getElem?_eq_some_iff.1 hx).1
    refine ((List.getElem?_inj hlt (depthPixels_nodup i b 0)).1 ?_).symm
    rw [hx, h1]
  have hrow : ∀ b < i.B, ∀ (n : Nat) (x : Nat × Nat), (stillPixels S i b k)[n]? = some x →
      (Rgbd.normalAt S.nrm S.eps i b 0 x.1 x.2 ≠ V3.zero ↔ ∃ r ∈ rows, r.b = b ∧ r.n = n) := by
    intro b hb n x hx
    constructor
    · intro h
      obtain ⟨r, hr, h1, h2, _⟩ := hC b hb n x (still_index hx h) h
      exact ⟨r, hr, h1, h2⟩
    · rintro ⟨r, hr, rfl, rfl⟩
      obtain ⟨h1, h2⟩ := hA r hr
      have := first_index S i (k := k) h1
      rw [hx] at this; cases this
      exact h2
  -- the new pixels
  have hpixels : ∀ b < i.B, Fusion.pixels 1 (posed (snap i k) T).H (posed (snap i k) T).W (Fusion.newMask (view S (posed (snap i k) T)) rows b) =
      (flatPixels S i b).map fun x => (0, x.1, x.2) := by
    intro b hb
    rw [pixels_one, hH', hW', flatPixels, depthPixels, List.filter_filter]
    congr 1
    refine List.filter_congr fun x hx => ?_
    rw [Bool.eq_iff_iff, Fusion.newMask_iff, hvalid b hb, Bool.and_eq_true, decide_eq_true_eq, decide_eq_true_eq, and_comm]
    refine and_congr_left fun hdx => ⟨fun h => ?_, fun h0 r hr hh => ?_⟩
    · by_contra hnz
      have hmem : x ∈ depthPixels i b 0 := by
        refine List.mem_filter.2 ⟨hx, by simpa using hdx⟩
      obtain ⟨n, hn'⟩ := List.mem_iff_getElem?.1 hmem
      obtain ⟨r, hr, h1, h2, h3, h4⟩ := hC b hb n x hn' hnz
      exact h r hr ⟨h1, h3, h4⟩
    · obtain ⟨_, h2⟩ := hA r hr
      rw [hh.1, hh.2.1, hh.2.2] at h2
      exact h2 h0
  have hflat : ∀ b, ∀ x ∈ flatPixels S i b, 0 < i.depth b 0 x.1 x.2 := fun b x hx => ((mem_depthPixels i b 0 x).1 (List.mem_filter.1 hx).1).2.2
  have hsz : ∀ b < i.B, Fusion.sizeAt P b = (stillPixels S i b k).length := by
    intro b hb
    refine eq_of_forall_lt_iff fun n => ?_
    rw [← Fusion.sizeAt_isSome]
    have := congrArg Option.isSome (pts b hb n)
    rw [Fusion.vecAt, Option.isSome_map, Option.isSome_map] at this
    rw [this]; simp
  have hcf : ∀ b < i.B, ∀ (n : Nat) (x : Nat × Nat), (stillPixels S i b k)[n]? = some x → Fusion.conf F b n = stillConf S i b k x := by
    intro b hb n x hx
    rw [Fusion.conf, cfs b hb n, hx]; simp
  have hcpos : ∀ b k' x, 0 ≤ stillConf S i b k' x := by
    intro b k' x
    have := (hal (Rgbd.vertexAt S.eps i b 0 x.1 x.2)).le
    unfold stillConf
    split_ifs <;> positivity
  have hval : ∀ X img, (X, img) ∈ [(Attr.points, Rgbd.gvertexAt S.eps (posed (snap i k) T)), (.normals, Rgbd.gnormalAt S.nrm S.eps (posed (snap i k) T)),
      (.colors, (posed (snap i k) T).rgb)] → ∀ b < i.B, ∀ y x, 0 < i.depth b 0 y x → img b 0 y x = worldValue S i b 0 (G b) (y, x) X := by
    intro X img hX b hb y x hdp
    obtain ⟨_, i2, i3, i4⟩ := himg b hb y x hdp
    simp only [List.mem_cons, Prod.mk.injEq, List.not_mem_nil, or_false] at hX
    rcases hX with ⟨rfl, rfl⟩ | ⟨rfl, rfl⟩ | ⟨rfl, rfl⟩
    · exact i2
    · exact i3
    · exact i4
  have hvecs : ∀ X img, (X, img) ∈ [(Attr.points, Rgbd.gvertexAt S.eps (posed (snap i k) T)), (.normals, Rgbd.gnormalAt S.nrm S.eps (posed (snap i k) T)),
      (.colors, (posed (snap i k) T).rgb)] → X ≠ .features → ∃ l, a' X = some l ∧ ∀ b < i.B, ∀ n, Fusion.vecAt l b n =
        (stillPixels S i b (k + 1))[n]?.map fun x => worldValue S i b 0 (G b) x X := by
    intro X img hX hXf
    obtain ⟨F2, l, l', hF2, hl, hl', m1, m2, m3⟩ := f.merged X img hX
    rw [hF] at hF2; cases hF2
    obtain ⟨l2, hl2, vs⟩ := hm.vec X hXf
    rw [hl] at hl2; cases hl2
    refine ⟨l', hl', fun b hb n => ?_⟩
    rw [still_succ S i b hk]
    by_cases hlt : n < (stillPixels S i b k).length
    · rw [List.getElem?_append_left hlt, List.getElem?_eq_getElem hlt]
      have hx : (stillPixels S i b k)[n]? = some (stillPixels S i b k)[n] := List.getElem?_eq_getElem hlt
      generalize (stillPixels S i b k)[n] = x at hx
      have hv : Fusion.vecAt l b n = some (worldValue S i b 0 (G b) x X) := by rw [vs b hb, hx]; rfl
      simp only [Option.map_some]
      by_cases hex : ∃ r ∈ rows, r.b = b ∧ r.n = n
      · obtain ⟨r, hr, rfl, rfl⟩ := hex
        have hx' := first_index S i (k := k) (hA r hr).1
        rw [hx] at hx'; cases hx'
        rw [m1 r hr _ hv, hval X img hX r.b hb _ _ ((mem_depthPixels i r.b 0 _).1 (mem_still (List.mem_of_getElem? hx))).2.2, hcf r.b hb r.n _ hx, wAvg_self]
        have := hcpos r.b k (r.h, r.w)
        have := hal (Rgbd.vertexAt S.eps (posed (snap i k) T) r.b 0 r.h r.w)
        positivity
      · exact m2 b n _ hv fun r hr hh => hex ⟨r, hr, hh⟩
    · obtain ⟨j, rfl⟩ := Nat.exists_eq_add_of_le (not_lt.1 hlt)
      rw [List.getElem?_append_right (by omega), Nat.add_sub_cancel_left, ← hsz b hb, m3 b (hB'.symm ▸ hb), hpixels b hb, List.getElem?_map, Option.map_map]
      cases hx : (flatPixels S i b)[j]? with
      | none => rfl
      | some x =>
        simp only [Option.map_some, Function.comp]
        rw [hval X img hX b hb _ _ (hflat b x (List.mem_of_getElem? hx))]
  obtain ⟨F4, F', hF4, hF', hF'1, cf1, cf2, _⟩ := f.conf
  rw [hF] at hF4; cases hF4
  refine ⟨fun X hX => ?_, F', hF', hF'1, fun b hb n => ?_⟩
  · cases X
    · exact hvecs .points (Rgbd.gvertexAt S.eps (posed (snap i k) T)) (by simp) (by simp)
    · exact hvecs .normals (Rgbd.gnormalAt S.nrm S.eps (posed (snap i k) T)) (by simp) (by simp)
    · exact hvecs .colors (posed (snap i k) T).rgb (by simp) (by simp)
    · exact absurd rfl hX
  · rw [still_succ S i b hk]
    by_cases hlt : n < (stillPixels S i b k).length
    · rw [List.getElem?_append_left hlt, List.getElem?_eq_getElem hlt]
      have hx : (stillPixels S i b k)[n]? = some (stillPixels S i b k)[n] := List.getElem?_eq_getElem hlt
      generalize (stillPixels S i b k)[n] = x at hx
      obtain ⟨row, hr'⟩ := Option.isSome_iff_exists.1 (show (Fusion.rowAt F' b n).isSome by
        rw [Fusion.sizeAt_isSome, Fusion.sizeAt_sizes (f.wf.rows _ _ hF'), f.size b (hB'.symm ▸ hb), hsz b hb]; omega)
      rw [Fusion.row_conf hr' (Fusion.valid_row (f.wf.valid _ _ hF') hF'1 hr')]
      simp only [Option.map_some, Option.some.injEq, List.cons.injEq, and_true]
      by_cases hex : ∃ r ∈ rows, r.b = b ∧ r.n = n
      · have hnz := (hrow b hb n x hx).2 hex
        obtain ⟨r, hr, rfl, rfl⟩ := hex
        have hx' := first_index S i (k := k) (hA r hr).1
        rw [hx] at hx'; cases hx'
        rw [cf1.matched r hr, hcf r.b hb r.n _ hx, (himg r.b hb _ _ ((mem_depthPixels i r.b 0 _).1 (mem_still (List.mem_of_getElem? hx))).2.2).1]
        rw [stillConf, if_neg hnz, stillConf, if_neg hnz]
        push_cast; ring
      · have hz : Rgbd.normalAt S.nrm S.eps i b 0 x.1 x.2 = V3.zero := by
          by_contra h; exact hex ((hrow b hb n x hx).1 h)
        rw [cf1.kept b n (by rw [cfs b hb, hx]; rfl) fun r hr hh => hex ⟨r, hr, hh⟩, hcf b hb n x hx, stillConf, if_pos hz, stillConf, if_pos hz]
    · obtain ⟨j, rfl⟩ := Nat.exists_eq_add_of_le (not_lt.1 hlt)
      rw [List.getElem?_append_right (by omega), Nat.add_sub_cancel_left, ← hsz b hb, cf2 b (hB'.symm ▸ hb), hpixels b hb, List.getElem?_map, Option.map_map]
      cases hx : (flatPixels S i b)[j]? with
      | none => rfl
      | some x =>
        have hxm := List.mem_of_getElem? hx
        have hz : Rgbd.normalAt S.nrm S.eps i b 0 x.1 x.2 = V3.zero := by simpa using (List.mem_filter.1 hxm).2
        simp only [Option.map_some, Function.comp]
        rw [(himg b hb _ _ (hflat b x hxm)).1, stillConf, if_pos hz, one_mul]

/-! ### The first frame -/

theorem still_first {S : Sys α} {i : Rgbd.In α} {G : Nat → M4 α} {T : Rgbd.TM α} (hT : ∀ b < i.B, T.at' b 0 = G b) :
    StillMap S i G 1 (Fusion.newArg S.al (view S (posed (snap i 0) T)) (view S (posed (snap i 0) T)).valid) := by
  obtain ⟨Sp1, _, SpH, SpW, Sp⟩ := snap_spec i 0
  have hpx : ∀ b < i.B, Fusion.pixels (view S (posed (snap i 0) T)).L (view S (posed (snap i 0) T)).H (view S (posed (snap i 0) T)).W
      ((view S (posed (snap i 0) T)).valid b) = (depthPixels i b 0).map fun x => (0, x.1, x.2) := by
    intro b hb
    have e1 : (view S (posed (snap i 0) T)).L = 1 := ‹(snap i 0).L = 1›
    have e2 : (view S (posed (snap i 0) T)).H = i.H := SpH
    have e3 : (view S (posed (snap i 0) T)).W = i.W := SpW
    rw [e1, e2, e3, pixels_one, depthPixels]
    congr 1
    refine List.filter_congr fun x _ => ?_
    show decide (0 < (snap i 0).depth b 0 x.1 x.2) = _
    rw [(Sp b hb).2.1]
  have hvB : ∀ b < i.B, b < (view S (posed (snap i 0) T)).B := fun b hb => by show b < (snap i 0).B; rw [Sp1]; exact hb
  have himg : ∀ b < i.B, ∀ (n : Nat) x, (depthPixels i b 0)[n]? = some x → _ := fun b hb n x hx =>
    image_world S i (t := 0) hb T (y := x.1) (x := x.2) ((mem_depthPixels i b 0 x).1 (List.mem_of_getElem? hx)).2.2
  have hvec : ∀ X img, (X, img) ∈ [(Attr.points, (view S (posed (snap i 0) T)).gv), (.normals, (view S (posed (snap i 0) T)).gn),
      (.colors, (view S (posed (snap i 0) T)).rgb)] → ∀ b < i.B, ∀ n, Fusion.vecAt (Fusion.picked (view S (posed (snap i 0) T)) (view S (posed (snap i 0) T)).valid img) b n =
        (stillPixels S i b 1)[n]?.map fun x => worldValue S i b 0 (G b) x X := by
    intro X img hX b hb n
    rw [still_one, Fusion.vecAt_picked (hvB b hb), hpx b hb, List.getElem?_map, Option.map_map]
    cases hx : (depthPixels i b 0)[n]? with
    | none => rfl
    | some x =>
      obtain ⟨_, i2, i3, i4⟩ := himg b hb n x hx
      rw [hT b hb] at i2 i3 i4
      simp only [Option.map_some, Function.comp, Option.some.injEq]
      simp only [List.mem_cons, Prod.mk.injEq, List.not_mem_nil, or_false] at hX
      rcases hX with ⟨rfl, rfl⟩ | ⟨rfl, rfl⟩ | ⟨rfl, rfl⟩
      · exact i2
      · exact i3
      · exact i4
  refine ⟨fun X hX => ?_, ?_⟩
  · cases X
    · exact ⟨_, rfl, hvec .points _ (by simp)⟩
    · exact ⟨_, rfl, hvec .normals _ (by simp)⟩
    · exact ⟨_, rfl, hvec .colors _ (by simp)⟩
    · exact absurd rfl hX
  · refine ⟨_, rfl, fun t ht => ?_, fun b hb n => ?_⟩
    · simp only [Fusion.pickedAl, List.mem_map] at ht
      obtain ⟨b, _, rfl⟩ := ht; rfl
    · rw [still_one]
      have : Fusion.rowAt (Fusion.pickedAl S.al (view S (posed (snap i 0) T)) (view S (posed (snap i 0) T)).valid) b n =
          ((depthPixels i b 0).map fun x => (0, x.1, x.2))[n]?.map fun x : Nat × Nat × Nat => [S.al ((view S (posed (snap i 0) T)).v b x.1 x.2.1 x.2.2)] := by
        rw [← hpx b hb]
        simp only [Fusion.rowAt, Fusion.pickedAl, List.getElem?_map, List.getElem?_range (hvB b hb), Option.map_some, Option.bind_some]
      rw [this, List.getElem?_map, Option.map_map]
      cases hx : (depthPixels i b 0)[n]? with
      | none => rfl
      | some x =>
        obtain ⟨i1, _⟩ := himg b hb n x hx
        have e : (view S (posed (snap i 0) T)).v b 0 x.1 x.2 = Rgbd.vertexAt S.eps i b 0 x.1 x.2 := i1
        simp only [Option.map_some, Function.comp, Option.some.injEq, List.cons.injEq, and_true, e, stillConf]
        split_ifs <;> simp
end
end Verif.Slam
