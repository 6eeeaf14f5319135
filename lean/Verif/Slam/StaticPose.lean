import Verif.Slam.Static
/-!
C73 and C74: a camera that does not move in a scene that does not change.  Every odometry finds that it does not move (C73); C74 says what the maps contain.
-/
namespace Verif.Slam
open Verif Pcs
set_option linter.unusedSectionVars false
set_option linter.unusedSimpArgs false

section
variable {α : Type*} [Field α] [LinearOrder α] [IsStrictOrderedRing α] [FloorRing α]

/-- The points of the map are the measured points of the first frame (each at least once). -/
structure Covers (S : Sys α) (i : Rgbd.In α) (G : Nat → M4 α) (P : List (T2 α)) : Prop where
  only : ∀ b < i.B, ∀ n q, Fusion.vecAt P b n = some q → ∃ x ∈ depthPixels i b 0, q = worldValue S i b 0 (G b) x .points
  all : ∀ b < i.B, ∀ x ∈ depthPixels i b 0, ∃ n, Fusion.vecAt P b n = some (worldValue S i b 0 (G b) x .points)

theorem still_covers {S : Sys α} {i : Rgbd.In α} {G : Nat → M4 α} {k : Nat} {a : Clouds α} (h : StillMap S i G k a) {P : List (T2 α)}
    (hP : a .points = some P) : Covers S i G P := by
  obtain ⟨l, hl, hv⟩ := h.vec .points (by simp)
  rw [hP] at hl; cases hl
  refine ⟨fun b hb n q hq => ?_, fun b hb x hx => ?_⟩
  · rw [hv b hb, Option.map_eq_some_iff] at hq
    obtain ⟨x, hx, rfl⟩ := hq
    exact ⟨x, mem_still (List.mem_of_getElem? hx), rfl⟩
  · obtain ⟨n, hn⟩ := List.mem_iff_getElem?.1 hx
    exact ⟨n, by rw [hv b hb, first_index S i hn]; rfl⟩

theorem aggregate_covers {S : Sys α} (hS : S.mapper = .aggregate) {frames : Rgbd.Obj α} {i : Rgbd.In α} (hsame : SameFrames i) {G : Nat → M4 α}
    {Ts : List (Rgbd.TM α)} {a : Clouds α} (r : Run S frames i Ts a) (hne : Ts ≠ []) (hl : Ts.length ≤ i.L) (hT : ∀ T ∈ Ts, ∀ b < i.B, T.at' b 0 = G b)
    {P : List (T2 α)} (hP : a .points = some P) : Covers S i G P := by
  have h := (icpslam_map_content hS r hne).2 .points (by simp)
  rw [hP] at h; cases h
  have key : ∀ b < i.B, ∀ n, Fusion.vecAt ((List.range i.B).map fun b => (⟨Ts.zipIdx.flatMap fun Tt => contribution (snap i Tt.2)
      (attrImg S (posed (snap i Tt.2) Tt.1) .points) b, 3⟩ : T2 α)) b n =
      (((List.range Ts.length).flatMap fun _ => depthPixels i b 0)[n]?).map fun x => worldValue S i b 0 (G b) x .points := by
    intro b hb n
    have e : (Ts.zipIdx.flatMap fun Tt => contribution (snap i Tt.2) (attrImg S (posed (snap i Tt.2) Tt.1) .points) b) =
        (List.range Ts.length).flatMap fun _ => (depthPixels i b 0).map fun x => (worldValue S i b 0 (G b) x .points).toList := by
      refine zipIdx_range Ts fun t T hT' => ?_
      have ht : t < i.L := lt_of_lt_of_le (List.getElem?_eq_some_iff.1 hT').1 hl
      rw [contribution_eq S i hb T (by simp), hT T (List.mem_of_getElem? hT') b hb]
      have hd : depthPixels i b t = depthPixels i b 0 := by rw [depthPixels, depthPixels, hsame.depth b hb t ht]
      rw [hd]
      exact List.map_congr_left fun x _ => by rw [(same_images (S := S) hsame hb ht (G b)).2.2]
    simp only [Fusion.vecAt, Fusion.rowAt, List.getElem?_map, List.getElem?_range hb, Option.map_some, Option.bind_some, e]
    rw [← List.map_flatMap, List.getElem?_map, Option.map_map]
    rfl
  refine ⟨fun b hb n q hq => ?_, fun b hb x hx => ?_⟩
  · rw [key b hb, Option.map_eq_some_iff] at hq
    obtain ⟨x, hx, rfl⟩ := hq
    have := List.mem_of_getElem? hx
    rw [List.mem_flatMap] at this
    obtain ⟨_, _, hx⟩ := this
    exact ⟨x, hx, rfl⟩
  · have : x ∈ (List.range Ts.length).flatMap fun _ => depthPixels i b 0 :=
      List.mem_flatMap.2 ⟨0, by simpa [List.length_pos_iff] using hne, hx⟩
    obtain ⟨n, hn⟩ := List.mem_iff_getElem?.1 this
    exact ⟨n, by rw [key b hb, hn]; rfl⟩
end

/-! ### Odometry -/

theorem normSq_zero {v : V3 ℝ} (h : v.normSq ≤ 0) : v = V3.zero := by
  have h1 : v.x * v.x + v.y * v.y + v.z * v.z ≤ 0 := h
  have := mul_self_nonneg v.x
  have := mul_self_nonneg v.y
  have := mul_self_nonneg v.z
  ext
  · exact mul_self_eq_zero.1 (by linarith)
  · exact mul_self_eq_zero.1 (by linarith)
  · exact mul_self_eq_zero.1 (by linarith)

/-- A cloud all of whose points are target points has no point-to-plane error. -/
theorem planeErr_subset {nn : List (V3 ℝ) → V3 ℝ → Nat} (hn : Icp.NearestIn nn) (th : Option ℝ) {tgt : List (V3 ℝ)} (nrm : List (V3 ℝ)) {src : List (V3 ℝ)}
    (hne : tgt ≠ []) (h : ∀ s ∈ src, s ∈ tgt) : Icp.planeErr nn th tgt nrm src = 0 := by
  unfold Icp.planeErr
  refine List.sum_eq_zero fun e he => ?_
  rw [List.mem_map] at he
  obtain ⟨s, hs, rfl⟩ := he
  obtain ⟨d, hd, hmin⟩ := hn tgt s hne
  have hz : s.sub d = V3.zero := by
    refine normSq_zero ((hmin s (h s (List.mem_filter.1 hs).1)).trans (le_of_eq ?_))
    simp [V3.normSq, V3.dot, V3.sub]
  have : tgt.getD (nn tgt s) V3.zero = d := by rw [List.getD_eq_getElem?_getD, hd]; rfl
  rw [Icp.planeDist, this, hz]
  simp [V3.dot, V3.zero]

theorem transform_one (l : List (V3 ℝ)) : Geom.transformPointcloud (M4.one : M4 ℝ) l = l := by
  simp only [Geom.transformPointcloud]
  conv_rhs => rw [← List.map_id l]
  refine List.map_congr_left fun x _ => ?_
  ext <;> simp [M4.one, M3.one, M3.mulVec, V3.dot, V3.add, V3.zero]

/-- Both registrations answer the identity if every frame point is a map point. -/
theorem made_identity {nn : List (V3 ℝ) → V3 ℝ → Nat} (hnn : Icp.NearestIn nn) {epsE eps : ℝ} (hE : 0 < epsE) {nrm : V3 ℝ → ℝ} {p : Params} {odom : String}
    {S : Sys ℝ} (h : Made nn epsE eps nrm p odom S) (hit : 1 ≤ p.numiters) (hdamp : 0 < p.damp) (hlm : 1 < p.lambdaMax)
    {provide : PC ℝ → PC ℝ → Except Icp.Err (List (M4 ℝ))} (hS : S.odom = .prov provide) {maps fr : PC ℝ} {am af : Clouds ℝ} {P Q Nn : List (T2 ℝ)}
    (hm : Inv maps am) (hf : Inv fr af) (hQ : am .points = some Q) (hN : am .normals = some Nn) (hP : af .points = some P) (hl : Q.length = P.length)
    (hne : ∀ t ∈ Q, t.rows ≠ []) (hsub : ∀ (b : Nat) (p' q : T2 ℝ), P[b]? = some p' → Q[b]? = some q → ∀ s ∈ Icp.vecs p', s ∈ Icp.vecs q) :
    provide maps fr = .ok (List.replicate P.length M4.one) := by
  have hwm := Fusion.wf_of_inv hm hQ
  have fin : ∀ (T : Nat → M4 ℝ), (∀ (b : Nat) (p q m : T2 ℝ), P[b]? = some p → Q[b]? = some q → Nn[b]? = some m → T b = M4.one) →
      (List.range P.length).map T = List.replicate P.length M4.one := by
    intro T hT
    rw [List.eq_replicate_iff]
    refine ⟨by simp, fun x hx => ?_⟩
    rw [List.mem_map] at hx
    obtain ⟨b, hb, rfl⟩ := hx
    rw [List.mem_range] at hb
    exact hT b _ _ _ (List.getElem?_eq_getElem hb) (List.getElem?_eq_getElem (hl.symm ▸ hb))
      (List.getElem?_eq_getElem (by rw [hwm.length hN]; exact hl.symm ▸ hb))
  have herr : ∀ (b : Nat) (p' q m : T2 ℝ), P[b]? = some p' → Q[b]? = some q → Icp.planeErr nn p.distThresh (Icp.vecs q) (Icp.vecs m) (Icp.vecs p') = 0 := by
    intro b p' q m hp hq
    refine planeErr_subset hnn _ _ ?_ (hsub b p' q hp hq)
    have := hne q (List.mem_of_getElem? hq)
    simpa [Icp.vecs] using this
  rcases odom_cases (made_cases h).1 with ⟨_, hc⟩ | ⟨_, hc⟩ | ⟨_, hc⟩ <;> rw [hc] at hS <;> cases hS
  · obtain ⟨T, e, hT⟩ := Icp.icp_provider hnn epsE (th := p.distThresh) hdamp hit hm hf hQ hN hP hl hne
    rw [e, fin T]
    intro b p' q m hp hq hmm
    obtain ⟨⟨τ, d, h0, _, htr, hTb⟩, _⟩ := hT b p' q m hp hq hmm
    rw [hTb, Icp.lm_fixed_at_zero htr (by rw [h0, transform_one]; exact herr b p' q m hp hq) le_rfl, h0]
  · obtain ⟨T, e, hT⟩ := Icp.gradicp_provider (eps := epsE) (B := p.B) (B2 := p.B2) (nu := p.nu) hnn hlm (th := p.distThresh) hdamp hit hm hf hQ hN hP hl hne
    rw [e, fin T]
    intro b p' q m hp hq hmm
    obtain ⟨τ, d, h0, hd0, htr, hTb⟩ := hT b p' q m hp hq hmm
    rw [hTb, Icp.grad_fixed_at_zero hE hlm (by rw [hd0]; exact hdamp) htr (by rw [h0, transform_one]; exact herr b p' q m hp hq) le_rfl, h0]

/-- The answer to the question put to the provider is the identity for every batch element. -/
theorem still_answer {nn : List (V3 ℝ) → V3 ℝ → Nat} (hnn : Icp.NearestIn nn) {epsE eps : ℝ} (hE : 0 < epsE) {nrm : V3 ℝ → ℝ} {p : Params} {odom : String}
    {S : Sys ℝ} (h : Made nn epsE eps nrm p odom S) (hit : 1 ≤ p.numiters) (hdamp : 0 < p.damp) (hlm : 1 < p.lambdaMax)
    {provide : PC ℝ → PC ℝ → Except Icp.Err (List (M4 ℝ))} (hS : S.odom = .prov provide) {i : Rgbd.In ℝ} (hsame : SameFrames i) {G : Nat → M4 ℝ}
    (hG : ∀ b < i.B, (G b).R.transpose.mul (G b).R = M3.one) (hre : ∀ b < i.B, ∀ x ∈ depthPixels i b 0, Reprojects S i b x.1 x.2)
    (hgrid : ∀ b < i.B, ∃ x ∈ depthPixels i b 0, p.ds ∣ (x.1 : Int) ∧ p.ds ∣ (x.2 : Int)) {a : Clouds ℝ} {P Nn : List (T2 ℝ)}
    (hP : a .points = some P) (hN : a .normals = some Nn) (hw : Wf a P) (hPl : P.length = i.B) (hcov : Covers S i G P) {k : Nat} (hk : k < i.L) {j : Nat}
    {Q : Rgbd.TM ℝ} (hQ : ∀ b < i.B, Q.at' b 0 = G b) {maps fr : PC ℝ} (hq : Question S a P (snap i k) (posed (snap i j) Q) Q maps fr) :
    provide maps fr = .ok (List.replicate i.B M4.one) := by
  obtain ⟨_, hds, _, _, _⟩ := made_cases h
  obtain ⟨rows, ar, im⟩ := hq.maps
  obtain ⟨px, hfr, hpx⟩ := hq.frames
  obtain ⟨Sp1, _, SpH, SpW, Sp⟩ := snap_spec i k
  obtain ⟨Sj1, _, SjH, SjW, Sj⟩ := snap_spec i j
  have hmp : Icp.mapAt a P.length S.ds rows .points = some ((List.range P.length).map fun b =>
      ⟨(Icp.onGridOf S.ds rows b).map fun r => (Fusion.rowAt P b r.n).getD [], 3⟩) := by
    simp only [Icp.mapAt, hP, Option.map_some]
  have hmn : Icp.mapAt a P.length S.ds rows .normals = some ((List.range P.length).map fun b =>
      ⟨(Icp.onGridOf S.ds rows b).map fun r => (Fusion.rowAt Nn b r.n).getD [], 3⟩) := by
    simp only [Icp.mapAt, hN, Option.map_some]
  have hfp : Icp.framesAt (Fusion.Frame.ofIn S.nrm S.eps { snap i k with poses := some Q.at' }) px .points = some ((List.range (snap i k).B).map fun b =>
      Icp.cloudOf (px b) (Rgbd.gvertexAt S.eps (posed (snap i k) Q) b 0)) := rfl
  -- grid pixels are in the sampled map
  have hin : ∀ b < i.B, ∀ x ∈ depthPixels i b 0, p.ds ∣ (x.1 : Int) → p.ds ∣ (x.2 : Int) →
      ∃ r ∈ Icp.onGridOf S.ds rows b, Fusion.vecAt P b r.n = some (worldValue S i b 0 (G b) x .points) := by
    intro b hb x hx d1 d2
    obtain ⟨n, hn⟩ := hcov.all b hb x hx
    obtain ⟨r1, r2, r3⟩ := hre b hb x hx
    obtain ⟨m1, m2, _⟩ := (mem_depthPixels i b 0 x).1 hx
    have hK : (posed (snap i j) Q).K b = i.K b := (Sj b hb).2.2.1
    have hc : Fusion.toCamera (G b) (worldValue S i b 0 (G b) x .points) = Rgbd.vertexAt S.eps i b 0 x.1 x.2 := toCamera_world (hG b hb) _
    have hH : (posed (snap i j) Q).H = i.H := SjH
    have hW : (posed (snap i j) Q).W = i.W := SjW
    refine ⟨⟨b, n, x.1, x.2⟩, ?_, hn⟩
    rw [Icp.onGridOf, List.mem_filter]
    refine ⟨?_, by rw [hds]; simp [d1, d2]⟩
    rw [ar.mem]
    refine ⟨hH.symm ▸ m1, hW.symm ▸ m2, _, hn, ?_, ?_, ?_⟩
    · simp only [hK, hH, hW, hQ b hb, hc]; exact r1
    · simp only [hK, hQ b hb, hc]; exact r2
    · simp only [hK, hQ b hb, hc]; exact r3
  have := made_identity hnn hE h hit hdamp hlm hS im hfr hmp hmn hfp (by rw [List.length_map, List.length_map, List.length_range, List.length_range, hPl, Sp1]) ?_ ?_
  · rw [this, List.length_map, List.length_range, Sp1]
  · intro t ht
    rw [List.mem_map] at ht
    obtain ⟨b, hb, rfl⟩ := ht
    rw [List.mem_range, hPl] at hb
    obtain ⟨x, hx, d1, d2⟩ := hgrid b hb
    obtain ⟨r, hr, _⟩ := hin b hb x hx d1 d2
    simp only [ne_eq, List.map_eq_nil_iff]
    exact List.ne_nil_of_mem hr
  · intro b p' q hp hq' s hs
    have hb : b < i.B := by
      have := (List.getElem?_eq_some_iff.1 hp).1
      rw [List.length_map, List.length_range, Sp1] at this; exact this
    rw [List.getElem?_map, List.getElem?_range (by rw [Sp1]; exact hb), Option.map_some, Option.some.injEq] at hp
    rw [List.getElem?_map, List.getElem?_range (by rw [hPl]; exact hb), Option.map_some, Option.some.injEq] at hq'
    subst hp; subst hq'
    simp only [Icp.vecs, Icp.cloudOf, List.map_map, List.mem_map, Function.comp] at hs ⊢
    obtain ⟨x, hx, rfl⟩ := hs
    obtain ⟨e1, e2, e3, e4, e5⟩ := ((hpx b (Sp1.symm ▸ hb)).2 x.1 x.2).1 hx
    have hdep : (snap i k).depth b 0 = i.depth b 0 := by rw [(Sp b hb).2.1, hsame.depth b hb k hk]
    rw [hdep] at e5
    rw [SpH] at e1; rw [SpW] at e2
    obtain ⟨r, hr, hv⟩ := hin b hb x ((mem_depthPixels i b 0 x).2 ⟨e1, e2, e5⟩) (hds ▸ e3) (hds ▸ e4)
    refine ⟨r, hr, ?_⟩
    have hi := (image_world S i (t := k) hb Q (y := x.1) (x := x.2) (by rw [hsame.depth b hb k hk]; exact e5)).2.1
    rw [hQ b hb, (same_images (S := S) hsame hb hk (G b)).2.2] at hi
    simp only [Fusion.vecAt, Option.map_eq_some_iff] at hv
    obtain ⟨row, hrow, hv⟩ := hv
    rw [hrow, Option.getD_some, hv]
    rw [hi]; rfl

end Verif.Slam
