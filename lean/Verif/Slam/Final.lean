import Verif.Slam.Map
/-!
C51 and C49 for the maps `forward` returns, in terms of the getters of the returned map and the returned poses.
-/
namespace Verif.Slam
open Verif Pcs
set_option linter.unusedSectionVars false
set_option linter.unusedSimpArgs false

section
variable {α : Type*} [Field α] [LinearOrder α] [IsStrictOrderedRing α] [FloorRing α]

/-- The pixels with depth of frame `t` of sequence `b`, row by row. -/
def depthPixels (i : Rgbd.In α) (b t : Nat) : List (Nat × Nat) :=
  ((List.range i.H).flatMap fun h => (List.range i.W).map fun w => (h, w)).filter fun x => decide (0 < i.depth b t x.1 x.2)

/-- What a pixel with depth of a frame contributes to the map if the frame's pose is `T`: its surface point and normal in world
coordinates, and its colour. -/
def worldValue (S : Sys α) (i : Rgbd.In α) (b t : Nat) (T : M4 α) (x : Nat × Nat) : Attr → V3 α
  | .points => (T.R.mulVec (Rgbd.vertexAt S.eps i b t x.1 x.2)).add T.t
  | .normals => T.R.mulVec (Rgbd.normalAt S.nrm S.eps i b t x.1 x.2)
  | .colors => i.rgb b t x.1 x.2
  | .features => V3.zero

theorem pixels_one (H W : Nat) (m : Nat → Nat → Nat → Bool) : Fusion.pixels 1 H W m =
    (((List.range H).flatMap fun h => (List.range W).map fun w => (h, w)).filter fun x => m 0 x.1 x.2).map fun x => (0, x.1, x.2) := by
  have e : ((List.range H).flatMap fun h => (List.range W).map fun w => ((0 : Nat), h, w)) =
      ((List.range H).flatMap fun h => (List.range W).map fun w => (h, w)).map fun x => (0, x.1, x.2) := by
    simp only [List.map_flatMap, List.map_map, Function.comp_def]
  rw [Fusion.pixels, List.range_one, List.flatMap_cons, List.flatMap_nil, List.append_nil, e, List.filter_map]
  rfl

theorem zipIdx_range {β γ : Type*} (Ts : List β) {f : β × Nat → List γ} {g : Nat → List γ} (h : ∀ (t : Nat) T, Ts[t]? = some T → f (T, t) = g t) :
    Ts.zipIdx.flatMap f = (List.range Ts.length).flatMap g := by
  induction Ts using List.reverseRecOn with
  | nil => rfl
  | append_singleton Ts T ih =>
    rw [List.zipIdx_append, List.flatMap_append, List.length_append, List.length_singleton, List.range_succ, List.flatMap_append,
      ih fun t U hU => h t U (by rw [List.getElem?_append_left (List.getElem?_eq_some_iff.1 hU).1]; exact hU)]
    have := h Ts.length T (by simp)
    simp [this]

theorem contribution_eq (S : Sys α) (i : Rgbd.In α) {b t : Nat} (hb : b < i.B) (T : Rgbd.TM α) {X : Attr} (hX : X ≠ .features) :
    contribution (snap i t) (attrImg S (posed (snap i t) T) X) b =
      (depthPixels i b t).map fun x => (worldValue S i b t (T.at' b 0) x X).toList := by
  obtain ⟨_, _, hH, hW, h⟩ := snap_spec i t
  obtain ⟨h1, h2, h3, h4, _⟩ := h b hb
  have hv : ∀ y x, Rgbd.vertexAt S.eps (posed (snap i t) T) b 0 y x = Rgbd.vertexAt S.eps i b t y x := by
    intro y x
    simp only [Rgbd.vertexAt, posed, h2, h3, h4]
  have hn : ∀ y x, Rgbd.normalAt S.nrm S.eps (posed (snap i t) T) b 0 y x = Rgbd.normalAt S.nrm S.eps i b t y x := by
    intro y x
    have e1 : (posed (snap i t) T).W = i.W := hW
    have e2 : (posed (snap i t) T).H = i.H := hH
    have e3 : (posed (snap i t) T).depth b 0 y x = i.depth b t y x := by show (snap i t).depth b 0 y x = _; rw [h2]
    simp only [Rgbd.normalAt, Rgbd.tanW, Rgbd.tanH, hv, e1, e2, e3]
  rw [contribution, pixels_one, List.map_map, hH, hW, h2]
  refine List.map_congr_left fun x hx => ?_
  have hd : 0 < i.depth b t x.1 x.2 := by simpa using (List.mem_filter.1 hx).2
  have hd' : 0 < (posed (snap i t) T).depth b 0 x.1 x.2 := by show 0 < (snap i t).depth b 0 x.1 x.2; rw [h2]; exact hd
  simp only [Function.comp]
  cases X with
  | points =>
    show (Rgbd.gvertexAt S.eps (posed (snap i t) T) b 0 x.1 x.2).toList = _
    have e : Rgbd.gvertexAt S.eps (posed (snap i t) T) b 0 x.1 x.2 =
        if 0 < (posed (snap i t) T).depth b 0 x.1 x.2 then
          ((T.at' b 0).R.mulVec (Rgbd.vertexAt S.eps (posed (snap i t) T) b 0 x.1 x.2)).add (T.at' b 0).t else V3.zero := rfl
    rw [e, if_pos hd', hv]; rfl
  | normals =>
    show (Rgbd.gnormalAt S.nrm S.eps (posed (snap i t) T) b 0 x.1 x.2).toList = _
    rw [Rgbd.gnormalAt]
    simp only [posed, worldValue]
    rw [← hn x.1 x.2]; rfl
  | colors =>
    show ((snap i t).rgb b 0 x.1 x.2).toList = _
    rw [h1]; rfl
  | features => exact absurd rfl hX

/-- **C51** (`ICPSLAM`).  The map returned by `forward` is exactly the concatenation, over the frames in order, of the frame's pixels with
depth in row-major order: their points and normals transformed by the pose returned for that frame, and their colours. -/
theorem icpslam_returns_all_pixels {S : Sys α} {frames : Rgbd.Obj α} {i : Rgbd.In α} (hf : SeqOk S frames i) (hs : SysOk S i)
    (hS : S.mapper = .aggregate) (hL : 0 < i.L) {m : PC α} {R : Rgbd.TM α} (h : forward S frames = .ok (m, R)) :
    (getList .features m).1 = none ∧ ∀ X, X ≠ .features → (getList X m).1 = some ((List.range i.B).map fun b =>
      ⟨(List.range i.L).flatMap fun t => (depthPixels i b t).map fun x => (worldValue S i b t (R.at' b t) x X).toList, 3⟩) := by
  rcases forward_run hf hs with ⟨m', R', Ts, a, e, r, hl, hm, _, _, _, hR⟩ | ⟨e, Ts, a, e1, _⟩
  swap
  · rw [h] at e1; cases e1
  rw [h] at e; cases e
  have hne : Ts ≠ [] := by intro h; rw [h] at hl; simp at hl; omega
  obtain ⟨h1, h2⟩ := icpslam_map_content hS r hne
  have o := inv_obs hm.inv
  refine ⟨by rw [o.list, h1], fun X hX => ?_⟩
  rw [o.list, h2 X hX]
  congr 1
  refine List.map_congr_left fun b hb => ?_
  rw [List.mem_range] at hb
  congr 1
  rw [zipIdx_range Ts (g := fun t => (depthPixels i b t).map fun x => (worldValue S i b t (R.at' b t) x X).toList) ?_, hl]
  intro t T hT
  rw [contribution_eq S i hb T hX, hR t T hT b]

/-- **C51** (`PointFusion`).  In the map returned by `forward`, the confidences of each cloud add up to the weights of all pixels with depth
of all frames, and the number of points is at least the number of such pixels of the first frame and at most that of all frames. -/
theorem pointfusion_returns_all_weight {S : Sys α} {frames : Rgbd.Obj α} {i : Rgbd.In α} (hf : SeqOk S frames i) (hs : SysOk S i) {d t : α}
    (hS : S.mapper = .fusion d t) (ht : 0 ≤ t) (hL : 0 < i.L) {m : PC α} {R : Rgbd.TM α} (h : forward S frames = .ok (m, R)) :
    ∃ P F, (getList .points m).1 = some P ∧ (getList .features m).1 = some F ∧ P.length = i.B ∧ ∀ b < i.B,
      Fusion.totalConf F b = ((List.range i.L).map fun s => ((depthPixels i b s).map fun x => S.al (Rgbd.vertexAt S.eps i b s x.1 x.2)).sum).sum ∧
      Fusion.sizeAt P b ≤ ((List.range i.L).map fun s => (depthPixels i b s).length).sum ∧
      (depthPixels i b 0).length ≤ Fusion.sizeAt P b := by
  rcases forward_run hf hs with ⟨m', R', Ts, a, e, r, hl, hm, _, _, _, hR⟩ | ⟨e, Ts, a, e1, _⟩
  swap
  · rw [h] at e1; cases e1
  rw [h] at e; cases e
  have hne : Ts ≠ [] := by intro h; rw [h] at hl; simp at hl; omega
  obtain ⟨P, F, hP, hF, hall⟩ := pointfusion_total_weight hS ht r hne
  have o := inv_obs hm.inv
  have hpx : ∀ b < i.B, ∀ s, Fusion.pixels 1 i.H i.W (fun l h w => decide (0 < (snap i s).depth b l h w)) = (depthPixels i b s).map fun x => (0, x.1, x.2) := by
    intro b hb s
    rw [pixels_one, ((snap_spec i s).2.2.2.2 b hb).2.1]; rfl
  refine ⟨P, F, by rw [o.list, hP], by rw [o.list, hF], (run_wf hf.B r P hP).2.1, fun b hb => ?_⟩
  obtain ⟨h1, h2⟩ := hall b hb
  refine ⟨?_, ?_, ?_⟩
  · rw [h1, hl]
    congr 1
    refine List.map_congr_left fun s _ => ?_
    have := (snap_spec i s)
    obtain ⟨g1, g2, g3, g4, _⟩ := this.2.2.2.2 b hb
    rw [frameWeight, this.2.2.1, this.2.2.2.1, hpx b hb, List.map_map]
    congr 1
    refine List.map_congr_left fun x _ => ?_
    simp only [Function.comp, Rgbd.vertexAt, g2, g3, g4]
  · rw [hl] at h2
    refine h2.trans (le_of_eq ?_)
    congr 1
    refine List.map_congr_left fun s _ => ?_
    rw [hpx b hb, List.length_map]
  · obtain ⟨a1, r1, g1⟩ := map_never_shrinks hf.B r 1 (by omega)
    have hne1 : Ts.take 1 ≠ [] := by
      intro h
      have := congrArg List.length h
      rw [List.length_take, List.length_nil] at this; omega
    obtain ⟨P1, F1, hP1, hF1, _⟩ := pointfusion_total_weight hS ht r1 hne1
    obtain ⟨P', hP', _, hsz⟩ := g1.size P1 hP1
    rw [hP] at hP'; cases hP'
    refine le_trans (le_of_eq ?_) (hsz b)
    have hl1 : (Ts.take 1).length = 1 := by rw [List.length_take]; omega
    generalize Ts.take 1 = Us at r1 hl1
    cases r1 with
    | start => cases hl1
    | @next Us a0 T' _ r0 hloc hc =>
      have hU : Us = [] := by simpa using hl1
      subst hU
      have ha0 := (run_empty r0).1 rfl
      subst ha0
      unfold MapChange at hc
      rw [hS] at hc; simp only [emptyClouds] at hc
      rw [hc] at hP1
      cases hP1
      rw [sizeAt_picked _ _ _ (show b < (posed (snap i 0) T').B from (snap_spec i 0).1.symm ▸ hb), ← List.length_map (f := fun x : Nat × Nat => (0, x.1, x.2)),
        ← hpx b hb 0]
      rfl

/-- **C49, C51** (prefixes).  If `forward` succeeds, so does `forward` on `frames[:, 0:k]`; every cloud of the final map has at least as many
points as in the map after `k` frames, and for `ICPSLAM` the rows of all attributes of the map after `k` frames are found unchanged at
the same indices of the final map. -/
theorem forward_map_grows {S : Sys α} {frames pre : Rgbd.Obj α} {i : Rgbd.In α} (hf : SeqOk S frames i) (hs : SysOk S i)
    (hx : ∀ provide, S.odom = .prov provide → Ext provide) {k : Nat} (hk : 0 < k) (hkL : k ≤ i.L)
    (h : Rgbd.getitem (.tup [.slice none none none, .slice (some 0) (some k) none]) frames = .ok pre)
    {m : PC α} {R : Rgbd.TM α} (hfw : forward S frames = .ok (m, R)) :
    ∃ m' R' P' P, forward S pre = .ok (m', R') ∧ (getList .points m').1 = some P' ∧ (getList .points m).1 = some P ∧ P'.length = P.length ∧
      (∀ b, Fusion.sizeAt P' b ≤ Fusion.sizeAt P b) ∧
      (S.mapper = .aggregate → ∀ X l', (getList X m').1 = some l' → ∃ l, (getList X m).1 = some l ∧
        ∀ b n row, Fusion.rowAt l' b n = some row → Fusion.rowAt l b n = some row) := by
  obtain ⟨ip, hp, hL, hss⟩ := seq_prefix hf hk hkL h
  obtain ⟨m', R', hpre, _⟩ := (forward_prefix hf hs hx hk hkL h).1 m R hfw
  have hsp : SysOk S ip := by
    refine ⟨hs.ds, hs.prov, ?_⟩
    rcases hs.map with h | ⟨h1, h2, h3, h4, h5⟩
    · exact .inl h
    · refine .inr ⟨h1, hss.B ▸ h2, hss.H ▸ h3, hss.W ▸ h4, ?_⟩
      rw [hss.H, hss.W, hL]
      exact (Nat.mul_le_mul_right _ hkL).trans h5
  rcases forward_run hf hs with ⟨m1, R1, Ts, a, e, r, hl, hm, _⟩ | ⟨e, Ts, a, e1, _⟩
  swap
  · rw [hfw] at e1; cases e1
  rw [hfw] at e; cases e
  rcases forward_run hp hsp with ⟨m2, R2, Us, c, e, rp, hlp, hmp, _⟩ | ⟨e, Us, c, e1, _⟩
  swap
  · rw [hpre] at e1; cases e1
  rw [hpre] at e; cases e
  obtain ⟨ak, rk, gk⟩ := map_never_shrinks hf.B r k (by omega)
  have rt := run_transfer hss hf.B rk (by simp)
  obtain ⟨_, rfl⟩ := run_unique hx rt rp (by simp; omega)
  have o := inv_obs hm.inv
  have op := inv_obs hmp.inv
  have hne : Us ≠ [] := by intro h; rw [h] at hlp; simp at hlp; omega
  obtain ⟨P', hP'⟩ := Option.ne_none_iff_exists'.1 ((run_empty rp).2 hne)
  obtain ⟨P, hP, hlen, hsz⟩ := gk.size P' hP'
  refine ⟨m', R', P', P, hpre, by rw [op.list, hP'], by rw [o.list, hP], hlen.symm, hsz, fun hS X l' hl' => ?_⟩
  rw [op.list] at hl'
  obtain ⟨l, hl, hrow⟩ := gk.keep hS X l' hl'
  exact ⟨l, by rw [o.list, hl], hrow⟩

end
end Verif.Slam
