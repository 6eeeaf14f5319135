import Verif.Data.BatchSets
import Verif.Slam.Final
import Verif.Slam.Props
/-!
Property C69: from the files of a dataset to the map of ICP-SLAM with ground-truth odometry (examples/icpslam.py with `--odometry gt`).
-/
namespace Verif.Slam
open Verif Pcs Verif.Data
set_option linter.unusedSectionVars false

section
variable {α : Type} [Field α] [LinearOrder α] [IsStrictOrderedRing α] [FloorRing α]

/-- The depth reading used for pixel `(y, x)` of the resized image of depth file `p`. -/
def reading {P : Type} (row col : Nat → Nat → Nat → Nat) (o : Opts) (read : P → Tensor α) (p : P) (y x : Nat) : α :=
  (read p).get [row ((read p).shape.getD 0 0) o.height y, col ((read p).shape.getD 1 0) o.width x]

/-- The pixels of one frame with a positive reading, row by row. -/
def readPixels {P : Type} (row col : Nat → Nat → Nat → Nat) (o : Opts) (read : P → Tensor α) (p : P) : List (Nat × Nat) :=
  ((List.range o.height).flatMap fun y => (List.range o.width).map fun x => (y, x)).filter fun x => decide (0 < reading row col o read p x.1 x.2)

/-- One frame of a dataset: its stored pose and the files of its depth and colour images. -/
structure Stored (α P : Type) where
  pose : M4 α
  depth : P
  color : P

/-- World positions of everything measured in the given frames, frame by frame. -/
def measured {P : Type} (row col : Nat → Nat → Nat → Nat) (o : Opts) (read : P → Tensor α) (scale eps : α) (K : M4 α) (fr : List (Stored α P)) : List (V3 α) :=
  fr.flatMap fun f => (readPixels row col o read f.depth).map fun x =>
    applyPose f.pose (cameraPoint (K.R.r0.x + eps) (K.R.r1.y + eps) K.R.r0.z K.R.r1.z (reading row col o read f.depth x.1 x.2 / scale) x.2 x.1)

/-- The colour of pixel `(y, x)` of the resized colour image, divided by 255 if asked. -/
def colourOf (R : Resize α) (o : Opts) (img : Tensor α) (y x : Nat) : V3 α :=
  let v (c : Nat) := (R.linear o.height o.width img).get [y, x, c] / (if o.normalize then 255 else 1)
  ⟨v 0, v 1, v 2⟩

/-- The colours of the pixels of `measured`. -/
def colours {P : Type} (R : Resize α) (row col : Nat → Nat → Nat → Nat) (o : Opts) (readD readC : P → Tensor α) (fr : List (Stored α P)) : List (V3 α) :=
  fr.flatMap fun f => (readPixels row col o readD f.depth).map fun x => colourOf R o (readC f.color) x.1 x.2

theorem range_flatMap {β γ : Type} (l : List β) {g : Nat → List γ} {f : β → List γ} (h : ∀ (k : Nat) x, l[k]? = some x → g k = f x) :
    (List.range l.length).flatMap g = l.flatMap f := by
  induction l using List.reverseRecOn with
  | nil => rfl
  | append_singleton l x ih =>
    rw [List.length_append, List.length_singleton, List.range_succ, List.flatMap_append, List.flatMap_append,
      ih fun k y hk => h k y (by rw [List.getElem?_append_left (List.getElem?_eq_some_iff.1 hk).1]; exact hk)]
    have := h l.length x (by simp)
    simp [this]

/-- **C69**, any dataset.  ICP-SLAM with ground-truth odometry, run on a batch of dataset items: it succeeds; the returned poses are the stored poses
relative to the first frame of the item; in cloud `b` of the map, moved by the stored pose of the first frame, the points are exactly the
measured world positions of all pixels with a positive reading, frame by frame and row by row, with their colours. -/
theorem dataset_slam {row col : Nat → Nat → Nat → Nat} {o : Opts} {scale : α} (hsc : 0 < scale) {P : Type} {R : Resize α} {readD readC : P → Tensor α} {S : Sys α} (hgt : S.odom = .gt)
    (hagg : S.mapper = .aggregate) {get : Nat → Except Data.Err (List (Out α))} {idxs : List Nat} (hne : idxs ≠ []) (hH : 2 ≤ o.height) (hW : 2 ≤ o.width)
    (K : Nat → M4 α) (fr : Nat → List (Stored α P)) {n : Nat} (hn : 0 < n)
    (h : ∀ j ∈ idxs, ∃ C D Ps rest, get j = .ok (.tensor C :: .tensor D :: .mats [K j] :: .mats Ps :: rest) ∧ IsColours R o n readC ((fr j).map (·.color)) C ∧
      IsDepths row col scale o n readD ((fr j).map (·.depth)) D ∧ IsRelative ((fr j).map (·.pose)) Ps ∧ (fr j).length = n ∧ (∀ f ∈ fr j, f.pose.Affine) ∧
      ∀ f ∈ fr j, ∃ hh ww, (readD f.depth).shape = [hh, ww]) :
    ∃ s m T, batchRgbd get idxs o.cf = .ok s ∧ forward S s = .ok (m, T) ∧ T.d0 = idxs.length ∧ T.d1 = n ∧
      ∃ pts cols, (getList .points m).1 = some pts ∧ (getList .colors m).1 = some cols ∧ pts.length = idxs.length ∧ cols.length = idxs.length ∧
      ∀ (b j : Nat), idxs[b]? = some j → ∀ f0, (fr j)[0]? = some f0 →
        (∀ (l : Nat) f, (fr j)[l]? = some f → f0.pose.mul (T.at' b l) = f.pose) ∧
        (∃ t, pts[b]? = some t ∧ (t.rows.map fun r => applyPose f0.pose (Fusion.toV3 r)) = measured row col o readD scale S.eps (K j) (fr j)) ∧
        ∃ t, cols[b]? = some t ∧ t.rows.map Fusion.toV3 = colours R row col o readD readC (fr j) := by
  obtain ⟨s, i, hs, hist, hcf, hB, hL, hiH, hiW, hpix, P', hP, hdata⟩ := batch_accepted (nrm := S.nrm) (eps := S.eps) (get := get) hne (cf := o.cf) (n := n)
    (H := o.height) (W := o.width) fun j hj => by
      obtain ⟨C, D, Ps, rest, e, h1, h2, h3, h4, _⟩ := h j hj
      exact ⟨C, D, K j, Ps, rest, e, h1.1, h2.1, by rw [h3.1]; simpa using h4⟩
  have hlen : 0 < idxs.length := List.length_pos_iff.2 hne
  have hf : SeqOk S s i := seqOk_of_hist hist (.inr ⟨hagg, hgt⟩) (by omega) (by omega) (by omega)
  have hsys : SysOk S i := ⟨(fun h => by rw [hgt] at h; cases h), (fun p h => by rw [hgt] at h; cases h), .inl hagg⟩
  obtain ⟨TP, hTP, hTPe⟩ : ∃ TP, s.poses = some TP ∧ TP.at' = P' := by
    cases hsp : s.poses with
    | none => rw [Rgbd.poses_none hf.rep hsp] at hP; cases hP
    | some TP =>
      have := Rgbd.poses_some hf.rep hsp
      rw [hP] at this; cases this
      exact ⟨TP, rfl, rfl⟩
  obtain ⟨m, T, hfw, d0, d1, hT⟩ := gt_returns_given_poses hf hsys hgt hTP
  obtain ⟨_, hlist⟩ := icpslam_returns_all_pixels hf hsys hagg (by omega) hfw
  refine ⟨s, m, T, hs, hfw, by omega, by omega, _, _, hlist .points (by simp), hlist .colors (by simp), by simp [hB], by simp [hB], fun b j hb f0 hf0 => ?_⟩
  obtain ⟨C, D, Ps, rest, e, h1, h2, h3, h4, haff, hshape⟩ := h j (List.mem_of_getElem? hb)
  obtain ⟨kK, kP, kd⟩ := hdata b j hb C D (K j) Ps rest e
  have hbl : b < i.B := by rw [hB]; exact (List.getElem?_eq_some_iff.1 hb).1
  have hTb : ∀ l < n, T.at' b l = P' b l := fun l hl => by rw [hT b hbl l (by omega), hTPe]
  have hdep : ∀ (l : Nat) f, (fr j)[l]? = some f → ∀ y < o.height, ∀ x < o.width, i.depth b l y x = reading row col o readD f.depth y x / scale := by
    intro l f hfl y hy x hx
    obtain ⟨hh, ww, hsh⟩ := hshape f (List.mem_of_getElem? hfl)
    have hl : l < n := by rw [← h4]; exact (List.getElem?_eq_some_iff.1 hfl).1
    rw [(kd l y x).2, h2.2 l hl f.depth hh ww (by rw [List.getElem?_map, hfl]; rfl) hsh y hy x hx, reading, hsh]
    rfl
  have hmem : ∀ {x : Nat × Nat}, x ∈ (List.range o.height).flatMap (fun y => (List.range o.width).map fun x => (y, x)) → x.1 < o.height ∧ x.2 < o.width := by
    intro x hx
    obtain ⟨y, hy, hx⟩ := List.mem_flatMap.1 hx
    obtain ⟨z, hz, rfl⟩ := List.mem_map.1 hx
    exact ⟨List.mem_range.1 hy, List.mem_range.1 hz⟩
  have hpx : ∀ (l : Nat) f, (fr j)[l]? = some f → depthPixels i b l = readPixels row col o readD f.depth := by
    intro l f hfl
    rw [depthPixels, readPixels, hiH, hiW]
    refine List.filter_congr fun x hx => ?_
    obtain ⟨hy, hx'⟩ := hmem hx
    rw [hdep l f hfl _ hy _ hx', decide_eq_decide]
    exact ⟨fun h => by by_contra hc; exact absurd h (not_lt.2 (div_nonpos_of_nonpos_of_nonneg (not_lt.1 hc) hsc.le)), fun h => div_pos h hsc⟩
  have hget : ∀ X : Attr, ((List.range i.B).map fun b => (⟨(List.range i.L).flatMap fun t => (depthPixels i b t).map fun x => (worldValue S i b t (T.at' b t) x X).toList, 3⟩ : T2 α))[b]? =
      some ⟨(List.range i.L).flatMap fun t => (depthPixels i b t).map fun x => (worldValue S i b t (T.at' b t) x X).toList, 3⟩ := by
    intro X
    rw [List.getElem?_map, List.getElem?_range hbl]; rfl
  have hp0 : ((fr j).map (·.pose))[0]? = some f0.pose := by rw [List.getElem?_map, hf0]; rfl
  have hrel : ∀ (l : Nat) f, (fr j)[l]? = some f → ∃ r, Ps[l]? = some r ∧ f0.pose.mul r = f.pose := fun l f hfl =>
    h3.2.2 _ hp0 l f.pose (by rw [List.getElem?_map, hfl]; rfl)
  refine ⟨fun l f hfl => ?_, ⟨_, hget .points, ?_⟩, _, hget .colors, ?_⟩
  · obtain ⟨r, er, hr⟩ := hrel l f hfl
    have hl : l < n := by rw [← h4]; exact (List.getElem?_eq_some_iff.1 hfl).1
    rw [hTb l hl, kP l r er]; exact hr
  · simp only [List.map_flatMap, List.map_map]
    rw [hL, ← h4, measured]
    refine range_flatMap (fr j) fun l f hfl => ?_
    have hl : l < n := by rw [← h4]; exact (List.getElem?_eq_some_iff.1 hfl).1
    rw [hpx l f hfl]
    refine List.map_congr_left fun x hx => ?_
    obtain ⟨hin, hpos⟩ := List.mem_filter.1 hx
    obtain ⟨hy, hx'⟩ := hmem hin
    have hpos : 0 < reading row col o readD f.depth x.1 x.2 := by simpa using hpos
    have hd := hdep l f hfl _ hy _ hx'
    obtain ⟨r, er, hr⟩ := hrel l f hfl
    simp only [Function.comp]
    have hw : Fusion.toV3 (worldValue S i b l (T.at' b l) x .points).toList = applyPose r
        (cameraPoint ((K j).R.r0.x + S.eps) ((K j).R.r1.y + S.eps) (K j).R.r0.z (K j).R.r1.z (reading row col o readD f.depth x.1 x.2 / scale) x.2 x.1) := by
      show worldValue S i b l (T.at' b l) x .points = _
      rw [hTb l hl, kP l r er, worldValue, applyPose, Rgbd.vertexAt, hd, if_pos (div_pos hpos hsc), Rgbd.backproj, kK, hpix b l x.1 x.2 hy hx']
      congr 2
      simp [cameraPoint]
    rw [hw]
    exact apply_relative hr (haff f0 (List.mem_of_getElem? hf0)) (haff f (List.mem_of_getElem? hfl)) _
  · simp only [List.map_flatMap, List.map_map]
    rw [hL, ← h4, colours]
    refine range_flatMap (fr j) fun l f hfl => ?_
    have hl : l < n := by rw [← h4]; exact (List.getElem?_eq_some_iff.1 hfl).1
    rw [hpx l f hfl]
    refine List.map_congr_left fun x hx => ?_
    obtain ⟨hy, hx'⟩ := hmem (List.mem_filter.1 hx).1
    have hc := fun c (h : c < 3) => h1.2 l hl f.color (by rw [List.getElem?_map, hfl]; rfl) x.1 hy x.2 hx' c h
    show i.rgb b l x.1 x.2 = _
    rw [(kd l x.1 x.2).1, hc 0 (by decide), hc 1 (by decide), hc 2 (by decide)]
    rfl

end
end Verif.Slam
