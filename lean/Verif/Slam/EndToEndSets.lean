import Verif.Slam.EndToEnd
import Verif.Slam.Witness
/-!
Property C69 for the three datasets, and a dataset that meets the hypotheses.
-/
namespace Verif.Slam
open Verif Pcs Verif.Data
set_option linter.unusedSectionVars false

section
variable {α : Type} [Field α] [LinearOrder α] [IsStrictOrderedRing α] [FloorRing α]
variable {R : Resize α} {row col : Nat → Nat → Nat → Nat} {o : Opts}

theorem isDepths_take {P : Type} {scale : α} {n : Nat} {read : P → Tensor α} {paths paths' : List P} {D : Tensor α} (h : IsDepths row col scale o n read paths D)
    (e : ∀ i < n, paths'[i]? = paths[i]?) : IsDepths row col scale o n read paths' D :=
  ⟨h.1, fun i hi p h' w' hp => h.2 i hi p h' w' (by rw [← e i hi]; exact hp)⟩

theorem isColours_take {P : Type} {n : Nat} {read : P → Tensor α} {paths paths' : List P} {C : Tensor α} (h : IsColours R o n read paths C)
    (e : ∀ i < n, paths'[i]? = paths[i]?) : IsColours R o n read paths' C :=
  ⟨h.1, fun i hi p hp => h.2 i hi p (by rw [← e i hi]; exact hp)⟩

/-- The first `n` frames of a Scannet item. -/
def scanFrames {P : Type} (readM : P → M4 α) (it : ScanItem P) (n : Nat) : List (Stored α P) :=
  ((it.pose.zip (it.depth.zip it.color)).take n).map fun x => ⟨readM x.1, x.2.1, x.2.2⟩

theorem scanFrames_get {P : Type} (readM : P → M4 α) (it : ScanItem P) {n i : Nat} (hi : i < n) (h1 : n ≤ it.pose.length) (h2 : n ≤ it.depth.length) (h3 : n ≤ it.color.length) :
    ∃ a b c, it.pose[i]? = some a ∧ it.depth[i]? = some b ∧ it.color[i]? = some c ∧ (scanFrames readM it n)[i]? = some ⟨readM a, b, c⟩ := by
  refine ⟨_, _, _, List.getElem?_eq_getElem (by omega), List.getElem?_eq_getElem (by omega), List.getElem?_eq_getElem (by omega), ?_⟩
  rw [scanFrames, List.getElem?_map, List.getElem?_take_of_lt hi, List.getElem?_eq_getElem (by simp; omega)]
  simp

/-- **C69, Scannet.**  ICP-SLAM with ground-truth odometry on a batch of items: see `dataset_slam`. -/
theorem scannet_slam (hR : ResizeOk R row col) {P : Type} {n : Nat} (hn : 0 < n) {inv : M4 α → M4 α} (hinv : IsInverse inv) {readM : P → M4 α} {readC readD : P → Tensor α}
    {readL : P → Tensor Nat} {items : List (ScanItem P)} (hd : o.depth = true) (hk : o.intrinsics = true) (hpo : o.pose = true)
    (hfiles : ∀ it ∈ items, Readable readC [3] n it.color ∧ Readable readD [] n it.depth ∧ (o.extra = true → Readable readL [] n it.label) ∧
      n ≤ it.pose.length ∧ ∀ p ∈ it.pose.take n, PoseOk (readM p))
    {idxs : List Nat} (hne : idxs ≠ []) (hidx : ∀ j ∈ idxs, j < items.length) (hH : 2 ≤ o.height) (hW : 2 ≤ o.width)
    {S : Sys α} (hgt : S.odom = .gt) (hagg : S.mapper = .aggregate) :
    ∃ s m T, batchRgbd (scanGetItem R o n inv readM readC readD readL items) idxs o.cf = .ok s ∧ forward S s = .ok (m, T) ∧ T.d0 = idxs.length ∧ T.d1 = n ∧
      ∃ pts cols, (getList .points m).1 = some pts ∧ (getList .colors m).1 = some cols ∧ pts.length = idxs.length ∧ cols.length = idxs.length ∧
      ∀ (b j : Nat) it, idxs[b]? = some j → items[j]? = some it → ∀ p0, it.pose[0]? = some p0 →
        (∀ l < n, ∀ p, it.pose[l]? = some p → (readM p0).mul (T.at' b l) = readM p) ∧
        (∃ t, pts[b]? = some t ∧ (t.rows.map fun r => applyPose (readM p0) (Fusion.toV3 r)) =
          measured row col o readD 1000 S.eps (scaleIntrinsics4 (readM it.intrinsics) (o.height / 480) (o.width / 640)) (scanFrames readM it n)) ∧
        ∃ t, cols[b]? = some t ∧ t.rows.map Fusion.toV3 = colours R row col o readD readC (scanFrames readM it n) := by
  cases hit0 : items with
  | nil =>
    exfalso
    obtain ⟨j, js, rfl⟩ := List.exists_cons_of_ne_nil hne
    have := hidx j (by simp)
    simp [hit0] at this
  | cons d0 ds =>
  rw [← hit0]
  obtain ⟨s, m, T, h1, h2, h3, h4, pts, cols, h5, h6, h7, h8, h9⟩ := dataset_slam (row := row) (col := col) (o := o) (scale := (1000 : α)) (by norm_num) (R := R) (readD := readD)
    (readC := readC) hgt hagg (get := scanGetItem R o n inv readM readC readD readL items) hne hH hW
    (fun j => scaleIntrinsics4 (readM (items.getD j d0).intrinsics) (o.height / 480) (o.width / 640))
    (fun j => scanFrames readM (items.getD j d0) n) hn (fun j hj => by
      have hlt := hidx j hj
      have hit : items[j]? = some items[j] := List.getElem?_eq_getElem hlt
      have hgd : items.getD j d0 = items[j] := by rw [List.getD_eq_getElem?_getD, hit]; rfl
      obtain ⟨f1, f2, f3, f4, f5⟩ := hfiles _ (List.getElem_mem hlt)
      obtain ⟨C, D, Ps, Ts, L, e, e1, e2, e3, e4, _⟩ := scannet_item (o := o) hR hn hinv (readM := readM) (readC := readC) (readD := readD) (readL := readL) hit f1
        (fun _ => f2) f3 (fun _ => ⟨f4, f5⟩)
      have hg := fun {i : Nat} (hi : i < n) => scanFrames_get readM items[j] hi f4 f2.1 f1.1
      have hlen : (scanFrames readM items[j] n).length = n := by
        have := f2.1; have := f1.1
        simp only [scanFrames, List.length_map, List.length_take, List.length_zip]; omega
      rw [hgd]
      refine ⟨C, D, Ps, _, by rw [e]; simp only [opt, hd, hk, hpo, if_true, List.cons_append, List.nil_append]; rfl, isColours_take e1 fun i hi => ?_,
        isDepths_take (e2 hd) fun i hi => ?_, ?_, hlen, ?_, ?_⟩
      · obtain ⟨a, b, c, _, _, hc, ef⟩ := hg hi
        rw [List.getElem?_map, ef, hc]; rfl
      · obtain ⟨a, b, c, _, hb, _, ef⟩ := hg hi
        rw [List.getElem?_map, ef, hb]; rfl
      · have : (scanFrames readM items[j] n).map (·.pose) = (items[j].pose.take n).map readM := by
          refine List.ext_getElem? fun i => ?_
          by_cases hi : i < n
          · obtain ⟨a, b, c, ha, _, _, ef⟩ := hg hi
            rw [List.getElem?_map, List.getElem?_map, ef, List.getElem?_take_of_lt hi, ha]; rfl
          · rw [List.getElem?_eq_none (by rw [List.length_map, hlen]; omega), List.getElem?_eq_none (by rw [List.length_map, List.length_take]; omega)]
        rw [this]; exact e3 hpo
      · intro f hf
        obtain ⟨i, hi⟩ := List.getElem?_of_mem hf
        have hin : i < n := by rw [← hlen]; exact (List.getElem?_eq_some_iff.1 hi).1
        obtain ⟨a, b, c, ha, _, _, ef⟩ := hg hin
        rw [ef] at hi; cases hi
        exact (f5 a (List.mem_of_getElem? (by rw [List.getElem?_take_of_lt hin]; exact ha))).1
      · intro f hf
        obtain ⟨i, hi⟩ := List.getElem?_of_mem hf
        have hin : i < n := by rw [← hlen]; exact (List.getElem?_eq_some_iff.1 hi).1
        obtain ⟨a, b, c, _, hb, _, ef⟩ := hg hin
        rw [ef] at hi; cases hi
        obtain ⟨hh, ww, _, _, q⟩ := f2.2 i hin b hb
        exact ⟨hh, ww, by simpa using q⟩)
  refine ⟨s, m, T, h1, h2, h3, h4, pts, cols, h5, h6, h7, h8, fun b j it hb hit p0 hp0 => ?_⟩
  have hgd : items.getD j d0 = it := by rw [List.getD_eq_getElem?_getD, hit]; rfl
  obtain ⟨f1, f2, f3, f4, f5⟩ := hfiles _ (List.mem_of_getElem? hit)
  obtain ⟨a, b', c, ha, _, _, ef⟩ := scanFrames_get readM it hn f4 f2.1 f1.1
  rw [hp0] at ha; cases ha
  have := h9 b j hb _ (by rw [hgd]; exact ef)
  rw [hgd] at this
  refine ⟨fun l hl p hp => ?_, this.2⟩
  obtain ⟨a, b', c, ha, _, _, ef⟩ := scanFrames_get readM it hl f4 f2.1 f1.1
  rw [hp] at ha; cases ha
  exact this.1 l _ ef

/-- **C69, ICL** (one trajectory, `start = 0`).  Frame `l` of item `j` is frame `j·stride + l·(dilation+1)` of the trajectory. -/
theorem icl_slam (hR : ResizeOk R row col) {P τ : Type} {inv : M4 α → M4 α} (hinv : IsInverse inv) {bottom : List τ} {mat : List (List τ) → M4 α} {readC readD : P → Tensor α} (w : Win)
    (hs : 0 < w.seqlen) (hstart : w.start = 0) (isTraj0 : Bool) (lines : List (IclFrame P)) (file : List (List τ)) {ws : List (List (IclFrame P × Nat))}
    (hok : iclItems w isTraj0 file.length lines = .ok ws) (hblocks : ∀ k, k < lines.length → BlockOk file k)
    (hposes : ∀ k, k < lines.length → PoseOk (mat (poseBlock bottom file k)))
    (hfiles : ∀ f ∈ lines, (∃ h w, 0 < h ∧ 0 < w ∧ (readC f.color).shape = [h, w, 3]) ∧ ∃ h w, 0 < h ∧ 0 < w ∧ (readD f.depth).shape = [h, w])
    (hd : o.depth = true) (hk : o.intrinsics = true) (hpo : o.pose = true) {idxs : List Nat} (hne : idxs ≠ []) (hidx : ∀ j ∈ idxs, j < ws.length)
    (hH : 2 ≤ o.height) (hW : 2 ≤ o.width) {S : Sys α} (hgt : S.odom = .gt) (hagg : S.mapper = .aggregate) :
    ∃ s m T, batchRgbd (iclGetItem R o w.seqlen inv bottom mat readC readD (ws.map (iclItemOf file))) idxs o.cf = .ok s ∧ forward S s = .ok (m, T) ∧
      T.d0 = idxs.length ∧ T.d1 = w.seqlen ∧
      ∃ pts cols, (getList .points m).1 = some pts ∧ (getList .colors m).1 = some cols ∧ pts.length = idxs.length ∧ cols.length = idxs.length ∧
      ∀ (b j : Nat), idxs[b]? = some j → ∃ fr : List (Stored α P), fr.length = w.seqlen ∧
        (∀ l < w.seqlen, ∃ k f, k = j * w.stride + l * (w.dilation + 1) ∧ lines[k]? = some f ∧ fr[l]? = some ⟨mat (poseBlock bottom file k), f.depth, f.color⟩) ∧
        (∀ l < w.seqlen, (mat (poseBlock bottom file (j * w.stride))).mul (T.at' b l) = mat (poseBlock bottom file (j * w.stride + l * (w.dilation + 1)))) ∧
        (∃ t, pts[b]? = some t ∧ (t.rows.map fun r => applyPose (mat (poseBlock bottom file (j * w.stride))) (Fusion.toV3 r)) =
          measured row col o readD 5000 S.eps (iclK o) fr) ∧
        ∃ t, cols[b]? = some t ∧ t.rows.map Fusion.toV3 = colours R row col o readD readC fr := by
  have key := fun (j : Nat) (hj : j < ws.length) => icl_item (R := R) (row := row) (col := col) (o := o) (readC := readC) (readD := readD) hR hinv w hs isTraj0 lines file hok hblocks hposes hfiles hj
  choose win hwl hwk C D Ps Ts hget hC hD hP _ using key
  have hin : ∀ j hj, ∀ k < w.seqlen, ∃ f, (win j hj)[k]? = some f ∧ lines[j * w.stride + k * (w.dilation + 1)]? = some f := by
    intro j hj k hk'
    have e := hwk j hj k hk'
    rw [hstart, Nat.zero_add] at e
    exact ⟨_, List.getElem?_eq_getElem (by rw [hwl]; exact hk'), by rw [← e]; exact List.getElem?_eq_getElem (by rw [hwl]; exact hk')⟩
  let F : Nat → List (Stored α P) := fun j => if hj : j < ws.length then
    (win j hj).zipIdx.map fun f => ⟨mat (poseBlock bottom file (j * w.stride + f.2 * (w.dilation + 1))), f.1.depth, f.1.color⟩ else []
  have hF : ∀ j (hj : j < ws.length), F j = (win j hj).zipIdx.map fun f => ⟨mat (poseBlock bottom file (j * w.stride + f.2 * (w.dilation + 1))), f.1.depth, f.1.color⟩ :=
    fun j hj => dif_pos hj
  have hFl : ∀ j (hj : j < ws.length), (F j).length = w.seqlen := fun j hj => by rw [hF j hj]; simp [hwl]
  have hFg : ∀ j (hj : j < ws.length), ∀ (k : Nat) f, (win j hj)[k]? = some f → (F j)[k]? = some ⟨mat (poseBlock bottom file (j * w.stride + k * (w.dilation + 1))), f.depth, f.color⟩ := by
    intro j hj k f hf
    rw [hF j hj, List.getElem?_map, List.getElem?_zipIdx, hf]; simp
  have hmem : ∀ j (hj : j < ws.length), ∀ g ∈ F j, ∃ k < w.seqlen, ∃ f, lines[j * w.stride + k * (w.dilation + 1)]? = some f ∧
      g = ⟨mat (poseBlock bottom file (j * w.stride + k * (w.dilation + 1))), f.depth, f.color⟩ := by
    intro j hj g hg
    obtain ⟨k, hk'⟩ := List.getElem?_of_mem hg
    have hkn : k < w.seqlen := by rw [← hFl j hj]; exact (List.getElem?_eq_some_iff.1 hk').1
    obtain ⟨f, e1, e2⟩ := hin j hj k hkn
    rw [hFg j hj k f e1] at hk'; cases hk'
    exact ⟨k, hkn, f, e2, rfl⟩
  obtain ⟨s, m, T, h1, h2, h3, h4, pts, cols, h5, h6, h7, h8, h9⟩ := dataset_slam (row := row) (col := col) (o := o) (scale := (5000 : α)) (by norm_num) (R := R) (readD := readD)
    (readC := readC) hgt hagg (get := iclGetItem R o w.seqlen inv bottom mat readC readD (ws.map (iclItemOf file))) hne hH hW (fun _ => iclK o) F hs (fun j hj => by
      have hlt := hidx j hj
      refine ⟨C j hlt, D j hlt, Ps j hlt, _, by rw [hget j hlt]; simp only [opt, hd, hk, hpo, if_true, List.cons_append, List.nil_append]; rfl,
        isColours_take (hC j hlt) fun i hi => ?_, isDepths_take (hD j hlt hd) fun i hi => ?_, ?_, hFl j hlt, fun g hg => ?_, fun g hg => ?_⟩
      · obtain ⟨f, e1, _⟩ := hin j hlt i hi
        rw [List.getElem?_map, List.getElem?_map, hFg j hlt i f e1, e1]; rfl
      · obtain ⟨f, e1, _⟩ := hin j hlt i hi
        rw [List.getElem?_map, List.getElem?_map, hFg j hlt i f e1, e1]; rfl
      · have : (F j).map (·.pose) = (List.range w.seqlen).map fun k => mat (poseBlock bottom file (j * w.stride + k * (w.dilation + 1))) := by
          refine List.ext_getElem? fun i => ?_
          by_cases hi : i < w.seqlen
          · obtain ⟨f, e1, _⟩ := hin j hlt i hi
            rw [List.getElem?_map, List.getElem?_map, hFg j hlt i f e1, List.getElem?_range hi]; rfl
          · rw [List.getElem?_eq_none (by rw [List.length_map, hFl j hlt]; omega), List.getElem?_eq_none (by simp; omega)]
        rw [this]; exact hP j hlt hpo
      · obtain ⟨k, _, f, e, rfl⟩ := hmem j hlt g hg
        exact (hposes _ (List.getElem?_eq_some_iff.1 e).1).1
      · obtain ⟨k, _, f, e, rfl⟩ := hmem j hlt g hg
        obtain ⟨hh, ww, _, _, q⟩ := (hfiles f (List.mem_of_getElem? e)).2
        exact ⟨hh, ww, q⟩)
  refine ⟨s, m, T, h1, h2, h3, h4, pts, cols, h5, h6, h7, h8, fun b j hb => ?_⟩
  have hlt := hidx j (List.mem_of_getElem? hb)
  obtain ⟨g, e1, _⟩ := hin j hlt 0 hs
  have := h9 b j hb _ (hFg j hlt 0 g e1)
  simp only [Nat.zero_mul, Nat.add_zero] at this
  refine ⟨F j, hFl j hlt, fun l hl => ?_, fun l hl => ?_, this.2⟩
  · obtain ⟨f, e1, e2⟩ := hin j hlt l hl
    exact ⟨_, f, rfl, e2, hFg j hlt l f e1⟩
  · obtain ⟨f, e1, e2⟩ := hin j hlt l hl
    exact this.1 l _ (hFg j hlt l f e1)

end

section
variable {R : Resize ℝ} {row col : Nat → Nat → Nat → Nat} {o : Opts}

/-- **C69, TUM.**  Item `j` is a window of one of the sequences. -/
theorem tum_slam (hR : ResizeOk R row col) {P : Type} {eps : ℝ} {inv : M4 ℝ → M4 ℝ} (hinv : IsInverse inv) {readC readD : P → Tensor ℝ} (w : Win)
    (hs : 0 < w.seqlen) {seqs : List (List (TumFrame P (V3 ℝ × Geom.Quat)))} {items : List (TumItem P (V3 ℝ × Geom.Quat))} (h : tumItems w seqs = .ok items)
    (hfiles : ∀ s ∈ seqs, ∀ f ∈ s, (∃ h w, 0 < h ∧ 0 < w ∧ (readC f.color).shape = [h, w, 3]) ∧ (∃ h w, 0 < h ∧ 0 < w ∧ (readD f.depth).shape = [h, w]) ∧
      GoodPose eps f.pose)
    (hd : o.depth = true) (hk : o.intrinsics = true) (hpo : o.pose = true) {idxs : List Nat} (hne : idxs ≠ []) (hidx : ∀ j ∈ idxs, j < items.length)
    (hH : 2 ≤ o.height) (hW : 2 ≤ o.width) {S : Sys ℝ} (hgt : S.odom = .gt) (hagg : S.mapper = .aggregate) :
    ∃ s m T, batchRgbd (tumGetItem R o w.seqlen inv (fun q => pointquaternionToHomogeneous eps q.1 q.2) readC readD items) idxs o.cf = .ok s ∧
      forward S s = .ok (m, T) ∧ T.d0 = idxs.length ∧ T.d1 = w.seqlen ∧
      ∃ pts cols, (getList .points m).1 = some pts ∧ (getList .colors m).1 = some cols ∧ pts.length = idxs.length ∧ cols.length = idxs.length ∧
      ∀ (b j : Nat), idxs[b]? = some j → ∃ sq ∈ seqs, ∃ i, ∃ f0 fs, (f0 :: fs).length = w.seqlen ∧
        (∀ l < w.seqlen, (f0 :: fs)[l]? = sq[i * w.stride + l * (w.dilation + 1)]?) ∧
        (∀ (l : Nat) f, (f0 :: fs)[l]? = some f → (pointquaternionToHomogeneous eps f0.pose.1 f0.pose.2).mul (T.at' b l) = pointquaternionToHomogeneous eps f.pose.1 f.pose.2) ∧
        (∃ t, pts[b]? = some t ∧ (t.rows.map fun r => applyPose (pointquaternionToHomogeneous eps f0.pose.1 f0.pose.2) (Fusion.toV3 r)) =
          measured row col o readD 5000 S.eps (tumK o) ((f0 :: fs).map fun f => ⟨pointquaternionToHomogeneous eps f.pose.1 f.pose.2, f.depth, f.color⟩)) ∧
        ∃ t, cols[b]? = some t ∧
          t.rows.map Fusion.toV3 = colours R row col o readD readC ((f0 :: fs).map fun f => ⟨pointquaternionToHomogeneous eps f.pose.1 f.pose.2, f.depth, f.color⟩) := by
  have key := fun (j : Nat) (hj : j < items.length) => tum_item (R := R) (row := row) (col := col) (o := o) (readC := readC) (readD := readD) hR hinv w hs h hfiles hj
  choose sq hsq ii win hwl hwk C D Ps Ts hget hC hD hP _ using key
  have hmem : ∀ j hj, ∀ f ∈ win j hj, f ∈ sq j hj := fun j hj => window_mem (hwl j hj) (hwk j hj)
  let F : Nat → List (Stored ℝ P) := fun j => if hj : j < items.length then (win j hj).map fun f => ⟨pointquaternionToHomogeneous eps f.pose.1 f.pose.2, f.depth, f.color⟩ else []
  have hF : ∀ j (hj : j < items.length), F j = (win j hj).map fun f => ⟨pointquaternionToHomogeneous eps f.pose.1 f.pose.2, f.depth, f.color⟩ := fun j hj => dif_pos hj
  obtain ⟨s, m, T, h1, h2, h3, h4, pts, cols, h5, h6, h7, h8, h9⟩ := dataset_slam (row := row) (col := col) (o := o) (scale := (5000 : ℝ)) (by norm_num) (R := R) (readD := readD)
    (readC := readC) hgt hagg (get := tumGetItem R o w.seqlen inv (fun q => pointquaternionToHomogeneous eps q.1 q.2) readC readD items) hne hH hW (fun _ => tumK o) F hs (fun j hj => by
      have hlt := hidx j hj
      rw [hF j hlt]
      simp only [List.map_map, List.length_map, List.forall_mem_map]
      refine ⟨C j hlt, D j hlt, Ps j hlt, _, by rw [hget j hlt]; simp only [opt, hd, hk, hpo, if_true, List.cons_append, List.nil_append]; rfl,
        hC j hlt, hD j hlt hd, hP j hlt hpo, hwl j hlt, fun f hf => ?_, fun f hf => ?_⟩
      · obtain ⟨_, _, q1, q2⟩ := hfiles _ (hsq j hlt) f (hmem j hlt f hf)
        exact ((pointquaternion_rigid eps _ q2 _ _ q1 le_rfl).2.2.1).1
      · obtain ⟨_, ⟨hh, ww, _, _, q⟩, _⟩ := hfiles _ (hsq j hlt) f (hmem j hlt f hf)
        exact ⟨hh, ww, q⟩)
  refine ⟨s, m, T, h1, h2, h3, h4, pts, cols, h5, h6, h7, h8, fun b j hb => ?_⟩
  have hlt := hidx j (List.mem_of_getElem? hb)
  obtain ⟨f0, fs, e⟩ : ∃ f0 fs, win j hlt = f0 :: fs := List.exists_cons_of_ne_nil fun h0 => by
    have := hwl j hlt; rw [h0] at this; simp at this; omega
  refine ⟨sq j hlt, hsq j hlt, ii j hlt, f0, fs, by rw [← e]; exact hwl j hlt, fun l hl => by rw [← e]; exact (hwk j hlt l hl).1, ?_⟩
  have := h9 b j hb ⟨pointquaternionToHomogeneous eps f0.pose.1 f0.pose.2, f0.depth, f0.color⟩ (by rw [hF j hlt, e]; rfl)
  rw [hF j hlt, e] at this
  exact ⟨fun l f hl => this.1 l _ (by rw [List.getElem?_map, hl]; rfl), this.2⟩

end

/-! ### The hypotheses are met -/

/-- A Scannet dataset of two items and a SLAM object that meet the hypotheses of `scannet_slam`; the first frame of each item has pixels with a reading and pixels without. -/
theorem scannet_slam_hypotheses : gtSlam.odom = .gt ∧ gtSlam.mapper = .aggregate ∧ 2 ≤ optsW.height ∧ 2 ≤ optsW.width ∧
    ∃ items : List (ScanItem Nat), items.length = 2 ∧ optsW.depth = true ∧ optsW.intrinsics = true ∧ optsW.pose = true ∧
    (∀ it ∈ items, Readable (wC (α := ℚ)) [3] 2 it.color ∧ Readable (wD (α := ℚ)) [] 2 it.depth ∧ (optsW.extra = true → Readable wL [] 2 it.label) ∧
      2 ≤ it.pose.length ∧ ∀ p ∈ it.pose.take 2, PoseOk (shiftX (p : ℚ))) ∧
    ∀ p, readPixels nnIdx nnIdx optsW (wD (α := ℚ)) p = [(0, 1), (0, 2), (1, 0), (1, 1), (1, 2)] := by
  obtain ⟨items, h1, h2, h3, h4, h5, _⟩ := scannet_world_hypotheses
  refine ⟨rfl, rfl, by decide, by decide, items, h1, h2, h3, h4, h5, fun p => ?_⟩
  have hp : (0 : ℚ) < 1000 * (p + 1) := by positivity
  have e : ∀ y x, reading nnIdx nnIdx optsW (wD (α := ℚ)) p y x = if [nnIdx 4 2 y, nnIdx 6 3 x] = [0, 0] then 0 else 1000 * ((p : ℚ) + 1) := fun y x => rfl
  simp only [readPixels, e, nnIdx]
  have : optsW.height = 2 ∧ optsW.width = 3 := ⟨rfl, rfl⟩
  rw [this.1, this.2]
  simp [List.range_succ, hp]

end Verif.Slam
