import Verif.Fusion.ReadFrame
/-!
`fusionutils.py` on frames of either channel order.

The functions index the images of a frame as `[b, 0, h, w]` whatever the channel order is.  Here they are modelled on the tensors as the
getters return them, `(B, L, H, W, C)` or `(B, L, C, H, W)`, with torch's shape rules for indexing, assignment, broadcasting and boolean
masks.  For channels-last frames they are the functions of `Verif.Fusion.Model` (`updateMapFusionRaw_last`).
-/
namespace Verif.Fusion
open Verif Pcs

/-! ### Shapes -/

/-- `t.squeeze(-1)`. -/
def squeezeLast (s : List Nat) : List Nat := if s.getLast? = some 1 then s.dropLast else s

/-- torch's broadcasting rule, on reversed shapes. -/
def bcastRev : List Nat → List Nat → Option (List Nat)
  | [], s => some s
  | s, [] => some s
  | a :: s, b :: t => match Rgbd.bdim a b, bcastRev s t with
    | some c, some u => some (c :: u)
    | _, _ => none

/-- torch's broadcasting rule: dimensions are compared from the last one. -/
def bcast (s t : List Nat) : Option (List Nat) := (bcastRev s.reverse t.reverse).map List.reverse

/-- `x[mask]` for `x` of shape `s` and a boolean mask of shape `m`: the mask's dimensions must be the first dimensions of `x`
(IndexError); the shape of one entry of the result. -/
def maskIndex (s m : List Nat) : Option (List Nat) := if m.isPrefixOf s then some (s.drop m.length) else none

/-- The shape of a rank-5 tensor as a list. -/
def dimList (s : Rgbd.Shape5) : List Nat := [s.d0, s.d1, s.d2, s.d3, s.d4]

/-! ### Frames -/

/-- What the functions read from a frame: `.shape` and the tensors the getters return. -/
structure Raw (α : Type*) where
  B : Nat
  L : Nat
  H : Nat
  W : Nat
  gv : Rgbd.T5 α
  gn : Rgbd.T5 α
  v : Rgbd.T5 α
  n : Rgbd.T5 α
  rgb : Rgbd.T5 α
  valid : Rgbd.T5 Bool
  poses : Option (Nat → Nat → M4 α)
  K : Nat → M4 α

section
variable {α : Type*} [Field α] [LinearOrder α]

/-- Reading everything the functions use from a frame object (cf. `readFrame`). -/
def readRaw (nrm : V3 α → α) (eps : α) (s : Rgbd.Obj α) : Except Rgbd.Err (Raw α) × Rgbd.Obj α :=
  match Rgbd.getGVertex eps s with
  | (.error e, s) => (.error e, s)
  | (.ok gv, s) => match Rgbd.getGNormal nrm eps s with
    | (.error e, s) => (.error e, s)
    | (.ok gn, s) => match Rgbd.getVertex eps s with
      | (.error e, s) => (.error e, s)
      | (.ok v, s) => match Rgbd.getNormal nrm eps s with
        | (.error e, s) => (.error e, s)
        | (.ok n, s) =>
          let (m, s) := Rgbd.getValid s
          (.ok ⟨s.B, s.L, s.H, s.W, gv, gn, v, n, s.rgb, m, s.poses.map Rgbd.TM.at', fun b => s.K.at' b 0⟩, s)

/-- `t[b, l, i, j]` broadcast to three entries (one entry is repeated). -/
def row3 (t : Rgbd.T5 α) (b l i j : Nat) : V3 α :=
  if t.sh.d4 = 1 then ⟨t.at' b l i j 0, t.at' b l i j 0, t.at' b l i j 0⟩ else Rgbd.px3 false t b l i j

/-- The frame as the functions that index `[b, 0, h, w]` see it: the third and fourth dimension of the tensors are taken for rows and
columns. -/
def Raw.frame (r : Raw α) : Frame α :=
  ⟨r.B, r.L, r.gv.sh.d2, r.gv.sh.d3, row3 r.gv, row3 r.gn, row3 r.v, row3 r.n, row3 r.rgb, fun b l h w => r.valid.at' b l h w 0, r.poses, r.K⟩

/-- What `find_active_map_points` reads: the height and width are those of `.shape`. -/
def Raw.camera (r : Raw α) : Frame α := { r.frame with H := r.H, W := r.W }

/-- `t[...]` of shape `(n, d)` can be written to, or subtracted from, a tensor of shape `(n, 3)`. -/
def Raw.fits (r : Raw α) : Bool := decide (r.gv.sh.d4 = 1) || decide (r.gv.sh.d4 = 3)

/-! ### The functions -/

/-- `find_similar_map_points`, fusionutils.py:290-411 (cf. `findSimilar`). -/
def findSimilarRaw (nrm : V3 α → α) (pc : PC α) (r : Raw α) (rows : List Row) (distTh dotTh : α) :
    Except Err (List Row × List Bool) × PC α :=
  if r.L ≠ 1 then (.error valueError, pc)
  else
    let (h, pc) := hasAttr .points pc
    if !h || rows.length = 0 then (.ok ([], []), pc)
    else if r.B ≠ pc.B then (.error valueError, pc)
    else
      let (hn, pc) := hasAttr .normals pc
      if !hn then (.error valueError, pc)
      else match getPad .points pc with
        | (.error e, pc) => (.error (.pcs e), pc)
        | (.ok p, pc) => match getPad .normals pc with
          | (.error e, pc) => (.error (.pcs e), pc)
          | (.ok nn, pc) =>
            if !rowsInRange rows (shape3 (p.getD [])).1 (shape3 (p.getD [])).2.1 r.frame then (.error (.pcs .indexError), pc)
            else if !r.fits then (.error (.pcs .runtimeError), pc)
            else
              let keep := fun x : Row => similarAt nrm r.frame rows (p.getD []) (nn.getD []) distTh dotTh x.b x.n
              (.ok (rows.filter keep, rows.map keep), pc)

/-- `find_best_unique_correspondences`, fusionutils.py:414-546 (cf. `findBest`). -/
def findBestRaw (pc : PC α) (r : Raw α) (rows : List Row) : Except Err (List Row) × PC α :=
  if r.L ≠ 1 then (.error valueError, pc)
  else
    let (h, pc) := hasAttr .points pc
    if !h || rows.length = 0 then (.ok [], pc)
    else if r.B ≠ pc.B then (.error valueError, pc)
    else
      let (hf, pc) := hasAttr .features pc
      if !hf then (.error valueError, pc)
      else match getPad .features pc with
        | (.error e, pc) => (.error (.pcs e), pc)
        | (.ok f, pc) => match getPad .points pc with
          | (.error e, pc) => (.error (.pcs e), pc)
          | (.ok p, pc) =>
            if !rowsInRange rows (shape3 (p.getD [])).1 (shape3 (p.getD [])).2.1 r.frame then (.error (.pcs .indexError), pc)
            else if !r.fits then (.error (.pcs .runtimeError), pc)
            else (.ok (bestRows (rows.map (keyOf r.frame (p.getD []) (f.getD [])))), pc)

/-- `find_correspondences`, fusionutils.py:549-577. -/
def findCorrespondencesRaw [FloorRing α] (nrm : V3 α → α) (pc : PC α) (r : Raw α) (distTh dotTh : α) : Except Err (List Row) × PC α :=
  match findActive pc r.camera with
  | (.error e, pc) => (.error e, pc)
  | (.ok rows, pc) => match findSimilarRaw nrm pc r rows distTh dotTh with
    | (.error e, pc) => (.error e, pc)
    | (.ok (rows, _), pc) => findBestRaw pc r rows

/-- The shapes in fusionutils.py:702-717: `new_mask = ones_like(vertex_maps[..., 0]) * valid_depth_mask.squeeze(-1)`, then
`vertex_maps[b][new_mask[b]]` for `b in range(new_mask.shape[0])`, then the constructor's check that a cloud has shape `(n, 3)`. -/
def pickShape (r : Raw α) : Except Err Unit :=
  match bcast [r.gv.sh.d0, r.gv.sh.d1, r.gv.sh.d2, r.gv.sh.d3] (squeezeLast (dimList r.valid.sh)) with
  | some (B :: m) =>
    if B = 0 then .ok ()
    else match maskIndex [r.gv.sh.d1, r.gv.sh.d2, r.gv.sh.d3, r.gv.sh.d4] m with
      | none => .error (.pcs .indexError)
      | some e => if B > r.gv.sh.d0 then .error (.pcs .indexError) else if e ≠ [3] then .error valueError else .ok ()
  | _ => .error (.pcs .runtimeError)

/-- `fuse_with_map`, fusionutils.py:580-722 (cf. `fuseWithMap`): `get_alpha(vertex_map, dim=4)` needs three entries in the last dimension
(ValueError, :59-64); the maps are merged before the new points are picked. -/
def fuseWithMapRaw (al : V3 α → α) (pc : PC α) (r : Raw α) (rows : List Row) (inplace : Bool) : Except Err (PC α) × PC α :=
  let (h, pc) := hasAttr .points pc
  let (ok, pc) := if h then requireAll [.normals, .colors, .features] pc else (true, pc)
  if !ok then (.error valueError, pc)
  else if r.v.sh.d4 ≠ 3 then (.error valueError, pc)
  else
    let use := h && decide (rows.length ≠ 0)
    match (if use then mergeStep al pc r.frame rows else (.ok (), pc)) with
    | (.error e, pc) => (.error e, pc)
    | (.ok (), pc) => match pickShape r with
      | .error e => (.error e, pc)
      | .ok () =>
        let m := newMask r.frame (if use then rows else [])
        match newList (newArg al r.frame m) (picked r.frame m r.frame.gv) with
        | .error e => (.error (.pcs e), pc)
        | .ok o => cloneAppend inplace pc o

/-- `update_map_fusion`, fusionutils.py:761-789. -/
def updateMapFusionRaw [FloorRing α] (nrm al : V3 α → α) (pc : PC α) (r : Raw α) (distTh dotTh : α) (inplace : Bool) :
    Except Err (PC α) × PC α :=
  match findCorrespondencesRaw nrm pc r distTh dotTh with
  | (.error e, pc) => (.error e, pc)
  | (.ok rows, pc) => fuseWithMapRaw al pc r rows inplace

/-! ### What the getters return -/

/-- The tensors of a frame with inputs `i` in the given channel order. -/
structure RawOf (nrm : V3 α → α) (eps : α) (cf : Bool) (i : Rgbd.In α) (r : Raw α) : Prop where
  B : r.B = i.B
  L : r.L = i.L
  H : r.H = i.H
  W : r.W = i.W
  gv : r.gv = Rgbd.image cf i (Rgbd.gvertexAt eps i)
  gn : r.gn = Rgbd.image cf i (Rgbd.gnormalAt nrm eps i)
  v : r.v = Rgbd.image cf i (Rgbd.vertexAt eps i)
  n : r.n = Rgbd.image cf i (Rgbd.normalAt nrm eps i)
  rgbSh : r.rgb.sh = Rgbd.dims5 cf i.B i.L i.H i.W 3
  rgb : ∀ b l h w, Rgbd.px3 cf r.rgb b l h w = i.rgb b l h w
  validSh : r.valid.sh = Rgbd.dims5 cf i.B i.L i.H i.W 1
  valid : ∀ b l h w, Rgbd.chan cf r.valid b l h w 0 = decide (0 < i.depth b l h w)
  poses : r.poses = i.poses
  K : r.K = i.K

theorem readRaw_spec {nrm : V3 α → α} {eps : α} {s : Rgbd.Obj α} {i : Rgbd.In α} (r : Rgbd.Rep nrm eps s i) (hH : 2 ≤ i.H) (hW : 2 ≤ i.W) :
    ∃ x s', readRaw nrm eps s = (.ok x, s') ∧ RawOf nrm eps s.cf i x ∧ Rgbd.Rep nrm eps s' i ∧ Rgbd.Same s s' := by
  have h22 : ∀ t : Rgbd.T5 α, Rgbd.needs22 i t = .ok t := by
    intro t; rw [Rgbd.needs22, if_neg (by omega)]
  obtain ⟨a1, a2, a3⟩ := Rgbd.getGVertex_rep r
  cases hg1 : Rgbd.getGVertex eps s with
  | mk o1 s1 =>
    rw [hg1] at a1 a2 a3
    simp only at a1 a2 a3
    obtain ⟨b1, b2, b3⟩ := Rgbd.getGNormal_rep a2
    cases hg2 : Rgbd.getGNormal nrm eps s1 with
    | mk o2 s2 =>
      rw [hg2] at b1 b2 b3
      simp only at b1 b2 b3
      obtain ⟨c1, c2, c3⟩ := Rgbd.getVertex_rep b2
      cases hg3 : Rgbd.getVertex eps s2 with
      | mk o3 s3 =>
        rw [hg3] at c1 c2 c3
        simp only at c1 c2 c3
        obtain ⟨d1, d2, d3⟩ := Rgbd.getNormal_rep c2
        cases hg4 : Rgbd.getNormal nrm eps s3 with
        | mk o4 s4 =>
          rw [hg4] at d1 d2 d3
          simp only at d1 d2 d3
          obtain ⟨e1, e2, e3, _⟩ := Rgbd.getValid_rep d2
          have e4 := Rgbd.getValid_same s4
          have same := (((a3.trans b3).trans c3).trans d3)
          have cf1 : s1.cf = s.cf := a3.cf
          have cf2 : s2.cf = s.cf := b3.cf.trans cf1
          have cf3 : s3.cf = s.cf := c3.cf.trans cf2
          have cf4 : s4.cf = s.cf := d3.cf.trans cf3
          have cf5 : (Rgbd.getValid s4).2.cf = s.cf := e4.cf.trans cf4
          rw [h22] at b1 d1
          rw [cf1] at b1; rw [cf2] at c1; rw [cf3] at d1; rw [cf4] at e1 e2
          subst a1; subst b1; subst c1; subst d1
          have k1 := e3.rgb; have k2 := e3.rgbSh
          rw [cf5] at k1 k2
          refine ⟨_, (Rgbd.getValid s4).2, by simp only [readRaw, hg1, hg2, hg3, hg4]; rfl, ?_, e3, same.trans e4⟩
          exact ⟨e3.hB, e3.hL, e3.hH, e3.hW, rfl, rfl, rfl, rfl, k2, k1, e1, e2, e3.poses, funext fun b => e3.K b⟩

/-! ### Channels-last -/

theorem RawOf.frame {nrm : V3 α → α} {eps : α} {i : Rgbd.In α} {r : Raw α} (h : RawOf nrm eps false i r) :
    r.frame = Frame.ofIn nrm eps i := by
  have im : ∀ f, row3 (Rgbd.image false i f) = f := by
    intro f; funext b l h w
    rw [row3, if_neg (by simp [Rgbd.image, Rgbd.mk5, Rgbd.dims5])]
    exact Rgbd.px3_image false i f b l h w
  have rg : row3 r.rgb = i.rgb := by
    funext b l x w
    rw [row3, if_neg (by rw [h.rgbSh]; simp [Rgbd.dims5])]
    exact h.rgb b l x w
  simp only [Raw.frame, Frame.ofIn, Frame.mk.injEq]
  refine ⟨h.B, h.L, by rw [h.gv]; rfl, by rw [h.gv]; rfl, by rw [h.gv, im], by rw [h.gn, im], by rw [h.v, im], by rw [h.n, im], rg, ?_, h.poses, h.K⟩
  funext b l x w
  have := h.valid b l x w
  simpa [Rgbd.chan] using this

theorem RawOf.camera {nrm : V3 α → α} {eps : α} {i : Rgbd.In α} {r : Raw α} (h : RawOf nrm eps false i r) :
    r.camera = Frame.ofIn nrm eps i := by
  rw [Raw.camera, h.frame, h.H, h.W]; rfl

theorem RawOf.pick {nrm : V3 α → α} {eps : α} {i : Rgbd.In α} {r : Raw α} (h : RawOf nrm eps false i r) : pickShape r = .ok () := by
  have e1 : r.gv.sh = ⟨i.B, i.L, i.H, i.W, 3⟩ := by rw [h.gv]; rfl
  have e2 : r.valid.sh = ⟨i.B, i.L, i.H, i.W, 1⟩ := by rw [h.validSh]; rfl
  have e3 : bcast [i.B, i.L, i.H, i.W] (squeezeLast (dimList ⟨i.B, i.L, i.H, i.W, 1⟩)) = some [i.B, i.L, i.H, i.W] := by
    simp [dimList, squeezeLast, bcast, bcastRev, Rgbd.bdim]
  rw [pickShape, e1, e2]
  simp only [e3]
  by_cases hB : i.B = 0
  · simp [hB]
  · simp [hB, maskIndex]

/-- On channels-last frames the functions are those of `Verif.Fusion.Model`. -/
theorem updateMapFusionRaw_last [FloorRing α] {nrm : V3 α → α} {eps : α} {i : Rgbd.In α} {r : Raw α} (h : RawOf nrm eps false i r) (al : V3 α → α)
    (pc : PC α) (d t : α) (inplace : Bool) :
    updateMapFusionRaw nrm al pc r d t inplace = updateMapFusion nrm al pc (Frame.ofIn nrm eps i) d t inplace := by
  have hf : r.fits = true := by rw [Raw.fits, h.gv]; simp [Rgbd.image, Rgbd.mk5, Rgbd.dims5]
  have hv : ¬ r.v.sh.d4 ≠ 3 := by rw [h.v]; simp [Rgbd.image, Rgbd.mk5, Rgbd.dims5]
  have hB : r.B = (Frame.ofIn nrm eps i).B := h.B
  have hL : r.L = (Frame.ofIn nrm eps i).L := h.L
  have e1 : ∀ pc rows, findSimilarRaw nrm pc r rows d t = findSimilar nrm pc (Frame.ofIn nrm eps i) rows d t := by
    intro pc rows
    unfold findSimilarRaw findSimilar
    simp only [hf, h.frame, hB, hL, Bool.not_true]
    rfl
  have e2 : ∀ pc rows, findBestRaw pc r rows = findBest pc (Frame.ofIn nrm eps i) rows := by
    intro pc rows
    unfold findBestRaw findBest
    simp only [hf, h.frame, hB, hL, Bool.not_true]
    rfl
  have e3 : ∀ pc rows, fuseWithMapRaw al pc r rows inplace = fuseWithMap al pc (Frame.ofIn nrm eps i) rows inplace := by
    intro pc rows
    unfold fuseWithMapRaw fuseWithMap
    simp only [if_neg hv, h.frame, h.pick]
    generalize (if (hasAttr Attr.points pc).1 = true then requireAll [Attr.normals, Attr.colors, Attr.features] (hasAttr Attr.points pc).2
      else (true, (hasAttr Attr.points pc).2)) = z
    generalize (if ((hasAttr Attr.points pc).1 && decide (rows.length ≠ 0)) = true then mergeStep al z.2 (Frame.ofIn nrm eps i) rows
      else (.ok (), z.2)) = y
    obtain ⟨_ | _, pc'⟩ := y
    · rfl
    · simp only
      generalize newList _ _ = x
      cases x <;> rfl
  unfold updateMapFusionRaw updateMapFusion findCorrespondencesRaw findCorrespondences
  rw [h.camera]
  simp only [e1, e2, e3]
  rcases findActive pc (Frame.ofIn nrm eps i) with ⟨_ | rows, pc⟩
  · rfl
  · simp only
    rcases findSimilar nrm pc (Frame.ofIn nrm eps i) rows d t with ⟨_ | ⟨rows, ks⟩, pc⟩
    · rfl
    · simp only
      rcases findBest pc (Frame.ofIn nrm eps i) rows with ⟨_ | rows, pc⟩ <;> rfl

/-! ### Channels-first -/

theorem RawOf.pick_first {nrm : V3 α → α} {eps : α} {i : Rgbd.In α} {r : Raw α} (h : RawOf nrm eps true i r) (hL : i.L = 1) (hB : 0 < i.B)
    (hW : i.W = 3) (hH : 2 ≤ i.H) : ∃ e, pickShape r = .error e := by
  have e1 : r.gv.sh = ⟨i.B, 1, 3, i.H, 3⟩ := by rw [h.gv]; simp [Rgbd.image, Rgbd.mk5, Rgbd.dims5, hL, hW]
  have e2 : r.valid.sh = ⟨i.B, 1, 1, i.H, 3⟩ := by rw [h.validSh]; simp [Rgbd.dims5, hL, hW]
  rw [pickShape, e1, e2]
  have b1 : ∀ n, Rgbd.bdim n 1 = some n := by intro n; unfold Rgbd.bdim; split_ifs <;> simp_all
  simp only [dimList, squeezeLast, List.getLast?_cons_cons, List.getLast?_singleton]
  rw [if_neg (by simp)]
  simp only [bcast, List.reverse_cons, List.reverse_nil, List.nil_append, List.cons_append, bcastRev, b1]
  have b3 : Rgbd.bdim i.H 3 = if i.H = 3 then some 3 else none := by
    unfold Rgbd.bdim; split_ifs <;> simp_all
  rw [b3]
  by_cases h3 : i.H = 3
  · simp only [h3, if_true, Rgbd.bdim]
    refine ⟨.pcs .indexError, ?_⟩
    simp [maskIndex, hB.ne']
  · simp [h3]

/-- `fuse_with_map` on a channels-first frame always raises. -/
theorem fuseRaw_first {nrm : V3 α → α} {eps : α} {i : Rgbd.In α} {r : Raw α} (h : RawOf nrm eps true i r) (hL : i.L = 1) (hB : 0 < i.B)
    (hH : 2 ≤ i.H) (al : V3 α → α) (pc : PC α) (rows : List Row) (inplace : Bool) :
    ∃ e pc', fuseWithMapRaw al pc r rows inplace = (.error e, pc') := by
  have ev : r.v.sh.d4 = i.W := by rw [h.v]; simp [Rgbd.image, Rgbd.mk5, Rgbd.dims5]
  unfold fuseWithMapRaw
  rcases hasAttr .points pc with ⟨hp, pc⟩
  simp only
  generalize (if hp = true then requireAll [.normals, .colors, .features] pc else (true, pc)) = z
  obtain ⟨ok, pc⟩ := z
  simp only
  cases ok with
  | false => exact ⟨_, _, rfl⟩
  | true =>
    by_cases hW : i.W = 3
    · obtain ⟨e, he⟩ := h.pick_first hL hB hW hH
      simp only [Bool.not_true, Bool.false_eq_true, if_false, ev, hW, ne_eq, not_true_eq_false, he]
      generalize (if (hp && decide (¬rows.length = 0)) = true then mergeStep al pc r.frame rows else (.ok (), pc)) = y
      rcases y with ⟨_ | _, pc⟩ <;> exact ⟨_, _, rfl⟩
    · simp only [Bool.not_true, Bool.false_eq_true, if_false, ev, ne_eq, hW, not_false_eq_true, if_true]
      exact ⟨_, _, rfl⟩

/-- `update_map_fusion` on a channels-first frame always raises, whatever the map is. -/
theorem updateMapFusionRaw_first [FloorRing α] {nrm : V3 α → α} {eps : α} {i : Rgbd.In α} {r : Raw α} (h : RawOf nrm eps true i r) (hL : i.L = 1)
    (hB : 0 < i.B) (hH : 2 ≤ i.H) (al : V3 α → α) (pc : PC α) (d t : α) (inplace : Bool) :
    ∃ e pc', updateMapFusionRaw nrm al pc r d t inplace = (.error e, pc') := by
  unfold updateMapFusionRaw
  rcases findCorrespondencesRaw nrm pc r d t with ⟨_ | rows, pc⟩
  · exact ⟨_, _, rfl⟩
  · exact fuseRaw_first h hL hB hH al pc rows inplace
end
end Verif.Fusion
