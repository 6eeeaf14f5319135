import Verif.Rgbd.Model
/-!
**C104**: which arguments the constructor of `RGBDImages` accepts, for tensors of any rank, and the shapes of the tensors of an object after any
sequence of calls, failing ones included.
-/
namespace Verif.Rgbd
open Verif
set_option linter.unusedSectionVars false

/-! ### The constructor's checks on arguments of any rank -/

/-- `rgb_image.ndim != 5`, …, `poses.ndim != 4`: the rank checks, rgbdimages.py:102-118; a shape is a list. -/
def checkRanks (rgb depth K : List Nat) (poses : Option (List Nat)) : Except Err Unit :=
  if rgb.length ≠ 5 then .error .valueError
  else if depth.length ≠ 5 then .error .valueError
  else if K.length ≠ 4 then .error .valueError
  else match poses with
    | some p => if p.length ≠ 4 then .error .valueError else .ok ()
    | none => .ok ()

/-- `cdim`, rgbdimages.py:246-253. -/
def cdim (cf : Bool) : Nat := if cf then 2 else 4

/-- The shape checks, rgbdimages.py:120-147: `_depth_shape`, `_intrinsics_shape`, `_poses_shape`, `_pixel_pos_shape` are computed from
`rgb_image.shape` and compared. -/
def checkShapes (cf : Bool) (rgb depth K : List Nat) (poses pix : Option (List Nat)) : Except Err Unit :=
  let depthShape := rgb.mapIdx fun i v => if i ≠ cdim cf then v else 1
  let intrinsicsShape := [rgb.getD 0 0, 1, 4, 4]
  let posesShape := rgb.take 2 ++ [4, 4]
  let pixShape := rgb.take (cdim cf) ++ rgb.drop (cdim cf + 1) ++ [3]
  if rgb.getD (cdim cf) 0 ≠ 3 then .error .valueError
  else if depth ≠ depthShape then .error .valueError
  else if K ≠ intrinsicsShape then .error .valueError
  else if poses ≠ none ∧ poses ≠ some posesShape then .error .valueError
  else if pix ≠ none ∧ pix ≠ some pixShape then .error .valueError
  else .ok ()

/-- The checks of the constructor, rgbdimages.py:102-147. -/
def checkArgs (cf : Bool) (rgb depth K : List Nat) (poses pix : Option (List Nat)) : Except Err Unit :=
  match checkRanks rgb depth K poses with
  | .error e => .error e
  | .ok () => checkShapes cf rgb depth K poses pix

/-- The documented shape of an image with `C` channels. -/
def docImage (cf : Bool) (B L H W C : Nat) : List Nat := if cf then [B, L, C, H, W] else [B, L, H, W, C]

/-- Arguments as documented: one batch size, one sequence length and one image size for all of them; positions without channels-first layout. -/
def Documented (cf : Bool) (rgb depth K : List Nat) (poses pix : Option (List Nat)) : Prop :=
  ∃ B L H W, rgb = docImage cf B L H W 3 ∧ depth = docImage cf B L H W 1 ∧ K = [B, 1, 4, 4] ∧ (poses = none ∨ poses = some [B, L, 4, 4]) ∧
    (pix = none ∨ pix = some [B, L, H, W, 3])

/-- **C104, acceptance.**  For tensors of any rank and sizes the constructor accepts exactly the documented shapes, and refuses all others with
ValueError. -/
theorem checkArgs_iff (cf : Bool) (rgb depth K : List Nat) (poses pix : Option (List Nat)) :
    (Documented cf rgb depth K poses pix → checkArgs cf rgb depth K poses pix = .ok ()) ∧
    (¬ Documented cf rgb depth K poses pix → checkArgs cf rgb depth K poses pix = .error .valueError) := by
  constructor
  · rintro ⟨B, L, H, W, rfl, rfl, rfl, hp, hx⟩
    rcases hp with rfl | rfl <;> rcases hx with rfl | rfl <;> cases cf <;> simp [checkArgs, checkRanks, checkShapes, docImage, cdim, List.mapIdx, List.mapIdx.go]
  · intro h
    unfold checkArgs
    have hr : checkRanks rgb depth K poses = .error .valueError ∨ checkRanks rgb depth K poses = .ok () ∧ rgb.length = 5 := by
      unfold checkRanks
      split_ifs with h1 h2 h3
      · exact Or.inl rfl
      · exact Or.inl rfl
      · exact Or.inl rfl
      · cases poses with
        | none => exact Or.inr ⟨rfl, not_not.1 h1⟩
        | some p =>
          simp only
          split_ifs
          · exact Or.inl rfl
          · exact Or.inr ⟨rfl, not_not.1 h1⟩
    rcases hr with hr | ⟨hr, hl⟩
    · rw [hr]
    rw [hr]
    simp only
    unfold checkShapes
    match rgb, hl with
    | [d0, d1, d2, d3, d4], _ =>
      simp only
      split_ifs with h1 h2 h3 h4 h5
      · rfl
      · rfl
      · rfl
      · rfl
      · rfl
      · exfalso
        apply h
        simp only [not_and_or, not_not] at h1 h2 h3 h4 h5
        cases cf
        · refine ⟨d0, d1, d2, d3, ?_, ?_, h3, ?_, ?_⟩
          · have : d4 = 3 := by simpa [cdim] using h1
            rw [this]; rfl
          · simpa [cdim, docImage, List.mapIdx, List.mapIdx.go] using h2
          · simpa using h4
          · simpa [cdim] using h5
        · refine ⟨d0, d1, d3, d4, ?_, ?_, h3, ?_, ?_⟩
          · have : d2 = 3 := by simpa [cdim] using h1
            rw [this]; rfl
          · simpa [cdim, docImage, List.mapIdx, List.mapIdx.go] using h2
          · simpa using h4
          · simpa [cdim] using h5

section
variable {α : Type*}

/-- The shape of a rank-5 tensor as a list. -/
def Shape5.list (s : Shape5) : List Nat := [s.d0, s.d1, s.d2, s.d3, s.d4]

/-- The shape of a tensor of 4×4 matrices as a list. -/
def TM.shape (t : TM α) : List Nat := [t.d0, t.d1, 4, 4]

theorem Shape5.list_inj {s t : Shape5} (h : s.list = t.list) : s = t := by
  simp only [Shape5.list, List.cons.injEq, and_true] at h
  obtain ⟨a, b, c, d, e⟩ := h
  exact Shape5.ext a b c d e

/-- The constructor of the model makes exactly these checks. -/
theorem new_checks (rgb depth : T5 α) (K : TM α) (poses : Option (TM α)) (cf : Bool) (pix : Option (T5 α)) :
    (∃ s, new rgb depth K poses cf pix = .ok s) ↔
      checkArgs cf rgb.sh.list depth.sh.list K.shape (poses.map TM.shape) (pix.map fun p => p.sh.list) = .ok () := by
  have e1 : checkRanks rgb.sh.list depth.sh.list K.shape (poses.map TM.shape) = .ok () := by
    cases poses <;> simp [checkRanks, Shape5.list, TM.shape]
  unfold checkArgs
  rw [e1]
  simp only
  have c1 : rgb.sh.list.getD (cdim cf) 0 = rgb.sh.chans cf := by cases cf <;> rfl
  have c2 : (rgb.sh.list.mapIdx fun i v => if i ≠ cdim cf then v else 1) = (rgb.sh.setC cf 1).list := by cases cf <;> rfl
  have c3 : (K.shape ≠ [rgb.sh.list.getD 0 0, 1, 4, 4]) ↔ ((K.d0, K.d1) ≠ (rgb.sh.d0, 1)) := by
    simp [TM.shape, Shape5.list]
  have c4 : (poses.map TM.shape ≠ none ∧ poses.map TM.shape ≠ some (rgb.sh.list.take 2 ++ [4, 4])) ↔
      (!Pcs.okOpt poses (fun p => decide ((p.d0, p.d1) = (rgb.sh.d0, rgb.sh.d1)))) = true := by
    cases poses <;> simp [Pcs.okOpt, TM.shape, Shape5.list, imp_iff_not_or]
  have c5 : (pix.map (fun p => p.sh.list) ≠ none ∧ pix.map (fun p => p.sh.list) ≠ some (rgb.sh.list.take (cdim cf) ++ rgb.sh.list.drop (cdim cf + 1) ++ [3])) ↔
      (!Pcs.okOpt pix (fun p => decide (p.sh = rgb.sh.pixShape cf))) = true := by
    have : rgb.sh.list.take (cdim cf) ++ rgb.sh.list.drop (cdim cf + 1) ++ [3] = (rgb.sh.pixShape cf).list := by cases cf <;> rfl
    rw [this]
    cases pix with
    | none => simp [Pcs.okOpt]
    | some p =>
      have : p.sh.list = (rgb.sh.pixShape cf).list ↔ p.sh = rgb.sh.pixShape cf := ⟨Shape5.list_inj, fun h => by rw [h]⟩
      simp [Pcs.okOpt, this]
  have c6 : (depth.sh.list ≠ (rgb.sh.setC cf 1).list) ↔ depth.sh ≠ rgb.sh.setC cf 1 := not_congr ⟨Shape5.list_inj, fun h => by rw [h]⟩
  unfold checkShapes new
  simp only [c1, c2]
  by_cases h1 : rgb.sh.chans cf ≠ 3
  · simp [h1]
  by_cases h2 : depth.sh ≠ rgb.sh.setC cf 1
  · rw [if_neg h1, if_pos h2, if_neg h1, if_pos (c6.2 h2)]; simp
  by_cases h3 : (K.d0, K.d1) ≠ (rgb.sh.d0, 1)
  · rw [if_neg h1, if_neg h2, if_pos h3, if_neg h1, if_neg (fun k => h2 (c6.1 k)), if_pos (c3.2 h3)]; simp
  by_cases h4 : (!Pcs.okOpt poses (fun p => decide ((p.d0, p.d1) = (rgb.sh.d0, rgb.sh.d1)))) = true
  · rw [if_neg h1, if_neg h2, if_neg h3, if_pos h4, if_neg h1, if_neg (fun k => h2 (c6.1 k)), if_neg (fun k => h3 (c3.1 k)), if_pos (c4.2 h4)]; simp
  by_cases h5 : (!Pcs.okOpt pix (fun p => decide (p.sh = rgb.sh.pixShape cf))) = true
  · rw [if_neg h1, if_neg h2, if_neg h3, if_neg h4, if_pos h5, if_neg h1, if_neg (fun k => h2 (c6.1 k)), if_neg (fun k => h3 (c3.1 k)),
      if_neg (fun k => h4 (c4.1 k)), if_pos (c5.2 h5)]; simp
  rw [if_neg h1, if_neg h2, if_neg h3, if_neg h4, if_neg h5, if_neg h1, if_neg (fun k => h2 (c6.1 k)), if_neg (fun k => h3 (c3.1 k)),
      if_neg (fun k => h4 (c4.1 k)), if_neg (fun k => h5 (c5.1 k))]; simp

/-! ### Shapes after any sequence of calls -/

/-- The tensors of an object have the documented shapes for its `shape` and `channels_first`. -/
structure WellShaped (s : Obj α) : Prop where
  rgb : s.rgb.sh.list = docImage s.cf s.B s.L s.H s.W 3
  depth : s.depth.sh.list = docImage s.cf s.B s.L s.H s.W 1
  K : s.K.shape = [s.B, 1, 4, 4]
  poses : ∀ p, s.poses = some p → p.shape = [s.B, s.L, 4, 4]
  pix : ∀ p, s.pix = some p → p.sh.list = [s.B, s.L, s.H, s.W, 3]

/-- What the setters compare with is up to date. -/
structure Tracked (s : Obj α) : Prop extends WellShaped s where
  rgbShape : s.rgbShape = s.rgb.sh
  depthShape : s.depthImageShape = none ∨ s.depthImageShape = some s.depth.sh

variable [Field α] [LinearOrder α]

/-- **Every object a program can have**: constructed, left behind by a call (a getter or setter, successful or not, an in-place layout change), or
returned by one. -/
inductive Had (nrm : V3 α → α) (eps : α) : Obj α → Prop
  | new {rgb depth : T5 α} {K : TM α} {poses : Option (TM α)} {cf : Bool} {pix : Option (T5 α)} {s : Obj α} :
      Rgbd.new rgb depth K poses cf pix = .ok s → Had nrm eps s
  | readValid {s : Obj α} : Had nrm eps s → Had nrm eps (getValid s).2
  | readVertex {s : Obj α} : Had nrm eps s → Had nrm eps (getVertex eps s).2
  | readGVertex {s : Obj α} : Had nrm eps s → Had nrm eps (getGVertex eps s).2
  | readNormal {s : Obj α} : Had nrm eps s → Had nrm eps (getNormal nrm eps s).2
  | readGNormal {s : Obj α} : Had nrm eps s → Had nrm eps (getGNormal nrm eps s).2
  | setRgb {s : Obj α} (v : T5 α) : Had nrm eps s → Had nrm eps (Rgbd.setRgb v s).2
  | setDepth {s : Obj α} (v : T5 α) : Had nrm eps s → Had nrm eps (Rgbd.setDepth v s).2
  | setK {s : Obj α} (v : TM α) : Had nrm eps s → Had nrm eps (Rgbd.setK v s).2
  | setPoses {s : Obj α} (v : Option (TM α)) : Had nrm eps s → Had nrm eps (Rgbd.setPoses v s).2
  | toFirst_ {s : Obj α} : Had nrm eps s → Had nrm eps (Rgbd.toFirst_ s)
  | toLast_ {s : Obj α} : Had nrm eps s → Had nrm eps (Rgbd.toLast_ s)
  | clone {s o : Obj α} : Had nrm eps s → Rgbd.clone s = .ok o → Had nrm eps o
  | toFirst {s o : Obj α} (c : Bool) : Had nrm eps s → Rgbd.toFirst c s = .ok o → Had nrm eps o
  | toLast {s o : Obj α} (c : Bool) : Had nrm eps s → Rgbd.toLast c s = .ok o → Had nrm eps o
  | getitem {s o : Obj α} (idx : Index) : Had nrm eps s → Rgbd.getitem idx s = .ok o → Had nrm eps o

/-- Same images, intrinsics, poses, layout, sizes and remembered shapes; pixel positions may have been filled in. -/
structure Keeps (s t : Obj α) : Prop where
  cf : t.cf = s.cf
  rgb : t.rgb = s.rgb
  depth : t.depth = s.depth
  K : t.K = s.K
  poses : t.poses = s.poses
  B : t.B = s.B
  L : t.L = s.L
  H : t.H = s.H
  W : t.W = s.W
  rgbShape : t.rgbShape = s.rgbShape
  depthShape : t.depthImageShape = s.depthImageShape
  pix : t.pix = s.pix ∨ t.pix = some (meshPix s.B s.L s.H s.W)

theorem Keeps.refl (s : Obj α) : Keeps s s := ⟨rfl, rfl, rfl, rfl, rfl, rfl, rfl, rfl, rfl, rfl, rfl, Or.inl rfl⟩

theorem Keeps.trans {s t u : Obj α} (a : Keeps s t) (b : Keeps t u) : Keeps s u := by
  refine ⟨b.cf.trans a.cf, b.rgb.trans a.rgb, b.depth.trans a.depth, b.K.trans a.K, b.poses.trans a.poses, b.B.trans a.B, b.L.trans a.L, b.H.trans a.H,
    b.W.trans a.W, b.rgbShape.trans a.rgbShape, b.depthShape.trans a.depthShape, ?_⟩
  rcases b.pix with h | h
  · rw [h]; exact a.pix
  · right; rw [h, a.B, a.L, a.H, a.W]

theorem keeps_valid (s : Obj α) : Keeps s (getValid s).2 := by
  unfold getValid
  split
  · exact Keeps.refl s
  · exact ⟨rfl, rfl, rfl, rfl, rfl, rfl, rfl, rfl, rfl, rfl, rfl, Or.inl rfl⟩

theorem keeps_computeVertex (eps : α) (s : Obj α) : Keeps s (computeVertex eps s).2 := by
  have k0 : Keeps s { s with pix := some (s.pix.getD (meshPix s.B s.L s.H s.W)) } := by
    refine ⟨rfl, rfl, rfl, rfl, rfl, rfl, rfl, rfl, rfl, rfl, rfl, ?_⟩
    cases h : s.pix with
    | none => exact Or.inr rfl
    | some p => exact Or.inl rfl
  unfold computeVertex
  simp only
  split
  · exact k0
  · rename_i v _
    have k1 : Keeps s { s with pix := some (s.pix.getD (meshPix s.B s.L s.H s.W)), vertex := some v } :=
      k0.trans ⟨rfl, rfl, rfl, rfl, rfl, rfl, rfl, rfl, rfl, rfl, rfl, Or.inl rfl⟩
    have k2 := k1.trans (keeps_valid _)
    split
    · exact k2
    · exact k2.trans ⟨rfl, rfl, rfl, rfl, rfl, rfl, rfl, rfl, rfl, rfl, rfl, Or.inl rfl⟩

theorem keeps_vertex (eps : α) (s : Obj α) : Keeps s (getVertex eps s).2 := by
  unfold getVertex
  split
  · exact Keeps.refl s
  · have := keeps_computeVertex eps s
    generalize computeVertex eps s = x at this
    obtain ⟨x, t⟩ := x
    cases x <;> exact this

theorem keeps_computeGVertex (eps : α) (s : Obj α) : Keeps s (computeGVertex eps s).2 := by
  have h := keeps_vertex eps s
  unfold computeGVertex
  generalize getVertex eps s = x at h
  obtain ⟨x, t⟩ := x
  split
  · cases x with
    | error e => exact h
    | ok v => exact h.trans ⟨rfl, rfl, rfl, rfl, rfl, rfl, rfl, rfl, rfl, rfl, rfl, Or.inl rfl⟩
  · cases x with
    | error e => exact h
    | ok v =>
      simp only
      rename_i P _
      have k1 : Keeps s { t with gvertex := some (addT t.cf P (rotMap t.cf v.sh P v)) } := h.trans ⟨rfl, rfl, rfl, rfl, rfl, rfl, rfl, rfl, rfl, rfl, rfl, Or.inl rfl⟩
      have k2 := k1.trans (keeps_valid _)
      split
      · exact k2
      · exact k2.trans ⟨rfl, rfl, rfl, rfl, rfl, rfl, rfl, rfl, rfl, rfl, rfl, Or.inl rfl⟩

theorem keeps_gvertex (eps : α) (s : Obj α) : Keeps s (getGVertex eps s).2 := by
  unfold getGVertex
  split
  · exact Keeps.refl s
  · have := keeps_computeGVertex eps s
    generalize computeGVertex eps s = x at this
    obtain ⟨x, t⟩ := x
    cases x <;> exact this

theorem keeps_computeNormal (nrm : V3 α → α) (eps : α) (s : Obj α) : Keeps s (computeNormal nrm eps s).2 := by
  have h := keeps_vertex eps s
  unfold computeNormal
  generalize getVertex eps s = x at h
  obtain ⟨x, t⟩ := x
  cases x with
  | error e => exact h
  | ok v =>
    simp only
    split
    · exact h
    · generalize mk5 t.cf t.B t.L t.H t.W 3 (fun b l h w c => Pcs.comp (rawNormal nrm t.cf t.H t.W v b l h w) c) = n
      have k1 : Keeps s { t with normal := some n } := h.trans ⟨rfl, rfl, rfl, rfl, rfl, rfl, rfl, rfl, rfl, rfl, rfl, Or.inl rfl⟩
      have k2 := k1.trans (keeps_valid _)
      split
      · exact k2
      · exact k2.trans ⟨rfl, rfl, rfl, rfl, rfl, rfl, rfl, rfl, rfl, rfl, rfl, Or.inl rfl⟩

theorem keeps_normal (nrm : V3 α → α) (eps : α) (s : Obj α) : Keeps s (getNormal nrm eps s).2 := by
  unfold getNormal
  split
  · exact Keeps.refl s
  · have := keeps_computeNormal nrm eps s
    generalize computeNormal nrm eps s = x at this
    obtain ⟨x, t⟩ := x
    cases x <;> exact this

theorem keeps_gnormal (nrm : V3 α → α) (eps : α) (s : Obj α) : Keeps s (getGNormal nrm eps s).2 := by
  unfold getGNormal
  split
  · exact Keeps.refl s
  · have : Keeps s (computeGNormal nrm eps s).2 := by
      have h := keeps_normal nrm eps s
      unfold computeGNormal
      generalize getNormal nrm eps s = x at h
      obtain ⟨x, t⟩ := x
      cases x with
      | error e => exact h
      | ok v =>
        simp only
        split <;> exact h.trans ⟨rfl, rfl, rfl, rfl, rfl, rfl, rfl, rfl, rfl, rfl, rfl, Or.inl rfl⟩
    generalize computeGNormal nrm eps s = x at this
    obtain ⟨x, t⟩ := x
    cases x <;> exact this

theorem Keeps.tracked {s t : Obj α} (k : Keeps s t) (h : Tracked s) : Tracked t := by
  refine ⟨⟨?_, ?_, ?_, ?_, ?_⟩, ?_, ?_⟩
  · rw [k.rgb, k.cf, k.B, k.L, k.H, k.W]; exact h.rgb
  · rw [k.depth, k.cf, k.B, k.L, k.H, k.W]; exact h.depth
  · rw [k.K, k.B]; exact h.K
  · rw [k.poses, k.B, k.L]; exact h.poses
  · rcases k.pix with e | e
    · rw [e, k.B, k.L, k.H, k.W]; exact h.pix
    · rw [e, k.B, k.L, k.H, k.W]
      rintro p ⟨⟩
      rfl
  · rw [k.rgbShape, k.rgb]; exact h.rgbShape
  · rw [k.depthShape, k.depth]; exact h.depthShape

theorem new_tracked {rgb depth : T5 α} {K : TM α} {poses : Option (TM α)} {cf : Bool} {pix : Option (T5 α)} {s : Obj α}
    (h : new rgb depth K poses cf pix = .ok s) : Tracked s ∧ s.cf = cf ∧ s.rgb = rgb ∧ s.depth = depth ∧ s.K = K ∧ s.poses = poses ∧ s.pix = pix ∧
      s.B = rgb.sh.d0 ∧ s.L = rgb.sh.d1 ∧ s.H = (if cf then rgb.sh.d3 else rgb.sh.d2) ∧ s.W = (if cf then rgb.sh.d4 else rgb.sh.d3) := by
  have c := (new_checks rgb depth K poses cf pix).1 ⟨s, h⟩
  have d : Documented cf rgb.sh.list depth.sh.list K.shape (poses.map TM.shape) (pix.map fun p => p.sh.list) := by
    by_contra hd
    rw [(checkArgs_iff _ _ _ _ _ _).2 hd] at c
    cases c
  have e : s = ⟨cf, rgb, depth, K, poses, pix, none, none, none, none, none, rgb.sh, none, rgb.sh.d0, rgb.sh.d1,
      if cf then rgb.sh.d3 else rgb.sh.d2, if cf then rgb.sh.d4 else rgb.sh.d3⟩ := by
    unfold new at h
    split_ifs at h <;> simp_all
  subst e
  refine ⟨?_, rfl, rfl, rfl, rfl, rfl, rfl, rfl, rfl, rfl, rfl⟩
  obtain ⟨B, L, H, W, h1, h2, h3, h4, h5⟩ := d
  have hB : rgb.sh.d0 = B ∧ rgb.sh.d1 = L ∧ (if cf then rgb.sh.d3 else rgb.sh.d2) = H ∧ (if cf then rgb.sh.d4 else rgb.sh.d3) = W := by
    cases cf <;> simp [Shape5.list, docImage] at h1 <;> simp [h1]
  obtain ⟨b1, b2, b3, b4⟩ := hB
  refine ⟨⟨?_, ?_, ?_, ?_, ?_⟩, rfl, Or.inl rfl⟩
  · simp only [b1, b2, b3, b4]; exact h1
  · simp only [b1, b2, b3, b4]; exact h2
  · simp only [b1]; exact h3
  · rintro p rfl
    simp only [b1, b2]
    simpa using h4
  · rintro p rfl
    simp only [b1, b2, b3, b4]
    simpa using h5

theorem clone_tracked {s o : Obj α} (hs : Tracked s) (h : clone s = .ok o) : Tracked o ∧ o.cf = s.cf ∧ o.B = s.B ∧ o.L = s.L ∧ o.H = s.H ∧ o.W = s.W := by
  unfold clone at h
  split at h
  · cases h
  rename_i d hd
  cases h
  obtain ⟨t, e1, e2, e3, e4, e5, e6, e7, e8, e9, e10⟩ := new_tracked hd
  have sz : d.B = s.B ∧ d.L = s.L ∧ d.H = s.H ∧ d.W = s.W := by
    rw [e7, e8, e9, e10]
    have := hs.rgb
    cases hc : s.cf <;> simp only [hc, docImage, Shape5.list, Bool.false_eq_true, if_false, if_true, List.cons.injEq, and_true] at this ⊢ <;>
      obtain ⟨a, b, c, d, e⟩ := this <;> simp only [a, b, c, d, e, and_self]
  obtain ⟨z1, z2, z3, z4⟩ := sz
  refine ⟨⟨⟨t.rgb, t.depth, t.K, ?_, ?_⟩, t.rgbShape, t.depthShape⟩, e1, z1, z2, z3, z4⟩
  · intro p hp
    have := hs.poses p hp
    simp only [z1, z2]; exact this
  · intro p hp
    have := hs.pix p hp
    simp only [z1, z2, z3, z4]; exact this

theorem first_tracked {s : Obj α} (hs : Tracked s) : Tracked (toFirst_ s) ∧ (toFirst_ s).cf = true ∧ (toFirst_ s).B = s.B ∧ (toFirst_ s).L = s.L ∧
    (toFirst_ s).H = s.H ∧ (toFirst_ s).W = s.W := by
  unfold toFirst_
  split_ifs with hc
  · exact ⟨hs, hc, rfl, rfl, rfl, rfl⟩
  · simp only [Bool.not_eq_true] at hc
    refine ⟨⟨⟨?_, ?_, hs.K, hs.poses, hs.pix⟩, rfl, Or.inr rfl⟩, rfl, rfl, rfl, rfl, rfl⟩
    · have := hs.rgb
      simp only [hc, docImage, Bool.false_eq_true, if_false, Shape5.list, List.cons.injEq, and_true] at this
      obtain ⟨a, b, c, d, e⟩ := this
      simp only [docImage, if_true, Shape5.list, perm01423, a, b, c, d, e]
    · have := hs.depth
      simp only [hc, docImage, Bool.false_eq_true, if_false, Shape5.list, List.cons.injEq, and_true] at this
      obtain ⟨a, b, c, d, e⟩ := this
      simp only [docImage, if_true, Shape5.list, perm01423, a, b, c, d, e]

theorem last_tracked {s : Obj α} (hs : Tracked s) : Tracked (toLast_ s) ∧ (toLast_ s).cf = false ∧ (toLast_ s).B = s.B ∧ (toLast_ s).L = s.L ∧
    (toLast_ s).H = s.H ∧ (toLast_ s).W = s.W := by
  unfold toLast_
  split_ifs with hc
  · exact ⟨hs, by simpa using hc, rfl, rfl, rfl, rfl⟩
  · simp only [Bool.not_eq_true', Bool.not_eq_false] at hc
    refine ⟨⟨⟨?_, ?_, hs.K, hs.poses, hs.pix⟩, rfl, Or.inr rfl⟩, rfl, rfl, rfl, rfl, rfl⟩
    · have := hs.rgb
      simp only [hc, docImage, if_true, Shape5.list, List.cons.injEq, and_true] at this
      obtain ⟨a, b, c, d, e⟩ := this
      simp only [docImage, Bool.false_eq_true, if_false, Shape5.list, perm01342, a, b, c, d, e]
    · have := hs.depth
      simp only [hc, docImage, if_true, Shape5.list, List.cons.injEq, and_true] at this
      obtain ⟨a, b, c, d, e⟩ := this
      simp only [docImage, Bool.false_eq_true, if_false, Shape5.list, perm01342, a, b, c, d, e]

theorem doc_list {cf : Bool} {B L H W C : Nat} {s : Shape5} : s.list = docImage cf B L H W C ↔ s = dims5 cf B L H W C := by
  constructor
  · intro h
    apply Shape5.list_inj
    rw [h]
    cases cf <;> rfl
  · rintro rfl
    cases cf <;> rfl

theorem selected_tracked {s o : Obj α} {is js : List Nat} (hs : Tracked s) (h : selected is js s = .ok o) :
    Tracked o ∧ o.cf = s.cf ∧ o.B = is.length ∧ o.L = js.length ∧ o.H = s.H ∧ o.W = s.W := by
  unfold selected at h
  split_ifs at h
  split at h
  · cases h
  rename_i d hd
  cases h
  obtain ⟨t, e1, e2, e3, e4, e5, e6, e7, e8, e9, e10⟩ := new_tracked hd
  have sz : d.B = is.length ∧ d.L = js.length ∧ d.H = s.H ∧ d.W = s.W := by
    rw [e7, e8, e9, e10]
    have := doc_list.1 hs.rgb
    simp only [T5.sel, this]
    cases s.cf <;> simp [dims5]
  obtain ⟨z1, z2, z3, z4⟩ := sz
  refine ⟨⟨⟨t.rgb, t.depth, t.K, ?_, ?_⟩, t.rgbShape, t.depthShape⟩, e1, z1, z2, z3, z4⟩
  · intro p hp
    simp only [Option.map_eq_some_iff] at hp
    obtain ⟨q, hq, rfl⟩ := hp
    simp only [z1, z2]; rfl
  · intro p hp
    simp only [Option.map_eq_some_iff] at hp
    obtain ⟨q, hq, rfl⟩ := hp
    have := hs.pix q hq
    simp only [Shape5.list, List.cons.injEq, and_true] at this
    obtain ⟨a, b, c, d, e⟩ := this
    simp only [z1, z2, z3, z4, T5.sel, Shape5.list, c, d, e]

theorem had_tracked {nrm : V3 α → α} {eps : α} {s : Obj α} (h : Had nrm eps s) : Tracked s := by
  induction h with
  | new h => exact (new_tracked h).1
  | readValid _ ih => exact (keeps_valid _).tracked ih
  | readVertex _ ih => exact (keeps_vertex _ _).tracked ih
  | readGVertex _ ih => exact (keeps_gvertex _ _).tracked ih
  | readNormal _ ih => exact (keeps_normal _ _ _).tracked ih
  | readGNormal _ ih => exact (keeps_gnormal _ _ _).tracked ih
  | @setRgb s v _ ih =>
    unfold Rgbd.setRgb
    split_ifs with hc
    · exact ih
    · have e : v.sh = s.rgb.sh := by rw [not_not.1 hc, ih.rgbShape]
      refine ⟨⟨?_, ih.depth, ih.K, ih.poses, ih.pix⟩, ?_, ih.depthShape⟩
      · simp only [e]; exact ih.rgb
      · simp only [e]; exact ih.rgbShape
  | @setDepth s v _ ih =>
    unfold Rgbd.setDepth
    split
    · exact ih
    · rename_i sh hsh
      split_ifs with hc
      · exact ih
      · have e : v.sh = s.depth.sh := by
          rcases ih.depthShape with k | k <;> rw [hsh] at k
          · cases k
          · cases k; exact not_not.1 hc
        refine ⟨⟨ih.rgb, ?_, ih.K, ih.poses, ih.pix⟩, ih.rgbShape, Or.inr ?_⟩
        · simp only [e]; exact ih.depth
        · simp only [hsh]; rw [not_not.1 hc]
  | @setK s v _ ih =>
    unfold Rgbd.setK
    split_ifs with hc
    · exact ih
    · refine ⟨⟨ih.rgb, ih.depth, ?_, ih.poses, ih.pix⟩, ih.rgbShape, ih.depthShape⟩
      have := not_not.1 hc
      simp only [Prod.mk.injEq] at this
      simp only [TM.shape, this]
  | @setPoses s v _ ih =>
    unfold Rgbd.setPoses
    split_ifs with hc
    · exact ih
    · refine ⟨⟨ih.rgb, ih.depth, ih.K, ?_, ih.pix⟩, ih.rgbShape, ih.depthShape⟩
      rintro p rfl
      simp [Pcs.okOpt] at hc
      simp [TM.shape, hc]
  | toFirst_ _ ih => exact (first_tracked ih).1
  | toLast_ _ ih => exact (last_tracked ih).1
  | clone _ h ih => exact (clone_tracked ih h).1
  | toFirst c _ h ih =>
    unfold Rgbd.toFirst at h
    split_ifs at h
    · cases h; exact ih
    · cases hc : Rgbd.clone _ with
      | error e => rw [hc] at h; cases h
      | ok d => rw [hc] at h; cases h; exact (first_tracked (clone_tracked ih hc).1).1
  | toLast c _ h ih =>
    unfold Rgbd.toLast at h
    split_ifs at h
    · cases h; exact ih
    · cases hc : Rgbd.clone _ with
      | error e => rw [hc] at h; cases h
      | ok d => rw [hc] at h; cases h; exact (last_tracked (clone_tracked ih hc).1).1
  | getitem idx _ h ih =>
    unfold Rgbd.getitem at h
    split at h
    · cases h
    split at h
    · cases h
    split at h
    · cases h
    split_ifs at h
    exact (selected_tracked ih h).1

/-- **C104, shapes.**  Whatever a program does with `RGBDImages` objects – reading maps, assigning images, intrinsics and poses of any shape, changing
the layout in place or in a copy, cloning, indexing, with calls that raise anywhere in between – every object it has contains tensors of the documented
shapes for its `shape` and its `channels_first`. -/
theorem shapes_documented {nrm : V3 α → α} {eps : α} {s : Obj α} (h : Had nrm eps s) : WellShaped s := (had_tracked h).toWellShaped

/-- **C104, sizes and layout.**  Only indexing changes the sizes (to the numbers of selected batch elements and frames); only the layout calls change
`channels_first`; reading and assigning change neither. -/
theorem sizes_kept {nrm : V3 α → α} {eps : α} {s : Obj α} (h : Had nrm eps s) :
    let same := fun t : Obj α => t.B = s.B ∧ t.L = s.L ∧ t.H = s.H ∧ t.W = s.W
    (∀ t ∈ [(getValid s).2, (getVertex eps s).2, (getGVertex eps s).2, (getNormal nrm eps s).2, (getGNormal nrm eps s).2], same t ∧ t.cf = s.cf) ∧
    (∀ v, same (setRgb v s).2 ∧ (setRgb v s).2.cf = s.cf) ∧ (∀ v, same (setDepth v s).2 ∧ (setDepth v s).2.cf = s.cf) ∧
    (∀ v, same (setK v s).2 ∧ (setK v s).2.cf = s.cf) ∧ (∀ v, same (setPoses v s).2 ∧ (setPoses v s).2.cf = s.cf) ∧
    (same (toFirst_ s) ∧ (toFirst_ s).cf = true) ∧ (same (toLast_ s) ∧ (toLast_ s).cf = false) ∧
    (∀ o, clone s = .ok o → same o ∧ o.cf = s.cf) ∧ (∀ c o, toFirst c s = .ok o → same o ∧ o.cf = true) ∧
    (∀ c o, toLast c s = .ok o → same o ∧ o.cf = false) ∧
    (∀ idx o, getitem idx s = .ok o → o.H = s.H ∧ o.W = s.W ∧ o.cf = s.cf ∧ 0 < o.B ∧ 0 < o.L) := by
  have hs := had_tracked h
  have kk : ∀ {t : Obj α}, Keeps s t → (t.B = s.B ∧ t.L = s.L ∧ t.H = s.H ∧ t.W = s.W) ∧ t.cf = s.cf := fun k => ⟨⟨k.B, k.L, k.H, k.W⟩, k.cf⟩
  refine ⟨?_, ?_, ?_, ?_, ?_, ?_, ?_, ?_, ?_, ?_, ?_⟩
  · intro t ht
    simp only [List.mem_cons, List.not_mem_nil, or_false] at ht
    rcases ht with rfl | rfl | rfl | rfl | rfl
    · exact kk (keeps_valid s)
    · exact kk (keeps_vertex eps s)
    · exact kk (keeps_gvertex eps s)
    · exact kk (keeps_normal nrm eps s)
    · exact kk (keeps_gnormal nrm eps s)
  · intro v; unfold setRgb; split_ifs <;> exact ⟨⟨rfl, rfl, rfl, rfl⟩, rfl⟩
  · intro v; unfold setDepth; split
    · exact ⟨⟨rfl, rfl, rfl, rfl⟩, rfl⟩
    · split_ifs <;> exact ⟨⟨rfl, rfl, rfl, rfl⟩, rfl⟩
  · intro v; unfold setK; split_ifs <;> exact ⟨⟨rfl, rfl, rfl, rfl⟩, rfl⟩
  · intro v; unfold setPoses; split_ifs <;> exact ⟨⟨rfl, rfl, rfl, rfl⟩, rfl⟩
  · exact ⟨(first_tracked hs).2.2, (first_tracked hs).2.1⟩
  · exact ⟨(last_tracked hs).2.2, (last_tracked hs).2.1⟩
  · intro o ho
    exact ⟨(clone_tracked hs ho).2.2, (clone_tracked hs ho).2.1⟩
  · intro c o ho
    unfold toFirst at ho
    split_ifs at ho with hc
    · cases ho; simp only [Bool.and_eq_true] at hc; exact ⟨⟨rfl, rfl, rfl, rfl⟩, hc.2⟩
    · cases hd : Rgbd.clone s with
      | error e => rw [hd] at ho; cases ho
      | ok d =>
        rw [hd] at ho; cases ho
        obtain ⟨t, -, a1, a2, a3, a4⟩ := clone_tracked hs hd
        obtain ⟨-, b0, b1, b2, b3, b4⟩ := first_tracked t
        exact ⟨⟨b1.trans a1, b2.trans a2, b3.trans a3, b4.trans a4⟩, b0⟩
  · intro c o ho
    unfold toLast at ho
    split_ifs at ho with hc
    · cases ho; simp only [Bool.not_eq_true', Bool.or_eq_false_iff] at hc; exact ⟨⟨rfl, rfl, rfl, rfl⟩, hc.2⟩
    · cases hd : Rgbd.clone s with
      | error e => rw [hd] at ho; cases ho
      | ok d =>
        rw [hd] at ho; cases ho
        obtain ⟨t, -, a1, a2, a3, a4⟩ := clone_tracked hs hd
        obtain ⟨-, b0, b1, b2, b3, b4⟩ := last_tracked t
        exact ⟨⟨b1.trans a1, b2.trans a2, b3.trans a3, b4.trans a4⟩, b0⟩
  · intro idx o ho
    unfold getitem at ho
    split at ho
    · cases ho
    split at ho
    · cases ho
    split at ho
    · cases ho
    split_ifs at ho
    obtain ⟨-, c, b1, b2, b3, b4⟩ := selected_tracked hs ho
    unfold selected at ho
    split_ifs at ho
    exact ⟨b3, b4, c, by omega, by omega⟩
end
end Verif.Rgbd
