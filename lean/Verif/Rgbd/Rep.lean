import Verif.Rgbd.Spec
/-!
The representation relation between an object and its inputs (every cache is absent or fresh) and its preservation.
-/
namespace Verif.Rgbd
open Verif
set_option linter.unusedSectionVars false
set_option linter.unusedSimpArgs false

section
variable {α : Type*} [Field α] [LinearOrder α]

/-- Homogeneous pixel coordinates in use: those given, or the mesh grid. -/
def pixOf (s : Obj α) : Nat → Nat → Nat → Nat → V3 α := px3 false (s.pix.getD (meshPix s.B s.L s.H s.W))

/-- A cached image is absent or equal to the given one. -/
def CacheOk (c : Option (T5 α)) (t : T5 α) : Prop := c = none ∨ c = some t

/-- A cached mask is absent or says for every pixel whether its depth is positive. -/
def MaskOk (s : Obj α) (i : In α) : Prop :=
  s.valid = none ∨ ∃ m, s.valid = some m ∧ m.sh = dims5 s.cf i.B i.L i.H i.W 1 ∧
    ∀ b l h w, chan s.cf m b l h w 0 = decide (0 < i.depth b l h w)

structure Rep (nrm : V3 α → α) (eps : α) (s : Obj α) (i : In α) : Prop where
  hB : s.B = i.B
  hL : s.L = i.L
  hH : s.H = i.H
  hW : s.W = i.W
  rgbSh : s.rgb.sh = dims5 s.cf i.B i.L i.H i.W 3
  rgb : ∀ b l h w, px3 s.cf s.rgb b l h w = i.rgb b l h w
  depthSh : s.depth.sh = dims5 s.cf i.B i.L i.H i.W 1
  depth : ∀ b l h w, chan s.cf s.depth b l h w 0 = i.depth b l h w
  KSh : s.K.d0 = i.B ∧ s.K.d1 = 1
  K : ∀ b, s.K.at' b 0 = i.K b
  poses : s.poses.map TM.at' = i.poses
  posesSh : ∀ p, s.poses = some p → p.d0 = i.B ∧ p.d1 = i.L
  pixSh : ∀ p, s.pix = some p → p.sh = ⟨i.B, i.L, i.H, i.W, 3⟩
  pix : pixOf s = i.pix
  rgbShape : s.rgbShape = s.rgb.sh
  depthShape : s.depthImageShape = none ∨ s.depthImageShape = some s.depth.sh
  mask : MaskOk s i
  vertex : CacheOk s.vertex (image s.cf i (vertexAt eps i))
  normal : CacheOk s.normal (image s.cf i (normalAt nrm eps i)) ∧ ((s.H < 2 ∨ s.W < 2) → s.normal = none)
  gvertex : CacheOk s.gvertex (image s.cf i (gvertexAt eps i))
  gnormal : CacheOk s.gnormal (image s.cf i (gnormalAt nrm eps i)) ∧ ((s.H < 2 ∨ s.W < 2) → s.gnormal = none)

/-! ### Tensor lemmas -/

theorem bdim_self (a : Nat) : bdim a a = some a := by simp [bdim]
theorem bix_self (a i : Nat) : bix a a i = i := by simp [bix]

theorem bmul_mk5 (cf : Bool) (B L H W : Nat) (f : Nat → Nat → Nat → Nat → Nat → α) (y : T5 α)
    (hy : y.sh = dims5 cf B L H W 1) :
    bmul (mk5 cf B L H W 3 f) y = .ok (mk5 cf B L H W 3 fun b l h w c => f b l h w c * chan cf y b l h w 0) := by
  obtain ⟨sh, a⟩ := y
  simp only at hy
  subst hy
  cases cf <;> simp [bmul, mk5, dims5, bshape, bdim_self, bix_self, chan, bdim, bix]

theorem chan_mk5 {β : Type*} (cf : Bool) (B L H W C : Nat) (f : Nat → Nat → Nat → Nat → Nat → β) (b l h w c : Nat) :
    chan cf (mk5 cf B L H W C f) b l h w c = f b l h w c := by
  cases cf <;> simp [chan, mk5]

theorem px3_image (cf : Bool) (i : In α) (f) (b l h w : Nat) : px3 cf (image cf i f) b l h w = f b l h w := by
  simp [px3, image, chan_mk5, Pcs.comp]

theorem mk5_congr {β : Type*} {cf : Bool} {B L H W C : Nat} {f g : Nat → Nat → Nat → Nat → Nat → β}
    (h : ∀ b l h w c, f b l h w c = g b l h w c) : mk5 cf B L H W C f = mk5 cf B L H W C g := by
  have : f = g := by funext b l h' w c; exact h b l h' w c
  rw [this]

theorem rotMap_image (cf : Bool) (i : In α) (P : TM α) (f) :
    rotMap cf (image cf i f).sh P (image cf i f) = image cf i fun b l h w => (P.at' b l).R.mulVec (f b l h w) := by
  have := px3_image cf i f
  cases cf <;> simp [rotMap, this] <;> simp [image, mk5]

theorem addT_image (cf : Bool) (i : In α) (P : TM α) (f) :
    addT cf P (image cf i f) = image cf i fun b l h w => (f b l h w).add (P.at' b l).t := by
  have hc : ∀ (u v : V3 α) c, Pcs.comp (u.add v) c = Pcs.comp u c + Pcs.comp v c := by
    intro u v c
    match c with
    | 0 => rfl
    | 1 => rfl
    | n + 2 => rfl
  cases cf <;> simp [addT, image, mk5, hc]

theorem comp_smul (u : V3 α) (k : α) (c : Nat) : Pcs.comp u c * k = Pcs.comp (u.smul k) c := by
  match c with
  | 0 => simp [Pcs.comp, V3.smul, mul_comm]
  | 1 => simp [Pcs.comp, V3.smul, mul_comm]
  | n + 2 => simp [Pcs.comp, V3.smul, mul_comm]

/-- Masking an image. -/
theorem bmul_mask (cf : Bool) (i : In α) (f) (m : T5 Bool) (hm : m.sh = dims5 cf i.B i.L i.H i.W 1) :
    bmul (image cf i f) (toNum m) = .ok (image cf i fun b l h w => if chan cf m b l h w 0 then f b l h w else V3.zero) := by
  unfold image
  rw [bmul_mk5 _ _ _ _ _ _ _ (by simpa [toNum] using hm)]
  congr 1
  apply mk5_congr
  intro b l h w c
  have : chan cf (toNum m : T5 α) b l h w 0 = if chan cf m b l h w 0 then 1 else 0 := by
    cases cf <;> simp [chan, toNum]
  rw [this, comp_smul]
  congr 1
  by_cases hx : chan cf m b l h w 0 = true
  · simp [hx, V3.smul]
  · simp [hx, V3.smul, V3.zero]

variable {nrm : V3 α → α} {eps : α}

/-! ### Getters -/

theorem getValid_rep {s : Obj α} {i : In α} (r : Rep nrm eps s i) :
    (getValid s).1.sh = dims5 s.cf i.B i.L i.H i.W 1 ∧
    (∀ b l h w, chan s.cf (getValid s).1 b l h w 0 = decide (0 < i.depth b l h w)) ∧
    Rep nrm eps (getValid s).2 i ∧ (getValid s).2 = { s with valid := (getValid s).2.valid } := by
  rcases r.mask with h | ⟨m, h, hs, hm⟩
  · have hd : ∀ b l h w, chan s.cf (⟨s.depth.sh, fun i j k l n => decide (s.depth.at' i j k l n > 0)⟩ : T5 Bool) b l h w 0
        = decide (0 < i.depth b l h w) := by
      intro b l h w
      rw [← r.depth]
      cases hcf : s.cf <;> simp [chan]
    simp only [getValid, h]
    refine ⟨r.depthSh, hd, ?_, trivial⟩
    exact { r with mask := Or.inr ⟨_, rfl, r.depthSh, hd⟩ }
  · simp only [getValid, h]
    exact ⟨hs, hm, r, by rw [← h]⟩

theorem vertex_val {s : Obj α} {i : In α} (r : Rep nrm eps s i) (p : T5 α)
    (hp : px3 false p = i.pix) :
    bmul (rays eps s.cf s.B s.L s.H s.W s.K p) s.depth =
      .ok (image s.cf i fun b l h w => backproj eps (i.K b) (i.pix b l h w) (i.depth b l h w)) := by
  unfold rays image
  rw [r.hB, r.hL, r.hH, r.hW, bmul_mk5 _ _ _ _ _ _ _ r.depthSh, hp]
  congr 1
  apply mk5_congr
  intro b l h w c
  rw [r.depth, r.K, comp_smul]
  congr 1
  simp only [backproj, Geom.inverseIntrinsics4, Geom.inverseIntrinsics3, M3.mulVec, V3.dot, V3.smul]
  congr 1 <;> ring

theorem image_congr {cf : Bool} {i : In α} {f g : Nat → Nat → Nat → Nat → V3 α} (h : ∀ b l h w, f b l h w = g b l h w) :
    image cf i f = image cf i g := by
  have : f = g := by funext b l h' w; exact h b l h' w
  rw [this]

/-- Masking an image of a represented object with its `valid_depth_mask`. -/
theorem mask_step {s : Obj α} {i : In α} (r : Rep nrm eps s i) (f) :
    bmul (image s.cf i f) (toNum (getValid s).1) =
      .ok (image s.cf i fun b l h w => if 0 < i.depth b l h w then f b l h w else V3.zero) := by
  obtain ⟨m1, m2, _, _⟩ := getValid_rep r
  rw [bmul_mask _ _ _ _ m1]
  congr 1
  apply image_congr
  intro b l h w
  simp [m2 b l h w]

theorem getValid_vertex (s : Obj α) (x) :
    getValid { s with vertex := x } = ((getValid s).1, { (getValid s).2 with vertex := x }) := by
  cases hm : s.valid <;> simp [getValid, hm]
theorem getValid_normal (s : Obj α) (x) :
    getValid { s with normal := x } = ((getValid s).1, { (getValid s).2 with normal := x }) := by
  cases hm : s.valid <;> simp [getValid, hm]
theorem getValid_gvertex (s : Obj α) (x) :
    getValid { s with gvertex := x } = ((getValid s).1, { (getValid s).2 with gvertex := x }) := by
  cases hm : s.valid <;> simp [getValid, hm]

/-- What reading a derived map leaves alone. -/
structure Same (s s' : Obj α) : Prop where
  cf : s'.cf = s.cf
  poses : s'.poses = s.poses
  rgb : s'.rgb = s.rgb
  depth : s'.depth = s.depth
  K : s'.K = s.K
  ds : s'.depthImageShape = s.depthImageShape

theorem Same.refl (s : Obj α) : Same s s := ⟨rfl, rfl, rfl, rfl, rfl, rfl⟩
theorem Same.trans {s t u : Obj α} (a : Same s t) (b : Same t u) : Same s u :=
  ⟨b.cf.trans a.cf, b.poses.trans a.poses, b.rgb.trans a.rgb, b.depth.trans a.depth, b.K.trans a.K, b.ds.trans a.ds⟩

theorem getValid_same (s : Obj α) : Same s (getValid s).2 := by
  cases hm : s.valid <;> simp only [getValid, hm] <;> exact ⟨rfl, rfl, rfl, rfl, rfl, rfl⟩

/-- Reading `vertex_map` of a represented object. -/
theorem getVertex_rep {s : Obj α} {i : In α} (r : Rep nrm eps s i) :
    (getVertex eps s).1 = .ok (image s.cf i (vertexAt eps i)) ∧ Rep nrm eps (getVertex eps s).2 i ∧
    Same s (getVertex eps s).2 := by
  rcases r.vertex with h | h
  · let s1 : Obj α := { s with pix := some (s.pix.getD (meshPix s.B s.L s.H s.W)) }
    have r1 : Rep nrm eps s1 i :=
      { r with
        pixSh := by
          intro p hp
          simp only [s1, Option.some.injEq] at hp
          subst hp
          cases hq : s.pix with
          | none => simp [meshPix, r.hB, r.hL, r.hH, r.hW]
          | some q => simpa using r.pixSh q hq
        pix := r.pix }
    have hv := vertex_val r1 (s.pix.getD (meshPix s.B s.L s.H s.W)) r.pix
    have hb := mask_step r1 (fun b l h w => backproj eps (i.K b) (i.pix b l h w) (i.depth b l h w))
    have e1 : computeVertex eps s = (.ok (), { (getValid s1).2 with vertex := some (image s.cf i (vertexAt eps i)) }) := by
      unfold computeVertex
      simp only [Option.getD_some]
      rw [show bmul (rays eps s.cf s.B s.L s.H s.W s.K (s.pix.getD (meshPix s.B s.L s.H s.W))) s.depth = _ from hv]
      simp only
      rw [getValid_vertex s1]
      simp only
      rw [hb]
      rfl
    have e2 : getVertex eps s = (.ok (image s.cf i (vertexAt eps i)),
        { (getValid s1).2 with vertex := some (image s.cf i (vertexAt eps i)) }) := by
      simp [getVertex, h, e1]
    obtain ⟨_, _, m3, m4⟩ := getValid_rep r1
    have sm := getValid_same s1
    rw [e2]
    refine ⟨rfl, ?_, sm.cf, sm.poses, sm.rgb, sm.depth, sm.K, sm.ds⟩
    exact { m3 with vertex := Or.inr (by simp [show (getValid s1).2.cf = s.cf from sm.cf]) }
  · have e : getVertex eps s = (.ok (image s.cf i (vertexAt eps i)), s) := by simp [getVertex, h]
    rw [e]; exact ⟨rfl, r, Same.refl s⟩

theorem poses_some {s : Obj α} {i : In α} (r : Rep nrm eps s i) {P : TM α} (h : s.poses = some P) : i.poses = some P.at' := by
  rw [← r.poses, h]; rfl
theorem poses_none {s : Obj α} {i : In α} (r : Rep nrm eps s i) (h : s.poses = none) : i.poses = none := by
  rw [← r.poses, h]; rfl

/-- Reading `global_vertex_map` of a represented object. -/
theorem getGVertex_rep {s : Obj α} {i : In α} (r : Rep nrm eps s i) :
    (getGVertex eps s).1 = .ok (image s.cf i (gvertexAt eps i)) ∧ Rep nrm eps (getGVertex eps s).2 i ∧
    Same s (getGVertex eps s).2 := by
  rcases r.gvertex with h | h
  · obtain ⟨v1, v2, v3⟩ := getVertex_rep r
    obtain ⟨o, s1, hg⟩ : ∃ o s1, getVertex eps s = (o, s1) := ⟨_, _, rfl⟩
    rw [hg] at v1 v2 v3
    simp only at v1 v2 v3
    subst v1
    cases hp : s.poses with
    | none =>
      have hi := poses_none r hp
      have hf : image s.cf i (vertexAt eps i) = image s.cf i (gvertexAt eps i) :=
        image_congr fun b l h w => by simp [gvertexAt, hi]
      have e : getGVertex eps s = (.ok (image s.cf i (gvertexAt eps i)),
          { s1 with gvertex := some (image s.cf i (gvertexAt eps i)) }) := by
        simp [getGVertex, h, computeGVertex, hp, hg, hf]
      rw [e]
      refine ⟨rfl, ?_, v3.cf, v3.poses, v3.rgb, v3.depth, v3.K, v3.ds⟩
      exact { v2 with gvertex := Or.inr (by simp [v3.cf]) }
    | some P =>
      have hi := poses_some r hp
      obtain ⟨_, _, m3, _⟩ := getValid_rep v2
      have hb := mask_step v2 (fun b l h w => ((P.at' b l).R.mulVec (vertexAt eps i b l h w)).add (P.at' b l).t)
      have hf : (image s1.cf i fun b l h w => if 0 < i.depth b l h w then
          ((P.at' b l).R.mulVec (vertexAt eps i b l h w)).add (P.at' b l).t else V3.zero) = image s.cf i (gvertexAt eps i) := by
        rw [v3.cf]
        exact image_congr fun b l h w => by simp [gvertexAt, hi]
      rw [hf] at hb
      have e : getGVertex eps s = (.ok (image s.cf i (gvertexAt eps i)),
          { (getValid s1).2 with gvertex := some (image s.cf i (gvertexAt eps i)) }) := by
        simp only [getGVertex, h, computeGVertex, hp, hg]
        rw [← v3.cf, rotMap_image, addT_image, getValid_gvertex]
        simp only
        rw [hb]
        simp [v3.cf]
      have sm := v3.trans (getValid_same s1)
      rw [e]
      refine ⟨rfl, ?_, sm.cf, sm.poses, sm.rgb, sm.depth, sm.K, sm.ds⟩
      exact { m3 with gvertex := Or.inr (by simp [sm.cf]) }
  · have e : getGVertex eps s = (.ok (image s.cf i (gvertexAt eps i)), s) := by simp [getGVertex, h]
    rw [e]; exact ⟨rfl, r, Same.refl s⟩

theorem fdiff_fwd (n : Nat) (hn : 2 ≤ n) (f : Nat → V3 α) (k : Nat) : fdiff n f k = (f (fwd n k + 1)).sub (f (fwd n k)) := by
  have : (if k = n - 1 then n - 2 else k) = fwd n k := by
    unfold fwd; split_ifs <;> omega
  simp only [fdiff, this]

theorem rawNormal_image (cf : Bool) (i : In α) (hH : 2 ≤ i.H) (hW : 2 ≤ i.W) (b l h w : Nat) :
    rawNormal nrm cf i.H i.W (image cf i (vertexAt eps i)) b l h w =
      unit nrm ((tanW eps i b l h w).cross (tanH eps i b l h w)) := by
  have e1 : fdiff i.W (fun w => px3 cf (image cf i (vertexAt eps i)) b l h w) w = tanW eps i b l h w := by
    rw [fdiff_fwd _ hW]; simp only [px3_image]; rfl
  have e2 : fdiff i.H (fun h => px3 cf (image cf i (vertexAt eps i)) b l h w) h = tanH eps i b l h w := by
    rw [fdiff_fwd _ hH]; simp only [px3_image]; rfl
  simp only [rawNormal, e1, e2, unit]
  by_cases hz : nrm ((tanW eps i b l h w).cross (tanH eps i b l h w)) = 0
  · simp [hz]
  · simp [hz]

/-- What reading a normal map should return: needs two rows and two columns. -/
def needs22 (i : In α) (t : T5 α) : Except Err (T5 α) := if i.H < 2 ∨ i.W < 2 then .error .indexError else .ok t

/-- Reading `normal_map` of a represented object. -/
theorem getNormal_rep {s : Obj α} {i : In α} (r : Rep nrm eps s i) :
    (getNormal nrm eps s).1 = needs22 i (image s.cf i (normalAt nrm eps i)) ∧ Rep nrm eps (getNormal nrm eps s).2 i ∧
    Same s (getNormal nrm eps s).2 := by
  rcases r.normal.1 with h | h
  · obtain ⟨v1, v2, v3⟩ := getVertex_rep r
    obtain ⟨o, s1, hg⟩ : ∃ o s1, getVertex eps s = (o, s1) := ⟨_, _, rfl⟩
    rw [hg] at v1 v2 v3
    simp only at v1 v2 v3
    subst v1
    by_cases hs : i.W < 2 ∨ i.H < 2
    · have e : getNormal nrm eps s = (.error .indexError, s1) := by
        simp only [getNormal, h, computeNormal, hg]
        rw [v2.hW, v2.hH, if_pos hs]
      rw [e]
      exact ⟨by rw [needs22, if_pos hs.symm], v2, v3⟩
    · obtain ⟨_, _, m3, _⟩ := getValid_rep v2
      have hb := mask_step v2 (fun b l h w => unit nrm ((tanW eps i b l h w).cross (tanH eps i b l h w)))
      have hi : (mk5 s1.cf s1.B s1.L s1.H s1.W 3 fun b l h w c =>
          Pcs.comp (rawNormal nrm s1.cf s1.H s1.W (image s1.cf i (vertexAt eps i)) b l h w) c) =
          image s1.cf i fun b l h w => unit nrm ((tanW eps i b l h w).cross (tanH eps i b l h w)) := by
        rw [v2.hB, v2.hL, v2.hH, v2.hW]
        apply mk5_congr
        intro b l h w c
        rw [rawNormal_image _ _ (by omega) (by omega)]
      have e : getNormal nrm eps s = (.ok (image s.cf i (normalAt nrm eps i)),
          { (getValid s1).2 with normal := some (image s.cf i (normalAt nrm eps i)) }) := by
        simp only [getNormal, h, computeNormal, hg]
        rw [← v3.cf, if_neg (by rw [v2.hW, v2.hH]; exact hs), hi, getValid_normal]
        simp only
        rw [hb]
        rfl
      have sm := v3.trans (getValid_same s1)
      rw [e]
      refine ⟨by rw [needs22, if_neg (fun x => hs x.symm)], ?_, sm.cf, sm.poses, sm.rgb, sm.depth, sm.K, sm.ds⟩
      exact { m3 with normal := ⟨Or.inr (by simp [sm.cf]), fun x => absurd (by
        simp only [m3.hH, m3.hW] at x; exact x.symm) hs⟩ }
  · have hs : ¬ (i.H < 2 ∨ i.W < 2) := by
      intro x
      rw [← r.hH, ← r.hW] at x
      rw [r.normal.2 x] at h
      simp at h
    have e : getNormal nrm eps s = (.ok (image s.cf i (normalAt nrm eps i)), s) := by simp [getNormal, h]
    rw [e]; exact ⟨by rw [needs22, if_neg hs], r, Same.refl s⟩

/-- Reading `global_normal_map` of a represented object. -/
theorem getGNormal_rep {s : Obj α} {i : In α} (r : Rep nrm eps s i) :
    (getGNormal nrm eps s).1 = needs22 i (image s.cf i (gnormalAt nrm eps i)) ∧ Rep nrm eps (getGNormal nrm eps s).2 i ∧
    Same s (getGNormal nrm eps s).2 := by
  rcases r.gnormal.1 with h | h
  · obtain ⟨v1, v2, v3⟩ := getNormal_rep r
    obtain ⟨o, s1, hg⟩ : ∃ o s1, getNormal nrm eps s = (o, s1) := ⟨_, _, rfl⟩
    rw [hg] at v1 v2 v3
    simp only at v1 v2 v3
    subst v1
    by_cases hs : i.H < 2 ∨ i.W < 2
    · have e : getGNormal nrm eps s = (.error .indexError, s1) := by
        simp [getGNormal, h, computeGNormal, hg, needs22, hs]
      rw [e]
      exact ⟨by rw [needs22, if_pos hs], v2, v3⟩
    · have key : ∃ t, computeGNormal nrm eps s = (.ok (), { s1 with gnormal := some t }) ∧
          t = image s.cf i (gnormalAt nrm eps i) := by
        cases hp : s.poses with
        | none =>
          refine ⟨_, by simp [computeGNormal, hg, needs22, hs, v3.poses, hp]; rfl, ?_⟩
          exact image_congr fun b l h w => by simp [gnormalAt, poses_none r hp]
        | some P =>
          refine ⟨_, by simp [computeGNormal, hg, needs22, hs, v3.poses, hp]; rfl, ?_⟩
          rw [v3.cf, rotMap_image]
          exact image_congr fun b l h w => by simp [gnormalAt, poses_some r hp]
      obtain ⟨t, k1, k2⟩ := key
      subst k2
      have e : getGNormal nrm eps s = (.ok (image s.cf i (gnormalAt nrm eps i)),
          { s1 with gnormal := some (image s.cf i (gnormalAt nrm eps i)) }) := by
        simp [getGNormal, h, k1]
      rw [e]
      refine ⟨by rw [needs22, if_neg hs], ?_, v3.cf, v3.poses, v3.rgb, v3.depth, v3.K, v3.ds⟩
      exact { v2 with gnormal := ⟨Or.inr (by simp [v3.cf]), fun x => absurd (by
        simp only [v2.hH, v2.hW] at x; exact x) hs⟩ }
  · have hs : ¬ (i.H < 2 ∨ i.W < 2) := by
      intro x
      rw [← r.hH, ← r.hW] at x
      rw [r.gnormal.2 x] at h
      simp at h
    have e : getGNormal nrm eps s = (.ok (image s.cf i (gnormalAt nrm eps i)), s) := by simp [getGNormal, h]
    rw [e]; exact ⟨by rw [needs22, if_neg hs], r, Same.refl s⟩

end
end Verif.Rgbd
