import Verif.Data.ItemSets
import Verif.Rgbd.Props
/-!
Property C68: a batch of dataset items, collated and handed to `RGBDImages` as in the examples
(examples/pointfusion.py:45-53, examples/icpslam.py, examples/pointfusion_scannet.py, docs):

    colors, depths, intrinsics, poses, *_ = next(iter(DataLoader(dataset, batch_size=B)))
    rgbdimages = RGBDImages(colors, depths, intrinsics, poses, channels_first=cf)

`torch.utils.data.default_collate` is third-party; it is modelled as `torch.stack` of every entry of the tuples.
-/
namespace Verif.Data
open Verif.Rgbd
set_option linter.unusedSectionVars false

section
variable {α : Type} [Field α] [LinearOrder α] [IsStrictOrderedRing α]

/-- `default_collate` of the image entries: `torch.stack(l, 0)`; `RGBDImages` rejects a result that has not 5 dimensions
(rgbdimages.py:102-110, ValueError). -/
def collateImages (l : List (Tensor α)) : Except Err (T5 α) :=
  match stackT l with
  | .error e => .error e
  | .ok t =>
    match t.shape with
    | [a, b, c, d, e] => .ok ⟨⟨a, b, c, d, e⟩, fun i j k l m => t.get [i, j, k, l, m]⟩
    | _ => .error .valueError

/-- `default_collate` of the matrix entries: `torch.stack(l, 0)` of `(n, 4, 4)` tensors, RuntimeError when empty or of different lengths. -/
def collateMats (l : List (List (M4 α))) : Except Err (TM α) :=
  match l with
  | [] => .error .runtimeError
  | m :: ms =>
    if ms.all (fun u => u.length = m.length) then .ok ⟨ms.length + 1, m.length, fun b i => ((m :: ms).getD b []).getD i M4.one⟩
    else .error .runtimeError

/-- `colors, depths, intrinsics, poses, *_ = ...` on one item: ValueError when there are fewer than four entries; entries of the wrong kind are
rejected by `RGBDImages` (TypeError). -/
def firstFour : List (Out α) → Except Err (Tensor α × Tensor α × List (M4 α) × List (M4 α))
  | .tensor c :: .tensor d :: .mats k :: .mats p :: _ => .ok (c, d, k, p)
  | _ :: _ :: _ :: _ :: _ => .error .typeError
  | _ => .error .valueError

/-- The items of a batch, the first four entries of each. -/
def loadBatch (get : Nat → Except Err (List (Out α))) (idxs : List Nat) :
    Except Err (List (Tensor α × Tensor α × List (M4 α) × List (M4 α))) :=
  match mapE get idxs with
  | .error e => .error e
  | .ok l => mapE firstFour l

/-- The collated batch: colours, depths, intrinsics, poses. -/
def collate (l : List (Tensor α × Tensor α × List (M4 α) × List (M4 α))) : Except Err (T5 α × T5 α × TM α × TM α) :=
  match collateImages (l.map (·.1)), collateImages (l.map (·.2.1)), collateMats (l.map (·.2.2.1)), collateMats (l.map (·.2.2.2)) with
  | .ok c, .ok d, .ok k, .ok p => .ok (c, d, k, p)
  | .error e, _, _, _ => .error e
  | _, .error e, _, _ => .error e
  | _, _, .error e, _ => .error e
  | _, _, _, .error e => .error e

/-- The two lines of the examples; the left errors are raised while loading, the right ones by the constructor of `RGBDImages`. -/
def batchRgbd (get : Nat → Except Err (List (Out α))) (idxs : List Nat) (cf : Bool) : Except (Err ⊕ Rgbd.Err) (Obj α) :=
  match loadBatch get idxs with
  | .error e => .error (.inl e)
  | .ok l =>
    match collate l with
    | .error e => .error (.inl e)
    | .ok x =>
      match Rgbd.new x.1 x.2.1 x.2.2.1 (some x.2.2.2) cf none with
      | .error e => .error (.inr e)
      | .ok s => .ok s

theorem collateImages_ok {l : List (Tensor α)} (hne : l ≠ []) {cf : Bool} {n H W C : Nat} (h : ∀ t ∈ l, t.shape = seqShape cf n H W C) :
    ∃ T, collateImages l = .ok T ∧ T.sh = dims5 cf l.length n H W C ∧
      ∀ b t, l[b]? = some t → ∀ i y x c, chan cf T b i y x c = pixelAt cf t i y x c := by
  cases l with
  | nil => exact absurd rfl hne
  | cons t0 ts =>
    have h0 := h t0 (by simp)
    have e : stackT (t0 :: ts) = .ok ⟨(ts.length + 1) :: t0.shape, fun i => ((t0 :: ts).getD (i.headD 0) t0).get i.tail⟩ := by
      rw [stackT, if_pos]
      simp only [List.all_eq_true, decide_eq_true_eq]
      intro u hu
      rw [h u (by simp [hu]), h0]
    rw [collateImages, e]
    simp only [h0, seqShape]
    cases cf
    · refine ⟨_, rfl, by simp [dims5], fun b t hb i y x c => ?_⟩
      simp only [chan, pixelAt, Bool.false_eq_true, if_false, List.headD_cons, List.tail_cons]
      rw [List.getD_eq_getElem?_getD, hb]; rfl
    · refine ⟨_, rfl, by simp [dims5], fun b t hb i y x c => ?_⟩
      simp only [chan, pixelAt, if_true, List.headD_cons, List.tail_cons]
      rw [List.getD_eq_getElem?_getD, hb]; rfl

theorem collateMats_ok {l : List (List (M4 α))} (hne : l ≠ []) {n : Nat} (h : ∀ m ∈ l, m.length = n) :
    ∃ T, collateMats l = .ok T ∧ T.d0 = l.length ∧ T.d1 = n ∧ ∀ (b : Nat) (m : List (M4 α)), l[b]? = some m → ∀ (i : Nat) (p : M4 α), m[i]? = some p → T.at' b i = p := by
  cases l with
  | nil => exact absurd rfl hne
  | cons m ms =>
    refine ⟨_, by rw [collateMats, if_pos]; simp only [List.all_eq_true, decide_eq_true_eq]; intro u hu; rw [h u (by simp [hu]), h m (by simp)], by simp,
      h m (by simp), fun b m' hb i p hp => ?_⟩
    simp only [List.getD_eq_getElem?_getD]
    rw [hb]
    simp [hp]

/-- **C68 (a)**.  Every batch of items of a dataset that was built with depths, intrinsics and poses is accepted by `RGBDImages` with the channel
layout of the dataset; the object has the batch size, sequence length and image size, and its data are those of the items. -/
theorem batch_accepted {nrm : V3 α → α} {eps : α} {get : Nat → Except Err (List (Out α))} {idxs : List Nat} (hne : idxs ≠ []) {cf : Bool} {n H W : Nat}
    (h : ∀ j ∈ idxs, ∃ C D K Ps rest, get j = .ok (.tensor C :: .tensor D :: .mats [K] :: .mats Ps :: rest) ∧ C.shape = seqShape cf n H W 3 ∧
      D.shape = seqShape cf n H W 1 ∧ Ps.length = n) :
    ∃ s i, batchRgbd get idxs cf = .ok s ∧ Hist nrm eps s i false ∧ s.cf = cf ∧ i.B = idxs.length ∧ i.L = n ∧ i.H = H ∧ i.W = W ∧
      (∀ b l y x, y < H → x < W → i.pix b l y x = ⟨(x : α), (y : α), 1⟩) ∧
      ∃ P, i.poses = some P ∧ ∀ (b j : Nat), idxs[b]? = some j → ∀ C D K Ps rest, get j = .ok (.tensor C :: .tensor D :: .mats [K] :: .mats Ps :: rest) →
        i.K b = K ∧ (∀ (l : Nat) (p : M4 α), Ps[l]? = some p → P b l = p) ∧
        ∀ l y x, i.rgb b l y x = ⟨pixelAt cf C l y x 0, pixelAt cf C l y x 1, pixelAt cf C l y x 2⟩ ∧ i.depth b l y x = pixelAt cf D l y x 0 := by
  obtain ⟨l1, e1, n1, g1⟩ := mapE_all (g := get) (l := idxs) fun j hj => by
    obtain ⟨C, D, K, Ps, rest, e, _⟩ := h j hj
    exact ⟨_, e⟩
  have hl1 : ∀ o ∈ l1, ∃ C D K Ps rest, o = .tensor C :: .tensor D :: .mats [K] :: .mats Ps :: rest ∧ C.shape = seqShape cf n H W 3 ∧
      D.shape = seqShape cf n H W 1 ∧ Ps.length = n := by
    intro o ho
    obtain ⟨b, hb⟩ := List.mem_iff_getElem?.1 ho
    have hlt : b < idxs.length := by
      by_contra hc
      rw [List.getElem?_eq_none (by omega)] at hb; cases hb
    obtain ⟨y, hy1, hy2⟩ := g1 b _ (List.getElem?_eq_getElem hlt)
    rw [hb] at hy1; cases hy1
    obtain ⟨C, D, K, Ps, rest, e, k⟩ := h _ (List.getElem_mem hlt)
    rw [hy2] at e; cases e
    exact ⟨C, D, K, Ps, rest, rfl, k⟩
  obtain ⟨l2, e2, n2, g2⟩ := mapE_all (g := firstFour (α := α)) (l := l1) fun o ho => by
    obtain ⟨C, D, K, Ps, rest, rfl, _⟩ := hl1 o ho
    exact ⟨_, rfl⟩
  have hl2 : ∀ q ∈ l2, q.1.shape = seqShape cf n H W 3 ∧ q.2.1.shape = seqShape cf n H W 1 ∧ q.2.2.1.length = 1 ∧ q.2.2.2.length = n := by
    intro q hq
    obtain ⟨b, hb⟩ := List.mem_iff_getElem?.1 hq
    have hlt : b < l1.length := by
      by_contra hc
      rw [List.getElem?_eq_none (by omega)] at hb; cases hb
    obtain ⟨y, hy1, hy2⟩ := g2 b _ (List.getElem?_eq_getElem hlt)
    rw [hb] at hy1; cases hy1
    obtain ⟨C, D, K, Ps, rest, e, k1, k2, k3⟩ := hl1 _ (List.getElem_mem hlt)
    rw [e, firstFour] at hy2
    simp only [Except.ok.injEq] at hy2; subst hy2
    exact ⟨k1, k2, rfl, k3⟩
  have hne2 : l2 ≠ [] := by
    intro hc
    rw [hc] at n2
    have : idxs.length = 0 := by rw [← n1, ← n2]; rfl
    exact hne (List.length_eq_zero_iff.1 this)
  obtain ⟨TC, c1, c2, c3⟩ := collateImages_ok (l := l2.map (·.1)) (by simpa using hne2) (cf := cf) (n := n) (H := H) (W := W) (C := 3)
    fun t ht => by obtain ⟨q, hq, rfl⟩ := List.mem_map.1 ht; exact (hl2 q hq).1
  obtain ⟨TD, d1, d2, d3⟩ := collateImages_ok (l := l2.map (·.2.1)) (by simpa using hne2) (cf := cf) (n := n) (H := H) (W := W) (C := 1)
    fun t ht => by obtain ⟨q, hq, rfl⟩ := List.mem_map.1 ht; exact (hl2 q hq).2.1
  obtain ⟨TK, k1, k2, k3, k4⟩ := collateMats_ok (l := l2.map (·.2.2.1)) (by simpa using hne2) (n := 1)
    fun t ht => by obtain ⟨q, hq, rfl⟩ := List.mem_map.1 ht; exact (hl2 q hq).2.2.1
  obtain ⟨TP, p1, p2, p3, p4⟩ := collateMats_ok (l := l2.map (·.2.2.2)) (by simpa using hne2) (n := n)
    fun t ht => by obtain ⟨q, hq, rfl⟩ := List.mem_map.1 ht; exact (hl2 q hq).2.2.2
  have hB : l2.length = idxs.length := by rw [n2, n1]
  rw [List.length_map, hB] at c2 d2 k2 p2
  have hnew : ∃ s, Rgbd.new TC TD TK (some TP) cf none = .ok s := by
    unfold Rgbd.new
    rw [if_neg, if_neg, if_neg, if_neg, if_neg]
    · exact ⟨_, rfl⟩
    · simp [Pcs.okOpt]
    · rw [c2]; cases cf <;> simp [Pcs.okOpt, dims5, p2, p3]
    · rw [c2]; cases cf <;> simp [dims5, k2, k3]
    · rw [c2, d2]; cases cf <;> simp [dims5, Shape5.setC]
    · rw [c2]; cases cf <;> simp [dims5, Shape5.chans]
  obtain ⟨s, hs⟩ := hnew
  have hcf : s.cf = cf := by rw [(new_ok hs).2.2.2.2.2]
  refine ⟨s, inputsOf TC TD TK (some TP) cf none, ?_, Hist.new hs, hcf, ?_, ?_, ?_, ?_, ?_, TP.at', rfl, ?_⟩
  · rw [batchRgbd, loadBatch, e1]
    simp only [e2, collate, c1, d1, k1, p1, hs]
  · simp only [inputsOf, c2]; cases cf <;> rfl
  · simp only [inputsOf, c2]; cases cf <;> rfl
  · simp only [inputsOf, c2]; cases cf <;> rfl
  · simp only [inputsOf, c2]; cases cf <;> rfl
  · intro b l y x hy hx
    refine default_pixels hs b l y x ?_ ?_
    · simp only [inputsOf, c2]; cases cf <;> exact hy
    · simp only [inputsOf, c2]; cases cf <;> exact hx
  · intro b j hj C D K Ps rest hget
    obtain ⟨y, hy1, hy2⟩ := g1 b j hj
    rw [hget] at hy2; cases hy2
    obtain ⟨q, hq1, hq2⟩ := g2 b _ hy1
    rw [firstFour] at hq2
    simp only [Except.ok.injEq] at hq2; subst hq2
    refine ⟨k4 b [K] (by rw [List.getElem?_map, hq1]; rfl) 0 K rfl, fun l p hp => p4 b Ps (by rw [List.getElem?_map, hq1]; rfl) l p hp, fun l y x => ⟨?_, ?_⟩⟩
    · have := c3 b C (by rw [List.getElem?_map, hq1]; rfl) l y x
      exact V3.ext (this 0) (this 1) (this 2)
    · exact d3 b D (by rw [List.getElem?_map, hq1]; rfl) l y x 0

end
end Verif.Data

namespace Verif.Data
open Verif.Rgbd

section
variable {α : Type} [Field α] [LinearOrder α] [IsStrictOrderedRing α]

/-- Apply a pose to a point. -/
def applyPose (p : M4 α) (u : V3 α) : V3 α := (p.R.mulVec u).add p.t

theorem apply_relative {p0 r p : M4 α} (h : p0.mul r = p) (h0 : p0.Affine) (hp : p.Affine) (u : V3 α) : applyPose p0 (applyPose r u) = applyPose p u := by
  obtain ⟨b0, s0⟩ := h0
  obtain ⟨bp, sp⟩ := hp
  subst h
  obtain ⟨R0, t0, b0', s0'⟩ := p0
  obtain ⟨Rr, tr, br, sr⟩ := r
  simp only at b0 s0
  subst b0 s0
  simp [M4.mul, M3.mulVec, M3.transpose, V3.zero, V3.add, V3.dot, V3.ext_iff, M3.c0, M3.c1, M3.c2, V3.smul] at bp sp
  obtain ⟨q1, q2, q3⟩ := bp
  subst sp
  ext <;> simp [applyPose, M4.mul, M3.mulVec, V3.add, V3.dot, M3.mul, M3.add, M3.outer, V3.smul, M3.c0, M3.c1, M3.c2, q1, q2, q3] <;> ring

/-- Camera-frame point measured at pixel `(x, y)` with depth `d` by a camera with focal lengths `fx`, `fy` and principal point `(cx, cy)`. -/
def cameraPoint (fx fy cx cy d : α) (x y : Nat) : V3 α := ⟨d * ((x - cx) / fx), d * ((y - cy) / fy), d⟩

/-- What `global_vertex_map` holds at a pixel of an object built from a batch. -/
theorem batch_point {nrm : V3 α → α} {eps : α} {s : Obj α} {i : In α} {k : Bool} (h : Hist nrm eps s i k) :
    ∃ g, (getGVertex eps s).1 = .ok g ∧ g.sh = dims5 s.cf i.B i.L i.H i.W 3 ∧
      ∀ b l y x P, i.poses = some P → i.pix b l y x = ⟨(x : α), (y : α), 1⟩ →
        (i.depth b l y x ≤ 0 → px3 s.cf g b l y x = V3.zero) ∧
        (0 < i.depth b l y x → px3 s.cf g b l y x = applyPose (P b l)
          (cameraPoint ((i.K b).R.r0.x + eps) ((i.K b).R.r1.y + eps) (i.K b).R.r0.z (i.K b).R.r1.z (i.depth b l y x) x y)) := by
  obtain ⟨v, g, _, hg, _, sg, hp⟩ := vertex_maps_spec h
  refine ⟨g, hg, sg, fun b l y x P hP hpix => ⟨fun hd => ((hp b l y x).2 hd).2, fun hd => ?_⟩⟩
  obtain ⟨h0, h1, h2, h3, _⟩ := (hp b l y x).1 hd
  rw [h3 P hP, applyPose]
  congr 2
  rw [px3, h0, h1, h2, hpix]
  simp [cameraPoint]

/-- **C68 (b)**, any dataset.  Handing a batch of items to `RGBDImages` and reading `global_vertex_map` gives, at every pixel with a positive depth
reading, a point that the stored pose of the item's first frame maps to the world position measured by frame `l` of the item, and zero at
every other pixel. -/
theorem batch_world {row col : Nat → Nat → Nat → Nat} {o : Opts} {scale : α} (hsc : 0 < scale) {P : Type} {readD : P → Tensor α} (eps : α) {get : Nat → Except Err (List (Out α))} {idxs : List Nat}
    (hne : idxs ≠ []) {n : Nat} (hn : 0 < n) (K : Nat → M4 α) (raw : Nat → List (M4 α)) (dpaths : Nat → List P)
    (h : ∀ j ∈ idxs, ∃ C D Ps rest, get j = .ok (.tensor C :: .tensor D :: .mats [K j] :: .mats Ps :: rest) ∧ C.shape = seqShape o.cf n o.height o.width 3 ∧
      IsDepths row col scale o n readD (dpaths j) D ∧ IsRelative (raw j) Ps ∧ (raw j).length = n ∧ ∀ p ∈ raw j, p.Affine) :
    ∃ s g, batchRgbd get idxs o.cf = .ok s ∧ (getGVertex eps s).1 = .ok g ∧ g.sh = dims5 o.cf idxs.length n o.height o.width 3 ∧
      ∀ (b j : Nat), idxs[b]? = some j → ∀ l < n, ∀ p0 p f hh ww, (raw j)[0]? = some p0 → (raw j)[l]? = some p → (dpaths j)[l]? = some f →
        (readD f).shape = [hh, ww] → ∀ y < o.height, ∀ x < o.width,
          ((readD f).get [row hh o.height y, col ww o.width x] ≤ 0 → px3 o.cf g b l y x = V3.zero) ∧
          (0 < (readD f).get [row hh o.height y, col ww o.width x] → applyPose p0 (px3 o.cf g b l y x) = applyPose p
            (cameraPoint ((K j).R.r0.x + eps) ((K j).R.r1.y + eps) (K j).R.r0.z (K j).R.r1.z
              ((readD f).get [row hh o.height y, col ww o.width x] / scale) x y)) := by
  obtain ⟨s, i, hs, hist, hcf, hB, hL, hH, hW, hpix, P, hP, hdata⟩ := batch_accepted (nrm := fun _ => 1) (eps := eps) (get := get) hne (cf := o.cf) (n := n)
    (H := o.height) (W := o.width) fun j hj => by
      obtain ⟨C, D, Ps, rest, e, h1, h2, h3, h4, _⟩ := h j hj
      exact ⟨C, D, K j, Ps, rest, e, h1, h2.1, by rw [h3.1, h4]⟩
  obtain ⟨g, hg, sg, hv⟩ := batch_point hist
  rw [hcf, hB, hL, hH, hW] at sg
  rw [hcf] at hv
  refine ⟨s, g, hs, hg, sg, fun b j hb l hl p0 p f hh ww e0 ep ef hf y hy x hx => ?_⟩
  obtain ⟨C, D, Ps, rest, e, h1, h2, h3, h4, haff⟩ := h j (List.mem_of_getElem? hb)
  obtain ⟨kK, kP, kd⟩ := hdata b j hb C D (K j) Ps rest e
  obtain ⟨r, er, hr⟩ := h3.2.2 p0 e0 l p ep
  obtain ⟨v1, v2⟩ := hv b l y x P hP (hpix b l y x hy hx)
  rw [(kd l y x).2, h2.2 l hl f hh ww ef hf y hy x hx] at v1 v2
  rw [kK, kP l r er] at v2
  constructor
  · intro hd; exact v1 (div_nonpos_of_nonpos_of_nonneg hd hsc.le)
  · intro hd
    rw [v2 (div_pos hd hsc), apply_relative hr (haff _ (List.mem_of_getElem? e0)) (haff _ (List.mem_of_getElem? ep))]

end
end Verif.Data
