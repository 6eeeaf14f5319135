import Verif.Data.Item
import Verif.Data.Quat
import Mathlib.Data.Rat.Floor
/-!
Property C67: what an item of a dataset is.
-/
namespace Verif.Data
set_option linter.unusedSectionVars false

/-! ### Loops -/

theorem mapE_all {β γ : Type} {g : β → Except Err γ} : ∀ {l : List β}, (∀ x ∈ l, ∃ y, g x = .ok y) →
    ∃ r, mapE g l = .ok r ∧ r.length = l.length ∧ ∀ (k : Nat) (x : β), l[k]? = some x → ∃ y, r[k]? = some y ∧ g x = .ok y
  | [], _ => ⟨[], rfl, rfl, by simp⟩
  | x :: l, h => by
    obtain ⟨y, hy⟩ := h x (by simp)
    obtain ⟨r, hr, hl, hk⟩ := mapE_all (l := l) fun z hz => h z (by simp [hz])
    refine ⟨y :: r, by simp [mapE, hy, hr], by simp [hl], fun k z hz => ?_⟩
    cases k with
    | zero => simp only [List.getElem?_cons_zero, Option.some.injEq] at hz; subst hz; exact ⟨y, by simp, hy⟩
    | succ k => simp only [List.getElem?_cons_succ] at hz ⊢; exact hk k z hz

/-- Loading and stacking `n` images that all come out with shape `s`. -/
theorem imageSeq_ok {β P : Type} {n : Nat} {paths : List P} {load : P → Except Err (Tensor β)} {s : List Nat} (hn : 0 < n) (hp : n ≤ paths.length)
    (h : ∀ i < n, ∀ p, paths[i]? = some p → ∃ t, load p = .ok t ∧ t.shape = s) :
    ∃ T, imageSeq n paths load = .ok T ∧ T.shape = n :: s ∧
      ∀ i < n, ∀ p t, paths[i]? = some p → load p = .ok t → ∀ idx, T.get (i :: idx) = t.get idx := by
  have hmem : ∀ p ∈ paths.take n, ∃ t, load p = .ok t ∧ t.shape = s := by
    intro p hpm
    obtain ⟨i, hi⟩ := List.mem_iff_getElem?.1 hpm
    have hin : i < n := by
      by_contra hc
      rw [List.getElem?_eq_none (by simp; omega)] at hi; cases hi
    rw [List.getElem?_take_of_lt hin] at hi
    exact h i hin p hi
  obtain ⟨ts, h1, h2, h3⟩ := mapE_all (l := paths.take n) fun p hpm => (hmem p hpm).imp fun t ht => ht.1
  have hlen : ts.length = n := by rw [h2, List.length_take]; omega
  have hget : ∀ i < n, ∀ p, paths[i]? = some p → ∃ t, ts[i]? = some t ∧ load p = .ok t := fun i hi p hpi =>
    h3 i p (by rw [List.getElem?_take_of_lt hi]; exact hpi)
  have hshape : ∀ t ∈ ts, t.shape = s := by
    intro t ht
    obtain ⟨i, hi⟩ := List.mem_iff_getElem?.1 ht
    have hin : i < n := by
      by_contra hc
      rw [List.getElem?_eq_none (by omega)] at hi; cases hi
    have hip : paths[i]? = some paths[i] := List.getElem?_eq_getElem (by omega)
    obtain ⟨t', e1, e2⟩ := hget i hin _ hip
    obtain ⟨t'', e3, e4⟩ := h i hin _ hip
    rw [hi] at e1; cases e1; rw [e2] at e3; cases e3; exact e4
  cases ts with
  | nil => simp at hlen; omega
  | cons t0 ts =>
    refine ⟨⟨(ts.length + 1) :: t0.shape, fun i => ((t0 :: ts).getD (i.headD 0) t0).get i.tail⟩, ?_, ?_, ?_⟩
    · rw [imageSeq, gather_range _ _ hp]
      simp only [h1, stackT]
      rw [if_pos]
      simp only [List.all_eq_true, decide_eq_true_eq]
      intro u hu
      rw [hshape u (by simp [hu]), hshape t0 (by simp)]
    · simp only [hshape t0 (by simp)]
      rw [← hlen, List.length_cons]
    · intro i hi p t hpi hl idx
      obtain ⟨t', e1, e2⟩ := hget i hi p hpi
      rw [hl] at e2; cases e2
      simp only [List.headD_cons, List.tail_cons]
      rw [List.getD_eq_getElem?_getD, e1]; rfl

/-! ### Specification -/

section
variable {α : Type} [Field α] [LinearOrder α] [IsStrictOrderedRing α]

/-- What is assumed of `cv2.resize`: linear interpolation keeps the number of channels and every bound on the values; nearest-neighbour
interpolation copies, for output pixel `(y, x)`, the input pixel `(row h H y, col w W x)`, which depends only on the sizes. -/
structure ResizeOk (R : Resize α) (row col : Nat → Nat → Nat → Nat) : Prop where
  linear_shape : ∀ H W img h w c, img.shape = [h, w, c] → 0 < h → 0 < w → (R.linear H W img).shape = [H, W, c]
  linear_range : ∀ H W img h w c lo hi, img.shape = [h, w, c] → 0 < h → 0 < w → (∀ y < h, ∀ x < w, ∀ k < c, lo ≤ img.get [y, x, k] ∧ img.get [y, x, k] ≤ hi) →
    ∀ y < H, ∀ x < W, ∀ k < c, lo ≤ (R.linear H W img).get [y, x, k] ∧ (R.linear H W img).get [y, x, k] ≤ hi
  nearest_shape : ∀ H W img h w, img.shape = [h, w] → 0 < h → 0 < w → (R.nearest H W img).shape = [H, W]
  nearest_pixel : ∀ H W img h w, img.shape = [h, w] → 0 < h → 0 < w → ∀ y < H, ∀ x < W, (R.nearest H W img).get [y, x] = img.get [row h H y, col w W x]
  label_shape : ∀ H W img h w, img.shape = [h, w] → 0 < h → 0 < w → (R.nearestL H W img).shape = [H, W]
  label_pixel : ∀ H W img h w, img.shape = [h, w] → 0 < h → 0 < w → ∀ y < H, ∀ x < W, (R.nearestL H W img).get [y, x] = img.get [row h H y, col w W x]
  inside : ∀ h H y, 0 < h → y < H → row h H y < h ∧ col h H y < h

/-- The documented shape of an image sequence: `(L, C, H, W)` with `channels_first`, else `(L, H, W, C)`. -/
def seqShape (cf : Bool) (L H W C : Nat) : List Nat := if cf then [L, C, H, W] else [L, H, W, C]

/-- Channel `c` of pixel `(y, x)` of frame `i` of an image sequence in that layout. -/
def pixelAt {β : Type} (cf : Bool) (t : Tensor β) (i y x c : Nat) : β := if cf then t.get [i, c, y, x] else t.get [i, y, x, c]

/-- The files of one modality are images with the given channels list (`[3]` for colour, `[]` for depth and labels) of any positive size. -/
def Readable {β P : Type} (read : P → Tensor β) (chan : List Nat) (n : Nat) (paths : List P) : Prop :=
  n ≤ paths.length ∧ ∀ i < n, ∀ p, paths[i]? = some p → ∃ h w, 0 < h ∧ 0 < w ∧ (read p).shape = [h, w] ++ chan

/-- Colour sequence: frame `i` is the (linearly) resized image of colour file `i`, divided by 255 if asked, in the layout asked. -/
def IsColours {P : Type} (R : Resize α) (o : Opts) (n : Nat) (read : P → Tensor α) (paths : List P) (C : Tensor α) : Prop :=
  C.shape = seqShape o.cf n o.height o.width 3 ∧
  ∀ i < n, ∀ p, paths[i]? = some p → ∀ y < o.height, ∀ x < o.width, ∀ c < 3,
    pixelAt o.cf C i y x c = (R.linear o.height o.width (read p)).get [y, x, c] / (if o.normalize then 255 else 1)

/-- Depth sequence: every value is the raw value at the nearest pixel of depth file `i`, divided by the scaling factor. -/
def IsDepths {P : Type} (row col : Nat → Nat → Nat → Nat) (scale : α) (o : Opts) (n : Nat) (read : P → Tensor α) (paths : List P) (D : Tensor α) : Prop :=
  D.shape = seqShape o.cf n o.height o.width 1 ∧
  ∀ i < n, ∀ p h w, paths[i]? = some p → (read p).shape = [h, w] → ∀ y < o.height, ∀ x < o.width,
    pixelAt o.cf D i y x 0 = (read p).get [row h o.height y, col w o.width x] / scale

/-- Pose sequence: pose `i` relative to pose 0. -/
def IsRelative (raw P : List (M4 α)) : Prop :=
  P.length = raw.length ∧ P[0]? = some M4.one ∧ ∀ (p0 : M4 α), raw[0]? = some p0 → ∀ (i : Nat) (p : M4 α), raw[i]? = some p → ∃ r, P[i]? = some r ∧ p0.mul r = p

/-- Transform sequence: the identity, then the motion from each frame to the next; composing the first `i` gives pose `i`. -/
def IsMotions (raw T : List (M4 α)) : Prop :=
  T.length = raw.length ∧ T[0]? = some M4.one ∧
  (∀ (i : Nat) (p q : M4 α), raw[i]? = some p → raw[i + 1]? = some q → ∃ r, T[i + 1]? = some r ∧ p.mul r = q) ∧
  ∀ (p0 : M4 α), raw[0]? = some p0 → ∀ (i : Nat) (p : M4 α), raw[i]? = some p → p0.mul ((T.take (i + 1)).foldl M4.mul M4.one) = p

/-- `[x]` if the flag is set. -/
def opt {β : Type} (flag : Bool) (x : β) : List β := if flag then [x] else []

/-! ### Images -/

variable {R : Resize α} {row col : Nat → Nat → Nat → Nat} {o : Opts}

theorem color_ok (hR : ResizeOk R row col) {img : Tensor α} {h w : Nat} (hs : img.shape = [h, w, 3]) (hh : 0 < h) (hw : 0 < w) :
    ∃ t, colorOne R o img = .ok t ∧ t.shape = (if o.cf then [3, o.height, o.width] else [o.height, o.width, 3]) ∧
      ∀ y < o.height, ∀ x < o.width, ∀ c < 3, (if o.cf then t.get [c, y, x] else t.get [y, x, c]) =
        (R.linear o.height o.width img).get [y, x, c] / (if o.normalize then 255 else 1) := by
  have s1 := hR.linear_shape o.height o.width img h w 3 hs hh hw
  have s2 : (if o.normalize then normalizeImage (R.linear o.height o.width img) else R.linear o.height o.width img).shape = [] ++ [o.height, o.width, 3] := by
    split <;> exact s1
  have v2 : ∀ i, (if o.normalize then normalizeImage (R.linear o.height o.width img) else R.linear o.height o.width img).get i =
      (R.linear o.height o.width img).get i / (if o.normalize then 255 else 1) := by
    intro i; split <;> simp [normalizeImage]
  obtain ⟨out, e, es, ev⟩ := channels_first_spec _ [] _ _ _ s2
  by_cases hc : o.cf = true
  · refine ⟨out, by simp only [colorOne, hc, if_true]; exact e, by simp [hc, es], fun y _ x _ c _ => ?_⟩
    rw [if_pos hc]
    have := ev [] c y x rfl
    simp only [List.nil_append] at this
    rw [this, v2]
  · refine ⟨_, by simp only [colorOne, hc]; rfl, by rw [if_neg hc]; exact s2, fun y _ x _ c _ => ?_⟩
    rw [if_neg hc, v2]

theorem expand_get {β : Type} (t : Tensor β) (l : List Nat) (k : Nat) : (expandLast t).get (l ++ [k]) = t.get l := by
  simp [expandLast]

theorem depth_ok (hR : ResizeOk R row col) {scale : α} {img : Tensor α} {h w : Nat} (hs : img.shape = [h, w]) (hh : 0 < h) (hw : 0 < w) :
    ∃ t, depthOne R o scale img = .ok t ∧ t.shape = (if o.cf then [1, o.height, o.width] else [o.height, o.width, 1]) ∧
      ∀ y < o.height, ∀ x < o.width, (if o.cf then t.get [0, y, x] else t.get [y, x, 0]) = img.get [row h o.height y, col w o.width x] / scale := by
  have s1 := hR.nearest_shape o.height o.width img h w hs hh hw
  have s2 : (expandLast (R.nearest o.height o.width img)).shape = [] ++ [o.height, o.width, 1] := by simp [expandLast, s1]
  have v2 : ∀ y < o.height, ∀ x < o.width, (expandLast (R.nearest o.height o.width img)).get [y, x, 0] = img.get [row h o.height y, col w o.width x] := by
    intro y hy x hx
    rw [← hR.nearest_pixel o.height o.width img h w hs hh hw y hy x hx]
    exact expand_get _ [y, x] 0
  obtain ⟨out, e, es, ev⟩ := channels_first_spec _ [] _ _ _ s2
  by_cases hc : o.cf = true
  · refine ⟨{ out with get := fun i => out.get i / scale }, by simp only [depthOne, hc, if_true, e], by simp [hc, es], fun y hy x hx => ?_⟩
    rw [if_pos hc]
    have := ev [] 0 y x rfl
    simp only [List.nil_append] at this
    show out.get [0, y, x] / scale = _
    rw [this, v2 y hy x hx]
  · refine ⟨_, by simp only [depthOne, hc]; rfl, by rw [if_neg hc]; exact s2, fun y hy x hx => ?_⟩
    rw [if_neg hc]
    show (expandLast _).get [y, x, 0] / scale = _
    rw [v2 y hy x hx]

theorem colours_ok (hR : ResizeOk R row col) {P : Type} {read : P → Tensor α} {paths : List P} {n : Nat} (hn : 0 < n) (h : Readable read [3] n paths) :
    ∃ C, imageSeq n paths (fun p => colorOne R o (read p)) = .ok C ∧ IsColours R o n read paths C := by
  obtain ⟨T, e, es, ev⟩ := imageSeq_ok (load := fun p => colorOne R o (read p))
      (s := if o.cf then [3, o.height, o.width] else [o.height, o.width, 3]) hn h.1 fun i hi p hp => by
    obtain ⟨hh, ww, h1, h2, h3⟩ := h.2 i hi p hp
    obtain ⟨t, t1, t2, _⟩ := color_ok (o := o) hR h3 h1 h2
    exact ⟨t, t1, t2⟩
  refine ⟨T, e, by rw [es, seqShape]; split <;> rfl, fun i hi p hp y hy x hx c hc => ?_⟩
  obtain ⟨hh, ww, h1, h2, h3⟩ := h.2 i hi p hp
  obtain ⟨t, t1, _, t3⟩ := color_ok (o := o) hR h3 h1 h2
  rw [← t3 y hy x hx c hc, pixelAt]
  split
  · exact ev i hi p t hp t1 _
  · exact ev i hi p t hp t1 _

theorem depths_ok (hR : ResizeOk R row col) {scale : α} {P : Type} {read : P → Tensor α} {paths : List P} {n : Nat} (hn : 0 < n)
    (h : Readable read [] n paths) :
    ∃ D, imageSeq n paths (fun p => depthOne R o scale (read p)) = .ok D ∧ IsDepths row col scale o n read paths D := by
  obtain ⟨T, e, es, ev⟩ := imageSeq_ok (load := fun p => depthOne R o scale (read p))
      (s := if o.cf then [1, o.height, o.width] else [o.height, o.width, 1]) hn h.1 fun i hi p hp => by
    obtain ⟨hh, ww, h1, h2, h3⟩ := h.2 i hi p hp
    obtain ⟨t, t1, t2, _⟩ := depth_ok (o := o) (scale := scale) hR h3 h1 h2
    exact ⟨t, t1, t2⟩
  refine ⟨T, e, by rw [es, seqShape]; split <;> rfl, fun i hi p hh ww hp hs y hy x hx => ?_⟩
  obtain ⟨hh', ww', h1, h2, h3⟩ := h.2 i hi p hp
  rw [hs] at h3
  simp only [List.append_nil, List.cons.injEq, and_true] at h3
  obtain ⟨rfl, rfl⟩ := h3
  obtain ⟨t, t1, _, t3⟩ := depth_ok (o := o) (scale := scale) hR hs h1 h2
  rw [← t3 y hy x hx, pixelAt]
  split
  · exact ev i hi p t hp t1 _
  · exact ev i hi p t hp t1 _

/-! ### Poses -/

theorem poses_ok {inv : M4 α → M4 α} {raw : List (M4 α)} (hne : raw ≠ []) (hinv : Inverts inv raw) (haff : ∀ p ∈ raw, p.Affine) :
    (∃ P, poseOut inv raw = .ok P ∧ IsRelative raw P) ∧ ∃ T, stackM (posesToTransforms inv raw) = .ok T ∧ IsMotions raw T := by
  cases raw with
  | nil => exact absurd rfl hne
  | cons p0 ps =>
    obtain ⟨out, h1, h2, h3, h4⟩ := preprocess_poses_spec inv p0 ps hinv haff
    obtain ⟨t1, t2, t3⟩ := transforms_compose_to_poses inv p0 ps hinv
    refine ⟨⟨out, by simp only [poseOut, stackM]; exact h1, h2, h3, fun q hq i p hp => ?_⟩, ⟨posesToTransforms inv (p0 :: ps), ?_, t1, t2, fun i p q hp hq => ?_, fun q hq i p hp => ?_⟩⟩
    · cases hq
      obtain ⟨r, r1, _, r2⟩ := h4 i p hp
      exact ⟨r, r1, r2⟩
    · rw [stackM, if_neg]; intro h; rw [List.isEmpty_iff.1 h] at t1; simp at t1
    · refine ⟨_, transforms_get inv _ i p q hp hq, ?_⟩
      rw [← M4.mul_assoc, (hinv p (List.mem_of_getElem? hp)).1, M4.one_mul]
    · cases hq
      rw [t3 i p hp, ← M4.mul_assoc, (hinv p0 (by simp)).1, M4.one_mul]

/-! ### Items -/

theorem appendIf_ok {β : Type} {flag : Bool} {v : β} {value : Except Err β} {out : List β} (h : flag = true → value = .ok v) :
    appendIf flag value out = .ok (out ++ opt flag v) := by
  cases flag with
  | false => simp [appendIf, opt]
  | true => simp [appendIf, opt, h rfl]

/-- The common part of an item, in the documented order. -/
theorem core_ok (hR : ResizeOk R row col) {P : Type} {n : Nat} (hn : 0 < n) {scale : α} {inv : M4 α → M4 α} {readC readD : P → Tensor α}
    {cpaths dpaths : List P} {K : M4 α} {poses : Except Err (List (M4 α))} {raw : List (M4 α)} {name : List Char}
    (hc : Readable readC [3] n cpaths) (hd : o.depth = true → Readable readD [] n dpaths)
    (hp : o.pose = true ∨ o.transform = true → poses = .ok raw ∧ raw ≠ [] ∧ Inverts inv raw ∧ ∀ p ∈ raw, p.Affine) :
    ∃ C D Ps Ts, itemCore R o n scale inv readC readD cpaths dpaths K poses name =
        .ok (.tensor C :: (opt o.depth (.tensor D) ++ opt o.intrinsics (.mats [K]) ++ opt o.pose (.mats Ps) ++ opt o.transform (.mats Ts) ++
          opt o.names (.text name))) ∧
      IsColours R o n readC cpaths C ∧ (o.depth = true → IsDepths row col scale o n readD dpaths D) ∧
      (o.pose = true → IsRelative raw Ps) ∧ (o.transform = true → IsMotions raw Ts) := by
  obtain ⟨C, c1, c2⟩ := colours_ok (o := o) hR hn hc
  have hD : ∃ D, (o.depth = true → imageSeq n dpaths (fun p => depthOne R o scale (readD p)) = .ok D) ∧
      (o.depth = true → IsDepths row col scale o n readD dpaths D) := by
    by_cases h : o.depth = true
    · obtain ⟨D, d1, d2⟩ := depths_ok (o := o) (scale := scale) hR hn (hd h)
      exact ⟨D, fun _ => d1, fun _ => d2⟩
    · exact ⟨C, fun h' => absurd h' h, fun h' => absurd h' h⟩
  obtain ⟨D, d1, d2⟩ := hD
  have hPT : ∃ ps Ps Ts, (if (o.pose || o.transform) = true then poses else .ok []) = .ok ps ∧ (o.pose = true → poseOut inv ps = .ok Ps) ∧
      (o.transform = true → stackM (posesToTransforms inv ps) = .ok Ts) ∧ (o.pose = true → IsRelative raw Ps) ∧ (o.transform = true → IsMotions raw Ts) := by
    by_cases h : o.pose = true ∨ o.transform = true
    · obtain ⟨e, h1, h2, h3⟩ := hp h
      obtain ⟨⟨Ps, p1, p2⟩, Ts, t1, t2⟩ := poses_ok h1 h2 h3
      refine ⟨raw, Ps, Ts, ?_, fun _ => p1, fun _ => t1, fun _ => p2, fun _ => t2⟩
      rw [if_pos (by simpa using h)]; exact e
    · refine ⟨[], [], [], ?_, fun h' => absurd (.inl h') h, fun h' => absurd (.inr h') h, fun h' => absurd (.inl h') h, fun h' => absurd (.inr h') h⟩
      rw [if_neg (by simpa using h)]
  obtain ⟨ps, Ps, Ts, e0, e1, e2, e3, e4⟩ := hPT
  refine ⟨C, D, Ps, Ts, ?_, c2, d2, e3, e4⟩
  rw [itemCore, c1]
  simp only
  rw [appendIf_ok (v := Out.tensor D) fun h => by rw [d1 h]; rfl]
  simp only
  rw [appendIf_ok (v := Out.mats [K]) fun _ => rfl]
  simp only [e0]
  rw [appendIf_ok (v := Out.mats Ps) fun h => by rw [e1 h]; rfl]
  simp only
  rw [appendIf_ok (v := Out.mats Ts) fun h => by rw [e2 h]; rfl]
  simp only
  rw [appendIf_ok (v := Out.text name) fun _ => rfl]
  simp [List.append_assoc]

end
end Verif.Data
