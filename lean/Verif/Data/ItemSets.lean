import Verif.Data.ItemProps
/-!
Property C67 for the three datasets.
-/
namespace Verif.Data
set_option linter.unusedSectionVars false

section
variable {α : Type} [Field α] [LinearOrder α] [IsStrictOrderedRing α]
variable {R : Resize α} {row col : Nat → Nat → Nat → Nat} {o : Opts}

/-- What is assumed of `np.linalg.inv` / `torch.inverse`: they return the inverse of every invertible matrix. -/
def IsInverse (inv : M4 α → M4 α) : Prop :=
  ∀ p, (∃ q : M4 α, p.mul q = M4.one ∧ q.mul p = M4.one) → p.mul (inv p) = M4.one ∧ (inv p).mul p = M4.one

/-- A stored pose the code can work with: an invertible matrix with last row `(0, 0, 0, 1)`. -/
def PoseOk (p : M4 α) : Prop := p.Affine ∧ ∃ q : M4 α, p.mul q = M4.one ∧ q.mul p = M4.one

/-! ### Scannet -/

theorem remapLabel_same {l : Nat} (h : l ≤ 40) : remapLabel l = sameClass l := by
  have e := (remap_pixel ⟨l, Nat.lt_succ_of_le h⟩).1
  delta remapLabel
  exact e

theorem label_get (b : Bool) (t : Tensor Nat) (y x : Nat) :
    (expandLast (if b then { t with get := fun i => remapLabel (t.get i) } else t)).get [y, x, 0] = if b then remapLabel (t.get [y, x]) else t.get [y, x] := by
  cases b
  · exact expand_get _ [y, x] 0
  · exact expand_get _ [y, x] 0

theorem labels_ok (hR : ResizeOk R row col) {P : Type} {n : Nat} (hn : 0 < n) {readL : P → Tensor Nat} {paths : List P} (hl : Readable readL [] n paths) :
    ∃ L, imageSeq n paths (fun p => labelOne R o (readL p)) = .ok L ∧ L.shape = [n, o.height, o.width, 1] ∧
      ∀ i < n, ∀ p h w, paths[i]? = some p → (readL p).shape = [h, w] → ∀ y < o.height, ∀ x < o.width, L.get [i, y, x, 0] =
        if o.scannet20 then remapLabel ((readL p).get [row h o.height y, col w o.width x]) else (readL p).get [row h o.height y, col w o.width x] := by
  obtain ⟨T, e, es, ev⟩ := imageSeq_ok (load := fun p => labelOne R o (readL p)) (s := [o.height, o.width, 1]) hn hl.1 fun i hi p hp => by
    obtain ⟨hh, ww, h1, h2, h3⟩ := hl.2 i hi p hp
    refine ⟨_, rfl, ?_⟩
    have := hR.label_shape o.height o.width _ hh ww h3 h1 h2
    simp only [expandLast]
    split <;> simp [this]
  refine ⟨T, e, es, fun i hi p hh ww hp hs y hy x hx => ?_⟩
  obtain ⟨hh', ww', h1, h2, h3⟩ := hl.2 i hi p hp
  rw [hs] at h3
  simp only [List.append_nil, List.cons.injEq, and_true] at h3
  obtain ⟨rfl, rfl⟩ := h3
  rw [ev i hi p _ hp rfl, ← hR.label_pixel o.height o.width _ hh ww hs h1 h2 y hy x hx]
  exact label_get _ _ y x

/-- Label sequence of a Scannet item: shape `(L, H, W, 1)`; every label is the label of the nearest pixel of label file `i`, as it is ("nyu40") or
as the Scannet-20 label of the same class. -/
def IsLabels {P : Type} (row col : Nat → Nat → Nat → Nat) (o : Opts) (n : Nat) (read : P → Tensor Nat) (paths : List P) (L : Tensor Nat) : Prop :=
  L.shape = [n, o.height, o.width, 1] ∧
  ∀ i < n, ∀ p h w, paths[i]? = some p → (read p).shape = [h, w] → ∀ y < o.height, ∀ x < o.width,
    (o.scannet20 = false → L.get [i, y, x, 0] = (read p).get [row h o.height y, col w o.width x]) ∧
    (o.scannet20 = true → (read p).get [row h o.height y, col w o.width x] ≤ 40 →
      L.get [i, y, x, 0] = sameClass ((read p).get [row h o.height y, col w o.width x]))

/-- **C67, Scannet.**  For every item and every choice of the options, `dataset[idx]` returns, in the documented order, the colours, (depths),
(intrinsics), (poses), (transforms), (name), (labels): images read from the item's own files; depths in units of 1/1000; the intrinsics file
scaled to the new size; poses relative to the first one. -/
theorem scannet_item (hR : ResizeOk R row col) {P : Type} {n : Nat} (hn : 0 < n) {inv : M4 α → M4 α} (hinv : IsInverse inv) {readM : P → M4 α} {readC readD : P → Tensor α}
    {readL : P → Tensor Nat} {items : List (ScanItem P)} {idx : Nat} {it : ScanItem P} (hit : items[idx]? = some it)
    (hc : Readable readC [3] n it.color) (hd : o.depth = true → Readable readD [] n it.depth) (hl : o.extra = true → Readable readL [] n it.label)
    (hp : o.pose = true ∨ o.transform = true → n ≤ it.pose.length ∧ ∀ p ∈ it.pose.take n, PoseOk (readM p)) :
    ∃ C D Ps Ts L, scanGetItem R o n inv readM readC readD readL items idx =
        .ok (.tensor C :: (opt o.depth (.tensor D) ++ opt o.intrinsics (.mats [scaleIntrinsics4 (readM it.intrinsics) (o.height / 480) (o.width / 640)]) ++
          opt o.pose (.mats Ps) ++ opt o.transform (.mats Ts) ++ opt o.names (.text it.name) ++ opt o.extra (.labels L))) ∧
      IsColours R o n readC it.color C ∧ (o.depth = true → IsDepths row col 1000 o n readD it.depth D) ∧
      (o.pose = true → IsRelative ((it.pose.take n).map readM) Ps) ∧ (o.transform = true → IsMotions ((it.pose.take n).map readM) Ts) ∧
      (o.extra = true → IsLabels row col o n readL it.label L) := by
  obtain ⟨C, D, Ps, Ts, e, h1, h2, h3, h4⟩ := core_ok (o := o) (scale := 1000) (inv := inv) (readC := readC) (readD := readD) (cpaths := it.color)
    (dpaths := it.depth) (K := scaleIntrinsics4 (readM it.intrinsics) (o.height / 480) (o.width / 640)) (name := it.name)
    (raw := (it.pose.take n).map readM)
    (poses := mapOk (List.map readM) (gather it.pose (List.range n))) hR hn hc hd (fun h => by
      obtain ⟨k1, k3⟩ := hp h
      refine ⟨by rw [gather_range _ _ k1]; rfl, ?_, ?_, ?_⟩
      · intro hnil
        have := congrArg List.length hnil
        rw [List.length_map, List.length_take, List.length_nil] at this
        omega
      · intro p hpm
        obtain ⟨q, hq, rfl⟩ := List.mem_map.1 hpm
        exact hinv _ (k3 q hq).2
      · intro p hpm
        obtain ⟨q, hq, rfl⟩ := List.mem_map.1 hpm
        exact (k3 q hq).1)
  have hL : ∃ L, (o.extra = true → imageSeq n it.label (fun p => labelOne R o (readL p)) = .ok L) ∧ (o.extra = true → IsLabels row col o n readL it.label L) := by
    by_cases hx : o.extra = true
    · obtain ⟨L, e, es, ev⟩ := labels_ok (o := o) hR hn (hl hx)
      refine ⟨L, fun _ => e, fun _ => ⟨es, fun i hi p h w hp hs y hy x hx => ⟨fun h20 => ?_, fun h20 hle => ?_⟩⟩⟩
      · rw [ev i hi p h w hp hs y hy x hx, if_neg (by simp [h20])]
      · rw [ev i hi p h w hp hs y hy x hx, if_pos h20]
        exact remapLabel_same hle
    · exact ⟨⟨[], fun _ => 0⟩, fun h => absurd h hx, fun h => absurd h hx⟩
  obtain ⟨L, l1, l2⟩ := hL
  refine ⟨C, D, Ps, Ts, L, ?_, h1, h2, h3, h4, l2⟩
  rw [scanGetItem, hit]
  simp only
  rw [e]
  simp only
  rw [appendIf_ok (v := Out.labels L) fun h => by rw [l1 h]; rfl]
  simp

/-- The documentation gives label sequences the shape `(L, H, W)`; they have rank 4. -/
theorem scannet_labels_rank (hR : ResizeOk R row col) {P : Type} {n : Nat} (hn : 0 < n) {readL : P → Tensor Nat} {paths : List P}
    (hl : Readable readL [] n paths) : ∃ L, imageSeq n paths (fun p => labelOne R o (readL p)) = .ok L ∧ L.shape ≠ [n, o.height, o.width] := by
  obtain ⟨T, e, es, _⟩ := labels_ok (o := o) hR hn hl
  exact ⟨T, e, by rw [es]; simp⟩

/-! ### Values -/

/-- **C67 (a)**: with `normalize_color`, colours of 8-bit images lie in `[0, 1]`. -/
theorem colours_normalized (hR : ResizeOk R row col) {P : Type} {n : Nat} {read : P → Tensor α} {paths : List P} {C : Tensor α} (h : IsColours R o n read paths C)
    (hr : Readable read [3] n paths) (hno : o.normalize = true) (h8 : ∀ p ∈ paths, ∀ i, 0 ≤ (read p).get i ∧ (read p).get i ≤ 255) :
    ∀ i < n, ∀ y < o.height, ∀ x < o.width, ∀ c < 3, 0 ≤ pixelAt o.cf C i y x c ∧ pixelAt o.cf C i y x c ≤ 1 := by
  intro i hi y hy x hx c hc
  have hip : paths[i]? = some (paths[i]'(by have := hr.1; omega)) := List.getElem?_eq_getElem _
  obtain ⟨hh, ww, k1, k2, k3⟩ := hr.2 i hi _ hip
  obtain ⟨b1, b2⟩ := hR.linear_range o.height o.width _ hh ww 3 0 255 k3 k1 k2 (fun y _ x _ k _ => h8 _ (List.mem_of_getElem? hip) _) y hy x hx c hc
  rw [h.2 i hi _ hip y hy x hx c hc, if_pos hno]
  exact ⟨div_nonneg b1 (by norm_num), by rw [div_le_one (by norm_num)]; exact b2⟩

/-- **C67 (b)**: depths are never interpolated.  Every returned depth is, up to the scaling factor, a depth of the file; in particular pixels come out
missing (0) exactly when the nearest pixel of the file is missing, and a depth is positive exactly when that reading is. -/
theorem depths_not_interpolated (hR : ResizeOk R row col) {P : Type} {n : Nat} {scale : α} (hs : 0 < scale) {read : P → Tensor α} {paths : List P} {D : Tensor α}
    (h : IsDepths row col scale o n read paths D) (hr : Readable read [] n paths) :
    ∀ i < n, ∀ p, paths[i]? = some p → ∀ y < o.height, ∀ x < o.width, ∃ y' x' h' w', (read p).shape = [h', w'] ∧ y' < h' ∧ x' < w' ∧
      pixelAt o.cf D i y x 0 * scale = (read p).get [y', x'] ∧ (pixelAt o.cf D i y x 0 = 0 ↔ (read p).get [y', x'] = 0) ∧
      (0 < pixelAt o.cf D i y x 0 ↔ 0 < (read p).get [y', x']) := by
  intro i hi p hp y hy x hx
  obtain ⟨hh, ww, k1, k2, k3⟩ := hr.2 i hi p hp
  have e := h.2 i hi p hh ww hp k3 y hy x hx
  refine ⟨_, _, hh, ww, k3, (hR.inside hh o.height y k1 hy).1, (hR.inside ww o.width x k2 hx).2, ?_, ?_, ?_⟩
  · rw [e, div_mul_cancel₀ _ hs.ne']
  · rw [e, div_eq_zero_iff]; simp [hs.ne']
  · rw [e, div_pos_iff_of_pos_right hs]

/-! ### Windows -/

theorem windows_item {β : Type} (w : Win) (hs : 0 < w.seqlen) {seqs : List (List β)} {ws : List (List β)} (h : allWindows w seqs = .ok ws) {idx : Nat} {win : List β}
    (hw : ws[idx]? = some win) : ∃ s ∈ seqs, ∃ i, win.length = w.seqlen ∧ ∀ k < w.seqlen, win[k]? = s[i * w.stride + k * (w.dilation + 1)]? ∧
      i * w.stride + k * (w.dilation + 1) < s.length := by
  induction seqs generalizing ws idx with
  | nil => simp only [allWindows, Except.ok.injEq] at h; subst h; simp at hw
  | cons t ts ih =>
    rw [allWindows] at h
    cases ht : windows w t with
    | error e => rw [ht] at h; cases h
    | ok a =>
      rw [ht] at h; simp only at h
      cases hb : allWindows w ts with
      | error e => rw [hb] at h; cases h
      | ok b =>
        rw [hb] at h; simp only [Except.ok.injEq] at h; subst h
        by_cases hi : idx < a.length
        · rw [List.getElem?_append_left hi] at hw
          by_cases hst : w.stride = 0
          · simp [windows, pyRange, hst] at ht
          obtain ⟨ws', g1, g2, g3⟩ := windows_spec w t hs (by omega)
          rw [ht] at g1; cases g1
          obtain ⟨g4, g5⟩ := g3 idx win hw
          refine ⟨t, by simp, idx, g4, fun k hk => ⟨g5 k hk, ?_⟩⟩
          have := (g2 idx).1 hi
          have h2 : k * (w.dilation + 1) ≤ (w.seqlen - 1) * (w.dilation + 1) := Nat.mul_le_mul_right _ (by omega)
          omega
        · rw [List.getElem?_append_right (by omega)] at hw
          obtain ⟨s, h1, h2⟩ := ih hb hw
          exact ⟨s, by simp [h1], h2⟩

theorem window_mem {β : Type} {w : Win} {s win : List β} {i : Nat} (hl : win.length = w.seqlen)
    (hk : ∀ k < w.seqlen, win[k]? = s[i * w.stride + k * (w.dilation + 1)]? ∧ i * w.stride + k * (w.dilation + 1) < s.length) : ∀ f ∈ win, f ∈ s := by
  intro f hf
  obtain ⟨k, hk', rfl⟩ := List.mem_iff_getElem.1 hf
  obtain ⟨e, _⟩ := hk k (by omega)
  rw [List.getElem?_eq_getElem hk'] at e
  exact List.mem_of_getElem? e.symm

theorem readable_map {β P F : Type} {read : P → Tensor β} {chan : List Nat} {n : Nat} {win : List F} {g : F → P} (hl : win.length = n)
    (h : ∀ f ∈ win, ∃ h w, 0 < h ∧ 0 < w ∧ (read (g f)).shape = [h, w] ++ chan) : Readable read chan n (win.map g) := by
  refine ⟨by simp [hl], fun i hi p hp => ?_⟩
  rw [List.getElem?_map] at hp
  cases hf : win[i]? with
  | none => rw [hf] at hp; cases hp
  | some f => rw [hf] at hp; cases hp; exact h f (List.mem_of_getElem? hf)

/-- The intrinsics entry of TUM items: the 640×480 camera (focal length 525, principal point (319.5, 239.5)) in units of pixels of the new size. -/
theorem tum_intrinsics : (tumK o : M4 α) =
    ⟨⟨⟨525 * o.width / 640, 0, 319.5 * o.width / 640⟩, ⟨0, 525 * o.height / 480, 239.5 * o.height / 480⟩, ⟨0, 0, 1⟩⟩, V3.zero, V3.zero, 1⟩ := by
  simp only [tumK, scaleIntrinsics4]
  ext <;> simp only [scaleIntrinsics3, V3.zero] <;> norm_num <;> ring

/-- The intrinsics entry of ICL items (focal lengths 481.2 and -480). -/
theorem icl_intrinsics : (iclK o : M4 α) =
    ⟨⟨⟨481.2 * o.width / 640, 0, 319.5 * o.width / 640⟩, ⟨0, -480 * o.height / 480, 239.5 * o.height / 480⟩, ⟨0, 0, 1⟩⟩, V3.zero, V3.zero, 1⟩ := by
  simp only [iclK, scaleIntrinsics4]
  ext <;> simp only [scaleIntrinsics3, V3.zero] <;> norm_num <;> ring

/-! ### ICL -/

/-- One frame of an ICL trajectory: an association line (icl.py:323-352). -/
structure IclFrame (P : Type) where
  color : P
  depth : P
  name : List Char

/-- What the window loop stores for one window, icl.py:358-368; a frame comes with its pose start line. -/
def iclItemOf {P τ : Type} (file : List (List τ)) (w : List (IclFrame P × Nat)) : IclItem P τ :=
  ⟨w.map (·.1.color), w.map (·.1.depth), file, w.map (·.2), List.intercalate ", ".toList (w.map (·.1.name))⟩

/-- **C67, ICL** (one trajectory; the items of several trajectories are concatenated, `dataset_items`).  For every window and every choice of
the options: the item `i` is the window of the frames `start + i·stride + k·(dilation+1)`; `dataset[i]` returns, in the documented order, colours and
depths (in units of 1/5000) of exactly these frames, the ICL intrinsics scaled to the new size, the names, and relative poses and transforms
made from the pose blocks `i·stride + k·(dilation+1)` of the trajectory file (which are those of the frames only if `start = 0`: C11). -/
theorem icl_item (hR : ResizeOk R row col) {P τ : Type} {inv : M4 α → M4 α} (hinv : IsInverse inv) {bottom : List τ} {mat : List (List τ) → M4 α} {readC readD : P → Tensor α} (w : Win)
    (hs : 0 < w.seqlen) (isTraj0 : Bool) (lines : List (IclFrame P)) (file : List (List τ)) {ws : List (List (IclFrame P × Nat))}
    (hok : iclItems w isTraj0 file.length lines = .ok ws) (hblocks : ∀ k, k < lines.length → BlockOk file k)
    (hposes : ∀ k, k < lines.length → PoseOk (mat (poseBlock bottom file k)))
    (hfiles : ∀ f ∈ lines, (∃ h w, 0 < h ∧ 0 < w ∧ (readC f.color).shape = [h, w, 3]) ∧ ∃ h w, 0 < h ∧ 0 < w ∧ (readD f.depth).shape = [h, w])
    {i : Nat} (hi : i < ws.length) :
    ∃ win : List (IclFrame P), win.length = w.seqlen ∧ (∀ k < w.seqlen, win[k]? = lines[w.start + i * w.stride + k * (w.dilation + 1)]?) ∧
      ∃ C D Ps Ts, iclGetItem R o w.seqlen inv bottom mat readC readD (ws.map (iclItemOf file)) i =
        .ok (.tensor C :: (opt o.depth (.tensor D) ++ opt o.intrinsics (.mats [iclK o]) ++ opt o.pose (.mats Ps) ++ opt o.transform (.mats Ts) ++
          opt o.names (.text (List.intercalate ", ".toList (win.map (·.name)))))) ∧
      IsColours R o w.seqlen readC (win.map (·.color)) C ∧ (o.depth = true → IsDepths row col 5000 o w.seqlen readD (win.map (·.depth)) D) ∧
      (o.pose = true → IsRelative ((List.range w.seqlen).map fun k => mat (poseBlock bottom file (i * w.stride + k * (w.dilation + 1)))) Ps) ∧
      (o.transform = true → IsMotions ((List.range w.seqlen).map fun k => mat (poseBlock bottom file (i * w.stride + k * (w.dilation + 1)))) Ts) := by
  have hwi : ws[i]? = some ws[i] := List.getElem?_eq_getElem hi
  obtain ⟨g1, g2, g3⟩ := icl_item_poses w hs isTraj0 lines bottom file ws hok hblocks i _ hwi
  have hmem : ∀ f ∈ ws[i].map (·.1), f ∈ lines := by
    intro f hf
    obtain ⟨k, hk, rfl⟩ := List.mem_iff_getElem.1 hf
    have e := g2 k (by simp at hk; omega)
    rw [List.getElem?_eq_getElem hk] at e
    exact List.mem_of_getElem? e.symm
  have hlen : (ws[i].map (·.1)).length = w.seqlen := by simp [g1]
  have hin : ∀ k < w.seqlen, i * w.stride + k * (w.dilation + 1) < lines.length := by
    intro k hk
    have e := g2 k hk
    rw [List.getElem?_eq_getElem (by omega)] at e
    have := (List.getElem?_eq_some_iff.1 e.symm).1
    omega
  refine ⟨ws[i].map (·.1), hlen, g2, ?_⟩
  obtain ⟨C, D, Ps, Ts, e, h1, h2, h3, h4⟩ := core_ok (o := o) (scale := 5000) (inv := inv) (readC := readC) (readD := readD)
    (cpaths := (ws[i].map (·.1)).map (·.color)) (dpaths := (ws[i].map (·.1)).map (·.depth)) (K := iclK o)
    (name := List.intercalate ", ".toList ((ws[i].map (·.1)).map (·.name)))
    (raw := (List.range w.seqlen).map fun k => mat (poseBlock bottom file (i * w.stride + k * (w.dilation + 1))))
    (poses := mapOk (List.map mat) (loadPoses bottom file (ws[i].map (·.2)))) hR hs
    (readable_map hlen fun f hf => (hfiles f (hmem f hf)).1) (fun _ => readable_map hlen fun f hf => by simpa using (hfiles f (hmem f hf)).2) (fun _ => by
      refine ⟨by rw [g3]; simp [mapOk, Function.comp_def], ?_, ?_, ?_⟩
      · intro hnil
        have := congrArg List.length hnil
        simp at this; omega
      · intro p hp
        obtain ⟨k, hk, rfl⟩ := List.mem_map.1 hp
        exact hinv _ (hposes _ (hin k (List.mem_range.1 hk))).2
      · intro p hp
        obtain ⟨k, hk, rfl⟩ := List.mem_map.1 hp
        exact (hposes _ (hin k (List.mem_range.1 hk))).1)
  refine ⟨C, D, Ps, Ts, ?_, h1, h2, h3, h4⟩
  rw [iclGetItem, List.getElem?_map, hwi]
  simp only [Option.map_some, iclItemOf]
  simp only [List.map_map, Function.comp_def] at e ⊢
  exact e

/-! ### TUM -/

/-- One associated TUM frame: files, pose, name and stamps (tum.py:298-314). -/
structure TumFrame (P Q : Type) where
  color : P
  depth : P
  pose : Q
  name : List Char
  stamp : List Char × List Char × Option (List Char)

/-- What the window loop stores for one window, tum.py:320-326. -/
def tumItemOf {P Q : Type} (w : List (TumFrame P Q)) : TumItem P Q :=
  ⟨w.map (·.color), w.map (·.depth), w.map (·.pose), List.intercalate ", ".toList (w.map (·.name)), w.map (·.stamp)⟩

/-- Specification: the line of text for the stamps of one frame. -/
def stampLine : List Char × List Char × Option (List Char) → List Char
  | (rgb, depth, some pose) => "rgb ".toList ++ rgb ++ " depth ".toList ++ depth ++ " pose ".toList ++ pose
  | (rgb, depth, none) => "rgb ".toList ++ rgb ++ " depth ".toList ++ depth ++ " pose None".toList

theorem stampText_eq (ts : List (List Char × List Char × Option (List Char))) : stampText ts = List.intercalate ['\n'] (ts.map stampLine) := by
  unfold stampText
  congr 1
  refine List.map_congr_left fun t _ => ?_
  rcases t with ⟨a, b, _ | c⟩
  · show _ = "rgb ".toList ++ a ++ " depth ".toList ++ b ++ " pose None".toList
    rw [show " pose None".toList = " pose ".toList ++ "None".toList by decide, ← List.append_assoc]
    rfl
  · rfl

/-- The TUM dataset over all sequences: tum.py:279-335 (the frames of a sequence are what `_findAssociations` returns, C61). -/
def tumItems {P Q : Type} (w : Win) (seqs : List (List (TumFrame P Q))) : Except Err (List (TumItem P Q)) :=
  match allWindows w seqs with
  | .error e => .error e
  | .ok ws => .ok (ws.map tumItemOf)

end

section
variable {R : Resize ℝ} {row col : Nat → Nat → Nat → Nat} {o : Opts}

/-- A pose record `(t, q)` that is not numerically zero. -/
def GoodPose (eps : ℝ) (q : V3 ℝ × Geom.Quat) : Prop := √2 * eps ≤ q.2.norm ∧ 0 < q.2.norm

/-- **C67, TUM.**  For every dataset of associated sequences, every window and every choice of the options: item `idx` is a window of one of the
sequences (frames `i·stride + k·(dilation+1)`); `dataset[idx]` returns, in the documented order, colours and depths (in units of 1/5000) of exactly
these frames, the TUM intrinsics scaled to the new size, the poses of these frames relative to the first, the frame-to-frame transforms, the
names of the frames and their stamps. -/
theorem tum_item (hR : ResizeOk R row col) {P : Type} {eps : ℝ} {inv : M4 ℝ → M4 ℝ} (hinv : IsInverse inv) {readC readD : P → Tensor ℝ} (w : Win)
    (hs : 0 < w.seqlen) {seqs : List (List (TumFrame P (V3 ℝ × Geom.Quat)))} {items : List (TumItem P (V3 ℝ × Geom.Quat))} (h : tumItems w seqs = .ok items)
    (hfiles : ∀ s ∈ seqs, ∀ f ∈ s, (∃ h w, 0 < h ∧ 0 < w ∧ (readC f.color).shape = [h, w, 3]) ∧ (∃ h w, 0 < h ∧ 0 < w ∧ (readD f.depth).shape = [h, w]) ∧
      GoodPose eps f.pose) {idx : Nat} (hidx : idx < items.length) :
    ∃ s ∈ seqs, ∃ i, ∃ win : List (TumFrame P (V3 ℝ × Geom.Quat)), win.length = w.seqlen ∧
      (∀ k < w.seqlen, win[k]? = s[i * w.stride + k * (w.dilation + 1)]? ∧ i * w.stride + k * (w.dilation + 1) < s.length) ∧
      ∃ C D Ps Ts, tumGetItem R o w.seqlen inv (fun q => pointquaternionToHomogeneous eps q.1 q.2) readC readD items idx =
        .ok (.tensor C :: (opt o.depth (.tensor D) ++ opt o.intrinsics (.mats [tumK o]) ++ opt o.pose (.mats Ps) ++ opt o.transform (.mats Ts) ++
          opt o.names (.text (List.intercalate ", ".toList (win.map (·.name)))) ++ opt o.extra (.text (List.intercalate ['\n'] ((win.map (·.stamp)).map stampLine))))) ∧
      IsColours R o w.seqlen readC (win.map (·.color)) C ∧ (o.depth = true → IsDepths row col 5000 o w.seqlen readD (win.map (·.depth)) D) ∧
      (o.pose = true → IsRelative (win.map fun f => pointquaternionToHomogeneous eps f.pose.1 f.pose.2) Ps) ∧
      (o.transform = true → IsMotions (win.map fun f => pointquaternionToHomogeneous eps f.pose.1 f.pose.2) Ts) := by
  rw [tumItems] at h
  cases hws : allWindows w seqs with
  | error e => rw [hws] at h; cases h
  | ok ws =>
    rw [hws] at h; simp only [Except.ok.injEq] at h; subst h
    rw [List.length_map] at hidx
    have hwi : ws[idx]? = some ws[idx] := List.getElem?_eq_getElem hidx
    obtain ⟨s, hsm, i, g1, g2⟩ := windows_item w hs hws hwi
    have hmem := window_mem g1 g2
    refine ⟨s, hsm, i, ws[idx], g1, g2, ?_⟩
    have hrig : ∀ f ∈ ws[idx], (pointquaternionToHomogeneous eps f.pose.1 f.pose.2).Rigid := fun f hf => by
      obtain ⟨_, _, q1, q2⟩ := hfiles s hsm f (hmem f hf)
      exact (pointquaternion_rigid eps _ q2 _ _ q1 le_rfl).2.2.1
    obtain ⟨C, D, Ps, Ts, e, h1, h2, h3, h4⟩ := core_ok (o := o) (scale := 5000) (inv := inv) (readC := readC) (readD := readD)
      (cpaths := ws[idx].map (·.color)) (dpaths := ws[idx].map (·.depth)) (K := tumK o)
      (name := List.intercalate ", ".toList (ws[idx].map (·.name)))
      (raw := ws[idx].map fun f => pointquaternionToHomogeneous eps f.pose.1 f.pose.2)
      (poses := .ok ((ws[idx].map (·.pose)).map fun q => pointquaternionToHomogeneous eps q.1 q.2)) hR hs
      (readable_map g1 fun f hf => (hfiles s hsm f (hmem f hf)).1) (fun _ => readable_map g1 fun f hf => by simpa using (hfiles s hsm f (hmem f hf)).2.1)
      (fun _ => by
        refine ⟨by simp [Function.comp_def], ?_, ?_, ?_⟩
        · intro hnil
          have := congrArg List.length hnil
          rw [List.length_map, List.length_nil] at this
          omega
        · intro p hp
          obtain ⟨f, hf, rfl⟩ := List.mem_map.1 hp
          obtain ⟨a, b, _⟩ := Geom.inverse_transform_correct _ (hrig f hf)
          exact hinv _ ⟨_, b, a⟩
        · intro p hp
          obtain ⟨f, hf, rfl⟩ := List.mem_map.1 hp
          exact (hrig f hf).1)
    refine ⟨C, D, Ps, Ts, ?_, h1, h2, h3, h4⟩
    rw [tumGetItem, List.getElem?_map, hwi]
    simp only [Option.map_some, tumItemOf]
    rw [e]
    simp only
    rw [← stampText_eq, appendIf_ok (v := Out.text (stampText (ws[idx].map (·.stamp)))) fun _ => rfl]
    simp

end
end Verif.Data
