import Verif.Rgbd.Rep
/-!
Histories of calls on an `RGBDImages` object, and the invariant along them.
-/
namespace Verif.Rgbd
open Verif
set_option linter.unusedSectionVars false
set_option linter.unusedSimpArgs false

section
variable {α : Type*} [Field α] [LinearOrder α]

/-- The inputs described by the constructor's arguments. -/
def inputsOf (rgb depth : T5 α) (K : TM α) (poses : Option (TM α)) (cf : Bool) (pix : Option (T5 α)) : In α where
  B := rgb.sh.d0
  L := rgb.sh.d1
  H := if cf then rgb.sh.d3 else rgb.sh.d2
  W := if cf then rgb.sh.d4 else rgb.sh.d3
  rgb := px3 cf rgb
  depth := fun b l h w => chan cf depth b l h w 0
  K := fun b => K.at' b 0
  poses := poses.map TM.at'
  pix := px3 false (pix.getD (meshPix rgb.sh.d0 rgb.sh.d1 (if cf then rgb.sh.d3 else rgb.sh.d2)
    (if cf then rgb.sh.d4 else rgb.sh.d3)))

variable {nrm : V3 α → α} {eps : α}

/-- The constructor accepts its arguments. -/
theorem new_ok {rgb depth : T5 α} {K : TM α} {poses : Option (TM α)} {cf : Bool} {pix : Option (T5 α)} {s : Obj α}
    (h : new rgb depth K poses cf pix = .ok s) :
    rgb.sh.chans cf = 3 ∧ depth.sh = rgb.sh.setC cf 1 ∧ (K.d0, K.d1) = (rgb.sh.d0, 1) ∧
    (∀ p, poses = some p → (p.d0, p.d1) = (rgb.sh.d0, rgb.sh.d1)) ∧ (∀ p, pix = some p → p.sh = rgb.sh.pixShape cf) ∧
    s = ⟨cf, rgb, depth, K, poses, pix, none, none, none, none, none, rgb.sh, none, rgb.sh.d0, rgb.sh.d1,
      if cf then rgb.sh.d3 else rgb.sh.d2, if cf then rgb.sh.d4 else rgb.sh.d3⟩ := by
  unfold new at h
  split_ifs at h with h1 h2 h3 h4 h5
  all_goals
    refine ⟨not_not.mp h1, not_not.mp h2, not_not.mp h3, ?_, ?_, ?_⟩
    · rintro p rfl; simpa [Pcs.okOpt] using h4
    · rintro p rfl; simpa [Pcs.okOpt] using h5
    · rw [← Except.ok.inj h]; simp_all

theorem new_rep {rgb depth : T5 α} {K : TM α} {poses : Option (TM α)} {cf : Bool} {pix : Option (T5 α)} {s : Obj α}
    (h : new rgb depth K poses cf pix = .ok s) : Rep nrm eps s (inputsOf rgb depth K poses cf pix) := by
  obtain ⟨h1, h2, h3, h4, h5, rfl⟩ := new_ok h
  have hr : rgb.sh = dims5 cf rgb.sh.d0 rgb.sh.d1 (if cf then rgb.sh.d3 else rgb.sh.d2) (if cf then rgb.sh.d4 else rgb.sh.d3) 3 := by
    cases cf <;> simp [dims5, Shape5.chans] at h1 ⊢ <;> ext <;> simp [h1]
  refine ⟨rfl, rfl, rfl, rfl, hr, fun _ _ _ _ => rfl, ?_, fun _ _ _ _ => rfl, by simpa [inputsOf] using h3, fun _ => rfl, rfl, ?_, ?_, rfl, rfl,
    Or.inl rfl, Or.inl rfl, Or.inl rfl, ⟨Or.inl rfl, fun _ => rfl⟩, Or.inl rfl, ⟨Or.inl rfl, fun _ => rfl⟩⟩
  · rw [h2]; cases cf <;> simp [dims5, Shape5.setC, inputsOf]
  · intro p hp; simpa [inputsOf] using h4 p hp
  · intro p hp; rw [h5 p hp]; cases cf <;> simp [Shape5.pixShape, inputsOf]

/-! ### Setters -/

theorem setRgb_rep {s s' : Obj α} {i : In α} {v : T5 α} (r : Rep nrm eps s i) (h : setRgb v s = (.ok (), s')) :
    Rep nrm eps s' { i with rgb := px3 s.cf v } ∧ s'.valid = s.valid := by
  unfold setRgb at h
  split_ifs at h with hs
  · simp at h
  simp only [Prod.mk.injEq, true_and] at h
  subst h
  have hv : v.sh = s.rgb.sh := by rw [not_not.mp hs, r.rgbShape]
  exact ⟨{ r with rgbSh := hv.trans r.rgbSh, rgb := fun _ _ _ _ => rfl, rgbShape := r.rgbShape.trans hv.symm }, rfl⟩

theorem setDepth_rep {s s' : Obj α} {i : In α} {v : T5 α} (r : Rep nrm eps s i) (h : setDepth v s = (.ok (), s'))
    (hm : s.valid = none) :
    Rep nrm eps s' { i with depth := fun b l h w => chan s.cf v b l h w 0 } ∧ s'.valid = s.valid := by
  unfold setDepth at h
  rcases r.depthShape with hd | hd
  · simp [hd] at h
  rw [hd] at h
  simp only at h
  split_ifs at h with hs
  · simp at h
  simp only [Prod.mk.injEq, true_and] at h
  subst h
  have hv : v.sh = s.depth.sh := not_not.mp hs
  exact ⟨⟨r.hB, r.hL, r.hH, r.hW, r.rgbSh, r.rgb, hv.trans r.depthSh, fun _ _ _ _ => rfl, r.KSh, r.K, r.poses, r.posesSh, r.pixSh,
    r.pix, r.rgbShape, Or.inr (by simp [hd, hv]), Or.inl hm, Or.inl rfl, ⟨Or.inl rfl, fun _ => rfl⟩, Or.inl rfl,
    ⟨Or.inl rfl, fun _ => rfl⟩⟩, rfl⟩

theorem setK_rep {s s' : Obj α} {i : In α} {v : TM α} (r : Rep nrm eps s i) (h : setK v s = (.ok (), s')) :
    Rep nrm eps s' { i with K := fun b => v.at' b 0 } ∧ s'.valid = s.valid := by
  unfold setK at h
  split_ifs at h with hs
  · simp at h
  simp only [Prod.mk.injEq, true_and] at h
  subst h
  have hv := not_not.mp hs
  simp only [Prod.mk.injEq] at hv
  exact ⟨⟨r.hB, r.hL, r.hH, r.hW, r.rgbSh, r.rgb, r.depthSh, r.depth, ⟨hv.1.trans r.hB, hv.2⟩, fun _ => rfl, r.poses, r.posesSh,
    r.pixSh, r.pix, r.rgbShape, r.depthShape, r.mask, Or.inl rfl, ⟨Or.inl rfl, fun _ => rfl⟩, Or.inl rfl,
    ⟨Or.inl rfl, fun _ => rfl⟩⟩, rfl⟩

theorem setPoses_rep {s s' : Obj α} {i : In α} {v : Option (TM α)} (r : Rep nrm eps s i) (h : setPoses v s = (.ok (), s')) :
    Rep nrm eps s' { i with poses := v.map TM.at' } ∧ s'.valid = s.valid := by
  unfold setPoses at h
  split_ifs at h with hs
  · simp at h
  simp only [Prod.mk.injEq, true_and] at h
  subst h
  have hv : ∀ p, v = some p → p.d0 = i.B ∧ p.d1 = i.L := by
    rintro p rfl
    rw [← r.hB, ← r.hL]
    simpa [Pcs.okOpt] using hs
  exact ⟨⟨r.hB, r.hL, r.hH, r.hW, r.rgbSh, r.rgb, r.depthSh, r.depth, r.KSh, r.K, rfl, hv, r.pixSh, r.pix, r.rgbShape,
    r.depthShape, r.mask, r.vertex, r.normal, Or.inl rfl, ⟨Or.inl rfl, fun _ => rfl⟩⟩, rfl⟩

/-! ### Copies and layouts -/

theorem new_none {rgb depth : T5 α} {K : TM α} {cf : Bool} {B L H W : Nat} (h1 : rgb.sh = dims5 cf B L H W 3)
    (h2 : depth.sh = dims5 cf B L H W 1) (h3 : K.d0 = B ∧ K.d1 = 1) : ∃ o, new rgb depth K none cf none = .ok o := by
  unfold new
  rw [if_neg (by rw [h1]; cases cf <;> simp [dims5, Shape5.chans]),
    if_neg (by rw [h1, h2]; cases cf <;> simp [dims5, Shape5.setC]),
    if_neg (by rw [h1, h3.1, h3.2]; cases cf <;> simp [dims5]), if_neg (by simp [Pcs.okOpt]), if_neg (by simp [Pcs.okOpt])]
  exact ⟨_, rfl⟩

theorem clone_rep {s : Obj α} {i : In α} (r : Rep nrm eps s i) :
    ∃ o, clone s = .ok o ∧ Rep nrm eps o i ∧ o.valid = none ∧ o.cf = s.cf ∧ o.rgb = s.rgb ∧ o.depth = s.depth ∧
      o.K = s.K ∧ o.poses = s.poses := by
  have hn : ∃ o, new s.rgb s.depth s.K none s.cf none = .ok o := new_none r.rgbSh r.depthSh r.KSh
  obtain ⟨o, ho⟩ := hn
  obtain ⟨h1, h2, h3, h4, h5, rfl⟩ := new_ok ho
  have hsz : s.rgb.sh.d0 = i.B ∧ s.rgb.sh.d1 = i.L ∧ (if s.cf then s.rgb.sh.d3 else s.rgb.sh.d2) = i.H ∧
      (if s.cf then s.rgb.sh.d4 else s.rgb.sh.d3) = i.W := by
    rw [r.rgbSh]; cases s.cf <;> simp [dims5]
  have e : clone s = .ok ⟨s.cf, s.rgb, s.depth, s.K, s.poses, s.pix, s.vertex, s.normal, s.gvertex, s.gnormal, none, s.rgb.sh, none,
      s.rgb.sh.d0, s.rgb.sh.d1, if s.cf then s.rgb.sh.d3 else s.rgb.sh.d2, if s.cf then s.rgb.sh.d4 else s.rgb.sh.d3⟩ := by
    simp only [clone, ho]
  refine ⟨_, e, ?_, rfl, rfl, rfl, rfl, rfl, rfl⟩
  refine ⟨hsz.1, hsz.2.1, hsz.2.2.1, hsz.2.2.2, r.rgbSh, r.rgb, r.depthSh, r.depth, r.KSh, r.K, r.poses, r.posesSh, r.pixSh, ?_,
    rfl, Or.inl rfl, Or.inl rfl, r.vertex, ?_, r.gvertex, ?_⟩
  · rw [← r.pix]
    unfold pixOf
    simp only [hsz.1, hsz.2.1, hsz.2.2.1, hsz.2.2.2, r.hB, r.hL, r.hH, r.hW]
  · refine ⟨r.normal.1, fun x => r.normal.2 ?_⟩
    simp only [hsz.2.2.1, hsz.2.2.2] at x
    rw [r.hH, r.hW]; exact x
  · refine ⟨r.gnormal.1, fun x => r.gnormal.2 ?_⟩
    simp only [hsz.2.2.1, hsz.2.2.2] at x
    rw [r.hH, r.hW]; exact x

theorem perm_last_image (i : In α) (f) : perm01342 (image true i f) = image false i f := by
  simp [perm01342, image, mk5, dims5]
theorem perm_first_image (i : In α) (f) : perm01423 (image false i f) = image true i f := by
  simp [perm01423, image, mk5, dims5]

theorem CacheOk.map {c : Option (T5 α)} {t : T5 α} (g : T5 α → T5 α) (h : CacheOk c t) : CacheOk (c.map g) (g t) := by
  rcases h with rfl | rfl
  · exact Or.inl rfl
  · exact Or.inr rfl

theorem toLast_rep_ {s : Obj α} {i : In α} (r : Rep nrm eps s i) (hv : s.valid = none ∨ s.cf = false) :
    Rep nrm eps (toLast_ s) i ∧ (toLast_ s).cf = false ∧ (toLast_ s).valid = s.valid := by
  cases hc : s.cf with
  | false =>
    have e : toLast_ s = s := by simp [toLast_, hc]
    rw [e]; exact ⟨r, hc, rfl⟩
  | true =>
    have hm : s.valid = none := by rcases hv with h | h <;> simp_all
    have e : toLast_ s = { s with
      rgb := perm01342 s.rgb, depth := perm01342 s.depth, vertex := s.vertex.map perm01342, gvertex := s.gvertex.map perm01342
      normal := s.normal.map perm01342, gnormal := s.gnormal.map perm01342, cf := false
      rgbShape := (perm01342 s.rgb).sh, depthImageShape := some (perm01342 s.depth).sh } := by simp [toLast_, hc]
    rw [e]
    have a1 := r.rgbSh; have a2 := r.rgb; have a3 := r.depthSh; have a4 := r.depth
    have a5 := r.vertex.map perm01342; have a6 := r.gvertex.map perm01342
    have a7 := r.normal.1.map perm01342; have a8 := r.gnormal.1.map perm01342
    rw [hc] at a1 a2 a3 a4 a5 a6 a7 a8
    rw [perm_last_image] at a5 a6 a7 a8
    refine ⟨⟨r.hB, r.hL, r.hH, r.hW, ?_, a2, ?_, a4, r.KSh, r.K, r.poses, r.posesSh, r.pixSh, r.pix, rfl, Or.inr rfl,
      Or.inl hm, a5, ⟨a7, fun x => by simp [r.normal.2 x]⟩, a6, ⟨a8, fun x => by simp [r.gnormal.2 x]⟩⟩, rfl, rfl⟩
    · simp [perm01342, dims5, a1]
    · simp [perm01342, dims5, a3]

theorem toFirst_rep_ {s : Obj α} {i : In α} (r : Rep nrm eps s i) (hv : s.valid = none ∨ s.cf = true) :
    Rep nrm eps (toFirst_ s) i ∧ (toFirst_ s).cf = true ∧ (toFirst_ s).valid = s.valid := by
  cases hc : s.cf with
  | true =>
    have e : toFirst_ s = s := by simp [toFirst_, hc]
    rw [e]; exact ⟨r, hc, rfl⟩
  | false =>
    have hm : s.valid = none := by rcases hv with h | h <;> simp_all
    have e : toFirst_ s = { s with
      rgb := perm01423 s.rgb, depth := perm01423 s.depth, vertex := s.vertex.map perm01423, gvertex := s.gvertex.map perm01423
      normal := s.normal.map perm01423, gnormal := s.gnormal.map perm01423, cf := true
      rgbShape := (perm01423 s.rgb).sh, depthImageShape := some (perm01423 s.depth).sh } := by simp [toFirst_, hc]
    rw [e]
    have a1 := r.rgbSh; have a2 := r.rgb; have a3 := r.depthSh; have a4 := r.depth
    have a5 := r.vertex.map perm01423; have a6 := r.gvertex.map perm01423
    have a7 := r.normal.1.map perm01423; have a8 := r.gnormal.1.map perm01423
    rw [hc] at a1 a2 a3 a4 a5 a6 a7 a8
    rw [perm_first_image] at a5 a6 a7 a8
    refine ⟨⟨r.hB, r.hL, r.hH, r.hW, ?_, a2, ?_, a4, r.KSh, r.K, r.poses, r.posesSh, r.pixSh, r.pix, rfl, Or.inr rfl,
      Or.inl hm, a5, ⟨a7, fun x => by simp [r.normal.2 x]⟩, a6, ⟨a8, fun x => by simp [r.gnormal.2 x]⟩⟩, rfl, rfl⟩
    · simp [perm01423, dims5, a1]
    · simp [perm01423, dims5, a3]

/-! ### Indexing -/

theorem image_sel (cf : Bool) (i : In α) (is js : List Nat) (f) :
    (image cf i f).sel is js = image cf (i.sel is js) fun b l => f (is.getD b 0) (js.getD l 0) := by
  cases cf <;> simp [T5.sel, image, mk5, dims5, In.sel]

theorem vertexAt_sel (i : In α) (is js : List Nat) (b l h w : Nat) :
    vertexAt eps (i.sel is js) b l h w = vertexAt eps i (is.getD b 0) (js.getD l 0) h w := rfl
theorem normalAt_sel (i : In α) (is js : List Nat) (b l h w : Nat) :
    normalAt nrm eps (i.sel is js) b l h w = normalAt nrm eps i (is.getD b 0) (js.getD l 0) h w := rfl
theorem gvertexAt_sel (i : In α) (is js : List Nat) (b l h w : Nat) :
    gvertexAt eps (i.sel is js) b l h w = gvertexAt eps i (is.getD b 0) (js.getD l 0) h w := by
  cases h : i.poses with
  | none => simp [gvertexAt, In.sel, h]; rfl
  | some P => simp [gvertexAt, In.sel, h]; rfl
theorem gnormalAt_sel (i : In α) (is js : List Nat) (b l h w : Nat) :
    gnormalAt nrm eps (i.sel is js) b l h w = gnormalAt nrm eps i (is.getD b 0) (js.getD l 0) h w := by
  cases h : i.poses with
  | none => simp [gnormalAt, In.sel, h]; rfl
  | some P => simp [gnormalAt, In.sel, h]; rfl

theorem selected_rep {s : Obj α} {i : In α} (r : Rep nrm eps s i) {is js : List Nat} (hi : is ≠ []) (hj : js ≠ []) :
    ∃ o, selected is js s = .ok o ∧ Rep nrm eps o (i.sel is js) ∧ o.valid = none ∧ o.cf = s.cf ∧
      o.rgb = s.rgb.sel is js ∧ o.depth = s.depth.sel is js ∧ o.K = s.K.sel0 is ∧ o.poses = s.poses.map (TM.sel is js) := by
  have hn : ∃ o, new (s.rgb.sel is js) (s.depth.sel is js) (s.K.sel0 is) none s.cf none = .ok o := by
    refine new_none (B := is.length) (L := js.length) (H := i.H) (W := i.W) ?_ ?_ ⟨rfl, r.KSh.2⟩
    · simp only [T5.sel]; rw [r.rgbSh]; cases s.cf <;> simp [dims5]
    · simp only [T5.sel]; rw [r.depthSh]; cases s.cf <;> simp [dims5]
  obtain ⟨o, ho⟩ := hn
  have hsel : selected is js s = .ok { o with
        poses := s.poses.map (TM.sel is js), pix := s.pix.map (T5.sel is js), vertex := s.vertex.map (T5.sel is js)
        normal := s.normal.map (T5.sel is js), gvertex := s.gvertex.map (T5.sel is js)
        gnormal := s.gnormal.map (T5.sel is js) } := by
    have h1 : is.length ≠ 0 := by simpa using hi
    have h2 : js.length ≠ 0 := by simpa using hj
    simp only [selected, if_neg h1, if_neg h2, ho]
  obtain ⟨h1, h2, h3, h4, h5, rfl⟩ := new_ok ho
  have hsz : (if s.cf then (s.rgb.sel is js).sh.d3 else (s.rgb.sel is js).sh.d2) = i.H ∧
      (if s.cf then (s.rgb.sel is js).sh.d4 else (s.rgb.sel is js).sh.d3) = i.W := by
    simp only [T5.sel]; rw [r.rgbSh]; cases s.cf <;> simp [dims5]
  refine ⟨_, hsel, ?_, rfl, rfl, rfl, rfl, rfl, rfl⟩
  have av := r.vertex.map (T5.sel is js); have an := r.normal.1.map (T5.sel is js)
  have agv := r.gvertex.map (T5.sel is js); have agn := r.gnormal.1.map (T5.sel is js)
  rw [image_sel] at av an agv agn
  refine ⟨rfl, rfl, hsz.1, hsz.2, ?_, ?_, ?_, ?_, ⟨rfl, r.KSh.2⟩, fun b => r.K _, ?_, ?_, ?_, ?_, rfl, Or.inl rfl, Or.inl rfl,
    av, ⟨an, ?_⟩, ?_, ⟨?_, ?_⟩⟩
  · simp only [T5.sel]; rw [r.rgbSh]; cases s.cf <;> simp [dims5, In.sel]
  · intro b l h w
    have := r.rgb (is.getD b 0) (js.getD l 0) h w
    simpa [px3, chan, T5.sel, In.sel] using this
  · simp only [T5.sel]; rw [r.depthSh]; cases s.cf <;> simp [dims5, In.sel]
  · intro b l h w
    have := r.depth (is.getD b 0) (js.getD l 0) h w
    simpa [chan, T5.sel, In.sel] using this
  · simp only [In.sel]
    rw [← r.poses]
    cases s.poses <;> rfl
  · intro p hp
    simp only [Option.map_eq_some_iff] at hp
    obtain ⟨q, _, rfl⟩ := hp
    exact ⟨rfl, rfl⟩
  · intro p hp
    simp only [Option.map_eq_some_iff] at hp
    obtain ⟨q, hq, rfl⟩ := hp
    simp [T5.sel, r.pixSh q hq, In.sel]
  · have hp := r.pix
    funext b l h w
    simp only [In.sel]
    rw [← hp]
    unfold pixOf
    cases hq : s.pix with
    | none => simp [hsz.1, hsz.2, r.hH, r.hW, px3, chan, meshPix]
    | some q => simp [px3, chan, T5.sel]
  · intro x
    simp only [hsz.1, hsz.2] at x
    rw [show s.normal = none from r.normal.2 (by rw [r.hH, r.hW]; exact x)]
    rfl
  · convert agv using 2
    funext b l h w
    exact gvertexAt_sel i is js b l h w
  · convert agn using 2
    funext b l h w
    exact gnormalAt_sel i is js b l h w
  · intro x
    simp only [hsz.1, hsz.2] at x
    rw [show s.gnormal = none from r.gnormal.2 (by rw [r.hH, r.hW]; exact x)]
    rfl

/-- The batch positions and the time positions that an index selects. -/
def positions (B L : Nat) (idx : Index) : Except Err (List Nat × List Nat) :=
  match twoIx idx with
  | .error e => .error e
  | .ok (a, b) => match resolve B a with
    | .error e => .error e
    | .ok is => match resolve L b with
      | .error e => .error e
      | .ok js => .ok (is, js)

theorem getitem_rep {s o : Obj α} {i : In α} (r : Rep nrm eps s i) {idx : Index} (h : getitem idx s = .ok o) :
    ∃ is js, positions i.B i.L idx = .ok (is, js) ∧ is ≠ [] ∧ js ≠ [] ∧ Rep nrm eps o (i.sel is js) ∧ o.valid = none ∧
      o.cf = s.cf ∧ o.rgb = s.rgb.sel is js ∧ o.depth = s.depth.sel is js ∧ o.K = s.K.sel0 is ∧
      o.poses = s.poses.map (TM.sel is js) := by
  unfold getitem at h
  rw [r.hB, r.hL] at h
  cases ht : twoIx idx with
  | error e => simp [ht] at h
  | ok ab =>
    obtain ⟨a, b⟩ := ab
    rw [ht] at h
    simp only at h
    cases hi : resolve i.B a with
    | error e => simp [hi] at h
    | ok is =>
      rw [hi] at h
      simp only at h
      cases hj : resolve i.L b with
      | error e => simp [hj] at h
      | ok js =>
        rw [hj] at h
        simp only at h
        have hsel : selected is js s = .ok o := by
          split_ifs at h
          exact h
        have hne : is ≠ [] ∧ js ≠ [] := by
          unfold selected at hsel
          split_ifs at hsel with h1 h2
          exact ⟨by simpa using h1, by simpa using h2⟩
        obtain ⟨o', ho', rest⟩ := selected_rep (is := is) (js := js) r hne.1 hne.2
        rw [hsel] at ho'
        cases ho'
        exact ⟨is, js, by simp [positions, ht, hi, hj], hne.1, hne.2, rest⟩

/-! ### Histories -/

/-- Everything that can be done with an object, with the inputs it currently has and whether the mask or a derived map has been read
since the object was created.  Calls that raise leave the object as it is, except that a failing read may fill caches (`readNormal`,
`readGNormal` cover that: they do not ask for success).  Two kinds of calls are only allowed while nothing has been read: assigning
`depth_image`, and converting the channel order in place; see `stale_mask_after_depth` and `stale_mask_after_layout`. -/
inductive Hist (nrm : V3 α → α) (eps : α) : Obj α → In α → Bool → Prop
  | new {rgb depth K poses cf pix s} : Rgbd.new rgb depth K poses cf pix = .ok s →
      Hist nrm eps s (inputsOf rgb depth K poses cf pix) false
  | readValid {s i k} : Hist nrm eps s i k → Hist nrm eps (getValid s).2 i true
  | readVertex {s i k} : Hist nrm eps s i k → Hist nrm eps (getVertex eps s).2 i true
  | readGVertex {s i k} : Hist nrm eps s i k → Hist nrm eps (getGVertex eps s).2 i true
  | readNormal {s i k} : Hist nrm eps s i k → Hist nrm eps (getNormal nrm eps s).2 i true
  | readGNormal {s i k} : Hist nrm eps s i k → Hist nrm eps (getGNormal nrm eps s).2 i true
  | setRgb {s s' i k v} : Hist nrm eps s i k → Rgbd.setRgb v s = (.ok (), s') → Hist nrm eps s' { i with rgb := px3 s.cf v } k
  | setDepth {s s' i v} : Hist nrm eps s i false → Rgbd.setDepth v s = (.ok (), s') →
      Hist nrm eps s' { i with depth := fun b l h w => chan s.cf v b l h w 0 } false
  | setK {s s' i k v} : Hist nrm eps s i k → Rgbd.setK v s = (.ok (), s') → Hist nrm eps s' { i with K := fun b => v.at' b 0 } k
  | setPoses {s s' i k v} : Hist nrm eps s i k → Rgbd.setPoses v s = (.ok (), s') →
      Hist nrm eps s' { i with poses := v.map TM.at' } k
  | clone {s o i k} : Hist nrm eps s i k → Rgbd.clone s = .ok o → Hist nrm eps o i false
  | toFirst {s o i k c} : Hist nrm eps s i k → Rgbd.toFirst c s = .ok o → Hist nrm eps o i k
  | toLast {s o i k c} : Hist nrm eps s i k → Rgbd.toLast c s = .ok o → Hist nrm eps o i k
  | toFirst_ {s i} : Hist nrm eps s i false → Hist nrm eps (Rgbd.toFirst_ s) i false
  | toLast_ {s i} : Hist nrm eps s i false → Hist nrm eps (Rgbd.toLast_ s) i false
  | getitem {s o i k idx is js} : Hist nrm eps s i k → Rgbd.getitem idx s = .ok o → positions i.B i.L idx = .ok (is, js) →
      Hist nrm eps o (i.sel is js) false

theorem toFirst_rep {s o : Obj α} {i : In α} {c : Bool} (r : Rep nrm eps s i) (h : toFirst c s = .ok o) :
    Rep nrm eps o i ∧ o.cf = true ∧ (o.valid = none ∨ o = s) := by
  unfold toFirst at h
  split_ifs at h with hc
  · cases h
    simp only [Bool.and_eq_true] at hc
    exact ⟨r, hc.2, Or.inr rfl⟩
  · obtain ⟨d, hd, rd, vd, _⟩ := clone_rep r
    rw [hd] at h
    simp only [Except.map] at h
    cases h
    obtain ⟨a, b, c⟩ := toFirst_rep_ rd (Or.inl vd)
    exact ⟨a, b, Or.inl (c.trans vd)⟩

theorem toLast_rep {s o : Obj α} {i : In α} {c : Bool} (r : Rep nrm eps s i) (h : toLast c s = .ok o) :
    Rep nrm eps o i ∧ o.cf = false ∧ (o.valid = none ∨ o = s) := by
  unfold toLast at h
  split_ifs at h with hc
  · cases h
    simp only [Bool.not_eq_true', Bool.or_eq_false_iff] at hc
    exact ⟨r, hc.2, Or.inr rfl⟩
  · obtain ⟨d, hd, rd, vd, _⟩ := clone_rep r
    rw [hd] at h
    simp only [Except.map] at h
    cases h
    obtain ⟨a, b, c⟩ := toLast_rep_ rd (Or.inl vd)
    exact ⟨a, b, Or.inl (c.trans vd)⟩

/-- The invariant along every history. -/
theorem hist_rep {s : Obj α} {i : In α} {k : Bool} (h : Hist nrm eps s i k) : Rep nrm eps s i ∧ (k = false → s.valid = none) := by
  induction h with
  | new h => exact ⟨new_rep h, fun _ => by obtain ⟨_, _, _, _, _, rfl⟩ := new_ok h; rfl⟩
  | readValid _ ih => exact ⟨(getValid_rep ih.1).2.2.1, fun h => by cases h⟩
  | readVertex _ ih => exact ⟨(getVertex_rep ih.1).2.1, fun h => by cases h⟩
  | readGVertex _ ih => exact ⟨(getGVertex_rep ih.1).2.1, fun h => by cases h⟩
  | readNormal _ ih => exact ⟨(getNormal_rep ih.1).2.1, fun h => by cases h⟩
  | readGNormal _ ih => exact ⟨(getGNormal_rep ih.1).2.1, fun h => by cases h⟩
  | setRgb _ hs ih => obtain ⟨a, b⟩ := setRgb_rep ih.1 hs; exact ⟨a, fun h => b.trans (ih.2 h)⟩
  | setDepth _ hs ih => obtain ⟨a, b⟩ := setDepth_rep ih.1 hs (ih.2 rfl); exact ⟨a, fun h => b.trans (ih.2 h)⟩
  | setK _ hs ih => obtain ⟨a, b⟩ := setK_rep ih.1 hs; exact ⟨a, fun h => b.trans (ih.2 h)⟩
  | setPoses _ hs ih => obtain ⟨a, b⟩ := setPoses_rep ih.1 hs; exact ⟨a, fun h => b.trans (ih.2 h)⟩
  | clone _ hs ih =>
    obtain ⟨o, ho, a, b, _⟩ := clone_rep ih.1
    rw [hs] at ho; cases ho
    exact ⟨a, fun _ => b⟩
  | toFirst _ hs ih =>
    obtain ⟨a, _, c⟩ := toFirst_rep ih.1 hs
    exact ⟨a, fun h => c.elim id fun e => e ▸ ih.2 h⟩
  | toLast _ hs ih =>
    obtain ⟨a, _, c⟩ := toLast_rep ih.1 hs
    exact ⟨a, fun h => c.elim id fun e => e ▸ ih.2 h⟩
  | toFirst_ _ ih => obtain ⟨a, _, c⟩ := toFirst_rep_ ih.1 (Or.inl (ih.2 rfl)); exact ⟨a, fun h => c.trans (ih.2 h)⟩
  | toLast_ _ ih => obtain ⟨a, _, c⟩ := toLast_rep_ ih.1 (Or.inl (ih.2 rfl)); exact ⟨a, fun h => c.trans (ih.2 h)⟩
  | getitem _ hs hp ih =>
    obtain ⟨is, js, h1, _, _, a, b, _⟩ := getitem_rep ih.1 hs
    rw [hp] at h1; cases h1
    exact ⟨a, fun _ => b⟩

end
end Verif.Rgbd
