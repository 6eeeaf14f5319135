import Verif.Slam.SmoothMatch
import Verif.Slam.Batch
/-!
C78: mapping is differentiable.  This file: one map update, for both classes.
-/
namespace Verif.Slam
open Verif Pcs Topology Filter
open Verif.Icp (Sm SmV SmM3 SmM4)
set_option linter.unusedSectionVars false

variable {E : Type*} [NormedAddCommGroup E] [NormedSpace ℝ E] {k : WithTop ℕ∞} {x0 : E}

section
variable {S : Sys ℝ} {d t : ℝ} {i : E → Rgbd.In ℝ} {T : E → Rgbd.TM ℝ} {a a' : E → Clouds ℝ}

/-! ### Entries from vectors -/

theorem entry_none {l : Option (List (T2 ℝ))} {b n : Nat} (h : Fusion.sizeAt (l.getD []) b ≤ n) (c : Nat) : entry l b n c = 0 := by
  have : Fusion.rowAt (l.getD []) b n = none := by
    rw [← Option.not_isSome_iff_eq_none, Fusion.sizeAt_isSome]; omega
  simp [entry, this]

theorem entry_beyond {c : Clouds ℝ} {P : List (T2 ℝ)} (hw : Wf c P) {X : Attr} (hX : X ≠ .features) (b n : Nat) {j : Nat} (hj : 3 ≤ j) : entry (c X) b n j = 0 := by
  cases hl : c X with
  | none => simp [entry, Fusion.rowAt]
  | some l =>
    cases hr : Fusion.rowAt l b n with
    | none => simp [entry, hr]
    | some row =>
      obtain ⟨C, hC, h3⟩ := hw.cols X l hl
      have := Fusion.valid_row (hw.valid X l hl) hC hr
      rw [h3 hX] at this
      simp only [entry, Option.getD_some, hr]
      rw [List.getD_eq_default _ _ (by omega)]

theorem entries_of_vec {X : Attr} (hX : X ≠ .features) {b n : Nat} {v : E → V3 ℝ} (hv : SmV k x0 v)
    (h : ∀ᶠ e in 𝓝 x0, ∃ P l, Wf (a' e) P ∧ a' e X = some l ∧ Fusion.vecAt l b n = some (v e)) (c : Nat) : Sm k x0 fun e => entry (a' e X) b n c := by
  have hvec : ∀ᶠ e in 𝓝 x0, vec (a' e X) b n = v e := h.mono fun e ⟨P, l, w, hl, hvl⟩ => by
    have := vec_some w hX hl (vecAt_size hvl)
    rw [hvl] at this
    exact (Option.some.inj this).symm
  match c with
  | 0 => exact hv.x.congr (hvec.mono fun e he => congrArg V3.x he)
  | 1 => exact hv.y.congr (hvec.mono fun e he => congrArg V3.y he)
  | 2 => exact hv.z.congr (hvec.mono fun e he => congrArg V3.z he)
  | c + 3 => exact (Sm.const 0).congr (h.mono fun e ⟨P, l, w, _⟩ => entry_beyond w hX b n (by omega))

theorem entries_of_row {b n : Nat} {v : E → ℝ} (hv : Sm k x0 v) (h : ∀ᶠ e in 𝓝 x0, ∃ l, a' e .features = some l ∧ Fusion.rowAt l b n = some [v e]) (c : Nat) :
    Sm k x0 fun e => entry (a' e .features) b n c := by
  match c with
  | 0 => exact hv.congr (h.mono fun e ⟨l, hl, hr⟩ => by simp [entry, hl, hr])
  | c + 1 => exact (Sm.const 0).congr (h.mono fun e ⟨l, hl, hr⟩ => by simp [entry, hl, hr])

/-- An attribute that has `N b` old rows and then a row for each of the pixels `px b`. -/
structure GrowsTo (x0 : E) (B : Nat) (N : Nat → Nat) (px : Nat → List (Nat × Nat × Nat)) (a' : E → Clouds ℝ) : Prop where
  wf : ∀ᶠ e in 𝓝 x0, ∃ P', Wf (a' e) P' ∧ P'.length = B ∧ ∀ b < B, Fusion.sizeAt P' b = N b + (px b).length

theorem GrowsTo.size {B : Nat} {N : Nat → Nat} {px : Nat → List (Nat × Nat × Nat)} (h : GrowsTo x0 B N px a') (X : Attr) :
    ∀ᶠ e in 𝓝 x0, ∀ b, (b < B → (a' e X).isSome → Fusion.sizeAt ((a' e X).getD []) b = N b + (px b).length) ∧
      (¬ (b < B ∧ (a' e X).isSome) → Fusion.sizeAt ((a' e X).getD []) b = 0) := by
  filter_upwards [h.wf] with e ⟨P', w, hB, hs⟩ b
  cases hl : a' e X with
  | none => simp [Fusion.sizeAt]
  | some l =>
    simp only [Option.isSome_some, Option.getD_some]
    refine ⟨fun hb _ => ?_, fun hb => ?_⟩
    · rw [Fusion.sizeAt_sizes (w.rows X l hl)]; exact hs b hb
    · exact sizeAt_big (by rw [w.length hl]; have : ¬ b < B := fun h => hb ⟨h, trivial⟩; omega)

theorem smMap_of {B : Nat} {N : Nat → Nat} {px : Nat → List (Nat × Nat × Nat)} (h : GrowsTo x0 B N px a')
    (hsome : ∀ X, ∀ᶠ e in 𝓝 x0, (a' e X).isSome = (a' x0 X).isSome)
    (hent : ∀ X, (a' x0 X).isSome → ∀ b < B, ∀ n < N b + (px b).length, ∀ c, Sm k x0 fun e => entry (a' e X) b n c) : SmMap k x0 a' := by
  refine ⟨hsome, fun X b => ?_, fun X b n c => ?_⟩
  · have h0 := (h.size X).self_of_nhds b
    filter_upwards [h.size X, hsome X] with e he hs
    by_cases hb : b < B ∧ (a' x0 X).isSome
    · rw [(he b).1 hb.1 (by rw [hs]; exact hb.2), h0.1 hb.1 hb.2]
    · rw [(he b).2 (by rw [hs]; exact hb), h0.2 hb]
  · by_cases hb : b < B ∧ (a' x0 X).isSome ∧ n < N b + (px b).length
    · exact hent X hb.2.1 b hb.1 n hb.2.2 c
    · refine (Sm.const 0).congr ?_
      filter_upwards [h.size X, hsome X] with e he hs
      refine entry_none ?_ c
      by_cases hb' : b < B ∧ (a' x0 X).isSome
      · rw [(he b).1 hb'.1 (by rw [hs]; exact hb'.2)]
        by_contra hlt; exact hb ⟨hb'.1, hb'.2, by omega⟩
      · rw [(he b).2 (by rw [hs]; exact hb')]; omega

/-! ### The same pixels are merged into the same points -/

theorem preferred_const (hi : SmIn k x0 S.eps i) (hL : 0 < (i x0).L) (hT : SmPose k x0 (i x0).B T) (ha : SmMap k x0 a) (hm : MapNear x0 (i x0).B a)
    (hn : S.nrm = Rgbd.nrmR) (hc : CalmFuse Rgbd.nrmR S.eps d t x0 (fun e => posed (i e) (T e)) (fun e => (T e).at') a) :
    ∀ᶠ e in 𝓝 x0, ∀ r s, Fusion.Candidate Rgbd.nrmR ((a x0 .points).getD []) ((a x0 .normals).getD []) (view S (posed (i x0) (T x0))) (T x0).at' d t r →
      Fusion.Candidate Rgbd.nrmR ((a x0 .points).getD []) ((a x0 .normals).getD []) (view S (posed (i x0) (T x0))) (T x0).at' d t s →
      s.b = r.b ∧ s.h = r.h ∧ s.w = r.w →
      (Fusion.Preferred ((a e .points).getD []) ((a e .features).getD []) (view S (posed (i e) (T e))) r s ↔
        Fusion.Preferred ((a x0 .points).getD []) ((a x0 .features).getD []) (view S (posed (i x0) (T x0))) r s) := by
  have key : ∀ b < (i x0).B, ∀ n < Fusion.sizeAt ((a x0 .points).getD []) b, ∀ m < Fusion.sizeAt ((a x0 .points).getD []) b, ∀ h < (i x0).H, ∀ w < (i x0).W,
      ∀ᶠ e in 𝓝 x0, Fusion.Candidate Rgbd.nrmR ((a x0 .points).getD []) ((a x0 .normals).getD []) (view S (posed (i x0) (T x0))) (T x0).at' d t ⟨b, n, h, w⟩ →
      Fusion.Candidate Rgbd.nrmR ((a x0 .points).getD []) ((a x0 .normals).getD []) (view S (posed (i x0) (T x0))) (T x0).at' d t ⟨b, m, h, w⟩ →
      (Fusion.Preferred ((a e .points).getD []) ((a e .features).getD []) (view S (posed (i e) (T e))) ⟨b, n, h, w⟩ ⟨b, m, h, w⟩ ↔
        Fusion.Preferred ((a x0 .points).getD []) ((a x0 .features).getD []) (view S (posed (i x0) (T x0))) ⟨b, n, h, w⟩ ⟨b, m, h, w⟩) := by
    intro b hb n hnn m hmm h hh w hw
    by_cases hr : Fusion.Candidate Rgbd.nrmR ((a x0 .points).getD []) ((a x0 .normals).getD []) (view S (posed (i x0) (T x0))) (T x0).at' d t ⟨b, n, h, w⟩
    swap
    · exact Eventually.of_forall fun e h1 => absurd h1 hr
    by_cases hs : Fusion.Candidate Rgbd.nrmR ((a x0 .points).getD []) ((a x0 .normals).getD []) (view S (posed (i x0) (T x0))) (T x0).at' d t ⟨b, m, h, w⟩
    swap
    · exact Eventually.of_forall fun e _ h1 => absurd h1 hs
    have hcc : ∀ e b n, Fusion.conf ((a e .features).getD []) b n = entry (a e .features) b n 0 := fun e b n => rfl
    have hray : ∀ n < Fusion.sizeAt ((a x0 .points).getD []) b, ∀ᶠ e in 𝓝 x0, Fusion.rayDist ((a e .points).getD []) (view S (posed (i e) (T e))) ⟨b, n, h, w⟩ =
        ((vec (a e .points) b n).sub (Rgbd.gvertexAt S.eps (posed (i e) (T e)) b 0 h w)).normSq := by
      intro n hnn
      filter_upwards [hm.wf, ha.size .points b] with e ⟨P, Nn, wf, _, _⟩ hs
      have : Fusion.vecAt ((a e .points).getD []) b n = some (vec (a e .points) b n) := by
        rw [wf.pts, Option.getD_some, vec_some wf (by simp) wf.pts, wf.pts]
        rw [wf.pts, Option.getD_some] at hs; rw [hs]; exact hnn
      simp only [Fusion.rayDist, this, Option.getD_some]; rfl
    have hsm : ∀ n, Sm k x0 fun e => ((vec (a e .points) b n).sub (Rgbd.gvertexAt S.eps (posed (i e) (T e)) b 0 h w)).normSq :=
      fun n => ((vec_smooth ha .points b n).sub (gvertex_smooth hi hT hb hL hh hw)).normSq
    suffices hst : Stable x0 fun e => Fusion.Preferred ((a e .points).getD []) ((a e .features).getD []) (view S (posed (i e) (T e))) ⟨b, n, h, w⟩ ⟨b, m, h, w⟩ from
      hst.iff.mono fun e he _ _ => he
    by_cases hnm : m = n
    · subst hnm
      exact .inl (Eventually.of_forall fun e => .inr ⟨rfl, .inr ⟨rfl, le_rfl⟩⟩)
    have hc1 := (ha.entries .features b n 0).continuousAt
    have hc2 := (ha.entries .features b m 0).continuousAt
    rw [view, hn] at hr hs
    rcases hc.tie ⟨b, n, h, w⟩ ⟨b, m, h, w⟩ hr hs ⟨rfl, rfl, rfl⟩ hnm with hne | ⟨heq, hne⟩
    · refine (stable_lt hc2 hc1 (Ne.symm hne)).congr ?_
      filter_upwards [(hc1.ne_iff_eventually_ne hc2).1 hne] with e he
      unfold Fusion.Preferred
      constructor
      · rintro (h1 | ⟨h1, _⟩)
        · exact h1
        · exact absurd h1 he
      · intro h1; exact .inl h1
    · have q1 := (hsm n).continuousAt
      have q2 := (hsm m).continuousAt
      refine (stable_lt q1 q2 hne).congr ?_
      filter_upwards [(q1.ne_iff_eventually_ne q2).1 hne, heq, hray n hnn, hray m hmm] with e he heq r1 r2
      unfold Fusion.Preferred
      rw [r1, r2]
      constructor
      · rintro (h1 | ⟨_, h1 | ⟨h1, _⟩⟩)
        · exact absurd heq (ne_of_gt h1)
        · exact h1
        · exact absurd h1 he
      · intro h1; exact .inr ⟨heq, .inl h1⟩
  have key' := ev_lt fun b hb => ev_lt fun n hn => ev_lt fun m hm => ev_lt fun h hh => ev_lt fun w hw => key b hb n hn m hm h hh w hw
  obtain ⟨P, Nn, w, hP, hN⟩ := hm.wf.self_of_nhds
  have hin : ∀ r : Fusion.Row, Fusion.Candidate Rgbd.nrmR ((a x0 .points).getD []) ((a x0 .normals).getD []) (view S (posed (i x0) (T x0))) (T x0).at' d t r →
        r.b < (i x0).B ∧ r.n < Fusion.sizeAt ((a x0 .points).getD []) r.b ∧ r.h < (i x0).H ∧ r.w < (i x0).W := by
    intro r hr
    obtain ⟨p, hp, _⟩ := hr.visible
    have hlt := vecAt_size hp
    have hb : r.b < (i x0).B := by
      by_contra hb
      rw [w.pts, Option.getD_some, sizeAt_big (by omega)] at hlt
      omega
    exact ⟨hb, hlt, hr.pix.1, hr.pix.2⟩
  filter_upwards [key'] with e he r s hr hs ⟨e1, e2, e3⟩
  obtain ⟨q1, q2, q3, q4⟩ := hin r hr
  obtain ⟨_, p2, _, _⟩ := hin s hs
  obtain ⟨rb, rn, rh, rw'⟩ := r
  obtain ⟨sb, sn, sh, sw⟩ := s
  simp only at e1 e2 e3 q1 q2 q3 q4 p2
  subst e1 e2 e3
  exact he sb q1 rn q2 sn p2 sh q3 sw q4 hr hs

/-- The abstract fusion steps near `x0`. -/
def StepsNear (x0 : E) (S : Sys ℝ) (d t : ℝ) (i : E → Rgbd.In ℝ) (T : E → Rgbd.TM ℝ) (a a' : E → Clouds ℝ) (rows : E → List Fusion.Row) : Prop :=
  ∀ᶠ e in 𝓝 x0, ∃ P P', FusionStep S d t (posed (i e) (T e)) (T e).at' (a e) (a' e) P P' (rows e)

theorem rows_const (hi : SmIn k x0 S.eps i) (hL : 0 < (i x0).L) (hH : 2 ≤ (i x0).H) (hW : 2 ≤ (i x0).W) (hT : SmPose k x0 (i x0).B T) (ha : SmMap k x0 a)
    (hm : MapNear x0 (i x0).B a) (hn : S.nrm = Rgbd.nrmR) (ht : 0 ≤ t)
    (hc : CalmFuse Rgbd.nrmR S.eps d t x0 (fun e => posed (i e) (T e)) (fun e => (T e).at') a) {rows : E → List Fusion.Row} (hs : StepsNear x0 S d t i T a a' rows) :
    ∀ᶠ e in 𝓝 x0, ∀ r, r ∈ rows e ↔ r ∈ rows x0 := by
  have key : ∀ e, (∃ P P', FusionStep S d t (posed (i e) (T e)) (T e).at' (a e) (a' e) P P' (rows e)) → ∀ r, r ∈ rows e ↔
      Fusion.Candidate Rgbd.nrmR ((a e .points).getD []) ((a e .normals).getD []) (view S (posed (i e) (T e))) (T e).at' d t r ∧
      ∀ s, Fusion.Candidate Rgbd.nrmR ((a e .points).getD []) ((a e .normals).getD []) (view S (posed (i e) (T e))) (T e).at' d t s → s.b = r.b ∧ s.h = r.h ∧ s.w = r.w →
        Fusion.Preferred ((a e .points).getD []) ((a e .features).getD []) (view S (posed (i e) (T e))) r s := by
    rintro e ⟨P, P', f⟩ r
    obtain ⟨F, Nn, _, hF, hN, _⟩ := f.merged .normals (Rgbd.gnormalAt S.nrm S.eps (posed (i e) (T e))) (by simp)
    rw [table_iff f hN hF r, f.old, hN, hF, ← hn]
    rfl
  have hv : ∀ e, view S (posed (i e) (T e)) = Fusion.Frame.ofIn Rgbd.nrmR S.eps (posed (i e) (T e)) := fun e => by rw [view, hn]
  filter_upwards [candidates_const hi hL hH hW hT ha hm ht hc, preferred_const hi hL hT ha hm hn hc, hs] with e c1 p1 s1 r
  simp only [← hv] at c1
  rw [key e s1 r, key x0 hs.self_of_nhds r, c1 r]
  refine and_congr_right fun hr => forall_congr' fun s => ?_
  rw [c1 s]
  exact forall_congr' fun hs => forall_congr' fun e' => p1 r s hr hs e'

/-! ### Images near `x0` -/

/-- An image whose pixels with depth depend smoothly on the parameter. -/
def SmImg (k : WithTop ℕ∞) (x0 : E) (i : E → Rgbd.In ℝ) (img : E → Nat → Nat → Nat → Nat → V3 ℝ) : Prop :=
  ∀ b < (i x0).B, ∀ h < (i x0).H, ∀ w < (i x0).W, SmV k x0 fun e => img e b 0 h w

theorem valid_const (hi : SmIn k x0 S.eps i) (hL : 0 < (i x0).L) : ∀ᶠ e in 𝓝 x0, ∀ b < (i x0).B, ∀ h < (i x0).H, ∀ w < (i x0).W,
    (view S (posed (i e) (T e))).valid b 0 h w = (view S (posed (i x0) (T x0))).valid b 0 h w :=
  ev_lt fun b hb => ev_lt fun h hh => ev_lt fun w hw => (seen_stable hi hb hL hh hw).iff.mono fun e he => decide_eq_decide.2 he

theorem pixels_congr {H W : Nat} {m m' : Nat → Nat → Nat → Bool} (h : ∀ h < H, ∀ w < W, m 0 h w = m' 0 h w) : Fusion.pixels 1 H W m = Fusion.pixels 1 H W m' := by
  unfold Fusion.pixels
  refine List.filter_congr fun x hx => ?_
  simp only [List.mem_flatMap, List.mem_range, List.mem_map] at hx
  obtain ⟨l, hl, h', hh, w, hw, rfl⟩ := hx
  obtain rfl : l = 0 := by omega
  exact h h' hh w hw

theorem pixels_mem {H W : Nat} {m : Nat → Nat → Nat → Bool} {n : Nat} (hn : n < (Fusion.pixels 1 H W m).length) :
    ∃ h w, (Fusion.pixels 1 H W m)[n]? = some (0, h, w) ∧ h < H ∧ w < W ∧ m 0 h w = true := by
  have hg := List.getElem?_eq_getElem hn
  have hmem := List.getElem_mem hn
  rcases hx : (Fusion.pixels 1 H W m)[n] with ⟨l, h, w⟩
  rw [hx] at hg hmem
  have := ((Fusion.pixels_spec 1 H W m).1 l h w).1 hmem
  obtain rfl : l = 0 := by omega
  exact ⟨h, w, hg, this.2.1, this.2.2.1, this.2.2.2⟩

/-! ### Fusing -/

theorem wAvg_smooth {c w : E → ℝ} {p q : E → V3 ℝ} (hc : Sm k x0 c) (hw : Sm k x0 w) (hp : SmV k x0 p) (hq : SmV k x0 q) (h0 : c x0 + w x0 ≠ 0) :
    SmV k x0 fun e => Fusion.wAvg (c e) (w e) (p e) (q e) :=
  .smul ((Sm.const 1).fun_div (hc.fun_add hw) h0) ((Icp.SmV.smul hc hp).add (.smul hw hq))

/-- **C78** (one frame, `PointFusion`). -/
theorem fuse_smooth (hi : SmIn k x0 S.eps i) (hL : (i x0).L = 1) (hH : 2 ≤ (i x0).H) (hW : 2 ≤ (i x0).W) (hT : SmPose k x0 (i x0).B T) (ha : SmMap k x0 a)
    (hm : MapNear x0 (i x0).B a) (hn : S.nrm = Rgbd.nrmR) (ht : 0 ≤ t)
    (hc : CalmFuse Rgbd.nrmR S.eps d t x0 (fun e => posed (i e) (T e)) (fun e => (T e).at') a) {rows : E → List Fusion.Row} (hs : StepsNear x0 S d t i T a a' rows)
    (hal : ∀ p, 0 < S.al p) (hsal : ∀ b < (i x0).B, ∀ h < (i x0).H, ∀ w < (i x0).W, 0 < (i x0).depth b 0 h w → SmAt k S.al (Rgbd.vertexAt S.eps (i x0) b 0 h w))
    (hconf : ∀ b n, n < Fusion.sizeAt ((a x0 .features).getD []) b → 0 < entry (a x0 .features) b n 0) : SmMap k x0 a' := by
  have hL' : 0 < (i x0).L := by omega
  have hrows := rows_const hi hL' hH hW hT ha hm hn ht hc hs
  have hvalid := valid_const (S := S) (T := T) hi hL'
  obtain ⟨P0, P0', f0⟩ := hs.self_of_nhds
  have hdims : ∀ e, (posed (i e) (T e)).B = (i x0).B ∧ (posed (i e) (T e)).H = (i x0).H ∧ (posed (i e) (T e)).W = (i x0).W :=
    fun e => ⟨(hi.dims e).1, (hi.dims e).2.2.1, (hi.dims e).2.2.2⟩
  -- the appended pixels
  have hpx : ∀ᶠ e in 𝓝 x0, ∀ b < (i x0).B, Fusion.pixels 1 (posed (i e) (T e)).H (posed (i e) (T e)).W (Fusion.newMask (view S (posed (i e) (T e))) (rows e) b) =
      Fusion.pixels 1 (i x0).H (i x0).W (Fusion.newMask (view S (posed (i x0) (T x0))) (rows x0) b) := by
    filter_upwards [hrows, hvalid] with e hr hv b hb
    rw [(hdims e).2.1, (hdims e).2.2]
    refine pixels_congr fun h hh w hw => ?_
    rw [Bool.eq_iff_iff, Fusion.newMask_iff, Fusion.newMask_iff, hv b hb h hh w hw]
    simp only [hr]
  have hsP : ∀ e P P', FusionStep S d t (posed (i e) (T e)) (T e).at' (a e) (a' e) P P' (rows e) → P = (a e .points).getD [] := fun e P P' f => by rw [f.old]; rfl
  have hgrow : GrowsTo x0 (i x0).B (fun b => Fusion.sizeAt ((a x0 .points).getD []) b)
      (fun b => Fusion.pixels 1 (i x0).H (i x0).W (Fusion.newMask (view S (posed (i x0) (T x0))) (rows x0) b)) a' := by
    refine ⟨?_⟩
    filter_upwards [hs, hpx, ev_lt fun b (_ : b < (i x0).B) => ha.size .points b] with e ⟨P, P', f⟩ hp hsz
    refine ⟨P', f.wf, f.batch.trans (hdims e).1, fun b hb => ?_⟩
    rw [f.size b (by rw [(hdims e).1]; exact hb), hp b hb, hsP e P P' f, hsz b hb]
  have hsome : ∀ X, ∀ᶠ e in 𝓝 x0, (a' e X).isSome = true := by
    intro X
    filter_upwards [hs] with e ⟨P, P', f⟩
    cases X with
    | points => rw [f.new]; rfl
    | normals => obtain ⟨_, _, _, _, _, h, _⟩ := f.merged .normals (Rgbd.gnormalAt S.nrm S.eps (posed (i e) (T e))) (by simp); rw [h]; rfl
    | colors => obtain ⟨_, _, _, _, _, h, _⟩ := f.merged .colors (posed (i e) (T e)).rgb (by simp); rw [h]; rfl
    | features => obtain ⟨_, _, _, h, _⟩ := f.conf; rw [h]; rfl
  have hw : ∀ r ∈ rows x0, r.b < (i x0).B ∧ r.h < (i x0).H ∧ r.w < (i x0).W ∧ 0 < (i x0).depth r.b 0 r.h r.w := by
    intro r hr
    obtain ⟨_, h1, h2, h3⟩ := f0.inside r hr
    obtain ⟨_, Nn, _, _, hN, _⟩ := f0.merged .normals (Rgbd.gnormalAt S.nrm S.eps (posed (i x0) (T x0))) (by simp)
    have := Fusion.candidate_valid (Fusion.ofIn_zeroNormals _ _ _) ht (f0.cand Nn hN r hr)
    exact ⟨h1, h2, h3, of_decide_eq_true this⟩
  have hwt : ∀ b < (i x0).B, ∀ h < (i x0).H, ∀ w < (i x0).W, 0 < (i x0).depth b 0 h w → Sm k x0 fun e => S.al (Rgbd.vertexAt S.eps (posed (i e) (T e)) b 0 h w) :=
    fun b hb h hh w hw hd => smAt_comp (vertex_smooth hi hb hL' hh hw) (hsal b hb h hh w hw hd)
  have hF0 : ∀ b, Fusion.sizeAt ((a x0 .features).getD []) b = Fusion.sizeAt ((a x0 .points).getD []) b := by
    intro b
    obtain ⟨F, _, hF, _⟩ := f0.conf
    rw [hF, Option.getD_some, Fusion.sizeAt_sizes (f0.oldWf.rows _ _ hF), hsP x0 _ _ f0]
  -- three-column attributes
  have h3 : ∀ X, X ≠ .features → ∀ img : E → Nat → Nat → Nat → Nat → V3 ℝ, SmImg k x0 i img →
      (∀ e, (X, img e) ∈ [(Attr.points, Rgbd.gvertexAt S.eps (posed (i e) (T e))), (.normals, Rgbd.gnormalAt S.nrm S.eps (posed (i e) (T e))), (.colors, (posed (i e) (T e)).rgb)]) →
      ∀ b < (i x0).B, ∀ n < Fusion.sizeAt ((a x0 .points).getD []) b + (Fusion.pixels 1 (i x0).H (i x0).W (Fusion.newMask (view S (posed (i x0) (T x0))) (rows x0) b)).length,
      ∀ c, Sm k x0 fun e => entry (a' e X) b n c := by
    intro X hX img himg hmem b hb n hnn
    by_cases hlt : n < Fusion.sizeAt ((a x0 .points).getD []) b
    · have hold : ∀ᶠ e in 𝓝 x0, ∀ P P' l, FusionStep S d t (posed (i e) (T e)) (T e).at' (a e) (a' e) P P' (rows e) → a e X = some l →
          Fusion.vecAt l b n = some (vec (a e X) b n) := by
        filter_upwards [ha.size .points b] with e hsz P P' l f hl
        refine vec_some f.oldWf hX hl ?_
        rw [Fusion.sizeAt_sizes (f.oldWf.rows _ _ hl), hsP e P P' f, hsz]; exact hlt
      by_cases hex : ∃ r ∈ rows x0, r.b = b ∧ r.n = n
      · obtain ⟨r, hr, rfl, rfl⟩ := hex
        obtain ⟨q1, q2, q3, q4⟩ := hw r hr
        have hsm : SmV k x0 fun e => Fusion.wAvg (entry (a e .features) r.b r.n 0) (S.al (Rgbd.vertexAt S.eps (posed (i e) (T e)) r.b 0 r.h r.w)) (vec (a e X) r.b r.n)
            (img e r.b 0 r.h r.w) :=
          wAvg_smooth (ha.entries .features r.b r.n 0) (hwt r.b q1 r.h q2 r.w q3 q4) (vec_smooth ha X r.b r.n) (himg r.b q1 r.h q2 r.w q3)
            (ne_of_gt (add_pos (hconf r.b r.n (by rw [hF0]; exact hlt)) (hal _)))
        refine entries_of_vec hX hsm ?_
        filter_upwards [hs, hrows, hold] with e ⟨P, P', f⟩ hre ho
        obtain ⟨F, l, l', hF, hl, hl', m1, _⟩ := f.merged X (img e) (hmem e)
        refine ⟨P', l', f.wf, hl', ?_⟩
        rw [m1 r ((hre r).2 hr) _ (ho P P' l f hl)]
        rw [entry, hF]; rfl
      · refine entries_of_vec hX (vec_smooth ha X b n) ?_
        filter_upwards [hs, hrows, hold] with e ⟨P, P', f⟩ hre ho
        obtain ⟨F, l, l', hF, hl, hl', _, m2, _⟩ := f.merged X (img e) (hmem e)
        exact ⟨P', l', f.wf, hl', m2 b n _ (ho P P' l f hl) fun r hr hh => hex ⟨r, (hre r).1 hr, hh⟩⟩
    · obtain ⟨j, rfl⟩ := Nat.exists_eq_add_of_le (not_lt.1 hlt)
      obtain ⟨h, w, hg, hh, hww, _⟩ := pixels_mem (Nat.lt_of_add_lt_add_left hnn)
      refine entries_of_vec hX (himg b hb h hh w hww) ?_
      filter_upwards [hs, hpx, ha.size .points b] with e ⟨P, P', f⟩ hpe hsz
      obtain ⟨F, l, l', hF, hl, hl', _, _, m3⟩ := f.merged X (img e) (hmem e)
      refine ⟨P', l', f.wf, hl', ?_⟩
      rw [← hsz, ← hsP e P P' f, m3 b (by rw [(hdims e).1]; exact hb), hpe b hb, hg]; rfl
  refine smMap_of hgrow (fun X => ?_) fun X _ b hb n hnn c => ?_
  · filter_upwards [hsome X] with e he; rw [he, (hsome X).self_of_nhds]
  · cases X with
    | points => exact h3 .points (by simp) (fun e => Rgbd.gvertexAt S.eps (posed (i e) (T e))) (fun b hb h hh w hw => gvertex_smooth hi hT hb hL' hh hw) (fun e => by simp) b hb n hnn c
    | normals =>
      refine h3 .normals (by simp) (fun e => Rgbd.gnormalAt S.nrm S.eps (posed (i e) (T e))) (fun b hb h hh w hw => ?_) (fun e => by simp) b hb n hnn c
      rw [hn]; exact gnormal_smooth hi hH hW hT hb hL' hh hw
    | colors => exact h3 .colors (by simp) (fun e => (posed (i e) (T e)).rgb) (fun b hb h hh w hw => hi.rgb b hb 0 hL' h hh w hw) (fun e => by simp) b hb n hnn c
    | features =>
      by_cases hlt : n < Fusion.sizeAt ((a x0 .points).getD []) b
      · have hrow : ∀ᶠ e in 𝓝 x0, ∀ P P' F', FusionStep S d t (posed (i e) (T e)) (T e).at' (a e) (a' e) P P' (rows e) → a' e .features = some F' → (∀ t ∈ F', t.cols = 1) →
            Fusion.rowAt F' b n = some [Fusion.conf F' b n] := by
          filter_upwards [ha.size .points b] with e hsz P P' F' f hF' hc1
          have : (Fusion.rowAt F' b n).isSome := by
            rw [Fusion.sizeAt_isSome, Fusion.sizeAt_sizes (f.wf.rows _ _ hF'), f.size b (by rw [(hdims e).1]; exact hb), hsP e P P' f, hsz]; omega
          obtain ⟨row, hrow⟩ := Option.isSome_iff_exists.1 this
          exact Fusion.row_conf hrow (Fusion.valid_row (f.wf.valid _ _ hF') hc1 hrow)
        by_cases hex : ∃ r ∈ rows x0, r.b = b ∧ r.n = n
        · obtain ⟨r, hr, rfl, rfl⟩ := hex
          obtain ⟨q1, q2, q3, q4⟩ := hw r hr
          refine entries_of_row ((ha.entries .features r.b r.n 0).fun_add (hwt r.b q1 r.h q2 r.w q3 q4)) ?_ c
          filter_upwards [hs, hrows, hrow] with e ⟨P, P', f⟩ hre ho
          obtain ⟨F, F', hF, hF', hc1, m1, _⟩ := f.conf
          refine ⟨F', hF', ?_⟩
          rw [ho P P' F' f hF' hc1, m1.matched r ((hre r).2 hr), entry, hF]; rfl
        · refine entries_of_row (ha.entries .features b n 0) ?_ c
          filter_upwards [hs, hrows, hrow, ha.size .points b] with e ⟨P, P', f⟩ hre ho hsz
          obtain ⟨F, F', hF, hF', hc1, m1, _⟩ := f.conf
          refine ⟨F', hF', ?_⟩
          rw [ho P P' F' f hF' hc1, m1.kept b n (by rw [Fusion.sizeAt_isSome, Fusion.sizeAt_sizes (f.oldWf.rows _ _ hF), hsP e P P' f, hsz]; exact hlt)
            fun r hr hh => hex ⟨r, (hre r).1 hr, hh⟩, entry, hF]; rfl
      · obtain ⟨j, rfl⟩ := Nat.exists_eq_add_of_le (not_lt.1 hlt)
        obtain ⟨h, w, hg, hh, hww, hmk⟩ := pixels_mem (Nat.lt_of_add_lt_add_left hnn)
        have hd : 0 < (i x0).depth b 0 h w := by
          have := ((Fusion.newMask_iff _ _ _ _ _).1 hmk).1
          exact of_decide_eq_true this
        refine entries_of_row (hwt b hb h hh w hww hd) ?_ c
        filter_upwards [hs, hpx, ha.size .points b] with e ⟨P, P', f⟩ hpe hsz
        obtain ⟨F, F', hF, hF', hc1, _, m3, _⟩ := f.conf
        refine ⟨F', hF', ?_⟩
        rw [← hsz, ← hsP e P P' f, m3 b (by rw [(hdims e).1]; exact hb), hpe b hb, hg]; rfl

/-! ### First frames and aggregation -/

/-- The pixels with depth at `x0`. -/
noncomputable def seenPixels (i : Rgbd.In ℝ) (b : Nat) : List (Nat × Nat × Nat) := Fusion.pixels 1 i.H i.W fun _ h w => decide (0 < i.depth b 0 h w)

theorem seenPixels_const (hi : SmIn k x0 S.eps i) (hL : (i x0).L = 1) : ∀ᶠ e in 𝓝 x0, ∀ b < (i x0).B,
    Fusion.pixels (view S (posed (i e) (T e))).L (view S (posed (i e) (T e))).H (view S (posed (i e) (T e))).W ((view S (posed (i e) (T e))).valid b) = seenPixels (i x0) b := by
  filter_upwards [valid_const (S := S) (T := T) hi (by omega)] with e hv b hb
  have e1 : (view S (posed (i e) (T e))).L = 1 := ((hi.dims e).2.1).trans hL
  have e2 : (view S (posed (i e) (T e))).H = (i x0).H := (hi.dims e).2.2.1
  have e3 : (view S (posed (i e) (T e))).W = (i x0).W := (hi.dims e).2.2.2
  rw [e1, e2, e3]
  exact pixels_congr fun h hh w hw => hv b hb h hh w hw

theorem picked_near (hi : SmIn k x0 S.eps i) (hL : (i x0).L = 1) (img : E → Nat → Nat → Nat → Nat → V3 ℝ) : ∀ᶠ e in 𝓝 x0, ∀ b < (i x0).B,
    Fusion.sizeAt (Fusion.picked (view S (posed (i e) (T e))) (view S (posed (i e) (T e))).valid (img e)) b = (seenPixels (i x0) b).length ∧
    ∀ j, Fusion.vecAt (Fusion.picked (view S (posed (i e) (T e))) (view S (posed (i e) (T e))).valid (img e)) b j = (seenPixels (i x0) b)[j]?.map fun x => img e b x.1 x.2.1 x.2.2 := by
  filter_upwards [seenPixels_const (S := S) (T := T) hi hL] with e hp b hb
  have hb' : b < (view S (posed (i e) (T e))).B := by show b < (i e).B; rw [(hi.dims e).1]; exact hb
  refine ⟨?_, fun j => ?_⟩
  · rw [sizeAt_picked _ _ _ hb', hp b hb]
  · rw [Fusion.vecAt_picked hb', hp b hb]

/-- The image of an attribute of a posed frame. -/
noncomputable def image (S : Sys ℝ) (j : Rgbd.In ℝ) : Attr → Nat → Nat → Nat → Nat → V3 ℝ
  | .points => Rgbd.gvertexAt S.eps j
  | .normals => Rgbd.gnormalAt S.nrm S.eps j
  | .colors => j.rgb
  | .features => fun _ _ _ _ => V3.zero

theorem image_smooth (hi : SmIn k x0 S.eps i) (hL : (i x0).L = 1) (hH : 2 ≤ (i x0).H) (hW : 2 ≤ (i x0).W) (hT : SmPose k x0 (i x0).B T) (hn : S.nrm = Rgbd.nrmR) (X : Attr) :
    SmImg k x0 i fun e => image S (posed (i e) (T e)) X := by
  intro b hb h hh w hw
  cases X with
  | points => exact gvertex_smooth hi hT hb (by omega) hh hw
  | normals => simp only [image, hn]; exact gnormal_smooth hi hH hW hT hb (by omega) hh hw
  | colors => exact hi.rgb b hb 0 (by omega) h hh w hw
  | features => exact .const _

/-- **C78** (the first frame of `PointFusion`). -/
theorem first_smooth (hi : SmIn k x0 S.eps i) (hB : 0 < (i x0).B) (hL : (i x0).L = 1) (hH : 2 ≤ (i x0).H) (hW : 2 ≤ (i x0).W) (hT : SmPose k x0 (i x0).B T) (hn : S.nrm = Rgbd.nrmR)
    (hsal : ∀ b < (i x0).B, ∀ h < (i x0).H, ∀ w < (i x0).W, 0 < (i x0).depth b 0 h w → SmAt k S.al (Rgbd.vertexAt S.eps (i x0) b 0 h w))
    (h : ∀ᶠ e in 𝓝 x0, a' e = Fusion.newArg S.al (view S (posed (i e) (T e))) (view S (posed (i e) (T e))).valid) : SmMap k x0 a' := by
  have hBe : ∀ e, (view S (posed (i e) (T e))).B = (i x0).B := fun e => (hi.dims e).1
  have hgrow : GrowsTo x0 (i x0).B (fun _ => 0) (seenPixels (i x0)) a' := by
    refine ⟨?_⟩
    filter_upwards [h, picked_near (S := S) (T := T) hi hL fun e => Rgbd.gvertexAt S.eps (posed (i e) (T e))] with e he hp
    refine ⟨_, by rw [he]; exact Fusion.picked_wf (by rw [hBe]; exact hB) S.al _, by rw [Fusion.picked_length, hBe], fun b hb => ?_⟩
    rw [Nat.zero_add]; exact (hp b hb).1
  have hwf : ∀ᶠ e in 𝓝 x0, ∃ P, Wf (a' e) P := hgrow.wf.mono fun e ⟨P, w, _⟩ => ⟨P, w⟩
  have hsome : ∀ X, ∀ᶠ e in 𝓝 x0, (a' e X).isSome = true := fun X => h.mono fun e he => by rw [he]; exact Fusion.newArg_some _ _ _ X
  have h3 : ∀ X, X ≠ .features → ∀ b < (i x0).B, ∀ n < 0 + (seenPixels (i x0) b).length, ∀ c, Sm k x0 fun e => entry (a' e X) b n c := by
    intro X hX b hb n hnn
    rw [Nat.zero_add] at hnn
    obtain ⟨h', w, hg, hh, hw, _⟩ := pixels_mem hnn
    refine entries_of_vec hX (image_smooth hi hL hH hW hT hn X b hb h' hh w hw) ?_
    filter_upwards [h, hwf, picked_near (S := S) (T := T) hi hL fun e => image S (posed (i e) (T e)) X] with e he ⟨P, wf⟩ hp
    refine ⟨P, Fusion.picked (view S (posed (i e) (T e))) (view S (posed (i e) (T e))).valid (image S (posed (i e) (T e)) X), wf, ?_, ?_⟩
    · rw [he]; cases X <;> first | rfl | exact absurd rfl hX
    · rw [(hp b hb).2 n]
      have : (seenPixels (i x0) b)[n]? = some (0, h', w) := hg
      rw [this]; rfl
  refine smMap_of hgrow (fun X => ?_) fun X _ b hb n hnn c => ?_
  · filter_upwards [hsome X] with e he; rw [he, (hsome X).self_of_nhds]
  · by_cases hX : X = .features
    · subst hX
      rw [Nat.zero_add] at hnn
      obtain ⟨h', w, hg, hh, hw, hd⟩ := pixels_mem hnn
      have hv : Sm k x0 fun e => S.al (Rgbd.vertexAt S.eps (posed (i e) (T e)) b 0 h' w) :=
        smAt_comp (vertex_smooth hi hb (by omega) hh hw) (hsal b hb h' hh w hw (of_decide_eq_true hd))
      refine entries_of_row hv ?_ c
      filter_upwards [h, seenPixels_const (S := S) (T := T) hi hL] with e he hp
      refine ⟨_, by rw [he]; rfl, ?_⟩
      rw [Fusion.conf_pickedAl (by rw [hBe]; exact hb), hp b hb]
      have : (seenPixels (i x0) b)[n]? = some (0, h', w) := hg
      rw [this]; rfl
    · exact h3 X hX b hb n hnn c

/-- **C78** (one frame, `ICPSLAM`). -/
theorem grow_smooth (hi : SmIn k x0 S.eps i) (hB : 0 < (i x0).B) (hL : (i x0).L = 1) (hH : 2 ≤ (i x0).H) (hW : 2 ≤ (i x0).W) (hT : SmPose k x0 (i x0).B T) (hn : S.nrm = Rgbd.nrmR)
    (ha : SmMap k x0 a) (hm : ∀ᶠ e in 𝓝 x0, ∀ P, a e .points = some P → Wf (a e) P ∧ MapShape (.aggregate : Mapper ℝ) (i x0).B (a e))
    (h : ∀ᶠ e in 𝓝 x0, a' e = Fusion.specGrow (a e) (addition S (posed (i e) (T e)))) : SmMap k x0 a' := by
  have hBe : ∀ e, (view S (posed (i e) (T e))).B = (i x0).B := fun e => (hi.dims e).1
  have hargs : ∀ e X, X ≠ .features → addition S (posed (i e) (T e)) X = some (Fusion.picked (view S (posed (i e) (T e))) (view S (posed (i e) (T e))).valid (image S (posed (i e) (T e)) X)) := by
    intro e X hX; cases X <;> first | rfl | exact absurd rfl hX
  -- what each attribute becomes
  have hform : ∀ X, X ≠ .features → ∀ᶠ e in 𝓝 x0, ∃ l', a' e X = some l' ∧ l'.length = (i x0).B ∧ ∀ b < (i x0).B,
      Fusion.sizeAt l' b = Fusion.sizeAt ((a x0 .points).getD []) b + (seenPixels (i x0) b).length ∧
      (∀ n < Fusion.sizeAt ((a x0 .points).getD []) b, Fusion.vecAt l' b n = some (vec (a e X) b n)) ∧
      ∀ j, Fusion.vecAt l' b (Fusion.sizeAt ((a x0 .points).getD []) b + j) = (seenPixels (i x0) b)[j]?.map fun x => image S (posed (i e) (T e)) X b x.1 x.2.1 x.2.2 := by
    intro X hX
    filter_upwards [h, hm, picked_near (S := S) (T := T) hi hL fun e => image S (posed (i e) (T e)) X, ha.some .points, ev_lt fun b (_ : b < (i x0).B) => ha.size .points b] with e he hme hp hs hsz
    cases hP : a e .points with
    | none =>
      have h0 : a x0 .points = none := by rw [hP] at hs; simpa using hs.symm
      rw [he, Fusion.specGrow, if_pos hP, hargs e X hX]
      refine ⟨_, rfl, by rw [Fusion.picked_length, hBe], fun b hb => ?_⟩
      have hz : Fusion.sizeAt ((a x0 .points).getD []) b = 0 := by rw [h0]; rfl
      rw [hz]
      refine ⟨by rw [Nat.zero_add]; exact (hp b hb).1, fun n hn => absurd hn (by omega), fun j => by rw [Nat.zero_add]; exact (hp b hb).2 j⟩
    | some P =>
      obtain ⟨wf, hsh⟩ := hme P hP
      obtain ⟨s1, s2, s3, _⟩ := hsh P hP
      obtain ⟨l, hl⟩ : ∃ l, a e X = some l := by
        cases X with
        | points => exact ⟨P, hP⟩
        | normals => exact Option.isSome_iff_exists.1 s2
        | colors => exact Option.isSome_iff_exists.1 s3
        | features => exact absurd rfl hX
      rw [he, Fusion.specGrow, if_neg (by simp [hP]), specAppend_some hl (hargs e X hX)]
      have hlen : l.length = (Fusion.picked (view S (posed (i e) (T e))) (view S (posed (i e) (T e))).valid (image S (posed (i e) (T e)) X)).length := by
        rw [Fusion.picked_length, hBe, wf.length hl, s1]
      have hsl : ∀ b < (i x0).B, Fusion.sizeAt l b = Fusion.sizeAt ((a x0 .points).getD []) b := fun b hb => by
        rw [Fusion.sizeAt_sizes (wf.rows _ _ hl), ← hsz b hb, hP]; rfl
      refine ⟨_, rfl, by rw [catL_length hlen, wf.length hl, s1], fun b hb => ⟨?_, fun n hn => ?_, fun j => ?_⟩⟩
      · rw [sizeAt_catL hlen, hsl b hb, (hp b hb).1]
      · have h1 : n < Fusion.sizeAt l b := by rw [hsl b hb]; exact hn
        have := vec_some wf hX hl h1
        rw [← this, Fusion.vecAt, Fusion.rowAt_catL hlen, if_pos h1]; rfl
      · rw [Fusion.vecAt, Fusion.rowAt_catL hlen, if_neg (by rw [hsl b hb]; omega), hsl b hb, Nat.add_sub_cancel_left]
        exact (hp b hb).2 j
  have hfeat : ∀ᶠ e in 𝓝 x0, a' e .features = none := by
    filter_upwards [h, hm] with e he hme
    rw [he]
    cases hP : a e .points with
    | none => rw [Fusion.specGrow, if_pos hP]; rfl
    | some P =>
      rw [Fusion.specGrow, if_neg (by simp [hP])]
      exact specAppend_features_none ((hme P hP).2 P hP).2.2.2
  have hgrow : GrowsTo x0 (i x0).B (fun b => Fusion.sizeAt ((a x0 .points).getD []) b) (seenPixels (i x0)) a' := by
    refine ⟨?_⟩
    filter_upwards [h, hm, hform .points (by simp)] with e he hme ⟨l', hl', hlen, hf⟩
    refine ⟨l', ?_, hlen, fun b hb => (hf b hb).1⟩
    have hwb := Fusion.frame_wf (fr := view S (posed (i e) (T e))) (by rw [hBe]; exact hB) true (view S (posed (i e) (T e))).valid
    cases hP : a e .points with
    | none =>
      rw [he, Fusion.specGrow, if_pos hP] at hl' ⊢
      have := hwb.pts.symm.trans hl'
      cases this; exact hwb
    | some P =>
      obtain ⟨wf, hsh⟩ := hme P hP
      rw [he, Fusion.specGrow, if_neg (by simp [hP])] at hl' ⊢
      have := wf.append hwb (compatible_addition (i := posed (i e) (T e)) (by show MapShape _ (i e).B _; rw [(hi.dims e).1]; exact hsh) (by simp [hP]))
      have h2 := this.pts
      rw [hl'] at h2; cases h2
      exact this
  have hwf : ∀ᶠ e in 𝓝 x0, ∃ P, Wf (a' e) P := hgrow.wf.mono fun e ⟨P, w, _⟩ => ⟨P, w⟩
  refine smMap_of hgrow (fun X => ?_) fun X hXs b hb n hnn c => ?_
  · by_cases hX : X = .features
    · subst hX; filter_upwards [hfeat] with e he; rw [he, hfeat.self_of_nhds]
    · obtain ⟨l0, h0, _⟩ := (hform X hX).self_of_nhds
      filter_upwards [hform X hX] with e ⟨l', hl', _⟩; rw [hl', h0]; rfl
  · have hX : X ≠ .features := by rintro rfl; rw [hfeat.self_of_nhds] at hXs; cases hXs
    by_cases hlt : n < Fusion.sizeAt ((a x0 .points).getD []) b
    · refine entries_of_vec hX (vec_smooth ha X b n) ?_ c
      filter_upwards [hform X hX, hwf] with e ⟨l', hl', _, hf⟩ ⟨P, wf⟩
      exact ⟨P, l', wf, hl', (hf b hb).2.1 n hlt⟩
    · obtain ⟨j, rfl⟩ := Nat.exists_eq_add_of_le (not_lt.1 hlt)
      obtain ⟨h', w, hg, hh, hw, _⟩ := pixels_mem (Nat.lt_of_add_lt_add_left hnn)
      refine entries_of_vec hX (image_smooth hi hL hH hW hT hn X b hb h' hh w hw) ?_ c
      filter_upwards [hform X hX, hwf] with e ⟨l', hl', _, hf⟩ ⟨P, wf⟩
      refine ⟨P, l', wf, hl', ?_⟩
      rw [(hf b hb).2.2 j]
      have : (seenPixels (i x0) b)[j]? = some (0, h', w) := hg
      rw [this]; rfl

end
end Verif.Slam
