import Verif.Slam.MapStep
import Mathlib.Data.List.GetD
/-!
`step` and the loop of `forward`.
-/
namespace Verif.Slam
open Verif Pcs
set_option linter.unusedSectionVars false
set_option linter.unusedSimpArgs false

section
variable {α : Type*} [Field α] [LinearOrder α] [IsStrictOrderedRing α] [FloorRing α]

/-- How one frame `i` (with its final poses) changes the map `a` into `a'`. -/
def MapChange (S : Sys α) (i : Rgbd.In α) (a a' : Clouds α) : Prop :=
  match S.mapper with
  | .aggregate => a' = Fusion.specGrow a (addition S i)
  | .fusion d t => match a .points with
    | none => a' = Fusion.newArg S.al (view S i) (view S i).valid
    | some P => ∃ T P' rows, i.poses = some T ∧ FusionStep S d t i T a a' P P' rows

/-- Side conditions of the fusion map update: positive weights, and indices that fit in float32. -/
def MapCond (S : Sys α) (i : Rgbd.In α) (a : Clouds α) : Prop :=
  S.mapper = .aggregate ∨ ((∀ p, 0 < S.al p) ∧ ∀ P, a .points = some P → Fusion.SmallIdx P (view S i))

theorem pixels_le (H W : Nat) (m : Nat → Nat → Nat → Bool) : (Fusion.pixels 1 H W m).length ≤ H * W := by
  have h1 : (Fusion.pixels 1 H W m).toFinset ⊆ ({0} : Finset Nat) ×ˢ (Finset.range H ×ˢ Finset.range W) := by
    intro x hx
    obtain ⟨l, h, w⟩ := x
    have := ((Fusion.pixels_spec 1 H W m).1 l h w).1 (List.mem_toFinset.1 hx)
    simp only [Finset.mem_product, Finset.mem_singleton, Finset.mem_range]
    omega
  have h2 := Finset.card_le_card h1
  rw [List.toFinset_card_of_nodup (Fusion.pixels_nodup 1 H W m)] at h2
  simpa using h2

theorem sizeAt_catL {l m : List (T2 α)} (h : l.length = m.length) (b : Nat) :
    Fusion.sizeAt (catL l m) b = Fusion.sizeAt l b + Fusion.sizeAt m b := by
  refine eq_of_forall_lt_iff fun n => ?_
  rw [← Fusion.sizeAt_isSome, Fusion.rowAt_catL h]
  split_ifs with hn
  · rw [Fusion.sizeAt_isSome]; omega
  · rw [Fusion.sizeAt_isSome]; omega

theorem sizeAt_big {l : List (T2 α)} {b : Nat} (h : l.length ≤ b) : Fusion.sizeAt l b = 0 := by
  rw [Fusion.sizeAt, List.getD_eq_default _ _ h]; rfl

theorem sizeAt_picked (fr : Fusion.Frame α) (m f) {b : Nat} (hb : b < fr.B) :
    Fusion.sizeAt (Fusion.picked fr m f) b = (Fusion.pixels fr.L fr.H fr.W (m b)).length := by
  rw [Fusion.sizeAt_eq (by rw [Fusion.picked_length]; exact hb)]
  simp [Fusion.picked]

/-- What happens to the size of each cloud. -/
theorem change_size {S : Sys α} {i : Rgbd.In α} (hL : i.L = 1) {a a' : Clouds α} (h : MapChange S i a a') (hs : MapShape S.mapper i.B a)
    (hs' : MapShape S.mapper i.B a') {n : Nat} (hn : SizeLe n a) : SizeLe (n + i.H * i.W) a' := by
  have hpk : ∀ (m : Nat → Nat → Nat → Nat → Bool) f b, Fusion.sizeAt (Fusion.picked (view S i) m f) b ≤ i.H * i.W := by
    intro m f b
    by_cases hb : b < (view S i).B
    · rw [sizeAt_picked _ _ _ hb]
      have : (view S i).L = 1 := hL
      rw [this]; exact pixels_le _ _ _
    · rw [sizeAt_big (by rw [Fusion.picked_length]; omega)]; omega
  intro P' hP' b
  unfold MapChange at h
  cases hm : S.mapper with
  | aggregate =>
    rw [hm] at h hs
    simp only at h
    subst h
    cases hP : a .points with
    | none =>
      rw [Fusion.specGrow, if_pos hP] at hP'
      simp only [Fusion.frameArg, Option.some.injEq] at hP'
      subst hP'
      exact (hpk _ _ _).trans (by omega)
    | some P =>
      rw [Fusion.specGrow, if_neg (by simp [hP]), specAppend_some hP rfl] at hP'
      simp only [Option.some.injEq] at hP'
      subst hP'
      rw [sizeAt_catL (by rw [Fusion.picked_length, (hs P hP).1]; rfl)]
      have := hn P hP b
      have h3 := hpk (view S i).valid (view S i).gv b
      simp only [if_true] at h3 ⊢
      omega
  | fusion d t =>
    rw [hm] at h hs hs'
    simp only at h
    cases hP : a .points with
    | none =>
      rw [hP] at h; simp only at h
      subst h
      simp only [Fusion.newArg, Option.some.injEq] at hP'
      subst hP'
      exact (hpk _ _ _).trans (by omega)
    | some P =>
      rw [hP] at h; simp only at h
      obtain ⟨T, P2, rows, _, f⟩ := h
      have h2 := f.new
      rw [hP'] at h2
      cases h2
      by_cases hb : b < i.B
      · rw [f.size b hb]
        have := hn P hP b
        have := pixels_le i.H i.W (Fusion.newMask (view S i) rows b)
        omega
      · rw [sizeAt_big (by rw [(hs' P' hP').1]; omega)]; omega

/-- What `_map` with `inplace=False` leaves of the caller's map `a`, when `a'` is the result. -/
def Leftover (S : Sys α) (a a' a'' : Clouds α) : Prop :=
  (S.mapper = .aggregate ∨ a .points = none → a'' = a) ∧ ∀ P, a .points = some P → Truncated P a' a''

/-- `_map` of either class. -/
theorem map_step {S : Sys α} {pc : PC α} {a : Clouds α} {live : Rgbd.Obj α} {i : Rgbd.In α} {T : Nat → Nat → M4 α} (hl : LiveOk S live i)
    (hT : i.poses = some T) (hm : MapOk S.mapper i.B pc a) (hc : MapCond S i a) :
    ∃ a', MapChange S i a a' ∧ a' .points ≠ none ∧ ∀ inplace, ∃ res pc' live', mapStep S pc live inplace = (.ok res, pc', live') ∧
      MapOk S.mapper i.B res a' ∧ LiveOk S live' i ∧ Rgbd.Same live live' ∧ (inplace = true → pc' = res) ∧
      (inplace = false → ∃ a'', Inv pc' a'' ∧ Leftover S a a' a'') := by
  cases hM : S.mapper with
  | aggregate =>
    refine ⟨Fusion.specGrow a (addition S i), ?_, grow_points rfl, fun inplace => ?_⟩
    · unfold MapChange; rw [hM]
    · obtain ⟨res, pc', live', e, m, r, s, t, f⟩ := map_aggregate hM hl.rep hl.L hl.B hl.H hl.W hm inplace
      refine ⟨res, pc', live', e, hM ▸ m, ⟨r, by rw [s.cf]; exact hl.cf, hl.L, hl.B, hl.H, hl.W⟩, s, t,
        fun h => ⟨a, f h, fun _ => rfl, fun P hP X l' hl' => ?_⟩⟩
      have hsh : MapShape (.aggregate : Mapper α) i.B a := hM ▸ hm.shape
      have hw := Fusion.wf_of_inv hm.inv hP
      have ha : Compatible a (addition S i) := compatible_addition hsh (by simp [hP])
      rw [Fusion.specGrow, if_neg (by simp [hP])] at hl'
      cases hX : a X with
      | none => simp [specAppend, hX] at hl'
      | some l =>
        cases hY : addition S i X with
        | none => simp [specAppend, hX, hY] at hl'
        | some q =>
          have hq : q.length = i.B := by
            cases X <;> simp only [Fusion.frameArg, Option.some.injEq, reduceCtorEq] at hY <;> subst hY <;> simp [Fusion.picked, Fusion.Frame.ofIn]
          rw [specAppend_some hX hY] at hl'
          cases hl'
          refine ⟨l, rfl, fun b n => ?_⟩
          have hll : l.length = q.length := by rw [hw.length hX, (hsh P hP).1, hq]
          rw [Fusion.rowAt_catL hll, Fusion.sizeAt_sizes (hw.rows _ _ hX)]
          split_ifs with h
          · rfl
          · have := Fusion.sizeAt_isSome (P := l) (b := b) (n := n)
            rw [Fusion.sizeAt_sizes (hw.rows _ _ hX)] at this
            cases hr : Fusion.rowAt l b n with
            | none => rfl
            | some r => exact absurd (this.1 (by simp [hr])) h
  | fusion d t =>
    rcases hc with hc | ⟨hal, hs⟩
    · rw [hM] at hc; cases hc
    cases hP : a .points with
    | none =>
      refine ⟨Fusion.newArg S.al (view S i) (view S i).valid, ?_, by simp [Fusion.newArg], fun inplace => ?_⟩
      · unfold MapChange; rw [hM]; simp only [hP]
      · obtain ⟨res, pc', live', e, m, r, s, t', f⟩ := map_fusion_empty hM hal hl hm hP inplace
        exact ⟨res, pc', live', e, hM ▸ m, r, s, t', fun h => ⟨a, f h, fun _ => rfl, fun P hP' => by rw [hP] at hP'; cases hP'⟩⟩
    | some P =>
      obtain ⟨a', P', rows, f, hall⟩ := map_fusion hM hal hl hT hm hP (hs P hP)
      refine ⟨a', ?_, by rw [f.new]; simp, fun inplace => ?_⟩
      · unfold MapChange; rw [hM]; simp only [hP]
        exact ⟨T, P', rows, hT, f⟩
      · obtain ⟨res, pc', live', e, m, r, s, t', g⟩ := hall inplace
        refine ⟨res, pc', live', e, hM ▸ m, r, s, t', fun h => ?_⟩
        obtain ⟨a'', h1, h2, _⟩ := g h
        refine ⟨a'', h1, fun h => ?_, fun P2 hP2 => by rw [hP] at hP2; cases hP2; exact h2⟩
        rcases h with h | h
        · rw [hM] at h; cases h
        · rw [hP] at h; cases h

/-- The inputs of a frame with its poses replaced. -/
def posed (i : Rgbd.In α) (T : Rgbd.TM α) : Rgbd.In α := { i with poses := some T.at' }

/-- `step` once `_localize` has returned `T`: the result does not depend on `inplace`. -/
theorem step_spec {S : Sys α} {pc pc1 : PC α} {a : Clouds α} {live live1 : Rgbd.Obj α} {prev : Option (Rgbd.Obj α)} {T : Rgbd.TM α}
    {i : Rgbd.In α} (hloc : localize S pc live prev = (.ok T, pc1, live1)) (hl : LiveOk S live1 i) (h0 : T.d0 = i.B) (h1 : T.d1 = 1)
    (hm : MapOk S.mapper i.B pc1 a) (hc : MapCond S (posed i T) a) :
    ∃ a', MapChange S (posed i T) a a' ∧ a' .points ≠ none ∧ ∀ inplace, ∃ res pc' live',
      step S pc live prev inplace = (.ok (res, T), pc', live') ∧ MapOk S.mapper i.B res a' ∧
      LiveOk S live' (posed i T) ∧ live'.poses = some T ∧ (inplace = true → pc' = res) ∧
      (inplace = false → ∃ a'', Inv pc' a'' ∧ Leftover S a a' a'') := by
  obtain ⟨l2, e2, ok2, p2, _⟩ := setPoses_ok hl h0 h1
  obtain ⟨a', c3, n3, hall⟩ := map_step (T := T.at') ok2 rfl hm hc
  refine ⟨a', c3, n3, fun inplace => ?_⟩
  obtain ⟨res, pc', live', e3, m3, ok3, s3, t3, f3⟩ := hall inplace
  refine ⟨res, pc', live', ?_, m3, ok3, s3.poses.trans p2, t3, f3⟩
  simp only [step, hloc, e2, e3]

theorem step_error {S : Sys α} {pc pc1 : PC α} {live live1 : Rgbd.Obj α} {prev : Option (Rgbd.Obj α)} {e : Err}
    (hloc : localize S pc live prev = (.error e, pc1, live1)) (inplace : Bool) :
    step S pc live prev inplace = (.error e, pc1, live1) := by simp only [step, hloc]

/-! ### Frames of the sequence -/

/-- The inputs of `frames[:, t]` (`Rgbd.In.sel`: all batch elements, time `t`). -/
def snap (i : Rgbd.In α) (t : Nat) : Rgbd.In α := i.sel (List.range i.B) [t]

theorem range_getD {n b : Nat} (h : b < n) : (List.range n).getD b 0 = b := by
  rw [List.getD_eq_getElem _ _ (by simpa using h)]; simp

theorem snap_spec (i : Rgbd.In α) (t : Nat) : (snap i t).B = i.B ∧ (snap i t).L = 1 ∧ (snap i t).H = i.H ∧ (snap i t).W = i.W ∧
    ∀ b < i.B, (snap i t).rgb b 0 = i.rgb b t ∧ (snap i t).depth b 0 = i.depth b t ∧ (snap i t).K b = i.K b ∧
      (snap i t).pix b 0 = i.pix b t ∧ ∀ P, i.poses = some P → ∃ P', (snap i t).poses = some P' ∧ P' b 0 = P b t := by
  refine ⟨by simp [snap, Rgbd.In.sel], rfl, rfl, rfl, fun b hb => ?_⟩
  have h := range_getD hb
  refine ⟨by simp [snap, Rgbd.In.sel, hb], by simp [snap, Rgbd.In.sel, hb], by simp [snap, Rgbd.In.sel, hb],
    by simp [snap, Rgbd.In.sel, hb], fun P hP => ⟨_, by simp only [snap, Rgbd.In.sel, hP, Option.map_some]; rfl, by simp [hb]⟩⟩

/-- A sequence a user can pass to `forward`. -/
structure SeqOk (S : Sys α) (frames : Rgbd.Obj α) (i : Rgbd.In α) : Prop where
  rep : Rgbd.Rep S.nrm S.eps frames i
  cf : frames.cf = true → S.mapper = .aggregate ∧ S.odom.isGt = true
  B : 0 < i.B
  H : 2 ≤ i.H
  W : 2 ≤ i.W

theorem frameAt_ok {S : Sys α} {frames : Rgbd.Obj α} {i : Rgbd.In α} (h : SeqOk S frames i) {t : Nat} (ht : t < i.L) :
    ∃ o, frameAt frames t = .ok o ∧ LiveOk S o (snap i t) ∧ o.poses = frames.poses.map (Rgbd.TM.sel (List.range i.B) [t]) := by
  obtain ⟨o, ho, r, _, hcf, _, _, _, hp⟩ := Rgbd.selected_rep (is := List.range i.B) (js := [t]) h.rep (by have := h.B; simp; omega) (by simp)
  have hall : Rgbd.resolve i.B (.slice none none none) = .ok (List.range i.B) := (Rgbd.index_positions i.B).2.2.1
  have hone : Rgbd.resolve i.L (.int ((t : Nat) : Int)) = .ok [t] := (Rgbd.index_positions i.L).1 t ht
  have e : Rgbd.getitem (.tup [.slice none none none, .int t]) frames = .ok o := by
    simp [Rgbd.getitem, Rgbd.twoIx, h.rep.hB, h.rep.hL, hall, hone, Rgbd.bothLists, ho]
  refine ⟨o, by simp only [frameAt, e], ⟨r, by rw [hcf]; exact h.cf, rfl, ?_, h.H, h.W⟩, hp⟩
  simpa [snap, Rgbd.In.sel] using h.B

/-- The poses the live frame comes with. -/
def given (frames : Rgbd.Obj α) (i : Rgbd.In α) (t : Nat) : Option (Rgbd.TM α) :=
  match frames.poses with
  | some P => some (P.sel (List.range i.B) [t])
  | none => if t = 0 then some (eyes i.B) else none

theorem given_some {frames : Rgbd.Obj α} {i : Rgbd.In α} {t : Nat} {T : Rgbd.TM α} (h : given frames i t = some T) :
    T.d0 = i.B ∧ T.d1 = 1 ∧ ∀ b < i.B, T.at' b 0 = match frames.poses with | some P => P.at' b t | none => M4.one := by
  unfold given at h
  cases hp : frames.poses with
  | some P =>
    rw [hp] at h
    simp only [Option.some.injEq] at h
    subst h
    exact ⟨by simp [Rgbd.TM.sel], rfl, fun b hb => by simp [Rgbd.TM.sel, hb]⟩
  | none =>
    rw [hp] at h
    by_cases ht : t = 0
    · simp only [ht, if_true, Option.some.injEq] at h
      subst h
      exact ⟨rfl, rfl, fun b _ => rfl⟩
    · simp [ht] at h

theorem liveFrame_ok {S : Sys α} {frames : Rgbd.Obj α} {i : Rgbd.In α} (h : SeqOk S frames i) {t : Nat} (ht : t < i.L) :
    ∃ o, liveFrame frames t = .ok o ∧ LiveOk S o { snap i t with poses := (given frames i t).map Rgbd.TM.at' } ∧ o.poses = given frames i t := by
  obtain ⟨o, e, ok, hp⟩ := frameAt_ok h ht
  cases hf : frames.poses with
  | some P =>
    rw [hf, Option.map_some] at hp
    refine ⟨o, by simp [liveFrame, e, hp], ?_, by rw [hp]; simp [given, hf]⟩
    have : { snap i t with poses := (given frames i t).map Rgbd.TM.at' } = snap i t := by
      have := rep_poses ok.rep hp
      rw [given, hf]
      simp only [Option.map_some]
      rw [← this]
    rw [this]; exact ok
  | none =>
    rw [hf, Option.map_none] at hp
    by_cases h0 : t = 0
    · obtain ⟨o', e', ok', hp', _⟩ := setPoses_ok (P := eyes i.B) ok (by simp [snap, Rgbd.In.sel, eyes]) rfl
      refine ⟨o', ?_, ?_, by rw [hp']; simp [given, hf, h0]⟩
      · subst h0
        simp only [liveFrame, e, hp, and_self, if_true, h.rep.hB, e']
      · simpa [given, hf, h0] using ok'
    · refine ⟨o, by simp [liveFrame, e, h0], ?_, by rw [hp]; simp [given, hf, h0]⟩
      have : { snap i t with poses := (given frames i t).map Rgbd.TM.at' } = snap i t := by
        have := Rgbd.poses_none ok.rep hp
        simp only [given, hf, h0, if_false, Option.map_none]
        rw [← this]
      rw [this]; exact ok

end
end Verif.Slam
