import Verif.Warn.Model
/-!
When the warnings are emitted: for a single call, in terms of what is seen; none that cannot be in whole runs.
-/
namespace Verif.Warn
open Verif Pcs Fusion Slam

section
variable {α : Type*} [Field α] [LinearOrder α] [IsStrictOrderedRing α] [FloorRing α]

/-! ### Nothing in view -/

/-- A pixel nearest to the image of a visible point. -/
theorem visible_pixel {H W : Nat} {K : M4 α} {X : V3 α} (h : Visible H W K X) :
    ∃ y x, y < H ∧ x < W ∧ Nearest (Geom.projectPoint K (.inl X)).2 y ∧ Nearest (Geom.projectPoint K (.inl X)).1 x := by
  obtain ⟨_, ⟨w1, w2⟩, ⟨h1, h2⟩⟩ := h
  have n1 := (clamp_nearest (k := clampIdx H (roundEven (Geom.projectPoint K (.inl X)).2)) h1 h2).1 rfl
  have n2 := (clamp_nearest (k := clampIdx W (roundEven (Geom.projectPoint K (.inl X)).1)) w1 w2).1 rfl
  exact ⟨_, _, nearest_lt h2 n1, nearest_lt w2 n2, n1, n2⟩

/-- Some point of the map is in front of the camera and inside its image. -/
def InView (P : List (T2 α)) (fr : Fusion.Frame α) (T : Nat → Nat → M4 α) : Prop :=
  ∃ b n p, vecAt P b n = some p ∧ Visible fr.H fr.W (fr.K b) (toCamera (T b 0) p)

/-- **"No active map points were found"** is said of a map with points exactly if none of them is in view. -/
theorem active_warns {pc : PC α} {a : Clouds α} {P : List (T2 α)} {fr : Fusion.Frame α} {T : Nat → Nat → M4 α} (hi : Inv pc a)
    (hP : a .points = some P) (hg : (pc.lst .points).isSome ∨ pc.mask.isSome ∨ equi (sizes P) = true)
    (hL : fr.L = 1) (hB : fr.B = P.length) (hT : fr.poses = some T) :
    (InView P fr T → activeWarn pc fr = []) ∧ (¬ InView P fr T → activeWarn pc fr = [.noActive]) := by
  obtain ⟨rows, pc', e, _, _, _, _, m⟩ := active_spec_partial hi hP hg hL hB hT
  have hp : (hasAttr .points pc).1 = true := by rw [(inv_obs hi).presence .points, hP]; rfl
  have key : InView P fr T ↔ rows ≠ [] := by
    constructor
    · rintro ⟨b, n, p, hv, hvis⟩ hnil
      obtain ⟨y, x, hy, hx, ny, nx⟩ := visible_pixel hvis
      have := (m ⟨b, n, y, x⟩).2 ⟨hy, hx, p, hv, hvis, ny, nx⟩
      rw [hnil] at this; cases this
    · intro h
      obtain ⟨r, hr⟩ := List.exists_mem_of_ne_nil _ h
      obtain ⟨_, _, p, hv, hvis, _⟩ := (m r).1 hr
      exact ⟨_, _, p, hv, hvis⟩
  simp only [activeWarn, e, hp, Bool.true_and, decide_eq_true_eq, List.length_eq_zero_iff]
  exact ⟨fun h => if_neg (key.1 h), fun h => if_pos (by by_contra hn; exact h (key.2 hn))⟩

/-- Nothing is said of a map without points. -/
theorem active_silent {pc : PC α} {a : Clouds α} (hi : Inv pc a) (hP : a .points = none) (fr : Fusion.Frame α) : activeWarn pc fr = [] := by
  have hp : (hasAttr .points pc).1 = false := by rw [(inv_obs hi).presence .points, hP]; rfl
  rw [activeWarn]
  cases (findActive pc fr).1 with
  | error e => rfl
  | ok rows => simp [hp]

/-! ### Nothing similar -/

theorem raw_similar {nrm : V3 α → α} {eps : α} {i : Rgbd.In α} {r : Raw α} (h : RawOf nrm eps false i r) (pc : PC α) (rows : List Row) (d t : α) :
    findSimilarRaw nrm pc r rows d t = findSimilar nrm pc (Fusion.Frame.ofIn nrm eps i) rows d t := by
  have hf : r.fits = true := by rw [Raw.fits, h.gv]; simp [Rgbd.image, Rgbd.mk5, Rgbd.dims5]
  have hB : r.B = (Fusion.Frame.ofIn nrm eps i).B := h.B
  have hL : r.L = (Fusion.Frame.ofIn nrm eps i).L := h.L
  unfold findSimilarRaw findSimilar
  simp only [hf, h.frame, hB, hL, Bool.not_true]
  rfl

/-- Row `r` of the table is similar: near enough, with a normal that agrees. -/
def Similar (nrm : V3 α → α) (P Nn : List (T2 α)) (fr : Fusion.Frame α) (d t : α) (r : Row) : Prop :=
  ∃ p m, vecAt P r.b r.n = some p ∧ vecAt Nn r.b r.n = some m ∧ nrm ((fr.gv r.b 0 r.h r.w).sub p) < d ∧ t < (fr.gn r.b 0 r.h r.w).dot m

/-- Row `r` of the table: the map point's normal has a dot product above 1.001 with the frame's. -/
def TooLong (Nn : List (T2 α)) (fr : Fusion.Frame α) (r : Row) : Prop :=
  ∃ m, vecAt Nn r.b r.n = some m ∧ 1001 / 1000 < (fr.gn r.b 0 r.h r.w).dot m

theorem dots_iff {a : Clouds α} {P Nn : List (T2 α)} (hw : Wf a P) (hn : a .normals = some Nn) {fr : Fusion.Frame α} {rows : List Row}
    (hu : UniquePts rows) (hr : RowsOk P fr rows) {N : Nat} (hN : shape3 (padL N Nn) = (P.length, N, 3)) (hN2 : N = maxL (sizes P)) :
    dotsExceed fr rows (padL N Nn) = true ↔ ∃ r ∈ rows, TooLong Nn fr r := by
  simp only [dotsExceed, hN, List.any_eq_true, List.mem_range, decide_eq_true_eq]
  constructor
  · rintro ⟨b, hb, n, hn', h⟩
    rw [scatter] at h
    cases hl : lastAt rows b n with
    | none =>
      rw [hl] at h
      simp only [V3.zero, V3.dot, zero_mul, add_zero] at h
      exact absurd h (by norm_num)
    | some r =>
      rw [hl] at h
      obtain ⟨hm, rfl, rfl⟩ := lastAt_some hl
      obtain ⟨row, hrow⟩ := Option.isSome_iff_exists.1 ((rowAt_isSome hw hn r.b r.n).trans (hr r hm).1)
      rw [cell_padL hrow] at h
      exact ⟨r, hm, toV3 row, by rw [vecAt, hrow]; rfl, h⟩
  · rintro ⟨r, hm, m, hv, h⟩
    obtain ⟨h1, _⟩ := hr r hm
    simp only [vecAt, Option.map_eq_some_iff] at hv
    obtain ⟨row, hrow, rfl⟩ := hv
    obtain ⟨l1, l2⟩ := rowAt_lt h1
    refine ⟨r.b, l1, r.n, by rw [hN2]; exact l2, ?_⟩
    rw [scatter, lastAt_mem hu hm, cell_padL hrow]
    exact h

/-- **"No similar map points were found"** is said exactly if there are active points but none of them is similar, and the number in the
message is the number of active points; it comes after the warning about dot products, which is given exactly if an active point's normal
has a dot product above 1.001 with the frame's normal at its pixel. Nothing is said if there is no active point. -/
theorem similar_warns {nrm : V3 α → α} {eps : α} {i : Rgbd.In α} {r : Raw α} (h : RawOf nrm eps false i r) {pc : PC α} {a : Clouds α}
    {P Nn : List (T2 α)} {rows : List Row} {d t : α} (hi : Inv pc a) (hP : a .points = some P) (hn : a .normals = some Nn)
    (hL : i.L = 1) (hB : i.B = P.length) (hu : UniquePts rows) (hr : RowsOk P (Fusion.Frame.ofIn nrm eps i) rows) :
    ∃ w1 w2, similarWarn nrm pc r rows d t = w1 ++ w2 ∧
      ((∃ x ∈ rows, TooLong Nn (Fusion.Frame.ofIn nrm eps i) x) → w1 = [.dots]) ∧
      ((¬ ∃ x ∈ rows, TooLong Nn (Fusion.Frame.ofIn nrm eps i) x) → w1 = []) ∧
      (rows ≠ [] → (¬ ∃ x ∈ rows, Similar nrm P Nn (Fusion.Frame.ofIn nrm eps i) d t x) → w2 = [.noSimilar rows.length]) ∧
      (rows = [] ∨ (∃ x ∈ rows, Similar nrm P Nn (Fusion.Frame.ofIn nrm eps i) d t x) → w2 = []) := by
  obtain ⟨out, mask, pc', e, _, _, _, hsub, _, hiff⟩ := similar_spec (nrm := nrm) (distTh := d) (dotTh := t) (fr := Fusion.Frame.ofIn nrm eps i)
    hi hP hn hL hB hu hr
  have hp : (hasAttr .points pc).1 = true := by rw [(inv_obs hi).presence .points, hP]; rfl
  rw [similarWarn, raw_similar h, e]
  simp only [hp, Bool.not_true, Bool.false_or, decide_eq_true_eq, List.length_eq_zero_iff]
  by_cases h0 : rows = []
  · rw [if_pos h0]
    refine ⟨[], [], rfl, ?_, fun _ => rfl, fun h1 => absurd h0 h1, fun _ => rfl⟩
    rintro ⟨x, hx, _⟩; rw [h0] at hx; cases hx
  · rw [if_neg h0]
    rcases hi with h' | ⟨P', h', hm⟩
    · rw [h'.noPoints] at hP; cases hP
    obtain rfl : P' = P := by have := h'.wf.pts; rw [hP] at this; exact (Option.some.inj this).symm
    obtain ⟨s1, e1, r1, f1, p1, _⟩ := h'.hasAttr .points
    obtain ⟨s2, e2, r2, f2, p2, _⟩ := r1.hasAttr .normals
    obtain ⟨s3, e3, r3, _, f3, _⟩ := r2.getPad .points
    obtain ⟨s4, e4, r4, _, f4, _⟩ := r3.getPad .normals
    rw [hn] at e4
    simp only [Option.map_some] at e4
    have hs := shape_pad r3 hn (h'.wf.cols3 (by simp) hn)
    have hlen : Nn.length = P'.length := h'.wf.length hn
    simp only [e1, e2, e3, e4, Option.getD_some, h.frame]
    refine ⟨_, _, rfl, ?_, ?_, ?_, ?_⟩
    · intro hx; rw [if_pos ((dots_iff h'.wf hn hu hr hs r3.hN).2 hx)]
    · intro hx; rw [if_neg (fun hd => hx ((dots_iff h'.wf hn hu hr hs r3.hN).1 hd))]
    · intro _ hx
      rw [if_pos]
      by_contra hne
      obtain ⟨x, hxo⟩ := List.exists_mem_of_ne_nil _ hne
      exact hx ⟨x, hsub.subset hxo, (hiff x (hsub.subset hxo)).1 hxo⟩
    · rintro (hx | ⟨x, hx, hsim⟩)
      · exact absurd hx h0
      · rw [if_neg]
        intro hnil
        have := (hiff x hx).2 hsim
        rw [hnil] at this; cases this
end
end Verif.Warn
