import Verif.Warn.Props
/-!
The warnings of whole runs.
-/
namespace Verif.Warn
open Verif Pcs Fusion Slam
set_option linter.unusedSectionVars false

section
variable {α : Type*} [Field α] [LinearOrder α] [IsStrictOrderedRing α] [FloorRing α]

/-! ### One call of `_map` -/

/-- What `_map` says of the frame `i` at the poses `T` and the map `a`: `ICPSLAM` nothing; `PointFusion` nothing if the map has no points;
"No active map points were found" if no map point is in view; else whether a dot product is too large, and "No similar map points were
found", with the number of points in view, if no pixel has a candidate. -/
def MapSaid (S : Sys α) (i : Rgbd.In α) (T : Rgbd.TM α) (a : Clouds α) (w : List Warn) : Prop :=
  match S.mapper, a .points with
  | .fusion d t, some P => ∃ Nn rows, a .normals = some Nn ∧ ActiveRows P i (fun b => T.at' b 0) rows ∧
      (¬ InView P (view S i) T.at' → w = [.noActive]) ∧
      (InView P (view S i) T.at' → ∃ w1 w2, w = w1 ++ w2 ∧
        ((∃ x ∈ rows, TooLong Nn (view S i) x) → w1 = [.dots]) ∧
        ((¬ ∃ x ∈ rows, TooLong Nn (view S i) x) → w1 = []) ∧
        ((∃ r, Candidate S.nrm P Nn (view S i) T.at' d t r) → w2 = []) ∧
        ((¬ ∃ r, Candidate S.nrm P Nn (view S i) T.at' d t r) → w2 = [.noSimilar rows.length]))
  | _, _ => w = []

theorem inView_rows {S : Sys α} {P : List (T2 α)} {i : Rgbd.In α} {Q : Rgbd.TM α} {rows : List Row}
    (h : ActiveRows P i (fun b => Q.at' b 0) rows) : InView P (view S i) Q.at' ↔ rows ≠ [] := by
  constructor
  · rintro ⟨b, n, p, hv, hvis⟩ hnil
    obtain ⟨y, x, hy, hx, ny, nx⟩ := visible_pixel hvis
    have := (h.mem ⟨b, n, y, x⟩).2 ⟨hy, hx, p, hv, hvis, ny, nx⟩
    rw [hnil] at this; cases this
  · intro hne
    obtain ⟨r, hr⟩ := List.exists_mem_of_ne_nil _ hne
    obtain ⟨_, _, p, hv, hvis, _⟩ := (h.mem r).1 hr
    exact ⟨_, _, p, hv, hvis⟩

theorem active_empty {pc : PC α} {a : Clouds α} (hi : Inv pc a) (hP : a .points = none) {fr : Fusion.Frame α} (hL : fr.L = 1) :
    ∃ pc', findActive pc fr = (.ok [], pc') ∧ (hasAttr .points pc').1 = false := by
  rcases hi with h | ⟨P, h, _⟩
  · have hp : (hasAttr .points pc).1 = false := by rw [(inv_obs (.inl h)).presence .points, hP]; rfl
    refine ⟨(hasAttr .points pc).2, by simp [findActive, hL, hp], ?_⟩
    have h2 : Inv (hasAttr .points pc).2 a := by
      obtain ⟨s1, e1, r1⟩ := h.hasAttr .points
      rw [e1]; exact .inl r1
    rw [(inv_obs h2).presence .points, hP]; rfl
  · have := h.wf.pts; rw [hP] at this; cases this

theorem map_warns {S : Sys α} {pc : PC α} {a : Clouds α} {live : Rgbd.Obj α} {i : Rgbd.In α} {T : Rgbd.TM α} (hl : LiveOk S live i)
    (hT : live.poses = some T) (hm : MapOk S.mapper i.B pc a) : MapSaid S i T a (mapWarn S pc live) := by
  have hTi := rep_poses hl.rep hT
  unfold MapSaid mapWarn
  cases hS : S.mapper with
  | aggregate => rfl
  | fusion d t =>
    have hsh := hm.shape
    rw [hS] at hsh
    cases hP : a .points with
    | none =>
      obtain ⟨pc', e, hp⟩ := active_empty (fr := camera live) hm.inv hP (hl.rep.hL.trans hl.L)
      simp only [e, active_silent hm.inv hP, List.nil_append]
      cases (readRaw S.nrm S.eps live).1 with
      | error _ => rfl
      | ok fr =>
        simp only [similarWarn, hp, Bool.not_false, Bool.true_or, if_true]
        cases (findSimilarRaw S.nrm pc' fr [] d t).1 with
        | error _ => rfl
        | ok x => rfl
    | some P =>
      obtain ⟨hlen, hn', _⟩ := hsh P hP
      obtain ⟨Nn, hN⟩ := Option.isSome_iff_exists.1 hn'
      obtain ⟨rows, pc', e, i1, _, ar⟩ := active_prev hm.inv (hm.lst (by simp [hP])) hP hl hT hlen.symm
      obtain ⟨x0, live', e0, hx0, _⟩ := live_read hl (hl.last (.inl (by rw [hS]; simp)))
      have hp : (hasAttr .points pc).1 = true := by rw [(inv_obs hm.inv).presence .points, hP]; rfl
      have hu := sorted_uniquePts ar.sorted
      have hr : RowsOk P (Fusion.Frame.ofIn S.nrm S.eps i) rows := by
        intro r hr
        obtain ⟨h1, h2, p, h3, _⟩ := (ar.mem r).1 hr
        have h4 : (rowAt P r.b r.n).isSome := by
          simp only [vecAt, Option.map_eq_some_iff] at h3; obtain ⟨row, hr', _⟩ := h3; rw [hr']; rfl
        exact ⟨h4, by show r.b < i.B; rw [← hlen]; exact (rowAt_lt h4).1, h1, h2⟩
      obtain ⟨w1, w2, ew, c1, c2, c3, c4⟩ := similar_warns (d := d) (t := t) hx0 i1 hP hN hl.L hlen.symm hu hr
      have hcand : (∃ x ∈ rows, Similar S.nrm P Nn (Fusion.Frame.ofIn S.nrm S.eps i) d t x) ↔
          ∃ r, Candidate S.nrm P Nn (view S i) T.at' d t r := by
        constructor
        · rintro ⟨x, hx, p, m, h⟩
          obtain ⟨h1, h2, h3⟩ := (ar.mem x).1 hx
          exact ⟨x, ⟨h1, h2⟩, h3, ⟨p, m, h⟩⟩
        · rintro ⟨x, h1, h2, p, m, h⟩
          exact ⟨x, (ar.mem x).2 ⟨h1.1, h1.2, h2⟩, p, m, h⟩
      refine ⟨Nn, rows, hN, ar, fun hno => ?_, fun hin => ⟨w1, w2, ?_, c1, c2, fun h => c4 (.inr (hcand.2 h)),
        fun h => c3 ((inView_rows ar).1 hin) (fun hx => h (hcand.1 hx))⟩⟩
      · have h0 : rows = [] := by by_contra h0; exact hno ((inView_rows ar).2 h0)
        subst h0
        simp only [activeWarn, e, hp, e0, ew, List.length_nil, decide_true, Bool.and_self, if_true]
        rw [c4 (.inl rfl), c2 (by rintro ⟨x, hx, _⟩; cases hx)]
        rfl
      · have h0 := (inView_rows ar).1 hin
        simp only [activeWarn, e, hp, e0, ew]
        rw [if_neg (by simpa using h0), List.nil_append]

/-! ### One iteration -/

/-- What `_localize` says in a loop over frames: nothing with ground truth and at the first frame; otherwise whether no map point is in view of
the previous frame. -/
def LocSaid (S : Sys α) (i : Rgbd.In α) (Ts : List (Rgbd.TM α)) (a : Clouds α) (w : List Warn) : Prop :=
  match S.odom, Ts.getLast? with
  | .prov _, some Q => ∃ P, a .points = some P ∧
      (InView P (view S (snap i (Ts.length - 1))) Q.at' → w = []) ∧ (¬ InView P (view S (snap i (Ts.length - 1))) Q.at' → w = [.noActive])
  | _, _ => w = []

theorem localize_warns {S : Sys α} {provide} (hS : S.odom = .prov provide) (hds : 0 < S.ds) {pc : PC α} {a : Clouds α} {P : List (T2 α)}
    {live prev : Rgbd.Obj α} {i ip : Rgbd.In α} {Q : Rgbd.TM α} (hm : Inv pc a) (hl : (pc.lst .points).isSome) (hP : a .points = some P)
    (hi : LiveOk S live i) (hp : LiveOk S prev ip) (hQ : prev.poses = some Q) (hB : i.B = P.length) (hBp : ip.B = P.length) :
    (InView P (view S ip) Q.at' → localizeWarn S pc live (some prev) = []) ∧
    (¬ InView P (view S ip) Q.at' → localizeWarn S pc live (some prev) = [.noActive]) := by
  obtain ⟨q0, q1⟩ := poses_dims hp hQ
  obtain ⟨l1, e1, ok1, p1, _⟩ := setPoses_ok hi (P := Q) (by rw [q0, hBp, hB]) q1
  obtain ⟨x2, l2, e2, hx2, ok2, s2⟩ := live_read ok1 (ok1.last (.inr (by rw [hS]; rfl)))
  obtain ⟨frames, px, e3, f3, _, x3⟩ := Icp.downsample_frames (fr := Fusion.Frame.ofIn S.nrm S.eps { i with poses := some Q.at' }) hi.L hi.B hds
  obtain ⟨rows, pc1, e4, i4, h4, r4⟩ := active_prev hm hl hP hp hQ hBp
  have hpp : (hasAttr .points pc).1 = true := by rw [(inv_obs hm).presence .points, hP]; rfl
  have e : localizeWarn S pc live (some prev) = if rows = [] then [.noActive] else [] := by
    simp only [localizeWarn, hS, hQ, e1, withFrame, e2, Icp.downsampleRaw_last hx2, e3, activeWarn, e4, hpp, Bool.true_and, decide_eq_true_eq,
      List.length_eq_zero_iff]
  rw [e, inView_rows r4]
  exact ⟨fun h => if_neg h, fun h => if_pos (not_not.1 h)⟩

/-- `_localize` in a loop over frames: the outcome and what is said. -/
theorem located_warns {S : Sys α} {frames : Rgbd.Obj α} {i : Rgbd.In α} (hs : SysOk S i) {Ts : List (Rgbd.TM α)} {a : Clouds α} {x : Loop α}
    (hr : Run S frames i Ts a) (h : St S i Ts a x) (hgt : S.odom.isGt = true → x.prev = none) {live : Rgbd.Obj α}
    (ok1 : LiveOk S live { snap i Ts.length with poses := (given frames i Ts.length).map Rgbd.TM.at' })
    (hp1 : live.poses = given frames i Ts.length) :
    LocSaid S i Ts a (localizeWarn S x.pc live x.prev) ∧ ∃ r pc' live' i', localize S x.pc live x.prev = (r, pc', live') ∧
      Located S frames i Ts a r ∧ MapOk S.mapper i.B pc' a ∧ LiveOk S live' i' ∧ i'.B = i.B ∧
      (∀ T : Rgbd.TM α, posed i' T = posed (snap i Ts.length) T) ∧ (∀ T, r = .ok T → T.d0 = i.B ∧ T.d1 = 1) := by
  have hB : (snap i Ts.length).B = i.B := (snap_spec i Ts.length).1
  have base : ∀ (_ : S.odom = .gt ∨ x.prev = none), localize S x.pc live x.prev = (ofPoses live.poses, x.pc, live) := fun hg => localize_gt hg
  have dims : ∀ T, ofPoses live.poses = .ok T → T.d0 = i.B ∧ T.d1 = 1 := by
    intro T hT
    have hlp : live.poses = some T := by
      cases h : live.poses with
      | none => rw [h] at hT; cases hT
      | some P => rw [h] at hT; simp only [ofPoses, Except.ok.injEq] at hT; rw [hT]
    obtain ⟨d0, d1⟩ := poses_dims ok1 hlp
    exact ⟨d0.trans hB, d1⟩
  cases ho : S.odom with
  | gt =>
    have hprev := hgt (by rw [ho]; rfl)
    refine ⟨?_, _, _, _, _, base (.inl ho), ?_, h.map, ok1, hB, fun _ => rfl, dims⟩
    · simp only [LocSaid, ho, localizeWarn, hprev]
    · simp only [Located, ho, hp1]
  | prov provide =>
    have hng : S.odom.isGt = false := by rw [ho]; rfl
    cases hl : Ts.getLast? with
    | none =>
      have hnil := List.getLast?_eq_none_iff.1 hl
      subst hnil
      have hprev := h.fresh rfl
      have ha : a .points = none := by
        generalize hT : ([] : List (Rgbd.TM α)) = Ts at hr
        cases hr with
        | start => rfl
        | next _ _ _ => simp at hT
      refine ⟨?_, _, _, _, _, base (.inr hprev), ?_, h.map, ok1, hB, fun _ => rfl, dims⟩
      · have hpp : (hasAttr .points x.pc).1 = false := by rw [(inv_obs h.map.inv).presence .points, ha]; rfl
        simp [LocSaid, ho, localizeWarn, hprev, hpp]
      · simp only [Located, ho, hl, hp1]
    | some Q =>
      obtain ⟨p, hprev, okp, hpp⟩ := h.prev hng Q hl
      obtain ⟨P, hP⟩ := Option.ne_none_iff_exists'.1 (h.ne (by rintro rfl; cases hl))
      have hlen := (h.map.shape P hP).1
      have hBp : (posed (snap i (Ts.length - 1)) Q).B = P.length := ((snap_spec i (Ts.length - 1)).1).trans hlen.symm
      have hBi : ({ snap i Ts.length with poses := (given frames i Ts.length).map Rgbd.TM.at' } : Rgbd.In α).B = P.length := hB.trans hlen.symm
      have hlst := h.map.lst (by simp [hP])
      obtain ⟨v1, v2⟩ := localize_warns ho (hs.ds hng) h.map.inv hlst hP ok1 okp hpp hBi hBp
      obtain ⟨maps, fr, pc', live', hq, hloc, i', l', ok'⟩ := localize_prov ho (hs.ds hng) h.map.inv hlst hP ok1 okp hpp hBi hBp
      refine ⟨?_, answer Q (provide maps fr), pc', live', _, by rw [hprev]; exact hloc, ?_, ⟨i', fun _ => l', h.map.shape⟩, ok', hB, fun _ => rfl, ?_⟩
      · simp only [LocSaid, ho, hl, hprev]
        exact ⟨P, hP, v1, v2⟩
      · simp only [Located, ho, hl]
        exact ⟨P, maps, fr, hP, ⟨hq.maps, hq.frames⟩, rfl⟩
      · intro T hT
        cases ha : provide maps fr with
        | error e => rw [ha] at hT; cases hT
        | ok ans =>
          rw [ha] at hT
          simp only [answer, Except.ok.injEq] at hT
          obtain ⟨c, R, hc', hR, hRl⟩ := question_frames hq
          have hTl := hs.prov provide ho maps fr ans c R hc' hR ha
          exact ⟨by rw [← hT, composed, hTl, hRl]; exact hB, by rw [← hT]; rfl⟩

/-- What one iteration of the loop says. -/
theorem iter_warns {S : Sys α} {frames : Rgbd.Obj α} {i : Rgbd.In α} (hf : SeqOk S frames i) (hs : SysOk S i) {Ts : List (Rgbd.TM α)}
    {a : Clouds α} {x : Loop α} (hr : Run S frames i Ts a) (h : St S i Ts a x) (hgt : S.odom.isGt = true → x.prev = none) (hlt : Ts.length < i.L) :
    ∃ w1 w2, iterWarn S frames Ts.length x = w1 ++ w2 ∧ LocSaid S i Ts a w1 ∧
      ((∃ e, Located S frames i Ts a (.error e) ∧ iter S frames Ts.length x = .error e ∧ w2 = []) ∨
       ∃ T x' a', Located S frames i Ts a (.ok T) ∧ iter S frames Ts.length x = .ok x' ∧ MapChange S (posed (snap i Ts.length) T) a a' ∧
          St S i (Ts ++ [T]) a' x' ∧ (S.odom.isGt = true → x'.prev = none) ∧ MapSaid S (posed (snap i Ts.length) T) T a w2) := by
  obtain ⟨live, e1, ok1, hp1⟩ := liveFrame_ok hf hlt
  have hB : (snap i Ts.length).B = i.B := (snap_spec i Ts.length).1
  obtain ⟨hw, r, pc', live', i', hloc, hlo, hm, ok', hB', hpo, hd⟩ := located_warns hs hr h hgt ok1 hp1
  cases r with
  | error e =>
    refine ⟨_, [], ?_, hw, .inl ⟨e, hlo, ?_, rfl⟩⟩
    · simp only [iterWarn, e1, stepWarn, hloc]
    · simp only [iter, e1, step_error hloc true]
  | ok T =>
    obtain ⟨d0, d1⟩ := hd T rfl
    rw [← hB'] at hm d0
    obtain ⟨l2, f2, ok2, p2, _⟩ := setPoses_ok ok' d0 d1
    have hms := map_warns (S := S) ok2 p2 hm
    obtain ⟨a', c, n, hall⟩ := step_spec hloc ok' d0 d1 hm (by rw [hpo]; exact mapCond_of hs hlt.le h.size)
    obtain ⟨res, pc2, l3, e2, m2, ok3, p3, t3, _⟩ := hall true
    obtain ⟨l4, e3, ok4, p4, _⟩ := setPoses_ok (P := T) ok3 d0 d1
    rw [hpo] at c ok4
    have hms' : MapSaid S (posed (snap i Ts.length) T) T a (mapWarn S pc' l2) := by rw [← hpo]; exact hms
    rw [hB'] at m2 d0
    refine ⟨_, _, ?_, hw, .inr ⟨T, ⟨res, if S.odom.isGt then none else some l4, x.poses ++ [fun b => T.at' b 0]⟩, a', hlo, ?_, c,
      next_st h d0 d1 c n m2 fun hg => ⟨l4, by simp [hg], ok4, p4⟩, fun hg => by simp [hg], hms'⟩⟩
    · simp only [iterWarn, e1, stepWarn, hloc, f2]
    · simp only [iter, e1, e2, e3]

/-! ### Whole runs -/

/-- An abstract run with what is said during it: at each frame first about the search from the previous frame's pose, then about the update of
the map. -/
inductive RunW (S : Sys α) (frames : Rgbd.Obj α) (i : Rgbd.In α) : List (Rgbd.TM α) → Clouds α → List Warn → Prop
  | start : RunW S frames i [] emptyClouds []
  | next {Ts a W T a' w1 w2} : RunW S frames i Ts a W → Located S frames i Ts a (.ok T) → MapChange S (posed (snap i Ts.length) T) a a' →
      LocSaid S i Ts a w1 → MapSaid S (posed (snap i Ts.length) T) T a w2 → RunW S frames i (Ts ++ [T]) a' (W ++ (w1 ++ w2))

theorem RunW.run {S : Sys α} {frames : Rgbd.Obj α} {i : Rgbd.In α} {Ts : List (Rgbd.TM α)} {a : Clouds α} {W : List Warn}
    (h : RunW S frames i Ts a W) : Run S frames i Ts a := by
  induction h with
  | start => exact .start
  | next _ hl hc _ _ ih => exact .next ih hl hc

/-- **The warnings of `forward`** are those of an abstract run: of all its frames if it returns; of the frames before and of the search at the
frame that could not be located, if it fails. -/
theorem iters_warns {S : Sys α} {frames : Rgbd.Obj α} {i : Rgbd.In α} (hf : SeqOk S frames i) (hs : SysOk S i) (n : Nat) (hn : n ≤ i.L) :
    (∃ x Ts a, iters S frames n = .ok x ∧ RunW S frames i Ts a (itersWarn S frames n) ∧ Ts.length = n ∧ St S i Ts a x ∧
      (S.odom.isGt = true → x.prev = none)) ∨
    (∃ e Ts a W w, iters S frames n = .error e ∧ RunW S frames i Ts a W ∧ Ts.length < n ∧ Located S frames i Ts a (.error e) ∧
      LocSaid S i Ts a w ∧ itersWarn S frames n = W ++ w) := by
  induction n with
  | zero => exact .inl ⟨_, [], emptyClouds, rfl, .start, rfl, start_st S i, fun _ => rfl⟩
  | succ n ih =>
    rcases ih (by omega) with ⟨x, Ts, a, e, r, hl, st, hg⟩ | ⟨e, Ts, a, W, w, he, r, hl, hloc, hw, hW⟩
    · subst hl
      obtain ⟨w1, w2, ew, hw, ⟨e', hlo, he', rfl⟩ | ⟨T, x', a', hlo, he', c, st', hg', hms⟩⟩ := iter_warns hf hs r.run st hg (by omega)
      · exact .inr ⟨e', Ts, a, _, w1, by simp only [iters, e]; exact he', r, by omega, hlo, hw, by simp only [itersWarn, e, ew, List.append_nil]⟩
      · exact .inl ⟨x', Ts ++ [T], a', by simp only [iters, e]; exact he', by simp only [itersWarn, e, ew]; exact r.next hlo c hw hms, by simp, st', hg'⟩
    · exact .inr ⟨e, Ts, a, W, w, by simp only [iters, he], r, by omega, hloc, hw, by simp only [itersWarn, he, List.append_nil, hW]⟩

theorem locSaid_mem {S : Sys α} {i : Rgbd.In α} {Ts : List (Rgbd.TM α)} {a : Clouds α} {w : List Warn} (h : LocSaid S i Ts a w) :
    w = [] ∨ w = [.noActive] := by
  unfold LocSaid at h
  split at h
  · obtain ⟨P, _, h1, h2⟩ := h
    exact (em _).imp h1 h2
  · exact .inl h

/-- **The messages about `prev_frame` are never given by `forward`**: it passes one exactly when it is used. -/
theorem forward_keeps_prev {S : Sys α} {frames : Rgbd.Obj α} {i : Rgbd.In α} (hf : SeqOk S frames i) (hs : SysOk S i) :
    Warn.prevIgnored ∉ forwardWarn S frames ∧ Warn.prevMissing ∉ forwardWarn S frames := by
  have key : ∀ {w : Warn}, w = .prevIgnored ∨ w = .prevMissing →
      (∀ {Ts : List (Rgbd.TM α)} {a : Clouds α} {l}, LocSaid S i Ts a l → w ∉ l) ∧
      (∀ {j : Rgbd.In α} {T : Rgbd.TM α} {a : Clouds α} {l}, MapSaid S j T a l → w ∉ l) := by
    intro w hw
    refine ⟨fun {Ts a l} h => ?_, fun {j T a l} h => ?_⟩
    · rcases locSaid_mem h with rfl | rfl
      · simp
      · rcases hw with rfl | rfl <;> simp
    · unfold MapSaid at h
      split at h
      next d t P hS hP =>
        obtain ⟨Nn, rows, _, _, h1, h2⟩ := h
        by_cases hin : InView P (view S j) T.at'
        · obtain ⟨w1, w2, rfl, d1, d2, e1, e2⟩ := h2 hin
          simp only [List.mem_append, not_or]
          constructor
          · by_cases hd : ∃ x ∈ rows, TooLong Nn (view S j) x
            · rw [d1 hd]; rcases hw with rfl | rfl <;> simp
            · rw [d2 hd]; simp
          · by_cases hd : ∃ r, Candidate S.nrm P Nn (view S j) T.at' d t r
            · rw [e1 hd]; simp
            · rw [e2 hd]; rcases hw with rfl | rfl <;> simp
        · rw [h1 hin]; rcases hw with rfl | rfl <;> simp
      next => rw [h]; simp
  have runW : ∀ {w : Warn}, w = .prevIgnored ∨ w = .prevMissing → ∀ {Ts a W}, RunW S frames i Ts a W → w ∉ W := by
    intro w hw Ts a W h
    induction h with
    | start => simp
    | next _ _ _ h1 h2 ih =>
      simp only [List.mem_append, not_or]
      exact ⟨ih, (key hw).1 h1, (key hw).2 h2⟩
  have all : ∀ {w : Warn}, w = .prevIgnored ∨ w = .prevMissing → w ∉ forwardWarn S frames := by
    intro w hw
    rcases iters_warns hf hs frames.L (hf.rep.hL.le) with ⟨x, Ts, a, e, r, _⟩ | ⟨e, Ts, a, W, w', he, r, _, _, hw', hW⟩
    · exact runW hw r
    · rw [forwardWarn, hW]
      simp only [List.mem_append, not_or]
      exact ⟨runW hw r, (key hw).1 hw'⟩
  exact ⟨all (.inl rfl), all (.inr rfl)⟩

/-- The first frame gives no warning. -/
theorem first_frame_silent {S : Sys α} {frames : Rgbd.Obj α} {i : Rgbd.In α} (hf : SeqOk S frames i) (hs : SysOk S i) (h0 : 0 < i.L) :
    itersWarn S frames 1 = [] := by
  obtain ⟨w1, w2, ew, hw, h⟩ := iter_warns hf hs .start (start_st S i) (fun _ => rfl) h0
  have e1 : w1 = [] := by
    unfold LocSaid at hw
    split at hw
    · next h => cases h
    · exact hw
  have e2 : w2 = [] := by
    rcases h with ⟨_, _, _, h⟩ | ⟨T, x', a', _, _, _, _, _, h⟩
    · exact h
    · unfold MapSaid at h
      split at h
      next d t P hS hP => cases hP
      next => exact h
  rw [e1, e2] at ew
  simpa [itersWarn, iters] using ew

/-- `ICPSLAM` with ground truth never warns. -/
theorem icpslam_gt_silent {S : Sys α} {frames : Rgbd.Obj α} {i : Rgbd.In α} (hf : SeqOk S frames i) (hs : SysOk S i)
    (hm : S.mapper = .aggregate) (ho : S.odom = .gt) : forwardWarn S frames = [] := by
  have h1 : ∀ {Ts a w}, LocSaid S i Ts a w → w = [] := by
    intro Ts a w h; simpa only [LocSaid, ho] using h
  have h2 : ∀ {j T a w}, MapSaid S j T a w → w = [] := by
    intro j T a w h; simpa only [MapSaid, hm] using h
  have hW : ∀ {Ts a W}, RunW S frames i Ts a W → W = [] := by
    intro Ts a W h
    induction h with
    | start => rfl
    | next _ _ _ a b ih => rw [ih, h1 a, h2 b]; rfl
  rcases iters_warns hf hs frames.L (hf.rep.hL.le) with ⟨x, Ts, a, e, r, _⟩ | ⟨e, Ts, a, W, w', he, r, _, _, hw', hW'⟩
  · exact hW r
  · rw [forwardWarn, hW', hW r, h1 hw']; rfl

/-- `ICPSLAM` only ever says that no map point is in view of the previous frame. -/
theorem icpslam_says {S : Sys α} {frames : Rgbd.Obj α} {i : Rgbd.In α} (hf : SeqOk S frames i) (hs : SysOk S i)
    (hm : S.mapper = .aggregate) : ∀ w ∈ forwardWarn S frames, w = .noActive := by
  have h1 : ∀ {Ts a l}, LocSaid S i Ts a l → ∀ w ∈ l, w = Warn.noActive := by
    intro Ts a l h; rcases locSaid_mem h with rfl | rfl <;> simp
  have hW : ∀ {Ts a W}, RunW S frames i Ts a W → ∀ w ∈ W, w = Warn.noActive := by
    intro Ts a W h
    induction h with
    | start => simp
    | next _ _ _ a b ih =>
      simp only [MapSaid, hm] at b
      subst b
      intro w hw
      rw [List.append_nil, List.mem_append] at hw
      exact hw.elim (ih w) (h1 a w)
  rcases iters_warns hf hs frames.L (hf.rep.hL.le) with ⟨x, Ts, a, e, r, _⟩ | ⟨e, Ts, a, W, w', he, r, _, _, hw', hW'⟩
  · exact hW r
  · rw [forwardWarn, hW']
    intro w hw
    rcases List.mem_append.1 hw with h | h
    · exact hW r w h
    · exact h1 hw' w h

theorem dot_le {u v : V3 α} (hu : u.dot u ≤ 1) (hv : v.dot v ≤ 1) : u.dot v ≤ 1 := by
  simp only [V3.dot] at *
  nlinarith [sq_nonneg (u.x - v.x), sq_nonneg (u.y - v.y), sq_nonneg (u.z - v.z)]

/-- **"Max of dot product was … > 1" is never given** by `forward` of `PointFusion` as long as the poses found are rigid: all normals, observed
and averaged, have length at most one. -/
theorem forward_no_dots {S : Sys α} {frames : Rgbd.Obj α} {i : Rgbd.In α} (hf : SeqOk S frames i) (hs : SysOk S i) (hn : Rgbd.IsNorm S.nrm)
    (hR : ∀ Ts a, Run S frames i Ts a → ∀ T ∈ Ts, ∀ b < i.B, (T.at' b 0).R.transpose.mul (T.at' b 0).R = M3.one) :
    Warn.dots ∉ forwardWarn S frames := by
  have h1 : ∀ {Ts a l}, LocSaid S i Ts a l → Warn.dots ∉ l := by
    intro Ts a l h; rcases locSaid_mem h with rfl | rfl <;> simp
  have hW : ∀ {Ts a W}, RunW S frames i Ts a W → Warn.dots ∉ W := by
    intro Ts a W h
    induction h with
    | start => simp
    | @next Ts a W T a' w1 w2 r hl hc ha hb ih =>
      simp only [List.mem_append, not_or]
      refine ⟨ih, h1 ha, ?_⟩
      unfold MapSaid at hb
      split at hb
      next d t P hS hP =>
        obtain ⟨Nn, rows, hN, ar, c1, c2⟩ := hb
        by_cases hin : InView P (view S (posed (snap i Ts.length) T)) T.at'
        · obtain ⟨x1, x2, rfl, d1, d2, e1, e2⟩ := c2 hin
          have hal : ∀ p, 0 < S.al p := by
            rcases hs.map with h | h
            · rw [hS] at h; cases h
            · exact h.1
          have hno : ¬ ∃ x ∈ rows, TooLong Nn (view S (posed (snap i Ts.length) T)) x := by
            rintro ⟨x, hx, m, hm, hlt⟩
            have hB : (snap i Ts.length).B = i.B := (snap_spec i Ts.length).1
            have l2 := run_normals_le hf.B hS hn hal r.run (fun U hU => hR _ _ r.run U hU) Nn hN _ _ _ hm
            have hb : x.b < i.B := by
              have h3 := vecAt_lt hm
              obtain ⟨h4, h5, _⟩ := run_wf hf.B r.run P hP
              rw [h4.length hN, h5] at h3
              exact h3
            have hg : ((view S (posed (snap i Ts.length) T)).gn x.b 0 x.h x.w).dot ((view S (posed (snap i Ts.length) T)).gn x.b 0 x.h x.w) ≤ 1 := by
              have e : (view S (posed (snap i Ts.length) T)).gn x.b 0 x.h x.w =
                (T.at' x.b 0).R.mulVec (Rgbd.normalAt S.nrm S.eps (posed (snap i Ts.length) T) x.b 0 x.h x.w) := rfl
              rw [e, M3.dot_orthogonal (hR _ _ (r.run.next hl hc) T (by simp) x.b hb)]
              exact normal_le hn _ _ _ _ _ _
            have := dot_le hg l2
            linarith
          rw [d2 hno, List.nil_append]
          by_cases hd : ∃ r, Candidate S.nrm P Nn (view S (posed (snap i Ts.length) T)) T.at' d t r
          · rw [e1 hd]; simp
          · rw [e2 hd]; simp
        · rw [c1 hin]; simp
      next => rw [hb]; simp
  rcases iters_warns hf hs frames.L (hf.rep.hL.le) with ⟨x, Ts, a, e, r, _⟩ | ⟨e, Ts, a, W, w', he, r, _, _, hw', hW'⟩
  · exact hW r
  · rw [forwardWarn, hW']
    simp only [List.mem_append, not_or]
    exact ⟨hW r, h1 hw'⟩

/-- With ground truth the given poses are the ones that have to be rigid. -/
theorem forward_gt_no_dots {S : Sys α} {frames : Rgbd.Obj α} {i : Rgbd.In α} (hf : SeqOk S frames i) (hs : SysOk S i) (hn : Rgbd.IsNorm S.nrm)
    (ho : S.odom = .gt) (hR : ∀ G, frames.poses = some G → ∀ b < i.B, ∀ t, (G.at' b t).R.transpose.mul (G.at' b t).R = M3.one) :
    Warn.dots ∉ forwardWarn S frames := by
  refine forward_no_dots hf hs hn fun Ts a r T hT b hb => ?_
  obtain ⟨t, ht⟩ := List.mem_iff_getElem?.1 hT
  have := (given_some (run_gt ho r t T ht)).2.2 b hb
  rw [this]
  cases hp : frames.poses with
  | none => ext <;> simp [M4.one, M3.mul, M3.transpose, M3.one, V3.dot, M3.c0, M3.c1, M3.c2]
  | some G => exact hR G hp b hb t

/-- **A call of `step`**: the message that `prev_frame` is ignored is given exactly with ground truth and a `prev_frame`; the one that it is
missing exactly with another odometry, no `prev_frame`, and a map with points. -/
theorem step_prev {S : Sys α} {pc : PC α} {a : Clouds α} (hi : Inv pc a) (live : Rgbd.Obj α) (prev : Option (Rgbd.Obj α)) :
    (Warn.prevIgnored ∈ stepWarn S pc live prev ↔ S.odom = .gt ∧ prev ≠ none) ∧
    (Warn.prevMissing ∈ stepWarn S pc live prev ↔ S.odom ≠ .gt ∧ prev = none ∧ a .points ≠ none) := by
  have hact : ∀ (pc : PC α) (fr : Fusion.Frame α) (w : Warn), w ∈ activeWarn pc fr → w = .noActive := by
    intro pc fr w h
    unfold activeWarn at h
    split at h
    · cases h
    · split_ifs at h
      · exact List.mem_singleton.1 h
      · cases h
  have hsim : ∀ (pc : PC α) r rows d t (w : Warn), w ∈ similarWarn S.nrm pc r rows d t → w ≠ .prevIgnored ∧ w ≠ .prevMissing := by
    intro pc r rows d t w h
    unfold similarWarn at h
    split at h
    · cases h
    · split_ifs at h
      · cases h
      all_goals
        simp only [List.mem_append, List.not_mem_nil, or_false, List.mem_singleton] at h
        try rcases h with h | rfl
        try
          split at h
          · split_ifs at h
            · rw [List.mem_singleton.1 h]; simp
            · cases h
          · cases h
        try simp
  have hmap : ∀ (pc : PC α) live (w : Warn), w ∈ mapWarn S pc live → w ≠ .prevIgnored ∧ w ≠ .prevMissing := by
    intro pc live w h
    unfold mapWarn at h
    split at h
    · cases h
    · rcases List.mem_append.1 h with h | h
      · rw [hact _ _ _ h]; simp
      · split at h
        · cases h
        · split at h
          · cases h
          · exact hsim _ _ _ _ _ _ h
  have hrest : ∀ (w : Warn), w = .prevIgnored ∨ w = .prevMissing → (w ∈ stepWarn S pc live prev ↔ w ∈ localizeWarn S pc live prev) := by
    intro w hw
    rw [stepWarn, List.mem_append]
    refine ⟨fun h => h.elim id fun h => ?_, .inl⟩
    exfalso
    split at h
    · cases h
    · split at h
      · cases h
      · have := hmap _ _ _ h
        rcases hw with rfl | rfl
        · exact this.1 rfl
        · exact this.2 rfl
  have hp : (hasAttr .points pc).1 = true ↔ a .points ≠ none := by
    rw [(inv_obs hi).presence .points]; cases a .points <;> simp
  rw [hrest _ (.inl rfl), hrest _ (.inr rfl)]
  unfold localizeWarn
  cases ho : S.odom with
  | gt => cases prev <;> simp
  | prov provide =>
    cases prev with
    | none =>
      simp only [ne_eq, reduceCtorEq, not_false_eq_true, not_true_eq_false, and_false, iff_false, true_and]
      by_cases h : (hasAttr .points pc).1 = true
      · rw [if_pos h]; exact ⟨by simp, by simpa using hp.1 h⟩
      · rw [if_neg h]; exact ⟨by simp, by simpa using fun h' => h (hp.2 h')⟩
    | some p =>
      simp only [ne_eq, reduceCtorEq, false_and, and_false, iff_false]
      cases p.poses with
      | none => simp
      | some P =>
        simp only
        have hw : ∀ w : Warn, w = .prevIgnored ∨ w = .prevMissing → w ∉ activeWarn pc (camera p) := by
          rintro w (rfl | rfl) h <;> cases hact _ _ _ h
        constructor
        all_goals
          split
          · simp
          · split
            · simp
            · exact hw _ (by simp)

end
end Verif.Warn
