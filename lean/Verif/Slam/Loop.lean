import Verif.Slam.Run
/-!
The loop of `forward` refines an abstract run.
-/
namespace Verif.Slam
open Verif Pcs
set_option linter.unusedSectionVars false
set_option linter.unusedSimpArgs false

section
variable {α : Type*} [Field α] [LinearOrder α] [IsStrictOrderedRing α] [FloorRing α]

/-- Where the next frame is, given the poses `Ts` of the frames so far and the map `a`: with ground truth, and for the first frame, the
pose it comes with (ValueError without one); otherwise the provider's answer to one question, composed with the last pose. -/
def Located (S : Sys α) (frames : Rgbd.Obj α) (i : Rgbd.In α) (Ts : List (Rgbd.TM α)) (a : Clouds α) (r : Except Err (Rgbd.TM α)) : Prop :=
  match S.odom, Ts.getLast? with
  | .prov provide, some Q => ∃ P maps fr, a .points = some P ∧
      Question S a P (snap i Ts.length) (posed (snap i (Ts.length - 1)) Q) Q maps fr ∧ r = answer Q (provide maps fr)
  | _, _ => r = ofPoses (given frames i Ts.length)

/-- An abstract run: the poses of the first frames and the map they lead to. -/
inductive Run (S : Sys α) (frames : Rgbd.Obj α) (i : Rgbd.In α) : List (Rgbd.TM α) → Clouds α → Prop
  | start : Run S frames i [] emptyClouds
  | next {Ts a T a'} : Run S frames i Ts a → Located S frames i Ts a (.ok T) → MapChange S (posed (snap i Ts.length) T) a a' →
      Run S frames i (Ts ++ [T]) a'

/-- The variables of the loop after the frames with poses `Ts`. -/
structure St (S : Sys α) (i : Rgbd.In α) (Ts : List (Rgbd.TM α)) (a : Clouds α) (x : Loop α) : Prop where
  map : MapOk S.mapper i.B x.pc a
  ne : Ts ≠ [] → a .points ≠ none
  size : SizeLe (Ts.length * (i.H * i.W)) a
  poses : x.poses = Ts.map fun T b => T.at' b 0
  dims : ∀ T ∈ Ts, T.d0 = i.B ∧ T.d1 = 1
  fresh : Ts = [] → x.prev = none
  prev : S.odom.isGt = false → ∀ Q, Ts.getLast? = some Q →
    ∃ p, x.prev = some p ∧ LiveOk S p (posed (snap i (Ts.length - 1)) Q) ∧ p.poses = some Q

/-- Side conditions on the object and the sequence: a positive sampling ratio and providers that answer for each batch element; for
`PointFusion`, positive weights and indices that fit in float32. -/
structure SysOk (S : Sys α) (i : Rgbd.In α) : Prop where
  ds : S.odom.isGt = false → 0 < S.ds
  prov : ∀ provide, S.odom = .prov provide → ∀ maps fr ans c Q, Inv fr c → c .points = some Q → provide maps fr = .ok ans →
    ans.length = Q.length
  map : S.mapper = .aggregate ∨
    ((∀ p, 0 < S.al p) ∧ i.B ≤ 2 ^ 24 ∧ i.H ≤ 2 ^ 24 ∧ i.W ≤ 2 ^ 24 ∧ i.L * (i.H * i.W) ≤ 2 ^ 24)

theorem mapCond_of {S : Sys α} {i : Rgbd.In α} (h : SysOk S i) {n t : Nat} {T : Rgbd.TM α} (hn : n ≤ i.L) {a : Clouds α}
    (hs : SizeLe (n * (i.H * i.W)) a) : MapCond S (posed (snap i t) T) a := by
  rcases h.map with h | ⟨h1, h2, h3, h4, h5⟩
  · exact .inl h
  · refine .inr ⟨h1, fun P hP => ⟨?_, h3, h4, fun b => ?_⟩⟩
    · simpa [view, Fusion.Frame.ofIn, posed, snap, Rgbd.In.sel] using h2
    · exact ((hs P hP b).trans (Nat.mul_le_mul_right _ hn)).trans h5

theorem start_st (S : Sys α) (i : Rgbd.In α) : St S i [] emptyClouds (⟨newEmpty, none, []⟩ : Loop α) where
  map := empty_mapOk _ _
  ne h := absurd rfl h
  size P h := by cases h
  poses := rfl
  dims T h := by cases h
  fresh _ := rfl
  prev _ Q h := by cases h

theorem question_frames {S : Sys α} {a : Clouds α} {P : List (T2 α)} {i ip : Rgbd.In α} {Q : Rgbd.TM α} {maps frames : PC α}
    (h : Question S a P i ip Q maps frames) : ∃ c R, Inv frames c ∧ c .points = some R ∧ R.length = i.B := by
  obtain ⟨px, hi, _⟩ := h.frames
  exact ⟨_, _, hi, rfl, by simp [Icp.framesAt, Fusion.Frame.ofIn]⟩

/-- Conditions under which `prev_frame` is used: nothing is asked of it with ground truth or if it is `None`; otherwise it is a frame with
poses, of the same batch size, and the map is not empty. -/
def PrevOk (S : Sys α) (i : Rgbd.In α) (a : Clouds α) (prev : Option (Rgbd.Obj α)) : Prop :=
  S.odom = .gt ∨ prev = none ∨ ∃ p ip Q, prev = some p ∧ LiveOk S p ip ∧ p.poses = some Q ∧ ip.B = i.B ∧ a .points ≠ none

/-- Where `step` puts the live frame: with ground truth or without a previous frame, at the poses it has (ValueError without poses);
otherwise the provider is asked one question about the previous frame `ip` with poses `Q`, and its answer is composed with `Q`. -/
def Placed (S : Sys α) (a : Clouds α) (i : Rgbd.In α) (live : Rgbd.Obj α) (prev : Option (Rgbd.Obj α)) (r : Except Err (Rgbd.TM α)) : Prop :=
  ((S.odom = .gt ∨ prev = none) ∧ r = ofPoses live.poses) ∨
  ∃ provide p Q P maps fr, S.odom = .prov provide ∧ prev = some p ∧ p.poses = some Q ∧ a .points = some P ∧
    (∀ ip, LiveOk S p ip → Question S a P i ip Q maps fr) ∧ r = answer Q (provide maps fr)

/-- Everything about one call of `step`, for any map and frames: the outcome and what the caller's objects are afterwards. -/
theorem step_any {S : Sys α} {pc : PC α} {a : Clouds α} {live : Rgbd.Obj α} {i : Rgbd.In α} {prev : Option (Rgbd.Obj α)}
    (hm : MapOk S.mapper i.B pc a) (hl : LiveOk S live i) (hp : PrevOk S i a prev) (hc : ∀ T, MapCond S (posed i T) a)
    (hds : S.odom.isGt = false → 0 < S.ds)
    (hpv : ∀ provide, S.odom = .prov provide → ∀ maps fr ans c Q, Inv fr c → c .points = some Q → provide maps fr = .ok ans →
      ans.length = Q.length) :
    ∃ r, Placed S a i live prev r ∧
      (∀ e, r = .error e → ∀ inplace, ∃ pc' live', step S pc live prev inplace = (.error e, pc', live') ∧ Inv pc' a) ∧
      (∀ T, r = .ok T → T.d0 = i.B ∧ T.d1 = 1 ∧ ∃ a', MapChange S (posed i T) a a' ∧ a' .points ≠ none ∧ ∀ inplace, ∃ res pc' live',
        step S pc live prev inplace = (.ok (res, T), pc', live') ∧ MapOk S.mapper i.B res a' ∧
        LiveOk S live' (posed i T) ∧ live'.poses = some T ∧ (inplace = true → pc' = res) ∧
        (inplace = false → ∃ a'', Inv pc' a'' ∧ Leftover S a a' a'')) := by
  by_cases hg : S.odom = .gt ∨ prev = none
  · have hloc := localize_gt hg (pc := pc) (live := live)
    refine ⟨ofPoses live.poses, .inl ⟨hg, rfl⟩, ?_, ?_⟩
    · intro e he inplace
      refine ⟨pc, live, ?_, hm.inv⟩
      rw [he] at hloc
      exact step_error hloc inplace
    · intro T hT
      rw [hT] at hloc
      have hlp : live.poses = some T := by
        cases h : live.poses with
        | none => rw [h] at hT; cases hT
        | some P => rw [h] at hT; simp only [ofPoses, Except.ok.injEq] at hT; rw [hT]
      obtain ⟨d0, d1⟩ := poses_dims hl hlp
      exact ⟨d0, d1, step_spec hloc hl d0 d1 hm (hc T)⟩
  rcases hp with hp | hp | ⟨p, ip, Q, hp, okp, hpp, hB, hne⟩
  · exact absurd (.inl hp) hg
  · exact absurd (.inr hp) hg
  cases ho : S.odom with
  | gt => exact absurd (.inl ho) hg
  | prov provide =>
    have hng : S.odom.isGt = false := by rw [ho]; rfl
    obtain ⟨P, hP⟩ := Option.ne_none_iff_exists'.1 hne
    have hlen := (hm.shape P hP).1
    subst hp
    obtain ⟨maps, fr, pc', live', hq, hloc, i', l', ok'⟩ := localize_prov ho (hds hng) hm.inv (hm.lst (by simp [hP])) hP hl okp hpp
      hlen.symm (hB.trans hlen.symm)
    refine ⟨answer Q (provide maps fr), .inr ⟨provide, p, Q, P, maps, fr, ho, rfl, hpp, hP, fun ip' okp' => ?_, rfl⟩, ?_, ?_⟩
    · obtain ⟨⟨rows, hr, hi⟩, hf⟩ := hq
      refine ⟨⟨rows, ⟨hr.sorted, fun r => ?_⟩, hi⟩, hf⟩
      have e1 : ip'.H = ip.H := okp'.rep.hH.symm.trans okp.rep.hH
      have e2 : ip'.W = ip.W := okp'.rep.hW.symm.trans okp.rep.hW
      have e3 : ip'.K = ip.K := by funext b; rw [← okp'.rep.K b, ← okp.rep.K b]
      rw [hr.mem, e1, e2, e3]
    · intro e he inplace
      rw [he] at hloc
      exact ⟨pc', live', step_error hloc inplace, i'⟩
    · intro T hT
      rw [hT] at hloc
      cases ha : provide maps fr with
      | error e => rw [ha] at hT; cases hT
      | ok ans =>
        rw [ha] at hT
        simp only [answer, Except.ok.injEq] at hT
        obtain ⟨c, R, hc', hR, hRl⟩ := question_frames hq
        have hTl := hpv provide ho maps fr ans c R hc' hR ha
        have d0 : T.d0 = i.B := by rw [← hT, composed, hTl, hRl]
        have d1 : T.d1 = 1 := by rw [← hT]; rfl
        exact ⟨d0, d1, step_spec (i := { i with poses := some Q.at' }) hloc ok' d0 d1 ⟨i', fun _ => l', hm.shape⟩ (hc T)⟩

/-- One call of `step` in a loop over the frames: the live frame has the poses the sequence gives it. -/
theorem step_located {S : Sys α} {frames : Rgbd.Obj α} {i : Rgbd.In α} (hs : SysOk S i) {Ts : List (Rgbd.TM α)}
    {a : Clouds α} {x : Loop α} (h : St S i Ts a x) (hlt : Ts.length < i.L) {live : Rgbd.Obj α}
    (hl : LiveOk S live { snap i Ts.length with poses := (given frames i Ts.length).map Rgbd.TM.at' })
    (hp : live.poses = given frames i Ts.length) :
    ∃ r, Located S frames i Ts a r ∧
      (∀ e, r = .error e → ∀ inplace, ∃ pc' live', step S x.pc live x.prev inplace = (.error e, pc', live') ∧ Inv pc' a) ∧
      (∀ T, r = .ok T → T.d0 = i.B ∧ T.d1 = 1 ∧ ∃ a', MapChange S (posed (snap i Ts.length) T) a a' ∧ a' .points ≠ none ∧ ∀ inplace, ∃ res pc' live',
        step S x.pc live x.prev inplace = (.ok (res, T), pc', live') ∧ MapOk S.mapper i.B res a' ∧
        LiveOk S live' (posed (snap i Ts.length) T) ∧ live'.poses = some T ∧ (inplace = true → pc' = res) ∧
        (inplace = false → ∃ a'', Inv pc' a'' ∧ Leftover S a a' a'')) := by
  have hB : (snap i Ts.length).B = i.B := (snap_spec i _).1
  have hprev : PrevOk S { snap i Ts.length with poses := (given frames i Ts.length).map Rgbd.TM.at' } a x.prev := by
    cases ho : S.odom with
    | gt => exact .inl ho
    | prov provide =>
      cases hT : Ts.getLast? with
      | none => exact .inr (.inl (h.fresh (List.getLast?_eq_none_iff.1 hT)))
      | some Q =>
        obtain ⟨p, hp, okp, hpp⟩ := h.prev (by rw [ho]; rfl) Q hT
        refine .inr (.inr ⟨p, _, Q, hp, okp, hpp, ?_, h.ne (by rintro rfl; cases hT)⟩)
        exact (snap_spec i (Ts.length - 1)).1.trans hB.symm
  obtain ⟨r, hr, he, hT⟩ := step_any (by show MapOk S.mapper (snap i Ts.length).B x.pc a; rw [hB]; exact h.map) hl hprev
    (fun T => mapCond_of (t := Ts.length) (T := T) hs hlt.le h.size) hs.ds hs.prov
  refine ⟨r, ?_, he, fun T hrT => ?_⟩
  · unfold Located
    rcases hr with ⟨hg, e⟩ | ⟨provide, p, Q, P, maps, fr, ho, hpv, hpQ, hP, hq, e⟩
    · rw [hp] at e
      cases ho : S.odom with
      | gt => exact e
      | prov provide =>
        cases hl : Ts.getLast? with
        | none => exact e
        | some Q =>
          obtain ⟨p, hpp, _⟩ := h.prev (by rw [ho]; rfl) Q hl
          rcases hg with hg | hg
          · rw [ho] at hg; cases hg
          · rw [hpp] at hg; cases hg
    · rw [ho]
      cases hl : Ts.getLast? with
      | none =>
        rw [h.fresh (List.getLast?_eq_none_iff.1 hl)] at hpv; cases hpv
      | some Q' =>
        obtain ⟨p', hp', okp', hpQ'⟩ := h.prev (by rw [ho]; rfl) Q' hl
        rw [hpv] at hp'; cases hp'
        rw [hpQ] at hpQ'; cases hpQ'
        have := hq _ okp'
        exact ⟨P, maps, fr, hP, ⟨this.maps, this.frames⟩, e⟩
  · obtain ⟨d0, d1, a', c, n, hall⟩ := hT T hrT
    refine ⟨d0.trans hB, d1, a', c, n, fun inplace => ?_⟩
    obtain ⟨res, pc', live', e1, m1, rest⟩ := hall inplace
    have m2 : MapOk S.mapper (snap i Ts.length).B res a' := m1
    rw [hB] at m2
    exact ⟨res, pc', live', e1, m2, rest⟩

theorem next_st {S : Sys α} {i : Rgbd.In α} {Ts : List (Rgbd.TM α)} {a a' : Clouds α} {x : Loop α} (h : St S i Ts a x) {T : Rgbd.TM α}
    {res : PC α} (h0 : T.d0 = i.B) (h1 : T.d1 = 1) (hc : MapChange S (posed (snap i Ts.length) T) a a') (hn : a' .points ≠ none)
    (hm : MapOk S.mapper i.B res a') {prev : Option (Rgbd.Obj α)}
    (hp : S.odom.isGt = false → ∃ p, prev = some p ∧ LiveOk S p (posed (snap i Ts.length) T) ∧ p.poses = some T) :
    St S i (Ts ++ [T]) a' ⟨res, prev, x.poses ++ [fun b => T.at' b 0]⟩ := by
  have hB : (snap i Ts.length).B = i.B := (snap_spec i _).1
  constructor
  · exact hm
  · exact fun _ => hn
  · have := change_size (by rfl) hc (by simpa [posed, hB] using h.map.shape) (by simpa [posed, hB] using hm.shape) h.size
    rw [List.length_append, List.length_singleton, Nat.add_mul, Nat.one_mul]
    exact this
  · simp [h.poses]
  · intro U hU
    rcases List.mem_append.1 hU with hU | hU
    · exact h.dims U hU
    · rw [List.mem_singleton.1 hU]; exact ⟨h0, h1⟩
  · intro hg; simp at hg
  · intro hg Q hQ
    simp only [List.getLast?_append, List.getLast?_singleton, Option.some_or, Option.some.injEq] at hQ
    subst hQ
    obtain ⟨p, h1, h2, h3⟩ := hp hg
    exact ⟨p, h1, by simpa using h2, h3⟩

/-- One iteration of the loop. -/
theorem iter_spec {S : Sys α} {frames : Rgbd.Obj α} {i : Rgbd.In α} (hf : SeqOk S frames i) (hs : SysOk S i) {Ts : List (Rgbd.TM α)}
    {a : Clouds α} {x : Loop α} (h : St S i Ts a x) (hlt : Ts.length < i.L) :
    ∃ r, Located S frames i Ts a r ∧ match r with
      | .error e => iter S frames Ts.length x = .error e
      | .ok T => ∃ x' a', iter S frames Ts.length x = .ok x' ∧ MapChange S (posed (snap i Ts.length) T) a a' ∧ St S i (Ts ++ [T]) a' x' := by
  obtain ⟨live, e1, ok1, hp1⟩ := liveFrame_ok hf hlt
  obtain ⟨r, hr, he, hT⟩ := step_located hs h hlt ok1 hp1
  refine ⟨r, hr, ?_⟩
  cases r with
  | error e =>
    obtain ⟨pc', live', e2, _⟩ := he e rfl true
    simp only [iter, e1, e2]
  | ok T =>
    obtain ⟨d0, d1, a', c, n, hall⟩ := hT T rfl
    obtain ⟨res, pc', live', e2, m2, ok2, p2, t2, _⟩ := hall true
    obtain ⟨live'', e3, ok3, p3, _⟩ := setPoses_ok (P := T) ok2 (d0.trans (snap_spec i Ts.length).1.symm) d1
    refine ⟨⟨res, if S.odom.isGt then none else some live'', x.poses ++ [fun b => T.at' b 0]⟩, a', by simp only [iter, e1, e2, e3], c,
      next_st h d0 d1 c n m2 fun hg => ⟨live'', by simp [hg], ok3, p3⟩⟩

/-- **The loop refines the abstract run**: after `n` iterations either the loop holds the poses and the map of an abstract run of `n`
frames, or some frame of an abstract run could not be located and the loop stopped with that error. -/
theorem iters_spec {S : Sys α} {frames : Rgbd.Obj α} {i : Rgbd.In α} (hf : SeqOk S frames i) (hs : SysOk S i) (n : Nat) (hn : n ≤ i.L) :
    (∃ x Ts a, iters S frames n = .ok x ∧ Run S frames i Ts a ∧ Ts.length = n ∧ St S i Ts a x) ∨
    (∃ e Ts a, iters S frames n = .error e ∧ Run S frames i Ts a ∧ Ts.length < n ∧ Located S frames i Ts a (.error e)) := by
  induction n with
  | zero => exact .inl ⟨_, [], emptyClouds, rfl, .start, rfl, start_st S i⟩
  | succ n ih =>
    rcases ih (by omega) with ⟨x, Ts, a, e, r, hl, st⟩ | ⟨e, Ts, a, he, r, hl, hloc⟩
    · subst hl
      obtain ⟨r', hr', hh⟩ := iter_spec hf hs st (by omega)
      cases r' with
      | error e' => exact .inr ⟨e', Ts, a, by simp only [iters, e]; exact hh, r, by omega, hr'⟩
      | ok T =>
        obtain ⟨x', a', e', c', st'⟩ := hh
        exact .inl ⟨x', Ts ++ [T], a', by simp only [iters, e]; exact e', r.next hr' c', by simp, st'⟩
    · exact .inr ⟨e, Ts, a, by simp only [iters, he], r, by omega, hloc⟩

end
end Verif.Slam
