import Verif.Slam.Unique
/-!
C49 (loops written by the user, prefixes), C50 (arguments of `step`), C51 (growth of the map).
-/
namespace Verif.Slam
open Verif Pcs
set_option linter.unusedSectionVars false
set_option linter.unusedSimpArgs false

section
variable {α : Type*} [Field α] [LinearOrder α] [IsStrictOrderedRing α] [FloorRing α]

/-! ### C49: forward is repeated step -/

/-- The body of the loop a user writes with `step`:
`live = frames[:, s]; pc, poses = slam.step(pc, live, prev, inplace); prev = live`. -/
def userIter (S : Sys α) (inplace : Bool) (frames : Rgbd.Obj α) (s : Nat) (x : Loop α) : Except Err (Loop α) :=
  match frameAt frames s with
  | .error e => .error e
  | .ok live => match step S x.pc live x.prev inplace with
    | (.error e, _, _) => .error e
    | (.ok (pc, T), _, live) => .ok ⟨pc, some live, x.poses ++ [fun b => T.at' b 0]⟩

/-- The user's loop, starting from an empty map; `inplace` may be chosen differently in every iteration. -/
def userIters (S : Sys α) (inplace : Nat → Bool) (frames : Rgbd.Obj α) : Nat → Except Err (Loop α)
  | 0 => .ok ⟨newEmpty, none, []⟩
  | n + 1 => match userIters S inplace frames n with
    | .error e => .error e
    | .ok x => userIter S (inplace n) frames n x

theorem frameAt_live {S : Sys α} {frames : Rgbd.Obj α} {i : Rgbd.In α} (hf : SeqOk S frames i) {P : Rgbd.TM α} (hP : frames.poses = some P) {t : Nat}
    (ht : t < i.L) : ∃ o, frameAt frames t = .ok o ∧ LiveOk S o { snap i t with poses := (given frames i t).map Rgbd.TM.at' } ∧
      o.poses = given frames i t := by
  obtain ⟨o, e, ok, hp⟩ := liveFrame_ok hf ht
  refine ⟨o, ?_, ok, hp⟩
  obtain ⟨o', e', _, hp'⟩ := frameAt_ok hf ht
  rw [liveFrame, e'] at e
  rw [hP, Option.map_some] at hp'
  rw [e']
  simpa [hp'] using e

/-- **C49** (forward is repeated `step`).  For every sequence with poses and every choice of `inplace`, the loop a user writes with `step`
and the loop of `forward` go through the same poses and maps with the same contents, or stop with the same error. -/
theorem forward_is_repeated_step {S : Sys α} {frames : Rgbd.Obj α} {i : Rgbd.In α} (hf : SeqOk S frames i) (hs : SysOk S i)
    (hx : ∀ provide, S.odom = .prov provide → Ext provide) {P : Rgbd.TM α} (hP : frames.poses = some P) (inplace : Nat → Bool) (n : Nat) (hn : n ≤ i.L) :
    (∃ x y a, iters S frames n = .ok x ∧ userIters S inplace frames n = .ok y ∧ y.poses = x.poses ∧ Inv x.pc a ∧ Inv y.pc a) ∨
    ∃ e, iters S frames n = .error e ∧ userIters S inplace frames n = .error e := by
  suffices h : (∃ x y a Ts, iters S frames n = .ok x ∧ userIters S inplace frames n = .ok y ∧ St S i Ts a x ∧ St S i Ts a y ∧ Ts.length = n) ∨
      ∃ e, iters S frames n = .error e ∧ userIters S inplace frames n = .error e by
    rcases h with ⟨x, y, a, Ts, h1, h2, s1, s2, _⟩ | h
    · exact .inl ⟨x, y, a, h1, h2, s2.poses.trans s1.poses.symm, s1.map.inv, s2.map.inv⟩
    · exact .inr h
  induction n with
  | zero => exact .inl ⟨_, _, emptyClouds, [], rfl, rfl, start_st S i, start_st S i, rfl⟩
  | succ n ih =>
    rcases ih (by omega) with ⟨x, y, a, Ts, h1, h2, s1, s2, hl⟩ | ⟨e, h1, h2⟩
    swap
    · exact .inr ⟨e, by simp only [iters, h1], by simp only [userIters, h2]⟩
    subst hl
    obtain ⟨r, hr, hit⟩ := iter_spec hf hs s1 (by omega)
    obtain ⟨live, e1, ok1, hp1⟩ := frameAt_live hf hP (show Ts.length < i.L by omega)
    obtain ⟨r', hr', he, hT⟩ := step_located hs s2 (by omega) ok1 hp1
    have := located_unique hx hr' hr
    subst this
    cases r' with
    | error e =>
      obtain ⟨pc', live', e2, _⟩ := he e rfl (inplace Ts.length)
      exact .inr ⟨e, by simp only [iters, h1]; exact hit, by simp only [userIters, h2, userIter, e1, e2]⟩
    | ok T =>
      obtain ⟨x', a', e3, c3, s3⟩ := hit
      obtain ⟨d0, d1, a'', c, ne, hall⟩ := hT T rfl
      have := change_unique c c3
      subst this
      obtain ⟨res, pc', live', e2, m2, ok2, p2, _⟩ := hall (inplace Ts.length)
      refine .inl ⟨x', _, a'', Ts ++ [T], by simp only [iters, h1]; exact e3, by simp only [userIters, h2, userIter, e1, e2], s3,
        next_st s2 d0 d1 c ne m2 fun _ => ⟨live', rfl, ok2, p2⟩, by simp⟩

/-! ### C49: prefixes -/

theorem seq_prefix {S : Sys α} {frames pre : Rgbd.Obj α} {i : Rgbd.In α} (hf : SeqOk S frames i) {k : Nat} (hk : 0 < k) (hkL : k ≤ i.L)
    (h : Rgbd.getitem (.tup [.slice none none none, .slice (some 0) (some k) none]) frames = .ok pre) :
    ∃ ip, SeqOk S pre ip ∧ ip.L = k ∧ SameStart frames pre i ip k := by
  obtain ⟨is, js, hpos, _, _, r, _, hcf, _, _, _, hp⟩ := Rgbd.getitem_rep hf.rep h
  have h1 : Rgbd.resolve i.B (.slice none none none) = .ok (List.range i.B) := (Rgbd.index_positions i.B).2.2.1
  have h2 : Rgbd.resolve i.L (.slice (some ((0 : Nat) : Int)) (some k) none) = .ok (List.range' 0 (k - 0)) :=
    (Rgbd.index_positions i.L).2.1 0 k (by omega) hkL
  rw [← List.range_eq_range', Nat.sub_zero] at h2
  have h2' : Rgbd.resolve i.L (.slice (some 0) (some k) none) = .ok (List.range k) := h2
  simp only [Rgbd.positions, Rgbd.twoIx, h1, h2', Except.ok.injEq, Prod.mk.injEq] at hpos
  obtain ⟨rfl, rfl⟩ := hpos
  refine ⟨_, ⟨r, by rw [hcf]; exact hf.cf, by simpa [Rgbd.In.sel] using hf.B, hf.H, hf.W⟩, by simp [Rgbd.In.sel], ?_⟩
  refine ⟨by simp [Rgbd.In.sel], rfl, rfl, by rw [hp]; simp, ?_, ?_, ?_, ?_, ?_⟩
  · intro P P' hP hP' b hb t ht
    rw [hp, hP, Option.map_some, Option.some.injEq] at hP'
    subst hP'
    simp [Rgbd.TM.sel, hb, ht]
  · intro b hb t ht; simp [Rgbd.In.sel, hb, ht]
  · intro b hb t ht; simp [Rgbd.In.sel, hb, ht]
  · intro b hb; simp [Rgbd.In.sel, hb]
  · intro b hb t ht; simp [Rgbd.In.sel, hb, ht]

/-- **C49** (prefixes).  The poses of the first `k` frames are those of a run on `frames[:, 0:k]`, and if that run fails then so does the run
on all frames, with the same error. -/
theorem forward_prefix {S : Sys α} {frames pre : Rgbd.Obj α} {i : Rgbd.In α} (hf : SeqOk S frames i) (hs : SysOk S i)
    (hx : ∀ provide, S.odom = .prov provide → Ext provide) {k : Nat} (hk : 0 < k) (hkL : k ≤ i.L)
    (h : Rgbd.getitem (.tup [.slice none none none, .slice (some 0) (some k) none]) frames = .ok pre) :
    (∀ m R, forward S frames = .ok (m, R) → ∃ m' R', forward S pre = .ok (m', R') ∧ ∀ b, ∀ t < k, R'.at' b t = R.at' b t) ∧
    (∀ e, forward S pre = .error e → forward S frames = .error e) := by
  obtain ⟨ip, hp, hL, hss⟩ := seq_prefix hf hk hkL h
  have hsp : SysOk S ip := by
    refine ⟨hs.ds, hs.prov, ?_⟩
    rcases hs.map with h | ⟨h1, h2, h3, h4, h5⟩
    · exact .inl h
    · refine .inr ⟨h1, hss.B ▸ h2, hss.H ▸ h3, hss.W ▸ h4, ?_⟩
      rw [hss.H, hss.W, hL]
      exact (Nat.mul_le_mul_right _ hkL).trans h5
  obtain ⟨c1, _, c3⟩ := forward_causal hf hs hp hsp hx hkL hL.ge hss
  refine ⟨fun m R e => ?_, fun e he => c3 e hL he⟩
  cases hfp : forward S pre with
  | error e' => rw [c3 e' hL hfp] at e; cases e
  | ok v => obtain ⟨m', R'⟩ := v; exact ⟨m', R', rfl, c1 m R m' R' e hfp⟩

/-! ### C50 -/

/-- **C50**.  What `step(…, inplace=False)` does to its arguments: the live frame is left with the returned poses (and otherwise as it was);
`ICPSLAM` leaves the map as it was; `PointFusion` leaves a map that was empty as it was, but otherwise the points, normals, colours and
features of the given map are those of the returned map, without the new points. -/
theorem step_arguments_after {S : Sys α} {pc : PC α} {a : Clouds α} {live : Rgbd.Obj α} {i : Rgbd.In α} {prev : Option (Rgbd.Obj α)}
    (hm : MapOk S.mapper i.B pc a) (hl : LiveOk S live i) (hp : PrevOk S i a prev) (hc : ∀ T, MapCond S (posed i T) a)
    (hds : S.odom.isGt = false → 0 < S.ds)
    (hpv : ∀ provide, S.odom = .prov provide → ∀ maps fr ans c Q, Inv fr c → c .points = some Q → provide maps fr = .ok ans →
      ans.length = Q.length) {res pc' : PC α} {T : Rgbd.TM α} {live' : Rgbd.Obj α} (h : step S pc live prev false = (.ok (res, T), pc', live')) :
    live'.poses = some T ∧ LiveOk S live' (posed i T) ∧
    ∃ a' a'', Inv res a' ∧ Inv pc' a'' ∧ (S.mapper = .aggregate ∨ a .points = none → a'' = a) ∧
      ∀ P, a .points = some P → Truncated P a' a'' := by
  obtain ⟨r, _, he, hT⟩ := step_any hm hl hp hc hds hpv
  cases r with
  | error e =>
    obtain ⟨p1, l1, e1, _⟩ := he e rfl false
    rw [h] at e1; cases e1
  | ok U =>
    obtain ⟨_, _, a', _, _, hall⟩ := hT U rfl
    obtain ⟨res1, pc1, live1, e1, m1, ok1, p1, _, f1⟩ := hall false
    rw [h] at e1
    simp only [Prod.mk.injEq, Except.ok.injEq] at e1
    obtain ⟨⟨rfl, rfl⟩, rfl, rfl⟩ := e1
    obtain ⟨a'', i'', lo⟩ := f1 rfl
    exact ⟨p1, ok1, a', a'', m1.inv, i'', lo.1, lo.2⟩

/-! ### C51 -/

theorem run_wf {S : Sys α} {frames : Rgbd.Obj α} {i : Rgbd.In α} (hB : 0 < i.B) {Ts : List (Rgbd.TM α)} {a : Clouds α} (h : Run S frames i Ts a) :
    ∀ P, a .points = some P → Wf a P ∧ P.length = i.B ∧ (S.mapper = .aggregate → MapShape (.aggregate : Mapper α) i.B a) := by
  induction h with
  | start => intro P h; cases h
  | @next Ts a T a' h hloc hc ih =>
    have hB' : (snap i Ts.length).B = i.B := (snap_spec i _).1
    have hvB : 0 < (view S (posed (snap i Ts.length) T)).B := by show 0 < (snap i Ts.length).B; rw [hB']; exact hB
    intro P' hP'
    unfold MapChange at hc
    cases hm : S.mapper with
    | aggregate =>
      rw [hm] at hc; simp only at hc
      have hsh : MapShape (.aggregate : Mapper α) i.B a := by
        cases hP : a .points with
        | none => intro P hP2; rw [hP] at hP2; cases hP2
        | some P => exact (ih P hP).2.2 hm
      have hsh' : MapShape (.aggregate : Mapper α) i.B a' := by
        rw [hc, ← hB']
        exact shape_grow (i := posed (snap i Ts.length) T) (by show MapShape _ (snap i Ts.length).B a; rw [hB']; exact hsh)
      refine ⟨?_, (hsh' P' hP').1, fun _ => hsh'⟩
      have hw := Fusion.frame_wf hvB true (view S (posed (snap i Ts.length) T)).valid
      cases hP : a .points with
      | none =>
        rw [hc, Fusion.specGrow, if_pos hP] at hP' ⊢
        have h2 := hw.pts.symm.trans hP'
        cases h2
        exact hw
      | some P =>
        rw [hc, Fusion.specGrow, if_neg (by simp [hP])] at hP' ⊢
        have hcomp : Compatible a (addition S (posed (snap i Ts.length) T)) :=
          compatible_addition (i := posed (snap i Ts.length) T) (by show MapShape _ (snap i Ts.length).B a; rw [hB']; exact hsh) (by simp [hP])
        have := (ih P hP).1.append hw hcomp
        have h2 := this.pts
        rw [hP'] at h2; cases h2
        exact this
    | fusion d t =>
      rw [hm] at hc; simp only at hc
      cases hP : a .points with
      | none =>
        rw [hP] at hc; simp only at hc
        have hw := Fusion.picked_wf hvB S.al (view S (posed (snap i Ts.length) T)).valid
        rw [hc] at hP' ⊢
        rw [hw.pts] at hP'; cases hP'
        exact ⟨hw, by rw [Fusion.picked_length]; exact hB', fun h => by cases h⟩
      | some P =>
        rw [hP] at hc; simp only at hc
        obtain ⟨T', P2, rows, _, f⟩ := hc
        have h2 := f.new
        rw [hP'] at h2; cases h2
        exact ⟨f.wf, f.batch.trans hB', fun h => by cases h⟩

/-- `a'` has at least the points of `a`, at the same indices; `verbatim`: with unchanged attributes. -/
structure Grows (verbatim : Prop) (a a' : Clouds α) : Prop where
  size : ∀ P, a .points = some P → ∃ P', a' .points = some P' ∧ P'.length = P.length ∧ ∀ b, Fusion.sizeAt P b ≤ Fusion.sizeAt P' b
  keep : verbatim → ∀ X l, a X = some l → ∃ l', a' X = some l' ∧ ∀ b n row, Fusion.rowAt l b n = some row → Fusion.rowAt l' b n = some row

theorem Grows.refl (v : Prop) (a : Clouds α) : Grows v a a := ⟨fun P h => ⟨P, h, rfl, fun _ => le_rfl⟩, fun _ X l h => ⟨l, h, fun _ _ _ h => h⟩⟩

theorem Grows.trans {v : Prop} {a b c : Clouds α} (h : Grows v a b) (k : Grows v b c) : Grows v a c := by
  refine ⟨fun P hP => ?_, fun hv X l hl => ?_⟩
  · obtain ⟨Q, hQ, l1, s1⟩ := h.size P hP
    obtain ⟨R, hR, l2, s2⟩ := k.size Q hQ
    exact ⟨R, hR, l2.trans l1, fun b => (s1 b).trans (s2 b)⟩
  · obtain ⟨m, hm, k1⟩ := h.keep hv X l hl
    obtain ⟨q, hq, k2⟩ := k.keep hv X m hm
    exact ⟨q, hq, fun b n row hr => k2 b n row (k1 b n row hr)⟩

theorem change_grows {S : Sys α} {i : Rgbd.In α} {a a' : Clouds α} (hc : MapChange S i a a')
    (hw : ∀ P, a .points = some P → Wf a P ∧ P.length = i.B ∧ (S.mapper = .aggregate → MapShape (.aggregate : Mapper α) i.B a))
    (he : a .points = none → ∀ X, a X = none) : Grows (S.mapper = .aggregate) a a' := by
  unfold MapChange at hc
  cases hP : a .points with
  | none =>
    refine ⟨fun P h => ?_, fun _ X l h => ?_⟩
    · rw [hP] at h; cases h
    · rw [he hP X] at h; cases h
  | some P =>
    obtain ⟨wf, hlen, hsh⟩ := hw P hP
    cases hm : S.mapper with
    | aggregate =>
      rw [hm] at hc; simp only at hc
      rw [Fusion.specGrow, if_neg (by simp [hP])] at hc
      have hcomp := compatible_addition (S := S) (i := i) (hsh hm) (by simp [hP])
      have hall : ∀ X l, a X = some l → ∃ m, addition S i X = some m ∧ l.length = m.length := by
        intro X l hl
        have := hcomp.2.1 X
        rw [hl] at this
        obtain ⟨m, hm⟩ := Option.isSome_iff_exists.1 this.symm
        refine ⟨m, hm, ?_⟩
        rw [wf.length hl, hlen]
        cases X <;> simp only [Fusion.frameArg, Option.some.injEq, reduceCtorEq] at hm <;> subst hm <;> simp [Fusion.picked, Fusion.Frame.ofIn]
      refine ⟨fun P2 hP2 => ?_, fun _ X l hl => ?_⟩
      · obtain ⟨m, hm, hlm⟩ := hall .points P2 hP2
        refine ⟨catL P2 m, by rw [hc, specAppend_some hP2 hm], catL_length hlm, fun b => ?_⟩
        rw [sizeAt_catL hlm]; omega
      · obtain ⟨m, hm, hlm⟩ := hall X l hl
        refine ⟨catL l m, by rw [hc, specAppend_some hl hm], fun b n row hr => ?_⟩
        rw [Fusion.rowAt_catL hlm, if_pos (Fusion.sizeAt_isSome.1 (by rw [hr]; rfl))]; exact hr
    | fusion d t =>
      rw [hm] at hc; simp only [hP] at hc
      obtain ⟨T', P2, rows, _, f⟩ := hc
      refine ⟨fun P3 hP3 => ?_, fun h => by cases h⟩
      rw [hP] at hP3; cases hP3
      refine ⟨P2, f.new, f.batch.trans hlen.symm, fun b => ?_⟩
      by_cases hb : b < i.B
      · rw [f.size b hb]; omega
      · rw [sizeAt_big (by omega)]; omega

theorem run_empty {S : Sys α} {frames : Rgbd.Obj α} {i : Rgbd.In α} {Ts : List (Rgbd.TM α)} {a : Clouds α} (h : Run S frames i Ts a) :
    (Ts = [] → a = emptyClouds) ∧ (Ts ≠ [] → a .points ≠ none) := by
  cases h with
  | start => exact ⟨fun _ => rfl, fun h => absurd rfl h⟩
  | @next Ts a T a' h hloc hc =>
    refine ⟨fun h => by simp at h, fun _ => ?_⟩
    unfold MapChange at hc
    cases hm : S.mapper with
    | aggregate => rw [hm] at hc; simp only at hc; rw [hc]; exact grow_points rfl
    | fusion d t =>
      rw [hm] at hc; simp only at hc
      cases hP : a .points with
      | none => rw [hP] at hc; simp only at hc; rw [hc]; simp [Fusion.newArg]
      | some P =>
        rw [hP] at hc; simp only at hc
        obtain ⟨T', P2, rows, _, f⟩ := hc
        rw [f.new]; simp

theorem run_none {S : Sys α} {frames : Rgbd.Obj α} {i : Rgbd.In α} {Ts : List (Rgbd.TM α)} {a : Clouds α} (h : Run S frames i Ts a)
    (hP : a .points = none) : ∀ X, a X = none := by
  obtain ⟨h1, h2⟩ := run_empty h
  by_cases hT : Ts = []
  · rw [h1 hT]; intro X; rfl
  · exact absurd hP (h2 hT)

theorem run_normals {S : Sys α} {frames : Rgbd.Obj α} {i : Rgbd.In α} (hB : 0 < i.B) {Ts : List (Rgbd.TM α)} {a : Clouds α} (h : Run S frames i Ts a)
    {P : List (T2 α)} (hP : a .points = some P) : (a .normals).isSome := by
  cases hm : S.mapper with
  | aggregate => exact ((run_wf hB h P hP).2.2 hm P hP).2.1
  | fusion d t =>
    cases h with
    | start => cases hP
    | @next Ts a0 T _ h hloc hc =>
      unfold MapChange at hc
      rw [hm] at hc; simp only at hc
      cases hP0 : a0 .points with
      | none => rw [hP0] at hc; simp only at hc; rw [hc]; rfl
      | some P0 =>
        rw [hP0] at hc; simp only at hc
        obtain ⟨T', P2, rows, _, f⟩ := hc
        obtain ⟨_, _, l', _, _, hl', _⟩ := f.merged .normals (Rgbd.gnormalAt S.nrm S.eps (posed (snap i Ts.length) T)) (by simp)
        rw [hl']; rfl

/-- **C51**.  Along every run the map never shrinks: the map after any number `k` of frames is contained in the map after all of them (index
by index; for `ICPSLAM` with unchanged attributes). -/
theorem map_never_shrinks {S : Sys α} {frames : Rgbd.Obj α} {i : Rgbd.In α} (hB : 0 < i.B) {Ts : List (Rgbd.TM α)} {a : Clouds α}
    (h : Run S frames i Ts a) : ∀ k ≤ Ts.length, ∃ ak, Run S frames i (Ts.take k) ak ∧ Grows (S.mapper = .aggregate) ak a := by
  induction h with
  | start => intro k _; exact ⟨emptyClouds, by simpa using Run.start, Grows.refl _ _⟩
  | @next Ts a T a' h hloc hc ih =>
    intro k hk
    rcases Nat.lt_or_ge Ts.length k with hlt | hge
    · refine ⟨a', ?_, Grows.refl _ _⟩
      rw [List.take_of_length_le (by simp; omega)]
      exact h.next hloc hc
    · obtain ⟨ak, rk, gk⟩ := ih k hge
      refine ⟨ak, by rw [List.take_append_of_le_length hge]; exact rk, gk.trans ?_⟩
      refine change_grows hc (fun P hP => ?_) (run_none h)
      have := run_wf hB h P hP
      have hB' : (posed (snap i Ts.length) T).B = i.B := (snap_spec i Ts.length).1
      rw [hB']; exact this

/-- The rows one frame `i` adds to cloud `b` for the image `img`: its pixels with depth, in row-major order. -/
def contribution (i : Rgbd.In α) (img : Nat → Nat → Nat → Nat → V3 α) (b : Nat) : List (List α) :=
  (Fusion.pixels 1 i.H i.W fun l h w => decide (0 < i.depth b l h w)).map fun x => (img b x.1 x.2.1 x.2.2).toList

/-- The images behind the attributes of an `ICPSLAM` map. -/
def attrImg (S : Sys α) (i : Rgbd.In α) : Attr → Nat → Nat → Nat → Nat → V3 α
  | .points => Rgbd.gvertexAt S.eps i
  | .normals => Rgbd.gnormalAt S.nrm S.eps i
  | .colors => i.rgb
  | .features => fun _ _ _ _ => V3.zero

theorem addition_rows {S : Sys α} {i : Rgbd.In α} (hL : i.L = 1) {X : Attr} (hX : X ≠ .features) :
    addition S i X = some ((List.range i.B).map fun b => ⟨contribution i (attrImg S i X) b, 3⟩) := by
  have e : ∀ f, Fusion.picked (view S i) (view S i).valid f = (List.range i.B).map fun b => ⟨contribution i f b, 3⟩ := by
    intro f
    simp only [Fusion.picked, contribution]
    have : (view S i).L = 1 := hL
    rw [this]; rfl
  cases X with
  | points => simp only [Fusion.frameArg, e]; rfl
  | normals => simp only [Fusion.frameArg, e]; rfl
  | colors => simp only [Fusion.frameArg, e]; rfl
  | features => exact absurd rfl hX

theorem catL_range {B : Nat} {f g : Nat → List (List α)} {C : Nat} :
    catL ((List.range B).map fun b => (⟨f b, C⟩ : T2 α)) ((List.range B).map fun b => ⟨g b, 3⟩) = (List.range B).map fun b => ⟨f b ++ g b, C⟩ := by
  refine List.ext_getElem (by simp [catL]) fun n h1 h2 => ?_
  simp [catL]

/-- **C51** (`ICPSLAM`).  After any number of frames, each cloud of the map is the concatenation, in the order of the frames, of the frames'
pixels with depth, placed at the poses found for their frames, with their normals and colours. -/
theorem icpslam_map_content {S : Sys α} (hS : S.mapper = .aggregate) {frames : Rgbd.Obj α} {i : Rgbd.In α} {Ts : List (Rgbd.TM α)}
    {a : Clouds α} (h : Run S frames i Ts a) (hne : Ts ≠ []) : a .features = none ∧ ∀ X, X ≠ .features →
      a X = some ((List.range i.B).map fun b => ⟨Ts.zipIdx.flatMap fun Tt => contribution (snap i Tt.2) (attrImg S (posed (snap i Tt.2) Tt.1) X) b, 3⟩) := by
  induction h with
  | start => exact absurd rfl hne
  | @next Ts a T a' h hloc hc ih =>
    unfold MapChange at hc
    rw [hS] at hc; simp only at hc
    have hB' : (posed (snap i Ts.length) T).B = i.B := (snap_spec i Ts.length).1
    by_cases hT : Ts = []
    · have ha := (run_empty h).1 hT
      rw [hc, ha, Fusion.specGrow, if_pos (show emptyClouds (α := α) .points = none from rfl)]
      subst hT
      refine ⟨rfl, fun X hX => ?_⟩
      rw [addition_rows rfl hX, hB']
      simp only [List.nil_append, List.zipIdx_singleton, List.flatMap_cons, List.flatMap_nil, List.append_nil]
      rfl
    · obtain ⟨f0, fX⟩ := ih hT
      rw [hc, Fusion.specGrow, if_neg ((run_empty h).2 hT)]
      refine ⟨specAppend_features_none f0, fun X hX => ?_⟩
      rw [specAppend_some (fX X hX) (addition_rows rfl hX), hB', catL_range]
      simp only [List.zipIdx_append, List.flatMap_append, Nat.zero_add, List.zipIdx_singleton, List.flatMap_cons, List.flatMap_nil, List.append_nil]
      rfl

theorem totalConf_picked (al : V3 α → α) (fr : Fusion.Frame α) (m : Nat → Nat → Nat → Nat → Bool) {b : Nat} (hb : b < fr.B) :
    Fusion.totalConf (Fusion.pickedAl al fr m) b = ((Fusion.pixels fr.L fr.H fr.W (m b)).map fun x => al (fr.v b x.1 x.2.1 x.2.2)).sum := by
  have hs : Fusion.sizeAt (Fusion.pickedAl al fr m) b = (Fusion.pixels fr.L fr.H fr.W (m b)).length := by
    rw [Fusion.sizeAt_eq (by simp [Fusion.pickedAl, hb])]; simp [Fusion.pickedAl]
  rw [Fusion.totalConf, hs, ← List.length_map (f := fun x => al (fr.v b x.1 x.2.1 x.2.2))]
  refine Fusion.sum_range_getD _ _ fun k hk => ?_
  rw [List.length_map] at hk
  rw [Fusion.conf, Fusion.conf_pickedAl hb]
  simp [hk]

/-- The weight of one frame for cloud `b`: the sum of the confidence weights of its pixels with depth. -/
def frameWeight (S : Sys α) (i : Rgbd.In α) (b : Nat) : α :=
  ((Fusion.pixels 1 i.H i.W fun l h w => decide (0 < i.depth b l h w)).map fun x => S.al (Rgbd.vertexAt S.eps i b x.1 x.2.1 x.2.2)).sum

/-- **C51** (`PointFusion`).  After any number of frames, the confidences of each cloud add up to the weights of all pixels with depth of all
frames, and the number of points is at most the number of those pixels: nothing observed is lost or counted twice. -/
theorem pointfusion_total_weight {S : Sys α} {d t : α} (hS : S.mapper = .fusion d t) (ht : 0 ≤ t) {frames : Rgbd.Obj α} {i : Rgbd.In α}
    {Ts : List (Rgbd.TM α)} {a : Clouds α} (h : Run S frames i Ts a) (hne : Ts ≠ []) :
    ∃ P F, a .points = some P ∧ a .features = some F ∧ ∀ b < i.B,
      Fusion.totalConf F b = ((List.range Ts.length).map fun s => frameWeight S (snap i s) b).sum ∧
      Fusion.sizeAt P b ≤ ((List.range Ts.length).map fun s => (Fusion.pixels 1 i.H i.W fun l h w => decide (0 < (snap i s).depth b l h w)).length).sum := by
  induction h with
  | start => exact absurd rfl hne
  | @next Ts a T a' h hloc hc ih =>
    unfold MapChange at hc
    rw [hS] at hc; simp only at hc
    have hB' : (posed (snap i Ts.length) T).B = i.B := (snap_spec i Ts.length).1
    by_cases hT : Ts = []
    · have ha := (run_empty h).1 hT
      subst hT
      subst ha
      simp only [emptyClouds] at hc
      rw [hc]
      refine ⟨_, _, rfl, rfl, fun b hb => ⟨?_, ?_⟩⟩
      · rw [totalConf_picked _ _ _ (show b < (posed (snap i 0) T).B from hB'.symm ▸ hb)]
        simp [frameWeight]
        rfl
      · rw [sizeAt_picked _ _ _ (show b < (posed (snap i 0) T).B from hB'.symm ▸ hb)]
        simp only [List.nil_append, List.length_singleton, List.range_one, List.map_cons, List.map_nil, List.sum_cons, List.sum_nil, Nat.add_zero]
        exact le_rfl
    · obtain ⟨P, F, hP, hF, hall⟩ := ih hT
      rw [hP] at hc; simp only at hc
      obtain ⟨T', P', rows, _, f⟩ := hc
      obtain ⟨F0, F', hF0, hF', _, _, _, hcons⟩ := f.conf
      rw [hF] at hF0; cases hF0
      refine ⟨P', F', f.new, hF', fun b hb => ?_⟩
      obtain ⟨h1, h2⟩ := hall b hb
      obtain ⟨c1, c2⟩ := hcons ht b (hB'.symm ▸ hb)
      rw [List.length_append, List.length_singleton, List.range_succ, List.map_append, List.map_append, List.sum_append, List.sum_append]
      refine ⟨?_, ?_⟩
      · rw [c2, h1]
        simp [frameWeight]
        rfl
      · have e : (Fusion.pixels 1 (posed (snap i Ts.length) T).H (posed (snap i Ts.length) T).W ((view S (posed (snap i Ts.length) T)).valid b)).length =
            (Fusion.pixels 1 i.H i.W fun l h w => decide (0 < (snap i Ts.length).depth b l h w)).length := rfl
        rw [e] at c1
        simp only [List.map_cons, List.map_nil, List.sum_cons, List.sum_nil, Nat.add_zero]
        omega

end
end Verif.Slam
