import Verif.Slam.Loop
import Verif.Geom.Props
/-!
Properties C47–C51 of the SLAM classes.
-/
namespace Verif.Slam
open Verif Pcs
set_option linter.unusedSectionVars false
set_option linter.unusedSimpArgs false

section
variable {α : Type*} [Field α] [LinearOrder α] [IsStrictOrderedRing α] [FloorRing α]

/-- Every object reachable through the public API of `RGBDImages`, with at least one sequence of frames of at least 2×2 pixels, can be
passed to `forward`. -/
theorem seqOk_of_hist {S : Sys α} {frames : Rgbd.Obj α} {i : Rgbd.In α} {k : Bool} (h : Rgbd.Hist S.nrm S.eps frames i k)
    (hcf : frames.cf = false ∨ (S.mapper = .aggregate ∧ S.odom = .gt)) (hB : 0 < i.B) (hH : 2 ≤ i.H) (hW : 2 ≤ i.W) : SeqOk S frames i := by
  refine ⟨(Rgbd.hist_rep h).1, fun hc => ?_, hB, hH, hW⟩
  rcases hcf with hcf | ⟨h1, h2⟩
  · rw [hcf] at hc; cases hc
  · exact ⟨h1, by rw [h2]; rfl⟩

theorem poses_getD {Ts : List (Rgbd.TM α)} {t : Nat} {T : Rgbd.TM α} (h : Ts[t]? = some T) (b : Nat) :
    (Ts.map fun (T : Rgbd.TM α) b => T.at' b 0).getD t (fun _ => M4.one) b = T.at' b 0 := by
  rw [List.getD_eq_getElem?_getD, List.getElem?_map, h]; rfl

/-- `forward` is described by an abstract run. -/
theorem forward_run {S : Sys α} {frames : Rgbd.Obj α} {i : Rgbd.In α} (hf : SeqOk S frames i) (hs : SysOk S i) :
    (∃ m R Ts a, forward S frames = .ok (m, R) ∧ Run S frames i Ts a ∧ Ts.length = i.L ∧ MapOk S.mapper i.B m a ∧ R.d0 = i.B ∧ R.d1 = i.L ∧
      (∀ T ∈ Ts, T.d0 = i.B ∧ T.d1 = 1) ∧ ∀ (t : Nat) T, Ts[t]? = some T → ∀ b, R.at' b t = T.at' b 0) ∨
    (∃ e Ts a, forward S frames = .error e ∧ Run S frames i Ts a ∧ Ts.length < i.L ∧ Located S frames i Ts a (.error e)) := by
  rcases iters_spec hf hs i.L le_rfl with ⟨x, Ts, a, e, r, hl, st⟩ | ⟨e, Ts, a, he, r, hl, hloc⟩
  · refine .inl ⟨x.pc, ⟨frames.B, frames.L, fun b s => x.poses.getD s (fun _ => M4.one) b⟩, Ts, a, ?_, r, hl, st.map, hf.rep.hB, hf.rep.hL,
      st.dims, fun t T hT b => ?_⟩
    · simp only [forward, hf.rep.hL, e]
    · simp only [st.poses]; exact poses_getD hT b
  · exact .inr ⟨e, Ts, a, by simp only [forward, hf.rep.hL, he], r, hl, hloc⟩

/-! ### C47 -/

theorem run_gt {S : Sys α} {frames : Rgbd.Obj α} {i : Rgbd.In α} (hS : S.odom = .gt) {Ts : List (Rgbd.TM α)} {a : Clouds α}
    (h : Run S frames i Ts a) : ∀ (t : Nat) T, Ts[t]? = some T → given frames i t = some T := by
  induction h with
  | start => intro t T h; simp at h
  | @next Ts a T a' h hloc hc ih =>
    intro t U hU
    rcases Nat.lt_trichotomy t Ts.length with hlt | rfl | hgt
    · rw [List.getElem?_append_left hlt] at hU; exact ih t U hU
    · rw [List.getElem?_append_right le_rfl] at hU
      simp only [Nat.sub_self, List.getElem?_cons_zero, Option.some.injEq] at hU
      subst hU
      rw [Located, hS] at hloc
      cases hg : given frames i Ts.length with
      | none => rw [hg] at hloc; cases hloc
      | some V => rw [hg] at hloc; simp only [ofPoses, Except.ok.injEq] at hloc; rw [hloc]
    · rw [List.getElem?_eq_none (by simp; omega)] at hU; cases hU

theorem located_gt {S : Sys α} {frames : Rgbd.Obj α} {i : Rgbd.In α} (hS : S.odom = .gt ∨ Ts = []) {a : Clouds α} {r}
    (h : Located S frames i Ts a r) : r = ofPoses (given frames i Ts.length) := by
  rw [Located] at h
  rcases hS with hS | rfl
  · rw [hS] at h; exact h
  · cases ho : S.odom <;> rw [ho] at h <;> exact h

/-- **C47**.  With ground-truth odometry `forward` succeeds on every sequence with poses and returns exactly those poses. -/
theorem gt_returns_given_poses {S : Sys α} {frames : Rgbd.Obj α} {i : Rgbd.In α} (hf : SeqOk S frames i) (hs : SysOk S i) (hS : S.odom = .gt)
    {P : Rgbd.TM α} (hP : frames.poses = some P) :
    ∃ m R, forward S frames = .ok (m, R) ∧ R.d0 = i.B ∧ R.d1 = i.L ∧ ∀ b < i.B, ∀ t < i.L, R.at' b t = P.at' b t := by
  rcases forward_run hf hs with ⟨m, R, Ts, a, e, r, hl, _, d0, d1, _, hR⟩ | ⟨e, Ts, a, _, _, _, hloc⟩
  · refine ⟨m, R, e, d0, d1, fun b hb t ht => ?_⟩
    obtain ⟨T, hT⟩ : ∃ T, Ts[t]? = some T := ⟨_, List.getElem?_eq_getElem (by omega)⟩
    rw [hR t T hT b]
    have := (given_some (run_gt hS r t T hT)).2.2 b hb
    rw [hP] at this; exact this
  · have := located_gt (.inl hS) hloc
    rw [given, hP] at this; cases this

/-- **C47** (poses missing).  A sequence of one frame is placed at the identity; a longer one is a ValueError. -/
theorem gt_missing_poses {S : Sys α} {frames : Rgbd.Obj α} {i : Rgbd.In α} (hf : SeqOk S frames i) (hs : SysOk S i) (hS : S.odom = .gt)
    (hP : frames.poses = none) :
    (2 ≤ i.L → forward S frames = .error .valueError) ∧
    (i.L = 1 → ∃ m R, forward S frames = .ok (m, R) ∧ ∀ b < i.B, R.at' b 0 = M4.one) := by
  have h0 : ∀ t, 0 < t → given frames i t = none := fun t ht => by simp [given, hP, Nat.pos_iff_ne_zero.1 ht]
  have h1 : given frames i 0 = some (eyes i.B) := by simp [given, hP]
  rcases forward_run hf hs with ⟨m, R, Ts, a, e, r, hl, _, d0, d1, _, hR⟩ | ⟨e, Ts, a, e1, r, hl, hloc⟩
  · refine ⟨fun hL => ?_, fun hL => ?_⟩
    · obtain ⟨T, hT⟩ : ∃ T, Ts[1]? = some T := ⟨_, List.getElem?_eq_getElem (by omega)⟩
      have := run_gt hS r 1 T hT
      rw [h0 1 one_pos] at this; cases this
    · refine ⟨m, R, e, fun b hb => ?_⟩
      obtain ⟨T, hT⟩ : ∃ T, Ts[0]? = some T := ⟨_, List.getElem?_eq_getElem (by omega)⟩
      rw [hR 0 T hT]
      have := run_gt hS r 0 T hT
      rw [h1] at this; cases this; rfl
  · have := located_gt (.inl hS) hloc
    refine ⟨fun hL => ?_, fun hL => ?_⟩
    · cases hg : given frames i Ts.length with
      | none => rw [hg] at this; simp only [ofPoses, Except.error.injEq] at this; rw [e1, this]
      | some V => rw [hg] at this; cases this
    · have hz : Ts.length = 0 := by omega
      rw [hz, h1] at this; cases this

/-! ### C48 -/

/-- The question asked for frame `t+1` and its answer. -/
structure Asked (S : Sys α) (provide : PC α → PC α → Except Icp.Err (List (M4 α))) (frames : Rgbd.Obj α) (i : Rgbd.In α)
    (Ts : List (Rgbd.TM α)) (t : Nat) (ans : List (M4 α)) : Prop where
  ask : ∃ a P maps fr Q, Run S frames i (Ts.take (t + 1)) a ∧ a .points = some P ∧ Ts[t]? = some Q ∧
    Question S a P (snap i (t + 1)) (posed (snap i t) Q) Q maps fr ∧ provide maps fr = .ok ans

theorem run_prov {S : Sys α} {frames : Rgbd.Obj α} {i : Rgbd.In α} {provide} (hS : S.odom = .prov provide) {Ts : List (Rgbd.TM α)}
    {a : Clouds α} (h : Run S frames i Ts a) :
    (∀ T, Ts[0]? = some T → given frames i 0 = some T) ∧
    ∀ (t : Nat) T Q, Ts[t + 1]? = some T → Ts[t]? = some Q → ∃ ans, Asked S provide frames i Ts t ans ∧ T = composed ans Q := by
  induction h with
  | start => exact ⟨fun T h => by simp at h, fun t T Q h => by simp at h⟩
  | @next Ts a T a' h hloc hc ih =>
    refine ⟨fun U hU => ?_, fun t U Q hU hQ => ?_⟩
    · cases Ts with
      | nil =>
        simp only [List.nil_append, List.getElem?_cons_zero, Option.some.injEq] at hU
        subst hU
        have := located_gt (.inr rfl) hloc
        simp only [List.length_nil] at this
        cases hg : given frames i 0 with
        | none => rw [hg] at this; cases this
        | some V => rw [hg] at this; simp only [ofPoses, Except.ok.injEq] at this; rw [this]
      | cons x xs => exact ih.1 U (by simpa using hU)
    · rcases Nat.lt_trichotomy (t + 1) Ts.length with hlt | heq | hgt
      · rw [List.getElem?_append_left hlt] at hU
        rw [List.getElem?_append_left (by omega)] at hQ
        obtain ⟨ans, ⟨a1, P, maps, fr, Q1, r1, h1, h2, h3, h4⟩, e⟩ := ih.2 t U Q hU hQ
        refine ⟨ans, ⟨a1, P, maps, fr, Q1, ?_, h1, ?_, h3, h4⟩, e⟩
        · rw [List.take_append_of_le_length (by omega)]; exact r1
        · rw [List.getElem?_append_left (by omega)]; exact h2
      · rw [List.getElem?_append_right (by omega), heq] at hU
        simp only [Nat.sub_self, List.getElem?_cons_zero, Option.some.injEq] at hU
        subst hU
        have hQ' := hQ
        rw [List.getElem?_append_left (by omega)] at hQ
        have hlast : Ts.getLast? = some Q := by
          rw [List.getLast?_eq_getElem?, ← heq]; exact hQ
        rw [Located, hS, hlast] at hloc
        obtain ⟨P, maps, fr, hP, hq, hr⟩ := hloc
        cases ha : provide maps fr with
        | error e => rw [ha] at hr; cases hr
        | ok ans =>
          rw [ha] at hr
          simp only [answer, Except.ok.injEq] at hr
          refine ⟨ans, ⟨a, P, maps, fr, Q, ?_, hP, hQ', ?_, ha⟩, hr⟩
          · rw [heq, List.take_append_of_le_length le_rfl, List.take_length]; exact h
          · rw [← heq] at hq; simpa using hq
      · rw [List.getElem?_eq_none (by simp; omega)] at hU; cases hU

/-- Ordered product `A (t-1) ⋯ A 1 A 0`. -/
def orderedProduct (A : Nat → M4 α) : Nat → M4 α
  | 0 => M4.one
  | t + 1 => (A t).mul (orderedProduct A t)

/-- **C48**.  With a provider, a successful `forward` starts at the first frame's pose (the identity if the sequence has none), asks the
provider one question per later frame, and composes each answer with the previous pose; for affine answers the poses are the ordered
products of the answers. -/
theorem poses_are_running_products {S : Sys α} {frames : Rgbd.Obj α} {i : Rgbd.In α} (hf : SeqOk S frames i) (hs : SysOk S i) {provide}
    (hS : S.odom = .prov provide) {m : PC α} {R : Rgbd.TM α} (h : forward S frames = .ok (m, R)) :
    ∃ (Ts : List (Rgbd.TM α)) (ans : Nat → List (M4 α)), Ts.length = i.L ∧ R.d0 = i.B ∧ R.d1 = i.L ∧
      (∀ (t : Nat) T, Ts[t]? = some T → ∀ b, R.at' b t = T.at' b 0) ∧
      (0 < i.L → ∀ b < i.B, R.at' b 0 = (frames.poses.map fun P => P.at' b 0).getD M4.one) ∧
      (∀ t, t + 1 < i.L → Asked S provide frames i Ts t (ans t) ∧ (ans t).length = i.B ∧
        ∀ b, R.at' b (t + 1) = Geom.composeTransforms1 ((ans t).getD b M4.one) (R.at' b t)) ∧
      (∀ b < i.B, (R.at' b 0).Affine → (∀ t, t + 1 < i.L → ((ans t).getD b M4.one).Affine) →
        ∀ t < i.L, R.at' b t = (orderedProduct (fun s => (ans s).getD b M4.one) t).mul (R.at' b 0)) := by
  rcases forward_run hf hs with ⟨m', R', Ts, a, e, r, hl, _, d0, d1, dm, hR⟩ | ⟨e, Ts, a, e1, r, hl, hloc⟩
  swap
  · rw [h] at e1; cases e1
  rw [h] at e
  simp only [Except.ok.injEq, Prod.mk.injEq] at e
  obtain ⟨rfl, rfl⟩ := e
  obtain ⟨hfirst, hnext⟩ := run_prov hS r
  have hex : ∀ t, ∃ ans, t + 1 < i.L → Asked S provide frames i Ts t ans ∧ ∀ b, R.at' b (t + 1) = Geom.composeTransforms1 (ans.getD b M4.one) (R.at' b t) := by
    intro t
    by_cases ht : t + 1 < i.L
    · have h1 : Ts[t + 1]? = some Ts[t + 1] := List.getElem?_eq_getElem (by omega)
      have h2 : Ts[t]? = some Ts[t] := List.getElem?_eq_getElem (by omega)
      obtain ⟨ans, hask, he⟩ := hnext t _ _ h1 h2
      refine ⟨ans, fun _ => ⟨hask, fun b => ?_⟩⟩
      rw [hR _ _ h1, hR _ _ h2, he]; rfl
    · exact ⟨[], fun h => absurd h ht⟩
  choose ans hans using hex
  refine ⟨Ts, ans, hl, d0, d1, hR, ?_, ?_, ?_⟩
  · intro hL b hb
    have h1 : Ts[0]? = some Ts[0] := List.getElem?_eq_getElem (by omega)
    rw [hR _ _ h1]
    have := (given_some (hfirst _ h1)).2.2 b hb
    cases hp : frames.poses <;> rw [hp] at this <;> exact this
  · intro t ht
    obtain ⟨hask, hcomp⟩ := hans t ht
    refine ⟨hask, ?_, hcomp⟩
    obtain ⟨a1, P, maps, fr, Q, _, _, _, hq, hp⟩ := hask
    obtain ⟨c, Rr, hc, hRr, hRl⟩ := question_frames hq
    rw [hs.prov provide hS maps fr _ c Rr hc hRr hp, hRl]
    exact (snap_spec i (t + 1)).1
  · intro b hb h0 haff t
    induction t with
    | zero => intro _; rw [orderedProduct, M4.one_mul]
    | succ t ih =>
      intro ht
      have hRaff : (R.at' b t).Affine := by
        cases t with
        | zero => exact h0
        | succ t => rw [(hans t (by omega)).2 b]; exact ⟨rfl, rfl⟩
      rw [(hans t ht).2 b, Geom.compose_is_matrix_product _ _ (haff t ht) hRaff, ih (by omega), orderedProduct, M4.mul_assoc]

/-- C48 (failure).  `forward` with a provider fails only if the provider fails on some question. -/
theorem forward_fails_only_if_provider_fails {S : Sys α} {frames : Rgbd.Obj α} {i : Rgbd.In α} (hf : SeqOk S frames i) (hs : SysOk S i) {provide}
    (hS : S.odom = .prov provide) {e : Err} (h : forward S frames = .error e) :
    ∃ Ts a P maps fr Q e', Run S frames i Ts a ∧ 0 < Ts.length ∧ Ts.length < i.L ∧ Ts.getLast? = some Q ∧ a .points = some P ∧
      Question S a P (snap i Ts.length) (posed (snap i (Ts.length - 1)) Q) Q maps fr ∧ provide maps fr = .error e' ∧ e = .icp e' := by
  rcases forward_run hf hs with ⟨m', R', Ts, a, e1, _⟩ | ⟨e1, Ts, a, h1, r, hl, hloc⟩
  · rw [h] at e1; cases e1
  rw [h] at h1; cases h1
  cases hT : Ts.getLast? with
  | none =>
    have := List.getLast?_eq_none_iff.1 hT
    subst this
    have := located_gt (.inr rfl) hloc
    simp only [List.length_nil] at this
    unfold given at this
    cases hp : frames.poses <;> rw [hp] at this <;> simp [ofPoses] at this
  | some Q =>
    rw [Located, hS, hT] at hloc
    obtain ⟨P, maps, fr, hP, hq, hr⟩ := hloc
    cases ha : provide maps fr with
    | ok ans => rw [ha] at hr; cases hr
    | error e' =>
      rw [ha] at hr
      simp only [answer, Except.error.injEq] at hr
      refine ⟨Ts, a, P, maps, fr, Q, e', r, ?_, hl, hT, hP, hq, ha, hr⟩
      rcases Ts with _ | ⟨x, xs⟩
      · cases hT
      · simp

end
end Verif.Slam
