import Verif.Slam.Moved
/-!
C65 and C66: batch independence and world-frame equivariance of whole runs.
-/
namespace Verif.Slam
open Verif Pcs
set_option linter.unusedSectionVars false
set_option linter.unusedSimpArgs false

section
variable {α : Type*} [Field α] [LinearOrder α] [IsStrictOrderedRing α] [FloorRing α]

/-- Two sequences: element `k` of the second shows what element `σ k` of the first shows, at poses moved by `G k` (with an
odometry provider only the pose of the first frame is used). -/
structure SeqPair (S : Sys α) (n : Nat) (σ : Nat → Nat) (G : Nat → M4 α) (frames frames2 : Rgbd.Obj α) (i i2 : Rgbd.In α) : Prop where
  len : i2.L = i.L
  scene : ∀ t < i.L, SameScene n σ (snap i t) (snap i2 t)
  given : ∀ t < i.L, (t = 0 ∨ S.odom = .gt) → ∀ T, given frames i t = some T → ∃ U, given frames2 i2 t = some U ∧ ∀ k < n, PoseMoved (G k) (T.at' (σ k) 0) (U.at' k 0)
  rigid : ∀ k < n, (G k).Rigid
  norm : ∀ k < n, ∀ v, S.nrm ((G k).R.mulVec v) = S.nrm v
  thr : ∀ d t, S.mapper = .fusion d t → 0 ≤ t ∨ ∀ k < n, G k = M4.one

/-- A relative transform between points of the moved world: `A2 ∘ g = g ∘ A`. -/
structure StepMoved (g A A2 : M4 α) : Prop where
  R : A2.R.mul g.R = g.R.mul A.R
  t : (A2.R.mulVec g.t).add A2.t = movePt g A.t

/-- The provider's answers for the second pair of clouds are its answers for the first, moved. -/
def Follows (provide : PC α → PC α → Except Icp.Err (List (M4 α))) (n : Nat) (σ : Nat → Nat) (G : Nat → M4 α) : Prop :=
  ∀ m f m2 f2 a c a2 c2, Inv m a → Inv f c → Inv m2 a2 → Inv f2 c2 → Moved n σ G a a2 → Moved n σ G c c2 →
    (∀ P, c .points = some P → ∀ k < n, σ k < P.length) → ∀ ans, provide m f = .ok ans →
    ∃ ans2, provide m2 f2 = .ok ans2 ∧ ∀ k < n, StepMoved (G k) (ans.getD (σ k) M4.one) (ans2.getD k M4.one)

variable {S : Sys α} {n : Nat} {σ : Nat → Nat} {G : Nat → M4 α} {frames frames2 : Rgbd.Obj α} {i i2 : Rgbd.In α}

theorem posed_scene {i j : Rgbd.In α} (h : SameScene n σ i j) (T U : Rgbd.TM α) : SameScene n σ (posed i T) (posed j U) :=
  ⟨h.B, h.sub, h.H, h.W, h.rgb, h.depth, h.K, h.pix⟩

/-! ### Confidences are positive -/

theorem run_conf (hB : 0 < i.B) (hal : ∀ p, 0 < S.al p) {d t : α} (hS : S.mapper = .fusion d t) {Ts : List (Rgbd.TM α)} {a : Clouds α}
    (r : Run S frames i Ts a) : ∀ F, a .features = some F → ∀ b n, (Fusion.rowAt F b n).isSome → 0 < Fusion.conf F b n := by
  induction r with
  | start => intro F h; cases h
  | @next Ts a T a' r hloc hc ih =>
    unfold MapChange at hc
    rw [hS] at hc; simp only at hc
    cases hP : a .points with
    | none =>
      rw [hP] at hc; simp only at hc
      subst hc
      intro F hF b n hs
      simp only [Fusion.newArg, Option.some.injEq] at hF
      subst hF
      obtain ⟨row, hrow⟩ := Option.isSome_iff_exists.1 hs
      have hm : ∃ v, row = [S.al v] := by
        simp only [Fusion.rowAt, Fusion.pickedAl, Option.bind_eq_some_iff, List.getElem?_map, Option.map_eq_some_iff] at hrow
        obtain ⟨t, ⟨b', _, rfl⟩, h2⟩ := hrow
        simp only [List.getElem?_map, Option.map_eq_some_iff] at h2
        obtain ⟨x, _, rfl⟩ := h2
        exact ⟨_, rfl⟩
      obtain ⟨v, rfl⟩ := hm
      simp only [Fusion.conf, hrow, Option.getD_some, List.getD_cons_zero]
      exact hal v
    | some P =>
      rw [hP] at hc; simp only at hc
      obtain ⟨T', P', rows, hT, f⟩ := hc
      obtain ⟨F, F1, hF, hF1, c1, m1, n1, _⟩ := f.conf
      intro F' hF' b n hs
      rw [hF1] at hF'; cases hF'
      by_cases hb : b < (posed (snap i Ts.length) T).B
      · by_cases hn : n < Fusion.sizeAt P b
        · have o1 : (Fusion.rowAt F b n).isSome := by
            rw [Fusion.sizeAt_isSome, Fusion.sizeAt_sizes (f.oldWf.rows _ _ hF)]; exact hn
          by_cases hex : ∃ r ∈ rows, r.b = b ∧ r.n = n
          · obtain ⟨r, hr, rfl, rfl⟩ := hex
            rw [m1.matched r hr]
            exact add_pos (ih F hF _ _ o1) (hal _)
          · rw [m1.kept b n o1 fun r hr hh => hex ⟨r, hr, hh⟩]
            exact ih F hF _ _ o1
        · obtain ⟨q, rfl⟩ := Nat.exists_eq_add_of_le (not_lt.1 hn)
          have := n1 b hb q
          obtain ⟨row, hrow⟩ := Option.isSome_iff_exists.1 hs
          have h2 := hrow
          rw [this, Option.map_eq_some_iff] at h2
          obtain ⟨x, _, rfl⟩ := h2
          simp only [Fusion.conf, hrow, Option.getD_some, List.getD_cons_zero]
          exact hal _
      · exfalso
        have : F1.length = (posed (snap i Ts.length) T).B := (f.wf.length hF1).trans f.batch
        rw [Fusion.rowAt, List.getElem?_eq_none (by omega)] at hs
        cases hs

/-! ### What the provider is asked -/

theorem grid_lift {P Q : List (T2 α)} {ip jp : Rgbd.In α} {T U : Nat → M4 α} {rows rows2 : List Fusion.Row} (h : SameScene n σ ip jp)
    (hp : ∀ k < n, PoseMoved (G k) (T (σ k)) (U k)) (hg : ∀ k < n, (G k).Rigid)
    (hPQ : ∀ k < n, ∀ x, Fusion.vecAt Q k x = (Fusion.vecAt P (σ k) x).map (movePt (G k))) (h1 : ActiveRows P ip T rows)
    (h2 : ActiveRows Q jp U rows2) (ds : Int) {k : Nat} (hk : k < n) :
    (Icp.onGridOf ds rows2 k).map (lift σ) = Icp.onGridOf ds rows (σ k) := by
  refine rows_unique ?_ (h1.sorted.filter _) fun r => ?_
  · rw [List.pairwise_map]
    refine (h2.sorted.filter _).imp_of_mem fun {x y} hx hy hxy => ?_
    have ex : x.b = k := by have := (List.mem_filter.1 hx).2; simp at this; exact this.1
    have ey : y.b = k := by have := (List.mem_filter.1 hy).2; simp at this; exact this.1
    unfold Fusion.Row.before at hxy ⊢
    exact .inr ⟨by show σ x.b = σ y.b; rw [ex, ey], by show x.n < y.n; omega⟩
  · have key : ∀ r : Fusion.Row, r.b = k → (r ∈ rows2 ↔ lift σ r ∈ rows) := by
      rintro r rfl
      rw [h1.mem, h2.mem]
      simp only [lift, h.H, h.W, h.K _ hk]
      refine and_congr_right fun _ => and_congr_right fun _ => ⟨fun ⟨p, e, hv⟩ => ?_, fun ⟨p, e, hv⟩ => ?_⟩
      · rw [hPQ _ hk, Option.map_eq_some_iff] at e
        obtain ⟨q, hq, rfl⟩ := e
        rw [toCamera_moved (hg _ hk) (hp _ hk)] at hv
        exact ⟨q, hq, hv⟩
      · refine ⟨movePt (G r.b) p, by rw [hPQ _ hk, e]; rfl, ?_⟩
        rw [toCamera_moved (hg _ hk) (hp _ hk)]
        exact hv
    simp only [List.mem_map, Icp.onGridOf, List.mem_filter, decide_eq_true_eq]
    constructor
    · rintro ⟨s, ⟨hs, e, h3⟩, rfl⟩
      exact ⟨(key s e).1 hs, by show σ s.b = _; rw [e], h3⟩
    · rintro ⟨hs, e, h3⟩
      have : r = lift σ { r with b := k } := Fusion.Row.ext e rfl rfl rfl
      refine ⟨{ r with b := k }, ⟨(key _ rfl).2 (this ▸ hs), rfl, h3⟩, this.symm⟩

theorem maps_moved {a c : Clouds α} {P Q : List (T2 α)} {ip jp : Rgbd.In α} {T U : Nat → M4 α} {rows rows2 : List Fusion.Row} (h : SameScene n σ ip jp)
    (hp : ∀ k < n, PoseMoved (G k) (T (σ k)) (U k)) (hg : ∀ k < n, (G k).Rigid) (hm : Moved n σ G a c) (hP : a .points = some P)
    (hQ : c .points = some Q) (hl : P.length = ip.B) (hw : Wf a P) (h1 : ActiveRows P ip T rows) (h2 : ActiveRows Q jp U rows2) (ds : Int) :
    Moved n σ G (Icp.mapAt a P.length ds rows) (Icp.mapAt c Q.length ds rows2) := by
  have e : ∀ (a : Clouds α) B rows X, X ≠ Attr.features → Icp.mapAt a B ds rows X =
      (a X).map fun l => (List.range B).map fun b => ⟨(Icp.onGridOf ds rows b).map fun r => (Fusion.rowAt l b r.n).getD [], 3⟩ := by
    intro a B rows X hX; cases X <;> first | rfl | exact absurd rfl hX
  have hQn : Q.length = n := hm.len _ _ hQ
  refine ⟨fun X => ?_, fun X m hm' => ?_, fun X l m hl' hm' => ?_⟩
  · by_cases hX : X = .features
    · subst hX; simp [Icp.mapAt]
    · rw [e _ _ _ X hX, e _ _ _ X hX, Option.map_eq_none_iff, Option.map_eq_none_iff]; exact hm.attr X
  · by_cases hX : X = .features
    · subst hX; cases hm'
    · rw [e _ _ _ X hX, Option.map_eq_some_iff] at hm'
      obtain ⟨l, _, rfl⟩ := hm'
      simp [hQn]
  · by_cases hX : X = .features
    · subst hX; cases hm'
    · rw [e _ _ _ X hX, Option.map_eq_some_iff] at hm' hl'
      obtain ⟨m0, hm0, rfl⟩ := hm'
      obtain ⟨l0, hl0, rfl⟩ := hl'
      intro k hk q
      rw [rowAt_range _ _ (by omega), rowAt_range _ _ (by rw [hl]; exact h.sub k hk)]
      rw [← grid_lift h hp hg (fun k hk x => moved_points hm hP hQ hk x) h1 h2 ds hk]
      simp only [List.getElem?_map, Option.map_map]
      cases hq : (Icp.onGridOf ds rows2 k)[q]? with
      | none => rfl
      | some r =>
        simp only [Option.map_some, Function.comp, Option.some.injEq, lift]
        obtain ⟨hr1, hr2⟩ := List.mem_filter.1 (List.mem_of_getElem? hq)
        have hrb : r.b = k := by simp at hr2; exact hr2.1
        obtain ⟨_, _, p, hp', _⟩ := (h2.mem r).1 hr1
        rw [hrb, moved_points hm hP hQ hk, Option.map_eq_some_iff] at hp'
        obtain ⟨p0, hp0, _⟩ := hp'
        have hs : (Fusion.rowAt l0 (σ k) r.n).isSome := by
          rw [Fusion.sizeAt_isSome, Fusion.sizeAt_sizes (hw.rows _ _ hl0), ← Fusion.sizeAt_isSome]
          simp only [Fusion.vecAt, Option.map_eq_some_iff] at hp0
          obtain ⟨row, hr', _⟩ := hp0
          rw [hr']; rfl
        obtain ⟨row, hrow⟩ := Option.isSome_iff_exists.1 hs
        rw [hm.row X l0 m0 hl0 hm0 k hk, hrow]
        rfl

theorem frames_moved {x y : Rgbd.In α} {Q Q2 : Rgbd.TM α} {ds : Int} (h : SameScene n σ x y) (hp : ∀ k < n, PoseMoved (G k) (Q.at' (σ k) 0) (Q2.at' k 0))
    {px px2 : Nat → List (Nat × Nat)}
    (h1 : ∀ b < x.B, (px b).Pairwise Icp.rowMajor ∧ ∀ h w, (h, w) ∈ px b ↔ h < x.H ∧ w < x.W ∧ ds ∣ (h : Int) ∧ ds ∣ (w : Int) ∧ 0 < x.depth b 0 h w)
    (h2 : ∀ b < y.B, (px2 b).Pairwise Icp.rowMajor ∧ ∀ h w, (h, w) ∈ px2 b ↔ h < y.H ∧ w < y.W ∧ ds ∣ (h : Int) ∧ ds ∣ (w : Int) ∧ 0 < y.depth b 0 h w) :
    Moved n σ G (Icp.framesAt (Fusion.Frame.ofIn S.nrm S.eps { x with poses := some Q.at' }) px)
      (Icp.framesAt (Fusion.Frame.ofIn S.nrm S.eps { y with poses := some Q2.at' }) px2) := by
  have epx : ∀ k < n, px2 k = px (σ k) := fun k hk => px_unique (h2 k (by rw [h.B]; exact hk)).1 (h1 _ (h.sub k hk)).1 fun u v => by
    rw [(h2 k (by rw [h.B]; exact hk)).2, (h1 _ (h.sub k hk)).2, h.H, h.W, h.depth k hk]
  have sc : SameScene n σ { x with poses := some Q.at' } { y with poses := some Q2.at' } := ⟨h.B, h.sub, h.H, h.W, h.rgb, h.depth, h.K, h.pix⟩
  have key : ∀ (X : Attr) (f f2 : Nat → Nat → Nat → V3 α),
      (∀ k < n, ∀ u v, 0 < x.depth (σ k) 0 u v → (f2 k u v).toList = act (G k) X (f (σ k) u v).toList) →
      ∀ k < n, ∀ q, Fusion.rowAt ((List.range y.B).map fun b => Icp.cloudOf (px2 b) (f2 b)) k q =
        (Fusion.rowAt ((List.range x.B).map fun b => Icp.cloudOf (px b) (f b)) (σ k) q).map (act (G k) X) := by
    intro X f f2 hf k hk q
    rw [rowAt_range _ _ (by rw [h.B]; exact hk), rowAt_range _ _ (h.sub k hk)]
    simp only [Icp.cloudOf, List.getElem?_map, Option.map_map, epx k hk]
    cases hq : (px (σ k))[q]? with
    | none => rfl
    | some z =>
      simp only [Option.map_some, Function.comp, Option.some.injEq]
      exact hf k hk _ _ (((h1 _ (h.sub k hk)).2 z.1 z.2).1 (List.mem_of_getElem? hq)).2.2.2.2
  have im := fun k (hk : k < n) u v (hd : 0 < x.depth (σ k) 0 u v) => img_moved (G := G) sc S rfl rfl hk (hp k hk) (.inl hd)
  refine ⟨fun X => by cases X <;> simp [Icp.framesAt], fun X m hm' => ?_, fun X l m hl' hm' => ?_⟩
  · cases X <;> simp only [Icp.framesAt, Option.some.injEq, reduceCtorEq] at hm' <;> subst hm' <;> simp only [List.length_map, List.length_range] <;> exact h.B
  · cases X <;> simp only [Icp.framesAt, Option.some.injEq, reduceCtorEq] at hl' hm' <;> subst hl' <;> subst hm'
    · exact key .points _ _ fun k hk u v hd => (im k hk u v hd).1
    · exact key .normals _ _ fun k hk u v hd => (im k hk u v hd).2.1
    · exact key .colors _ _ fun k hk u v hd => (im k hk u v hd).2.2.1

theorem composed_moved {A A2 T U : M4 α} {g : M4 α} (hs : StepMoved g A A2) (hp : PoseMoved g T U) :
    PoseMoved g (Geom.composeTransforms1 A T) (Geom.composeTransforms1 A2 U) := by
  refine ⟨?_, ?_, rfl, rfl⟩
  · show A2.R.mul U.R = g.R.mul (A.R.mul T.R)
    rw [hp.R, ← M3.mul_assoc, hs.R, M3.mul_assoc]
  · show (A2.R.mulVec U.t).add A2.t = movePt g ((A.R.mulVec T.t).add A.t)
    have h1 : A2.R.mulVec (g.R.mulVec T.t) = g.R.mulVec (A.R.mulVec T.t) := by rw [← M3.mul_mulVec, hs.R, M3.mul_mulVec]
    have h2 := hs.t
    rw [hp.t, movePt, M3.mulVec_add, h1]
    simp only [movePt, M3.mulVec_add] at h2 ⊢
    rw [V3.ext_iff] at h2 ⊢
    obtain ⟨e1, e2, e3⟩ := h2
    simp only [V3.add] at e1 e2 e3 ⊢
    refine ⟨?_, ?_, ?_⟩
    · rw [add_assoc, e1, add_assoc]
    · rw [add_assoc, e2, add_assoc]
    · rw [add_assoc, e3, add_assoc]

theorem getLast_get {β : Type*} {l : List β} {x : β} (h : l.getLast? = some x) : l[l.length - 1]? = some x := by
  rw [List.getLast?_eq_getElem?] at h; exact h

/-- The second sequence's frame is located if the first's is, at the moved pose. -/
theorem located_moved (hq : SeqPair S n σ G frames frames2 i i2) (hB : 0 < i.B) (hpv : ∀ provide, S.odom = .prov provide → Follows provide n σ G)
    {Ts Us : List (Rgbd.TM α)} {a c : Clouds α} (r : Run S frames i Ts a) (hlt : Ts.length < i.L) (hl : Us.length = Ts.length)
    (hm : Moved n σ G a c)
    (hps : ∀ (t : Nat) T U, Ts[t]? = some T → Us[t]? = some U → ∀ k < n, PoseMoved (G k) (T.at' (σ k) 0) (U.at' k 0)) {T : Rgbd.TM α}
    (h1 : Located S frames i Ts a (.ok T)) {r2 : Except Err (Rgbd.TM α)} (h2 : Located S frames2 i2 Us c r2) :
    ∃ U, r2 = .ok U ∧ ∀ k < n, PoseMoved (G k) (T.at' (σ k) 0) (U.at' k 0) := by
  have fin : (Ts.length = 0 ∨ S.odom = .gt) → (ofPoses (given frames i Ts.length) = .ok T) → r2 = ofPoses (given frames2 i2 Us.length) →
      ∃ U, r2 = .ok U ∧ ∀ k < n, PoseMoved (G k) (T.at' (σ k) 0) (U.at' k 0) := by
    intro h0 e1 e2
    cases hg : given frames i Ts.length with
    | none => rw [hg] at e1; cases e1
    | some T' =>
      rw [hg] at e1; simp only [ofPoses, Except.ok.injEq] at e1; subst e1
      obtain ⟨U, hU, hk⟩ := hq.given _ hlt h0 _ hg
      rw [hl, hU] at e2
      exact ⟨U, e2, hk⟩
  unfold Located at h1 h2
  cases ho : S.odom with
  | gt => rw [ho] at h1 h2; exact fin (.inr ho) h1.symm h2
  | prov provide =>
    cases hT : Ts.getLast? with
    | none =>
      have : Us.getLast? = none := by
        rw [List.getLast?_eq_none_iff] at hT ⊢
        rw [hT] at hl; simpa using hl
      rw [ho, hT] at h1; rw [ho, this] at h2
      exact fin (.inl (by rw [List.getLast?_eq_none_iff] at hT; rw [hT]; rfl)) h1.symm h2
    | some Q =>
      obtain ⟨Q2, hU⟩ : ∃ Q2, Us.getLast? = some Q2 := by
        cases hU : Us.getLast? with
        | some Q2 => exact ⟨Q2, rfl⟩
        | none => rw [List.getLast?_eq_none_iff] at hU; rw [hU] at hl; rw [List.length_eq_zero_iff.1 hl.symm] at hT; cases hT
      rw [ho, hT] at h1; rw [ho, hU] at h2
      obtain ⟨P, m, f, hP, q, e⟩ := h1
      obtain ⟨P2, m2, f2, hP2, q2, e2⟩ := h2
      have hTl : 0 < Ts.length := by cases Ts <;> simp at hT ⊢
      have hQQ := hps (Ts.length - 1) Q Q2 (getLast_get hT) (hl ▸ getLast_get hU)
      obtain ⟨rows, ar, im⟩ := q.maps
      obtain ⟨rows2, ar2, im2⟩ := q2.maps
      obtain ⟨px, hf, hx⟩ := q.frames
      obtain ⟨px2, hf2, hx2⟩ := q2.frames
      rw [hl] at ar2 hf2 hx2
      obtain ⟨hw, hlen, _⟩ := run_wf hB r P hP
      have mm := maps_moved (posed_scene (hq.scene (Ts.length - 1) (by omega)) Q Q2) hQQ hq.rigid hm hP hP2
        (hlen.trans (snap_spec i (Ts.length - 1)).1.symm) hw ar ar2 S.ds
      have mf := frames_moved (S := S) (hq.scene Ts.length hlt) hQQ hx hx2
      have hin : ∀ P0, Icp.framesAt (Fusion.Frame.ofIn S.nrm S.eps { snap i Ts.length with poses := some Q.at' }) px .points = some P0 →
          ∀ k < n, σ k < P0.length := by
        intro P0 hP0 k hk
        simp only [Icp.framesAt, Option.some.injEq] at hP0
        subst hP0
        simp only [List.length_map, List.length_range]
        exact (hq.scene Ts.length hlt).sub k hk
      cases ha : provide m f with
      | error e' => rw [ha] at e; cases e
      | ok ans =>
        obtain ⟨ans2, h5, h6⟩ := hpv provide ho m f m2 f2 _ _ _ _ im hf im2 hf2 mm mf hin ans ha
        rw [ha] at e; rw [h5] at e2
        simp only [answer, Except.ok.injEq] at e
        refine ⟨_, e2, fun k hk => ?_⟩
        rw [e]
        exact composed_moved (h6 k hk) (hQQ k hk)

/-- The map after the frame. -/
theorem change_moved (hq : SeqPair S n σ G frames frames2 i i2) (hB : 0 < i.B) (hal : S.mapper = .aggregate ∨ ∀ p, 0 < S.al p)
    {Ts : List (Rgbd.TM α)} {a a' c c' : Clouds α} (r : Run S frames i Ts a) (hlt : Ts.length < i.L) (hm : Moved n σ G a c) {T U : Rgbd.TM α}
    (hp : ∀ k < n, PoseMoved (G k) (T.at' (σ k) 0) (U.at' k 0)) (h1 : MapChange S (posed (snap i Ts.length) T) a a')
    (h2 : MapChange S (posed (snap i2 Ts.length) U) c c') : Moved n σ G a' c' := by
  have sc := posed_scene (hq.scene Ts.length hlt) T U
  unfold MapChange at h1 h2
  cases hS : S.mapper with
  | aggregate =>
    rw [hS] at h1 h2; simp only at h1 h2
    subst h1; subst h2
    have ad := addition_moved (G := G) sc S rfl rfl (T := T.at') (U := U.at') rfl rfl hp
    cases hP : a .points with
    | none =>
      rw [Fusion.specGrow, if_pos hP, Fusion.specGrow, if_pos ((hm.attr .points).2 hP)]; exact ad
    | some P =>
      obtain ⟨hw, hlen, _⟩ := run_wf hB r P hP
      refine append_moved hm ad hP fun X l m hl hm' => ?_
      have : m.length = i.B := by
        rw [← (snap_spec i Ts.length).1]
        cases X <;> simp only [Fusion.frameArg, Option.some.injEq, reduceCtorEq] at hm' <;> subst hm' <;> rw [Fusion.picked_length] <;> rfl
      rw [hw.length hl, hlen, this]
  | fusion d t =>
    rw [hS] at h1 h2; simp only at h1 h2
    have hal' := hal.resolve_left (by rw [hS]; simp)
    cases hP : a .points with
    | none =>
      have hc := (hm.attr .points).2 hP
      rw [hP] at h1; rw [hc] at h2
      simp only at h1 h2
      subst h1; subst h2
      exact newArg_moved (G := G) sc S rfl rfl (T := T.at') (U := U.at') rfl rfl hp
    | some P =>
      obtain ⟨Q, hQ⟩ := Option.ne_none_iff_exists'.1 (fun hc => absurd ((hm.attr .points).1 hc) (by simp [hP]) : c .points ≠ none)
      rw [hP] at h1; rw [hQ] at h2
      simp only at h1 h2
      obtain ⟨T', P', rows, hT, f⟩ := h1
      obtain ⟨U', Q', rows2, hU, f2⟩ := h2
      cases hT; cases hU
      exact fusion_moved ⟨sc, rfl, rfl, hp, hq.rigid, hq.norm, hq.thr d t hS, hm⟩ f f2 hal' (run_conf hB hal' hS r)

theorem run_moved (hq : SeqPair S n σ G frames frames2 i i2) (hB : 0 < i.B) (hal : S.mapper = .aggregate ∨ ∀ p, 0 < S.al p)
    (hpv : ∀ provide, S.odom = .prov provide → Follows provide n σ G) {Ts : List (Rgbd.TM α)} {a : Clouds α} (r : Run S frames i Ts a) :
    Ts.length ≤ i.L → ∀ {Us c}, Run S frames2 i2 Us c → Us.length = Ts.length → Moved n σ G a c ∧
      ∀ (t : Nat) T U, Ts[t]? = some T → Us[t]? = some U → ∀ k < n, PoseMoved (G k) (T.at' (σ k) 0) (U.at' k 0) := by
  induction r with
  | start =>
    intro _ Us c r2 hl
    cases r2 with
    | start => exact ⟨moved_empty, fun t T U h => by simp at h⟩
    | next => simp at hl
  | @next Ts a T a' r hloc hc ih =>
    intro hle Us c r2 hl
    cases r2 with
    | start => simp at hl
    | @next Us b U _ r2 hloc2 hc2 =>
      simp only [List.length_append, List.length_singleton] at hl hle
      have hl' : Us.length = Ts.length := by omega
      obtain ⟨hm, hps⟩ := ih (by omega) r2 hl'
      obtain ⟨U', e, hp⟩ := located_moved hq hB hpv r (by omega) hl' hm hps hloc hloc2
      cases e
      rw [hl'] at hc2
      refine ⟨change_moved hq hB hal r (by omega) hm hp hc hc2, fun t V W hV hW => ?_⟩
      rcases Nat.lt_or_ge t Ts.length with ht | ht
      · rw [List.getElem?_append_left ht] at hV
        rw [List.getElem?_append_left (by omega)] at hW
        exact hps t V W hV hW
      · have ht' : t = Ts.length := by
          have := (List.getElem?_eq_some_iff.1 hV).1
          simp at this; omega
        subst ht'
        rw [List.getElem?_concat_length] at hV
        rw [← hl', List.getElem?_concat_length] at hW
        cases hV; cases hW
        exact hp

/-- If `forward` succeeds on the first sequence it succeeds on the second, with the moved poses and the moved map. -/
theorem forward_moved (hf : SeqOk S frames i) (hs : SysOk S i) (hf2 : SeqOk S frames2 i2) (hs2 : SysOk S i2)
    (hq : SeqPair S n σ G frames frames2 i i2) (hpv : ∀ provide, S.odom = .prov provide → Follows provide n σ G) {m : PC α} {R : Rgbd.TM α}
    (h : forward S frames = .ok (m, R)) : ∃ m2 R2 a c, forward S frames2 = .ok (m2, R2) ∧ R2.d0 = i2.B ∧ R2.d1 = i2.L ∧ MapOk S.mapper i.B m a ∧ MapOk S.mapper i2.B m2 c ∧
      (0 < i.L → a .points ≠ none) ∧ Moved n σ G a c ∧
      ∀ k < n, ∀ t < i.L, PoseMoved (G k) (R.at' (σ k) t) (R2.at' k t) := by
  have hal : S.mapper = .aggregate ∨ ∀ p, 0 < S.al p := hs.map.imp id fun h => h.1
  rcases forward_run hf hs with ⟨m1, R1, Ts, a, e, r, hl, hm, _, _, _, hR⟩ | ⟨e, Ts, a, e1, _⟩
  swap
  · rw [h] at e1; cases e1
  rw [h] at e; cases e
  rcases forward_run hf2 hs2 with ⟨m2, R2, Us, c, e, r2, hl2, hm2, d0, d1, _, hR2⟩ | ⟨e, Us, c, e1, r2, hl2, hloc2⟩
  · obtain ⟨mv, ps⟩ := run_moved hq hf.B hal hpv r hl.le r2 (by rw [hl2, hl, hq.len])
    refine ⟨m2, R2, a, c, e, d0, d1, hm, hm2, fun hL => (run_empty r).2 (by rintro rfl; simp at hl; omega), mv, fun k hk t ht => ?_⟩
    have h1 : Ts[t]? = some Ts[t] := List.getElem?_eq_getElem (by omega)
    have htU : t < Us.length := by rw [hl2, hq.len]; exact ht
    have h2 : Us[t]? = some Us[t] := List.getElem?_eq_getElem htU
    rw [hR t _ h1, hR2 t _ h2]
    exact ps t _ _ h1 h2 k hk
  · exfalso
    rw [hq.len] at hl2
    -- the first run passes this frame
    have pass : ∀ {Vs b}, Run S frames i Vs b → Us.length < Vs.length → ∃ T a', Run S frames i (Vs.take Us.length) a' ∧
        Located S frames i (Vs.take Us.length) a' (.ok T) := by
      intro Vs b rv
      induction rv with
      | start => intro h; simp at h
      | @next Vs b V b' rv hlv hcv ih =>
        intro hlt
        simp only [List.length_append, List.length_singleton] at hlt
        rcases Nat.lt_or_ge Us.length Vs.length with h | h
        · obtain ⟨T, a', h1, h2⟩ := ih h
          rw [List.take_append_of_le_length h.le]
          exact ⟨T, a', h1, h2⟩
        · have : (Vs ++ [V]).take Us.length = Vs := by
            rw [List.take_append_of_le_length (by omega), List.take_of_length_le (by omega)]
          rw [this]
          exact ⟨V, b, rv, hlv⟩
    obtain ⟨T, a', rp, hlp⟩ := pass r (by omega)
    have hlen : (Ts.take Us.length).length = Us.length := by rw [List.length_take]; omega
    obtain ⟨mv, ps⟩ := run_moved hq hf.B hal hpv rp (by omega) r2 hlen.symm
    obtain ⟨U, e', _⟩ := located_moved hq hf.B hpv rp (by omega) hlen.symm mv ps hlp hloc2
    cases e'


/-! ### C65 -/

theorem collect_nth {β : Type*} {f : Nat → Except Icp.Err β} : ∀ {l : List Nat} {xs : List β}, Icp.collect f l = .ok xs →
    xs.length = l.length ∧ ∀ (k : Nat) (b : Nat), l[k]? = some b → ∃ x, xs[k]? = some x ∧ f b = .ok x := by
  intro l
  induction l with
  | nil => intro xs h; simp only [Icp.collect, Except.ok.injEq] at h; subst h; simp
  | cons b l ih =>
    intro xs h
    rw [Icp.collect] at h
    cases hb : f b with
    | error e => rw [hb] at h; cases h
    | ok x =>
      rw [hb] at h
      cases hl : Icp.collect f l with
      | error e => simp only [hl] at h; cases h
      | ok ys =>
        simp only [hl, Except.ok.injEq] at h
        subst h
        obtain ⟨h1, h2⟩ := ih hl
        refine ⟨by simp [h1], fun k c hk => ?_⟩
        cases k with
        | zero => simp only [List.getElem?_cons_zero, Option.some.injEq] at hk; subst hk; exact ⟨x, by simp, hb⟩
        | succ k => simp only [List.getElem?_cons_succ] at hk ⊢; exact h2 k c hk

theorem vecs_getD {l : List (T2 α)} {b : Nat} : Icp.vecs (l.getD b ⟨[], 0⟩) = ((l[b]?.map fun t => t.rows).getD []).map Fusion.toV3 := by
  rw [List.getD_eq_getElem?_getD]
  cases l[b]? <;> rfl

theorem vecs_ext {l m : List (T2 α)} {b k : Nat} (h : ∀ x, Fusion.vecAt m k x = Fusion.vecAt l b x) :
    Icp.vecs (m.getD k ⟨[], 0⟩) = Icp.vecs (l.getD b ⟨[], 0⟩) := by
  refine List.ext_getElem? fun x => ?_
  have := h x
  rw [vecs_getD, vecs_getD, List.getElem?_map, List.getElem?_map]
  simp only [Fusion.vecAt, Fusion.rowAt] at this
  cases h1 : m[k]? <;> cases h2 : l[b]? <;> simp only [h1, h2, Option.bind_none, Option.bind_some, Option.map_none, Option.map_some, Option.getD_none, Option.getD_some, List.getElem?_nil] at this ⊢
  · exact this
  · exact this
  · exact this

theorem act_one_vec (X : Attr) {r : List α} (h : r.length = 3) : act M4.one X r = r := by
  cases X with
  | points => rw [act, movePt_one, row_vec h]
  | normals =>
    rw [act]
    have : (M4.one : M4 α).R.mulVec (Fusion.toV3 r) = Fusion.toV3 r := M3.one_mulVec _
    rw [this, row_vec h]
  | colors => rfl
  | features => rfl

theorem moved_one_vec {a c : Clouds α} (h : Moved n σ (fun _ => M4.one) a c) {X : Attr} {l m : List (T2 α)} (hl : a X = some l) (hm : c X = some m)
    {k : Nat} (hk : k < n) (x : Nat) : Fusion.vecAt m k x = Fusion.vecAt l (σ k) x := by
  rw [Fusion.vecAt, h.row X l m hl hm k hk, Fusion.vecAt, Option.map_map]
  congr 1
  funext r
  cases X with
  | points => simp only [Function.comp, act, movePt_one, toV3_toList]
  | normals =>
    have : (M4.one : M4 α).R.mulVec (Fusion.toV3 r) = Fusion.toV3 r := M3.one_mulVec _
    simp only [Function.comp, act, this, toV3_toList]
  | colors => rfl
  | features => rfl

/-- The ICP providers treat the elements of the batch separately. -/
theorem icp_follows (icp : List (V3 α) → List (V3 α) → List (V3 α) → Option (M4 α) → Except Icp.Err (M4 α × List Nat)) (n : Nat) (σ : Nat → Nat) :
    Follows (Icp.provide icp) n σ fun _ => (M4.one : M4 α) := by
  intro m f m2 f2 a c a2 c2 hm hf hm2 hf2 mv mvf hin ans h
  have om := inv_obs hm; have of := inv_obs hf; have om2 := inv_obs hm2; have of2 := inv_obs hf2
  rw [Icp.provide, om.list] at h
  cases hN : a .normals with
  | none => rw [hN] at h; cases h
  | some Nn =>
    obtain ⟨Nm, hM⟩ := Option.ne_none_iff_exists'.1 (fun hc => absurd ((mv.attr .normals).1 hc) (by simp [hN]) : a2 .normals ≠ none)
    rw [hN] at h; simp only at h
    by_cases hB : m.B ≠ f.B
    · rw [if_pos hB] at h; cases h
    rw [if_neg hB] at h
    by_cases h0 : m.B = 0
    · rw [if_pos h0] at h; cases h
    rw [if_neg h0] at h
    rw [om.list, of.list] at h
    cases hQ : a .points with
    | none => rw [hQ] at h; cases h
    | some Q =>
      cases hP : c .points with
      | none => rw [hQ, hP] at h; cases h
      | some P =>
        rw [hQ, hP] at h; simp only at h
        obtain ⟨Q2, hQ2⟩ := Option.ne_none_iff_exists'.1 (fun hc => absurd ((mv.attr .points).1 hc) (by simp [hQ]) : a2 .points ≠ none)
        obtain ⟨P2, hP2⟩ := Option.ne_none_iff_exists'.1 (fun hc => absurd ((mvf.attr .points).1 hc) (by simp [hP]) : c2 .points ≠ none)
        have b2 : m2.B = n := by rw [om2.size, count, hQ2]; exact mv.len _ _ hQ2
        have b2' : f2.B = n := by rw [of2.size, count, hP2]; exact mvf.len _ _ hP2
        have bf : f.B = P.length := by rw [of.size, count, hP]; rfl
        have hn : n ≠ 0 := by
          have := (Fusion.wf_of_inv hm2 hQ2).ne
          rw [← mv.len _ _ hQ2]; simpa using this
        obtain ⟨hl, hk⟩ := collect_nth h
        have hB' : m.B = P.length := by rw [← bf]; exact not_not.1 hB
        have hget : ∀ k < n, ∃ x, ans[σ k]? = some x ∧ (match icp (Icp.vecs (P2.getD k ⟨[], 0⟩)) (Icp.vecs (Q2.getD k ⟨[], 0⟩)) (Icp.vecs (Nm.getD k ⟨[], 0⟩)) (some M4.one) with
            | .error e => Except.error e
            | .ok (T, _) => .ok T) = .ok x := by
          intro k hkn
          have hs : σ k < m.B := by rw [hB']; exact hin P hP k hkn
          obtain ⟨x, hx, hfx⟩ := hk (σ k) (σ k) (by simp [hs])
          refine ⟨x, hx, ?_⟩
          rw [vecs_ext (moved_one_vec mvf hP hP2 hkn), vecs_ext (moved_one_vec mv hQ hQ2 hkn), vecs_ext (moved_one_vec mv hN hM hkn)]
          exact hfx
        refine ⟨(List.range n).map fun k => ans.getD (σ k) M4.one, ?_, fun k hkn => ?_⟩
        · rw [Icp.provide, om2.list, hM]
          simp only [b2, b2', ne_eq, not_true_eq_false, if_false, hn]
          rw [om2.list, of2.list, hQ2, hP2]
          refine Icp.collect_ok fun k hk' => ?_
          obtain ⟨x, hx, hfx⟩ := hget k (List.mem_range.1 hk')
          have e : ans.getD (σ k) M4.one = x := by rw [List.getD_eq_getElem?_getD, hx]; rfl
          rw [e]; exact hfx
        · have : ((List.range n).map fun k => ans.getD (σ k) M4.one).getD k M4.one = ans.getD (σ k) M4.one := by
            rw [List.getD_eq_getElem?_getD]; simp [hkn]
          rw [this]
          generalize ans.getD (σ k) M4.one = A
          refine ⟨?_, ?_⟩
          · show A.R.mul M3.one = M3.one.mul A.R
            rw [M3.mul_one, M3.one_mul]
          · show (A.R.mulVec V3.zero).add A.t = _
            rw [movePt_one, mulVec_zero]
            ext <;> simp [V3.add, V3.zero]

theorem pose_one {T U : M4 α} (h : PoseMoved M4.one T U) : U = T := by
  refine M4.ext ?_ ?_ h.b h.s
  · rw [h.R]; exact M3.one_mul _
  · rw [h.t, movePt_one]

theorem pose_refl (T : M4 α) : PoseMoved M4.one T T := ⟨(M3.one_mul _).symm, (movePt_one _).symm, rfl, rfl⟩

/-- Selecting batch elements of a sequence. -/
theorem seq_sub {sub : Rgbd.Obj α} (hf : SeqOk S frames i) {idx : Rgbd.Index} {is : List Nat} (h : Rgbd.getitem idx frames = .ok sub)
    (hpos : Rgbd.positions i.B i.L idx = .ok (is, List.range i.L)) :
    ∃ ip, SeqOk S sub ip ∧ ip.B = is.length ∧ ip.L = i.L ∧ ip.H = i.H ∧ ip.W = i.W ∧
      SeqPair S is.length (fun k => is.getD k 0) (fun _ => M4.one) frames sub i ip := by
  obtain ⟨is', js, hpos', hi0, hj0, r, _, hcf, _, _, _, hp⟩ := Rgbd.getitem_rep hf.rep h
  rw [hpos] at hpos'
  simp only [Except.ok.injEq, Prod.mk.injEq] at hpos'
  obtain ⟨rfl, rfl⟩ := hpos'
  have hlt := (Rgbd.positions_lt hpos).1
  have hB0 : 0 < is.length := List.length_pos_iff.2 hi0
  have hk : ∀ k < is.length, is.getD k 0 < i.B := fun k hk => by
    rw [List.getD_eq_getElem _ _ hk]; exact hlt _ (List.getElem_mem hk)
  refine ⟨_, ⟨r, by rw [hcf]; exact hf.cf, hB0, hf.H, hf.W⟩, rfl, by simp [Rgbd.In.sel], rfl, rfl, ?_⟩
  refine ⟨by simp [Rgbd.In.sel], fun t ht => ?_, fun t ht _ T hT => ?_, fun _ _ => M4.one_rigid, fun k _ v => ?_, fun _ _ _ => .inr fun _ _ => rfl⟩
  · have s1 := fun b (hb : b < i.B) => (snap_spec i t).2.2.2.2 b hb
    have s2 := fun k (hb : k < is.length) => (snap_spec (i.sel is (List.range i.L)) t).2.2.2.2 k hb
    have ht' : (List.range i.L).getD t 0 = t := range_getD ht
    refine ⟨(snap_spec _ t).1, fun k h => by rw [(snap_spec i t).1]; exact hk k h, rfl, rfl, ?_, ?_, ?_, ?_⟩
    · intro k h; rw [(s1 _ (hk k h)).1, (s2 k h).1]; simp only [Rgbd.In.sel, ht']
    · intro k h; rw [(s1 _ (hk k h)).2.1, (s2 k h).2.1]; simp only [Rgbd.In.sel, ht']
    · intro k h; rw [(s1 _ (hk k h)).2.2.1, (s2 k h).2.2.1]; simp only [Rgbd.In.sel]
    · intro k h; rw [(s1 _ (hk k h)).2.2.2.1, (s2 k h).2.2.2.1]; simp only [Rgbd.In.sel, ht']
  · obtain ⟨_, _, hT'⟩ := given_some hT
    cases hfp : frames.poses with
    | some P =>
      rw [hfp] at hT' hp
      rw [Option.map_some] at hp
      refine ⟨_, by rw [given, hp], fun k h => ?_⟩
      rw [hT' _ (hk k h)]
      have : ((P.sel is (List.range i.L)).sel (List.range (i.sel is (List.range i.L)).B) [t]).at' k 0 = P.at' (is.getD k 0) t := by
        simp only [Rgbd.TM.sel, List.getD_cons_zero]
        rw [range_getD (show k < (i.sel is (List.range i.L)).B from h), range_getD ht]
      rw [this]
      exact pose_refl _
    | none =>
      rw [hfp] at hT' hp
      rw [Option.map_none] at hp
      have h0 : t = 0 := by
        by_contra h0; rw [given, hfp] at hT; simp [h0] at hT
      refine ⟨eyes (i.sel is (List.range i.L)).B, by rw [given, hp]; simp [h0], fun k h => ?_⟩
      rw [hT' _ (hk k h)]
      exact pose_refl _
  · have : (M4.one : M4 α).R.mulVec v = v := M3.one_mulVec _
    simp only [this]

theorem moved_one_list {a c : Clouds α} {m : Mapper α} {B : Nat} {pc pc2 : PC α} {is : List Nat} (hm : MapOk m B pc a) (hm2 : MapOk m is.length pc2 c)
    (hlt : ∀ b ∈ is, b < B) (mv : Moved is.length (fun k => is.getD k 0) (fun _ => M4.one) a c) (X : Attr) :
    c X = (a X).map fun l => is.map fun b => l.getD b ⟨[], 0⟩ := by
  cases hX : a X with
  | none => rw [(mv.attr X).2 hX]; rfl
  | some l =>
    obtain ⟨q, hq⟩ := Option.ne_none_iff_exists'.1 (fun hc => absurd ((mv.attr X).1 hc) (by simp [hX]) : c X ≠ none)
    rw [hq, Option.map_some]
    have hpa : ∃ P, Wf a P := by
      rcases hm.inv with h | ⟨P, h, _⟩
      · exact absurd hX (by rw [h.ha]; simp [emptyClouds])
      · exact ⟨P, h.wf⟩
    have hpc : ∃ P, Wf c P := by
      rcases hm2.inv with h | ⟨P, h, _⟩
      · exact absurd hq (by rw [h.ha]; simp [emptyClouds])
      · exact ⟨P, h.wf⟩
    obtain ⟨P, hw⟩ := hpa
    obtain ⟨Q, hw2⟩ := hpc
    have hPl := (hm.shape P hw.pts).1
    have hll : l.length = B := (hw.length hX).trans hPl
    have cols : ∃ C, (∀ t ∈ l, t.cols = C) ∧ (∀ t ∈ q, t.cols = C) ∧ (X ≠ .features → C = 3) := by
      obtain ⟨C, hC, hC3⟩ := hw.cols X l hX
      obtain ⟨D, hD, hD3⟩ := hw2.cols X q hq
      by_cases hXf : X = .features
      · subst hXf
        have s1 := (hm.shape P hw.pts).2.2.2
        have s2 := (hm2.shape Q hw2.pts).2.2.2
        cases m with
        | aggregate => rw [hX] at s1; cases s1
        | fusion d t =>
          obtain ⟨F, hF, hF1, _⟩ := s1
          obtain ⟨E, hE, hE1, _⟩ := s2
          rw [hX] at hF; rw [hq] at hE; cases hF; cases hE
          exact ⟨1, hF1, hE1, fun h => absurd rfl h⟩
      · exact ⟨3, hC3 hXf ▸ hC, hD3 hXf ▸ hD, fun _ => rfl⟩
    obtain ⟨C, h1, h2, h3⟩ := cols
    congr 1
    refine List.ext_getElem (by rw [mv.len X q hq, List.length_map]) fun k hk hk' => ?_
    have hki : k < is.length := by rw [← mv.len X q hq]; exact hk
    have hb : is.getD k 0 < l.length := by rw [hll, List.getD_eq_getElem _ _ hki]; exact hlt _ (List.getElem_mem hki)
    rw [List.getElem_map]
    have e1 : l.getD is[k] ⟨[], 0⟩ = l[is.getD k 0]'hb := by
      rw [List.getD_eq_getElem _ _ (by rw [List.getD_eq_getElem _ _ hki] at hb; exact hb)]
      congr 1
      rw [List.getD_eq_getElem _ _ hki]
    rw [e1]
    have hr : q[k].rows = (l[is.getD k 0]'hb).rows := by
      refine List.ext_getElem? fun x => ?_
      have := mv.row X l q hX hq k hki x
      rw [Fusion.rowAt, List.getElem?_eq_getElem hk, Fusion.rowAt, List.getElem?_eq_getElem hb] at this
      simp only [Option.bind_some] at this
      rw [this]
      cases hx : (l[is.getD k 0]'hb).rows[x]? with
      | none => rfl
      | some r =>
        simp only [Option.map_some, Option.some.injEq]
        by_cases hXf : X = .features
        · subst hXf; rfl
        · have hv := hw.valid X l hX _ (List.getElem_mem hb) r (List.mem_of_getElem? hx)
          rw [h1 _ (List.getElem_mem hb), h3 hXf] at hv
          exact act_one_vec X hv
    have hc : q[k].cols = (l[is.getD k 0]'hb).cols := by
      rw [h2 _ (List.getElem_mem hk), h1 _ (List.getElem_mem hb)]
    cases hx : q[k]; cases hy : l[is.getD k 0]'hb
    rw [hx, hy] at hr hc
    simp only at hr hc
    rw [hr, hc]

/-- **C65** (batch elements do not influence each other).  If `forward` succeeds on a batch of sequences then it succeeds on any selection
`frames[idx]` of them (`idx` selects the elements `is`, with all their frames), and it returns the clouds and the poses of exactly
those elements: every attribute of the returned map and every returned pose. -/
theorem batch_independent {sub : Rgbd.Obj α} (hf : SeqOk S frames i) (hs : SysOk S i)
    (hpv : ∀ provide, S.odom = .prov provide → ∃ icp, provide = Icp.provide icp) {idx : Rgbd.Index} {is : List Nat}
    (h : Rgbd.getitem idx frames = .ok sub) (hpos : Rgbd.positions i.B i.L idx = .ok (is, List.range i.L)) (hle : is.length ≤ i.B)
    {m : PC α} {R : Rgbd.TM α} (hfw : forward S frames = .ok (m, R)) :
    ∃ m' R', forward S sub = .ok (m', R') ∧ R'.d0 = is.length ∧ R'.d1 = i.L ∧
      (∀ X, (getList X m').1 = (getList X m).1.map fun l => is.map fun b => l.getD b ⟨[], 0⟩) ∧
      ∀ k b, is[k]? = some b → ∀ t < i.L, R'.at' k t = R.at' b t := by
  obtain ⟨ip, hp, eB, eL, eH, eW, hq⟩ := seq_sub hf h hpos
  have hsp : SysOk S ip := by
    refine ⟨hs.ds, hs.prov, ?_⟩
    rcases hs.map with h | ⟨h1, h2, h3, h4, h5⟩
    · exact .inl h
    · exact .inr ⟨h1, by rw [eB]; omega, by rw [eH]; exact h3, by rw [eW]; exact h4, by rw [eH, eW, eL]; exact h5⟩
  obtain ⟨m', R', a, c, e, d0, d1, hm, hm', _, mv, hR⟩ := forward_moved hf hs hp hsp hq (fun provide ho => by
    obtain ⟨icp, rfl⟩ := hpv provide ho
    exact icp_follows icp _ _) hfw
  refine ⟨m', R', e, d0.trans eB, d1.trans eL, fun X => ?_, fun k b hkb t ht => ?_⟩
  · rw [(inv_obs hm.inv).list, (inv_obs hm'.inv).list]
    rw [eB] at hm'
    exact moved_one_list hm hm' (Rgbd.positions_lt hpos).1 mv X
  · obtain ⟨hk, rfl⟩ := List.getElem?_eq_some_iff.1 hkb
    have := pose_one (hR k hk t ht)
    rw [List.getD_eq_getElem _ _ hk] at this
    exact this

/-- **C65** for one element: `forward` on `frames[b]` returns cloud `b` and the poses of sequence `b`. -/
theorem batch_element (hf : SeqOk S frames i) (hs : SysOk S i)
    (hpv : ∀ provide, S.odom = .prov provide → ∃ icp, provide = Icp.provide icp) {b : Nat} (hb : b < i.B) (hL : 0 < i.L)
    {m : PC α} {R : Rgbd.TM α} (hfw : forward S frames = .ok (m, R)) :
    ∃ sub m' R', Rgbd.getitem (.int b) frames = .ok sub ∧ forward S sub = .ok (m', R') ∧ R'.d0 = 1 ∧ R'.d1 = i.L ∧
      (∀ X, (getList X m').1 = (getList X m).1.map fun l => [l.getD b ⟨[], 0⟩]) ∧ ∀ t < i.L, R'.at' 0 t = R.at' b t := by
  have hone : Rgbd.resolve i.B (.int ((b : Nat) : Int)) = .ok [b] := (Rgbd.index_positions i.B).1 b hb
  have hall : Rgbd.resolve i.L (.slice none none none) = .ok (List.range i.L) := (Rgbd.index_positions i.L).2.2.1
  have hpos : Rgbd.positions i.B i.L (.int b) = .ok ([b], List.range i.L) := by
    simp [Rgbd.positions, Rgbd.twoIx, hone, hall]
  obtain ⟨o, ho, _⟩ := Rgbd.selected_rep (is := [b]) (js := List.range i.L) hf.rep (by simp) (by simp; omega)
  have hget : Rgbd.getitem (.int b) frames = .ok o := by
    simp [Rgbd.getitem, Rgbd.twoIx, hf.rep.hB, hf.rep.hL, hall, hone, Rgbd.bothLists, ho]
  obtain ⟨m', R', e, d0, d1, h1, h2⟩ := batch_independent hf hs hpv hget hpos (by have := hf.B; simp; omega) hfw
  exact ⟨o, m', R', hget, e, d0, d1, h1, fun t ht => h2 0 b rfl t ht⟩

/-! ### C66 -/

theorem norm_orthogonal {nrm : V3 α → α} (hn : Rgbd.IsNorm nrm) {A : M3 α} (h : A.transpose.mul A = M3.one) (v : V3 α) : nrm (A.mulVec v) = nrm v := by
  obtain ⟨h1, h2⟩ := hn (A.mulVec v)
  obtain ⟨h3, h4⟩ := hn v
  rw [M3.dot_orthogonal h, ← h4] at h2
  exact (mul_self_inj h1 h3).1 h2

theorem pose_mul {g T : M4 α} (hg : g.Affine) (hT : T.Affine) : PoseMoved g T (g.mul T) := by
  obtain ⟨a1, a2⟩ := hg; obtain ⟨b1, b2⟩ := hT
  refine ⟨?_, ?_, ?_, ?_⟩
  · ext <;> simp [M4.mul, b1, M3.outer, M3.add, V3.add, V3.smul, V3.zero]
  · ext <;> simp [M4.mul, b2, movePt, V3.add, V3.smul]
  · rw [b1]; ext <;> simp [M4.mul, a1, b1, M3.mulVec, V3.add, V3.smul, V3.dot, V3.zero]
  · rw [b2]; simp [M4.mul, a1, a2, b2, V3.dot, V3.zero]

theorem pose_of {g T U : M4 α} (hg : g.Affine) (hT : T.Affine) (h : PoseMoved g T U) : U = g.mul T := by
  have h2 := pose_mul hg hT
  exact M4.ext (h.R.trans h2.R.symm) (h.t.trans h2.t.symm) (h.b.trans h2.b.symm) (h.s.trans h2.s.symm)

/-- Specification: what the world transform `g` does to row `x` of cloud `b` of an attribute: points are moved, normals rotated, colours and
confidences kept. -/
def RowMoved (g : M4 α) (l l2 : List (T2 α)) (b x : Nat) : Attr → Prop
  | .points => Fusion.vecAt l2 b x = (Fusion.vecAt l b x).map fun p => (g.R.mulVec p).add g.t
  | .normals => Fusion.vecAt l2 b x = (Fusion.vecAt l b x).map g.R.mulVec
  | .colors => Fusion.rowAt l2 b x = Fusion.rowAt l b x
  | .features => Fusion.rowAt l2 b x = Fusion.rowAt l b x

/-- **C66** (the choice of the world frame does not matter).  Let a second batch show the same images with poses `G b · T` for rigid
transforms `G b` of the world, one per batch element.  With ground-truth odometry (`ICPSLAM`, or `PointFusion` with a normal
threshold of at most 90 degrees), `forward` returns the given poses of the second batch, and a map whose points are those of the first
map moved by `G b`, whose normals are those of the first map rotated, and whose colours and confidences are the same; in
particular the same pixels are merged and the clouds have the same sizes. -/
theorem world_frame (hf : SeqOk S frames i) (hs : SysOk S i) (hf2 : SeqOk S frames2 i2) (hs2 : SysOk S i2) (hgt : S.odom = .gt)
    (hn : Rgbd.IsNorm S.nrm) (hthr : ∀ d t, S.mapper = .fusion d t → 0 ≤ t) (hL : 0 < i.L)
    (hB : i2.B = i.B) (hLL : i2.L = i.L) (hH : i2.H = i.H) (hW : i2.W = i.W)
    (himg : ∀ b < i.B, ∀ t < i.L, i2.rgb b t = i.rgb b t ∧ i2.depth b t = i.depth b t ∧ i2.pix b t = i.pix b t) (hK : ∀ b < i.B, i2.K b = i.K b)
    (hG : ∀ b, (G b).Rigid) {P P2 : Rgbd.TM α} (hP : frames.poses = some P) (hP2 : frames2.poses = some P2)
    (hT : ∀ b < i.B, ∀ t < i.L, (P.at' b t).Affine ∧ P2.at' b t = (G b).mul (P.at' b t)) :
    ∃ m R m2 R2, forward S frames = .ok (m, R) ∧ forward S frames2 = .ok (m2, R2) ∧
      (∀ b < i.B, ∀ t < i.L, R2.at' b t = (G b).mul (R.at' b t)) ∧
      ∀ X, ((getList X m).1 = none ∧ (getList X m2).1 = none) ∨
        ∃ l l2, (getList X m).1 = some l ∧ (getList X m2).1 = some l2 ∧ l.length = i.B ∧ l2.length = i.B ∧ ∀ b < i.B, ∀ x,
          RowMoved (G b) l l2 b x X := by
  have hq : SeqPair S i.B id G frames frames2 i i2 := by
    refine ⟨hLL, fun t ht => ?_, fun t ht _ T hgT => ?_, fun k _ => hG k, fun k _ v => norm_orthogonal hn (hG k).2.2 v,
      fun d t h => .inl (hthr d t h)⟩
    · obtain ⟨s1, _, s3, s4, s⟩ := snap_spec i t
      obtain ⟨u1, _, u3, u4, u⟩ := snap_spec i2 t
      refine ⟨u1.trans hB, fun k hk => by rw [s1]; exact hk, by rw [u3, s3, hH], by rw [u4, s4, hW], ?_, ?_, ?_, ?_⟩
      · intro k hk; rw [(u k (hB ▸ hk)).1, (himg k hk t ht).1]; exact ((s k hk).1).symm
      · intro k hk; rw [(u k (hB ▸ hk)).2.1, (himg k hk t ht).2.1]; exact ((s k hk).2.1).symm
      · intro k hk; rw [(u k (hB ▸ hk)).2.2.1, hK k hk]; exact ((s k hk).2.2.1).symm
      · intro k hk; rw [(u k (hB ▸ hk)).2.2.2.1, (himg k hk t ht).2.2]; exact ((s k hk).2.2.2.1).symm
    · have e2 : given frames2 i2 t = some (P2.sel (List.range i2.B) [t]) := by rw [given, hP2]
      obtain ⟨_, _, h1⟩ := given_some hgT
      obtain ⟨_, _, h2⟩ := given_some e2
      refine ⟨_, e2, fun k hk => ?_⟩
      have h1' := h1 k hk
      have h2' := h2 k (hB ▸ hk)
      rw [hP] at h1'; rw [hP2] at h2'
      simp only at h1' h2'
      rw [h2', (hT k hk t ht).2]
      show PoseMoved (G k) (T.at' k 0) _
      rw [h1']
      exact pose_mul (hG k).1 (hT k hk t ht).1
  obtain ⟨m, R, e, _, _, hR⟩ := gt_returns_given_poses hf hs hgt hP
  obtain ⟨m2, R2, a, c, e2, _, _, hm, hm2, hne, mv, hR2⟩ := forward_moved hf hs hf2 hs2 hq (fun provide ho => by rw [hgt] at ho; cases ho) e
  refine ⟨m, R, m2, R2, e, e2, fun b hb t ht => ?_, fun X => ?_⟩
  · refine pose_of (hG b).1 ?_ (hR2 b hb t ht)
    show (R.at' b t).Affine
    rw [hR b hb t ht]; exact (hT b hb t ht).1
  · rw [(inv_obs hm.inv).list, (inv_obs hm2.inv).list]
    cases hX : a X with
    | none => exact .inl ⟨rfl, (mv.attr X).2 hX⟩
    | some l =>
      obtain ⟨q, hq'⟩ := Option.ne_none_iff_exists'.1 (fun hc => absurd ((mv.attr X).1 hc) (by simp [hX]) : c X ≠ none)
      obtain ⟨Pa, hPa⟩ := Option.ne_none_iff_exists'.1 (hne hL)
      have hl : l.length = i.B := ((Fusion.wf_of_inv hm.inv hPa).length hX).trans (hm.shape Pa hPa).1
      refine .inr ⟨l, q, rfl, hq', hl, mv.len X q hq', fun b hb x => ?_⟩
      cases X with
      | points => exact moved_points mv hX hq' hb x
      | normals => exact moved_normals mv hX hq' hb x
      | colors =>
        show Fusion.rowAt q b x = Fusion.rowAt l b x
        rw [mv.row .colors l q hX hq' b hb]
        show (Fusion.rowAt l b x).map (act (G b) .colors) = _
        cases Fusion.rowAt l b x <;> rfl
      | features =>
        show Fusion.rowAt q b x = Fusion.rowAt l b x
        rw [mv.row .features l q hX hq' b hb]
        show (Fusion.rowAt l b x).map (act (G b) .features) = _
        cases Fusion.rowAt l b x <;> rfl

end
end Verif.Slam
