import Verif.Slam.Props
/-!
Abstract runs are functions of the frames: the poses and the map are determined by the inputs, if the provider's answers depend only on
the observable contents of the clouds it is given.
-/
namespace Verif.Slam
open Verif Pcs
set_option linter.unusedSectionVars false
set_option linter.unusedSimpArgs false

section
variable {α : Type*} [Field α] [LinearOrder α] [IsStrictOrderedRing α] [FloorRing α]

/-- The provider's answer depends only on the contents of its arguments. -/
def Ext (provide : PC α → PC α → Except Icp.Err (List (M4 α))) : Prop :=
  ∀ m m' f f' a c, Inv m a → Inv m' a → Inv f c → Inv f' c → provide m f = provide m' f'

/-- The ICP providers depend only on the contents of their arguments. -/
theorem icp_provide_ext (icp : List (V3 α) → List (V3 α) → List (V3 α) → Option (M4 α) → Except Icp.Err (M4 α × List Nat)) :
    Ext (Icp.provide icp) := by
  intro m m' f f' a c hm hm' hf hf'
  have o1 := inv_obs hm; have o2 := inv_obs hm'; have o3 := inv_obs hf; have o4 := inv_obs hf'
  simp only [Icp.provide, o1.list, o2.list, o3.list, o4.list, o1.size, o2.size, o3.size, o4.size]

/-! ### Sorted tables are determined by their contents -/

theorem rows_unique {r s : List Fusion.Row} (hr : r.Pairwise Fusion.Row.before) (hs : s.Pairwise Fusion.Row.before) (h : ∀ x, x ∈ r ↔ x ∈ s) :
    r = s := by
  have nd : ∀ {l : List Fusion.Row}, l.Pairwise Fusion.Row.before → l.Nodup := fun hl => hl.imp fun {x y} hxy e => by
    subst e; unfold Fusion.Row.before at hxy; omega
  refine List.Perm.eq_of_pairwise (fun x y _ _ h1 h2 => ?_) hr hs ((List.perm_ext_iff_of_nodup (nd hr) (nd hs)).2 h)
  unfold Fusion.Row.before at h1 h2; omega

theorem px_unique {r s : List (Nat × Nat)} (hr : r.Pairwise Icp.rowMajor) (hs : s.Pairwise Icp.rowMajor) (h : ∀ x y, (x, y) ∈ r ↔ (x, y) ∈ s) :
    r = s := by
  have nd : ∀ {l : List (Nat × Nat)}, l.Pairwise Icp.rowMajor → l.Nodup := fun hl => hl.imp fun {x y} hxy e => by
    subst e; unfold Icp.rowMajor at hxy; omega
  refine List.Perm.eq_of_pairwise (fun x y _ _ h1 h2 => ?_) hr hs ((List.perm_ext_iff_of_nodup (nd hr) (nd hs)).2 fun x => h x.1 x.2)
  unfold Icp.rowMajor at h1 h2; omega

theorem question_unique {S : Sys α} {a : Clouds α} {P : List (T2 α)} {i ip : Rgbd.In α} {Q : Rgbd.TM α} {m f m' f' : PC α}
    (h : Question S a P i ip Q m f) (h' : Question S a P i ip Q m' f') {provide} (hx : Ext provide) : provide m f = provide m' f' := by
  obtain ⟨rows, ar, im⟩ := h.maps
  obtain ⟨rows', ar', im'⟩ := h'.maps
  obtain ⟨px, hf, hp⟩ := h.frames
  obtain ⟨px', hf', hp'⟩ := h'.frames
  have e1 : rows' = rows := rows_unique ar'.sorted ar.sorted fun r => by rw [ar'.mem, ar.mem]
  have e2 : ∀ b < i.B, px' b = px b := fun b hb => px_unique (hp' b hb).1 (hp b hb).1 fun x y => by rw [(hp' b hb).2, (hp b hb).2]
  have e3 : Icp.framesAt (Fusion.Frame.ofIn S.nrm S.eps { i with poses := some Q.at' }) px' =
      Icp.framesAt (Fusion.Frame.ofIn S.nrm S.eps { i with poses := some Q.at' }) px := by
    funext X
    cases X <;> simp only [Icp.framesAt, Option.some.injEq] <;>
    · refine List.map_congr_left fun b hb => ?_
      rw [e2 b (List.mem_range.1 hb)]
  rw [e1] at im'; rw [e3] at hf'
  exact hx _ _ _ _ _ _ im im' hf hf'

/-! ### The map update is a function -/

theorem cloud_ext {l m : List (T2 α)} (hl : l.length = m.length) {C : Nat} (hlc : ∀ t ∈ l, t.cols = C) (hmc : ∀ t ∈ m, t.cols = C)
    (h : ∀ b n, Fusion.rowAt l b n = Fusion.rowAt m b n) : l = m := by
  refine List.ext_getElem hl fun b h1 h2 => ?_
  have hc : l[b].cols = m[b].cols := (hlc _ (List.getElem_mem h1)).trans (hmc _ (List.getElem_mem h2)).symm
  have hr : l[b].rows = m[b].rows := by
    refine List.ext_getElem? fun n => ?_
    have := h b n
    simpa [Fusion.rowAt, List.getElem?_eq_getElem h1, List.getElem?_eq_getElem h2] using this
  cases hx : l[b]; cases hy : m[b]
  rw [hx, hy] at hc hr
  simp only at hc hr
  rw [hc, hr]

theorem row_of_vec {r s : List α} (hr : r.length = 3) (hs : s.length = 3) (h : Fusion.toV3 r = Fusion.toV3 s) : r = s := by
  match r, s, hr, hs with
  | [x, y, z], [u, v, w], _, _ => simp only [Fusion.toV3, V3.mk.injEq] at h; obtain ⟨rfl, rfl, rfl⟩ := h; rfl

theorem same_pixel {rows : List Fusion.Row} (h : Fusion.UniquePix rows) {r s : Fusion.Row} (hr : r ∈ rows) (hs : s ∈ rows)
    (e : r.b = s.b ∧ r.h = s.h ∧ r.w = s.w) : r = s := by
  by_contra hne
  have hsym : Std.Symm fun r s : Fusion.Row => ¬ (r.b = s.b ∧ r.h = s.h ∧ r.w = s.w) := ⟨fun r s h k => h ⟨k.1.symm, k.2.1.symm, k.2.2.symm⟩⟩
  exact h.forall hr hs hne e

theorem matches_subset {S : Sys α} {d t : α} {i : Rgbd.In α} {T : Nat → Nat → M4 α} {a a1 a2 : Clouds α} {P P1 P2 : List (T2 α)}
    {rows1 rows2 : List Fusion.Row} (h1 : FusionStep S d t i T a a1 P P1 rows1) (h2 : FusionStep S d t i T a a2 P P2 rows2) :
    ∀ r ∈ rows1, r ∈ rows2 := by
  obtain ⟨Nn, hN⟩ : ∃ Nn, a .normals = some Nn := by
    obtain ⟨_, l, _, _, hl, _⟩ := h1.merged .normals (Rgbd.gnormalAt S.nrm S.eps i) (by simp)
    exact ⟨l, hl⟩
  obtain ⟨F, _, hF, _⟩ := h1.conf
  intro r hr
  obtain ⟨s, hs, e, p⟩ := h2.best Nn F hN hF r (h1.cand Nn hN r hr)
  obtain ⟨r', hr', e', p'⟩ := h1.best Nn F hN hF s (h2.cand Nn hN s hs)
  have : r' = r := same_pixel h1.pix hr' hr ⟨e'.1.trans e.1, e'.2.1.trans e.2.1, e'.2.2.trans e.2.2⟩
  subst this
  have hn : s.n = r'.n := by
    unfold Fusion.Preferred at p p'
    rcases p with p | ⟨p1, p | ⟨p2, p3⟩⟩ <;> rcases p' with q | ⟨q1, q | ⟨q2, q3⟩⟩
    · exact absurd p (lt_asymm q)
    · exact absurd p (by rw [q1]; exact lt_irrefl _)
    · exact absurd p (by rw [q1]; exact lt_irrefl _)
    · exact absurd q (by rw [p1]; exact lt_irrefl _)
    · exact absurd p (lt_asymm q)
    · exact absurd p (by rw [q2]; exact lt_irrefl _)
    · exact absurd q (by rw [p1]; exact lt_irrefl _)
    · exact absurd q (by rw [p2]; exact lt_irrefl _)
    · omega
  have : s = r' := Fusion.Row.ext e.1 hn e.2.1 e.2.2
  exact this ▸ hs

theorem fusionStep_unique {S : Sys α} {d t : α} {i : Rgbd.In α} {T : Nat → Nat → M4 α} {a a1 a2 : Clouds α} {P P1 P2 : List (T2 α)}
    {rows1 rows2 : List Fusion.Row} (h1 : FusionStep S d t i T a a1 P P1 rows1) (h2 : FusionStep S d t i T a a2 P P2 rows2) : a1 = a2 := by
  have hmem : ∀ r, r ∈ rows1 ↔ r ∈ rows2 := fun r => ⟨matches_subset h1 h2 r, matches_subset h2 h1 r⟩
  have hmask : ∀ b, Fusion.newMask (view S i) rows1 b = Fusion.newMask (view S i) rows2 b := by
    intro b; funext l h w
    rw [Bool.eq_iff_iff]
    cases l with
    | zero => rw [Fusion.newMask_iff, Fusion.newMask_iff]; simp only [hmem]
    | succ l => simp [Fusion.newMask]
  have hlen : ∀ {a' P' X l rows}, FusionStep S d t i T a a' P P' rows → a' X = some l → l.length = i.B := fun f hl => (f.wf.length hl).trans f.batch
  -- three-channel attributes
  have h3 : ∀ X img, (X, img) ∈ [(Attr.points, Rgbd.gvertexAt S.eps i), (.normals, Rgbd.gnormalAt S.nrm S.eps i), (.colors, i.rgb)] →
      X ≠ .features → a1 X = a2 X := by
    intro X img hX hne
    obtain ⟨F, l, l1, hF, hl, hl1, m1, k1, n1⟩ := h1.merged X img hX
    obtain ⟨F2, l', l2, hF2, hl', hl2, m2, k2, n2⟩ := h2.merged X img hX
    rw [hF] at hF2; rw [hl] at hl'; cases hF2; cases hl'
    have c3 : ∀ {a' P' q rows}, FusionStep S d t i T a a' P P' rows → a' X = some q → (∀ t ∈ q, t.cols = 3) ∧ ∀ t ∈ q, t.Valid := by
      intro a' P' q rows f hq
      obtain ⟨C, hC, hC3⟩ := f.wf.cols X q hq
      rw [hC3 hne] at hC
      exact ⟨hC, f.wf.valid X q hq⟩
    rw [hl1, hl2]
    congr 1
    refine cloud_ext ((hlen h1 hl1).trans (hlen h2 hl2).symm) (c3 h1 hl1).1 (c3 h2 hl2).1 fun b n => ?_
    have hvec : Fusion.vecAt l1 b n = Fusion.vecAt l2 b n := by
      by_cases hb : b < i.B
      · by_cases hn : n < Fusion.sizeAt P b
        · have hs : (Fusion.rowAt l b n).isSome := by
            rw [Fusion.sizeAt_isSome, Fusion.sizeAt_sizes (h1.oldWf.rows _ _ hl)]; exact hn
          obtain ⟨row, hrow⟩ := Option.isSome_iff_exists.1 hs
          have hv : Fusion.vecAt l b n = some (Fusion.toV3 row) := by simp [Fusion.vecAt, hrow]
          by_cases hex : ∃ r ∈ rows1, r.b = b ∧ r.n = n
          · obtain ⟨r, hr, rfl, rfl⟩ := hex
            rw [m1 r hr _ hv, m2 r ((hmem r).1 hr) _ hv]
          · rw [k1 b n _ hv fun r hr hh => hex ⟨r, hr, hh⟩, k2 b n _ hv fun r hr hh => hex ⟨r, (hmem r).2 hr, hh⟩]
        · obtain ⟨k, rfl⟩ := Nat.exists_eq_add_of_le (not_lt.1 hn)
          rw [n1 b hb, n2 b hb, hmask]
      · have hz : ∀ {q : List (T2 α)}, q.length = i.B → Fusion.vecAt q b n = none := by
          intro q hq
          simp [Fusion.vecAt, Fusion.rowAt, List.getElem?_eq_none (show q.length ≤ b by omega)]
        rw [hz (hlen h1 hl1), hz (hlen h2 hl2)]
    cases hr1 : Fusion.rowAt l1 b n with
    | none =>
      cases hr2 : Fusion.rowAt l2 b n with
      | none => rfl
      | some y => simp [Fusion.vecAt, hr1, hr2] at hvec
    | some x =>
      cases hr2 : Fusion.rowAt l2 b n with
      | none => simp [Fusion.vecAt, hr1, hr2] at hvec
      | some y =>
        simp only [Fusion.vecAt, hr1, hr2, Option.map_some, Option.some.injEq] at hvec
        rw [row_of_vec (Fusion.valid_row (c3 h1 hl1).2 (c3 h1 hl1).1 hr1) (Fusion.valid_row (c3 h2 hl2).2 (c3 h2 hl2).1 hr2) hvec]
  funext X
  cases X with
  | points => exact h3 .points (Rgbd.gvertexAt S.eps i) (by simp) (by simp)
  | normals => exact h3 .normals (Rgbd.gnormalAt S.nrm S.eps i) (by simp) (by simp)
  | colors => exact h3 .colors i.rgb (by simp) (by simp)
  | features =>
    obtain ⟨F, F1, hF, hF1, c1, m1, n1, _⟩ := h1.conf
    obtain ⟨F', F2, hF', hF2, c2, m2, n2, _⟩ := h2.conf
    rw [hF] at hF'; cases hF'
    rw [hF1, hF2]
    congr 1
    refine cloud_ext ((hlen h1 hF1).trans (hlen h2 hF2).symm) c1 c2 fun b n => ?_
    by_cases hb : b < i.B
    · have hsize : ∀ {a' P' q rows}, FusionStep S d t i T a a' P P' rows → a' .features = some q → n < Fusion.sizeAt P b → (Fusion.rowAt q b n).isSome := by
        intro a' P' q rows f hq hn
        rw [Fusion.sizeAt_isSome, Fusion.sizeAt_sizes (f.wf.rows _ _ hq), f.size b hb]; omega
      by_cases hn : n < Fusion.sizeAt P b
      · obtain ⟨x, hx⟩ := Option.isSome_iff_exists.1 (hsize h1 hF1 hn)
        obtain ⟨y, hy⟩ := Option.isSome_iff_exists.1 (hsize h2 hF2 hn)
        have hs : (Fusion.rowAt F b n).isSome := by
          rw [Fusion.sizeAt_isSome, Fusion.sizeAt_sizes (h1.oldWf.rows _ _ hF)]; exact hn
        rw [Fusion.row_conf hx (Fusion.valid_row (h1.wf.valid _ _ hF1) c1 hx), Fusion.row_conf hy (Fusion.valid_row (h2.wf.valid _ _ hF2) c2 hy)]
        by_cases hex : ∃ r ∈ rows1, r.b = b ∧ r.n = n
        · obtain ⟨r, hr, rfl, rfl⟩ := hex
          rw [m1.matched r hr, m2.matched r ((hmem r).1 hr)]
        · rw [m1.kept b n hs fun r hr hh => hex ⟨r, hr, hh⟩, m2.kept b n hs fun r hr hh => hex ⟨r, (hmem r).2 hr, hh⟩]
      · obtain ⟨k, rfl⟩ := Nat.exists_eq_add_of_le (not_lt.1 hn)
        rw [n1 b hb, n2 b hb, hmask]
    · have hz : ∀ {q : List (T2 α)}, q.length = i.B → Fusion.rowAt q b n = none := by
        intro q hq
        simp [Fusion.rowAt, List.getElem?_eq_none (show q.length ≤ b by omega)]
      rw [hz (hlen h1 hF1), hz (hlen h2 hF2)]

/-- The map after a frame is determined by the map before it and the frame. -/
theorem change_unique {S : Sys α} {i : Rgbd.In α} {a a1 a2 : Clouds α} (h1 : MapChange S i a a1) (h2 : MapChange S i a a2) : a1 = a2 := by
  unfold MapChange at h1 h2
  cases hm : S.mapper with
  | aggregate => rw [hm] at h1 h2; simp only at h1 h2; rw [h1, h2]
  | fusion d t =>
    rw [hm] at h1 h2
    simp only at h1 h2
    cases hP : a .points with
    | none => rw [hP] at h1 h2; simp only at h1 h2; rw [h1, h2]
    | some P =>
      rw [hP] at h1 h2
      simp only at h1 h2
      obtain ⟨T, P1, rows1, hT, f1⟩ := h1
      obtain ⟨T', P2, rows2, hT', f2⟩ := h2
      rw [hT] at hT'; cases hT'
      exact fusionStep_unique f1 f2

theorem located_unique {S : Sys α} {frames : Rgbd.Obj α} {i : Rgbd.In α} (hx : ∀ provide, S.odom = .prov provide → Ext provide)
    {Ts : List (Rgbd.TM α)} {a : Clouds α} {r r' : Except Err (Rgbd.TM α)} (h : Located S frames i Ts a r) (h' : Located S frames i Ts a r') :
    r = r' := by
  unfold Located at h h'
  cases ho : S.odom with
  | gt => rw [ho] at h h'; exact h.trans h'.symm
  | prov provide =>
    rw [ho] at h h'
    cases hl : Ts.getLast? with
    | none => rw [hl] at h h'; exact h.trans h'.symm
    | some Q =>
      rw [hl] at h h'
      obtain ⟨P, m, f, hP, q, e⟩ := h
      obtain ⟨P', m', f', hP', q', e'⟩ := h'
      rw [hP] at hP'; cases hP'
      rw [e, e', question_unique q q' (hx provide ho)]

/-- **C49** (determinism).  Two abstract runs over the same number of frames have the same poses and the same map. -/
theorem run_unique {S : Sys α} {frames : Rgbd.Obj α} {i : Rgbd.In α} (hx : ∀ provide, S.odom = .prov provide → Ext provide)
    {Ts : List (Rgbd.TM α)} {a : Clouds α} (h : Run S frames i Ts a) : ∀ {Us a'}, Run S frames i Us a' → Us.length = Ts.length → Us = Ts ∧ a' = a := by
  induction h with
  | start =>
    intro Us a' h hl
    cases h with
    | start => exact ⟨rfl, rfl⟩
    | next => simp at hl
  | @next Ts a T a1 h hloc hc ih =>
    intro Us a' h' hl
    cases h' with
    | start => simp at hl
    | @next Us b U _ h' hloc' hc' =>
      obtain ⟨rfl, rfl⟩ := ih h' (by simpa using hl)
      have := located_unique hx hloc hloc'
      cases this
      exact ⟨rfl, change_unique hc' hc⟩

/-- The first `k` frames of two sequences have the same inputs. -/
structure SameStart (frames frames' : Rgbd.Obj α) (i i' : Rgbd.In α) (k : Nat) : Prop where
  B : i'.B = i.B
  H : i'.H = i.H
  W : i'.W = i.W
  posed : frames'.poses.isSome = frames.poses.isSome
  poses : ∀ P P', frames.poses = some P → frames'.poses = some P' → ∀ b < i.B, ∀ t < k, P'.at' b t = P.at' b t
  rgb : ∀ b < i.B, ∀ t < k, i'.rgb b t = i.rgb b t
  depth : ∀ b < i.B, ∀ t < k, i'.depth b t = i.depth b t
  K : ∀ b < i.B, i'.K b = i.K b
  pix : ∀ b < i.B, ∀ t < k, i'.pix b t = i.pix b t

theorem range_getD_lt {n : Nat} (h : 0 < n) (b : Nat) : (List.range n).getD b 0 < n := by
  by_cases hb : b < n
  · rw [range_getD hb]; exact hb
  · rw [List.getD_eq_default _ _ (by simpa using hb)]; exact h

theorem sameStart_posed {frames frames' : Rgbd.Obj α} {i i' : Rgbd.In α} {k : Nat} (h : SameStart frames frames' i i' k) (hB : 0 < i.B)
    {t : Nat} (ht : t < k) (T : Rgbd.TM α) : posed (snap i' t) T = posed (snap i t) T := by
  have key : ∀ b, (List.range i.B).getD b 0 < i.B := range_getD_lt hB
  have one : ∀ l, ([t] : List Nat).getD l 0 < k := by
    intro l
    cases l with
    | zero => simpa using ht
    | succ l => simp; omega
  simp only [posed, snap, Rgbd.In.sel, h.B, List.length_range, h.H, h.W]
  congr 1
  · funext b l; exact h.rgb _ (key b) _ (one l)
  · funext b l; exact h.depth _ (key b) _ (one l)
  · funext b; exact h.K _ (key b)
  · funext b l; exact h.pix _ (key b) _ (one l)

theorem sameStart_given {frames frames' : Rgbd.Obj α} {i i' : Rgbd.In α} {k : Nat} (h : SameStart frames frames' i i' k) (hB : 0 < i.B)
    {t : Nat} (ht : t < k) : given frames' i' t = given frames i t := by
  have key : ∀ b, (List.range i.B).getD b 0 < i.B := range_getD_lt hB
  have one : ∀ l, ([t] : List Nat).getD l 0 < k := by
    intro l
    cases l with
    | zero => simpa using ht
    | succ l => simp; omega
  unfold given
  have hp := h.posed
  cases h1 : frames.poses with
  | none =>
    cases h2 : frames'.poses with
    | none => rw [h.B]
    | some P' => rw [h1, h2] at hp; cases hp
  | some P =>
    cases h2 : frames'.poses with
    | none => rw [h1, h2] at hp; cases hp
    | some P' =>
      simp only [h.B, Rgbd.TM.sel, Option.some.injEq, Rgbd.TM.mk.injEq, true_and]
      funext b l
      exact h.poses P P' h1 h2 _ (key b) _ (one l)

theorem located_transfer {S : Sys α} {frames frames' : Rgbd.Obj α} {i i' : Rgbd.In α} {k : Nat} (h : SameStart frames frames' i i' k)
    (hB : 0 < i.B) {Ts : List (Rgbd.TM α)} {a : Clouds α} {r} (hlt : Ts.length < k) (hl : Located S frames i Ts a r) :
    Located S frames' i' Ts a r := by
  unfold Located at hl ⊢
  cases ho : S.odom with
  | gt => rw [ho] at hl; simp only at hl ⊢; rw [sameStart_given h hB hlt]; exact hl
  | prov provide =>
    cases hT : Ts.getLast? with
    | none => rw [ho, hT] at hl; simp only at hl ⊢; rw [sameStart_given h hB hlt]; exact hl
    | some Q =>
      rw [ho, hT] at hl
      obtain ⟨P, m, f, hP, q, e⟩ := hl
      refine ⟨P, m, f, hP, ?_, e⟩
      have e1 := sameStart_posed h hB hlt Q
      have e2 := sameStart_posed h hB (show Ts.length - 1 < k by omega) Q
      obtain ⟨q1, px, q2, q3⟩ := q
      rw [e2]
      refine ⟨q1, px, ?_, fun b hb => ?_⟩
      · have : { snap i' Ts.length with poses := some Q.at' } = { snap i Ts.length with poses := some Q.at' } := e1
        rw [this]; exact q2
      · have eB := congrArg Rgbd.In.B e1
        have eH := congrArg Rgbd.In.H e1
        have eW := congrArg Rgbd.In.W e1
        have eD := congrArg Rgbd.In.depth e1
        simp only [posed] at eB eH eW eD
        rw [eH, eW, eD]
        exact q3 b (by rw [← eB]; exact hb)

theorem run_transfer {S : Sys α} {frames frames' : Rgbd.Obj α} {i i' : Rgbd.In α} {k : Nat} (h : SameStart frames frames' i i' k)
    (hB : 0 < i.B) {Ts : List (Rgbd.TM α)} {a : Clouds α} (r : Run S frames i Ts a) (hk : Ts.length ≤ k) : Run S frames' i' Ts a := by
  induction r with
  | start => exact .start
  | @next Ts a T a' r hloc hc ih =>
    simp only [List.length_append, List.length_singleton] at hk
    exact (ih (by omega)).next (located_transfer h hB (by omega) hloc) (by rw [sameStart_posed h hB (by omega)]; exact hc)

theorem run_prefix {S : Sys α} {frames : Rgbd.Obj α} {i : Rgbd.In α} {Ts : List (Rgbd.TM α)} {a : Clouds α} (r : Run S frames i Ts a) :
    ∀ k ≤ Ts.length, ∃ a', Run S frames i (Ts.take k) a' := by
  induction r with
  | start => intro k _; exact ⟨_, by simpa using Run.start⟩
  | @next Ts a T a' r hloc hc ih =>
    intro k hk
    rcases Nat.lt_or_ge Ts.length k with h | h
    · refine ⟨a', ?_⟩
      rw [List.take_of_length_le (by simp; omega)]
      exact r.next hloc hc
    · obtain ⟨a'', r''⟩ := ih k h
      exact ⟨a'', by rw [List.take_append_of_le_length h]; exact r''⟩

/-- **C49** (causality).  If two sequences have the same first `k` frames then, whatever follows (and however the two objects were built
and read before): if both runs succeed their first `k` poses are equal; if one fails before frame `k`, so does the other, with the
same error. -/
theorem forward_causal {S : Sys α} {frames frames' : Rgbd.Obj α} {i i' : Rgbd.In α} (hf : SeqOk S frames i) (hs : SysOk S i)
    (hf' : SeqOk S frames' i') (hs' : SysOk S i') (hx : ∀ provide, S.odom = .prov provide → Ext provide) {k : Nat} (hk : k ≤ i.L) (hk' : k ≤ i'.L)
    (h : SameStart frames frames' i i' k) :
    (∀ m R m' R', forward S frames = .ok (m, R) → forward S frames' = .ok (m', R') → ∀ b, ∀ t < k, R'.at' b t = R.at' b t) ∧
    (∀ e, i.L = k → forward S frames = .error e → forward S frames' = .error e) ∧
    (∀ e, i'.L = k → forward S frames' = .error e → forward S frames = .error e) := by
  have hsym : SameStart frames' frames i' i k := by
    refine ⟨h.B.symm, h.H.symm, h.W.symm, h.posed.symm, ?_, ?_, ?_, ?_, ?_⟩
    · intro P P' hP hP' b hb t ht; exact (h.poses P' P hP' hP b (h.B ▸ hb) t ht).symm
    · intro b hb t ht; exact (h.rgb b (h.B ▸ hb) t ht).symm
    · intro b hb t ht; exact (h.depth b (h.B ▸ hb) t ht).symm
    · intro b hb; exact (h.K b (h.B ▸ hb)).symm
    · intro b hb t ht; exact (h.pix b (h.B ▸ hb) t ht).symm
  have fail : ∀ {f f' : Rgbd.Obj α} {j j' : Rgbd.In α}, SeqOk S f j → SysOk S j → SeqOk S f' j' → SysOk S j' → SameStart f f' j j' k → k ≤ j'.L →
      ∀ e, j.L = k → forward S f = .error e → forward S f' = .error e := by
    intro f f' j j' hf hs hf' hs' h hk' e hL he
    rcases forward_run hf hs with ⟨m, R, Ts, a, e1, _⟩ | ⟨e1, Ts, a, h1, r, hl, hloc⟩
    · rw [he] at e1; cases e1
    rw [he] at h1; cases h1
    have hloc' := located_transfer h hf.B (by omega) hloc
    have r' := run_transfer h hf.B r (by omega)
    rcases forward_run hf' hs' with ⟨m', R', Ts', a', e1', r1, hl', _⟩ | ⟨e1', Us, a', h1', r1, hl', hloc1⟩
    · -- the other run passes the failing frame
      exfalso
      have hpre : ∀ {Us b}, Run S f' j' Us b → Ts.length < Us.length → False := by
        intro Us b ru
        induction ru with
        | start => intro h; simp at h
        | @next Us b U b' ru hlu hcu ih =>
          intro hlt
          simp only [List.length_append, List.length_singleton] at hlt
          rcases Nat.lt_or_ge Ts.length Us.length with h | h
          · exact ih h
          · obtain ⟨rfl, rfl⟩ := run_unique hx r' ru (by omega)
            have := located_unique hx hlu hloc'
            cases this
      exact hpre r1 (by omega)
    · have hcases := Nat.lt_trichotomy Us.length Ts.length
      have hpass : ∀ {f : Rgbd.Obj α} {j : Rgbd.In α} {Vs c e2}, Run S f j Vs c → Located S f j Vs c (.error e2) → ∀ {Us b}, Run S f j Us b → ¬ Vs.length < Us.length := by
        intro f j Vs c e2 rv hlv Us b ru
        induction ru with
        | start => intro h; simp at h
        | @next Us b U b' ru hlu hcu ih =>
          intro hlt
          simp only [List.length_append, List.length_singleton] at hlt
          rcases Nat.lt_or_ge Vs.length Us.length with h | h
          · exact ih h
          · obtain ⟨rfl, rfl⟩ := run_unique hx rv ru (by omega)
            have := located_unique hx hlu hlv
            cases this
      rcases hcases with hc | hc | hc
      · exact absurd hc (hpass r1 hloc1 r')
      · obtain ⟨rfl, rfl⟩ := run_unique hx r' r1 hc
        have := located_unique hx hloc' hloc1
        cases this
        exact h1'
      · exact absurd hc (hpass r' hloc' r1)
  refine ⟨?_, fail hf hs hf' hs' h hk', fail hf' hs' hf hs hsym hk⟩
  intro m R m' R' e e' b t ht
  rcases forward_run hf hs with ⟨m1, R1, Ts, a, e1, r, hl, _, _, _, _, hR⟩ | ⟨e1, Ts, a, h1, _⟩
  swap
  · rw [e] at h1; cases h1
  rcases forward_run hf' hs' with ⟨m2, R2, Us, a', e2, r', hl', _, _, _, _, hR'⟩ | ⟨e1, Us, a', h1, _⟩
  swap
  · rw [e'] at h1; cases h1
  rw [e] at e1; rw [e'] at e2; cases e1; cases e2
  obtain ⟨c, rc⟩ := run_prefix r k (by omega)
  obtain ⟨c', rc'⟩ := run_prefix r' k (by omega)
  have rt := run_transfer h hf.B rc (by simp)
  obtain ⟨heq, _⟩ := run_unique hx rt rc' (by simp; omega)
  have h1 : Ts[t]? = some Ts[t] := List.getElem?_eq_getElem (by omega)
  have h2 : Us[t]? = some Ts[t] := by
    rw [← h1]
    have := congrArg (fun l => l[t]?) heq
    simpa [List.getElem?_take, ht] using this
  rw [hR t _ h1 b, hR' t _ h2 b]

end
end Verif.Slam
