import Verif.Slam.Batch
import Verif.Slam.StaticProps
import Verif.Icp.Rotate
/-!
C80: with ICP odometry the orientation of the world does not matter.
-/
namespace Verif.Slam
open Verif Pcs
set_option linter.unusedSectionVars false
set_option linter.unusedSimpArgs false

section
variable {α : Type*} [Field α] [LinearOrder α] [IsStrictOrderedRing α] [FloorRing α]
variable {n : Nat} {σ : Nat → Nat} {G : Nat → M4 α}

theorem vecs_map {l m : List (T2 α)} {b k : Nat} {f : V3 α → V3 α} (h : ∀ x, Fusion.vecAt m k x = (Fusion.vecAt l b x).map f) :
    Icp.vecs (m.getD k ⟨[], 0⟩) = (Icp.vecs (l.getD b ⟨[], 0⟩)).map f := by
  refine List.ext_getElem? fun x => ?_
  have := h x
  rw [List.getElem?_map, vecs_getD, vecs_getD, List.getElem?_map, List.getElem?_map]
  simp only [Fusion.vecAt, Fusion.rowAt] at this
  cases h1 : m[k]? <;> cases h2 : l[b]? <;> simp only [h1, h2, Option.bind_none, Option.bind_some, Option.map_none, Option.map_some, Option.getD_none, Option.getD_some, List.getElem?_nil] at this ⊢
  · exact this
  · exact this
  · exact this

/-- A provider follows a transform of the world if its registration routine does. -/
theorem icp_follows_of (icp : List (V3 α) → List (V3 α) → List (V3 α) → Option (M4 α) → Except Icp.Err (M4 α × List Nat)) (n : Nat) (σ : Nat → Nat)
    (hicp : ∀ k < n, ∀ src tgt nrm T idx, icp src tgt nrm (some M4.one) = .ok (T, idx) → ∃ T2 idx2,
      icp (src.map (movePt (G k))) (tgt.map (movePt (G k))) (nrm.map (G k).R.mulVec) (some M4.one) = .ok (T2, idx2) ∧ StepMoved (G k) T T2) :
    Follows (Icp.provide icp) n σ G := by
  intro m f m2 f2 a c a2 c2 hm hf hm2 hf2 mv mvf hin ans h
  have om := inv_obs hm; have of := inv_obs hf; have om2 := inv_obs hm2; have of2 := inv_obs hf2
  rw [Icp.provide, om.list] at h
  cases hN : a .normals with
  | none => rw [hN] at h; cases h
  | some Nn =>
    obtain ⟨Nm, hM⟩ := Option.ne_none_iff_exists'.1 (fun hc => absurd ((mv.attr .normals).1 hc) (by simp [hN]) : a2 .normals ≠ none)
    rw [hN] at h; simp only at h
    by_cases hB : m.B ≠ f.B
    · rw [if_pos hB] at h; cases h
    rw [if_neg hB] at h
    by_cases h0 : m.B = 0
    · rw [if_pos h0] at h; cases h
    rw [if_neg h0] at h
    rw [om.list, of.list] at h
    cases hQ : a .points with
    | none => rw [hQ] at h; cases h
    | some Q =>
      cases hP : c .points with
      | none => rw [hQ, hP] at h; cases h
      | some P =>
        rw [hQ, hP] at h; simp only at h
        obtain ⟨Q2, hQ2⟩ := Option.ne_none_iff_exists'.1 (fun hc => absurd ((mv.attr .points).1 hc) (by simp [hQ]) : a2 .points ≠ none)
        obtain ⟨P2, hP2⟩ := Option.ne_none_iff_exists'.1 (fun hc => absurd ((mvf.attr .points).1 hc) (by simp [hP]) : c2 .points ≠ none)
        have b2 : m2.B = n := by rw [om2.size, count, hQ2]; exact mv.len _ _ hQ2
        have b2' : f2.B = n := by rw [of2.size, count, hP2]; exact mvf.len _ _ hP2
        have bf : f.B = P.length := by rw [of.size, count, hP]; rfl
        have hn : n ≠ 0 := by
          have := (Fusion.wf_of_inv hm2 hQ2).ne
          rw [← mv.len _ _ hQ2]; simpa using this
        obtain ⟨hl, hk⟩ := collect_nth h
        have hB' : m.B = P.length := by rw [← bf]; exact not_not.1 hB
        have hget : ∀ k < n, ∃ T2, StepMoved (G k) (ans.getD (σ k) M4.one) T2 ∧ (match icp (Icp.vecs (P2.getD k ⟨[], 0⟩)) (Icp.vecs (Q2.getD k ⟨[], 0⟩)) (Icp.vecs (Nm.getD k ⟨[], 0⟩)) (some M4.one) with
            | .error e => Except.error e
            | .ok (T, _) => .ok T) = .ok T2 := by
          intro k hkn
          have hs : σ k < m.B := by rw [hB']; exact hin P hP k hkn
          obtain ⟨x, hx, hfx⟩ := hk (σ k) (σ k) (by simp [hs])
          have ex : ans.getD (σ k) M4.one = x := by rw [List.getD_eq_getElem?_getD, hx]; rfl
          cases hi : icp (Icp.vecs (P.getD (σ k) ⟨[], 0⟩)) (Icp.vecs (Q.getD (σ k) ⟨[], 0⟩)) (Icp.vecs (Nn.getD (σ k) ⟨[], 0⟩)) (some M4.one) with
          | error e => rw [hi] at hfx; cases hfx
          | ok r =>
            obtain ⟨T, idx⟩ := r
            rw [hi] at hfx
            simp only [Except.ok.injEq] at hfx
            obtain ⟨T2, idx2, e, sm⟩ := hicp k hkn _ _ _ _ _ hi
            refine ⟨T2, by rw [ex, ← hfx]; exact sm, ?_⟩
            rw [vecs_map (moved_points mvf hP hP2 hkn), vecs_map (moved_points mv hQ hQ2 hkn), vecs_map (moved_normals mv hN hM hkn), e]
        have : Nonempty (M4 α) := ⟨M4.one⟩
        choose! A2 hA1 hA2 using hget
        refine ⟨(List.range n).map A2, ?_, fun k hkn => ?_⟩
        · rw [Icp.provide, om2.list, hM]
          simp only [b2, b2', ne_eq, not_true_eq_false, if_false, hn]
          rw [om2.list, of2.list, hQ2, hP2]
          exact Icp.collect_ok fun k hk' => hA2 k (List.mem_range.1 hk')
        · have : ((List.range n).map A2).getD k M4.one = A2 k := by
            rw [List.getD_eq_getElem?_getD]; simp [hkn]
          rw [this]
          exact hA1 k hkn
end

/-- Specification: a turn of the world about the origin (or a reflection through a plane or a point that contains it). -/
def Turn (g : M4 ℝ) : Prop := Icp.Orthogonal g.R ∧ g.t = V3.zero ∧ g.b = V3.zero ∧ g.s = 1

theorem Turn.rigid {g : M4 ℝ} (h : Turn g) : g.Rigid := ⟨⟨h.2.2.1, h.2.2.2⟩, h.1.1, h.1.2⟩

theorem turn_movePt {g : M4 ℝ} (h : Turn g) (p : V3 ℝ) : movePt g p = g.R.mulVec p := by
  rw [movePt, h.2.1]; ext <;> simp [V3.add, V3.zero]

theorem turn_step {g : M4 ℝ} (h : Turn g) (T : M4 ℝ) : StepMoved g T (Icp.turned g.R T) := by
  refine ⟨?_, ?_⟩
  · show ((g.R.mul T.R).mul g.R.transpose).mul g.R = _
    rw [M3.mul_assoc, h.1.2, M3.mul_one]
  · rw [turn_movePt h, h.2.1, mulVec_zero]
    show (V3.zero).add (g.R.mulVec T.t) = _
    ext <;> simp [V3.add, V3.zero]

theorem turn_pose {g : M4 ℝ} (h : Turn g) (T : M4 ℝ) : PoseMoved g T (g.mul T) := by
  obtain ⟨_, h1, h2, h3⟩ := h
  refine ⟨?_, ?_, ?_, ?_⟩
  · ext <;> simp [M4.mul, h1, M3.outer, M3.add, V3.add, V3.smul, V3.zero]
  · ext <;> simp [M4.mul, h1, movePt, V3.add, V3.smul, V3.zero]
  · ext <;> simp [M4.mul, h2, h3, M3.mulVec, V3.add, V3.smul, V3.dot, V3.zero]
  · simp [M4.mul, h2, h3, V3.dot, V3.zero]

theorem turn_pose_of {g T U : M4 ℝ} (h : Turn g) (hp : PoseMoved g T U) : U = g.mul T := by
  have h2 := turn_pose h T
  exact M4.ext (hp.R.trans h2.R.symm) (hp.t.trans h2.t.symm) (hp.b.trans h2.b.symm) (hp.s.trans h2.s.symm)

/-- The registration routines follow turns of the world. -/
theorem registration_turns {nn : List (V3 ℝ) → V3 ℝ → Nat} (hnn : Icp.NearestIn nn) (hby : Icp.ByDistance nn) {epsE eps : ℝ} (hE : 0 < epsE)
    {nrm : V3 ℝ → ℝ} {p : Params} (hdamp : 0 < p.damp) (hlm : 1 < p.lambdaMax) {odom : String} {S : Sys ℝ} (h : Made nn epsE eps nrm p odom S)
    {n : Nat} {G : Nat → M4 ℝ} (hG : ∀ k < n, Turn (G k)) (provide : PC ℝ → PC ℝ → Except Icp.Err (List (M4 ℝ))) (ho : S.odom = .prov provide) :
    Follows provide n id G := by
  have key : ∀ (icp : List (V3 ℝ) → List (V3 ℝ) → List (V3 ℝ) → Option (M4 ℝ) → Except Icp.Err (M4 ℝ × List Nat)),
      (∀ (A : M3 ℝ), Icp.Orthogonal A → ∀ src tgt nrm, Icp.SameTurned A (icp src tgt nrm (some M4.one))
        (icp (src.map A.mulVec) (tgt.map A.mulVec) (nrm.map A.mulVec) (some (Icp.turned A M4.one)))) → Follows (Icp.provide icp) n id G := by
    intro icp hi
    refine icp_follows_of icp n id fun k hk src tgt nrm T idx e => ?_
    have e0 : movePt (G k) = (G k).R.mulVec := funext fun p => turn_movePt (hG k hk) p
    rw [e0]
    have := hi (G k).R (hG k hk).1 src tgt nrm
    rw [e, Icp.turned_one (hG k hk).1] at this
    rcases this with ⟨T', i1, i2, e1, e2, _⟩ | ⟨e', h1, _⟩
    · cases e1
      exact ⟨_, _, e2, turn_step (hG k hk) T⟩
    · cases h1
  have aff : (M4.one : M4 ℝ).Affine := M4.one_rigid.1
  rcases odom_cases (made_cases h).1 with ⟨_, hc⟩ | ⟨_, hc⟩ | ⟨_, hc⟩
  · rw [hc] at ho; cases ho
  · rw [hc] at ho; cases ho
    exact key _ fun A hA src tgt nrm => Icp.icp_turned hnn hby hA hE (.refl _) tgt nrm aff _ hdamp
  · rw [hc] at ho; cases ho
    exact key _ fun A hA src tgt nrm => Icp.gradicp_turned hnn hby hA hE hlm (.refl _) tgt nrm aff _ hdamp

/-- Specification: the second batch shows the same images with the same calibration. -/
structure SameImages (i i2 : Rgbd.In ℝ) : Prop where
  B : i2.B = i.B
  L : i2.L = i.L
  H : i2.H = i.H
  W : i2.W = i.W
  img : ∀ b < i.B, ∀ t < i.L, i2.rgb b t = i.rgb b t ∧ i2.depth b t = i.depth b t ∧ i2.pix b t = i.pix b t
  K : ∀ b < i.B, i2.K b = i.K b

theorem given_first {frames : Rgbd.Obj ℝ} {i : Rgbd.In ℝ} : ∃ T, given frames i 0 = some T ∧ ∀ b < i.B, T.at' b 0 = firstPose frames b := by
  cases hp : frames.poses with
  | some P =>
    refine ⟨P.sel (List.range i.B) [0], by simp only [given, hp], fun b hb => ?_⟩
    have e : (P.sel (List.range i.B) [0]).at' b 0 = P.at' b 0 := by simp [Rgbd.TM.sel, hb]
    rw [e, firstPose, hp]; rfl
  | none => exact ⟨eyes i.B, by simp [given, hp], fun b hb => by rw [firstPose, hp]; rfl⟩

section
variable {nn : List (V3 ℝ) → V3 ℝ → Nat} (hnn : Icp.NearestIn nn) (hby : Icp.ByDistance nn) {epsE eps : ℝ} (hE : 0 < epsE) {p : Params}
  (hdamp : 0 < p.damp) (hlm : 1 < p.lambdaMax) (hds : 0 < p.ds) {odom : String} (hodom : odom ≠ "gt") {S : Sys ℝ}
  (hS : Sensible nn epsE eps p odom S)
include hnn hby hE hdamp hlm hds hodom hS

/-- **C80** (with ICP odometry the orientation of the world does not matter).  Let a second batch show the same images with the same calibration, and let its
first poses be those of the first batch turned about the world origin, `G b · T` (the other poses are not used).  If `forward` succeeds on the first
batch, it succeeds on the second: every returned pose is turned by `G b`, the points of the map are turned, so are the normals, and colours and
confidences are the same. -/
theorem orientation_free {frames frames2 : Rgbd.Obj ℝ} {i i2 : Rgbd.In ℝ} (hi : SmallSeq S i) (hf : SeqOk S frames i) (hf2 : SeqOk S frames2 i2)
    (hL : 0 < i.L) (same : SameImages i i2) {G : Nat → M4 ℝ} (hG : ∀ b < i.B, Turn (G b))
    (hfirst : ∀ b < i.B, firstPose frames2 b = (G b).mul (firstPose frames b)) {m : PC ℝ} {R : Rgbd.TM ℝ} (hfw : forward S frames = .ok (m, R)) :
    ∃ m2 R2, forward S frames2 = .ok (m2, R2) ∧ (∀ b < i.B, ∀ t < i.L, R2.at' b t = (G b).mul (R.at' b t)) ∧
      ∀ X, ((getList X m).1 = none ∧ (getList X m2).1 = none) ∨
        ∃ l l2, (getList X m).1 = some l ∧ (getList X m2).1 = some l2 ∧ l.length = i.B ∧ l2.length = i.B ∧ ∀ b < i.B, ∀ x, RowMoved (G b) l l2 b x X := by
  obtain ⟨made, hthr⟩ := sensible_made hS
  have hngt : S.odom ≠ .gt := by
    rcases odom_cases (made_cases made).1 with ⟨h, _⟩ | ⟨_, hc⟩ | ⟨_, hc⟩
    · exact absurd h hodom
    · rw [hc]; simp
    · rw [hc]; simp
  have hi2 : SmallSeq S i2 := by
    rcases hi with h | ⟨h1, h2, h3, h4⟩
    · exact .inl h
    · exact .inr ⟨by rw [same.B]; exact h1, by rw [same.H]; exact h2, by rw [same.W]; exact h3, by rw [same.L, same.H, same.W]; exact h4⟩
  have hn : Rgbd.IsNorm S.nrm := by rw [(made_cases made).2.2.1]; exact Rgbd.nrmR_isNorm
  have hq : SeqPair S i.B id G frames frames2 i i2 := by
    refine ⟨same.L, fun t ht => ?_, fun t ht h0 T hgT => ?_, fun k hk => (hG k hk).rigid, fun k hk v => norm_orthogonal hn (hG k hk).1.2 v,
      fun d t h => .inl (hthr d t h).2.1⟩
    · obtain ⟨s1, _, s3, s4, s⟩ := snap_spec i t
      obtain ⟨u1, _, u3, u4, u⟩ := snap_spec i2 t
      refine ⟨u1.trans same.B, fun k hk => by rw [s1]; exact hk, by rw [u3, s3, same.H], by rw [u4, s4, same.W], ?_, ?_, ?_, ?_⟩
      · intro k hk; rw [(u k (same.B ▸ hk)).1, (same.img k hk t ht).1]; exact ((s k hk).1).symm
      · intro k hk; rw [(u k (same.B ▸ hk)).2.1, (same.img k hk t ht).2.1]; exact ((s k hk).2.1).symm
      · intro k hk; rw [(u k (same.B ▸ hk)).2.2.1, same.K k hk]; exact ((s k hk).2.2.1).symm
      · intro k hk; rw [(u k (same.B ▸ hk)).2.2.2.1, (same.img k hk t ht).2.2]; exact ((s k hk).2.2.2.1).symm
    · obtain rfl : t = 0 := h0.resolve_right hngt
      obtain ⟨T', e, hT'⟩ := given_first (frames := frames) (i := i)
      obtain ⟨U, e2, hU⟩ := given_first (frames := frames2) (i := i2)
      rw [hgT] at e; cases e
      refine ⟨U, e2, fun k hk => ?_⟩
      rw [hU k (same.B ▸ hk), hfirst k hk]
      show PoseMoved (G k) (T.at' k 0) _
      rw [hT' k hk]
      exact turn_pose (hG k hk) _
  obtain ⟨m2, R2, a, c, e2, _, _, hm, hm2, hne, mv, hR2⟩ := forward_moved hf (made_sysOk made (.inr hds) hi).1 hf2 (made_sysOk made (.inr hds) hi2).1 hq
    (fun provide ho => registration_turns hnn hby hE hdamp hlm made hG provide ho) hfw
  refine ⟨m2, R2, e2, fun b hb t ht => turn_pose_of (hG b hb) (hR2 b hb t ht), fun X => ?_⟩
  · rw [(inv_obs hm.inv).list, (inv_obs hm2.inv).list]
    cases hX : a X with
    | none => exact .inl ⟨rfl, (mv.attr X).2 hX⟩
    | some l =>
      obtain ⟨q, hq'⟩ := Option.ne_none_iff_exists'.1 (fun hc => absurd ((mv.attr X).1 hc) (by simp [hX]) : c X ≠ none)
      obtain ⟨Pa, hPa⟩ := Option.ne_none_iff_exists'.1 (hne hL)
      have hl : l.length = i.B := ((Fusion.wf_of_inv hm.inv hPa).length hX).trans (hm.shape Pa hPa).1
      refine .inr ⟨l, q, rfl, hq', hl, mv.len X q hq', fun b hb x => ?_⟩
      cases X with
      | points => exact moved_points mv hX hq' hb x
      | normals => exact moved_normals mv hX hq' hb x
      | colors =>
        show Fusion.rowAt q b x = Fusion.rowAt l b x
        rw [mv.row .colors l q hX hq' b hb]
        show (Fusion.rowAt l b x).map (act (G b) .colors) = _
        cases Fusion.rowAt l b x <;> rfl
      | features =>
        show Fusion.rowAt q b x = Fusion.rowAt l b x
        rw [mv.row .features l q hX hq' b hb]
        show (Fusion.rowAt l b x).map (act (G b) .features) = _
        cases Fusion.rowAt l b x <;> rfl

/-- **C80**, success: `forward` fails on the one batch if and only if it fails on the other. -/
theorem orientation_free_success {frames frames2 : Rgbd.Obj ℝ} {i i2 : Rgbd.In ℝ} (hi : SmallSeq S i) (hf : SeqOk S frames i) (hf2 : SeqOk S frames2 i2)
    (hL : 0 < i.L) (same : SameImages i i2) {G : Nat → M4 ℝ} (hG : ∀ b < i.B, Turn (G b))
    (hfirst : ∀ b < i.B, firstPose frames2 b = (G b).mul (firstPose frames b)) :
    (∃ r, forward S frames = .ok r) ↔ ∃ r, forward S frames2 = .ok r := by
  constructor
  · rintro ⟨⟨m, R⟩, h⟩
    obtain ⟨m2, R2, e, _⟩ := orientation_free hnn hby hE hdamp hlm hds hodom hS hi hf hf2 hL same hG hfirst h
    exact ⟨_, e⟩
  · rintro ⟨⟨m, R⟩, h⟩
    have same' : SameImages i2 i := ⟨same.B.symm, same.L.symm, same.H.symm, same.W.symm, fun b hb t ht => by
      obtain ⟨a, b, c⟩ := same.img b (same.B ▸ hb) t (same.L ▸ ht); exact ⟨a.symm, b.symm, c.symm⟩, fun b hb => (same.K b (same.B ▸ hb)).symm⟩
    have hi2 : SmallSeq S i2 := by
      rcases hi with h | ⟨h1, h2, h3, h4⟩
      · exact .inl h
      · exact .inr ⟨by rw [same.B]; exact h1, by rw [same.H]; exact h2, by rw [same.W]; exact h3, by rw [same.L, same.H, same.W]; exact h4⟩
    have hinv : ∀ g T : M4 ℝ, Turn g → (⟨g.R.transpose, V3.zero, V3.zero, 1⟩ : M4 ℝ).mul (g.mul T) = T := by
      intro g T hg
      have h1 := turn_pose hg T
      have hg' : Turn (⟨g.R.transpose, V3.zero, V3.zero, 1⟩ : M4 ℝ) := ⟨⟨hg.1.2, hg.1.1⟩, rfl, rfl, rfl⟩
      have h2 := turn_pose hg' (g.mul T)
      refine M4.ext ?_ ?_ (h2.b.trans h1.b) (h2.s.trans h1.s)
      · rw [h2.R, h1.R, ← M3.mul_assoc]
        show (g.R.transpose.mul g.R).mul T.R = T.R
        rw [hg.1.2, M3.one_mul]
      · rw [h2.t, h1.t, turn_movePt hg', turn_movePt hg]
        exact Icp.back hg.1 T.t
    obtain ⟨m2, R2, e, _⟩ := orientation_free hnn hby hE hdamp hlm hds hodom hS hi2 hf2 hf (same.L ▸ hL) same'
      (G := fun b => ⟨(G b).R.transpose, V3.zero, V3.zero, 1⟩) (fun b hb => ⟨⟨(hG b (same.B ▸ hb)).1.2, (hG b (same.B ▸ hb)).1.1⟩, rfl, rfl, rfl⟩)
      (fun b hb => by rw [hfirst b (same.B ▸ hb), hinv _ _ (hG b (same.B ▸ hb))]) h
    exact ⟨_, e⟩
end
end Verif.Slam
