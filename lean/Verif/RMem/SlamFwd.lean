import Verif.RMem.SlamSim
/-!
`forward` with the frames in memory: on values it is `Verif.Slam.forward`; it writes into no existing tensor.
-/
namespace Verif.RMem
open Verif Verif.Pcs
set_option linter.unusedSectionVars false

section
variable {α : Type*} [Field α] [LinearOrder α]

/-- An object that has just been indexed is its own clone. -/
theorem clone_getitem {idx : Rgbd.Index} {s t : Rgbd.Obj α} (h : Rgbd.getitem idx s = .ok t) : Rgbd.clone t = .ok t := by
  have key : ∀ is js, Rgbd.selected is js s = .ok t → Rgbd.clone t = .ok t := by
    intro is js h
    unfold Rgbd.selected at h
    split_ifs at h
    rcases hn : Rgbd.new (s.rgb.sel is js) (s.depth.sel is js) (s.K.sel0 is) none s.cf none with e | o
    · rw [hn] at h; simp at h
    · rw [hn] at h
      simp only [Except.ok.injEq] at h
      subst h
      have ho := hn
      unfold Rgbd.new at ho
      have e : o.rgb = s.rgb.sel is js ∧ o.depth = s.depth.sel is js ∧ o.K = s.K.sel0 is ∧ o.cf = s.cf := by
        split_ifs at ho <;> (simp only [Except.ok.injEq] at ho; rw [← ho]; exact ⟨rfl, rfl, rfl, rfl⟩)
      obtain ⟨e1, e2, e3, e4⟩ := e
      unfold Rgbd.clone
      simp only [e1, e2, e3, e4, hn]
  unfold Rgbd.getitem at h
  split at h
  · simp at h
  split at h
  · simp at h
  split at h
  · simp at h
  split_ifs at h
  exact key _ _ h

/-- What `frames[:, s].to(device)` makes. -/
theorem frameAt_sim (d : Dev) {m : Mem α} {frames : Obj} (s : Nat) (h : Ok m frames) :
    Ext m (frameAt d m frames s).2 ∧
    (∀ o, (frameAt d m frames s).1 = .ok o → ∀ r, Holds o r → Holds frames r ∨ (m.next ≤ r ∧ r < (frameAt d m frames s).2.next)) ∧
    (Uni m frames → (∀ o, (frameAt d m frames s).1 = .ok o → Uni (frameAt d m frames s).2 o ∧ o.dev = d) ∧
      Slam.frameAt (val m frames) s = (frameAt d m frames s).1.map (val (frameAt d m frames s).2)) := by
  unfold frameAt Slam.frameAt
  generalize hidx : (Rgbd.Index.tup [.slice none none none, .int s]) = idx
  have tog : ∀ {m : Mem α} {o : Obj}, Uni m o → Together m o.base := fun u =>
    ⟨(u.base .depth).trans (u.base .rgb).symm, (u.base .intrinsics).trans (u.base .rgb).symm⟩
  rcases hg : getitem idx m frames with ⟨e | o, m1⟩
  · simp only
    rcases getitem_sim idx h with ⟨e1, k1, k2⟩ | ⟨_, _, _, _, _, _, _, ⟨k0, k⟩, _⟩
    · rw [hg] at k2
      simp only [Prod.mk.injEq, Except.error.injEq] at k2
      obtain ⟨rfl, rfl⟩ := k2
      refine ⟨.rfl, fun o h => by simp at h, fun u => ⟨fun o h => by simp at h, ?_⟩⟩
      rw [k1]; rfl
    · rw [hg] at k0 k
      refine ⟨k0, fun o h => by simp at h, fun u => ⟨fun o h => by simp at h, ?_⟩⟩
      rcases k with ⟨e1, k1, k2⟩ | ⟨k1, _⟩ | ⟨_, c, k2, _⟩
      · simp only [Except.error.injEq] at k2
        subst k2
        rw [k1]; rfl
      · exact absurd (tog u) k1
      · simp at k2
  · simp only
    obtain ⟨k, kv⟩ := getitem_makes h hg
    have okO : Ok m1 o := fun r hr => by
      rcases k.own r hr with a | a
      · exact (h r a.1).trans_le k.ext.next
      · exact a.2
    rcases ht : toDevice 0 (.exact d) false m1 o with ⟨e | x | c, m2⟩
    · simp only
      rcases to_sim 0 (.exact d) false okO with ⟨_, _, k2⟩ | ⟨_, r, ⟨k0, k1⟩, k2, _⟩
      · rw [ht] at k2; simp at k2
      · rw [ht] at k2
        simp only [Prod.mk.injEq] at k2
        obtain ⟨k2, rfl⟩ := k2
        refine ⟨k.ext.trans k0, fun o h => by simp at h, fun u => ⟨fun o h => by simp at h, ?_⟩⟩
        rw [clone_getitem kv] at k1
        rcases k1 with ⟨_, k1, _⟩ | ⟨k1, _⟩ | ⟨_, c, k3, _⟩
        · simp at k1
        · exact absurd (tog (k.uni u)) k1
        · rw [k3] at k2; simp [Except.map] at k2
    · simp only
      rcases to_sim 0 (.exact d) false okO with ⟨_, k1, k2⟩ | ⟨_, r, _, k2, _⟩
      · rw [ht] at k2
        simp only [Prod.mk.injEq] at k2
        rw [k2.2]
        refine ⟨k.ext, fun c hc r hr => ?_, fun u => ⟨fun c hc => ?_, ?_⟩⟩
        · simp only [Except.ok.injEq] at hc
          subst hc
          exact (k.own r hr).imp_left And.left
        · simp only [Except.ok.injEq] at hc
          subst hc
          exact ⟨k.uni u, k1⟩
        · rw [kv]; rfl
      · rw [ht] at k2
        simp only [Prod.mk.injEq] at k2
        rcases r with ⟨_ | _, _⟩ <;> simp [Except.map] at k2
    · simp only
      obtain ⟨k1, k2, k3⟩ := to_makes okO ht
      refine ⟨k.ext.trans k1.ext, fun c' hc r hr => ?_, fun u => ⟨fun c' hc => ?_, ?_⟩⟩
      · simp only [Except.ok.injEq] at hc
        subst hc
        rcases k1.own r hr with a | a
        · rcases k.own r a.1 with b | b
          · exact .inl b.1
          · exact .inr ⟨b.1, b.2.trans_le k1.ext.next⟩
        · exact .inr ⟨k.ext.next.trans a.1, a.2⟩
      · simp only [Except.ok.injEq] at hc
        subst hc
        exact ⟨k1.uni trivial, k3⟩
      · rw [kv]
        have := clone_getitem kv
        rw [k2] at this
        simp only [Except.ok.injEq] at this
        simp only [Except.map, this]

/-- The live frame: its tensors are views of the batch, or new. -/
theorem liveFrame_sim (d : Dev) {m : Mem α} {frames : Obj} (s : Nat) (h : Ok m frames) :
    Ext m (liveFrame d m frames s).2 ∧
    (∀ o, (liveFrame d m frames s).1 = .ok o → ∀ r, Holds o r → Holds frames r ∨ (m.next ≤ r ∧ r < (liveFrame d m frames s).2.next)) ∧
    (Uni m frames → (∀ o, (liveFrame d m frames s).1 = .ok o → Uni (liveFrame d m frames s).2 o ∧ o.dev = d) ∧
      Slam.liveFrame (val m frames) s = (liveFrame d m frames s).1.map (val (liveFrame d m frames s).2)) := by
  obtain ⟨a, b, c⟩ := frameAt_sim d s h
  unfold liveFrame Slam.liveFrame
  generalize frameAt d m frames s = x at a b c ⊢
  rcases x with ⟨e | live, m1⟩
  · refine ⟨a, fun o h => by simp at h, fun u => ⟨fun o h => by simp at h, ?_⟩⟩
    rw [(c u).2]; rfl
  simp only at a b c ⊢
  have okl : Ok m1 live := fun r hr => by
    rcases b live rfl r hr with k | k
    · exact (h r k).trans_le a.next
    · exact k.2
  have hpn : (val m1 live).poses = none ↔ live.opt .poses = none := by simp [val]
  by_cases hs : s = 0 ∧ live.opt .poses = none
  · rw [if_pos hs]
    have fe := fresh_ext m1 d (.ofMat (Slam.eyes (α := α) frames.B))
    have fr := fresh_read m1 d (.ofMat (Slam.eyes (α := α) frames.B))
    have fd := fresh_dev m1 d (.ofMat (Slam.eyes (α := α) frames.B))
    have fn := fresh_next m1 d (.ofMat (Slam.eyes (α := α) frames.B))
    have fv := fresh_view m1 d (.ofMat (Slam.eyes (α := α) frames.B))
    generalize m1.fresh d (.ofMat (Slam.eyes (α := α) frames.B)) = y at fe fr fd fn fv ⊢
    rcases y with ⟨m2, v⟩
    simp only at fe fr fd fn fv
    subst fv
    simp only
    obtain ⟨so, sv⟩ := setPoses_sim (some ⟨m1.next, []⟩) m2 live
    simp only [Option.map_some, fr] at sv
    have okl2 := okl.ext fe
    have su := fun u hd => setPoses_uni (v := ⟨m1.next, []⟩) okl2 u (by simp [fn]) hd
    generalize setPoses (some ⟨m1.next, []⟩) m2 live = y at so sv su ⊢
    rcases y with ⟨e | ⟨⟩, l2⟩
    · simp only at so sv su ⊢
      refine ⟨a.trans fe, fun o h => by simp at h, fun u => ⟨fun o h => by simp at h, ?_⟩⟩
      rw [(c u).2]
      simp only [Except.map]
      rw [if_pos ⟨hs.1, hpn.2 hs.2⟩, ← val_ext okl fe]
      change (match Rgbd.setPoses (some (Cont.ofMat (Slam.eyes (α := α) frames.B)).mat) (val m2 live) with
        | (Except.error e, _) => Except.error (Slam.Err.rgbd e)
        | (Except.ok (), live) => Except.ok live) = _
      rw [sv]
    · simp only at so sv su ⊢
      refine ⟨a.trans fe, fun o ho r hr => ?_, fun u => ⟨fun o ho => ?_, ?_⟩⟩
      · simp only [Except.ok.injEq] at ho
        subst ho
        rcases so.own r hr with k | ⟨w, k, rfl⟩
        · exact (b live rfl r k).imp_right fun k => ⟨k.1, k.2.trans_le fe.next⟩
        · simp only [Option.some.injEq] at k
          subst k
          exact .inr ⟨a.next, by simp [fn]⟩
      · simp only [Except.ok.injEq] at ho
        subst ho
        obtain ⟨ul, dl⟩ := (c u).1 live rfl
        exact ⟨(su (ul.ext okl fe) (by rw [fd, dl])).2, so.dev.trans dl⟩
      · rw [(c u).2]
        simp only [Except.map]
        rw [if_pos ⟨hs.1, hpn.2 hs.2⟩, ← val_ext okl fe]
        change (match Rgbd.setPoses (some (Cont.ofMat (Slam.eyes (α := α) frames.B)).mat) (val m2 live) with
          | (Except.error e, _) => Except.error (Slam.Err.rgbd e)
          | (Except.ok (), live) => Except.ok live) = _
        rw [sv]
  · rw [if_neg hs]
    refine ⟨a, b, fun u => ⟨(c u).1, ?_⟩⟩
    rw [(c u).2]
    simp only [Except.map]
    rw [if_neg (fun k => hs ⟨k.1, hpn.1 k.2⟩)]

/-- The loop variables as `Verif.Slam` sees them. -/
def Loop.val (x : Loop α) : Slam.Loop α := ⟨x.pc, x.prev.map (RMem.val x.mem), x.poses⟩

/-- The previous frame, if there is one, on the device. -/
def Loop.On (d : Dev) (x : Loop α) : Prop := ∀ p, x.prev = some p → Uni x.mem p ∧ p.dev = d

set_option maxHeartbeats 1000000 in
theorem iter_sim [FloorRing α] (S : Slam.Sys α) (ctg : View → Bool) (d : Dev) {frames : Obj} (s : Nat) {x : Loop α} (hf : Ok x.mem frames)
    (hp : ∀ p, x.prev = some p → Ok x.mem p) :
    (∀ y, iter S ctg d frames s x = .ok y → Ext x.mem y.mem ∧ ∀ p, y.prev = some p → Ok y.mem p) ∧
    (Uni x.mem frames → x.On d → (∀ y, iter S ctg d frames s x = .ok y → y.On d) ∧
      Slam.iter S (val x.mem frames) s x.val = (iter S ctg d frames s x).map Loop.val) := by
  obtain ⟨a, b, c⟩ := liveFrame_sim d s hf
  unfold iter Slam.iter
  generalize liveFrame d x.mem frames s = l at a b c ⊢
  rcases l with ⟨e | live, m1⟩
  · refine ⟨fun y h => by simp at h, fun u _ => ⟨fun y h => by simp at h, ?_⟩⟩
    rw [(c u).2]; rfl
  simp only at a b c ⊢
  have okl : Ok m1 live := fun r hr => by
    rcases b live rfl r hr with k | k
    · exact (hf r k).trans_le a.next
    · exact k.2
  have hp1 : ∀ p, x.prev = some p → Ok m1 p := fun p h => (hp p h).ext a
  obtain ⟨st, sv⟩ := slamStep_sim S ctg x.pc true okl hp1
  have same : Uni x.mem frames → x.On d → SameDev m1 live x.prev := fun u on p P h1 h2 => by
    obtain ⟨u1, d1⟩ := on p h1
    rw [(u1.ext (hp p h1) a).opt h2, d1, ((c u).1 live rfl).2]
  have evp : x.prev.map (val x.mem) = x.prev.map (val m1) := by
    rcases hq : x.prev with _ | p
    · rfl
    · simp only [Option.map_some, val_ext (hp p hq) a]
  have lv : x.val = ⟨x.pc, x.prev.map (val m1), x.poses⟩ := by rw [Loop.val, evp]
  rw [lv]
  simp only
  generalize slamStep S ctg x.pc m1 live x.prev true = r at st sv ⊢
  rcases r with ⟨e | ⟨pc1, T⟩, pc2, m2, l2⟩
  · simp only at st sv ⊢
    refine ⟨fun y h => by simp at h, fun u on => ⟨fun y h => by simp at h, ?_⟩⟩
    rw [(c u).2]
    simp only [Except.map]
    rw [(sv ((c u).1 live rfl).1 (same u on)).2]
    rfl
  simp only at st sv ⊢
  have okl2 : Ok m2 l2 := fun q hq => by
    rcases st.own q hq with k | k | ⟨⟨_, k⟩, _⟩
    · exact (okl q k).trans_le st.ext.next
    · exact k.2
    · simp at k
  have hT : l2.opt .poses = some T := (st.out pc1 T rfl).1
  obtain ⟨so, spv⟩ := setPoses_sim (some T) m2 l2
  simp only [Option.map_some] at spv
  have su := fun u => setPoses_uni okl2 u (okl2.opt hT) (u.opt hT)
  have ok3 : Ok m2 (setPoses (some T) m2 l2).2 := fun r hr => by
    rcases so.own r hr with k | ⟨w, k, rfl⟩
    · exact okl2 r k
    · cases k; exact okl2.opt hT
  generalize setPoses (some T) m2 l2 = y at so spv su ok3 ⊢
  rcases y with ⟨e | ⟨⟩, l3⟩
  · simp only at so spv su ⊢
    refine ⟨fun y h => by simp at h, fun u on => ⟨fun y h => by simp at h, ?_⟩⟩
    rw [(c u).2]
    simp only [Except.map]
    rw [(sv ((c u).1 live rfl).1 (same u on)).2]
    simp only [Except.map, spv]
  · simp only at so spv su ok3 ⊢
    refine ⟨fun y h => ?_, fun u on => ⟨fun y h => ?_, ?_⟩⟩
    · simp only [Except.ok.injEq] at h
      subst h
      refine ⟨a.trans st.ext, fun p hpp => ?_⟩
      simp only at hpp
      split_ifs at hpp
      cases hpp
      exact ok3
    · simp only [Except.ok.injEq] at h
      subst h
      intro p hpp
      simp only at hpp
      split_ifs at hpp
      cases hpp
      have u2 := (sv ((c u).1 live rfl).1 (same u on)).1
      exact ⟨(su u2).2, so.dev.trans (st.dev.trans ((c u).1 live rfl).2)⟩
    · rw [(c u).2]
      simp only [Except.map]
      rw [(sv ((c u).1 live rfl).1 (same u on)).2]
      simp only [Except.map, spv, Loop.val]
      congr 2
      split_ifs <;> rfl

theorem iters_sim [FloorRing α] (S : Slam.Sys α) (ctg : View → Bool) (d : Dev) {m : Mem α} {frames : Obj} (hf : Ok m frames) (n : Nat) :
    (∀ y, iters S ctg d m frames n = .ok y → Ext m y.mem ∧ ∀ p, y.prev = some p → Ok y.mem p) ∧
    (Uni m frames → (∀ y, iters S ctg d m frames n = .ok y → y.On d) ∧
      Slam.iters S (val m frames) n = (iters S ctg d m frames n).map Loop.val) := by
  induction n with
  | zero =>
    refine ⟨fun y h => ?_, fun u => ⟨fun y h => ?_, rfl⟩⟩
    · simp only [iters, Except.ok.injEq] at h
      subst h
      exact ⟨.rfl, fun p h => by simp at h⟩
    · simp only [iters, Except.ok.injEq] at h
      subst h
      exact fun p h => by simp at h
  | succ n ih =>
    obtain ⟨i1, i2⟩ := ih
    simp only [iters, Slam.iters]
    generalize iters S ctg d m frames n = r at i1 i2 ⊢
    rcases r with e | x
    · refine ⟨fun y h => by simp at h, fun u => ⟨fun y h => by simp at h, ?_⟩⟩
      rw [(i2 u).2]; rfl
    obtain ⟨e, hp⟩ := i1 x rfl
    obtain ⟨j1, j2⟩ := iter_sim S ctg d n (hf.ext e) hp
    refine ⟨fun y h => ?_, fun u => ?_⟩
    · obtain ⟨k1, k2⟩ := j1 y h
      exact ⟨e.trans k1, k2⟩
    · obtain ⟨k1, k2⟩ := j2 (u.ext hf e) ((i2 u).1 x rfl)
      refine ⟨k1, ?_⟩
      rw [(i2 u).2, ← k2, val_ext hf e]
      rfl

/-- `forward` writes into no existing tensor and returns a new tensor; its values are those of `Slam.forward`. -/
theorem forward_sim [FloorRing α] (S : Slam.Sys α) (ctg : View → Bool) (d : Dev) {m : Mem α} {frames : Obj} (hf : Ok m frames) :
    (∀ pc T m', forward S ctg d m frames = .ok (pc, T, m') → Ext m m' ∧ m.next ≤ T.ref ∧ T.ref < m'.next ∧ T.ops = [] ∧ m'.dev T = d) ∧
    (Uni m frames → Slam.forward S (val m frames) = (forward S ctg d m frames).map fun x => (x.1, (x.2.2.read x.2.1).mat)) := by
  obtain ⟨a, b⟩ := iters_sim S ctg d hf frames.L
  unfold forward Slam.forward
  rw [show (val m frames).L = frames.L from rfl, show (val m frames).B = frames.B from rfl]
  generalize iters S ctg d m frames frames.L = r at a b ⊢
  rcases r with e | x
  · refine ⟨fun _ _ _ h => by simp at h, fun u => ?_⟩
    rw [(b u).2]; rfl
  obtain ⟨e, _⟩ := a x rfl
  simp only
  refine ⟨fun pc T m' h => ?_, fun u => ?_⟩
  · simp only [Except.ok.injEq, Prod.mk.injEq] at h
    obtain ⟨rfl, rfl, rfl⟩ := h
    exact ⟨e.trans (fresh_ext _ _ _), e.next, Nat.lt_succ_self _, rfl, fresh_dev _ _ _⟩
  · rw [(b u).2]
    simp only [Except.map, fresh_view, fresh_read]
    rfl
end
end Verif.RMem
