import Verif.RMem.Slam
import Verif.RMem.Makes
/-!
The functions of `Verif.RMem.Slam` on values are those of `Verif.Slam`, and what they do to memory.
-/
namespace Verif.RMem
open Verif Verif.Pcs
set_option linter.unusedSectionVars false

section
variable {α : Type*} [Field α] [LinearOrder α]

theorem readMaps_grows (nrm : V3 α → α) (eps : α) (m : Mem α) (o : Obj) : Grows m o (readMaps nrm eps m o).2.1 (readMaps nrm eps m o).2.2 := by
  unfold readMaps
  have g1 := getGVertex_grows eps m o
  generalize getGVertex eps m o = p at g1 ⊢
  rcases p with ⟨e | gv, m1, o1⟩
  · exact g1
  have g2 := getGNormal_grows nrm eps m1 o1
  simp only at g1 ⊢
  generalize getGNormal nrm eps m1 o1 = p at g2 ⊢
  rcases p with ⟨e | gn, m2, o2⟩
  · exact g1.trans g2
  have g3 := getVertex_grows eps m2 o2
  simp only at g2 ⊢
  generalize getVertex eps m2 o2 = p at g3 ⊢
  rcases p with ⟨e | v, m3, o3⟩
  · exact (g1.trans g2).trans g3
  have g4 := getNormal_grows nrm eps m3 o3
  simp only at g3 ⊢
  generalize getNormal nrm eps m3 o3 = p at g4 ⊢
  rcases p with ⟨e | n, m4, o4⟩
  · exact ((g1.trans g2).trans g3).trans g4
  exact (((g1.trans g2).trans g3).trans g4).trans (getValid_grows m4 o4)

/-- What a call returned, as a function of the memory and object afterwards. -/
def rmap {β γ : Type*} (f : Mem α → Obj → β → γ) (r : Except Rgbd.Err β × Mem α × Obj) : Except Rgbd.Err γ × Rgbd.Obj α :=
  (r.1.map (f r.2.1 r.2.2), val r.2.1 r.2.2)

set_option maxHeartbeats 1000000 in
theorem readMaps_val (nrm : V3 α → α) (eps : α) {m : Mem α} {o : Obj} (h : Ok m o) (u : Uni m o) :
    Fusion.readRaw nrm eps (val m o) = rmap rawOf (readMaps nrm eps m o) ∧
    Fusion.readFrame nrm eps (val m o) = rmap frameOf (readMaps nrm eps m o) := by
  unfold readMaps Fusion.readRaw Fusion.readFrame
  rw [getGVertex_val eps h u]
  have g1 := getGVertex_grows eps m o
  have h1 := cached_holds .gvertex (computeGVertex eps) m o
  change ∀ v, (getGVertex eps m o).1 = .ok v → Holds (getGVertex eps m o).2.2 v.ref at h1
  generalize getGVertex eps m o = p at g1 h1 ⊢
  rcases p with ⟨e | gv, m1, o1⟩
  · exact ⟨rfl, rfl⟩
  simp only at g1 h1
  have ok1 := g1.ok h
  have u1 := g1.uni h u
  have r1 := ok1 _ (h1 gv rfl)
  simp only [seen, Except.map]
  rw [getGNormal_val nrm eps ok1 u1]
  have g2 := getGNormal_grows nrm eps m1 o1
  have h2 := cached_holds .gnormal (computeGNormal nrm eps) m1 o1
  change ∀ v, (getGNormal nrm eps m1 o1).1 = .ok v → Holds (getGNormal nrm eps m1 o1).2.2 v.ref at h2
  generalize getGNormal nrm eps m1 o1 = p at g2 h2 ⊢
  rcases p with ⟨e | gn, m2, o2⟩
  · exact ⟨rfl, rfl⟩
  simp only at g2 h2
  have ok2 := g2.ok ok1
  have u2 := g2.uni ok1 u1
  have r2 := ok2 _ (h2 gn rfl)
  simp only [seen, Except.map]
  rw [getVertex_val eps ok2 u2]
  have g3 := getVertex_grows eps m2 o2
  have h3 := cached_holds .vertex (computeVertex eps) m2 o2
  change ∀ v, (getVertex eps m2 o2).1 = .ok v → Holds (getVertex eps m2 o2).2.2 v.ref at h3
  generalize getVertex eps m2 o2 = p at g3 h3 ⊢
  rcases p with ⟨e | v, m3, o3⟩
  · exact ⟨rfl, rfl⟩
  simp only at g3 h3
  have ok3 := g3.ok ok2
  have u3 := g3.uni ok2 u2
  have r3 := ok3 _ (h3 v rfl)
  simp only [seen, Except.map]
  rw [getNormal_val nrm eps ok3 u3]
  have g4 := getNormal_grows nrm eps m3 o3
  have h4 := cached_holds .normal (computeNormal nrm eps) m3 o3
  change ∀ v, (getNormal nrm eps m3 o3).1 = .ok v → Holds (getNormal nrm eps m3 o3).2.2 v.ref at h4
  generalize getNormal nrm eps m3 o3 = p at g4 h4 ⊢
  rcases p with ⟨e | n, m4, o4⟩
  · exact ⟨rfl, rfl⟩
  simp only at g4 h4
  have ok4 := g4.ok ok3
  have r4 := ok4 _ (h4 n rfl)
  simp only [seen, Except.map]
  rw [(getValid_val ok4).1]
  have g5 := getValid_grows m4 o4
  generalize getValid m4 o4 = p at g5 ⊢
  rcases p with ⟨k, m5, o5⟩
  simp only at g5
  have e4 := g4.ext.trans g5.ext
  have e3 := g3.ext.trans e4
  have e2 := g2.ext.trans e3
  have q1 := e2.read r1
  have q2 := e3.read r2
  have q3 := e4.read r3
  have q4 := g5.ext.read r4
  constructor
  · simp only [rmap, rawOf, Except.map, q1, q2, q3, q4]
    simp only [val, Option.map_map, Function.comp_def]
  · simp only [rmap, frameOf, Except.map, q1, q2, q3, q4]
    simp only [val, Option.map_map, Function.comp_def]

/-! ### Localisation -/

theorem setPoses_cases (v : Option View) (m : Mem α) (o : Obj) :
    (∃ e, setPoses v m o = (.error e, o)) ∨
    ∃ o', setPoses v m o = (.ok (), o') ∧ o'.opt .poses = v ∧ (∀ r, Rest o' r → Rest o r) ∧ o'.dev = o.dev := by
  unfold setPoses
  split_ifs
  · exact .inl ⟨_, rfl⟩
  · refine .inr ⟨_, rfl, by simp [Obj.dropGlobal], fun r hr => ?_, rfl⟩
    rcases hr with h | ⟨x, w, hp, hx, hr⟩ | h
    · exact .inl h
    · refine .inr (.inl ⟨x, w, hp, ?_, hr⟩)
      rcases x with _ | _ | _ | _ | _ | _ <;> simp [Obj.dropGlobal] at hx hp <;> exact hx
    · exact .inr (.inr h)

/-- Assigning poses on the device of the object. -/
theorem setPoses_uni {v : View} {m : Mem α} {o : Obj} (h : Ok m o) (u : Uni m o) (hv : v.ref < m.next) (hd : m.dev v = o.dev) :
    Ok m (setPoses (some v) m o).2 ∧ Uni m (setPoses (some v) m o).2 := by
  obtain ⟨k, _⟩ := setPoses_sim (some v) m o
  constructor
  · intro r hr
    rcases k.own r hr with a | ⟨w, e, rfl⟩
    · exact h r a
    · cases e; exact hv
  · intro r hr
    rw [k.dev]
    rcases k.own r hr with a | ⟨w, e, rfl⟩
    · exact u r a
    · cases e; exact hd

/-- What localisation does to memory and to the live frame: nothing is written to; apart from the poses the live frame gets new tensors
only. -/
structure Locates (m : Mem α) (live : Obj) (r : Except Slam.Err View × PC α × Mem α × Obj) : Prop where
  ext : Ext m r.2.2.1
  dev : r.2.2.2.dev = live.dev
  rest : ∀ q, Rest r.2.2.2 q → Rest live q ∨ (m.next ≤ q ∧ q < r.2.2.1.next)

theorem Ok.of_rest {m : Mem α} {o : Obj} (h : ∀ q, Rest o q → q < m.next) (hp : ∀ v, o.opt .poses = some v → v.ref < m.next) : Ok m o := fun q hq => by
  rcases rest_or hq with k | ⟨v, k1, k2⟩
  · exact h q k
  · rw [← k2]; exact hp v k1

set_option maxHeartbeats 1000000 in
theorem odometry_sim [FloorRing α] (S : Slam.Sys α) (provide : PC α → PC α → Except Icp.Err (List (M4 α))) (pc : PC α) {m : Mem α} {live prev : Obj}
    {P : View} (hl : Ok m live) (hp : Ok m prev) (hP : P.ref < m.next) :
    Locates m live (odometry S provide pc m live prev P) ∧
    ((odometry S provide pc m live prev P).2.2.2.opt .poses = live.opt .poses ∨ (odometry S provide pc m live prev P).2.2.2.opt .poses = some P) ∧
    (∀ T, (odometry S provide pc m live prev P).1 = .ok T → m.next ≤ T.ref ∧ T.ref < (odometry S provide pc m live prev P).2.2.1.next ∧
      (odometry S provide pc m live prev P).2.2.1.dev T = m.dev P) ∧
    (Uni m live → m.dev P = live.dev → Uni (odometry S provide pc m live prev P).2.2.1 (odometry S provide pc m live prev P).2.2.2 ∧
      Slam.odometry S provide pc (val m live) (val m prev) (m.read P).mat =
        ((odometry S provide pc m live prev P).1.map (fun T => ((odometry S provide pc m live prev P).2.2.1.read T).mat),
          (odometry S provide pc m live prev P).2.1, val (odometry S provide pc m live prev P).2.2.1 (odometry S provide pc m live prev P).2.2.2)) := by
  unfold odometry Slam.odometry
  have sv := (setPoses_sim (some P) m live).2
  simp only [Option.map_some] at sv
  have su := fun u hd => setPoses_uni hl u hP hd
  have so := (setPoses_sim (some P) m live).1
  have ok1 : Ok m (setPoses (some P) m live).2 := fun r hr => by
    rcases so.own r hr with a | ⟨w, e, rfl⟩
    · exact hl r a
    · cases e; exact hP
  rw [sv]
  rcases setPoses_cases (some P) m live with ⟨e, hs⟩ | ⟨l1, hs, hp1, hr1, hd1⟩
  · rw [hs]
    refine ⟨⟨.rfl, rfl, fun q h => .inl h⟩, .inl rfl, fun T h => by simp at h, fun u _ => ⟨u, rfl⟩⟩
  rw [hs] at su ok1 ⊢
  simp only at su ok1 ⊢
  have g := readMaps_grows S.nrm S.eps m l1
  have rv := fun u => (readMaps_val S.nrm S.eps ok1 u).1
  unfold Slam.withFrame
  generalize readMaps S.nrm S.eps m l1 = x at g rv ⊢
  rcases x with ⟨e | x, m1, l2⟩
  · simp only at g ⊢
    refine ⟨⟨g.ext, g.dev.trans hd1, fun q h => (g.rest q h).imp_left (hr1 q)⟩, .inr (g.poses.trans hp1), fun T h => by simp at h, fun u hd => ?_⟩
    rw [rv (su u hd).2]
    exact ⟨g.uni ok1 (su u hd).2, rfl⟩
  simp only at g ⊢
  have loc : ∀ m2, Ext m1 m2 → ∀ x pc, Locates m live (x, pc, m2, l2) := fun m2 e x pc =>
    ⟨g.ext.trans e, g.dev.trans hd1, fun q h => ((g.rest q h).imp_left (hr1 q)).imp_right fun k => ⟨k.1, k.2.trans_le e.next⟩⟩
  have pos : l2.opt .poses = some P := g.poses.trans hp1
  have vp := val_ext hp g.ext
  rcases hdr : Icp.downsampleRaw (rawOf m1 l2 x) S.ds with e | framesPc
  · simp only
    refine ⟨loc _ .rfl _ _, .inr pos, fun T h => by simp at h, fun u hd => ?_⟩
    rw [rv (su u hd).2]
    refine ⟨g.uni ok1 (su u hd).2, ?_⟩
    simp only [rmap, Except.map, hdr]
  simp only
  rw [vp]
  rcases hfa : Fusion.findActive pc (Slam.camera (val m prev)) with ⟨e | rows, pc1⟩
  · simp only
    refine ⟨loc _ .rfl _ _, .inr pos, fun T h => by simp at h, fun u hd => ?_⟩
    rw [rv (su u hd).2]
    refine ⟨g.uni ok1 (su u hd).2, ?_⟩
    simp only [rmap, Except.map, hdr]
  simp only
  rcases hds : Icp.downsamplePointclouds pc1 rows S.ds with ⟨e | mapsPc, pc2⟩
  · simp only
    refine ⟨loc _ .rfl _ _, .inr pos, fun T h => by simp at h, fun u hd => ?_⟩
    rw [rv (su u hd).2]
    refine ⟨g.uni ok1 (su u hd).2, ?_⟩
    simp only [rmap, Except.map, hdr, hds]
  simp only
  rcases hpr : provide mapsPc framesPc with e | T
  · simp only
    refine ⟨loc _ .rfl _ _, .inr pos, fun T h => by simp at h, fun u hd => ?_⟩
    rw [rv (su u hd).2]
    refine ⟨g.uni ok1 (su u hd).2, ?_⟩
    simp only [rmap, Except.map, hdr, hds, hpr]
  simp only
  generalize hc : Cont.ofMat (α := α) _ = c
  have fe := fresh_ext m1 (m1.dev P) c
  have dP := g.ext.dev hP
  refine ⟨loc _ fe _ _, .inr pos, fun T h => ?_, fun u hd => ?_⟩
  · simp only [Except.ok.injEq] at h
    subst h
    exact ⟨g.ext.next, Nat.lt_succ_self _, (fresh_dev m1 _ c).trans dP⟩
  · rw [rv (su u hd).2]
    refine ⟨(g.uni ok1 (su u hd).2).ext (g.ok ok1) fe, ?_⟩
    simp only [rmap, Except.map, hdr, hds, hpr]
    rw [val_ext (g.ok ok1) fe, fresh_view, fresh_read, ← hc, g.ext.read hP]
    rfl

/-- The devices agree: the poses of the previous frame are on the device of the live frame. -/
def SameDev (m : Mem α) (live : Obj) (prev : Option Obj) : Prop := ∀ p P, prev = some p → p.opt .poses = some P → m.dev P = live.dev

theorem localize_sim [FloorRing α] (S : Slam.Sys α) (pc : PC α) {m : Mem α} {live : Obj} {prev : Option Obj} (hl : Ok m live)
    (hp : ∀ p, prev = some p → Ok m p) :
    Locates m live (localize S pc m live prev) ∧
    ((localize S pc m live prev).2.2.2.opt .poses = live.opt .poses ∨
      ∃ p, prev = some p ∧ (localize S pc m live prev).2.2.2.opt .poses = p.opt .poses) ∧
    (∀ T, (localize S pc m live prev).1 = .ok T →
      ((S.odom.isGt = true ∨ prev = none) ∧ live.opt .poses = some T ∧ (localize S pc m live prev).2.2 = (m, live)) ∨
      (S.odom.isGt = false ∧ (m.next ≤ T.ref ∧ T.ref < (localize S pc m live prev).2.2.1.next) ∧
        ∃ p P, prev = some p ∧ p.opt .poses = some P ∧ (localize S pc m live prev).2.2.1.dev T = m.dev P)) ∧
    (Uni m live → SameDev m live prev → Uni (localize S pc m live prev).2.2.1 (localize S pc m live prev).2.2.2 ∧
      Slam.localize S pc (val m live) (prev.map (val m)) =
        ((localize S pc m live prev).1.map (fun T => ((localize S pc m live prev).2.2.1.read T).mat),
          (localize S pc m live prev).2.1, val (localize S pc m live prev).2.2.1 (localize S pc m live prev).2.2.2)) := by
  unfold localize Slam.localize
  have own : ∀ (hg : S.odom.isGt = true ∨ prev = none), ∀ r, r = (match live.opt .poses with
      | none => ((.error .valueError, pc, m, live) : Except Slam.Err View × PC α × Mem α × Obj)
      | some P => (.ok P, pc, m, live)) →
      Locates m live r ∧ (r.2.2.2.opt .poses = live.opt .poses ∨ ∃ p, prev = some p ∧ r.2.2.2.opt .poses = p.opt .poses) ∧
      (∀ T, r.1 = .ok T → ((S.odom.isGt = true ∨ prev = none) ∧ live.opt .poses = some T ∧ r.2.2 = (m, live)) ∨
        (S.odom.isGt = false ∧ (m.next ≤ T.ref ∧ T.ref < r.2.2.1.next) ∧ ∃ p P, prev = some p ∧ p.opt .poses = some P ∧ r.2.2.1.dev T = m.dev P)) ∧
      (Uni m live → SameDev m live prev → Uni r.2.2.1 r.2.2.2 ∧
        (match (val m live).poses with
          | none => (.error .valueError, pc, val m live)
          | some P => (.ok P, pc, val m live)) = (r.1.map (fun T => (r.2.2.1.read T).mat), r.2.1, val r.2.2.1 r.2.2.2)) := by
    intro hg r hr
    rcases hq : live.opt .poses with _ | P
    · rw [hq] at hr
      subst hr
      refine ⟨⟨.rfl, rfl, fun q h => .inl h⟩, .inl hq, fun T h => by simp at h, fun u _ => ⟨u, ?_⟩⟩
      rw [show (val m live).poses = none by simp [val, hq]]
      rfl
    · rw [hq] at hr
      subst hr
      refine ⟨⟨.rfl, rfl, fun q h => .inl h⟩, .inl hq, fun T h => ?_, fun u _ => ⟨u, ?_⟩⟩
      · simp only [Except.ok.injEq] at h
        subst h
        exact .inl ⟨hg, rfl, rfl⟩
      · rw [show (val m live).poses = some (m.read P).mat by simp [val, hq]]
        rfl
  rcases ho : S.odom with _ | provide
  · have := own (.inl (by rw [ho]; rfl)) _ rfl
    rw [ho] at this
    rcases prev with _ | p <;> exact this
  · rcases prev with _ | p
    · have := own (.inr rfl) _ rfl
      rw [ho] at this
      exact this
    · have hpo := hp p rfl
      rcases hq : p.opt .poses with _ | P
      · simp only [hq, Option.map_some]
        refine ⟨⟨.rfl, rfl, fun q h => .inl h⟩, .inl trivial, fun T h => by simp at h, fun u _ => ⟨u, ?_⟩⟩
        rw [show (val m p).poses = none by simp [val, hq]]
        rfl
      · simp only [hq, Option.map_some]
        obtain ⟨a, b, c, d⟩ := odometry_sim S provide pc hl hpo (hpo.opt hq)
        refine ⟨a, b.imp_right fun k => ⟨p, rfl, k.trans hq.symm⟩, fun T hT => ?_, fun u hd => ?_⟩
        · obtain ⟨k1, k2, k3⟩ := c T hT
          exact .inr ⟨rfl, ⟨k1, k2⟩, p, P, rfl, hq, k3⟩
        · rw [show (val m p).poses = some (m.read P).mat by simp [val, hq]]
          exact d u (hd p P rfl hq)

/-! ### Mapping -/

set_option maxHeartbeats 1000000 in
theorem readAggregate_sim (S : Slam.Sys α) (ctg : View → Bool) {m : Mem α} {live : Obj} (h : Ok m live) :
    Grows m live (readAggregate S ctg m live).2.1 (readAggregate S ctg m live).2.2 ∧
    (Uni m live → Slam.readAggregate S (val m live) =
      ((readAggregate S ctg m live).1, val (readAggregate S ctg m live).2.1 (readAggregate S ctg m live).2.2)) := by
  unfold readAggregate Slam.readAggregate
  rw [show (val m live).cf = live.cf from rfl]
  rcases hc : live.cf with _ | _
  · have e : toLast ctg false m live = (.ok .self, m) := by simp [toLast, hc]
    rw [e]
    have g := readMaps_grows S.nrm S.eps m live
    have rv := fun u => (readMaps_val S.nrm S.eps h u).2
    simp only
    generalize readMaps S.nrm S.eps m live = x at g rv ⊢
    rcases x with ⟨e | x, m1, l1⟩
    · exact ⟨g, fun u => rv u⟩
    · exact ⟨g, fun u => rv u⟩
  · have e : toLast ctg false m live = cloneThen (toLast_ ctg) m live := by simp [toLast, hc]
    rw [e]
    have e2 : Rgbd.toLast false (val m live) = (Rgbd.clone (val m live)).map Rgbd.toLast_ := by
      simp [Rgbd.toLast, val, hc]
    obtain ⟨k0, k⟩ := cloneThen_sim (fun m o h => toLast__sim ctg h) h
    rw [e2]
    generalize cloneThen (toLast_ ctg) m live = x at k0 k ⊢
    have keep : ∀ {m1 : Mem α}, Ext m m1 → Grows m live m1 live := fun e =>
      ⟨e, fun _ h => .inl h, rfl, fun h u => u.ext h e, rfl, fun _ h => .inl h⟩
    rcases x with ⟨r, m1⟩
    simp only at k0 k
    rcases k with ⟨er, h1, rfl⟩ | ⟨h1, h2, rfl⟩ | ⟨h1, c, s, rfl, h3, h4, h5, h6, h7⟩
    · simp only [h1, Except.map]
      exact ⟨keep k0, fun u => by rw [val_ext h k0]; rfl⟩
    · simp only
      refine ⟨keep k0, fun u => absurd ⟨?_, ?_⟩ h1⟩
      · exact (u.base .depth).trans (u.base .rgb).symm
      · exact (u.base .intrinsics).trans (u.base .rgb).symm
    · have okc : Ok m1 c := fun r hr => (h7 r hr).2
      have g := readMaps_grows S.nrm S.eps m1 c
      have rv := fun u => (readMaps_val S.nrm S.eps okc u).2
      simp only [h3, Except.map]
      rw [← h4]
      generalize readMaps S.nrm S.eps m1 c = x at g rv ⊢
      rcases x with ⟨e | x, m2, l1⟩
      · simp only
        refine ⟨keep (k0.trans g.ext), fun u => ?_⟩
        rw [rv (h6 u), val_ext h (k0.trans g.ext)]; rfl
      · simp only
        refine ⟨keep (k0.trans g.ext), fun u => ?_⟩
        rw [rv (h6 u), val_ext h (k0.trans g.ext)]; rfl

theorem mapStep_sim [FloorRing α] (S : Slam.Sys α) (ctg : View → Bool) (pc : PC α) {m : Mem α} {live : Obj} (inplace : Bool) (h : Ok m live) :
    Grows m live (mapStep S ctg pc m live inplace).2.2.1 (mapStep S ctg pc m live inplace).2.2.2 ∧
    (Uni m live → Slam.mapStep S pc (val m live) inplace =
      ((mapStep S ctg pc m live inplace).1, (mapStep S ctg pc m live inplace).2.1,
        val (mapStep S ctg pc m live inplace).2.2.1 (mapStep S ctg pc m live inplace).2.2.2)) := by
  unfold mapStep Slam.mapStep
  rcases S.mapper with _ | ⟨d, t⟩
  · obtain ⟨g, rv⟩ := readAggregate_sim S ctg h
    simp only
    generalize readAggregate S ctg m live = x at g rv ⊢
    rcases x with ⟨e | fr, m1, l1⟩
    · exact ⟨g, fun u => by rw [rv u]⟩
    · simp only at g rv ⊢
      rcases hu : Fusion.updateMapAggregate pc fr inplace with ⟨e | r, pc1⟩
      · exact ⟨g, fun u => by rw [rv u]; simp only [hu]⟩
      · exact ⟨g, fun u => by rw [rv u]; simp only [hu]⟩
  · have g := readMaps_grows S.nrm S.eps m live
    have rv := fun u => (readMaps_val S.nrm S.eps h u).1
    simp only
    generalize readMaps S.nrm S.eps m live = x at g rv ⊢
    rcases x with ⟨e | x, m1, l1⟩
    · exact ⟨g, fun u => by rw [rv u]; rfl⟩
    · simp only at g rv ⊢
      rcases hu : Fusion.updateMapFusionRaw S.nrm S.al pc (rawOf m1 l1 x) d t inplace with ⟨e | r, pc1⟩
      · exact ⟨g, fun u => by rw [rv u]; simp only [rmap, Except.map, hu]⟩
      · exact ⟨g, fun u => by rw [rv u]; simp only [rmap, Except.map, hu]⟩

/-! ### A step -/

/-- What a step does to memory and to the live frame. -/
structure Stepped (S : Slam.Sys α) (m : Mem α) (live : Obj) (prev : Option Obj) (r : Except Slam.Err (PC α × View) × PC α × Mem α × Obj) : Prop where
  ext : Ext m r.2.2.1
  dev : r.2.2.2.dev = live.dev
  rest : ∀ q, Rest r.2.2.2 q → Rest live q ∨ (m.next ≤ q ∧ q < r.2.2.1.next)
  /-- the tensor returned is that of the live frame: its old one without odometry, a new one with odometry -/
  out : ∀ pc' T, r.1 = .ok (pc', T) → r.2.2.2.opt .poses = some T ∧
    (((S.odom.isGt = true ∨ prev = none) ∧ live.opt .poses = some T) ∨
     (S.odom.isGt = false ∧ (∃ p P, prev = some p ∧ p.opt .poses = some P) ∧ m.next ≤ T.ref ∧ T.ref < r.2.2.1.next))
  /-- after an exception the poses of the live frame may be those of the previous frame -/
  poses : ∀ v, r.2.2.2.opt .poses = some v → live.opt .poses = some v ∨ (m.next ≤ v.ref ∧ v.ref < r.2.2.1.next) ∨
    (∃ e, r.1 = .error e) ∧ ∃ p, prev = some p ∧ p.opt .poses = some v

theorem Stepped.own {S : Slam.Sys α} {m : Mem α} {live : Obj} {prev : Option Obj} {r : Except Slam.Err (PC α × View) × PC α × Mem α × Obj}
    (h : Stepped S m live prev r) (q : Nat) (hq : Holds r.2.2.2 q) :
    Holds live q ∨ (m.next ≤ q ∧ q < r.2.2.1.next) ∨ (∃ e, r.1 = .error e) ∧ ∃ p v, prev = some p ∧ p.opt .poses = some v ∧ v.ref = q := by
  rcases rest_or hq with k | ⟨v, k, rfl⟩
  · exact (h.rest q k).imp Rest.holds .inl
  · rcases h.poses v k with a | a | ⟨e, p, a, b⟩
    · exact .inl (.inr (.inl ⟨.poses, v, a, rfl⟩))
    · exact .inr (.inl a)
    · exact .inr (.inr ⟨e, p, v, a, b, rfl⟩)

set_option maxHeartbeats 1000000 in
theorem slamStep_sim [FloorRing α] (S : Slam.Sys α) (ctg : View → Bool) (pc : PC α) {m : Mem α} {live : Obj} {prev : Option Obj} (inplace : Bool)
    (hl : Ok m live) (hp : ∀ p, prev = some p → Ok m p) :
    Stepped S m live prev (slamStep S ctg pc m live prev inplace) ∧
    (Uni m live → SameDev m live prev →
      Uni (slamStep S ctg pc m live prev inplace).2.2.1 (slamStep S ctg pc m live prev inplace).2.2.2 ∧
      Slam.step S pc (val m live) (prev.map (val m)) inplace =
        ((slamStep S ctg pc m live prev inplace).1.map (fun x => (x.1, ((slamStep S ctg pc m live prev inplace).2.2.1.read x.2).mat)),
          (slamStep S ctg pc m live prev inplace).2.1,
          val (slamStep S ctg pc m live prev inplace).2.2.1 (slamStep S ctg pc m live prev inplace).2.2.2)) := by
  obtain ⟨a, b, c, d⟩ := localize_sim S pc hl hp
  unfold slamStep Slam.step
  generalize localize S pc m live prev = x at a b c d ⊢
  rcases x with ⟨e | T, pc1, m1, l1⟩
  · simp only at a b c d ⊢
    refine ⟨⟨a.ext, a.dev, a.rest, fun _ _ h => by simp at h, fun v hv => ?_⟩, fun u hd => ?_⟩
    · rcases b with k | ⟨p, k1, k2⟩
      · exact .inl (k ▸ hv)
      · exact .inr (.inr ⟨⟨e, rfl⟩, p, k1, k2 ▸ hv⟩)
    · obtain ⟨d1, d2⟩ := d u hd
      refine ⟨d1, ?_⟩
      rw [d2]; rfl
  simp only at a b c d ⊢
  have okl : Ok m1 l1 := Ok.of_rest (fun q hq => by
    rcases a.rest q hq with k | k
    · exact (hl q k.holds).trans_le a.ext.next
    · exact k.2) (fun v hv => by
    rcases b with k | ⟨p, k1, k2⟩
    · exact (hl.opt (k ▸ hv)).trans_le a.ext.next
    · exact ((hp p k1).opt (k2 ▸ hv)).trans_le a.ext.next)
  have hT : T.ref < m1.next := by
    rcases c T rfl with ⟨_, k, k2⟩ | ⟨_, k, _⟩
    · exact (hl.opt k).trans_le a.ext.next
    · exact k.2
  have sv := (setPoses_sim (some T) m1 l1).2
  simp only [Option.map_some] at sv
  have dT : SameDev m live prev → Uni m live → m1.dev T = l1.dev := fun hd u => by
    rcases c T rfl with ⟨_, k, k2⟩ | ⟨_, _, p, P, k1, k2, k3⟩
    · simp only [Prod.mk.injEq] at k2
      rw [k2.1, k2.2]; exact u.opt k
    · rw [k3, hd p P k1 k2]; exact a.dev.symm
  have su := fun hd u => setPoses_uni okl (d u hd).1 hT (dT hd u)
  rcases setPoses_cases (some T) m1 l1 with ⟨e, hs⟩ | ⟨l2, hs, hp2, hr2, hd2⟩
  · rw [hs] at sv ⊢
    simp only at sv ⊢
    refine ⟨⟨a.ext, a.dev, a.rest, fun _ _ h => by simp at h, fun v hv => ?_⟩, fun u hd => ?_⟩
    · rcases b with k | ⟨p, k1, k2⟩
      · exact .inl (k ▸ hv)
      · exact .inr (.inr ⟨⟨_, rfl⟩, p, k1, k2 ▸ hv⟩)
    · obtain ⟨d1, d2⟩ := d u hd
      refine ⟨d1, ?_⟩
      rw [d2]
      simp only [Except.map, sv]
  have okl2 : Ok m1 l2 := Ok.of_rest (fun q hq => okl q (hr2 q hq).holds) (fun v hv => by
    rw [hp2] at hv; cases hv; exact hT)
  rw [hs] at sv su ⊢
  simp only at sv su ⊢
  obtain ⟨g, mv⟩ := mapStep_sim S ctg pc1 inplace okl2
  generalize mapStep S ctg pc1 m1 l2 inplace = x at g mv ⊢
  have key : ∀ {m2 : Mem α} {l3 : Obj}, Grows m1 l2 m2 l3 → ∀ (r : Except Slam.Err (PC α × View)) pc', (∀ pc'' T', r = .ok (pc'', T') → T' = T) →
      Stepped S m live prev (r, pc', m2, l3) := by
    intro m2 l3 g r pc' hr
    refine ⟨a.ext.trans g.ext, g.dev.trans (hd2.trans a.dev), fun q hq => ?_, fun pc'' T' h => ?_, fun v hv => ?_⟩
    · rcases g.rest q hq with k | k
      · rcases a.rest q (hr2 q k) with k | k
        · exact .inl k
        · exact .inr ⟨k.1, k.2.trans_le g.ext.next⟩
      · exact .inr ⟨a.ext.next.trans k.1, k.2⟩
    · rw [hr pc'' T' h]
      refine ⟨g.poses.trans hp2, ?_⟩
      rcases c T rfl with ⟨k1, k2, _⟩ | ⟨k1, k2, p, P, k3, k4, _⟩
      · exact .inl ⟨k1, k2⟩
      · exact .inr ⟨k1, ⟨p, P, k3, k4⟩, k2.1, k2.2.trans_le g.ext.next⟩
    · simp only at hv
      rw [g.poses, hp2] at hv
      cases hv
      rcases c T rfl with ⟨k1, k2, _⟩ | ⟨k1, k2, _⟩
      · exact .inl k2
      · exact .inr (.inl ⟨k2.1, k2.2.trans_le g.ext.next⟩)
  rcases x with ⟨e | r, pc2, m2, l3⟩
  · simp only at g mv ⊢
    refine ⟨key g _ _ fun _ _ h => by simp at h, fun u hd => ?_⟩
    obtain ⟨d1, d2⟩ := d u hd
    refine ⟨g.uni okl2 (su hd u).2, ?_⟩
    rw [d2]
    simp only [Except.map, sv, mv (su hd u).2]
  · simp only at g mv ⊢
    refine ⟨key g _ _ fun _ _ h => ?_, fun u hd => ?_⟩
    · simp only [Except.ok.injEq, Prod.mk.injEq] at h
      exact h.2.symm
    obtain ⟨d1, d2⟩ := d u hd
    refine ⟨g.uni okl2 (su hd u).2, ?_⟩
    rw [d2]
    simp only [Except.map, sv, mv (su hd u).2, g.ext.read hT]
end
end Verif.RMem
