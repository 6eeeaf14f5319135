import Verif.Mem.MapSim
/-! `update_map_aggregate`, `update_map_fusion` and `step` in memory: values, growth, and what the map returned shares with other maps. -/
namespace Verif.Mem
open Verif Verif.Pcs
set_option linter.unusedSectionVars false
set_option linter.unusedSimpArgs false

section
variable {α : Type*}

theorem has_self (X : Attr) (o : Obj) (r : Nat) (h : Holds (hasAttr X o).2 r) : Holds o r := by
  obtain ⟨g, e⟩ := hasAttr_eta X o
  rw [e] at h
  exact (holds_has o g r).1 h

theorem clone_self (m : Mem α) (o : Obj) : (clone m o).2.2 = (hasAttr .points o).2 := by
  unfold clone
  rcases hasAttr .points o with ⟨b, o1⟩
  rcases b with _ | _
  · rfl
  · simp only [Bool.not_true, Bool.false_eq_true, if_false]
    split
    · split <;> rfl
    · split
      · split <;> rfl
      · rfl

end

section
variable {α : Type*} [Field α] [LinearOrder α]

/-- The value of the map a call returns, the object given to it being `o` afterwards. -/
def result (m : Mem α) (o : Obj) : Moved → PC α
  | .self => val m o
  | .new c => val m c

/-- What is proved about a mapping call on `o`. -/
structure Maps {ε : Type*} (inplace : Bool) (m : Mem α) (o : Obj) (r : Except ε Moved × Mem α × Obj) (v : Except ε (PC α) × PC α) : Prop where
  out : v.1 = r.1.map (result r.2.1 r.2.2)
  val : v.2 = val r.2.1 r.2.2
  grows : Grows m o r.2.1 r.2.2
  kind : ∀ x, r.1 = .ok x → (x = .self ↔ inplace = true)
  fresh : ∀ c, r.1 = .ok (.new c) → Fresh m r.2.1 (fun _ => False) c ∧ ∀ q, Holds c q → ¬ Holds r.2.2 q
  uni : ∀ c, r.1 = .ok (.new c) → Uni r.2.1 c ∧ c.dev = o.dev

theorem Maps.before {ε : Type*} {i : Bool} {m m1 : Mem α} {o o1 : Obj} {r : Except ε Moved × Mem α × Obj} {v : Except ε (PC α) × PC α}
    (g : Grows m o m1 o1) (h : Maps i m1 o1 r v) : Maps i m o r v := by
  refine ⟨h.out, h.val, g.trans h.grows, h.kind, fun c hc => ?_, fun c hc => ⟨(h.uni c hc).1, (h.uni c hc).2.trans g.dev⟩⟩
  obtain ⟨hf, hd⟩ := h.fresh c hc
  refine ⟨⟨g.ext.trans hf.ext, fun q hq => .inr ?_⟩, hd⟩
  rcases hf.own q hq with k | k
  · exact k.elim
  · exact ⟨g.ext.next.trans k.1, k.2⟩

theorem Maps.raise {ε : Type*} {i : Bool} {m m1 : Mem α} {o o1 : Obj} {e : ε} {s : PC α} (h : s = Mem.val m1 o1) (g : Grows m o m1 o1) :
    Maps i m o (.error e, m1, o1) (.error e, s) := by
  refine ⟨rfl, h, g, fun c hc => ?_, fun c hc => ?_, fun c hc => ?_⟩ <;> cases hc

theorem append_ends {m : Mem α} {s o : Obj} (hs : Ok m s) (ho : Ok m o) (hd : o.dev = s.dev) :
    ∃ b m' s' o', append m s o = (b, m', s', o') ∧ Pcs.append (val m s) (val m o) = (b, val m' s', val m' o') ∧ Two m s o m' s' o' := by
  have h := append_sim hs ho hd
  generalize append m s o = r at h ⊢
  generalize Pcs.append (val m s) (val m o) = v at h ⊢
  rcases r with ⟨b, m', s', o'⟩
  rcases v with ⟨b', vs, vo⟩
  obtain ⟨h1, h2, h3, h4⟩ := h
  simp only at h1 h2 h3 h4
  subst h1 h2 h3
  exact ⟨_, _, _, _, rfl, rfl, h4⟩

/-- An object and new tensors appended to it. -/
theorem Two.first {m m' : Mem α} {s o s' o' : Obj} (t : Two m s o m' s' o') (ho : Ok m o) (uo : Uni m o) (hd : o.dev = s.dev) : Grows m s m' s' :=
  ⟨t.ext, t.owns, t.devs, fun k u => t.uni k ho u uo hd⟩

theorem cloneAppend_maps (inplace : Bool) {m : Mem α} {o new : Obj} (h : Ok m o) (u : Uni m o) (hn : Ok m new) (un : Uni m new)
    (hd : new.dev = o.dev) : Maps inplace m o (cloneAppend inplace m o new) (Fusion.cloneAppend inplace (val m o) (val m new)) := by
  unfold cloneAppend Fusion.cloneAppend
  rcases inplace with _ | _
  · simp only [Bool.false_eq_true, if_false]
    have hc := clone_sim h
    have hself := clone_self m o
    generalize clone m o = r at hc hself ⊢
    generalize Pcs.clone (val m o) = v at hc ⊢
    rcases r with ⟨r, m1, o1⟩
    rcases v with ⟨r', v⟩
    obtain ⟨e1, e2, g, hf, hu⟩ := hc
    simp only at e1 e2 g hf hu hself
    subst e1 e2
    rcases r with e | c
    · exact .raise rfl g
    simp only [Except.map]
    have hf := hf c rfl
    obtain ⟨uc, dc⟩ := hu c rfl h u
    have hc : Ok m1 c := hf.ok fun _ h => h.elim
    have hn1 := hn.ext g.ext
    rw [← val_ext hn g.ext]
    obtain ⟨b, m2, c2, n2, a, v, t⟩ := append_ends hc hn1 (hd.trans dc.symm)
    simp only [a, v]
    have t' := t.first hn1 (un.ext hn g.ext) (hd.trans dc.symm)
    have ho1 := g.ok h
    have gg : Grows m o m2 o1 := g.trans (.later t.ext)
    rcases b with e | _
    · exact .raise (val_ext ho1 t.ext).symm gg
    refine ⟨rfl, (val_ext ho1 t.ext).symm, gg, fun x hx => ?_, fun x hx => ?_, fun x hx => ?_⟩
    · cases hx; simp
    · cases hx
      have key : ∀ q, Holds c2 q → m.next ≤ q ∧ q < m2.next := fun q hq => by
        rcases t.owns q hq with k | k
        · rcases hf.own q k with k | k
          · exact k.elim
          · exact ⟨k.1, k.2.trans_le t.ext.next⟩
        · exact ⟨g.ext.next.trans k.1, k.2⟩
      refine ⟨⟨gg.ext, fun q hq => .inr (key q hq)⟩, fun q hq ho => ?_⟩
      simp only at ho
      rw [hself] at ho
      exact absurd (h q (has_self .points o q ho)) (not_lt.2 (key q hq).1)
    · cases hx
      exact ⟨t'.uni hc uc, t'.dev.trans dc⟩
  · simp only [if_true]
    obtain ⟨b, m2, o2, n2, a, v, t⟩ := append_ends h hn hd
    simp only [a, v]
    have t' := t.first hn un hd
    rcases b with e | _
    · exact .raise rfl t'
    refine ⟨rfl, rfl, t', fun x hx => ?_, fun x hx => ?_, fun x hx => ?_⟩
    · cases hx; simp
    · cases hx
    · cases hx

/-- `Pointclouds(…)` followed by `cloneAppend`. -/
theorem construct_append (inplace : Bool) {m : Mem α} {o : Obj} (h : Ok m o) (u : Uni m o) {arg : Attr → Option (List (T2 α))} {P : List (T2 α)}
    (hP : arg .points = some P) :
    Maps inplace m o (match construct o.dev m arg with
        | (.error e, m) => (.error (.pcs e), m, o)
        | (.ok new, m) => cloneAppend inplace m o new)
      (match Pcs.newList arg P with
        | .error e => (.error (.pcs e), val m o)
        | .ok s => Fusion.cloneAppend inplace (val m o) s) := by
  rcases construct_sim o.dev m hP with ⟨e, m1, a, b, hx⟩ | ⟨s, c, m1, a, b, hv, hf, hu, hd⟩
  · simp only [a, b]
    exact .raise (val_ext h hx).symm (.later hx)
  · simp only [a, b]
    refine .before (Grows.later hf.ext) ?_
    rw [← hv, ← val_ext h hf.ext]
    exact cloneAppend_maps inplace (h.ext hf.ext) (u.ext h hf.ext) (hf.ok fun _ h => h.elim) hu hd

theorem updateMapAggregate_maps (fr : Fusion.Frame α) (inplace : Bool) {m : Mem α} {o : Obj} (h : Ok m o) (u : Uni m o) :
    Maps inplace m o (updateMapAggregate m o fr inplace) (Fusion.updateMapAggregate (val m o) fr inplace) := by
  unfold updateMapAggregate Fusion.updateMapAggregate Fusion.pointcloudsFromRgbd
  by_cases hL : fr.L ≠ 1
  · simp only [if_pos hL]; exact .raise rfl .rfl
  simp only [if_neg hL, if_true]
  have k := construct_append inplace h u (arg := Fusion.frameArg fr true fr.valid) (P := Fusion.picked fr fr.valid fr.gv) rfl
  generalize Pcs.newList (Fusion.frameArg fr true fr.valid) (Fusion.picked fr fr.valid fr.gv) = v at k ⊢
  rcases v with e | s <;> exact k

theorem fuseWithMap_maps (al : V3 α → α) (r : Fusion.Raw α) (rows : List Fusion.Row) (inplace : Bool) {m : Mem α} {o : Obj} (h : Ok m o)
    (u : Uni m o) : Maps inplace m o (fuseWithMap al m o r rows inplace) (Fusion.fuseWithMapRaw al (val m o) r rows inplace) := by
  unfold fuseWithMap Fusion.fuseWithMapRaw
  obtain ⟨b, o1, a1, v1, g1⟩ := hasAttr_ends m .points o
  simp only [a1, v1]
  have u := g1.uni h u
  have h := g1.ok h
  refine .before g1 ?_
  have key : ∃ b2 o2, (if b = true then requireAll [.normals, .colors, .features] o1 else (true, o1)) = (b2, o2) ∧
      (if b = true then Fusion.requireAll [.normals, .colors, .features] (val m o1) else (true, val m o1)) = (b2, val m o2) ∧ Grows m o1 m o2 := by
    rcases b with _ | _
    · exact ⟨true, o1, by simp, by simp, .rfl⟩
    · obtain ⟨b, o2, a, v, g⟩ := requireAll_sim (m := m) (o := o1) [.normals, .colors, .features]
      exact ⟨b, o2, by simp [a], by simp [v], g⟩
  obtain ⟨b2, o2, a2, v2, g2⟩ := key
  simp only [a2, v2]
  have u := g2.uni h u
  have h := g2.ok h
  refine .before g2 ?_
  rcases b2 with _ | _
  · simp only [Bool.not_false, if_true]; exact .raise rfl .rfl
  simp only [Bool.not_true, Bool.false_eq_true, if_false]
  by_cases h4 : r.v.sh.d4 ≠ 3
  · simp only [if_pos h4]; exact .raise rfl .rfl
  simp only [if_neg h4]
  generalize (b && decide (rows.length ≠ 0)) = use
  have key : Sim m o2 plain (if use = true then mergeStep al m o2 r.frame rows else (.ok (), m, o2))
      (if use = true then Fusion.mergeStep al (val m o2) r.frame rows else (.ok (), val m o2)) := by
    rcases use with _ | _
    · simp only [Bool.false_eq_true, if_false]; exact .intro rfl rfl .rfl
    · simp only [if_true]; exact mergeStep_sim al r.frame rows h
  rcases key.ends with ⟨e, m3, o3, a3, v3, g3⟩ | ⟨_, m3, o3, a3, v3, g3⟩
  · simp only [a3, v3]; exact .raise rfl g3
  simp only [a3, v3]
  have u := g3.uni h u
  have h := g3.ok h
  refine .before g3 ?_
  rcases Fusion.pickShape r with e | _
  · exact .raise rfl .rfl
  exact construct_append inplace h u (arg := Fusion.newArg al r.frame (Fusion.newMask r.frame (if use then rows else []))) rfl

theorem updateMapFusion_maps [FloorRing α] (nrm al : V3 α → α) (r : Fusion.Raw α) (dt nt : α) (inplace : Bool) {m : Mem α} {o : Obj} (h : Ok m o)
    (u : Uni m o) :
    Maps inplace m o (updateMapFusion nrm al m o r dt nt inplace) (Fusion.updateMapFusionRaw nrm al (val m o) r dt nt inplace) := by
  unfold updateMapFusion Fusion.updateMapFusionRaw
  rcases (findCorrespondences_sim nrm r dt nt h).ends with ⟨e, m1, o1, a1, v1, g1⟩ | ⟨rows, m1, o1, a1, v1, g1⟩
  · simp only [a1, v1]; exact .raise rfl g1
  simp only [a1, v1, plain]
  exact .before g1 (fuseWithMap_maps al r rows inplace (g1.ok h) (g1.uni h u))

/-! ### A SLAM step -/

theorem getList_ends (X : Attr) (m : Mem α) (o : Obj) :
    ∃ l o', getList X m o = (l, o') ∧ Pcs.getList X (val m o) = (l.map fun l => l.map m.read, val m o') ∧ Grows m o m o' := by
  have a := getList_sim X m o
  have g := getList_grows X m o
  generalize getList X m o = r at a g ⊢
  rcases r with ⟨b, o'⟩
  exact ⟨b, o', rfl, a, g⟩

theorem downsample_eq (pc : PC α) (rows : List Fusion.Row) (ds : Int) : Icp.downsamplePointclouds pc rows ds =
    if ds = 0 ∧ rows ≠ [] then (.error .runtimeError, pc)
    else
      match dsPoints (Pcs.getList .points pc).2.B (Pcs.getList .points pc).1 (Icp.gridRows ds rows) with
      | .error e => (.error e, (Pcs.getList .points pc).2)
      | .ok P =>
        let (n, pc) := Pcs.getList .normals (Pcs.getList .points pc).2
        match Icp.gatherOpt pc.B n (Icp.gridRows ds rows) with
        | .error e => (.error e, pc)
        | .ok Nn =>
          let (c, pc) := Pcs.getList .colors pc
          match Icp.gatherOpt pc.B c (Icp.gridRows ds rows) with
          | .error e => (.error e, pc)
          | .ok C => match Pcs.newList (Icp.dsMapArg P Nn C) P with
            | .error e => (.error (.pcs e), pc)
            | .ok o => (.ok o, pc) := by
  unfold Icp.downsamplePointclouds
  split_ifs
  · rfl
  · rcases Pcs.getList .points pc with ⟨p, pc⟩
    rcases p with _ | p <;> rfl

theorem downsample_sim (rows : List Fusion.Row) (ds : Int) {m : Mem α} {o : Obj} (h : Ok m o) :
    (∃ e m' o', downsample m o rows ds = (.error e, m', o') ∧ Icp.downsamplePointclouds (val m o) rows ds = (.error e, val m' o') ∧
      Grows m o m' o') ∨
    ∃ c m' o', downsample m o rows ds = (.ok c, m', o') ∧ Icp.downsamplePointclouds (val m o) rows ds = (.ok (val m' c), val m' o') ∧
      Grows m o m' o' := by
  rw [downsample_eq]
  unfold downsample
  by_cases hd : ds = 0 ∧ rows ≠ []
  · simp only [if_pos hd]; exact .inl ⟨_, _, _, rfl, rfl, .rfl⟩
  simp only [if_neg hd]
  obtain ⟨p, o1, a1, v1, g1⟩ := getList_ends .points m o
  simp only [a1, v1]
  rw [show (val m o1).B = o1.B from rfl]
  generalize dsPoints o1.B (p.map fun l => l.map m.read) (Icp.gridRows ds rows) = P
  rcases P with e | P
  · exact .inl ⟨_, _, _, rfl, rfl, g1⟩
  obtain ⟨n, o2, a2, v2, g2⟩ := getList_ends .normals m o1
  simp only [a2, v2]
  rw [show (val m o2).B = o2.B from rfl]
  generalize Icp.gatherOpt o2.B (n.map fun l => l.map m.read) (Icp.gridRows ds rows) = Nn
  rcases Nn with e | Nn
  · exact .inl ⟨_, _, _, rfl, rfl, g1.trans g2⟩
  obtain ⟨c, o3, a3, v3, g3⟩ := getList_ends .colors m o2
  simp only [a3, v3]
  rw [show (val m o3).B = o3.B from rfl]
  generalize Icp.gatherOpt o3.B (c.map fun l => l.map m.read) (Icp.gridRows ds rows) = C
  have g := (g1.trans g2).trans g3
  rcases C with e | C
  · exact .inl ⟨_, _, _, rfl, rfl, g⟩
  simp only
  have hk := g.ok h
  rcases construct_sim o3.dev m (arg := Icp.dsMapArg P Nn C) rfl with ⟨e, m1, a, b, hx⟩ | ⟨s, k, m1, a, b, hv, hf, hu, hd⟩
  · simp only [a, b]
    exact .inl ⟨_, _, _, rfl, by rw [val_ext hk hx], g.trans (.later hx)⟩
  · simp only [a, b]
    exact .inr ⟨_, _, _, rfl, by rw [val_ext hk hf.ext, hv], g.trans (.later hf.ext)⟩

theorem odometry_sim [FloorRing α] (S : Slam.Sys α) (provide : PC α → PC α → Except Icp.Err (List (M4 α))) (live prev : Rgbd.Obj α) (P : Rgbd.TM α)
    {m : Mem α} {o : Obj} (h : Ok m o) :
    ∃ r m' o' live', odometry S provide m o live prev P = (r, m', o', live') ∧
      Slam.odometry S provide (val m o) live prev P = (r, val m' o', live') ∧ Grows m o m' o' := by
  unfold odometry Slam.odometry
  rcases Rgbd.setPoses (some P) live with ⟨e | _, live⟩
  · exact ⟨_, _, _, _, rfl, rfl, .rfl⟩
  simp only
  generalize Slam.withFrame S.nrm S.eps live _ = x
  rcases x with ⟨e | framesPc, live⟩
  · exact ⟨_, _, _, _, rfl, rfl, .rfl⟩
  simp only
  rcases (findActive_sim (Slam.camera prev) h).ends with ⟨e, m1, o1, a1, v1, g1⟩ | ⟨rows, m1, o1, a1, v1, g1⟩
  · simp only [a1, v1]; exact ⟨_, _, _, _, rfl, rfl, g1⟩
  simp only [a1, v1, plain]
  rcases downsample_sim rows S.ds (g1.ok h) with ⟨e, m2, o2, a2, v2, g2⟩ | ⟨c, m2, o2, a2, v2, g2⟩
  · simp only [a2, v2]; exact ⟨_, _, _, _, rfl, rfl, g1.trans g2⟩
  simp only [a2, v2]
  rcases provide (val m2 c) framesPc with e | T <;> exact ⟨_, _, _, _, rfl, rfl, g1.trans g2⟩

theorem localize_sim [FloorRing α] (S : Slam.Sys α) (live : Rgbd.Obj α) (prev : Option (Rgbd.Obj α)) {m : Mem α} {o : Obj} (h : Ok m o) :
    ∃ r m' o' live', localize S m o live prev = (r, m', o', live') ∧ Slam.localize S (val m o) live prev = (r, val m' o', live') ∧
      Grows m o m' o' := by
  unfold localize Slam.localize
  rcases S.odom with _ | provide
  · rcases live.poses with _ | P <;> exact ⟨_, _, _, _, rfl, rfl, .rfl⟩
  · rcases prev with _ | prev
    · rcases live.poses with _ | P <;> exact ⟨_, _, _, _, rfl, rfl, .rfl⟩
    · simp only
      rcases prev.poses with _ | P
      · exact ⟨_, _, _, _, rfl, rfl, .rfl⟩
      · exact odometry_sim S provide live prev P h

/-- The parts of the outcome of a step that concern the map. -/
def mapPart {ε β γ δ κ : Type*} (f : β → γ) (r : Except ε β × δ × κ × Rgbd.Obj α) : Except ε γ × δ × κ := (r.1.map f, r.2.1, r.2.2.1)

theorem mapStep_maps [FloorRing α] (S : Slam.Sys α) (live : Rgbd.Obj α) (inplace : Bool) {m : Mem α} {o : Obj} (h : Ok m o) (u : Uni m o) :
    Maps inplace m o (mapPart id (mapStep S m o live inplace))
      ((Slam.mapStep S (val m o) live inplace).1, (Slam.mapStep S (val m o) live inplace).2.1) ∧
    (mapStep S m o live inplace).2.2.2 = (Slam.mapStep S (val m o) live inplace).2.2 := by
  unfold mapStep Slam.mapStep
  rcases S.mapper with _ | ⟨d, t⟩
  · simp only
    rcases Slam.readAggregate S live with ⟨e | fr, live⟩
    · exact ⟨.raise rfl .rfl, rfl⟩
    simp only
    have k := updateMapAggregate_maps fr inplace h u
    generalize updateMapAggregate m o fr inplace = r at k ⊢
    generalize Fusion.updateMapAggregate (val m o) fr inplace = v at k ⊢
    rcases r with ⟨r, m1, o1⟩
    rcases v with ⟨v, s⟩
    obtain ⟨k1, k2, k3, k4, k5, k6⟩ := k
    simp only at k1 k2 k3 k4 k5 k6
    subst k1 k2
    rcases r with e | r
    · exact ⟨.raise rfl k3, rfl⟩
    · exact ⟨⟨rfl, rfl, k3, fun x hx => k4 x (by cases hx; rfl), fun x hx => k5 x (by cases hx; rfl), fun x hx => k6 x (by cases hx; rfl)⟩, rfl⟩
  · simp only
    rcases Fusion.readRaw S.nrm S.eps live with ⟨e | fr, live⟩
    · exact ⟨.raise rfl .rfl, rfl⟩
    simp only
    have k := updateMapFusion_maps S.nrm S.al fr d t inplace h u
    generalize updateMapFusion S.nrm S.al m o fr d t inplace = r at k ⊢
    generalize Fusion.updateMapFusionRaw S.nrm S.al (val m o) fr d t inplace = v at k ⊢
    rcases r with ⟨r, m1, o1⟩
    rcases v with ⟨v, s⟩
    obtain ⟨k1, k2, k3, k4, k5, k6⟩ := k
    simp only at k1 k2 k3 k4 k5 k6
    subst k1 k2
    rcases r with e | r
    · exact ⟨.raise rfl k3, rfl⟩
    · exact ⟨⟨rfl, rfl, k3, fun x hx => k4 x (by cases hx; rfl), fun x hx => k5 x (by cases hx; rfl), fun x hx => k6 x (by cases hx; rfl)⟩, rfl⟩

/-- The poses a step returns. -/
def posesOf {ε β γ : Type*} : Except ε (β × γ) → Option γ
  | .error _ => none
  | .ok x => some x.2

/-- `step` in memory: the outcome, the map and the live frame are those of `Slam.step`. -/
theorem slamStep_maps [FloorRing α] (S : Slam.Sys α) (live : Rgbd.Obj α) (prev : Option (Rgbd.Obj α)) (inplace : Bool) {m : Mem α} {o : Obj}
    (h : Ok m o) (u : Uni m o) :
    Maps inplace m o (mapPart Prod.fst (slamStep S m o live prev inplace))
      ((Slam.step S (val m o) live prev inplace).1.map Prod.fst, (Slam.step S (val m o) live prev inplace).2.1) ∧
    posesOf (slamStep S m o live prev inplace).1 = posesOf (Slam.step S (val m o) live prev inplace).1 ∧
    (slamStep S m o live prev inplace).2.2.2 = (Slam.step S (val m o) live prev inplace).2.2 := by
  unfold slamStep Slam.step
  obtain ⟨r, m1, o1, live1, a1, v1, g1⟩ := localize_sim S live prev h
  simp only [a1, v1]
  rcases r with e | T
  · exact ⟨.raise rfl g1, rfl, rfl⟩
  simp only
  rcases Rgbd.setPoses (some T) live1 with ⟨e | _, live2⟩
  · exact ⟨.raise rfl g1, rfl, rfl⟩
  simp only
  obtain ⟨k, kl⟩ := mapStep_maps S live2 inplace (g1.ok h) (g1.uni h u)
  generalize mapStep S m1 o1 live2 inplace = r at k kl ⊢
  generalize Slam.mapStep S (val m1 o1) live2 inplace = v at k kl ⊢
  rcases r with ⟨r, m2, o2, live3⟩
  rcases v with ⟨v, s, live4⟩
  obtain ⟨k1, k2, k3, k4, k5, k6⟩ := k
  simp only [mapPart] at k1 k2 k3 k4 k5 k6 kl
  subst k2 kl
  rcases r with e | r
  · subst k1; exact ⟨.raise rfl (g1.trans k3), rfl, rfl⟩
  · subst k1
    refine ⟨.before g1 ⟨rfl, rfl, k3, fun x hx => k4 x (by cases hx; rfl), fun x hx => k5 x (by cases hx; rfl), fun x hx => k6 x (by cases hx; rfl)⟩,
      rfl, rfl⟩

/-! ### forward -/

/-- A state of the loop of `forward` in memory represents one of the value model; the map is new and on device `d`. -/
structure LoopOk (m : Mem α) (d : Dev) (x : Loop α) (y : Slam.Loop α) : Prop where
  pc : y.pc = val x.mem x.obj
  prev : y.prev = x.prev
  poses : y.poses = x.poses
  fresh : Fresh m x.mem (fun _ => False) x.obj
  uni : Uni x.mem x.obj
  dev : x.obj.dev = d

/-- The outcomes of two functions correspond. -/
def Agree {ε β γ : Type*} (R : β → γ → Prop) : Except ε β → Except ε γ → Prop
  | .error e, .error e' => e = e'
  | .ok b, .ok c => R b c
  | _, _ => False

theorem iter_sim [FloorRing α] (S : Slam.Sys α) (frames : Rgbd.Obj α) (s : Nat) {m : Mem α} {d : Dev} {x : Loop α} {y : Slam.Loop α}
    (h : LoopOk m d x y) : Agree (LoopOk m d) (iter S frames s x) (Slam.iter S frames s y) := by
  unfold iter Slam.iter
  rcases Slam.liveFrame frames s with e | live
  · exact rfl
  simp only
  rw [h.pc, h.prev]
  have hk : Ok x.mem x.obj := h.fresh.ok fun _ h => h.elim
  obtain ⟨k, kp, kl⟩ := slamStep_maps S live x.prev true hk h.uni
  generalize slamStep S x.mem x.obj live x.prev true = r at k kp kl ⊢
  generalize Slam.step S (val x.mem x.obj) live x.prev true = v at k kp kl ⊢
  rcases r with ⟨r, m1, o1, live1⟩
  rcases v with ⟨v, s1, live2⟩
  simp only at kp kl
  subst kl
  obtain ⟨k1, k2, k3, k4, -, -⟩ := k
  simp only [mapPart] at k1 k2 k3 k4
  rcases r with e | ⟨r, T⟩
  · rcases v with e' | ⟨v, T'⟩
    · simp only [Except.map, Except.error.injEq] at k1
      exact k1.symm
    · simp [Except.map] at k1
  · rcases v with e' | ⟨v, T'⟩
    · simp [Except.map] at k1
    · simp only [Except.map, Except.ok.injEq] at k1
      simp only [posesOf, Option.some.injEq] at kp
      subst kp
      have hr : r = .self := (k4 r rfl).2 trivial
      subst hr
      subst k1
      simp only
      rcases Rgbd.setPoses (some T) live1 with ⟨e | _, live3⟩
      · exact rfl
      · refine ⟨rfl, rfl, by simp only [h.poses], ⟨h.fresh.ext.trans k3.ext, fun q hq => .inr ?_⟩, k3.uni hk h.uni, k3.dev.trans h.dev⟩
        rcases k3.own q hq with k | k
        · rcases h.fresh.own q k with k | k
          · exact k.elim
          · exact ⟨k.1, k.2.trans_le k3.ext.next⟩
        · exact ⟨h.fresh.ext.next.trans k.1, k.2⟩

theorem iters_sim [FloorRing α] (S : Slam.Sys α) (d : Dev) (m : Mem α) (frames : Rgbd.Obj α) (n : Nat) :
    Agree (LoopOk m d) (iters S d m frames n) (Slam.iters S frames n) := by
  induction n with
  | zero =>
    exact ⟨(newEmpty_val m d).symm, rfl, rfl, (newEmpty_fresh m d).1, (newEmpty_fresh m d).2, rfl⟩
  | succ n ih =>
    unfold iters Slam.iters
    generalize iters S d m frames n = x at ih ⊢
    generalize Slam.iters S frames n = y at ih ⊢
    rcases x with e | x <;> rcases y with e' | y
    · exact ih
    · exact ih.elim
    · exact ih.elim
    · exact iter_sim S frames n ih

/-- `forward` in memory: the map and the poses of `Slam.forward`; the map is a new object referring to new storages on device `d`. -/
theorem forward_sim [FloorRing α] (S : Slam.Sys α) (d : Dev) (m : Mem α) (frames : Rgbd.Obj α) :
    Agree (fun (x : Obj × Rgbd.TM α × Mem α) (y : PC α × Rgbd.TM α) =>
      y = (val x.2.2 x.1, x.2.1) ∧ Fresh m x.2.2 (fun _ => False) x.1 ∧ Uni x.2.2 x.1 ∧ x.1.dev = d)
      (forward S d m frames) (Slam.forward S frames) := by
  unfold forward Slam.forward
  have h := iters_sim S d m frames frames.L
  generalize iters S d m frames frames.L = x at h ⊢
  generalize Slam.iters S frames frames.L = y at h ⊢
  rcases x with e | x <;> rcases y with e' | y
  · exact h
  · exact h.elim
  · exact h.elim
  · exact ⟨by rw [h.pc, h.poses], h.fresh, h.uni, h.dev⟩

theorem forward_new [FloorRing α] {S : Slam.Sys α} {d : Dev} {m m' : Mem α} {frames : Rgbd.Obj α} {c : Obj} {T : Rgbd.TM α}
    (h : forward S d m frames = .ok (c, T, m')) :
    Slam.forward S frames = .ok (val m' c, T) ∧ Fresh m m' (fun _ => False) c ∧ Uni m' c ∧ c.dev = d := by
  have k := forward_sim S d m frames
  rw [h] at k
  generalize Slam.forward S frames = y at k ⊢
  rcases y with e | y
  · exact k.elim
  · exact ⟨by rw [k.1], k.2⟩
end
end Verif.Mem
