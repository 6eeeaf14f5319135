import Verif.Mem.Map
import Verif.Mem.Append
/-!
Mapping in memory refines mapping on values (`Verif.Fusion`, `Verif.Slam`), only allocates, and a map returned as a new object refers to
new storages only, none of which the given map refers to.
-/
namespace Verif.Mem
open Verif Verif.Pcs
set_option linter.unusedSectionVars false
set_option linter.unusedSimpArgs false

section
variable {α : Type*} [Field α] [LinearOrder α]

theorem Grows.later {m m' : Mem α} {o : Obj} (e : Ext m m') : Grows m o m' o := ⟨e, fun _ h => .inl h, Eq.refl _, fun k u => u.ext k e⟩

theorem Sim.later {β γ : Type*} {m m1 : Mem α} {o : Obj} {out : Mem α → β → γ} {r : β × Mem α × Obj} {v : γ × PC α} (e : Ext m m1)
    (h : Sim m1 o out r v) : Sim m o out r v := ⟨h.out, h.val, (Grows.later e).trans h.grows⟩

/-! ### Construction from new tensors -/

structure NewOk (d : Dev) (m : Mem α) (l : Option (List (T2 α))) (m' : Mem α) (k : Option (List View)) : Prop where
  ext : Ext m m'
  rd : k.map (fun k => k.map m'.read) = l
  own : ∀ r, optRefs listRefs k r → m.next ≤ r ∧ r < m'.next
  dev : ∀ r, optRefs listRefs k r → (m'.cell r).dev = d

theorem newOpt_ok (d : Dev) (m : Mem α) (l : Option (List (T2 α))) : NewOk d m l (newOpt d m l).1 (newOpt d m l).2 := by
  rcases l with _ | l
  · exact ⟨.rfl, rfl, fun r ⟨x, h, _⟩ => (by simp [newOpt] at h), fun r ⟨x, h, _⟩ => (by simp [newOpt] at h)⟩
  have key : ∀ r, optRefs listRefs (newOpt d m (some l)).2 r → ∃ i, i < l.length ∧ r = m.next + i := by
    rintro r ⟨x, h, v, hv, rfl⟩
    simp only [newOpt, newTensors, Option.some.injEq] at h
    subst h
    obtain ⟨i, hi, rfl⟩ := List.getElem_of_mem hv
    simp only [List.length_mapIdx] at hi
    exact ⟨i, hi, by simp⟩
  refine ⟨by simp only [newOpt, newTensors]; exact Ext.alloc _ _ _, ?_, fun r hr => ?_, fun r hr => ?_⟩
  · simp only [newOpt, newTensors, Option.map_some, Option.some.injEq]
    apply List.ext_getElem
    · simp
    · intro i h1 h2
      simp only [List.getElem_map, List.getElem_mapIdx, Mem.read, alloc_new, List.getD_cons_zero, List.getD, List.getElem?_eq_getElem h2,
        Option.getD_some]
      exact T2.take_all _
  · obtain ⟨i, hi, rfl⟩ := key r hr
    exact ⟨Nat.le_add_right _ _, by simp [newOpt, newTensors]; exact hi⟩
  · obtain ⟨i, hi, rfl⟩ := key r hr
    simp [newOpt, newTensors]

theorem NewOk.after {d : Dev} {m m1 m2 m3 : Mem α} {l : Option (List (T2 α))} {k : Option (List View)} (e1 : Ext m m1) (h : NewOk d m1 l m2 k)
    (e2 : Ext m2 m3) : NewOk d m l m3 k := by
  refine ⟨(e1.trans h.ext).trans e2, ?_, fun r hr => ⟨e1.next.trans (h.own r hr).1, (h.own r hr).2.trans_le e2.next⟩, fun r hr => by
    rw [e2.cell r (h.own r hr).2]; exact h.dev r hr⟩
  rw [← h.rd]
  rcases k with _ | k
  · rfl
  · simp only [Option.map_some, Option.some.injEq]
    exact reads_congr fun v hv => e2.cell _ (h.own _ ⟨k, rfl, v, hv, rfl⟩).2

/-- `Pointclouds(…)` from new tensors: the value of the value model, in new storages on the given device. -/
theorem construct_sim (d : Dev) (m : Mem α) {arg : Attr → Option (List (T2 α))} {P : List (T2 α)} (hP : arg .points = some P) :
    (∃ e m', Pcs.newList arg P = .error e ∧ construct d m arg = (.error e, m') ∧ Ext m m') ∨
    ∃ s c m', Pcs.newList arg P = .ok s ∧ construct d m arg = (.ok c, m') ∧ val m' c = s ∧ Fresh m m' (fun _ => False) c ∧ Uni m' c ∧
      c.dev = d := by
  unfold construct
  simp only
  have h1 := newOpt_ok d m (arg .points)
  generalize newOpt d m (arg .points) = p at h1 ⊢
  have h2 := newOpt_ok d p.1 (arg .normals)
  generalize newOpt d p.1 (arg .normals) = n at h2 ⊢
  have h3 := newOpt_ok d n.1 (arg .colors)
  generalize newOpt d n.1 (arg .colors) = c at h3 ⊢
  have h4 := newOpt_ok d c.1 (arg .features)
  generalize newOpt d c.1 (arg .features) = f at h4 ⊢
  have k1 := NewOk.after .rfl h1 ((h2.ext.trans h3.ext).trans h4.ext)
  have k2 := NewOk.after h1.ext h2 (h3.ext.trans h4.ext)
  have k3 := NewOk.after (h1.ext.trans h2.ext) h3 h4.ext
  have k4 := NewOk.after ((h1.ext.trans h2.ext).trans h3.ext) h4 .rfl
  clear h1 h2 h3 h4
  have K : ∀ X, NewOk d m (arg X) f.1 (four p.2 n.2 c.2 f.2 X) := fun X => by cases X <;> assumption
  have hp := K .points
  rw [hP] at hp
  obtain ⟨Q, hQ, hQP⟩ := Option.map_eq_some_iff.1 hp.rd
  have ep : p.2 = some Q := hQ
  have er : readLists f.1 (four p.2 n.2 c.2 f.2) = arg := funext fun X => (K X).rd
  rw [ep] at er K hQ ⊢
  simp only [Option.getD_some]
  rcases newList_sim (m := f.1) hQ none (fun r ⟨X, hr⟩ => ((K X).own r hr).2) with ⟨e, a, b⟩ | ⟨s, o, m', a, b, hv, hf, hu, hd⟩
  · rw [er, hQP] at a
    exact .inl ⟨e, f.1, a, b, k1.ext⟩
  · rw [er, hQP] at a
    refine .inr ⟨s, o, m', a, b, hv, ⟨k1.ext.trans hf.ext, fun r hr => .inr ?_⟩, hu, ?_⟩
    · rcases hf.own r hr with ⟨X, k⟩ | k
      · exact ⟨((K X).own r k).1, ((K X).own r k).2.trans_le hf.ext.next⟩
      · exact ⟨k1.ext.next.trans k.1, k.2⟩
    · rw [hd]
      simp only [Option.getD_none]
      rcases Q with _ | ⟨v, Q⟩
      · simp only [List.map_nil] at hQP
        subst hQP
        simp [Pcs.newList] at a
      · exact (K .points).dev _ ⟨_, hQ, v, by simp, rfl⟩

/-! ### Reading the map -/

/-- The two ways a call can end. -/
def Ends {ε β γ : Type*} (m : Mem α) (o : Obj) (out : Mem α → β → γ) (r : Except ε β × Mem α × Obj) (v : Except ε γ × PC α) : Prop :=
  (∃ e m' o', r = (.error e, m', o') ∧ v = (.error e, val m' o') ∧ Grows m o m' o') ∨
  ∃ b m' o', r = (.ok b, m', o') ∧ v = (.ok (out m' b), val m' o') ∧ Grows m o m' o'

theorem Sim.ends {ε β : Type*} {m : Mem α} {o : Obj} {r : Except ε β × Mem α × Obj} {v : Except ε β × PC α} (h : Sim m o plain r v) :
    Ends m o plain r v := by
  rcases r with ⟨r, m', o'⟩
  rcases v with ⟨r', s⟩
  obtain ⟨e1, e2, g⟩ := h
  simp only [plain] at e1 e2 g
  subst e1 e2
  rcases r' with e | b
  · exact .inl ⟨e, m', o', rfl, rfl, g⟩
  · exact .inr ⟨b, m', o', rfl, rfl, g⟩

theorem getPad_ends (X : Attr) {m : Mem α} {o : Obj} (h : Ok m o) :
    Ends m o (fun m (p : Option Nat) => p.map fun q => (m.cell q).vals) (getPad X m o) (Pcs.getPad X (val m o)) := by
  have s := getPad_sim X h
  generalize getPad X m o = r at s ⊢
  generalize Pcs.getPad X (val m o) = v at s ⊢
  rcases r with ⟨r, m', o'⟩
  rcases v with ⟨r', s⟩
  obtain ⟨e1, e2, g⟩ := s
  simp only at e1 e2 g
  subst e1 e2
  rcases r with e | b
  · exact .inl ⟨e, m', o', rfl, rfl, g⟩
  · exact .inr ⟨b, m', o', rfl, rfl, g⟩

theorem getMask_ends {m : Mem α} {o : Obj} (h : Ok m o) :
    ∃ k m' o', getMask m o = (k, m', o') ∧ Pcs.getMask (val m o) = (k.map fun r => (m'.cell r).bits, val m' o') ∧ Grows m o m' o' := by
  have a := getMask_sim m o h
  have g := getMask_grows m o
  generalize getMask m o = r at a g ⊢
  rcases r with ⟨k, m', o'⟩
  exact ⟨k, m', o', rfl, a, g⟩

theorem hasAttr_ends (m : Mem α) (X : Attr) (o : Obj) :
    ∃ b o', hasAttr X o = (b, o') ∧ Pcs.hasAttr X (val m o) = (b, val m o') ∧ Grows m o m o' := by
  have a := hasAttr_sim m X o
  have g := hasAttr_grows m X o
  generalize hasAttr X o = r at a g ⊢
  rcases r with ⟨b, o'⟩
  exact ⟨b, o', rfl, a, g⟩

theorem copies_ends {m : Mem α} {o : Obj} {src : Nat → Prop} {r : Except Err Obj × Mem α × Obj} {v : Except Err (PC α) × PC α}
    (s : Copies m o src r v) :
    (∃ e m' o', r = (.error e, m', o') ∧ v = (.error e, val m' o') ∧ Grows m o m' o') ∨
    ∃ c m' o', r = (.ok c, m', o') ∧ v = (.ok (val m' c), val m' o') ∧ Grows m o m' o' ∧ Fresh m m' src c := by
  rcases r with ⟨c, m1, o2⟩
  rcases v with ⟨c', v⟩
  obtain ⟨e1, e2, g2, hf, hu⟩ := s
  simp only at e1 e2 g2 hf hu
  subst e1 e2
  rcases c with e | c
  · exact .inl ⟨e, m1, o2, rfl, rfl, g2⟩
  · exact .inr ⟨c, m1, o2, rfl, rfl, g2, hf c rfl⟩

theorem valsOf_map (m : Mem α) (p : Option Nat) : (p.map fun r => (m.cell r).vals).getD [] = valsOf m p := rfl

theorem findActive_sim [FloorRing α] (fr : Fusion.Frame α) {m : Mem α} {o : Obj} (h : Ok m o) :
    Sim m o plain (findActive m o fr) (Fusion.findActive (val m o) fr) := by
  unfold findActive Fusion.findActive
  by_cases hL : fr.L ≠ 1
  · simp only [if_pos hL]; exact .intro rfl rfl .rfl
  simp only [if_neg hL]
  obtain ⟨b, o1, a1, v1, g1⟩ := hasAttr_ends m .points o
  simp only [a1, v1]
  have hk := g1.ok h
  rcases b with _ | _
  · simp only [Bool.not_false, if_true]; exact .intro rfl rfl g1
  simp only [Bool.not_true, Bool.false_eq_true, if_false]
  rw [show (val m o1).B = o1.B from rfl]
  by_cases hB : fr.B ≠ o1.B
  · simp only [if_pos hB]; exact .intro rfl rfl g1
  simp only [if_neg hB]
  rcases fr.poses with _ | T
  · exact .intro rfl rfl g1
  refine .before g1 ?_
  simp only
  rcases copies_ends (outOfPlace_sim (fun m o h => transform_sim (.batch ((List.range fr.B).map fun b => Geom.inverseTransform1 (T b 0))) true h)
    hk) with ⟨e, m2, o2, a2, v2, g2⟩ | ⟨c, m2, o2, a2, v2, g2, hf⟩
  · simp only [a2, v2]; exact .intro rfl rfl g2
  simp only [a2, v2]
  refine .before g2 ?_
  have hk := g2.ok hk
  have hc : Ok m2 c := hf.ok fun _ h => h.elim
  rcases getPad_ends .points hc with ⟨e, m3, c3, a3, v3, g3⟩ | ⟨p, m3, c3, a3, v3, g3⟩
  · simp only [a3, v3]; exact .intro rfl (val_ext hk g3.ext).symm (.later g3.ext)
  simp only [a3, v3]
  have hc := g3.ok hc
  rcases (projection_sim (.batch ((List.range fr.B).map fr.K)) hc).ends with ⟨e, m4, c4, a4, v4, g4⟩ | ⟨_, m4, c4, a4, v4, g4⟩
  · simp only [a4, v4]; exact .intro rfl (val_ext hk (g3.ext.trans g4.ext)).symm (.later (g3.ext.trans g4.ext))
  simp only [a4, v4]
  have hc := g4.ok hc
  rcases getPad_ends .points hc with ⟨e, m5, c5, a5, v5, g5⟩ | ⟨q, m5, c5, a5, v5, g5⟩
  · simp only [a5, v5]
    exact .intro rfl (val_ext hk ((g3.ext.trans g4.ext).trans g5.ext)).symm (.later ((g3.ext.trans g4.ext).trans g5.ext))
  simp only [a5, v5]
  have E := (g3.ext.trans g4.ext).trans g5.ext
  rw [← val_ext hk E]
  obtain ⟨k, m6, o6, a6, v6, g6⟩ := getMask_ends (hk.ext E)
  simp only [a6, v6]
  exact .intro rfl rfl ((Grows.later E).trans g6)

theorem findSimilar_sim (nrm : V3 α → α) (r : Fusion.Raw α) (rows : List Fusion.Row) (dt nt : α) {m : Mem α} {o : Obj} (h : Ok m o) :
    Sim m o plain (findSimilar nrm m o r rows dt nt) (Fusion.findSimilarRaw nrm (val m o) r rows dt nt) := by
  unfold findSimilar Fusion.findSimilarRaw
  by_cases hL : r.L ≠ 1
  · simp only [if_pos hL]; exact .intro rfl rfl .rfl
  simp only [if_neg hL]
  obtain ⟨b, o1, a1, v1, g1⟩ := hasAttr_ends m .points o
  simp only [a1, v1]
  have hk := g1.ok h
  by_cases hb : (!b || decide (rows.length = 0)) = true
  · simp only [if_pos hb]; exact .intro rfl rfl g1
  simp only [if_neg hb]
  rw [show (val m o1).B = o1.B from rfl]
  by_cases hB : r.B ≠ o1.B
  · simp only [if_pos hB]; exact .intro rfl rfl g1
  simp only [if_neg hB]
  refine .before g1 ?_
  obtain ⟨b2, o2, a2, v2, g2⟩ := hasAttr_ends m .normals o1
  simp only [a2, v2]
  have hk := g2.ok hk
  rcases b2 with _ | _
  · simp only [Bool.not_false, if_true]; exact .intro rfl rfl g2
  simp only [Bool.not_true, Bool.false_eq_true, if_false]
  refine .before g2 ?_
  rcases getPad_ends .points hk with ⟨e, m3, o3, a3, v3, g3⟩ | ⟨p, m3, o3, a3, v3, g3⟩
  · simp only [a3, v3]; exact .intro rfl rfl g3
  simp only [a3, v3]
  refine .before g3 ?_
  rcases getPad_ends .normals (g3.ok hk) with ⟨e, m4, o4, a4, v4, g4⟩ | ⟨q, m4, o4, a4, v4, g4⟩
  · simp only [a4, v4]; exact .intro rfl rfl g4
  simp only [a4, v4]
  delta valsOf
  split_ifs <;> exact .intro rfl rfl g4

theorem findBest_sim (r : Fusion.Raw α) (rows : List Fusion.Row) {m : Mem α} {o : Obj} (h : Ok m o) :
    Sim m o plain (findBest m o r rows) (Fusion.findBestRaw (val m o) r rows) := by
  unfold findBest Fusion.findBestRaw
  by_cases hL : r.L ≠ 1
  · simp only [if_pos hL]; exact .intro rfl rfl .rfl
  simp only [if_neg hL]
  obtain ⟨b, o1, a1, v1, g1⟩ := hasAttr_ends m .points o
  simp only [a1, v1]
  have hk := g1.ok h
  by_cases hb : (!b || decide (rows.length = 0)) = true
  · simp only [if_pos hb]; exact .intro rfl rfl g1
  simp only [if_neg hb]
  rw [show (val m o1).B = o1.B from rfl]
  by_cases hB : r.B ≠ o1.B
  · simp only [if_pos hB]; exact .intro rfl rfl g1
  simp only [if_neg hB]
  refine .before g1 ?_
  obtain ⟨b2, o2, a2, v2, g2⟩ := hasAttr_ends m .features o1
  simp only [a2, v2]
  have hk := g2.ok hk
  rcases b2 with _ | _
  · simp only [Bool.not_false, if_true]; exact .intro rfl rfl g2
  simp only [Bool.not_true, Bool.false_eq_true, if_false]
  refine .before g2 ?_
  rcases getPad_ends .features hk with ⟨e, m3, o3, a3, v3, g3⟩ | ⟨p, m3, o3, a3, v3, g3⟩
  · simp only [a3, v3]; exact .intro rfl rfl g3
  simp only [a3, v3]
  refine .before g3 ?_
  rcases getPad_ends .points (g3.ok hk) with ⟨e, m4, o4, a4, v4, g4⟩ | ⟨q, m4, o4, a4, v4, g4⟩
  · simp only [a4, v4]; exact .intro rfl rfl g4
  simp only [a4, v4]
  delta valsOf
  split_ifs <;> exact .intro rfl rfl g4

theorem findCorrespondences_sim [FloorRing α] (nrm : V3 α → α) (r : Fusion.Raw α) (dt nt : α) {m : Mem α} {o : Obj} (h : Ok m o) :
    Sim m o plain (findCorrespondences nrm m o r dt nt) (Fusion.findCorrespondencesRaw nrm (val m o) r dt nt) := by
  unfold findCorrespondences Fusion.findCorrespondencesRaw
  rcases (findActive_sim r.camera h).ends with ⟨e, m1, o1, a1, v1, g1⟩ | ⟨rows, m1, o1, a1, v1, g1⟩
  · simp only [a1, v1]; exact .intro rfl rfl g1
  simp only [a1, v1, plain]
  refine .before g1 ?_
  have hk := g1.ok h
  rcases (findSimilar_sim nrm r rows dt nt hk).ends with ⟨e, m2, o2, a2, v2, g2⟩ | ⟨⟨rows2, bs⟩, m2, o2, a2, v2, g2⟩
  · simp only [a2, v2]; exact .intro rfl rfl g2
  simp only [a2, v2, plain]
  exact .before g2 (findBest_sim r rows2 (g2.ok hk))

/-! ### Updating the map -/

theorem setPads_sim (l : List (Attr × List (T2 α))) {m : Mem α} {o : Obj} (h : Ok m o) :
    Sim m o plain (setPads l m o) (Fusion.setPads l (val m o)) := by
  induction l generalizing m o with
  | nil => exact .intro rfl rfl .rfl
  | cons x l ih =>
    obtain ⟨X, v⟩ := x
    unfold setPads Fusion.setPads
    have e := Ext.alloc m 1 fun _ => (⟨o.dev, v, [], []⟩ : Cell α)
    have s := setPad_sim X m.next (h.ext e) (by simp) (by simp)
    rw [val_ext h e, alloc_new0] at s
    simp only at s
    rcases (s.later e).ends with ⟨e, m1, o1, a1, v1, g1⟩ | ⟨_, m1, o1, a1, v1, g1⟩
    · simp only [a1, v1]; exact .intro rfl rfl g1
    · simp only [a1, v1]; exact .before g1 (ih (g1.ok h))

theorem mergeStep_sim (al : V3 α → α) (fr : Fusion.Frame α) (rows : List Fusion.Row) {m : Mem α} {o : Obj} (h : Ok m o) :
    Sim m o plain (mergeStep al m o fr rows) (Fusion.mergeStep al (val m o) fr rows) := by
  unfold mergeStep Fusion.mergeStep
  rcases getPad_ends .points h with ⟨e, m1, o1, a1, v1, g1⟩ | ⟨p1, m1, o1, a1, v1, g1⟩
  · simp only [a1, v1]; exact .intro rfl rfl g1
  simp only [a1, v1]
  refine .before g1 ?_
  have h := g1.ok h
  rcases getPad_ends .normals h with ⟨e, m2, o2, a2, v2, g2⟩ | ⟨p2, m2, o2, a2, v2, g2⟩
  · simp only [a2, v2]; exact .intro rfl rfl g2
  simp only [a2, v2]
  refine .before g2 ?_
  have h := g2.ok h
  rcases getPad_ends .colors h with ⟨e, m3, o3, a3, v3, g3⟩ | ⟨p3, m3, o3, a3, v3, g3⟩
  · simp only [a3, v3]; exact .intro rfl rfl g3
  simp only [a3, v3]
  refine .before g3 ?_
  have h := g3.ok h
  rcases getPad_ends .features h with ⟨e, m4, o4, a4, v4, g4⟩ | ⟨p4, m4, o4, a4, v4, g4⟩
  · simp only [a4, v4]; exact .intro rfl rfl g4
  simp only [a4, v4]
  delta valsOf
  refine .before g4 ?_
  split_ifs
  · exact .intro rfl rfl .rfl
  · exact .intro rfl rfl .rfl
  · exact setPads_sim _ (g4.ok h)

theorem requireAll_sim (l : List Attr) {m : Mem α} {o : Obj} :
    ∃ b o', requireAll l o = (b, o') ∧ Fusion.requireAll l (val m o) = (b, val m o') ∧ Grows m o m o' := by
  induction l generalizing o with
  | nil => exact ⟨true, o, rfl, rfl, .rfl⟩
  | cons X l ih =>
    unfold requireAll Fusion.requireAll
    obtain ⟨b, o1, a1, v1, g1⟩ := hasAttr_ends m X o
    simp only [a1, v1]
    rcases b with _ | _
    · simp only [Bool.false_eq_true, if_false]; exact ⟨_, _, rfl, rfl, g1⟩
    · simp only [if_true]
      obtain ⟨b, o2, a2, v2, g2⟩ := ih (o := o1)
      exact ⟨b, o2, a2, v2, g1.trans g2⟩
end
end Verif.Mem
