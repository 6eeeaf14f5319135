import Verif.Mem.Copy2
/-! Indexing, appending and the out-of-place operations. -/
namespace Verif.Mem
open Verif Verif.Pcs
set_option linter.unusedSectionVars false
set_option linter.unusedSimpArgs false

section
variable {α : Type*}

/-- The value of a selection. -/
def selOut (m : Mem α) (r : Except Err (Option (List View))) : Except Err (Option (List (T2 α))) := r.map fun k => k.map fun l => l.map m.read

theorem select_sim (idx : Index) (m : Mem α) (l : List View) : Pcs.select idx (l.map m.read) = (select idx l).map fun k => k.map m.read := by
  unfold select Pcs.select
  rw [List.length_map]
  rcases e : resolve l.length idx with err | is
  · rfl
  · simp only [Except.map, List.map_map, Except.ok.injEq]
    refine List.map_congr_left fun i hi => ?_
    have hlt := resolve_lt e i hi
    simp [List.getD, List.getElem?_map, List.getElem?_eq_getElem hlt]

theorem select_mem {idx : Index} {l k : List View} (h : select idx l = .ok k) : ∀ v ∈ k, v ∈ l := by
  unfold select at h
  rcases e : resolve l.length idx with err | is
  · simp [e] at h
  · simp only [e, Except.ok.injEq] at h
    subst h
    intro v hv
    obtain ⟨i, hi, rfl⟩ := List.mem_map.1 hv
    have hlt := resolve_lt e i hi
    simp only [List.getD, List.getElem?_eq_getElem hlt, Option.getD_some]
    exact List.getElem_mem hlt

theorem selectAttr_sim (idx : Index) (X : Attr) (m : Mem α) (o : Obj) :
    Pcs.selectAttr idx X (val m o) = (selOut m (selectAttr idx X m o).1, val m (selectAttr idx X m o).2) ∧
    Grows m o m (selectAttr idx X m o).2 ∧
    (∀ k, (selectAttr idx X m o).1 = .ok k → ∀ r, optRefs listRefs k r → Holds o r) := by
  unfold selectAttr Pcs.selectAttr
  rw [hasAttr_sim]
  have g1 := hasAttr_grows m X o
  have hh : ∀ r, Holds (hasAttr X o).2 r → Holds o r := fun r hr => by
    obtain ⟨g, e⟩ := hasAttr_eta X o
    rw [e] at hr; exact (holds_has o g r).1 hr
  generalize hasAttr X o = p at g1 hh ⊢
  rcases p with ⟨b, o1⟩
  simp only at g1 hh ⊢
  rcases b with _ | _
  · simp only [Bool.not_false, if_true]
    exact ⟨rfl, g1, fun k hk r ⟨x, hx, _⟩ => by simp only [Except.ok.injEq] at hk; subst hk; simp at hx⟩
  · simp only [Bool.not_true, Bool.false_eq_true, if_false]
    rw [getList_sim]
    have g2 := getList_grows X m o1
    have hl := fun l => getList_holds X m o1 (l := l)
    have hho : ∀ r, Holds (getList X m o1).2 r → Holds o1 r := fun r hr => by
      have := g2.own r hr
      rcases this with h | ⟨h1, h2⟩
      · exact h
      · omega
    generalize getList X m o1 = p at g2 hl hho ⊢
    rcases p with ⟨l, o2⟩
    simp only at g2 hl hho ⊢
    have eP : (Option.map (fun l => List.map m.read l) l).getD [] = List.map m.read (l.getD []) := by cases l <;> rfl
    rw [eP, select_sim]
    rcases es : select idx (l.getD []) with e | k
    · simp only [Except.map]
      exact ⟨rfl, g1.trans g2, fun k hk => by simp at hk⟩
    · simp only [Except.map]
      refine ⟨rfl, g1.trans g2, ?_⟩
      rintro k' hk' r ⟨x, hx, v, hv, rfl⟩
      simp only [Except.ok.injEq] at hk'
      subst hk'
      simp only [Option.some.injEq] at hx
      subst hx
      have hm := select_mem es v hv
      rcases l with _ | l
      · simp at hm
      · exact hh _ (hho _ (hl l rfl v hm))

theorem getitem_sim (idx : Index) {m : Mem α} {o : Obj} (h : Ok m o) : Copies m o (Holds o) (getitem idx m o) (Pcs.getitem idx (val m o)) := by
  unfold getitem Pcs.getitem
  rw [hasAttr_sim]
  have g1 := hasAttr_grows m .points o
  have hk := g1.ok h
  have hh : ∀ r, Holds (hasAttr .points o).2 r → Holds o r := fun r hr => by
    obtain ⟨g, e⟩ := hasAttr_eta .points o
    rw [e] at hr; exact (holds_has o g r).1 hr
  generalize hasAttr .points o = p at g1 hk hh ⊢
  rcases p with ⟨b, o1⟩
  simp only at g1 hk hh ⊢
  have fail : ∀ {o' : Obj} {e : Err}, Grows m o m o' → Copies m o (Holds o) (.error e, m, o') (.error e, val m o') := fun g =>
    ⟨rfl, rfl, g, fun c hc => by simp at hc, fun c hc => by simp at hc⟩
  have sub : ∀ {o' o'' : Obj}, Grows m o' m o'' → ∀ r, Holds o'' r → Holds o' r := fun g r hr => by
    rcases g.own r hr with h | ⟨h1, h2⟩
    · exact h
    · omega
  rcases b with _ | _
  · simp only [Bool.not_false, if_true]; exact fail g1
  simp only [Bool.not_true, Bool.false_eq_true, if_false]
  -- points
  obtain ⟨e1, q1, w1⟩ := selectAttr_sim idx .points m o1
  rw [e1]
  generalize selectAttr idx .points m o1 = r1 at q1 w1 ⊢
  rcases r1 with ⟨x1, o2⟩
  simp only at q1 w1 ⊢
  have G1 := g1.trans q1
  rcases x1 with e | p
  · exact fail G1
  simp only [selOut, Except.map]
  -- normals
  obtain ⟨e1, q2, w2⟩ := selectAttr_sim idx .normals m o2
  rw [e1]
  generalize selectAttr idx .normals m o2 = r1 at q2 w2 ⊢
  rcases r1 with ⟨x1, o3⟩
  simp only at q2 w2 ⊢
  have G2 := G1.trans q2
  rcases x1 with e | n
  · exact fail G2
  simp only [selOut, Except.map]
  -- colors
  obtain ⟨e1, q3, w3⟩ := selectAttr_sim idx .colors m o3
  rw [e1]
  generalize selectAttr idx .colors m o3 = r1 at q3 w3 ⊢
  rcases r1 with ⟨x1, o4⟩
  simp only at q3 w3 ⊢
  have G3 := G2.trans q3
  rcases x1 with e | c
  · exact fail G3
  simp only [selOut, Except.map]
  -- features
  obtain ⟨e1, q4, w4⟩ := selectAttr_sim idx .features m o4
  rw [e1]
  generalize selectAttr idx .features m o4 = r1 at q4 w4 ⊢
  rcases r1 with ⟨x1, o5⟩
  simp only at q4 w4 ⊢
  have G4 := G3.trans q4
  rcases x1 with e | f
  · exact fail G4
  simp only [selOut, Except.map]
  -- the new object
  have hrefs : ∀ r, argRefs listRefs (four p n c f) r → Holds o r := by
    rintro r ⟨X, hX⟩
    cases X with
    | points => exact sub g1 r (w1 p rfl r hX)
    | normals => exact sub G1 r (w2 n rfl r hX)
    | colors => exact sub G2 r (w3 c rfl r hX)
    | features => exact sub G3 r (w4 f rfl r hX)
  have eP : (Option.map (fun l => List.map m.read l) p).getD [] = List.map m.read (p.getD []) := by cases p <;> rfl
  rw [eP]
  suffices key : ∀ g : Attr → Option (List (T2 α)), (∀ X, g X = readLists m (four p n c f) X) →
      Copies m o (Holds o) ((newList m (four p n c f) (p.getD []) none).1, (newList m (four p n c f) (p.getD []) none).2, o5)
        (Pcs.newList g (List.map m.read (p.getD [])), val m o5) from key _ fun X => by cases X <;> rfl
  intro g hg
  obtain rfl : g = readLists m (four p n c f) := funext hg
  rcases p with _ | P
  · have hE : Pcs.newList (readLists m (four none n c f)) (List.map m.read (Option.getD none [])) = .error .valueError := by
      simp [Pcs.newList]
    have hM : newList m (four none n c f) (Option.getD none []) none = (.error .valueError, m) := by
      unfold newList; rw [hE]
    rw [hE, hM]; exact fail G4
  · simp only [Option.getD_some]
    rcases newList_sim (m := m) (arg := four (some P) n c f) (P := P) rfl none (fun r hr => h r (hrefs r hr)) with
      ⟨e, k1, k2⟩ | ⟨s, c', m', k1, k2, hv, hf, hu, hd⟩
    · rw [k1, k2]; exact fail G4
    · rw [k1, k2]
      refine ⟨?_, ?_, ?_, ?_, ?_⟩
      · simp only [Except.map]; rw [hv]
      · exact (val_ext (G4.ok h) hf.ext).symm
      · exact G4.trans ⟨hf.ext, fun r h => .inl h, rfl, fun h u => u.ext h hf.ext⟩
      · intro c'' hc
        simp only [Except.ok.injEq] at hc
        subst hc
        exact hf.mono hrefs
      · intro c'' hc _ u
        simp only [Except.ok.injEq] at hc
        subst hc
        refine ⟨hu, ?_⟩
        rw [hd]
        rcases P with _ | ⟨v, P⟩
        · simp [Pcs.newList] at k1
        · simp only [Option.getD_none, List.headD_cons]
          exact u _ (hrefs _ ⟨.points, _, rfl, v, by simp, rfl⟩)
end

section geo
variable {α : Type*} [Field α]

/-- `self.clone().op_(…)`: the result is independent of `self`. -/
theorem outOfPlace_sim {op : Mem α → Obj → Except Err Unit × Mem α × Obj} {vop : PC α → Except Err Unit × PC α}
    (hop : ∀ m o, Ok m o → Sim m o plain (op m o) (vop (val m o))) {m : Mem α} {o : Obj} (h : Ok m o) :
    Copies m o (fun _ => False) (outOfPlace op m o) (Pcs.outOfPlace vop (val m o)) := by
  unfold outOfPlace Pcs.outOfPlace
  have s1 := clone_sim h
  generalize clone m o = p at s1 ⊢
  generalize Pcs.clone (val m o) = q at s1 ⊢
  rcases p with ⟨r1, m1, o1⟩
  rcases q with ⟨r1', v1⟩
  obtain ⟨hr, hv, hg, hf, hu⟩ := s1
  simp only at hr hv hg hf hu
  subst hr hv
  rcases r1 with e | c
  · exact ⟨rfl, rfl, hg, fun c hc => by simp at hc, fun c hc => by simp at hc⟩
  · simp only [Except.map]
    have fc := hf c rfl
    have oc : Ok m1 c := fc.ok fun _ h => h.elim
    have oo := hg.ok h
    have s2 := hop m1 c oc
    generalize op m1 c = p at s2 ⊢
    generalize vop (val m1 c) = q at s2 ⊢
    rcases p with ⟨r2, m2, c2⟩
    rcases q with ⟨r2', v2⟩
    obtain ⟨ho2, hv2, hg2⟩ := s2
    simp only [plain] at ho2 hv2 hg2
    subst ho2 hv2
    have Go : Grows m o m2 o1 := hg.trans ⟨hg2.ext, fun r h => .inl h, rfl, fun h u => u.ext h hg2.ext⟩
    rcases r2' with e | _
    · exact ⟨rfl, (val_ext oo hg2.ext).symm, Go, fun c hc => by simp at hc, fun c hc => by simp at hc⟩
    · refine ⟨rfl, (val_ext oo hg2.ext).symm, Go, ?_, ?_⟩
      · intro c' hc
        simp only [Except.ok.injEq] at hc
        subst hc
        refine ⟨hg.ext.trans hg2.ext, fun r hr => .inr ?_⟩
        rcases hg2.own r hr with k | k
        · rcases fc.own r k with k | k
          · exact k.elim
          · exact ⟨k.1, k.2.trans_le hg2.ext.next⟩
        · exact ⟨hg.ext.next.trans k.1, k.2⟩
      · intro c' hc ho u
        simp only [Except.ok.injEq] at hc
        subst hc
        obtain ⟨u1, u2⟩ := hu c rfl ho u
        exact ⟨hg2.uni oc u1, hg2.dev.trans u2⟩
end geo
end Verif.Mem
