import Verif.Mem.Sim2
/-! Constructors, `clone`, `detach`, `to`, indexing and the out-of-place operations: the memory model refines the value model, and what
the new object shares with the old one. -/
namespace Verif.Mem
open Verif Verif.Pcs
set_option linter.unusedSectionVars false
set_option linter.unusedSimpArgs false

section
variable {α : Type*}

theorem passOne_ok (p : Pass α) (m : Mem α) (x : Nat) (h : ∀ r, oneRefs x r → r < m.next) :
    PassOk p oneRefs (fun m r => ((m.cell r).vals, (m.cell r).bits, (m.cell r).nums)) m x (passOne p m x).1 (passOne p m x).2 := by
  unfold passOne
  by_cases hk : p.keep (m.cell x) = true
  · simp only [hk, if_true]
    exact ⟨.rfl, rfl, fun r hr => .inl ⟨hr, by rw [hr]; exact hk⟩⟩
  · simp only [hk, Bool.false_eq_true, if_false]
    refine ⟨Ext.alloc m _ _, by simp, fun r hr => .inr ?_⟩
    simp only [oneRefs] at hr
    subst hr
    exact ⟨le_rfl, by simp, x, rfl, by simpa using hk, by simp⟩

/-- A function that passes on things of type `β`, each with its storages and its value. -/
structure Passes {β γ : Type*} (p : Pass α) (refs : β → Nat → Prop) (rd : Mem α → β → γ) (f : Mem α → β → Mem α × β) : Prop where
  ok : ∀ m x, (∀ r, refs x r → r < m.next) → PassOk p refs rd m x (f m x).1 (f m x).2
  congr : ∀ m m' x, (∀ r, refs x r → m'.cell r = m.cell r) → rd m' x = rd m x

theorem passList_passes (p : Pass α) : Passes p listRefs (fun m l => l.map m.read) (passList p) :=
  ⟨passList_ok p, fun _ _ _ h => reads_congr fun v hv => h _ ⟨v, hv, rfl⟩⟩

theorem passOne_passes (p : Pass α) : Passes p oneRefs (fun m r => ((m.cell r).vals, (m.cell r).bits, (m.cell r).nums)) (passOne p) :=
  ⟨passOne_ok p, fun _ _ x h => by simp only [h x rfl]⟩

/-- The storages of something optional. -/
def optRefs {β : Type*} (refs : β → Nat → Prop) (o : Option β) (r : Nat) : Prop := ∃ x, o = some x ∧ refs x r

theorem passOpt_ok {β γ : Type*} {p : Pass α} {refs : β → Nat → Prop} {rd : Mem α → β → γ} {f : Mem α → β → Mem α × β}
    (hf : Passes p refs rd f) (m : Mem α) (o : Option β) (h : ∀ r, optRefs refs o r → r < m.next) :
    PassOk p (optRefs refs) (fun m o => o.map (rd m)) m o (passOpt f m o).1 (passOpt f m o).2 := by
  rcases o with _ | x
  · exact ⟨.rfl, rfl, fun r ⟨y, hy, _⟩ => by simp [passOpt] at hy⟩
  · obtain ⟨h1, h2, h3⟩ := hf.ok m x fun r hr => h r ⟨x, rfl, hr⟩
    refine ⟨h1, by simp [passOpt, h2], ?_⟩
    rintro r ⟨y, hy, hr⟩
    simp only [passOpt, Option.some.injEq] at hy
    subst hy
    rcases h3 r hr with ⟨k1, k2⟩ | ⟨k1, k2, q, k3, k4⟩
    · exact .inl ⟨⟨x, rfl, k1⟩, k2⟩
    · exact .inr ⟨k1, k2, q, ⟨x, rfl, k3⟩, k4⟩

theorem passOpt_passes {β γ : Type*} {p : Pass α} {refs : β → Nat → Prop} {rd : Mem α → β → γ} {f : Mem α → β → Mem α × β}
    (hf : Passes p refs rd f) : Passes p (optRefs refs) (fun m o => o.map (rd m)) (passOpt f) :=
  ⟨passOpt_ok hf, fun m m' x h => by
    rcases x with _ | x
    · rfl
    · simp only [Option.map_some, hf.congr m m' x fun r hr => h r ⟨x, rfl, hr⟩]⟩

/-- Passing on two things one after the other. -/
theorem PassOk.step {β γ : Type*} {p : Pass α} {refs : β → Nat → Prop} {rd : Mem α → β → γ} {m m1 m2 : Mem α} {x x' : β}
    (hc : ∀ m m' x, (∀ r, refs x r → m'.cell r = m.cell r) → rd m' x = rd m x)
    (e1 : Ext m m1) (hx : ∀ r, refs x r → r < m.next) (h : PassOk p refs rd m1 x m2 x') : PassOk p refs rd m x m2 x' := by
  refine ⟨e1.trans h.ext, by rw [h.rd]; exact hc _ _ _ fun r hr => e1.cell r (hx r hr), ?_⟩
  intro r hr
  rcases h.own r hr with ⟨k1, k2⟩ | ⟨k1, k2, q, k3, k4, k5⟩
  · exact .inl ⟨k1, by rw [← e1.cell r (hx r k1)]; exact k2⟩
  · refine .inr ⟨e1.next.trans k1, k2, q, k3, ?_, ?_⟩
    · rw [← e1.cell q (hx q k3)]; exact k4
    · rw [← e1.cell q (hx q k3)]; exact k5

theorem PassOk.later {β γ : Type*} {p : Pass α} {refs : β → Nat → Prop} {rd : Mem α → β → γ} {m m1 m2 : Mem α} {x x' : β}
    (hc : ∀ m m' x, (∀ r, refs x r → m'.cell r = m.cell r) → rd m' x = rd m x)
    (hx : ∀ r, refs x r → r < m.next) (h : PassOk p refs rd m x m1 x') (e : Ext m1 m2) : PassOk p refs rd m x m2 x' := by
  have hlt : ∀ r, refs x' r → r < m1.next := fun r hr => by
    rcases h.own r hr with ⟨k1, _⟩ | ⟨_, k2, _⟩
    · exact (hx r k1).trans_le h.ext.next
    · exact k2
  refine ⟨h.ext.trans e, by rw [← h.rd]; exact hc _ _ _ fun r hr => e.cell r (hlt r hr), ?_⟩
  intro r hr
  rcases h.own r hr with ⟨k1, k2⟩ | ⟨k1, k2, q, k3, k4, k5⟩
  · exact .inl ⟨k1, k2⟩
  · exact .inr ⟨k1, k2.trans_le e.next, q, k3, k4, by rw [e.cell r k2]; exact k5⟩

/-- What `each` does. -/
structure EachOk {β γ : Type*} (p : Pass α) (refs : β → Nat → Prop) (rd : Mem α → β → γ) (m : Mem α) (a : Attr → Option β)
    (m' : Mem α) (a' : Attr → Option β) : Prop where
  ext : Ext m m'
  each : ∀ X, PassOk p (optRefs refs) (fun m o => o.map (rd m)) m (a X) m' (a' X)

theorem each_ok {β γ : Type*} {p : Pass α} {refs : β → Nat → Prop} {rd : Mem α → β → γ} {f : Mem α → β → Mem α × β}
    (hf : Passes p refs rd f) (m : Mem α) (a : Attr → Option β) (h : ∀ X r, optRefs refs (a X) r → r < m.next) :
    EachOk p refs rd m a (each f m a).1 (each f m a).2 := by
  have ho := passOpt_passes hf
  have h1 := ho.ok m _ (h .points)
  have h2 := ho.ok (passOpt f m (a .points)).1 _ fun r hr => (h .normals r hr).trans_le h1.ext.next
  have h3 := ho.ok (passOpt f (passOpt f m (a .points)).1 (a .normals)).1 _ fun r hr =>
    (h .colors r hr).trans_le (h1.ext.trans h2.ext).next
  have h4 := ho.ok (passOpt f (passOpt f (passOpt f m (a .points)).1 (a .normals)).1 (a .colors)).1 _ fun r hr =>
    (h .features r hr).trans_le ((h1.ext.trans h2.ext).trans h3.ext).next
  refine ⟨((h1.ext.trans h2.ext).trans h3.ext).trans h4.ext, fun X => ?_⟩
  cases X with
  | points => exact h1.later ho.congr (h .points) ((h2.ext.trans h3.ext).trans h4.ext)
  | normals => exact (h2.step ho.congr h1.ext (h .normals)).later ho.congr (h .normals) (h3.ext.trans h4.ext)
  | colors => exact (h3.step ho.congr (h1.ext.trans h2.ext) (h .colors)).later ho.congr (h .colors) h4.ext
  | features => exact h4.step ho.congr ((h1.ext.trans h2.ext).trans h3.ext) (h .features)

/-- A new object: what it may refer to, given the old storages `src` it may share. -/
structure Fresh (m m' : Mem α) (src : Nat → Prop) (c : Obj) : Prop where
  ext : Ext m m'
  own : ∀ r, Holds c r → src r ∨ (m.next ≤ r ∧ r < m'.next)

theorem Fresh.mono {m m' : Mem α} {s t : Nat → Prop} {c : Obj} (h : Fresh m m' s c) (k : ∀ r, s r → t r) : Fresh m m' t c :=
  ⟨h.ext, fun r hr => (h.own r hr).imp (k r) id⟩

theorem newEmpty_val (m : Mem α) (d : Dev) : val (newEmpty m d).1 (newEmpty m d).2 = Pcs.newEmpty := by
  simp [newEmpty, val, Pcs.newEmpty]

theorem newEmpty_fresh (m : Mem α) (d : Dev) : Fresh m (newEmpty m d).1 (fun _ => False) (newEmpty m d).2 ∧
    Uni (newEmpty m d).1 (newEmpty m d).2 := by
  refine ⟨⟨by unfold newEmpty; dsimp only; exact Ext.alloc m 1 _, ?_⟩, ?_⟩
  · rintro r (rfl | h | ⟨X, h⟩ | ⟨X, l, h, _⟩)
    · exact .inr ⟨le_rfl, by simp [newEmpty]⟩
    all_goals simp [newEmpty] at h
  · rintro r (rfl | h | ⟨X, h⟩ | ⟨X, l, h, _⟩)
    · simp [newEmpty]
    all_goals simp [newEmpty] at h

/-- The storages of the arguments of a constructor. -/
def argRefs {β : Type*} (refs : β → Nat → Prop) (arg : Attr → Option β) (r : Nat) : Prop := ∃ X, optRefs refs (arg X) r

theorem newList_sim {m : Mem α} {arg : Attr → Option (List View)} {P : List View} (hP : arg .points = some P) (dv : Option Dev)
    (h : ∀ r, argRefs listRefs arg r → r < m.next) :
    (∃ e, Pcs.newList (readLists m arg) (P.map m.read) = .error e ∧ newList m arg P dv = (.error e, m)) ∨
    ∃ s c m', Pcs.newList (readLists m arg) (P.map m.read) = .ok s ∧ newList m arg P dv = (.ok c, m') ∧ val m' c = s ∧
      Fresh m m' (argRefs listRefs arg) c ∧ Uni m' c ∧ c.dev = dv.getD (m.cell (P.headD ⟨0, 0, 0⟩).ref).dev := by
  unfold newList
  rcases e : Pcs.newList (readLists m arg) (P.map m.read) with err | s
  · exact .inl ⟨err, rfl, rfl⟩
  · refine .inr ⟨s, _, _, rfl, rfl, ?_⟩
    simp only
    set d := dv.getD (m.cell (P.headD ⟨0, 0, 0⟩).ref).dev with hd
    have hq := each_ok (passList_passes (Pass.to d)) m arg fun X r hr => h r ⟨X, hr⟩
    generalize each (passList (Pass.to d)) m arg = q at hq ⊢
    rcases q with ⟨m', a'⟩
    obtain ⟨he, hX⟩ := hq
    simp only at he hX ⊢
    have hsrc := h
    have hlt : ∀ X r, optRefs listRefs (a' X) r → r < m'.next := fun X r hr => by
      rcases (hX X).own r hr with ⟨k1, _⟩ | ⟨_, k2, _⟩
      · exact (h r ⟨X, k1⟩).trans_le he.next
      · exact k2
    refine ⟨?_, ⟨he.trans (Ext.alloc m' 1 _), ?_⟩, ?_, trivial⟩
    · have es : s = ⟨fun X => if X = .points then some (P.map m.read) else readLists m arg X, fun _ => none, none, fun _ => none,
          s.num, s.eq, s.B, s.N⟩ := by
        simp only [Pcs.newList] at e
        split_ifs at e
        simp only [Except.ok.injEq] at e
        rw [← e]
      rw [es]
      simp only [val, PC.mk.injEq, and_true, true_and, Option.map_none, alloc_new0]
      refine funext fun X => ?_
      have h1 := (hX X).rd
      have h2 : (if X = .points then some (P.map m.read) else readLists m arg X) = readLists m arg X := by
        split_ifs with hx
        · subst hx; simp [readLists, hP]
        · rfl
      rw [h2]
      show _ = (arg X).map fun l => l.map m.read
      rw [← h1]
      rcases ea : a' X with _ | l
      · rfl
      · simp only [Option.map_some, Option.some.injEq]
        exact reads_congr fun v hv => alloc_old _ _ _ (hlt X _ ⟨l, ea, v, hv, rfl⟩)
    · rintro r (h | h | ⟨X, h⟩ | ⟨X, l, h, v, hv, rfl⟩)
      · right; subst h; exact ⟨he.next, by simp⟩
      · simp at h
      · simp at h
      · simp only at h
        rcases (hX X).own v.ref ⟨l, h, v, hv, rfl⟩ with ⟨k1, _⟩ | ⟨k1, k2, _⟩
        · exact .inl ⟨X, k1⟩
        · exact .inr ⟨k1, by simp; omega⟩
    · rintro r (h | h | ⟨X, h⟩ | ⟨X, l, h, v, hv, rfl⟩)
      · subst h; simp
      · simp at h
      · simp at h
      · simp only at h
        rw [alloc_old _ _ _ (hlt X _ ⟨l, h, v, hv, rfl⟩)]
        rcases (hX X).own v.ref ⟨l, h, v, hv, rfl⟩ with ⟨k1, k2⟩ | ⟨k1, k2, q, _, _, k3⟩
        · rw [he.cell _ (hsrc _ ⟨X, k1⟩)]
          simpa [Pass.to] using k2
        · exact k3

theorem newTensor_sim {m : Mem α} {arg : Attr → Option Nat} {P : Nat} (hP : arg .points = some P) (dv : Option Dev)
    (h : ∀ r, argRefs oneRefs arg r → r < m.next) :
    (∃ e, Pcs.newTensor (fun X => (arg X).map fun r => (m.cell r).vals) (m.cell P).vals = .error e ∧ newTensor m arg P dv = (.error e, m)) ∨
    ∃ s c m', Pcs.newTensor (fun X => (arg X).map fun r => (m.cell r).vals) (m.cell P).vals = .ok s ∧ newTensor m arg P dv = (.ok c, m') ∧
      val m' c = s ∧ Fresh m m' (argRefs oneRefs arg) c ∧ Uni m' c ∧ c.dev = dv.getD (m.cell P).dev := by
  unfold newTensor
  rcases e : Pcs.newTensor (fun X => (arg X).map fun r => (m.cell r).vals) (m.cell P).vals with err | s
  · exact .inl ⟨err, rfl, rfl⟩
  · refine .inr ⟨s, _, _, rfl, rfl, ?_⟩
    simp only
    set d := dv.getD (m.cell P).dev with hd
    have hq := each_ok (passOne_passes (Pass.to d)) m arg fun X r hr => h r ⟨X, hr⟩
    generalize each (passOne (Pass.to d)) m arg = q at hq ⊢
    rcases q with ⟨m', a'⟩
    obtain ⟨he, hX⟩ := hq
    simp only at he hX ⊢
    have hsrc := h
    have hlt : ∀ X r, a' X = some r → r < m'.next := fun X r hr => by
      rcases (hX X).own r ⟨r, hr, rfl⟩ with ⟨k1, _⟩ | ⟨_, k2, _⟩
      · exact (h r ⟨X, k1⟩).trans_le he.next
      · exact k2
    refine ⟨?_, ⟨he.trans (Ext.alloc m' 1 _), ?_⟩, ?_, trivial⟩
    · have es : s = ⟨fun _ => none, fun X => if X = .points then some (m.cell P).vals else (arg X).map fun r => (m.cell r).vals, none,
          fun _ => none, s.num, s.eq, s.B, s.N⟩ := by
        simp only [Pcs.newTensor] at e
        split_ifs at e
        simp only [Except.ok.injEq] at e
        rw [← e]
      rw [es]
      simp only [val, PC.mk.injEq, and_true, true_and, Option.map_none, alloc_new0]
      refine funext fun X => ?_
      have h1 := (hX X).rd
      have h2 : (if X = .points then some (m.cell P).vals else (arg X).map fun r => (m.cell r).vals) =
          (arg X).map fun r => (m.cell r).vals := by
        split_ifs with hx
        · subst hx; simp [hP]
        · rfl
      rw [h2]
      have h3 := congrArg (Option.map Prod.fst) h1
      simp only [Option.map_map, Function.comp_def] at h3
      rw [← h3]
      rcases ea : a' X with _ | r
      · rfl
      · simp only [Option.map_some, Option.some.injEq]
        rw [alloc_old _ _ _ (hlt X _ ea)]
    · rintro r (h | h | ⟨X, h⟩ | ⟨X, l, h, v, hv, rfl⟩)
      · right; subst h; exact ⟨he.next, by simp⟩
      · simp at h
      · simp only at h
        rcases (hX X).own r ⟨r, h, rfl⟩ with ⟨k1, _⟩ | ⟨k1, k2, _⟩
        · exact .inl ⟨X, k1⟩
        · exact .inr ⟨k1, by simp; omega⟩
      · simp at h
    · rintro r (h | h | ⟨X, h⟩ | ⟨X, l, h, v, hv, rfl⟩)
      · subst h; simp
      · simp at h
      · simp only at h
        rw [alloc_old _ _ _ (hlt X _ h)]
        rcases (hX X).own r ⟨r, h, rfl⟩ with ⟨k1, k2⟩ | ⟨k1, k2, q, _, _, k3⟩
        · rw [he.cell _ (hsrc _ ⟨X, k1⟩)]
          simpa [Pass.to] using k2
        · exact k3
      · simp at h

/-! ### clone, detach, to -/

theorem pick_map {β γ : Type*} {a b : Option β} {A B : Option γ} {f : β → γ} (hA : a.map f = A) (hB : b.map f = B) :
    (if a.isSome then a else b).map f = if A.isSome then A else B := by
  subst hA hB
  cases a <;> simp

/-- The storages of `c` that `passInternal` leaves in place. -/
def Rest (s c : Obj) (r : Nat) : Prop :=
  (s.mask = none ∧ c.mask = some r) ∨ (∃ X, s.pad X = none ∧ c.pad X = some r) ∨ ∃ X l, c.lst X = some l ∧ ∃ v ∈ l, v.ref = r

theorem Rest.holds {s c : Obj} {r : Nat} : Rest s c r → Holds c r
  | .inl h => holds_mask h.2
  | .inr (.inl ⟨_, _, h⟩) => holds_pad h
  | .inr (.inr ⟨_, _, h, _, hv, e⟩) => e ▸ holds_lst h hv

theorem passInternal_ok (p : Pass α) {m : Mem α} {s c : Obj} (hs : Ok m s) (hc : Ok m c) :
    Ext m (passInternal p m s c).1 ∧
    val (passInternal p m s c).1 (passInternal p m s c).2 = copyInternal (val m s) (val m c) ∧
    (∀ r, Holds (passInternal p m s c).2 r → Rest s c r ∨ (Holds s r ∧ p.keep (m.cell r) = true) ∨
      (m.next ≤ r ∧ r < (passInternal p m s c).1.next ∧
        ∃ q, Holds s q ∧ p.keep (m.cell q) = false ∧ ((passInternal p m s c).1.cell r).dev = p.dev (m.cell q))) ∧
    (passInternal p m s c).2.dev = c.dev := by
  unfold passInternal
  have h1 := each_ok (passOne_passes p) m s.pad fun X r ⟨x, hx, hr⟩ => hs r (by rw [hr]; exact holds_pad hx)
  generalize each (passOne p) m s.pad = q at h1 ⊢
  rcases q with ⟨m1, a1⟩
  simp only at h1 ⊢
  have hm : ∀ r, optRefs oneRefs s.mask r → r < m.next := fun r ⟨x, hx, hr⟩ => hs r (by rw [hr]; exact holds_mask hx)
  have h2 := (passOpt_passes (passOne_passes p)).ok m1 s.mask fun r hr => (hm r hr).trans_le h1.ext.next
  generalize passOpt (passOne p) m1 s.mask = k at h2 ⊢
  rcases k with ⟨m2, k2⟩
  simp only at h2 ⊢
  have hn : ∀ r, oneRefs s.num r → r < m.next := fun r hr => hs r (by rw [hr]; exact holds_num s)
  have h3 := (passOne_passes p).ok m2 s.num fun r hr => (hn r hr).trans_le (h1.ext.trans h2.ext).next
  generalize passOne p m2 s.num = n at h3 ⊢
  rcases n with ⟨m3, n3⟩
  simp only at h3 ⊢
  have cO := (passOpt_passes (passOne_passes p)).congr
  have cN := (passOne_passes p).congr
  have g1 : ∀ X, PassOk p (optRefs oneRefs) (fun m o => o.map fun r => ((m.cell r).vals, (m.cell r).bits, (m.cell r).nums)) m (s.pad X) m3 (a1 X) :=
    fun X => (h1.each X).later cO (fun r ⟨x, hx, hr⟩ => hs r (by rw [hr]; exact holds_pad hx)) (h2.ext.trans h3.ext)
  have g2 := (h2.step cO h1.ext hm).later cO hm h3.ext
  have g3 := h3.step cN (h1.ext.trans h2.ext) hn
  have ext := (h1.ext.trans h2.ext).trans h3.ext
  refine ⟨ext, ?_, ?_, trivial⟩
  · have ec := val_ext hc ext
    simp only [val, copyInternal, PC.mk.injEq, and_true, true_and] at ec ⊢
    refine ⟨ec.1, ?_, ?_, congrArg (fun x => x.2.2) g3.rd⟩
    · funext X
      have e := congrArg (Option.map fun x => x.1) (g1 X).rd
      simp only [Option.map_map, Function.comp_def] at e
      exact pick_map e (congrFun ec.2.1 X)
    · have e := congrArg (Option.map fun x => x.2.1) g2.rd
      simp only [Option.map_map, Function.comp_def] at e
      exact pick_map e ec.2.2.1
  · rintro r (h | h | ⟨X, h⟩ | ⟨X, l, h, v, hv, rfl⟩)
    · simp only at h
      subst h
      rcases g3.own r rfl with ⟨k1, k2⟩ | ⟨k1, k2, q, k3, k4⟩
      · exact .inr (.inl ⟨.inl k1, k2⟩)
      · exact .inr (.inr ⟨k1, k2, q, .inl k3, k4⟩)
    · simp only at h
      rcases k2 with _ | x
      · simp only [Option.isSome_none, Bool.false_eq_true, if_false] at h
        exact .inl (.inl ⟨by have := g2.rd; simpa [eq_comm] using this, h⟩)
      · simp only [Option.isSome_some, if_true, Option.some.injEq] at h
        subst h
        rcases g2.own x ⟨x, rfl, rfl⟩ with ⟨⟨y, hy, k1⟩, k2⟩ | ⟨k1, k2, q, ⟨y, hy, k3⟩, k4⟩
        · exact .inr (.inl ⟨by rw [k1]; exact holds_mask hy, k2⟩)
        · exact .inr (.inr ⟨k1, k2, q, by rw [k3]; exact holds_mask hy, k4⟩)
    · simp only at h
      rcases ea : a1 X with _ | x
      · simp only [ea, Option.isSome_none, Bool.false_eq_true, if_false] at h
        exact .inl (.inr (.inl ⟨X, by have := (g1 X).rd; rw [ea] at this; simpa [eq_comm] using this, h⟩))
      · simp only [ea, Option.isSome_some, if_true, Option.some.injEq] at h
        subst h
        rcases (g1 X).own x ⟨x, ea, rfl⟩ with ⟨⟨y, hy, k1⟩, k2⟩ | ⟨k1, k2, q, ⟨y, hy, k3⟩, k4⟩
        · exact .inr (.inl ⟨by rw [k1]; exact holds_pad hy, k2⟩)
        · exact .inr (.inr ⟨k1, k2, q, by rw [k3]; exact holds_pad hy, k4⟩)
    · exact .inl (.inr (.inr ⟨X, l, h, v, hv, rfl⟩))

/-- What is proved about a method that makes a new object out of `o`. -/
structure Copies (m : Mem α) (o : Obj) (src : Nat → Prop) (r : Except Err Obj × Mem α × Obj) (v : Except Err (PC α) × PC α) : Prop where
  out : v.1 = r.1.map (val r.2.1)
  val : v.2 = val r.2.1 r.2.2
  grows : Grows m o r.2.1 r.2.2
  fresh : ∀ c, r.1 = .ok c → Fresh m r.2.1 src c
  uni : ∀ c, r.1 = .ok c → Ok m o → Uni m o → Uni r.2.1 c ∧ c.dev = o.dev

theorem Fresh.ok {m m' : Mem α} {src : Nat → Prop} {c : Obj} (h : Fresh m m' src c) (k : ∀ r, src r → r < m.next) : Ok m' c := fun r hr => by
  rcases h.own r hr with h1 | h1
  · exact (k r h1).trans_le h.ext.next
  · exact h1.2

/-- The second half of `clone`: copy the internal tensors of `o` into `c`, a new object. -/
theorem finish_clone {m0 m : Mem α} {o c : Obj} {s : PC α} (e0 : Ext m0 m) (ho : Ok m0 o) (hv : val m c = s)
    (hf : ∀ r, Holds c r → m0.next ≤ r ∧ r < m.next)
    (hu : Uni m0 o → Uni m c ∧ c.dev = o.dev) :
    Copies m0 o (fun _ => False) (.ok (passInternal Pass.clone m o c).2, (passInternal Pass.clone m o c).1, o)
      (.ok (copyInternal (val m0 o) s), val m0 o) := by
  have hok : Ok m o := ho.ext e0
  have hc : Ok m c := fun r hr => (hf r hr).2
  obtain ⟨e1, hval, hown, hdev⟩ := passInternal_ok Pass.clone hok hc
  have eT := e0.trans e1
  refine ⟨?_, ?_, ⟨eT, fun r h => .inl h, rfl, fun h u => u.ext h eT⟩, ?_, ?_⟩
  · simp only [Except.map, Except.ok.injEq]
    rw [hval, ← val_ext ho e0, hv]
  · simp only; rw [val_ext ho eT]
  · rintro c' hc'
    simp only [Except.ok.injEq] at hc'
    subst hc'
    refine ⟨eT, fun r hr => .inr ?_⟩
    rcases hown r hr with h | ⟨_, h⟩ | ⟨h1, h2, _⟩
    · exact ⟨(hf r h.holds).1, (hf r h.holds).2.trans_le e1.next⟩
    · simp [Pass.clone] at h
    · exact ⟨e0.next.trans h1, h2⟩
  · rintro c' hc' _ u
    simp only [Except.ok.injEq] at hc'
    subst hc'
    obtain ⟨u1, u2⟩ := hu u
    refine ⟨fun r hr => ?_, hdev.trans u2⟩
    rw [hdev]
    rcases hown r hr with h | ⟨_, h⟩ | ⟨_, _, q, hq, _, h2⟩
    · rw [e1.cell r (hc r h.holds)]; exact u1 r h.holds
    · simp [Pass.clone] at h
    · rw [h2, u2]
      show (m.cell q).dev = o.dev
      rw [e0.cell q (ho q hq)]; exact u q hq

theorem Copies.before {m m' : Mem α} {o o' : Obj} {src : Nat → Prop} {r v} (g : Grows m o m' o') (h : Copies m' o' src r v)
    (hs : ∀ r, src r → r < m'.next → src r) : Copies m o src r v := by
  refine ⟨h.out, h.val, g.trans h.grows, fun c hc => ⟨g.ext.trans (h.fresh c hc).ext, fun q hq => ?_⟩, fun c hc ho hu => ?_⟩
  · rcases (h.fresh c hc).own q hq with k | k
    · exact .inl k
    · exact .inr ⟨g.ext.next.trans k.1, k.2⟩
  · obtain ⟨u1, u2⟩ := h.uni c hc (g.ok ho) (g.uni ho hu)
    exact ⟨u1, u2.trans g.dev⟩

theorem clone_sim {m : Mem α} {o : Obj} (h : Ok m o) : Copies m o (fun _ => False) (clone m o) (Pcs.clone (val m o)) := by
  unfold clone Pcs.clone
  rw [hasAttr_sim]
  have g1 := hasAttr_grows m .points o
  have hk := g1.ok h
  generalize hasAttr .points o = p at g1 hk ⊢
  rcases p with ⟨b, o1⟩
  simp only at g1 hk ⊢
  refine Copies.before g1 ?_ fun _ h _ => h
  clear g1 h
  by_cases hb : b = true
  swap
  · simp only [hb, Bool.not_false, if_true]
    obtain ⟨f1, f2⟩ := newEmpty_fresh m o1.dev
    refine ⟨?_, (val_ext hk f1.ext).symm, ⟨f1.ext, fun r h => .inl h, rfl, fun h u => u.ext h f1.ext⟩, ?_, ?_⟩
    · simp only [Except.map]; rw [newEmpty_val]
    · rintro c hc; simp only [Except.ok.injEq] at hc; subst hc; exact f1
    · rintro c hc _ _; simp only [Except.ok.injEq] at hc; subst hc; exact ⟨f2, rfl⟩
  simp only [hb, Bool.not_true, Bool.false_eq_true, if_false]
  have el : (val m o1).lst .points = (o1.lst .points).map fun l => l.map m.read := rfl
  have ep : (val m o1).pad .points = (o1.pad .points).map fun r => (m.cell r).vals := rfl
  rw [el, ep]
  rcases hl : o1.lst .points with _ | P
  · rcases hp : o1.pad .points with _ | r
    · simp only [Option.map_none]
      exact ⟨rfl, rfl, .rfl, fun c hc => by simp at hc, fun c hc => by simp at hc⟩
    · simp only [Option.map_none, Option.map_some]
      have h1 := each_ok (passOne_passes (Pass.clone (α := α))) m o1.pad fun X r ⟨x, hx, hr⟩ => hk r (by rw [hr]; exact holds_pad hx)
      generalize each (passOne Pass.clone) m o1.pad = q at h1 ⊢
      rcases q with ⟨m1, a1⟩
      simp only at h1 ⊢
      have hr1 := (h1.each .points).rd
      rw [hp] at hr1
      rcases ha : a1 .points with _ | P1
      · rw [ha] at hr1; simp at hr1
      rw [ha] at hr1
      simp only [Option.map_some, Option.some.injEq, Prod.mk.injEq] at hr1
      simp only [Option.getD_some]
      have hfr : ∀ X q, a1 X = some q → m.next ≤ q ∧ q < m1.next := fun X q hq => by
        rcases (h1.each X).own q ⟨q, hq, rfl⟩ with ⟨_, k⟩ | ⟨k1, k2, _⟩
        · simp [Pass.clone] at k
        · exact ⟨k1, k2⟩
      have hvals : (fun X => (a1 X).map fun r => (m1.cell r).vals) = (val m o1).pad := by
        funext X
        have e := congrArg (Option.map fun x => x.1) (h1.each X).rd
        simpa [Option.map_map, Function.comp_def, val] using e
      rcases newTensor_sim ha none (fun q ⟨X, x, hx, hq⟩ => by rw [hq]; exact (hfr X x hx).2) with ⟨e, e1, e2⟩ | ⟨s, c, m2, e1, e2, hv, hfresh, hu, hd⟩
      · rw [e2]
        rw [hvals, hr1.1] at e1
        rw [e1]
        exact ⟨rfl, (val_ext hk h1.ext).symm, ⟨h1.ext, fun r h => .inl h, rfl, fun h u => u.ext h h1.ext⟩, fun c hc => by simp at hc,
          fun c hc => by simp at hc⟩
      · rw [e2]
        rw [hvals, hr1.1] at e1
        rw [e1]
        refine finish_clone (h1.ext.trans hfresh.ext) hk hv ?_ ?_
        · intro r hr
          rcases hfresh.own r hr with ⟨X, x, hx, k⟩ | ⟨k1, k2⟩
          · rw [k]; exact ⟨(hfr X x hx).1, (hfr X x hx).2.trans_le hfresh.ext.next⟩
          · exact ⟨h1.ext.next.trans k1, k2⟩
        · intro u
          refine ⟨hu, ?_⟩
          rw [hd]
          rcases (h1.each .points).own P1 ⟨P1, ha, rfl⟩ with ⟨_, k⟩ | ⟨_, _, q, ⟨x, hx, hq⟩, _, k⟩
          · simp [Pass.clone] at k
          · simp only [Option.getD_none]
            rw [k]
            exact u q (by rw [hq]; exact holds_pad hx)
  · simp only [Option.map_some]
    have h1 := each_ok (passList_passes (Pass.clone (α := α))) m o1.lst fun X r ⟨x, hx, v, hv, hr⟩ => hk r (by rw [← hr]; exact holds_lst hx hv)
    generalize each (passList Pass.clone) m o1.lst = q at h1 ⊢
    rcases q with ⟨m1, a1⟩
    simp only at h1 ⊢
    have hr1 := (h1.each .points).rd
    rw [hl] at hr1
    rcases ha : a1 .points with _ | P1
    · rw [ha] at hr1; simp at hr1
    rw [ha] at hr1
    simp only [Option.map_some, Option.some.injEq, Prod.mk.injEq] at hr1
    simp only [Option.getD_some]
    have hfr : ∀ X l v, a1 X = some l → v ∈ l → m.next ≤ v.ref ∧ v.ref < m1.next := fun X l v hl hv => by
      rcases (h1.each X).own v.ref ⟨l, hl, v, hv, rfl⟩ with ⟨_, k⟩ | ⟨k1, k2, _⟩
      · simp [Pass.clone] at k
      · exact ⟨k1, k2⟩
    have hvals : readLists m1 a1 = (val m o1).lst := by
      funext X; exact (h1.each X).rd
    rcases newList_sim ha none (fun q ⟨X, x, hx, v, hv, hq⟩ => by rw [← hq]; exact (hfr X x v hx hv).2) with ⟨e, e1, e2⟩ | ⟨s, c, m2, e1, e2, hv, hfresh, hu, hd⟩
    · rw [e2]
      rw [hvals, hr1] at e1
      rw [e1]
      exact ⟨rfl, (val_ext hk h1.ext).symm, ⟨h1.ext, fun r h => .inl h, rfl, fun h u => u.ext h h1.ext⟩, fun c hc => by simp at hc,
        fun c hc => by simp at hc⟩
    · rw [e2]
      rw [hvals, hr1] at e1
      rw [e1]
      refine finish_clone (h1.ext.trans hfresh.ext) hk hv ?_ ?_
      · intro r hr
        rcases hfresh.own r hr with ⟨X, x, hx, v, hv, rfl⟩ | ⟨k1, k2⟩
        · exact ⟨(hfr X x v hx hv).1, (hfr X x v hx hv).2.trans_le hfresh.ext.next⟩
        · exact ⟨h1.ext.next.trans k1, k2⟩
      · intro u
        refine ⟨hu, ?_⟩
        rw [hd]
        have hne : P1 ≠ [] := by
          rintro rfl
          have : P.map m.read = [] := hr1.symm
          rw [this] at e1
          simp [Pcs.newList] at e1
        rcases P1 with _ | ⟨v, P1⟩
        · exact absurd rfl hne
        rcases (h1.each .points).own v.ref ⟨_, ha, v, by simp, rfl⟩ with ⟨_, k⟩ | ⟨_, _, q, ⟨x, hx, w, hw, hq⟩, _, k⟩
        · simp [Pass.clone] at k
        · simp only [Option.getD_none, List.headD_cons]
          rw [k]
          exact u q (by rw [← hq]; exact holds_lst hx hw)
end
end Verif.Mem
