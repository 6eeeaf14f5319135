import Verif.Mem.Model
/-!
The memory model refines the value model: every method computes in memory what `Verif.PC.Model` says about the values, only allocates
(never writes into an existing storage), and afterwards the object refers to storages it referred to before or to new ones.
-/
namespace Verif.Mem
open Verif Verif.Pcs
set_option linter.unusedSectionVars false
set_option linter.unusedSimpArgs false

section
variable {α : Type*}

/-- Nothing that existed was changed. -/
structure Ext (m m' : Mem α) : Prop where
  next : m.next ≤ m'.next
  cell : ∀ r, r < m.next → m'.cell r = m.cell r

theorem Ext.rfl {m : Mem α} : Ext m m := ⟨le_rfl, fun _ _ => Eq.refl _⟩
theorem Ext.trans {a b c : Mem α} (h : Ext a b) (k : Ext b c) : Ext a c :=
  ⟨h.next.trans k.next, fun r hr => (k.cell r (hr.trans_le h.next)).trans (h.cell r hr)⟩
theorem Ext.alloc (m : Mem α) (k : Nat) (f : Nat → Cell α) : Ext m (m.alloc k f) :=
  ⟨Nat.le_add_right _ _, fun r hr => by simp [Mem.alloc, hr]⟩

@[simp] theorem alloc_next (m : Mem α) (k f) : (m.alloc k f).next = m.next + k := rfl
theorem alloc_old (m : Mem α) (k f) {r} (h : r < m.next) : (m.alloc k f).cell r = m.cell r := by simp [Mem.alloc, h]
@[simp] theorem alloc_new (m : Mem α) (k f) (i : Nat) : (m.alloc k f).cell (m.next + i) = f i := by simp [Mem.alloc]
@[simp] theorem alloc_new0 (m : Mem α) (k f) : (m.alloc k f).cell m.next = f 0 := by simp [Mem.alloc]

/-- All storages the object refers to exist. -/
def Ok (m : Mem α) (o : Obj) : Prop := ∀ r, Holds o r → r < m.next
/-- All storages the object refers to are on the device the object says it is on. -/
def Uni (m : Mem α) (o : Obj) : Prop := ∀ r, Holds o r → (m.cell r).dev = o.dev

theorem Ok.ext {m m' : Mem α} {o : Obj} (h : Ok m o) (e : Ext m m') : Ok m' o := fun r hr => (h r hr).trans_le e.next
theorem Uni.ext {m m' : Mem α} {o : Obj} (h : Uni m o) (k : Ok m o) (e : Ext m m') : Uni m' o :=
  fun r hr => by rw [e.cell r (k r hr)]; exact h r hr

theorem read_congr {m m' : Mem α} {v : View} (h : m'.cell v.ref = m.cell v.ref) : m'.read v = m.read v := by simp [Mem.read, h]

theorem reads_congr {m m' : Mem α} {l : List View} (h : ∀ v ∈ l, m'.cell v.ref = m.cell v.ref) : l.map m'.read = l.map m.read :=
  List.map_congr_left fun v hv => read_congr (h v hv)

theorem holds_lst {o : Obj} {X l v} (h : o.lst X = some l) (hv : v ∈ l) : Holds o v.ref := .inr (.inr (.inr ⟨X, l, h, v, hv, rfl⟩))
theorem holds_pad {o : Obj} {X r} (h : o.pad X = some r) : Holds o r := .inr (.inr (.inl ⟨X, h⟩))
theorem holds_mask {o : Obj} {r} (h : o.mask = some r) : Holds o r := .inr (.inl h)
theorem holds_num (o : Obj) : Holds o o.num := .inl rfl

/-- The value of an object depends only on the storages it refers to. -/
theorem val_congr {m m' : Mem α} {o : Obj} (h : ∀ r, Holds o r → m'.cell r = m.cell r) : val m' o = val m o := by
  simp only [val, PC.mk.injEq, and_true, true_and]
  refine ⟨?_, ?_, ?_, by rw [h _ (holds_num o)]⟩
  · funext X
    rcases e : o.lst X with _ | l
    · rfl
    · simp only [Option.map_some, Option.some.injEq]
      exact reads_congr fun v hv => h _ (holds_lst e hv)
  · funext X
    rcases e : o.pad X with _ | r
    · rfl
    · simp only [Option.map_some, h _ (holds_pad e)]
  · rcases e : o.mask with _ | r
    · rfl
    · simp only [Option.map_some, h _ (holds_mask e)]

theorem val_ext {m m' : Mem α} {o : Obj} (k : Ok m o) (e : Ext m m') : val m' o = val m o := val_congr fun r hr => e.cell r (k r hr)

/-- What a method may do to memory and to its object. -/
structure Grows (m : Mem α) (o : Obj) (m' : Mem α) (o' : Obj) : Prop where
  ext : Ext m m'
  own : ∀ r, Holds o' r → Holds o r ∨ (m.next ≤ r ∧ r < m'.next)
  dev : o'.dev = o.dev
  uni : Ok m o → Uni m o → Uni m' o'

theorem Grows.ok {m m' : Mem α} {o o' : Obj} (g : Grows m o m' o') (h : Ok m o) : Ok m' o' := fun r hr => by
  rcases g.own r hr with k | k
  · exact (h r k).trans_le g.ext.next
  · exact k.2

theorem Grows.rfl {m : Mem α} {o : Obj} : Grows m o m o := ⟨.rfl, fun _ h => .inl h, Eq.refl _, fun _ h => h⟩

theorem Grows.trans {m m' m'' : Mem α} {o o' o'' : Obj} (g : Grows m o m' o') (k : Grows m' o' m'' o'') : Grows m o m'' o'' := by
  refine ⟨g.ext.trans k.ext, fun r hr => ?_, k.dev.trans g.dev, fun h u => k.uni (g.ok h) (g.uni h u)⟩
  rcases k.own r hr with h | h
  · rcases g.own r h with h' | h'
    · exact .inl h'
    · exact .inr ⟨h'.1, h'.2.trans_le k.ext.next⟩
  · exact .inr ⟨g.ext.next.trans h.1, h.2⟩

/-- An object that refers to nothing new. -/
theorem Grows.sub {m : Mem α} {o o' : Obj} (h : ∀ r, Holds o' r → Holds o r) (d : o'.dev = o.dev) : Grows m o m o' :=
  ⟨.rfl, fun r hr => .inl (h r hr), d, fun _ u r hr => by rw [d]; exact u r (h r hr)⟩

/-- An object that refers to old storages and to newly allocated ones on its device. -/
theorem Grows.alloc {m : Mem α} {o o' : Obj} {k : Nat} {f : Nat → Cell α} (d : o'.dev = o.dev)
    (h : ∀ r, Holds o' r → Holds o r ∨ ∃ i, i < k ∧ r = m.next + i ∧ (Ok m o → Uni m o → (f i).dev = o.dev)) :
    Grows m o (m.alloc k f) o' := by
  refine ⟨.alloc m k f, fun r hr => ?_, d, fun hk u r hr => ?_⟩
  · rcases h r hr with h | ⟨i, hi, rfl, _⟩
    · exact .inl h
    · exact .inr ⟨Nat.le_add_right _ _, by simp; omega⟩
  · rcases h r hr with h | ⟨i, hi, rfl, hd⟩
    · rw [alloc_old m k f (hk r h), d]; exact u r h
    · rw [alloc_new, d]; exact hd hk u

/-! ### Queries -/

theorem hasAttr_eta (X : Attr) (o : Obj) : ∃ g, (hasAttr X o).2 = { o with has := g } := by
  unfold hasAttr; split
  · exact ⟨o.has, rfl⟩
  · exact ⟨_, rfl⟩

theorem holds_has (o : Obj) (g) (r : Nat) : Holds { o with has := g } r ↔ Holds o r := Iff.rfl

theorem hasAttr_grows (m : Mem α) (X : Attr) (o : Obj) : Grows m o m (hasAttr X o).2 := by
  obtain ⟨g, e⟩ := hasAttr_eta X o
  rw [e]; exact .sub (fun r h => (holds_has o g r).1 h) rfl

theorem hasAttr_sim (m : Mem α) (X : Attr) (o : Obj) :
    Pcs.hasAttr X (val m o) = ((hasAttr X o).1, val m (hasAttr X o).2) := by
  unfold hasAttr Pcs.hasAttr
  have e : (val m o).has X = o.has X := rfl
  rw [e]
  rcases o.has X with _ | b
  · simp [val]
  · rfl

theorem numFeatures_eta (m : Mem α) (o : Obj) : ∃ g, (numFeatures m o).2 = { o with has := g } := by
  obtain ⟨g, e⟩ := hasAttr_eta .features o
  refine ⟨g, ?_⟩
  unfold numFeatures
  rcases e1 : hasAttr .features o with ⟨h, o1⟩
  rw [e1] at e
  simp only at e ⊢
  subst e
  split_ifs
  · rfl
  · rcases o.pad .features with _ | r
    · rcases o.lst .features with _ | l <;> rfl
    · rfl

theorem numFeatures_grows (m : Mem α) (o : Obj) : Grows m o m (numFeatures m o).2 := by
  obtain ⟨g, e⟩ := numFeatures_eta m o
  rw [e]; exact .sub (fun r h => (holds_has o g r).1 h) rfl

theorem numFeatures_sim (m : Mem α) (o : Obj) : Pcs.numFeatures (val m o) = ((numFeatures m o).1, val m (numFeatures m o).2) := by
  unfold numFeatures Pcs.numFeatures
  rw [hasAttr_sim]
  rcases hasAttr .features o with ⟨h, o1⟩
  simp only
  split_ifs
  · rfl
  · have e : (val m o1).pad .features = (o1.pad .features).map fun r => (m.cell r).vals := rfl
    have e' : (val m o1).lst .features = (o1.lst .features).map fun l => l.map m.read := rfl
    rw [e, e']
    rcases o1.pad .features with _ | r
    · rcases o1.lst .features with _ | l <;> rfl
    · rfl

/-! ### List getters -/

theorem reads_views (m : Mem α) (r : Nat) (ns : List Nat) :
    (List.zipWith (fun b n => (⟨r, b, n⟩ : View)) (List.range (m.cell r).vals.length) ns).map m.read =
      List.zipWith (fun t n => T2.take n t) (m.cell r).vals ns := by
  apply List.ext_getElem
  · simp
  · intro i h1 h2
    simp only [List.length_zipWith, List.length_range, List.length_map] at h1 h2
    simp only [List.getElem_map, List.getElem_zipWith, List.getElem_range, Mem.read]
    simp [List.getD, List.getElem?_eq_getElem (show i < (m.cell r).vals.length by omega)]

theorem getList_sim (X : Attr) (m : Mem α) (o : Obj) :
    Pcs.getList X (val m o) = ((getList X m o).1.map fun l => l.map m.read, val m (getList X m o).2) := by
  unfold getList Pcs.getList
  have e : (val m o).lst X = (o.lst X).map fun l => l.map m.read := rfl
  have e' : (val m o).pad X = (o.pad X).map fun r => (m.cell r).vals := rfl
  rw [e, e']
  rcases e1 : o.lst X with _ | l
  · rcases e2 : o.pad X with _ | r
    · rfl
    · simp only [Option.map_none, Option.map_some, Prod.mk.injEq, Option.some.injEq]
      refine ⟨(reads_views m r _).symm, ?_⟩
      simp only [val, PC.mk.injEq, and_true]
      funext Y
      by_cases h : Y = X
      · subst h; simp only [Function.update_self, Option.map_some, Option.some.injEq]; exact (reads_views m r _).symm
      · simp only [Function.update_of_ne h]
  · rfl

theorem getList_grows (X : Attr) (m : Mem α) (o : Obj) : Grows m o m (getList X m o).2 := by
  unfold getList
  rcases e1 : o.lst X with _ | l
  · rcases e2 : o.pad X with _ | r
    · exact .rfl
    · refine .sub (fun q hq => ?_) rfl
      rcases hq with h | h | ⟨Y, h⟩ | ⟨Y, l, h, v, hv, rfl⟩
      · exact .inl h
      · exact .inr (.inl h)
      · exact .inr (.inr (.inl ⟨Y, h⟩))
      · by_cases hY : Y = X
        · subst hY
          simp only [Function.update_self, Option.some.injEq] at h
          subst h
          obtain ⟨i, hi, rfl⟩ := List.getElem_of_mem hv
          rw [List.getElem_zipWith]
          exact holds_pad e2
        · simp only [Function.update_of_ne hY] at h
          exact holds_lst h hv
  · exact .rfl

theorem getList_holds (X : Attr) (m : Mem α) (o : Obj) {l : List View} (h : (getList X m o).1 = some l) :
    ∀ v ∈ l, Holds (getList X m o).2 v.ref := by
  intro v hv
  unfold getList at h ⊢
  rcases e1 : o.lst X with _ | k
  · rcases e2 : o.pad X with _ | r
    · simp [e1, e2] at h
    · simp only [e1, e2, Option.some.injEq] at h ⊢
      exact holds_lst (X := X) (l := l) (by simp [h]) hv
  · simp only [e1, Option.some.injEq] at h ⊢
    subst h
    exact holds_lst e1 hv

/-! ### The mask -/

theorem val_setMask {m : Mem α} {o : Obj} (hk : Ok m o) (f : Nat → Cell α) :
    val (m.alloc 1 f) { o with mask := some m.next } = { val m o with mask := some (f 0).bits } := by
  have := val_ext hk (Ext.alloc m 1 f)
  simp only [val, PC.mk.injEq, and_true, true_and] at this ⊢
  exact ⟨this.1, this.2.1, by simp, this.2.2.2⟩

theorem val_setPad {m : Mem α} {o : Obj} (hk : Ok m o) (X : Attr) (f : Nat → Cell α) :
    val (m.alloc 1 f) { o with pad := Function.update o.pad X (some m.next) } =
      { val m o with pad := Function.update (val m o).pad X (some (f 0).vals) } := by
  have := val_ext hk (Ext.alloc m 1 f)
  simp only [val, PC.mk.injEq, and_true, true_and] at this ⊢
  refine ⟨this.1, ?_, this.2.2.1, this.2.2.2⟩
  funext Y
  by_cases hY : Y = X
  · subst hY; simp
  · simp only [Function.update_of_ne hY]; exact congrFun this.2.1 Y

theorem val_setLst {m : Mem α} {o : Obj} (X : Attr) (l : Option (List View)) :
    val m { o with lst := Function.update o.lst X l } =
      { val m o with lst := Function.update (val m o).lst X (l.map fun k => k.map m.read) } := by
  simp only [val, PC.mk.injEq, and_true, true_and]
  funext Y
  by_cases hY : Y = X
  · subst hY; simp
  · simp only [Function.update_of_ne hY]

theorem getMask_sim (m : Mem α) (o : Obj) (h : Ok m o) :
    Pcs.getMask (val m o) = ((getMask m o).1.map fun r => ((getMask m o).2.1.cell r).bits, val (getMask m o).2.1 (getMask m o).2.2) := by
  unfold getMask Pcs.getMask
  have e : (val m o).mask = o.mask.map fun r => (m.cell r).bits := rfl
  rw [e, hasAttr_sim]
  have hk := (hasAttr_grows m .points o).ok h
  generalize hasAttr .points o = p at hk ⊢
  rcases p with ⟨b, o1⟩
  simp only at hk ⊢
  rcases o.mask with _ | r
  · simp only [Option.map_none]
    by_cases hb : b = true
    · simp only [hb, if_true]
      rw [val_setMask hk]
      simp only [Option.map_some, alloc_new0]
      rfl
    · simp only [hb]; rfl
  · rfl

theorem getMask_grows (m : Mem α) (o : Obj) : Grows m o (getMask m o).2.1 (getMask m o).2.2 := by
  unfold getMask
  rcases e : o.mask with _ | r
  · obtain ⟨g, eg⟩ := hasAttr_eta .points o
    rcases e1 : hasAttr .points o with ⟨b, o1⟩
    rw [e1] at eg
    simp only at eg ⊢
    subst eg
    by_cases hb : b = true
    · simp only [hb, if_true]
      refine Grows.alloc rfl fun q hq => ?_
      rcases hq with h | h | ⟨Y, h⟩ | ⟨Y, l, h, v, hv, rfl⟩
      · exact .inl (.inl h)
      · simp only [Option.some.injEq] at h
        exact .inr ⟨0, Nat.zero_lt_one, by omega, fun _ _ => rfl⟩
      · exact .inl (holds_pad h)
      · exact .inl (holds_lst h hv)
    · simp only [hb]
      exact .sub (fun q hq => hq) rfl
  · exact .rfl

variable [Zero α]

/-! ### Padded getters -/

theorem fillPad_out (X : Attr) (C : Nat) (m : Mem α) (o : Obj) : (Pcs.fillPad X C (val m o)).1 = (fillPad X C m o).1 := by
  unfold fillPad Pcs.fillPad
  have e : (val m o).lst X = (o.lst X).map fun l => l.map m.read := rfl
  rw [e]
  rcases o.lst X with _ | l
  · rfl
  · simp only [Option.map_some]
    show (match listToPadded (l.map m.read) o.N C o.eq with
      | .error e => (Except.error e, val m o)
      | .ok p => (Except.ok (), { val m o with pad := Function.update (val m o).pad X (some p) })).1 = _
    rcases listToPadded (l.map m.read) o.N C o.eq with _ | p <;> rfl

theorem fillPad_val (X : Attr) (C : Nat) (m : Mem α) (o : Obj) (h : Ok m o) :
    (Pcs.fillPad X C (val m o)).2 = val (fillPad X C m o).2.1 (fillPad X C m o).2.2 := by
  unfold fillPad Pcs.fillPad
  have e : (val m o).lst X = (o.lst X).map fun l => l.map m.read := rfl
  rw [e]
  rcases o.lst X with _ | l
  · simp only [Option.map_none, val, PC.mk.injEq, and_true, true_and]
    funext Y
    by_cases hY : Y = X
    · subst hY; simp
    · simp [Function.update_of_ne hY]
  · simp only [Option.map_some]
    show (match listToPadded (l.map m.read) o.N C o.eq with
      | .error e => (Except.error e, val m o)
      | .ok p => (Except.ok (), { val m o with pad := Function.update (val m o).pad X (some p) })).2 = _
    rcases listToPadded (l.map m.read) o.N C o.eq with _ | p
    · rfl
    · simp only
      rw [val_setPad h]

theorem listToPadded_ne {x : List (T2 α)} {N C : Nat} {eq : Option Bool} {p} (h : listToPadded x N C eq = .ok p) : x ≠ [] := by
  rintro rfl
  simp only [listToPadded, List.length_nil, if_true] at h
  split_ifs at h

theorem fillPad_grows (X : Attr) (C : Nat) (m : Mem α) (o : Obj) : Grows m o (fillPad X C m o).2.1 (fillPad X C m o).2.2 := by
  unfold fillPad
  rcases el : o.lst X with _ | l
  · refine .sub (fun q hq => ?_) rfl
    rcases hq with h | h | ⟨Y, h⟩ | ⟨Y, l, h, v, hv, rfl⟩
    · exact .inl h
    · exact .inr (.inl h)
    · by_cases hY : Y = X
      · subst hY; simp at h
      · simp only [Function.update_of_ne hY] at h; exact holds_pad h
    · exact holds_lst h hv
  · rcases ep : listToPadded (l.map m.read) o.N C o.eq with _ | p
    · simp only [ep]; exact .rfl
    · simp only [ep]
      refine Grows.alloc rfl fun q hq => ?_
      rcases hq with h | h | ⟨Y, h⟩ | ⟨Y, l', h, v, hv, rfl⟩
      · exact .inl (.inl h)
      · exact .inl (.inr (.inl h))
      · by_cases hY : Y = X
        · subst hY
          simp only [Function.update_self, Option.some.injEq] at h
          refine .inr ⟨0, Nat.zero_lt_one, by omega, fun _ u => ?_⟩
          have hne := listToPadded_ne ep
          rcases l with _ | ⟨v, l⟩
          · simp at hne
          · exact u _ (holds_lst el (by simp))
        · simp only [Function.update_of_ne hY] at h; exact .inl (holds_pad h)
      · exact .inl (holds_lst h hv)

/-- What is proved about a method with result in `β`. -/
structure Sim {β γ : Type*} (m : Mem α) (o : Obj) (out : Mem α → β → γ) (r : β × Mem α × Obj) (v : γ × PC α) : Prop where
  out : v.1 = out r.2.1 r.1
  val : v.2 = val r.2.1 r.2.2
  grows : Grows m o r.2.1 r.2.2

/-- The result is the same in both models. -/
def plain {β : Type*} : Mem α → β → β := fun _ b => b

theorem fillPad_sim (X : Attr) (C : Nat) {m : Mem α} {o : Obj} (h : Ok m o) : Sim m o plain (fillPad X C m o) (Pcs.fillPad X C (Mem.val m o)) :=
  ⟨fillPad_out X C m o, fillPad_val X C m o h, fillPad_grows X C m o⟩

omit [Zero α] in
theorem Sim.before {β γ : Type*} {m m' : Mem α} {o o' : Obj} {out : Mem α → β → γ} {r : β × Mem α × Obj} {v : γ × PC α}
    (g : Grows m o m' o') (h : Sim m' o' out r v) : Sim m o out r v := ⟨h.out, h.val, g.trans h.grows⟩

omit [Zero α] in
theorem Sim.intro {β γ : Type*} {m m' : Mem α} {o o' : Obj} {out : Mem α → β → γ} {b : β} {c : γ} {s : PC α}
    (h1 : c = out m' b) (h2 : s = Mem.val m' o') (h3 : Grows m o m' o') : Sim m o out (b, m', o') (c, s) := ⟨h1, h2, h3⟩

theorem computePadded_sim {m : Mem α} {o : Obj} (h : Ok m o) : Sim m o plain (computePadded m o) (Pcs.computePadded (Mem.val m o)) := by
  unfold computePadded Pcs.computePadded
  rw [hasAttr_sim]
  have g1 := hasAttr_grows m .points o
  have hk := g1.ok h
  generalize hasAttr .points o = p at g1 hk ⊢
  rcases p with ⟨b, o1⟩
  simp only at g1 hk ⊢
  by_cases hb : b = true
  swap
  · simp only [hb, Bool.not_false, if_true]; exact .intro rfl rfl g1
  simp only [hb, Bool.not_true, Bool.false_eq_true, if_false]
  have ep : ((Mem.val m o1).pad .points).isSome = (o1.pad .points).isSome := by simp [Mem.val]
  rw [ep]
  by_cases hp : (o1.pad .points).isSome = true
  · simp only [hp, if_true]; exact .intro rfl rfl g1
  simp only [hp, Bool.false_eq_true, if_false]
  have el : (Mem.val m o1).lst .points = (o1.lst .points).map fun l => l.map m.read := rfl
  rw [el]
  rcases o1.lst .points with _ | l
  · exact .intro rfl rfl g1
  simp only [Option.map_some]
  refine .before g1 ?_
  clear g1 el ep hp h
  have s1 := fillPad_sim .points 3 hk
  generalize fillPad .points 3 m o1 = p at s1 ⊢
  generalize Pcs.fillPad .points 3 (Mem.val m o1) = q at s1 ⊢
  rcases p with ⟨r1, m1, o2⟩
  rcases q with ⟨r1', v1⟩
  obtain ⟨ho, hv, hg⟩ := s1
  simp only [plain] at ho hv hg
  subst ho hv
  rcases r1' with e | _
  · exact .intro rfl rfl hg
  simp only
  refine .before hg ?_
  have hk := hg.ok hk
  have s1 := fillPad_sim .normals 3 hk
  generalize fillPad .normals 3 m1 o2 = p at s1 ⊢
  generalize Pcs.fillPad .normals 3 (Mem.val m1 o2) = q at s1 ⊢
  rcases p with ⟨r1, m2, o3⟩
  rcases q with ⟨r1', v1⟩
  obtain ⟨ho, hv, hg⟩ := s1
  simp only [plain] at ho hv hg
  subst ho hv
  rcases r1' with e | _
  · exact .intro rfl rfl hg
  simp only
  refine .before hg ?_
  have hk := hg.ok hk
  have s1 := fillPad_sim .colors 3 hk
  generalize fillPad .colors 3 m2 o3 = p at s1 ⊢
  generalize Pcs.fillPad .colors 3 (Mem.val m2 o3) = q at s1 ⊢
  rcases p with ⟨r1, m3, o4⟩
  rcases q with ⟨r1', v1⟩
  obtain ⟨ho, hv, hg⟩ := s1
  simp only [plain] at ho hv hg
  subst ho hv
  rcases r1' with e | _
  · exact .intro rfl rfl hg
  simp only
  refine .before hg ?_
  have hk := hg.ok hk
  have ef : ((Mem.val m3 o4).lst .features).isSome = (o4.lst .features).isSome := by simp [Mem.val]
  rw [ef]
  by_cases hf : (o4.lst .features).isSome = true
  · simp only [hf, if_true]
    rw [numFeatures_sim]
    have g := numFeatures_grows m3 o4
    have hk := g.ok hk
    exact .before g (fillPad_sim _ _ hk)
  · simp only [hf, Bool.false_eq_true, if_false]
    exact fillPad_sim _ _ hk

/-- The value of a returned padded tensor. -/
def padOut (m : Mem α) (r : Except Err (Option Nat)) : Except Err (Option (List (T2 α))) := r.map fun p => p.map fun q => (m.cell q).vals

theorem getPad_sim (X : Attr) {m : Mem α} {o : Obj} (h : Ok m o) : Sim m o padOut (getPad X m o) (Pcs.getPad X (Mem.val m o)) := by
  unfold getPad Pcs.getPad
  have s1 := computePadded_sim h
  generalize computePadded m o = p at s1 ⊢
  generalize Pcs.computePadded (Mem.val m o) = q at s1 ⊢
  rcases p with ⟨r1, m1, o2⟩
  rcases q with ⟨r1', v1⟩
  obtain ⟨ho, hv, hg⟩ := s1
  simp only [plain] at ho hv hg
  subst ho hv
  rcases r1' with e | _
  · exact .intro rfl rfl hg
  · exact .intro rfl rfl hg
end
end Verif.Mem
