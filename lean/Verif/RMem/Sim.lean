import Verif.RMem.Model
import Mathlib.Tactic.Linarith
/-! The methods of `Verif.RMem.Model` on values are the methods of `Verif.Rgbd.Model`; they only allocate. -/
namespace Verif.RMem
open Verif
set_option linter.unusedSectionVars false

section
variable {α : Type*}

/-- `m'` has everything `m` has, and maybe more. -/
structure Ext (m m' : Mem α) : Prop where
  next : m.next ≤ m'.next
  cell : ∀ r, r < m.next → m'.cell r = m.cell r

theorem Ext.rfl {m : Mem α} : Ext m m := ⟨le_rfl, fun _ _ => Eq.refl _⟩
theorem Ext.trans {a b c : Mem α} (h : Ext a b) (k : Ext b c) : Ext a c :=
  ⟨h.next.trans k.next, fun r hr => (k.cell r (hr.trans_le h.next)).trans (h.cell r hr)⟩
theorem Ext.alloc (m : Mem α) (k : Nat) (f : Nat → Cell α) : Ext m (m.alloc k f) :=
  ⟨Nat.le_add_right _ _, fun r hr => by simp [Mem.alloc, hr]⟩

theorem Ext.read {m m' : Mem α} (h : Ext m m') {v : View} (hv : v.ref < m.next) : m'.read v = m.read v := by
  simp only [Mem.read, h.cell _ hv]
theorem Ext.dev {m m' : Mem α} (h : Ext m m') {v : View} (hv : v.ref < m.next) : m'.dev v = m.dev v := by
  simp only [Mem.dev, h.cell _ hv]

theorem alloc_cell (m : Mem α) (k : Nat) (f : Nat → Cell α) (i : Nat) : (m.alloc k f).cell (m.next + i) = f i := by simp [Mem.alloc]
@[simp] theorem alloc_next (m : Mem α) (k : Nat) (f : Nat → Cell α) : (m.alloc k f).next = m.next + k := rfl

theorem fresh_ext (m : Mem α) (d : Dev) (c : Cont α) : Ext m (m.fresh d c).1 := Ext.alloc m 1 fun _ => ⟨d, c⟩
theorem fresh_next (m : Mem α) (d : Dev) (c : Cont α) : (m.fresh d c).1.next = m.next + 1 := rfl
theorem fresh_view (m : Mem α) (d : Dev) (c : Cont α) : (m.fresh d c).2 = ⟨m.next, []⟩ := rfl
theorem fresh_cell (m : Mem α) (d : Dev) (c : Cont α) : (m.fresh d c).1.cell m.next = ⟨d, c⟩ := by
  have := alloc_cell m 1 (fun _ => (⟨d, c⟩ : Cell α)) 0
  rw [Nat.add_zero] at this
  exact this
theorem fresh_read (m : Mem α) (d : Dev) (c : Cont α) : (m.fresh d c).1.read ⟨m.next, []⟩ = c := by
  unfold Mem.read
  simp only [List.foldl_nil]
  rw [fresh_cell]
theorem fresh_dev (m : Mem α) (d : Dev) (c : Cont α) : (m.fresh d c).1.dev ⟨m.next, []⟩ = d := by
  unfold Mem.dev
  simp only
  rw [fresh_cell]

/-- All storages of the object exist. -/
def Ok (m : Mem α) (o : Obj) : Prop := ∀ r, Holds o r → r < m.next
/-- All tensors of the object are on the device the object names. -/
def Uni (m : Mem α) (o : Obj) : Prop := ∀ r, Holds o r → (m.cell r).dev = o.dev

theorem Ok.base {m : Mem α} {o : Obj} (h : Ok m o) (b : Base) : (o.base b).ref < m.next := h _ (.inl ⟨b, rfl⟩)
theorem Ok.opt {m : Mem α} {o : Obj} (h : Ok m o) {x : Opt} {v : View} (hv : o.opt x = some v) : v.ref < m.next := h _ (.inr (.inl ⟨x, v, hv, rfl⟩))
theorem Ok.valid {m : Mem α} {o : Obj} (h : Ok m o) {v : View} (hv : o.valid = some v) : v.ref < m.next := h _ (.inr (.inr ⟨v, hv, rfl⟩))
theorem Uni.base {m : Mem α} {o : Obj} (h : Uni m o) (b : Base) : m.dev (o.base b) = o.dev := h _ (.inl ⟨b, rfl⟩)
theorem Uni.opt {m : Mem α} {o : Obj} (h : Uni m o) {x : Opt} {v : View} (hv : o.opt x = some v) : m.dev v = o.dev := h _ (.inr (.inl ⟨x, v, hv, rfl⟩))
theorem Uni.valid {m : Mem α} {o : Obj} (h : Uni m o) {v : View} (hv : o.valid = some v) : m.dev v = o.dev := h _ (.inr (.inr ⟨v, hv, rfl⟩))

theorem Ok.ext {m m' : Mem α} {o : Obj} (h : Ok m o) (e : Ext m m') : Ok m' o := fun r hr => (h r hr).trans_le e.next
theorem Uni.ext {m m' : Mem α} {o : Obj} (h : Uni m o) (k : Ok m o) (e : Ext m m') : Uni m' o := fun r hr => by rw [e.cell r (k r hr)]; exact h r hr

/-- The value of an object depends on its storages only. -/
theorem val_congr {m m' : Mem α} {o : Obj} (h : ∀ r, Holds o r → m'.cell r = m.cell r) : val m' o = val m o := by
  have hb : ∀ b, m'.read (o.base b) = m.read (o.base b) := fun b => by simp only [Mem.read, h _ (.inl ⟨b, rfl⟩)]
  have ho : ∀ x v, o.opt x = some v → m'.read v = m.read v := fun x v hv => by simp only [Mem.read, h _ (.inr (.inl ⟨x, v, hv, rfl⟩))]
  have hv : ∀ v, o.valid = some v → m'.read v = m.read v := fun v hv => by simp only [Mem.read, h _ (.inr (.inr ⟨v, hv, rfl⟩))]
  have hm : ∀ {β : Type _} (x : Opt) (g : Cont α → β), ((o.opt x).map fun v => g (m'.read v)) = (o.opt x).map fun v => g (m.read v) := by
    intro β x g
    rcases hx : o.opt x with _ | v
    · rfl
    · simp only [Option.map_some, ho x v hx]
  have hvm : (o.valid.map fun v => (m'.read v).bit) = o.valid.map fun v => (m.read v).bit := by
    rcases hx : o.valid with _ | v
    · rfl
    · simp only [Option.map_some, hv v hx]
  unfold val
  rw [hb, hb, hb, hm .poses (·.mat), hm .pix (·.img), hm .vertex (·.img), hm .normal (·.img), hm .gvertex (·.img), hm .gnormal (·.img), hvm]

theorem val_ext {m m' : Mem α} {o : Obj} (h : Ok m o) (e : Ext m m') : val m' o = val m o := val_congr fun r hr => e.cell r (h r hr)

/-- The storages an object refers to, its poses left out. -/
def Rest (o : Obj) (r : Nat) : Prop :=
  (∃ b, (o.base b).ref = r) ∨ (∃ x v, x ≠ Opt.poses ∧ o.opt x = some v ∧ v.ref = r) ∨ ∃ v, o.valid = some v ∧ v.ref = r

theorem Rest.holds {o : Obj} {r : Nat} (h : Rest o r) : Holds o r := by
  rcases h with h | ⟨x, v, _, h⟩ | h
  · exact .inl h
  · exact .inr (.inl ⟨x, v, h⟩)
  · exact .inr (.inr h)

theorem rest_or {o : Obj} {r : Nat} (h : Holds o r) : Rest o r ∨ ∃ v, o.opt .poses = some v ∧ v.ref = r := by
  rcases h with h | ⟨x, v, h⟩ | h
  · exact .inl (.inl h)
  · by_cases e : x = .poses
    · subst e; exact .inr ⟨v, h⟩
    · exact .inl (.inr (.inl ⟨x, v, e, h⟩))
  · exact .inl (.inr (.inr h))

/-- A method that only allocates: the object afterwards refers to what it referred to before and to new storages; if all its tensors were on
its device, they still are. -/
structure Grows (m : Mem α) (o : Obj) (m' : Mem α) (o' : Obj) : Prop where
  ext : Ext m m'
  own : ∀ r, Holds o' r → Holds o r ∨ (m.next ≤ r ∧ r < m'.next)
  dev : o'.dev = o.dev
  uni : Ok m o → Uni m o → Uni m' o'
  poses : o'.opt .poses = o.opt .poses
  rest : ∀ r, Rest o' r → Rest o r ∨ (m.next ≤ r ∧ r < m'.next)

theorem Grows.rfl {m : Mem α} {o : Obj} : Grows m o m o := ⟨.rfl, fun _ h => .inl h, Eq.refl _, fun _ h => h, Eq.refl _, fun _ h => .inl h⟩
theorem Grows.ok {m m' : Mem α} {o o' : Obj} (g : Grows m o m' o') (h : Ok m o) : Ok m' o' := fun r hr => by
  rcases g.own r hr with k | k
  · exact (h r k).trans_le g.ext.next
  · exact k.2
theorem Grows.trans {m m1 m2 : Mem α} {o o1 o2 : Obj} (g : Grows m o m1 o1) (k : Grows m1 o1 m2 o2) : Grows m o m2 o2 := by
  refine ⟨g.ext.trans k.ext, fun r hr => ?_, k.dev.trans g.dev, fun h u => k.uni (g.ok h) (g.uni h u), k.poses.trans g.poses, fun r hr => ?_⟩
  · rcases k.own r hr with a | a
    · rcases g.own r a with b | b
      · exact .inl b
      · exact .inr ⟨b.1, b.2.trans_le k.ext.next⟩
    · exact .inr ⟨g.ext.next.trans a.1, a.2⟩
  · rcases k.rest r hr with a | a
    · rcases g.rest r a with b | b
      · exact .inl b
      · exact .inr ⟨b.1, b.2.trans_le k.ext.next⟩
    · exact .inr ⟨g.ext.next.trans a.1, a.2⟩

/-! ### Passing on -/

/-- Passing on stays within the storage. -/
def Pass.Stays (p : Pass α) : Prop := ∀ v, (p.view v).ref = v.ref

theorem stays_clone : (Pass.clone : Pass α).Stays := fun _ => rfl
theorem stays_to (d : Dev) : (Pass.to d : Pass α).Stays := fun _ => rfl
theorem stays_detach : (Pass.detach : Pass α).Stays := fun _ => rfl
theorem stays_same : (Pass.same : Pass α).Stays := fun _ => rfl
theorem stays_index (c : Bool) (op : Op) : (Pass.index c op : Pass α).Stays := fun _ => rfl
theorem stays_permute (c : View → Bool) (op : Op) : (Pass.permute c op : Pass α).Stays := fun _ => rfl

/-- What one tensor becomes. -/
structure Became (p : Pass α) (m m' : Mem α) (v v' : View) : Prop where
  read : m'.read v' = m.read (p.view v)
  kept : p.keep (m.cell v.ref) v = true → v' = p.view v
  copied : p.keep (m.cell v.ref) v = false → m.next ≤ v'.ref ∧ v'.ref < m'.next ∧ v'.ops = []
  dev : m'.dev v' = if p.keep (m.cell v.ref) v then m.dev v else p.dev (m.cell v.ref)

theorem Became.own {p : Pass α} {m m' : Mem α} {v v' : View} (h : Became p m m' v v') (hp : p.Stays) :
    v'.ref = v.ref ∨ (m.next ≤ v'.ref ∧ v'.ref < m'.next) := by
  rcases hk : p.keep (m.cell v.ref) v with _ | _
  · exact .inr ⟨(h.copied hk).1, (h.copied hk).2.1⟩
  · exact .inl (by rw [h.kept hk, hp])

theorem became_one {p : Pass α} (hp : p.Stays) {m : Mem α} {k i : Nat} {f : Nat → Cell α} {v : View} (hv : v.ref < m.next) (hi : i < k)
    (hf : f i = p.cell m v) : Became p m (m.alloc k f) v (p.one m (m.next + i) v) := by
  have e := Ext.alloc m k f
  rcases hk : p.keep (m.cell v.ref) v with _ | _
  · refine ⟨?_, fun h => by rw [hk] at h; simp at h, fun _ => ?_, ?_⟩
    · simp only [Pass.one, hk, Bool.false_eq_true, if_false, Mem.read, alloc_cell, hf, Pass.cell, List.foldl_nil]
    · simp only [Pass.one, hk, Bool.false_eq_true, if_false, alloc_next]
      exact ⟨by omega, by omega, trivial⟩
    · simp only [Pass.one, hk, Bool.false_eq_true, if_false, Mem.dev, alloc_cell, hf, Pass.cell]
  · refine ⟨?_, fun _ => ?_, fun h => by rw [hk] at h; simp at h, ?_⟩
    · simp only [Pass.one, hk, if_true]
      exact e.read (by rw [hp]; exact hv)
    · simp only [Pass.one, hk, if_true]
    · simp only [Pass.one, hk, if_true]
      have : (p.view v).ref < m.next := by rw [hp]; exact hv
      rw [e.dev this]
      simp only [Mem.dev, hp v]

theorem passAll_ext (pb : Base → Pass α) (po : Opt → Pass α) (m : Mem α) (o : Obj) : Ext m (passAll pb po m o).1 := Ext.alloc m 9 (copies pb po m o)

theorem passAll_base {pb : Base → Pass α} {po : Opt → Pass α} {m : Mem α} {o : Obj} (hb : ∀ b, (pb b).Stays) (h : Ok m o) (b : Base) :
    Became (pb b) m (passAll pb po m o).1 (o.base b) ((passAll pb po m o).2.1 b) := by
  refine became_one (p := pb b) (k := 9) (i := b.idx) (f := copies pb po m o) (hb b) (h.base b) (by cases b <;> decide) ?_
  rcases b with _ | _ | _ <;> rfl

theorem passAll_opt {pb : Base → Pass α} {po : Opt → Pass α} {m : Mem α} {o : Obj} (ho : ∀ x, (po x).Stays) (h : Ok m o) (x : Opt) :
    (o.opt x = none ∧ (passAll pb po m o).2.2 x = none) ∨
    ∃ v v', o.opt x = some v ∧ (passAll pb po m o).2.2 x = some v' ∧ Became (po x) m (passAll pb po m o).1 v v' := by
  rcases hx : o.opt x with _ | v
  · exact .inl ⟨rfl, by simp [passAll, hx]⟩
  · refine .inr ⟨v, _, rfl, by simp only [passAll, hx, Option.map_some]; rfl, ?_⟩
    refine became_one (p := po x) (k := 9) (i := x.idx) (f := copies pb po m o) (ho x) (h.opt hx) (by cases x <;> decide) ?_
    rcases x with _ | _ | _ | _ | _ | _ <;> simp only [Opt.idx, copies, hx, Option.getD_some]

/-- The values after passing on. -/
theorem passAll_reads {pb : Base → Pass α} {po : Opt → Pass α} {m : Mem α} {o : Obj} (hb : ∀ b, (pb b).Stays) (ho : ∀ x, (po x).Stays) (h : Ok m o) :
    (∀ b, (passAll pb po m o).1.read ((passAll pb po m o).2.1 b) = m.read ((pb b).view (o.base b))) ∧
    ∀ {β : Type _} (x : Opt) (g : Cont α → β), (((passAll pb po m o).2.2 x).map fun v => g ((passAll pb po m o).1.read v)) =
      (o.opt x).map fun v => g (m.read ((po x).view v)) := by
  refine ⟨fun b => (passAll_base hb h b).read, fun x g => ?_⟩
  rcases passAll_opt (pb := pb) ho h x with ⟨h1, h2⟩ | ⟨v, v', h1, h2, h3⟩
  · rw [h1, h2]; rfl
  · rw [h1, h2]; simp only [Option.map_some, h3.read]

/-! ### Getters -/
section getters
variable [Field α] [LinearOrder α]

theorem holds_opt (o : Obj) (g : Opt → Option View) (x : Opt) (v : View) (r : Nat)
    (hg : ∀ y, y ≠ x → g y = o.opt y ∨ g y = none) (hx : g x = some v) (h : Holds { o with opt := g } r) : Holds o r ∨ v.ref = r := by
  rcases h with h | ⟨y, w, hy, hr⟩ | h
  · exact .inl (.inl h)
  · by_cases hyx : y = x
    · subst hyx
      simp only at hy
      rw [hx] at hy
      simp only [Option.some.injEq] at hy
      subst hy
      exact .inr hr
    · rcases hg y hyx with k | k
      · exact .inl (.inr (.inl ⟨y, w, by rw [← k]; exact hy, hr⟩))
      · simp only at hy; rw [k] at hy; simp at hy
  · exact .inl (.inr (.inr h))

theorem store_grows (x : Opt) (d : Dev) (t : Rgbd.T5 α) (m : Mem α) (o : Obj) (hd : Uni m o → d = o.dev) (hx : x ≠ .poses := by simp) :
    Grows m o (store x d t m o).1 (store x d t m o).2 := by
  have key : ∀ r, Holds (store x d t m o).2 r → Holds o r ∨ m.next = r := fun r hr =>
    holds_opt o _ x ⟨m.next, []⟩ r (fun y hy => .inl (Function.update_of_ne hy _ _)) (Function.update_self _ _ _) hr
  refine ⟨fresh_ext m _ _, fun r hr => ?_, rfl, fun h u r hr => ?_, Function.update_of_ne hx.symm _ _, fun r hr => ?_⟩
  · rcases key r hr with k | k
    · exact .inl k
    · exact .inr ⟨k.le, by rw [← k]; exact Nat.lt_succ_self _⟩
  rotate_left
  · rcases hr with k | ⟨y, v, hy, h1, h2⟩ | k
    · exact .inl (.inl k)
    · by_cases e : y = x
      · subst e
        simp only [store, Function.update_self, Option.some.injEq] at h1
        subst h1
        rw [← h2]
        exact .inr ⟨le_rfl, Nat.lt_succ_self _⟩
      · simp only [store, Function.update_of_ne e] at h1
        exact .inl (.inr (.inl ⟨y, v, hy, h1, h2⟩))
    · exact .inl (.inr (.inr k))
  · rcases key r hr with k | k
    · exact ((congrArg Cell.dev ((fresh_ext m d (.ofImg t)).cell r (h r k)))).trans (u r k)
    · subst k
      exact (congrArg Cell.dev (fresh_cell m d (.ofImg t))).trans (hd u)

/-- The value after storing `c` in field `x`. -/
def withOpt (s : Rgbd.Obj α) (x : Opt) (t : Rgbd.T5 α) : Rgbd.Obj α :=
  match x with
  | .poses => s
  | .pix => { s with pix := some t }
  | .vertex => { s with vertex := some t }
  | .normal => { s with normal := some t }
  | .gvertex => { s with gvertex := some t }
  | .gnormal => { s with gnormal := some t }

theorem store_val {x : Opt} (hx : x ≠ .poses) (d : Dev) (t : Rgbd.T5 α) {m : Mem α} {o : Obj} (h : Ok m o) :
    val (store x d t m o).1 (store x d t m o).2 = withOpt (val m o) x t := by
  have hv := val_ext h (fresh_ext m d (.ofImg t))
  have hr := fresh_read m d (.ofImg t)
  rw [← hv]
  unfold store
  simp only [fresh_view]
  generalize (m.fresh d (.ofImg t)).1 = m1 at hr
  rcases x with _ | _ | _ | _ | _ | _
  · exact absurd rfl hx
  all_goals
    simp only [val, withOpt, Function.update]
    simp
    rw [hr]
    rfl

theorem getValid_grows (m : Mem α) (o : Obj) : Grows m o (getValid m o).2.1 (getValid m o).2.2 := by
  unfold getValid
  rcases hv : o.valid with _ | v
  · simp only
    generalize hc : Cont.ofBit (α := α) _ = c
    have key : ∀ r, Holds { o with valid := some (⟨m.next, []⟩ : View) } r → Holds o r ∨ m.next = r := by
      rintro r (h | h | ⟨v, h, e⟩)
      · exact .inl (.inl h)
      · exact .inl (.inr (.inl h))
      · simp only [Option.some.injEq] at h
        subst h; exact .inr e
    refine ⟨fresh_ext m _ _, fun r hr => ?_, rfl, fun h u r hr => ?_, rfl, fun r hr => ?_⟩
    · rcases key r hr with k | k
      · exact .inl k
      · exact .inr ⟨k.le, by rw [← k]; exact Nat.lt_succ_self _⟩
    rotate_left
    · rcases hr with k | k | ⟨v, h1, h2⟩
      · exact .inl (.inl k)
      · exact .inl (.inr (.inl k))
      · simp only [Option.some.injEq] at h1
        subst h1
        rw [← h2]
        exact .inr ⟨le_rfl, Nat.lt_succ_self _⟩
    · rcases key r hr with k | k
      · rw [(fresh_ext m _ _).cell r (h r k)]; exact u r k
      · subst k
        rw [fresh_cell]
        exact u.base .depth
  · exact .rfl

theorem getValid_val {m : Mem α} {o : Obj} (h : Ok m o) :
    Rgbd.getValid (val m o) = (((getValid m o).2.1.read (getValid m o).1).bit, val (getValid m o).2.1 (getValid m o).2.2) ∧
    (getValid m o).2.2.valid = some (getValid m o).1 := by
  unfold getValid Rgbd.getValid
  rcases hv : o.valid with _ | v
  · have e : (val m o).valid = none := by simp [val, hv]
    rw [e]
    refine ⟨?_, rfl⟩
    simp only
    have hm : (⟨(val m o).depth.sh, fun i j k l n => decide ((val m o).depth.at' i j k l n > 0)⟩ : Rgbd.T5 Bool) =
      maskOf (m.read (o.base .depth)).img := rfl
    rw [hm]
    generalize maskOf (m.read (o.base .depth)).img = t
    have hx := val_ext h (fresh_ext m (m.dev (o.base .depth)) (.ofBit t))
    have hr := fresh_read m (m.dev (o.base .depth)) (.ofBit t)
    rw [fresh_view, hr]
    refine Prod.ext rfl ?_
    rw [← hx]
    simp only [val, Option.map_some, hr]
    rfl
  · have e : (val m o).valid = some (m.read v).bit := by simp [val, hv]
    rw [e]
    exact ⟨rfl, hv⟩
end getters
end
end Verif.RMem
