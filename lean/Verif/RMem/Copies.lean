import Verif.RMem.Getters
/-! Construction, setters, copies, devices, layouts and indexing: what is shared, what is new, and what they are on values. -/
namespace Verif.RMem
open Verif
set_option linter.unusedSectionVars false

section
variable {α : Type*}

theorem Became.lt {p : Pass α} {m m' : Mem α} {v v' : View} (h : Became p m m' v v') (hp : p.Stays) (hv : v.ref < m.next) (e : Ext m m') :
    v'.ref < m'.next := by
  rcases h.own hp with k | k
  · rw [k]; exact hv.trans_le e.next
  · exact k.2

theorem Became.mono {p : Pass α} {m m' m2 : Mem α} {v v' : View} (h : Became p m m' v v') (hl : v'.ref < m'.next) (e : Ext m' m2) :
    Became p m m2 v v' :=
  ⟨(e.read hl).trans h.read, h.kept, fun k => ⟨(h.copied k).1, (h.copied k).2.1.trans_le e.next, (h.copied k).2.2⟩, (e.dev hl).trans h.dev⟩

/-- The object `c` has the nine internal tensors of `o`, each passed on in its way, and no mask. -/
structure Passed (pb : Base → Pass α) (po : Opt → Pass α) (m : Mem α) (o : Obj) (m' : Mem α) (c : Obj) : Prop where
  ext : Ext m m'
  base : ∀ b, Became (pb b) m m' (o.base b) (c.base b)
  opt : ∀ x, (o.opt x = none ∧ c.opt x = none) ∨ ∃ v v', o.opt x = some v ∧ c.opt x = some v' ∧ Became (po x) m m' v v'
  valid : c.valid = none

theorem Passed.opt_some {pb : Base → Pass α} {po : Opt → Pass α} {m m' : Mem α} {o c : Obj} (h : Passed pb po m o m' c) {x : Opt} {v : View}
    (hv : o.opt x = some v) : ∃ v', c.opt x = some v' ∧ Became (po x) m m' v v' := by
  rcases h.opt x with ⟨k, _⟩ | ⟨w, v', h1, h2, h3⟩
  · rw [hv] at k; simp at k
  · rw [hv] at h1; simp only [Option.some.injEq] at h1; subst h1
    exact ⟨v', h2, h3⟩

theorem Passed.opt_of {pb : Base → Pass α} {po : Opt → Pass α} {m m' : Mem α} {o c : Obj} (h : Passed pb po m o m' c) {x : Opt} {v' : View}
    (hv : c.opt x = some v') : ∃ v, o.opt x = some v ∧ Became (po x) m m' v v' := by
  rcases h.opt x with ⟨_, k⟩ | ⟨w, v1, h1, h2, h3⟩
  · rw [hv] at k; simp at k
  · rw [hv] at h2; simp only [Option.some.injEq] at h2; subst h2
    exact ⟨w, h1, h3⟩

/-- The tensor is kept. -/
def Kept (pb : Base → Pass α) (po : Opt → Pass α) (m : Mem α) (o : Obj) (r : Nat) : Prop :=
  (∃ b, (o.base b).ref = r ∧ (pb b).keep (m.cell r) (o.base b) = true) ∨ ∃ x v, o.opt x = some v ∧ v.ref = r ∧ (po x).keep (m.cell r) v = true

/-- The storages of the result: kept ones and new ones. -/
theorem Passed.own {pb : Base → Pass α} {po : Opt → Pass α} {m m' : Mem α} {o c : Obj} (h : Passed pb po m o m' c) (hb : ∀ b, (pb b).Stays)
    (ho : ∀ x, (po x).Stays) (r : Nat) (hr : Holds c r) : Kept pb po m o r ∨ (m.next ≤ r ∧ r < m'.next) := by
  rcases hr with ⟨b, rfl⟩ | ⟨x, v', hx, rfl⟩ | ⟨v, hv, _⟩
  · have k := h.base b
    rcases hk : (pb b).keep (m.cell (o.base b).ref) (o.base b) with _ | _
    · exact .inr ⟨(k.copied hk).1, (k.copied hk).2.1⟩
    · have e : (c.base b).ref = (o.base b).ref := by rw [k.kept hk, hb]
      exact .inl (.inl ⟨b, e.symm, by rw [e]; exact hk⟩)
  · obtain ⟨v, hv, k⟩ := h.opt_of hx
    rcases hk : (po x).keep (m.cell v.ref) v with _ | _
    · exact .inr ⟨(k.copied hk).1, (k.copied hk).2.1⟩
    · have e : v'.ref = v.ref := by rw [k.kept hk, ho]
      exact .inl (.inr ⟨x, v, hv, e.symm, by rw [e]; exact hk⟩)
  · rw [h.valid] at hv; simp at hv

theorem Kept.holds {pb : Base → Pass α} {po : Opt → Pass α} {m : Mem α} {o : Obj} {r : Nat} (h : Kept pb po m o r) : Holds o r := by
  rcases h with ⟨b, e, _⟩ | ⟨x, v, hv, e, _⟩
  · exact .inl ⟨b, e⟩
  · exact .inr (.inl ⟨x, v, hv, e⟩)

theorem Passed.mono {pb : Base → Pass α} {po : Opt → Pass α} {m m' m2 : Mem α} {o c : Obj} (h : Passed pb po m o m' c) (hb : ∀ b, (pb b).Stays)
    (ho : ∀ x, (po x).Stays) (hok : Ok m o) (e : Ext m' m2) : Passed pb po m o m2 c := by
  refine ⟨h.ext.trans e, fun b => (h.base b).mono ((h.base b).lt (hb b) (hok.base b) h.ext) e, fun x => ?_, h.valid⟩
  rcases h.opt x with k | ⟨v, v', h1, h2, h3⟩
  · exact .inl k
  · exact .inr ⟨v, v', h1, h2, h3.mono (h3.lt (ho x) (hok.opt h1) h.ext) e⟩

/-- What the result contains. -/
theorem Passed.reads {pb : Base → Pass α} {po : Opt → Pass α} {m m' : Mem α} {o c : Obj} (h : Passed pb po m o m' c) {β : Type*} (x : Opt)
    (g : Cont α → β) : ((c.opt x).map fun v => g (m'.read v)) = (o.opt x).map fun v => g (m.read ((po x).view v)) := by
  rcases h.opt x with ⟨h1, h2⟩ | ⟨v, v', h1, h2, h3⟩
  · rw [h1, h2]; rfl
  · rw [h1, h2]; simp only [Option.map_some, h3.read]

theorem passAll_passed {pb : Base → Pass α} {po : Opt → Pass α} {m : Mem α} {o c : Obj} (hb : ∀ b, (pb b).Stays) (ho : ∀ x, (po x).Stays) (h : Ok m o)
    (h1 : c.base = (passAll pb po m o).2.1) (h2 : c.opt = (passAll pb po m o).2.2) (h3 : c.valid = none) : Passed pb po m o (passAll pb po m o).1 c :=
  ⟨passAll_ext _ _ _ _, fun b => by rw [h1]; exact passAll_base hb h b, fun x => by rw [h2]; exact passAll_opt ho h x, h3⟩

/-! ### Construction -/

/-- What `Rgbd.new` returns. -/
theorem new_ok {rgb depth : Rgbd.T5 α} {K : Rgbd.TM α} {poses : Option (Rgbd.TM α)} {cf : Bool} {pix : Option (Rgbd.T5 α)} {s : Rgbd.Obj α}
    (h : Rgbd.new rgb depth K poses cf pix = .ok s) :
    s = ⟨cf, rgb, depth, K, poses, pix, none, none, none, none, none, rgb.sh, none, rgb.sh.d0, rgb.sh.d1,
      if cf then rgb.sh.d3 else rgb.sh.d2, if cf then rgb.sh.d4 else rgb.sh.d3⟩ := by
  unfold Rgbd.new at h
  split_ifs at h
  all_goals
    simp only [Except.ok.injEq] at h
    rw [← h]
    simp [*]

/-- The storages of the arguments. -/
def Args.Refs (a : Args) (r : Nat) : Prop := (∃ b, (a.base b).ref = r) ∨ ∃ x v, a.opt x = some v ∧ v.ref = r

theorem of_holds (s : Rgbd.Obj α) (b : Base → View) (x : Opt → Option View) (d : Dev) (r : Nat) :
    Holds (Obj.of s b x d) r ↔ (∃ c, (b c).ref = r) ∨ ∃ y v, x y = some v ∧ v.ref = r := by
  constructor
  · rintro (h | h | ⟨v, h, _⟩)
    · exact .inl h
    · exact .inr h
    · simp [Obj.of] at h
  · rintro (h | h)
    · exact .inl h
    · exact .inr (.inl h)

theorem okOpt_iff {β : Type*} (o : Option β) (p : β → Bool) : Pcs.okOpt o p = true ↔ ∀ x, o = some x → p x = true := by
  rcases o with _ | x
  · simp [Pcs.okOpt]
  · simp [Pcs.okOpt]

theorem oneDevice_iff (m : Mem α) (a : Args) :
    a.oneDevice m = true ↔ (∀ b, m.dev (a.base b) = m.dev a.rgb) ∧ ∀ x v, a.opt x = some v → m.dev v = m.dev a.rgb := by
  simp only [Args.oneDevice, Bool.and_eq_true, decide_eq_true_eq, okOpt_iff]
  constructor
  · rintro ⟨⟨⟨h1, h2⟩, h3⟩, h4⟩
    refine ⟨fun b => ?_, fun x v hv => ?_⟩
    · rcases b with _ | _ | _
      · rfl
      · exact h1
      · exact h2
    · rcases x with _ | _ | _ | _ | _ | _
      · exact h3 v hv
      · exact h4 v hv
      all_goals exact absurd hv (by simp [Args.opt])
  · rintro ⟨h1, h2⟩
    exact ⟨⟨⟨h1 .depth, h1 .intrinsics⟩, fun v hv => h2 .poses v hv⟩, fun v hv => h2 .pix v hv⟩

/-- The values given to the constructor. -/
def newVal (m : Mem α) (a : Args) (cf : Bool) : Except Rgbd.Err (Rgbd.Obj α) :=
  Rgbd.new (m.read a.rgb).img (m.read a.depth).img (m.read a.K).mat (a.poses.map fun v => (m.read v).mat) cf (a.pix.map fun v => (m.read v).img)

/-- The constructor: it fails for the values, or because of the devices, or returns an object that has its arguments – themselves if they are on
the device asked for, copies on that device otherwise –, and nothing else. -/
theorem new_sim {m : Mem α} {a : Args} (cf : Bool) (d : Option Dev) (h : ∀ r, a.Refs r → r < m.next) :
    (∃ e, newVal m a cf = .error e ∧ new m a cf d = (.error e, m)) ∨
    (a.oneDevice m = false ∧ (∃ s, newVal m a cf = .ok s) ∧ new m a cf d = (.error .valueError, m)) ∨
    (a.oneDevice m = true ∧ ∃ s c m', newVal m a cf = .ok s ∧ new m a cf d = (.ok c, m') ∧ val m' c = s ∧ c.dev = d.getD (m.dev a.rgb) ∧
      Passed (fun _ => Pass.to c.dev) (fun _ => Pass.to c.dev) m (Obj.of s a.base a.opt c.dev) m' c) := by
  unfold new
  rcases hs : Rgbd.new (m.read a.rgb).img (m.read a.depth).img (m.read a.K).mat (a.poses.map fun v => (m.read v).mat) cf
      (a.pix.map fun v => (m.read v).img) with e | s
  · exact .inl ⟨e, hs, rfl⟩
  · rcases ho : a.oneDevice m with _ | _
    · exact .inr (.inl ⟨rfl, ⟨s, hs⟩, by simp⟩)
    · refine .inr (.inr ⟨rfl, s, _, _, hs, by simp only [Bool.not_true, Bool.false_eq_true, if_false]; exact rfl, ?_, rfl, ?_⟩)
      · have hok : Ok m (Obj.of s a.base a.opt (d.getD (m.dev a.rgb))) := fun r hr => h r ((of_holds _ _ _ _ r).1 hr)
        obtain ⟨r1, r2⟩ := passAll_reads (fun _ => stays_to (d.getD (m.dev a.rgb))) (fun _ => stays_to (d.getD (m.dev a.rgb))) hok
        have e := new_ok hs
        have q1 := r1 .rgb
        have q2 := r1 .depth
        have q3 := r1 .intrinsics
        have q4 := r2 .poses (·.mat)
        have q5 := r2 .pix (·.img)
        have q6 := r2 .vertex (·.img)
        have q7 := r2 .normal (·.img)
        have q8 := r2 .gvertex (·.img)
        have q9 := r2 .gnormal (·.img)
        simp only [Pass.to, id_eq] at q1 q2 q3 q4 q5 q6 q7 q8 q9
        simp only [val, Obj.of, Pass.to] at q1 q2 q3 q4 q5 q6 q7 q8 q9 ⊢
        rw [q1, q2, q3, q4, q5, q6, q7, q8, q9, e]
        rfl
      · exact passAll_passed (fun _ => stays_to _) (fun _ => stays_to _) (fun r hr => h r ((of_holds _ _ _ _ r).1 hr)) rfl rfl rfl

/-- `to(d)` of tensors that are on `d`: nothing happens. -/
theorem Became.to_kept {m m' : Mem α} {v v' : View} {d : Dev} (h : Became (Pass.to d) m m' v v') (hd : m.dev v = d) : v' = v :=
  h.kept (by simpa [Pass.to, Mem.dev] using hd)

/-- After `to(d)` the tensor is on `d`. -/
theorem Became.to_dev {m m' : Mem α} {v v' : View} {d : Dev} (h : Became (Pass.to d) m m' v v') : m'.dev v' = d := by
  rw [h.dev]
  split_ifs with k
  · simpa [Pass.to, Mem.dev] using k
  · rfl

/-! ### Rebuilding -/

/-- The three images are on one device. -/
def Together (m : Mem α) (b : Base → View) : Prop := m.dev (b .depth) = m.dev (b .rgb) ∧ m.dev (b .intrinsics) = m.dev (b .rgb)

/-- `rebuild`: a new object around the tensors passed on. -/
theorem rebuild_sim {p : Mem α × (Base → View) × (Opt → Option View)} (cf : Bool) (h : ∀ b, (p.2.1 b).ref < p.1.next) :
    (∃ e, Rgbd.new (p.1.read (p.2.1 .rgb)).img (p.1.read (p.2.1 .depth)).img (p.1.read (p.2.1 .intrinsics)).mat none cf none = .error e ∧
      rebuild p cf = (.error e, p.1)) ∨
    (¬Together p.1 p.2.1 ∧ (∃ s, Rgbd.new (p.1.read (p.2.1 .rgb)).img (p.1.read (p.2.1 .depth)).img (p.1.read (p.2.1 .intrinsics)).mat none cf none = .ok s) ∧
      rebuild p cf = (.error .valueError, p.1)) ∨
    (Together p.1 p.2.1 ∧ ∃ s c m', Rgbd.new (p.1.read (p.2.1 .rgb)).img (p.1.read (p.2.1 .depth)).img (p.1.read (p.2.1 .intrinsics)).mat none cf none = .ok s ∧
      rebuild p cf = (.ok c, m') ∧ Ext p.1 m' ∧ c = Obj.of s p.2.1 p.2.2 (p.1.dev (p.2.1 .rgb))) := by
  have ha : ∀ r, (⟨p.2.1 .rgb, p.2.1 .depth, p.2.1 .intrinsics, none, none⟩ : Args).Refs r → r < p.1.next := by
    rintro r (⟨b, rfl⟩ | ⟨x, v, hv, _⟩)
    · rcases b with _ | _ | _
      · exact h .rgb
      · exact h .depth
      · exact h .intrinsics
    · rcases x with _ | _ | _ | _ | _ | _ <;> simp [Args.opt] at hv
  have ht : (⟨p.2.1 .rgb, p.2.1 .depth, p.2.1 .intrinsics, none, none⟩ : Args).oneDevice p.1 = true ↔ Together p.1 p.2.1 := by
    simp [Args.oneDevice, Pcs.okOpt, Together]
  unfold rebuild
  rcases new_sim cf none ha with ⟨e, h1, h2⟩ | ⟨h1, ⟨s, h2⟩, h3⟩ | ⟨h1, s, c, m', h2, h3, h4, h5, h6⟩
  · exact .inl ⟨e, h1, by rw [h2]⟩
  · exact .inr (.inl ⟨fun k => by rw [ht.2 k] at h1; simp at h1, ⟨s, h2⟩, by rw [h3]⟩)
  · refine .inr (.inr ⟨ht.1 h1, s, _, m', h2, by rw [h3], h6.ext, ?_⟩)
    have hd : c.dev = p.1.dev (p.2.1 .rgb) := by rw [h5]; rfl
    have hb : c.base = p.2.1 := by
      funext b
      have k := (h6.base b).to_kept (show p.1.dev _ = _ by
        rw [hd]
        obtain ⟨t1, t2⟩ := ht.1 h1
        rcases b with _ | _ | _
        · rfl
        · exact t1
        · exact t2)
      rw [k]
      rcases b with _ | _ | _ <;> rfl
    have hv := h6.valid
    have e : c = ⟨c.base, c.opt, c.valid, (val m' c).cf, (val m' c).rgbShape, (val m' c).depthImageShape, (val m' c).B, (val m' c).L, (val m' c).H,
      (val m' c).W, c.dev⟩ := rfl
    rw [e, hb, hv, h4, hd]
    rfl

/-- What a copying method returns: it fails as its counterpart on values does, or because the three images are not on one device, or it returns an
object with the value of its counterpart, made of the tensors of `o` passed on. -/
def Copied (vr : Except Rgbd.Err (Rgbd.Obj α)) (pb : Base → Pass α) (po : Opt → Pass α) (m : Mem α) (o : Obj) (r : Except Rgbd.Err Obj × Mem α) : Prop :=
  Ext m r.2 ∧
  ((∃ e, vr = .error e ∧ r.1 = .error e) ∨
   (¬Together m o.base ∧ (∃ s, vr = .ok s) ∧ r.1 = .error .valueError) ∨
   (Together m o.base ∧ ∃ c, r.1 = .ok c ∧ vr = .ok (val r.2 c) ∧ Passed pb po m o r.2 c))

/-- Passing on keeps each image on its device. -/
def Pass.Local (p : Pass α) : Prop := ∀ c, p.dev c = c.dev

theorem Became.local {p : Pass α} {m m' : Mem α} {v v' : View} (h : Became p m m' v v') (hl : p.Local) : m'.dev v' = m.dev v := by
  rw [h.dev]
  split_ifs
  · rfl
  · exact hl _

/-- Rebuilding from tensors passed on, each image staying on its device. -/
theorem rebuild_passed {pb : Base → Pass α} {po : Opt → Pass α} {m : Mem α} {o : Obj} (hb : ∀ b, (pb b).Stays) (ho : ∀ x, (po x).Stays)
    (hl : ∀ b, (pb b).Local) (h : Ok m o) (cf : Bool) :
    let new := Rgbd.new (m.read ((pb .rgb).view (o.base .rgb))).img (m.read ((pb .depth).view (o.base .depth))).img
      (m.read ((pb .intrinsics).view (o.base .intrinsics))).mat none cf none
    let r := rebuild (passAll pb po m o) cf
    Ext m r.2 ∧ ((∃ e, new = .error e ∧ r.1 = .error e) ∨ (¬Together m o.base ∧ (∃ s, new = .ok s) ∧ r.1 = .error .valueError) ∨
      (Together m o.base ∧ ∃ s c, new = .ok s ∧ r.1 = .ok c ∧ Passed pb po m o r.2 c ∧ c.dev = m.dev (o.base .rgb) ∧
        val r.2 c = { s with poses := (o.opt .poses).map fun v => (m.read ((po .poses).view v)).mat,
                             pix := (o.opt .pix).map fun v => (m.read ((po .pix).view v)).img,
                             vertex := (o.opt .vertex).map fun v => (m.read ((po .vertex).view v)).img,
                             normal := (o.opt .normal).map fun v => (m.read ((po .normal).view v)).img,
                             gvertex := (o.opt .gvertex).map fun v => (m.read ((po .gvertex).view v)).img,
                             gnormal := (o.opt .gnormal).map fun v => (m.read ((po .gnormal).view v)).img })) := by
  intro new r
  have e0 := passAll_ext pb po m o
  have hB := fun b => passAll_base (po := po) hb h b
  have hr : ∀ b, (passAll pb po m o).1.read ((passAll pb po m o).2.1 b) = m.read ((pb b).view (o.base b)) := fun b => (hB b).read
  have hd : ∀ b, (passAll pb po m o).1.dev ((passAll pb po m o).2.1 b) = m.dev (o.base b) := fun b => (hB b).local (hl b)
  have ht : Together (passAll pb po m o).1 (passAll pb po m o).2.1 ↔ Together m o.base := by simp only [Together, hd]
  have hP : ∀ s d, Passed pb po m o (passAll pb po m o).1 (Obj.of (α := α) s (passAll pb po m o).2.1 (passAll pb po m o).2.2 d) :=
    fun s d => passAll_passed hb ho h rfl rfl rfl
  have hlt : ∀ b, ((passAll pb po m o).2.1 b).ref < (passAll pb po m o).1.next := fun b => (hB b).lt (hb b) (h.base b) e0
  rcases rebuild_sim cf hlt with ⟨e, h1, h2⟩ | ⟨h1, ⟨s, h2⟩, h3⟩ | ⟨h1, s, c, m', h2, h3, h4, h5⟩
  · rw [hr, hr, hr] at h1
    exact ⟨by simp only [r]; rw [h2]; exact e0, .inl ⟨e, h1, by simp only [r]; rw [h2]⟩⟩
  · rw [hr, hr, hr] at h2
    exact ⟨by simp only [r]; rw [h3]; exact e0, .inr (.inl ⟨fun k => h1 (ht.2 k), ⟨s, h2⟩, by simp only [r]; rw [h3]⟩)⟩
  · rw [hr, hr, hr] at h2
    have hp : Passed pb po m o m' c := by rw [h5]; exact (hP s _).mono hb ho h h4
    refine ⟨by simp only [r]; rw [h3]; exact e0.trans h4, .inr (.inr ⟨ht.1 h1, s, c, h2, by simp only [r]; rw [h3], by simp only [r]; rw [h3]; exact hp,
      by rw [h5]; exact hd .rgb, ?_⟩)⟩
    simp only [r]; rw [h3]
    have e := new_ok h2
    have q1 := (hp.base .rgb).read
    have q2 := (hp.base .depth).read
    have q3 := (hp.base .intrinsics).read
    have q4 := hp.reads .poses (·.mat)
    have q5 := hp.reads .pix (·.img)
    have q6 := hp.reads .vertex (·.img)
    have q7 := hp.reads .normal (·.img)
    have q8 := hp.reads .gvertex (·.img)
    have q9 := hp.reads .gnormal (·.img)
    have f1 : c.cf = s.cf := by rw [h5]; rfl
    have f2 : c.rgbShape = s.rgbShape := by rw [h5]; rfl
    have f3 : c.depthImageShape = s.depthImageShape := by rw [h5]; rfl
    have f4 : c.B = s.B := by rw [h5]; rfl
    have f5 : c.L = s.L := by rw [h5]; rfl
    have f6 : c.H = s.H := by rw [h5]; rfl
    have f7 : c.W = s.W := by rw [h5]; rfl
    unfold val
    rw [q1, q2, q3, q4, q5, q6, q7, q8, q9, hp.valid, f1, f2, f3, f4, f5, f6, f7, e]
    rfl

theorem clone_sim {m : Mem α} {o : Obj} (h : Ok m o) :
    Copied (Rgbd.clone (val m o)) (fun _ => Pass.clone) (fun _ => Pass.clone) m o (clone m o) := by
  have k := rebuild_passed (pb := fun _ => Pass.clone) (po := fun _ => Pass.clone) (fun _ => stays_clone) (fun _ => stays_clone) (fun _ _ => rfl) h o.cf
  obtain ⟨e, k⟩ := k
  refine ⟨e, ?_⟩
  unfold Rgbd.clone
  rcases k with ⟨e, h1, h2⟩ | ⟨h1, ⟨s, h2⟩, h3⟩ | ⟨h1, s, c, h2, h3, h4, h5, h6⟩
  · exact .inl ⟨e, by simp only [val, Pass.clone, id_eq] at h1 ⊢; rw [h1], h2⟩
  · exact .inr (.inl ⟨h1, by simp only [val, Pass.clone, id_eq] at h2 ⊢; rw [h2]; exact ⟨_, rfl⟩, h3⟩)
  · refine .inr (.inr ⟨h1, c, h3, ?_, h4⟩)
    unfold clone
    rw [h6]
    simp only [val, Pass.clone, id_eq] at h2 ⊢
    rw [h2]

theorem clone_dev {m : Mem α} {o c : Obj} (h : Ok m o) (hc : (clone m o).1 = .ok c) : c.dev = m.dev (o.base .rgb) := by
  have k := rebuild_passed (pb := fun _ => Pass.clone) (po := fun _ => Pass.clone) (fun _ => stays_clone) (fun _ => stays_clone) (fun _ _ => rfl) h o.cf
  obtain ⟨_, k⟩ := k
  unfold clone at hc
  rcases k with ⟨e, h1, h2⟩ | ⟨h1, ⟨s, h2⟩, h3⟩ | ⟨h1, s, c', h2, h3, h4, h5, h6⟩
  · rw [hc] at h2; simp at h2
  · rw [hc] at h3; simp at h3
  · rw [hc] at h3; simp only [Except.ok.injEq] at h3; rw [h3]; exact h5

/-- The object with all internal tensors replaced. -/
theorem val_replace {pb : Base → Pass α} {po : Opt → Pass α} {m m1 m2 : Mem α} {o c c2 : Obj} (h1 : Passed (fun _ => Pass.clone) (fun _ => Pass.clone) m o m1 c)
    (h2 : Passed pb po m1 o m2 c2) (hok : Ok m o) (hb : ∀ b v, (pb b).view v = v) (ho : ∀ x v, (po x).view v = v)
    (e1 : c2.cf = c.cf) (e2 : c2.rgbShape = c.rgbShape) (e3 : c2.depthImageShape = c.depthImageShape) (e4 : c2.B = c.B) (e5 : c2.L = c.L)
    (e6 : c2.H = c.H) (e7 : c2.W = c.W) : val m2 c2 = val m1 c := by
  have hx : ∀ {β : Type _} (x : Opt) (g : Cont α → β), ((c2.opt x).map fun v => g (m2.read v)) = (c.opt x).map fun v => g (m1.read v) := by
    intro β x g
    rw [h2.reads x g, h1.reads x g]
    rcases hv : o.opt x with _ | v
    · rfl
    · simp only [Option.map_some, ho, Pass.clone, id_eq, h1.ext.read (hok.opt hv)]
  have hy : ∀ b, m2.read (c2.base b) = m1.read (c.base b) := by
    intro b
    rw [(h2.base b).read, (h1.base b).read, hb]
    exact h1.ext.read (hok.base b)
  unfold val
  rw [hy, hy, hy, hx .poses (·.mat), hx .pix (·.img), hx .vertex (·.img), hx .normal (·.img), hx .gvertex (·.img), hx .gnormal (·.img),
    h1.valid, h2.valid, e1, e2, e3, e4, e5, e6, e7]
  rfl

/-- Seen from the memory before the clone. -/
theorem Passed.before {pb : Base → Pass α} {po : Opt → Pass α} {m m1 m2 : Mem α} {o c : Obj} (h : Passed pb po m1 o m2 c) (e : Ext m m1) (hok : Ok m o)
    (hb : ∀ b, (pb b).Stays) (ho : ∀ x, (po x).Stays) : Passed pb po m o m2 c := by
  have key : ∀ {p : Pass α} {v v' : View}, p.Stays → v.ref < m.next → Became p m1 m2 v v' → Became p m m2 v v' := by
    intro p v v' hp hv k
    have hc := e.cell _ hv
    exact ⟨k.read.trans (e.read (by rw [hp]; exact hv)), fun q => k.kept (by rw [hc]; exact q),
      fun q => ⟨e.next.trans (k.copied (by rw [hc]; exact q)).1, (k.copied (by rw [hc]; exact q)).2⟩,
      by rw [k.dev, hc, e.dev hv]⟩
  refine ⟨e.trans h.ext, fun b => key (hb b) (hok.base b) (h.base b), fun x => ?_, h.valid⟩
  rcases h.opt x with k | ⟨v, v', h1, h2, h3⟩
  · exact .inl k
  · exact .inr ⟨v, v', h1, h2, key (ho x) (hok.opt h1) h3⟩

theorem detach_sim {m : Mem α} {o : Obj} (h : Ok m o) :
    Copied (Rgbd.clone (val m o)) (fun _ => Pass.detach) (fun _ => Pass.detach) m o (detach m o) ∧
    ∀ c, (detach m o).1 = .ok c → c.dev = m.dev (o.base .rgb) := by
  obtain ⟨e, k⟩ := clone_sim h
  have hdv := fun c => clone_dev (c := c) h
  unfold detach Copied
  generalize clone m o = p at e k hdv ⊢
  rcases p with ⟨r, m1⟩
  simp only at e k hdv
  rcases k with ⟨er, h1, rfl⟩ | ⟨h1, h2, rfl⟩ | ⟨h1, c, rfl, h3, h4⟩
  · exact ⟨⟨e, .inl ⟨er, h1, rfl⟩⟩, fun c hc => by simp at hc⟩
  · exact ⟨⟨e, .inr (.inl ⟨h1, h2, rfl⟩)⟩, fun c hc => by simp at hc⟩
  · simp only
    have hp : Passed (fun _ => Pass.detach) (fun _ => Pass.detach) m1 o _ { c with base := _, opt := _ } :=
      passAll_passed (fun _ => stays_detach) (fun _ => stays_detach) (h.ext e) rfl rfl h4.valid
    refine ⟨⟨e.trans hp.ext, .inr (.inr ⟨h1, _, rfl, ?_, hp.before e h (fun _ => stays_detach) (fun _ => stays_detach)⟩)⟩, fun c' hc => ?_⟩
    · rw [h3, val_replace h4 hp h (fun _ _ => rfl) (fun _ _ => rfl) rfl rfl rfl rfl rfl rfl rfl]
    · simp only [Except.ok.injEq] at hc
      rw [← hc]
      exact hdv c rfl

/-- `to`: the object itself, or as described by `Copied` with every tensor moved. -/
theorem to_sim (cur : Nat) (a : DevArg) (copy : Bool) {m : Mem α} {o : Obj} (h : Ok m o) :
    (copy = false ∧ o.dev = a.meant cur ∧ toDevice cur a copy m o = (.ok .self, m)) ∨
    ((copy = true ∨ o.dev ≠ a.meant cur) ∧ ∃ r, Copied (Rgbd.clone (val m o)) (fun _ => Pass.to (a.meant cur)) (fun _ => Pass.to (a.meant cur)) m o r ∧
      toDevice cur a copy m o = (r.1.map Moved.new, r.2) ∧ ∀ c, r.1 = .ok c → c.dev = a.meant cur) := by
  obtain ⟨e, k⟩ := clone_sim h
  unfold toDevice
  simp only
  by_cases hc : (!copy && decide (o.dev = a.meant cur)) = true
  · rw [if_pos hc]
    simp only [Bool.and_eq_true, Bool.not_eq_true', decide_eq_true_eq] at hc
    exact .inl ⟨hc.1, hc.2, rfl⟩
  · rw [if_neg hc]
    refine .inr ⟨?_, ?_⟩
    · rcases copy with _ | _
      · exact .inr (by simpa using hc)
      · exact .inl rfl
    generalize clone m o = p at e k ⊢
    rcases p with ⟨r, m1⟩
    simp only at e k
    rcases k with ⟨er, h1, rfl⟩ | ⟨h1, h2, rfl⟩ | ⟨h1, c, rfl, h3, h4⟩
    · exact ⟨(.error er, m1), ⟨e, .inl ⟨er, h1, rfl⟩⟩, rfl, fun c hc => by simp at hc⟩
    · exact ⟨(.error .valueError, m1), ⟨e, .inr (.inl ⟨h1, h2, rfl⟩)⟩, rfl, fun c hc => by simp at hc⟩
    · have hp : Passed (fun _ => Pass.to (a.meant cur)) (fun _ => Pass.to (a.meant cur)) m1 o _ { c with base := _, opt := _, dev := a.meant cur } :=
        passAll_passed (fun _ => stays_to _) (fun _ => stays_to _) (h.ext e) rfl rfl h4.valid
      refine ⟨(.ok _, _), ⟨e.trans hp.ext, .inr (.inr ⟨h1, _, rfl, ?_, hp.before e h (fun _ => stays_to _) (fun _ => stays_to _)⟩)⟩, rfl, fun c' hc => ?_⟩
      · rw [h3, val_replace h4 hp h (fun _ _ => rfl) (fun _ _ => rfl) rfl rfl rfl rfl rfl rfl rfl]
      · simp only [Except.ok.injEq] at hc
        rw [← hc]

/-! ### Indexing -/

theorem read_step (m : Mem α) (v : View) (op : Op) : m.read (v.step op) = Op.app (m.read v) op := by
  simp only [Mem.read, View.step, List.foldl_append, List.foldl_cons, List.foldl_nil]

theorem getitem_sim (idx : Rgbd.Index) {m : Mem α} {o : Obj} (h : Ok m o) :
    (∃ e, Rgbd.getitem idx (val m o) = .error e ∧ getitem idx m o = (.error e, m)) ∨
    ∃ a b is js, Rgbd.twoIx idx = .ok (a, b) ∧ Rgbd.resolve o.B a = .ok is ∧ Rgbd.resolve o.L b = .ok js ∧
      Copied (Rgbd.getitem idx (val m o)) (indexBase a b is js) (fun _ => Pass.index (isList a || isList b) (.sel is js)) m o (getitem idx m o) ∧
      ∀ c, (getitem idx m o).1 = .ok c → c.dev = m.dev (o.base .rgb) := by
  unfold getitem Rgbd.getitem
  rcases h1 : Rgbd.twoIx idx with e | ⟨a, b⟩
  · exact .inl ⟨e, rfl, rfl⟩
  simp only
  rw [show (val m o).B = o.B from rfl, show (val m o).L = o.L from rfl]
  rcases h2 : Rgbd.resolve o.B a with e | is
  · exact .inl ⟨e, rfl, rfl⟩
  simp only
  rcases h3 : Rgbd.resolve o.L b with e | js
  · exact .inl ⟨e, rfl, rfl⟩
  simp only
  by_cases h4 : Rgbd.bothLists a b = true
  · rw [if_pos h4, if_pos h4]
    split_ifs <;> exact .inl ⟨_, rfl, rfl⟩
  rw [if_neg h4, if_neg h4]
  unfold Rgbd.selected
  by_cases h5 : is.length = 0
  · rw [if_pos h5, if_pos h5]; exact .inl ⟨_, rfl, rfl⟩
  rw [if_neg h5, if_neg h5]
  by_cases h6 : js.length = 0
  · rw [if_pos h6, if_pos h6]; exact .inl ⟨_, rfl, rfl⟩
  rw [if_neg h6, if_neg h6]
  refine .inr ⟨a, b, is, js, rfl, h2, h3, ?_⟩
  have hst : ∀ b', (indexBase (α := α) a b is js b').Stays := fun b' => by cases b' <;> exact stays_index _ _
  have hlo : ∀ b', (indexBase (α := α) a b is js b').Local := fun b' => by cases b' <;> exact fun _ => rfl
  obtain ⟨e, k⟩ := rebuild_passed (pb := indexBase a b is js) (po := fun _ => Pass.index (isList a || isList b) (.sel is js)) hst
    (fun _ => stays_index _ _) hlo h o.cf
  have r1 : (m.read ((indexBase (α := α) a b is js .rgb).view (o.base .rgb))).img = (val m o).rgb.sel is js := by
    simp only [indexBase, Pass.index, read_step, Op.app]; rfl
  have r2 : (m.read ((indexBase (α := α) a b is js .depth).view (o.base .depth))).img = (val m o).depth.sel is js := by
    simp only [indexBase, Pass.index, read_step, Op.app]; rfl
  have r3 : (m.read ((indexBase (α := α) a b is js .intrinsics).view (o.base .intrinsics))).mat = (val m o).K.sel0 is := by
    simp only [indexBase, Pass.index, read_step, Op.app]; rfl
  have r4 : ((o.opt .poses).map fun v => (m.read ((Pass.index (α := α) (isList a || isList b) (.sel is js)).view v)).mat) = (val m o).poses.map (Rgbd.TM.sel is js) := by
    simp only [val, Option.map_map]
    congr 1; funext v
    simp only [Pass.index, read_step, Op.app, Function.comp]
  have r5 : ∀ x, ((o.opt x).map fun v => (m.read ((Pass.index (α := α) (isList a || isList b) (.sel is js)).view v)).img) =
      ((o.opt x).map fun v => (m.read v).img).map (Rgbd.T5.sel is js) := by
    intro x
    rw [Option.map_map]
    congr 1; funext v
    simp only [Pass.index, read_step, Op.app, Function.comp]
  simp only [r1, r2, r3, r4, r5] at k
  have hcf : (val m o).cf = o.cf := rfl
  rw [hcf]
  rcases k with ⟨e1, h1, h2⟩ | ⟨h1, ⟨s, h2⟩, h3⟩ | ⟨h1, s, c, h2, h3, h4, h5, h6⟩
  · exact ⟨⟨e, .inl ⟨e1, by rw [h1], h2⟩⟩, fun c hc => by rw [hc] at h2; simp at h2⟩
  · exact ⟨⟨e, .inr (.inl ⟨h1, by rw [h2]; exact ⟨_, rfl⟩, h3⟩)⟩, fun c hc => by rw [hc] at h3; simp at h3⟩
  · refine ⟨⟨e, .inr (.inr ⟨h1, c, h3, ?_, h4⟩)⟩, fun c' hc => by rw [hc] at h3; simp only [Except.ok.injEq] at h3; rw [h3]; exact h5⟩
    rw [h6, h2]
    rfl
end
end Verif.RMem
