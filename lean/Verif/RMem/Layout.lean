import Verif.RMem.Copies
/-! Setters and changes of layout. -/
namespace Verif.RMem
open Verif
set_option linter.unusedSectionVars false

section
variable {α : Type*}

/-! ### Layouts -/

/-- The two permutations on values. -/
def permute (op : Op) (t : Rgbd.T5 α) : Rgbd.T5 α :=
  match op with
  | .last => Rgbd.perm01342 t
  | .first => Rgbd.perm01423 t
  | _ => t

theorem relayout_sim (ctg : View → Bool) {op : Op} (hop : op = .last ∨ op = .first) (cf : Bool) {m : Mem α} {o : Obj} (h : Ok m o) :
    Grows m o (relayout ctg op cf m o).1 (relayout ctg op cf m o).2 ∧
    val (relayout ctg op cf m o).1 (relayout ctg op cf m o).2 = { val m o with
      rgb := permute op (val m o).rgb, depth := permute op (val m o).depth, vertex := (val m o).vertex.map (permute op),
      gvertex := (val m o).gvertex.map (permute op), normal := (val m o).normal.map (permute op), gnormal := (val m o).gnormal.map (permute op),
      cf := cf, rgbShape := (permute op (val m o).rgb).sh, depthImageShape := some (permute op (val m o).depth).sh } := by
  have hb : ∀ b, (permBase (Pass.permute (α := α) ctg op) b).Stays := fun b => by cases b <;> first | exact stays_permute _ _ | exact stays_same
  have ho : ∀ x, (permOpt (Pass.permute (α := α) ctg op) x).Stays := fun x => by cases x <;> first | exact stays_permute _ _ | exact stays_same
  have lb : ∀ b, (permBase (Pass.permute (α := α) ctg op) b).Local := fun b => by cases b <;> exact fun _ => rfl
  have lo : ∀ x, (permOpt (Pass.permute (α := α) ctg op) x).Local := fun x => by cases x <;> exact fun _ => rfl
  have e := passAll_ext (permBase (Pass.permute ctg op)) (permOpt (Pass.permute ctg op)) m o
  have kb := fun b => passAll_base (po := permOpt (Pass.permute ctg op)) hb h b
  have ko := fun x => passAll_opt (pb := permBase (Pass.permute ctg op)) ho h x
  obtain ⟨r1, r2⟩ := passAll_reads hb ho h
  constructor
  · unfold relayout
    generalize passAll (permBase (Pass.permute ctg op)) (permOpt (Pass.permute ctg op)) m o = p at e kb ko
    have key : ∀ r, Holds o r → r < m.next := h
    have cases' : ∀ sh dsh r, Holds { o with base := p.2.1, opt := p.2.2, cf := cf, rgbShape := sh, depthImageShape := dsh } r →
        ∃ v q v', (q : Pass α).Stays ∧ q.Local ∧ Became q m p.1 v v' ∧ Holds o v.ref ∧ v'.ref = r ∨ Holds o r := by
      rintro sh dsh r (⟨b, rfl⟩ | ⟨x, v', hx, rfl⟩ | k)
      · exact ⟨_, _, _, .inl ⟨hb b, lb b, kb b, .inl ⟨b, rfl⟩, rfl⟩⟩
      · rcases ko x with ⟨_, k⟩ | ⟨v, v1, h1, h2, h3⟩
        · simp only at hx; rw [hx] at k; simp at k
        · simp only at hx; rw [hx] at h2; simp only [Option.some.injEq] at h2; subst h2
          exact ⟨v, _, v', .inl ⟨ho x, lo x, h3, .inr (.inl ⟨x, v, h1, rfl⟩), rfl⟩⟩
      · exact ⟨o.base .rgb, Pass.same, o.base .rgb, .inr (.inr (.inr k))⟩
    have kp : p.2.2 .poses = o.opt .poses := by
      rcases ko .poses with ⟨k1, k2⟩ | ⟨v, v1, h1, h2, h3⟩
      · rw [k1, k2]
      · rw [h1, h2, h3.kept rfl]; rfl
    refine ⟨e, fun r hr => ?_, rfl, fun _ u r hr => ?_, kp, fun r hr => ?_⟩
    rotate_right
    · have lift : ∀ {q : Pass α} {v v' : View}, q.Stays → Became q m p.1 v v' → Rest o v.ref → v'.ref = r →
          Rest o r ∨ (m.next ≤ r ∧ r < p.1.next) := fun h1 h3 h4 h5 => by
        rcases h3.own h1 with k | k
        · exact .inl (by rw [← h5, k]; exact h4)
        · exact .inr (by rw [← h5]; exact k)
      rcases hr with ⟨b, hb1⟩ | ⟨x, v', hp, hx, hr⟩ | k
      · exact lift (hb b) (kb b) (.inl ⟨b, rfl⟩) hb1
      · rcases ko x with ⟨_, k⟩ | ⟨v, v1, h1, h2, h3⟩
        · simp only at hx; rw [hx] at k; simp at k
        · simp only at hx; rw [hx] at h2; simp only [Option.some.injEq] at h2; subst h2
          exact lift (ho x) h3 (.inr (.inl ⟨x, v, hp, h1, rfl⟩)) hr
      · exact .inl (.inr (.inr k))
    · obtain ⟨v, q, v', ⟨h1, h2, h3, h4, h5⟩ | k⟩ := cases' _ _ r hr
      · rcases h3.own h1 with k | k
        · exact .inl (by rw [← h5, k]; exact h4)
        · exact .inr (by rw [← h5]; exact k)
      · exact .inl k
    · obtain ⟨v, q, v', ⟨h1, h2, h3, h4, h5⟩ | k⟩ := cases' _ _ r hr
      · have := h3.local h2
        rw [← h5]
        exact this.trans (u _ h4)
      · rw [e.cell r (key r k)]; exact u r k
  · have q1 := r1 .rgb
    have q2 := r1 .depth
    have q3 := r1 .intrinsics
    have q4 := r2 .poses (·.mat)
    have q5 := r2 .pix (·.img)
    have q6 := r2 .vertex (·.img)
    have q7 := r2 .normal (·.img)
    have q8 := r2 .gvertex (·.img)
    have q9 := r2 .gnormal (·.img)
    have ap : ∀ v, (m.read ((Pass.permute (α := α) ctg op).view v)).img = permute op (m.read v).img := by
      intro v
      rcases hop with rfl | rfl <;> simp only [Pass.permute, read_step, Op.app, permute]
    have am : ∀ x, ((o.opt x).map fun v => (m.read ((Pass.permute (α := α) ctg op).view v)).img) = ((o.opt x).map fun v => (m.read v).img).map (permute op) := by
      intro x
      rw [Option.map_map]
      congr 1; funext v; exact ap v
    simp only [permBase, permOpt, am, Pass.same, id_eq] at q1 q2 q3 q4 q5 q6 q7 q8 q9
    have q1' := congrArg Cont.img q1
    have q2' := congrArg Cont.img q2
    have q3' := congrArg Cont.mat q3
    rw [ap] at q1' q2'
    have qv : (o.valid.map fun v => ((passAll (permBase (Pass.permute ctg op)) (permOpt (Pass.permute ctg op)) m o).1.read v).bit) =
        o.valid.map fun v => (m.read v).bit := by
      rcases hv : o.valid with _ | v
      · rfl
      · simp only [Option.map_some, e.read (h.valid hv)]
    unfold relayout val
    simp only [q1', q2', q3', q4, q5, q6, q7, q8, q9, qv]

theorem toLast__sim (ctg : View → Bool) {m : Mem α} {o : Obj} (h : Ok m o) :
    Grows m o (toLast_ ctg m o).1 (toLast_ ctg m o).2 ∧ val (toLast_ ctg m o).1 (toLast_ ctg m o).2 = Rgbd.toLast_ (val m o) := by
  unfold toLast_ Rgbd.toLast_
  rw [show (val m o).cf = o.cf from rfl]
  rcases o.cf with _ | _
  · exact ⟨.rfl, rfl⟩
  · simp only [Bool.not_true, Bool.false_eq_true, if_false]
    obtain ⟨h1, h2⟩ := relayout_sim ctg (op := .last) (.inl rfl) false h
    exact ⟨h1, h2⟩

theorem toFirst__sim (ctg : View → Bool) {m : Mem α} {o : Obj} (h : Ok m o) :
    Grows m o (toFirst_ ctg m o).1 (toFirst_ ctg m o).2 ∧ val (toFirst_ ctg m o).1 (toFirst_ ctg m o).2 = Rgbd.toFirst_ (val m o) := by
  unfold toFirst_ Rgbd.toFirst_
  rw [show (val m o).cf = o.cf from rfl]
  rcases o.cf with _ | _
  · simp only [Bool.false_eq_true, if_false]
    obtain ⟨h1, h2⟩ := relayout_sim ctg (op := .first) (.inr rfl) true h
    exact ⟨h1, h2⟩
  · exact ⟨.rfl, rfl⟩

/-- A copy in another layout: new tensors only. -/
theorem cloneThen_sim {f : Mem α → Obj → Mem α × Obj} {vf : Rgbd.Obj α → Rgbd.Obj α}
    (hf : ∀ m o, Ok m o → Grows m o (f m o).1 (f m o).2 ∧ val (f m o).1 (f m o).2 = vf (val m o)) {m : Mem α} {o : Obj} (h : Ok m o) :
    Ext m (cloneThen f m o).2 ∧
    ((∃ e, Rgbd.clone (val m o) = .error e ∧ (cloneThen f m o).1 = .error e) ∨
     (¬Together m o.base ∧ (∃ s, Rgbd.clone (val m o) = .ok s) ∧ (cloneThen f m o).1 = .error .valueError) ∨
     (Together m o.base ∧ ∃ c s, (cloneThen f m o).1 = .ok (.new c) ∧ Rgbd.clone (val m o) = .ok s ∧ val (cloneThen f m o).2 c = vf s ∧
       c.dev = m.dev (o.base .rgb) ∧ (Uni m o → Uni (cloneThen f m o).2 c) ∧ ∀ r, Holds c r → m.next ≤ r ∧ r < (cloneThen f m o).2.next)) := by
  obtain ⟨e, k⟩ := clone_sim h
  have hd := fun c => clone_dev (c := c) h
  unfold cloneThen
  generalize clone m o = p at e k hd ⊢
  rcases p with ⟨r, m1⟩
  simp only at e k hd
  rcases k with ⟨er, h1, rfl⟩ | ⟨h1, h2, rfl⟩ | ⟨h1, c, rfl, h3, h4⟩
  · exact ⟨e, .inl ⟨er, h1, rfl⟩⟩
  · exact ⟨e, .inr (.inl ⟨h1, h2, rfl⟩)⟩
  · have own : ∀ r, Holds c r → m.next ≤ r ∧ r < m1.next := by
      intro r hr
      rcases h4.own (fun _ => stays_clone) (fun _ => stays_clone) r hr with k | k
      · rcases k with ⟨_, _, k⟩ | ⟨_, _, _, _, k⟩ <;> simp [Pass.clone] at k
      · exact k
    have okc : Ok m1 c := fun r hr => (own r hr).2
    obtain ⟨g, hv⟩ := hf m1 c okc
    refine ⟨e.trans g.ext, .inr (.inr ⟨h1, (f m1 c).2, val m1 c, rfl, h3, hv, g.dev.trans (hd c rfl), fun u => g.uni okc fun r hr => ?_, fun r hr => ?_⟩)⟩
    · rw [hd c rfl, u.base]
      rcases hr with ⟨b, rfl⟩ | ⟨x, v, hx, rfl⟩ | ⟨v, hv, _⟩
      · exact ((h4.base b).local fun _ => rfl).trans (u.base b)
      · obtain ⟨w, hw, k⟩ := h4.opt_of hx
        exact (k.local fun _ => rfl).trans (u.opt hw)
      · rw [h4.valid] at hv; simp at hv
    · rcases g.own r hr with k | k
      · exact ⟨(own r k).1, (own r k).2.trans_le g.ext.next⟩
      · exact ⟨e.next.trans k.1, k.2⟩

/-! ### Setters -/

/-- A setter with the tensor `v`: the object keeps `v`, drops some maps, and is otherwise as before. -/
structure Sets (m : Mem α) (o : Obj) (v : Option View) (o' : Obj) : Prop where
  own : ∀ r, Holds o' r → Holds o r ∨ ∃ w, v = some w ∧ w.ref = r
  dev : o'.dev = o.dev

theorem Sets.rfl {m : Mem α} {o : Obj} {v : Option View} : Sets m o v o := ⟨fun _ h => .inl h, Eq.refl _⟩

theorem holds_drop (o : Obj) (r : Nat) (h : Holds o.drop r) : Holds o r := by
  rcases h with h | ⟨x, v, hx, hr⟩ | h
  · exact .inl h
  · rcases x with _ | _ | _ | _ | _ | _
    · exact .inr (.inl ⟨.poses, v, hx, hr⟩)
    · exact .inr (.inl ⟨.pix, v, hx, hr⟩)
    all_goals simp [Obj.drop] at hx
  · exact .inr (.inr h)

theorem holds_dropGlobal (o : Obj) (r : Nat) (h : Holds o.dropGlobal r) : Holds o r := by
  rcases h with h | ⟨x, v, hx, hr⟩ | h
  · exact .inl h
  · rcases x with _ | _ | _ | _ | _ | _
    · exact .inr (.inl ⟨.poses, v, hx, hr⟩)
    · exact .inr (.inl ⟨.pix, v, hx, hr⟩)
    · exact .inr (.inl ⟨.vertex, v, hx, hr⟩)
    · exact .inr (.inl ⟨.normal, v, hx, hr⟩)
    all_goals simp [Obj.dropGlobal] at hx
  · exact .inr (.inr h)

theorem holds_setBase (o : Obj) (b : Base) (v : View) (r : Nat) (h : Holds (o.setBase b v) r) : Holds o r ∨ v.ref = r := by
  rcases h with ⟨c, hc⟩ | h | h
  · by_cases e : c = b
    · subst e
      right
      simpa [Obj.setBase] using hc
    · left
      refine .inl ⟨c, ?_⟩
      simpa [Obj.setBase, Function.update_of_ne e] using hc
  · exact .inl (.inr (.inl h))
  · exact .inl (.inr (.inr h))

theorem setRgb_sim (v : View) (m : Mem α) (o : Obj) : Sets m o (some v) (setRgb v m o).2 ∧
    Rgbd.setRgb (m.read v).img (val m o) = ((setRgb v m o).1, val m (setRgb v m o).2) := by
  unfold setRgb Rgbd.setRgb
  rw [show (val m o).rgbShape = o.rgbShape from rfl]
  split_ifs with h
  · exact ⟨.rfl, rfl⟩
  · refine ⟨⟨fun r hr => (holds_setBase o .rgb v r hr).imp_right fun e => ⟨v, rfl, e⟩, rfl⟩, ?_⟩
    rfl

theorem setDepth_sim (v : View) (m : Mem α) (o : Obj) : Sets m o (some v) (setDepth v m o).2 ∧
    Rgbd.setDepth (m.read v).img (val m o) = ((setDepth v m o).1, val m (setDepth v m o).2) := by
  unfold setDepth Rgbd.setDepth
  rw [show (val m o).depthImageShape = o.depthImageShape from rfl]
  rcases hs : o.depthImageShape with _ | sh
  · exact ⟨.rfl, rfl⟩
  · simp only
    split_ifs with h
    · exact ⟨.rfl, rfl⟩
    · refine ⟨⟨fun r hr => (holds_setBase o .depth v r (holds_drop _ r hr)).imp_right fun e => ⟨v, rfl, e⟩, rfl⟩, ?_⟩
      exact Prod.ext rfl (by rw [← hs]; rfl)

theorem setK_sim (v : View) (m : Mem α) (o : Obj) : Sets m o (some v) (setK v m o).2 ∧
    Rgbd.setK (m.read v).mat (val m o) = ((setK v m o).1, val m (setK v m o).2) := by
  unfold setK Rgbd.setK
  rw [show (val m o).B = o.B from rfl]
  split_ifs with h
  · exact ⟨.rfl, rfl⟩
  · refine ⟨⟨fun r hr => (holds_setBase o .intrinsics v r (holds_drop _ r hr)).imp_right fun e => ⟨v, rfl, e⟩, rfl⟩, ?_⟩
    rfl

theorem setPoses_sim (v : Option View) (m : Mem α) (o : Obj) : Sets m o v (setPoses v m o).2 ∧
    Rgbd.setPoses (v.map fun v => (m.read v).mat) (val m o) = ((setPoses v m o).1, val m (setPoses v m o).2) := by
  unfold setPoses Rgbd.setPoses
  have e : Pcs.okOpt (v.map fun v => (m.read v).mat) (fun p => decide ((p.d0, p.d1) = ((val m o).B, (val m o).L))) =
      Pcs.okOpt v fun p => decide (((m.read p).mat.d0, (m.read p).mat.d1) = (o.B, o.L)) := by
    rcases v with _ | v <;> rfl
  rw [e]
  split_ifs with h
  · exact ⟨.rfl, rfl⟩
  · refine ⟨⟨fun r hr => ?_, rfl⟩, ?_⟩
    · rcases holds_dropGlobal _ r hr with k | ⟨x, w, hx, hr⟩ | k
      · exact .inl (.inl k)
      · by_cases hp : x = .poses
        · subst hp
          right
          exact ⟨w, by simpa using hx, hr⟩
        · left
          exact .inr (.inl ⟨x, w, by simpa [Function.update_of_ne hp] using hx, hr⟩)
      · exact .inl (.inr (.inr k))
    · rfl
end
end Verif.RMem
