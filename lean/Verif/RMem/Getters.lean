import Verif.RMem.Sim
/-! The getters: what they allocate, and that on values they are the getters of `Verif.Rgbd.Model`. -/
namespace Verif.RMem
open Verif
set_option linter.unusedSectionVars false

section
variable {α : Type*} [Field α] [LinearOrder α]

theorem masked_grows (x : Opt) (d : Dev) (t : Rgbd.T5 α) (m : Mem α) (o : Obj) (hd : Uni m o → d = o.dev) (hx : x ≠ .poses := by simp) :
    Grows m o (masked x d t m o).2.1 (masked x d t m o).2.2 := by
  unfold masked
  have g1 := store_grows x d t m o hd hx
  generalize store x d t m o = p at g1 ⊢
  rcases p with ⟨m1, o1⟩
  simp only at g1 ⊢
  have g2 := getValid_grows m1 o1
  have e2 : (getValid m1 o1).2.2.valid = some (getValid m1 o1).1 := by
    unfold getValid
    rcases hv : o1.valid with _ | v
    · rfl
    · exact hv
  generalize getValid m1 o1 = p at g2 e2 ⊢
  rcases p with ⟨v, m2, o2⟩
  simp only at g2 e2 ⊢
  split_ifs with hv
  · exact g1.trans g2
  · rcases Rgbd.bmul t (Rgbd.toNum (m2.read v).bit) with e | t2
    · exact g1.trans g2
    · refine (g1.trans g2).trans (store_grows x d t2 m2 o2 (fun u => ?_) hx)
      simp only [ne_eq, not_not] at hv
      rw [← hv]
      exact u.valid e2

theorem needPix_grows (m : Mem α) (o : Obj) : Grows m o (needPix m o).1 (needPix m o).2 := by
  unfold needPix
  rcases o.opt .pix with _ | v
  · exact store_grows _ _ _ m o fun u => u.base .depth
  · exact .rfl

theorem computeVertex_grows (eps : α) (m : Mem α) (o : Obj) : Grows m o (computeVertex eps m o).2.1 (computeVertex eps m o).2.2 := by
  unfold computeVertex
  have g := needPix_grows m o
  generalize needPix m o = p at g ⊢
  rcases p with ⟨m1, o1⟩
  simp only at g ⊢
  split_ifs
  · exact g
  · split
    · exact g
    · exact g.trans (masked_grows _ _ _ m1 o1 fun u => u.base .depth)

/-- The result of a cached getter is the tensor of the object. -/
theorem cached_grows {x : Opt} {f : Mem α → Obj → Except Rgbd.Err Unit × Mem α × Obj} {m : Mem α} {o : Obj}
    (hf : Grows m o (f m o).2.1 (f m o).2.2) : Grows m o (cached x f m o).2.1 (cached x f m o).2.2 := by
  unfold cached
  rcases o.opt x with _ | v
  · simp only
    generalize f m o = p at hf ⊢
    rcases p with ⟨e | u, m1, o1⟩ <;> exact hf
  · exact .rfl

theorem cached_holds (x : Opt) (f : Mem α → Obj → Except Rgbd.Err Unit × Mem α × Obj) (m : Mem α) (o : Obj) (v : View)
    (h : (cached x f m o).1 = .ok v) : Holds (cached x f m o).2.2 v.ref := by
  unfold cached at h ⊢
  rcases hx : o.opt x with _ | w
  · simp only [hx] at h ⊢
    generalize f m o = p at h ⊢
    rcases p with ⟨e | u, m1, o1⟩
    · simp at h
    · simp only [Except.ok.injEq] at h ⊢
      rcases h1 : o1.opt x with _ | w
      · rw [h1] at h; simp only [Option.getD_none] at h
        exact .inl ⟨.rgb, by rw [h]⟩
      · rw [h1] at h; simp only [Option.getD_some] at h
        exact .inr (.inl ⟨x, w, h1, by rw [h]⟩)
  · simp only [hx, Except.ok.injEq] at h ⊢
    exact .inr (.inl ⟨x, w, hx, by rw [h]⟩)

theorem getVertex_grows (eps : α) (m : Mem α) (o : Obj) : Grows m o (getVertex eps m o).2.1 (getVertex eps m o).2.2 :=
  cached_grows (computeVertex_grows eps m o)

theorem computeGVertex_grows (eps : α) (m : Mem α) (o : Obj) : Grows m o (computeGVertex eps m o).2.1 (computeGVertex eps m o).2.2 := by
  unfold computeGVertex
  have g := getVertex_grows eps m o
  have hh : ∀ v, (getVertex eps m o).1 = .ok v → Holds (getVertex eps m o).2.2 v.ref := cached_holds _ _ m o
  generalize getVertex eps m o = p at g hh ⊢
  rcases p with ⟨e | v, m1, o1⟩
  · split <;> exact g
  · simp only at g hh ⊢
    have hv := hh v rfl
    split
    · exact g.trans (store_grows _ _ _ m1 o1 fun u => u _ hv)
    · split_ifs
      · exact g
      · exact g.trans (masked_grows _ _ _ m1 o1 fun u => u _ hv)

theorem getGVertex_grows (eps : α) (m : Mem α) (o : Obj) : Grows m o (getGVertex eps m o).2.1 (getGVertex eps m o).2.2 :=
  cached_grows (computeGVertex_grows eps m o)

theorem computeNormal_grows (nrm : V3 α → α) (eps : α) (m : Mem α) (o : Obj) :
    Grows m o (computeNormal nrm eps m o).2.1 (computeNormal nrm eps m o).2.2 := by
  unfold computeNormal
  have g := getVertex_grows eps m o
  have hh : ∀ v, (getVertex eps m o).1 = .ok v → Holds (getVertex eps m o).2.2 v.ref := cached_holds _ _ m o
  generalize getVertex eps m o = p at g hh ⊢
  rcases p with ⟨e | v, m1, o1⟩
  · exact g
  · simp only at g hh ⊢
    have hv := hh v rfl
    split_ifs
    · exact g
    · exact g.trans (masked_grows _ _ _ m1 o1 fun u => u _ hv)

theorem getNormal_grows (nrm : V3 α → α) (eps : α) (m : Mem α) (o : Obj) : Grows m o (getNormal nrm eps m o).2.1 (getNormal nrm eps m o).2.2 :=
  cached_grows (computeNormal_grows nrm eps m o)

theorem computeGNormal_grows (nrm : V3 α → α) (eps : α) (m : Mem α) (o : Obj) :
    Grows m o (computeGNormal nrm eps m o).2.1 (computeGNormal nrm eps m o).2.2 := by
  unfold computeGNormal
  have g := getNormal_grows nrm eps m o
  have hh : ∀ v, (getNormal nrm eps m o).1 = .ok v → Holds (getNormal nrm eps m o).2.2 v.ref := cached_holds _ _ m o
  generalize getNormal nrm eps m o = p at g hh ⊢
  rcases p with ⟨e | v, m1, o1⟩
  · exact g
  · simp only at g hh ⊢
    have hv := hh v rfl
    rcases o1.opt .poses with _ | P
    · exact g.trans (store_grows _ _ _ m1 o1 fun u => u _ hv)
    · simp only
      split_ifs
      · exact g
      · exact g.trans (store_grows _ _ _ m1 o1 fun u => u _ hv)

theorem getGNormal_grows (nrm : V3 α → α) (eps : α) (m : Mem α) (o : Obj) : Grows m o (getGNormal nrm eps m o).2.1 (getGNormal nrm eps m o).2.2 :=
  cached_grows (computeGNormal_grows nrm eps m o)

/-! ### Values -/

/-- The value of the outcome of a getter. -/
def seen (r : Except Rgbd.Err View × Mem α × Obj) : Except Rgbd.Err (Rgbd.T5 α) × Rgbd.Obj α :=
  (r.1.map fun v => (r.2.1.read v).img, val r.2.1 r.2.2)

/-- The value of the outcome of a procedure. -/
def done (r : Except Rgbd.Err Unit × Mem α × Obj) : Except Rgbd.Err Unit × Rgbd.Obj α := (r.1, val r.2.1 r.2.2)

/-- `masked` on values. -/
def vmasked (x : Opt) (t : Rgbd.T5 α) (s : Rgbd.Obj α) : Except Rgbd.Err Unit × Rgbd.Obj α :=
  match Rgbd.getValid (withOpt s x t) with
  | (k, s) => match Rgbd.bmul t (Rgbd.toNum k) with
    | .error e => (.error e, s)
    | .ok t => (.ok (), withOpt s x t)

theorem masked_val {x : Opt} (hx : x ≠ .poses) {d : Dev} (t : Rgbd.T5 α) {m : Mem α} {o : Obj} (h : Ok m o) (u : Uni m o) (hd : d = o.dev) :
    vmasked x t (val m o) = done (masked x d t m o) := by
  unfold vmasked masked done
  have g1 := store_grows x d t m o (fun _ => hd) hx
  rw [← store_val hx d t h]
  generalize store x d t m o = p at g1 ⊢
  rcases p with ⟨m1, o1⟩
  simp only at g1 ⊢
  have g2 := getValid_grows m1 o1
  obtain ⟨e2, e3⟩ := getValid_val (g1.ok h)
  rw [e2]
  generalize getValid m1 o1 = p at g2 e3 ⊢
  rcases p with ⟨v, m2, o2⟩
  simp only at g2 e3 ⊢
  have hv : m2.dev v = d := by
    rw [hd, ((g1.trans g2).uni h u).valid e3]
    exact (g1.trans g2).dev
  rw [if_neg (by simpa using hv)]
  rcases Rgbd.bmul t (Rgbd.toNum (m2.read v).bit) with e | t2
  · rfl
  · exact Prod.ext rfl (store_val hx d t2 ((g1.trans g2).ok h)).symm

theorem needPix_val {m : Mem α} {o : Obj} (h : Ok m o) :
    val (needPix m o).1 (needPix m o).2 = { val m o with pix := some ((val m o).pix.getD (Rgbd.meshPix o.B o.L o.H o.W)) } ∧
    (∃ v, (needPix m o).2.opt .pix = some v) ∧ (needPix m o).2.base = o.base ∧ (needPix m o).2.cf = o.cf ∧ (needPix m o).2.B = o.B ∧
    (needPix m o).2.L = o.L ∧ (needPix m o).2.H = o.H ∧ (needPix m o).2.W = o.W := by
  unfold needPix
  rcases hp : o.opt .pix with _ | v
  · refine ⟨?_, ⟨⟨m.next, []⟩, by simp [store, fresh_view]⟩, rfl, rfl, rfl, rfl, rfl, rfl⟩
    simp only
    rw [store_val (by decide) _ _ h]
    simp [withOpt, val, hp]
  · refine ⟨?_, ⟨v, hp⟩, rfl, rfl, rfl, rfl, rfl, rfl⟩
    simp [val, hp]

theorem computeVertex_val (eps : α) {m : Mem α} {o : Obj} (h : Ok m o) (u : Uni m o) :
    Rgbd.computeVertex eps (val m o) = done (computeVertex eps m o) := by
  have hs : Rgbd.computeVertex eps (val m o) = match { val m o with pix := some ((val m o).pix.getD (Rgbd.meshPix o.B o.L o.H o.W)) } with
      | s => match Rgbd.bmul (Rgbd.rays eps s.cf s.B s.L s.H s.W s.K (s.pix.getD (Rgbd.meshPix s.B s.L s.H s.W))) s.depth with
        | .error e => (.error e, s)
        | .ok v => vmasked .vertex v s := rfl
  rw [hs]
  unfold computeVertex
  have g := needPix_grows m o
  obtain ⟨hv, ⟨w, hw⟩, _⟩ := needPix_val h
  rw [← hv]
  generalize needPix m o = p at g hw ⊢
  rcases p with ⟨m1, o1⟩
  simp only at g hw ⊢
  have h1 := g.ok h
  have u1 := g.uni h u
  rw [hw]
  have hp : (val m1 o1).pix = some (m1.read w).img := by simp [val, hw]
  rw [hp]
  simp only [Option.getD_some]
  rw [if_neg (by rw [u1.base, u1.base, u1.opt hw]; simp)]
  have : Rgbd.bmul (Rgbd.rays eps (val m1 o1).cf (val m1 o1).B (val m1 o1).L (val m1 o1).H (val m1 o1).W (val m1 o1).K (m1.read w).img)
      (val m1 o1).depth = Rgbd.bmul (Rgbd.rays eps o1.cf o1.B o1.L o1.H o1.W (m1.read (o1.base .intrinsics)).mat (m1.read w).img)
        (m1.read (o1.base .depth)).img := rfl
  rw [this]
  split
  · next e => rw [e]; rfl
  · next t e => rw [e]; exact masked_val (by decide) t h1 u1 (u1.base .depth)

/-- The field of a value. -/
def vopt (s : Rgbd.Obj α) : Opt → Option (Rgbd.T5 α)
  | .poses => none
  | .pix => s.pix
  | .vertex => s.vertex
  | .normal => s.normal
  | .gvertex => s.gvertex
  | .gnormal => s.gnormal

/-- `cached` on values. -/
def vcached (x : Opt) (f : Rgbd.Obj α → Except Rgbd.Err Unit × Rgbd.Obj α) (s : Rgbd.Obj α) : Except Rgbd.Err (Rgbd.T5 α) × Rgbd.Obj α :=
  match vopt s x with
  | some v => (.ok v, s)
  | none => match f s with
    | (.error e, s) => (.error e, s)
    | (.ok (), s) => (.ok ((vopt s x).getD s.rgb), s)

theorem vopt_val {x : Opt} (hx : x ≠ .poses) (m : Mem α) (o : Obj) : vopt (val m o) x = (o.opt x).map fun v => (m.read v).img := by
  rcases x with _ | _ | _ | _ | _ | _
  · exact absurd rfl hx
  all_goals rfl

theorem cached_val {x : Opt} (hx : x ≠ .poses) {f : Mem α → Obj → Except Rgbd.Err Unit × Mem α × Obj}
    {vf : Rgbd.Obj α → Except Rgbd.Err Unit × Rgbd.Obj α} {m : Mem α} {o : Obj} (hf : vf (val m o) = done (f m o)) :
    vcached x vf (val m o) = seen (cached x f m o) := by
  unfold vcached cached seen
  rw [vopt_val hx]
  rcases hv : o.opt x with _ | v
  · simp only [Option.map_none]
    rw [hf]
    unfold done
    generalize f m o = p
    rcases p with ⟨e | u, m1, o1⟩
    · rfl
    · simp only
      rw [vopt_val hx]
      refine Prod.ext ?_ rfl
      rcases o1.opt x <;> rfl
  · rfl

theorem getVertex_val (eps : α) {m : Mem α} {o : Obj} (h : Ok m o) (u : Uni m o) : Rgbd.getVertex eps (val m o) = seen (getVertex eps m o) :=
  cached_val (x := .vertex) (by decide) (computeVertex_val eps h u)

theorem computeGVertex_val (eps : α) {m : Mem α} {o : Obj} (h : Ok m o) (u : Uni m o) :
    Rgbd.computeGVertex eps (val m o) = done (computeGVertex eps m o) := by
  have hs : Rgbd.computeGVertex eps (val m o) = match (val m o).poses with
      | none => match Rgbd.getVertex eps (val m o) with
        | (.error e, s) => (.error e, s)
        | (.ok v, s) => (.ok (), withOpt s .gvertex v)
      | some P => match Rgbd.getVertex eps (val m o) with
        | (.error e, s) => (.error e, s)
        | (.ok v, s) => vmasked .gvertex (Rgbd.addT s.cf P (Rgbd.rotMap s.cf v.sh P v)) s := rfl
  rw [hs]
  unfold computeGVertex
  have g := getVertex_grows eps m o
  have hh : ∀ v, (getVertex eps m o).1 = .ok v → Holds (getVertex eps m o).2.2 v.ref := cached_holds _ _ m o
  rw [getVertex_val eps h u]
  generalize getVertex eps m o = p at g hh ⊢
  rcases p with ⟨e | v, m1, o1⟩
  · rcases hp : o.opt .poses with _ | P
    · simp only [val, hp, Option.map_none]; rfl
    · simp only [val, hp, Option.map_some]; rfl
  · simp only at g hh ⊢
    have hv := hh v rfl
    have h1 := g.ok h
    have u1 := g.uni h u
    rcases hp : o.opt .poses with _ | P
    · have e : (val m o).poses = none := by simp [val, hp]
      rw [e]
      simp only [seen, Except.map, done]
      rw [store_val (by decide) _ _ h1]
    · have e : (val m o).poses = some (m.read P).mat := by simp [val, hp]
      rw [e]
      simp only [seen, Except.map]
      have hP := h.opt hp
      rw [if_neg (by rw [g.ext.dev hP, u.opt hp, ← g.dev]; exact not_not.2 (u1 _ hv).symm), g.ext.read hP]
      exact masked_val (by decide) _ h1 u1 (u1 _ hv)

theorem getGVertex_val (eps : α) {m : Mem α} {o : Obj} (h : Ok m o) (u : Uni m o) : Rgbd.getGVertex eps (val m o) = seen (getGVertex eps m o) :=
  cached_val (x := .gvertex) (by decide) (computeGVertex_val eps h u)

theorem computeNormal_val (nrm : V3 α → α) (eps : α) {m : Mem α} {o : Obj} (h : Ok m o) (u : Uni m o) :
    Rgbd.computeNormal nrm eps (val m o) = done (computeNormal nrm eps m o) := by
  have hs : Rgbd.computeNormal nrm eps (val m o) = match Rgbd.getVertex eps (val m o) with
        | (.error e, s) => (.error e, s)
        | (.ok v, s) => if s.W < 2 ∨ s.H < 2 then (.error .indexError, s)
          else vmasked .normal (Rgbd.mk5 s.cf s.B s.L s.H s.W 3 fun b l h w c => Pcs.comp (Rgbd.rawNormal nrm s.cf s.H s.W v b l h w) c) s := rfl
  rw [hs]
  unfold computeNormal
  have g := getVertex_grows eps m o
  have hh : ∀ v, (getVertex eps m o).1 = .ok v → Holds (getVertex eps m o).2.2 v.ref := cached_holds _ _ m o
  rw [getVertex_val eps h u]
  generalize getVertex eps m o = p at g hh ⊢
  rcases p with ⟨e | v, m1, o1⟩
  · rfl
  · simp only at g hh ⊢
    have hv := hh v rfl
    have h1 := g.ok h
    have u1 := g.uni h u
    simp only [seen, Except.map]
    by_cases hw : o1.W < 2 ∨ o1.H < 2
    · rw [if_pos hw, if_pos (show (val m1 o1).W < 2 ∨ (val m1 o1).H < 2 from hw)]; rfl
    · rw [if_neg hw, if_neg (show ¬((val m1 o1).W < 2 ∨ (val m1 o1).H < 2) from hw)]
      exact masked_val (by decide) _ h1 u1 (u1 _ hv)

theorem getNormal_val (nrm : V3 α → α) (eps : α) {m : Mem α} {o : Obj} (h : Ok m o) (u : Uni m o) :
    Rgbd.getNormal nrm eps (val m o) = seen (getNormal nrm eps m o) :=
  cached_val (x := .normal) (by decide) (computeNormal_val nrm eps h u)

theorem computeGNormal_val (nrm : V3 α → α) (eps : α) {m : Mem α} {o : Obj} (h : Ok m o) (u : Uni m o) :
    Rgbd.computeGNormal nrm eps (val m o) = done (computeGNormal nrm eps m o) := by
  have hs : Rgbd.computeGNormal nrm eps (val m o) = match Rgbd.getNormal nrm eps (val m o) with
        | (.error e, s) => (.error e, s)
        | (.ok n, s) => match s.poses with
          | none => (.ok (), withOpt s .gnormal n)
          | some P => (.ok (), withOpt s .gnormal (Rgbd.rotMap s.cf n.sh P n)) := rfl
  rw [hs]
  unfold computeGNormal
  have g := getNormal_grows nrm eps m o
  have hh : ∀ v, (getNormal nrm eps m o).1 = .ok v → Holds (getNormal nrm eps m o).2.2 v.ref := cached_holds _ _ m o
  rw [getNormal_val nrm eps h u]
  generalize getNormal nrm eps m o = p at g hh ⊢
  rcases p with ⟨e | v, m1, o1⟩
  · rfl
  · simp only at g hh ⊢
    have hv := hh v rfl
    have h1 := g.ok h
    have u1 := g.uni h u
    simp only [seen, Except.map]
    rcases hp : o1.opt .poses with _ | P
    · have e : (val m1 o1).poses = none := by simp [val, hp]
      rw [e]
      simp only [done]
      rw [store_val (by decide) _ _ h1]
    · have e : (val m1 o1).poses = some (m1.read P).mat := by simp [val, hp]
      rw [e]
      simp only
      rw [if_neg (by rw [u1.opt hp]; exact not_not.2 (u1 _ hv).symm)]
      simp only [done]
      rw [store_val (by decide) _ _ h1]
      rfl

theorem getGNormal_val (nrm : V3 α → α) (eps : α) {m : Mem α} {o : Obj} (h : Ok m o) (u : Uni m o) :
    Rgbd.getGNormal nrm eps (val m o) = seen (getGNormal nrm eps m o) :=
  cached_val (x := .gnormal) (by decide) (computeGNormal_val nrm eps h u)
end
end Verif.RMem
