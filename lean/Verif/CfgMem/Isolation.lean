import Verif.CfgMem.Region
import Verif.CfgMem.Spec
/-!
C89: which values can influence each other, for every program.
-/
namespace Verif.CfgMem
open Verif.Cfg

/-- The existing objects owned by group `L`. -/
def Reg (own : Nat → Nat) (L : Nat) (H : Heap) : Nat → Prop := fun id => id < H.length ∧ own id = L

/-- Objects of a group point only to objects of that group. -/
def Part (own : Nat → Nat) (H : Heap) : Prop := ∀ L, Closed (Reg own L H) H

structure Inv (w : World) (own : Nat → Nat) : Prop where
  part : Part own w.heap
  bound : ∀ id, id < w.heap.length → own id < w.next
  vars : ∀ p ∈ w.vars, p.2 < w.next ∧ RefIn (Reg own p.2 w.heap) p.1

/-- Objects created between `H` and later belong to `L`. -/
def ext (own : Nat → Nat) (H : Heap) (L : Nat) : Nat → Nat := fun id => if id < H.length then own id else L

theorem reg_ext {own : Nat → Nat} {H H' : Heap} (hl : H.length ≤ H'.length) (L : Nat) :
    Reg (ext own H L) L H' = Grow (Reg own L H) H H' := by
  funext id
  simp only [Reg, Grow, ext, eq_iff_iff]
  by_cases h : id < H.length
  · simp only [h, if_true]
    constructor
    · rintro ⟨-, h2⟩; exact Or.inl ⟨trivial, h2⟩
    · rintro (h2 | h2)
      · exact ⟨by omega, h2.2⟩
      · omega
  · simp only [h, if_false]
    constructor
    · rintro ⟨h1, -⟩; exact Or.inr ⟨by omega, h1⟩
    · rintro (h2 | h2)
      · exact absurd h2.1 (by simp)
      · exact ⟨h2.2, trivial⟩

theorem reg_ext_ne {own : Nat → Nat} {H H' : Heap} (hl : H.length ≤ H'.length) {L L' : Nat} (hne : L' ≠ L) :
    Reg (ext own H L) L' H' = Reg own L' H := by
  funext id
  simp only [Reg, ext, eq_iff_iff]
  by_cases h : id < H.length
  · simp only [h, if_true]
    constructor
    · rintro ⟨-, h2⟩; exact ⟨trivial, h2⟩
    · rintro ⟨-, h2⟩; exact ⟨by omega, h2⟩
  · simp only [h, if_false]
    constructor
    · rintro ⟨-, h2⟩; exact absurd h2.symm hne
    · rintro ⟨h1, -⟩; exact absurd h1 (by simp)

theorem part_loc {own : Nat → Nat} {H H' : Heap} {L : Nat} (hp : Part own H) (hl : Loc (Reg own L H) H H') : Part (ext own H L) H' := by
  intro L'
  by_cases h : L' = L
  · subst h
    rw [reg_ext hl.len]
    exact hl.closed
  · rw [reg_ext_ne hl.len h]
    intro id hid
    have hc := hp L' id hid
    refine ⟨Nat.lt_of_lt_of_le hc.1 hl.len, fun c h' => hc.2 c ?_⟩
    rw [← hl.frame id hc.1 fun hr => h (hid.2.symm.trans hr.2)]
    exact h'

theorem reg_sub_ext {own : Nat → Nat} {H H' : Heap} (hl : H.length ≤ H'.length) (L L' : Nat) :
    ∀ id, Reg own L' H id → Reg (ext own H L) L' H' id := fun id h =>
  ⟨Nat.lt_of_lt_of_le h.1 hl, by rw [ext, if_pos h.1]; exact h.2⟩

theorem Inv.step {w : World} {own : Nat → Nat} (hi : Inv w own) {H' : Heap} {L : Nat} (hL : L < w.next)
    (hl : Loc (Reg own L w.heap) w.heap H') : Inv { w with heap := H' } (ext own w.heap L) := by
  refine ⟨part_loc hi.part hl, fun id _ => ?_, fun p hp => ⟨(hi.vars p hp).1, (hi.vars p hp).2.mono (reg_sub_ext hl.len L p.2)⟩⟩
  show ext own w.heap L id < w.next
  unfold ext
  split
  · exact hi.bound id ‹_›
  · exact hL

theorem Inv.fresh {w : World} {own : Nat → Nat} (hi : Inv w own) {H' : Heap} {r : Ref}
    (hl : Loc (Reg own w.next w.heap) w.heap H') (hr : RefIn (Grow (Reg own w.next w.heap) w.heap H') r) :
    Inv (w.fresh H' r) (ext own w.heap w.next) := by
  refine ⟨part_loc hi.part hl, fun id _ => ?_, fun p hp => ?_⟩
  · show ext own w.heap w.next id < w.next + 1
    unfold ext
    split
    · have := hi.bound id ‹_›; omega
    · omega
  · rcases List.mem_append.1 hp with hp' | hp'
    · have := hi.vars p hp'
      exact ⟨Nat.lt_succ_of_lt this.1, this.2.mono (reg_sub_ext hl.len w.next p.2)⟩
    · rw [List.mem_singleton] at hp'
      subst hp'
      refine ⟨Nat.lt_succ_self _, ?_⟩
      show RefIn (Reg (ext own w.heap w.next) w.next H') r
      rw [reg_ext hl.len]
      exact hr

/-- Group number after joining `bs` to `a`. -/
def jn (a : Nat) (bs : List Nat) (l : Nat) : Nat := if l ∈ bs then a else l

theorem joinAll_eq (a : Nat) : ∀ (bs : List Nat) (w : World),
    w.joinAll a bs = { w with vars := w.vars.map fun p => (p.1, jn a bs p.2) }
  | [], w => by
    simp [World.joinAll, jn]
  | b :: bs, w => by
    rw [World.joinAll, joinAll_eq a bs]
    simp only [World.join, List.map_map]
    congr 1
    apply List.map_congr_left
    intro p _
    simp only [Function.comp, jn, List.mem_cons, Prod.mk.injEq, true_and]
    by_cases h : p.2 = b
    · simp [h]
    · simp [h]

theorem join_eq (w : World) (a b : Nat) : w.join a b = { w with vars := w.vars.map fun p => (p.1, jn a [b] p.2) } := by
  rw [← joinAll_eq]; rfl

theorem part_join {own : Nat → Nat} {H : Heap} (hp : Part own H) (a : Nat) (bs : List Nat) : Part (fun id => jn a bs (own id)) H := by
  intro L id hid
  obtain ⟨h1, h2⟩ := hid
  have hc := hp (own id) id ⟨h1, rfl⟩
  refine ⟨h1, fun c h => (hc.2 c h).mono fun j hj => ⟨hj.1, ?_⟩⟩
  show jn a bs (own j) = L
  rw [hj.2]
  exact h2

theorem jn_lt {a n : Nat} {bs : List Nat} (ha : a < n) {l : Nat} (h : l < n) : jn a bs l < n := by
  unfold jn; split
  · exact ha
  · exact h

theorem Inv.join {w : World} {own : Nat → Nat} (hi : Inv w own) {a : Nat} (ha : a < w.next) (bs : List Nat) :
    Inv { w with vars := w.vars.map fun p => (p.1, jn a bs p.2) } (fun id => jn a bs (own id)) := by
  refine ⟨part_join hi.part a bs, fun id h => jn_lt ha (hi.bound id h), fun p hp => ?_⟩
  obtain ⟨q, hq, rfl⟩ := List.mem_map.1 hp
  have := hi.vars q hq
  refine ⟨jn_lt ha this.1, this.2.mono fun id h => ⟨h.1, ?_⟩⟩
  show jn a bs (own id) = jn a bs q.2
  rw [h.2]

/-- What holds of one statement: the groups are still respected, the variables are still there, and an object written to belongs to the
receiver's group or is new. -/
def Good (w w' : World) (op : Op) : Prop :=
  ∃ own', Inv w' own' ∧ w.heap.length ≤ w'.heap.length ∧
    (∀ (j : Nat) (p : Ref × Nat), w.vars[j]? = some p → ∃ g, w'.vars[j]? = some (p.1, g) ∧ g < w.next) ∧
    ∀ id, id < w'.heap.length → own' id < w.next →
      (∀ i r g, op.receiver = some i → w'.vars[i]? = some (r, g) → own' id ≠ g) → w'.heap[id]? = w.heap[id]?

theorem good_same {w : World} {own : Nat → Nat} (hi : Inv w own) (op : Op) : Good w w op :=
  ⟨own, hi, Nat.le_refl _, fun j p h => ⟨p.2, h, (hi.vars p (List.mem_of_getElem? h)).1⟩, fun _ _ _ _ => rfl⟩

theorem closed_empty {own : Nat → Nat} {w : World} (hi : Inv w own) : Closed (Reg own w.next w.heap) w.heap := hi.part _

theorem good_fresh {w : World} {own : Nat → Nat} (hi : Inv w own) (op : Op) {H' : Heap} {r : Ref}
    (hl : Loc (Reg own w.next w.heap) w.heap H') (hr : RefIn (Grow (Reg own w.next w.heap) w.heap H') r) : Good w (w.fresh H' r) op := by
  refine ⟨_, hi.fresh hl hr, hl.len, fun j p h => ⟨p.2, ?_, (hi.vars p (List.mem_of_getElem? h)).1⟩, fun id h1 h2 _ => ?_⟩
  · show (w.vars ++ _)[j]? = _
    rw [List.getElem?_append_left (List.getElem?_eq_some_iff.1 h).1, h]
  · unfold ext at h2
    split at h2
    · rename_i h3
      exact hl.frame id h3 fun hr => by have := hr.2; omega
    · omega

theorem good_write {w : World} {own : Nat → Nat} (hi : Inv w own) {op : Op} {i : Nat} (ho : op.receiver = some i) {r : Ref} {g : Nat}
    (hv : w.vars[i]? = some (r, g)) {H' : Heap} (hl : Loc (Reg own g w.heap) w.heap H') : Good w { w with heap := H' } op := by
  have hg := (hi.vars _ (List.mem_of_getElem? hv)).1
  refine ⟨_, hi.step hg hl, hl.len, fun j p h => ⟨p.2, h, (hi.vars p (List.mem_of_getElem? h)).1⟩, fun id h1 h2 h3 => ?_⟩
  have hne := h3 i r g ho hv
  unfold ext at hne
  split at hne
  · rename_i h4
    exact hl.frame id h4 fun hr => hne hr.2
  · exact absurd rfl hne

theorem good_join {w : World} {own : Nat → Nat} (hi : Inv w own) {op : Op} {i : Nat} (ho : op.receiver = some i) {r : Ref} {g : Nat}
    (hv : w.vars[i]? = some (r, g)) {bs : List Nat} {H' : Heap}
    (hl : Loc (Reg (fun id => jn g bs (own id)) g w.heap) w.heap H') :
    Good w { heap := H', vars := w.vars.map fun p : Ref × Nat => (p.1, jn g bs p.2), next := w.next } op := by
  have hg := (hi.vars _ (List.mem_of_getElem? hv)).1
  have hi' := hi.join hg bs
  refine ⟨_, hi'.step (L := g) hg hl, hl.len, fun j p h => ⟨jn g bs p.2, ?_, jn_lt hg (hi.vars p (List.mem_of_getElem? h)).1⟩, fun id h1 h2 h3 => ?_⟩
  · show (w.vars.map _)[j]? = _
    rw [List.getElem?_map, h]; rfl
  · have hne := h3 i r g ho (by
      show (w.vars.map _)[i]? = _
      rw [List.getElem?_map, hv]
      simp only [Option.map_some, jn]
      split <;> rfl)
    unfold ext at hne
    split at hne
    · rename_i h4
      exact hl.frame id h4 fun hr => hne hr.2
    · exact absurd rfl hne

theorem args_mem {w : World} : ∀ (ps : List (String × Nat)) (vs : List (String × (Ref × Nat))), w.args ps = some vs →
    ∀ e ∈ vs, e.2 ∈ w.vars
  | [], vs, h, e, he => by
    rw [World.args] at h; cases h; exact absurd he List.not_mem_nil
  | (k, j) :: ps, vs, h, e, he => by
    rw [World.args] at h
    split at h
    · rename_i v vs' h1 h2
      cases h
      rcases List.mem_cons.1 he with he' | he'
      · rw [he']; exact List.mem_of_getElem? h1
      · exact args_mem ps vs' h2 e he'
    · cases h

theorem listGroups_mem {w : World} : ∀ (vs : List (Ref × Nat)), ∀ v ∈ vs, (∃ l, v.1 = .atom l) ∨ IsMap w.heap v.1 ∨ v.2 ∈ w.listGroups vs
  | [], v, h => absurd h List.not_mem_nil
  | (.atom l, g) :: vs, v, h => by
    rcases List.mem_cons.1 h with h' | h'
    · rw [h']; exact Or.inl ⟨l, rfl⟩
    · rw [World.listGroups]; exact listGroups_mem vs v h'
  | (.obj id, g) :: vs, v, h => by
    rw [World.listGroups]
    rcases List.mem_cons.1 h with h' | h'
    · rw [h']
      split
      · rename_i kd es he
        exact Or.inr (Or.inl ⟨id, kd, es, rfl, he⟩)
      · exact Or.inr (Or.inr List.mem_cons_self)
    · rcases listGroups_mem vs v h' with h1 | h1 | h1
      · exact Or.inl h1
      · exact Or.inr (Or.inl h1)
      · split
        · exact Or.inr (Or.inr h1)
        · exact Or.inr (Or.inr (List.mem_cons_of_mem _ h1))

theorem exec_good (lit : String → LitRes) (lim : Nat) {w : World} {own : Nat → Nat} (hi : Inv w own) (op : Op) : Good w (w.exec lit lim op) op := by
  have hemp := closed_empty hi
  have hreg : ∀ {i b g}, w.vars[i]? = some (Ref.obj b, g) → Reg own g w.heap b := fun h => (hi.vars _ (List.mem_of_getElem? h)).2
  cases op with
  | literal t =>
    obtain ⟨l1, he1⟩ := ofTree_loc t _ _ hemp
    obtain ⟨l2, hn⟩ := Loc.append l1.closed (c := .map none (ofTree w.heap t).2) he1
    rw [grow_grow l1.len l2.len] at hn
    exact good_fresh hi _ (l1.trans l2) hn
  | value l =>
    obtain ⟨l1, h1⟩ := ofLeaf_loc hemp l
    exact good_fresh hi _ l1 h1
  | construct i na =>
    rw [World.exec]
    split
    · rename_i r g hv
      split
      · rename_i H r' h
        obtain ⟨l1, h1⟩ := construct_loc _ _ _ _ _ _ _ hemp h
        exact good_fresh hi _ l1 h1
      · exact good_same hi _
    · exact good_same hi _
  | clone i =>
    rw [World.exec]
    split
    · rename_i r g hv
      split
      · rename_i H r' h
        unfold CfgMem.clone at h
        split at h
        · cases h
        · rename_i H1 m1 r1 h1
          cases h
          obtain ⟨l1, -, h2⟩ := copyRef_loc _ _ _ _ _ _ _ _ hemp (fun e he => absurd he List.not_mem_nil) h1
          exact good_fresh hi _ l1 h2
      · exact good_same hi _
    · exact good_same hi _
  | merge i j =>
    rw [World.exec]
    split
    · rename_i b g r g' hv hv'
      exact good_write hi rfl hv (mergeFromOther_loc (hi.part g) (hreg hv) r)
    · exact good_same hi _
  | mergeList i ps =>
    rw [World.exec]
    split
    · rename_i b g vs hv ha
      split
      · rename_i f es hb
        rw [joinAll_eq]
        refine good_join hi rfl hv (mergeFromList_loc _ _ _ (part_join hi.part g _ g) ⟨(hreg hv).1, ?_⟩ fun p hp => ?_)
        · show jn g _ (own b) = g
          rw [(hreg hv).2, jn]; split <;> rfl
        · obtain ⟨e, he, rfl⟩ := List.mem_map.1 hp
          have hm := args_mem ps vs ha e he
          rcases listGroups_mem (vs.map (·.2)) e.2 (List.mem_map_of_mem he) with ⟨l, hl⟩ | hl | hl
          · left; show RefIn _ e.2.1; rw [hl]; trivial
          · exact Or.inr hl
          · left
            refine (hi.vars _ hm).2.mono fun id h => ⟨h.1, ?_⟩
            show jn g _ (own id) = g
            rw [h.2, jn, if_pos hl]
      · exact good_same hi _
    · exact good_same hi _
  | setattr i k j =>
    rw [World.exec]
    split
    · rename_i b g r g' hv hv'
      split
      · rename_i H h
        split
        · exact good_write hi rfl hv (setattr_loc (v := .atom _) (hi.part g) (hreg hv) trivial h)
        · rename_i id
          rw [join_eq]
          refine good_join hi rfl hv (setattr_loc (part_join hi.part g [g'] g) ⟨(hreg hv).1, ?_⟩ ?_ h)
          · show jn g _ (own b) = g
            rw [(hreg hv).2, jn]; split <;> rfl
          · refine ⟨(hreg hv').1, ?_⟩
            show jn g _ (own id) = g
            rw [(hreg hv').2, jn, if_pos List.mem_cons_self]
      · exact good_same hi _
    · exact good_same hi _
  | setitem i k j =>
    rw [World.exec]
    split
    · rename_i b g r g' hv hv'
      split
      · exact good_write hi rfl hv (Loc.setEnt (hi.part g) (hreg hv) trivial)
      · rename_i id
        rw [join_eq]
        refine good_join hi rfl hv (Loc.setEnt (part_join hi.part g [g'] g) ⟨(hreg hv).1, ?_⟩ ?_)
        · show jn g _ (own b) = g
          rw [(hreg hv).2, jn]; split <;> rfl
        · refine ⟨(hreg hv').1, ?_⟩
          show jn g _ (own id) = g
          rw [(hreg hv').2, jn, if_pos List.mem_cons_self]
    · exact good_same hi _
  | immutable i b =>
    rw [World.exec]
    split
    · rename_i id g hv
      exact good_write hi rfl hv (immutable_loc b lim _ _ _ (hi.part g) (hreg hv))
    · exact good_same hi _
  | register i reg =>
    rw [World.exec]
    split
    · rename_i id g hv
      split
      · rename_i H h
        exact good_write hi rfl hv (register_loc (hi.part g) (hreg hv) h)
      · exact good_same hi _
    · exact good_same hi _
  | mutate i p =>
    rw [World.exec]
    split
    · rename_i id g hv
      exact good_write hi rfl hv (mutate_loc (hi.part g) (hreg hv) p)
    · exact good_same hi _
  | get i k =>
    rw [World.exec]
    split
    · rename_i r g hv
      split
      · rename_i r' h
        have hm := hi.vars _ (List.mem_of_getElem? hv)
        refine ⟨own, ⟨hi.part, hi.bound, fun p hp => ?_⟩, Nat.le_refl _, fun j p h => ⟨p.2, ?_, (hi.vars p (List.mem_of_getElem? h)).1⟩, fun _ _ _ _ => rfl⟩
        · rcases List.mem_append.1 hp with hp' | hp'
          · exact hi.vars p hp'
          · rw [List.mem_singleton] at hp'
            subst hp'
            exact ⟨hm.1, get_in (hi.part g) hm.2 h⟩
        · show (w.vars ++ _)[j]? = _
          rw [List.getElem?_append_left (List.getElem?_eq_some_iff.1 h).1, h]
      · exact good_same hi _
    · exact good_same hi _

theorem run_inv (lit : String → LitRes) (lim : Nat) : ∀ (ops : List Op) (w : World), (∃ own, Inv w own) → ∃ own, Inv (w.run lit lim ops) own
  | [], _, h => h
  | op :: ops, w, ⟨_, h⟩ => by
    obtain ⟨own', h', -⟩ := exec_good lit lim h op
    exact run_inv lit lim ops _ ⟨own', h'⟩

theorem init_inv : Inv World.init (fun _ => 0) :=
  ⟨fun L id h => absurd h.1 (by simp [World.init]), fun id h => absurd h (by simp [World.init]), fun p hp => absurd hp List.not_mem_nil⟩

theorem reach_in {R : Nat → Prop} {H : Heap} (hR : Closed R H) {r : Ref} (hr : RefIn R r) {id : Nat} (h : Reach H r id) : R id := by
  induction h with
  | here h => subst h; exact hr
  | step h hc he ih =>
    have : EntsIn R _ := (hR _ ih).2 _ hc
    exact this _ he

theorem reach_frame {R : Nat → Prop} {H H' : Heap} (hR : Closed R H) {r : Ref} (hr : RefIn R r) (hf : ∀ id, R id → H'[id]? = H[id]?) {id : Nat}
    (h : Reach H r id) : Reach H' r id := by
  induction h with
  | here h => exact .here h
  | step h hc he ih => exact .step ih ((hf _ (reach_in hR hr h)).trans hc) he

/-- **C89.** In every program, values of different groups never share an object. -/
theorem groups_apart (lit : String → LitRes) (lim : Nat) (ops : List Op) {i j : Nat} {x y : Ref} {g g' : Nat}
    (hi : (World.init.run lit lim ops).vars[i]? = some (x, g)) (hj : (World.init.run lit lim ops).vars[j]? = some (y, g')) (hne : g ≠ g') :
    Apart (World.init.run lit lim ops).heap x y := by
  obtain ⟨own, h⟩ := run_inv lit lim ops _ ⟨_, init_inv⟩
  intro id h1 h2
  have a := reach_in (h.part g) (h.vars _ (List.mem_of_getElem? hi)).2 h1
  have b := reach_in (h.part g') (h.vars _ (List.mem_of_getElem? hj)).2 h2
  exact hne (a.2.symm.trans b.2)

/-- **C89.** After any program, one more statement leaves unchanged everything that can be reached from any variable, unless the statement
writes to a value whose group (after the statement) is the variable's. -/
theorem others_unchanged (lit : String → LitRes) (lim : Nat) (ops : List Op) (op : Op) {j : Nat} {y : Ref} {g0 : Nat}
    (hj : (World.init.run lit lim ops).vars[j]? = some (y, g0)) :
    ∃ g, ((World.init.run lit lim ops).exec lit lim op).vars[j]? = some (y, g) ∧
      ((∀ i x g', op.receiver = some i → ((World.init.run lit lim ops).exec lit lim op).vars[i]? = some (x, g') → g ≠ g') →
        Unchanged (World.init.run lit lim ops).heap ((World.init.run lit lim ops).exec lit lim op).heap y) := by
  obtain ⟨own, h⟩ := run_inv lit lim ops _ ⟨_, init_inv⟩
  obtain ⟨own', h', hlen, hv, hw⟩ := exec_good lit lim h op
  obtain ⟨g, hg, hlt⟩ := hv j _ hj
  refine ⟨g, hg, fun hne => ?_⟩
  have hR := h'.part g
  have hr := (h'.vars _ (List.mem_of_getElem? hg)).2
  have hf : ∀ id, Reg own' g ((World.init.run lit lim ops).exec lit lim op).heap id →
      (World.init.run lit lim ops).heap[id]? = ((World.init.run lit lim ops).exec lit lim op).heap[id]? := by
    intro id hid
    refine (hw id hid.1 (by rw [hid.2]; exact hlt) fun i r g' h1 h2 => ?_).symm
    rw [hid.2]
    exact hne i r g' h1 h2
  have hR0 := h.part g0
  have hr0 := (h.vars _ (List.mem_of_getElem? hj)).2
  have back : ∀ id, Reach ((World.init.run lit lim ops).exec lit lim op).heap y id → Reach (World.init.run lit lim ops).heap y id :=
    fun id hid => reach_frame hR hr hf hid
  have forth : ∀ id, Reach (World.init.run lit lim ops).heap y id →
      Reg own' g ((World.init.run lit lim ops).exec lit lim op).heap id ∧ Reach ((World.init.run lit lim ops).exec lit lim op).heap y id := by
    intro id hid
    induction hid with
    | here e => subst e; exact ⟨hr, .here rfl⟩
    | step _ hc he ih =>
      have hc' := (hf _ ih.1).symm.trans hc
      have hin : EntsIn _ _ := (hR _ ih.1).2 _ hc'
      exact ⟨hin _ he, .step ih.2 hc' he⟩
  exact ⟨fun id hid => (hf id (forth id hid).1).symm, fun id => ⟨back id, fun hid => (forth id hid).2⟩⟩

/-! ### One call, two values -/

/-- Every object mentioned exists. -/
def Valid (H : Heap) : Prop := Closed (fun id => id < H.length) H

theorem reach_closed {H : Heap} (hH : Valid H) {x : Ref} (hx : RefIn (fun id => id < H.length) x) : Closed (Reach H x) H := by
  intro id hid
  refine ⟨reach_in hH hx hid, fun c hc => ?_⟩
  cases c with
  | list => trivial
  | map kd es =>
    intro e he
    obtain ⟨k, r⟩ := e
    cases r with
    | atom => trivial
    | obj j => exact .step hid hc he

theorem loc_isolated {H H' : Heap} (hH : Valid H) {x y z : Ref} (hx : RefIn (fun id => id < H.length) x) (hy : RefIn (fun id => id < H.length) y)
    (ha : Apart H x y) (hl : Loc (Reach H x) H H') (hz : RefIn (Grow (Reach H x) H H') z) : Unchanged H H' y ∧ Apart H' z y := by
  have hR := reach_closed hH hy
  have hr : RefIn (Reach H y) y := by
    cases y with
    | atom => trivial
    | obj i => exact .here rfl
  have hf : ∀ id, Reach H y id → H'[id]? = H[id]? := fun id hid => hl.frame id (hR id hid).1 fun h => ha id h hid
  have hR' : Closed (Reach H y) H' := fun id hid => ⟨Nat.lt_of_lt_of_le (hR id hid).1 hl.len, fun c hc => (hR id hid).2 c (by rw [← hf id hid]; exact hc)⟩
  refine ⟨⟨hf, fun id => ⟨fun h => reach_in hR' hr h, fun h => reach_frame hR hr hf h⟩⟩, fun id h1 h2 => ?_⟩
  have h3 := reach_in hR' hr h2
  rcases reach_in hl.closed hz h1 with h | h
  · exact ha id h h3
  · have := (hR id h3).1
    omega

theorem self_reach {H : Heap} {x : Ref} : RefIn (Reach H x) x := by
  cases x with
  | atom => trivial
  | obj i => exact .here rfl

/-- The clone of a config shares nothing with any existing value, and cloning changes none. -/
theorem clone_isolated {lim : Nat} {H H' : Heap} (hH : Valid H) {x x' y : Ref} (hy : RefIn (fun id => id < H.length) y)
    (h : clone lim H x = .ok (H', x')) : Unchanged H H' y ∧ Apart H' x' y := by
  unfold clone at h
  split at h
  · cases h
  · rename_i H1 m1 r1 h1
    cases h
    have hc : Closed (Reach H (.atom ⟨.none, ""⟩)) H := reach_closed hH trivial
    obtain ⟨l, -, hr⟩ := copyRef_loc _ _ _ _ _ _ _ _ hc (fun e he => absurd he List.not_mem_nil) h1
    refine loc_isolated (x := .atom ⟨.none, ""⟩) hH trivial hy (fun id h => ?_) l hr
    have := reach_in (R := fun _ => False) (H := H) (fun _ h => h.elim) (r := .atom ⟨.none, ""⟩) trivial h
    exact this.elim

/-- A node constructed from a dict shares nothing with any existing value, and constructing it changes none. -/
theorem construct_isolated {lim : Nat} {H H' : Heap} (hH : Valid H) {x x' y : Ref} {na : Bool} (hy : RefIn (fun id => id < H.length) y)
    (h : construct lim H x na = .ok (H', x')) : Unchanged H H' y ∧ Apart H' x' y := by
  have hc : Closed (Reach H (.atom ⟨.none, ""⟩)) H := reach_closed hH trivial
  obtain ⟨l, hr⟩ := construct_loc _ _ _ _ _ _ _ hc h
  refine loc_isolated (x := .atom ⟨.none, ""⟩) hH trivial hy (fun id h => ?_) l hr
  have := reach_in (R := fun _ => False) (H := H) (fun _ h => h.elim) (r := .atom ⟨.none, ""⟩) trivial h
  exact this.elim

/-- `merge_from_other_cfg`, completed or interrupted by an exception, changes no value that shared nothing with the receiver — the config
merged included — and leaves it apart from the receiver. -/
theorem merge_isolated {lit : String → LitRes} {lim : Nat} {H : Heap} (hH : Valid H) {b : Nat} {other y : Ref} (hb : b < H.length)
    (hy : RefIn (fun id => id < H.length) y) (ha : Apart H (.obj b) y) :
    Unchanged H (mergeFromOther lit lim H b other).1 y ∧ Apart (mergeFromOther lit lim H b other).1 (.obj b) y :=
  loc_isolated hH (x := .obj b) hb hy ha (mergeFromOther_loc (reach_closed hH (x := .obj b) hb) (.here rfl) other) (Or.inl (.here rfl))

/-- `merge_from_list` with values that are not lists, likewise. -/
theorem mergeFromList_isolated {lit : String → LitRes} {lim : Nat} {H : Heap} (hH : Valid H) {root : Flags} {b : Nat} {y : Ref} (hb : b < H.length)
    (hy : RefIn (fun id => id < H.length) y) (ha : Apart H (.obj b) y) {ps : List (String × Ref)}
    (hps : ∀ p ∈ ps, (∃ l, p.2 = .atom l) ∨ IsMap H p.2) :
    Unchanged H (mergeFromList lit lim root b H ps).1 y ∧ Apart (mergeFromList lit lim root b H ps).1 (.obj b) y := by
  refine loc_isolated hH (x := .obj b) hb hy ha (mergeFromList_loc ps _ _ (reach_closed hH (x := .obj b) hb) (.here rfl) fun p hp => ?_)
    (Or.inl (.here rfl))
  rcases hps p hp with ⟨l, h⟩ | h
  · left; rw [h]; trivial
  · exact Or.inr h

/-- `freeze()` / `defrost()` of one config leaves every config that shares nothing with it as it was. -/
theorem freeze_isolated {H : Heap} (hH : Valid H) {b : Nat} {y : Ref} (hb : b < H.length) (hy : RefIn (fun id => id < H.length) y)
    (ha : Apart H (.obj b) y) (v : Bool) (lim : Nat) :
    Unchanged H (immutable v lim H b) y ∧ Apart (immutable v lim H b) (.obj b) y :=
  loc_isolated hH (x := .obj b) hb hy ha (immutable_loc v lim _ _ _ (reach_closed hH (x := .obj b) hb) (.here rfl)) (Or.inl (.here rfl))

end Verif.CfgMem
