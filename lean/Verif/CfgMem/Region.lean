import Verif.CfgMem.Model
/-!
Regions of the heap: what an operation may write and what its result may point to.
-/
namespace Verif.CfgMem
open Verif.Cfg

/-- The objects a reference denotes lie in `R`. -/
def RefIn (R : Nat → Prop) : Ref → Prop
  | .atom _ => True
  | .obj id => R id

def EntsIn (R : Nat → Prop) (es : Ents) : Prop := ∀ e ∈ es, RefIn R e.2

def CellIn (R : Nat → Prop) : Cell → Prop
  | .list _ => True
  | .map _ es => EntsIn R es

/-- `R` is a set of existing objects that point only to each other. -/
def Closed (R : Nat → Prop) (H : Heap) : Prop :=
  ∀ id, R id → id < H.length ∧ ∀ c, H[id]? = some c → CellIn R c

/-- `R` and the objects created between `H` and `H'`. -/
def Grow (R : Nat → Prop) (H H' : Heap) : Nat → Prop := fun id => R id ∨ (H.length ≤ id ∧ id < H'.length)

/-- Going from `H` to `H'` wrote only to `R` and new objects, and these point only to each other. -/
structure Loc (R : Nat → Prop) (H H' : Heap) : Prop where
  len : H.length ≤ H'.length
  frame : ∀ id, id < H.length → ¬ R id → H'[id]? = H[id]?
  closed : Closed (Grow R H H') H'

theorem RefIn.mono {R S : Nat → Prop} (h : ∀ i, R i → S i) {r : Ref} (hr : RefIn R r) : RefIn S r := by
  cases r with
  | atom => trivial
  | obj i => exact h i hr

theorem EntsIn.mono {R S : Nat → Prop} (h : ∀ i, R i → S i) {es : Ents} (hr : EntsIn R es) : EntsIn S es :=
  fun e he => (hr e he).mono h

theorem CellIn.mono {R S : Nat → Prop} (h : ∀ i, R i → S i) {c : Cell} (hr : CellIn R c) : CellIn S c := by
  cases c with
  | list => trivial
  | map kd es => exact EntsIn.mono h hr

theorem grow_same (R : Nat → Prop) (H : Heap) : Grow R H H = R := by
  funext i
  simp only [Grow, eq_iff_iff]
  constructor
  · rintro (h | h)
    · exact h
    · omega
  · exact Or.inl

theorem grow_grow {R : Nat → Prop} {H H' H'' : Heap} (h : H.length ≤ H'.length) (h' : H'.length ≤ H''.length) :
    Grow (Grow R H H') H' H'' = Grow R H H'' := by
  funext i
  simp only [Grow, eq_iff_iff]
  constructor
  · rintro ((h | h) | h)
    · exact Or.inl h
    · exact Or.inr (by omega)
    · exact Or.inr (by omega)
  · rintro (h | h)
    · exact Or.inl (Or.inl h)
    · by_cases hi : i < H'.length
      · exact Or.inl (Or.inr (by omega))
      · exact Or.inr (by omega)

theorem Loc.refl {R : Nat → Prop} {H : Heap} (h : Closed R H) : Loc R H H :=
  ⟨Nat.le_refl _, fun _ _ _ => rfl, by rw [grow_same]; exact h⟩

theorem Loc.trans {R : Nat → Prop} {H H' H'' : Heap} (h : Loc R H H') (h' : Loc (Grow R H H') H' H'') : Loc R H H'' := by
  refine ⟨Nat.le_trans h.len h'.len, fun i hi hR => ?_, ?_⟩
  · rw [h'.frame i (Nat.lt_of_lt_of_le hi h.len) (by rintro (h | h); exact hR h; omega), h.frame i hi hR]
  · have := h'.closed
    rw [grow_grow h.len h'.len] at this
    exact this

theorem Loc.sub {R : Nat → Prop} {H H' : Heap} (_ : Loc R H H') : ∀ i, R i → Grow R H H' i := fun _ => Or.inl

theorem Loc.append {R : Nat → Prop} {H : Heap} (h : Closed R H) {c : Cell} (hc : CellIn R c) :
    Loc R H (H ++ [c]) ∧ Grow R H (H ++ [c]) H.length := by
  refine ⟨⟨by simp, fun i hi _ => ?_, fun i hi => ?_⟩, Or.inr ⟨Nat.le_refl _, by simp⟩⟩
  · rw [List.getElem?_append_left hi]
  · have hlt : i < (H ++ [c]).length := by
      rcases hi with h1 | h1
      · have := (h i h1).1
        rw [List.length_append]; omega
      · exact h1.2
    refine ⟨hlt, fun c' hc' => ?_⟩
    have hlt' : i < H.length + 1 := by simpa using hlt
    rcases Nat.lt_or_ge i H.length with h1 | h1
    · rw [List.getElem?_append_left h1] at hc'
      rcases hi with h2 | h2
      · exact ((h i h2).2 c' hc').mono fun _ => Or.inl
      · omega
    · have : i = H.length := by omega
      subst this
      rw [List.getElem?_append_right (Nat.le_refl _)] at hc'
      simp at hc'
      subst hc'
      exact hc.mono fun _ => Or.inl

theorem Loc.set {R : Nat → Prop} {H : Heap} (h : Closed R H) {b : Nat} (hb : R b) {c : Cell} (hc : CellIn R c) :
    Loc R H (H.set b c) := by
  refine ⟨by simp, fun i _ hR => ?_, ?_⟩
  · rw [List.getElem?_set_ne]
    rintro rfl
    exact hR hb
  · have : Grow R H (H.set b c) = R := by
      rw [← grow_same R H]
      funext i
      simp [Grow]
    rw [this]
    intro i hi
    refine ⟨by simpa using (h i hi).1, fun c' hc' => ?_⟩
    by_cases hib : b = i
    · subst hib
      rw [List.getElem?_set_self (h b hb).1] at hc'
      cases hc'
      exact hc
    · rw [List.getElem?_set_ne hib] at hc'
      exact (h i hi).2 c' hc'

theorem put_in {R : Nat → Prop} {k : String} {r : Ref} (hr : RefIn R r) : ∀ {es : Ents}, EntsIn R es → EntsIn R (put k r es)
  | [], _ => by
    intro e he
    rw [put, List.mem_singleton] at he
    rw [he]; exact hr
  | (k', q) :: es, h => by
    intro e he
    rw [put] at he
    have h1 : EntsIn R es := fun e he => h e (List.mem_cons_of_mem _ he)
    split at he
    · rcases List.mem_cons.1 he with he' | he'
      · rw [he']; exact hr
      · exact h1 e he'
    · rcases List.mem_cons.1 he with he' | he'
      · rw [he']; exact h _ List.mem_cons_self
      · exact put_in hr h1 e he'

theorem look_in {R : Nat → Prop} {k : String} {r : Ref} : ∀ {es : Ents}, EntsIn R es → look k es = some r → RefIn R r
  | [], _, h => by simp [look] at h
  | (k', q) :: es, h, hl => by
    rw [look] at hl
    split at hl
    · cases hl; exact h _ List.mem_cons_self
    · exact look_in (fun e he => h e (List.mem_cons_of_mem _ he)) hl

theorem Loc.setEnt {R : Nat → Prop} {H : Heap} (h : Closed R H) {b : Nat} (hb : R b) {k : String} {r : Ref} (hr : RefIn R r) :
    Loc R H (setEnt H b k r) := by
  unfold CfgMem.setEnt
  split
  · rename_i kd es he
    exact Loc.set h hb (put_in hr ((h b hb).2 _ he))
  · exact Loc.refl h

/-- The targets of a memo lie in `R`. -/
def MemoIn (R : Nat → Prop) (m : Memo) : Prop := ∀ e ∈ m, R e.2

theorem MemoIn.mono {R S : Nat → Prop} (h : ∀ i, R i → S i) {m : Memo} (hm : MemoIn R m) : MemoIn S m :=
  fun e he => h _ (hm e he)

theorem lookup_mem {m : Memo} {i j : Nat} (h : m.lookup i = some j) : (i, j) ∈ m := by
  induction m with
  | nil => simp at h
  | cons e m ih =>
    obtain ⟨a, b⟩ := e
    rw [List.lookup_cons] at h
    by_cases hab : i == a
    · simp only [hab] at h
      cases h
      rw [eq_of_beq hab]
      exact List.mem_cons_self
    · simp only [Bool.not_eq_true] at hab
      simp only [hab] at h
      exact List.mem_cons_of_mem _ (ih h)

theorem copyEnts_loc {f : Heap → Memo → Ref → Option (Heap × Memo × Ref)}
    (hf : ∀ R H m r H' m' r', Closed R H → MemoIn R m → f H m r = some (H', m', r') →
      Loc R H H' ∧ MemoIn (Grow R H H') m' ∧ RefIn (Grow R H H') r') :
    ∀ (es : Ents) (R : Nat → Prop) (H : Heap) (m : Memo) (H' : Heap) (m' : Memo) (es' : Ents), Closed R H → MemoIn R m →
      copyEnts f H m es = some (H', m', es') → Loc R H H' ∧ MemoIn (Grow R H H') m' ∧ EntsIn (Grow R H H') es'
  | [], R, H, m, H', m', es', hR, hm, h => by
    rw [copyEnts] at h
    cases h
    exact ⟨Loc.refl hR, hm.mono fun _ => Or.inl, fun e he => absurd he List.not_mem_nil⟩
  | (k, r) :: es, R, H, m, H', m', es', hR, hm, h => by
    rw [copyEnts] at h
    split at h
    · cases h
    · rename_i H1 m1 r1 h1
      split at h
      · cases h
      · rename_i H2 m2 es2 h2
        cases h
        obtain ⟨l1, hm1, hr1⟩ := hf R H m r H1 m1 r1 hR hm h1
        obtain ⟨l2, hm2, he2⟩ := copyEnts_loc hf es _ H1 m1 _ _ es2 l1.closed hm1 h2
        have hg := grow_grow (R := R) l1.len l2.len
        rw [hg] at hm2 he2
        refine ⟨l1.trans l2, hm2, fun e he => ?_⟩
        rcases List.mem_cons.1 he with he' | he'
        · rw [he']
          exact hr1.mono fun i hi => hg ▸ Or.inl hi
        · exact he2 e he'

/-- A deep copy writes only new objects, and what it returns points only to what its memo allows and to new objects. -/
theorem copyRef_loc : ∀ (n : Nat) (R : Nat → Prop) (H : Heap) (m : Memo) (r : Ref) (H' : Heap) (m' : Memo) (r' : Ref), Closed R H → MemoIn R m →
    copyRef n H m r = some (H', m', r') → Loc R H H' ∧ MemoIn (Grow R H H') m' ∧ RefIn (Grow R H H') r' := by
  intro n
  induction n with
  | zero =>
    intro R H m r H' m' r' hR hm h
    cases r with
    | atom l => rw [copyRef] at h; cases h; exact ⟨Loc.refl hR, hm.mono fun _ => Or.inl, trivial⟩
    | obj id => rw [copyRef] at h; cases h
  | succ n ih =>
    intro R H m r H' m' r' hR hm h
    cases r with
    | atom l => rw [copyRef] at h; cases h; exact ⟨Loc.refl hR, hm.mono fun _ => Or.inl, trivial⟩
    | obj id =>
      rw [copyRef] at h
      split at h
      · rename_i j hj
        cases h
        exact ⟨Loc.refl hR, hm.mono fun _ => Or.inl, Or.inl (hm _ (lookup_mem hj))⟩
      · split at h
        · cases h
        · rename_i p hp
          cases h
          obtain ⟨l, hn⟩ := Loc.append hR (c := .list p) trivial
          refine ⟨l, fun e he => ?_, hn⟩
          rcases List.mem_cons.1 he with he' | he'
          · rw [he']; exact hn
          · exact Or.inl (hm e he')
        · rename_i kd es hes
          split at h
          · cases h
          · rename_i H1 m1 es1 h1
            cases h
            obtain ⟨l1, hm1, he1⟩ := copyEnts_loc ih es R H m H1 m1 es1 hR hm h1
            obtain ⟨l, hn⟩ := Loc.append l1.closed (c := .map kd es1) he1
            have hg := grow_grow (R := R) l1.len l.len
            rw [hg] at hn
            refine ⟨l1.trans l, fun e he => ?_, hn⟩
            rcases List.mem_cons.1 he with he' | he'
            · rw [he']; exact hn
            · rw [← hg]; exact Or.inl (hm1 e he')

theorem buildEnts_loc {new : Heap → Ref → Except Fail (Heap × Ref)}
    (hn : ∀ R H r H' r', Closed R H → new H r = .ok (H', r') → Loc R H H' ∧ RefIn (Grow R H H') r') :
    ∀ (es : Ents) (R : Nat → Prop) (H : Heap) (H' : Heap) (es' : Ents), Closed R H → EntsIn R es →
      buildEnts new H es = .ok (H', es') → Loc R H H' ∧ EntsIn (Grow R H H') es'
  | [], R, H, H', es', hR, _, h => by
    rw [buildEnts] at h
    cases h
    exact ⟨Loc.refl hR, fun e he => absurd he List.not_mem_nil⟩
  | (k, r) :: es, R, H, H', es', hR, hes, h => by
    rw [buildEnts] at h
    split at h
    · cases h
    · rename_i H1 r1 h1
      split at h
      · cases h
      · rename_i H2 es2 h2
        cases h
        have h3 : Loc R H H1 ∧ RefIn (Grow R H H1) r1 := by
          unfold buildVal at h1
          split at h1
          · split at h1
            · cases h1; exact ⟨Loc.refl hR, trivial⟩
            · cases h1
          · split at h1
            · exact hn R _ _ _ _ hR h1
            · cases h1
              exact ⟨Loc.refl hR, (hes _ List.mem_cons_self).mono fun _ => Or.inl⟩
            · cases h1
        obtain ⟨l1, hr1⟩ := h3
        obtain ⟨l2, he2⟩ := buildEnts_loc hn es _ H1 _ es2 l1.closed (fun e he => (hes e (List.mem_cons_of_mem _ he)).mono fun _ => Or.inl) h2
        have hg := grow_grow (R := R) l1.len l2.len
        rw [hg] at he2
        refine ⟨l1.trans l2, fun e he => ?_⟩
        rcases List.mem_cons.1 he with he' | he'
        · rw [he']
          exact hr1.mono fun i hi => hg ▸ Or.inl hi
        · exact he2 e he'

/-- Construction writes only new objects, and the node it returns points only to new objects: with `R` empty, nothing is shared. -/
theorem construct_loc : ∀ (n : Nat) (R : Nat → Prop) (H : Heap) (r : Ref) (na : Bool) (H' : Heap) (r' : Ref), Closed R H →
    construct n H r na = .ok (H', r') → Loc R H H' ∧ RefIn (Grow R H H') r' := by
  intro n
  induction n with
  | zero => intro R H r na H' r' _ h; rw [construct] at h; cases h
  | succ n ih =>
    intro R H r na H' r' hR h
    rw [construct] at h
    split at h
    · cases h
    · rename_i H1 m1 id h1
      obtain ⟨l1, -, hi⟩ := copyRef_loc _ R _ _ _ _ _ _ hR (fun e he => absurd he List.not_mem_nil) h1
      split at h
      · rename_i kd es hes
        split at h
        · cases h
        · rename_i H2 es2 h2
          cases h
          obtain ⟨l2, he2⟩ := buildEnts_loc (fun R H r H' r' hR h => ih R H r false H' r' hR h) es _ H1 H2 es2 l1.closed
            ((l1.closed id hi).2 _ hes) h2
          obtain ⟨l, hn⟩ := Loc.append l2.closed (c := .map (some { Flags.fresh with newAllowed := na }) es2) he2
          have l12 := l1.trans l2
          have hg := grow_grow (R := R) l1.len l2.len
          rw [hg] at hn l
          have hg2 := grow_grow (R := R) l12.len l.len
          rw [hg2] at hn
          exact ⟨l12.trans l, hn⟩
      · cases h
    · cases h

theorem ofLeaf_loc {R : Nat → Prop} {H : Heap} (hR : Closed R H) (l : Leaf) :
    Loc R H (ofLeaf H l).1 ∧ RefIn (Grow R H (ofLeaf H l).1) (ofLeaf H l).2 := by
  unfold ofLeaf
  split
  · exact Loc.append hR (c := .list l.payload) trivial
  · exact ⟨Loc.refl hR, trivial⟩

theorem ofTree_loc : ∀ (t : Tree) (R : Nat → Prop) (H : Heap), Closed R H →
    Loc R H (ofTree H t).1 ∧ EntsIn (Grow R H (ofTree H t).1) (ofTree H t).2
  | .nil, R, H, hR => ⟨Loc.refl hR, fun e he => absurd he List.not_mem_nil⟩
  | .leaf k l rest, R, H, hR => by
    obtain ⟨l1, hr1⟩ := ofLeaf_loc hR l
    obtain ⟨l2, he2⟩ := ofTree_loc rest _ _ l1.closed
    have hg := grow_grow (R := R) l1.len l2.len
    rw [hg] at he2
    refine ⟨l1.trans l2, fun e he => ?_⟩
    rcases List.mem_cons.1 he with he' | he'
    · rw [he']
      have : RefIn (Grow R H (ofTree (ofLeaf H l).1 rest).1) (ofLeaf H l).2 := hr1.mono fun i hi => hg ▸ Or.inl hi
      exact this
    · exact he2 e he'
  | .sub k kd t rest, R, H, hR => by
    obtain ⟨l1, he1⟩ := ofTree_loc t R H hR
    obtain ⟨l2, hn⟩ := Loc.append l1.closed (c := .map kd (ofTree H t).2) he1
    obtain ⟨l3, he3⟩ := ofTree_loc rest _ _ l2.closed
    have hg := grow_grow (R := R) l1.len l2.len
    have l12 := l1.trans l2
    rw [hg] at l3 hn he3
    have hg2 := grow_grow (R := R) l12.len l3.len
    rw [hg2] at he3
    refine ⟨l12.trans l3, fun e he => ?_⟩
    rcases List.mem_cons.1 he with he' | he'
    · rw [he']
      have : Grow R H (ofTree ((ofTree H t).1 ++ [.map kd (ofTree H t).2]) rest).1 (ofTree H t).1.length := hg2 ▸ Or.inl hn
      exact this
    · exact he3 e he'

/-- The object a value denotes is a dict or a node (which `decode` copies). -/
def IsMap (H : Heap) (r : Ref) : Prop := ∃ id kd es, r = .obj id ∧ H[id]? = some (.map kd es)

theorem decode_loc {lit : String → LitRes} {lim : Nat} {R : Nat → Prop} {H : Heap} (hR : Closed R H) {r : Ref}
    (hr : RefIn R r ∨ IsMap H r) {H' : Heap} {r' : Ref} (h : decode lit lim H r = .ok (H', r')) :
    Loc R H H' ∧ RefIn (Grow R H H') r' := by
  cases r with
  | atom l =>
    rw [decode] at h
    split at h
    · split at h
      · rename_i l' _
        have h' := ofLeaf_loc hR l'
        rw [Except.ok.inj h] at h'
        exact h'
      · rename_i t _
        obtain ⟨l1, he1⟩ := ofTree_loc t R H hR
        obtain ⟨l2, hn⟩ := Loc.append l1.closed (c := .map none (ofTree H t).2) he1
        rw [grow_grow l1.len l2.len] at hn
        cases h
        exact ⟨l1.trans l2, hn⟩
      · cases h; exact ⟨Loc.refl hR, trivial⟩
      · cases h
    · cases h; exact ⟨Loc.refl hR, trivial⟩
  | obj id =>
    rw [decode] at h
    split at h
    · exact construct_loc _ R _ _ _ _ _ hR h
    · rename_i hno
      cases h
      refine ⟨Loc.refl hR, ?_⟩
      rcases hr with hr | ⟨i, kd, es, hi, hc⟩
      · exact Or.inl hr
      · cases hi
        exact absurd hc (hno kd es)

theorem coerce_loc {R : Nat → Prop} {H : Heap} (hR : Closed R H) {r old : Ref} (hr : RefIn R r) {H' : Heap} {r' : Ref}
    (h : coerce H r old = .ok (H', r')) : Loc R H H' ∧ RefIn (Grow R H H') r' := by
  unfold coerce at h
  split at h
  · cases h; exact ⟨Loc.refl hR, hr.mono fun _ => Or.inl⟩
  · split at h
    · split at h
      · cases h
        exact Loc.append hR (c := .list _) trivial
      · cases h
    · split at h
      · split at h
        · cases h; exact ⟨Loc.refl hR, trivial⟩
        · cases h
      · cases h

theorem Loc.step {R : Nat → Prop} {H H' H'' : Heap} (h : Loc R H H')
    (h' : Closed (Grow R H H') H' → Loc (Grow R H H') H' H'') : Loc R H H'' := h.trans (h' h.closed)

theorem mergeLoop_loc {lit : String → LitRes} {lim : Nat} {root : Flags}
    {rec : List String → Heap → Ents → Nat → Heap × Option Fail}
    (hrec : ∀ pre R H es b, Closed R H → R b → Loc R H (rec pre H es b).1) :
    ∀ (es : Ents) (pre : List String) (R : Nat → Prop) (H : Heap) (b : Nat), Closed R H → R b →
      Loc R H (mergeLoop lit lim root rec pre H es b).1
  | [], pre, R, H, b, hR, hb => Loc.refl hR
  | (k, v) :: es, pre, R, H, b, hR, hb => by
    rw [mergeLoop]
    split
    · exact Loc.refl hR
    · rename_i H1 m1 v1 h1
      obtain ⟨l1, -, hv1⟩ := copyRef_loc _ R _ _ _ _ _ _ hR (fun e he => absurd he List.not_mem_nil) h1
      split
      · exact l1
      · rename_i H2 v2 h2
        obtain ⟨l2, hv2⟩ := decode_loc l1.closed (Or.inl hv1) h2
        have hg := grow_grow (R := R) l1.len l2.len
        have l12 := l1.trans l2
        rw [hg] at hv2
        have hb2 : Grow R H H2 b := Or.inl hb
        split
        · rename_i bf bes hbc
          have hbes : EntsIn (Grow R H H2) bes := (l12.closed b hb2).2 _ hbc
          split
          · rename_i old hold
            have ho : RefIn (Grow R H H2) old := look_in hbes hold
            split
            · exact l12
            · rename_i H3 v3 h3
              obtain ⟨l3, hv3⟩ := coerce_loc l12.closed hv2 h3
              have hg3 := grow_grow (R := R) l12.len l3.len
              have l123 := l12.trans l3
              rw [hg3] at hv3
              have hset : ∀ H4, H4 = setEnt H3 b k v3 → Loc R H (mergeLoop lit lim root rec pre H4 es b).1 := by
                rintro _ rfl
                have l4 := Loc.setEnt (k := k) l123.closed (Or.inl hb) hv3
                exact (l123.trans l4).step fun hc => mergeLoop_loc hrec es pre _ _ b hc (Or.inl hb)
              split
              · rename_i i c
                split
                · rename_i f5 ves hves
                  have ho3 : RefIn (Grow R H H3) (.obj c) := hg3 ▸ Or.inl ho
                  have l4 := hrec (pre ++ [k]) _ H3 ves c l123.closed ho3
                  split
                  · rename_i H4 e4 h4
                    rw [h4] at l4
                    exact l123.trans l4
                  · rename_i H4 h4
                    rw [h4] at l4
                    exact (l123.trans l4).step fun hc => mergeLoop_loc hrec es pre _ _ b hc (Or.inl hb)
                · exact hset _ rfl
              · exact hset _ rfl
          · split
            · have l4 := Loc.setEnt (k := k) l12.closed (Or.inl hb) hv2
              exact (l12.trans l4).step fun hc => mergeLoop_loc hrec es pre _ _ b hc (Or.inl hb)
            · split
              · exact l12
              · exact l12.step fun hc => mergeLoop_loc hrec es pre _ _ b hc (Or.inl hb)
        · exact l12

theorem merge_loc {lit : String → LitRes} {lim : Nat} {root : Flags} : ∀ (n : Nat) (pre : List String) (R : Nat → Prop) (H : Heap) (es : Ents) (b : Nat),
    Closed R H → R b → Loc R H (merge lit lim root n pre H es b).1 := by
  intro n
  induction n with
  | zero => intro pre R H es b hR _; exact Loc.refl hR
  | succ n ih => intro pre R H es b hR hb; exact mergeLoop_loc ih es pre R H b hR hb

theorem mergeFromOther_loc {lit : String → LitRes} {lim : Nat} {R : Nat → Prop} {H : Heap} (hR : Closed R H) {self : Nat} (hs : R self)
    (other : Ref) : Loc R H (mergeFromOther lit lim H self other).1 := by
  unfold mergeFromOther
  split
  · exact Loc.refl hR
  · split
    · exact merge_loc _ _ R H _ _ hR hs
    · exact Loc.refl hR

theorem walk_in {R : Nat → Prop} {H : Heap} (hR : Closed R H) : ∀ (ks : List String) (d : Nat), R d → ∀ {d' : Nat} {k : String},
    walk H d ks = .ok (d', k) → R d'
  | [], d, hd, d', k, h => by rw [walk] at h; cases h
  | [k0], d, hd, d', k, h => by
    rw [walk] at h
    split at h
    · split at h
      · cases h; exact hd
      · cases h
    · cases h
  | k0 :: k1 :: ks, d, hd, d', k, h => by
    rw [walk] at h
    split at h
    · rename_i kd es he
      split at h
      · cases h
      · rename_i c hc
        exact walk_in hR (k1 :: ks) c (look_in (R := R) ((hR d hd).2 _ he) hc) h
      · cases h
    · cases h

theorem listStep_loc {lit : String → LitRes} {lim : Nat} {root : Flags} {R : Nat → Prop} {H : Heap} (hR : Closed R H) {self : Nat} (hs : R self)
    {key : String} {v : Ref} (hv : RefIn R v ∨ IsMap H v) {H' : Heap} (h : listStep lit lim root H self key v = .ok H') : Loc R H H' := by
  unfold listStep at h
  split at h
  · cases h; exact Loc.refl hR
  · split at h
    · cases h
    · unfold assign at h
      split at h
      · cases h
      · rename_i d k hw
        have hd := walk_in hR _ _ hs hw
        split at h
        · cases h
        · rename_i H1 v1 h1
          obtain ⟨l1, hv1⟩ := decode_loc hR hv h1
          split at h
          · split at h
            · cases h
            · rename_i old _
              split at h
              · cases h
              · rename_i H2 v2 h2
                cases h
                obtain ⟨l2, hv2⟩ := coerce_loc l1.closed hv1 h2
                have hg := grow_grow (R := R) l1.len l2.len
                rw [hg] at hv2
                have l12 := l1.trans l2
                exact l12.trans (Loc.setEnt l12.closed (Or.inl hd) hv2)
          · cases h

theorem Loc.isMap {R : Nat → Prop} {H H' : Heap} (h : Loc R H H') {r : Ref} (hr : RefIn R r ∨ IsMap H r) :
    RefIn (Grow R H H') r ∨ IsMap H' r := by
  rcases hr with hr | ⟨i, kd, es, rfl, hc⟩
  · exact Or.inl (hr.mono fun _ => Or.inl)
  · by_cases hi : R i
    · exact Or.inl (Or.inl hi)
    · refine Or.inr ⟨i, kd, es, rfl, ?_⟩
      rw [h.frame i (List.getElem?_eq_some_iff.1 hc).1 hi, hc]

theorem mergeFromList_loc {lit : String → LitRes} {lim : Nat} {root : Flags} {self : Nat} : ∀ (ps : List (String × Ref)) (R : Nat → Prop) (H : Heap),
    Closed R H → R self → (∀ p ∈ ps, RefIn R p.2 ∨ IsMap H p.2) → Loc R H (mergeFromList lit lim root self H ps).1
  | [], R, H, hR, _, _ => Loc.refl hR
  | (k, v) :: ps, R, H, hR, hs, hv => by
    rw [mergeFromList]
    split
    · exact Loc.refl hR
    · rename_i H1 h1
      have l1 := listStep_loc hR hs (hv _ List.mem_cons_self) h1
      exact l1.step fun hc => mergeFromList_loc ps _ H1 hc (Or.inl hs) fun p hp => l1.isMap (hv p (List.mem_cons_of_mem _ hp))

theorem setattr_loc {R : Nat → Prop} {H : Heap} (hR : Closed R H) {self : Nat} (hs : R self) {name : String} {v : Ref} (hv : RefIn R v)
    {H' : Heap} (h : setattr H self name v = .ok H') : Loc R H H' := by
  unfold setattr at h
  have l := Loc.setEnt (k := name) hR hs hv
  split at h
  · split at h
    · cases h
    · split at h
      · cases h
      · split at h
        · split at h
          · cases h; exact l
          · cases h
        · split at h
          · cases h; exact l
          · cases h; exact l
          · cases h
  · cases h

theorem register_loc {R : Nat → Prop} {H : Heap} (hR : Closed R H) {self : Nat} (hs : R self) {reg : Flags → Except Err Flags}
    {H' : Heap} (h : register reg H self = .ok H') : Loc R H H' := by
  unfold register at h
  split at h
  · rename_i f es he
    split at h
    · cases h
    · cases h
      have hes : EntsIn R es := (hR self hs).2 _ he
      exact Loc.set hR hs (c := .map _ es) hes
  · cases h

theorem immutableEnts_loc {f : Heap → Nat → Heap} (hf : ∀ R H id, Closed R H → R id → Loc R H (f H id)) :
    ∀ (es : Ents) (R : Nat → Prop) (H : Heap), Closed R H → EntsIn R es → Loc R H (immutableEnts f H es)
  | [], R, H, hR, _ => Loc.refl hR
  | (_, .atom _) :: es, R, H, hR, he => by
    rw [immutableEnts]
    exact immutableEnts_loc hf es R H hR fun e h => he e (List.mem_cons_of_mem _ h)
  | (_, .obj id) :: es, R, H, hR, he => by
    rw [immutableEnts]
    have he' : EntsIn R es := fun e h => he e (List.mem_cons_of_mem _ h)
    split
    · exact (hf R H id hR (he _ List.mem_cons_self)).step fun hc => immutableEnts_loc hf es _ _ hc (he'.mono fun _ => Or.inl)
    · exact immutableEnts_loc hf es R H hR he'

theorem immutable_loc (b : Bool) : ∀ (n : Nat) (R : Nat → Prop) (H : Heap) (id : Nat), Closed R H → R id → Loc R H (immutable b n H id) := by
  intro n
  induction n with
  | zero => intro R H id hR _; exact Loc.refl hR
  | succ n ih =>
    intro R H id hR hid
    rw [immutable]
    split
    · rename_i f es he
      have hes : EntsIn R es := (hR id hid).2 _ he
      exact (Loc.set hR hid (c := .map _ es) hes).step fun hc => immutableEnts_loc ih es _ _ hc (hes.mono fun _ => Or.inl)
    · exact Loc.refl hR

theorem mutate_loc {R : Nat → Prop} {H : Heap} (hR : Closed R H) {id : Nat} (hs : R id) (p : String) : Loc R H (mutate H id p) := by
  unfold mutate
  split
  · exact Loc.set hR hs (c := .list p) trivial
  · exact Loc.refl hR

theorem get_in {R : Nat → Prop} {H : Heap} (hR : Closed R H) {k : String} {r r' : Ref} (hr : RefIn R r) (h : get H k r = some r') : RefIn R r' := by
  cases r with
  | atom => rw [get] at h; cases h
  | obj id =>
    rw [get] at h
    split at h
    · rename_i kd es he
      exact look_in (R := R) ((hR id hr).2 _ he) h
    · cases h

end Verif.CfgMem
