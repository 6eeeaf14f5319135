import Verif.Slam.Colour
import Verif.Icp.Order
/-!
C97: the order in which the map lists its points does not matter.
-/
namespace Verif.Slam
open Verif Pcs
set_option linter.unusedSectionVars false
set_option linter.unusedSimpArgs false

section
variable {α : Type*} [Field α] [LinearOrder α] [IsStrictOrderedRing α] [FloorRing α]

/-! ### Specification -/

/-- The batch `c` lists the points of every cloud of `a` in another order: entry `n` of cloud `b` of every attribute of `a` is entry
`ρ b n` of the same attribute of `c`.  (`ρ b` permutes the positions in cloud `b`.) -/
structure Reordered (ρ : Nat → Equiv.Perm Nat) (a c : Clouds α) : Prop where
  attr : ∀ X, c X = none ↔ a X = none
  len : ∀ X l m, a X = some l → c X = some m → m.length = l.length
  row : ∀ X l m, a X = some l → c X = some m → ∀ b n, Fusion.rowAt m b (ρ b n) = Fusion.rowAt l b n
  fix : ∀ b n, (∀ l, a .points = some l → Fusion.sizeAt l b ≤ n) → ρ b n = n

/-- The provider's answer to the question `(maps, fr)` does not depend on the order of the points in `maps`. -/
def OrderFree (provide : PC α → PC α → Except Icp.Err (List (M4 α))) (maps fr : PC α) : Prop :=
  ∀ a c ρ maps2 fr2 f, Inv maps a → Inv maps2 c → Inv fr f → Inv fr2 f → Reordered ρ a c → provide maps2 fr2 = provide maps fr

/-- No pixel has two candidates among the points of the map `a` with the same confidence and the same distance to the pixel's vertex. -/
def NoTie (S : Sys α) (d t : α) (i : Rgbd.In α) (T : Nat → Nat → M4 α) (a : Clouds α) : Prop :=
  ∀ P Nn F, a .points = some P → a .normals = some Nn → a .features = some F → ∀ r s : Fusion.Row,
    Fusion.Candidate S.nrm P Nn (view S i) T d t r → Fusion.Candidate S.nrm P Nn (view S i) T d t s → r.b = s.b → r.h = s.h → r.w = s.w →
    Fusion.conf F r.b r.n = Fusion.conf F s.b s.n → Fusion.rayDist P (view S i) r = Fusion.rayDist P (view S i) s → r.n = s.n

/-! ### Permutations of positions -/

theorem index_of_perm {β : Type*} {l m : List β} (h : l.Perm m) :
    ∃ e : Equiv.Perm Nat, (∀ n, l.length ≤ n → e n = n) ∧ ∀ n, m[e n]? = l[n]? := by
  induction h with
  | nil => exact ⟨1, fun _ _ => rfl, fun _ => rfl⟩
  | @cons x l m _ ih =>
    obtain ⟨e, h1, h2⟩ := ih
    refine ⟨⟨fun n => match n with | 0 => 0 | n + 1 => e n + 1, fun n => match n with | 0 => 0 | n + 1 => e.symm n + 1, ?_, ?_⟩, ?_, ?_⟩
    · intro n; cases n <;> simp
    · intro n; cases n <;> simp
    · intro n hn
      cases n with
      | zero => rfl
      | succ n => show e n + 1 = n + 1; rw [h1 n (by simpa using hn)]
    · intro n
      cases n with
      | zero => rfl
      | succ n => show (x :: m)[e n + 1]? = (x :: l)[n + 1]?; simpa using h2 n
  | swap x y l =>
    refine ⟨Equiv.swap 0 1, fun n hn => Equiv.swap_apply_of_ne_of_ne (by simp at hn; omega) (by simp at hn; omega), fun n => ?_⟩
    match n with
    | 0 => rw [Equiv.swap_apply_left]; rfl
    | 1 => rw [Equiv.swap_apply_right]; rfl
    | n + 2 => rw [Equiv.swap_apply_of_ne_of_ne (by omega) (by omega)]; rfl
  | @trans l m k h1 _ ih1 ih2 =>
    obtain ⟨e, a1, a2⟩ := ih1
    obtain ⟨f, b1, b2⟩ := ih2
    refine ⟨e.trans f, fun n hn => ?_, fun n => ?_⟩
    · rw [Equiv.trans_apply, a1 n hn, b1 n (by rw [← h1.length_eq]; exact hn)]
    · rw [Equiv.trans_apply, b2, a2]

theorem perm_of_index {β : Type*} {l m : List β} {e : Equiv.Perm Nat} (hl : m.length = l.length) (hf : ∀ n, l.length ≤ n → e n = n)
    (h : ∀ n, m[e n]? = l[n]?) : m.Perm l := by
  have lt : ∀ n, n < l.length → e n < l.length := fun n hn => by
    have : (m[e n]?).isSome := by rw [h, List.getElem?_eq_getElem hn]; rfl
    rw [← hl]; simpa using this
  cases l with
  | nil => rw [List.length_nil, List.length_eq_zero_iff] at hl; subst hl; exact .refl _
  | cons x l' =>
    generalize hL : x :: l' = l at *
    have e1 : ∀ q : List β, q = (List.range q.length).map fun n => q.getD n x := by
      intro q
      refine List.ext_getElem (by simp) fun n h1 h2 => ?_
      simp [List.getD_eq_getElem?_getD, List.getElem?_eq_getElem h1]
    have e2 : l = ((List.range l.length).map e).map fun n => m.getD n x := by
      rw [List.map_map]
      refine (e1 l).trans (List.map_congr_left fun n hn => ?_)
      simp only [Function.comp, List.getD_eq_getElem?_getD, h]
    have e3 : ((List.range l.length).map e).Perm (List.range l.length) := by
      refine (List.perm_ext_iff_of_nodup (List.nodup_range.map e.injective) List.nodup_range).2 fun n => ?_
      simp only [List.mem_map, List.mem_range]
      constructor
      · rintro ⟨k, hk, rfl⟩; exact lt k hk
      · intro hn
        refine ⟨e.symm n, ?_, e.apply_symm_apply n⟩
        by_contra hc
        have := hf _ (not_lt.1 hc)
        rw [e.apply_symm_apply] at this
        omega
    rw [e2]
    refine List.Perm.trans ?_ (e3.symm.map _)
    rw [← hl]
    exact .of_eq (e1 m)

/-! ### Clouds -/

variable {ρ : Nat → Equiv.Perm Nat} {a c : Clouds α}

theorem Reordered.refl (a : Clouds α) : Reordered (fun _ => 1) a a :=
  ⟨fun _ => Iff.rfl, fun X l m h h' => by rw [h] at h'; cases h'; rfl, fun X l m h h' b n => by rw [h] at h'; cases h'; rfl, fun _ _ _ => rfl⟩

theorem Reordered.vec (h : Reordered ρ a c) {X : Attr} {l m : List (T2 α)} (hl : a X = some l) (hm : c X = some m) (b n : Nat) :
    Fusion.vecAt m b (ρ b n) = Fusion.vecAt l b n := by rw [Fusion.vecAt, Fusion.vecAt, h.row X l m hl hm]

theorem Reordered.conf (h : Reordered ρ a c) {l m : List (T2 α)} (hl : a .features = some l) (hm : c .features = some m) (b n : Nat) :
    Fusion.conf m b (ρ b n) = Fusion.conf l b n := by rw [Fusion.conf, Fusion.conf, h.row _ l m hl hm]

theorem Reordered.forth (h : Reordered ρ a c) {X : Attr} {l : List (T2 α)} (hl : a X = some l) : ∃ m, c X = some m :=
  Option.ne_none_iff_exists'.1 fun hc => by rw [(h.attr X).1 hc] at hl; cases hl

theorem Reordered.back (h : Reordered ρ a c) {X : Attr} {m : List (T2 α)} (hm : c X = some m) : ∃ l, a X = some l :=
  Option.ne_none_iff_exists'.1 fun hc => by rw [(h.attr X).2 hc] at hm; cases hm

theorem Reordered.size (h : Reordered ρ a c) {P Q : List (T2 α)} (hP : a .points = some P) (hQ : c .points = some Q) (b : Nat) :
    Fusion.sizeAt Q b = Fusion.sizeAt P b := by
  have key : ∀ n, n < Fusion.sizeAt Q b ↔ n < Fusion.sizeAt P b := by
    intro n
    constructor
    · intro hn
      by_contra hc
      have := h.row _ P Q hP hQ b n
      rw [h.fix b n fun l hl => by rw [hP] at hl; cases hl; exact not_lt.1 hc] at this
      rw [← Fusion.sizeAt_isSome, this, Fusion.sizeAt_isSome] at hn
      exact hc hn
    · intro hn
      have h1 := h.row _ P Q hP hQ b ((ρ b).symm n)
      rw [Equiv.apply_symm_apply] at h1
      rw [← Fusion.sizeAt_isSome, h1, Fusion.sizeAt_isSome]
      by_contra hc
      have := h.fix b ((ρ b).symm n) fun l hl => by rw [hP] at hl; cases hl; exact not_lt.1 hc
      rw [Equiv.apply_symm_apply] at this
      rw [← this] at hc; exact hc hn
  exact le_antisymm (not_lt.1 fun hh => lt_irrefl _ ((key _).1 hh)) (not_lt.1 fun hh => lt_irrefl _ ((key _).2 hh))

/-! ### New points -/

theorem append_order (h : Reordered ρ a c) {x : Clouds α} (hx : ∀ X l m, a X = some l → x X = some m → l.length = m.length)
    (hxp : ∃ m, x .points = some m) {P : List (T2 α)} (hP : a .points = some P) (hw : Wf a P) {Q : List (T2 α)} (hQ : c .points = some Q) (hw' : Wf c Q) :
    Reordered ρ (specAppend a x) (specAppend c x) := by
  have szs : ∀ {X l m}, a X = some l → c X = some m → ∀ b, Fusion.sizeAt m b = Fusion.sizeAt l b := fun {X l m} hl hm b => by
    rw [Fusion.sizeAt_sizes (hw'.rows _ _ hm), Fusion.sizeAt_sizes (hw.rows _ _ hl)]; exact h.size hP hQ b
  have both : ∀ X, (∃ l m l', a X = some l ∧ x X = some m ∧ c X = some l') ∨ (specAppend a x X = none ∧ specAppend c x X = none) := by
    intro X
    cases h1 : a X with
    | none => exact .inr ⟨by simp [specAppend, h1], by simp [specAppend, (h.attr X).2 h1]⟩
    | some l =>
      cases h2 : x X with
      | none => exact .inr ⟨by simp [specAppend, h1, h2], by cases h3 : c X <;> simp [specAppend, h2, h3]⟩
      | some m => obtain ⟨l', hl'⟩ := h.forth h1; exact .inl ⟨l, m, l', rfl, rfl, hl'⟩
  refine ⟨fun X => ?_, fun X q q' hq hq' => ?_, fun X q q' hq hq' b n => ?_, fun b n hn => ?_⟩
  · rcases both X with ⟨l, m, l', h1, h2, h3⟩ | ⟨h1, h2⟩
    · rw [specAppend_some h1 h2, specAppend_some h3 h2]; simp
    · simp [h1, h2]
  · rcases both X with ⟨l, m, l', h1, h2, h3⟩ | ⟨h1, h2⟩
    · rw [specAppend_some h1 h2] at hq; rw [specAppend_some h3 h2] at hq'
      cases hq; cases hq'
      have e1 := hx X l m h1 h2
      have e2 := h.len X l l' h1 h3
      rw [catL_length e1, catL_length (e2.trans e1), e2]
    · rw [h2] at hq'; cases hq'
  · rcases both X with ⟨l, m, l', h1, h2, h3⟩ | ⟨h1, h2⟩
    · rw [specAppend_some h1 h2] at hq; rw [specAppend_some h3 h2] at hq'
      cases hq; cases hq'
      have e1 := hx X l m h1 h2
      have e2 := h.len X l l' h1 h3
      rw [Fusion.rowAt_catL e1, Fusion.rowAt_catL (e2.trans e1), szs h1 h3]
      have hs : Fusion.sizeAt l b = Fusion.sizeAt P b := Fusion.sizeAt_sizes (hw.rows _ _ h1) b
      by_cases hn : n < Fusion.sizeAt l b
      · have : ρ b n < Fusion.sizeAt l b := by
          rw [← szs h1 h3, ← Fusion.sizeAt_isSome, h.row X l l' h1 h3, Fusion.sizeAt_isSome]; exact hn
        rw [if_pos hn, if_pos this]
        exact h.row X l l' h1 h3 b n
      · rw [h.fix b n fun l0 hl0 => by rw [hP] at hl0; cases hl0; omega]
        rw [if_neg hn, if_neg hn]
    · rw [h1] at hq; cases hq
  · refine h.fix b n fun l hl => ?_
    rw [hP] at hl; cases hl
    obtain ⟨m, h2⟩ := hxp
    have h3 := hn _ (specAppend_some hP h2)
    by_contra hc
    have h4 : (Fusion.rowAt (catL P m) b n).isSome := by
      rw [Fusion.rowAt_catL (hx _ _ _ hP h2), if_pos (not_le.1 hc), Fusion.sizeAt_isSome]; exact not_le.1 hc
    rw [Fusion.sizeAt_isSome] at h4
    omega

theorem grow_order (h : Reordered ρ a c) {x : Clouds α} (hx : a .points ≠ none → ∀ X l m, a X = some l → x X = some m → l.length = m.length)
    (hxp : ∃ m, x .points = some m) (hw : ∀ P, a .points = some P → Wf a P) (hw' : ∀ Q, c .points = some Q → Wf c Q) :
    Reordered ρ (Fusion.specGrow a x) (Fusion.specGrow c x) := by
  cases hP : a .points with
  | none =>
    rw [Fusion.specGrow, if_pos hP, Fusion.specGrow, if_pos ((h.attr _).2 hP)]
    have e : ρ = fun _ => 1 := by
      funext b; ext n; exact h.fix b n fun l hl => by rw [hP] at hl; cases hl
    rw [e]; exact Reordered.refl x
  | some P =>
    obtain ⟨Q, hQ⟩ := h.forth hP
    rw [Fusion.specGrow, if_neg (by simp [hP]), Fusion.specGrow, if_neg (by simp [hQ])]
    exact append_order h (hx (by simp [hP])) hxp hP (hw P hP) hQ (hw' Q hQ)

/-! ### One fusion step -/

/-- A row of the table for the first map as a row of the table for the second. -/
def reRow (ρ : Nat → Equiv.Perm Nat) (r : Fusion.Row) : Fusion.Row := { r with n := ρ r.b r.n }

variable {S : Sys α} {i : Rgbd.In α} {d t : α} {T : Nat → Nat → M4 α} {a1 c1 : Clouds α} {P P1 Q Q1 : List (T2 α)} {rows1 rows2 : List Fusion.Row}

theorem cand_order (h : Reordered ρ a c) (hP : a .points = some P) (hQ : c .points = some Q) {Nn Mn : List (T2 α)} (hN : a .normals = some Nn)
    (hM : c .normals = some Mn) (r : Fusion.Row) :
    Fusion.Candidate S.nrm Q Mn (view S i) T d t (reRow ρ r) ↔ Fusion.Candidate S.nrm P Nn (view S i) T d t r := by
  have e1 : Fusion.vecAt Q (reRow ρ r).b (reRow ρ r).n = Fusion.vecAt P r.b r.n := h.vec hP hQ r.b r.n
  have e2 : Fusion.vecAt Mn (reRow ρ r).b (reRow ρ r).n = Fusion.vecAt Nn r.b r.n := h.vec hN hM r.b r.n
  constructor
  · rintro ⟨x, y, z⟩
    rw [e1] at y z; rw [e2] at z
    exact ⟨x, y, z⟩
  · rintro ⟨x, y, z⟩
    refine ⟨x, ?_, ?_⟩
    · rw [e1]; exact y
    · rw [e1, e2]; exact z

theorem dist_order (h : Reordered ρ a c) (hP : a .points = some P) (hQ : c .points = some Q) (r : Fusion.Row) :
    Fusion.rayDist Q (view S i) (reRow ρ r) = Fusion.rayDist P (view S i) r := by
  show ((((Fusion.vecAt Q r.b (ρ r.b r.n)).getD V3.zero).sub _).normSq) = _
  rw [h.vec hP hQ]; rfl

theorem reRow_back (ρ : Nat → Equiv.Perm Nat) (s : Fusion.Row) : reRow ρ { s with n := (ρ s.b).symm s.n } = s :=
  Fusion.Row.ext rfl (Equiv.apply_symm_apply _ _) rfl rfl

/-- If each of two rows is preferred to the other in one of the maps, they agree in confidence and distance. -/
theorem pref_tie (h : Reordered ρ a c) (hP : a .points = some P) (hQ : c .points = some Q) {F G : List (T2 α)} (hF : a .features = some F)
    (hG : c .features = some G) {r s : Fusion.Row} (h1 : Fusion.Preferred P F (view S i) r s) (h2 : Fusion.Preferred Q G (view S i) (reRow ρ s) (reRow ρ r)) :
    Fusion.conf F r.b r.n = Fusion.conf F s.b s.n ∧ Fusion.rayDist P (view S i) r = Fusion.rayDist P (view S i) s := by
  have c1 : ∀ r : Fusion.Row, Fusion.conf G (reRow ρ r).b (reRow ρ r).n = Fusion.conf F r.b r.n := fun r => h.conf hF hG r.b r.n
  unfold Fusion.Preferred at h1 h2
  rw [c1, c1, dist_order h hP hQ, dist_order h hP hQ] at h2
  rcases h1 with h1 | ⟨e1, h1⟩
  · rcases h2 with h2 | ⟨e2, _⟩
    · exact absurd h1 (lt_asymm h2)
    · exact absurd h1 (by rw [e2]; exact lt_irrefl _)
  · rcases h2 with h2 | ⟨_, h2⟩
    · exact absurd h2 (by rw [e1]; exact lt_irrefl _)
    · refine ⟨e1, ?_⟩
      rcases h1 with h1 | h1
      · rcases h2 with h2 | h2
        · exact absurd h1 (lt_asymm h2)
        · exact absurd h1 (by rw [h2.1]; exact lt_irrefl _)
      · exact h1.1

theorem rows_order (h : Reordered ρ a c) (f1 : FusionStep S d t i T a a1 P P1 rows1) (f2 : FusionStep S d t i T c c1 Q Q1 rows2)
    (ht : NoTie S d t i T a) (r : Fusion.Row) : reRow ρ r ∈ rows2 ↔ r ∈ rows1 := by
  obtain ⟨⟨Nn, hN⟩, _, ⟨F, hF⟩⟩ := step_attrs f1
  obtain ⟨Mn, hM⟩ := h.forth hN
  obtain ⟨G, hG⟩ := h.forth hF
  have hP := f1.old; have hQ := f2.old
  have cand := fun r => cand_order (S := S) (i := i) (T := T) (d := d) (t := t) h hP hQ hN hM r
  constructor
  · intro hr
    have cr := (cand r).1 (f2.cand Mn hM _ hr)
    obtain ⟨s, hs, e, p⟩ := f1.best Nn F hN hF r cr
    have cs := f1.cand Nn hN s hs
    obtain ⟨s2, hs2, e2, p2⟩ := f2.best Mn G hM hG _ ((cand s).2 cs)
    have : s2 = reRow ρ r := same_pixel f2.pix hs2 hr ⟨e2.1.trans e.1, e2.2.1.trans e.2.1, e2.2.2.trans e.2.2⟩
    rw [this] at p2
    obtain ⟨q1, q2⟩ := pref_tie h hP hQ hF hG p p2
    have : s = r := Fusion.Row.ext e.1 (ht P Nn F hP hN hF s r cs cr e.1 e.2.1 e.2.2 q1 q2) e.2.1 e.2.2
    exact this ▸ hs
  · intro hr
    have cr := f1.cand Nn hN r hr
    obtain ⟨s2, hs2, e2, p2⟩ := f2.best Mn G hM hG _ ((cand r).2 cr)
    rw [← reRow_back ρ s2] at hs2 e2 p2
    generalize hs : ({ s2 with n := (ρ s2.b).symm s2.n } : Fusion.Row) = s at *
    have cs := (cand s).1 (f2.cand Mn hM _ hs2)
    obtain ⟨r', hr', e', p'⟩ := f1.best Nn F hN hF s cs
    have e2' : s.b = r.b ∧ s.h = r.h ∧ s.w = r.w := e2
    have : r' = r := same_pixel f1.pix hr' hr ⟨e'.1.trans e2'.1, e'.2.1.trans e2'.2.1, e'.2.2.trans e2'.2.2⟩
    subst this
    obtain ⟨q1, q2⟩ := pref_tie h hP hQ hF hG p' p2
    have : r' = s := Fusion.Row.ext e'.1 (ht P Nn F hP hN hF r' s cr cs e'.1 e'.2.1 e'.2.2 q1 q2) e'.2.1 e'.2.2
    exact this ▸ hs2

theorem mask_order (hmem : ∀ r, reRow ρ r ∈ rows2 ↔ r ∈ rows1) (b : Nat) : Fusion.newMask (view S i) rows2 b = Fusion.newMask (view S i) rows1 b := by
  funext l h w
  rw [Bool.eq_iff_iff]
  cases l with
  | zero =>
    rw [Fusion.newMask_iff, Fusion.newMask_iff]
    refine and_congr_right fun _ => ⟨fun hh r hr => ?_, fun hh r hr => ?_⟩
    · exact hh (reRow ρ r) ((hmem r).2 hr)
    · rw [← reRow_back ρ r] at hr
      exact hh { r with n := (ρ r.b).symm r.n } ((hmem _).1 hr)
  | succ l => simp [Fusion.newMask]

theorem fusion_order (h : Reordered ρ a c) (f1 : FusionStep S d t i T a a1 P P1 rows1) (f2 : FusionStep S d t i T c c1 Q Q1 rows2)
    (hB : P.length = i.B) (ht : NoTie S d t i T a) : Reordered ρ a1 c1 := by
  have hmem := rows_order h f1 f2 ht
  have hP := f1.old; have hQ := f2.old
  have lenA : ∀ {X l}, a1 X = some l → l.length = i.B := fun hl => (f1.wf.length hl).trans f1.batch
  have lenC : ∀ {X l}, c1 X = some l → l.length = i.B := fun hl => (f2.wf.length hl).trans f2.batch
  have out : ∀ {q : List (T2 α)} {b n}, q.length = i.B → ¬ b < i.B → Fusion.rowAt q b n = none := by
    intro q b n hq hb
    simp [Fusion.rowAt, List.getElem?_eq_none (show q.length ≤ b by omega)]
  have big : ∀ {b n}, ¬ n < Fusion.sizeAt P b → ρ b n = n := fun {b n} hn => h.fix b n fun l hl => by rw [hP] at hl; cases hl; exact not_lt.1 hn
  have three : ∀ X img, (X, img) ∈ [(Attr.points, Rgbd.gvertexAt S.eps i), (.normals, Rgbd.gnormalAt S.nrm S.eps i), (.colors, i.rgb)] →
      ∃ l1 m1, a1 X = some l1 ∧ c1 X = some m1 ∧ ∀ b n, Fusion.rowAt m1 b (ρ b n) = Fusion.rowAt l1 b n := by
    intro X img hX
    have hXf : X ≠ .features := by
      simp only [List.mem_cons, Prod.mk.injEq, List.not_mem_nil, or_false] at hX
      rcases hX with ⟨rfl, _⟩ | ⟨rfl, _⟩ | ⟨rfl, _⟩ <;> simp
    obtain ⟨F, l, l1, hF, hl, hl1, m1, k1, n1⟩ := f1.merged X img hX
    obtain ⟨G, m, l2, hG, hm, hl2, m2, k2, n2⟩ := f2.merged X img hX
    obtain ⟨C1, cc1, d1⟩ := f1.wf.cols X l1 hl1
    obtain ⟨C2, cc2, d2⟩ := f2.wf.cols X l2 hl2
    rw [d1 hXf] at cc1; rw [d2 hXf] at cc2
    refine ⟨l1, l2, hl1, hl2, fun b n => ?_⟩
    by_cases hb : b < i.B
    swap
    · rw [out (lenC hl2) hb, out (lenA hl1) hb]
    have hv : Fusion.vecAt l2 b (ρ b n) = Fusion.vecAt l1 b n := by
      by_cases hn : n < Fusion.sizeAt P b
      · have hs : (Fusion.rowAt l b n).isSome := by
          rw [Fusion.sizeAt_isSome, Fusion.sizeAt_sizes (f1.oldWf.rows _ _ hl)]; exact hn
        obtain ⟨row, hrow⟩ := Option.isSome_iff_exists.1 hs
        have v1 : Fusion.vecAt l b n = some (Fusion.toV3 row) := by simp [Fusion.vecAt, hrow]
        have v2 : Fusion.vecAt m b (ρ b n) = some (Fusion.toV3 row) := by rw [h.vec hl hm, v1]
        by_cases hex : ∃ r ∈ rows1, r.b = b ∧ r.n = n
        · obtain ⟨r, hr, rfl, rfl⟩ := hex
          rw [m1 r hr _ v1]
          have := m2 (reRow ρ r) ((hmem r).2 hr) _ v2
          rw [show Fusion.conf G (reRow ρ r).b (reRow ρ r).n = Fusion.conf F r.b r.n from h.conf hF hG _ _] at this
          exact this
        · rw [k1 b n _ v1 fun r hr hh => hex ⟨r, hr, hh⟩]
          refine k2 b (ρ b n) _ v2 fun r hr hh => ?_
          rw [← reRow_back ρ r] at hr
          refine hex ⟨_, (hmem _).1 hr, hh.1, ?_⟩
          show (ρ r.b).symm r.n = n
          rw [hh.2, hh.1, Equiv.symm_apply_apply]
      · rw [big hn]
        obtain ⟨k, rfl⟩ := Nat.exists_eq_add_of_le (not_lt.1 hn)
        rw [n1 b hb]
        have := n2 b hb k
        rw [h.size hP hQ, mask_order hmem] at this
        exact this
    simp only [Fusion.vecAt] at hv
    cases e1 : Fusion.rowAt l1 b n with
    | none =>
      rw [e1] at hv
      exact Option.map_eq_none_iff.1 hv
    | some x =>
      rw [e1] at hv
      obtain ⟨y, e2, e3⟩ := Option.map_eq_some_iff.1 hv
      rw [e2]
      rw [row_of_vec (Fusion.valid_row (f2.wf.valid _ _ hl2) cc2 e2) (Fusion.valid_row (f1.wf.valid _ _ hl1) cc1 e1) e3]
  have feat : ∃ l1 m1, a1 .features = some l1 ∧ c1 .features = some m1 ∧ ∀ b n, Fusion.rowAt m1 b (ρ b n) = Fusion.rowAt l1 b n := by
    obtain ⟨F, F1, hF, hF1, cc1, m1, n1, _⟩ := f1.conf
    obtain ⟨G, F2, hG, hF2, cc2, m2, n2, _⟩ := f2.conf
    refine ⟨F1, F2, hF1, hF2, fun b n => ?_⟩
    by_cases hb : b < i.B
    swap
    · rw [out (lenC hF2) hb, out (lenA hF1) hb]
    by_cases hn : n < Fusion.sizeAt P b
    · have hs : (Fusion.rowAt F b n).isSome := by
        rw [Fusion.sizeAt_isSome, Fusion.sizeAt_sizes (f1.oldWf.rows _ _ hF)]; exact hn
      have hs2 : (Fusion.rowAt G b (ρ b n)).isSome := by rw [h.row _ F G hF hG]; exact hs
      have s1 : (Fusion.rowAt F1 b n).isSome := by
        rw [Fusion.sizeAt_isSome, Fusion.sizeAt_sizes (f1.wf.rows _ _ hF1), f1.size b hb]; omega
      have s2 : (Fusion.rowAt F2 b (ρ b n)).isSome := by
        rw [Fusion.sizeAt_isSome, Fusion.sizeAt_sizes (f2.oldWf.rows _ _ hG)] at hs2
        rw [Fusion.sizeAt_isSome, Fusion.sizeAt_sizes (f2.wf.rows _ _ hF2), f2.size b hb]; omega
      obtain ⟨x, hx⟩ := Option.isSome_iff_exists.1 s1
      obtain ⟨y, hy⟩ := Option.isSome_iff_exists.1 s2
      rw [Fusion.row_conf hx (Fusion.valid_row (f1.wf.valid _ _ hF1) cc1 hx), Fusion.row_conf hy (Fusion.valid_row (f2.wf.valid _ _ hF2) cc2 hy)]
      by_cases hex : ∃ r ∈ rows1, r.b = b ∧ r.n = n
      · obtain ⟨r, hr, rfl, rfl⟩ := hex
        rw [m1.matched r hr]
        have := m2.matched (reRow ρ r) ((hmem r).2 hr)
        rw [show Fusion.conf G (reRow ρ r).b (reRow ρ r).n = Fusion.conf F r.b r.n from h.conf hF hG _ _] at this
        rw [show Fusion.conf F2 r.b (ρ r.b r.n) = _ from this]; rfl
      · rw [m1.kept b n hs fun r hr hh => hex ⟨r, hr, hh⟩, m2.kept b (ρ b n) hs2 fun r hr hh => ?_, h.conf hF hG]
        rw [← reRow_back ρ r] at hr
        refine hex ⟨_, (hmem _).1 hr, hh.1, ?_⟩
        show (ρ r.b).symm r.n = n
        rw [hh.2, hh.1, Equiv.symm_apply_apply]
    · rw [big hn]
      obtain ⟨k, rfl⟩ := Nat.exists_eq_add_of_le (not_lt.1 hn)
      rw [n1 b hb]
      have := n2 b hb k
      rw [h.size hP hQ, mask_order hmem] at this
      exact this
  have all : ∀ X, ∃ l1 m1, a1 X = some l1 ∧ c1 X = some m1 ∧ ∀ b n, Fusion.rowAt m1 b (ρ b n) = Fusion.rowAt l1 b n := by
    intro X
    cases X with
    | points => exact three .points _ (by simp; rfl)
    | normals => exact three .normals _ (by simp; rfl)
    | colors => exact three .colors _ (by simp; rfl)
    | features => exact feat
  refine ⟨fun X => ?_, fun X l m hl hm => by rw [lenA hl, lenC hm], fun X l m hl hm => ?_, fun b n hn => ?_⟩
  · obtain ⟨l, m, h1, h2, _⟩ := all X
    rw [h1, h2]; simp
  · obtain ⟨l1, m1, h1, h2, h3⟩ := all X
    rw [h1] at hl; rw [h2] at hm; cases hl; cases hm
    exact h3
  · refine h.fix b n fun l hl => ?_
    rw [hP] at hl; cases hl
    have := hn P1 f1.new
    by_cases hb : b < i.B
    · rw [f1.size b hb] at this; omega
    · have : Fusion.sizeAt P b = 0 := by
        simp [Fusion.sizeAt, List.getD_eq_getElem?_getD, List.getElem?_eq_none (show P.length ≤ b by omega)]
      omega

/-! ### The question to the odometry provider -/

theorem reRow_inj (ρ : Nat → Equiv.Perm Nat) : Function.Injective (reRow ρ) := by
  rintro ⟨b, n, h, w⟩ ⟨b', n', h', w'⟩ e
  simp only [reRow, Fusion.Row.mk.injEq] at e
  obtain ⟨rfl, e, rfl, rfl⟩ := e
  rw [(ρ b).injective e]

theorem active_order (h : Reordered ρ a c) (hP : a .points = some P) (hQ : c .points = some Q) {ip : Rgbd.In α} {U : Nat → M4 α}
    (h1 : ActiveRows P ip U rows1) (h2 : ActiveRows Q ip U rows2) (r : Fusion.Row) : reRow ρ r ∈ rows2 ↔ r ∈ rows1 := by
  rw [h1.mem, h2.mem]
  show _ ∧ _ ∧ (∃ p, Fusion.vecAt Q r.b (ρ r.b r.n) = some p ∧ _) ↔ _
  rw [h.vec hP hQ]
  exact Iff.rfl

theorem grid_order (hmem : ∀ r, reRow ρ r ∈ rows2 ↔ r ∈ rows1) (s1 : rows1.Pairwise Fusion.Row.before) (s2 : rows2.Pairwise Fusion.Row.before)
    (ds : Int) (b : Nat) : ((Icp.onGridOf ds rows1 b).map (reRow ρ)).Perm (Icp.onGridOf ds rows2 b) := by
  have nd : ∀ {l : List Fusion.Row}, l.Pairwise Fusion.Row.before → l.Nodup := fun hl => hl.imp fun {x y} hxy e => by
    subst e; unfold Fusion.Row.before at hxy; omega
  refine (List.perm_ext_iff_of_nodup (((nd s1).filter _).map (reRow_inj ρ)) ((nd s2).filter _)).2 fun r => ?_
  simp only [List.mem_map, Icp.onGridOf, List.mem_filter, decide_eq_true_eq]
  constructor
  · rintro ⟨s, ⟨hs, hc⟩, rfl⟩
    exact ⟨(hmem s).2 hs, hc⟩
  · rintro ⟨hr, hc⟩
    refine ⟨{ r with n := (ρ r.b).symm r.n }, ⟨(hmem _).1 ?_, hc⟩, reRow_back ρ r⟩
    rw [reRow_back]; exact hr

theorem maps_order (h : Reordered ρ a c) (hP : a .points = some P) (hQ : c .points = some Q) {ip : Rgbd.In α} {U : Nat → M4 α}
    (h1 : ActiveRows P ip U rows1) (h2 : ActiveRows Q ip U rows2) (ds : Int) :
    ∃ ρ', Reordered ρ' (Icp.mapAt a P.length ds rows1) (Icp.mapAt c Q.length ds rows2) := by
  have hex : ∀ b, ∃ e : Equiv.Perm Nat, (∀ n, (Icp.onGridOf ds rows1 b).length ≤ n → e n = n) ∧
      ∀ n, (Icp.onGridOf ds rows2 b)[e n]? = ((Icp.onGridOf ds rows1 b).map (reRow ρ))[n]? := by
    intro b
    obtain ⟨e, h3, h4⟩ := index_of_perm (grid_order (active_order h hP hQ h1 h2) h1.sorted h2.sorted ds b)
    exact ⟨e, fun n hn => h3 n (by simpa using hn), h4⟩
  choose e he1 he2 using hex
  have hl : Q.length = P.length := h.len _ _ _ hP hQ
  have ex : ∀ (a : Clouds α) B rows X, X ≠ Attr.features → Icp.mapAt a B ds rows X =
      (a X).map fun l => (List.range B).map fun b => ⟨(Icp.onGridOf ds rows b).map fun r => (Fusion.rowAt l b r.n).getD [], 3⟩ := by
    intro a B rows X hX; cases X <;> first | rfl | exact absurd rfl hX
  refine ⟨fun b => if b < P.length then e b else 1, fun X => ?_, fun X l m hl' hm' => ?_, fun X l m hl' hm' b n => ?_, fun b n hn => ?_⟩
  · by_cases hX : X = .features
    · subst hX; simp [Icp.mapAt]
    · rw [ex _ _ _ X hX, ex _ _ _ X hX, Option.map_eq_none_iff, Option.map_eq_none_iff]; exact h.attr X
  · by_cases hX : X = .features
    · subst hX; cases hm'
    · rw [ex _ _ _ X hX, Option.map_eq_some_iff] at hm' hl'
      obtain ⟨m0, hm0, rfl⟩ := hm'
      obtain ⟨l0, hl0, rfl⟩ := hl'
      simp [hl]
  · by_cases hX : X = .features
    · subst hX; cases hm'
    · rw [ex _ _ _ X hX, Option.map_eq_some_iff] at hm' hl'
      obtain ⟨m0, hm0, rfl⟩ := hm'
      obtain ⟨l0, hl0, rfl⟩ := hl'
      by_cases hb : b < P.length
      · rw [if_pos hb, rowAt_range _ _ (by omega), rowAt_range _ _ hb]
        simp only [List.getElem?_map, he2, Option.map_map]
        cases hq : (Icp.onGridOf ds rows1 b)[n]? with
        | none => rfl
        | some r =>
          have hrb : r.b = b := by
            have := (List.mem_filter.1 (List.mem_of_getElem? hq)).2
            simp at this; exact this.1
          simp only [Option.map_some, Function.comp, reRow, hrb]
          rw [h.row X l0 m0 hl0 hm0]
      · have : ∀ {B : Nat} (f : Nat → T2 α) (n : Nat), B ≤ b → Fusion.rowAt ((List.range B).map f) b n = none := by
          intro B f n hB
          simp [Fusion.rowAt, List.getElem?_eq_none (show ((List.range B).map f).length ≤ b by simpa using hB)]
        rw [this _ _ (by omega), this _ _ (by omega)]
  · split_ifs with hb
    · refine he1 b n ?_
      have := hn _ (by rw [ex _ _ _ _ (by simp), hP]; rfl)
      simpa [Fusion.sizeAt, List.getD_eq_getElem?_getD, hb] using this
    · rfl

theorem question_order (h : Reordered ρ a c) (hP : a .points = some P) (hQ : c .points = some Q) {ip : Rgbd.In α} {U : Rgbd.TM α} {m f m' f' : PC α}
    (q1 : Question S a P i ip U m f) (q2 : Question S c Q i ip U m' f') {provide} (hx : OrderFree provide m f) : provide m' f' = provide m f := by
  obtain ⟨rows, ar, im⟩ := q1.maps
  obtain ⟨rows', ar', im'⟩ := q2.maps
  obtain ⟨px, hf, hp⟩ := q1.frames
  obtain ⟨px', hf', hp'⟩ := q2.frames
  have e2 : ∀ b < i.B, px' b = px b := fun b hb => px_unique (hp' b hb).1 (hp b hb).1 fun x y => by rw [(hp' b hb).2, (hp b hb).2]
  have e3 : Icp.framesAt (Fusion.Frame.ofIn S.nrm S.eps { i with poses := some U.at' }) px' =
      Icp.framesAt (Fusion.Frame.ofIn S.nrm S.eps { i with poses := some U.at' }) px := by
    have key : ∀ g : Nat → Nat → Nat → V3 α, ((List.range i.B).map fun b => Icp.cloudOf (px' b) (g b)) = (List.range i.B).map fun b => Icp.cloudOf (px b) (g b) :=
      fun g => List.map_congr_left fun b hb => by rw [e2 b (List.mem_range.1 hb)]
    funext X
    cases X with
    | features => rfl
    | points => exact congrArg some (key fun b => _)
    | normals => exact congrArg some (key fun b => _)
    | colors => exact congrArg some (key fun b => _)
  obtain ⟨ρ', h'⟩ := maps_order h hP hQ ar ar' S.ds
  exact hx _ _ _ _ _ _ im im' hf (e3 ▸ hf') h'

/-! ### One step -/

/-- Two previous frames (or none) that show the same and have the same poses. -/
def SamePrev (S : Sys α) (prev prev2 : Option (Rgbd.Obj α)) : Prop :=
  (prev = none ∧ prev2 = none) ∨ ∃ p p2 ip, prev = some p ∧ prev2 = some p2 ∧ LiveOk S p ip ∧ LiveOk S p2 ip ∧ p2.poses = p.poses

/-- The odometry provider's answer to every question that can be put to it in this step does not depend on the order of the map's points. -/
def AskOrderFree (S : Sys α) (a : Clouds α) (i : Rgbd.In α) (prev : Option (Rgbd.Obj α)) : Prop :=
  ∀ provide p ip U P maps fr, S.odom = .prov provide → prev = some p → LiveOk S p ip → p.poses = some U → a .points = some P →
    Question S a P i ip U maps fr → OrderFree provide maps fr

theorem change_order {T : Rgbd.TM α} (h : Reordered ρ a c) (hB : 0 < i.B) (ok : MapShape S.mapper i.B a) (hw : ∀ P, a .points = some P → Wf a P)
    (hw' : ∀ Q, c .points = some Q → Wf c Q) (h1 : MapChange S (posed i T) a a1) (h2 : MapChange S (posed i T) c c1)
    (ht : ∀ d t, S.mapper = .fusion d t → NoTie S d t (posed i T) T.at' a) : Reordered ρ a1 c1 := by
  unfold MapChange at h1 h2
  cases hS : S.mapper with
  | aggregate =>
    rw [hS] at h1 h2; simp only at h1 h2
    subst h1; subst h2
    refine grow_order h (fun hne X l m hl hm => ?_) ⟨_, rfl⟩ hw hw'
    obtain ⟨P, hP⟩ := Option.ne_none_iff_exists'.1 hne
    have : m.length = i.B := by
      cases X <;> simp only [Fusion.frameArg, Option.some.injEq, reduceCtorEq] at hm <;> subst hm <;> rw [Fusion.picked_length] <;> rfl
    rw [(hw P hP).length hl, (ok P hP).1, this]
  | fusion d t =>
    rw [hS] at h1 h2; simp only at h1 h2
    cases hP : a .points with
    | none =>
      rw [hP] at h1; rw [(h.attr _).2 hP] at h2
      simp only at h1 h2
      subst h1; subst h2
      have e : ρ = fun _ => 1 := by
        funext b; ext n; exact h.fix b n fun l hl => by rw [hP] at hl; cases hl
      rw [e]; exact Reordered.refl _
    | some P =>
      obtain ⟨Q, hQ⟩ := h.forth hP
      rw [hP] at h1; rw [hQ] at h2
      simp only at h1 h2
      obtain ⟨T1, P1, rows1, e1, f1⟩ := h1
      obtain ⟨T2, Q1, rows2, e2, f2⟩ := h2
      cases e1; cases e2
      exact fusion_order h f1 f2 (ok P hP).1 (ht d t hS)

/-- **C97** for one step: two maps that list the same points in different orders, the same frame and the same previous frame.  The steps
fail alike, or place the frame at the same poses and leave maps that again list the same points, in orders related by the same permutation. -/
theorem step_order {pc pc2 : PC α} {live live2 : Rgbd.Obj α} {prev prev2 : Option (Rgbd.Obj α)} (h : Reordered ρ a c)
    (hm : MapOk S.mapper i.B pc a) (hm2 : MapOk S.mapper i.B pc2 c) (hl : LiveOk S live i) (hl2 : LiveOk S live2 i) (hlp : live2.poses = live.poses)
    (hp : PrevOk S i a prev) (hpp : SamePrev S prev prev2) (hc : ∀ T, MapCond S (posed i T) a)
    (hds : S.odom.isGt = false → 0 < S.ds)
    (hpv : ∀ provide, S.odom = .prov provide → ∀ maps fr ans c Q, Inv fr c → c .points = some Q → provide maps fr = .ok ans →
      ans.length = Q.length)
    (hask : AskOrderFree S a i prev) (inplace : Bool)
    (ht : ∀ d t, S.mapper = .fusion d t → ∀ res T, (step S pc live prev inplace).1 = .ok (res, T) → NoTie S d t (posed i T) T.at' a) :
    (∃ e, (step S pc live prev inplace).1 = .error e ∧ (step S pc2 live2 prev2 inplace).1 = .error e) ∨
    ∃ res res2 T a' c', (step S pc live prev inplace).1 = .ok (res, T) ∧ (step S pc2 live2 prev2 inplace).1 = .ok (res2, T) ∧
      MapOk S.mapper i.B res a' ∧ MapOk S.mapper i.B res2 c' ∧ Reordered ρ a' c' ∧ a' .points ≠ none ∧
      SamePrev S (some (step S pc live prev inplace).2.2) (some (step S pc2 live2 prev2 inplace).2.2) ∧
      LiveOk S (step S pc live prev inplace).2.2 (posed i T) ∧ (step S pc live prev inplace).2.2.poses = some T := by
  have hp2 : PrevOk S i c prev2 := by
    rcases hpp with ⟨_, h2⟩ | ⟨p, p2, ip, rfl, rfl, k1, k2, k3⟩
    · exact .inr (.inl h2)
    · rcases hp with hp | hp | ⟨p', ip', U, e, l1, l2, l3, l4⟩
      · exact .inl hp
      · cases hp
      · cases e
        exact .inr (.inr ⟨p2, ip, U, rfl, k2, k3.trans l2, (k1.rep.hB.symm.trans l1.rep.hB).trans l3, fun hh => l4 ((h.attr _).1 hh)⟩)
  have hsm : ∀ T, MapCond S (posed i T) c := by
    intro T
    rcases hc T with hc | ⟨hal, hc⟩
    · exact .inl hc
    · refine .inr ⟨hal, fun Q hQ => ?_⟩
      obtain ⟨P, hP⟩ := h.back hQ
      obtain ⟨h1, h2, h3, h4⟩ := hc P hP
      exact ⟨h1, h2, h3, fun b => by rw [h.size hP hQ]; exact h4 b⟩
  obtain ⟨r, pl, er, ok⟩ := step_any hm hl hp hc hds hpv
  obtain ⟨r2, pl2, er2, ok2⟩ := step_any hm2 hl2 hp2 hsm hds hpv
  have hr : r2 = r := by
    rcases pl with ⟨g, e⟩ | ⟨provide, p, U, P, maps, fr, k1, k2, k3, k4, k5, k6⟩ <;>
      rcases pl2 with ⟨g', e'⟩ | ⟨provide', p', U', Q, maps', fr', k1', k2', k3', k4', k5', k6'⟩
    · rw [e, e', hlp]
    · rcases g with g | g
      · rw [g] at k1'; cases k1'
      · rcases hpp with ⟨_, h2⟩ | ⟨_, _, _, h2, _⟩
        · rw [h2] at k2'; cases k2'
        · rw [h2] at g; cases g
    · rcases g' with g | g
      · rw [g] at k1; cases k1
      · rcases hpp with ⟨h2, _⟩ | ⟨_, _, _, _, h2, _⟩
        · rw [h2] at k2; cases k2
        · rw [h2] at g; cases g
    · rw [k1] at k1'; cases k1'
      rcases hpp with ⟨h2, _⟩ | ⟨p0, p2, ip, e1, e2, j1, j2, j3⟩
      · rw [h2] at k2; cases k2
      · rw [e1] at k2; rw [e2] at k2'; cases k2; cases k2'
        rw [j3, k3] at k3'; cases k3'
        have q1 := k5 ip j1
        rw [k6, k6', question_order h k4 k4' q1 (k5' ip j2) (hask provide p ip U P maps fr k1 e1 j1 k3 k4 q1)]
  subst hr
  cases hr : r2 with
  | error e =>
    obtain ⟨_, _, s1, _⟩ := er e hr inplace
    obtain ⟨_, _, s2, _⟩ := er2 e hr inplace
    exact .inl ⟨e, by rw [s1], by rw [s2]⟩
  | ok T =>
    obtain ⟨_, _, a', ch, ne, s⟩ := ok T hr
    obtain ⟨_, _, c', ch2, ne2, s2⟩ := ok2 T hr
    obtain ⟨res, pc', live', e, m1, m2, m3, _⟩ := s inplace
    obtain ⟨res2, pc2', live2', e2, n1, n2, n3, _⟩ := s2 inplace
    rw [e] at ht ⊢; rw [e2]
    exact .inr ⟨res, res2, T, a', c', rfl, rfl, m1, n1,
      change_order h hl.B hm.shape (fun P hP => Fusion.wf_of_inv hm.inv hP) (fun Q hQ => Fusion.wf_of_inv hm2.inv hQ) ch ch2 fun d t hS => ht d t hS res T rfl,
      ne, .inr ⟨_, _, _, rfl, rfl, m2, n2, by rw [m3, n3]⟩, m2, m3⟩

/-! ### Any number of steps -/

/-- Frames handed one after the other to `step`, each with the frame before it as the previous one (the loop of `ICPSLAM.forward`,
slam/icpslam.py:126-139, but starting with any map and any previous frame): the final map and the poses found. -/
def feed (S : Sys α) : PC α → Option (Rgbd.Obj α) → List (Rgbd.Obj α) → Except Err (PC α × List (Rgbd.TM α))
  | pc, _, [] => .ok (pc, [])
  | pc, prev, live :: fs => match step S pc live prev true with
    | (.error e, _, _) => .error e
    | (.ok (res, T), _, live') => match feed S res (some live') fs with
      | .error e => .error e
      | .ok (m, Ts) => .ok (m, T :: Ts)

/-- The conditions of `step_order`, at every step: indices that fit, an order-free odometry, no ties in the fusion of maps. -/
def Calm (S : Sys α) : PC α → Option (Rgbd.Obj α) → List (Rgbd.Obj α × Rgbd.In α) → Prop
  | _, _, [] => True
  | pc, prev, (live, i) :: fs => (∀ a, Inv pc a → (∀ T, MapCond S (posed i T) a) ∧ AskOrderFree S a i prev ∧
      ∀ res T, (step S pc live prev true).1 = .ok (res, T) → ∀ d t, S.mapper = .fusion d t → NoTie S d t (posed i T) T.at' a) ∧
    ∀ res T, (step S pc live prev true).1 = .ok (res, T) → Calm S res (some (step S pc live prev true).2.2) fs

/-- **C97** for a sequence of steps, from any two maps that list the same points in different orders. -/
theorem feed_order {B : Nat} (hds : S.odom.isGt = false → 0 < S.ds)
    (hpv : ∀ provide, S.odom = .prov provide → ∀ maps fr ans c Q, Inv fr c → c .points = some Q → provide maps fr = .ok ans → ans.length = Q.length)
    {fs : List (Rgbd.Obj α × Rgbd.In α)} : ∀ {pc pc2 : PC α} {a c : Clouds α} {prev prev2 : Option (Rgbd.Obj α)},
    (∀ x ∈ fs, LiveOk S x.1 x.2 ∧ x.2.B = B) → Reordered ρ a c → MapOk S.mapper B pc a → MapOk S.mapper B pc2 c → SamePrev S prev prev2 →
    (∀ i, i.B = B → PrevOk S i a prev) → Calm S pc prev fs →
    (∃ e, feed S pc prev (fs.map Prod.fst) = .error e ∧ feed S pc2 prev2 (fs.map Prod.fst) = .error e) ∨
    ∃ res res2 Ts a' c', feed S pc prev (fs.map Prod.fst) = .ok (res, Ts) ∧ feed S pc2 prev2 (fs.map Prod.fst) = .ok (res2, Ts) ∧
      Inv res a' ∧ Inv res2 c' ∧ Reordered ρ a' c' := by
  induction fs with
  | nil => intro pc pc2 a c prev prev2 _ h h1 h2 _ _ _; exact .inr ⟨pc, pc2, [], a, c, rfl, rfl, h1.inv, h2.inv, h⟩
  | cons x fs ih =>
    obtain ⟨live, i⟩ := x
    intro pc pc2 a c prev prev2 hfs h h1 h2 hpp hp hcalm
    obtain ⟨hl, hB⟩ := hfs (live, i) (List.mem_cons_self ..)
    simp only at hl hB
    subst hB
    obtain ⟨hc, hnext⟩ := hcalm
    obtain ⟨c1, c2, c3⟩ := hc a h1.inv
    simp only [List.map_cons, feed]
    rcases step_order h h1 h2 hl hl rfl (hp i rfl) hpp c1 hds hpv c2 true (fun d t hS res T hst => c3 res T hst d t hS) with
      ⟨e, e1, e2⟩ | ⟨res, res2, T, a', c', e1, e2, m1, m2, h', ne, pp, lo, lp⟩
    · refine .inl ⟨e, ?_, ?_⟩
      · generalize step S pc live prev true = z at e1 ⊢
        obtain ⟨z1, z2, z3⟩ := z; simp only at e1; subst e1; rfl
      · generalize step S pc2 live prev2 true = z at e2 ⊢
        obtain ⟨z1, z2, z3⟩ := z; simp only at e2; subst e2; rfl
    · have hn := hnext res T e1
      generalize step S pc live prev true = z at e1 hn pp lo lp ⊢
      obtain ⟨z1, z2, z3⟩ := z
      simp only at e1 hn pp lo lp; subst e1
      generalize step S pc2 live prev2 true = y at e2 pp ⊢
      obtain ⟨y1, y2, y3⟩ := y
      simp only at e2 pp; subst e2
      have := ih (fun x hx => hfs x (List.mem_cons_of_mem _ hx)) h' m1 m2 pp (fun j hj => .inr (.inr ⟨z3, _, T, rfl, lo, lp, hj.symm, ne⟩)) hn
      rcases this with ⟨e, f1, f2⟩ | ⟨r, r2, Ts, b, d, f1, f2, f3, f4, f5⟩
      · exact .inl ⟨e, by simp only [f1], by simp only [f2]⟩
      · exact .inr ⟨r, r2, T :: Ts, b, d, by simp only [f1], by simp only [f2], f3, f4, f5⟩

/-- **C97** for `ICPSLAM(odom="gt")`: no conditions. -/
theorem icpslam_gt_order (hg : S.odom = .gt) (ha : S.mapper = .aggregate) {B : Nat} {fs : List (Rgbd.Obj α × Rgbd.In α)} {pc pc2 : PC α}
    (hfs : ∀ x ∈ fs, LiveOk S x.1 x.2 ∧ x.2.B = B) (h : Reordered ρ a c) (h1 : MapOk S.mapper B pc a) (h2 : MapOk S.mapper B pc2 c) :
    (∃ e, feed S pc none (fs.map Prod.fst) = .error e ∧ feed S pc2 none (fs.map Prod.fst) = .error e) ∨
    ∃ res res2 Ts a' c', feed S pc none (fs.map Prod.fst) = .ok (res, Ts) ∧ feed S pc2 none (fs.map Prod.fst) = .ok (res2, Ts) ∧
      Inv res a' ∧ Inv res2 c' ∧ Reordered ρ a' c' := by
  refine feed_order (fun h => by rw [hg] at h; cases h) (fun _ h => by rw [hg] at h; cases h) hfs h h1 h2 (.inl ⟨rfl, rfl⟩) (fun _ _ => .inl hg) ?_
  clear hfs h1
  generalize (none : Option (Rgbd.Obj α)) = prev
  induction fs generalizing pc prev with
  | nil => trivial
  | cons x fs ih =>
    exact ⟨fun a _ => ⟨fun _ => .inl ha, fun _ _ _ _ _ _ _ h' => (by rw [hg] at h'; cases h'), fun _ _ _ d t h' => (by rw [ha] at h'; cases h')⟩,
      fun res T _ => ih _⟩
end

/-! ### The ICP odometry providers -/

section
variable {nn : List (V3 ℝ) → V3 ℝ → Nat} {th : Option ℝ} {eps : ℝ} {ρ : Nat → Equiv.Perm Nat} {a c : Clouds ℝ}

theorem vecs_order (h : Reordered ρ a c) {P Q Nn Mn : List (T2 ℝ)} (hP : a .points = some P) (hQ : c .points = some Q) (hN : a .normals = some Nn)
    (hM : c .normals = some Mn) (hw : Wf a P) (hw' : Wf c Q) (b : Nat) :
    Icp.Reorders (Icp.vecs (P.getD b ⟨[], 0⟩)) (Icp.vecs (Nn.getD b ⟨[], 0⟩)) (Icp.vecs (Q.getD b ⟨[], 0⟩)) (Icp.vecs (Mn.getD b ⟨[], 0⟩)) := by
  have rows : ∀ (l : List (T2 ℝ)) n, (l.getD b ⟨[], 0⟩).rows[n]? = Fusion.rowAt l b n := by
    intro l n
    rw [List.getD_eq_getElem?_getD, Fusion.rowAt]
    cases l[b]? <;> simp
  have size : ∀ (l : List (T2 ℝ)), (l.getD b ⟨[], 0⟩).rows.length = Fusion.sizeAt l b := fun l => rfl
  have z1 := Fusion.sizeAt_sizes (hw.rows _ _ hN) b
  have z2 := Fusion.sizeAt_sizes (hw'.rows _ _ hM) b
  have z3 := h.size hP hQ b
  have hfix : ∀ n, Fusion.sizeAt P b ≤ n → ρ b n = n := fun n hn => h.fix b n fun l hl => by rw [hP] at hl; cases hl; exact hn
  have perm : (Q.getD b ⟨[], 0⟩).rows.Perm (P.getD b ⟨[], 0⟩).rows :=
    perm_of_index (e := ρ b) (by rw [size, size, z3]) (fun n hn => hfix n (by rw [size] at hn; exact hn)) fun n => by
      rw [rows, rows, h.row _ _ _ hP hQ]
  have perm2 : ((Q.getD b ⟨[], 0⟩).rows.zip (Mn.getD b ⟨[], 0⟩).rows).Perm ((P.getD b ⟨[], 0⟩).rows.zip (Nn.getD b ⟨[], 0⟩).rows) := by
    refine perm_of_index (e := ρ b) ?_ (fun n hn => hfix n ?_) fun n => ?_
    · simp only [List.length_zip, size]; omega
    · simp only [List.length_zip, size] at hn; omega
    · simp only [List.zip]
      rw [List.getElem?_zipWith, List.getElem?_zipWith, rows, rows, rows, rows, h.row _ _ _ hP hQ, h.row _ _ _ hN hM]
  refine ⟨?_, perm.map _, ?_⟩
  · simp only [Icp.vecs, List.length_map, size]; omega
  · have := perm2.map fun x => (Fusion.toV3 x.1, Fusion.toV3 x.2)
    simp only [Icp.vecs, List.zip_map]
    exact this

theorem collect_same {β : Type*} {f g : Nat → Except Icp.Err β} : ∀ {l : List Nat}, (∀ b ∈ l, f b = g b) → Icp.collect f l = Icp.collect g l := by
  intro l
  induction l with
  | nil => intro _; rfl
  | cons b l ih =>
    intro h
    rw [Icp.collect, Icp.collect, h b (List.mem_cons_self ..), ih fun c hc => h c (List.mem_cons_of_mem _ hc)]

/-- A registration routine that answers the same transform for reordered targets makes an order-free odometry provider. -/
theorem provide_order {icp : List (V3 ℝ) → List (V3 ℝ) → List (V3 ℝ) → Option (M4 ℝ) → Except Icp.Err (M4 ℝ × List Nat)} {maps fr : PC ℝ}
    {f : Clouds ℝ} {P Q Nn : List (T2 ℝ)} (hm : Inv maps a) (hf : Inv fr f) (hQ : a .points = some Q) (hN : a .normals = some Nn) (hP : f .points = some P)
    (hi : Q.length = P.length → ∀ b < P.length, ∀ tgt2 nrm2, Icp.Reorders (Icp.vecs (Q.getD b ⟨[], 0⟩)) (Icp.vecs (Nn.getD b ⟨[], 0⟩)) tgt2 nrm2 →
      Icp.SameAnswer nn (Icp.vecs (Q.getD b ⟨[], 0⟩)) tgt2
        (icp (Icp.vecs (P.getD b ⟨[], 0⟩)) (Icp.vecs (Q.getD b ⟨[], 0⟩)) (Icp.vecs (Nn.getD b ⟨[], 0⟩)) (some M4.one))
        (icp (Icp.vecs (P.getD b ⟨[], 0⟩)) tgt2 nrm2 (some M4.one))) :
    OrderFree (Icp.provide icp) maps fr := by
  intro a' c ρ maps2 fr2 f' i1 i2 i3 i4 h
  have ea : a' = a := by
    funext X; rw [← (inv_obs i1).list X, (inv_obs hm).list X]
  have ef : f' = f := by
    funext X; rw [← (inv_obs i3).list X, (inv_obs hf).list X]
  subst ea; subst ef
  obtain ⟨Q2, hQ2⟩ := h.forth hQ
  obtain ⟨N2, hN2⟩ := h.forth hN
  have om := inv_obs hm; have om2 := inv_obs i2; have of := inv_obs hf; have of2 := inv_obs i4
  have b1 : maps.B = Q.length := by rw [om.size, count, hQ]; rfl
  have b2 : maps2.B = Q.length := by rw [om2.size, count, hQ2]; simpa using h.len _ _ _ hQ hQ2
  have b3 : fr.B = P.length := by rw [of.size, count, hP]; rfl
  have b4 : fr2.B = P.length := by rw [of2.size, count, hP]; rfl
  unfold Icp.provide
  rw [om.list, om2.list, hN, hN2]
  simp only [b1, b2, b3, b4]
  split_ifs with h1 h2
  · rfl
  · rfl
  rw [om.list, om2.list, of.list, of2.list, hQ, hQ2, hP]
  simp only
  push Not at h1
  refine collect_same fun b hb => ?_
  have hb' : b < P.length := by rw [← h1]; exact List.mem_range.1 hb
  rcases hi h1 b hb' _ _ (vecs_order h hQ hQ2 hN hN2 (Fusion.wf_of_inv hm hQ) (Fusion.wf_of_inv i2 hQ2) b) with ⟨T, _, _, e1, e2, _⟩ | ⟨e, e1, e2⟩
  · rw [e1, e2]
  · rw [e1, e2]

/-- **C97** for `ICPOdometryProvider`: its answer does not depend on the order of the map points if during the registrations no pixel of the
frame is equally near to map points with different tangent planes. -/
theorem icp_provider_order (hn : Icp.NearestIn nn) (heps : 0 < eps) (n : Int) {damp : ℝ} (hd : 0 < damp) {maps fr : PC ℝ}
    {f : Clouds ℝ} {P Q Nn : List (T2 ℝ)} (hm : Inv maps a) (hf : Inv fr f) (hQ : a .points = some Q) (hN : a .normals = some Nn) (hP : f .points = some P)
    (hu : ∀ (b : Nat) (p q m : T2 ℝ), P[b]? = some p → Q[b]? = some q → Nn[b]? = some m → ∀ T d, T 0 = M4.one → d 0 = damp →
      Icp.LMTrace nn th (Icp.vecs q) (Icp.vecs m) eps (Icp.vecs p) n.toNat T d → Icp.UntiedRun nn th (Icp.vecs q) (Icp.vecs m) eps (Icp.vecs p) n.toNat T d) :
    OrderFree (Icp.provide fun src tgt nrm T0 => Icp.pointToPlaneICP eps nn src tgt nrm T0 n damp th) maps fr := by
  refine provide_order (nn := nn) hm hf hQ hN hP fun hl b hb tgt2 nrm2 hr => ?_
  have hNl := (Fusion.wf_of_inv hm hQ).length hN
  have gP : P.getD b ⟨[], 0⟩ = P[b] := by rw [List.getD_eq_getElem?_getD, List.getElem?_eq_getElem hb]; rfl
  have gQ : Q.getD b ⟨[], 0⟩ = Q[b]'(by omega) := by rw [List.getD_eq_getElem?_getD, List.getElem?_eq_getElem (by omega)]; rfl
  have gN : Nn.getD b ⟨[], 0⟩ = Nn[b]'(by omega) := by rw [List.getD_eq_getElem?_getD, List.getElem?_eq_getElem (by omega)]; rfl
  have := hu b _ _ _ (List.getElem?_eq_getElem hb) (List.getElem?_eq_getElem (by omega)) (List.getElem?_eq_getElem (by omega))
  rw [← gP, ← gQ, ← gN] at this
  exact Icp.icp_order hn heps (.refl _) hr M4.one_rigid.1 n hd this

/-- **C97** for `GradICPOdometryProvider`: its answer does not depend on the order of the map points if during the registrations no pixel of the
frame is equally near to map points with different tangent planes. -/
theorem gradicp_provider_order (hn : Icp.NearestIn nn) (heps : 0 < eps) {lmax B B2 nu : ℝ} (hlm : 1 < lmax) (n : Int) {damp : ℝ} (hd : 0 < damp) {maps fr : PC ℝ}
    {f : Clouds ℝ} {P Q Nn : List (T2 ℝ)} (hm : Inv maps a) (hf : Inv fr f) (hQ : a .points = some Q) (hN : a .normals = some Nn) (hP : f .points = some P)
    (hu : ∀ (b : Nat) (p q m : T2 ℝ), P[b]? = some p → Q[b]? = some q → Nn[b]? = some m → ∀ T d, T 0 = M4.one → d 0 = damp →
      Icp.GradTrace nn th (Icp.vecs q) (Icp.vecs m) eps lmax B B2 nu (Icp.vecs p) n.toNat T d → Icp.UntiedRun nn th (Icp.vecs q) (Icp.vecs m) eps (Icp.vecs p) n.toNat T d) :
    OrderFree (Icp.provide fun src tgt nrm T0 => Icp.pointToPlaneGradICP eps lmax B B2 nu nn src tgt nrm T0 n damp th) maps fr := by
  refine provide_order (nn := nn) hm hf hQ hN hP fun hl b hb tgt2 nrm2 hr => ?_
  have hNl := (Fusion.wf_of_inv hm hQ).length hN
  have gP : P.getD b ⟨[], 0⟩ = P[b] := by rw [List.getD_eq_getElem?_getD, List.getElem?_eq_getElem hb]; rfl
  have gQ : Q.getD b ⟨[], 0⟩ = Q[b]'(by omega) := by rw [List.getD_eq_getElem?_getD, List.getElem?_eq_getElem (by omega)]; rfl
  have gN : Nn.getD b ⟨[], 0⟩ = Nn[b]'(by omega) := by rw [List.getD_eq_getElem?_getD, List.getElem?_eq_getElem (by omega)]; rfl
  have := hu b _ _ _ (List.getElem?_eq_getElem hb) (List.getElem?_eq_getElem (by omega)) (List.getElem?_eq_getElem (by omega))
  rw [← gP, ← gQ, ← gN] at this
  exact Icp.gradicp_order hn heps hlm (.refl _) hr M4.one_rigid.1 n hd this

/-- The same for maps whose points, unless they share a tangent plane, are at least two matching radii apart: there are no ties. -/
theorem providers_order_spaced (hn : Icp.NearestIn nn) (heps : 0 < eps) {lmax B B2 nu : ℝ} (hlm : 1 < lmax) (n : Int) {damp : ℝ} (hd : 0 < damp)
    {maps fr : PC ℝ} {f : Clouds ℝ} {P Q Nn : List (T2 ℝ)} (hm : Inv maps a) (hf : Inv fr f) (hQ : a .points = some Q) (hN : a .normals = some Nn)
    (hP : f .points = some P) {t : ℝ} (hs : ∀ (b : Nat) (q m : T2 ℝ), Q[b]? = some q → Nn[b]? = some m → Icp.Spaced t (Icp.vecs q) (Icp.vecs m)) :
    OrderFree (Icp.provide fun src tgt nrm T0 => Icp.pointToPlaneICP eps nn src tgt nrm T0 n damp (some t)) maps fr ∧
    OrderFree (Icp.provide fun src tgt nrm T0 => Icp.pointToPlaneGradICP eps lmax B B2 nu nn src tgt nrm T0 n damp (some t)) maps fr :=
  ⟨icp_provider_order hn heps n hd hm hf hQ hN hP fun b _ q m _ h2 h3 _ _ _ _ _ => Icp.untiedRun_of_spaced (hs b q m h2 h3) _ _ _,
    gradicp_provider_order hn heps hlm n hd hm hf hQ hN hP fun b _ q m _ h2 h3 _ _ _ _ _ => Icp.untiedRun_of_spaced (hs b q m h2 h3) _ _ _⟩
end
end Verif.Slam
