import Verif.Fusion.Spec
import Mathlib.Tactic.Linarith
import Mathlib.Tactic.Positivity
/-!
C34: `find_active_map_points`.
-/
namespace Verif.Fusion
open Verif Pcs
set_option linter.unusedSectionVars false
set_option linter.unusedSimpArgs false

section
variable {α : Type*} [Field α] [LinearOrder α] [IsStrictOrderedRing α]

theorem roundEven_spec [FloorRing α] (x : α) : |x - (roundEven x : Int)| ≤ 1 / 2 ∧ (|x - (roundEven x : Int)| = 1 / 2 → Even (roundEven x)) := by
  have h0 := Int.floor_le x
  have h1 := Int.lt_floor_add_one x
  unfold roundEven
  split_ifs with a b c
  · rw [abs_of_nonneg (by linarith)]
    exact ⟨by linarith, fun h => by linarith⟩
  · push_cast
    rw [abs_of_nonpos (by linarith)]
    exact ⟨by linarith, fun h => by linarith⟩
  · rw [abs_of_nonneg (by linarith)]
    exact ⟨by linarith, fun _ => Int.even_iff.2 c⟩
  · push_cast
    rw [abs_of_nonpos (by linarith)]
    refine ⟨by linarith, fun _ => ?_⟩
    rw [Int.even_add_one, Int.even_iff]; exact c

/-- For a coordinate inside the tolerance band the clamp does nothing and the result is the nearest pixel. -/
theorem clamp_nearest [FloorRing α] {x : α} {n k : Nat} (h1 : -1 / 1000 < x) (h2 : x < (n : α) - 1 + 1 / 1000) :
    k = clampIdx n (roundEven x) ↔ Nearest x k := by
  obtain ⟨h3, h4⟩ := roundEven_spec x
  set m := roundEven x with hm
  rw [abs_le] at h3
  have m0 : 0 ≤ m := by
    by_contra hneg
    have hle : m ≤ -1 := by omega
    have : (m : α) ≤ -1 := by exact_mod_cast hle
    linarith [h3.2]
  have m1 : m ≤ n - 1 := by
    by_contra hneg
    have : (n : Int) ≤ m := by omega
    have : (n : α) ≤ (m : α) := by exact_mod_cast this
    linarith [h3.1]
  have hc : clampIdx n m = m.toNat := by
    unfold clampIdx; congr 1; rw [max_eq_left m0, min_eq_left m1]
  have hcast : ((m.toNat : Nat) : α) = (m : α) := by
    rw [← Int.cast_natCast, Int.toNat_of_nonneg m0]
  rw [hc]
  constructor
  · rintro rfl
    unfold Nearest
    rw [hcast, abs_le]
    refine ⟨h3, fun h => ?_⟩
    have := h4 h
    rw [← Int.toNat_of_nonneg m0] at this
    exact_mod_cast this
  · rintro ⟨h5, h6⟩
    by_contra hne
    have h5' := abs_le.1 h5
    have hk : (k : Int) ≠ m := by intro h; apply hne; rw [← h]; simp
    rcases lt_or_gt_of_ne hk with hlt | hlt
    · have : (k : α) + 1 ≤ (m : α) := by exact_mod_cast hlt
      have e1 : x - k = 1 / 2 := by linarith [h3.1, h3.2, h5'.1, h5'.2]
      have e2 : x - m = -(1 / 2) := by linarith [h3.1, h3.2, h5'.1, h5'.2]
      have a := h6 (by rw [e1, abs_of_pos (by norm_num)])
      have b := h4 (by rw [e2, abs_neg, abs_of_pos (by norm_num)])
      have hmk : m = k + 1 := by
        have : (m : α) = ((k + 1 : Int) : α) := by push_cast; linarith
        exact_mod_cast this
      rw [hmk, Int.even_add_one] at b
      exact b (by exact_mod_cast a)
    · have : (m : α) + 1 ≤ (k : α) := by exact_mod_cast hlt
      have e1 : x - k = -(1 / 2) := by linarith [h3.1, h3.2, h5'.1, h5'.2]
      have e2 : x - m = 1 / 2 := by linarith [h3.1, h3.2, h5'.1, h5'.2]
      have a := h6 (by rw [e1, abs_neg, abs_of_pos (by norm_num)])
      have b := h4 (by rw [e2, abs_of_pos (by norm_num)])
      have hmk : (k : Int) = m + 1 := by
        have : (k : α) = ((m + 1 : Int) : α) := by push_cast; linarith
        exact_mod_cast this
      have a' : Even (k : Int) := by exact_mod_cast a
      rw [hmk, Int.even_add_one] at a'
      exact a' b

theorem nearest_lt {x : α} {n k : Nat} (h2 : x < (n : α) - 1 + 1 / 1000) (h : Nearest x k) : k < n := by
  by_contra hneg
  have : (n : α) ≤ (k : α) := by exact_mod_cast (not_lt.1 hneg)
  have := abs_le.1 h.1
  linarith [this.1]

theorem inverse_apply (T : M4 α) (p : V3 α) :
    ((Geom.inverseTransform1 T).R.mulVec p).add (Geom.inverseTransform1 T).t = toCamera T p := by
  ext <;> simp [Geom.inverseTransform1, toCamera, M3.mulVec, M3.neg, M3.transpose, V3.add, V3.sub, V3.neg, V3.dot] <;> ring

/-- `toCamera` undoes the pose: a camera-space point moved by the pose is seen where it was. -/
theorem toCamera_pose {T : M4 α} (hT : IsRotation T.R) (X : V3 α) : toCamera T ((T.R.mulVec X).add T.t) = X := by
  have h := hT.2.1
  have e : (((T.R.mulVec X).add T.t).sub T.t) = T.R.mulVec X := by ext <;> simp [V3.add, V3.sub]
  rw [toCamera, e, ← M3.mul_mulVec, h, M3.one_mulVec]

/-! ### Cells of padded tensors -/

theorem cell_padL {P : List (T2 α)} {N b n : Nat} {r : List α} (h : rowAt P b n = some r) : cell (padL N P) b n = r := by
  simp only [rowAt] at h
  cases hb : P[b]? with
  | none => rw [hb] at h; simp at h
  | some t =>
    rw [hb] at h
    simp only [Option.bind_some] at h
    have hn : n < t.rows.length := (List.getElem?_eq_some_iff.1 h).1
    simp only [cell, padL, List.getD_eq_getElem?_getD, List.getElem?_map, hb, Option.map_some, Option.getD_some, padT]
    rw [List.getElem?_append_left hn, h]; rfl

theorem rowAt_mapRows (g : Nat → Nat → List α → List α) (P : List (T2 α)) (b n : Nat) :
    rowAt (mapRows g P) b n = (rowAt P b n).map (g b n) := by
  simp only [rowAt, mapRows, List.getElem?_mapIdx]
  cases P[b]? with
  | none => rfl
  | some t => simp [List.getElem?_mapIdx]

theorem padL_rows {P : List (T2 α)} {N b : Nat} (hb : b < P.length) (hN : ∀ t ∈ P, t.rows.length ≤ N) :
    ((padL N P).getD b ⟨[], 0⟩).rows.length = N := by
  have : (padL N P)[b]? = some (padT N P[b]) := by simp [padL, hb]
  rw [List.getD_eq_getElem?_getD, this, Option.getD_some, padT_rows_length (hN _ (List.getElem_mem hb))]

theorem maskOf_get {P : List (T2 α)} {b n : Nat} (hn : n < maxL (sizes P)) :
    ((maskOf P).getD b []).getD n false = (rowAt P b n).isSome := by
  simp only [maskOf, List.getD_eq_getElem?_getD, List.getElem?_map, rowAt]
  cases hb : P[b]? with
  | none => simp
  | some t =>
    simp only [Option.map_some, Option.getD_some, List.getElem?_map, List.getElem?_range hn, Option.bind_some]
    by_cases ht : n < t.rows.length
    · simp [ht]
    · simp [ht]

theorem rowAt_lt {P : List (T2 α)} {b n : Nat} (h : (rowAt P b n).isSome) : b < P.length ∧ n < maxL (sizes P) := by
  simp only [rowAt] at h
  cases hb : P[b]? with
  | none => rw [hb] at h; simp at h
  | some t =>
    rw [hb] at h; simp at h
    have h1 := List.getElem?_eq_some_iff.1 hb
    refine ⟨h1.1, lt_of_lt_of_le h (le_maxL ?_)⟩
    exact List.mem_map_of_mem (f := fun t : T2 α => t.rows.length) (List.mem_of_getElem? hb)

theorem Wf.rowAt3 {a : Clouds α} {P} (hw : Wf a P) {X l} (hX : X ≠ .features) (hl : a X = some l) {b n r} (h : rowAt l b n = some r) :
    ∃ x y z, r = [x, y, z] := by
  simp only [rowAt] at h
  cases hb : l[b]? with
  | none => rw [hb] at h; simp at h
  | some t =>
    rw [hb] at h
    have ht := List.mem_of_getElem? hb
    exact len3 (by rw [hw.valid X l hl t ht r (List.mem_of_getElem? h), hw.cols3 hX hl t ht])

/-! ### The table -/

theorem mem_activeRows [FloorRing α] {H W : Nat} {p q : List (T2 α)} {m : List (List Bool)} {r : Row} :
    r ∈ activeRows H W p q m ↔ r.b < q.length ∧ r.n < (q.getD r.b ⟨[], 0⟩).rows.length ∧
      isInFrame H W ((cell p r.b r.n).getD 2 0) (cell q r.b r.n) ((m.getD r.b []).getD r.n false) = true ∧
      r.h = clampIdx H (roundEven ((cell q r.b r.n).getD 1 0)) ∧ r.w = clampIdx W (roundEven ((cell q r.b r.n).getD 0 0)) := by
  simp only [activeRows, List.mem_flatMap, List.mem_range, List.mem_map, List.mem_filter]
  constructor
  · rintro ⟨b, hb, n, ⟨hn, hi⟩, rfl⟩
    exact ⟨hb, hn, hi, rfl, rfl⟩
  · rintro ⟨hb, hn, hi, hh, hw⟩
    exact ⟨r.b, hb, r.n, ⟨hn, hi⟩, by ext <;> simp [hh, hw]⟩

theorem activeRows_sorted [FloorRing α] {H W : Nat} {p q : List (T2 α)} {m : List (List Bool)} :
    (activeRows H W p q m).Pairwise Row.before := by
  unfold activeRows
  rw [List.pairwise_flatMap]
  constructor
  · intro b _
    rw [List.pairwise_map]
    exact (List.Pairwise.filter _ List.pairwise_lt_range).imp fun h => .inr ⟨rfl, h⟩
  · refine List.pairwise_lt_range.imp fun {b c} h x hx y hy => ?_
    simp only [List.mem_map] at hx hy
    obtain ⟨n, _, rfl⟩ := hx
    obtain ⟨n', _, rfl⟩ := hy
    exact .inl h

variable [FloorRing α]

theorem proj_row (K : M4 α) (x y z : α) : projRow K [x, y, z] =
    [(Geom.projectPoint K (.inl ⟨x, y, z⟩)).1, (Geom.projectPoint K (.inl ⟨x, y, z⟩)).2, 1] := rfl

theorem Operand.batch_at (f : Nat → M4 α) {B b : Nat} (hb : b < B) : (Operand.batch ((List.range B).map f)).at M4.one b = f b := by
  simp [Operand.at, List.getD_eq_getElem?_getD, hb]

/-- **C34**.  For every map in every reachable state, and every frame of the same batch size with poses: the table contains a row
`(b, n, h, w)` exactly when `n` is a (non-padding) point of cloud `b`, lies in front of camera `b` and projects into the image, and
`(h, w)` is the pixel nearest to its projection, inside the image; rows are sorted by `(b, n)`, so no map point occurs twice; the map is not
changed.  The hypothesis `hg` excludes the state described in `active_wrong`. -/
theorem active_spec_partial {pc : PC α} {a : Clouds α} {P : List (T2 α)} {fr : Frame α} {T : Nat → Nat → M4 α} (hi : Inv pc a)
    (hP : a .points = some P) (hg : (pc.lst .points).isSome ∨ pc.mask.isSome ∨ equi (sizes P) = true)
    (hL : fr.L = 1) (hB : fr.B = P.length) (hT : fr.poses = some T) :
    ∃ rows pc', findActive pc fr = (.ok rows, pc') ∧ Inv pc' a ∧ ((pc'.lst .points).isSome = (pc.lst .points).isSome) ∧ pc'.mask.isSome ∧
      rows.Pairwise Row.before ∧
      ∀ r : Row, r ∈ rows ↔ r.h < fr.H ∧ r.w < fr.W ∧ ∃ p, vecAt P r.b r.n = some p ∧
        Visible fr.H fr.W (fr.K r.b) (toCamera (T r.b 0) p) ∧
        Nearest (Geom.projectPoint (fr.K r.b) (.inl (toCamera (T r.b 0) p))).2 r.h ∧
        Nearest (Geom.projectPoint (fr.K r.b) (.inl (toCamera (T r.b 0) p))).1 r.w := by
  rcases hi with h | ⟨P', h, hm⟩
  · rw [h.noPoints] at hP; cases hP
  obtain rfl : P' = P := by have := h.wf.pts; rw [hP] at this; exact (Option.some.inj this).symm
  obtain ⟨s1, e1, r1, f1, p1, _⟩ := h.hasAttr .points
  obtain ⟨c, s2, e2, r2, rc, f2, p2, mc, fc, _⟩ := r1.clone
  have hmc : MaskOk c a := by
    rcases hg with hg | hg | hg
    · exact .inr (fc (.inl (by rw [f1.lst]; exact hg)))
    · exact .inl (by rw [mc, f1.mask]; exact hg)
    · exact .inr (fc (.inr hg))
  set TT : Operand (M4 α) := .batch ((List.range fr.B).map fun b => Geom.inverseTransform1 (T b 0)) with hTT
  have fitT : TT.Fits P'.length := by simp [hTT, Operand.Fits, hB]
  obtain ⟨c1, e3, rc1, _, mc1⟩ := rc.transform_ hmc TT true fitT
  obtain ⟨c2, e4, rc2, _, fc2, _⟩ := rc1.getPad .points
  set KK : Operand (M4 α) := .batch ((List.range fr.B).map fr.K) with hKK
  rw [rc1.wf.pts] at e4
  set P1 := mapRows (fun b _ r => r.mapIdx fun c x => x + comp (TT.at M4.one b).t c) (mapRows (fun b _ r => rotRow (TT.map M4.R) true b r) P') with hP1
  have fitK : KK.Fits P1.length := by simp [hKK, hP1, Operand.Fits, hB, mapRows_length]
  obtain ⟨c3, e5, rc3, _, _⟩ := rc2.pinhole (.inl (by rw [fc2.mask]; exact mc1)) KK fitK
  obtain ⟨c4, e6, rc4, _, fc4, _⟩ := rc3.getPad .points
  rw [rc3.wf.pts] at e6
  set P2 := mapRows (fun b _ r => projRow (KK.at M4.one b) r) P1 with hP2
  have hm2 : MaskOk s2 a := (hm.frame f1.eq f1.mask).frame f2.eq f2.mask
  obtain ⟨s3, e7, r3, m3, l3, _⟩ := r2.getMask hm2
  have hout : findActive pc fr = (.ok (activeRows fr.H fr.W (padL c1.N P1) (padL c3.N P2) (maskOf P')), s3) := by
    simp only [findActive, hL, ne_eq, not_true_eq_false, if_false, e1, h.hasPoints, Bool.not_true, Bool.false_eq_true]
    rw [if_neg (by rw [hB, r1.hB]; simp)]
    simp only [hT, outOfPlace, e2, ← hTT, ← hKK, e3, e4, e5, e6, e7, Option.map_some, Option.getD_some]
  refine ⟨_, s3, hout, .inr ⟨P', r3, .inl (by rw [m3]; rfl)⟩, by rw [l3, f2.lst, f1.lst], by rw [m3]; rfl, activeRows_sorted, ?_⟩
  have sz1 : sizes P1 = sizes P' := by simp [hP1, sizes_mapRows]
  have sz2 : sizes P2 = sizes P' := by rw [hP2, sizes_mapRows, sz1]
  have N3 : c3.N = maxL (sizes P') := by rw [rc3.hN, sz2]
  have len2 : P2.length = P'.length := by simp [hP2, hP1, mapRows_length]
  intro r
  rw [mem_activeRows]
  -- the rows of a real point
  have key : ∀ x y z, rowAt P' r.b r.n = some [x, y, z] →
      cell (padL c1.N P1) r.b r.n = (toCamera (T r.b 0) ⟨x, y, z⟩).toList ∧
      cell (padL c3.N P2) r.b r.n = [(Geom.projectPoint (fr.K r.b) (.inl (toCamera (T r.b 0) ⟨x, y, z⟩))).1,
        (Geom.projectPoint (fr.K r.b) (.inl (toCamera (T r.b 0) ⟨x, y, z⟩))).2, 1] := by
    intro x y z hr
    have hb : r.b < fr.B := by rw [hB]; exact (rowAt_lt (by rw [hr]; rfl)).1
    have h1 : rowAt P1 r.b r.n = some (toCamera (T r.b 0) ⟨x, y, z⟩).toList := by
      rw [hP1, rowAt_mapRows, rowAt_mapRows, hr]
      simp only [Option.map_some, Option.some.injEq]
      have hrot := (rotRow_vec (TT.map M4.R) r.b ⟨x, y, z⟩).1
      rw [Operand.map_at M4.R M4.one M3.one rfl, hTT, Operand.batch_at _ hb] at hrot
      rw [hTT, Operand.batch_at _ hb]
      rw [show ([x, y, z] : List α) = vecRow ⟨x, y, z⟩ from rfl, hrot, ← inverse_apply]
      simp [vecRow, V3.add, comp, V3.toList, List.mapIdx_cons]
    refine ⟨cell_padL h1, cell_padL ?_⟩
    rw [hP2, rowAt_mapRows, h1, hKK, Operand.batch_at _ hb]
    rfl
  constructor
  · rintro ⟨hb, hn, hf, hh, hw⟩
    simp only [isInFrame, Bool.and_eq_true, decide_eq_true_eq] at hf
    obtain ⟨⟨⟨⟨⟨u1, u2⟩, v1⟩, v2⟩, hz⟩, hmm⟩ := hf
    have hb' : r.b < P'.length := by rw [← len2]; simpa [padL] using hb
    rw [padL_rows (by rw [len2]; exact hb') (by rw [N3, ← sz2]; exact fun t ht => le_maxL (List.mem_map_of_mem (f := fun t : T2 α => t.rows.length) ht)),
      N3] at hn
    rw [maskOf_get hn] at hmm
    obtain ⟨row, hrow⟩ := Option.isSome_iff_exists.1 hmm
    obtain ⟨x, y, z, rfl⟩ := Wf.rowAt3 h.wf (by simp) hP hrow
    obtain ⟨k1, k2⟩ := key x y z hrow
    rw [k2] at u1 u2 v1 v2 hh hw
    rw [k1] at hz
    simp only [List.getD_cons_zero, List.getD_cons_succ, V3.toList] at u1 u2 v1 v2 hh hw hz
    have u2' := u2; have v2' := v2
    rw [show ((fr.W : α) - 999 / 1000) = (fr.W : α) - 1 + 1 / 1000 by ring] at u2'
    rw [show ((fr.H : α) - 999 / 1000) = (fr.H : α) - 1 + 1 / 1000 by ring] at v2'
    have nh := (clamp_nearest v1 v2').1 hh
    have nw := (clamp_nearest u1 u2').1 hw
    refine ⟨nearest_lt v2' nh, nearest_lt u2' nw, ⟨x, y, z⟩, by rw [vecAt, hrow]; rfl, ⟨hz, ⟨u1, u2'⟩, ⟨v1, v2'⟩⟩, nh, nw⟩
  · rintro ⟨_, _, p, hp, ⟨hz, ⟨u1, u2⟩, ⟨v1, v2⟩⟩, nh, nw⟩
    simp only [vecAt, Option.map_eq_some_iff] at hp
    obtain ⟨row, hrow, rfl⟩ := hp
    obtain ⟨x, y, z, rfl⟩ := Wf.rowAt3 h.wf (by simp) hP hrow
    obtain ⟨k1, k2⟩ := key x y z hrow
    obtain ⟨hb, hn⟩ := rowAt_lt (P := P') (b := r.b) (n := r.n) (by rw [hrow]; rfl)
    simp only [toV3] at hz u1 u2 v1 v2 nh nw
    refine ⟨by simpa [padL, len2] using hb, ?_, ?_, ?_, ?_⟩
    · rw [padL_rows (by rw [len2]; exact hb) (by rw [N3, ← sz2]; exact fun t ht => le_maxL (List.mem_map_of_mem (f := fun t : T2 α => t.rows.length) ht)),
        N3]; exact hn
    · simp only [isInFrame, Bool.and_eq_true, decide_eq_true_eq, k1, k2, maskOf_get hn, hrow, List.getD_cons_zero, List.getD_cons_succ,
        V3.toList, Option.isSome_some]
      refine ⟨⟨⟨⟨⟨u1, ?_⟩, v1⟩, ?_⟩, hz⟩, trivial⟩
      · linarith
      · linarith
    · rw [k2]; exact (clamp_nearest v1 v2).2 nh
    · rw [k2]; exact (clamp_nearest u1 u2).2 nw

end
end Verif.Fusion
