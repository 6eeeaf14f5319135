import Verif.Axis.Mats
import Verif.Geom.Props
import Mathlib.Tactic.LinearCombination
import Mathlib.Algebra.Order.Field.Rat
/-!
C110: which tensors the functions on transformation matrices accept, and what they compute from them.
-/
namespace Verif.Axis
open Verif.Nd (Tensor)
open Verif.Nd.Tensor (bidx matmul zipT bc)
variable {α : Type*} [Field α] [LinearOrder α]

/-! ### Specification -/

/-- Entry in row `i`, column `j` of a matrix tensor. -/
def ent (t : Tensor α) (i j : ℕ) : α := t.get [j, i]

/-- The result of inverting a matrix with `r` rows and `c` columns: the upper left 3×3 part transposed, the fourth column
turned by it and negated, 1 in the last corner, zeros elsewhere. -/
def inverseEntry (t : Tensor α) (r c i j : ℕ) : α :=
  if i + 1 = r ∧ j + 1 = c then 1
  else if i < 3 ∧ j < 3 then ent t j i
  else if i < 3 ∧ j = 3 then -(ent t 0 i * ent t 0 3 + ent t 1 i * ent t 1 3 + ent t 2 i * ent t 2 3)
  else 0

/-- The result of composing two matrices with `r` rows and `c` columns. -/
def composeEntry (t u : Tensor α) (r c i j : ℕ) : α :=
  if i + 1 = r ∧ j + 1 = c then 1
  else if i < 3 ∧ j < 3 then ent t i 0 * ent u 0 j + ent t i 1 * ent u 1 j + ent t i 2 * ent u 2 j
  else if i < 3 ∧ j = 3 then ent t i 0 * ent u 0 3 + ent t i 1 * ent u 1 3 + ent t i 2 * ent u 2 3 + ent t i 3
  else 0

/-! ### Helpers -/

theorem sum3_range (f : ℕ → α) : ∑ l ∈ Finset.range 3, f l = f 0 + f 1 + f 2 := by
  simp [Finset.sum_range_succ]

theorem rank2 {t : Tensor α} (h : t.rank = 2) : ∃ c r, t.dims = [c, r] := by
  match hd : t.dims with
  | [c, r] => exact ⟨c, r, rfl⟩
  | [] => simp [Tensor.rank, hd] at h
  | [_] => simp [Tensor.rank, hd] at h
  | _ :: _ :: _ :: _ => simp [Tensor.rank, hd] at h

theorem rank3 {t : Tensor α} (h : t.rank = 3) : ∃ c r b, t.dims = [c, r, b] := by
  match hd : t.dims with
  | [c, r, b] => exact ⟨c, r, b, rfl⟩
  | [] => simp [Tensor.rank, hd] at h
  | [_] => simp [Tensor.rank, hd] at h
  | [_, _] => simp [Tensor.rank, hd] at h
  | _ :: _ :: _ :: _ :: _ => simp [Tensor.rank, hd] at h

theorem pack_ok {t rot vec : Tensor α} {r c : ℕ} (ht : t.dims = [c, r]) (hr : 3 ≤ r) (hc : 4 ≤ c) (hrot : rot.dims = [3, 3]) (hvec : vec.dims = [3]) :
    ∃ out, pack t rot vec = .ok out ∧ out.dims = [c, r] ∧ ∀ i j, i < r → j < c →
      ent out i j = if i + 1 = r ∧ j + 1 = c then 1 else if i < 3 ∧ j < 3 then ent rot i j else if i < 3 ∧ j = 3 then vec.get [i] else 0 := by
  have m1 : min 3 c = 3 := by omega
  have m2 : min 3 r = 3 := by omega
  have a1 : assignable rot.dims (min 3 c :: min 3 r :: []) = true := by rw [hrot, m1, m2]; rfl
  have a2 : assignable vec.dims (min 3 r :: []) = true := by rw [hvec, m2]; rfl
  simp only [pack, setBlock, zerosLike, ht, a1, if_true, setCol3, show 3 < c by omega, a2, setCorner, show 0 < c ∧ 0 < r by omega, and_self]
  refine ⟨_, rfl, rfl, fun i j hi hj => ?_⟩
  have e1 : (j = c - 1 ∧ i = r - 1) ↔ (i + 1 = r ∧ j + 1 = c) := by omega
  have b1 : bidx rot.dims [j, i] = [j, i] := by rw [hrot]; simp [bidx]
  have b2 : bidx vec.dims [i] = [i] := by rw [hvec]; simp [bidx]
  simp only [ent, e1, b1, b2]
  split
  · rfl
  · by_cases h1 : i < 3
    · by_cases h2 : j < 3
      · rw [if_neg (show ¬ (j = 3 ∧ i < 3) by omega), if_pos ⟨h2, h1⟩, if_pos ⟨h1, h2⟩]
      · rw [if_neg (show ¬ (j < 3 ∧ i < 3) by omega), if_neg (show ¬ (i < 3 ∧ j < 3) by omega)]
        by_cases h3 : j = 3
        · rw [if_pos ⟨h3, h1⟩, if_pos ⟨h1, h3⟩]
        · rw [if_neg (show ¬ (j = 3 ∧ i < 3) by omega), if_neg (show ¬ (i < 3 ∧ j = 3) by omega)]
    · rw [if_neg (show ¬ (j < 3 ∧ i < 3) by omega), if_neg (show ¬ (i < 3 ∧ j < 3) by omega), if_neg (show ¬ (j = 3 ∧ i < 3) by omega),
        if_neg (show ¬ (i < 3 ∧ j = 3) by omega)]

/-! ### inverse_transfom_3d -/

/-- **C110**.  `inverse_transfom_3d` on a single matrix with at least three rows and four columns: accepted, whatever the sizes are. -/
theorem inverse_result (t : Tensor α) (r c : ℕ) (ht : t.dims = [c, r]) (hr : 3 ≤ r) (hc : 4 ≤ c) :
    ∃ out, inverseTransfom3d t = .ok out ∧ out.dims = t.dims ∧ ∀ i j, i < r → j < c → ent out i j = inverseEntry t r c i j := by
  have m1 : min 3 c = 3 := by omega
  have m2 : min 3 r = 3 := by omega
  have g : guardRank t = .ok () := by simp [guardRank, Tensor.rank, ht]
  simp only [inverseTransfom3d, g, col3, ht, show 3 < c by omega, if_true, mm, Tensor.mapT, transposeT, block, m1, m2]
  obtain ⟨out, e, d, v⟩ := pack_ok (t := t) (rot := (⟨[3, 3], fun i => match i with
      | a :: b :: is => t.get (b :: a :: is)
      | _ => t.get i⟩ : Tensor α)) (vec := ⟨[3], fun i => match i with
      | r :: is => ∑ l ∈ Finset.range 3, -t.get (r :: l :: is) * t.get [3, l]
      | [] => 0⟩) ht hr hc rfl rfl
  refine ⟨out, e, d, fun i j hi hj => ?_⟩
  rw [v i j hi hj, inverseEntry]
  simp only [ent, sum3_range]
  split
  · rfl
  · split
    · rfl
    · split
      · ring
      · rfl

/-- **C110**.  Everything else raises: batches (documented, "* x 4 x 4") never succeed. -/
theorem inverse_errors (t : Tensor α) (e : MErr) : inverseTransfom3d t = .error e ↔
    (t.rank ≠ 2 ∧ t.rank ≠ 3 ∧ e = .typeError) ∨
    ((∃ c r ds, t.dims = c :: r :: ds ∧ ds.length ≤ 1 ∧ c ≤ 3) ∧ e = .indexError) ∨
    ((∃ c r ds, t.dims = c :: r :: ds ∧ ds.length ≤ 1 ∧ 4 ≤ c ∧ (ds ≠ [] ∨ r < 3)) ∧ e = .runtimeError) := by
  by_cases h : t.rank = 2 ∨ t.rank = 3
  · have g : guardRank t = .ok () := by rw [guardRank, if_pos h]
    obtain ⟨c, r, ds, ht, hds⟩ : ∃ c r ds, t.dims = c :: r :: ds ∧ ds.length ≤ 1 := by
      rcases h with h | h
      · obtain ⟨c, r, h⟩ := rank2 h; exact ⟨c, r, [], h, by simp⟩
      · obtain ⟨c, r, b, h⟩ := rank3 h; exact ⟨c, r, [b], h, by simp⟩
    have hno : ¬ (t.rank ≠ 2 ∧ t.rank ≠ 3 ∧ e = .typeError) := by omega
    rw [eq_false hno, false_or]
    have huniq : ∀ {c' r' ds'}, t.dims = c' :: r' :: ds' → c' = c ∧ r' = r ∧ ds' = ds := by
      intro c' r' ds' h'; rw [ht] at h'; cases h'; exact ⟨rfl, rfl, rfl⟩
    by_cases hc : c ≤ 3
    · have e0 : inverseTransfom3d t = .error .indexError := by
        simp only [inverseTransfom3d, g, col3, ht]; rw [if_neg (by omega)]
      rw [e0]
      constructor
      · intro h'; cases h'; exact .inl ⟨⟨c, r, ds, ht, hds, hc⟩, rfl⟩
      · rintro (⟨_, rfl⟩ | ⟨⟨c', r', ds', h', _, h4, _⟩, _⟩)
        · rfl
        · have := (huniq h').1; omega
    · have hc4 : 4 ≤ c := by omega
      by_cases hok : ds = [] ∧ 3 ≤ r
      · obtain ⟨rfl, hr⟩ := hok
        obtain ⟨out, e0, _⟩ := inverse_result t r c ht hr hc4
        rw [e0]
        constructor
        · intro h'; cases h'
        · rintro (⟨⟨c', r', ds', h', _, h4⟩, _⟩ | ⟨⟨c', r', ds', h', _, h4, h5⟩, _⟩)
          · have := (huniq h').1; omega
          · obtain ⟨rfl, rfl, rfl⟩ := huniq h'
            rcases h5 with h5 | h5
            · exact absurd rfl h5
            · omega
      · have e0 : inverseTransfom3d t = .error .runtimeError := by
          have m1 : min 3 c = 3 := by omega
          match ds, hds, hok, ht with
          | [], _, hok, ht =>
            have hr : r < 3 := by by_contra h; exact hok ⟨rfl, by omega⟩
            have m2 : min 3 r = r := by omega
            simp only [inverseTransfom3d, g, col3, ht, show 3 < c by omega, if_true, mm, Tensor.mapT, transposeT, block, m1, m2, pack, setBlock, zerosLike]
            have a1 : assignable [r, 3] [3, r] = false := by
              rw [Bool.eq_false_iff]
              simp only [assignable, ne_eq, Bool.and_eq_true, Bool.or_eq_true, decide_eq_true_eq, Bool.and_true]
              omega
            simp [a1]
          | [b], _, hok, ht =>
            have m2 : min 3 r ≤ 3 := by omega
            simp only [inverseTransfom3d, g, col3, ht, show 3 < c by omega, if_true, mm, Tensor.mapT, transposeT, block, m1, matmul]
            by_cases hb : min 3 r = b
            · simp only [hb, ne_eq, not_true, if_false, bc, lift, pack, setBlock, zerosLike, ht, m1]
              by_cases h3 : b = 3
              · have a1 : assignable [b, 3, b] [3, b, b] = true := by subst h3; rfl
                have a2 : assignable [b, 3, b] [b, b] = false := by subst h3; rfl
                simp [a1, setCol3, ht, show 3 < c by omega, a2, hb]
              · have a1 : assignable [b, 3, b] [3, b, b] = false := by
                  rw [Bool.eq_false_iff]
                  simp only [assignable, ne_eq, Bool.and_eq_true, Bool.or_eq_true, decide_eq_true_eq, Bool.and_true]
                  omega
                simp [a1]
            · simp [hb, lift]
        rw [e0]
        constructor
        · intro h'; cases h'
          refine .inr ⟨⟨c, r, ds, ht, hds, hc4, ?_⟩, rfl⟩
          by_cases hd : ds = []
          · right; by_contra h; exact hok ⟨hd, by omega⟩
          · exact .inl hd
        · rintro (⟨⟨c', r', ds', h', _, h4⟩, _⟩ | ⟨_, rfl⟩)
          · have := (huniq h').1; omega
          · rfl
  · have g : guardRank t = .error .typeError := by rw [guardRank, if_neg h]
    have e0 : inverseTransfom3d t = .error .typeError := by simp only [inverseTransfom3d, g]
    rw [e0]
    have hl : ∀ {c r ds}, t.dims = c :: r :: ds → ds.length ≤ 1 → False := by
      intro c r ds h1 h2
      simp only [Tensor.rank, h1, List.length_cons] at h
      omega
    constructor
    · intro h'; cases h'; left; exact ⟨fun h' => h (.inl h'), fun h' => h (.inr h'), rfl⟩
    · rintro (⟨_, _, rfl⟩ | ⟨⟨c, r, ds, h1, h2, _⟩, _⟩ | ⟨⟨c, r, ds, h1, h2, _⟩, _⟩)
      · rfl
      · exact (hl h1 h2).elim
      · exact (hl h1 h2).elim


/-! ### compose_transforms_3d -/

/-- **C110**.  `compose_transforms_3d` on two matrices of the same shape with at least three rows and four columns. -/
theorem compose_result (t u : Tensor α) (r c : ℕ) (ht : t.dims = [c, r]) (hu : u.dims = [c, r]) (hr : 3 ≤ r) (hc : 4 ≤ c) :
    ∃ out, composeTransforms3d t u = .ok out ∧ out.dims = t.dims ∧ ∀ i j, i < r → j < c → ent out i j = composeEntry t u r c i j := by
  have m1 : min 3 c = 3 := by omega
  have m2 : min 3 r = 3 := by omega
  have g : guardRank t = .ok () := by simp [guardRank, Tensor.rank, ht]
  have g' : guardRank u = .ok () := by simp [guardRank, Tensor.rank, hu]
  simp only [composeTransforms3d, g, g', col3, ht, hu, show 3 < c by omega, if_true, mm, block, m1, m2, matmul, ne_eq, not_true, if_false, bc, lift, zipT,
    true_or]
  obtain ⟨out, e, d, v⟩ := pack_ok (t := t) (rot := (⟨[3, 3], fun i => match i with
      | j :: r :: is => ∑ l ∈ Finset.range 3, t.get (l :: r :: bidx [] is) * u.get (j :: l :: bidx [] is)
      | _ => 0⟩ : Tensor α)) (vec := ⟨[if 3 = 1 then 3 else 3], fun i => (match bidx [3] i with
      | r :: is => ∑ l ∈ Finset.range 3, t.get (l :: r :: is) * u.get (3 :: [l])
      | [] => 0) + t.get (3 :: bidx [3] i)⟩) ht hr hc rfl rfl
  refine ⟨out, e, d, fun i j hi hj => ?_⟩
  rw [v i j hi hj, composeEntry]
  simp only [ent, sum3_range, bidx]
  split
  · rfl
  · split
    · rfl
    · split
      · simp
      · rfl

/-- **C110**.  Everything else raises, batches included; matrices of different shapes violate the assertion. -/
theorem compose_errors (t u : Tensor α) (e : MErr) : composeTransforms3d t u = .error e ↔
    ((t.rank ≠ 2 ∧ t.rank ≠ 3 ∨ u.rank ≠ 2 ∧ u.rank ≠ 3) ∧ e = .typeError) ∨
    ((t.rank = 2 ∨ t.rank = 3) ∧ (u.rank = 2 ∨ u.rank = 3) ∧ t.dims ≠ u.dims ∧ e = .assertion) ∨
    ((∃ c r ds, t.dims = c :: r :: ds ∧ u.dims = t.dims ∧ ds.length ≤ 1 ∧ c ≤ 3) ∧ e = .indexError) ∨
    ((∃ c r ds, t.dims = c :: r :: ds ∧ u.dims = t.dims ∧ ds.length ≤ 1 ∧ 4 ≤ c ∧ (ds ≠ [] ∨ r < 3)) ∧ e = .runtimeError) := by
  have hl : ∀ {v : Tensor α} {c r ds}, v.dims = c :: r :: ds → ds.length ≤ 1 → v.rank = 2 ∨ v.rank = 3 := by
    intro v c r ds h1 h2
    simp only [Tensor.rank, h1, List.length_cons]
    omega
  have hl' : ∀ {v : Tensor α}, (v.rank = 2 ∨ v.rank = 3) → ∃ c r ds, v.dims = c :: r :: ds ∧ ds.length ≤ 1 := by
    intro v h
    rcases h with h | h
    · obtain ⟨c, r, h⟩ := rank2 h; exact ⟨c, r, [], h, by simp⟩
    · obtain ⟨c, r, b, h⟩ := rank3 h; exact ⟨c, r, [b], h, by simp⟩
  by_cases h : t.rank = 2 ∨ t.rank = 3
  swap
  · have g : guardRank t = .error .typeError := by rw [guardRank, if_neg h]
    have e0 : composeTransforms3d t u = .error .typeError := by simp only [composeTransforms3d, g]
    rw [e0]
    constructor
    · intro h'; cases h'; left; exact ⟨.inl ⟨fun h' => h (.inl h'), fun h' => h (.inr h')⟩, rfl⟩
    · rintro (⟨_, rfl⟩ | ⟨h1, _⟩ | ⟨⟨c, r, ds, h1, _, h2, _⟩, _⟩ | ⟨⟨c, r, ds, h1, _, h2, _⟩, _⟩)
      · rfl
      · exact absurd h1 h
      · exact absurd (hl h1 h2) h
      · exact absurd (hl h1 h2) h
  have g : guardRank t = .ok () := by rw [guardRank, if_pos h]
  by_cases h' : u.rank = 2 ∨ u.rank = 3
  swap
  · have g' : guardRank u = .error .typeError := by rw [guardRank, if_neg h']
    have e0 : composeTransforms3d t u = .error .typeError := by simp only [composeTransforms3d, g, g']
    rw [e0]
    constructor
    · intro h1; cases h1; left; exact ⟨.inr ⟨fun h1 => h' (.inl h1), fun h1 => h' (.inr h1)⟩, rfl⟩
    · rintro (⟨_, rfl⟩ | ⟨_, h1, _⟩ | ⟨⟨c, r, ds, h1, h3, h2, _⟩, _⟩ | ⟨⟨c, r, ds, h1, h3, h2, _⟩, _⟩)
      · rfl
      · exact absurd h1 h'
      · exact absurd (hl (h3.trans h1) h2) h'
      · exact absurd (hl (h3.trans h1) h2) h'
  have g' : guardRank u = .ok () := by rw [guardRank, if_pos h']
  have n1 : ¬ ((t.rank ≠ 2 ∧ t.rank ≠ 3 ∨ u.rank ≠ 2 ∧ u.rank ≠ 3) ∧ e = .typeError) := by omega
  rw [eq_false n1, false_or]
  by_cases hd : t.dims = u.dims
  swap
  · have e0 : composeTransforms3d t u = .error .assertion := by simp only [composeTransforms3d, g, g']; rw [if_pos hd]
    rw [e0]
    constructor
    · intro h1; cases h1; left; exact ⟨h, h', hd, rfl⟩
    · rintro (⟨_, _, _, rfl⟩ | ⟨⟨c, r, ds, _, h3, _⟩, _⟩ | ⟨⟨c, r, ds, _, h3, _⟩, _⟩)
      · rfl
      · exact absurd h3.symm hd
      · exact absurd h3.symm hd
  have n2 : ¬ ((t.rank = 2 ∨ t.rank = 3) ∧ (u.rank = 2 ∨ u.rank = 3) ∧ t.dims ≠ u.dims ∧ e = .assertion) := fun h1 => h1.2.2.1 hd
  rw [eq_false n2, false_or]
  obtain ⟨c, r, ds, ht, hds⟩ := hl' h
  have hu : u.dims = c :: r :: ds := hd ▸ ht
  have huniq : ∀ {c' r' ds'}, t.dims = c' :: r' :: ds' → c' = c ∧ r' = r ∧ ds' = ds := by
    intro c' r' ds' h'; rw [ht] at h'; cases h'; exact ⟨rfl, rfl, rfl⟩
  by_cases hc : c ≤ 3
  · have e0 : composeTransforms3d t u = .error .indexError := by
      simp only [composeTransforms3d, g, g', col3, ht, hu, ne_eq, not_true, if_false]; rw [if_neg (by omega)]
    rw [e0]
    constructor
    · intro h'; cases h'; exact .inl ⟨⟨c, r, ds, ht, hd.symm, hds, hc⟩, rfl⟩
    · rintro (⟨_, rfl⟩ | ⟨⟨c', r', ds', h', _, _, h4, _⟩, _⟩)
      · rfl
      · have := (huniq h').1; omega
  have hc4 : 4 ≤ c := by omega
  by_cases hok : ds = [] ∧ 3 ≤ r
  · obtain ⟨rfl, hr⟩ := hok
    obtain ⟨out, e0, _⟩ := compose_result t u r c ht hu hr hc4
    rw [e0]
    constructor
    · intro h'; cases h'
    · rintro (⟨⟨c', r', ds', h', _, _, h4⟩, _⟩ | ⟨⟨c', r', ds', h', _, _, h4, h5⟩, _⟩)
      · have := (huniq h').1; omega
      · obtain ⟨rfl, rfl, rfl⟩ := huniq h'
        rcases h5 with h5 | h5
        · exact absurd rfl h5
        · omega
  have e0 : composeTransforms3d t u = .error .runtimeError := by
    have m1 : min 3 c = 3 := by omega
    match ds, hds, hok, ht, hu with
    | [], _, hok, ht, hu =>
      have hr : r < 3 := by by_contra h; exact hok ⟨rfl, by omega⟩
      have m2 : min 3 r = r := by omega
      simp only [composeTransforms3d, g, g', col3, ht, hu, show 3 < c by omega, if_true, mm, block, m1, m2, matmul, ne_eq, not_true, if_false]
      rw [if_pos (show ¬ 3 = r by omega)]
      rfl
    | [b], _, hok, ht, hu =>
      simp only [composeTransforms3d, g, g', col3, ht, hu, show 3 < c by omega, if_true, mm, block, m1, matmul, ne_eq, not_true, if_false]
      by_cases hr : 3 = min 3 r
      · simp only [← hr, not_true, if_false]
        have hb1 : bc [b] [b] = .ok [b] := by by_cases h : b = 1 <;> simp [bc, h]
        rw [hb1]
        simp only [lift]
        by_cases hb : 3 = b
        · subst hb
          simp only [not_true, if_false, bc, lift, zipT, true_or, if_true, pack, setBlock, zerosLike, ht, m1, ← hr]
          simp [assignable, setCol3, ← hr, show 3 < c by omega]
        · simp [hb]
      · simp [hr, lift]
  rw [e0]
  constructor
  · intro h'; cases h'
    refine .inr ⟨⟨c, r, ds, ht, hd.symm, hds, hc4, ?_⟩, rfl⟩
    by_cases hd : ds = []
    · right; by_contra h; exact hok ⟨hd, by omega⟩
    · exact .inl hd
  · rintro (⟨⟨c', r', ds', h', _, _, h4⟩, _⟩ | ⟨_, rfl⟩)
    · have := (huniq h').1; omega
    · rfl

end Verif.Axis
