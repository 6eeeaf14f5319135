import Verif.PC.Hist
import Mathlib.Data.Rat.Defs
import Mathlib.Algebra.Order.Ring.Rat
import Mathlib.Algebra.Field.Rat
/-!
Properties C26–C33 of `Pointclouds`, for every history of operations.

`Obs s a` is the specification: every public getter of the object `s` returns what the plain batch of clouds `a` dictates.
-/
namespace Verif.Pcs
open Verif
set_option linter.unusedSectionVars false
set_option linter.unusedSimpArgs false

section
variable {α : Type*} [Field α] [LinearOrder α]

/-- Every getter of `s` returns what the batch `a` says. -/
structure Obs (s : PC α) (a : Clouds α) : Prop where
  list : ∀ X, (getList X s).1 = a X
  padded : ∀ X, (getPad X s).1 = .ok (specPad a X)
  mask : (getMask s).1 = specMask a
  num : s.num = specNum a
  size : s.B = count a
  presence : ∀ X, (hasAttr X s).1 = (a X).isSome
  width : ∀ l, a .features = some l → ∀ t ∈ l, t.cols = (numFeatures s).1
  nowidth : a .features = none → (numFeatures s).1 = 0

/-- The invariant of histories determines every getter. -/
theorem inv_obs {s : PC α} {a : Clouds α} (h : Inv s a) : Obs s a := by
  rcases h with h | ⟨P, h, hm⟩
  · obtain ⟨s1, e1, _⟩ := h.getMask
    obtain ⟨s2, e2, _⟩ := h.hasAttr .features
    refine ⟨?_, ?_, ?_, ?_, ?_, ?_, ?_, ?_⟩
    · intro X; rw [h.getList X, h.ha]; rfl
    · intro X; obtain ⟨s', e, _⟩ := h.getPad X; rw [e, h.ha]; rfl
    · rw [e1, h.ha]; rfl
    · rw [h.hnum, h.ha]; rfl
    · rw [h.hB, h.count]
    · intro X; obtain ⟨s', e, _⟩ := h.hasAttr X; rw [e, h.ha]; rfl
    · intro l hl; rw [h.ha] at hl; simp [emptyClouds] at hl
    · intro _; simp [numFeatures, e2]
  · obtain ⟨s1, e1, _⟩ := h.getMask hm
    obtain ⟨k, s2, e2, _, _, _, h0, h1, _⟩ := h.numFeatures
    refine ⟨?_, ?_, ?_, ?_, ?_, ?_, ?_, ?_⟩
    · intro X; rw [(h.getList X).1]
    · intro X; obtain ⟨s', e, _⟩ := h.getPad X; rw [e]; simp only [specPad, h.wf.pts, h.hN]
    · rw [e1]; simp [specMask, h.wf.pts]
    · rw [h.hnum]; simp [specNum, h.wf.pts]
    · rw [h.hB, h.count]
    · intro X; obtain ⟨s', e, _⟩ := h.hasAttr X; rw [e]
    · intro l hl t ht; rw [e2]; exact h1 l hl t ht
    · intro hl; rw [e2]; exact h0 hl

/-- C26.  Whatever the history, the object answers every query as the plain list of clouds would. -/
theorem hist_obs {s : PC α} {a : Clouds α} (h : Hist s a) : Obs s a := inv_obs h.inv

/-- C26.  Reading changes nothing: after any read the object still answers for the same batch. -/
theorem read_obs {s : PC α} {a : Clouds α} (h : Hist s a) (X : Attr) :
    Obs (getList X s).2 a ∧ Obs (getPad X s).2 a ∧ Obs (getMask s).2 a ∧ Obs (hasAttr X s).2 a ∧ Obs (numFeatures s).2 a :=
  ⟨hist_obs (h.readList X), hist_obs (h.readPad X), hist_obs h.readMask, hist_obs (h.query X), hist_obs h.width⟩

/-- C26/C33.  The batch of a history is always well-formed: one tensor per cloud for every attribute, of the right shape. -/
theorem hist_wf {s : PC α} {a : Clouds α} (h : Hist s a) : a = emptyClouds ∨ ∃ P, Wf a P := by
  rcases h.inv with h | ⟨P, h, _⟩
  · exact .inl h.ha
  · exact .inr ⟨P, h.wf⟩

/-- The padded tensor cell by cell: the point's coordinate, or zero beyond the cloud's last point. -/
theorem padT_cell {N : Nat} (t : T2 α) (n : Nat) (hn : n < N) (hle : t.rows.length ≤ N) :
    (padT N t).rows[n]? = some (if h : n < t.rows.length then t.rows[n] else List.replicate t.cols 0) := by
  simp only [padT, List.getElem?_append, List.getElem?_replicate]
  split_ifs with h1 h2
  · exact List.getElem?_eq_getElem h1
  · rfl
  · omega

/-! ### C28 append_points -/

/-- C28.  Compatible non-empty batches: every attribute of every cloud is concatenated, the argument is unchanged. -/
theorem append_spec {s o : PC α} {a b : Clouds α} (h : Hist s a) (k : Hist o b) (ha : a .points ≠ none) (hb : b .points ≠ none)
    (hc : Compatible a b) :
    ∃ s' o', append s o = (.ok (), s', o') ∧ Obs s' (specAppend a b) ∧ Obs o' b ∧ Hist s' (specAppend a b) ∧ Hist o' b ∧
      s'.num = List.zipWith (· + ·) s.num o.num := by
  rcases h.inv with h' | ⟨P, h', _⟩
  · exact absurd h'.noPoints ha
  rcases k.inv with k' | ⟨Q, k', _⟩
  · exact absurd k'.noPoints hb
  obtain ⟨s', o', e, hr, _⟩ := h'.append k' hc
  have h1 := Hist.append h k ha hb e
  have h2 := Hist.appended h k e
  refine ⟨s', o', e, hist_obs h1, hist_obs h2, h1, h2, ?_⟩
  rw [hr.hnum, h'.hnum, k'.hnum, sizes_catL]

/-- C28.  Incompatible batches: ValueError, and neither object changes. -/
theorem append_incompatible {s o : PC α} {a b : Clouds α} (h : Hist s a) (k : Hist o b) (ha : a .points ≠ none) (hb : b .points ≠ none)
    (hc : ¬ Compatible a b) :
    ∃ s' o', append s o = (.error .valueError, s', o') ∧ Obs s' a ∧ Obs o' b := by
  rcases h.inv with h' | ⟨P, h', _⟩
  · exact absurd h'.noPoints ha
  rcases k.inv with k' | ⟨Q, k', _⟩
  · exact absurd k'.noPoints hb
  obtain ⟨s', o', e, _⟩ := h'.append_error k' hc
  exact ⟨s', o', e, hist_obs (.appendError h k e), hist_obs (.appended h k e)⟩

/-- C28.  Appending to an empty object copies the argument; appending an empty object changes nothing. -/
theorem append_empty_cases {s o : PC α} {a b : Clouds α} (h : Hist s a) (k : Hist o b) :
    (a .points = none → ∃ s' o', append s o = (.ok (), s', o') ∧ Obs s' b ∧ Obs o' b) ∧
    (b .points = none → ∃ s' o', append s o = (.ok (), s', o') ∧ Obs s' a ∧ Obs o' b) := by
  have hb : b .points = none → ∃ s' o', append s o = (.ok (), s', o') ∧ Obs s' a ∧ Obs o' b := by
    intro hb
    rcases k.inv with k' | ⟨Q, k', _⟩
    · obtain ⟨o', e, _⟩ := append_empty_right (s := s) k'
      exact ⟨s, o', e, hist_obs (.appendEmpty h k hb e), hist_obs (.appended h k e)⟩
    · rw [k'.wf.pts] at hb; simp at hb
  refine ⟨fun ha => ?_, hb⟩
  rcases k.inv with k' | ⟨Q, k', _⟩
  · obtain ⟨o', e, _⟩ := append_empty_right (s := s) k'
    exact ⟨s, o', e, hist_obs (.appendToEmpty h k ha e), hist_obs (.appended h k e)⟩
  · rcases h.inv with h' | ⟨P, h', _⟩
    · obtain ⟨s', o', e, _⟩ := append_to_empty h' k'
      exact ⟨s', o', e, hist_obs (.appendToEmpty h k ha e), hist_obs (.appended h k e)⟩
    · rw [h'.wf.pts] at ha; simp at ha

/-! ### C29 clone -/

/-- C29.  `clone` never fails and never changes the object; list, padded, size and presence getters of the copy agree with the
object's in every reachable state. -/
theorem clone_getters {s : PC α} {a : Clouds α} (h : Hist s a) :
    ∃ c s', clone s = (.ok c, s') ∧ Obs s' a ∧ (∀ X, (getList X c).1 = a X ∧ (getPad X c).1 = .ok (specPad a X) ∧
      (hasAttr X c).1 = (a X).isSome) ∧ c.num = specNum a ∧ c.B = count a := by
  rcases h.inv with h' | ⟨P, h', _⟩
  · obtain ⟨s', e, _, hr⟩ := h'.clone
    have ho := hist_obs (.clone h (.inr (.inr (by simp [specNum, h'.noPoints, equi]))) e)
    exact ⟨_, s', e, by have := hist_obs (Hist.cloned h); rwa [e] at this, fun X => ⟨ho.list X, ho.padded X, ho.presence X⟩, ho.num, ho.size⟩
  · obtain ⟨c, s', e, _, hr, _⟩ := h'.clone
    refine ⟨c, s', e, by have := hist_obs (Hist.cloned h); rwa [e] at this, ?_, ?_, ?_⟩
    · intro X
      refine ⟨by rw [(hr.getList X).1], ?_, ?_⟩
      · obtain ⟨_, e', _⟩ := hr.getPad X; rw [e']; simp only [specPad, hr.wf.pts, hr.hN]
      · obtain ⟨_, e', _⟩ := hr.hasAttr X; rw [e']
    · rw [hr.hnum]; simp [specNum, hr.wf.pts]
    · rw [hr.hB, hr.count]

/-- C29.  The copy is fully equivalent (mask included, and hence under every later history) unless the points are held only in
padded form, the clouds have different sizes and the mask has never been read. -/
theorem clone_obs_partial {s : PC α} {a : Clouds α} (h : Hist s a) (hg : (s.lst .points).isSome ∨ s.mask.isSome ∨ equi (specNum a) = true) :
    ∃ c s', clone s = (.ok c, s') ∧ Obs c a ∧ Obs s' a ∧ Hist c a := by
  obtain ⟨c, s', e, h1, _⟩ := clone_getters h
  exact ⟨c, s', e, hist_obs (.clone h hg e), h1, .clone h hg e⟩

/-- C29.  Reading `points_list` (or `nonpad_mask`) first makes every clone faithful. -/
theorem clone_after_read {s : PC α} {a : Clouds α} (h : Hist s a) :
    (∃ c s', clone (getList .points s).2 = (.ok c, s') ∧ Obs c a) ∧ ∃ c s', clone (getMask s).2 = (.ok c, s') ∧ Obs c a := by
  rcases h.inv with h' | ⟨P, h', hm⟩
  · have hg : equi (specNum a) = true := by simp [specNum, h'.noPoints, equi]
    obtain ⟨c, s', e, ho, _⟩ := clone_obs_partial (h.readList .points) (.inr (.inr hg))
    obtain ⟨c2, s2, e2, ho2, _⟩ := clone_obs_partial h.readMask (.inr (.inr hg))
    exact ⟨⟨c, s', e, ho⟩, ⟨c2, s2, e2, ho2⟩⟩
  · obtain ⟨c, s', e, ho, _⟩ := clone_obs_partial (h.readList .points) (.inl (by rw [(h'.getList .points).1]; simp [h'.wf.pts]))
    obtain ⟨c2, s2, e2, ho2, _⟩ := clone_obs_partial h.readMask (.inr (.inl (by
      obtain ⟨s1, e1, _, hk, _⟩ := h'.getMask hm; rw [e1]; simp [hk])))
    exact ⟨⟨c, s', e, ho⟩, ⟨c2, s2, e2, ho2⟩⟩

/-! ### C30 geometric operations -/

/-- Rows as vectors. -/
def vecRow (v : V3 α) : List α := [v.x, v.y, v.z]

/-- C30.  `offset_` adds the offset to every point of every cloud, nothing else. -/
theorem offset_spec {s : PC α} {a : Clouds α} (h : Hist s a) (f : Nat → Nat → Nat → α) :
    ∃ s', offset_ f s = (.ok (), s') ∧ Obs s' (onPoints (fun b n r => r.mapIdx fun c x => x + f b n c) a) := by
  have ho := hist_obs (Hist.offset f h)
  rcases h.inv with h' | ⟨P, h', hm⟩
  · obtain ⟨s', e, _⟩ := (h'.geo f (.single M3.one) (.single M4.one) (.single M4.one) true).1
    rw [e] at ho; exact ⟨s', e, ho⟩
  · obtain ⟨s', e, _⟩ := h'.offset_ hm f
    rw [e] at ho; exact ⟨s', e, ho⟩

/-- C30.  `scale_`. -/
theorem scale_spec {s : PC α} {a : Clouds α} (h : Hist s a) (f : Nat → Nat → Nat → α) :
    ∃ s', scale_ f s = (.ok (), s') ∧ Obs s' (onPoints (fun b n r => r.mapIdx fun c x => x * f b n c) a) := by
  have ho := hist_obs (Hist.scale f h)
  rcases h.inv with h' | ⟨P, h', hm⟩
  · obtain ⟨s', e, _⟩ := (h'.geo f (.single M3.one) (.single M4.one) (.single M4.one) true).2.1
    rw [e] at ho; exact ⟨s', e, ho⟩
  · obtain ⟨s', e, _⟩ := h'.scale_ hm f
    rw [e] at ho; exact ⟨s', e, ho⟩

/-- What a rotation does to a row: `R v`, or `vᵀ R` when post-multiplying. -/
theorem rotRow_vec (R : Operand (M3 α)) (b : Nat) (v : V3 α) :
    rotRow R true b (vecRow v) = vecRow ((R.at M3.one b).mulVec v) ∧
    rotRow R false b (vecRow v) = vecRow ((R.at M3.one b).transpose.mulVec v) := by
  constructor <;>
    simp only [rotRow, vecRow, rowMul, M3.transpose, M3.c0, M3.c1, M3.c2, M3.mulVec, V3.dot, if_true, Bool.false_eq_true, if_false, List.cons.injEq, and_true] <;>
    exact ⟨by ring, by ring, by ring⟩

/-- C30.  `rotate_` with one matrix or one matrix per cloud. -/
theorem rotate_spec {s : PC α} {a : Clouds α} (h : Hist s a) (R : Operand (M3 α)) (pre : Bool) (hR : R.Fits (count a)) :
    ∃ s', rotate_ R pre s = (.ok (), s') ∧ Obs s' (onPointsNormals (fun b _ r => rotRow R pre b r) a) := by
  have ho := hist_obs (Hist.rotate R pre h hR)
  rcases h.inv with h' | ⟨P, h', hm⟩
  · obtain ⟨s', e, _⟩ := (h'.geo (fun _ _ _ => 0) R (.single M4.one) (.single M4.one) pre).2.2.1 (by rwa [h'.count] at hR)
    rw [e] at ho; exact ⟨s', e, ho⟩
  · obtain ⟨s', e, _⟩ := h'.rotate_ R pre (by rwa [h'.count] at hR)
    rw [e] at ho; exact ⟨s', e, ho⟩

/-- The batch after a rigid transform: points go to `R p + t`, normals to `R n`, the rest stays. -/
def specTransform (T : Operand (M4 α)) (a : Clouds α) : Clouds α := fun X =>
  match X with
  | .points => (a .points).map (mapRows fun b _ r => match r with
    | [x, y, z] => vecRow (((T.at M4.one b).R.mulVec ⟨x, y, z⟩).add (T.at M4.one b).t)
    | r => r)
  | .normals => (a .normals).map (mapRows fun b _ r => match r with
    | [x, y, z] => vecRow ((T.at M4.one b).R.mulVec ⟨x, y, z⟩)
    | r => r)
  | X => a X

theorem mapRows_congr {g g' : Nat → Nat → List α → List α} {P : List (T2 α)} (h : ∀ b, ∀ t ∈ P, ∀ r ∈ t.rows, ∀ n, g b n r = g' b n r) :
    mapRows g P = mapRows g' P := by
  apply List.ext_getElem
  · simp [mapRows]
  · intro b h1 h2
    simp only [mapRows_getElem]
    apply T2.ext
    · apply List.ext_getElem
      · simp
      · intro n h3 h4
        simp only [List.getElem_mapIdx]
        exact h b _ (List.getElem_mem _) _ (List.getElem_mem _) n
    · rfl

theorem mapRows_comp (g g' : Nat → Nat → List α → List α) (P : List (T2 α)) :
    mapRows g (mapRows g' P) = mapRows (fun b n r => g b n (g' b n r)) P := by
  simp [mapRows, List.mapIdx_mapIdx, Function.comp_def]

theorem transform_eq {a : Clouds α} {P} (hw : Wf a P) (T : Operand (M4 α)) :
    onPoints (fun b _ r => r.mapIdx fun c x => x + comp (T.at M4.one b).t c) (onPointsNormals (fun b _ r => rotRow (T.map M4.R) true b r) a) =
      specTransform T a := by
  have hrow : ∀ X l, X ≠ .features → a X = some l → ∀ t ∈ l, ∀ r ∈ t.rows, ∃ x y z, r = [x, y, z] := by
    intro X l hX hl t ht r hr
    exact len3 (by rw [hw.valid X l hl t ht r hr, hw.cols3 hX hl t ht])
  have hrot : ∀ b (x y z : α), rotRow (T.map M4.R) true b [x, y, z] = vecRow ((T.at M4.one b).R.mulVec ⟨x, y, z⟩) := by
    intro b x y z
    have := (rotRow_vec (T.map M4.R) b ⟨x, y, z⟩).1
    rw [Operand.map_at M4.R M4.one M3.one rfl] at this
    exact this
  funext X
  cases X with
  | points =>
    simp only [onPoints, onPointsNormals, specTransform, if_true, true_or, hw.pts, Option.map_some, Option.some.injEq]
    rw [mapRows_comp]
    apply mapRows_congr
    intro b t ht r hr n
    obtain ⟨x, y, z, rfl⟩ := hrow .points P (by simp) hw.pts t ht r hr
    rw [hrot]
    simp [vecRow, V3.add, comp, List.mapIdx_cons]
  | normals =>
    simp only [onPoints, onPointsNormals, specTransform, or_true, if_true, reduceCtorEq, if_false]
    cases hn : a .normals with
    | none => rfl
    | some l =>
      simp only [Option.map_some, Option.some.injEq]
      apply mapRows_congr
      intro b t ht r hr n
      obtain ⟨x, y, z, rfl⟩ := hrow .normals l (by simp) hn t ht r hr
      rw [hrot]
  | colors => rfl
  | features => rfl

/-- C30.  `transform_` maps every point to `R p + t` and every normal to `R n`. -/
theorem transform_spec {s : PC α} {a : Clouds α} (h : Hist s a) (T : Operand (M4 α)) (hT : T.Fits (count a)) :
    ∃ s', transform_ T true s = (.ok (), s') ∧ Obs s' (specTransform T a) ∧ Hist s' (specTransform T a) := by
  have hh := Hist.transform T true h hT
  rcases h.inv with h' | ⟨P, h', hm⟩
  · obtain ⟨s', e, hr⟩ := (h'.geo (fun _ _ _ => 0) (.single M3.one) T (.single M4.one) true).2.2.2.1 (by rwa [h'.count] at hT)
    have : specTransform T a = onPoints (fun b _ r => r.mapIdx fun c x => x + comp (T.at M4.one b).t c)
        (onPointsNormals (fun b _ r => rotRow (T.map M4.R) true b r) a) := by
      rw [h'.ha, onPointsNormals_empty, onPoints_empty]; funext X; cases X <;> rfl
    rw [this]
    rw [e] at hh; exact ⟨s', e, hist_obs hh, hh⟩
  · rw [← transform_eq h'.wf T]
    obtain ⟨s', e, _⟩ := h'.transform_ hm T true (by rwa [h'.count] at hT)
    rw [e] at hh; exact ⟨s', e, hist_obs hh, hh⟩

/-- What a projection does to a row: with `(x', y', z')` the first three coordinates of `K (x, y, z, 1)`, the row becomes
`(x' / z', y' / z', 1)`, or `(x', y', 1)` when `z'` is zero. -/
theorem projRow_vec (K : M4 α) (v : V3 α) :
    let x' := K.R.r0.x * v.x + K.R.r0.y * v.y + K.R.r0.z * v.z + K.t.x
    let y' := K.R.r1.x * v.x + K.R.r1.y * v.y + K.R.r1.z * v.z + K.t.y
    let z' := K.R.r2.x * v.x + K.R.r2.y * v.y + K.R.r2.z * v.z + K.t.z
    projRow K (vecRow v) = if z' = 0 then [x', y', 1] else [x' / z', y' / z', 1] := by
  intro x' y' z'
  have e : (K.mulVec ⟨v, 1⟩).v = ⟨x', y', z'⟩ := by
    ext <;> simp [M4.mulVec, M3.mulVec, V3.dot, V3.smul, V3.add, x', y', z']
  simp only [projRow, vecRow, Geom.projectPoint]
  rw [show (⟨⟨v.x, v.y, v.z⟩, 1⟩ : V4 α) = ⟨v, 1⟩ from rfl, e]
  by_cases h : z' = 0 <;> simp [Geom.guardZ, h]

/-- C30.  `pinhole_projection_` replaces every point by the homogenised pixel of its projection. -/
theorem projection_spec {s : PC α} {a : Clouds α} (h : Hist s a) (K : Operand (M4 α)) (hK : K.Fits (count a)) :
    ∃ s', pinholeProjection_ K s = (.ok (), s') ∧ Obs s' (onPoints (fun b _ r => projRow (K.at M4.one b) r) a) := by
  have ho := hist_obs (Hist.project K h hK)
  rcases h.inv with h' | ⟨P, h', hm⟩
  · obtain ⟨s', e, _⟩ := (h'.geo (fun _ _ _ => 0) (.single M3.one) (.single M4.one) K true).2.2.2.2
    rw [e] at ho; exact ⟨s', e, ho⟩
  · obtain ⟨s', e, _⟩ := h'.pinhole hm K (by rwa [h'.count] at hK)
    rw [e] at ho; exact ⟨s', e, ho⟩

/-- C30.  An operand batch of the wrong length is refused and nothing changes. -/
theorem geo_bad_batch {s : PC α} {a : Clouds α} (h : Hist s a) (R : Operand (M3 α)) (T : Operand (M4 α)) (pre : Bool) :
    (¬ R.Fits (count a) → ∃ s', rotate_ R pre s = (.error .valueError, s') ∧ Obs s' a) ∧
    (¬ T.Fits (count a) → ∃ s', transform_ T pre s = (.error .valueError, s') ∧ Obs s' a) := by
  have hB : s.B = count a := (hist_obs h).size
  constructor
  · intro hR
    exact ⟨s, by simp only [rotate_, hB, Operand.bad_of hR, if_true], hist_obs h⟩
  · intro hT
    exact ⟨s, by simp only [transform_, hB, Operand.bad_of hT, if_true], hist_obs h⟩

/-- C30.  The out-of-place operators `+ - * /`: on every state where the clone is faithful the result is the batch with the operation
applied, and the operand object is unchanged. -/
theorem outOfPlace_spec {s : PC α} {a : Clouds α} (h : Hist s a) (hg : (s.lst .points).isSome ∨ s.mask.isSome ∨ equi (specNum a) = true)
    (f : Nat → Nat → Nat → α) :
    (∃ c s', add f s = (.ok c, s') ∧ Obs c (onPoints (fun b n r => r.mapIdx fun k x => x + f b n k) a) ∧ Obs s' a) ∧
    (∃ c s', sub f s = (.ok c, s') ∧ Obs c (onPoints (fun b n r => r.mapIdx fun k x => x + f b n k * -1) a) ∧ Obs s' a) ∧
    (∃ c s', mul f s = (.ok c, s') ∧ Obs c (onPoints (fun b n r => r.mapIdx fun k x => x * f b n k) a) ∧ Obs s' a) ∧
    (∃ c s', div f s = (.ok c, s') ∧ Obs c (onPoints (fun b n r => r.mapIdx fun k x => x * (1 / f b n k)) a) ∧ Obs s' a) := by
  obtain ⟨c, s', e, _, ho, hc⟩ := clone_obs_partial h hg
  refine ⟨?_, ?_, ?_, ?_⟩
  · obtain ⟨c', e', o⟩ := offset_spec hc f
    exact ⟨c', s', by simp only [add, outOfPlace, e, e'], o, ho⟩
  · obtain ⟨c', e', o⟩ := offset_spec hc fun b n k => f b n k * -1
    exact ⟨c', s', by simp only [sub, outOfPlace, e, e'], o, ho⟩
  · obtain ⟨c', e', o⟩ := scale_spec hc f
    exact ⟨c', s', by simp only [mul, outOfPlace, e, e'], o, ho⟩
  · obtain ⟨c', e', o⟩ := scale_spec hc fun b n k => 1 / f b n k
    exact ⟨c', s', by simp only [div, outOfPlace, e, e'], o, ho⟩

/-! ### C31 indexing -/

/-- C31.  A selection of at least one valid position gives the selected clouds, in order, with all their attributes. -/
theorem getitem_spec {s : PC α} {a : Clouds α} (h : Hist s a) (idx : Index) (hp : a .points ≠ none) {is : List Nat}
    (hi : resolve (count a) idx = .ok is) (hne : is ≠ []) :
    ∃ c s', getitem idx s = (.ok c, s') ∧ Obs c (specSelect is a) ∧ Obs s' a ∧ (∀ i ∈ is, i < count a) := by
  rcases h.inv with h' | ⟨P, h', hm⟩
  · exact absurd h'.noPoints hp
  · obtain ⟨s', _, _, _, g1, _⟩ := h'.getitem idx
    obtain ⟨c, e, _⟩ := g1 is (by rwa [h'.count] at hi) hne
    have := hist_obs (Hist.indexed idx h)
    rw [e] at this
    exact ⟨c, s', e, hist_obs (.getitem idx h hi e), this, resolve_lt hi⟩

/-- C31.  Everything else raises: an invalid position raises what list indexing raises, an empty selection ValueError, indexing an
empty object IndexError; the object is unchanged. -/
theorem getitem_errors {s : PC α} {a : Clouds α} (h : Hist s a) (idx : Index) :
    (a .points = none → ∃ s', getitem idx s = (.error .indexError, s') ∧ Obs s' a) ∧
    (a .points ≠ none → ∀ e, resolve (count a) idx = .error e → ∃ s', getitem idx s = (.error e, s') ∧ Obs s' a) ∧
    (a .points ≠ none → resolve (count a) idx = .ok [] → ∃ s', getitem idx s = (.error .valueError, s') ∧ Obs s' a) := by
  have ho := hist_obs (Hist.indexed idx h)
  rcases h.inv with h' | ⟨P, h', hm⟩
  · obtain ⟨s', e, _⟩ := h'.getitem idx
    rw [e] at ho
    exact ⟨fun _ => ⟨s', e, ho⟩, fun hp => absurd h'.noPoints hp, fun hp => absurd h'.noPoints hp⟩
  · obtain ⟨s', _, _, _, _, g2, g3⟩ := h'.getitem idx
    refine ⟨fun hp => by rw [h'.wf.pts] at hp; simp at hp, ?_, ?_⟩
    · intro _ e he
      have e' := g3 e (by rwa [h'.count] at he)
      rw [e'] at ho
      exact ⟨s', e', ho⟩
    · intro _ he
      have e' := g2 (by rwa [h'.count] at he)
      rw [e'] at ho
      exact ⟨s', e', ho⟩

/-- C31.  One int selects one position, counted from the end when negative; outside `[-n, n)` it raises IndexError. -/
theorem resolve_int (n : Nat) (i : Int) :
    (∀ k : Nat, k < n → (i = k ∨ i = (k : Int) - n) → resolve n (.int i) = .ok [k]) ∧
    ((i < -n ∨ (n : Int) ≤ i) → resolve n (.int i) = .error .indexError) := by
  constructor
  · intro k hk hi
    have : pyIndex n i = .ok k := by
      simp only [pyIndex]
      rcases hi with hi | hi
      · rw [if_pos (by omega), if_pos (by omega)]; congr 1; omega
      · rw [if_neg (by omega), if_pos (by omega)]; congr 1; omega
    simp [resolve, this]
  · intro hi
    have : pyIndex n i = .error .indexError := by
      simp only [pyIndex]
      split_ifs <;> first | rfl | omega
    simp [resolve, this]

/-- C31.  A list of ints selects exactly the listed positions, in order; a boolean mask selects the true positions in increasing order. -/
theorem resolve_list_mask (n : Nat) :
    (∀ ks : List Nat, (∀ k ∈ ks, k < n) → resolve n (.list (ks.map Int.ofNat)) = .ok ks) ∧
    (∀ m : List Bool, m.length ≤ n → resolve n (.mask m) = .ok ((List.range m.length).filter fun k => m.getD k false)) := by
  have key : ∀ ks : List Nat, (∀ k ∈ ks, k < n) → mapE (pyIndex n) (ks.map Int.ofNat) = .ok ks := by
    intro ks
    induction ks with
    | nil => intro _; rfl
    | cons k ks ih =>
      intro h
      have hk := h k (by simp)
      have : pyIndex n (Int.ofNat k) = .ok k := by
        simp only [pyIndex]
        rw [if_pos (by simp), if_pos (by simpa using hk)]; rfl
      simp only [List.map_cons, mapE, this, ih fun j hj => h j (by simp [hj])]
  refine ⟨key, fun m hm => ?_⟩
  apply key
  intro k hk
  have := (List.mem_filter.1 hk).1
  have := List.mem_range.1 this
  omega

/-- C31.  A slice with step `c ≠ 0` selects `lo, lo+c, lo+2c, …` strictly before `hi`, all of them and in this order, where `lo` and
`hi` are Python's clamped bounds; step 0 raises ValueError. -/
theorem resolve_slice (n : Nat) (a b : Option Int) (c : Option Int) :
    (c = some 0 → resolve n (.slice a b c) = .error .valueError) ∧
    (c.getD 1 ≠ 0 → ∃ len : Nat, resolve n (.slice a b c) =
        .ok ((List.range len).map fun (k : Nat) => (sliceLo n (c.getD 1) a + (k : Int) * c.getD 1).toNat) ∧
      ∀ k : Nat, (k < len ↔ if 0 < c.getD 1 then sliceLo n (c.getD 1) a + k * c.getD 1 < sliceHi n (c.getD 1) b
        else sliceHi n (c.getD 1) b < sliceLo n (c.getD 1) a + k * c.getD 1) ∧
        (k < len → 0 ≤ sliceLo n (c.getD 1) a + k * c.getD 1 ∧ sliceLo n (c.getD 1) a + k * c.getD 1 < n)) := by
  constructor
  · rintro rfl; simp [resolve]
  · intro hc
    refine ⟨rangeLen (sliceLo n (c.getD 1) a) (sliceHi n (c.getD 1) b) (c.getD 1), ?_, ?_⟩
    · simp only [resolve]; rw [if_neg hc]
    · intro k
      exact ⟨rangeLen_iff _ _ _ hc k, slice_elem n _ hc a b k⟩

/-- C31.  The bounds of a slice: absent bounds span everything, negative ones count from the end, everything is clamped to the list. -/
theorem slice_plain (n : Nat) (i j : Nat) (hij : i ≤ j) (hj : j ≤ n) :
    resolve n (.slice (some i) (some j) none) = .ok ((List.range (j - i)).map fun k => i + k) ∧
    resolve n (.slice none none none) = .ok (List.range n) := by
  have h1 : rangeLen (sliceLo n 1 (some (i : Int))) (sliceHi n 1 (some (j : Int))) 1 = j - i := by
    simp only [rangeLen, sliceLo, sliceHi]
    simp only [Int.reduceLT, if_true, Int.ediv_one]
    have e1 : ¬ ((i : Int) < 0) := by omega
    have e2 : ¬ ((j : Int) < 0) := by omega
    have e3 : min (i : Int) n = i := by omega
    have e4 : min (j : Int) n = j := by omega
    simp only [e1, e2, if_false, e3, e4]
    split_ifs <;> omega
  have h2 : sliceLo n 1 (some (i : Int)) = i := by
    simp only [sliceLo, Int.reduceLT, if_true]; rw [if_neg (by omega)]; omega
  have h3 : rangeLen (sliceLo n 1 none) (sliceHi n 1 none) 1 = n := by
    simp only [rangeLen, sliceLo, sliceHi]
    simp only [Int.reduceLT, if_true, Int.ediv_one]
    split_ifs <;> omega
  constructor
  · simp only [resolve, Option.getD_none]
    rw [if_neg (by decide), h1, h2]
    congr 1
    apply List.map_congr_left
    intro k _
    omega
  · simp only [resolve, Option.getD_none]
    rw [if_neg (by decide), h3]
    congr 1
    conv_rhs => rw [← List.map_id (List.range n)]
    apply List.map_congr_left
    intro k _
    simp [sliceLo]

/-! ### C33 constructors -/

/-- C33.  The list constructor accepts exactly the well-formed batches. -/
theorem newList_accepts_iff {arg : Clouds α} {P : List (T2 α)} (hP : arg .points = some P)
    (hv : ∀ X l, arg X = some l → ∀ t ∈ l, t.Valid) :
    ((∃ s, newList arg P = .ok s) ↔ Wf arg P) ∧ (¬ Wf arg P → newList arg P = .error .valueError) := by
  have h1 : (∃ s, newList arg P = .ok s) ↔ Wf arg P :=
    ⟨fun ⟨s, h⟩ => newList_wf hP hv h, fun h => let ⟨s, e, _⟩ := newList_rep h; ⟨s, e⟩⟩
  refine ⟨h1, fun hn => ?_⟩
  cases h : newList arg P with
  | ok s => exact absurd (h1.1 ⟨s, h⟩) hn
  | error e =>
    simp only [newList] at h
    split_ifs at h <;> (cases h; rfl)

/-- C33.  The tensor constructor accepts exactly the well-formed batches whose clouds all have the same size. -/
theorem newTensor_accepts_iff {arg : Clouds α} {P : List (T2 α)} (hP : arg .points = some P)
    (hv : ∀ X l, arg X = some l → Rect l) :
    ((∃ s, newTensor arg P = .ok s) ↔ Wf arg P) ∧ (¬ Wf arg P → newTensor arg P = .error .valueError) := by
  have h1 : (∃ s, newTensor arg P = .ok s) ↔ Wf arg P := by
    constructor
    · rintro ⟨s, h⟩; exact (newTensor_wf hP hv h).1
    · intro h
      obtain ⟨n, c, hn⟩ := hv _ _ hP
      obtain ⟨s, e, _⟩ := newTensor_rep h (N := n) fun t ht => (hn t ht).2.1
      exact ⟨s, e⟩
  refine ⟨h1, fun hn => ?_⟩
  cases h : newTensor arg P with
  | ok s => exact absurd (h1.1 ⟨s, h⟩) hn
  | error e =>
    simp only [newTensor] at h
    split_ifs at h <;> (cases h; rfl)

/-- C33.  What the constructors build: the object answers for its arguments, and the size flag says whether all clouds have the same size. -/
theorem constructed_obs {arg : Clouds α} {P : List (T2 α)} {s : PC α} (hP : arg .points = some P) :
    ((∀ X l, arg X = some l → ∀ t ∈ l, t.Valid) → newList arg P = .ok s →
      Obs s arg ∧ (s.eq = some true ↔ ∃ n, ∀ t ∈ P, t.rows.length = n)) ∧
    ((∀ X l, arg X = some l → Rect l) → newTensor arg P = .ok s →
      Obs s arg ∧ (s.eq = some true ↔ ∃ n, ∀ t ∈ P, t.rows.length = n)) := by
  have key : ∀ P : List (T2 α), P ≠ [] → (equi (sizes P) = true ↔ ∃ n, ∀ t ∈ P, t.rows.length = n) := by
    intro P hne
    constructor
    · intro h
      refine ⟨maxL (sizes P), fun t ht => ?_⟩
      exact equi_true (sizes_ne hne) h _ (by simp only [sizes]; exact List.mem_map_of_mem ht)
    · rintro ⟨n, hn⟩
      apply equi_const n
      intro k hk
      obtain ⟨t, ht, rfl⟩ := List.mem_map.1 hk
      exact hn t ht
  constructor
  · intro hv h
    have hw := newList_wf hP hv h
    obtain ⟨s', e, _, hf⟩ := newList_rep hw
    rw [h] at e; cases e
    refine ⟨hist_obs (.fromList hP hv h), ?_⟩
    rw [hf P hP, Option.some.injEq]; exact key P hw.ne
  · intro hv h
    obtain ⟨hw, N, hN⟩ := newTensor_wf hP hv h
    obtain ⟨s', e, _, hf⟩ := newTensor_rep hw hN
    rw [h] at e; cases e
    refine ⟨hist_obs (.fromTensor hP hv h), ?_⟩
    rw [hf P hP, Option.some.injEq]; exact key P hw.ne

end
end Verif.Pcs
