import Verif.Slam.Thresholds
/-!
C85: where the points of a `PointFusion` map come from.  Every measurement (pixel with depth of some frame) went into exactly one map point, and every
map point is the weighted mean of the measurements that went into it.
-/
namespace Verif.Slam
open Verif Pcs
set_option linter.unusedSectionVars false
set_option linter.unusedSimpArgs false

section
variable {α : Type*} [Field α] [LinearOrder α] [IsStrictOrderedRing α] [FloorRing α]

/-! ### Specification -/

/-- A measurement of a sequence: frame, row, column. -/
abbrev Meas := Nat × Nat × Nat

/-- The measurements of the first `n` frames of sequence `b`: the pixels with depth, frame by frame, row by row. -/
def measurements (i : Rgbd.In α) (b n : Nat) : List Meas :=
  (List.range n).flatMap fun t => (depthPixels i b t).map fun x => (t, x.1, x.2)

/-- The weight of a measurement: that of its position in the camera frame. -/
def weightOf (S : Sys α) (i : Rgbd.In α) (b : Nat) (m : Meas) : α := S.al (Rgbd.vertexAt S.eps i b m.1 m.2.1 m.2.2)

/-- What a measurement says about the world (position, normal, colour), `Q t` being the pose of frame `t`. -/
def valueOf (S : Sys α) (i : Rgbd.In α) (b : Nat) (Q : Nat → M4 α) (X : Attr) (m : Meas) : V3 α := worldValue S i b m.1 (Q m.1) (m.2.1, m.2.2) X

/-- The mean of the values `v m` with weights `w m` over the list `l`. -/
def wmean {β : Type*} (w : β → α) (v : β → V3 α) (l : List β) : V3 α :=
  ⟨(l.map fun m => w m * (v m).x).sum / (l.map w).sum, (l.map fun m => w m * (v m).y).sum / (l.map w).sum,
    (l.map fun m => w m * (v m).z).sum / (l.map w).sum⟩

/-- `led` lists, for every point of cloud `b` of the map `c`, the measurements it was made of, the map being that of `n` frames with the poses `Q`. -/
structure Ledger (S : Sys α) (i : Rgbd.In α) (b n : Nat) (Q : Nat → M4 α) (c : Attr → List (T2 α)) (led : List (List Meas)) : Prop where
  /-- one entry per map point -/
  size : Fusion.sizeAt (c .points) b = led.length
  /-- every measurement is in exactly one entry, once -/
  all : led.flatten.Perm (measurements i b n)
  /-- no entry is empty, and the points are in the order of their first measurements -/
  first : (led.map List.head?).Sublist ((measurements i b n).map some)
  /-- at most one measurement of each frame, in the order of the frames -/
  frames : ∀ e ∈ led, e.Pairwise fun m m' => m.1 < m'.1
  /-- the confidence is the sum of the weights -/
  conf : ∀ (k : Nat) e, led[k]? = some e → Fusion.conf (c .features) b k = (e.map (weightOf S i b)).sum
  /-- position, normal and colour are the weighted means -/
  value : ∀ X, X ≠ .features → ∀ (k : Nat) e, led[k]? = some e → Fusion.vecAt (c X) b k = some (wmean (weightOf S i b) (valueOf S i b Q X) e)

/-! ### Means -/

theorem wmean_single {β : Type*} (w : β → α) (v : β → V3 α) (m : β) (h : w m ≠ 0) : wmean w v [m] = v m := by
  simp [wmean, mul_div_cancel_left₀ _ h]

theorem wmean_snoc {β : Type*} (w : β → α) (v : β → V3 α) (l : List β) (m : β) (h : (l.map w).sum ≠ 0) :
    wmean w v (l ++ [m]) = Fusion.wAvg (l.map w).sum (w m) (wmean w v l) (v m) := by
  simp only [wmean, Fusion.wAvg, V3.smul, V3.add, List.map_append, List.map_cons, List.map_nil, List.sum_append, List.sum_cons, List.sum_nil, add_zero,
    mul_div_cancel₀ _ h, V3.mk.injEq]
  refine ⟨?_, ?_, ?_⟩ <;> rw [div_eq_inv_mul, one_div] <;> ring

theorem sum_pos_of {β : Type*} {w : β → α} (hw : ∀ m, 0 < w m) {l : List β} (h : l ≠ []) : 0 < (l.map w).sum := by
  refine List.sum_pos _ (fun x hx => ?_) (by simpa using h)
  obtain ⟨m, _, rfl⟩ := List.mem_map.1 hx
  exact hw m

/-! ### One frame -/

/-- How frame `k` (with pose `T`) changes cloud `b`: `hit n` is the pixel merged into point `n`, `fresh` are the appended pixels. -/
structure CloudStep (S : Sys α) (i : Rgbd.In α) (b k : Nat) (T : M4 α) (old new : Attr → List (T2 α)) (hit : Nat → Option (Nat × Nat))
    (fresh : List (Nat × Nat)) : Prop where
  split : ((List.range (Fusion.sizeAt (old .points) b)).filterMap hit ++ fresh).Perm (depthPixels i b k)
  sub : fresh.Sublist (depthPixels i b k)
  size : Fusion.sizeAt (new .points) b = Fusion.sizeAt (old .points) b + fresh.length
  confHit : ∀ n x, n < Fusion.sizeAt (old .points) b → hit n = some x →
    Fusion.conf (new .features) b n = Fusion.conf (old .features) b n + weightOf S i b (k, x)
  confKeep : ∀ n, n < Fusion.sizeAt (old .points) b → hit n = none → Fusion.conf (new .features) b n = Fusion.conf (old .features) b n
  confNew : ∀ (j : Nat) x, fresh[j]? = some x → Fusion.conf (new .features) b (Fusion.sizeAt (old .points) b + j) = weightOf S i b (k, x)
  valHit : ∀ X, X ≠ .features → ∀ n x v, hit n = some x → Fusion.vecAt (old X) b n = some v →
    Fusion.vecAt (new X) b n = some (Fusion.wAvg (Fusion.conf (old .features) b n) (weightOf S i b (k, x)) v (worldValue S i b k T x X))
  valKeep : ∀ X, X ≠ .features → ∀ n v, hit n = none → Fusion.vecAt (old X) b n = some v → Fusion.vecAt (new X) b n = some v
  valNew : ∀ X, X ≠ .features → ∀ (j : Nat) x, fresh[j]? = some x →
    Fusion.vecAt (new X) b (Fusion.sizeAt (old .points) b + j) = some (worldValue S i b k T x X)

/-- The ledger after one more frame. -/
def extend (k : Nat) (hit : Nat → Option (Nat × Nat)) (fresh : List (Nat × Nat)) (led : List (List Meas)) : List (List Meas) :=
  (led.mapIdx fun n e => e ++ ((hit n).map fun x => (k, x)).toList) ++ fresh.map fun x => [(k, x)]

theorem flatten_mapIdx {β : Type*} (f : Nat → List β) (l : List (List β)) :
    (l.mapIdx fun n e => e ++ f n).flatten.Perm (l.flatten ++ (List.range l.length).flatMap f) := by
  induction l using List.reverseRecOn with
  | nil => simp
  | append_singleton l e ih =>
    rw [List.mapIdx_concat, List.flatten_append, List.flatten_append, List.length_append, List.length_singleton, List.range_succ, List.flatMap_append]
    simp only [List.flatten_cons, List.flatten_nil, List.append_nil, List.flatMap_cons, List.flatMap_nil]
    refine (ih.append_right _).trans ?_
    rw [List.append_assoc, List.append_assoc]
    refine List.Perm.append_left _ ?_
    rw [← List.append_assoc, ← List.append_assoc]
    exact List.Perm.append_right _ List.perm_append_comm

theorem measurements_succ (i : Rgbd.In α) (b n : Nat) :
    measurements i b (n + 1) = measurements i b n ++ (depthPixels i b n).map fun x => (n, x.1, x.2) := by
  rw [measurements, List.range_succ, List.flatMap_append]; simp [measurements]

theorem mem_measurements {i : Rgbd.In α} {b n : Nat} {m : Meas} (h : m ∈ measurements i b n) : m.1 < n := by
  simp only [measurements, List.mem_flatMap, List.mem_range, List.mem_map] at h
  obtain ⟨t, ht, x, _, rfl⟩ := h
  exact ht

theorem ledger_next {S : Sys α} (hal : ∀ p, 0 < S.al p) {i : Rgbd.In α} {b k : Nat} {Q : Nat → M4 α} {old new : Attr → List (T2 α)}
    {hit : Nat → Option (Nat × Nat)} {fresh : List (Nat × Nat)} {led : List (List Meas)} (hl : Ledger S i b k Q old led)
    (hs : CloudStep S i b k (Q k) old new hit fresh) : Ledger S i b (k + 1) Q new (extend k hit fresh led) := by
  have hw : ∀ m, 0 < weightOf S i b m := fun m => hal _
  have hlen : (led.mapIdx fun n e => e ++ ((hit n).map fun x => ((k, x) : Meas)).toList).length = led.length := List.length_mapIdx
  have hne : ∀ e ∈ led, e ≠ [] := by
    intro e he h0
    have := hl.first.subset (List.mem_map_of_mem he)
    rw [h0] at this
    simp at this
  have hlt : ∀ e ∈ led, ∀ m ∈ e, m.1 < k := fun e he m hm => mem_measurements (hl.all.subset (List.mem_flatten.2 ⟨e, he, hm⟩))
  -- an entry of the new ledger
  have hget : ∀ (n : Nat) e', (extend k hit fresh led)[n]? = some e' →
      (∃ e, led[n]? = some e ∧ ((hit n = none ∧ e' = e) ∨ ∃ x, hit n = some x ∧ e' = e ++ [(k, x)])) ∨
      (∃ j x, n = led.length + j ∧ fresh[j]? = some x ∧ e' = [(k, x)]) := by
    intro n e' h
    unfold extend at h
    by_cases hn : n < led.length
    · rw [List.getElem?_append_left (by rw [hlen]; exact hn), List.getElem?_mapIdx, Option.map_eq_some_iff] at h
      obtain ⟨e, he, rfl⟩ := h
      refine .inl ⟨e, he, ?_⟩
      cases hh : hit n with
      | none => exact .inl ⟨rfl, by simp⟩
      | some x => exact .inr ⟨x, rfl, by simp⟩
    · rw [List.getElem?_append_right (by rw [hlen]; omega), hlen, List.getElem?_map, Option.map_eq_some_iff] at h
      obtain ⟨x, hx, rfl⟩ := h
      exact .inr ⟨n - led.length, x, by omega, hx, rfl⟩
  have hkey : ∀ (n : Nat) e', (extend k hit fresh led)[n]? = some e' → Fusion.conf (new .features) b n = (e'.map (weightOf S i b)).sum ∧
      ∀ X, X ≠ .features → Fusion.vecAt (new X) b n = some (wmean (weightOf S i b) (valueOf S i b Q X) e') := by
    intro n e' h
    rcases hget n e' h with ⟨e, he, ⟨h0, rfl⟩ | ⟨x, hx, rfl⟩⟩ | ⟨j, x, rfl, hx, rfl⟩
    · have hn : n < Fusion.sizeAt (old .points) b := by rw [hl.size]; exact (List.getElem?_eq_some_iff.1 he).1
      exact ⟨by rw [hs.confKeep n hn h0, hl.conf n _ he], fun X hX => hs.valKeep X hX n _ h0 (hl.value X hX n _ he)⟩
    · have hn : n < Fusion.sizeAt (old .points) b := by rw [hl.size]; exact (List.getElem?_eq_some_iff.1 he).1
      refine ⟨by rw [hs.confHit n x hn hx, hl.conf n _ he]; simp, fun X hX => ?_⟩
      rw [hs.valHit X hX n x _ hx (hl.value X hX n _ he), hl.conf n _ he,
        wmean_snoc _ _ _ _ (sum_pos_of hw (hne e (List.mem_of_getElem? he))).ne']
      rfl
    · rw [← hl.size]
      refine ⟨by rw [hs.confNew j x hx]; simp, fun X hX => ?_⟩
      rw [hs.valNew X hX j x hx, wmean_single _ _ _ (hw _).ne']
      rfl
  refine ⟨?_, ?_, ?_, ?_, fun n e h => (hkey n e h).1, fun X hX n e h => (hkey n e h).2 X hX⟩
  · rw [hs.size, hl.size, extend, List.length_append, hlen, List.length_map]
  · rw [measurements_succ, extend, List.flatten_append]
    refine ((flatten_mapIdx _ led).append_right _).trans ?_
    rw [List.append_assoc]
    refine hl.all.append ?_
    have e1 : ((List.range led.length).flatMap fun n => ((hit n).map fun x => ((k, x) : Meas)).toList) ++ (fresh.map fun x => [((k, x) : Meas)]).flatten =
        (((List.range led.length).filterMap hit) ++ fresh).map fun x => (k, x.1, x.2) := by
      rw [List.map_append]
      congr 1
      · rw [List.map_filterMap, List.filterMap_eq_flatMap_toList]
      · rw [← List.flatMap_def, List.map_eq_flatMap]
    rw [e1, ← hl.size]
    exact hs.split.map _
  · rw [measurements_succ, extend, List.map_append, List.map_append]
    refine List.Sublist.append ?_ ?_
    · have e1 : (led.mapIdx fun n e => e ++ ((hit n).map fun x => ((k, x) : Meas)).toList).map List.head? = led.map List.head? := by
        refine List.ext_getElem? fun n => ?_
        rw [List.getElem?_map, List.getElem?_mapIdx, List.getElem?_map]
        cases he : led[n]? with
        | none => rfl
        | some e =>
          have := hne e (List.mem_of_getElem? he)
          simp only [Option.map_some, Option.some.injEq]
          cases e with
          | nil => exact absurd rfl this
          | cons m e => rfl
      rw [e1]; exact hl.first
    · have e1 : (fresh.map fun x => [((k, x) : Meas)]).map List.head? = (fresh.map fun x => (k, x.1, x.2)).map some := by
        rw [List.map_map, List.map_map]; rfl
      rw [e1]
      exact (hs.sub.map _).map _
  · intro e' h
    obtain ⟨n, h⟩ := List.getElem?_of_mem h
    rcases hget n e' h with ⟨e, he, ⟨h0, rfl⟩ | ⟨x, hx, rfl⟩⟩ | ⟨j, x, rfl, hx, rfl⟩
    · exact hl.frames _ (List.mem_of_getElem? he)
    · have hm := List.mem_of_getElem? he
      rw [List.pairwise_append]
      exact ⟨hl.frames e hm, by simp, fun m hm' m' hm'' => by simp at hm''; subst hm''; exact hlt e hm m hm'⟩
    · simp
theorem pairwise_of_symm {β : Type*} {r : β → β → Prop} (hr : ∀ x y, r x y → r y x) {l : List β} (h : l.Pairwise r) {x y : β} (hx : x ∈ l) (hy : y ∈ l)
    (hne : x ≠ y) : r x y := by
  induction h with
  | nil => simp at hx
  | cons ha _ ih =>
    rcases List.mem_cons.1 hx with rfl | hx' <;> rcases List.mem_cons.1 hy with rfl | hy'
    · exact absurd rfl hne
    · exact ha _ hy'
    · exact hr _ _ (ha _ hx')
    · exact ih hx' hy'

/-- The lists of a map, `[]` for the empty map. -/
def content (a : Clouds α) (X : Attr) : List (T2 α) := (a X).getD []

theorem step_of_change {S : Sys α} {frames : Rgbd.Obj α} {i : Rgbd.In α} {d t : α} (hS : S.mapper = .fusion d t) (ht : 0 ≤ t)
    {Ts : List (Rgbd.TM α)} {a a' : Clouds α} (r : Run S frames i Ts a) {T : Rgbd.TM α}
    (hc : MapChange S (posed (snap i Ts.length) T) a a') {b : Nat} (hb : b < i.B) :
    ∃ hit fresh, CloudStep S i b Ts.length (T.at' b 0) (content a) (content a') hit fresh := by
  set k := Ts.length with hk
  obtain ⟨Sp1, _, SpH, SpW, Sp⟩ := snap_spec i k
  have hB' : (posed (snap i k) T).B = i.B := Sp1
  have hH' : (posed (snap i k) T).H = i.H := SpH
  have hW' : (posed (snap i k) T).W = i.W := SpW
  have hD' : (posed (snap i k) T).depth b 0 = i.depth b k := (Sp b hb).2.1
  have hbB : b < (posed (snap i k) T).B := hB'.symm ▸ hb
  have hvalid : ∀ y x, (view S (posed (snap i k) T)).valid b 0 y x = true ↔ 0 < i.depth b k y x := by
    intro y x
    show decide (0 < (posed (snap i k) T).depth b 0 y x) = true ↔ _
    rw [hD', decide_eq_true_eq]
  have hmemd : ∀ x, x ∈ depthPixels i b k → 0 < i.depth b k x.1 x.2 := by
    intro x hx
    rw [depthPixels, List.mem_filter] at hx
    simpa using hx.2
  have hpx : Fusion.pixels 1 (posed (snap i k) T).H (posed (snap i k) T).W ((view S (posed (snap i k) T)).valid b) =
      (depthPixels i b k).map fun x => (0, x.1, x.2) := by
    rw [pixels_one, hH', hW', depthPixels]
    congr 1
    refine List.filter_congr fun x _ => ?_
    rw [Bool.eq_iff_iff, hvalid, decide_eq_true_eq]
  have himg : ∀ x : Nat × Nat, 0 < i.depth b k x.1 x.2 →
      S.al (Rgbd.vertexAt S.eps (posed (snap i k) T) b 0 x.1 x.2) = weightOf S i b (k, x) ∧
      Rgbd.gvertexAt S.eps (posed (snap i k) T) b 0 x.1 x.2 = worldValue S i b k (T.at' b 0) x .points ∧
      Rgbd.gnormalAt S.nrm S.eps (posed (snap i k) T) b 0 x.1 x.2 = worldValue S i b k (T.at' b 0) x .normals ∧
      (posed (snap i k) T).rgb b 0 x.1 x.2 = worldValue S i b k (T.at' b 0) x .colors := by
    intro x hd
    obtain ⟨i1, i2, i3, i4⟩ := image_world S i hb T hd
    exact ⟨by rw [i1]; rfl, i2, i3, i4⟩
  unfold MapChange at hc
  rw [hS] at hc; simp only at hc
  cases hP : a .points with
  | none =>
    rw [hP] at hc; simp only at hc
    subst hc
    have hTs : Ts = [] := by
      by_contra h
      exact (run_empty r).2 h hP
    have ha : a = emptyClouds := (run_empty r).1 hTs
    have hc0 : ∀ X, content a X = [] := by intro X; rw [ha]; rfl
    have hs0 : Fusion.sizeAt (content a .points) b = 0 := by rw [hc0]; rfl
    have hnone : ∀ X n, Fusion.vecAt (content a X) b n = none := by intro X n; rw [hc0]; simp [Fusion.vecAt, Fusion.rowAt]
    refine ⟨fun _ => none, depthPixels i b k, ?_, List.Sublist.refl _, ?_, fun n x h => ?_, fun n h => ?_, fun j x hx => ?_, fun X _ n x v h => by simp at h,
      fun X _ n v _ h => ?_, fun X hX j x hx => ?_⟩
    · rw [hs0]; simp
    · rw [hs0, Nat.zero_add]
      show Fusion.sizeAt (Fusion.picked _ _ _) b = _
      rw [sizeAt_picked _ _ _ hbB]
      show (Fusion.pixels 1 (posed (snap i k) T).H (posed (snap i k) T).W ((view S (posed (snap i k) T)).valid b)).length = _
      rw [hpx, List.length_map]
    · rw [hs0] at h; omega
    · rw [hs0] at h; omega
    · rw [hs0, Nat.zero_add, ← (himg x (hmemd x (List.mem_of_getElem? hx))).1]
      show Fusion.conf (Fusion.pickedAl _ _ _) b j = _
      rw [Fusion.conf, Fusion.conf_pickedAl hbB]
      have : (Fusion.pixels (view S (posed (snap i k) T)).L (view S (posed (snap i k) T)).H (view S (posed (snap i k) T)).W
        ((view S (posed (snap i k) T)).valid b)) = _ := hpx
      rw [this, List.getElem?_map, hx]
      rfl
    · rw [hnone] at h; cases h
    · rw [hs0, Nat.zero_add]
      obtain ⟨_, i2, i3, i4⟩ := himg x (hmemd x (List.mem_of_getElem? hx))
      have this : (Fusion.pixels (view S (posed (snap i k) T)).L (view S (posed (snap i k) T)).H (view S (posed (snap i k) T)).W
        ((view S (posed (snap i k) T)).valid b)) = _ := hpx
      cases X with
      | points =>
        show Fusion.vecAt (Fusion.picked _ _ _) b j = _
        rw [Fusion.vecAt_picked hbB, this, List.getElem?_map, hx, ← i2]; rfl
      | normals =>
        show Fusion.vecAt (Fusion.picked _ _ _) b j = _
        rw [Fusion.vecAt_picked hbB, this, List.getElem?_map, hx, ← i3]; rfl
      | colors =>
        show Fusion.vecAt (Fusion.picked _ _ _) b j = _
        rw [Fusion.vecAt_picked hbB, this, List.getElem?_map, hx, ← i4]; rfl
      | features => exact absurd rfl hX
  | some P =>
    rw [hP] at hc; simp only at hc
    obtain ⟨T', P', rows, hT', f⟩ := hc
    have hT : T' = T.at' := by
      have : (posed (snap i k) T).poses = some T.at' := rfl
      rw [this] at hT'; cases hT'; rfl
    subst hT
    obtain ⟨F, Pl, Pl', hF, hPl, hPl', mp1, mp2, mp3⟩ := f.merged .points (Rgbd.gvertexAt S.eps (posed (snap i k) T)) (by simp)
    obtain ⟨F2, Nn, Nn', hF2, hN, hN', mn1, mn2, mn3⟩ := f.merged .normals (Rgbd.gnormalAt S.nrm S.eps (posed (snap i k) T)) (by simp)
    obtain ⟨F3, Cl, Cl', hF3, hC, hC', mc1, mc2, mc3⟩ := f.merged .colors (posed (snap i k) T).rgb (by simp)
    obtain ⟨F4, F', hF4, hF', _, cf1, cf2, _⟩ := f.conf
    rw [hF] at hF2 hF3 hF4; cases hF2; cases hF3; cases hF4
    rw [hP] at hPl; cases hPl
    have eP : content a .points = P := by rw [content, hP]; rfl
    have eN : content a .normals = Nn := by rw [content, hN]; rfl
    have eC : content a .colors = Cl := by rw [content, hC]; rfl
    have eF : content a .features = F := by rw [content, hF]; rfl
    have eP' : content a' .points = Pl' := by rw [content, hPl']; rfl
    have eN' : content a' .normals = Nn' := by rw [content, hN']; rfl
    have eC' : content a' .colors = Cl' := by rw [content, hC']; rfl
    have eF' : content a' .features = F' := by rw [content, hF']; rfl
    have hrd : ∀ r ∈ rows, r.b = b → 0 < i.depth b k r.h r.w := by
      rintro r hr rfl
      exact (hvalid _ _).1 (Fusion.candidate_valid (Fusion.ofIn_zeroNormals _ _ _) ht (f.cand Nn hN r hr))
    let hit : Nat → Option (Nat × Nat) := fun n => (rows.find? fun r => r.b = b ∧ r.n = n).map fun r => (r.h, r.w)
    let fresh : List (Nat × Nat) := (depthPixels i b k).filter fun x => decide (∀ r ∈ rows, ¬ (r.b = b ∧ r.h = x.1 ∧ r.w = x.2))
    have hhit : ∀ n x, hit n = some x → ∃ r ∈ rows, r.b = b ∧ r.n = n ∧ x = (r.h, r.w) := by
      intro n x h
      simp only [hit, Option.map_eq_some_iff] at h
      obtain ⟨r, hr, rfl⟩ := h
      have h1 := List.find?_some hr
      simp only [decide_eq_true_eq] at h1
      exact ⟨r, List.mem_of_find?_eq_some hr, h1.1, h1.2, rfl⟩
    have hmiss : ∀ n, hit n = none → ∀ r ∈ rows, ¬ (r.b = b ∧ r.n = n) := by
      intro n h r hr
      simp only [hit, Option.map_eq_none_iff, List.find?_eq_none, decide_eq_true_eq] at h
      exact h r hr
    have hfound : ∀ r ∈ rows, r.b = b → hit r.n = some (r.h, r.w) := by
      intro r hr hrb
      cases h : hit r.n with
      | none => exact absurd ⟨hrb, rfl⟩ (hmiss _ h r hr)
      | some x =>
        obtain ⟨s, hs, h1, h2, rfl⟩ := hhit _ _ h
        by_cases hrs : r = s
        · rw [hrs]
        · exact absurd ⟨hrb.trans h1.symm, h2.symm⟩ (pairwise_of_symm (fun x y h h' => h ⟨h'.1.symm, h'.2.symm⟩) f.pts hr hs hrs)
    have hpixels : Fusion.pixels 1 (posed (snap i k) T).H (posed (snap i k) T).W (Fusion.newMask (view S (posed (snap i k) T)) rows b) =
        fresh.map fun x => (0, x.1, x.2) := by
      rw [pixels_one, hH', hW']
      simp only [fresh]
      rw [depthPixels, List.filter_filter]
      congr 1
      refine List.filter_congr fun x _ => ?_
      rw [Bool.eq_iff_iff, Fusion.newMask_iff, hvalid, Bool.and_eq_true, decide_eq_true_eq, decide_eq_true_eq, and_comm]
    have hfd : ∀ (j : Nat) x, fresh[j]? = some x → 0 < i.depth b k x.1 x.2 := fun j x hx =>
      hmemd x (List.mem_filter.1 (List.mem_of_getElem? hx)).1
    have hnd : (depthPixels i b k).Nodup := by
      have := Fusion.pixels_nodup 1 (posed (snap i k) T).H (posed (snap i k) T).W ((view S (posed (snap i k) T)).valid b)
      rw [hpx] at this
      exact this.of_map _
    have key : ∀ {l l' : List (T2 α)} {img : Nat → Nat → Nat → Nat → V3 α} {X : Attr},
        (∀ r ∈ rows, ∀ x, Fusion.vecAt l r.b r.n = some x → Fusion.vecAt l' r.b r.n = some (Fusion.wAvg (Fusion.conf F r.b r.n)
          (S.al (Rgbd.vertexAt S.eps (posed (snap i k) T) r.b 0 r.h r.w)) x (img r.b 0 r.h r.w))) →
        (∀ x : Nat × Nat, 0 < i.depth b k x.1 x.2 → img b 0 x.1 x.2 = worldValue S i b k (T.at' b 0) x X) →
        ∀ n x v, hit n = some x → Fusion.vecAt l b n = some v →
          Fusion.vecAt l' b n = some (Fusion.wAvg (Fusion.conf F b n) (weightOf S i b (k, x)) v (worldValue S i b k (T.at' b 0) x X)) := by
      intro l l' img X hm hi n x v h hv
      obtain ⟨r, hr, hrb, rfl, rfl⟩ := hhit n x h
      have hd := hrd r hr hrb
      subst hrb
      rw [hm r hr v hv, ← hi _ hd, ← (himg (r.h, r.w) hd).1]
    have key2 : ∀ {l' : List (T2 α)} {img : Nat → Nat → Nat → Nat → V3 α} {X : Attr},
        (∀ b < (posed (snap i k) T).B, ∀ j, Fusion.vecAt l' b (Fusion.sizeAt P b + j) =
          (Fusion.pixels 1 (posed (snap i k) T).H (posed (snap i k) T).W (Fusion.newMask (view S (posed (snap i k) T)) rows b))[j]?.map
            fun x => img b x.1 x.2.1 x.2.2) →
        (∀ x : Nat × Nat, 0 < i.depth b k x.1 x.2 → img b 0 x.1 x.2 = worldValue S i b k (T.at' b 0) x X) →
        ∀ (j : Nat) x, fresh[j]? = some x → Fusion.vecAt l' b (Fusion.sizeAt P b + j) = some (worldValue S i b k (T.at' b 0) x X) := by
      intro l' img X hm hi j x hx
      rw [hm b hbB, hpixels, List.getElem?_map, hx, ← hi x (hfd j x hx)]
      rfl
    refine ⟨hit, fresh, ?_, List.filter_sublist, ?_, fun n x hn h => ?_, fun n hn h => ?_, fun j x hx => ?_, fun X hX n x v h hv => ?_,
      fun X hX n v h hv => ?_, fun X hX j x hx => ?_⟩
    · rw [eP]
      refine (List.perm_ext_iff_of_nodup ?_ hnd).2 fun x => ?_
      · refine List.Nodup.append ?_ (hnd.filter _) ?_
        · refine List.nodup_range.filterMap fun n n' x h h' => ?_
          obtain ⟨r, hr, h1, rfl, rfl⟩ := hhit n x h
          obtain ⟨s, hs, h3, rfl, h4⟩ := hhit n' _ h'
          simp only [Prod.mk.injEq] at h4
          by_contra hne
          have hrs : r ≠ s := fun h => hne (by rw [h])
          exact (pairwise_of_symm (fun x y h h' => h ⟨h'.1.symm, h'.2.1.symm, h'.2.2.symm⟩) f.pix hr hs hrs) ⟨h1.trans h3.symm, h4⟩
        · intro x h1 h2
          obtain ⟨n, _, h⟩ := List.mem_filterMap.1 h1
          obtain ⟨r, hr, h3, rfl, rfl⟩ := hhit n x h
          have := (List.mem_filter.1 h2).2
          simp only [decide_eq_true_eq] at this
          exact this r hr ⟨h3, rfl, rfl⟩
      · rw [List.mem_append, List.mem_filterMap]
        constructor
        · rintro (⟨n, _, h⟩ | h)
          · obtain ⟨r, hr, h1, rfl, rfl⟩ := hhit n x h
            have hin := f.inside r hr
            have hd := hrd r hr h1
            rw [depthPixels, List.mem_filter, List.mem_flatMap]
            refine ⟨⟨r.h, List.mem_range.2 (hH' ▸ hin.2.2.1), List.mem_map.2 ⟨r.w, List.mem_range.2 (hW' ▸ hin.2.2.2), rfl⟩⟩, by simpa using hd⟩
          · exact (List.mem_filter.1 h).1
        · intro hx
          by_cases hex : ∃ r ∈ rows, r.b = b ∧ r.h = x.1 ∧ r.w = x.2
          · obtain ⟨r, hr, h1, h2, h3⟩ := hex
            refine .inl ⟨r.n, List.mem_range.2 ?_, ?_⟩
            · rw [← h1]; exact Fusion.sizeAt_isSome.1 (f.inside r hr).1
            · rw [hfound r hr h1, h2, h3]
          · refine .inr (List.mem_filter.2 ⟨hx, ?_⟩)
            simp only [decide_eq_true_eq]
            exact fun r hr h => hex ⟨r, hr, h⟩
    · have := f.size b hbB
      have e : P' = Pl' := by have := f.new; rw [hPl'] at this; cases this; rfl
      rw [e, hpixels, List.length_map] at this
      rw [eP, eP']; exact this
    · rw [eF, eF']
      obtain ⟨r, hr, hrb, rfl, rfl⟩ := hhit n x h
      have hd := hrd r hr hrb
      subst hrb
      rw [cf1.matched r hr, ← (himg (r.h, r.w) hd).1]
    · rw [eP] at hn
      rw [eF, eF']
      refine cf1.kept b n ?_ (hmiss n h)
      rw [Fusion.rowAt_isSome f.oldWf hF]; exact Fusion.sizeAt_isSome.2 hn
    · rw [eP, eF', Fusion.conf, cf2 b hbB, hpixels, List.getElem?_map, hx, ← (himg x (hfd j x hx)).1]
      rfl
    · rw [eF]
      cases X with
      | points => rw [eP] at hv; rw [eP']; exact key mp1 (fun x hd => (himg x hd).2.1) n x v h hv
      | normals => rw [eN] at hv; rw [eN']; exact key mn1 (fun x hd => (himg x hd).2.2.1) n x v h hv
      | colors => rw [eC] at hv; rw [eC']; exact key mc1 (fun x hd => (himg x hd).2.2.2) n x v h hv
      | features => exact absurd rfl hX
    · cases X with
      | points => rw [eP] at hv; rw [eP']; exact mp2 b n v hv (hmiss n h)
      | normals => rw [eN] at hv; rw [eN']; exact mn2 b n v hv (hmiss n h)
      | colors => rw [eC] at hv; rw [eC']; exact mc2 b n v hv (hmiss n h)
      | features => exact absurd rfl hX
    · rw [eP]
      cases X with
      | points => rw [eP']; exact key2 mp3 (fun x hd => (himg x hd).2.1) j x hx
      | normals => rw [eN']; exact key2 mn3 (fun x hd => (himg x hd).2.2.1) j x hx
      | colors => rw [eC']; exact key2 mc3 (fun x hd => (himg x hd).2.2.2) j x hx
      | features => exact absurd rfl hX

theorem ledger_start (S : Sys α) (i : Rgbd.In α) (b : Nat) (Q : Nat → M4 α) : Ledger S i b 0 Q (content emptyClouds) [] := by
  refine ⟨rfl, ?_, ?_, by simp, by simp, by simp⟩
  · simp [measurements]
  · simp [measurements]

/-- `led'` continues `led`: the entries of `led` come first, each with possibly more measurements at its end. -/
def Continues (led led' : List (List Meas)) : Prop := ∀ (n : Nat) e, led[n]? = some e → ∃ e', led'[n]? = some e' ∧ e <+: e'

theorem Continues.trans {l m n : List (List Meas)} (h : Continues l m) (k : Continues m n) : Continues l n := by
  intro j e he
  obtain ⟨e1, h1, p1⟩ := h j e he
  obtain ⟨e2, h2, p2⟩ := k j e1 h1
  exact ⟨e2, h2, p1.trans p2⟩

theorem continues_extend (k : Nat) (hit : Nat → Option (Nat × Nat)) (fresh : List (Nat × Nat)) (led : List (List Meas)) :
    Continues led (extend k hit fresh led) := by
  intro n e he
  have hn := (List.getElem?_eq_some_iff.1 he).1
  refine ⟨e ++ ((hit n).map fun x => (k, x)).toList, ?_, List.prefix_append _ _⟩
  rw [extend, List.getElem?_append_left (by rw [List.length_mapIdx]; exact hn), List.getElem?_mapIdx, he]
  rfl

theorem run_ledgers {S : Sys α} {frames : Rgbd.Obj α} {i : Rgbd.In α} {d t : α} (hS : S.mapper = .fusion d t) (ht : 0 ≤ t)
    (hal : ∀ p, 0 < S.al p) {b : Nat} (hb : b < i.B) (Q : Nat → M4 α) {Ts : List (Rgbd.TM α)} {a : Clouds α} (r : Run S frames i Ts a)
    (hQ : ∀ (t : Nat) T, Ts[t]? = some T → T.at' b 0 = Q t) : ∃ led, Ledger S i b Ts.length Q (content a) led ∧
      ∀ k ≤ Ts.length, ∃ ak ledk, Run S frames i (Ts.take k) ak ∧ Ledger S i b k Q (content ak) ledk ∧ Continues ledk led := by
  induction r with
  | start =>
    refine ⟨[], ledger_start S i b Q, fun k hk => ?_⟩
    obtain rfl : k = 0 := by simpa using hk
    exact ⟨_, [], by rw [List.take_nil]; exact .start, ledger_start S i b Q, fun n e h => by simp at h⟩
  | @next Ts a T a' r hloc hc ih =>
    obtain ⟨led, hl, hk⟩ := ih fun t U hU => hQ t U (by rw [List.getElem?_append_left (List.getElem?_eq_some_iff.1 hU).1]; exact hU)
    obtain ⟨hit, fresh, hs⟩ := step_of_change hS ht r hc hb
    have hT : T.at' b 0 = Q Ts.length := hQ Ts.length T (by simp)
    rw [hT] at hs
    have hn := ledger_next hal hl hs
    refine ⟨extend Ts.length hit fresh led, by rw [List.length_append, List.length_singleton]; exact hn, fun k hkl => ?_⟩
    rw [List.length_append, List.length_singleton] at hkl
    rcases Nat.lt_or_ge k (Ts.length + 1) with h | h
    · obtain ⟨ak, ledk, r1, l1, c1⟩ := hk k (by omega)
      exact ⟨ak, ledk, by rw [List.take_append_of_le_length (by omega)]; exact r1, l1, c1.trans (continues_extend _ _ _ _)⟩
    · obtain rfl : k = Ts.length + 1 := by omega
      refine ⟨a', _, ?_, hn, fun n e he => ⟨e, he, List.prefix_rfl⟩⟩
      rw [List.take_of_length_le (by simp)]
      exact .next r hloc hc

theorem fusion_has_all {S : Sys α} {frames : Rgbd.Obj α} {i : Rgbd.In α} {d t : α} (hS : S.mapper = .fusion d t) {Ts : List (Rgbd.TM α)} {a : Clouds α}
    (r : Run S frames i Ts a) (hne : Ts ≠ []) (X : Attr) : a X = some (content a X) := by
  obtain ⟨P, hP⟩ := Option.ne_none_iff_exists'.1 ((run_empty r).2 hne)
  cases hX : a X with
  | some l => rw [content, hX]; rfl
  | none =>
    exfalso
    cases r with
    | start => exact hne rfl
    | @next Ts a0 T _ r hloc hc =>
      unfold MapChange at hc
      rw [hS] at hc; simp only at hc
      cases hP0 : a0 .points with
      | none => rw [hP0] at hc; simp only at hc; subst hc; cases X <;> cases hX
      | some P0 =>
        rw [hP0] at hc; simp only at hc
        obtain ⟨T', P', rows, hT', f⟩ := hc
        cases X with
        | points => rw [hX] at hP; cases hP
        | normals =>
          obtain ⟨_, _, _, _, _, h, _⟩ := f.merged .normals (Rgbd.gnormalAt S.nrm S.eps (posed (snap i Ts.length) T)) (by simp)
          rw [hX] at h; cases h
        | colors =>
          obtain ⟨_, _, _, _, _, h, _⟩ := f.merged .colors (posed (snap i Ts.length) T).rgb (by simp)
          rw [hX] at h; cases h
        | features =>
          obtain ⟨_, _, _, h, _⟩ := f.conf
          rw [hX] at h; cases h

/-- **C85**.  In the map that `forward` returns for a `PointFusion` object (with `angle_th` of at most 90 degrees), every point of every cloud is the
weighted mean of measurements of the frames, at the returned poses, and every measurement was used exactly once (see `Ledger`). -/
theorem pointfusion_ledger {S : Sys α} {frames : Rgbd.Obj α} {i : Rgbd.In α} (hf : SeqOk S frames i) (hs : SysOk S i) {d t : α}
    (hS : S.mapper = .fusion d t) (ht : 0 ≤ t) (hL : 0 < i.L) {m : PC α} {R : Rgbd.TM α} (h : forward S frames = .ok (m, R)) :
    ∃ c : Attr → List (T2 α), (∀ X, (getList X m).1 = some (c X)) ∧ (c .points).length = i.B ∧
      ∀ b < i.B, ∃ led, Ledger S i b i.L (fun s => R.at' b s) c led := by
  have hal : ∀ p, 0 < S.al p := by
    rcases hs.map with h | h
    · rw [hS] at h; cases h
    · exact h.1
  rcases forward_run hf hs with ⟨m', R', Ts, a, e, r, hl, hm, _, _, _, hR⟩ | ⟨e, Ts, a, e1, _⟩
  swap
  · rw [h] at e1; cases e1
  rw [h] at e; cases e
  have hne : Ts ≠ [] := by intro h; rw [h] at hl; simp at hl; omega
  have hall := fusion_has_all hS r hne
  have o := inv_obs hm.inv
  refine ⟨content a, fun X => by rw [o.list]; exact hall X, (run_wf hf.B r _ (hall .points)).2.1, fun b hb => ?_⟩
  rw [← hl]
  obtain ⟨led, h, _⟩ := run_ledgers hS ht hal hb (fun s => R.at' b s) r fun s T hT => (hR s T hT b).symm
  exact ⟨led, h⟩

/-- **C85** (prefixes).  The map of the first `k` frames has the same points, in the same places, with the measurements of later frames removed: points
never change their index, are never split or joined, and never lose a measurement. -/
theorem pointfusion_ledger_grows {S : Sys α} {frames pre : Rgbd.Obj α} {i : Rgbd.In α} (hf : SeqOk S frames i) (hs : SysOk S i) {d t : α}
    (hS : S.mapper = .fusion d t) (ht : 0 ≤ t) (hx : ∀ provide, S.odom = .prov provide → Ext provide) {k : Nat} (hk : 0 < k) (hkL : k ≤ i.L)
    (hpre : Rgbd.getitem (.tup [.slice none none none, .slice (some 0) (some k) none]) frames = .ok pre) {m : PC α} {R : Rgbd.TM α}
    (h : forward S frames = .ok (m, R)) :
    ∃ mk Rk, forward S pre = .ok (mk, Rk) ∧ ∃ ck c : Attr → List (T2 α), (∀ X, (getList X mk).1 = some (ck X)) ∧ (∀ X, (getList X m).1 = some (c X)) ∧
      ∀ b < i.B, ∃ ledk led, Ledger S i b k (fun s => R.at' b s) ck ledk ∧ Ledger S i b i.L (fun s => R.at' b s) c led ∧ Continues ledk led := by
  have hal : ∀ p, 0 < S.al p := by
    rcases hs.map with h | h
    · rw [hS] at h; cases h
    · exact h.1
  obtain ⟨ip, hp, hLp, hss⟩ := seq_prefix hf hk hkL hpre
  obtain ⟨mk, Rk, hfk, _⟩ := (forward_prefix hf hs hx hk hkL hpre).1 m R h
  have hsp : SysOk S ip := by
    refine ⟨hs.ds, hs.prov, ?_⟩
    rcases hs.map with h | ⟨h1, h2, h3, h4, h5⟩
    · exact .inl h
    · refine .inr ⟨h1, hss.B ▸ h2, hss.H ▸ h3, hss.W ▸ h4, ?_⟩
      rw [hss.H, hss.W, hLp]
      exact (Nat.mul_le_mul_right _ hkL).trans h5
  rcases forward_run hf hs with ⟨m', R', Ts, a, e, r, hl, hm, _, _, _, hR⟩ | ⟨e, Ts, a, e1, _⟩
  swap
  · rw [h] at e1; cases e1
  rw [h] at e; cases e
  rcases forward_run hp hsp with ⟨m2, R2, Us, a2, e, rp, hlp, hmp, _⟩ | ⟨e, Us, c, e1, _⟩
  swap
  · rw [hfk] at e1; cases e1
  rw [hfk] at e; cases e
  have hne : Ts ≠ [] := by intro h; rw [h] at hl; simp at hl; omega
  have hnek : Us ≠ [] := by intro h; rw [h] at hlp; simp at hlp; omega
  have hall := fusion_has_all hS r hne
  have hallk := fusion_has_all hS rp hnek
  have o := inv_obs hm.inv
  have ok := inv_obs hmp.inv
  refine ⟨mk, Rk, hfk, content a2, content a, fun X => by rw [ok.list]; exact hallk X, fun X => by rw [o.list]; exact hall X, fun b hb => ?_⟩
  obtain ⟨led, hled, hks⟩ := run_ledgers hS ht hal hb (fun s => R.at' b s) r fun s T hT => (hR s T hT b).symm
  obtain ⟨ak, ledk, rk, hlk, hck⟩ := hks k (by omega)
  have rt := run_transfer hss hf.B rk (by simp)
  obtain ⟨_, rfl⟩ := run_unique hx rt rp (by simp; omega)
  exact ⟨ledk, led, hlk, hl ▸ hled, hck⟩

theorem sum_mul_le {β : Type*} {w g : β → α} {z : α} (hw : ∀ m, 0 < w m) {l : List β} (h : ∀ m ∈ l, g m ≤ z) :
    (l.map fun m => w m * g m).sum ≤ z * (l.map w).sum := by
  induction l with
  | nil => simp
  | cons m l ih =>
    simp only [List.map_cons, List.sum_cons, mul_add]
    refine add_le_add ?_ (ih fun m hm => h m (by simp [hm]))
    rw [mul_comm z]
    exact mul_le_mul_of_nonneg_left (h m (by simp)) (hw m).le

theorem wmean_dot {β : Type*} (w : β → α) (v : β → V3 α) (l : List β) (u : V3 α) :
    (wmean w v l).dot u = (l.map fun m => w m * (v m).dot u).sum / (l.map w).sum := by
  have h : ∀ l : List β, (l.map fun m => w m * (v m).dot u).sum = (l.map fun m => w m * (v m).x).sum * u.x + (l.map fun m => w m * (v m).y).sum * u.y +
      (l.map fun m => w m * (v m).z).sum * u.z := by
    intro l
    induction l with
    | nil => simp
    | cons m l ih => rw [List.map_cons, List.sum_cons, ih]; simp only [List.map_cons, List.sum_cons, V3.dot]; ring
  rw [h]; simp only [wmean, V3.dot]; ring

/-- **C85** (no invention).  The points, normals and colours of the map lie in every half-space that contains all measured points, normals or colours
of the sequence, hence in their convex hull: in particular each coordinate or colour channel stays between the smallest and the largest measured
value. -/
theorem pointfusion_hull {S : Sys α} {frames : Rgbd.Obj α} {i : Rgbd.In α} (hf : SeqOk S frames i) (hs : SysOk S i) {d t : α}
    (hS : S.mapper = .fusion d t) (ht : 0 ≤ t) (hL : 0 < i.L) {m : PC α} {R : Rgbd.TM α} (hfw : forward S frames = .ok (m, R)) {X : Attr}
    (hX : X ≠ .features) {b : Nat} (hb : b < i.B) (u : V3 α) (z : α)
    (hu : ∀ s < i.L, ∀ x ∈ depthPixels i b s, (worldValue S i b s (R.at' b s) x X).dot u ≤ z) :
    ∃ c, (getList X m).1 = some c ∧ ∀ n v, Fusion.vecAt c b n = some v → v.dot u ≤ z := by
  have hal : ∀ p, 0 < S.al p := by
    rcases hs.map with h | h
    · rw [hS] at h; cases h
    · exact h.1
  obtain ⟨c, hc, _, hled⟩ := pointfusion_ledger hf hs hS ht hL hfw
  obtain ⟨led, hl⟩ := hled b hb
  refine ⟨c X, hc X, fun n v hv => ?_⟩
  have hn : n < led.length := by
    rcases Nat.lt_or_ge n led.length with h | h
    · exact h
    · exfalso
      rcases forward_run hf hs with ⟨m', R', Ts, a, e, r, hlen, hm, _, _, _, hR⟩ | ⟨e, Ts, a, e1, _⟩
      swap
      · rw [hfw] at e1; cases e1
      rw [hfw] at e; cases e
      have o := inv_obs hm.inv
      have hcX := hc X
      have hcP := hc .points
      rw [o.list] at hcX hcP
      have hw := (run_wf hf.B r _ hcP).1
      have h1 : (Fusion.rowAt (c X) b n).isSome := by
        rw [Fusion.vecAt] at hv
        cases hr : Fusion.rowAt (c X) b n with
        | none => rw [hr] at hv; cases hv
        | some _ => rfl
      rw [Fusion.rowAt_isSome hw hcX, Fusion.sizeAt_isSome, hl.size] at h1
      omega
  have he : led[n]? = some led[n] := List.getElem?_eq_getElem hn
  rw [hl.value X hX n _ he] at hv
  cases hv
  have hne : led[n] ≠ [] := by
    intro h0
    have := hl.first.subset (List.mem_map_of_mem (List.getElem_mem hn))
    rw [h0] at this
    simp at this
  have hw : ∀ m, 0 < weightOf S i b m := fun m => hal _
  rw [wmean_dot, div_le_iff₀ (sum_pos_of hw hne)]
  refine sum_mul_le hw fun m hm => ?_
  have hmem := hl.all.subset (List.mem_flatten.2 ⟨_, List.getElem_mem hn, hm⟩)
  simp only [measurements, List.mem_flatMap, List.mem_range, List.mem_map] at hmem
  obtain ⟨s, hs', x, hx, rfl⟩ := hmem
  exact hu s hs' x hx
end

/-- **C85** for the constructor: `PointFusion(..., dist_th, angle_th, sigma)` with `0 ≤ angle_th ≤ 90`; the weights are `exp(-|v|² / (2 sigma²))`, at
least `1e-7`. -/
theorem pointfusion_made_ledger {nn : List (V3 ℝ) → V3 ℝ → Nat} {epsE eps : ℝ} {p : Params} {odom : String} {distTh angleTh sigma : ℝ} {S : Sys ℝ}
    (hS : pointFusion nn epsE eps Rgbd.nrmR (fun sigma => Fusion.getAlpha sigma (1 / 10 ^ 7)) p odom distTh angleTh sigma = .ok S)
    (ha : 0 ≤ angleTh ∧ angleTh ≤ 90) (hds : odom = "gt" ∨ 0 < p.ds) {frames : Rgbd.Obj ℝ} {i : Rgbd.In ℝ} (hi : SmallSeq S i) (hf : SeqOk S frames i)
    (hL : 0 < i.L) {m : PC ℝ} {R : Rgbd.TM ℝ} (h : forward S frames = .ok (m, R)) :
    (∀ b x, weightOf S i b x = gaussWeight sigma (Rgbd.vertexAt S.eps i b x.1 x.2.1 x.2.2)) ∧
    ∃ c : Attr → List (T2 ℝ), (∀ X, (getList X m).1 = some (c X)) ∧ (c .points).length = i.B ∧
      ∀ b < i.B, ∃ led, Ledger S i b i.L (fun s => R.at' b s) c led := by
  obtain ⟨hs, hx⟩ := made_sysOk (nrm := Rgbd.nrmR) (.inr ⟨distTh, angleTh, sigma, hS⟩) hds hi
  have hSe : S.mapper = .fusion distTh (Real.cos (angleTh * Real.pi / 180)) ∧ S.al = gaussWeight sigma := by
    rw [pointFusion] at hS
    cases ho : odomOf nn epsE p odom with
    | error e => rw [ho] at hS; cases hS
    | ok o => rw [ho] at hS; cases hS; exact ⟨rfl, funext fun v => gaussWeight_eq sigma v⟩
  have hcos : 0 ≤ Real.cos (angleTh * Real.pi / 180) := by
    have hp := Real.pi_pos
    have h0 : 0 ≤ angleTh * Real.pi / 180 := by have := ha.1; positivity
    exact Real.cos_nonneg_of_neg_pi_div_two_le_of_le (by linarith) (by rw [div_le_iff₀ (by norm_num)]; nlinarith [ha.2])
  exact ⟨fun b x => by rw [weightOf, hSe.2], pointfusion_ledger hf hs hSe.1 hcos hL h⟩
end Verif.Slam
