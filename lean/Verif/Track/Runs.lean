import Verif.Track.Props
/-!
Whole runs of `forward` and hand-driven loops: what reaches what, truncation by `detach`, and concrete runs.
-/
namespace Verif.Track

variable {ι : Type*}

/-- **Odometry from scratch.** A run over a first frame `f` (whose own pose is used) and further frames `l`: points and normals are
connected to the first pose and to depth and camera of every frame; the pose of frame `k` of `l` to the first pose and, once a
registration has moved, to depth and camera of the frames from the first up to the last moving one. -/
theorem run_connected (mapping : Mapping) (odom : Odom) (ho : odom ≠ .gt) (f : Frame ι) (s : Seen) (l : List (Frame ι × Seen)) (x : ι) :
    let r := steps mapping odom empty none ((f, s) :: l)
    (x ∈ r.1.points ↔ x ∈ f.pose ∨ x ∈ geo f ∨ ∃ q ∈ l, x ∈ geo q.1) ∧
    (x ∈ r.1.normals ↔ x ∈ f.pose ∨ x ∈ geo f ∨ ∃ q ∈ l, x ∈ geo q.1) ∧
    r.2.length = l.length + 1 ∧ r.2[0]? = some f.pose ∧
    ∀ (k : ℕ) (P : Set ι), r.2[k + 1]? = some P →
      (x ∈ P ↔ x ∈ f.pose ∨ ∃ (i : ℕ) (q : Frame ι × Seen), i ≤ k ∧ l[i]? = some q ∧ moved odom q.2 ∧
        (x ∈ geo f ∨ ∃ r ∈ l.take (i + 1), x ∈ geo r.1)) := by
  have hp : ∀ y, y ∈ (step mapping odom empty f none s).1.points ↔ y ∈ f.pose ∨ y ∈ geo f := by
    intro y; rw [step_points, localize_none]; simp [empty]
  have hn : (step mapping odom empty f none s).1.normals = (step mapping odom empty f none s).1.points := by
    ext y; rw [hp, step_normals, localize_none]; simp [empty]
  have hf : (step mapping odom empty f none s).1.features ⊆ (step mapping odom empty f none s).1.points := by
    intro y hy
    rw [step_features] at hy
    rw [hp]
    rcases hy with h | ⟨_, h⟩
    · simp [empty] at h
    · exact .inr h
  have hpose : (step mapping odom empty f none s).2.pose = f.pose := by rw [step_pose, localize_none]
  obtain ⟨h1, h2, h3, h4⟩ := odometry_connected mapping odom ho x l (step mapping odom empty f none s).1
    (step mapping odom empty f none s).2 hn (by rw [hpose]; intro y hy; rw [hp]; exact .inl hy) hf
  dsimp only
  rw [steps_cons, if_neg ho]
  dsimp only
  refine ⟨by rw [h1, hp, or_assoc], by rw [h2, hp, or_assoc], by simp [h3], by simp [localize_none], ?_⟩
  intro k P hk
  rw [List.getElem?_cons_succ] at hk
  rw [h4 k P hk, hpose]
  simp only [hp]
  constructor
  · rintro (h | ⟨i, q, hi, hq, hm, (h | h) | h⟩)
    · exact .inl h
    · exact .inl h
    · exact .inr ⟨i, q, hi, hq, hm, .inl h⟩
    · exact .inr ⟨i, q, hi, hq, hm, .inr h⟩
  · rintro (h | ⟨i, q, hi, hq, hm, h | h⟩)
    · exact .inl h
    · exact .inr ⟨i, q, hi, hq, hm, .inl (.inr h)⟩
    · exact .inr ⟨i, q, hi, hq, hm, .inr h⟩

/-- **The difference between ICP and gradICP.** With gradICP (at least one iteration and one batch element) the pose of every frame
after the first is connected to depth and camera of *every* frame so far; with ICP whose iterations are all rejected it is connected to
the first pose only: no image receives any gradient from the poses. -/
theorem gradicp_always (mapping : Mapping) (f : Frame ι) (s : Seen) (l : List (Frame ι × Seen))
    (h : ∀ q ∈ l, ∃ a ∈ q.2.accepted, a ≠ []) (k : ℕ) (P : Set ι)
    (hP : (steps mapping .gradicp empty none ((f, s) :: l)).2[k + 1]? = some P) (x : ι) :
    x ∈ P ↔ x ∈ f.pose ∨ x ∈ geo f ∨ ∃ r ∈ l.take (k + 1), x ∈ geo r.1 := by
  obtain ⟨-, -, hl, -, h4⟩ := run_connected mapping .gradicp (by decide) f s l x
  rw [h4 k P hP]
  have hk : k < l.length := by
    have := (List.getElem?_eq_some_iff.1 hP).1
    omega
  constructor
  · rintro (h1 | ⟨i, q, hi, hq, hm, h1 | ⟨r, hr, h1⟩⟩)
    · exact .inl h1
    · exact .inr (.inl h1)
    · exact .inr (.inr ⟨r, List.take_subset_take_left l (by omega) hr, h1⟩)
  · rintro (h1 | h1)
    · exact .inl h1
    · exact .inr ⟨k, l[k], le_refl _, List.getElem?_eq_getElem hk, h _ (List.getElem_mem hk), h1⟩

theorem icp_rejected (mapping : Mapping) (f : Frame ι) (s : Seen) (l : List (Frame ι × Seen))
    (h : ∀ q ∈ l, ∀ a ∈ q.2.accepted, true ∉ a) (k : ℕ) (P : Set ι)
    (hP : (steps mapping .icp empty none ((f, s) :: l)).2[k + 1]? = some P) : P = f.pose := by
  ext x
  obtain ⟨-, -, -, -, h4⟩ := run_connected mapping .icp (by decide) f s l x
  rw [h4 k P hP]
  constructor
  · rintro (h1 | ⟨i, q, hi, hq, ⟨a, ha, ht⟩, -⟩)
    · exact h1
    · exact absurd ht (h q (List.mem_of_getElem? hq) a ha)
  · exact .inl

/-- **Colour images reach colours only.** An input that is no depth, camera or pose of any frame is not connected to points, normals,
confidence or poses of a run from scratch, whatever mapping and odometry. -/
theorem rgb_only (mapping : Mapping) (odom : Odom) (l : List (Frame ι × Seen)) (x : ι)
    (h : ∀ q ∈ l, x ∉ geo q.1 ∧ x ∉ q.1.pose) :
    let r := steps mapping odom empty none l
    x ∉ r.1.points ∧ x ∉ r.1.normals ∧ x ∉ r.1.features ∧ ∀ P ∈ r.2, x ∉ P := by
  dsimp only
  have hf : x ∉ (steps mapping odom empty none l).1.features := by
    rw [features_connected]
    rintro (h1 | ⟨_, q, hq, h1⟩)
    · exact h1
    · exact (h q hq).1 h1
  by_cases ho : odom = .gt
  · subst ho
    obtain ⟨h1, h2, h3⟩ := gt_connected mapping l x empty none
    have hne : ¬(∃ p ∈ l, x ∈ p.1.pose ∨ x ∈ geo p.1) := by
      rintro ⟨p, hp, h4 | h4⟩
      · exact (h p hp).2 h4
      · exact (h p hp).1 h4
    refine ⟨?_, ?_, hf, ?_⟩
    · rw [h2]; simp [empty, hne]
    · rw [h3]; simp [empty, hne]
    · rw [h1]
      intro P hP hx
      obtain ⟨q, hq, rfl⟩ := List.mem_map.1 hP
      exact (h q hq).2 hx
  · cases l with
    | nil => simp [steps, empty]
    | cons p l =>
      obtain ⟨f, s⟩ := p
      obtain ⟨h1, h2, h3, h4, h5⟩ := run_connected mapping odom ho f s l x
      have h0 := h (f, s) (List.mem_cons_self ..)
      have hl : ∀ q ∈ l, x ∉ geo q.1 := fun q hq => (h q (List.mem_cons_of_mem _ hq)).1
      refine ⟨?_, ?_, hf, ?_⟩
      · rw [h1]; rintro (h | h | ⟨q, hq, h⟩)
        · exact h0.2 h
        · exact h0.1 h
        · exact hl q hq h
      · rw [h2]; rintro (h | h | ⟨q, hq, h⟩)
        · exact h0.2 h
        · exact h0.1 h
        · exact hl q hq h
      · intro P hP hx
        obtain ⟨k, hk⟩ := List.mem_iff_getElem?.1 hP
        cases k with
        | zero => rw [h4] at hk; exact h0.2 (by rw [Option.some.inj hk]; exact hx)
        | succ k =>
          rw [h5 k P hk] at hx
          rcases hx with h | ⟨i, q, _, _, _, h | ⟨r, hr, h⟩⟩
          · exact h0.2 h
          · exact h0.1 h
          · exact hl r (List.take_subset _ _ hr) h

/-- **Poses never reach colours or confidence**: an input that is neither depth or camera nor colour of any frame is not connected to
them. -/
theorem pose_not_in_colors (mapping : Mapping) (odom : Odom) (l : List (Frame ι × Seen)) (x : ι)
    (h : ∀ q ∈ l, x ∉ geo q.1 ∧ x ∉ q.1.rgb) :
    x ∉ (steps mapping odom empty none l).1.colors ∧ x ∉ (steps mapping odom empty none l).1.features := by
  rw [colors_connected, features_connected]
  constructor
  · rintro (h1 | ⟨q, hq, h1⟩ | ⟨_, i, q, _, _, h1 | ⟨r, hr, h1⟩⟩)
    · exact h1
    · exact (h q hq).2 h1
    · exact h1
    · exact (h r (List.take_subset _ _ hr)).1 h1
  · rintro (h1 | ⟨_, q, hq, h1⟩)
    · exact h1
    · exact (h q hq).1 h1

/-- **Truncated back-propagation.** After detaching the map and the previous frame, everything a loop goes on to compute is connected to
depth, camera, colours and own poses of the frames after the detachment only, whatever happened before. -/
theorem detach_truncates (mapping : Mapping) (odom : Odom) (m : Map ι) (p : Frame ι) (l : List (Frame ι × Seen)) (x : ι)
    (h : ∀ q ∈ l, x ∉ geo q.1 ∧ x ∉ q.1.rgb ∧ x ∉ q.1.pose) :
    let r := steps mapping odom (detachMap m) (some (detachFrame p)) l
    x ∉ r.1.points ∧ x ∉ r.1.normals ∧ x ∉ r.1.colors ∧ x ∉ r.1.features ∧ ∀ P ∈ r.2, x ∉ P := by
  dsimp only
  have hf : x ∉ (steps mapping odom (detachMap m) (some (detachFrame p)) l).1.features := by
    rw [features_connected]
    rintro (h1 | ⟨_, q, hq, h1⟩)
    · exact h1
    · exact (h q hq).1 h1
  have hc : x ∉ (steps mapping odom (detachMap m) (some (detachFrame p)) l).1.colors := by
    rw [colors_connected]
    rintro (h1 | ⟨q, hq, h1⟩ | ⟨_, i, q, _, _, h1 | ⟨r, hr, h1⟩⟩)
    · exact h1
    · exact (h q hq).2.1 h1
    · exact h1
    · exact (h r (List.take_subset _ _ hr)).1 h1
  by_cases ho : odom = .gt
  · subst ho
    obtain ⟨h1, h2, h3⟩ := gt_connected mapping l x (detachMap m) (some (detachFrame p))
    have hne : ¬(∃ p ∈ l, x ∈ p.1.pose ∨ x ∈ geo p.1) := by
      rintro ⟨p, hp, h4 | h4⟩
      · exact (h p hp).2.2 h4
      · exact (h p hp).1 h4
    refine ⟨?_, ?_, hc, hf, ?_⟩
    · rw [h2]; simp [detachMap, hne]
    · rw [h3]; simp [detachMap, hne]
    · rw [h1]
      intro P hP hx
      obtain ⟨q, hq, rfl⟩ := List.mem_map.1 hP
      exact (h q hq).2.2 hx
  · obtain ⟨h1, h2, h3, h4⟩ := odometry_connected mapping odom ho x l (detachMap m) (detachFrame p) rfl (by simp [detachFrame])
      (by simp [detachMap])
    have hl : ¬∃ q ∈ l, x ∈ geo q.1 := fun ⟨q, hq, hx⟩ => (h q hq).1 hx
    refine ⟨?_, ?_, hc, hf, ?_⟩
    · rw [h1]; simp [detachMap, hl]
    · rw [h2]; simp [detachMap, hl]
    · intro P hP hx
      obtain ⟨k, hk⟩ := List.mem_iff_getElem?.1 hP
      rw [h4 k P hk] at hx
      rcases hx with hy | ⟨i, q, _, _, _, hy | ⟨r, hr, hy⟩⟩
      · exact hy
      · exact hy
      · exact (h r (List.take_subset _ _ hr)).1 hy

/-- **Detaching the map alone does not truncate.** With a registration, everything the previous pose is connected to stays connected to
every later pose (and so to the points added later). -/
theorem detach_map_alone (mapping : Mapping) (odom : Odom) (ho : odom ≠ .gt) (m : Map ι) (l : List (Frame ι × Seen)) (x : ι) :
    ∀ (p : Frame ι), x ∈ p.pose →
      ∀ P ∈ (steps mapping odom (detachMap m) (some p) l).2, x ∈ P := by
  suffices H : ∀ (m : Map ι) (p : Frame ι), x ∈ p.pose → ∀ P ∈ (steps mapping odom m (some p) l).2, x ∈ P from
    fun p => H (detachMap m) p
  induction l with
  | nil => intro m p _ P hP; simp [steps] at hP
  | cons q rest ih =>
    obtain ⟨f, s⟩ := q
    intro m p hx P hP
    rw [steps_cons, if_neg ho] at hP
    have hx2 : x ∈ localize odom m f (some p) s := by rw [mem_localize odom ho]; exact .inl hx
    rcases List.mem_cons.1 hP with rfl | hP
    · exact hx2
    · exact ih _ (step mapping odom m f (some p) s).2 hx2 P hP

/-! ### `forward` -/

theorem mem_foldl_union (ps : List (Set ι)) (x : ι) : ∀ A : Set ι, x ∈ ps.foldl (· ∪ ·) A ↔ x ∈ A ∨ ∃ P ∈ ps, x ∈ P := by
  induction ps with
  | nil => intro A; simp
  | cons P ps ih => intro A; rw [List.foldl_cons, ih]; simp only [Set.mem_union, List.mem_cons, exists_eq_or_imp]; tauto

set_option maxHeartbeats 1000000 in
/-- **`forward`.** On a sequence (at least one frame) whose tensors are connected as `f` says: the points and normals of the returned map are
connected to depth, camera and poses of the sequence; the colours to its colours and, with fusion and once a point has been
matched, to depth and camera; the confidence, with fusion, to depth and camera. The returned poses are connected to the given poses and,
with odometry, to depth and camera once any registration after the first frame has moved. -/
theorem forward_connected (mapping : Mapping) (odom : Odom) (f : Frame ι) (s : Seen) (seen : List Seen) (x : ι) :
    let r := forward mapping odom f (s :: seen)
    (x ∈ r.1.points ↔ x ∈ f.pose ∨ x ∈ geo f) ∧ (x ∈ r.1.normals ↔ x ∈ f.pose ∨ x ∈ geo f) ∧
    (x ∈ r.1.colors ↔ x ∈ f.rgb ∨ (mapping = .fusion ∧ (∃ t ∈ s :: seen, t.matched = true) ∧ x ∈ geo f)) ∧
    (x ∈ r.1.features ↔ mapping = .fusion ∧ x ∈ geo f) ∧
    (x ∈ r.2 ↔ x ∈ f.pose ∨ ((∃ t ∈ seen, moved odom t) ∧ x ∈ geo f)) := by
  dsimp only
  have hm : ∀ l : List Seen, (∃ q ∈ l.map (fun s => (f, s)), x ∈ geo q.1) ↔ l ≠ [] ∧ x ∈ geo f := by
    intro l
    cases l <;> simp
  have hf1 : (forward mapping odom f (s :: seen)).1 = (steps mapping odom empty none ((s :: seen).map fun s => (f, s))).1 := rfl
  have hf2 : (forward mapping odom f (s :: seen)).2
      = (steps mapping odom empty none ((s :: seen).map fun s => (f, s))).2.foldl (· ∪ ·) ∅ := rfl
  have hfeat : x ∈ (forward mapping odom f (s :: seen)).1.features ↔ mapping = .fusion ∧ x ∈ geo f := by
    rw [hf1, features_connected, hm]; simp [empty]
  have hcol : x ∈ (forward mapping odom f (s :: seen)).1.colors ↔
      x ∈ f.rgb ∨ (mapping = .fusion ∧ (∃ t ∈ s :: seen, t.matched = true) ∧ x ∈ geo f) := by
    rw [hf1, colors_connected]
    constructor
    · rintro (h | ⟨q, hq, h⟩ | ⟨h1, i, q, hq, hqm, h | ⟨r, hr, h⟩⟩)
      · exact h.elim
      · obtain ⟨t, _, rfl⟩ := List.mem_map.1 hq; exact .inl h
      · exact h.elim
      · obtain ⟨t, ht, rfl⟩ := List.mem_map.1 (List.mem_of_getElem? hq)
        obtain ⟨u, _, rfl⟩ := List.mem_map.1 (List.take_subset _ _ hr)
        exact .inr ⟨h1, ⟨t, ht, hqm⟩, h⟩
    · rintro (h | ⟨h1, ⟨t, ht, htm⟩, h⟩)
      · exact .inr (.inl ⟨(f, s), by simp, h⟩)
      · obtain ⟨i, hi⟩ := List.mem_iff_getElem?.1 ht
        refine .inr (.inr ⟨h1, i, (f, t), by rw [List.getElem?_map, hi]; rfl, htm, .inr ⟨(f, s), ?_, h⟩⟩)
        rw [List.map_cons, List.take_succ_cons]; exact List.mem_cons_self ..
  by_cases ho : odom = .gt
  · subst ho
    obtain ⟨h1, h2, h3⟩ := gt_connected mapping ((s :: seen).map fun s => (f, s)) x empty none
    have hg : (∃ p ∈ (s :: seen).map (fun s => (f, s)), x ∈ p.1.pose ∨ x ∈ geo p.1) ↔ x ∈ f.pose ∨ x ∈ geo f := by simp
    refine ⟨?_, ?_, hcol, hfeat, ?_⟩
    · rw [hf1, h2, hg]; simp [empty]
    · rw [hf1, h3, hg]; simp [empty]
    · rw [hf2, mem_foldl_union, h1]
      simp [moved]
  · obtain ⟨h1, h2, h3, h4, h5⟩ := run_connected mapping odom ho f s (seen.map fun s => (f, s)) x
    rw [show ((f, s) :: seen.map fun s => (f, s)) = (s :: seen).map fun s => (f, s) from rfl] at h1 h2 h3 h4 h5
    refine ⟨?_, ?_, hcol, hfeat, ?_⟩
    · rw [hf1, h1, hm]; exact ⟨fun h => h.elim .inl fun h => .inr (h.elim id And.right), fun h => h.elim .inl fun h => .inr (.inl h)⟩
    · rw [hf1, h2, hm]; exact ⟨fun h => h.elim .inl fun h => .inr (h.elim id And.right), fun h => h.elim .inl fun h => .inr (.inl h)⟩
    · rw [hf2, mem_foldl_union]
      constructor
      · rintro (h | ⟨P, hP, h⟩)
        · exact h.elim
        · obtain ⟨k, hk⟩ := List.mem_iff_getElem?.1 hP
          cases k with
          | zero => rw [h4] at hk; exact .inl (by rw [Option.some.inj hk]; exact h)
          | succ k =>
            rcases (h5 k P hk).1 h with h | ⟨i, q, hi, hq, hqm, h | ⟨r, hr, h⟩⟩
            · exact .inl h
            · obtain ⟨t, ht, rfl⟩ := List.mem_map.1 (List.mem_of_getElem? hq)
              exact .inr ⟨⟨t, ht, hqm⟩, h⟩
            · obtain ⟨t, ht, rfl⟩ := List.mem_map.1 (List.mem_of_getElem? hq)
              obtain ⟨u, _, rfl⟩ := List.mem_map.1 (List.take_subset _ _ hr)
              exact .inr ⟨⟨t, ht, hqm⟩, h⟩
      · rintro (h | ⟨⟨t, ht, htm⟩, h⟩)
        · exact .inr ⟨f.pose, List.mem_of_getElem? h4, h⟩
        · obtain ⟨i, hi⟩ := List.mem_iff_getElem?.1 ht
          have hil : i < seen.length := (List.getElem?_eq_some_iff.1 hi).1
          have hlt : i + 1 < (steps mapping odom empty none ((s :: seen).map fun s => (f, s))).2.length := by
            rw [h3]; simp; omega
          refine .inr ⟨_, List.getElem_mem hlt, (h5 i _ (List.getElem?_eq_getElem hlt)).2 ?_⟩
          exact .inr ⟨i, (f, t), le_refl _, by rw [List.getElem?_map, hi]; rfl, htm, .inl h⟩

/-! ### Concrete runs -/

/-- Two frames with separate inputs: 0–3 colour, depth, intrinsics and pose of the first, 4–7 of the second. -/
def exA : Frame ℕ := ⟨{0}, {1}, {2}, ∅, {3}⟩
def exB : Frame ℕ := ⟨{4}, {5}, {6}, ∅, {7}⟩

/-- With fusion, the colours become connected to the depth images exactly when a point is matched; never with aggregation. -/
theorem color_depth_example :
    1 ∉ (steps .fusion .gt empty none [(exA, ⟨false, []⟩), (exB, ⟨false, []⟩)]).1.colors ∧
    1 ∈ (steps .fusion .gt empty none [(exA, ⟨false, []⟩), (exB, ⟨true, []⟩)]).1.colors ∧
    1 ∉ (steps .aggregate .gt empty none [(exA, ⟨false, []⟩), (exB, ⟨true, []⟩)]).1.colors := by
  simp only [colors_connected]
  refine ⟨?_, ?_, ?_⟩
  · rintro (h | ⟨q, hq, h⟩ | ⟨_, i, q, hq, hm, _⟩)
    · exact h
    · simp only [List.mem_cons, List.not_mem_nil, or_false] at hq
      rcases hq with rfl | rfl <;> simp [exA, exB] at h
    · have := List.mem_of_getElem? hq
      simp only [List.mem_cons, List.not_mem_nil, or_false] at this
      rcases this with rfl | rfl <;> simp at hm
  · exact .inr (.inr ⟨trivial, 1, (exB, ⟨true, []⟩), rfl, rfl, .inr ⟨(exA, ⟨false, []⟩), by simp, .inl rfl⟩⟩)
  · rintro (h | ⟨q, hq, h⟩ | ⟨h, _⟩)
    · exact h
    · simp only [List.mem_cons, List.not_mem_nil, or_false] at hq
      rcases hq with rfl | rfl <;> simp [exA, exB] at h
    · cases h

/-- The pose of the second frame is connected to both depth images with gradICP, to none with a rejected ICP, and never to the pose given
with the second frame or to colours. -/
theorem pose_example :
    (∀ x, ∀ P ∈ (steps .fusion .gradicp empty none [(exA, ⟨false, []⟩), (exB, ⟨false, [[false]]⟩)]).2[1]?,
      x ∈ P ↔ x ∈ ({1, 2, 3, 5, 6} : Set ℕ)) ∧
    (steps .fusion .icp empty none [(exA, ⟨false, []⟩), (exB, ⟨false, [[false]]⟩)]).2[1]? = some {3} := by
  constructor
  · intro x P hP
    rw [gradicp_always .fusion exA ⟨false, []⟩ [(exB, ⟨false, [[false]]⟩)] (by simp) 0 P hP x]
    simp only [exA, exB, geo, Set.mem_singleton_iff, Set.mem_ofPred_eq, Set.mem_empty_iff_false, or_false, Set.mem_insert_iff,
      List.take_succ_cons, List.take_zero, List.mem_singleton, exists_eq_left]
    tauto
  · have hlen := (run_connected .fusion .icp (by decide) exA ⟨false, []⟩ [(exB, ⟨false, [[false]]⟩)] 0).2.2.1
    have hlt : 1 < (steps .fusion .icp empty none [(exA, ⟨false, []⟩), (exB, ⟨false, [[false]]⟩)]).2.length := by rw [hlen]; decide
    rw [List.getElem?_eq_getElem hlt]
    exact congrArg some (icp_rejected .fusion exA ⟨false, []⟩ [(exB, ⟨false, [[false]]⟩)] (by simp) 0 _ (List.getElem?_eq_getElem hlt))

end Verif.Track
