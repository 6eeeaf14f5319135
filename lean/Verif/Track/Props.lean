import Verif.Track.Model
/-!
Which inputs maps and poses of SLAM runs receive gradients for, in closed form.
-/
namespace Verif.Track

variable {ι : Type*}

/-- The geometric inputs of a frame: depth image, intrinsics and pixel positions. -/
def geo (f : Frame ι) : Set ι := {x | x ∈ f.depth ∨ x ∈ f.K ∨ x ∈ f.pix}

/-- The registration of this step changes the pose: with ICP some iteration of some batch element is accepted, with gradICP there is any
iteration at all. -/
def moved : Odom → Seen → Prop
  | .gt, _ => False
  | .icp, s => ∃ a ∈ s.accepted, true ∈ a
  | .gradicp, s => ∃ a ∈ s.accepted, a ≠ []

theorem mem_vertex (f : Frame ι) (x : ι) : x ∈ vertex f ↔ x ∈ geo f := by
  simp only [vertex, kinv, validMask, geo, Set.mem_union, Set.mem_setOf_eq, Set.mem_empty_iff_false]; tauto

theorem mem_normal (f : Frame ι) (x : ι) : x ∈ normal f ↔ x ∈ geo f := by
  simp only [normal, validMask, Set.mem_union, mem_vertex, Set.mem_empty_iff_false, or_false, or_self]

theorem mem_gvertex (f : Frame ι) (x : ι) : x ∈ gvertex f ↔ x ∈ f.pose ∨ x ∈ geo f := by
  simp only [gvertex, validMask, Set.mem_union, mem_vertex, Set.mem_empty_iff_false]; tauto

theorem mem_gnormal (f : Frame ι) (x : ι) : x ∈ gnormal f ↔ x ∈ f.pose ∨ x ∈ geo f := by
  simp only [gnormal, Set.mem_union, mem_normal]

theorem geo_pose (f : Frame ι) (P : Set ι) : geo { f with pose := P } = geo f := rfl

/-! ### One registration -/

theorem icp_fold (s t n : Set ι) (acc : List Bool) (r : Reg ι) (hd : r.damp = ∅) (hs : s ⊆ r.src) (hs2 : r.src ⊆ s ∪ t ∪ n) :
    ∀ x, x ∈ (acc.foldl (icpIter t n) r).T ↔ x ∈ r.T ∨ (true ∈ acc ∧ x ∈ s ∪ t ∪ n) := by
  induction acc generalizing r with
  | nil => intro x; simp
  | cons a acc ih =>
    intro x
    rw [List.foldl_cons]
    cases a with
    | false => rw [show icpIter t n r false = r from rfl, ih r hd hs hs2]; simp
    | true =>
      have hsrc : (icpIter t n r true).src = (((n ∪ r.src) ∪ r.damp) ∪ ((n ∪ r.src) ∪ (n ∪ (t ∪ r.src)))) ∪ r.src := rfl
      have hT : (icpIter t n r true).T = (((n ∪ r.src) ∪ r.damp) ∪ ((n ∪ r.src) ∪ (n ∪ (t ∪ r.src)))) ∪ r.T := rfl
      have hD : (icpIter t n r true).damp = r.damp := rfl
      rw [ih _ (by rw [hD, hd]) (by rw [hsrc]; intro y hy; simp [hs hy])
        (by
          rw [hsrc, hd]; intro y hy
          have h3 : y ∈ r.src → y ∈ s ∪ t ∪ n := fun h => hs2 h
          simp only [Set.mem_union, Set.mem_empty_iff_false] at hy h3 ⊢
          tauto), hT, hd]
      have h1 : x ∈ s → x ∈ r.src := fun h => hs h
      have h3 : x ∈ r.src → x ∈ s ∪ t ∪ n := fun h => hs2 h
      simp only [Set.mem_union, Set.mem_empty_iff_false, List.mem_cons, true_or, true_and] at h3 ⊢
      tauto

theorem grad_fold (s t n : Set ι) (acc : List Bool) (r : Reg ι) (hd : r.damp ⊆ s ∪ t ∪ n) (hs : s ⊆ r.src)
    (hs2 : r.src ⊆ s ∪ t ∪ n) :
    ∀ x, x ∈ (acc.foldl (gradIter t n) r).T ↔ x ∈ r.T ∨ (acc ≠ [] ∧ x ∈ s ∪ t ∪ n) := by
  induction acc generalizing r with
  | nil => intro x; simp
  | cons a acc ih =>
    intro x
    rw [List.foldl_cons]
    let X : Set ι := ((n ∪ r.src) ∪ r.damp) ∪ ((n ∪ r.src) ∪ (n ∪ (t ∪ r.src)))
    let E : Set ι := (n ∪ (t ∪ (X ∪ r.src))) ∪ (n ∪ (t ∪ r.src))
    have hsrc : (gradIter t n r a).src = (E ∪ X) ∪ r.src := rfl
    have hT : (gradIter t n r a).T = (E ∪ X) ∪ r.T := rfl
    have hD : (gradIter t n r a).damp = r.damp ∪ E := rfl
    have hX : X ⊆ s ∪ t ∪ n := by
      intro y hy
      have h3 : y ∈ r.src → y ∈ s ∪ t ∪ n := fun h => hs2 h
      have h4 : y ∈ r.damp → y ∈ s ∪ t ∪ n := fun h => hd h
      simp only [X, Set.mem_union] at hy h3 h4 ⊢
      tauto
    have hE : E ⊆ s ∪ t ∪ n := by
      intro y hy
      have h3 : y ∈ r.src → y ∈ s ∪ t ∪ n := fun h => hs2 h
      have h4 : y ∈ X → y ∈ s ∪ t ∪ n := fun h => hX h
      simp only [E, Set.mem_union] at hy h3 h4 ⊢
      tauto
    rw [ih _ (by rw [hD]; exact Set.union_subset hd hE) (by rw [hsrc]; exact fun y hy => Or.inr (hs hy))
      (by rw [hsrc]; exact Set.union_subset (Set.union_subset hE hX) hs2), hT]
    have hb : x ∈ s ∪ t ∪ n → x ∈ E := by
      intro h
      have h1 : x ∈ s → x ∈ r.src := fun h => hs h
      simp only [E, Set.mem_union] at h ⊢
      tauto
    have h5 : x ∈ E → x ∈ s ∪ t ∪ n := fun h => hE h
    have h6 : x ∈ X → x ∈ s ∪ t ∪ n := fun h => hX h
    rw [Set.mem_union, Set.mem_union]
    simp only [ne_eq, reduceCtorEq, not_false_eq_true, true_and]
    tauto

/-- **One registration.** Its transform is connected to everything — source, targets and normals — if an iteration is accepted
(gradICP: if there is an iteration), and to nothing at all otherwise. -/
theorem mem_register (odom : Odom) (ho : odom ≠ .gt) (s t n : Set ι) (acc : List Bool) (x : ι) :
    x ∈ register odom s t n acc ↔ moved odom ⟨false, [acc]⟩ ∧ (x ∈ s ∨ x ∈ t ∨ x ∈ n) := by
  cases odom with
  | gt => exact absurd rfl ho
  | icp =>
    have h := icp_fold s t n acc ⟨∅ ∪ s, ∅, ∅⟩ rfl (by simp) (by intro y hy; simp only [Set.empty_union] at hy; simp [hy]) x
    rw [show register .icp s t n acc = (acc.foldl (icpIter t n) ⟨∅ ∪ s, ∅, ∅⟩).T from rfl, h]
    simp only [Set.mem_empty_iff_false, false_or, moved, List.mem_singleton, exists_eq_left, Set.mem_union, or_assoc]
  | gradicp =>
    have h := grad_fold s t n acc ⟨∅ ∪ s, ∅, ∅⟩ (by simp) (by simp) (by intro y hy; simp only [Set.empty_union] at hy; simp [hy]) x
    rw [show register .gradicp s t n acc = (acc.foldl (gradIter t n) ⟨∅ ∪ s, ∅, ∅⟩).T from rfl, h]
    simp only [Set.mem_empty_iff_false, false_or, moved, List.mem_singleton, exists_eq_left, Set.mem_union, or_assoc]

theorem moved_cons (odom : Odom) (m : Bool) (a : List Bool) (l : List (List Bool)) :
    moved odom ⟨m, a :: l⟩ ↔ moved odom ⟨false, [a]⟩ ∨ moved odom ⟨m, l⟩ := by
  cases odom <;> simp [moved]

theorem mem_provide_aux (odom : Odom) (ho : odom ≠ .gt) (s t n : Set ι) (acc : List (List Bool)) (m : Bool) (x : ι) :
    ∀ T : Set ι, x ∈ acc.foldl (fun T a => T ∪ register odom s t n a) T ↔
      x ∈ T ∨ (moved odom ⟨m, acc⟩ ∧ (x ∈ s ∨ x ∈ t ∨ x ∈ n)) := by
  induction acc with
  | nil => intro T; cases odom <;> simp [moved]
  | cons a acc ih =>
    intro T
    rw [List.foldl_cons, ih, Set.mem_union, mem_register odom ho, moved_cons odom m a acc]
    tauto

theorem mem_provide (odom : Odom) (ho : odom ≠ .gt) (s t n : Set ι) (acc : List (List Bool)) (m : Bool) (x : ι) :
    x ∈ provide odom s t n acc ↔ moved odom ⟨m, acc⟩ ∧ (x ∈ s ∨ x ∈ t ∨ x ∈ n) := by
  rw [provide, mem_provide_aux odom ho s t n acc m x ∅]; simp

/-! ### One step -/

theorem localize_gt (m : Map ι) (f : Frame ι) (prev : Option (Frame ι)) (s : Seen) : localize .gt m f prev s = f.pose := by
  simp [localize]

theorem localize_none (odom : Odom) (m : Map ι) (f : Frame ι) (s : Seen) : localize odom m f none s = f.pose := by
  cases odom <;> rfl

/-- **Localization.** The pose of a registered frame is connected to what the previous pose is connected to and, if the registration
moves at all, to the frame's depth and camera and to the map's points and normals; never to the frame's own pose or colours. -/
theorem mem_localize (odom : Odom) (ho : odom ≠ .gt) (m : Map ι) (f p : Frame ι) (s : Seen) (x : ι) :
    x ∈ localize odom m f (some p) s ↔
      x ∈ p.pose ∨ (moved odom s ∧ (x ∈ geo f ∨ x ∈ m.points ∨ x ∈ m.normals)) := by
  have key : localize odom m f (some p) s
      = provide odom (gvertex { f with pose := p.pose }) m.points m.normals s.accepted ∪ p.pose := by
    cases odom with
    | gt => exact absurd rfl ho
    | icp => rfl
    | gradicp => rfl
  rw [key, Set.mem_union, mem_provide odom ho _ _ _ _ s.matched, mem_gvertex, geo_pose]
  tauto

theorem step_pose (mapping : Mapping) (odom : Odom) (m : Map ι) (f : Frame ι) (prev : Option (Frame ι)) (s : Seen) :
    (step mapping odom m f prev s).2.pose = localize odom m f prev s := rfl

theorem step_points (mapping : Mapping) (odom : Odom) (m : Map ι) (f : Frame ι) (prev : Option (Frame ι)) (s : Seen) (x : ι) :
    x ∈ (step mapping odom m f prev s).1.points ↔ x ∈ m.points ∨ x ∈ localize odom m f prev s ∨ x ∈ geo f ∨
      (mapping = .fusion ∧ s.matched = true ∧ x ∈ m.features) := by
  cases mapping <;> cases hs : s.matched <;>
    simp only [step, aggregate, fuse, merge, append, alpha, hs, Set.mem_union, mem_gvertex, mem_vertex, geo_pose, if_true, if_false,
      Bool.false_eq_true, reduceCtorEq, false_and, and_false, true_and, or_false] <;> tauto

theorem step_normals (mapping : Mapping) (odom : Odom) (m : Map ι) (f : Frame ι) (prev : Option (Frame ι)) (s : Seen) (x : ι) :
    x ∈ (step mapping odom m f prev s).1.normals ↔ x ∈ m.normals ∨ x ∈ localize odom m f prev s ∨ x ∈ geo f ∨
      (mapping = .fusion ∧ s.matched = true ∧ x ∈ m.features) := by
  cases mapping <;> cases hs : s.matched <;>
    simp only [step, aggregate, fuse, merge, append, alpha, hs, Set.mem_union, mem_gnormal, mem_vertex, geo_pose, if_true, if_false,
      Bool.false_eq_true, reduceCtorEq, false_and, and_false, true_and, or_false] <;> tauto

theorem step_colors (mapping : Mapping) (odom : Odom) (m : Map ι) (f : Frame ι) (prev : Option (Frame ι)) (s : Seen) (x : ι) :
    x ∈ (step mapping odom m f prev s).1.colors ↔ x ∈ m.colors ∨ x ∈ f.rgb ∨
      (mapping = .fusion ∧ s.matched = true ∧ (x ∈ m.features ∨ x ∈ geo f)) := by
  cases mapping <;> cases hs : s.matched <;>
    simp only [step, aggregate, fuse, merge, append, alpha, hs, Set.mem_union, mem_vertex, geo_pose, if_true, if_false,
      Bool.false_eq_true, reduceCtorEq, false_and, and_false, true_and, or_false] <;> tauto

theorem step_features (mapping : Mapping) (odom : Odom) (m : Map ι) (f : Frame ι) (prev : Option (Frame ι)) (s : Seen) (x : ι) :
    x ∈ (step mapping odom m f prev s).1.features ↔ x ∈ m.features ∨ (mapping = .fusion ∧ x ∈ geo f) := by
  cases mapping <;> cases hs : s.matched <;>
    simp only [step, aggregate, fuse, merge, append, alpha, hs, Set.mem_union, Set.mem_empty_iff_false, mem_vertex, geo_pose, if_true,
      if_false, Bool.false_eq_true, reduceCtorEq, false_and, true_and, or_false] <;> tauto

/-! ### Runs -/

/-- Map and poses of a run of steps from any map and previous frame. -/
theorem steps_cons (mapping : Mapping) (odom : Odom) (m : Map ι) (prev : Option (Frame ι)) (f : Frame ι) (s : Seen)
    (rest : List (Frame ι × Seen)) :
    steps mapping odom m prev ((f, s) :: rest) =
      ((steps mapping odom (step mapping odom m f prev s).1
          (if odom = .gt then none else some (step mapping odom m f prev s).2) rest).1,
       localize odom m f prev s ::
        (steps mapping odom (step mapping odom m f prev s).1
          (if odom = .gt then none else some (step mapping odom m f prev s).2) rest).2) := rfl

/-- **Features.** With fusion the confidence counts are connected to depth and camera of every frame, with aggregation to nothing new;
never to colours or poses — whatever the odometry. -/
theorem features_connected (mapping : Mapping) (odom : Odom) (l : List (Frame ι × Seen)) (x : ι) :
    ∀ (m : Map ι) (prev : Option (Frame ι)), x ∈ (steps mapping odom m prev l).1.features ↔
      x ∈ m.features ∨ (mapping = .fusion ∧ ∃ p ∈ l, x ∈ geo p.1) := by
  induction l with
  | nil => intro m prev; simp [steps]
  | cons p rest ih =>
    obtain ⟨f, s⟩ := p
    intro m prev
    rw [steps_cons]
    dsimp only
    rw [ih, step_features]
    simp only [List.mem_cons, exists_eq_or_imp]
    tauto

/-- **Colours.** They are connected to the colour images of all frames; with fusion also, from the first step on which any map point is
matched, to depth and camera of the frames up to the last such step (the averaging weights); never to a pose — whatever the odometry. -/
theorem colors_connected (mapping : Mapping) (odom : Odom) (l : List (Frame ι × Seen)) (x : ι) :
    ∀ (m : Map ι) (prev : Option (Frame ι)), x ∈ (steps mapping odom m prev l).1.colors ↔
      x ∈ m.colors ∨ (∃ p ∈ l, x ∈ p.1.rgb) ∨
        (mapping = .fusion ∧ ∃ (i : ℕ) (p : Frame ι × Seen), l[i]? = some p ∧ p.2.matched = true ∧
          (x ∈ m.features ∨ ∃ q ∈ l.take (i + 1), x ∈ geo q.1)) := by
  induction l with
  | nil => intro m prev; simp [steps]
  | cons p rest ih =>
    obtain ⟨f, s⟩ := p
    intro m prev
    rw [steps_cons]
    dsimp only
    rw [ih, step_colors, step_features]
    simp only [List.mem_cons, exists_eq_or_imp]
    constructor
    · rintro ((h | h | ⟨hm, hs, h⟩) | h | ⟨hm, i, p, hp, hpm, h⟩)
      · exact .inl h
      · exact .inr (.inl (.inl h))
      · exact .inr (.inr ⟨hm, 0, (f, s), rfl, hs, by simpa using h⟩)
      · exact .inr (.inl (.inr h))
      · refine .inr (.inr ⟨hm, i + 1, p, hp, hpm, ?_⟩)
        rw [List.take_succ_cons]
        simp only [List.mem_cons, exists_eq_or_imp]
        tauto
    · rintro (h | (h | h) | ⟨hm, i, p, hp, hpm, h⟩)
      · exact .inl (.inl h)
      · exact .inl (.inr (.inl h))
      · exact .inr (.inl h)
      · cases i with
        | zero =>
          obtain rfl : (f, s) = p := by simpa using hp
          exact .inl (.inr (.inr ⟨hm, hpm, by simpa using h⟩))
        | succ i =>
          refine .inr (.inr ⟨hm, i, p, by simpa using hp, hpm, ?_⟩)
          rw [List.take_succ_cons] at h
          simp only [List.mem_cons, exists_eq_or_imp] at h
          tauto

/-- **Ground truth.** The poses are the given ones; points and normals are connected to depth, camera and pose of every frame (and to the
old map, with its features once they weigh). -/
theorem gt_connected (mapping : Mapping) (l : List (Frame ι × Seen)) (x : ι) :
    ∀ (m : Map ι) (prev : Option (Frame ι)),
      (steps mapping .gt m prev l).2 = l.map (fun p => p.1.pose) ∧
      (x ∈ (steps mapping .gt m prev l).1.points ↔ x ∈ m.points ∨ (∃ p ∈ l, x ∈ p.1.pose ∨ x ∈ geo p.1) ∨
        (mapping = .fusion ∧ (∃ p ∈ l, p.2.matched = true) ∧ x ∈ m.features)) ∧
      (x ∈ (steps mapping .gt m prev l).1.normals ↔ x ∈ m.normals ∨ (∃ p ∈ l, x ∈ p.1.pose ∨ x ∈ geo p.1) ∨
        (mapping = .fusion ∧ (∃ p ∈ l, p.2.matched = true) ∧ x ∈ m.features)) := by
  induction l with
  | nil => intro m prev; simp [steps]
  | cons p rest ih =>
    obtain ⟨f, s⟩ := p
    intro m prev
    rw [steps_cons]
    dsimp only
    obtain ⟨h1, h2, h3⟩ := ih (step mapping .gt m f prev s).1 (if Odom.gt = .gt then none else some (step mapping .gt m f prev s).2)
    clear ih
    refine ⟨by rw [h1, localize_gt]; rfl, ?_, ?_⟩
    · rw [h2, step_points, step_features, localize_gt]
      clear h1 h2 h3
      simp only [List.mem_cons, exists_eq_or_imp]
      generalize (∃ a ∈ rest, x ∈ a.1.pose ∨ x ∈ geo a.1) = A
      generalize (∃ a ∈ rest, a.2.matched = true) = B
      by_cases hm : mapping = .fusion <;> by_cases hs : s.matched = true <;> simp only [hm, hs, true_and, false_and, or_false, true_or, false_or, Bool.false_eq_true] <;> tauto
    · rw [h3, step_normals, step_features, localize_gt]
      clear h1 h2 h3
      simp only [List.mem_cons, exists_eq_or_imp]
      generalize (∃ a ∈ rest, x ∈ a.1.pose ∨ x ∈ geo a.1) = A
      generalize (∃ a ∈ rest, a.2.matched = true) = B
      by_cases hm : mapping = .fusion <;> by_cases hs : s.matched = true <;> simp only [hm, hs, true_and, false_and, or_false, true_or, false_or, Bool.false_eq_true] <;> tauto

/-- **Odometry.** From a previous frame `p` whose pose is connected to nothing outside the map: points and normals are connected to the
old map and to depth and camera of every frame; the pose of a frame to the pose of `p` and, once a registration moves, to the map
and to depth and camera of the frames up to the last moving one; never to colours, and never to the frames' own poses. -/
theorem odometry_connected (mapping : Mapping) (odom : Odom) (ho : odom ≠ .gt) (x : ι) (l : List (Frame ι × Seen)) :
    ∀ (m : Map ι) (p : Frame ι), m.normals = m.points → p.pose ⊆ m.points → m.features ⊆ m.points →
      (x ∈ (steps mapping odom m (some p) l).1.points ↔ x ∈ m.points ∨ ∃ q ∈ l, x ∈ geo q.1) ∧
      (x ∈ (steps mapping odom m (some p) l).1.normals ↔ x ∈ m.points ∨ ∃ q ∈ l, x ∈ geo q.1) ∧
      (steps mapping odom m (some p) l).2.length = l.length ∧
      ∀ (k : ℕ) (P : Set ι), (steps mapping odom m (some p) l).2[k]? = some P →
        (x ∈ P ↔ x ∈ p.pose ∨ ∃ (i : ℕ) (q : Frame ι × Seen), i ≤ k ∧ l[i]? = some q ∧ moved odom q.2 ∧
          (x ∈ m.points ∨ ∃ r ∈ l.take (i + 1), x ∈ geo r.1)) := by
  induction l with
  | nil => intro m p hn _ _; simp [steps, hn]
  | cons q rest ih =>
    obtain ⟨f, s⟩ := q
    intro m p hn hp hf
    have hloc := fun y => mem_localize odom ho m f p s y
    have hpts := fun y => step_points mapping odom m f (some p) s y
    have hnrm := fun y => step_normals mapping odom m f (some p) s y
    have hpts2 : ∀ y, y ∈ (step mapping odom m f (some p) s).1.points ↔ y ∈ m.points ∨ y ∈ geo f := by
      intro y
      have h1 : y ∈ p.pose → y ∈ m.points := fun h => hp h
      have h2 : y ∈ m.features → y ∈ m.points := fun h => hf h
      rw [hpts, hloc, hn]; tauto
    have hnrm2 : (step mapping odom m f (some p) s).1.normals = (step mapping odom m f (some p) s).1.points := by
      ext y
      rw [hpts, hnrm, hn]
    have hp2 : (step mapping odom m f (some p) s).2.pose ⊆ (step mapping odom m f (some p) s).1.points := by
      intro y hy
      rw [step_pose] at hy
      rw [hpts]; exact .inr (.inl hy)
    have hf2 : (step mapping odom m f (some p) s).1.features ⊆ (step mapping odom m f (some p) s).1.points := by
      intro y hy
      rw [step_features] at hy
      rw [hpts2]
      rcases hy with h | ⟨_, h⟩
      · exact .inl (hf h)
      · exact .inr h
    obtain ⟨h1, h2, h3, h4⟩ := ih (step mapping odom m f (some p) s).1 (step mapping odom m f (some p) s).2 hnrm2 hp2 hf2
    clear ih hnrm2 hp2 hf2 hpts hnrm hf hp
    rw [steps_cons, if_neg ho]
    dsimp only
    refine ⟨?_, ?_, ?_, ?_⟩
    · rw [h1, hpts2]; simp only [List.mem_cons, exists_eq_or_imp]; tauto
    · rw [h2, hpts2]; simp only [List.mem_cons, exists_eq_or_imp]; tauto
    · simp [h3]
    · intro k P hk
      cases k with
      | zero =>
        obtain rfl : localize odom m f (some p) s = P := by simpa using hk
        rw [hloc, hn]
        constructor
        · rintro (h | ⟨hm, h⟩)
          · exact .inl h
          · refine .inr ⟨0, (f, s), le_refl _, rfl, hm, ?_⟩
            simp only [Nat.zero_add, List.take_succ_cons, List.take_zero, List.mem_singleton, exists_eq_left]
            tauto
        · rintro (h | ⟨i, q, hi, hq, hm, h⟩)
          · exact .inl h
          · obtain rfl : i = 0 := by omega
            obtain rfl : (f, s) = q := by simpa using hq
            simp only [Nat.zero_add, List.take_succ_cons, List.take_zero, List.mem_singleton, exists_eq_left] at h
            dsimp only at hm
            tauto
      | succ k =>
        rw [List.getElem?_cons_succ] at hk
        rw [h4 k P hk, step_pose, hloc, hn]
        simp only [hpts2]
        clear h1 h2 h3 h4 hpts2 hloc hk
        constructor
        · rintro ((h | ⟨hm, h⟩) | ⟨i, q, hi, hq, hm, h⟩)
          · exact .inl h
          · refine .inr ⟨0, (f, s), by omega, rfl, hm, ?_⟩
            simp only [Nat.zero_add, List.take_succ_cons, List.take_zero, List.mem_singleton, exists_eq_left]
            tauto
          · refine .inr ⟨i + 1, q, by omega, by simpa using hq, hm, ?_⟩
            rw [List.take_succ_cons]
            simp only [List.mem_cons, exists_eq_or_imp]
            tauto
        · rintro (h | ⟨i, q, hi, hq, hm, h⟩)
          · exact .inl (.inl h)
          · cases i with
            | zero =>
              obtain rfl : (f, s) = q := by simpa using hq
              simp only [Nat.zero_add, List.take_succ_cons, List.take_zero, List.mem_singleton, exists_eq_left] at h
              dsimp only at hm
              tauto
            | succ i =>
              refine .inr ⟨i, q, by omega, by simpa using hq, hm, ?_⟩
              rw [List.take_succ_cons] at h
              simp only [List.mem_cons, exists_eq_or_imp] at h
              tauto

end Verif.Track
