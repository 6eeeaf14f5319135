import Verif.Dtype.Props
/-!
Consequences of C105 for the usual dtypes, and maps built from frames of different dtypes.
-/
namespace Verif.Dtype
open DType

/-! ### What users pass -/

/-- Everything float32, the depth float32, half or any integer type, the colours float32 or float64: every class and every odometry works, for sequences of
any length and whatever is found. -/
theorem float32_works {T : Torch} (u : Usual T) (mapping : Mapping) (odom : Odom) (f : Frame) (hK : f.K = f32) (hx : f.pix = none ∨ f.pix = some f32)
    (hd : f.depth ≠ f64) (hc : f.rgb = f32 ∨ f.rgb = f64) (hp : f.poses = some f32 ∨ (f.poses = none ∧ odom = .registration)) (s : Seen) (ss : List Seen)
    (hs : odom = .registration → ∀ x ∈ ss, x.accepted ≠ []) :
    ∃ r, forward T mapping odom f (s :: ss) = .ok (some r) ∧ r.map.points = f32 ∧ r.map.normals = f32 ∧ r.map.colors = f.rgb ∧ r.poses = f32 := by
  have ho : f.out = f32 := by
    unfold Frame.out
    rw [hK]
    revert hd
    cases f.depth <;> intro hd <;> first | rfl | exact absurd rfl hd
  have hb : promote f.out f.rgb = f.rgb := by rw [ho]; rcases hc with h | h <;> rw [h] <;> rfl
  have hpd : f.poses.getD f32 = f32 := by rcases hp with h | ⟨h, -⟩ <;> rw [h] <;> rfl
  have hxd : f.pix.getD f32 = f32 := by rcases hx with h | h <;> rw [h] <;> rfl
  have w : SequenceWorks T mapping odom f ss :=
    ⟨⟨by rw [hK, hxd], by rw [hK]; exact u.mm32, by rw [ho]; rfl, by rw [hpd, ho], by rw [ho]; exact u.mm32⟩,
      fun _ => ⟨fun _ => ⟨hK, ho⟩, fun _ => ⟨by rw [hK, ho], Or.inl hb⟩⟩⟩
  have h := (forward_iff u mapping odom f s ss (by
    intro h _
    rcases hp with h' | ⟨-, h'⟩
    · simp [h']
    · rw [h] at h'; cases h') hs).1 w
  refine ⟨_, h, ho, ho, ?_, rfl⟩
  simp only [hb, ite_self]

/-- **Intrinsics that are not float32 never work** unless the caller supplies pixel positions of the same dtype: not even one frame. -/
theorem double_intrinsics_raise {T : Torch} (u : Usual T) (mapping : Mapping) (odom : Odom) (f : Frame) (hK : f.K ≠ f32) (hx : f.pix = none) (s : Seen)
    (ss : List Seen) (hp : odom = .gt → ss ≠ [] → f.poses ≠ none) (hs : odom = .registration → ∀ x ∈ ss, x.accepted ≠ []) :
    ∃ e, forward T mapping odom f (s :: ss) = .error e :=
  (forward_iff u mapping odom f s ss hp hs).2 fun w => hK (by rw [w.1.K, hx]; rfl)

/-- **float64 depth**: with float64 poses `ICPSLAM` with ground truth builds a float64 map, but returns float32 poses; registration and `PointFusion` raise at
the second frame. -/
theorem double_depth {T : Torch} (u : Usual T) (f : Frame) (hK : f.K = f32) (hx : f.pix = none) (hd : f.depth = f64) (hp : f.poses = some f64) (s : Seen)
    (ss : List Seen) (hs : ∀ x ∈ ss, x.accepted ≠ []) :
    (∃ r, forward T .aggregate .gt f (s :: ss) = .ok (some r) ∧ r.map.points = f64 ∧ r.poses = f32) ∧
    (ss ≠ [] → (∃ e, forward T .fusion .gt f (s :: ss) = .error e) ∧ ∀ mapping, ∃ e, forward T mapping .registration f (s :: ss) = .error e) := by
  have ho : f.out = f64 := by unfold Frame.out; rw [hK, hd]; rfl
  have w : Works T f (f.poses.getD f32) :=
    ⟨by rw [hK, hx]; rfl, by rw [hK]; exact u.mm32, by rw [ho]; rfl, by rw [hp, ho]; rfl, by rw [ho]; exact u.mm64⟩
  refine ⟨⟨_, (forward_iff u .aggregate .gt f s ss (fun _ _ => by simp [hp]) (fun h => by cases h)).1 ⟨w, fun _ => ⟨fun h => (by cases h), fun h => (by cases h)⟩⟩,
    ho, rfl⟩, fun hne => ⟨?_, fun mapping => ?_⟩⟩
  · apply (forward_iff u .fusion .gt f s ss (fun _ _ => by simp [hp]) (fun h => by cases h)).2
    intro h
    have := ((h.2 hne).2 rfl).1
    rw [hK, ho] at this
    cases this
  · apply (forward_iff u mapping .registration f s ss (fun h => by cases h) (fun _ => hs)).2
    intro h
    have := ((h.2 hne).1 rfl).2
    rw [ho] at this
    cases this

/-- **Byte colours in `PointFusion`**: with everything else float32, a sequence works while at most one later frame has a match, and raises at the second
such frame, because merging turns the colours of the map into float32. -/
theorem byte_colours {T : Torch} (u : Usual T) (odom : Odom) (f : Frame) (hK : f.K = f32) (hx : f.pix = none) (hd : f.depth = f32) (hp : f.poses = some f32)
    (hc : f.rgb = u8) (s : Seen) (ss : List Seen) (hs : odom = .registration → ∀ x ∈ ss, x.accepted ≠ []) :
    (matches' ss = 0 → ∃ r, forward T .fusion odom f (s :: ss) = .ok (some r) ∧ r.map.colors = u8) ∧
    (matches' ss = 1 → ∃ r, forward T .fusion odom f (s :: ss) = .ok (some r) ∧ r.map.colors = f32) ∧
    (2 ≤ matches' ss → ∃ e, forward T .fusion odom f (s :: ss) = .error e) := by
  have ho : f.out = f32 := by unfold Frame.out; rw [hK, hd]; rfl
  have w : Works T f (f.poses.getD f32) :=
    ⟨by rw [hK, hx]; rfl, by rw [hK]; exact u.mm32, by rw [ho]; rfl, by rw [hp, ho]; rfl, by rw [ho]; exact u.mm32⟩
  have main := forward_iff u .fusion odom f s ss (fun _ _ => by simp [hp]) hs
  have sw : matches' ss ≤ 1 → SequenceWorks T .fusion odom f ss := fun h => ⟨w, fun _ => ⟨fun _ => ⟨hK, ho⟩, fun _ => ⟨by rw [hK, ho], Or.inr h⟩⟩⟩
  refine ⟨fun h => ⟨_, main.1 (sw (by omega)), ?_⟩, fun h => ⟨_, main.1 (sw (by omega)), ?_⟩, fun h => main.2 fun k => ?_⟩
  · simp [h, hc]
  · simp only [h, hc, ho]; rfl
  · have hne : ss ≠ [] := by
      rintro rfl
      simp [matches'] at h
    rcases ((k.2 hne).2 rfl).2 with b | b
    · rw [ho, hc] at b
      exact absurd b (by unfold Below; decide)
    · omega

/-! ### Frames of different dtypes -/

/-- **C105, mixed frames.**  `ICPSLAM` steps on frames of different dtypes, each of which works by itself: the map has the promoted dtype of all of
them.  Nothing converts back. -/
theorem mixed_aggregate {T : Torch} (fs : List (Frame × Seen)) (m : Map) (hf : m.features = none) (hw : ∀ x ∈ fs, ∃ p, x.1.poses = some p ∧ Works T x.1 p) :
    steps T .aggregate (some m) fs = .ok (some ⟨(fs.map fun x => x.1.out).foldl promote m.points, (fs.map fun x => x.1.out).foldl promote m.normals,
      (fs.map fun x => x.1.rgb).foldl promote m.colors, none⟩) := by
  induction fs generalizing m with
  | nil => cases m; cases hf; rfl
  | cons x xs ih =>
    obtain ⟨f, s⟩ := x
    obtain ⟨p, hp, w⟩ := hw (f, s) List.mem_cons_self
    obtain ⟨-, -, h3, h4⟩ := maps_work w
    have hs : step T .aggregate .gt (some m) f none s =
        .ok (⟨promote m.points f.out, promote m.normals f.out, promote m.colors f.rgb, none⟩, { f with poses := some p }) := by
      rw [step_gt T .aggregate (some m) f p hp none s]
      simp only [mapPart, aggregate, h3, h4, bind_ok, append, hf]
      rfl
    simp only [steps, hs, bind_ok]
    rw [ih _ rfl (fun y hy => hw y (List.mem_cons_of_mem _ hy))]
    rfl

/-- The promoted dtype is the least one above all: if one frame is float64 then so is the map. -/
theorem one_double_frame (ds : List DType) (d : DType) (h : f64 ∈ ds) : ds.foldl promote d = f64 := by
  have top : ∀ a, promote f64 a = f64 := by intro a; cases a <;> rfl
  have stay : ∀ l : List DType, l.foldl promote f64 = f64 := by
    intro l
    induction l with
    | nil => rfl
    | cons a l ih => simp only [List.foldl, top, ih]
  induction ds generalizing d with
  | nil => cases h
  | cons a l ih =>
    simp only [List.foldl]
    rcases List.mem_cons.1 h with rfl | h
    · rw [promote_comm, top, stay]
    · exact ih _ h

/-- **C105, mixed frames in `PointFusion`.**  A map takes only frames whose vertices have its own dtype. -/
theorem mixed_fusion_raises {T : Torch} (m : Map) (f : Frame) (p : DType) (hp : f.poses = some p) (h : m.points ≠ f.out) (prev : Option Frame) (s : Seen) :
    ∃ e, step T .fusion .gt (some m) f prev s = .error e := by
  rw [step_gt T .fusion (some m) f p hp prev s]
  by_cases w : Works T f p
  · refine ⟨.runtimeError, ?_⟩
    have : active T (some m) { f with poses := some p } = .error .runtimeError := by
      simp only [active]
      rw [prod_error (fun k => h (k.1.trans w.pose))]
      rfl
    simp only [mapPart, fuse, this, bind_error]
    rfl
  · obtain ⟨e, he⟩ := part_fails w .fusion (some m) s
    exact ⟨e, by rw [he]; rfl⟩

/-! ### Concrete cases -/

/-- A device with matrix products for floating dtypes and a float32 neighbour search. -/
def torchCpu : Torch := ⟨fun d => d == f32 || d == f64, fun d => d == f32⟩

theorem torchCpu_usual : Usual torchCpu := ⟨rfl, rfl, rfl⟩

def seenMatch : Seen := ⟨true, true, fun _ => rfl, [true, false]⟩
def seenNone : Seen := ⟨true, false, fun _ => rfl, [false]⟩

/-- The usual dtypes work with registration; byte colours survive two frames and break the third; float64 intrinsics with float64 positions work and lose
the precision of the poses; without the positions they do not. -/
theorem dtype_case :
    forward torchCpu .fusion .registration ⟨f32, f32, f32, none, none⟩ [seenNone, seenMatch, seenNone, seenMatch] = .ok (some ⟨⟨f32, f32, f32, some f32⟩, f32⟩) ∧
    forward torchCpu .fusion .gt ⟨u8, i32, f32, some f32, none⟩ [seenNone, seenMatch] = .ok (some ⟨⟨f32, f32, f32, some f32⟩, f32⟩) ∧
    forward torchCpu .fusion .gt ⟨u8, i32, f32, some f32, none⟩ [seenNone, seenMatch, seenMatch] = .error .runtimeError ∧
    forward torchCpu .aggregate .gt ⟨u8, f64, f64, some f64, some f64⟩ [seenNone, seenMatch] = .ok (some ⟨⟨f64, f64, u8, none⟩, f32⟩) ∧
    forward torchCpu .aggregate .gt ⟨u8, f64, f64, some f64, none⟩ [seenNone] = .error .runtimeError := by
  refine ⟨by decide, by decide, by decide, by decide, by decide⟩
end Verif.Dtype
