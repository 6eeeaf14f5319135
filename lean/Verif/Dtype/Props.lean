import Verif.Dtype.Model
/-!
**C105**: which dtypes the images, intrinsics, poses and positions of a sequence may have, and the dtypes of the results.
-/
namespace Verif.Dtype
open DType
set_option linter.unusedSimpArgs false

/-! ### Promotion -/
theorem promote_self (a : DType) : promote a a = a := by cases a <;> rfl
theorem promote_comm (a b : DType) : promote a b = promote b a := by cases a <;> cases b <;> rfl
theorem promote_assoc (a b c : DType) : promote (promote a b) c = promote a (promote b c) := by cases a <;> cases b <;> cases c <;> rfl
theorem promote_idem (a b : DType) : promote a (promote a b) = promote a b := by rw [← promote_assoc, promote_self]
theorem promote_idem' (a b : DType) : promote (promote a b) b = promote a b := by rw [promote_assoc, promote_self]

/-- `a` converts to `b` without leaving the promotion order. -/
def Below (a b : DType) : Prop := promote a b = b

/-! ### Frames -/

/-- dtype of the vertex map, when there is one. -/
def Frame.out (f : Frame) : DType := promote f.K f.depth

/-- **The dtypes with which the maps of a frame can be computed**, given the dtype of its poses: intrinsics of the dtype of the pixel positions (float32
unless the caller gave others), poses of the dtype of the vertices. -/
structure Works (T : Torch) (f : Frame) (p : DType) : Prop where
  K : f.K = f.pix.getD f32
  mmK : T.mm f.K = true
  float : f.out.isFloat = true
  pose : p = f.out
  mm : T.mm f.out = true

theorem prod_same {T : Torch} {a : DType} (h : T.mm a = true) : prod T a a = .ok a := by simp [prod, h]
theorem prod_error {T : Torch} {a b : DType} (h : ¬ (a = b ∧ T.mm a = true)) : prod T a b = .error .runtimeError := by rw [prod, if_neg h]
theorem prod_ok {T : Torch} {a b c : DType} (h : prod T a b = .ok c) : a = b ∧ T.mm a = true ∧ c = a := by
  unfold prod at h
  split_ifs at h with h1
  exact ⟨h1.1, h1.2, by cases h; rfl⟩

@[simp] theorem bind_ok {α β : Type} (a : α) (k : α → Except Err β) : (Except.ok a >>= k) = k a := rfl
@[simp] theorem bind_error {α β : Type} (e : Err) (k : α → Except Err β) : ((Except.error e : Except Err α) >>= k) = .error e := rfl

theorem vertex_works {T : Torch} {f : Frame} {p : DType} (w : Works T f p) : vertex T f = .ok f.out := by
  unfold vertex
  rw [← w.K, prod_same w.mmK]
  rfl

theorem withPose (f : Frame) (p : Option DType) (T : Torch) : vertex T { f with poses := p } = vertex T f := rfl

theorem maps_work {T : Torch} {f : Frame} {p : DType} (w : Works T f p) :
    vertex T f = .ok f.out ∧ normal T f = .ok f.out ∧ gvertex T { f with poses := some p } = .ok f.out ∧ gnormal T { f with poses := some p } = .ok f.out := by
  have hv := vertex_works w
  have hn : normal T f = .ok f.out := by simp [normal, hv, floatOnly, w.float]
  refine ⟨hv, hn, ?_, ?_⟩
  · unfold gvertex
    rw [withPose, hv]
    simp only [bind_ok, w.pose, prod_same w.mm, promote_self]
  · unfold gnormal
    have : normal T { f with poses := some p } = normal T f := rfl
    rw [this, hn]
    simp only [bind_ok, w.pose, prod_same w.mm]

/-- When the dtypes do not work out, one of the two global maps raises RuntimeError. -/
theorem maps_fail {T : Torch} {f : Frame} {p : DType} (w : ¬ Works T f p) :
    gvertex T { f with poses := some p } = .error .runtimeError ∨
    (∃ v, gvertex T { f with poses := some p } = .ok v) ∧ gnormal T { f with poses := some p } = .error .runtimeError := by
  by_cases h1 : f.K = f.pix.getD f32 ∧ T.mm f.K = true
  · have hv : vertex T f = .ok f.out := by
      unfold vertex
      rw [← h1.1, prod_same h1.2]; rfl
    by_cases h2 : p = f.out ∧ T.mm p = true
    · right
      refine ⟨⟨p, ?_⟩, ?_⟩
      · unfold gvertex
        rw [withPose, hv]
        simp only [bind_ok]
        rw [← h2.1, prod_same h2.2]
        simp [promote_self]
      · unfold gnormal
        have e : normal T { f with poses := some p } = .error .runtimeError := by
          unfold normal
          rw [withPose, hv]
          simp only [bind_ok, floatOnly]
          rw [if_neg]
          intro hf
          exact w ⟨h1.1, h1.2, hf, h2.1, h2.1 ▸ h2.2⟩
        rw [e]; rfl
    · left
      unfold gvertex
      rw [withPose, hv]
      simp only [bind_ok, prod_error h2, bind_error]
  · left
    unfold gvertex
    have e : vertex T { f with poses := some p } = .error .runtimeError := by
      rw [withPose]; unfold vertex; rw [prod_error h1]; rfl
    rw [e]; rfl

/-- **C105, frames.**  All maps of a frame with poses can be computed exactly when its dtypes work out; they then all have the promoted dtype of
intrinsics and depth; otherwise RuntimeError is raised. -/
theorem frame_maps (T : Torch) (f : Frame) (p : DType) :
    (Works T f p → vertex T f = .ok f.out ∧ normal T f = .ok f.out ∧ gvertex T { f with poses := some p } = .ok f.out ∧
      gnormal T { f with poses := some p } = .ok f.out) ∧
    (¬ Works T f p → gvertex T { f with poses := some p } = .error .runtimeError ∨ gnormal T { f with poses := some p } = .error .runtimeError) :=
  ⟨maps_work, fun w => (maps_fail w).imp id And.right⟩

/-! ### The first frame -/

/-- The map a frame alone gives. -/
def firstMap (mapping : Mapping) (f : Frame) (c : DType) : Map := ⟨f.out, f.out, c, match mapping with | .aggregate => none | .fusion => some f.out⟩

/-- The mapping part of a step. -/
def mapPart (T : Torch) (mapping : Mapping) (m : Option Map) (live : Frame) (seen : Seen) : Except Err Map :=
  match mapping with
  | .aggregate => aggregate T m live
  | .fusion => fuse T m live seen

theorem first_works {T : Torch} {f : Frame} {p : DType} (w : Works T f p) (mapping : Mapping) (s : Seen) :
    mapPart T mapping none { f with poses := some p } s = .ok (firstMap mapping f f.rgb) := by
  obtain ⟨h1, h2, h3, h4⟩ := maps_work w
  cases mapping
  · simp only [mapPart, aggregate, h3, h4, bind_ok, append, firstMap]
  · simp only [mapPart, fuse, active, h3, h4, bind_ok, append, firstMap, withPose, h1, floatOnly, w.float, if_true]

theorem part_fails {T : Torch} {f : Frame} {p : DType} (w : ¬ Works T f p) (mapping : Mapping) (m : Option Map) (s : Seen) :
    ∃ e, mapPart T mapping m { f with poses := some p } s = .error e := by
  cases mapping
  · rcases maps_fail w with h | ⟨⟨v, h⟩, k⟩
    · exact ⟨.runtimeError, by simp only [mapPart, aggregate, h, bind_error]⟩
    · exact ⟨.runtimeError, by simp only [mapPart, aggregate, h, k, bind_error, bind_ok]⟩
  · simp only [mapPart, fuse]
    cases ha : active T m { f with poses := some p } with
    | error e => exact ⟨e, rfl⟩
    | ok u =>
      simp only [bind_ok]
      cases m with
      | none =>
        rcases maps_fail w with h | ⟨⟨v, h⟩, k⟩
        · exact ⟨.runtimeError, by simp only [h, bind_error]⟩
        · exact ⟨.runtimeError, by simp only [h, k, bind_error, bind_ok]⟩
      | some m =>
        rcases maps_fail w with h | ⟨⟨v, h⟩, k⟩
        · exact ⟨.runtimeError, by simp only [h, bind_error]⟩
        · exact ⟨.runtimeError, by simp only [h, k, bind_error, bind_ok]⟩

/-! ### Later frames -/

/-- dtype of the colours after a step, `none` when the step raises. -/
def colourAfter (f : Frame) (c : DType) (s : Seen) : Option DType :=
  if s.matched then (if c = f.rgb then some (promote f.out f.rgb) else none) else some (promote c f.rgb)

theorem active_iff {T : Torch} {f : Frame} {p : DType} (w : Works T f p) (mapping : Mapping) (c : DType) :
    (f.K = f.out → active T (some (firstMap mapping f c)) { f with poses := some p } = .ok ()) ∧
    (f.K ≠ f.out → active T (some (firstMap mapping f c)) { f with poses := some p } = .error .runtimeError) := by
  constructor
  · intro h
    simp only [active, firstMap, w.pose, prod_same w.mm, bind_ok, promote_self, h]
  · intro h
    simp only [active, firstMap, w.pose, prod_same w.mm, bind_ok, promote_self]
    rw [prod_error (fun k => h k.1)]
    rfl

/-- A later step of `ICPSLAM` on a map of such frames. -/
theorem part_aggregate {T : Torch} {f : Frame} {p : DType} (w : Works T f p) (s : Seen) :
    mapPart T .aggregate (some (firstMap .aggregate f f.rgb)) { f with poses := some p } s = .ok (firstMap .aggregate f f.rgb) := by
  obtain ⟨h1, h2, h3, h4⟩ := maps_work w
  simp only [mapPart, aggregate, h3, h4, bind_ok, append, firstMap, promote_self]

/-- A later step of `PointFusion` on a map of such frames. -/
theorem part_fusion {T : Torch} {f : Frame} {p : DType} (w : Works T f p) (s : Seen) (c : DType) :
    (f.K ≠ f.out → mapPart T .fusion (some (firstMap .fusion f c)) { f with poses := some p } s = .error .runtimeError) ∧
    (f.K = f.out → mapPart T .fusion (some (firstMap .fusion f c)) { f with poses := some p } s =
      match colourAfter f c s with
      | some d => .ok (firstMap .fusion f d)
      | none => .error .runtimeError) := by
  obtain ⟨h1, h2, h3, h4⟩ := maps_work w
  constructor
  · intro h
    simp only [mapPart, fuse, (active_iff w .fusion c).2 h, bind_error]
  · intro h
    simp only [mapPart, fuse, (active_iff w .fusion c).1 h, bind_ok, h3, h4, withPose, h1]
    have hp : put f.out f.out = .ok f.out := by simp [put]
    unfold colourAfter
    cases hm : s.matched with
    | false => cases hi : s.inView <;> simp [firstMap, append, promote_self, hp]
    | true =>
      have hi := s.sub hm
      by_cases hc : c = f.rgb
      · subst hc
        have : put f.rgb f.rgb = .ok f.rgb := by simp [put]
        simp only [hi, if_true, firstMap, hp, bind_ok, merge, this, promote_self, append, promote_comm f.out, promote_idem, promote_idem', promote_assoc]
      · simp [hi, hc, firstMap, hp, merge, put]

/-! ### Registration -/

/-- The dtypes for which `torch` and `chamferdist` provide what registration needs on every device. -/
structure Usual (T : Torch) : Prop where
  mm32 : T.mm f32 = true
  mm64 : T.mm f64 = true
  knn32 : T.knn f32 = true

theorem iter_same {T : Torch} {a : DType} (hm : T.mm a = true) (hk : T.knn a = true) (hf : a.isFloat = true) (h32 : promote a f32 = a) (acc : Bool) :
    iter T a a a a acc = .ok (a, a) := by
  have p : prod T a a = .ok a := prod_same hm
  have g : gauss T a a a = .ok (a, a) := by simp [gauss, hk, promote_self]
  have s : solve T a a = .ok a := by simp [solve, p, h32, floatOnly, hf]
  have e : expm T a = .ok a := by simp [expm, p, floatOnly, hf]
  unfold iter
  rw [g]
  simp only [bind_ok, s, e, p, g]
  cases acc <;> simp

theorem iters_same {T : Torch} {a : DType} (hm : T.mm a = true) (hk : T.knn a = true) (hf : a.isFloat = true) (h32 : promote a f32 = a) (acc : List Bool) :
    iters T a a a a acc = .ok a := by
  induction acc with
  | nil => rfl
  | cons b bs ih => simp only [iters, iter_same hm hk hf h32, bind_ok, ih]

/-- **C105, registration.**  `point_to_plane_ICP` and `point_to_plane_gradICP` work on float32 and on float64 clouds (when the neighbour search does)
and return a transform of that dtype. -/
theorem register_same {T : Torch} (u : Usual T) {a : DType} (ha : a = f32 ∨ a = f64) (hk : T.knn a = true) (init : Option DType)
    (hi : init = none ∨ init = some a) (acc : List Bool) (hacc : acc ≠ []) : register T a a a init acc = .ok a := by
  have hm : T.mm a = true := by rcases ha with rfl | rfl; exacts [u.mm32, u.mm64]
  have e : init.getD a = a := by rcases hi with rfl | rfl <;> rfl
  simp only [register, e, prod_same hm, bind_ok]
  rw [if_neg hacc]
  exact iters_same hm hk (by rcases ha with rfl | rfl <;> rfl) (by rcases ha with rfl | rfl <;> rfl) acc

/-- **C105, odometry providers.**  The providers start from a float32 identity: they raise RuntimeError unless the source is float32, whatever else. -/
theorem provide_needs_float32 (T : Torch) {s : DType} (hs : s ≠ f32) (t n : DType) (acc : List Bool) : provide T s t n acc = .error .runtimeError := by
  simp only [provide, register, Option.getD]
  rw [prod_error (fun h => hs h.1.symm)]
  rfl

theorem provide_float32 {T : Torch} (u : Usual T) (acc : List Bool) (hacc : acc ≠ []) : provide T f32 f32 f32 acc = .ok f32 :=
  register_same u (Or.inl rfl) u.knn32 _ (Or.inr rfl) acc hacc

theorem localize_reg {T : Torch} (u : Usual T) {f : Frame} {p : DType} (w : Works T f p) (mapping : Mapping) (c : DType) (s : Seen) (hs : s.accepted ≠ [])
    (f' : Frame) (hf : ({ f' with poses := some p } : Frame) = { f with poses := some p }) :
    (f.K = f32 ∧ f.out = f32 → localize T .registration (some (firstMap mapping f c)) f' (some { f with poses := some p }) s = .ok p) ∧
    (¬ (f.K = f32 ∧ f.out = f32) → ∃ e, localize T .registration (some (firstMap mapping f c)) f' (some { f with poses := some p }) s = .error e) := by
  obtain ⟨h1, h2, h3, h4⟩ := maps_work w
  constructor
  · rintro ⟨hk, ho⟩
    have ha := (active_iff w mapping c).1 (by rw [hk, ho])
    have hp : p = f32 := w.pose.trans ho
    simp only [localize, hf, h3, h4, bind_ok, ha]
    simp only [firstMap, ho, provide_float32 u _ hs, bind_ok, hp, prod_same u.mm32]
  · intro h
    simp only [localize, hf, h3, h4, bind_ok]
    by_cases hk : f.K = f.out
    · simp only [(active_iff w mapping c).1 hk, bind_ok]
      have : f.out ≠ f32 := fun ho => h ⟨hk.trans ho, ho⟩
      rw [provide_needs_float32 T this]
      exact ⟨_, rfl⟩
    · simp only [(active_iff w mapping c).2 hk, bind_error]
      exact ⟨_, rfl⟩

/-! ### Sequences -/

/-- dtype of the colours after some steps, `none` when one of them raises. -/
def colourRun (f : Frame) : DType → List Seen → Option DType
  | c, [] => some c
  | c, s :: ss => match colourAfter f c s with
    | none => none
    | some d => colourRun f d ss

/-- The number of frames in which some measurement was merged into the map. -/
def matches' (ss : List Seen) : Nat := (ss.filter fun s => s.matched).length

theorem colourRun_below {f : Frame} (h : Below f.out f.rgb) (ss : List Seen) : colourRun f f.rgb ss = some f.rgb := by
  have h' : promote f.out f.rgb = f.rgb := h
  induction ss with
  | nil => rfl
  | cons s ss ih =>
    have : colourAfter f f.rgb s = some f.rgb := by
      unfold colourAfter
      by_cases hm : s.matched = true <;> simp [hm, h', promote_self]
    simp only [colourRun, this, ih]

theorem colourRun_mixed {f : Frame} (h : ¬ Below f.out f.rgb) (ss : List Seen) :
    colourRun f (promote f.out f.rgb) ss = if matches' ss = 0 then some (promote f.out f.rgb) else none := by
  induction ss with
  | nil => rfl
  | cons s ss ih =>
    cases hm : s.matched with
    | false =>
      have : colourAfter f (promote f.out f.rgb) s = some (promote f.out f.rgb) := by simp [colourAfter, hm, promote_idem']
      have e : matches' (s :: ss) = matches' ss := by simp [matches', List.filter_cons, hm]
      simp only [colourRun, this, ih, e]
    | true =>
      have : colourAfter f (promote f.out f.rgb) s = none := by
        simp only [colourAfter, hm, if_true]
        exact if_neg h
      have e : matches' (s :: ss) = matches' ss + 1 := by simp [matches', List.filter_cons, hm]
      simp only [colourRun, this, e]
      rw [if_neg (by omega)]

theorem colourRun_start {f : Frame} (h : ¬ Below f.out f.rgb) (ss : List Seen) :
    colourRun f f.rgb ss = if matches' ss = 0 then some f.rgb else if matches' ss = 1 then some (promote f.out f.rgb) else none := by
  induction ss with
  | nil => rfl
  | cons s ss ih =>
    cases hm : s.matched with
    | false =>
      have : colourAfter f f.rgb s = some f.rgb := by simp [colourAfter, hm, promote_self]
      have e : matches' (s :: ss) = matches' ss := by simp [matches', List.filter_cons, hm]
      simp only [colourRun, this, ih, e]
    | true =>
      have : colourAfter f f.rgb s = some (promote f.out f.rgb) := by simp [colourAfter, hm]
      have e : matches' (s :: ss) = matches' ss + 1 := by simp [matches', List.filter_cons, hm]
      simp only [colourRun, this, colourRun_mixed h, e]
      by_cases hz : matches' ss = 0
      · simp [hz]
      · simp [hz]

/-- The colours over a whole sequence. -/
theorem colours_iff (f : Frame) (ss : List Seen) :
    (Below f.out f.rgb ∨ matches' ss ≤ 1 → colourRun f f.rgb ss = some (if matches' ss ≠ 0 then promote f.out f.rgb else f.rgb)) ∧
    (¬ (Below f.out f.rgb ∨ matches' ss ≤ 1) → colourRun f f.rgb ss = none) := by
  by_cases h : Below f.out f.rgb
  · refine ⟨fun _ => ?_, fun k => absurd (Or.inl h) k⟩
    rw [colourRun_below h]
    have h' : promote f.out f.rgb = f.rgb := h
    rw [h']
    simp
  · rw [colourRun_start h]
    constructor
    · rintro (k | k)
      · exact absurd k h
      · by_cases hz : matches' ss = 0
        · simp [hz]
        · have : matches' ss = 1 := by omega
          simp [this]
    · intro k
      simp only [not_or, Nat.not_le] at k
      rw [if_neg (by omega), if_neg (by omega)]

theorem step_gt (T : Torch) (mapping : Mapping) (m : Option Map) (f : Frame) (p : DType) (hp : f.poses = some p) (prev : Option Frame) (s : Seen) :
    step T mapping .gt m f prev s = (mapPart T mapping m { f with poses := some p } s).map fun m1 => (m1, { f with poses := some p }) := by
  have : localize T .gt m f prev s = .ok p := by simp [localize, hp]
  simp only [step, this, bind_ok]
  cases mapping
  · simp only [mapPart]
    cases aggregate T m { f with poses := some p } <;> rfl
  · simp only [mapPart]
    cases fuse T m { f with poses := some p } s <;> rfl

/-- The frame that `forward` keeps as the previous one. -/
def prevOf (odom : Odom) (f : Frame) (p : DType) : Option Frame := if odom ≠ .gt then some { f with poses := some p } else none

/-- The conditions on later frames that do not concern the colours. -/
def Later (f : Frame) (mapping : Mapping) (odom : Odom) : Prop :=
  (odom = .registration → f.K = f32 ∧ f.out = f32) ∧ (mapping = .fusion → f.K = f.out)

theorem step_later {T : Torch} (u : Usual T) {f : Frame} {p : DType} (w : Works T f p) (mapping : Mapping) (odom : Odom)
    (hp : odom = .gt → f.poses = some p) (c : DType) (hc : mapping = .aggregate → c = f.rgb) (s : Seen) (hs : odom = .registration → s.accepted ≠ []) :
    (¬ Later f mapping odom → ∃ e, step T mapping odom (some (firstMap mapping f c)) f (prevOf odom f p) s = .error e) ∧
    (Later f mapping odom → step T mapping odom (some (firstMap mapping f c)) f (prevOf odom f p) s =
      match (if mapping = .aggregate then some c else colourAfter f c s) with
      | some d => .ok (firstMap mapping f d, { f with poses := some p })
      | none => .error .runtimeError) := by
  have hl : (odom = .registration → f.K = f32 ∧ f.out = f32) → localize T odom (some (firstMap mapping f c)) f (prevOf odom f p) s = .ok p := by
    intro h
    cases odom with
    | gt => simp [localize, hp rfl]
    | registration =>
      have := (localize_reg u w mapping c s (hs rfl) f rfl).1 (h rfl)
      simpa [prevOf] using this
  have hb : ∀ q, step T mapping odom (some (firstMap mapping f c)) f (prevOf odom f p) s = (localize T odom (some (firstMap mapping f c)) f (prevOf odom f p) s >>= fun p =>
      (mapPart T mapping (some (firstMap mapping f c)) { f with poses := some p } s >>= fun m1 => .ok (m1, { f with poses := some p }))) ∨ q := by
    intro q
    left
    unfold step mapPart
    cases mapping <;> rfl
  have hb := (hb False).resolve_right id
  rw [hb]
  constructor
  · intro h
    by_cases ho : odom = .registration → f.K = f32 ∧ f.out = f32
    · rw [hl ho]
      simp only [bind_ok]
      have hm : mapping = .fusion ∧ f.K ≠ f.out := by
        by_contra k
        exact h ⟨ho, fun e => by_contra fun n => k ⟨e, n⟩⟩
      obtain ⟨rfl, hm⟩ := hm
      rw [(part_fusion w s c).1 hm]
      exact ⟨_, rfl⟩
    · have hr : odom = .registration := by
        cases odom with
        | gt => exact absurd (fun k => by cases k) ho
        | registration => rfl
      subst hr
      have hn : ¬ (f.K = f32 ∧ f.out = f32) := fun k => ho fun _ => k
      obtain ⟨e, he⟩ := (localize_reg u w mapping c s (hs rfl) f rfl).2 hn
      have : localize T .registration (some (firstMap mapping f c)) f (prevOf .registration f p) s = .error e := by simpa [prevOf] using he
      rw [this]
      exact ⟨_, rfl⟩
  · rintro ⟨h1, h2⟩
    rw [hl h1]
    simp only [bind_ok]
    cases mapping with
    | aggregate =>
      have e := hc rfl
      subst e
      rw [part_aggregate w]
      rfl
    | fusion =>
      rw [(part_fusion w s c).2 (h2 rfl), if_neg (by decide)]
      cases colourAfter f c s <;> rfl

theorem from_aggregate {T : Torch} (u : Usual T) {f : Frame} {p : DType} (w : Works T f p) (odom : Odom) (hp : odom = .gt → f.poses = some p)
    (hL : Later f .aggregate odom) (ss : List Seen) (hs : odom = .registration → ∀ s ∈ ss, s.accepted ≠ []) :
    forwardFrom T .aggregate odom f (some (firstMap .aggregate f f.rgb)) (prevOf odom f p) ss = .ok (some (firstMap .aggregate f f.rgb)) := by
  induction ss with
  | nil => rfl
  | cons s ss ih =>
    have h := (step_later u w .aggregate odom hp f.rgb (fun _ => rfl) s (fun h => hs h s List.mem_cons_self)).2 hL
    rw [if_pos rfl] at h
    simp only at h
    simp only [forwardFrom, h, bind_ok]
    exact ih fun h x hx => hs h x (List.mem_cons_of_mem _ hx)

theorem from_fusion {T : Torch} (u : Usual T) {f : Frame} {p : DType} (w : Works T f p) (odom : Odom) (hp : odom = .gt → f.poses = some p)
    (hL : Later f .fusion odom) (ss : List Seen) (hs : odom = .registration → ∀ s ∈ ss, s.accepted ≠ []) (c : DType) :
    forwardFrom T .fusion odom f (some (firstMap .fusion f c)) (prevOf odom f p) ss =
      match colourRun f c ss with
      | some d => .ok (some (firstMap .fusion f d))
      | none => .error .runtimeError := by
  induction ss generalizing c with
  | nil => rfl
  | cons s ss ih =>
    have h := (step_later u w .fusion odom hp c (fun h => by cases h) s (fun h => hs h s List.mem_cons_self)).2 hL
    rw [if_neg (by decide)] at h
    simp only [forwardFrom, h, colourRun]
    cases hc : colourAfter f c s with
    | none => rfl
    | some d =>
      simp only [bind_ok]
      exact ih (fun h x hx => hs h x (List.mem_cons_of_mem _ hx)) d

theorem from_fails {T : Torch} (u : Usual T) {f : Frame} {p : DType} (w : Works T f p) (mapping : Mapping) (odom : Odom)
    (hp : odom = .gt → f.poses = some p) (hL : ¬ Later f mapping odom) (s : Seen) (ss : List Seen) (hs : odom = .registration → s.accepted ≠ []) :
    ∃ e, forwardFrom T mapping odom f (some (firstMap mapping f f.rgb)) (prevOf odom f p) (s :: ss) = .error e := by
  obtain ⟨e, h⟩ := (step_later u w mapping odom hp f.rgb (fun _ => rfl) s hs).1 hL
  exact ⟨e, by simp only [forwardFrom, h, bind_error]⟩

/-- **The dtypes with which a whole sequence works**, by the documented choices of `odom` and of the class, and by in how many later frames something
was merged into the map. -/
def SequenceWorks (T : Torch) (mapping : Mapping) (odom : Odom) (f : Frame) (later : List Seen) : Prop :=
  Works T f (f.poses.getD f32) ∧
  (later ≠ [] →
    (odom = .registration → f.K = f32 ∧ f.out = f32) ∧
    (mapping = .fusion → f.K = f.out ∧ (Below f.out f.rgb ∨ matches' later ≤ 1)))

/-- **C105, sequences.**  For a sequence of any length, whatever is found in the data: `forward` succeeds exactly when the dtypes of the sequence work.
The map then has points, normals and features of the dtype of the vertices, the colours keep their dtype unless something was merged, and the returned
poses are float32 whatever the poses given. -/
theorem forward_iff {T : Torch} (u : Usual T) (mapping : Mapping) (odom : Odom) (f : Frame) (s : Seen) (ss : List Seen)
    (hp : odom = .gt → ss ≠ [] → f.poses ≠ none) (hs : odom = .registration → ∀ x ∈ ss, x.accepted ≠ []) :
    (SequenceWorks T mapping odom f ss → forward T mapping odom f (s :: ss) =
      .ok (some ⟨⟨f.out, f.out, if mapping = .fusion ∧ matches' ss ≠ 0 then promote f.out f.rgb else f.rgb, if mapping = .fusion then some f.out else none⟩, f32⟩)) ∧
    (¬ SequenceWorks T mapping odom f ss → ∃ e, forward T mapping odom f (s :: ss) = .error e) := by
  have hfirst : ∀ q, localize T odom none { f with poses := some q } none s = .ok q := by intro q; cases odom <;> rfl
  have hb : forward T mapping odom f (s :: ss) = (mapPart T mapping none { f with poses := some (f.poses.getD f32) } s >>= fun m1 =>
      (forwardFrom T mapping odom f (some m1) (prevOf odom f (f.poses.getD f32)) ss >>= fun m => .ok (m.map fun m => ⟨m, f32⟩))) := by
    unfold forward
    simp only [step, hfirst, bind_ok]
    cases mapping
    · simp only [mapPart]
      cases aggregate T none { f with poses := some (f.poses.getD f32) } <;> rfl
    · simp only [mapPart]
      cases fuse T none { f with poses := some (f.poses.getD f32) } s <;> rfl
  rw [hb]
  by_cases w : Works T f (f.poses.getD f32)
  · rw [first_works w]
    simp only [bind_ok]
    cases ss with
    | nil =>
      refine ⟨fun _ => ?_, fun h => absurd ⟨w, fun k => absurd rfl k⟩ h⟩
      cases mapping <;> rfl
    | cons x xs =>
      have hp' : odom = .gt → f.poses = some (f.poses.getD f32) := by
        intro h
        have := hp h (by simp)
        cases hq : f.poses with
        | none => exact absurd hq this
        | some q => rfl
      by_cases hL : Later f mapping odom
      · cases mapping with
        | aggregate =>
          rw [from_aggregate u w odom hp' hL _ hs]
          refine ⟨fun _ => rfl, fun h => absurd ⟨w, fun _ => ⟨hL.1, fun k => by cases k⟩⟩ h⟩
        | fusion =>
          rw [from_fusion u w odom hp' hL _ hs]
          constructor
          · intro h
            rw [(colours_iff f _).1 ((h.2 (by simp)).2 rfl).2]
            simp [firstMap]
          · intro h
            rw [(colours_iff f _).2 (fun k => h ⟨w, fun _ => ⟨hL.1, fun _ => ⟨hL.2 rfl, k⟩⟩⟩)]
            exact ⟨_, rfl⟩
      · obtain ⟨e, he⟩ := from_fails u w mapping odom hp' hL x xs (fun h => hs h x List.mem_cons_self)
        rw [he]
        refine ⟨fun h => absurd ⟨(h.2 (by simp)).1, fun k => ((h.2 (by simp)).2 k).1⟩ hL, fun _ => ⟨e, rfl⟩⟩
  · obtain ⟨e, he⟩ := part_fails w mapping none s
    rw [he]
    exact ⟨fun h => absurd h.1 w, fun _ => ⟨e, rfl⟩⟩
end Verif.Dtype
