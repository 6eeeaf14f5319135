import Verif.Nan.Model
import Mathlib.Data.List.Basic
import Mathlib.Tactic.Linarith
/-! **C101**: how far a bad depth value spreads in vertex maps, normal maps and maps. -/
namespace Verif.Nan
open Verif

variable {α : Type*} (A : Ar α)

/-- The two frames differ at most in the depth of the pixel `(h, w)`. -/
def Same (f g : Fr α) (h w : Nat) : Prop :=
  g = { f with depth := g.depth } ∧ ∀ h' w', (h', w') ≠ (h, w) → g.depth h' w' = f.depth h' w'

/-- The pixel itself, its left and upper neighbour, and, next to the right or lower border, the border pixel right of it or below it. -/
def Near (H W h w h' w' : Nat) : Prop :=
  (h' = h ∧ w' = w) ∨ (h' = h ∧ (w' + 1 = w ∨ w' = w + 1 ∧ w + 2 = W)) ∨ (w' = w ∧ (h' + 1 = h ∨ h' = h + 1 ∧ h + 2 = H))

instance (H W h w h' w' : Nat) : Decidable (Near H W h w h' w') := by unfold Near; infer_instance

variable {f g : Fr α} {h w h' w' : Nat}

theorem valid_local (s : Same f g h w) (hn : (h', w') ≠ (h, w)) : valid A g h' w' = valid A f h' w' := by
  rw [valid, valid, s.2 h' w' hn]

/-- **C101**, any arithmetic: the vertex at a pixel depends on no other pixel's depth. -/
theorem vertex_local (s : Same f g h w) (hn : (h', w') ≠ (h, w)) : vertex A g h' w' = vertex A f h' w' := by
  have e := s.2 h' w' hn
  have v := valid_local A s hn
  rw [vertex, vertex, v, e]
  rw [s.1]

theorem gvertex_local (s : Same f g h w) (hn : (h', w') ≠ (h, w)) : gvertex A g h' w' = gvertex A f h' w' := by
  rw [gvertex, gvertex, vertex_local A s hn, valid_local A s hn]
  rw [s.1]

/-- **C101**, any arithmetic: the normal at a pixel depends on the depth of the pixel, its right and its lower neighbour (at the last row and
column: of the one before), and on nothing else. -/
theorem normal_local (s : Same f g h w) (hH : h' < f.H) (hW : w' < f.W) (hn : ¬ Near f.H f.W h w h' w') :
    normal A g h' w' = normal A f h' w' := by
  have eH : g.H = f.H := by rw [s.1]
  have eW : g.W = f.W := by rw [s.1]
  unfold Near at hn
  have k0 : (h', w') ≠ (h, w) := by
    rintro e; exact hn (.inl ⟨congrArg Prod.fst e, congrArg Prod.snd e⟩)
  have ne : ∀ {a b : Nat}, ¬ (a = h ∧ b = w) → (a, b) ≠ (h, w) := fun k e => k ⟨congrArg Prod.fst e, congrArg Prod.snd e⟩
  have k1 : (h', fwdIx f.W w' + 1) ≠ (h, w) := ne (by unfold fwdIx; split <;> omega)
  have k2 : (h', fwdIx f.W w') ≠ (h, w) := ne (by unfold fwdIx; split <;> omega)
  have k3 : (fwdIx f.H h' + 1, w') ≠ (h, w) := ne (by unfold fwdIx; split <;> omega)
  have k4 : (fwdIx f.H h', w') ≠ (h, w) := ne (by unfold fwdIx; split <;> omega)
  have d1 : dhoriz A g h' w' = dhoriz A f h' w' := by rw [dhoriz, dhoriz, eW, vertex_local A s k1, vertex_local A s k2]
  have d2 : dverti A g h' w' = dverti A f h' w' := by rw [dverti, dverti, eH, vertex_local A s k3, vertex_local A s k4]
  rw [normal, normal, d1, d2, valid_local A s k0]

theorem gnormal_local (s : Same f g h w) (hH : h' < f.H) (hW : w' < f.W) (hn : ¬ Near f.H f.W h w h' w') :
    gnormal A g h' w' = gnormal A f h' w' := by
  rw [gnormal, gnormal, normal_local A s hH hW hn]
  rw [s.1]

/-- **C101**, any arithmetic: if the depth of a pixel does not count as valid in either frame (NaN, zero, negative), the two frames give the same
map points, one for one: no point for that pixel, the same positions, colours and confidences for all others; and the same normals, except
at the neighbours named by `Near`. -/
theorem cloud_local (al : V3 α → α) (s : Same f g h w) (hf : valid A f h w = false) (hg : valid A g h w = false) :
    ∃ xs : List (Nat × Nat), (∀ x, x ∈ xs ↔ x.1 < f.H ∧ x.2 < f.W ∧ valid A f x.1 x.2 = true) ∧ (h, w) ∉ xs ∧
      cloud A al f = xs.map (measured A al f) ∧ cloud A al g = xs.map (measured A al g) ∧
      ∀ x ∈ xs, (measured A al g x).p = (measured A al f x).p ∧ (measured A al g x).c = (measured A al f x).c ∧
        (measured A al g x).cc = (measured A al f x).cc ∧ (¬ Near f.H f.W h w x.1 x.2 → measured A al g x = measured A al f x) := by
  have ev : ∀ x : Nat × Nat, valid A g x.1 x.2 = valid A f x.1 x.2 := by
    intro x
    by_cases e : (x.1, x.2) = (h, w)
    · obtain ⟨rfl, rfl⟩ := Prod.mk.inj e
      rw [hf, hg]
    · exact valid_local A s e
  have ep : pixels g = pixels f := by rw [pixels, pixels, s.1]
  have mem : ∀ x : Nat × Nat, x ∈ pixels f ↔ x.1 < f.H ∧ x.2 < f.W := by
    rintro ⟨a, b⟩
    simp only [pixels, List.mem_flatMap, List.mem_map, List.mem_range, Prod.mk.injEq]
    constructor
    · rintro ⟨h, h1, w, h2, rfl, rfl⟩; exact ⟨h1, h2⟩
    · rintro ⟨h1, h2⟩; exact ⟨a, h1, b, h2, rfl, rfl⟩
  refine ⟨(pixels f).filter fun x => valid A f x.1 x.2, ?_, ?_, rfl, ?_, ?_⟩
  · intro x
    rw [List.mem_filter, mem, and_assoc]
  · intro k
    rw [List.mem_filter] at k
    simp [hf] at k
  · rw [cloud, ep]
    congr 1
    exact List.filter_congr fun x _ => ev x
  · intro x hx
    rw [List.mem_filter, mem] at hx
    have hx0 : (x.1, x.2) ≠ (h, w) := by
      intro e
      obtain ⟨rfl, rfl⟩ := Prod.mk.inj e
      rw [hf] at hx; exact absurd hx.2 (by simp)
    have p : (measured A al g x).p = (measured A al f x).p := gvertex_local A s hx0
    have c : (measured A al g x).c = (measured A al f x).c := by show g.rgb _ _ = f.rgb _ _; rw [s.1]
    have cc : (measured A al g x).cc = (measured A al f x).cc := congrArg al (vertex_local A s hx0)
    exact ⟨p, c, cc, fun hn => Pt.ext p (gnormal_local A s hx.1.1 hx.1.2 hn) c cc⟩

/-! ### NaN -/
variable {nan : α → Prop}

/-- Some component, every component is NaN. -/
def Some3 (nan : α → Prop) (v : V3 α) : Prop := nan v.x ∨ nan v.y ∨ nan v.z
def All3 (nan : α → Prop) (v : V3 α) : Prop := nan v.x ∧ nan v.y ∧ nan v.z

theorem All3.some {v : V3 α} (h : All3 nan v) : Some3 nan v := .inl h.1

variable {A} (S : Strict A nan)
include S

theorem dot_nan {a b : V3 α} (h : Some3 nan a ∨ Some3 nan b) : nan (dot A a b) := by
  refine S.sum _ ?_
  rcases h with (h | h | h) | (h | h | h)
  · exact ⟨_, List.mem_cons_self, S.mul _ _ (.inl h)⟩
  · exact ⟨_, List.mem_cons_of_mem _ List.mem_cons_self, S.mul _ _ (.inl h)⟩
  · exact ⟨_, List.mem_cons_of_mem _ (List.mem_cons_of_mem _ List.mem_cons_self), S.mul _ _ (.inl h)⟩
  · exact ⟨_, List.mem_cons_self, S.mul _ _ (.inr h)⟩
  · exact ⟨_, List.mem_cons_of_mem _ List.mem_cons_self, S.mul _ _ (.inr h)⟩
  · exact ⟨_, List.mem_cons_of_mem _ (List.mem_cons_of_mem _ List.mem_cons_self), S.mul _ _ (.inr h)⟩

theorem mulVec_nan {M : M3 α} {v : V3 α} (h : Some3 nan v) : All3 nan (mulVec A M v) :=
  ⟨dot_nan S (.inr h), dot_nan S (.inr h), dot_nan S (.inr h)⟩

theorem vadd_nan {a b : V3 α} (h : All3 nan a ∨ All3 nan b) : All3 nan (vadd A a b) := by
  rcases h with ⟨x, y, z⟩ | ⟨x, y, z⟩
  · exact ⟨S.add _ _ (.inl x), S.add _ _ (.inl y), S.add _ _ (.inl z)⟩
  · exact ⟨S.add _ _ (.inr x), S.add _ _ (.inr y), S.add _ _ (.inr z)⟩

theorem vsub_nan {a b : V3 α} (h : All3 nan a ∨ All3 nan b) : All3 nan (vsub A a b) := by
  rcases h with ⟨x, y, z⟩ | ⟨x, y, z⟩
  · exact ⟨S.sub _ _ (.inl x), S.sub _ _ (.inl y), S.sub _ _ (.inl z)⟩
  · exact ⟨S.sub _ _ (.inr x), S.sub _ _ (.inr y), S.sub _ _ (.inr z)⟩

theorem vmul_nan {a : V3 α} {c : α} (h : All3 nan a ∨ nan c) : All3 nan (vmul A a c) := by
  rcases h with ⟨x, y, z⟩ | h
  · exact ⟨S.mul _ _ (.inl x), S.mul _ _ (.inl y), S.mul _ _ (.inl z)⟩
  · exact ⟨S.mul _ _ (.inr h), S.mul _ _ (.inr h), S.mul _ _ (.inr h)⟩

theorem vsm_nan {a : V3 α} {c : α} (h : All3 nan a ∨ nan c) : All3 nan (vsm A c a) := by
  rcases h with ⟨x, y, z⟩ | h
  · exact ⟨S.mul _ _ (.inr x), S.mul _ _ (.inr y), S.mul _ _ (.inr z)⟩
  · exact ⟨S.mul _ _ (.inl h), S.mul _ _ (.inl h), S.mul _ _ (.inl h)⟩

theorem cross_nan {a b : V3 α} (h : All3 nan a ∨ All3 nan b) : All3 nan (cross A a b) := by
  rcases h with ⟨x, y, z⟩ | ⟨x, y, z⟩
  · exact ⟨S.sub _ _ (.inl (S.mul _ _ (.inl y))), S.sub _ _ (.inl (S.mul _ _ (.inl z))), S.sub _ _ (.inl (S.mul _ _ (.inl x)))⟩
  · exact ⟨S.sub _ _ (.inl (S.mul _ _ (.inr z))), S.sub _ _ (.inl (S.mul _ _ (.inr x))), S.sub _ _ (.inl (S.mul _ _ (.inr y)))⟩

/-- **C101**: a NaN depth counts as missing, but the vertices of the pixel are NaN, not zero. -/
theorem nan_vertex (h : nan (f.depth h' w')) :
    valid A f h' w' = false ∧ All3 nan (vertex A f h' w') ∧ All3 nan (gvertex A f h' w') := by
  have v : All3 nan (vertex A f h' w') := vmul_nan S (.inl (vmul_nan S (.inr h)))
  refine ⟨S.lt _ _ (.inr h), v, ?_⟩
  unfold gvertex
  split
  · exact v
  · exact vmul_nan S (.inl (vadd_nan S (.inl (mulVec_nan S v.some))))

omit S in
theorem near_ix {H W : Nat} (h0 : h < H) (w0 : w < W) (hH : h' < H) (hW : w' < W) (h2 : 2 ≤ H) (w2 : 2 ≤ W) (hn : Near H W h w h' w') :
    (h' = h ∧ (fwdIx W w' + 1 = w ∨ fwdIx W w' = w)) ∨ (w' = w ∧ (fwdIx H h' + 1 = h ∨ fwdIx H h' = h)) := by
  unfold Near at hn
  unfold fwdIx
  split_ifs <;> omega

/-- **C101**: the normals of the pixel and of the neighbours named by `Near` become NaN, although those neighbours have valid depth. -/
theorem nan_normal (hd : nan (f.depth h w)) (h0 : h < f.H) (w0 : w < f.W) (hH : h' < f.H) (hW : w' < f.W) (h2 : 2 ≤ f.H) (w2 : 2 ≤ f.W) (hn : Near f.H f.W h w h' w') :
    All3 nan (normal A f h' w') ∧ All3 nan (gnormal A f h' w') := by
  have v := (nan_vertex S hd).2.1
  have key : All3 nan (dhoriz A f h' w') ∨ All3 nan (dverti A f h' w') := by
    unfold dhoriz dverti
    have c : (h' = h ∧ (fwdIx f.W w' + 1 = w ∨ fwdIx f.W w' = w)) ∨ (w' = w ∧ (fwdIx f.H h' + 1 = h ∨ fwdIx f.H h' = h)) := by
      exact near_ix h0 w0 hH hW h2 w2 hn
    rcases c with ⟨rfl, e | e⟩ | ⟨rfl, e | e⟩
    · left; rw [e]; exact vsub_nan S (.inl v)
    · left; rw [e]; exact vsub_nan S (.inr v)
    · right; rw [e]; exact vsub_nan S (.inl v)
    · right; rw [e]; exact vsub_nan S (.inr v)
  have n : All3 nan (normal A f h' w') := by
    refine vmul_nan S (.inl ?_)
    obtain ⟨x, y, z⟩ := cross_nan S key
    exact ⟨S.div _ _ (.inl x), S.div _ _ (.inl y), S.div _ _ (.inl z)⟩
  refine ⟨n, ?_⟩
  unfold gnormal
  split
  · exact n
  · exact mulVec_nan S n.some

/-! ### Fusion -/

theorem active_nan {Rc : M3 α} {tc : V3 α} {proj : V3 α → Option (Nat × Nat)} {p : V3 α} (h : Some3 nan p) : active A Rc tc proj p = none := by
  have : nan (vadd A (mulVec A Rc p) tc).z := S.add _ _ (.inl (mulVec_nan S h).2.2)
  rw [active]
  simp only [S.lt _ _ (.inr this)]
  rfl

theorem similar_nan {dth nth : α} {m : Pt α} {x : Nat × Nat} (h : Some3 nan m.p ∨ Some3 nan m.n ∨ Some3 nan (gvertex A f x.1 x.2) ∨
    Some3 nan (gnormal A f x.1 x.2)) : similar A f dth nth m x = false := by
  have d : (Some3 nan (gvertex A f x.1 x.2) ∨ Some3 nan m.p) → A.lt (A.norm (vsub A (gvertex A f x.1 x.2) m.p)) dth = false := by
    intro h
    refine S.lt _ _ (.inl (S.norm _ ?_))
    rcases h with (h | h | h) | (h | h | h)
    · exact .inl (S.sub _ _ (.inl h))
    · exact .inr (.inl (S.sub _ _ (.inl h)))
    · exact .inr (.inr (S.sub _ _ (.inl h)))
    · exact .inl (S.sub _ _ (.inr h))
    · exact .inr (.inl (S.sub _ _ (.inr h)))
    · exact .inr (.inr (S.sub _ _ (.inr h)))
  have n : (Some3 nan (gnormal A f x.1 x.2) ∨ Some3 nan m.n) → A.lt nth (dot A (gnormal A f x.1 x.2) m.n) = false :=
    fun h => S.lt _ _ (.inr (dot_nan S h))
  rw [similar]
  rcases h with h | h | h | h
  · rw [d (.inr h)]; rfl
  · rw [n (.inr h), Bool.and_false]
  · rw [d (.inl h)]; rfl
  · rw [n (.inl h), Bool.and_false]

omit S in
theorem filled {β : Type*} (map : List (Pt α)) (d : Pt α) (k : Nat → Pt α → β) :
    ((List.range map.length).filterMap fun i => map[i]?.map (k i)) = (List.range map.length).map fun i => k i (map.getD i d) := by
  rw [← List.filterMap_eq_map]
  refine List.filterMap_congr ?_
  intro i hi
  rw [List.mem_range] at hi
  simp [List.getElem?_eq_getElem hi, List.getD_eq_getElem?_getD]

omit S in
theorem filled_length {β : Type*} (map : List (Pt α)) (k : Nat → Pt α → β) :
    ((List.range map.length).filterMap fun i => map[i]?.map (k i)).length = map.length := by
  rcases map with _ | ⟨d, l⟩
  · rfl
  · rw [filled _ d]; simp

omit S in
theorem mem_candidates {see : V3 α → Option (Nat × Nat)} {dth nth : α} {map : List (Pt α)} {r : Nat × Nat × Nat}
    (h : r ∈ candidates A see f dth nth map) : ∃ m, map[r.1]? = some m ∧ see m.p = some r.2 ∧ similar A f dth nth m r.2 = true := by
  simp only [candidates, List.mem_filterMap, List.mem_range] at h
  obtain ⟨i, _, h⟩ := h
  cases e : map[i]? with
  | none => rw [e] at h; cases h
  | some m =>
    rw [e] at h
    simp only at h
    cases e2 : see m.p with
    | none => rw [e2] at h; cases h
    | some x =>
      rw [e2] at h
      simp only at h
      split at h
      · rename_i e3
        obtain rfl := Option.some.inj h
        exact ⟨m, e, e2, e3⟩
      · cases h

variable {al : V3 α → α} {see : V3 α → Option (Nat × Nat)} {best : List (Nat × Nat × Nat) → List (Nat × Nat × Nat)} {dth nth : α}

/-- **C101**: a map point or a measurement with a NaN in its position or normal is never matched. -/
theorem nan_never_matched (hb : Chooses best) {map : List (Pt α)} {r : Nat × Nat × Nat} (hr : r ∈ best (candidates A see f dth nth map)) :
    ∃ m, map[r.1]? = some m ∧ ¬ Some3 nan m.p ∧ ¬ Some3 nan m.n ∧ ¬ Some3 nan (gvertex A f r.2.1 r.2.2) ∧ ¬ Some3 nan (gnormal A f r.2.1 r.2.2) := by
  obtain ⟨m, h1, h2, h3⟩ := mem_candidates (hb _ _ hr)
  refine ⟨m, h1, ?_, ?_, ?_, ?_⟩ <;> intro k
  · rw [similar_nan S (.inl k)] at h3; cases h3
  · rw [similar_nan S (.inr (.inl k))] at h3; cases h3
  · rw [similar_nan S (.inr (.inr (.inl k)))] at h3; cases h3
  · rw [similar_nan S (.inr (.inr (.inr k)))] at h3; cases h3

/-- **C101**: a valid measurement with a NaN normal (or position) is appended to the map as a new point, whatever the map contains. -/
theorem nan_appended (hb : Chooses best) (map : List (Pt α)) (hH : h < f.H) (hW : w < f.W) (hv : valid A f h w = true)
    (hn : Some3 nan (gnormal A f h w) ∨ Some3 nan (gvertex A f h w)) : ∃ pre suf, fuse A al see best dth nth map f = pre ++ measured A al f (h, w) :: suf ∧
      map.length ≤ pre.length := by
  have mem : (h, w) ∈ (pixels f).filter fun x => valid A f x.1 x.2 && !(best (candidates A see f dth nth map)).any fun r => r.2 = x := by
    rw [List.mem_filter]
    refine ⟨?_, ?_⟩
    · simp only [pixels, List.mem_flatMap, List.mem_map, List.mem_range, Prod.mk.injEq]
      exact ⟨h, hH, w, hW, rfl, rfl⟩
    · rw [Bool.and_eq_true]
      refine ⟨hv, ?_⟩
      rw [Bool.not_eq_true', List.any_eq_false]
      intro r hr
      obtain ⟨m, _, _, _, k1, k2⟩ := nan_never_matched S hb hr
      simp only [decide_eq_true_eq]
      rintro e
      rw [e] at k1 k2
      exact hn.elim k2 k1
  obtain ⟨a, b, e⟩ := List.append_of_mem (List.mem_map_of_mem (f := measured A al f) mem)
  unfold fuse
  simp only [e]
  refine ⟨_ ++ a, b, (List.append_assoc _ _ _).symm, ?_⟩
  rw [List.length_append]
  split
  · omega
  · refine le_trans ?_ (Nat.le_add_right _ _)
    exact (filled_length ..).ge

omit S in
/-- Entry `i` of the map after fusion. -/
theorem fuse_get {map : List (Pt α)} {i : Nat} {m : Pt α} (hm : map[i]? = some m) :
    (fuse A al see best dth nth map f)[i]? = some m ∨ ∃ x, (fuse A al see best dth nth map f)[i]? = some (merge A al f m x) := by
  have hi : i < map.length := (List.getElem?_eq_some_iff.1 hm).1
  unfold fuse
  simp only
  split
  · left
    rw [List.getElem?_append_left hi, hm]
  · right
    refine ⟨((best (candidates A see f dth nth map)).find? fun r => r.1 = i).map fun r => r.2, ?_⟩
    rw [filled _ m (fun i m => merge A al f m (((best (candidates A see f dth nth map)).find? fun r => r.1 = i).map fun r => r.2)),
      List.getElem?_append_left (by simpa using hi)]
    rw [List.getElem?_map, List.getElem?_range hi]
    simp [List.getD_eq_getElem?_getD, hm]

omit S in
/-- The fusion itself: a map point matched with one pixel is averaged with the point measured there, the points that are not matched keep their place,
and every valid pixel that is not matched is appended, nothing else. -/
theorem fuse_matched {map : List (Pt α)} {i : Nat} {m : Pt α} {x : Nat × Nat} (hm : map[i]? = some m)
    (hx : (i, x) ∈ best (candidates A see f dth nth map)) (hu : ∀ r ∈ best (candidates A see f dth nth map), r.1 = i → r = (i, x)) :
    (fuse A al see best dth nth map f)[i]? = some (merge A al f m (some x)) ∧
    (fuse A al see best dth nth map f).drop map.length = (((pixels f).filter fun y =>
      valid A f y.1 y.2 && decide (∀ r ∈ best (candidates A see f dth nth map), r.2 ≠ y)).map (measured A al f)) := by
  have hi : i < map.length := (List.getElem?_eq_some_iff.1 hm).1
  have ne : best (candidates A see f dth nth map) ≠ [] := List.ne_nil_of_mem hx
  have fd : ((best (candidates A see f dth nth map)).find? fun r => r.1 = i) = some (i, x) := by
    rcases e : (best (candidates A see f dth nth map)).find? fun r => r.1 = i with _ | r
    · exact absurd (List.find?_eq_none.1 e _ hx) (by simp)
    · have k1 := List.mem_of_find?_eq_some e
      have k2 := List.find?_some e
      simp only [decide_eq_true_eq] at k2
      rw [e, hu r k1 k2]
  unfold fuse
  simp only [if_neg ne]
  refine ⟨?_, ?_⟩
  · rw [filled _ m (fun i m => merge A al f m (((best (candidates A see f dth nth map)).find? fun r => r.1 = i).map fun r => r.2)),
      List.getElem?_append_left (by simpa using hi), List.getElem?_map, List.getElem?_range hi]
    simp [List.getD_eq_getElem?_getD, hm, fd]
  · rw [List.drop_append_of_le_length (by rw [filled_length]), List.drop_of_length_le (by rw [filled_length]), List.nil_append]
    congr 2
    funext y
    congr 1
    rw [Bool.eq_iff_iff]
    simp

/-- **C101**: once in the map, a point with a NaN normal stays: it is at the same place of the map after every later fusion, with a NaN normal;
nothing removes or repairs it. -/
theorem nan_stays (fs : List (Fr α)) {map : List (Pt α)} {i : Nat} {m : Pt α} (hm : map[i]? = some m) (hn : All3 nan m.n) :
    ∃ m', (fs.foldl (fuse A al see best dth nth) map)[i]? = some m' ∧ All3 nan m'.n := by
  induction fs generalizing map m with
  | nil => exact ⟨m, hm, hn⟩
  | cons f fs ih =>
    rcases fuse_get (A := A) (al := al) (see := see) (best := best) (dth := dth) (nth := nth) (f := f) hm with e | ⟨x, e⟩
    · exact ih e hn
    · exact ih e (vmul_nan S (.inl (vadd_nan S (.inl (vsm_nan S (.inl hn))))))

omit S in
theorem fuse_length (map : List (Pt α)) : map.length ≤ (fuse A al see best dth nth map f).length := by
  rcases Nat.eq_zero_or_pos map.length with h | h
  · omega
  obtain ⟨m, hm⟩ : ∃ m, map[map.length - 1]? = some m := ⟨_, List.getElem?_eq_getElem (by omega)⟩
  rcases fuse_get (A := A) (al := al) (see := see) (best := best) (dth := dth) (nth := nth) (f := f) hm with e | ⟨x, e⟩
  · have := (List.getElem?_eq_some_iff.1 e).1; omega
  · have := (List.getElem?_eq_some_iff.1 e).1; omega

/-- **C101**: a static scene seen again and again.  Every frame in which some valid pixel has a NaN normal adds at least one point: `n` such frames
add at least `n` points, so the map grows without bound where a frame without NaN would have been merged. -/
theorem nan_grows (hb : Chooses best) (fs : List (Fr α)) (map : List (Pt α))
    (hf : ∀ f ∈ fs, ∃ h w, h < f.H ∧ w < f.W ∧ valid A f h w = true ∧ Some3 nan (gnormal A f h w)) :
    map.length + fs.length ≤ (fs.foldl (fuse A al see best dth nth) map).length := by
  induction fs generalizing map with
  | nil => simp
  | cons f fs ih =>
    obtain ⟨h, w, h1, h2, h3, h4⟩ := hf f List.mem_cons_self
    obtain ⟨pre, suf, e, hl⟩ := nan_appended (al := al) (see := see) (dth := dth) (nth := nth) S hb map h1 h2 h3 (.inl h4)
    have := ih (fuse A al see best dth nth map f) fun g hg => hf g (List.mem_cons_of_mem _ hg)
    have l : map.length + 1 ≤ (fuse A al see best dth nth map f).length := by rw [e]; simp; omega
    simp only [List.foldl_cons, List.length_cons]
    omega
end Verif.Nan
