import Verif.Data.AccessProps
import Verif.Data.ItemWitness
/-!
**C103**, `for item in dataset`, and concrete cases.
-/
namespace Verif.Data

/-- `for item in dataset` from index `k` on: the items the loop body sees, and how the loop ends (`none`: normally; `some e`: by an exception).
Python asks for `dataset[k]`, `dataset[k+1]`, …; IndexError is taken as the end of the data, whatever raised it. -/
inductive Loop {β : Type} (get : Int → Except Err β) : Nat → List β → Option Err → Prop
  | stop {k : Nat} : get k = .error .indexError → Loop get k [] none
  | fail {k : Nat} {e : Err} : get k = .error e → e ≠ .indexError → Loop get k [] (some e)
  | next {k : Nat} {x : β} {xs : List β} {r : Option Err} : get k = .ok x → Loop get (k + 1) xs r → Loop get k (x :: xs) r

section
variable {β : Type} {get : Int → Except Err β}

/-- The loop is deterministic. -/
theorem loop_det {k : Nat} {xs : List β} {r : Option Err} (h : Loop get k xs r) : ∀ {ys : List β} {r' : Option Err}, Loop get k ys r' → xs = ys ∧ r = r' := by
  induction h with
  | stop h =>
    intro ys r' h'
    cases h' with
    | stop _ => exact ⟨rfl, rfl⟩
    | fail g n => rw [h] at g; cases g; exact absurd rfl n
    | next g _ => rw [h] at g; cases g
  | fail h n =>
    intro ys r' h'
    cases h' with
    | stop g => rw [h] at g; cases g; exact absurd rfl n
    | fail g _ => rw [h] at g; cases g; exact ⟨rfl, rfl⟩
    | next g _ => rw [h] at g; cases g
  | next h _ ih =>
    intro ys r' h'
    cases h' with
    | stop g => rw [h] at g; cases g
    | fail g _ => rw [h] at g; cases g
    | next g g' =>
      rw [h] at g
      cases g
      obtain ⟨rfl, rfl⟩ := ih g'
      exact ⟨rfl, rfl⟩

/-- What the loop sees, from `k` on. -/
theorem loop_from {xs : List β} : ∀ {k : Nat}, (∀ i x, xs[i]? = some x → get ((k + i : Nat) : Int) = .ok x) → get ((k + xs.length : Nat) : Int) = .error .indexError →
    Loop get k xs none := by
  induction xs with
  | nil => intro k _ h; exact .stop (by simpa using h)
  | cons x xs ih =>
    intro k h he
    refine .next (by simpa using h 0 x rfl) (ih (fun i y hy => ?_) ?_)
    · have := h (i + 1) y (by simpa using hy)
      rwa [show k + (i + 1) = k + 1 + i by omega] at this
    · rw [List.length_cons, show k + (xs.length + 1) = k + 1 + xs.length by omega] at he
      exact he

/-- **The loop sees `dataset[0]`, `dataset[1]`, … up to the first index that raises IndexError**, and then ends without an exception. -/
theorem loop_iff {xs : List β} : Loop get 0 xs none ↔ (∀ i x, xs[i]? = some x → get (i : Nat) = .ok x) ∧ get ((xs.length : Nat) : Int) = .error .indexError := by
  constructor
  · suffices H : ∀ {k : Nat} {r : Option Err}, Loop get k xs r → r = none →
        (∀ i x, xs[i]? = some x → get ((k + i : Nat) : Int) = .ok x) ∧ get ((k + xs.length : Nat) : Int) = .error .indexError by
      intro h
      have := H h rfl
      simpa using this
    intro k r h
    induction h with
    | stop h => intro _; exact ⟨by simp, by simpa using h⟩
    | fail _ _ => intro h; cases h
    | @next k x xs r h _ ih =>
      intro hr
      obtain ⟨a, b⟩ := ih hr
      refine ⟨fun i y hy => ?_, ?_⟩
      · rcases i with _ | i
        · simp only [List.getElem?_cons_zero, Option.some.injEq] at hy
          subst hy
          simpa using h
        · have := a i y (by simpa using hy)
          rwa [show k + 1 + i = k + (i + 1) by omega] at this
      · rw [List.length_cons, show k + (xs.length + 1) = k + 1 + xs.length by omega]
        exact b
  · rintro ⟨a, b⟩
    exact loop_from (by simpa using a) (by simpa using b)
end

section
variable {α : Type} [Field α] {P Q τ : Type} {R : Resize α} {o : Opts} {n : Nat} {inv : M4 α → M4 α} {hom : Q → M4 α} {bottom : List τ}
  {mat : List (List τ) → M4 α} {readM : P → M4 α} {readC readD : P → Tensor α} {readL : P → Tensor Nat}
  {titems : List (TumItem P Q)} {iitems : List (IclItem P τ)} {sitems : List (ScanItem P)}

/-- Loop over a dataset all of whose items load. -/
theorem loop_all {β γ : Type} {items : List γ} {f : γ → Except Err β} {get : Int → Except Err β} (hget : ∀ idx, get idx = andThen (pyAt items idx) f)
    (h : ∀ it ∈ items, ∃ x, f it = .ok x) :
    ∃ xs, Loop get 0 xs none ∧ xs.length = items.length ∧ ∀ (i : Nat) (x : β), xs[i]? = some x → get (i : Nat) = .ok x := by
  have H : ∀ l : List γ, (∀ it ∈ l, ∃ x, f it = .ok x) → ∃ xs : List β, xs.length = l.length ∧ ∀ (i : Nat) (it : γ) (x : β), l[i]? = some it → xs[i]? = some x → f it = .ok x := by
    intro l
    induction l with
    | nil => intro _; exact ⟨[], rfl, by simp⟩
    | cons a l ih =>
      intro hl
      obtain ⟨xs, e, hxs⟩ := ih fun it hit => hl it (List.mem_cons_of_mem _ hit)
      obtain ⟨x, hx⟩ := hl a List.mem_cons_self
      refine ⟨x :: xs, by simp [e], fun i it y hi hy => ?_⟩
      rcases i with _ | i
      · simp only [List.getElem?_cons_zero, Option.some.injEq] at hi hy
        subst hi hy; exact hx
      · exact hxs i it y (by simpa using hi) (by simpa using hy)
  obtain ⟨xs, e, hxs⟩ := H items h
  have hg : ∀ (i : Nat) (x : β), xs[i]? = some x → get (i : Nat) = .ok x := by
    intro i x hx
    have hi := (List.getElem?_eq_some_iff.1 hx).1
    rw [hget, pyAt_nat, List.getElem?_eq_getElem (e ▸ hi)]
    exact hxs i _ x (List.getElem?_eq_getElem (e ▸ hi)) hx
  refine ⟨xs, loop_iff.2 ⟨hg, ?_⟩, e, hg⟩
  rw [hget, pyAt_nat, e, List.getElem?_eq_none (Nat.le_refl _)]
  rfl

/-- **C103, TUM: looping over a dataset all of whose items load sees each item once, in order**, `len(dataset)` items in all. -/
theorem tum_loop (h : ∀ idx < titems.length, ∃ l, tumGet R o n inv hom readC readD titems (idx : Nat) = .ok l) :
    ∃ xs, Loop (tumGet R o n inv hom readC readD titems) 0 xs none ∧ xs.length = titems.length ∧
      ∀ (i : Nat) x, xs[i]? = some x → tumGet R o n inv hom readC readD titems (i : Nat) = .ok x := by
  refine loop_all (fun idx => rfl) fun it hit => ?_
  obtain ⟨i, hi⟩ := List.mem_iff_getElem?.1 hit
  obtain ⟨l, hl⟩ := h i (List.getElem?_eq_some_iff.1 hi).1
  unfold tumGet at hl
  rw [pyAt_nat, hi] at hl
  exact ⟨l, hl⟩

/-- **C103, ICL: looping over a dataset all of whose items load.** -/
theorem icl_loop (h : ∀ idx < iitems.length, ∃ l, iclGet R o n inv bottom mat readC readD iitems (idx : Nat) = .ok l) :
    ∃ xs, Loop (iclGet R o n inv bottom mat readC readD iitems) 0 xs none ∧ xs.length = iitems.length ∧
      ∀ (i : Nat) x, xs[i]? = some x → iclGet R o n inv bottom mat readC readD iitems (i : Nat) = .ok x := by
  refine loop_all (fun idx => rfl) fun it hit => ?_
  obtain ⟨i, hi⟩ := List.mem_iff_getElem?.1 hit
  obtain ⟨l, hl⟩ := h i (List.getElem?_eq_some_iff.1 hi).1
  unfold iclGet at hl
  rw [pyAt_nat, hi] at hl
  exact ⟨l, hl⟩

/-- A Scannet item with fewer than `seqlen` colour frames cannot be loaded: IndexError. -/
theorem scan_short {i : Nat} {it : ScanItem P} (hi : sitems[i]? = some it) (hs : it.color.length < n) :
    scanGet R o n inv readM readC readD readL sitems (i : Nat) = .error .indexError := by
  unfold scanGet
  rw [pyAt_nat, hi]
  have e : imageSeq n it.color (fun p => colorOne R o (readC p)) = .error .indexError := by
    unfold imageSeq
    rw [gather_range_error _ _ hs]
  simp only [andThen, itemSlots, e]

/-- **C103, Scannet: a loop ends silently at the first scene that is too short.**  If scene `i` has fewer frames than `dataset.seqlen` and the scenes
before it load, `for item in dataset` sees exactly those `i` items and ends without an exception, though `len(dataset)` says more: the scenes
after it are never seen. -/
theorem scannet_loop_cut {i : Nat} {it : ScanItem P} (hi : sitems[i]? = some it) (hs : it.color.length < n)
    (hb : ∀ j < i, ∃ l, scanGet R o n inv readM readC readD readL sitems (j : Nat) = .ok l) {xs : List (List (Slot α))} {r : Option Err}
    (hl : Loop (scanGet R o n inv readM readC readD readL sitems) 0 xs r) : r = none ∧ xs.length = i ∧ i < sitems.length := by
  have H : ∀ k ≤ i, ∃ ys : List (List (Slot α)), ys.length = k ∧ ∀ (j : Nat) x, ys[j]? = some x → scanGet R o n inv readM readC readD readL sitems (j : Nat) = .ok x := by
    intro k
    induction k with
    | zero => intro _; exact ⟨[], rfl, by simp⟩
    | succ k ih =>
      intro hk
      obtain ⟨ys, e, hy⟩ := ih (by omega)
      obtain ⟨l, hl⟩ := hb k (by omega)
      refine ⟨ys ++ [l], by simp [e], fun j x hj => ?_⟩
      rcases Nat.lt_trichotomy j ys.length with q | q | q
      · rw [List.getElem?_append_left q] at hj; exact hy j x hj
      · subst q
        simp only [List.getElem?_concat_length, Option.some.injEq] at hj
        subst hj; rw [e]; exact hl
      · rw [List.getElem?_eq_none (by simp; omega)] at hj; cases hj
  obtain ⟨ys, e, hy⟩ := H i (Nat.le_refl _)
  have k : Loop (scanGet R o n inv readM readC readD readL sitems) 0 ys none := loop_iff.2 ⟨hy, by rw [e]; exact scan_short hi hs⟩
  obtain ⟨rfl, rfl⟩ := loop_det hl k
  exact ⟨rfl, e, (List.getElem?_eq_some_iff.1 hi).1⟩

/-- **C103, Scannet, full-sequence mode (`end = -1`)**, at the level of frames: `dataset.seqlen` is the length of the *last* scene, so a loop over
the dataset ends silently before the first scene that is shorter than the last one, and sees all scenes only if there is none. -/
theorem scannet_full_loop {β : Type} (start : Nat) (scenes : List (List β)) (last : List β) (s : Scan β)
    (hok : scanInit start (-1) scenes = .ok s) (hlast : scenes.getLast? = some last) {xs : List (List β)} {r : Option Err}
    (hl : Loop (fun idx => andThen (pyAt s.files idx) fun fs => gather fs (List.range s.seqlen.toNat)) 0 xs r) :
    r = none ∧ (∀ (i : Nat) (l : List β), i < xs.length → scenes[i]? = some l → last.length ≤ l.length) ∧
    (xs.length < scenes.length → ∃ l, scenes[xs.length]? = some l ∧ l.length < last.length) ∧ xs.length ≤ scenes.length ∧
    ∀ (i : Nat) (l : List β), i < xs.length → scenes[i]? = some l → xs[i]? = some ((l.drop start).take (last.length - start)) := by
  have get : ∀ i : Nat, andThen (pyAt s.files (i : Nat)) (fun fs => gather fs (List.range s.seqlen.toNat)) = scanItem s i := by
    intro i
    rw [pyAt_nat]
    unfold scanItem
    cases s.files[i]? <;> rfl
  have full := scannet_full_sequence start scenes last s hok hlast
  have len : s.files.length = scenes.length := by
    simp only [scanInit, show ¬ ((start : Int) < 0) by omega, if_false] at hok
    simp only [true_or, not_true_eq_false, if_false, decide_true] at hok
    obtain ⟨-, b, -⟩ := scanLoop_full _ _ _ _ _ hok
    rw [b]; simp
  have ok : ∀ (i : Nat) (x : List β), scanItem s i = .ok x → ∃ l, scenes[i]? = some l ∧ last.length ≤ l.length ∧ x = (l.drop start).take (last.length - start) := by
    intro i x h
    cases hi : scenes[i]? with
    | none =>
      rw [List.getElem?_eq_none_iff, ← len, ← List.getElem?_eq_none_iff] at hi
      simp only [scanItem, hi] at h
      cases h
    | some l =>
      rw [full i l hi] at h
      split at h
      · cases h; exact ⟨l, rfl, by assumption, rfl⟩
      · cases h
  have err : ∀ (i : Nat) (e : Err), scanItem s i = .error e → e = .indexError ∧ (i < scenes.length → ∃ l, scenes[i]? = some l ∧ l.length < last.length) := by
    intro i e h
    cases hi : scenes[i]? with
    | none =>
      have hi' := hi
      rw [List.getElem?_eq_none_iff, ← len, ← List.getElem?_eq_none_iff] at hi
      simp only [scanItem, hi] at h
      cases h
      rw [List.getElem?_eq_none_iff] at hi'
      exact ⟨rfl, fun k => by omega⟩
    | some l =>
      rw [full i l hi] at h
      split at h
      · cases h
      · cases h; exact ⟨rfl, fun _ => ⟨l, rfl, by omega⟩⟩
  have norm : r = none := by
    generalize 0 = z at hl
    induction hl with
    | stop _ => rfl
    | fail h n =>
      have h : _ = _ := h
      rw [get] at h
      exact absurd (err _ _ h).1 n
    | next _ _ ih => exact ih
  subst norm
  obtain ⟨a, b⟩ := loop_iff.1 hl
  have b : andThen (pyAt s.files (xs.length : Nat)) (fun fs => gather fs (List.range s.seqlen.toNat)) = .error .indexError := b
  rw [get] at b
  have a : ∀ (i : Nat) x, xs[i]? = some x → scanItem s i = .ok x := fun i x hx => by rw [← get]; exact a i x hx
  refine ⟨rfl, fun i l hi hsl => ?_, (err _ _ b).2, ?_, fun i l hi hsl => ?_⟩
  · obtain ⟨l', e1, e2, -⟩ := ok i _ (a i _ (List.getElem?_eq_getElem hi))
    rw [hsl] at e1; cases e1; exact e2
  · by_contra hc
    have hi : scenes.length < xs.length := by omega
    obtain ⟨l', e1, -⟩ := ok _ _ (a _ _ (List.getElem?_eq_getElem hi))
    rw [List.getElem?_eq_none (Nat.le_refl _)] at e1; cases e1
  · obtain ⟨l', e1, -, e3⟩ := ok i _ (a i _ (List.getElem?_eq_getElem hi))
    rw [hsl] at e1; cases e1
    rw [List.getElem?_eq_getElem hi, e3]
end

/-! ### Concrete cases -/

/-- Three scenes of 5, 3 and 4 frames, full-sequence mode: `len(dataset)` is 3, a loop sees only the first scene (cut to 4 frames). -/
theorem scannet_loop_case : ∃ s : Scan Nat, scanInit 0 (-1) [[0, 1, 2, 3, 4], [5, 6, 7], [8, 9, 10, 11]] = .ok s ∧ s.files.length = 3 ∧
    Loop (fun idx => andThen (pyAt s.files idx) fun fs => gather fs (List.range s.seqlen.toNat)) 0 [[0, 1, 2, 3]] none := by
  refine ⟨⟨4, [[0, 1, 2, 3, 4], [5, 6, 7], [8, 9, 10, 11]]⟩, by decide, rfl, .next (by decide) (.stop (by decide))⟩

/-- 1×1 images, only colour, depth and intrinsics. -/
def accOpts : Opts := ⟨1, 1, false, false, true, true, false, false, false, false, false⟩

def accTum : List (TumItem Nat (M4 ℚ)) := [⟨[0], [0], [M4.one], ['a'], []⟩, ⟨[1], [1], [M4.one], ['b'], []⟩]

/-- A TUM dataset of two items; a program gets both, overwrites the intrinsics of the second, and finds the first and a third changed, and their
depths not. -/
theorem tum_uses_case :
    let get := tumGet (nnResize ℚ) accOpts 1 id id (wC (α := ℚ)) (wD (α := ℚ)) accTum
    let us : List (Use ℚ) := [.get 0, .get (-1), .get 7]
    let w := (Store.new (.mats [tumK accOpts])).run get us
    w.items.length = 2 ∧ w.see 0 2 = some (.mats [tumK accOpts]) ∧ w.see 1 2 = some (.mats [tumK accOpts]) ∧
    (((Store.new (.mats [tumK accOpts])).run get (us ++ [.write 1 2 (.mats [M4.one]), .get 0])).see 0 2 = some (.mats [M4.one])) ∧
    (((Store.new (.mats [tumK accOpts])).run get (us ++ [.write 1 2 (.mats [M4.one]), .get 0])).see 2 2 = some (.mats [M4.one])) ∧
    (((Store.new (.mats [tumK accOpts])).run get (us ++ [.write 1 2 (.mats [M4.one])])).see 0 1 = w.see 0 1) ∧ w.see 0 1 ≠ none :=
  ⟨rfl, rfl, rfl, rfl, rfl, rfl, fun h => by cases h⟩

end Verif.Data
