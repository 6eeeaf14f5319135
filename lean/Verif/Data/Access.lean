import Verif.Data.ItemSets
/-!
**C103**: using a dataset object over time.  Which tensors `dataset[idx]` creates and which it hands out again, negative and out-of-range indices, and
`for item in dataset` (Python iterates over objects with `__getitem__` and without `__iter__` by calling `dataset[0]`, `dataset[1]`, … until
IndexError; `torch.utils.data.Dataset` has no `__iter__`).

The values are those of `Item.lean`; what is added is where they live.
-/
namespace Verif.Data

section
variable {α : Type} [Field α]

/-- `l[i]` for a Python list. -/
def pyAt {β : Type} (l : List β) (i : Int) : Except Err β :=
  let k := if i < 0 then i + l.length else i
  if k < 0 then .error .indexError else match l[k.toNat]? with
    | none => .error .indexError
    | some x => .ok x

/-- One entry of the tuple as it is put there: the dataset's own intrinsics tensor, or a value just made. -/
inductive Slot (α : Type)
  | shared
  | fresh (v : Out α)

/-- The entries of the tuple as values, when the dataset's intrinsics tensor holds `k`. -/
def Slot.val (k : Out α) : Slot α → Out α
  | .shared => k
  | .fresh v => v

/-- Continue unless an exception was raised. -/
def andThen {β γ : Type} (x : Except Err β) (f : β → Except Err γ) : Except Err γ :=
  match x with
  | .error e => .error e
  | .ok l => f l

/-- Common part of the three `__getitem__`s, tum.py:385-426, icl.py:423-464, scannet.py:229-283, with the entry `K` appended for the intrinsics:
images and poses are results of `torch.stack`, hence new tensors; TUM and ICL append `self.intrinsics` itself (tum.py:410-412, icl.py:448-450). -/
def itemSlots {P : Type} (R : Resize α) (o : Opts) (n : Nat) (scale : α) (inv : M4 α → M4 α) (readC readD : P → Tensor α)
    (cpaths dpaths : List P) (K : Slot α) (poses : Except Err (List (M4 α))) (name : List Char) : Except Err (List (Slot α)) :=
  andThen (imageSeq n cpaths fun p => colorOne R o (readC p)) fun color =>
  andThen (appendIf o.depth (mapOk (fun d => .fresh (.tensor d)) (imageSeq n dpaths fun p => depthOne R o scale (readD p))) [.fresh (.tensor color)]) fun out =>
  andThen (appendIf o.intrinsics (.ok K) out) fun out =>
  andThen (if o.pose || o.transform then poses else .ok []) fun ps =>
  andThen (appendIf o.pose (mapOk (fun x => .fresh (.mats x)) (poseOut inv ps)) out) fun out =>
  andThen (appendIf o.transform (mapOk (fun x => .fresh (.mats x)) (stackM (posesToTransforms inv ps))) out) fun out =>
  appendIf o.names (.ok (.fresh (.text name))) out

/-- `TUM.__getitem__`, tum.py:352-434. -/
def tumGet {P Q : Type} (R : Resize α) (o : Opts) (n : Nat) (inv : M4 α → M4 α) (hom : Q → M4 α) (readC readD : P → Tensor α)
    (items : List (TumItem P Q)) (idx : Int) : Except Err (List (Slot α)) :=
  andThen (pyAt items idx) fun it =>
  andThen (itemSlots R o n 5000 inv readC readD it.color it.depth .shared (.ok (it.poses.map hom)) it.name) fun out =>
  appendIf o.extra (.ok (.fresh (.text (stampText it.stamps)))) out

/-- `ICL.__getitem__`, icl.py:393-466. -/
def iclGet {P τ : Type} (R : Resize α) (o : Opts) (n : Nat) (inv : M4 α → M4 α) (bottom : List τ) (mat : List (List τ) → M4 α)
    (readC readD : P → Tensor α) (items : List (IclItem P τ)) (idx : Int) : Except Err (List (Slot α)) :=
  andThen (pyAt items idx) fun it =>
  itemSlots R o n 5000 inv readC readD it.color it.depth .shared (mapOk (List.map mat) (loadPoses bottom it.poseFile it.poseLines)) it.name

/-- `Scannet.__getitem__`, scannet.py:195-287: the intrinsics are read from their file every time (:263-267). -/
def scanGet {P : Type} (R : Resize α) (o : Opts) (n : Nat) (inv : M4 α → M4 α) (readM : P → M4 α) (readC readD : P → Tensor α)
    (readL : P → Tensor Nat) (items : List (ScanItem P)) (idx : Int) : Except Err (List (Slot α)) :=
  andThen (pyAt items idx) fun it =>
  andThen (itemSlots R o n 1000 inv readC readD it.color it.depth
      (.fresh (.mats [scaleIntrinsics4 (readM it.intrinsics) (o.height / 480) (o.width / 640)]))
      (mapOk (List.map readM) (gather it.pose (List.range n))) it.name) fun out =>
  appendIf o.extra (mapOk (fun x => .fresh (.labels x)) (imageSeq n it.label fun p => labelOne R o (readL p))) out

/-! ### The values are those of `Item.lean` -/

omit [Field α] in
theorem appendIf_val {flag : Bool} {value : Except Err (Slot α)} {out : List (Slot α)} (k : Out α) :
    mapOk (List.map (Slot.val k)) (appendIf flag value out) = appendIf flag (mapOk (Slot.val k) value) (out.map (Slot.val k)) := by
  unfold appendIf
  cases flag <;> cases value <;> simp [mapOk]

omit [Field α] in
theorem entry_val {β : Type} (f : β → Out α) (x : Except Err β) (k : Out α) : mapOk (Slot.val k) (mapOk (fun y => Slot.fresh (f y)) x) = entry f x := by
  cases x <;> rfl

omit [Field α] in
/-- Continuing after a step. -/
theorem bind_val (k : Out α) {x : Except Err (List (Slot α))} {y : Except Err (List (Out α))} (hxy : mapOk (List.map (Slot.val k)) x = y)
    {f : List (Slot α) → Except Err (List (Slot α))} {g : List (Out α) → Except Err (List (Out α))}
    (hf : ∀ l, mapOk (List.map (Slot.val k)) (f l) = g (l.map (Slot.val k))) : mapOk (List.map (Slot.val k)) (andThen x f) = andThen y g := by
  subst hxy
  cases x with
  | error e => rfl
  | ok l => exact hf l

omit [Field α] in
theorem append_val {β : Type} {flag : Bool} (f : β → Out α) {value : Except Err β} {out : List (Slot α)} (k : Out α) :
    mapOk (List.map (Slot.val k)) (appendIf flag (mapOk (fun y => Slot.fresh (f y)) value) out) = appendIf flag (entry f value) (out.map (Slot.val k)) := by
  rw [appendIf_val, entry_val]

theorem itemSlots_val {P : Type} {R : Resize α} {o : Opts} {n : Nat} {scale : α} {inv : M4 α → M4 α} {readC readD : P → Tensor α}
    {cpaths dpaths : List P} {S : Slot α} {K : M4 α} {k : Out α} (hK : S.val k = .mats [K]) {poses : Except Err (List (M4 α))} {name : List Char} :
    mapOk (List.map (Slot.val k)) (itemSlots R o n scale inv readC readD cpaths dpaths S poses name) =
      itemCore R o n scale inv readC readD cpaths dpaths K poses name := by
  have e : itemCore R o n scale inv readC readD cpaths dpaths K poses name =
      andThen (imageSeq n cpaths fun p => colorOne R o (readC p)) fun color =>
      andThen (appendIf o.depth (entry .tensor (imageSeq n dpaths fun p => depthOne R o scale (readD p))) [.tensor color]) fun out =>
      andThen (appendIf o.intrinsics (.ok (.mats [K])) out) fun out =>
      andThen (if o.pose || o.transform then poses else .ok []) fun ps =>
      andThen (appendIf o.pose (entry .mats (poseOut inv ps)) out) fun out =>
      andThen (appendIf o.transform (entry .mats (stackM (posesToTransforms inv ps))) out) fun out =>
      appendIf o.names (.ok (.text name)) out := by
    unfold itemCore andThen
    cases imageSeq n cpaths (fun p => colorOne R o (readC p)) with
    | error e => rfl
    | ok color =>
      simp only
      generalize appendIf o.depth _ _ = x1
      cases x1 with
      | error e => rfl
      | ok l1 =>
        simp only
        generalize appendIf o.intrinsics _ _ = x2
        cases x2 with
        | error e => rfl
        | ok l2 =>
          simp only
          generalize (if (o.pose || o.transform) = true then poses else Except.ok []) = x3
          cases x3 with
          | error e => rfl
          | ok ps =>
            simp only
            generalize appendIf o.pose _ _ = x4
            cases x4 with
            | error e => rfl
            | ok l3 =>
              simp only
              generalize appendIf o.transform _ _ = x5
              cases x5 <;> rfl
  rw [e, itemSlots]
  rcases imageSeq n cpaths (fun p => colorOne R o (readC p)) with e | color
  · rfl
  refine bind_val k (append_val Out.tensor k) fun l => ?_
  refine bind_val k (by rw [appendIf_val, ← hK]; rfl) fun l => ?_
  rcases (if o.pose || o.transform then poses else .ok []) with e | ps
  · rfl
  refine bind_val k (append_val Out.mats k) fun l => ?_
  refine bind_val k (append_val Out.mats k) fun l => ?_
  rw [appendIf_val]; rfl

theorem pyAt_nat {β : Type} (l : List β) (k : Nat) : pyAt l k = match l[k]? with | none => .error .indexError | some x => .ok x := by
  unfold pyAt
  simp only [Int.not_lt.2 (Int.natCast_nonneg k), if_false, Int.toNat_natCast]

/-- **Negative indices count from the end**; indices `≥ len` or `< -len` raise IndexError. -/
theorem pyAt_neg {β : Type} (l : List β) (k : Nat) : (k < l.length → pyAt l (-(k + 1 : Nat)) = pyAt l ((l.length - 1 - k : Nat) : Int)) ∧
    (l.length ≤ k → pyAt l (-(k + 1 : Nat)) = .error .indexError ∧ pyAt l (k : Nat) = .error .indexError) := by
  constructor
  · intro h
    rw [pyAt_nat]
    unfold pyAt
    have e : (-((k + 1 : Nat) : Int)) + l.length = ((l.length - 1 - k : Nat) : Int) := by omega
    have n : -((k + 1 : Nat) : Int) < 0 := by omega
    simp only [n, if_true, e, Int.not_lt.2 (Int.natCast_nonneg _), if_false, Int.toNat_natCast]
  · intro h
    rw [pyAt_nat, List.getElem?_eq_none h]
    refine ⟨?_, rfl⟩
    unfold pyAt
    have n : -((k + 1 : Nat) : Int) < 0 := by omega
    have n2 : -((k + 1 : Nat) : Int) + l.length < 0 := by omega
    simp only [n, if_true, n2]

section
variable {P Q τ : Type} {R : Resize α} {o : Opts} {n : Nat} {inv : M4 α → M4 α} {hom : Q → M4 α} {bottom : List τ} {mat : List (List τ) → M4 α}
  {readM : P → M4 α} {readC readD : P → Tensor α} {readL : P → Tensor Nat}

theorem tumGet_val (items : List (TumItem P Q)) (idx : Nat) :
    mapOk (List.map (Slot.val (.mats [tumK o]))) (tumGet R o n inv hom readC readD items idx) = tumGetItem R o n inv hom readC readD items idx := by
  unfold tumGet tumGetItem
  rw [pyAt_nat]
  rcases items[idx]? with _ | it
  · rfl
  simp only [andThen]
  rw [← itemSlots_val (K := tumK o) (S := .shared) (k := .mats [tumK o]) rfl]
  rcases itemSlots R o n 5000 inv readC readD it.color it.depth .shared (.ok (it.poses.map hom)) it.name with _ | l
  · rfl
  exact appendIf_val _

theorem iclGet_val (items : List (IclItem P τ)) (idx : Nat) :
    mapOk (List.map (Slot.val (.mats [iclK o]))) (iclGet R o n inv bottom mat readC readD items idx) = iclGetItem R o n inv bottom mat readC readD items idx := by
  unfold iclGet iclGetItem
  rw [pyAt_nat]
  rcases items[idx]? with _ | it
  · rfl
  exact itemSlots_val (K := iclK o) (S := .shared) rfl

theorem scanGet_val (items : List (ScanItem P)) (idx : Nat) (k : Out α) :
    mapOk (List.map (Slot.val k)) (scanGet R o n inv readM readC readD readL items idx) = scanGetItem R o n inv readM readC readD readL items idx := by
  unfold scanGet scanGetItem
  rw [pyAt_nat]
  rcases items[idx]? with _ | it
  · rfl
  simp only [andThen]
  rw [← itemSlots_val (S := .fresh (.mats [scaleIntrinsics4 (readM it.intrinsics) (o.height / 480) (o.width / 640)])) (k := k) rfl]
  rcases itemSlots R o n 1000 inv readC readD it.color it.depth
      (.fresh (.mats [scaleIntrinsics4 (readM it.intrinsics) (o.height / 480) (o.width / 640)]))
      (mapOk (List.map readM) (gather it.pose (List.range n))) it.name with _ | l
  · rfl
  exact append_val Out.labels k
end

/-! ### Which entry is shared -/

/-- Position of the intrinsics in the tuple. -/
def kPos (o : Opts) : Nat := if o.depth then 2 else 1

/-- The tuple shares an entry at position `p` only. -/
def OnlyAt (p : Nat) (l : List (Slot α)) : Prop := ∀ q : Nat, l[q]? = some .shared → q = p

omit [Field α] in
theorem onlyAt_append {p : Nat} {flag : Bool} {value : Except Err (Slot α)} {out l : List (Slot α)} (h : appendIf flag value out = .ok l) (ho : OnlyAt p out)
    (hv : flag = true → value = .ok .shared → out.length = p) : OnlyAt p l := by
  unfold appendIf at h
  cases flag with
  | false => simp only [Bool.false_eq_true, if_false, Except.ok.injEq] at h; rwa [← h]
  | true =>
    simp only [if_true] at h
    cases value with
    | error e => cases h
    | ok v =>
      simp only [Except.ok.injEq] at h
      subst h
      intro q hq
      rcases Nat.lt_trichotomy q out.length with k | k | k
      · rw [List.getElem?_append_left k] at hq; exact ho q hq
      · subst k
        simp only [List.getElem?_concat_length, Option.some.injEq] at hq
        exact hv rfl (by rw [hq])
      · rw [List.getElem?_eq_none (by simp; omega)] at hq; cases hq

omit [Field α] in
theorem fresh_ne {β : Type} (f : β → Out α) (x : Except Err β) : mapOk (fun y => Slot.fresh (f y)) x ≠ .ok .shared := by
  cases x <;> simp [mapOk]

omit [Field α] in
theorem ok_of_bind {β γ : Type} {x : Except Err β} {f : β → Except Err γ} {z : γ} (h : andThen x f = .ok z) :
    ∃ y, x = .ok y ∧ f y = .ok z := by
  cases x with
  | error e => cases h
  | ok l => exact ⟨l, rfl, h⟩

omit [Field α] in
theorem appendIf_length {flag : Bool} {value : Except Err (Slot α)} {out l : List (Slot α)} (h : appendIf flag value out = .ok l) :
    l.length = out.length + if flag then 1 else 0 := by
  unfold appendIf at h
  cases flag with
  | false => simp only [Bool.false_eq_true, if_false, Except.ok.injEq] at h; rw [← h]; simp
  | true => cases value with
    | error e => cases h
    | ok v => simp only [if_true, Except.ok.injEq] at h; rw [← h]; simp

theorem itemSlots_only {P : Type} {R : Resize α} {o : Opts} {n : Nat} {scale : α} {inv : M4 α → M4 α} {readC readD : P → Tensor α}
    {cpaths dpaths : List P} {S : Slot α} {poses : Except Err (List (M4 α))} {name : List Char} {l : List (Slot α)}
    (h : itemSlots R o n scale inv readC readD cpaths dpaths S poses name = .ok l) :
    OnlyAt (kPos o) l ∧ (S ≠ .shared → ∀ x ∈ l, x ≠ .shared) ∧ (o.intrinsics = true → l[kPos o]? = some S) ∧ (o.intrinsics = false → ∀ x ∈ l, x ≠ .shared) := by
  unfold itemSlots at h
  obtain ⟨color, -, h⟩ := ok_of_bind h
  obtain ⟨l1, h1, h⟩ := ok_of_bind h
  obtain ⟨l2, h2, h⟩ := ok_of_bind h
  obtain ⟨ps, -, h⟩ := ok_of_bind h
  obtain ⟨l3, h3, h⟩ := ok_of_bind h
  obtain ⟨l4, h4, h⟩ := ok_of_bind h
  have len1 : l1.length = kPos o := by
    rw [appendIf_length h1, kPos]; split <;> rfl
  have only : ∀ {p : Nat}, (o.intrinsics = true → S = .shared → p = kPos o) → OnlyAt p l := by
    intro p hp
    have o1 : OnlyAt p l1 := onlyAt_append h1 (fun q hq => by
      rcases q with _ | q
      · simp at hq
      · simp at hq) fun _ k => absurd k (fresh_ne _ _)
    have o2 : OnlyAt p l2 := onlyAt_append h2 o1 fun f k => by
      simp only [Except.ok.injEq] at k; rw [len1, hp f k]
    have o3 := onlyAt_append h3 o2 fun _ k => absurd k (fresh_ne _ _)
    have o4 := onlyAt_append h4 o3 fun _ k => absurd k (fresh_ne _ _)
    exact onlyAt_append h o4 fun _ k => by simp at k
  have none : (o.intrinsics = true → S ≠ .shared) → ∀ x ∈ l, x ≠ .shared := by
    rintro hp x hx rfl
    obtain ⟨q, hq⟩ := List.mem_iff_getElem?.1 hx
    have a := only (p := q + 1) (fun f k => absurd k (hp f)) q hq
    omega
  refine ⟨only fun _ _ => rfl, fun hS => none fun _ => hS, fun hi => ?_, fun hi => none fun f => by rw [hi] at f; cases f⟩
  have pre : ∀ {flag : Bool} {value : Except Err (Slot α)} {out l : List (Slot α)}, appendIf flag value out = .ok l → out[kPos o]? = some S → l[kPos o]? = some S := by
    intro flag value out l h k
    unfold appendIf at h
    cases flag with
    | false => simp only [Bool.false_eq_true, if_false, Except.ok.injEq] at h; rwa [← h]
    | true => cases value with
      | error e => cases h
      | ok v =>
        simp only [if_true, Except.ok.injEq] at h
        rw [← h, List.getElem?_append_left (List.getElem?_eq_some_iff.1 k).1, k]
  refine pre h (pre h4 (pre h3 ?_))
  rw [hi] at h2
  simp only [appendIf, if_true, Except.ok.injEq] at h2
  rw [← h2, ← len1, List.getElem?_concat_length]
end
end Verif.Data
