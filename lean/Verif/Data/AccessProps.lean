import Verif.Data.AccessMem
/-!
**C103**: theorems about programs that use TUM, ICL and Scannet datasets.
-/
namespace Verif.Data

section
variable {α : Type}

/-- Only entry `q` of an item may be the dataset's own tensor. -/
def SharesAt (q : Nat) (get : Int → Except Err (List (Slot α))) : Prop := ∀ idx l, get idx = .ok l → OnlyAt q l

/-- Nothing handed out is the dataset's own. -/
def SharesNothing (get : Int → Except Err (List (Slot α))) : Prop := ∀ idx l, get idx = .ok l → ∀ x ∈ l, x ≠ Slot.shared

theorem shelf_only {get : Int → Except Err (List (Slot α))} {G : List (Slot α) → Prop} (hget : ∀ idx l, get idx = .ok l → G l)
    (hset : ∀ l p x v, G l → l[p]? = some (.fresh x) → G (l.set p (.fresh v))) (us : List (Use α)) :
    ∀ {s : Shelf α}, (∀ l ∈ s.items, G l) → ∀ l ∈ (s.run get us).items, G l := by
  induction us with
  | nil => exact fun h => h
  | cons u us ih =>
    intro s h
    refine ih ?_
    cases u with
    | get idx =>
      simp only [Shelf.step]
      cases hg : get idx with
      | error e => exact h
      | ok l =>
        intro l' hl'
        rcases List.mem_append.1 hl' with k | k
        · exact h l' k
        · rw [List.mem_singleton.1 k]; exact hget idx l hg
    | write j p v =>
      simp only [Shelf.step]
      cases hj : s.items[j]? with
      | none => exact h
      | some it =>
        simp only
        cases hp : it[p]? with
        | none => exact h
        | some x =>
          cases x with
          | shared =>
            simp only
            split <;> exact h
          | fresh x =>
            simp only
            split
            · exact h
            · intro l hl
              rcases List.mem_or_eq_of_mem_set hl with k | k
              · exact h l k
              · rw [k]; exact hset it p x v (h it (List.mem_of_getElem? hj)) hp

theorem only_set {q p : Nat} {l : List (Slot α)} {v : Out α} (h : OnlyAt q l) : OnlyAt q (l.set p (.fresh v)) := by
  intro k hk
  rw [List.getElem?_set] at hk
  split at hk
  · split at hk
    · cases hk
    · cases hk
  · exact h k hk

theorem shared_kept {q p : Nat} {l : List (Slot α)} {x v : Out α} (h : l[q]? = some .shared) (hp : l[p]? = some (.fresh x)) :
    (l.set p (.fresh v))[q]? = some .shared := by
  rw [List.getElem?_set_ne]
  · exact h
  · rintro rfl
    rw [h] at hp; cases hp

/-- The shared tensor keeps its contents when nobody writes to entry `q` of an item. -/
theorem shelf_K {get : Int → Except Err (List (Slot α))} {q : Nat} (hq : SharesAt q get) (us : List (Use α)) :
    ∀ {s : Shelf α}, (∀ l ∈ s.items, OnlyAt q l) → (∀ j v, Use.write j q v ∉ us) → (s.run get us).K = s.K := by
  induction us with
  | nil => exact fun _ _ => rfl
  | cons u us ih =>
    intro s h hw
    have hw' : ∀ j v, Use.write j q v ∉ us := fun j v k => hw j v (List.mem_cons_of_mem _ k)
    have hi : ∀ l ∈ (s.step get u).items, OnlyAt q l := shelf_only (us := [u]) hq (fun _ _ _ _ h _ => only_set h) h
    show ((s.step get u).run get us).K = s.K
    rw [ih hi hw']
    cases u with
    | get idx => simp only [Shelf.step]; cases get idx <;> rfl
    | write j p v =>
      simp only [Shelf.step]
      cases hj : s.items[j]? with
      | none => rfl
      | some it =>
        simp only
        cases hp : it[p]? with
        | none => rfl
        | some x =>
          cases x with
          | shared =>
            have e := h it (List.mem_of_getElem? hj) p hp
            subst e
            exact absurd List.mem_cons_self (hw j v)
          | fresh x => simp only; split <;> rfl

theorem shelf_tensor {get : Int → Except Err (List (Slot α))} (us : List (Use α)) :
    ∀ {s : Shelf α}, s.K.isText = false → (s.run get us).K.isText = false := by
  induction us with
  | nil => exact fun h => h
  | cons u us ih =>
    intro s h
    refine ih ?_
    cases u with
    | get idx => simp only [Shelf.step]; cases get idx <;> exact h
    | write j p v =>
      simp only [Shelf.step]
      cases hj : s.items[j]? with
      | none => exact h
      | some it =>
        simp only
        cases hp : it[p]? with
        | none => exact h
        | some x =>
          cases x with
          | shared =>
            simp only
            split
            · exact h
            · rename_i k
              simp only [Bool.or_eq_true, not_or, Bool.not_eq_true] at k
              exact k.2
          | fresh x => simp only; split <;> exact h

theorem store_append (get : Int → Except Err (List (Slot α))) (w : Store α) (us vs : List (Use α)) : w.run get (us ++ vs) = (w.run get us).run get vs :=
  List.foldl_append

theorem shelf_append (get : Int → Except Err (List (Slot α))) (s : Shelf α) (us vs : List (Use α)) : s.run get (us ++ vs) = (s.run get us).run get vs :=
  List.foldl_append

/-- Writing to entry `p` of item `j` and looking at entry `p'` of item `j'`, in the specification. -/
theorem shelf_write_other {s : Shelf α} {get : Int → Except Err (List (Slot α))} {q j p j' p' : Nat} {v : Out α} (h : ∀ l ∈ s.items, OnlyAt q l)
    (hne : ¬ (j = j' ∧ p = p')) (hq : ¬ (p = q ∧ p' = q)) : (s.step get (.write j p v)).see j' p' = s.see j' p' := by
  simp only [Shelf.step]
  cases hj : s.items[j]? with
  | none => rfl
  | some it =>
    simp only
    cases hp : it[p]? with
    | none => rfl
    | some x =>
      cases x with
      | shared =>
        have e := h it (List.mem_of_getElem? hj) p hp
        subst e
        simp only
        split
        · rfl
        · simp only [Shelf.see]
          cases hj' : s.items[j']? with
          | none => rfl
          | some it' =>
            simp only
            cases hp' : it'[p']? with
            | none => rfl
            | some x' =>
              cases x' with
              | shared => exact absurd ⟨rfl, h it' (List.mem_of_getElem? hj') p' hp'⟩ hq
              | fresh v => rfl
      | fresh x =>
        simp only
        split
        · rfl
        · simp only [Shelf.see]
          by_cases hjj : j = j'
          · subst hjj
            have hpp : p ≠ p' := fun k => hne ⟨rfl, k⟩
            rw [List.getElem?_set_self (List.getElem?_eq_some_iff.1 hj).1, hj]
            simp only [List.getElem?_set_ne hpp]
          · rw [List.getElem?_set_ne hjj]

/-- A write that is not refused does what it says. -/
theorem shelf_write_self {s : Shelf α} {get : Int → Except Err (List (Slot α))} {j p : Nat} {v x : Out α} (h : s.see j p = some x) (hx : x.isText = false)
    (hv : v.isText = false) : (s.step get (.write j p v)).see j p = some v := by
  simp only [Shelf.see] at h
  simp only [Shelf.step]
  cases hj : s.items[j]? with
  | none => rw [hj] at h; cases h
  | some it =>
    simp only [hj] at h ⊢
    cases hp : it[p]? with
    | none => rw [hp] at h; cases h
    | some y =>
      simp only [hp, Option.some.injEq] at h ⊢
      cases y with
      | shared =>
        simp only [Slot.val] at h
        simp only [h, hx, hv, Bool.or_self, Bool.false_eq_true, if_false, Shelf.see, hj, hp, Slot.val]
      | fresh y =>
        simp only [Slot.val] at h
        subst h
        simp only [hx, hv, Bool.or_self, Bool.false_eq_true, if_false, Shelf.see, List.getElem?_set_self (List.getElem?_eq_some_iff.1 hj).1,
          List.getElem?_set_self (List.getElem?_eq_some_iff.1 hp).1, Slot.val]

theorem shelf_get_keeps {s : Shelf α} {get : Int → Except Err (List (Slot α))} {j p : Nat} {idx : Int} {x : Out α} (h : s.see j p = some x) :
    (s.step get (.get idx)).see j p = some x := by
  simp only [Shelf.step]
  cases get idx with
  | error e => exact h
  | ok l =>
    simp only [Shelf.see] at h ⊢
    cases hj : s.items[j]? with
    | none => rw [hj] at h; cases h
    | some it =>
      rw [List.getElem?_append_left (List.getElem?_eq_some_iff.1 hj).1, hj]
      simpa only [hj] using h

theorem new_see (get : Int → Except Err (List (Slot α))) (K : Out α) (us : List (Use α)) (j p : Nat) :
    ((Store.new K).run get us).see j p = (Shelf.run get ⟨K, []⟩ us).see j p := (uses_refine get K us).1 j p

/-! ### What a program can rely on: any of the three datasets -/

/-- **Asking for items never changes the items one already has**, whatever has been done before. -/
theorem get_keeps (get : Int → Except Err (List (Slot α))) (K : Out α) (us : List (Use α)) (idx : Int) {j p : Nat} {x : Out α}
    (h : ((Store.new K).run get us).see j p = some x) : ((Store.new K).run get (us ++ [.get idx])).see j p = some x := by
  rw [new_see] at h ⊢
  rw [shelf_append]
  exact shelf_get_keeps h

/-- **Writing to an entry** that is a tensor changes that entry. -/
theorem write_self (get : Int → Except Err (List (Slot α))) (K : Out α) (us : List (Use α)) {j p : Nat} {x v : Out α}
    (h : ((Store.new K).run get us).see j p = some x) (hx : x.isText = false) (hv : v.isText = false) :
    ((Store.new K).run get (us ++ [.write j p v])).see j p = some v := by
  rw [new_see] at h ⊢
  rw [shelf_append]
  exact shelf_write_self (get := get) h hx hv

/-- **Writing to an entry changes no other entry**, except that intrinsics may be the same tensor. -/
theorem write_other (get : Int → Except Err (List (Slot α))) {q : Nat} (hq : SharesAt q get) (K : Out α) (us : List (Use α)) {j p j' p' : Nat} (v : Out α)
    (hne : ¬ (j = j' ∧ p = p')) (hk : ¬ (p = q ∧ p' = q)) :
    ((Store.new K).run get (us ++ [.write j p v])).see j' p' = ((Store.new K).run get us).see j' p' := by
  rw [new_see, new_see, shelf_append]
  exact shelf_write_other (get := get) (shelf_only hq (fun _ _ _ _ h _ => only_set h) us (fun l hl => by cases hl)) hne hk

theorem ask_unaffected (get : Int → Except Err (List (Slot α))) {q : Nat} (hq : SharesAt q get) (K : Out α) (us : List (Use α)) (hw : ∀ j v, Use.write j q v ∉ us)
    (idx : Int) : ((Store.new K).run get us).ask get idx = mapOk (List.map some) (mapOk (List.map (Slot.val K)) (get idx)) := by
  rw [(uses_refine get K us).2 idx, shelf_K hq us (fun l hl => by cases hl) hw]
  cases get idx with
  | error e => rfl
  | ok l => simp [mapOk]

theorem ask_alone (get : Int → Except Err (List (Slot α))) (hq : SharesNothing get) (K : Out α) (us : List (Use α))
    (idx : Int) : ((Store.new K).run get us).ask get idx = mapOk (List.map some) (mapOk (List.map (Slot.val K)) (get idx)) := by
  rw [(uses_refine get K us).2 idx]
  cases h : get idx with
  | error e => rfl
  | ok l =>
    simp only [mapOk, List.map_map, Except.ok.injEq]
    refine List.map_congr_left fun x hx => ?_
    cases x with
    | shared => exact absurd rfl (hq idx l h _ hx)
    | fresh v => rfl

/-- The intrinsics tensor is one: a write through one item shows in all items, had before or asked for later. -/
theorem leak (get : Int → Except Err (List (Slot α))) {q : Nat} (hq : ∀ idx l, get idx = .ok l → l[q]? = some .shared) (K : Out α) (hK : K.isText = false)
    (us : List (Use α)) {j : Nat} {v x : Out α} (hv : v.isText = false) (hj : ((Store.new K).run get us).see j q = some x) :
    (∀ j' x', ((Store.new K).run get us).see j' q = some x' → ((Store.new K).run get (us ++ [.write j q v])).see j' q = some v) ∧
    ∀ idx l, ((Store.new K).run get (us ++ [.write j q v])).ask get idx = .ok l → l[q]? = some (some v) := by
  have hs := shelf_only (G := fun l => l[q]? = some Slot.shared) hq (fun _ _ _ _ h hp => shared_kept h hp) us (s := ⟨K, []⟩) (fun l hl => by cases hl)
  have hK' := shelf_tensor (get := get) us (s := ⟨K, []⟩) hK
  have new : (Shelf.run get ⟨K, []⟩ (us ++ [.write j q v])).K = v := by
    rw [new_see] at hj
    rw [shelf_append]
    generalize Shelf.run get ⟨K, []⟩ us = s at hs hK' hj
    simp only [Shelf.see] at hj
    simp only [Shelf.run, List.foldl_cons, List.foldl_nil, Shelf.step]
    cases hi : s.items[j]? with
    | none => rw [hi] at hj; cases hj
    | some it => simp only [hs it (List.mem_of_getElem? hi), hK', hv, Bool.or_self, Bool.false_eq_true, if_false]
  have hs' := shelf_only (G := fun l => l[q]? = some Slot.shared) hq (fun _ _ _ _ h hp => shared_kept h hp) (us ++ [.write j q v]) (s := ⟨K, []⟩)
    (fun l hl => by cases hl)
  have hlen : ∀ j' : Nat, (Shelf.run get ⟨K, []⟩ us).items[j']? ≠ none → (Shelf.run get ⟨K, []⟩ (us ++ [.write j q v])).items[j']? ≠ none := by
    intro j' h
    have : (Shelf.run get ⟨K, []⟩ (us ++ [.write j q v])).items.length = (Shelf.run get ⟨K, []⟩ us).items.length := by
      rw [shelf_append]
      generalize Shelf.run get ⟨K, []⟩ us = s
      simp only [Shelf.run, List.foldl_cons, List.foldl_nil, Shelf.step]
      split
      · rfl
      · split
        · rfl
        · split <;> rfl
        · split
          · rfl
          · simp
    rw [ne_eq, List.getElem?_eq_none_iff] at h ⊢
    omega
  refine ⟨fun j' x' h => ?_, fun idx l h => ?_⟩
  · rw [new_see] at h ⊢
    have h1 : (Shelf.run get ⟨K, []⟩ us).items[j']? ≠ none := by
      intro k
      simp only [Shelf.see, k] at h
      cases h
    obtain ⟨it, hit⟩ := Option.ne_none_iff_exists'.1 (hlen j' h1)
    simp only [Shelf.see, hit, hs' it (List.mem_of_getElem? hit), Slot.val, new]
  · rw [(uses_refine get K _).2 idx] at h
    cases hg : get idx with
    | error e => rw [hg] at h; cases h
    | ok l0 =>
      rw [hg, new] at h
      simp only [mapOk, Except.ok.injEq] at h
      subst h
      simp [hq idx l0 hg, Slot.val]
end

/-! ### The three datasets -/

section
variable {α : Type} [Field α] {P Q τ : Type} {R : Resize α} {o : Opts} {n : Nat} {inv : M4 α → M4 α} {hom : Q → M4 α} {bottom : List τ}
  {mat : List (List τ) → M4 α} {readM : P → M4 α} {readC readD : P → Tensor α} {readL : P → Tensor Nat}
  {titems : List (TumItem P Q)} {iitems : List (IclItem P τ)} {sitems : List (ScanItem P)}

theorem onlyAt_text {p : Nat} {flag : Bool} {β : Type} {f : β → Out α} {x : Except Err β} {out l : List (Slot α)}
    (h : appendIf flag (mapOk (fun y => Slot.fresh (f y)) x) out = .ok l) (ho : OnlyAt p out) : OnlyAt p l :=
  onlyAt_append h ho fun _ k => absurd k (fresh_ne _ _)

theorem append_get {flag : Bool} {value : Except Err (Slot α)} {out l : List (Slot α)} (h : appendIf flag value out = .ok l) {p : Nat} {x : Slot α}
    (hp : out[p]? = some x) : l[p]? = some x := by
  unfold appendIf at h
  cases flag with
  | false => simp only [Bool.false_eq_true, if_false, Except.ok.injEq] at h; rwa [← h]
  | true => cases value with
    | error e => cases h
    | ok v =>
      simp only [if_true, Except.ok.injEq] at h
      rw [← h, List.getElem?_append_left (List.getElem?_eq_some_iff.1 hp).1, hp]

theorem tum_shares : SharesAt (kPos o) (tumGet R o n inv hom readC readD titems) := by
  intro idx l h
  unfold tumGet at h
  obtain ⟨it, -, h⟩ := ok_of_bind h
  obtain ⟨l', h1, h⟩ := ok_of_bind h
  exact onlyAt_append h (itemSlots_only h1).1 fun _ k => by simp at k

theorem tum_shared (hi : o.intrinsics = true) (idx : Int) (l : List (Slot α)) (h : tumGet R o n inv hom readC readD titems idx = .ok l) :
    l[kPos o]? = some .shared := by
  unfold tumGet at h
  obtain ⟨it, -, h⟩ := ok_of_bind h
  obtain ⟨l', h1, h⟩ := ok_of_bind h
  exact append_get h ((itemSlots_only h1).2.2.1 hi)

theorem icl_shares : SharesAt (kPos o) (iclGet R o n inv bottom mat readC readD iitems) := by
  intro idx l h
  unfold iclGet at h
  obtain ⟨it, -, h⟩ := ok_of_bind h
  exact (itemSlots_only h).1

theorem icl_shared (hi : o.intrinsics = true) (idx : Int) (l : List (Slot α)) (h : iclGet R o n inv bottom mat readC readD iitems idx = .ok l) :
    l[kPos o]? = some .shared := by
  unfold iclGet at h
  obtain ⟨it, -, h⟩ := ok_of_bind h
  exact (itemSlots_only h).2.2.1 hi

theorem scan_shares : SharesNothing (scanGet R o n inv readM readC readD readL sitems) := by
  intro idx l h
  unfold scanGet at h
  obtain ⟨it, -, h⟩ := ok_of_bind h
  obtain ⟨l', h1, h⟩ := ok_of_bind h
  have a := (itemSlots_only h1).2.1 (by simp)
  have b : OnlyAt (l.length + 1) l := onlyAt_append h (fun q hq => absurd rfl (a _ (List.mem_of_getElem? hq))) fun _ k => absurd k (fresh_ne _ _)
  rintro x hx rfl
  obtain ⟨q, hq⟩ := List.mem_iff_getElem?.1 hx
  have := (List.getElem?_eq_some_iff.1 hq).1
  have := b q hq
  omega

/-- **C103, TUM, repeatability.**  Whatever a program has done with the dataset and with the items it got – as long as it has not written into an
intrinsics tensor – `dataset[idx]` returns exactly what it returned when the dataset was new. -/
theorem tum_repeatable (us : List (Use α)) (hw : ∀ j v, Use.write j (kPos o) v ∉ us) (idx : Nat) :
    ((Store.new (.mats [tumK o])).run (tumGet R o n inv hom readC readD titems) us).ask (tumGet R o n inv hom readC readD titems) idx =
      mapOk (List.map some) (tumGetItem R o n inv hom readC readD titems idx) := by
  rw [ask_unaffected _ tum_shares _ _ hw, tumGet_val]

/-- **C103, ICL, repeatability.** -/
theorem icl_repeatable (us : List (Use α)) (hw : ∀ j v, Use.write j (kPos o) v ∉ us) (idx : Nat) :
    ((Store.new (.mats [iclK o])).run (iclGet R o n inv bottom mat readC readD iitems) us).ask (iclGet R o n inv bottom mat readC readD iitems) idx =
      mapOk (List.map some) (iclGetItem R o n inv bottom mat readC readD iitems idx) := by
  rw [ask_unaffected _ icl_shares _ _ hw, iclGet_val]

/-- **C103, Scannet, repeatability**: unconditional. -/
theorem scannet_repeatable (K : Out α) (us : List (Use α)) (idx : Nat) :
    ((Store.new K).run (scanGet R o n inv readM readC readD readL sitems) us).ask (scanGet R o n inv readM readC readD readL sitems) idx =
      mapOk (List.map some) (scanGetItem R o n inv readM readC readD readL sitems idx) := by
  rw [ask_alone _ scan_shares, scanGet_val]

/-- **C103, TUM: the intrinsics of all items are one tensor.**  Overwriting the intrinsics of one item overwrites them in every item already there
and in every item asked for later (tum.py:410-412 hands out `self.intrinsics` itself). -/
theorem tum_intrinsics_leak (hi : o.intrinsics = true) (us : List (Use α)) {j : Nat} {v x : Out α} (hv : v.isText = false)
    (hj : ((Store.new (.mats [tumK o])).run (tumGet R o n inv hom readC readD titems) us).see j (kPos o) = some x) :
    (∀ j' x', ((Store.new (.mats [tumK o])).run (tumGet R o n inv hom readC readD titems) us).see j' (kPos o) = some x' →
      ((Store.new (.mats [tumK o])).run (tumGet R o n inv hom readC readD titems) (us ++ [.write j (kPos o) v])).see j' (kPos o) = some v) ∧
    ∀ idx l, ((Store.new (.mats [tumK o])).run (tumGet R o n inv hom readC readD titems) (us ++ [.write j (kPos o) v])).ask
      (tumGet R o n inv hom readC readD titems) idx = .ok l → l[kPos o]? = some (some v) :=
  leak _ (tum_shared hi) _ rfl us hv hj

/-- **C103, ICL: the intrinsics of all items are one tensor** (icl.py:448-450). -/
theorem icl_intrinsics_leak (hi : o.intrinsics = true) (us : List (Use α)) {j : Nat} {v x : Out α} (hv : v.isText = false)
    (hj : ((Store.new (.mats [iclK o])).run (iclGet R o n inv bottom mat readC readD iitems) us).see j (kPos o) = some x) :
    (∀ j' x', ((Store.new (.mats [iclK o])).run (iclGet R o n inv bottom mat readC readD iitems) us).see j' (kPos o) = some x' →
      ((Store.new (.mats [iclK o])).run (iclGet R o n inv bottom mat readC readD iitems) (us ++ [.write j (kPos o) v])).see j' (kPos o) = some v) ∧
    ∀ idx l, ((Store.new (.mats [iclK o])).run (iclGet R o n inv bottom mat readC readD iitems) (us ++ [.write j (kPos o) v])).ask
      (iclGet R o n inv bottom mat readC readD iitems) idx = .ok l → l[kPos o]? = some (some v) :=
  leak _ (icl_shared hi) _ rfl us hv hj

/-- **C103, isolation.**  In TUM and ICL, writing to one entry changes no entry of any item other than that one, except that intrinsics and
intrinsics are the same tensor; in Scannet, no other entry at all. -/
theorem dataset_isolated (K : Out α) (us : List (Use α)) {j p j' p' : Nat} (v : Out α) (hne : ¬ (j = j' ∧ p = p')) :
    (¬ (p = kPos o ∧ p' = kPos o) → ((Store.new K).run (tumGet R o n inv hom readC readD titems) (us ++ [.write j p v])).see j' p' =
      ((Store.new K).run (tumGet R o n inv hom readC readD titems) us).see j' p') ∧
    (¬ (p = kPos o ∧ p' = kPos o) → ((Store.new K).run (iclGet R o n inv bottom mat readC readD iitems) (us ++ [.write j p v])).see j' p' =
      ((Store.new K).run (iclGet R o n inv bottom mat readC readD iitems) us).see j' p') ∧
    ((Store.new K).run (scanGet R o n inv readM readC readD readL sitems) (us ++ [.write j p v])).see j' p' =
      ((Store.new K).run (scanGet R o n inv readM readC readD readL sitems) us).see j' p' := by
  refine ⟨fun h => write_other _ tum_shares K us v hne h, fun h => write_other _ icl_shares K us v hne h, ?_⟩
  refine write_other (q := p + 1) _ (fun idx l h q hq => absurd rfl (scan_shares idx l h _ (List.mem_of_getElem? hq))) K us v hne (by omega)

/-- **C103, negative indices**: `dataset[-k]` is `dataset[len - k]`, and every index outside `-len … len-1` raises IndexError. -/
theorem dataset_indices (k : Nat) :
    (k < titems.length → tumGet R o n inv hom readC readD titems (-(k + 1 : Nat)) = tumGet R o n inv hom readC readD titems ((titems.length - 1 - k : Nat) : Int)) ∧
    (titems.length ≤ k → tumGet R o n inv hom readC readD titems (-(k + 1 : Nat)) = .error .indexError ∧ tumGet R o n inv hom readC readD titems (k : Nat) = .error .indexError) ∧
    (k < iitems.length → iclGet R o n inv bottom mat readC readD iitems (-(k + 1 : Nat)) = iclGet R o n inv bottom mat readC readD iitems ((iitems.length - 1 - k : Nat) : Int)) ∧
    (iitems.length ≤ k → iclGet R o n inv bottom mat readC readD iitems (-(k + 1 : Nat)) = .error .indexError ∧ iclGet R o n inv bottom mat readC readD iitems (k : Nat) = .error .indexError) ∧
    (k < sitems.length → scanGet R o n inv readM readC readD readL sitems (-(k + 1 : Nat)) = scanGet R o n inv readM readC readD readL sitems ((sitems.length - 1 - k : Nat) : Int)) ∧
    (sitems.length ≤ k → scanGet R o n inv readM readC readD readL sitems (-(k + 1 : Nat)) = .error .indexError ∧ scanGet R o n inv readM readC readD readL sitems (k : Nat) = .error .indexError) := by
  unfold tumGet iclGet scanGet
  refine ⟨fun h => ?_, fun h => ?_, fun h => ?_, fun h => ?_, fun h => ?_, fun h => ?_⟩
  · rw [(pyAt_neg titems k).1 h]
  · rw [((pyAt_neg titems k).2 h).1, ((pyAt_neg titems k).2 h).2]; exact ⟨rfl, rfl⟩
  · rw [(pyAt_neg iitems k).1 h]
  · rw [((pyAt_neg iitems k).2 h).1, ((pyAt_neg iitems k).2 h).2]; exact ⟨rfl, rfl⟩
  · rw [(pyAt_neg sitems k).1 h]
  · rw [((pyAt_neg sitems k).2 h).1, ((pyAt_neg sitems k).2 h).2]; exact ⟨rfl, rfl⟩
end
end Verif.Data
