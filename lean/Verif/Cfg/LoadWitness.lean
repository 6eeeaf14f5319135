import Verif.Cfg.Load
import Mathlib.Tactic.DeriveCountable
import Mathlib.Data.Countable.Basic
import Mathlib.Logic.Encodable.Basic
import Mathlib.Logic.Equiv.List
/-!
The hypotheses of C71 are met: there is a pair of functions that satisfies the contract of the YAML library, and a config that is saved and
merged into another one.
-/
namespace Verif.Cfg

deriving instance Countable for PyType
instance : Countable Char := Function.Injective.countable (f := Char.toNat) fun a b h => Char.toNat_inj.1 h
instance : Countable String := Function.Injective.countable (f := String.toList) fun _ _ h => String.toList_injective h
deriving instance Countable for Leaf
deriving instance Countable for Flags
deriving instance Countable for Tree

/-- What YAML does to a leaf: tuples come back as lists. -/
def viewW (l : Leaf) : Leaf := if l.ty = .tuple then { l with ty := .list } else l

/-- The same on a nested dictionary. -/
def viewT : Tree → Tree
  | .nil => .nil
  | .leaf k l r => .leaf k (viewW l) (viewT r)
  | .sub k kd es r => .sub k kd (viewT es) (viewT r)

theorem viewT_keys (t : Tree) : (viewT t).keys = t.keys := by
  induction t with
  | nil => rfl
  | leaf k l r ih => simp [viewT, Tree.keys, ih]
  | sub k kd es r _ ih => simp [viewT, Tree.keys, ih]

theorem viewT_distinct {t : Tree} (h : t.Distinct) : (viewT t).Distinct := by
  induction t with
  | nil => exact h
  | leaf k l r ih => exact ⟨by rw [viewT_keys]; exact h.1, ih h.2⟩
  | sub k kd es r ihe ih => exact ⟨by rw [viewT_keys]; exact h.1, ihe h.2.1, ih h.2.2⟩

/-- On values. -/
def viewV : Val → Val
  | .leaf l => .leaf (viewW l)
  | .sub kd es => .sub kd (viewT es)

theorem viewT_get (t : Tree) (k : String) : (viewT t).get k = (t.get k).map viewV := by
  induction t with
  | nil => rfl
  | leaf k' l r ih => by_cases h : k' = k <;> simp [viewT, Tree.get, h, ih, viewV]
  | sub k' kd es r _ ih => by_cases h : k' = k <;> simp [viewT, Tree.get, h, ih, viewV]

theorem viewT_named (p : List String) (v : Val) : named p (viewV v) = (named p v).map viewV := by
  induction p generalizing v with
  | nil => cases v <;> rfl
  | cons k q ih =>
    cases v with
    | leaf l => rfl
    | sub kd es =>
      simp only [viewV, named, viewT_get]
      cases es.get k with
      | none => rfl
      | some c => exact ih c

/-- The contract of the YAML library can be met. -/
theorem yaml_exists : ∃ (dumpY : Tree → String) (loadY : String → Option Parsed), YamlOk dumpY loadY viewW ∧ ∀ s, (∀ t, dumpY t ≠ s) → loadY s = none := by
  classical
  obtain ⟨f, hf⟩ := exists_injective_nat Tree
  let dumpY : Tree → String := fun t => String.ofList (List.replicate (f t) 'a')
  have inj : Function.Injective dumpY := by
    intro a b h
    have := congrArg (fun s => s.toList.length) h
    simp only [dumpY, String.toList_ofList, List.length_replicate] at this
    exact hf this
  let loadY : String → Option Parsed := fun s => if h : ∃ t, dumpY t = s then some (.dict (viewT h.choose)) else none
  refine ⟨dumpY, loadY, ⟨fun l h _ => by simp [viewW, h], fun l h => ?_, fun d hd _ => ?_⟩, fun s hs => dif_neg (by simpa using hs)⟩
  · rcases h with h | h <;> simp [viewW, h]
  · have he : ∃ t, dumpY t = dumpY d := ⟨d, rfl⟩
    have hc : he.choose = d := inj he.choose_spec
    refine ⟨viewT d, by simp only [loadY]; rw [dif_pos he, hc], viewT_distinct hd, fun p l hp => ?_, fun p hp => ?_⟩
    · rw [show Val.sub none (viewT d) = viewV (.sub none d) from rfl, viewT_named, Option.map_eq_some_iff]
      constructor
      · rintro ⟨v, h1, h2⟩
        cases v with
        | leaf l0 => cases h2; exact ⟨l0, h1, rfl⟩
        | sub _ _ => cases h2
      · rintro ⟨l0, h1, rfl⟩
        exact ⟨.leaf l0, h1, rfl⟩
    · rw [show Val.sub none (viewT d) = viewV (.sub none d) from rfl, viewT_named]
      simp only [Option.map_eq_some_iff]
      constructor
      · rintro ⟨kd, es, v, h1, h2⟩
        cases v with
        | leaf l0 => cases h2
        | sub kd' es' => exact ⟨kd', es', h1⟩
      · rintro ⟨kd, es, h1⟩
        exact ⟨kd, _, _, h1, rfl⟩

/-- The saved config: `{'A': 'y', 'B': {'T': (1,2)}}`. -/
def savedW : Tree := .leaf "A" ⟨.str, "y"⟩ (.sub "B" (some .fresh) (.leaf "T" ⟨.tuple, "1,2"⟩ .nil) .nil)
/-- The config it is merged into: `{'B': {'T': (3,), 'X': 1}, 'A': 'x'}`. -/
def targetW : Tree := .sub "B" (some .fresh) (.leaf "T" ⟨.tuple, "3"⟩ (.leaf "X" ⟨.int, "1"⟩ .nil)) (.leaf "A" ⟨.str, "x"⟩ .nil)

theorem savedW_leaf {p : List String} {l : Leaf} (h : at_ p (.sub (some .fresh) savedW) = some (.leaf l)) :
    p = ["A"] ∧ l = ⟨.str, "y"⟩ ∨ p = ["B", "T"] ∧ l = ⟨.tuple, "1,2"⟩ := by
  rcases p with _ | ⟨k, _ | ⟨k2, q⟩⟩
  · cases h
  · by_cases hA : k = "A"
    · subst hA; exact .inl ⟨rfl, by cases h; rfl⟩
    · by_cases hB : k = "B"
      · subst hB; simp [savedW, at_, Tree.get] at h
      · simp [savedW, at_, Tree.get, Ne.symm hA, Ne.symm hB] at h
  · by_cases hA : k = "A"
    · subst hA; simp [savedW, at_, Tree.get] at h
    · by_cases hB : k = "B"
      · subst hB
        by_cases hT : k2 = "T"
        · subst hT
          cases q with
          | nil => exact .inr ⟨rfl, by simp [savedW, at_, Tree.get] at h; exact h.symm⟩
          | cons _ _ => simp [savedW, at_, Tree.get] at h
        · simp [savedW, at_, Tree.get, Ne.symm hT] at h
      · simp [savedW, at_, Tree.get, Ne.symm hA, Ne.symm hB] at h

theorem savedW_section {p : List String} {kd : Option Flags} {x : Tree} (hp : p ≠ []) (h : at_ p (.sub (some .fresh) savedW) = some (.sub kd x)) : p = ["B"] := by
  rcases p with _ | ⟨k, _ | ⟨k2, q⟩⟩
  · exact absurd rfl hp
  · by_cases hA : k = "A"
    · subst hA; simp [savedW, at_, Tree.get] at h
    · by_cases hB : k = "B"
      · rw [hB]
      · simp [savedW, at_, Tree.get, Ne.symm hA, Ne.symm hB] at h
  · by_cases hA : k = "A"
    · subst hA; simp [savedW, at_, Tree.get] at h
    · by_cases hB : k = "B"
      · subst hB
        by_cases hT : k2 = "T"
        · subst hT; cases q <;> simp [savedW, at_, Tree.get] at h
        · simp [savedW, at_, Tree.get, Ne.symm hT] at h
      · simp [savedW, at_, Tree.get, Ne.symm hA, Ne.symm hB] at h

/-- The hypotheses of `save_and_merge` are met by saving one config and merging the file into another one with more options; the saved tuple
comes back as a tuple. -/
theorem save_and_merge_case : ∃ (dumpY : Tree → String) (E : Env) (s : String) (es' : Tree), YamlOk dumpY E.yaml viewW ∧ dump dumpY savedW = .ok s ∧
    E.file "out/cfg.yaml" = some s ∧ HasExt "out/cfg.yaml" ".yaml".toList ∧ mergeFromFile E lit0 .fresh targetW "out/cfg.yaml" = (es', none) ∧
    at_ ["A"] (.sub (some .fresh) es') = some (.leaf ⟨.str, "y"⟩) ∧ at_ ["B", "T"] (.sub (some .fresh) es') = some (.leaf ⟨.tuple, "1,2"⟩) ∧
    at_ ["B", "X"] (.sub (some .fresh) es') = some (.leaf ⟨.int, "1"⟩) := by
  obtain ⟨dumpY, loadY, hY, _⟩ := yaml_exists
  obtain ⟨s, d', hs, _⟩ := dump_load (E := ⟨loadY, fun _ => .raises, fun _ => none⟩) hY (t := savedW) (by simp [savedW, Tree.Distinct, Tree.keys]) (by simp [savedW, Permitted]) .fresh
  have hext : HasExt "out/cfg.yaml" ".yaml".toList :=
    ⟨"out/".toList, "cfg".toList, "yaml".toList, by decide, by decide, .inr ⟨"out".toList, by decide⟩, by decide, by decide, 'c', by decide, by decide⟩
  obtain ⟨es', h1, h2, h3⟩ := save_and_merge (E := ⟨loadY, fun _ => .raises, fun _ => some s⟩) hY (t := savedW) (by simp [savedW, Tree.Distinct, Tree.keys])
    (by simp [savedW, Permitted]) (lit := lit0) (fun p s h => by
      rcases savedW_leaf h with ⟨_, h⟩ | ⟨_, h⟩
      · cases h; simp [lit0]
      · cases h) (f := .fresh) (es := targetW) (fun p l h => by
      rcases savedW_leaf h with ⟨rfl, rfl⟩ | ⟨rfl, rfl⟩
      · exact ⟨⟨.str, "x"⟩, by decide, rfl⟩
      · exact ⟨⟨.tuple, "3"⟩, by decide, rfl⟩) (fun p kd x hp h => by
      have := savedW_section hp h
      subst this
      exact ⟨.fresh, .leaf "T" ⟨.tuple, "3"⟩ (.leaf "X" ⟨.int, "1"⟩ .nil), by decide⟩) (path := "out/cfg.yaml") (.inr (.inr hext)) hs rfl
  refine ⟨dumpY, _, s, es', hY, hs, rfl, hext, h1, h2 ["A"] ⟨.str, "y"⟩ (by decide), ?_, h3 ["B", "X"] ⟨.int, "1"⟩ (by decide) fun v => ?_⟩
  · exact h2 ["B", "T"] ⟨.tuple, "1,2"⟩ (by decide)
  · rw [show at_ ["B", "X"] (.sub (some .fresh) savedW) = none by decide]; simp

/-- Saving and merging can raise when a saved string looks like a literal: the reloaded string `"1"` is read as an integer and rejected. -/
theorem save_and_merge_can_raise : ∃ (dumpY : Tree → String) (E : Env) (s : String) (t : Tree), YamlOk dumpY E.yaml viewW ∧ t.Distinct ∧ Permitted t ∧ dump dumpY t = .ok s ∧
    E.file "cfg" = some s ∧ (mergeFromFile E lit0 .fresh t "cfg").2 ≠ none := by
  obtain ⟨dumpY, loadY, hY, _⟩ := yaml_exists
  have hd : (Tree.leaf "A" ⟨.str, "1"⟩ .nil).Distinct := by simp [Tree.Distinct, Tree.keys]
  have hp : Permitted (Tree.leaf "A" ⟨.str, "1"⟩ .nil) := by simp [Permitted]
  obtain ⟨s, d', hs, hl, hd', _, h5, _⟩ := dump_load (E := ⟨loadY, fun _ => .raises, fun _ => none⟩) hY hd hp .fresh
  refine ⟨dumpY, ⟨loadY, fun _ => .raises, fun _ => some s⟩, s, _, hY, hd, hp, hs, rfl, ?_⟩
  intro hn
  have hext : NoExt "cfg" := ⟨[], [], "cfg".toList, by decide, .inl rfl, by simp, by decide, by decide⟩
  have hload : loadCfg ⟨loadY, fun _ => .raises, fun _ => some s⟩ (.file "cfg" s) = .ok (.sub (some .fresh) (strip d')) := by
    rw [(load_by_extension _ _ _).1 (.inl hext)]; exact hl
  have h1 := ((merge_file ⟨loadY, fun _ => .raises, fun _ => some s⟩ lit0 .fresh (Tree.leaf "A" ⟨.str, "1"⟩ .nil) "cfg").2 s rfl).2 _ hload
  have h2 := h1.2.1 hn
  rcases hm : mergeFromOther lit0 .fresh (Tree.leaf "A" ⟨.str, "1"⟩ .nil) (.sub (some .fresh) (strip d')) with ⟨es', e⟩
  rw [hm] at h2
  simp only at h2
  subst h2
  have hA : at_ ["A"] (.sub (some .fresh) (strip d')) = some (.leaf ⟨.str, "1"⟩) := (h5 ["A"] _ (by simp)).2 ⟨⟨.str, "1"⟩, by decide, by simp [viewW]⟩
  have hN : named ["A"] (.sub (some .fresh) (strip d')) = some (.leaf ⟨.str, "1"⟩) := by
    simp only [at_, named] at hA ⊢
    exact hA
  have hdist : (strip d').Distinct := strip_distinct hd'
  obtain ⟨v, w, b1, b2, _⟩ := (merge_overrides lit0 .fresh .fresh _ es' (strip d') hdist hm ["A"] ⟨.str, "1"⟩ (by decide)).1 _ hN
  have e1 := (decode_iff lit0 _ _).2 b1
  have e2 : decode lit0 (.leaf ⟨.str, "1"⟩) = .ok (.leaf ⟨.int, "1"⟩) := by decide
  rw [e2] at e1; cases e1
  have e3 := (coerce_iff _ _ _).2 b2
  have e4 : coerce (.leaf ⟨.int, "1"⟩) (.leaf ⟨.str, "1"⟩) = .error .valueError := by decide
  rw [e4] at e3; cases e3

end Verif.Cfg
