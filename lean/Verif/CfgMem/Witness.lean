import Verif.CfgMem.Paths
/-!
C89: concrete programs that meet the hypotheses, and programs in which values do share objects.
-/
namespace Verif.CfgMem
open Verif.Cfg

def litW : String → LitRes := fun _ => .pass
def int1 : Leaf := ⟨.int, "1"⟩
def lst (p : String) : Leaf := ⟨.list, p⟩

/-- `{'A': [1], 'N': {'B': 1, 'L': [2]}}` -/
def dictW : Tree := .leaf "A" (lst "1") (.sub "N" none (.leaf "B" int1 (.leaf "L" (lst "2") .nil)) .nil)

/-- `d = {...}; c = CfgNode(d); e = c.clone(); o = CfgNode({'A': [9], 'N': {'B': 1}}); c.merge_from_other_cfg(o); l = c.N` -/
def progW : List Op := [.literal dictW, .construct 0 false, .clone 1,
  .literal (.leaf "A" (lst "9") (.sub "N" none (.leaf "B" int1 .nil) .nil)), .construct 3 false, .merge 1 4, .get 1 "N"]

/-- Seven statements, six variables; `d`, `c`, `e` and `o` are in groups of their own and `l` is in that of `c`. -/
theorem progW_groups : ((World.init.run litW 9 progW).vars.map (·.2)) = [0, 1, 2, 3, 4, 1] := by decide +kernel

/-- What variable `i` holds under the key path. -/
def readW (w : World) (i : Nat) : List String → Option Ref
  | [] => w.vars[i]?.map (·.1)
  | k :: ks => match readW w i ks with
    | some r => get w.heap k r
    | none => none

/-- The content of a list object. -/
def contentW (w : World) : Option Ref → Option String
  | some (.obj id) => match w.heap[id]? with
    | some (.list p) => some p
    | _ => none
  | _ => none

/-- The merge changed `c.A`, not `e.A`, and `o.A` was copied: appending to it later leaves `c.A` alone. -/
theorem merge_copies_lists :
    let w := World.init.run litW 9 progW
    let w' := w.run litW 9 [.get 4 "A", .mutate 6 "9, 9"]
    contentW w (readW w 1 ["A"]) = some "9" ∧ contentW w (readW w 2 ["A"]) = some "1" ∧
    contentW w' (readW w' 4 ["A"]) = some "9, 9" ∧ contentW w' (readW w' 1 ["A"]) = some "9" := by decide +kernel

/-- The hypotheses of `groups_apart` and `others_unchanged` are met by the program above, with a receiver in another group. -/
theorem isolation_hypotheses :
    ∃ x y, (World.init.run litW 9 progW).vars[1]? = some (x, 1) ∧ (World.init.run litW 9 progW).vars[2]? = some (y, 2) ∧
      Apart (World.init.run litW 9 progW).heap x y ∧
      Unchanged (World.init.run litW 9 progW).heap ((World.init.run litW 9 progW).exec litW 9 (.immutable 1 true)).heap y := by
  have h1 : (World.init.run litW 9 progW).vars[1]? = some (.obj 11, 1) := by decide +kernel
  have h2 : (World.init.run litW 9 progW).vars[2]? = some (.obj 15, 2) := by decide +kernel
  refine ⟨_, _, h1, h2, groups_apart litW 9 progW h1 h2 (by decide), ?_⟩
  obtain ⟨g, hg, h⟩ := others_unchanged litW 9 progW (.immutable 1 true) h2
  refine h fun i x g' hi hx => ?_
  have : g = 2 := by
    have h3 : ((World.init.run litW 9 progW).exec litW 9 (.immutable 1 true)).vars[2]? = some (.obj 15, 2) := by decide +kernel
    rw [h3] at hg
    cases hg
    rfl
  cases hi
  have h4 : ((World.init.run litW 9 progW).exec litW 9 (.immutable 1 true)).vars[1]? = some (.obj 11, 1) := by decide +kernel
  rw [h4] at hx
  cases hx
  rw [this]
  decide

/-- The flags of the node variable `i` holds. -/
def frozenW (w : World) (i : Nat) (ks : List String) : Option Bool :=
  match readW w i ks with
  | some (.obj id) => match w.heap[id]? with
    | some (.map (some f) _) => some f.immutable
    | _ => none
  | _ => none

/-- Freezing `c` freezes `c.N`, and neither the clone nor the config merged into it. -/
theorem freeze_case :
    let w := (World.init.run litW 9 progW).run litW 9 [.immutable 1 true]
    frozenW w 1 [] = some true ∧ frozenW w 1 ["N"] = some true ∧ frozenW w 2 [] = some false ∧ frozenW w 2 ["N"] = some false ∧ frozenW w 4 [] = some false := by
  decide +kernel

/-- `merge_from_list` and attribute assignment do not copy lists: `l = [5]; c.merge_from_list(['A', l]); l.append(6)` changes `c.A`. -/
theorem merge_from_list_shares :
    let w := World.init.run litW 9 [.literal dictW, .construct 0 false, .value (lst "5"), .mergeList 1 [("A", 2)]]
    let w' := w.run litW 9 [.mutate 2 "5, 6"]
    contentW w (readW w 1 ["A"]) = some "5" ∧ contentW w' (readW w' 1 ["A"]) = some "5, 6" ∧ w.vars.map (·.2) = [0, 1, 1] := by decide +kernel

theorem setattr_shares :
    let w := World.init.run litW 9 [.literal dictW, .construct 0 false, .value (lst "5"), .setattr 1 "A" 2]
    let w' := w.run litW 9 [.mutate 2 "5, 6"]
    contentW w (readW w 1 ["A"]) = some "5" ∧ contentW w' (readW w' 1 ["A"]) = some "5, 6" := by decide +kernel

/-- `merge_from_list` copies dicts: `n = {'B': 1, 'L': l}; c.merge_from_list(['N', n])` gives `c` a list of its own. -/
theorem merge_from_list_copies_dicts :
    let w := World.init.run litW 9 [.literal dictW, .construct 0 false, .value (lst "5"), .literal .nil, .setitem 3 "L" 2, .mergeList 1 [("N", 3)]]
    let w' := w.run litW 9 [.mutate 2 "5, 6"]
    contentW w (readW w 1 ["L", "N"]) = some "5" ∧ contentW w' (readW w' 1 ["L", "N"]) = some "5" ∧ contentW w' (readW w' 3 ["L"]) = some "5, 6" := by
  decide +kernel

/-- Two options of one dict given the same list still share one list after `CfgNode(d)` and after `clone()`: `c.A` changes with `c.B`. Options
of different nested dicts do not. -/
theorem construct_sharing :
    let w := World.init.run litW 9 [.value (lst "5"), .literal (.sub "X" none .nil (.sub "Y" none .nil .nil)), .setitem 1 "A" 0, .setitem 1 "B" 0,
      .get 1 "X", .setitem 2 "A" 0, .get 1 "Y", .setitem 3 "A" 0, .construct 1 false, .clone 4, .get 5 "A", .mutate 6 "6"]
    contentW w (readW w 4 ["A"]) = some "5" ∧ contentW w (readW w 5 ["A"]) = some "6" ∧ contentW w (readW w 5 ["B"]) = some "6" ∧
    contentW w (readW w 5 ["A", "X"]) = some "5" ∧ contentW w (readW w 5 ["A", "Y"]) = some "5" := by decide +kernel

/-- Why `mergeFromOther_value` asks that no node occurs twice in the receiver: after `c.X = n; c.Y = n`, merging a value for `X.A` changes `Y.A`. -/
theorem shared_node_merge :
    let w := World.init.run litW 9 [.literal (.sub "X" none (.leaf "A" int1 .nil) (.sub "Y" none (.leaf "A" int1 .nil) .nil)), .construct 0 false, .get 1 "X", .setattr 1 "Y" 2,
      .literal (.sub "X" none (.leaf "A" ⟨.int, "2"⟩ .nil) .nil), .construct 3 false, .merge 1 4]
    readW w 1 ["A", "X"] = some (.atom ⟨.int, "2"⟩) ∧ readW w 1 ["A", "Y"] = some (.atom ⟨.int, "2"⟩) := by decide +kernel

/-- A config for the value theorems: `{'A': [1], 'N': {'B': 1}}` as objects. -/
def heapW : Heap := [.list "1", .map (some .fresh) [("B", .atom int1)], .map (some .fresh) [("A", .obj 0), ("N", .obj 1)],
  .map (some .fresh) [("B", .atom ⟨.int, "7"⟩)], .map (some .fresh) [("N", .obj 3)]]

def treeW : Tree := .leaf "A" (lst "1") (.sub "N" (some .fresh) (.leaf "B" int1 .nil) .nil)

theorem heapW_self : Node heapW 2 .fresh treeW [1] := by
  refine ⟨⟨_, rfl, ?_⟩, by decide⟩
  refine ⟨_, _, rfl, Or.inr ⟨0, rfl, rfl, rfl⟩, 1, _, _, [], [], rfl, rfl, ⟨_, _, rfl, Or.inl ⟨rfl, by decide⟩, rfl, rfl⟩, ⟨rfl, rfl⟩, rfl⟩

def otherW : Val := .sub (some .fresh) (.sub "N" (some .fresh) (.leaf "B" ⟨.int, "7"⟩ .nil) .nil)

theorem heapW_other : Holds heapW (.obj 4) otherW [4, 3] :=
  ⟨4, _, [3], rfl, rfl, ⟨3, _, _, [], [], rfl, rfl, ⟨_, _, rfl, Or.inl ⟨rfl, by decide⟩, rfl, rfl⟩, ⟨rfl, rfl⟩, rfl⟩, rfl⟩

/-- The hypotheses of `mergeFromOther_value` and `clone_value` are met, and the merge changes `N.B` to 7. -/
theorem value_hypotheses : Node heapW 2 .fresh treeW [1] ∧ Holds heapW (.obj 4) otherW [4, 3] ∧ depth otherW ≤ 9 ∧ (∀ id ∈ [4, 3], id ∉ 2 :: [1]) ∧
    (Cfg.mergeFromOther litW .fresh treeW otherW).1 = .leaf "A" (lst "1") (.sub "N" (some .fresh) (.leaf "B" ⟨.int, "7"⟩ .nil) .nil) ∧
    (Cfg.mergeFromOther litW .fresh treeW otherW).2 = none :=
  ⟨heapW_self, heapW_other, by decide, by decide, by decide +kernel, by decide +kernel⟩

/-- The hypotheses of `mergeFromList_value` and `freeze_value` are met: `['N.B', 5, 'A', (3, 4)]` sets both options (the tuple becomes a list), and
freezing reaches the nested node. -/
theorem paths_hypotheses :
    (∀ q ∈ [("N.B", Ref.atom ⟨.int, "5"⟩, Val.leaf ⟨.int, "5"⟩), ("A", Ref.atom ⟨.tuple, "3, 4"⟩, Val.leaf ⟨.tuple, "3, 4"⟩)],
      depth q.2.2 ≤ 9 ∧ ∃ fv, Holds heapW q.2.1 q.2.2 fv ∧ ∀ id ∈ fv, id ∉ 2 :: [1]) ∧
    (CfgMem.mergeFromList litW 9 .fresh 2 heapW [("N.B", .atom ⟨.int, "5"⟩), ("A", .atom ⟨.tuple, "3, 4"⟩)]).1 =
      [.list "1", .map (some .fresh) [("B", .atom ⟨.int, "5"⟩)], .map (some .fresh) [("A", .obj 5), ("N", .obj 1)],
        .map (some .fresh) [("B", .atom ⟨.int, "7"⟩)], .map (some .fresh) [("N", .obj 3)], .list "3, 4"] ∧
    depthT treeW < 9 ∧ freeze (.sub (some .fresh) treeW) =
      .sub (some ⟨true, false, [], []⟩) (.leaf "A" (lst "1") (.sub "N" (some ⟨true, false, [], []⟩) (.leaf "B" int1 .nil) .nil)) := by
  refine ⟨?_, by decide +kernel, by decide, by decide +kernel⟩
  intro q hq
  rcases List.mem_cons.1 hq with rfl | hq'
  · exact ⟨by decide, [], ⟨Or.inl ⟨rfl, by decide⟩, rfl⟩, by decide⟩
  · rw [List.mem_singleton] at hq'
    subst hq'
    exact ⟨by decide, [], ⟨Or.inl ⟨rfl, by decide⟩, rfl⟩, by decide⟩

end Verif.CfgMem
