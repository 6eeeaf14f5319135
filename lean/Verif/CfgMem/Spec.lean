import Verif.CfgMem.Model
/-!
What a program can do with configs, and when two of its values share an object.
-/
namespace Verif.CfgMem
open Verif.Cfg

/-- The objects that can be reached from a value by attribute and item access. -/
inductive Reach (H : Heap) (r : Ref) : Nat → Prop
  | here {id : Nat} (h : r = .obj id) : Reach H r id
  | step {i j : Nat} {kd : Option Flags} {es : Ents} {k : String} (h : Reach H r i) (hc : H[i]? = some (.map kd es)) (he : (k, .obj j) ∈ es) :
      Reach H r j

/-- Two values have no object in common. -/
def Apart (H : Heap) (x y : Ref) : Prop := ∀ id, Reach H x id → ¬ Reach H y id

/-- Nothing that can be reached from `y` differs between `H` and `H'`: no option, no internal flag, no list content. -/
def Unchanged (H H' : Heap) (y : Ref) : Prop := (∀ id, Reach H y id → H'[id]? = H[id]?) ∧ ∀ id, Reach H' y id ↔ Reach H y id

/-- The values a program holds, each with the number of the group it belongs to. -/
structure World where
  heap : Heap
  vars : List (Ref × Nat)
  next : Nat

def World.init : World := ⟨[], [], 0⟩

/-- One statement of a program; numbers are positions in `vars`. -/
inductive Op
  | literal (t : Tree)                                      -- `x = {...}`
  | value (l : Leaf)                                        -- `x = [...]`, `x = 3`, ...
  | construct (i : Nat) (na : Bool)                         -- `x = CfgNode(i, new_allowed=na)`
  | clone (i : Nat)                                         -- `x = i.clone()`
  | merge (i j : Nat)                                       -- `i.merge_from_other_cfg(j)`
  | mergeList (i : Nat) (ps : List (String × Nat))          -- `i.merge_from_list([k1, j1, ...])`
  | setattr (i : Nat) (k : String) (j : Nat)                -- `i.k = j`
  | setitem (i : Nat) (k : String) (j : Nat)                -- `i[k] = j`
  | immutable (i : Nat) (b : Bool)                          -- `i.freeze()`, `i.defrost()`
  | register (i : Nat) (reg : Flags → Except Err Flags)     -- `i.register_deprecated_key(...)`, `i.register_renamed_key(...)`
  | mutate (i : Nat) (p : String)                           -- an in-place method of the list `i`
  | get (i : Nat) (k : String)                              -- `x = i.k`

/-- The variable whose object the statement writes to, if any. -/
def Op.receiver : Op → Option Nat
  | .literal _ | .value _ | .construct _ _ | .clone _ | .get _ _ => none
  | .merge i _ | .mergeList i _ | .setattr i _ _ | .setitem i _ _ | .immutable i _ | .register i _ | .mutate i _ => some i

/-- A new variable in a group of its own. -/
def World.fresh (w : World) (H : Heap) (r : Ref) : World := ⟨H, w.vars ++ [(r, w.next)], w.next + 1⟩

/-- Group `b` becomes part of group `a`. -/
def World.join (w : World) (a b : Nat) : World := { w with vars := w.vars.map fun p => (p.1, if p.2 = b then a else p.2) }

/-- The groups of those arguments that are objects other than dicts and nodes. -/
def World.listGroups (w : World) : List (Ref × Nat) → List Nat
  | [] => []
  | (.atom _, _) :: ps => w.listGroups ps
  | (.obj id, g) :: ps => match w.heap[id]? with
    | some (.map _ _) => w.listGroups ps
    | _ => g :: w.listGroups ps

/-- Group `b` after the groups `bs` have been joined to `a`, one after the other. -/
def World.joinAll (w : World) (a : Nat) : List Nat → World
  | [] => w
  | b :: bs => (w.join a b).joinAll a bs

/-- The arguments of `merge_from_list`. -/
def World.args (w : World) : List (String × Nat) → Option (List (String × (Ref × Nat)))
  | [] => some []
  | (k, j) :: ps => match w.vars[j]?, w.args ps with
    | some v, some vs => some ((k, v) :: vs)
    | _, _ => none

/-- Executing one statement.  Groups are bookkeeping: a literal, a constructed node and a clone start a new group, reading an option stays in
the group, and the only statements that join groups are `i.k = j`, `i[k] = j` for an object `j`, and `i.merge_from_list([k, j])` for a list `j`. -/
def World.exec (lit : String → LitRes) (lim : Nat) (w : World) : Op → World
  | .literal t => w.fresh ((ofTree w.heap t).1 ++ [.map none (ofTree w.heap t).2]) (.obj (ofTree w.heap t).1.length)
  | .value l => w.fresh (ofLeaf w.heap l).1 (ofLeaf w.heap l).2
  | .construct i na => match w.vars[i]? with
    | some (r, _) => match CfgMem.construct lim w.heap r na with
      | .ok (H, r') => w.fresh H r'
      | .error _ => w
    | none => w
  | .clone i => match w.vars[i]? with
    | some (r, _) => match CfgMem.clone lim w.heap r with
      | .ok (H, r') => w.fresh H r'
      | .error _ => w
    | none => w
  | .merge i j => match w.vars[i]?, w.vars[j]? with
    | some (.obj b, _), some (r, _) => { w with heap := (mergeFromOther lit lim w.heap b r).1 }
    | _, _ => w
  | .mergeList i ps => match w.vars[i]?, w.args ps with
    | some (.obj b, g), some vs => match w.heap[b]? with
      | some (.map (some f) _) =>
        { w.joinAll g (w.listGroups (vs.map (·.2))) with
          heap := (mergeFromList lit lim f b w.heap (vs.map fun p => (p.1, p.2.1))).1 }
      | _ => w
    | _, _ => w
  | .setattr i k j => match w.vars[i]?, w.vars[j]? with
    | some (.obj b, g), some (r, g') => match CfgMem.setattr w.heap b k r with
      | .ok H => match r with
        | .atom _ => { w with heap := H }
        | .obj _ => { w.join g g' with heap := H }
      | .error _ => w
    | _, _ => w
  | .setitem i k j => match w.vars[i]?, w.vars[j]? with
    | some (.obj b, g), some (r, g') => match r with
      | .atom _ => { w with heap := CfgMem.setitem w.heap b k r }
      | .obj _ => { w.join g g' with heap := CfgMem.setitem w.heap b k r }
    | _, _ => w
  | .immutable i b => match w.vars[i]? with
    | some (.obj id, _) => { w with heap := CfgMem.immutable b lim w.heap id }
    | _ => w
  | .register i reg => match w.vars[i]? with
    | some (.obj id, _) => match CfgMem.register reg w.heap id with
      | .ok H => { w with heap := H }
      | .error _ => w
    | _ => w
  | .mutate i p => match w.vars[i]? with
    | some (.obj id, _) => { w with heap := CfgMem.mutate w.heap id p }
    | _ => w
  | .get i k => match w.vars[i]? with
    | some (r, g) => match CfgMem.get w.heap k r with
      | some r' => { w with vars := w.vars ++ [(r', g)] }
      | none => w
    | none => w

/-- Executing a program. -/
def World.run (lit : String → LitRes) (lim : Nat) (w : World) : List Op → World
  | [] => w
  | op :: ops => (w.exec lit lim op).run lit lim ops

end Verif.CfgMem
