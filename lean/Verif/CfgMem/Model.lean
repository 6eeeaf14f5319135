import Verif.Cfg.Model
/-!
Model of `gradslam/config/cfgnode.py` with object identities: which list, dict and `CfgNode` objects are shared after an operation.
`Cfg/Model.lean` models the same functions on values; `CfgMem/Refine.lean` relates the two.

Simplifications: the elements of a list or tuple are immutable (a leaf list is one object, its payload opaque as in `Cfg/Model`); tuples,
strings and numbers have no identity; keys are strings; no cyclic structures; `ast.literal_eval` is the parameter `lit`; a recursion deeper
than `lim` is a `RecursionError` (`Fail.recursion`); objects that become unreachable stay in the heap.
-/
namespace Verif.CfgMem
open Verif.Cfg

/-- A reference stored in a dict or held by the user: an immutable value, or an object. -/
inductive Ref
  | atom (l : Leaf)
  | obj (id : Nat)
  deriving DecidableEq, Repr

/-- Entries of a dict, in insertion order. -/
abbrev Ents := List (String × Ref)

/-- An object: a list, or a dict (`kind = none`) or `CfgNode` (`kind = some flags`; cfgnode.py:37, 68-88). -/
inductive Cell
  | list (payload : String)
  | map (kind : Option Flags) (ents : Ents)
  deriving DecidableEq, Repr

/-- The objects created so far; an object is its position. -/
abbrev Heap := List Cell

inductive Fail
  | py (e : Err)
  | recursion
  deriving DecidableEq, Repr

/-- `d[k]`. -/
def look (k : String) : Ents → Option Ref
  | [] => none
  | (k', r) :: es => if k' = k then some r else look k es

/-- `d[k] = r`: in place, or at the end. -/
def put (k : String) (r : Ref) : Ents → Ents
  | [] => [(k, r)]
  | (k', q) :: es => if k' = k then (k, r) :: es else (k', q) :: put k r es

/-- `d[k] = r` on the dict object `b`. -/
def setEnt (H : Heap) (b : Nat) (k : String) (r : Ref) : Heap :=
  match H[b]? with
  | some (.map kd es) => H.set b (.map kd (put k r es))
  | _ => H

/-- `type(r)`. -/
def tyOf (H : Heap) : Ref → Ty
  | .atom l => .leaf l.ty
  | .obj id => match H[id]? with
    | some (.list _) => .leaf .list
    | some (.map none _) => .dict
    | some (.map (some _) _) => .node
    | none => .leaf .other

/-! ### `copy.deepcopy` -/

/-- The objects already copied (`memo` of `copy.deepcopy`). -/
abbrev Memo := List (Nat × Nat)

/-- Copying the entries of a dict one after the other. -/
def copyEnts (f : Heap → Memo → Ref → Option (Heap × Memo × Ref)) : Heap → Memo → Ents → Option (Heap × Memo × Ents)
  | H, m, [] => some (H, m, [])
  | H, m, (k, r) :: es => match f H m r with
    | none => none
    | some (H, m, r') => match copyEnts f H m es with
      | none => none
      | some (H, m, es') => some (H, m, (k, r') :: es')

/-- `copy.deepcopy(r, memo)`, called at cfgnode.py:101, 268, 440: objects met twice are copied once; a `CfgNode` is copied with its
internal attributes (`__reduce_ex__`).  The copy of a dict is created here after those of its values (before them in Python: no difference
without cycles). -/
def copyRef : Nat → Heap → Memo → Ref → Option (Heap × Memo × Ref)
  | _, H, m, .atom l => some (H, m, .atom l)
  | 0, _, _, .obj _ => none
  | n + 1, H, m, .obj id => match m.lookup id with
    | some id' => some (H, m, .obj id')
    | none => match H[id]? with
      | none => none
      | some (.list p) => some (H ++ [.list p], (id, H.length) :: m, .obj H.length)
      | some (.map kd es) => match copyEnts (copyRef n) H m es with
        | none => none
        | some (H, m, es') => some (H ++ [.map kd es'], (id, H.length) :: m, .obj H.length)

/-- `CfgNode.clone`, cfgnode.py:266-268. -/
def clone (lim : Nat) (H : Heap) (r : Ref) : Except Fail (Heap × Ref) :=
  match copyRef lim H [] r with
  | none => .error .recursion
  | some (H, _, r) => .ok (H, r)

/-! ### Construction -/

/-- The body of the loop of `_create_config_tree_from_dict`, cfgnode.py:103-113: `new` is `cls(v, ...)`. -/
def buildVal (new : Heap → Ref → Except Fail (Heap × Ref)) (H : Heap) : Ref → Except Fail (Heap × Ref)
  | .atom l => if l.valid then .ok (H, .atom l) else .error (.py .assertion)
  | .obj id => match H[id]? with
    | some (.map _ _) => new H (.obj id)
    | some (.list _) => .ok (H, .obj id)
    | none => .error (.py .assertion)

/-- The loop of `_create_config_tree_from_dict`, cfgnode.py:102-113. -/
def buildEnts (new : Heap → Ref → Except Fail (Heap × Ref)) : Heap → Ents → Except Fail (Heap × Ents)
  | H, [] => .ok (H, [])
  | H, (k, r) :: es => match buildVal new H r with
    | .error e => .error e
    | .ok (H, r') => match buildEnts new H es with
      | .error e => .error e
      | .ok (H, es') => .ok (H, (k, r') :: es')

/-- `CfgNode(init_dict, new_allowed=na)`, cfgnode.py:47-114: the dict is deep-copied (:101), then every nested dict of the copy is replaced by
a node made of (another deep copy of) it; `super().__init__` (:66) makes the node. -/
def construct : Nat → Heap → Ref → Bool → Except Fail (Heap × Ref)
  | 0, _, _, _ => .error .recursion
  | n + 1, H, r, na => match copyRef (n + 1) H [] r with
    | none => .error .recursion
    | some (H, _, .obj id) => match H[id]? with
      | some (.map _ es) => match buildEnts (fun H r => construct n H r false) H es with
        | .error e => .error e
        | .ok (H, es') => .ok (H ++ [.map (some { Flags.fresh with newAllowed := na }) es'], .obj H.length)
      | _ => .error (.py .attributeError)
    | some (_, _, .atom _) => .error (.py .attributeError)

/-! ### Values -/

/-- A new list object for a list, otherwise the value itself. -/
def ofLeaf (H : Heap) (l : Leaf) : Heap × Ref :=
  if l.ty = .list then (H ++ [.list l.payload], .obj H.length) else (H, .atom l)

/-- New objects for the entries of a dict literal. -/
def ofTree : Heap → Tree → Heap × Ents
  | H, .nil => (H, [])
  | H, .leaf k l rest =>
    let (H, r) := ofLeaf H l
    let (H, es) := ofTree H rest
    (H, (k, r) :: es)
  | H, .sub k kd t rest =>
    let (H, ce) := ofTree H t
    let r := H.length
    let (H, es) := ofTree (H ++ [.map kd ce]) rest
    (H, (k, .obj r) :: es)

/-- `CfgNode._decode_cfg_value`, cfgnode.py:386-414: dicts become nodes (copied), strings are evaluated (new objects), anything else is
returned as it is, lists included. -/
def decode (lit : String → LitRes) (lim : Nat) (H : Heap) : Ref → Except Fail (Heap × Ref)
  | .atom l =>
    if l.ty = .str then
      match lit l.payload with
      | .leaf l' => .ok (ofLeaf H l')
      | .dict t =>
        let (H, es) := ofTree H t
        .ok (H ++ [.map none es], .obj H.length)
      | .pass => .ok (H, .atom l)
      | .raise => .error (.py .evalError)
    else .ok (H, .atom l)
  | .obj id => match H[id]? with
    | some (.map _ _) => construct lim H (.obj id) false
    | _ => .ok (H, .obj id)

/-- `_check_and_coerce_cfg_value_type`, cfgnode.py:464-493: `list(t)` is a new list, `tuple(l)` a value. -/
def coerce (H : Heap) (r old : Ref) : Except Fail (Heap × Ref) :=
  if tyOf H r = tyOf H old then .ok (H, r)
  else match r with
    | .atom l => if l.ty = .tuple ∧ tyOf H old = .leaf .list then .ok (H ++ [.list l.payload], .obj H.length) else .error (.py .valueError)
    | .obj id => match H[id]? with
      | some (.list p) => if tyOf H old = .leaf .tuple then .ok (H, .atom ⟨.tuple, p⟩) else .error (.py .valueError)
      | _ => .error (.py .valueError)

/-! ### Merging -/

/-- The loop of `_merge_a_into_b`, cfgnode.py:438-461, over the entries of `a`, into the node object `b`; `rec` is the recursive call.
Changes made before an exception remain. -/
def mergeLoop (lit : String → LitRes) (lim : Nat) (root : Flags) (rec : List String → Heap → Ents → Nat → Heap × Option Fail) (pre : List String) :
    Heap → Ents → Nat → Heap × Option Fail
  | H, [], _ => (H, none)
  | H, (k, v) :: es, b => match copyRef lim H [] v with
    | none => (H, some .recursion)
    | some (H, _, v) => match decode lit lim H v with
      | .error e => (H, some e)
      | .ok (H, v) => match H[b]? with
        | some (.map (some bf) bes) => match look k bes with
          | some old => match coerce H v old with
            | .error e => (H, some e)
            | .ok (H, v) => match v, old with
              | .obj i, .obj c => match H[i]? with
                | some (.map (some _) ves) => match rec (pre ++ [k]) H ves c with
                  | (H, some e) => (H, some e)
                  | (H, none) => mergeLoop lit lim root rec pre H es b
                | _ => mergeLoop lit lim root rec pre (setEnt H b k v) es b
              | _, _ => mergeLoop lit lim root rec pre (setEnt H b k v) es b
          | none =>
            if bf.newAllowed then mergeLoop lit lim root rec pre (setEnt H b k v) es b
            else match missing root (joinKey pre k) with
              | some e => (H, some (.py e))
              | none => mergeLoop lit lim root rec pre H es b
        | _ => (H, some (.py .assertion))

/-- `_merge_a_into_b(a, b, root, key_list)`, cfgnode.py:427-461. -/
def merge (lit : String → LitRes) (lim : Nat) (root : Flags) : Nat → List String → Heap → Ents → Nat → Heap × Option Fail
  | 0 => fun _ H _ _ => (H, some .recursion)
  | n + 1 => mergeLoop lit lim root (merge lit lim root n)

/-- `self.merge_from_other_cfg(other)`, cfgnode.py:200-206 with the assertions :429-436. -/
def mergeFromOther (lit : String → LitRes) (lim : Nat) (H : Heap) (self : Nat) (other : Ref) : Heap × Option Fail :=
  match other with
  | .atom _ => (H, some (.py .assertion))
  | .obj a => match H[a]?, H[self]? with
    | some (.map (some _) es), some (.map (some f) _) => merge lit lim f lim [] H es self
    | _, _ => (H, some (.py .assertion))

/-- The walk of `merge_from_list` to the parent of the last sub-key, cfgnode.py:226-232: the parent object and the last sub-key. -/
def walk (H : Heap) : Nat → List String → Except Fail (Nat × String)
  | _, [] => .error (.py .assertion)
  | d, [k] => match H[d]? with
    | some (.map _ es) => if (look k es).isSome then .ok (d, k) else .error (.py .assertion)
    | _ => .error (.py .typeError)
  | d, k :: k' :: ks => match H[d]? with
    | some (.map _ es) => match look k es with
      | none => .error (.py .assertion)
      | some (.obj c) => walk H c (k' :: ks)
      | some (.atom _) => .error (.py .typeError)
    | _ => .error (.py .typeError)

/-- `cfg.k1.k2... = decoded and coerced value`, cfgnode.py:225-236: the value is *not* copied. -/
def assign (lit : String → LitRes) (lim : Nat) (H : Heap) (self : Nat) (keys : List String) (v : Ref) : Except Fail Heap :=
  match walk H self keys with
  | .error e => .error e
  | .ok (d, k) => match decode lit lim H v with
    | .error e => .error e
    | .ok (H, v) => match H[d]? with
      | some (.map _ es) => match look k es with
        | none => .error (.py .assertion)
        | some old => match coerce H v old with
          | .error e => .error e
          | .ok (H, v) => .ok (setEnt H d k v)
      | _ => .error (.py .typeError)

/-- One pair of `merge_from_list`, cfgnode.py:220-236. -/
def listStep (lit : String → LitRes) (lim : Nat) (root : Flags) (H : Heap) (self : Nat) (key : String) (v : Ref) : Except Fail Heap :=
  if root.deprecated.contains key then .ok H
  else if root.renamed.contains key then .error (.py .keyError)
  else assign lit lim H self (splitDots key) v

/-- `self.merge_from_list([k1, v1, k2, v2, ...])`, cfgnode.py:208-236, given as pairs. -/
def mergeFromList (lit : String → LitRes) (lim : Nat) (root : Flags) (self : Nat) : Heap → List (String × Ref) → Heap × Option Fail
  | H, [] => (H, none)
  | H, (k, v) :: ps => match listStep lit lim root H self k v with
    | .error e => (H, some e)
    | .ok H => mergeFromList lit lim root self H ps

/-! ### Assignment, freezing, list methods -/

/-- `node.name = value`, `CfgNode.__setattr__`, cfgnode.py:122-142: the value is not copied. -/
def setattr (H : Heap) (self : Nat) (name : String) (v : Ref) : Except Fail Heap :=
  match H[self]? with
  | some (.map (some f) _) =>
    if f.immutable then .error (.py .attributeError)
    else if internalNames.contains name then .error (.py .assertion)
    else match v with
      | .atom l => if l.valid then .ok (setEnt H self name v) else .error (.py .assertion)
      | .obj id => match H[id]? with
        | some (.list _) => .ok (setEnt H self name v)
        | some (.map (some _) _) => .ok (setEnt H self name v)
        | _ => .error (.py .assertion)
  | _ => .error (.py .attributeError)

/-- `d[name] = value` on a dict or node (inherited from `dict`: no check, no copy). -/
def setitem (H : Heap) (self : Nat) (name : String) (v : Ref) : Heap := setEnt H self name v

/-- `register_deprecated_key` / `register_renamed_key`, cfgnode.py:270-295: only the flags of this node change. -/
def register (reg : Flags → Except Err Flags) (H : Heap) (self : Nat) : Except Fail Heap :=
  match H[self]? with
  | some (.map (some f) es) => match reg f with
    | .error e => .error (.py e)
    | .ok f' => .ok (H.set self (.map (some f') es))
  | _ => .error (.py .attributeError)

/-- The values of a node that are nodes. -/
def immutableEnts (f : Heap → Nat → Heap) (H : Heap) : Ents → Heap
  | [] => H
  | (_, .atom _) :: es => immutableEnts f H es
  | (_, .obj id) :: es => match H[id]? with
    | some (.map (some _) _) => immutableEnts f (f H id) es
    | _ => immutableEnts f H es

/-- `CfgNode._immutable`, cfgnode.py:250-264 (`freeze` :238-240, `defrost` :242-244). -/
def immutable (b : Bool) : Nat → Heap → Nat → Heap
  | 0, H, _ => H
  | n + 1, H, id => match H[id]? with
    | some (.map (some f) es) => immutableEnts (immutable b n) (H.set id (.map (some { f with immutable := b }) es)) es
    | _ => H

/-- An in-place method of a list object (`l.append(x)`, `l[0] = x`, ...), which leaves it with this content. -/
def mutate (H : Heap) (id : Nat) (p : String) : Heap :=
  match H[id]? with
  | some (.list _) => H.set id (.list p)
  | _ => H

/-- `node[k]` / `node.k` / `d[k]`: the object stored, cfgnode.py:116-120. -/
def get (H : Heap) (k : String) : Ref → Option Ref
  | .atom _ => none
  | .obj id => match H[id]? with
    | some (.map _ es) => look k es
    | _ => none

end Verif.CfgMem
