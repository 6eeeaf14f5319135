/-
Model of `gradslam/config/cfgnode.py` (class `CfgNode` and its helpers).

Simplifications (all definitions below):
* one Python class `CfgNode` (no subclasses); config trees are trees (no node object shared in two places);
* a leaf is its Python type plus an opaque payload (for `str` the payload is the string itself); `list(t)` and
  `tuple(l)` keep the elements, hence the payload;
* `ast.literal_eval` is a parameter `lit`;
* logging and error messages are dropped; exceptions are the values of `Err`.
-/
namespace Verif.Cfg

/-- Python types of leaf values, cfgnode.py:27-28 (`_VALID_TYPES`) plus `None` and anything else. -/
inductive PyType
  | tuple | list | str | int | float | bool | none | other
  deriving DecidableEq, Repr

/-- A leaf value: its `type(v)` and an opaque payload. -/
structure Leaf where
  ty : PyType
  payload : String
  deriving DecidableEq, Repr

/-- The four internal attributes of a `CfgNode`, cfgnode.py:42-45, 68-88. -/
structure Flags where
  immutable : Bool
  newAllowed : Bool
  deprecated : List String
  renamed : List String
  deriving DecidableEq, Repr

/-- State of a freshly constructed node, cfgnode.py:68-88 (`new_allowed=False`). -/
def Flags.fresh : Flags := ⟨false, false, [], []⟩

/-- Insertion-ordered dictionary contents.  `sub k none es rest` is a plain `dict` value, `sub k (some f) es rest`
a nested `CfgNode` with internal state `f` (cfgnode.py:37 `class CfgNode(dict)`). -/
inductive Tree
  | nil
  | leaf (k : String) (l : Leaf) (rest : Tree)
  | sub (k : String) (kind : Option Flags) (es : Tree) (rest : Tree)
  deriving DecidableEq, Repr

/-- A value stored in / passed to a config. -/
inductive Val
  | leaf (l : Leaf)
  | sub (kind : Option Flags) (es : Tree)
  deriving DecidableEq, Repr

/-- Exceptions raised by the module. -/
inductive Err
  | assertion | keyError | valueError | attributeError | typeError | evalError
  deriving DecidableEq, Repr

deriving instance DecidableEq for Except

/-- Result of `ast.literal_eval(s)`, used at cfgnode.py:402-414: a literal (leaf or plain dict), a
`ValueError`/`SyntaxError` (swallowed: the string passes through), or any other exception (propagates). -/
inductive LitRes
  | leaf (l : Leaf)
  | dict (es : Tree)
  | pass
  | raise

/-- `type(v)` as compared in cfgnode.py:469-471. -/
inductive Ty
  | leaf (t : PyType) | dict | node
  deriving DecidableEq, Repr

def Val.ty : Val → Ty
  | .leaf l => .leaf l.ty
  | .sub none _ => .dict
  | .sub (some _) _ => .node

/-- `k in d` / `d[k]` on a dict. -/
def Tree.get (k : String) : Tree → Option Val
  | .nil => none
  | .leaf k' l rest => if k' = k then some (.leaf l) else rest.get k
  | .sub k' kd es rest => if k' = k then some (.sub kd es) else rest.get k

/-- Build one dictionary entry. -/
def Tree.cons (k : String) : Val → Tree → Tree
  | .leaf l, r => .leaf k l r
  | .sub kd es, r => .sub k kd es r

/-- `d[k] = v`: replaces in place, or appends at the end (Python dict order). -/
def Tree.set (k : String) (v : Val) : Tree → Tree
  | .nil => Tree.cons k v .nil
  | .leaf k' l rest => if k' = k then Tree.cons k v rest else .leaf k' l (rest.set k v)
  | .sub k' kd es rest => if k' = k then Tree.cons k v rest else .sub k' kd es (rest.set k v)

/-- Keys in insertion order. -/
def Tree.keys : Tree → List String
  | .nil => []
  | .leaf k _ rest => k :: rest.keys
  | .sub k _ _ rest => k :: rest.keys

/-- `_valid_type(v, allow_cfg_node=False)` on a leaf, cfgnode.py:421-424 with `_VALID_TYPES` of cfgnode.py:28. -/
def Leaf.valid (l : Leaf) : Bool :=
  match l.ty with
  | .tuple | .list | .str | .int | .float | .bool => true
  | .none | .other => false

/-- `CfgNode._create_config_tree_from_dict`, cfgnode.py:90-114 (`copy.deepcopy` is the identity on values):
nested dict-likes become fresh `CfgNode`s, leaves must have a valid type. -/
def build : Tree → Except Err Tree
  | .nil => .ok .nil
  | .leaf k l rest =>
    if l.valid then do let r ← build rest; .ok (.leaf k l r) else .error .assertion
  | .sub k _ es rest => do
    let e ← build es
    let r ← build rest
    .ok (.sub k (some .fresh) e r)

/-- `CfgNode.__init__(init_dict, new_allowed=…)`, cfgnode.py:47-88. -/
def construct (initDict : Tree) (newAllowed : Bool) : Except Err Val := do
  let es ← build initDict
  .ok (.sub (some { Flags.fresh with newAllowed := newAllowed }) es)

/-- `CfgNode._decode_cfg_value`, cfgnode.py:386-414. -/
def decode (lit : String → LitRes) : Val → Except Err Val
  | .sub _ es => do let e ← build es; .ok (.sub (some .fresh) e)
  | .leaf l =>
    if l.ty = .str then
      match lit l.payload with
      | .leaf l' => .ok (.leaf l')
      | .dict es => .ok (.sub none es)
      | .pass => .ok (.leaf l)
      | .raise => .error .evalError
    else .ok (.leaf l)

/-- `_check_and_coerce_cfg_value_type`, cfgnode.py:464-493. -/
def coerce (replacement original : Val) : Except Err Val :=
  if replacement.ty = original.ty then .ok replacement
  else match replacement, original with
    | .leaf r, .leaf o =>
      if r.ty = .tuple ∧ o.ty = .list then .ok (.leaf { r with ty := .list })
      else if r.ty = .list ∧ o.ty = .tuple then .ok (.leaf { r with ty := .tuple })
      else .error .valueError
    | _, _ => .error .valueError

/-- `".".join(key_list + [k])`, cfgnode.py:439. -/
def joinKey (pre : List String) (k : String) : String := ".".intercalate (pre ++ [k])

/-- The `else` branch of cfgnode.py:455-461 for a key absent from `b`; `none` means "ignored". -/
def missing (root : Flags) (fullKey : String) : Option Err :=
  if root.deprecated.contains fullKey then none
  else some .keyError       -- renamed (cfgnode.py:308-319) and unknown keys both raise KeyError

/-- `_merge_a_into_b(a, b, root, key_list)`, cfgnode.py:427-461, on the entries `a` of the overriding node and the
flags/entries `bf`/`b` of the receiving node.  Returns the receiving entries after the call and the exception, if
one was raised (entries handled before it keep their new value).

Transcription note: the code recurses into `cls(v)` (a rebuilt copy of the nested value `v`), here we recurse into the
entries of `v` after checking that the rebuild succeeds; `mergeEnts_build` (Lemmas) proves that this is the same. -/
def mergeEnts (lit : String → LitRes) (root : Flags) :
    List String → Tree → Flags → Tree → Tree × Option Err
  | _, .nil, _, b => (b, none)
  | pre, .leaf k l rest, bf, b =>
    match decode lit (.leaf l) with
    | .error e => (b, some e)
    | .ok v =>
      match b.get k with
      | some old =>
        match coerce v old with
        | .error e => (b, some e)
        | .ok v' => mergeEnts lit root pre rest bf (b.set k v')
      | none =>
        if bf.newAllowed then mergeEnts lit root pre rest bf (b.set k v)
        else match missing root (joinKey pre k) with
          | some e => (b, some e)
          | none => mergeEnts lit root pre rest bf b
  | pre, .sub k kd es rest, bf, b =>
    match decode lit (.sub kd es) with
    | .error e => (b, some e)
    | .ok v =>
      match b.get k with
      | some (.sub (some cf) bes) =>
        match mergeEnts lit root (pre ++ [k]) es cf bes with
        | (bes', some e) => (b.set k (.sub (some cf) bes'), some e)
        | (bes', none) => mergeEnts lit root pre rest bf (b.set k (.sub (some cf) bes'))
      | some _ => (b, some .valueError)
      | none =>
        if bf.newAllowed then mergeEnts lit root pre rest bf (b.set k v)
        else match missing root (joinKey pre k) with
          | some e => (b, some e)
          | none => mergeEnts lit root pre rest bf b

/-- `CfgNode.merge_from_other_cfg`, cfgnode.py:200-206 and the assertions of cfgnode.py:429-436.
`self` is the node with flags `f` and entries `es`. -/
def mergeFromOther (lit : String → LitRes) (f : Flags) (es : Tree) : Val → Tree × Option Err
  | .sub (some _) a => mergeEnts lit f [] a f es
  | _ => (es, some .assertion)

/-- `full_key.split(".")`, cfgnode.py:225. -/
def splitChars : List Char → List (List Char)
  | [] => [[]]
  | c :: cs =>
    if c = '.' then [] :: splitChars cs
    else match splitChars cs with
      | [] => [[c]]
      | w :: ws => (c :: w) :: ws

def splitDots (s : String) : List String := (splitChars s.toList).map String.ofList

/-- The body of the loop of `merge_from_list` after the deprecation checks, cfgnode.py:225-236: walk to the parent of
the last sub-key, decode, coerce, assign.  `subkey in d` on a non-dict leaf raises `AssertionError` or `TypeError`
depending on the leaf's type and content; both are represented by `typeError`. -/
def assignPath (lit : String → LitRes) (v : Val) : List String → Tree → Except Err Tree
  | [], _ => .error .assertion                         -- `split` never returns an empty list
  | [k], d =>
    match d.get k with
    | none => .error .assertion
    | some old => do
      let v' ← decode lit v
      let v'' ← coerce v' old
      .ok (d.set k v'')
  | k :: k' :: ks, d =>
    match d.get k with
    | none => .error .assertion
    | some (.leaf _) => .error .typeError
    | some (.sub kd es) => do
      let es' ← assignPath lit v (k' :: ks) es
      .ok (d.set k (.sub kd es'))

/-- One iteration of the loop of `merge_from_list`, cfgnode.py:220-236. -/
def listStep (lit : String → LitRes) (root : Flags) (key : Val) (v : Val) (es : Tree) : Except Err Tree :=
  match key with
  | .leaf ⟨.str, fullKey⟩ =>
    if root.deprecated.contains fullKey then .ok es
    else if root.renamed.contains fullKey then .error .keyError
    else assignPath lit v (splitDots fullKey) es
  | _ => .error .attributeError                        -- non-string keys have no usable `.split`

/-- The loop `for full_key, v in zip(cfg_list[0::2], cfg_list[1::2])`, cfgnode.py:220-236. -/
def listLoop (lit : String → LitRes) (root : Flags) : List Val → Tree → Tree × Option Err
  | k :: v :: rest, es =>
    match listStep lit root k v es with
    | .error e => (es, some e)
    | .ok es' => listLoop lit root rest es'
  | _, es => (es, none)

/-- `CfgNode.merge_from_list`, cfgnode.py:208-236. -/
def mergeFromList (lit : String → LitRes) (f : Flags) (es : Tree) (cfgList : List Val) : Tree × Option Err :=
  if cfgList.length % 2 = 0 then listLoop lit f cfgList es else (es, some .assertion)

/-- `_immutable` on the values of a node, cfgnode.py:250-264: recursive over nested `CfgNode`s (not plain dicts). -/
def setImmutable (b : Bool) : Tree → Tree
  | .nil => .nil
  | .leaf k l rest => .leaf k l (setImmutable b rest)
  | .sub k none es rest => .sub k none es (setImmutable b rest)
  | .sub k (some f) es rest =>
    .sub k (some { f with immutable := b }) (setImmutable b es) (setImmutable b rest)

/-- `CfgNode.freeze`, cfgnode.py:238-240 / `CfgNode.defrost`, cfgnode.py:242-244. -/
def freeze : Val → Val
  | .sub (some f) es => .sub (some { f with immutable := true }) (setImmutable true es)
  | v => v
def defrost : Val → Val
  | .sub (some f) es => .sub (some { f with immutable := false }) (setImmutable false es)
  | v => v

/-- Names in `self.__dict__`, cfgnode.py:42-45. -/
def internalNames : List String := ["__immutable__", "__deprecated_keys__", "__renamed_keys__", "__new_allowed__"]

/-- `CfgNode.__setattr__`, cfgnode.py:122-142, with `_valid_type(value, allow_cfg_node=True)`. -/
def setattr (name : String) (value : Val) : Val → Except Err Val
  | .sub (some f) es =>
    if f.immutable then .error .attributeError
    else if internalNames.contains name then .error .assertion
    else match value with
      | .leaf l => if l.valid then .ok (.sub (some f) (es.set name value)) else .error .assertion
      | .sub none _ => .error .assertion
      | .sub (some _) _ => .ok (.sub (some f) (es.set name value))
  | _ => .error .attributeError

/-- `cfg.A.B.name = value`: attribute walk (cfgnode.py:116-120 `__getattr__`) then `__setattr__` on the node reached.
-/
def setattrAt (name : String) (value : Val) : List String → Val → Except Err Val
  | [], v => setattr name value v
  | k :: ks, .sub (some f) es =>
    match es.get k with
    | none => .error .attributeError
    | some c => do
      let c' ← setattrAt name value ks c
      .ok (.sub (some f) (es.set k c'))
  | _ :: _, _ => .error .attributeError

/-- Item assignment `cfg[k] = v` (inherited from `dict`; not intercepted by the class). -/
def setItem (k : String) (v : Val) : Val → Except Err Val
  | .sub kd es => .ok (.sub kd (es.set k v))
  | .leaf _ => .error .typeError

/-- `_convert_to_dict` of `CfgNode.dump`, cfgnode.py:171-185, on the entries of a node: nested nodes become plain
dicts, leaves must be valid, and a plain dict value is not a valid type. -/
def toDict : Tree → Except Err Tree
  | .nil => .ok .nil
  | .leaf k l rest =>
    if l.valid then do let r ← toDict rest; .ok (.leaf k l r) else .error .assertion
  | .sub _ none _ _ => .error .assertion
  | .sub k (some _) es rest => do
    let e ← toDict es
    let r ← toDict rest
    .ok (.sub k none e r)

/-- `CfgNode.register_deprecated_key`, cfgnode.py:270-279 / `register_renamed_key`, cfgnode.py:281-295. -/
def registerDeprecated (key : String) (f : Flags) : Except Err Flags :=
  if f.deprecated.contains key then .error .assertion else .ok { f with deprecated := f.deprecated ++ [key] }
def registerRenamed (key : String) (f : Flags) : Except Err Flags :=
  if f.renamed.contains key then .error .assertion else .ok { f with renamed := f.renamed ++ [key] }

end Verif.Cfg
