import Verif.PC.Idx
/-!
Memory model of `gradslam/structures/pointclouds.py`: which tensors of a `Pointclouds` object are stored where, on which device, and
which of them share their storage with tensors of other objects or with tensors the caller holds.

`Verif.PC.Model` treats tensors as values.  Here a tensor is an address (or a view into an address), an object is a record of
addresses, and every method says which addresses the object refers to afterwards and what was allocated.  No method of the class
writes into an existing tensor (they rebind fields); the caller can, and that is what sharing is about (`Mem.poke`).

Simplifications: storage contents are the values of `Verif.PC.Model` (no dtypes, no strides); an allocation block may be larger than
what ends up being referred to; the Python list objects returned by `points_list` etc. are not modelled as mutable objects, only
the tensors in them.
-/
namespace Verif.Mem
open Verif Verif.Pcs

/-- A device with its index: what `tensor.device` returns. -/
inductive Dev
  | cpu
  | gpu (i : Nat)
  deriving DecidableEq, Repr

/-- What the caller may pass as `device`: a `torch.device` with an index (or the CPU), a string naming one, or `cuda` without an index
as `torch.device` or as string. -/
inductive DevArg
  | exact (d : Dev)
  | name (d : Dev)
  | anyGpu
  | anyGpuName
  deriving DecidableEq, Repr

/-- `torch.Tensor().to(device).device` ("hack to know which gpu is used when device("cuda")", pointclouds.py:1085-1086,
rgbdimages.py:512-513): the device that is meant, `cur` being the current GPU. -/
def DevArg.meant (cur : Nat) : DevArg → Dev
  | .exact d => d
  | .name d => d
  | .anyGpu => .gpu cur
  | .anyGpuName => .gpu cur

/-- `self.device == device` as torch evaluates it (pointclouds.py:1080, :1084): a `torch.device` equals neither a string nor a
`torch.device` with a different index or without one. -/
def DevArg.same (d : Dev) : DevArg → Bool
  | .exact e => d = e
  | _ => false

/-- One storage: its device and its contents (floats for the attributes, bools for the mask, integers for the sizes). -/
structure Cell (α : Type*) where
  dev : Dev
  vals : List (T2 α)
  bits : List (List Bool)
  nums : List Nat

structure Mem (α : Type*) where
  next : Nat
  cell : Nat → Cell α

/-- The 2-D tensor `storage[slot, :len]`; a tensor of its own is slot 0 of a storage with a single slot. -/
structure View where
  ref : Nat
  slot : Nat
  len : Nat
  deriving DecidableEq, Repr

/-- The private fields of a `Pointclouds` object, pointclouds.py:90-108, tensors replaced by addresses. -/
structure Obj where
  lst : Attr → Option (List View)
  pad : Attr → Option Nat
  mask : Option Nat
  num : Nat
  has : Attr → Option Bool
  eq : Option Bool
  B : Nat
  N : Nat
  dev : Dev

section
variable {α : Type*}

/-- Allocate `k` cells with the given contents. -/
def Mem.alloc (m : Mem α) (k : Nat) (f : Nat → Cell α) : Mem α :=
  ⟨m.next + k, fun r => if r < m.next then m.cell r else f (r - m.next)⟩

/-- Write into the storage at `r`: any new contents, on the same device. -/
def Mem.poke (m : Mem α) (r : Nat) (c : Cell α) : Mem α :=
  ⟨m.next, fun q => if q = r then { c with dev := (m.cell r).dev } else m.cell q⟩

/-- The value of a 2-D tensor. -/
def Mem.read (m : Mem α) (v : View) : T2 α := T2.take v.len ((m.cell v.ref).vals.getD v.slot ⟨[], 0⟩)

/-- The object as `Verif.PC.Model` sees it: what its fields contain at the moment. -/
def val (m : Mem α) (o : Obj) : PC α :=
  ⟨fun X => (o.lst X).map fun l => l.map m.read, fun X => (o.pad X).map fun r => (m.cell r).vals,
    o.mask.map fun r => (m.cell r).bits, o.has, (m.cell o.num).nums, o.eq, o.B, o.N⟩

/-- The storages an object refers to. -/
def Holds (o : Obj) (r : Nat) : Prop :=
  r = o.num ∨ o.mask = some r ∨ (∃ X, o.pad X = some r) ∨ ∃ X l, o.lst X = some l ∧ ∃ v ∈ l, v.ref = r

/-! ### Passing tensors on: `.clone()`, `.to(device)`, `.detach()` -/

/-- How a tensor is passed on: shared if `keep`, otherwise copied to a new storage on device `dev`. -/
structure Pass (α : Type*) where
  keep : Cell α → Bool
  dev : Cell α → Dev

/-- `t.clone()`. -/
def Pass.clone : Pass α := ⟨fun _ => false, fun c => c.dev⟩
/-- `t.to(d)`: the tensor itself if it is on `d` already. -/
def Pass.to (d : Dev) : Pass α := ⟨fun c => c.dev = d, fun _ => d⟩
/-- `t.detach()`: a tensor on the same storage. -/
def Pass.detach : Pass α := ⟨fun _ => true, fun c => c.dev⟩

/-- Pass on a list of 2-D tensors. -/
def passList (p : Pass α) (m : Mem α) (l : List View) : Mem α × List View :=
  (m.alloc l.length fun i => ⟨p.dev (m.cell (l.getD i ⟨0, 0, 0⟩).ref), [m.read (l.getD i ⟨0, 0, 0⟩)], [], []⟩,
    l.mapIdx fun i v => if p.keep (m.cell v.ref) then v else ⟨m.next + i, 0, (m.read v).rows.length⟩)

/-- Pass on a whole storage. -/
def passOne (p : Pass α) (m : Mem α) (r : Nat) : Mem α × Nat :=
  if p.keep (m.cell r) then (m, r) else (m.alloc 1 fun _ => { m.cell r with dev := p.dev (m.cell r) }, m.next)

/-- `None if x is None else …`. -/
def passOpt {β : Type*} (f : Mem α → β → Mem α × β) (m : Mem α) : Option β → Mem α × Option β
  | none => (m, none)
  | some x => ((f m x).1, some (f m x).2)

/-- The four attributes one after the other. -/
def each {β : Type*} (f : Mem α → β → Mem α × β) (m : Mem α) (a : Attr → Option β) : Mem α × (Attr → Option β) :=
  let p := passOpt f m (a .points)
  let n := passOpt f p.1 (a .normals)
  let c := passOpt f n.1 (a .colors)
  let x := passOpt f c.1 (a .features)
  (x.1, fun | .points => p.2 | .normals => n.2 | .colors => c.2 | .features => x.2)

/-! ### Construction -/

/-- `Pointclouds(device=…)`, pointclouds.py:222-231. -/
def newEmpty (m : Mem α) (d : Dev) : Mem α × Obj :=
  (m.alloc 1 fun _ => ⟨d, [], [], [0]⟩, ⟨fun _ => none, fun _ => none, none, m.next, fun _ => none, none, 0, 0, d⟩)

/-- The values of lists of tensors. -/
def readLists (m : Mem α) (arg : Attr → Option (List View)) : Attr → Option (List (T2 α)) := fun X => (arg X).map fun l => l.map m.read

/-- `Pointclouds(points=[…], …)`, pointclouds.py:110-170: the tensors are not copied if they are on the device already. -/
def newList (m : Mem α) (arg : Attr → Option (List View)) (P : List View) (device : Option Dev) : Except Err Obj × Mem α :=
  match Pcs.newList (readLists m arg) (P.map m.read) with
  | .error e => (.error e, m)
  | .ok s =>
    let d := device.getD (m.cell (P.headD ⟨0, 0, 0⟩).ref).dev
    let q := each (passList (Pass.to d)) m arg
    (.ok ⟨q.2, fun _ => none, none, q.1.next, fun _ => none, s.eq, s.B, s.N, d⟩, q.1.alloc 1 fun _ => ⟨d, [], [], s.num⟩)

/-- `Pointclouds(points=tensor, …)`, pointclouds.py:172-220. -/
def newTensor (m : Mem α) (arg : Attr → Option Nat) (P : Nat) (device : Option Dev) : Except Err Obj × Mem α :=
  match Pcs.newTensor (fun X => (arg X).map fun r => (m.cell r).vals) (m.cell P).vals with
  | .error e => (.error e, m)
  | .ok s =>
    let d := device.getD (m.cell P).dev
    let q := each (passOne (Pass.to d)) m arg
    (.ok ⟨fun _ => none, q.2, none, q.1.next, fun _ => none, s.eq, s.B, s.N, d⟩, q.1.alloc 1 fun _ => ⟨d, [], [], s.num⟩)

/-! ### Queries and getters -/

/-- `has_points` etc., pointclouds.py:616-666. -/
def hasAttr (X : Attr) (o : Obj) : Bool × Obj :=
  match o.has X with
  | some b => (b, o)
  | none =>
    let b := (o.lst X).isSome || (o.pad X).isSome
    (b, { o with has := Function.update o.has X (some b) })

/-- `num_features`, pointclouds.py:668-680. -/
def numFeatures (m : Mem α) (o : Obj) : Nat × Obj :=
  let (h, o) := hasAttr .features o
  if !h then (0, o)
  else match o.pad .features with
    | some r => ((shape3 (m.cell r).vals).2.2, o)
    | none => match o.lst .features with
      | some l => ((shape3 (l.map m.read)).2.2, o)
      | none => (0, o)

/-- `points_list` etc., pointclouds.py:682-736: slices of the padded tensor share its storage. -/
def getList (X : Attr) (m : Mem α) (o : Obj) : Option (List View) × Obj :=
  match o.lst X, o.pad X with
  | some l, _ => (some l, o)
  | none, none => (none, o)
  | none, some r =>
    let l := List.zipWith (fun b n => ⟨r, b, n⟩) (List.range (m.cell r).vals.length) (m.cell o.num).nums
    (some l, { o with lst := Function.update o.lst X (some l) })

/-- `nonpad_mask`, pointclouds.py:790-809. -/
def getMask (m : Mem α) (o : Obj) : Option Nat × Mem α × Obj :=
  match o.mask with
  | some r => (some r, m, o)
  | none =>
    let (h, o) := hasAttr .points o
    if h then
      let bits := (List.range o.B).map fun b => (List.range o.N).map fun n =>
        decide (n < if o.eq = some true then (m.cell o.num).nums.headD 0 else (m.cell o.num).nums.getD b 0)
      (some m.next, m.alloc 1 fun _ => ⟨o.dev, [], bits, []⟩, { o with mask := some m.next })
    else (none, m, o)

variable [Zero α]

/-- One assignment of `_compute_padded`, pointclouds.py:960-995: `list_to_padded` makes a new tensor on the device of the first one
(structutils.py:77-80). -/
def fillPad (X : Attr) (C : Nat) (m : Mem α) (o : Obj) : Except Err Unit × Mem α × Obj :=
  match o.lst X with
  | none => (.ok (), m, { o with pad := Function.update o.pad X none })
  | some l => match listToPadded (l.map m.read) o.N C o.eq with
    | .error e => (.error e, m, o)
    | .ok p => (.ok (), m.alloc 1 fun _ => ⟨(m.cell (l.headD ⟨0, 0, 0⟩).ref).dev, p, [], []⟩,
        { o with pad := Function.update o.pad X (some m.next) })

/-- `_compute_padded`, pointclouds.py:948-995. -/
def computePadded (m : Mem α) (o : Obj) : Except Err Unit × Mem α × Obj :=
  let (h, o) := hasAttr .points o
  if !h then (.ok (), m, o)
  else if (o.pad .points).isSome then (.ok (), m, o)
  else match o.lst .points with
    | none => (.error .typeError, m, o)
    | some _ =>
      match fillPad .points 3 m o with
      | (.error e, m, o) => (.error e, m, o)
      | (.ok (), m, o) => match fillPad .normals 3 m o with
        | (.error e, m, o) => (.error e, m, o)
        | (.ok (), m, o) => match fillPad .colors 3 m o with
          | (.error e, m, o) => (.error e, m, o)
          | (.ok (), m, o) =>
            let (C, o) := if (o.lst .features).isSome then numFeatures m o else (0, o)
            fillPad .features C m o

/-- `points_padded` etc., pointclouds.py:738-788. -/
def getPad (X : Attr) (m : Mem α) (o : Obj) : Except Err (Option Nat) × Mem α × Obj :=
  match computePadded m o with
  | (.error e, m, o) => (.error e, m, o)
  | (.ok (), m, o) => (.ok (o.pad X), m, o)

/-! ### Setters: the given tensors are cloned -/

/-- `X_padded = t`, pointclouds.py:880-946, :1385-1427 (the tensor must be on the device of the object). -/
def setPad [DecidableEq α] (X : Attr) (t : Nat) (m : Mem α) (o : Obj) : Except Err Unit × Mem α × Obj :=
  let (h, o) := hasAttr .points o
  if !h then (.error .valueError, m, o)
  else if (m.cell t).dev ≠ o.dev then (.error .valueError, m, o)
  else match getPad .points m o with
    | (.error e, m, o) => (.error e, m, o)
    | (.ok p, m, o) =>
      let v := (m.cell t).vals
      let ps := shape3 ((p.map fun r => (m.cell r).vals).getD [])
      if X = .features ∧ ((shape3 v).1, (shape3 v).2.1) ≠ (ps.1, ps.2.1) then (.error .valueError, m, o)
      else if X ≠ .features ∧ shape3 v ≠ ps then (.error .valueError, m, o)
      else if !zeroBeyond v (m.cell o.num).nums then (.error .valueError, m, o)
      else (.ok (), m.alloc 1 fun _ => ⟨o.dev, v, [], []⟩,
        { o with pad := Function.update o.pad X (some m.next), lst := Function.update o.lst X none })

/-- `X_list = ts`, pointclouds.py:824-878, :1429-1467 (the tensors may be on any device). -/
def setList (X : Attr) (ts : List View) (m : Mem α) (o : Obj) : Except Err Unit × Mem α × Obj :=
  let (h, o) := hasAttr .points o
  if !h then (.error .valueError, m, o)
  else if o.B ≠ ts.length then (.error .valueError, m, o)
  else
    let (p, o) := getList .points m o
    let P := (p.getD []).map m.read
    let v := ts.map m.read
    if X = .features ∧ v.map (·.rows.length) ≠ P.map (·.rows.length) then (.error .valueError, m, o)
    else if X ≠ .features ∧ v.map T2.shape ≠ P.map T2.shape then (.error .valueError, m, o)
    else
      let q := passList ⟨fun _ => false, fun _ => o.dev⟩ m ts
      (.ok (), q.1, { o with lst := Function.update o.lst X (some q.2),
                             pad := if X = .points then Function.update o.pad .points none else o.pad })

/-! ### clone, detach, to -/

omit [Zero α] in
/-- `for k in self._INTERNAL_TENSORS: …` (pointclouds.py:1040-1043, :1061-1064, :1095-1098, :1167-1170): the padded tensors, the mask
and the sizes of `s` are passed on to `c`. -/
def passInternal (p : Pass α) (m : Mem α) (s c : Obj) : Mem α × Obj :=
  let q := each (passOne p) m s.pad
  let k := passOpt (passOne p) q.1 s.mask
  let n := passOne p k.1 s.num
  (n.1, { c with pad := fun X => if (q.2 X).isSome then q.2 X else c.pad X, mask := if k.2.isSome then k.2 else c.mask, num := n.2 })

omit [Zero α] in
/-- `clone`, pointclouds.py:997-1044. -/
def clone (m : Mem α) (o : Obj) : Except Err Obj × Mem α × Obj :=
  let (h, o) := hasAttr .points o
  if !h then (.ok (newEmpty m o.dev).2, (newEmpty m o.dev).1, o)
  else match o.lst .points with
    | some _ =>
      let q := each (passList Pass.clone) m o.lst
      match newList q.1 q.2 ((q.2 .points).getD []) none with
      | (.error e, m) => (.error e, m, o)
      | (.ok c, m) => (.ok (passInternal Pass.clone m o c).2, (passInternal Pass.clone m o c).1, o)
    | none => match o.pad .points with
      | some _ =>
        let q := each (passOne Pass.clone) m o.pad
        match newTensor q.1 q.2 ((q.2 .points).getD 0) none with
        | (.error e, m) => (.error e, m, o)
        | (.ok c, m) => (.ok (passInternal Pass.clone m o c).2, (passInternal Pass.clone m o c).1, o)
      | none => (.error .typeError, m, o)

omit [Zero α] in
/-- `detach`, pointclouds.py:1046-1065: the lists are those of the clone, the internal tensors those of `self`. -/
def detach (m : Mem α) (o : Obj) : Except Err Obj × Mem α × Obj :=
  match clone m o with
  | (.error e, m, o) => (.error e, m, o)
  | (.ok c, m, o) => (.ok (passInternal Pass.detach m o c).2, (passInternal Pass.detach m o c).1, o)

/-- What `to` returns: the object itself or a new one. -/
inductive Moved
  | self
  | new (c : Obj)

omit [Zero α] in
/-- `to`, pointclouds.py:1067-1099 (`cpu()`, :1101-1107, is `to` with `exact cpu`, `cuda()`, :1109-1115, with `anyGpu`).  The lists of the
clone are moved, the internal tensors are moved from `self`. -/
def toDevice (cur : Nat) (a : DevArg) (copy : Bool) (m : Mem α) (o : Obj) : Except Err Moved × Mem α × Obj :=
  if !copy && a.same o.dev then (.ok .self, m, o)
  else match clone m o with
    | (.error e, m, o) => (.error e, m, o)
    | (.ok c, m, o) =>
      if a.same o.dev then (.ok (.new c), m, o)
      else
        let q := each (passList (Pass.to (a.meant cur))) m c.lst
        let k := passInternal (Pass.to (a.meant cur)) q.1 o { c with lst := q.2, dev := a.meant cur }
        (.ok (.new k.2), k.1, o)

/-! ### append_points -/

omit [Zero α] in
/-- `[torch.cat([s[b], o[b]], 0) for b in …]`: new tensors. -/
def catLists (m : Mem α) (l k : List View) : Mem α × List View :=
  let c := List.zipWith (fun v w => (⟨(m.read v).rows ++ (m.read w).rows, (m.read v).cols⟩ : T2 α)) l k
  (m.alloc c.length fun i => ⟨(m.cell (l.getD i ⟨0, 0, 0⟩).ref).dev, [c.getD i ⟨[], 0⟩], [], []⟩,
    c.mapIdx fun i t => ⟨m.next + i, 0, t.rows.length⟩)

omit [Zero α] in
def appendAttr (X : Attr) (m : Mem α) (s o : Obj) : Mem α × Obj × Obj :=
  let (l, s) := getList X m s
  let (k, o) := getList X m o
  let q := catLists m (l.getD []) (k.getD [])
  (q.1, { s with lst := Function.update s.lst X (some q.2), pad := Function.update s.pad X none }, o)

omit [Zero α] in
def appendIf (X : Attr) (m : Mem α) (s o : Obj) : Mem α × Obj × Obj :=
  let (h, s) := hasAttr X s
  if h then appendAttr X m s o else (m, s, o)

omit [Zero α] in
/-- Copy one attribute list into an empty object, pointclouds.py:1145-1159. -/
def copyAttr (X : Attr) (m : Mem α) (s o : Obj) : Mem α × Obj × Obj :=
  let (h, o) := hasAttr X o
  if h then
    let (l, o) := getList X m o
    let q := passOpt (passList ⟨fun _ => false, fun _ => s.dev⟩) m l
    (q.1, { s with lst := Function.update s.lst X q.2 }, o)
  else (m, s, o)

omit [Zero α] in
/-- `append_points`, pointclouds.py:1117-1237. -/
def append (m : Mem α) (s o : Obj) : Except Err Unit × Mem α × Obj × Obj :=
  if o.dev ≠ s.dev then (.error .valueError, m, s, o)
  else
  let (ho, o) := hasAttr .points o
  if !ho then (.ok (), m, s, o)
  else
    let (hs, s) := hasAttr .points s
    if !hs then
      let (l, o) := getList .points m o
      let q := passOpt (passList ⟨fun _ => false, fun _ => s.dev⟩) m l
      let m := q.1
      let s := { s with lst := Function.update s.lst .points q.2 }
      let (m, s, o) := copyAttr .normals m s o
      let (m, s, o) := copyAttr .colors m s o
      let (m, s, o) := copyAttr .features m s o
      let k := passInternal Pass.clone m o { s with has := o.has, B := o.B, N := o.N, eq := o.eq }
      (.ok (), k.1, k.2, o)
    else if o.B ≠ s.B then (.error .valueError, m, s, o)
    else
      let (n1, s) := hasAttr .normals s
      let (n2, o) := hasAttr .normals o
      if n1 ≠ n2 then (.error .valueError, m, s, o)
      else
        let (c1, s) := hasAttr .colors s
        let (c2, o) := hasAttr .colors o
        if c1 ≠ c2 then (.error .valueError, m, s, o)
        else
          let (f1, s) := hasAttr .features s
          let (f2, o) := hasAttr .features o
          if f1 ≠ f2 then (.error .valueError, m, s, o)
          else
            let (k1, s) := if f1 then numFeatures m s else (0, s)
            let (k2, o) := if f1 then numFeatures m o else (0, o)
            if k1 ≠ k2 then (.error .valueError, m, s, o)
            else
              let (m, s, o) := appendAttr .points m s o
              let (m, s, o) := appendIf .normals m s o
              let (m, s, o) := appendIf .colors m s o
              let (m, s, o) := appendIf .features m s o
              let num := List.zipWith (· + ·) (m.cell s.num).nums (m.cell o.num).nums
              (.ok (), m.alloc 1 fun _ => ⟨s.dev, [], [], num⟩,
                { s with num := m.next, eq := some (equi num), N := maxL num, mask := none }, o)

/-! ### Indexing: "the pointclouds tensors are not cloned" -/

omit [Zero α] in
/-- `[l[i] for i in index]`. -/
def select (idx : Index) (l : List View) : Except Err (List View) :=
  match resolve l.length idx with
  | .error e => .error e
  | .ok is => .ok (is.map fun i => l.getD i ⟨0, 0, 0⟩)

omit [Zero α] in
def selectAttr (idx : Index) (X : Attr) (m : Mem α) (o : Obj) : Except Err (Option (List View)) × Obj :=
  let (h, o) := hasAttr X o
  if !h then (.ok none, o)
  else
    let (l, o) := getList X m o
    match select idx (l.getD []) with
    | .error e => (.error e, o)
    | .ok k => (.ok (some k), o)

/-- The four attributes as a function. -/
def four {β : Type*} (p n c f : β) : Attr → β
  | .points => p
  | .normals => n
  | .colors => c
  | .features => f

omit [Zero α] in
/-- `__getitem__`, pointclouds.py:242-298. -/
def getitem (idx : Index) (m : Mem α) (o : Obj) : Except Err Obj × Mem α × Obj :=
  let (h, o) := hasAttr .points o
  if !h then (.error .indexError, m, o)
  else
    match selectAttr idx .points m o with
    | (.error e, o) => (.error e, m, o)
    | (.ok p, o) => match selectAttr idx .normals m o with
      | (.error e, o) => (.error e, m, o)
      | (.ok n, o) => match selectAttr idx .colors m o with
        | (.error e, o) => (.error e, m, o)
        | (.ok c, o) => match selectAttr idx .features m o with
          | (.error e, o) => (.error e, m, o)
          | (.ok f, o) => ((newList m (four p n c f) (p.getD []) none).1, (newList m (four p n c f) (p.getD []) none).2, o)
end

/-! ### Geometric operations: new padded tensors -/
section geo
variable {α : Type*} [Field α]

omit [Field α] in
/-- A new padded tensor for attribute `X` computed row by row from the old one, and no list. -/
def rebind (X : Attr) (g : Nat → Nat → List α → List α) (m : Mem α) (o : Obj) : Mem α × Obj :=
  match o.pad X with
  | none => (m, { o with lst := Function.update o.lst X none })
  | some r => (m.alloc 1 fun _ => ⟨(m.cell r).dev, mapRows g (m.cell r).vals, [], []⟩,
      { o with pad := Function.update o.pad X (some m.next), lst := Function.update o.lst X none })

/-- The mask as numbers. -/
def bitsOf (m : Mem α) (r : Option Nat) : List (List Bool) := (r.map fun r => (m.cell r).bits).getD []

/-- `offset_`, pointclouds.py:399-430. -/
def offset_ (f : Nat → Nat → Nat → α) (m : Mem α) (o : Obj) : Except Err Unit × Mem α × Obj :=
  let (h, o) := hasAttr .points o
  if !h then (.ok (), m, o)
  else match getPad .points m o with
    | (.error e, m, o) => (.error e, m, o)
    | (.ok _, m, o) =>
      let (k, m, o) := getMask m o
      let q := rebind .points (fun b n r => r.mapIdx fun c x => x + f b n c * maskVal (bitsOf m k) b n) m o
      (.ok (), q.1, q.2)

/-- `scale_`, pointclouds.py:432-464. -/
def scale_ (f : Nat → Nat → Nat → α) (m : Mem α) (o : Obj) : Except Err Unit × Mem α × Obj :=
  let (h, o) := hasAttr .points o
  if !h then (.ok (), m, o)
  else match getPad .points m o with
    | (.error e, m, o) => (.error e, m, o)
    | (.ok _, m, o) =>
      let (k, m, o) := getMask m o
      let q := rebind .points (fun b n r => r.mapIdx fun c x => x * f b n c * maskVal (bitsOf m k) b n) m o
      (.ok (), q.1, q.2)

/-- `rotate_`, pointclouds.py:466-524. -/
def rotate_ (R : Operand (M3 α)) (pre : Bool) (m : Mem α) (o : Obj) : Except Err Unit × Mem α × Obj :=
  if R.badSize o.B then (.error .valueError, m, o)
  else
    let (h, o) := hasAttr .points o
    if !h then (.ok (), m, o)
    else match getPad .points m o with
      | (.error e, m, o) => (.error e, m, o)
      | (.ok _, m, o) =>
        let g := fun b (_ : Nat) r => rowMul (if pre then (R.at M3.one b).transpose else R.at M3.one b) r
        let q := rebind .points g m o
        let k := rebind .normals g q.1 q.2
        (.ok (), k.1, k.2)

/-- `transform_`, pointclouds.py:526-573. -/
def transform_ (T : Operand (M4 α)) (pre : Bool) (m : Mem α) (o : Obj) : Except Err Unit × Mem α × Obj :=
  if T.badSize o.B then (.error .valueError, m, o)
  else
    let (h, o) := hasAttr .points o
    if !h then (.ok (), m, o)
    else match getPad .points m o with
      | (.error e, m, o) => (.error e, m, o)
      | (.ok _, m, o) =>
        match rotate_ (T.map M4.R) pre m o with
        | (.error e, m, o) => (.error e, m, o)
        | (.ok (), m, o) => offset_ (fun b _ c => comp (T.at M4.one b).t c) m o

/-- `pinhole_projection_`, pointclouds.py:575-614. -/
def pinholeProjection_ [LinearOrder α] (K : Operand (M4 α)) (m : Mem α) (o : Obj) : Except Err Unit × Mem α × Obj :=
  let (h, o) := hasAttr .points o
  if !h then (.ok (), m, o)
  else match getPad .points m o with
    | (.error e, m, o) => (.error e, m, o)
    | (.ok _, m, o) =>
      if K.badSize o.B then (.error .valueError, m, o)
      else
        let (k, m, o) := getMask m o
        let q := rebind .points (fun b n r => (projRow (K.at M4.one b) r).map fun x => x * maskVal (bitsOf m k) b n) m o
        (.ok (), q.1, q.2)

/-- Out-of-place versions, pointclouds.py:300-397: `self.clone().op_(…)`. -/
def outOfPlace (op : Mem α → Obj → Except Err Unit × Mem α × Obj) (m : Mem α) (o : Obj) : Except Err Obj × Mem α × Obj :=
  match clone m o with
  | (.error e, m, o) => (.error e, m, o)
  | (.ok c, m, o) => match op m c with
    | (.error e, m, _) => (.error e, m, o)
    | (.ok (), m, c) => (.ok c, m, o)
end geo
end Verif.Mem
