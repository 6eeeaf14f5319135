import Verif.Data.Window
/-!
Model of the text-file readers: `tumutils.read_file_list`, `tumutils.read_trajectory`, `ICL` pose indexing and
`ICL._loadPoses`, `Scannet` sequence handling.  Properties C11, C12, C59, C62.

A file's content is a list of characters (text mode, so line ends are already `\n`).
-/
namespace Verif.Data

abbrev Str := List Char

/-- `s.split(c)` for a one-character separator. -/
def splitC (c : Char) : Str → List Str
  | [] => [[]]
  | x :: xs =>
    if x = c then [] :: splitC c xs
    else match splitC c xs with
      | [] => [[x]]
      | h :: t => (x :: h) :: t

/-- ASCII white space, as removed by `str.strip()`. -/
def isWs (c : Char) : Bool := c = ' ' || c = '\t' || c = '\n' || c = '\r' || c = '\x0b' || c = '\x0c'

/-- `s.strip()`. -/
def strip (s : Str) : Str := ((s.dropWhile isWs).reverse.dropWhile isWs).reverse

/-- `data.replace(",", " ").replace("\t", " ")`, tumutils.py:112 and :166. -/
def unify (s : Str) : Str := s.map fun c => if c = ',' ∨ c = '\t' then ' ' else c

/-- `[v.strip() for v in line.split(" ") if v.strip() != ""]`, tumutils.py:168. -/
def fields (line : Str) : List Str := ((splitC ' ' line).filter fun v => strip v ≠ []).map strip

/-- `len(line) > 0 and line[0] != "#"`, tumutils.py:170 and :116. -/
def isData : Str → Bool
  | [] => false
  | c :: _ => c ≠ '#'

/-- `dict(list_of_pairs)`: insertion order of the first occurrence, the last value wins. -/
def dictInsert {κ β : Type} [DecidableEq κ] : List (κ × β) → κ → β → List (κ × β)
  | [], k, v => [(k, v)]
  | p :: d, k, v => if p.1 = k then (k, v) :: d else p :: dictInsert d k v

def dictOf {κ β : Type} [DecidableEq κ] (l : List (κ × β)) : List (κ × β) :=
  l.foldl (fun d p => dictInsert d p.1 p.2) []

/-- `(l[0], l[1:]) for l in list if len(l) > 1`, tumutils.py:178. -/
def rowPair : List Str → Option (Str × List Str)
  | k :: v :: vs => some (k, v :: vs)
  | _ => none

/-- `read_file_list`, tumutils.py:146-179 (the warning at :174-176 has no effect).  `end` defaults to the number of raw lines,
which is at least the number of data lines. -/
def readFileList (data : Str) (start stop : Option Nat) : List (Str × List Str) :=
  let lines := splitC '\n' (unify data)
  let l := (lines.filter isData).map fields
  let l := slice l (start.getD 0) (stop.getD lines.length)
  dictOf (l.filterMap rowPair)

/-! #### read_trajectory -/

/-- An entry of a trajectory line: a string (first column) or a float, `none` being NaN. -/
inductive Entry (α : Type)
  | str (s : Str)
  | num (x : Option α)
  deriving DecidableEq

/-- `np.isnan(v)` for a float entry, tumutils.py:129. -/
def Entry.isNaN {α : Type} : Entry α → Bool
  | .num none => true
  | _ => false

/-- The column loop, tumutils.py:117-121: `n` counts the pieces of `line.split(" ")`, empty ones included, and only piece 0 stays
a string; `float` raises ValueError on a malformed number (`pf` is `float`). -/
def trajCols {α : Type} (pf : Str → Option (Option α)) : Nat → List Str → Except Err (List (Entry α))
  | _, [] => .ok []
  | n, v :: vs =>
    if strip v = [] then trajCols pf (n + 1) vs
    else
      match (if n > 0 then (pf (strip v)).map Entry.num else some (.str (strip v))) with
      | none => .error .valueError
      | some e => match trajCols pf (n + 1) vs with
        | .error er => .error er
        | .ok es => .ok (e :: es)

/-- Filter loop, tumutils.py:123-138: lines whose entries 4..7 are `[0,0,0,0]` are dropped; on a NaN the code calls
`sys.stderr.write`, but `sys` is not imported in tumutils.py, so a NameError is raised. -/
def trajFilter {α : Type} [DecidableEq α] [Zero α] : List (List (Entry α)) → Except Err (List (List (Entry α)))
  | [] => .ok []
  | l :: ls =>
    if slice l 4 8 = [.num (some 0), .num (some 0), .num (some 0), .num (some 0)] then trajFilter ls
    else if l.tail.any Entry.isNaN then .error .nameError
    else match trajFilter ls with
      | .error e => .error e
      | .ok r => .ok (l :: r)

/-- `mapM` for `Except`, spelled out. -/
def mapE {β γ : Type} (g : β → Except Err γ) : List β → Except Err (List γ)
  | [] => .ok []
  | x :: xs => match g x with
    | .error e => .error e
    | .ok y => match mapE g xs with
      | .error e => .error e
      | .ok ys => .ok (y :: ys)

/-- `read_trajectory(filename, matrix=False)`, tumutils.py:95-143.  `l[0]` raises IndexError on a line of blanks. -/
def readTrajectory {α : Type} [DecidableEq α] [Zero α] (pf : Str → Option (Option α)) (data : Str) :
    Except Err (List (Entry α × List (Entry α))) :=
  match mapE (fun line => trajCols pf 0 (splitC ' ' line)) ((splitC '\n' (unify data)).filter isData) with
  | .error e => .error e
  | .ok rows => match trajFilter rows with
    | .error e => .error e
    | .ok ok => match mapE (fun l => match l with
        | [] => .error .indexError
        | k :: _ => .ok (k, slice l 1 8)) ok with
      | .error e => .error e
      | .ok ps => .ok (dictOf ps)

/-! #### ICL -/

/-- Cutting a trajectory's association lines, icl.py:306-316: `end=None` means all lines; the last line of trajectory 0 is
dropped; then `lines[start:end]`. -/
def iclLines {β : Type*} (isTraj0 : Bool) (start : Nat) (stop : Option Nat) (lines : List β) : List β :=
  let e := stop.getD lines.length
  slice (if isTraj0 then lines.dropLast else lines) start e

/-- Pose line numbers, icl.py:337-348: `line_num` counts from 0 *within the cut lines*; ValueError if `line_num*4` exceeds the
number of lines of the pose file. -/
def iclPoseLines {β : Type*} (posesLen : Nat) : Nat → List β → Except Err (List (β × Nat))
  | _, [] => .ok []
  | k, x :: xs =>
    if k * 4 > posesLen then .error .valueError
    else match iclPoseLines posesLen (k + 1) xs with
      | .error e => .error e
      | .ok r => .ok ((x, k * 4) :: r)

/-- All items of one ICL trajectory: per window, the frames and the pose start lines (icl.py:306-368). -/
def iclItems {β : Type*} (w : Win) (isTraj0 : Bool) (posesLen : Nat) (lines : List β) :
    Except Err (List (List (β × Nat))) :=
  match iclPoseLines posesLen 0 (iclLines isTraj0 w.start w.stop lines) with
  | .error e => .error e
  | .ok fs => windows w fs

/-- The reading loop of `_loadPoses`, icl.py:554-572: `i` is the line number, `pose` the rows collected so far, `parsing` the
flag.  A line is its list of columns; ValueError when a needed line does not have 4.  The bottom row is appended (:567). -/
def loadPosesLoop {τ : Type*} (bottom : List τ) (starts : List Nat) :
    Nat → List (List τ) → Bool → List (List τ) → Except Err (List (List (List τ)))
  | _, _, _, [] => .ok []
  | i, pose, parsing, line :: rest =>
    if i ∉ starts ∧ parsing = false then loadPosesLoop bottom starts (i + 1) pose parsing rest
    else if line.length ≠ 4 then .error .valueError
    else if (pose ++ [line]).length = 3 then
      match loadPosesLoop bottom starts (i + 1) [] false rest with
      | .error e => .error e
      | .ok ps => .ok ((pose ++ [line] ++ [bottom]) :: ps)
    else loadPosesLoop bottom starts (i + 1) (pose ++ [line]) true rest

/-- `_loadPoses(pose_path, start_lines)`, icl.py:535-572. -/
def loadPoses {τ : Type*} (bottom : List τ) (file : List (List τ)) (starts : List Nat) :
    Except Err (List (List (List τ))) := loadPosesLoop bottom starts 0 [] false file

/-! #### Scannet -/

/-- State of the Scannet constructor that matters here. -/
structure Scan (β : Type*) where
  seqlen : Int
  files : List (List β)
  deriving DecidableEq, Repr

/-- The scene loop, scannet.py:133-178; `lines` of a scene are its (parsed) metadata lines.  `self.seqlen` is one attribute of
the dataset, overwritten for every scene when `full`; `seq_intrinsicsfiles[0]` (:175) raises IndexError if no line is left. -/
def scanLoop {β : Type*} (full : Bool) (start : Nat) (stop : Int) : Int → List (List β) → Except Err (Scan β)
  | seqlen, [] => .ok ⟨seqlen, []⟩
  | seqlen, lines :: scenes =>
    let stop' : Int := if full then lines.length else stop
    let seqlen' : Int := if full then stop' - start else seqlen
    if seqlen' > lines.length then .error .valueError
    else
      match slice lines start stop'.toNat with
      | [] => .error .indexError
      | f :: fs =>
        match scanLoop full start stop seqlen' scenes with
        | .error e => .error e
        | .ok s => .ok { s with files := (f :: fs) :: s.files }

/-- `Scannet.__init__`, scannet.py:104-178 (argument checks :108-115; `end = -1` means the full sequence). -/
def scanInit {β : Type*} (start stop : Int) (scenes : List (List β)) : Except Err (Scan β) :=
  if start < 0 then .error .valueError
  else if ¬ (stop = -1 ∨ stop > start) then .error .valueError
  else scanLoop (stop = -1) start.toNat stop (stop - start) scenes

/-- `Scannet.__getitem__`, scannet.py:229-250: frames `color_seq_path[i] for i in range(self.seqlen)`. -/
def scanItem {β : Type*} (s : Scan β) (idx : Nat) : Except Err (List β) :=
  match s.files[idx]? with
  | none => .error .indexError
  | some fs => gather fs (List.range s.seqlen.toNat)

end Verif.Data
