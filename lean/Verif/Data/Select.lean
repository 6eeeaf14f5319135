import Verif.Data.ItemSets
import Verif.Data.FilesProps
/-!
Model of the part of the dataset constructors that decides *which* sequences are served, and of the parsing of the association / metadata lines.
Property C87.

The file system is given by the listing of `basedir` (names in the order of `os.listdir`, with `os.path.isdir`) and a predicate telling which files
exist in a folder.  `os.path.join`, `os.path.normpath`, `glob` and `natsorted` are third party.
-/
namespace Verif.Data

/-- The `sequences` / `trajectories` / `scenes` argument: `None`, a tuple of names, or a string — the path of a text file with the given content, or
of no file.  Anything else raises TypeError (not modelled). -/
inductive Names
  | all
  | tuple (l : List Str)
  | file (content : Option Str)

/-- The tuple named by the argument, tum.py:195-212, icl.py:211-228: ValueError when the file does not exist or the tuple is empty. -/
def Names.resolve : Names → Except Err (Option (List Str))
  | .all => .ok none
  | .file none => .error .valueError
  | .file (some c) => .ok (some (splitC '\n' c))
  | .tuple l => if l = [] then .error .valueError else .ok (some l)

/-- `sequences is None or item in sequences`, tum.py:239, icl.py:251, scannet.py:136-138. -/
def wanted (req : Option (List Str)) (n : Str) : Bool :=
  match req with
  | none => true
  | some s => s.contains n

/-- `trajectories is not None and len(paths) != len(trajectories)`, tum.py:246, icl.py:259. -/
def miscount (req : Option (List Str)) (l : List Str) : Bool :=
  match req with
  | none => false
  | some s => l.length != s.length

/-! ### TUM -/

/-- The test of a folder name, tum.py:224-238; `or` evaluates from left to right, so missing pieces raise IndexError. -/
def tumName (n : Str) : Except Err Unit :=
  match splitC '_' n with
  | [] => .error .indexError
  | a :: r =>
    if a ≠ "rgbd".toList then .error .valueError
    else match r with
      | [] => .error .indexError
      | b :: r =>
        if b ≠ "dataset".toList then .error .valueError
        else match r with
          | [] => .error .indexError
          | c :: r => if c.dropLast ≠ "freiburg".toList ∨ r = [] then .error .valueError else .ok ()

/-- The loop over `os.listdir(basedir)`, tum.py:222-240. -/
def tumScan (req : Option (List Str)) : List (Str × Bool) → Except Err (List Str)
  | [] => .ok []
  | (n, isdir) :: rest =>
    if isdir then
      match tumName n with
      | .error e => .error e
      | .ok _ =>
        match tumScan req rest with
        | .error e => .error e
        | .ok l => .ok (if wanted req n then n :: l else l)
    else tumScan req rest

/-- The files a TUM sequence folder must contain, tum.py:256-276. -/
def tumFiles (loadPoses : Bool) : List Str :=
  ["rgb.txt".toList, "depth.txt".toList] ++ (if loadPoses then ["groundtruth.txt".toList] else [])

/-- Which folders `TUM(basedir, sequences)` reads, in order: tum.py:195-276. -/
def tumSelect (has : Str → Str → Bool) (loadPoses : Bool) (names : Names) (listing : List (Str × Bool)) : Except Err (List Str) :=
  match names.resolve with
  | .error e => .error e
  | .ok req =>
    match tumScan req listing with
    | .error e => .error e
    | .ok l =>
      if l = [] then .error .valueError
      else if miscount req l then .error .valueError
      else if l.all (fun n => (tumFiles loadPoses).all (has n)) then .ok l
      else .error .valueError

/-! ### ICL -/

/-- `f[:16] == "living_room_traj" and f[-9:] == "_frei_png"`, icl.py:201-202, :232. -/
def iclName (n : Str) : Bool := n.take 16 == "living_room_traj".toList && n.drop (n.length - 9) == "_frei_png".toList

/-- `os.listdir` restricted to folders. -/
def folders (listing : List (Str × Bool)) : List Str := (listing.filter (·.2)).map (·.1)

/-- `s.index(pat)`. -/
def indexOf (pat : Str) : Str → Option Nat
  | [] => if pat = [] then some 0 else none
  | c :: s => if pat.isPrefixOf (c :: s) then some 0 else (indexOf pat s).map (· + 1)

/-- `path[path.index("living_room_traj") + 16:].split("_")[0]`, icl.py:280-282, where `path` is the whole path of the folder. -/
def iclNumber (path : Str) : Except Err Str :=
  match indexOf "living_room_traj".toList path with
  | none => .error .valueError
  | some i => .ok ((splitC '_' (path.drop (i + 16))).headD [])

/-- The files of one trajectory folder, icl.py:269-291: the poses file is named after the number in the path. -/
def iclFiles (base : Str) (has : Str → Str → Bool) (loadPoses : Bool) (n : Str) : Except Err (Str × Option Str) :=
  if has n "associations.txt".toList then
    if loadPoses then
      match iclNumber (base ++ n) with
      | .error e => .error e
      | .ok x =>
        if has n ("livingRoom".toList ++ x ++ "n.gt.sim".toList) then .ok (n, some ("livingRoom".toList ++ x ++ "n.gt.sim".toList))
        else .error .valueError
    else .ok (n, none)
  else .error .valueError

/-- `item in valid_trajectory_dirs`, icl.py:197-203, :234, :252. -/
def iclWanted (listing : List (Str × Bool)) (req : Option (List Str)) (n : Str) : Bool :=
  match req with
  | none => ((folders listing).filter iclName).contains n
  | some s => s.contains n

/-- Which folders `ICL(basedir, trajectories)` reads, with their poses files: icl.py:196-291.  `base` is `basedir` with the separator that
`os.path.join` puts after it. -/
def iclSelect (base : Str) (has : Str → Str → Bool) (loadPoses : Bool) (names : Names) (listing : List (Str × Bool)) :
    Except Err (List (Str × Option Str)) :=
  if (folders listing).filter iclName = [] then .error .valueError
  else match names.resolve with
    | .error e => .error e
    | .ok req =>
      if (req.getD []).all iclName then
        let l := (folders listing).filter (iclWanted listing req)
        if l = [] then .error .valueError
        else if miscount req l then .error .valueError
        else mapE (iclFiles base has loadPoses) l
      else .error .valueError

/-- One association line, icl.py:323-352, as its list of columns (`line.strip().split()`); `resolve` is `normpath(join(parentdir, ·))`, `label` is
`os.path.join(trajectory_name, ·)`. -/
def iclFrame {P : Type} (resolve : Str → P) (label : Str → Str) (cols : List Str) : Except Err (IclFrame P) :=
  match cols[3]?, cols[1]? with
  | some c, some d =>
    if c.take 3 ≠ "rgb".toList then .error .valueError
    else if d.take 5 ≠ "depth".toList then .error .valueError
    else .ok ⟨resolve c, resolve d, label ((splitC '.' (d.drop 6)).headD [])⟩
  | _, _ => .error .indexError

/-! ### Scannet -/

/-- The `scenes` argument, scannet.py:118-127: an empty tuple is accepted. -/
def scanNames : Names → Except Err (Option (List Str))
  | .all => .ok none
  | .file none => .error .valueError
  | .file (some c) => .ok (some (splitC '\n' c))
  | .tuple l => .ok (some l)

/-- Which metadata files `Scannet(basedir, seqmetadir, scenes)` reads, scannet.py:129-138; `files` are the base names of
`natsorted(glob(seqmetadir/*.txt))`. -/
def scanSelect (names : Names) (files : List Str) : Except Err (List Str) :=
  match scanNames names with
  | .error e => .error e
  | .ok req => .ok (files.filter fun f => wanted req ((splitC '-' f).headD []))

/-- The files named by one metadata line. -/
structure ScanFrame (P : Type) where
  color : P
  depth : P
  pose : P
  label : P
  intrinsics : P

/-- The keywords of a metadata line and their columns, scannet.py:155-169. -/
def scanKeys : List (Nat × Str) :=
  [(0, "color".toList), (2, "depth".toList), (4, "pose".toList), (6, "label-filt".toList), (14, "intrinsic_depth".toList)]

/-- One `if line[i] != key: raise ...; files.append(join(basedir, line[i + 1]))`. -/
def scanCol {P : Type} (resolve : Str → P) (cols : List Str) (i : Nat) (key : Str) : Except Err P :=
  match cols[i]? with
  | none => .error .indexError
  | some k =>
    if k ≠ key then .error .valueError
    else match cols[i + 1]? with
      | none => .error .indexError
      | some p => .ok (resolve p)

/-- One metadata line, scannet.py:152-169, as its list of columns. -/
def scanFrame {P : Type} (resolve : Str → P) (cols : List Str) : Except Err (ScanFrame P) :=
  match mapE (fun x => scanCol resolve cols x.1 x.2) scanKeys with
  | .error e => .error e
  | .ok [c, d, p, l, k] => .ok ⟨c, d, p, l, k⟩
  | .ok _ => .error .indexError

/-! ### Specification -/

/-- `rgbd_dataset_freiburgX_NAME`. -/
def TumFolder (n : Str) : Prop := ∃ x name, x ≠ '_' ∧ n = "rgbd_dataset_freiburg".toList ++ (x :: '_' :: name)

/-- The names the caller asks for, if any. -/
def Asked : Names → Option (List Str) → Prop
  | .all, r => r = none
  | .tuple l, r => r = some l
  | .file none, _ => False
  | .file (some c), r => ∃ l, r = some l ∧ (∀ s ∈ l, '\n' ∉ s) ∧ l ≠ [] ∧ c = List.intercalate ['\n'] l

theorem splitC_ne (c : Char) (s : Str) : splitC c s ≠ [] := by
  cases s with
  | nil => simp [splitC]
  | cons x xs => simp only [splitC]; split_ifs; · simp
                 cases splitC c xs <;> simp

theorem splitC_mem {c : Char} {s w : Str} (h : w ∈ splitC c s) : c ∉ w := by
  induction s generalizing w with
  | nil => simp [splitC] at h; subst h; simp
  | cons x xs ih =>
    simp only [splitC] at h
    split_ifs at h with hx
    · rcases List.mem_cons.1 h with h | h
      · subst h; simp
      · exact ih h
    · cases hs : splitC c xs with
      | nil => exact absurd hs (splitC_ne c xs)
      | cons a t =>
        rw [hs] at h ih
        rcases List.mem_cons.1 h with h | h
        · subst h
          have := ih (List.mem_cons_self ..)
          simp only [List.mem_cons, not_or]
          exact ⟨fun e => hx e.symm, this⟩
        · exact ih (List.mem_cons_of_mem _ h)

theorem splitC_join (c : Char) (s : Str) : List.intercalate [c] (splitC c s) = s := by
  induction s with
  | nil => simp [splitC, List.intercalate]
  | cons x xs ih =>
    simp only [splitC]
    split_ifs with hx
    · subst hx
      cases hs : splitC x xs with
      | nil => exact absurd hs (splitC_ne x xs)
      | cons a t =>
        rw [hs] at ih
        rw [show List.intercalate [x] ([] :: a :: t) = x :: List.intercalate [x] (a :: t) by simp [List.intercalate, List.intersperse]]
        rw [ih]
    · cases hs : splitC c xs with
      | nil => exact absurd hs (splitC_ne c xs)
      | cons a t =>
        rw [hs] at ih
        cases t with
        | nil => simp [List.intercalate] at ih ⊢; rw [ih]
        | cons b u =>
          rw [show List.intercalate [c] ((x :: a) :: b :: u) = x :: List.intercalate [c] (a :: b :: u) by simp [List.intercalate, List.intersperse]]
          rw [ih]

theorem splitC_of_join {c : Char} : ∀ {l : List Str}, (∀ s ∈ l, c ∉ s) → l ≠ [] → splitC c (List.intercalate [c] l) = l
  | [], _, h => absurd rfl h
  | [a], h, _ => by simpa [List.intercalate] using splitC_no (h a (by simp))
  | a :: b :: u, h, _ => by
    rw [show List.intercalate [c] (a :: b :: u) = a ++ c :: List.intercalate [c] (b :: u) by simp [List.intercalate, List.intersperse]]
    rw [splitC_cons _ (h a (by simp)), splitC_of_join (fun s hs => h s (List.mem_cons_of_mem _ hs)) (by simp)]

theorem splitC_iff (c : Char) (s : Str) (l : List Str) : splitC c s = l ↔ (∀ w ∈ l, c ∉ w) ∧ l ≠ [] ∧ s = List.intercalate [c] l := by
  constructor
  · rintro rfl
    exact ⟨fun w hw => splitC_mem hw, splitC_ne c s, (splitC_join c s).symm⟩
  · rintro ⟨h1, h2, rfl⟩
    exact splitC_of_join h1 h2

theorem resolve_iff (names : Names) (r : Option (List Str)) : names.resolve = .ok r ↔ Asked names r ∧ r ≠ some [] := by
  cases names with
  | all => simp only [Names.resolve, Asked, Except.ok.injEq]; constructor
           · rintro rfl; simp
           · rintro ⟨h, _⟩; exact h.symm
  | tuple l =>
    simp only [Names.resolve, Asked]
    split_ifs with hl
    · subst hl
      constructor
      · intro h; cases h
      · rintro ⟨h, h'⟩; exact absurd h h'
    · simp only [Except.ok.injEq]
      constructor
      · rintro rfl; exact ⟨rfl, by simpa using hl⟩
      · rintro ⟨h, _⟩; exact h.symm
  | file content =>
    cases content with
    | none => simp [Names.resolve, Asked]
    | some c =>
      simp only [Names.resolve, Asked, Except.ok.injEq]
      constructor
      · rintro rfl
        exact ⟨⟨_, rfl, fun s hs => splitC_mem hs, splitC_ne _ _, (splitC_join _ _).symm⟩, by simpa using splitC_ne '\n' c⟩
      · rintro ⟨⟨l, rfl, h1, h2, h3⟩, _⟩
        rw [(splitC_iff '\n' c l).2 ⟨h1, h2, h3⟩]

theorem joinFour (a b c d : Str) (u : List Str) : List.intercalate ['_'] (a :: b :: c :: d :: u) =
    a ++ '_' :: (b ++ '_' :: (c ++ '_' :: List.intercalate ['_'] (d :: u))) := by
  simp [List.intercalate, List.intersperse]

theorem tumText (x : Char) (name : Str) : "rgbd".toList ++ '_' :: ("dataset".toList ++ '_' :: (("freiburg".toList ++ [x]) ++ '_' :: name)) =
    "rgbd_dataset_freiburg".toList ++ (x :: '_' :: name) := by
  have e : "rgbd_dataset_freiburg".toList = "rgbd".toList ++ '_' :: ("dataset".toList ++ '_' :: "freiburg".toList) := by decide
  rw [e]
  simp only [List.append_assoc, List.cons_append, List.nil_append]

theorem tumName_ok (n : Str) : tumName n = .ok () ↔ TumFolder n := by
  constructor
  · intro h
    unfold tumName at h
    cases hs : splitC '_' n with
    | nil => rw [hs] at h; cases h
    | cons a r =>
      rw [hs] at h
      obtain ⟨h1, _, h3⟩ := (splitC_iff '_' n _).1 hs
      dsimp only at h
      by_cases ha : a = "rgbd".toList
      · rw [if_neg (not_not.2 ha)] at h
        cases r with
        | nil => cases h
        | cons b r =>
          dsimp only at h
          by_cases hb : b = "dataset".toList
          · rw [if_neg (not_not.2 hb)] at h
            cases r with
            | nil => cases h
            | cons c r =>
              dsimp only at h
              by_cases hc : c.dropLast ≠ "freiburg".toList ∨ r = []
              · rw [if_pos hc] at h; cases h
              · push Not at hc
                obtain ⟨hc1, hc2⟩ := hc
                have hcne : c ≠ [] := by rintro rfl; exact absurd hc1 (by decide)
                have hce : c = "freiburg".toList ++ [c.getLast hcne] := by
                  rw [← hc1]; exact (List.dropLast_append_getLast hcne).symm
                cases r with
                | nil => exact absurd rfl hc2
                | cons d u =>
                  refine ⟨c.getLast hcne, List.intercalate ['_'] (d :: u), ?_, ?_⟩
                  · intro hx
                    have := h1 c (by simp)
                    exact this (hx ▸ List.getLast_mem hcne)
                  · rw [h3, ha, hb, joinFour]
                    conv_lhs => rw [hce]
                    exact tumText _ _
          · rw [if_pos hb] at h; cases h
      · rw [if_pos ha] at h; cases h
  · rintro ⟨x, name, hx, rfl⟩
    have h1 : splitC '_' ("rgbd_dataset_freiburg".toList ++ (x :: '_' :: name)) =
        "rgbd".toList :: "dataset".toList :: ("freiburg".toList ++ [x]) :: splitC '_' name := by
      rw [← tumText, splitC_cons _ (by decide), splitC_cons _ (by decide), splitC_cons]
      intro hm
      rcases List.mem_append.1 hm with h | h
      · exact absurd h (by decide)
      · exact hx (List.mem_singleton.1 h).symm
    have h2 := splitC_ne '_' name
    unfold tumName
    rw [h1]
    dsimp only
    rw [if_neg (not_not.2 rfl), if_neg (not_not.2 rfl), if_neg]
    rintro (h | h)
    · exact h List.dropLast_concat
    · exact h2 h

theorem tumName_error {n : Str} {e : Err} (h : tumName n = .error e) : e = .valueError ∨ e = .indexError := by
  simp only [tumName] at h
  repeat' split at h
  all_goals first | (cases h; simp) | cases h

theorem tumScan_ok (req : Option (List Str)) (listing : List (Str × Bool)) (l : List Str) :
    tumScan req listing = .ok l ↔ (∀ n ∈ folders listing, TumFolder n) ∧ l = (folders listing).filter (wanted req) := by
  induction listing generalizing l with
  | nil => simp [tumScan, folders, eq_comm]
  | cons x rest ih =>
    rcases x with ⟨n, b⟩
    cases b with
    | false =>
      simp only [tumScan, Bool.false_eq_true, if_false]
      simpa [folders] using ih l
    | true =>
      have hf : folders ((n, true) :: rest) = n :: folders rest := by simp [folders]
      simp only [tumScan, if_true, hf]
      cases hn : tumName n with
      | error e =>
        constructor
        · intro h; cases h
        · rintro ⟨h, _⟩
          have := (tumName_ok n).2 (h n (by simp))
          rw [hn] at this; cases this
      | ok u =>
        have hg := (tumName_ok n).1 hn
        cases hs : tumScan req rest with
        | error e =>
          constructor
          · intro h; cases h
          · rintro ⟨h, _⟩
            have := (ih ((folders rest).filter (wanted req))).2 ⟨fun m hm => h m (by simp [hm]), rfl⟩
            rw [hs] at this; cases this
        | ok l' =>
          obtain ⟨h1, h2⟩ := (ih l').1 hs
          simp only [Except.ok.injEq]
          constructor
          · rintro rfl
            refine ⟨fun m hm => ?_, ?_⟩
            · rcases List.mem_cons.1 hm with h | h
              · exact h ▸ hg
              · exact h1 m h
            · rw [h2, List.filter_cons]
          · rintro ⟨_, rfl⟩
            rw [h2, List.filter_cons]

theorem length_filter_contains (d s : List Str) (hd : d.Nodup) :
    (d.filter fun n => s.contains n).length = s.length ↔ s.Nodup ∧ ∀ n ∈ s, n ∈ d := by
  have hsub : (d.filter fun n => s.contains n) ⊆ s := by
    intro x hx
    simpa using (List.mem_filter.1 hx).2
  have hnd : (d.filter fun n => s.contains n).Nodup := hd.filter _
  constructor
  · intro h
    have hp : (d.filter fun n => s.contains n).Perm s := (hnd.subperm hsub).perm_of_length_le (by omega)
    exact ⟨hp.nodup_iff.1 hnd, fun n hn => (List.mem_filter.1 (hp.mem_iff.2 hn)).1⟩
  · rintro ⟨h1, h2⟩
    refine le_antisymm (hnd.subperm hsub).length_le (List.Subperm.length_le (h1.subperm ?_))
    intro x hx
    exact List.mem_filter.2 ⟨h2 x hx, by simpa using hx⟩

/-- The names asked for are all there, once each. -/
def Available (listing : List (Str × Bool)) (r : Option (List Str)) : Prop := ∀ s, r = some s → s.Nodup ∧ ∀ n ∈ s, (n, true) ∈ listing

/-- The folders of the listing that were asked for, in the order of the listing. -/
def chosen (listing : List (Str × Bool)) (r : Option (List Str)) : List Str :=
  ((listing.filter fun x => x.2).map (·.1)).filter fun n => match r with
    | none => true
    | some s => decide (n ∈ s)

theorem chosen_eq (listing : List (Str × Bool)) (r : Option (List Str)) : chosen listing r = (folders listing).filter (wanted r) := by
  cases r with
  | none => rfl
  | some s =>
    refine List.filter_congr fun n _ => ?_
    show decide (n ∈ s) = s.contains n
    simp

theorem mem_folders {listing : List (Str × Bool)} {n : Str} : n ∈ folders listing ↔ (n, true) ∈ listing := by
  simp [folders]

theorem folders_nodup {listing : List (Str × Bool)} (h : (listing.map (·.1)).Nodup) : (folders listing).Nodup :=
  h.sublist (List.Sublist.map _ List.filter_sublist)

theorem miscount_iff {listing : List (Str × Bool)} (hd : (listing.map (·.1)).Nodup) (r : Option (List Str)) :
    miscount r ((folders listing).filter (wanted r)) = false ↔ Available listing r := by
  cases r with
  | none => simp [miscount, Available]
  | some s =>
    have := length_filter_contains (folders listing) s (folders_nodup hd)
    simp only [miscount, Available, Option.some.injEq, forall_eq', bne_eq_false_iff_eq]
    change (List.filter (fun n => s.contains n) (folders listing)).length = s.length ↔ _
    rw [this]
    simp [mem_folders]

/-- **C87, TUM**.  `TUM(basedir, sequences)` accepts `basedir` exactly when every folder in it — asked for or not — is named
`rgbd_dataset_freiburgX_NAME`, the argument names at least one folder, every name asked for is a folder of `basedir` and named once, and the folders
asked for contain the files needed.  Then it serves exactly the folders asked for (all of them for `None`), in the order of the listing (not of the tuple). -/
theorem tum_select_iff (has : Str → Str → Bool) (loadPoses : Bool) (names : Names) (listing : List (Str × Bool)) (hd : (listing.map (·.1)).Nodup)
    (l : List Str) :
    tumSelect has loadPoses names listing = .ok l ↔
      (∀ n, (n, true) ∈ listing → TumFolder n) ∧ ∃ r, Asked names r ∧ Available listing r ∧ l = chosen listing r ∧ l ≠ [] ∧
        ∀ n ∈ l, has n "rgb.txt".toList = true ∧ has n "depth.txt".toList = true ∧ (loadPoses = true → has n "groundtruth.txt".toList = true) := by
  have hfiles : ∀ n, ((tumFiles loadPoses).all (has n) = true ↔
      has n "rgb.txt".toList = true ∧ has n "depth.txt".toList = true ∧ (loadPoses = true → has n "groundtruth.txt".toList = true)) := by
    intro n
    cases loadPoses <;> simp [tumFiles, -String.toList_ofList, and_assoc]
  simp only [tumSelect]
  constructor
  · intro h
    cases hr : names.resolve with
    | error e => rw [hr] at h; cases h
    | ok r =>
      rw [hr] at h
      simp only at h
      cases hs : tumScan r listing with
      | error e => rw [hs] at h; cases h
      | ok l' =>
        rw [hs] at h
        simp only at h
        obtain ⟨h1, h2⟩ := (tumScan_ok r listing l').1 hs
        split_ifs at h with k1 k2 k3
        · simp only [Except.ok.injEq] at h
          subst h
          refine ⟨fun n hn => h1 n (mem_folders.2 hn), r, ((resolve_iff names r).1 hr).1, ?_, ?_, k1, fun n hn => ?_⟩
          · rw [h2] at k2; exact (miscount_iff hd r).1 (by simpa using k2)
          · rw [chosen_eq]; exact h2
          · exact (hfiles n).1 (List.all_eq_true.1 k3 n hn)
  · rintro ⟨h1, r, h2, h3, h4, h5, h6⟩
    have hr : names.resolve = .ok r := by
      refine (resolve_iff names r).2 ⟨h2, ?_⟩
      rintro rfl
      exact h5 (by rw [h4, chosen_eq]; simp [wanted])
    have hs : tumScan r listing = .ok l := (tumScan_ok r listing l).2 ⟨fun n hn => h1 n (mem_folders.1 hn), by rw [h4, chosen_eq]⟩
    have hm : miscount r l = false := by rw [h4, chosen_eq]; exact (miscount_iff hd r).2 h3
    rw [hr]; simp only; rw [hs]; simp only
    rw [if_neg h5, if_neg (by simp [hm]), if_pos (List.all_eq_true.2 fun n hn => (hfiles n).2 (h6 n hn))]

/-- `living_room_traj…_frei_png`. -/
def IclFolder (n : Str) : Prop := ∃ m, n = "living_room_traj".toList ++ m ++ "_frei_png".toList

theorem iclName_iff (n : Str) : iclName n = true ↔ IclFolder n := by
  simp only [iclName, Bool.and_eq_true, beq_iff_eq]
  constructor
  · rintro ⟨h1, h2⟩
    have e1 : n = "living_room_traj".toList ++ n.drop 16 := by rw [← h1, List.take_append_drop]
    have e2 : n = n.take (n.length - 9) ++ "_frei_png".toList := by rw [← h2, List.take_append_drop]
    have l1 : 16 ≤ n.length := by
      have := congrArg List.length h1
      rw [List.length_take] at this
      have h16 : ("living_room_traj".toList).length = 16 := by decide
      omega
    have l2 : 25 ≤ n.length := by
      by_contra hlt
      have hlt' : n.length < 25 := by omega
      -- the character at `length - 9` is an underscore; in the first 16 characters it would be at 6 or 11, followed by `r` or `t`, not `f`
      have g1 : n[n.length - 9]? = some '_' := by
        have := congrArg (fun s : Str => s[0]?) h2
        simpa using this
      have g2 : n[n.length - 8]? = some 'f' := by
        have := congrArg (fun s : Str => s[1]?) h2
        rw [List.getElem?_drop] at this
        rw [show n.length - 8 = n.length - 9 + 1 by omega]
        simpa using this
      have g3 : ∀ i < 16, n[i]? = ("living_room_traj".toList)[i]? := by
        intro i hi
        rw [← h1, List.getElem?_take_of_lt hi]
      have key : ∀ m, 16 ≤ m → m < 25 → ¬ (("living_room_traj".toList)[m - 9]? = some '_' ∧
          ((m - 8 < 16 → ("living_room_traj".toList)[m - 8]? = some 'f'))) := by decide
      refine key n.length l1 hlt' ⟨?_, fun hi => ?_⟩
      · rw [← g3 _ (by omega)]; exact g1
      · rw [← g3 _ hi]; exact g2
    refine ⟨(n.drop 16).take (n.length - 25), ?_⟩
    have e3 : n.drop (n.length - 9) = ((n.drop 16).drop (n.length - 25)) := by rw [List.drop_drop]; congr 1; omega
    conv_lhs => rw [e1, ← List.take_append_drop (n.length - 25) (n.drop 16), ← e3, h2]
    rw [List.append_assoc]
  · rintro ⟨m, rfl⟩
    constructor
    · rw [List.append_assoc]
      exact List.take_left' (by decide)
    · exact List.drop_left' (by simp)


theorem indexOf_none (pat : Str) : ∀ s, indexOf pat s = none ↔ ∀ i, ¬ pat <+: s.drop i
  | [] => by
    by_cases h : pat = []
    · simp [indexOf, h]
    · simp [indexOf, h]
  | c :: s => by
    by_cases h : pat.isPrefixOf (c :: s)
    · simp only [indexOf, h, if_true]
      constructor
      · intro h; cases h
      · intro h'; exact absurd (List.isPrefixOf_iff_prefix.1 h) (h' 0)
    · have h' : ¬ pat <+: c :: s := fun k => h (List.isPrefixOf_iff_prefix.2 k)
      simp only [indexOf, h, Bool.false_eq_true, if_false, Option.map_eq_none_iff]
      rw [indexOf_none pat s]
      constructor
      · intro k i
        cases i with
        | zero => exact h'
        | succ i => exact k i
      · intro k i; exact k (i + 1)

theorem indexOf_some (pat : Str) : ∀ s i, indexOf pat s = some i ↔ i ≤ s.length ∧ pat <+: s.drop i ∧ ∀ j < i, ¬ pat <+: s.drop j
  | [], i => by
    by_cases h : pat = []
    · simp [indexOf, h]
      constructor
      · rintro rfl; simp
      · rintro ⟨rfl, _⟩; rfl
    · simp [indexOf, h]
  | c :: s, i => by
    by_cases h : pat.isPrefixOf (c :: s)
    · have h' := List.isPrefixOf_iff_prefix.1 h
      simp only [indexOf, h, if_true, Option.some.injEq]
      constructor
      · rintro rfl; exact ⟨by simp, h', fun j hj => by omega⟩
      · rintro ⟨_, _, k⟩
        by_contra hi
        exact k 0 (by omega) h'
    · have h' : ¬ pat <+: c :: s := fun k => h (List.isPrefixOf_iff_prefix.2 k)
      simp only [indexOf, h, Bool.false_eq_true, if_false, Option.map_eq_some_iff]
      constructor
      · rintro ⟨k, hk, rfl⟩
        obtain ⟨k1, k2, k3⟩ := (indexOf_some pat s k).1 hk
        refine ⟨by simp; omega, k2, fun j hj => ?_⟩
        cases j with
        | zero => exact h'
        | succ j => exact k3 j (by omega)
      · rintro ⟨k1, k2, k3⟩
        cases i with
        | zero => exact absurd k2 h'
        | succ i =>
          refine ⟨i, (indexOf_some pat s i).2 ⟨by simp at k1; omega, k2, fun j hj => k3 (j + 1) (by omega)⟩, rfl⟩

/-- `x` is the part of the folder name between `living_room_traj` and the next underscore. -/
def IclNumber (n x : Str) : Prop := '_' ∉ x ∧ ∃ rest, n = "living_room_traj".toList ++ x ++ '_' :: rest

/-- `living_room_traj` does not occur in the path of `basedir`, which ends in a separator. -/
def PlainBase (base : Str) : Prop := (∃ b, base = b ++ ['/']) ∧ ¬ "living_room_traj".toList <:+: base

theorem iclFolder_number {n : Str} (h : IclFolder n) : ∃ x, IclNumber n x := by
  obtain ⟨m, rfl⟩ := h
  have e : "living_room_traj".toList ++ m ++ "_frei_png".toList = "living_room_traj".toList ++ (m ++ '_' :: "frei_png".toList) := by
    rw [List.append_assoc]; rfl
  rw [e]
  have h0 : '_' ∈ m ++ '_' :: "frei_png".toList := by simp
  generalize m ++ '_' :: "frei_png".toList = w at h0
  obtain ⟨a, b, rfl, ha⟩ := List.eq_append_cons_of_mem h0
  exact ⟨a, ha, b, by rw [List.append_assoc]⟩

theorem iclNumber_ok {base n x : Str} (hb : PlainBase base) (hn : IclNumber n x) : iclNumber (base ++ n) = .ok x := by
  obtain ⟨⟨b, rfl⟩, hno⟩ := hb
  obtain ⟨hx, rest, rfl⟩ := hn
  have hi : indexOf "living_room_traj".toList (b ++ ['/'] ++ ("living_room_traj".toList ++ x ++ '_' :: rest)) = some (b ++ ['/']).length := by
    refine (indexOf_some _ _ _).2 ⟨by simp, ?_, ?_⟩
    · rw [List.drop_left]
      rw [List.append_assoc]
      exact List.prefix_append _ _
    · rintro j hj ⟨t, ht⟩
      by_cases hlt : j + 16 ≤ (b ++ ['/']).length
      · apply hno
        refine ⟨(b ++ ['/']).take j, (b ++ ['/']).drop (j + 16), ?_⟩
        have e1 : "living_room_traj".toList = ((b ++ ['/']).drop j).take 16 := by
          have := congrArg (List.take 16) ht
          rw [List.take_left' (by decide), List.drop_append_of_le_length (by omega), List.take_append_of_le_length] at this
          · exact this
          · rw [List.length_drop]; omega
        rw [e1, List.append_assoc]
        conv_lhs => rw [← List.drop_drop, List.take_append_drop, List.take_append_drop]
      · have hl : (b ++ ['/']).length = b.length + 1 := by simp
        have e1 : ("living_room_traj".toList)[b.length - j]? = some '/' := by
          have := congrArg (fun l : Str => l[b.length - j]?) ht
          beta_reduce at this
          rw [List.getElem?_append_left (by rw [show ("living_room_traj".toList).length = 16 by decide]; omega), List.getElem?_drop,
            show j + (b.length - j) = b.length by omega, List.append_assoc, List.getElem?_append_right (by omega)] at this
          simpa using this
        have := List.mem_of_getElem? e1
        exact absurd this (by decide)
  simp only [iclNumber]
  rw [hi]
  simp only
  rw [← List.drop_drop, List.drop_left, List.append_assoc, List.drop_left' (by decide), splitC_cons _ hx]
  rfl

/-- The trajectories asked for, in the order of the listing: for `None`, all the folders with the right name. -/
def iclAsked (listing : List (Str × Bool)) (r : Option (List Str)) (l : List Str) : Prop :=
  List.Sublist l (listing.map (·.1)) ∧ ∀ n, n ∈ l ↔ (n, true) ∈ listing ∧ IclFolder n ∧ ∀ s, r = some s → n ∈ s

theorem sublist_unique {β : Type} {l l' d : List β} (hd : d.Nodup) (h : l.Sublist d) (h' : l'.Sublist d) (he : ∀ x, x ∈ l ↔ x ∈ l') : l = l' := by
  classical
  induction d generalizing l l' with
  | nil => rw [List.sublist_nil.1 h, List.sublist_nil.1 h']
  | cons a d ih =>
    have ha := (List.nodup_cons.1 hd).1
    have hd' := (List.nodup_cons.1 hd).2
    cases h with
    | cons _ h =>
      cases h' with
      | cons _ h' => exact ih hd' h h' he
      | cons_cons _ h' => exact absurd (h.subset ((he a).2 (by simp))) ha
    | cons_cons _ h =>
      cases h' with
      | cons _ h' => exact absurd (h'.subset ((he a).1 (by simp))) ha
      | cons_cons _ h' =>
        congr 1
        refine ih hd' h h' fun x => ?_
        by_cases hx : x = a
        · subst hx
          exact ⟨fun k => absurd (h.subset k) ha, fun k => absurd (h'.subset k) ha⟩
        · have := he x
          simpa [hx] using this

theorem folders_sublist (listing : List (Str × Bool)) : (folders listing).Sublist (listing.map (·.1)) := List.Sublist.map _ List.filter_sublist

theorem iclWanted_iff (listing : List (Str × Bool)) (req : Option (List Str)) (hr : ∀ s, req = some s → ∀ n ∈ s, IclFolder n) (n : Str) (hn : n ∈ folders listing) :
    iclWanted listing req n = true ↔ IclFolder n ∧ ∀ s, req = some s → n ∈ s := by
  cases req with
  | none => simp [iclWanted, hn, iclName_iff]
  | some s =>
    simp only [iclWanted, List.contains_iff_mem, Option.some.injEq, forall_eq']
    exact ⟨fun h => ⟨hr s rfl n h, h⟩, fun h => h.2⟩

theorem iclAsked_iff {listing : List (Str × Bool)} (hd : (listing.map (·.1)).Nodup) {req : Option (List Str)} (hr : ∀ s, req = some s → ∀ n ∈ s, IclFolder n)
    (l : List Str) : iclAsked listing req l ↔ l = (folders listing).filter (iclWanted listing req) := by
  have h0 : iclAsked listing req ((folders listing).filter (iclWanted listing req)) := by
    refine ⟨List.filter_sublist.trans (folders_sublist _), fun n => ?_⟩
    rw [List.mem_filter]
    constructor
    · rintro ⟨h1, h2⟩
      exact ⟨mem_folders.1 h1, (iclWanted_iff listing req hr n h1).1 h2⟩
    · rintro ⟨h1, h2⟩
      exact ⟨mem_folders.2 h1, (iclWanted_iff listing req hr n (mem_folders.2 h1)).2 h2⟩
  constructor
  · rintro ⟨h1, h2⟩
    exact sublist_unique hd h1 h0.1 fun x => (h2 x).trans (h0.2 x).symm
  · rintro rfl; exact h0

/-- The files an ICL folder must contain, and the poses file that is read. -/
def IclReady (has : Str → Str → Bool) (loadPoses : Bool) (n : Str) (poses : Option Str) : Prop :=
  has n "associations.txt".toList = true ∧
    if loadPoses = true then ∃ x, IclNumber n x ∧ poses = some ("livingRoom".toList ++ x ++ "n.gt.sim".toList) ∧
      has n ("livingRoom".toList ++ x ++ "n.gt.sim".toList) = true
    else poses = none

theorem iclFiles_ok {base : Str} (hb : PlainBase base) (has : Str → Str → Bool) (loadPoses : Bool) {n : Str} (hn : IclFolder n) (p : Str × Option Str) :
    iclFiles base has loadPoses n = .ok p ↔ p.1 = n ∧ IclReady has loadPoses n p.2 := by
  obtain ⟨x, hx⟩ := iclFolder_number hn
  have hu : ∀ y, IclNumber n y → y = x := fun y hy => by
    have h1 := iclNumber_ok hb hx
    rw [iclNumber_ok hb hy] at h1
    exact Except.ok.inj h1
  rcases p with ⟨a, q⟩
  simp only [iclFiles, IclReady, iclNumber_ok hb hx]
  by_cases h1 : has n "associations.txt".toList = true
  · rw [if_pos h1]
    cases loadPoses with
    | false =>
      simp only [Bool.false_eq_true, if_false, Except.ok.injEq, Prod.mk.injEq, h1, true_and]
      exact ⟨fun h => ⟨h.1.symm, h.2.symm⟩, fun h => ⟨h.1.symm, h.2.symm⟩⟩
    | true =>
      simp only [if_true, h1, true_and]
      by_cases h2 : has n ("livingRoom".toList ++ x ++ "n.gt.sim".toList) = true
      · rw [if_pos h2]
        simp only [Except.ok.injEq, Prod.mk.injEq]
        constructor
        · rintro ⟨rfl, rfl⟩
          exact ⟨rfl, x, hx, rfl, h2⟩
        · rintro ⟨rfl, y, hy, rfl, _⟩
          exact ⟨rfl, by rw [hu y hy]⟩
      · rw [if_neg h2]
        constructor
        · intro h; cases h
        · rintro ⟨_, y, hy, _, h3⟩
          rw [hu y hy] at h3
          exact absurd h3 h2
  · rw [if_neg h1]
    constructor
    · intro h; cases h
    · rintro ⟨_, h2, _⟩; exact absurd h2 h1

theorem mapE_iff {β γ : Type} {g : β → Except Err γ} : ∀ {l : List β} {r : List γ}, mapE g l = .ok r ↔ List.Forall₂ (fun x y => g x = .ok y) l r
  | [], r => by cases r <;> simp [mapE]
  | x :: l, r => by
    simp only [mapE]
    cases hx : g x with
    | error e =>
      simp only [reduceCtorEq, false_iff]
      intro h; cases h with
      | cons h1 h2 => rw [hx] at h1; cases h1
    | ok y =>
      cases hl : mapE g l with
      | error e =>
        simp only [reduceCtorEq, false_iff]
        intro h; cases h with
        | cons h1 h2 => rw [mapE_iff.2 h2] at hl; cases hl
      | ok r' =>
        simp only [Except.ok.injEq]
        constructor
        · rintro rfl; exact List.Forall₂.cons hx (mapE_iff.1 hl)
        · intro h; cases h with
          | cons h1 h2 =>
            rw [hx] at h1; cases h1
            rw [mapE_iff.2 h2] at hl; cases hl; rfl

/-- **C87, ICL**.  `ICL(basedir, trajectories)`, for a `basedir` whose path does not itself contain `living_room_traj`, is accepted exactly when
`basedir` contains at least one folder `living_room_traj…_frei_png`, every name asked for has this form, is a folder of `basedir` and is named once,
and the folders asked for contain `associations.txt` and (when poses are loaded) `livingRoomXn.gt.sim`, `X` being the number in the name of that
folder.  Then it serves exactly the folders asked for, in the order of the listing, each with its own poses file.  Unlike TUM, folders with other
names are ignored. -/
theorem icl_select_iff {base : Str} (hb : PlainBase base) (has : Str → Str → Bool) (loadPoses : Bool) (names : Names) (listing : List (Str × Bool))
    (hd : (listing.map (·.1)).Nodup) (l : List (Str × Option Str)) :
    iclSelect base has loadPoses names listing = .ok l ↔
      (∃ n, (n, true) ∈ listing ∧ IclFolder n) ∧ ∃ r, Asked names r ∧ (∀ s, r = some s → ∀ n ∈ s, IclFolder n) ∧ Available listing r ∧
        iclAsked listing r (l.map (·.1)) ∧ l ≠ [] ∧ ∀ p ∈ l, IclReady has loadPoses p.1 p.2 := by
  have hsome : ¬ (folders listing).filter iclName = [] ↔ ∃ n, (n, true) ∈ listing ∧ IclFolder n := by
    rw [List.filter_eq_nil_iff]
    simp only [not_forall, mem_folders, iclName_iff, not_not, exists_prop]
  have hall : ∀ r : Option (List Str), (r.getD []).all iclName = true ↔ ∀ s, r = some s → ∀ n ∈ s, IclFolder n := by
    intro r
    cases r with
    | none => simp
    | some s => simp [iclName_iff]
  have hmis : ∀ r : Option (List Str), (∀ s, r = some s → ∀ n ∈ s, IclFolder n) →
      (miscount r ((folders listing).filter (iclWanted listing r)) = false ↔ Available listing r) := by
    intro r hr
    rw [← miscount_iff hd r]
    cases r with
    | none => rfl
    | some s => rfl
  have hfiles : ∀ r : Option (List Str), (∀ s, r = some s → ∀ n ∈ s, IclFolder n) →
      (mapE (iclFiles base has loadPoses) ((folders listing).filter (iclWanted listing r)) = .ok l ↔
        iclAsked listing r (l.map (·.1)) ∧ ∀ p ∈ l, IclReady has loadPoses p.1 p.2) := by
    intro r hr
    rw [mapE_iff, iclAsked_iff hd hr]
    have hm : ∀ n ∈ (folders listing).filter (iclWanted listing r), IclFolder n := fun n hn => by
      have := List.mem_filter.1 hn
      exact ((iclWanted_iff listing r hr n this.1).1 this.2).1
    generalize (folders listing).filter (iclWanted listing r) = d at hm
    induction d generalizing l with
    | nil =>
      cases l <;> simp
    | cons a d ih =>
      cases l with
      | nil => simp
      | cons p l =>
        have hi := ih l (fun n hn => hm n (by simp [hn]))
        have hp := iclFiles_ok hb has loadPoses (hm a (by simp)) p
        constructor
        · intro h
          cases h with
          | cons h1 h2 =>
            obtain ⟨rfl, k1⟩ := hp.1 h1
            obtain ⟨k2, k3⟩ := hi.1 h2
            refine ⟨by rw [List.map_cons, k2], fun q hq => ?_⟩
            rcases List.mem_cons.1 hq with rfl | hq'
            · exact k1
            · exact k3 q hq'
        · rintro ⟨h1, h2⟩
          rw [List.map_cons, List.cons.injEq] at h1
          obtain ⟨rfl, h3⟩ := h1
          exact List.Forall₂.cons (hp.2 ⟨rfl, h2 p (by simp)⟩) (hi.2 ⟨h3, fun q hq => h2 q (by simp [hq])⟩)
  simp only [iclSelect]
  constructor
  · intro h
    split_ifs at h with k0
    cases hr : names.resolve with
    | error e => rw [hr] at h; cases h
    | ok r =>
      rw [hr] at h
      simp only at h
      split_ifs at h with k1 k2 k3
      have h1 := (hall r).1 k1
      obtain ⟨h2, h3⟩ := (hfiles r h1).1 h
      refine ⟨hsome.1 k0, r, ((resolve_iff names r).1 hr).1, h1, (hmis r h1).1 (by simpa using k3), h2, ?_, h3⟩
      rintro rfl
      exact k2 ((iclAsked_iff hd h1 _).1 h2).symm
  · rintro ⟨h0, r, h1, h2, h3, h4, h5, h6⟩
    have e := (iclAsked_iff hd h2 _).1 h4
    have hne : (folders listing).filter (iclWanted listing r) ≠ [] := by
      rw [← e]; simpa using h5
    have hr : names.resolve = .ok r := by
      refine (resolve_iff names r).2 ⟨h1, ?_⟩
      rintro rfl
      exact hne (by rw [List.filter_eq_nil_iff]; simp [iclWanted])
    rw [if_neg (hsome.2 h0), hr]
    simp only
    rw [if_pos ((hall r).2 h2), if_neg hne, if_neg (by simp [(hmis r h2).2 h3])]
    exact (hfiles r h2).2 ⟨h4, h6⟩

end Verif.Data
