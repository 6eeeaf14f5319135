import Verif.Cfg.Values
import Mathlib.Data.List.Basic
/-!
Model of `CfgNode.load_cfg`, `CfgNode.merge_from_file` and `CfgNode.dump` (gradslam/config/cfgnode.py:168-187, 189-198, 324-384, 502-506) and property C71.

The YAML library, the file system and the import of Python modules are parameters.
-/
namespace Verif.Cfg

/-! ### Model -/

/-- What `yaml.safe_load` returns: `None` (an empty document), a mapping, or anything else. -/
inductive Parsed
  | none
  | dict (es : Tree)
  | other (l : Leaf)

/-- Exceptions of loading: those of `CfgNode` itself, a missing file, an unsupported extension, a YAML error, an exception in an imported module. -/
inductive LoadErr
  | cfg (e : Err) | notFound | unsupported | parse | importError

/-- What importing a Python file gives: an exception, or a module whose `cfg` attribute is missing or has some value (cfgnode.py:502-506). -/
inductive PyRes
  | raises
  | module (cfg : Option Val)

/-- Environment: `yaml.safe_load`, import of a Python source file, contents of files. -/
structure Env where
  yaml : String → Option Parsed
  py : String → PyRes
  file : String → Option String

/-- Index of the last `c` in `s`, -1 if there is none (`str.rfind`). -/
def rfind (c : Char) (s : List Char) : Int :=
  match s.reverse.findIdx? (· = c) with
  | none => -1
  | some i => s.length - 1 - i

/-- `os.path.splitext` (POSIX; used at cfgnode.py:351; CPython `genericpath._splitext`). -/
def splitext (s : List Char) : List Char × List Char :=
  let sep := rfind '/' s
  let dot := rfind '.' s
  if sep < dot ∧ ((s.take dot.toNat).drop (sep + 1).toNat).any (· ≠ '.') then (s.take dot.toNat, s.drop dot.toNat) else (s, [])

/-- `CfgNode(d)` with load errors. -/
def constructL (d : Tree) : Except LoadErr Val :=
  match construct d false with
  | .ok v => .ok v
  | .error e => .error (.cfg e)

/-- `_load_cfg_from_yaml_str`, cfgnode.py:363-367; `CfgNode(None)` is the empty config (cfgnode.py:63) and `CfgNode(x)` for anything that is not a
mapping fails at `d.items()` (cfgnode.py:101). -/
def loadYaml (E : Env) (s : String) : Except LoadErr Val :=
  match E.yaml s with
  | none => .error .parse
  | some .none => constructL .nil
  | some (.dict d) => constructL d
  | some (.other _) => .error (.cfg .attributeError)

/-- `_load_cfg_py_source`, cfgnode.py:369-384. -/
def loadPy (E : Env) (name : String) : Except LoadErr Val :=
  match E.py name with
  | .raises => .error .importError
  | .module none => .error (.cfg .assertion)
  | .module (some (.leaf _)) => .error (.cfg .assertion)
  | .module (some (.sub _ es)) => constructL es

/-- `_load_cfg_from_file`, cfgnode.py:348-361, with the extensions of cfgnode.py:23-25. -/
def loadFile (E : Env) (name contents : String) : Except LoadErr Val :=
  let ext := (splitext name.toList).2
  if ext ∈ ["".toList, ".yml".toList, ".yaml".toList] then loadYaml E contents
  else if ext ∈ [".py".toList] then loadPy E name
  else .error .unsupported

/-- Arguments of `load_cfg`: a string, an open file, anything else. -/
inductive Source
  | text (s : String)
  | file (name contents : String)
  | other

/-- `load_cfg`, cfgnode.py:324-346. -/
def loadCfg (E : Env) : Source → Except LoadErr Val
  | .text s => loadYaml E s
  | .file n c => loadFile E n c
  | .other => .error (.cfg .assertion)

/-- `merge_from_file`, cfgnode.py:189-198: the entries after the call and the exception, if any. -/
def mergeFromFile (E : Env) (lit : String → LitRes) (f : Flags) (es : Tree) (path : String) : Tree × Option LoadErr :=
  match E.file path with
  | none => (es, some .notFound)
  | some contents =>
    match loadCfg E (.file path contents) with
    | .error e => (es, some e)
    | .ok v =>
      match mergeFromOther lit f es v with
      | (es', none) => (es', none)
      | (es', some e) => (es', some (.cfg e))

/-- `dump`, cfgnode.py:168-187; `dumpY` is `yaml.safe_dump`. -/
def dump (dumpY : Tree → String) (t : Tree) : Except Err String :=
  match toDict t with
  | .error e => .error e
  | .ok d => .ok (dumpY d)

/-! ### Extensions -/

theorem rfind_append {c : Char} (a b : List Char) (h : c ∉ b) : rfind c (a ++ c :: b) = a.length := by
  have hb : b.reverse.findIdx? (· = c) = none := by simpa [List.findIdx?_eq_none_iff] using fun x hx (e : x = c) => h (e ▸ hx)
  rw [rfind, List.reverse_append, List.reverse_cons, List.append_assoc, List.findIdx?_append, hb]
  simp only [List.singleton_append, List.findIdx?_cons, decide_true, if_true, Option.none_or, Option.map_some, List.length_append, List.length_cons,
    List.length_reverse, Nat.zero_add]
  push_cast; omega

theorem rfind_none {c : Char} {s : List Char} (h : c ∉ s) : rfind c s = -1 := by
  have hb : s.reverse.findIdx? (· = c) = none := by simpa [List.findIdx?_eq_none_iff] using fun x hx (e : x = c) => h (e ▸ hx)
  rw [rfind, hb]

/-- `d` is empty or ends with a slash: everything before the file name. -/
def IsDir (d : List Char) : Prop := d = [] ∨ ∃ a, d = a ++ ['/']

theorem rfind_dir {d n : List Char} (hd : IsDir d) (hn : '/' ∉ n) : rfind '/' (d ++ n) = (d.length : Int) - 1 := by
  rcases hd with rfl | ⟨a, rfl⟩
  · rw [List.nil_append, rfind_none hn]; rfl
  · rw [List.append_assoc, List.singleton_append, rfind_append a n hn]; simp

/-- The extension of a file name that has something but dots before its last dot. -/
theorem splitext_ext {d n x : List Char} (hd : IsDir d) (hn : '/' ∉ n) (hx : '/' ∉ x ∧ '.' ∉ x) (hne : ∃ c ∈ n, c ≠ '.') :
    splitext (d ++ n ++ '.' :: x) = (d ++ n, '.' :: x) := by
  have h1 : rfind '/' (d ++ n ++ '.' :: x) = (d.length : Int) - 1 := by
    rw [List.append_assoc]
    exact rfind_dir hd (by simp only [List.mem_append, List.mem_cons, not_or]; exact ⟨hn, by decide, hx.1⟩)
  have h2 : rfind '.' (d ++ n ++ '.' :: x) = ((d ++ n).length : Int) := rfind_append _ _ hx.2
  obtain ⟨c, hc, hcd⟩ := hne
  have hpos : 0 < n.length := List.length_pos_of_mem hc
  rw [splitext]
  simp only [h1, h2]
  rw [if_pos]
  · rw [Int.toNat_natCast, List.take_left, List.drop_left]
  · refine ⟨by simp only [List.length_append]; push_cast; omega, ?_⟩
    rw [Int.toNat_natCast, List.take_left, show ((d.length : Int) - 1 + 1).toNat = d.length by omega]
    rw [List.drop_left]
    simp only [List.any_eq_true, decide_eq_true_eq]
    exact ⟨c, hc, hcd⟩

/-- A file name without a dot, or whose only dots are at its start, has no extension. -/
theorem splitext_none {d n x : List Char} (hd : IsDir d) (hn : ∀ c ∈ n, c = '.') (hx : '/' ∉ x ∧ '.' ∉ x) : splitext (d ++ (n ++ x)) = (d ++ (n ++ x), []) := by
  have hs : '/' ∉ n ++ x := by
    simp only [List.mem_append, not_or]
    exact ⟨fun h => absurd (hn _ h) (by decide), hx.1⟩
  have h1 := rfind_dir hd hs
  rw [splitext]
  simp only [h1]
  rw [if_neg]
  rintro ⟨hlt, hany⟩
  cases hne : n.reverse with
  | nil =>
    have : n = [] := List.reverse_eq_nil_iff.1 hne
    subst this
    have hdot : rfind '.' (d ++ ([] ++ x)) ≤ (d.length : Int) - 1 := by
      rw [List.nil_append]
      by_cases hm : '.' ∈ d
      · obtain ⟨i, hi⟩ : ∃ i, (d ++ x).reverse.findIdx? (· = '.') = some i := by
          rw [← Option.isSome_iff_exists, List.findIdx?_isSome]
          simp [hm]
        have hge : x.length ≤ i := by
          by_contra hc
          rw [List.reverse_append, List.findIdx?_append] at hi
          have : x.reverse.findIdx? (· = '.') = none := by simpa [List.findIdx?_eq_none_iff] using fun y hy (e : y = '.') => hx.2 (e ▸ hy)
          rw [this, Option.none_or, Option.map_eq_some_iff] at hi
          obtain ⟨j, _, hj⟩ := hi
          rw [List.length_reverse] at hj; omega
        rw [rfind, hi, List.length_append]; push_cast; omega
      · rw [rfind_none (by simp only [List.mem_append, not_or]; exact ⟨hm, hx.2⟩)]; omega
    omega
  | cons c r =>
    have hn' : n = r.reverse ++ [c] := by
      have := congrArg List.reverse hne
      simpa using this
    have hc : c = '.' := hn c (by rw [hn']; simp)
    subst hc
    have h2 : rfind '.' (d ++ (n ++ x)) = ((d ++ r.reverse).length : Int) := by
      rw [hn']
      have : d ++ (r.reverse ++ ['.'] ++ x) = (d ++ r.reverse) ++ '.' :: x := by simp
      rw [this]; exact rfind_append _ _ hx.2
    rw [h2] at hany
    rw [Int.toNat_natCast, show ((d.length : Int) - 1 + 1).toNat = d.length by omega] at hany
    rw [hn', show d ++ (r.reverse ++ ['.'] ++ x) = (d ++ r.reverse) ++ '.' :: x by simp, List.take_left, List.drop_left] at hany
    simp only [List.any_eq_true, decide_eq_true_eq] at hany
    obtain ⟨y, hy, hyd⟩ := hany
    exact hyd (hn y (by rw [hn']; simp [List.mem_reverse.1 hy]))

/-! ### Loading -/

/-- A path whose file name ends with `ext` (with a proper stem before it). -/
def HasExt (path : String) (ext : List Char) : Prop :=
  ∃ d n x, path.toList = d ++ n ++ '.' :: x ∧ ext = '.' :: x ∧ IsDir d ∧ '/' ∉ n ∧ ('/' ∉ x ∧ '.' ∉ x) ∧ ∃ c ∈ n, c ≠ '.'

/-- A path whose file name has no extension. -/
def NoExt (path : String) : Prop := ∃ d n x, path.toList = d ++ (n ++ x) ∧ IsDir d ∧ (∀ c ∈ n, c = '.') ∧ '/' ∉ x ∧ '.' ∉ x

theorem ext_of_hasExt {path : String} {ext : List Char} (h : HasExt path ext) : (splitext path.toList).2 = ext := by
  obtain ⟨d, n, x, e, rfl, h1, h2, h3, h4⟩ := h
  rw [e, splitext_ext h1 h2 h3 h4]

theorem ext_of_noExt {path : String} (h : NoExt path) : (splitext path.toList).2 = [] := by
  obtain ⟨d, n, x, e, h1, h2, h3⟩ := h
  rw [e, splitext_none h1 h2 h3]

/-- **C71, formats.**  The extension of the file name alone decides how a file is read: none, `.yml` and `.yaml` as YAML, `.py` by importing it, any
other extension is rejected. -/
theorem load_by_extension (E : Env) (path contents : String) :
    ((NoExt path ∨ HasExt path ".yml".toList ∨ HasExt path ".yaml".toList) → loadCfg E (.file path contents) = loadCfg E (.text contents)) ∧
    (HasExt path ".py".toList → loadCfg E (.file path contents) = loadPy E path) ∧
    (∀ ext, HasExt path ext → ext ∉ [".yml".toList, ".yaml".toList, ".py".toList] → loadCfg E (.file path contents) = .error .unsupported) := by
  refine ⟨?_, ?_, ?_⟩
  · intro h
    have : (splitext path.toList).2 ∈ ["".toList, ".yml".toList, ".yaml".toList] := by
      rcases h with h | h | h
      · rw [ext_of_noExt h]; decide
      · rw [ext_of_hasExt h]; decide
      · rw [ext_of_hasExt h]; decide
    simp only [loadCfg, loadFile]
    rw [if_pos this]
  · intro h
    simp only [loadCfg, loadFile, ext_of_hasExt h]
    rw [if_neg (by decide), if_pos (by decide)]
  · intro ext h hne
    obtain ⟨d, n, x, e, he, h'⟩ := id h
    simp only [List.mem_cons, List.not_mem_nil, or_false, not_or] at hne
    simp only [loadCfg, loadFile, ext_of_hasExt h]
    rw [if_neg, if_neg]
    · simp only [List.mem_cons, List.not_mem_nil, or_false]; exact hne.2.2
    · simp only [List.mem_cons, List.not_mem_nil, or_false, not_or]
      exact ⟨by rw [he]; simp, hne.1, hne.2.1⟩

/-- Everything `load_cfg` returns is a fresh, mutable `CfgNode` that accepts no new keys, and has leaves of permitted types only. -/
theorem load_fresh {E : Env} {s : Source} {v : Val} (h : loadCfg E s = .ok v) : ∃ d, v = .sub (some .fresh) (strip d) ∧
    ∀ l ∈ leaves d, l.ty ∈ [PyType.tuple, .list, .str, .int, .float, .bool] := by
  have hc : ∀ d, constructL d = .ok v → ∃ d, v = .sub (some .fresh) (strip d) ∧ ∀ l ∈ leaves d, l.ty ∈ [PyType.tuple, .list, .str, .int, .float, .bool] := by
    intro d hd
    rw [constructL] at hd
    by_cases hl : ∀ l ∈ leaves d, l.ty ∈ [PyType.tuple, .list, .str, .int, .float, .bool]
    · rw [(construct_iff d false).1 hl] at hd
      cases hd; exact ⟨d, rfl, hl⟩
    · simp only [not_forall] at hl
      obtain ⟨l, h1, h2⟩ := hl
      rw [(construct_iff d false).2 ⟨l, h1, h2⟩] at hd; cases hd
  have hy : ∀ s, loadYaml E s = .ok v → ∃ d, v = .sub (some .fresh) (strip d) ∧ ∀ l ∈ leaves d, l.ty ∈ [PyType.tuple, .list, .str, .int, .float, .bool] := by
    intro s hs
    rw [loadYaml] at hs
    split at hs
    · cases hs
    · exact hc _ hs
    · exact hc _ hs
    · cases hs
  cases s with
  | text s => exact hy s h
  | other => cases h
  | file n c =>
    simp only [loadCfg, loadFile] at h
    split at h
    · exact hy c h
    · split at h
      · rw [loadPy] at h
        split at h
        · cases h
        · cases h
        · cases h
        · exact hc _ h
      · cases h

/-- **C71, what a load gives.**  A mapping is loaded as the config with that mapping's options if all its leaves are of permitted types, and refused
otherwise; an empty document is the empty config; a document that is no mapping and a syntax error are refused.  A Python module is loaded through its
attribute `cfg`, which has to be a mapping; arguments that are neither text nor files are refused. -/
theorem load_spec (E : Env) :
    (∀ s d, E.yaml s = some (.dict d) →
      ((∀ l ∈ leaves d, l.ty ∈ [PyType.tuple, .list, .str, .int, .float, .bool]) → loadCfg E (.text s) = .ok (.sub (some .fresh) (strip d))) ∧
      ((∃ l ∈ leaves d, l.ty ∉ [PyType.tuple, .list, .str, .int, .float, .bool]) → loadCfg E (.text s) = .error (.cfg .assertion))) ∧
    (∀ s, E.yaml s = some .none → loadCfg E (.text s) = .ok (.sub (some .fresh) .nil)) ∧
    (∀ s l, E.yaml s = some (.other l) → loadCfg E (.text s) = .error (.cfg .attributeError)) ∧
    (∀ s, E.yaml s = none → loadCfg E (.text s) = .error .parse) ∧
    (∀ path contents kd d, HasExt path ".py".toList → E.py path = .module (some (.sub kd d)) →
      ((∀ l ∈ leaves d, l.ty ∈ [PyType.tuple, .list, .str, .int, .float, .bool]) →
        loadCfg E (.file path contents) = .ok (.sub (some .fresh) (strip d))) ∧
      ((∃ l ∈ leaves d, l.ty ∉ [PyType.tuple, .list, .str, .int, .float, .bool]) → loadCfg E (.file path contents) = .error (.cfg .assertion))) ∧
    (∀ path contents, HasExt path ".py".toList → E.py path = .raises → loadCfg E (.file path contents) = .error .importError) ∧
    (∀ path contents, HasExt path ".py".toList → (E.py path = .module none ∨ ∃ l, E.py path = .module (some (.leaf l))) →
      loadCfg E (.file path contents) = .error (.cfg .assertion)) ∧
    loadCfg E .other = .error (.cfg .assertion) := by
  have hc : ∀ d, ((∀ l ∈ leaves d, l.ty ∈ [PyType.tuple, .list, .str, .int, .float, .bool]) → constructL d = .ok (.sub (some .fresh) (strip d))) ∧
      ((∃ l ∈ leaves d, l.ty ∉ [PyType.tuple, .list, .str, .int, .float, .bool]) → constructL d = .error (.cfg .assertion)) := fun d =>
    ⟨fun h => by rw [constructL, (construct_iff d false).1 h]; rfl, fun h => by rw [constructL, (construct_iff d false).2 h]⟩
  refine ⟨fun s d h => ?_, fun s h => ?_, fun s l h => ?_, fun s h => ?_, fun p c kd d hx h => ?_, fun p c hx h => ?_, fun p c hx h => ?_, rfl⟩
  · simp only [loadCfg, loadYaml, h]; exact hc d
  · simp only [loadCfg, loadYaml, h]; exact (hc .nil).1 (by simp [leaves])
  · simp only [loadCfg, loadYaml, h]
  · simp only [loadCfg, loadYaml, h]
  · rw [(load_by_extension E p c).2.1 hx]; simp only [loadPy, h]; exact hc d
  · rw [(load_by_extension E p c).2.1 hx]; simp only [loadPy, h]
  · rw [(load_by_extension E p c).2.1 hx]
    rcases h with h | ⟨l, h⟩ <;> simp only [loadPy, h]

/-- **C71, merging a file.**  If the file is missing or cannot be loaded, the config is left as it was; otherwise merging the file is merging the
loaded config. -/
theorem merge_file (E : Env) (lit : String → LitRes) (f : Flags) (es : Tree) (path : String) :
    (E.file path = none → mergeFromFile E lit f es path = (es, some .notFound)) ∧
    ∀ contents, E.file path = some contents →
      (∀ e, loadCfg E (.file path contents) = .error e → mergeFromFile E lit f es path = (es, some e)) ∧
      (∀ v, loadCfg E (.file path contents) = .ok v → (mergeFromFile E lit f es path).1 = (mergeFromOther lit f es v).1 ∧
        ((mergeFromFile E lit f es path).2 = none ↔ (mergeFromOther lit f es v).2 = none)) := by
  refine ⟨fun h => by rw [mergeFromFile, h], fun c h => ⟨fun e he => by rw [mergeFromFile, h]; simp only [he], fun v hv => ?_⟩⟩
  rw [mergeFromFile, h]
  simp only [hv]
  rcases hm : mergeFromOther lit f es v with ⟨es', _ | e⟩ <;> simp

/-! ### When a merge succeeds -/

theorem leaves_named {t : Tree} (h : t.Distinct) {l : Leaf} (hl : l ∈ leaves t) : ∃ p, p ≠ [] ∧ ∀ kd, named p (.sub kd t) = some (.leaf l) := by
  have key : ∀ (k k' : String) (v : Val) (r : Tree), k' ∈ r.keys → k ∉ r.keys → k ≠ k' := fun k k' v r h1 h2 e => h2 (e ▸ h1)
  induction t with
  | nil => simp [leaves] at hl
  | leaf k l' r ih =>
    simp only [leaves, List.mem_cons] at hl
    rcases hl with rfl | hl
    · exact ⟨[k], by simp, fun kd => by simp [named, Tree.get]⟩
    · obtain ⟨p, hp, hn⟩ := ih h.2 hl
      cases p with
      | nil => exact absurd rfl hp
      | cons k' q =>
        refine ⟨k' :: q, by simp, fun kd => ?_⟩
        have hq := hn kd
        have hne : k ≠ k' := by
          rintro rfl
          rw [named, (get_none_iff k r).2 h.1] at hq; cases hq
        rw [named] at hq ⊢
        rw [Tree.get, if_neg hne]; exact hq
  | sub k kd' es r ihe ih =>
    simp only [leaves, List.mem_append] at hl
    rcases hl with hl | hl
    · obtain ⟨p, hp, hn⟩ := ihe h.2.1 hl
      exact ⟨k :: p, by simp, fun kd => by simp only [named, Tree.get, if_true]; exact hn kd'⟩
    · obtain ⟨p, hp, hn⟩ := ih h.2.2 hl
      cases p with
      | nil => exact absurd rfl hp
      | cons k' q =>
        refine ⟨k' :: q, by simp, fun kd => ?_⟩
        have hq := hn kd
        have hne : k ≠ k' := by
          rintro rfl
          rw [named, (get_none_iff k r).2 h.1] at hq; cases hq
        rw [named] at hq ⊢
        rw [Tree.get, if_neg hne]; exact hq

/-- Every leaf of `a` can be stored in the config `b`, and its sections exist there. -/
def Fits (lit : String → LitRes) (a b : Tree) : Prop :=
  (∀ p l, p ≠ [] → named p (.sub none a) = some (.leaf l) → ∃ v old w, Denotes lit (.leaf l) v ∧ at_ p (.sub (some .fresh) b) = some old ∧ StoredAs v old w) ∧
  (∀ p kd es, p ≠ [] → named p (.sub none a) = some (.sub kd es) → ∃ f bes, at_ p (.sub (some .fresh) b) = some (.sub (some f) bes))

theorem mergeEnts_succeeds (lit : String → LitRes) (root : Flags) (a : Tree) : ∀ (pre : List String) (bf : Flags) (b : Tree), a.Distinct →
    (∀ l ∈ leaves a, l.ty ∈ [PyType.tuple, .list, .str, .int, .float, .bool]) → Fits lit a b → (mergeEnts lit root pre a bf b).2 = none := by
  have hn : ∀ (k k' : String) (q : List String) (v : Val) (r : Tree), k ≠ k' → named (k' :: q) (.sub none (Tree.cons k v r)) = named (k' :: q) (.sub none r) := by
    intro k k' q v r h
    rw [named, named, get_cons_ne h]
  have rest : ∀ (k : String) (v w : Val) (r b : Tree), k ∉ r.keys → Fits lit (Tree.cons k v r) b → Fits lit r (b.set k w) := by
    intro k v w r b hk hf
    have ne : ∀ {k' q x}, named (k' :: q) (.sub none r) = some x → k ≠ k' := by
      intro k' q x hx
      rintro rfl
      rw [named, (get_none_iff _ _).2 hk] at hx; cases hx
    refine ⟨fun p l hp hl => ?_, fun p kd es hp hl => ?_⟩
    · cases p with
      | nil => exact absurd rfl hp
      | cons k' q =>
        have h1 := ne hl
        have := hf.1 (k' :: q) l hp (by rw [hn _ _ _ _ _ h1]; exact hl)
        rw [at_cons_node] at this ⊢
        rw [get_set_ne h1]; exact this
    · cases p with
      | nil => exact absurd rfl hp
      | cons k' q =>
        have h1 := ne hl
        have := hf.2 (k' :: q) kd es hp (by rw [hn _ _ _ _ _ h1]; exact hl)
        rw [at_cons_node] at this ⊢
        rw [get_set_ne h1]; exact this
  induction a with
  | nil => intro pre bf b _ _ _; rfl
  | leaf k l r ih =>
    intro pre bf b hd hv hf
    obtain ⟨v, old, w, h1, h2, h3⟩ := hf.1 [k] l (by simp) (by simp [named, Tree.get])
    rw [at_cons_node] at h2
    cases hg : b.get k with
    | none => rw [hg] at h2; cases h2
    | some o =>
      rw [hg] at h2
      simp only [Option.bind_some, at_, Option.some.injEq] at h2
      subst h2
      rw [mergeEnts, (decode_iff ..).2 h1]
      simp only [hg, (coerce_iff ..).2 h3]
      exact ih pre bf _ hd.2 (fun x hx => hv x (by simp [leaves, hx])) (rest k (.leaf l) w r b hd.1 hf)
  | sub k kd es r ihe ih =>
    intro pre bf b hd hv hf
    obtain ⟨cf, bes, h2⟩ := hf.2 [k] kd es (by simp) (by simp [named, Tree.get])
    rw [at_cons_node] at h2
    cases hg : b.get k with
    | none => rw [hg] at h2; cases h2
    | some o =>
      rw [hg] at h2
      simp only [Option.bind_some, at_, Option.some.injEq] at h2
      subst h2
      have hdec : decode lit (.sub kd es) = .ok (.sub (some .fresh) (strip es)) := (decode_iff ..).2 (.dict kd es fun x hx => hv x (by simp [leaves, hx]))
      have hsub : Fits lit es bes := by
        have cast : ∀ q x, named q (.sub none es) = some x → q ≠ [] → named (k :: q) (.sub none (.sub k kd es r)) = some x := by
          intro q x hq hq0
          cases q with
          | nil => exact absurd rfl hq0
          | cons k2 q2 => simp only [named, Tree.get, if_true] at hq ⊢; exact hq
        refine ⟨fun q l hq hl => ?_, fun q kd' es' hq hl => ?_⟩
        · obtain ⟨v, old, w, a1, a2, a3⟩ := hf.1 (k :: q) l (by simp) (cast q _ hl hq)
          refine ⟨v, old, w, a1, ?_, a3⟩
          rw [at_cons_node, hg] at a2
          cases q with
          | nil => exact absurd rfl hq
          | cons k2 q2 => simpa only [Option.bind_some, at_] using a2
        · obtain ⟨f', bes', a2⟩ := hf.2 (k :: q) kd' es' (by simp) (cast q _ hl hq)
          refine ⟨f', bes', ?_⟩
          rw [at_cons_node, hg] at a2
          cases q with
          | nil => exact absurd rfl hq
          | cons k2 q2 => simpa only [Option.bind_some, at_] using a2
      have e1 := ihe (pre ++ [k]) cf bes hd.2.1 (fun x hx => hv x (by simp [leaves, hx])) hsub
      rw [mergeEnts, hdec]
      simp only [hg]
      rcases hm : mergeEnts lit root (pre ++ [k]) es cf bes with ⟨bes', _ | e⟩
      · simp only
        exact ih pre bf _ hd.2.2 (fun x hx => hv x (by simp [leaves, hx])) (rest k (.sub kd es) _ r b hd.1 hf)
      · rw [hm] at e1; cases e1

/-- A merge succeeds if every leaf of the other config can be stored where it is named, every section exists, and only permitted types occur. -/
theorem merge_succeeds (lit : String → LitRes) (f af : Flags) (es a : Tree) (hd : a.Distinct)
    (hv : ∀ l ∈ leaves a, l.ty ∈ [PyType.tuple, .list, .str, .int, .float, .bool]) (hf : Fits lit a es) :
    ∃ es', mergeFromOther lit f es (.sub (some af) a) = (es', none) := by
  have := mergeEnts_succeeds lit f a [] f es hd hv hf
  rcases h : mergeEnts lit f [] a f es with ⟨es', _ | e⟩
  · exact ⟨es', by rw [mergeFromOther, h]⟩
  · rw [h] at this; cases this

/-! ### Saving and loading -/

/-- Contract of the YAML library on nested dictionaries: what is read back has the same paths; leaves are read back unchanged, except that tuples
come back as lists and the elements of tuples and lists may be changed by the same conversion. -/
structure YamlOk (dumpY : Tree → String) (loadY : String → Option Parsed) (view : Leaf → Leaf) : Prop where
  scalar : ∀ l : Leaf, l.ty ≠ .tuple → l.ty ≠ .list → view l = l
  seq : ∀ l : Leaf, l.ty = .tuple ∨ l.ty = .list → (view l).ty = .list
  round : ∀ d : Tree, d.Distinct → (∀ l ∈ leaves d, l.ty ∈ [PyType.tuple, .list, .str, .int, .float, .bool]) →
    ∃ d', loadY (dumpY d) = some (.dict d') ∧ d'.Distinct ∧
      (∀ p l, p ≠ [] → (named p (.sub none d') = some (.leaf l) ↔ ∃ l0, named p (.sub none d) = some (.leaf l0) ∧ l = view l0)) ∧
      (∀ p, p ≠ [] → ((∃ kd es, named p (.sub none d') = some (.sub kd es)) ↔ ∃ kd es, named p (.sub none d) = some (.sub kd es)))

/-- Same leaves and sections at every path below the root. -/
def SameAt (x y : List String → Option Val) : Prop :=
  ∀ p, p ≠ [] → (∀ l, x p = some (.leaf l) ↔ y p = some (.leaf l)) ∧ ((∃ kd es, x p = some (.sub kd es)) ↔ ∃ kd es, y p = some (.sub kd es))

theorem strip_get (t : Tree) (k : String) : (strip t).get k = (t.get k).map fun v => match v with
    | .leaf l => .leaf l
    | .sub _ es => .sub (some .fresh) (strip es) := by
  induction t with
  | nil => rfl
  | leaf k' l r ih => by_cases h : k' = k <;> simp [strip, Tree.get, h, ih]
  | sub k' kd es r _ ih => by_cases h : k' = k <;> simp [strip, Tree.get, h, ih]

theorem strip_sameAt (d : Tree) (f : Flags) : SameAt (fun p => at_ p (.sub (some f) (strip d))) (fun p => named p (.sub none d)) := by
  intro p
  induction p generalizing d f with
  | nil => exact fun h => absurd rfl h
  | cons k q ih =>
    intro _
    simp only [at_, named, strip_get]
    cases hg : d.get k with
    | none => simp
    | some v =>
      cases v with
      | leaf l => cases q <;> simp [at_, named]
      | sub kd es =>
        cases q with
        | nil => simp [at_, named]
        | cons k2 q2 =>
          have := ih es .fresh (by simp)
          simpa [named] using this

theorem toDict_ok {t d : Tree} (hp : Permitted t) (hd : toDict t = .ok d) : d.keys = t.keys ∧ (t.Distinct → d.Distinct) ∧
    (∀ l ∈ leaves d, l.ty ∈ [PyType.tuple, .list, .str, .int, .float, .bool]) ∧ strip d = strip t := by
  induction t generalizing d with
  | nil => cases hd; exact ⟨rfl, id, by simp [leaves], rfl⟩
  | leaf k l r ih =>
    rw [toDict, if_pos (valid_of_ty hp.1)] at hd
    cases hr : toDict r with
    | error e => rw [hr] at hd; cases hd
    | ok d1 =>
      rw [hr] at hd; cases hd
      obtain ⟨a1, a2, a3, a4⟩ := ih hp.2 hr
      refine ⟨by simp [Tree.keys, a1], fun h => ⟨by rw [a1]; exact h.1, a2 h.2⟩, fun x hx => ?_, by simp [strip, a4]⟩
      simp only [leaves, List.mem_cons] at hx
      rcases hx with rfl | hx
      · exact hp.1
      · exact a3 x hx
  | sub k kd es r ihe ih =>
    obtain ⟨hk, he, hr⟩ := hp
    cases kd with
    | none => simp at hk
    | some f =>
      rw [toDict] at hd
      cases h1 : toDict es with
      | error e => rw [h1] at hd; cases hd
      | ok e =>
        cases h2 : toDict r with
        | error e' => rw [h1, h2] at hd; cases hd
        | ok d1 =>
          rw [h1, h2] at hd; cases hd
          obtain ⟨a1, a2, a3, a4⟩ := ih hr h2
          obtain ⟨b1, b2, b3, b4⟩ := ihe he h1
          refine ⟨by simp [Tree.keys, a1], fun h => ⟨by rw [a1]; exact h.1, b2 h.2.1, a2 h.2.2⟩, fun x hx => ?_, by simp [strip, a4, b4]⟩
          simp only [leaves, List.mem_append] at hx
          rcases hx with hx | hx
          · exact b3 x hx
          · exact a3 x hx

theorem permitted_sameAt {t : Tree} (hp : Permitted t) (f : Flags) : SameAt (fun p => at_ p (.sub (some f) t)) (fun p => at_ p (.sub (some .fresh) (strip t))) := by
  have key : ∀ (t : Tree), Permitted t → ∀ k kd es, t.get k = some (.sub kd es) → kd.isSome = true ∧ Permitted es := by
    intro t
    induction t with
    | nil => intro _ k kd es h; cases h
    | leaf k' l' r ih =>
      intro h k kd es hg
      rw [Tree.get] at hg
      split at hg
      · cases hg
      · exact ih h.2 k kd es hg
    | sub k' kd' es' r _ ih =>
      intro h k kd es hg
      rw [Tree.get] at hg
      split at hg
      · cases hg; exact ⟨h.1, h.2.1⟩
      · exact ih h.2.2 k kd es hg
  intro p
  induction p generalizing t f with
  | nil => exact fun h => absurd rfl h
  | cons k q ih =>
    intro _
    simp only [at_, strip_get]
    cases hg : t.get k with
    | none => simp
    | some v =>
      cases v with
      | leaf l => cases q <;> simp [at_]
      | sub kd es =>
        obtain ⟨h1, h2⟩ := key t hp k kd es hg
        cases kd with
        | none => simp at h1
        | some cf =>
          cases q with
          | nil => simp [at_]
          | cons k2 q2 => simpa using ih h2 cf (by simp)

theorem strip_keys (t : Tree) : (strip t).keys = t.keys := by
  induction t with
  | nil => rfl
  | leaf k l r ih => simp [strip, Tree.keys, ih]
  | sub k kd es r _ ih => simp [strip, Tree.keys, ih]

theorem strip_distinct {t : Tree} (h : t.Distinct) : (strip t).Distinct := by
  induction t with
  | nil => exact h
  | leaf k l r ih => exact ⟨by rw [strip_keys]; exact h.1, ih h.2⟩
  | sub k kd es r ihe ih => exact ⟨by rw [strip_keys]; exact h.1, ihe h.2.1, ih h.2.2⟩

theorem get_leaves {d : Tree} {k : String} {v : Val} (h : d.get k = some v) :
    (∀ l, v = .leaf l → l ∈ leaves d) ∧ (∀ kd es, v = .sub kd es → ∀ l ∈ leaves es, l ∈ leaves d) := by
  induction d with
  | nil => cases h
  | leaf k' l' r ihr =>
    rw [Tree.get] at h
    split at h
    · cases h; exact ⟨(fun l e => by cases e; simp [leaves]), (fun kd es e => by cases e)⟩
    · exact ⟨(fun l e => by simp [leaves, (ihr h).1 l e]), (fun kd es e l hl => by simp [leaves, (ihr h).2 kd es e l hl])⟩
  | sub k' kd' es' r _ ihr =>
    rw [Tree.get] at h
    split at h
    · cases h; exact ⟨(fun l e => by cases e), (fun kd es e l hl => by cases e; simp [leaves, hl])⟩
    · exact ⟨(fun l e => by simp [leaves, (ihr h).1 l e]), (fun kd es e l hl => by simp [leaves, (ihr h).2 kd es e l hl])⟩

theorem named_leaves {p : List String} {d : Tree} {l0 : Leaf} (h0 : named p (.sub none d) = some (.leaf l0)) (hp0 : p ≠ []) : l0 ∈ leaves d := by
  induction p generalizing d with
  | nil => exact absurd rfl hp0
  | cons k q ih =>
    rw [named] at h0
    cases hg : d.get k with
    | none => rw [hg] at h0; cases h0
    | some v =>
      rw [hg] at h0
      cases v with
      | leaf l =>
        cases q with
        | nil => simp only [named, Option.some.injEq, Val.leaf.injEq] at h0; subst h0; exact (get_leaves hg).1 _ rfl
        | cons _ _ => simp [named] at h0
      | sub kd es =>
        cases q with
        | nil => simp [named] at h0
        | cons k2 q2 => exact (get_leaves hg).2 kd es rfl _ (ih (by simpa [named] using h0) (by simp))

/-- **C71, saving and loading.**  `load_cfg(cfg.dump())` succeeds for every config with leaves of permitted types, and has the same sections and the
same leaves at the same paths, up to what YAML does to tuples and lists. -/
theorem dump_load {dumpY : Tree → String} {E : Env} {view : Leaf → Leaf} (hY : YamlOk dumpY E.yaml view) {t : Tree} (hd : t.Distinct) (hp : Permitted t) (f : Flags) :
    ∃ s d', dump dumpY t = .ok s ∧ loadCfg E (.text s) = .ok (.sub (some .fresh) (strip d')) ∧ d'.Distinct ∧
      (∀ l ∈ leaves d', l.ty ∈ [PyType.tuple, .list, .str, .int, .float, .bool]) ∧
      (∀ p l, p ≠ [] → (at_ p (.sub (some .fresh) (strip d')) = some (.leaf l) ↔ ∃ l0, at_ p (.sub (some f) t) = some (.leaf l0) ∧ l = view l0)) ∧
      (∀ p, p ≠ [] → ((∃ kd es, at_ p (.sub (some .fresh) (strip d')) = some (.sub kd es)) ↔ ∃ kd es, at_ p (.sub (some f) t) = some (.sub kd es))) := by
  obtain ⟨d, h1, _⟩ := dict_round_trip t hp
  obtain ⟨k1, k2, k3, k4⟩ := toDict_ok hp h1
  obtain ⟨d', e1, e2, e3, e4⟩ := hY.round d (k2 hd) k3
  have hsame : SameAt (fun p => at_ p (.sub (some f) t)) (fun p => named p (.sub none d)) := by
    intro p hp0
    obtain ⟨a1, a2⟩ := permitted_sameAt hp f p hp0
    obtain ⟨b1, b2⟩ := strip_sameAt d .fresh p hp0
    rw [k4] at b1 b2
    exact ⟨fun l => (a1 l).trans (b1 l), a2.trans b2⟩
  have hv : ∀ l ∈ leaves d', l.ty ∈ [PyType.tuple, .list, .str, .int, .float, .bool] := by
    intro l hl
    obtain ⟨p, hp0, hn⟩ := leaves_named e2 hl
    obtain ⟨l0, h0, rfl⟩ := (e3 p l hp0).1 (hn none)
    by_cases hseq : l0.ty = .tuple ∨ l0.ty = .list
    · rw [hY.seq l0 hseq]; simp
    · rw [not_or] at hseq
      rw [hY.scalar l0 hseq.1 hseq.2]
      exact k3 l0 (named_leaves h0 hp0)
  refine ⟨dumpY d, d', by rw [dump, h1], ?_, e2, hv, fun p l hp0 => ?_, fun p hp0 => ?_⟩
  · simp only [loadCfg, loadYaml, e1, constructL, (construct_iff d' false).1 hv]; rfl
  · rw [((strip_sameAt d' .fresh) p hp0).1 l, e3 p l hp0]
    exact exists_congr fun l0 => and_congr_left' ((hsame p hp0).1 l0).symm
  · rw [((strip_sameAt d' .fresh) p hp0).2, e4 p hp0]
    exact (hsame p hp0).2.symm

/-- **C71, restoring a saved config.**  A config was saved with `dump()` to a YAML file, and none of its strings is a Python literal.  Merging the file
into a config that has the same sections and, at the same paths, leaves of the same types, succeeds; every saved option then has its saved type and
value (up to what YAML does to the elements of tuples and lists), every other option keeps its value. -/
theorem save_and_merge {dumpY : Tree → String} {E : Env} {view : Leaf → Leaf} (hY : YamlOk dumpY E.yaml view) {t : Tree} (hd : t.Distinct) (hp : Permitted t)
    {lit : String → LitRes} (hstr : ∀ p s, at_ p (.sub (some .fresh) t) = some (.leaf ⟨.str, s⟩) → lit s = .pass)
    {f : Flags} {es : Tree} (hleaf : ∀ p l, at_ p (.sub (some .fresh) t) = some (.leaf l) → ∃ old, at_ p (.sub (some .fresh) es) = some (.leaf old) ∧ old.ty = l.ty)
    (hsec : ∀ p kd x, p ≠ [] → at_ p (.sub (some .fresh) t) = some (.sub kd x) → ∃ g y, at_ p (.sub (some .fresh) es) = some (.sub (some g) y))
    {path s : String} (hext : NoExt path ∨ HasExt path ".yml".toList ∨ HasExt path ".yaml".toList) (hs : dump dumpY t = .ok s) (hfile : E.file path = some s) :
    ∃ es', mergeFromFile E lit f es path = (es', none) ∧
      (∀ p l, at_ p (.sub (some .fresh) t) = some (.leaf l) → at_ p (.sub (some f) es') = some (.leaf { view l with ty := l.ty })) ∧
      ∀ p old, at_ p (.sub (some f) es) = some (.leaf old) → (∀ v, at_ p (.sub (some .fresh) t) ≠ some v) → at_ p (.sub (some f) es') = some (.leaf old) := by
  obtain ⟨s', d', h1, h2, h3, h4, h5, h6⟩ := dump_load hY hd hp .fresh
  rw [hs] at h1; cases h1
  have hload : loadCfg E (.file path s) = .ok (.sub (some .fresh) (strip d')) := by rw [(load_by_extension E path s).1 hext]; exact h2
  have hdist : (strip d').Distinct := strip_distinct h3
  have hlv : ∀ t, leaves (strip t) = leaves t := by
    intro t
    induction t with
    | nil => rfl
    | leaf k l r ih => simp [strip, leaves, ih]
    | sub k kd es r ihe ih => simp [strip, leaves, ih, ihe]
  have hnm : ∀ p (t : Tree), named p (.sub none (strip t)) = none ∧ named p (.sub none t) = none ∨ p = [] ∨
      ((∀ l, named p (.sub none (strip t)) = some (.leaf l) ↔ named p (.sub none t) = some (.leaf l)) ∧
      ((∃ kd es, named p (.sub none (strip t)) = some (.sub kd es)) ↔ ∃ kd es, named p (.sub none t) = some (.sub kd es))) := by
    intro p
    induction p with
    | nil => exact fun t => .inr (.inl rfl)
    | cons k q ih =>
      intro t
      simp only [named, strip_get]
      cases hg : t.get k with
      | none => exact .inl ⟨rfl, rfl⟩
      | some v =>
        cases v with
        | leaf l => cases q <;> simp [named]
        | sub kd es =>
          cases q with
          | nil => simp [named]
          | cons k2 q2 =>
            rcases ih es with h | h | h
            · exact .inl (by simpa [named] using h)
            · cases h
            · exact .inr (.inr (by simpa [named] using h))
  -- what the loaded config names at a path, in terms of the saved one
  have n1 : ∀ p l, p ≠ [] → (named p (.sub none (strip d')) = some (.leaf l) ↔ ∃ l0, at_ p (.sub (some .fresh) t) = some (.leaf l0) ∧ l = view l0) := by
    intro p l hp0
    rw [← h5 p l hp0, ((strip_sameAt d' .fresh) p hp0).1 l]
    show _ ↔ named p (.sub none d') = _
    rcases hnm p d' with h | h | h
    · rw [h.1, h.2]
    · exact absurd h hp0
    · exact h.1 l
  have n2 : ∀ p, p ≠ [] → ((∃ kd es, named p (.sub none (strip d')) = some (.sub kd es)) ↔ ∃ kd es, at_ p (.sub (some .fresh) t) = some (.sub kd es)) := by
    intro p hp0
    rw [← h6 p hp0, ((strip_sameAt d' .fresh) p hp0).2]
    show _ ↔ ∃ kd es, named p (.sub none d') = _
    rcases hnm p d' with h | h | h
    · rw [h.1, h.2]
    · exact absurd h hp0
    · exact h.2
  have hst : ∀ (p : List String) (l0 old : Leaf), at_ p (.sub (some .fresh) t) = some (.leaf l0) → old.ty = l0.ty →
      Denotes lit (.leaf (view l0)) (.leaf (view l0)) ∧ StoredAs (.leaf (view l0)) (.leaf old) (.leaf { view l0 with ty := l0.ty }) ∧
      ∀ v w, Denotes lit (.leaf (view l0)) v → StoredAs v (.leaf old) w → w = .leaf { view l0 with ty := l0.ty } := by
    intro p l0 old hl0 ho
    obtain ⟨ty, pl⟩ := l0
    obtain ⟨oty, opl⟩ := old
    subst ho
    have hden : Denotes lit (.leaf (view ⟨oty, pl⟩)) (.leaf (view ⟨oty, pl⟩)) := by
      by_cases hss : oty = .str
      · subst hss
        rw [hY.scalar _ (by simp) (by simp)]
        exact .plain _ (hstr p pl hl0)
      · refine .other _ ?_
        by_cases hseq : oty = .tuple ∨ oty = .list
        · rw [hY.seq ⟨oty, pl⟩ hseq]; simp
        · rw [not_or] at hseq
          rw [hY.scalar _ hseq.1 hseq.2]; exact hss
    have hsto : StoredAs (.leaf (view ⟨oty, pl⟩)) (.leaf ⟨oty, opl⟩) (.leaf { view ⟨oty, pl⟩ with ty := oty }) := by
      by_cases hseq : oty = .tuple ∨ oty = .list
      · have ht := hY.seq ⟨oty, pl⟩ hseq
        rcases hv : view ⟨oty, pl⟩ with ⟨vt, vp⟩
        rw [hv] at ht
        simp only at ht; subst ht
        rcases hseq with rfl | rfl
        · exact .toTuple _ _
        · exact .same _ _ rfl
      · rw [not_or] at hseq
        rw [hY.scalar _ hseq.1 hseq.2]
        exact .same _ _ rfl
    refine ⟨hden, hsto, fun v w hv hw => ?_⟩
    have e1 := (decode_iff lit _ _).2 hv
    rw [(decode_iff lit _ _).2 hden] at e1
    cases e1
    have e2 := (coerce_iff _ _ _).2 hw
    rw [(coerce_iff _ _ _).2 hsto] at e2
    cases e2; rfl
  obtain ⟨es', hes'⟩ := merge_succeeds lit f .fresh es (strip d') hdist (by rw [hlv]; exact h4) (by
    refine ⟨fun p l hp0 hl => ?_, fun p kd x hp0 hl => ?_⟩
    · obtain ⟨l0, a1, rfl⟩ := (n1 p l hp0).1 hl
      obtain ⟨old, o1, o2⟩ := hleaf p l0 a1
      obtain ⟨b1, b2, _⟩ := hst p l0 old a1 o2
      exact ⟨_, _, _, b1, o1, b2⟩
    · obtain ⟨kd', x', a1⟩ := (n2 p hp0).1 ⟨kd, x, hl⟩
      exact hsec p kd' x' hp0 a1)
  have hm : mergeFromFile E lit f es path = (es', none) := by
    rw [mergeFromFile, hfile]
    simp only [hload, hes']
  have hfl : ∀ p (g g' : Flags) (x : Tree), p ≠ [] → at_ p (.sub (some g) x) = at_ p (.sub (some g') x) := by
    intro p g g' x hp0
    cases p with
    | nil => exact absurd rfl hp0
    | cons k q => rfl
  have hnf : ∀ p, p ≠ [] → named p (.sub (some .fresh) (strip d')) = named p (.sub none (strip d')) := by
    intro p hp0
    cases p with
    | nil => exact absurd rfl hp0
    | cons k q => rfl
  have p0 : ∀ p (g : Flags) (x : Tree) l, at_ p (.sub (some g) x) = some (.leaf l) → p ≠ [] := by
    rintro p g x l h rfl
    cases h
  refine ⟨es', hm, fun p l hl => ?_, fun p old ho hno => ?_⟩
  · have hp0 := p0 _ _ _ _ hl
    obtain ⟨old, o1, o2⟩ := hleaf p l hl
    rw [hfl p .fresh f es hp0] at o1
    obtain ⟨v, w, b1, b2, b3⟩ := (merge_overrides lit f .fresh es es' (strip d') hdist hes' p old o1).1 (view l) (by rw [hnf p hp0]; exact (n1 p _ hp0).2 ⟨l, hl, rfl⟩)
    rw [b3, (hst p l old hl o2).2.2 v w b1 b2]
  · have hp0 := p0 _ _ _ _ ho
    refine (merge_overrides lit f .fresh es es' (strip d') hdist hes' p old ho).2 ?_
    rw [hnf p hp0]
    cases hn : named p (.sub none (strip d')) with
    | none => rfl
    | some v =>
      exfalso
      cases v with
      | leaf l => obtain ⟨l0, a1, _⟩ := (n1 p l hp0).1 hn; exact hno _ a1
      | sub kd x => obtain ⟨kd', x', a1⟩ := (n2 p hp0).1 ⟨kd, x, hn⟩; exact hno _ a1

end Verif.Cfg
