import Verif.Data.Files
import Mathlib.Data.List.Forall2
/-! Properties C11, C12, C59, C62: the dataset text files. -/
namespace Verif.Data
set_option linter.unusedSimpArgs false

/-! ### C59 `read_file_list` -/

theorem splitC_no {c : Char} : ∀ {u : Str}, c ∉ u → splitC c u = [u]
  | [], _ => rfl
  | x :: xs, h => by
    simp only [List.mem_cons, not_or] at h
    simp [splitC, Ne.symm h.1, splitC_no h.2]

theorem splitC_cons {c : Char} : ∀ {u : Str} (v : Str), c ∉ u → splitC c (u ++ c :: v) = u :: splitC c v
  | [], v, _ => by simp [splitC]
  | x :: xs, v, h => by
    simp only [List.mem_cons, not_or] at h
    simp [splitC, Ne.symm h.1, splitC_cons v h.2]

theorem dropWhile_no {p : Char → Bool} : ∀ {s : Str}, (∀ c ∈ s, p c = false) → s.dropWhile p = s
  | [], _ => rfl
  | x :: xs, h => by simp [h x (by simp)]

theorem strip_no {s : Str} (h : ∀ c ∈ s, isWs c = false) : strip s = s := by
  rw [strip, dropWhile_no h, dropWhile_no (by simpa using h), List.reverse_reverse]

/-- Specification: a data token. -/
def IsTok (t : Str) : Prop := t ≠ [] ∧ ∀ c ∈ t, isWs c = false ∧ c ≠ ','
/-- Specification: one or more separators (space, comma, tab). -/
def IsSep (s : Str) : Prop := s ≠ [] ∧ ∀ c ∈ s, c = ' ' ∨ c = ',' ∨ c = '\t'

/-- Specification: the lines of a well-formed list file. -/
inductive Line
  | blank
  | comment (s : Str)
  | row (first : Str) (rest : List (Str × Str)) (trail : Str)

def Line.Ok : Line → Prop
  | .blank => True
  | .comment s => '\n' ∉ s
  | .row f rest trail => IsTok f ∧ f.head? ≠ some '#' ∧ (∀ p ∈ rest, IsSep p.1 ∧ IsTok p.2) ∧
      ∀ c ∈ trail, c = ' ' ∨ c = ',' ∨ c = '\t'

def Line.render : Line → Str
  | .blank => []
  | .comment s => '#' :: s
  | .row f rest trail => f ++ rest.flatMap (fun p => p.1 ++ p.2) ++ trail

/-- The columns of a data row; other lines have none. -/
def Line.cols : Line → Option (List Str)
  | .row f rest _ => some (f :: rest.map (·.2))
  | _ => none

/-- Specification: the text of a file. -/
def renderFile : List Line → Str
  | [] => []
  | [l] => l.render
  | l :: l' :: ls => l.render ++ '\n' :: renderFile (l' :: ls)

theorem tok_props {t : Str} (h : IsTok t) : unify t = t ∧ ' ' ∉ t ∧ '\n' ∉ t ∧ strip t = t := by
  have h' := h.2
  refine ⟨?_, ?_, ?_, strip_no (fun c hc => (h' c hc).1)⟩
  · rw [unify]
    conv_rhs => rw [← List.map_id t]
    apply List.map_congr_left
    intro c hc
    obtain ⟨h1, h2⟩ := h' c hc
    have h3 : c ≠ '\t' := by rintro rfl; simp [isWs] at h1
    simp [h2, h3]
  · intro hc; have := (h' _ hc).1; simp [isWs] at this
  · intro hc; have := (h' _ hc).1; simp [isWs] at this

theorem fields_space (v : Str) : fields (' ' :: v) = fields v := by
  simp [fields, splitC, strip]

theorem fields_seps : ∀ (s v : Str), (∀ c ∈ s, c = ' ' ∨ c = ',' ∨ c = '\t') → fields (unify s ++ v) = fields v
  | [], v, _ => rfl
  | c :: s, v, h => by
    have hc : (if c = ',' ∨ c = '\t' then ' ' else c) = ' ' := by
      rcases h c (by simp) with rfl | rfl | rfl <;> simp
    simp only [unify, List.map_cons, hc, List.cons_append]
    rw [fields_space]
    exact fields_seps s v (fun d hd => h d (by simp [hd]))

theorem fields_tok_end {t : Str} (h : IsTok t) : fields t = [t] := by
  obtain ⟨_, h2, _, h4⟩ := tok_props h
  simp [fields, splitC_no h2, h4, h.1]

theorem fields_tok_space {t : Str} (h : IsTok t) (v : Str) : fields (t ++ ' ' :: v) = t :: fields v := by
  obtain ⟨_, h2, _, h4⟩ := tok_props h
  simp [fields, splitC_cons v h2, h4, h.1]

theorem unify_append (a b : Str) : unify (a ++ b) = unify a ++ unify b := by simp [unify]

theorem fields_tok_sep {t s : Str} (ht : IsTok t) (hs : IsSep s) (v : Str) :
    fields (t ++ (unify s ++ v)) = t :: fields v := by
  obtain ⟨hne, hs⟩ := hs
  cases s with
  | nil => exact absurd rfl hne
  | cons c s =>
    have hc : (if c = ',' ∨ c = '\t' then ' ' else c) = ' ' := by
      rcases hs c (by simp) with rfl | rfl | rfl <;> simp
    have : unify (c :: s) = ' ' :: unify s := by simp only [unify, List.map_cons, hc]
    rw [this, List.cons_append, fields_tok_space ht, fields_seps s v (fun d hd => hs d (by simp [hd]))]

theorem fields_row : ∀ (rest : List (Str × Str)) (f trail : Str), IsTok f → (∀ p ∈ rest, IsSep p.1 ∧ IsTok p.2) →
    (∀ c ∈ trail, c = ' ' ∨ c = ',' ∨ c = '\t') →
    fields (unify (f ++ rest.flatMap (fun p => p.1 ++ p.2) ++ trail)) = f :: rest.map (·.2)
  | [], f, trail, hf, _, htr => by
    simp only [List.flatMap_nil, List.append_nil, List.map_nil, unify_append, (tok_props hf).1]
    by_cases h : trail = []
    · subst h; simpa [unify] using fields_tok_end hf
    · have := fields_tok_sep hf ⟨h, htr⟩ []
      rw [List.append_nil] at this
      rw [this]; simp [fields, splitC, strip]
  | p :: rest, f, trail, hf, hr, htr => by
    have ih := fields_row rest p.2 trail (hr p (by simp)).2 (fun q hq => hr q (by simp [hq])) htr
    have e : f ++ (p :: rest).flatMap (fun p => p.1 ++ p.2) ++ trail =
        f ++ (p.1 ++ (p.2 ++ rest.flatMap (fun p => p.1 ++ p.2) ++ trail)) := by simp [List.append_assoc]
    rw [e, unify_append, unify_append p.1, (tok_props hf).1, fields_tok_sep hf (hr p (by simp)).1, ih]
    rfl

theorem unify_mem_nl (s : Str) : '\n' ∈ unify s ↔ '\n' ∈ s := by
  simp only [unify, List.mem_map]
  constructor
  · rintro ⟨c, hc, h⟩
    split_ifs at h with h1
    · simp at h
    · exact h ▸ hc
  · intro h; exact ⟨'\n', h, by simp⟩

theorem Line.render_no_nl {l : Line} (h : l.Ok) : '\n' ∉ l.render := by
  cases l with
  | blank => simp [Line.render]
  | comment s => simpa [Line.render, Line.Ok] using h
  | row f rest trail =>
    obtain ⟨h1, _, h3, h4⟩ := h
    have hs : ∀ s : Str, (∀ c ∈ s, c = ' ' ∨ c = ',' ∨ c = '\t') → '\n' ∉ s := by
      intro s hs hn; rcases hs _ hn with h | h | h <;> simp at h
    simp only [Line.render, List.mem_append, List.mem_flatMap, not_or]
    refine ⟨⟨(tok_props h1).2.2.1, ?_⟩, hs _ h4⟩
    rintro ⟨p, hp, h | h⟩
    · exact hs _ (h3 p hp).1.2 h
    · exact (tok_props (h3 p hp).2).2.2.1 h

theorem split_file : ∀ (ls : List Line), ls ≠ [] → (∀ l ∈ ls, l.Ok) →
    splitC '\n' (unify (renderFile ls)) = ls.map fun l => unify l.render
  | [], h, _ => absurd rfl h
  | [l], _, h => by
    simp only [renderFile, List.map_cons, List.map_nil]
    exact splitC_no (by rw [unify_mem_nl]; exact Line.render_no_nl (h l (by simp)))
  | l :: l' :: ls, _, h => by
    have ih := split_file (l' :: ls) (by simp) (fun x hx => h x (by simp [hx]))
    simp only [renderFile]
    have e : unify (l.render ++ '\n' :: renderFile (l' :: ls)) =
        unify l.render ++ '\n' :: unify (renderFile (l' :: ls)) := by simp [unify]
    rw [e, splitC_cons _ (by rw [unify_mem_nl]; exact Line.render_no_nl (h l (by simp))), ih]
    simp

theorem data_rows : ∀ (ls : List Line), (∀ l ∈ ls, l.Ok) →
    (((ls.map fun l => unify l.render).filter isData).map fields) = ls.filterMap Line.cols
  | [], _ => rfl
  | l :: ls, h => by
    have ih := data_rows ls (fun x hx => h x (by simp [hx]))
    have hl := h l (by simp)
    cases l with
    | blank =>
      have e : isData (unify Line.blank.render) = false := rfl
      simpa only [List.map_cons, List.filter_cons, e, Bool.false_eq_true, if_false, List.filterMap_cons, Line.cols] using ih
    | comment s =>
      have e : isData (unify (Line.comment s).render) = false := by simp [Line.render, unify, isData]
      simpa only [List.map_cons, List.filter_cons, e, Bool.false_eq_true, if_false, List.filterMap_cons, Line.cols] using ih
    | row f rest trail =>
      obtain ⟨h1, h2, h3, h4⟩ := hl
      have hd : isData (unify (Line.row f rest trail).render) = true := by
        have hf := (tok_props h1).1
        simp only [Line.render, unify_append, hf]
        cases f with
        | nil => exact absurd rfl h1.1
        | cons c f => simpa [isData] using h2
      simp only [List.map_cons, List.filter_cons, hd, if_true, List.filterMap_cons, Line.cols, ih]
      rw [Line.render, fields_row rest f trail h1 h3 h4]

/-- **C59**. On every file made of comment lines, blank lines and data rows (columns separated by any mix of spaces, commas and
tabs), `read_file_list(file, start, end)` is the dictionary stamp ↦ remaining columns of the data rows number `start..end-1`,
counting data rows only; rows without a second column are skipped; for a repeated stamp the last row wins. -/
theorem read_file_list_spec (ls : List Line) (hne : ls ≠ []) (hok : ∀ l ∈ ls, l.Ok) (start stop : Option Nat) :
    readFileList (renderFile ls) start stop =
      dictOf ((slice (ls.filterMap Line.cols) (start.getD 0) (stop.getD (ls.filterMap Line.cols).length)).filterMap
        rowPair) := by
  simp only [readFileList, split_file ls hne hok, data_rows ls hok, List.length_map]
  cases stop with
  | some e => rfl
  | none =>
    have hle : (ls.filterMap Line.cols).length ≤ ls.length := List.length_filterMap_le _ _
    simp only [Option.getD_none, slice, List.take_of_length_le hle, List.take_length]

theorem dictInsert_keys {κ β : Type} [DecidableEq κ] (d : List (κ × β)) (k : κ) (v : β) :
    (dictInsert d k v).map (·.1) = if k ∈ d.map (·.1) then d.map (·.1) else d.map (·.1) ++ [k] := by
  induction d with
  | nil => simp [dictInsert]
  | cons p d ih =>
    by_cases h : p.1 = k
    · simp [dictInsert, h]
    · simp only [dictInsert, h, if_false, List.map_cons, ih, List.mem_cons, Ne.symm h, false_or]
      split_ifs <;> simp

/-- The keys of every dictionary built from pairs are distinct: this discharges the distinct-stamps hypotheses of C09/C10/C61. -/
theorem dictOf_nodup {κ β : Type} [DecidableEq κ] (l : List (κ × β)) : ((dictOf l).map (·.1)).Nodup := by
  have : ∀ d : List (κ × β), (d.map (·.1)).Nodup → ((l.foldl (fun d p => dictInsert d p.1 p.2) d).map (·.1)).Nodup := by
    induction l with
    | nil => intro d h; exact h
    | cons p l ih =>
      intro d h
      apply ih
      rw [dictInsert_keys]
      split_ifs with hk
      · exact h
      · exact List.nodup_append.2 ⟨h, by simp, by intro a ha b hb; simp at hb; subst hb; rintro rfl; exact hk ha⟩
  exact this [] (by simp)

theorem dictInsert_find {κ β : Type} [DecidableEq κ] (d : List (κ × β)) (k k' : κ) (v : β) :
    ((dictInsert d k v).find? (·.1 = k')).map (·.2) = if k = k' then some v else (d.find? (·.1 = k')).map (·.2) := by
  induction d with
  | nil => by_cases h : k = k' <;> simp [dictInsert, h]
  | cons p d ih =>
    by_cases h : p.1 = k
    · by_cases h' : k = k'
      · simp [dictInsert, h, h']
      · simp [dictInsert, h, h', List.find?_cons]
    · by_cases h'' : p.1 = k'
      · have : ¬ k = k' := by rintro rfl; exact h h''
        simp only [dictInsert, h, if_false, this]
        simp [List.find?_cons, h'']
      · simp only [dictInsert, h, if_false, List.find?_cons, h'', decide_false]
        exact ih

/-- Looking a key up gives the value of its *last* occurrence. -/
theorem dictOf_find {κ β : Type} [DecidableEq κ] (l : List (κ × β)) (k : κ) :
    ((dictOf l).find? (·.1 = k)).map (·.2) = (l.reverse.find? (·.1 = k)).map (·.2) := by
  have : ∀ d : List (κ × β), ((l.foldl (fun d p => dictInsert d p.1 p.2) d).find? (·.1 = k)).map (·.2) =
      ((l.reverse ++ d).find? (·.1 = k)).map (·.2) := by
    induction l with
    | nil => intro d; rfl
    | cons p l ih =>
      intro d
      rw [List.foldl_cons, ih, List.reverse_cons, List.append_assoc, List.find?_append, List.find?_append]
      cases h : l.reverse.find? (·.1 = k) with
      | some q => simp
      | none =>
        simp only [Option.none_or]
        rw [dictInsert_find]
        by_cases hp : p.1 = k <;> simp [hp]
  simpa [dictOf] using this []

theorem rev_find_iff {κ β : Type} [DecidableEq κ] (l : List (κ × β)) (k : κ) (v : β) :
    (l.reverse.find? (·.1 = k)).map (·.2) = some v ↔
      ∃ i : Nat, l[i]? = some (k, v) ∧ ∀ j : Nat, i < j → ∀ w, l[j]? ≠ some (k, w) := by
  induction l using List.reverseRecOn with
  | nil => simp
  | append_singleton l p ih =>
    rw [List.reverse_append, List.reverse_singleton, List.singleton_append, List.find?_cons]
    by_cases hp : p.1 = k
    · simp only [hp, decide_true, Option.map_some, Option.some.injEq]
      constructor
      · intro h
        refine ⟨l.length, by rw [List.getElem?_concat_length, ← hp, ← h], ?_⟩
        intro j hj w; rw [List.getElem?_eq_none (by simp; omega)]; simp
      · rintro ⟨i, hi, hlast⟩
        by_cases hil : i < l.length
        · exact absurd (by rw [List.getElem?_concat_length, ← hp]) (hlast l.length hil p.2)
        · have hie : i = l.length := by
            by_contra hne
            rw [List.getElem?_eq_none (by simp; omega)] at hi; simp at hi
          rw [hie, List.getElem?_concat_length] at hi
          simp only [Option.some.injEq] at hi; rw [hi]
    · simp only [hp, decide_false]
      rw [ih]
      constructor
      · rintro ⟨i, hi, hlast⟩
        have hil : i < l.length := by
          by_contra hc; rw [List.getElem?_eq_none (by omega)] at hi; simp at hi
        refine ⟨i, by rw [List.getElem?_append_left hil]; exact hi, ?_⟩
        intro j hj w
        by_cases hjl : j < l.length
        · rw [List.getElem?_append_left hjl]; exact hlast j hj w
        · by_cases hje : j = l.length
          · rw [hje, List.getElem?_concat_length]
            intro h; simp only [Option.some.injEq] at h; exact hp (by rw [h])
          · rw [List.getElem?_eq_none (by simp; omega)]; simp
      · rintro ⟨i, hi, hlast⟩
        have hil : i < l.length := by
          by_contra hc
          by_cases hie : i = l.length
          · rw [hie, List.getElem?_concat_length] at hi
            simp only [Option.some.injEq] at hi; exact hp (by rw [hi])
          · rw [List.getElem?_eq_none (by simp; omega)] at hi; simp at hi
        refine ⟨i, by rw [List.getElem?_append_left hil] at hi; exact hi, ?_⟩
        intro j hj w hjw
        have hjl : j < l.length := by
          by_contra hc; rw [List.getElem?_eq_none (by omega)] at hjw; simp at hjw
        exact hlast j hj w (by rw [List.getElem?_append_left hjl]; exact hjw)

/-- Filtering with a partial function: positions of the images are in the order of the positions of their sources. -/
theorem filterMap_last {β γ : Type} [DecidableEq γ] (f : β → Option γ) (l : List β) (P : γ → Prop) (c : γ) (hPc : P c) :
    (∃ i : Nat, (l.filterMap f)[i]? = some c ∧ ∀ j : Nat, i < j → ∀ d, P d → (l.filterMap f)[j]? ≠ some d) ↔
    (∃ (i : Nat) (x : β), l[i]? = some x ∧ f x = some c ∧ ∀ (j : Nat) (y : β), i < j → l[j]? = some y → ∀ d, P d → f y ≠ some d) := by
  induction l with
  | nil => simp
  | cons a l ih =>
    cases ha : f a with
    | none =>
      simp only [List.filterMap_cons, ha]
      rw [ih]
      constructor
      · rintro ⟨i, x, h1, h2, h3⟩
        refine ⟨i + 1, x, by simpa using h1, h2, ?_⟩
        intro j y hj hy
        cases j with
        | zero => omega
        | succ j => exact h3 j y (by omega) (by simpa using hy)
      · rintro ⟨i, x, h1, h2, h3⟩
        cases i with
        | zero => simp at h1; subst h1; rw [ha] at h2; simp at h2
        | succ i =>
          refine ⟨i, x, by simpa using h1, h2, ?_⟩
          intro j y hj hy
          exact h3 (j + 1) y (by omega) (by simpa using hy)
    | some b =>
      simp only [List.filterMap_cons, ha]
      constructor
      · rintro ⟨i, h1, h2⟩
        cases i with
        | zero =>
          simp at h1; subst h1
          refine ⟨0, a, by simp, ha, ?_⟩
          intro j y hj hy d hd hfy
          cases j with
          | zero => omega
          | succ j =>
            have hm : d ∈ l.filterMap f := List.mem_filterMap.2 ⟨y, List.mem_of_getElem? (by simpa using hy), hfy⟩
            obtain ⟨n, hn⟩ := List.getElem?_of_mem hm
            exact h2 (n + 1) (by omega) d hd (by simpa using hn)
        | succ i =>
          obtain ⟨i', x, h3, h4, h5⟩ := ih.1 ⟨i, by simpa using h1, fun j hj d hd h => h2 (j + 1) (by omega) d hd (by simpa using h)⟩
          refine ⟨i' + 1, x, by simpa using h3, h4, ?_⟩
          intro j y hj hy
          cases j with
          | zero => omega
          | succ j => exact h5 j y (by omega) (by simpa using hy)
      · rintro ⟨i, x, h1, h2, h3⟩
        cases i with
        | zero =>
          simp at h1; subst h1
          rw [ha] at h2; cases h2
          refine ⟨0, by simp, ?_⟩
          intro j hj d hd h
          cases j with
          | zero => omega
          | succ j =>
            have hm : d ∈ l.filterMap f := List.mem_of_getElem? (by simpa using h)
            obtain ⟨y, hy, hfy⟩ := List.mem_filterMap.1 hm
            obtain ⟨n, hn⟩ := List.getElem?_of_mem hy
            exact h3 (n + 1) y (by omega) (by simpa using hn) d hd hfy
        | succ i =>
          obtain ⟨i', h4, h5⟩ := ih.2 ⟨i, x, by simpa using h1, h2,
            fun j y hj hy => h3 (j + 1) y (by omega) (by simpa using hy)⟩
          refine ⟨i' + 1, by simpa using h4, ?_⟩
          intro j hj d hd h
          cases j with
          | zero => omega
          | succ j => exact h5 j (by omega) d hd (by simpa using h)

/-- **C59, entry by entry**. `d[stamp]` is `cols` exactly when some data row (counting data rows only, from `start` up to and not
including `end`) consists of `stamp` followed by the non-empty `cols`, and no later such row has the same stamp and a second column.
No stamp occurs twice as a key. -/
theorem read_file_list_entries (ls : List Line) (hne : ls ≠ []) (hok : ∀ l ∈ ls, l.Ok) (start stop : Option Nat) :
    ((readFileList (renderFile ls) start stop).map (·.1)).Nodup ∧
    ∀ (stamp : Str) (cols : List Str), (stamp, cols) ∈ readFileList (renderFile ls) start stop ↔
      ∃ i : Nat, start.getD 0 ≤ i ∧ (∀ e, stop = some e → i < e) ∧
        (ls.filterMap Line.cols)[i]? = some (stamp :: cols) ∧ cols ≠ [] ∧
        ∀ j : Nat, i < j → (∀ e, stop = some e → j < e) → ∀ c cs, (ls.filterMap Line.cols)[j]? ≠ some (stamp :: c :: cs) := by
  rw [read_file_list_spec ls hne hok]
  generalize hR : ls.filterMap Line.cols = R
  have hnd := dictOf_nodup ((slice R (start.getD 0) (stop.getD R.length)).filterMap rowPair)
  refine ⟨hnd, ?_⟩
  intro stamp cols
  -- membership is look-up, as the keys are distinct
  have hmem : ∀ (d : List (Str × List Str)), (d.map (·.1)).Nodup →
      ((stamp, cols) ∈ d ↔ (d.find? (·.1 = stamp)).map (·.2) = some cols) := by
    intro d hd
    induction d with
    | nil => simp
    | cons p d ih =>
      simp only [List.map_cons, List.nodup_cons] at hd
      rw [List.find?_cons]
      by_cases hp : p.1 = stamp
      · simp only [hp, decide_true, Option.map_some, Option.some.injEq, List.mem_cons]
        constructor
        · rintro (h | h)
          · rw [← h]
          · exact absurd (List.mem_map.2 ⟨_, h, rfl⟩) (hp ▸ hd.1)
        · intro h; left; rw [← hp, ← h]
      · simp only [hp, decide_false, List.mem_cons]
        rw [ih hd.2]
        constructor
        · rintro (h | h)
          · exact absurd (by rw [← h]) hp
          · exact h
        · exact Or.inr
  have hrow : ∀ r : List Str, ∀ k v, rowPair r = some (k, v) ↔ r = k :: v ∧ v ≠ [] := by
    intro r k v
    rcases r with _ | ⟨a, _ | ⟨b, r⟩⟩
    · simp [rowPair]
    · simp only [rowPair]
      constructor
      · intro h; cases h
      · rintro ⟨h, h'⟩; cases h; exact absurd rfl h'
    · simp only [rowPair, Option.some.injEq, Prod.mk.injEq, List.cons.injEq]
      constructor
      · rintro ⟨h1, h2⟩; subst h1 h2; simp
      · rintro ⟨⟨h1, h2⟩, _⟩; exact ⟨h1, h2⟩
  rw [hmem _ hnd, dictOf_find, rev_find_iff]
  have hfl := filterMap_last rowPair (slice R (start.getD 0) (stop.getD R.length)) (fun d => d.1 = stamp) (stamp, cols) rfl
  have hconv : (∃ i : Nat, ((slice R (start.getD 0) (stop.getD R.length)).filterMap rowPair)[i]? = some (stamp, cols) ∧
        ∀ j : Nat, i < j → ∀ w, ((slice R (start.getD 0) (stop.getD R.length)).filterMap rowPair)[j]? ≠ some (stamp, w)) ↔
      (∃ i : Nat, ((slice R (start.getD 0) (stop.getD R.length)).filterMap rowPair)[i]? = some (stamp, cols) ∧
        ∀ j : Nat, i < j → ∀ d : Str × List Str, d.1 = stamp →
          ((slice R (start.getD 0) (stop.getD R.length)).filterMap rowPair)[j]? ≠ some d) := by
    constructor
    · rintro ⟨i, h1, h2⟩; exact ⟨i, h1, fun j hj d hd => by rw [← hd] at h2; exact h2 j hj d.2⟩
    · rintro ⟨i, h1, h2⟩; exact ⟨i, h1, fun j hj w => h2 j hj (stamp, w) rfl⟩
  rw [hconv, hfl]
  have hget : ∀ (i : Nat) (x : List Str), (slice R (start.getD 0) (stop.getD R.length))[i]? = some x ↔
      R[start.getD 0 + i]? = some x ∧ ∀ e, stop = some e → start.getD 0 + i < e := by
    intro i x
    simp only [slice, List.getElem?_drop, List.getElem?_take]
    cases stop with
    | none =>
      simp only [Option.getD_none]
      constructor
      · intro h; split_ifs at h; exact ⟨h, by simp⟩
      · rintro ⟨h, _⟩
        have : start.getD 0 + i < R.length := by
          by_contra hc; rw [List.getElem?_eq_none (by omega)] at h; simp at h
        rw [if_pos this]; exact h
    | some e =>
      simp only [Option.getD_some]
      constructor
      · intro h; split_ifs at h with hlt; exact ⟨h, by rintro e' ⟨⟩; exact hlt⟩
      · rintro ⟨h, h'⟩; rw [if_pos (h' e rfl)]; exact h
  constructor
  · rintro ⟨i, x, h1, h2, h3⟩
    obtain ⟨h1, h1'⟩ := (hget i x).1 h1
    obtain ⟨rfl, hne'⟩ := (hrow x _ _).1 h2
    refine ⟨start.getD 0 + i, by omega, h1', h1, hne', ?_⟩
    intro j hj hje c cs hjr
    refine h3 (j - start.getD 0) (stamp :: c :: cs) (by omega) ((hget _ _).2 ⟨?_, ?_⟩) (stamp, c :: cs) rfl ?_
    · rw [Nat.add_sub_cancel' (by omega)]; exact hjr
    · intro e he; rw [Nat.add_sub_cancel' (by omega)]; exact hje e he
    · exact (hrow _ _ _).2 ⟨rfl, by simp⟩
  · rintro ⟨i, h0, h1, h2, h3, h4⟩
    refine ⟨i - start.getD 0, stamp :: cols, (hget _ _).2 ⟨?_, ?_⟩, (hrow _ _ _).2 ⟨rfl, h3⟩, ?_⟩
    · rw [Nat.add_sub_cancel' h0]; exact h2
    · intro e he; rw [Nat.add_sub_cancel' h0]; exact h1 e he
    · intro j y hj hy d hd hdy
      obtain ⟨hy1, hy2⟩ := (hget j y).1 hy
      obtain ⟨d1, d2⟩ := d
      simp only at hd; subst hd
      obtain ⟨rfl, hd2⟩ := (hrow y _ _).1 hdy
      obtain ⟨c, cs, rfl⟩ := List.exists_cons_of_ne_nil hd2
      exact h4 _ (by omega) hy2 c cs hy1

/-- A file with a comment, mixed separators and a short row; `start=1` skips the first data row, not the comment. -/
example : readFileList "# color images\n1.0 a,b\n\n2.0\tc  d\n3.0".toList (some 1) none =
    [("2.0".toList, ["c".toList, "d".toList])] := by decide
example : (Line.row "2.0".toList [(['\t'], "c".toList), ([' ', ' '], "d".toList)] []).Ok := by
  refine ⟨⟨by decide, by decide⟩, by decide, ?_, by decide⟩
  intro p hp
  simp only [List.mem_cons, List.not_mem_nil, or_false] at hp
  rcases hp with rfl | rfl <;> exact ⟨⟨by decide, by decide⟩, ⟨by decide, by decide⟩⟩

/-! ### C62 `read_trajectory` -/

theorem mapE_ok {β γ : Type} (g : β → Except Err γ) (h : β → γ) (l : List β) (hg : ∀ x ∈ l, g x = .ok (h x)) :
    mapE g l = .ok (l.map h) := by
  induction l with
  | nil => rfl
  | cons x l ih =>
    simp [mapE, hg x (by simp), ih (fun y hy => hg y (by simp [hy]))]

theorem trajCols_fields {α : Type} (pf : Str → Option (Option α)) (num : Str → Option α) :
    ∀ (ps : List Str) (n : Nat), 0 < n →
    (∀ t ∈ (ps.filter fun v => strip v ≠ []).map strip, pf t = some (num t)) →
    trajCols pf n ps = .ok (((ps.filter fun v => strip v ≠ []).map strip).map fun t => Entry.num (num t))
  | [], _, _, _ => rfl
  | v :: vs, n, hn, h => by
    by_cases hv : strip v = []
    · simp only [trajCols, hv, if_true]
      rw [trajCols_fields pf num vs (n + 1) (by omega) (by simpa [List.filter_cons, hv] using h)]
      simp [List.filter_cons, hv]
    · have h' : pf (strip v) = some (num (strip v)) := h _ (by simp [List.filter_cons, hv])
      have h'' := trajCols_fields pf num vs (n + 1) (by omega)
        (fun t ht => h t (by
          have e : ((v :: vs).filter fun v => strip v ≠ []) = v :: vs.filter fun v => strip v ≠ [] := by
            simp [List.filter_cons, hv]
          rw [e, List.map_cons]; exact List.mem_cons_of_mem _ ht))
      simp only [trajCols, hv, if_false, hn, if_true, h', Option.map_some, h'']
      simp [List.filter_cons, hv]

/-- The parsed entries of a trajectory row. -/
def rowEntries {α : Type} (num : Str → Option α) : List Str → List (Entry α)
  | [] => []
  | f :: vs => .str f :: vs.map fun t => .num (num t)

theorem trajCols_row {α : Type} (pf : Str → Option (Option α)) (num : Str → Option α) (f : Str)
    (rest : List (Str × Str)) (trail : Str) (hok : (Line.row f rest trail).Ok) (hp : ∀ p ∈ rest, pf p.2 = some (num p.2)) :
    trajCols pf 0 (splitC ' ' (unify (Line.row f rest trail).render)) = .ok (rowEntries num (f :: rest.map (·.2))) := by
  obtain ⟨h1, h2, h3, h4⟩ := hok
  have hfields := fields_row rest f trail h1 h3 h4
  obtain ⟨u1, u2, _, u4⟩ := tok_props h1
  -- the first piece is the stamp
  obtain ⟨ps, hps⟩ : ∃ ps, splitC ' ' (unify (Line.row f rest trail).render) = f :: ps := by
    simp only [Line.render, unify_append, u1]
    have key : ∀ x : Str, x = [] ∨ x.head? = some ' ' → ∃ ps, splitC ' ' (f ++ x) = f :: ps := by
      rintro x (rfl | hx)
      · exact ⟨[], by simpa using splitC_no u2⟩
      · cases x with
        | nil => simp at hx
        | cons c x => simp at hx; subst hx; exact ⟨_, splitC_cons x u2⟩
    rw [List.append_assoc]
    apply key
    have hsep : ∀ s v : Str, s ≠ [] → (∀ c ∈ s, c = ' ' ∨ c = ',' ∨ c = '\t') → (unify s ++ v).head? = some ' ' := by
      intro s v hs hc
      cases s with
      | nil => exact absurd rfl hs
      | cons c s => rcases hc c (by simp) with rfl | rfl | rfl <;> simp [unify]
    cases rest with
    | nil =>
      by_cases ht : trail = []
      · left; simp [ht, unify]
      · right; simpa [unify] using hsep trail [] ht h4
    | cons p rest =>
      right
      have := h3 p (by simp)
      simp only [List.flatMap_cons, unify_append, List.append_assoc]
      exact hsep _ _ this.1.1 this.1.2
  have hf : fields (unify (Line.row f rest trail).render) = f :: rest.map (·.2) := hfields
  rw [fields, hps] at hf
  have hcons : ((f :: ps).filter fun v => strip v ≠ []).map strip = f :: (ps.filter fun v => strip v ≠ []).map strip := by
    simp [List.filter_cons, u4, h1.1]
  rw [hcons] at hf
  have hps' : (ps.filter fun v => strip v ≠ []).map strip = rest.map (·.2) := (List.cons.inj hf).2
  rw [hps]
  have := trajCols_fields pf num ps 1 (by omega) (by
    rw [hps']; intro t ht
    obtain ⟨p, hp', rfl⟩ := List.mem_map.1 ht
    exact hp p hp')
  simp only [trajCols, u4, h1.1, if_false, this, hps']
  simp [rowEntries]

/-- Specification: is this row's quaternion (columns 4..7) all zero? -/
def zeroQuat {α : Type} [DecidableEq α] [Zero α] (l : List (Entry α)) : Bool :=
  slice l 4 8 = [.num (some 0), .num (some 0), .num (some 0), .num (some 0)]
/-- Specification: does the row contain a NaN? -/
def hasNaN {α : Type} (l : List (Entry α)) : Bool :=
  l.tail.any fun
    | .num none => true
    | .num (some _) => false
    | .str _ => false

theorem hasNaN_eq {α : Type} (l : List (Entry α)) : l.tail.any Entry.isNaN = hasNaN l := by
  unfold hasNaN
  congr 1
  funext e
  rcases e with s | (_ | x) <;> rfl

theorem trajFilter_ok {α : Type} [DecidableEq α] [Zero α] (ls : List (List (Entry α)))
    (h : ∀ l ∈ ls, zeroQuat l = true ∨ hasNaN l = false) :
    trajFilter ls = .ok (ls.filter fun l => !zeroQuat l) := by
  induction ls with
  | nil => rfl
  | cons l ls ih =>
    have ih := ih (fun x hx => h x (by simp [hx]))
    by_cases hz : zeroQuat l = true
    · have : slice l 4 8 = [.num (some 0), .num (some 0), .num (some 0), .num (some 0)] := by simpa [zeroQuat] using hz
      simp [trajFilter, this, ih, hz]
    · have hn := (h l (by simp)).resolve_left hz
      have h1 : ¬ slice l 4 8 = [.num (some 0), .num (some 0), .num (some 0), .num (some 0)] := by simpa [zeroQuat] using hz
      rw [← hasNaN_eq] at hn
      simp only [trajFilter, h1, if_false, hn, Bool.false_eq_true, ih]; simp [hz]

theorem trajFilter_nan {α : Type} [DecidableEq α] [Zero α] (pre : List (List (Entry α))) (l : List (Entry α))
    (post : List (List (Entry α))) (hpre : ∀ l ∈ pre, zeroQuat l = true ∨ hasNaN l = false)
    (h1 : zeroQuat l = false) (h2 : hasNaN l = true) : trajFilter (pre ++ l :: post) = .error .nameError := by
  induction pre with
  | nil =>
    have h1' : ¬ slice l 4 8 = [.num (some 0), .num (some 0), .num (some 0), .num (some 0)] := by simpa [zeroQuat] using h1
    rw [← hasNaN_eq] at h2
    simp only [List.nil_append, trajFilter, h1', if_false, h2, if_true]
  | cons p pre ih =>
    have ih := ih (fun x hx => hpre x (by simp [hx]))
    by_cases hz : zeroQuat p = true
    · have : slice p 4 8 = [.num (some 0), .num (some 0), .num (some 0), .num (some 0)] := by simpa [zeroQuat] using hz
      simp [trajFilter, this, ih]
    · have hn := (hpre p (by simp)).resolve_left hz
      have h1' : ¬ slice p 4 8 = [.num (some 0), .num (some 0), .num (some 0), .num (some 0)] := by simpa [zeroQuat] using hz
      rw [← hasNaN_eq] at hn
      simp only [trajFilter, List.cons_append, h1', if_false, hn, Bool.false_eq_true, ih]

theorem parse_rows {α : Type} (pf : Str → Option (Option α)) (num : Str → Option α) (ls : List Line)
    (hok : ∀ l ∈ ls, l.Ok) (hnum : ∀ f rest tr, Line.row f rest tr ∈ ls → ∀ p ∈ rest, pf p.2 = some (num p.2)) :
    mapE (fun line => trajCols pf 0 (splitC ' ' line)) ((ls.map fun l => unify l.render).filter isData) =
      .ok ((ls.filterMap Line.cols).map (rowEntries num)) := by
  induction ls with
  | nil => rfl
  | cons l ls ih =>
    have ih := ih (fun x hx => hok x (by simp [hx])) (fun f r t h => hnum f r t (by simp [h]))
    cases l with
    | blank =>
      have e : isData (unify Line.blank.render) = false := rfl
      simpa only [List.map_cons, List.filter_cons, e, Bool.false_eq_true, if_false, List.filterMap_cons, Line.cols] using ih
    | comment s =>
      have e : isData (unify (Line.comment s).render) = false := by simp [Line.render, unify, isData]
      simpa only [List.map_cons, List.filter_cons, e, Bool.false_eq_true, if_false, List.filterMap_cons, Line.cols] using ih
    | row f rest trail =>
      have hl := hok (.row f rest trail) (by simp)
      have hd : isData (unify (Line.row f rest trail).render) = true := by
        obtain ⟨h1, h2, _, _⟩ := hl
        have hf := (tok_props h1).1
        simp only [Line.render, unify_append, hf]
        cases f with
        | nil => exact absurd rfl h1.1
        | cons c f => simpa [isData] using h2
      have hc := trajCols_row pf num f rest trail hl (hnum f rest trail (by simp))
      simp only [List.map_cons, List.filter_cons, hd, if_true, mapE, hc, ih, List.filterMap_cons, Line.cols]

/-- **C62**. On every well-formed trajectory file without NaN values, `read_trajectory(file, matrix=False)` returns exactly the
rows whose quaternion is not `(0,0,0,0)`, each stamp mapped to its seven pose numbers, the last row winning on equal stamps. -/
theorem read_trajectory_partial {α : Type} [DecidableEq α] [Zero α] (pf : Str → Option (Option α)) (num : Str → Option α)
    (ls : List Line) (hne : ls ≠ []) (hok : ∀ l ∈ ls, l.Ok)
    (hnum : ∀ f rest tr, Line.row f rest tr ∈ ls → ∀ p ∈ rest, pf p.2 = some (num p.2))
    (hnan : ∀ cols ∈ ls.filterMap Line.cols, zeroQuat (rowEntries num cols) = true ∨ hasNaN (rowEntries num cols) = false) :
    readTrajectory pf (renderFile ls) =
      .ok (dictOf ((((ls.filterMap Line.cols).map (rowEntries num)).filter fun l => !zeroQuat l).map
        fun l => (l.headD (.num none), slice l 1 8))) := by
  rw [readTrajectory, split_file ls hne hok, parse_rows pf num ls hok hnum]
  simp only
  rw [trajFilter_ok _ (by
    intro l hl
    obtain ⟨cols, hc, rfl⟩ := List.mem_map.1 hl
    exact hnan cols hc)]
  simp only
  rw [mapE_ok _ (fun l => (l.headD (.num none), slice l 1 8))]
  intro l hl
  cases l with
  | nil =>
    exfalso
    obtain ⟨hm, _⟩ := List.mem_filter.1 hl
    obtain ⟨cols, hc, he⟩ := List.mem_map.1 hm
    obtain ⟨ln, _, hcols⟩ := List.mem_filterMap.1 hc
    cases ln with
    | blank => simp [Line.cols] at hcols
    | comment s => simp [Line.cols] at hcols
    | row f r t => simp only [Line.cols, Option.some.injEq] at hcols; subst hcols; simp [rowEntries] at he
  | cons k l => rfl

/-- **C62, the part that fails**: the documented "skip the line with a warning" for NaN values never happens; the first such row
raises NameError (`sys` is not imported), whatever follows. -/
theorem read_trajectory_nan_raises {α : Type} [DecidableEq α] [Zero α] (pf : Str → Option (Option α)) (num : Str → Option α)
    (ls : List Line) (hne : ls ≠ []) (hok : ∀ l ∈ ls, l.Ok)
    (hnum : ∀ f rest tr, Line.row f rest tr ∈ ls → ∀ p ∈ rest, pf p.2 = some (num p.2))
    (pre post : List (List Str)) (bad : List Str) (hsplit : ls.filterMap Line.cols = pre ++ bad :: post)
    (hpre : ∀ cols ∈ pre, zeroQuat (rowEntries num cols) = true ∨ hasNaN (rowEntries num cols) = false)
    (hz : zeroQuat (rowEntries num bad) = false) (hn : hasNaN (rowEntries num bad) = true) :
    readTrajectory pf (renderFile ls) = .error .nameError := by
  rw [readTrajectory, split_file ls hne hok, parse_rows pf num ls hok hnum]
  simp only [hsplit, List.map_append, List.map_cons]
  rw [trajFilter_nan _ _ _ (by
    intro l hl
    obtain ⟨cols, hc, rfl⟩ := List.mem_map.1 hl
    exact hpre cols hc) hz hn]

/-- Witness: a toy number parser, a file with a kept row, a zero-quaternion row; and one with a NaN row. -/
def toyNum (s : Str) : Option (Option Nat) := match s with
  | ['0'] => some (some 0) | ['1'] => some (some 1) | ['2'] => some (some 2)
  | ['n', 'a', 'n'] => some none | _ => none
example : readTrajectory toyNum "# t\n1.5 1 2 1 0 0 0 1\n2.5 1 1 1 0 0 0 0\n".toList =
    .ok [(.str "1.5".toList, [.num (some 1), .num (some 2), .num (some 1), .num (some 0), .num (some 0), .num (some 0),
      .num (some 1)])] := by decide
example : readTrajectory toyNum "1.5 1 2 1 nan 0 0 1".toList = .error .nameError := by decide

end Verif.Data
