import Verif.Data.Select
/-!
Property C87, continued: the order of the names is irrelevant, a smaller request serves a part of the items, Scannet, the lines of the association and
metadata files, and the traps.
-/
namespace Verif.Data

/-! ### The order of the request is irrelevant; fewer sequences, fewer items -/

theorem wanted_perm {s s' : List Str} (h : s.Perm s') : wanted (some s) = wanted (some s') := by
  funext n
  show s.contains n = s'.contains n
  rw [Bool.eq_iff_iff, List.contains_iff_mem, List.contains_iff_mem]
  exact h.mem_iff

theorem resolve_tuple_perm {s s' : List Str} (h : s.Perm s') : (s = [] ↔ s' = []) :=
  ⟨fun e => by subst e; exact h.nil_eq.symm, fun e => by subst e; exact h.eq_nil⟩

/-- **C87 (c)**: naming the same sequences in another order gives the same dataset, or the same exception. -/
theorem tum_select_order (has : Str → Str → Bool) (loadPoses : Bool) (listing : List (Str × Bool)) {s s' : List Str} (h : s.Perm s') :
    tumSelect has loadPoses (.tuple s) listing = tumSelect has loadPoses (.tuple s') listing := by
  have e := resolve_tuple_perm h
  have hscan : tumScan (some s) listing = tumScan (some s') listing := by
    have hw := wanted_perm h
    clear e
    induction listing with
    | nil => rfl
    | cons x rest ih =>
      rcases x with ⟨n, b⟩
      simp only [tumScan, ih, hw]
  have hmis : ∀ l, miscount (some s) l = miscount (some s') l := fun l => by simp only [miscount, h.length_eq]
  by_cases hs : s = []
  · simp [tumSelect, Names.resolve, hs, e.1 hs]
  · have hs' : s' ≠ [] := fun k => hs (e.2 k)
    simp only [tumSelect, Names.resolve, hs, hs', if_false, hscan, hmis]

theorem icl_select_order (base : Str) (has : Str → Str → Bool) (loadPoses : Bool) (listing : List (Str × Bool)) {s s' : List Str} (h : s.Perm s') :
    iclSelect base has loadPoses (.tuple s) listing = iclSelect base has loadPoses (.tuple s') listing := by
  have e := resolve_tuple_perm h
  have hw : iclWanted listing (some s) = iclWanted listing (some s') := by
    have := wanted_perm h
    exact this
  have hall : (s.all iclName) = (s'.all iclName) := by
    rw [Bool.eq_iff_iff, List.all_eq_true, List.all_eq_true]
    exact ⟨fun k x hx => k x (h.mem_iff.2 hx), fun k x hx => k x (h.mem_iff.1 hx)⟩
  have hmis : ∀ l, miscount (some s) l = miscount (some s') l := fun l => by simp only [miscount, h.length_eq]
  by_cases hs : s = []
  · simp [iclSelect, Names.resolve, hs, e.1 hs]
  · have hs' : s' ≠ [] := fun k => hs (e.2 k)
    simp only [iclSelect, Names.resolve, hs, hs', if_false, hw, hmis, Option.getD_some, hall]

theorem allWindows_sublist {β : Type} {w : Win} {a b : List (List β)} (h : a.Sublist b) {wa wb : List (List β)} (ha : allWindows w a = .ok wa)
    (hb : allWindows w b = .ok wb) : wa.Sublist wb := by
  induction h generalizing wa wb with
  | slnil => simp only [allWindows, Except.ok.injEq] at ha; subst ha; exact List.nil_sublist _
  | @cons l1 l2 t h ih =>
    rw [allWindows] at hb
    cases ht : windows w t with
    | error e => rw [ht] at hb; cases hb
    | ok x =>
      rw [ht] at hb
      simp only at hb
      cases h2 : allWindows w l2 with
      | error e => rw [h2] at hb; cases hb
      | ok y =>
        rw [h2] at hb
        simp only [Except.ok.injEq] at hb
        subst hb
        exact (ih ha h2).trans (List.sublist_append_right _ _)
  | @cons_cons l1 l2 t h ih =>
    rw [allWindows] at ha hb
    cases ht : windows w t with
    | error e => rw [ht] at hb; cases hb
    | ok x =>
      rw [ht] at ha hb
      simp only at ha hb
      cases h2 : allWindows w l2 with
      | error e => rw [h2] at hb; cases hb
      | ok y =>
        cases h1 : allWindows w l1 with
        | error e => rw [h1] at ha; cases ha
        | ok z =>
          rw [h2] at hb
          rw [h1] at ha
          simp only [Except.ok.injEq] at ha hb
          subst ha; subst hb
          exact (List.Sublist.refl x).append (ih h1 h2)

/-- **C87 (d)**: a TUM dataset built for some of the sequences serves exactly a part of the items of the dataset of all sequences: the same items, in
the same order, none twice more often, `frames` being what the files of each folder hold. -/
theorem tum_subset_items {P Q : Type} (has : Str → Str → Bool) (loadPoses : Bool) (s : List Str) (listing : List (Str × Bool))
    (hd : (listing.map (·.1)).Nodup) (frames : Str → List (TumFrame P Q)) (w : Win) {l l' : List Str} {items items' : List (TumItem P Q)}
    (h1 : tumSelect has loadPoses (.tuple s) listing = .ok l) (h2 : tumSelect has loadPoses .all listing = .ok l')
    (k1 : tumItems w (l.map frames) = .ok items) (k2 : tumItems w (l'.map frames) = .ok items') :
    l.Sublist l' ∧ (∀ n, n ∈ l ↔ n ∈ s) ∧ items.Sublist items' := by
  obtain ⟨_, r, a1, a2, a3, _⟩ := (tum_select_iff has loadPoses _ listing hd l).1 h1
  obtain ⟨_, r', b1, _, b3, _⟩ := (tum_select_iff has loadPoses _ listing hd l').1 h2
  simp only [Asked] at a1 b1
  subst a1; subst b1
  have hsub : l.Sublist l' := by
    rw [a3, b3, chosen_eq, chosen_eq]
    have : (folders listing).filter (wanted none) = folders listing := List.filter_eq_self.2 fun _ _ => rfl
    rw [this]
    exact List.filter_sublist
  refine ⟨hsub, fun n => ?_, ?_⟩
  · rw [a3, chosen_eq, List.mem_filter, mem_folders]
    show (n, true) ∈ listing ∧ s.contains n = true ↔ n ∈ s
    rw [List.contains_iff_mem]
    exact ⟨fun h => h.2, fun h => ⟨(a2 s rfl).2 n h, h⟩⟩
  · simp only [tumItems] at k1 k2
    cases e1 : allWindows w (l.map frames) with
    | error e => rw [e1] at k1; cases k1
    | ok x =>
      cases e2 : allWindows w (l'.map frames) with
      | error e => rw [e2] at k2; cases k2
      | ok y =>
        rw [e1] at k1
        rw [e2] at k2
        simp only [Except.ok.injEq] at k1 k2
        subst k1; subst k2
        exact (allWindows_sublist (hsub.map frames) e1 e2).map _

/-! ### Scannet -/

/-- The scene of a metadata file: the part of its name before the first `-` (the whole name if there is none). -/
def SceneOf (f scene : Str) : Prop := '-' ∉ scene ∧ (f = scene ∨ ∃ rest, f = scene ++ '-' :: rest)

theorem sceneOf_iff (f scene : Str) : (splitC '-' f).headD [] = scene ↔ SceneOf f scene := by
  constructor
  · rintro rfl
    cases h : splitC '-' f with
    | nil => exact absurd h (splitC_ne _ _)
    | cons a r =>
      obtain ⟨h1, _, h3⟩ := (splitC_iff '-' f _).1 h
      refine ⟨h1 a (by simp), ?_⟩
      cases r with
      | nil => left; rw [h3]; simp [List.intercalate]
      | cons b r => right; exact ⟨List.intercalate ['-'] (b :: r), by rw [h3]; simp [List.intercalate, List.intersperse]⟩
  · rintro ⟨h1, rfl | ⟨rest, rfl⟩⟩
    · rw [splitC_no h1]; rfl
    · rw [splitC_cons _ h1]; rfl

/-- **C87, Scannet**: the constructor fails only when a names file is given that does not exist; otherwise it reads exactly the metadata files whose
scene was asked for, in the order of `natsorted`.  Names of scenes that do not exist are ignored, and an empty tuple gives an empty dataset. -/
theorem scan_select_iff (names : Names) (files l : List Str) (hd : files.Nodup) : scanSelect names files = .ok l ↔
    ∃ r, Asked names r ∧ List.Sublist l files ∧ ∀ f, f ∈ l ↔ f ∈ files ∧ ∀ s, r = some s → ∃ scene ∈ s, SceneOf f scene := by
  have hw : ∀ (r : Option (List Str)) f, wanted r ((splitC '-' f).headD []) = true ↔ ∀ s, r = some s → ∃ scene ∈ s, SceneOf f scene := by
    intro r f
    cases r with
    | none => simp [wanted]
    | some s =>
      show s.contains _ = true ↔ _
      rw [List.contains_iff_mem]
      simp only [Option.some.injEq, forall_eq']
      constructor
      · intro h; exact ⟨_, h, (sceneOf_iff f _).1 rfl⟩
      · rintro ⟨x, hx, hf⟩; rw [(sceneOf_iff f x).2 hf]; exact hx
  have hr : ∀ r, scanNames names = .ok r ↔ Asked names r := by
    intro r
    cases names with
    | all => simp only [scanNames, Asked, Except.ok.injEq, eq_comm]
    | tuple l => simp only [scanNames, Asked, Except.ok.injEq, eq_comm]
    | file c =>
      cases c with
      | none => simp [scanNames, Asked]
      | some c =>
        simp only [scanNames, Asked, Except.ok.injEq]
        constructor
        · rintro rfl
          exact ⟨_, rfl, fun s hs => splitC_mem hs, splitC_ne _ _, (splitC_join _ _).symm⟩
        · rintro ⟨l, rfl, h1, h2, h3⟩
          rw [(splitC_iff '\n' c l).2 ⟨h1, h2, h3⟩]
  have hc : ∀ (r : Option (List Str)) f, f ∈ (files.filter fun f => wanted r ((splitC '-' f).headD [])) ↔
      f ∈ files ∧ ∀ s, r = some s → ∃ scene ∈ s, SceneOf f scene := by
    intro r f
    rw [List.mem_filter, hw r f]
  simp only [scanSelect]
  constructor
  · intro h
    cases hs : scanNames names with
    | error e => rw [hs] at h; cases h
    | ok r =>
      rw [hs] at h
      simp only [Except.ok.injEq] at h
      subst h
      exact ⟨r, (hr r).1 hs, List.filter_sublist, hc r⟩
  · rintro ⟨r, h1, h2, h3⟩
    rw [(hr r).2 h1]
    simp only [Except.ok.injEq]
    exact sublist_unique hd List.filter_sublist h2 fun f => (hc r f).trans (h3 f).symm

/-! ### Lines -/

/-- **C87, lines of Scannet metadata**: columns 1, 3, 5, 7 and 15 are the files, and columns 0, 2, 4, 6 and 14 must be the keywords. -/
theorem scan_line_iff {P : Type} (resolve : Str → P) (cols : List Str) (f : ScanFrame P) : scanFrame resolve cols = .ok f ↔
    ∃ c d p l k, cols[0]? = some "color".toList ∧ cols[1]? = some c ∧ cols[2]? = some "depth".toList ∧ cols[3]? = some d ∧
      cols[4]? = some "pose".toList ∧ cols[5]? = some p ∧ cols[6]? = some "label-filt".toList ∧ cols[7]? = some l ∧
      cols[14]? = some "intrinsic_depth".toList ∧ cols[15]? = some k ∧ f = ⟨resolve c, resolve d, resolve p, resolve l, resolve k⟩ := by
  have hcol : ∀ (i : Nat) (key : Str) (v : P), scanCol resolve cols i key = .ok v ↔ cols[i]? = some key ∧ ∃ p, cols[i + 1]? = some p ∧ v = resolve p := by
    intro i key v
    simp only [scanCol]
    cases cols[i]? with
    | none => simp
    | some k =>
      simp only [Option.some.injEq]
      by_cases hk : k = key
      · rw [if_neg (not_not.2 hk)]
        cases cols[i + 1]? with
        | none => simp
        | some p => simp [hk, eq_comm]
      · rw [if_pos hk]; simp [hk]
  unfold scanFrame
  constructor
  · intro h
    cases hm : mapE (fun x : Nat × Str => scanCol resolve cols x.1 x.2) scanKeys with
    | error e => rw [hm] at h; cases h
    | ok r =>
      rw [hm] at h
      have h2 := mapE_iff.1 hm
      unfold scanKeys at h2
      cases h2 with
      | cons a1 h2 =>
      cases h2 with
      | cons a2 h2 =>
      cases h2 with
      | cons a3 h2 =>
      cases h2 with
      | cons a4 h2 =>
      cases h2 with
      | cons a5 h2 =>
      cases h2 with
      | nil =>
        obtain ⟨b1, c, c1, rfl⟩ := (hcol _ _ _).1 a1
        obtain ⟨b2, d, c2, rfl⟩ := (hcol _ _ _).1 a2
        obtain ⟨b3, p, c3, rfl⟩ := (hcol _ _ _).1 a3
        obtain ⟨b4, l, c4, rfl⟩ := (hcol _ _ _).1 a4
        obtain ⟨b5, k, c5, rfl⟩ := (hcol _ _ _).1 a5
        simp only [Except.ok.injEq] at h
        exact ⟨c, d, p, l, k, b1, c1, b2, c2, b3, c3, b4, c4, b5, c5, h.symm⟩
  · rintro ⟨c, d, p, l, k, b1, c1, b2, c2, b3, c3, b4, c4, b5, c5, rfl⟩
    have hm : mapE (fun x : Nat × Str => scanCol resolve cols x.1 x.2) scanKeys = .ok [resolve c, resolve d, resolve p, resolve l, resolve k] := by
      refine mapE_iff.2 ?_
      unfold scanKeys
      exact .cons ((hcol _ _ _).2 ⟨b1, _, c1, rfl⟩) (.cons ((hcol _ _ _).2 ⟨b2, _, c2, rfl⟩) (.cons ((hcol _ _ _).2 ⟨b3, _, c3, rfl⟩)
        (.cons ((hcol _ _ _).2 ⟨b4, _, c4, rfl⟩) (.cons ((hcol _ _ _).2 ⟨b5, _, c5, rfl⟩) .nil))))
    rw [hm]

/-- **C87, lines of ICL associations**: column 3 is the colour image (it must start with `rgb`), column 1 the depth image (it must start with
`depth`); the frame is named after the depth file, up to its first dot. -/
theorem icl_line_iff {P : Type} (resolve : Str → P) (label : Str → Str) (cols : List Str) (f : IclFrame P) : iclFrame resolve label cols = .ok f ↔
    ∃ c d : Str, cols[3]? = some c ∧ cols[1]? = some d ∧ "rgb".toList <+: c ∧ "depth".toList <+: d ∧ f.color = resolve c ∧ f.depth = resolve d ∧
      ∃ name, f.name = label name ∧ '.' ∉ name ∧ (d.drop 6 = name ∨ ∃ ext, d.drop 6 = name ++ '.' :: ext) := by
  have hname : ∀ s : Str, '.' ∉ (splitC '.' s).headD [] ∧ (s = (splitC '.' s).headD [] ∨ ∃ ext, s = (splitC '.' s).headD [] ++ '.' :: ext) := by
    intro s
    cases h : splitC '.' s with
    | nil => exact absurd h (splitC_ne _ _)
    | cons a r =>
      obtain ⟨h1, _, h3⟩ := (splitC_iff '.' s _).1 h
      refine ⟨h1 a (by simp), ?_⟩
      cases r with
      | nil => left; rw [h3]; simp [List.intercalate]
      | cons b r => right; exact ⟨List.intercalate ['.'] (b :: r), by rw [h3]; simp [List.intercalate, List.intersperse]⟩
  have htake : ∀ (n : Nat) (pat s : Str), pat.length = n → (s.take n = pat ↔ pat <+: s) := by
    rintro n pat s rfl
    rw [List.prefix_iff_eq_take, eq_comm]
  simp only [iclFrame]
  cases cols[3]? with
  | none => simp
  | some c =>
    cases cols[1]? with
    | none => simp
    | some d =>
      simp only [Option.some.injEq]
      by_cases h1 : c.take 3 = "rgb".toList
      · rw [if_neg (not_not.2 h1)]
        by_cases h2 : d.take 5 = "depth".toList
        · rw [if_neg (not_not.2 h2)]
          simp only [Except.ok.injEq]
          constructor
          · rintro rfl
            exact ⟨c, d, rfl, rfl, (htake 3 _ _ (by decide)).1 h1, (htake 5 _ _ (by decide)).1 h2, rfl, rfl, _, rfl, hname _⟩
          · rintro ⟨c', d', rfl, rfl, _, _, h5, h6, name, h7, h8, h9⟩
            rcases f with ⟨f1, f2, f3⟩
            simp only at h5 h6 h7
            subst h5; subst h6; subst h7
            have : (splitC '.' (d.drop 6)).headD [] = name := by
              rcases h9 with h9 | ⟨ext, h9⟩
              · rw [h9, splitC_no h8]; rfl
              · rw [h9, splitC_cons _ h8]; rfl
            rw [this]
        · rw [if_pos h2]
          constructor
          · intro h; cases h
          · rintro ⟨c', d', rfl, rfl, _, h4, _⟩
            exact absurd ((htake 5 _ _ (by decide)).2 h4) h2
      · rw [if_pos h1]
        constructor
        · intro h; cases h
        · rintro ⟨c', d', rfl, rfl, h3, _⟩
          exact absurd ((htake 3 _ _ (by decide)).2 h3) h1

/-! ### Traps -/

theorem indexOf_append {pat s : Str} {i : Nat} (h : indexOf pat s = some i) (t : Str) : indexOf pat (s ++ t) = some i := by
  obtain ⟨h1, h2, h3⟩ := (indexOf_some pat s i).1 h
  refine (indexOf_some pat (s ++ t) i).2 ⟨by simp; omega, ?_, fun j hj hp => h3 j hj ?_⟩
  · rw [List.drop_append_of_le_length h1]
    exact h2.trans (List.prefix_append _ _)
  · rw [List.drop_append_of_le_length (by omega)] at hp
    refine List.prefix_of_prefix_length_le hp (List.prefix_append _ _) ?_
    have := h2.length_le
    rw [List.length_drop] at this ⊢
    omega

/-- **C87, a trap**: when the path of `basedir` itself contains `living_room_traj` (here `…/living_room_traj_png/`), the "number" is taken from that path:
whatever the name of the folder, the poses file looked for is `livingRoomn.gt.sim`, and a complete trajectory folder is rejected. -/
theorem icl_base_trap (n : Str) (has : Str → Str → Bool) (hno : has n "livingRoomn.gt.sim".toList = false) :
    iclFiles "/d/living_room_traj_png/".toList has true n = .error .valueError := by
  have hi : indexOf "living_room_traj".toList ("/d/living_room_traj_png/".toList ++ n) = some 3 := indexOf_append (by decide) n
  have hx : iclNumber ("/d/living_room_traj_png/".toList ++ n) = .ok [] := by
    unfold iclNumber
    rw [hi]
    simp only
    rw [List.drop_append_of_le_length (by decide), show ("/d/living_room_traj_png/".toList).drop (3 + 16) = [] ++ '_' :: "png/".toList by decide]
    rw [List.append_assoc, List.cons_append, splitC_cons _ (by simp)]
    rfl
  unfold iclFiles
  rw [hx]
  dsimp only
  have e : "livingRoom".toList ++ [] ++ "n.gt.sim".toList = "livingRoomn.gt.sim".toList := by decide
  rw [e, hno]
  by_cases ha : has n "associations.txt".toList = true
  · rw [if_pos ha, if_pos rfl, if_neg Bool.false_ne_true]
  · rw [if_neg ha]

theorem splitC_newline (c : Char) : ∀ s, splitC c (s ++ [c]) = splitC c s ++ [[]]
  | [] => by simp [splitC]
  | x :: s => by
    have ih := splitC_newline c s
    simp only [List.cons_append, splitC]
    split_ifs
    · rw [ih]; rfl
    · cases hs : splitC c s with
      | nil => exact absurd hs (splitC_ne _ _)
      | cons a r => rw [ih, hs]; rfl

theorem newline_asks_empty {c : Str} {r : Option (List Str)} (h : Asked (.file (some (c ++ ['\n']))) r) : ∃ s, r = some s ∧ [] ∈ s := by
  obtain ⟨s, rfl, k1, k2, k3⟩ := h
  refine ⟨s, rfl, ?_⟩
  rw [← (splitC_iff '\n' (c ++ ['\n']) s).2 ⟨k1, k2, k3⟩, splitC_newline]
  simp

/-- **C87, a trap**: a names file that ends with a newline asks for the empty name too, so TUM and ICL raise for every `basedir`. -/
theorem trailing_newline (has : Str → Str → Bool) (loadPoses : Bool) (listing : List (Str × Bool)) (hd : (listing.map (·.1)).Nodup) (c : Str) :
    (∀ l, tumSelect has loadPoses (.file (some (c ++ ['\n']))) listing ≠ .ok l) ∧
    ∀ base, PlainBase base → ∀ l, iclSelect base has loadPoses (.file (some (c ++ ['\n']))) listing ≠ .ok l := by
  constructor
  · intro l h
    obtain ⟨h1, r, h2, h3, _⟩ := (tum_select_iff has loadPoses _ listing hd l).1 h
    obtain ⟨s, rfl, hm⟩ := newline_asks_empty h2
    obtain ⟨x, name, _, e⟩ := h1 [] ((h3 s rfl).2 [] hm)
    exact absurd (congrArg List.length e) (by rw [List.length_append]; simp)
  · intro base hb l h
    obtain ⟨_, r, h2, h3, _⟩ := (icl_select_iff hb has loadPoses _ listing hd l).1 h
    obtain ⟨s, rfl, hm⟩ := newline_asks_empty h2
    obtain ⟨m, e⟩ := h3 s rfl [] hm
    exact absurd (congrArg List.length e) (by rw [List.length_append, List.length_append]; simp)

/-- **C87, a trap**: one folder with another name in `basedir` — `.git`, `extras` — makes TUM raise whatever is asked for; ICL ignores it. -/
theorem stray_folder (has : Str → Str → Bool) (loadPoses : Bool) (names : Names) (listing : List (Str × Bool)) (hd : (listing.map (·.1)).Nodup) {n : Str}
    (hn : (n, true) ∈ listing) (hs : ¬ TumFolder n) (l : List Str) : tumSelect has loadPoses names listing ≠ .ok l := fun h =>
  hs (((tum_select_iff has loadPoses names listing hd l).1 h).1 n hn)

/-! ### Concrete cases -/

/-- A TUM `basedir` with two sequences and a file. -/
def tumDir : List (Str × Bool) :=
  [("rgbd_dataset_freiburg2_desk".toList, true), ("notes.txt".toList, false), ("rgbd_dataset_freiburg1_xyz".toList, true)]

/-- An ICL `basedir` with two trajectories and a stray folder. -/
def iclDir : List (Str × Bool) :=
  [("living_room_traj2_frei_png".toList, true), (".git".toList, true), ("living_room_traj1_frei_png".toList, true)]

theorem select_case :
    (tumDir.map (·.1)).Nodup ∧ (iclDir.map (·.1)).Nodup ∧ PlainBase "/data/".toList ∧
    tumSelect (fun _ _ => true) true .all tumDir = .ok ["rgbd_dataset_freiburg2_desk".toList, "rgbd_dataset_freiburg1_xyz".toList] ∧
    tumSelect (fun _ _ => true) true (.tuple ["rgbd_dataset_freiburg1_xyz".toList, "rgbd_dataset_freiburg2_desk".toList]) tumDir =
      .ok ["rgbd_dataset_freiburg2_desk".toList, "rgbd_dataset_freiburg1_xyz".toList] ∧
    tumSelect (fun _ _ => true) true (.file (some "rgbd_dataset_freiburg1_xyz".toList)) tumDir = .ok ["rgbd_dataset_freiburg1_xyz".toList] ∧
    tumSelect (fun _ _ => true) true (.tuple ["rgbd_dataset_freiburg1_xyz".toList, "rgbd_dataset_freiburg1_xyz".toList]) tumDir = .error .valueError ∧
    iclSelect "/data/".toList (fun _ _ => true) true .all iclDir =
      .ok [("living_room_traj2_frei_png".toList, some "livingRoom2n.gt.sim".toList), ("living_room_traj1_frei_png".toList, some "livingRoom1n.gt.sim".toList)] ∧
    scanSelect (.tuple ["scene0001_00".toList, "nowhere".toList]) ["scene0000_00-seq0.txt".toList, "scene0001_00-seq0.txt".toList] =
      .ok ["scene0001_00-seq0.txt".toList] ∧
    scanSelect (.tuple []) ["scene0000_00-seq0.txt".toList] = .ok [] := by
  refine ⟨by decide, by decide, ⟨⟨"/data".toList, by decide⟩, ?_⟩, ?_⟩
  · intro h
    exact absurd h.length_le (by decide)
  · decide +kernel

end Verif.Data
