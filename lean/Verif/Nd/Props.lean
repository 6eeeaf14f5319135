import Verif.Nd.Spec
import Mathlib.Tactic.Ring
import Mathlib.Algebra.BigOperators.Fin
/-!
C108: `project_points` and `unproject_points` on tensors of any rank.
-/
namespace Verif.Nd
set_option linter.unusedSectionVars false
open Verif.Nd Verif.Nd.Tensor Verif.Nd.Spec

variable {α : Type*}

/-! ### Broadcasting -/

theorem fit_length {s t : List ℕ} (h : Fit s t) : s.length = t.length := List.Forall₂.length_eq h

theorem bc_fit : ∀ {s t : List ℕ}, Fit s t → bc s t = .ok (join s t)
  | [], [], _ => rfl
  | a :: s, b :: t, h => by
    rw [Fit, List.forall₂_cons] at h
    rw [bc, if_pos h.1, bc_fit h.2]
    rfl

theorem bc_not_fit : ∀ {s t : List ℕ}, s.length = t.length → ¬ Fit s t → bc s t = .error .runtimeError
  | [], [], _, h => absurd List.Forall₂.nil h
  | a :: s, b :: t, hl, h => by
    by_cases hab : a = b ∨ a = 1 ∨ b = 1
    · have : ¬ Fit s t := fun h' => h (List.Forall₂.cons hab h')
      rw [bc, if_pos hab, bc_not_fit (by simpa using hl) this]
    · rw [bc, if_neg hab]

theorem bidx_src : ∀ {s i : List ℕ}, s.length = i.length → bidx s i = src s i
  | [], [], _ => rfl
  | d :: s, j :: i, h => by
    rw [bidx, bidx_src (by simpa using h)]
    rfl

theorem src_self : ∀ {i s : List ℕ}, Inside i s → src s i = i
  | [], [], _ => rfl
  | j :: i, d :: s, h => by
    rw [Inside, List.forall₂_cons] at h
    have := src_self h.2
    simp only [src] at this
    simp only [src, List.zipWith_cons_cons, this, List.cons.injEq, and_true]
    split
    · omega
    · rfl

theorem inside_length {i s : List ℕ} (h : Inside i s) : i.length = s.length := List.Forall₂.length_eq h

theorem join_length {s t : List ℕ} (h : s.length = t.length) : (join s t).length = t.length := by
  simp [join, h]

theorem fit_join : ∀ {s t : List ℕ}, Fit s t → Fit (join s t) t
  | [], [], _ => List.Forall₂.nil
  | a :: s, b :: t, h => by
    rw [Fit, List.forall₂_cons] at h
    refine List.Forall₂.cons ?_ (fit_join h.2)
    show (if a = 1 then b else a) = b ∨ (if a = 1 then b else a) = 1 ∨ b = 1
    split <;> omega

theorem join_join : ∀ {s t : List ℕ}, Fit s t → join (join s t) t = join s t
  | [], [], _ => rfl
  | a :: s, b :: t, h => by
    rw [Fit, List.forall₂_cons] at h
    have := join_join h.2
    simp only [join] at this
    simp only [join, List.zipWith_cons_cons, this, List.cons.injEq, and_true]
    by_cases ha : a = 1
    · simp [ha]
    · simp [ha]

theorem fit_ones : ∀ (t : List ℕ), Fit (List.replicate t.length 1) t
  | [] => List.Forall₂.nil
  | b :: t => List.Forall₂.cons (by simp) (fit_ones t)

theorem join_ones : ∀ (t : List ℕ), join (List.replicate t.length 1) t = t
  | [] => rfl
  | b :: t => by
    have := join_ones t
    simp only [join] at this
    simp [join, List.replicate_succ, this]

theorem fit_refl (t : List ℕ) : Fit t t := by
  induction t with
  | nil => exact List.Forall₂.nil
  | cons b t ih => exact List.Forall₂.cons (by simp) ih

theorem join_refl (t : List ℕ) : join t t = t := by
  induction t with
  | nil => rfl
  | cons b t ih =>
    simp only [join] at ih
    simp [join, ih]

/-! ### `expand` -/

theorem take_erase : ∀ (i : List ℕ) (k : ℕ), (i.take (k + 1)).eraseIdx k = i.take k
  | [], k => by simp
  | j :: i, 0 => by simp
  | j :: i, k + 1 => by
    have := take_erase i k
    simp only [List.take_succ_cons, List.eraseIdx_cons_succ, List.cons.injEq, true_and]
    exact this

theorem expand_dims (m : ℕ) : ∀ (t : Tensor α), (expand m t).dims = t.dims ++ List.replicate m 1 := by
  induction m with
  | zero => intro t; simp [expand]
  | succ m ih =>
    intro t
    rw [expand, ih]
    simp [unsqueeze, Tensor.rank, List.replicate_succ]

theorem expand_get (m : ℕ) : ∀ (t : Tensor α) (i : List ℕ), i.length = t.rank + m →
    (expand m t).get i = t.get (i.take t.rank) := by
  induction m with
  | zero => intro t i h; rw [expand, List.take_of_length_le (by omega)]
  | succ m ih =>
    intro t i h
    have hr : (t.unsqueeze t.rank).rank = t.rank + 1 := by simp [unsqueeze, Tensor.rank]
    rw [expand, ih _ _ (by rw [hr]; omega), hr]
    simp only [unsqueeze]
    rw [take_erase]

variable [Field α] [LinearOrder α]

/-! ### The common parts -/

/-- The shapes the checks of `project_points` and `unproject_points` allow. -/
theorem checkShapes_iff (lo n : ℕ) (pts mat : Tensor α) :
    checkShapes lo n pts mat = .ok () ↔ ∃ c m bs ps, pts.dims = c :: m :: bs ∧ (c = lo ∨ c = lo + 1) ∧
      mat.dims = n :: n :: ps ∧ (ps = [] ∨ (ps.length = bs.length ∧ ps.getLast? = bs.getLast?)) := by
  unfold checkShapes Tensor.rank
  rcases pts.dims with _ | ⟨c, _ | ⟨m, bs⟩⟩
  · simp
  · simp
  · rcases mat.dims with _ | ⟨a, _ | ⟨b, ps⟩⟩
    · simp
    · simp
    · rw [if_neg (by simp)]
      by_cases hc : c = lo ∨ c = lo + 1
      · rw [if_neg (by simp; omega), if_neg (by simp)]
        by_cases hab : a = n ∧ b = n
        · obtain ⟨rfl, rfl⟩ := hab
          rw [if_neg (by simp)]
          rcases ps with _ | ⟨p, ps⟩
          · rw [if_neg (by simp), if_neg (by simp)]
            simp [hc]
          · rcases bs with _ | ⟨q, bs⟩
            · rw [if_pos (by simp)]
              simp
            · by_cases hl : ps.length = bs.length
              · rw [if_neg (by simp [hl])]
                by_cases hlast : (p :: ps).getLast? = (q :: bs).getLast?
                · rw [if_neg (by simp only [List.getLast?_cons_cons]; simp [hlast])]
                  simp [hc, hl, hlast]
                · rw [if_pos (by simp only [List.getLast?_cons_cons]; simp [hlast])]
                  simp [hlast]
              · rw [if_pos (by simp; omega)]
                simp [hl]
        · rw [if_pos (by simp; omega)]
          simp
          intro h1 h2
          omega
      · rw [if_pos (by simp; omega)]
        simp
        intro h1
        omega

theorem checkShapes_err (lo n : ℕ) (pts mat : Tensor α) :
    checkShapes lo n pts mat = .ok () ∨ checkShapes lo n pts mat = .error .valueError := by
  unfold checkShapes
  repeat' split
  all_goals simp

/-- The product part: `pts` has sizes `k, m, bs`, the matrices `k, rows` with batch sizes `ps`. -/
theorem applyMats_ok {pts mat : Tensor α} {k m r : ℕ} {bs ps : List ℕ} (hp : pts.dims = k :: m :: bs)
    (hm : mat.dims = k :: r :: ps) (h : ps = [] ∨ Fit ps bs) :
    ∃ out, applyMats pts mat = .ok out ∧ out.dims = r :: m :: (if ps = [] then bs else join ps bs) ∧
      ∀ c i js, i < m → Inside js (if ps = [] then bs else join ps bs) →
        out.get (c :: i :: js)
          = ∑ l ∈ Finset.range k, mat.get (l :: c :: src ps js) * pts.get (l :: i :: src bs js) := by
  by_cases hbs : bs = []
  · -- two-dimensional points, one matrix
    subst hbs
    have hps : ps = [] := by
      rcases h with h | h
      · exact h
      · simpa using fit_length h
    subst hps
    have hpr : pts.rank = 2 := by simp [Tensor.rank, hp]
    have hmr : mat.rank = 2 := by simp [Tensor.rank, hm]
    have h1 : (mat.unsqueeze 2).dims = k :: r :: [1] := by simp [unsqueeze, hm]
    have h2 : (pts.unsqueeze 0).dims = 1 :: k :: [m] := by simp [unsqueeze, hp]
    have hfit : Fit [1] [m] := List.Forall₂.cons (by simp) List.Forall₂.nil
    refine ⟨_, by
      unfold applyMats
      rw [if_neg (by omega)]
      simp only [hpr, hmr, gt_iff_lt, lt_irrefl, if_false]
      rw [matmul, h1, h2]
      simp only [ne_eq, not_true_eq_false, if_false, bc_fit hfit]
      rfl, ?_, ?_⟩
    · simp [squeezeLast, join]
    · intro c i js hi hjs
      have hjs0 : js = [] := by simpa using inside_length hjs
      subst hjs0
      simp only [squeezeLast]
      refine Finset.sum_congr rfl ?_
      intro l _
      rw [bidx_src (s := [1]) (i := [i]) rfl, bidx_src (s := [m]) (i := [i]) rfl]
      simp only [unsqueeze, src]
      have : (if m = 1 then 0 else i) = i := by split <;> omega
      simp [this]
  · have hpr : pts.rank > 2 := by
      have : bs.length ≠ 0 := by simpa using hbs
      simp [Tensor.rank, hp]; omega
    have h2 : (pts.unsqueeze 0).dims = 1 :: k :: m :: bs := by simp [unsqueeze, hp]
    -- the expanded matrices
    obtain ⟨mat', qs, hmat', hq, hfit, hjoin, hget⟩ : ∃ (mat' : Tensor α) (qs : List ℕ),
        (if mat.rank = 2 ∧ pts.rank > 2 then expand (pts.rank - mat.rank) mat else mat) = mat' ∧
        mat'.dims = k :: r :: qs ∧ Fit qs bs ∧ join qs bs = (if ps = [] then bs else join ps bs) ∧
        ∀ l c js, js.length = bs.length → mat'.get (l :: c :: bidx qs js) = mat.get (l :: c :: src ps js) := by
      by_cases hps : ps = []
      · subst hps
        have hmr : mat.rank = 2 := by simp [Tensor.rank, hm]
        have hlen : pts.rank - mat.rank = bs.length := by simp [Tensor.rank, hp, hm]
        refine ⟨_, List.replicate bs.length 1, rfl, ?_, fit_ones bs, ?_, ?_⟩
        · rw [if_pos ⟨hmr, hpr⟩, expand_dims, hm, hlen]
          rfl
        · rw [join_ones]; simp
        · intro l c js hjs
          rw [if_pos ⟨hmr, hpr⟩, hlen, expand_get _ _ _ (by
            rw [hmr, bidx_src (by simp [hjs])]; simp [src, hjs]; omega), hmr]
          simp [src]
      · have hmr : ¬ (mat.rank = 2 ∧ pts.rank > 2) := by
          intro h'
          have : ps.length = 0 := by have := h'.1; simp [Tensor.rank, hm] at this; simp [this]
          exact hps (by simpa using this)
        have hf : Fit ps bs := by rcases h with h | h; exacts [absurd h hps, h]
        refine ⟨mat, ps, by rw [if_neg hmr], hm, hf, by rw [if_neg hps], ?_⟩
        intro l c js hjs
        rw [bidx_src (by rw [hjs, fit_length hf])]
    have h1 : (mat'.unsqueeze 2).dims = k :: r :: 1 :: qs := by simp [unsqueeze, hq]
    have hfit' : Fit (1 :: qs) (m :: bs) := List.Forall₂.cons (by simp) hfit
    refine ⟨_, by
      unfold applyMats
      rw [hmat']
      simp only [hpr, if_true]
      rw [matmul, h1, h2]
      simp only [ne_eq, not_true_eq_false, if_false, bc_fit hfit']
      rfl, ?_, ?_⟩
    · simp only [squeezeLast]
      rw [← hjoin]
      simp [join]
    · intro c i js hi hjs
      have hl : js.length = bs.length := by
        rw [inside_length hjs]
        split
        · rfl
        · rename_i hps
          rcases h with h | h
          · exact absurd h hps
          · exact join_length (fit_length h)
      simp only [squeezeLast]
      refine Finset.sum_congr rfl ?_
      intro l _
      have hi' : (if m = 1 then 0 else i) = i := by split <;> omega
      simp only [unsqueeze, bidx, hi', List.eraseIdx_cons_succ, List.eraseIdx_zero, List.tail_cons, if_true]
      rw [hget l c js hl, bidx_src hl.symm]

theorem applyMats_err {pts mat : Tensor α} {k m r : ℕ} {bs ps : List ℕ} (hp : pts.dims = k :: m :: bs)
    (hm : mat.dims = k :: r :: ps) (hps : ps ≠ []) (hl : ps.length = bs.length) (h : ¬ Fit ps bs) :
    applyMats pts mat = .error .runtimeError := by
  have hbs : bs.length ≠ 0 := by rw [← hl]; simpa using hps
  have hpr : pts.rank > 2 := by simp [Tensor.rank, hp]; omega
  have hmr : ¬ (mat.rank = 2 ∧ pts.rank > 2) := by
    intro h'
    have : ps.length = 0 := by have := h'.1; simp [Tensor.rank, hm] at this; simp [this]
    omega
  have h1 : (mat.unsqueeze 2).dims = k :: r :: 1 :: ps := by simp [unsqueeze, hm]
  have h2 : (pts.unsqueeze 0).dims = 1 :: k :: m :: bs := by simp [unsqueeze, hp]
  have hn : ¬ Fit (1 :: ps) (m :: bs) := by
    intro h'
    rw [Fit, List.forall₂_cons] at h'
    exact h h'.2
  unfold applyMats
  rw [if_neg hmr]
  simp only [hpr, if_true]
  rw [matmul, h1, h2]
  simp only [ne_eq, not_true_eq_false, if_false, bc_not_fit (s := 1 :: ps) (t := m :: bs) (by simp [hl]) hn]

theorem divideByZ_ok {p : Tensor α} {d : ℕ} {ds : List ℕ} (hp : p.dims = d :: ds) (hd : 3 ≤ d) :
    ∃ out, divideByZ p = .ok out ∧ out.dims = 2 :: ds ∧ ∀ k is, k < 2 → Inside is ds →
      out.get (k :: is) = pixel (fun r => p.get (r :: is)) k := by
  refine ⟨_, by
    unfold divideByZ
    simp only [select, hp, if_pos (show 0 < d by omega), if_pos (show 1 < d by omega), if_pos (show 2 < d by omega),
      zipT, mapT, bc_fit (fit_refl ds), stack2, join_refl, if_true]
    rfl, rfl, ?_⟩
  intro k is hk his
  have hb : bidx ds is = is := by rw [bidx_src (inside_length his).symm, src_self his]
  rcases k with _ | _ | k
  · simp [hb, pixel]
  · simp [hb, pixel]
  · omega

theorem homogenizePoints_ok {p : Tensor α} {c m : ℕ} {bs : List ℕ} (hp : p.dims = c :: m :: bs) :
    homogenizePoints p = .ok p.padOne := by
  unfold homogenizePoints
  rw [if_neg (by simp [Tensor.rank, hp])]

/-- Homogenising when the last size is `lo`, otherwise (size `lo + 1`) keeping the tensor. -/
theorem homog_step {p : Tensor α} {c lo m : ℕ} {bs : List ℕ} (hp : p.dims = c :: m :: bs)
    (hc : c = lo ∨ c = lo + 1) : ∃ h : Tensor α,
    (if p.dims.head? = some lo then homogenizePoints p else .ok p) = .ok h ∧ h.dims = (lo + 1) :: m :: bs ∧
      ∀ l is, l < lo + 1 → h.get (l :: is) = homog c (fun l => p.get (l :: is)) l := by
  by_cases h : c = lo
  · subst h
    refine ⟨p.padOne, by rw [hp]; simp [homogenizePoints_ok hp], by simp [padOne, hp], ?_⟩
    intro l is _
    simp [padOne, hp, homog]
  · have hc' : c = lo + 1 := by omega
    subst hc'
    refine ⟨p, by rw [hp]; simp, hp, ?_⟩
    intro l is hl
    simp [homog, hl]

/-! ### `project_points` -/

/-- C108 (acceptance): `project_points` accepts exactly these shapes: at least two dimensions, points of 3 or 4
coordinates, 4×4 matrices, and either a single matrix or as many dimensions as the points with the same batch size and
with the remaining leading dimensions fitting (equal, or 1 on either side). -/
theorem project_accepts (cam proj : Tensor α) :
    (∃ out, projectPoints cam proj = .ok out) ↔ ∃ c m bs ps, cam.dims = c :: m :: bs ∧ (c = 3 ∨ c = 4) ∧
      proj.dims = 4 :: 4 :: ps ∧ (ps = [] ∨ (ps.getLast? = bs.getLast? ∧ Fit ps bs)) := by
  constructor
  · rintro ⟨out, ho⟩
    unfold projectPoints at ho
    rcases checkShapes_err 3 4 cam proj with hc | hc
    · obtain ⟨c, m, bs, ps, h1, h2, h3, h4⟩ := (checkShapes_iff 3 4 cam proj).1 hc
      refine ⟨c, m, bs, ps, h1, h2, h3, ?_⟩
      rcases h4 with h4 | ⟨h4, h5⟩
      · exact .inl h4
      · by_cases hps : ps = []
        · exact .inl hps
        · refine .inr ⟨h5, ?_⟩
          by_contra hf
          obtain ⟨h, hh, hd, _⟩ := homog_step h1 h2
          simp only [hc, hh, applyMats_err hd h3 hps h4 hf] at ho
          cases ho
    · simp only [hc] at ho
      cases ho
  · rintro ⟨c, m, bs, ps, h1, h2, h3, h4⟩
    have hc : checkShapes 3 4 cam proj = .ok () := by
      refine (checkShapes_iff 3 4 cam proj).2 ⟨c, m, bs, ps, h1, h2, h3, ?_⟩
      rcases h4 with h4 | h4
      · exact .inl h4
      · exact .inr ⟨fit_length h4.2, h4.1⟩
    obtain ⟨h, hh, hd, _⟩ := homog_step h1 h2
    obtain ⟨p, hp, hpd, _⟩ := applyMats_ok hd h3 (by rcases h4 with h4 | h4; exacts [.inl h4, .inr h4.2])
    obtain ⟨out, ho, _⟩ := divideByZ_ok hpd (by omega)
    exact ⟨out, by unfold projectPoints; simp only [hc, hh, hp, ho]⟩

/-- Refused shapes raise ValueError, except that fitting failures beyond the batch dimension surface as torch's
RuntimeError. -/
theorem project_errors (cam proj : Tensor α) (e : Err) (he : projectPoints cam proj = .error e) :
    e = .valueError ∨ (e = .runtimeError ∧ ∃ c m bs ps, cam.dims = c :: m :: bs ∧ (c = 3 ∨ c = 4) ∧
      proj.dims = 4 :: 4 :: ps ∧ ps.length = bs.length ∧ ps.getLast? = bs.getLast? ∧ ¬ Fit ps bs) := by
  rcases checkShapes_err 3 4 cam proj with hc | hc
  · obtain ⟨c, m, bs, ps, h1, h2, h3, h4⟩ := (checkShapes_iff 3 4 cam proj).1 hc
    by_cases hok : ps = [] ∨ Fit ps bs
    · exfalso
      obtain ⟨out, ho⟩ := (project_accepts cam proj).2 ⟨c, m, bs, ps, h1, h2, h3, by
        rcases h4 with h4 | h4
        · exact .inl h4
        · rcases hok with h | h
          exacts [.inl h, .inr ⟨h4.2, h⟩]⟩
      rw [ho] at he
      cases he
    · rw [not_or] at hok
      rcases h4 with h4 | h4
      · exact absurd h4 hok.1
      · refine .inr ⟨?_, c, m, bs, ps, h1, h2, h3, h4.1, h4.2, hok.2⟩
        obtain ⟨h, hh, hd, _⟩ := homog_step h1 h2
        unfold projectPoints at he
        simp only [hc, hh, applyMats_err hd h3 hok.1 h4.1 hok.2] at he
        cases he
        rfl
  · unfold projectPoints at he
    simp only [hc] at he
    cases he
    exact .inl rfl

/-- C108 (result of `project_points`): the result has the joint shape of points and matrices, and every pixel is the
projection of its own point by the matrix its place belongs to. -/
theorem project_result (cam proj out : Tensor α) (c m : ℕ) (bs ps : List ℕ) (hcam : cam.dims = c :: m :: bs)
    (hproj : proj.dims = 4 :: 4 :: ps) (ho : projectPoints cam proj = .ok out) :
    out.dims = 2 :: m :: (if ps = [] then bs else join ps bs) ∧
    ∀ k i js, k < 2 → i < m → Inside js (if ps = [] then bs else join ps bs) →
      out.get (k :: i :: js) = pixel (mul4 (fun r l => proj.get (l :: r :: src ps js))
        (homog c (fun l => cam.get (l :: i :: src bs js)))) k := by
  obtain ⟨c', m', bs', ps', h1, h2, h3, h4⟩ := (project_accepts cam proj).1 ⟨out, ho⟩
  rw [hcam] at h1
  rw [hproj] at h3
  simp only [List.cons.injEq] at h1 h3
  obtain ⟨rfl, rfl, rfl⟩ := h1
  obtain ⟨-, -, rfl⟩ := h3
  have hc : checkShapes 3 4 cam proj = .ok () := by
    refine (checkShapes_iff 3 4 cam proj).2 ⟨c, m, bs, ps, hcam, h2, hproj, ?_⟩
    rcases h4 with h4 | h4
    · exact .inl h4
    · exact .inr ⟨fit_length h4.2, h4.1⟩
  obtain ⟨h, hh, hd, hg⟩ := homog_step hcam h2
  obtain ⟨p, hp, hpd, hpg⟩ := applyMats_ok hd hproj (by rcases h4 with h4 | h4; exacts [.inl h4, .inr h4.2])
  obtain ⟨q, hq, hqd, hqg⟩ := divideByZ_ok hpd (by omega)
  have : out = q := by
    unfold projectPoints at ho
    simp only [hc, hh, hp, hq] at ho
    exact (Except.ok.inj ho).symm
  subst this
  refine ⟨hqd, ?_⟩
  intro k i js hk hi hjs
  rw [hqg k (i :: js) hk (List.Forall₂.cons hi hjs)]
  congr 1
  funext r
  rw [hpg r i js hi hjs]
  simp [Finset.sum_range_succ, mul4, hg]

/-- C108 (documented shape): the result has the leading dimensions of the points exactly when no dimension of size 1 of
the points meets a larger or empty dimension of the matrices; in particular always for one matrix, and for points and
matrices of three dimensions. -/
theorem project_shape (cam proj out : Tensor α) (c m : ℕ) (bs ps : List ℕ) (hcam : cam.dims = c :: m :: bs)
    (hproj : proj.dims = 4 :: 4 :: ps) (ho : projectPoints cam proj = .ok out) :
    out.dims = 2 :: m :: bs ↔ ps = [] ∨ ∀ k : ℕ, bs[k]? = some 1 → ps[k]? = some 1 := by
  obtain ⟨c', m', bs', ps', h1, h2, h3, h4⟩ := (project_accepts cam proj).1 ⟨out, ho⟩
  rw [hcam] at h1
  rw [hproj] at h3
  simp only [List.cons.injEq] at h1 h3
  obtain ⟨rfl, rfl, rfl⟩ := h1
  obtain ⟨-, -, rfl⟩ := h3
  rw [(project_result cam proj out c m bs ps hcam hproj ho).1]
  by_cases hps : ps = []
  · simp [hps]
  · have hf : Fit ps bs := by rcases h4 with h4 | h4; exacts [absurd h4 hps, h4.2]
    simp only [hps, if_false, false_or, List.cons.injEq, true_and]
    clear h4 hcam hproj hps
    induction hf with
    | nil => simp [join]
    | @cons a b s t hab _ ih =>
      simp only [join, List.zipWith_cons_cons, List.cons.injEq]
      simp only [join] at ih
      constructor
      · rintro ⟨h1, h2⟩ k hk
        replace h2 := ih.1 h2
        rcases k with _ | k
        · simp only [List.getElem?_cons_zero, Option.some.injEq] at hk ⊢
          split at h1 <;> omega
        · exact h2 k hk
      · intro h
        refine ⟨?_, ih.2 fun k hk => h (k + 1) hk⟩
        have := h 0
        simp only [List.getElem?_cons_zero, Option.some.injEq] at this
        split <;> omega

/-! ### `unproject_points` -/

/-- C108 (acceptance of `unproject_points`). -/
theorem unproject_accepts (px kinv depths : Tensor α) :
    (∃ out, unprojectPoints px kinv depths = .ok out) ↔ ∃ c m bs ps, px.dims = c :: m :: bs ∧ (c = 2 ∨ c = 3) ∧
      kinv.dims = 3 :: 3 :: ps ∧ depths.dims = m :: bs ∧ (ps = [] ∨ (ps.getLast? = bs.getLast? ∧ Fit ps bs)) := by
  constructor
  · rintro ⟨out, ho⟩
    unfold unprojectPoints at ho
    rcases checkShapes_err 2 3 px kinv with hc | hc
    · obtain ⟨c, m, bs, ps, h1, h2, h3, h4⟩ := (checkShapes_iff 2 3 px kinv).1 hc
      simp only [hc] at ho
      by_cases hd : px.dims.tail ≠ depths.dims
      · rw [if_pos hd] at ho
        cases ho
      · rw [if_neg hd] at ho
        rw [not_not, h1, List.tail_cons] at hd
        refine ⟨c, m, bs, ps, h1, h2, h3, hd.symm, ?_⟩
        rcases h4 with h4 | ⟨h4, h5⟩
        · exact .inl h4
        · by_cases hps : ps = []
          · exact .inl hps
          · refine .inr ⟨h5, ?_⟩
            by_contra hf
            obtain ⟨h, hh, hd', _⟩ := homog_step h1 h2
            simp only [hh, applyMats_err hd' h3 hps h4 hf] at ho
            cases ho
    · simp only [hc] at ho
      cases ho
  · rintro ⟨c, m, bs, ps, h1, h2, h3, h5, h4⟩
    have hc : checkShapes 2 3 px kinv = .ok () := by
      refine (checkShapes_iff 2 3 px kinv).2 ⟨c, m, bs, ps, h1, h2, h3, ?_⟩
      rcases h4 with h4 | h4
      · exact .inl h4
      · exact .inr ⟨fit_length h4.2, h4.1⟩
    obtain ⟨h, hh, hd, _⟩ := homog_step h1 h2
    obtain ⟨p, hp, hpd, _⟩ := applyMats_ok hd h3 (by rcases h4 with h4 | h4; exacts [.inl h4, .inr h4.2])
    have hfit : Fit (3 :: m :: (if ps = [] then bs else join ps bs)) (1 :: m :: bs) := by
      refine List.Forall₂.cons (by simp) (List.Forall₂.cons (by simp) ?_)
      split
      · exact fit_refl bs
      · rename_i hps
        rcases h4 with h4 | h4
        · exact absurd h4 hps
        · exact fit_join h4.2
    refine ⟨_, by
      unfold unprojectPoints
      simp only [hc]
      rw [if_neg (by rw [h1, h5]; simp)]
      simp only [hh, hp, zipT]
      rw [hpd, show (depths.unsqueeze 0).dims = 1 :: m :: bs by simp [unsqueeze, h5], bc_fit hfit]⟩

/-- C108 (result of `unproject_points`): the joint shape, and every camera point is its own pixel times the matrix of its
place, times its own depth. -/
theorem unproject_result (px kinv depths out : Tensor α) (c m : ℕ) (bs ps : List ℕ) (hpx : px.dims = c :: m :: bs)
    (hk : kinv.dims = 3 :: 3 :: ps) (ho : unprojectPoints px kinv depths = .ok out) :
    out.dims = 3 :: m :: (if ps = [] then bs else join ps bs) ∧
    ∀ k i js, k < 3 → i < m → Inside js (if ps = [] then bs else join ps bs) →
      out.get (k :: i :: js) = mul3 (fun r l => kinv.get (l :: r :: src ps js))
        (homog c (fun l => px.get (l :: i :: src bs js))) k * depths.get (i :: src bs js) := by
  obtain ⟨c', m', bs', ps', h1, h2, h3, h5, h4⟩ := (unproject_accepts px kinv depths).1 ⟨out, ho⟩
  rw [hpx] at h1
  rw [hk] at h3
  simp only [List.cons.injEq] at h1 h3
  obtain ⟨rfl, rfl, rfl⟩ := h1
  obtain ⟨-, -, rfl⟩ := h3
  have hc : checkShapes 2 3 px kinv = .ok () := by
    refine (checkShapes_iff 2 3 px kinv).2 ⟨c, m, bs, ps, hpx, h2, hk, ?_⟩
    rcases h4 with h4 | h4
    · exact .inl h4
    · exact .inr ⟨fit_length h4.2, h4.1⟩
  obtain ⟨h, hh, hd, hg⟩ := homog_step hpx h2
  have h4' : ps = [] ∨ Fit ps bs := by rcases h4 with h4 | h4; exacts [.inl h4, .inr h4.2]
  obtain ⟨p, hp, hpd, hpg⟩ := applyMats_ok hd hk h4'
  have hfit0 : Fit (if ps = [] then bs else join ps bs) bs := by
    split
    · exact fit_refl bs
    · rename_i hps
      rcases h4' with h | h
      · exact absurd h hps
      · exact fit_join h
  have hjoin0 : join (if ps = [] then bs else join ps bs) bs = if ps = [] then bs else join ps bs := by
    split
    · exact join_refl bs
    · rename_i hps
      rcases h4' with h | h
      · exact absurd h hps
      · exact join_join h
  have hfit : Fit (3 :: m :: (if ps = [] then bs else join ps bs)) (1 :: m :: bs) :=
    List.Forall₂.cons (by simp) (List.Forall₂.cons (by simp) hfit0)
  have hdd : (depths.unsqueeze 0).dims = 1 :: m :: bs := by simp [unsqueeze, h5]
  unfold unprojectPoints at ho
  simp only [hc] at ho
  rw [if_neg (by rw [hpx, h5]; simp)] at ho
  simp only [hh, hp, zipT] at ho
  rw [hpd, hdd, bc_fit hfit] at ho
  have ho := (Except.ok.inj ho).symm
  subst ho
  constructor
  · show join _ _ = _
    simp only [join, List.zipWith_cons_cons]
    simp only [join] at hjoin0
    simp [hjoin0]
  · intro k i js hk3 hi hjs
    have hlen : js.length = bs.length := by rw [inside_length hjs, fit_length hfit0]
    have e1 : bidx (3 :: m :: (if ps = [] then bs else join ps bs)) (k :: i :: js) = k :: i :: js := by
      have hin : Inside (k :: i :: js) (3 :: m :: (if ps = [] then bs else join ps bs)) :=
        List.Forall₂.cons hk3 (List.Forall₂.cons hi hjs)
      rw [bidx_src (inside_length hin).symm, src_self hin]
    have e2 : bidx (1 :: m :: bs) (k :: i :: js) = 0 :: i :: src bs js := by
      have hi' : (if m = 1 then 0 else i) = i := by split <;> omega
      simp only [bidx, hi', if_true, bidx_src hlen.symm]
    show p.get (bidx _ _) * (depths.unsqueeze 0).get (bidx _ _) = _
    rw [e1, e2, hpg k i js hi hjs]
    congr 1
    simp [Finset.sum_range_succ, mul3, hg]

end Verif.Nd
