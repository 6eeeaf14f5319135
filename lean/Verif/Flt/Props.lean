import Verif.Flt.Fuse
/-!
C90: what rounding does to a map that is fused again and again.
-/
namespace Verif.Flt
open Verif Pcs Fusion

theorem seen_weight (al : V3 ℝ → ℝ) (X Y : Attr) (i j : Nat) (fr : Frame ℝ) (rows : List Row) (b n : Nat) :
    (seen al X i fr rows b n).1 = (seen al Y j fr rows b n).1 := by
  unfold seen; cases hit rows b n <;> rfl

/-- Every map point has a positive count, which is a number of the format. -/
def Counted (F : Fmt) (Q : List (T2 ℝ)) : Prop := ∀ b n, (rowAt Q b n).isSome → 0 < conf Q b n ∧ F.Has (conf Q b n)

theorem updates_cons (al : V3 ℝ → ℝ) (X : Attr) (i : Nat) (c : Call) (cs : List Call) (b n : Nat) :
    updates al X i (c :: cs) b n = if c.rows = [] then updates al X i cs b n else seen al X i c.fr c.rows b n :: updates al X i cs b n := by
  unfold updates
  by_cases h : c.rows = [] <;> simp [h]

/-- **C90**, one call in floating point, any format, any weights that are positive numbers of the format.  For every map with points,
normals, colours and positive counts, every frame of the same batch size and every table of map points and pixels that names no map point
twice, `fuse_with_map` succeeds, the counts stay positive numbers of the format and never decrease (no division by zero can occur later), and
* if the table is empty, all points, normals, colours and counts are exactly as before;
* a point that is not in the table keeps its count exactly and each of its numbers up to three roundings;
* the number merged for a point in the table is off the exact weighted mean by at most the fraction `(1+u)^4/(1-u) - 1`;
* the new points are exactly the unmatched pixels with depth, with their weights as counts. -/
theorem fuse_call_rounding (F : Fmt) {s : PC ℝ} {a : Clouds ℝ} {P Q : List (T2 ℝ)} (hi : Inv s a) (hm : FusionMap a P Q) (hc : Counted F Q)
    {al : V3 ℝ → ℝ} (hal : ∀ p, 0 < al p ∧ F.Has (al p)) {fr : Frame ℝ} {rows : List Row} (ip : Bool) (hB : fr.B = P.length)
    (hr : RowsOk P fr rows) (hu : UniquePts rows) :
    ∃ s' s0 a' P' Q', fuseWithMapF F al s fr rows ip = (.ok s', s0) ∧ Inv s' a' ∧ FusionMap a' P' Q' ∧ Counted F Q' ∧
      (∀ b n, (rowAt P b n).isSome → conf Q b n ≤ conf Q' b n) ∧
      (∀ b n, (rowAt P b n).isSome → hit rows b n = none → conf Q' b n = conf Q b n) ∧
      (∀ X l, X ≠ .features → a X = some l → ∃ l', a' X = some l' ∧ AppendedAttr fr (newMask fr rows) (imgOf fr X) P l' ∧
        ∀ b n x, vecAt l b n = some x → ∃ x', vecAt l' b n = some x' ∧
          (rows = [] → x' = x) ∧
          (hit rows b n = none → ∀ i, |comp x' i - comp x i| ≤ ((1 + F.u) ^ 3 - 1) * |comp x i|) ∧
          ∀ r, hit rows b n = some r → ∀ i, let w := al (fr.v r.b 0 r.h r.w); let q := comp (imgOf fr X r.b 0 r.h r.w) i
            |comp x' i - (conf Q b n * comp x i + w * q) / (conf Q b n + w)| ≤
              ((1 + F.u) ^ 4 / (1 - F.u) - 1) * ((conf Q b n * |comp x i| + w * |q|) / (conf Q b n + w))) ∧
      (∀ b < fr.B, ∀ k, rowAt Q' b (sizeAt P b + k) =
        (pixels fr.L fr.H fr.W (newMask fr rows b))[k]?.map fun x => [al (fr.v b x.1 x.2.1 x.2.2)]) := by
  have hw : Wf a P := by
    have hP := hm.pts
    rcases hi with h | ⟨P', h, _⟩
    · rw [h.noPoints] at hP; cases hP
    · have := h.wf.pts; rw [hP] at this; rw [Option.some.inj this]; exact h.wf
  obtain ⟨Nn, hNn⟩ := Option.isSome_iff_exists.1 hm.nrm
  obtain ⟨C, hC⟩ := Option.isSome_iff_exists.1 hm.col
  obtain ⟨s', s0, e, _⟩ := fuseF_rep F hi hm.pts hNn hC hm.feat hm.one hB hr al ip
  obtain ⟨a', P', Q', i', m', hlen, hsome, hconf, hval, hnew, happ⟩ := fuseF_values F hi hm hB hr hu e
  have hw' : Wf a' P' := by
    have hP := m'.pts
    rcases i' with h | ⟨P2, h, _⟩
    · rw [h.noPoints] at hP; cases hP
    · have := h.wf.pts; rw [hP] at this; rw [Option.some.inj this]; exact h.wf
  have hold : ∀ b n, (rowAt P b n).isSome → 0 < conf Q b n ∧ F.rnd (conf Q b n) = conf Q b n := fun b n hs =>
    hc b n (by rw [rowAt_isSome hw hm.feat]; exact hs)
  have hw0 : ∀ X i b n, 0 ≤ (seen al X i fr rows b n).1 := by
    intro X i b n
    unfold seen
    cases hit rows b n with
    | none => exact le_rfl
    | some r => exact (hal _).1.le
  have mono : ∀ b n, (rowAt P b n).isSome → conf Q b n ≤ conf Q' b n := by
    intro b n hs
    rw [hconf b n hs]
    split_ifs
    · exact le_rfl
    · conv_lhs => rw [← (hold b n hs).2]
      exact F.mono (by linarith [hw0 .points 0 b n])
  refine ⟨s', s0, a', P', Q', e, i', m', ?_, mono, ?_, ?_, hnew⟩
  · intro b n hs
    by_cases ho : (rowAt P b n).isSome
    · refine ⟨lt_of_lt_of_le (hold b n ho).1 (mono b n ho), ?_⟩
      show F.rnd _ = _
      rw [hconf b n ho]
      split_ifs
      · exact (hold b n ho).2
      · exact F.idem _
    · have hb : b < fr.B := by
        have hs2 : (rowAt P' b n).isSome := by rw [← rowAt_isSome hw' m'.feat]; exact hs
        by_contra hb
        have : rowAt P' b n = none := by
          rw [rowAt, List.getElem?_eq_none (by omega)]; rfl
        rw [this] at hs2; cases hs2
      have hn : sizeAt P b ≤ n := by
        by_contra hlt
        exact ho (sizeAt_isSome.2 (by omega))
      obtain ⟨k, rfl⟩ := Nat.exists_eq_add_of_le hn
      have hk := hnew b hb k
      rw [hk] at hs
      obtain ⟨y, hy⟩ := Option.isSome_iff_exists.1 hs
      obtain ⟨z, _, hz⟩ := Option.map_eq_some_iff.1 hy
      have : conf Q' b (sizeAt P b + k) = al (fr.v b z.1 z.2.1 z.2.2) := by rw [conf, hk, hy, ← hz]; rfl
      rw [this]; exact hal _
  · intro b n hs hh
    rw [hconf b n hs]
    split_ifs
    · rfl
    · rw [seen, hh, add_zero]; exact (hold b n hs).2
  · intro X l hX hl
    obtain ⟨l', hl', hv⟩ := hval X l hX hl
    refine ⟨l', hl', happ X hX l' hl', fun b n x hx => ?_⟩
    obtain ⟨x', hx', hcomp⟩ := hv b n x hx
    have hs : (rowAt P b n).isSome := by
      rw [← rowAt_isSome hw hl]
      simp only [vecAt, Option.map_eq_some_iff] at hx
      obtain ⟨r, hr, _⟩ := hx; rw [hr]; rfl
    obtain ⟨hc0, hcr⟩ := hold b n hs
    refine ⟨x', hx', ?_, ?_, ?_⟩
    · intro h0
      have k0 := hcomp 0; have k1 := hcomp 1; have k2 := hcomp 2
      rw [if_pos h0] at k0 k1 k2
      exact V3.ext k0 k1 k2
    · intro hh i
      rw [hcomp i]
      split_ifs with h0
      · rw [sub_self, abs_zero]
        have := one_le_pow₀ (n := 3) (by linarith [F.u0] : (1 : ℝ) ≤ 1 + F.u)
        exact mul_nonneg (by linarith) (abs_nonneg _)
      · simp only [seen, hh]
        exact (idle_step F (p := ⟨conf Q b n, comp x i⟩) hc0 hcr).2.1
    · intro r hh i w q
      have h0 : rows ≠ [] := by rintro rfl; simp [hit] at hh
      rw [hcomp i, if_neg h0]
      have es : seen al X i fr rows b n = (w, q) := by simp only [seen, hh]; rfl
      rw [es]
      have := (track_error F (x := comp x i) hc0 [(w, q)] (by simpa using (hal _).1.le)).2.2
      simpa [Cell.step, total, wsum, wsize] using this

/-- The numbers of a map point after a run are those of the single updates one after the other. -/
theorem run_track (F : Fmt) {al : V3 ℝ → ℝ} {s t : PC ℝ} {cs : List Call} (h : Runs F al s cs t) :
    ∀ {a : Clouds ℝ} {P Q : List (T2 ℝ)}, Inv s a → FusionMap a P Q → ∃ a' P' Q', Inv t a' ∧ FusionMap a' P' Q' ∧
      ∀ X l, X ≠ .features → a X = some l → ∃ l', a' X = some l' ∧ ∀ b n x, vecAt l b n = some x → ∃ x', vecAt l' b n = some x' ∧
        ∀ i, (updates al X i cs b n).foldl (Cell.step F) ⟨conf Q b n, comp x i⟩ = ⟨conf Q' b n, comp x' i⟩ := by
  induction h with
  | nil s =>
    intro a P Q hi hm
    exact ⟨a, P, Q, hi, hm, fun X l _ hl => ⟨l, hl, fun b n x hx => ⟨x, hx, fun i => rfl⟩⟩⟩
  | cons s s' t c cs s0 hB hr hu e _ ih =>
    intro a P Q hi hm
    obtain ⟨a1, P1, Q1, i1, m1, _, _, hconf, hval, _, _⟩ := fuseF_values F hi hm (hB a P hi hm.pts) (hr a P hi hm.pts) hu e
    obtain ⟨a2, P2, Q2, i2, m2, hv2⟩ := ih i1 m1
    refine ⟨a2, P2, Q2, i2, m2, fun X l hX hl => ?_⟩
    obtain ⟨l1, hl1, hv1⟩ := hval X l hX hl
    obtain ⟨l2, hl2, hv2⟩ := hv2 X l1 hX hl1
    refine ⟨l2, hl2, fun b n x hx => ?_⟩
    obtain ⟨x1, hx1, hc1⟩ := hv1 b n x hx
    obtain ⟨x2, hx2, hc2⟩ := hv2 b n x1 hx1
    have hw : Wf a P := by
      have hP := hm.pts
      rcases hi with h | ⟨P', h, _⟩
      · rw [h.noPoints] at hP; cases hP
      · have := h.wf.pts; rw [hP] at this; rw [Option.some.inj this]; exact h.wf
    have hs : (rowAt P b n).isSome := by
      rw [← rowAt_isSome hw hl]
      simp only [vecAt, Option.map_eq_some_iff] at hx
      obtain ⟨r, hr, _⟩ := hx; rw [hr]; rfl
    refine ⟨x2, hx2, fun i => ?_⟩
    rw [← hc2 i, updates_cons]
    by_cases h0 : c.rows = []
    · have k1 := hconf b n hs
      have k2 := hc1 i
      rw [if_pos h0] at k1 k2
      rw [if_pos h0, k1, k2]
    · have k1 := hconf b n hs
      have k2 := hc1 i
      rw [if_neg h0] at k1 k2
      rw [if_neg h0, List.foldl_cons, k1, k2, seen_weight al .points X 0 i]
      rfl

/-- **C90**, many calls.  For every map and every sequence of calls of `fuse_with_map` in floating point, in any format: after `k` calls that
had matches, every number (position, normal, colour) of every point that was in the map at the start is within the fraction
`(1+u)^(4k)/(1-u)^k - 1` of the exact weighted mean of its start value and the values merged into it, and its count is within the factors
`(1-u)^k` and `(1+u)^k` of the sum of the weights. -/
theorem fuse_run_rounding (F : Fmt) {al : V3 ℝ → ℝ} (hal : ∀ p, 0 ≤ al p) {s t : PC ℝ} {cs : List Call} (h : Runs F al s cs t)
    {a : Clouds ℝ} {P Q : List (T2 ℝ)} (hi : Inv s a) (hm : FusionMap a P Q) :
    ∃ a' P' Q', Inv t a' ∧ FusionMap a' P' Q' ∧
      ∀ X l, X ≠ .features → a X = some l → ∃ l', a' X = some l' ∧ ∀ b n x, vecAt l b n = some x → 0 < conf Q b n →
        ∃ x', vecAt l' b n = some x' ∧ ∀ i, let es := updates al X i cs b n; let k := (cs.filter fun c => c.rows ≠ []).length
          (1 - F.u) ^ k * total (conf Q b n) es ≤ conf Q' b n ∧ conf Q' b n ≤ (1 + F.u) ^ k * total (conf Q b n) es ∧
          |comp x' i - wsum (conf Q b n) (comp x i) es / total (conf Q b n) es| ≤
            ((1 + F.u) ^ (4 * k) / (1 - F.u) ^ k - 1) * (wsize (conf Q b n) (comp x i) es / total (conf Q b n) es) := by
  obtain ⟨a', P', Q', i', m', hv⟩ := run_track F h hi hm
  refine ⟨a', P', Q', i', m', fun X l hX hl => ?_⟩
  obtain ⟨l', hl', hv⟩ := hv X l hX hl
  refine ⟨l', hl', fun b n x hx hc => ?_⟩
  obtain ⟨x', hx', hf⟩ := hv b n x hx
  refine ⟨x', hx', fun i => ?_⟩
  intro es k
  have hk : es.length = k := by simp [es, k, updates]
  have hes : ∀ e ∈ es, 0 ≤ e.1 := by
    intro e he
    simp only [es, updates, List.mem_map] at he
    obtain ⟨c, _, rfl⟩ := he
    unfold seen
    cases hit c.rows b n with
    | none => exact le_rfl
    | some r => exact hal _
  have := track_error F (x := comp x i) hc es hes
  rw [hf i] at this
  rw [hk] at this
  exact this

/-- **C90**, points nobody looks at.  After `k` calls with matches, none of them for point `(b, n)`, its count is exactly what it was, and each
of its numbers has moved by at most the fraction `(1+u)^(3k) - 1`. -/
theorem idle_run_rounding (F : Fmt) {al : V3 ℝ → ℝ} {s t : PC ℝ} {cs : List Call} (h : Runs F al s cs t)
    {a : Clouds ℝ} {P Q : List (T2 ℝ)} (hi : Inv s a) (hm : FusionMap a P Q) :
    ∃ a' P' Q', Inv t a' ∧ FusionMap a' P' Q' ∧
      ∀ X l, X ≠ .features → a X = some l → ∃ l', a' X = some l' ∧ ∀ b n x, vecAt l b n = some x → 0 < conf Q b n → F.Has (conf Q b n) →
        (∀ c ∈ cs, hit c.rows b n = none) → conf Q' b n = conf Q b n ∧ ∃ x', vecAt l' b n = some x' ∧
          ∀ i, |comp x' i - comp x i| ≤ ((1 + F.u) ^ (3 * (cs.filter fun c => c.rows ≠ []).length) - 1) * |comp x i| := by
  obtain ⟨a', P', Q', i', m', hv⟩ := run_track F h hi hm
  refine ⟨a', P', Q', i', m', fun X l hX hl => ?_⟩
  obtain ⟨l', hl', hv⟩ := hv X l hX hl
  refine ⟨l', hl', fun b n x hx hc hr hno => ?_⟩
  obtain ⟨x', hx', hf⟩ := hv b n x hx
  have hes : ∀ i, updates al X i cs b n = List.replicate (cs.filter fun c => c.rows ≠ []).length (0, 0) := by
    intro i
    rw [updates, List.eq_replicate_iff]
    refine ⟨by simp, fun e he => ?_⟩
    simp only [List.mem_map, List.mem_filter] at he
    obtain ⟨c, ⟨hc, _⟩, rfl⟩ := he
    rw [seen, hno c hc]
  have key : ∀ (k : Nat) (y : ℝ), ((List.replicate k ((0 : ℝ), (0 : ℝ))).foldl (Cell.step F) ⟨conf Q b n, y⟩).c = conf Q b n ∧
      |((List.replicate k ((0 : ℝ), (0 : ℝ))).foldl (Cell.step F) ⟨conf Q b n, y⟩).x - y| ≤ ((1 + F.u) ^ (3 * k) - 1) * |y| := by
    intro k y
    induction k with
    | zero => simp
    | succ k ih =>
      obtain ⟨j1, j2⟩ := ih
      rw [List.replicate_succ', List.foldl_append, List.foldl_cons, List.foldl_nil]
      set p := (List.replicate k ((0 : ℝ), (0 : ℝ))).foldl (Cell.step F) ⟨conf Q b n, y⟩ with hp
      obtain ⟨g1, g2, _⟩ := idle_step F (p := p) (by rw [j1]; exact hc) (by rw [j1]; exact hr)
      refine ⟨g1.trans j1, ?_⟩
      have hu := F.u0
      have g0 : 1 ≤ (1 + F.u) ^ 3 := one_le_pow₀ (by linarith)
      have gk : 1 ≤ (1 + F.u) ^ (3 * k) := one_le_pow₀ (by linarith)
      have hp : |p.x| ≤ (1 + F.u) ^ (3 * k) * |y| := by
        have : |p.x| ≤ |p.x - y| + |y| := by
          have := abs_add_le (p.x - y) y
          simpa using this
        linarith
      calc _ = |((p.step F (0, 0)).x - p.x) + (p.x - y)| := by ring_nf
        _ ≤ ((1 + F.u) ^ 3 - 1) * |p.x| + ((1 + F.u) ^ (3 * k) - 1) * |y| := (abs_add_le _ _).trans (add_le_add g2 j2)
        _ ≤ ((1 + F.u) ^ 3 - 1) * ((1 + F.u) ^ (3 * k) * |y|) + ((1 + F.u) ^ (3 * k) - 1) * |y| :=
            add_le_add (mul_le_mul_of_nonneg_left hp (by linarith)) le_rfl
        _ = ((1 + F.u) ^ (3 * (k + 1)) - 1) * |y| := by rw [Nat.mul_succ, pow_add]; ring
  refine ⟨?_, x', hx', fun i => ?_⟩
  · have := hf 0
    rw [hes 0] at this
    have k := (key (cs.filter fun c => c.rows ≠ []).length (comp x 0)).1
    rw [this] at k; exact k
  · have := hf i
    rw [hes i] at this
    have k := (key (cs.filter fun c => c.rows ≠ []).length (comp x i)).2
    rw [this] at k; exact k
end Verif.Flt
