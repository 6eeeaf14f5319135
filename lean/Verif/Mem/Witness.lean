import Verif.Mem.Sharing
import Mathlib.Algebra.Order.Ring.Rat
/-!
Concrete programs: the hypotheses of C81/C82 are met, and the copies that are none.
-/
namespace Verif.Mem
open Verif Verif.Pcs

/-- The empty memory. -/
def m0 : Mem ℚ := ⟨0, fun _ => ⟨.cpu, [], [], []⟩⟩
/-- `t = torch.tensor([[[1., 2., 3.]]])`. -/
def cellA : Cell ℚ := ⟨.cpu, [⟨[[1, 2, 3]], 3⟩], [], []⟩
/-- Something else to write into it. -/
def cellB : Cell ℚ := ⟨.cpu, [⟨[[7, 7, 7]], 3⟩], [], []⟩
def wA : World ℚ := ⟨m0.alloc 1 fun _ => cellA, [], [(0, 0)]⟩
def argA : Attr → Option Nat
  | .points => some 0
  | _ => none
/-- `pcs = Pointclouds(t)`. -/
def objA : Obj := ⟨fun _ => none, argA, none, 1, fun _ => none, some true, 1, 1, .cpu⟩
def wB : World ℚ := ⟨(newTensor wA.mem argA 0 none).2, [(0, objA)], [(0, 0)]⟩

theorem reachA : Reach wA := .step (.start m0 rfl) (.tensor ⟨m0, [], []⟩ 0 cellA)

theorem newTensorA : newTensor wA.mem argA 0 none = (.ok objA, (newTensor wA.mem argA 0 none).2) := by
  refine Prod.ext ?_ rfl
  have h : Pcs.newTensor (fun X => (argA X).map fun r => (wA.mem.cell r).vals) (wA.mem.cell 0).vals =
      .ok ⟨fun _ => none, fun X => if X = .points then some (wA.mem.cell 0).vals else (argA X).map fun r => (wA.mem.cell r).vals, none,
        fun _ => none, [1], some true, 1, 1⟩ := rfl
  unfold newTensor
  rw [h]
  simp only [Option.getD_none, Except.ok.injEq]
  rw [each_keep (p := Pass.to (wA.mem.cell 0).dev) (m := wA.mem) (a := argA) fun X r e => by
    cases X <;> simp [argA] at e
    subst e; simp [Pass.to]]
  rfl

theorem reachB : Reach wB := by
  refine .step reachA (.fromTensor wA 0 argA 0 none (newTensor wA.mem argA 0 none).2 objA rfl ?_ newTensorA)
  rintro r ⟨X, x, hx, hr⟩
  cases X <;> simp [argA] at hx
  subst hx
  simp only [oneRefs] at hr
  subst hr
  simp [wA]

/-- What a function that makes an object returned. -/
def made (r : Except Err Obj) : Obj := match r with
  | .ok c => c
  | .error _ => objA
def madeTo (r : Except Err Moved) : Obj := match r with
  | .ok (.new c) => c
  | _ => objA

theorem made_spec {r : Except Err Obj} (h : r.isOk = true) : r = .ok (made r) := by
  cases r with
  | error => simp [Except.isOk, Except.toBool] at h
  | ok c => rfl

/-- `clone()` in this state succeeds, and the copy can be put into family 1: the hypotheses of `clone_independent` are met. -/
example : ∃ c, (Mem.clone wB.mem objA).1 = .ok c ∧ wB.objs[0]? = some (0, objA) ∧ Reach wB ∧ (val wB.mem objA).pad .points = some [⟨[[1, 2, 3]], 3⟩] :=
  ⟨made (Mem.clone wB.mem objA).1, made_spec (by decide +kernel), rfl, reachB, by decide +kernel⟩

/-- The world after `other = pcs.to(a, copy=True)`, then `other.points_padded[:] = 7`. -/
def afterTo (a : DevArg) : World ℚ :=
  ⟨(toDevice 0 a true wB.mem objA).2.1, wB.objs.set 0 (0, (toDevice 0 a true wB.mem objA).2.2) ++
    [((if a.same objA.dev then 1 else 0 : Nat), madeTo (toDevice 0 a true wB.mem objA).1)], wB.held⟩

/-- The storage of `other.points_padded`. -/
def otherPoints (a : DevArg) : Nat := ((madeTo (toDevice 0 a true wB.mem objA).1).pad .points).getD 0

theorem reachTo (a : DevArg) (h : a = .exact .cpu ∨ a = .name .cpu) : Reach (afterTo a) := by
  refine .step reachB (.moved wB 0 a true 0 0 (if a.same objA.dev then 1 else 0) objA _ rfl ?_ ?_)
  · rcases h with rfl | rfl
    · have : ∀ r : Except Err Moved, (match r with | .ok (.new _) => true | _ => false) = true → r = .ok (.new (madeTo r)) := by
        rintro (_ | _ | _) h
        · simp at h
        · simp at h
        · rfl
      exact this _ (by decide +kernel)
    · have : ∀ r : Except Err Moved, (match r with | .ok (.new _) => true | _ => false) = true → r = .ok (.new (madeTo r)) := by
        rintro (_ | _ | _) h
        · simp at h
        · simp at h
        · rfl
      exact this _ (by decide +kernel)
  · rcases h with rfl | rfl
    · exact .inr (.inl (by decide))
    · exact .inl (by decide)

/-- **`to` with `copy=True` need not return a copy.**  "If copy = True … the returned tensor is a copy of self": with the device given as the
string "cpu", writing into the padded points of the result changes the padded points of the original. -/
theorem to_copy_refuted : ∃ (w w' : World ℚ) (r : Nat) (o c : Obj) (c' : Cell ℚ),
    Reach w ∧ w.objs = [(0, o), (0, c)] ∧
    (∃ w0 : World ℚ, Reach w0 ∧ w0.objs = [(0, objA)] ∧ (toDevice 0 (.name .cpu) true w0.mem objA).1 = .ok (.new c)) ∧
    c.pad .points = some r ∧ w' = ⟨w.mem.poke r c', w.objs, w.held⟩ ∧
    (val w.mem o).pad .points = some [⟨[[1, 2, 3]], 3⟩] ∧ (val w'.mem o).pad .points = some [⟨[[7, 7, 7]], 3⟩] := by
  refine ⟨afterTo (.name .cpu), _, otherPoints (.name .cpu), (toDevice 0 (.name .cpu) true wB.mem objA).2.2,
    madeTo (toDevice 0 (.name .cpu) true wB.mem objA).1, cellB, reachTo _ (.inr rfl), rfl, ⟨wB, reachB, rfl, ?_⟩, by decide +kernel, rfl,
    by decide +kernel, by decide +kernel⟩
  have : ∀ r : Except Err Moved, (match r with | .ok (.new _) => true | _ => false) = true → r = .ok (.new (madeTo r)) := by
    rintro (_ | _ | _) h
    · simp at h
    · simp at h
    · rfl
  exact this _ (by decide +kernel)

/-- With the device given as `torch.device("cpu")` the result is a copy. -/
theorem to_copy_exact : (val ((afterTo (.exact .cpu)).mem.poke (otherPoints (.exact .cpu)) cellB) objA).pad .points = some [⟨[[1, 2, 3]], 3⟩] ∧
    (val ((afterTo (.exact .cpu)).mem.poke (otherPoints (.exact .cpu)) cellB) (madeTo (toDevice 0 (.exact .cpu) true wB.mem objA).1)).pad .points =
      some [⟨[[7, 7, 7]], 3⟩] := by decide +kernel

/-- **`cuda()` on an object that is on the GPU already does not return the object** ("then self is returned"). -/
theorem cuda_not_self : ∃ (m : Mem ℚ) (o : Obj), o.dev = .gpu 0 ∧ Ok m o ∧ Uni m o ∧ (toDevice 0 .anyGpu false m o).1 ≠ .ok .self := by
  refine ⟨(newEmpty m0 (.gpu 0)).1, (newEmpty m0 (.gpu 0)).2, rfl, ?_, (newEmpty_fresh m0 _).2, ?_⟩
  · exact fun r hr => ((newEmpty_fresh m0 (.gpu 0)).1.own r hr).elim (fun h => h.elim) fun h => h.2
  · intro h
    have : (match (toDevice 0 .anyGpu false (newEmpty m0 (.gpu 0)).1 (newEmpty m0 (.gpu 0)).2).1 with | .ok .self => true | _ => false) = true := by
      rw [h]
    revert this
    decide +kernel

/-- **Writes are not seen across representations.**  An object made of a list whose padded points have been read: writing into
`points_list[0]` does not change `points_padded` … -/
def objL : Obj := ⟨fun | .points => some [⟨0, 0, 1⟩] | _ => none, fun _ => none, none, 1, fun _ => none, some true, 1, 1, .cpu⟩
def memL : Mem ℚ := wA.mem.alloc 1 fun _ => ⟨.cpu, [], [], [1]⟩

theorem write_stale : ∃ (m : Mem ℚ) (o : Obj), Ok m o ∧
    (val m (getPad .points m o).2.2).lst .points = some [⟨[[1, 2, 3]], 3⟩] ∧
    (val ((getPad .points m o).2.1.poke 0 cellB) (getPad .points m o).2.2).lst .points = some [⟨[[7, 7, 7]], 3⟩] ∧
    (val ((getPad .points m o).2.1.poke 0 cellB) (getPad .points m o).2.2).pad .points = some [⟨[[1, 2, 3]], 3⟩] := by
  refine ⟨memL, objL, ?_, by decide +kernel, by decide +kernel, by decide +kernel⟩
  rintro r (h | h | ⟨X, h⟩ | ⟨X, l, h, v, hv, rfl⟩)
  · subst h; decide
  · simp [objL] at h
  · simp [objL] at h
  · cases X <;> simp [objL] at h
    subst h
    simp only [List.mem_singleton] at hv
    subst hv
    decide

/-- … while the list of an object made of a padded tensor is a view of the tensor: a write into one is seen in the other. -/
theorem write_seen : (val (wB.mem.poke 0 cellB) (getList .points wB.mem objA).2).lst .points = some [⟨[[7, 7, 7]], 3⟩] ∧
    (val (wB.mem.poke 0 cellB) (getList .points wB.mem objA).2).pad .points = some [⟨[[7, 7, 7]], 3⟩] := by decide +kernel

/-- A program working on the copy: `pcs2 = pcs.clone(); t2 = pcs2.points_padded; t2[:] = 7`.  The object in family 0 is as before. -/
example : ∃ w1 w2 : World ℚ, Reach w1 ∧ WorksOn 1 w1 w2 ∧ w1.objs.length = 2 ∧
    (w2.objs.map fun p => (p.1, (val w2.mem p.2).pad .points)) =
      [(0, some [⟨[[1, 2, 3]], 3⟩]), (1, some [⟨[[7, 7, 7]], 3⟩])] := by
  have s1 := Step.clone wB 0 0 1 objA _ rfl (made_spec (r := (Mem.clone wB.mem objA).1) (by decide +kernel))
  have hc : Holds (made (Mem.clone wB.mem objA).1) (((made (Mem.clone wB.mem objA).1).pad .points).getD 0) :=
    .inr (.inr (.inl ⟨.points, by decide +kernel⟩))
  generalize he : (⟨(Mem.clone wB.mem objA).2.1, wB.objs.set 0 (0, (Mem.clone wB.mem objA).2.2) ++ [(1, made (Mem.clone wB.mem objA).1)], wB.held⟩ :
    World ℚ) = w1 at s1
  have h1 : w1.objs[1]? = some (1, made (Mem.clone wB.mem objA).1) := by rw [← he]; rfl
  have s2 := Step.grab w1 1 1 _ _ h1 hc
  have s3 := Step.write ⟨w1.mem, w1.objs, w1.held ++ [(1, ((made (Mem.clone wB.mem objA).1).pad .points).getD 0)]⟩ 1 _ cellB
    (List.mem_append_right _ (List.mem_singleton.2 rfl))
  refine ⟨w1, _, .step reachB s1, ((Relation.ReflTransGen.refl).tail (.inr ⟨[1], s2, ?_⟩)).tail (.inl s3), ?_, ?_⟩
  · rw [← he]; rfl
  · subst he
    decide +kernel
  · intro i hi g o hg
    simp only [List.mem_singleton] at hi
    subst hi
    rw [h1] at hg
    simp only [Option.some.injEq, Prod.mk.injEq] at hg
    exact hg.1.symm
end Verif.Mem
