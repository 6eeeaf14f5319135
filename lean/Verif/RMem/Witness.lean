import Verif.RMem.Sharing
import Mathlib.Algebra.Order.Ring.Rat
/-! Concrete programs: the hypotheses of C83/C84 are met, and the copies that are none. -/
namespace Verif.RMem
open Verif

/-- A colour image of one pixel. -/
def cRgb : Cell ℚ := ⟨.cpu, .ofImg ⟨⟨1, 1, 1, 1, 3⟩, fun _ _ _ _ _ => 1⟩⟩
/-- A depth image of one pixel, at depth `d`. -/
def contD (d : ℚ) : Cont ℚ := .ofImg ⟨⟨1, 1, 1, 1, 1⟩, fun _ _ _ _ _ => d⟩
/-- Intrinsics, on some device. -/
def cK (d : Dev) : Cell ℚ := ⟨d, ⟨⟨⟨0, 0, 0, 0, 0⟩, fun _ _ _ _ _ => 0⟩, ⟨1, 1, fun _ _ => M4.one⟩, noImg⟩⟩

/-- `rgb, depth, K, K2 = …`; `K2` is on the GPU. -/
def cells : Nat → Cell ℚ
  | 0 => cRgb
  | 1 => ⟨.cpu, contD 5⟩
  | 2 => cK .cpu
  | _ => cK (.gpu 0)

def memA : Mem ℚ := ⟨4, fun r => cells r⟩
def argsA : Args := ⟨⟨0, []⟩, ⟨1, []⟩, ⟨2, []⟩, none, none⟩

/-- What a function that makes an object returned. -/
def dummy : Obj := ⟨fun _ => ⟨0, []⟩, fun _ => none, none, false, ⟨0, 0, 0, 0, 0⟩, none, 0, 0, 0, 0, .cpu⟩
def made (r : Except Rgbd.Err Obj) : Obj := match r with
  | .ok c => c
  | .error _ => dummy
def madeTo (r : Except Rgbd.Err Moved) : Obj := match r with
  | .ok (.new c) => c
  | _ => dummy
theorem made_spec {r : Except Rgbd.Err Obj} (h : r.isOk = true) : r = .ok (made r) := by
  cases r with
  | error => simp [Except.isOk, Except.toBool] at h
  | ok c => rfl
theorem madeTo_spec {r : Except Rgbd.Err Moved} (h : (match r with | .ok (.new _) => true | _ => false) = true) : r = .ok (.new (madeTo r)) := by
  rcases r with _ | _ | _
  · simp at h
  · simp at h
  · rfl

/-- `frames = RGBDImages(rgb, depth, K)`. -/
def objA : Obj := made (new memA argsA false none).1
def memB : Mem ℚ := (new memA argsA false none).2

/-- The four tensors. -/
def wT : World ℚ := ⟨memA, [], [(0, 0), (0, 1), (0, 2), (0, 3)]⟩
/-- … and the object. -/
def wB : World ℚ := ⟨memB, [(0, objA)], wT.held⟩

theorem newA : new memA argsA false none = (.ok objA, memB) := Prod.ext (made_spec (by decide +kernel)) rfl

/-- The four tensors made one after the other. -/
theorem reachT : ∃ m, Reach (⟨m, [], wT.held⟩ : World ℚ) ∧ m.next = 4 ∧ m.cell = memA.cell := by
  have a0 : Reach (⟨⟨0, fun r => cells r⟩, [], []⟩ : World ℚ) := .start _ rfl
  have a1 := Reach.step a0 (.tensor _ 0 (cells 0))
  have a2 := Reach.step a1 (.tensor _ 0 (cells 1))
  have a3 := Reach.step a2 (.tensor _ 0 (cells 2))
  have a4 := Reach.step a3 (.tensor _ 0 (cells 3))
  refine ⟨_, a4, rfl, ?_⟩
  funext r
  simp only [Mem.alloc, memA]
  rcases r with _ | _ | _ | r
  · rfl
  · rfl
  · rfl
  · have : ¬(r + 3 < 3) := by omega
    simp [cells]

theorem reachA : Reach wT := by
  obtain ⟨m, h, h1, h2⟩ := reachT
  have : m = memA := by
    rcases m with ⟨n, c⟩
    simp only at h1 h2
    subst h1 h2
    rfl
  rw [this] at h
  exact h

theorem reachB : Reach wB := .step reachA (.new wT 0 argsA false none memB objA (by simp [Args.list, argsA, refs, wT]) newA)

theorem honestB : Honest wB := honest_kept (w := wT) (e := .call [] argsA.list) reachA (by simp [Honest, wT])
  (.new wT 0 argsA false none memB objA (by simp [Args.list, argsA, refs, wT]) newA) (by simp)

/-- The hypotheses of the theorems are met: a reachable, honest state with an object that can be cloned, whose depth is 5. -/
example : Reach wB ∧ Honest wB ∧ wB.objs[0]? = some (0, objA) ∧ (clone wB.mem objA).1 = .ok (made (clone wB.mem objA).1) ∧
    (val wB.mem objA).depth.at' 0 0 0 0 0 = 5 ∧ (val wB.mem objA).rgb.sh = ⟨1, 1, 1, 1, 3⟩ :=
  ⟨reachB, honestB, rfl, made_spec (by decide +kernel), by decide +kernel, by decide +kernel⟩

/-! ### `to(own device, copy=True)` -/

/-- `other = frames.to("cpu", copy=True)`. -/
def other : Obj := madeTo (toDevice 0 (.name .cpu) true memB objA).1
def memC : Mem ℚ := (toDevice 0 (.name .cpu) true memB objA).2
def wC : World ℚ := ⟨memC, [(0, objA), (0, other)], wT.held⟩

theorem toC : toDevice 0 (.name .cpu) true wB.mem objA = (.ok (.new other), memC) := Prod.ext (madeTo_spec (by decide +kernel)) rfl

theorem reachC : Reach wC := .step reachB (.moved wB 0 (.name .cpu) true 0 0 0 objA other memC rfl toC (.inl rfl))

/-- **`to` with `copy=True` on the object's device does not return a copy** ("If copy = True … the returned tensor is a copy of self"): writing 7 into the
depth image of the result changes the depth image of the original. -/
theorem to_copy_refuted : ∃ (w0 w w' : World ℚ) (o c : Obj) (cur : Nat) (a : DevArg), Reach w0 ∧ Honest w0 ∧ w0.objs = [(0, o)] ∧
    toDevice cur a true w0.mem o = (.ok (.new c), w.mem) ∧ Reach w ∧ w.objs = [(0, o), (0, c)] ∧
    w' = ⟨w.mem.poke (c.base .depth).ref (contD 7), w.objs, w.held⟩ ∧
    (val w.mem o).depth.at' 0 0 0 0 0 = 5 ∧ (val w'.mem o).depth.at' 0 0 0 0 0 = 7 :=
  ⟨wB, wC, _, objA, other, 0, .name .cpu, reachB, honestB, rfl, toC, reachC, rfl, rfl, by decide +kernel, by decide +kernel⟩

/-! ### Writes into tensors are not noticed by the caches -/

/-- `frames.vertex_map`. -/
def objV : Obj := (getVertex (1 / 1000) memB objA).2.2
def memV : Mem ℚ := (getVertex (1 / 1000) memB objA).2.1

/-- **Writing into the depth image in place leaves the cached vertex map as it was** (setting `depth_image` would drop it): the caller writes 7 into the
tensor the object was made of. -/
theorem write_stale : ∃ w w' : World ℚ, Reach w ∧ w.objs = [(0, objV)] ∧ Step w (.write 0) w' ∧ w'.objs = [(0, objV)] ∧
    (val w'.mem objV).depth.at' 0 0 0 0 0 = 7 ∧
    ((val w'.mem objV).vertex.map fun t => t.at' 0 0 0 0 2) = some 5 := by
  have s := Step.method wB 0 0 objA _ _ rfl (Method.vertex (1 / 1000 : ℚ))
  have s2 := Step.write (⟨memV, [(0, objV)], wT.held⟩ : World ℚ) 0 1 (contD 7) (by simp [wT])
  refine ⟨⟨memV, [(0, objV)], wT.held⟩, _, .step reachB s, rfl, s2, rfl, by decide +kernel, by decide +kernel⟩

/-! ### Taking an object apart -/

/-- `frames.intrinsics = K2`, which is on the GPU. -/
def objK : Obj := (setK ⟨3, []⟩ memB objA).2

/-- **A setter accepts a tensor on another device; the object still names its old device, and then it can neither be cloned nor indexed nor moved, and
its vertex map cannot be computed.** -/
theorem taken_apart : ∃ w : World ℚ, Reach w ∧ w.objs = [(0, objK)] ∧ (setK ⟨3, []⟩ memB objA).1 = .ok () ∧ objK.dev = .cpu ∧
    w.mem.dev (objK.base .intrinsics) = .gpu 0 ∧ (clone w.mem objK).1 = .error .valueError ∧
    (getitem (.int 0) w.mem objK).1 = .error .valueError ∧ (cuda 0 w.mem objK).1 = .error .valueError ∧ (cpu 0 w.mem objK).1 = .ok .self ∧
    (getVertex (1 / 1000) w.mem objK).1 = .error .runtimeError := by
  have s := Step.assign wB 0 0 objA (some ⟨3, []⟩) _ _ rfl (Setter.intrinsics ⟨3, []⟩) (by simp [refs, wB, wT])
  have hr : Reach (⟨memB, [(0, objK)], wT.held⟩ : World ℚ) := .step reachB s
  have isErr : ∀ {β : Type} (r : Except Rgbd.Err β), (match r with | .error .valueError => true | _ => false) = true → r = .error .valueError := by
    intro β r h
    rcases r with e | _
    · rcases e <;> simp at h ⊢
    · simp at h
  have isRun : ∀ {β : Type} (r : Except Rgbd.Err β), (match r with | .error .runtimeError => true | _ => false) = true → r = .error .runtimeError := by
    intro β r h
    rcases r with e | _
    · rcases e <;> simp at h ⊢
    · simp at h
  have isSelf : ∀ r : Except Rgbd.Err Moved, (match r with | .ok .self => true | _ => false) = true → r = .ok .self := by
    intro r h
    rcases r with e | c
    · simp at h
    · rcases c with _ | c
      · rfl
      · simp at h
  exact ⟨⟨memB, [(0, objK)], wT.held⟩, hr, rfl, by decide +kernel, by decide +kernel, by decide +kernel, isErr _ (by decide +kernel),
    isErr _ (by decide +kernel), isErr _ (by decide +kernel), isSelf _ (by decide +kernel), isRun _ (by decide +kernel)⟩

/-! ### Working with a copy -/

/-- `copy = frames.clone()`, of family 1; then the caller writes 7 into `copy.depth_image`: the object of family 0 is as before. -/
example : ∃ w1 w2 : World ℚ, Reach w1 ∧ WorksOn 1 w1 w2 ∧
    (w2.objs.map fun p => (p.1, (val w2.mem p.2).depth.at' 0 0 0 0 0)) = [(0, 5), (1, 7)] := by
  have s1 := Step.clone wB 0 0 1 objA (made (clone memB objA).1) (clone memB objA).2 rfl (Prod.ext (made_spec (by decide +kernel)) rfl)
  have hc : Holds (made (clone memB objA).1) ((made (clone memB objA).1).base .depth).ref := .inl ⟨.depth, rfl⟩
  generalize he : (⟨(clone memB objA).2, wB.objs ++ [(1, made (clone memB objA).1)], wB.held⟩ : World ℚ) = w1 at s1
  have h1 : w1.objs[1]? = some (1, made (clone memB objA).1) := by rw [← he]; rfl
  have s2 := Step.grab w1 1 1 _ _ h1 hc
  have s3 := Step.write ⟨w1.mem, w1.objs, w1.held ++ [(1, ((made (clone memB objA).1).base .depth).ref)]⟩ 1 _ (contD 7)
    (List.mem_append_right _ (List.mem_singleton.2 rfl))
  refine ⟨w1, _, .step reachB s1, ((Relation.ReflTransGen.refl).tail (.inr ⟨[1], [], s2, ?_⟩)).tail (.inl s3), ?_⟩
  · subst he
    decide +kernel
  · intro i hi g o hg
    simp only [List.mem_singleton] at hi
    subst hi
    rw [h1] at hg
    simp only [Option.some.injEq, Prod.mk.injEq] at hg
    exact hg.1.symm
end Verif.RMem
