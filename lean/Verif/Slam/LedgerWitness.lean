import Verif.Slam.Ledger
import Verif.Slam.Witness
/-!
C85: a concrete run of `PointFusion` in which two measurements were merged.
-/
namespace Verif.Slam
open Verif Pcs

/-- Two frames with three pixels with depth each; the map has five points, so one of them was made of two measurements. -/
theorem ledger_witness : ∃ m R c led, forward gtFusion seqW = .ok (m, R) ∧ (∀ X, (getList X m).1 = some (c X)) ∧
    Ledger gtFusion inW 0 2 (fun s => R.at' 0 s) c led ∧ led.length = 5 ∧ led.flatten.length = 6 ∧ ∃ e ∈ led, 2 ≤ e.length := by
  have hrun := slam_runs.2.1
  cases h : forward gtFusion seqW with
  | error e => rw [summary, h] at hrun; cases hrun
  | ok mR =>
    obtain ⟨m, R⟩ := mR
    obtain ⟨c, hc, hlen, hled⟩ := pointfusion_ledger slam_hypotheses.2.1.1 slam_hypotheses.2.1.2 (d := _) (t := _) rfl (by decide +kernel) (by decide) h
    obtain ⟨led, hl⟩ := hled 0 (by decide)
    rw [summary, h] at hrun
    simp only [hc .points, Option.getD_some, Option.some.injEq, Prod.mk.injEq] at hrun
    have h5 : led.length = 5 := by
      rw [← hl.size, Fusion.sizeAt]
      have := hrun.2
      generalize c .points = P at this
      rcases P with _ | ⟨t, _ | _⟩ <;> simp at this ⊢
      exact this
    have h6 : led.flatten.length = 6 := by
      rw [hl.all.length_eq]; decide +kernel
    refine ⟨m, R, c, led, rfl, hc, hl, h5, h6, ?_⟩
    by_contra hno
    push Not at hno
    have : led.flatten.length ≤ led.length := by
      rw [List.length_flatten]
      calc (led.map List.length).sum ≤ (led.map List.length).length * 1 := by
            have := List.sum_le_card_nsmul (led.map List.length) 1 (fun x hx => by
              obtain ⟨e, he, rfl⟩ := List.mem_map.1 hx
              have := hno e he
              omega)
            simpa using this
        _ = led.length := by simp
    omega
end Verif.Slam
