import Verif.Spec.Examples
import Mathlib.Data.Real.Basic
import Mathlib.Tactic.IntervalCases

/-! # Concrete TT objects with real entries -/

namespace T3f

/-- A real tensor for the examples. -/
noncomputable def exReal : TT ℝ where
  cores := exTensor.cores.map (·.map (fun z : ℤ => (z : ℝ)))
  rawShape := [[2, 3]]
  ttRanks := [1, 2, 1]
  batch := none

theorem exReal_wf : exReal.WF where
  pos := by simp [exReal, exTensor, TT.ndims]
  ranks_len := by simp [exReal, exTensor, TT.ndims]
  rank_first := rfl
  rank_last := rfl
  rank_pos := by
    intro k hk
    have : k ≤ 2 := hk
    interval_cases k <;> decide
  rows := by simp [exReal]
  rows_len := by simp [exReal, exTensor, TT.ndims]
  core_shape := by
    intro k hk
    have : k < 2 := hk
    interval_cases k <;> rfl
  batch_pos := by simp [exReal]

end T3f
