import Verif.Spec.ExamplesReal
import Mathlib.Data.Matrix.Mul

/-! # Kronecker-factorized matrices -/

namespace T3f

variable {K : Type}

/-- All TT-ranks are one and the factors are square, of sizes `I`. -/
structure IsKronecker [Zero K] (t : TT K) (I : List ℕ) : Prop where
  wf : t.WF
  rows : t.rawShape = [I, I]
  ones : ∀ r ∈ t.ttRanks, r = 1
  pos : ∀ n ∈ I, 0 < n

/-- The `k`-th Kronecker factor of the batch item `p`, of size `n`. -/
def TT.factor [Zero K] (t : TT K) (p : List ℕ) (k n : ℕ) : Matrix (Fin n) (Fin n) K :=
  Matrix.of fun i j => (t.core k).get (p ++ [0, (i : ℕ), (j : ℕ), 0])

/-- A TT object with the same data, as real numbers. -/
noncomputable def TT.toReal (t : TT ℤ) : TT ℝ :=
  ⟨t.cores.map (·.map (fun z : ℤ => (z : ℝ))), t.rawShape, t.ttRanks, t.batch⟩

/-- `[[1, 2], [2, 5]] ⊗ [[4, 2], [2, 10]]`. -/
def exKron : TT ℤ where
  cores := [.ofList [1, 2, 2, 1] [1, 2, 2, 5], .ofList [1, 2, 2, 1] [4, 2, 2, 10]]
  rawShape := [[2, 2], [2, 2]]
  ttRanks := [1, 1, 1]
  batch := none

/-- The batch of `[[1, 2], [2, 5]] ⊗ (3)` and `[[2, 1], [0, -1]] ⊗ (7)`. -/
def exKronBatch : TT ℤ where
  cores := [.ofList [2, 1, 2, 2, 1] [1, 2, 2, 5, 2, 1, 0, -1], .ofList [2, 1, 1, 1, 1] [3, 7]]
  rawShape := [[2, 1], [2, 1]]
  ttRanks := [1, 1, 1]
  batch := some 2

/-- `(-1) ⊗ (-1)`. -/
def exKronNeg : TT ℤ where
  cores := [.ofList [1, 1, 1, 1] [-1], .ofList [1, 1, 1, 1] [-1]]
  rawShape := [[1, 1], [1, 1]]
  ttRanks := [1, 1, 1]
  batch := none

theorem TT.toReal_core (t : TT ℤ) (k : ℕ) (hk : k < t.ndims) :
    t.toReal.core k = (t.core k).map (fun z : ℤ => (z : ℝ)) := by
  have hk : k < t.cores.length := hk
  simp [TT.core, TT.toReal, List.getD_eq_getElem?_getD, hk]

theorem TT.WF.toReal {t : TT ℤ} (h : t.WF) : t.toReal.WF where
  pos := by simpa [TT.toReal, TT.ndims] using h.pos
  ranks_len := by simpa [TT.toReal, TT.ndims] using h.ranks_len
  rank_first := h.rank_first
  rank_last := by simpa [TT.toReal, TT.ndims, TT.rank] using h.rank_last
  rank_pos := by simpa [TT.toReal, TT.ndims, TT.rank] using h.rank_pos
  rows := h.rows
  rows_len := by simpa [TT.toReal, TT.ndims] using h.rows_len
  core_shape := by
    intro k hk
    have hk : k < t.ndims := by simpa [TT.toReal, TT.ndims] using hk
    rw [TT.toReal_core t k hk]
    exact h.core_shape k hk
  batch_pos := h.batch_pos

theorem exKron_isKronecker : IsKronecker exKron.toReal [2, 2] :=
  ⟨TT.WF.toReal (by decide), rfl, by simp [TT.toReal, exKron], by simp⟩

theorem exKronBatch_isKronecker : IsKronecker exKronBatch.toReal [2, 1] :=
  ⟨TT.WF.toReal (by decide), rfl, by simp [TT.toReal, exKronBatch], by simp⟩

theorem exKronNeg_isKronecker : IsKronecker exKronNeg.toReal [1, 1] :=
  ⟨TT.WF.toReal (by decide), rfl, by simp [TT.toReal, exKronNeg], by simp⟩

end T3f
