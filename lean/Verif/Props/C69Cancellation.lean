import Verif.Proofs.Cancellation
import Verif.Props.C68Accuracy

/-!
# C69: cancellation in the differentiable norm
-/

namespace T3f

/-- **C69.** In single precision, whatever the rounding of ties and the order of the contractions, `frobenius_norm_squared(a - b, differentiable=True)` of the
tensors `a`, `b` of shape (1, 1) with the elements 11591 and 11590 is -16 (the true value is 1), and `frobenius_norm(a - b, differentiable=True)` is NaN for
every `epsilon` less than 16 (the default is 1e-5). -/
theorem C69_norm_nan {A : Arith} {rnd : ℝ → ℝ} (h : A.Single rnd) {S : Strategy} (hS : S.Valid) (sqrt : ℝ → ℝ) :
    (one11 11591).WF ∧ (one11 11590).WF ∧ ∃ t, T3f.sub (one11 11591) (one11 11590) = Except.ok t ∧
      (∃ D, full t = Except.ok D ∧ D.shape = [1, 1] ∧ D.get [0, 0] = 1) ∧
      (∃ E, frobeniusNormSquaredDiff t = Except.ok E ∧ E.shape = [] ∧ E.get [] = 1) ∧
      (∃ C, frobeniusNormSquaredDiffF ((naiveRoutines A).along S) t = Except.ok C ∧ C.shape = [] ∧ C.get [] = -16) ∧
      ∀ epsilon < 16, ∃ N, frobeniusNormDiffF ((naiveRoutines A).along S) A.add sqrt t epsilon = Except.ok N ∧ N.shape = [] ∧ N.get [] = none := by
  have w : (two11 11591 (-11590)).WF := by decide
  have hf : ∃ D, full (two11 11591 (-11590)) = Except.ok D ∧ D.shape = [1, 1] ∧ D.get [0, 0] = 1 := by
    obtain ⟨D, e, hs, hv⟩ := full_dense w
    refine ⟨D, e, hs, ?_⟩
    rw [hv [0, 0] (by rw [hs]; decide)]
    show lprod _ _ 2 0 = _
    norm_num [lprod, TT.rank, TT.slice, TT.core, TT.decode, TT.bpre, TT.isMatrix, tIdx, two11, Finset.sum_range_succ]
  refine ⟨?_, ?_, _, sub_one11 _ _, hf, ?_, ?_, ?_⟩
  · decide
  · decide
  · obtain ⟨E, B, s, h1, h2, h3, h4, h5⟩ := C13_frobenius_norm_squared_diff _ w
    obtain ⟨D, e, hs, hv⟩ := hf
    obtain rfl := Except.ok.inj (e.symm.trans h2)
    have es : s = [1, 1] := by simpa [two11, hs] using h3.symm
    subst es
    refine ⟨E, h1, h4, ?_⟩
    rw [h5 [] (by simp [two11])]
    simp [hv, unravel]
  · exact two11_negative h hS
  · intro epsilon he
    obtain ⟨D, h1, h2, h3⟩ := two11_negative h hS
    refine ⟨_, by unfold frobeniusNormDiffF; rw [h1]; rfl, h2, ?_⟩
    simp only [Tensor.map, h3]
    rw [if_pos]
    have := A.add_err (-16) epsilon
    rw [h.unit, abs_of_neg (by linarith : -16 + epsilon < 0)] at this
    have := (abs_le.1 this).2
    norm_num at this
    linarith

example : (arith32 nearest_round32).Single round32 ∧ greedy.Valid := ⟨arith32_single nearest_round32, greedy_valid⟩

/-- **C69.** If the error bound of C68 does not exceed the square of the norm plus `epsilon`, then `frobenius_norm(tt, epsilon, differentiable=True)` is
a number. -/
theorem C69_norm_number {F : FloatRoutines} {A : Arith} (hF : F.Follows A) (hu : A.u ≤ 1) (sqrt : ℝ → ℝ) {t : TT ℝ} (h : t.WF) (epsilon : ℝ) :
    ∃ N D E, frobeniusNormDiffF F A.add sqrt t epsilon = Except.ok N ∧ frobeniusNormSquaredDiff t = Except.ok D ∧ frobeniusNormSquaredDiff t.abs = Except.ok E ∧
      N.shape = t.batch.toList ∧ D.shape = t.batch.toList ∧ E.shape = t.batch.toList ∧ ∀ p, Valid t.batch.toList p →
        ((1 + A.u) ^ (∑ k ∈ Finset.range t.ndims, t.rank k ^ 2 * t.modeSize k + (t.ndims - 1)) - 1) * E.get p ≤ D.get p + epsilon → N.get p ≠ none := by
  obtain ⟨C, D, E, hC, hD, hE, sC, sE, err⟩ := C68_norm_squared hF h
  obtain ⟨D', _, _, hD', -, -, sD, -⟩ := C13_frobenius_norm_squared_diff t h
  obtain rfl := Except.ok.inj (hD.symm.trans hD')
  refine ⟨_, D, E, by unfold frobeniusNormDiffF; rw [hC]; rfl, hD, hE, sC.trans sD, sD, sE.trans sD, fun p hp hb => ?_⟩
  have e1 := (abs_le.1 (err p (sD ▸ hp))).1
  have e2 := A.add_err (C.get p) epsilon
  have e0 : 0 ≤ C.get p + epsilon := by linarith
  rw [abs_of_nonneg e0] at e2
  have e3 := (abs_le.1 e2).1
  have e4 : A.u * (C.get p + epsilon) ≤ 1 * (C.get p + epsilon) := mul_le_mul_of_nonneg_right hu e0
  simp only [Tensor.map]
  rw [if_neg (by linarith)]
  simp

example : (two11 11591 11590).WF ∧ (((naiveRoutines (arith32 nearest_round32)).along greedy).Follows (arith32 nearest_round32)) ∧
    (arith32 nearest_round32).u ≤ 1 := by
  refine ⟨by decide, C68_contraction_orders (naive_kernels _) greedy_valid, ?_⟩
  rw [(arith32_single nearest_round32).unit]
  norm_num

/-- **C69.** The differentiable norm of an object with nonnegative cores is a number for every `epsilon ≥ 0`, if the cores are not so large that
`(1 + u) ^ N` exceeds 2. -/
theorem C69_norm_nonneg {F : FloatRoutines} {A : Arith} (hF : F.Follows A) (hu : A.u ≤ 1) (sqrt : ℝ → ℝ) {t : TT ℝ} (h : t.WF) (hn : t.abs = t)
    (hN : (1 + A.u) ^ (∑ k ∈ Finset.range t.ndims, t.rank k ^ 2 * t.modeSize k + (t.ndims - 1)) ≤ 2) {epsilon : ℝ} (he : 0 ≤ epsilon) :
    ∃ N, frobeniusNormDiffF F A.add sqrt t epsilon = Except.ok N ∧ N.shape = t.batch.toList ∧ ∀ p, Valid t.batch.toList p → N.get p ≠ none := by
  obtain ⟨N, D, E, hN', hD, hE, sN, sD, sE, H⟩ := C69_norm_number hF hu sqrt h epsilon
  rw [hn] at hE
  obtain rfl := Except.ok.inj (hD.symm.trans hE)
  refine ⟨N, hN', sN, fun p hp => H p hp ?_⟩
  obtain ⟨D', B, s, hD', -, -, -, hv⟩ := C13_frobenius_norm_squared_diff t h
  obtain rfl := Except.ok.inj (hD.symm.trans hD')
  have : 0 ≤ D.get p := by rw [hv p hp]; exact Finset.sum_nonneg fun _ _ => sq_nonneg _
  nlinarith

example : (two11 11591 11590).WF ∧ (two11 11591 11590).abs = two11 11591 11590 ∧ (1 + (arith32 nearest_round32).u) ^
    (∑ k ∈ Finset.range (two11 11591 11590).ndims, (two11 11591 11590).rank k ^ 2 * (two11 11591 11590).modeSize k + ((two11 11591 11590).ndims - 1)) ≤ 2 := by
  refine ⟨by decide, ?_, ?_⟩
  · simp [TT.abs, two11, Tensor.map]
    refine funext fun i => ?_
    split_ifs <;> norm_num
  · rw [(arith32_single nearest_round32).unit]
    norm_num [TT.ndims, TT.rank, TT.modeSize, TT.modes, two11, Finset.sum_range_succ]

end T3f
