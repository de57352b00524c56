import Verif.Props.C22Batch
import Verif.Proofs.DescribedBatch

/-!
# C22: which weights `multiply_along_batch_dim` accepts
-/

namespace T3f

variable {K : Type} [CommRing K]

/-- **C22, exactly which calls succeed.** For objects with at least two cores, `multiply_along_batch_dim` accepts batches with one weight per element, given by a vector, or with a vector of
one weight. Other sizes, numbers (0-d weights), matrices and larger arrays of weights, and objects that are no batches raise. -/
theorem C22_multiply_iff {t : TT K} (h : t.WF) (hd : 2 ≤ t.ndims) (w : Tensor K) :
    (∃ c, multiplyAlongBatchDim t w = Except.ok c) ↔ ∃ n, t.batch = some n ∧ (w.shape = [n] ∨ w.shape = [1]) := by
  constructor
  · rintro ⟨c, e⟩
    have e' := e
    simp only [multiplyAlongBatchDim, bind_ok_iff] at e
    obtain ⟨w', hw', c0, hc0, c0', hb, e⟩ := e
    cases hbt : t.batch with
    | none => rw [hbt] at e; cases e
    | some n =>
      refine ⟨n, rfl, ?_⟩
      rw [hbt] at e
      have hy := binop_axes hb
      obtain ⟨hwl, hw0⟩ := expandWeights_axes hw'
      have hd1 : 1 < t.cores.length := hd
      have hax : ∀ k < t.ndims, (t.core k).shape.length = t.rawShape.length + 3 := fun k hk => by
        rw [h.core_shape k hk, TT.bpre, hbt]
        simp [TT.modes]
      rw [h.pyCore h.pos] at hc0
      cases hc0
      rw [hax 0 h.pos, hwl] at hy
      have hsame := mkBatch_same_axes e 1 (by simpa using hd1)
      have h1 : ((t.cores.set 0 c0').getD 1 default).shape.length = t.rawShape.length + 3 := by
        rw [← hax 1 hd1, TT.core, List.getD_eq_getElem _ _ (by simpa using hd1), List.getElem_set_ne (by omega), List.getD_eq_getElem _ _ hd1]
      rw [h1, getD_set_self _ _ _ _ (by omega), hy] at hsame
      have hw1 : w.shape.length = 1 := by
        have := h.rows
        split_ifs at hsame with hM
        · have h2 : t.rawShape.length = 2 := hM
          omega
        · have h2 : t.rawShape.length ≠ 2 := hM
          omega
      obtain ⟨u, hu⟩ := List.length_eq_one_iff.1 hw1
      by_contra hne
      rw [hu] at hne
      simp only [List.cons.injEq, and_true, not_or] at hne
      rw [C22_multiply_mismatch h hbt w hu hne.1 hne.2] at e'
      cases e'
  · rintro ⟨n, hb, hw⟩
    obtain ⟨c, hc, -⟩ := multiplyAlongBatchDim_spec h hb w hw
    exact ⟨c, hc⟩

/-- **C22, finding.** The number of axes of the weights is not checked, and for objects with one core the constructor does not find out: a batch of two vectors of length two with one core
accepts weights of shape `[2, 1, 1]`, and the result is an object with shape `[2]` whose only core has six axes. -/
theorem C22_multiply_finding : ∃ t : TT ℤ, t.WF ∧ t.batch = some 2 ∧ t.rawShape = [[2]] ∧
    ∃ c, multiplyAlongBatchDim t (.ofList [2, 1, 1] [3, 5]) = Except.ok c ∧ c.rawShape = [[2]] ∧ c.batch = some 2 ∧
      c.cores.map (fun x => x.shape) = [[2, 1, 2, 1, 2, 1]] :=
  ⟨⟨[.ofList [2, 1, 2, 1] [1, 2, 3, 4]], [[2]], [1, 1], some 2⟩, by decide, rfl, rfl, _, rfl, rfl, rfl, rfl⟩

example : exBatch.WF ∧ 2 ≤ exBatch.ndims ∧ exBatch.batch = some 2 := by decide
example : multiplyAlongBatchDim exBatch (.ofList [2, 1] [1, 1]) = Except.error Err.value := by rfl
example : multiplyAlongBatchDim exBatch (.ofList [] [1]) = Except.error Err.tf := by rfl

end T3f
