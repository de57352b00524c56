import Verif.Proofs.Scalar
import Verif.Spec.ExamplesReal

/-!
# C06, C07, C08 — subtraction, negation, elementwise product, multiplication by a number
-/

namespace T3f

variable {K : Type} [CommRing K]

/-- **C08.** For every real number `c` (negative and zero included) and every well-formed object,
`multiply(a, c)` succeeds and represents `c` times the dense tensor; shape, ranks and batch size do not
change. -/
theorem C08_multiply_scalar (a : TT ℝ) (ha : a.WF) (c : ℝ) :
    ∃ t A T, multiplyScalar a c = Except.ok t ∧ t.WF ∧ t.rawShape = a.rawShape ∧
      t.ttRanks = a.ttRanks ∧ t.batch = a.batch ∧
      full a = Except.ok A ∧ full t = Except.ok T ∧
      T.shape = A.shape ∧ ∀ i, Valid A.shape i → T.get i = c * A.get i := by
  obtain ⟨t, e, w, r, bt, rk, nd, en⟩ := multiplyScalar_spec ha c
  obtain ⟨A, T, eA, eT, h1, h2⟩ := full_map (c * ·) ha w r bt (fun p m _ _ => en p m)
  exact ⟨t, A, T, e, w, r, rk, bt, eA, eT, h1, fun i hi => h2 i (h1 ▸ hi)⟩

/-- **C06, negation.** -/
theorem C06_neg (a : TT ℝ) (ha : a.WF) :
    ∃ t A T, neg a = Except.ok t ∧ t.WF ∧ t.rawShape = a.rawShape ∧
      t.ttRanks = a.ttRanks ∧ t.batch = a.batch ∧
      full a = Except.ok A ∧ full t = Except.ok T ∧
      T.shape = A.shape ∧ ∀ i, Valid A.shape i → T.get i = - A.get i := by
  obtain ⟨t, A, T, e, w, r, rk, bt, eA, eT, h1, h2⟩ := C08_multiply_scalar a ha (-1)
  exact ⟨t, A, T, e, w, r, rk, bt, eA, eT, h1, fun i hi => by rw [h2 i hi]; ring⟩

/-- **C06, subtraction.** Under the conditions of `add`, `a - b` represents the elementwise difference
(with numpy broadcasting over the batch axis). -/
theorem C06_sub (a b : TT ℝ) (ha : a.WF) (hb : b.WF) (hd : 2 ≤ a.ndims) (hr : a.rawShape = b.rawShape)
    (hbatch : AddBatches a.batch b.batch) :
    ∃ c A B C S, sub a b = Except.ok c ∧ c.WF ∧ c.rawShape = a.rawShape ∧
      full a = Except.ok A ∧ full b = Except.ok B ∧ full c = Except.ok C ∧
      binop (· - ·) A B = Except.ok S ∧ C ≃ₜ S := by
  obtain ⟨t, et, wt, rt, bt, kt, nt, vt⟩ := multiplyScalar_spec hb (-1)
  obtain ⟨c, e, w, r, bc, nd, rk, en⟩ := add_spec ha wt hd (hr.trans rt.symm) (by rw [bt]; exact hbatch)
  have hpre : t.bpre = b.bpre := by simp [TT.bpre, bt]
  rw [hpre] at bc
  obtain ⟨A, B, C, S, eA, eB, eC, eS, eqv⟩ := full_binop (· - ·) ha hb w hr r bc (by
    intro p m hp hm
    rw [en p m hp hm, vt, hpre]; ring)
  exact ⟨c, A, B, C, S, by simp [sub, et, e], w, r, eA, eB, eC, eS, eqv⟩

/-- **C07.** For well-formed operands of equal raw shape with nonzero mode sizes and compatible batch
sizes, `multiply` succeeds and represents the elementwise product (with numpy broadcasting over the batch
axis); the ranks are the products of the ranks, and the result is a batch iff one of the operands is. -/
theorem C07_multiply (a b : TT K) (ha : a.WF) (hb : b.WF) (hr : a.rawShape = b.rawShape)
    (hbatch : BCompat a.batch b.batch) (hpos : ∀ row ∈ a.rawShape, ∀ n ∈ row, 0 < n) :
    ∃ c A B C S, multiply a b = Except.ok c ∧ c.WF ∧ c.rawShape = a.rawShape ∧
      (c.isBatch = (a.isBatch || b.isBatch)) ∧
      full a = Except.ok A ∧ full b = Except.ok B ∧ full c = Except.ok C ∧
      binop (· * ·) A B = Except.ok S ∧ C ≃ₜ S ∧
      c.ttRanks.length = a.ndims + 1 ∧ ∀ k ≤ a.ndims, c.rank k = a.rank k * b.rank k := by
  have hp : ∀ k < a.ndims, 0 < (a.modes k).prod := by
    intro k hk
    rw [Nat.pos_iff_ne_zero, Ne, List.prod_eq_zero_iff]
    intro h0
    obtain ⟨row, hrow, h⟩ := List.mem_map.1 h0
    rw [List.getD_eq_getElem _ _ (by rw [ha.rows_len row hrow]; exact hk)] at h
    have := hpos row hrow _ (List.getElem_mem (by rw [ha.rows_len row hrow]; exact hk))
    omega
  obtain ⟨c, e, w, r, bo, bt, nd, rk, en⟩ := multiply_spec ha hb hr hbatch hp
  obtain ⟨A, B, C, S, eA, eB, eC, eS, eqv⟩ := full_binop (· * ·) ha hb w hr r bt en
  refine ⟨c, A, B, C, S, e, w, r, ?_, eA, eB, eC, eS, eqv, by rw [w.ranks_len, nd], rk⟩
  rw [TT.isBatch, bo, TT.isBatch, TT.isBatch]
  rcases a.batch with _ | m <;> rcases b.batch with _ | n <;> simp [mulOutBatch]
  split_ifs <;> rfl

/-- **C07, errors.** Different raw shapes, exactly one TT-matrix, or incompatible batch sizes raise
ValueError. -/
theorem C07_multiply_error (a b : TT K)
    (h : ¬ (a.isMatrix ↔ b.isMatrix) ∨ a.rawShape ≠ b.rawShape ∨ ¬ BCompat a.batch b.batch) :
    multiply a b = Except.error Err.value := by
  unfold multiply
  by_cases h1 : (a.isMatrix ↔ b.isMatrix)
  · by_cases h2 : a.rawShape = b.rawShape
    · have h3 : ¬ BCompat a.batch b.batch := by tauto
      rw [← isBroadcast_iff] at h3
      simp only [require_pos h1, require_pos h2, require_neg h3, R.ok_bind, R.error_bind]
    · simp only [require_pos h1, require_neg h2, R.ok_bind, R.error_bind]
  · simp only [require_neg h1, R.error_bind]

example : exBatch.WF ∧ exTensor.WF ∧ exBatch.rawShape = exTensor.rawShape ∧
    (∀ row ∈ exBatch.rawShape, ∀ n ∈ row, 0 < n) := by decide
example : BCompat exBatch.batch exTensor.batch ∧ BCompat exBatch1.batch exBatch.batch :=
  ⟨trivial, Or.inr (Or.inl rfl)⟩
example : ((multiply exBatch exBatch1) >>= full).map (fun F => (F.shape, F.get [1, 1, 2])) =
    Except.ok ([2, 2, 3], (7 * 1 + 8 * 2) * (3 * -1 + 4 * 7)) := by decide

example : exReal.WF ∧ 2 ≤ exReal.ndims ∧ exReal.rawShape = exReal.rawShape ∧
    AddBatches exReal.batch exReal.batch := ⟨exReal_wf, le_rfl, rfl, Or.inl ⟨rfl, rfl⟩⟩

end T3f
