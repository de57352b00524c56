import Verif.Proofs.CostForms
import Verif.Proofs.Paths
import Verif.Props.C11Inner

/-!
# C66: the documented complexity of inner products
-/

namespace T3f

variable {K : Type} [CommRing K]

/-- There are strategies that are never beaten, for example the exhaustive search over all orders. -/
theorem C66_best_order : ∃ S : Strategy, S.Within 1 := exists_best

/-- The default strategy contracts all operands. -/
theorem C66_greedy_valid : greedy.Valid := greedy_valid

/-- Contracting the operands two at a time, in whatever order the strategy chooses, gives the tensor the einsum string stands for. -/
theorem C66_order_result {S : Strategy} (hS : S.Valid) {spec : List (List Char) × List Char} {ops : List (Tensor K)} {C : Tensor K}
    (h : einsum spec ops = Except.ok C) :
    alongPath einsum spec.2 (S (lookupLabel (einDims spec.1 ops)) spec.1 spec.2) spec.1 ops = Except.ok C := alongPath_einsum h (hS _ _ _)

/-- Three operands; the greedy order contracts the first two first. The other order gives the same vector. -/
example : greedy (fun _ => 2) (ein! "a,aib,b->i").1 (ein! "a,aib,b->i").2 = [(0, 1), (0, 1)] ∧
    (alongPath einsum (ein! "a,aib,b->i").2 [(1, 2), (0, 1)] (ein! "a,aib,b->i").1
      [(⟨[2], fun i => (i.getD 0 0 : ℤ) + 1⟩ : Tensor ℤ), ⟨[2, 2, 2], fun i => (i.getD 0 0 + 2 * i.getD 1 0 + 4 * i.getD 2 0 : ℤ)⟩,
        ⟨[2], fun i => 3 - (i.getD 0 0 : ℤ)⟩]).toOption.map (fun C => (C.shape, C.get [0], C.get [1])) = some ([2], 34, 64) := by decide +kernel

/-- Counting does not change the results and the errors, whatever the arguments and the strategy. -/
theorem C66_values (S : Strategy) (a b c : TT K) :
    (flatInnerC S a b).value = flatInner a b ∧ (bilinearFormC S a b c).value = bilinearForm a b c ∧
      (pairwiseFlatInnerC S a b).value = pairwiseFlatInner a b ∧ (gramMatrixC S a).value = gramMatrix a ∧
      (pairwiseFlatInnerMatrixC S a b c).value = pairwiseFlatInnerMatrix a b c :=
  ⟨value_flatInnerC S a b, value_bilinearFormC S a b c, value_pairwiseFlatInnerC S a b, value_pairwiseFlatInnerC S a a,
    value_pairwiseFlatInnerMatrixC S a b c⟩

example : (flatInnerC greedy exTensor exTensor).run.toOption.map Prod.snd = some 24 := by decide +kernel
example : (flatInnerC greedy exTensor exMatrix).run.toOption = none := by decide +kernel

/-- The number of multiplications of `flat_inner`: with a strategy that needs at most `κ` times as many multiplications as the best order it is at most
`2 κ batch_size d r1 r2 n max(r1, r2)`, where `r1`, `r2` bound the TT-ranks and `n` the sizes of the modes (of a TT-matrix: the products of the row and
column modes). -/
theorem C66_flat_inner {S : Strategy} {κ : ℕ} (hS : S.Within κ) {a b : TT K} (ha : a.WF) (hb : b.WF) (hr : a.rawShape = b.rawShape)
    (hc : BCompat a.batch b.batch) {r1 r2 n : ℕ} (h1 : ∀ k ≤ a.ndims, a.rank k ≤ r1) (h2 : ∀ k ≤ b.ndims, b.rank k ≤ r2)
    (hn : ∀ k < a.ndims, (a.modes k).prod ≤ n) :
    ∃ T c, (flatInnerC S a b).run = Except.ok (T, c) ∧ flatInner a b = Except.ok T ∧
      c ≤ 2 * κ * ((bcast a.batch b.batch).getD 1 * a.ndims * r1 * r2 * n * max r1 r2) := by
  have p1 : 1 ≤ r1 := by have := h1 0 (by omega); rwa [ha.rank_first] at this
  set B := (bcast a.batch b.batch).getD 1 with hB
  have hm1 := le_max_left r1 r2
  have hm2 := le_max_right r1 r2
  obtain ⟨T, c, e, v, hc'⟩ := flatInnerC_le S ha hb hr hc h1 h2 hn (κ * (B * (2 * (r1 * r2 * n * max r1 r2)))) (by
      intro spec ops hl m x y hm hx hy hcost
      refine (within_cost hS spec ops [(0, 1)] (by rw [hl]; exact ⟨by omega, by omega, rfl⟩)).trans ?_
      rw [hcost]
      refine Nat.mul_le_mul_left _ (Nat.mul_le_mul_left _ ?_)
      calc m * x * y ≤ n * r1 * r2 := by gcongr
        _ = r1 * r2 * n * 1 := by ring
        _ ≤ r1 * r2 * n * max r1 r2 := by gcongr; omega
        _ ≤ _ := by omega) (by
      intro spec ops hl m x y x' y' hm hx hy hx' hy' hcost _ _
      refine (within_cost hS spec ops [(0, 1), (0, 1)] (by rw [hl]; exact ⟨by omega, by omega, by omega, by omega, rfl⟩)).trans ?_
      rw [hcost]
      refine Nat.mul_le_mul_left _ (Nat.mul_le_mul_left _ ?_)
      calc x * y * m * x' + y * m * x' * y' ≤ r1 * r2 * n * max r1 r2 + r2 * n * r1 * max r1 r2 := by
            gcongr
            · exact hx'.trans hm1
            · exact hy'.trans hm2
        _ = _ := by ring)
  refine ⟨T, c, e, v, hc'.trans (le_of_eq ?_)⟩
  ring

example : exTensor.WF ∧ exTensor'.WF ∧ exTensor.rawShape = exTensor'.rawShape ∧
    (∀ k ≤ exTensor.ndims, exTensor.rank k ≤ 2) ∧ (∀ k ≤ exTensor'.ndims, exTensor'.rank k ≤ 1) ∧
    (∀ k < exTensor.ndims, (exTensor.modes k).prod ≤ 3) := by decide
example : BCompat exTensor.batch exTensor'.batch := by simp [exTensor, exTensor', BCompat]

/-- Whatever the order, the number of multiplications is at most `2 batch_size d r1² r2² n`. -/
theorem C66_flat_inner_any_order {S : Strategy} (hS : S.Valid) {a b : TT K} (ha : a.WF) (hb : b.WF) (hr : a.rawShape = b.rawShape)
    (hc : BCompat a.batch b.batch) {r1 r2 n : ℕ} (h1 : ∀ k ≤ a.ndims, a.rank k ≤ r1) (h2 : ∀ k ≤ b.ndims, b.rank k ≤ r2)
    (hn : ∀ k < a.ndims, (a.modes k).prod ≤ n) (hn1 : 1 ≤ n) :
    ∃ T c, (flatInnerC S a b).run = Except.ok (T, c) ∧ flatInner a b = Except.ok T ∧
      c ≤ 2 * ((bcast a.batch b.batch).getD 1 * a.ndims * r1 ^ 2 * r2 ^ 2 * n) := by
  have p1 : 1 ≤ r1 := by have := h1 0 (by omega); rwa [ha.rank_first] at this
  have p2 : 1 ≤ r2 := by have := h2 0 (by omega); rwa [hb.rank_first] at this
  set B := (bcast a.batch b.batch).getD 1 with hB
  obtain ⟨T, c, e, v, hc'⟩ := flatInnerC_le S ha hb hr hc h1 h2 hn (B * (2 * (r1 * r1 * (r2 * r2) * n))) (by
      intro spec ops hl m x y hm hx hy hcost
      have hp := hS (lookupLabel (einDims spec.1 ops)) spec.1 spec.2
      rw [hl] at hp
      rw [einsumCost, validPath_two hp, hcost]
      refine Nat.mul_le_mul_left _ ?_
      calc m * x * y ≤ n * r1 * r2 := by gcongr
        _ = 1 * r1 * (1 * r2) * n := by ring
        _ ≤ r1 * r1 * (r2 * r2) * n := by gcongr
        _ ≤ _ := by omega) (by
      intro spec ops hl m x y x' y' hm hx hy hx' hy' c1 c2 c3
      have hp := hS (lookupLabel (einDims spec.1 ops)) spec.1 spec.2
      rw [hl] at hp
      rcases validPath_three hp with h | h | h <;> rw [einsumCost, h]
      · rw [c1]
        refine Nat.mul_le_mul_left _ ?_
        calc x * y * m * x' + y * m * x' * y' ≤ r1 * r2 * n * r1 + r2 * n * r1 * r2 := by gcongr
          _ = r1 * r1 * (r2 * 1) * n + r1 * 1 * (r2 * r2) * n := by ring
          _ ≤ r1 * r1 * (r2 * r2) * n + r1 * r1 * (r2 * r2) * n := by gcongr
          _ = _ := by ring
      · rw [c2]
        refine Nat.mul_le_mul_left _ ?_
        calc x * y * m * y' + x * m * x' * y' ≤ r1 * r2 * n * r2 + r1 * n * r1 * r2 := by gcongr
          _ = r1 * 1 * (r2 * r2) * n + r1 * r1 * (r2 * 1) * n := by ring
          _ ≤ r1 * r1 * (r2 * r2) * n + r1 * r1 * (r2 * r2) * n := by gcongr
          _ = _ := by ring
      · rw [c3]
        refine Nat.mul_le_mul_left _ ?_
        calc x * y * m * x' * y' + x * y * x' * y' ≤ r1 * r2 * n * r1 * r2 + r1 * r2 * r1 * r2 := by gcongr
          _ = r1 * r1 * (r2 * r2) * n + r1 * r1 * (r2 * r2) * 1 := by ring
          _ ≤ r1 * r1 * (r2 * r2) * n + r1 * r1 * (r2 * r2) * n := by gcongr
          _ = _ := by ring)
  refine ⟨T, c, e, v, hc'.trans (le_of_eq ?_)⟩
  ring

/-- With the default strategy the two cores are contracted first if the mode is large compared with the square of the ranks, which costs at least `n r⁴`
multiplications. -/
theorem C66_flat_inner_greedy {a b : TT K} (ha : a.WF) (hb : b.WF) (hr : a.rawShape = b.rawShape) (hab : a.batch = none)
    (hbb : b.batch = none) {k r : ℕ} (hk : 1 ≤ k) (hk' : k < a.ndims)
    (r1 : a.rank k = r) (r2 : a.rank (k + 1) = r) (r3 : b.rank k = r) (r4 : b.rank (k + 1) = r)
    (h : r ^ 2 + 1 < 2 * (a.modes k).prod) :
    ∃ T c, (flatInnerC greedy a b).run = Except.ok (T, c) ∧ flatInner a b = Except.ok T ∧ (a.modes k).prod * r ^ 4 ≤ c :=
  flatInnerC_greedy_ge ha hb hr hab hbb hk hk' r1 r2 r3 r4 h

/-- A tensor with three modes of size `n` and TT-ranks `1, r, r, 1`. -/
def uniformTT (n r : ℕ) : TT K where
  cores := [zeros [1, n, r], zeros [r, n, r], zeros [r, n, 1]]
  rawShape := [[n, n, n]]
  ttRanks := [1, r, r, 1]
  batch := none

theorem uniformTT_wf (n r : ℕ) (hr : 0 < r) : (uniformTT n r : TT K).WF where
  pos := by simp [uniformTT, TT.ndims]
  ranks_len := rfl
  rank_first := rfl
  rank_last := rfl
  rank_pos := by
    intro k hk
    have : k = 0 ∨ k = 1 ∨ k = 2 ∨ k = 3 := by have : k ≤ 3 := hk; omega
    rcases this with rfl | rfl | rfl | rfl <;> simp [uniformTT, TT.rank, hr]
  rows := Or.inl rfl
  rows_len := by simp [uniformTT, TT.ndims]
  core_shape := by
    intro k hk
    have : k = 0 ∨ k = 1 ∨ k = 2 := by have : k < 3 := hk; omega
    rcases this with rfl | rfl | rfl <;> rfl
  batch_pos := by simp [uniformTT]

/-- The documented complexity `O(d r³ n)` of `flat_inner` fails for the default strategy: there is no constant `C` such that at most `C d r³ n`
multiplications are needed for all tensors with modes of size at most `n` and TT-ranks of at most `r`. -/
theorem C66_flat_inner_documented_false (C : ℕ) :
    ∃ (a : TT K) (n r : ℕ), a.WF ∧ (∀ k ≤ a.ndims, a.rank k ≤ r) ∧ (∀ k < a.ndims, (a.modes k).prod ≤ n) ∧
      ∃ T c, (flatInnerC greedy a a).run = Except.ok (T, c) ∧ C * (a.ndims * r ^ 3 * n) < c := by
  obtain ⟨r, hr⟩ : ∃ r, r = 3 * C + 1 := ⟨_, rfl⟩
  have hw := uniformTT_wf (K := K) (r ^ 2 + 1) r (by omega)
  obtain ⟨T, c, e, -, hc⟩ := C66_flat_inner_greedy hw hw rfl rfl rfl (k := 1) (r := r) le_rfl
    (by simp [uniformTT, TT.ndims]) rfl rfl rfl rfl (by
      have : ((uniformTT (r ^ 2 + 1) r : TT K).modes 1).prod = r ^ 2 + 1 := by simp [uniformTT, TT.modes]
      rw [this]; omega)
  refine ⟨uniformTT (r ^ 2 + 1) r, r ^ 2 + 1, r, hw, ?_, ?_, T, c, e, lt_of_lt_of_le ?_ hc⟩
  · intro k hk
    have : k = 0 ∨ k = 1 ∨ k = 2 ∨ k = 3 := by have : k ≤ 3 := hk; omega
    rcases this with rfl | rfl | rfl | rfl <;> simp [uniformTT, TT.rank] <;> omega
  · intro k hk
    have : k = 0 ∨ k = 1 ∨ k = 2 := by have : k < 3 := hk; omega
    rcases this with rfl | rfl | rfl <;> simp [uniformTT, TT.modes]
  · have h1 : ((uniformTT (r ^ 2 + 1) r : TT K).modes 1).prod = r ^ 2 + 1 := by simp [uniformTT, TT.modes]
    have h2 : (uniformTT (r ^ 2 + 1) r : TT K).ndims = 3 := rfl
    rw [h1, h2]
    have h3 : 0 < r ^ 3 * (r ^ 2 + 1) := by have : 0 < r := by omega
                                            positivity
    calc C * (3 * r ^ 3 * (r ^ 2 + 1)) = 3 * C * (r ^ 3 * (r ^ 2 + 1)) := by ring
      _ < r * (r ^ 3 * (r ^ 2 + 1)) := Nat.mul_lt_mul_of_pos_right (by omega) h3
      _ = (r ^ 2 + 1) * r ^ 4 := by ring

example : (flatInnerC greedy (uniformTT 5 2 : TT ℤ) (uniformTT 5 2)).run.toOption.map Prod.snd = some 140 := by decide +kernel

/-! ## Batches and matrices -/

/-- `pairwise_flat_inner` of batches of `p` and `q` elements: at most `2 κ p q d r1 r2 n max(r1, r2)` multiplications. -/
theorem C66_pairwise {S : Strategy} {κ : ℕ} (hS : S.Within κ) {a b : TT K} (ha : a.WF) (hb : b.WF) (hr : a.rawShape = b.rawShape)
    {p q : ℕ} (hp : a.batch = some p) (hq : b.batch = some q) {r1 r2 n : ℕ} (h1 : ∀ k ≤ a.ndims, a.rank k ≤ r1)
    (h2 : ∀ k ≤ b.ndims, b.rank k ≤ r2) (hn : ∀ k < a.ndims, (a.modes k).prod ≤ n) :
    ∃ T c, (pairwiseFlatInnerC S a b).run = Except.ok (T, c) ∧ pairwiseFlatInner a b = Except.ok T ∧
      c ≤ 2 * κ * (p * q * a.ndims * r1 * r2 * n * max r1 r2) := by
  obtain ⟨T, c, e, hc⟩ := pairwiseFlatInnerC_le hS ha hb hr hp hq h1 h2 hn
  exact ⟨T, c, e, run_value (value_pairwiseFlatInnerC S a b) e, hc.trans (le_of_eq (by ring))⟩

example : exBatch.WF ∧ exBatch1.WF ∧ exBatch.rawShape = exBatch1.rawShape ∧ exBatch.batch = some 2 ∧ exBatch1.batch = some 1 ∧
    (∀ k ≤ exBatch.ndims, exBatch.rank k ≤ 2) ∧ (∀ k < exBatch.ndims, (exBatch.modes k).prod ≤ 3) := by decide

/-- `gram_matrix` of a batch of `B` elements: at most `2 κ B² d r³ n` multiplications. -/
theorem C66_gram {S : Strategy} {κ : ℕ} (hS : S.Within κ) {t : TT K} (ht : t.WF) {B : ℕ} (hB : t.batch = some B) {r n : ℕ}
    (hr : ∀ k ≤ t.ndims, t.rank k ≤ r) (hn : ∀ k < t.ndims, (t.modes k).prod ≤ n) :
    ∃ T c, (gramMatrixC S t).run = Except.ok (T, c) ∧ gramMatrix t = Except.ok T ∧ c ≤ 2 * κ * (B ^ 2 * t.ndims * r ^ 3 * n) := by
  obtain ⟨T, c, e, v, hc⟩ := C66_pairwise hS ht ht rfl hB hB hr hr hn
  exact ⟨T, c, e, v, hc.trans (le_of_eq (by rw [max_self]; ring))⟩

example : (gramMatrixC greedy exBatch).run.toOption.map Prod.snd = some 96 := by decide +kernel

/-- `pairwise_flat_inner` of batches of vectors of `p` and `q` elements with a matrix of TT-rank `R` with row modes of at most `n` and column modes of at
most `m`: at most `κ p q d R r1 r2 (n r1 + n m R + m r2)` multiplications. -/
theorem C66_pairwise_matrix {S : Strategy} {κ : ℕ} (hS : S.Within κ) {a b M : TT K} (ha : a.WF) (hb : b.WF) (hM : M.WF)
    {I J C D : List ℕ} (ra : a.rawShape = [I, C]) (rb : b.rawShape = [J, D]) (rM : M.rawShape = [I, J]) (hC : C.prod = 1)
    (hD : D.prod = 1) (bM : M.batch = none) {p q : ℕ} (hp : a.batch = some p) (hq : b.batch = some q) {r1 r2 R n m : ℕ}
    (h1 : ∀ k ≤ a.ndims, a.rank k ≤ r1) (h2 : ∀ k ≤ b.ndims, b.rank k ≤ r2) (h3 : ∀ k ≤ M.ndims, M.rank k ≤ R)
    (hn : ∀ k < M.ndims, I.getD k 0 ≤ n) (hm : ∀ k < M.ndims, J.getD k 0 ≤ m) :
    ∃ T c, (pairwiseFlatInnerMatrixC S a b M).run = Except.ok (T, c) ∧ pairwiseFlatInnerMatrix a b M = Except.ok T ∧
      c ≤ κ * (p * q * a.ndims * R * r1 * r2 * (n * r1 + n * m * R + m * r2)) := by
  obtain ⟨T, c, e, hc⟩ := pairwiseFlatInnerMatrixC_le hS ha hb hM ra rb rM hC hD bM hp hq h1 h2 h3 hn hm
  exact ⟨T, c, e, run_value (value_pairwiseFlatInnerMatrixC S a b M) e, hc.trans (le_of_eq (by ring))⟩

example : exVectors.WF ∧ exSquare.WF ∧ exVectors.rawShape = [[2], [1]] ∧ exSquare.rawShape = [[2], [2]] ∧ exSquare.batch = none ∧
    exVectors.batch = some 2 ∧ ([1] : List ℕ).prod = 1 ∧ (∀ k ≤ exVectors.ndims, exVectors.rank k ≤ 1) ∧
    (∀ k ≤ exSquare.ndims, exSquare.rank k ≤ 1) ∧ (∀ k < exSquare.ndims, ([2] : List ℕ).getD k 0 ≤ 2) := by decide
example : (pairwiseFlatInnerMatrixC greedy exVectors exVectors exSquare).run.toOption.isSome = true := by decide +kernel

/-- `bilinear_form` of a matrix of TT-rank `r_A` and vectors of TT-ranks `r_b`, `r_c`, or batches of `B` vectors: at most
`κ B d r_A r_b r_c (n r_b + n m r_A + m r_c)` multiplications, where `n`, `m` bound the row and column modes; with `n = m` that is
`κ B d r_A r_b r_c n (r_b + n r_A + r_c)`. -/
theorem C66_bilinear {S : Strategy} {κ : ℕ} (hS : S.Within κ) {A b c : TT K} (hA : A.WF) (hb : b.WF) (hc : c.WF) {I J L : List ℕ}
    (rA : A.rawShape = [I, J]) (rb : b.rawShape = [I, L]) (rc : c.rawShape = [J, L]) (hL : ∀ k < A.ndims, L.getD k 0 ≤ 1)
    (bA : A.batch = none) (hbc : b.batch = c.batch) {qA qb qc n m : ℕ} (h1 : ∀ k ≤ A.ndims, A.rank k ≤ qA)
    (h2 : ∀ k ≤ b.ndims, b.rank k ≤ qb) (h3 : ∀ k ≤ c.ndims, c.rank k ≤ qc)
    (hn : ∀ k < A.ndims, I.getD k 0 ≤ n) (hm : ∀ k < A.ndims, J.getD k 0 ≤ m) :
    ∃ T x, (bilinearFormC S A b c).run = Except.ok (T, x) ∧ bilinearForm A b c = Except.ok T ∧
      x ≤ κ * (b.batch.getD 1 * A.ndims * qA * qb * qc * (n * qb + n * m * qA + m * qc)) := by
  obtain ⟨T, x, e, hx⟩ := bilinearFormC_le hS hA hb hc rA rb rc bA hbc h1 h2 h3 hn hm hL
  exact ⟨T, x, e, run_value (value_bilinearFormC S A b c) e, hx.trans (le_of_eq (by ring))⟩

example : exMatrix.WF ∧ exVec.WF ∧ exVec'.WF ∧ exMatrix.rawShape = [[2, 2], [1, 2]] ∧
    exVec.rawShape = [[2, 2], [1, 1]] ∧ exVec'.rawShape = [[1, 2], [1, 1]] ∧ exVec.batch = exVec'.batch ∧ exMatrix.batch = none ∧
    (∀ k < exMatrix.ndims, ([1, 1] : List ℕ).getD k 0 ≤ 1) ∧ (∀ k ≤ exMatrix.ndims, exMatrix.rank k ≤ 2) := by decide

end T3f
