import Verif.Proofs.CostGreedy

/-!
# The counts of `pairwise_flat_inner` and `bilinear_form`
-/

namespace T3f

open Counted

variable {K : Type}

/-- Strategies close to the best one are valid. -/
theorem Strategy.Within.valid {S : Strategy} {κ : ℕ} (h : S.Within κ) : S.Valid := fun dim ls out => (h dim ls out).1

/-! ## pairwise_flat_inner -/

/-- The number of multiplications of the first einsum of `pairwise_flat_inner`. -/
theorem pairCost_first (A B : Tensor K) (m n : ℕ) (M : List ℕ) (ax : List Char)
    (hM : (M.length = 1 ∧ ax = chars! "i") ∨ (M.length = 2 ∧ ax = chars! "ij")) (ra rb : ℕ)
    (hA : A.shape = m :: 1 :: (M ++ [ra])) (hB : B.shape = n :: 1 :: (M ++ [rb])) :
    orderCost (pairSpec true ax) [A, B] [(0, 1)] = m * n * M.prod * ra * rb := by
  rcases hM with ⟨hM, rfl⟩ | ⟨hM, rfl⟩
  · obtain ⟨i, rfl⟩ := List.length_eq_one_iff.1 hM
    simp [orderCost, pathCost, labelSize, jointLabels, pairSpec, einDims, hA, hB, List.lookup, lookupLabel,
      -mul_eq_mul_left_iff, -mul_eq_mul_right_iff]
    ring
  · obtain ⟨i, j, rfl⟩ := List.length_eq_two.1 hM
    simp [orderCost, pathCost, labelSize, jointLabels, pairSpec, einDims, hA, hB, List.lookup, lookupLabel,
      -mul_eq_mul_left_iff, -mul_eq_mul_right_iff]
    ring

/-- The number of multiplications of the following einsums of `pairwise_flat_inner`, from left to right. -/
theorem pairCost_step (Q A B : Tensor K) (m n : ℕ) (M : List ℕ) (ax : List Char)
    (hM : (M.length = 1 ∧ ax = chars! "i") ∨ (M.length = 2 ∧ ax = chars! "ij")) (qa qb ra rb : ℕ)
    (hQ : Q.shape = [m, n, qa, qb])
    (hA : A.shape = m :: qa :: (M ++ [ra])) (hB : B.shape = n :: qb :: (M ++ [rb])) :
    orderCost (pairSpec false ax) [Q, A, B] [(0, 1), (0, 1)] = m * n * (qa * qb * M.prod * ra + qb * M.prod * ra * rb) := by
  rcases hM with ⟨hM, rfl⟩ | ⟨hM, rfl⟩
  · obtain ⟨i, rfl⟩ := List.length_eq_one_iff.1 hM
    simp [orderCost, pathCost, labelSize, jointLabels, contractPair, keptLabels, pairSpec, einDims, hQ, hA, hB, List.lookup, lookupLabel,
      -mul_eq_mul_left_iff, -mul_eq_mul_right_iff]
    ring
  · obtain ⟨i, j, rfl⟩ := List.length_eq_two.1 hM
    simp [orderCost, pathCost, labelSize, jointLabels, contractPair, keptLabels, pairSpec, einDims, hQ, hA, hB, List.lookup, lookupLabel,
      -mul_eq_mul_left_iff, -mul_eq_mul_right_iff]
    ring

theorem pairMatCost_first (A M B : Tensor K) (m n k i j x a y : ℕ)
    (hA : A.shape = [m, 1, k, i, x]) (hM : M.shape = [1, i, j, a]) (hB : B.shape = [n, 1, k, j, y]) :
    orderCost (ein! "pakib,cijd,qekjf->pqbdf") [A, M, B] [(0, 1), (0, 1)] = m * k * i * j * x * a + m * n * k * j * x * a * y := by
  simp [orderCost, pathCost, labelSize, jointLabels, contractPair, keptLabels, einDims, hA, hM, hB, List.lookup, lookupLabel,
      -mul_eq_mul_left_iff, -mul_eq_mul_right_iff]
  ring

theorem pairMatCost_step (Q A M B : Tensor K) (m n k i j qx qa qy x a y : ℕ)
    (hQ : Q.shape = [m, n, qx, qa, qy])
    (hA : A.shape = [m, qx, k, i, x]) (hM : M.shape = [qa, i, j, a]) (hB : B.shape = [n, qy, k, j, y]) :
    orderCost (ein! "pqace,pakib,cijd,qekjf->pqbdf") [Q, A, M, B] [(0, 1), (0, 2), (0, 1)] =
      m * n * k * (qx * qa * qy * i * x + qa * qy * i * x * j * a + qy * j * x * a * y) := by
  simp [orderCost, pathCost, labelSize, jointLabels, contractPair, keptLabels, einDims, hQ, hA, hM, hB, List.lookup, lookupLabel,
      -mul_eq_mul_left_iff, -mul_eq_mul_right_iff]
  ring

theorem bilCost_first (bt : Option ℕ) (X A Y : Tensor K) (i j k x a y : ℕ)
    (hX : X.shape = bt.toList ++ [1, i, k, x]) (hA : A.shape = [1, i, j, a])
    (hY : Y.shape = bt.toList ++ [1, j, k, y]) :
    orderCost ([bLabel 'p' bt ++ chars! "aikb", chars! "cijd", bLabel 'p' bt ++ chars! "ejkf"],
        bLabel 'p' bt ++ chars! "bdf") [X, A, Y] [(0, 1), (0, 1)] =
      bt.getD 1 * k * (i * j * x * a + j * x * a * y) := by
  rcases bt with _ | s <;>
  simp [orderCost, pathCost, labelSize, jointLabels, contractPair, keptLabels, bLabel, einDims, hX, hA, hY, List.lookup, lookupLabel,
      -mul_eq_mul_left_iff, -mul_eq_mul_right_iff] <;> ring

theorem bilCost_step (bt : Option ℕ) (Q X A Y : Tensor K) (i j k p q r x a y : ℕ)
    (hQ : Q.shape = bt.toList ++ [p, q, r])
    (hX : X.shape = bt.toList ++ [p, i, k, x]) (hA : A.shape = [q, i, j, a])
    (hY : Y.shape = bt.toList ++ [r, j, k, y]) :
    orderCost ([bLabel 'p' bt ++ chars! "ace", bLabel 'p' bt ++ chars! "aikb", chars! "cijd",
          bLabel 'p' bt ++ chars! "ejkf"], bLabel 'p' bt ++ chars! "bdf") [Q, X, A, Y] [(0, 1), (0, 2), (0, 1)] =
      bt.getD 1 * k * (p * q * r * i * x + q * r * i * x * j * a + r * j * x * a * y) := by
  rcases bt with _ | s <;>
  simp [orderCost, pathCost, labelSize, jointLabels, contractPair, keptLabels, bLabel, einDims, hQ, hX, hA, hY, List.lookup, lookupLabel,
      -mul_eq_mul_left_iff, -mul_eq_mul_right_iff] <;> ring

/-! ## The loops -/

/-- An initial einsum followed by a loop, if each einsum is charged at most `w`. -/
theorem einsum_loop_le [CommRing K] (S : Strategy) (P : ℕ → Tensor K → Prop) (w d : ℕ) (hd : 0 < d) (spec : List (List Char) × List Char)
    (ops : List (Tensor K)) (f : ℕ → Tensor K → Counted (Tensor K)) {E : Tensor K} (eE : einsum spec ops = Except.ok E) (h0 : P 1 E)
    (hw : einsumCost S spec ops ≤ w)
    (hs : ∀ k T, 1 ≤ k → k < d → P k T → ∃ T' c, (f k T).run = Except.ok (T', c) ∧ P (k + 1) T' ∧ c ≤ w) :
    ∃ T c, (einsumC S spec ops >>= fun res => forRangeC f 1 (d - 1) res >>= fun res => pure (squeezeAll res)).run =
      Except.ok (T, c) ∧ c ≤ d * w := by
  obtain ⟨T, c, eT, -, hc⟩ := forRangeC_le P w f 1 (d - 1) E h0 (fun k T hk hk' h => hs k T hk (by omega) h)
  refine ⟨_, _, bind_ok (einsumC_ok S eE) (bind_pure_ok eT), ?_⟩
  obtain ⟨e, rfl⟩ : ∃ e, d = e + 1 := ⟨d - 1, by omega⟩
  rw [Nat.succ_mul]
  simp only [Nat.add_sub_cancel] at hc
  omega

theorem run_value {α : Type} {x : Counted α} {y : R α} (h : x.value = y) {a : α} {c : ℕ} (hr : x.run = Except.ok (a, c)) :
    y = Except.ok a := by
  rw [← h, Counted.value, hr]; rfl

/-- The number of multiplications of `pairwise_flat_inner` without a matrix. -/
theorem pairwiseFlatInnerC_le [CommRing K] {S : Strategy} {κ : ℕ} (hS : S.Within κ) {a b : TT K} (ha : a.WF) (hb : b.WF)
    (hr : a.rawShape = b.rawShape) {p q : ℕ} (hp : a.batch = some p) (hq : b.batch = some q) {r1 r2 n : ℕ}
    (h1 : ∀ k ≤ a.ndims, a.rank k ≤ r1) (h2 : ∀ k ≤ b.ndims, b.rank k ≤ r2) (hn : ∀ k < a.ndims, (a.modes k).prod ≤ n) :
    ∃ T c, (pairwiseFlatInnerC S a b).run = Except.ok (T, c) ∧ c ≤ a.ndims * (κ * (p * q * (2 * (r1 * r2 * n * max r1 r2)))) := by
  have hnd := ndims_eq_of_rawShape ha hb hr
  have hmod : ∀ k, b.modes k = a.modes k := fun k => by simp [TT.modes, hr]
  have hpos := ha.pos
  have p1 : 1 ≤ r1 := by have := h1 0 (by omega); rwa [ha.rank_first] at this
  have hm1 := le_max_left r1 r2
  have hm2 := le_max_right r1 r2
  have sA : ∀ k < a.ndims, (a.core k).shape = p :: a.rank k :: (a.modes k ++ [a.rank (k + 1)]) := by
    intro k hk; rw [ha.core_shape k hk, bpre_some hp]; rfl
  have sB : ∀ k < a.ndims, (b.core k).shape = q :: b.rank k :: (a.modes k ++ [b.rank (k + 1)]) := by
    intro k hk; rw [hb.core_shape k (by omega), bpre_some hq, hmod]; rfl
  obtain ⟨E, eE, sE, -⟩ := pairEin_first (a.core 0) (b.core 0) p q (a.modes 0) (modeLabels a)
    (modeLabels_spec ha 0) _ _ (by rw [sA 0 hpos, ha.rank_first]) (by rw [sB 0 hpos, hb.rank_first])
  obtain ⟨T, c, e, hc⟩ := einsum_loop_le S (fun k T => T.shape = [p, q, a.rank k, b.rank k])
    (κ * (p * q * (2 * (r1 * r2 * n * max r1 r2)))) a.ndims hpos _ _
    (fun k res => do
      let ac ← free (pyGet a.cores k)
      let bc ← free (pyGet b.cores k)
      einsumC S (pairSpec false (modeLabels a)) [res, ac, bc]) eE sE (by
      refine (within_cost hS (pairSpec true (modeLabels a)) _ [(0, 1)] ⟨by omega, by show 1 < 2; omega, rfl⟩).trans ?_
      rw [pairCost_first (a.core 0) (b.core 0) p q (a.modes 0) (modeLabels a)
        (modeLabels_spec ha 0) _ _ (by rw [sA 0 hpos, ha.rank_first]) (by rw [sB 0 hpos, hb.rank_first])]
      refine Nat.mul_le_mul_left _ ?_
      calc p * q * (a.modes 0).prod * a.rank 1 * b.rank 1 ≤ p * q * n * r1 * r2 := by
            gcongr
            · exact hn 0 hpos
            · exact h1 1 (by omega)
            · exact h2 1 (by omega)
        _ = p * q * (1 * (r1 * r2 * n * 1)) := by ring
        _ ≤ _ := by gcongr <;> omega) (by
      intro k T hk hk' sT
      obtain ⟨E', eE', sE', -⟩ := pairEin_step T (a.core k) (b.core k) p q
        (a.modes k) (modeLabels a) (modeLabels_spec ha k) _ _ _ _ sT (sA k (by omega)) (sB k (by omega))
      refine ⟨E', _, ?_, sE', (within_cost hS (pairSpec false (modeLabels a)) [T, a.core k, b.core k] [(0, 1), (0, 1)]
        ⟨by omega, by show 1 < 3; omega, by omega, by show 1 < 2; omega, rfl⟩).trans ?_⟩
      · simp only [ha.pyCore (show k < a.ndims by omega), hb.pyCore (show k < b.ndims by omega), free_bind]
        exact einsumC_ok S eE'
      · rw [pairCost_step T (a.core k) (b.core k) p q
          (a.modes k) (modeLabels a) (modeLabels_spec ha k) _ _ _ _ sT (sA k (by omega)) (sB k (by omega))]
        refine Nat.mul_le_mul_left _ (Nat.mul_le_mul_left _ ?_)
        calc _ ≤ r1 * r2 * n * max r1 r2 + r2 * n * r1 * max r1 r2 := by
              gcongr
              · exact h1 k (by omega)
              · exact h2 k (by omega)
              · exact hn k hk'
              · exact (h1 (k + 1) (by omega)).trans hm1
              · exact h2 k (by omega)
              · exact hn k hk'
              · exact h1 (k + 1) (by omega)
              · exact (h2 (k + 1) (by omega)).trans hm2
          _ = _ := by ring)
  refine ⟨T, c, ?_, hc⟩
  unfold pairwiseFlatInnerC
  simp only [ha.pyCore hpos, hb.pyCore (show 0 < b.ndims by omega), free_bind]
  exact e

/-- The number of multiplications of `bilinear_form`; `l` bounds the sizes of the column modes of `b` and `c` (1 for vectors). -/
theorem bilinearFormC_le [CommRing K] {S : Strategy} {κ : ℕ} (hS : S.Within κ) {A b c : TT K} (hA : A.WF) (hb : b.WF) (hc : c.WF)
    {I J L : List ℕ} (rA : A.rawShape = [I, J]) (rb : b.rawShape = [I, L]) (rc : c.rawShape = [J, L])
    (bA : A.batch = none) (hbc : b.batch = c.batch) {qA qb qc n m l : ℕ} (h1 : ∀ k ≤ A.ndims, A.rank k ≤ qA)
    (h2 : ∀ k ≤ b.ndims, b.rank k ≤ qb) (h3 : ∀ k ≤ c.ndims, c.rank k ≤ qc)
    (hn : ∀ k < A.ndims, I.getD k 0 ≤ n) (hm : ∀ k < A.ndims, J.getD k 0 ≤ m) (hl : ∀ k < A.ndims, L.getD k 0 ≤ l) :
    ∃ T x, (bilinearFormC S A b c).run = Except.ok (T, x) ∧
      x ≤ A.ndims * (κ * (b.batch.getD 1 * l * (qA * qb * qc * (n * qb + n * m * qA + m * qc)))) := by
  have hI : I.length = A.ndims := hA.rows_len I (by simp [rA])
  have hJ : J.length = A.ndims := hA.rows_len J (by simp [rA])
  have hnb : A.ndims = b.ndims := by rw [← hI]; exact hb.rows_len I (by simp [rb])
  have hnc : A.ndims = c.ndims := by rw [← hJ]; exact hc.rows_len J (by simp [rc])
  have hpos := hA.pos
  have p1 : 1 ≤ qA := by have := h1 0 (by omega); rwa [hA.rank_first] at this
  have p2 : 1 ≤ qb := by have := h2 0 (by omega); rwa [hb.rank_first] at this
  have p3 : 1 ≤ qc := by have := h3 0 (by omega); rwa [hc.rank_first] at this
  have sA : ∀ k < A.ndims, (A.core k).shape = [A.rank k, I.getD k 0, J.getD k 0, A.rank (k + 1)] := by
    intro k hk; rw [hA.core_shape k hk]; simp [TT.modes, rA, TT.bpre, bA]
  have sb : ∀ k < A.ndims, (b.core k).shape =
      b.batch.toList ++ [b.rank k, I.getD k 0, L.getD k 0, b.rank (k + 1)] := by
    intro k hk; rw [hb.core_shape k (by omega)]; simp [TT.modes, rb, TT.bpre]
  have sc : ∀ k < A.ndims, (c.core k).shape =
      b.batch.toList ++ [c.rank k, J.getD k 0, L.getD k 0, c.rank (k + 1)] := by
    intro k hk; rw [hc.core_shape k (by omega)]; simp [TT.modes, rc, TT.bpre, hbc]
  have x0 : (b.core 0).shape = b.batch.toList ++ [1, I.getD 0 0, L.getD 0 0, b.rank 1] := by rw [sb 0 hpos, hb.rank_first]
  have y0 : (A.core 0).shape = [1, I.getD 0 0, J.getD 0 0, A.rank 1] := by rw [sA 0 hpos, hA.rank_first]
  have z0 : (c.core 0).shape = b.batch.toList ++ [1, J.getD 0 0, L.getD 0 0, c.rank 1] := by rw [sc 0 hpos, hc.rank_first]
  obtain ⟨E, eE, sE, -⟩ := bilEin_first b.batch (b.core 0) (A.core 0) (c.core 0) _ _ _ _ _ _ x0 y0 z0
  obtain ⟨T, x, e, hx⟩ := einsum_loop_le S (fun k T => T.shape = b.batch.toList ++ [b.rank k, A.rank k, c.rank k])
    (κ * (b.batch.getD 1 * l * (qA * qb * qc * (n * qb + n * m * qA + m * qc)))) A.ndims hpos _ _
    (fun k res => do
      let bc ← free (pyGet b.cores k)
      let cc ← free (pyGet c.cores k)
      let Ac ← free (pyGet A.cores k)
      einsumC S ([bLabel 'p' b.batch ++ chars! "ace", bLabel 'p' b.batch ++ chars! "aikb", chars! "cijd",
        bLabel 'p' b.batch ++ chars! "ejkf"], bLabel 'p' b.batch ++ chars! "bdf") [res, bc, Ac, cc]) eE sE (by
      refine (within_cost hS ([bLabel 'p' b.batch ++ chars! "aikb", chars! "cijd", bLabel 'p' b.batch ++ chars! "ejkf"],
        bLabel 'p' b.batch ++ chars! "bdf") _ [(0, 1), (0, 1)]
        ⟨by omega, by show 1 < 3; omega, by omega, by show 1 < 2; omega, rfl⟩).trans ?_
      rw [bilCost_first b.batch (b.core 0) (A.core 0) (c.core 0) _ _ _ _ _ _ x0 y0 z0]
      refine Nat.mul_le_mul_left _ (Nat.mul_le_mul (Nat.mul_le_mul_left _ (hl 0 hpos)) ?_)
      calc _ ≤ n * m * qb * qA + m * qb * qA * qc := by
            gcongr
            · exact hn 0 hpos
            · exact hm 0 hpos
            · exact h2 1 (by omega)
            · exact h1 1 (by omega)
            · exact hm 0 hpos
            · exact h2 1 (by omega)
            · exact h1 1 (by omega)
            · exact h3 1 (by omega)
        _ = qA * qb * 1 * (n * m * 1) + qA * qb * qc * (m * 1) := by ring
        _ ≤ qA * qb * qc * (n * m * qA) + qA * qb * qc * (m * qc) := by gcongr
        _ ≤ qA * qb * qc * (n * qb) + (qA * qb * qc * (n * m * qA) + qA * qb * qc * (m * qc)) := Nat.le_add_left _ _
        _ = _ := by ring) (by
      intro k T hk hk' sT
      obtain ⟨E', eE', sE', -⟩ := bilEin_step b.batch T (b.core k) (A.core k) (c.core k) _ _ _ _ _ _ _ _ _ sT
        (sb k (by omega)) (sA k (by omega)) (sc k (by omega))
      refine ⟨E', _, ?_, sE', (within_cost hS ([bLabel 'p' b.batch ++ chars! "ace", bLabel 'p' b.batch ++ chars! "aikb", chars! "cijd",
        bLabel 'p' b.batch ++ chars! "ejkf"], bLabel 'p' b.batch ++ chars! "bdf") [T, b.core k, A.core k, c.core k] [(0, 1), (0, 2), (0, 1)]
        ⟨by omega, by show 1 < 4; omega, by omega, by show 2 < 3; omega, by omega, by show 1 < 2; omega, rfl⟩).trans ?_⟩
      · simp only [hA.pyCore (show k < A.ndims by omega), hb.pyCore (show k < b.ndims by omega),
          hc.pyCore (show k < c.ndims by omega), free_bind]
        exact einsumC_ok S eE'
      · rw [bilCost_step b.batch T (b.core k) (A.core k) (c.core k) _ _ _ _ _ _ _ _ _ sT
          (sb k (by omega)) (sA k (by omega)) (sc k (by omega))]
        refine Nat.mul_le_mul_left _ (Nat.mul_le_mul (Nat.mul_le_mul_left _ (hl k hk')) ?_)
        have b1 := h1 k (by omega)
        have b2 := h2 k (by omega)
        have b3 := h3 k (by omega)
        have b1' := h1 (k + 1) (by omega)
        have b2' := h2 (k + 1) (by omega)
        have b3' := h3 (k + 1) (by omega)
        have c1 := hn k hk'
        have c2 := hm k hk'
        calc _ ≤ qb * qA * qc * n * qb + qA * qc * n * qb * m * qA + qc * m * qb * qA * qc := by gcongr
          _ = _ := by ring)
  refine ⟨T, x, ?_, hx⟩
  unfold bilinearFormC
  simp only [require_pos (show A.isMatrix by simp [TT.isMatrix, rA]), require_pos (show b.isMatrix by simp [TT.isMatrix, rb]),
    require_pos (show c.isMatrix by simp [TT.isMatrix, rc]), hA.pyCore hpos, hb.pyCore (show 0 < b.ndims by omega),
    hc.pyCore (show 0 < c.ndims by omega), free_bind]
  exact e

theorem rowVector_ranks [CommRing K] {t : TT K} (h : t.WF) {I C : List ℕ} (hr : t.rawShape = [I, C]) {c : TT K}
    (e : rowVector t = Except.ok c) : c.ttRanks = t.ttRanks := by
  unfold rowVector at e
  obtain ⟨sh, e1⟩ : ∃ sh, t.getShape = Except.ok sh := ⟨_, getShape_eq h⟩
  rw [e1, R.ok_bind] at e
  rcases e2 : pyGet sh 2 with err | s2
  · rw [e2, R.error_bind] at e; exact absurd e (by simp)
  · rw [e2, R.ok_bind] at e
    split_ifs at e with h1
    · rcases e3 : pyGet sh 1 with err | s1
      · rw [e3, R.error_bind] at e; exact absurd e (by simp)
      · rw [e3, R.ok_bind] at e
        split_ifs at e with h2
        · obtain ⟨c', e4, -, -, -, -, hk, -⟩ := ttTranspose_spec h hr
          rw [e4] at e
          rw [← Except.ok.inj e, hk]
        · rw [← Except.ok.inj e]
    · rw [← Except.ok.inj e]

/-- The number of multiplications of `pairwise_flat_inner` with a matrix. -/
theorem pairwiseFlatInnerMatrixC_le [CommRing K] {S : Strategy} {κ : ℕ} (hS : S.Within κ) {a b M : TT K} (ha : a.WF) (hb : b.WF)
    (hM : M.WF) {I J C D : List ℕ} (ra : a.rawShape = [I, C]) (rb : b.rawShape = [J, D]) (rM : M.rawShape = [I, J])
    (hC : C.prod = 1) (hD : D.prod = 1) (bM : M.batch = none) {p q : ℕ} (hp : a.batch = some p) (hq : b.batch = some q)
    {r1 r2 R n m : ℕ} (h1 : ∀ k ≤ a.ndims, a.rank k ≤ r1) (h2 : ∀ k ≤ b.ndims, b.rank k ≤ r2) (h3 : ∀ k ≤ M.ndims, M.rank k ≤ R)
    (hn : ∀ k < M.ndims, I.getD k 0 ≤ n) (hm : ∀ k < M.ndims, J.getD k 0 ≤ m) :
    ∃ T x, (pairwiseFlatInnerMatrixC S a b M).run = Except.ok (T, x) ∧
      x ≤ a.ndims * (κ * (p * q * (R * r1 * r2 * (n * r1 + n * m * R + m * r2)))) := by
  have hI : I.length = M.ndims := hM.rows_len I (by simp [rM])
  have hJ : J.length = M.ndims := hM.rows_len J (by simp [rM])
  have hna : M.ndims = a.ndims := by rw [← hI]; exact ha.rows_len I (by simp [ra])
  have hnb : M.ndims = b.ndims := by rw [← hJ]; exact hb.rows_len J (by simp [rb])
  have hCl : C.length = M.ndims := by rw [hna]; exact ha.rows_len C (by simp [ra])
  have hDl : D.length = M.ndims := by rw [hnb]; exact hb.rows_len D (by simp [rb])
  have hCD : D = C := by rw [prod_eq_one_replicate hC, prod_eq_one_replicate hD, hCl, hDl]
  subst hCD
  have hpos := hM.pos
  have p1 : 1 ≤ r1 := by have := h1 0 (by omega); rwa [ha.rank_first] at this
  have p2 : 1 ≤ r2 := by have := h2 0 (by omega); rwa [hb.rank_first] at this
  have p3 : 1 ≤ R := by have := h3 0 (by omega); rwa [hM.rank_first] at this
  have pq : 1 ≤ q := by
    rcases Nat.eq_zero_or_pos q with h | h
    · exact absurd (by rw [hq, h]) hb.batch_pos
    · exact h
  obtain ⟨a', ea, wa, ra', ba', na', -⟩ := rowVector_spec ha ra hp hC
  obtain ⟨b', eb, wb, rb', bb', nb', -⟩ := rowVector_spec hb rb hq hC
  have ka : ∀ k, a'.rank k = a.rank k := fun k => by rw [TT.rank, TT.rank, rowVector_ranks ha ra ea]
  have kb : ∀ k, b'.rank k = b.rank k := fun k => by rw [TT.rank, TT.rank, rowVector_ranks hb rb eb]
  have hD1 : ∀ k < M.ndims, D.getD k 0 = 1 := by
    intro k hk
    rw [prod_eq_one_replicate hC, List.getD_eq_getElem _ _ (by simp; omega)]
    simp
  have sM : ∀ k < M.ndims, (M.core k).shape = [M.rank k, I.getD k 0, J.getD k 0, M.rank (k + 1)] := by
    intro k hk; rw [hM.core_shape k hk]; simp [TT.modes, rM, TT.bpre, bM]
  have sa : ∀ k < M.ndims, (a'.core k).shape = [p, a.rank k, 1, I.getD k 0, a.rank (k + 1)] := by
    intro k hk
    rw [wa.core_shape k (by omega), ka, ka, ← hD1 k hk]; simp [TT.modes, ra', TT.bpre, ba']
  have sb : ∀ k < M.ndims, (b'.core k).shape = [q, b.rank k, 1, J.getD k 0, b.rank (k + 1)] := by
    intro k hk
    rw [wb.core_shape k (by omega), kb, kb, ← hD1 k hk]; simp [TT.modes, rb', TT.bpre, bb']
  have x0 : (a'.core 0).shape = [p, 1, 1, I.getD 0 0, a.rank 1] := by rw [sa 0 hpos, ha.rank_first]
  have y0 : (M.core 0).shape = [1, I.getD 0 0, J.getD 0 0, M.rank 1] := by rw [sM 0 hpos, hM.rank_first]
  have z0 : (b'.core 0).shape = [q, 1, 1, J.getD 0 0, b.rank 1] := by rw [sb 0 hpos, hb.rank_first]
  obtain ⟨E, eE, sE, -⟩ := pairMatEin_first (a'.core 0) (M.core 0) (b'.core 0) p q _ _ _ _ _ _ x0 y0 z0
  obtain ⟨T, x, e, hx⟩ := einsum_loop_le S (fun k T => T.shape = [p, q, a.rank k, M.rank k, b.rank k])
    (κ * (p * q * (R * r1 * r2 * (n * r1 + n * m * R + m * r2)))) a.ndims ha.pos _ _
    (fun k res => do
      let ac ← free (pyGet a'.cores k)
      let bc ← free (pyGet b'.cores k)
      let Mc ← free (pyGet M.cores k)
      einsumC S (ein! "pqace,pakib,cijd,qekjf->pqbdf") [res, ac, Mc, bc]) eE sE (by
      refine (within_cost hS (ein! "pakib,cijd,qekjf->pqbdf") _ [(0, 1), (0, 1)]
        ⟨by omega, by show 1 < 3; omega, by omega, by show 1 < 2; omega, rfl⟩).trans ?_
      rw [pairMatCost_first (a'.core 0) (M.core 0) (b'.core 0) p q _ _ _ _ _ _ x0 y0 z0]
      refine Nat.mul_le_mul_left _ ?_
      have b1 := h1 1 (by omega)
      have b2 := h2 1 (by omega)
      have b3 := h3 1 (by omega)
      have c1 := hn 0 hpos
      have c2 := hm 0 hpos
      calc _ ≤ p * 1 * n * m * r1 * R + p * q * 1 * m * r1 * R * r2 := by gcongr
        _ = p * 1 * (R * r1 * 1 * (n * m * 1)) + p * q * (R * r1 * r2 * (m * 1)) := by ring
        _ ≤ p * q * (R * r1 * r2 * (n * m * R)) + p * q * (R * r1 * r2 * (m * r2)) := by gcongr
        _ ≤ p * q * (R * r1 * r2 * (n * r1)) +
            (p * q * (R * r1 * r2 * (n * m * R)) + p * q * (R * r1 * r2 * (m * r2))) := Nat.le_add_left _ _
        _ = _ := by ring) (by
      intro k T hk hk' sT
      obtain ⟨E', eE', sE', -⟩ := pairMatEin_step T (a'.core k) (M.core k) (b'.core k) p q _ _ _ _ _ _ _ _ _ sT
        (sa k (by omega)) (sM k (by omega)) (sb k (by omega))
      refine ⟨E', _, ?_, sE', (within_cost hS (ein! "pqace,pakib,cijd,qekjf->pqbdf") [T, a'.core k, M.core k, b'.core k]
        [(0, 1), (0, 2), (0, 1)]
        ⟨by omega, by show 1 < 4; omega, by omega, by show 2 < 3; omega, by omega, by show 1 < 2; omega, rfl⟩).trans ?_⟩
      · simp only [hM.pyCore (show k < M.ndims by omega), wb.pyCore (show k < b'.ndims by omega),
          wa.pyCore (show k < a'.ndims by omega), free_bind]
        exact einsumC_ok S eE'
      · rw [pairMatCost_step T (a'.core k) (M.core k) (b'.core k) p q _ _ _ _ _ _ _ _ _ sT
          (sa k (by omega)) (sM k (by omega)) (sb k (by omega))]
        refine Nat.mul_le_mul_left _ ?_
        have b1 := h1 k (by omega)
        have b2 := h2 k (by omega)
        have b3 := h3 k (by omega)
        have b1' := h1 (k + 1) (by omega)
        have b2' := h2 (k + 1) (by omega)
        have b3' := h3 (k + 1) (by omega)
        have c1 := hn k (by omega)
        have c2 := hm k (by omega)
        calc _ ≤ p * q * 1 * (r1 * R * r2 * n * r1 + R * r2 * n * r1 * m * R + r2 * m * r1 * R * r2) := by gcongr
          _ = _ := by ring)
  refine ⟨T, x, ?_, hx⟩
  have hsa : a'.getShape = Except.ok [p, 1, I.prod] := by
    rw [getShape_eq wa, denseShape_eq, ra', bpre_some ba', ← hC]; rfl
  have hsb : b'.getShape = Except.ok [q, 1, J.prod] := by
    rw [getShape_eq wb, denseShape_eq, rb', bpre_some bb', ← hC]; rfl
  unfold pairwiseFlatInnerMatrixC
  have p1 : pyGet [I, D] 0 = Except.ok I := rfl
  have p2 : pyGet [I, J] 0 = Except.ok I := rfl
  have p3 : pyGet [J, D] 0 = Except.ok J := rfl
  have p4 : pyGet [I, J] 1 = Except.ok J := rfl
  have p5 : pyGet [p, 1, I.prod] 1 = Except.ok 1 := rfl
  have p6 : pyGet [q, 1, J.prod] 1 = Except.ok 1 := rfl
  simp only [require_pos (show a.isMatrix ∧ b.isMatrix ∧ M.isMatrix by
      simp [TT.isMatrix, rM, ra, rb]), free_bind, ra, rb, rM, p1, p2, p3, p4, require_pos, ea, eb, hsa,
    hsb, p5, p6, wa.pyCore wa.pos, wb.pyCore wb.pos, hM.pyCore hM.pos]
  exact e

end T3f
