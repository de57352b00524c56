import Verif.Spec.Cost
import Verif.Model.Cost
import Verif.Proofs.Inner
import Verif.Proofs.Pairwise
import Verif.Proofs.Bilinear

/-!
# The results and the counts of the counted functions
-/

namespace T3f

variable {K : Type} [CommRing K]

namespace Counted

variable {α β : Type}

theorem run_bind (x : Counted α) (f : α → Counted β) :
    (x >>= f).run = x.run >>= fun p => (f p.1).run >>= fun q => Except.ok (q.1, p.2 + q.2) := rfl

@[simp] theorem value_bind (x : Counted α) (f : α → Counted β) : (x >>= f).value = x.value >>= fun a => (f a).value := by
  unfold value
  rw [run_bind]
  rcases x.run with e | ⟨a, c⟩
  · rfl
  · show Except.map Prod.fst ((f a).run >>= _) = Except.map Prod.fst (f a).run
    rcases (f a).run with e | ⟨b, c'⟩ <;> rfl

@[simp] theorem value_charge (n : ℕ) (x : R α) : (charge n x).value = x := by
  rcases x with e | a <;> rfl

@[simp] theorem value_free (x : R α) : (free x).value = x := value_charge 0 x

@[simp] theorem value_pure (a : α) : (pure a : Counted α).value = Except.ok a := rfl

@[simp] theorem value_forRangeC (f : ℕ → α → Counted α) (a n : ℕ) (s : α) :
    (forRangeC f a n s).value = forRange (fun i s => (f i s).value) a n s := by
  induction n generalizing a s with
  | zero => rfl
  | succ n ih => simp [forRangeC, forRange, ih]

@[simp] theorem value_einsumC (S : Strategy) (spec : List (List Char) × List Char) (ops : List (Tensor K)) :
    (einsumC S spec ops).value = einsum spec ops := value_charge _ _

theorem free_bind (a : α) (f : α → Counted β) : (free (Except.ok a) >>= f) = f a := by
  rcases h : f a with ⟨e | ⟨b, c'⟩⟩
  · show Counted.mk ((f a).run >>= _) = _
    rw [h]; rfl
  · show Counted.mk ((f a).run >>= _) = _
    rw [h]
    show Counted.mk (Except.ok (b, 0 + c')) = _
    rw [Nat.zero_add]

theorem bind_ok {x : Counted α} {f : α → Counted β} {a : α} {c : ℕ} {b : β} {c' : ℕ} (hx : x.run = Except.ok (a, c))
    (hf : (f a).run = Except.ok (b, c')) : (x >>= f).run = Except.ok (b, c + c') := by
  rw [run_bind, hx, R.ok_bind, hf, R.ok_bind]

theorem bind_pure_ok {x : Counted α} {f : α → β} {a : α} {c : ℕ} (hx : x.run = Except.ok (a, c)) :
    (x >>= fun a => pure (f a)).run = Except.ok (f a, c) := bind_ok (c' := 0) hx rfl

end Counted

open Counted

theorem einsumC_ok (S : Strategy) {spec : List (List Char) × List Char} {ops : List (Tensor K)} {E : Tensor K}
    (h : einsum spec ops = Except.ok E) : (einsumC S spec ops).run = Except.ok (E, einsumCost S spec ops) := by
  rw [einsumC, h]; rfl

theorem value_innerLoopC (S : Strategy) (a b : TT K) (n : ℕ) (ax la lb lr : List Char) :
    (innerLoopC S a b n ax la lb lr).value = innerLoop a b n ax la lb lr := by
  simp [innerLoopC, innerLoop]

theorem value_flatInnerC (S : Strategy) (a b : TT K) : (flatInnerC S a b).value = flatInner a b := by
  simp [flatInnerC, flatInner, value_innerLoopC]

theorem value_bilinearFormC (S : Strategy) (A b c : TT K) : (bilinearFormC S A b c).value = bilinearForm A b c := by
  simp [bilinearFormC, bilinearForm]

theorem value_pairwiseFlatInnerC (S : Strategy) (a b : TT K) : (pairwiseFlatInnerC S a b).value = pairwiseFlatInner a b := by
  simp [pairwiseFlatInnerC, pairwiseFlatInner]

theorem value_pairwiseFlatInnerMatrixC (S : Strategy) (a b M : TT K) :
    (pairwiseFlatInnerMatrixC S a b M).value = pairwiseFlatInnerMatrix a b M := by
  simp [pairwiseFlatInnerMatrixC, pairwiseFlatInnerMatrix]

/-- The count of a loop is the sum of the counts of its steps. -/
theorem forRangeC_inv {σ : Type} (P : ℕ → σ → Prop) (B : ℕ → ℕ → Prop) (f : ℕ → σ → Counted σ) (a n : ℕ) (s : σ) (h0 : P a s)
    (hs : ∀ i s, a ≤ i → i < a + n → P i s → ∃ s' c, (f i s).run = Except.ok (s', c) ∧ P (i + 1) s' ∧ B i c) :
    ∃ s', ∃ c : ℕ → ℕ, (forRangeC f a n s).run = Except.ok (s', ∑ i ∈ Finset.range n, c (a + i)) ∧ P (a + n) s' ∧
      ∀ i < n, B (a + i) (c (a + i)) := by
  induction n generalizing a s with
  | zero => exact ⟨s, fun _ => 0, rfl, h0, by simp⟩
  | succ n ih =>
    obtain ⟨s1, c1, e1, h1, w1⟩ := hs a s le_rfl (by omega) h0
    obtain ⟨s2, c2, e2, h2, w2⟩ := ih (a + 1) s1 h1 (fun i s hi hi' h => hs i s (by omega) (by omega) h)
    have hc : ∀ i, (fun i => if i = a then c1 else c2 i) (a + 1 + i) = c2 (a + 1 + i) := fun i => if_neg (by omega)
    refine ⟨s2, fun i => if i = a then c1 else c2 i, ?_, by rw [show a + (n + 1) = a + 1 + n by omega]; exact h2, ?_⟩
    · have e3 : ∑ i ∈ Finset.range (n + 1), (fun i => if i = a then c1 else c2 i) (a + i) = c1 + ∑ i ∈ Finset.range n, c2 (a + 1 + i) := by
        rw [Finset.sum_range_succ', Nat.add_comm]
        congr 1
        · simp
        · refine Finset.sum_congr rfl fun i _ => ?_
          rw [show a + (i + 1) = a + 1 + i by omega]
          exact hc i
      rw [e3]
      exact bind_ok e1 e2
    · rintro (_ | i) hi
      · simpa using w1
      · rw [show a + (i + 1) = a + 1 + i by omega]
        rw [hc i]
        exact w2 i (by omega)

/-- A loop all of whose steps are cheap. -/
theorem forRangeC_le {σ : Type} (P : ℕ → σ → Prop) (w : ℕ) (f : ℕ → σ → Counted σ) (a n : ℕ) (s : σ) (h0 : P a s)
    (hs : ∀ i s, a ≤ i → i < a + n → P i s → ∃ s' c, (f i s).run = Except.ok (s', c) ∧ P (i + 1) s' ∧ c ≤ w) :
    ∃ s' c, (forRangeC f a n s).run = Except.ok (s', c) ∧ P (a + n) s' ∧ c ≤ n * w := by
  obtain ⟨s', c, e, h, hB⟩ := forRangeC_inv P (fun _ c => c ≤ w) f a n s h0 hs
  refine ⟨s', _, e, h, ?_⟩
  calc _ ≤ ∑ _i ∈ Finset.range n, w := Finset.sum_le_sum fun i hi => hB i (by simpa using hi)
    _ = n * w := by simp

/-- A loop with an expensive step. -/
theorem forRangeC_ge {σ : Type} (P : ℕ → σ → Prop) (w k : ℕ) (f : ℕ → σ → Counted σ) (a n : ℕ) (s : σ) (h0 : P a s)
    (hk : a ≤ k) (hk' : k < a + n)
    (hs : ∀ i s, a ≤ i → i < a + n → P i s → ∃ s' c, (f i s).run = Except.ok (s', c) ∧ P (i + 1) s' ∧ (i = k → w ≤ c)) :
    ∃ s' c, (forRangeC f a n s).run = Except.ok (s', c) ∧ P (a + n) s' ∧ w ≤ c := by
  obtain ⟨s', c, e, h, hB⟩ := forRangeC_inv P (fun i c => i = k → w ≤ c) f a n s h0 hs
  refine ⟨s', _, e, h, ?_⟩
  have := hB (k - a) (by omega) (by omega)
  exact this.trans (Finset.single_le_sum (f := fun i => c (a + i)) (fun _ _ => Nat.zero_le _) (by simp; omega))

/-! ## flat_inner -/

omit [CommRing K] in
/-- The number of multiplications of the einsum of the first step of `flat_inner`. -/
theorem innerCost_first (c : Char) (hc' : c = 'o' ∨ c = 'n') (ba bb : Option ℕ)
    (hc : ba = none ∨ bb = none ∨ ba = bb) (A B : Tensor K) (M : List ℕ) (ax : List Char)
    (hM : (M.length = 1 ∧ ax = chars! "i") ∨ (M.length = 2 ∧ ax = chars! "ij")) (ra rb ra' rb' : ℕ)
    (hA : A.shape = ba.toList ++ ra :: (M ++ [ra'])) (hB : B.shape = bb.toList ++ rb :: (M ++ [rb'])) :
    orderCost (innerSpec true ax (bLabel c ba) (bLabel c bb) (bLabel c (resBatch ba bb))) [A, B] [(0, 1)]
      = (resBatch ba bb).getD 1 * (ra * rb * M.prod * ra' * rb') := by
  rcases hM with ⟨hM, rfl⟩ | ⟨hM, rfl⟩
  · obtain ⟨i, rfl⟩ := List.length_eq_one_iff.1 hM
    rcases hc' with rfl | rfl <;>
    rcases batch_cases hc with ⟨rfl, rfl⟩ | ⟨s, rfl, rfl⟩ | ⟨s, rfl, rfl⟩ | ⟨s, rfl, rfl⟩ <;>
    simp [orderCost, pathCost, labelSize, jointLabels, innerSpec, bLabel, resBatch, einDims, hA, hB, List.lookup, lookupLabel,
      -mul_eq_mul_left_iff, -mul_eq_mul_right_iff] <;> ring
  · obtain ⟨i, j, rfl⟩ := List.length_eq_two.1 hM
    rcases hc' with rfl | rfl <;>
    rcases batch_cases hc with ⟨rfl, rfl⟩ | ⟨s, rfl, rfl⟩ | ⟨s, rfl, rfl⟩ | ⟨s, rfl, rfl⟩ <;>
    simp [orderCost, pathCost, labelSize, jointLabels, innerSpec, bLabel, resBatch, einDims, hA, hB, List.lookup, lookupLabel,
      -mul_eq_mul_left_iff, -mul_eq_mul_right_iff] <;> ring

omit [CommRing K] in
/-- The numbers of multiplications of the einsum of the following steps, for the three orders. -/
theorem innerCost_step (c : Char) (hc' : c = 'o' ∨ c = 'n') (ba bb : Option ℕ)
    (hc : ba = none ∨ bb = none ∨ ba = bb) (Q A B : Tensor K) (M : List ℕ) (ax : List Char)
    (hM : (M.length = 1 ∧ ax = chars! "i") ∨ (M.length = 2 ∧ ax = chars! "ij")) (ra rb ra' rb' : ℕ)
    (hQ : Q.shape = (resBatch ba bb).toList ++ [ra, rb])
    (hA : A.shape = ba.toList ++ ra :: (M ++ [ra'])) (hB : B.shape = bb.toList ++ rb :: (M ++ [rb'])) :
    let f := orderCost (innerSpec false ax (bLabel c ba) (bLabel c bb) (bLabel c (resBatch ba bb))) [Q, A, B];
      f [(0, 1), (0, 1)] = (resBatch ba bb).getD 1 * (ra * rb * M.prod * ra' + rb * M.prod * ra' * rb') ∧
      f [(0, 2), (0, 1)] = (resBatch ba bb).getD 1 * (ra * rb * M.prod * rb' + ra * M.prod * ra' * rb') ∧
      f [(1, 2), (0, 1)] = (resBatch ba bb).getD 1 * (ra * rb * M.prod * ra' * rb' + ra * rb * ra' * rb') := by
  intro f
  rcases hM with ⟨hM, rfl⟩ | ⟨hM, rfl⟩
  · obtain ⟨i, rfl⟩ := List.length_eq_one_iff.1 hM
    rcases hc' with rfl | rfl <;>
    rcases batch_cases hc with ⟨rfl, rfl⟩ | ⟨s, rfl, rfl⟩ | ⟨s, rfl, rfl⟩ | ⟨s, rfl, rfl⟩ <;>
    refine ⟨?_, ?_, ?_⟩ <;>
    simp [f, orderCost, pathCost, labelSize, jointLabels, contractPair, keptLabels, innerSpec, bLabel, resBatch, einDims, hQ, hA, hB, List.lookup, lookupLabel,
      -mul_eq_mul_left_iff, -mul_eq_mul_right_iff] <;> ring
  · obtain ⟨i, j, rfl⟩ := List.length_eq_two.1 hM
    rcases hc' with rfl | rfl <;>
    rcases batch_cases hc with ⟨rfl, rfl⟩ | ⟨s, rfl, rfl⟩ | ⟨s, rfl, rfl⟩ | ⟨s, rfl, rfl⟩ <;>
    refine ⟨?_, ?_, ?_⟩ <;>
    simp [f, orderCost, pathCost, labelSize, jointLabels, contractPair, keptLabels, innerSpec, bLabel, resBatch, einDims, hQ, hA, hB, List.lookup, lookupLabel,
      -mul_eq_mul_left_iff, -mul_eq_mul_right_iff] <;> ring

omit [CommRing K] in
theorem within_cost {S : Strategy} {κ : ℕ} (h : S.Within κ) (spec : List (List Char) × List Char) (ops : List (Tensor K))
    (p : List (ℕ × ℕ)) (hp : ValidPath spec.1.length p) : einsumCost S spec ops ≤ κ * orderCost spec ops p :=
  (h _ _ _).2 p hp

/-- The count of the loop of `flat_inner` from the counts of its einsums. -/
theorem innerLoopC_inv (S : Strategy) (c : Char) (hc' : c = 'o' ∨ c = 'n') {a b : TT K} (ha : a.WF) (hb : b.WF)
    (hr : a.rawShape = b.rawShape) (hc : a.batch = none ∨ b.batch = none ∨ a.batch = b.batch)
    (ax : List Char) (hax : ax = modeLabels a) (Bd : ℕ → ℕ → Prop)
    (h0 : Bd 0 (einsumCost S (innerSpec true ax (bLabel c a.batch) (bLabel c b.batch) (bLabel c (resBatch a.batch b.batch)))
      [a.core 0, b.core 0]))
    (hs : ∀ k T, 1 ≤ k → k < a.ndims → Tensor.shape T = (resBatch a.batch b.batch).toList ++ [a.rank k, b.rank k] →
      Bd k (einsumCost S (innerSpec false ax (bLabel c a.batch) (bLabel c b.batch) (bLabel c (resBatch a.batch b.batch)))
        [T, a.core k, b.core k])) :
    ∃ T, ∃ cs : ℕ → ℕ, (innerLoopC S a b a.ndims ax (bLabel c a.batch) (bLabel c b.batch)
        (bLabel c (resBatch a.batch b.batch))).run = Except.ok (T, ∑ k ∈ Finset.range a.ndims, cs k) ∧
      ∀ k < a.ndims, Bd k (cs k) := by
  have hn := ndims_eq_of_rawShape ha hb hr
  have hmod : ∀ k, b.modes k = a.modes k := fun k => by simp [TT.modes, hr]
  have hpos := ha.pos
  obtain ⟨E, eE, sE, -⟩ := innerEin_first c hc' a.batch b.batch hc (a.core 0) (b.core 0) (a.modes 0) ax
    (by rw [hax]; exact modeLabels_spec ha 0) _ _ _ _ (ha.core_shape 0 hpos)
    (by rw [← hmod]; exact hb.core_shape 0 (by omega))
  obtain ⟨T, cs, eT, -, hcs⟩ := forRangeC_inv
    (fun k T => Tensor.shape T = (resBatch a.batch b.batch).toList ++ [a.rank k, b.rank k]) Bd
    (fun k res => do
      let ac ← free (pyGet a.cores k)
      let bc ← free (pyGet b.cores k)
      einsumC S (innerSpec false ax (bLabel c a.batch) (bLabel c b.batch) (bLabel c (resBatch a.batch b.batch))) [res, ac, bc])
    1 (a.ndims - 1) E sE (by
      intro k T hk hk' sT
      obtain ⟨E', eE', sE', -⟩ := innerEin_step c hc' a.batch b.batch hc T (a.core k) (b.core k)
        (a.modes k) ax (by rw [hax]; exact modeLabels_spec ha k) _ _ _ _ sT (ha.core_shape k (by omega))
        (by rw [← hmod]; exact hb.core_shape k (by omega))
      refine ⟨E', _, ?_, sE', hs k T hk (by omega) sT⟩
      simp only [ha.pyCore (show k < a.ndims by omega), hb.pyCore (show k < b.ndims by omega), free_bind]
      exact einsumC_ok S eE')
  refine ⟨T, fun k => if k = 0 then einsumCost S (innerSpec true ax (bLabel c a.batch) (bLabel c b.batch)
    (bLabel c (resBatch a.batch b.batch))) [a.core 0, b.core 0] else cs k, ?_, fun k hk => ?_⟩
  rotate_left
  · beta_reduce
    by_cases h : k = 0
    · subst h
      rw [if_pos rfl]
      exact h0
    · rw [if_neg h]
      have := hcs (k - 1) (by omega)
      rwa [show 1 + (k - 1) = k by omega] at this
  · unfold innerLoopC
    simp only [ha.pyCore hpos, hb.pyCore (show 0 < b.ndims by omega), free_bind]
    refine (bind_ok (einsumC_ok S eE) eT).trans ?_
    obtain ⟨d, hd⟩ : ∃ d, a.ndims = d + 1 := ⟨a.ndims - 1, by omega⟩
    rw [hd, Finset.sum_range_succ', Nat.add_comm]
    simp [Nat.add_comm 1]

omit [CommRing K] in
/-- The step of the induction over the cores of a sum of counts. -/
theorem sum_cost_le {d w : ℕ} {cs : ℕ → ℕ} (h : ∀ k < d, cs k ≤ w) : ∑ k ∈ Finset.range d, cs k ≤ d * w := by
  calc _ ≤ ∑ _k ∈ Finset.range d, w := Finset.sum_le_sum fun k hk => h k (by simpa using hk)
    _ = d * w := by simp

/-- The loop of `flat_inner` if each einsum is charged at most `w`. -/
theorem flatInnerC_le (S : Strategy) {a b : TT K} (ha : a.WF) (hb : b.WF) (hr : a.rawShape = b.rawShape)
    (hc : BCompat a.batch b.batch) {r1 r2 n : ℕ} (h1 : ∀ k ≤ a.ndims, a.rank k ≤ r1) (h2 : ∀ k ≤ b.ndims, b.rank k ≤ r2)
    (hn : ∀ k < a.ndims, (a.modes k).prod ≤ n) (w : ℕ)
    (hfirst : ∀ (spec : List (List Char) × List Char) (ops : List (Tensor K)), spec.1.length = 2 → ∀ m x y, m ≤ n → x ≤ r1 → y ≤ r2 →
      orderCost spec ops [(0, 1)] = (bcast a.batch b.batch).getD 1 * (m * x * y) → einsumCost S spec ops ≤ w)
    (hstep : ∀ (spec : List (List Char) × List Char) (ops : List (Tensor K)), spec.1.length = 3 → ∀ m x y x' y', m ≤ n → x ≤ r1 → y ≤ r2 →
      x' ≤ r1 → y' ≤ r2 →
      orderCost spec ops [(0, 1), (0, 1)] = (bcast a.batch b.batch).getD 1 * (x * y * m * x' + y * m * x' * y') →
      orderCost spec ops [(0, 2), (0, 1)] = (bcast a.batch b.batch).getD 1 * (x * y * m * y' + x * m * x' * y') →
      orderCost spec ops [(1, 2), (0, 1)] = (bcast a.batch b.batch).getD 1 * (x * y * m * x' * y' + x * y * x' * y') →
      einsumCost S spec ops ≤ w) :
    ∃ T c, (flatInnerC S a b).run = Except.ok (T, c) ∧ flatInner a b = Except.ok T ∧ c ≤ a.ndims * w := by
  have hnd := ndims_eq_of_rawShape ha hb hr
  obtain ⟨A, eA, wA, rA, kA, nA, bA, vA⟩ := squeeze_bsel ha
  obtain ⟨B, eB, wB, rB, kB, nB, bB, vB⟩ := squeeze_bsel hb
  have hcases : A.batch = none ∨ B.batch = none ∨ A.batch = B.batch := by
    rw [bA, bB]; exact squeezed_cases hc
  have hres : resBatch A.batch B.batch = squeezed (bcast a.batch b.batch) := by
    rw [bA, bB]; exact resBatch_squeezed hc
  have hresD : (resBatch A.batch B.batch).getD 1 = (bcast a.batch b.batch).getD 1 := by rw [hres, squeezed_getD]
  have hmod : ∀ k, A.modes k = a.modes k := fun k => by simp [TT.modes, rA]
  have hmodB : ∀ k, B.modes k = A.modes k := fun k => by simp [TT.modes, rA, rB, hr]
  have hnAB : A.ndims = B.ndims := by omega
  have rkA : ∀ k, A.rank k = a.rank k := fun k => by simp [TT.rank, kA]
  have rkB : ∀ k, B.rank k = b.rank k := fun k => by simp [TT.rank, kB]
  have hpos := wA.pos
  obtain ⟨T, cs, eT, hcs⟩ := innerLoopC_inv S 'o' (Or.inl rfl) wA wB (by rw [rA, rB, hr]) hcases (modeLabels a)
    (modeLabels_congr rA) (fun _ c => c ≤ w) (by
      have := innerCost_first 'o' (Or.inl rfl) A.batch B.batch hcases (A.core 0) (B.core 0) (A.modes 0) (modeLabels a)
        (by rw [modeLabels_congr rA]; exact modeLabels_spec wA 0) _ _ _ _ (wA.core_shape 0 hpos)
        (by rw [← hmodB]; exact wB.core_shape 0 (by omega))
      rw [hresD, wA.rank_first, wB.rank_first, hmod] at this
      refine hfirst _ _ (by simp [innerSpec]) _ _ _ (hn 0 (by omega)) (h1 1 (by omega)) (h2 1 (by omega)) (this.trans ?_)
      rw [rkA, rkB]; ring) (by
      intro k T hk hk' sT
      obtain ⟨c1, c2, c3⟩ := innerCost_step 'o' (Or.inl rfl) A.batch B.batch hcases T (A.core k) (B.core k) (A.modes k) (modeLabels a)
        (by rw [modeLabels_congr rA]; exact modeLabels_spec wA k) _ _ _ _ sT (wA.core_shape k hk')
        (by rw [← hmodB]; exact wB.core_shape k (by omega))
      rw [hresD, hmod] at c1 c2 c3
      refine hstep _ _ (by simp [innerSpec]) _ _ _ _ _ (hn k (by omega)) ?_ ?_ ?_ ?_ c1 c2 c3
      · rw [rkA]; exact h1 k (by omega)
      · rw [rkB]; exact h2 k (by omega)
      · rw [rkA]; exact h1 (k + 1) (by omega)
      · rw [rkB]; exact h2 (k + 1) (by omega))
  have hrun : (flatInnerC S a b).run = Except.ok (squeezeAll T, ∑ k ∈ Finset.range A.ndims, cs k) := by
    unfold flatInnerC
    simp only [require_pos (show a.isMatrix ↔ b.isMatrix by simp [TT.isMatrix, hr]),
      require_pos ((isBroadcast_iff a b).2 hc), require_pos hnd.symm, free_bind, eA, eB]
    rw [← nA]
    exact bind_pure_ok eT
  refine ⟨_, _, hrun, ?_, ?_⟩
  · rw [← value_flatInnerC S a b, Counted.value, hrun]; rfl
  · rw [← nA]; exact sum_cost_le hcs

end T3f
