import Verif.Props.C70Routines
import Verif.Props.C31Round
import Mathlib.Tactic.FinCases

/-! # C70: ties -/

namespace T3f

open Matrix

/-- The first columns of the factors of the identity matrix of size two. -/
def tieCol (w : Bool) (i j : ℕ) : ℝ := if w then (if i = j then 1 else 0) else if i = j then 0 else 1

theorem svd_prescribed (w : Bool) : ∃ svd : SVDRoutine, svd.Correct ∧
    (∀ i j : Fin 2, svd.u 2 2 1 i j = tieCol w i j ∧ svd.v 2 2 1 i j = tieCol w i j) ∧ ∀ i : Fin 2, svd.s 2 2 1 i = 1 := by
  have key : ∀ n m (A : Matrix (Fin n) (Fin m) ℝ), ∃ (s : Fin (min n m) → ℝ) (u : Matrix (Fin n) (Fin (min n m)) ℝ)
      (v : Matrix (Fin m) (Fin (min n m)) ℝ), (uᵀ * u = 1 ∧ vᵀ * v = 1 ∧ (∀ i, 0 ≤ s i) ∧ Antitone s ∧ u * diagonal s * vᵀ = A) ∧
      (n = 2 → m = 2 → (∀ i j, A i j = if (i : ℕ) = j then 1 else 0) →
        (∀ i j, u i j = tieCol w i j) ∧ (∀ i j, v i j = tieCol w i j) ∧ ∀ i, s i = 1) := by
    intro n m A
    by_cases h : n = 2 ∧ m = 2 ∧ ∀ (i : Fin n) (j : Fin m), A i j = if (i : ℕ) = j then 1 else 0
    · obtain ⟨rfl, rfl, hA⟩ := h
      have hW : (Matrix.of fun i j : Fin 2 => tieCol w i j) * (Matrix.of fun i j : Fin 2 => tieCol w i j)ᵀ = 1 := by
        ext i j
        fin_cases i <;> fin_cases j <;> cases w <;> simp [Matrix.mul_apply, tieCol]
      have hA1 : A = 1 := by
        ext i j
        rw [hA]
        fin_cases i <;> fin_cases j <;> simp
      refine ⟨fun _ => 1, Matrix.of fun (i : Fin 2) (j : Fin 2) => tieCol w i j, Matrix.of fun (i : Fin 2) (j : Fin 2) => tieCol w i j,
        ⟨mul_eq_one_comm.1 hW, mul_eq_one_comm.1 hW, fun _ => zero_le_one, fun _ _ _ => le_rfl, ?_⟩, fun _ _ _ => ⟨fun _ _ => rfl, fun _ _ => rfl, fun _ => rfl⟩⟩
      have : (diagonal fun _ : Fin 2 => (1 : ℝ)) = 1 := diagonal_one
      rw [hA1]
      show (Matrix.of fun i j : Fin 2 => tieCol w i j) * (diagonal fun _ : Fin 2 => (1 : ℝ)) * (Matrix.of fun i j : Fin 2 => tieCol w i j)ᵀ = 1
      rw [this, Matrix.mul_one, hW]
    · obtain ⟨svd, hs⟩ := svdRoutine_exists
      exact ⟨svd.s n m A, svd.u n m A, svd.v n m A, hs n m A, fun h1 h2 h3 => absurd ⟨h1, h2, h3⟩ h⟩
  choose s u v h1 h2 using key
  refine ⟨⟨s, u, v⟩, h1, ?_⟩
  obtain ⟨a, b, c⟩ := h2 2 2 1 rfl rfl (fun i j => by fin_cases i <;> fin_cases j <;> simp)
  exact ⟨fun i j => ⟨a i j, b i j⟩, c⟩

/-- The identity matrix of size two as a dense tensor with two axes. -/
def eyeDense : Tensor ℝ := ⟨[2, 2], fun i => if i.getD 0 0 = i.getD 1 0 then 1 else 0⟩

/-- The matrix of which `to_tt_tensor` takes the singular value decomposition. -/
noncomputable def tieMat : Matrix (Fin 2) (Fin 2) ℝ := fun i j => eyeDense.get (unravel [2, 2] (ravel [2, 2] ([] ++ [(i : ℕ), (j : ℕ)])))

theorem tieMat_eq : tieMat = 1 := by
  ext i j
  fin_cases i <;> fin_cases j <;> simp [tieMat, eyeDense, unravel, ravel]

theorem toTT_tie (svd : SVDRoutine) : ∃ x, toTTTensor svd eyeDense (.num 1) none = Except.ok x ∧ x.ndims = 2 ∧ x.rank 0 = 1 ∧ x.rank 1 = 1 ∧
    (∀ i : Fin 2, (x.core 0).get [0, i, 0] = svd.u 2 2 tieMat i ⟨0, by decide⟩) ∧
    ∀ j : Fin 2, (x.core 1).get [0, j, 0] = svd.s 2 2 tieMat ⟨0, by decide⟩ * svd.v 2 2 tieMat j ⟨0, by decide⟩ := by
  have e : toTTTensor svd eyeDense (.num 1) none = _ := rfl
  refine ⟨_, e, rfl, rfl, rfl, ?_, ?_⟩
  · intro i; fin_cases i <;> rfl
  · intro i
    fin_cases i <;>
    · have hM : (of fun i j : Fin 2 => if ((i : ℕ) * 2 + j) / 2 = (j : ℕ) % 2 then (1 : ℝ) else 0) = tieMat := by
        rw [tieMat_eq]
        ext i j
        fin_cases i <;> fin_cases j <;> simp
      simp [TT.core, keptRank, knownProd, selShape, unravel, ravel, eyeDense, slicePositions, clipBound, selIdx, ofVecs, ofMats, Tensor.mat,
        List.range_succ]
      rw [← hM]
      rfl

theorem entry_two {x : TT ℝ} (h2 : x.ndims = 2) (h0 : x.rank 0 = 1) (h1 : x.rank 1 = 1) (i j : ℕ) :
    x.entry [] (tIdx [i, j]) = (x.core 0).get [0, i, 0] * (x.core 1).get [0, j, 0] := by
  simp [TT.entry, h2, lprod, h0, h1, TT.slice, tIdx]

theorem restModes_two (i j n m : ℕ) : restModes [[n, m]] [i, j] = tIdx [i, j] := by
  rfl

/-- C70: with ties the result depends on the routine: there are correct routines for which `to_tt_tensor` with `max_tt_rank=1` approximates the identity
matrix of size two (a tensor with two axes) by different tensors. -/
theorem C70_tensor_tie : ∃ (svd svd' : SVDRoutine) (x x' : TT ℝ) (Y Y' : Tensor ℝ), svd.Correct ∧ svd'.Correct ∧
    toTTTensor svd eyeDense (.num 1) none = Except.ok x ∧ toTTTensor svd' eyeDense (.num 1) none = Except.ok x' ∧
    full x = Except.ok Y ∧ full x' = Except.ok Y' ∧ Y.get [0, 0] = 1 ∧ Y.get [1, 1] = 0 ∧ Y'.get [0, 0] = 0 ∧ Y'.get [1, 1] = 1 := by
  have key : ∀ w, ∃ (svd : SVDRoutine) (x : TT ℝ) (Y : Tensor ℝ), svd.Correct ∧ toTTTensor svd eyeDense (.num 1) none = Except.ok x ∧
      full x = Except.ok Y ∧ ∀ i j : Fin 2, Y.get [i, j] = tieCol w i 0 * tieCol w j 0 := by
    intro w
    obtain ⟨svd, hs, huv, hs1⟩ := svd_prescribed w
    obtain ⟨x, e, r0, r1, r2, h0, h1⟩ := toTT_tie svd
    obtain ⟨x', e', f⟩ := toTTTensor_fit hs (X := eyeDense) (by simp [eyeDense]) (by simp [eyeDense]) (m := .num 1) (b := fun _ => 1)
      (Or.inl ⟨1, by omega, Or.inl rfl, fun _ => rfl⟩) (eps := none) (by simp)
    obtain rfl : x' = x := Except.ok.inj (e'.symm.trans e)
    obtain ⟨Y, eY, sY, vY⟩ := full_single f.wf f.batch
    have hr : x'.rawShape = [[2, 2]] := by rw [f.rows, xTT_rawShape]; rfl
    rw [hr] at vY
    refine ⟨svd, x', Y, hs, e, eY, fun i j => ?_⟩
    have hv : Valid (restShape [[2, 2]]) [(i : ℕ), (j : ℕ)] := ⟨i.2, j.2, trivial⟩
    rw [vY _ hv, restModes_two, entry_two r0 r1 r2, h0, h1, tieMat_eq]
    rw [(huv i ⟨0, by decide⟩).1]
    rw [(huv j ⟨0, by decide⟩).2]
    rw [show svd.s 2 2 1 ⟨0, by decide⟩ = 1 from hs1 0, one_mul]
  obtain ⟨svd, x, Y, h1, h2, h3, h4⟩ := key true
  obtain ⟨svd', x', Y', h1', h2', h3', h4'⟩ := key false
  refine ⟨svd, svd', x, x', Y, Y', h1, h1', h2, h2', h3, h3', ?_, ?_, ?_, ?_⟩
  · simpa [tieCol] using h4 0 0
  · simpa [tieCol] using h4 1 1
  · simpa [tieCol] using h4' 0 0
  · simpa [tieCol] using h4' 1 1

theorem reshape_none_two {n : ℕ} {X : Tensor ℝ} (h : X.shape.prod = n * 2) :
    reshape X [none, some 2] = Except.ok ⟨[n, 2], fun idx => X.get (unravel X.shape (ravel [n, 2] idx))⟩ := by
  have : resolveShape X.shape.prod [none, some 2] = Except.ok [n, 2] := by
    rw [h]; simp [resolveShape, knownProd]
  unfold reshape
  rw [this]; rfl

/-- The matrix of which `round` takes the singular value decomposition. -/
noncomputable def lastMat (g : List ℕ → ℝ) : Matrix (Fin 2) (Fin 2) ℝ := of fun i j => g [(i * 2 + j) / 2, j % 2, j % 1]

theorem roundStep_tie (f g : List ℕ → ℝ) (svd : SVDRoutine) :
    ∃ x y, roundStep svd exEye2.toReal [1, 1, 1] 1 ([⟨[1, 2, 2], f⟩, ⟨[2, 2, 1], g⟩], [1, 1, 1]) = Except.ok ([⟨[2, 1], x⟩, ⟨[1, 2, 1], y⟩], [1, 1, 1]) ∧
      (∀ j : Fin 2, y [0, j, 0] = svd.v 2 2 (lastMat g) j ⟨0, by decide⟩) ∧
      ∀ i : Fin 2, x [i, 0] = (f [0, i, 0] * svd.u 2 2 (lastMat g) 0 ⟨0, by decide⟩ + f [0, i, 1] * svd.u 2 2 (lastMat g) 1 ⟨0, by decide⟩) *
        svd.s 2 2 (lastMat g) ⟨0, by decide⟩ := by
  unfold roundStep
  have e1 : reshape (⟨[2, 2, 1], g⟩ : Tensor ℝ) [none, some 2] = _ := reshape_none_two (n := 2) rfl
  have e2 : reshape (⟨[1, 2, 2], f⟩ : Tensor ℝ) [none, some 2] = _ := reshape_none_two (n := 2) rfl
  change ∃ x y, (reshape (⟨[2, 2, 1], g⟩ : Tensor ℝ) [none, some 2] >>= _) = Except.ok (([⟨[2, 1], x⟩, ⟨[1, 2, 1], y⟩] : List (Tensor ℝ)), [1, 1, 1]) ∧ _
  rw [e1]
  simp only [exEye2, TT.toReal, coreModes, R.ok_bind, pyGet, e2, Option.toList, List.length_nil, List.map_nil, List.nil_append, List.prod_cons,
    List.prod_nil, mul_one, List.map_cons, Nat.reduceSub, List.getD_cons_zero, List.getD_cons_succ, List.range_zero, List.getElem?_cons_zero,
    List.getElem?_cons_succ]
  refine ⟨_, _, rfl, ?_, ?_⟩
  · intro i
    fin_cases i <;>
    · simp [keptRank, selShape, unravel, ravel, slicePositions, clipBound, selIdx, ofMats, Tensor.mat, List.range_succ]
      rfl
  · intro i
    fin_cases i <;>
    · simp [keptRank, unravel, ravel, slicePositions, clipBound, selIdx, ofVecs, ofMats, Tensor.mat, List.range_succ]
      rw [Finset.sum_range_succ, Finset.sum_range_one]
      rfl

theorem qr_prescribed : ∃ qr : QRRoutine, qr.Correct ∧ (∀ i j : Fin 2, qr.q 2 2 1 i j = if i = j then 1 else 0) ∧
    ∀ i j : Fin 2, qr.r 2 2 1 i j = if i = j then 1 else 0 := by
  have key : ∀ n m (A : Matrix (Fin n) (Fin m) ℝ), ∃ (q : Matrix (Fin n) (Fin (min n m)) ℝ) (r : Matrix (Fin (min n m)) (Fin m) ℝ),
      (qᵀ * q = 1 ∧ q * r = A ∧ ∀ (i : Fin (min n m)) (j : Fin m), (j : ℕ) < i → r i j = 0) ∧
      (n = 2 → m = 2 → (∀ i j, A i j = if (i : ℕ) = j then 1 else 0) →
        (∀ i j, q i j = if (i : ℕ) = j then 1 else 0) ∧ ∀ i j, r i j = if (i : ℕ) = j then 1 else 0) := by
    intro n m A
    by_cases h : n = 2 ∧ m = 2 ∧ ∀ (i : Fin n) (j : Fin m), A i j = if (i : ℕ) = j then 1 else 0
    · obtain ⟨rfl, rfl, hA⟩ := h
      have hA1 : A = 1 := by
        ext i j
        rw [hA]
        fin_cases i <;> fin_cases j <;> simp
      have h1 : ∀ i j : Fin 2, (1 : Matrix (Fin 2) (Fin 2) ℝ) i j = if (i : ℕ) = j then 1 else 0 := by
        intro i j
        fin_cases i <;> fin_cases j <;> simp
      refine ⟨(1 : Matrix (Fin 2) (Fin 2) ℝ), (1 : Matrix (Fin 2) (Fin 2) ℝ), ⟨?_, ?_, fun i j hij => ?_⟩, fun _ _ _ => ⟨h1, h1⟩⟩
      · exact (by rw [transpose_one, Matrix.mul_one] : (1 : Matrix (Fin 2) (Fin 2) ℝ)ᵀ * (1 : Matrix (Fin 2) (Fin 2) ℝ) = 1)
      · rw [hA1]; exact Matrix.mul_one (1 : Matrix (Fin 2) (Fin 2) ℝ)
      · refine (h1 i j).trans (if_neg (by omega))
    · obtain ⟨qr, hs⟩ := qrRoutine_exists
      exact ⟨qr.q n m A, qr.r n m A, hs n m A, fun h1 h2 h3 => absurd ⟨h1, h2, h3⟩ h⟩
  choose q r h1 h2 using key
  obtain ⟨a, b⟩ := h2 2 2 1 rfl rfl (fun i j => by fin_cases i <;> fin_cases j <;> simp)
  exact ⟨⟨q, r⟩, h1, fun i j => (a i j).trans (by simp only [Fin.ext_iff]), fun i j => (b i j).trans (by simp only [Fin.ext_iff])⟩

/-- The matrix of which `round` takes the QR decomposition. -/
def firstMat : Matrix (Fin 2) (Fin 2) ℝ :=
  of fun i j => (([1, 0, 0, 1][((i : ℕ) * 2 + j) / 4 * 4 + (((i : ℕ) * 2 + j) % 4 / 2 * 2 + (j : ℕ) % 2)]?.getD 0 : ℤ) : ℝ)

theorem firstMat_eq : firstMat = 1 := by
  ext i j
  fin_cases i <;> fin_cases j <;> simp [firstMat]

theorem orthoLR_tie (qr : QRRoutine) : ∃ f g o, orthogonalize qr exEye2.toReal true = Except.ok o ∧ o.cores = [⟨[1, 2, 2], f⟩, ⟨[2, 2, 1], g⟩] ∧
    (∀ i j : Fin 2, f [0, i, j] = qr.q 2 2 firstMat i j) ∧ ∀ i j : Fin 2, lastMat g i j = qr.r 2 2 firstMat i j := by
  have e : orthogonalize qr exEye2.toReal true = _ := rfl
  refine ⟨_, _, _, e, rfl, ?_, ?_⟩
  · intro i j
    fin_cases i <;> fin_cases j <;>
    · simp [unravel, ravel, exEye2, TT.toReal, ofMats, Tensor.mat, Tensor.map, Tensor.ofList, coreModes]
      rfl
  · intro i j
    rw [lastMat]
    fin_cases i <;> fin_cases j <;>
    · simp [unravel, ravel, exEye2, TT.toReal, ofMats, Tensor.mat, Tensor.map, Tensor.ofList, coreModes, knownProd, TT.ndims]
      rw [Finset.sum_range_succ, Finset.sum_range_one]
      simp
      rfl

theorem round_tie {qr : QRRoutine} {svd : SVDRoutine} (hq : ∀ i j : Fin 2, qr.q 2 2 1 i j = if i = j then 1 else 0)
    (hr : ∀ i j : Fin 2, qr.r 2 2 1 i j = if i = j then 1 else 0) :
    ∃ x, ttRound qr svd exEye2.toReal (.num 1) none = Except.ok x ∧ x.ndims = 2 ∧ x.rank 0 = 1 ∧ x.rank 1 = 1 ∧
      (∀ i : Fin 2, (x.core 0).get [0, i, 0] = svd.u 2 2 1 i ⟨0, by decide⟩ * svd.s 2 2 1 ⟨0, by decide⟩) ∧
      ∀ j : Fin 2, (x.core 1).get [0, j, 0] = svd.v 2 2 1 j ⟨0, by decide⟩ := by
  obtain ⟨f, g, o, eo, co, hf, hg⟩ := orthoLR_tie qr
  obtain ⟨x, y, es, hy, hx⟩ := roundStep_tie f g svd
  have hL : lastMat g = 1 := by
    ext i j
    rw [hg, firstMat_eq, hr, Matrix.one_apply]
  rw [hL] at hx hy
  have hF : ∀ i j : Fin 2, f [0, i, j] = if i = j then 1 else 0 := fun i j => by rw [hf, firstMat_eq, hq]
  have e : ttRound qr svd exEye2.toReal (.num 1) none = roundWith qr svd exEye2.toReal [1, 1, 1] := rfl
  have e1 : forRange (fun j => roundStep svd exEye2.toReal [1, 1, 1] (exEye2.toReal.ndims - 1 - j)) 0 (exEye2.toReal.ndims - 1)
      (o.cores, List.replicate (exEye2.toReal.ndims + 1) 1) = Except.ok ([⟨[2, 1], x⟩, ⟨[1, 2, 1], y⟩], [1, 1, 1]) := by
    rw [co]
    exact (congrArg (fun z => z >>= _) es).trans rfl
  rw [e]
  unfold roundWith
  rw [eo, R.ok_bind, e1, R.ok_bind]
  refine ⟨_, rfl, rfl, rfl, rfl, ?_, ?_⟩
  · intro i
    have h0 := hF i 0
    have h1 := hF i 1
    have hx := hx i
    have k1 : ∀ a b c d s : ℝ, a = 1 → b = 0 → (a * c + b * d) * s = c * s := by
      intro a b c d s h h'; rw [h, h']; ring
    have k2 : ∀ a b c d s : ℝ, a = 0 → b = 1 → (a * c + b * d) * s = d * s := by
      intro a b c d s h h'; rw [h, h']; ring
    fin_cases i
    · exact hx.trans (k1 _ _ _ _ _ h0 h1)
    · exact hx.trans (k2 _ _ _ _ _ h0 h1)
  · intro i
    fin_cases i <;> exact hy _

/-- C70: the same for `round`: there are correct routines for which rounding the identity matrix of size two (a tensor train with two modes) to rank
one gives different tensors. -/
theorem C70_round_tie : ∃ (qr : QRRoutine) (svd svd' : SVDRoutine) (x x' : TT ℝ) (Y Y' : Tensor ℝ), qr.Correct ∧ svd.Correct ∧ svd'.Correct ∧
    ttRound qr svd exEye2.toReal (.num 1) none = Except.ok x ∧ ttRound qr svd' exEye2.toReal (.num 1) none = Except.ok x' ∧
    full x = Except.ok Y ∧ full x' = Except.ok Y' ∧ Y.get [0, 0] = 1 ∧ Y.get [1, 1] = 0 ∧ Y'.get [0, 0] = 0 ∧ Y'.get [1, 1] = 1 := by
  obtain ⟨qr, hqr, hq, hr⟩ := qr_prescribed
  have key : ∀ w, ∃ (svd : SVDRoutine) (x : TT ℝ) (Y : Tensor ℝ), svd.Correct ∧ ttRound qr svd exEye2.toReal (.num 1) none = Except.ok x ∧
      full x = Except.ok Y ∧ ∀ i j : Fin 2, Y.get [i, j] = tieCol w i 0 * tieCol w j 0 := by
    intro w
    obtain ⟨svd, hs, huv, hs1⟩ := svd_prescribed w
    obtain ⟨x, e, r0, r1, r2, h0, h1⟩ := round_tie (svd := svd) hq hr
    obtain ⟨x', e', hw, hrs, hb, -⟩ := C31_ranks hqr hs exEye2_wf (by simp [TT.ModesPos, TT.toReal, exEye2]) (m := .num 1) (b := fun _ => 1)
      (Or.inl ⟨1, by omega, Or.inl rfl, fun _ => rfl⟩) (fun h => by simp [TT.isBatch, TT.toReal, exEye2] at h) (eps := none) (by simp)
    obtain rfl : x' = x := Except.ok.inj (e'.symm.trans e)
    obtain ⟨Y, eY, sY, vY⟩ := full_single hw hb
    have hr : x'.rawShape = [[2, 2]] := hrs
    rw [hr] at vY
    refine ⟨svd, x', Y, hs, e, eY, fun i j => ?_⟩
    have hv : Valid (restShape [[2, 2]]) [(i : ℕ), (j : ℕ)] := ⟨i.2, j.2, trivial⟩
    rw [vY _ hv, restModes_two, entry_two r0 r1 r2, h0, h1]
    rw [(huv i ⟨0, by decide⟩).1]
    rw [(huv j ⟨0, by decide⟩).2]
    rw [show svd.s 2 2 1 ⟨0, by decide⟩ = 1 from hs1 0, mul_one]
  obtain ⟨svd, x, Y, h1, h2, h3, h4⟩ := key true
  obtain ⟨svd', x', Y', h1', h2', h3', h4'⟩ := key false
  refine ⟨qr, svd, svd', x, x', Y, Y', hqr, h1, h1', h2, h2', h3, h3', ?_, ?_, ?_, ?_⟩
  · simpa [tieCol] using h4 0 0
  · simpa [tieCol] using h4 1 1
  · simpa [tieCol] using h4' 0 0
  · simpa [tieCol] using h4' 1 1

theorem reshape_none_one {n : ℕ} {X : Tensor ℝ} (h : X.shape.prod = n) :
    reshape X [none, some 1] = Except.ok ⟨[n, 1], fun idx => X.get (unravel X.shape (ravel [n, 1] idx))⟩ := by
  have : resolveShape X.shape.prod [none, some 1] = Except.ok [n, 1] := by
    rw [h]; simp [resolveShape, knownProd, Nat.mod_one]
  unfold reshape
  rw [this]; rfl

/-- The last core as a column. -/
noncomputable def colMat (g : List ℕ → ℝ) : Matrix (Fin 2) (Fin 1) ℝ :=
  of fun i j => g [ravel [1, 2] (List.map (fun a => [(i : ℕ), (j : ℕ)][List.idxOf a [1, 0]]?.getD 0) (List.range 2)) / 2,
    ravel [1, 2] (List.map (fun a => [(i : ℕ), (j : ℕ)][List.idxOf a [1, 0]]?.getD 0) (List.range 2)) % 2,
    ravel [1, 2] (List.map (fun a => [(i : ℕ), (j : ℕ)][List.idxOf a [1, 0]]?.getD 0) (List.range 2)) % 1]

theorem orthoRL_two (f g : List ℕ → ℝ) (qr : QRRoutine) :
    ∃ r, orthogonalize qr ⟨[⟨[1, 2, 1], f⟩, ⟨[1, 2, 1], g⟩], [[2, 2]], [1, 1, 1], none⟩ false = Except.ok r ∧
      ∀ i : Fin 2, (r.core 1).get [0, i, 0] = qr.q 2 1 (colMat g) i ⟨0, by decide⟩ := by
  have e : ∃ x y, orthoRLStep qr ⟨[⟨[1, 2, 1], f⟩, ⟨[1, 2, 1], g⟩], [[2, 2]], [1, 1, 1], none⟩ 1 ([⟨[1, 2, 1], f⟩, ⟨[1, 2, 1], g⟩], 1) =
      Except.ok ([⟨[2, 1], x⟩, ⟨[1, 2, 1], y⟩], 1) ∧ ∀ i : Fin 2, y [0, i, 0] = qr.q 2 1 (colMat g) i ⟨0, by decide⟩ := by
    unfold orthoRLStep
    have e2 : reshape (⟨[1, 2, 1], f⟩ : Tensor ℝ) [none, some 1] = _ := reshape_none_one (n := 2) rfl
    change ∃ x y, (reshape (⟨[1, 2, 1], f⟩ : Tensor ℝ) [none, some 1] >>= _) = Except.ok (([⟨[2, 1], x⟩, ⟨[1, 2, 1], y⟩] : List (Tensor ℝ)), 1) ∧ _
    rw [e2]
    refine ⟨_, _, rfl, ?_⟩
    intro i
    fin_cases i <;>
    · simp [unravel, ravel, ofMats, Tensor.mat, coreModes]
      rfl
  obtain ⟨x, y, e, h⟩ := e
  let t : TT ℝ := ⟨[⟨[1, 2, 1], f⟩, ⟨[1, 2, 1], g⟩], [[2, 2]], [1, 1, 1], none⟩
  have e1 : forRange (fun j => orthoRLStep qr t (t.ndims - 1 - j)) 0 (t.ndims - 1) (t.cores, 1) = Except.ok ([⟨[2, 1], x⟩, ⟨[1, 2, 1], y⟩], 1) :=
    (congrArg (fun z => z >>= _) e).trans rfl
  have e2 : orthogonalize qr t false = orthoRL qr t := rfl
  have e3 : pyGet t.ttRanks t.ndims = Except.ok 1 := rfl
  change ∃ r, orthogonalize qr t false = _ ∧ _
  rw [e2]
  unfold orthoRL
  rw [e3, R.ok_bind, e1, R.ok_bind]
  exact ⟨_, rfl, h⟩

/-- The zero tensor with two modes, with TT-rank one. -/
def exZero2 : TT ℝ where
  cores := [⟨[1, 2, 1], fun _ => 0⟩, ⟨[1, 2, 1], fun _ => 0⟩]
  rawShape := [[2, 2]]
  ttRanks := [1, 1, 1]
  batch := none

theorem orthoLR_zero (qr : QRRoutine) : ∃ f g, orthogonalize qr exZero2 true = Except.ok ⟨[⟨[1, 2, 1], f⟩, ⟨[1, 2, 1], g⟩], [[2, 2]], [1, 1, 1], none⟩ ∧
    (∀ i : Fin 2, f [0, i, 0] = qr.q 2 1 0 i ⟨0, by decide⟩) ∧ ∀ idx, g idx = 0 := by
  have e : orthogonalize qr exZero2 true = _ := rfl
  refine ⟨_, _, e, ?_, ?_⟩
  · intro i
    fin_cases i <;>
    · simp [unravel, ravel, exZero2, ofMats, Tensor.mat, coreModes]
      rfl
  · intro idx
    simp [unravel, exZero2, ofMats, Tensor.mat, coreModes]

theorem frame_zero (qr : QRRoutine) : ∃ left right, tangentFrame qr exZero2 = Except.ok (left, right) ∧
    (∀ i : Fin 2, (left.core 0).get [0, i, 0] = qr.q 2 1 0 i ⟨0, by decide⟩) ∧
    ∀ i : Fin 2, (right.core 1).get [0, i, 0] = qr.q 2 1 0 i ⟨0, by decide⟩ := by
  obtain ⟨f, g, e, hf, hg⟩ := orthoLR_zero qr
  obtain ⟨r, e', hr⟩ := orthoRL_two f g qr
  have h0 : colMat g = 0 := by
    ext i j
    exact hg _
  rw [h0] at hr
  refine ⟨⟨[⟨[1, 2, 1], f⟩, ⟨[1, 2, 1], g⟩], [[2, 2]], [1, 1, 1], none⟩, r, ?_, hf, hr⟩
  unfold tangentFrame
  rw [e, R.ok_bind, e', R.ok_bind]
  rfl

theorem qr_zero (w : Fin 2) : ∃ qr : QRRoutine, qr.Correct ∧ ∀ i : Fin 2, qr.q 2 1 0 i ⟨0, by decide⟩ = if i = w then 1 else 0 := by
  have key : ∀ n m (A : Matrix (Fin n) (Fin m) ℝ), ∃ (q : Matrix (Fin n) (Fin (min n m)) ℝ) (r : Matrix (Fin (min n m)) (Fin m) ℝ),
      (qᵀ * q = 1 ∧ q * r = A ∧ ∀ (i : Fin (min n m)) (j : Fin m), (j : ℕ) < i → r i j = 0) ∧
      (n = 2 → m = 1 → A = 0 → ∀ i j, q i j = if (i : ℕ) = w then 1 else 0) := by
    intro n m A
    by_cases h : n = 2 ∧ m = 1 ∧ A = 0
    · obtain ⟨rfl, rfl, rfl⟩ := h
      refine ⟨of fun i _ => if (i : ℕ) = w then 1 else 0, 0, ⟨?_, by rw [Matrix.mul_zero], fun i j hij => rfl⟩, fun _ _ _ i j => rfl⟩
      ext ⟨i, hi⟩ ⟨j, hj⟩
      obtain rfl : i = 0 := by omega
      obtain rfl : j = 0 := by omega
      rw [Matrix.mul_apply]
      simp only [transpose_apply, of_apply, Fin.sum_univ_two, Matrix.one_apply_eq]
      fin_cases w <;> simp
    · obtain ⟨qr, hs⟩ := qrRoutine_exists
      exact ⟨qr.q n m A, qr.r n m A, hs n m A, fun h1 h2 h3 => absurd ⟨h1, h2, h3⟩ h⟩
  choose q r h1 h2 using key
  exact ⟨⟨q, r⟩, h1, fun i => (h2 2 1 0 rfl rfl rfl i _).trans (by simp only [Fin.ext_iff])⟩

/-- The tensor with the entry one at the position (1, 1) and zeros elsewhere. -/
def exCorner2 : TT ℤ where
  cores := [⟨[1, 2, 1], fun i => i.getD 1 0⟩, ⟨[1, 2, 1], fun i => i.getD 1 0⟩]
  rawShape := [[2, 2]]
  ttRanks := [1, 1, 1]
  batch := none

theorem exCorner2_wf : exCorner2.toReal.WF := TT.WF.toReal (by decide)

theorem exZero2_wf : exZero2.WF := by
  have h : exZero2 = TT.toReal ⟨[⟨[1, 2, 1], fun _ => 0⟩, ⟨[1, 2, 1], fun _ => 0⟩], [[2, 2]], [1, 1, 1], none⟩ := by
    simp [exZero2, TT.toReal, Tensor.map]
  rw [h]
  exact TT.WF.toReal (by decide)

theorem frame_two {left right : TT ℝ} (F : TFrame exZero2 left right) {f : List ℕ → ℝ} :
    f ∈ frameSpace exZero2 left right ↔ ∃ a b : ℕ → ℝ, ∀ i < 2, ∀ j < 2, f [i, j] = a i * (right.core 1).get [0, j, 0] + (left.core 0).get [0, i, 0] * b j := by
  have l0 := F.wl.rank_first
  have l1 : left.rank 1 = 1 := (F.kl 1 (by decide)).trans (by decide)
  have r2 : right.rank 2 = 1 := by
    have := F.wr.rank_last
    rwa [F.nr] at this
  have r1 : right.rank 1 = 1 := by
    rw [F.kr 1 (by decide), show exZero2.ndims = 2 from rfl, rlRank_step _ _ (by omega), rlRank_last, l1]
    rfl
  have key : ∀ D i j, frameVec exZero2 left right D (tIdx [i, j]) = D 0 [i] 0 0 * (right.core 1).get [0, j, 0] + (left.core 0).get [0, i, 0] * D 1 [j] 0 0 := by
    intro D i j
    have h2 : exZero2.ndims = 2 := rfl
    simp [frameVec, h2, Finset.sum_range_succ, l0, l1, r1, r2, lprod, rprod, TT.slice, tIdx]
  rw [mem_frameSpace]
  constructor
  · rintro ⟨D, hD⟩
    refine ⟨fun i => D 0 [i] 0 0, fun j => D 1 [j] 0 0, fun i hi j hj => ?_⟩
    exact (hD [i, j] ⟨hi, hj, trivial⟩).trans (key D i j)
  · rintro ⟨a, b, h⟩
    refine ⟨fun k m _ _ => if k = 0 then a (m.getD 0 0) else b (m.getD 0 0), fun i hi => ?_⟩
    match i, hi with
    | [i, j], ⟨hi, hj, _⟩ =>
      exact (h i hi j hj).trans (key (fun k m _ _ => if k = 0 then a (m.getD 0 0) else b (m.getD 0 0)) i j).symm

/-- C70: for a point whose ranks are not minimal, the projection depends on the QR routine: there are correct routines for which `project` on the tangent
space at the zero tensor with TT-rank one gives different tensors. -/
theorem C70_project_depends : ∃ (qr qr' : QRRoutine) (x z y y' : TT ℝ) (Y Y' : Tensor ℝ), qr.Correct ∧ qr'.Correct ∧ x.WF ∧ x.batch = none ∧
    x.ModesPos ∧ 2 ≤ x.ndims ∧ z.WF ∧ z.rawShape = x.rawShape ∧ project qr z x = Except.ok y ∧ project qr' z x = Except.ok y' ∧
    full y = Except.ok Y ∧ full y' = Except.ok Y' ∧ Y.shape = [2, 2] ∧ Y'.shape = [2, 2] ∧ Y.get [1, 1] = 1 ∧ Y'.get [1, 1] = 0 := by
  have hm : exZero2.ModesPos := by simp [TT.ModesPos, exZero2]
  have key : ∀ w : Fin 2, ∃ qr : QRRoutine, qr.Correct ∧ ∃ y Y, project qr exCorner2.toReal exZero2 = Except.ok y ∧ full y = Except.ok Y ∧ Y.shape = [2, 2] ∧
      Y.get [1, 1] = if w = 1 then 1 else 0 := by
    intro w
    obtain ⟨qr, hqr, hw⟩ := qr_zero w
    obtain ⟨left, right, e, hl, hr⟩ := frame_zero qr
    obtain ⟨left', right', e', F⟩ := tangentFrame_ok hqr exZero2_wf rfl hm
    obtain ⟨rfl, rfl⟩ := Prod.mk.inj (Except.ok.inj (e.symm.trans e'))
    obtain ⟨y, Y, Z, ey, _, _, _, _, eY, eZ, sh, sZ, hv⟩ := project_frame exZero2_wf rfl le_rfl e F exCorner2_wf rfl
    have hv := hv [] trivial
    have sZ : Z.shape = [2, 2] := sZ
    refine ⟨qr, hqr, y, Y, ey, eY, by rw [sh, sZ], ?_⟩
    have l0 := (hl 0).trans (hw 0)
    have l1 := (hl 1).trans (hw 1)
    have r0 := (hr 0).trans (hw 0)
    have r1 := (hr 1).trans (hw 1)
    have hZ : ∀ i < 2, ∀ j < 2, Z.get [i, j] = (i : ℝ) * j := by
      obtain ⟨Z', eZ', sZ', vZ⟩ := full_single exCorner2_wf rfl
      obtain rfl : Z' = Z := Except.ok.inj (eZ'.symm.trans eZ)
      intro i hi j hj
      rw [vZ [i, j] ⟨hi, hj, trivial⟩]
      show TT.entry _ [] (tIdx [i, j]) = _
      simp [TT.entry, TT.toReal, exCorner2, TT.ndims, lprod, TT.slice, TT.core, TT.rank, tIdx, Tensor.map]
    have hY := (frame_two F).1 hv.1
    by_cases h1 : w = 1
    · subst h1
      rw [if_pos rfl]
      have hZm : Z.get ∈ frameSpace exZero2 left right := by
        refine (frame_two F).2 ⟨fun i => i, fun _ => 0, fun i hi j hj => ?_⟩
        rw [hZ i hi j hj]
        interval_cases j
        · have r0 : (right.core 1).get [0, 0, 0] = 0 := r0
          simp [r0]
        · have r1 : (right.core 1).get [0, 1, 0] = 1 := r1
          simp [r1]
      have := proj_unique hv.1 hZm hv.2 (fun f _ => by unfold dot; simp) [1, 1] ⟨by decide, by decide, trivial⟩
      refine this.trans ((hZ 1 (by omega) 1 (by omega)).trans (by simp))
    · obtain rfl : w = 0 := by omega
      obtain ⟨a, b, h⟩ := hY
      have h := h 1 (by omega) 1 (by omega)
      simp at l1 r1
      rw [if_neg (by decide)]
      refine h.trans ?_
      rw [l1, r1]; ring
  obtain ⟨qr, hqr, y, Y, e, eY, sY, v⟩ := key 1
  obtain ⟨qr', hqr', y', Y', e', eY', sY', v'⟩ := key 0
  exact ⟨qr, qr', _, _, y, y', Y, Y', hqr, hqr', exZero2_wf, rfl, hm, le_rfl, exCorner2_wf, rfl, e, e', eY, eY', sY, sY', v, v'⟩

end T3f
