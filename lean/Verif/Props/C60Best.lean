import Verif.Proofs.RoundLast
import Verif.Props.C31Round
import Verif.Props.C33ToTT

/-!
# C60: rounding is best for two modes, not for more

The quick start (docs/quick_start.ipynb) says that `round` finds the tensor of smaller TT-rank that is as close to the original one as possible.
-/

namespace T3f

/-- C60: with two modes nothing within the rank bound is closer to the argument than the result of `round`. -/
theorem C60_two {qr : QRRoutine} (hqr : qr.Correct) {svd : SVDRoutine} (hsvd : svd.Correct) {t : TT ℝ} (h : t.WF) (hm : t.ModesPos) (h2 : t.ndims = 2)
    {m : MaxRank} {b : ℕ → ℕ} (hb : m.Bounds t.ndims b) (hbatch : t.isBatch → m.Single) {eps : Option ℝ} (he : ∀ e ∈ eps, 0 ≤ e) :
    ∃ x T X s, ttRound qr svd t m eps = Except.ok x ∧ full t = Except.ok T ∧ full x = Except.ok X ∧ T.shape = t.bpre ++ s ∧ X.shape = t.bpre ++ s ∧
      ∀ (S : TT ℝ) (F : Tensor ℝ), S.WF → S.rawShape = t.rawShape → S.batch = t.batch → S.rank 1 ≤ b 1 → full S = Except.ok F →
        ∀ p, Valid t.bpre p → T.distSq X p s ≤ T.distSq F p s := by
  obtain ⟨x, T, X, s, e, eT, eX, sT, sX, hx⟩ := C32_error hqr hsvd h hm hb hbatch he
  refine ⟨x, T, X, s, e, eT, eX, sT, sX, fun S F hS hrs hSb hr eF p hp => ?_⟩
  have := (hx p hp).2 (fun _ => S) (fun _ => F) fun k h0 hk => ⟨hS, hrs, hSb, by obtain rfl : k = 1 := by omega
                                                                                 exact hr, eF⟩
  rwa [h2, show Finset.Ico 1 2 = {1} from rfl, Finset.sum_singleton] at this

example : exTensor.toReal.WF ∧ exTensor.toReal.ModesPos ∧ exTensor.toReal.ndims = 2 ∧ (MaxRank.num 1).Bounds exTensor.toReal.ndims (fun _ => 1) :=
  ⟨TT.WF.toReal (by decide), by simp [TT.ModesPos, TT.toReal, exTensor], rfl, Or.inl ⟨1, by omega, Or.inl rfl, fun _ => rfl⟩⟩

/-- C60: the same for `to_tt_tensor` of a dense matrix: the result is a best approximation of bounded rank. -/
theorem C60_two_dense {svd : SVDRoutine} (hsvd : svd.Correct) {X : Tensor ℝ} (h2 : X.shape.length = 2) (hs : ∀ n ∈ X.shape, 0 < n)
    {m : MaxRank} {b : ℕ → ℕ} (hb : m.Bounds 2 b) {eps : Option ℝ} (he : ∀ e ∈ eps, 0 ≤ e) :
    ∃ x Y, toTTTensor svd X m eps = Except.ok x ∧ full x = Except.ok Y ∧ Y.shape = X.shape ∧
      ∀ (S : TT ℝ) (F : Tensor ℝ), S.WF → S.rawShape = [X.shape] → S.batch = none → S.rank 1 ≤ b 1 → full S = Except.ok F →
        X.distSq Y [] X.shape ≤ X.distSq F [] X.shape := by
  obtain ⟨x, Y, e, eY, sY, -, h⟩ := C33_tensor_error hsvd (by omega) hs (by rw [h2]; exact hb) he
  refine ⟨x, Y, e, eY, sY, fun S F hS hrs hSb hr eF => ?_⟩
  have := h (fun _ => S) (fun _ => F) fun k h0 hk => ⟨hS, hrs, hSb, by obtain rfl : k = 1 := by omega
                                                                       exact hr, eF⟩
  rwa [h2, show Finset.Ico 1 2 = {1} from rfl, Finset.sum_singleton] at this

example : (⟨[2, 3], fun i => i.getD 0 0 * 2 + i.getD 1 0⟩ : Tensor ℝ).shape.length = 2 ∧ (MaxRank.num 1).Bounds 2 (fun _ => 1) :=
  ⟨rfl, Or.inl ⟨1, by omega, Or.inl rfl, fun _ => rfl⟩⟩

/-- The tensor of shape `(2, 2, 2)` with `t[0, 0, 0] = t[1, 1, 0] = 4`, `t[0, 1, 1] = 5` and zeros elsewhere. -/
def exCube : TT ℤ where
  cores := [.ofList [1, 2, 2] [1, 0, 0, 1], .ofList [2, 2, 2] [4, 0, 0, 5, 0, 0, 4, 0], .ofList [2, 2, 1] [1, 0, 0, 1]]
  rawShape := [[2, 2, 2]]
  ttRanks := [1, 2, 2, 1]
  batch := none

/-- `exCube` with the two numbers 4 replaced by zero. It has TT-ranks one. -/
def exCubeOne : TT ℤ where
  cores := [.ofList [1, 2, 1] [1, 0], .ofList [1, 2, 1] [0, 5], .ofList [1, 2, 1] [0, 1]]
  rawShape := [[2, 2, 2]]
  ttRanks := [1, 1, 1, 1]
  batch := none

/-- `exCube` with the number 5 replaced by zero. The second TT-rank is one. -/
def exCubeFour : TT ℤ where
  cores := [.ofList [1, 2, 2] [1, 0, 0, 1], .ofList [2, 2, 1] [4, 0, 0, 4], .ofList [1, 2, 1] [1, 0]]
  rawShape := [[2, 2, 2]]
  ttRanks := [1, 2, 1, 1]
  batch := none

theorem entryDist_cube {t s : TT ℝ} (ht : t.rawShape = [[2, 2, 2]]) : entryDist t s [] =
    ∑ i ∈ Finset.range 2, ∑ j ∈ Finset.range 2, ∑ n ∈ Finset.range 2, (t.entry [] (tIdx [i, j, n]) - s.entry [] (tIdx [i, j, n])) ^ 2 := by
  unfold entryDist
  rw [ht]
  simp [restShape, restModes, Finset.sum_range_succ, unravel]
  ring

theorem exCube_entry (i j n : ℕ) (hi : i < 2) (hj : j < 2) (hn : n < 2) :
    exCube.toReal.entry [] (tIdx [i, j, n]) = if n = 0 then (if i = j then 4 else 0) else if i = 0 ∧ j = 1 then 5 else 0 := by
  interval_cases i <;> interval_cases j <;> interval_cases n <;>
    simp [TT.entry, TT.toReal, exCube, TT.ndims, lprod, TT.slice, TT.core, TT.rank, tIdx, Tensor.map, Tensor.ofList, ravel, Finset.sum_range_succ]

theorem exCubeOne_entry (i j n : ℕ) (hi : i < 2) (hj : j < 2) (hn : n < 2) :
    exCubeOne.toReal.entry [] (tIdx [i, j, n]) = if n = 1 ∧ i = 0 ∧ j = 1 then 5 else 0 := by
  interval_cases i <;> interval_cases j <;> interval_cases n <;>
    simp [TT.entry, TT.toReal, exCubeOne, TT.ndims, lprod, TT.slice, TT.core, TT.rank, tIdx, Tensor.map, Tensor.ofList, ravel]

theorem exCubeFour_entry (i j n : ℕ) (hi : i < 2) (hj : j < 2) (hn : n < 2) :
    exCubeFour.toReal.entry [] (tIdx [i, j, n]) = if n = 0 ∧ i = j then 4 else 0 := by
  interval_cases i <;> interval_cases j <;> interval_cases n <;>
    simp [TT.entry, TT.toReal, exCubeFour, TT.ndims, lprod, TT.slice, TT.core, TT.rank, tIdx, Tensor.map, Tensor.ofList, ravel, Finset.sum_range_succ]

/-- **C60, finding.** With three modes `round` is not best: for the tensor `exCube` and `max_tt_rank=1` the squared error is at least 41, for every correct
QR and SVD, but the tensor train `exCubeOne` with TT-ranks one has squared error 32. -/
theorem C60_not_best {qr : QRRoutine} (hqr : qr.Correct) {svd : SVDRoutine} (hsvd : svd.Correct) :
    ∃ x T X F, ttRound qr svd exCube.toReal (.num 1) none = Except.ok x ∧ full exCube.toReal = Except.ok T ∧ full x = Except.ok X ∧
      full exCubeOne.toReal = Except.ok F ∧ exCubeOne.toReal.WF ∧ exCubeOne.toReal.rawShape = exCube.toReal.rawShape ∧
      (∀ k ≤ 3, exCubeOne.toReal.rank k = 1 ∧ x.rank k = 1) ∧ T.shape = [2, 2, 2] ∧ X.shape = [2, 2, 2] ∧ F.shape = [2, 2, 2] ∧
      41 ≤ T.distSq X [] [2, 2, 2] ∧ T.distSq F [] [2, 2, 2] = 32 := by
  have ht : exCube.toReal.WF := TT.WF.toReal (by decide)
  have h1 : exCubeOne.toReal.WF := TT.WF.toReal (by decide)
  have h4 : exCubeFour.toReal.WF := TT.WF.toReal (by decide)
  have hm : exCube.toReal.ModesPos := by simp [TT.ModesPos, TT.toReal, exCube]
  have hn : exCube.toReal.ndims = 3 := rfl
  have hv : Valid exCube.toReal.bpre [] := trivial
  have hraw : exCube.toReal.rawShape = [[2, 2, 2]] := rfl
  obtain ⟨x, ex, wx, rx, bx, nx, -, kx, -, ox, -⟩ := roundWith_spec hqr hsvd ht hm (bounds := [1, 1, 1, 1]) rfl (by
    intro k hk
    rw [hn] at hk
    interval_cases k <;> simp)
  obtain ⟨y, ey, wy, ry, by', ny, -, ky, ky', oy, tail, hy⟩ := roundWith_spec hqr hsvd ht hm (bounds := [1, 2, 1, 1]) rfl (by
    intro k hk
    rw [hn] at hk
    interval_cases k <;> simp)
  have hc := roundWith_last (by omega) ex ey rfl
  rw [hn] at nx ny hc
  have hc : x.core 2 = y.core 2 := hc
  obtain ⟨d1, -, d3⟩ := hy [] hv
  have rk : ∀ k ≤ 3, x.rank k = 1 := by
    intro k hk
    have hp := wx.rank_pos k (by omega)
    rcases Nat.eq_zero_or_pos k with rfl | h0
    · exact wx.rank_first
    rcases Nat.lt_or_ge k 3 with h3 | h3
    · have := kx k h0 (by rw [hn]; exact h3)
      interval_cases k <;> simp at this <;> omega
    · obtain rfl : k = 3 := by omega
      have := wx.rank_last
      rwa [nx] at this
  have y2 : y.rank 2 = 1 := by
    have := ky 2 (by omega) (by omega)
    have hp := wy.rank_pos 2 (by omega)
    simp at this
    omega
  have y3 : y.rank 3 = 1 := by
    have := wy.rank_last
    rwa [ny] at this
  -- the first truncation
  have e1 : entryDist exCube.toReal y [] ≤ 25 := by
    have q1 := d3 1 (by omega) (by omega) exCube.toReal ht rfl rfl (by simp [TT.rank, TT.toReal, exCube])
    have q2 := d3 2 (by omega) (by omega) exCubeFour.toReal h4 rfl rfl (by simp [TT.rank, TT.toReal, exCubeFour])
    rw [entryDist_cube hraw] at q1 q2
    rw [d1, hn]
    simp [Finset.sum_range_succ, exCube_entry, exCubeFour_entry] at q1 q2 ⊢
    linarith
  obtain ⟨v, hvd⟩ : ∃ v : ℕ → ℝ, ∀ n, v n = (y.core 2).get [0, n, 0] := ⟨_, fun _ => rfl⟩
  have hmod : ∀ z : TT ℝ, z.rawShape = [[2, 2, 2]] → z.modes 2 = [2] := fun z hz => by rw [TT.modes, hz]; rfl
  have hv1 : v 0 ^ 2 + v 1 ^ 2 = 1 := by
    have := oy [] hv 2 (by omega) (by omega) 0 (by omega) 0 (by omega)
    rw [hmod y (ry.trans hraw), y3] at this
    simp [Finset.sum_range_succ, TT.fl, hmod y (ry.trans hraw), unravel, ← hvd] at this
    nlinarith
  obtain ⟨g, hg⟩ : ∃ g : ℕ → ℕ → ℝ, ∀ i j n, y.entry [] (tIdx [i, j, n]) = g i j * v n := by
    refine ⟨fun i j => lprod y.rank (y.slice [] (tIdx [i, j])) 2 0, fun i j n => ?_⟩
    rw [TT.entry, ny, lprod, y2, Finset.sum_range_one, hvd]
    rfl
  obtain ⟨p, q, hpq⟩ : ∃ p q : ℕ → ℝ, ∀ i j n, x.entry [] (tIdx [i, j, n]) = p i * q j * v n := by
    refine ⟨fun i => (x.core 0).get [0, i, 0], fun j => (x.core 1).get [0, j, 0], fun i j n => ?_⟩
    rw [TT.entry, nx]
    simp [lprod, rk 0, rk 1, rk 2, TT.slice, tIdx, hc, hvd]
  rw [entryDist_cube hraw] at e1
  simp [Finset.sum_range_succ, exCube_entry, hg] at e1
  have hv0 : v 1 = 0 := by
    have hk : ∀ a : ℝ, a ^ 2 = (a * v 0) ^ 2 + (a * v 1) ^ 2 := fun a => by linear_combination -a ^ 2 * hv1
    have : v 1 ^ 2 ≤ 0 := by
      nlinarith [hk (g 0 0), hk (g 0 1), hk (g 1 0), hk (g 1 1), sq_nonneg (g 0 0 - 4 * v 0), sq_nonneg (g 0 1 - 5 * v 1), sq_nonneg (g 1 0), sq_nonneg (g 1 1 - 4 * v 0)]
    nlinarith
  have e2 : 41 ≤ entryDist exCube.toReal x [] := by
    rw [entryDist_cube hraw]
    simp [Finset.sum_range_succ, exCube_entry, hpq, hv0]
    nlinarith [sq_nonneg (p 0 * v 0 * q 1 - p 1 * v 0 * q 0), sq_nonneg (p 0 * q 0 * v 0 + p 1 * q 1 * v 0 - 4)]
  obtain ⟨T, eT, sT, -⟩ := full_ok ht
  obtain ⟨X, eX, sX, -⟩ := full_ok wx
  obtain ⟨F, eF, sF, -⟩ := full_ok h1
  rw [rx, TT.bpre, bx] at sX
  refine ⟨x, T, X, F, ?_, eT, eX, eF, h1, rfl, fun k hk => ⟨?_, rk k hk⟩, sT, sX, sF, ?_, ?_⟩
  · rw [ttRound_eq (by simp [TT.isBatch, TT.toReal, exCube])]
    exact ex
  · interval_cases k <;> simp [TT.rank, TT.toReal, exCubeOne]
  · have := dense_dist ht wx rx bx eT eX hv
    exact e2.trans (le_of_eq this.symm)
  · have := dense_dist ht h1 rfl rfl eT eF hv
    refine this.trans ?_
    rw [entryDist_cube hraw]
    simp [Finset.sum_range_succ, exCube_entry, exCubeOne_entry]
    norm_num

end T3f
