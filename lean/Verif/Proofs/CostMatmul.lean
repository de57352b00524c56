import Verif.Proofs.CostProject
import Verif.Proofs.ProjectMatmul
import Verif.Proofs.TangentGram

/-!
# The count of `project_matmul` and `pairwise_flat_inner_projected`
-/

namespace T3f

open Counted

theorem rhsMatCost {A V Q X : Tensor ℝ} {n b i j e c k f d a : ℕ} (hA : A.shape = [b, i, j, e]) (hV : V.shape = [c, i, k, f])
    (hQ : Q.shape = [n, d, e, f]) (hX : X.shape = [n, a, j, k, d]) :
    orderCost (ein! "bije,cikf,sdef,sajkd->sabc") [A, V, Q, X] [(2, 3), (0, 2), (0, 1)] =
      n * k * (a * j * d * e * f + b * i * j * e * a * f + c * i * f * a * b) := by
  simp (maxSteps := 1000000) [orderCost, pathCost, labelSize, jointLabels, contractPair, keptLabels, einDims, hA, hV, hQ, hX, List.lookup, lookupLabel,
      -mul_eq_mul_left_iff, -mul_eq_mul_right_iff]
  ring

theorem lhsMatCost {A L Q X : Tensor ℝ} {n b i j e a k d c f : ℕ} (hA : A.shape = [b, i, j, e]) (hL : L.shape = [a, i, k, d])
    (hQ : Q.shape = [n, a, b, c]) (hX : X.shape = [n, c, j, k, f]) :
    orderCost (ein! "bije,aikd,sabc,scjkf->sdef") [A, L, Q, X] [(1, 2), (0, 2), (0, 1)] =
      n * k * (a * i * d * b * c + b * i * j * e * d * c + c * j * f * e * d) := by
  simp (maxSteps := 1000000) [orderCost, pathCost, labelSize, jointLabels, contractPair, keptLabels, einDims, hA, hL, hQ, hX, List.lookup, lookupLabel,
      -mul_eq_mul_left_iff, -mul_eq_mul_right_iff]
  ring

theorem partMatCost {X Q A : Tensor ℝ} {n c j k e a b i d : ℕ} (hX : X.shape = [n, c, j, k, e]) (hQ : Q.shape = [n, a, b, c])
    (hA : A.shape = [b, i, j, d]) :
    orderCost (ein! "scjke,sabc,bijd->saikde") [X, Q, A] [(0, 1), (0, 1)] = n * k * (c * j * e * a * b + j * e * a * b * i * d) := by
  simp (maxSteps := 1000000) [orderCost, pathCost, labelSize, jointLabels, contractPair, keptLabels, einDims, hA, hQ, hX, List.lookup, lookupLabel,
      -mul_eq_mul_left_iff, -mul_eq_mul_right_iff]
  ring

theorem lastMatCost {Q A X : Tensor ℝ} {n a b c i j k e d : ℕ} (hQ : Q.shape = [n, a, b, c]) (hA : A.shape = [b, i, j, d])
    (hX : X.shape = [n, c, j, k, e]) :
    orderCost (ein! "sabc,bijd,scjke->saike") [Q, A, X] [(0, 2), (0, 1)] = n * k * (c * j * e * a * b + j * e * a * b * i * d) := by
  simp (maxSteps := 1000000) [orderCost, pathCost, labelSize, jointLabels, contractPair, keptLabels, einDims, hA, hQ, hX, List.lookup, lookupLabel,
      -mul_eq_mul_left_iff, -mul_eq_mul_right_iff]
  ring

theorem backMatCost {L Q : Tensor ℝ} {n a i k b c d : ℕ} (hL : L.shape = [a, i, k, b]) (hQ : Q.shape = [n, b, c, d]) :
    orderCost (ein! "aikb,sbcd->saikcd") [L, Q] [(0, 1)] = n * k * (a * i * b * c * d) := by
  simp (maxSteps := 1000000) [orderCost, pathCost, labelSize, jointLabels, einDims, hL, hQ, List.lookup, lookupLabel,
      -mul_eq_mul_left_iff, -mul_eq_mul_right_iff]
  ring

theorem timesMatCost {P Q : Tensor ℝ} {n a i k c b d : ℕ} (hP : P.shape = [n, a, i, k, c, b]) (hQ : Q.shape = [n, b, c, d]) :
    orderCost (ein! "saikcb,sbcd->saikd") [P, Q] [(0, 1)] = n * k * (a * i * c * b * d) := by
  simp (maxSteps := 1000000) [orderCost, pathCost, labelSize, jointLabels, einDims, hP, hQ, List.lookup, lookupLabel,
      -mul_eq_mul_left_iff, -mul_eq_mul_right_iff]
  ring

theorem pairCost {ax : List Char} {M : List ℕ} (hM : AxFor ax M) (out : List Char) {A B : Tensor ℝ} {n m a b : ℕ}
    (hA : A.shape = n :: a :: (M ++ [b])) (hB : B.shape = m :: a :: (M ++ [b])) :
    orderCost ([chars! "pa" ++ (ax ++ ['b']), chars! "qa" ++ (ax ++ ['b'])], out) [A, B] [(0, 1)] = n * m * (a * b * M.prod) := by
  rcases hM with ⟨hM, rfl⟩ | ⟨hM, rfl⟩
  · obtain ⟨i, rfl⟩ := List.length_eq_one_iff.1 hM
    simp [orderCost, pathCost, labelSize, jointLabels, einDims, hA, hB, List.lookup, lookupLabel,
      -mul_eq_mul_left_iff, -mul_eq_mul_right_iff]
    ring
  · obtain ⟨i, j, rfl⟩ := List.length_eq_two.1 hM
    simp [orderCost, pathCost, labelSize, jointLabels, einDims, hA, hB, List.lookup, lookupLabel,
      -mul_eq_mul_left_iff, -mul_eq_mul_right_iff]
    ring

/-! ## project_matmul -/

section
variable {x left right p A z : TT ℝ} {n : ℕ} {I L : List ℕ}

/-- Bounds for the ranks and the modes. -/
structure MBound (x left right A z : TT ℝ) (I L : List ℕ) (r q R m l : ℕ) : Prop where
  l' : ∀ k ≤ x.ndims, left.rank k ≤ r
  r' : ∀ k ≤ x.ndims, right.rank k ≤ r
  z' : ∀ k ≤ x.ndims, z.rank k ≤ q
  A' : ∀ k ≤ x.ndims, A.rank k ≤ R
  I' : ∀ k < x.ndims, I.getD k 0 ≤ m
  L' : ∀ k < x.ndims, L.getD k 0 ≤ l

theorem MSetup.rhsC_le (T : MSetup x left right p A z n I L) {r q R m l : ℕ} (B : MBound x left right A z I L r q R m l) {S : Strategy} {κ : ℕ}
    (hS : S.Within κ) : (forRangeC (fun j => rhsMatStepC S z right A (x.ndims - 1 - j)) 0 (x.ndims - 1)
        ((List.replicate (x.ndims + 1) default).set x.ndims (ones [n, 1, 1, 1]))).Bound (fun rhs => rhs.length = x.ndims + 1 ∧
      ∀ k, 0 < k → k ≤ x.ndims → (rhs.getD k default).shape = [n, z.rank k, A.rank k, right.rank k])
      (x.ndims * (κ * (n * l * (m * R * q * r * (q + m * R + r))))) := by
  have F := T.P.F
  have hpos := T.P.wx.pos
  refine ((Bound.forRange (fun j (rhs : List (Tensor ℝ)) => rhs.length = x.ndims + 1 ∧ ∀ k, x.ndims - j ≤ k → k ≤ x.ndims →
      (rhs.getD k default).shape = [n, z.rank k, A.rank k, right.rank k]) (κ * (n * l * (m * R * q * r * (q + m * R + r))))
    (fun j => rhsMatStepC S z right A (x.ndims - 1 - j)) 0 (x.ndims - 1)
    ((List.replicate (x.ndims + 1) default).set x.ndims (ones [n, 1, 1, 1])) ?_ ?_).mono
      (fun _ h => ⟨h.1, fun k h1 h2 => h.2 k (by omega) h2⟩) (by gcongr; omega))
  · refine ⟨by simp, fun k h1 h2 => ?_⟩
    obtain rfl : k = x.ndims := by omega
    rw [List.getD_eq_getElem _ _ (by simp)]
    simp only [List.getElem_set_self, T.zd, T.Ad, F.rd]
    rfl
  · intro j rhs _ hj ⟨hl, hv⟩
    obtain ⟨k, hk⟩ : ∃ k, x.ndims - 1 - j = k := ⟨_, rfl⟩
    have hkd : k < x.ndims := by omega
    have hs := hv (k + 1) (by omega) (by omega)
    obtain ⟨E, eE, sE, -⟩ := rhsMatEin (T.sA hkd) (T.sr hkd) hs (T.sz hkd)
    unfold rhsMatStepC
    rw [hk, T.cz hkd, F.cr hkd, T.cA hkd, pyGet_of_lt _ _ default (show k + 1 < rhs.length by omega)]
    simp only [free_bind]
    rw [← Nat.add_zero (κ * _)]
    refine Bound.einsum_bind eE ?_ (Bound.pure ?_)
    · refine (within_cost hS (ein! "bije,cikf,sdef,sajkd->sabc") _ [(2, 3), (0, 2), (0, 1)]
        ⟨by omega, by show 3 < 4; omega, by omega, by show 2 < 3; omega, by omega, by show 1 < 2; omega, rfl⟩).trans ?_
      rw [rhsMatCost (T.sA hkd) (T.sr hkd) hs (T.sz hkd)]
      refine Nat.mul_le_mul_left _ (Nat.mul_le_mul (Nat.mul_le_mul_left _ (B.L' k hkd)) ?_)
      have z0 := B.z' _ hkd.le
      have z1 := B.z' _ hkd
      have A0 := B.A' _ hkd.le
      have A1 := B.A' _ hkd
      have r0 := B.r' _ hkd.le
      have r1 := B.r' _ hkd
      have i0 := B.I' k hkd
      calc _ ≤ q * m * q * R * r + R * m * m * R * q * r + r * m * r * q * R := by gcongr
        _ = _ := by ring
    · refine ⟨by rw [List.length_set]; exact hl, fun i h1 h2 => ?_⟩
      by_cases hik : k = i
      · subst hik
        rw [List.getD_eq_getElem _ _ (by rw [List.length_set]; omega), List.getElem_set_self]
        exact sE
      · rw [pyGet_set_ne hik]
        exact hv i (by omega) h2

theorem MSetup.lhsC_le (T : MSetup x left right p A z n I L) {r q R m l : ℕ} (B : MBound x left right A z I L r q R m l) {S : Strategy} {κ : ℕ}
    (hS : S.Within κ) : (forRangeC (lhsMatStepC S z left A) 0 (x.ndims - 1)
        ((List.replicate (x.ndims + 1) default).set 0 (ones [n, 1, 1, 1]))).Bound (fun lhs => lhs.length = x.ndims + 1 ∧
      ∀ k < x.ndims, (lhs.getD k default).shape = [n, left.rank k, A.rank k, z.rank k])
      (x.ndims * (κ * (n * l * (m * R * q * r * (q + m * R + r))))) := by
  have F := T.P.F
  have hpos := T.P.wx.pos
  refine ((Bound.forRange (fun j (lhs : List (Tensor ℝ)) => lhs.length = x.ndims + 1 ∧ ∀ k ≤ j,
      (lhs.getD k default).shape = [n, left.rank k, A.rank k, z.rank k]) (κ * (n * l * (m * R * q * r * (q + m * R + r))))
    (lhsMatStepC S z left A) 0 (x.ndims - 1)
    ((List.replicate (x.ndims + 1) default).set 0 (ones [n, 1, 1, 1])) ?_ ?_).mono
      (fun _ h => ⟨h.1, fun k h1 => h.2 k (by omega)⟩) (by gcongr; omega))
  · refine ⟨by simp, fun k h1 => ?_⟩
    obtain rfl : k = 0 := by omega
    rw [List.getD_eq_getElem _ _ (by simp)]
    simp only [List.getElem_set_self, F.l0, T.wA.rank_first, T.wz.rank_first]
    rfl
  · intro k lhs _ hj ⟨hl, hv⟩
    have hkd : k < x.ndims := by omega
    have hs := hv k le_rfl
    obtain ⟨E, eE, sE, -⟩ := lhsMatEin (T.sA hkd) (T.sl hkd) hs (T.sz hkd)
    unfold lhsMatStepC
    rw [T.cz hkd, F.cl hkd, T.cA hkd, pyGet_of_lt _ _ default (show k < lhs.length by omega)]
    simp only [free_bind]
    rw [← Nat.add_zero (κ * _)]
    refine Bound.einsum_bind eE ?_ (Bound.pure ?_)
    · refine (within_cost hS (ein! "bije,aikd,sabc,scjkf->sdef") _ [(1, 2), (0, 2), (0, 1)]
        ⟨by omega, by show 2 < 4; omega, by omega, by show 2 < 3; omega, by omega, by show 1 < 2; omega, rfl⟩).trans ?_
      rw [lhsMatCost (T.sA hkd) (T.sl hkd) hs (T.sz hkd)]
      refine Nat.mul_le_mul_left _ (Nat.mul_le_mul (Nat.mul_le_mul_left _ (B.L' k hkd)) ?_)
      have z0 := B.z' _ hkd.le
      have z1 := B.z' _ hkd
      have A0 := B.A' _ hkd.le
      have A1 := B.A' _ hkd
      have r0 := B.l' _ hkd.le
      have r1 := B.l' _ hkd
      have i0 := B.I' k hkd
      calc _ ≤ r * m * r * R * q + R * m * m * R * r * q + q * m * q * R * r := by gcongr
        _ = _ := by ring
    · refine ⟨by rw [List.length_set]; exact hl, fun i h1 => ?_⟩
      by_cases hik : k + 1 = i
      · subst hik
        rw [List.getD_eq_getElem _ _ (by rw [List.length_set]; omega), List.getElem_set_self]
        exact sE
      · rw [pyGet_set_ne hik]
        exact hv i (by omega)

theorem MSetup.blockC_le (T : MSetup x left right p A z n I L) {r q R m l : ℕ} (B : MBound x left right A z I L r q R m l) {S : Strategy} {κ : ℕ}
    (hS : S.Within κ) {lhs rhs : List (Tensor ℝ)} (ll : lhs.length = x.ndims + 1) (lr : rhs.length = x.ndims + 1)
    (hL : ∀ k < x.ndims, (lhs.getD k default).shape = [n, left.rank k, A.rank k, z.rank k])
    (hR : ∀ k, 0 < k → k ≤ x.ndims → (rhs.getD k default).shape = [n, z.rank k, A.rank k, right.rank k]) {k : ℕ} (hk : k < x.ndims) :
    (projectMatBlockC S lhs rhs x.ndims k (z.core k) (left.core k) (A.core k)).Bound (fun _ => True)
      ((κ + 2) * (n * l * (m * R * q * r * (q + m * R + r)))) := by
  have F := T.P.F
  have sL := hL k hk
  have gL : pyGet lhs k = Except.ok (lhs.getD k default) := pyGet_of_lt _ _ _ (by omega)
  have q1 : 1 ≤ q := by rw [← T.wz.rank_first]; exact B.z' 0 (Nat.zero_le _)
  have z0 := B.z' _ hk.le
  have z1 := B.z' _ hk
  have A0 := B.A' _ hk.le
  have A1 := B.A' _ hk
  have l0 := B.l' _ hk.le
  have l1 := B.l' _ hk
  have r1 := B.r' _ hk
  have i0 := B.I' k hk
  have j0 := B.L' k hk
  have c1 : n * L.getD k 0 * (z.rank k * I.getD k 0 * z.rank (k + 1) * left.rank k * A.rank k +
      I.getD k 0 * z.rank (k + 1) * left.rank k * A.rank k * I.getD k 0 * A.rank (k + 1)) ≤ n * l * (m * R * q * r * (q + m * R + r)) := by
    calc _ ≤ n * l * (q * m * q * r * R + m * q * r * R * m * R) := by gcongr
      _ = n * l * (m * R * q * r * (q + m * R + 0)) := by ring
      _ ≤ _ := by gcongr; omega
  unfold projectMatBlockC
  by_cases h1 : k + 1 < x.ndims
  · rw [if_pos h1]
    have sL' := hL (k + 1) h1
    have sR := hR (k + 1) (by omega) h1.le
    have gL' : pyGet lhs (k + 1) = Except.ok (lhs.getD (k + 1) default) := pyGet_of_lt _ _ _ (by omega)
    have gR : pyGet rhs (k + 1) = Except.ok (rhs.getD (k + 1) default) := pyGet_of_lt _ _ _ (by omega)
    obtain ⟨E1, e1, s1, -⟩ := partMatEin (T.sz hk) sL (T.sA hk)
    obtain ⟨E2, e2, s2, -⟩ := backMatEin (T.sl hk) sL'
    obtain ⟨Df, ed, sd, -⟩ := binop_ok (· - ·) E1 E2 E1.shape (by rw [s1, s2]; exact bshape_self _)
    rw [s1] at sd
    simp only [gL, gL', gR, free_bind]
    refine (Bound.einsum_bind e1 (w := κ * (n * l * (m * R * q * r * (q + m * R + r)))) (v := n * l * (r * m * r * R * q) +
      (n * l * (r * m * R * q) + n * l * (r * m * R * q * r))) ?_ (Bound.einsum_bind e2 ?_ (Bound.charge_bind ed ?_ (Bound.charge ?_ fun _ _ => trivial)))).mono
      (fun _ h => h) ?_
    · refine (within_cost hS (ein! "scjke,sabc,bijd->saikde") _ [(0, 1), (0, 1)]
        ⟨by omega, by show 1 < 3; omega, by omega, by show 1 < 2; omega, rfl⟩).trans ?_
      rw [partMatCost (T.sz hk) sL (T.sA hk)]
      exact Nat.mul_le_mul_left _ c1
    · rw [cost_two hS.valid, backMatCost (T.sl hk) sL']
      gcongr
    · rw [binopCost_self (s1.trans s2.symm), s1]
      simp only [List.prod_cons, List.prod_nil]
      calc _ ≤ n * (r * (m * (l * (R * (q * 1))))) := by gcongr
        _ = _ := by ring
    · rw [cost_two hS.valid, timesMatCost sd sR]
      gcongr
    · calc _ = κ * (n * l * (m * R * q * r * (q + m * R + r))) + n * l * (m * R * q * r * (r + r + 1)) := by ring
        _ ≤ κ * (n * l * (m * R * q * r * (q + m * R + r))) + n * l * (m * R * q * r * (2 * (q + m * R + r))) := by gcongr; omega
        _ = _ := by ring
  · rw [if_neg h1]
    simp only [gL, free_bind]
    refine Bound.charge ?_ fun _ _ => trivial
    refine (within_cost hS (ein! "sabc,bijd,scjke->saike") _ [(0, 2), (0, 1)]
      ⟨by omega, by show 2 < 3; omega, by omega, by show 1 < 2; omega, rfl⟩).trans ?_
    rw [lastMatCost sL (T.sA hk) (T.sz hk)]
    exact (Nat.mul_le_mul_left _ c1).trans (Nat.mul_le_mul_right _ (Nat.le_add_right _ _))

end

/-- The count of `project_matmul`. -/
theorem projectMatmulC_le {S : Strategy} {κ : ℕ} (hS : S.Within κ) {qr : QRRoutine} (hqr : qr.Correct) {x A z : TT ℝ} {n : ℕ} {I L : List ℕ}
    (h : x.WF) (hb : x.batch = none) (hm : x.ModesPos) (wA : A.WF) (bA : A.batch = none) (rA : A.rawShape = [I, I]) (wz : z.WF)
    (bz : z.batch = some n) (rz : z.rawShape = [I, L]) (rx : x.rawShape = [I, L]) {r q R m l : ℕ} (h1 : ∀ k ≤ x.ndims, x.rank k ≤ r)
    (h2 : ∀ k ≤ z.ndims, z.rank k ≤ q) (h3 : ∀ k ≤ A.ndims, A.rank k ≤ R) (h4 : ∀ k < x.ndims, I.getD k 0 ≤ m)
    (h5 : ∀ k < x.ndims, L.getD k 0 ≤ l) :
    (projectMatmulC S qr z x A).Bound (fun _ => True) (4 * (x.ndims * r ^ 3 * (m * l)) +
      (3 * κ + 2) * (n * x.ndims * l * (m * R * q * r * (q + m * R + r)))) := by
  obtain ⟨left, right, hF, F⟩ := tangentFrame_ok hqr h hb hm
  obtain ⟨p, wm, bm, rm, nm, km, vm, em⟩ := prod_chain wA rA wz bz rz
  have hrm : p.rawShape = x.rawShape := rm.trans rx.symm
  have nA : A.ndims = x.ndims := by rw [← wA.rows_len I (by simp [rA]), ← h.rows_len I (by simp [rx])]
  have nz : z.ndims = x.ndims := by rw [← wz.rows_len I (by simp [rz]), ← h.rows_len I (by simp [rx])]
  have P : PSetup x left right p n := ⟨F, h, wm, bm, hrm, ndims_of_rows wm h hrm⟩
  have T : MSetup x left right p A z n I L := ⟨P, wA, bA, rA, wz, bz, rz, rx, by rw [← nA]; exact km, by rw [← nA]; exact vm⟩
  have hN : ∀ k < x.ndims, x.N k ≤ m * l := by
    intro k hk
    rw [TT.N, T.mx]
    simp only [List.prod_cons, List.prod_nil, Nat.mul_one]
    exact Nat.mul_le_mul (h4 k hk) (h5 k hk)
  have B' := F.bound (w := z) h h1 (by rw [← nz]; exact h2) hN
  have B : MBound x left right A z I L r q R m l := ⟨B'.l, B'.r', B'.w', by rw [← nA]; exact h3, h4, h5⟩
  have hbs : z.lazyBatchSize = Except.ok n := by simp [TT.lazyBatchSize, bz]
  have ew : expandBatchDim z = Except.ok z := by simp [expandBatchDim, bz]
  unfold projectMatmulC
  refine Bound.free_bind fun _ _ => ?_
  refine ((tangentFrameC_le hqr h hb hm F hF h1 hN).bind (v := x.ndims * (κ * (n * l * (m * R * q * r * (q + m * R + r)))) +
    (x.ndims * (κ * (n * l * (m * R * q * r * (q + m * R + r)))) + x.ndims * ((κ + 2) * (n * l * (m * R * q * r * (q + m * R + r))))))
      fun f hf => ?_).mono (fun _ h => h) ?_
  · subst hf
    simp only [ew, hbs, free_bind]
    refine (T.rhsC_le B hS).bind fun rhs hrhs => (T.lhsC_le B hS).bind fun lhs hlhs => ?_
    refine ((Bound.mapRange fun k hk => ?_).bind (v := 0) fun _ _ => Bound.free fun _ _ => trivial).mono (fun _ h => h)
      (Nat.add_zero _).le
    simp only [T.cz hk, T.cA hk, F.cl hk, F.cr hk, free_bind]
    refine ((T.blockC_le B hS hlhs.1 hrhs.1 hlhs.2 hrhs.2 hk).bind (v := 0) fun _ _ => ?_).mono (fun _ h => h) (Nat.add_zero _).le
    exact Bound.free_bind fun _ _ => Bound.free_bind fun _ _ => Bound.free fun _ _ => trivial
  · apply le_of_eq
    ring

/-! ## pairwise_flat_inner_projected -/

theorem pairSlicesC_le {S : Strategy} (hS : S.Valid) {a b : TT ℝ} (wa : a.WF) (wb : b.WF) {n m : ℕ} (ba : a.batch = some n)
    (bb : b.batch = some m) (hr : b.rawShape = a.rawShape) {k : ℕ} (hk : k < a.ndims) (hr1 : b.rank k = a.rank k)
    (hr2 : b.rank (k + 1) = a.rank (k + 1)) {l r : Ix} {lo c lo' c' : ℕ} (hl : IxRange l (a.rank k) lo c)
    (hr' : IxRange r (a.rank (k + 1)) lo' c') (hc : c ≤ a.rank k) (hc' : c' ≤ a.rank (k + 1)) :
    ∃ E x, (pairSlicesC S a b l r k).run = Except.ok (E, x) ∧ E.shape = [n, m] ∧ x ≤ n * m * (a.rank k * a.rank (k + 1) * a.N k) := by
  have hnb : b.ndims = a.ndims := ndims_of_rows wb wa hr
  have hmb : b.modes = a.modes := modes_of_rows hr
  have sa : (a.core k).shape = n :: a.rank k :: (a.modes k ++ [a.rank (k + 1)]) := by
    rw [wa.core_shape k hk]; simp [TT.bpre, ba]
  have sb : (b.core k).shape = m :: a.rank k :: (a.modes k ++ [a.rank (k + 1)]) := by
    rw [wb.core_shape k (by omega), hmb, hr1, hr2]; simp [TT.bpre, bb]
  have hmat : if a.isMatrix then (a.modes k).length = 2 else (a.modes k).length = 1 := by
    have : (a.modes k).length = a.rawShape.length := by simp [TT.modes]
    rw [this]
    split
    · assumption
    · next h => exact wa.rows.resolve_right h
  obtain ⟨A, eA, sA, vA⟩ := rankSlice_ok hmat sa hl hr'
  obtain ⟨B, eB, sB, vB⟩ := rankSlice_ok hmat sb hl hr'
  obtain ⟨E, e, s, v⟩ := pairEin (modeLabels_spec wa k) sA sB
  refine ⟨E, einsumCost S ([chars! "pa" ++ (modeLabels a ++ ['b']), chars! "qa" ++ (modeLabels a ++ ['b'])], chars! "pq") [A, B], ?_, s, ?_⟩
  · unfold pairSlicesC
    simp only [wa.pyCore hk, wb.pyCore (show k < b.ndims by omega), free_bind, eA, eB]
    exact einsumC_ok S e
  · rw [cost_two hS, pairCost (modeLabels_spec wa k) _ sA sB, TT.N]
    gcongr

/-- The count of `pairwise_flat_inner_projected`. -/
theorem pairwiseProjectedC_le {S : Strategy} (hS : S.Valid) {u v : TT ℝ} (hu : u.WF) (hv : v.WF) (hr : v.rawShape = u.rawShape)
    (hrk : ∀ k ≤ u.ndims, v.rank k = u.rank k) (o : ℕ) {r n : ℕ} (h1 : ∀ k ≤ u.ndims, u.rank k ≤ r) (h2 : ∀ k < u.ndims, u.N k ≤ n)
    (hn : 1 ≤ n) :
    ∃ G c, (pairwiseProjectedC S ⟨u, some o⟩ ⟨v, some o⟩).run = Except.ok (G, c) ∧
      c ≤ 3 * (u.batch.getD 1 * v.batch.getD 1 * u.ndims * r ^ 2 * n) := by
  obtain ⟨a, ea, wa, ba, ra, ka, na, -⟩ := expand_item hu
  obtain ⟨b, eb, wb, bb, rb, kb, nb, -⟩ := expand_item hv
  set p := u.batch.getD 1
  set q := v.batch.getD 1
  have hab : b.rawShape = a.rawShape := by rw [rb, ra, hr]
  have hNa : a.N = u.N := by funext k; simp only [TT.N, modes_of_rows ra]
  have hpos := wa.pos
  have r1 : 1 ≤ r := by rw [← hu.rank_first]; exact h1 0 (Nat.zero_le _)
  have step : ∀ k < a.ndims, ∀ l r' lo c lo' c', IxRange l (a.rank k) lo c → IxRange r' (a.rank (k + 1)) lo' c' → c ≤ a.rank k →
      c' ≤ a.rank (k + 1) → ∃ E x, (pairSlicesC S a b l r' k).run = Except.ok (E, x) ∧ E.shape = [p, q] ∧ x ≤ p * q * (r ^ 2 * n) := by
    intro k hk l r' lo c lo' c' hl hr' hc hc'
    obtain ⟨E, x, e, s, hx⟩ := pairSlicesC_le hS wa wb ba bb hab hk (by rw [ka, kb]; exact hrk k (by omega))
      (by rw [ka, kb]; exact hrk (k + 1) (by omega)) hl hr' hc hc'
    refine ⟨E, x, e, s, hx.trans (Nat.mul_le_mul_left _ ?_)⟩
    rw [pow_two]
    gcongr
    · rw [ka]; exact h1 k (by omega)
    · rw [ka]; exact h1 (k + 1) (by omega)
    · rw [hNa]; exact h2 k (by omega)
  have add : ∀ A B : Tensor ℝ, A.shape = [p, q] → B.shape = [p, q] → ∃ T, (binopC (· + ·) A B).run = Except.ok (T, p * q) ∧ T.shape = [p, q] := by
    intro A B hA hB
    obtain ⟨T, e, s, -⟩ := binop_add_ok hA hB
    refine ⟨T, ?_, s⟩
    rw [binopC, binopCost_self (hA.trans hB.symm), hA, e]
    simp [Counted.charge, Except.map]
  obtain ⟨B0, c0, e0, s0, hc0⟩ := step 0 hpos .all (.slice none (some ((a.rank 1 / 2 : ℕ) : ℤ)) 1) _ _ _ _ (ixRange_all _)
    (ixRange_upto (Nat.div_le_self _ _)) le_rfl (Nat.div_le_self _ _)
  obtain ⟨B1, c1, e1, s1, hc1⟩ := forRangeC_le (fun _ (B : Tensor ℝ) => B.shape = [p, q]) (p * q * (r ^ 2 * n) + p * q) (fun k res => do
      let rl ← free (pyGet a.ttRanks k)
      let rr ← free (pyGet a.ttRanks (k + 1))
      let e ← pairSlicesC S a b (.slice (some (rl / 2 : ℕ)) none 1) (.slice none (some (rr / 2 : ℕ)) 1) k
      binopC (· + ·) res e) 1 (a.ndims - 1) B0 s0 (by
    intro k res hk hk' sr
    obtain ⟨E, x, e, s, hx⟩ := step k (by omega) (.slice (some ((a.rank k / 2 : ℕ) : ℤ)) none 1) (.slice none (some ((a.rank (k + 1) / 2 : ℕ) : ℤ)) 1)
      _ _ _ _ (ixRange_from (Nat.div_le_self _ _)) (ixRange_upto (Nat.div_le_self _ _)) (Nat.sub_le _ _) (Nat.div_le_self _ _)
    obtain ⟨T, eT, sT⟩ := add res E sr s
    refine ⟨T, x + p * q, ?_, sT, by omega⟩
    rw [wa.pyRank (by omega), wa.pyRank (by omega)]
    simp only [free_bind]
    exact bind_ok e eT)
  have hlast : a.ttRanks.length - 2 = a.ndims - 1 := by rw [wa.ranks_len]; omega
  obtain ⟨B2, c2, e2, s2, hc2⟩ := step (a.ndims - 1) (by omega) (.slice (some ((a.rank (a.ndims - 1) / 2 : ℕ) : ℤ)) none 1) .all _ _ _ _
    (ixRange_from (Nat.div_le_self _ _)) (ixRange_all _) (Nat.sub_le _ _) le_rfl
  obtain ⟨G, eG, sG⟩ := add B1 B2 s1 s2
  refine ⟨G, c0 + (c1 + (c2 + p * q)), ?_, ?_⟩
  · unfold pairwiseProjectedC
    rw [require_pos ⟨rfl, rfl⟩, require_pos rfl]
    simp only [free_bind, ea, eb, hlast]
    rw [wa.pyRank (by omega), free_bind]
    refine bind_ok e0 (bind_ok e1 ?_)
    rw [wa.pyRank (by omega), free_bind]
    exact bind_ok e2 eG
  · have hrn : 1 ≤ r ^ 2 * n := Nat.mul_pos (Nat.pow_pos r1) hn
    have hpq : p * q ≤ p * q * (r ^ 2 * n) := Nat.le_mul_of_pos_right _ hrn
    obtain ⟨d, hd⟩ : ∃ d, a.ndims = d + 1 := ⟨a.ndims - 1, by omega⟩
    rw [hd, Nat.add_sub_cancel] at hc1
    calc c0 + (c1 + (c2 + p * q)) ≤ p * q * (r ^ 2 * n) + (d * (p * q * (r ^ 2 * n) + p * q * (r ^ 2 * n)) + (p * q * (r ^ 2 * n) + p * q * (r ^ 2 * n))) := by
          gcongr
          exact hc1.trans (by gcongr)
      _ = p * q * (r ^ 2 * n) * (2 * d + 3) := by ring
      _ ≤ p * q * (r ^ 2 * n) * (3 * (d + 1)) := by gcongr; omega
      _ = _ := by rw [← na, hd]; ring

end T3f
