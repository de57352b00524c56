import Verif.Proofs.CostOrtho
import Verif.Proofs.Project

/-!
# The count of `project` and `project_sum`
-/

namespace T3f

open Counted

/-- Two operands can be contracted in one way only. -/
theorem cost_two {K : Type} {S : Strategy} (h : S.Valid) (l1 l2 out : List Char) (a b : Tensor K) :
    einsumCost S ([l1, l2], out) [a, b] = orderCost ([l1, l2], out) [a, b] [(0, 1)] := by
  unfold einsumCost
  rw [validPath_two (h _ [l1, l2] out)]

section
variable {ax : List Char} {M : List ℕ}

theorem rhsCost (hM : AxFor ax M) {W Q V : Tensor ℝ} {n a b c d : ℕ}
    (hW : W.shape = n :: a :: (M ++ [b])) (hQ : Q.shape = [n, b, d]) (hV : V.shape = c :: (M ++ [d])) :
    orderCost ([chars! "sa" ++ (ax ++ ['b']), chars! "sbd", 'c' :: (ax ++ ['d'])], chars! "sac") [W, Q, V] [(0, 1), (0, 1)] =
      n * M.prod * (a * b * d + a * c * d) := by
  rcases hM with ⟨hM, rfl⟩ | ⟨hM, rfl⟩
  · obtain ⟨i, rfl⟩ := List.length_eq_one_iff.1 hM
    simp [orderCost, pathCost, labelSize, jointLabels, contractPair, keptLabels, einDims, hW, hQ, hV, List.lookup, lookupLabel,
      -mul_eq_mul_left_iff, -mul_eq_mul_right_iff]
    ring
  · obtain ⟨i, j, rfl⟩ := List.length_eq_two.1 hM
    simp [orderCost, pathCost, labelSize, jointLabels, contractPair, keptLabels, einDims, hW, hQ, hV, List.lookup, lookupLabel,
      -mul_eq_mul_left_iff, -mul_eq_mul_right_iff]
    ring

theorem lhsCost (hM : AxFor ax M) {Q L W : Tensor ℝ} {n a b c d : ℕ}
    (hQ : Q.shape = [n, a, b]) (hL : L.shape = a :: (M ++ [c])) (hW : W.shape = n :: b :: (M ++ [d])) :
    orderCost ([chars! "sab", 'a' :: (ax ++ ['c']), chars! "sb" ++ (ax ++ ['d'])], chars! "scd") [Q, L, W] [(0, 1), (0, 1)] =
      n * M.prod * (a * b * c + b * c * d) := by
  rcases hM with ⟨hM, rfl⟩ | ⟨hM, rfl⟩
  · obtain ⟨i, rfl⟩ := List.length_eq_one_iff.1 hM
    simp [orderCost, pathCost, labelSize, jointLabels, contractPair, keptLabels, einDims, hW, hQ, hL, List.lookup, lookupLabel,
      -mul_eq_mul_left_iff, -mul_eq_mul_right_iff]
    ring
  · obtain ⟨i, j, rfl⟩ := List.length_eq_two.1 hM
    simp [orderCost, pathCost, labelSize, jointLabels, contractPair, keptLabels, einDims, hW, hQ, hL, List.lookup, lookupLabel,
      -mul_eq_mul_left_iff, -mul_eq_mul_right_iff]
    ring

theorem lastCost (hM : AxFor ax M) (out : List Char) {Q W : Tensor ℝ} {n a b c : ℕ}
    (hQ : Q.shape = [n, a, b]) (hW : W.shape = n :: b :: (M ++ [c])) :
    orderCost ([chars! "sab", chars! "sb" ++ (ax ++ ['c'])], out) [Q, W] [(0, 1)] = n * M.prod * (a * b * c) := by
  rcases hM with ⟨hM, rfl⟩ | ⟨hM, rfl⟩
  · obtain ⟨i, rfl⟩ := List.length_eq_one_iff.1 hM
    simp [orderCost, pathCost, labelSize, jointLabels, einDims, hW, hQ, List.lookup, lookupLabel,
      -mul_eq_mul_left_iff, -mul_eq_mul_right_iff]
    ring
  · obtain ⟨i, j, rfl⟩ := List.length_eq_two.1 hM
    simp [orderCost, pathCost, labelSize, jointLabels, einDims, hW, hQ, List.lookup, lookupLabel,
      -mul_eq_mul_left_iff, -mul_eq_mul_right_iff]
    ring

theorem backCost (hM : AxFor ax M) (out : List Char) {L Q : Tensor ℝ} {n a b c : ℕ}
    (hL : L.shape = a :: (M ++ [b])) (hQ : Q.shape = [n, b, c]) :
    orderCost (['a' :: (ax ++ ['b']), chars! "sbc"], out) [L, Q] [(0, 1)] = n * M.prod * (a * b * c) := by
  rcases hM with ⟨hM, rfl⟩ | ⟨hM, rfl⟩
  · obtain ⟨i, rfl⟩ := List.length_eq_one_iff.1 hM
    simp [orderCost, pathCost, labelSize, jointLabels, einDims, hL, hQ, List.lookup, lookupLabel,
      -mul_eq_mul_left_iff, -mul_eq_mul_right_iff]
    ring
  · obtain ⟨i, j, rfl⟩ := List.length_eq_two.1 hM
    simp [orderCost, pathCost, labelSize, jointLabels, einDims, hL, hQ, List.lookup, lookupLabel,
      -mul_eq_mul_left_iff, -mul_eq_mul_right_iff]
    ring

theorem timesCost (hM : AxFor ax M) (out : List Char) {P Q : Tensor ℝ} {n a b c : ℕ}
    (hP : P.shape = n :: a :: (M ++ [b])) (hQ : Q.shape = [n, b, c]) :
    orderCost ([chars! "sa" ++ (ax ++ ['b']), chars! "sbc"], out) [P, Q] [(0, 1)] = n * M.prod * (a * b * c) := by
  rcases hM with ⟨hM, rfl⟩ | ⟨hM, rfl⟩
  · obtain ⟨i, rfl⟩ := List.length_eq_one_iff.1 hM
    simp [orderCost, pathCost, labelSize, jointLabels, einDims, hP, hQ, List.lookup, lookupLabel,
      -mul_eq_mul_left_iff, -mul_eq_mul_right_iff]
    ring
  · obtain ⟨i, j, rfl⟩ := List.length_eq_two.1 hM
    simp [orderCost, pathCost, labelSize, jointLabels, einDims, hP, hQ, List.lookup, lookupLabel,
      -mul_eq_mul_left_iff, -mul_eq_mul_right_iff]
    ring

theorem weightCost2 (hM : AxFor ax M) (out : List Char) {w P : Tensor ℝ} {n o a c : ℕ}
    (hw : w.shape = [n, o]) (hP : P.shape = n :: a :: (M ++ [c])) :
    orderCost ([chars! "so", chars! "sa" ++ (ax ++ ['c'])], out) [w, P] [(0, 1)] = n * o * M.prod * (a * c) := by
  rcases hM with ⟨hM, rfl⟩ | ⟨hM, rfl⟩
  · obtain ⟨i, rfl⟩ := List.length_eq_one_iff.1 hM
    simp [orderCost, pathCost, labelSize, jointLabels, einDims, hw, hP, List.lookup, lookupLabel,
      -mul_eq_mul_left_iff, -mul_eq_mul_right_iff]
    ring
  · obtain ⟨i, j, rfl⟩ := List.length_eq_two.1 hM
    simp [orderCost, pathCost, labelSize, jointLabels, einDims, hw, hP, List.lookup, lookupLabel,
      -mul_eq_mul_left_iff, -mul_eq_mul_right_iff]
    ring

theorem weightCost1 (hM : AxFor ax M) (out : List Char) {w P : Tensor ℝ} {n a c : ℕ}
    (hw : w.shape = [n]) (hP : P.shape = n :: a :: (M ++ [c])) :
    orderCost ([chars! "s", chars! "sa" ++ (ax ++ ['c'])], out) [w, P] [(0, 1)] = n * M.prod * (a * c) := by
  rcases hM with ⟨hM, rfl⟩ | ⟨hM, rfl⟩
  · obtain ⟨i, rfl⟩ := List.length_eq_one_iff.1 hM
    simp [orderCost, pathCost, labelSize, jointLabels, einDims, hw, hP, List.lookup, lookupLabel,
      -mul_eq_mul_left_iff, -mul_eq_mul_right_iff]
    ring
  · obtain ⟨i, j, rfl⟩ := List.length_eq_two.1 hM
    simp [orderCost, pathCost, labelSize, jointLabels, einDims, hw, hP, List.lookup, lookupLabel,
      -mul_eq_mul_left_iff, -mul_eq_mul_right_iff]
    ring

end

theorem binopCost_self {a b : Tensor ℝ} (h : a.shape = b.shape) : binopCost a b = a.shape.prod := by
  unfold binopCost
  rw [← h, bshape_self]
  exact List.prod_reverse _

section
variable {x left right w : TT ℝ} {n : ℕ}

/-- Bounds for the ranks and the modes. -/
structure PBound (x left right w : TT ℝ) (r q m : ℕ) : Prop where
  l : ∀ k ≤ x.ndims, left.rank k ≤ r
  r' : ∀ k ≤ x.ndims, right.rank k ≤ r
  w' : ∀ k ≤ x.ndims, w.rank k ≤ q
  m' : ∀ k < x.ndims, (x.modes k).prod ≤ m

theorem PSetup.rhsC_le (P : PSetup x left right w n) {r q m : ℕ} (B : PBound x left right w r q m) {S : Strategy} {κ : ℕ}
    (hS : S.Within κ) : (projectRhsC S (modeLabels x) w right x.ndims n).Bound (fun _ => True)
      (x.ndims * (κ * (n * m * (q * r * (q + r))))) := by
  have F := P.F
  refine ((Bound.forRange (fun j (rhs : List (Tensor ℝ)) => rhs.length = x.ndims + 1 ∧ ∀ k, x.ndims - j ≤ k → k ≤ x.ndims →
      (rhs.getD k default).shape = [n, w.rank k, right.rank k]) (κ * (n * m * (q * r * (q + r))))
    (fun j => rhsStepC S (modeLabels x) w right (x.ndims - 1 - j)) 0 (x.ndims - 1)
    ((List.replicate (x.ndims + 1) default).set x.ndims (ones [n, 1, 1])) ?_ ?_).mono (fun _ _ => trivial) (by gcongr; omega))
  · refine ⟨by simp, fun k h1 h2 => ?_⟩
    obtain rfl : k = x.ndims := by omega
    rw [List.getD_eq_getElem _ _ (by simp)]
    simp only [List.getElem_set_self, P.wd, F.rd]
    rfl
  · intro j rhs _ hj ⟨hl, hv⟩
    obtain ⟨k, hk⟩ : ∃ k, x.ndims - 1 - j = k := ⟨_, rfl⟩
    have hkd : k < x.ndims := by omega
    have hs := hv (k + 1) (by omega) (by omega)
    obtain ⟨E, eE, sE, -⟩ := rhsEin (P.ax k) (P.sw hkd) hs (F.sr hkd)
    unfold rhsStepC
    rw [hk, P.cw hkd, F.cr hkd, pyGet_of_lt _ _ default (show k + 1 < rhs.length by omega)]
    simp only [free_bind]
    rw [← Nat.add_zero (κ * _)]
    refine Bound.einsum_bind eE ?_ (Bound.pure ?_)
    · refine (within_cost hS ([chars! "sa" ++ (modeLabels x ++ ['b']), chars! "sbd", 'c' :: (modeLabels x ++ ['d'])], chars! "sac") _
        [(0, 1), (0, 1)] ⟨by omega, by show 1 < 3; omega, by omega, by show 1 < 2; omega, rfl⟩).trans ?_
      rw [rhsCost (P.ax k) (P.sw hkd) hs (F.sr hkd)]
      refine Nat.mul_le_mul_left _ (Nat.mul_le_mul (Nat.mul_le_mul_left _ (B.m' k hkd)) ?_)
      calc _ ≤ q * q * r + q * r * r := by
            gcongr
            · exact B.w' _ hkd.le
            · exact B.w' _ hkd
            · exact B.r' _ hkd
            · exact B.w' _ hkd.le
            · exact B.r' _ hkd.le
            · exact B.r' _ hkd
        _ = _ := by ring
    · refine ⟨by rw [List.length_set]; exact hl, fun i h1 h2 => ?_⟩
      by_cases hik : k = i
      · subst hik
        rw [List.getD_eq_getElem _ _ (by rw [List.length_set]; omega), List.getElem_set_self]
        exact sE
      · rw [pyGet_set_ne hik]
        exact hv i (by omega) h2

theorem PSetup.lhsC_le (P : PSetup x left right w n) {r q m : ℕ} (B : PBound x left right w r q m) {S : Strategy} {κ : ℕ}
    (hS : S.Within κ) : (projectLhsC S (modeLabels x) w left x.ndims n).Bound (fun _ => True)
      (x.ndims * (κ * (n * m * (q * r * (q + r))))) := by
  have F := P.F
  refine ((Bound.forRange (fun j (lhs : List (Tensor ℝ)) => lhs.length = x.ndims + 1 ∧ ∀ k ≤ j,
      (lhs.getD k default).shape = [n, left.rank k, w.rank k]) (κ * (n * m * (q * r * (q + r))))
    (lhsStepC S (modeLabels x) w left) 0 (x.ndims - 1)
    ((List.replicate (x.ndims + 1) default).set 0 (ones [n, 1, 1])) ?_ ?_).mono (fun _ _ => trivial) (by gcongr; omega))
  · refine ⟨by simp, fun k h1 => ?_⟩
    obtain rfl : k = 0 := by omega
    rw [List.getD_eq_getElem _ _ (by simp)]
    simp only [List.getElem_set_self, F.l0, P.ww.rank_first]
    rfl
  · intro k lhs _ hj ⟨hl, hv⟩
    have hkd : k < x.ndims := by omega
    have hs := hv k le_rfl
    obtain ⟨E, eE, sE, -⟩ := lhsEin (P.ax k) hs (F.sl hkd) (P.sw hkd)
    unfold lhsStepC
    rw [P.cw hkd, F.cl hkd, pyGet_of_lt _ _ default (show k < lhs.length by omega)]
    simp only [free_bind]
    rw [← Nat.add_zero (κ * _)]
    refine Bound.einsum_bind eE ?_ (Bound.pure ?_)
    · refine (within_cost hS ([chars! "sab", 'a' :: (modeLabels x ++ ['c']), chars! "sb" ++ (modeLabels x ++ ['d'])], chars! "scd") _
        [(0, 1), (0, 1)] ⟨by omega, by show 1 < 3; omega, by omega, by show 1 < 2; omega, rfl⟩).trans ?_
      rw [lhsCost (P.ax k) hs (F.sl hkd) (P.sw hkd)]
      refine Nat.mul_le_mul_left _ (Nat.mul_le_mul (Nat.mul_le_mul_left _ (B.m' k hkd)) ?_)
      calc _ ≤ r * q * r + q * r * q := by
            gcongr
            · exact B.l _ hkd.le
            · exact B.w' _ hkd.le
            · exact B.l _ hkd
            · exact B.w' _ hkd.le
            · exact B.l _ hkd
            · exact B.w' _ hkd
        _ = _ := by ring
    · refine ⟨by rw [List.length_set]; exact hl, fun i h1 => ?_⟩
      by_cases hik : k + 1 = i
      · subst hik
        rw [List.getD_eq_getElem _ _ (by rw [List.length_set]; omega), List.getElem_set_self]
        exact sE
      · rw [pyGet_set_ne hik]
        exact hv i (by omega)

theorem PSetup.blockC_le (P : PSetup x left right w n) {r q m : ℕ} (B : PBound x left right w r q m) {S : Strategy} (hS : S.Valid)
    (keep : Bool) {lhs rhs : List (Tensor ℝ)} (ll : lhs.length = x.ndims + 1) (lr : rhs.length = x.ndims + 1)
    (hL : ∀ k < x.ndims, (lhs.getD k default).shape = [n, left.rank k, w.rank k])
    (hR : ∀ k, 0 < k → k ≤ x.ndims → (rhs.getD k default).shape = [n, w.rank k, right.rank k]) {k : ℕ} (hk : k < x.ndims) :
    (projectBlockC S (modeLabels x) keep lhs rhs x.ndims k (w.core k) (left.core k)).Bound
      (fun E => keep = true → E.shape = n :: left.rank k :: (x.modes k ++ [right.rank (k + 1)])) (2 * (n * m * (q * r * (q + r)))) := by
  have F := P.F
  have sL := hL k hk
  have gL : pyGet lhs k = Except.ok (lhs.getD k default) := pyGet_of_lt _ _ _ (by omega)
  obtain ⟨⟨E1, e1, s1, v1⟩, -⟩ := lastEin (P.ax k) sL (P.sw hk)
  have q1 : 1 ≤ q := by rw [← P.ww.rank_first]; exact B.w' 0 (Nat.zero_le _)
  have c1 : n * (x.modes k).prod * (left.rank k * w.rank k * w.rank (k + 1)) ≤ n * m * (r * q * q) := by
    gcongr
    · exact B.m' k hk
    · exact B.l _ hk.le
    · exact B.w' _ hk.le
    · exact B.w' _ hk
  unfold projectBlockC
  by_cases h1 : k + 1 < x.ndims
  · rw [if_pos h1]
    have sL' := hL (k + 1) h1
    have sR := hR (k + 1) (by omega) h1.le
    have gL' : pyGet lhs (k + 1) = Except.ok (lhs.getD (k + 1) default) := pyGet_of_lt _ _ _ (by omega)
    have gR : pyGet rhs (k + 1) = Except.ok (rhs.getD (k + 1) default) := pyGet_of_lt _ _ _ (by omega)
    obtain ⟨E2, e2, s2, v2⟩ := backEin (P.ax k) (F.sl hk) sL'
    obtain ⟨Df, ed, sd, vd⟩ := binop_ok (· - ·) E1 E2 E1.shape (by rw [s1, s2]; exact bshape_self _)
    have hdiff : (projectDiffC S (modeLabels x) lhs k (w.core k) (left.core k)).Bound (fun T => T = Df)
        (n * m * (r * q * q) + (n * m * (r * r * q) + n * m * (r * q))) := by
      unfold projectDiffC
      simp only [gL, gL', free_bind]
      refine Bound.einsum_bind e1 ?_ (Bound.einsum_bind e2 ?_ ?_)
      · rw [cost_two hS, lastCost (P.ax k) _ sL (P.sw hk)]
        exact c1
      · rw [cost_two hS, backCost (P.ax k) _ (F.sl hk) sL']
        gcongr
        · exact B.m' k hk
        · exact B.l _ hk.le
        · exact B.l _ hk
        · exact B.w' _ hk
      · refine Bound.charge ?_ fun T hT => by rw [ed] at hT; exact (Except.ok.inj hT).symm
        rw [binopCost_self (s1.trans s2.symm), s1]
        simp only [List.prod_cons, List.prod_append, List.prod_nil]
        calc n * (left.rank k * ((x.modes k).prod * (w.rank (k + 1) * 1))) ≤ n * (r * (m * (q * 1))) := by
              gcongr
              · exact B.l _ hk.le
              · exact B.m' k hk
              · exact B.w' _ hk
          _ = _ := by ring
    rw [s1] at sd
    refine (hdiff.bind (v := n * m * (r * q * r)) fun T hT => ?_).mono (fun _ h => h) ?_
    · subst hT
      simp only [gR, free_bind]
      refine Bound.charge ?_ fun E hE hkeep => by
        subst hkeep
        obtain ⟨⟨E3, e3, s3, -⟩, -⟩ := timesEin (P.ax k) sd sR
        obtain rfl : E3 = E := Except.ok.inj (e3.symm.trans hE)
        exact s3
      rw [cost_two hS, timesCost (P.ax k) _ sd sR]
      gcongr
      · exact B.m' k hk
      · exact B.l _ hk.le
      · exact B.w' _ hk
      · exact B.r' _ hk
    · calc _ = n * m * (q * r * (q + r + r + 1)) := by ring
        _ ≤ n * m * (q * r * (2 * (q + r))) := by gcongr; omega
        _ = _ := by ring
  · rw [if_neg h1]
    simp only [gL, free_bind]
    refine Bound.charge ?_ fun E hE hkeep => by
      subst hkeep
      obtain rfl : E1 = E := Except.ok.inj (e1.symm.trans hE)
      rw [s1, show k + 1 = x.ndims by omega, P.wd, F.rd]
    rw [cost_two hS, lastCost (P.ax k) _ sL (P.sw hk)]
    refine c1.trans ?_
    calc _ = n * m * (q * r * q) := by ring
      _ ≤ n * m * (q * r * (2 * (q + r))) := by gcongr; omega
      _ = _ := by ring

/-- The shapes of the two lists of partial contractions, and their counts. -/
theorem PSetup.sides (P : PSetup x left right w n) (hd : 1 ≤ x.ndims) {r q m : ℕ} (B : PBound x left right w r q m) {S : Strategy} {κ : ℕ}
    (hS : S.Within κ) :
    (projectRhsC S (modeLabels x) w right x.ndims n).Bound (fun rhs => rhs.length = x.ndims + 1 ∧
      ∀ k, 0 < k → k ≤ x.ndims → (rhs.getD k default).shape = [n, w.rank k, right.rank k]) (x.ndims * (κ * (n * m * (q * r * (q + r))))) ∧
    (projectLhsC S (modeLabels x) w left x.ndims n).Bound (fun lhs => lhs.length = x.ndims + 1 ∧
      ∀ k < x.ndims, (lhs.getD k default).shape = [n, left.rank k, w.rank k]) (x.ndims * (κ * (n * m * (q * r * (q + r))))) := by
  obtain ⟨rhs, er, lr, hR⟩ := P.rhs_ok hd
  obtain ⟨lhs, el, ll, hL⟩ := P.lhs_ok hd
  exact ⟨(P.rhsC_le B hS).post (value_projectRhsC _ _ _ _ _ _) er ⟨lr, fun k h1 h2 => (hR k h1 h2).1⟩,
    (P.lhsC_le B hS).post (value_projectLhsC _ _ _ _ _ _) el ⟨ll, fun k h1 => (hL k h1).1⟩⟩

end

/-- The ranks and modes of the situation of `project`. -/
theorem TFrame.bound {x left right w : TT ℝ} (F : TFrame x left right) (h : x.WF) {r q m : ℕ} (hr : ∀ k ≤ x.ndims, x.rank k ≤ r)
    (hq : ∀ k ≤ x.ndims, w.rank k ≤ q) (hm : ∀ k < x.ndims, x.N k ≤ m) : PBound x left right w r q m where
  l k hk := by rw [F.kl k hk]; exact (lrRank_le _ _ h.rank_first k).trans (hr k hk)
  r' k hk := (F.right_le hk).trans (by rw [F.kl k hk]; exact (lrRank_le _ _ h.rank_first k).trans (hr k hk))
  w' := hq
  m' := hm

/-- The count of `project`. -/
theorem projectC_le {S : Strategy} {κ : ℕ} (hS : S.Within κ) {qr : QRRoutine} (hqr : qr.Correct) {x z : TT ℝ} (h : x.WF) (hb : x.batch = none)
    (hm : x.ModesPos) (hz : z.WF) (hr : z.rawShape = x.rawShape) {r q m : ℕ} (h1 : ∀ k ≤ x.ndims, x.rank k ≤ r)
    (h2 : ∀ k ≤ z.ndims, z.rank k ≤ q) (h3 : ∀ k < x.ndims, x.N k ≤ m) :
    (projectC S qr z x).Bound (fun _ => True) (4 * (x.ndims * r ^ 3 * m) +
      (2 * κ + 2) * (z.batch.getD 1 * x.ndims * q * r * m * (q + r))) := by
  obtain ⟨left, right, hF, F⟩ := tangentFrame_ok hqr h hb hm
  obtain ⟨w, n, ew, ww, bw, rw', kw, nw, hcase, -⟩ := expand_fl hz
  have hnd := ndims_of_rows hz h hr
  have P : PSetup x left right w n := ⟨F, h, ww, bw, rw'.trans hr, nw.trans hnd⟩
  have B : PBound x left right w r q m := F.bound h h1 (by rw [kw, ← hnd]; exact h2) h3
  obtain ⟨bR, bL⟩ := P.sides h.pos B hS
  have hbs : w.lazyBatchSize = Except.ok n := by simp [TT.lazyBatchSize, bw]
  have hn : z.batch.getD 1 = n := by rcases hcase with ⟨h, -⟩ | ⟨h, rfl⟩ <;> simp [h]
  unfold projectC
  refine Bound.free_bind fun _ _ => ?_
  refine ((tangentFrameC_le hqr h hb hm F hF h1 h3).bind (v := x.ndims * (κ * (n * m * (q * r * (q + r)))) +
    (x.ndims * (κ * (n * m * (q * r * (q + r)))) + x.ndims * (2 * (n * m * (q * r * (q + r)))))) fun f hf => ?_).mono (fun _ h => h) ?_
  · subst hf
    simp only [ew, hbs, free_bind]
    refine bR.bind fun rhs hrhs => bL.bind fun lhs hlhs => ?_
    refine ((Bound.mapRange fun k hk => ?_).bind (v := 0) fun _ _ => Bound.free fun _ _ => trivial).mono (fun _ h => h)
      (Nat.add_zero _).le
    simp only [P.cw hk, F.cl hk, F.cr hk, free_bind]
    refine ((P.blockC_le B hS.valid z.isBatch hlhs.1 hrhs.1 hlhs.2 hrhs.2 hk).bind (v := 0) fun _ _ => ?_).mono (fun _ h => h) (Nat.add_zero _).le
    exact Bound.free_bind fun _ _ => Bound.free_bind fun _ _ => Bound.free fun _ _ => trivial
  · rw [hn]
    apply le_of_eq
    ring

/-- The count of `project_sum`; `o` is the number of columns of the weights. -/
theorem projectSumC_le {S : Strategy} {κ : ℕ} (hS : S.Within κ) {qr : QRRoutine} (hqr : qr.Correct) {x z : TT ℝ} (h : x.WF) (hb : x.batch = none)
    (hm : x.ModesPos) (hz : z.WF) (hr : z.rawShape = x.rawShape) (weights : Option (Tensor ℝ)) (o : ℕ)
    (hw : weights = none ∧ o = 0 ∨ (∃ wt, weights = some wt ∧ wt.shape = [z.batch.getD 1] ∧ o = 1) ∨
      ∃ wt, weights = some wt ∧ wt.shape = [z.batch.getD 1, o] ∧ 1 < o) {r q m : ℕ} (h1 : ∀ k ≤ x.ndims, x.rank k ≤ r)
    (h2 : ∀ k ≤ z.ndims, z.rank k ≤ q) (h3 : ∀ k < x.ndims, x.N k ≤ m) :
    (projectSumC S qr z x weights).Bound (fun _ => True) (4 * (x.ndims * r ^ 3 * m) +
      (2 * κ + 2) * (z.batch.getD 1 * x.ndims * q * r * m * (q + r)) + z.batch.getD 1 * o * x.ndims * r ^ 2 * m) := by
  obtain ⟨left, right, hF, F⟩ := tangentFrame_ok hqr h hb hm
  obtain ⟨w, n, ew, ww, bw, rw', kw, nw, hcase, -⟩ := expand_fl hz
  have hnd := ndims_of_rows hz h hr
  have P : PSetup x left right w n := ⟨F, h, ww, bw, rw'.trans hr, nw.trans hnd⟩
  have B : PBound x left right w r q m := F.bound h h1 (by rw [kw, ← hnd]; exact h2) h3
  obtain ⟨bR, bL⟩ := P.sides h.pos B hS
  have hbs : w.lazyBatchSize = Except.ok n := by simp [TT.lazyBatchSize, bw]
  have hn : z.batch.getD 1 = n := by rcases hcase with ⟨h, -⟩ | ⟨h, rfl⟩ <;> simp [h]
  rw [hn] at hw ⊢
  unfold projectSumC
  rw [ew, free_bind]
  refine Bound.free_bind fun _ _ => ?_
  refine ((tangentFrameC_le hqr h hb hm F hF h1 h3).bind (v := x.ndims * (κ * (n * m * (q * r * (q + r)))) +
    (x.ndims * (κ * (n * m * (q * r * (q + r)))) + x.ndims * (2 * (n * m * (q * r * (q + r))) + n * o * m * (r * r)))) fun f hf => ?_).mono
      (fun _ h => h) ?_
  · subst hf
    simp only [hbs, free_bind]
    refine bR.bind fun rhs hrhs => bL.bind fun lhs hlhs => ?_
    refine ((Bound.mapRange fun k hk => ?_).bind (v := 0) fun _ _ => Bound.free fun _ _ => trivial).mono (fun _ h => h)
      (Nat.add_zero _).le
    simp only [P.cw hk, F.cl hk, F.cr hk, free_bind]
    have hbl : (projectSumBlockC S (modeLabels x) weights lhs rhs x.ndims k (w.core k) (left.core k)).Bound (fun _ => True)
        (2 * (n * m * (q * r * (q + r))) + n * o * m * (r * r)) := by
      have hE : (projectBlockC S (modeLabels x) true lhs rhs x.ndims k (w.core k) (left.core k)).Bound
          (fun E => E.shape = n :: left.rank k :: (x.modes k ++ [right.rank (k + 1)])) (2 * (n * m * (q * r * (q + r)))) :=
        (P.blockC_le B hS.valid true hlhs.1 hrhs.1 hlhs.2 hrhs.2 hk).mono (fun _ h => h rfl) le_rfl
      unfold projectSumBlockC
      rcases hw with ⟨rfl, rfl⟩ | ⟨wt, rfl, sw, rfl⟩ | ⟨wt, rfl, sw, ho⟩
      · exact (P.blockC_le B hS.valid false hlhs.1 hrhs.1 hlhs.2 hrhs.2 hk).mono (fun _ _ => trivial) (Nat.le_add_right _ _)
      · refine hE.bind fun E sE => Bound.charge ?_ fun _ _ => trivial
        have : sumOutBatch (some wt) = none := by simp [sumOutBatch, sw]
        rw [cost_two hS.valid, this]
        refine (weightCost1 (P.ax k) _ sw sE).trans_le ?_
        rw [Nat.mul_one]
        gcongr
        · exact B.m' k hk
        · exact B.l _ hk.le
        · exact B.r' _ hk
      · refine hE.bind fun E sE => Bound.charge ?_ fun _ _ => trivial
        have : sumOutBatch (some wt) = some o := by simp [sumOutBatch, sw, ho]
        rw [cost_two hS.valid, this]
        refine (weightCost2 (P.ax k) _ sw sE).trans_le ?_
        gcongr
        · exact B.m' k hk
        · exact B.l _ hk.le
        · exact B.r' _ hk
    refine (hbl.bind (v := 0) fun _ _ => ?_).mono (fun _ h => h) (Nat.add_zero _).le
    exact Bound.free_bind fun _ _ => Bound.free_bind fun _ _ => Bound.free fun _ _ => trivial
  · apply le_of_eq
    ring

end T3f
