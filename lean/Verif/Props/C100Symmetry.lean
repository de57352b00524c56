import Verif.Props.C90Equivariance
import Verif.Props.C99Sign

/-!
# C100: symmetric and positive definite TT-matrices

Without ties the rounded matrix of a symmetric TT-matrix is symmetric. It need not be positive definite if the TT-matrix is.
-/

namespace T3f

/-- If the matrix as a tensor with paired indices has no ties, neither has the matrix. -/
theorem noTies_paired {a b : List ℕ} (hab : a.length = b.length) {bd : ℕ → ℕ} {ks : List ℕ} {X : List ℕ → ℝ}
    (h : NoTies [List.zipWith (· * ·) a b] (List.zipWith (· * ·) a b) bd ks (paired a b X)) : NoTies [a, b] [a.prod, b.prod] bd ks X := by
  induction ks generalizing X with
  | nil => trivial
  | cons k ks ih =>
    intro Z hZ
    obtain ⟨hu, hn⟩ := h _ (nearestCut_paired hab hZ)
    refine ⟨fun Z' hZ' i hi => ?_, ih hn⟩
    have := hu _ (nearestCut_paired hab hZ') _ (pairJoin_valid hab hi)
    have e := pairSplit_join hab hi
    change Z' (pairSplit a b _) = Z (pairSplit a b _) at this
    rwa [e] at this

/-- The transposed result is a result for the transposed matrix. -/
theorem Truncated.symmetric {I : List ℕ} {b : ℕ → ℕ} {ks : List ℕ} {X Y : List ℕ → ℝ} (h : Truncated [I, I] [I.prod, I.prod] b ks X Y)
    (hn : NoTies [I, I] [I.prod, I.prod] b ks X) (hX : ∀ x < I.prod, ∀ y < I.prod, X [x, y] = X [y, x]) :
    ∀ x < I.prod, ∀ y < I.prod, Y [x, y] = Y [y, x] := by
  intro x hx y hy
  have h' : Truncated [I, I] (restShape [I, I]) b ks X Y := h
  refine NoTies.unique (rows := [I, I]) hn (truncated_congr (fun i hi => ?_) (fun _ _ => rfl) (truncated_transpose h')) h' [x, y] ⟨hx, hy, trivial⟩
  obtain ⟨u, v, rfl, hu, hv⟩ := swap_valid hi
  exact hX u hu v hv

/-- **C100.** If a TT-matrix, or an item of a batch, is symmetric and has no ties, the result of `round` is symmetric. -/
theorem C100_round {qr : QRRoutine} (hqr : qr.Correct) {svd : SVDRoutine} (hsvd : svd.Correct) {t : TT ℝ} (h : t.WF) (hm : t.ModesPos) {I : List ℕ}
    (ht : t.rawShape = [I, I]) {m : MaxRank} {b : ℕ → ℕ} (hb : m.Bounds t.ndims b) (hbatch : t.isBatch → m.Single) {eps : Option ℝ}
    (he : ∀ e ∈ eps, 0 ≤ e) {T : Tensor ℝ} (eT : full t = Except.ok T) :
    ∃ x X, ttRound qr svd t m eps = Except.ok x ∧ full x = Except.ok X ∧ T.shape = t.bpre ++ [I.prod, I.prod] ∧ X.shape = T.shape ∧
      ∀ p, Valid t.bpre p → NoTies [I, I] [I.prod, I.prod] b (List.range' 1 (t.ndims - 1)).reverse (fun i => T.get (p ++ i)) →
        (∀ x < I.prod, ∀ y < I.prod, T.get (p ++ [x, y]) = T.get (p ++ [y, x])) → ∀ x < I.prod, ∀ y < I.prod, X.get (p ++ [x, y]) = X.get (p ++ [y, x]) := by
  obtain ⟨x, T', X, s', e, eT', eX, sT, sX, hp⟩ := C70_round_steps hqr hsvd h hm hb hbatch he
  obtain rfl : T' = T := Except.ok.inj (eT'.symm.trans eT)
  obtain ⟨T'', eT'', sT'', -⟩ := full_ok h
  obtain rfl : T'' = T' := Except.ok.inj (eT''.symm.trans eT)
  have hs' : s' = [I.prod, I.prod] := by
    have := List.append_cancel_left (sT.symm.trans sT'')
    rw [this, ht]
    rfl
  subst hs'
  rw [ht] at hp
  exact ⟨x, X, e, eX, sT, by rw [sX, sT], fun p hv hu h0 => (hp p hv).symmetric hu h0⟩

/-- **C100.** The same for `to_tt_matrix`. -/
theorem C100_matrix {svd : SVDRoutine} (hsvd : svd.Correct) {A : Tensor ℝ} {I : List ℕ} (hA : A.shape = [I.prod, I.prod]) (hd : 2 ≤ I.length)
    (hI : ∀ n ∈ I, 0 < n) {m : MaxRank} {b : ℕ → ℕ} (hb : m.Bounds I.length b) {eps : Option ℝ} (he : ∀ e ∈ eps, 0 ≤ e)
    (hu : NoTies [I, I] [I.prod, I.prod] b (List.range' 1 (I.length - 1)) A.get) (h0 : ∀ x < I.prod, ∀ y < I.prod, A.get [x, y] = A.get [y, x]) :
    ∃ x Y, toTTMatrix svd A (some I) (some I) m eps = Except.ok x ∧ full x = Except.ok Y ∧ Y.shape = A.shape ∧
      ∀ x < I.prod, ∀ y < I.prod, Y.get [x, y] = Y.get [y, x] := by
  obtain ⟨x, Y, e, eY, sY, hp⟩ := C70_matrix_steps hsvd (X := A) (A := A) (a := I) (b := I) (by rw [hA]; simp) rfl hd hI hI
    (ra := some I) (rb := some I) (by simp [RowArgs]) hA (fun x hx y hy => by
      have hv : Valid A.shape [x, y] := by rw [hA]; exact ⟨hx, hy, trivial⟩
      have : x * I.prod + y = ravel A.shape [x, y] := by rw [hA]; simp [ravel]
      rw [this, unravel_ravel hv]) hb he
  rw [hA] at hp
  exact ⟨x, Y, e, eY, sY, hp.symmetric hu h0⟩

/-- The diagonal TT-matrix with row and column sizes `(3, 3)` and the diagonal `73, 20, 2, 20, 85, 22, 2, 22, 94`. -/
def exSpread : TT ℤ where
  cores := [.ofList [1, 3, 3, 3] [1, 0, 0, 0, 0, 0, 0, 0, 0,  0, 0, 0, 0, 1, 0, 0, 0, 0,  0, 0, 0, 0, 0, 0, 0, 0, 1],
    .ofList [3, 3, 3, 1] [73, 0, 0, 0, 20, 0, 0, 0, 2,  20, 0, 0, 0, 85, 0, 0, 0, 22,  2, 0, 0, 0, 22, 0, 0, 0, 94]]
  rawShape := [[3, 3], [3, 3]]
  ttRanks := [1, 3, 1]
  batch := none

namespace Spread

/-- Singular vectors of the tensor with paired indices: three on the diagonal, and unit vectors. -/
def q (l : ℕ) (x : List ℕ) : ℚ :=
  if l < 3 then (if x.getD 0 0 % 4 = 0 then ([[1, 2, 2], [2, 1, -2], [2, -2, 1]].getD l []).getD (x.getD 0 0 / 4) 0 / 3 else 0)
  else if x.getD 0 0 = [1, 2, 3, 5, 6, 7].getD (l - 3) 0 then 1 else 0

def sigma (l : ℕ) : ℚ := [117, 81, 54].getD l 0

/-- The tensor with paired indices and the largest singular values. -/
def val (r : ℕ) (i : List ℕ) : ℚ := ∑ l ∈ Finset.range r, q l (i.take 1) * sigma l * q l (i.drop 1)

set_option maxRecDepth 20000

theorem svd : CutSVD [9, 9] 1 (fun i => (val 3 i : ℝ)) 9 (fun l i => (q l i : ℝ)) (fun l => (sigma l : ℝ)) (fun l i => (q l i : ℝ)) :=
  ratSVD rfl (by decide +kernel) (by decide +kernel) (by decide +kernel) (by decide +kernel) (by decide +kernel)

theorem gaps : Gaps [9, 9] (fun _ => 2) [1] (fun i => (val 3 i : ℝ)) (fun i => (val 2 i : ℝ)) :=
  .cut (by omega) (by simp) svd (fun _ => by norm_num [sigma]) (Z := fun i => (val 2 i : ℝ)) (ratHead (by decide +kernel)) (.done fun _ _ => rfl)

/-- The diagonal. -/
def diag (x : ℕ) : ℤ := [73, 20, 2, 20, 85, 22, 2, 22, 94].getD x 0

theorem entries : ∀ x < 9, ∀ y < 9, exSpread.entry [] (restModes [[3, 3], [3, 3]] [x, y]) = if x = y then diag x else 0 := by decide +kernel

theorem values : ∀ n < 81, val 3 (unravel [9, 9] n) =
    if ravel [3, 3] (List.zipWith (· / ·) (unravel [9, 9] n) [3, 3]) = ravel [3, 3] (List.zipWith (· % ·) (unravel [9, 9] n) [3, 3])
      then (diag (ravel [3, 3] (List.zipWith (· / ·) (unravel [9, 9] n) [3, 3])) : ℚ) else 0 := by decide +kernel

theorem pos : ∀ x < 9, 0 < diag x := by decide

theorem negative : val 2 [0, 8] = -10 := by decide +kernel

end Spread

theorem exSpread_full : ∃ T, full exSpread.toReal = Except.ok T ∧ T.shape = [9, 9] ∧
    ∀ x < 9, ∀ y < 9, T.get [x, y] = if x = y then (Spread.diag x : ℝ) else 0 := by
  have hw : exSpread.toReal.WF := TT.WF.toReal (by decide)
  obtain ⟨T, eT, sT, vT⟩ := full_ok hw
  refine ⟨T, eT, sT, fun x hx y hy => ?_⟩
  have h := vT [] [x, y] trivial ⟨hx, hy, trivial⟩
  have h1 := TT.entry_mapEntries (Int.castRingHom ℝ) exSpread [] (restModes [[3, 3], [3, 3]] [x, y])
  rw [Spread.entries x hx y hy] at h1
  refine h.trans (h1.trans ?_)
  split_ifs <;> simp

theorem exSpread_gaps {T : Tensor ℝ} (vT : ∀ x < 9, ∀ y < 9, T.get [x, y] = if x = y then (Spread.diag x : ℝ) else 0) :
    Gaps [9, 9] (fun _ => 2) [1] (paired [3, 3] [3, 3] T.get) (fun i => (Spread.val 2 i : ℝ)) := by
  refine Spread.gaps.congr_left fun i hi => ?_
  have h1 := pairSplit_valid (a := [3, 3]) (b := [3, 3]) rfl (show Valid (List.zipWith (· * ·) [3, 3] [3, 3]) i from hi)
  have h2 := Spread.values _ (ravel_lt hi)
  rw [unravel_ravel hi] at h2
  rw [h2]
  refine (vT _ h1.1 _ h1.2.1).trans ?_
  split_ifs <;> simp

/-- **C100 (finding).** Rounding can make a positive definite TT-matrix indefinite: this one is diagonal with positive elements, but the result of `round`
with `max_tt_rank=2` has the element `-10` on its diagonal, whatever routines are used, and although there are no ties. -/
theorem C100_indefinite {qr : QRRoutine} (hqr : qr.Correct) {svd : SVDRoutine} (hsvd : svd.Correct) :
    exSpread.toReal.WF ∧ ∃ T x X, full exSpread.toReal = Except.ok T ∧ T.shape = [9, 9] ∧ (∀ x < 9, ∀ y < 9, T.get [x, y] = T.get [y, x]) ∧
      (∀ v : ℕ → ℝ, (∃ x < 9, v x ≠ 0) → 0 < ∑ x ∈ Finset.range 9, ∑ y ∈ Finset.range 9, v x * T.get [x, y] * v y) ∧
      ttRound qr svd exSpread.toReal (.num 2) none = Except.ok x ∧ full x = Except.ok X ∧ X.shape = [9, 9] ∧ X.get [2, 2] = -10 := by
  have hw : exSpread.toReal.WF := TT.WF.toReal (by decide)
  have hm : exSpread.toReal.ModesPos := by simp [TT.ModesPos, TT.toReal, exSpread]
  have hnb : ¬ exSpread.toReal.isBatch := by simp [TT.isBatch, TT.toReal, exSpread]
  obtain ⟨T, eT, sT, vT⟩ := exSpread_full
  obtain ⟨x, X, e, eX, -, sX, hx⟩ := C70_round_matrix_gaps hqr hsvd hw hm (a := [3, 3]) (b := [3, 3]) rfl (m := .num 2) (bd := fun _ => 2)
    (Or.inl ⟨2, by omega, Or.inl rfl, fun _ => rfl⟩) (fun h => absurd h hnb) (eps := none) (by simp) eT
    (Y := fun _ i => (Spread.val 2 i : ℝ)) (fun p hp => by
      have hp : Valid [] p := hp
      match p, hp with
      | [], _ => exact exSpread_gaps vT)
  refine ⟨hw, T, x, X, eT, sT, fun x hx y hy => ?_, fun v ⟨k, hk, hv⟩ => ?_, e, eX, sX.trans sT, ?_⟩
  · rw [vT x hx y hy, vT y hy x hx]
    by_cases h : x = y
    · rw [h]
    · rw [if_neg h, if_neg (Ne.symm h)]
  · have h1 : ∀ x ∈ Finset.range 9, ∑ y ∈ Finset.range 9, v x * T.get [x, y] * v y = Spread.diag x * v x ^ 2 := by
      intro x hx
      rw [Finset.sum_eq_single x]
      · rw [vT x (Finset.mem_range.1 hx) x (Finset.mem_range.1 hx), if_pos rfl]; ring
      · intro y hy hne
        rw [vT x (Finset.mem_range.1 hx) y (Finset.mem_range.1 hy), if_neg (Ne.symm hne)]; ring
      · exact fun h => absurd hx h
    rw [Finset.sum_congr rfl h1]
    have hd : ∀ x < 9, (0 : ℝ) < Spread.diag x := fun x hx => by exact_mod_cast Spread.pos x hx
    exact Finset.sum_pos' (fun x hx => mul_nonneg (hd x (Finset.mem_range.1 hx)).le (sq_nonneg _))
      ⟨k, Finset.mem_range.2 hk, mul_pos (hd k hk) (by positivity)⟩
  · have := hx [] [0, 8] trivial (by decide)
    rw [show ((Spread.val 2 [0, 8] : ℚ) : ℝ) = -10 by rw [Spread.negative]; norm_num] at this
    exact this

example : (∃ qr : QRRoutine, qr.Correct) ∧ (∃ svd : SVDRoutine, svd.Correct) := ⟨qrRoutine_exists, svdRoutine_exists⟩

/-- The hypotheses of `C100_round` and `C100_matrix` hold for this matrix. -/
example : exSpread.toReal.WF ∧ exSpread.toReal.ModesPos ∧ (MaxRank.num 2).Bounds exSpread.toReal.ndims (fun _ => 2) ∧
    ∃ T, full exSpread.toReal = Except.ok T ∧ T.shape = [[3, 3].prod, [3, 3].prod] ∧ NoTies [[3, 3], [3, 3]] [[3, 3].prod, [3, 3].prod] (fun _ => 2) [1] T.get ∧
      ∀ x < 9, ∀ y < 9, T.get [x, y] = T.get [y, x] := by
  obtain ⟨T, eT, sT, vT⟩ := exSpread_full
  refine ⟨TT.WF.toReal (by decide), by simp [TT.ModesPos, TT.toReal, exSpread], Or.inl ⟨2, by omega, Or.inl rfl, fun _ => rfl⟩, T, eT, sT,
    noTies_paired rfl (C70_no_ties (by decide) (m := .num 2) (Or.inl ⟨2, by omega, Or.inl rfl, fun _ => rfl⟩) (exSpread_gaps vT)), fun x hx y hy => ?_⟩
  rw [vT x hx y hy, vT y hy x hx]
  by_cases h : x = y
  · rw [h]
  · rw [if_neg h, if_neg (Ne.symm h)]

end T3f
