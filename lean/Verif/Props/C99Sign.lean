import Verif.Props.C95Single

/-!
# C99: the sign of the elements

A tensor without negative elements keeps this property when it is rounded to TT-ranks one, if there are no ties. With larger ranks it can be lost.
-/

namespace T3f

/-- A tensor with rank one at a cut is a product. -/
theorem HasCut.product {s : List ℕ} {k : ℕ} (h0 : 0 < k) (hk : k < s.length) {Z : List ℕ → ℝ} (h : HasCut [s] k 1 Z) :
    ∃ p q : List ℕ → ℝ, ∀ i j, Valid (s.take k) i → Valid (s.drop k) j → Z (i ++ j) = p i * q j := by
  obtain ⟨P, Q, e⟩ := hasCut_factor h0 hk h
  refine ⟨fun i => if h : ravel (s.take k) i < (s.take k).prod then P ⟨_, h⟩ 0 else 0, fun j => if h : ravel (s.drop k) j < (s.drop k).prod then Q 0 ⟨_, h⟩ else 0,
    fun i j hi hj => ?_⟩
  have := congrFun (congrFun e ⟨_, ravel_lt hi⟩) ⟨_, ravel_lt hj⟩
  rw [Matrix.mul_apply, Fin.sum_univ_one] at this
  beta_reduce
  refine Eq.trans ?_ (this.trans ?_)
  rotate_left
  · rw [dif_pos (ravel_lt hi), dif_pos (ravel_lt hj)]
  show _ = Z (unravel _ (ravel _ i) ++ unravel _ (ravel _ j))
  rw [unravel_ravel hi, unravel_ravel hj]

/-- A product has rank one at a cut. -/
theorem hasCut_product {s : List ℕ} (hs : ∀ n ∈ s, 0 < n) {k : ℕ} (h0 : 0 < k) (hk : k < s.length) {Z p q : List ℕ → ℝ}
    (h : ∀ i j, Valid (s.take k) i → Valid (s.drop k) j → Z (i ++ j) = p i * q j) : HasCut [s] k 1 Z := by
  have hN : (0 : ℝ) < ((s.drop k).prod : ℕ) := by exact_mod_cast List.prod_pos fun n hn => hs n (List.mem_of_mem_drop hn)
  by_cases hq : dot (s.drop k) q q = 0
  · have hz : ∀ j, Valid (s.drop k) j → q j = 0 := by
      intro j hj
      have := (Finset.sum_eq_zero_iff_of_nonneg fun n _ => mul_self_nonneg (q (unravel (s.drop k) n))).1 hq _ (Finset.mem_range.2 (ravel_lt hj))
      rw [unravel_ravel hj] at this
      exact mul_self_eq_zero.1 this
    refine hasCut_of_factor hs h0 hk one_pos (c := fun _ _ => 0) (v := fun _ _ => 1 / √((s.drop k).prod : ℕ)) (fun i j hi hj => ?_) fun l hl l' hl' => ?_
    · rw [h i j hi hj, hz j hj]; simp
    · rw [if_pos (by omega), dot, Finset.sum_const, Finset.card_range, nsmul_eq_mul, div_mul_div_comm, Real.mul_self_sqrt hN.le]
      field_simp
  · have hq0 : 0 < dot (s.drop k) q q := lt_of_le_of_ne (Finset.sum_nonneg fun n _ => mul_self_nonneg _) (Ne.symm hq)
    have hr := Real.sqrt_pos.2 hq0
    refine hasCut_of_factor hs h0 hk one_pos (c := fun _ i => p i * √(dot (s.drop k) q q)) (v := fun _ j => q j / √(dot (s.drop k) q q))
      (fun i j hi hj => ?_) fun l hl l' hl' => ?_
    · rw [h i j hi hj, Finset.sum_range_one]
      field_simp
    · rw [if_pos (by omega)]
      have : dot (s.drop k) (fun j => q j / √(dot (s.drop k) q q)) (fun j => q j / √(dot (s.drop k) q q)) = dot (s.drop k) q q / dot (s.drop k) q q := by
        conv_lhs => rw [dot]
        simp only [div_mul_div_comm, Real.mul_self_sqrt hq0.le]
        rw [← Finset.sum_div]; rfl
      rw [this, div_self hq]

/-- The absolute values of a tensor with rank one at a cut have rank one as well. -/
theorem HasCut.abs {s : List ℕ} (hs : ∀ n ∈ s, 0 < n) {k : ℕ} (h0 : 0 < k) (hk : k < s.length) {Z : List ℕ → ℝ} (h : HasCut [s] k 1 Z) :
    HasCut [s] k 1 fun i => |Z i| := by
  obtain ⟨p, q, e⟩ := h.product h0 hk
  exact hasCut_product hs h0 hk (p := fun i => |p i|) (q := fun j => |q j|) fun i j hi hj => by rw [e i j hi hj, abs_mul]

/-- The same for matrices. -/
theorem HasCut.abs_matrix {a b : List ℕ} (hab : a.length = b.length) (ha : ∀ n ∈ a, 0 < n) (hb : ∀ n ∈ b, 0 < n) {k : ℕ} (h0 : 0 < k) (hk : k < a.length)
    {Z : List ℕ → ℝ} (h : HasCut [a, b] k 1 Z) : HasCut [a, b] k 1 fun i => |Z i| := by
  obtain ⟨bd, h1, hZ⟩ := h
  obtain ⟨bd', h1', h2⟩ := HasCut.abs (pair_pos ha hb) h0 (by rw [List.length_zipWith]; omega) ⟨bd, h1, hasTT_paired hab hZ⟩
  refine ⟨bd', h1', hasTT_congr (fun i hi => ?_) (hasTT_unpaired hab h2)⟩
  show |Z (pairSplit a b (pairJoin a b i))| = _
  rw [pairSplit_join hab hi]

/-- Without ties, the nearest tensors of rank one have no negative elements. -/
theorem Truncated.nonneg {rows : List (List ℕ)} {s : List ℕ} {b : ℕ → ℕ} (hb : ∀ k, b k = 1) {ks : List ℕ} {X Y : List ℕ → ℝ}
    (ha : ∀ k ∈ ks, ∀ Z, HasCut rows k 1 Z → HasCut rows k 1 fun i => |Z i|) (h : Truncated rows s b ks X Y) (hn : NoTies rows s b ks X)
    (hX : ∀ i, Valid s i → 0 ≤ X i) : ∀ i, Valid s i → 0 ≤ Y i := by
  induction h with
  | done e => exact fun i hi => e i hi ▸ hX i hi
  | @cut k ks X Z Y hZ _ ih =>
    obtain ⟨hu, hn'⟩ := hn Z hZ
    refine ih (fun k hk' => ha k (List.mem_cons_of_mem _ hk')) hn' fun i hi => ?_
    have hZ1 := hZ.1
    rw [hb] at hZ1
    have hA : NearestCut rows s k (b k) X fun i => |Z i| := by
      refine ⟨?_, fun W hW => le_trans ?_ (hZ.2 W hW)⟩
      · rw [hb]
        exact ha k List.mem_cons_self Z hZ1
      · unfold sqDist dot
        refine Finset.sum_le_sum fun n hn => ?_
        have h1 := hX _ (unravel_valid (Finset.mem_range.1 hn))
        have h2 : Z (unravel s n) ≤ |Z (unravel s n)| := le_abs_self _
        have h3 := sq_abs (Z (unravel s n))
        nlinarith [mul_le_mul_of_nonneg_left h2 h1]
    rw [← hu _ hA i hi]
    exact abs_nonneg (Z i)

/-- **C99.** If a TT-tensor or TT-matrix, or an item of a batch, has no negative elements and no ties, the result of `round` with `max_tt_rank=1` has none
either. -/
theorem C99_round {qr : QRRoutine} (hqr : qr.Correct) {svd : SVDRoutine} (hsvd : svd.Correct) {t : TT ℝ} (h : t.WF) (hm : t.ModesPos)
    {eps : Option ℝ} (he : ∀ e ∈ eps, 0 ≤ e) {T : Tensor ℝ} {s : List ℕ} (eT : full t = Except.ok T) (sT : T.shape = t.bpre ++ s) :
    ∃ x X, ttRound qr svd t (.num 1) eps = Except.ok x ∧ full x = Except.ok X ∧ X.shape = T.shape ∧
      ∀ p, Valid t.bpre p → NoTies t.rawShape s (fun _ => 1) (List.range' 1 (t.ndims - 1)).reverse (fun i => T.get (p ++ i)) →
        (∀ i, Valid s i → 0 ≤ T.get (p ++ i)) → ∀ i, Valid s i → 0 ≤ X.get (p ++ i) := by
  obtain ⟨x, T', X, s', e, eT', eX, sT', sX, hp⟩ := C70_round_steps hqr hsvd h hm (m := .num 1) (b := fun _ => 1)
    (Or.inl ⟨1, le_rfl, Or.inl rfl, fun _ => rfl⟩) (fun _ => by simp [MaxRank.Single]) he
  obtain rfl : T' = T := Except.ok.inj (eT'.symm.trans eT)
  obtain rfl : s' = s := List.append_cancel_left (sT'.symm.trans sT)
  refine ⟨x, X, e, eX, by rw [sX, sT], fun p hv hu h0 => (hp p hv).nonneg (fun _ => rfl) (fun k hk Z hZ => ?_) hu h0⟩
  simp only [List.mem_reverse, List.mem_range'_1] at hk
  by_cases hmat : t.isMatrix
  · obtain ⟨I, J, hr, hI, hJ⟩ := h.rawShape_matrix hmat
    have hI := h.rows_len I (by rw [hr]; simp)
    have hJ := h.rows_len J (by rw [hr]; simp)
    rw [hr] at hZ ⊢
    exact hZ.abs_matrix (by omega) (hm I (by rw [hr]; simp)) (hm J (by rw [hr]; simp)) (by omega) (by omega)
  · obtain ⟨s₀, hr, -⟩ := h.rawShape_tensor hmat
    have hl := h.rows_len s₀ (by rw [hr]; simp)
    rw [hr] at hZ ⊢
    exact hZ.abs (hm s₀ (by rw [hr]; simp)) (by omega) (by omega)

/-- **C99.** The same for `to_tt_tensor`. -/
theorem C99_tensor {svd : SVDRoutine} (hsvd : svd.Correct) {T : Tensor ℝ} (hd : 2 ≤ T.shape.length) (hs : ∀ n ∈ T.shape, 0 < n) {eps : Option ℝ}
    (he : ∀ e ∈ eps, 0 ≤ e) (hu : NoTies [T.shape] T.shape (fun _ => 1) (List.range' 1 (T.shape.length - 1)) T.get)
    (h0 : ∀ i, Valid T.shape i → 0 ≤ T.get i) :
    ∃ x X, toTTTensor svd T (.num 1) eps = Except.ok x ∧ full x = Except.ok X ∧ X.shape = T.shape ∧ ∀ i, Valid X.shape i → 0 ≤ X.get i := by
  obtain ⟨x, X, e, eX, sX, hp⟩ := C70_tensor_steps hsvd hd hs (m := .num 1) (b := fun _ => 1) (Or.inl ⟨1, le_rfl, Or.inl rfl, fun _ => rfl⟩) he
  refine ⟨x, X, e, eX, sX, ?_⟩
  rw [sX]
  refine hp.nonneg (fun _ => rfl) (fun k hk Z hZ => ?_) hu h0
  simp only [List.mem_range'_1] at hk
  exact hZ.abs hs (by omega) (by omega)

/-- The matrix with the rows `(8, 2, 0)`, `(2, 9, 2)`, `(0, 2, 10)` as a TT-tensor of shape `(3, 3)`. -/
def exBand : TT ℤ where
  cores := [.ofList [1, 3, 3] [1, 0, 0, 0, 1, 0, 0, 0, 1], .ofList [3, 3, 1] [8, 2, 0, 2, 9, 2, 0, 2, 10]]
  rawShape := [[3, 3]]
  ttRanks := [1, 3, 1]
  batch := none

namespace Band

/-- Singular vectors. -/
def q (l : ℕ) (x : List ℕ) : ℚ := ([[1, 2, 2], [2, 1, -2], [2, -2, 1]].getD l []).getD (x.getD 0 0) 0 / 3

def sigma (l : ℕ) : ℚ := [12, 9, 6].getD l 0

/-- The tensor with the largest singular values. -/
def val (r : ℕ) (i : List ℕ) : ℚ := ∑ l ∈ Finset.range r, q l (i.take 1) * sigma l * q l (i.drop 1)

set_option maxRecDepth 20000

theorem svd : CutSVD [3, 3] 1 (fun i => (val 3 i : ℝ)) 3 (fun l i => (q l i : ℝ)) (fun l => (sigma l : ℝ)) (fun l i => (q l i : ℝ)) :=
  ratSVD rfl (by decide +kernel) (by decide +kernel) (by decide +kernel) (by decide +kernel) (by decide +kernel)

theorem gaps {r : ℕ} (h0 : 0 < r) (h3 : r < 3) : Gaps [3, 3] (fun _ => r) [1] (fun i => (val 3 i : ℝ)) (fun i => (val r i : ℝ)) := by
  have : r = 1 ∨ r = 2 := by omega
  rcases this with rfl | rfl
  · exact .cut (by omega) (by simp) svd (fun _ => by norm_num [sigma]) (Z := fun i => (val 1 i : ℝ)) (ratHead (by decide +kernel)) (.done fun _ _ => rfl)
  · exact .cut (by omega) (by simp) svd (fun _ => by norm_num [sigma]) (Z := fun i => (val 2 i : ℝ)) (ratHead (by decide +kernel)) (.done fun _ _ => rfl)

theorem entries : ∀ n < 9, (exBand.entry [] (tIdx (unravel [3, 3] n)) : ℚ) = val 3 (unravel [3, 3] n) := by decide +kernel

theorem nonneg : ∀ n < 9, 0 ≤ val 3 (unravel [3, 3] n) := by decide +kernel

theorem negative : val 2 [0, 2] = -4 / 3 := by decide +kernel

end Band

theorem exBand_full : ∃ T, full exBand.toReal = Except.ok T ∧ T.shape = [3, 3] ∧ ∀ i, Valid [3, 3] i → T.get i = Band.val 3 i := by
  have hw : exBand.toReal.WF := TT.WF.toReal (by decide)
  obtain ⟨T, eT, sT, vT⟩ := full_ok hw
  refine ⟨T, eT, sT, fun i hi => ?_⟩
  have h := vT [] i trivial hi
  have h1 : exBand.toReal.entry [] (tIdx i) = ((exBand.entry [] (tIdx i) : ℤ) : ℝ) := TT.entry_mapEntries (Int.castRingHom ℝ) exBand [] (tIdx i)
  have h2 := Band.entries _ (ravel_lt hi)
  rw [unravel_ravel hi] at h2
  refine h.trans (Eq.trans ?_ (h1.trans ?_))
  · rfl
  · rw [← h2]; push_cast; rfl

/-- **C99 (finding).** With larger TT-ranks negative elements can appear, although there are no ties: none of the elements of this tensor of shape
`(3, 3)` is negative, but the results of `round` and of `to_tt_tensor` with `max_tt_rank=2` have the element `-4/3`, whatever routines are used. -/
theorem C99_negative {qr : QRRoutine} (hqr : qr.Correct) {svd : SVDRoutine} (hsvd : svd.Correct) :
    exBand.toReal.WF ∧ ∃ T x x' X X', full exBand.toReal = Except.ok T ∧ T.shape = [3, 3] ∧ (∀ i, Valid [3, 3] i → 0 ≤ T.get i) ∧
      ttRound qr svd exBand.toReal (.num 2) none = Except.ok x ∧ full x = Except.ok X ∧ X.get [0, 2] = -4 / 3 ∧
      toTTTensor svd T (.num 2) none = Except.ok x' ∧ full x' = Except.ok X' ∧ X'.get [0, 2] = -4 / 3 := by
  have hw : exBand.toReal.WF := TT.WF.toReal (by decide)
  have hm : exBand.toReal.ModesPos := by simp [TT.ModesPos, TT.toReal, exBand]
  have hnb : ¬ exBand.toReal.isBatch := by simp [TT.isBatch, TT.toReal, exBand]
  obtain ⟨T, eT, sT, vT⟩ := exBand_full
  have hg : Gaps [3, 3] (fun _ => 2) [1] T.get (fun i => (Band.val 2 i : ℝ)) := (Band.gaps (by omega) (by omega)).congr_left vT
  have hb : ∀ d, (MaxRank.num 2).Bounds d (fun _ => 2) := fun d => Or.inl ⟨2, by omega, Or.inl rfl, fun _ => rfl⟩
  have hv : Valid [3, 3] [0, 2] := by decide
  have hneg : ((Band.val 2 [0, 2] : ℚ) : ℝ) = -4 / 3 := by rw [Band.negative]; norm_num
  obtain ⟨x, X, e, eX, -, -, hx⟩ := C70_round_gaps hqr hsvd hw hm (s := [3, 3]) rfl (hb _) (fun h => absurd h hnb) (eps := none) (by simp) eT
    (Y := fun _ i => (Band.val 2 i : ℝ)) (fun p hp => by
      have hp : Valid [] p := hp
      match p, hp with
      | [], _ => exact hg)
  obtain ⟨x', X', e', eX', -, hx'⟩ := C70_tensor_gaps hsvd (X := T) (by rw [sT]; decide) (by rw [sT]; decide) (hb _) (eps := none) (by simp)
    (Y := fun i => (Band.val 2 i : ℝ)) (by rw [sT]; exact hg)
  refine ⟨hw, T, x, x', X, X', eT, sT, fun i hi => ?_, e, eX, ?_, e', eX', ?_⟩
  · rw [vT i hi]
    have := Band.nonneg _ (ravel_lt hi)
    rw [unravel_ravel hi] at this
    exact_mod_cast this
  · rw [← hneg, ← hx [] [0, 2] trivial hv]; rfl
  · rw [← hneg, ← hx' [0, 2] (by rw [sT]; exact hv)]

example : (∃ qr : QRRoutine, qr.Correct) ∧ (∃ svd : SVDRoutine, svd.Correct) := ⟨qrRoutine_exists, svdRoutine_exists⟩

/-- The hypotheses of `C99_round` and `C99_tensor` hold for this tensor. -/
example : exBand.toReal.WF ∧ exBand.toReal.ModesPos ∧ ∃ T, full exBand.toReal = Except.ok T ∧ T.shape = [3, 3] ∧ (∀ i, Valid [3, 3] i → 0 ≤ T.get i) ∧
    NoTies [[3, 3]] [3, 3] (fun _ => 1) [1] T.get := by
  obtain ⟨T, eT, sT, vT⟩ := exBand_full
  refine ⟨TT.WF.toReal (by decide), by simp [TT.ModesPos, TT.toReal, exBand], T, eT, sT, fun i hi => ?_, ?_⟩
  · rw [vT i hi]
    have := Band.nonneg _ (ravel_lt hi)
    rw [unravel_ravel hi] at this
    exact_mod_cast this
  · exact C70_no_ties (by decide) (m := .num 1) (Or.inl ⟨1, le_rfl, Or.inl rfl, fun _ => rfl⟩) ((Band.gaps (by omega) (by omega)).congr_left vT)

end T3f
