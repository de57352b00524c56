import Verif.Proofs.GapMatrix
import Verif.Props.C70Routines

/-!
# C70: gaps between the singular values make the results independent of the routines

`Gaps s b ks X Y` (in `Verif/Spec/Truncation.lean`) can be checked with any singular value decompositions: at the cuts `ks`, one after another, the
unfolding has one in which the last value that is kept is larger than the first that is dropped (nothing is required if none is dropped), and keeping
the largest values each time leads from `X` to `Y`.
-/

namespace T3f

theorem MaxRank.Bounds.cut_pos {m : MaxRank} {d : ℕ} {b : ℕ → ℕ} (h : m.Bounds d b) {k : ℕ} (hk : k < d) : 0 < b k := by
  obtain ⟨r, hr, -, hb⟩ | ⟨l, -, hl, hr, hb⟩ := h
  · rw [hb]; exact hr
  · rw [hb k hk.le, List.getD_eq_getElem _ _ (by omega)]
    exact hr _ (List.getElem_mem _)

theorem pair_pos {a b : List ℕ} (ha : ∀ n ∈ a, 0 < n) (hb : ∀ n ∈ b, 0 < n) :
    ∀ n ∈ List.zipWith (· * ·) a b, 0 < n := by
  intro n hn
  obtain ⟨k, hk, rfl⟩ := List.getElem_of_mem hn
  rw [List.length_zipWith] at hk
  rw [List.getElem_zipWith]
  exact Nat.mul_pos (ha _ (List.getElem_mem _)) (hb _ (List.getElem_mem _))

/-- C70: with gaps there are no ties, so `C70_tensor` applies. -/
theorem C70_no_ties {s : List ℕ} (hs : ∀ n ∈ s, 0 < n) {m : MaxRank} {b : ℕ → ℕ} (hb : m.Bounds s.length b) {ks : List ℕ} {X Y : List ℕ → ℝ}
    (h : Gaps s b ks X Y) : NoTies [s] s b ks X := h.noTies hs fun _ _ hk => hb.cut_pos hk

/-- C70: with gaps, `to_tt_tensor` represents the tensor that keeps the largest singular values, whatever routine computes the decompositions. -/
theorem C70_tensor_gaps {svd : SVDRoutine} (hsvd : svd.Correct) {X : Tensor ℝ} (hd : 2 ≤ X.shape.length) (hs : ∀ n ∈ X.shape, 0 < n) {m : MaxRank}
    {b : ℕ → ℕ} (hb : m.Bounds X.shape.length b) {eps : Option ℝ} (he : ∀ e ∈ eps, 0 ≤ e) {Y : List ℕ → ℝ}
    (hg : Gaps X.shape b (List.range' 1 (X.shape.length - 1)) X.get Y) :
    ∃ x Z, toTTTensor svd X m eps = Except.ok x ∧ full x = Except.ok Z ∧ Z.shape = X.shape ∧ ∀ i, Valid X.shape i → Z.get i = Y i := by
  obtain ⟨x, Z, e, eZ, sZ, ht⟩ := C70_tensor_steps hsvd hd hs hb he
  exact ⟨x, Z, e, eZ, sZ, hg.eq hs (fun _ _ hk => hb.cut_pos hk) ht⟩

/-- C70: the same for `round` of TT-tensors and of batches of them; the cuts are `d - 1, ..., 1`. -/
theorem C70_round_gaps {qr : QRRoutine} (hqr : qr.Correct) {svd : SVDRoutine} (hsvd : svd.Correct) {t : TT ℝ} (h : t.WF) (hm : t.ModesPos) {s : List ℕ}
    (ht : t.rawShape = [s]) {m : MaxRank} {b : ℕ → ℕ} (hb : m.Bounds t.ndims b) (hbatch : t.isBatch → m.Single) {eps : Option ℝ}
    (he : ∀ e ∈ eps, 0 ≤ e) {T : Tensor ℝ} (eT : full t = Except.ok T) {Y : List ℕ → List ℕ → ℝ}
    (hg : ∀ p, Valid t.bpre p → Gaps s b (List.range' 1 (t.ndims - 1)).reverse (fun i => T.get (p ++ i)) (Y p)) :
    ∃ x Z, ttRound qr svd t m eps = Except.ok x ∧ full x = Except.ok Z ∧ T.shape = t.bpre ++ s ∧ Z.shape = T.shape ∧
      ∀ p i, Valid t.bpre p → Valid s i → Z.get (p ++ i) = Y p i := by
  obtain ⟨x, T', Z, s', e, eT', eZ, sT, sZ, hT⟩ := C70_round_steps hqr hsvd h hm hb hbatch he
  obtain rfl : T' = T := Except.ok.inj (eT'.symm.trans eT)
  obtain ⟨T'', eT'', sT'', -⟩ := full_ok h
  obtain rfl : T'' = T' := Except.ok.inj (eT''.symm.trans eT)
  have hs' : s' = s := by
    have := List.append_cancel_left (sT.symm.trans sT'')
    rw [this, ht]
    rfl
  subst hs'
  have hn : t.ndims = s'.length := (h.rows_len s' (by rw [ht]; simp)).symm
  rw [ht] at hT
  refine ⟨x, Z, e, eZ, sT, by rw [sZ, sT], fun p i hp hi => ?_⟩
  refine (hg p hp).eq (fun n hn => hm s' (by rw [ht]; simp) n hn) (fun k _ hk => hb.cut_pos (by omega)) (hT p hp) i hi

/-- C70: the same for `to_tt_matrix`; the unfoldings are those of the tensor whose `k`-th index numbers the pairs of the `k`-th row and column indices. -/
theorem C70_matrix_gaps {svd : SVDRoutine} (hsvd : svd.Correct) {X A : Tensor ℝ} {a b : List ℕ} (hX : X.shape.prod = a.prod * b.prod)
    (hab : a.length = b.length) (hd : 2 ≤ a.length) (ha : ∀ n ∈ a, 0 < n) (hb0 : ∀ n ∈ b, 0 < n) {ra rb : Option (List ℕ)}
    (hf : RowArgs a b ra rb) (hA : A.shape = [a.prod, b.prod])
    (hAX : ∀ x < a.prod, ∀ y < b.prod, A.get [x, y] = X.get (unravel X.shape (x * b.prod + y)))
    {m : MaxRank} {bd : ℕ → ℕ} (hb : m.Bounds a.length bd) {eps : Option ℝ} (he : ∀ e ∈ eps, 0 ≤ e) {Y : List ℕ → ℝ}
    (hg : Gaps (List.zipWith (· * ·) a b) bd (List.range' 1 (a.length - 1)) (paired a b A.get) Y) :
    ∃ x Z, toTTMatrix svd X ra rb m eps = Except.ok x ∧ full x = Except.ok Z ∧ Z.shape = [a.prod, b.prod] ∧
      ∀ i, Valid (List.zipWith (· * ·) a b) i → paired a b Z.get i = Y i := by
  obtain ⟨x, Z, e, eZ, sZ, ht⟩ := C70_matrix_steps hsvd hX hab hd ha hb0 hf hA hAX hb he
  rw [hA] at sZ ht
  refine ⟨x, Z, e, eZ, sZ, hg.eq (pair_pos ha hb0) (fun _ _ hk => hb.cut_pos ?_) (truncated_paired hab ht)⟩
  rw [List.length_zipWith] at hk
  omega

/-- C70: the same for `round` of TT-matrices and of batches of them. -/
theorem C70_round_matrix_gaps {qr : QRRoutine} (hqr : qr.Correct) {svd : SVDRoutine} (hsvd : svd.Correct) {t : TT ℝ} (h : t.WF) (hm : t.ModesPos)
    {a b : List ℕ} (ht : t.rawShape = [a, b]) {m : MaxRank} {bd : ℕ → ℕ} (hb : m.Bounds t.ndims bd) (hbatch : t.isBatch → m.Single) {eps : Option ℝ}
    (he : ∀ e ∈ eps, 0 ≤ e) {T : Tensor ℝ} (eT : full t = Except.ok T) {Y : List ℕ → List ℕ → ℝ}
    (hg : ∀ p, Valid t.bpre p →
      Gaps (List.zipWith (· * ·) a b) bd (List.range' 1 (t.ndims - 1)).reverse (paired a b fun i => T.get (p ++ i)) (Y p)) :
    ∃ x Z, ttRound qr svd t m eps = Except.ok x ∧ full x = Except.ok Z ∧ T.shape = t.bpre ++ [a.prod, b.prod] ∧ Z.shape = T.shape ∧
      ∀ p i, Valid t.bpre p → Valid (List.zipWith (· * ·) a b) i → paired a b (fun i => Z.get (p ++ i)) i = Y p i := by
  obtain ⟨x, T', Z, s', e, eT', eZ, sT, sZ, hT⟩ := C70_round_steps hqr hsvd h hm hb hbatch he
  obtain rfl : T' = T := Except.ok.inj (eT'.symm.trans eT)
  obtain ⟨T'', eT'', sT'', -⟩ := full_ok h
  obtain rfl : T'' = T' := Except.ok.inj (eT''.symm.trans eT)
  have hs' : s' = [a.prod, b.prod] := by
    have := List.append_cancel_left (sT.symm.trans sT'')
    rw [this, ht]
    rfl
  subst hs'
  have hna : t.ndims = a.length := (h.rows_len a (by rw [ht]; simp)).symm
  have hnb : t.ndims = b.length := (h.rows_len b (by rw [ht]; simp)).symm
  have hab : a.length = b.length := hna.symm.trans hnb
  rw [ht] at hT
  refine ⟨x, Z, e, eZ, sT, by rw [sZ, sT], fun p i hp hi => ?_⟩
  refine (hg p hp).eq (pair_pos (fun n hn => hm a (by rw [ht]; simp) n hn) (fun n hn => hm b (by rw [ht]; simp) n hn)) (fun k _ hk => hb.cut_pos ?_)
    (truncated_paired hab (hT p hp)) i hi
  rw [List.length_zipWith] at hk
  omega

/-! ## The hypotheses are met -/

/-- The diagonal tensor with the elements `3` and `1`, with three axes. -/
def exDiag3 : Tensor ℝ := ⟨[2, 2, 2], fun i => if i = [0, 0, 0] then 3 else if i = [1, 1, 1] then 1 else 0⟩

/-- Unit vectors. -/
def exUnit (l : ℕ) (x : List ℕ) : ℝ := if ∀ y ∈ x, y = l then 1 else 0

theorem exDiag3_svd : CutSVD [2, 2, 2] 1 exDiag3.get 2 exUnit (fun l => 3 - 2 * l) exUnit where
  count := rfl
  value i j hi hj := by
    obtain ⟨a, ha, rfl⟩ : ∃ a < 2, i = [a] := by
      match i, hi with
      | [a], h => exact ⟨a, h.1, rfl⟩
    obtain ⟨b, c, rfl, hb, hc⟩ := (valid_pair _ _ _).1 hj
    interval_cases a <;> interval_cases b <;> interval_cases c <;> norm_num [exDiag3, exUnit, Finset.sum_range_succ]
  left l hl l' hl' := by
    interval_cases l <;> interval_cases l' <;> norm_num [dot, unravel, exUnit, Finset.sum_range_succ]
  right l hl l' hl' := by
    interval_cases l <;> interval_cases l' <;> norm_num [dot, unravel, exUnit, Finset.sum_range_succ]
  nonneg l hl := by interval_cases l <;> norm_num
  decreasing l l' h hl' := by
    have : (l : ℝ) ≤ l' := by exact_mod_cast h
    linarith

theorem exHead3_svd : CutSVD [2, 2, 2] 2 (fun i => if i = [0, 0, 0] then 3 else 0) 2 exUnit (fun l => if l = 0 then 3 else 0) exUnit where
  count := rfl
  value i j hi hj := by
    obtain ⟨c, hc, rfl⟩ : ∃ c < 2, j = [c] := by
      match j, hj with
      | [a], h => exact ⟨a, h.1, rfl⟩
    obtain ⟨a, b, rfl, ha, hb⟩ := (valid_pair _ _ _).1 hi
    interval_cases a <;> interval_cases b <;> interval_cases c <;> norm_num [exUnit, Finset.sum_range_succ]
  left l hl l' hl' := by
    interval_cases l <;> interval_cases l' <;> norm_num [dot, unravel, exUnit, Finset.sum_range_succ]
  right l hl l' hl' := by
    interval_cases l <;> interval_cases l' <;> norm_num [dot, unravel, exUnit, Finset.sum_range_succ]
  nonneg l hl := by interval_cases l <;> norm_num
  decreasing l l' h hl' := by interval_cases l' <;> interval_cases l <;> norm_num at h ⊢

theorem exDiag3_gaps : Gaps exDiag3.shape (fun _ => 1) (List.range' 1 (exDiag3.shape.length - 1)) exDiag3.get (fun i => if i = [0, 0, 0] then 3 else 0) := by
  refine .cut (by omega) (by simp [exDiag3]) exDiag3_svd (fun _ => by norm_num) (Z := fun i => if i = [0, 0, 0] then 3 else 0) ?_
    (.cut (by omega) (by simp [exDiag3]) exHead3_svd (fun _ => by norm_num) ?_ (.done fun _ _ => rfl))
  · intro i j hi hj
    obtain ⟨a, ha, rfl⟩ : ∃ a < 2, i = [a] := by
      match i, hi with
      | [a], h => exact ⟨a, h.1, rfl⟩
    obtain ⟨b, c, rfl, hb, hc⟩ := (valid_pair _ _ _).1 hj
    interval_cases a <;> interval_cases b <;> interval_cases c <;> norm_num [exUnit]
  · intro i j hi hj
    obtain ⟨c, hc, rfl⟩ : ∃ c < 2, j = [c] := by
      match j, hj with
      | [a], h => exact ⟨a, h.1, rfl⟩
    obtain ⟨a, b, rfl, ha, hb⟩ := (valid_pair _ _ _).1 hi
    interval_cases a <;> interval_cases b <;> interval_cases c <;> norm_num [exUnit]

example : (∃ svd : SVDRoutine, svd.Correct) ∧ 2 ≤ exDiag3.shape.length ∧ (∀ n ∈ exDiag3.shape, 0 < n) ∧
    (MaxRank.num 1).Bounds exDiag3.shape.length (fun _ => 1) ∧
    Gaps exDiag3.shape (fun _ => 1) (List.range' 1 (exDiag3.shape.length - 1)) exDiag3.get (fun i => if i = [0, 0, 0] then 3 else 0) :=
  ⟨svdRoutine_exists, by simp [exDiag3], by simp [exDiag3], Or.inl ⟨1, by omega, Or.inl rfl, fun _ => rfl⟩, exDiag3_gaps⟩

/-- A batch of the diagonal matrices with the elements `3` and `1`, and `3` and `-1`. -/
def exDiagTT : TT ℤ where
  cores := [.ofList [2, 1, 2, 2] [3, 0, 0, 1, 3, 0, 0, -1], .ofList [2, 2, 2, 1] [1, 0, 0, 1, 1, 0, 0, 1]]
  rawShape := [[2, 2]]
  ttRanks := [1, 2, 1]
  batch := some 2

theorem exDiagTT_gaps {T : Tensor ℝ} (eT : full exDiagTT.toReal = Except.ok T) (p : List ℕ) (hp : Valid exDiagTT.toReal.bpre p) :
    Gaps [2, 2] (fun _ => 1) (List.range' 1 (exDiagTT.toReal.ndims - 1)).reverse (fun i => T.get (p ++ i)) (fun i => if i = [0, 0] then 3 else 0) := by
  have hw : exDiagTT.toReal.WF := TT.WF.toReal (by decide)
  obtain ⟨T', eT', sT, vT⟩ := full_ok hw
  obtain rfl : T' = T := Except.ok.inj (eT'.symm.trans eT)
  obtain ⟨q, hq, rfl⟩ : ∃ q < 2, p = [q] := by
    have hp : Valid [2] p := hp
    match p, hp with
    | [a], h => exact ⟨a, h.1, rfl⟩
  have val : ∀ a < 2, ∀ b < 2, T'.get ([q] ++ [a, b]) = if a = b then (if a = 0 then 3 else if q = 0 then 1 else -1) else 0 := by
    intro a ha b hb
    rw [vT [q] [a, b] hp ⟨ha, hb, trivial⟩]
    show exDiagTT.toReal.entry [q] (tIdx [a, b]) = _
    interval_cases q <;> interval_cases a <;> interval_cases b <;>
      simp [TT.entry, TT.toReal, exDiagTT, TT.ndims, lprod, TT.slice, TT.core, TT.rank, tIdx, Tensor.map, Tensor.ofList, ravel, Finset.sum_range_succ]
  have one : ∀ i, Valid [2] i → ∃ a < 2, i = [a] := by
    intro i hi
    match i, hi with
    | [a], h => exact ⟨a, h.1, rfl⟩
  have hsvd : CutSVD [2, 2] 1 (fun i => T'.get ([q] ++ i)) 2 exUnit (fun l => 3 - 2 * l)
      (fun l i => if q = 1 ∧ l = 1 then -exUnit l i else exUnit l i) :=
    { count := rfl
      value := fun i j hi hj => by
        obtain ⟨a, ha, rfl⟩ := one i hi
        obtain ⟨b, hb, rfl⟩ := one j hj
        refine (val a ha b hb).trans ?_
        interval_cases q <;> interval_cases a <;> interval_cases b <;> norm_num [exUnit, Finset.sum_range_succ]
      left := fun l hl l' hl' => by
        interval_cases l <;> interval_cases l' <;> norm_num [dot, unravel, exUnit, Finset.sum_range_succ]
      right := fun l hl l' hl' => by
        interval_cases q <;> interval_cases l <;> interval_cases l' <;> norm_num [dot, unravel, exUnit, Finset.sum_range_succ]
      nonneg := fun l hl => by interval_cases l <;> norm_num
      decreasing := fun l l' h hl' => by
        have : (l : ℝ) ≤ l' := by exact_mod_cast h
        linarith }
  refine .cut (by omega) (by simp) hsvd (fun _ => by norm_num) ?_ (.done fun _ _ => rfl)
  intro i j hi hj
  obtain ⟨a, ha, rfl⟩ := one i hi
  obtain ⟨b, hb, rfl⟩ := one j hj
  interval_cases q <;> interval_cases a <;> interval_cases b <;> norm_num [exUnit]

example : (∃ qr : QRRoutine, qr.Correct) ∧ (∃ svd : SVDRoutine, svd.Correct) ∧ exDiagTT.toReal.WF ∧ exDiagTT.toReal.ModesPos ∧
    exDiagTT.toReal.rawShape = [[2, 2]] ∧ (MaxRank.num 1).Bounds exDiagTT.toReal.ndims (fun _ => 1) ∧
    (exDiagTT.toReal.isBatch → (MaxRank.num 1).Single) ∧ ∃ T, full exDiagTT.toReal = Except.ok T ∧ ∀ p, Valid exDiagTT.toReal.bpre p →
      Gaps [2, 2] (fun _ => 1) (List.range' 1 (exDiagTT.toReal.ndims - 1)).reverse (fun i => T.get (p ++ i)) (fun i => if i = [0, 0] then 3 else 0) := by
  have hw : exDiagTT.toReal.WF := TT.WF.toReal (by decide)
  obtain ⟨T, eT, -, -⟩ := full_ok hw
  exact ⟨qrRoutine_exists, svdRoutine_exists, hw, by simp [TT.ModesPos, TT.toReal, exDiagTT], rfl, Or.inl ⟨1, by omega, Or.inl rfl, fun _ => rfl⟩,
    fun _ l hl => by simp at hl, T, eT, exDiagTT_gaps eT⟩

/-- The matrix with `3` and `1` at the positions `(0, 0)` and `(3, 3)`. -/
def exDiag4 : Tensor ℝ := ⟨[4, 4], fun i => if i = [0, 0] then 3 else if i = [3, 3] then 1 else 0⟩

theorem exDiag4_gaps : Gaps (List.zipWith (· * ·) [2, 2] [2, 2]) (fun _ => 1) [1] (paired [2, 2] [2, 2] exDiag4.get)
    (fun i => if i = [0, 0] then 3 else 0) := by
  have one : ∀ i, Valid [4] i → ∃ a < 4, i = [a] := by
    intro i hi
    match i, hi with
    | [a], h => exact ⟨a, h.1, rfl⟩
  let p : ℕ → ℕ := fun l => if l = 1 then 3 else if l = 3 then 1 else l
  have hsvd : CutSVD [4, 4] 1 (paired [2, 2] [2, 2] exDiag4.get) 4 (fun l => exUnit (p l)) (fun l => if l = 0 then 3 else if l = 1 then 1 else 0)
      (fun l => exUnit (p l)) :=
    { count := rfl
      value := fun i j hi hj => by
        obtain ⟨a, ha, rfl⟩ := one i hi
        obtain ⟨b, hb, rfl⟩ := one j hj
        interval_cases a <;> interval_cases b <;> norm_num [p, paired, ravel, exDiag4, exUnit, Finset.sum_range_succ]
      left := fun l hl l' hl' => by
        interval_cases l <;> interval_cases l' <;> norm_num [p, dot, unravel, exUnit, Finset.sum_range_succ]
      right := fun l hl l' hl' => by
        interval_cases l <;> interval_cases l' <;> norm_num [p, dot, unravel, exUnit, Finset.sum_range_succ]
      nonneg := fun l hl => by interval_cases l <;> norm_num
      decreasing := fun l l' h hl' => by interval_cases l' <;> interval_cases l <;> norm_num at h ⊢ }
  refine .cut (by omega) (by simp) hsvd (fun _ => by norm_num) ?_ (.done fun _ _ => rfl)
  intro i j hi hj
  obtain ⟨a, ha, rfl⟩ := one i hi
  obtain ⟨b, hb, rfl⟩ := one j hj
  interval_cases a <;> interval_cases b <;> norm_num [p, exUnit]

example : exDiag4.shape.prod = [2, 2].prod * [2, 2].prod ∧ exDiag4.shape = [[2, 2].prod, [2, 2].prod] ∧
    RowArgs [2, 2] [2, 2] (some [2, 2]) (some [2, 2]) ∧ (MaxRank.num 1).Bounds [2, 2].length (fun _ => 1) ∧
    (∀ x < [2, 2].prod, ∀ y < [2, 2].prod, exDiag4.get [x, y] = exDiag4.get (unravel exDiag4.shape (x * [2, 2].prod + y))) ∧
    Gaps (List.zipWith (· * ·) [2, 2] [2, 2]) (fun _ => 1) (List.range' 1 ([2, 2].length - 1)) (paired [2, 2] [2, 2] exDiag4.get)
      (fun i => if i = [0, 0] then 3 else 0) := by
  refine ⟨rfl, rfl, Or.inl ⟨rfl, rfl⟩, Or.inl ⟨1, by omega, Or.inl rfl, fun _ => rfl⟩, fun x hx y hy => ?_, exDiag4_gaps⟩
  have hx : x < 4 := hx
  have hy : y < 4 := hy
  congr 1
  simp [exDiag4, unravel]
  omega

/-- The same matrix as a TT-matrix. -/
def exDiagMat : TT ℤ where
  cores := [.ofList [1, 2, 2, 2] [3, 0, 0, 0, 0, 0, 0, 1], .ofList [2, 2, 2, 1] [1, 0, 0, 0, 0, 0, 0, 1]]
  rawShape := [[2, 2], [2, 2]]
  ttRanks := [1, 2, 1]
  batch := none

example : exDiagMat.toReal.WF ∧ exDiagMat.toReal.ModesPos ∧ exDiagMat.toReal.rawShape = [[2, 2], [2, 2]] ∧
    (MaxRank.num 1).Bounds exDiagMat.toReal.ndims (fun _ => 1) ∧ (exDiagMat.toReal.isBatch → (MaxRank.num 1).Single) ∧
    ∃ T, full exDiagMat.toReal = Except.ok T ∧ ∀ p, Valid exDiagMat.toReal.bpre p →
      Gaps (List.zipWith (· * ·) [2, 2] [2, 2]) (fun _ => 1) (List.range' 1 (exDiagMat.toReal.ndims - 1)).reverse
        (paired [2, 2] [2, 2] fun i => T.get (p ++ i)) (fun i => if i = [0, 0] then 3 else 0) := by
  have hw : exDiagMat.toReal.WF := TT.WF.toReal (by decide)
  obtain ⟨T, eT, sT, vT⟩ := full_ok hw
  refine ⟨hw, by simp [TT.ModesPos, TT.toReal, exDiagMat], rfl, Or.inl ⟨1, by omega, Or.inl rfl, fun _ => rfl⟩, fun _ l hl => by simp at hl, T, eT, ?_⟩
  intro p hp
  obtain rfl : p = [] := by
    have := hp.length_eq
    simpa [TT.bpre, TT.toReal, exDiagMat] using this
  refine Gaps.congr exDiag4_gaps fun i hi => ?_
  have hi : Valid [4, 4] i := hi
  obtain ⟨u, v, rfl, hu, hv⟩ := (valid_pair _ _ _).1 hi
  have := vT [] (pairSplit [2, 2] [2, 2] [u, v]) trivial (pairSplit_valid rfl hi)
  refine this.trans ?_
  show exDiagMat.toReal.entry [] (mIdx (unravel [2, 2] _) (unravel [2, 2] _)) = _
  interval_cases u <;> interval_cases v <;>
    simp [pairSplit, TT.entry, TT.toReal, exDiagMat, TT.ndims, lprod, TT.slice, TT.core, TT.rank, mIdx, Tensor.map, Tensor.ofList, ravel, unravel,
      Finset.sum_range_succ, paired, exDiag4]

end T3f
