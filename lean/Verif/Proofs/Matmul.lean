import Verif.Proofs.Batch
import Verif.Proofs.Multiply
import Verif.Proofs.FullGet

/-!
# Product of two TT-matrices
-/

namespace T3f

variable {K : Type} [CommRing K]

/-- Chains of Kronecker products summed over a common index. -/
theorem lprod_kron_sum (ra rb rc : ℕ → ℕ) (A B : ℕ → List ℕ → ℕ → ℕ → K) (C : ℕ → ℕ → ℕ → K)
    (N : ℕ → List ℕ) (k : ℕ) (ha0 : ra 0 = 1) (hb0 : rb 0 = 1) (hc : ∀ j < k, rc j = ra j * rb j)
    (h : ∀ j < k, ∀ a c b d, a < ra j → c < rb j → b < ra (j + 1) → d < rb (j + 1) →
      C j (a * rb j + c) (b * rb (j + 1) + d) =
        ∑ n ∈ Finset.range (N j).prod, A j (unravel (N j) n) a b * B j (unravel (N j) n) c d)
    (x y : ℕ) (hx : x < ra k) (hy : y < rb k) :
    lprod rc C k (x * rb k + y) =
      msum N k (fun g => lprod ra (fun j => A j (g j)) k x * lprod rb (fun j => B j (g j)) k y) := by
  induction k generalizing x y with
  | zero =>
    have : x = 0 := by omega
    have : y = 0 := by omega
    subst x y
    simp [lprod, msum]
  | succ k ih =>
    rw [lprod, hc k (by omega), sum_range_mul, msum_lprod2]
    refine Finset.sum_congr rfl fun a ha => Finset.sum_congr rfl fun c hc' => ?_
    have ha' : a < ra k := by simpa using ha
    have hc'' : c < rb k := by simpa using hc'
    rw [ih (fun j hj => hc j (by omega)) (fun j hj => h j (by omega)) a c ha' hc'',
      h k (by omega) a c x y ha' hc'' hx hy]

/-- The einsum call of `tt_tt_matmul`. -/
theorem matEin (ba bb : Option ℕ) (hc : ba = none ∨ bb = none ∨ ba = bb) (A B : Tensor K)
    (ra rb ra' rb' i j l : ℕ)
    (hA : A.shape = ba.toList ++ [ra, i, j, ra']) (hB : B.shape = bb.toList ++ [rb, j, l, rb']) :
    ∃ E, einsum ([bLabel 'o' ba ++ chars! "aijb", bLabel 'o' bb ++ chars! "cjkd"],
        bLabel 'o' (resBatch ba bb) ++ chars! "acikbd") [A, B] = Except.ok E ∧
      E.shape = (resBatch ba bb).toList ++ [ra, rb, i, l, ra', rb'] ∧
      ∀ o x y u v x' y', E.get (lsel (resBatch ba bb) o ++ [x, y, u, v, x', y']) =
        ∑ z ∈ Finset.range j, A.get (lsel ba o ++ [x, u, z, x']) * B.get (lsel bb o ++ [y, z, v, y']) := by
  rcases ba with _ | s <;> rcases bb with _ | t
  · refine ⟨_, if_pos (by simp [bLabel, resBatch, einDims, hA, hB, List.lookup]), by
      simp [bLabel, resBatch, einDims, hA, hB, List.lookup, lookupLabel], fun o x y u v x' y' => ?_⟩
    simp [bLabel, resBatch, einDims, hA, hB, List.lookup, lookupLabel, sumOver, List.eraseDupsBy,
          List.eraseDupsBy.loop, lsel]
  · refine ⟨_, if_pos (by simp [bLabel, resBatch, einDims, hA, hB, List.lookup]), by
      simp [bLabel, resBatch, einDims, hA, hB, List.lookup, lookupLabel], fun o x y u v x' y' => ?_⟩
    simp [bLabel, resBatch, einDims, hA, hB, List.lookup, lookupLabel, sumOver, List.eraseDupsBy,
          List.eraseDupsBy.loop, lsel]
  · refine ⟨_, if_pos (by simp [bLabel, resBatch, einDims, hA, hB, List.lookup]), by
      simp [bLabel, resBatch, einDims, hA, hB, List.lookup, lookupLabel], fun o x y u v x' y' => ?_⟩
    simp [bLabel, resBatch, einDims, hA, hB, List.lookup, lookupLabel, sumOver, List.eraseDupsBy,
          List.eraseDupsBy.loop, lsel]
  · obtain rfl : s = t := by simpa using hc
    refine ⟨_, if_pos (by simp [bLabel, resBatch, einDims, hA, hB, List.lookup]), by
      simp [bLabel, resBatch, einDims, hA, hB, List.lookup, lookupLabel], fun o x y u v x' y' => ?_⟩
    simp [bLabel, resBatch, einDims, hA, hB, List.lookup, lookupLabel, sumOver, List.eraseDupsBy,
          List.eraseDupsBy.loop, lsel]

/-- One core of the product. -/
theorem matmulCore_spec {a b : TT K} (ha : a.WF) (hb : b.WF) (hn : a.ndims = b.ndims)
    (hc : a.batch = none ∨ b.batch = none ∨ a.batch = b.batch) {I J L : List ℕ}
    (hra : a.rawShape = [I, J]) (hrb : b.rawShape = [J, L]) {k : ℕ} (hk : k < a.ndims) :
    ∃ C, matmulCore a b k = Except.ok C ∧
      C.shape = (resBatch a.batch b.batch).toList ++ (a.rank k * b.rank k) ::
        ([I.getD k 0, L.getD k 0] ++ [a.rank (k + 1) * b.rank (k + 1)]) ∧
      ∀ o x y u v x' y', o < (resBatch a.batch b.batch).getD 1 → x < a.rank k → y < b.rank k →
        u < I.getD k 0 → v < L.getD k 0 → x' < a.rank (k + 1) → y' < b.rank (k + 1) →
        C.get (lsel (resBatch a.batch b.batch) o ++ (x * b.rank k + y) ::
            ([u, v] ++ [x' * b.rank (k + 1) + y'])) =
          ∑ z ∈ Finset.range (J.getD k 0),
            (a.core k).get (lsel a.batch o ++ [x, u, z, x']) *
            (b.core k).get (lsel b.batch o ++ [y, z, v, y']) := by
  have hI : I.length = a.ndims := ha.rows_len I (by simp [hra])
  have hJ : J.length = a.ndims := ha.rows_len J (by simp [hra])
  have hL : L.length = a.ndims := by rw [hn]; exact hb.rows_len L (by simp [hrb])
  have sA := ha.core_shape k hk
  have sB := hb.core_shape k (by omega)
  rw [show a.modes k = [I.getD k 0, J.getD k 0] by simp [TT.modes, hra]] at sA
  rw [show b.modes k = [J.getD k 0, L.getD k 0] by simp [TT.modes, hrb]] at sB
  obtain ⟨E, eE, sE, vE⟩ := matEin a.batch b.batch hc (a.core k) (b.core k) _ _ _ _ _ _ _ sA sB
  set Q := resBatch a.batch b.batch with hQ
  obtain ⟨T, eT, sT, vT⟩ := reshape_core E Q.toList [I.getD k 0, L.getD k 0] (a.rank k) (b.rank k)
    (a.rank (k + 1)) (b.rank (k + 1)) sE Q.toList
    ((Q.toList ++ [a.rank k * b.rank k, I.getD k 0, L.getD k 0, a.rank (k + 1) * b.rank (k + 1)]).map some)
    (by
      rw [resolveShape_some _ _ ?_]
      · rfl
      · rw [sE]; simp only [List.prod_append, List.prod_cons, List.prod_nil]; ring)
  refine ⟨T, ?_, sT, ?_⟩
  · unfold matmulCore
    simp only [ha.pyCore hk, hb.pyCore (show k < b.ndims by omega), ha.pyRank hk.le,
      ha.pyRank (show k + 1 ≤ a.ndims by omega), hb.pyRank (show k ≤ b.ndims by omega),
      hb.pyRank (show k + 1 ≤ b.ndims by omega), R.ok_bind, ← hQ, eE, hra, hrb]
    have p0 : pyGet [I, J] 0 = Except.ok I := rfl
    have p1 : pyGet [J, L] 1 = Except.ok L := rfl
    have e0 : pyGet I k = Except.ok (I.getD k 0) := pyGet_of_lt _ _ _ (by omega)
    have e1 : pyGet L k = Except.ok (L.getD k 0) := pyGet_of_lt _ _ _ (by omega)
    simp only [p0, p1, e0, e1, R.ok_bind]
    rw [← eT]; simp
  · intro o x y u v x' y' ho hx hy hu hv hx' hy'
    have hp := lsel_valid ho
    have := vT (lsel Q o) (lsel Q o) x y [u, v] x' y' (lsel_length _ _) hp rfl hx hy ⟨hu, hv, trivial⟩ hx' hy'
    rw [this]
    exact vE o x y u v x' y'

/-- The loop of `tt_tt_matmul`, after the batches of size one have been squeezed. -/
theorem matmul_chain {A B : TT K} (wA : A.WF) (wB : B.WF) {I J L : List ℕ}
    (hraA : A.rawShape = [I, J]) (hrbB : B.rawShape = [J, L])
    (hcases : A.batch = none ∨ B.batch = none ∨ A.batch = B.batch) :
    ∃ cores, mapRange A.ndims (matmulCore A B) = Except.ok cores ∧ cores.length = A.ndims ∧
      Chain (resBatch A.batch B.batch) cores (fun k => A.rank k * B.rank k)
        (fun k => [I.getD k 0, L.getD k 0]) 2 ∧
      rowsOf (fun k => [I.getD k 0, L.getD k 0]) cores.length 2 = [I, L] ∧
      List.zipWith (· * ·) A.ttRanks B.ttRanks = ranksOf (fun k => A.rank k * B.rank k) cores.length ∧
      ∀ o i l, o < (resBatch A.batch B.batch).getD 1 → Valid I i → Valid L l →
        (chainTT (resBatch A.batch B.batch) cores (fun k => A.rank k * B.rank k)
          (fun k => [I.getD k 0, L.getD k 0]) 2).entry (lsel (resBatch A.batch B.batch) o) (mIdx i l) =
        ∑ n ∈ Finset.range J.prod, A.entry (lsel A.batch o) (mIdx i (unravel J n)) *
          B.entry (lsel B.batch o) (mIdx (unravel J n) l) := by
  have hI : I.length = A.ndims := wA.rows_len I (by simp [hraA])
  have hJ : J.length = A.ndims := wA.rows_len J (by simp [hraA])
  have hnAB : A.ndims = B.ndims := by rw [← hJ]; exact wB.rows_len J (by simp [hrbB])
  have hL : L.length = A.ndims := by rw [hnAB]; exact wB.rows_len L (by simp [hrbB])
  have ho0 : resBatch A.batch B.batch ≠ some 0 := by
    unfold resBatch; split_ifs
    · exact wB.batch_pos
    · exact wA.batch_pos
  obtain ⟨cores, ec, lc, hch, hv⟩ := Chain.build (matmulCore A B) A.ndims (resBatch A.batch B.batch)
    (fun k => A.rank k * B.rank k) (fun k => [I.getD k 0, L.getD k 0]) 2 _ wA.pos
    (by simp [wA.rank_first, wB.rank_first]) (by simp only [wA.rank_last]; rw [hnAB, wB.rank_last])
    (fun k hk => Nat.mul_pos (wA.rank_pos k hk) (wB.rank_pos k (by omega))) (Or.inr rfl)
    (fun k _ => rfl) ho0
    (fun k hk => matmulCore_spec wA wB hnAB hcases hraA hrbB hk)
  have hrows : rowsOf (fun k => [I.getD k 0, L.getD k 0]) cores.length 2 = [I, L] := by
    have h1 := list_eq_range_map I 0
    have h2 := list_eq_range_map L 0
    rw [rowsOf]
    simp only [List.range_succ, List.range_zero, List.nil_append, List.map_cons,
      List.map_nil, List.cons_append]
    rw [lc]
    conv_rhs => rw [h1, h2, hI, hL]
    rfl
  refine ⟨cores, ec, lc, hch, hrows, by rw [lc]; exact zipWith_ranks wA wB hnAB, ?_⟩
  intro o i l ho' hi hl
  have hvi := ((valid_iff_getD _ _).1 hi).2
  have hvl := ((valid_iff_getD _ _).1 hl).2
  rw [hch.entry_eq, lc]
  have hAr : A.rank A.ndims = 1 := wA.rank_last
  have hBr : B.rank A.ndims = 1 := by rw [hnAB]; exact wB.rank_last
  have key := lprod_kron_sum A.rank B.rank (fun k => A.rank k * B.rank k)
    (fun j g x y => (A.core j).get (lsel A.batch o ++ [x, i.getD j 0] ++ g ++ [y]))
    (fun j g x y => (B.core j).get (lsel B.batch o ++ [x] ++ g ++ [l.getD j 0, y]))
    (fun k x y => (cores.getD k default).get (lsel (resBatch A.batch B.batch) o ++ x ::
      (mIdx i l k ++ [y]))) (fun j => [J.getD j 0]) A.ndims wA.rank_first wB.rank_first
    (fun _ _ => rfl) (by
      intro j hj x y x' y' hx hy hx' hy'
      rw [show mIdx i l j = [i.getD j 0, l.getD j 0] from rfl, hv j hj o x y (i.getD j 0) (l.getD j 0) x' y' ho' hx hy (hvi j (by omega)) (hvl j (by omega))
        hx' hy']
      simp only [List.prod_cons, List.prod_nil, mul_one]
      refine Finset.sum_congr rfl fun z hz => ?_
      have hu : unravel [J.getD j 0] z = [z] := by
        simp
      rw [hu]; simp) 0 0 (by omega) (by omega)
  rw [show 0 * B.rank A.ndims + 0 = 0 by omega] at key
  rw [key]
  have hdep : DependsBelow A.ndims (fun g : ℕ → List ℕ =>
    lprod A.rank (fun j x y => (A.core j).get (lsel A.batch o ++ [x, i.getD j 0] ++ g j ++ [y])) A.ndims 0 *
    lprod B.rank (fun j x y => (B.core j).get (lsel B.batch o ++ [x] ++ g j ++ [l.getD j 0, y])) A.ndims 0) := by
    intro g g' hg
    change _ * _ = _ * _
    congr 1
    · exact lprod_congr' fun j hj => by rw [hg j hj]
    · exact lprod_congr' fun j hj => by rw [hg j hj]
  have hJA : A.ndims = J.length := by omega
  rw [hJA] at hdep ⊢
  rw [msum_tensor J _ (fun k _ => rfl) _ hdep]
  refine Finset.sum_congr rfl fun n hn' => ?_
  rw [TT.entry, TT.entry, ← hnAB, ← hJA]
  congr 1
  · refine lprod_congr' fun j hj => ?_
    funext x y
    simp [TT.slice, tIdx, mIdx]
  · refine lprod_congr' fun j hj => ?_
    funext x y
    simp [TT.slice, tIdx, mIdx]

/-- What `tt_tt_matmul` guarantees on entries. -/
theorem ttTTMatmul_spec {a b : TT K} (ha : a.WF) (hb : b.WF) {I J L : List ℕ}
    (hra : a.rawShape = [I, J]) (hrb : b.rawShape = [J, L]) (hc : BCompat a.batch b.batch) :
    ∃ c, ttTTMatmul a b = Except.ok c ∧ c.WF ∧ c.rawShape = [I, L] ∧
      c.batch = squeezed (bcast a.batch b.batch) ∧
      c.ndims = a.ndims ∧ (∀ k ≤ a.ndims, c.rank k = a.rank k * b.rank k) ∧
      ∀ o i l, o < (bcast a.batch b.batch).getD 1 → Valid I i → Valid L l →
        c.entry (bsel c.batch o) (mIdx i l) = ∑ n ∈ Finset.range J.prod,
          a.entry (bsel a.batch o) (mIdx i (unravel J n)) * b.entry (bsel b.batch o) (mIdx (unravel J n) l) := by
  have hma : a.isMatrix := by simp [TT.isMatrix, hra]
  have hmb : b.isMatrix := by simp [TT.isMatrix, hrb]
  have hI : I.length = a.ndims := ha.rows_len I (by simp [hra])
  have hJ : J.length = a.ndims := ha.rows_len J (by simp [hra])
  have hn : a.ndims = b.ndims := by rw [← hJ]; exact hb.rows_len J (by simp [hrb])
  have hL : L.length = a.ndims := by rw [hn]; exact hb.rows_len L (by simp [hrb])
  obtain ⟨A, eA, wA, rA, kA, nA, bA, vA⟩ := squeeze_bsel ha
  obtain ⟨B, eB, wB, rB, kB, nB, bB, vB⟩ := squeeze_bsel hb
  have hcases : A.batch = none ∨ B.batch = none ∨ A.batch = B.batch := by
    rw [bA, bB]; exact squeezed_cases hc
  have hres : resBatch A.batch B.batch = squeezed (bcast a.batch b.batch) := by
    rw [bA, bB]; exact resBatch_squeezed hc
  have hrkA : ∀ k, A.rank k = a.rank k := fun k => by simp [TT.rank, kA]
  have hrkB : ∀ k, B.rank k = b.rank k := fun k => by simp [TT.rank, kB]
  have hraA : A.rawShape = [I, J] := rA.trans hra
  have hrbB : B.rawShape = [J, L] := rB.trans hrb
  obtain ⟨cores, ec, lc, hch, hrows, hrk, hv⟩ := matmul_chain wA wB hraA hrbB hcases
  refine ⟨_, ?_, hch.wf, hrows, hres, lc.trans nA, ?_, ?_⟩
  · unfold ttTTMatmul
    simp only [require_pos (show a.isMatrix ∧ b.isMatrix from ⟨hma, hmb⟩),
      require_pos ((isBroadcast_iff a b).2 hc), require_pos hn.symm, R.ok_bind, eA, eB]
    rw [← nA, ec, R.ok_bind, hraA, hrbB]
    exact mkLike_ok hch [I, L] hrows.symm _ hrk
  · intro k hk
    rw [chainTT_rank k (by omega), hrkA, hrkB]
  · intro o i l ho hi hl
    obtain ⟨vo1, vo2⟩ := bcast_valid hc ho
    have ho' : o < (resBatch A.batch B.batch).getD 1 := by rw [hres, squeezed_getD]; exact ho
    have hvi := ((valid_iff_getD _ _).1 hi).2
    have hvl := ((valid_iff_getD _ _).1 hl).2
    change TT.entry _ (bsel (resBatch A.batch B.batch) o) _ = _
    rw [show bsel (resBatch A.batch B.batch) o = lsel (resBatch A.batch B.batch) o by
      rw [hres, squeezed_bsel], hv o i l ho' hi hl]
    refine Finset.sum_congr rfl fun n hn' => ?_
    have hz : Valid J (unravel J n) := unravel_valid (by simpa using hn')
    have hvz := ((valid_iff_getD _ _).1 hz).2
    rw [← vA o _ vo1 (by
        intro k hk
        simp only [TT.modes, hraA, mIdx]
        simp only [List.map_cons, List.map_nil, valid_cons, valid_nil_iff, and_true]
        exact ⟨hvi k (by omega), hvz k (by omega)⟩),
      ← vB o _ vo2 (by
        intro k hk
        simp only [TT.modes, hrbB, mIdx]
        simp only [List.map_cons, List.map_nil, valid_cons, valid_nil_iff, and_true]
        exact ⟨hvz k (by omega), hvl k (by omega)⟩)]

/-! ## Failures -/

omit [CommRing K] in
theorem mapRange_error {α : Type} (n : ℕ) (f : ℕ → R α) (e : Err) (h : ∃ k < n, f k = Except.error e)
    (h' : ∀ k < n, (∃ v, f k = Except.ok v) ∨ f k = Except.error e) :
    mapRange n f = Except.error e := by
  have key : ∀ l : List ℕ, (∃ k ∈ l, f k = Except.error e) →
      (∀ k ∈ l, (∃ v, f k = Except.ok v) ∨ f k = Except.error e) → l.mapM f = Except.error e := by
    intro l
    induction l with
    | nil => simp
    | cons a l ih =>
      intro h1 h2
      rw [List.mapM_cons]
      rcases h2 a (by simp) with ⟨v, hv⟩ | hv
      · rw [hv, R.ok_bind, ih ?_ (fun k hk => h2 k (by simp [hk])), R.error_bind]
        obtain ⟨k, hk, he⟩ := h1
        rcases List.mem_cons.1 hk with rfl | hk
        · rw [hv] at he; cases he
        · exact ⟨k, hk, he⟩
      · rw [hv, R.error_bind]
  obtain ⟨k, hk, he⟩ := h
  exact key _ ⟨k, by simpa using hk, he⟩ (fun k hk => h' k (by simpa using hk))

theorem matEin_error (ba bb : Option ℕ) (A B : Tensor K)
    (ra rb ra' rb' i j j' l : ℕ) (hj : j ≠ j')
    (hA : A.shape = ba.toList ++ [ra, i, j, ra']) (hB : B.shape = bb.toList ++ [rb, j', l, rb']) :
    einsum ([bLabel 'o' ba ++ chars! "aijb", bLabel 'o' bb ++ chars! "cjkd"],
        bLabel 'o' (resBatch ba bb) ++ chars! "acikbd") [A, B] = Except.error Err.tf := by
  refine if_neg ?_
  rintro ⟨-, h, -⟩
  have := h ('j', j')
  rcases ba with _ | s <;> rcases bb with _ | t <;>
    simp [bLabel, einDims, hA, hB, List.lookup] at this <;> exact hj this

/-- One core of the product, if the inner mode sizes differ. -/
theorem matmulCore_error {a b : TT K} (ha : a.WF) (hb : b.WF) (hn : a.ndims = b.ndims) {I J J' L : List ℕ}
    (hra : a.rawShape = [I, J]) (hrb : b.rawShape = [J', L]) {k : ℕ} (hk : k < a.ndims)
    (hJ : J.getD k 0 ≠ J'.getD k 0) : matmulCore a b k = Except.error Err.tf := by
  have sA := ha.core_shape k hk
  have sB := hb.core_shape k (by omega)
  rw [show a.modes k = [I.getD k 0, J.getD k 0] by simp [TT.modes, hra]] at sA
  rw [show b.modes k = [J'.getD k 0, L.getD k 0] by simp [TT.modes, hrb]] at sB
  have eE := matEin_error a.batch b.batch (a.core k) (b.core k) _ _ _ _ _ _ _ _ hJ sA sB
  unfold matmulCore
  simp only [ha.pyCore hk, hb.pyCore (show k < b.ndims by omega), R.ok_bind, eE, R.error_bind]

theorem matmulCore_total {a b : TT K} (ha : a.WF) (hb : b.WF) (hn : a.ndims = b.ndims)
    (hc : a.batch = none ∨ b.batch = none ∨ a.batch = b.batch) {I J J' L : List ℕ}
    (hra : a.rawShape = [I, J]) (hrb : b.rawShape = [J', L]) {k : ℕ} (hk : k < a.ndims)
    (hJ : J.getD k 0 = J'.getD k 0) : ∃ C, matmulCore a b k = Except.ok C := by
  have hI : I.length = a.ndims := ha.rows_len I (by simp [hra])
  have hL : L.length = a.ndims := by rw [hn]; exact hb.rows_len L (by simp [hrb])
  have sA := ha.core_shape k hk
  have sB := hb.core_shape k (by omega)
  rw [show a.modes k = [I.getD k 0, J.getD k 0] by simp [TT.modes, hra]] at sA
  rw [show b.modes k = [J'.getD k 0, L.getD k 0] by simp [TT.modes, hrb], ← hJ] at sB
  obtain ⟨E, eE, sE, -⟩ := matEin a.batch b.batch hc (a.core k) (b.core k) _ _ _ _ _ _ _ sA sB
  set Q := resBatch a.batch b.batch with hQ
  obtain ⟨T, eT, -⟩ := reshape_spec E
    ((Q.toList ++ [a.rank k * b.rank k, I.getD k 0, L.getD k 0, a.rank (k + 1) * b.rank (k + 1)]).map some) _
    (resolveShape_some _ _ (by
      rw [sE]; simp only [List.prod_append, List.prod_cons, List.prod_nil]; ring))
  refine ⟨T, ?_⟩
  unfold matmulCore
  simp only [ha.pyCore hk, hb.pyCore (show k < b.ndims by omega), ha.pyRank hk.le,
    ha.pyRank (show k + 1 ≤ a.ndims by omega), hb.pyRank (show k ≤ b.ndims by omega),
    hb.pyRank (show k + 1 ≤ b.ndims by omega), R.ok_bind, ← hQ, eE, hra, hrb]
  have p0 : pyGet [I, J] 0 = Except.ok I := rfl
  have p1 : pyGet [J', L] 1 = Except.ok L := rfl
  have e0 : pyGet I k = Except.ok (I.getD k 0) := pyGet_of_lt _ _ _ (by omega)
  have e1 : pyGet L k = Except.ok (L.getD k 0) := pyGet_of_lt _ _ _ (by omega)
  simp only [p0, p1, e0, e1, R.ok_bind]
  rw [← eT]; simp

theorem ttTTMatmul_inner_error {a b : TT K} (ha : a.WF) (hb : b.WF) (hn : a.ndims = b.ndims)
    (hc : BCompat a.batch b.batch) {I J J' L : List ℕ}
    (hra : a.rawShape = [I, J]) (hrb : b.rawShape = [J', L]) (hJ : J ≠ J') :
    ttTTMatmul a b = Except.error Err.tf := by
  have hma : a.isMatrix := by simp [TT.isMatrix, hra]
  have hmb : b.isMatrix := by simp [TT.isMatrix, hrb]
  have hJl : J.length = a.ndims := ha.rows_len J (by simp [hra])
  have hJl' : J'.length = a.ndims := by rw [hn]; exact hb.rows_len J' (by simp [hrb])
  obtain ⟨A, eA, wA, rA, kA, nA, bA, -⟩ := squeeze_bsel ha
  obtain ⟨B, eB, wB, rB, kB, nB, bB, -⟩ := squeeze_bsel hb
  have hcases : A.batch = none ∨ B.batch = none ∨ A.batch = B.batch := by
    rw [bA, bB]; exact squeezed_cases hc
  have hex : ∃ k < a.ndims, J.getD k 0 ≠ J'.getD k 0 := by
    by_contra hcon
    push Not at hcon
    apply hJ
    rw [list_eq_range_map J 0, list_eq_range_map J' 0, hJl, hJl']
    exact List.map_congr_left fun k hk => hcon k (by simpa using hk)
  have herr : mapRange a.ndims (matmulCore A B) = Except.error Err.tf := by
    obtain ⟨k, hk, hne⟩ := hex
    refine mapRange_error _ _ _ ⟨k, hk, matmulCore_error wA wB (by omega) (rA.trans hra) (rB.trans hrb)
      (by omega) hne⟩ fun k hk => ?_
    by_cases he : J.getD k 0 = J'.getD k 0
    · exact Or.inl (matmulCore_total wA wB (by omega) hcases (rA.trans hra) (rB.trans hrb) (by omega) he)
    · exact Or.inr (matmulCore_error wA wB (by omega) (rA.trans hra) (rB.trans hrb) (by omega) he)
  unfold ttTTMatmul
  simp only [require_pos (show a.isMatrix ∧ b.isMatrix from ⟨hma, hmb⟩),
    require_pos ((isBroadcast_iff a b).2 hc), require_pos hn.symm, R.ok_bind, eA, eB, herr, R.error_bind]

end T3f
