import Verif.Proofs.ToTTMatrix
import Verif.Props.C33ToTT
import Verif.Props.C56Descent

/-!
# C58: the TT-ranks of decompositions depend on shapes and bounds only

Neither the numbers in the tensor nor `epsilon` matter. `b k` is the bound `max_tt_rank` gives for the `k`-th TT-rank.
-/

namespace T3f

theorem keptRank_eq {b n m : ℕ} (hn : 0 < n) (hm : 0 < m) : keptRank b n m = min b (min n m) := by
  unfold keptRank; split_ifs <;> omega

theorem decompRanks_tuRank {n : List ℕ} {b : ℕ → ℕ} (h2 : 2 ≤ n.length) (hb : ∀ k ≤ n.length, 0 < b k) (hn : ∀ x ∈ n, 0 < x) :
    DecompRanks n b (tuRank b n) := by
  refine ⟨rfl, ?_, fun k hk => ?_⟩
  · obtain ⟨d, hd⟩ : ∃ d, n.length = d + 1 := ⟨n.length - 1, by omega⟩
    rw [hd, tuRank, if_pos hd.symm]
  · rw [tuRank, if_neg (by omega)]
    exact keptRank_eq (Nat.mul_pos (tuRank_pos hb hn (by omega)) (getD_pos hn (by omega))) (List.prod_pos fun x hx => hn x (List.mem_of_mem_drop hx))

theorem DecompRanks.congr {n : List ℕ} {b r r' : ℕ → ℕ} (h : DecompRanks n b r) (e : ∀ k ≤ n.length, r' k = r k) : DecompRanks n b r' :=
  ⟨by rw [e 0 (by omega), h.first], by rw [e _ le_rfl, h.last], fun k hk => by rw [e _ (by omega), e _ (by omega), h.step k hk]⟩

theorem DecompRanks.unique {n : List ℕ} {b r r' : ℕ → ℕ} (h : DecompRanks n b r) (h' : DecompRanks n b r') {k : ℕ} (hk : k ≤ n.length) : r k = r' k := by
  induction k with
  | zero => rw [h.first, h'.first]
  | succ k ih =>
    rcases Nat.lt_or_ge (k + 1) n.length with h1 | h1
    · rw [h.step k h1, h'.step k h1, ih (by omega)]
    · rw [show k + 1 = n.length by omega, h.last, h'.last]

theorem ranks_ext {x y : TT ℝ} (hx : x.WF) (hy : y.WF) (hn : x.ndims = y.ndims) (h : ∀ k ≤ x.ndims, x.rank k = y.rank k) : x.ttRanks = y.ttRanks := by
  have h1 := hx.ranks_len
  have h2 := hy.ranks_len
  apply List.ext_getElem
  · omega
  · intro k hk1 hk2
    have := h k (by omega)
    rwa [TT.rank, TT.rank, List.getD_eq_getElem _ _ hk1, List.getD_eq_getElem _ _ hk2] at this

theorem bounds_pos {m : MaxRank} {d : ℕ} {b : ℕ → ℕ} (hb : m.Bounds d b) {k : ℕ} (hk : k ≤ d) : 0 < b k := by
  rcases hb with ⟨r, h1, -, h2⟩ | ⟨l, -, hl, h1, h2⟩
  · rw [h2]; omega
  · rw [h2 k hk, List.getD_eq_getElem _ _ (by omega)]
    exact h1 _ (List.getElem_mem _)

/-- **C58.** `to_tt_tensor`: each TT-rank is the smallest of its bound, the product of the previous TT-rank and mode size, and the number of elements of the remaining modes. -/
theorem C58_tensor {svd : SVDRoutine} (hsvd : svd.Correct) {X : Tensor ℝ} (hd : 2 ≤ X.shape.length) (hs : ∀ n ∈ X.shape, 0 < n)
    {m : MaxRank} {b : ℕ → ℕ} (hb : m.Bounds X.shape.length b) {eps : Option ℝ} (he : ∀ e ∈ eps, 0 ≤ e) :
    ∃ x, toTTTensor svd X m eps = Except.ok x ∧ x.ttRanks.length = X.shape.length + 1 ∧ DecompRanks X.shape b x.rank := by
  obtain ⟨x, e, f⟩ := toTTTensor_fit hsvd hd hs hb he
  have hw := xTT_wf (X := X) (by omega) hs
  have hn : x.ndims = X.shape.length := by rw [ndims_eq_of_rawShape f.wf hw f.rows, xTT_ndims]
  refine ⟨x, e, by rw [f.wf.ranks_len, hn], (decompRanks_tuRank hd (fun k hk => bounds_pos hb hk) hs).congr fun k hk => ?_⟩
  have hN : (xTT X).N = fun k => X.shape.getD k 0 := by funext k; rw [TT.N, TT.modes, xTT_rawShape]; simp
  rw [f.exact k (by rw [xTT_ndims]; exact hk), xTT_ndims, hN, ← list_eq_range_map]

theorem prod_drop_zipWith (a b : List ℕ) (i : ℕ) : List.drop i (List.zipWith (· * ·) a b) = List.zipWith (· * ·) (a.drop i) (b.drop i) := List.drop_zipWith

/-- **C58.** `to_tt_matrix`: the same with the products of row and column sizes. -/
theorem C58_matrix {svd : SVDRoutine} (hsvd : svd.Correct) {X : Tensor ℝ} {a b : List ℕ} (hX : X.shape.prod = a.prod * b.prod)
    (hab : a.length = b.length) (hd : 2 ≤ a.length) (ha : ∀ n ∈ a, 0 < n) (hb0 : ∀ n ∈ b, 0 < n) {ra rb : Option (List ℕ)}
    (hf : RowArgs a b ra rb) {m : MaxRank} {bd : ℕ → ℕ} (hb : m.Bounds a.length bd) {eps : Option ℝ} (he : ∀ e ∈ eps, 0 ≤ e) :
    ∃ x, toTTMatrix svd X ra rb m eps = Except.ok x ∧ x.ttRanks.length = a.length + 1 ∧ DecompRanks (List.zipWith (· * ·) a b) bd x.rank := by
  obtain ⟨x, z, Z, e, hw, hr, hb', -, -, -, f⟩ := toTTMatrix_fit hsvd hX hab hd ha hb0 hf.fill hb he
  have hn : z.ndims = a.length := (hw.rows_len a (by rw [hr]; simp)).symm
  have hl : (List.zipWith (· * ·) a b).length = a.length := by rw [List.length_zipWith]; omega
  have hg : ∀ k, k < a.length → (List.zipWith (· * ·) a b).getD k 0 = z.N k := fun k hk => by
    rw [TT.N, TT.modes, hr, List.getD_eq_getElem _ _ (by omega), List.getElem_zipWith]
    simp [List.getElem?_eq_getElem hk, List.getElem?_eq_getElem (hab ▸ hk)]
  have hzN : (List.range z.ndims).map z.N = List.zipWith (· * ·) a b := by
    rw [hn]
    conv_rhs => rw [list_eq_range_map (List.zipWith (· * ·) a b) 0, hl]
    exact List.map_congr_left fun k hk => (hg k (List.mem_range.1 hk)).symm
  have hpos : ∀ n ∈ List.zipWith (· * ·) a b, 0 < n := fun n hn => by
    obtain ⟨k, hk, rfl⟩ := List.getElem_of_mem hn
    rw [List.getElem_zipWith]
    exact Nat.mul_pos (ha _ (List.getElem_mem _)) (hb0 _ (List.getElem_mem _))
  refine ⟨x, e, by rw [f.wf.ranks_len, ndims_eq_of_rawShape f.wf hw f.rows, hn],
    (decompRanks_tuRank (by omega) (fun k hk => bounds_pos hb (by omega)) hpos).congr fun k hk => ?_⟩
  rw [f.exact k (by omega), hzN]

/-- **C58.** Two tensors of the same shape get the same TT-ranks, whatever the numbers, the SVD routine and `epsilon`. -/
theorem C58_data {svd svd' : SVDRoutine} (hsvd : svd.Correct) (hsvd' : svd'.Correct) {X Y : Tensor ℝ} (hXY : X.shape = Y.shape) (hd : 2 ≤ X.shape.length)
    (hs : ∀ n ∈ X.shape, 0 < n) {m : MaxRank} {b : ℕ → ℕ} (hb : m.Bounds X.shape.length b) {eps eps' : Option ℝ} (he : ∀ e ∈ eps, 0 ≤ e)
    (he' : ∀ e ∈ eps', 0 ≤ e) :
    ∃ x y, toTTTensor svd X m eps = Except.ok x ∧ toTTTensor svd' Y m eps' = Except.ok y ∧ x.ttRanks = y.ttRanks := by
  obtain ⟨x, ex, lx, hx⟩ := C58_tensor hsvd hd hs hb he
  obtain ⟨y, ey, ly, hy⟩ := C58_tensor hsvd' (hXY ▸ hd) (hXY ▸ hs) (hXY ▸ hb) he'
  rw [← hXY] at hy ly
  refine ⟨x, y, ex, ey, List.ext_getElem (by omega) fun k h1 h2 => ?_⟩
  have := hx.unique hy (k := k) (by omega)
  rwa [TT.rank, TT.rank, List.getD_eq_getElem _ _ h1, List.getD_eq_getElem _ _ h2] at this

/-- Bounds that are large enough give the largest possible ranks. -/
theorem DecompRanks.full {n : List ℕ} {b r : ℕ → ℕ} (h : DecompRanks n b r) (hn : ∀ x ∈ n, 0 < x)
    (hb : ∀ k, 0 < k → k < n.length → min (n.take k).prod (n.drop k).prod ≤ b k) {k : ℕ} (hk : k < n.length) :
    r k = min (n.take k).prod (n.drop k).prod := by
  have key : ∀ k, k < n.length → r k = min (n.take k).prod (n.drop k).prod := by
    intro k
    induction k with
    | zero =>
      intro _
      have : 0 < n.prod := List.prod_pos hn
      rw [h.first, List.take_zero, List.drop_zero, List.prod_nil]; omega
    | succ k ih =>
      intro hk
      have hp : 0 < n.getD k 0 := getD_pos hn (by omega)
      have h1 : (n.take (k + 1)).prod = (n.take k).prod * n.getD k 0 := by
        rw [List.take_succ_eq_append_getElem (by omega), List.prod_append, List.prod_singleton, List.getD_eq_getElem _ _ (by omega)]
      have h2 : (n.drop k).prod = n.getD k 0 * (n.drop (k + 1)).prod := restN_step (s := n) (by omega)
      have h3 := hb (k + 1) (by omega) hk
      rw [h.step k hk, ih (by omega), Nat.mul_comm, ← Nat.mul_min_mul_left, Nat.mul_comm (n.getD k 0), ← h1]
      rcases Nat.le_total (n.take (k + 1)).prod (n.drop (k + 1)).prod with h4 | h4
      · have : (n.drop (k + 1)).prod ≤ n.getD k 0 * (n.drop k).prod := by
          rw [h2]
          calc (n.drop (k + 1)).prod ≤ n.getD k 0 * (n.drop (k + 1)).prod := Nat.le_mul_of_pos_left _ hp
            _ ≤ n.getD k 0 * (n.getD k 0 * (n.drop (k + 1)).prod) := Nat.le_mul_of_pos_left _ hp
        omega
      · have : (n.drop (k + 1)).prod ≤ n.getD k 0 * (n.drop k).prod := by
          rw [h2]
          calc (n.drop (k + 1)).prod ≤ n.getD k 0 * (n.drop (k + 1)).prod := Nat.le_mul_of_pos_left _ hp
            _ ≤ n.getD k 0 * (n.getD k 0 * (n.drop (k + 1)).prod) := Nat.le_mul_of_pos_left _ hp
        omega
  exact key k hk

/-- **C58.** Bounds that are large enough give the largest possible TT-ranks, those of a generic tensor, even if the tensor has small rank. -/
theorem C58_full_ranks {svd : SVDRoutine} (hsvd : svd.Correct) {X : Tensor ℝ} (hd : 2 ≤ X.shape.length) (hs : ∀ n ∈ X.shape, 0 < n)
    {m : MaxRank} {b : ℕ → ℕ} (hb : m.Bounds X.shape.length b) {eps : Option ℝ} (he : ∀ e ∈ eps, 0 ≤ e)
    (hbig : ∀ k, 0 < k → k < X.shape.length → min (X.shape.take k).prod (X.shape.drop k).prod ≤ b k) :
    ∃ x, toTTTensor svd X m eps = Except.ok x ∧
      ∀ k, 0 < k → k < X.shape.length → x.rank k = min (X.shape.take k).prod (X.shape.drop k).prod := by
  obtain ⟨x, e, -, hx⟩ := C58_tensor hsvd hd hs hb he
  exact ⟨x, e, fun k _ hk => hx.full hs hbig hk⟩

/-- With one bound `r`, all ranks but the first and last are `r` exactly if the first and the last mode have at least `r` elements. -/
theorem DecompRanks.one_bound {n : List ℕ} {b ρ : ℕ → ℕ} {r : ℕ} (h : DecompRanks n b ρ) (hn : ∀ x ∈ n, 0 < x) (h2 : 2 ≤ n.length)
    (hb : ∀ k, 0 < k → k < n.length → b k = r) :
    (∀ k, 0 < k → k < n.length → ρ k = r) ↔ r ≤ n.getD 0 0 ∧ r ≤ n.getD (n.length - 1) 0 := by
  have hlast : (n.drop (n.length - 1)).prod = n.getD (n.length - 1) 0 := by
    rw [List.drop_eq_getElem_cons (by omega), show n.length - 1 + 1 = n.length by omega, List.drop_length, List.prod_singleton, List.getD_eq_getElem _ _ (by omega)]
  constructor
  · intro hall
    constructor
    · have h1 := h.step 0 (by omega)
      rw [hall _ (by omega) (by omega), h.first] at h1
      omega
    · have h1 := h.step (n.length - 2) (by omega)
      rw [show n.length - 2 + 1 = n.length - 1 by omega, hall _ (by omega) (by omega), hlast] at h1
      omega
  · rintro ⟨hl, hR⟩ k
    induction k with
    | zero => intro h0; omega
    | succ k ih =>
      intro _ hk
      have hp : 0 < n.getD k 0 := getD_pos hn (by omega)
      have hrest : r ≤ (n.drop (k + 1)).prod := by
        have : n.drop (n.length - 1) = (n.drop (k + 1)).drop (n.length - 1 - (k + 1)) := by rw [List.drop_drop]; congr 1; omega
        have h3 : ((n.drop (k + 1)).take (n.length - 1 - (k + 1))).prod * (n.drop (n.length - 1)).prod = (n.drop (k + 1)).prod := by
          rw [this, ← List.prod_append, List.take_append_drop]
        have h4 : 0 < ((n.drop (k + 1)).take (n.length - 1 - (k + 1))).prod := List.prod_pos fun x hx => hn x (List.mem_of_mem_drop (List.mem_of_mem_take hx))
        rw [hlast] at h3
        rw [← h3]
        exact hR.trans (Nat.le_mul_of_pos_left _ h4)
      have hleft : r ≤ ρ k * n.getD k 0 := by
        rcases Nat.eq_zero_or_pos k with rfl | h0
        · rw [h.first]; omega
        · rw [ih h0 (by omega)]
          exact Nat.le_mul_of_pos_right _ hp
      rw [h.step k hk, hb _ (by omega) hk]
      omega

/-- **C58.** `to_tt_matrix` with the same bound `r` for all TT-ranks: all of them (but the first and last) are `r` exactly if the first and the last pair of a row and a
column mode have at least `r` elements. -/
theorem C58_one_bound {svd : SVDRoutine} (hsvd : svd.Correct) {X : Tensor ℝ} {a b : List ℕ} (hX : X.shape.prod = a.prod * b.prod)
    (hab : a.length = b.length) (hd : 2 ≤ a.length) (ha : ∀ n ∈ a, 0 < n) (hb0 : ∀ n ∈ b, 0 < n) {ra rb : Option (List ℕ)}
    (hf : RowArgs a b ra rb) {r : ℕ} (hr : 0 < r) {eps : Option ℝ} (he : ∀ e ∈ eps, 0 ≤ e) :
    ∃ x, toTTMatrix svd X ra rb (.num r) eps = Except.ok x ∧
      ((∀ k, 0 < k → k < a.length → x.rank k = r) ↔ r ≤ a.getD 0 0 * b.getD 0 0 ∧ r ≤ a.getD (a.length - 1) 0 * b.getD (a.length - 1) 0) := by
  obtain ⟨x, e, -, hx⟩ := C58_matrix hsvd hX hab hd ha hb0 hf (m := .num r) (bd := fun _ => r) (Or.inl ⟨r, hr, Or.inl rfl, fun _ => rfl⟩) he
  have hl : (List.zipWith (· * ·) a b).length = a.length := by rw [List.length_zipWith]; omega
  have hg : ∀ k, k < a.length → (List.zipWith (· * ·) a b).getD k 0 = a.getD k 0 * b.getD k 0 := fun k hk => by
    rw [List.getD_eq_getElem _ _ (by omega), List.getElem_zipWith, List.getD_eq_getElem _ _ hk, List.getD_eq_getElem _ _ (hab ▸ hk)]
  have hpos : ∀ n ∈ List.zipWith (· * ·) a b, 0 < n := fun n hn => by
    obtain ⟨k, hk, rfl⟩ := List.getElem_of_mem hn
    rw [List.getElem_zipWith]
    exact Nat.mul_pos (ha _ (List.getElem_mem _)) (hb0 _ (List.getElem_mem _))
  have := hx.one_bound hpos (by omega) (r := r) (fun _ _ _ => rfl)
  rw [hl, hg 0 (by omega), hg _ (by omega)] at this
  exact ⟨x, e, this⟩

/-- **C58.** `round`: the orthogonalization reduces the TT-ranks to `l`, and each rank of the result is the smallest of its bound, that rank, and what the core on the
right can carry. -/
theorem C58_round {qr : QRRoutine} (hqr : qr.Correct) {svd : SVDRoutine} (hsvd : svd.Correct) {t : TT ℝ} (h : t.WF) (hm : t.ModesPos)
    {m : MaxRank} {b : ℕ → ℕ} (hb : m.Bounds t.ndims b) (hbatch : t.isBatch → m.Single) {eps : Option ℝ} (he : ∀ e ∈ eps, 0 ≤ e) :
    ∃ (x : TT ℝ) (l : ℕ → ℕ), ttRound qr svd t m eps = Except.ok x ∧ x.WF ∧ x.rawShape = t.rawShape ∧ x.batch = t.batch ∧
      l 0 = 1 ∧ (∀ k < t.ndims, l (k + 1) = min (l k * (t.modes k).prod) (t.rank (k + 1))) ∧
      ∀ k, 0 < k → k < t.ndims → x.rank k = min (b k) (min (l k) ((t.modes k).prod * x.rank (k + 1))) := by
  obtain ⟨bl, el, hl, hlb, hpos⟩ := maxRanks_ok hb he
  obtain ⟨x, e, w, rs, bt, nd, rk, -⟩ := roundWith_spec hqr hsvd h hm hl hpos
  have hN : ∀ k < t.ndims, 0 < t.N k := fun k hk => List.prod_pos (fun n hn => by
    obtain ⟨row, hrow, rfl⟩ := List.mem_map.1 hn
    exact getD_pos (hm row hrow) (by rw [h.rows_len row hrow]; exact hk))
  have hlp : ∀ k ≤ t.ndims, 0 < lrRank t.N t.rank k := by
    intro k
    induction k with
    | zero => intro _; exact Nat.one_pos
    | succ k ih =>
      intro hk
      have := Nat.mul_pos (ih (by omega)) (hN k (by omega))
      have h1 := h.rank_pos (k + 1) hk
      rw [lrRank]; omega
  refine ⟨x, lrRank t.N t.rank, by rw [ttRound_eq hbatch, el]; exact e, w, rs, bt, rfl, fun k _ => rfl, fun k h0 hk => ?_⟩
  rw [rk k (by omega), rk (k + 1) (by omega), rdRank_step _ _ _ h0 hk, keptRank_eq (hlp k (by omega)) ?_]
  · rw [hlb k (by omega)]
    rfl
  · exact Nat.mul_pos (hN k hk) (rdRank_pos hpos hN hlp (by omega))

/-- **C58.** Rounding again with the same single bound does not change the TT-ranks. -/
theorem C58_round_again {qr : QRRoutine} (hqr : qr.Correct) {svd : SVDRoutine} (hsvd : svd.Correct) {t : TT ℝ} (h : t.WF) (hm : t.ModesPos)
    {r : ℕ} (hr : 1 ≤ r) {eps : Option ℝ} (he : ∀ e ∈ eps, 0 ≤ e) :
    ∃ x y, ttRound qr svd t (.num r) eps = Except.ok x ∧ ttRound qr svd x (.num r) eps = Except.ok y ∧ y.ttRanks = x.ttRanks := by
  have hb : ∀ d, (MaxRank.num r).Bounds d fun _ => r := fun d => Or.inl ⟨r, hr, Or.inl rfl, fun _ => rfl⟩
  obtain ⟨x, l, ex, wx, rx, bx, l0, ls, hx⟩ := C58_round hqr hsvd h hm (hb _) (fun _ => by simp [MaxRank.Single]) he
  have hn : x.ndims = t.ndims := ndims_eq_of_rawShape wx h rx
  have hmx : x.ModesPos := by rw [TT.ModesPos, rx]; exact hm
  obtain ⟨y, k, ey, wy, ry, by', k0, ks, hy⟩ := C58_round hqr hsvd wx hmx (hb _) (fun _ => by simp [MaxRank.Single]) he
  have hmod : ∀ k, x.modes k = t.modes k := fun k => by rw [TT.modes, TT.modes, rx]
  have hN : ∀ k < t.ndims, 0 < (t.modes k).prod := fun k hk => List.prod_pos (fun n hn => by
    obtain ⟨row, hrow, rfl⟩ := List.mem_map.1 hn
    exact getD_pos (hm row hrow) (by rw [h.rows_len row hrow]; exact hk))
  have hle : ∀ k ≤ t.ndims, x.rank k ≤ l k := fun k hk => by
    rcases Nat.eq_zero_or_pos k with rfl | h0
    · rw [wx.rank_first, l0]
    · rcases Nat.lt_or_ge k t.ndims with h1 | h1
      · rw [hx k h0 h1]; omega
      · obtain rfl : k = t.ndims := by omega
        rw [← hn, wx.rank_last, hn]
        have : ∀ j ≤ t.ndims, 0 < l j := by
          intro j
          induction j with
          | zero => intro _; omega
          | succ j ih =>
            intro hj
            have := Nat.mul_pos (ih (by omega)) (hN j (by omega))
            have h2 := h.rank_pos (j + 1) hj
            rw [ls j (by omega)]; omega
        exact this _ le_rfl
  -- the orthogonalization does not reduce the ranks of `x`
  have hk : ∀ j ≤ t.ndims, k j = x.rank j := by
    intro j
    induction j with
    | zero => intro _; rw [k0, wx.rank_first]
    | succ j ih =>
      intro hj
      rw [ks j (by omega), ih (by omega), hmod]
      refine min_eq_right ?_
      have hp := hN j (by omega)
      have h1 : x.rank (j + 1) ≤ r := by
        rcases Nat.lt_or_ge (j + 1) t.ndims with h1 | h1
        · rw [hx _ (by omega) h1]; omega
        · rw [show j + 1 = x.ndims by omega, wx.rank_last]; exact hr
      have h2 : x.rank (j + 1) ≤ l j * (t.modes j).prod := (hle (j + 1) hj).trans (by rw [ls j (by omega)]; exact min_le_left _ _)
      rcases Nat.eq_zero_or_pos j with rfl | h0
      · rw [wx.rank_first]; rw [l0] at h2; exact h2
      · rw [hx j h0 (by omega), ← Nat.mul_min_mul_right, ← Nat.mul_min_mul_right]
        refine le_min (h1.trans (Nat.le_mul_of_pos_right _ hp)) (le_min h2 ?_)
        rw [Nat.mul_right_comm]
        exact Nat.le_mul_of_pos_left _ (Nat.mul_pos hp hp)
  refine ⟨x, y, ex, ey, (ranks_ext wx wy (ndims_eq_of_rawShape wx wy ry.symm) fun j hj => ?_).symm⟩
  induction hj' : t.ndims - j generalizing j with
  | zero =>
    obtain rfl : j = x.ndims := by omega
    have := wy.rank_last
    rw [ndims_eq_of_rawShape wy wx ry] at this
    rw [wx.rank_last, this]
  | succ i ih =>
    rcases Nat.eq_zero_or_pos j with rfl | h0
    · rw [wx.rank_first, wy.rank_first]
    · rw [hy j h0 (by omega), ← ih (j + 1) (by omega) (by omega), hk j (by omega), hmod, hx j h0 (by omega)]
      omega

/-- The hypotheses hold for the matrix of the tutorial `tensor_nets.ipynb`, where all TT-ranks are the bound 16, and for bound 16 with modes that are too small. -/
example : (7 * 4 * 7 * 4) * 625 = [7, 4, 7, 4].prod * [5, 5, 5, 5].prod ∧ (∃ svd : SVDRoutine, svd.Correct) ∧
    RowArgs [7, 4, 7, 4] [5, 5, 5, 5] (some [7, 4, 7, 4]) (some [5, 5, 5, 5]) ∧
    (16 ≤ [7, 4, 7, 4].getD 0 0 * [5, 5, 5, 5].getD 0 0 ∧ 16 ≤ [7, 4, 7, 4].getD 3 0 * [5, 5, 5, 5].getD 3 0) ∧ ¬ 16 ≤ [2, 7].getD 0 0 * [5, 5].getD 0 0 :=
  ⟨by simp, svdRoutine_exists, Or.inl ⟨rfl, rfl⟩, by simp, by simp⟩

example : DecompRanks [2, 3, 2] (fun _ => 10) (fun k => [1, 2, 2, 1].getD k 0) :=
  ⟨rfl, rfl, fun k hk => by
    have : k = 0 ∨ k = 1 := by simp at hk; omega
    rcases this with rfl | rfl <;> rfl⟩

/-- **C58, finding.** With different bounds for the TT-ranks, rounding again can reduce the TT-ranks further: the first rounding of a tensor of shape `(2, 2, 4)` with TT-ranks
`(1, 2, 4, 1)` and bounds `(1, 1, 4, 1)` gives `(1, 1, 4, 1)`, the second `(1, 1, 2, 1)`. -/
theorem C58_round_list {qr : QRRoutine} (hqr : qr.Correct) {svd : SVDRoutine} (hsvd : svd.Correct) {t : TT ℝ} (h : t.WF) (hraw : t.rawShape = [[2, 2, 4]])
    (hbt : t.batch = none) (hrk : t.ttRanks = [1, 2, 4, 1]) :
    ∃ x y, ttRound qr svd t (.list [1, 1, 4, 1]) none = Except.ok x ∧ ttRound qr svd x (.list [1, 1, 4, 1]) none = Except.ok y ∧
      x.ttRanks = [1, 1, 4, 1] ∧ y.ttRanks = [1, 1, 2, 1] := by
  have hn : t.ndims = 3 := by have := h.ranks_len; rw [hrk] at this; simp at this; omega
  have hm : t.ModesPos := by rw [TT.ModesPos, hraw]; simp
  have hb : (MaxRank.list [1, 1, 4, 1]).Bounds 3 fun k => [1, 1, 4, 1].getD k 0 := Or.inr ⟨[1, 1, 4, 1], rfl, rfl, by simp, fun _ _ => rfl⟩
  have list4 : ∀ z : TT ℝ, z.WF → z.ndims = 3 → z.ttRanks = [1, z.rank 1, z.rank 2, 1] := by
    intro z hz hzn
    have h1 := list_eq_range_map z.ttRanks 0
    rw [hz.ranks_len, hzn] at h1
    rw [h1]
    have h0 := hz.rank_first
    have h3 := hz.rank_last
    rw [hzn] at h3
    simp only [TT.rank] at h0 h3 ⊢
    simp [List.range_succ]
    simp at h0 h3
    exact ⟨h0, h3⟩
  have main : ∀ z : TT ℝ, z.WF → z.rawShape = [[2, 2, 4]] → z.batch = none → ∃ x, ttRound qr svd z (.list [1, 1, 4, 1]) none = Except.ok x ∧ x.WF ∧
      x.rawShape = [[2, 2, 4]] ∧ x.batch = none ∧ x.ttRanks = [1, 1, min 4 (min (min (2 * min 2 (z.rank 1)) (z.rank 2)) 4), 1] := by
    intro z hz hzr hzb
    have hzn : z.ndims = 3 := by have := hz.rows_len [2, 2, 4] (by rw [hzr]; simp); simpa using this.symm
    obtain ⟨x, l, ex, wx, rx, bx, l0, ls, hx⟩ := C58_round hqr hsvd hz (m := .list [1, 1, 4, 1]) (b := fun k => [1, 1, 4, 1].getD k 0) (eps := none)
      (by rw [TT.ModesPos, hzr]; simp) (by rw [hzn]; exact hb) (by simp [TT.isBatch, hzb]) (by simp)
    have hxn : x.ndims = 3 := by rw [ndims_eq_of_rawShape wx hz rx, hzn]
    refine ⟨x, ex, wx, rx.trans hzr, bx.trans hzb, ?_⟩
    rw [list4 x wx hxn]
    have hmod : ∀ k, z.modes k = [[2, 2, 4].getD k 0] := fun k => by rw [TT.modes, hzr]; rfl
    have h3 := wx.rank_last
    rw [hxn] at h3
    have e1 := ls 0 (by omega)
    have e2 := ls 1 (by omega)
    have x2 := hx 2 (by omega) (by omega)
    have x1 := hx 1 (by omega) (by omega)
    have p1 := hz.rank_pos 1 (by omega)
    have p2 := hz.rank_pos 2 (by omega)
    rw [hmod] at e1 e2 x1 x2
    simp [l0, h3] at e1 e2 x1 x2
    have : x.rank 1 = 1 := by omega
    rw [this, x2, e2, e1]
    congr 3
    omega
  obtain ⟨x, ex, wx, rx, bx, kx⟩ := main t h hraw hbt
  obtain ⟨y, ey, wy, ry, by', ky⟩ := main x wx rx bx
  have t1 : t.rank 1 = 2 := by rw [TT.rank, hrk]; rfl
  have t2 : t.rank 2 = 4 := by rw [TT.rank, hrk]; rfl
  rw [t1, t2] at kx
  have x1 : x.rank 1 = 1 := by rw [TT.rank, kx]; rfl
  have x2 : x.rank 2 = 4 := by rw [TT.rank, kx]; rfl
  rw [x1, x2] at ky
  exact ⟨x, y, ex, ey, kx, ky⟩

/-- A tensor train of shape `(2, 2, 4)` with TT-ranks `(1, 2, 4, 1)`. -/
def exRanks : TT ℝ := ⟨[ones [1, 2, 2], ones [2, 2, 4], ones [4, 4, 1]], [[2, 2, 4]], [1, 2, 4, 1], none⟩

example : exRanks.WF ∧ exRanks.ModesPos ∧ exRanks.rawShape = [[2, 2, 4]] ∧ exRanks.ttRanks = [1, 2, 4, 1] := by
  refine ⟨⟨by decide, rfl, rfl, rfl, by decide, Or.inl rfl, by decide, fun k hk => ?_, by decide⟩, by simp [TT.ModesPos, exRanks], rfl, rfl⟩
  have : k = 0 ∨ k = 1 ∨ k = 2 := by simp [TT.ndims, exRanks] at hk; omega
  rcases this with rfl | rfl | rfl <;> rfl

end T3f
