import Verif.Proofs.RoundProps
import Verif.Proofs.Add
import Verif.Proofs.BatchItem
import Verif.Spec.Blocks

/-! # Exactness of rounding, item by item -/

namespace T3f

/-- Entries of a tensor train that is not a batch, repeated for every item of a batch. -/
noncomputable def rebatch (S : TT ℝ) (bs : Option ℕ) : TT ℝ :=
  chainTT bs ((List.range S.ndims).map fun k => ⟨bs.toList ++ S.rank k :: (S.modes k ++ [S.rank (k + 1)]),
    fun i => (S.core k).get (i.drop bs.toList.length)⟩) S.rank S.modes S.rawShape.length

theorem rebatch_chain {S : TT ℝ} (h : S.WF) {bs : Option ℕ} (hb : bs ≠ some 0) :
    Chain bs ((List.range S.ndims).map fun k => (⟨bs.toList ++ S.rank k :: (S.modes k ++ [S.rank (k + 1)]),
    fun i => (S.core k).get (i.drop bs.toList.length)⟩ : Tensor ℝ)) S.rank S.modes S.rawShape.length := by
  refine ⟨by simpa using h.pos, h.rank_first, by simpa using h.rank_last, fun k hk => h.rank_pos k (by simpa using hk), h.rows,
    fun k hk => by simp [TT.modes], fun k hk => ?_, hb⟩
  rw [getD_range_map _ _ _ _ (by simpa using hk)]

theorem rebatch_rank {S : TT ℝ} {bs : Option ℕ} {k : ℕ} (hk : k ≤ S.ndims) : (rebatch S bs).rank k = S.rank k :=
  chainTT_rank k (by simpa using hk)

theorem rebatch_ndims {S : TT ℝ} {bs : Option ℕ} : (rebatch S bs).ndims = S.ndims := by simp [rebatch, chainTT, TT.ndims]

theorem rebatch_rawShape {S : TT ℝ} (h : S.WF) {bs : Option ℕ} : (rebatch S bs).rawShape = S.rawShape := by
  rw [h.rows_eq]; simp [rebatch, chainTT, ← h.rows_eq]

theorem rebatch_entry {S : TT ℝ} (h : S.WF) {bs : Option ℕ} (hb : bs ≠ some 0) {p : List ℕ} (hp : p.length = bs.toList.length) (g : ℕ → List ℕ) :
    (rebatch S bs).entry p g = S.entry [] g := by
  rw [rebatch, (rebatch_chain h hb).entry_eq, TT.entry]
  simp only [List.length_map, List.length_range]
  refine lprod_congr (k := S.ndims) (fun _ _ => rfl) (fun j hj a _ b _ => ?_) (by rw [h.rank_last]; omega)
  rw [getD_range_map _ _ _ _ hj, TT.slice]
  simp only
  rw [List.drop_append_of_le_length (by omega), List.drop_eq_nil_of_le (by omega)]

/-- Representability of item entries. -/
def RepEntry (rows : List (List ℕ)) (b : ℕ → ℕ) (X : List ℕ → ℝ) : Prop :=
  ∃ S : TT ℝ, S.WF ∧ S.rawShape = rows ∧ S.batch = none ∧ (∀ k, 0 < k → k < S.ndims → S.rank k ≤ b k) ∧
    ∀ i, Valid (restShape rows) i → S.entry [] (restModes rows i) = X i

theorem hasTT_iff {rows : List (List ℕ)} {b : ℕ → ℕ} {X : List ℕ → ℝ} : HasTT rows b X ↔ RepEntry rows b X := by
  constructor
  · rintro ⟨S, F, h, hr, hb, hk, hF, hX⟩
    obtain ⟨F', e, s, v⟩ := full_ok h
    obtain rfl : F' = F := Except.ok.inj (e.symm.trans hF)
    have hp : S.bpre = [] := by simp [TT.bpre, hb]
    rw [hp, hr] at s v
    refine ⟨S, h, hr, hb, hk, fun i hi => ?_⟩
    rw [← v [] i (by simp) hi]
    exact hX i (by rw [s]; exact hi)
  · rintro ⟨S, h, hr, hb, hk, hX⟩
    obtain ⟨F, e, s, v⟩ := full_ok h
    have hp : S.bpre = [] := by simp [TT.bpre, hb]
    rw [hp, hr] at s v
    refine ⟨S, F, h, hr, hb, hk, e, fun i hi => ?_⟩
    rw [s] at hi
    exact (v [] i (by simp) hi).trans (hX i hi)

/-- Every item of a batch has a representation with the ranks of the batch. -/
theorem repEntry_item {t : TT ℝ} (h : t.WF) {p : List ℕ} (hp : Valid t.bpre p) : RepEntry t.rawShape t.rank (fun i => t.entry p (restModes t.rawShape i)) := by
  cases hb : t.batch with
  | none =>
    have : p = [] := by simpa [TT.bpre, hb, valid_nil_iff] using hp
    subst this
    exact ⟨t, h, rfl, hb, fun _ _ _ => le_rfl, fun _ _ => rfl⟩
  | some n =>
    obtain ⟨o, rfl, ho⟩ : ∃ o, p = [o] ∧ o < n := by
      rw [TT.bpre, hb] at hp
      obtain ⟨o, i, rfl, ho, hi⟩ := (valid_cons_iff n [] p).1 hp
      rw [valid_nil_iff] at hi
      exact ⟨o, by rw [hi], ho⟩
    obtain ⟨T, -, hT, hr, hk, hn, hpre, hbt, hv⟩ := batchDimGetItem_spec h n hb (.int o) (.one o) (by simp [resolve1, intPosition, ho]) (by simp [selShape])
    refine ⟨T, hT, hr, hbt.2 rfl, fun k _ _ => by rw [TT.rank, hk]; exact le_rfl, fun i hi => ?_⟩
    rw [hv [] _ (by rw [hpre]; simp [selShape]) (by rw [← hr]; exact validModes_rest hT (by rw [hr]; exact hi))]
    rfl

/-- Squared distance of two tensors of shape `s`, given by their elements. -/
noncomputable def dist2 (s : List ℕ) (X Y : List ℕ → ℝ) : ℝ := ∑ n ∈ Finset.range s.prod, (X (unravel s n) - Y (unravel s n)) ^ 2

theorem dist2_nonneg (s : List ℕ) (X Y : List ℕ → ℝ) : 0 ≤ dist2 s X Y := Finset.sum_nonneg fun _ _ => sq_nonneg _

theorem dist2_zero {s : List ℕ} {X Y : List ℕ → ℝ} (h : dist2 s X Y = 0) {i : List ℕ} (hi : Valid s i) : X i = Y i := by
  unfold dist2 at h
  rw [Finset.sum_eq_zero_iff_of_nonneg fun _ _ => sq_nonneg _] at h
  have h4 := h (ravel s i) (Finset.mem_range.2 (ravel_lt hi))
  rw [unravel_ravel hi] at h4
  linarith [pow_eq_zero_iff (n := 2) (by norm_num) |>.1 h4]

/-- What is known about the result `X` of rounding `S`: it is within the bounds, the error is orthogonal to the result, and at most `√(d - 1)` times the error of any tensor within the bounds. -/
structure RoundsTo (rows : List (List ℕ)) (b : ℕ → ℕ) (d : ℕ) (S X : List ℕ → ℝ) : Prop where
  rep : RepEntry rows b X
  pyth : dist2 (restShape rows) S X = dist2 (restShape rows) S 0 - dist2 (restShape rows) X 0
  opt : ∀ F, RepEntry rows b F → dist2 (restShape rows) S X ≤ (d - 1 : ℕ) * dist2 (restShape rows) S F

theorem RoundsTo.exact {rows : List (List ℕ)} {b : ℕ → ℕ} {d : ℕ} {S X : List ℕ → ℝ} (h : RoundsTo rows b d S X) (hS : RepEntry rows b S)
    {i : List ℕ} (hi : Valid (restShape rows) i) : X i = S i := by
  refine (dist2_zero (le_antisymm ((h.opt S hS).trans (le_of_eq ?_)) (dist2_nonneg _ _ _)) hi).symm
  simp [dist2]

theorem round_item {qr : QRRoutine} (hqr : qr.Correct) {svd : SVDRoutine} (hsvd : svd.Correct) {t : TT ℝ} (h : t.WF) (hm : t.ModesPos)
    {m : MaxRank} {b : ℕ → ℕ} (hb : m.Bounds t.ndims b) (hbatch : t.isBatch → m.Single) {eps : Option ℝ} (he : ∀ e ∈ eps, 0 ≤ e) :
    ∃ x, ttRound qr svd t m eps = Except.ok x ∧ x.WF ∧ x.rawShape = t.rawShape ∧ x.batch = t.batch ∧
      (∀ k, 0 < k → k < t.ndims → x.rank k ≤ b k) ∧
      ∀ p, Valid t.bpre p → RoundsTo t.rawShape b t.ndims (fun i => t.entry p (restModes t.rawShape i)) (fun i => x.entry p (restModes t.rawShape i)) := by
  obtain ⟨l, el, hl, hlb, hpos⟩ := maxRanks_ok hb he
  obtain ⟨x, e, w, rs, bt, -, r1, -, -, tail, ht⟩ := roundWith_ok hqr hsvd h hm hl hpos
  refine ⟨x, by rw [ttRound_eq hbatch, el]; exact e, w, rs, bt, fun k h0 hk => by rw [← hlb k (by omega)]; exact r1 k h0 hk, fun p hp => ?_⟩
  obtain ⟨h1, h2, h3⟩ := ht p hp
  have hb0 : t.batch ≠ some 0 := h.batch_pos
  have hd : dist2 (restShape t.rawShape) (fun i => t.entry p (restModes t.rawShape i)) (fun i => x.entry p (restModes t.rawShape i)) = entryDist t x p := by
    unfold dist2 entryDist; rfl
  refine ⟨?_, ?_, ?_⟩
  · obtain ⟨S, g1, g2, g3, g4, g5⟩ := repEntry_item w (p := p) (by rw [show x.bpre = t.bpre by simp [TT.bpre, bt]]; exact hp)
    have hSn : S.ndims = t.ndims := ndims_eq_of_rawShape g1 h (g2.trans rs)
    refine ⟨S, g1, g2.trans rs, g3, fun k h0 hk => (g4 k h0 hk).trans ?_, by rw [rs] at g5; exact g5⟩
    rw [← hlb k (by omega)]; exact r1 k h0 (by omega)
  · rw [hd, h2]
    unfold entryDot dist2
    rw [rs]
    simp only [Pi.zero_apply, sub_zero, sq]
  · rintro F ⟨S, hS, hSr, hSb, hSk, hSe⟩
    have hSn : S.ndims = t.ndims := ndims_eq_of_rawShape hS h hSr
    have hz : entryDist t (rebatch S t.batch) p = dist2 (restShape t.rawShape) (fun i => t.entry p (restModes t.rawShape i)) F := by
      unfold entryDist dist2
      refine Finset.sum_congr rfl fun n hn => ?_
      rw [rebatch_entry hS hb0 hp.length_eq, hSe _ (unravel_valid (Finset.mem_range.1 hn))]
    rw [hd, h1, ← hz, ← nsmul_eq_mul]
    refine (Finset.sum_le_card_nsmul _ _ _ fun j hj => ?_).trans (by rw [Finset.card_range])
    rw [Finset.mem_range] at hj
    refine h3 (j + 1) (by omega) (by omega) _ (rebatch_chain hS hb0).wf (by rw [rebatch_rawShape hS, hSr]) (by rw [rebatch_ndims, hSn]) ?_
    rw [rebatch_rank (by omega), hlb _ (by omega)]
    exact hSk _ (by omega) (by omega)

/-! ## Blocks -/

theorem block_zero {n q : ℕ} (hq : q < n) : block n 0 q = {q} := by
  ext k
  simp only [block, Finset.mem_filter, Finset.mem_range, pow_zero, Nat.div_one, Finset.mem_singleton]
  omega

theorem block_succ (n l q : ℕ) : block n (l + 1) q = block n l (2 * q) ∪ block n l (2 * q + 1) := by
  ext k
  simp only [block, Finset.mem_filter, Finset.mem_union, Finset.mem_range, pow_succ, ← Nat.div_div_eq_div_mul]
  omega

theorem block_disjoint (n l q q' : ℕ) (h : q ≠ q') : Disjoint (block n l q) (block n l q') := by
  rw [Finset.disjoint_left]
  intro k hk hk'
  simp only [block, Finset.mem_filter] at hk hk'
  omega

theorem sum_block_succ (n l q : ℕ) (f : ℕ → ℝ) :
    ∑ k ∈ block n (l + 1) q, f k = ∑ k ∈ block n l (2 * q), f k + ∑ k ∈ block n l (2 * q + 1), f k := by
  rw [block_succ, Finset.sum_union (block_disjoint _ _ _ _ (by omega))]

/-- `N` is the number of blocks of length `2 ^ l`. -/
def Lvl (n l N : ℕ) : Prop := ∀ q, q < N ↔ q * 2 ^ l < n

theorem Lvl.zero (n : ℕ) : Lvl n 0 n := fun q => by simp

theorem Lvl.succ {n l N : ℕ} (h : Lvl n l N) : Lvl n (l + 1) ((N + 1) / 2) := fun q => by
  rw [pow_succ, show q * (2 ^ l * 2) = 2 * q * 2 ^ l by ring, ← h]; omega

theorem Lvl.lt {n l N : ℕ} (h : Lvl n l N) {k : ℕ} (hk : k < n) : k / 2 ^ l < N :=
  (h _).2 (lt_of_le_of_lt (Nat.div_mul_le_self _ _) hk)

theorem Lvl.empty {n l q N : ℕ} (h : Lvl n l N) (hq : N ≤ q) : block n l q = ∅ := by
  rw [block, Finset.filter_eq_empty_iff]
  intro k hk
  have := h.lt (Finset.mem_range.1 hk)
  omega

theorem Lvl.all {n l : ℕ} (h : Lvl n l 1) : block n l 0 = Finset.range n := by
  rw [block, Finset.filter_true_of_mem]
  intro k hk
  exact Nat.lt_one_iff.1 (h.lt (Finset.mem_range.1 hk))

theorem Lvl.pos {n l N : ℕ} (h : Lvl n l N) (hn : 0 < n) : 0 < N := (h 0).2 (by simpa using hn)

end T3f
