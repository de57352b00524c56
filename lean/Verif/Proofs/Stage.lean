import Verif.Proofs.StageAbs
import Verif.Proofs.ToTTMatrix
import Verif.Proofs.RoundItem
import Verif.Proofs.ProjectProps
import Verif.Spec.Truncation

/-! # The truncation sweeps as sequences of nearest approximations -/

namespace T3f

/-- The chain `A` with the ranks `r` as an object with the modes of `t`. -/
def stageTT (t : TT ℝ) (r : ℕ → ℕ) (A : ℕ → ℕ → ℕ → ℕ → ℝ) : TT ℝ :=
  chainTT none ((List.range t.ndims).map fun k => ⟨r k :: (t.modes k ++ [r (k + 1)]),
    fun i => A k (ravel (t.modes k) (i.drop 1).dropLast) (i.getD 0 0) (i.getLastD 0)⟩) r t.modes t.rawShape.length

section
variable {t : TT ℝ} (h : t.WF) {r : ℕ → ℕ} (h0 : r 0 = 1) (hd : r t.ndims = 1) (hp : ∀ k ≤ t.ndims, 0 < r k) {A : ℕ → ℕ → ℕ → ℕ → ℝ}

include h h0 hd hp in
theorem stageTT_wf : (stageTT t r A).WF := by
  refine Chain.wf ⟨by simpa using h.pos, h0, by simpa using hd, fun k hk => hp k (by simpa using hk), h.rows, fun k hk => by simp [TT.modes],
    fun k hk => ?_, by simp⟩
  rw [getD_range_map _ _ _ _ (by simpa using hk)]
  rfl

theorem stageTT_ndims : (stageTT t r A).ndims = t.ndims := by simp [stageTT, chainTT, TT.ndims]

include h in
theorem stageTT_rawShape : (stageTT t r A).rawShape = t.rawShape := by
  rw [h.rows_eq]; simp [stageTT, chainTT, ← h.rows_eq]

include h in
theorem stageTT_isChain : (stageTT t r A).IsChain [] r A := by
  have hm : (stageTT t r A).modes = t.modes := by funext k; rw [TT.modes, TT.modes, stageTT_rawShape h]
  refine ⟨fun k hk => ?_, fun k hk n hn a _ b _ => ?_⟩
  · rw [stageTT_ndims] at hk
    exact chainTT_rank k (by simpa using hk)
  · rw [stageTT_ndims] at hk
    rw [TT.N, hm] at hn
    rw [TT.fl, hm, List.nil_append, TT.core, stageTT, chainTT]
    simp only
    rw [getD_range_map _ _ _ _ hk]
    have e : ∀ v : List ℕ, (a :: (v ++ [b])).getLastD 0 = b := fun v => by rw [← List.cons_append, List.getLastD_concat]
    simp only [e]
    simp [ravel_unravel hn]

end

/-- Entries depend on the chain only. -/
theorem IsChain.entry_eq {t t' : TT ℝ} (h : t.WF) {p p' : List ℕ} {r : ℕ → ℕ} {A : ℕ → ℕ → ℕ → ℕ → ℝ} (hc : t.IsChain p r A) (hc' : t'.IsChain p' r A)
    (hr : t'.rawShape = t.rawShape) (hn : t'.ndims = t.ndims) {m : ℕ → List ℕ} (hm : ∀ k < t.ndims, Valid (t.modes k) (m k)) :
    t'.entry p' m = t.entry p m := by
  have hM : t'.modes = t.modes := by funext k; rw [TT.modes, TT.modes, hr]
  have hN : t'.N = t.N := by funext k; rw [TT.N, TT.N, hM]
  have key : ∀ (u : TT ℝ) (q : List ℕ) (k a b : ℕ), k < t.ndims → u.modes = t.modes → u.slice q m k a b = u.fl q k (ravel (t.modes k) (m k)) a b := by
    intro u q k a b hk hu
    rw [TT.slice, TT.fl, hu, unravel_ravel (hm k hk)]
  rw [TT.entry, TT.entry, hn]
  refine lprod_congr (k := t.ndims) (fun j hj => by rw [hc.rank j hj.le, hc'.rank j (by omega)]) (fun j hj a b ha hb => ?_) ?_
  · have hlt : ravel (t.modes j) (m j) < t.N j := ravel_lt (hm j hj)
    rw [hc'.rank j (by omega)] at ha
    rw [hc'.rank (j + 1) (by omega)] at hb
    rw [key t' p' j a b hj hM, key t p j a b hj rfl, hc.core j hj _ hlt a ha b hb, hc'.core j (by omega) _ (by rw [hN]; exact hlt) a ha b hb]
  · rw [hc'.rank _ (by omega), ← hc.rank _ le_rfl, h.rank_last]; omega

theorem sqDist_entry (t s : TT ℝ) (p : List ℕ) :
    sqDist (restShape t.rawShape) (fun i => t.entry p (restModes t.rawShape i)) (fun i => s.entry p (restModes t.rawShape i)) = entryDist t s p := by
  unfold sqDist dot entryDist
  exact Finset.sum_congr rfl fun n _ => by rw [sq]

theorem sqDist_congr {s : List ℕ} {X X' Y Y' : List ℕ → ℝ} (hX : ∀ i, Valid s i → X i = X' i) (hY : ∀ i, Valid s i → Y i = Y' i) :
    sqDist s X Y = sqDist s X' Y' := by
  unfold sqDist dot
  refine Finset.sum_congr rfl fun n hn => ?_
  have := unravel_valid (Finset.mem_range.1 hn)
  simp only [hX _ this, hY _ this]

theorem hasTT_congr {rows : List (List ℕ)} {b : ℕ → ℕ} {X Y : List ℕ → ℝ} (h : ∀ i, Valid (restShape rows) i → X i = Y i) (hX : HasTT rows b X) :
    HasTT rows b Y := by
  rw [hasTT_iff] at *
  obtain ⟨S, h1, h2, h3, h4, h5⟩ := hX
  exact ⟨S, h1, h2, h3, h4, fun i hi => (h5 i hi).trans (h i hi)⟩

theorem hasCut_congr {rows : List (List ℕ)} {k r : ℕ} {X Y : List ℕ → ℝ} (h : ∀ i, Valid (restShape rows) i → X i = Y i) (hX : HasCut rows k r X) :
    HasCut rows k r Y := by
  obtain ⟨b, hb, hX⟩ := hX
  exact ⟨b, hb, hasTT_congr h hX⟩

theorem nearestCut_congr {rows : List (List ℕ)} {k r : ℕ} {X X' Y Y' : List ℕ → ℝ} (h : ∀ i, Valid (restShape rows) i → X i = X' i)
    (h' : ∀ i, Valid (restShape rows) i → Y i = Y' i) (hX : NearestCut rows (restShape rows) k r X Y) : NearestCut rows (restShape rows) k r X' Y' := by
  refine ⟨hasCut_congr h' hX.1, fun Z hZ => ?_⟩
  rw [← sqDist_congr h h', ← sqDist_congr h (fun i _ => rfl)]
  exact hX.2 Z hZ

theorem truncated_congr {rows : List (List ℕ)} {b : ℕ → ℕ} {ks : List ℕ} {X X' Y Y' : List ℕ → ℝ} (h : ∀ i, Valid (restShape rows) i → X i = X' i)
    (h' : ∀ i, Valid (restShape rows) i → Y i = Y' i) (hX : Truncated rows (restShape rows) b ks X Y) : Truncated rows (restShape rows) b ks X' Y' := by
  induction hX generalizing X' with
  | done h0 => exact .done fun i hi => by rw [← h i hi, h0 i hi, h' i hi]
  | cut h0 _ ih => exact .cut (nearestCut_congr h (fun _ _ => rfl) h0) (ih (fun _ _ => rfl) h')

theorem truncated_bound {rows : List (List ℕ)} {s : List ℕ} {b b' : ℕ → ℕ} {ks : List ℕ} {X Y : List ℕ → ℝ} (hb : ∀ k ∈ ks, b k = b' k)
    (h : Truncated rows s b ks X Y) : Truncated rows s b' ks X Y := by
  induction h with
  | done h0 => exact .done h0
  | cut h0 _ ih => exact .cut (by rw [← hb _ (by simp)]; exact h0) (ih fun k hk => hb k (by simp [hk]))

theorem NoTies.unique {rows : List (List ℕ)} {b : ℕ → ℕ} {ks : List ℕ} {X Y Y' : List ℕ → ℝ} (h : NoTies rows (restShape rows) b ks X)
    (hY : Truncated rows (restShape rows) b ks X Y) (hY' : Truncated rows (restShape rows) b ks X Y') : ∀ i, Valid (restShape rows) i → Y' i = Y i := by
  induction hY generalizing Y' with
  | done h0 =>
    cases hY' with
    | done h1 => exact fun i hi => by rw [← h0 i hi, ← h1 i hi]
  | cut h0 _ ih =>
    cases hY' with
    | cut h1 h2 =>
      obtain ⟨h3, h4⟩ := h _ h0
      exact ih h4 (truncated_congr (h3 _ h1) (fun _ _ => rfl) h2)

/-- One truncation of a chain, as a nearest approximation. -/
theorem nearestCut_of_chain {t : TT ℝ} (h : t.WF) {k bd : ℕ} (hk0 : 0 < k) (hk : k < t.ndims) {r r' : ℕ → ℕ} {A A' : ℕ → ℕ → ℕ → ℕ → ℝ} {tail : ℝ}
    (r0 : r 0 = 1) (rd : r t.ndims = 1) (rp : ∀ k ≤ t.ndims, 0 < r k) (r0' : r' 0 = 1) (rd' : r' t.ndims = 1) (rp' : ∀ k ≤ t.ndims, 0 < r' k)
    (hb : r' k ≤ bd) (hdist : chainDist t.N r r' A A' t.ndims = tail)
    (hbest : ∀ (rS : ℕ → ℕ) (S : ℕ → ℕ → ℕ → ℕ → ℝ), rS t.ndims = 1 → rS k ≤ bd → tail ≤ chainDist t.N r rS A S t.ndims) :
    NearestCut t.rawShape (restShape t.rawShape) k bd (fun i => (stageTT t r A).entry [] (restModes t.rawShape i))
      (fun i => (stageTT t r' A').entry [] (restModes t.rawShape i)) := by
  have w := stageTT_wf h r0 rd rp (A := A)
  have w' := stageTT_wf h r0' rd' rp' (A := A')
  have e := stageTT_rawShape h (r := r) (A := A)
  have e' := stageTT_rawShape h (r := r') (A := A')
  have n : (stageTT t r A).ndims = t.ndims := stageTT_ndims
  have n' : (stageTT t r' A').ndims = t.ndims := stageTT_ndims
  have c := stageTT_isChain h (r := r) (A := A)
  have c' := stageTT_isChain h (r := r') (A := A')
  have hN : (stageTT t r A).N = t.N := by funext k; rw [TT.N, TT.modes, e]; rfl
  have hN' : (stageTT t r' A').N = t.N := by funext k; rw [TT.N, TT.modes, e']; rfl
  have key : ∀ {S : TT ℝ} (hS : S.WF), S.rawShape = t.rawShape → S.ndims = t.ndims →
      entryDist (stageTT t r A) S [] = chainDist t.N r S.rank A (S.fl []) t.ndims := by
    intro S hS hr hn
    rw [← chainDist_entry w hS (by rw [hr, e]) (by rw [hn, n]) [], n, hN]
    have hA : ∀ k < t.ndims, ∀ m < t.N k, ∀ a < r k, ∀ b < r (k + 1), (stageTT t r A).fl [] k m a b = A k m a b := fun k hk m hm a ha b hb =>
      c.core k (by omega) m (by rw [hN]; exact hm) a ha b hb
    have hr' : ∀ k ≤ t.ndims, (stageTT t r A).rank k = r k := fun k hk => c.rank k (by omega)
    unfold chainDist
    rw [gram_congr' hr' hr' hA hA (rp _ le_rfl) (rp _ le_rfl), gram_congr' (B' := S.fl []) (B := S.fl []) hr' (fun _ _ => rfl) hA (fun _ _ _ _ _ _ _ _ => rfl) (rp _ le_rfl)
      (by rw [← hn]; exact hS.rank_pos _ le_rfl)]
  have hd2 : entryDist (stageTT t r A) (stageTT t r' A') [] = tail := by
    rw [key w' e' n', ← hdist]
    have hA : ∀ k < t.ndims, ∀ m < t.N k, ∀ a < r' k, ∀ b < r' (k + 1), (stageTT t r' A').fl [] k m a b = A' k m a b := fun k hk m hm a ha b hb =>
      c'.core k (by omega) m (by rw [hN']; exact hm) a ha b hb
    have hr' : ∀ k ≤ t.ndims, (stageTT t r' A').rank k = r' k := fun k hk => c'.rank k (by omega)
    unfold chainDist
    rw [gram_congr' hr' hr' hA hA (rp' _ le_rfl) (rp' _ le_rfl), gram_congr' (A' := A) (A := A) (fun _ _ => rfl) hr' (fun _ _ _ _ _ _ _ _ => rfl) hA (rp _ le_rfl) (rp' _ le_rfl)]
  refine ⟨⟨r', hb, hasTT_iff.2 ⟨_, w', e', rfl, fun j h1 h2 => (c'.rank j h2.le).le, fun i _ => rfl⟩⟩, ?_⟩
  rintro Z ⟨b, hbk, hZ⟩
  obtain ⟨S, hS, hSr, hSb, hSk, hSe⟩ := hasTT_iff.1 hZ
  have hSn : S.ndims = t.ndims := ndims_eq_of_rawShape hS h hSr
  have q1 := sqDist_entry (stageTT t r A) (stageTT t r' A') []
  have q2 := sqDist_entry (stageTT t r A) S []
  rw [e] at q1 q2
  rw [q1, hd2, sqDist_congr (X' := fun i => (stageTT t r A).entry [] (restModes t.rawShape i)) (fun i _ => rfl) (fun i hi => (hSe i hi).symm), q2, key hS hSr hSn]
  exact hbest _ _ (by rw [← hSn]; exact hS.rank_last) ((hSk k hk0 (by omega)).trans hbk)

/-- The sweep from right to left. -/
theorem RSweep.truncated {t : TT ℝ} (h : t.WF) {rL rV : ℕ → ℕ} {L V C : ℕ → ℕ → ℕ → ℕ → ℝ} {tail : ℕ → ℝ} {bd : ℕ → ℕ}
    (hs : RSweep t.N rL rV L V C t.ndims tail bd) (hL : ∀ k ≤ t.ndims, 0 < rL k) (hV : ∀ k ≤ t.ndims, 0 < rV k)
    (hb : ∀ k, 0 < k → k < t.ndims → rV k ≤ bd k) {j : ℕ} (hj : j < t.ndims) :
    Truncated t.rawShape (restShape t.rawShape) bd (List.range' 1 j).reverse
      (fun i => (stageTT t (blockRank rL rV j) (blockChain L V (C j) j)).entry [] (restModes t.rawShape i))
      (fun i => (stageTT t (blockRank rL rV 0) (blockChain L V (C 0) 0)).entry [] (restModes t.rawShape i)) := by
  have b0 : ∀ i, blockRank rL rV i 0 = 1 := fun i => by rw [blockRank, if_pos (by omega), hs.rL0]
  have bd' : ∀ i < t.ndims, blockRank rL rV i t.ndims = 1 := fun i hi => by rw [blockRank, if_neg (by omega), hs.rVd]
  have bp : ∀ i, ∀ k ≤ t.ndims, 0 < blockRank rL rV i k := fun i k hk => by
    unfold blockRank; split_ifs
    exacts [hL k hk, hV k hk]
  induction j with
  | zero => exact .done fun _ _ => rfl
  | succ j ih =>
    rw [List.range'_1_concat, List.reverse_append, List.reverse_singleton, Nat.add_comm 1 j, List.singleton_append]
    refine .cut ?_ (ih (by omega))
    refine nearestCut_of_chain h (by omega) hj (b0 _) (bd' _ hj) (bp _) (b0 _) (bd' _ (by omega)) (bp _) ?_ (hs.stage_dist hj)
      (fun rS S h1 h2 => hs.stage_best (by omega) hj S h1 h2)
    rw [blockRank, if_neg (by omega)]
    exact hb _ (by omega) hj

/-- The sweep from left to right. -/
theorem LSweep.truncated {t : TT ℝ} (h : t.WF) {rU rV : ℕ → ℕ} {U V D : ℕ → ℕ → ℕ → ℕ → ℝ} {tail : ℕ → ℝ} {bd : ℕ → ℕ}
    (hs : LSweep t.N rU rV U V D t.ndims tail bd) (hU : ∀ k ≤ t.ndims, 0 < rU k) (hV : ∀ k ≤ t.ndims, 0 < rV k)
    (hb : ∀ k, 0 < k → k < t.ndims → rU k ≤ bd k) (m : ℕ) : ∀ {j : ℕ}, j + m + 1 = t.ndims →
    Truncated t.rawShape (restShape t.rawShape) bd (List.range' (j + 1) m)
      (fun i => (stageTT t (blockRank rU rV j) (blockChain U V (D j) j)).entry [] (restModes t.rawShape i))
      (fun i => (stageTT t (blockRank rU rV (t.ndims - 1)) (blockChain U V (D (t.ndims - 1)) (t.ndims - 1))).entry [] (restModes t.rawShape i)) := by
  have b0 : ∀ i, blockRank rU rV i 0 = 1 := fun i => by rw [blockRank, if_pos (by omega), hs.rU0]
  have bd' : ∀ i < t.ndims, blockRank rU rV i t.ndims = 1 := fun i hi => by rw [blockRank, if_neg (by omega), hs.rVd]
  have bp : ∀ i, ∀ k ≤ t.ndims, 0 < blockRank rU rV i k := fun i k hk => by
    unfold blockRank; split_ifs
    exacts [hU k hk, hV k hk]
  induction m with
  | zero =>
    intro j hj
    obtain rfl : j = t.ndims - 1 := by omega
    exact .done fun _ _ => rfl
  | succ m ih =>
    intro j hj
    rw [List.range'_succ]
    refine .cut ?_ (ih (j := j + 1) (by omega))
    refine nearestCut_of_chain h (by omega) (by omega) (b0 _) (bd' _ (by omega)) (bp _) (b0 _) (bd' _ (by omega)) (bp _) ?_ (hs.stage_dist (by omega))
      (fun rS S h1 h2 => hs.stage_best (by omega) S h1 h2)
    rw [blockRank, if_pos le_rfl]
    exact hb _ (by omega) (by omega)

/-- `to_tt_tensor` and `to_tt_matrix`. -/
theorem Fit.truncated {z x : TT ℝ} {b : ℕ → ℕ} (f : Fit z x b) (h : z.WF) :
    Truncated z.rawShape (restShape z.rawShape) b (List.range' 1 (z.ndims - 1))
      (fun i => z.entry [] (restModes z.rawShape i)) (fun i => x.entry [] (restModes z.rawShape i)) := by
  obtain ⟨rV, U, V, D, tail, h0, h1, h2, h3⟩ := f.sweep
  have hxn : x.ndims = z.ndims := ndims_eq_of_rawShape f.wf h f.rows
  have hpos := h.pos
  have q := h1.truncated h (fun k hk => f.wf.rank_pos k (by omega)) h0 f.rank (z.ndims - 1) (j := 0) (by omega)
  refine truncated_congr (fun i hi => ?_) (fun i hi => ?_) q
  · exact (IsChain.entry_eq h h2 (stageTT_isChain h) (stageTT_rawShape h) stageTT_ndims (validModes_rest h hi))
  · refine (IsChain.entry_eq f.wf h3 (stageTT_isChain h) (by rw [stageTT_rawShape h, f.rows]) (by rw [stageTT_ndims, hxn]) ?_)
    rw [hxn]
    intro k hk
    rw [TT.modes, f.rows]
    exact validModes_rest h hi k hk

/-- `round`. -/
theorem ttRound_truncated {qr : QRRoutine} (hqr : qr.Correct) {svd : SVDRoutine} (hsvd : svd.Correct) {t : TT ℝ} (h : t.WF) (hm : t.ModesPos)
    {m : MaxRank} {b : ℕ → ℕ} (hb : m.Bounds t.ndims b) (hbatch : t.isBatch → m.Single) {eps : Option ℝ} (he : ∀ e ∈ eps, 0 ≤ e) :
    ∃ x, ttRound qr svd t m eps = Except.ok x ∧ x.WF ∧ x.rawShape = t.rawShape ∧ x.batch = t.batch ∧ ∀ p, Valid t.bpre p →
      Truncated t.rawShape (restShape t.rawShape) b (List.range' 1 (t.ndims - 1)).reverse
        (fun i => t.entry p (restModes t.rawShape i)) (fun i => x.entry p (restModes t.rawShape i)) := by
  obtain ⟨l, el, hl, hlb, hlp⟩ := maxRanks_ok hb he
  obtain ⟨x, o, r', V, C, tail, e, hxw, hxr, hxb, hxn, ho, hom, hor, hob, hon, hork, hoe, hr', hrank, hfl, hf0, sw⟩ :=
    roundWith_sweep hqr hsvd h hm hl hlp
  refine ⟨x, by rw [ttRound_eq hbatch, el]; exact e, hxw, hxr, hxb, fun p hp => ?_⟩
  have hpos := h.pos
  have S := sw p hp
  rw [← hon] at S
  have r0 : r' 0 = 1 := by rw [hr']; exact rdRank_zero _ _ _ _
  have rd : r' t.ndims = 1 := by rw [hr', ← hon]; exact rdRank_last _ _ _ _
  have rp : ∀ k ≤ o.ndims, 0 < r' k := fun k hk => by rw [← hrank k (by omega)]; exact hxw.rank_pos k (by omega)
  have hN : x.N = o.N := by funext k; rw [TT.N, TT.N, TT.modes, TT.modes, hxr, hor]
  have q := S.truncated ho ho.rank_pos rp (fun k h0 hk => by
    rw [hr', rdRank_step _ _ _ h0 hk]
    exact keptRank_le_bound) (j := o.ndims - 1) (by omega)
  rw [hor] at q
  have hO : o.IsChain p (blockRank o.rank r' (o.ndims - 1)) (blockChain (o.fl p) (V p) (C p (o.ndims - 1)) (o.ndims - 1)) := by
    refine ⟨fun k hk => ?_, fun k hk n hn a ha c hc => ?_⟩
    · rw [blockRank]
      split_ifs with h1
      · rfl
      · obtain rfl : k = o.ndims := by omega
        rw [ho.rank_last, hon, rd]
    · rw [blockChain]
      rcases Nat.lt_or_ge k (o.ndims - 1) with h1 | h1
      · rw [if_pos h1]
      · obtain rfl : k = o.ndims - 1 := by omega
        rw [if_neg (by omega), if_pos rfl]
        rw [blockRank, if_pos le_rfl] at ha
        rw [show o.ndims - 1 + 1 = o.ndims by omega, blockRank, if_neg (by omega), hon, rd] at hc
        obtain rfl : c = 0 := by omega
        exact (S.last n hn a ha).symm
  have hX : x.IsChain p (blockRank o.rank r' 0) (blockChain (o.fl p) (V p) (C p 0) 0) := by
    refine ⟨fun k hk => ?_, fun k hk n hn a ha c hc => ?_⟩
    · rw [hrank k (by omega), blockRank]
      split_ifs with h1
      · obtain rfl : k = 0 := by omega
        rw [r0, ho.rank_first]
      · rfl
    · rw [blockChain]
      rw [hN] at hn
      rcases Nat.eq_zero_or_pos k with rfl | h1
      · rw [if_neg (by omega), if_pos rfl]
        rw [blockRank, if_pos le_rfl, ho.rank_first] at ha
        rw [blockRank, if_neg (by omega)] at hc
        exact hf0 p hp n hn a ha c hc
      · rw [if_neg (by omega), if_neg (by omega), hfl p k h1 (by omega)]
  have q' := truncated_bound (b' := b) (fun k hk => hlb k (by
    rw [List.mem_reverse, List.mem_range'_1] at hk; omega)) q
  rw [hon] at q'
  refine truncated_congr (fun i hi => ?_) (fun i hi => ?_) q'
  · rw [← hoe p hp _ (validModes_rest h hi), ← hon]
    refine IsChain.entry_eq ho hO (stageTT_isChain ho) (stageTT_rawShape ho) stageTT_ndims ?_
    rw [← hor] at hi ⊢
    exact validModes_rest ho hi
  · refine IsChain.entry_eq hxw hX (stageTT_isChain ho) (by rw [stageTT_rawShape ho, hor, hxr]) (by rw [stageTT_ndims, hon, hxn]) ?_
    rw [← hxr] at hi ⊢
    exact validModes_rest hxw hi

/-- One cut: the distance is that of the best approximation. -/
theorem truncated_one {rows : List (List ℕ)} {s : List ℕ} {b : ℕ → ℕ} {k : ℕ} {X Y Y' : List ℕ → ℝ} (h : Truncated rows s b [k] X Y)
    (h' : Truncated rows s b [k] X Y') : sqDist s X Y = sqDist s X Y' := by
  cases h with
  | cut h1 h2 =>
    cases h' with
    | cut h1' h2' =>
      cases h2 with
      | done h3 =>
        cases h2' with
        | done h3' =>
          rw [← sqDist_congr (fun _ _ => rfl) h3, ← sqDist_congr (fun _ _ => rfl) h3']
          exact le_antisymm (h1.2 _ h1'.1) (h1'.2 _ h1.1)

theorem sqDist_self (s : List ℕ) (X : List ℕ → ℝ) : sqDist s X X = 0 := by
  unfold sqDist dot; simp

theorem eq_of_sqDist {s : List ℕ} {X Y : List ℕ → ℝ} (h : sqDist s X Y ≤ 0) : ∀ i, Valid s i → Y i = X i := by
  have h0 : sqDist s X Y = 0 := le_antisymm h (by unfold sqDist dot; exact Finset.sum_nonneg fun _ _ => mul_self_nonneg _)
  intro i hi
  exact (sub_eq_zero.1 (dot_self h0 i hi)).symm

theorem noTies_congr {rows : List (List ℕ)} {b : ℕ → ℕ} {ks : List ℕ} {X X' : List ℕ → ℝ} (h : ∀ i, Valid (restShape rows) i → X i = X' i)
    (hX : NoTies rows (restShape rows) b ks X) : NoTies rows (restShape rows) b ks X' := by
  cases ks with
  | nil => trivial
  | cons k ks =>
    intro Z hZ
    obtain ⟨h1, h2⟩ := hX Z (nearestCut_congr (fun i hi => (h i hi).symm) (fun _ _ => rfl) hZ)
    exact ⟨fun Z' hZ' => h1 Z' (nearestCut_congr (fun i hi => (h i hi).symm) (fun _ _ => rfl) hZ'), h2⟩

/-- There are no ties for tensors that have a representation within the bounds. -/
theorem noTies_of_hasTT {rows : List (List ℕ)} {b : ℕ → ℕ} {ks : List ℕ} {X : List ℕ → ℝ} (h : HasTT rows b X) :
    NoTies rows (restShape rows) b ks X := by
  induction ks with
  | nil => trivial
  | cons k ks ih =>
    intro Z hZ
    have key : ∀ Z, NearestCut rows (restShape rows) k (b k) X Z → ∀ i, Valid (restShape rows) i → Z i = X i := fun Z hZ =>
      eq_of_sqDist (by rw [← sqDist_self (restShape rows) X]; exact hZ.2 X ⟨b, le_rfl, h⟩)
    exact ⟨fun Z' hZ' i hi => by rw [key Z' hZ' i hi, key Z hZ i hi], noTies_congr (fun i hi => (key Z hZ i hi).symm) ih⟩

end T3f
