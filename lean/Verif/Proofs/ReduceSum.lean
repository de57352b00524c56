import Verif.Proofs.AddN
import Verif.Proofs.BatchOps

/-! # Summation tree of `reduce_sum_batch` -/

namespace T3f

/-! ## Splitting the batch -/

theorem splitFirst_some (core : Tensor ℝ) {n N : ℕ} {s : List ℕ} (hs : core.shape = (n * N) :: s) (hN : 0 < N) :
    ∃ T, splitFirst (some N) core = Except.ok T ∧ T.shape = n :: N :: s ∧
      ∀ q < n, ∀ j < N, ∀ i, Valid s i → T.get (q :: j :: i) = core.get ((q * N + j) :: i) := by
  obtain ⟨T, e, sT, vT⟩ := reshape_spec core ((n :: N :: s).map some) (n :: N :: s) (resolveShape_some _ _ (by rw [hs]; simp [mul_assoc]))
  refine ⟨T, ?_, sT, fun q hq j hj i hi => vT _ _ ?_ ?_⟩
  · rw [splitFirst, hs, pyGet_of_lt _ _ 0 (by simp)]
    simp only [R.ok_bind, List.getD_cons_zero, List.tail_cons, Nat.mul_div_cancel n hN]
    exact e
  · rw [hs]
    exact ⟨lt_of_lt_of_le (b := (q + 1) * N) (by rw [Nat.add_mul, one_mul]; omega) (Nat.mul_le_mul_right _ hq), hi⟩
  · rw [hs]; simp only [ravel_cons, List.prod_cons]; ring

theorem mergeFirst_some (core : Tensor ℝ) {n N : ℕ} {s : List ℕ} (hs : core.shape = n :: N :: s) (N' : ℕ) :
    ∃ T, mergeFirst (some N') core = Except.ok T ∧ T.shape = (n * N) :: s ∧
      ∀ q < n, ∀ j < N, ∀ i, Valid s i → T.get ((q * N + j) :: i) = core.get (q :: j :: i) := by
  obtain ⟨T, e, sT, vT⟩ := reshape_spec core (((n * N) :: s).map some) ((n * N) :: s) (resolveShape_some _ _ (by rw [hs]; simp [mul_assoc]))
  refine ⟨T, ?_, sT, fun q hq j hj i hi => vT _ _ ?_ ?_⟩
  · rw [mergeFirst, hs, pyGet_of_lt _ _ 0 (by simp)]
    simp only [R.ok_bind, List.getD_cons_zero]
    rw [pyGet_of_lt _ _ 0 (by simp)]
    simp only [R.ok_bind, List.getD_cons_zero, List.getD_cons_succ, List.drop_succ_cons, List.drop_zero]
    exact e
  · rw [hs]; exact ⟨hq, hj, hi⟩
  · rw [hs]; simp only [ravel_cons, List.prod_cons]; ring

theorem getItem_slice (t : Tensor ℝ) {n : ℕ} {s : List ℕ} (hs : t.shape = n :: s) {a b : Option ℤ} {c : ℤ} (hc : c ≠ 0) {ps : List ℕ}
    (hp : slicePositions n a b c = ps) :
    ∃ T, getItem t [.slice a b c] = Except.ok T ∧ T.shape = ps.length :: s ∧ ∀ q idx, Valid s idx → T.get (q :: idx) = t.get (ps.getD q 0 :: idx) := by
  refine ⟨⟨selShape (.many ps :: allSel s), fun idx => t.get (selIdx (.many ps :: allSel s) idx)⟩, ?_, ?_, ?_⟩
  · simp only [getItem, hs, resolveIx_cons, resolve1, if_neg hc, hp, resolveIx_nil]; rfl
  · simp [selShape, selShape_allSel]
  · intro q idx hi
    simp [selIdx, selIdx_allSel hi]

theorem slice_even (n : ℕ) : slicePositions n none none 2 = (List.range ((n + 1) / 2)).map fun k => 2 * k := by
  simp only [slicePositions, clipBound, if_pos (show (0 : ℤ) < 2 by norm_num)]
  rw [show (((n : ℤ) - 0 + 2 - 1) / 2).toNat = (n + 1) / 2 by omega]
  exact List.map_congr_left fun k _ => by omega

theorem slice_odd {n : ℕ} (hn : 0 < n) : slicePositions n (some 1) none 2 = (List.range (n / 2)).map fun k => 2 * k + 1 := by
  simp only [slicePositions, clipBound, if_pos (show (0 : ℤ) < 2 by norm_num), if_neg (show ¬ (1 : ℤ) < 0 by norm_num)]
  rw [show min (1 : ℤ) n = 1 by omega, show (((n : ℤ) - 1 + 2 - 1) / 2).toNat = n / 2 by omega]
  exact List.map_congr_left fun k _ => by omega

theorem evenOdd (t : Tensor ℝ) {n : ℕ} (hn : 0 < n) {s : List ℕ} (hs : t.shape = n :: s) :
    ∃ a b b', getItem t [.slice none none 2] = Except.ok a ∧ getItem t [.slice (some 1) none 2] = Except.ok b ∧
      padOdd a b = Except.ok b' ∧
      a.shape = ((n + 1) / 2) :: s ∧ b'.shape = ((n + 1) / 2) :: s ∧
      ∀ q < (n + 1) / 2, ∀ i, Valid s i → a.get (q :: i) = t.get ((2 * q) :: i) ∧
        b'.get (q :: i) = if 2 * q + 1 < n then t.get ((2 * q + 1) :: i) else 0 := by
  obtain ⟨a, ea, sa, va⟩ := getItem_slice t hs (by norm_num) (slice_even n)
  obtain ⟨b, eb, sb, vb⟩ := getItem_slice t hs (by norm_num) (slice_odd hn)
  simp only [List.length_map, List.length_range] at sa sb
  have hA : ∀ q < (n + 1) / 2, ∀ i, Valid s i → a.get (q :: i) = t.get ((2 * q) :: i) := fun q hq i hi => by
    rw [va q i hi, getD_range_map _ _ _ _ hq]
  have hB : ∀ q < n / 2, ∀ i, Valid s i → b.get (q :: i) = t.get ((2 * q + 1) :: i) := fun q hq i hi => by
    rw [vb q i hi, getD_range_map _ _ _ _ hq]
  by_cases h : n / 2 < (n + 1) / 2
  · obtain ⟨C, eC, sC, vC⟩ := concat_ok b (zeros (b.shape.set 0 1)) [] s (n / 2) 1 (by simpa using sb) (by simp [zeros, sb]) 0 rfl
    refine ⟨a, b, C, ea, eb, ?_, sa, ?_, fun q hq i hi => ⟨hA q hq i hi, ?_⟩⟩
    · simp only [padOdd, sa, sb, pyGet, List.getElem?_cons_zero, R.ok_bind, if_pos h]
      rw [sb] at eC
      exact eC
    · rw [sC, show n / 2 + 1 = (n + 1) / 2 by omega]; rfl
    · have := vC [] q i rfl
      simp only [List.nil_append] at this
      rw [this]
      by_cases hq' : q < n / 2
      · rw [if_pos hq', if_pos (by omega), hB q hq' i hi]
      · rw [if_neg hq', if_neg (by omega)]; rfl
  · refine ⟨a, b, b, ea, eb, ?_, sa, ?_, fun q hq i hi => ⟨hA q hq i hi, ?_⟩⟩
    · simp only [padOdd, sa, sb, pyGet, List.getElem?_cons_zero, R.ok_bind, if_neg h]; rfl
    · rw [sb, show n / 2 = (n + 1) / 2 by omega]
    · rw [if_pos (by omega), hB q (by omega) i hi]

theorem halves_ok (out : Option ℕ) {N : ℕ} (hN : 0 < N) (hout : out = some N ∨ out = none ∧ N = 1) (core : Tensor ℝ) {n : ℕ} (hn : 0 < n) {s : List ℕ}
    (hs : core.shape = (n * N) :: s) :
    ∃ a b, halves out core = Except.ok (a, b) ∧ a.shape = ((n + 1) / 2 * N) :: s ∧ b.shape = ((n + 1) / 2 * N) :: s ∧
      ∀ q < (n + 1) / 2, ∀ j < N, ∀ i, Valid s i → a.get ((q * N + j) :: i) = core.get ((2 * q * N + j) :: i) ∧
        b.get ((q * N + j) :: i) = if 2 * q + 1 < n then core.get (((2 * q + 1) * N + j) :: i) else 0 := by
  rcases hout with rfl | ⟨rfl, rfl⟩
  · obtain ⟨T, eT, sT, vT⟩ := splitFirst_some core hs hN
    obtain ⟨a, b, b', ea, eb, eb', sa, sb, v⟩ := evenOdd T hn sT
    obtain ⟨A, eA, sA, vA⟩ := mergeFirst_some a sa N
    obtain ⟨B, eB, sB, vB⟩ := mergeFirst_some b' sb N
    refine ⟨A, B, ?_, sA, sB, fun q hq j hj i hi => ?_⟩
    · rw [halves, eT, R.ok_bind, ea, R.ok_bind, eb, R.ok_bind]
      rw [eb', R.ok_bind, eA, R.ok_bind, eB]; rfl
    · obtain ⟨h1, h2⟩ := v q hq (j :: i) ⟨hj, hi⟩
      rw [vA q hq j hj i hi, vB q hq j hj i hi, h1, h2, vT _ (by omega) j hj i hi]
      refine ⟨rfl, ?_⟩
      by_cases h : 2 * q + 1 < n
      · rw [if_pos h, if_pos h, vT _ h j hj i hi]
      · rw [if_neg h, if_neg h]
  · rw [mul_one] at hs
    obtain ⟨a, b, b', ea, eb, eb', sa, sb, v⟩ := evenOdd core hn hs
    refine ⟨a, b', ?_, by rw [mul_one]; exact sa, by rw [mul_one]; exact sb, fun q hq j hj i hi => ?_⟩
    · rw [halves, splitFirst]
      simp only [R.pure_eq, R.ok_bind, ea, eb, eb', mergeFirst]
    · obtain rfl : j = 0 := by omega
      simp only [mul_one, add_zero]
      exact v q hq i hi

/-! ## One level -/

theorem sumLevel_ok (out : Option ℕ) {N : ℕ} (hN : 0 < N) (hout : out = some N ∨ out = none ∧ N = 1) {t : TT ℝ} (h : t.WF) (hd : 2 ≤ t.ndims)
    {n : ℕ} (hn : 0 < n) (hb : t.batch = some (n * N)) :
    ∃ cores s, mapRange t.ndims (fun idx => do
        let core ← pyGet t.cores idx
        let (a, b) ← halves out core
        addCore 1 (if t.isMatrix then 4 else 3) t.ndims idx (pure b.shape) (pure b.shape) a b) = Except.ok cores ∧
      mkBatch cores (.shapes t.rawShape) = Except.ok s ∧ s.WF ∧ s.rawShape = t.rawShape ∧ s.batch = some ((n + 1) / 2 * N) ∧ s.ndims = t.ndims ∧
      ∀ q < (n + 1) / 2, ∀ j < N, ∀ g, t.ValidModes g t.ndims →
        s.entry [q * N + j] g = t.entry [2 * q * N + j] g + if 2 * q + 1 < n then t.entry [(2 * q + 1) * N + j] g else 0 := by
  have hML : ∀ k, (t.modes k).length = t.rawShape.length := fun k => by simp [TT.modes]
  have hsh : ∀ k < t.ndims, (t.core k).shape = (n * N) :: t.rank k :: (t.modes k ++ [t.rank (k + 1)]) := fun k hk => by
    rw [h.core_shape k hk, TT.bpre, hb]; rfl
  have key : ∀ k, ∃ ab : Tensor ℝ × Tensor ℝ, k < t.ndims → halves out (t.core k) = Except.ok ab ∧
      ab.1.shape = ((n + 1) / 2 * N) :: t.rank k :: (t.modes k ++ [t.rank (k + 1)]) ∧
      ab.2.shape = ((n + 1) / 2 * N) :: t.rank k :: (t.modes k ++ [t.rank (k + 1)]) ∧
      ∀ q < (n + 1) / 2, ∀ j < N, ∀ i, Valid (t.rank k :: (t.modes k ++ [t.rank (k + 1)])) i →
        ab.1.get ((q * N + j) :: i) = (t.core k).get ((2 * q * N + j) :: i) ∧
        ab.2.get ((q * N + j) :: i) = if 2 * q + 1 < n then (t.core k).get (((2 * q + 1) * N + j) :: i) else 0 := by
    intro k
    by_cases hk : k < t.ndims
    · obtain ⟨a, b, e, sa, sb, v⟩ := halves_ok out hN hout (t.core k) hn (hsh k hk)
      exact ⟨(a, b), fun _ => ⟨e, sa, sb, v⟩⟩
    · exact ⟨(default, default), fun hh => absurd hh hk⟩
  choose ab hab using key
  set n' := (n + 1) / 2 * N with hn'
  have hn'0 : n' ≠ 0 := by
    have : 0 < (n + 1) / 2 := by omega
    exact (Nat.mul_pos this hN).ne'
  obtain ⟨cores, ec, lc, hch, hv⟩ := add_chain (some n') (by simpa using hn'0) t.ndims t.rawShape.length hd t.rank t.rank t.modes h.rows
    (fun k _ => hML k) (fun k => (ab k).1) (fun k => (ab k).2) (fun k => pure (ab k).2.shape) (fun k => pure (ab k).2.shape)
    (fun k hk => (hab k hk).2.1) (fun k hk => (hab k hk).2.2.1) h.rank_first h.rank_first h.rank_last h.rank_last h.rank_pos
    (fun k hk => by rw [(hab k hk).2.2.1]; rfl) (fun k hk => by rw [(hab k hk).2.2.1]; rfl) 1 (if t.isMatrix then 4 else 3) rfl (by
      by_cases hm : t.isMatrix
      · rw [if_pos hm, show t.rawShape.length = 2 from hm]; rfl
      · rw [if_neg hm, h.rows.resolve_right hm]; rfl)
  have hrows : t.rawShape = rowsOf t.modes cores.length t.rawShape.length := by rw [lc]; exact h.rows_eq
  refine ⟨cores, _, ?_, mkBatch_ok hch _ (Or.inr (hch.clean hrows)) _ (Or.inl rfl) _ (Or.inl rfl), hch.wf, hrows.symm, rfl, lc, ?_⟩
  · rw [← ec]
    refine mapRange_congr _ _ _ fun k hk => ?_
    rw [h.pyCore hk, R.ok_bind, (hab k hk).1, R.ok_bind]
  · intro q hq j hj g hg
    have hqn : q * N + j < n' := by
      rw [hn']
      exact lt_of_lt_of_le (b := (q + 1) * N) (by rw [Nat.add_mul, one_mul]; omega) (Nat.mul_le_mul_right _ hq)
    rw [hch.entry_eq, lc, TT.entry]
    refine (hv [q * N + j] g rfl (fun k hk => (hg k hk).length_eq.trans (hML k))).trans ?_
    congr 1
    · refine lprod_congr (k := t.ndims) (fun _ _ => rfl) (fun k hk x y hx hy => ?_) (by rw [h.rank_last]; omega)
      exact ((hab k hk).2.2.2 q hq j hj (x :: (g k ++ [y])) ⟨hx, valid_append (hg k hk) ⟨hy, trivial⟩⟩).1
    · by_cases h2 : 2 * q + 1 < n
      · rw [if_pos h2, TT.entry]
        refine lprod_congr (k := t.ndims) (fun _ _ => rfl) (fun k hk x y hx hy => ?_) (by rw [h.rank_last]; omega)
        have := ((hab k hk).2.2.2 q hq j hj (x :: (g k ++ [y])) ⟨hx, valid_append (hg k hk) ⟨hy, trivial⟩⟩).2
        rw [if_pos h2] at this
        exact this
      · rw [if_neg h2, lprod_pred _ _ _ (by omega)]
        refine Finset.sum_eq_zero fun x hx => ?_
        have := ((hab (t.ndims - 1) (by omega)).2.2.2 q hq j hj (x :: (g (t.ndims - 1) ++ [0])) ⟨Finset.mem_range.1 hx,
          valid_append (hg _ (by omega)) ⟨h.rank_pos _ (by omega), trivial⟩⟩).2
        rw [if_neg h2] at this
        exact mul_eq_zero_of_right _ this

/-- State of the summation tree at level `l`. `Q l q j` is what is known about node `q` of the `j`-th sum. -/
structure RInv (rows : List (List ℕ)) (b : ℕ → ℕ) (n N : ℕ) (Q : ℕ → ℕ → ℕ → (List ℕ → ℝ) → Prop) (l : ℕ) (t : TT ℝ) (c : ℕ) : Prop where
  lvl : Lvl n l c
  wf : t.WF
  shape : t.rawShape = rows
  batch : t.batch = some (c * N)
  rank : 0 < l → ∀ k, 0 < k → k < t.ndims → t.rank k ≤ b k
  two : 0 < l → 2 ^ (l - 1) < n
  entry : ∀ q < c, ∀ j < N, Q l q j fun i => t.entry [q * N + j] (restModes rows i)

/-- What is known passes from a level to the next. A lone node is added to zero and rounded. -/
def ReduceStep (rows : List (List ℕ)) (b : ℕ → ℕ) (d n N : ℕ) (Q : ℕ → ℕ → ℕ → (List ℕ → ℝ) → Prop) : Prop :=
  ∀ l q j, 2 ^ l < n → q * 2 ^ (l + 1) < n → j < N → ∀ A B S X, Q l (2 * q) j A →
    ((2 * q + 1) * 2 ^ l < n → Q l (2 * q + 1) j B) → (n ≤ (2 * q + 1) * 2 ^ l → B = 0) →
    (∀ i, Valid (restShape rows) i → S i = A i + B i) → RoundsTo rows b d S X → Q (l + 1) q j X

/-- All roundings are exact if the partial sums are within the bounds. -/
theorem ReduceStep.exact {rows : List (List ℕ)} {b : ℕ → ℕ} {d n N : ℕ} (hdr : ∀ row ∈ rows, row.length = d) (f : ℕ → ℕ → List ℕ → ℝ)
    (hE : ∀ l q, 2 ^ l < n → q * 2 ^ (l + 1) < n → ∀ j < N, RepEntry rows b (fun i => ∑ k ∈ block n (l + 1) q, f k j i)) :
    ReduceStep rows b d n N fun l q j A => ∀ i, Valid (restShape rows) i → A i = ∑ k ∈ block n l q, f k j i := by
  intro l q j h1 h2 hj A B S X hA hB hB0 hS hX i hi
  have hsum : ∀ i, Valid (restShape rows) i → S i = ∑ k ∈ block n (l + 1) q, f k j i := fun i hi => by
    rw [hS i hi, hA i hi, sum_block_succ]
    congr 1
    by_cases h : (2 * q + 1) * 2 ^ l < n
    · exact hB h i hi
    · rw [hB0 (by omega), block_empty (by omega)]; rfl
  rw [← hsum i hi]
  exact hX.exact (repEntry_mono hdr (fun _ _ _ => le_rfl) (fun i hi => (hsum i hi).symm) (hE l q h1 h2 j hj)) hi

section
variable {qr : QRRoutine} (hqr : qr.Correct) {svd : SVDRoutine} (hsvd : svd.Correct)
  {rows : List (List ℕ)} {m : MaxRank} {b : ℕ → ℕ} {n d N : ℕ} {Q : ℕ → ℕ → ℕ → (List ℕ → ℝ) → Prop} (hN : 0 < N) {out : Option ℕ}
  (hout : out = some N ∨ out = none ∧ N = 1)
  (hd : 2 ≤ d) (hdr : ∀ row ∈ rows, row.length = d) (hpos : ∀ row ∈ rows, ∀ x ∈ row, 0 < x) (hb : m.Bounds d b) (hbatch : m.Single)
  (hQ : ReduceStep rows b d n N Q)
include hqr hsvd hN hout hd hdr hpos hb hbatch hQ

theorem reduceLevel_ok {l c : ℕ} {t : TT ℝ} (h : RInv rows b n N Q l t c) (hc : 1 < c) :
    ∃ t', reduceLevel qr svd m out t = Except.ok t' ∧ RInv rows b n N Q (l + 1) t' ((c + 1) / 2) := by
  have hdt : t.ndims = d := ndims_of_len hdr h.wf h.shape
  obtain ⟨cores, s, e1, e2, ws, rs, bs, ns, vs⟩ := sumLevel_ok out hN hout h.wf (by omega) (by omega) h.batch
  have rs' : s.rawShape = rows := by rw [rs, h.shape]
  obtain ⟨x, ex, wx, rx, bx, kx, vx⟩ := round_item hqr hsvd ws (by rw [TT.ModesPos, rs']; exact hpos) (m := m) (b := b) (by rw [ns, hdt]; exact hb)
    (fun _ => hbatch) (eps := none) (by simp)
  have rx' : x.rawShape = rows := by rw [rx, rs']
  have hdx : x.ndims = d := ndims_of_len hdr wx rx'
  refine ⟨x, ?_, h.lvl.succ, wx, rx', by rw [bx, bs], fun _ k h0 hk => kx k h0 (by omega), fun _ => by simpa using (h.lvl 1).1 hc, fun q hq j hj => ?_⟩
  · rw [reduceLevel, e1, R.ok_bind, e2, R.ok_bind, ex]
  · have hv : Valid s.bpre [q * N + j] := by
      rw [TT.bpre, bs]
      exact ⟨lt_of_lt_of_le (b := (q + 1) * N) (by rw [Nat.add_mul, one_mul]; omega) (Nat.mul_le_mul_right _ hq), trivial⟩
    have hx := vx _ hv
    rw [rs', ns, hdt] at hx
    refine hQ l q j (by simpa using (h.lvl 1).1 hc) (by rw [← h.lvl.succ]; exact hq) hj _
      (fun i => if 2 * q + 1 < c then t.entry [(2 * q + 1) * N + j] (restModes rows i) else 0) _ _ (h.entry (2 * q) (by omega) j hj) (fun h2 => ?_) (fun h2 => ?_)
      (fun i hi => ?_) hx
    · have h2 := (h.lvl _).2 h2
      simp only [if_pos h2]
      exact h.entry _ h2 j hj
    · have h2 : ¬ 2 * q + 1 < c := fun hh => by have := (h.lvl _).1 hh; omega
      simp only [if_neg h2]; rfl
    · exact vs q hq j hj _ (by rw [← h.shape]; exact validModes_rest h.wf (by rw [h.shape]; exact hi))

theorem reduceLoop_ok (hn : 0 < n) : ∀ (fuel l c : ℕ) (t : TT ℝ), RInv rows b n N Q l t c → c ≤ fuel →
    ∃ l' t', reduceLoop qr svd m out fuel t = Except.ok t' ∧ RInv rows b n N Q l' t' 1 ∧ (1 < c → 0 < l') ∧ l ≤ l' := by
  intro fuel
  have hoN : out.getD 1 = N := by rcases hout with rfl | ⟨rfl, rfl⟩ <;> rfl
  induction fuel with
  | zero => intro l c t h hc; have := h.lvl.pos hn; omega
  | succ fuel ih =>
    intro l c t h hc
    have h0 := h.lvl.pos hn
    rw [reduceLoop, hoN, h.batch, Option.getD_some]
    by_cases h1 : 1 < c
    · obtain ⟨t', e, h'⟩ := reduceLevel_ok hqr hsvd hN hout hd hdr hpos hb hbatch hQ h h1
      obtain ⟨l', x, ex, hx, -, hl⟩ := ih (l + 1) _ t' h' (by omega)
      refine ⟨l', x, by rw [if_pos (by nlinarith), e, R.ok_bind, ex], hx, fun _ => by omega, by omega⟩
    · obtain rfl : c = 1 := by omega
      exact ⟨l, t, by rw [if_neg (by omega)]; rfl, h, fun hh => absurd hh h1, le_rfl⟩

end

/-! ## Coefficients -/

theorem tile_second (t : Tensor ℝ) {n N : ℕ} {s : List ℕ} (hs : t.shape = n :: 1 :: s) :
    ∃ T, tile t (1 :: N :: List.replicate s.length 1) = Except.ok T ∧ T.shape = n :: N :: s ∧
      ∀ q < n, ∀ j i, Valid s i → T.get (q :: j :: i) = t.get (q :: 0 :: i) := by
  have e1 : List.zipWith (· * ·) s (List.replicate s.length 1) = s := by
    clear hs
    induction s with
    | nil => rfl
    | cons a s ih => simp [List.replicate_succ, ih]
  refine ⟨_, if_pos (by simp [hs]), ?_, ?_⟩
  · simp only [hs, List.zipWith_cons_cons, one_mul, mul_one, e1]
  · intro q hq j i hi
    simp only [hs, List.zipWith_cons_cons, Nat.mod_one, Nat.mod_eq_of_lt hq]
    congr 3
    clear hs e1
    induction s generalizing i with
    | nil => rw [valid_nil_iff] at hi; subst hi; rfl
    | cons a s ih =>
      obtain ⟨j, i', rfl, hj, hi'⟩ := (valid_cons_iff _ _ _).1 hi
      rw [List.zipWith_cons_cons, ih i' hi', Nat.mod_eq_of_lt hj]

theorem bshape_ones (s u : List ℕ) : bshape (s ++ u) (List.replicate s.length 1 ++ u) = some (s ++ u) := by
  induction s with
  | nil => exact bshape_self _
  | cons x s ih =>
    simp only [List.cons_append, List.length_cons, List.replicate_succ, bshape, ih]
    split_ifs <;> simp_all

theorem repeatCore_ok (coef core : Tensor ℝ) {n N : ℕ} {s : List ℕ} (hs : core.shape = n :: s) (hc : coef.shape = [n, N]) (idx : ℕ) :
    ∃ T, repeatCore coef core N idx = Except.ok T ∧ T.shape = (n * N) :: s ∧
      ∀ q < n, ∀ j < N, ∀ i, Valid s i → T.get ((q * N + j) :: i) = (if idx = 0 then coef.get [q, j] else 1) * core.get (q :: i) := by
  obtain ⟨E, eE, sE, vE⟩ := reshape_spec core ((n :: 1 :: s).map some) (n :: 1 :: s) (resolveShape_some _ _ (by rw [hs]; simp))
  obtain ⟨T, eT, sT, vT⟩ := tile_second E (N := N) sE
  have hE : ∀ q < n, ∀ i, Valid s i → E.get (q :: 0 :: i) = core.get (q :: i) := fun q hq i hi => by
    refine vE _ _ (by rw [hs]; exact ⟨hq, hi⟩) ?_
    rw [hs]; simp [ravel_cons]
  have hW : ∃ W, (if idx = 0 then (do
      let shaped : Tensor ℝ := ⟨coef.shape ++ List.replicate (T.shape.length - coef.shape.length) 1, fun i => coef.get (i.take coef.shape.length)⟩
      binop (· * ·) T shaped) else pure T) = Except.ok W ∧ W.shape = n :: N :: s ∧
      ∀ q < n, ∀ j < N, ∀ i, Valid s i → W.get (q :: j :: i) = (if idx = 0 then coef.get [q, j] else 1) * core.get (q :: i) := by
    by_cases h0 : idx = 0
    · rw [if_pos h0]
      set shaped : Tensor ℝ := ⟨coef.shape ++ List.replicate (T.shape.length - coef.shape.length) 1, fun i => coef.get (i.take coef.shape.length)⟩ with hsh
      have hss : shaped.shape = n :: N :: List.replicate s.length 1 := by simp [hsh, hc, sT]
      obtain ⟨W, eW, sW, vW⟩ := binop_ok (· * ·) T shaped (n :: N :: s) (by
        rw [sT, hss]
        simp only [List.reverse_cons, List.append_assoc, List.reverse_replicate]
        rw [← List.length_reverse]
        exact bshape_ones _ _)
      refine ⟨W, eW, sW, fun q hq j hj i hi => ?_⟩
      rw [vW, sT, bproj_valid (s := n :: N :: s) (i := q :: j :: i) ⟨hq, hj, hi⟩, vT q hq j i hi, hE q hq i hi, if_pos h0, mul_comm]
      congr 1
      rw [hss]
      simp only [hsh, hc, bproj, List.length_cons, List.length_replicate, hi.length_eq, Nat.sub_self, List.drop_zero, List.zipWith_cons_cons,
        List.take_succ_cons, List.length_nil, List.take_zero]
      congr 3 <;> split_ifs <;> omega
    · rw [if_neg h0]
      exact ⟨T, rfl, sT, fun q hq j hj i hi => by rw [vT q hq j i hi, hE q hq i hi, if_neg h0, one_mul]⟩
  obtain ⟨W, eW, sW, vW⟩ := hW
  obtain ⟨Z, eZ, sZ, vZ⟩ := reshape_spec W (((n * N) :: s).map some) ((n * N) :: s) (resolveShape_some _ _ (by rw [sW]; simp [mul_assoc]))
  refine ⟨Z, ?_, sZ, fun q hq j hj i hi => ?_⟩
  · rw [repeatCore, hs, pyGet_of_lt _ _ 0 (by simp)]
    simp only [R.ok_bind, List.getD_cons_zero, List.tail_cons]
    rw [eE, R.ok_bind, eT, R.ok_bind]
    by_cases h0 : idx = 0
    · rw [if_pos h0] at eW ⊢
      simp only [] at eW ⊢
      rw [eW, R.ok_bind, eZ]
    · rw [if_neg h0] at eW ⊢
      rw [eW, R.ok_bind, eZ]
  · rw [vZ _ (q :: j :: i) (by rw [sW]; exact ⟨hq, hj, hi⟩) (by rw [sW]; simp only [ravel_cons, List.prod_cons]; ring), vW q hq j hj i hi]

theorem weightBatch_matrix {t : TT ℝ} (h : t.WF) {n N : ℕ} (hN : 0 < N) (hb : t.batch = some n) {coef : Tensor ℝ} (hc : coef.shape = [n, N]) :
    ∃ w, weightBatch t (some coef) = Except.ok (w, some N) ∧ w.WF ∧ w.rawShape = t.rawShape ∧ w.ttRanks = t.ttRanks ∧ w.batch = some (n * N) ∧
      ∀ q < n, ∀ j < N, ∀ g, t.ValidModes g t.ndims → w.entry [q * N + j] g = coef.get [q, j] * t.entry [q] g := by
  have hML : ∀ k, (t.modes k).length = t.rawShape.length := fun k => by simp [TT.modes]
  have hsh : ∀ k < t.ndims, (t.core k).shape = n :: t.rank k :: (t.modes k ++ [t.rank (k + 1)]) := fun k hk => by
    rw [h.core_shape k hk, TT.bpre, hb]; rfl
  have hn : n ≠ 0 := by rintro rfl; exact h.batch_pos hb
  obtain ⟨cores, ec, lc, hch, hv⟩ := Chain.build (fun idx => do
      let core ← pyGet t.cores idx
      repeatCore coef core N idx) t.ndims (some (n * N)) t.rank t.modes t.rawShape.length
    (fun k T => ∀ q < n, ∀ j < N, ∀ i, Valid (t.rank k :: (t.modes k ++ [t.rank (k + 1)])) i →
      T.get ((q * N + j) :: i) = (if k = 0 then coef.get [q, j] else 1) * (t.core k).get (q :: i))
    h.pos h.rank_first h.rank_last h.rank_pos h.rows (fun k _ => hML k) (by simp; omega) (by
      intro k hk
      obtain ⟨T, eT, sT, vT⟩ := repeatCore_ok coef (t.core k) (hsh k hk) hc k
      exact ⟨T, by rw [h.pyCore hk, R.ok_bind, eT], sT, vT⟩)
  have hrows : t.rawShape = rowsOf t.modes cores.length t.rawShape.length := by rw [lc]; exact h.rows_eq
  have hmk := mkBatch_ok hch (.shapes t.rawShape) (Or.inr (hch.clean hrows)) (some t.ttRanks) (Or.inr (by rw [lc, ← h.ranks_eq])) none (Or.inl rfl)
  refine ⟨_, ?_, hch.wf, hrows.symm, by rw [h.ranks_eq, ← lc]; rfl, rfl, ?_⟩
  · simp only [weightBatch, hc]
    rw [require_pos hb, R.ok_bind, ec, R.ok_bind, hmk]; rfl
  · intro q hq j hj g hg
    rw [hch.entry_eq, lc, TT.entry]
    have hsc := lprod_scale t.rank (fun k => if k = 0 then coef.get [q, j] else 1) (t.slice [q] g) t.ndims 0
    have hprod : (∏ i ∈ Finset.range t.ndims, if i = 0 then coef.get [q, j] else 1) = coef.get [q, j] := by
      rw [Finset.prod_ite_eq' (Finset.range t.ndims) 0]
      simp [h.pos]
    rw [hprod] at hsc
    rw [← hsc]
    refine lprod_congr (fun _ _ => rfl) (fun k hk a b ha hb' => ?_) (by rw [h.rank_last]; omega)
    exact hv k hk q hq j hj (a :: (g k ++ [b])) ⟨ha, valid_append (hg k hk) ⟨hb', trivial⟩⟩

/-- What the whole function does with a batch of summands with weights `c`. -/
theorem reduceSumBatch_gen {qr : QRRoutine} (hqr : qr.Correct) {svd : SVDRoutine} (hsvd : svd.Correct) {t : TT ℝ} (h : t.WF) (hd : 2 ≤ t.ndims)
    (hpos : t.ModesPos) {n : ℕ} (hb : t.batch = some n) {m : MaxRank} {b : ℕ → ℕ} (hm : m.Bounds t.ndims b) (hs : m.Single)
    {coef : Option (Tensor ℝ)} {w : TT ℝ} {out : Option ℕ} {N : ℕ} (hN : 0 < N) (hout : out = some N ∨ out = none ∧ N = 1)
    (ew : weightBatch t coef = Except.ok (w, out)) (ww : w.WF) (rw' : w.rawShape = t.rawShape) (bw : w.batch = some (n * N))
    {Q : ℕ → ℕ → ℕ → (List ℕ → ℝ) → Prop} (hQ : ReduceStep t.rawShape b t.ndims n N Q)
    (hQ0 : ∀ q < n, ∀ j < N, Q 0 q j fun i => w.entry [q * N + j] (restModes t.rawShape i))
    (hQv : ∀ l q j A B, (∀ i, Valid (restShape t.rawShape) i → A i = B i) → Q l q j A → Q l q j B) :
    ∃ x l, reduceSumBatch qr svd t m coef = Except.ok x ∧ x.WF ∧ x.rawShape = t.rawShape ∧ x.batch = out ∧ x.ndims = t.ndims ∧
      (1 < n → ∀ k, 0 < k → k < t.ndims → x.rank k ≤ b k) ∧ Lvl n l 1 ∧ (0 < l → 2 ^ (l - 1) < n) ∧
      ∀ j < N, Q l 0 j fun i => x.entry (out.toList.map fun _ => j) (restModes t.rawShape i) := by
  have hn : 0 < n := by
    rcases Nat.eq_zero_or_pos n with rfl | h0
    · exact absurd hb h.batch_pos
    · exact h0
  have hdr : ∀ row ∈ t.rawShape, row.length = t.ndims := h.rows_len
  have h0 : RInv t.rawShape b n N Q 0 w n := ⟨Lvl.zero n, ww, rw', bw, by simp, by simp, hQ0⟩
  obtain ⟨l, y, ey, hy, hl, -⟩ := reduceLoop_ok hqr hsvd hN hout hd hdr hpos hm hs hQ hn (n * N) 0 n w h0 (Nat.le_mul_of_pos_right _ hN)
  have hny : y.ndims = t.ndims := ndims_of_len hdr hy.wf hy.shape
  rcases hout with rfl | ⟨rfl, rfl⟩
  · refine ⟨y, l, ?_, hy.wf, hy.shape, by rw [hy.batch, one_mul], hny, fun h1 k hk0 hk => hy.rank (hl h1) k hk0 (by omega), hy.lvl, hy.two, fun j hj => ?_⟩
    · rw [reduceSumBatch, ew, R.ok_bind]
      simp only [bw, Option.getD_some]
      rw [ey]; rfl
    · have := hy.entry 0 (by omega) j hj
      rw [Nat.zero_mul, Nat.zero_add] at this
      exact this
  · obtain ⟨x, ex, wx, rx, kx, nx, px, bx, vx⟩ := batchDimGetItem_spec hy.wf 1 hy.batch (.int 0) (.one 0) rfl (by simp [selShape])
    refine ⟨x, l, ?_, wx, by rw [rx, hy.shape], bx.2 rfl, by rw [nx, hny], fun h1 k hk0 hk => ?_, hy.lvl, hy.two, fun j hj => ?_⟩
    · rw [reduceSumBatch, ew, R.ok_bind]
      simp only [bw, Option.getD_some]
      rw [ey, R.ok_bind]
      exact ex
    · rw [TT.rank, kx]; exact hy.rank (hl h1) k hk0 (by omega)
    · obtain rfl : j = 0 := by omega
      refine hQv _ _ _ _ _ (fun i hi => ?_) (hy.entry 0 (by omega) 0 hj)
      have hrx : x.rawShape = t.rawShape := by rw [rx, hy.shape]
      exact (vx [] _ (by rw [px]; simp [selShape]) (by rw [← hrx]; exact validModes_rest wx (by rw [hrx]; exact hi))).symm

/-- The result of the whole function, if the roundings are exact. -/
theorem reduceSumBatch_ok {qr : QRRoutine} (hqr : qr.Correct) {svd : SVDRoutine} (hsvd : svd.Correct) {t : TT ℝ} (h : t.WF) (hd : 2 ≤ t.ndims)
    (hpos : t.ModesPos) {n : ℕ} (hb : t.batch = some n) {m : MaxRank} {b : ℕ → ℕ} (hm : m.Bounds t.ndims b) (hs : m.Single)
    {coef : Option (Tensor ℝ)} {w : TT ℝ} {out : Option ℕ} {N : ℕ} {c : ℕ → ℕ → ℝ} (hN : 0 < N) (hout : out = some N ∨ out = none ∧ N = 1)
    (ew : weightBatch t coef = Except.ok (w, out)) (ww : w.WF) (rw' : w.rawShape = t.rawShape) (bw : w.batch = some (n * N))
    (vw : ∀ q < n, ∀ j < N, ∀ g, t.ValidModes g t.ndims → w.entry [q * N + j] g = c q j * t.entry [q] g) :
    ∃ x, reduceSumBatch qr svd t m coef = Except.ok x ∧ x.WF ∧ x.rawShape = t.rawShape ∧ x.batch = out ∧ x.ndims = t.ndims ∧
      (1 < n → ∀ k, 0 < k → k < t.ndims → x.rank k ≤ b k) ∧
      ((∀ l q, 2 ^ l < n → q * 2 ^ (l + 1) < n → ∀ j < N,
          RepEntry t.rawShape b (fun i => ∑ k ∈ block n (l + 1) q, c k j * t.entry [k] (restModes t.rawShape i))) →
        ∀ j < N, ∀ i, Valid (restShape t.rawShape) i → x.entry (out.toList.map fun _ => j) (restModes t.rawShape i) =
          ∑ k ∈ Finset.range n, c k j * t.entry [k] (restModes t.rawShape i)) := by
  obtain ⟨x, l, e, wx, rx, bx, nx, kx, hl, -, -⟩ := reduceSumBatch_gen hqr hsvd h hd hpos hb hm hs hN hout ew ww rw' bw (Q := fun _ _ _ _ => True)
    (fun _ _ _ _ _ _ _ _ _ _ _ _ _ _ _ => trivial) (fun _ _ _ _ => trivial) (fun _ _ _ _ _ _ _ => trivial)
  refine ⟨x, e, wx, rx, bx, nx, kx, fun hE j hj i hi => ?_⟩
  obtain ⟨x', l, e', -, -, -, -, -, hl, -, hv⟩ := reduceSumBatch_gen hqr hsvd h hd hpos hb hm hs hN hout ew ww rw' bw
    (ReduceStep.exact h.rows_len (fun k j i => c k j * t.entry [k] (restModes t.rawShape i)) hE) (fun q hq j hj i hi => by
      rw [block_zero hq, Finset.sum_singleton]; exact vw q hq j hj _ (validModes_rest h hi)) (fun l q j A B hAB hA i hi => by rw [← hAB i hi]; exact hA i hi)
  obtain rfl : x = x' := Except.ok.inj (e.symm.trans e')
  refine (hv j hj i hi).trans ?_
  rw [hl.all]

end T3f
