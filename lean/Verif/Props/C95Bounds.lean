import Verif.Proofs.IntExpr
import Verif.Props.C31Round
import Verif.Props.C33ToTT
import Verif.Props.C70Gaps

/-!
# C95: larger rank bounds and the error of rounding

Raising `max_tt_rank` does not always lower the error of `round`. For two cores it does. In general the squared error may grow, but not
above `d - 1` times the error with the smaller bounds.
-/

namespace T3f

/-- The tensor with the elements `9`, `12`, `12`, `16` at the positions `0000`, `0011`, `1100`, `1111`, and `21` at `0101`. -/
def exRise : TT ℤ where
  cores := [.ofList [1, 2, 2] [1, 0, 0, 1], .ofList [2, 2, 2] [3, 0, 0, 1, 0, 0, 4, 0], .ofList [2, 2, 2] [3, 0, 0, 4, 0, 21, 0, 0],
    .ofList [2, 2, 1] [1, 0, 0, 1]]
  rawShape := [[2, 2, 2, 2]]
  ttRanks := [1, 2, 2, 2, 1]
  batch := none

/-- The tensor of shape `(2, 2, 2, 2)` with these elements at `0000`, `0011`, `1100`, `1111`, `0101`, and zeros elsewhere. -/
def exSpots (a b c d e : ℝ) (i : List ℕ) : ℝ :=
  if i = [0, 0, 0, 0] then a else if i = [0, 0, 1, 1] then b else if i = [1, 1, 0, 0] then c else if i = [1, 1, 1, 1] then d
  else if i = [0, 1, 0, 1] then e else 0

theorem exRise_full : ∃ T, full exRise.toReal = Except.ok T ∧ T.shape = [2, 2, 2, 2] ∧ ∀ i, Valid [2, 2, 2, 2] i → T.get i = exSpots 9 12 12 16 21 i := by
  have hw : exRise.toReal.WF := TT.WF.toReal (by decide)
  obtain ⟨T, eT, sT, vT⟩ := full_ok hw
  refine ⟨T, eT, sT, fun i hi => ?_⟩
  match i, hi with
  | [a, b, c, d], hi =>
    have h := vT [] [a, b, c, d] trivial hi
    obtain ⟨ha, hb, hc, hd, -⟩ := hi
    refine h.trans ?_
    show exRise.toReal.entry [] (tIdx [a, b, c, d]) = _
    have h1 : exRise.toReal.entry [] (tIdx [a, b, c, d]) = ((exRise.entry [] (tIdx [a, b, c, d]) : ℤ) : ℝ) :=
      TT.entry_mapEntries (Int.castRingHom ℝ) exRise [] (tIdx [a, b, c, d])
    rw [h1]
    have h2 : exRise.entry [] (tIdx [a, b, c, d]) = if [a, b, c, d] = [0, 0, 0, 0] then 9 else if [a, b, c, d] = [0, 0, 1, 1] then 12 else
        if [a, b, c, d] = [1, 1, 0, 0] then 12 else if [a, b, c, d] = [1, 1, 1, 1] then 16 else if [a, b, c, d] = [0, 1, 0, 1] then 21 else 0 := by
      interval_cases a <;> interval_cases b <;> interval_cases c <;> interval_cases d <;> decide
    rw [h2, exSpots]
    push_cast
    rfl

/-- An orthonormal basis of the functions of two indices. -/
noncomputable def exBasis (l : ℕ) (x : List ℕ) : ℝ :=
  match l with
  | 0 => if x = [0, 0] then 3 / 5 else if x = [1, 1] then 4 / 5 else 0
  | 1 => if x = [0, 1] then 1 else 0
  | 2 => if x = [0, 0] then 4 / 5 else if x = [1, 1] then -3 / 5 else 0
  | _ => if x = [1, 0] then 1 else 0

/-- The same basis with the first two vectors exchanged. -/
noncomputable def exBasis' (l : ℕ) : List ℕ → ℝ := exBasis (if l = 0 then 1 else if l = 1 then 0 else l)

/-- The unit vectors in this order: the second, the first. -/
def exFlip (l : ℕ) (x : List ℕ) : ℝ := if x = [1 - l] then 1 else 0

theorem valid_one {n : ℕ} {i : List ℕ} (hi : Valid [n] i) : ∃ a < n, i = [a] := by
  match i, hi with
  | [a], h => exact ⟨a, h.1, rfl⟩

theorem valid_three {n m k : ℕ} {i : List ℕ} (hi : Valid [n, m, k] i) : ∃ a < n, ∃ b < m, ∃ c < k, i = [a, b, c] := by
  match i, hi with
  | [a, b, c], h => exact ⟨a, h.1, b, h.2.1, c, h.2.2.1, rfl⟩

theorem exFlip_orth : ∀ l < 2, ∀ l' < 2, dot [2] (exFlip l) (exFlip l') = if l = l' then 1 else 0 := by
  intro l hl l' hl'
  interval_cases l <;> interval_cases l' <;> norm_num [dot, unravel, exFlip, Finset.sum_range_succ]

theorem exBasis_orth : ∀ l < 4, ∀ l' < 4, dot [2, 2] (exBasis l) (exBasis l') = if l = l' then 1 else 0 := by
  intro l hl l' hl'
  interval_cases l <;> interval_cases l' <;> norm_num [dot, unravel, exBasis, Finset.sum_range_succ]

theorem exBasis'_orth : ∀ l < 4, ∀ l' < 4, dot [2, 2] (exBasis' l) (exBasis' l') = if l = l' then 1 else 0 := by
  intro l hl l' hl'
  unfold exBasis'
  rw [exBasis_orth _ (by split_ifs <;> omega) _ (by split_ifs <;> omega)]
  interval_cases l <;> interval_cases l' <;> norm_num

/-- Left singular vectors at the third cut. -/
noncomputable def exLeft3 (l : ℕ) (x : List ℕ) : ℝ :=
  if l = 0 then (if x = [0, 0, 1] then 12 / 29 else if x = [1, 1, 1] then 16 / 29 else if x = [0, 1, 0] then 21 / 29 else 0)
  else if x = [0, 0, 0] then 3 / 5 else if x = [1, 1, 0] then 4 / 5 else 0

/-- Singular values `a`, `b` and zeros. -/
def exSigma (a b : ℝ) (l : ℕ) : ℝ := if l = 0 then a else if l = 1 then b else 0

theorem exSigma_nonneg {a b : ℝ} (ha : 0 ≤ a) (hb : 0 ≤ b) (l : ℕ) : 0 ≤ exSigma a b l := by
  unfold exSigma; split_ifs <;> first | assumption | exact le_rfl

theorem exSigma_anti {a b : ℝ} (hb : 0 ≤ b) (h : b ≤ a) (l l' : ℕ) (hl : l ≤ l') : exSigma a b l' ≤ exSigma a b l := by
  unfold exSigma; split_ifs <;> first | omega | linarith

/-- The third cut of the tensor: the slices at the last index have the norms `29` and `15`. -/
theorem exRise_svd3 {X : List ℕ → ℝ} (hX : ∀ i, Valid [2, 2, 2, 2] i → X i = exSpots 9 12 12 16 21 i) :
    CutSVD [2, 2, 2, 2] 3 X 2 exLeft3 (exSigma 29 15) exFlip where
  count := rfl
  value i j hi hj := by
    obtain ⟨a, ha, b, hb, c, hc, rfl⟩ := valid_three hi
    obtain ⟨d, hd, rfl⟩ := valid_one hj
    have hv : Valid [2, 2, 2, 2] ([a, b, c] ++ [d]) := ⟨ha, hb, hc, hd, trivial⟩
    refine (hX _ hv).trans ?_
    interval_cases a <;> interval_cases b <;> interval_cases c <;> interval_cases d <;>
      norm_num [exSpots, exLeft3, exSigma, exFlip, Finset.sum_range_succ]
  left l hl l' hl' := by
    interval_cases l <;> interval_cases l' <;> norm_num [dot, unravel, exLeft3, Finset.sum_range_succ]
  right := exFlip_orth
  nonneg l _ := exSigma_nonneg (by norm_num) (by norm_num) l
  decreasing l l' h _ := exSigma_anti (by norm_num) (by norm_num) l l' h

/-- The second cut after the third was truncated. -/
theorem exSlice_svd2 : CutSVD [2, 2, 2, 2] 2 (exSpots 0 12 0 16 21) 4 exBasis' (exSigma 21 20)
    (fun l x => match l with
      | 0 => exBasis 1 x
      | 1 => if x = [1, 1] then 1 else 0
      | 2 => if x = [0, 0] then 1 else 0
      | _ => exBasis 3 x) where
  count := rfl
  value i j hi hj := by
    obtain ⟨a, b, rfl, ha, hb⟩ := (valid_pair _ _ _).1 hi
    obtain ⟨c, d, rfl, hc, hd⟩ := (valid_pair _ _ _).1 hj
    interval_cases a <;> interval_cases b <;> interval_cases c <;> interval_cases d <;>
      norm_num [exSpots, exBasis', exBasis, exSigma, Finset.sum_range_succ]
  left := exBasis'_orth
  right l hl l' hl' := by
    interval_cases l <;> interval_cases l' <;> norm_num [dot, unravel, exBasis, Finset.sum_range_succ]
  nonneg l _ := exSigma_nonneg (by norm_num) (by norm_num) l
  decreasing l l' h _ := exSigma_anti (by norm_num) (by norm_num) l l' h

/-- The first cut after that. -/
theorem exSpot_svd1 : CutSVD [2, 2, 2, 2] 1 (exSpots 0 0 0 0 21) 2 exUnit (exSigma 21 0)
    (fun l x => if l = 0 then (if x = [1, 0, 1] then 1 else 0) else if x = [0, 0, 0] then 1 else 0) where
  count := rfl
  value i j hi hj := by
    obtain ⟨a, ha, rfl⟩ := valid_one hi
    obtain ⟨b, hb, c, hc, d, hd, rfl⟩ := valid_three hj
    interval_cases a <;> interval_cases b <;> interval_cases c <;> interval_cases d <;>
      norm_num [exSpots, exUnit, exSigma, Finset.sum_range_succ]
  left l hl l' hl' := by
    interval_cases l <;> interval_cases l' <;> norm_num [dot, unravel, exUnit, Finset.sum_range_succ]
  right l hl l' hl' := by
    interval_cases l <;> interval_cases l' <;> norm_num [dot, unravel, Finset.sum_range_succ]
  nonneg l _ := exSigma_nonneg (by norm_num) (by norm_num) l
  decreasing l l' h _ := exSigma_anti (by norm_num) (by norm_num) l l' h

/-- The second cut of the whole tensor. -/
theorem exRise_svd2 : CutSVD [2, 2, 2, 2] 2 (exSpots 9 12 12 16 21) 4 exBasis (exSigma 25 21) exBasis where
  count := rfl
  value i j hi hj := by
    obtain ⟨a, b, rfl, ha, hb⟩ := (valid_pair _ _ _).1 hi
    obtain ⟨c, d, rfl, hc, hd⟩ := (valid_pair _ _ _).1 hj
    interval_cases a <;> interval_cases b <;> interval_cases c <;> interval_cases d <;>
      norm_num [exSpots, exBasis, exSigma, Finset.sum_range_succ]
  left := exBasis_orth
  right := exBasis_orth
  nonneg l _ := exSigma_nonneg (by norm_num) (by norm_num) l
  decreasing l l' h _ := exSigma_anti (by norm_num) (by norm_num) l l' h

/-- The first cut after that. -/
theorem exBlock_svd1 : CutSVD [2, 2, 2, 2] 1 (exSpots 9 12 12 16 0) 2 exFlip (exSigma 20 15)
    (fun l x => if x = [1 - l, 0, 0] then 3 / 5 else if x = [1 - l, 1, 1] then 4 / 5 else 0) where
  count := rfl
  value i j hi hj := by
    obtain ⟨a, ha, rfl⟩ := valid_one hi
    obtain ⟨b, hb, c, hc, d, hd, rfl⟩ := valid_three hj
    interval_cases a <;> interval_cases b <;> interval_cases c <;> interval_cases d <;>
      norm_num [exSpots, exFlip, exSigma, Finset.sum_range_succ]
  left := exFlip_orth
  right l hl l' hl' := by
    interval_cases l <;> interval_cases l' <;> norm_num [dot, unravel, Finset.sum_range_succ]
  nonneg l _ := exSigma_nonneg (by norm_num) (by norm_num) l
  decreasing l l' h _ := exSigma_anti (by norm_num) (by norm_num) l l' h

/-- Bounds `1` everywhere: only the element `21` is kept. -/
theorem exRise_low {X : List ℕ → ℝ} (hX : ∀ i, Valid [2, 2, 2, 2] i → X i = exSpots 9 12 12 16 21 i) :
    Gaps [2, 2, 2, 2] (fun _ => 1) [3, 2, 1] X (exSpots 0 0 0 0 21) := by
  refine .cut (by omega) (by simp) (exRise_svd3 hX) (fun _ => by norm_num [exSigma]) (Z := exSpots 0 12 0 16 21) ?_
    (.cut (by omega) (by simp) exSlice_svd2 (fun _ => by norm_num [exSigma]) (Z := exSpots 0 0 0 0 21) ?_
      (.cut (by omega) (by simp) exSpot_svd1 (fun _ => by norm_num [exSigma]) ?_ (.done fun _ _ => rfl)))
  · intro i j hi hj
    obtain ⟨a, ha, b, hb, c, hc, rfl⟩ := valid_three hi
    obtain ⟨d, hd, rfl⟩ := valid_one hj
    interval_cases a <;> interval_cases b <;> interval_cases c <;> interval_cases d <;>
      norm_num [exSpots, exLeft3, exSigma, exFlip]
  · intro i j hi hj
    obtain ⟨a, b, rfl, ha, hb⟩ := (valid_pair _ _ _).1 hi
    obtain ⟨c, d, rfl, hc, hd⟩ := (valid_pair _ _ _).1 hj
    interval_cases a <;> interval_cases b <;> interval_cases c <;> interval_cases d <;>
      norm_num [exSpots, exBasis', exBasis, exSigma]
  · intro i j hi hj
    obtain ⟨a, ha, rfl⟩ := valid_one hi
    obtain ⟨b, hb, c, hc, d, hd, rfl⟩ := valid_three hj
    interval_cases a <;> interval_cases b <;> interval_cases c <;> interval_cases d <;>
      norm_num [exSpots, exUnit, exSigma]

/-- Bound `2` at the third cut: `12` and `16` are kept instead. -/
theorem exRise_high {b : ℕ → ℕ} (h1 : b 1 = 1) (h2 : b 2 = 1) (h3 : b 3 = 2) {X : List ℕ → ℝ}
    (hX : ∀ i, Valid [2, 2, 2, 2] i → X i = exSpots 9 12 12 16 21 i) :
    Gaps [2, 2, 2, 2] b [3, 2, 1] X (exSpots 0 0 12 16 0) := by
  refine .cut (by omega) (by simp) (exRise_svd3 hX) (fun h => by omega) (Z := exSpots 9 12 12 16 21) ?_
    (.cut (by omega) (by simp) exRise_svd2 (fun _ => by norm_num [exSigma, h2]) (Z := exSpots 9 12 12 16 0) ?_
      (.cut (by omega) (by simp) exBlock_svd1 (fun _ => by norm_num [exSigma, h1]) ?_ (.done fun _ _ => rfl)))
  · intro i j hi hj
    obtain ⟨a, ha, b, hb, c, hc, rfl⟩ := valid_three hi
    obtain ⟨d, hd, rfl⟩ := valid_one hj
    interval_cases a <;> interval_cases b <;> interval_cases c <;> interval_cases d <;>
      norm_num [exSpots, exLeft3, exSigma, exFlip, h3, Finset.sum_range_succ]
  · intro i j hi hj
    obtain ⟨a, b, rfl, ha, hb⟩ := (valid_pair _ _ _).1 hi
    obtain ⟨c, d, rfl, hc, hd⟩ := (valid_pair _ _ _).1 hj
    interval_cases a <;> interval_cases b <;> interval_cases c <;> interval_cases d <;>
      norm_num [exSpots, exBasis, exSigma, h2]
  · intro i j hi hj
    obtain ⟨a, ha, rfl⟩ := valid_one hi
    obtain ⟨b, hb, c, hc, d, hd, rfl⟩ := valid_three hj
    interval_cases a <;> interval_cases b <;> interval_cases c <;> interval_cases d <;>
      norm_num [exSpots, exFlip, exSigma, h1]

/-- Squared distance and norm from the elements. -/
theorem exSpots_dist {T X : Tensor ℝ} {a b c d e a' b' c' d' e' : ℝ} (hT : ∀ i, Valid [2, 2, 2, 2] i → T.get i = exSpots a b c d e i)
    (hX : ∀ i, Valid [2, 2, 2, 2] i → X.get i = exSpots a' b' c' d' e' i) :
    T.distSq X [] [2, 2, 2, 2] = (a - a') ^ 2 + (b - b') ^ 2 + (c - c') ^ 2 + (d - d') ^ 2 + (e - e') ^ 2 := by
  have h : T.distSq X [] [2, 2, 2, 2] = ∑ n ∈ Finset.range 16,
      (exSpots a b c d e (unravel [2, 2, 2, 2] n) - exSpots a' b' c' d' e' (unravel [2, 2, 2, 2] n)) ^ 2 := by
    refine Finset.sum_congr rfl fun n hn => ?_
    have hv : Valid [2, 2, 2, 2] (unravel [2, 2, 2, 2] n) := unravel_valid (Finset.mem_range.1 hn)
    rw [List.nil_append, hT _ hv, hX _ hv]
  rw [h]
  simp [Finset.sum_range_succ, unravel, exSpots]
  ring

theorem exRise_bounds : (MaxRank.list [1, 1, 1, 1, 1]).Bounds exRise.toReal.ndims (fun _ => 1) ∧ (MaxRank.num 1).Bounds exRise.toReal.ndims (fun _ => 1) ∧
    (MaxRank.list [1, 1, 1, 2, 1]).Bounds exRise.toReal.ndims (fun k => [1, 1, 1, 2, 1].getD k 0) := by
  refine ⟨Or.inr ⟨[1, 1, 1, 1, 1], rfl, rfl, by simp, fun k hk => ?_⟩, Or.inl ⟨1, by omega, Or.inl rfl, fun _ => rfl⟩,
    Or.inr ⟨[1, 1, 1, 2, 1], rfl, rfl, by simp, fun k hk => rfl⟩⟩
  have hk : k ≤ 4 := hk
  interval_cases k <;> rfl

/-- **C95 (finding).** Raising a bound can make the result of `round` worse: for this tensor of shape `(2, 2, 2, 2)` the squared error is `625` with
`max_tt_rank=[1, 1, 1, 1, 1]` and with `max_tt_rank=1`, and `666` with `max_tt_rank=[1, 1, 1, 2, 1]`, whatever routines compute the decompositions. -/
theorem C95_not_monotone {qr : QRRoutine} (hqr : qr.Correct) {svd : SVDRoutine} (hsvd : svd.Correct) :
    exRise.toReal.WF ∧ ∃ T x x' x'' X X' X'', full exRise.toReal = Except.ok T ∧ T.shape = [2, 2, 2, 2] ∧
      ttRound qr svd exRise.toReal (.list [1, 1, 1, 1, 1]) Option.none = Except.ok x ∧ full x = Except.ok X ∧ T.distSq X [] [2, 2, 2, 2] = 625 ∧
      ttRound qr svd exRise.toReal (.num 1) Option.none = Except.ok x' ∧ full x' = Except.ok X' ∧ T.distSq X' [] [2, 2, 2, 2] = 625 ∧
      ttRound qr svd exRise.toReal (.list [1, 1, 1, 2, 1]) Option.none = Except.ok x'' ∧ full x'' = Except.ok X'' ∧
        T.distSq X'' [] [2, 2, 2, 2] = 666 := by
  have hw : exRise.toReal.WF := TT.WF.toReal (by decide)
  have hm : exRise.toReal.ModesPos := by simp [TT.ModesPos, TT.toReal, exRise]
  have hnb : ¬ exRise.toReal.isBatch := by simp [TT.isBatch, TT.toReal, exRise]
  obtain ⟨T, eT, sT, vT⟩ := exRise_full
  have key : ∀ (m : MaxRank) (b : ℕ → ℕ) (Y : List ℕ → ℝ), m.Bounds exRise.toReal.ndims b → Gaps [2, 2, 2, 2] b [3, 2, 1] T.get Y →
      ∃ x X, ttRound qr svd exRise.toReal m Option.none = Except.ok x ∧ full x = Except.ok X ∧ ∀ i, Valid [2, 2, 2, 2] i → X.get i = Y i := by
    intro m b Y hb hg
    obtain ⟨x, X, e, eX, -, -, hx⟩ := C70_round_gaps hqr hsvd hw hm (s := [2, 2, 2, 2]) rfl hb (fun h => absurd h hnb) (eps := Option.none) (by simp) eT
      (Y := fun _ => Y) (fun p hp => by
        have hp : Valid [] p := hp
        match p, hp with
        | [], _ => exact hg)
    exact ⟨x, X, e, eX, fun i hi => hx [] i trivial hi⟩
  obtain ⟨x, X, e, eX, hX⟩ := key _ _ _ exRise_bounds.1 (exRise_low vT)
  obtain ⟨x', X', e', eX', hX'⟩ := key _ _ _ exRise_bounds.2.1 (exRise_low vT)
  obtain ⟨x'', X'', e'', eX'', hX''⟩ := key _ _ _ exRise_bounds.2.2 (exRise_high rfl rfl rfl vT)
  refine ⟨hw, T, x, x', x'', X, X', X'', eT, sT, e, eX, ?_, e', eX', ?_, e'', eX'', ?_⟩
  · rw [exSpots_dist vT hX]; norm_num
  · rw [exSpots_dist vT hX']; norm_num
  · rw [exSpots_dist vT hX'']; norm_num

example : (∃ qr : QRRoutine, qr.Correct) ∧ (∃ svd : SVDRoutine, svd.Correct) := ⟨qrRoutine_exists, svdRoutine_exists⟩

/-- **C95.** The squared error with larger bounds is at most `d - 1` times the one with smaller bounds, in every batch item; the routines may differ. -/
theorem C95_limit {qr qr' : QRRoutine} (hqr : qr.Correct) (hqr' : qr'.Correct) {svd svd' : SVDRoutine} (hsvd : svd.Correct) (hsvd' : svd'.Correct)
    {t : TT ℝ} (h : t.WF) (hm : t.ModesPos) {m m' : MaxRank} {b b' : ℕ → ℕ} (hb : m.Bounds t.ndims b) (hb' : m'.Bounds t.ndims b')
    (hle : ∀ k, 0 < k → k < t.ndims → b k ≤ b' k) (hbatch : t.isBatch → m.Single) (hbatch' : t.isBatch → m'.Single)
    {eps eps' : Option ℝ} (he : ∀ e ∈ eps, 0 ≤ e) (he' : ∀ e ∈ eps', 0 ≤ e) :
    ∃ x x' T X X' s, ttRound qr svd t m eps = Except.ok x ∧ ttRound qr' svd' t m' eps' = Except.ok x' ∧ full t = Except.ok T ∧
      full x = Except.ok X ∧ full x' = Except.ok X' ∧ T.shape = t.bpre ++ s ∧ X.shape = t.bpre ++ s ∧ X'.shape = t.bpre ++ s ∧
      ∀ p, Valid t.bpre p → T.distSq X' p s ≤ (t.ndims - 1 : ℕ) * T.distSq X p s := by
  obtain ⟨x, e, w, rs, bt, hr, -⟩ := C31_ranks hqr hsvd h hm hb hbatch he
  obtain ⟨x', T, X', X, s, e', eT, eX', eX, sT, sX', sX, hx⟩ :=
    C32_quasi_optimal hqr' hsvd' h hm hb' hbatch' he' w rs bt fun k h0 hk => (hr k h0 hk).trans (hle k h0 hk)
  exact ⟨x, x', T, X, X', s, e, e', eT, eX, eX', sT, sX, sX', hx⟩

/-- **C95.** With two cores larger bounds never make the error larger. -/
theorem C95_two_cores {qr qr' : QRRoutine} (hqr : qr.Correct) (hqr' : qr'.Correct) {svd svd' : SVDRoutine} (hsvd : svd.Correct) (hsvd' : svd'.Correct)
    {t : TT ℝ} (h : t.WF) (hm : t.ModesPos) (hd : t.ndims = 2) {m m' : MaxRank} {b b' : ℕ → ℕ} (hb : m.Bounds t.ndims b) (hb' : m'.Bounds t.ndims b')
    (hle : b 1 ≤ b' 1) (hbatch : t.isBatch → m.Single) (hbatch' : t.isBatch → m'.Single)
    {eps eps' : Option ℝ} (he : ∀ e ∈ eps, 0 ≤ e) (he' : ∀ e ∈ eps', 0 ≤ e) :
    ∃ x x' T X X' s, ttRound qr svd t m eps = Except.ok x ∧ ttRound qr' svd' t m' eps' = Except.ok x' ∧ full t = Except.ok T ∧
      full x = Except.ok X ∧ full x' = Except.ok X' ∧ T.shape = t.bpre ++ s ∧ X.shape = t.bpre ++ s ∧ X'.shape = t.bpre ++ s ∧
      ∀ p, Valid t.bpre p → T.distSq X' p s ≤ T.distSq X p s := by
  obtain ⟨x, x', T, X, X', s, e, e', eT, eX, eX', sT, sX, sX', hx⟩ := C95_limit hqr hqr' hsvd hsvd' h hm hb hb' (fun k h0 hk => by
    obtain rfl : k = 1 := by omega
    exact hle) hbatch hbatch' he he'
  refine ⟨x, x', T, X, X', s, e, e', eT, eX, eX', sT, sX, sX', fun p hp => ?_⟩
  have := hx p hp
  rwa [hd, Nat.cast_one, one_mul] at this

example : exTensor.toReal.WF ∧ exTensor.toReal.ModesPos ∧ exTensor.toReal.ndims = 2 ∧ (MaxRank.num 1).Bounds exTensor.toReal.ndims (fun _ => 1) ∧
    (MaxRank.num 2).Bounds exTensor.toReal.ndims (fun _ => 2) ∧ (fun _ => 1 : ℕ → ℕ) 1 ≤ (fun _ => 2 : ℕ → ℕ) 1 :=
  ⟨TT.WF.toReal (by decide), by simp [TT.ModesPos, TT.toReal, exTensor], rfl, Or.inl ⟨1, by omega, Or.inl rfl, fun _ => rfl⟩,
    Or.inl ⟨2, by omega, Or.inl rfl, fun _ => rfl⟩, by simp⟩

/-- **C95.** The same limit for `to_tt_tensor`, and for two axes larger bounds never make the error larger. -/
theorem C95_tensor_limit {svd svd' : SVDRoutine} (hsvd : svd.Correct) (hsvd' : svd'.Correct) {X : Tensor ℝ} (hd : 2 ≤ X.shape.length)
    (hs : ∀ n ∈ X.shape, 0 < n) {m m' : MaxRank} {b b' : ℕ → ℕ} (hb : m.Bounds X.shape.length b) (hb' : m'.Bounds X.shape.length b')
    (hle : ∀ k, 0 < k → k < X.shape.length → b k ≤ b' k) {eps eps' : Option ℝ} (he : ∀ e ∈ eps, 0 ≤ e) (he' : ∀ e ∈ eps', 0 ≤ e) :
    ∃ x x' Y Y', toTTTensor svd X m eps = Except.ok x ∧ toTTTensor svd' X m' eps' = Except.ok x' ∧ full x = Except.ok Y ∧ full x' = Except.ok Y' ∧
      Y.shape = X.shape ∧ Y'.shape = X.shape ∧ X.distSq Y' [] X.shape ≤ (X.shape.length - 1 : ℕ) * X.distSq Y [] X.shape ∧
      (X.shape.length = 2 → X.distSq Y' [] X.shape ≤ X.distSq Y [] X.shape) := by
  obtain ⟨x, e, w, rs, bt, hr⟩ := C33_tensor_ranks hsvd hd hs hb he
  obtain ⟨x', Y', Y, e', eY', eY, sY', sY, hx⟩ :=
    C33_tensor_quasi_optimal hsvd' hd hs hb' he' w rs bt fun k h0 hk => (hr k h0 hk).trans (hle k h0 hk)
  refine ⟨x, x', Y, Y', e, e', eY, eY', sY, sY', hx, fun h2 => ?_⟩
  have h3 : X.shape.length - 1 = 1 := by omega
  rwa [h3, Nat.cast_one, one_mul] at hx

example : 2 ≤ exDense.shape.length ∧ (∀ n ∈ exDense.shape, 0 < n) ∧ (MaxRank.num 1).Bounds exDense.shape.length (fun _ => 1) ∧
    (MaxRank.num 2).Bounds exDense.shape.length (fun _ => 2) :=
  ⟨by simp [exDense], by simp [exDense], Or.inl ⟨1, by omega, Or.inl rfl, fun _ => rfl⟩, Or.inl ⟨2, by omega, Or.inl rfl, fun _ => rfl⟩⟩

/-- **C95.** Rounding the result again with bounds that are not smaller changes nothing, in particular `round` with the same bounds is idempotent;
the routines may differ. -/
theorem C95_again {qr qr' : QRRoutine} (hqr : qr.Correct) (hqr' : qr'.Correct) {svd svd' : SVDRoutine} (hsvd : svd.Correct) (hsvd' : svd'.Correct)
    {t : TT ℝ} (h : t.WF) (hm : t.ModesPos) {m m' : MaxRank} {b b' : ℕ → ℕ} (hb : m.Bounds t.ndims b) (hb' : m'.Bounds t.ndims b')
    (hle : ∀ k, 0 < k → k < t.ndims → b k ≤ b' k) (hbatch : t.isBatch → m.Single) (hbatch' : t.isBatch → m'.Single)
    {eps eps' : Option ℝ} (he : ∀ e ∈ eps, 0 ≤ e) (he' : ∀ e ∈ eps', 0 ≤ e) :
    ∃ x y X Y, ttRound qr svd t m eps = Except.ok x ∧ ttRound qr' svd' x m' eps' = Except.ok y ∧ full x = Except.ok X ∧ full y = Except.ok Y ∧
      Y ≃ₜ X ∧ (∀ k, 0 < k → k < t.ndims → y.rank k ≤ b k) := by
  obtain ⟨x, e, w, rs, bt, hr, -⟩ := C31_ranks hqr hsvd h hm hb hbatch he
  obtain ⟨X, eX, -⟩ := full_ok w
  have hn : x.ndims = t.ndims := ndims_eq_of_rawShape w h rs
  have hmx : x.ModesPos := by unfold TT.ModesPos; rw [rs]; exact hm
  have hbx : x.isBatch → m'.Single := by unfold TT.isBatch; rw [bt]; exact hbatch'
  have hb'x : m'.Bounds x.ndims b' := by rw [hn]; exact hb'
  obtain ⟨y, Y, ey, eY, hY⟩ := C31_exact hqr' hsvd' w hmx hb'x hbx he' w rfl rfl
    (fun k h0 hk => (hr k h0 (by omega)).trans (hle k h0 (by omega))) eX eX ⟨rfl, fun _ _ => rfl⟩
  obtain ⟨y', ey', -, -, -, -, hr'⟩ := C31_ranks hqr' hsvd' w hmx hb'x hbx he'
  obtain rfl : y' = y := Except.ok.inj (ey'.symm.trans ey)
  exact ⟨x, y', X, Y, e, ey, eX, eY, hY, fun k h0 hk => (hr' k (by omega)).trans (hr k h0 hk)⟩

example : exRise.toReal.WF ∧ exRise.toReal.ModesPos ∧ (MaxRank.num 1).Bounds exRise.toReal.ndims (fun _ => 1) ∧
    (MaxRank.list [1, 1, 1, 2, 1]).Bounds exRise.toReal.ndims (fun k => [1, 1, 1, 2, 1].getD k 0) ∧
    ∀ k, 0 < k → k < exRise.toReal.ndims → (fun _ => 1 : ℕ → ℕ) k ≤ [1, 1, 1, 2, 1].getD k 0 :=
  ⟨TT.WF.toReal (by decide), by simp [TT.ModesPos, TT.toReal, exRise], exRise_bounds.2.1, exRise_bounds.2.2, fun k h0 hk => by
    have hk : k < 4 := hk
    interval_cases k <;> simp⟩

end T3f
