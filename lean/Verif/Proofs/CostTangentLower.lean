import Verif.Proofs.CostProject

/-!
# Lower bounds for the count of projections
-/

namespace T3f

open Counted

namespace Counted

variable {α β : Type}

/-- If the computation succeeds, its count is at least `w`. -/
def AtLeast (x : Counted α) (w : ℕ) : Prop := ∀ a c, x.run = Except.ok (a, c) → w ≤ c

theorem bind_inv {x : Counted α} {f : α → Counted β} {b : β} {c : ℕ} (h : (x >>= f).run = Except.ok (b, c)) :
    ∃ a c1 c2, x.run = Except.ok (a, c1) ∧ (f a).run = Except.ok (b, c2) ∧ c = c1 + c2 := by
  rw [run_bind] at h
  rcases hx : x.run with er | ⟨a, c1⟩
  · rw [hx] at h; exact absurd h (by simp)
  · rw [hx, R.ok_bind] at h
    rcases hfa : (f a).run with er | ⟨b', c2⟩
    · rw [hfa] at h; exact absurd h (by simp)
    · rw [hfa, R.ok_bind] at h
      obtain ⟨rfl, rfl⟩ : b' = b ∧ c1 + c2 = c := by simpa using h
      exact ⟨a, c1, c2, rfl, hfa, rfl⟩

theorem AtLeast.left {x : Counted α} {w : ℕ} (h : x.AtLeast w) (f : α → Counted β) : (x >>= f).AtLeast w := by
  intro b c e
  obtain ⟨a, c1, c2, e1, -, rfl⟩ := bind_inv e
  have := h a c1 e1
  omega

theorem AtLeast.right {x : Counted α} {f : α → Counted β} {P : α → Prop} {v w : ℕ} (hx : x.Bound P v) (h : ∀ a, P a → (f a).AtLeast w) :
    (x >>= f).AtLeast w := by
  intro b c e
  obtain ⟨a, c1, c2, e1, e2, rfl⟩ := bind_inv e
  have := h a (hx a c1 e1).1 b c2 e2
  omega

theorem AtLeast.free {x : R α} {f : α → Counted β} {w : ℕ} (h : ∀ a, x = Except.ok a → (f a).AtLeast w) : (Counted.free x >>= f).AtLeast w :=
  AtLeast.right (Bound.free fun _ h => h) h

theorem AtLeast.charge {x : R α} {n w : ℕ} (h : w ≤ n) : (charge n x).AtLeast w := by
  intro a c e
  rcases x with er | a'
  · exact absurd e (by simp [Counted.charge, Except.map])
  · obtain ⟨-, rfl⟩ : a' = a ∧ n = c := by simpa [Counted.charge, Except.map] using e
    exact h

theorem AtLeast.mapM {f : ℕ → Counted α} {w k : ℕ} (h : (f k).AtLeast w) : ∀ l : List ℕ, k ∈ l → (l.mapM f).AtLeast w
  | [], hk => absurd hk (by simp)
  | j :: l, hk => by
    have := lawful
    rw [List.mapM_cons]
    rcases List.mem_cons.1 hk with rfl | hk
    · exact h.left _
    · intro b c e
      obtain ⟨a, c1, c2, -, e2, rfl⟩ := bind_inv e
      have := (AtLeast.mapM h l hk).left (fun t => Pure.pure (a :: t)) b c2 e2
      omega

theorem AtLeast.mapRange {f : ℕ → Counted α} {w k n : ℕ} (hk : k < n) (h : (f k).AtLeast w) : (mapRangeC n f).AtLeast w :=
  AtLeast.mapM h _ (List.mem_range.2 hk)

theorem AtLeast.forRange (P : ℕ → α → Prop) (f : ℕ → α → Counted α) {w k : ℕ} : ∀ (a n : ℕ) (s : α), P a s →
    (∀ j s, a ≤ j → j < a + n → P j s → ∃ v, (f j s).Bound (P (j + 1)) v) → a ≤ k → k < a + n → (∀ s, P k s → (f k s).AtLeast w) →
    (forRangeC f a n s).AtLeast w
  | a, 0, s, _, _, h1, h2, _ => absurd h2 (by omega)
  | a, n + 1, s, h, hf, h1, h2, hk => by
    by_cases hak : a = k
    · subst hak
      exact (hk s h).left _
    · obtain ⟨v, hv⟩ := hf a s le_rfl (by omega) h
      exact AtLeast.right hv fun s' hs' => AtLeast.forRange P f (a + 1) n s' hs' (fun j s hj hj' => hf j s (by omega) (by omega)) (by omega)
        (by omega) hk

/-- From a lower bound and the result without the count to the result with the count. -/
theorem AtLeast.result {x : Counted α} {w : ℕ} (h : x.AtLeast w) {y : R α} (hv : x.value = y) {a : α} (hy : y = Except.ok a) :
    ∃ c, x.run = Except.ok (a, c) ∧ w ≤ c := by
  rcases hx : x.run with er | ⟨b, c⟩
  · rw [value, hx, hy] at hv; exact absurd hv (by simp [Except.map])
  · rw [value, hx, hy] at hv
    obtain rfl : b = a := by simpa [Except.map] using hv
    exact ⟨c, rfl, h b c hx⟩

end Counted

section
variable {x left right w : TT ℝ} {n : ℕ}

theorem PSetup.lhsC_ge (P : PSetup x left right w n) {S : Strategy} {k c : ℕ} (hk : k + 1 < x.ndims)
    (hc : ∀ Q : Tensor ℝ, Q.shape = [n, left.rank k, w.rank k] →
      c ≤ einsumCost S ([chars! "sab", 'a' :: (modeLabels x ++ ['c']), chars! "sb" ++ (modeLabels x ++ ['d'])], chars! "scd") [Q, left.core k, w.core k]) :
    (projectLhsC S (modeLabels x) w left x.ndims n).AtLeast c := by
  have F := P.F
  refine AtLeast.forRange (fun j (lhs : List (Tensor ℝ)) => lhs.length = x.ndims + 1 ∧ ∀ k ≤ j,
      (lhs.getD k default).shape = [n, left.rank k, w.rank k]) (lhsStepC S (modeLabels x) w left) (k := k) 0 (x.ndims - 1)
    ((List.replicate (x.ndims + 1) default).set 0 (ones [n, 1, 1])) ?_ ?_ (Nat.zero_le _) (by omega) ?_
  · refine ⟨by simp, fun k h1 => ?_⟩
    obtain rfl : k = 0 := by omega
    rw [List.getD_eq_getElem _ _ (by simp)]
    simp only [List.getElem_set_self, F.l0, P.ww.rank_first]
    rfl
  · intro k lhs _ hj ⟨hl, hv⟩
    have hkd : k < x.ndims := by omega
    have hs := hv k le_rfl
    obtain ⟨E, eE, sE, -⟩ := lhsEin (P.ax k) hs (F.sl hkd) (P.sw hkd)
    unfold lhsStepC
    rw [P.cw hkd, F.cl hkd, pyGet_of_lt _ _ default (show k < lhs.length by omega)]
    simp only [free_bind]
    refine ⟨_, Bound.einsum_bind eE le_rfl (Bound.pure ?_)⟩
    refine ⟨by rw [List.length_set]; exact hl, fun i h1 => ?_⟩
    by_cases hik : k + 1 = i
    · subst hik
      rw [List.getD_eq_getElem _ _ (by rw [List.length_set]; omega), List.getElem_set_self]
      exact sE
    · rw [pyGet_set_ne hik]
      exact hv i (by omega)
  · intro lhs ⟨hl, hv⟩
    have hkd : k < x.ndims := by omega
    unfold lhsStepC
    rw [P.cw hkd, F.cl hkd, pyGet_of_lt _ _ default (show k < lhs.length by omega)]
    simp only [free_bind]
    exact (AtLeast.charge (hc _ (hv k le_rfl))).left _

end

/-- The default strategy contracts the two cores first if the mode is large. -/
theorem greedy_lhs {ax : List Char} {M : List ℕ} (hM : AxFor ax M) {Q L W : Tensor ℝ} {r : ℕ} (hr : 0 < r)
    (hQ : Q.shape = [1, r, r]) (hL : L.shape = r :: (M ++ [r])) (hW : W.shape = 1 :: r :: (M ++ [r])) (h : r ^ 2 + 1 < 2 * M.prod) :
    M.prod * r ^ 4 ≤ einsumCost greedy ([chars! "sab", 'a' :: (ax ++ ['c']), chars! "sb" ++ (ax ++ ['d'])], chars! "scd") [Q, L, W] := by
  have key : ∀ n : ℤ, (r : ℤ) ^ 2 + 1 < 2 * n → (r : ℤ) * (r * (r * r)) - r * (n * r) - r * (n * r) < - (r * r) := by
    intro n h1
    have h2 : (0 : ℤ) < r ^ 2 := by positivity
    nlinarith [mul_pos h2 (sub_pos.2 h1)]
  unfold einsumCost
  rcases hM with ⟨hM, rfl⟩ | ⟨hM, rfl⟩
  · obtain ⟨i, rfl⟩ := List.length_eq_one_iff.1 hM
    have k1 := key i (by simp at h; exact_mod_cast h)
    rw [greedy_path_three _ _ _ _ _ (i := 1) (j := 2) (by decide) (by decide) (by
      simp [greedyPair, sharingPairs, leastBy, greedyScore, labelSize, jointLabels, keptLabels, einDims, hQ, hL, hW,
        List.lookup, lookupLabel, List.range_succ]
      linarith)]
    simp [orderCost, pathCost, labelSize, jointLabels, contractPair, keptLabels, einDims, hW, hQ, hL, List.lookup, lookupLabel]
    refine le_trans (le_of_eq ?_) (Nat.le_add_right _ _)
    ring
  · obtain ⟨i, j, rfl⟩ := List.length_eq_two.1 hM
    have k1 := key (i * j) (by simp at h; exact_mod_cast h)
    rw [greedy_path_three _ _ _ _ _ (i := 1) (j := 2) (by decide) (by decide) (by
      simp [greedyPair, sharingPairs, leastBy, greedyScore, labelSize, jointLabels, keptLabels, einDims, hQ, hL, hW,
        List.lookup, lookupLabel, List.range_succ]
      linarith)]
    simp [orderCost, pathCost, labelSize, jointLabels, contractPair, keptLabels, einDims, hW, hQ, hL, List.lookup, lookupLabel]
    refine le_trans (le_of_eq ?_) (Nat.le_add_right _ _)
    ring

/-- The count of `project` of one object with the default strategy, for cores with a large mode. -/
theorem projectC_greedy_ge {qr : QRRoutine} (hqr : qr.Correct) {x z : TT ℝ} (h : x.WF) (hb : x.batch = none) (hm : x.ModesPos) (hz : z.WF)
    (hbz : z.batch = none) (hr : z.rawShape = x.rawShape) {k r : ℕ} (hk' : k + 1 < x.ndims)
    (l1 : lrRank x.N x.rank k = r) (l2 : lrRank x.N x.rank (k + 1) = r) (z1 : z.rank k = r) (z2 : z.rank (k + 1) = r)
    (hN : r ^ 2 + 1 < 2 * x.N k) : (projectC greedy qr z x).AtLeast (x.N k * r ^ 4) := by
  obtain ⟨left, right, hF, F⟩ := tangentFrame_ok hqr h hb hm
  obtain ⟨w, n, ew, ww, bw, rw', kw, nw, hcase, -⟩ := expand_fl hz
  have hnd := ndims_of_rows hz h hr
  have hn1 : n = 1 := by rcases hcase with ⟨h, -⟩ | ⟨h, rfl⟩ <;> simp_all
  subst hn1
  have P : PSetup x left right w 1 := ⟨F, h, ww, bw, rw'.trans hr, nw.trans hnd⟩
  have hbs : w.lazyBatchSize = Except.ok 1 := by simp [TT.lazyBatchSize, bw]
  have hrp : 0 < r := by rw [← z1]; exact hz.rank_pos k (by omega)
  obtain ⟨Rr, hRr⟩ : ∃ R, ∀ k ≤ x.ndims, x.rank k ≤ R := ⟨(Finset.range (x.ndims + 1)).sup x.rank, fun k hk =>
    Finset.le_sup (f := x.rank) (Finset.mem_range.2 (by omega))⟩
  obtain ⟨Mm, hMm⟩ : ∃ R, ∀ k < x.ndims, x.N k ≤ R := ⟨(Finset.range x.ndims).sup x.N, fun k hk =>
    Finset.le_sup (f := x.N) (Finset.mem_range.2 hk)⟩
  unfold projectC
  refine AtLeast.free fun _ _ => AtLeast.right (tangentFrameC_le hqr h hb hm F hF hRr hMm) fun f hf => ?_
  subst hf
  simp only [ew, hbs, free_bind]
  refine AtLeast.right (P := fun _ => True) (v := (projectRhsC greedy (modeLabels x) w right x.ndims 1).run.toOption.elim 0 Prod.snd)
    (fun a c e => ⟨trivial, by rw [e]; rfl⟩) fun rhs _ => ?_
  refine (P.lhsC_ge (k := k) hk' fun Q hQ => ?_).left _
  refine greedy_lhs (P.ax k) hrp ?_ ?_ ?_ hN
  · rw [hQ, F.kl k (by omega), l1, kw, z1]
  · rw [F.sl (by omega), F.kl k (by omega), l1, F.kl (k + 1) (by omega), l2]
  · rw [P.sw (by omega), kw, z1, z2]

/-- The count of `project_sum` with a matrix of weights. -/
theorem projectSumC_ge {S : Strategy} (hS : S.Valid) {qr : QRRoutine} (hqr : qr.Correct) {x z : TT ℝ} (h : x.WF) (hb : x.batch = none)
    (hm : x.ModesPos) (hz : z.WF) (hr : z.rawShape = x.rawShape) {wt : Tensor ℝ} {o : ℕ} (hw : wt.shape = [z.batch.getD 1, o]) (ho : 1 < o)
    {k : ℕ} (hk : k < x.ndims) : (projectSumC S qr z x (some wt)).AtLeast (z.batch.getD 1 * o * x.N k) := by
  obtain ⟨left, right, hF, F⟩ := tangentFrame_ok hqr h hb hm
  obtain ⟨w, n, ew, ww, bw, rw', kw, nw, hcase, -⟩ := expand_fl hz
  have hnd := ndims_of_rows hz h hr
  have P : PSetup x left right w n := ⟨F, h, ww, bw, rw'.trans hr, nw.trans hnd⟩
  have hbs : w.lazyBatchSize = Except.ok n := by simp [TT.lazyBatchSize, bw]
  have hn : z.batch.getD 1 = n := by rcases hcase with ⟨h, -⟩ | ⟨h, rfl⟩ <;> simp [h]
  rw [hn] at hw ⊢
  obtain ⟨Rr, hRr⟩ : ∃ R, ∀ k ≤ x.ndims, x.rank k ≤ R := ⟨(Finset.range (x.ndims + 1)).sup x.rank, fun k hk =>
    Finset.le_sup (f := x.rank) (Finset.mem_range.2 (by omega))⟩
  obtain ⟨Mm, hMm⟩ : ∃ R, ∀ k < x.ndims, x.N k ≤ R := ⟨(Finset.range x.ndims).sup x.N, fun k hk =>
    Finset.le_sup (f := x.N) (Finset.mem_range.2 hk)⟩
  obtain ⟨rhs, er, lr, hR⟩ := P.rhs_ok h.pos
  obtain ⟨lhs, el, ll, hL⟩ := P.lhs_ok h.pos
  have any : ∀ {α : Type} (y : Counted α), y.Bound (fun _ => True) (y.run.toOption.elim 0 Prod.snd) :=
    fun y a c e => ⟨trivial, by rw [e]; rfl⟩
  unfold projectSumC
  rw [ew, free_bind]
  refine AtLeast.free fun _ _ => AtLeast.right (tangentFrameC_le hqr h hb hm F hF hRr hMm) fun f hf => ?_
  subst hf
  simp only [hbs, free_bind]
  refine AtLeast.right ((any _).post (value_projectRhsC S (modeLabels x) w right x.ndims n) er (Q := fun l => l = rhs) rfl) fun rhs' hrhs => ?_
  refine AtLeast.right ((any _).post (value_projectLhsC S (modeLabels x) w left x.ndims n) el (Q := fun l => l = lhs) rfl) fun lhs' hlhs => ?_
  subst hrhs hlhs
  refine (AtLeast.mapRange hk ?_).left _
  simp only [P.cw hk, F.cl hk, F.cr hk, free_bind]
  refine AtLeast.left ?_ _
  obtain ⟨⟨E, e, s, -⟩, -⟩ := P.block_ok ll lr hL hR hk
  have hout : sumOutBatch (some wt) = some o := by simp [sumOutBatch, hw, ho]
  unfold projectSumBlockC
  dsimp only
  refine AtLeast.right ((any _).post (value_projectBlockC S (modeLabels x) true lhs' rhs' x.ndims k (w.core k) (left.core k)) e
    (Q := fun l => l = E) rfl) fun E' hE => ?_
  subst hE
  refine AtLeast.charge ?_
  rw [cost_two hS, hout]
  refine le_trans ?_ (weightCost2 (P.ax k) _ hw s).ge
  have p1 : 0 < left.rank k := F.wl.rank_pos k (by rw [F.nl]; omega)
  have p2 : 0 < right.rank (k + 1) := F.wr.rank_pos (k + 1) (by rw [F.nr]; omega)
  exact Nat.le_mul_of_pos_right _ (Nat.mul_pos p1 p2)

end T3f
