import Verif.Proofs.BestUnique
import Verif.Proofs.Stage
import Verif.Proofs.Minimal

/-! # Gaps between the singular values and ties -/

namespace T3f

open Matrix

theorem tIdx_slice (t : TT ℝ) (i : List ℕ) (k a b : ℕ) : t.slice [] (tIdx i) k a b = (t.core k).get [a, i.getD k 0, b] := rfl

theorem xTT_slice {X : Tensor ℝ} {k : ℕ} (hk : k < X.shape.length) (i : List ℕ) (a b : ℕ) :
    (xTT X).slice [] (tIdx i) k a b = xCore X k (i.getD k 0) a b := by
  rw [← xTT_fl hk, TT.fl, show (xTT X).modes k = [X.shape.getD k 0] by rw [TT.modes, xTT_rawShape]; rfl]
  simp [tIdx_slice, unravel]

/-- The left part of the trivial representation: the slices of the tensor. -/
theorem xTT_lprod {X : Tensor ℝ} {i : List ℕ} (hi : Valid X.shape i) {k : ℕ} (h0 : 0 < k) (hk : k ≤ X.shape.length) :
    ∀ a < restN X.shape k, lprod (xTT X).rank ((xTT X).slice [] (tIdx i)) k a = X.get (i.take k ++ unravel (X.shape.drop k) a) := by
  have hil := hi.length_eq
  have hget := ((valid_iff_getD _ _).1 hi).2
  induction k with
  | zero => omega
  | succ k ih =>
    intro a ha
    have hik := hget k (by omega)
    have hdrop : X.shape.drop k = X.shape.getD k 0 :: X.shape.drop (k + 1) := by
      rw [List.drop_eq_getElem_cons (by omega), List.getD_eq_getElem _ _ (by omega)]
    have hun : unravel (X.shape.drop k) (i.getD k 0 * restN X.shape (k + 1) + a) = i.getD k 0 :: unravel (X.shape.drop (k + 1)) a := by
      have := unravel_append [X.shape.getD k 0] (X.shape.drop (k + 1)) (i.getD k 0) a (by simpa using hik) ha
      rw [hdrop]
      unfold restN
      simpa [unravel, Nat.mod_eq_of_lt hik, Nat.div_one] using this
    have htake : i.take (k + 1) = i.take k ++ [i.getD k 0] := by
      rw [List.take_succ_eq_append_getElem (by omega), List.getD_eq_getElem _ _ (by omega)]
    rw [lprod, htake, List.append_assoc, List.singleton_append, ← hun]
    rcases Nat.eq_zero_or_pos k with rfl | hk0
    · rw [xTT_rank (by omega), show xRank X.shape 0 = 1 from rfl, Finset.sum_range_one, xTT_slice (by omega)]
      simp [lprod, xCore, Tensor.flat]
    · have hlt : i.getD k 0 * restN X.shape (k + 1) + a < restN X.shape k := by
        rw [restN_step (show k < X.shape.length by omega)]
        exact mul_add_lt hik ha
      rw [xTT_rank (by omega), show xRank X.shape k = restN X.shape k by rw [xRank, if_neg (by omega)]]
      rw [Finset.sum_congr rfl fun b hb => by rw [ih hk0 (by omega) b (Finset.mem_range.1 hb), xTT_slice (by omega), xCore, if_neg (by omega), copyCore]]
      exact sum_δ_right hlt _

/-- A tensor whose unfolding is a sum of `r` products has a representation with TT-rank `r` at this cut. -/
theorem hasCut_of_factor {s : List ℕ} (hs : ∀ n ∈ s, 0 < n) {k r : ℕ} (h0 : 0 < k) (hk : k < s.length) (hr : 0 < r) {Y : List ℕ → ℝ}
    {c v : ℕ → List ℕ → ℝ} (hY : ∀ i j, Valid (s.take k) i → Valid (s.drop k) j → Y (i ++ j) = ∑ l ∈ Finset.range r, c l i * v l j)
    (hv : ∀ l < r, ∀ l' < r, dot (s.drop k) (v l) (v l') = if l = l' then 1 else 0) : HasCut [s] k r Y := by
  let X : Tensor ℝ := ⟨s, Y⟩
  have hd : 0 < X.shape.length := by show 0 < s.length; omega
  have hw := xTT_wf hd hs (X := X)
  have hn : (xTT X).ndims = s.length := xTT_ndims
  have hrk : (xTT X).rank k = restN s k := by rw [xTT_rank (by show k ≤ s.length; omega), xRank, if_neg (by omega)]
  obtain ⟨S, wS, bS, rS, kS, eS⟩ := rebond hw rfl (k := k) h0 (by omega) hr (fun a b => v b (unravel (s.drop k) a)) (fun b a => v b (unravel (s.drop k) a)) (by
    intro g hg
    have hgi : ∃ i, Valid s i ∧ ∀ j < s.length, g j = tIdx i j := by
      refine ⟨(List.range s.length).map fun j => (g j).getD 0 0, ?_, fun j hj => ?_⟩
      · rw [valid_iff_getD]
        refine ⟨by simp, fun j hj => ?_⟩
        have := hg j (by omega)
        rw [show (xTT X).modes j = [s.getD j 0] by rw [TT.modes, xTT_rawShape]; rfl] at this
        rw [getD_range_map _ _ _ _ hj]
        obtain ⟨x, hx⟩ := List.length_eq_one_iff.1 this.length_eq
        rw [hx] at this ⊢
        exact this.1
      · have := hg j (by omega)
        rw [show (xTT X).modes j = [s.getD j 0] by rw [TT.modes, xTT_rawShape]; rfl] at this
        obtain ⟨x, hx⟩ := List.length_eq_one_iff.1 this.length_eq
        rw [tIdx, getD_range_map _ _ _ _ hj, hx]
        rfl
    obtain ⟨i, hi, hgi⟩ := hgi
    have hL : ∀ a < restN s k, lprod (xTT X).rank ((xTT X).slice [] g) k a = Y (i.take k ++ unravel (s.drop k) a) := by
      intro a ha
      refine Eq.trans ?_ (xTT_lprod (X := X) hi h0 hk.le a ha)
      exact lprod_congr' fun j hj => by
        funext a b
        simp only [TT.slice, hgi j (by omega)]
    rw [hrk]
    have hit : Valid (s.take k) (i.take k) := by
      have h1 : Valid (s.take k ++ s.drop k) (i.take k ++ i.drop k) := by rwa [List.take_append_drop, List.take_append_drop]
      exact ((valid_append_of_length (by rw [List.length_take, List.length_take, hi.length_eq])).1 h1).1
    have e1 : ∀ b ∈ Finset.range r, ∑ a ∈ Finset.range (restN s k), lprod (xTT X).rank ((xTT X).slice [] g) k a * v b (unravel (s.drop k) a) = c b (i.take k) := by
      intro b hb
      have hb := Finset.mem_range.1 hb
      rw [Finset.sum_congr rfl fun a ha => by
        rw [hL a (Finset.mem_range.1 ha), hY _ _ hit (unravel_valid (Finset.mem_range.1 ha)), Finset.sum_mul], Finset.sum_comm]
      rw [Finset.sum_congr rfl fun l hl => by
        rw [show ∑ a ∈ Finset.range (restN s k), c l (i.take k) * v l (unravel (s.drop k) a) * v b (unravel (s.drop k) a) =
          c l (i.take k) * dot (s.drop k) (v l) (v b) by
            rw [dot, Finset.mul_sum]; exact Finset.sum_congr rfl fun a _ => by ring, hv l (Finset.mem_range.1 hl) b hb]]
      simp [hb]
    rw [Finset.sum_congr rfl fun b hb => by rw [e1 b hb, Finset.mul_sum], Finset.sum_comm]
    refine Finset.sum_congr rfl fun a ha => ?_
    rw [hL a (Finset.mem_range.1 ha), hY _ _ hit (unravel_valid (Finset.mem_range.1 ha)), Finset.sum_mul]
    exact Finset.sum_congr rfl fun l _ => by ring)
  refine ⟨S.rank, kS.le, hasTT_iff.2 ⟨S, wS, by rw [rS, xTT_rawShape], bS, fun j _ _ => le_rfl, fun i hi => ?_⟩⟩
  have hi : Valid s i := hi
  have hv : ∀ j < (xTT X).ndims, Valid ((xTT X).modes j) (restModes [s] i j) := by
    have := validModes_rest hw (i := i) (by rw [xTT_rawShape]; exact hi)
    rwa [xTT_rawShape] at this
  rw [eS _ hv]
  exact xTT_entry (X := X) hd hs hi

/-- The unfolding as a matrix. -/
def unfoldMat (s : List ℕ) (k : ℕ) (X : List ℕ → ℝ) : Matrix (Fin (s.take k).prod) (Fin (s.drop k).prod) ℝ :=
  of fun i j => X (unravel (s.take k) i ++ unravel (s.drop k) j)

theorem sqDist_unfold (s : List ℕ) (k : ℕ) (X Y : List ℕ → ℝ) : sqDist s X Y = fro (unfoldMat s k X - unfoldMat s k Y) := by
  unfold sqDist dot fro
  have hp : s.prod = (s.take k).prod * (s.drop k).prod := by rw [← List.prod_append, List.take_append_drop]
  rw [hp, sum_range_mul, Finset.sum_range]
  refine Finset.sum_congr rfl fun i _ => ?_
  rw [Finset.sum_range]
  refine Finset.sum_congr rfl fun j _ => ?_
  have := unravel_append (s.take k) (s.drop k) i j i.2 j.2
  rw [List.take_append_drop] at this
  rw [this, sq]
  rfl

/-- The singular vectors as the columns of a matrix. -/
def vecMat (t : List ℕ) (n : ℕ) (u : ℕ → List ℕ → ℝ) : Matrix (Fin t.prod) (Fin n) ℝ := of fun i l => u l (unravel t i)

theorem vecMat_orth {t : List ℕ} {n : ℕ} {u : ℕ → List ℕ → ℝ} (h : ∀ l < n, ∀ l' < n, dot t (u l) (u l') = if l = l' then 1 else 0) :
    (vecMat t n u)ᵀ * vecMat t n u = 1 := by
  ext l l'
  rw [Matrix.mul_apply, Matrix.one_apply]
  refine Eq.trans ?_ ((h l l.2 l' l'.2).trans (by simp [Fin.ext_iff]))
  rw [dot, Finset.sum_range]
  rfl

theorem unfold_sum {s : List ℕ} {k n : ℕ} {u v : ℕ → List ℕ → ℝ} {σ : ℕ → ℝ} {X : List ℕ → ℝ}
    (h : ∀ i j, Valid (s.take k) i → Valid (s.drop k) j → X (i ++ j) = ∑ l ∈ Finset.range n, u l i * σ l * v l j) :
    vecMat (s.take k) n u * diagonal (fun l : Fin n => σ l) * (vecMat (s.drop k) n v)ᵀ = unfoldMat s k X := by
  ext i j
  rw [Matrix.mul_apply]
  simp only [mul_diagonal, transpose_apply]
  refine Eq.trans ?_ (h _ _ (unravel_valid i.2) (unravel_valid j.2)).symm
  rw [Finset.sum_range]
  rfl

theorem hasCut_factor {s : List ℕ} {k r : ℕ} (h0 : 0 < k) (hk : k < s.length) {Z : List ℕ → ℝ} (h : HasCut [s] k r Z) :
    ∃ (P : Matrix (Fin (s.take k).prod) (Fin r) ℝ) (Q : Matrix (Fin r) (Fin (s.drop k).prod) ℝ), unfoldMat s k Z = P * Q := by
  obtain ⟨b, hb, hZ⟩ := h
  obtain ⟨S, wS, rS, bS, kS, eS⟩ := hasTT_iff.1 hZ
  have hn : S.ndims = s.length := (wS.rows_len s (by rw [rS]; simp)).symm
  have hr : S.rank k ≤ r := (kS k h0 (by omega)).trans hb
  refine ⟨of fun i a => if (a : ℕ) < S.rank k then lprod S.rank (S.slice [] (tIdx (unravel (s.take k) i))) k a else 0,
    of fun a j => rprod S.rank (S.slice [] fun l => [(unravel (s.drop k) j).getD (l - k) 0]) (S.ndims - k) k a, ?_⟩
  ext i j
  have hv := valid_append (unravel_valid i.2) (unravel_valid j.2)
  have hi := (unravel_valid (s := s.take k) i.2).length_eq
  rw [List.length_take, min_eq_left hk.le] at hi
  rw [List.take_append_drop] at hv
  have e1 : unfoldMat s k Z i j = S.entry [] (tIdx (unravel (s.take k) i ++ unravel (s.drop k) j)) := (eS _ hv).symm
  rw [e1, entry_split wS (k := k) (by omega), Matrix.mul_apply]
  simp only [of_apply]
  rw [← Finset.sum_range (fun a => (if a < S.rank k then lprod S.rank (S.slice [] (tIdx (unravel (s.take k) i))) k a else 0) *
    rprod S.rank (S.slice [] fun l => [(unravel (s.drop k) j).getD (l - k) 0]) (S.ndims - k) k a)]
  refine Eq.trans ?_ (Finset.sum_subset (Finset.range_subset_range.2 hr) fun a _ ha => by
    rw [Finset.mem_range] at ha
    rw [if_neg ha, zero_mul])
  refine Finset.sum_congr rfl fun a ha => ?_
  rw [if_pos (Finset.mem_range.1 ha)]
  congr 1
  · refine lprod_congr' fun l hl => ?_
    funext a b
    simp only [tIdx_slice]
    rw [List.getD_append _ _ _ _ (by omega)]
  · refine rprod_congr' fun l hl => ?_
    funext a b
    rw [tIdx_slice, List.getD_append_right _ _ _ _ (by omega), hi]
    rfl

/-- With a gap between the kept and the dropped singular values, the nearest tensor with a bounded TT-rank at this cut is unique. -/
theorem CutSVD.unique {s : List ℕ} (hs : ∀ n ∈ s, 0 < n) {k r n : ℕ} (h0 : 0 < k) (hk : k < s.length) (hr : 0 < r) {X : List ℕ → ℝ}
    {u v : ℕ → List ℕ → ℝ} {σ : ℕ → ℝ} (h : CutSVD s k X n u σ v) (hgap : r < n → σ r < σ (r - 1)) {Z : List ℕ → ℝ}
    (hZ : NearestCut [s] s k r X Z) : IsHead s k r n u σ v Z := by
  have hA := unfold_sum h.value
  have hU := vecMat_orth h.left
  have hV := vecMat_orth h.right
  have hs0 : ∀ l : Fin n, 0 ≤ σ l := fun l => h.nonneg l l.2
  have hanti : Antitone fun l : Fin n => σ l := fun a b hab => h.decreasing a b hab b.2
  have hg : ∀ i j : Fin n, (i : ℕ) < r → r ≤ j → σ j < σ i := by
    intro i j hi hj
    have hrn : r < n := by omega
    exact (h.decreasing r j hj j.2).trans_lt ((hgap hrn).trans_le (h.decreasing i (r - 1) (by omega) (by omega)))
  have hn0 : 0 < n := by
    rw [h.count]
    refine lt_min (List.prod_pos fun x hx => hs x (List.mem_of_mem_take hx)) (List.prod_pos fun x hx => hs x (List.mem_of_mem_drop hx))
  -- the truncated decomposition
  let Y : List ℕ → ℝ := fun i => ∑ l ∈ Finset.range (min r n), u l (i.take k) * σ l * v l (i.drop k)
  have hYh : IsHead s k r n u σ v Y := by
    intro i j hi hj
    have hl := hi.length_eq
    rw [List.length_take, min_eq_left hk.le] at hl
    simp only [Y]
    rw [List.take_left' hl, List.drop_left' hl]
  have hYd : ∀ i j, Valid (s.take k) i → Valid (s.drop k) j → Y (i ++ j) = ∑ l ∈ Finset.range n, u l i * (if l < r then σ l else 0) * v l j := by
    intro i j hi hj
    rw [hYh i j hi hj]
    refine Eq.trans (Finset.sum_congr rfl fun l hl => ?_) (Finset.sum_subset (Finset.range_subset_range.2 (min_le_right r n)) fun l hl hl' => ?_)
    · rw [if_pos (lt_of_lt_of_le (Finset.mem_range.1 hl) (min_le_left _ _))]
    · rw [Finset.mem_range] at hl hl'
      rw [if_neg (fun h => hl' (lt_min h hl))]
      ring
  have hYA := unfold_sum hYd
  have hYc : HasCut [s] k r Y := by
    obtain ⟨b, hb, ht⟩ := hasCut_of_factor hs h0 hk (r := min r n) (lt_min hr hn0) (c := fun l i => u l i * σ l) (fun i j hi hj => hYh i j hi hj)
      (fun l hl l' hl' => h.right l (lt_of_lt_of_le hl (min_le_right _ _)) l' (lt_of_lt_of_le hl' (min_le_right _ _)))
    exact ⟨b, hb.trans (min_le_left _ _), ht⟩
  have hle := hZ.2 Y hYc
  rw [sqDist_unfold s k, sqDist_unfold s k X Y] at hle
  have hYt : fro (unfoldMat s k X - unfoldMat s k Y) = ∑ i : Fin n, (if r ≤ (i : ℕ) then σ i ^ 2 else 0) := by
    rw [← hA, ← hYA, ← Matrix.sub_mul, ← Matrix.mul_sub, fro_isometry' hV, fro_isometry hU, diagonal_sub, fro_eq_trace, diagonal_transpose,
      diagonal_mul_diagonal, trace_diagonal]
    refine Finset.sum_congr rfl fun i _ => ?_
    by_cases hi : (i : ℕ) < r
    · simp [hi, not_le.2 hi]
    · simp [hi, not_lt.1 hi, sq]
  obtain ⟨P, Q, hPQ⟩ := hasCut_factor h0 hk hZ.1
  rw [hYt, hPQ] at hle
  have key := best_unique hU hV hs0 hanti hg hA P Q hle
  have hZY : unfoldMat s k Z = unfoldMat s k Y := by rw [hPQ, key, ← hYA]
  intro i j hi hj
  rw [← hYh i j hi hj]
  have := congrFun (congrFun hZY ⟨ravel _ i, ravel_lt hi⟩) ⟨ravel _ j, ravel_lt hj⟩
  simpa only [unfoldMat, of_apply, unravel_ravel hi, unravel_ravel hj] using this

theorem IsHead.eq {s : List ℕ} {k r n : ℕ} {u v : ℕ → List ℕ → ℝ} {σ : ℕ → ℝ} {Z Z' : List ℕ → ℝ} (h : IsHead s k r n u σ v Z)
    (h' : IsHead s k r n u σ v Z') : ∀ i, Valid s i → Z i = Z' i := by
  intro i hi
  rw [← List.take_append_drop k s] at hi
  obtain ⟨x, y, rfl, hx, hy⟩ := valid_append_iff.1 hi
  rw [h x y hx hy, h' x y hx hy]

theorem Gaps.congr {s : List ℕ} {b : ℕ → ℕ} {ks : List ℕ} {X X' Y : List ℕ → ℝ} (h : Gaps s b ks X Y) (he : ∀ i, Valid s i → X' i = X i) : Gaps s b ks X' Y := by
  cases h with
  | done h => exact .done fun i hi => (he i hi).trans (h i hi)
  | cut h0 hk hc hg hh hr =>
    refine .cut h0 hk ⟨hc.count, fun i j hi hj => ?_, hc.left, hc.right, hc.nonneg, hc.decreasing⟩ hg hh hr
    rw [← hc.value i j hi hj]
    refine he _ ?_
    have := valid_append hi hj
    rwa [List.take_append_drop] at this

/-- Gaps exclude ties. -/
theorem Gaps.noTies {s : List ℕ} (hs : ∀ n ∈ s, 0 < n) {b : ℕ → ℕ} (hb : ∀ k, 0 < k → k < s.length → 0 < b k) {ks : List ℕ} {X Y : List ℕ → ℝ}
    (h : Gaps s b ks X Y) : NoTies [s] s b ks X := by
  induction h with
  | done _ => trivial
  | cut h0 hk hc hg hh hr ih =>
    intro Z hZ
    have hZh := hc.unique hs h0 hk (hb _ h0 hk) hg hZ
    refine ⟨fun Z' hZ' => (hc.unique hs h0 hk (hb _ h0 hk) hg hZ').eq hZh, ?_⟩
    exact noTies_congr (rows := [s]) (hh.eq hZh) ih

/-- ... and the result is the truncated singular value decomposition, cut by cut. -/
theorem Gaps.eq {s : List ℕ} (hs : ∀ n ∈ s, 0 < n) {b : ℕ → ℕ} (hb : ∀ k, 0 < k → k < s.length → 0 < b k) {ks : List ℕ} {X Y Y' : List ℕ → ℝ}
    (h : Gaps s b ks X Y) (h' : Truncated [s] s b ks X Y') : ∀ i, Valid s i → Y' i = Y i := by
  induction h with
  | done h =>
    cases h' with
    | done h' => exact fun i hi => (h' i hi).symm.trans (h i hi)
  | cut h0 hk hc hg hh hr ih =>
    cases h' with
    | cut hZ hT =>
      have hZh := hc.unique hs h0 hk (hb _ h0 hk) hg hZ
      exact ih (truncated_congr (rows := [s]) (hZh.eq hh) (fun _ _ => rfl) hT)

end T3f
