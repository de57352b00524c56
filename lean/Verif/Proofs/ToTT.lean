import Verif.Proofs.ToTTAbs
import Verif.Proofs.RoundProps
import Verif.Proofs.RandomInit

/-! # `to_tt_tensor` -/

namespace T3f

theorem ravel_sum {s i : List ℕ} (h : Valid s i) :
    ravel s i = ∑ j ∈ Finset.range s.length, i.getD j 0 * (s.drop (j + 1)).prod := by
  induction s generalizing i with
  | nil => rw [valid_nil_iff] at h; subst h; rfl
  | cons n s ih =>
    obtain ⟨x, i, rfl, hx, hi⟩ := (valid_cons_iff n s i).1 h
    rw [ravel_cons, ih hi, List.length_cons, Finset.sum_range_succ']
    simp only [List.getD_cons_succ, List.getD_cons_zero, List.drop_succ_cons, Nat.zero_add, List.drop_zero]
    ring

/-- Number of positions of the modes from `k` on. -/
def restN (s : List ℕ) (k : ℕ) : ℕ := (s.drop k).prod

theorem restN_step {s : List ℕ} {k : ℕ} (hk : k < s.length) : restN s k = s.getD k 0 * restN s (k + 1) := by
  unfold restN
  rw [List.drop_eq_getElem_cons hk, List.prod_cons, List.getD_eq_getElem _ _ hk]

theorem restN_end (s : List ℕ) : restN s s.length = 1 := by simp [restN]

theorem restN_pos {s : List ℕ} (hs : ∀ n ∈ s, 0 < n) (k : ℕ) : 0 < restN s k :=
  List.prod_pos fun n hn => hs n (List.mem_of_mem_drop hn)

theorem getD_pos {s : List ℕ} (hs : ∀ n ∈ s, 0 < n) {k : ℕ} (hk : k < s.length) : 0 < s.getD k 0 := by
  rw [List.getD_eq_getElem _ _ hk]; exact hs _ (List.getElem_mem _)

/-! ## A tensor train without truncation -/

/-- Cores that copy the remaining index. -/
def copyCore (s : List ℕ) : ℕ → ℕ → ℕ → ℕ → ℝ := fun k n a b => δ a (n * restN s (k + 1) + b)

/-- The cores of `X` as a chain. -/
def xCore (X : Tensor ℝ) : ℕ → ℕ → ℕ → ℕ → ℝ := fun k n a b =>
  if k = 0 then X.flat (n * restN X.shape 1 + b) else copyCore X.shape k n a b

def xRank (s : List ℕ) (k : ℕ) : ℕ := if k = 0 then 1 else restN s k

def chainCores (d : ℕ) (N r : ℕ → ℕ) (A : ℕ → ℕ → ℕ → ℕ → ℝ) : List (Tensor ℝ) :=
  (List.range d).map fun k => ⟨[r k, N k, r (k + 1)], fun i => A k (i.getD 1 0) (i.getD 0 0) (i.getD 2 0)⟩

theorem chainCores_getD {d : ℕ} {N r : ℕ → ℕ} {A : ℕ → ℕ → ℕ → ℕ → ℝ} {k : ℕ} (hk : k < d) :
    (chainCores d N r A).getD k default = ⟨[r k, N k, r (k + 1)], fun i => A k (i.getD 1 0) (i.getD 0 0) (i.getD 2 0)⟩ :=
  getD_range_map _ _ _ _ hk

theorem chainCores_chain {d : ℕ} {N r : ℕ → ℕ} {A : ℕ → ℕ → ℕ → ℕ → ℝ} (hd : 0 < d) (h0 : r 0 = 1) (h1 : r d = 1) (hp : ∀ k ≤ d, 0 < r k) :
    Chain none (chainCores d N r A) r (fun k => [N k]) 1 := by
  have hl : (chainCores d N r A).length = d := by simp [chainCores]
  refine ⟨by omega, h0, by rw [hl]; exact h1, fun k hk => hp k (by omega), Or.inl rfl, fun _ _ => rfl, fun k hk => ?_, by simp⟩
  rw [chainCores_getD (by omega)]
  rfl

/-- `X` as a tensor train of maximal ranks. -/
def xTT (X : Tensor ℝ) : TT ℝ :=
  chainTT none (chainCores X.shape.length (fun k => X.shape.getD k 0) (xRank X.shape) (xCore X)) (xRank X.shape) (fun k => [X.shape.getD k 0]) 1

theorem xRank_pos {s : List ℕ} (hs : ∀ n ∈ s, 0 < n) (k : ℕ) : 0 < xRank s k := by
  unfold xRank; split_ifs
  · omega
  · exact restN_pos hs k

theorem rowsOf_single (s : List ℕ) : rowsOf (fun k => [s.getD k 0]) s.length 1 = [s] := by
  simp only [rowsOf, List.range_one, List.map_cons, List.map_nil, List.getD_cons_zero]
  congr 1
  apply List.ext_getElem
  · simp
  · intro k h1 h2
    rw [List.getElem_map, List.getElem_range, List.getD_eq_getElem _ _ h2]

section
variable {X : Tensor ℝ} (hd : 0 < X.shape.length) (hs : ∀ n ∈ X.shape, 0 < n)
include hd hs

theorem xTT_chain : Chain none (chainCores X.shape.length (fun k => X.shape.getD k 0) (xRank X.shape) (xCore X)) (xRank X.shape)
    (fun k => [X.shape.getD k 0]) 1 :=
  chainCores_chain hd rfl (by unfold xRank; rw [if_neg (by omega), restN_end]) (fun k _ => xRank_pos hs k)

theorem xTT_wf : (xTT X).WF := (xTT_chain hd hs).wf

omit hd hs in
theorem xTT_ndims : (xTT X).ndims = X.shape.length := by simp [xTT, chainTT, TT.ndims, chainCores]

omit hd hs in
theorem xTT_rawShape : (xTT X).rawShape = [X.shape] := by
  have hl : (chainCores X.shape.length (fun k => X.shape.getD k 0) (xRank X.shape) (xCore X)).length = X.shape.length := by simp [chainCores]
  show rowsOf _ _ _ = _
  rw [hl, rowsOf_single]

omit hd hs in
theorem xTT_rank {k : ℕ} (hk : k ≤ X.shape.length) : (xTT X).rank k = xRank X.shape k :=
  chainTT_rank k (by simpa [chainCores] using hk)

omit hd hs in
theorem xTT_fl {k : ℕ} (hk : k < X.shape.length) (n a b : ℕ) : (xTT X).fl [] k n a b = xCore X k n a b := by
  have hm : (xTT X).modes k = [X.shape.getD k 0] := by rw [TT.modes, xTT_rawShape]; rfl
  have hu : unravel [X.shape.getD k 0] n = [n] := by simp [unravel]
  rw [TT.fl, hm, hu, TT.core, show (xTT X).cores = chainCores X.shape.length (fun k => X.shape.getD k 0) (xRank X.shape) (xCore X) from rfl,
    chainCores_getD hk]
  rfl

theorem xTT_entry {i : List ℕ} (hi : Valid X.shape i) : (xTT X).entry [] (tIdx i) = X.get i := by
  rw [xTT, (xTT_chain hd hs).entry_eq]
  have hl : (chainCores X.shape.length (fun k => X.shape.getD k 0) (xRank X.shape) (xCore X)).length = X.shape.length := by simp [chainCores]
  rw [hl]
  have key : ∀ k, k + 1 ≤ X.shape.length → ∀ b < restN X.shape (k + 1), lprod (xRank X.shape) (fun k a b =>
      ((chainCores X.shape.length (fun k => X.shape.getD k 0) (xRank X.shape) (xCore X)).getD k default).get ([] ++ a :: (tIdx i k ++ [b]))) (k + 1) b =
      X.flat (∑ j ∈ Finset.range (k + 1), i.getD j 0 * restN X.shape (j + 1) + b) := by
    intro k
    induction k with
    | zero =>
      intro hk b hb
      rw [lprod, show xRank X.shape 0 = 1 from rfl, Finset.sum_range_one, chainCores_getD (by omega)]
      simp [lprod, tIdx, xCore]
    | succ k ih =>
      intro hk b hb
      have hik : i.getD (k + 1) 0 < X.shape.getD (k + 1) 0 := ((valid_iff_getD _ _).1 hi).2 (k + 1) (by omega)
      have hlt : i.getD (k + 1) 0 * restN X.shape (k + 2) + b < restN X.shape (k + 1) := by
        rw [restN_step (show k + 1 < X.shape.length by omega)]
        exact mul_add_lt hik hb
      rw [lprod, show xRank X.shape (k + 1) = restN X.shape (k + 1) from rfl]
      rw [Finset.sum_congr rfl fun a ha => by rw [ih (by omega) a (Finset.mem_range.1 ha), chainCores_getD (by omega)]]
      simp only [List.nil_append, tIdx, List.cons_append, List.getD_cons_succ, List.getD_cons_zero, xCore, Nat.add_eq_zero_iff,
        Nat.one_ne_zero, and_false, if_false, copyCore]
      rw [sum_δ_right hlt, Finset.sum_range_succ _ (k + 1)]
      congr 1
      ring
  have hk : X.shape.length - 1 + 1 = X.shape.length := by omega
  have e := key (X.shape.length - 1) (by omega) 0 (by rw [hk, restN_end]; omega)
  rw [hk] at e
  rw [e, Nat.add_zero]
  have := ravel_sum hi
  rw [← Tensor.flat_ravel X hi, this]
  rfl

theorem xTT_full : ∃ F, full (xTT X) = Except.ok F ∧ F ≃ₜ X := by
  obtain ⟨F, e, s, v⟩ := full_ok (xTT_wf hd hs)
  rw [show (xTT X).bpre = [] from rfl, xTT_rawShape] at s v
  refine ⟨F, e, s, fun i hi => ?_⟩
  rw [s] at hi
  have := v [] i ((valid_nil_iff _).2 rfl) hi
  rw [List.nil_append] at this
  rw [this]
  exact xTT_entry hd hs hi

end

/-! ## The loop -/

/-- TT-ranks of the result. -/
def tuRank (bd : ℕ → ℕ) (s : List ℕ) : ℕ → ℕ
  | 0 => 1
  | k + 1 => if k + 1 = s.length then 1 else keptRank (bd (k + 1)) (tuRank bd s k * s.getD k 0) (restN s (k + 1))

theorem tuRank_congr {bd bd' : ℕ → ℕ} {s : List ℕ} (h : ∀ k ≤ s.length, bd k = bd' k) {k : ℕ} (hk : k ≤ s.length) : tuRank bd s k = tuRank bd' s k := by
  induction k with
  | zero => rfl
  | succ k ih => rw [tuRank, tuRank, ih (by omega), h _ hk]

theorem tuRank_pos {bd : ℕ → ℕ} {s : List ℕ} (hb : ∀ k ≤ s.length, 0 < bd k) (hs : ∀ n ∈ s, 0 < n) {k : ℕ} (hk : k ≤ s.length) :
    0 < tuRank bd s k := by
  induction k with
  | zero => exact Nat.one_pos
  | succ k ih =>
    rw [tuRank]
    split_ifs
    · omega
    · exact keptRank_pos (hb _ hk) (Nat.mul_pos (ih (by omega)) (getD_pos hs (by omega))) (restN_pos hs _)

theorem LStep.of_svd {N rU rV : ℕ → ℕ} {U V D : ℕ → ℕ → ℕ → ℕ → ℝ} {k bd : ℕ} {tail : ℝ} {x u : ℕ → ℕ → ℝ} {s : ℕ → ℝ} {v : ℕ → ℕ → ℝ}
    (h : TruncSvd (rU k * N k) (rV (k + 1)) (rU (k + 1)) x u s v tail)
    (hx : ∀ a < rU k, ∀ n < N k, ∀ b < rV (k + 1), x (a * N k + n) b = D k n a b)
    (hU : ∀ n < N k, ∀ a < rU k, ∀ b < rU (k + 1), U k n a b = u (a * N k + n) b)
    (hD : ∀ n < N (k + 1), ∀ y < rU (k + 1), ∀ b < rV (k + 2), D (k + 1) n y b =
      ∑ l ∈ Finset.range (rV (k + 1)), (s y * v l y) * V (k + 1) n l b)
    (hb : ∀ ρ ≤ bd, ρ ≤ rU (k + 1) ∨ rU (k + 1) = min (rU k * N k) (rV (k + 1))) : LStep N rU rV U V D k tail bd := by
  have hE : ∀ y < rU (k + 1), ∀ l < rV (k + 1), ∑ a ∈ Finset.range (rU k), ∑ m ∈ Finset.range (N k), U k m a y * D k m a l = s y * v l y := by
    intro y hy l hl
    rw [← h.mulU l hl y hy, sum_range_mul]
    refine Finset.sum_congr rfl fun a ha => Finset.sum_congr rfl fun n hn => ?_
    rw [Finset.mem_range] at hn ha
    rw [hx a ha n hn l hl, hU n hn a ha y hy]
  refine ⟨?_, ?_, ?_, ?_⟩
  · intro b hb b' hb'
    have := h.orthU b hb b' hb'
    rw [sum_range_mul] at this
    rw [δ, ← this]
    refine Finset.sum_congr rfl fun a ha => Finset.sum_congr rfl fun n hn => ?_
    rw [Finset.mem_range] at hn ha
    rw [hU n hn a ha b hb, hU n hn a ha b' hb']
  · intro n hn y hy b hb
    rw [hD n hn y hy b hb]
    exact Finset.sum_congr rfl fun l hl => by rw [hE y hy l (Finset.mem_range.1 hl)]
  · have e1 : fro3 (rU k) (N k) (rV (k + 1)) (D k) = ∑ i ∈ Finset.range (rU k * N k), ∑ j ∈ Finset.range (rV (k + 1)), x i j ^ 2 := by
      rw [sum_range_mul]
      refine Finset.sum_congr rfl fun a ha => Finset.sum_congr rfl fun n hn => Finset.sum_congr rfl fun b hb => ?_
      rw [Finset.mem_range] at ha hn hb
      rw [hx a ha n hn b hb]
    rw [e1, h.norm]
    congr 1
    refine Finset.sum_congr rfl fun y hy => ?_
    rw [Finset.mem_range] at hy
    have := h.orthV y hy y hy
    rw [if_pos rfl] at this
    calc s y ^ 2 = s y ^ 2 * (∑ i ∈ Finset.range (rV (k + 1)), v i y * v i y) := by rw [this, mul_one]
      _ = _ := by
        rw [Finset.mul_sum]
        exact Finset.sum_congr rfl fun l hl => by rw [hE y hy l (Finset.mem_range.1 hl)]; ring
  · intro ρ P Q hρ
    refine le_trans (h.best ρ (fun j l => P (j % N k) (j / N k) l) Q (hb ρ hρ)) (le_of_eq ?_)
    unfold fro3
    rw [sum_range_mul]
    refine Finset.sum_congr rfl fun a ha => Finset.sum_congr rfl fun n hn => Finset.sum_congr rfl fun b hb => ?_
    rw [Finset.mem_range] at ha hn hb
    rw [hx a ha n hn b hb]
    have e1 : (a * N k + n) / N k = a := by
      rw [Nat.mul_comm, Nat.mul_add_div (by omega), Nat.div_eq_of_lt hn, Nat.add_zero]
    have e2 : (a * N k + n) % N k = n := by
      rw [Nat.mul_comm, Nat.mul_add_mod, Nat.mod_eq_of_lt hn]
    rw [e1, e2]

theorem LStep.congr {N rU rV : ℕ → ℕ} {U U' V D D' : ℕ → ℕ → ℕ → ℕ → ℝ} {k bd : ℕ} {tail : ℝ}
    (h : LStep N rU rV U V D k tail bd) (hU : U' k = U k) (hD : D' k = D k) (hD1 : D' (k + 1) = D (k + 1)) :
    LStep N rU rV U' V D' k tail bd := by
  obtain ⟨h1, h2, h3, h4⟩ := h
  refine ⟨?_, ?_, ?_, ?_⟩
  · unfold LOrth at h1 ⊢; rw [hU]; exact h1
  · rw [hD1, hD, hU]; exact h2
  · rw [hD, hU]; exact h3
  · rw [hD]; exact h4

/-- State of `to_tt_tensor` when core `i` is next. -/
structure TuInv (X : Tensor ℝ) (bd : ℕ → ℕ) (i : ℕ) (s : Tensor ℝ × List ℕ × List (Tensor ℝ)) : Prop where
  len : s.2.2.length = i
  rlen : s.2.1.length = X.shape.length + 1
  rk : ∀ k ≤ X.shape.length, s.2.1.getD k 0 = if k ≤ i then tuRank bd X.shape k else 1
  shape : ∀ k < i, (s.2.2.getD k default).shape = [tuRank bd X.shape k, X.shape.getD k 0, tuRank bd X.shape (k + 1)]
  cur : ∃ (D : ℕ → ℕ → ℕ → ℕ → ℝ) (tail : ℕ → ℝ),
    Blk s.1 [] (tuRank bd X.shape i) (X.shape.getD i 0) (restN X.shape (i + 1)) (fun _ α n β => D i n α β) ∧
    (∀ n < X.shape.getD 0 0, ∀ b < restN X.shape 1, D 0 n 0 b = X.flat (n * restN X.shape 1 + b)) ∧
    ∀ k < i, LStep (fun k => X.shape.getD k 0) (tuRank bd X.shape) (restN X.shape) (cfl s.2.2 (fun k => [X.shape.getD k 0]) []) (copyCore X.shape) D k
      (tail k) (bd (k + 1))

theorem TuInv.init {X : Tensor ℝ} (hd : 0 < X.shape.length) (bd : ℕ → ℕ) :
    TuInv X bd 0 (X, List.replicate (X.shape.length + 1) 1, []) := by
  refine ⟨rfl, by simp, fun k hk => ?_, fun k hk => absurd hk (by omega), fun _ n _ b => X.flat (n * restN X.shape 1 + b), fun _ => 0, ?_,
    fun _ _ _ _ => rfl, fun k hk => absurd hk (by omega)⟩
  · have : (List.replicate (X.shape.length + 1) 1).getD k 0 = 1 := by
      rw [List.getD_eq_getElem _ _ (by rw [List.length_replicate]; omega)]; simp
    simp only []
    rw [this]
    split_ifs with h
    · obtain rfl : k = 0 := by omega
      rfl
    · rfl
  · refine ⟨?_, fun p hp α hα n hn β hβ => ?_⟩
    · have := restN_step hd
      simp only [restN, List.drop_zero] at this
      simp only [List.prod_nil, tuRank, Nat.one_mul, this]
      rfl
    · have h0 : ravel [] p = 0 := by rw [(valid_nil_iff p).1 hp]; rfl
      rw [tuRank] at hα
      obtain rfl : α = 0 := by omega
      rw [h0, Nat.zero_mul, Nat.zero_mul, Nat.zero_add, Nat.zero_add]

theorem toTTStep_ok {svd : SVDRoutine} (hsvd : svd.Correct) {X : Tensor ℝ} (hs : ∀ n ∈ X.shape, 0 < n) {bounds : List ℕ}
    (hbl : bounds.length = X.shape.length + 1) (hbp : ∀ k ≤ X.shape.length, 0 < bounds.getD k 0) (i : ℕ) (hi : i + 1 < X.shape.length)
    (s : Tensor ℝ × List ℕ × List (Tensor ℝ)) (hS : TuInv X (fun k => bounds.getD k 0) i s) :
    ∃ s', toTTStep svd X.shape bounds i s = Except.ok s' ∧ TuInv X (fun k => bounds.getD k 0) (i + 1) s' := by
  obtain ⟨D, tail, hB, h0, hC⟩ := hS.cur
  set bd : ℕ → ℕ := fun k => bounds.getD k 0 with hbd
  set r' := tuRank bd X.shape with hr'
  set N : ℕ → ℕ := fun k => X.shape.getD k 0 with hN
  have hr'pos : ∀ k ≤ X.shape.length, 0 < r' k := fun k hk => tuRank_pos hbp hs hk
  have hNp : ∀ k < X.shape.length, 0 < N k := fun k hk => getD_pos hs hk
  have hrows : 0 < r' i * N i := Nat.mul_pos (hr'pos i (by omega)) (hNp i (by omega))
  have hcols : 0 < restN X.shape (i + 1) := restN_pos hs _
  have hkept : keptRank (bd (i + 1)) (r' i * N i) (restN X.shape (i + 1)) = r' (i + 1) := by
    rw [hr', tuRank, if_neg (by omega)]
  have hmin : r' (i + 1) ≤ min (r' i * N i) (restN X.shape (i + 1)) := by
    rw [← hkept]; exact keptRank_le_min hrows hcols
  obtain ⟨Y, eY, sY, bY⟩ := hB.reshape_last (r' i * N i) (restN X.shape (i + 1)) (by simpa using hrows) (by ring)
  obtain ⟨S, U, W, S', U', V', u, v, sg, tl, eS, eU', eS', eV', sU, sS, sV, hsv⟩ := svd_pre hsvd (bs := none) sY hmin
  obtain ⟨T, eT, sT, vT⟩ := transpose_pre (bs := none) sV
  obtain ⟨G, eG, sG, bG⟩ := (blk_of_tall (pre := []) (a := r' i) (N := N i) sU).reshape_some
    (s := [r' i, N i, r' (i + 1)]) (by simp)
  obtain ⟨Dg, eD, sD, vD⟩ := linalgDiag_pre (bs := none) sS
  obtain ⟨Z, eZ, sZ, vZ⟩ := matmul_pre (bs := none) sD sT
  have hv0 : Valid (none : Option ℕ).toList [] := (valid_nil_iff _).2 rfl
  obtain ⟨ht, hU, hSg, hV⟩ := hsv [] hv0
  have hrest : restN X.shape (i + 1) = N (i + 1) * restN X.shape (i + 2) := restN_step hi
  have hZv : ∀ y < r' (i + 1), ∀ j < restN X.shape (i + 1), Z.get [y, j] = sg [] y * v [] j y := by
    intro y hy j hj
    have := vZ [] hv0 y j
    simp only [List.nil_append] at this
    rw [this, Finset.sum_eq_single y]
    · have h1 := vD [] hv0 y y
      have h2 := vT [] hv0 j y
      have h3 := hSg y hy
      have h4 := hV j hj y hy
      simp only [List.nil_append] at h1 h2 h3 h4
      rw [h1, if_pos trivial, h2, h3, h4]
    · intro l _ hl
      have h1 := vD [] hv0 y l
      simp only [List.nil_append] at h1
      rw [h1, if_neg (Ne.symm hl), zero_mul]
    · intro hy'; exact absurd (Finset.mem_range.2 hy) hy'
  have p1 : pyGet X.shape i = Except.ok (N i) := pyGet_of_lt _ _ 0 (by omega)
  have p2 : pyGet s.2.1 i = Except.ok (r' i) := by
    rw [pyGet_of_lt _ _ 0 (by rw [hS.rlen]; omega), hS.rk _ (by omega), if_pos le_rfl]
  have p3 : pyGet Y.shape 1 = Except.ok (restN X.shape (i + 1)) := by rw [sY]; rfl
  have p4 : pyGet bounds (i + 1) = Except.ok (bd (i + 1)) := pyGet_of_lt _ _ 0 (by omega)
  refine ⟨(Z, s.2.1.set (i + 1) (r' (i + 1)), s.2.2 ++ [G]), ?_, ?_⟩
  · unfold toTTStep
    simp only [p1, p2, R.ok_bind]
    rw [show reshape s.1 [some (r' i * N i), none] = Except.ok Y from eY]
    simp only [R.ok_bind, p3, p4, eS, hkept]
    rw [show takeLast U 1 (r' (i + 1)) = Except.ok U' from eU', show takeLast S 0 (r' (i + 1)) = Except.ok S' from eS',
      show takeLast W 1 (r' (i + 1)) = Except.ok V' from eV']
    simp only [R.ok_bind]
    rw [show reshape U' [some (r' i), some (N i), some (r' (i + 1))] = Except.ok G from eG, R.ok_bind, eD, R.ok_bind,
      show transpose V' [1, 0] = Except.ok T from eT, R.ok_bind, eZ]
    rfl
  · have hlen := hS.len
    have gl : ∀ k, k < i → (s.2.2 ++ [G]).getD k default = s.2.2.getD k default := fun k hk =>
      List.getD_append _ _ _ _ (by omega)
    have gi : (s.2.2 ++ [G]).getD i default = G := by
      rw [List.getD_append_right _ _ _ _ (by omega), hlen, Nat.sub_self]; rfl
    refine ⟨by simp [hlen], by simp [hS.rlen], fun k hk => ?_, fun k hk => ?_,
      fun k n a b => if k = i + 1 then sg [] a * v [] (n * restN X.shape (i + 2) + b) a else D k n a b,
      fun k => if k = i then tl [] else tail k, ?_, fun n hn b hb => ?_, fun k hk => ?_⟩
    · simp only []
      rcases eq_or_ne k (i + 1) with rfl | hne
      · rw [getD_set_self _ _ _ _ (by rw [hS.rlen]; omega), if_pos le_rfl]
      · rw [getD_set_ne _ _ _ hne.symm, hS.rk k hk]
        by_cases h1 : k ≤ i
        · rw [if_pos h1, if_pos (by omega)]
        · rw [if_neg (by omega), if_neg (by omega)]
    · simp only []
      rcases Nat.lt_succ_iff_lt_or_eq.1 hk with h1 | rfl
      · rw [gl k h1]; exact hS.shape k h1
      · rw [gi]; exact sG
    · simp only []
      have sZ' : Z.shape = [] ++ [r' (i + 1), N (i + 1) * restN X.shape (i + 2)] := by rw [← hrest]; exact sZ
      refine (blk_of_wide sZ').congr fun p hp y hy n hn b hb => ?_
      obtain rfl := (valid_nil_iff p).1 hp
      rw [if_pos trivial]
      exact hZv y hy _ (by rw [hrest]; exact mul_add_lt hn hb)
    · simp only []
      rw [if_neg (by omega)]
      exact h0 n hn b hb
    · simp only []
      rcases Nat.lt_succ_iff_lt_or_eq.1 hk with h1 | rfl
      · rw [if_neg (by omega)]
        refine (hC k h1).congr ?_ ?_ ?_
        · funext n a b; simp only [cfl, gl k h1]
        · funext n a b; rw [if_neg (by omega)]
        · funext n a b; rw [if_neg (by omega)]
      · rw [if_pos rfl]
        refine LStep.of_svd ht (fun a ha n hn b hb => ?_) (fun n hn a ha b hb => ?_) (fun n hn y hy b hb => ?_) (fun ρ hρ => ?_)
        · rw [if_neg (by omega)]
          exact bY.tall sY hv0 ha hn hb
        · have hn' : n < [N k].prod := by rw [List.prod_singleton]; exact hn
          simp only [cfl, gi]
          rw [bG.core (M := [N k]) sG (by simp) hv0 ha (unravel_valid hn') hb, ravel_unravel hn']
          exact hU _ (mul_add_lt ha hn) b hb
        · rw [if_pos rfl]
          simp only [copyCore]
          rw [sum_δ_right (by rw [hrest]; exact mul_add_lt hn hb)]
        · have := keptRank_full (n := r' k * N k) (m := restN X.shape (k + 1)) hρ
          rw [hkept] at this
          exact this

theorem xTT_blockChain {X : Tensor ℝ} {D : ℕ → ℕ → ℕ → ℕ → ℝ} {bd : ℕ → ℕ} (U : ℕ → ℕ → ℕ → ℕ → ℝ)
    (h0 : ∀ n < X.shape.getD 0 0, ∀ b < restN X.shape 1, D 0 n 0 b = X.flat (n * restN X.shape 1 + b)) :
    (∀ k ≤ X.shape.length, (xTT X).rank k = blockRank (tuRank bd X.shape) (restN X.shape) 0 k) ∧
    ∀ k < X.shape.length, ∀ n < X.shape.getD k 0, ∀ a < blockRank (tuRank bd X.shape) (restN X.shape) 0 k,
      ∀ b < blockRank (tuRank bd X.shape) (restN X.shape) 0 (k + 1),
        (xTT X).fl [] k n a b = blockChain U (copyCore X.shape) (D 0) 0 k n a b := by
  constructor
  · intro k hk
    rw [xTT_rank hk, xRank, blockRank]
    by_cases h : k = 0
    · subst h; rw [if_pos rfl, if_pos le_rfl]; rfl
    · rw [if_neg h, if_neg (by omega)]
  · intro k hk n hn a ha b hb
    rw [xTT_fl hk, xCore, blockChain]
    rw [blockRank, if_neg (by omega)] at hb
    by_cases h : k = 0
    · subst h
      rw [if_pos rfl, if_neg (by omega), if_pos rfl]
      rw [blockRank, if_pos le_rfl, tuRank] at ha
      obtain rfl : a = 0 := by omega
      exact (h0 n hn b hb).symm
    · rw [if_neg h, if_neg (by omega), if_neg h]

theorem toTTTensor_ok {svd : SVDRoutine} (hsvd : svd.Correct) {X : Tensor ℝ} (hd : 2 ≤ X.shape.length) (hs : ∀ n ∈ X.shape, 0 < n)
    {m : MaxRank} {eps : Option ℝ} {bounds : List ℕ} (hm : maxRanks X.shape.length m eps = Except.ok bounds)
    (hbl : bounds.length = X.shape.length + 1) (hbp : ∀ k ≤ X.shape.length, 0 < bounds.getD k 0) :
    ∃ x, toTTTensor svd X m eps = Except.ok x ∧ x.WF ∧ x.rawShape = [X.shape] ∧ x.batch = none ∧ x.ndims = X.shape.length ∧
      (∀ k ≤ X.shape.length, x.rank k = tuRank (fun k => bounds.getD k 0) X.shape k) ∧
      (∀ k, 0 < k → k < X.shape.length → x.rank k ≤ bounds.getD k 0) ∧
      (∀ k, k + 1 < X.shape.length → x.LeftOrthonormal [] k) ∧
      ∃ tail : ℕ → ℝ,
        entryDist (xTT X) x [] = ∑ j ∈ Finset.range (X.shape.length - 1), tail j ∧
        entryDist (xTT X) x [] = entryDot (xTT X) (xTT X) [] - entryDot x x [] ∧
        (∀ k, k + 1 < X.shape.length → ∀ S : TT ℝ, S.WF → S.rawShape = [X.shape] → S.ndims = X.shape.length →
          S.rank (k + 1) ≤ bounds.getD (k + 1) 0 → tail k ≤ entryDist (xTT X) S []) ∧
        ∃ U D, LSweep (fun k => X.shape.getD k 0) x.rank (restN X.shape) U (copyCore X.shape) D X.shape.length tail (fun k => bounds.getD k 0) ∧
          (xTT X).IsChain [] (blockRank x.rank (restN X.shape) 0) (blockChain U (copyCore X.shape) (D 0) 0) ∧
          x.IsChain [] (blockRank x.rank (restN X.shape) (X.shape.length - 1))
            (blockChain U (copyCore X.shape) (D (X.shape.length - 1)) (X.shape.length - 1)) := by
  set d := X.shape.length with hdd
  set bd : ℕ → ℕ := fun k => bounds.getD k 0 with hbd
  obtain ⟨s, es, hS⟩ := forRange_inv (fun i s => TuInv X bd i s) (toTTStep svd X.shape bounds) 0 (d - 1) (X, List.replicate (d + 1) 1, [])
    (TuInv.init (by omega) bd) (fun i s _ hi hP => toTTStep_ok hsvd hs hbl hbp i (by omega) s hP)
  rw [Nat.zero_add] at hS
  obtain ⟨D, tail, hB, h0, hC⟩ := hS.cur
  have hd1 : d - 1 + 1 = d := by omega
  set r' := tuRank bd X.shape with hr'
  set N : ℕ → ℕ := fun k => X.shape.getD k 0 with hN
  have hr'pos : ∀ k ≤ d, 0 < r' k := fun k hk => tuRank_pos hbp hs hk
  have hr'd : r' d = 1 := by rw [← hd1, hr', tuRank, if_pos hd1]
  have hwx := xTT_wf (X := X) (by omega) hs
  rw [hd1, restN_end] at hB
  obtain ⟨G, eG, sG, bG⟩ := hB.reshape_some (s := [r' (d - 1), N (d - 1), 1]) (by simp [hN])
  have hl : (s.2.2 ++ [G]).length = d := by rw [List.length_append, hS.len]; simpa using hd1
  have gl : ∀ k, k < d - 1 → (s.2.2 ++ [G]).getD k default = s.2.2.getD k default := fun k hk =>
    List.getD_append _ _ _ _ (by rw [hS.len]; omega)
  have gi : (s.2.2 ++ [G]).getD (d - 1) default = G := by
    rw [List.getD_append_right _ _ _ _ (by rw [hS.len]), hS.len, Nat.sub_self]; rfl
  have chain : Chain none (s.2.2 ++ [G]) r' (fun k => [N k]) 1 := by
    refine ⟨by omega, rfl, by rw [hl]; exact hr'd, fun k hk => hr'pos k (by omega), Or.inl rfl, fun _ _ => rfl, fun k hk => ?_, by simp⟩
    rw [hl] at hk
    rcases Nat.lt_or_ge k (d - 1) with h1 | h1
    · rw [gl k h1, hS.shape k h1]; rfl
    · obtain rfl : k = d - 1 := by omega
      rw [gi, sG, hd1, hr'd]; rfl
  have hranks : s.2.1 = ranksOf r' d := by
    apply List.ext_getElem
    · rw [hS.rlen]; simp [ranksOf, hdd]
    · intro k h1 h2
      have hk : k ≤ d := by rw [hS.rlen] at h1; omega
      have := hS.rk k hk
      rw [List.getD_eq_getElem _ _ h1] at this
      rw [this]
      simp only [ranksOf, List.getElem_map, List.getElem_range]
      split_ifs with h3
      · rfl
      · obtain rfl : k = d := by omega
        exact hr'd.symm
  have e : toTTTensor svd X m eps = Except.ok (chainTT none (s.2.2 ++ [G]) r' (fun k => [N k]) 1) := by
    have q1 : pyGet s.2.1 (d - 1) = Except.ok (r' (d - 1)) := by
      rw [pyGet_of_lt _ _ 0 (by rw [hS.rlen]; omega), hS.rk _ (by omega), if_pos le_rfl]
    have q2 : pyGet s.2.1 d = Except.ok 1 := by
      rw [pyGet_of_lt _ _ 0 (by rw [hS.rlen]; omega), hS.rk d le_rfl, if_neg (by omega)]
    have q3 : pyGet X.shape.reverse 0 = Except.ok (N (d - 1)) := by
      rw [pyGet_of_lt _ _ 0 (by rw [List.length_reverse]; omega), List.getD_eq_getElem _ _ (by rw [List.length_reverse]; omega),
        List.getElem_reverse]
      simp only [hN]
      rw [List.getD_eq_getElem _ _ (by omega)]
      rfl
    unfold toTTTensor
    simp only [← hdd, hm, R.ok_bind, es, q1, q2, q3]
    rw [show reshape s.1 [some (r' (d - 1)), some (N (d - 1)), some 1] = Except.ok G from eG, R.ok_bind]
    refine mkTT_ok chain _ (Or.inr ?_) _ (Or.inr (by rw [hl, hranks]))
    rw [clean_flat hd, hl, hdd, rowsOf_single]
  set x := chainTT none (s.2.2 ++ [G]) r' (fun k => [N k]) 1 with hx
  have hxrs : x.rawShape = [X.shape] := by
    show rowsOf _ _ _ = _
    rw [hl, hdd, rowsOf_single]
  have hrank : ∀ k ≤ d, x.rank k = r' k := fun k hk => chainTT_rank k (by rw [hl]; exact hk)
  have hmodes : ∀ k < d, x.modes k = [N k] := fun k hk => chain.modes_eq k (by rw [hl]; exact hk)
  have hv0 : Valid ([] : List ℕ) [] := (valid_nil_iff _).2 rfl
  set U := cfl s.2.2 (fun k => [N k]) [] with hU
  have hfl : ∀ k, k < d - 1 → x.fl [] k = U k := by
    intro k hk
    funext n a b
    rw [TT.fl, hmodes k (by omega), hU, cfl, ← gl k hk]
    rfl
  have hfd : ∀ n < N (d - 1), ∀ a < r' (d - 1), ∀ b < 1, x.fl [] (d - 1) n a b = D (d - 1) n a b := by
    intro n hn a ha b hb
    have hn' : n < [N (d - 1)].prod := by rw [List.prod_singleton]; exact hn
    rw [TT.fl, hmodes (d - 1) (by omega), show x.core (d - 1) = G from gi,
      bG.core (M := [N (d - 1)]) sG (by rw [List.prod_singleton]) hv0 ha (unravel_valid hn') hb, ravel_unravel hn']
  have sw : LSweep N r' (restN X.shape) U (copyCore X.shape) D d tail bd := by
    refine ⟨by omega, rfl, restN_end _, fun k h1 h2 => ?_, fun k hk => hC k (by omega)⟩
    intro a ha a' ha'
    have := sum_range_mul (N k) (restN X.shape (k + 1)) fun j => (δ a j * δ a' j : ℝ)
    rw [← restN_step h2, sum_δ_left ha] at this
    rw [δ_comm a a', this]
    rfl
  have hrY : ∀ k ≤ d, x.rank k = blockRank r' (restN X.shape) (d - 1) k := by
    intro k hk
    rw [hrank k hk, blockRank]
    split_ifs with h1
    · rfl
    · obtain rfl : k = d := by omega
      rw [hr'd, restN_end]
  have hY : ∀ k < d, ∀ n < N k, ∀ a < blockRank r' (restN X.shape) (d - 1) k, ∀ b < blockRank r' (restN X.shape) (d - 1) (k + 1),
      x.fl [] k n a b = blockChain U (copyCore X.shape) (D (d - 1)) (d - 1) k n a b := by
    intro k hk n hn a ha b hb
    unfold blockChain
    rcases Nat.lt_or_ge k (d - 1) with h1 | h1
    · rw [if_pos h1, hfl k h1]
    · obtain rfl : k = d - 1 := by omega
      rw [if_neg (by omega), if_pos rfl]
      rw [blockRank, if_pos le_rfl] at ha
      rw [hd1, blockRank, if_neg (by omega), restN_end] at hb
      exact hfd n hn a ha b hb
  obtain ⟨hrX, hX⟩ := xTT_blockChain (X := X) (D := D) (bd := bd) U h0
  rw [← hdd] at hrX hX
  have hNx : x.N = N := by funext k; rw [TT.N, TT.modes, hxrs]; simp [hN]
  have hNX : (xTT X).N = N := by funext k; rw [TT.N, TT.modes, xTT_rawShape]; simp [hN]
  have hndx : x.ndims = d := hl
  have hndX : (xTT X).ndims = d := xTT_ndims
  have h0Y : 0 < blockRank r' (restN X.shape) (d - 1) d := by rw [← hrY d le_rfl, hrank d le_rfl, hr'd]; omega
  have h0X : 0 < blockRank r' (restN X.shape) 0 d := by
    rw [← hrX d le_rfl, ← hndX]; exact hwx.rank_pos _ le_rfl
  have eX : entryDot (xTT X) (xTT X) [] = gram N (blockRank r' (restN X.shape) 0) (blockRank r' (restN X.shape) 0)
      (blockChain U (copyCore X.shape) (D 0) 0) (blockChain U (copyCore X.shape) (D 0) 0) d 0 0 := by
    rw [← gram_congr' hrX hrX hX hX h0X h0X]
    have := gram_entry hwx (s := xTT X) rfl rfl []
    rw [← this, hNX, hndX]
  have eY : entryDot x x [] = gram N (blockRank r' (restN X.shape) (d - 1)) (blockRank r' (restN X.shape) (d - 1))
      (blockChain U (copyCore X.shape) (D (d - 1)) (d - 1)) (blockChain U (copyCore X.shape) (D (d - 1)) (d - 1)) d 0 0 := by
    rw [← gram_congr' hrY hrY hY hY h0Y h0Y]
    have := gram_entry chain.wf (s := x) rfl rfl []
    rw [← this, hNx, hndx]
  have eXS : ∀ S : TT ℝ, S.WF → S.rawShape = [X.shape] → S.ndims = d →
      chainDist N (blockRank r' (restN X.shape) 0) S.rank (blockChain U (copyCore X.shape) (D 0) 0) (S.fl []) d = entryDist (xTT X) S [] := by
    intro S hSw hSr hSn
    rw [← chainDist_entry hwx hSw (by rw [hSr, xTT_rawShape]) (by rw [hSn, hndX]) [], hndX, hNX]
    have h0S : 0 < S.rank d := hSw.rank_pos d (by rw [hSn])
    unfold chainDist
    rw [gram_congr' hrX hrX hX hX h0X h0X,
      gram_congr' (B' := S.fl []) (B := S.fl []) hrX (fun _ _ => rfl) hX (fun _ _ _ _ _ _ _ _ => rfl) h0X h0S]
  have eXY : chainDist N (blockRank r' (restN X.shape) 0) (blockRank r' (restN X.shape) (d - 1)) (blockChain U (copyCore X.shape) (D 0) 0)
      (blockChain U (copyCore X.shape) (D (d - 1)) (d - 1)) d = entryDist (xTT X) x [] := by
    rw [← eXS x chain.wf hxrs hndx]
    unfold chainDist
    rw [gram_congr' hrY hrY hY hY h0Y h0Y,
      gram_congr' (A' := blockChain U (copyCore X.shape) (D 0) 0) (A := blockChain U (copyCore X.shape) (D 0) 0) (fun _ _ => rfl) hrY
        (fun _ _ _ _ _ _ _ _ => rfl) hY h0X h0Y]
  obtain ⟨e1, e2⟩ := sw.error
  rw [eXY] at e1 e2
  refine ⟨x, e, chain.wf, hxrs, rfl, hndx, hrank, fun k h1 hk => ?_, fun k hk => ?_, tail, e1, by rw [e2, eX, eY], fun k hk S hSw hSr hSn hSb => ?_,
    U, D, sw.congr_rank hrank, ⟨fun k hk => ?_, fun k hk n hn a ha b hb => ?_⟩, ⟨fun k hk => ?_, fun k hk n hn a ha b hb => ?_⟩⟩
  · obtain ⟨k, rfl⟩ : ∃ j, k = j + 1 := ⟨k - 1, by omega⟩
    rw [hrank _ (by omega), hr', tuRank, if_neg (by omega)]
    exact keptRank_le_bound
  · have := (sw.step k hk).orth
    intro b hb b' hb'
    rw [hrank _ (by omega)] at hb hb'
    rw [hrank k (by omega), hmodes k (by omega), hfl k (by omega), List.prod_singleton]
    exact this b hb b' hb'
  · rw [← eXS S hSw hSr hSn]
    exact sw.best hk (S.fl []) (by rw [← hSn]; exact hSw.rank_last) hSb
  · rw [hndX] at hk
    rw [hrX k hk, blockRank_congr hrank hk]
  · rw [hndX] at hk
    rw [hNX] at hn
    rw [blockRank_congr hrank (by omega)] at ha hb
    exact hX k hk n hn a ha b hb
  · rw [hndx] at hk
    rw [hrY k hk, blockRank_congr hrank hk]
  · rw [hndx] at hk
    rw [hNx] at hn
    rw [blockRank_congr hrank (by omega)] at ha hb
    exact hY k hk n hn a ha b hb

end T3f
