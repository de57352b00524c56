import Verif.Proofs.Sweep

/-! # The projection on a tangent space, for chains

`L` is a left orthonormal chain, `V` a right orthonormal chain. The tangent space consists of the sums of the chains
`L₀ … L_{i-1} Dᵢ V_{i+1} … V_{d-1}`. -/

namespace T3f

variable {K : Type} [CommRing K] {N rL rV rW rS : ℕ → ℕ} {L V W S : ℕ → ℕ → ℕ → ℕ → K} {d : ℕ}

/-- The matrix seen by the chain `S` between the first `k` cores of `L` and the last `d - k` cores of `V`. -/
def coupling (N rL rV rS : ℕ → ℕ) (L V S : ℕ → ℕ → ℕ → ℕ → K) (d k c b : ℕ) : K :=
  ∑ x ∈ Finset.range (rS k), gram N rL rS L S k c x * rgram N rV rS V S (d - k) k b x

theorem coupling_left {i : ℕ} (c b : ℕ) : coupling N rL rV rS L V S d (i + 1) c b =
    ∑ a ∈ Finset.range (rL i), ∑ n ∈ Finset.range (N i), L i n a c * blockProj N rL rV rS L V S d i n a b := by
  unfold coupling blockProj
  rw [show d - (i + 1) = d - 1 - i by omega]
  simp only [gram, Finset.sum_mul, Finset.mul_sum]
  calc _ = ∑ y ∈ Finset.range (rS (i + 1)), ∑ a ∈ Finset.range (rL i), ∑ n ∈ Finset.range (N i), ∑ x ∈ Finset.range (rS i),
        gram N rL rS L S i a x * (L i n a c * S i n x y) * rgram N rV rS V S (d - 1 - i) (i + 1) b y :=
      Finset.sum_congr rfl fun y _ => Finset.sum_congr rfl fun a _ => Finset.sum_comm
    _ = ∑ a ∈ Finset.range (rL i), ∑ y ∈ Finset.range (rS (i + 1)), ∑ n ∈ Finset.range (N i), ∑ x ∈ Finset.range (rS i),
        gram N rL rS L S i a x * (L i n a c * S i n x y) * rgram N rV rS V S (d - 1 - i) (i + 1) b y := Finset.sum_comm
    _ = ∑ a ∈ Finset.range (rL i), ∑ n ∈ Finset.range (N i), ∑ y ∈ Finset.range (rS (i + 1)), ∑ x ∈ Finset.range (rS i),
        gram N rL rS L S i a x * (L i n a c * S i n x y) * rgram N rV rS V S (d - 1 - i) (i + 1) b y :=
      Finset.sum_congr rfl fun a _ => Finset.sum_comm
    _ = _ := Finset.sum_congr rfl fun a _ => Finset.sum_congr rfl fun n _ => by
        rw [Finset.sum_comm]
        exact Finset.sum_congr rfl fun x _ => Finset.sum_congr rfl fun y _ => by ring

theorem coupling_right {i : ℕ} (hi : i < d) (a b : ℕ) : coupling N rL rV rS L V S d i a b =
    ∑ n ∈ Finset.range (N i), ∑ y ∈ Finset.range (rV (i + 1)), blockProj N rL rV rS L V S d i n a y * V i n b y := by
  unfold coupling blockProj
  rw [show d - i = (d - 1 - i) + 1 by omega]
  simp only [rgram, Finset.sum_mul, Finset.mul_sum]
  calc _ = ∑ x ∈ Finset.range (rS i), ∑ y ∈ Finset.range (rV (i + 1)), ∑ n ∈ Finset.range (N i), ∑ z ∈ Finset.range (rS (i + 1)),
        gram N rL rS L S i a x * (V i n b y * S i n x z * rgram N rV rS V S (d - 1 - i) (i + 1) y z) :=
      Finset.sum_congr rfl fun x _ => Finset.sum_congr rfl fun y _ => Finset.sum_comm
    _ = ∑ x ∈ Finset.range (rS i), ∑ n ∈ Finset.range (N i), ∑ y ∈ Finset.range (rV (i + 1)), ∑ z ∈ Finset.range (rS (i + 1)),
        gram N rL rS L S i a x * (V i n b y * S i n x z * rgram N rV rS V S (d - 1 - i) (i + 1) y z) :=
      Finset.sum_congr rfl fun x _ => Finset.sum_comm
    _ = ∑ n ∈ Finset.range (N i), ∑ x ∈ Finset.range (rS i), ∑ y ∈ Finset.range (rV (i + 1)), ∑ z ∈ Finset.range (rS (i + 1)),
        gram N rL rS L S i a x * (V i n b y * S i n x z * rgram N rV rS V S (d - 1 - i) (i + 1) y z) := Finset.sum_comm
    _ = _ := Finset.sum_congr rfl fun n _ => by
        rw [Finset.sum_comm]
        exact Finset.sum_congr rfl fun y _ => Finset.sum_congr rfl fun x _ => Finset.sum_congr rfl fun z _ => by ring

/-- The block at `i` of the projection of `W`. -/
def tanBlock (N rL rV rW : ℕ → ℕ) (L V W : ℕ → ℕ → ℕ → ℕ → K) (d i n a b : ℕ) : K :=
  blockProj N rL rV rW L V W d i n a b -
    if i + 1 < d then ∑ c ∈ Finset.range (rL (i + 1)), L i n a c * coupling N rL rV rW L V W d (i + 1) c b else 0

/-- Inner product of the blocks at `i` seen by `W` and `S`. -/
def pairB (N rL rV rW rS : ℕ → ℕ) (L V W S : ℕ → ℕ → ℕ → ℕ → K) (d i : ℕ) : K :=
  ∑ a ∈ Finset.range (rL i), ∑ n ∈ Finset.range (N i), ∑ b ∈ Finset.range (rV (i + 1)),
    blockProj N rL rV rW L V W d i n a b * blockProj N rL rV rS L V S d i n a b

/-- Inner product of the matrices between the cores `k - 1` and `k` seen by `W` and `S`. -/
def pairG (N rL rV rW rS : ℕ → ℕ) (L V W S : ℕ → ℕ → ℕ → ℕ → K) (d k : ℕ) : K :=
  ∑ c ∈ Finset.range (rL k), ∑ b ∈ Finset.range (rV k), coupling N rL rV rW L V W d k c b * coupling N rL rV rS L V S d k c b

/-- A matrix applied to the columns of a block. -/
theorem sum_left_factor (i : ℕ) (E : ℕ → ℕ → K) :
    ∑ a ∈ Finset.range (rL i), ∑ n ∈ Finset.range (N i), ∑ b ∈ Finset.range (rV (i + 1)),
      (∑ c ∈ Finset.range (rL (i + 1)), L i n a c * E c b) * blockProj N rL rV rS L V S d i n a b =
    ∑ c ∈ Finset.range (rL (i + 1)), ∑ b ∈ Finset.range (rV (i + 1)), E c b * coupling N rL rV rS L V S d (i + 1) c b := by
  simp only [coupling_left, Finset.sum_mul, Finset.mul_sum]
  calc _ = ∑ a ∈ Finset.range (rL i), ∑ n ∈ Finset.range (N i), ∑ c ∈ Finset.range (rL (i + 1)), ∑ b ∈ Finset.range (rV (i + 1)),
        L i n a c * E c b * blockProj N rL rV rS L V S d i n a b :=
      Finset.sum_congr rfl fun a _ => Finset.sum_congr rfl fun n _ => Finset.sum_comm
    _ = ∑ a ∈ Finset.range (rL i), ∑ c ∈ Finset.range (rL (i + 1)), ∑ n ∈ Finset.range (N i), ∑ b ∈ Finset.range (rV (i + 1)),
        L i n a c * E c b * blockProj N rL rV rS L V S d i n a b := Finset.sum_congr rfl fun a _ => Finset.sum_comm
    _ = ∑ c ∈ Finset.range (rL (i + 1)), ∑ a ∈ Finset.range (rL i), ∑ n ∈ Finset.range (N i), ∑ b ∈ Finset.range (rV (i + 1)),
        L i n a c * E c b * blockProj N rL rV rS L V S d i n a b := Finset.sum_comm
    _ = ∑ c ∈ Finset.range (rL (i + 1)), ∑ a ∈ Finset.range (rL i), ∑ b ∈ Finset.range (rV (i + 1)), ∑ n ∈ Finset.range (N i),
        L i n a c * E c b * blockProj N rL rV rS L V S d i n a b :=
      Finset.sum_congr rfl fun c _ => Finset.sum_congr rfl fun a _ => Finset.sum_comm
    _ = ∑ c ∈ Finset.range (rL (i + 1)), ∑ b ∈ Finset.range (rV (i + 1)), ∑ a ∈ Finset.range (rL i), ∑ n ∈ Finset.range (N i),
        L i n a c * E c b * blockProj N rL rV rS L V S d i n a b := Finset.sum_congr rfl fun c _ => Finset.sum_comm
    _ = _ := Finset.sum_congr rfl fun c _ => Finset.sum_congr rfl fun b _ => Finset.sum_congr rfl fun a _ =>
        Finset.sum_congr rfl fun n _ => by ring

theorem sum_right_factor {i : ℕ} (hi : i < d) (E : ℕ → ℕ → K) :
    ∑ a ∈ Finset.range (rL i), ∑ n ∈ Finset.range (N i), ∑ b ∈ Finset.range (rV (i + 1)),
      (∑ c ∈ Finset.range (rV i), E a c * V i n c b) * blockProj N rL rV rS L V S d i n a b =
    ∑ a ∈ Finset.range (rL i), ∑ c ∈ Finset.range (rV i), E a c * coupling N rL rV rS L V S d i a c := by
  simp only [coupling_right hi, Finset.sum_mul, Finset.mul_sum]
  refine Finset.sum_congr rfl fun a _ => ?_
  calc _ = ∑ n ∈ Finset.range (N i), ∑ c ∈ Finset.range (rV i), ∑ b ∈ Finset.range (rV (i + 1)),
        E a c * V i n c b * blockProj N rL rV rS L V S d i n a b := Finset.sum_congr rfl fun n _ => Finset.sum_comm
    _ = ∑ c ∈ Finset.range (rV i), ∑ n ∈ Finset.range (N i), ∑ b ∈ Finset.range (rV (i + 1)),
        E a c * V i n c b * blockProj N rL rV rS L V S d i n a b := Finset.sum_comm
    _ = _ := Finset.sum_congr rfl fun c _ => Finset.sum_congr rfl fun n _ => Finset.sum_congr rfl fun b _ => by ring

theorem dot_tanBlock (i : ℕ) :
    ∑ a ∈ Finset.range (rL i), ∑ n ∈ Finset.range (N i), ∑ b ∈ Finset.range (rV (i + 1)),
      tanBlock N rL rV rW L V W d i n a b * blockProj N rL rV rS L V S d i n a b =
    pairB N rL rV rW rS L V W S d i - if i + 1 < d then pairG N rL rV rW rS L V W S d (i + 1) else 0 := by
  unfold tanBlock
  by_cases h : i + 1 < d
  · simp only [if_pos h, sub_mul, Finset.sum_sub_distrib]
    rw [sum_left_factor]
    rfl
  · simp only [if_neg h, sub_zero]; rfl

/-! ## Blocks of tangent vectors -/

section
variable {D : ℕ → ℕ → ℕ → K} {k : ℕ}

omit [CommRing K] in
theorem blockChain_lt {j : ℕ} (h : j < k) : blockChain L V D k j = L j := if_pos h
omit [CommRing K] in
theorem blockChain_eq : blockChain L V D k k = D := by unfold blockChain; simp
omit [CommRing K] in
theorem blockChain_gt {j : ℕ} (h : k < j) : blockChain L V D k j = V j := by
  unfold blockChain; rw [if_neg (by omega), if_neg (by omega)]
theorem blockRank_le {j : ℕ} (h : j ≤ k) : blockRank rL rV k j = rL j := if_pos h
theorem blockRank_gt {j : ℕ} (h : k < j) : blockRank rL rV k j = rV j := if_neg (by omega)

theorem gram_block_left (h0 : rL 0 = 1) (hL : ∀ j, j + 1 < d → LOrth N rL L j) (hk : k < d) {j a x : ℕ} (hj : j ≤ k) (ha : a < rL j) (hx : x < rL j) :
    gram N rL (blockRank rL rV k) L (blockChain L V D k) j a x = δ a x := by
  rw [← gram_id (N := N) (A := L) h0 (fun i hi => hL i (by omega)) ha hx]
  refine gram_congr (fun _ _ => rfl) (fun _ _ => rfl) (fun i hi => blockRank_le (by omega)) (fun _ _ _ _ _ _ _ _ => rfl) (fun i hi n _ a _ b _ => ?_) ha ?_
  · rw [blockChain_lt (by omega)]
  · rw [blockRank_le hj]; exact hx

theorem rgram_block_right (hd : rV d = 1) (hV : ∀ j, 0 < j → j < d → ROrth N rV V j) {j a x : ℕ} (hj : k < j) (hjd : j ≤ d) (ha : a < rV j) (hx : x < rV j) :
    rgram N rV (blockRank rL rV k) V (blockChain L V D k) (d - j) j a x = δ a x := by
  rw [← rgram_id (N := N) (A := V) (m := d - j) (k := j) (by rw [show j + (d - j) = d by omega]; exact hd) (fun i h1 h2 => hV i (by omega) (by omega)) ha hx]
  refine rgram_congr (fun _ _ _ => rfl) (fun _ _ _ => rfl) (fun i hi _ => blockRank_gt (by omega)) (fun _ _ _ _ _ _ _ _ _ => rfl)
    (fun i hi _ n _ a _ b _ => ?_) ha ?_
  · rw [blockChain_gt (by omega)]
  · rw [blockRank_gt hj]; exact hx

theorem blockProj_before (h0 : rL 0 = 1) (hL : ∀ j, j + 1 < d → LOrth N rL L j) (hk : k < d) {j : ℕ} (hj : j < k) {n a b : ℕ} (ha : a < rL j) :
    blockProj N rL rV (blockRank rL rV k) L V (blockChain L V D k) d j n a b =
      ∑ c ∈ Finset.range (rL (j + 1)), L j n a c * coupling N rL rV (blockRank rL rV k) L V (blockChain L V D k) d (j + 1) c b := by
  unfold blockProj coupling
  rw [blockRank_le (show j ≤ k by omega), blockRank_le (show j + 1 ≤ k by omega), show d - (j + 1) = d - 1 - j by omega]
  calc _ = ∑ x ∈ Finset.range (rL j), δ a x * ∑ y ∈ Finset.range (rL (j + 1)), L j n x y *
        rgram N rV (blockRank rL rV k) V (blockChain L V D k) (d - 1 - j) (j + 1) b y := by
        refine Finset.sum_congr rfl fun x hx => ?_
        rw [Finset.mul_sum]
        refine Finset.sum_congr rfl fun y _ => ?_
        rw [gram_block_left h0 hL hk (by omega) ha (Finset.mem_range.1 hx), blockChain_lt hj, mul_assoc]
    _ = _ := by
        rw [sum_δ_left ha]
        refine Finset.sum_congr rfl fun c hc => ?_
        rw [Finset.mem_range] at hc
        congr 1
        rw [← sum_δ_left hc fun y => rgram N rV (blockRank rL rV k) V (blockChain L V D k) (d - 1 - j) (j + 1) b y]
        exact Finset.sum_congr rfl fun y hy => by rw [gram_block_left h0 hL hk (by omega) hc (Finset.mem_range.1 hy)]

theorem blockProj_after (hd : rV d = 1) (hV : ∀ j, 0 < j → j < d → ROrth N rV V j) {j : ℕ} (hj : k < j) (hjd : j < d) {n a b : ℕ} (hb : b < rV (j + 1)) :
    blockProj N rL rV (blockRank rL rV k) L V (blockChain L V D k) d j n a b =
      ∑ c ∈ Finset.range (rV j), coupling N rL rV (blockRank rL rV k) L V (blockChain L V D k) d j a c * V j n c b := by
  unfold blockProj coupling
  rw [blockRank_gt (show k < j by omega), blockRank_gt (show k < j + 1 by omega)]
  calc _ = ∑ x ∈ Finset.range (rV j), gram N rL (blockRank rL rV k) L (blockChain L V D k) j a x * V j n x b := by
        refine Finset.sum_congr rfl fun x hx => ?_
        rw [← sum_δ_left hb fun y => gram N rL (blockRank rL rV k) L (blockChain L V D k) j a x * V j n x y]
        refine Finset.sum_congr rfl fun y hy => ?_
        rw [show d - 1 - j = d - (j + 1) by omega, rgram_block_right hd hV (by omega) (by omega) hb (Finset.mem_range.1 hy), blockChain_gt hj]
        ring
    _ = _ := by
        refine Finset.sum_congr rfl fun c hc => ?_
        rw [Finset.mem_range] at hc
        congr 1
        rw [← sum_δ_left hc fun x => gram N rL (blockRank rL rV k) L (blockChain L V D k) j a x]
        refine Finset.sum_congr rfl fun x hx => ?_
        rw [rgram_block_right hd hV hj (by omega) hc (Finset.mem_range.1 hx), mul_comm]

theorem blockProj_at (h0 : rL 0 = 1) (hd : rV d = 1) (hL : ∀ j, j + 1 < d → LOrth N rL L j) (hV : ∀ j, 0 < j → j < d → ROrth N rV V j)
    (hk : k < d) {n a b : ℕ} (ha : a < rL k) (hb : b < rV (k + 1)) :
    blockProj N rL rV (blockRank rL rV k) L V (blockChain L V D k) d k n a b = D n a b := by
  unfold blockProj
  rw [blockRank_le (le_refl k), blockRank_gt (show k < k + 1 by omega)]
  calc _ = ∑ x ∈ Finset.range (rL k), δ a x * ∑ y ∈ Finset.range (rV (k + 1)), δ b y * D n x y := by
        refine Finset.sum_congr rfl fun x hx => ?_
        rw [Finset.mul_sum]
        refine Finset.sum_congr rfl fun y hy => ?_
        rw [gram_block_left h0 hL hk le_rfl ha (Finset.mem_range.1 hx), show d - 1 - k = d - (k + 1) by omega,
          rgram_block_right hd hV (by omega) (by omega) hb (Finset.mem_range.1 hy), blockChain_eq]
        ring
    _ = _ := by rw [sum_δ_left ha, sum_δ_left hb]

/-- The residual of the projection is orthogonal to the tangent vectors. -/
theorem tan_dot (h0 : rL 0 = 1) (hd : rV d = 1) (hW : rW d = 1) (hL : ∀ j, j + 1 < d → LOrth N rL L j) (hV : ∀ j, 0 < j → j < d → ROrth N rV V j)
    (hk : k < d) :
    ∑ i ∈ Finset.range d, gram N (blockRank rL rV i) (blockRank rL rV k) (blockChain L V (tanBlock N rL rV rW L V W d i) i) (blockChain L V D k) d 0 0 =
      gram N rW (blockRank rL rV k) W (blockChain L V D k) d 0 0 := by
  have hz : ∀ i < d, (if d ≤ i then rL d else rV d) = 1 := fun i hi => by rw [if_neg (by omega)]; exact hd
  set rS := blockRank rL rV k with hrS
  set S := blockChain L V D k with hS
  have hSd : rS d = 1 := hz k hk
  rw [Finset.sum_congr rfl fun i hi => (gram_block _ (Finset.mem_range.1 hi) (hz i (Finset.mem_range.1 hi)) hSd).trans (dot_tanBlock i)]
  rw [gram_comm, gram_block D hk (hz k hk) hW]
  -- the blocks of `S`
  have before : ∀ j < k, pairB N rL rV rW rS L V W S d j = pairG N rL rV rW rS L V W S d (j + 1) := by
    intro j hj
    unfold pairB pairG
    rw [Finset.sum_congr rfl fun c _ => Finset.sum_congr rfl fun b _ => mul_comm _ _, ← sum_left_factor]
    refine Finset.sum_congr rfl fun a ha => Finset.sum_congr rfl fun n _ => Finset.sum_congr rfl fun b _ => ?_
    rw [mul_comm, blockProj_before h0 hL hk hj (Finset.mem_range.1 ha)]
  have after : ∀ j, k < j → j < d → pairB N rL rV rW rS L V W S d j = pairG N rL rV rW rS L V W S d j := by
    intro j hj hjd
    unfold pairB pairG
    rw [Finset.sum_congr rfl fun c _ => Finset.sum_congr rfl fun b _ => mul_comm _ _, ← sum_right_factor hjd]
    refine Finset.sum_congr rfl fun a _ => Finset.sum_congr rfl fun n _ => Finset.sum_congr rfl fun b hb => ?_
    rw [mul_comm, blockProj_after hd hV hj hjd (Finset.mem_range.1 hb)]
  have at_k : pairB N rL rV rW rS L V W S d k = ∑ a ∈ Finset.range (rL k), ∑ n ∈ Finset.range (N k), ∑ b ∈ Finset.range (rV (k + 1)),
      D n a b * blockProj N rL rV rW L V W d k n a b := by
    refine Finset.sum_congr rfl fun a ha => Finset.sum_congr rfl fun n _ => Finset.sum_congr rfl fun b hb => ?_
    rw [mul_comm, blockProj_at h0 hd hL hV hk (Finset.mem_range.1 ha) (Finset.mem_range.1 hb)]
  rw [← at_k]
  -- telescope
  obtain ⟨m, rfl⟩ : ∃ m, d = k + 1 + m := ⟨d - (k + 1), by omega⟩
  rw [Finset.sum_range_add, Finset.sum_range_succ]
  rw [Finset.sum_eq_zero fun j hj => by
    have := Finset.mem_range.1 hj
    rw [before j this, if_pos (by omega), sub_self], zero_add]
  have tele : ∀ q ≤ m, ∑ x ∈ Finset.range q, (pairB N rL rV rW rS L V W S (k + 1 + m) (k + 1 + x) -
      if k + 1 + x + 1 < k + 1 + m then pairG N rL rV rW rS L V W S (k + 1 + m) (k + 1 + x + 1) else 0) =
      (if k + 1 < k + 1 + m then pairG N rL rV rW rS L V W S (k + 1 + m) (k + 1) else 0) -
        if k + 1 + q < k + 1 + m then pairG N rL rV rW rS L V W S (k + 1 + m) (k + 1 + q) else 0 := by
    intro q hq
    induction q with
    | zero => simp
    | succ q ih =>
      rw [Finset.sum_range_succ, ih (by omega), after _ (by omega) (by omega), if_pos (show k + 1 + q < k + 1 + m by omega),
        show k + 1 + (q + 1) = k + 1 + q + 1 by omega]
      ring
  rw [tele m le_rfl, if_neg (show ¬ k + 1 + m < k + 1 + m by omega)]
  ring

end

end T3f
