import Verif.Proofs.ToTTAbs

/-! # The intermediate tensors of the truncation sweeps

After every truncation the sweep stands for a chain: the orthonormal cores on both sides of the current block. Consecutive chains are nearest
approximations of each other. -/

namespace T3f

section
variable {N rL rV : ℕ → ℕ} {L V D : ℕ → ℕ → ℕ → ℕ → ℝ} {d : ℕ}

/-- The right part of a chain with a block, seen by the cores on the right. -/
theorem rgram_blockChain (B : ℕ → ℕ → ℕ → ℝ) {i m k : ℕ} (hk : i < k) (h1 : rV (k + m) = 1) (h : ∀ j, k ≤ j → j < k + m → ROrth N rV V j) {x y : ℕ}
    (hx : x < rV k) (hy : y < rV k) : rgram N rV (blockRank rL rV i) V (blockChain L V B i) m k x y = δ x y := by
  rw [← rgram_id (N := N) (A := V) h1 h hx hy]
  exact rgram_congr (fun _ _ _ => rfl) (fun _ _ _ => rfl) (fun j hj _ => if_neg (by omega)) (fun _ _ _ _ _ _ _ _ _ => rfl)
    (fun j hj _ n _ a _ b _ => by unfold blockChain; rw [if_neg (by omega), if_neg (by omega)]) hx
    (show y < blockRank rL rV i k by rw [blockRank, if_neg (by omega)]; exact hy)

/-- The left part of a chain with a block, seen by the cores on the left. -/
theorem gram_blockChain (B : ℕ → ℕ → ℕ → ℝ) {i k : ℕ} (hk : k ≤ i) (h0 : rL 0 = 1) (h : ∀ j < k, LOrth N rL L j) {x y : ℕ}
    (hx : x < rL k) (hy : y < rL k) : gram N rL (blockRank rL rV i) L (blockChain L V B i) k x y = δ x y := by
  rw [← gram_id h0 h hx hy]
  exact gram_congr (fun _ _ => rfl) (fun _ _ => rfl) (fun j hj => if_pos (by omega)) (fun _ _ _ _ _ _ _ _ => rfl)
    (fun j hj n _ a _ b _ => by unfold blockChain; rw [if_pos (by omega)]) hx
    (show y < blockRank rL rV i k by rw [blockRank, if_pos hk]; exact hy)

theorem gram_block_self (B : ℕ → ℕ → ℕ → ℝ) {i : ℕ} (hi : i < d) (h0 : rL 0 = 1) (hd : rV d = 1)
    (hL : ∀ j < i, LOrth N rL L j) (hV : ∀ j, i < j → j < d → ROrth N rV V j) :
    gram N (blockRank rL rV i) (blockRank rL rV i) (blockChain L V B i) (blockChain L V B i) d 0 0 = fro3 (rL i) (N i) (rV (i + 1)) B := by
  have hz : (if d ≤ i then rL d else rV d) = 1 := by rw [if_neg (by omega)]; exact hd
  rw [gram_block (N := N) (L := L) (V := V) (S := blockChain L V B i) B hi hz hz]
  refine Finset.sum_congr rfl fun a ha => Finset.sum_congr rfl fun n hn => Finset.sum_congr rfl fun b hb => ?_
  rw [blockProj_self B hi h0 hd hL hV (Finset.mem_range.1 ha) (Finset.mem_range.1 hb), sq]

/-- Distances from a chain with a block are at least the distances of the blocks. -/
theorem block_bessel (B : ℕ → ℕ → ℕ → ℝ) {i : ℕ} (hi : i < d) (h0 : rL 0 = 1) (hd : rV d = 1)
    (hL : ∀ j < i, LOrth N rL L j) (hV : ∀ j, i < j → j < d → ROrth N rV V j) {rS : ℕ → ℕ} (S : ℕ → ℕ → ℕ → ℕ → ℝ) (hS : rS d = 1) :
    fro3 (rL i) (N i) (rV (i + 1)) (fun n a b => B n a b - blockProj N rL rV rS L V S d i n a b) ≤
      chainDist N (blockRank rL rV i) rS (blockChain L V B i) S d := by
  have hz : blockRank rL rV i d = 1 := by unfold blockRank; rw [if_neg (by omega)]; exact hd
  refine le_trans (le_of_eq ?_) (bessel (N := N) (L := L) (V := V) (T := blockChain L V B i) (S := S) (rT := blockRank rL rV i) (rS := rS) hi h0 hd hz hS hL hV)
  refine Finset.sum_congr rfl fun a ha => Finset.sum_congr rfl fun n hn => Finset.sum_congr rfl fun b hb => ?_
  rw [blockProj_self B hi h0 hd hL hV (Finset.mem_range.1 ha) (Finset.mem_range.1 hb)]

end

section
variable {N rL rV : ℕ → ℕ} {L V C : ℕ → ℕ → ℕ → ℕ → ℝ} {d : ℕ} {tail : ℕ → ℝ} {bd : ℕ → ℕ}

/-- What the next block of the sweep from right to left is. -/
theorem RSweep.stage_proj (h : RSweep N rL rV L V C d tail bd) {i : ℕ} (hi : i + 1 < d) {n a b : ℕ} (hn : n < N i) (ha : a < rL i) (hb : b < rV (i + 1)) :
    blockProj N rL rV (blockRank rL rV (i + 1)) L V (blockChain L V (C (i + 1)) (i + 1)) d i n a b = C i n a b := by
  have hs := (h.step (i + 1) (by omega) hi).carry n (by simpa using hn) a (by simpa using ha) b hb
  simp only [Nat.add_sub_cancel] at hs
  have h1 : blockRank rL rV (i + 1) i = rL i := if_pos (by omega)
  have h2 : blockRank rL rV (i + 1) (i + 1) = rL (i + 1) := if_pos le_rfl
  have h3 : blockRank rL rV (i + 1) (i + 1 + 1) = rV (i + 1 + 1) := if_neg (by omega)
  have c1 : blockChain L V (C (i + 1)) (i + 1) i = L i := by unfold blockChain; rw [if_pos (by omega)]
  have c2 : blockChain L V (C (i + 1)) (i + 1) (i + 1) = C (i + 1) := by unfold blockChain; rw [if_neg (by omega), if_pos rfl]
  have g : ∀ y, rgram N rV (blockRank rL rV (i + 1)) V (blockChain L V (C (i + 1)) (i + 1)) (d - 1 - i) (i + 1) b y =
      ∑ m ∈ Finset.range (N (i + 1)), ∑ b' ∈ Finset.range (rV (i + 1 + 1)), C (i + 1) m y b' * V (i + 1) m b b' := by
    intro y
    rw [show d - 1 - i = (d - 2 - i) + 1 by omega, rgram, h3, c2, Finset.sum_comm (s := Finset.range (N (i + 1)))]
    refine Finset.sum_congr rfl fun a' ha' => ?_
    rw [Finset.mem_range] at ha'
    rw [← sum_δ_right ha' fun c => ∑ m ∈ Finset.range (N (i + 1)), C (i + 1) m y c * V (i + 1) m b a']
    refine Finset.sum_congr rfl fun c hc => ?_
    rw [rgram_blockChain (C (i + 1)) (by omega) (by rw [show i + 1 + 1 + (d - 2 - i) = d by omega]; exact h.rVd)
      (fun j h1 h2 => (h.step j (by omega) (by omega)).orth) ha' (Finset.mem_range.1 hc), δ_comm]
    exact congrArg (· * _) (Finset.sum_congr rfl fun m _ => mul_comm _ _)
  unfold blockProj
  rw [h1, h2, c1, hs]
  calc _ = ∑ x ∈ Finset.range (rL i), δ a x * ∑ y ∈ Finset.range (rL (i + 1)), L i n x y *
        ∑ m ∈ Finset.range (N (i + 1)), ∑ b' ∈ Finset.range (rV (i + 1 + 1)), C (i + 1) m y b' * V (i + 1) m b b' := by
        refine Finset.sum_congr rfl fun x hx => ?_
        rw [Finset.mul_sum]
        refine Finset.sum_congr rfl fun y hy => ?_
        rw [gram_blockChain (C (i + 1)) (by omega) h.rL0 (fun j hj => h.lorth j (by omega)) ha (Finset.mem_range.1 hx), g y]; ring
    _ = _ := sum_δ_left ha _

/-- What one truncation loses. -/
theorem RSweep.stage_dist (h : RSweep N rL rV L V C d tail bd) {i : ℕ} (hi : i + 1 < d) :
    chainDist N (blockRank rL rV (i + 1)) (blockRank rL rV i) (blockChain L V (C (i + 1)) (i + 1)) (blockChain L V (C i) i) d = tail (i + 1) := by
  have hz : (if d ≤ i then rL d else rV d) = 1 := by rw [if_neg (by omega)]; exact h.rVd
  have hz' : (if d ≤ i + 1 then rL d else rV d) = 1 := by rw [if_neg (by omega)]; exact h.rVd
  unfold chainDist
  rw [gram_block_self _ hi h.rL0 h.rVd (fun j hj => h.lorth j (by omega)) (fun j h1 h2 => (h.step j (by omega) h2).orth),
    gram_block_self _ (by omega) h.rL0 h.rVd (fun j hj => h.lorth j (by omega)) (fun j h1 h2 => (h.step j (by omega) h2).orth), gram_comm,
    gram_block (N := N) (L := L) (V := V) (S := blockChain L V (C (i + 1)) (i + 1)) (C i) (by omega) hz hz', h.fro_step hi]
  have e : ∑ a ∈ Finset.range (rL i), ∑ n ∈ Finset.range (N i), ∑ b ∈ Finset.range (rV (i + 1)),
      C i n a b * blockProj N rL rV (blockRank rL rV (i + 1)) L V (blockChain L V (C (i + 1)) (i + 1)) d i n a b =
      fro3 (rL i) (N i) (rV (i + 1)) (C i) := by
    refine Finset.sum_congr rfl fun a ha => Finset.sum_congr rfl fun n hn => Finset.sum_congr rfl fun b hb => ?_
    rw [h.stage_proj hi (Finset.mem_range.1 hn) (Finset.mem_range.1 ha) (Finset.mem_range.1 hb), sq]
  rw [e]
  ring

/-- No chain with a small rank at the cut is nearer. -/
theorem RSweep.stage_best (h : RSweep N rL rV L V C d tail bd) {k : ℕ} (hk0 : 0 < k) (hk : k < d)
    {rS : ℕ → ℕ} (S : ℕ → ℕ → ℕ → ℕ → ℝ) (hS : rS d = 1) (hb : rS k ≤ bd k) :
    tail k ≤ chainDist N (blockRank rL rV k) rS (blockChain L V (C k) k) S d := by
  have h1 := (h.step k hk0 hk).best (rS k) (fun a x => gram N rL rS L S k a x)
    (fun x n b => ∑ y ∈ Finset.range (rS (k + 1)), S k n x y * rgram N rV rS V S (d - 1 - k) (k + 1) b y) hb
  have h2 := block_bessel (N := N) (L := L) (V := V) (C k) hk h.rL0 h.rVd
    (fun j hj => h.lorth j (by omega)) (fun j h1 h2 => (h.step j (by omega) h2).orth) S hS
  refine le_trans h1 (le_trans (le_of_eq ?_) h2)
  refine fro3_congr fun n _ a _ b _ => ?_
  congr 1
  unfold blockProj
  refine Finset.sum_congr rfl fun x _ => ?_
  rw [Finset.mul_sum]
  exact Finset.sum_congr rfl fun y _ => by ring

end

section
variable {N rU rV : ℕ → ℕ} {U V D : ℕ → ℕ → ℕ → ℕ → ℝ} {d : ℕ} {tail : ℕ → ℝ} {bd : ℕ → ℕ}

/-- What the next block of the sweep from left to right is. -/
theorem LSweep.stage_proj (h : LSweep N rU rV U V D d tail bd) {i : ℕ} (hi : i + 1 < d) {n a b : ℕ} (hn : n < N (i + 1)) (ha : a < rU (i + 1))
    (hb : b < rV (i + 2)) :
    blockProj N rU rV (blockRank rU rV i) U V (blockChain U V (D i) i) d (i + 1) n a b = D (i + 1) n a b := by
  have hs := (h.step i hi).carry n hn a ha b hb
  have h1 : blockRank rU rV i (i + 1) = rV (i + 1) := if_neg (by omega)
  have h2 : blockRank rU rV i (i + 1 + 1) = rV (i + 2) := if_neg (by omega)
  have h3 : blockRank rU rV i i = rU i := if_pos le_rfl
  have c1 : blockChain U V (D i) i (i + 1) = V (i + 1) := by unfold blockChain; rw [if_neg (by omega), if_neg (by omega)]
  have c2 : blockChain U V (D i) i i = D i := by unfold blockChain; rw [if_neg (by omega), if_pos rfl]
  have g : ∀ x, gram N rU (blockRank rU rV i) U (blockChain U V (D i) i) (i + 1) a x =
      ∑ a' ∈ Finset.range (rU i), ∑ m ∈ Finset.range (N i), U i m a' a * D i m a' x := by
    intro x
    rw [gram, h3, c2]
    refine Finset.sum_congr rfl fun a' ha' => ?_
    rw [Finset.mem_range] at ha'
    rw [← sum_δ_left ha' fun c => ∑ m ∈ Finset.range (N i), U i m a' a * D i m c x]
    refine Finset.sum_congr rfl fun c hc => ?_
    rw [gram_blockChain (D i) le_rfl h.rU0 (fun j hj => (h.step j (by omega)).orth) ha' (Finset.mem_range.1 hc)]
  unfold blockProj
  rw [h1, h2, c1, hs]
  refine Finset.sum_congr rfl fun x _ => ?_
  rw [g x, ← sum_δ_right hb fun y => (∑ a' ∈ Finset.range (rU i), ∑ m ∈ Finset.range (N i), U i m a' a * D i m a' x) * V (i + 1) n x y]
  refine Finset.sum_congr rfl fun y hy => ?_
  rw [rgram_blockChain (D i) (by omega) (by rw [show i + 1 + 1 + (d - 1 - (i + 1)) = d by omega]; exact h.rVd)
    (fun j h1 h2 => h.rorth j (by omega) (by omega)) hb (Finset.mem_range.1 hy), δ_comm]

/-- What one truncation loses. -/
theorem LSweep.stage_dist (h : LSweep N rU rV U V D d tail bd) {i : ℕ} (hi : i + 1 < d) :
    chainDist N (blockRank rU rV i) (blockRank rU rV (i + 1)) (blockChain U V (D i) i) (blockChain U V (D (i + 1)) (i + 1)) d = tail i := by
  have hz : (if d ≤ i then rU d else rV d) = 1 := by rw [if_neg (by omega)]; exact h.rVd
  have hz' : (if d ≤ i + 1 then rU d else rV d) = 1 := by rw [if_neg (by omega)]; exact h.rVd
  unfold chainDist
  rw [gram_block_self _ hi h.rU0 h.rVd (fun j hj => (h.step j (by omega)).orth) (fun j h1 h2 => h.rorth j (by omega) h2),
    gram_block_self _ (by omega) h.rU0 h.rVd (fun j hj => (h.step j (by omega)).orth) (fun j h1 h2 => h.rorth j (by omega) h2), gram_comm,
    gram_block (N := N) (L := U) (V := V) (S := blockChain U V (D i) i) (D (i + 1)) hi hz' hz, h.fro_step hi]
  have e : ∑ a ∈ Finset.range (rU (i + 1)), ∑ n ∈ Finset.range (N (i + 1)), ∑ b ∈ Finset.range (rV (i + 1 + 1)),
      D (i + 1) n a b * blockProj N rU rV (blockRank rU rV i) U V (blockChain U V (D i) i) d (i + 1) n a b =
      fro3 (rU (i + 1)) (N (i + 1)) (rV (i + 2)) (D (i + 1)) := by
    refine Finset.sum_congr rfl fun a ha => Finset.sum_congr rfl fun n hn => Finset.sum_congr rfl fun b hb => ?_
    rw [h.stage_proj hi (Finset.mem_range.1 hn) (Finset.mem_range.1 ha) (Finset.mem_range.1 hb), sq]
  rw [e]
  ring

/-- No chain with a small rank at the cut is nearer. -/
theorem LSweep.stage_best (h : LSweep N rU rV U V D d tail bd) {k : ℕ} (hk : k + 1 < d)
    {rS : ℕ → ℕ} (S : ℕ → ℕ → ℕ → ℕ → ℝ) (hS : rS d = 1) (hb : rS (k + 1) ≤ bd (k + 1)) :
    tail k ≤ chainDist N (blockRank rU rV k) rS (blockChain U V (D k) k) S d := by
  have h1 := (h.step k hk).best (rS (k + 1)) (fun n a y => ∑ x ∈ Finset.range (rS k), gram N rU rS U S k a x * S k n x y)
    (fun y b => rgram N rV rS V S (d - 1 - k) (k + 1) b y) hb
  have h2 := block_bessel (N := N) (L := U) (V := V) (D k) (show k < d by omega) h.rU0 h.rVd
    (fun j hj => (h.step j (by omega)).orth) (fun j h1 h2 => h.rorth j (by omega) h2) S hS
  refine le_trans h1 (le_trans (le_of_eq ?_) h2)
  refine fro3_congr fun n _ a _ b _ => ?_
  congr 1
  unfold blockProj
  rw [Finset.sum_comm]
  exact Finset.sum_congr rfl fun y _ => by rw [Finset.sum_mul]

end

end T3f
