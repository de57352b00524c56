import Verif.Proofs.RoundAbs

/-! # The left-to-right truncation sweep on chains -/

namespace T3f

/-- Truncation in the sweep from left to right: `D` are the blocks before truncation, `U` the new cores, `V` the cores of the
original chain. -/
structure LStep (N rU rV : ℕ → ℕ) (U V D : ℕ → ℕ → ℕ → ℕ → ℝ) (k : ℕ) (tail : ℝ) (bd : ℕ) : Prop where
  orth : LOrth N rU U k
  carry : ∀ n < N (k + 1), ∀ x < rU (k + 1), ∀ b < rV (k + 2), D (k + 1) n x b = ∑ l ∈ Finset.range (rV (k + 1)),
    (∑ a ∈ Finset.range (rU k), ∑ m ∈ Finset.range (N k), U k m a x * D k m a l) * V (k + 1) n l b
  norm : fro3 (rU k) (N k) (rV (k + 1)) (D k) = ∑ x ∈ Finset.range (rU (k + 1)), ∑ l ∈ Finset.range (rV (k + 1)),
    (∑ a ∈ Finset.range (rU k), ∑ m ∈ Finset.range (N k), U k m a x * D k m a l) ^ 2 + tail
  best : ∀ (ρ : ℕ) (P : ℕ → ℕ → ℕ → ℝ) (Q : ℕ → ℕ → ℝ), ρ ≤ bd →
    tail ≤ fro3 (rU k) (N k) (rV (k + 1)) fun n a b => D k n a b - ∑ x ∈ Finset.range ρ, P n a x * Q x b

/-- Everything about the sweep from left to right. -/
structure LSweep (N rU rV : ℕ → ℕ) (U V D : ℕ → ℕ → ℕ → ℕ → ℝ) (d : ℕ) (tail : ℕ → ℝ) (bd : ℕ → ℕ) : Prop where
  pos : 0 < d
  rU0 : rU 0 = 1
  rVd : rV d = 1
  rorth : ∀ k, 0 < k → k < d → ROrth N rV V k
  step : ∀ k, k + 1 < d → LStep N rU rV U V D k (tail k) (bd (k + 1))

variable {N rU rV : ℕ → ℕ} {U V D : ℕ → ℕ → ℕ → ℕ → ℝ} {d : ℕ} {tail : ℕ → ℝ} {bd : ℕ → ℕ}

theorem blockRank_congr {r r' rV : ℕ → ℕ} {d i k : ℕ} (h : ∀ k ≤ d, r k = r' k) (hk : k ≤ d) : blockRank r rV i k = blockRank r' rV i k := by
  unfold blockRank; rw [h k hk]

theorem LOrth.congr_rank {r r' : ℕ → ℕ} {A : ℕ → ℕ → ℕ → ℕ → ℝ} {k : ℕ} (h : LOrth N r A k) (h0 : r' k = r k) (h1 : r' (k + 1) = r (k + 1)) : LOrth N r' A k := by
  unfold LOrth at *; rw [h0, h1]; exact h

theorem LSweep.congr_rank (h : LSweep N rU rV U V D d tail bd) {r' : ℕ → ℕ} (hr : ∀ k ≤ d, r' k = rU k) : LSweep N r' rV U V D d tail bd := by
  refine ⟨h.pos, by rw [hr 0 (by omega), h.rU0], h.rVd, h.rorth, fun k hk => ?_⟩
  obtain ⟨h1, h2, h3, h4⟩ := h.step k hk
  have e0 := hr k (by omega)
  have e1 := hr (k + 1) (by omega)
  exact ⟨h1.congr_rank e0 e1, by rw [e0, e1]; exact h2, by rw [e0, e1]; exact h3, by rw [e0]; exact h4⟩

theorem LSweep.congr_bound (h : LSweep N rU rV U V D d tail bd) {b : ℕ → ℕ} (hb : ∀ k < d, b k = bd k) : LSweep N rU rV U V D d tail b := by
  refine ⟨h.pos, h.rU0, h.rVd, h.rorth, fun k hk => ?_⟩
  rw [hb (k + 1) hk]; exact h.step k hk

theorem LSweep.proj_eq (h : LSweep N rU rV U V D d tail bd) {i : ℕ} (hi : i < d) {n a b : ℕ} (hb : b < rV (i + 1)) :
    blockProj N rU rV (blockRank rU rV 0) U V (blockChain U V (D 0) 0) d i n a b =
      ∑ x ∈ Finset.range (blockRank rU rV 0 i), gram N rU (blockRank rU rV 0) U (blockChain U V (D 0) 0) i a x *
        blockChain U V (D 0) 0 i n x b := by
  unfold blockProj
  have hr : blockRank rU rV 0 (i + 1) = rV (i + 1) := if_neg (by omega)
  refine Finset.sum_congr rfl fun x _ => ?_
  rw [hr, ← sum_δ_left hb fun y => gram N rU (blockRank rU rV 0) U (blockChain U V (D 0) 0) i a x * blockChain U V (D 0) 0 i n x y]
  refine Finset.sum_congr rfl fun y hy => ?_
  rw [Finset.mem_range] at hy
  have e : rgram N rV (blockRank rU rV 0) V (blockChain U V (D 0) 0) (d - 1 - i) (i + 1) b y = δ b y := by
    rw [← rgram_id (N := N) (A := V) (ra := rV) (m := d - 1 - i) (k := i + 1) (by rw [show i + 1 + (d - 1 - i) = d by omega]; exact h.rVd)
      (fun j h1 h2 => h.rorth j (by omega) (by omega)) hb hy]
    refine rgram_congr (fun _ _ _ => rfl) (fun _ _ _ => rfl) (fun j h1 _ => if_neg (by omega)) (fun _ _ _ _ _ _ _ _ _ => rfl)
      (fun j h1 _ n _ a _ b _ => ?_) hb (hr.symm ▸ hy : y < blockRank rU rV 0 (i + 1))
    unfold blockChain
    rw [if_neg (by omega), if_neg (by omega)]
  rw [e]; ring

theorem LSweep.proj (h : LSweep N rU rV U V D d tail bd) {i : ℕ} (hi : i < d) :
    ∀ n < N i, ∀ a < rU i, ∀ b < rV (i + 1),
      blockProj N rU rV (blockRank rU rV 0) U V (blockChain U V (D 0) 0) d i n a b = D i n a b := by
  induction i with
  | zero =>
    intro n hn a ha b hb
    exact blockProj_self (D 0) hi h.rU0 h.rVd (fun j hj => absurd hj (by omega)) (fun j h1 h2 => h.rorth j h1 h2) ha hb
  | succ i ih =>
    intro n hn a ha b hb
    rw [h.proj_eq hi hb, (h.step i hi).carry n hn a ha b hb]
    have hr : blockRank rU rV 0 (i + 1) = rV (i + 1) := if_neg (by omega)
    rw [hr]
    refine Finset.sum_congr rfl fun x hx => ?_
    rw [Finset.mem_range] at hx
    have hV : blockChain U V (D 0) 0 (i + 1) n x b = V (i + 1) n x b := by
      unfold blockChain; rw [if_neg (by omega), if_neg (by omega)]
    rw [hV]
    congr 1
    rw [gram]
    refine Finset.sum_congr rfl fun a' ha' => ?_
    rw [Finset.mem_range] at ha'
    simp only [Finset.mul_sum]
    rw [Finset.sum_comm]
    refine Finset.sum_congr rfl fun m hm => ?_
    rw [Finset.mem_range] at hm
    rw [← ih (by omega) m hm a' ha' x hx, h.proj_eq (by omega) hx, Finset.mul_sum]
    exact Finset.sum_congr rfl fun c _ => by ring

theorem fro3_isometry_right {a M l c : ℕ} {A : ℕ → ℕ → ℕ → ℝ}
    (hA : ∀ b < l, ∀ b' < l, ∑ n ∈ Finset.range M, ∑ y ∈ Finset.range c, A n b y * A n b' y = δ b b')
    (E : ℕ → ℕ → ℝ) : fro3 a M c (fun n x y => ∑ b ∈ Finset.range l, E x b * A n b y) =
      ∑ x ∈ Finset.range a, ∑ b ∈ Finset.range l, E x b ^ 2 := by
  unfold fro3
  refine Finset.sum_congr rfl fun x _ => ?_
  calc _ = ∑ n ∈ Finset.range M, ∑ y ∈ Finset.range c, ∑ b ∈ Finset.range l, ∑ b' ∈ Finset.range l,
        (A n b y * A n b' y) * (E x b * E x b') := by
        refine Finset.sum_congr rfl fun n _ => Finset.sum_congr rfl fun y _ => ?_
        rw [sq, Finset.sum_mul_sum]
        exact Finset.sum_congr rfl fun b _ => Finset.sum_congr rfl fun b' _ => by ring
    _ = ∑ b ∈ Finset.range l, ∑ b' ∈ Finset.range l, (∑ n ∈ Finset.range M, ∑ y ∈ Finset.range c,
        A n b y * A n b' y) * (E x b * E x b') := by
        simp only [Finset.sum_mul]
        exact sum_swap4 _ _ _ _ _
    _ = _ := by
        refine Finset.sum_congr rfl fun b hb => ?_
        rw [Finset.mem_range] at hb
        rw [sq, ← sum_δ_left hb fun b' => E x b * E x b']
        exact Finset.sum_congr rfl fun b' hb' => by rw [hA b hb b' (Finset.mem_range.1 hb')]

theorem LSweep.fro_step (h : LSweep N rU rV U V D d tail bd) {k : ℕ} (hk : k + 1 < d) :
    fro3 (rU k) (N k) (rV (k + 1)) (D k) = fro3 (rU (k + 1)) (N (k + 1)) (rV (k + 2)) (D (k + 1)) + tail k := by
  have hs := h.step k hk
  rw [hs.norm]
  congr 1
  rw [← fro3_isometry_right (M := N (k + 1)) (c := rV (k + 2)) (A := V (k + 1))
    (fun b hb b' hb' => h.rorth (k + 1) (by omega) hk b hb b' hb')]
  exact (fro3_congr fun n hn a ha x hx => hs.carry n hn a ha x hx).symm

theorem LSweep.fro_sum (h : LSweep N rU rV U V D d tail bd) {k : ℕ} (hk : k < d) :
    fro3 (rU 0) (N 0) (rV 1) (D 0) = fro3 (rU k) (N k) (rV (k + 1)) (D k) + ∑ j ∈ Finset.range k, tail j := by
  induction k with
  | zero => simp
  | succ k ih => rw [ih (by omega), h.fro_step hk, Finset.sum_range_succ]; ring

/-- The result of the sweep. -/
theorem LSweep.error (h : LSweep N rU rV U V D d tail bd) :
    chainDist N (blockRank rU rV 0) (blockRank rU rV (d - 1)) (blockChain U V (D 0) 0) (blockChain U V (D (d - 1)) (d - 1)) d =
      ∑ j ∈ Finset.range (d - 1), tail j ∧
    chainDist N (blockRank rU rV 0) (blockRank rU rV (d - 1)) (blockChain U V (D 0) 0) (blockChain U V (D (d - 1)) (d - 1)) d =
      gram N (blockRank rU rV 0) (blockRank rU rV 0) (blockChain U V (D 0) 0) (blockChain U V (D 0) 0) d 0 0 -
      gram N (blockRank rU rV (d - 1)) (blockRank rU rV (d - 1)) (blockChain U V (D (d - 1)) (d - 1)) (blockChain U V (D (d - 1)) (d - 1)) d 0 0 := by
  have hd := h.pos
  have hz : (if d ≤ 0 then rU d else rV d) = 1 := by rw [if_neg (by omega)]; exact h.rVd
  have hz' : (if d ≤ d - 1 then rU d else rV d) = 1 := by rw [if_neg (by omega)]; exact h.rVd
  set T := blockChain U V (D 0) 0 with hT
  set rT := blockRank rU rV 0 with hrT
  set Y := blockChain U V (D (d - 1)) (d - 1)
  set rY := blockRank rU rV (d - 1)
  have e0 : gram N rT rT T T d 0 0 = fro3 (rU 0) (N 0) (rV 1) (D 0) := by
    rw [gram_block (N := N) (L := U) (V := V) (S := T) (D 0) hd hz hz]
    refine Finset.sum_congr rfl fun a ha => Finset.sum_congr rfl fun n hn => Finset.sum_congr rfl fun b hb => ?_
    rw [h.proj hd n (Finset.mem_range.1 hn) a (Finset.mem_range.1 ha) b (Finset.mem_range.1 hb), sq]
  have e1 : gram N rY rT Y T d 0 0 = fro3 (rU (d - 1)) (N (d - 1)) (rV (d - 1 + 1)) (D (d - 1)) := by
    rw [gram_block (N := N) (L := U) (V := V) (S := T) (D (d - 1)) (by omega) hz' hz]
    refine Finset.sum_congr rfl fun a ha => Finset.sum_congr rfl fun n hn => Finset.sum_congr rfl fun b hb => ?_
    rw [h.proj (by omega) n (Finset.mem_range.1 hn) a (Finset.mem_range.1 ha) b (Finset.mem_range.1 hb), sq]
  have e2 : gram N rY rY Y Y d 0 0 = fro3 (rU (d - 1)) (N (d - 1)) (rV (d - 1 + 1)) (D (d - 1)) := by
    rw [gram_block (N := N) (L := U) (V := V) (S := Y) (D (d - 1)) (by omega) hz' hz']
    refine Finset.sum_congr rfl fun a ha => Finset.sum_congr rfl fun n hn => Finset.sum_congr rfl fun b hb => ?_
    rw [blockProj_self (D (d - 1)) (by omega) h.rU0 h.rVd (fun j hj => (h.step j (by omega)).orth) (fun j h1 h2 => h.rorth j (by omega) h2)
      (Finset.mem_range.1 ha) (Finset.mem_range.1 hb), sq]
  have e4 := h.fro_sum (k := d - 1) (by omega)
  unfold chainDist
  rw [gram_comm d 0 0 (A := T) (B := Y), e1, e2, e0, e4]
  constructor <;> ring

theorem LSweep.best (h : LSweep N rU rV U V D d tail bd) {k : ℕ} (hk : k + 1 < d)
    {rS : ℕ → ℕ} (S : ℕ → ℕ → ℕ → ℕ → ℝ) (hS : rS d = 1) (hb : rS (k + 1) ≤ bd (k + 1)) :
    tail k ≤ chainDist N (blockRank rU rV 0) rS (blockChain U V (D 0) 0) S d := by
  have hz : blockRank rU rV 0 d = 1 := by unfold blockRank; rw [if_neg (by omega)]; exact h.rVd
  have h1 := (h.step k hk).best (rS (k + 1)) (fun n a y => ∑ x ∈ Finset.range (rS k), gram N rU rS U S k a x * S k n x y)
    (fun y b => rgram N rV rS V S (d - 1 - k) (k + 1) b y) hb
  have h2 := bessel (N := N) (L := U) (V := V) (T := blockChain U V (D 0) 0) (S := S) (rT := blockRank rU rV 0) (rS := rS)
    (show k < d by omega) h.rU0 h.rVd hz hS
    (fun j hj => (h.step j (by omega)).orth) (fun j h1 h2 => h.rorth j (by omega) h2)
  refine le_trans h1 (le_trans (le_of_eq ?_) h2)
  refine Finset.sum_congr rfl fun a ha => Finset.sum_congr rfl fun n hn => Finset.sum_congr rfl fun b hb => ?_
  rw [h.proj (by omega) n (Finset.mem_range.1 hn) a (Finset.mem_range.1 ha) b (Finset.mem_range.1 hb)]
  have e : blockProj N rU rV rS U V S d k n a b = ∑ y ∈ Finset.range (rS (k + 1)),
      (∑ x ∈ Finset.range (rS k), gram N rU rS U S k a x * S k n x y) * rgram N rV rS V S (d - 1 - k) (k + 1) b y := by
    unfold blockProj
    rw [Finset.sum_comm]
    exact Finset.sum_congr rfl fun y _ => by rw [Finset.sum_mul]
  rw [e]

end T3f
