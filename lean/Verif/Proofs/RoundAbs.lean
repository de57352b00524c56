import Verif.Proofs.Sweep

/-! # The truncation sweeps on chains -/

namespace T3f

variable {N rL rV : ℕ → ℕ} {L V C : ℕ → ℕ → ℕ → ℕ → ℝ}

/-- Sum of squares of a block. -/
def fro3 (a N b : ℕ) (D : ℕ → ℕ → ℕ → ℝ) : ℝ :=
  ∑ α ∈ Finset.range a, ∑ n ∈ Finset.range N, ∑ β ∈ Finset.range b, D n α β ^ 2

/-- Truncation of core `k` in the sweep from right to left. `C` are the blocks before truncation, `V` the new cores,
`L` the orthogonalized ones. -/
structure RStep (N rL rV : ℕ → ℕ) (L V C : ℕ → ℕ → ℕ → ℕ → ℝ) (k : ℕ) (tail : ℝ) (bd : ℕ) : Prop where
  orth : ROrth N rV V k
  carry : ∀ n < N (k - 1), ∀ a < rL (k - 1), ∀ x < rV k, C (k - 1) n a x = ∑ l ∈ Finset.range (rL k),
    L (k - 1) n a l * ∑ m ∈ Finset.range (N k), ∑ b ∈ Finset.range (rV (k + 1)), C k m l b * V k m x b
  norm : fro3 (rL k) (N k) (rV (k + 1)) (C k) = ∑ a ∈ Finset.range (rL k), ∑ x ∈ Finset.range (rV k),
    (∑ m ∈ Finset.range (N k), ∑ b ∈ Finset.range (rV (k + 1)), C k m a b * V k m x b) ^ 2 + tail
  best : ∀ (ρ : ℕ) (P : ℕ → ℕ → ℝ) (Q : ℕ → ℕ → ℕ → ℝ), ρ ≤ bd →
    tail ≤ fro3 (rL k) (N k) (rV (k + 1)) fun n a b => C k n a b - ∑ x ∈ Finset.range ρ, P a x * Q x n b

theorem sum_swap4 {K : Type} [AddCommMonoid K] (s t u v : Finset ℕ) (F : ℕ → ℕ → ℕ → ℕ → K) :
    ∑ x ∈ s, ∑ y ∈ t, ∑ a ∈ u, ∑ c ∈ v, F x y a c = ∑ a ∈ u, ∑ c ∈ v, ∑ x ∈ s, ∑ y ∈ t, F x y a c := by
  calc _ = ∑ x ∈ s, ∑ a ∈ u, ∑ y ∈ t, ∑ c ∈ v, F x y a c := Finset.sum_congr rfl fun x _ => Finset.sum_comm
    _ = ∑ a ∈ u, ∑ x ∈ s, ∑ y ∈ t, ∑ c ∈ v, F x y a c := Finset.sum_comm
    _ = ∑ a ∈ u, ∑ x ∈ s, ∑ c ∈ v, ∑ y ∈ t, F x y a c :=
        Finset.sum_congr rfl fun a _ => Finset.sum_congr rfl fun x _ => Finset.sum_comm
    _ = _ := Finset.sum_congr rfl fun a _ => Finset.sum_comm

theorem fro3_congr {a M b : ℕ} {D D' : ℕ → ℕ → ℕ → ℝ} (h : ∀ n < M, ∀ α < a, ∀ β < b, D n α β = D' n α β) :
    fro3 a M b D = fro3 a M b D' :=
  Finset.sum_congr rfl fun α hα => Finset.sum_congr rfl fun n hn => Finset.sum_congr rfl fun β hβ => by
    rw [h n (Finset.mem_range.1 hn) α (Finset.mem_range.1 hα) β (Finset.mem_range.1 hβ)]

/-- Everything about the sweep from right to left. -/
structure RSweep (N rL rV : ℕ → ℕ) (L V C : ℕ → ℕ → ℕ → ℕ → ℝ) (d : ℕ) (tail : ℕ → ℝ) (bd : ℕ → ℕ) : Prop where
  pos : 0 < d
  rL0 : rL 0 = 1
  rLd : rL d = 1
  rVd : rV d = 1
  lorth : ∀ k, k + 1 < d → LOrth N rL L k
  last : ∀ n < N (d - 1), ∀ a < rL (d - 1), C (d - 1) n a 0 = L (d - 1) n a 0
  step : ∀ k, 0 < k → k < d → RStep N rL rV L V C k (tail k) (bd k)

theorem RSweep.block {d : ℕ} {tail : ℕ → ℝ} {bd : ℕ → ℕ} (h : RSweep N rL rV L V C d tail bd) {i : ℕ} (hi : i < d) :
    ∀ n < N i, ∀ a < rL i, ∀ b < rV (i + 1), C i n a b =
      ∑ y ∈ Finset.range (rL (i + 1)), L i n a y * rgram N rL rV L V (d - 1 - i) (i + 1) y b := by
  have hd := h.pos
  have hd1 : d - 1 + 1 = d := by omega
  induction hj : d - 1 - i generalizing i with
  | zero =>
    obtain rfl : i = d - 1 := by omega
    intro n hn a ha b hb
    rw [hd1, h.rVd] at hb
    obtain rfl : b = 0 := by omega
    rw [hd1, h.rLd, Finset.sum_range_one, rgram, mul_one, h.last n hn a ha]
  | succ m ih =>
    intro n hn a ha b hb
    have hc := (h.step (i + 1) (by omega) (by omega)).carry n (by simpa using hn) a (by simpa using ha) b hb
    simp only [Nat.add_sub_cancel] at hc
    rw [hc]
    refine Finset.sum_congr rfl fun l hl => congrArg _ ?_
    rw [Finset.mem_range] at hl
    have key := ih (i := i + 1) (by omega) (by omega)
    rw [rgram]
    calc _ = ∑ m' ∈ Finset.range (N (i + 1)), ∑ b' ∈ Finset.range (rV (i + 1 + 1)), ∑ y ∈ Finset.range (rL (i + 1 + 1)),
          L (i + 1) m' l y * rgram N rL rV L V m (i + 1 + 1) y b' * V (i + 1) m' b b' := by
          refine Finset.sum_congr rfl fun m' hm => Finset.sum_congr rfl fun b' hb' => ?_
          rw [key m' (Finset.mem_range.1 hm) l hl b' (Finset.mem_range.1 hb'), Finset.sum_mul]
      _ = _ := by
          simp only [Finset.sum_mul]
          calc _ = ∑ m' ∈ Finset.range (N (i + 1)), ∑ y ∈ Finset.range (rL (i + 1 + 1)), ∑ b' ∈ Finset.range (rV (i + 1 + 1)),
                L (i + 1) m' l y * rgram N rL rV L V m (i + 1 + 1) y b' * V (i + 1) m' b b' :=
                Finset.sum_congr rfl fun m' _ => Finset.sum_comm
            _ = ∑ y ∈ Finset.range (rL (i + 1 + 1)), ∑ m' ∈ Finset.range (N (i + 1)), ∑ b' ∈ Finset.range (rV (i + 1 + 1)),
                L (i + 1) m' l y * rgram N rL rV L V m (i + 1 + 1) y b' * V (i + 1) m' b b' := Finset.sum_comm
            _ = _ := Finset.sum_congr rfl fun y _ => by
                rw [Finset.sum_comm]
                exact Finset.sum_congr rfl fun b' _ => Finset.sum_congr rfl fun m' _ => by ring

theorem RSweep.proj {d : ℕ} {tail : ℕ → ℝ} {bd : ℕ → ℕ} (h : RSweep N rL rV L V C d tail bd) {i : ℕ} (hi : i < d) :
    ∀ n < N i, ∀ a < rL i, ∀ b < rV (i + 1), blockProj N rL rV rL L V L d i n a b = C i n a b := by
  intro n hn a ha b hb
  rw [h.block hi n hn a ha b hb]
  unfold blockProj
  calc _ = ∑ x ∈ Finset.range (rL i), δ a x * ∑ y ∈ Finset.range (rL (i + 1)), L i n x y * rgram N rL rV L V (d - 1 - i) (i + 1) y b := by
        refine Finset.sum_congr rfl fun x hx => ?_
        rw [Finset.mul_sum]
        refine Finset.sum_congr rfl fun y hy => ?_
        rw [gram_id h.rL0 (fun j hj => h.lorth j (by omega)) ha (Finset.mem_range.1 hx), rgram_comm]; ring
    _ = _ := sum_δ_left ha _

theorem RSweep.norm_left {d : ℕ} {tail : ℕ → ℝ} {bd : ℕ → ℕ} (h : RSweep N rL rV L V C d tail bd) :
    gram N rL rL L L d 0 0 = fro3 (rL (d - 1)) (N (d - 1)) (rV d) (C (d - 1)) := by
  have hd := h.pos
  conv_lhs => rw [show d = d - 1 + 1 by omega, gram]
  rw [fro3, h.rVd]
  refine Finset.sum_congr rfl fun a ha => ?_
  rw [Finset.mem_range] at ha
  calc _ = ∑ c ∈ Finset.range (rL (d - 1)), δ a c * ∑ n ∈ Finset.range (N (d - 1)), L (d - 1) n a 0 * L (d - 1) n c 0 := by
        refine Finset.sum_congr rfl fun c hc => ?_
        rw [gram_id h.rL0 (fun j hj => h.lorth j (by omega)) ha (Finset.mem_range.1 hc)]
    _ = _ := by
        rw [sum_δ_left ha]
        refine Finset.sum_congr rfl fun n hn => ?_
        rw [Finset.sum_range_one, h.last n (Finset.mem_range.1 hn) a ha, sq]

theorem fro3_isometry {a M l c : ℕ} {A : ℕ → ℕ → ℕ → ℝ} (hA : ∀ b < l, ∀ b' < l, ∑ x ∈ Finset.range a, ∑ n ∈ Finset.range M, A n x b * A n x b' = δ b b')
    (E : ℕ → ℕ → ℝ) : fro3 a M c (fun n x y => ∑ b ∈ Finset.range l, A n x b * E b y) =
      ∑ b ∈ Finset.range l, ∑ y ∈ Finset.range c, E b y ^ 2 := by
  unfold fro3
  calc _ = ∑ x ∈ Finset.range a, ∑ n ∈ Finset.range M, ∑ y ∈ Finset.range c, ∑ b ∈ Finset.range l, ∑ b' ∈ Finset.range l,
        (A n x b * A n x b') * (E b y * E b' y) := by
        refine Finset.sum_congr rfl fun x _ => Finset.sum_congr rfl fun n _ => Finset.sum_congr rfl fun y _ => ?_
        rw [sq, Finset.sum_mul_sum]
        exact Finset.sum_congr rfl fun b _ => Finset.sum_congr rfl fun b' _ => by ring
    _ = ∑ y ∈ Finset.range c, ∑ b ∈ Finset.range l, ∑ b' ∈ Finset.range l, (∑ x ∈ Finset.range a, ∑ n ∈ Finset.range M,
        A n x b * A n x b') * (E b y * E b' y) := by
        simp only [Finset.sum_mul]
        calc _ = ∑ x ∈ Finset.range a, ∑ y ∈ Finset.range c, ∑ n ∈ Finset.range M, ∑ b ∈ Finset.range l, ∑ b' ∈ Finset.range l,
              (A n x b * A n x b') * (E b y * E b' y) := Finset.sum_congr rfl fun x _ => Finset.sum_comm
          _ = ∑ y ∈ Finset.range c, ∑ x ∈ Finset.range a, ∑ n ∈ Finset.range M, ∑ b ∈ Finset.range l, ∑ b' ∈ Finset.range l,
              (A n x b * A n x b') * (E b y * E b' y) := Finset.sum_comm
          _ = _ := Finset.sum_congr rfl fun y _ => sum_swap4 _ _ _ _ _
    _ = ∑ y ∈ Finset.range c, ∑ b ∈ Finset.range l, E b y ^ 2 := by
        refine Finset.sum_congr rfl fun y _ => Finset.sum_congr rfl fun b hb => ?_
        rw [Finset.mem_range] at hb
        rw [sq, ← sum_δ_left hb fun b' => E b y * E b' y]
        exact Finset.sum_congr rfl fun b' hb' => by rw [hA b hb b' (Finset.mem_range.1 hb')]
    _ = _ := Finset.sum_comm

theorem RSweep.fro_step {d : ℕ} {tail : ℕ → ℝ} {bd : ℕ → ℕ} (h : RSweep N rL rV L V C d tail bd) {k : ℕ} (hk : k + 1 < d) :
    fro3 (rL (k + 1)) (N (k + 1)) (rV (k + 2)) (C (k + 1)) = fro3 (rL k) (N k) (rV (k + 1)) (C k) + tail (k + 1) := by
  have hs := h.step (k + 1) (by omega) hk
  rw [hs.norm]
  congr 1
  rw [← fro3_isometry (a := rL k) (M := N k) (A := L k) (fun b hb b' hb' => h.lorth k hk b hb b' hb')]
  exact (fro3_congr fun n hn a ha x hx => by simpa using hs.carry n hn a ha x hx).symm

theorem RSweep.fro_sum {d : ℕ} {tail : ℕ → ℝ} {bd : ℕ → ℕ} (h : RSweep N rL rV L V C d tail bd) {k : ℕ} (hk : k < d) :
    fro3 (rL k) (N k) (rV (k + 1)) (C k) = fro3 (rL 0) (N 0) (rV 1) (C 0) + ∑ j ∈ Finset.range k, tail (j + 1) := by
  induction k with
  | zero => simp
  | succ k ih => rw [h.fro_step hk, ih (by omega), Finset.sum_range_succ]; ring

/-- The result of the sweep. -/
theorem RSweep.error {d : ℕ} {tail : ℕ → ℝ} {bd : ℕ → ℕ} (h : RSweep N rL rV L V C d tail bd) :
    chainDist N rL (blockRank rL rV 0) L (blockChain L V (C 0) 0) d = ∑ j ∈ Finset.range (d - 1), tail (j + 1) ∧
    chainDist N rL (blockRank rL rV 0) L (blockChain L V (C 0) 0) d =
      gram N rL rL L L d 0 0 - gram N (blockRank rL rV 0) (blockRank rL rV 0) (blockChain L V (C 0) 0) (blockChain L V (C 0) 0) d 0 0 := by
  have hd := h.pos
  have hz : (if d ≤ 0 then rL d else rV d) = 1 := by rw [if_neg (by omega)]; exact h.rVd
  set X := blockChain L V (C 0) 0
  set rX := blockRank rL rV 0
  have e1 : gram N rX rL X L d 0 0 = fro3 (rL 0) (N 0) (rV 1) (C 0) := by
    rw [gram_block (N := N) (L := L) (V := V) (S := L) (C 0) hd hz h.rLd]
    refine Finset.sum_congr rfl fun a ha => Finset.sum_congr rfl fun n hn => Finset.sum_congr rfl fun b hb => ?_
    rw [h.proj hd n (Finset.mem_range.1 hn) a (Finset.mem_range.1 ha) b (Finset.mem_range.1 hb), sq]
  have e2 : gram N rX rX X X d 0 0 = fro3 (rL 0) (N 0) (rV 1) (C 0) := by
    rw [gram_block (N := N) (L := L) (V := V) (S := X) (C 0) hd hz hz]
    refine Finset.sum_congr rfl fun a ha => Finset.sum_congr rfl fun n hn => Finset.sum_congr rfl fun b hb => ?_
    rw [blockProj_self (C 0) hd h.rL0 h.rVd (fun j hj => absurd hj (by omega)) (fun j h1 h2 => (h.step j h1 h2).orth)
      (Finset.mem_range.1 ha) (Finset.mem_range.1 hb), sq]
  have e3 := h.norm_left
  have e4 := h.fro_sum (k := d - 1) (by omega)
  rw [show d - 1 + 1 = d by omega] at e4
  unfold chainDist
  rw [gram_comm d 0 0 (A := L) (B := X), e1, e2, e3, e4]
  constructor <;> ring

/-- What a truncation loses is at most the distance to any chain with small rank at the cut. -/
theorem RSweep.best {d : ℕ} {tail : ℕ → ℝ} {bd : ℕ → ℕ} (h : RSweep N rL rV L V C d tail bd) {k : ℕ} (hk0 : 0 < k) (hk : k < d)
    {rS : ℕ → ℕ} (S : ℕ → ℕ → ℕ → ℕ → ℝ) (hS : rS d = 1) (hb : rS k ≤ bd k) : tail k ≤ chainDist N rL rS L S d := by
  have h1 := (h.step k hk0 hk).best (rS k) (fun a x => gram N rL rS L S k a x)
    (fun x n b => ∑ y ∈ Finset.range (rS (k + 1)), S k n x y * rgram N rV rS V S (d - 1 - k) (k + 1) b y) hb
  have h2 := bessel (N := N) (L := L) (V := V) (T := L) (S := S) (rT := rL) (rS := rS) hk h.rL0 h.rVd h.rLd hS
    (fun j hj => h.lorth j (by omega)) (fun j h1 h2 => (h.step j (by omega) h2).orth)
  refine le_trans h1 (le_trans (le_of_eq ?_) h2)
  refine Finset.sum_congr rfl fun a ha => Finset.sum_congr rfl fun n hn => Finset.sum_congr rfl fun b hb => ?_
  rw [h.proj hk n (Finset.mem_range.1 hn) a (Finset.mem_range.1 ha) b (Finset.mem_range.1 hb)]
  have e : blockProj N rL rV rS L V S d k n a b = ∑ x ∈ Finset.range (rS k), gram N rL rS L S k a x *
      ∑ y ∈ Finset.range (rS (k + 1)), S k n x y * rgram N rV rS V S (d - 1 - k) (k + 1) b y := by
    unfold blockProj
    refine Finset.sum_congr rfl fun x _ => ?_
    rw [Finset.mul_sum]
    exact Finset.sum_congr rfl fun y _ => by ring
  rw [e]

end T3f
