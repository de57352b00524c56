import Verif.Proofs.Sums
import Mathlib.Data.Real.Basic
import Mathlib.Tactic.Linarith
import Mathlib.Algebra.Order.BigOperators.Ring.Finset

/-! # Inner products of chains and orthonormal cores

Here a chain is a function `A k n a b` of the number of the core, the (flat) mode index and the two rank indices. -/

namespace T3f

variable {K : Type} [CommRing K]

/-- Contraction of the first `k` cores of two chains. -/
def gram (N ra rb : ℕ → ℕ) (A B : ℕ → ℕ → ℕ → ℕ → K) : ℕ → ℕ → ℕ → K
  | 0, x, y => (if x = 0 then 1 else 0) * if y = 0 then 1 else 0
  | k + 1, x, y => ∑ a ∈ Finset.range (ra k), ∑ c ∈ Finset.range (rb k),
      gram N ra rb A B k a c * ∑ n ∈ Finset.range (N k), A k n a x * B k n c y

/-- Contraction of the cores `k, …, k + m - 1` of two chains, if the last rank is one. -/
def rgram (N ra rb : ℕ → ℕ) (A B : ℕ → ℕ → ℕ → ℕ → K) : ℕ → ℕ → ℕ → ℕ → K
  | 0, _, _, _ => 1
  | m + 1, k, x, y => ∑ a ∈ Finset.range (ra (k + 1)), ∑ c ∈ Finset.range (rb (k + 1)),
      (∑ n ∈ Finset.range (N k), A k n x a * B k n y c) * rgram N ra rb A B m (k + 1) a c

/-- Kronecker delta. -/
def δ (x y : ℕ) : K := if x = y then 1 else 0

theorem sum_δ_left {n x : ℕ} (hx : x < n) (f : ℕ → K) : ∑ y ∈ Finset.range n, δ x y * f y = f x := by
  simp [δ, hx]

theorem sum_δ_right {n x : ℕ} (hx : x < n) (f : ℕ → K) : ∑ y ∈ Finset.range n, f y * δ y x = f x := by
  simp [δ, hx]

theorem sum_δ_left' {n x : ℕ} (hx : x < n) (f : ℕ → K) : ∑ y ∈ Finset.range n, δ y x * f y = f x := by
  simp [δ, hx]

theorem δ_comm (x y : ℕ) : (δ x y : K) = δ y x := by unfold δ; simp [eq_comm]

section
variable {N N' ra ra' rb rb' : ℕ → ℕ} {A A' B B' : ℕ → ℕ → ℕ → ℕ → K}

theorem gram_congr {k : ℕ} (hN : ∀ j < k, N j = N' j) (hra : ∀ j ≤ k, ra j = ra' j) (hrb : ∀ j ≤ k, rb j = rb' j)
    (hA : ∀ j < k, ∀ n < N j, ∀ a < ra j, ∀ b < ra (j + 1), A j n a b = A' j n a b)
    (hB : ∀ j < k, ∀ n < N j, ∀ a < rb j, ∀ b < rb (j + 1), B j n a b = B' j n a b) {x y : ℕ} (hx : x < ra k) (hy : y < rb k) :
    gram N ra rb A B k x y = gram N' ra' rb' A' B' k x y := by
  induction k generalizing x y with
  | zero => rfl
  | succ k ih =>
    rw [gram, gram, ← hra k (by omega), ← hrb k (by omega), ← hN k (by omega)]
    refine Finset.sum_congr rfl fun a ha => Finset.sum_congr rfl fun c hc => ?_
    rw [Finset.mem_range] at ha hc
    rw [ih (fun j hj => hN j (by omega)) (fun j hj => hra j (by omega)) (fun j hj => hrb j (by omega))
      (fun j hj => hA j (by omega)) (fun j hj => hB j (by omega)) ha hc]
    congr 1
    refine Finset.sum_congr rfl fun n hn => ?_
    rw [Finset.mem_range] at hn
    rw [hA k (by omega) n hn a ha x hx, hB k (by omega) n hn c hc y hy]

theorem rgram_congr {m k : ℕ} (hN : ∀ j, k ≤ j → j < k + m → N j = N' j) (hra : ∀ j, k ≤ j → j ≤ k + m → ra j = ra' j)
    (hrb : ∀ j, k ≤ j → j ≤ k + m → rb j = rb' j)
    (hA : ∀ j, k ≤ j → j < k + m → ∀ n < N j, ∀ a < ra j, ∀ b < ra (j + 1), A j n a b = A' j n a b)
    (hB : ∀ j, k ≤ j → j < k + m → ∀ n < N j, ∀ a < rb j, ∀ b < rb (j + 1), B j n a b = B' j n a b) {x y : ℕ} (hx : x < ra k) (hy : y < rb k) :
    rgram N ra rb A B m k x y = rgram N' ra' rb' A' B' m k x y := by
  induction m generalizing k x y with
  | zero => rfl
  | succ m ih =>
    rw [rgram, rgram, ← hra (k + 1) (by omega) (by omega), ← hrb (k + 1) (by omega) (by omega), ← hN k (by omega) (by omega)]
    refine Finset.sum_congr rfl fun a ha => Finset.sum_congr rfl fun c hc => ?_
    rw [Finset.mem_range] at ha hc
    rw [ih (fun j h1 h2 => hN j (by omega) (by omega)) (fun j h1 h2 => hra j (by omega) (by omega))
      (fun j h1 h2 => hrb j (by omega) (by omega)) (fun j h1 h2 => hA j (by omega) (by omega))
      (fun j h1 h2 => hB j (by omega) (by omega)) ha hc]
    congr 1
    refine Finset.sum_congr rfl fun n hn => ?_
    rw [Finset.mem_range] at hn
    rw [hA k (by omega) (by omega) n hn x hx a ha, hB k (by omega) (by omega) n hn y hy c hc]

theorem gram_split (m : ℕ) : ∀ k, ra (k + m) = 1 → rb (k + m) = 1 → gram N ra rb A B (k + m) 0 0 =
    ∑ x ∈ Finset.range (ra k), ∑ y ∈ Finset.range (rb k), gram N ra rb A B k x y * rgram N ra rb A B m k x y := by
  induction m with
  | zero => intro k h1 h2; simp only [Nat.add_zero] at h1 h2; simp [h1, h2, rgram]
  | succ m ih =>
    intro k h1 h2
    rw [show k + (m + 1) = k + 1 + m by omega] at *
    rw [ih (k + 1) h1 h2]
    simp only [gram, rgram, Finset.sum_mul, Finset.mul_sum]
    -- order: x' y' a c n  versus  a c x' y' n
    have sw : ∀ (s t u v : Finset ℕ) (F : ℕ → ℕ → ℕ → ℕ → K), ∑ x ∈ s, ∑ y ∈ t, ∑ a ∈ u, ∑ c ∈ v, F x y a c =
        ∑ a ∈ u, ∑ c ∈ v, ∑ x ∈ s, ∑ y ∈ t, F x y a c := by
      intro s t u v F
      calc _ = ∑ x ∈ s, ∑ a ∈ u, ∑ y ∈ t, ∑ c ∈ v, F x y a c := Finset.sum_congr rfl fun x _ => Finset.sum_comm
        _ = ∑ a ∈ u, ∑ x ∈ s, ∑ y ∈ t, ∑ c ∈ v, F x y a c := Finset.sum_comm
        _ = ∑ a ∈ u, ∑ x ∈ s, ∑ c ∈ v, ∑ y ∈ t, F x y a c :=
            Finset.sum_congr rfl fun a _ => Finset.sum_congr rfl fun x _ => Finset.sum_comm
        _ = _ := Finset.sum_congr rfl fun a _ => Finset.sum_comm
    rw [sw]
    refine Finset.sum_congr rfl fun a _ => Finset.sum_congr rfl fun c _ => Finset.sum_congr rfl fun x _ =>
      Finset.sum_congr rfl fun y _ => Finset.sum_congr rfl fun n _ => by ring

theorem gram_comm (k x y : ℕ) : gram N ra rb A B k x y = gram N rb ra B A k y x := by
  induction k generalizing x y with
  | zero => rw [gram, gram, mul_comm]
  | succ k ih =>
    rw [gram, gram, Finset.sum_comm]
    refine Finset.sum_congr rfl fun c _ => Finset.sum_congr rfl fun a _ => ?_
    rw [ih]; congr 1
    exact Finset.sum_congr rfl fun n _ => mul_comm _ _

theorem rgram_comm (m k x y : ℕ) : rgram N ra rb A B m k x y = rgram N rb ra B A m k y x := by
  induction m generalizing k x y with
  | zero => rfl
  | succ m ih =>
    rw [rgram, rgram, Finset.sum_comm]
    refine Finset.sum_congr rfl fun c _ => Finset.sum_congr rfl fun a _ => ?_
    rw [ih]; congr 1
    exact Finset.sum_congr rfl fun n _ => mul_comm _ _

/-! ## Orthonormal cores -/

/-- The columns of the left unfolding of core `k` are orthonormal. -/
def LOrth (N r : ℕ → ℕ) (A : ℕ → ℕ → ℕ → ℕ → K) (k : ℕ) : Prop :=
  ∀ b < r (k + 1), ∀ b' < r (k + 1), ∑ a ∈ Finset.range (r k), ∑ n ∈ Finset.range (N k), A k n a b * A k n a b' = δ b b'

/-- The rows of the right unfolding of core `k` are orthonormal. -/
def ROrth (N r : ℕ → ℕ) (A : ℕ → ℕ → ℕ → ℕ → K) (k : ℕ) : Prop :=
  ∀ a < r k, ∀ a' < r k, ∑ n ∈ Finset.range (N k), ∑ b ∈ Finset.range (r (k + 1)), A k n a b * A k n a' b = δ a a'

theorem gram_id {k : ℕ} (h0 : ra 0 = 1) (h : ∀ j < k, LOrth N ra A j) {x y : ℕ} (hx : x < ra k) (hy : y < ra k) :
    gram N ra ra A A k x y = δ x y := by
  induction k generalizing x y with
  | zero =>
    rw [h0] at hx hy
    obtain rfl : x = 0 := by omega
    obtain rfl : y = 0 := by omega
    simp [gram, δ]
  | succ k ih =>
    rw [gram, ← h k (by omega) x hx y hy]
    refine Finset.sum_congr rfl fun a ha => ?_
    rw [Finset.mem_range] at ha
    rw [← sum_δ_left ha fun c => ∑ n ∈ Finset.range (N k), A k n a x * A k n c y]
    refine Finset.sum_congr rfl fun c hc => ?_
    rw [ih (fun j hj => h j (by omega)) ha (Finset.mem_range.1 hc)]

theorem rgram_id {m k : ℕ} (h1 : ra (k + m) = 1) (h : ∀ j, k ≤ j → j < k + m → ROrth N ra A j) {x y : ℕ} (hx : x < ra k) (hy : y < ra k) :
    rgram N ra ra A A m k x y = δ x y := by
  induction m generalizing k x y with
  | zero =>
    rw [Nat.add_zero] at h1
    rw [h1] at hx hy
    obtain rfl : x = 0 := by omega
    obtain rfl : y = 0 := by omega
    simp [rgram, δ]
  | succ m ih =>
    rw [rgram, ← h k le_rfl (by omega) x hx y hy, Finset.sum_comm (s := Finset.range (N k))]
    refine Finset.sum_congr rfl fun a ha => ?_
    rw [Finset.mem_range] at ha
    rw [← sum_δ_right ha fun c => ∑ n ∈ Finset.range (N k), A k n x a * A k n y c]
    refine Finset.sum_congr rfl fun c hc => ?_
    rw [ih (by rw [← h1]; congr 1; omega) (fun j h1 h2 => h j (by omega) (by omega)) ha (Finset.mem_range.1 hc), δ_comm]

/-! ## A block between a left and a right chain -/

/-- The chain with the cores of `L` before `i`, the block `D` at `i`, the cores of `V` after `i`. -/
def blockChain (L V : ℕ → ℕ → ℕ → ℕ → K) (D : ℕ → ℕ → ℕ → K) (i : ℕ) : ℕ → ℕ → ℕ → ℕ → K :=
  fun k => if k < i then L k else if k = i then D else V k

def blockRank (rL rV : ℕ → ℕ) (i : ℕ) : ℕ → ℕ := fun k => if k ≤ i then rL k else rV k

/-- The block at `i` seen by the chain `S`. -/
def blockProj (N rL rV rS : ℕ → ℕ) (L V S : ℕ → ℕ → ℕ → ℕ → K) (d i : ℕ) : ℕ → ℕ → ℕ → K := fun n a b =>
  ∑ x ∈ Finset.range (rS i), ∑ y ∈ Finset.range (rS (i + 1)),
    gram N rL rS L S i a x * S i n x y * rgram N rV rS V S (d - 1 - i) (i + 1) b y

theorem gram_block {rL rV rS : ℕ → ℕ} {L V S : ℕ → ℕ → ℕ → ℕ → K} (D : ℕ → ℕ → ℕ → K) {d i : ℕ} (hi : i < d)
    (hV : (if d ≤ i then rL d else rV d) = 1) (hS : rS d = 1) :
    gram N (blockRank rL rV i) rS (blockChain L V D i) S d 0 0 =
      ∑ a ∈ Finset.range (rL i), ∑ n ∈ Finset.range (N i), ∑ b ∈ Finset.range (rV (i + 1)),
        D n a b * blockProj N rL rV rS L V S d i n a b := by
  have hd : i + (d - i) = d := by omega
  have e := gram_split (N := N) (A := blockChain L V D i) (B := S) (ra := blockRank rL rV i) (rb := rS) (d - i) i
    (by rw [hd]; exact hV) (by rw [hd]; exact hS)
  rw [hd] at e
  rw [e, show d - i = (d - 1 - i) + 1 by omega]
  have h1 : blockRank rL rV i i = rL i := if_pos le_rfl
  have h2 : blockRank rL rV i (i + 1) = rV (i + 1) := if_neg (by omega)
  simp only [rgram, h1, h2]
  refine Finset.sum_congr rfl fun a ha => ?_
  rw [Finset.mem_range] at ha
  have hc : blockChain L V D i i = D := by unfold blockChain; simp
  have g1 : ∀ x < rS i, gram N (blockRank rL rV i) rS (blockChain L V D i) S i a x = gram N rL rS L S i a x := fun x hx =>
    gram_congr (fun _ _ => rfl) (fun j hj => if_pos hj) (fun _ _ => rfl)
      (fun j hj n _ a _ b _ => by unfold blockChain; rw [if_pos hj]) (fun _ _ _ _ _ _ _ _ => rfl) (h1.symm ▸ ha : a < blockRank rL rV i i) hx
  have g2 : ∀ b < rV (i + 1), ∀ y < rS (i + 1), rgram N (blockRank rL rV i) rS (blockChain L V D i) S (d - 1 - i) (i + 1) b y =
      rgram N rV rS V S (d - 1 - i) (i + 1) b y := fun b hb y hy =>
    rgram_congr (fun _ _ _ => rfl) (fun j hj _ => if_neg (by omega)) (fun _ _ _ => rfl)
      (fun j hj _ n _ a _ b _ => by unfold blockChain; rw [if_neg (by omega), if_neg (by omega)]) (fun _ _ _ _ _ _ _ _ _ => rfl)
      (h2.symm ▸ hb : b < blockRank rL rV i (i + 1)) hy
  rw [hc]
  calc _ = ∑ x ∈ Finset.range (rS i), ∑ b ∈ Finset.range (rV (i + 1)), ∑ y ∈ Finset.range (rS (i + 1)), ∑ n ∈ Finset.range (N i),
        D n a b * (gram N rL rS L S i a x * S i n x y * rgram N rV rS V S (d - 1 - i) (i + 1) b y) := by
        refine Finset.sum_congr rfl fun x hx => ?_
        rw [Finset.mem_range] at hx
        rw [Finset.mul_sum]
        refine Finset.sum_congr rfl fun b hb => ?_
        rw [Finset.mul_sum]
        refine Finset.sum_congr rfl fun y hy => ?_
        rw [g1 x hx, g2 b (Finset.mem_range.1 hb) y (Finset.mem_range.1 hy), Finset.sum_mul, Finset.mul_sum]
        exact Finset.sum_congr rfl fun n _ => by ring
    _ = _ := by
        simp only [blockProj, Finset.mul_sum]
        rw [Finset.sum_comm]
        have : ∀ b, ∑ x ∈ Finset.range (rS i), ∑ y ∈ Finset.range (rS (i + 1)), ∑ n ∈ Finset.range (N i),
              D n a b * (gram N rL rS L S i a x * S i n x y * rgram N rV rS V S (d - 1 - i) (i + 1) b y) =
            ∑ n ∈ Finset.range (N i), ∑ x ∈ Finset.range (rS i), ∑ y ∈ Finset.range (rS (i + 1)),
              D n a b * (gram N rL rS L S i a x * S i n x y * rgram N rV rS V S (d - 1 - i) (i + 1) b y) := by
          intro b
          rw [Finset.sum_comm (s := Finset.range (N i))]
          exact Finset.sum_congr rfl fun x _ => Finset.sum_comm
        simp only [this]
        exact Finset.sum_comm

/-- A block between orthonormal chains is its own projection. -/
theorem blockProj_self {rL rV : ℕ → ℕ} {L V : ℕ → ℕ → ℕ → ℕ → K} (D : ℕ → ℕ → ℕ → K) {d i : ℕ} (hi : i < d) (h0 : rL 0 = 1) (hd : rV d = 1)
    (hL : ∀ j < i, LOrth N rL L j) (hV : ∀ j, i < j → j < d → ROrth N rV V j) {n a b : ℕ} (ha : a < rL i)
    (hb : b < rV (i + 1)) :
    blockProj N rL rV (blockRank rL rV i) L V (blockChain L V D i) d i n a b = D n a b := by
  have h1 : blockRank rL rV i i = rL i := if_pos le_rfl
  have h2 : blockRank rL rV i (i + 1) = rV (i + 1) := if_neg (by omega)
  have hc : blockChain L V D i i = D := by unfold blockChain; simp
  unfold blockProj
  rw [h1, h2, hc]
  have g1 : ∀ x < rL i, gram N rL (blockRank rL rV i) L (blockChain L V D i) i a x = δ a x := fun x hx => by
    rw [← gram_id h0 hL ha hx]
    exact gram_congr (fun _ _ => rfl) (fun _ _ => rfl) (fun j hj => if_pos hj) (fun _ _ _ _ _ _ _ _ => rfl)
      (fun j hj n _ a _ b _ => by unfold blockChain; rw [if_pos hj]) ha (h1.symm ▸ hx : x < blockRank rL rV i i)
  have g2 : ∀ y < rV (i + 1), rgram N rV (blockRank rL rV i) V (blockChain L V D i) (d - 1 - i) (i + 1) b y = δ b y := fun y hy => by
    rw [← rgram_id (N := N) (A := V) (m := d - 1 - i) (k := i + 1) (by rw [show i + 1 + (d - 1 - i) = d by omega]; exact hd)
      (fun j h1 h2 => hV j (by omega) (by omega)) hb hy]
    exact rgram_congr (fun _ _ _ => rfl) (fun _ _ _ => rfl) (fun j hj _ => if_neg (by omega)) (fun _ _ _ _ _ _ _ _ _ => rfl)
      (fun j hj _ n _ a _ b _ => by unfold blockChain; rw [if_neg (by omega), if_neg (by omega)]) hb (h2.symm ▸ hy : y < blockRank rL rV i (i + 1))
  calc _ = ∑ x ∈ Finset.range (rL i), δ a x * ∑ y ∈ Finset.range (rV (i + 1)), D n x y * δ y b := by
        refine Finset.sum_congr rfl fun x hx => ?_
        rw [Finset.mul_sum]
        refine Finset.sum_congr rfl fun y hy => ?_
        rw [g1 x (Finset.mem_range.1 hx), g2 y (Finset.mem_range.1 hy), δ_comm b y]; ring
    _ = _ := by rw [sum_δ_left ha, sum_δ_right hb]

end

/-! ## Entries -/

theorem gram_msum (M : ℕ → List ℕ) (ra rb : ℕ → ℕ) (A B : ℕ → List ℕ → ℕ → ℕ → K) (k x y : ℕ) :
    msum M k (fun g => lprod ra (fun j => A j (g j)) k x * lprod rb (fun j => B j (g j)) k y) =
      gram (fun k => (M k).prod) ra rb (fun k n => A k (unravel (M k) n)) (fun k n => B k (unravel (M k) n)) k x y := by
  induction k generalizing x y with
  | zero => rfl
  | succ k ih =>
    rw [msum_lprod2, gram]
    exact Finset.sum_congr rfl fun a _ => Finset.sum_congr rfl fun c _ => by rw [ih]

/-- The same with flat indices. -/
theorem gram_msum' (N ra rb : ℕ → ℕ) (A B : ℕ → ℕ → ℕ → ℕ → K) (k x y : ℕ) :
    msum (fun k => [N k]) k (fun g => lprod ra (fun j => A j ((g j).getD 0 0)) k x * lprod rb (fun j => B j ((g j).getD 0 0)) k y) =
      gram N ra rb A B k x y := by
  rw [gram_msum (fun k => [N k]) ra rb (fun j v => A j (v.getD 0 0)) (fun j v => B j (v.getD 0 0))]
  simp

/-! ## Distances -/

/-- Squared distance of two chains. -/
noncomputable def chainDist (N ra rb : ℕ → ℕ) (A B : ℕ → ℕ → ℕ → ℕ → ℝ) (d : ℕ) : ℝ :=
  gram N ra ra A A d 0 0 - 2 * gram N ra rb A B d 0 0 + gram N rb rb B B d 0 0

theorem msum_nonneg (M : ℕ → List ℕ) (k : ℕ) (F : (ℕ → List ℕ) → ℝ) (h : ∀ g, 0 ≤ F g) : 0 ≤ msum M k F := by
  induction k generalizing F with
  | zero => exact h _
  | succ k ih => exact Finset.sum_nonneg fun n _ => ih _ fun g => h _

/-- Bessel's inequality for the blocks between orthonormal chains. -/
theorem bessel {N rL rV rT rS : ℕ → ℕ} {L V T S : ℕ → ℕ → ℕ → ℕ → ℝ} {d i : ℕ} (hi : i < d) (h0 : rL 0 = 1) (hd : rV d = 1)
    (hT : rT d = 1) (hS : rS d = 1) (hL : ∀ j < i, LOrth N rL L j) (hV : ∀ j, i < j → j < d → ROrth N rV V j) :
    ∑ a ∈ Finset.range (rL i), ∑ n ∈ Finset.range (N i), ∑ b ∈ Finset.range (rV (i + 1)),
      (blockProj N rL rV rT L V T d i n a b - blockProj N rL rV rS L V S d i n a b) ^ 2 ≤ chainDist N rT rS T S d := by
  set D : ℕ → ℕ → ℕ → ℝ := fun n a b => blockProj N rL rV rT L V T d i n a b - blockProj N rL rV rS L V S d i n a b with hD
  have hz : (if d ≤ i then rL d else rV d) = 1 := by rw [if_neg (by omega)]; exact hd
  set Z := blockChain L V D i
  set rZ := blockRank rL rV i
  have hrZ : rZ d = 1 := hz
  have e1 := gram_block (N := N) (L := L) (V := V) (S := T) D hi hz hT
  have e2 := gram_block (N := N) (L := L) (V := V) (S := S) D hi hz hS
  have e3 := gram_block (N := N) (L := L) (V := V) (S := Z) D hi hz hrZ
  have e3' : gram N rZ rZ Z Z d 0 0 = ∑ a ∈ Finset.range (rL i), ∑ n ∈ Finset.range (N i), ∑ b ∈ Finset.range (rV (i + 1)),
      D n a b ^ 2 := by
    rw [e3]
    refine Finset.sum_congr rfl fun a ha => Finset.sum_congr rfl fun n _ => Finset.sum_congr rfl fun b hb => ?_
    rw [blockProj_self D hi h0 hd hL hV (Finset.mem_range.1 ha) (Finset.mem_range.1 hb), sq]
  have e4 : gram N rZ rT Z T d 0 0 - gram N rZ rS Z S d 0 0 = ∑ a ∈ Finset.range (rL i), ∑ n ∈ Finset.range (N i),
      ∑ b ∈ Finset.range (rV (i + 1)), D n a b ^ 2 := by
    rw [e1, e2]
    simp only [← Finset.sum_sub_distrib]
    refine Finset.sum_congr rfl fun a ha => Finset.sum_congr rfl fun n _ => Finset.sum_congr rfl fun b hb => ?_
    rw [← mul_sub, sq]
  have pos := msum_nonneg (fun k => [N k]) d (fun g => (lprod rT (fun j => T j ((g j).getD 0 0)) d 0 -
    lprod rS (fun j => S j ((g j).getD 0 0)) d 0 - lprod rZ (fun j => Z j ((g j).getD 0 0)) d 0) ^ 2) fun g => sq_nonneg _
  have ex : msum (fun k => [N k]) d (fun g => (lprod rT (fun j => T j ((g j).getD 0 0)) d 0 -
      lprod rS (fun j => S j ((g j).getD 0 0)) d 0 - lprod rZ (fun j => Z j ((g j).getD 0 0)) d 0) ^ 2) =
      gram N rT rT T T d 0 0 - 2 * gram N rT rS T S d 0 0 + gram N rS rS S S d 0 0 + gram N rZ rZ Z Z d 0 0 -
        2 * (gram N rZ rT Z T d 0 0 - gram N rZ rS Z S d 0 0) := by
    simp only [← gram_msum', sub_eq_add_neg, ← neg_one_mul (msum _ _ _ : ℝ), ← msum_mul_left, ← msum_add]
    exact msum_congr_all _ _ _ _ fun g => by ring
  rw [ex, e4, e3'] at pos
  have : chainDist N rT rS T S d = gram N rT rT T T d 0 0 - 2 * gram N rT rS T S d 0 0 + gram N rS rS S S d 0 0 := rfl
  linarith

end T3f
