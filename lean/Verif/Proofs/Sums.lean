import Verif.Proofs.WF
import Mathlib.Algebra.BigOperators.Ring.Finset
import Mathlib.Algebra.BigOperators.Group.Finset.Sigma
import Mathlib.Tactic.Ring
import Mathlib.Tactic.LinearCombination

/-!
# Sums over multi-indices and products of matrix chains
-/

namespace T3f

variable {K : Type}

theorem sum_range_mul [AddCommMonoid K] (m n : ℕ) (f : ℕ → K) :
    ∑ x ∈ Finset.range (m * n), f x = ∑ i ∈ Finset.range m, ∑ j ∈ Finset.range n, f (i * n + j) := by
  induction m with
  | zero => simp
  | succ m ih => rw [Nat.succ_mul, Finset.sum_range_add, ih, Finset.sum_range_succ]

theorem sum_range_add_blocks [AddCommMonoid K] (m n : ℕ) (f : ℕ → K) :
    ∑ x ∈ Finset.range (m + n), f x = ∑ i ∈ Finset.range m, f i + ∑ j ∈ Finset.range n, f (m + j) :=
  Finset.sum_range_add f m n

/-! ## Chains -/

theorem lprod_congr [Semiring K] {r r' : ℕ → ℕ} {A B : ℕ → ℕ → ℕ → K} {k b : ℕ}
    (hr : ∀ j < k, r j = r' j)
    (h : ∀ j < k, ∀ a b, a < r j → b < r (j + 1) → A j a b = B j a b) (hb : b < r k) :
    lprod r A k b = lprod r' B k b := by
  induction k generalizing b with
  | zero => rfl
  | succ k ih =>
    rw [lprod, lprod, ← hr k (by omega)]
    refine Finset.sum_congr rfl fun a ha => ?_
    have ha' : a < r k := by simpa using ha
    rw [ih (fun j hj => hr j (by omega)) (fun j hj => h j (by omega)) ha', h k (by omega) a b ha' hb]

/-- Chains that only differ in later matrices. -/
theorem lprod_congr' [Semiring K] {r : ℕ → ℕ} {A B : ℕ → ℕ → ℕ → K} {k b : ℕ}
    (h : ∀ j < k, A j = B j) : lprod r A k b = lprod r B k b := by
  induction k generalizing b with
  | zero => rfl
  | succ k ih =>
    rw [lprod, lprod, h k (by omega)]
    exact Finset.sum_congr rfl fun a _ => by rw [ih (fun j hj => h j (by omega))]

/-- Block-diagonal chains: the sum of two chains. -/
theorem lprod_block [Semiring K] (ra rb rc : ℕ → ℕ) (A B C : ℕ → ℕ → ℕ → K) (d : ℕ) (hd : 2 ≤ d)
    (ha0 : ra 0 = 1) (hb0 : rb 0 = 1) (hc0 : rc 0 = 1) (had : ra d = 1) (hbd : rb d = 1)
    (hc : ∀ k, 1 ≤ k → k < d → rc k = ra k + rb k)
    (hfirst : ∀ y, C 0 0 y = if y < ra 1 then A 0 0 y else B 0 0 (y - ra 1))
    (hlast : ∀ x, x < rc (d - 1) →
      C (d - 1) x 0 = if x < ra (d - 1) then A (d - 1) x 0 else B (d - 1) (x - ra (d - 1)) 0)
    (hmid : ∀ k, 1 ≤ k → k + 1 < d → ∀ x y, x < rc k → y < rc (k + 1) → C k x y =
      if x < ra k then (if y < ra (k + 1) then A k x y else 0)
      else (if y < ra (k + 1) then 0 else B k (x - ra k) (y - ra (k + 1)))) :
    lprod rc C d 0 = lprod ra A d 0 + lprod rb B d 0 := by
  have key : ∀ k, 1 ≤ k → k < d → ∀ x, x < rc k → lprod rc C k x =
      if x < ra k then lprod ra A k x else lprod rb B k (x - ra k) := by
    intro k hk
    induction k, hk using Nat.le_induction with
    | base =>
      intro _ x _
      simp only [lprod, hc0, ha0, hb0, Finset.sum_range_one, if_true, one_mul, hfirst]
    | succ k hk ih =>
      intro hkd x hx
      rw [lprod, hc k hk (by omega), sum_range_add_blocks]
      have e1 : ∑ i ∈ Finset.range (ra k), lprod rc C k i * C k i x =
          if x < ra (k + 1) then lprod ra A (k + 1) x else 0 := by
        rw [lprod]
        split
        · rename_i hxa
          refine Finset.sum_congr rfl fun i hi => ?_
          have hi' : i < ra k := by simpa using hi
          rw [ih (by omega) i (by rw [hc k hk (by omega)]; omega), if_pos hi',
            hmid k hk hkd i x (by rw [hc k hk (by omega)]; omega) hx, if_pos hi', if_pos hxa]
        · rename_i hxa
          refine Finset.sum_eq_zero fun i hi => ?_
          have hi' : i < ra k := by simpa using hi
          rw [hmid k hk hkd i x (by rw [hc k hk (by omega)]; omega) hx, if_pos hi', if_neg hxa, mul_zero]
      have e2 : ∑ j ∈ Finset.range (rb k), lprod rc C k (ra k + j) * C k (ra k + j) x =
          if x < ra (k + 1) then 0 else lprod rb B (k + 1) (x - ra (k + 1)) := by
        rw [lprod]
        split
        · rename_i hxa
          refine Finset.sum_eq_zero fun i hi => ?_
          have hi' : i < rb k := by simpa using hi
          rw [hmid k hk hkd _ x (by rw [hc k hk (by omega)]; omega) hx, if_neg (by omega), if_pos hxa,
            mul_zero]
        · rename_i hxa
          refine Finset.sum_congr rfl fun i hi => ?_
          have hi' : i < rb k := by simpa using hi
          rw [ih (by omega) _ (by rw [hc k hk (by omega)]; omega), if_neg (by omega),
            hmid k hk hkd _ x (by rw [hc k hk (by omega)]; omega) hx, if_neg (by omega), if_neg hxa,
            Nat.add_sub_cancel_left]
      rw [e1, e2]
      split <;> simp
  obtain ⟨e, rfl⟩ : ∃ e, d = e + 1 := ⟨d - 1, by omega⟩
  simp only [Nat.add_sub_cancel] at hlast
  have hce := hc e (by omega) (by omega)
  rw [lprod, hce, sum_range_add_blocks, lprod, lprod]
  congr 1
  · refine Finset.sum_congr rfl fun i hi => ?_
    have hi' : i < ra e := by simpa using hi
    rw [key e (by omega) (by omega) i (by omega), if_pos hi', hlast i (by omega), if_pos hi']
  · refine Finset.sum_congr rfl fun i hi => ?_
    have hi' : i < rb e := by simpa using hi
    rw [key e (by omega) (by omega) _ (by omega), if_neg (by omega), hlast _ (by omega),
      if_neg (by omega), Nat.add_sub_cancel_left]

/-- Kronecker-product chains: the product of two chains. -/
theorem lprod_kron [CommSemiring K] (ra rb rc : ℕ → ℕ) (A B C : ℕ → ℕ → ℕ → K) (k : ℕ)
    (ha0 : ra 0 = 1) (hb0 : rb 0 = 1)
    (hc : ∀ j < k, rc j = ra j * rb j)
    (h : ∀ j < k, ∀ a c b d, a < ra j → c < rb j → b < ra (j + 1) → d < rb (j + 1) →
      C j (a * rb j + c) (b * rb (j + 1) + d) = A j a b * B j c d)
    (x y : ℕ) (hx : x < ra k) (hy : y < rb k) :
    lprod rc C k (x * rb k + y) = lprod ra A k x * lprod rb B k y := by
  induction k generalizing x y with
  | zero =>
    have : x = 0 := by omega
    have : y = 0 := by omega
    subst x y
    simp [lprod]
  | succ k ih =>
    rw [lprod, hc k (by omega), sum_range_mul, lprod, lprod, Finset.sum_mul_sum]
    refine Finset.sum_congr rfl fun a ha => Finset.sum_congr rfl fun c hc' => ?_
    have ha' : a < ra k := by simpa using ha
    have hc'' : c < rb k := by simpa using hc'
    rw [ih (fun j hj => hc j (by omega)) (fun j hj => h j (by omega)) a c ha' hc'',
      h k (by omega) a c x y ha' hc'' hx hy]
    ring

/-! ## Sums over mode indices -/

/-- Sum over all mode indices of the first `k` cores. -/
def msum [AddCommMonoid K] (M : ℕ → List ℕ) : ℕ → ((ℕ → List ℕ) → K) → K
  | 0, F => F fun _ => []
  | k + 1, F => ∑ n ∈ Finset.range (M k).prod,
      msum M k fun g => F (Function.update g k (unravel (M k) n))

theorem msum_congr_all [AddCommMonoid K] (M : ℕ → List ℕ) (k : ℕ) (F G : (ℕ → List ℕ) → K)
    (h : ∀ g, F g = G g) : msum M k F = msum M k G := by
  rw [show F = G from funext h]

theorem msum_congr [AddCommMonoid K] (M : ℕ → List ℕ) (k : ℕ) (F G : (ℕ → List ℕ) → K)
    (h : ∀ g, (∀ j < k, Valid (M j) (g j)) → F g = G g) : msum M k F = msum M k G := by
  induction k generalizing F G with
  | zero => exact h _ (by intro j hj; omega)
  | succ k ih =>
    refine Finset.sum_congr rfl fun n hn => ih _ _ fun g hg => h _ fun j hj => ?_
    rcases Nat.lt_succ_iff_lt_or_eq.1 hj with h1 | rfl
    · rw [Function.update_of_ne (by omega)]; exact hg j h1
    · rw [Function.update_self]; exact unravel_valid (by simpa using hn)

theorem msum_modes_congr [AddCommMonoid K] (M M' : ℕ → List ℕ) (k : ℕ) (F : (ℕ → List ℕ) → K)
    (h : ∀ j < k, M j = M' j) : msum M k F = msum M' k F := by
  induction k generalizing F with
  | zero => rfl
  | succ k ih =>
    rw [msum, msum, h k (by omega)]
    exact Finset.sum_congr rfl fun n _ => ih _ fun j hj => h j (by omega)

theorem msum_sum [AddCommMonoid K] {σ : Type} (S : Finset σ) (M : ℕ → List ℕ) (k : ℕ)
    (F : (ℕ → List ℕ) → σ → K) :
    msum M k (fun g => ∑ s ∈ S, F g s) = ∑ s ∈ S, msum M k fun g => F g s := by
  induction k generalizing F with
  | zero => rfl
  | succ k ih =>
    rw [msum]
    simp only [ih, msum]
    rw [Finset.sum_comm]

theorem msum_add [AddCommMonoid K] (M : ℕ → List ℕ) (k : ℕ) (F G : (ℕ → List ℕ) → K) :
    msum M k (fun g => F g + G g) = msum M k F + msum M k G := by
  induction k generalizing F G with
  | zero => rfl
  | succ k ih => simp only [msum, ih, Finset.sum_add_distrib]

theorem msum_mul_left [NonUnitalNonAssocSemiring K] (M : ℕ → List ℕ) (k : ℕ) (F : (ℕ → List ℕ) → K)
    (c : K) : msum M k (fun g => c * F g) = c * msum M k F := by
  induction k generalizing F with
  | zero => rfl
  | succ k ih => simp only [msum, ih, Finset.mul_sum]

theorem msum_mul_right [NonUnitalNonAssocSemiring K] (M : ℕ → List ℕ) (k : ℕ) (F : (ℕ → List ℕ) → K)
    (c : K) : msum M k (fun g => F g * c) = msum M k F * c := by
  induction k generalizing F with
  | zero => rfl
  | succ k ih => simp only [msum, ih, Finset.sum_mul]

theorem msum_comm [AddCommMonoid K] (M M' : ℕ → List ℕ) (k k' : ℕ)
    (F : (ℕ → List ℕ) → (ℕ → List ℕ) → K) :
    msum M k (fun g => msum M' k' (F g)) = msum M' k' (fun g' => msum M k fun g => F g g') := by
  induction k generalizing F with
  | zero => rfl
  | succ k ih =>
    rw [msum]
    simp only [ih, msum]
    rw [msum_sum]

/-- One more core in a contraction. -/
theorem msum_step [CommSemiring K] {σ : Type} (S : Finset σ) (M : ℕ → List ℕ) (k : ℕ)
    (G : (ℕ → List ℕ) → σ → K) (hG : ∀ g v s, G (Function.update g k v) s = G g s)
    (G' : (ℕ → List ℕ) → K) (T : List ℕ → σ → K)
    (hG' : ∀ g, G' g = ∑ s ∈ S, G g s * T (g k) s) :
    msum M (k + 1) G' =
      ∑ s ∈ S, msum M k (fun g => G g s) * ∑ n ∈ Finset.range (M k).prod, T (unravel (M k) n) s := by
  rw [msum]
  simp only [hG', hG, Function.update_self, msum_sum, msum_mul_right]
  rw [Finset.sum_comm]
  exact Finset.sum_congr rfl fun s _ => by rw [Finset.mul_sum]

/-- Only the first `k` mode indices matter. -/
def DependsBelow (k : ℕ) (F : (ℕ → List ℕ) → K) : Prop :=
  ∀ g g', (∀ j < k, g j = g' j) → F g = F g'

theorem unravel_append_singleton (s : List ℕ) (n l j : ℕ) (hl : l < s.prod) (hj : j < n) :
    unravel (s ++ [n]) (l * n + j) = unravel s l ++ [j] := by
  have hv : Valid (s ++ [n]) (unravel s l ++ [j]) :=
    valid_append (unravel_valid hl) (by simpa using hj)
  rw [← unravel_ravel hv, ravel_append _ _ (unravel_valid hl).length_eq, ravel_unravel hl]
  simp

theorem unravel_length (s : List ℕ) (n : ℕ) : (unravel s n).length = s.length := by
  induction s generalizing n with
  | nil => rfl
  | cons a s ih => rw [unravel_cons]; simp [ih]

theorem msum_tensor [AddCommMonoid K] (row : List ℕ) (M : ℕ → List ℕ)
    (hM : ∀ k < row.length, M k = [row.getD k 0]) (F : (ℕ → List ℕ) → K)
    (hF : DependsBelow row.length F) :
    msum M row.length F = ∑ n ∈ Finset.range row.prod, F (tIdx (unravel row n)) := by
  induction row using List.reverseRecOn generalizing F with
  | nil => simp [msum]; exact hF _ _ (by intro j hj; simp at hj)
  | append_singleton s n ih =>
    have hMn : M s.length = [n] := by
      rw [hM s.length (by simp), List.getD_append_right _ _ _ _ le_rfl]; simp
    rw [List.length_append, List.length_singleton, msum, hMn]
    rw [List.prod_append, List.prod_singleton, sum_range_mul, Finset.sum_comm]
    refine Finset.sum_congr rfl fun j hj => ?_
    have hj' : j < n := by simpa using hj
    have hu : unravel [n] j = [j] := by
      simp
    rw [ih (fun k hk => by rw [hM k (by simp; omega), List.getD_append _ _ _ _ hk])]
    · refine Finset.sum_congr rfl fun l hl => ?_
      have hl' : l < s.prod := by simpa using hl
      apply hF
      intro k hk
      have hul := unravel_length s l
      rw [unravel_append_singleton s n l j hl' hj', hu]
      rcases Nat.lt_succ_iff_lt_or_eq.1 (show k < s.length + 1 by simpa using hk) with h1 | rfl
      · rw [Function.update_of_ne (by omega), tIdx, tIdx, List.getD_append _ _ _ _ (by omega)]
      · rw [Function.update_self, tIdx, List.getD_append_right _ _ _ _ (by omega), hul]; simp
    · intro g g' hg
      apply hF
      intro k hk
      rcases Nat.lt_succ_iff_lt_or_eq.1 (show k < s.length + 1 by simpa using hk) with h1 | rfl
      · rw [Function.update_of_ne (by omega), Function.update_of_ne (by omega)]; exact hg k h1
      · rw [Function.update_self, Function.update_self]

theorem msum_matrix [AddCommMonoid K] (d : ℕ) (row0 row1 : List ℕ) (h0 : row0.length = d)
    (h1 : row1.length = d) (M : ℕ → List ℕ)
    (hM : ∀ k < d, M k = [row0.getD k 0, row1.getD k 0]) (F : (ℕ → List ℕ) → K)
    (hF : DependsBelow d F) :
    msum M d F = ∑ x ∈ Finset.range row0.prod, ∑ y ∈ Finset.range row1.prod,
      F (mIdx (unravel row0 x) (unravel row1 y)) := by
  induction d generalizing F row0 row1 with
  | zero =>
    have e0 : row0 = [] := List.length_eq_zero_iff.1 h0
    have e1 : row1 = [] := List.length_eq_zero_iff.1 h1
    subst e0 e1
    simp [msum]; exact hF _ _ (by intro j hj; omega)
  | succ d ih =>
    obtain ⟨s, n, rfl⟩ : ∃ s n, row0 = s ++ [n] := by
      rcases List.eq_nil_or_concat row0 with h | ⟨s, n, h⟩
      · subst h; simp at h0
      · exact ⟨s, n, by simpa using h⟩
    obtain ⟨s', n', rfl⟩ : ∃ s n, row1 = s ++ [n] := by
      rcases List.eq_nil_or_concat row1 with h | ⟨s, n, h⟩
      · subst h; simp at h1
      · exact ⟨s, n, by simpa using h⟩
    have hs : s.length = d := by simpa using h0
    have hs' : s'.length = d := by simpa using h1
    have hMn : M d = [n, n'] := by
      rw [hM d (by omega), List.getD_append_right _ _ _ _ (by omega),
        List.getD_append_right _ _ _ _ (by omega), hs, hs']; simp
    rw [msum, hMn]
    simp only [List.prod_append, List.prod_cons, List.prod_nil, mul_one, sum_range_mul]
    have step : ∀ i < n, ∀ j < n', msum M d (fun g => F (Function.update g d (unravel [n, n'] (i * n' + j)))) =
        ∑ x ∈ Finset.range s.prod, ∑ y ∈ Finset.range s'.prod,
          F (mIdx (unravel (s ++ [n]) (x * n + i)) (unravel (s' ++ [n']) (y * n' + j))) := by
      intro i hi j hj
      have hu : unravel [n, n'] (i * n' + j) = [i, j] := by
        have := unravel_append_singleton [n] n' i j (by simpa using hi) hj
        have h2 := unravel_append_singleton [] n 0 i (by simp) hi
        simp at h2
        simpa [h2] using this
      rw [ih s s' hs hs' (fun k hk => by
        rw [hM k (by omega), List.getD_append _ _ _ _ (by omega), List.getD_append _ _ _ _ (by omega)])]
      · refine Finset.sum_congr rfl fun x hx => Finset.sum_congr rfl fun y hy => ?_
        have hx' : x < s.prod := by simpa using hx
        have hy' : y < s'.prod := by simpa using hy
        apply hF
        intro k hk
        have hul := unravel_length s x
        have hul' := unravel_length s' y
        rw [unravel_append_singleton s n x i hx' hi, unravel_append_singleton s' n' y j hy' hj, hu]
        rcases Nat.lt_succ_iff_lt_or_eq.1 hk with h1 | rfl
        · rw [Function.update_of_ne (by omega), mIdx, mIdx, List.getD_append _ _ _ _ (by omega),
            List.getD_append _ _ _ _ (by omega)]
        · rw [Function.update_self, mIdx, List.getD_append_right _ _ _ _ (by omega),
            List.getD_append_right _ _ _ _ (by omega), hul, hul', hs, hs']; simp
      · intro g g' hg
        apply hF
        intro k hk
        rcases Nat.lt_succ_iff_lt_or_eq.1 hk with h1 | rfl
        · rw [Function.update_of_ne (by omega), Function.update_of_ne (by omega)]; exact hg k h1
        · rw [Function.update_self, Function.update_self]
    calc _ = ∑ i ∈ Finset.range n, ∑ j ∈ Finset.range n', ∑ x ∈ Finset.range s.prod,
          ∑ y ∈ Finset.range s'.prod,
          F (mIdx (unravel (s ++ [n]) (x * n + i)) (unravel (s' ++ [n']) (y * n' + j))) :=
          Finset.sum_congr rfl fun i hi => Finset.sum_congr rfl fun j hj =>
            step i (by simpa using hi) j (by simpa using hj)
      _ = _ := by
        rw [Finset.sum_comm' (s := Finset.range s.prod) (t := fun _ => Finset.range n)
          (t' := Finset.range n) (s' := fun _ => Finset.range s.prod) (by simp)]
        refine Finset.sum_congr rfl fun i _ => ?_
        rw [Finset.sum_comm]
        refine Finset.sum_congr rfl fun x _ => ?_
        rw [Finset.sum_comm]

/-- A chain depends on the mode indices of its cores only. -/
theorem lprod_update [Semiring K] (r : ℕ → ℕ) (A : ℕ → List ℕ → ℕ → ℕ → K) (g : ℕ → List ℕ)
    (k b : ℕ) (v : List ℕ) :
    lprod r (fun j => A j (Function.update g k v j)) k b = lprod r (fun j => A j (g j)) k b :=
  lprod_congr' fun j hj => by rw [Function.update_of_ne (by omega)]

/-- Recursion for the contraction of two chains over their common mode indices. -/
theorem msum_lprod2 [CommSemiring K] (ra rb : ℕ → ℕ) (A B : ℕ → List ℕ → ℕ → ℕ → K) (M : ℕ → List ℕ)
    (k x y : ℕ) :
    msum M (k + 1) (fun g => lprod ra (fun j => A j (g j)) (k + 1) x *
        lprod rb (fun j => B j (g j)) (k + 1) y) =
      ∑ a ∈ Finset.range (ra k), ∑ c ∈ Finset.range (rb k),
        msum M k (fun g => lprod ra (fun j => A j (g j)) k a * lprod rb (fun j => B j (g j)) k c) *
          ∑ n ∈ Finset.range (M k).prod, A k (unravel (M k) n) a x * B k (unravel (M k) n) c y := by
  rw [msum_step (Finset.range (ra k) ×ˢ Finset.range (rb k)) M k
    (fun g s => lprod ra (fun j => A j (g j)) k s.1 * lprod rb (fun j => B j (g j)) k s.2)
    (fun g v s => by rw [lprod_update, lprod_update]) _
    (fun v s => A k v s.1 x * B k v s.2 y)]
  · rw [Finset.sum_product]
  · intro g
    rw [lprod, lprod, Finset.sum_mul_sum, Finset.sum_product]
    exact Finset.sum_congr rfl fun a _ => Finset.sum_congr rfl fun c _ => by ring

end T3f
