import Verif.Proofs.TangentSpace

/-! # Tangent vectors whose blocks are orthogonal to the left cores -/

namespace T3f

section
variable {K : Type} [CommRing K] {N rL rV rW rS : ℕ → ℕ} {L V W S : ℕ → ℕ → ℕ → ℕ → K} {d : ℕ}

/-- All blocks but the last one are orthogonal to the left cores. -/
def Gauged (N rL rV : ℕ → ℕ) (L D : ℕ → ℕ → ℕ → ℕ → K) (d : ℕ) : Prop :=
  ∀ k, k + 1 < d → ∀ c < rL (k + 1), ∀ b < rV (k + 1), ∑ a ∈ Finset.range (rL k), ∑ n ∈ Finset.range (N k), L k n a c * D k n a b = 0

theorem gauged_tanBlock (hL : ∀ j, j + 1 < d → LOrth N rL L j) : Gauged N rL rV L (fun k => tanBlock N rL rV rW L V W d k) d := by
  intro k hk c hc b _
  simp only [tanBlock, if_pos hk, mul_sub, Finset.sum_sub_distrib]
  rw [← coupling_left, sub_eq_zero]
  simp only [Finset.mul_sum]
  calc _ = ∑ c' ∈ Finset.range (rL (k + 1)), δ c c' * coupling N rL rV rW L V W d (k + 1) c' b := (sum_δ_left hc _).symm
    _ = ∑ c' ∈ Finset.range (rL (k + 1)), ∑ a ∈ Finset.range (rL k), ∑ n ∈ Finset.range (N k),
        L k n a c * (L k n a c' * coupling N rL rV rW L V W d (k + 1) c' b) := by
      refine Finset.sum_congr rfl fun c' hc' => ?_
      rw [← hL k hk c hc c' (Finset.mem_range.1 hc')]
      simp only [Finset.sum_mul, mul_assoc]
    _ = _ := by
      rw [Finset.sum_comm]
      refine Finset.sum_congr rfl fun a _ => ?_
      rw [Finset.sum_comm]

theorem Gauged.sum {ι : Type} {s : Finset ι} {D : ι → ℕ → ℕ → ℕ → ℕ → K} (w : ι → K) (h : ∀ i ∈ s, Gauged N rL rV L (D i) d) :
    Gauged N rL rV L (fun k n a b => ∑ i ∈ s, w i * D i k n a b) d := by
  intro k hk c hc b hb
  simp only [Finset.mul_sum]
  calc _ = ∑ i ∈ s, ∑ a ∈ Finset.range (rL k), ∑ n ∈ Finset.range (N k), L k n a c * (w i * D i k n a b) := by
        rw [Finset.sum_congr rfl fun a _ => Finset.sum_comm, Finset.sum_comm]
    _ = 0 := Finset.sum_eq_zero fun i hi => by
        have := h i hi k hk c hc b hb
        calc _ = w i * ∑ a ∈ Finset.range (rL k), ∑ n ∈ Finset.range (N k), L k n a c * D i k n a b := by
              simp only [Finset.mul_sum]
              exact Finset.sum_congr rfl fun _ _ => Finset.sum_congr rfl fun _ _ => by ring
          _ = 0 := by rw [this, mul_zero]

theorem Gauged.congr {D D' : ℕ → ℕ → ℕ → ℕ → K} (h : Gauged N rL rV L D d)
    (e : ∀ k, k + 1 < d → ∀ n < N k, ∀ a < rL k, ∀ b < rV (k + 1), D' k n a b = D k n a b) : Gauged N rL rV L D' d := by
  intro k hk c hc b hb
  rw [← h k hk c hc b hb]
  refine Finset.sum_congr rfl fun a ha => Finset.sum_congr rfl fun n hn => ?_
  rw [e k hk n (Finset.mem_range.1 hn) a (Finset.mem_range.1 ha) b hb]

/-- Behind a gauged block nothing is seen. -/
theorem coupling_after (h0 : rL 0 = 1) (hd : rV d = 1) (hL : ∀ j, j + 1 < d → LOrth N rL L j) (hV : ∀ j, 0 < j → j < d → ROrth N rV V j)
    {D : ℕ → ℕ → ℕ → ℕ → K} (hD : Gauged N rL rV L D d) {k : ℕ} :
    ∀ m c b, k + 1 + m < d → c < rL (k + 1 + m) → b < rV (k + 1 + m) →
      coupling N rL rV (blockRank rL rV k) L V (blockChain L V (D k) k) d (k + 1 + m) c b = 0 := by
  intro m
  induction m with
  | zero =>
    intro c b hk hc hb
    rw [Nat.add_zero] at hk hc hb ⊢
    rw [coupling_left, ← hD k hk c hc b hb]
    refine Finset.sum_congr rfl fun a ha => Finset.sum_congr rfl fun n _ => ?_
    rw [blockProj_at h0 hd hL hV (by omega) (Finset.mem_range.1 ha) hb]
  | succ m ih =>
    intro c b hk hc hb
    rw [show k + 1 + (m + 1) = k + 1 + m + 1 by omega] at hk hc hb ⊢
    rw [coupling_left]
    refine Finset.sum_eq_zero fun a ha => Finset.sum_eq_zero fun n _ => ?_
    rw [blockProj_after hd hV (by omega) (by omega) hb, Finset.sum_eq_zero, mul_zero]
    intro e he
    rw [ih a e (by omega) (Finset.mem_range.1 ha) (Finset.mem_range.1 he), zero_mul]

/-- Inner product of two tangent vectors with gauged blocks. -/
theorem gauged_dot (h0 : rL 0 = 1) (hd : rV d = 1) (hL : ∀ j, j + 1 < d → LOrth N rL L j) (hV : ∀ j, 0 < j → j < d → ROrth N rV V j)
    {D E : ℕ → ℕ → ℕ → ℕ → K} (hD : Gauged N rL rV L D d) (hE : Gauged N rL rV L E d) :
    ∑ i ∈ Finset.range d, ∑ k ∈ Finset.range d,
      gram N (blockRank rL rV i) (blockRank rL rV k) (blockChain L V (D i) i) (blockChain L V (E k) k) d 0 0 =
    ∑ k ∈ Finset.range d, ∑ a ∈ Finset.range (rL k), ∑ n ∈ Finset.range (N k), ∑ b ∈ Finset.range (rV (k + 1)), D k n a b * E k n a b := by
  have hz : ∀ i < d, (if d ≤ i then rL d else rV d) = 1 := fun i hi => by rw [if_neg (by omega)]; exact hd
  refine Finset.sum_congr rfl fun i hi => ?_
  have hi' := Finset.mem_range.1 hi
  rw [Finset.sum_eq_single_of_mem i hi]
  · rw [gram_block _ hi' (hz i hi') (hz i hi')]
    refine Finset.sum_congr rfl fun a ha => Finset.sum_congr rfl fun n _ => Finset.sum_congr rfl fun b hb => ?_
    rw [blockProj_at h0 hd hL hV hi' (Finset.mem_range.1 ha) (Finset.mem_range.1 hb)]
  · intro k hk hki
    have hk' := Finset.mem_range.1 hk
    rw [gram_block _ hi' (hz i hi') (hz k hk')]
    rcases lt_or_gt_of_ne hki with h | h
    · refine Finset.sum_eq_zero fun a ha => Finset.sum_eq_zero fun n _ => Finset.sum_eq_zero fun b hb => ?_
      rw [blockProj_after hd hV h hi' (Finset.mem_range.1 hb), Finset.sum_eq_zero, mul_zero]
      intro e he
      obtain ⟨m, rfl⟩ : ∃ m, i = k + 1 + m := ⟨i - (k + 1), by omega⟩
      rw [coupling_after h0 hd hL hV hE m a e hi' (Finset.mem_range.1 ha) (Finset.mem_range.1 he), zero_mul]
    · calc _ = ∑ b ∈ Finset.range (rV (i + 1)), ∑ c ∈ Finset.range (rL (i + 1)),
            coupling N rL rV (blockRank rL rV k) L V (blockChain L V (E k) k) d (i + 1) c b *
              ∑ a ∈ Finset.range (rL i), ∑ n ∈ Finset.range (N i), L i n a c * D i n a b := by
            simp only [Finset.mul_sum]
            calc _ = ∑ a ∈ Finset.range (rL i), ∑ n ∈ Finset.range (N i), ∑ b ∈ Finset.range (rV (i + 1)), ∑ c ∈ Finset.range (rL (i + 1)),
                  coupling N rL rV (blockRank rL rV k) L V (blockChain L V (E k) k) d (i + 1) c b * (L i n a c * D i n a b) := by
                  refine Finset.sum_congr rfl fun a ha => Finset.sum_congr rfl fun n _ => Finset.sum_congr rfl fun b _ => ?_
                  rw [blockProj_before h0 hL hk' h (Finset.mem_range.1 ha), Finset.mul_sum]
                  exact Finset.sum_congr rfl fun c _ => by ring
              _ = ∑ a ∈ Finset.range (rL i), ∑ b ∈ Finset.range (rV (i + 1)), ∑ c ∈ Finset.range (rL (i + 1)), ∑ n ∈ Finset.range (N i),
                  coupling N rL rV (blockRank rL rV k) L V (blockChain L V (E k) k) d (i + 1) c b * (L i n a c * D i n a b) := by
                  refine Finset.sum_congr rfl fun a _ => ?_
                  rw [Finset.sum_comm]
                  exact Finset.sum_congr rfl fun b _ => Finset.sum_comm
              _ = _ := by
                  rw [Finset.sum_comm]
                  exact Finset.sum_congr rfl fun b _ => Finset.sum_comm
        _ = 0 := Finset.sum_eq_zero fun b hb => Finset.sum_eq_zero fun c hc => by
            rw [hD i (by omega) c (Finset.mem_range.1 hc) b (Finset.mem_range.1 hb), mul_zero]

end

section
variable {x left right : TT ℝ}

/-- The blocks by flat mode indices. -/
def flat (x : TT ℝ) (D : ℕ → List ℕ → ℕ → ℕ → ℝ) : ℕ → ℕ → ℕ → ℕ → ℝ := fun k n => D k (unravel (x.modes k) n)

/-- Inner product of two tangent vectors with gauged blocks. -/
theorem frame_gauged_dot (F : TFrame x left right) (h : x.WF) {D E : ℕ → List ℕ → ℕ → ℕ → ℝ}
    (hD : Gauged x.N left.rank right.rank (left.fl []) (flat x D) x.ndims) (hE : Gauged x.N left.rank right.rank (left.fl []) (flat x E) x.ndims) :
    dot (restShape x.rawShape) (fun i => frameVec x left right D (restModes x.rawShape i)) (fun i => frameVec x left right E (restModes x.rawShape i)) =
    ∑ k ∈ Finset.range x.ndims, ∑ a ∈ Finset.range (left.rank k), ∑ n ∈ Finset.range (x.N k), ∑ b ∈ Finset.range (right.rank (k + 1)),
      flat x D k n a b * flat x E k n a b := by
  rw [← gauged_dot F.l0 F.rd F.lo F.ro hD hE]
  unfold dot
  simp only [frameVec_chains F, blockMat_lchain, Finset.mul_sum, Finset.sum_mul]
  rw [Finset.sum_comm]
  conv_rhs => rw [Finset.sum_comm]
  refine Finset.sum_congr rfl fun k _ => ?_
  rw [Finset.sum_comm]
  refine Finset.sum_congr rfl fun i _ => ?_
  rw [dense_gram h (lchain left right D i) (lchain left right E k), lchain_flat F, lchain_flat F]
  rfl

end

end T3f
