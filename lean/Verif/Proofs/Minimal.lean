import Verif.Proofs.ChainEntry
import Verif.Proofs.RProd
import Verif.Proofs.FullGet
import Verif.Spec.Tangent
import Mathlib.LinearAlgebra.Finsupp.LinearCombination
import Mathlib.LinearAlgebra.Dual.Lemmas
import Mathlib.Tactic.FieldSimp

/-! # Tensor trains with minimal ranks: the interface matrices have full rank -/

namespace T3f

/-! ## Linear algebra -/

/-- If a family of vectors satisfies no linear relation between the components, every unit vector is a combination of its members. -/
theorem dual_of_indep {J : Type} (f : J → ℕ → ℝ) (r : ℕ)
    (h : ∀ v : ℕ → ℝ, (∀ j, ∑ a ∈ Finset.range r, v a * f j a = 0) → ∀ a < r, v a = 0) {a' : ℕ} (ha' : a' < r) :
    ∃ B : J →₀ ℝ, ∀ a < r, (B.sum fun j c => c * f j a) = if a = a' then 1 else 0 := by
  classical
  let F : J → Fin r → ℝ := fun j a => f j a
  have htop : Submodule.span ℝ (Set.range F) = ⊤ := by
    by_contra hne
    obtain ⟨φ, hφ, hker⟩ := Submodule.exists_le_ker_of_lt_top _ (lt_top_iff_ne_top.2 hne)
    apply hφ
    let v : ℕ → ℝ := fun a => if h : a < r then φ (Pi.single ⟨a, h⟩ 1) else 0
    have hexp : ∀ u : Fin r → ℝ, φ u = ∑ a ∈ Finset.range r, v a * (if h : a < r then u ⟨a, h⟩ else 0) := by
      intro u
      conv_lhs => rw [pi_eq_sum_univ' u]
      rw [map_sum, Finset.sum_range]
      refine Finset.sum_congr rfl fun a _ => ?_
      rw [map_smul, smul_eq_mul, mul_comm]
      simp only [v, dif_pos a.2, Fin.eta]
    have hv : ∀ a < r, v a = 0 := by
      refine h v fun j => ?_
      have : φ (F j) = 0 := hker (Submodule.subset_span ⟨j, rfl⟩)
      rw [hexp] at this
      rw [← this]
      exact Finset.sum_congr rfl fun a ha => by rw [dif_pos (Finset.mem_range.1 ha)]
    ext u
    simp [v] at hv
    simp [hv]
  have hmem : (Pi.single ⟨a', ha'⟩ 1 : Fin r → ℝ) ∈ Submodule.span ℝ (Set.range F) := by rw [htop]; trivial
  obtain ⟨B, hB⟩ := Finsupp.mem_span_range_iff_exists_finsupp.1 hmem
  refine ⟨B, fun a ha => ?_⟩
  have := congrFun hB ⟨a, ha⟩
  rw [Finsupp.sum, Finset.sum_apply] at this
  rw [Finsupp.sum]
  refine Eq.trans ?_ (this.trans ?_)
  · rfl
  · simp [Pi.single_apply]

/-- The numbers below `n + 1` without `a₀`. -/
def skip (a₀ b : ℕ) : ℕ := if b < a₀ then b else b + 1

theorem skip_lt {a₀ b n : ℕ} (hb : b < n) : skip a₀ b < n + 1 := by unfold skip; split <;> omega
theorem skip_ne (a₀ b : ℕ) : skip a₀ b ≠ a₀ := by unfold skip; split <;> omega

theorem sum_skip {n a₀ : ℕ} (h : a₀ < n + 1) (f : ℕ → ℝ) : ∑ a ∈ Finset.range (n + 1), f a = f a₀ + ∑ b ∈ Finset.range n, f (skip a₀ b) := by
  rw [Finset.sum_range, Finset.sum_range, Fin.sum_univ_succAbove (fun i : Fin (n + 1) => f i) ⟨a₀, h⟩]
  congr 1
  refine Finset.sum_congr rfl fun b _ => ?_
  congr 1
  unfold skip
  split <;> rename_i hb
  · rw [Fin.succAbove_of_castSucc_lt _ _ (by simpa [Fin.lt_def] using hb)]; rfl
  · rw [Fin.succAbove_of_le_castSucc _ _ (by simpa [Fin.le_def] using hb)]; rfl

/-! ## Changing one bond -/

/-- Insert matrices `P`, `Q` on the bond before core `k`. -/
theorem rebond {t : TT ℝ} (h : t.WF) (hb : t.batch = none) {k : ℕ} (h0 : 0 < k) (hk : k < t.ndims) {r₁ : ℕ} (hr : 0 < r₁) (P Q : ℕ → ℕ → ℝ)
    (hPQ : ∀ g, (∀ j < t.ndims, Valid (t.modes j) (g j)) →
      ∑ b ∈ Finset.range r₁, (∑ a ∈ Finset.range (t.rank k), lprod t.rank (t.slice [] g) k a * P a b) *
        (∑ a ∈ Finset.range (t.rank k), Q b a * rprod t.rank (t.slice [] g) (t.ndims - k) k a) =
      ∑ a ∈ Finset.range (t.rank k), lprod t.rank (t.slice [] g) k a * rprod t.rank (t.slice [] g) (t.ndims - k) k a) :
    ∃ s : TT ℝ, s.WF ∧ s.batch = none ∧ s.rawShape = t.rawShape ∧ s.rank k = r₁ ∧
      ∀ g, (∀ j < t.ndims, Valid (t.modes j) (g j)) → s.entry [] g = t.entry [] g := by
  have hbpre : t.bpre = [] := by simp [TT.bpre, hb]
  set r' : ℕ → ℕ := Function.update t.rank k r₁ with hr'
  have r'k : r' k = r₁ := by simp [r']
  have r'ne : ∀ j, j ≠ k → r' j = t.rank j := fun j hj => by simp [r', hj]
  let f : ℕ → Tensor ℝ := fun j =>
    if j + 1 = k then ⟨t.rank j :: (t.modes j ++ [r₁]), fun idx => ∑ a ∈ Finset.range (t.rank k), (t.core j).get (idx.dropLast ++ [a]) * P a (idx.getLastD 0)⟩
    else if j = k then ⟨r₁ :: (t.modes j ++ [t.rank (j + 1)]), fun idx => ∑ a ∈ Finset.range (t.rank k), Q (idx.headD 0) a * (t.core j).get (a :: idx.tail)⟩
    else t.core j
  obtain ⟨cores, ec, lc, hch, hv⟩ := Chain.build (fun j => Except.ok (f j)) t.ndims none r' t.modes t.rawShape.length (fun j C => C = f j)
    h.pos (by rw [r'ne 0 (by omega)]; exact h.rank_first) (by rw [r'ne _ (by omega)]; exact h.rank_last)
    (fun j hj => by
      by_cases hjk : j = k
      · rw [hjk, r'k]; exact hr
      · rw [r'ne j hjk]; exact h.rank_pos j hj) h.rows (fun j _ => by simp [TT.modes]) (by simp)
    (fun j hj => ⟨f j, rfl, by
      simp only [f]
      by_cases h1 : j + 1 = k
      · rw [if_pos h1, r'ne j (by omega), h1, r'k]; rfl
      · by_cases h2 : j = k
        · rw [if_neg h1, if_pos h2, h2, r'k, r'ne _ (by omega)]; rfl
        · rw [if_neg h1, if_neg h2, h.core_shape j hj, hbpre, r'ne j h2, r'ne _ h1]; rfl, rfl⟩)
  refine ⟨chainTT none cores r' t.modes t.rawShape.length, hch.wf, rfl, ?_, ?_, fun g hg => ?_⟩
  · change rowsOf _ _ _ = _
    rw [lc]; exact h.rows_eq.symm
  · rw [chainTT_rank k (by omega), r'k]
  · rw [hch.entry_eq, lc, TT.entry]
    obtain ⟨m, hm⟩ : ∃ m, t.ndims = k + m := ⟨t.ndims - k, by omega⟩
    have hm' : t.ndims - k = m := by omega
    have hlast : t.rank (k + m) = 1 := by rw [← hm]; exact h.rank_last
    rw [hm', ] at hPQ
    rw [hm, lprod_split _ _ m k (by rw [r'ne _ (by omega)]; exact hlast), lprod_split _ _ m k hlast, ← hPQ g hg, r'k]
    have hA : ∀ j < t.ndims, ∀ a b, (cores.getD j default).get ([] ++ a :: (g j ++ [b])) = (f j).get (a :: (g j ++ [b])) := fun j hj a b => by rw [hv j hj]; rfl
    refine Finset.sum_congr rfl fun b hb => ?_
    congr 1
    · obtain ⟨k', rfl⟩ : ∃ k', k = k' + 1 := ⟨k - 1, by omega⟩
      simp only [lprod, Finset.sum_mul]
      rw [Finset.sum_comm, r'ne k' (by omega)]
      refine Finset.sum_congr rfl fun a ha => ?_
      rw [hA k' (by omega)]
      have e1 : (f k').get (a :: (g k' ++ [b])) = ∑ c ∈ Finset.range (t.rank (k' + 1)), t.slice [] g k' a c * P c b := by
        simp only [f, if_pos]
        rw [show a :: (g k' ++ [b]) = (a :: g k') ++ [b] by simp]
        simp only [List.dropLast_concat, List.getLastD_concat]
        rfl
      rw [e1, Finset.mul_sum]
      refine Finset.sum_congr rfl fun c _ => ?_
      rw [← mul_assoc]
      congr 2
      refine lprod_congr (fun j hj => r'ne j (by omega)) (fun j hj a b _ _ => ?_) (by rw [r'ne k' (by omega)]; exact Finset.mem_range.1 ha)
      rw [hA j (by omega)]
      simp only [f, if_neg (show ¬ j + 1 = k' + 1 by omega), if_neg (show ¬ j = k' + 1 by omega)]
      rfl
    · obtain ⟨m', rfl⟩ : ∃ m', m = m' + 1 := ⟨m - 1, by omega⟩
      simp only [rprod, Finset.mul_sum]
      rw [Finset.sum_comm, r'ne (k + 1) (by omega)]
      refine Finset.sum_congr rfl fun c hc => ?_
      rw [hA k hk]
      have e1 : (f k).get (b :: (g k ++ [c])) = ∑ a ∈ Finset.range (t.rank k), Q b a * t.slice [] g k a c := by
        simp only [f, if_neg (show ¬ k + 1 = k by omega), if_true, List.headD_cons, List.tail_cons]
        rfl
      rw [e1, Finset.sum_mul]
      refine Finset.sum_congr rfl fun a _ => ?_
      rw [← mul_assoc]
      congr 1
      refine rprod_congr (fun j h1 h2 => r'ne j (by omega)) (fun j h1 h2 a b _ _ => ?_) (by rw [r'ne (k + 1) (by omega)]; exact Finset.mem_range.1 hc)
      rw [hA j (by omega)]
      simp only [f, if_neg (show ¬ j + 1 = k by omega), if_neg (show ¬ j = k by omega)]
      rfl

theorem dense_eqv {s t : TT ℝ} (h : t.WF) (hs : s.rawShape = t.rawShape) (hb : t.batch = none) (hbs : s.batch = none)
    (he : ∀ g, (∀ j < t.ndims, Valid (t.modes j) (g j)) → s.entry [] g = t.entry [] g) : s.dense ≃ₜ t.dense := by
  have p1 : t.bpre = [] := by simp [TT.bpre, hb]
  have p2 : s.bpre = [] := by simp [TT.bpre, hbs]
  have hsh : s.dense.shape = t.dense.shape := by
    change s.bpre ++ restShape s.rawShape = t.bpre ++ restShape t.rawShape
    rw [p1, p2, hs]
  refine ⟨hsh, fun i hi => ?_⟩
  rw [hsh] at hi
  have e1 := dense_get s [] i (by rw [p2])
  have e2 := dense_get t [] i (by rw [p1])
  rw [List.nil_append] at e1 e2
  rw [e1, e2, hs]
  refine he _ (validModes_rest h ?_)
  change Valid (t.bpre ++ restShape t.rawShape) i at hi
  rwa [p1] at hi

/-! ## Full rank of the interfaces -/

/-- Mode indices of `t`. -/
abbrev TT.Modes (t : TT ℝ) : Type := {g : ℕ → List ℕ // ∀ j < t.ndims, Valid (t.modes j) (g j)}

theorem TT.Nonzero.entry {t : TT ℝ} (hn : t.Nonzero) (h : t.WF) (hb : t.batch = none) : ∃ g : t.Modes, t.entry [] g.1 ≠ 0 := by
  obtain ⟨i, hi, hne⟩ := hn
  have p1 : t.bpre = [] := by simp [TT.bpre, hb]
  have e := dense_get t [] i (by rw [p1])
  rw [List.nil_append] at e
  rw [e] at hne
  change Valid (t.bpre ++ restShape t.rawShape) i at hi
  rw [p1] at hi
  exact ⟨⟨_, validModes_rest h hi⟩, hne⟩

theorem entry_split {t : TT ℝ} (h : t.WF) {k : ℕ} (hk : k ≤ t.ndims) (g : ℕ → List ℕ) :
    t.entry [] g = ∑ a ∈ Finset.range (t.rank k), lprod t.rank (t.slice [] g) k a * rprod t.rank (t.slice [] g) (t.ndims - k) k a := by
  obtain ⟨m, hm⟩ : ∃ m, t.ndims = k + m := ⟨t.ndims - k, by omega⟩
  rw [TT.entry, show t.ndims - k = m by omega, hm]
  exact lprod_split _ _ m k (by rw [← hm]; exact h.rank_last)

theorem relation_sum {n a₀ : ℕ} (ha₀ : a₀ < n + 1) {v ρ : ℕ → ℝ} (hv : v a₀ ≠ 0) (h : ∑ a ∈ Finset.range (n + 1), v a * ρ a = 0) :
    ρ a₀ = ∑ b ∈ Finset.range n, -(v (skip a₀ b) / v a₀) * ρ (skip a₀ b) := by
  rw [sum_skip ha₀] at h
  have h2 : ρ a₀ = -(∑ b ∈ Finset.range n, v (skip a₀ b) * ρ (skip a₀ b)) / v a₀ := by
    rw [eq_div_iff hv]; linarith
  rw [h2, neg_div, div_eq_mul_inv, Finset.sum_mul, ← Finset.sum_neg_distrib]
  exact Finset.sum_congr rfl fun b _ => by ring

theorem shrink_sum {n a₀ : ℕ} (ha₀ : a₀ < n + 1) {l ρ w : ℕ → ℝ} (h : ρ a₀ = ∑ b ∈ Finset.range n, w (skip a₀ b) * ρ (skip a₀ b)) :
    ∑ b ∈ Finset.range n, (∑ a ∈ Finset.range (n + 1), l a * ((if a = skip a₀ b then 1 else 0) + if a = a₀ then w (skip a₀ b) else 0)) *
      (∑ a ∈ Finset.range (n + 1), (if a = skip a₀ b then 1 else 0) * ρ a) = ∑ a ∈ Finset.range (n + 1), l a * ρ a := by
  have hs : ∀ b ∈ Finset.range n, skip a₀ b ∈ Finset.range (n + 1) := fun b hb => Finset.mem_range.2 (skip_lt (Finset.mem_range.1 hb))
  have e1 : ∀ b ∈ Finset.range n, ∑ a ∈ Finset.range (n + 1), l a * ((if a = skip a₀ b then 1 else 0) + if a = a₀ then w (skip a₀ b) else 0) =
      l (skip a₀ b) + l a₀ * w (skip a₀ b) := by
    intro b hb
    simp only [mul_add, Finset.sum_add_distrib, mul_ite, mul_one, mul_zero, Finset.sum_ite_eq', Finset.mem_range, if_pos ha₀, if_pos (Finset.mem_range.1 (hs b hb))]
  have e2 : ∀ b ∈ Finset.range n, ∑ a ∈ Finset.range (n + 1), (if a = skip a₀ b then 1 else 0) * ρ a = ρ (skip a₀ b) := by
    intro b hb
    simp only [ite_mul, one_mul, zero_mul, Finset.sum_ite_eq', if_pos (hs b hb)]
  rw [Finset.sum_congr rfl fun b hb => by rw [e1 b hb, e2 b hb], sum_skip ha₀, h, Finset.mul_sum, ← Finset.sum_add_distrib]
  exact Finset.sum_congr rfl fun b _ => by ring

theorem shrink_sum' {n a₀ : ℕ} (ha₀ : a₀ < n + 1) {l ρ w : ℕ → ℝ} (h : l a₀ = ∑ b ∈ Finset.range n, w (skip a₀ b) * l (skip a₀ b)) :
    ∑ b ∈ Finset.range n, (∑ a ∈ Finset.range (n + 1), l a * (if a = skip a₀ b then 1 else 0)) *
      (∑ a ∈ Finset.range (n + 1), ((if a = skip a₀ b then 1 else 0) + if a = a₀ then w (skip a₀ b) else 0) * ρ a) =
      ∑ a ∈ Finset.range (n + 1), l a * ρ a := by
  have := shrink_sum ha₀ (l := ρ) (ρ := l) h
  rw [Finset.sum_congr rfl fun a _ => mul_comm (l a) (ρ a), ← this]
  refine Finset.sum_congr rfl fun b _ => ?_
  rw [mul_comm]
  congr 1 <;> exact Finset.sum_congr rfl fun a _ => mul_comm _ _

theorem minimal_rebond {t : TT ℝ} (h : t.WF) (hb : t.batch = none) (hmin : t.MinimalRanks) {k : ℕ} (h0 : 0 < k) (hk : k < t.ndims) {n : ℕ}
    (hn : t.rank k = n + 1) (h1 : 0 < n) (P Q : ℕ → ℕ → ℝ)
    (hPQ : ∀ g, (∀ j < t.ndims, Valid (t.modes j) (g j)) →
      ∑ b ∈ Finset.range n, (∑ a ∈ Finset.range (n + 1), lprod t.rank (t.slice [] g) k a * P a b) *
        (∑ a ∈ Finset.range (n + 1), Q b a * rprod t.rank (t.slice [] g) (t.ndims - k) k a) =
      ∑ a ∈ Finset.range (n + 1), lprod t.rank (t.slice [] g) k a * rprod t.rank (t.slice [] g) (t.ndims - k) k a) : False := by
  rw [← hn] at hPQ
  obtain ⟨s, ws, bs, rs, ks, es⟩ := rebond h hb h0 hk h1 P Q hPQ
  have := hmin s ws bs rs (dense_eqv h rs hb bs es) k hk.le
  omega

theorem right_indep {t : TT ℝ} (h : t.WF) (hb : t.batch = none) (hmin : t.MinimalRanks) (hne : t.Nonzero) {k : ℕ} (hk : k ≤ t.ndims) (v : ℕ → ℝ)
    (hv : ∀ g : t.Modes, ∑ a ∈ Finset.range (t.rank k), v a * rprod t.rank (t.slice [] g.1) (t.ndims - k) k a = 0) : ∀ a < t.rank k, v a = 0 := by
  obtain ⟨g₀, hg₀⟩ := hne.entry h hb
  obtain ⟨n, hn⟩ : ∃ n, t.rank k = n + 1 := ⟨t.rank k - 1, by have := h.rank_pos k hk; omega⟩
  by_contra hcon
  push Not at hcon
  obtain ⟨a₀, ha₀, hva⟩ := hcon
  rw [hn] at hv ha₀
  by_cases hz : n = 0
  · subst hz
    obtain rfl : a₀ = 0 := by omega
    apply hg₀
    rw [entry_split h hk, hn, Finset.sum_range_one]
    have := hv g₀
    rw [Finset.sum_range_one] at this
    rcases mul_eq_zero.1 this with h' | h'
    · exact absurd h' hva
    · rw [h', mul_zero]
  · have h0 : 0 < k := by
      rcases Nat.eq_zero_or_pos k with rfl | h'
      · rw [h.rank_first] at hn; omega
      · exact h'
    have hkd : k < t.ndims := by
      rcases hk.lt_or_eq with h' | rfl
      · exact h'
      · rw [h.rank_last] at hn; omega
    exact minimal_rebond h hb hmin h0 hkd hn (by omega)
      (fun a b => (if a = skip a₀ b then 1 else 0) + if a = a₀ then -(v (skip a₀ b) / v a₀) else 0)
      (fun b a => if a = skip a₀ b then 1 else 0)
      (fun g hg => shrink_sum ha₀ (w := fun a => -(v a / v a₀)) (relation_sum ha₀ hva (hv ⟨g, hg⟩)))

theorem left_indep {t : TT ℝ} (h : t.WF) (hb : t.batch = none) (hmin : t.MinimalRanks) (hne : t.Nonzero) {k : ℕ} (hk : k ≤ t.ndims) (v : ℕ → ℝ)
    (hv : ∀ g : t.Modes, ∑ a ∈ Finset.range (t.rank k), v a * lprod t.rank (t.slice [] g.1) k a = 0) : ∀ a < t.rank k, v a = 0 := by
  obtain ⟨g₀, hg₀⟩ := hne.entry h hb
  obtain ⟨n, hn⟩ : ∃ n, t.rank k = n + 1 := ⟨t.rank k - 1, by have := h.rank_pos k hk; omega⟩
  by_contra hcon
  push Not at hcon
  obtain ⟨a₀, ha₀, hva⟩ := hcon
  rw [hn] at hv ha₀
  by_cases hz : n = 0
  · subst hz
    obtain rfl : a₀ = 0 := by omega
    apply hg₀
    rw [entry_split h hk, hn, Finset.sum_range_one]
    have := hv g₀
    rw [Finset.sum_range_one] at this
    rcases mul_eq_zero.1 this with h' | h'
    · exact absurd h' hva
    · rw [h', zero_mul]
  · have h0 : 0 < k := by
      rcases Nat.eq_zero_or_pos k with rfl | h'
      · rw [h.rank_first] at hn; omega
      · exact h'
    have hkd : k < t.ndims := by
      rcases hk.lt_or_eq with h' | rfl
      · exact h'
      · rw [h.rank_last] at hn; omega
    exact minimal_rebond h hb hmin h0 hkd hn (by omega)
      (fun a b => if a = skip a₀ b then 1 else 0)
      (fun b a => (if a = skip a₀ b then 1 else 0) + if a = a₀ then -(v (skip a₀ b) / v a₀) else 0)
      (fun g hg => shrink_sum' ha₀ (w := fun a => -(v a / v a₀)) (relation_sum ha₀ hva (hv ⟨g, hg⟩)))

/-- Mode indices of `g` before core `k`, of `j` from core `k` on. -/
def splice (k : ℕ) (g j : ℕ → List ℕ) (l : ℕ) : List ℕ := if l < k then g l else j l

theorem splice_lprod (t : TT ℝ) (k : ℕ) (g j : ℕ → List ℕ) (a : ℕ) : lprod t.rank (t.slice [] (splice k g j)) k a = lprod t.rank (t.slice [] g) k a :=
  lprod_congr' fun l hl => by funext a b; simp [TT.slice, splice, hl]

theorem rprod_congr' {r : ℕ → ℕ} {A B : ℕ → ℕ → ℕ → ℝ} {m k a : ℕ} (h : ∀ j, k ≤ j → A j = B j) : rprod r A m k a = rprod r B m k a := by
  induction m generalizing k a with
  | zero => rfl
  | succ m ih =>
    rw [rprod, rprod, h k le_rfl]
    exact Finset.sum_congr rfl fun b _ => by rw [ih fun j hj => h j (by omega)]

theorem splice_rprod (t : TT ℝ) (k m : ℕ) (g j : ℕ → List ℕ) (a : ℕ) : rprod t.rank (t.slice [] (splice k g j)) m k a = rprod t.rank (t.slice [] j) m k a :=
  rprod_congr' fun l hl => by funext a b; simp [TT.slice, splice, show ¬ l < k by omega]

theorem splice_entry {t : TT ℝ} (h : t.WF) {k : ℕ} (hk : k ≤ t.ndims) (g j : ℕ → List ℕ) : t.entry [] (splice k g j) =
    ∑ a ∈ Finset.range (t.rank k), lprod t.rank (t.slice [] g) k a * rprod t.rank (t.slice [] j) (t.ndims - k) k a := by
  rw [entry_split h hk]
  exact Finset.sum_congr rfl fun a _ => by rw [splice_lprod, splice_rprod]

theorem splice_valid {t : TT ℝ} (k : ℕ) (g j : t.Modes) : ∀ l < t.ndims, Valid (t.modes l) (splice k g.1 j.1 l) := by
  intro l hl
  unfold splice
  split
  · exact g.2 l hl
  · exact j.2 l hl

/-- The left interface of a minimal representation is a combination of the left interface of any other representation. -/
theorem left_transfer {s t : TT ℝ} (hs : s.WF) (ht : t.WF) (hb : s.batch = none) (hmin : s.MinimalRanks) (hne : s.Nonzero)
    (hn : t.ndims = s.ndims) (he : ∀ g : s.Modes, t.entry [] g.1 = s.entry [] g.1) {k : ℕ} (hk : k ≤ s.ndims) :
    ∃ M : ℕ → ℕ → ℝ, ∀ g : s.Modes, ∀ a < s.rank k, lprod s.rank (s.slice [] g.1) k a =
      ∑ c ∈ Finset.range (t.rank k), lprod t.rank (t.slice [] g.1) k c * M c a := by
  have hd := fun a' (ha' : a' < s.rank k) => dual_of_indep (fun (g : s.Modes) a => rprod s.rank (s.slice [] g.1) (s.ndims - k) k a) (s.rank k)
    (fun v hv => right_indep hs hb hmin hne hk v hv) ha'
  choose! B hB using hd
  refine ⟨fun c a => (B a).sum fun j z => z * rprod t.rank (t.slice [] j.1) (t.ndims - k) k c, fun g a ha => ?_⟩
  have e1 : ((B a).sum fun j z => z * s.entry [] (splice k g.1 j.1)) = lprod s.rank (s.slice [] g.1) k a := by
    simp only [splice_entry hs hk, Finsupp.sum, Finset.mul_sum]
    rw [Finset.sum_comm]
    rw [Finset.sum_congr rfl fun a'' ha'' => show _ = lprod s.rank (s.slice [] g.1) k a'' * (if a'' = a then 1 else 0) by
      rw [← hB a ha a'' (Finset.mem_range.1 ha''), Finsupp.sum, Finset.mul_sum]
      exact Finset.sum_congr rfl fun j _ => by ring]
    simp [ha]
  rw [← e1]
  simp only [← he ⟨_, splice_valid k g _⟩, splice_entry ht (hn.symm ▸ hk), Finsupp.sum, Finset.mul_sum]
  rw [Finset.sum_comm]
  exact Finset.sum_congr rfl fun c _ => Finset.sum_congr rfl fun j _ => by ring

theorem right_transfer {s t : TT ℝ} (hs : s.WF) (ht : t.WF) (hb : s.batch = none) (hmin : s.MinimalRanks) (hne : s.Nonzero)
    (hn : t.ndims = s.ndims) (he : ∀ g : s.Modes, t.entry [] g.1 = s.entry [] g.1) {k : ℕ} (hk : k ≤ s.ndims) :
    ∃ M : ℕ → ℕ → ℝ, ∀ g : s.Modes, ∀ a < s.rank k, rprod s.rank (s.slice [] g.1) (s.ndims - k) k a =
      ∑ c ∈ Finset.range (t.rank k), M a c * rprod t.rank (t.slice [] g.1) (s.ndims - k) k c := by
  have hd := fun a' (ha' : a' < s.rank k) => dual_of_indep (fun (g : s.Modes) a => lprod s.rank (s.slice [] g.1) k a) (s.rank k)
    (fun v hv => left_indep hs hb hmin hne hk v hv) ha'
  choose! B hB using hd
  refine ⟨fun a c => (B a).sum fun j z => z * lprod t.rank (t.slice [] j.1) k c, fun g a ha => ?_⟩
  have e1 : ((B a).sum fun j z => z * s.entry [] (splice k j.1 g.1)) = rprod s.rank (s.slice [] g.1) (s.ndims - k) k a := by
    simp only [splice_entry hs hk, Finsupp.sum, Finset.mul_sum]
    rw [Finset.sum_comm]
    rw [Finset.sum_congr rfl fun a'' ha'' => show _ = (if a'' = a then 1 else 0) * rprod s.rank (s.slice [] g.1) (s.ndims - k) k a'' by
      rw [← hB a ha a'' (Finset.mem_range.1 ha''), Finsupp.sum, Finset.sum_mul]
      exact Finset.sum_congr rfl fun j _ => by ring]
    simp [ha]
  rw [← e1]
  simp only [← he ⟨_, splice_valid k _ g⟩, splice_entry ht (hn.symm ▸ hk), Finsupp.sum, Finset.mul_sum, Finset.sum_mul, hn]
  rw [Finset.sum_comm]
  exact Finset.sum_congr rfl fun c _ => Finset.sum_congr rfl fun j _ => by ring

end T3f
