import Verif.Tf.Factor
import Mathlib.Analysis.InnerProductSpace.GramSchmidtOrtho
import Mathlib.Analysis.InnerProductSpace.PiL2
import Mathlib.Analysis.Matrix.Spectrum
import Mathlib.Analysis.Matrix.PosDef
import Mathlib.Data.Fin.Tuple.Sort
import Mathlib.Tactic.Linarith
import Mathlib.Algebra.Order.Star.Real

/-! # Existence and properties of QR and singular value decompositions -/

namespace T3f

open Matrix

/-- The squared Frobenius norm. -/
def fro {n m : ℕ} (A : Matrix (Fin n) (Fin m) ℝ) : ℝ := ∑ i, ∑ j, A i j ^ 2

theorem fro_eq_trace {n m : ℕ} (A : Matrix (Fin n) (Fin m) ℝ) : fro A = (Aᵀ * A).trace := by
  simp only [fro, trace, diag, mul_apply, transpose_apply, sq]
  exact Finset.sum_comm

theorem fro_nonneg {n m : ℕ} (A : Matrix (Fin n) (Fin m) ℝ) : 0 ≤ fro A :=
  Finset.sum_nonneg fun _ _ => Finset.sum_nonneg fun _ _ => sq_nonneg _

theorem fro_transpose {n m : ℕ} (A : Matrix (Fin n) (Fin m) ℝ) : fro Aᵀ = fro A := by
  simp only [fro, transpose_apply]; exact Finset.sum_comm

theorem fro_isometry {n m k : ℕ} {q : Matrix (Fin n) (Fin k) ℝ} (hq : qᵀ * q = 1) (C : Matrix (Fin k) (Fin m) ℝ) :
    fro (q * C) = fro C := by
  rw [fro_eq_trace, fro_eq_trace, transpose_mul, Matrix.mul_assoc, ← Matrix.mul_assoc qᵀ, hq, Matrix.one_mul]

theorem fro_isometry' {n m k : ℕ} {q : Matrix (Fin m) (Fin k) ℝ} (hq : qᵀ * q = 1) (C : Matrix (Fin n) (Fin k) ℝ) :
    fro (C * qᵀ) = fro C := by
  rw [← fro_transpose, transpose_mul, transpose_transpose, fro_isometry hq, fro_transpose]

theorem fro_sub_proj {n m k : ℕ} {q : Matrix (Fin n) (Fin k) ℝ} (hq : qᵀ * q = 1) (A : Matrix (Fin n) (Fin m) ℝ)
    (C : Matrix (Fin k) (Fin m) ℝ) : fro (A - q * C) = fro A - fro (qᵀ * A) + fro (qᵀ * A - C) := by
  have e1 : Cᵀ * qᵀ * (q * C) = Cᵀ * C := by
    rw [Matrix.mul_assoc, ← Matrix.mul_assoc qᵀ, hq, Matrix.one_mul]
  have e2 : (Aᵀ * (q * C)).trace = (Aᵀ * q * C).trace := by rw [Matrix.mul_assoc]
  simp only [fro_eq_trace, transpose_sub, transpose_mul, Matrix.sub_mul, Matrix.mul_sub, trace_sub, transpose_transpose, e1, e2]
  have e3 : (Cᵀ * qᵀ * A).trace = (Cᵀ * (qᵀ * A)).trace := by rw [Matrix.mul_assoc]
  rw [e3]
  ring

theorem fro_proj_le {n m k : ℕ} {q : Matrix (Fin n) (Fin k) ℝ} (hq : qᵀ * q = 1) (A : Matrix (Fin n) (Fin m) ℝ) :
    fro (qᵀ * A) ≤ fro A := by
  have := fro_sub_proj hq A (qᵀ * A)
  rw [sub_self] at this
  have h0 : fro (0 : Matrix (Fin k) (Fin m) ℝ) = 0 := by simp [fro]
  have := fro_nonneg (A - q * (qᵀ * A))
  linarith

theorem fro_one (k : ℕ) : fro (1 : Matrix (Fin k) (Fin k) ℝ) = k := by
  rw [fro_eq_trace]; simp

theorem fro_of_orth {n k : ℕ} {q : Matrix (Fin n) (Fin k) ℝ} (hq : qᵀ * q = 1) : fro q = k := by
  rw [fro_eq_trace, hq]; simp

/-! ## QR -/

theorem qr_exists (n m : ℕ) (A : Matrix (Fin n) (Fin m) ℝ) : ∃ (q : Matrix (Fin n) (Fin (min n m)) ℝ)
    (r : Matrix (Fin (min n m)) (Fin m) ℝ), qᵀ * q = 1 ∧ q * r = A ∧ ∀ (i : Fin (min n m)) (j : Fin m), (j : ℕ) < i → r i j = 0 := by
  let E := EuclideanSpace ℝ (Fin n)
  let f : Fin n → E := fun i => if h : (i : ℕ) < m then WithLp.toLp 2 fun l => A l ⟨i, h⟩ else 0
  have hfin : Module.finrank ℝ E = Fintype.card (Fin n) := by simp [E]
  let b := InnerProductSpace.gramSchmidtOrthonormalBasis hfin f
  let a : Fin m → E := fun j => WithLp.toLp 2 fun l => A l j
  have hz : ∀ (k : Fin n) (j : Fin m), (j : ℕ) < k → inner ℝ (b k) (a j) = 0 := by
    intro k j hjk
    have := InnerProductSpace.gramSchmidtOrthonormalBasis_inv_triangular hfin f (i := ⟨j, hjk.trans k.isLt⟩) (j := k) hjk
    simpa [f, a] using this
  let c : Fin (min n m) → Fin n := Fin.castLE (min_le_left _ _)
  refine ⟨Matrix.of fun i j => b (c j) i, Matrix.of fun k j => inner ℝ (b (c k)) (a j), ?_, ?_, ?_⟩
  · ext i j
    have := orthonormal_iff_ite.1 b.orthonormal (c i) (c j)
    rw [Matrix.mul_apply, Matrix.one_apply]
    rw [PiLp.inner_apply] at this
    simp only [transpose_apply, of_apply]
    simp only [RCLike.inner_apply, conj_trivial] at this
    rw [show (∑ x, b (c i) x * b (c j) x) = ∑ x, b (c j) x * b (c i) x from Finset.sum_congr rfl fun x _ => mul_comm _ _, this]
    simp [c, Fin.ext_iff]
  · ext l j
    have := congrArg (fun x : EuclideanSpace ℝ (Fin n) => x l) (b.sum_repr (a j))
    simp only [OrthonormalBasis.repr_apply_apply] at this
    have hsum : (∑ k, inner ℝ (b k) (a j) • b k : EuclideanSpace ℝ (Fin n)) l = ∑ k, inner ℝ (b k) (a j) * b k l := by
      rw [WithLp.ofLp_sum, Finset.sum_apply]
      rfl
    replace this := hsum.symm.trans this
    rw [Matrix.mul_apply]
    simp only [of_apply]
    have h2 : ∑ k : Fin (min n m), b (c k) l * inner ℝ (b (c k)) (a j) = ∑ k : Fin n, inner ℝ (b k) (a j) * b k l := by
      rw [← Finset.sum_subset (Finset.subset_univ (Finset.univ.map (Fin.castLEEmb (min_le_left n m))))]
      · rw [Finset.sum_map]
        exact Finset.sum_congr rfl fun k _ => mul_comm _ _
      · intro k _ hk
        have : m ≤ k := by
          by_contra h
          push Not at h
          exact hk (Finset.mem_map.2 ⟨⟨k, lt_min k.isLt h⟩, Finset.mem_univ _, rfl⟩)
        rw [hz k j (lt_of_lt_of_le j.isLt this), zero_mul]
    rw [h2, this]
  · intro i j hij
    exact hz (c i) j hij

theorem qrRoutine_exists : ∃ qr : QRRoutine, qr.Correct := by
  choose q r h using qr_exists
  exact ⟨⟨q, r⟩, h⟩

/-! ## SVD -/

theorem svd_tall {n m : ℕ} (hnm : m ≤ n) (A : Matrix (Fin n) (Fin m) ℝ) : ∃ (s : Fin m → ℝ) (u : Matrix (Fin n) (Fin m) ℝ)
    (v : Matrix (Fin m) (Fin m) ℝ), uᵀ * u = 1 ∧ vᵀ * v = 1 ∧ (∀ i, 0 ≤ s i) ∧ Antitone s ∧ u * diagonal s * vᵀ = A := by
  have hH : (Aᵀ * A).IsHermitian := by
    have := isHermitian_conjTranspose_mul_self A
    rwa [conjTranspose_eq_transpose_of_trivial] at this
  have hP : (Aᵀ * A).PosSemidef := by
    have := posSemidef_conjTranspose_mul_self A
    rwa [conjTranspose_eq_transpose_of_trivial] at this
  let σ := Tuple.sort fun i => - hH.eigenvalues i
  have hσ : Monotone ((fun i => - hH.eigenvalues i) ∘ σ) := Tuple.monotone_sort _
  let e : Fin m → EuclideanSpace ℝ (Fin m) := fun i => hH.eigenvectorBasis (σ i)
  let lam : Fin m → ℝ := fun i => hH.eigenvalues (σ i)
  have hlam : ∀ i, 0 ≤ lam i := fun i => hP.eigenvalues_nonneg (σ i)
  let v : Matrix (Fin m) (Fin m) ℝ := Matrix.of fun i j => e j i
  have hv : vᵀ * v = 1 := by
    ext i j
    have := orthonormal_iff_ite.1 hH.eigenvectorBasis.orthonormal (σ i) (σ j)
    rw [PiLp.inner_apply] at this
    simp only [RCLike.inner_apply, conj_trivial, EmbeddingLike.apply_eq_iff_eq] at this
    rw [Matrix.mul_apply, Matrix.one_apply, ← this]
    exact Finset.sum_congr rfl fun x _ => mul_comm _ _
  have hev : Aᵀ * A * v = v * diagonal lam := by
    ext i j
    have := congrFun (hH.mulVec_eigenvectorBasis (σ j)) i
    rw [mul_diagonal]
    simp only [Pi.smul_apply, smul_eq_mul] at this
    rw [mul_comm, show lam j * v i j = _ from this.symm]
    rfl
  let w := A * v
  have hw : wᵀ * w = diagonal lam := by
    rw [transpose_mul, Matrix.mul_assoc, ← Matrix.mul_assoc Aᵀ, hev, ← Matrix.mul_assoc, hv, Matrix.one_mul]
  let s : Fin m → ℝ := fun i => Real.sqrt (lam i)
  have hs2 : ∀ i, s i * s i = lam i := fun i => Real.mul_self_sqrt (hlam i)
  let E := EuclideanSpace ℝ (Fin n)
  let f : Fin n → E := fun j => if h : (j : ℕ) < m then WithLp.toLp 2 fun l => (s ⟨j, h⟩)⁻¹ * w l ⟨j, h⟩ else 0
  let S : Set (Fin n) := {j | ∃ h : (j : ℕ) < m, s ⟨j, h⟩ ≠ 0}
  have hfS : Orthonormal ℝ (S.domRestrict f) := by
    rw [orthonormal_iff_ite]
    rintro ⟨i, hi, hsi⟩ ⟨j, hj, hsj⟩
    have h1 : inner ℝ (f i) (f j) = (s ⟨i, hi⟩)⁻¹ * (s ⟨j, hj⟩)⁻¹ * (wᵀ * w) ⟨i, hi⟩ ⟨j, hj⟩ := by
      rw [PiLp.inner_apply, Matrix.mul_apply, Finset.mul_sum]
      refine Finset.sum_congr rfl fun l _ => ?_
      simp only [f, hi, hj, dif_pos, RCLike.inner_apply, conj_trivial, transpose_apply]
      ring
    simp only [Subtype.mk.injEq]
    refine h1.trans ?_
    rw [hw]
    by_cases hij : i = j
    · subst hij
      rw [diagonal_apply_eq, if_pos rfl, ← hs2]
      field_simp
    · rw [diagonal_apply_ne _ (by simpa [Fin.ext_iff] using hij), mul_zero, if_neg hij]
  have hfin : Module.finrank ℝ E = Fintype.card (Fin n) := by simp [E]
  obtain ⟨b, hb⟩ := hfS.exists_orthonormalBasis_extension_of_card_eq hfin
  let c : Fin m → Fin n := Fin.castLE hnm
  let u : Matrix (Fin n) (Fin m) ℝ := Matrix.of fun i j => b (c j) i
  refine ⟨s, u, v, ?_, hv, fun i => Real.sqrt_nonneg _, ?_, ?_⟩
  · ext i j
    have := orthonormal_iff_ite.1 b.orthonormal (c i) (c j)
    rw [PiLp.inner_apply] at this
    simp only [RCLike.inner_apply, conj_trivial] at this
    rw [Matrix.mul_apply, Matrix.one_apply]
    rw [show (if i = j then (1 : ℝ) else 0) = if c i = c j then 1 else 0 by simp [c, Fin.ext_iff], ← this]
    exact Finset.sum_congr rfl fun x _ => mul_comm _ _
  · intro i j hij
    exact Real.sqrt_le_sqrt (by have := hσ hij; simpa [lam] using this)
  · have huw : u * diagonal s = w := by
      ext l j
      rw [mul_diagonal]
      by_cases h0 : s j = 0
      · have hz : (wᵀ * w) j j = 0 := by rw [hw, diagonal_apply_eq, ← hs2, h0, zero_mul]
        rw [Matrix.mul_apply] at hz
        have := (Finset.sum_eq_zero_iff_of_nonneg (fun l _ => by rw [transpose_apply]; exact mul_self_nonneg (w l j))).1 hz l
          (Finset.mem_univ _)
        rw [transpose_apply] at this
        rw [h0, mul_zero, mul_self_eq_zero.1 this]
      · have := hb (c j) ⟨j.isLt, h0⟩
        simp only [u, of_apply, this, f]
        simp only [c, Fin.val_castLE, j.isLt, dif_pos]
        field_simp
    rw [huw]
    have hvv : v * vᵀ = 1 := mul_eq_one_comm.1 hv
    rw [Matrix.mul_assoc, hvv, Matrix.mul_one]

theorem svd_exists_aux (n m k : ℕ) (hk : k = min n m) (A : Matrix (Fin n) (Fin m) ℝ) : ∃ (s : Fin k → ℝ) (u : Matrix (Fin n) (Fin k) ℝ)
    (v : Matrix (Fin m) (Fin k) ℝ), uᵀ * u = 1 ∧ vᵀ * v = 1 ∧ (∀ i, 0 ≤ s i) ∧ Antitone s ∧ u * diagonal s * vᵀ = A := by
  rcases le_total m n with h | h
  · obtain rfl : k = m := by omega
    exact svd_tall h A
  · obtain rfl : k = n := by omega
    obtain ⟨s, u, v, h1, h2, h3, h4, h5⟩ := svd_tall h Aᵀ
    refine ⟨s, v, u, h2, h1, h3, h4, ?_⟩
    have := congrArg Matrix.transpose h5
    rwa [transpose_mul, transpose_mul, transpose_transpose, transpose_transpose, diagonal_transpose, ← Matrix.mul_assoc] at this

theorem svdRoutine_exists : ∃ svd : SVDRoutine, svd.Correct := by
  choose s u v h using fun n m => svd_exists_aux n m (min n m) rfl
  exact ⟨⟨s, u, v⟩, h⟩

/-! ## Best approximation -/

theorem weighted_tail {k : ℕ} (ρ : ℕ) (s w : Fin k → ℝ) (hs0 : ∀ i, 0 ≤ s i) (hs : Antitone s) (hw0 : ∀ i, 0 ≤ w i)
    (hw1 : ∀ i, w i ≤ 1) (hw : ∑ i, w i ≤ ρ) :
    ∑ i, s i ^ 2 * w i + ∑ i : Fin k, (if ρ ≤ (i : ℕ) then s i ^ 2 else 0) ≤ ∑ i, s i ^ 2 := by
  have hsq : ∀ i j, i ≤ j → s j ^ 2 ≤ s i ^ 2 := fun i j hij => pow_le_pow_left₀ (hs0 j) (hs hij) 2
  by_cases hρ : ρ < k
  · set σ := s ⟨ρ, hρ⟩ ^ 2
    have key : ∀ i : Fin k, s i ^ 2 * w i + (if ρ ≤ (i : ℕ) then s i ^ 2 else 0) ≤
        s i ^ 2 + σ * (w i - if (i : ℕ) < ρ then 1 else 0) := by
      intro i
      by_cases hi : ρ ≤ (i : ℕ)
      · rw [if_pos hi, if_neg (by omega)]
        have := hsq ⟨ρ, hρ⟩ i hi
        nlinarith [hw0 i]
      · rw [if_neg hi, if_pos (by omega)]
        have := hsq i ⟨ρ, hρ⟩ (by rw [Fin.le_def]; simp; omega)
        nlinarith [hw1 i]
    have h1 := Finset.sum_le_sum fun i (_ : i ∈ Finset.univ) => key i
    rw [Finset.sum_add_distrib, Finset.sum_add_distrib, ← Finset.mul_sum, Finset.sum_sub_distrib] at h1
    have h2 : ∑ i : Fin k, (if (i : ℕ) < ρ then (1 : ℝ) else 0) = ρ := by
      rw [Finset.sum_fin_eq_sum_range]
      have : ∀ i ∈ Finset.range k, (if h : i < k then (if i < ρ then (1 : ℝ) else 0) else 0) = if i < ρ then 1 else 0 := by
        intro i hi
        rw [dif_pos (Finset.mem_range.1 hi)]
      rw [Finset.sum_congr rfl this, ← Finset.sum_filter, Finset.sum_const, show (Finset.range k).filter (· < ρ) = Finset.range ρ by
        ext x; simp; omega]
      simp
    rw [h2] at h1
    have : σ * (∑ i, w i - ρ) ≤ 0 := mul_nonpos_of_nonneg_of_nonpos (sq_nonneg _) (by linarith)
    linarith
  · have h0 : ∑ i : Fin k, (if ρ ≤ (i : ℕ) then s i ^ 2 else 0) = 0 :=
      Finset.sum_eq_zero fun i _ => if_neg (by have := i.isLt; omega)
    rw [h0, add_zero]
    exact Finset.sum_le_sum fun i _ => mul_le_of_le_one_right (sq_nonneg _) (hw1 i)

/-- The best approximation of rank `ρ` is not better than the truncated singular value decomposition. -/
theorem tail_le {n m k ρ : ℕ} {A : Matrix (Fin n) (Fin m) ℝ} {s : Fin k → ℝ} {u : Matrix (Fin n) (Fin k) ℝ}
    {v : Matrix (Fin m) (Fin k) ℝ} (hu : uᵀ * u = 1) (hv : vᵀ * v = 1) (hs0 : ∀ i, 0 ≤ s i) (hs : Antitone s)
    (hA : u * diagonal s * vᵀ = A) (P : Matrix (Fin n) (Fin ρ) ℝ) (Q : Matrix (Fin ρ) (Fin m) ℝ) :
    ∑ i : Fin k, (if ρ ≤ (i : ℕ) then s i ^ 2 else 0) ≤ fro (A - P * Q) := by
  obtain ⟨q, r, hq, hqr, -⟩ := qr_exists n ρ P
  rw [← hqr, Matrix.mul_assoc, fro_sub_proj hq]
  have h1 : fro A = ∑ i, s i ^ 2 := by
    rw [← hA, fro_isometry' hv, fro_isometry hu, fro_eq_trace, diagonal_transpose, diagonal_mul_diagonal, trace_diagonal]
    exact Finset.sum_congr rfl fun i _ => (sq _).symm
  have h2 : fro (qᵀ * A) = ∑ j, s j ^ 2 * ∑ i, (qᵀ * u) i j ^ 2 := by
    rw [← hA, ← Matrix.mul_assoc, fro_isometry' hv, ← Matrix.mul_assoc, fro]
    simp only [mul_diagonal, Finset.mul_sum]
    rw [Finset.sum_comm]
    exact Finset.sum_congr rfl fun i _ => Finset.sum_congr rfl fun j _ => by ring
  have h3 := weighted_tail ρ s (fun j => ∑ i, (qᵀ * u) i j ^ 2) hs0 hs (fun j => Finset.sum_nonneg fun i _ => sq_nonneg _)
    (fun j => ?_) ?_
  · rw [h1, h2]
    have := fro_nonneg (qᵀ * A - r * Q)
    linarith
  · have := fro_proj_le hq (Matrix.of fun i (_ : Fin 1) => u i j)
    simp only [fro, Finset.univ_unique, Finset.sum_singleton, of_apply] at this
    refine le_trans this (le_of_eq ?_)
    have h4 := congrFun (congrFun hu j) j
    rw [Matrix.mul_apply, Matrix.one_apply_eq] at h4
    rw [← h4]
    exact Finset.sum_congr rfl fun i _ => by rw [sq, transpose_apply]
  · have h5 : ∑ j, ∑ i, (qᵀ * u) i j ^ 2 = fro (uᵀ * q) := by
      rw [← fro_transpose (uᵀ * q), transpose_mul, transpose_transpose, fro, Finset.sum_comm]
    rw [h5]
    refine (fro_proj_le hu q).trans ?_
    rw [fro_of_orth hq]
    exact_mod_cast min_le_right _ _

end T3f
