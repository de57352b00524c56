import Verif.Proofs.Bilinear
import Verif.Tf.Linalg
import Mathlib.LinearAlgebra.Matrix.Kronecker

/-! # Products of many Kronecker factors -/

namespace T3f

open scoped Kronecker

variable {K : Type} [CommRing K]

/-- The `n × n` matrix with entries `f i j`. -/
def fmat (n : ℕ) (f : ℕ → ℕ → K) : Matrix (Fin n) (Fin n) K := Matrix.of fun i j => f i j

/-- The Kronecker product of the matrices `f k` of sizes `ns[k]`. -/
def kmat (ns : List ℕ) (f : ℕ → ℕ → ℕ → K) : Matrix (Fin ns.prod) (Fin ns.prod) K :=
  Matrix.of fun x y => ∏ k ∈ Finset.range ns.length, f k ((unravel ns x).getD k 0) ((unravel ns y).getD k 0)

/-- Pairs of a first index and a position of the remaining ones. -/
def consEquiv (n : ℕ) (ns : List ℕ) : Fin n × Fin ns.prod ≃ Fin (n :: ns).prod :=
  finProdFinEquiv.trans (finCongr (List.prod_cons (a := n) (l := ns)).symm)

theorem consEquiv_val (n : ℕ) (ns : List ℕ) (a : Fin n) (b : Fin ns.prod) : (consEquiv n ns (a, b) : ℕ) = b + ns.prod * a := rfl

theorem kmat_cons (n : ℕ) (ns : List ℕ) (f : ℕ → ℕ → ℕ → K) :
    kmat (n :: ns) f = Matrix.reindex (consEquiv n ns) (consEquiv n ns) (fmat n (f 0) ⊗ₖ kmat ns fun k => f (k + 1)) := by
  ext x y
  obtain ⟨⟨i, i'⟩, rfl⟩ := (consEquiv n ns).surjective x
  obtain ⟨⟨j, j'⟩, rfl⟩ := (consEquiv n ns).surjective y
  rw [Matrix.reindex_apply, Matrix.submatrix_apply, Equiv.symm_apply_apply, Equiv.symm_apply_apply, Matrix.kroneckerMap_apply]
  have key : ∀ (a : Fin n) (b : Fin ns.prod), unravel (n :: ns) (consEquiv n ns (a, b)) = (a : ℕ) :: unravel ns b := by
    intro a b
    have h0 : 0 < ns.prod := by have := b.isLt; omega
    simp only [unravel, consEquiv_val]
    rw [Nat.add_mul_div_left _ _ h0, Nat.div_eq_of_lt b.isLt, Nat.add_mul_mod_self_left, Nat.mod_eq_of_lt b.isLt, Nat.zero_add]
  simp only [kmat, fmat, Matrix.of_apply, List.length_cons, Finset.prod_range_succ']
  have e1 := key i i'
  have e2 := key j j'
  rw [mul_comm]
  congr 1
  · congr 1
    · exact congrArg (fun l => l.getD 0 0) e1
    · exact congrArg (fun l => l.getD 0 0) e2
  · refine Finset.prod_congr rfl fun k _ => ?_
    congr 1
    · exact congrArg (fun l => l.getD (k + 1) 0) e1
    · exact congrArg (fun l => l.getD (k + 1) 0) e2

theorem det_kmat (ns : List ℕ) (hp : ∀ n ∈ ns, 0 < n) (f : ℕ → ℕ → ℕ → K) :
    (kmat ns f).det = ∏ k ∈ Finset.range ns.length, (fmat (ns.getD k 0) (f k)).det ^ (ns.prod / ns.getD k 0) := by
  induction ns generalizing f with
  | nil =>
    have : Unique (Fin ([] : List ℕ).prod) := inferInstanceAs (Unique (Fin 1))
    rw [Matrix.det_unique]
    rfl
  | cons n ns ih =>
    have hn := hp n (by simp)
    have hp' : ∀ m ∈ ns, 0 < m := fun m hm => hp m (by simp [hm])
    have hpp : 0 < ns.prod := List.prod_pos hp'
    rw [kmat_cons, Matrix.det_reindex_self, Matrix.det_kronecker, ih hp', Fintype.card_fin, Fintype.card_fin, List.length_cons,
      Finset.prod_range_succ', mul_comm, List.getD_cons_zero, List.prod_cons, Nat.mul_div_cancel_left _ hn]
    congr 1
    rw [← Finset.prod_pow]
    refine Finset.prod_congr rfl fun k hk => ?_
    rw [List.getD_cons_succ, ← pow_mul]
    congr 1
    have hk' : k < ns.length := Finset.mem_range.1 hk
    have hd : ns.getD k 0 ∣ ns.prod := by
      rw [List.getD_eq_getElem _ _ hk']; exact List.dvd_prod (List.getElem_mem _)
    rw [Nat.mul_div_assoc _ hd, mul_comm]

theorem fmat_mul (n : ℕ) (f g : ℕ → ℕ → K) :
    fmat n f * fmat n g = fmat n fun i j => ∑ l ∈ Finset.range n, f i l * g l j := by
  ext i j
  simp [fmat, Matrix.mul_apply, Finset.sum_range]

theorem kmat_mul (ns : List ℕ) (f g : ℕ → ℕ → ℕ → K) :
    kmat ns f * kmat ns g = kmat ns fun k i j => ∑ l ∈ Finset.range (ns.getD k 0), f k i l * g k l j := by
  induction ns generalizing f g with
  | nil =>
    ext x y
    simp only [kmat, Matrix.mul_apply, Matrix.of_apply, List.length_nil, Finset.prod_range_zero, mul_one]
    have : Unique (Fin ([] : List ℕ).prod) := inferInstanceAs (Unique (Fin 1))
    rw [Fintype.sum_unique]
  | cons n ns ih =>
    rw [kmat_cons, kmat_cons, kmat_cons]
    simp only [List.getD_cons_zero, List.getD_cons_succ]
    rw [← ih (fun k => f (k + 1)) fun k => g (k + 1), ← fmat_mul, Matrix.mul_kronecker_mul]
    simp only [Matrix.reindex_apply]
    rw [Matrix.submatrix_mul_equiv]

theorem kmat_congr (ns : List ℕ) (f g : ℕ → ℕ → ℕ → K)
    (h : ∀ k < ns.length, ∀ i < ns.getD k 0, ∀ j < ns.getD k 0, f k i j = g k i j) : kmat ns f = kmat ns g := by
  ext x y
  simp only [kmat, Matrix.of_apply]
  refine Finset.prod_congr rfl fun k hk => ?_
  have hk' := Finset.mem_range.1 hk
  exact h k hk' _ (getD_unravel_lt x.isLt k hk') _ (getD_unravel_lt y.isLt k hk')

theorem kmat_transpose (ns : List ℕ) (f : ℕ → ℕ → ℕ → K) : (kmat ns f).transpose = kmat ns fun k i j => f k j i := rfl

theorem kmat_cons_apply (n : ℕ) (ns : List ℕ) (f : ℕ → ℕ → ℕ → K) (i j : Fin n) (i' j' : Fin ns.prod) :
    kmat (n :: ns) f (consEquiv n ns (i, i')) (consEquiv n ns (j, j')) = f 0 i j * kmat ns (fun k => f (k + 1)) i' j' := by
  rw [kmat_cons, Matrix.reindex_apply, Matrix.submatrix_apply, Equiv.symm_apply_apply, Equiv.symm_apply_apply,
    Matrix.kroneckerMap_apply]
  rfl

theorem kmat_one (ns : List ℕ) (f : ℕ → ℕ → ℕ → K)
    (h : ∀ k < ns.length, ∀ i < ns.getD k 0, ∀ j < ns.getD k 0, f k i j = if i = j then 1 else 0) : kmat ns f = 1 := by
  induction ns generalizing f with
  | nil =>
    ext x y
    have : Unique (Fin ([] : List ℕ).prod) := inferInstanceAs (Unique (Fin 1))
    rw [Subsingleton.elim y x, Matrix.one_apply_eq]
    rfl
  | cons n ns ih =>
    rw [kmat_cons, ih (fun k => f (k + 1)) fun k hk i hi j hj => h (k + 1) (by simpa using hk) i (by simpa using hi) j (by simpa using hj)]
    have : fmat n (f 0) = 1 := by
      ext i j
      rw [Matrix.one_apply]
      simp only [fmat, Matrix.of_apply, h 0 (by simp) i i.isLt j j.isLt, Fin.ext_iff]
    rw [this, Matrix.one_kronecker_one, Matrix.reindex_apply]
    exact Matrix.submatrix_one_equiv _

theorem kmat_triangular (ns : List ℕ) (f : ℕ → ℕ → ℕ → K)
    (h : ∀ k < ns.length, ∀ i j, i < j → j < ns.getD k 0 → f k i j = 0) (x y : Fin ns.prod) (hxy : x < y) : kmat ns f x y = 0 := by
  induction ns generalizing f with
  | nil =>
    have h1 : (x : ℕ) < 1 := x.isLt
    have h2 : (y : ℕ) < 1 := y.isLt
    have : (x : ℕ) < y := hxy
    omega
  | cons n ns ih =>
    obtain ⟨⟨i, i'⟩, rfl⟩ := (consEquiv n ns).surjective x
    obtain ⟨⟨j, j'⟩, rfl⟩ := (consEquiv n ns).surjective y
    rw [kmat_cons_apply]
    have hlt : (i' : ℕ) + ns.prod * i < j' + ns.prod * j := hxy
    by_cases hij : (i : ℕ) < j
    · rw [h 0 (by simp) i j hij j.isLt, zero_mul]
    · have h1 := i'.isLt
      have h2 := j'.isLt
      have : (i : ℕ) = j := by
        by_contra hne
        have : (j : ℕ) + 1 ≤ i := by omega
        have := Nat.mul_le_mul_left ns.prod this
        rw [Nat.mul_add, Nat.mul_one] at this
        omega
      rw [ih (fun k => f (k + 1)) (fun k hk a b hab hb => h (k + 1) (by simpa using hk) a b hab (by simpa using hb)) i' j' (by
        have : (i' : ℕ) < j' := by rw [this] at hlt; omega
        exact this), mul_zero]

end T3f
