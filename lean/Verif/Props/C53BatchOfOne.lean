import Verif.Props.C09Matmul
import Verif.Props.C11Inner
import Verif.Spec.Examples

/-!
# C53: batches of size one

One result per element of the batch is returned for every batch size except one: then the batch axis is gone.
-/

namespace T3f

variable {K : Type} [CommRing K]

theorem squeezed_some {n : ℕ} (h : n ≠ 1) : squeezed (some n) = some n := by
  rw [squeezed_eq, if_neg (by simpa using h)]

theorem bcast_some_self (n : ℕ) : bcast (some n) (some n) = some n := by
  simp only [bcast]; split_ifs <;> rfl

/-- **C53.** A product of batches of `n ≠ 1` matrices is a batch of `n` matrices; a product of batches of one
matrix is not a batch, its dense form has two axes. -/
theorem C53_matmul (a b : TT K) (ha : a.WF) (hb : b.WF) (I J L : List ℕ) (hra : a.rawShape = [I, J]) (hrb : b.rawShape = [J, L])
    (n : ℕ) (han : a.batch = some n) (hbn : b.batch = some n ∨ b.batch = none) :
    ∃ c C, ttTTMatmul a b = Except.ok c ∧ full c = Except.ok C ∧
      (n ≠ 1 → c.batch = some n ∧ C.shape = [n, I.prod, L.prod]) ∧
      (n = 1 → c.isBatch = false ∧ C.shape = [I.prod, L.prod]) := by
  have hB : bcast a.batch b.batch = some n := by
    rcases hbn with h | h <;> rw [han, h]
    · exact bcast_some_self n
    · rfl
  obtain ⟨c, A, B, C, e, w, r, bc, -, -, eC, sC, -⟩ := C09_matmul a b ha hb I J L hra hrb (by
    rcases hbn with h | h <;> simp [han, h, BCompat])
  rw [hB] at bc
  refine ⟨c, C, e, eC, fun hn => ?_, fun hn => ?_⟩
  · rw [squeezed_some hn] at bc
    exact ⟨bc, by rw [sC, bc]; rfl⟩
  · subst hn
    exact ⟨by rw [TT.isBatch, bc]; rfl, by rw [sC, bc]; rfl⟩

/-- **C53.** `flat_inner` of batches of size `n ≠ 1` returns `n` numbers, of batches of size one a number. -/
theorem C53_flat_inner (a b : TT K) (ha : a.WF) (hb : b.WF) (hr : a.rawShape = b.rawShape) (n : ℕ) (han : a.batch = some n)
    (hbn : b.batch = some n ∨ b.batch = none) :
    ∃ F, flatInner a b = Except.ok F ∧ (n ≠ 1 → F.shape = [n]) ∧ (n = 1 → F.shape = []) := by
  have hB : bcast a.batch b.batch = some n := by
    rcases hbn with h | h <;> rw [han, h]
    · exact bcast_some_self n
    · rfl
  obtain ⟨F, -, -, -, e, -, -, -, -, sF, -⟩ := C11_flat_inner a b ha hb hr (by
    rcases hbn with h | h <;> simp [han, h, BCompat])
  rw [hB] at sF
  exact ⟨F, e, fun hn => by rw [sF, squeezed_some hn]; rfl, fun hn => by subst hn; rw [sF]; rfl⟩

/-- **C53.** `bilinear_form` with batches of size `n ≠ 1` returns `n` numbers, with batches of size one a
number. -/
theorem C53_bilinear_form (A b c : TT K) (hA : A.WF) (hb : b.WF) (hc : c.WF) (I J L : List ℕ)
    (rA : A.rawShape = [I, J]) (rb : b.rawShape = [I, L]) (rc : c.rawShape = [J, L]) (bA : A.batch = none) (n : ℕ)
    (hbn : b.batch = some n) (hcn : c.batch = some n) :
    ∃ F, bilinearForm A b c = Except.ok F ∧ (n ≠ 1 → F.shape = [n]) ∧ (n = 1 → F.shape = []) := by
  obtain ⟨F, -, -, -, e, -, -, -, sF, -⟩ := C15_bilinear_form A b c hA hb hc I J L rA rb rc bA (hbn.trans hcn.symm)
  rw [hbn] at sF
  exact ⟨F, e, fun hn => by rw [sF, squeezed_some hn]; rfl, fun hn => by subst hn; rw [sF]; rfl⟩

/-- **C53.** The Gram matrix of a batch of size `m ≠ 1` is an `m × m` matrix, of a batch of size one a number. -/
theorem C53_gram_matrix (t : TT K) (h : t.WF) (m : ℕ) (hm : t.batch = some m) :
    ∃ F, gramMatrix t = Except.ok F ∧ (m ≠ 1 → F.shape = [m, m]) ∧ (m = 1 → F.shape = []) := by
  obtain ⟨F, -, -, e, -, -, sF, -⟩ := C23_gram_matrix t h m hm
  exact ⟨F, e, fun hn => by rw [sF, squeezed_some hn]; rfl, fun hn => by subst hn; rw [sF]; rfl⟩

/-- **C53.** Pairwise inner products of batches of sizes `m` and `n`: the axis of a batch of size one is
missing, so `m = 1`, `n > 1` and `m > 1`, `n = 1` are not distinguished from a list. -/
theorem C53_pairwise (a b : TT K) (ha : a.WF) (hb : b.WF) (hr : a.rawShape = b.rawShape) (m n : ℕ)
    (hm : a.batch = some m) (hn : b.batch = some n) :
    ∃ F, pairwiseFlatInner a b = Except.ok F ∧ (m ≠ 1 → n ≠ 1 → F.shape = [m, n]) ∧
      (m = 1 → n ≠ 1 → F.shape = [n]) ∧ (m ≠ 1 → n = 1 → F.shape = [m]) ∧ (m = 1 → n = 1 → F.shape = []) := by
  obtain ⟨F, -, -, -, e, -, -, -, -, sF, -⟩ := C23_pairwise_flat_inner a b ha hb hr m n hm hn
  refine ⟨F, e, fun h1 h2 => ?_, fun h1 h2 => ?_, fun h1 h2 => ?_, fun h1 h2 => ?_⟩
  · rw [sF, squeezed_some h1, squeezed_some h2]; rfl
  · subst h1; rw [sF, squeezed_some h2]; rfl
  · subst h2; rw [sF, squeezed_some h1]; rfl
  · subst h1; subst h2; rw [sF]; rfl

/-- **C53.** So the property "one result per element of the batch" is false: a well-formed batch of one tensor
on which `flat_inner` and `gram_matrix` return a single number without a batch axis. -/
theorem C53_collapse : ∃ t : TT ℤ, t.WF ∧ t.batch = some 1 ∧
    (∃ F, flatInner t t = Except.ok F ∧ F.shape ≠ [1]) ∧ ∃ F, gramMatrix t = Except.ok F ∧ F.shape ≠ [1, 1] := by
  have h : exBatch1.WF := by decide
  refine ⟨exBatch1, h, rfl, ?_, ?_⟩
  · obtain ⟨F, e, -, hF⟩ := C53_flat_inner exBatch1 exBatch1 h h rfl 1 rfl (Or.inl rfl)
    exact ⟨F, e, by rw [hF rfl]; simp⟩
  · obtain ⟨F, e, -, hF⟩ := C53_gram_matrix exBatch1 h 1 rfl
    exact ⟨F, e, by rw [hF rfl]; simp⟩

example : exBatchMatrix.WF ∧ exMatrix'.WF ∧ exBatchMatrix.batch = some 2 ∧ exMatrix'.batch = none ∧ exBatch.WF ∧ exBatch1.WF ∧
    exBatch.batch = some 2 ∧ exBatch1.batch = some 1 ∧ exBatch.rawShape = exBatch1.rawShape := by decide
example : (flatInner exBatch exBatch).map (·.shape) = Except.ok [2] := by decide
example : (flatInner exBatch1 exBatch1).map (·.shape) = Except.ok [] := by decide

end T3f
