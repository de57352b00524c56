import Verif.Props.C11Inner
import Verif.Proofs.BilinearIff

/-!
# C15, C23 — which shapes `bilinear_form` and `pairwise_flat_inner` accept

The docstring of `bilinear_form` (ops.py:1063-1065) promises ValueError "if the shapes are not consistent". The
function does not compare any shapes: it hands the first `A.ndims()` cores to `tf.einsum`. So an inconsistent mode
size or batch size is an error of TensorFlow, too few cores are an IndexError, and too many cores go unnoticed. The
same holds for `pairwise_flat_inner` without a matrix.
-/

namespace T3f

variable {K : Type} [CommRing K]

/-- **C15, the accepted arguments.** For TT-matrices `A`, `b`, `c` of sizes `I × J`, `I' × L` and `J' × L'`,
`bilinear_form(A, b, c)` succeeds if and only if `A` is not a batch, `b` and `c` are both batches of the same size
or both no batches, they have at least as many cores as `A`, and the mode sizes of the first `A.ndims()` cores are
consistent. -/
theorem C15_bilinear_form_iff (A b c : TT K) (hA : A.WF) (hb : b.WF) (hc : c.WF) (I J I' L J' L' : List ℕ) (rA : A.rawShape = [I, J])
    (rb : b.rawShape = [I', L]) (rc : c.rawShape = [J', L']) :
    (∃ F, bilinearForm A b c = Except.ok F) ↔ A.batch = none ∧ b.batch = c.batch ∧ A.ndims ≤ b.ndims ∧ A.ndims ≤ c.ndims ∧
      ∀ k < A.ndims, I'.getD k 0 = I.getD k 0 ∧ J'.getD k 0 = J.getD k 0 ∧ L.getD k 0 = L'.getD k 0 :=
  bilinearForm_iff hA hb hc rA rb rc

/-- **C15, the errors.** If `bilinear_form` of TT-matrices fails, the error is one of TensorFlow or an IndexError, so never
the ValueError of the docstring. -/
theorem C15_bilinear_form_no_value_error (A b c : TT K) (mA : A.isMatrix) (mb : b.isMatrix) (mc : c.isMatrix) (e : Err)
    (h : bilinearForm A b c = Except.error e) : e = Err.tf ∨ e = Err.index :=
  bilinearForm_error mA mb mc h

/-- **C15, more cores than the matrix.** The cores of `b` and `c` after the last core of `A` are not read. -/
theorem C15_bilinear_form_extra_cores (A b c b' c' : TT K) (mb : b.isMatrix ↔ b'.isMatrix) (mc : c.isMatrix ↔ c'.isMatrix)
    (hbb : b.batch = b'.batch) (pos : 0 < A.ndims)
    (hcb : ∀ k < A.ndims, b.cores[k]? = b'.cores[k]?) (hcc : ∀ k < A.ndims, c.cores[k]? = c'.cores[k]?) :
    bilinearForm A b c = bilinearForm A b' c' := by
  have gb : ∀ k < A.ndims, pyGet b.cores k = pyGet b'.cores k := fun k hk => by unfold pyGet; rw [hcb k hk]
  have gc : ∀ k < A.ndims, pyGet c.cores k = pyGet c'.cores k := fun k hk => by unfold pyGet; rw [hcc k hk]
  unfold bilinearForm
  rw [hbb, gb 0 pos, gc 0 pos]
  have hr : ∀ p q : Prop, ∀ [Decidable p] [Decidable q], (p ↔ q) → (require p Err.value : R Unit) = require q Err.value := by
    intro p q _ _ h
    simp only [require, h]
  rw [hr _ _ mb, hr _ _ mc]
  congr 1; funext _
  congr 1; funext _
  congr 1; funext _
  simp only
  congr 1; funext _
  congr 1; funext _
  congr 1; funext _
  congr 1; funext E
  rw [forRange_congr]
  intro k h1 h2 s
  rw [gb k (by omega), gc k (by omega)]

/-- An `I × J` TT-matrix with one core. -/
def shEx (I J : ℕ) (f : ℕ → ℕ → ℤ) : TT ℤ := ⟨[⟨[1, I, J, 1], fun i => f (i.getD 1 0) (i.getD 2 0)⟩], [[I], [J]], [1, 1], none⟩

/-- A column vector of size `2·2` with two cores. -/
def shEx2 (a b : ℕ → ℤ) : TT ℤ :=
  ⟨[⟨[1, 2, 1, 1], fun i => a (i.getD 1 0)⟩, ⟨[1, 2, 1, 1], fun i => b (i.getD 1 0)⟩], [[2, 2], [1, 1]], [1, 1, 1], none⟩

/-- **C15, a size mismatch that goes unnoticed.** A `2 × 2` matrix and two vectors of size four: the bilinear form
`bᵀ A c` does not exist, but the function returns the number 1. -/
theorem C15_bilinear_form_accepts_longer :
    ∃ A b c : TT ℤ, A.WF ∧ b.WF ∧ c.WF ∧ A.rawShape = [[2], [2]] ∧ b.rawShape = [[2, 2], [1, 1]] ∧ c.rawShape = [[2, 2], [1, 1]] ∧
      ∃ F, bilinearForm A b c = Except.ok F ∧ F.shape = [] ∧ F.get [] = 1 := by
  refine ⟨shEx 2 2 fun i j => if i = j then 1 else 0, shEx2 (fun i => i) (fun _ => 0), shEx2 (fun i => i) (fun i => i),
    by decide, by decide, by decide, rfl, rfl, rfl, _, rfl, rfl, ?_⟩
  decide

/-- **C15, inconsistent shapes are not ValueErrors.** A mode size that does not fit, a vector with too few cores. -/
theorem C15_bilinear_form_wrong_errors :
    (∃ A b c : TT ℤ, A.WF ∧ b.WF ∧ c.WF ∧ A.isMatrix ∧ b.isMatrix ∧ c.isMatrix ∧ A.ndims = b.ndims ∧ A.ndims = c.ndims ∧
      bilinearForm A b c = Except.error Err.tf) ∧
    ∃ A b c : TT ℤ, A.WF ∧ b.WF ∧ c.WF ∧ A.isMatrix ∧ b.isMatrix ∧ c.isMatrix ∧ bilinearForm A b c = Except.error Err.index := by
  refine ⟨⟨shEx 2 2 fun i j => i + j, shEx 3 1 fun i _ => i, shEx 2 1 fun i _ => i, ?_⟩, shEx2 (fun _ => 1) (fun _ => 1),
    shEx 2 1 fun i _ => i, shEx 1 1 fun i _ => i, ?_⟩
  · exact ⟨by decide, by decide, by decide, by decide, by decide, by decide, rfl, rfl, rfl⟩
  · exact ⟨by decide, by decide, by decide, by decide, by decide, by decide, rfl⟩

/-- **C23, the accepted arguments.** For two batches `pairwise_flat_inner(a, b)` succeeds if and only if `b` has at least
as many cores as `a` and the first `a.ndims()` cores have the same mode sizes. -/
theorem C23_pairwise_flat_inner_iff (a b : TT K) (ha : a.WF) (hb : b.WF) (m n : ℕ) (hm : a.batch = some m) (hn : b.batch = some n) :
    (∃ T, pairwiseFlatInner a b = Except.ok T) ↔ a.ndims ≤ b.ndims ∧ ∀ k < a.ndims, a.modes k = b.modes k :=
  pairwiseFlatInner_iff ha hb hm hn

/-- **C23, the errors.** If `pairwise_flat_inner` fails, the error is one of TensorFlow or an IndexError. -/
theorem C23_pairwise_flat_inner_errors (a b : TT K) (e : Err) (h : pairwiseFlatInner a b = Except.error e) :
    e = Err.tf ∨ e = Err.index := pairwiseFlatInner_error h

/-- Batches of vectors and of matrices with the given mode sizes, filled with ones. -/
def shBatch (m : ℕ) (s : List ℕ) : TT ℤ := ⟨s.map fun n => ⟨[m, 1, n, 1], fun _ => 1⟩, [s], List.replicate (s.length + 1) 1, some m⟩

example : (shBatch 2 [3]).WF ∧ (shBatch 4 [3, 2]).WF ∧ (∃ T, pairwiseFlatInner (shBatch 2 [3]) (shBatch 4 [3, 2]) = Except.ok T) ∧
    ¬ ∃ T, pairwiseFlatInner (shBatch 4 [3, 2]) (shBatch 2 [3]) = Except.ok T := by
  have h1 : (shBatch 2 [3]).WF := by decide
  have h2 : (shBatch 4 [3, 2]).WF := by decide
  refine ⟨h1, h2, (C23_pairwise_flat_inner_iff _ _ h1 h2 2 4 rfl rfl).2 (by decide), fun h => ?_⟩
  exact absurd ((C23_pairwise_flat_inner_iff _ _ h2 h1 4 2 rfl rfl).1 h) (by decide)

example : ∃ F, bilinearForm (shEx 2 3 fun i j => i * j) (shEx 2 2 fun i j => i - j) (shEx 3 2 fun i j => i + j) = Except.ok F :=
  (C15_bilinear_form_iff _ _ _ (by decide) (by decide) (by decide) [2] [3] [2] [2] [3] [2] rfl rfl rfl).2 (by decide)

end T3f
