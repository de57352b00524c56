import Verif.Model.Gram
import Verif.Proofs.PairwiseMatrixIff
import Verif.Props.C11Inner

/-! # C23: `pairwise_flat_inner` and `gram_matrix` with a matrix: the accepted arguments -/

namespace T3f

variable {K : Type} [CommRing K]

/-- **C23, the accepted arguments with a matrix.** For TT-matrices `a`, `b`, `M` the call `pairwise_flat_inner(a, b, M)` succeeds if and only if `a` and `b` are
batches of column vectors, `M` is not a batch, and the raw shape of `M` consists of the row sizes of `a` and of `b`. -/
theorem C23_pairwise_matrix_iff (a b M : TT K) (ha : a.WF) (hb : b.WF) (hM : M.WF) (I J C D I' J' : List ℕ) (ra : a.rawShape = [I, C])
    (rb : b.rawShape = [J, D]) (rM : M.rawShape = [I', J']) :
    (∃ F, pairwiseFlatInnerMatrix a b M = Except.ok F) ↔ a.batch ≠ none ∧ b.batch ≠ none ∧ M.batch = none ∧ I' = I ∧ J' = J ∧ C.prod = 1 ∧ D.prod = 1 := by
  constructor
  · rintro ⟨F, h⟩
    obtain ⟨⟨m, hm⟩, ⟨n, hn⟩, bM, e1, e2, hC, hD⟩ := pairwiseFlatInnerMatrix_inv ha hb hM ra rb rM h
    exact ⟨by simp [hm], by simp [hn], bM, e1.symm, e2.symm, hC, hD⟩
  · rintro ⟨hm, hn, bM, rfl, rfl, hC, hD⟩
    obtain ⟨m, hm⟩ := Option.ne_none_iff_exists'.1 hm
    obtain ⟨n, hn⟩ := Option.ne_none_iff_exists'.1 hn
    obtain ⟨F, A, B, FM, e, -⟩ := C23_pairwise_flat_inner_matrix a b M ha hb hM I' J' C D ra rb rM hC hD bM m n hm hn
    exact ⟨F, e⟩

example : (∃ F, pairwiseFlatInnerMatrix exVectors exVectors exSquare = Except.ok F) ∧
    ¬ ∃ F, pairwiseFlatInnerMatrix exSquare exVectors exSquare = Except.ok F := by
  refine ⟨(C23_pairwise_matrix_iff _ _ _ (by decide) (by decide) (by decide) [2] [2] [1] [1] [2] [2] rfl rfl rfl).2 (by decide), fun h => ?_⟩
  exact absurd ((C23_pairwise_matrix_iff _ _ _ (by decide) (by decide) (by decide) [2] [2] [2] [1] [2] [2] rfl rfl rfl).1 h) (by decide)

/-- **C23, `gram_matrix` with a matrix.** It succeeds exactly for a batch of column vectors and a square matrix of its row sizes, and then has the elements `x_pᵀ M x_q`. -/
theorem C23_gram_matrix_with (t M : TT K) (ht : t.WF) (hM : M.WF) (I C I' J' : List ℕ) (rt : t.rawShape = [I, C]) (rM : M.rawShape = [I', J']) :
    ((∃ F, gramMatrixWith t M = Except.ok F) ↔ t.batch ≠ none ∧ M.batch = none ∧ I' = I ∧ J' = I ∧ C.prod = 1) ∧
    ∀ F, gramMatrixWith t M = Except.ok F → ∃ n A FM, t.batch = some n ∧ full t = Except.ok A ∧ full M = Except.ok FM ∧
      F.shape = (squeezed (some n)).toList ++ (squeezed (some n)).toList ∧
      ∀ p q, p < n → q < n → F.get (bsel (squeezed (some n)) p ++ bsel (squeezed (some n)) q) =
        ∑ i ∈ Finset.range I.prod, ∑ j ∈ Finset.range I.prod, A.get [p, i, 0] * (FM.get [i, j] * A.get [q, j, 0]) := by
  have hiff := C23_pairwise_matrix_iff t t M ht ht hM I I C C I' J' rt rt rM
  refine ⟨hiff.trans (by tauto), fun F hF => ?_⟩
  obtain ⟨hm, -, bM, rfl, rfl, hC, -⟩ := hiff.1 ⟨F, hF⟩
  obtain ⟨n, hn⟩ := Option.ne_none_iff_exists'.1 hm
  obtain ⟨F', A, B, FM, e, eA, eB, eM, sF, vF⟩ := C23_pairwise_flat_inner_matrix t t M ht ht hM _ _ C C rt rt rM hC hC bM n n hn hn
  rw [show gramMatrixWith t M = pairwiseFlatInnerMatrix t t M from rfl, e] at hF
  cases hF
  rw [eA] at eB
  cases eB
  exact ⟨n, A, FM, hn, eA, eM, sF, vF⟩

example : exVectors.WF ∧ exSquare.WF ∧ exVectors.rawShape = [[2], [1]] ∧ exSquare.rawShape = [[2], [2]] := by decide

end T3f
