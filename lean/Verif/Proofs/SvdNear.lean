import Verif.Proofs.QRNear
import Verif.Proofs.Svd

/-! # Truncated singular value decompositions that are not exact -/

namespace T3f

open Matrix

theorem fn_cols_le {m n n' : ℕ} (h : n ≤ n') (A : ℕ → ℕ → ℝ) : fn m n A ≤ fn m n' A := by
  refine Real.sqrt_le_sqrt (Finset.sum_le_sum fun i _ => ?_)
  exact Finset.sum_le_sum_of_subset_of_nonneg (Finset.range_subset_range.2 h) fun _ _ _ => sq_nonneg _

/-- Truncated decomposition of (a batch of) matrices by a routine that is not exact. -/
theorem svd_near {svd : SVDRoutine} {ε : ℝ} {M : ℕ} (hsvd : svd.Backward ε M) {bs : Option ℕ} {X : Tensor ℝ} {n m k : ℕ}
    (hX : X.shape = bs.toList ++ [n, m]) (hk : k ≤ min n m) (hM : n * m ≤ M) :
    ∃ (S U V S' U' V' : Tensor ℝ) (x u v : List ℕ → ℕ → ℕ → ℝ) (tail : List ℕ → ℝ), linalgSVD svd X = Except.ok (S, U, V) ∧
      takeLast U (bs.toList.length + 1) k = Except.ok U' ∧ takeLast S bs.toList.length k = Except.ok S' ∧
      takeLast V (bs.toList.length + 1) k = Except.ok V' ∧
      U'.shape = bs.toList ++ [n, k] ∧ S'.shape = bs.toList ++ [k] ∧ V'.shape = bs.toList ++ [m, k] ∧
      ∀ p, Valid bs.toList p → TruncSvd n m k (x p) (u p) (fun γ => S'.get (p ++ [γ])) (v p) (tail p) ∧
        fn n m (fun i j => x p i j - X.get (p ++ [i, j])) ≤ ε * fn n m (fun i j => X.get (p ++ [i, j])) ∧
        fn n k (fun i γ => U'.get (p ++ [i, γ]) - u p i γ) ≤ ε ∧ fn m k (fun j γ => V'.get (p ++ [j, γ]) - v p j γ) ≤ ε := by
  choose Pm Tm hP hT hs0 hsA hE hU hV using fun p => hsvd n m hM (X.mat p n m)
  let S := ofVecs bs.toList (min n m) fun p => svd.s n m (X.mat p n m)
  let U := ofMats bs.toList n (min n m) fun p => svd.u n m (X.mat p n m)
  let V := ofMats bs.toList m (min n m) fun p => svd.v n m (X.mat p n m)
  let P := ofMats bs.toList n (min n m) Pm
  let T := ofMats bs.toList m (min n m) Tm
  let Y := ofMats bs.toList n m fun p => Pm p * diagonal (svd.s n m (X.mat p n m)) * (Tm p)ᵀ
  have hUs : U.shape = (bs.toList ++ [n]) ++ [min n m] := by simp [U, ofMats]
  have hVs : V.shape = (bs.toList ++ [m]) ++ [min n m] := by simp [V, ofMats]
  have hSs : S.shape = bs.toList ++ [min n m] := rfl
  obtain ⟨U', eU, sU, vU⟩ := takeLast_ok hUs hk
  obtain ⟨S', eS, sS, vS⟩ := takeLast_ok hSs hk
  obtain ⟨V', eV, sV, vV⟩ := takeLast_ok hVs hk
  have key : ∀ p, Valid bs.toList p → ∃ tail, TruncSvd n m k (fun i j => Y.get (p ++ [i, j])) (fun i γ => P.get (p ++ [i, γ]))
      (fun γ => S.get (p ++ [γ])) (fun j γ => T.get (p ++ [j, γ])) tail := fun p hp =>
    truncSvd_mats hk (hP p) (hT p) (hs0 p) (hsA p) rfl (fun i j => ofMats_get _ _ _ _ _ _ _ hp.length_eq i.isLt j.isLt)
      (fun i γ => ofMats_get _ _ _ _ _ _ _ hp.length_eq i.isLt γ.isLt)
      (fun γ => ofVecs_get _ _ _ _ _ hp.length_eq γ.isLt) (fun j γ => ofMats_get _ _ _ _ _ _ _ hp.length_eq j.isLt γ.isLt)
  classical
  refine ⟨S, U, V, S', U', V', fun p i j => Y.get (p ++ [i, j]), fun p i γ => P.get (p ++ [i, γ]), fun p j γ => T.get (p ++ [j, γ]),
    fun p => if h : Valid bs.toList p then (key p h).choose else 0, ?_, ?_, eS, ?_, ?_, sS, ?_, fun p hp => ⟨?_, ?_, ?_, ?_⟩⟩
  · unfold linalgSVD
    rw [hX, matShape_pre, R.ok_bind]
    rfl
  · simpa using eU
  · simpa using eV
  · simpa using sU
  · simpa using sV
  · have h1 := (key p hp).choose_spec
    simp only [dif_pos hp]
    refine ⟨h1.orthU, h1.orthV, fun i hi γ hγ => ?_, fun j hj γ hγ => ?_, ?_, h1.best⟩
    · rw [vS p hp γ hγ]; exact h1.mulV i hi γ hγ
    · rw [vS p hp γ hγ]; exact h1.mulU j hj γ hγ
    · rw [h1.norm]
      congr 1
      exact Finset.sum_congr rfl fun γ hγ => by rw [vS p hp γ (Finset.mem_range.1 hγ)]
  · have h2 := hE p
    rw [matNorm_fn (X.mat p n m) (fun i j => X.get (p ++ [i, j])) (fun _ _ => rfl),
      matNorm_fn _ (fun i j => Y.get (p ++ [i, j]) - X.get (p ++ [i, j])) (fun i j => by
        rw [Matrix.sub_apply, ofMats_get _ _ _ _ _ _ _ hp.length_eq i.isLt j.isLt]; rfl)] at h2
    exact h2
  · have h2 := hU p
    rw [matNorm_fn _ (fun i γ => U.get (p ++ [i, γ]) - P.get (p ++ [i, γ])) (fun i γ => by
      rw [Matrix.sub_apply, ofMats_get _ _ _ _ _ _ _ hp.length_eq i.isLt γ.isLt, ofMats_get _ _ _ _ _ _ _ hp.length_eq i.isLt γ.isLt])] at h2
    refine le_trans (le_of_eq (fn_congr fun i hi γ hγ => ?_)) ((fn_cols_le hk _).trans h2)
    have := vU (p ++ [i]) (valid_append hp (by simpa using hi)) γ hγ
    simp only [List.append_assoc, List.singleton_append] at this
    rw [this]
  · have h2 := hV p
    rw [matNorm_fn _ (fun i γ => V.get (p ++ [i, γ]) - T.get (p ++ [i, γ])) (fun i γ => by
      rw [Matrix.sub_apply, ofMats_get _ _ _ _ _ _ _ hp.length_eq i.isLt γ.isLt, ofMats_get _ _ _ _ _ _ _ hp.length_eq i.isLt γ.isLt])] at h2
    refine le_trans (le_of_eq (fn_congr fun i hi γ hγ => ?_)) ((fn_cols_le hk _).trans h2)
    have := vV (p ++ [i]) (valid_append hp (by simpa using hi)) γ hγ
    simp only [List.append_assoc, List.singleton_append] at this
    rw [this]

end T3f
