import Verif.Proofs.OrthoRL
import Verif.Proofs.GetItem

/-! # Truncated singular value decompositions -/

namespace T3f

open Matrix

/-! ## Slices of the last axis -/

theorem slicePositions_prefix {n r : ℕ} (h : r ≤ n) : slicePositions n (some 0) (some (r : ℤ)) 1 = List.range r := by
  unfold slicePositions
  have h1 : clipBound n 0 n 0 (some 0) = 0 := by simp [clipBound]
  have h2 : clipBound n 0 n n (some (r : ℤ)) = r := by
    simp only [clipBound]
    split_ifs <;> omega
  simp only [h1, h2]
  simp

theorem resolveIx_last {s : List ℕ} {n r : ℕ} (h : r ≤ n) :
    resolveIx (s ++ [n]) (List.replicate s.length .all ++ [.slice (some 0) (some (r : ℤ)) 1]) =
      Except.ok (allSel s ++ [Sel.many (List.range r)]) := by
  induction s with
  | nil =>
    simp only [List.nil_append, List.length_nil, List.replicate_zero, resolveIx_cons, resolve1, slicePositions_prefix h]
    rfl
  | cons m s ih =>
    rw [List.length_cons, List.replicate_succ, List.cons_append, List.cons_append, resolveIx_cons, ih]; rfl

theorem selShape_append (l l' : List Sel) : selShape (l ++ l') = selShape l ++ selShape l' := by
  induction l with
  | nil => rfl
  | cons x l ih => cases x <;> simp [selShape, ih]

theorem selIdx_last {s idx : List ℕ} {r j : ℕ} (h : Valid s idx) (hj : j < r) :
    selIdx (allSel s ++ [Sel.many (List.range r)]) (idx ++ [j]) = idx ++ [j] := by
  induction s generalizing idx with
  | nil =>
    rw [valid_nil_iff] at h; subst h
    simp [allSel, selIdx, hj]
  | cons n s ih =>
    obtain ⟨x, i, rfl, hx, hi⟩ := (valid_cons_iff n s idx).1 h
    have := ih hi
    simp only [allSel, List.map_cons, List.cons_append, selIdx, List.headD_cons, List.tail_cons] at this ⊢
    rw [this, List.getD_eq_getElem _ _ (by simpa using hx)]
    simp

theorem takeLast_ok {K : Type} {x : Tensor K} {s : List ℕ} {n r : ℕ} (hx : x.shape = s ++ [n]) (h : r ≤ n) :
    ∃ y, takeLast x s.length r = Except.ok y ∧ y.shape = s ++ [r] ∧
      ∀ idx, Valid s idx → ∀ j < r, y.get (idx ++ [j]) = x.get (idx ++ [j]) := by
  refine ⟨⟨selShape (allSel s ++ [Sel.many (List.range r)]), fun idx => x.get (selIdx (allSel s ++ [Sel.many (List.range r)]) idx)⟩, ?_, ?_, ?_⟩
  · unfold takeLast getItem
    rw [hx, resolveIx_last h]; rfl
  · rw [selShape_append, selShape_allSel]; simp [selShape]
  · intro idx hi j hj
    simp only [selIdx_last hi hj]

/-! ## The decomposition -/

theorem svd_mul_v {n m k : ℕ} {A : Matrix (Fin n) (Fin m) ℝ} {s : Fin k → ℝ} {u : Matrix (Fin n) (Fin k) ℝ}
    {v : Matrix (Fin m) (Fin k) ℝ} (hv : vᵀ * v = 1) (hA : u * diagonal s * vᵀ = A) : A * v = u * diagonal s := by
  rw [← hA, Matrix.mul_assoc, hv, Matrix.mul_one]

theorem svd_mul_u {n m k : ℕ} {A : Matrix (Fin n) (Fin m) ℝ} {s : Fin k → ℝ} {u : Matrix (Fin n) (Fin k) ℝ}
    {v : Matrix (Fin m) (Fin k) ℝ} (hu : uᵀ * u = 1) (hA : u * diagonal s * vᵀ = A) : uᵀ * A = diagonal s * vᵀ := by
  rw [← hA, Matrix.mul_assoc, ← Matrix.mul_assoc, hu, Matrix.one_mul]

theorem svd_fro {n m k : ℕ} {A : Matrix (Fin n) (Fin m) ℝ} {s : Fin k → ℝ} {u : Matrix (Fin n) (Fin k) ℝ}
    {v : Matrix (Fin m) (Fin k) ℝ} (hu : uᵀ * u = 1) (hv : vᵀ * v = 1) (hA : u * diagonal s * vᵀ = A) : fro A = ∑ i, s i ^ 2 := by
  rw [← hA, fro_isometry' hv, fro_isometry hu, fro_eq_trace, diagonal_transpose, diagonal_mul_diagonal, trace_diagonal]
  exact Finset.sum_congr rfl fun i _ => (sq _).symm

theorem ofVecs_get (pre : List ℕ) (n : ℕ) (f : List ℕ → Fin n → ℝ) (p : List ℕ) (i : ℕ) (hp : p.length = pre.length) (hi : i < n) :
    (ofVecs pre n f).get (p ++ [i]) = f p ⟨i, hi⟩ := by
  simp only [ofVecs]
  have h1 : (p ++ [i]).getD pre.length 0 = i := by rw [← hp]; simp
  have h2 : (p ++ [i]).take pre.length = p := by rw [← hp]; simp
  simp only [h1, h2, hi, dif_pos]

/-- What the truncated decomposition of the matrices `x p` keeps. -/
structure TruncSvd (n m k : ℕ) (x : ℕ → ℕ → ℝ) (u : ℕ → ℕ → ℝ) (s : ℕ → ℝ) (v : ℕ → ℕ → ℝ) (tail : ℝ) : Prop where
  orthU : ∀ γ < k, ∀ γ' < k, ∑ i ∈ Finset.range n, u i γ * u i γ' = if γ = γ' then 1 else 0
  orthV : ∀ γ < k, ∀ γ' < k, ∑ j ∈ Finset.range m, v j γ * v j γ' = if γ = γ' then 1 else 0
  mulV : ∀ i < n, ∀ γ < k, ∑ j ∈ Finset.range m, x i j * v j γ = u i γ * s γ
  mulU : ∀ j < m, ∀ γ < k, ∑ i ∈ Finset.range n, u i γ * x i j = s γ * v j γ
  norm : ∑ i ∈ Finset.range n, ∑ j ∈ Finset.range m, x i j ^ 2 = ∑ γ ∈ Finset.range k, s γ ^ 2 + tail
  best : ∀ (ρ : ℕ) (P Q : ℕ → ℕ → ℝ), ρ ≤ k ∨ k = min n m →
    tail ≤ ∑ i ∈ Finset.range n, ∑ j ∈ Finset.range m, (x i j - ∑ l ∈ Finset.range ρ, P i l * Q l j) ^ 2

theorem truncSvd_mats {n m k : ℕ} (hk : k ≤ min n m) {X : Matrix (Fin n) (Fin m) ℝ} {Um : Matrix (Fin n) (Fin (min n m)) ℝ}
    {Sm : Fin (min n m) → ℝ} {Vm : Matrix (Fin m) (Fin (min n m)) ℝ} (h1 : Umᵀ * Um = 1) (h2 : Vmᵀ * Vm = 1) (h3 : ∀ i, 0 ≤ Sm i) (h4 : Antitone Sm)
    (h5 : Um * diagonal Sm * Vmᵀ = X) {x u : ℕ → ℕ → ℝ} {s : ℕ → ℝ} {v : ℕ → ℕ → ℝ} (hx : ∀ i j, x (i : Fin n) (j : Fin m) = X i j)
    (hu : ∀ (i : Fin n) (γ : Fin (min n m)), u i γ = Um i γ) (hs : ∀ γ : Fin (min n m), s γ = Sm γ)
    (hv : ∀ (j : Fin m) (γ : Fin (min n m)), v j γ = Vm j γ) :
    ∃ tail, TruncSvd n m k x u s v tail := by
  have kk : ∀ γ < k, γ < min n m := fun γ hγ => lt_of_lt_of_le hγ hk
  refine ⟨∑ i : Fin (min n m), if k ≤ (i : ℕ) then Sm i ^ 2 else 0, ⟨?_, ?_, ?_, ?_, ?_, ?_⟩⟩
  · intro γ hγ γ' hγ'
    have := congrFun (congrFun h1 ⟨γ, kk γ hγ⟩) ⟨γ', kk γ' hγ'⟩
    rw [mul_apply, one_apply] at this
    simp only [transpose_apply, Fin.mk.injEq] at this
    rw [← this, Finset.sum_range]
    exact Finset.sum_congr rfl fun i _ => by rw [← hu i ⟨γ, kk γ hγ⟩, ← hu i ⟨γ', kk γ' hγ'⟩]
  · intro γ hγ γ' hγ'
    have := congrFun (congrFun h2 ⟨γ, kk γ hγ⟩) ⟨γ', kk γ' hγ'⟩
    rw [mul_apply, one_apply] at this
    simp only [transpose_apply, Fin.mk.injEq] at this
    rw [← this, Finset.sum_range]
    exact Finset.sum_congr rfl fun i _ => by rw [← hv i ⟨γ, kk γ hγ⟩, ← hv i ⟨γ', kk γ' hγ'⟩]
  · intro i hi γ hγ
    have := congrFun (congrFun (svd_mul_v h2 h5) ⟨i, hi⟩) ⟨γ, kk γ hγ⟩
    rw [mul_apply, mul_diagonal, ← hu, ← hs] at this
    rw [← this, Finset.sum_range]
    exact Finset.sum_congr rfl fun j _ => by rw [← hx ⟨i, hi⟩ j, ← hv j ⟨γ, kk γ hγ⟩]
  · intro j hj γ hγ
    have := congrFun (congrFun (svd_mul_u h1 h5) ⟨γ, kk γ hγ⟩) ⟨j, hj⟩
    rw [mul_apply, diagonal_mul, transpose_apply, ← hv, ← hs] at this
    rw [← this, Finset.sum_range]
    exact Finset.sum_congr rfl fun i _ => by rw [transpose_apply, ← hx i ⟨j, hj⟩, ← hu i ⟨γ, kk γ hγ⟩]
  · have := svd_fro h1 h2 h5
    rw [fro] at this
    rw [Finset.sum_range]
    simp only [Finset.sum_range (fun j => x _ j ^ 2), hx]
    rw [this, Finset.sum_range]
    obtain ⟨l, hl⟩ := Nat.exists_eq_add_of_le hk
    have e1 : ∑ i : Fin (min n m), Sm i ^ 2 = ∑ i ∈ Finset.range (min n m), s i ^ 2 := by
      rw [Finset.sum_range]; exact Finset.sum_congr rfl fun i _ => by rw [hs]
    have e2 : ∑ i : Fin (min n m), (if k ≤ (i : ℕ) then Sm i ^ 2 else 0) = ∑ i ∈ Finset.range (min n m), if k ≤ i then s i ^ 2 else 0 := by
      rw [Finset.sum_range]; exact Finset.sum_congr rfl fun i _ => by rw [hs]
    rw [e1, e2, hl, Finset.sum_range_add, Finset.sum_range_add, ← Finset.sum_range (fun i => s i ^ 2)]
    congr 1
    rw [Finset.sum_eq_zero (s := Finset.range k), zero_add]
    · exact Finset.sum_congr rfl fun i _ => by rw [if_pos (by omega)]
    · intro i hi
      rw [Finset.mem_range] at hi
      rw [if_neg (by omega)]
  · intro ρ P Q hρ
    have hle : ∑ i : Fin (min n m), (if k ≤ (i : ℕ) then Sm i ^ 2 else 0) ≤
        fro (X - (Matrix.of fun (i : Fin n) (l : Fin ρ) => P i l) * Matrix.of fun (l : Fin ρ) (j : Fin m) => Q l j) := by
      rcases hρ with hρ | hρ
      · refine le_trans (Finset.sum_le_sum fun i _ => ?_) (tail_le (ρ := ρ) h1 h2 h3 h4 h5 _ _)
        split_ifs with a b
        · exact le_rfl
        · omega
        · exact sq_nonneg _
        · exact le_rfl
      · rw [Finset.sum_eq_zero]
        · exact fro_nonneg _
        · intro i _
          rw [if_neg (by have := i.isLt; omega)]
    refine hle.trans (le_of_eq ?_)
    rw [fro, Finset.sum_range]
    refine Finset.sum_congr rfl fun i _ => ?_
    rw [Finset.sum_range]
    refine Finset.sum_congr rfl fun j _ => ?_
    rw [Matrix.sub_apply, mul_apply, hx, Finset.sum_range]
    rfl

theorem truncSvd_of {n m k : ℕ} (hk : k ≤ min n m) {svd : SVDRoutine} (hsvd : svd.Correct) (X : Matrix (Fin n) (Fin m) ℝ)
    {x u : ℕ → ℕ → ℝ} {s : ℕ → ℝ} {v : ℕ → ℕ → ℝ} (hx : ∀ i j, x (i : Fin n) (j : Fin m) = X i j)
    (hu : ∀ (i : Fin n) (γ : Fin (min n m)), u i γ = svd.u n m X i γ) (hs : ∀ γ : Fin (min n m), s γ = svd.s n m X γ)
    (hv : ∀ (j : Fin m) (γ : Fin (min n m)), v j γ = svd.v n m X j γ) :
    ∃ tail, TruncSvd n m k x u s v tail := by
  obtain ⟨h1, h2, h3, h4, h5⟩ := hsvd n m X
  exact truncSvd_mats hk h1 h2 h3 h4 h5 hx hu hs hv

/-- Truncated decomposition of (a batch of) matrices. -/
theorem svd_pre {svd : SVDRoutine} (hsvd : svd.Correct) {bs : Option ℕ} {X : Tensor ℝ} {n m k : ℕ}
    (hX : X.shape = bs.toList ++ [n, m]) (hk : k ≤ min n m) :
    ∃ (S U V S' U' V' : Tensor ℝ) (u v : List ℕ → ℕ → ℕ → ℝ) (s : List ℕ → ℕ → ℝ) (tail : List ℕ → ℝ), linalgSVD svd X = Except.ok (S, U, V) ∧
      takeLast U (bs.toList.length + 1) k = Except.ok U' ∧ takeLast S bs.toList.length k = Except.ok S' ∧
      takeLast V (bs.toList.length + 1) k = Except.ok V' ∧
      U'.shape = bs.toList ++ [n, k] ∧ S'.shape = bs.toList ++ [k] ∧ V'.shape = bs.toList ++ [m, k] ∧
      ∀ p, Valid bs.toList p → TruncSvd n m k (fun i j => X.get (p ++ [i, j])) (u p) (s p) (v p) (tail p) ∧
        (∀ i < n, ∀ γ < k, U'.get (p ++ [i, γ]) = u p i γ) ∧ (∀ γ < k, S'.get (p ++ [γ]) = s p γ) ∧
        ∀ j < m, ∀ γ < k, V'.get (p ++ [j, γ]) = v p j γ := by
  let S := ofVecs bs.toList (min n m) fun p => svd.s n m (X.mat p n m)
  let U := ofMats bs.toList n (min n m) fun p => svd.u n m (X.mat p n m)
  let V := ofMats bs.toList m (min n m) fun p => svd.v n m (X.mat p n m)
  have hU : U.shape = (bs.toList ++ [n]) ++ [min n m] := by simp [U, ofMats]
  have hV : V.shape = (bs.toList ++ [m]) ++ [min n m] := by simp [V, ofMats]
  have hS : S.shape = bs.toList ++ [min n m] := rfl
  obtain ⟨U', eU, sU, vU⟩ := takeLast_ok hU hk
  obtain ⟨S', eS, sS, vS⟩ := takeLast_ok hS hk
  obtain ⟨V', eV, sV, vV⟩ := takeLast_ok hV hk
  have key : ∀ p, Valid bs.toList p → ∃ tail, TruncSvd n m k (fun i j => X.get (p ++ [i, j])) (fun i γ => U.get (p ++ [i, γ]))
      (fun γ => S.get (p ++ [γ])) (fun j γ => V.get (p ++ [j, γ])) tail := fun p hp =>
    truncSvd_of hk hsvd (X.mat p n m) (fun i j => rfl) (fun i γ => ofMats_get _ _ _ _ _ _ _ hp.length_eq i.isLt γ.isLt)
      (fun γ => ofVecs_get _ _ _ _ _ hp.length_eq γ.isLt) (fun j γ => ofMats_get _ _ _ _ _ _ _ hp.length_eq j.isLt γ.isLt)
  classical
  refine ⟨S, U, V, S', U', V', fun p i γ => U.get (p ++ [i, γ]), fun p j γ => V.get (p ++ [j, γ]), fun p γ => S.get (p ++ [γ]),
    fun p => if h : Valid bs.toList p then (key p h).choose else 0, ?_, ?_, eS, ?_, ?_, sS, ?_, ?_⟩
  · unfold linalgSVD
    rw [hX, matShape_pre, R.ok_bind]
    rfl
  · simpa using eU
  · simpa using eV
  · simpa using sU
  · simpa using sV
  · intro p hp
    refine ⟨?_, fun i hi γ hγ => ?_, fun γ hγ => vS p hp γ hγ, fun j hj γ hγ => ?_⟩
    · simp only [dif_pos hp]; exact (key p hp).choose_spec
    · have := vU (p ++ [i]) (valid_append hp (by simpa using hi)) γ hγ
      simpa using this
    · have := vV (p ++ [j]) (valid_append hp (by simpa using hj)) γ hγ
      simpa using this

theorem linalgDiag_pre {bs : Option ℕ} {S : Tensor ℝ} {k : ℕ} (hS : S.shape = bs.toList ++ [k]) :
    ∃ D, linalgDiag S = Except.ok D ∧ D.shape = bs.toList ++ [k, k] ∧
      ∀ p, Valid bs.toList p → ∀ x y, D.get (p ++ [x, y]) = if x = y then S.get (p ++ [x]) else 0 := by
  cases bs with
  | none =>
    have hS' : S.shape = [k] := hS
    refine ⟨_, by unfold linalgDiag; rw [hS'], rfl, fun p hp x y => ?_⟩
    obtain rfl := (valid_nil_iff p).1 hp
    simp
  | some b =>
    have hS' : S.shape = [b, k] := hS
    refine ⟨_, by unfold linalgDiag; rw [hS'], rfl, fun p hp x y => ?_⟩
    obtain ⟨o, rfl, -⟩ := (valid_singleton _ _).1 hp
    simp

end T3f
