import Verif.Proofs.Inner
import Verif.Proofs.BilinearBatch
import Verif.Proofs.Pairwise
import Verif.Spec.Examples

/-!
# C11, C13 (differentiable), C15, C16, C23 — inner products, norms, bilinear forms
-/

namespace T3f

variable {K : Type} [CommRing K]

/-- **C11.** For well-formed TT objects of equal shape with compatible batch sizes, `flat_inner` returns,
for every element of the broadcast batch, the sum over all positions of the products of the dense values.
The result is a vector of the broadcast batch size, or a number if there is no batch or its size is one. -/
theorem C11_flat_inner (a b : TT K) (ha : a.WF) (hb : b.WF) (hr : a.rawShape = b.rawShape)
    (hbatch : BCompat a.batch b.batch) :
    ∃ F A B s, flatInner a b = Except.ok F ∧ full a = Except.ok A ∧ full b = Except.ok B ∧
      A.shape = a.batch.toList ++ s ∧ B.shape = b.batch.toList ++ s ∧
      F.shape = (squeezed (bcast a.batch b.batch)).toList ∧
      ∀ o, o < (bcast a.batch b.batch).getD 1 → F.get (bsel (squeezed (bcast a.batch b.batch)) o) =
        ∑ n ∈ Finset.range s.prod,
          A.get (bsel a.batch o ++ unravel s n) * B.get (bsel b.batch o ++ unravel s n) := by
  obtain ⟨F, e, sF, vF⟩ := flatInner_spec ha hb hr hbatch
  obtain ⟨A, eA, sA, vA⟩ := full_ok ha
  obtain ⟨B, eB, sB, vB⟩ := full_ok hb
  refine ⟨F, A, B, restShape a.rawShape, e, eA, eB, sA, by rw [sB, hr]; rfl, sF, fun o ho => ?_⟩
  obtain ⟨v1, v2⟩ := bcast_valid hbatch ho
  rw [vF o ho]
  refine Finset.sum_congr rfl fun n hn => ?_
  have hv := unravel_valid (show n < (restShape a.rawShape).prod by simpa using hn)
  rw [vA _ _ v1 hv, vB _ _ v2 (by rw [← hr]; exact hv), ← hr]

/-- **C11, symmetry.** -/
theorem C11_flat_inner_comm (a b : TT K) (ha : a.WF) (hb : b.WF) (hr : a.rawShape = b.rawShape)
    (hbatch : BCompat a.batch b.batch) :
    ∃ F G, flatInner a b = Except.ok F ∧ flatInner b a = Except.ok G ∧ F ≃ₜ G := by
  have hbatch' : BCompat b.batch a.batch := by
    rcases hx : a.batch with _ | m <;> rcases hy : b.batch with _ | n <;> simp only [hx, hy, BCompat] at *
    omega
  have hbc : bcast b.batch a.batch = bcast a.batch b.batch := by
    rcases hx : a.batch with _ | m <;> rcases hy : b.batch with _ | n <;> simp only [hx, hy, BCompat, bcast] at *
    split_ifs <;> (try simp) <;> omega
  obtain ⟨F, e, sF, vF⟩ := flatInner_spec ha hb hr hbatch
  obtain ⟨G, e', sG, vG⟩ := flatInner_spec hb ha hr.symm hbatch'
  refine ⟨F, G, e, e', by rw [sF, sG, hbc], fun i hi => ?_⟩
  rw [sF] at hi
  obtain ⟨o, ho, rfl⟩ := valid_lsel hi
  rw [squeezed_getD] at ho
  have h1 := vF o ho
  have h2 := vG o (by rw [hbc]; exact ho)
  rw [hbc] at h2
  rw [squeezed_bsel] at h1 h2
  rw [h1, h2, hr]
  exact Finset.sum_congr rfl fun n _ => mul_comm _ _

/-- **C11, errors.** A TT-tensor with a TT-matrix, incompatible batch sizes, or different numbers of
dimensions raise ValueError. -/
theorem C11_flat_inner_error (a b : TT K)
    (h : ¬ (a.isMatrix ↔ b.isMatrix) ∨ ¬ BCompat a.batch b.batch ∨ b.ndims ≠ a.ndims) :
    flatInner a b = Except.error Err.value := by
  unfold flatInner
  by_cases h1 : a.isMatrix ↔ b.isMatrix
  · by_cases h2 : BCompat a.batch b.batch
    · have h3 : ¬ b.ndims = a.ndims := by tauto
      simp only [require_pos h1, require_pos ((isBroadcast_iff a b).2 h2), require_neg h3, R.ok_bind,
        R.error_bind]
    · simp only [require_pos h1, require_neg (fun h => h2 ((isBroadcast_iff a b).1 h)), R.ok_bind,
        R.error_bind]
  · simp only [require_neg h1, R.error_bind]

/-- **C11, different shapes.** Otherwise different mode sizes end in an error of TensorFlow (the
ValueError of the docstring is a TODO in the code, ops.py:363). -/
theorem C11_flat_inner_shape_mismatch (a b : TT K) (ha : a.WF) (hb : b.WF) (hm : a.isMatrix ↔ b.isMatrix)
    (hn : a.ndims = b.ndims) (hbatch : BCompat a.batch b.batch) (hr : a.rawShape ≠ b.rawShape) :
    flatInner a b = Except.error Err.tf :=
  flatInner_shape_error ha hb hm hn hr hbatch

/-- **C13, differentiable implementation.** `frobenius_norm_squared(tt, differentiable=True)` is, for every
element of the batch, the sum of the squares of the dense values. -/
theorem C13_frobenius_norm_squared_diff (t : TT K) (h : t.WF) :
    ∃ F A s, frobeniusNormSquaredDiff t = Except.ok F ∧ full t = Except.ok A ∧
      A.shape = t.batch.toList ++ s ∧ F.shape = t.batch.toList ∧
      ∀ p, Valid t.batch.toList p → F.get p = ∑ n ∈ Finset.range s.prod, A.get (p ++ unravel s n) ^ 2 := by
  obtain ⟨F, e, sF, vF⟩ := frobeniusDiff_spec h
  obtain ⟨A, eA, sA, vA⟩ := full_ok h
  refine ⟨F, A, restShape t.rawShape, e, eA, sA, sF, fun p hp => ?_⟩
  rw [vF p hp]
  refine Finset.sum_congr rfl fun n hn => ?_
  have hv := unravel_valid (show n < (restShape t.rawShape).prod by simpa using hn)
  rw [vA _ _ hp hv, sq]

/-- **C15.** `bilinear_form(A, b, c)` for a TT-matrix `A` of size `N × M` and TT-matrices `b` (`N × L`),
`c` (`M × L`) that are both single objects or both batches of the same size is `∑ᵢⱼₗ b[i,l] A[i,j] c[j,l]`,
for every element of the batch. For TT-vectors `L = 1` and this is `bᵀ A c`. -/
theorem C15_bilinear_form (A b c : TT K) (hA : A.WF) (hb : b.WF) (hc : c.WF) (I J L : List ℕ)
    (rA : A.rawShape = [I, J]) (rb : b.rawShape = [I, L]) (rc : c.rawShape = [J, L])
    (bA : A.batch = none) (hbc : b.batch = c.batch) :
    ∃ F FA Fb Fc, bilinearForm A b c = Except.ok F ∧ full A = Except.ok FA ∧ full b = Except.ok Fb ∧
      full c = Except.ok Fc ∧ F.shape = (squeezed b.batch).toList ∧
      ∀ o, o < b.batch.getD 1 → F.get (bsel (squeezed b.batch) o) =
        ∑ i ∈ Finset.range I.prod, ∑ l ∈ Finset.range L.prod, ∑ j ∈ Finset.range J.prod,
          Fb.get (bsel b.batch o ++ [i, l]) * (FA.get [i, j] * Fc.get (bsel b.batch o ++ [j, l])) := by
  obtain ⟨F, e, sF, vF⟩ := bilinearForm_spec hA hb hc rA rb rc bA hbc
  obtain ⟨FA, eA, -, vA⟩ := full_matrix hA rA
  obtain ⟨Fb, eb, -, vb⟩ := full_matrix hb rb
  obtain ⟨Fc, ec, -, vc⟩ := full_matrix hc rc
  refine ⟨F, FA, Fb, Fc, e, eA, eb, ec, sF, fun o ho => ?_⟩
  rw [vF o ho]
  have hsel : bsel b.batch o = lsel b.batch o := by
    rcases hx : b.batch with _ | n
    · rfl
    · simp only [bsel, lsel]; split_ifs with h
      · rw [hx, h] at ho; simp at ho; rw [ho]
      · rfl
  have hv : Valid b.bpre (lsel b.batch o) := lsel_valid ho
  refine Finset.sum_congr rfl fun i hi => Finset.sum_congr rfl fun l hl => Finset.sum_congr rfl fun j hj => ?_
  rw [Finset.mem_range] at hi hl hj
  rw [hsel, vb _ i l hv hi hl, vc _ j l (by rw [TT.bpre, ← hbc]; exact hv) hj hl]
  have := vA [] i j (by rw [bpre_none bA]; trivial) hi hj
  rw [List.nil_append] at this
  rw [this]

/-- **C15, quadratic_form.** It takes three arguments and is `bilinear_form`. -/
theorem C15_quadratic_form (A b c : TT K) : quadraticForm A b c = bilinearForm A b c := rfl

/-- **C15, errors.** An argument that is not a TT-matrix raises ValueError. -/
theorem C15_bilinear_form_error (A b c : TT K) (h : ¬ (A.isMatrix ∧ b.isMatrix ∧ c.isMatrix)) :
    bilinearForm A b c = Except.error Err.value := by
  unfold bilinearForm
  by_cases h1 : A.isMatrix
  · by_cases h2 : b.isMatrix
    · have h3 : ¬ c.isMatrix := by tauto
      simp only [require_pos h1, require_pos h2, require_neg h3, R.ok_bind, R.error_bind]
    · simp only [require_pos h1, require_neg h2, R.ok_bind, R.error_bind]
  · simp only [require_neg h1, R.error_bind]

/-- **C15, mixed batches.** The docstring allows `b` and `c` to be batches independently, but if exactly
one of them is a batch the call fails (`c_is_batch` is computed from `b`, ops.py:1086). -/
theorem C15_bilinear_form_mixed (A b c : TT K) (hA : A.WF) (hb : b.WF) (hc : c.WF)
    (mA : A.isMatrix) (mb : b.isMatrix) (mc : c.isMatrix)
    (hmix : (b.batch = none ∧ c.batch ≠ none) ∨ (b.batch ≠ none ∧ c.batch = none)) :
    bilinearForm A b c = Except.error Err.tf := by
  have e : einsum ([bLabel 'p' b.batch ++ chars! "aikb", chars! "cijd", bLabel 'p' b.batch ++ chars! "ejkf"],
      bLabel 'p' b.batch ++ chars! "bdf") [b.core 0, A.core 0, c.core 0] = Except.error Err.tf := by
    refine if_neg ?_
    rintro ⟨h, -, -⟩
    have sc := hc.core_shape 0 hc.pos
    obtain ⟨I, J, rc⟩ := List.length_eq_two.1 (show c.rawShape.length = 2 from mc)
    have hlen : (c.core 0).shape.length = c.batch.toList.length + 4 := by
      rw [sc]; simp [TT.bpre, TT.modes, rc]
    simp only [List.map_cons, List.map_nil, List.cons.injEq] at h
    have h3 := h.2.2.1
    rw [hlen] at h3
    rcases hmix with ⟨h1, h2⟩ | ⟨h1, h2⟩
    · obtain ⟨n, hn⟩ := Option.ne_none_iff_exists'.1 h2
      simp [h1, hn, bLabel] at h3
    · obtain ⟨n, hn⟩ := Option.ne_none_iff_exists'.1 h1
      simp [h2, hn, bLabel] at h3
  unfold bilinearForm
  simp only [require_pos mA, require_pos mb, require_pos mc, R.ok_bind, hA.pyCore hA.pos, hb.pyCore hb.pos,
    hc.pyCore hc.pos, e, R.error_bind]

/-- **C16, no batches.** `bilinear_form_two_mat(x, A, B, y)` is `∑ x[l,n] A[l,p] B[p,o] y[o,m]`; for
TT-vectors (`n`, `m` take one value) this is `xᵀ A B y`. -/
theorem C16_bilinear_form_two_mat (x A B y : TT K) (hx : x.WF) (hA : A.WF) (hB : B.WF) (hy : y.WF)
    (L N P O M : List ℕ) (rx : x.rawShape = [L, N]) (rA : A.rawShape = [L, P]) (rB : B.rawShape = [P, O])
    (ry : y.rawShape = [O, M]) (bx : x.batch = none) (bA : A.batch = none) (bB : B.batch = none)
    (bY : y.batch = none) :
    ∃ F Fx FA FB Fy, bilinearFormTwoMat x A B y = Except.ok F ∧ full x = Except.ok Fx ∧
      full A = Except.ok FA ∧ full B = Except.ok FB ∧ full y = Except.ok Fy ∧ F.shape = [] ∧
      F.get [] = ∑ l ∈ Finset.range L.prod, ∑ n ∈ Finset.range N.prod, ∑ p ∈ Finset.range P.prod,
          ∑ o ∈ Finset.range O.prod, ∑ m ∈ Finset.range M.prod,
          Fx.get [l, n] * (FA.get [l, p] * (FB.get [p, o] * Fy.get [o, m])) := by
  obtain ⟨F, e, sF, vF⟩ := bilinearFormTwoMat_spec hx hA hB hy rx rA rB ry bx bA bB bY
  obtain ⟨Fx, ex, -, vx⟩ := full_matrix hx rx
  obtain ⟨FA, eA, -, vA⟩ := full_matrix hA rA
  obtain ⟨FB, eB, -, vB⟩ := full_matrix hB rB
  obtain ⟨Fy, ey, -, vy⟩ := full_matrix hy ry
  refine ⟨F, Fx, FA, FB, Fy, e, ex, eA, eB, ey, sF, ?_⟩
  rw [vF]
  refine Finset.sum_congr rfl fun l hl => Finset.sum_congr rfl fun n hn => Finset.sum_congr rfl fun p hp =>
    Finset.sum_congr rfl fun o ho => Finset.sum_congr rfl fun m hm => ?_
  rw [Finset.mem_range] at hl hn hp ho hm
  rw [← vx [] l n (by rw [bpre_none bx]; trivial) hl hn, ← vA [] l p (by rw [bpre_none bA]; trivial) hl hp,
    ← vB [] p o (by rw [bpre_none bB]; trivial) hp ho, ← vy [] o m (by rw [bpre_none bY]; trivial) ho hm]
  rfl

/-- **C16, errors.** An argument that is not a TT-matrix raises ValueError. -/
theorem C16_bilinear_form_two_mat_error (x A B y : TT K)
    (h : ¬ (A.isMatrix ∧ B.isMatrix ∧ x.isMatrix ∧ y.isMatrix)) :
    bilinearFormTwoMat x A B y = Except.error Err.value := by
  unfold bilinearFormTwoMat
  by_cases h1 : A.isMatrix
  · by_cases h2 : B.isMatrix
    · by_cases h3 : x.isMatrix
      · have h4 : ¬ y.isMatrix := by tauto
        simp only [require_pos h1, require_pos h2, require_pos h3, require_neg h4, R.ok_bind, R.error_bind]
      · simp only [require_pos h1, require_pos h2, require_neg h3, R.ok_bind, R.error_bind]
    · simp only [require_pos h1, require_neg h2, R.ok_bind, R.error_bind]
  · simp only [require_neg h1, R.error_bind]

/-- **C16, when it works.** For four TT-matrices of compatible shapes the call succeeds only if `A` and `B` are no batches and either `x` and `y` are
no batches, or both are batches of the same size and this size is also the size of every inner mode (the columns of `A`, the rows of `B`): the einsum letter `p`
is used both for the batch and for the inner mode (ops.py:1152-1167). Otherwise TensorFlow raises an error. -/
theorem C16_bilinear_form_two_mat_iff (x A B y : TT K) (hx : x.WF) (hA : A.WF) (hB : B.WF) (hy : y.WF)
    (L N P O M : List ℕ) (rx : x.rawShape = [L, N]) (rA : A.rawShape = [L, P]) (rB : B.rawShape = [P, O])
    (ry : y.rawShape = [O, M]) :
    ((∃ F, bilinearFormTwoMat x A B y = Except.ok F) ↔
      A.batch = none ∧ B.batch = none ∧ x.batch = y.batch ∧ ∀ q ∈ x.batch, ∀ k < P.length, P.getD k 0 = q) ∧
    ((¬ ∃ F, bilinearFormTwoMat x A B y = Except.ok F) → bilinearFormTwoMat x A B y = Except.error Err.tf) := by
  by_cases h : A.batch = none ∧ B.batch = none ∧ x.batch = y.batch ∧ ∀ q ∈ x.batch, ∀ k < P.length, P.getD k 0 = q
  · have : ∃ F, bilinearFormTwoMat x A B y = Except.ok F := by
      obtain ⟨bA, bB, bxy, hq⟩ := h
      cases bx : x.batch with
      | none =>
        obtain ⟨F, e, -⟩ := bilinearFormTwoMat_spec hx hA hB hy rx rA rB ry bx bA bB (by rw [← bxy, bx])
        exact ⟨F, e⟩
      | some q =>
        obtain ⟨F, e, -⟩ := bilinearFormTwoMat_batch hx hA hB hy rx rA rB ry bx bA bB (by rw [← bxy, bx]) (hq q bx)
        exact ⟨F, e⟩
    exact ⟨⟨fun _ => h, fun _ => this⟩, fun hn => absurd this hn⟩
  · have e := bilinearFormTwoMat_batch_error hx hA hB hy rx rA rB ry h
    exact ⟨⟨fun ⟨F, eF⟩ => (by rw [e] at eF; cases eF), fun h' => absurd h' h⟩, fun _ => e⟩

/-- **C16, finding.** What the call computes for two batches of size `q` when all inner modes have size `q`: for element `c` the sum runs only over the
single inner index whose digits are all equal to `c`, instead of over all inner indices. -/
theorem C16_bilinear_form_two_mat_batch (x A B y : TT K) (hx : x.WF) (hA : A.WF) (hB : B.WF) (hy : y.WF)
    (L N P O M : List ℕ) (rx : x.rawShape = [L, N]) (rA : A.rawShape = [L, P]) (rB : B.rawShape = [P, O])
    (ry : y.rawShape = [O, M]) (q : ℕ) (bx : x.batch = some q) (bA : A.batch = none) (bB : B.batch = none)
    (bY : y.batch = some q) (hq : ∀ k < P.length, P.getD k 0 = q) :
    ∃ F Fx FA FB Fy, bilinearFormTwoMat x A B y = Except.ok F ∧ full x = Except.ok Fx ∧
      full A = Except.ok FA ∧ full B = Except.ok FB ∧ full y = Except.ok Fy ∧ F.shape = (squeezed (some q)).toList ∧
      ∀ c < q, F.get (bsel (squeezed (some q)) c) =
        ∑ l ∈ Finset.range L.prod, ∑ n ∈ Finset.range N.prod, ∑ o ∈ Finset.range O.prod, ∑ m ∈ Finset.range M.prod,
          Fx.get [c, l, n] * (FA.get [l, ravel P (List.replicate P.length c)] *
            (FB.get [ravel P (List.replicate P.length c), o] * Fy.get [c, o, m])) := by
  obtain ⟨F, e, sF, vF⟩ := bilinearFormTwoMat_batch hx hA hB hy rx rA rB ry bx bA bB bY hq
  obtain ⟨Fx, ex, -, vx⟩ := full_matrix hx rx
  obtain ⟨FA, eA, -, vA⟩ := full_matrix hA rA
  obtain ⟨FB, eB, -, vB⟩ := full_matrix hB rB
  obtain ⟨Fy, ey, -, vy⟩ := full_matrix hy ry
  refine ⟨F, Fx, FA, FB, Fy, e, ex, eA, eB, ey, sF, fun c hc => ?_⟩
  rw [vF c hc]
  have hd : Valid P (List.replicate P.length c) := (valid_iff_getD _ _).2 ⟨by simp, fun k hk => by
    rw [List.getD_eq_getElem _ _ (by simpa using hk), List.getElem_replicate, hq k hk]; exact hc⟩
  have hr := ravel_lt hd
  refine Finset.sum_congr rfl fun l hl => Finset.sum_congr rfl fun n hn =>
    Finset.sum_congr rfl fun o ho => Finset.sum_congr rfl fun m hm => ?_
  rw [Finset.mem_range] at hl hn ho hm
  have h1 := vx [c] l n (by rw [bpre_some bx]; exact ⟨hc, trivial⟩) hl hn
  have h2 := vA [] l _ (by rw [bpre_none bA]; trivial) hl hr
  have h3 := vB [] _ o (by rw [bpre_none bB]; trivial) hr ho
  have h4 := vy [c] o m (by rw [bpre_some bY]; exact ⟨hc, trivial⟩) ho hm
  rw [unravel_ravel hd] at h2 h3
  rw [← h1, ← h2, ← h3, ← h4]
  rfl

/-- A square TT-matrix of size 2 with one core. -/
def exSquare : TT ℤ := ⟨[.ofList [1, 2, 2, 1] [1, 2, 3, 4]], [[2], [2]], [1, 1], none⟩
/-- A batch of two TT-vectors of size 2 with one core. -/
def exVectors : TT ℤ := ⟨[.ofList [2, 1, 2, 1, 1] [1, 2, 5, 7]], [[2], [1]], [1, 1], some 2⟩

/-- **C16, finding.** The statement for batches is false: with batch size equal to the inner mode size
the call succeeds and returns a wrong number; the correct value for the first element is
`x₀ᵀ A B x₀ = 145`. -/
theorem C16_bilinear_form_two_mat_batch_wrong :
    ∃ x A B y : TT ℤ, x.WF ∧ A.WF ∧ B.WF ∧ y.WF ∧ x.rawShape = [[2], [1]] ∧ A.rawShape = [[2], [2]] ∧
      B.rawShape = [[2], [2]] ∧ y.rawShape = [[2], [1]] ∧ x.batch = some 2 ∧ y.batch = some 2 ∧
      A.batch = none ∧ B.batch = none ∧
      (bilinearFormTwoMat x A B y).map (fun F => F.get [0]) = Except.ok 35 ∧
      ((do
        let Fx ← full x; let FA ← full A; let FB ← full B; let Fy ← full y
        pure (∑ l ∈ Finset.range 2, ∑ p ∈ Finset.range 2, ∑ o ∈ Finset.range 2,
          Fx.get [0, l, 0] * (FA.get [l, p] * (FB.get [p, o] * Fy.get [0, o, 0]))) : R ℤ)) = Except.ok 145 :=
  ⟨exVectors, exSquare, exSquare, exVectors, by decide⟩

/-! The hypotheses of the theorems above can be met. -/

/-- A batch of three TT-tensors of shape `2 × 3`. -/
def exBatch3 : TT ℤ where
  cores := [.ofList [3, 1, 2, 1] [1, 2, 3, 4, 5, 6], .ofList [3, 1, 3, 1] [1, 0, -1, 2, 5, 7, 1, 1, 1]]
  rawShape := [[2, 3]]
  ttRanks := [1, 1, 1]
  batch := some 3

/-- A TT-vector with modes `2, 2`. -/
def exVec : TT ℤ where
  cores := [.ofList [1, 2, 1, 2] [1, 2, 3, 4], .ofList [2, 2, 1, 1] [1, -1, 2, 3]]
  rawShape := [[2, 2], [1, 1]]
  ttRanks := [1, 2, 1]
  batch := none

/-- A TT-vector with modes `1, 2`. -/
def exVec' : TT ℤ where
  cores := [.ofList [1, 1, 1, 2] [1, 2], .ofList [2, 2, 1, 1] [1, -1, 2, 3]]
  rawShape := [[1, 2], [1, 1]]
  ttRanks := [1, 2, 1]
  batch := none

/-- A TT-vector with modes `2, 3`. -/
def exVec'' : TT ℤ where
  cores := [.ofList [1, 2, 1, 1] [1, 2], .ofList [1, 3, 1, 1] [1, -1, 2]]
  rawShape := [[2, 3], [1, 1]]
  ttRanks := [1, 1, 1]
  batch := none

example : exBatch.WF ∧ exBatch1.WF ∧ exTensor.WF ∧ exBatch.rawShape = exTensor.rawShape ∧
    exBatch.rawShape = exBatch1.rawShape := by decide
example : BCompat exBatch.batch exTensor.batch ∧ BCompat exBatch.batch exBatch1.batch ∧
    ¬ BCompat exBatch.batch exBatch3.batch := by simp [BCompat, exBatch, exTensor, exBatch1, exBatch3]
example : (flatInner exTensor exTensor').map (fun F => (F.shape, F.get [])) =
    Except.ok ([], 5 * 3 * 1 + 10 * 3 * 4 + 13 * 3 * 9 - 11 * 2 * 1 - 20 * 2 * 4 - 25 * 2 * 9) := by decide
example : (flatInner exBatch exTensor).map (fun F => F.shape) = Except.ok [2] := by decide
example : (flatInner exBatch1 exTensor).map (fun F => F.shape) = Except.ok [] := by decide
example : exTensor.isMatrix ↔ exTensor3.isMatrix := by decide
example : exMatrix.ndims = exMatrix'.ndims ∧ exMatrix.rawShape ≠ exMatrix'.rawShape ∧
    (exMatrix.isMatrix ↔ exMatrix'.isMatrix) := by decide
example : (frobeniusNormSquaredDiff exTensor).map (fun F => F.get []) =
    Except.ok (5 ^ 2 + 10 ^ 2 + 13 ^ 2 + 11 ^ 2 + 20 ^ 2 + 25 ^ 2) := by decide
example : exMatrix.WF ∧ exVec.WF ∧ exVec'.WF ∧ exMatrix.rawShape = [[2, 2], [1, 2]] ∧
    exVec.rawShape = [[2, 2], [1, 1]] ∧ exVec'.rawShape = [[1, 2], [1, 1]] ∧ exVec.batch = exVec'.batch := by decide
example : (bilinearForm exMatrix exVec exVec').isOk := by decide
example : exSquare.WF ∧ exVectors.WF ∧ exVectors.rawShape = [[2], [1]] ∧ exSquare.batch = none := by decide
example : (bilinearForm exSquare exVectors exVectors).map (fun F => (F.shape, F.get [1])) =
    Except.ok ([2], 5 * (5 + 2 * 7) + 7 * (3 * 5 + 4 * 7)) := by decide
example : exVec''.WF ∧ exMatrix'.WF ∧ exVec''.rawShape = [[2, 3], [1, 1]] := by decide
example : (bilinearFormTwoMat exVec exMatrix exMatrix' exVec'').isOk := by decide
example : exVectors.batch = some 2 ∧ (∀ k < [2].length, [2].getD k 0 = 2) ∧ (bilinearFormTwoMat exVectors exSquare exSquare exVectors).isOk ∧
    ¬ (bilinearFormTwoMat exVectors exSquare exSquare ⟨exSquare.cores, exSquare.rawShape, exSquare.ttRanks, none⟩).isOk := by decide
example : (pairwiseFlatInner exBatch exBatch3).map (fun F => F.shape) = Except.ok [2, 3] := by decide
example : exBatch.WF ∧ exBatch3.WF ∧ exBatch.rawShape = exBatch3.rawShape ∧ exBatch.batch = some 2 := by decide
example : (pairwiseFlatInnerMatrix exVectors exVectors exSquare).map (fun F => (F.shape, F.get [0, 1])) =
    Except.ok ([2, 2], 1 * (5 + 2 * 7) + 2 * (3 * 5 + 4 * 7)) := by decide

/-- **C23.** `pairwise_flat_inner(a, b)` for two batches of equal shape is the matrix of all inner products
of their elements (axes of size one are dropped). -/
theorem C23_pairwise_flat_inner (a b : TT K) (ha : a.WF) (hb : b.WF) (hr : a.rawShape = b.rawShape)
    (m n : ℕ) (hm : a.batch = some m) (hn : b.batch = some n) :
    ∃ F A B s, pairwiseFlatInner a b = Except.ok F ∧ full a = Except.ok A ∧ full b = Except.ok B ∧
      A.shape = m :: s ∧ B.shape = n :: s ∧
      F.shape = (squeezed (some m)).toList ++ (squeezed (some n)).toList ∧
      ∀ p q, p < m → q < n → F.get (bsel (squeezed (some m)) p ++ bsel (squeezed (some n)) q) =
        ∑ k ∈ Finset.range s.prod, A.get (p :: unravel s k) * B.get (q :: unravel s k) := by
  obtain ⟨F, e, sF, vF⟩ := pairwiseFlatInner_spec ha hb hr hm hn
  obtain ⟨A, eA, sA, vA⟩ := full_ok ha
  obtain ⟨B, eB, sB, vB⟩ := full_ok hb
  refine ⟨F, A, B, restShape a.rawShape, e, eA, eB, by rw [sA, bpre_some hm]; rfl,
    by rw [sB, hr, bpre_some hn]; rfl, sF, fun p q hp hq => ?_⟩
  rw [vF p q hp hq]
  refine Finset.sum_congr rfl fun k hk => ?_
  have hv := unravel_valid (show k < (restShape a.rawShape).prod by simpa using hk)
  rw [← vA [p] _ (by rw [bpre_some hm]; exact ⟨hp, trivial⟩) hv]
  rw [hr] at hv ⊢
  rw [← vB [q] _ (by rw [bpre_some hn]; exact ⟨hq, trivial⟩) hv]
  rfl

/-- **C23, Gram matrix.** Entries are the inner products of the elements; the matrix is symmetric. -/
theorem C23_gram_matrix (t : TT K) (h : t.WF) (m : ℕ) (hm : t.batch = some m) :
    ∃ F A s, gramMatrix t = Except.ok F ∧ full t = Except.ok A ∧ A.shape = m :: s ∧
      F.shape = (squeezed (some m)).toList ++ (squeezed (some m)).toList ∧
      (∀ p q, p < m → q < m → F.get (bsel (squeezed (some m)) p ++ bsel (squeezed (some m)) q) =
        ∑ k ∈ Finset.range s.prod, A.get (p :: unravel s k) * A.get (q :: unravel s k)) ∧
      ∀ p q, p < m → q < m → F.get (bsel (squeezed (some m)) p ++ bsel (squeezed (some m)) q) =
        F.get (bsel (squeezed (some m)) q ++ bsel (squeezed (some m)) p) := by
  obtain ⟨F, A, B, s, e, eA, eB, sA, -, sF, vF⟩ := C23_pairwise_flat_inner t t h h rfl m m hm hm
  obtain rfl : A = B := by rw [eA] at eB; cases eB; rfl
  refine ⟨F, A, s, e, eA, sA, sF, vF, fun p q hp hq => ?_⟩
  rw [vF p q hp hq, vF q p hq hp]
  exact Finset.sum_congr rfl fun k _ => mul_comm _ _

/-- **C23, with a matrix.** For batches of TT-column-vectors, entry `(p, q)` is `a[p]ᵀ M b[q]`. -/
theorem C23_pairwise_flat_inner_matrix (a b M : TT K) (ha : a.WF) (hb : b.WF) (hM : M.WF)
    (I J C D : List ℕ) (ra : a.rawShape = [I, C]) (rb : b.rawShape = [J, D]) (rM : M.rawShape = [I, J])
    (hC : C.prod = 1) (hD : D.prod = 1) (bM : M.batch = none) (m n : ℕ) (hm : a.batch = some m)
    (hn : b.batch = some n) :
    ∃ F A B FM, pairwiseFlatInnerMatrix a b M = Except.ok F ∧ full a = Except.ok A ∧ full b = Except.ok B ∧
      full M = Except.ok FM ∧ F.shape = (squeezed (some m)).toList ++ (squeezed (some n)).toList ∧
      ∀ p q, p < m → q < n → F.get (bsel (squeezed (some m)) p ++ bsel (squeezed (some n)) q) =
        ∑ i ∈ Finset.range I.prod, ∑ j ∈ Finset.range J.prod,
          A.get [p, i, 0] * (FM.get [i, j] * B.get [q, j, 0]) := by
  obtain ⟨F, e, sF, vF⟩ := pairwiseFlatInnerMatrix_spec ha hb hM ra rb rM hC hD bM hm hn
  obtain ⟨A, eA, -, vA⟩ := full_matrix ha ra
  obtain ⟨B, eB, -, vB⟩ := full_matrix hb rb
  obtain ⟨FM, eM, -, vM⟩ := full_matrix hM rM
  refine ⟨F, A, B, FM, e, eA, eB, eM, sF, fun p q hp hq => ?_⟩
  rw [vF p q hp hq]
  refine Finset.sum_congr rfl fun i hi => Finset.sum_congr rfl fun j hj => ?_
  rw [Finset.mem_range] at hi hj
  rw [← vA [p] i 0 (by rw [bpre_some hm]; exact ⟨hp, trivial⟩) hi (by omega),
    ← vB [q] j 0 (by rw [bpre_some hn]; exact ⟨hq, trivial⟩) hj (by omega),
    ← vM [] i j (by rw [bpre_none bM]; trivial) hi hj]
  rfl

/-- **C23, errors with a matrix.** If an argument is not a TT-matrix, ValueError is raised. -/
theorem C23_pairwise_matrix_error (a b M : TT K) (h : ¬ (a.isMatrix ∧ b.isMatrix ∧ M.isMatrix)) :
    pairwiseFlatInnerMatrix a b M = Except.error Err.value := by
  unfold pairwiseFlatInnerMatrix
  simp only [require_neg h, R.error_bind]

/-- **C23, errors with a matrix.** Incompatible sizes raise ValueError. -/
theorem C23_pairwise_matrix_shape_error (a b M : TT K) (I J I' J' C D : List ℕ)
    (ra : a.rawShape = [I, C]) (rb : b.rawShape = [J, D]) (rM : M.rawShape = [I', J'])
    (h : I ≠ I' ∨ J ≠ J') : pairwiseFlatInnerMatrix a b M = Except.error Err.value := by
  unfold pairwiseFlatInnerMatrix
  have p1 : pyGet [I, C] 0 = Except.ok I := rfl
  have p2 : pyGet [I', J'] 0 = Except.ok I' := rfl
  have p3 : pyGet [J, D] 0 = Except.ok J := rfl
  have p4 : pyGet [I', J'] 1 = Except.ok J' := rfl
  simp only [require_pos (show a.isMatrix ∧ b.isMatrix ∧ M.isMatrix by
        simp [TT.isMatrix, rM, ra, rb]), R.ok_bind, ra, rb, rM, p1, p2, p3, p4]
  by_cases h1 : I = I'
  · have h2 : ¬ J = J' := by tauto
    simp only [require_pos h1, require_neg h2, R.ok_bind, R.error_bind]
  · simp only [require_neg h1, R.error_bind]

end T3f
