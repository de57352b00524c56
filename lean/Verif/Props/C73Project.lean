import Verif.Proofs.ComplexTangent
import Verif.Props.C73Complex

/-! # C73: the projection on the tangent space, for complex cores -/

namespace T3f

/-- The elements of a tensor with two cores of rank one. -/
theorem two_get {x : TT ℂ} (h : x.WF) {n m : ℕ} (hr : x.rawShape = [[n, m]]) (h1 : x.rank 1 = 1) {g : ℕ → List ℕ} :
    x.entry [] g = (x.core 0).get (0 :: (g 0 ++ [0])) * (x.core 1).get (0 :: (g 1 ++ [0])) := by
  rw [Cx.entry_two (by rw [← h.rows_len [n, m] (by rw [hr]; simp)]; rfl) h.rank_first, h1, Finset.sum_range_one]

theorem null_of_factor {n : ℕ} {u a : ℕ → ℂ} {c d : ℂ} (hd : d ≠ 0) (hu : ∀ i < n, a i * d = u i * c) (h : ∑ i ∈ Finset.range n, (a i * d) ^ 2 = 0) :
    ∑ i ∈ Finset.range n, u i * a i = 0 := by
  have h1 : ∀ i ∈ Finset.range n, a i = d⁻¹ * c * u i := fun i hi => by
    have := hu i (Finset.mem_range.1 hi)
    field_simp
    rw [this]; ring
  rw [Finset.sum_congr rfl fun i hi => by rw [hu i (Finset.mem_range.1 hi), mul_pow], ← Finset.sum_mul] at h
  rw [Finset.sum_congr rfl fun i hi => by rw [h1 i hi, show u i * (d⁻¹ * c * u i) = d⁻¹ * c * u i ^ 2 by ring], ← Finset.mul_sum]
  rcases mul_eq_zero.1 h with h | h
  · rw [h, mul_zero]
  · rw [pow_eq_zero_iff (by omega)] at h
    rw [h]; ring

/-- **C73, finding.** `project` does not conjugate: for a nonzero complex matrix of TT-rank one, given as a TT-tensor with two cores, in which the squares of the
elements of each row and of each column sum to zero, the projection of the tensor on the tangent space at itself is zero, for every correct QR routine. (The tensor is
in its tangent space, so the orthogonal projection would be the tensor itself.) -/
theorem C73_project {qr : Cx.QRRoutine} (hqr : qr.Correct) {x : TT ℂ} (h : x.WF) (hb : x.batch = none) {n m : ℕ} (hr : x.rawShape = [[n, m]])
    (hk : x.ttRanks = [1, 1, 1]) {X : Tensor ℂ} (eX : full x = Except.ok X) (hne : ∃ i < n, ∃ j < m, X.get [i, j] ≠ 0)
    (hcol : ∀ j < m, ∑ i ∈ Finset.range n, X.get [i, j] ^ 2 = 0) (hrow : ∀ i < n, ∑ j ∈ Finset.range m, X.get [i, j] ^ 2 = 0) :
    ∃ y Y, Cx.project qr x x = Except.ok y ∧ full y = Except.ok Y ∧ Y.shape = [n, m] ∧ ∀ i < n, ∀ j < m, Y.get [i, j] = 0 := by
  obtain ⟨i₀, hi₀, j₀, hj₀, hne⟩ := hne
  have hd : x.ndims = 2 := by rw [← h.rows_len [n, m] (by rw [hr]; simp)]; rfl
  have hm : x.ModesPos := by
    intro row hrow'
    rw [hr, List.mem_singleton] at hrow'
    subst hrow'
    intro k hk
    simp only [List.mem_cons, List.not_mem_nil, or_false] at hk
    rcases hk with rfl | rfl <;> omega
  have r1 : x.rank 1 = 1 := by simp [TT.rank, hk]
  have hpre : x.bpre = [] := by simp [TT.bpre, hb]
  obtain ⟨left, el, wl, rl, bl, nl, kl, -, entl⟩ := Cx.orthoLR_ok hqr h hm
  rw [hb] at bl
  have hml : left.ModesPos := by unfold TT.ModesPos; rw [rl]; exact hm
  obtain ⟨right, er, wr, rr, br, nr, kr, -, entr⟩ := Cx.orthoRL_ok hqr wl bl hml
  have l1 : left.rank 1 = 1 := by
    have h1 : left.rank 1 ≤ x.rank 1 := by rw [kl 1 (by omega)]; exact lrRank_le _ _ h.rank_first 1
    have := wl.rank_pos 1 (by omega)
    omega
  have v1 : right.rank 1 = 1 := by
    have h1 : right.rank 1 ≤ left.rank 1 := by rw [kr 1 (by omega)]; exact rlRank_le _ _ wl.rank_last (by omega)
    have := wr.rank_pos 1 (by omega)
    omega
  obtain ⟨X', eX', sX, vX⟩ := full_ok h
  obtain rfl : X' = X := Except.ok.inj (eX'.symm.trans eX)
  have hml' : left.modes = x.modes := modes_of_rows rl
  have m0 : x.modes 0 = [n] := by simp [TT.modes, hr]
  have m1 : x.modes 1 = [m] := by simp [TT.modes, hr]
  have hg : ∀ i < n, ∀ j < m, ∀ k < 2, Valid (x.modes k) (restModes x.rawShape [i, j] k) := by
    intro i hi j hj k hk
    rw [hr]
    obtain rfl | rfl : k = 0 ∨ k = 1 := by omega
    · rw [m0]; simpa [restModes, tIdx] using hi
    · rw [m1]; simpa [restModes, tIdx] using hj
  have key : ∀ i < n, ∀ j < m, X'.get [i, j] = (x.core 0).get [0, i, 0] * (x.core 1).get [0, j, 0] ∧
      X'.get [i, j] = (left.core 0).get [0, i, 0] * (left.core 1).get [0, j, 0] ∧
      X'.get [i, j] = (right.core 0).get [0, i, 0] * (right.core 1).get [0, j, 0] := by
    intro i hi j hj
    have e := vX [] [i, j] (by rw [hpre]; trivial) (by rw [hr]; exact ⟨hi, hj, trivial⟩)
    rw [List.nil_append] at e
    have e1 := entl [] (by rw [hpre]; trivial) _ (by rw [hd]; exact hg i hi j hj)
    have e2 := entr _ (by rw [nl, hd, hml']; exact hg i hi j hj)
    refine ⟨?_, ?_, ?_⟩
    · rw [e, two_get h hr r1, hr]; rfl
    · rw [e, ← e1, two_get wl (rl.trans hr) l1, hr]; rfl
    · rw [e, ← e1, ← e2, two_get wr ((rr.trans rl).trans hr) v1, hr]; rfl
  have hx0 := (key i₀ hi₀ j₀ hj₀).1
  have ha0 : (x.core 0).get [0, i₀, 0] ≠ 0 := fun e => hne (by rw [hx0, e, zero_mul])
  have hb0 : (x.core 1).get [0, j₀, 0] ≠ 0 := fun e => hne (by rw [hx0, e, mul_zero])
  obtain ⟨y, ey, wy, ry, by', vy⟩ := Cx.project_null h hb hd r1 (left := left) (right := right) el (by
      unfold Cx.orthogonalize
      rw [if_neg (by simp), if_neg (by simp [TT.isBatch, bl])]; exact er) wl wr bl br rl (rr.trans rl) l1 v1
    (by
      rw [m0]
      simp only [List.prod_cons, List.prod_nil, mul_one]
      rw [Finset.sum_congr rfl fun i _ => by rw [show unravel [n] i = [i] by simp [unravel]]]
      refine null_of_factor (u := fun i => (left.core 0).get [0, i, 0]) (a := fun i => (x.core 0).get [0, i, 0]) (c := (left.core 1).get [0, j₀, 0]) hb0
        (fun i hi => (key i hi j₀ hj₀).1.symm.trans (key i hi j₀ hj₀).2.1) ?_
      rw [← hcol j₀ hj₀]
      exact Finset.sum_congr rfl fun i hi => by rw [(key i (Finset.mem_range.1 hi) j₀ hj₀).1])
    (by
      rw [m1]
      simp only [List.prod_cons, List.prod_nil, mul_one]
      rw [Finset.sum_congr rfl fun i _ => by rw [show unravel [m] i = [i] by simp [unravel], mul_comm]]
      refine null_of_factor (u := fun j => (right.core 1).get [0, j, 0]) (a := fun j => (x.core 1).get [0, j, 0]) (c := (right.core 0).get [0, i₀, 0]) ha0
        (fun j hj => by
          have := (key i₀ hi₀ j hj).1.symm.trans (key i₀ hi₀ j hj).2.2
          rw [mul_comm, this, mul_comm]) ?_
      rw [← hrow i₀ hi₀]
      exact Finset.sum_congr rfl fun j hj => by rw [(key i₀ hi₀ j (Finset.mem_range.1 hj)).1, mul_comm])
  obtain ⟨Y, eY, sY, vY⟩ := full_ok wy
  have hyp : y.bpre = [] := by simp [TT.bpre, by']
  refine ⟨y, Y, ey, eY, by rw [sY, hyp, ry, hr]; rfl, fun i hi j hj => ?_⟩
  have e := vY [] [i, j] (by rw [hyp]; trivial) (by rw [ry, hr]; exact ⟨hi, hj, trivial⟩)
  rw [List.nil_append] at e
  rw [e, ry]
  exact vy _ (hg i hi j hj)

/-- The `2 × 2` matrix with elements `1`, `i`, `i`, `-1`. -/
noncomputable def exIsotropic2 : TT ℂ where
  cores := [.ofList [1, 2, 1] [1, Complex.I], .ofList [1, 2, 1] [1, Complex.I]]
  rawShape := [[2, 2]]
  ttRanks := [1, 1, 1]
  batch := none

example : exIsotropic2.WF ∧ ∃ X, full exIsotropic2 = Except.ok X ∧ (∃ i < 2, ∃ j < 2, X.get [i, j] ≠ 0) ∧
    (∀ j < 2, ∑ i ∈ Finset.range 2, X.get [i, j] ^ 2 = 0) ∧ ∀ i < 2, ∑ j ∈ Finset.range 2, X.get [i, j] ^ 2 = 0 := by
  have h : exIsotropic2.WF := by decide
  obtain ⟨X, eX, sX, vX⟩ := full_ok h
  have v : ∀ i < 2, ∀ j < 2, X.get [i, j] = Complex.I ^ (i + j) := by
    intro i hi j hj
    have := vX [] [i, j] trivial ⟨hi, hj, trivial⟩
    rw [List.nil_append] at this
    rw [this]
    interval_cases i <;> interval_cases j <;>
      simp [TT.entry, lprod, TT.ndims, exIsotropic2, TT.rank, TT.slice, TT.core, restModes, Tensor.ofList, ravel, tIdx]
  refine ⟨h, X, eX, ⟨0, by omega, 0, by omega, by rw [v 0 (by omega) 0 (by omega)]; simp⟩, fun j hj => ?_, fun i hi => ?_⟩
  · rw [Finset.sum_range_succ, Finset.sum_range_one, v 0 (by omega) j hj, v 1 (by omega) j hj]
    interval_cases j <;> simp
  · rw [Finset.sum_range_succ, Finset.sum_range_one, v i hi 0 (by omega), v i hi 1 (by omega)]
    interval_cases i <;> simp

end T3f
