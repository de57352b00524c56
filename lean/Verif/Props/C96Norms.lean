import Verif.Props.C04Add
import Verif.Props.C06Arith
import Verif.Props.C09Matmul
import Verif.Props.C11Inner
import Verif.Props.C13Norm
import Verif.Props.C37Project

/-!
# C96: norms and inner products of results

The scalars that the library returns for composed objects satisfy the identities and inequalities of a Euclidean space: Cauchy and Schwarz, the
triangle inequality, the parallelogram law, submultiplicativity, adjoints, and Gram matrices are positive semidefinite.
`bsel b o` is the position of the item `o` in a batch axis of size `b` (no position for single objects).
-/

namespace T3f

theorem binop_equal {f : ℝ → ℝ → ℝ} {A B S : Tensor ℝ} (hs : B.shape = A.shape) (h : binop f A B = Except.ok S) :
    S.shape = A.shape ∧ ∀ i, Valid A.shape i → S.get i = f (A.get i) (B.get i) := by
  obtain ⟨S', e, sh, v⟩ := binop_ok f A B A.shape (by rw [hs]; exact bshape_self _)
  obtain rfl : S' = S := Except.ok.inj (e.symm.trans h)
  exact ⟨sh, fun i hi => by rw [v, hs, bproj_valid hi]⟩

theorem norm_items {qr : QRRoutine} (hqr : qr.Correct) {t : TT ℝ} (h : t.WF) (hm : t.ModesPos) (dif : Bool) {T : Tensor ℝ} (eT : full t = Except.ok T) :
    ∃ N, frobeniusNormSquared qr t dif = Except.ok N ∧ N.shape = t.bpre ∧
      ∀ p, Valid t.bpre p → N.get p = T.normSq p (restShape t.rawShape) := by
  obtain ⟨N, A, s, e, eA, sA, sN, v⟩ := C13_frobenius_norm_squared hqr h hm dif
  obtain ⟨A', eA', sA', -⟩ := full_ok h
  obtain rfl : A = T := Except.ok.inj (eA.symm.trans eT)
  obtain rfl : A' = A := Except.ok.inj (eA'.symm.trans eA)
  obtain rfl : s = restShape t.rawShape := List.append_cancel_left (sA.symm.trans sA')
  exact ⟨N, e, sN, v⟩

theorem norm_eps {qr : QRRoutine} (hqr : qr.Correct) {t : TT ℝ} (h : t.WF) (hm : t.ModesPos) {eps : ℝ} (he : 0 ≤ eps) (dif : Bool) {T : Tensor ℝ}
    (eT : full t = Except.ok T) : ∃ N, frobeniusNorm qr t eps dif = Except.ok N ∧ N.shape = t.bpre ∧
      ∀ p, Valid t.bpre p → 0 ≤ N.get p ∧ N.get p ^ 2 = T.normSq p (restShape t.rawShape) + eps := by
  obtain ⟨N, A, s, e, eA, sA, sN, v⟩ := C13_frobenius_norm hqr h hm he dif
  obtain ⟨A', eA', sA', -⟩ := full_ok h
  obtain rfl : A = T := Except.ok.inj (eA.symm.trans eT)
  obtain rfl : A' = A := Except.ok.inj (eA'.symm.trans eA)
  obtain rfl : s = restShape t.rawShape := List.append_cancel_left (sA.symm.trans sA')
  exact ⟨N, e, sN, v⟩

theorem bsel_item {b b' : Option ℕ} (h : BCompat b b') {o : ℕ} (ho : o < (bcast b b').getD 1) :
    Valid b.toList (bsel b o) ∧ Valid b'.toList (bsel b' o) := by
  rcases b with _ | m <;> rcases b' with _ | n
  · exact ⟨trivial, trivial⟩
  · refine ⟨trivial, ?_, trivial⟩
    have : o < n := ho
    show (if n = 1 then 0 else o) < n
    split_ifs <;> omega
  · refine ⟨⟨?_, trivial⟩, trivial⟩
    have : o < m := ho
    show (if m = 1 then 0 else o) < m
    split_ifs <;> omega
  · have h : m = n ∨ m = 1 ∨ n = 1 := h
    have ho : o < (if m = 1 then some n else some m : Option ℕ).getD 1 := ho
    refine ⟨⟨?_, trivial⟩, ?_, trivial⟩
    · show (if m = 1 then 0 else o) < m
      split_ifs at ho ⊢ <;> simp at ho <;> omega
    · show (if n = 1 then 0 else o) < n
      split_ifs at ho ⊢ <;> simp at ho <;> omega

/-- **C96.** Inequality of Cauchy and Schwarz: the square of `flat_inner(a, b)` is at most the product of the squared norms, also for batches that
are broadcast; with both implementations of the norm. -/
theorem C96_cauchy_schwarz {qr : QRRoutine} (hqr : qr.Correct) {a b : TT ℝ} (ha : a.WF) (hb : b.WF) (ma : a.ModesPos) (hr : a.rawShape = b.rawShape)
    (hbatch : BCompat a.batch b.batch) (da db : Bool) :
    ∃ F N M, flatInner a b = Except.ok F ∧ frobeniusNormSquared qr a da = Except.ok N ∧ frobeniusNormSquared qr b db = Except.ok M ∧
      ∀ o < (bcast a.batch b.batch).getD 1,
        F.get (bsel (squeezed (bcast a.batch b.batch)) o) ^ 2 ≤ N.get (bsel a.batch o) * M.get (bsel b.batch o) := by
  have mb : b.ModesPos := by unfold TT.ModesPos; rw [← hr]; exact ma
  obtain ⟨F, A, B, s, eF, eA, eB, sA, sB, -, vF⟩ := C11_flat_inner a b ha hb hr hbatch
  obtain ⟨N, eN, -, vN⟩ := norm_items hqr ha ma da eA
  obtain ⟨M, eM, -, vM⟩ := norm_items hqr hb mb db eB
  obtain ⟨A', eA', sA', -⟩ := full_ok ha
  obtain rfl : A' = A := Except.ok.inj (eA'.symm.trans eA)
  obtain rfl : s = restShape a.rawShape := List.append_cancel_left (sA.symm.trans sA')
  refine ⟨F, N, M, eF, eN, eM, fun o ho => ?_⟩
  obtain ⟨h1, h2⟩ := bsel_item hbatch ho
  rw [vF o ho, vN _ h1, vM _ h2, ← hr]
  exact Finset.sum_mul_sq_le_sq_mul_sq _ _ _

example : (∃ qr : QRRoutine, qr.Correct) ∧ exPair2.toReal.WF ∧ exEye2.toReal.WF ∧ exPair2.toReal.ModesPos ∧
    exPair2.toReal.rawShape = exEye2.toReal.rawShape ∧ BCompat exPair2.toReal.batch exEye2.toReal.batch :=
  ⟨qrRoutine_exists, TT.WF.toReal (by decide), exEye2_wf, by simp [TT.ModesPos, TT.toReal, exPair2], rfl, trivial⟩

theorem addBatches_self (b : Option ℕ) : AddBatches b b := by
  rcases b with _ | n
  · exact Or.inl ⟨rfl, rfl⟩
  · exact Or.inr (Or.inl ⟨n, rfl, rfl⟩)

theorem batch_of_shape {a c : TT ℝ} (ha : a.WF) (hc : c.WF) (hr : c.rawShape = a.rawShape) {A C : Tensor ℝ} (eA : full a = Except.ok A)
    (eC : full c = Except.ok C) (h : C.shape = A.shape) : c.batch = a.batch := by
  obtain ⟨A', eA', sA, -⟩ := full_ok ha
  obtain ⟨C', eC', sC, -⟩ := full_ok hc
  obtain rfl : A' = A := Except.ok.inj (eA'.symm.trans eA)
  obtain rfl : C' = C := Except.ok.inj (eC'.symm.trans eC)
  rw [sA, sC, hr] at h
  have h1 : c.batch.toList = a.batch.toList := List.append_cancel_right h
  revert h1
  rcases c.batch with _ | m <;> rcases a.batch with _ | n <;> simp

theorem full_valid {t : TT ℝ} (h : t.WF) {T : Tensor ℝ} (eT : full t = Except.ok T) : T.shape = t.bpre ++ restShape t.rawShape := by
  obtain ⟨T', eT', sT, -⟩ := full_ok h
  obtain rfl : T' = T := Except.ok.inj (eT'.symm.trans eT)
  exact sT

theorem normSq_add_sub {A B C D : Tensor ℝ} {p s : List ℕ} (hC : ∀ i, Valid s i → C.get (p ++ i) = A.get (p ++ i) + B.get (p ++ i))
    (hD : ∀ i, Valid s i → D.get (p ++ i) = A.get (p ++ i) - B.get (p ++ i)) :
    C.normSq p s + D.normSq p s = 2 * A.normSq p s + 2 * B.normSq p s := by
  unfold Tensor.normSq
  rw [Finset.mul_sum, Finset.mul_sum, ← Finset.sum_add_distrib, ← Finset.sum_add_distrib]
  refine Finset.sum_congr rfl fun n hn => ?_
  have hv := unravel_valid (Finset.mem_range.1 hn)
  rw [hC _ hv, hD _ hv]
  ring

theorem normSq_add {A B C : Tensor ℝ} {p s : List ℕ} (hC : ∀ i, Valid s i → C.get (p ++ i) = A.get (p ++ i) + B.get (p ++ i)) :
    C.normSq p s = A.normSq p s + 2 * ∑ n ∈ Finset.range s.prod, A.get (p ++ unravel s n) * B.get (p ++ unravel s n) + B.normSq p s := by
  unfold Tensor.normSq
  rw [Finset.mul_sum, ← Finset.sum_add_distrib, ← Finset.sum_add_distrib]
  refine Finset.sum_congr rfl fun n hn => ?_
  have hv := unravel_valid (Finset.mem_range.1 hn)
  rw [hC _ hv]
  ring

theorem triangle_eps {x y z u v w ip eps : ℝ} (he : 0 ≤ eps) (hu : 0 ≤ u) (hv : 0 ≤ v) (u2 : u ^ 2 = x + eps) (v2 : v ^ 2 = y + eps)
    (hz : z = x + 2 * ip + y) (hip : ip ^ 2 ≤ x * y) (hxy : 0 ≤ x + y) (w2 : w ^ 2 = z + eps) : w ≤ u + v := by
  refine le_of_sq_le_sq ?_ (by linarith)
  have h1 : ip ≤ u * v := by
    refine le_of_sq_le_sq ?_ (by positivity)
    rw [mul_pow, u2, v2]
    nlinarith
  nlinarith
where
  le_of_sq_le_sq {a b : ℝ} (h : a ^ 2 ≤ b ^ 2) (hb : 0 ≤ b) : a ≤ b := abs_le_of_sq_le_sq' h hb |>.2

/-- **C96.** For objects of the same shape and batch size: `‖a + b‖² = ‖a‖² + 2 flat_inner(a, b) + ‖b‖²`, the parallelogram law
`‖a + b‖² + ‖a - b‖² = 2 ‖a‖² + 2 ‖b‖²`, and the triangle inequality for `frobenius_norm` with any `epsilon`. -/
theorem C96_add {qr : QRRoutine} (hqr : qr.Correct) {a b : TT ℝ} (ha : a.WF) (hb : b.WF) (ma : a.ModesPos) (hd : 2 ≤ a.ndims)
    (hr : a.rawShape = b.rawShape) (hbatch : a.batch = b.batch) (dif : Bool) {eps : ℝ} (he : 0 ≤ eps) :
    ∃ c d F Na Nb Nc Nd Ra Rb Rc, add a b = Except.ok c ∧ sub a b = Except.ok d ∧ flatInner a b = Except.ok F ∧
      frobeniusNormSquared qr a dif = Except.ok Na ∧ frobeniusNormSquared qr b dif = Except.ok Nb ∧
      frobeniusNormSquared qr c dif = Except.ok Nc ∧ frobeniusNormSquared qr d dif = Except.ok Nd ∧
      frobeniusNorm qr a eps dif = Except.ok Ra ∧ frobeniusNorm qr b eps dif = Except.ok Rb ∧ frobeniusNorm qr c eps dif = Except.ok Rc ∧
      ∀ o < a.batch.getD 1, let p := bsel a.batch o
        Nc.get p = Na.get p + 2 * F.get (bsel (squeezed a.batch) o) + Nb.get p ∧ Nc.get p + Nd.get p = 2 * Na.get p + 2 * Nb.get p ∧
        Rc.get p ≤ Ra.get p + Rb.get p := by
  have mb : b.ModesPos := by unfold TT.ModesPos; rw [← hr]; exact ma
  have hcb : BCompat a.batch b.batch := by
    rw [← hbatch]
    rcases a.batch with _ | n
    · trivial
    · exact Or.inl rfl
  have hbc : bcast a.batch b.batch = a.batch := by
    rw [← hbatch]
    rcases a.batch with _ | n
    · rfl
    · simp only [bcast, ite_self]
  obtain ⟨c, A, B, C, S, ec, wc, rc, eA, eB, eC, eS, hS, -⟩ := C04_add a b ha hb hd hr (hbatch ▸ addBatches_self _)
  obtain ⟨d, A', B', D, S', ed, wd, rd, eA', eB', eD, eS', hS'⟩ := C06_sub a b ha hb hd hr (hbatch ▸ addBatches_self _)
  obtain rfl : A' = A := Except.ok.inj (eA'.symm.trans eA)
  obtain rfl : B' = B := Except.ok.inj (eB'.symm.trans eB)
  have sA := full_valid ha eA
  have sB : B'.shape = A'.shape := by rw [full_valid hb eB, sA, ← hr, TT.bpre, TT.bpre, hbatch]
  obtain ⟨s1, v1⟩ := binop_equal sB eS
  obtain ⟨s2, v2⟩ := binop_equal sB eS'
  have bc := batch_of_shape ha wc rc eA eC (by rw [hS.1, s1])
  have bd := batch_of_shape ha wd rd eA eD (by rw [hS'.1, s2])
  have mc : c.ModesPos := by unfold TT.ModesPos; rw [rc]; exact ma
  have md : d.ModesPos := by unfold TT.ModesPos; rw [rd]; exact ma
  obtain ⟨F, A'', B'', s, eF, eA'', eB'', sA'', -, -, vF⟩ := C11_flat_inner a b ha hb hr hcb
  obtain rfl : A'' = A' := Except.ok.inj (eA''.symm.trans eA)
  obtain rfl : B'' = B' := Except.ok.inj (eB''.symm.trans eB)
  obtain rfl : s = restShape a.rawShape := List.append_cancel_left (sA''.symm.trans sA)
  obtain ⟨Na, eNa, -, vNa⟩ := norm_items hqr ha ma dif eA
  obtain ⟨Nb, eNb, -, vNb⟩ := norm_items hqr hb mb dif eB
  obtain ⟨Nc, eNc, -, vNc⟩ := norm_items hqr wc mc dif eC
  obtain ⟨Nd, eNd, -, vNd⟩ := norm_items hqr wd md dif eD
  obtain ⟨Ra, eRa, -, vRa⟩ := norm_eps hqr ha ma he dif eA
  obtain ⟨Rb, eRb, -, vRb⟩ := norm_eps hqr hb mb he dif eB
  obtain ⟨Rc, eRc, -, vRc⟩ := norm_eps hqr wc mc he dif eC
  refine ⟨c, d, F, Na, Nb, Nc, Nd, Ra, Rb, Rc, ec, ed, eF, eNa, eNb, eNc, eNd, eRa, eRb, eRc, fun o ho => ?_⟩
  intro p
  obtain ⟨h1, h2⟩ := bsel_item hcb (o := o) (by rw [hbc]; exact ho)
  have hpb : Valid b.bpre p := by rw [TT.bpre, ← hbatch]; exact h1
  have hpc : Valid c.bpre p := by rw [TT.bpre, bc]; exact h1
  have hpd : Valid d.bpre p := by rw [TT.bpre, bd]; exact h1
  have vF := vF o (by rw [hbc]; exact ho)
  rw [hbc, ← hbatch] at vF
  have gC : ∀ i, Valid (restShape a.rawShape) i → C.get (p ++ i) = A''.get (p ++ i) + B''.get (p ++ i) := by
    intro i hi
    have hv : Valid A''.shape (p ++ i) := by rw [sA]; exact valid_append h1 hi
    rw [hS.2 _ (by rw [hS.1, s1]; exact hv), v1 _ hv]
  have gD : ∀ i, Valid (restShape a.rawShape) i → D.get (p ++ i) = A''.get (p ++ i) - B''.get (p ++ i) := by
    intro i hi
    have hv : Valid A''.shape (p ++ i) := by rw [sA]; exact valid_append h1 hi
    rw [hS'.2 _ (by rw [hS'.1, s2]; exact hv), v2 _ hv]
  have e1 := normSq_add gC
  have e2 := normSq_add_sub gC gD
  have cs : (∑ n ∈ Finset.range (restShape a.rawShape).prod, A''.get (p ++ unravel (restShape a.rawShape) n) * B''.get (p ++ unravel (restShape a.rawShape) n)) ^ 2 ≤
      A''.normSq p (restShape a.rawShape) * B''.normSq p (restShape a.rawShape) := Finset.sum_mul_sq_le_sq_mul_sq _ _ _
  refine ⟨?_, ?_, ?_⟩
  · rw [vNc p hpc, vNa p h1, vNb p hpb, vF, rc, ← hr]; exact e1
  · rw [vNc p hpc, vNd p hpd, vNa p h1, vNb p hpb, rc, rd, ← hr]; exact e2
  · obtain ⟨ha0, ha2⟩ := vRa p h1
    obtain ⟨hb0, hb2⟩ := vRb p hpb
    obtain ⟨hc0, hc2⟩ := vRc p hpc
    rw [rc] at hc2
    rw [← hr] at hb2
    exact triangle_eps he ha0 hb0 ha2 hb2 e1 cs (add_nonneg (Finset.sum_nonneg fun _ _ => sq_nonneg _) (Finset.sum_nonneg fun _ _ => sq_nonneg _)) hc2

example : exPair2.toReal.WF ∧ exPair2.toReal.ModesPos ∧ 2 ≤ exPair2.toReal.ndims ∧ exPair2.toReal.batch.getD 1 = 2 ∧ (0 : ℝ) ≤ 1 / 100000 :=
  ⟨TT.WF.toReal (by decide), by simp [TT.ModesPos, TT.toReal, exPair2], by simp [TT.ndims, TT.toReal, exPair2], rfl, by norm_num⟩

/-- **C96.** `‖A B‖ ≤ ‖A‖ ‖B‖` for the product of TT-matrices. -/
theorem C96_matmul {qr : QRRoutine} (hqr : qr.Correct) {a b : TT ℝ} (ha : a.WF) (hb : b.WF) (ma : a.ModesPos) (mb : b.ModesPos) {I J L : List ℕ}
    (hra : a.rawShape = [I, J]) (hrb : b.rawShape = [J, L]) (h1 : a.batch = none) (h2 : b.batch = none) (dif : Bool) :
    ∃ c Na Nb Nc, ttTTMatmul a b = Except.ok c ∧ frobeniusNormSquared qr a dif = Except.ok Na ∧ frobeniusNormSquared qr b dif = Except.ok Nb ∧
      frobeniusNormSquared qr c dif = Except.ok Nc ∧ Nc.get [] ≤ Na.get [] * Nb.get [] := by
  obtain ⟨c, A, B, C, S, e, wc, rc, bc, eA, eB, eC, eS, hS⟩ := C09_matmul_single a b ha hb I J L hra hrb h1 h2
  have sA : A.shape = [I.prod, J.prod] := by rw [full_valid ha eA, bpre_none h1, hra]; rfl
  have sB : B.shape = [J.prod, L.prod] := by rw [full_valid hb eB, bpre_none h2, hrb]; rfl
  obtain ⟨S', eS', sS, vS⟩ := matmul2 A B _ _ _ sA sB
  obtain rfl : S' = S := Except.ok.inj (eS'.symm.trans eS)
  have mc : c.ModesPos := by
    intro row hrow n hn
    rw [rc] at hrow
    simp only [List.mem_cons, List.not_mem_nil, or_false] at hrow
    rcases hrow with rfl | rfl
    · exact ma _ (by rw [hra]; simp) n hn
    · exact mb _ (by rw [hrb]; simp) n hn
  obtain ⟨Na, eNa, -, vNa⟩ := norm_items hqr ha ma dif eA
  obtain ⟨Nb, eNb, -, vNb⟩ := norm_items hqr hb mb dif eB
  obtain ⟨Nc, eNc, -, vNc⟩ := norm_items hqr wc mc dif eC
  refine ⟨c, Na, Nb, Nc, e, eNa, eNb, eNc, ?_⟩
  rw [vNa [] (by rw [bpre_none h1]; trivial), vNb [] (by rw [bpre_none h2]; trivial), vNc [] (by rw [bpre_none bc]; trivial), hra, hrb, rc]
  have key : ∀ (X : Tensor ℝ) (P Q : List ℕ), X.normSq [] (restShape [P, Q]) = ∑ x ∈ Finset.range P.prod, ∑ y ∈ Finset.range Q.prod, X.get [x, y] ^ 2 :=
    fun X P Q => sum_mode2 P.prod Q.prod fun i => X.get i ^ 2
  rw [key, key, key]
  calc ∑ x ∈ Finset.range I.prod, ∑ y ∈ Finset.range L.prod, C.get [x, y] ^ 2
      ≤ ∑ x ∈ Finset.range I.prod, ∑ y ∈ Finset.range L.prod, (∑ z ∈ Finset.range J.prod, A.get [x, z] ^ 2) * ∑ z ∈ Finset.range J.prod, B.get [z, y] ^ 2 := by
        refine Finset.sum_le_sum fun x hx => Finset.sum_le_sum fun y hy => ?_
        have hv : Valid [I.prod, L.prod] [x, y] := ⟨Finset.mem_range.1 hx, Finset.mem_range.1 hy, trivial⟩
        rw [hS.2 _ (by rw [hS.1, sS]; exact hv), vS]
        exact Finset.sum_mul_sq_le_sq_mul_sq _ _ _
    _ = (∑ x ∈ Finset.range I.prod, ∑ z ∈ Finset.range J.prod, A.get [x, z] ^ 2) * ∑ y ∈ Finset.range L.prod, ∑ z ∈ Finset.range J.prod, B.get [z, y] ^ 2 := by
        rw [Finset.sum_mul_sum]
    _ = _ := by rw [Finset.sum_comm (s := Finset.range L.prod)]

example : exKron.toReal.WF ∧ exKron.toReal.ModesPos ∧ exKron.toReal.batch = none ∧ exKron.toReal.rawShape = [[2, 2], [2, 2]] :=
  ⟨TT.WF.toReal (by decide), by simp [TT.ModesPos, TT.toReal, exKron], rfl, rfl⟩

/-- **C96.** The elementwise product satisfies `‖a * b‖ ≤ ‖a‖ ‖b‖`, in every batch item. -/
theorem C96_multiply {qr : QRRoutine} (hqr : qr.Correct) {a b : TT ℝ} (ha : a.WF) (hb : b.WF) (ma : a.ModesPos) (hr : a.rawShape = b.rawShape)
    (hbatch : a.batch = b.batch) (dif : Bool) :
    ∃ c Na Nb Nc, multiply a b = Except.ok c ∧ frobeniusNormSquared qr a dif = Except.ok Na ∧ frobeniusNormSquared qr b dif = Except.ok Nb ∧
      frobeniusNormSquared qr c dif = Except.ok Nc ∧ Nc.shape = a.batch.toList ∧ ∀ p, Valid a.batch.toList p → Nc.get p ≤ Na.get p * Nb.get p := by
  have mb : b.ModesPos := by unfold TT.ModesPos; rw [← hr]; exact ma
  have hcb : BCompat a.batch b.batch := by
    rw [← hbatch]
    rcases a.batch with _ | n
    · trivial
    · exact Or.inl rfl
  obtain ⟨c, A, B, C, S, ec, wc, rc, -, eA, eB, eC, eS, hS, -⟩ := C07_multiply a b ha hb hr hcb ma
  have sA := full_valid ha eA
  have sB : B.shape = A.shape := by rw [full_valid hb eB, sA, ← hr, TT.bpre, TT.bpre, hbatch]
  obtain ⟨s1, v1⟩ := binop_equal sB eS
  have bc := batch_of_shape ha wc rc eA eC (by rw [hS.1, s1])
  have mc : c.ModesPos := by unfold TT.ModesPos; rw [rc]; exact ma
  obtain ⟨Na, eNa, -, vNa⟩ := norm_items hqr ha ma dif eA
  obtain ⟨Nb, eNb, -, vNb⟩ := norm_items hqr hb mb dif eB
  obtain ⟨Nc, eNc, sNc, vNc⟩ := norm_items hqr wc mc dif eC
  refine ⟨c, Na, Nb, Nc, ec, eNa, eNb, eNc, by rw [sNc, TT.bpre, bc], fun p hp => ?_⟩
  rw [vNa p hp, vNb p (by rw [TT.bpre, ← hbatch]; exact hp), vNc p (by rw [TT.bpre, bc]; exact hp), rc, ← hr]
  unfold Tensor.normSq
  rw [Finset.sum_mul]
  refine Finset.sum_le_sum fun n hn => ?_
  have hv : Valid A.shape (p ++ unravel (restShape a.rawShape) n) := by rw [sA]; exact valid_append hp (unravel_valid (Finset.mem_range.1 hn))
  rw [hS.2 _ (by rw [hS.1, s1]; exact hv), v1 _ hv, mul_pow]
  exact mul_le_mul_of_nonneg_left
    (Finset.single_le_sum (f := fun n => B.get (p ++ unravel (restShape a.rawShape) n) ^ 2) (fun _ _ => sq_nonneg _) hn) (sq_nonneg _)

/-- **C96.** `transpose` keeps the norm, in every batch item. -/
theorem C96_transpose {qr : QRRoutine} (hqr : qr.Correct) {a : TT ℝ} (ha : a.WF) (ma : a.ModesPos) {I J : List ℕ} (hra : a.rawShape = [I, J])
    (dif dif' : Bool) : ∃ c N M, ttTranspose a = Except.ok c ∧ frobeniusNormSquared qr a dif = Except.ok N ∧
      frobeniusNormSquared qr c dif' = Except.ok M ∧ M ≃ₜ N := by
  obtain ⟨c, A, C, e, wc, rc, bc, -, eA, eC, sA, sC, v⟩ := C14_transpose a ha I J hra
  have mc : c.ModesPos := by
    intro row hrow n hn
    rw [rc] at hrow
    exact ma row (by rw [hra]; simp only [List.mem_cons, List.not_mem_nil, or_false] at hrow ⊢; exact hrow.symm) n hn
  obtain ⟨N, eN, sN, vN⟩ := norm_items hqr ha ma dif eA
  obtain ⟨M, eM, sM, vM⟩ := norm_items hqr wc mc dif' eC
  have hp : c.bpre = a.bpre := by rw [TT.bpre, TT.bpre, bc]
  refine ⟨c, N, M, e, eN, eM, by rw [sN, sM, hp], fun p hv => ?_⟩
  rw [sM] at hv
  rw [vM p hv, vN p (hp ▸ hv), rc, hra]
  have h1 : C.normSq p (restShape [J, I]) = ∑ y ∈ Finset.range J.prod, ∑ x ∈ Finset.range I.prod, C.get (p ++ [y, x]) ^ 2 :=
    sum_mode2 J.prod I.prod fun i => C.get (p ++ i) ^ 2
  have h2 : A.normSq p (restShape [I, J]) = ∑ x ∈ Finset.range I.prod, ∑ y ∈ Finset.range J.prod, A.get (p ++ [x, y]) ^ 2 :=
    sum_mode2 I.prod J.prod fun i => A.get (p ++ i) ^ 2
  rw [h1, h2, Finset.sum_comm]
  exact Finset.sum_congr rfl fun x hx => Finset.sum_congr rfl fun y hy => by
    rw [v p x y (hp ▸ hv) (Finset.mem_range.1 hx) (Finset.mem_range.1 hy)]

/-- **C96.** `transpose` is the adjoint: `flat_inner(A B, C) = flat_inner(B, transpose(A) C)`, and `bilinear_form(A, b, c) = flat_inner(b, A c)`. -/
theorem C96_adjoint {a b c : TT ℝ} (ha : a.WF) (hb : b.WF) (hc : c.WF) {I J L : List ℕ}
    (hra : a.rawShape = [I, J]) (hrb : b.rawShape = [J, L]) (hrc : c.rawShape = [I, L]) (h1 : a.batch = none) (h2 : b.batch = none) (h3 : c.batch = none) :
    ∃ ab at' ac F G H, ttTTMatmul a b = Except.ok ab ∧ ttTranspose a = Except.ok at' ∧ ttTTMatmul at' c = Except.ok ac ∧
      flatInner ab c = Except.ok F ∧ flatInner b ac = Except.ok G ∧ bilinearForm a c b = Except.ok H ∧
      F.get [] = G.get [] ∧ H.get [] = F.get [] := by
  obtain ⟨ab, A, B, C, S, e, w, r, bt, eA, eB, eC, eS, hS⟩ := C09_matmul_single a b ha hb I J L hra hrb h1 h2
  obtain ⟨a', A', T, et, wt, rt, bt', -, eA', eT, sA', sT, vT⟩ := C14_transpose a ha I J hra
  obtain rfl : A' = A := Except.ok.inj (eA'.symm.trans eA)
  obtain ⟨ac, T', X, Y, S', e', w', r', b', eT', eX, eY, eS', hS'⟩ := C09_matmul_single a' c wt hc J I L rt hrc (bt'.trans h1) h3
  obtain rfl : T' = T := Except.ok.inj (eT'.symm.trans eT)
  obtain ⟨F, C', X', s, eF, eC', eX', sC', -, -, vF⟩ := C11_flat_inner ab c w hc (by rw [r, hrc]) (by rw [bt, h3]; trivial)
  obtain rfl : C' = C := Except.ok.inj (eC'.symm.trans eC)
  obtain rfl : X' = X := Except.ok.inj (eX'.symm.trans eX)
  obtain ⟨G, B', Y', s', eG, eB', eY', sB', -, -, vG⟩ := C11_flat_inner b ac hb w' (by rw [r', hrb]) (by rw [h2, b']; trivial)
  obtain rfl : B' = B := Except.ok.inj (eB'.symm.trans eB)
  obtain rfl : Y' = Y := Except.ok.inj (eY'.symm.trans eY)
  obtain ⟨H, A'', X'', B'', eH, eA'', eX'', eB'', -, vH⟩ := C15_bilinear_form a c b ha hc hb I J L hra hrc hrb h1 (by rw [h2, h3])
  obtain rfl : A'' = A' := Except.ok.inj (eA''.symm.trans eA)
  obtain rfl : X'' = X' := Except.ok.inj (eX''.symm.trans eX)
  obtain rfl : B'' = B' := Except.ok.inj (eB''.symm.trans eB)
  have sA : A''.shape = [I.prod, J.prod] := by rw [full_valid ha eA, bpre_none h1, hra]; rfl
  have sT2 : T'.shape = [J.prod, I.prod] := by rw [sT, bpre_none h1]; rfl
  have sB : B''.shape = [J.prod, L.prod] := by rw [full_valid hb eB, bpre_none h2, hrb]; rfl
  have sX : X''.shape = [I.prod, L.prod] := by rw [full_valid hc eX, bpre_none h3, hrc]; rfl
  have sC : C'.shape = [I.prod, L.prod] := by rw [full_valid w eC, bpre_none bt, r]; rfl
  obtain ⟨S1, eS1, sS1, vS1⟩ := matmul2 A'' B'' _ _ _ sA sB
  obtain rfl : S1 = S := Except.ok.inj (eS1.symm.trans eS)
  obtain ⟨S2, eS2, sS2, vS2⟩ := matmul2 T' X'' _ _ _ sT2 sX
  obtain rfl : S2 = S' := Except.ok.inj (eS2.symm.trans eS')
  have hs : s = [I.prod, L.prod] := by rw [bt] at sC'; exact (sC'.symm.trans sC)
  have hs' : s' = [J.prod, L.prod] := by rw [h2] at sB'; exact (sB'.symm.trans sB)
  subst hs; subst hs'
  have vF := vF 0 (by rw [bt, h3]; simp [bcast])
  have vG := vG 0 (by rw [b', h2]; simp [bcast])
  have vH := vH 0 (by rw [h3]; simp)
  rw [bt, h3] at vF
  rw [h2, b'] at vG
  rw [h3] at vH
  have vF : F.get [] = ∑ n ∈ Finset.range [I.prod, L.prod].prod, C'.get (unravel [I.prod, L.prod] n) * X''.get (unravel [I.prod, L.prod] n) := vF
  have vG : G.get [] = ∑ n ∈ Finset.range [J.prod, L.prod].prod, B''.get (unravel [J.prod, L.prod] n) * Y'.get (unravel [J.prod, L.prod] n) := vG
  have vH : H.get [] = ∑ i ∈ Finset.range I.prod, ∑ l ∈ Finset.range L.prod, ∑ j ∈ Finset.range J.prod, X''.get [i, l] * (A''.get [i, j] * B''.get [j, l]) := vH
  rw [sum_mode2 I.prod L.prod fun i => C'.get i * X''.get i] at vF
  rw [sum_mode2 J.prod L.prod fun i => B''.get i * Y'.get i] at vG
  have hF : F.get [] = ∑ i ∈ Finset.range I.prod, ∑ l ∈ Finset.range L.prod, ∑ j ∈ Finset.range J.prod, X''.get [i, l] * (A''.get [i, j] * B''.get [j, l]) := by
    rw [vF]
    refine Finset.sum_congr rfl fun i hi => Finset.sum_congr rfl fun l hl => ?_
    have hv : Valid [I.prod, L.prod] [i, l] := ⟨Finset.mem_range.1 hi, Finset.mem_range.1 hl, trivial⟩
    rw [hS.2 _ (by rw [hS.1, sS1]; exact hv), vS1, mul_comm, Finset.mul_sum]
  have hG : G.get [] = ∑ i ∈ Finset.range I.prod, ∑ l ∈ Finset.range L.prod, ∑ j ∈ Finset.range J.prod, X''.get [i, l] * (A''.get [i, j] * B''.get [j, l]) := by
    rw [vG]
    calc ∑ j ∈ Finset.range J.prod, ∑ l ∈ Finset.range L.prod, B''.get [j, l] * Y'.get [j, l]
        = ∑ j ∈ Finset.range J.prod, ∑ l ∈ Finset.range L.prod, ∑ i ∈ Finset.range I.prod, X''.get [i, l] * (A''.get [i, j] * B''.get [j, l]) := by
          refine Finset.sum_congr rfl fun j hj => Finset.sum_congr rfl fun l hl => ?_
          have hv : Valid [J.prod, L.prod] [j, l] := ⟨Finset.mem_range.1 hj, Finset.mem_range.1 hl, trivial⟩
          rw [hS'.2 _ (by rw [hS'.1, sS2]; exact hv), vS2, Finset.mul_sum]
          refine Finset.sum_congr rfl fun i hi => ?_
          have := vT [] i j (by rw [bpre_none h1]; trivial) (Finset.mem_range.1 hi) (Finset.mem_range.1 hj)
          simp only [List.nil_append] at this
          rw [this]; ring
      _ = _ := by
          rw [Finset.sum_comm]
          rw [Finset.sum_comm (s := Finset.range I.prod)]
          refine Finset.sum_congr rfl fun l _ => ?_
          rw [Finset.sum_comm]
  exact ⟨ab, a', ac, F, G, H, e, et, e', eF, eG, eH, by rw [hF, hG], by rw [vH, hF]⟩

/-- **C96.** `gram_matrix` is positive semidefinite, and vanishes on `w` only if the combination of the items with the weights `w` does. -/
theorem C96_gram {t : TT ℝ} (h : t.WF) {m : ℕ} (hm : t.batch = some m) :
    ∃ F A s, gramMatrix t = Except.ok F ∧ full t = Except.ok A ∧ A.shape = m :: s ∧ ∀ w : ℕ → ℝ,
      let form := ∑ i ∈ Finset.range m, ∑ j ∈ Finset.range m, w i * w j * F.get (bsel (squeezed (some m)) i ++ bsel (squeezed (some m)) j)
      0 ≤ form ∧ (form = 0 ↔ ∀ k, Valid s k → ∑ i ∈ Finset.range m, w i * A.get (i :: k) = 0) := by
  obtain ⟨F, A, s, eF, eA, sA, -, v, -⟩ := C23_gram_matrix t h m hm
  refine ⟨F, A, s, eF, eA, sA, fun w => ?_⟩
  intro form
  have key : form = ∑ k ∈ Finset.range s.prod, (∑ i ∈ Finset.range m, w i * A.get (i :: unravel s k)) ^ 2 := by
    have h1 : ∀ k, (∑ i ∈ Finset.range m, w i * A.get (i :: unravel s k)) ^ 2 =
        ∑ i ∈ Finset.range m, ∑ j ∈ Finset.range m, w i * w j * (A.get (i :: unravel s k) * A.get (j :: unravel s k)) := by
      intro k
      rw [sq, Finset.sum_mul_sum]
      exact Finset.sum_congr rfl fun i _ => Finset.sum_congr rfl fun j _ => by ring
    simp only [h1]
    rw [Finset.sum_comm]
    refine Finset.sum_congr rfl fun i hi => ?_
    rw [Finset.sum_comm]
    refine Finset.sum_congr rfl fun j hj => ?_
    rw [v i j (Finset.mem_range.1 hi) (Finset.mem_range.1 hj), Finset.mul_sum]
  rw [key]
  refine ⟨Finset.sum_nonneg fun _ _ => sq_nonneg _, ?_⟩
  rw [Finset.sum_eq_zero_iff_of_nonneg fun _ _ => sq_nonneg _]
  constructor
  · intro h0 k hk
    have := h0 _ (Finset.mem_range.2 (ravel_lt hk))
    rw [unravel_ravel hk] at this
    exact pow_eq_zero_iff two_ne_zero |>.1 this
  · intro h0 k hk
    rw [h0 _ (unravel_valid (Finset.mem_range.1 hk))]; simp

example : exPair2.toReal.WF ∧ exPair2.toReal.batch = some 2 := ⟨TT.WF.toReal (by decide), rfl⟩

end T3f
