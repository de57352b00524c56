import Verif.Model.Losses
import Verif.Props.C43Autodiff
import Verif.Props.C09Matmul
import Verif.Props.C11Inner
import Verif.Proofs.Descent

/-! # Quadratic functions and their derivatives -/

namespace T3f

/-- A symmetric linear operator on tensors of shape `s`. -/
structure SymOp (s : List ℕ) (B : (List ℕ → ℝ) → List ℕ → ℝ) : Prop where
  lin : ∀ f g (t : ℝ), ∀ i, B (fun j => f j + t * g j) i = B f i + t * B g i
  symm : ∀ f g, dot s f (B g) = dot s (B f) g
  congr : ∀ f g, (∀ i, Valid s i → f i = g i) → ∀ i, Valid s i → B f i = B g i

theorem dot_line (s : List ℕ) (f g h : List ℕ → ℝ) (t : ℝ) : dot s (fun i => f i + t * g i) h = dot s f h + t * dot s g h := by
  rw [dot_comm, dot_add, dot_smul, dot_comm h f, dot_comm h g]

theorem dot_line' (s : List ℕ) (f g h : List ℕ → ℝ) (t : ℝ) : dot s h (fun i => f i + t * g i) = dot s h f + t * dot s h g := by
  rw [dot_add, dot_smul]

/-- A quadratic function. -/
noncomputable def quad (s : List ℕ) (B : (List ℕ → ℝ) → List ℕ → ℝ) (b : List ℕ → ℝ) (c : ℝ) (f : List ℕ → ℝ) : ℝ :=
  1 / 2 * dot s f (B f) + dot s b f + c

variable {s : List ℕ} {B : (List ℕ → ℝ) → List ℕ → ℝ} {b : List ℕ → ℝ} {c : ℝ}

theorem quad_ext (hB : SymOp s B) (f g : List ℕ → ℝ) (h : ∀ i, Valid s i → f i = g i) : quad s B b c f = quad s B b c g := by
  unfold quad
  rw [dot_congr h (hB.congr f g h), dot_congr (f := b) (fun _ _ => rfl) h]

theorem quad_grad (hB : SymOp s B) (X : List ℕ → ℝ) : GradAt s (quad s B b c) X (fun i => B X i + b i) := fun e => by
  have h0 : (fun t : ℝ => quad s B b c (fun i => X i + t * e i)) =
      fun t => (quad s B b c X + t * dot s (fun i => B X i + b i) e) + t * t * (1 / 2 * dot s e (B e)) := by
    funext t
    unfold quad
    have h1 : B (fun i => X i + t * e i) = fun i => B X i + t * B e i := funext fun i => hB.lin X e t i
    rw [h1, dot_line', dot_line', dot_line, dot_line, hB.symm X e, dot_comm (fun i => B X i + b i) e, dot_add, dot_comm e (B X), dot_comm e b]
    ring
  rw [h0]
  have h1 : HasDerivAt (fun t : ℝ => quad s B b c X + t * dot s (fun i => B X i + b i) e) (dot s (fun i => B X i + b i) e) 0 := by
    simpa using ((hasDerivAt_id (0 : ℝ)).mul_const (dot s (fun i => B X i + b i) e)).const_add (quad s B b c X)
  have h2 : HasDerivAt (fun t : ℝ => t * t * (1 / 2 * dot s e (B e))) 0 0 := by
    simpa using ((hasDerivAt_id (0 : ℝ)).mul (hasDerivAt_id (0 : ℝ))).mul_const (1 / 2 * dot s e (B e))
  have h3 := h1.add h2
  rw [add_zero] at h3
  exact h3

theorem quad_hess (hB : SymOp s B) (X : List ℕ → ℝ) : HessAt s (quad s B b c) (fun f i => B f i + b i) X B where
  near e := Filter.Eventually.of_forall fun t => quad_grad hB _
  hess v e := by
    have : (fun t : ℝ => dot s (fun i => B (fun i => X i + t * e i) i + b i) v) =
        fun t => dot s (fun i => B X i + b i) v + t * dot s (B v) e := by
      funext t
      rw [dot_comm, dot_add, dot_comm (fun i => B X i + b i) v, dot_add,
        dot_congr (f := v) (g' := fun i => B X i + t * B e i) (fun _ _ => rfl) (fun i _ => hB.lin X e t i), dot_line', hB.symm v e]
      ring
    rw [this]
    simpa using ((hasDerivAt_id (0 : ℝ)).mul_const (dot s (B v) e)).const_add (dot s (fun i => B X i + b i) v)

/-! ### The operators -/

theorem symOp_id (s : List ℕ) : SymOp s (fun f => f) where
  lin _ _ _ _ := rfl
  symm _ _ := rfl
  congr _ _ h := h

theorem symOp_outer (s : List ℕ) (w : List ℕ → ℝ) : SymOp s (fun f i => dot s f w * w i) where
  lin f g t i := by rw [dot_line]; ring
  symm f g := by
    rw [dot_smul, dot_comm (fun i => dot s f w * w i) g, dot_smul]
    ring
  congr f g h i _ := by rw [dot_congr h (g := w) (fun _ _ => rfl)]

theorem dot_matrix (N M : ℕ) (f g : List ℕ → ℝ) :
    dot [N, M] f g = ∑ i ∈ Finset.range N, ∑ l ∈ Finset.range M, f [i, l] * g [i, l] := by
  unfold dot
  rw [show [N, M].prod = N * M by simp, sum_range_mul]
  refine Finset.sum_congr rfl fun i hi => Finset.sum_congr rfl fun l hl => ?_
  have hl := Finset.mem_range.1 hl
  have hi := Finset.mem_range.1 hi
  have : unravel [N, M] (i * M + l) = [i, l] := by
    have := unravel_ravel (s := [N, M]) (i := [i, l]) ⟨hi, hl, trivial⟩
    rw [← this]
    congr 1
    simp [ravel]
  rw [this]

/-- The product of the symmetric matrix `A + Aᵀ` and a matrix. -/
def symMul (N : ℕ) (A : ℕ → ℕ → ℝ) (f : List ℕ → ℝ) (i : List ℕ) : ℝ :=
  ∑ j ∈ Finset.range N, (A j (i.getD 0 0) + A (i.getD 0 0) j) * f [j, i.getD 1 0]

theorem symOp_mul (N M : ℕ) (A : ℕ → ℕ → ℝ) : SymOp [N, M] (symMul N A) where
  lin f g t i := by
    unfold symMul
    rw [Finset.mul_sum, ← Finset.sum_add_distrib]
    exact Finset.sum_congr rfl fun j _ => by ring
  symm f g := by
    rw [dot_matrix, dot_matrix]
    simp only [symMul, List.getD_cons_zero, List.getD_cons_succ, Finset.mul_sum, Finset.sum_mul]
    calc _ = ∑ i ∈ Finset.range N, ∑ j ∈ Finset.range N, ∑ l ∈ Finset.range M, f [i, l] * ((A j i + A i j) * g [j, l]) :=
          Finset.sum_congr rfl fun i _ => Finset.sum_comm
      _ = ∑ j ∈ Finset.range N, ∑ i ∈ Finset.range N, ∑ l ∈ Finset.range M, f [i, l] * ((A j i + A i j) * g [j, l]) := Finset.sum_comm
      _ = _ := Finset.sum_congr rfl fun j _ => by
          rw [Finset.sum_comm]
          exact Finset.sum_congr rfl fun l _ => Finset.sum_congr rfl fun i _ => by ring
  congr f g h i hi := by
    obtain ⟨x, y, rfl, hx, hy⟩ := (valid_pair _ _ _).1 hi
    refine Finset.sum_congr rfl fun j hj => ?_
    exact congrArg (_ * ·) (h [j, y] ⟨Finset.mem_range.1 hj, hy, trivial⟩)

/-- Half of the quadratic form of `A + Aᵀ` is the quadratic form of `A`. -/
theorem symMul_quad (N M : ℕ) (A : ℕ → ℕ → ℝ) (f : List ℕ → ℝ) :
    1 / 2 * dot [N, M] f (symMul N A f) =
      ∑ i ∈ Finset.range N, ∑ l ∈ Finset.range M, ∑ j ∈ Finset.range N, f [i, l] * (A i j * f [j, l]) := by
  rw [dot_matrix]
  have h1 : ∑ i ∈ Finset.range N, ∑ l ∈ Finset.range M, ∑ j ∈ Finset.range N, f [i, l] * (A i j * f [j, l]) =
      ∑ i ∈ Finset.range N, ∑ l ∈ Finset.range M, ∑ j ∈ Finset.range N, f [i, l] * (A j i * f [j, l]) := by
    calc _ = ∑ i ∈ Finset.range N, ∑ j ∈ Finset.range N, ∑ l ∈ Finset.range M, f [i, l] * (A i j * f [j, l]) :=
          Finset.sum_congr rfl fun i _ => Finset.sum_comm
      _ = ∑ j ∈ Finset.range N, ∑ i ∈ Finset.range N, ∑ l ∈ Finset.range M, f [i, l] * (A i j * f [j, l]) := Finset.sum_comm
      _ = _ := Finset.sum_congr rfl fun j _ => by
          rw [Finset.sum_comm]
          exact Finset.sum_congr rfl fun l _ => Finset.sum_congr rfl fun i _ => by ring
  have h2 : ∑ i ∈ Finset.range N, ∑ l ∈ Finset.range M, f [i, l] * symMul N A f [i, l] =
      ∑ i ∈ Finset.range N, ∑ l ∈ Finset.range M, ∑ j ∈ Finset.range N, f [i, l] * (A j i * f [j, l]) +
      ∑ i ∈ Finset.range N, ∑ l ∈ Finset.range M, ∑ j ∈ Finset.range N, f [i, l] * (A i j * f [j, l]) := by
    simp only [symMul, List.getD_cons_zero, List.getD_cons_succ, Finset.mul_sum]
    simp only [← Finset.sum_add_distrib]
    exact Finset.sum_congr rfl fun i _ => Finset.sum_congr rfl fun l _ => Finset.sum_congr rfl fun j _ => by ring
  rw [h2, ← h1]
  ring

/-! ### The functions -/

theorem flatInner_dot {a b : TT ℝ} (ha : a.WF) (hb : b.WF) (hr : b.rawShape = a.rawShape) (h1 : a.batch = none) (h2 : b.batch = none) {A B : Tensor ℝ}
    (eA : full a = Except.ok A) (eB : full b = Except.ok B) :
    ∃ T, flatInner a b = Except.ok T ∧ T.shape = [] ∧ T.get [] = dot (restShape a.rawShape) A.get B.get := by
  obtain ⟨T, e, sT, v⟩ := flatInner_spec ha hb hr.symm (by rw [h1, h2]; trivial)
  obtain ⟨A', eA', _, vA⟩ := full_single ha h1
  obtain rfl : A' = A := Except.ok.inj (eA'.symm.trans eA)
  obtain ⟨B', eB', _, vB⟩ := full_single hb h2
  obtain rfl : B' = B := Except.ok.inj (eB'.symm.trans eB)
  have := v 0 (by rw [h1, h2]; exact Nat.one_pos)
  rw [h1, h2] at this sT
  refine ⟨T, e, sT, (show T.get [] = _ from this).trans (Finset.sum_congr rfl fun n hn => ?_)⟩
  have hv := unravel_valid (Finset.mem_range.1 hn)
  rw [vA _ hv, vB _ (by rw [hr]; exact hv), hr]
  rfl

theorem halfSquareInner_element {x w : TT ℝ} (hxb : x.batch = none) (hw : w.WF) (hwb : w.batch = none) (hwr : w.rawShape = x.rawShape) {W : Tensor ℝ}
    (eW : full w = Except.ok W) :
    ElementFunction x (halfSquareInner w) (quad x.dense.shape (fun f i => dot x.dense.shape f W.get * W.get i) (fun _ => 0) 0) where
  ext f g h := quad_ext (symOp_outer _ _) f g h
  value y Y hy hyb hyr eY := by
    obtain ⟨T, e, -, v⟩ := flatInner_dot hy hw (hwr.trans hyr.symm) hyb hwb eY eW
    rw [halfSquareInner, e, R.ok_bind]
    refine congrArg Except.ok ?_
    rw [v, quad, dense_shape_single hxb, hyr, dot_smul]
    have : dot (restShape x.rawShape) (fun _ => 0) Y.get = 0 := by simp [dot]
    rw [this]
    ring

theorem halfDistance_element (qr : QRRoutine) {x w : TT ℝ} (hd : 2 ≤ x.ndims) (h : x.WF) (hxb : x.batch = none) (hw : w.WF) (hwb : w.batch = none)
    (hwr : w.rawShape = x.rawShape) {W : Tensor ℝ} (eW : full w = Except.ok W) :
    ElementFunction x (halfDistance qr w) (quad x.dense.shape (fun f => f) (fun i => - W.get i) (1 / 2 * dot x.dense.shape W.get W.get)) where
  ext f g h := quad_ext (symOp_id _) f g h
  value y Y hy hyb hyr eY := by
    have hyd : 2 ≤ y.ndims := by rw [ndims_eq_of_rawShape hy h hyr]; exact hd
    obtain ⟨c, ec, wc, rc, bc, -, -, vc⟩ := sub_single hy hw hyd (hwr.trans hyr.symm) hyb hwb
    obtain ⟨C, eC, sC, -⟩ := full_single wc bc
    obtain ⟨T, e, -, vT⟩ := frobeniusDiff_spec wc
    have hcp : c.bpre = [] := by simp [TT.bpre, bc]
    have e' : frobeniusNormSquared qr c true = Except.ok T := e
    rw [halfDistance, ec, R.ok_bind, e', R.ok_bind]
    refine congrArg Except.ok ?_
    obtain ⟨C', eC', _, vC⟩ := full_single wc bc
    obtain rfl : C' = C := Except.ok.inj (eC'.symm.trans eC)
    have h1 : T.get [] = dot (restShape x.rawShape) (fun i => Y.get i - W.get i) (fun i => Y.get i - W.get i) := by
      rw [vT [] (by rw [hcp]; trivial), rc, hyr]
      refine Finset.sum_congr rfl fun n hn => ?_
      have hv := unravel_valid (Finset.mem_range.1 hn)
      beta_reduce
      rw [← vc Y W C' eY eW eC _ (by rw [hyr]; exact hv), vC _ (by rw [rc, hyr]; exact hv), rc, hyr]
    rw [h1, quad, dense_shape_single hxb, dot_sub, dot_comm Y.get, dot_comm W.get, dot_sub, dot_sub]
    have h2 : dot (restShape x.rawShape) (fun i => - W.get i) Y.get = - dot (restShape x.rawShape) W.get Y.get := by
      simp [dot, Finset.sum_neg_distrib]
    rw [h2, dot_comm Y.get W.get]
    ring

theorem quadraticLoss_element {x A : TT ℝ} {I L : List ℕ} (hxb : x.batch = none) (hxr : x.rawShape = [I, L]) (hA : A.WF) (hAb : A.batch = none)
    (hAr : A.rawShape = [I, I]) {M : Tensor ℝ} (eM : full A = Except.ok M) :
    ElementFunction x (quadraticLoss A) (quad x.dense.shape (symMul I.prod fun i j => M.get [i, j]) (fun _ => 0) 0) := by
  have hs : x.dense.shape = [I.prod, L.prod] := by rw [dense_shape_single hxb, hxr]; rfl
  rw [hs]
  refine ⟨fun f g h => quad_ext (symOp_mul _ _ _) f g (by rw [hs] at h; exact h), fun y Y hy hyb hyr eY => ?_⟩
  obtain ⟨F, M', Y', Y'', e, eM', eY', eY'', -, vF⟩ := C15_bilinear_form A y y hA hy hy I I L hAr (hyr.trans hxr) (hyr.trans hxr) hAb rfl
  obtain rfl : M' = M := Except.ok.inj (eM'.symm.trans eM)
  obtain rfl : Y' = Y := Except.ok.inj (eY'.symm.trans eY)
  obtain rfl : Y'' = Y' := Except.ok.inj (eY''.symm.trans eY)
  rw [quadraticLoss, e, R.ok_bind]
  refine congrArg Except.ok ?_
  have := vF 0 (by rw [hyb]; exact Nat.one_pos)
  rw [hyb] at this
  rw [show F.get [] = _ from this, quad, symMul_quad]
  have h0 : dot [I.prod, L.prod] (fun _ => 0) Y''.get = 0 := by simp [dot]
  rw [h0, add_zero, add_zero]
  rfl

/-- `matmul(transpose(A) + A, x)`. -/
theorem symMatmul_ok {x A : TT ℝ} {I L : List ℕ} (h : x.WF) (hxb : x.batch = none) (hd : 2 ≤ x.ndims) (hxr : x.rawShape = [I, L]) (hA : A.WF)
    (hAb : A.batch = none) (hAr : A.rawShape = [I, I]) {X M : Tensor ℝ} (eX : full x = Except.ok X) (eM : full A = Except.ok M) :
    ∃ At S z Z, ttTranspose A = Except.ok At ∧ add At A = Except.ok S ∧ ttTTMatmul S x = Except.ok z ∧ z.WF ∧ z.batch = none ∧ z.rawShape = x.rawShape ∧
      full z = Except.ok Z ∧ ∀ i, Valid x.dense.shape i → Z.get i = symMul I.prod (fun i j => M.get [i, j]) X.get i := by
  have hAd : A.ndims = x.ndims := by
    rw [← hA.rows_len I (by simp [hAr]), ← h.rows_len I (by simp [hxr])]
  obtain ⟨At, eAt, wAt, rAt, bAt, nAt, -, vAt⟩ := ttTranspose_spec hA hAr
  have bAt' := bAt.trans hAb
  obtain ⟨S, eS, wS, rS, bS, nS, -, vS⟩ := add_spec wAt hA (by omega) (rAt.trans hAr.symm) (Or.inl ⟨bAt', hAb⟩)
  have bS' : S.bpre = [] := by
    have : bshape At.bpre A.bpre = some [] := by simp [TT.bpre, bAt', hAb, bshape]
    rw [this] at bS
    exact (Option.some.inj bS).symm
  have bS'' : S.batch = none := by
    unfold TT.bpre at bS'
    cases hc : S.batch with
    | none => rfl
    | some n => rw [hc] at bS'; simp at bS'
  have rS' : S.rawShape = [I, I] := rS.trans rAt
  obtain ⟨z, S', X', Z, ez, wz, rz, bz, eS', eX', eZ, -, vZ, -⟩ := C09_matmul S x wS h I I L rS' hxr (by rw [bS'', hxb]; trivial)
  obtain rfl : X' = X := Except.ok.inj (eX'.symm.trans eX)
  have bz' : z.batch = none := by rw [bz, bS'', hxb]; rfl
  refine ⟨At, S, z, Z, eAt, eS, ez, wz, bz', rz.trans hxr.symm, eZ, fun i hi => ?_⟩
  have hs : x.dense.shape = [I.prod, L.prod] := by rw [dense_shape_single hxb, hxr]; rfl
  rw [hs] at hi
  obtain ⟨a, l, rfl, ha, hl⟩ := (valid_pair _ _ _).1 hi
  have := vZ 0 a l (by rw [bS'', hxb]; exact Nat.one_pos) ha hl
  rw [bz', bS'', hxb] at this
  refine (show Z.get [a, l] = _ from this).trans (Finset.sum_congr rfl fun j hj => ?_)
  have hj := Finset.mem_range.1 hj
  obtain ⟨M', eM', -, vM⟩ := full_matrix hA hAr
  obtain rfl : M' = M := Except.ok.inj (eM'.symm.trans eM)
  obtain ⟨S'', eS'', sS, vS'⟩ := full_matrix wS rS'
  obtain rfl : S'' = S' := Except.ok.inj (eS''.symm.trans eS')
  have hAp : A.bpre = [] := by simp [TT.bpre, hAb]
  have e1 := vS' [] a j (by rw [bS']; trivial) ha hj
  have e2 := vM [] j a (by rw [hAp]; trivial) hj ha
  have e3 := vM [] a j (by rw [hAp]; trivial) ha hj
  rw [List.nil_append] at e1 e2 e3
  have hvm : S.ValidModes (mIdx (unravel I a) (unravel I j)) S.ndims := by
    have := validModes_rest wS (i := [a, j]) (by rw [rS']; exact ⟨ha, hj, trivial⟩)
    rw [rS'] at this
    exact this
  have hAtp : At.bpre = [] := by simp [TT.bpre, bAt']
  change S''.get [a, j] * X'.get [j, l] = (M'.get [j, a] + M'.get [a, j]) * X'.get [j, l]
  rw [e1, vS [] _ (by rw [bS']; trivial) hvm, hAtp, hAp, e2, e3]
  have hb0 : bproj [] [] = ([] : List ℕ) := rfl
  rw [hb0, vAt [] (unravel I j) (unravel I a) (by rw [hAp]; trivial)]

end T3f
