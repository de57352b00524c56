import Verif.Model.Tape
import Verif.Spec.Interface
import Verif.Proofs.Ortho
import Verif.Proofs.Norm
import Mathlib.LinearAlgebra.Matrix.ToLinearEquiv
import Mathlib.LinearAlgebra.Matrix.Block

/-! # Which backward passes run -/

namespace T3f

open Taped

/-! ## The tape -/

namespace Taped

variable {α β : Type}

theorem run_bind (x : Taped α) (f : α → Taped β) :
    (x >>= f).run = x.run >>= fun p => (f p.1).run >>= fun q => Except.ok (q.1, p.2 ++ q.2) := rfl

@[simp] theorem value_bind (x : Taped α) (f : α → Taped β) : (x >>= f).value = x.value >>= fun a => (f a).value := by
  unfold value
  rw [run_bind]
  rcases x.run with e | ⟨a, c⟩
  · rfl
  · show Except.map Prod.fst ((f a).run >>= _) = Except.map Prod.fst (f a).run
    rcases (f a).run with e | ⟨b, c'⟩ <;> rfl

@[simp] theorem value_plain (x : R α) : (plain x).value = x := by rcases x with e | a <;> rfl

@[simp] theorem value_pure (a : α) : (pure a : Taped α).value = Except.ok a := rfl

@[simp] theorem value_forRangeT (f : ℕ → α → Taped α) (a n : ℕ) (s : α) :
    (forRangeT f a n s).value = forRange (fun i s => (f i s).value) a n s := by
  induction n generalizing a s with
  | zero => rfl
  | succ n ih => simp [forRangeT, forRange, ih]

@[simp] theorem value_linalgQRT (qr : QRRoutine) (A : Tensor ℝ) : (linalgQRT qr A).value = linalgQR qr A := by
  unfold linalgQRT value linalgQR
  rcases matShape A.shape with e | ⟨pre, n, m⟩ <;> rfl

@[simp] theorem value_sqrtT (A : Tensor ℝ) : (sqrtT A).value = Except.ok (A.map Real.sqrt) := rfl

theorem plain_bind (a : α) (f : α → Taped β) : (plain (Except.ok a) >>= f) = f a := by
  rcases h : f a with ⟨e | ⟨b, c'⟩⟩
  · show Taped.mk ((f a).run >>= _) = _
    rw [h]; rfl
  · show Taped.mk ((f a).run >>= _) = _
    rw [h]; rfl

theorem run_plain (x : R α) : (plain x).run = (plain x).value.map fun a => (a, []) := by rw [value_plain]; rfl

theorem run_plain_ok (a : α) : (plain (Except.ok a) : Taped α).run = Except.ok (a, []) := rfl

end Taped

theorem gradNodes_ok_iff (l : List Node) : gradNodes l = Except.ok () ↔ ∀ n ∈ l, n.grad = Except.ok () := by
  induction l with
  | nil => simp [gradNodes]
  | cons n l ih =>
    rw [gradNodes, List.forall_mem_cons, ← ih]
    rcases gradNodes l with e | u
    · simp [bind, Except.bind]
    · simp [bind, Except.bind]

theorem gradNodes_append (l m : List Node) : gradNodes (l ++ m) = (gradNodes m >>= fun _ => gradNodes l) := by
  induction l with
  | nil => rw [List.nil_append, gradNodes]; rcases gradNodes m with e | u <;> rfl
  | cons n l ih =>
    rw [List.cons_append, gradNodes, ih, gradNodes]
    rcases gradNodes m with e | u <;> rfl

/-! ## Erasure of the tape -/

theorem value_orthoLRStepT (qr : QRRoutine) (t : TT ℝ) (i : ℕ) (s : List (Tensor ℝ) × ℕ) : (orthoLRStepT qr t i s).value = orthoLRStep qr t i s := by
  simp [orthoLRStepT, orthoLRStep]

theorem value_orthoLRT (qr : QRRoutine) (t : TT ℝ) : (orthoLRT qr t).value = orthoLR qr t := by
  simp only [orthoLRT, orthoLR, value_bind, value_plain, value_forRangeT, value_orthoLRStepT]
  rfl

theorem value_orthoRLStepT (qr : QRRoutine) (t : TT ℝ) (i : ℕ) (s : List (Tensor ℝ) × ℕ) : (orthoRLStepT qr t i s).value = orthoRLStep qr t i s := by
  simp [orthoRLStepT, orthoRLStep]

theorem value_orthoRLT (qr : QRRoutine) (t : TT ℝ) : (orthoRLT qr t).value = orthoRL qr t := by
  simp only [orthoRLT, orthoRL, value_bind, value_plain, value_forRangeT, value_orthoRLStepT]

theorem value_orthogonalizeT (qr : QRRoutine) (t : TT ℝ) (b : Bool) : (orthogonalizeT qr t b).value = orthogonalize qr t b := by
  unfold orthogonalizeT orthogonalize
  split_ifs
  · exact value_orthoLRT qr t
  · rfl
  · exact value_orthoRLT qr t

theorem value_frobeniusNormSquaredT (qr : QRRoutine) (t : TT ℝ) (b : Bool) : (frobeniusNormSquaredT qr t b).value = frobeniusNormSquared qr t b := by
  unfold frobeniusNormSquaredT frobeniusNormSquared
  split_ifs with h1 h2
  · simp
  · simp only [value_bind, value_plain, value_orthogonalizeT]
    congr 1; funext o; congr 1; funext last; congr 1; funext bs; congr 1; funext last
    rw [tfNormRowsT, tfNormRows]
    rcases last.shape with _ | ⟨n, _ | ⟨m, _ | _⟩⟩ <;> rfl
  · simp only [value_bind, value_plain, value_orthogonalizeT]
    rfl

theorem value_frobeniusNormT (qr : QRRoutine) (t : TT ℝ) (eps : ℝ) (b : Bool) : (frobeniusNormT qr t eps b).value = frobeniusNorm qr t eps b := by
  unfold frobeniusNormT frobeniusNorm
  rw [value_bind, value_frobeniusNormSquaredT]
  rfl

/-! ## Linear algebra -/

/-- A reduced triangular factor has a trivial kernel iff it is square with nonzero diagonal. -/
theorem upper_injective_iff {n m : ℕ} (S : ℕ → ℕ → ℝ) (hS : ∀ i < min n m, ∀ j < i, S i j = 0) :
    (∀ v : ℕ → ℝ, (∀ i < min n m, ∑ j ∈ Finset.range m, S i j * v j = 0) → ∀ j < m, v j = 0) ↔
      min n m = m ∧ ∀ i < min n m, S i i ≠ 0 := by
  constructor
  · intro h
    have hmin : min n m = m := by
      by_contra hne
      have hlt : min n m < m := lt_of_le_of_ne (min_le_right _ _) hne
      let M : Matrix (Fin (min n m)) (Fin m) ℝ := fun i j => S i j
      have hinj : Function.Injective M.mulVecLin := by
        rw [← LinearMap.ker_eq_bot, LinearMap.ker_eq_bot']
        intro v hv
        have := h (fun j => if hj : j < m then v ⟨j, hj⟩ else 0) (fun i hi => by
          have := congrFun hv ⟨i, hi⟩
          rw [Matrix.mulVecLin_apply, Matrix.mulVec, dotProduct] at this
          rw [Finset.sum_range, ← show (∑ j : Fin m, M ⟨i, hi⟩ j * v j) = 0 from this]
          exact Finset.sum_congr rfl fun j _ => by simp [M])
        funext j
        have := this j j.2
        simpa using this
      have := LinearMap.finrank_le_finrank_of_injective hinj
      simp at this
      omega
    refine ⟨hmin, ?_⟩
    rw [hmin] at h hS ⊢
    by_contra hcon
    push Not at hcon
    obtain ⟨i, hi, hz⟩ := hcon
    let M : Matrix (Fin m) (Fin m) ℝ := fun i j => S i j
    have hdet : M.det = 0 := by
      rw [Matrix.det_of_isUpperTriangular (M := M) (fun (a b : Fin m) hab => hS a a.2 b hab)]
      exact Finset.prod_eq_zero (Finset.mem_univ ⟨i, hi⟩) hz
    obtain ⟨v, hv0, hv⟩ := Matrix.exists_mulVec_eq_zero_iff.2 hdet
    apply hv0
    have := h (fun j => if hj : j < m then v ⟨j, hj⟩ else 0) (fun i hi => by
      have := congrFun hv ⟨i, hi⟩
      rw [Matrix.mulVec, dotProduct] at this
      rw [Finset.sum_range, ← show (∑ j : Fin m, M ⟨i, hi⟩ j * v j) = 0 from this]
      exact Finset.sum_congr rfl fun j _ => by simp [M])
    funext j
    simpa using this j j.2
  · rintro ⟨hmin, hd⟩ v hv j hj
    rw [hmin] at hS hd hv
    let M : Matrix (Fin m) (Fin m) ℝ := fun i j => S i j
    have hdet : M.det ≠ 0 := by
      rw [Matrix.det_of_isUpperTriangular (M := M) (fun (a b : Fin m) hab => hS a a.2 b hab)]
      exact Finset.prod_ne_zero_iff.2 fun i _ => hd i i.2
    have hz : M.mulVec (fun j => v j) = 0 := by
      funext i
      rw [Matrix.mulVec, dotProduct]
      have := hv i i.2
      rw [Finset.sum_range] at this
      exact this
    have := Matrix.eq_zero_of_mulVec_eq_zero hdet hz
    exact congrFun this ⟨j, hj⟩

/-- The factor `r` is upper triangular. -/
theorem qr_upper {qr : QRRoutine} (hqr : qr.Correct) {bs : Option ℕ} {X Q S : Tensor ℝ} {n m : ℕ} (hs : X.shape = bs.toList ++ [n, m])
    (e : linalgQR qr X = Except.ok (Q, S)) {p : List ℕ} (hp : Valid bs.toList p) : ∀ i < min n m, ∀ j < i, S.get (p ++ [i, j]) = 0 := by
  unfold linalgQR at e
  rw [hs, matShape_pre, R.ok_bind] at e
  obtain ⟨-, rfl⟩ := Prod.mk.inj (Except.ok.inj e)
  intro i hi j hj
  have hjm : j < m := lt_of_lt_of_le (hj.trans hi) (min_le_right _ _)
  have h3 := (hqr n m (X.mat p n m)).2.2 ⟨i, hi⟩ ⟨j, hjm⟩ hj
  rw [← ofMats_mat (pre := bs.toList) (p := p) (min n m) m (fun p => qr.r n m (X.mat p n m)) hp.length_eq] at h3
  exact h3

/-- The rows of a chain with orthonormal cores satisfy no relation. -/
theorem lorth_indep {cores : List (Tensor ℝ)} {M : ℕ → List ℕ} {p : List ℕ} {N r : ℕ → ℕ} (hN : ∀ k, N k = (M k).prod) (h0 : r 0 = 1) (i : ℕ)
    (ho : ∀ k < i, LOrth N r (cfl cores M p) k) (w : ℕ → ℝ)
    (hw : ∀ g : ℕ → List ℕ, (∀ j < i, Valid (M j) (g j)) → ∑ a ∈ Finset.range (r i), w a * lprod r (cvl cores p g) i a = 0) :
    ∀ a < r i, w a = 0 := by
  induction i generalizing w with
  | zero =>
    intro a ha
    rw [h0] at ha
    obtain rfl : a = 0 := by omega
    have := hw (fun _ => []) (fun j hj => absurd hj (by omega))
    rw [h0, Finset.sum_range_one] at this
    simpa [lprod] using this
  | succ i ih =>
    have key : ∀ n < N i, ∀ a < r i, ∑ b ∈ Finset.range (r (i + 1)), w b * cfl cores M p i n a b = 0 := by
      intro n hn
      refine ih (fun k hk => ho k (by omega)) (fun a => ∑ b ∈ Finset.range (r (i + 1)), w b * cfl cores M p i n a b) fun g hg => ?_
      have := hw (Function.update g i (unravel (M i) n)) (fun j hj => by
        rcases Nat.lt_succ_iff_lt_or_eq.1 hj with h1 | rfl
        · rw [Function.update_of_ne (by omega)]; exact hg j h1
        · rw [Function.update_self]; exact unravel_valid (by rw [← hN]; exact hn))
      rw [← this]
      simp only [lprod, Finset.mul_sum, Finset.sum_mul]
      rw [Finset.sum_comm]
      refine Finset.sum_congr rfl fun b _ => Finset.sum_congr rfl fun a _ => ?_
      rw [show lprod r (cvl cores p (Function.update g i (unravel (M i) n))) i a = lprod r (cvl cores p g) i a from
        lprod_congr' fun j hj => by funext x y; simp only [cvl]; rw [Function.update_of_ne (by omega)]]
      rw [show cvl cores p (Function.update g i (unravel (M i) n)) i a b = cfl cores M p i n a b by simp only [cvl, cfl, Function.update_self]]
      ring
    intro b' hb'
    have : w b' = ∑ b ∈ Finset.range (r (i + 1)), w b * δ b b' := by rw [sum_δ_right hb']
    rw [this]
    rw [show (∑ b ∈ Finset.range (r (i + 1)), w b * δ b b') = ∑ a ∈ Finset.range (r i), ∑ n ∈ Finset.range (N i),
        (∑ b ∈ Finset.range (r (i + 1)), w b * cfl cores M p i n a b) * cfl cores M p i n a b' by
      rw [Finset.sum_congr rfl fun b hb => by rw [← ho i (by omega) b (Finset.mem_range.1 hb) b' hb']]
      simp only [Finset.mul_sum, Finset.sum_mul]
      rw [Finset.sum_comm]
      refine Finset.sum_congr rfl fun a _ => ?_
      rw [Finset.sum_comm]
      exact Finset.sum_congr rfl fun n _ => Finset.sum_congr rfl fun b _ => by ring]
    refine Finset.sum_eq_zero fun a ha => Finset.sum_eq_zero fun n hn => ?_
    rw [key n (Finset.mem_range.1 hn) a (Finset.mem_range.1 ha), zero_mul]

/-! ## The left-to-right sweep -/

open Classical in
/-- What the backward pass through the QR decomposition of core `i` gives. -/
noncomputable def lrGrad (t : TT ℝ) (i : ℕ) : R Unit :=
  if lrRank t.N t.rank i * t.N i < t.rank (i + 1) then Except.error Err.notImpl
  else if ∀ p, Valid t.bpre p → t.LeftIndependent p (i + 1) then Except.ok () else Except.error Err.tf

theorem zeros_valid {bs : Option ℕ} (h : bs ≠ some 0) : ∃ p, Valid bs.toList p := by
  cases bs with
  | none => exact ⟨[], trivial⟩
  | some n => exact ⟨[0], ⟨Nat.pos_of_ne_zero fun hn => h (by rw [hn]), trivial⟩⟩

theorem orthoLRStepT_run {qr : QRRoutine} (hqr : qr.Correct) {t : TT ℝ} (h : t.WF) (i : ℕ) (hi : i + 1 < t.ndims)
    (s : List (Tensor ℝ) × ℕ) (hs : LRInv t i s) :
    ∃ s' node, (orthoLRStepT qr t i s).run = Except.ok (s', [node]) ∧ LRInv t (i + 1) s' ∧ node.grad = lrGrad t i ∧
      (node.grad = Except.ok () ↔ ∀ p, Valid t.bpre p → t.LeftIndependent p (i + 1)) := by
  obtain ⟨s', es', hs'⟩ := orthoLRStep_ok hqr h i hi s hs
  obtain ⟨T, hB, hT⟩ := hs.cur
  set r' := lrRank t.N t.rank with hr'
  obtain ⟨Y, eY, sY, bY⟩ := hB.reshape_some (s := t.bpre ++ [r' i * t.N i, t.rank (i + 1)])
    (by rw [List.prod_append]; simp only [List.prod_cons, List.prod_nil]; ring)
  obtain ⟨Q, S, q, τ, eQ, sQ, bQ, sS, vS, hq⟩ := qr_tall hqr (bs := t.batch) bY sY
  have p1 : pyGet s.1 i = Except.ok (s.1.getD i default) := pyGet_of_lt _ _ _ (by rw [hs.len]; omega)
  have eY' : reshape (s.1.getD i default) ((t.batch.toList ++ [lrRank t.N t.rank i * (coreModes t i).prod, t.rank (i + 1)]).map some) =
      Except.ok Y := eY
  have eQT : (linalgQRT qr Y).run = Except.ok ((Q, S), [qrNode t.bpre (r' i * t.N i) (t.rank (i + 1)) S]) := by
    unfold linalgQRT
    simp only [show Y.shape = t.batch.toList ++ [r' i * t.N i, t.rank (i + 1)] from sY, matShape_pre, R.ok_bind, eQ]
    rfl
  have hrun : (orthoLRStepT qr t i s).run = (orthoLRStep qr t i s).map fun x => (x, [qrNode t.bpre (r' i * t.N i) (t.rank (i + 1)) S]) := by
    unfold orthoLRStepT orthoLRStep
    simp only [p1, hs.rk, h.pyRank (show i + 1 ≤ t.ndims by omega), R.ok_bind, eY', eQ, plain_bind]
    rw [run_bind, eQT, R.ok_bind]
    simp only [run_bind]
    generalize pyGet S.shape t.batch.toList.length = a1
    rcases a1 with e | a1
    · rfl
    simp only [R.ok_bind, run_plain_ok]
    generalize pyGet S.shape (t.batch.toList.length + 1) = a2
    rcases a2 with e | a2
    · rfl
    simp only [R.ok_bind, run_plain_ok]
    generalize reshape Q _ = a3
    rcases a3 with e | a3
    · rfl
    simp only [R.ok_bind, run_plain_ok]
    generalize pyGet s.1 (i + 1) = a4
    rcases a4 with e | a4
    · rfl
    simp only [R.ok_bind, run_plain_ok]
    generalize reshape a4 _ = a5
    rcases a5 with e | a5
    · rfl
    simp only [R.ok_bind, run_plain_ok]
    generalize matmul S a5 = a6
    rcases a6 with e | a6
    · rfl
    rfl
  -- independence and the factor
  have key : ∀ p, Valid t.bpre p → (t.LeftIndependent p (i + 1) ↔
      ∀ v : ℕ → ℝ, (∀ γ < min (r' i * t.N i) (t.rank (i + 1)), ∑ β ∈ Finset.range (t.rank (i + 1)), S.get (p ++ [γ, β]) * v β = 0) →
        ∀ β < t.rank (i + 1), v β = 0) := by
    intro p hp
    obtain ⟨hq1, hq2⟩ := hq p hp
    have hlp : ∀ g : ℕ → List ℕ, (∀ j < i + 1, Valid (t.modes j) (g j)) → ∀ v : ℕ → ℝ,
        ∑ b ∈ Finset.range (t.rank (i + 1)), v b * lprod t.rank (t.slice p g) (i + 1) b =
          ∑ a ∈ Finset.range (r' i), (∑ b ∈ Finset.range (t.rank (i + 1)), v b *
            ∑ γ ∈ Finset.range (min (r' i * t.N i) (t.rank (i + 1))), q p a (ravel (t.modes i) (g i)) γ * τ p γ b) *
              lprod r' (cvl s.1 p g) i a := by
      intro g hg v
      have hgi := hg i (by omega)
      simp only [Finset.sum_mul]
      rw [Finset.sum_comm]
      refine Finset.sum_congr rfl fun b hb => ?_
      rw [lprod]
      calc v b * ∑ a ∈ Finset.range (t.rank i), lprod t.rank (t.slice p g) i a * t.slice p g i a b
          = v b * ∑ a ∈ Finset.range (r' i), lprod r' (cvl s.1 p g) i a *
              ∑ l ∈ Finset.range (t.rank i), T p a l * t.fl p i (ravel (t.modes i) (g i)) l b := by
            congr 1
            simp only [Finset.mul_sum]
            rw [Finset.sum_comm]
            refine Finset.sum_congr rfl fun l hl => ?_
            rw [hT p hp g (fun j hj => hg j (by omega)) l (Finset.mem_range.1 hl), Finset.sum_mul]
            refine Finset.sum_congr rfl fun a _ => ?_
            rw [TT.fl, unravel_ravel hgi, TT.slice]; ring
        _ = _ := by
            rw [Finset.mul_sum]
            refine Finset.sum_congr rfl fun a ha => ?_
            rw [hq1 a (Finset.mem_range.1 ha) _ (ravel_lt hgi) b (Finset.mem_range.1 hb)]
            ring
    constructor
    · intro hind v hv β hβ
      refine hind v (fun g hg => ?_) β hβ
      rw [hlp g hg v]
      refine Finset.sum_eq_zero fun a _ => ?_
      rw [show (∑ b ∈ Finset.range (t.rank (i + 1)), v b *
          ∑ γ ∈ Finset.range (min (r' i * t.N i) (t.rank (i + 1))), q p a (ravel (t.modes i) (g i)) γ * τ p γ b) = 0 by
        simp only [Finset.mul_sum]
        rw [Finset.sum_comm]
        refine Finset.sum_eq_zero fun γ hγ => ?_
        have := hv γ (Finset.mem_range.1 hγ)
        simp only [vS] at this
        rw [show (∑ b ∈ Finset.range (t.rank (i + 1)), v b * (q p a (ravel (t.modes i) (g i)) γ * τ p γ b)) =
          q p a (ravel (t.modes i) (g i)) γ * ∑ b ∈ Finset.range (t.rank (i + 1)), τ p γ b * v b by
          rw [Finset.mul_sum]; exact Finset.sum_congr rfl fun b _ => by ring, this, mul_zero], zero_mul]
    · intro hker v hv
      refine hker v fun γ hγ => ?_
      -- the relation holds for every row of the unfolding
      have hrow : ∀ n < t.N i, ∀ a < r' i, ∑ γ ∈ Finset.range (min (r' i * t.N i) (t.rank (i + 1))), q p a n γ *
          ∑ b ∈ Finset.range (t.rank (i + 1)), τ p γ b * v b = 0 := by
        intro n hn
        refine lorth_indep (cores := s.1) (M := t.modes) (p := p) (N := t.N) (r := r') (fun k => rfl) rfl i (fun k hk => hs.orth p hp k hk)
          (fun a => ∑ γ ∈ Finset.range (min (r' i * t.N i) (t.rank (i + 1))), q p a n γ *
            ∑ b ∈ Finset.range (t.rank (i + 1)), τ p γ b * v b) fun g hg => ?_
        have hg' : ∀ j < i + 1, Valid (t.modes j) (Function.update g i (unravel (t.modes i) n) j) := fun j hj => by
          rcases Nat.lt_succ_iff_lt_or_eq.1 hj with h1 | rfl
          · rw [Function.update_of_ne (by omega)]; exact hg j h1
          · rw [Function.update_self]; exact unravel_valid hn
        have := hv _ hg'
        rw [hlp _ hg' v, Function.update_self, ravel_unravel hn] at this
        rw [← this]
        refine Finset.sum_congr rfl fun a _ => ?_
        rw [show lprod r' (cvl s.1 p (Function.update g i (unravel (t.modes i) n))) i a = lprod r' (cvl s.1 p g) i a from
          lprod_congr' fun j hj => by funext x y; simp only [cvl]; rw [Function.update_of_ne (by omega)]]
        congr 1
        simp only [Finset.mul_sum]
        rw [Finset.sum_comm]
        exact Finset.sum_congr rfl fun b _ => Finset.sum_congr rfl fun γ _ => by ring
      simp only [vS]
      have e : (∑ b ∈ Finset.range (t.rank (i + 1)), τ p γ b * v b) =
          ∑ γ' ∈ Finset.range (min (r' i * t.N i) (t.rank (i + 1))), (if γ' = γ then 1 else 0) * ∑ b ∈ Finset.range (t.rank (i + 1)), τ p γ' b * v b := by
        rw [Finset.sum_eq_single γ (fun b _ hb => by rw [if_neg hb, zero_mul]) (fun hn => absurd (Finset.mem_range.2 hγ) hn), if_pos rfl, one_mul]
      rw [e, Finset.sum_congr rfl fun γ' hγ' => by rw [← hq2 γ' (Finset.mem_range.1 hγ') γ hγ]]
      simp only [Finset.sum_mul]
      rw [Finset.sum_comm]
      refine Finset.sum_eq_zero fun a ha => ?_
      rw [Finset.sum_comm]
      refine Finset.sum_eq_zero fun n hn => ?_
      rw [← mul_zero (q p a n γ), ← hrow n (Finset.mem_range.1 hn) a (Finset.mem_range.1 ha), Finset.mul_sum]
      exact Finset.sum_congr rfl fun _ _ => by ring
  have hiff : ∀ p, Valid t.bpre p → (t.LeftIndependent p (i + 1) ↔
      min (r' i * t.N i) (t.rank (i + 1)) = t.rank (i + 1) ∧ ∀ γ < min (r' i * t.N i) (t.rank (i + 1)), S.get (p ++ [γ, γ]) ≠ 0) := fun p hp =>
    (key p hp).trans (upper_injective_iff (fun i j => S.get (p ++ [i, j])) (qr_upper hqr (bs := t.batch) sY eQ hp))
  have hg : (qrNode t.bpre (r' i * t.N i) (t.rank (i + 1)) S).grad = lrGrad t i := by
    unfold qrNode Node.grad lrGrad
    dsimp only
    by_cases hw : lrRank t.N t.rank i * t.N i < t.rank (i + 1)
    · rw [if_pos (by rw [← hr'] at hw; omega), if_pos hw]
    · rw [if_neg (by rw [← hr'] at hw; omega), if_neg hw]
      have hmin : min (r' i * t.N i) (t.rank (i + 1)) = t.rank (i + 1) := by rw [← hr'] at hw; omega
      by_cases hz : ∃ p, Valid t.bpre p ∧ ∃ γ < min (r' i * t.N i) (t.rank (i + 1)), S.get (p ++ [γ, γ]) = 0
      · rw [if_pos hz, if_neg]
        obtain ⟨p, hp, γ, hγ, hz⟩ := hz
        exact fun hall => ((hiff p hp).1 (hall p hp)).2 γ hγ hz
      · rw [if_neg hz, if_pos]
        intro p hp
        exact (hiff p hp).2 ⟨hmin, fun γ hγ hz' => hz ⟨p, hp, γ, hγ, hz'⟩⟩
  refine ⟨s', _, by rw [hrun, es']; rfl, hs', hg, ?_⟩
  rw [hg, lrGrad]
  by_cases hw : lrRank t.N t.rank i * t.N i < t.rank (i + 1)
  · rw [if_pos hw]
    refine ⟨fun hh => by simp at hh, fun hall => ?_⟩
    obtain ⟨p, hp⟩ := zeros_valid h.batch_pos
    have := ((hiff p hp).1 (hall p hp)).1
    rw [← hr'] at hw
    omega
  · rw [if_neg hw]
    split_ifs with hc
    · exact ⟨fun _ => hc, fun _ => rfl⟩
    · exact ⟨fun hh => by simp at hh, fun hh => absurd hh hc⟩

/-- The tape of the left-to-right sweep. -/
theorem orthoLRT_run {qr : QRRoutine} (hqr : qr.Correct) {t : TT ℝ} (h : t.WF) (hm : t.ModesPos) :
    ∃ o nodes, (orthoLRT qr t).run = Except.ok (o, nodes) ∧ orthoLR qr t = Except.ok o ∧
      nodes.map Node.grad = (List.range (t.ndims - 1)).map (lrGrad t) ∧
      ((∀ n ∈ nodes, n.grad = Except.ok ()) ↔ ∀ k < t.ndims - 1, ∀ p, Valid t.bpre p → t.LeftIndependent p (k + 1)) := by
  have loop : ∀ (n a : ℕ) (s : List (Tensor ℝ) × ℕ), LRInv t a s → a + n ≤ t.ndims - 1 →
      ∃ s' nodes, (forRangeT (orthoLRStepT qr t) a n s).run = Except.ok (s', nodes) ∧
        nodes.map Node.grad = (List.range' a n).map (lrGrad t) ∧
        ((∀ x ∈ nodes, x.grad = Except.ok ()) ↔ ∀ k, a ≤ k → k < a + n → ∀ p, Valid t.bpre p → t.LeftIndependent p (k + 1)) := by
    intro n
    induction n with
    | zero => exact fun a s _ _ => ⟨s, [], rfl, rfl, by simp; intro k h1 h2; omega⟩
    | succ n ih =>
      intro a s hs hle
      obtain ⟨s1, node, e1, i1, g1, c1⟩ := orthoLRStepT_run hqr h a (by omega) s hs
      obtain ⟨s2, nodes, e2, g2, c2⟩ := ih (a + 1) s1 i1 (by omega)
      refine ⟨s2, node :: nodes, ?_, ?_, ?_⟩
      · rw [forRangeT, run_bind, e1, R.ok_bind, e2]; rfl
      · rw [List.map_cons, List.range'_succ, List.map_cons, g1, g2]
      · rw [List.forall_mem_cons, c1, c2]
        constructor
        · rintro ⟨ha, hb⟩ k hk hk'
          rcases hk.eq_or_lt with rfl | hk
          · exact ha
          · exact hb k (by omega) (by omega)
        · exact fun hh => ⟨hh a le_rfl (by omega), fun k h1 h2 => hh k (by omega) (by omega)⟩
  obtain ⟨s, nodes, e, g, c⟩ := loop (t.ndims - 1) 0 (t.cores, 1) (LRInv.init h) (by omega)
  obtain ⟨o, eo, -⟩ := orthoLR_ok hqr h hm
  have hv : (orthoLRT qr t).value = Except.ok o := by rw [value_orthoLRT, eo]
  have hr : ∃ x, (orthoLRT qr t).run = Except.ok (x, nodes) ∨ ∃ er, (orthoLRT qr t).run = Except.error er := by
    unfold orthoLRT
    simp only [h.pyRank (Nat.zero_le _), h.rank_first, plain_bind]
    rw [run_bind, e, R.ok_bind]
    generalize hx : (do
      let last ← plain (pyGet s.1 (t.ndims - 1))
      let last ← plain (reshape last ((t.batch.toList ++ s.2 :: (coreModes t (t.ndims - 1) ++ [1])).map some))
      let cores := s.1.set (t.ndims - 1) last
      plain (match t.batch with
        | some n => mkBatch cores (.shapes t.rawShape) none (some n)
        | none => mkTT cores (.shapes t.rawShape) none) : Taped (TT ℝ)) = X
    have hX : X.run = X.value.map fun a => (a, []) := by
      rw [← hx]
      generalize pyGet s.1 (t.ndims - 1) = a1
      rcases a1 with er | a1
      · rfl
      rw [plain_bind]
      generalize reshape a1 _ = a2
      rcases a2 with er | a2
      · rfl
      rw [plain_bind]
      exact run_plain _
    show ∃ x, (X.run >>= fun q => Except.ok (q.1, nodes ++ q.2)) = Except.ok (x, nodes) ∨ ∃ er, (X.run >>= fun q => Except.ok (q.1, nodes ++ q.2)) = Except.error er
    rw [hX]
    rcases X.value with er | a
    · exact ⟨t, Or.inr ⟨er, rfl⟩⟩
    · exact ⟨a, Or.inl (by simp [Except.map])⟩
  obtain ⟨x, hr | ⟨er, hr⟩⟩ := hr
  · have : x = o := by
      unfold value at hv
      rw [hr] at hv
      exact Except.ok.inj hv
    subst this
    refine ⟨x, nodes, hr, eo, by rw [g, List.range_eq_range'], c.trans ⟨fun hh k hk => hh k (by omega) (by omega), fun hh k _ hk => hh k (by omega)⟩⟩
  · unfold value at hv
    rw [hr] at hv
    simp [Except.map] at hv

/-! ## Norms -/

/-- The tape of the norm based on QR decompositions. -/
theorem normT_run {qr : QRRoutine} (hqr : qr.Correct) {t : TT ℝ} (h : t.WF) (hm : t.ModesPos) :
    ∃ F nodes z, (frobeniusNormSquaredT qr t false).run = Except.ok (F, nodes ++ [Node.sqrt z]) ∧ frobeniusNormSquared qr t false = Except.ok F ∧
      (z ↔ ∃ p, Valid t.bpre p ∧ F.get p = 0) ∧ nodes.map Node.grad = (List.range (t.ndims - 1)).map (lrGrad t) ∧
      ((∀ n ∈ nodes, n.grad = Except.ok ()) ↔ ∀ k < t.ndims - 1, ∀ p, Valid t.bpre p → t.LeftIndependent p (k + 1)) := by
  obtain ⟨o, nodes, er, eo, hg, hc⟩ := orthoLRT_run hqr h hm
  obtain ⟨F, eF, sF, -⟩ := frobeniusQR_ok hqr h hm
  have hvF := eF
  simp only [frobeniusNormSquared, Bool.false_eq_true, if_false, orthogonalize, if_true, eo, R.ok_bind] at hvF
  have hrun : (frobeniusNormSquaredT qr t false).run = (do
      let last ← plain (pyGet o.cores.reverse 0)
      if t.isBatch then
        let bs ← plain t.lazyBatchSize
        let last ← plain (reshape last [some bs, none])
        let n ← tfNormRowsT last
        pure (n.map (· ^ 2))
      else do
        let n ← tfNormT last
        pure (n.map (· ^ 2)) : Taped (Tensor ℝ)).run >>= fun q => Except.ok (q.1, nodes ++ q.2) := by
    simp only [frobeniusNormSquaredT, Bool.false_eq_true, if_false, orthogonalizeT, if_true]
    rw [run_bind, er, R.ok_bind]
  cases e1 : pyGet o.cores.reverse 0 with
  | error e => rw [e1] at hvF; exact absurd hvF (by simp [bind, Except.bind])
  | ok last =>
    rw [e1, R.ok_bind] at hvF
    rw [e1, plain_bind] at hrun
    by_cases hb : t.isBatch
    · rw [if_pos hb] at hvF hrun
      cases e2 : t.lazyBatchSize with
      | error e => rw [e2] at hvF; exact absurd hvF (by simp [bind, Except.bind])
      | ok bs =>
        rw [e2, R.ok_bind] at hvF
        rw [e2, plain_bind] at hrun
        cases e3 : reshape last [some bs, none] with
        | error e => rw [e3] at hvF; exact absurd hvF (by simp [bind, Except.bind])
        | ok last' =>
          rw [e3, R.ok_bind, tfNormRows] at hvF
          rw [e3, plain_bind, tfNormRowsT] at hrun
          obtain ⟨n, m, hs⟩ : ∃ n m, last'.shape = [n, m] := by
            rcases hls : last'.shape with _ | ⟨n, _ | ⟨m, _ | _⟩⟩
            · rw [hls] at hvF; exact absurd hvF (by simp [bind, Except.bind])
            · rw [hls] at hvF; exact absurd hvF (by simp [bind, Except.bind])
            · exact ⟨n, m, rfl⟩
            · rw [hls] at hvF; exact absurd hvF (by simp [bind, Except.bind])
          simp only [hs] at hvF hrun
          have hF : F = (Tensor.mk [n] fun i => Real.sqrt (∑ x ∈ Finset.range m, last'.get [i.getD 0 0, x] ^ 2)).map (· ^ 2) :=
            (Except.ok.inj hvF).symm
          refine ⟨F, nodes, _, by rw [hF]; exact hrun, eF, ?_, hg, hc⟩
          have hbp : t.bpre = [n] := by rw [← sF, hF]; rfl
          rw [hbp]
          refine exists_congr fun p => and_congr_right fun _ => ?_
          rw [hF]
          exact (pow_eq_zero_iff (two_ne_zero)).symm
    · rw [if_neg hb] at hvF hrun
      have hF : F = (tfNorm last).map (· ^ 2) := (Except.ok.inj hvF).symm
      refine ⟨F, nodes, _, by rw [hF]; exact hrun, eF, ?_, hg, hc⟩
      have hbp : t.bpre = [] := by rw [← sF, hF]; rfl
      rw [hbp]
      refine exists_congr fun p => and_congr_right fun _ => ?_
      rw [hF]
      exact (pow_eq_zero_iff (two_ne_zero)).symm

end T3f
