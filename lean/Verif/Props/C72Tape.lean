import Verif.Proofs.TapeGrad
import Verif.Props.C57Losses

/-!
# C72: backpropagation through orthogonalization and norms

`qr` is any correct QR routine. `backward` is `tape.gradient` after the computation (`Tf/Tape.lean`); it returns `()` if all gradient functions of the
recorded operations give a result. Interfaces are the products of the first (last) cores (`Spec/Interface.lean`).
-/

namespace T3f

open Taped

/-- C72: the results are those of the functions without a tape. -/
theorem C72_values (qr : QRRoutine) (t : TT ℝ) (b : Bool) (eps : ℝ) :
    (orthogonalizeT qr t b).value = orthogonalize qr t b ∧ (frobeniusNormSquaredT qr t b).value = frobeniusNormSquared qr t b ∧
      (frobeniusNormT qr t eps b).value = frobeniusNorm qr t eps b :=
  ⟨value_orthogonalizeT qr t b, value_frobeniusNormSquaredT qr t b, value_frobeniusNormT qr t eps b⟩

/-- The error of a backward pass over QR decompositions. -/
theorem gradNodes_kind {l : List Node} {e : Err} (h : gradNodes l = Except.error e) : e = Err.notImpl ∨ e = Err.tf := by
  induction l with
  | nil => cases h
  | cons n l ih =>
    rw [gradNodes] at h
    cases hl : gradNodes l with
    | error e' =>
      rw [hl] at h ih
      cases h
      exact ih rfl
    | ok u =>
      rw [hl, R.ok_bind] at h
      revert h
      unfold Node.grad
      cases n with
      | qr n m z =>
        dsimp only
        split_ifs <;> intro h <;> cases h
        · exact Or.inl rfl
        · exact Or.inr rfl
      | sqrt z =>
        dsimp only
        split_ifs <;> intro h <;> cases h
        exact Or.inr rfl

/-- C72: backpropagation through `orthogonalize_tt_cores(tt)` works if and only if all left interfaces (of all batch elements) have independent columns.
Otherwise it raises NotImplementedError or there are no finite gradients. -/
theorem C72_left_to_right {qr : QRRoutine} (hqr : qr.Correct) {t : TT ℝ} (h : t.WF) (hm : t.ModesPos) :
    ((orthogonalizeT qr t true).backward = Except.ok () ↔ ∀ k, 0 < k → k < t.ndims → ∀ p, Valid t.batch.toList p → t.LeftIndependent p k) ∧
      ∀ e, (orthogonalizeT qr t true).backward = Except.error e → e = Err.notImpl ∨ e = Err.tf := by
  obtain ⟨o, nodes, er, -, -, hc⟩ := orthoLRT_run hqr h hm
  have eb : (orthogonalizeT qr t true).backward = gradNodes nodes := by
    rw [orthogonalizeT, if_pos rfl, backward, er, R.ok_bind]
  rw [eb]
  refine ⟨(gradNodes_ok_iff _).trans (hc.trans ⟨fun hh k h0 hk p hp => ?_, fun hh k hk p hp => hh (k + 1) (by omega) (by omega) p hp⟩),
    fun e he => gradNodes_kind he⟩
  have := hh (k - 1) (by omega) p hp
  rwa [show k - 1 + 1 = k by omega] at this

/-- C72: backpropagation through `orthogonalize_tt_cores(tt, left_to_right=False)` works if and only if all right interfaces have independent rows.
Otherwise it raises NotImplementedError or there are no finite gradients. -/
theorem C72_right_to_left {qr : QRRoutine} (hqr : qr.Correct) {t : TT ℝ} (h : t.WF) (hb : t.batch = none) (hm : t.ModesPos) :
    ((orthogonalizeT qr t false).backward = Except.ok () ↔ ∀ k, 0 < k → k < t.ndims → t.RightIndependent k) ∧
      ∀ e, (orthogonalizeT qr t false).backward = Except.error e → e = Err.notImpl ∨ e = Err.tf := by
  obtain ⟨o, nodes, er, -, -, hc⟩ := orthoRLT_run hqr h hb hm
  have eb : (orthogonalizeT qr t false).backward = gradNodes nodes := by
    rw [orthogonalizeT, if_neg (by simp), if_neg (by simp [TT.isBatch, hb]), backward, er, R.ok_bind]
  rw [eb]
  exact ⟨(gradNodes_ok_iff _).trans hc, fun e he => gradNodes_kind he⟩

/-- C72: for two cores it is the NotImplementedError if the rank exceeds the size of the first mode, and a singular factor otherwise. -/
theorem C72_two_cores {qr : QRRoutine} (hqr : qr.Correct) {t : TT ℝ} (h : t.WF) (hm : t.ModesPos) (hd : t.ndims = 2) :
    ((orthogonalizeT qr t true).backward = Except.error Err.notImpl ↔ (t.modes 0).prod < t.rank 1) ∧
      ((orthogonalizeT qr t true).backward = Except.error Err.tf ↔
        t.rank 1 ≤ (t.modes 0).prod ∧ ∃ p, Valid t.batch.toList p ∧ ¬ t.LeftIndependent p 1) := by
  obtain ⟨o, nodes, er, -, hg, -⟩ := orthoLRT_run hqr h hm
  rw [hd] at hg
  obtain ⟨n, rfl, hn⟩ : ∃ n, nodes = [n] ∧ n.grad = lrGrad t 0 := by
    match nodes, hg with
    | [n], hg => exact ⟨n, rfl, (List.cons.inj hg).1⟩
    | _ :: _ :: _, hg => exact absurd (congrArg List.length hg) (by simp)
  have eb : (orthogonalizeT qr t true).backward = lrGrad t 0 := by
    rw [orthogonalizeT, if_pos rfl, backward, er, R.ok_bind, gradNodes, gradNodes, R.ok_bind, hn]
  have hr : lrRank t.N t.rank 0 * t.N 0 = (t.modes 0).prod := by rw [lrRank, one_mul]; rfl
  rw [eb, lrGrad, hr]
  by_cases hw : (t.modes 0).prod < t.rank (0 + 1)
  · rw [if_pos hw]
    refine ⟨⟨fun _ => hw, fun _ => rfl⟩, ⟨fun hh => (by cases hh), fun hh => absurd hw (not_lt.2 hh.1)⟩⟩
  · rw [if_neg hw]
    split_ifs with hc
    · exact ⟨⟨fun hh => (by cases hh), fun hh => absurd hh hw⟩, ⟨fun hh => (by cases hh), fun ⟨_, p, hp, hh⟩ => absurd (hc p hp) hh⟩⟩
    · push Not at hc
      exact ⟨⟨fun hh => (by cases hh), fun hh => absurd hh hw⟩, ⟨fun _ => ⟨not_lt.1 hw, hc⟩, fun _ => rfl⟩⟩

/-- C72: backpropagation through `frobenius_norm_squared(tt)` works if and only if all left interfaces have independent columns and no batch element is zero. -/
theorem C72_norm_squared {qr : QRRoutine} (hqr : qr.Correct) {t : TT ℝ} (h : t.WF) (hm : t.ModesPos) {A : Tensor ℝ} {s : List ℕ} (eA : full t = Except.ok A)
    (sA : A.shape = t.batch.toList ++ s) :
    (frobeniusNormSquaredT qr t false).backward = Except.ok () ↔
      (∀ k, 0 < k → k < t.ndims → ∀ p, Valid t.batch.toList p → t.LeftIndependent p k) ∧
        ∀ p, Valid t.batch.toList p → ∃ i, Valid s i ∧ A.get (p ++ i) ≠ 0 := by
  obtain ⟨F, nodes, z, er, eF, hz, -, hc⟩ := normT_run hqr h hm
  obtain ⟨F', A', s', eF', eA', sA', -, vF⟩ := C13_frobenius_norm_squared hqr h hm false
  obtain rfl : F' = F := Except.ok.inj (eF'.symm.trans eF)
  obtain rfl : A' = A := Except.ok.inj (eA'.symm.trans eA)
  obtain rfl : s' = s := List.append_cancel_left (sA'.symm.trans sA)
  have hzero : ∀ p, Valid t.batch.toList p → (F'.get p = 0 ↔ ∀ i, Valid s' i → A'.get (p ++ i) = 0) := fun p hp => by
    rw [vF p hp, Finset.sum_eq_zero_iff_of_nonneg fun _ _ => sq_nonneg _]
    constructor
    · intro hh i hi
      have := hh (ravel s' i) (Finset.mem_range.2 (ravel_lt hi))
      rw [unravel_ravel hi] at this
      exact pow_eq_zero_iff (two_ne_zero) |>.1 this
    · intro hh n hn
      rw [hh _ (unravel_valid (Finset.mem_range.1 hn))]
      norm_num
  have eb : (frobeniusNormSquaredT qr t false).backward = gradNodes (nodes ++ [Node.sqrt z]) := by rw [backward, er, R.ok_bind]
  rw [eb, gradNodes_ok_iff, List.forall_mem_append, hc]
  refine and_congr ⟨fun hh k h0 hk p hp => ?_, fun hh k hk p hp => hh (k + 1) (by omega) (by omega) p hp⟩ ?_
  · have := hh (k - 1) (by omega) p hp
    rwa [show k - 1 + 1 = k by omega] at this
  · rw [List.forall_mem_singleton]
    have : (Node.sqrt z).grad = Except.ok () ↔ ¬ z := by
      unfold Node.grad
      dsimp only
      split_ifs with hh
      · exact ⟨fun h' => (by cases h'), fun h' => absurd hh h'⟩
      · exact ⟨fun _ => hh, fun _ => rfl⟩
    rw [this, hz]
    push Not
    refine forall_congr' fun p => forall_congr' fun hp => ?_
    rw [ne_eq, hzero p hp]
    push Not
    rfl

/-- C72: with `differentiable=True` it always works. -/
theorem C72_norm_squared_differentiable {qr : QRRoutine} {t : TT ℝ} (h : t.WF) :
    (frobeniusNormSquaredT qr t true).backward = Except.ok () := by
  obtain ⟨F, e, -⟩ := frobeniusDiff_spec h
  rw [frobeniusNormSquaredT, if_pos rfl, e]
  rfl

/-- The square root adds nothing if `epsilon` is positive. -/
theorem backward_norm {qr : QRRoutine} (hqr : qr.Correct) {t : TT ℝ} (h : t.WF) (hm : t.ModesPos) {eps : ℝ} (he : 0 < eps) (b : Bool) :
    (frobeniusNormT qr t eps b).backward = (frobeniusNormSquaredT qr t b).backward := by
  obtain ⟨F, A, s, eF, -, -, sF, vF⟩ := C13_frobenius_norm_squared hqr h hm b
  have hv := value_frobeniusNormSquaredT qr t b
  rw [eF] at hv
  unfold value at hv
  unfold frobeniusNormT backward
  rw [run_bind]
  cases hr : (frobeniusNormSquaredT qr t b).run with
  | error e => rw [hr] at hv; cases hv
  | ok q =>
    rw [hr] at hv
    obtain ⟨q1, q2⟩ := q
    obtain rfl : q1 = F := Except.ok.inj hv
    rw [R.ok_bind, R.ok_bind]
    show (Except.ok (((q1.map (· + eps)).map Real.sqrt), q2 ++ [Node.sqrt _]) >>= fun p : Tensor ℝ × List Node => gradNodes p.2) = _
    rw [R.ok_bind, gradNodes_append]
    show ((Except.ok () >>= fun _ => (Node.sqrt _).grad) >>= fun _ => gradNodes q2) = _
    rw [R.ok_bind, Node.grad, if_neg]
    · rfl
    · rintro ⟨i, hi, hz⟩
      have hi' : Valid t.batch.toList i := by rw [← sF]; exact hi
      have : 0 < q1.get i + eps := by
        rw [vF i hi']
        have : 0 ≤ ∑ n ∈ Finset.range s.prod, A.get (i ++ unravel s n) ^ 2 := Finset.sum_nonneg fun _ _ => sq_nonneg _
        linarith
      exact absurd hz (Real.sqrt_pos.2 this).ne'

/-- C72: the same for `frobenius_norm` with a positive `epsilon` (it does not protect the square root inside of the default norm). -/
theorem C72_norm {qr : QRRoutine} (hqr : qr.Correct) {t : TT ℝ} (h : t.WF) (hm : t.ModesPos) {eps : ℝ} (he : 0 < eps) {A : Tensor ℝ} {s : List ℕ}
    (eA : full t = Except.ok A) (sA : A.shape = t.batch.toList ++ s) :
    ((frobeniusNormT qr t eps false).backward = Except.ok () ↔
      (∀ k, 0 < k → k < t.ndims → ∀ p, Valid t.batch.toList p → t.LeftIndependent p k) ∧
        ∀ p, Valid t.batch.toList p → ∃ i, Valid s i ∧ A.get (p ++ i) ≠ 0) ∧
      (frobeniusNormT qr t eps true).backward = Except.ok () := by
  rw [backward_norm hqr h hm he, backward_norm hqr h hm he]
  exact ⟨C72_norm_squared hqr h hm eA sA, C72_norm_squared_differentiable h⟩

theorem LeftIndependent_minimal {t : TT ℝ} (h : t.WF) (hb : t.batch = none) (hmin : t.MinimalRanks) (hne : t.Nonzero) {k : ℕ}
    (hk : k ≤ t.ndims) : t.LeftIndependent [] k := fun v hv =>
  left_indep h hb hmin hne hk v fun g => hv g.1 fun j hj => g.2 j (by omega)

theorem RightIndependent_minimal {t : TT ℝ} (h : t.WF) (hb : t.batch = none) (hmin : t.MinimalRanks) (hne : t.Nonzero) {k : ℕ}
    (hk : k ≤ t.ndims) : t.RightIndependent k := fun v hv =>
  right_indep h hb hmin hne hk v fun g => by
    have := hv g.1 g.2
    simpa only [rightPart_eq] using this

/-- C72: at a nonzero tensor train with minimal ranks all of them work. -/
theorem C72_minimal {qr : QRRoutine} (hqr : qr.Correct) {t : TT ℝ} (h : t.WF) (hb : t.batch = none) (hm : t.ModesPos) (hmin : t.MinimalRanks)
    (hne : t.Nonzero) (b : Bool) :
    (orthogonalizeT qr t b).backward = Except.ok () ∧ (frobeniusNormSquaredT qr t b).backward = Except.ok () := by
  have hL : ∀ k, 0 < k → k < t.ndims → ∀ p, Valid t.batch.toList p → t.LeftIndependent p k := fun k _ hk p hp => by
    rw [hb] at hp
    obtain rfl := (valid_nil_iff p).1 hp
    exact LeftIndependent_minimal h hb hmin hne hk.le
  cases b with
  | true => exact ⟨(C72_left_to_right hqr h hm).1.2 hL, C72_norm_squared_differentiable h⟩
  | false =>
    refine ⟨(C72_right_to_left hqr h hb hm).1.2 fun k _ hk => RightIndependent_minimal h hb hmin hne hk.le, ?_⟩
    obtain ⟨A, eA, sA, vA⟩ := full_single h hb
    refine (C72_norm_squared hqr h hm eA (s := restShape t.rawShape) (by rw [sA, hb]; rfl)).2 ⟨hL, fun p hp => ?_⟩
    rw [hb] at hp
    obtain rfl := (valid_nil_iff p).1 hp
    obtain ⟨i, hi, hi'⟩ := hne
    have p1 : t.bpre = [] := by simp [TT.bpre, hb]
    have hi2 : Valid (restShape t.rawShape) i := by
      rw [dense_shape_single hb] at hi; exact hi
    refine ⟨i, hi2, ?_⟩
    have e := dense_get t [] i (by rw [p1])
    rw [List.nil_append] at e ⊢
    rw [vA i hi2, ← e]
    exact hi'

/-- C72: `t3f.gradients` of a function of the default norm of its argument fails at every point: at the point with augmented ranks the columns of the first
core are dependent. `f` is the rest of the function (e.g. the square root of `frobenius_norm`). -/
theorem C72_gradients_norm {α : Type} {qr : QRRoutine} (hqr : qr.Correct) {x : TT ℝ} (h : x.WF) (hb : x.batch = none) (hm : x.ModesPos)
    (f : Tensor ℝ → Taped α) : ∃ e, gradientsT qr (fun y => frobeniusNormSquaredT qr y false >>= f) x = Except.error e :=
  gradientsT_norm hqr h hb hm f

/-- C72: also `t3f.gradients` of `0.5 * frobenius_norm_squared(x - w)`. -/
theorem C72_gradients_distance {qr : QRRoutine} (hqr : qr.Correct) {x : TT ℝ} (h : x.WF) (hb : x.batch = none) (hm : x.ModesPos) {w : TT ℝ} (hw : w.WF)
    (hwb : w.batch = none) : ∃ e, gradientsT qr (halfDistanceT qr w false) x = Except.error e := gradientsT_distance hqr h hb hm hw hwb

/-- C72: with `differentiable=True` both work at points with minimal ranks. -/
theorem C72_gradients_differentiable {qr : QRRoutine} (hqr : qr.Correct) {x : TT ℝ} (h : x.WF) (hb : x.batch = none) (hm : x.ModesPos) (hd : 2 ≤ x.ndims)
    (hmin : x.MinimalRanks) {w : TT ℝ} (hw : w.WF) (hwb : w.batch = none) (hwr : w.rawShape = x.rawShape) :
    gradientsT qr (fun y => frobeniusNormSquaredT qr y true) x = Except.ok () ∧ gradientsT qr (halfDistanceT qr w true) x = Except.ok () := by
  obtain ⟨left, right, el, er, -, -, hk⟩ := C42_minimal hqr h hb hm hd hmin
  obtain ⟨-, F⟩ := frame_of hqr h hb hm el er
  have hrk : ∀ k ≤ x.ndims, right.rank k = left.rank k := fun k hle => (hk k hle).2.trans (hk k hle).1.symm
  obtain ⟨ds, e1, ⟨hl, hs⟩, -⟩ := pointDeltas_ok F h hrk
  obtain ⟨y, e2, T, yb⟩ := deltasToTangent_ok (qr := qr) F h hb hd (fun k _ hk => hrk k (by omega)) (lo := some left) (ro := some right) rfl rfl
    (out := none) (by simp) hl (fun k hk => by rw [hs k hk]; rfl)
  have e : ∀ {α : Type} (func : TT ℝ → Taped α), gradientsT qr func x = (func y).backward := fun func => by
    unfold gradientsT; rw [el, R.ok_bind, er, R.ok_bind, e1, R.ok_bind, e2]; rfl
  rw [e, e]
  refine ⟨C72_norm_squared_differentiable T.wf, ?_⟩
  obtain ⟨z, ez, wz, -⟩ := sub_single T.wf hw (by rw [T.nd, F.nl]; exact hd) (hwr.trans (F.rl.symm.trans T.rows.symm)) yb hwb
  obtain ⟨N, eN, -⟩ := frobeniusDiff_spec wz
  rw [halfDistanceT, ez, plain_bind, frobeniusNormSquaredT, if_pos rfl, eN, plain_bind]
  rfl

/-! ## Examples -/

/-- The identity matrix: minimal ranks, so everything works with the flags above. -/
example {qr : QRRoutine} (hqr : qr.Correct) : (orthogonalizeT qr exEye2.toReal true).backward = Except.ok () ∧
    (orthogonalizeT qr exEye2.toReal false).backward = Except.ok () ∧ (frobeniusNormSquaredT qr exEye2.toReal false).backward = Except.ok () ∧
    gradientsT qr (halfDistanceT qr exEye2.toReal true) exEye2.toReal = Except.ok () ∧
    ∃ e, gradientsT qr (halfDistanceT qr exEye2.toReal false) exEye2.toReal = Except.error e :=
  have hm : exEye2.toReal.ModesPos := by simp [TT.ModesPos, exEye2, TT.toReal]
  ⟨(C72_minimal hqr exEye2_wf rfl hm exEye2_minimal exEye2_nonzero true).1, (C72_minimal hqr exEye2_wf rfl hm exEye2_minimal exEye2_nonzero false).1,
    (C72_minimal hqr exEye2_wf rfl hm exEye2_minimal exEye2_nonzero false).2,
    (C72_gradients_differentiable hqr exEye2_wf rfl hm (le_refl 2) exEye2_minimal exEye2_wf rfl rfl).2,
    C72_gradients_distance hqr exEye2_wf rfl hm exEye2_wf rfl⟩

/-- A nonzero `1 × 2` tensor with rank two. -/
def exNarrow : TT ℤ where
  cores := [.ofList [1, 1, 2] [1, 2], .ofList [2, 2, 1] [1, 0, 0, 1]]
  rawShape := [[1, 2]]
  ttRanks := [1, 2, 1]
  batch := none

/-- A nonzero `2 × 2` tensor of rank one with TT-rank two. -/
def exSingular : TT ℤ where
  cores := [.ofList [1, 2, 2] [1, 2, 2, 4], .ofList [2, 2, 1] [1, 0, 0, 1]]
  rawShape := [[2, 2]]
  ttRanks := [1, 2, 1]
  batch := none

/-- Both kinds of failure of the default norm's decomposition. -/
example {qr : QRRoutine} (hqr : qr.Correct) : (orthogonalizeT qr exNarrow.toReal true).backward = Except.error Err.notImpl ∧
    (orthogonalizeT qr exSingular.toReal true).backward = Except.error Err.tf := by
  refine ⟨(C72_two_cores hqr (t := exNarrow.toReal) (TT.WF.toReal (by decide)) (by simp [TT.ModesPos, exNarrow, TT.toReal]) rfl).1.2 (by
      simp [TT.modes, TT.rank, TT.toReal, exNarrow]), (C72_two_cores hqr (t := exSingular.toReal) (TT.WF.toReal (by decide))
      (by simp [TT.ModesPos, exSingular, TT.toReal]) rfl).2.2 ⟨by simp [TT.modes, TT.rank, TT.toReal, exSingular], [], trivial, fun hi => ?_⟩⟩
  have := hi (fun a => if a = 0 then 2 else -1) (fun g hg => ?_) 0 (by simp [TT.rank, TT.toReal, exSingular])
  · norm_num at this
  · have hv := hg 0 (by omega)
    obtain ⟨a, _, e, ha, hn⟩ := (valid_cons_iff _ _ _).1 (show Valid [2] (g 0) from hv)
    rw [valid_nil_iff] at hn
    subst hn
    have ha : a < 2 := ha
    interval_cases a <;>
      (simp [lprod, TT.slice, TT.core, TT.rank, TT.toReal, exSingular, Finset.sum_range_succ, e, Tensor.map, Tensor.ofList, ravel]; try norm_num)

end T3f
