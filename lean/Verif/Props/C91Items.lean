import Verif.Proofs.AtItem
import Verif.Props.C11Inner
import Verif.Props.C70Gaps
import Verif.Props.C89Representations

/-!
# C91: batches are processed item by item

`IsItem k t t'` (in `Verif/Spec/AtItem.lean`) says that the single object `t'` represents item `k` of `t`. Running a program on batches and taking
item `k` of the result is the same as running the program on the items `k`: no item influences another one, broadcasting included.
-/

namespace T3f

variable {qr qr' : QRRoutine}

/-- C91: `t[k]` is item `k` of the batch `t`. -/
theorem C91_pick {t : TT ℝ} (h : t.WF) (hm : t.ModesPos) {n : ℕ} (hb : t.batch = some n) {k : ℕ} (hk : k < n) :
    ∃ t', Expr.pickItem k t = Except.ok t' ∧ t'.WF ∧ IsItem k t t' := by
  have hr : Rep t ⟨t.rawShape, some n⟩ fun o i => t.entry (bsel (some n) o) (restModes t.rawShape i) := ⟨h, hm, rfl, hb, fun _ _ _ _ => rfl⟩
  have := pick_rep (k : ℤ) hr
  have e : pickTy k ⟨t.rawShape, some n⟩ = some ⟨t.rawShape, none⟩ := by
    unfold pickTy
    simp only
    rw [if_pos ⟨by omega, by omega⟩]
  rw [e] at this
  obtain ⟨c, ec, hc⟩ := this
  refine ⟨c, ec, hc.wf, Rep.isItem (τ := ⟨t.rawShape, some n⟩) (Or.inr hk) hr hc fun o i _ => ?_⟩
  have : pyPos ((some n).getD 0) (k : ℤ) = k := by simp [pyPos]
  simp only
  rw [this]

/-- C91: an object that is not a batch is each of its items. -/
theorem C91_single {t : TT ℝ} (h : t.WF) (hb : t.batch = none) (k : ℕ) : IsItem k t t :=
  (isItem_iff h h).2 ⟨rfl, hb, fun n hn => absurd (hb.symm.trans hn) (by simp), fun i _ => by rw [hb]; rfl⟩

/-- **C91.** If a program runs on batches, it runs on their items `k`, and the result of the latter is item `k` of the result of the former. -/
theorem C91_programs (hqr : qr.Correct) (hqr' : qr'.Correct) {k : ℕ} {e e' : Expr} (hs : e.AtItem k e') (h : e.Ok) (h' : e'.Ok) {t : TT ℝ}
    (hrun : e.run qr = Except.ok t) : ∃ t', e'.run qr' = Except.ok t' ∧ t'.WF ∧ IsItem k t t' := by
  have h1 := Expr.rep hqr e h
  have h2 := Expr.rep hqr' e' h'
  have hv := hs.val h h'
  rcases hτ : e.ty with _ | τ
  · rw [hτ] at h1
    obtain ⟨err, he⟩ := h1
    rw [he] at hrun
    cases hrun
  · rw [hτ] at h1
    obtain ⟨t1, e1, r1⟩ := h1
    obtain rfl : t1 = t := Except.ok.inj (e1.symm.trans hrun)
    obtain ⟨hk, ty', hval⟩ := hv τ hτ
    rw [ty'] at h2
    obtain ⟨t', e2, r2⟩ := h2
    exact ⟨t', e2, r2.wf, r1.isItem hk r2 hval⟩

/-- **C91.** `flat_inner` of batches computes the inner products of the items. -/
theorem C91_inner {k : ℕ} {a a' b b' : TT ℝ} (ha : a.WF) (ha' : a'.WF) (hb : b.WF) (hb' : b'.WF) (ia : IsItem k a a') (ib : IsItem k b b')
    (hr : a.rawShape = b.rawShape) (hbatch : BCompat a.batch b.batch) :
    ∃ F F', flatInner a b = Except.ok F ∧ flatInner a' b' = Except.ok F' ∧ F.shape = (squeezed (bcast a.batch b.batch)).toList ∧ F'.shape = [] ∧
      F'.get [] = F.get (bsel (squeezed (bcast a.batch b.batch)) k) := by
  obtain ⟨ra, na, ka, A, A', eA, eA', qA, vA⟩ := ia
  obtain ⟨rb, nb, kb, B, B', eB, eB', qB, vB⟩ := ib
  obtain ⟨F, A1, B1, s, e, eA1, eB1, sA, sB, sF, vF⟩ := C11_flat_inner a b ha hb hr hbatch
  obtain ⟨F', A1', B1', s', e', eA1', eB1', sA', sB', sF', vF'⟩ := C11_flat_inner a' b' ha' hb' (by rw [ra, rb, hr]) (by rw [na, nb]; trivial)
  obtain rfl : A1 = A := Except.ok.inj (eA1.symm.trans eA)
  obtain rfl : A1' = A' := Except.ok.inj (eA1'.symm.trans eA')
  obtain rfl : B1 = B := Except.ok.inj (eB1.symm.trans eB)
  obtain rfl : B1' = B' := Except.ok.inj (eB1'.symm.trans eB')
  rw [na, nb] at sF' vF'
  rw [na] at sA'
  rw [nb] at sB'
  replace sA' : A1'.shape = s' := sA'
  replace sB' : B1'.shape = s' := sB'
  obtain rfl : s' = s := by
    rw [sA, sA'] at qA
    exact (List.append_cancel_left qA).symm
  have hit : (Ty.mk [] (squeezed (bcast a.batch b.batch))).HasItem k := by
    refine hasItem_of_squeezed (ra := []) (hasItem_of_bcast (ra := []) (rb := []) ?_ ?_)
    · unfold Ty.HasItem; rcases h0 : a.batch with _ | n
      · trivial
      · exact ka n h0
    · unfold Ty.HasItem; rcases h0 : b.batch with _ | n
      · trivial
      · exact kb n h0
  obtain ⟨o, ho, p1, p2, p3⟩ := bcast_low hbatch [] hit (bcast_ne_zero hbatch ha.batch_pos hb.batch_pos)
  refine ⟨F, F', e, e', sF, sF', ?_⟩
  have h1 := vF o ho
  have h2 := vF' 0 (by simp [bcast])
  rw [← p3, h1]
  refine h2.trans ?_
  refine Finset.sum_congr rfl fun n hn => ?_
  have hu := unravel_valid (Finset.mem_range.1 hn)
  rw [p1, p2, ← vA _ (by rw [sA']; exact hu), ← vB _ (by rw [sB']; exact hu)]
  rfl

/-- **C91.** `project(batch, where)` projects each item. -/
theorem C91_project (hqr : qr.Correct) {k : ℕ} {x z z' : TT ℝ} (h : x.WF) (hb : x.batch = none) (hm : x.ModesPos) (hd : 2 ≤ x.ndims) (hz : z.WF)
    (hz' : z'.WF) (hr : z.rawShape = x.rawShape) (iz : IsItem k z z') :
    ∃ y y', project qr z x = Except.ok y ∧ project qr z' x = Except.ok y' ∧ IsItem k y y' := by
  obtain ⟨rz, bz, kz, Z, Z', eZ, eZ', sZ, vZ⟩ := iz
  obtain ⟨T, _, -, hP⟩ := project_space hqr h hb hm hd
  obtain ⟨y, Y, Z1, e, w, rs, bt, -, eY, eZ1, sh, sZ1, hv⟩ := hP z hz hr
  obtain ⟨y', Y', Z1', e', w', rs', bt', -, eY', eZ1', sh', sZ1', hv'⟩ := hP z' hz' (rz.trans hr)
  obtain rfl : Z1 = Z := Except.ok.inj (eZ1.symm.trans eZ)
  obtain rfl : Z1' = Z' := Except.ok.inj (eZ1'.symm.trans eZ')
  have hp : z'.bpre = [] := by simp [TT.bpre, bz]
  rw [hp] at hv' sZ1'
  refine ⟨y, y', e, e', rs'.trans rs.symm, bt'.trans bz, fun n hn => kz n (bt ▸ hn), Y, Y', eY, eY', by rw [sh, sh', sZ, bt], fun i hi => ?_⟩
  rw [sh', sZ1'] at hi
  have hpv := bsel_bpre hz kz
  rw [bt]
  refine proj_unique (z := Z1'.get) (hv' [] trivial).1 (hv _ hpv).1 (hv' [] trivial).2 (fun f hf => ?_) i hi
  rw [← (hv _ hpv).2 f hf]
  exact dot_congr (fun i hi => by rw [vZ i (by rw [sZ1']; exact hi)]) (fun _ _ => rfl)

/-- **C91.** `round` rounds each item, if the best approximations of the item are unique. -/
theorem C91_round (hqr : qr.Correct) (hqr' : qr'.Correct) {svd svd' : SVDRoutine} (hsvd : svd.Correct) (hsvd' : svd'.Correct) {k : ℕ}
    {t t' : TT ℝ} (h : t.WF) (h' : t'.WF) (hm : t.ModesPos) (it : IsItem k t t') {m : MaxRank} {b : ℕ → ℕ} (hb : m.Bounds t.ndims b)
    (hbatch : t.isBatch → m.Single) {eps eps' : Option ℝ} (he : ∀ e ∈ eps, 0 ≤ e) (he' : ∀ e ∈ eps', 0 ≤ e) {T : Tensor ℝ}
    (eT : full t' = Except.ok T) (hu : NoTies t'.rawShape T.shape b (List.range' 1 (t'.ndims - 1)).reverse T.get) :
    ∃ x x', ttRound qr svd t m eps = Except.ok x ∧ ttRound qr' svd' t' m eps' = Except.ok x' ∧ IsItem k x x' := by
  obtain ⟨hr, hb', hk, hv⟩ := (isItem_iff h h').1 it
  have hn : t'.ndims = t.ndims := ndims_of_rows h' h hr
  have hp : t'.bpre = [] := by simp [TT.bpre, hb']
  obtain ⟨x, e, w, rs, bt, ht⟩ := ttRound_truncated hqr hsvd h hm hb hbatch he
  obtain ⟨x', e', w', rs', bt', ht'⟩ := ttRound_truncated hqr' hsvd' h' (modesPos_of_raw hm hr) (by rw [hn]; exact hb)
    (fun hh => by simp [TT.isBatch, hb'] at hh) he'
  obtain ⟨T1, eT1, sT, vT⟩ := full_ok h'
  obtain rfl : T1 = T := Except.ok.inj (eT1.symm.trans eT)
  rw [hp, hr] at sT vT
  replace sT : T1.shape = restShape t.rawShape := sT
  rw [hr, hn, sT] at hu
  have k1 := ht' [] (by rw [hp]; trivial)
  rw [hr, hn] at k1
  have k2 := ht _ (bsel_bpre h hk)
  refine ⟨x, x', e, e', (isItem_iff w w').2 ⟨rs'.trans (hr.trans rs.symm), bt'.trans hb', fun n hn => hk n (bt ▸ hn), fun i hi => ?_⟩⟩
  rw [rs] at hi ⊢
  rw [bt]
  exact hu.unique (truncated_congr (fun i hi => by rw [← hv i hi]; exact (vT [] i trivial hi).symm) (fun _ _ => rfl) k2)
    (truncated_congr (fun i hi => (vT [] i trivial hi).symm) (fun _ _ => rfl) k1) i hi

/-! ## Examples -/

/-- Item 1 of the batch `exPair2`. -/
def exPair2Item : TT ℤ where
  cores := [.ofList [1, 2, 1] [3, 4], .ofList [1, 2, 1] [7, 8]]
  rawShape := [[2, 2]]
  ttRanks := [1, 1, 1]
  batch := none

theorem exPair2Item_wf : exPair2Item.toReal.WF := TT.WF.toReal (by decide)

theorem exPair2Item_item : IsItem 1 exPair2.toReal exPair2Item.toReal := by
  refine (isItem_iff exPair2_wf exPair2Item_wf).2 ⟨rfl, rfl, fun n hn => ?_, fun i hi => ?_⟩
  · obtain rfl : 2 = n := Option.some.inj hn
    exact Or.inr (by omega)
  · match i, hi with
    | [i, j], ⟨hi, hj, _⟩ =>
      have hi : i < 2 := hi
      have hj : j < 2 := hj
      show exPair2Item.toReal.entry [] (tIdx [i, j]) = exPair2.toReal.entry [1] (tIdx [i, j])
      interval_cases i <;> interval_cases j <;>
        simp [TT.entry, TT.toReal, exPair2, exPair2Item, TT.ndims, lprod, TT.slice, TT.core, TT.rank, tIdx, Tensor.map, Tensor.ofList, ravel]

/-- A batch is added to a batch of size one and multiplied elementwise by a single tensor. -/
example : (Expr.mul (.add (.orthogonalize true (.obj exPair2.toReal)) (.expand (.obj exUnit1.toReal))) (.obj exEye2.toReal)).AtItem 1
      (.mul (.add (.orthogonalize true (.obj exPair2Item.toReal)) (.obj exUnit1.toReal)) (.obj exEye2.toReal)) ∧
    (Expr.mul (.add (.orthogonalize true (.obj exPair2.toReal)) (.expand (.obj exUnit1.toReal))) (.obj exEye2.toReal)).Ok ∧
    (Expr.mul (.add (.orthogonalize true (.obj exPair2Item.toReal)) (.obj exUnit1.toReal)) (.obj exEye2.toReal)).Ok ∧
    (Expr.mul (.add (.orthogonalize true (.obj exPair2.toReal)) (.expand (.obj exUnit1.toReal))) (.obj exEye2.toReal)).ty = some ⟨[[2, 2]], some 2⟩ := by
  have u : exUnit1.toReal.WF ∧ exUnit1.toReal.ModesPos := ⟨exUnit1_wf, by simp [TT.ModesPos, TT.toReal, exUnit1]⟩
  have v : exEye2.toReal.WF ∧ exEye2.toReal.ModesPos := ⟨exEye2_wf, by simp [TT.ModesPos, TT.toReal, exEye2]⟩
  refine ⟨.mul (.add (.orthogonalize true (.obj exPair2Item_item)) (.expand (.obj (C91_single exUnit1_wf rfl 1)))) (.obj (C91_single exEye2_wf rfl 1)),
    ⟨⟨⟨exPair2_wf, by simp [TT.ModesPos, TT.toReal, exPair2]⟩, u⟩, v⟩, ⟨⟨⟨exPair2Item_wf, by simp [TT.ModesPos, TT.toReal, exPair2Item]⟩, u⟩, v⟩, ?_⟩
  simp [Expr.ty, mulTy, addTy, TT.toReal, exPair2, exEye2, exUnit1, Ty.ndims, AddBatches, bcast, BCompat]

example : exPair2.toReal.WF ∧ exPair2.toReal.ModesPos ∧ exPair2.toReal.batch = some 2 ∧ 1 < 2 ∧ BCompat exPair2.toReal.batch exEye2.toReal.batch ∧
    IsItem 1 exEye2.toReal exEye2.toReal ∧ exPair2.toReal.rawShape = exEye2.toReal.rawShape ∧ exEye2.toReal.batch = none ∧ exEye2.toReal.ModesPos ∧
    2 ≤ exEye2.toReal.ndims :=
  ⟨exPair2_wf, by simp [TT.ModesPos, TT.toReal, exPair2], rfl, by omega, trivial, C91_single exEye2_wf rfl 1, rfl, rfl,
    by simp [TT.ModesPos, TT.toReal, exEye2], le_rfl⟩

/-- Item 1 of the batch `exDiagTT`, which is rounded from TT-rank two to TT-rank one. -/
example : ∃ t' T, exDiagTT.toReal.WF ∧ exDiagTT.toReal.ModesPos ∧ t'.WF ∧ IsItem 1 exDiagTT.toReal t' ∧
    (MaxRank.num 1).Bounds exDiagTT.toReal.ndims (fun _ => 1) ∧ (exDiagTT.toReal.isBatch → (MaxRank.num 1).Single) ∧ full t' = Except.ok T ∧
    NoTies t'.rawShape T.shape (fun _ => 1) (List.range' 1 (t'.ndims - 1)).reverse T.get := by
  have hw : exDiagTT.toReal.WF := TT.WF.toReal (by decide)
  have hm : exDiagTT.toReal.ModesPos := by simp [TT.ModesPos, TT.toReal, exDiagTT]
  obtain ⟨t', -, w', it⟩ := C91_pick hw hm rfl (show 1 < 2 by omega)
  obtain ⟨hr, hb, -, F, F', eF, eF', sF, vF⟩ := id it
  have hn : t'.ndims = 2 := ndims_of_rows w' hw hr
  obtain ⟨G, eG, sG, -⟩ := full_ok w'
  obtain rfl : G = F' := Except.ok.inj (eG.symm.trans eF')
  have sG' : G.shape = [2, 2] := by rw [sG, hr, TT.bpre, hb]; rfl
  refine ⟨t', G, hw, hm, w', it, Or.inl ⟨1, by omega, Or.inl rfl, fun _ => rfl⟩, fun _ l hl => by simp at hl, eF', ?_⟩
  rw [hr, hn, sG']
  exact noTies_congr (rows := [[2, 2]]) (fun i hi => (vF i (by rw [sG']; exact hi)).symm)
    ((exDiagTT_gaps eF [1] ⟨by decide, trivial⟩).noTies (by simp) fun _ _ _ => one_pos)

/-- C91: the converse fails. Right-to-left orthogonalization raises for a batch and runs for its items. -/
theorem C91_converse (hqr : qr.Correct) : ∃ (k : ℕ) (e e' : Expr) (err : Err) (t' : TT ℝ), e.AtItem k e' ∧ e.Ok ∧ e'.Ok ∧
    e.run qr = Except.error err ∧ e'.run qr = Except.ok t' := by
  have h : (Expr.orthogonalize false (.obj exPair2.toReal)).Ok := ⟨exPair2_wf, by simp [TT.ModesPos, TT.toReal, exPair2]⟩
  have h' : (Expr.orthogonalize false (.obj exPair2Item.toReal)).Ok := ⟨exPair2Item_wf, by simp [TT.ModesPos, TT.toReal, exPair2Item]⟩
  have r := Expr.rep hqr _ h
  have r' := Expr.rep hqr _ h'
  have e1 : (Expr.orthogonalize false (.obj exPair2.toReal)).ty = none := by simp [Expr.ty, TT.toReal, exPair2]
  have e2 : (Expr.orthogonalize false (.obj exPair2Item.toReal)).ty = some ⟨[[2, 2]], none⟩ := by simp [Expr.ty, TT.toReal, exPair2Item]
  rw [e1] at r
  rw [e2] at r'
  obtain ⟨err, r⟩ := r
  obtain ⟨t', r', -⟩ := r'
  exact ⟨1, _, _, err, t', .orthogonalize false (.obj exPair2Item_item), h, h', r, r'⟩

end T3f
