import Verif.Proofs.CostRules
import Verif.Proofs.Frames

/-!
# The count of the orthogonalization
-/

namespace T3f

open Counted

theorem qrCost_pre {bs : Option ℕ} {X : Tensor ℝ} {m n : ℕ} (h : X.shape = bs.toList ++ [m, n]) : qrCost X = bs.getD 1 * (m * n * min m n) := by
  unfold qrCost
  rw [h]
  rcases bs with _ | b <;> simp

theorem matmulCost_pre {bs : Option ℕ} {X Y : Tensor ℝ} {m k n : ℕ} (hX : X.shape = bs.toList ++ [m, k]) (hY : Y.shape = bs.toList ++ [k, n]) :
    matmulCost X Y = bs.getD 1 * (m * k * n) := by
  unfold matmulCost
  rw [hX, hY]
  rcases bs with _ | b <;> simp [bshape]

theorem orthoLRStepC_le {qr : QRRoutine} (hqr : qr.Correct) {t : TT ℝ} (h : t.WF) (i : ℕ) (hi : i + 1 < t.ndims)
    (s : List (Tensor ℝ) × ℕ) (hs : LRInv t i s) {r n : ℕ} (hr : ∀ k ≤ t.ndims, t.rank k ≤ r) (hn : ∀ k < t.ndims, t.N k ≤ n) :
    (orthoLRStepC qr t i s).Bound (LRInv t (i + 1)) (2 * (t.batch.getD 1 * (r ^ 3 * n))) := by
  obtain ⟨s', es', hs'⟩ := orthoLRStep_ok hqr h i hi s hs
  refine Bound.post (P := fun _ => True) ?_ (value_orthoLRStepC qr t i s) es' hs'
  obtain ⟨T, hB, hT⟩ := hs.cur
  set r' := lrRank t.N t.rank with hr'
  have hbp : 0 < t.bpre.prod := batch_prod_pos h.batch_pos
  obtain ⟨Y, eY, sY, bY⟩ := hB.reshape_some (s := t.bpre ++ [r' i * t.N i, t.rank (i + 1)])
    (by rw [List.prod_append]; simp only [List.prod_cons, List.prod_nil]; ring)
  obtain ⟨Q, S, q, τ, eQ, sQ, bQ, sS, vS, hq⟩ := qr_tall hqr (bs := t.batch) bY sY
  have hmin : min (r' i * t.N i) (t.rank (i + 1)) = r' (i + 1) := rfl
  rw [hmin] at sQ bQ sS hq
  have hnext := blk_core h hi
  obtain ⟨Z, eZ, sZ, bZ⟩ := hnext.reshape_last (t.rank (i + 1)) (t.N (i + 1) * t.rank (i + 2))
    (Nat.mul_pos hbp (h.rank_pos _ (by omega))) rfl
  obtain ⟨W, eW, sW, bW⟩ := bZ.mul_left (bs := t.batch) sZ sS
  have p1 : pyGet s.1 i = Except.ok (s.1.getD i default) := pyGet_of_lt _ _ _ (by rw [hs.len]; omega)
  have p2 : pyGet s.1 (i + 1) = Except.ok (t.core (i + 1)) := by
    rw [pyGet_of_lt _ _ default (by rw [hs.len]; omega), hs.rest (i + 1) (by omega) hi]
  have p3 : pyGet S.shape t.batch.toList.length = Except.ok (r' (i + 1)) := by
    rw [sS, pyGet_of_lt _ _ 0 (by simp), List.getD_append_right _ _ _ _ le_rfl]; simp
  have p4 : pyGet S.shape (t.batch.toList.length + 1) = Except.ok (t.rank (i + 1)) := by
    rw [sS, pyGet_of_lt _ _ 0 (by simp), List.getD_append_right _ _ _ _ (by omega)]; simp
  have b0 : r' i ≤ r := (lrRank_le _ _ h.rank_first i).trans (hr i (by omega))
  have b1 : t.rank (i + 1) ≤ r := hr (i + 1) (by omega)
  have b1' : r' (i + 1) ≤ r := (lrRank_le _ _ h.rank_first (i + 1)).trans b1
  have b2 : t.rank (i + 2) ≤ r := hr (i + 2) (by omega)
  have n0 := hn i (by omega)
  have n1 := hn (i + 1) hi
  unfold orthoLRStepC
  simp only [p1, hs.rk, h.pyRank (show i + 1 ≤ t.ndims by omega), free_bind]
  rw [show reshape (s.1.getD i default) ((t.batch.toList ++ [lrRank t.N t.rank i * (coreModes t i).prod, t.rank (i + 1)]).map some) =
    Except.ok Y from eY]
  simp only [free_bind]
  rw [two_mul]
  refine Bound.charge_bind eQ ?_ ?_
  · rw [qrCost_pre sY, hmin]
    refine Nat.mul_le_mul_left _ ?_
    calc r' i * t.N i * t.rank (i + 1) * r' (i + 1) ≤ r * n * r * r := by gcongr
      _ = _ := by ring
  simp only [p3, p4, free_bind]
  refine Bound.free_bind fun C eC => ?_
  simp only [p2, free_bind]
  rw [show reshape (t.core (i + 1)) (t.batch.toList.map some ++ [some (t.rank (i + 1)), none]) = Except.ok Z from eZ]
  simp only [free_bind]
  rw [← Nat.add_zero (t.batch.getD 1 * (r ^ 3 * n))]
  refine Bound.charge_bind eW ?_ (Bound.pure trivial)
  rw [matmulCost_pre sS sZ]
  refine Nat.mul_le_mul_left _ ?_
  calc r' (i + 1) * t.rank (i + 1) * (t.N (i + 1) * t.rank (i + 2)) ≤ r * r * (n * r) := by gcongr
    _ = _ := by ring

theorem orthoLRC_le {qr : QRRoutine} (hqr : qr.Correct) {t : TT ℝ} (h : t.WF) {r n : ℕ} (hr : ∀ k ≤ t.ndims, t.rank k ≤ r)
    (hn : ∀ k < t.ndims, t.N k ≤ n) : (orthoLRC qr t).Bound (fun _ => True) (2 * (t.batch.getD 1 * t.ndims * r ^ 3 * n)) := by
  have e0 : pyGet t.ttRanks 0 = Except.ok 1 := by rw [h.pyRank (Nat.zero_le _), h.rank_first]
  unfold orthoLRC
  rw [e0, free_bind]
  refine ((Bound.forRange (LRInv t) _ (orthoLRStepC qr t) 0 (t.ndims - 1) (t.cores, 1) (LRInv.init h)
    (fun i s _ hi hP => orthoLRStepC_le hqr h i (by omega) s hP hr hn)).bind (v := 0) fun s _ => ?_).mono (fun _ h => h) ?_
  · exact Bound.free_bind fun _ _ => Bound.free_bind fun _ _ => Bound.free fun _ _ => trivial
  · rw [Nat.add_zero]
    calc (t.ndims - 1) * (2 * (t.batch.getD 1 * (r ^ 3 * n))) ≤ t.ndims * (2 * (t.batch.getD 1 * (r ^ 3 * n))) := by gcongr; omega
      _ = _ := by ring

theorem orthoRLStepC_le {qr : QRRoutine} (hqr : qr.Correct) {t : TT ℝ} (h : t.WF) (hb : t.batch = none) (i : ℕ) (hi : i + 1 < t.ndims)
    (hm : t.ModesPos) (s : List (Tensor ℝ) × ℕ) (hs : RLInv t (i + 1) s) {r n : ℕ} (hr : ∀ k ≤ t.ndims, t.rank k ≤ r)
    (hn : ∀ k < t.ndims, t.N k ≤ n) : (orthoRLStepC qr t (i + 1) s).Bound (RLInv t i) (2 * (r ^ 3 * n)) := by
  obtain ⟨s', es', hs'⟩ := orthoRLStep_ok hqr h hb i hi hm s hs
  refine Bound.post (P := fun _ => True) ?_ (value_orthoRLStepC qr t (i + 1) s) es' hs'
  obtain ⟨T, hB, hT⟩ := hs.cur
  have hpre : t.bpre = [] := by rw [TT.bpre, hb]; rfl
  set r' := rlRank t.N t.rank t.ndims with hr'
  obtain ⟨Y, eY, sY, bY⟩ := hB.reshape_some (s := [t.rank (i + 1), t.N (i + 1) * r' (i + 2)]) (by simp)
  obtain ⟨Xt, Q, S, Qt, St, q, τ, e1, e2, e3, e4, sQt, bQt, sSt, vSt, q1, q2⟩ := qr_wide hqr bY sY
  obtain ⟨Xt', e1', sXt', -⟩ := transpose_pre (bs := none) sY
  obtain rfl : Xt' = Xt := Except.ok.inj (e1'.symm.trans e1)
  have hmin : min (t.N (i + 1) * r' (i + 2)) (t.rank (i + 1)) = r' (i + 1) := (rlRank_step _ _ hi).symm
  rw [hmin] at sQt bQt sSt q1 q2
  have hprev := blk_core h (show i < t.ndims by omega)
  rw [hpre] at hprev
  obtain ⟨Z, eZ, sZ, bZ⟩ := hprev.reshape_first (t.rank (i + 1)) (t.rank i * t.N i)
    (by simpa using h.rank_pos _ (by omega)) (by ring)
  obtain ⟨W, eW, sW, bW⟩ := bZ.mul_right (bs := none) sZ (T := St) sSt
  have p1 : pyGet s.1 (i + 1) = Except.ok (s.1.getD (i + 1) default) := pyGet_of_lt _ _ _ (by rw [hs.len]; omega)
  have p2 : pyGet s.1 (i + 1 - 1) = Except.ok (t.core i) := by
    rw [Nat.add_sub_cancel, pyGet_of_lt _ _ default (by rw [hs.len]; omega), hs.rest i (by omega)]
  have p3 : pyGet St.shape 0 = Except.ok (t.rank (i + 1)) := by rw [sSt]; rfl
  have p4 : pyGet St.shape 1 = Except.ok (r' (i + 1)) := by rw [sSt]; rfl
  have c0 : t.rank i ≤ r := hr i (by omega)
  have c1 : t.rank (i + 1) ≤ r := hr (i + 1) (by omega)
  have c1' : r' (i + 1) ≤ r := (rlRank_le _ _ h.rank_last (by omega)).trans c1
  have c2 : r' (i + 2) ≤ r := (rlRank_le _ _ h.rank_last (by omega)).trans (hr (i + 2) (by omega))
  have n0 := hn i (by omega)
  have n1 := hn (i + 1) hi
  unfold orthoRLStepC
  simp only [p1, hs.rk, h.pyRank (show i + 1 ≤ t.ndims by omega), free_bind]
  rw [show reshape (s.1.getD (i + 1) default) [some (t.rank (i + 1)), some ((coreModes t (i + 1)).prod * rlRank t.N t.rank t.ndims (i + 1 + 1))] =
    Except.ok Y from eY]
  simp only [free_bind, e1]
  rw [two_mul]
  refine Bound.charge_bind e2 ?_ ?_
  · rw [qrCost_pre sXt', hmin]
    simp only [Option.getD_none, Nat.one_mul]
    calc t.N (i + 1) * r' (i + 2) * t.rank (i + 1) * r' (i + 1) ≤ n * r * r * r := by gcongr
      _ = _ := by ring
  simp only [e3, e4, p3, p4, free_bind]
  refine Bound.free_bind fun C eC => ?_
  simp only [p2, free_bind]
  rw [show reshape (t.core i) [none, some (t.rank (i + 1))] = Except.ok Z from eZ]
  simp only [free_bind]
  rw [← Nat.add_zero (r ^ 3 * n)]
  refine Bound.charge_bind eW ?_ (Bound.pure trivial)
  rw [matmulCost_pre (bs := none) sZ sSt]
  simp only [Option.getD_none, Nat.one_mul]
  calc t.rank i * t.N i * t.rank (i + 1) * r' (i + 1) ≤ r * n * r * r := by gcongr
    _ = _ := by ring

theorem orthoRLC_le {qr : QRRoutine} (hqr : qr.Correct) {t : TT ℝ} (h : t.WF) (hb : t.batch = none) (hm : t.ModesPos) {r n : ℕ}
    (hr : ∀ k ≤ t.ndims, t.rank k ≤ r) (hn : ∀ k < t.ndims, t.N k ≤ n) :
    (orthoRLC qr t).Bound (fun _ => True) (2 * (t.ndims * r ^ 3 * n)) := by
  have e0 : pyGet t.ttRanks t.ndims = Except.ok 1 := by rw [h.pyRank le_rfl, h.rank_last]
  unfold orthoRLC
  rw [e0, free_bind]
  refine ((Bound.forRange (fun j s => RLInv t (t.ndims - 1 - j) s) (2 * (r ^ 3 * n)) (fun j => orthoRLStepC qr t (t.ndims - 1 - j)) 0
    (t.ndims - 1) (t.cores, 1) (RLInv.init h hb)
    (fun j s _ hj hP => by
      obtain ⟨i, hi⟩ : ∃ i, t.ndims - 1 - j = i + 1 := ⟨t.ndims - 1 - j - 1, by omega⟩
      rw [hi] at hP ⊢
      rw [show t.ndims - 1 - (j + 1) = i by omega]
      exact orthoRLStepC_le hqr h hb i (by omega) hm s hP hr hn)).bind (v := 0) fun s _ => ?_).mono (fun _ h => h) ?_
  · exact Bound.free_bind fun _ _ => Bound.free_bind fun _ _ => Bound.free fun _ _ => trivial
  · rw [Nat.add_zero]
    calc (t.ndims - 1) * (2 * (r ^ 3 * n)) ≤ t.ndims * (2 * (r ^ 3 * n)) := by gcongr; omega
      _ = _ := by ring

/-- The frame of a tangent space. -/
theorem tangentFrameC_le {qr : QRRoutine} (hqr : qr.Correct) {x left right : TT ℝ} (h : x.WF) (hb : x.batch = none) (hm : x.ModesPos)
    (F : TFrame x left right) (hF : tangentFrame qr x = Except.ok (left, right)) {r n : ℕ}
    (hr : ∀ k ≤ x.ndims, x.rank k ≤ r) (hn : ∀ k < x.ndims, x.N k ≤ n) :
    (tangentFrameC qr x).Bound (fun f => f = (left, right)) (4 * (x.ndims * r ^ 3 * n)) := by
  obtain ⟨el, er⟩ := tangentFrame_inv hF
  refine Bound.post (P := fun _ => True) ?_ (value_tangentFrameC qr x) hF rfl
  have hl := orthoLRC_le hqr h hr hn
  have hl' := hl.post (value_orthoLRC qr x) (show orthoLR qr x = Except.ok left from el) (Q := fun l => l = left) rfl
  refine (hl'.bind (v := 2 * (x.ndims * r ^ 3 * n)) (f := fun left => orthogonalizeC qr left false >>= fun right => pure (left, right))
    fun l hl => hl ▸ ?_).mono (fun _ h => h) (by simp only [hb, Option.getD_none]; apply le_of_eq; ring)
  have hml : left.ModesPos := by intro row hrow; rw [F.rl] at hrow; exact hm row hrow
  have hrl := orthoRLC_le hqr F.wl F.bl hml (r := r) (n := n)
    (by intro k hk; rw [F.nl] at hk; rw [F.kl k hk]; exact (lrRank_le _ _ h.rank_first k).trans (hr k hk))
    (by intro k hk; rw [F.nl] at hk; rw [F.Nl]; exact hn k hk)
  have e2 : orthogonalizeC qr left false = orthoRLC qr left := by simp [orthogonalizeC, TT.isBatch, F.bl]
  rw [e2]
  refine (hrl.bind (v := 0) fun _ _ => Bound.pure trivial).mono (fun _ h => h) ?_
  rw [F.nl, Nat.add_zero]

end T3f
