import Verif.Proofs.RoundProps
import Verif.Model.Norm

/-! # Frobenius norms by orthogonalization -/

namespace T3f

theorem Blk.sumsq {X : Tensor ℝ} {pre : List ℕ} {a N b : ℕ} {f : List ℕ → ℕ → ℕ → ℕ → ℝ} (h : Blk X pre a N b f) {p : List ℕ}
    (hp : Valid pre p) : ∑ x ∈ Finset.range (a * (N * b)), X.flat (ravel pre p * (a * (N * b)) + x) ^ 2 =
      ∑ α ∈ Finset.range a, ∑ n ∈ Finset.range N, ∑ β ∈ Finset.range b, f p α n β ^ 2 := by
  rw [sum_range_mul]
  refine Finset.sum_congr rfl fun α hα => ?_
  rw [sum_range_mul]
  refine Finset.sum_congr rfl fun n hn => Finset.sum_congr rfl fun β hβ => ?_
  rw [h.2 p hp α (Finset.mem_range.1 hα) n (Finset.mem_range.1 hn) β (Finset.mem_range.1 hβ)]

/-- The norm of a tensor train with orthonormal left parts is the norm of its last core. -/
theorem entryDot_last {o : TT ℝ} (h : o.WF) {p : List ℕ} (ho : ∀ k, k + 1 < o.ndims → o.LeftOrthonormal p k) :
    entryDot o o p = ∑ α ∈ Finset.range (o.rank (o.ndims - 1)), ∑ n ∈ Finset.range (o.N (o.ndims - 1)), o.fl p (o.ndims - 1) n α 0 ^ 2 := by
  have hpos := h.pos
  rw [← gram_entry h rfl rfl]
  obtain ⟨d, hd⟩ : ∃ d, o.ndims = d + 1 := ⟨o.ndims - 1, by omega⟩
  rw [hd, Nat.add_sub_cancel, gram]
  refine Finset.sum_congr rfl fun α hα => ?_
  have hα' := Finset.mem_range.1 hα
  rw [Finset.sum_congr rfl fun c hc => by
    rw [gram_id (N := o.N) h.rank_first (fun j hj b hb b' hb' => ho j (by omega) b hb b' hb') hα' (Finset.mem_range.1 hc)], sum_δ_left hα']
  exact Finset.sum_congr rfl fun n _ => by ring

theorem frobeniusQR_ok {qr : QRRoutine} (hqr : qr.Correct) {t : TT ℝ} (h : t.WF) (hm : t.ModesPos) :
    ∃ F, frobeniusNormSquared qr t false = Except.ok F ∧ F.shape = t.bpre ∧ ∀ p, Valid t.bpre p → F.get p = entryDot t t p := by
  obtain ⟨o, e, w, rs, b, nd, rk, orth, ent⟩ := orthoLR_ok hqr h hm
  have hpos := h.pos
  have hbp : o.bpre = t.bpre := by simp [TT.bpre, b]
  have hdot : ∀ p, Valid t.bpre p → entryDot t t p = entryDot o o p := by
    intro p hp
    unfold entryDot
    rw [rs]
    refine Finset.sum_congr rfl fun n hn => ?_
    rw [ent p hp _ (validModes_rest h (unravel_valid (Finset.mem_range.1 hn)))]
  have hB := blk_core w (k := o.ndims - 1) (by omega)
  rw [hbp, show o.ndims - 1 + 1 = o.ndims by omega, w.rank_last] at hB
  have hlast : pyGet o.cores.reverse 0 = Except.ok (o.core (o.ndims - 1)) := by
    have hl : 0 < o.cores.length := w.pos
    rw [pyGet_of_lt _ _ default (by rw [List.length_reverse]; exact hl), List.getD_eq_getElem _ _ (by rw [List.length_reverse]; exact hl),
      List.getElem_reverse, TT.core, List.getD_eq_getElem _ _ (by rw [TT.ndims]; omega)]
    rfl
  have hsq : ∀ p, Valid t.bpre p → ∑ x ∈ Finset.range (o.rank (o.ndims - 1) * (o.N (o.ndims - 1) * 1)),
      (o.core (o.ndims - 1)).flat (ravel t.bpre p * (o.rank (o.ndims - 1) * (o.N (o.ndims - 1) * 1)) + x) ^ 2 = entryDot t t p := by
    intro p hp
    rw [hB.sumsq hp, hdot p hp, entryDot_last w (fun k hk => orth p hp k (by omega))]
    simp only [Finset.sum_range_one]
  unfold frobeniusNormSquared
  rw [if_neg (by simp), orthogonalize, if_pos rfl, e]
  simp only [R.ok_bind, hlast]
  cases hbt : t.batch with
  | none =>
    have hbpre : t.bpre = [] := by simp [TT.bpre, hbt]
    rw [if_neg (by simp [TT.isBatch, hbt])]
    refine ⟨_, rfl, by rw [hbpre]; rfl, fun p hp => ?_⟩
    rw [hbpre] at hp hB
    obtain rfl := (valid_nil_iff p).1 hp
    rw [← hsq [] (by rw [hbpre]; trivial)]
    show Real.sqrt (reduceSum ((o.core (o.ndims - 1)).map (· ^ 2))) ^ 2 = _
    have h0 : 0 ≤ reduceSum ((o.core (o.ndims - 1)).map (· ^ 2)) :=
      Finset.sum_nonneg fun n _ => sq_nonneg ((o.core (o.ndims - 1)).get (unravel (o.core (o.ndims - 1)).shape n))
    rw [Real.sq_sqrt h0]
    unfold reduceSum
    have hs := hB.1
    rw [List.prod_nil, one_mul] at hs
    rw [show ((o.core (o.ndims - 1)).map (· ^ 2)).shape = (o.core (o.ndims - 1)).shape from rfl, hs]
    refine Finset.sum_congr rfl fun x _ => ?_
    rw [hbpre]
    show _ = (o.core (o.ndims - 1)).flat (0 * _ + x) ^ 2
    rw [Nat.zero_mul, Nat.zero_add]
    rfl
  | some bs =>
    have hbpre : t.bpre = [bs] := by simp [TT.bpre, hbt]
    have hbs : 0 < bs := by
      have := batch_prod_pos h.batch_pos
      simpa [hbt] using this
    have hlz : t.lazyBatchSize = Except.ok bs := by simp [TT.lazyBatchSize, hbt]
    rw [if_pos (by simp [TT.isBatch, hbt]), hlz, R.ok_bind]
    rw [hbpre] at hB
    set m := o.rank (o.ndims - 1) * (o.N (o.ndims - 1) * 1) with hm'
    obtain ⟨Y, eY, sY, vY⟩ := reshape_flat (o.core (o.ndims - 1)) [some bs, none] [bs, m]
      (resolveShape_infer [some bs, none] m _ (by simp) (by simpa [knownProd] using hbs) (by rw [hB.1, ← hm']; simp [knownProd]))
    rw [eY, R.ok_bind, tfNormRows, sY]
    refine ⟨_, rfl, by rw [hbpre]; rfl, fun p hp => ?_⟩
    obtain ⟨q, rfl⟩ : ∃ q, p = [q] := by
      have := hp.length_eq; rw [hbpre] at this; exact List.length_eq_one_iff.1 this
    rw [← hsq [q] hp]
    rw [hbpre] at hp ⊢
    have hq : q < bs := hp.1
    show Real.sqrt (∑ x ∈ Finset.range m, Y.get [q, x] ^ 2) ^ 2 = _
    rw [Real.sq_sqrt (Finset.sum_nonneg fun _ _ => sq_nonneg _)]
    refine Finset.sum_congr rfl fun x hx => ?_
    have hx := Finset.mem_range.1 hx
    rw [← Tensor.flat_ravel Y (idx := [q, x]) (by rw [sY]; exact ⟨hq, hx, trivial⟩), sY, vY _ (by
      rw [hB.1, ← hm']
      have := mul_add_lt hq hx
      simpa [ravel] using this)]
    simp [ravel]

end T3f
