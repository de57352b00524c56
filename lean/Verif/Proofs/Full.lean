import Verif.Proofs.Transpose

/-!
# `full` computes the represented tensor
-/

namespace T3f

variable {K : Type} [CommRing K]

/-- Mode indices valid for the first `k` cores. -/
def TT.ValidModes (t : TT K) (m : ℕ → List ℕ) (k : ℕ) : Prop := ∀ j < k, Valid (t.modes j) (m j)

/-- Invariant of the loops of `_full_tt` and `_full_tt_batch` after `k` cores. -/
def FullInv (t : TT K) (k : ℕ) (res : Tensor K) : Prop :=
  res.shape.prod = t.bpre.prod * (msize t.modes k * t.rank k) ∧
  ∀ p m b, Valid t.bpre p → t.ValidModes m k → b < t.rank k →
    res.flat (ravel t.bpre p * (msize t.modes k * t.rank k) + (mflat t.modes m k * t.rank k + b)) =
      lprod t.rank (t.slice p m) k b

omit [CommRing K] in
theorem flat_pair (t : Tensor K) (m n i j : ℕ) (h : t.shape = [m, n]) (hi : i < m) (hj : j < n) :
    t.get [i, j] = t.flat (i * n + j) := by
  have hv : Valid t.shape [i, j] := by simp [h, hi, hj]
  rw [← t.flat_ravel hv, h]; simp

omit [CommRing K] in
theorem flat_triple (t : Tensor K) (o m n p i j : ℕ) (h : t.shape = [o, m, n]) (hp : p < o)
    (hi : i < m) (hj : j < n) : t.get [p, i, j] = t.flat (p * (m * n) + (i * n + j)) := by
  have hv : Valid t.shape [p, i, j] := by simp [h, hi, hj, hp]
  rw [← t.flat_ravel hv, h]; simp

theorem mul_add_lt {a b i j : ℕ} (hi : i < a) (hj : j < b) : i * b + j < a * b := by
  calc i * b + j < i * b + b := by omega
    _ = (i + 1) * b := by ring
    _ ≤ a * b := Nat.mul_le_mul_right _ hi

theorem core_flat {t : TT K} (h : t.WF) {k : ℕ} (hk : k < t.ndims) {p mk : List ℕ} {a b : ℕ}
    (hp : Valid t.bpre p) (hm : Valid (t.modes k) mk) (ha : a < t.rank k) (hb : b < t.rank (k + 1)) :
    (t.core k).get (p ++ a :: (mk ++ [b])) =
      (t.core k).flat (ravel t.bpre p * (t.rank k * ((t.modes k).prod * t.rank (k + 1))) +
        (a * ((t.modes k).prod * t.rank (k + 1)) + (ravel (t.modes k) mk * t.rank (k + 1) + b))) := by
  have hv : Valid (t.core k).shape (p ++ a :: (mk ++ [b])) := by
    rw [h.core_shape k hk]
    exact valid_append hp ⟨ha, valid_append hm (by simpa using hb)⟩
  rw [← (t.core k).flat_ravel hv, h.core_shape k hk, ravel_append _ _ hp.length_eq, ravel_cons,
    ravel_append _ _ hm.length_eq]
  simp

theorem core_prod {t : TT K} (h : t.WF) {k : ℕ} (hk : k < t.ndims) :
    (t.core k).shape.prod = t.bpre.prod * (t.rank k * ((t.modes k).prod * t.rank (k + 1))) := by
  rw [h.core_shape k hk]; simp

theorem fullInv_one {t : TT K} (h : t.WF) : FullInv t 1 (t.core 0) := by
  constructor
  · rw [core_prod h h.pos, h.rank_first]; simp [msize]
  · intro p m b hp hm hb
    have hv := core_flat h h.pos hp (hm 0 (by omega)) (a := 0) (by rw [h.rank_first]; omega) hb
    rw [h.rank_first] at hv
    simp [lprod, h.rank_first, TT.slice, mflat, msize]
    simp at hv
    rw [hv]

theorem fullTT_step {t : TT K} (h : t.WF) (hb : t.batch = none) (i : ℕ) (hi : i < t.ndims)
    (res : Tensor K) (hres : FullInv t i res) :
    ∃ r, (do
      let ri ← pyGet t.ttRanks i
      let res ← reshape res [none, some ri]
      let core ← pyGet t.cores i
      let currCore ← reshape core [some ri, none]
      matmul res currCore) = Except.ok r ∧ FullInv t (i + 1) r := by
  have hbpre : t.bpre = [] := by simp [TT.bpre, hb]
  have hri : 0 < t.rank i := h.rank_pos i (by omega)
  obtain ⟨hsz, hval⟩ := hres
  have hcp := core_prod h hi
  simp only [hbpre, List.prod_nil, one_mul] at hsz hcp
  obtain ⟨A, eA, sA, fA⟩ := reshape_flat res [none, some (t.rank i)] [msize t.modes i, t.rank i] (by
    rw [hsz, resolveShape_infer _ (msize t.modes i) _ (by simp) (by simp [knownProd, hri])
      (by simp [knownProd]; ring)]; simp)
  obtain ⟨B, eB, sB, fB⟩ := reshape_flat (t.core i) [some (t.rank i), none]
    [t.rank i, (t.modes i).prod * t.rank (i + 1)] (by
    rw [hcp, resolveShape_infer _ ((t.modes i).prod * t.rank (i + 1)) _ (by simp) (by simp [knownProd, hri])
      (by simp [knownProd])]; simp)
  obtain ⟨C, eC, sC, fC⟩ := matmul2 A B _ _ _ sA sB
  refine ⟨C, by simp [h.pyRank hi.le, h.pyCore hi, eA, eB, eC], ?_, ?_⟩
  · rw [sC, hbpre]; simp only [List.prod_cons, List.prod_nil, msize]; ring
  · intro p m b hp hm hb'
    have hp' : p = [] := by rw [hbpre] at hp; simpa [valid_nil_iff] using hp
    subst hp'
    have hm' : t.ValidModes m i := fun j hj => hm j (by omega)
    have hlt := mflat_lt t.modes m i hm'
    have hmi := hm i (by omega)
    have hrv := ravel_lt hmi
    have hcol := mul_add_lt hrv hb'
    have e1 : ravel t.bpre [] * (msize t.modes (i + 1) * t.rank (i + 1)) +
        (mflat t.modes m (i + 1) * t.rank (i + 1) + b) =
        mflat t.modes m i * ((t.modes i).prod * t.rank (i + 1)) +
          (ravel (t.modes i) (m i) * t.rank (i + 1) + b) := by
      simp [hbpre, mflat]; ring
    rw [e1, ← flat_pair C _ _ _ _ sC hlt hcol, fC, lprod]
    refine Finset.sum_congr rfl fun l hl => ?_
    have hl' : l < t.rank i := by simpa using hl
    congr 1
    · rw [flat_pair A _ _ _ _ sA hlt hl', fA _ (by rw [hsz]; exact mul_add_lt hlt hl')]
      have := hval [] m l hp hm' hl'
      simpa [hbpre] using this
    · rw [flat_pair B _ _ _ _ sB hl' hcol, fB _ (by rw [hcp]; exact mul_add_lt hl' hcol)]
      have := core_flat h hi hp hmi hl' hb'
      rw [TT.slice, this]; simp [hbpre]

theorem fullBatch_step {t : TT K} (h : t.WF) (bs : ℕ) (hb : t.batch = some bs) (i : ℕ)
    (hi : i < t.ndims) (res : Tensor K) (hres : FullInv t i res) :
    ∃ r, (do
      let ri ← pyGet t.ttRanks i
      let res ← reshape res [some bs, none, some ri]
      let core ← pyGet t.cores i
      let currCore ← reshape core [some bs, some ri, none]
      einsum (ein! "oqb,obw->oqw") [res, currCore]) = Except.ok r ∧ FullInv t (i + 1) r := by
  have hbpre : t.bpre = [bs] := by simp [TT.bpre, hb]
  have hbs : 0 < bs := by
    rcases Nat.eq_zero_or_pos bs with h0 | h0
    · exact absurd hb (by rw [h0]; exact h.batch_pos)
    · exact h0
  have hri : 0 < t.rank i := h.rank_pos i (by omega)
  obtain ⟨hsz, hval⟩ := hres
  have hcp := core_prod h hi
  simp only [hbpre, List.prod_cons, List.prod_nil, mul_one] at hsz hcp
  obtain ⟨A, eA, sA, fA⟩ := reshape_flat res [some bs, none, some (t.rank i)]
    [bs, msize t.modes i, t.rank i] (by
    rw [hsz, resolveShape_infer _ (msize t.modes i) _ (by simp) (by simp [knownProd, hri, hbs])
      (by simp [knownProd]; ring)]; simp)
  obtain ⟨B, eB, sB, fB⟩ := reshape_flat (t.core i) [some bs, some (t.rank i), none]
    [bs, t.rank i, (t.modes i).prod * t.rank (i + 1)] (by
    rw [hcp, resolveShape_infer _ ((t.modes i).prod * t.rank (i + 1)) _ (by simp)
      (by simp [knownProd, hri, hbs]) (by simp [knownProd]; ring)]; simp)
  obtain ⟨C, eC, sC, fC⟩ : ∃ C, einsum (ein! "oqb,obw->oqw") [A, B] = Except.ok C ∧
      C.shape = [bs, msize t.modes i, (t.modes i).prod * t.rank (i + 1)] ∧
      ∀ o x y, C.get [o, x, y] = ∑ l ∈ Finset.range (t.rank i), A.get [o, x, l] * B.get [o, l, y] := by
    ein_simp [sA, sB]
  refine ⟨C, by simp [h.pyRank hi.le, h.pyCore hi, eA, eB, eC], ?_, ?_⟩
  · rw [sC, hbpre]; simp only [List.prod_cons, List.prod_nil, msize]; ring
  · intro p m b hp hm hb'
    obtain ⟨o, rfl, ho⟩ : ∃ o, p = [o] ∧ o < bs := by
      rw [hbpre] at hp; exact (valid_singleton _ _).1 hp
    have hm' : t.ValidModes m i := fun j hj => hm j (by omega)
    have hlt := mflat_lt t.modes m i hm'
    have hmi := hm i (by omega)
    have hrv := ravel_lt hmi
    have hcol := mul_add_lt hrv hb'
    have e1 : ravel t.bpre [o] * (msize t.modes (i + 1) * t.rank (i + 1)) +
        (mflat t.modes m (i + 1) * t.rank (i + 1) + b) =
        o * (msize t.modes i * ((t.modes i).prod * t.rank (i + 1))) +
        (mflat t.modes m i * ((t.modes i).prod * t.rank (i + 1)) +
          (ravel (t.modes i) (m i) * t.rank (i + 1) + b)) := by
      simp [hbpre, mflat, msize]; ring
    rw [e1, ← flat_triple C _ _ _ _ _ _ sC ho hlt hcol, fC, lprod]
    refine Finset.sum_congr rfl fun l hl => ?_
    have hl' : l < t.rank i := by simpa using hl
    congr 1
    · rw [flat_triple A _ _ _ _ _ _ sA ho hlt hl',
        fA _ (by rw [hsz]; exact mul_add_lt ho (mul_add_lt hlt hl'))]
      have := hval [o] m l hp hm' hl'
      simpa [hbpre] using this
    · rw [flat_triple B _ _ _ _ _ _ sB ho hl' hcol,
        fB _ (by rw [hcp]; exact mul_add_lt ho (mul_add_lt hl' hcol))]
      have := core_flat h hi hp hmi hl' hb'
      rw [TT.slice, this]; simp [hbpre]

/-- The part after the loop, for tensors. -/
theorem full_tail_tensor {t : TT K} (h : t.WF) (hm : ¬ t.isMatrix) (res : Tensor K)
    (hres : FullInv t t.ndims res) :
    ∃ r, reshape res (t.denseShape.map some) = Except.ok r ∧ r ≃ₜ t.dense := by
  obtain ⟨row, hrow, hlen⟩ := h.rawShape_tensor hm
  have hds : t.denseShape = t.bpre ++ row := by simp [TT.denseShape, hm, hrow]
  have hmodes : t.modes = fun k => [row.getD k 0] := by funext k; simp [TT.modes, hrow]
  have hfl : (List.range t.ndims).flatMap t.modes = row := by
    rw [hmodes, ← hlen, flatMap_singleton_getD]
  obtain ⟨hsz, hval⟩ := hres
  have hms : msize t.modes t.ndims = row.prod := by rw [msize_eq, hfl]
  rw [h.rank_last, mul_one] at hsz
  obtain ⟨r, er, sr, fr⟩ := reshape_flat res (t.denseShape.map some) t.denseShape
    (resolveShape_some _ _ (by rw [hsz, hds, hms]; simp))
  refine ⟨r, er, sr, ?_⟩
  intro idx hidx
  rw [sr, hds] at hidx
  obtain ⟨p, i, rfl, hp, hi⟩ := valid_append_iff.1 hidx
  have hil := hi.length_eq
  have hvm : t.ValidModes (tIdx i) t.ndims := by
    intro j hj
    rw [hmodes]
    simp only [tIdx, valid_cons, valid_nil_nil, and_true]
    exact ((valid_iff_getD _ _).1 hi).2 j (by omega)
  have hfm : (List.range t.ndims).flatMap (tIdx i) = i := by
    rw [← hlen, ← hil]; exact flatMap_singleton_getD i
  have hmf : mflat t.modes (tIdx i) t.ndims = ravel row i := by
    rw [mflat_eq _ _ _ (fun j hj => (hvm j hj).length_eq), hfl, hfm]
  have hv := hval p (tIdx i) 0 hp hvm (by rw [h.rank_last]; omega)
  rw [h.rank_last, mul_one, mul_one, add_zero, hms, hmf] at hv
  rw [← r.flat_ravel (by rw [sr, hds]; exact hidx), sr, hds, ravel_append _ _ hp.length_eq,
    fr _ (by rw [hsz, hms]; exact mul_add_lt (ravel_lt hp) (ravel_lt hi)), hv]
  simp only [TT.dense, TT.decode, hm, if_false, TT.entry]
  rw [List.take_left' (by rw [hp.length_eq]), List.drop_left' (by rw [hp.length_eq])]

/-- The part after the loop, for matrices. -/
theorem full_tail_matrix {t : TT K} (h : t.WF) (hm : t.isMatrix) (res : Tensor K)
    (hres : FullInv t t.ndims res) :
    ∃ inter r1 r2 r, interleavedShape t = Except.ok inter ∧
      reshape res ((t.bpre ++ inter).map some) = Except.ok r1 ∧
      transpose r1 (eoPerm t.bpre.length t.ndims) = Except.ok r2 ∧
      reshape r2 (t.denseShape.map some) = Except.ok r ∧ r ≃ₜ t.dense := by
  obtain ⟨row0, row1, hrow, hl0, hl1⟩ := h.rawShape_matrix hm
  have hds : t.denseShape = t.bpre ++ [row0.prod, row1.prod] := by simp [TT.denseShape, hm, hrow]
  have hmodes : t.modes = fun k => [row0.getD k 0, row1.getD k 0] := by
    funext k; simp [TT.modes, hrow]
  have hinter : interleavedShape t = Except.ok ((List.range t.ndims).flatMap t.modes) := by
    have h0 : pyGet t.rawShape 0 = Except.ok row0 := by simp [hrow, pyGet]
    have h1 : pyGet t.rawShape 1 = Except.ok row1 := by simp [hrow, pyGet]
    have h2 := mapRange_eq t.ndims (fun i => do
      let a ← pyGet row0 i
      let b ← pyGet row1 i
      pure [a, b]) t.modes (by
        intro k hk
        rw [pyGet_of_lt row0 k 0 (by omega), pyGet_of_lt row1 k 0 (by omega), hmodes]
        rfl)
    simp only [R.pure_eq] at h2
    simp only [interleavedShape, h0, h1, R.ok_bind, h2, R.pure_eq, List.flatMap_def]
  obtain ⟨hsz, hval⟩ := hres
  rw [h.rank_last, mul_one] at hsz
  obtain ⟨r1, er1, sr1, fr1⟩ := reshape_flat res
    ((t.bpre ++ (List.range t.ndims).flatMap t.modes).map some)
    (t.bpre ++ (List.range t.ndims).flatMap t.modes)
    (resolveShape_some _ _ (by rw [hsz, msize_eq]; simp))
  obtain ⟨r2, er2, sr2, fr2⟩ := transpose_eo r1 t.bpre row0 row1 t.ndims hl0 hl1 (by rw [sr1, hmodes])
  have hsz2 : r2.shape.prod = t.bpre.prod * (row0.prod * row1.prod) := by rw [sr2]; simp
  obtain ⟨r, er, sr, fr⟩ := reshape_spec r2 (t.denseShape.map some) t.denseShape
    (resolveShape_some _ _ (by rw [hsz2, hds]; simp))
  refine ⟨_, r1, r2, r, hinter, er1, er2, er, sr, ?_⟩
  intro idx hidx
  rw [sr, hds] at hidx
  obtain ⟨p, xy, rfl, hp, hxy⟩ := valid_append_iff.1 hidx
  obtain ⟨x, y, rfl, hx, hy⟩ := (valid_pair _ _ _).1 hxy
  have hi := unravel_valid hx
  have hj := unravel_valid hy
  have hvm : t.ValidModes (mIdx (unravel row0 x) (unravel row1 y)) t.ndims := by
    intro k hk
    rw [hmodes]
    simp only [mIdx, valid_cons, valid_nil_nil, and_true]
    exact ⟨((valid_iff_getD _ _).1 hi).2 k (by omega), ((valid_iff_getD _ _).1 hj).2 k (by omega)⟩
  have hv := hval p _ 0 hp hvm (by rw [h.rank_last]; omega)
  rw [h.rank_last, mul_one, mul_one, add_zero, mflat_eq _ _ _ (fun j hj => (hvm j hj).length_eq),
    msize_eq] at hv
  rw [fr (p ++ [x, y]) (p ++ (unravel row0 x ++ unravel row1 y))
      (by rw [sr2]; exact valid_append hp (valid_append hi hj)) (by
        rw [hds, sr2, ravel_append _ _ hp.length_eq, ravel_append _ _ hp.length_eq,
          ravel_append _ _ hi.length_eq, ravel_unravel hx, ravel_unravel hy]
        simp),
    fr2 p _ _ hp.length_eq (hi.length_eq.trans hl0) (hj.length_eq.trans hl1),
    ← r1.flat_ravel (by
      rw [sr1]; exact valid_append hp (valid_flatMap t.modes (mIdx _ _) _ hvm)),
    sr1, ravel_append _ _ hp.length_eq]
  have hlt : ravel t.bpre p * ((List.range t.ndims).flatMap t.modes).prod +
      ravel ((List.range t.ndims).flatMap t.modes)
        ((List.range t.ndims).flatMap (mIdx (unravel row0 x) (unravel row1 y))) < res.shape.prod := by
    rw [hsz, msize_eq]
    exact mul_add_lt (ravel_lt hp) (ravel_lt (valid_flatMap t.modes _ _ hvm))
  rw [show (fun k => [(unravel row0 x).getD k 0, (unravel row1 y).getD k 0]) =
    mIdx (unravel row0 x) (unravel row1 y) from rfl, fr1 _ hlt, hv]
  simp only [TT.dense, TT.decode, hm, if_true, TT.entry]
  rw [List.take_left' (by rw [hp.length_eq]), List.drop_left' (by rw [hp.length_eq])]
  simp [hrow]

theorem getShape_eq {t : TT K} (h : t.WF) : t.getShape = Except.ok t.denseShape := by
  unfold TT.getShape TT.denseShape TT.bpre
  by_cases hm : t.isMatrix
  · obtain ⟨row0, row1, hrow, hl0, hl1⟩ := h.rawShape_matrix hm
    cases hb : t.batch <;> simp [hm, hrow, pyGet]
  · obtain ⟨row0, hrow, hl0⟩ := h.rawShape_tensor hm
    cases hb : t.batch <;> simp [hm, hrow, pyGet]

/-- `full` succeeds on well-formed objects and returns the represented dense tensor. -/
theorem full_dense {t : TT K} (h : t.WF) : ∃ F, full t = Except.ok F ∧ F ≃ₜ t.dense := by
  unfold full
  cases hb : t.batch with
  | none =>
    have hbpre : t.bpre = [] := by simp [TT.bpre, hb]
    obtain ⟨res, eres, hres⟩ := forRange_inv (FullInv t) _ 1 (t.ndims - 1) (t.core 0) (fullInv_one h)
      (fun i s hi hi' hs => fullTT_step h hb i (by have := h.pos; omega) s hs)
    rw [show 1 + (t.ndims - 1) = t.ndims by have := h.pos; omega] at hres
    simp only [TT.isBatch, hb, Option.isSome_none, Bool.false_eq_true, if_false, fullTT, getShape_eq h,
      h.pyCore h.pos, R.ok_bind, eres]
    by_cases hm : t.isMatrix
    · obtain ⟨inter, r1, r2, r, e0, e1, e2, e3, he⟩ := full_tail_matrix h hm res hres
      refine ⟨r, ?_, he⟩
      rw [hbpre] at e1 e2
      rw [List.nil_append] at e1
      rw [List.length_nil, eoPerm_zero] at e2
      simp only [hm, if_true, e0, R.ok_bind, e1, e2, e3]
    · obtain ⟨r, e, he⟩ := full_tail_tensor h hm res hres
      exact ⟨r, by simp only [hm, if_false, e], he⟩
  | some bs =>
    have hbpre : t.bpre = [bs] := by simp [TT.bpre, hb]
    obtain ⟨res, eres, hres⟩ := forRange_inv (FullInv t) _ 1 (t.ndims - 1) (t.core 0) (fullInv_one h)
      (fun i s hi hi' hs => fullBatch_step h bs hb i (by have := h.pos; omega) s hs)
    rw [show 1 + (t.ndims - 1) = t.ndims by have := h.pos; omega] at hres
    simp only [TT.isBatch, hb, Option.isSome_some, if_true, fullBatch, getShape_eq h, TT.lazyBatchSize,
      h.pyCore h.pos, R.ok_bind, eres]
    by_cases hm : t.isMatrix
    · obtain ⟨inter, r1, r2, r, e0, e1, e2, e3, he⟩ := full_tail_matrix h hm res hres
      refine ⟨r, ?_, he⟩
      rw [hbpre] at e1 e2
      rw [List.cons_append, List.nil_append] at e1
      rw [List.length_cons, List.length_nil, Nat.zero_add, eoPerm_one] at e2
      simp only [hm, if_true, e0, R.ok_bind, e1, e2, e3]
    · obtain ⟨r, e, he⟩ := full_tail_tensor h hm res hres
      exact ⟨r, by simp only [hm, if_false, e], he⟩

end T3f
