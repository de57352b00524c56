import Verif.Proofs.Trace
import Verif.Props.C04Add
import Verif.Props.C06Arith
import Verif.Props.C09Matmul
import Verif.Props.C11Inner
import Verif.Props.C49KerasDense

/-!
# C65 — inside `tf.function`, with batches of unknown size
-/

namespace T3f

variable {K : Type} [CommRing K]

/-- **C65, `full`.** A batch of unknown size can be converted, unless its size is a symbolic tensor. -/
theorem C65_full (t : Traced K) (h : t.obj.WF) :
    (t.size ≠ some .tensor → ∃ T, fullTraced t = Except.ok T ∧ T ≃ₜ t.obj.dense) ∧
    (t.size = some .tensor → fullTraced t = Except.error Err.notImpl) := by
  refine ⟨fun hs => ?_, fun hs => by rw [fullTraced, if_pos hs]; rfl⟩
  obtain ⟨T, e, v⟩ := full_dense h
  exact ⟨T, by rw [fullTraced, if_neg hs]; exact e, v⟩

/-- **C65, sums.** For the supported combinations of static sizes and every actual batch size, the sum computed by the traced function
represents the sum of the tensors. -/
theorem C65_add (a b : Traced K) (ha : a.obj.WF) (hb : b.obj.WF) (sa : a.Sound) (sb : b.Sound) (hd : 2 ≤ a.obj.ndims)
    (hr : a.obj.rawShape = b.obj.rawShape) (inf : Bool) (hs : AddSizes a.size b.size) :
    ∃ c A B C S, addTraced inf a b = Except.ok c ∧ c.obj.WF ∧ c.Sound ∧ c.obj.rawShape = a.obj.rawShape ∧
      full a.obj = Except.ok A ∧ full b.obj = Except.ok B ∧ full c.obj = Except.ok C ∧
      binop (· + ·) A B = Except.ok S ∧ C ≃ₜ S ∧
      (∀ k, 1 ≤ k → k < a.obj.ndims → c.obj.rank k = a.obj.rank k + b.obj.rank k) ∧
      (c.size = some .tensor ↔ (a.size = some .unknown ∨ b.size = some .unknown)) := by
  obtain ⟨c, e, w, s, r, hz, -, bt, nd, rk, en⟩ := addTraced_spec ha hb sa sb hd hr inf hs
  obtain ⟨A, B, C, S, eA, eB, eC, eS, eqv⟩ := full_binop (· + ·) ha hb w hr r bt en
  refine ⟨c, A, B, C, S, e, w, s, r, eA, eB, eC, eS, eqv, ?_, hz⟩
  intro k h1 h2
  rw [rk k h2.le, addRk, if_neg (by omega)]

/-- **C65, sums.** Every other combination of static sizes fails, whatever the actual sizes. -/
theorem C65_add_error (a b : Traced K) (inf : Bool) (hs : ¬ AddSizes a.size b.size) :
    ∃ e, addTraced inf a b = Except.error e := addTraced_error inf hs

/-- **C65, sums, compared with eager mode.** Where the eager `add` succeeds, both results represent the same tensor. -/
theorem C65_add_eager (a b : Traced K) (ha : a.obj.WF) (hb : b.obj.WF) (sa : a.Sound) (sb : b.Sound) (inf : Bool) (hs : AddSizes a.size b.size)
    (c' : TT K) (he : add a.obj b.obj = Except.ok c') :
    ∃ c C C', addTraced inf a b = Except.ok c ∧ full c.obj = Except.ok C ∧ full c' = Except.ok C' ∧ C ≃ₜ C' := by
  obtain ⟨hd, hr, hbt⟩ := (C05_add_ok_iff a.obj b.obj ha hb).1.1 ⟨c', he⟩
  obtain ⟨c, A, B, C, S, e, -, -, -, eA, eB, eC, eS, eqv, -⟩ := C65_add a b ha hb sa sb hd hr inf hs
  obtain ⟨c'', A', B', C', S', e', -, -, eA', eB', eC', eS', eqv', -⟩ := C04_add a.obj b.obj ha hb hd hr hbt
  rw [eA] at eA'; rw [eB] at eB'; cases eA'; cases eB'
  rw [eS] at eS'; cases eS'
  rw [he] at e'; cases e'
  exact ⟨c, C, C', e, eC, eC', eqv.trans eqv'.symm⟩

/-- **C65, finding.** A sum that involves a batch of unknown size cannot be used any further: `full`, `add`, matrix products and inner products
with it fail for every second operand, and so do elementwise products with batches. (An elementwise product with an object that is no batch works.) -/
theorem C65_sum_unusable (a b : Traced K) (ha : a.obj.WF) (hb : b.obj.WF) (sa : a.Sound) (sb : b.Sound) (hd : 2 ≤ a.obj.ndims)
    (hr : a.obj.rawShape = b.obj.rawShape) (inf : Bool) (hs : AddSizes a.size b.size) (hu : a.size = some .unknown ∨ b.size = some .unknown) :
    ∃ c, addTraced inf a b = Except.ok c ∧ fullTraced c = Except.error Err.notImpl ∧
      ∀ (x : Traced K) (i : Bool), x.obj.WF → x.Sound →
        (∃ e, addTraced i c x = Except.error e) ∧ (∃ e, addTraced i x c = Except.error e) ∧
        (∃ e, matmulTraced i c x = Except.error e) ∧ (∃ e, matmulTraced i x c = Except.error e) ∧
        (∃ e, flatInnerTraced c x = Except.error e) ∧ (∃ e, flatInnerTraced x c = Except.error e) ∧
        (x.size ≠ none → (∃ e, multiplyTraced i c x = Except.error e) ∧ ∃ e, multiplyTraced i x c = Except.error e) := by
  obtain ⟨c, e, w, s, r, hz, -⟩ := addTraced_spec ha hb sa sb hd hr inf hs
  have hc := hz.2 hu
  have h1 : ∀ x, ¬ AddSizes (some .tensor) x := by
    intro x; rcases x with _ | _ | _ | _ <;> simp [AddSizes]
  have h2 : ∀ x, ¬ AddSizes x (some .tensor) := by
    intro x; rcases x with _ | _ | _ | _ <;> simp [AddSizes]
  have h3 : ∀ x, ¬ MatmulSizes (some .tensor) x := by
    intro x; rcases x with _ | _ | _ | _ <;> simp [MatmulSizes]
  have h4 : ∀ x, ¬ MatmulSizes x (some .tensor) := by
    intro x; rcases x with _ | _ | _ | _ <;> simp [MatmulSizes]
  refine ⟨c, e, (C65_full c w).2 hc, fun x i wx sx => ⟨addTraced_error i (by rw [hc]; exact h1 _), addTraced_error i (by rw [hc]; exact h2 _),
    matmulTraced_error w s i (by rw [hc]; exact h3 _), matmulTraced_error wx sx i (by rw [hc]; exact h4 _),
    flatInnerTraced_error w s (by rw [hc]; exact h3 _), flatInnerTraced_error wx sx (by rw [hc]; exact h4 _), fun hx => ⟨?_, ?_⟩⟩⟩
  · apply multiplyTraced_error
    rw [hc]
    rcases h : x.size with _ | _ | _ | _ <;> first | exact absurd h hx | simp [MulSizes]
  · apply multiplyTraced_error
    rw [hc]
    rcases h : x.size with _ | _ | _ | _ <;> first | exact absurd h hx | simp [MulSizes]

theorem modesProd_pos {a : TT K} (ha : a.WF) (hpos : ∀ row ∈ a.rawShape, ∀ n ∈ row, 0 < n) : ∀ k < a.ndims, 0 < (a.modes k).prod := by
  intro k hk
  rw [Nat.pos_iff_ne_zero, Ne, List.prod_eq_zero_iff]
  intro h0
  obtain ⟨row, hrow, h⟩ := List.mem_map.1 h0
  rw [List.getD_eq_getElem _ _ (by rw [ha.rows_len row hrow]; exact hk)] at h
  have := hpos row hrow _ (List.getElem_mem (by rw [ha.rows_len row hrow]; exact hk))
  omega

/-- **C65, elementwise products.** For the supported combinations of sizes (two batches of unknown size must have the same actual size) the product
computed by the traced function represents the product of the tensors, and can be converted by `full` there if the operands can. -/
theorem C65_multiply (a b : Traced K) (ha : a.obj.WF) (hb : b.obj.WF) (sa : a.Sound) (sb : b.Sound) (hr : a.obj.rawShape = b.obj.rawShape) (inf : Bool)
    (hs : MulSizes a.size b.size a.obj.batch b.obj.batch) (hpos : ∀ row ∈ a.obj.rawShape, ∀ n ∈ row, 0 < n) :
    ∃ c A B C S, multiplyTraced inf a b = Except.ok c ∧ c.obj.WF ∧ c.Sound ∧ c.obj.rawShape = a.obj.rawShape ∧
      c.obj.isBatch = (a.obj.isBatch || b.obj.isBatch) ∧
      full a.obj = Except.ok A ∧ full b.obj = Except.ok B ∧ full c.obj = Except.ok C ∧
      binop (· * ·) A B = Except.ok S ∧ C ≃ₜ S ∧
      (a.size ≠ some .tensor → b.size ≠ some .tensor → fullTraced c = Except.ok C) ∧
      ∀ k ≤ a.obj.ndims, c.obj.rank k = a.obj.rank k * b.obj.rank k := by
  obtain ⟨c, e, w, s, r, hb', bt, hz, nd, rk, en⟩ := multiplyTraced_spec ha hb sa sb hr inf hs (modesProd_pos ha hpos)
  obtain ⟨A, B, C, S, eA, eB, eC, eS, eqv⟩ := full_binop (· * ·) ha hb w hr r bt en
  refine ⟨c, A, B, C, S, e, w, s, r, ?_, eA, eB, eC, eS, eqv, fun h1 h2 => ?_, rk⟩
  · rw [TT.isBatch, hb', TT.isBatch, TT.isBatch]
    cases a.obj.batch <;> cases b.obj.batch <;> simp only [mulOutBatch] <;> (try split_ifs) <;> rfl
  · rw [fullTraced, if_neg (fun h => (hz h).elim h1 h2)]; exact eC

/-- **C65, elementwise products.** Everything else fails; in particular two batches of unknown size whose actual sizes differ, even if one of them is one. -/
theorem C65_multiply_error (a b : Traced K) (inf : Bool) (hs : ¬ MulSizes a.size b.size a.obj.batch b.obj.batch) :
    ∃ e, multiplyTraced inf a b = Except.error e := multiplyTraced_error inf hs

/-- **C65, elementwise products, compared with eager mode.** Where the traced product succeeds, the eager one does, and both represent the same tensor. -/
theorem C65_multiply_eager (a b : Traced K) (ha : a.obj.WF) (hb : b.obj.WF) (sa : a.Sound) (sb : b.Sound) (inf : Bool)
    (hpos : ∀ row ∈ a.obj.rawShape, ∀ n ∈ row, 0 < n) (hr : a.obj.rawShape = b.obj.rawShape) (hs : MulSizes a.size b.size a.obj.batch b.obj.batch) :
    ∃ c c' C C', multiplyTraced inf a b = Except.ok c ∧ multiply a.obj b.obj = Except.ok c' ∧
      full c.obj = Except.ok C ∧ full c' = Except.ok C' ∧ C ≃ₜ C' := by
  obtain ⟨_, _, _, _, _, _, _, _, _, _, hc, _⟩ := mulDecide sa sb ha.batch_pos hb.batch_pos hs
  obtain ⟨c, A, B, C, S, e, -, -, -, -, eA, eB, eC, eS, eqv, -⟩ := C65_multiply a b ha hb sa sb hr inf hs hpos
  obtain ⟨c', A', B', C', S', e', -, -, -, eA', eB', eC', eS', eqv', -⟩ := C07_multiply a.obj b.obj ha hb hr hc hpos
  rw [eA] at eA'; rw [eB] at eB'; cases eA'; cases eB'
  rw [eS] at eS'; cases eS'
  exact ⟨c, c', C, C', e, e', eC, eC', eqv.trans eqv'.symm⟩

omit [CommRing K] in
theorem MatmulSizes.compat {a b : Traced K} (hs : MatmulSizes a.size b.size) (sa : a.Sound) (sb : b.Sound) : BCompat a.obj.batch b.obj.batch := by
  have fa : SizeFits a.size a.obj.batch := sa
  have fb : SizeFits b.size b.obj.batch := sb
  revert fa fb hs
  generalize a.obj.batch = p
  generalize b.obj.batch = q
  rcases a.size with _ | m | _ | _ <;> rcases b.size with _ | n | _ | _ <;> simp only [MatmulSizes, false_implies] <;> intro hs fa fb
  all_goals first
    | (rw [fa.none]; trivial)
    | (rw [fb.none]; rcases p with _ | p <;> trivial)
    | (rw [fa.known, fb.known]; exact hs)
    | (obtain ⟨y, rfl⟩ := fb.some; rw [fa.known]; simp [BCompat, hs])
    | (obtain ⟨y, rfl⟩ := fa.some; rw [fb.known]; simp [BCompat, hs])

/-- **C65, matrix products.** For the supported combinations of static sizes the product represents, for every element of the broadcast batch, the product
of the dense matrices. -/
theorem C65_matmul (a b : Traced K) (ha : a.obj.WF) (hb : b.obj.WF) (sa : a.Sound) (sb : b.Sound) (I J L : List ℕ)
    (hra : a.obj.rawShape = [I, J]) (hrb : b.obj.rawShape = [J, L]) (inf : Bool) (hs : MatmulSizes a.size b.size) :
    ∃ c A B C, matmulTraced inf a b = Except.ok c ∧ c.obj.WF ∧ c.Sound ∧ c.obj.rawShape = [I, L] ∧
      c.obj.batch.getD 1 = (bcast a.obj.batch b.obj.batch).getD 1 ∧
      full a.obj = Except.ok A ∧ full b.obj = Except.ok B ∧ full c.obj = Except.ok C ∧
      C.shape = c.obj.batch.toList ++ [I.prod, L.prod] ∧
      (∀ o x y, o < (bcast a.obj.batch b.obj.batch).getD 1 → x < I.prod → y < L.prod →
        C.get (bsel c.obj.batch o ++ [x, y]) = ∑ z ∈ Finset.range J.prod,
          A.get (bsel a.obj.batch o ++ [x, z]) * B.get (bsel b.obj.batch o ++ [z, y])) ∧
      (∀ k ≤ a.obj.ndims, c.obj.rank k = a.obj.rank k * b.obj.rank k) ∧
      (c.size = some .tensor ↔ (a.size = some .unknown ∨ b.size = some .unknown)) := by
  obtain ⟨c, e, w, s, r, hz, -, bt, nd, rk, en⟩ := matmulTraced_spec ha hb sa sb hra hrb inf hs
  have hbatch := hs.compat sa sb
  obtain ⟨A, eA, -, vA⟩ := full_matrix ha hra
  obtain ⟨B, eB, -, vB⟩ := full_matrix hb hrb
  obtain ⟨C, eC, sC, vC⟩ := full_matrix w r
  refine ⟨c, A, B, C, e, w, s, r, bt, eA, eB, eC, sC, ?_, rk, hz⟩
  intro o x y ho hx hy
  obtain ⟨v1, v2⟩ := bcast_valid hbatch ho
  have v3 : Valid c.obj.bpre (bsel c.obj.batch o) := by
    have ho' : o < c.obj.batch.getD 1 := by rw [bt]; exact ho
    rw [← bsel_lsel_of_lt (Or.inr rfl) ho']
    exact lsel_valid ho'
  rw [vC _ x y v3 hx hy, en o _ _ ho (unravel_valid hx) (unravel_valid hy)]
  refine Finset.sum_congr rfl fun z hz => ?_
  have hz' : z < J.prod := by simpa using hz
  rw [vA _ x z v1 hx hz', vB _ z y v2 hz' hy]

/-- **C65, matrix products.** All other combinations fail. -/
theorem C65_matmul_error (a b : Traced K) (ha : a.obj.WF) (sa : a.Sound) (inf : Bool) (hs : ¬ MatmulSizes a.size b.size) :
    ∃ e, matmulTraced inf a b = Except.error e := matmulTraced_error ha sa inf hs

/-- **C65, inner products.** -/
theorem C65_flat_inner (a b : Traced K) (ha : a.obj.WF) (hb : b.obj.WF) (sa : a.Sound) (sb : b.Sound) (hr : a.obj.rawShape = b.obj.rawShape)
    (hs : MatmulSizes a.size b.size) :
    ∃ F A B s, flatInnerTraced a b = Except.ok F ∧ full a.obj = Except.ok A ∧ full b.obj = Except.ok B ∧
      A.shape = a.obj.batch.toList ++ s ∧ B.shape = b.obj.batch.toList ++ s ∧
      F.shape = (squeezed (bcast a.obj.batch b.obj.batch)).toList ∧
      ∀ o, o < (bcast a.obj.batch b.obj.batch).getD 1 → F.get (bsel (squeezed (bcast a.obj.batch b.obj.batch)) o) =
        ∑ n ∈ Finset.range s.prod,
          A.get (bsel a.obj.batch o ++ unravel s n) * B.get (bsel b.obj.batch o ++ unravel s n) := by
  obtain ⟨F, e, sF, vF⟩ := flatInnerTraced_spec ha hb sa sb hr hs
  obtain ⟨A, eA, sA, vA⟩ := full_ok ha
  obtain ⟨B, eB, sB, vB⟩ := full_ok hb
  have hbatch := hs.compat sa sb
  refine ⟨F, A, B, restShape a.obj.rawShape, e, eA, eB, sA, by rw [sB, hr]; rfl, sF, fun o ho => ?_⟩
  obtain ⟨v1, v2⟩ := bcast_valid hbatch ho
  rw [vF o ho]
  refine Finset.sum_congr rfl fun n hn => ?_
  have hv := unravel_valid (show n < (restShape a.obj.rawShape).prod by simpa using hn)
  rw [vA _ _ v1 hv, vB _ _ v2 (by rw [← hr]; exact hv), ← hr]

/-- **C65, inner products.** All other combinations of static sizes fail. -/
theorem C65_flat_inner_error (a b : Traced K) (ha : a.obj.WF) (sa : a.Sound) (hs : ¬ MatmulSizes a.size b.size) :
    ∃ e, flatInnerTraced a b = Except.error e := flatInnerTraced_error ha sa hs

/-- **C65, TT-matrix times dense matrix.** The static shape of the dense matrix does not matter, as long as its number of axes is known and it does not
hide a wrong number of rows. -/
theorem C65_tt_dense (a : TT K) (ha : a.WF) (I J : List ℕ) (hra : a.rawShape = [I, J]) (hb : a.batch = none) (hJ : ∀ n ∈ J, 0 < n)
    (B : Tensor K) (c : ℕ) (hB : B.shape = [J.prod, c]) (st : List (Option ℕ)) (hst : ShapeFits st B.shape) :
    ∃ D A S, ttDenseMatmulTraced a (some st) B = Except.ok D ∧ D.shape = [I.prod, c] ∧ full a = Except.ok A ∧
      matmul A B = Except.ok S ∧ D ≃ₜ S := by
  rw [ttDenseMatmulTraced_eq ha hra hb hB hst (Or.inr rfl)]
  exact C10_tt_dense a ha I J hra hb hJ B c hB

/-- **C65, TT-matrix times dense matrix.** A wrong number of rows of a nonempty matrix always makes the call fail, also if it was not known statically. -/
theorem C65_tt_dense_mismatch (a : TT K) (ha : a.WF) (I J : List ℕ) (hra : a.rawShape = [I, J]) (hb : a.batch = none) (hI : ∀ n ∈ I, 0 < n)
    (B : Tensor K) (m c : ℕ) (hB : B.shape = [m, c]) (hc : 0 < c) (hm : m ≠ J.prod) (static : Option (List (Option ℕ))) :
    ∃ e, ttDenseMatmulTraced a static B = Except.error e := by
  rcases h : ttDenseMatmulTraced a static B with e | D
  · exact ⟨e, rfl⟩
  · exact absurd (ttDenseMatmulTraced_size ha hra hb (Nat.pos_of_ne_zero fun h0 => by
      have := hI 0 (List.prod_eq_zero_iff.1 h0); omega) hB hc static h) hm

/-- **C65, TT-matrix times dense matrix.** A dense matrix of unknown rank is rejected. -/
theorem C65_tt_dense_unknown_rank (a : TT K) (ha : a.WF) (I J : List ℕ) (hra : a.rawShape = [I, J]) (hb : a.batch = none) (B : Tensor K) :
    ttDenseMatmulTraced a none B = Except.error Err.value := by
  have hsh : a.getShape = Except.ok [I.prod, J.prod] := by
    rw [getShape_eq ha, denseShape_eq, hra, bpre_none hb]; rfl
  have hmx : a.isMatrix := by simp [TT.isMatrix, hra]
  have q1 : pyGet [I.prod, J.prod] 1 = Except.ok J.prod := rfl
  simp only [ttDenseMatmulTraced, require_pos (show a.batch = none ∧ a.isMatrix from ⟨hb, hmx⟩), hsh, R.ok_bind, q1, R.throw_eq, R.error_bind]

/-- **C65, dense matrix times TT-matrix.** -/
theorem C65_dense_tt (b : TT K) (hb : b.WF) (I J : List ℕ) (hrb : b.rawShape = [I, J]) (hbatch : b.batch = none) (hI : ∀ n ∈ I, 0 < n)
    (A : Tensor K) (r : ℕ) (hA : A.shape = [r, I.prod]) (x y : Option ℕ) (hst : ShapeFits [x, y] A.shape) :
    ∃ D B S, denseTTMatmulTraced (some [x, y]) A b = Except.ok D ∧ D.shape = [r, J.prod] ∧ full b = Except.ok B ∧
      matmul A B = Except.ok S ∧ D ≃ₜ S := by
  rw [denseTTMatmulTraced_eq hb hrb hbatch hA hst (Or.inr rfl)]
  exact C10_dense_tt b hb I J hrb hbatch hI A r hA

/-- **C65, dense matrix times TT-matrix.** A wrong number of columns always makes the call fail. -/
theorem C65_dense_tt_mismatch (b : TT K) (hb : b.WF) (I J : List ℕ) (hrb : b.rawShape = [I, J]) (hbatch : b.batch = none) (hJ : ∀ n ∈ J, 0 < n)
    (A : Tensor K) (r m : ℕ) (hA : A.shape = [r, m]) (hr : 0 < r) (hm : m ≠ I.prod) (static : Option (List (Option ℕ))) :
    ∃ e, denseTTMatmulTraced static A b = Except.error e := by
  rcases h : denseTTMatmulTraced static A b with e | D
  · exact ⟨e, rfl⟩
  · exact absurd (denseTTMatmulTraced_size hb hrb hbatch (Nat.pos_of_ne_zero fun h0 => by
      have := hJ 0 (List.prod_eq_zero_iff.1 h0); omega) hA hr static h) hm

/-- **C65, dense layer.** In a Keras model, where the number of rows of the input is unknown, the layer computes what it computes in eager mode. -/
theorem C65_keras (act : String → Option (Tensor ℝ → Tensor ℝ)) (σ : Store ℝ) (layer : KerasDense) (I J : List ℕ) (hw : (layer.matrix.tt σ).WF)
    (hraw : layer.matrix.rawShape = [I, J]) (hbatch : layer.matrix.batch = none) (x : Tensor ℝ) (r m : ℕ) (hx : x.shape = [r, m]) :
    layer.callTraced act σ (some [none, some m]) x = layer.call act σ x := by
  have hst : ShapeFits [none, some m] x.shape := by simp [ShapeFits, hx]
  have e := denseTTMatmulTraced_eq hw hraw hbatch hx hst (Or.inl rfl)
  have hb : ¬ (layer.matrix.tt σ).isBatch = true := by simp [TT.isBatch, VObj.tt, hbatch]
  rw [KerasDense.callTraced, KerasDense.call, matmulAny, if_neg hb, if_neg hb, e]
  cases denseTTMatmul x (layer.matrix.tt σ) <;> rfl

/-- **C65, dense layer.** The same if also the number of columns is unknown, but right. -/
theorem C65_keras_unknown (act : String → Option (Tensor ℝ → Tensor ℝ)) (σ : Store ℝ) (layer : KerasDense) (I J : List ℕ) (hw : (layer.matrix.tt σ).WF)
    (hraw : layer.matrix.rawShape = [I, J]) (hbatch : layer.matrix.batch = none) (x : Tensor ℝ) (r : ℕ) (hx : x.shape = [r, I.prod]) :
    layer.callTraced act σ (some [none, none]) x = layer.call act σ x := by
  have hst : ShapeFits [none, none] x.shape := by simp [ShapeFits, hx]
  have e := denseTTMatmulTraced_eq hw hraw hbatch hx hst (Or.inr rfl)
  have hb : ¬ (layer.matrix.tt σ).isBatch = true := by simp [TT.isBatch, VObj.tt, hbatch]
  rw [KerasDense.callTraced, KerasDense.call, matmulAny, if_neg hb, if_neg hb, e]
  cases denseTTMatmul x (layer.matrix.tt σ) <;> rfl

/-! ## Concrete cases -/

/-- A batch of unknown size. -/
def exUnknown (t : TT ℤ) : Traced ℤ := ⟨t, some .unknown⟩

theorem exUnknown_sound {t : TT ℤ} {n : ℕ} (h : t.batch = some n) : (exUnknown t).Sound := by
  constructor
  · simp [exUnknown, h]
  · intro m hm; simp [exUnknown] at hm

example : exBatch.WF ∧ exTensor.WF ∧ exBatch.batch = some 2 ∧ 2 ≤ exBatch.ndims ∧ exBatch.rawShape = exTensor.rawShape ∧
    (∀ row ∈ exBatch.rawShape, ∀ n ∈ row, 0 < n) := by decide
example : AddSizes (exUnknown exBatch).size none ∧ ¬ AddSizes (exUnknown exBatch).size (exUnknown exBatch).size := ⟨trivial, id⟩
example : ((addTraced true (exUnknown exBatch) ⟨exTensor, none⟩).bind fun c => full c.obj).map (fun F => (F.shape, F.get [1, 1, 0, 2])) =
    ((add exBatch exTensor).bind full).map (fun F => (F.shape, F.get [1, 1, 0, 2])) := by decide
example : MulSizes (exUnknown exBatch).size (exUnknown exBatch).size exBatch.batch exBatch.batch ∧
    ¬ MulSizes (exUnknown exBatch).size (exUnknown exBatch1).size exBatch.batch exBatch1.batch :=
  ⟨rfl, by simp [MulSizes, exUnknown, exBatch, exBatch1]⟩
example : ((multiplyTraced false (exUnknown exBatch) (exUnknown exBatch)).bind fullTraced).map (fun F => (F.shape, F.get [1, 1, 0, 2])) =
    ((multiply exBatch exBatch).bind full).map (fun F => (F.shape, F.get [1, 1, 0, 2])) := by decide
example : (multiplyTraced false (exUnknown exBatch) (exUnknown exBatch1)).toOption.isNone ∧ (multiply exBatch exBatch1).toOption.isSome := by decide
example : MatmulSizes (exUnknown exBatchMatrix).size none ∧ ¬ MatmulSizes (exUnknown exBatch).size (exUnknown exBatch).size := ⟨trivial, id⟩
example : ((matmulTraced false (exUnknown exBatchMatrix) ⟨exMatrix', none⟩).bind fun c => full c.obj).map (fun F => F.shape) =
    Except.ok [2, 2, 6] := by decide
example : (flatInnerTraced (exUnknown exBatch) ⟨exTensor, none⟩).map (fun F => (F.shape, F.get [1])) =
    (flatInner exBatch exTensor).map (fun F => (F.shape, F.get [1])) := by decide
example : ShapeFits [none, some 3] [2, 3] ∧ ShapeFits [none, none] [2, 3] := by simp [ShapeFits]
example : (ttDenseMatmulTraced exMatrix (some [none, some 3]) (.ofList [2, 3] [1, 2, 3, 4, 5, 6])).map
    (fun F => (F.shape, F.get [3, 1])) = Except.ok ([4, 3], 26 * 2 + -9 * 5) := by decide
example : (ttDenseMatmulTraced exMatrix (some [none, some 3]) (.ofList [4, 3] [1, 2, 3, 4, 5, 6, 1, 2, 3, 4, 5, 6])).toOption.isNone := by decide

end T3f
