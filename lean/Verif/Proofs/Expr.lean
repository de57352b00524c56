import Verif.Spec.Expr
import Verif.Proofs.Add
import Verif.Proofs.Multiply
import Verif.Proofs.Scalar
import Verif.Proofs.Matmul
import Verif.Proofs.TTTranspose
import Verif.Proofs.Ortho
import Verif.Proofs.OrthoRL
import Verif.Proofs.Renorm
import Verif.Proofs.Concat
import Verif.Proofs.BatchItem
import Verif.Proofs.FullGet
import Verif.Props.C04Add
import Verif.Props.C06Arith
import Verif.Props.C09Matmul
import Verif.Props.C20Indexing

/-!
# Expressions: one operation at a time
-/

namespace T3f

variable {K : Type} [CommRing K]

/-- The object `t` has type `τ` and its items are `v`. -/
structure Rep (t : TT K) (τ : Ty) (v : ℕ → List ℕ → K) : Prop where
  wf : t.WF
  pos : t.ModesPos
  raw : t.rawShape = τ.raw
  batch : t.batch = τ.batch
  val : ∀ o i, τ.HasItem o → Valid τ.shape i → t.entry (bsel τ.batch o) (restModes τ.raw i) = v o i

theorem hasItem_valid {τ : Ty} {o : ℕ} (h : τ.HasItem o) (hz : τ.batch ≠ some 0) :
    Valid τ.batch.toList (bsel τ.batch o) := by
  unfold Ty.HasItem at h
  rcases hb : τ.batch with _ | n
  · trivial
  · rw [hb] at h hz
    have hz' : n ≠ 0 := fun h => hz (by rw [h])
    simp only [bsel, Option.toList, valid_cons, valid_nil_iff, and_true]
    split
    · omega
    · simp only at h; omega

theorem Rep.valid {t : TT K} {τ : Ty} {v : ℕ → List ℕ → K} (h : Rep t τ v) {o : ℕ} (ho : τ.HasItem o) :
    Valid t.bpre (bsel τ.batch o) := by
  have := hasItem_valid ho (by rw [← h.batch]; exact h.wf.batch_pos)
  rwa [TT.bpre, h.batch]

theorem Rep.ndims {t : TT K} {τ : Ty} {v : ℕ → List ℕ → K} (h : Rep t τ v) : τ.ndims = t.ndims := by
  unfold Ty.ndims
  rw [← h.raw]
  rcases hr : t.rawShape with _ | ⟨row, rest⟩
  · by_cases hm : t.isMatrix
    · simp [TT.isMatrix, hr] at hm
    · obtain ⟨row, hrow, -⟩ := h.wf.rawShape_tensor hm
      rw [hr] at hrow; cases hrow
  · exact h.wf.rows_len row (by rw [hr]; simp)

theorem Rep.modes {t : TT K} {τ : Ty} {v : ℕ → List ℕ → K} (h : Rep t τ v) {i : List ℕ} (hi : Valid τ.shape i) :
    t.ValidModes (restModes τ.raw i) t.ndims := by
  have : Valid (restShape t.rawShape) i := by rw [h.raw]; exact hi
  have := validModes_rest h.wf this
  rwa [h.raw] at this

omit [CommRing K] in
theorem modesPos_of_raw {a b : TT K} (h : a.ModesPos) (hr : b.rawShape = a.rawShape) : b.ModesPos := by
  unfold TT.ModesPos at *; rwa [hr]

theorem modes_prod_pos {a : TT K} (ha : a.WF) (hpos : a.ModesPos) : ∀ k < a.ndims, 0 < (a.modes k).prod := by
  intro k hk
  rw [Nat.pos_iff_ne_zero, Ne, List.prod_eq_zero_iff]
  intro h0
  obtain ⟨row, hrow, h⟩ := List.mem_map.1 h0
  rw [List.getD_eq_getElem _ _ (by rw [ha.rows_len row hrow]; exact hk)] at h
  have := hpos row hrow _ (List.getElem_mem (by rw [ha.rows_len row hrow]; exact hk))
  omega

/-- An object with the same shape and batch size whose items are `w`. -/
theorem Rep.same {t c : TT K} {τ : Ty} {v w : ℕ → List ℕ → K} (h : Rep t τ v) (hc : c.WF) (hr : c.rawShape = t.rawShape)
    (hb : c.batch = t.batch)
    (hv : ∀ o i, τ.HasItem o → Valid τ.shape i → c.entry (bsel τ.batch o) (restModes τ.raw i) = w o i) :
    Rep c τ w :=
  ⟨hc, modesPos_of_raw h.pos hr, hr.trans h.raw, hb.trans h.batch, hv⟩

/-! ## Batch sizes -/

theorem bshape_bcast {a b c : Option ℕ} (h : bshape a.toList b.toList = some c.toList) : c = bcast a b := by
  rcases a with _ | m <;> rcases b with _ | n <;> rcases c with _ | k <;> simp [bshape, bcast] at *
  · omega
  · omega
  · split_ifs at h <;> simp at h
  · split_ifs at h <;> simp at h <;> split_ifs <;> simp <;> omega

theorem addBatches_compat {a b : Option ℕ} (h : AddBatches a b) : BCompat a b := by
  rcases h with ⟨rfl, rfl⟩ | ⟨n, rfl, rfl⟩ | ⟨n, rfl, rfl⟩ | ⟨n, rfl, rfl⟩ | ⟨n, -, rfl, rfl⟩ <;> simp [BCompat]

theorem hasItem_bcast {ra rb rc : List (List ℕ)} {a b : Option ℕ} (h : BCompat a b) {o : ℕ}
    (ho : (Ty.mk rc (bcast a b)).HasItem o) : (Ty.mk ra a).HasItem o ∧ (Ty.mk rb b).HasItem o := by
  rcases a with _ | m <;> rcases b with _ | n <;> simp only [bcast, BCompat, Ty.HasItem] at * <;>
    try (exact ⟨by tauto, by tauto⟩)
  split_ifs at ho with h1 <;> simp only at ho <;> omega

theorem bproj_bcast {a b : Option ℕ} (h : BCompat a b) (o : ℕ) :
    bproj a.toList (bsel (bcast a b) o) = bsel a o ∧ bproj b.toList (bsel (bcast a b) o) = bsel b o := by
  rcases a with _ | m <;> rcases b with _ | n <;> simp only [bcast, BCompat, bsel] at *
  · simp [bproj]
  · simp [bproj]; omega
  · simp [bproj]; omega
  · split_ifs <;> simp [bproj, *]

/-- The position used for `o` when batches of size one have been squeezed. -/
theorem bcast_low {a b : Option ℕ} (h : BCompat a b) {o : ℕ} (r : List (List ℕ))
    (ho : (Ty.mk r (squeezed (bcast a b))).HasItem o) (h0 : bcast a b ≠ some 0) :
    ∃ o', o' < (bcast a b).getD 1 ∧ bsel a o' = bsel a o ∧ bsel b o' = bsel b o ∧
      bsel (squeezed (bcast a b)) o' = bsel (squeezed (bcast a b)) o := by
  by_cases h1 : bcast a b = none ∨ bcast a b = some 1
  · refine ⟨0, by rcases h1 with h1 | h1 <;> simp [h1], ?_⟩
    rcases a with _ | m <;> rcases b with _ | n <;> simp only [bcast, BCompat] at * <;>
      (try split_ifs at h1 ⊢) <;> simp_all [bsel, squeezed]
  · refine ⟨o, ?_, rfl, rfl, rfl⟩
    rcases hb : bcast a b with _ | k
    · exact absurd (Or.inl hb) h1
    · rw [hb, squeezed_eq, if_neg (by rw [← hb]; tauto)] at ho
      simp only [Ty.HasItem] at ho
      rcases ho with rfl | ho
      · exact absurd (Or.inr hb) h1
      · exact ho

theorem hasItem_squeezed {r r' : List (List ℕ)} {b : Option ℕ} {o : ℕ} (h : (Ty.mk r (squeezed b)).HasItem o) :
    (Ty.mk r' b).HasItem o := by
  rcases b with _ | n
  · trivial
  · rw [squeezed_eq] at h
    split_ifs at h with h1
    · simp only [Option.some.injEq] at h1; exact Or.inl h1
    · exact h

/-! ## The operations -/

section
variable {a b : TT K} {τ σ : Ty} {v w : ℕ → List ℕ → K}

theorem add_rep (ha : Rep a τ v) (hb : Rep b σ w) :
    match addTy τ σ with
    | none => ∃ e, add a b = Except.error e
    | some ρ => ∃ c, add a b = Except.ok c ∧ Rep c ρ (fun o i => v o i + w o i) := by
  unfold addTy
  split_ifs with h
  · obtain ⟨hr, hd, hB⟩ := h
    have hr' : a.rawShape = b.rawShape := by rw [ha.raw, hb.raw, hr]
    have hB' : AddBatches a.batch b.batch := by rw [ha.batch, hb.batch]; exact hB
    have hc := addBatches_compat hB
    obtain ⟨c, e, wc, rc, bc, nc, -, vc⟩ := add_spec ha.wf hb.wf (by rw [← ha.ndims]; exact hd) hr' hB'
    have hcb : c.batch = bcast τ.batch σ.batch := by
      rw [← ha.batch, ← hb.batch]; exact bshape_bcast bc
    refine ⟨c, e, wc, modesPos_of_raw ha.pos rc, rc.trans ha.raw, hcb, fun o i ho hi => ?_⟩
    obtain ⟨oa, ob⟩ := hasItem_bcast (ra := τ.raw) (rb := σ.raw) hc ho
    obtain ⟨pa, pb⟩ := bproj_bcast hc o
    have hi' : Valid (restShape c.rawShape) i := by rw [rc, ha.raw]; exact hi
    have hvm := validModes_rest wc hi'
    rw [rc, ha.raw] at hvm
    have hvp : Valid c.bpre (bsel (bcast τ.batch σ.batch) o) := by
      have := hasItem_valid ho (by show bcast τ.batch σ.batch ≠ some 0; rw [← hcb]; exact wc.batch_pos)
      rw [TT.bpre, hcb]; exact this
    rw [vc _ _ hvp hvm, TT.bpre, TT.bpre, ha.batch, hb.batch, pa, pb, ha.val o i oa hi]
    have := hb.val o i ob (by unfold Ty.shape at hi ⊢; rw [← hr]; exact hi)
    rw [← hr] at this
    rw [this]
  · have := C05_add_ok_iff a b ha.wf hb.wf
    refine ⟨_, this.2 (fun hex => h ?_)⟩
    obtain ⟨h1, h2, h3⟩ := this.1.1 hex
    exact ⟨by rw [← ha.raw, ← hb.raw, h2], by rw [ha.ndims]; exact h1, by rw [← ha.batch, ← hb.batch]; exact h3⟩

theorem mul_rep (ha : Rep a τ v) (hb : Rep b σ w) :
    match mulTy τ σ with
    | none => ∃ e, multiply a b = Except.error e
    | some ρ => ∃ c, multiply a b = Except.ok c ∧ Rep c ρ (fun o i => v o i * w o i) := by
  unfold mulTy
  split_ifs with h
  · obtain ⟨hr, hc⟩ := h
    have hr' : a.rawShape = b.rawShape := by rw [ha.raw, hb.raw, hr]
    have hc' : BCompat a.batch b.batch := by rw [ha.batch, hb.batch]; exact hc
    obtain ⟨c, e, wc, rc, -, bc, nc, -, vc⟩ := multiply_spec ha.wf hb.wf hr' hc' (modes_prod_pos ha.wf ha.pos)
    have hcb : c.batch = bcast τ.batch σ.batch := by
      rw [← ha.batch, ← hb.batch]; exact bshape_bcast bc
    refine ⟨c, e, wc, modesPos_of_raw ha.pos rc, rc.trans ha.raw, hcb, fun o i ho hi => ?_⟩
    obtain ⟨oa, ob⟩ := hasItem_bcast (ra := τ.raw) (rb := σ.raw) hc ho
    obtain ⟨pa, pb⟩ := bproj_bcast hc o
    have hi' : Valid (restShape c.rawShape) i := by rw [rc, ha.raw]; exact hi
    have hvm := validModes_rest wc hi'
    rw [rc, ha.raw] at hvm
    have hvp : Valid c.bpre (bsel (bcast τ.batch σ.batch) o) := by
      have := hasItem_valid ho (by show bcast τ.batch σ.batch ≠ some 0; rw [← hcb]; exact wc.batch_pos)
      rw [TT.bpre, hcb]; exact this
    rw [vc _ _ hvp hvm, TT.bpre, TT.bpre, ha.batch, hb.batch, pa, pb, ha.val o i oa hi]
    have := hb.val o i ob (by unfold Ty.shape at hi ⊢; rw [← hr]; exact hi)
    rw [← hr] at this
    rw [this]
  · refine ⟨_, C07_multiply_error a b ?_⟩
    by_cases hr : τ.raw = σ.raw
    · exact Or.inr (Or.inr (fun hc => h ⟨hr, by rw [← ha.batch, ← hb.batch]; exact hc⟩))
    · exact Or.inr (Or.inl (by rw [ha.raw, hb.raw]; exact hr))

theorem raw_cases (ha : Rep a τ v) : (∃ I, τ.raw = [I]) ∨ ∃ I J, τ.raw = [I, J] := by
  by_cases hm : a.isMatrix
  · obtain ⟨I, J, h, -, -⟩ := ha.wf.rawShape_matrix hm
    exact Or.inr ⟨I, J, by rw [← ha.raw, h]⟩
  · obtain ⟨I, h, -⟩ := ha.wf.rawShape_tensor hm
    exact Or.inl ⟨I, by rw [← ha.raw, h]⟩

theorem matmul_rep (ha : Rep a τ v) (hb : Rep b σ w) :
    match matmulTy τ σ with
    | none => ∃ e, ttTTMatmul a b = Except.error e
    | some ρ => ∃ c, ttTTMatmul a b = Except.ok c ∧ Rep c ρ (fun o i =>
        ∑ z ∈ Finset.range (τ.raw.getD 1 []).prod, v o [i.getD 0 0, z] * w o [z, i.getD 1 0]) := by
  unfold matmulTy
  rcases raw_cases ha with ⟨I, ea⟩ | ⟨I, J, ea⟩
  · rw [ea]
    exact ⟨_, C09_matmul_error a b (Or.inl (by simp [TT.isMatrix, ha.raw, ea]))⟩
  rcases raw_cases hb with ⟨I', eb⟩ | ⟨J', L, eb⟩
  · rw [ea, eb]
    exact ⟨_, C09_matmul_error a b (Or.inl (by simp [TT.isMatrix, hb.raw, eb]))⟩
  rw [ea, eb]
  simp only
  have hra : a.rawShape = [I, J] := by rw [ha.raw, ea]
  have hrb : b.rawShape = [J', L] := by rw [hb.raw, eb]
  split_ifs with h
  · obtain ⟨rfl, hc⟩ := h
    have hc' : BCompat a.batch b.batch := by rw [ha.batch, hb.batch]; exact hc
    obtain ⟨c, e, wc, rc, bc, nc, -, vc⟩ := ttTTMatmul_spec ha.wf hb.wf hra hrb hc'
    rw [ha.batch, hb.batch] at bc vc
    have h0 : bcast τ.batch σ.batch ≠ some 0 :=
      bcast_ne_zero hc (by rw [← ha.batch]; exact ha.wf.batch_pos) (by rw [← hb.batch]; exact hb.wf.batch_pos)
    refine ⟨c, e, wc, ?_, rc, bc, fun o i ho hi => ?_⟩
    · intro row hrow n hn
      rw [rc] at hrow
      simp only [List.mem_cons, List.not_mem_nil, or_false] at hrow
      rcases hrow with rfl | rfl
      · exact ha.pos row (by rw [hra]; simp) n hn
      · exact hb.pos row (by rw [hrb]; simp) n hn
    · obtain ⟨oa, ob⟩ := hasItem_bcast (ra := τ.raw) (rb := σ.raw) (rc := []) hc (hasItem_squeezed ho)
      obtain ⟨o', ho', pa, pb, pc⟩ := bcast_low hc [I, L] ho h0
      obtain ⟨x, y, rfl, hx, hy⟩ := (valid_pair _ _ _).1 (show Valid [I.prod, L.prod] i from hi)
      have := vc o' (unravel I x) (unravel L y) ho' (unravel_valid hx) (unravel_valid hy)
      rw [bc, pa, pb] at this
      show c.entry (bsel (squeezed (bcast τ.batch σ.batch)) o) _ = _
      rw [← pc]
      show c.entry _ (mIdx (unravel I x) (unravel L y)) = _
      rw [this]
      refine Finset.sum_congr rfl fun z hz => ?_
      have hz' : z < J.prod := Finset.mem_range.1 hz
      have e1 := ha.val o [x, z] oa (by unfold Ty.shape; rw [ea]; exact ⟨hx, hz', trivial⟩)
      have e2 := hb.val o [z, y] ob (by unfold Ty.shape; rw [eb]; exact ⟨hz', hy, trivial⟩)
      rw [ea] at e1
      rw [eb] at e2
      exact congrArg₂ _ e1 e2
  · by_cases hc : BCompat a.batch b.batch
    · have hJ : J ≠ J' := fun hJ => h ⟨hJ, by rw [← ha.batch, ← hb.batch]; exact hc⟩
      by_cases hn : a.ndims = b.ndims
      · exact ⟨_, C09_matmul_inner_mismatch a b ha.wf hb.wf hn hc I J J' L hra hrb hJ⟩
      · exact ⟨_, C09_matmul_error a b (Or.inr (Or.inr (Ne.symm hn)))⟩
    · exact ⟨_, C09_matmul_error a b (Or.inr (Or.inl hc))⟩

theorem transpose_rep (ha : Rep a τ v) :
    match transposeTy τ with
    | none => ∃ e, ttTranspose a = Except.error e
    | some ρ => ∃ c, ttTranspose a = Except.ok c ∧ Rep c ρ (fun o i => v o i.reverse) := by
  unfold transposeTy
  rcases raw_cases ha with ⟨I, ea⟩ | ⟨I, J, ea⟩
  · rw [ea]
    exact ⟨_, C14_transpose_error a (by simp [TT.isMatrix, ha.raw, ea])⟩
  rw [ea]
  have hra : a.rawShape = [I, J] := by rw [ha.raw, ea]
  obtain ⟨c, e, wc, rc, bc, nc, -, vc⟩ := ttTranspose_spec ha.wf hra
  refine ⟨c, e, wc, ?_, rc, bc.trans ha.batch, fun o i ho hi => ?_⟩
  · intro row hrow n hn
    rw [rc] at hrow
    refine ha.pos row ?_ n hn
    rw [hra]; simp at hrow ⊢; tauto
  · obtain ⟨x, y, rfl, hx, hy⟩ := (valid_pair _ _ _).1 (show Valid [J.prod, I.prod] i from hi)
    have hov : τ.HasItem o := ho
    have := vc (bsel τ.batch o) (unravel I y) (unravel J x) (ha.valid hov)
    show c.entry (bsel τ.batch o) (mIdx (unravel J x) (unravel I y)) = _
    rw [this]
    have e1 := ha.val o [y, x] hov (by unfold Ty.shape; rw [ea]; exact ⟨hy, hx, trivial⟩)
    rw [ea] at e1
    exact e1

theorem expand_rep (ha : Rep a τ v) :
    ∃ c, expandBatchDim a = Except.ok c ∧ Rep c ⟨τ.raw, some (τ.batch.getD 1)⟩ v := by
  rcases hb : τ.batch with _ | n
  · have hb' : a.batch = none := ha.batch.trans hb
    obtain ⟨T, eT, wT, bT, rT, kT, nT, vT⟩ := expandBatchDim_ok ha.wf hb'
    refine ⟨T, eT, wT, modesPos_of_raw ha.pos rT, rT.trans ha.raw, bT, fun o i ho hi => ?_⟩
    rw [← ha.val o i (by unfold Ty.HasItem; rw [hb]; trivial) hi, hb]
    simp only [TT.entry, nT, bsel, Option.getD_none, if_true]
    refine lprod_congr (fun j _ => by rw [TT.rank, kT]; rfl) (fun j hj x y _ _ => vT j hj 0 _) ?_
    rw [← nT, wT.rank_last]; omega
  · refine ⟨a, ?_, ?_⟩
    · unfold expandBatchDim; rw [ha.batch, hb]; rfl
    · have : (⟨τ.raw, some ((some n).getD 1)⟩ : Ty) = τ := by
        rw [Option.getD_some, ← hb]
      rw [this]; exact ha

theorem squeeze_rep (ha : Rep a τ v) :
    ∃ c, squeezeBatchDim a = Except.ok c ∧ Rep c ⟨τ.raw, squeezed τ.batch⟩ v := by
  obtain ⟨T, eT, wT, rT, kT, nT, bT, vT⟩ := squeeze_bsel ha.wf
  refine ⟨T, eT, wT, modesPos_of_raw ha.pos rT, rT.trans ha.raw, by rw [bT, ha.batch], fun o i ho hi => ?_⟩
  have ho' : τ.HasItem o := hasItem_squeezed (r' := τ.raw) ho
  have hi' : Valid (restShape T.rawShape) i := by rw [rT, ha.raw]; exact hi
  have hvm := validModes_rest wT hi'
  rw [rT, ha.raw] at hvm
  have := vT o _ (by rw [ha.batch]; exact ha.valid ho') hvm
  rw [bT, ← squeezed_bsel, ha.batch] at this
  show T.entry (bsel (squeezed τ.batch) o) _ = _
  rw [this, ha.val o i ho' hi]

theorem intPosition_eq (n : ℕ) (k : ℤ) :
    intPosition n k = if -(n : ℤ) ≤ k ∧ k < n then Except.ok (pyPos n k) else Except.error Err.tf := by
  unfold intPosition pyPos
  split_ifs <;> first | rfl | omega | (congr 2; omega)

theorem ttGetItem_int (t : TT K) (h : t.WF) (hb : t.batch = none) (k : ℤ) :
    ∃ e, ttGetItem t [.int k] = Except.error e := by
  by_cases hd : t.ndims = 1
  · by_cases hm : t.isMatrix
    · exact ⟨_, (C20_getitem_errors t h [.int k]).2 (by simp [hd]) hm⟩
    · obtain ⟨row, hrow, hrl⟩ := h.rawShape_tensor hm
      obtain ⟨n, rfl⟩ : ∃ n, row = [n] := List.length_eq_one_iff.1 (by omega)
      by_cases hk : -(n : ℤ) ≤ k ∧ k < n
      · obtain ⟨F, eF, sF, -⟩ := full_ok h
        have hG : ∃ G, getItem F [.int k] = Except.ok G := by
          rw [bpre_none hb, hrow, restShape_tensor, List.nil_append] at sF
          simp [getItem, sF, resolveIx, intPosition_eq, hk]
        obtain ⟨G, eG⟩ := hG
        exact ⟨_, (C20_getitem_integers_fail t h hb hm [.int k] (by simp [hd]) (by simp) F G eF eG).2⟩
      · have hC := tensor_core_shape h hrow (k := 0) (by omega)
        rw [bpre_none hb, List.nil_append] at hC
        refine ⟨Err.tf, ?_⟩
        unfold ttGetItem
        rw [require_pos (by simp [hd]), R.ok_bind, hd, forRange, ttGetItemStep, h.pyCore h.pos, R.ok_bind, if_neg hm]
        simp [pyGet, getItem, hC, resolveIx, intPosition_eq, hk]
  · exact ⟨_, (C20_getitem_errors t h [.int k]).1 (by simp; omega)⟩

theorem pick_rep (k : ℤ) (ha : Rep a τ v) :
    match pickTy k τ with
    | none => ∃ e, Expr.pickItem k a = Except.error e
    | some ρ => ∃ c, Expr.pickItem k a = Except.ok c ∧ Rep c ρ (fun _ i => v (pyPos (τ.batch.getD 0) k) i) := by
  unfold pickTy Expr.pickItem
  rcases hb : τ.batch with _ | n
  · have hb' : a.batch = none := ha.batch.trans hb
    rw [if_neg (by simp [TT.isBatch, hb'])]
    exact ttGetItem_int a ha.wf hb' k
  · have hb' : a.batch = some n := ha.batch.trans hb
    rw [if_pos (by simp [TT.isBatch, hb'])]
    unfold batchGetItem
    rw [if_pos rfl]
    simp only
    by_cases hk : -(n : ℤ) ≤ k ∧ k < n
    · rw [if_pos hk]
      have hres : resolve1 n (.int k) = Except.ok (Sel.one (pyPos n k)) := by
        simp [resolve1, intPosition_eq, hk]
      obtain ⟨T, eT, wT, rT, kT, nT, bT, cT, vT⟩ := batchDimGetItem_spec ha.wf n hb' (.int k) _ hres (by simp [selShape])
      have hTb : T.batch = none := cT.2 rfl
      refine ⟨T, eT, wT, modesPos_of_raw ha.pos rT, rT.trans ha.raw, hTb, fun o i ho hi => ?_⟩
      have hi' : Valid (restShape T.rawShape) i := by rw [rT, ha.raw]; exact hi
      have hvm := validModes_rest wT hi'
      rw [rT, ha.raw] at hvm
      have hpos : pyPos n k < n := by unfold pyPos; split_ifs <;> omega
      have e1 := vT [] _ (by rw [bT]; trivial) hvm
      have e2 := ha.val (pyPos n k) i (by unfold Ty.HasItem; rw [hb]; exact Or.inr hpos) hi
      show T.entry [] _ = v (pyPos n k) i
      rw [e1, ← e2, hb]
      simp only [selIdx, bsel]
      congr 2
      split_ifs <;> omega
    · rw [if_neg hk]
      have hres : resolve1 n (.int k) = Except.error Err.tf := by
        simp [resolve1, intPosition_eq, hk]
      have key : ∀ j < a.ndims, (do
          let core ← pyGet a.cores j
          if a.isMatrix then getItem core [.int k, .all, .all, .all, .all]
          else getItem core [.int k, .all, .all, .all]) = Except.error Err.tf := by
        intro j hj
        have hs := ha.wf.core_shape j hj
        rw [TT.bpre, hb', Option.toList_some, List.singleton_append] at hs
        rw [ha.wf.pyCore hj, R.ok_bind]
        split_ifs <;> rw [getItem, hs, resolveIx_cons, hres] <;> rfl
      refine ⟨Err.tf, ?_⟩
      unfold batchDimGetItem
      rw [mapRange_error _ _ Err.tf ⟨0, ha.wf.pos, key 0 ha.wf.pos⟩ (fun j hj => Or.inr (key j hj)), R.error_bind]

end

section
variable {a b : TT ℝ} {τ σ : Ty} {v w : ℕ → List ℕ → ℝ}

theorem smul_rep (ha : Rep a τ v) (x : ℝ) :
    ∃ c, multiplyScalar a x = Except.ok c ∧ Rep c τ (fun o i => x * v o i) := by
  obtain ⟨c, e, wc, rc, bc, -, -, vc⟩ := multiplyScalar_spec ha.wf x
  exact ⟨c, e, ha.same wc rc bc fun o i ho hi => by rw [vc, ha.val o i ho hi]⟩

theorem sub_rep (ha : Rep a τ v) (hb : Rep b σ w) :
    match addTy τ σ with
    | none => ∃ e, sub a b = Except.error e
    | some ρ => ∃ c, sub a b = Except.ok c ∧ Rep c ρ (fun o i => v o i - w o i) := by
  obtain ⟨b', e, hb'⟩ := smul_rep hb (-1)
  have := add_rep ha hb'
  unfold sub
  rw [e, R.ok_bind]
  revert this
  cases addTy τ σ with
  | none => exact id
  | some ρ =>
      rintro ⟨c, ec, hc⟩
      refine ⟨c, ec, ?_⟩
      have : (fun o i => v o i - w o i) = fun o i => v o i + -1 * w o i := by funext o i; ring
      rw [this]; exact hc

theorem orthogonalize_rep {qr : QRRoutine} (hqr : qr.Correct) (lr : Bool) (ha : Rep a τ v) :
    match (if lr = true ∨ τ.batch = none then some τ else none) with
    | none => ∃ e, orthogonalize qr a lr = Except.error e
    | some ρ => ∃ c, orthogonalize qr a lr = Except.ok c ∧ Rep c ρ v := by
  unfold orthogonalize
  by_cases hlr : lr = true
  · rw [if_pos (Or.inl hlr), if_pos hlr]
    obtain ⟨c, e, wc, rc, bc, nc, -, -, vc⟩ := orthoLR_ok hqr ha.wf ha.pos
    exact ⟨c, e, ha.same wc rc bc fun o i ho hi => by
      rw [vc _ (ha.valid ho) _ (ha.modes hi), ha.val o i ho hi]⟩
  · by_cases hb : τ.batch = none
    · have hb' : a.batch = none := ha.batch.trans hb
      rw [if_pos (Or.inr hb), if_neg hlr, if_neg (by simp [TT.isBatch, hb'])]
      obtain ⟨c, e, wc, rc, bc, nc, -, -, vc⟩ := orthoRL_ok hqr ha.wf hb' ha.pos
      exact ⟨c, e, ha.same wc rc (bc.trans hb'.symm) fun o i ho hi => by
        have := ha.val o i ho hi
        rw [hb] at this ⊢
        rw [← this]
        exact vc _ (ha.modes hi)⟩
    · rw [if_neg (by tauto), if_neg hlr, if_pos]
      · exact ⟨_, rfl⟩
      · rw [← ha.batch] at hb
        simpa [TT.isBatch, Option.isSome_iff_ne_none] using hb

theorem renormalize_rep {eps : ℝ} (heps : 0 < eps) (ha : Rep a τ v) :
    ∃ c, renormalize a eps = Except.ok c ∧ Rep c τ v := by
  obtain ⟨c, e, wc, rc, bc, -, vc, -⟩ := renormalize_spec ha.wf heps
  exact ⟨c, e, ha.same wc rc bc fun o i ho hi => by
    rw [vc _ _ (ha.valid ho) (ha.modes hi), ha.val o i ho hi]⟩

end

end T3f
