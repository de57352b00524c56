import Verif.Proofs.StaticPrograms
import Verif.Proofs.StaticConstructor
import Verif.Props.C04Add
import Verif.Spec.Examples

/-!
# C84 — inside `tf.function`, with unknown TT-ranks or mode sizes
-/

namespace T3f

variable {K : Type}

/-- **C84, constructor.** From symbolic cores whose run-time values fit together (they are the cores of an object `t`) and whose static shapes are
right as far as they are known, the constructor makes an object if neighbouring static ranks agree, unknown ones only with unknown ones, and the
boundary ranks are statically one; otherwise it raises ValueError, although the cores are fine. -/
theorem C84_constructor [Zero K] (bs : Option ℕ) (cores : List (SCore K)) (t : TT K) (ht : t.WF) (hv : cores.map (·.val) = t.cores) (hb : t.batch = bs)
    (hk : ∀ c ∈ cores, List.Forall₂ Knows c.sh c.val.shape) :
    (StaticallyLinked bs.isSome (cores.map (·.sh)) → ∃ s, mkSym bs cores none none = Except.ok s ∧ s.Is t) ∧
    (¬ StaticallyLinked bs.isSome (cores.map (·.sh)) → mkSym bs cores none none = Except.error Err.value) :=
  Static.mkSym_iff ht hv hb hk

/-- **C84, `full`.** Unknown ranks do not matter, and for TT-tensors unknown mode sizes do not matter either: the traced function computes the represented
tensor. TT-matrices with at least two cores and an unknown mode size cannot be converted (TypeError). -/
theorem C84_full [CommRing K] (s : Sym K) (t : TT K) (h : s.Is t) :
    (s.KnownModes ∨ ¬ t.isMatrix ∨ t.ndims = 1 → ∃ T, fullS s = Except.ok T ∧ T ≃ₜ t.dense) ∧
    (¬ (s.KnownModes ∨ ¬ t.isMatrix ∨ t.ndims = 1) → fullS s = Except.error Err.type) := by
  have hM := Static.Is.isMatrix h
  refine ⟨fun hm => ?_, fun hm => ?_⟩
  · obtain ⟨T, e, v⟩ := full_dense h.wf
    refine ⟨T, ?_, v⟩
    rw [fullS, Static.Is.run_ok h (by rw [hM]; exact hm), R.ok_bind, e]
  · push Not at hm
    have hp := h.wf.pos
    rw [fullS, Static.Is.run_error h hm.1 (hM.mpr hm.2.1) (by omega)]; rfl

/-- **C84, inner products.** `flat_inner` needs no static sizes at all: it does what it does for the objects themselves. -/
theorem C84_flat_inner [CommRing K] (a b : Sym K) (ta tb : TT K) (ha : a.Is ta) (hb : b.Is tb) : flatInnerS a b = flatInner ta tb := by
  unfold flatInnerS
  simp only [Static.Is.dynRawShape ha, Static.Is.dynRawShape hb, Static.Is.dynRanks ha, Static.Is.dynRanks hb, R.ok_bind, R.pure_eq, Sym.vals, ha.vals,
    hb.vals, ha.batch, hb.batch]

/-- **C84, TT-matrix times dense matrix.** With known mode sizes the ranks need not be known. With an unknown mode size and at least two cores TypeError
is raised. -/
theorem C84_dense_matmul [CommRing K] (s : Sym K) (t : TT K) (h : s.Is t) (B : Tensor K) :
    (s.KnownModes → ttDenseMatmulS s B = ttDenseMatmul t B) ∧
    (¬ s.KnownModes → t.batch = none → t.isMatrix → 2 ≤ t.ndims → ttDenseMatmulS s B = Except.error Err.type) := by
  have hM := Static.Is.isMatrix h
  refine ⟨fun hm => ?_, fun hm hb ht hd => ?_⟩
  · unfold ttDenseMatmulS
    by_cases hc : s.batch = none ∧ s.isMatrix
    · rw [require_pos hc, R.ok_bind, Static.Is.run_ok h (Or.inl hm), R.ok_bind]
    · rw [require_neg hc]
      rw [h.batch, hM] at hc
      unfold ttDenseMatmul
      rw [require_neg hc]; rfl
  · unfold ttDenseMatmulS
    rw [require_pos (by rw [h.batch, hM]; exact ⟨hb, ht⟩), R.ok_bind, Static.Is.run_error h hm (hM.mpr ht) hd]; rfl

/-- **C84, finding.** Sums, elementwise products and matrix products raise TypeError as soon as one TT-rank of one operand is unknown, although the cores of the
result have been computed by then. -/
theorem C84_unknown_rank [CommRing K] (a b : Sym K) (ta tb : TT K) (ha : a.Is ta) (hb : b.Is tb) (ma : a.KnownModes) (mb : b.KnownModes)
    (h : ¬ a.KnownRanks ∨ ¬ b.KnownRanks) :
    ((∃ c, add ta tb = Except.ok c) → addS a b = Except.error Err.type) ∧
    ((∃ c, multiply ta tb = Except.ok c) → multiplyS a b = Except.error Err.type) ∧
    ((∃ c, ttTTMatmul ta tb = Except.ok c) → ttTTMatmulS a b = Except.error Err.type) := by
  have h' : ¬ (a.KnownRanks ∧ b.KnownRanks) := by tauto
  exact ⟨fun ⟨c, e⟩ => (Static.add_bin ha hb ma mb).unknown h' c e, fun ⟨c, e⟩ => (Static.multiply_bin ha hb ma mb).unknown h' c e,
    fun ⟨c, e⟩ => (Static.matmul_bin ha hb ma mb).unknown h' c e⟩

/-- **C84, programs.** A traced program made of sums, differences, elementwise and matrix products, changes of sign, multiplications by numbers and
transpositions runs exactly if the eager program does and all operands of sums, differences and products have known TT-ranks. Its result stands for the
result of the eager program. If the operands are not as required, TypeError is raised (unless the eager program raises as well). -/
theorem C84_programs {qr : QRRoutine} (hqr : qr.Correct) (e : SExpr) (h : e.Sound) :
    ((∃ s, e.run = Except.ok s) ↔ e.Supported ∧ ∃ t, e.eager.run qr = Except.ok t) ∧
    (∀ s, e.run = Except.ok s → ∃ t F, e.eager.run qr = Except.ok t ∧ s.Is t ∧ (s.KnownRanks ↔ e.RanksKnown) ∧
      fullS s = Except.ok F ∧ full t = Except.ok F) ∧
    (¬ e.Supported → (∃ t, e.eager.run qr = Except.ok t) → e.run = Except.error Err.type) := by
  have H := Static.program hqr e h
  cases et : e.eager.run qr with
  | error x =>
    rw [et] at H
    obtain ⟨y, ey⟩ := H
    rw [ey]
    exact ⟨⟨fun ⟨_, hc⟩ => (by cases hc), fun ⟨_, _, hc⟩ => (by cases hc)⟩, fun _ hc => (by cases hc), fun _ ⟨_, hc⟩ => (by cases hc)⟩
  | ok t =>
    rw [et] at H
    obtain ⟨H1, H2⟩ := H
    refine ⟨⟨fun ⟨s, hs⟩ => ⟨?_, t, rfl⟩, fun ⟨hs, _⟩ => ?_⟩, fun s hs => ?_, fun hs _ => H2 hs⟩
    · by_contra hc
      rw [H2 hc] at hs; cases hs
    · obtain ⟨s, es, -⟩ := H1 hs
      exact ⟨s, es⟩
    · have hsup : e.Supported := by
        by_contra hc
        rw [H2 hc] at hs; cases hs
      obtain ⟨s', es, his, hm, hr⟩ := H1 hsup
      rw [hs] at es
      cases es
      obtain ⟨F, eF, -⟩ := full_dense his.wf
      refine ⟨t, F, rfl, his, hr, ?_, eF⟩
      rw [fullS, Static.Is.run_ok his (Or.inl hm), R.ok_bind, eF]

/-! ### Cases -/

/-- A tensor of shape `2 × 3` whose inner rank is unknown. -/
def exUnknownRank : List (SCore ℤ) :=
  [⟨.ofList [1, 2, 2] [1, 2, 3, 4], [some 1, some 2, none]⟩, ⟨.ofList [2, 3, 1] [1, 0, -1, 2, 5, 7], [none, some 3, some 1]⟩]

theorem exUnknownRank_knows : ∀ c ∈ exUnknownRank, List.Forall₂ Knows c.sh c.val.shape := by
  intro c hc
  simp only [exUnknownRank, List.mem_cons, List.not_mem_nil, or_false] at hc
  rcases hc with rfl | rfl
  · exact .cons (Or.inr rfl) (.cons (Or.inr rfl) (.cons (Or.inl rfl) .nil))
  · exact .cons (Or.inl rfl) (.cons (Or.inr rfl) (.cons (Or.inr rfl) .nil))

/-- The constructor accepts it, `full` works, adding it to itself does not. -/
example : ∃ s T, mkSym none exUnknownRank none none = Except.ok s ∧ fullS s = Except.ok T ∧ T ≃ₜ exTensor.dense ∧ ¬ s.KnownRanks := by
  have hv : exUnknownRank.map (·.val) = exTensor.cores := rfl
  have hl : StaticallyLinked (none : Option ℕ).isSome (exUnknownRank.map (·.sh)) := by
    refine ⟨fun l hl => ?_, fun l hl => ?_, fun k l hl l' hl' => ?_⟩
    · cases hl; rfl
    · cases hl; rfl
    · match k with
      | 0 => cases hl; cases hl'; rfl
      | k + 1 => cases k <;> cases hl'
  obtain ⟨s, es, his⟩ := (C84_constructor none exUnknownRank exTensor (by decide) hv rfl exUnknownRank_knows).1 hl
  obtain ⟨T, eT, vT⟩ := (C84_full s _ his).1 (Or.inr (Or.inl (by decide)))
  refine ⟨s, T, es, eT, vT, ?_⟩
  have : s = Static.cand none exUnknownRank := by cases es; rfl
  rw [this]
  unfold Sym.KnownRanks
  decide

/-- With the static ranks `None` and `2` at the same place the constructor refuses. -/
example : mkSym none [⟨.ofList [1, 2, 2] [1, 2, 3, 4], [some 1, some 2, some 2]⟩, ⟨.ofList [2, 3, 1] [1, 0, -1, 2, 5, 7], [none, some 3, some 1]⟩]
    none none = (Except.error Err.value : R (Sym ℤ)) := rfl

/-- A TT-matrix with real entries. -/
noncomputable def exTracedMatrix : TT ℝ := ⟨[zeros [1, 2, 2, 3], zeros [3, 2, 2, 1]], [[2, 2], [2, 2]], [1, 3, 1], none⟩

/-- The same TT-matrix, whose inner rank is unknown while tracing. -/
noncomputable def exTracedSym : Sym ℝ :=
  ⟨[⟨zeros [1, 2, 2, 3], [some 1, some 2, some 2, none]⟩, ⟨zeros [3, 2, 2, 1], [none, some 2, some 2, some 1]⟩], [[some 2, some 2], [some 2, some 2]],
    [some 1, none, some 1], none⟩

theorem exTracedMatrix_wf : exTracedMatrix.WF := by
  unfold exTracedMatrix
  constructor
  all_goals decide

theorem exTracedSym_is : exTracedSym.Is exTracedMatrix := by
  have hl : StaticallyLinked (none : Option ℕ).isSome (exTracedSym.cores.map (·.sh)) := by
    refine ⟨fun l hl => ?_, fun l hl => ?_, fun k l hl l' hl' => ?_⟩
    · cases hl; rfl
    · cases hl; rfl
    · match k with
      | 0 => cases hl; cases hl'; rfl
      | k + 1 => cases k <;> cases hl'
  obtain ⟨s, es, his⟩ := (C84_constructor none exTracedSym.cores exTracedMatrix exTracedMatrix_wf rfl rfl (fun c hc => by
    simp only [exTracedSym, List.mem_cons, List.not_mem_nil, or_false] at hc
    rcases hc with rfl | rfl
    · exact .cons (Or.inr rfl) (.cons (Or.inr rfl) (.cons (Or.inr rfl) (.cons (Or.inl rfl) .nil)))
    · exact .cons (Or.inl rfl) (.cons (Or.inr rfl) (.cons (Or.inr rfl) (.cons (Or.inr rfl) .nil))))).1 hl
  have : s = exTracedSym := by cases es; rfl
  rwa [this] at his

theorem exTracedSym_modes : exTracedSym.KnownModes := by
  unfold Sym.KnownModes exTracedSym
  decide

/-- `-2 * t3f.transpose(x)` can be traced with an unknown rank, `x + x` cannot. -/
example {qr : QRRoutine} (hqr : qr.Correct) :
    (∃ s, (SExpr.smul (-2) (.transpose (.obj exTracedSym exTracedMatrix))).run = Except.ok s) ∧ addS exTracedSym exTracedSym = Except.error Err.type := by
  have hp : exTracedMatrix.ModesPos := by
    unfold TT.ModesPos exTracedMatrix
    decide
  have hS : (SExpr.smul (-2) (.transpose (.obj exTracedSym exTracedMatrix))).Sound := ⟨exTracedSym_is, exTracedSym_modes, hp⟩
  refine ⟨((C84_programs hqr _ hS).1).2 ⟨trivial, ⟨_, rfl⟩⟩, ?_⟩
  obtain ⟨c, -, -, -, -, e, -⟩ := C04_add exTracedMatrix exTracedMatrix exTracedMatrix_wf exTracedMatrix_wf (by decide) rfl (Or.inl ⟨rfl, rfl⟩)
  refine (C84_unknown_rank _ _ _ _ exTracedSym_is exTracedSym_is exTracedSym_modes exTracedSym_modes (Or.inl ?_)).1 ⟨c, e⟩
  unfold Sym.KnownRanks exTracedSym
  decide

/-- The same TT-matrix, whose numbers of rows are unknown: `full` and the product with a dense matrix raise TypeError. -/
example (B : Tensor ℝ) : ∃ s, mkSym none [⟨zeros (K := ℝ) [1, 2, 2, 3], [some 1, none, some 2, some 3]⟩, ⟨zeros [3, 2, 2, 1], [some 3, none, some 2, some 1]⟩]
    none none = Except.ok s ∧ fullS s = Except.error Err.type ∧ ttDenseMatmulS s B = Except.error Err.type ∧ flatInnerS s s = flatInner exTracedMatrix exTracedMatrix := by
  obtain ⟨s, es, his⟩ := (C84_constructor none [⟨zeros (K := ℝ) [1, 2, 2, 3], [some 1, none, some 2, some 3]⟩,
    ⟨zeros [3, 2, 2, 1], [some 3, none, some 2, some 1]⟩] exTracedMatrix exTracedMatrix_wf rfl rfl (fun c hc => by
    simp only [List.mem_cons, List.not_mem_nil, or_false] at hc
    rcases hc with rfl | rfl
    · exact .cons (Or.inr rfl) (.cons (Or.inl rfl) (.cons (Or.inr rfl) (.cons (Or.inr rfl) .nil)))
    · exact .cons (Or.inr rfl) (.cons (Or.inl rfl) (.cons (Or.inr rfl) (.cons (Or.inr rfl) .nil))))).1 (by
    refine ⟨fun l hl => ?_, fun l hl => ?_, fun k l hl l' hl' => ?_⟩
    · cases hl; rfl
    · cases hl; rfl
    · match k with
      | 0 => cases hl; cases hl'; rfl
      | k + 1 => cases k <;> cases hl')
  have hm : ¬ s.KnownModes := by
    cases es
    unfold Sym.KnownModes
    decide
  have hM : exTracedMatrix.isMatrix := rfl
  exact ⟨s, es, (C84_full s _ his).2 (fun hc => by
    rcases hc with hc | hc | hc
    · exact hm hc
    · exact hc hM
    · cases hc), (C84_dense_matmul s _ his B).2 hm rfl hM (by decide), C84_flat_inner s s _ _ his his⟩

end T3f
