import Verif.Spec.SameLeaves
import Verif.Props.C51Closure

/-! # Programs over different representations of the same tensors -/

namespace T3f

/-- Two programs raise, or their results represent the same values. -/
def PairRep (r r' : R (TT ℝ)) : Option Ty → Prop
  | none => (∃ e, r = Except.error e) ∧ ∃ e, r' = Except.error e
  | some τ => ∃ v t t', r = Except.ok t ∧ r' = Except.ok t' ∧ Rep t τ v ∧ Rep t' τ v

theorem PairRep.bin {r r' q q' : R (TT ℝ)} {α β : Option Ty} (op : TT ℝ → TT ℝ → R (TT ℝ)) (opTy : Ty → Ty → Option Ty)
    (val : Ty → Ty → (ℕ → List ℕ → ℝ) → (ℕ → List ℕ → ℝ) → ℕ → List ℕ → ℝ)
    (hop : ∀ s t τ σ v w, Rep s τ v → Rep t σ w → match opTy τ σ with
      | none => ∃ e, op s t = Except.error e
      | some ρ => ∃ c, op s t = Except.ok c ∧ Rep c ρ (val τ σ v w))
    (ha : PairRep r r' α) (hb : PairRep q q' β) :
    PairRep (do op (← r) (← q)) (do op (← r') (← q')) (do opTy (← α) (← β)) := by
  rcases α with _ | τ
  · obtain ⟨⟨e, rfl⟩, ⟨e', rfl⟩⟩ := ha
    exact ⟨⟨e, rfl⟩, ⟨e', rfl⟩⟩
  · obtain ⟨v, s, s', rfl, rfl, h1, h1'⟩ := ha
    rcases β with _ | σ
    · obtain ⟨⟨e, rfl⟩, ⟨e', rfl⟩⟩ := hb
      exact ⟨⟨e, rfl⟩, ⟨e', rfl⟩⟩
    · obtain ⟨w, t, t', rfl, rfl, h2, h2'⟩ := hb
      have k := hop s t τ σ v w h1 h2
      have k' := hop s' t' τ σ v w h1' h2'
      show PairRep (op s t) (op s' t') (opTy τ σ)
      cases hρ : opTy τ σ with
      | none =>
        rw [hρ] at k k'
        exact ⟨k, k'⟩
      | some ρ =>
        rw [hρ] at k k'
        obtain ⟨c, e, hc⟩ := k
        obtain ⟨c', e', hc'⟩ := k'
        exact ⟨_, c, c', e, e', hc, hc'⟩

theorem PairRep.un {r r' : R (TT ℝ)} {α : Option Ty} (op op' : TT ℝ → R (TT ℝ)) (opTy : Ty → Option Ty)
    (val : Ty → (ℕ → List ℕ → ℝ) → ℕ → List ℕ → ℝ)
    (hop : ∀ s τ v, Rep s τ v → match opTy τ with
      | none => ∃ e, op s = Except.error e
      | some ρ => ∃ c, op s = Except.ok c ∧ Rep c ρ (val τ v))
    (hop' : ∀ s τ v, Rep s τ v → match opTy τ with
      | none => ∃ e, op' s = Except.error e
      | some ρ => ∃ c, op' s = Except.ok c ∧ Rep c ρ (val τ v))
    (ha : PairRep r r' α) : PairRep (do op (← r)) (do op' (← r')) (do opTy (← α)) := by
  rcases α with _ | τ
  · obtain ⟨⟨e, rfl⟩, ⟨e', rfl⟩⟩ := ha
    exact ⟨⟨e, rfl⟩, ⟨e', rfl⟩⟩
  · obtain ⟨v, s, s', rfl, rfl, h1, h1'⟩ := ha
    have k := hop s τ v h1
    have k' := hop' s' τ v h1'
    show PairRep (op s) (op' s') (opTy τ)
    cases hρ : opTy τ with
    | none =>
      rw [hρ] at k k'
      exact ⟨k, k'⟩
    | some ρ =>
      rw [hρ] at k k'
      obtain ⟨c, e, hc⟩ := k
      obtain ⟨c', e', hc'⟩ := k'
      exact ⟨_, c, c', e, e', hc, hc'⟩

theorem PairRep.leaf {t t' : TT ℝ} (h : t.WF) (h' : t'.WF) (hm : t.ModesPos) (hs : SameTensors t t') :
    PairRep (Except.ok t) (Except.ok t') (some ⟨t.rawShape, t.batch⟩) := by
  obtain ⟨hr, hb, F, F', eF, eF', sF', vF'⟩ := hs
  obtain ⟨G, eG, sG, vG⟩ := full_ok h
  obtain ⟨G', eG', sG', vG'⟩ := full_ok h'
  obtain rfl : G = F := Except.ok.inj (eG.symm.trans eF)
  obtain rfl : G' = F' := Except.ok.inj (eG'.symm.trans eF')
  have hp : t'.bpre = t.bpre := by simp [TT.bpre, hb]
  rw [hp, hr] at sG' vG'
  refine ⟨fun o i => G.get (bsel t.batch o ++ i), t, t', rfl, rfl, ⟨h, hm, rfl, rfl, fun o i ho hi => ?_⟩,
    ⟨h', modesPos_of_raw hm hr, hr, hb, fun o i ho hi => ?_⟩⟩
  · exact (vG _ i (hasItem_valid ho h.batch_pos) hi).symm
  · have v := hasItem_valid ho h.batch_pos
    have hi : Valid (restShape t.rawShape) i := hi
    show t'.entry (bsel t.batch o) (restModes t.rawShape i) = _
    rw [← vG' _ i v hi]
    exact vF' _ (by rw [sG']; exact valid_append_iff.2 ⟨_, _, rfl, v, hi⟩)

theorem Expr.SameLeaves.pair {qr qr' : QRRoutine} (hqr : qr.Correct) (hqr' : qr'.Correct) {e e' : Expr} (hs : e.SameLeaves e') (h : e.Ok) (h' : e'.Ok) :
    PairRep (e.run qr) (e'.run qr') e.ty := by
  induction hs with
  | obj hs => exact PairRep.leaf h.1 h'.1 h.2 hs
  | add _ _ iha ihb =>
      exact PairRep.bin T3f.add addTy (fun _ _ v w o i => v o i + w o i) (fun _ _ _ _ _ _ h1 h2 => add_rep h1 h2) (iha h.1 h'.1) (ihb h.2 h'.2)
  | sub _ _ iha ihb =>
      exact PairRep.bin T3f.sub addTy (fun _ _ v w o i => v o i - w o i) (fun _ _ _ _ _ _ h1 h2 => sub_rep h1 h2) (iha h.1 h'.1) (ihb h.2 h'.2)
  | neg _ iha =>
      have := PairRep.un T3f.neg T3f.neg some (fun _ v o i => -1 * v o i) (fun s τ v hs => smul_rep hs (-1)) (fun s τ v hs => smul_rep hs (-1)) (iha h h')
      simpa [Expr.run, Expr.ty] using this
  | mul _ _ iha ihb =>
      exact PairRep.bin T3f.multiply mulTy (fun _ _ v w o i => v o i * w o i) (fun _ _ _ _ _ _ h1 h2 => mul_rep h1 h2) (iha h.1 h'.1) (ihb h.2 h'.2)
  | smul c _ iha =>
      have := PairRep.un (fun t => T3f.multiplyScalar t c) (fun t => T3f.multiplyScalar t c) some (fun _ v o i => c * v o i)
        (fun s τ v hs => smul_rep hs c) (fun s τ v hs => smul_rep hs c) (iha h h')
      simpa [Expr.run, Expr.ty] using this
  | matmul _ _ iha ihb =>
      exact PairRep.bin T3f.ttTTMatmul matmulTy (fun τ _ v w o i =>
          ∑ z ∈ Finset.range (τ.raw.getD 1 []).prod, v o [i.getD 0 0, z] * w o [z, i.getD 1 0])
        (fun _ _ _ _ _ _ h1 h2 => matmul_rep h1 h2) (iha h.1 h'.1) (ihb h.2 h'.2)
  | transpose _ iha =>
      exact PairRep.un T3f.ttTranspose T3f.ttTranspose transposeTy (fun _ v o i => v o i.reverse) (fun _ _ _ hs => transpose_rep hs)
        (fun _ _ _ hs => transpose_rep hs) (iha h h')
  | orthogonalize lr _ iha =>
      exact PairRep.un (fun t => T3f.orthogonalize qr t lr) (fun t => T3f.orthogonalize qr' t lr)
        (fun τ => if lr = true ∨ τ.batch = none then some τ else none)
        (fun _ v => v) (fun _ _ _ hs => orthogonalize_rep hqr lr hs) (fun _ _ _ hs => orthogonalize_rep hqr' lr hs) (iha h h')
  | renormalize eps eps' _ iha =>
      have := PairRep.un (fun t => T3f.renormalize t eps) (fun t => T3f.renormalize t eps') some (fun _ v => v)
        (fun s τ v hs => renormalize_rep h.1 hs) (fun s τ v hs => renormalize_rep h'.1 hs) (iha h.2 h'.2)
      simpa [Expr.run, Expr.ty] using this
  | expand _ iha =>
      exact PairRep.un T3f.expandBatchDim T3f.expandBatchDim (fun τ => some ⟨τ.raw, some (τ.batch.getD 1)⟩)
        (fun _ v => v) (fun _ _ _ hs => expand_rep hs) (fun _ _ _ hs => expand_rep hs) (iha h h')
  | squeeze _ iha =>
      exact PairRep.un T3f.squeezeBatchDim T3f.squeezeBatchDim (fun τ => some ⟨τ.raw, squeezed τ.batch⟩)
        (fun _ v => v) (fun _ _ _ hs => squeeze_rep hs) (fun _ _ _ hs => squeeze_rep hs) (iha h h')
  | pick k _ iha =>
      exact PairRep.un (Expr.pickItem k) (Expr.pickItem k) (pickTy k) (fun τ v _ i => v (pyPos (τ.batch.getD 0) k) i)
        (fun _ _ _ hs => pick_rep k hs) (fun _ _ _ hs => pick_rep k hs) (iha h h')

/-- Objects with the same values have the same dense form. -/
theorem Rep.sameTensors {t t' : TT ℝ} {τ : Ty} {v : ℕ → List ℕ → ℝ} (h : Rep t τ v) (h' : Rep t' τ v) : SameTensors t t' := by
  obtain ⟨F, eF, sF, vF⟩ := full_ok h.wf
  obtain ⟨F', eF', sF', vF'⟩ := full_ok h'.wf
  have hr : t'.rawShape = t.rawShape := h'.raw.trans h.raw.symm
  have hb : t'.batch = t.batch := h'.batch.trans h.batch.symm
  have hp : t'.bpre = t.bpre := by simp [TT.bpre, hb]
  rw [hp, hr] at sF' vF'
  refine ⟨hr, hb, F, F', eF, eF', by rw [sF, sF'], fun i hi => ?_⟩
  rw [sF'] at hi
  obtain ⟨p, j, rfl, hp, hj⟩ := valid_append_iff.1 hi
  rw [vF p j hp hj, vF' p j hp hj]
  have hbp : t.bpre = τ.batch.toList := by rw [TT.bpre, h.batch]
  obtain ⟨o, ho, rfl⟩ : ∃ o, τ.HasItem o ∧ p = bsel τ.batch o := by
    rw [hbp] at hp
    unfold Ty.HasItem
    rcases hτ : τ.batch with _ | n
    · rw [hτ] at hp
      exact ⟨0, trivial, (valid_nil_iff _).1 hp⟩
    · rw [hτ] at hp
      obtain ⟨o, rfl, ho⟩ := (valid_singleton _ _).1 hp
      refine ⟨o, Or.inr ho, ?_⟩
      simp only [bsel]
      split_ifs with h1
      · congr 1; omega
      · rfl
  have hj : Valid τ.shape j := by
    rw [h.raw] at hj; exact hj
  rw [h.raw, h.val o j ho hj, h'.val o j ho hj]

end T3f
