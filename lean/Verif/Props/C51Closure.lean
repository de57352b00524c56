import Verif.Proofs.Expr
import Verif.Spec.Kron
import Verif.Props.C30Orthogonalize

/-!
# C51: expressions of any depth
-/

namespace T3f

/-- Two arguments. -/
theorem Expr.bin {a b : Expr} {qr : QRRoutine} (op : TT ℝ → TT ℝ → R (TT ℝ)) (opTy : Ty → Ty → Option Ty)
    (val : Ty → Ty → (ℕ → List ℕ → ℝ) → (ℕ → List ℕ → ℝ) → ℕ → List ℕ → ℝ) (fv : ℕ → List ℕ → ℝ)
    (hfv : ∀ τ σ, a.ty = some τ → b.ty = some σ → fv = val τ σ a.value b.value)
    (hop : ∀ s t τ σ v w, Rep s τ v → Rep t σ w → match opTy τ σ with
      | none => ∃ e, op s t = Except.error e
      | some ρ => ∃ c, op s t = Except.ok c ∧ Rep c ρ (val τ σ v w))
    (ha : match a.ty with | none => ∃ e, a.run qr = Except.error e | some τ => ∃ t, a.run qr = Except.ok t ∧ Rep t τ a.value)
    (hb : match b.ty with | none => ∃ e, b.run qr = Except.error e | some τ => ∃ t, b.run qr = Except.ok t ∧ Rep t τ b.value) :
    match (do opTy (← a.ty) (← b.ty)) with
    | none => ∃ e, (do op (← a.run qr) (← b.run qr)) = Except.error e
    | some ρ => ∃ c, (do op (← a.run qr) (← b.run qr)) = Except.ok c ∧ Rep c ρ fv := by
  cases ea : a.ty with
  | none =>
      rw [ea] at ha
      obtain ⟨e, he⟩ := ha
      exact ⟨e, by rw [he]; rfl⟩
  | some τ =>
      rw [ea] at ha
      obtain ⟨s, hs, hR⟩ := ha
      rw [hs]
      cases eb : b.ty with
      | none =>
          rw [eb] at hb
          obtain ⟨e, he⟩ := hb
          exact ⟨e, by rw [he]; rfl⟩
      | some σ =>
          rw [eb] at hb
          obtain ⟨t, ht, hR'⟩ := hb
          rw [ht]
          have := hop s t τ σ _ _ hR hR'
          rw [hfv τ σ ea eb]
          exact this

/-- One argument. -/
theorem Expr.un {a : Expr} {qr : QRRoutine} (op : TT ℝ → R (TT ℝ)) (opTy : Ty → Option Ty)
    (val : Ty → (ℕ → List ℕ → ℝ) → ℕ → List ℕ → ℝ) (fv : ℕ → List ℕ → ℝ)
    (hfv : ∀ τ, a.ty = some τ → fv = val τ a.value)
    (hop : ∀ s τ v, Rep s τ v → match opTy τ with
      | none => ∃ e, op s = Except.error e
      | some ρ => ∃ c, op s = Except.ok c ∧ Rep c ρ (val τ v))
    (ha : match a.ty with | none => ∃ e, a.run qr = Except.error e | some τ => ∃ t, a.run qr = Except.ok t ∧ Rep t τ a.value) :
    match (do opTy (← a.ty)) with
    | none => ∃ e, (do op (← a.run qr)) = Except.error e
    | some ρ => ∃ c, (do op (← a.run qr)) = Except.ok c ∧ Rep c ρ fv := by
  cases ea : a.ty with
  | none =>
      rw [ea] at ha
      obtain ⟨e, he⟩ := ha
      exact ⟨e, by rw [he]; rfl⟩
  | some τ =>
      rw [ea] at ha
      obtain ⟨s, hs, hR⟩ := ha
      rw [hs, hfv τ ea]
      exact hop s τ _ hR

/-- Every expression evaluates to a representation of its value. -/
theorem Expr.rep {qr : QRRoutine} (hqr : qr.Correct) (e : Expr) (h : e.Ok) :
    match e.ty with
    | none => ∃ err, e.run qr = Except.error err
    | some τ => ∃ t, e.run qr = Except.ok t ∧ Rep t τ e.value := by
  induction e with
  | obj t =>
      refine ⟨t, rfl, h.1, h.2, rfl, rfl, fun o i ho hi => ?_⟩
      obtain ⟨F, eF, -, vF⟩ := full_ok h.1
      show _ = (Expr.fullOf t).get (bsel t.batch o ++ i)
      rw [Expr.fullOf, eF]
      exact (vF _ i (hasItem_valid ho h.1.batch_pos) hi).symm
  | add a b iha ihb =>
      exact Expr.bin T3f.add addTy (fun _ _ v w o i => v o i + w o i) _ (fun _ _ _ _ => rfl)
        (fun _ _ _ _ _ _ h1 h2 => add_rep h1 h2) (iha h.1) (ihb h.2)
  | sub a b iha ihb =>
      exact Expr.bin T3f.sub addTy (fun _ _ v w o i => v o i - w o i) _ (fun _ _ _ _ => rfl)
        (fun _ _ _ _ _ _ h1 h2 => sub_rep h1 h2) (iha h.1) (ihb h.2)
  | neg a iha =>
      have := Expr.un T3f.neg some (fun _ v o i => - v o i) _ (fun _ _ => rfl)
        (fun s τ v hs => by
          obtain ⟨c, e, hc⟩ := smul_rep hs (-1)
          refine ⟨c, e, ?_⟩
          have : (fun o i => - v o i) = fun o i => -1 * v o i := by funext o i; ring
          simp only [this]; exact hc) (iha h)
      simpa [Expr.run, Expr.ty, Expr.value] using this
  | mul a b iha ihb =>
      exact Expr.bin T3f.multiply mulTy (fun _ _ v w o i => v o i * w o i) _ (fun _ _ _ _ => rfl)
        (fun _ _ _ _ _ _ h1 h2 => mul_rep h1 h2) (iha h.1) (ihb h.2)
  | smul c a iha =>
      have := Expr.un (fun t => T3f.multiplyScalar t c) some (fun _ v o i => c * v o i) _ (fun _ _ => rfl)
        (fun s τ v hs => smul_rep hs c) (iha h)
      simpa [Expr.run, Expr.ty, Expr.value] using this
  | matmul a b iha ihb =>
      exact Expr.bin T3f.ttTTMatmul matmulTy (fun τ _ v w o i =>
          ∑ z ∈ Finset.range (τ.raw.getD 1 []).prod, v o [i.getD 0 0, z] * w o [z, i.getD 1 0]) _
        (fun τ σ ea _ => by funext o i; rw [Expr.value, ea]; rfl)
        (fun _ _ _ _ _ _ h1 h2 => matmul_rep h1 h2) (iha h.1) (ihb h.2)
  | transpose a iha =>
      exact Expr.un T3f.ttTranspose transposeTy (fun _ v o i => v o i.reverse) _ (fun _ _ => rfl)
        (fun _ _ _ hs => transpose_rep hs) (iha h)
  | orthogonalize lr a iha =>
      exact Expr.un (fun t => T3f.orthogonalize qr t lr) (fun τ => if lr = true ∨ τ.batch = none then some τ else none)
        (fun _ v => v) _ (fun _ _ => rfl) (fun _ _ _ hs => orthogonalize_rep hqr lr hs) (iha h)
  | renormalize eps a iha =>
      have := Expr.un (fun t => T3f.renormalize t eps) some (fun _ v => v) _ (fun _ _ => rfl)
        (fun s τ v hs => renormalize_rep h.1 hs) (iha h.2)
      simpa [Expr.run, Expr.ty, Expr.value] using this
  | expand a iha =>
      exact Expr.un T3f.expandBatchDim (fun τ => some ⟨τ.raw, some (τ.batch.getD 1)⟩)
        (fun _ v => v) _ (fun _ _ => rfl) (fun _ _ _ hs => expand_rep hs) (iha h)
  | squeeze a iha =>
      exact Expr.un T3f.squeezeBatchDim (fun τ => some ⟨τ.raw, squeezed τ.batch⟩)
        (fun _ v => v) _ (fun _ _ => rfl) (fun _ _ _ hs => squeeze_rep hs) (iha h)
  | pick k a iha =>
      exact Expr.un (Expr.pickItem k) (pickTy k) (fun τ v _ i => v (pyPos (τ.batch.getD 0) k) i) _
        (fun τ ea => by funext o i; rw [Expr.value, ea]; rfl) (fun _ _ _ hs => pick_rep k hs) (iha h)

/-- **C51.** A program of any depth over well-formed objects raises exactly if its type says so; otherwise its
result is well-formed (the cores form a chain with boundary ranks 1, shape, ranks and batch size are those
of the cores), has the announced shape and batch size, and its dense form is the dense computation the
program stands for. -/
theorem C51_closure {qr : QRRoutine} (hqr : qr.Correct) (e : Expr) (h : e.Ok) :
    match e.ty with
    | none => ∃ err, e.run qr = Except.error err
    | some τ => ∃ t F, e.run qr = Except.ok t ∧ t.WF ∧ t.rawShape = τ.raw ∧ t.batch = τ.batch ∧
        full t = Except.ok F ∧ F.shape = τ.batch.toList ++ τ.shape ∧
        ∀ o i, τ.HasItem o → Valid τ.shape i → F.get (bsel τ.batch o ++ i) = e.value o i := by
  have := Expr.rep hqr e h
  revert this
  cases e.ty with
  | none => exact id
  | some τ =>
      rintro ⟨t, et, hR⟩
      obtain ⟨F, eF, sF, vF⟩ := full_ok hR.wf
      refine ⟨t, F, et, hR.wf, hR.raw, hR.batch, eF, by rw [sF, TT.bpre, hR.batch, hR.raw]; rfl, fun o i ho hi => ?_⟩
      rw [vF _ i (hR.valid ho) (by rw [hR.raw]; exact hi), hR.raw, hR.val o i ho hi]

/-- **C51.** The program succeeds exactly if it has a type. -/
theorem C51_ok_iff {qr : QRRoutine} (hqr : qr.Correct) (e : Expr) (h : e.Ok) :
    (∃ t, e.run qr = Except.ok t) ↔ e.ty ≠ none := by
  have := C51_closure hqr e h
  revert this
  cases e.ty with
  | none => rintro ⟨err, he⟩; simp [he]
  | some τ => rintro ⟨t, F, he, -⟩; simp [he]

/-- **C51.** Programs of the same type that stand for the same dense computation give equal dense results. -/
theorem C51_same_value {qr : QRRoutine} (hqr : qr.Correct) (e f : Expr) (he : e.Ok) (hf : f.Ok) (τ : Ty)
    (te : e.ty = some τ) (tf : f.ty = some τ)
    (hv : ∀ o i, τ.HasItem o → Valid τ.shape i → e.value o i = f.value o i) :
    ∃ s t F G, e.run qr = Except.ok s ∧ f.run qr = Except.ok t ∧ full s = Except.ok F ∧ full t = Except.ok G ∧
      F ≃ₜ G := by
  have h1 := C51_closure hqr e he
  have h2 := C51_closure hqr f hf
  rw [te] at h1
  rw [tf] at h2
  obtain ⟨s, F, es, ws, rs, bs, eF, sF, vF⟩ := h1
  obtain ⟨t, G, et, wt, rt, bt, eG, sG, vG⟩ := h2
  refine ⟨s, t, F, G, es, et, eF, eG, sF.trans sG.symm, fun i hi => ?_⟩
  rw [sF] at hi
  rcases hb : τ.batch with _ | n
  · rw [hb] at hi vF vG
    have hi' : Valid τ.shape i := hi
    have ho : τ.HasItem 0 := by unfold Ty.HasItem; rw [hb]; trivial
    have e1 := vF 0 i ho hi'
    have e2 := vG 0 i ho hi'
    simp only [bsel, List.nil_append] at e1 e2
    rw [e1, e2, hv 0 i ho hi']
  · rw [hb] at hi vF vG
    obtain ⟨o, i, rfl, hon, hi'⟩ := (valid_cons_iff _ _ _).1 hi
    have ho : τ.HasItem o := by unfold Ty.HasItem; rw [hb]; exact Or.inr hon
    have e1 := vF o i ho hi'
    have e2 := vG o i ho hi'
    have : bsel (some n) o = [o] := by simp only [bsel]; split_ifs <;> simp; omega
    rw [this, List.singleton_append] at e1 e2
    rw [e1, e2, hv o i ho hi']

/-- `(A + 2 A) (orth A)^T` for a 4x2 TT-matrix. -/
noncomputable def exExpr : Expr :=
  .matmul (.add (.obj exMatrix.toReal) (.smul 2 (.obj exMatrix.toReal)))
    (.transpose (.orthogonalize true (.obj exMatrix.toReal)))

example : exExpr.Ok := by
  have h : exMatrix.toReal.WF := TT.WF.toReal (by decide)
  have hp : exMatrix.toReal.ModesPos := by
    intro row hrow n hn
    simp [TT.toReal, exMatrix] at hrow
    rcases hrow with rfl | rfl <;> simp at hn <;> omega
  exact ⟨⟨⟨h, hp⟩, h, hp⟩, h, hp⟩

example : exExpr.ty = some ⟨[[2, 2], [2, 2]], none⟩ := by
  simp [exExpr, Expr.ty, addTy, matmulTy, transposeTy, Ty.ndims, TT.toReal, exMatrix, AddBatches, BCompat, bcast, squeezed]

/-- The same with a product that does not fit: it raises. -/
example : (Expr.matmul exExpr (.obj exMatrix'.toReal)).ty = none := by
  simp [exExpr, Expr.ty, addTy, matmulTy, transposeTy, Ty.ndims, TT.toReal, exMatrix, exMatrix', AddBatches, BCompat, bcast,
    squeezed]

/-- A batch and one of its items. -/
example : (Expr.sub (.obj exBatch.toReal) (.pick (-1) (.obj exBatch.toReal))).ty =
    some ⟨exBatch.rawShape, exBatch.batch⟩ := by
  simp [Expr.ty, addTy, pickTy, Ty.ndims, TT.toReal, exBatch, AddBatches, bcast]

example : ∃ qr : QRRoutine, qr.Correct := qrRoutine_exists

end T3f
