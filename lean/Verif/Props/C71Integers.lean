import Verif.Proofs.IntExpr
import Verif.Props.C11Inner

/-!
# C71: TT objects with integer cores
-/

namespace T3f

variable {w : ℕ}

theorem bmod_of_fits {w : ℕ} (hw : 0 < w) {x : ℤ} (h0 : -2 ^ (w - 1) ≤ x) (h1 : x < 2 ^ (w - 1)) : x.bmod (2 ^ w) = x := by
  obtain ⟨v, rfl⟩ : ∃ v, w = v + 1 := ⟨w - 1, by omega⟩
  rw [Nat.add_sub_cancel] at h0 h1
  have e : ((2 ^ (v + 1) : ℕ) : ℤ) = 2 * 2 ^ v := by push_cast; ring
  generalize (2 : ℤ) ^ v = y at *
  refine Int.bmod_eq_of_le ?_ ?_ <;> omega

theorem hasItem_of_lt {r : List (List ℕ)} {b : Option ℕ} {o : ℕ} (h : o < b.getD 1) : (Ty.mk r b).HasItem o := by
  cases b with
  | none => trivial
  | some n => exact Or.inr h

/-- **C71.** A program of any depth over TT objects with `w`-bit integer cores raises exactly if its type says so; otherwise every element of the dense form
of the result is the exact integer result modulo `2 ^ w`, taken in the range `-2^(w-1), ..., 2^(w-1) - 1`. -/
theorem C71_programs (e : IntExpr (BitVec w)) (h : e.Ok) :
    match e.ty with
    | none => ∃ err, e.run = Except.error err
    | some τ => ∃ t F, e.run = Except.ok t ∧ t.WF ∧ t.rawShape = τ.raw ∧ t.batch = τ.batch ∧
        full t = Except.ok F ∧ F.shape = τ.batch.toList ++ τ.shape ∧
        ∀ o i, τ.HasItem o → Valid τ.shape i → (F.get (bsel τ.batch o ++ i)).toInt = (e.exact o i).bmod (2 ^ w) := by
  have := IntExpr.rep e h
  revert this
  cases hτ : e.ty with
  | none => exact id
  | some τ =>
      rintro ⟨t, et, hR⟩
      obtain ⟨F, eF, sF, vF⟩ := full_ok hR.wf
      refine ⟨t, F, et, hR.wf, hR.raw, hR.batch, eF, by rw [sF, TT.bpre, hR.batch, hR.raw]; rfl, fun o i ho hi => ?_⟩
      rw [vF _ i (hR.valid ho) (by rw [hR.raw]; exact hi), hR.raw, hR.val o i ho hi, IntExpr.value_exact h hτ ho hi, BitVec.toInt_intCast]

/-- **C71.** If an element of the exact result fits into the data type, it is computed exactly, no matter how large the elements of the cores and the
intermediate results are. -/
theorem C71_no_overflow (hw : 0 < w) (e : IntExpr (BitVec w)) (h : e.Ok) (τ : Ty) (hτ : e.ty = some τ) :
    ∃ t F, e.run = Except.ok t ∧ full t = Except.ok F ∧ F.shape = τ.batch.toList ++ τ.shape ∧
      ∀ o i, τ.HasItem o → Valid τ.shape i → -2 ^ (w - 1) ≤ e.exact o i → e.exact o i < 2 ^ (w - 1) →
        (F.get (bsel τ.batch o ++ i)).toInt = e.exact o i := by
  have := C71_programs e h
  rw [hτ] at this
  obtain ⟨t, F, et, -, -, -, eF, sF, vF⟩ := this
  exact ⟨t, F, et, eF, sF, fun o i ho hi h0 h1 => by rw [vF o i ho hi, bmod_of_fits hw h0 h1]⟩

/-- **C71.** `flat_inner` of the results of two programs is the inner product of the exact results modulo `2 ^ w`, for each item of the batch; in
particular it is exact if it fits into the data type. -/
theorem C71_flat_inner (e f : IntExpr (BitVec w)) (he : e.Ok) (hf : f.Ok) (τ σ : Ty) (hτ : e.ty = some τ) (hσ : f.ty = some σ) (hr : τ.raw = σ.raw)
    (hB : BCompat τ.batch σ.batch) :
    ∃ s t F, e.run = Except.ok s ∧ f.run = Except.ok t ∧ flatInner s t = Except.ok F ∧
      F.shape = (squeezed (bcast τ.batch σ.batch)).toList ∧
      ∀ o < (bcast τ.batch σ.batch).getD 1, (F.get (bsel (squeezed (bcast τ.batch σ.batch)) o)).toInt =
        (∑ n ∈ Finset.range τ.shape.prod, e.exact o (unravel τ.shape n) * f.exact o (unravel τ.shape n)).bmod (2 ^ w) := by
  have h1 := IntExpr.rep e he
  have h2 := IntExpr.rep f hf
  rw [hτ] at h1
  rw [hσ] at h2
  obtain ⟨s, es, hs⟩ := h1
  obtain ⟨t, et, ht⟩ := h2
  have hr' : s.rawShape = t.rawShape := by rw [hs.raw, ht.raw, hr]
  obtain ⟨F, eF, sF, vF⟩ := flatInner_spec hs.wf ht.wf hr' (by rw [hs.batch, ht.batch]; exact hB)
  obtain ⟨F', A, B, S, eF', eA, eB, sA, sB, -, vF'⟩ := C11_flat_inner s t hs.wf ht.wf hr' (by rw [hs.batch, ht.batch]; exact hB)
  obtain rfl : F' = F := Except.ok.inj (eF'.symm.trans eF)
  obtain ⟨A', eA', sA', vA⟩ := full_ok hs.wf
  obtain rfl : A' = A := Except.ok.inj (eA'.symm.trans eA)
  obtain ⟨B', eB', sB', vB⟩ := full_ok ht.wf
  obtain rfl : B' = B := Except.ok.inj (eB'.symm.trans eB)
  have hS : S = τ.shape := by
    have := sA.symm.trans sA'
    rw [TT.bpre] at this
    rw [List.append_cancel_left this, hs.raw]
    rfl
  subst hS
  have hshape : τ.shape = σ.shape := by unfold Ty.shape; rw [hr]
  rw [hs.batch, ht.batch] at sF vF'
  refine ⟨s, t, F', es, et, eF, sF, fun o ho => ?_⟩
  obtain ⟨oa, ob⟩ := hasItem_bcast (ra := τ.raw) (rb := σ.raw) hB (hasItem_of_lt (r := []) ho)
  rw [vF' o ho, ← BitVec.toInt_intCast]
  congr 1
  rw [Int.cast_sum]
  refine Finset.sum_congr rfl fun n hn => ?_
  have hv := unravel_valid (Finset.mem_range.1 hn)
  rw [Int.cast_mul, ← IntExpr.value_exact he hτ oa hv, ← IntExpr.value_exact hf hσ ob (by rw [← hshape]; exact hv)]
  rw [vA _ _ (hs.valid oa) (by rw [hs.raw]; exact hv), vB _ _ (ht.valid ob) (by rw [ht.raw, ← hr]; exact hv), hs.raw, ht.raw, hs.val o _ oa hv,
    ht.val o _ ob (by rw [← hshape]; exact hv)]

/-- **C71, finding.** Differences, negatives and products with a number raise TypeError for all TT objects with integer cores, also where the dense
computation is possible. -/
theorem C71_number (a b : TT (BitVec w)) (c : ℤ) :
    multiplyNumberInt a c = Except.error Err.type ∧ negInt a = Except.error Err.type ∧ subInt a b = Except.error Err.type :=
  ⟨rfl, rfl, rfl⟩

/-- The `1 × 1` tensor with cores `2 ^ 16` and `2 ^ 16`, of data type `tf.int32`. -/
def exBig : TT (BitVec 32) where
  cores := [.ofList [1, 1, 1] [65536], .ofList [1, 1, 1] [65536]]
  rawShape := [[1, 1]]
  ttRanks := [1, 1, 1]
  batch := none

theorem exBig_ok : (IntExpr.obj exBig).Ok := by
  refine ⟨by decide, fun row hrow n hn => ?_⟩
  simp [exBig] at hrow
  subst hrow
  simp at hn
  omega

/-- **C71, finding.** A result that does not fit is silently replaced: `full` of the tensor with cores `2 ^ 16` and `2 ^ 16` is `0`. -/
theorem C71_overflow : ∃ (t : TT (BitVec 32)) (F : Tensor (BitVec 32)), (IntExpr.obj t).Ok ∧ full t = Except.ok F ∧ F.shape = [1, 1] ∧
    (IntExpr.obj t).exact 0 [0, 0] = 2 ^ 32 ∧ (F.get [0, 0]).toInt = 0 := by
  have := C71_programs (.obj exBig) exBig_ok
  simp only [IntExpr.ty] at this
  obtain ⟨t, F, et, -, -, -, eF, sF, vF⟩ := this
  obtain rfl : exBig = t := Except.ok.inj et
  have hx : (IntExpr.obj exBig).exact 0 [0, 0] = 2 ^ 32 := by decide
  refine ⟨exBig, F, exBig_ok, eF, sF, hx, ?_⟩
  rw [show F.get [0, 0] = F.get (bsel exBig.batch 0 ++ [0, 0]) from rfl, vF 0 [0, 0] trivial (by decide), hx]
  decide

/-- `2 ^ 16 * 2 ^ 16 - 2 ^ 16 * 2 ^ 16 + 7 * 1`. -/
def exCancel : TT (BitVec 32) where
  cores := [.ofList [1, 1, 3] [65536, -65536, 7], .ofList [3, 1, 1] [65536, 65536, 1]]
  rawShape := [[1, 1]]
  ttRanks := [1, 3, 1]
  batch := none

theorem exCancel_ok : (IntExpr.obj exCancel).Ok := by
  refine ⟨by decide, fun row hrow n hn => ?_⟩
  simp [exCancel] at hrow
  subst hrow
  simp at hn
  omega

/-- All terms but one are too large, but the result is exact. -/
example : ∃ F, full exCancel = Except.ok F ∧ (F.get [0, 0]).toInt = 7 := by
  obtain ⟨t, F, et, eF, -, vF⟩ := C71_no_overflow (by decide) (.obj exCancel) exCancel_ok _ rfl
  obtain rfl : exCancel = t := Except.ok.inj et
  have hx : (IntExpr.obj exCancel).exact 0 [0, 0] = 7 := by decide
  exact ⟨F, eF, (vF 0 [0, 0] trivial (by decide) (by rw [hx]; decide) (by rw [hx]; decide)).trans hx⟩

/-- A program with all kinds of operations of tensors. -/
noncomputable def exIntExpr : IntExpr (BitVec 32) := .mul (.add (.obj exBig) (.obj exCancel)) (.squeeze (.expand (.obj exCancel)))

example : exIntExpr.Ok := ⟨⟨exBig_ok, exCancel_ok⟩, exCancel_ok⟩

example : exIntExpr.ty = some ⟨[[1, 1]], none⟩ := by
  simp [exIntExpr, IntExpr.ty, addTy, mulTy, Ty.ndims, exBig, exCancel, AddBatches, BCompat, bcast, squeezed]

/-- A program with a difference has no type: it raises. -/
example : (IntExpr.sub (.obj exBig) (.obj exCancel)).ty = none := rfl

/-- The hypotheses of `C71_flat_inner`. -/
example : (IntExpr.obj exBig).ty = some ⟨[[1, 1]], none⟩ ∧ (IntExpr.obj exCancel).ty = some ⟨[[1, 1]], none⟩ ∧ BCompat none none :=
  ⟨rfl, rfl, trivial⟩

end T3f
