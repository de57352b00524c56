import Verif.Spec.IntExpr
import Verif.Proofs.Expr

/-!
# Programs over integers: proofs
-/

namespace T3f

variable {K L : Type} [CommRing K] [CommRing L]

theorem TT.mapEntries_core (f : K → L) (t : TT K) {k : ℕ} (hk : k < t.ndims) : (t.mapEntries f).core k = (t.core k).map f := by
  have hk : k < t.cores.length := hk
  simp [TT.core, TT.mapEntries, List.getD_eq_getElem?_getD, hk]

omit [CommRing K] [CommRing L] in
theorem TT.mapEntries_ndims (f : K → L) (t : TT K) : (t.mapEntries f).ndims = t.ndims := by
  simp [TT.mapEntries, TT.ndims]

theorem TT.WF.mapEntries (f : K → L) {t : TT K} (h : t.WF) : (t.mapEntries f).WF where
  pos := by rw [TT.mapEntries_ndims]; exact h.pos
  ranks_len := by rw [TT.mapEntries_ndims]; exact h.ranks_len
  rank_first := h.rank_first
  rank_last := by rw [TT.mapEntries_ndims]; exact h.rank_last
  rank_pos := by rw [TT.mapEntries_ndims]; exact h.rank_pos
  rows := h.rows
  rows_len := by rw [TT.mapEntries_ndims]; exact h.rows_len
  core_shape := by
    intro k hk
    rw [TT.mapEntries_ndims] at hk
    rw [TT.mapEntries_core f t hk]
    exact h.core_shape k hk
  batch_pos := h.batch_pos

theorem lprod_map (φ : K →+* L) (r : ℕ → ℕ) (A : ℕ → ℕ → ℕ → K) (k b : ℕ) :
    φ (lprod r A k b) = lprod r (fun j x y => φ (A j x y)) k b := by
  induction k generalizing b with
  | zero => simp only [lprod]; split_ifs <;> simp
  | succ k ih => simp only [lprod, map_sum, map_mul, ih]

theorem TT.entry_mapEntries (φ : K →+* L) (t : TT K) (p : List ℕ) (m : ℕ → List ℕ) :
    (t.mapEntries φ).entry p m = φ (t.entry p m) := by
  rw [TT.entry, TT.entry, lprod_map, TT.mapEntries_ndims]
  refine lprod_congr' fun j hj => ?_
  funext x y
  simp only [TT.slice]
  rw [TT.mapEntries_core _ _ hj]
  rfl

theorem fullOf_get {t : TT K} (h : t.WF) {p i : List ℕ} (hp : Valid t.bpre p) (hi : Valid (restShape t.rawShape) i) :
    (Expr.fullOf t).get (p ++ i) = t.entry p (restModes t.rawShape i) := by
  obtain ⟨F, eF, -, vF⟩ := full_ok h
  rw [Expr.fullOf, eF]
  exact vF p i hp hi

namespace IntExpr

omit [CommRing K] [CommRing L] in
theorem ty_map (f : K → L) (e : IntExpr K) : (e.map f).ty = e.ty := by
  induction e <;> simp_all [map, ty, TT.mapEntries]

theorem ok_map (f : K → L) {e : IntExpr K} (h : e.Ok) : (e.map f).Ok := by
  induction e with
  | obj t => exact ⟨h.1.mapEntries f, h.2⟩
  | add a b iha ihb | sub a b iha ihb | mul a b iha ihb | matmul a b iha ihb => exact ⟨iha h.1, ihb h.2⟩
  | neg a iha | smul _ a iha | transpose a iha | expand a iha | squeeze a iha | pick _ a iha => exact iha h

/-- A ring homomorphism applied to the elements of the cores is applied to the value. -/
theorem value_map (φ : K →+* L) {e : IntExpr K} (h : e.Ok) {τ : Ty} (hτ : e.ty = some τ) {o : ℕ} {i : List ℕ} (ho : τ.HasItem o)
    (hi : Valid τ.shape i) : (e.map φ).value o i = φ (e.value o i) := by
  induction e generalizing τ o i with
  | obj t =>
      obtain rfl : (⟨t.rawShape, t.batch⟩ : Ty) = τ := by simpa [ty] using hτ
      show (Expr.fullOf (t.mapEntries φ)).get (bsel t.batch o ++ i) = φ ((Expr.fullOf t).get (bsel t.batch o ++ i))
      have hv : Valid t.bpre (bsel t.batch o) := hasItem_valid ho h.1.batch_pos
      rw [fullOf_get h.1 hv hi, fullOf_get (h.1.mapEntries φ) (p := bsel t.batch o) hv hi, TT.entry_mapEntries]
      rfl
  | add a b iha ihb =>
      cases ea : a.ty with
      | none => simp [ty, ea] at hτ
      | some τa =>
      cases eb : b.ty with
      | none => simp [ty, ea, eb] at hτ
      | some τb =>
      simp only [ty, ea, eb, Option.bind_eq_bind, Option.bind_some, addTy] at hτ
      split_ifs at hτ with hc
      obtain ⟨hr, -, hB⟩ := hc
      obtain rfl := Option.some.inj hτ
      obtain ⟨oa, ob⟩ := hasItem_bcast (ra := τa.raw) (rb := τb.raw) (addBatches_compat hB) ho
      simp only [map, value, map_add]
      rw [iha h.1 ea oa hi, ihb h.2 eb ob (by unfold Ty.shape at hi ⊢; rw [← hr]; exact hi)]
  | sub a b => simp [ty] at hτ
  | neg a => simp [ty] at hτ
  | smul c a => simp [ty] at hτ
  | mul a b iha ihb =>
      cases ea : a.ty with
      | none => simp [ty, ea] at hτ
      | some τa =>
      cases eb : b.ty with
      | none => simp [ty, ea, eb] at hτ
      | some τb =>
      simp only [ty, ea, eb, Option.bind_eq_bind, Option.bind_some, mulTy] at hτ
      split_ifs at hτ with hc
      obtain ⟨hr, hB⟩ := hc
      obtain rfl := Option.some.inj hτ
      obtain ⟨oa, ob⟩ := hasItem_bcast (ra := τa.raw) (rb := τb.raw) hB ho
      simp only [map, value, map_mul]
      rw [iha h.1 ea oa hi, ihb h.2 eb ob (by unfold Ty.shape at hi ⊢; rw [← hr]; exact hi)]
  | matmul a b iha ihb =>
      cases ea : a.ty with
      | none => simp [ty, ea] at hτ
      | some τa =>
      cases eb : b.ty with
      | none => simp [ty, ea, eb] at hτ
      | some τb =>
      simp only [ty, ea, eb, Option.bind_eq_bind, Option.bind_some, matmulTy] at hτ
      split at hτ
      · rename_i I J J' M ra rb
        split_ifs at hτ with hc
        obtain ⟨rfl, hB⟩ := hc
        obtain rfl := Option.some.inj hτ
        obtain ⟨oa, ob⟩ := hasItem_bcast (ra := τa.raw) (rb := τb.raw) (rc := []) hB (hasItem_squeezed ho)
        obtain ⟨x, y, rfl, hx, hy⟩ := (valid_pair _ _ _).1 (show Valid [I.prod, M.prod] i from hi)
        simp only [map, value, ty_map, map_sum, map_mul]
        refine Finset.sum_congr rfl fun z hz => ?_
        have hz' : z < J.prod := by
          have := Finset.mem_range.1 hz
          rwa [ea, innerDim, ra] at this
        exact congrArg₂ _ (iha h.1 ea oa (i := [x, z]) (by unfold Ty.shape; rw [ra]; exact ⟨hx, hz', trivial⟩))
          (ihb h.2 eb ob (i := [z, y]) (by unfold Ty.shape; rw [rb]; exact ⟨hz', hy, trivial⟩))
      · simp at hτ
  | transpose a iha =>
      cases ea : a.ty with
      | none => simp [ty, ea] at hτ
      | some τa =>
      simp only [ty, ea, Option.bind_eq_bind, Option.bind_some, transposeTy] at hτ
      split at hτ
      · rename_i I J ra
        obtain rfl := Option.some.inj hτ
        obtain ⟨x, y, rfl, hx, hy⟩ := (valid_pair _ _ _).1 (show Valid [J.prod, I.prod] i from hi)
        exact iha h ea ho (i := [y, x]) (by unfold Ty.shape; rw [ra]; exact ⟨hy, hx, trivial⟩)
      · simp at hτ
  | expand a iha =>
      cases ea : a.ty with
      | none => simp [ty, ea] at hτ
      | some τa =>
      simp only [ty, ea, Option.bind_eq_bind, Option.bind_some] at hτ
      obtain rfl := Option.some.inj hτ
      refine iha h ea ?_ hi
      unfold Ty.HasItem at ho ⊢
      cases hb : τa.batch with
      | none => trivial
      | some n => rw [hb] at ho; exact ho
  | squeeze a iha =>
      cases ea : a.ty with
      | none => simp [ty, ea] at hτ
      | some τa =>
      simp only [ty, ea, Option.bind_eq_bind, Option.bind_some] at hτ
      obtain rfl := Option.some.inj hτ
      exact iha h ea (hasItem_squeezed (r' := τa.raw) ho) hi
  | pick k a iha =>
      cases ea : a.ty with
      | none => simp [ty, ea] at hτ
      | some τa =>
      simp only [ty, ea, Option.bind_eq_bind, Option.bind_some, pickTy] at hτ
      split at hτ
      · rename_i n hb
        split_ifs at hτ with hk
        obtain rfl := Option.some.inj hτ
        simp only [map, value, ty_map, ea, batchSizeOf, hb, Option.getD_some]
        refine iha h ea ?_ hi
        unfold Ty.HasItem
        rw [hb]
        right
        unfold pyPos
        split_ifs <;> omega
      · simp at hτ

/-! ## Running the program -/

section
variable {w : ℕ}

theorem powIntFloat_error (x : BitVec w) (y : ℚ) : powIntFloat x y = Except.error Err.type := rfl

theorem multiplyNumberInt_error (a : TT (BitVec w)) (c : ℤ) : multiplyNumberInt a c = Except.error Err.type := rfl

/-- Two arguments. -/
theorem bin {a b : IntExpr (BitVec w)} (op : TT (BitVec w) → TT (BitVec w) → R (TT (BitVec w))) (opTy : Ty → Ty → Option Ty)
    (val : Ty → Ty → (ℕ → List ℕ → BitVec w) → (ℕ → List ℕ → BitVec w) → ℕ → List ℕ → BitVec w) (fv : ℕ → List ℕ → BitVec w)
    (hfv : ∀ τ σ, a.ty = some τ → b.ty = some σ → fv = val τ σ a.value b.value)
    (hop : ∀ s t τ σ v w, Rep s τ v → Rep t σ w → match opTy τ σ with
      | none => ∃ e, op s t = Except.error e
      | some ρ => ∃ c, op s t = Except.ok c ∧ Rep c ρ (val τ σ v w))
    (ha : match a.ty with | none => ∃ e, a.run = Except.error e | some τ => ∃ t, a.run = Except.ok t ∧ Rep t τ a.value)
    (hb : match b.ty with | none => ∃ e, b.run = Except.error e | some τ => ∃ t, b.run = Except.ok t ∧ Rep t τ b.value) :
    match (do opTy (← a.ty) (← b.ty)) with
    | none => ∃ e, (do op (← a.run) (← b.run)) = Except.error e
    | some ρ => ∃ c, (do op (← a.run) (← b.run)) = Except.ok c ∧ Rep c ρ fv := by
  cases ea : a.ty with
  | none =>
      rw [ea] at ha
      obtain ⟨e, he⟩ := ha
      exact ⟨e, by rw [he]; rfl⟩
  | some τ =>
      rw [ea] at ha
      obtain ⟨s, hs, hR⟩ := ha
      rw [hs]
      cases eb : b.ty with
      | none =>
          rw [eb] at hb
          obtain ⟨e, he⟩ := hb
          exact ⟨e, by rw [he]; rfl⟩
      | some σ =>
          rw [eb] at hb
          obtain ⟨t, ht, hR'⟩ := hb
          rw [ht]
          have := hop s t τ σ _ _ hR hR'
          rw [hfv τ σ ea eb]
          exact this

/-- One argument. -/
theorem un {a : IntExpr (BitVec w)} (op : TT (BitVec w) → R (TT (BitVec w))) (opTy : Ty → Option Ty)
    (val : Ty → (ℕ → List ℕ → BitVec w) → ℕ → List ℕ → BitVec w) (fv : ℕ → List ℕ → BitVec w)
    (hfv : ∀ τ, a.ty = some τ → fv = val τ a.value)
    (hop : ∀ s τ v, Rep s τ v → match opTy τ with
      | none => ∃ e, op s = Except.error e
      | some ρ => ∃ c, op s = Except.ok c ∧ Rep c ρ (val τ v))
    (ha : match a.ty with | none => ∃ e, a.run = Except.error e | some τ => ∃ t, a.run = Except.ok t ∧ Rep t τ a.value) :
    match (do opTy (← a.ty)) with
    | none => ∃ e, (do op (← a.run)) = Except.error e
    | some ρ => ∃ c, (do op (← a.run)) = Except.ok c ∧ Rep c ρ fv := by
  cases ea : a.ty with
  | none =>
      rw [ea] at ha
      obtain ⟨e, he⟩ := ha
      exact ⟨e, by rw [he]; rfl⟩
  | some τ =>
      rw [ea] at ha
      obtain ⟨s, hs, hR⟩ := ha
      rw [hs, hfv τ ea]
      exact hop s τ _ hR

/-- An operation that always raises. -/
theorem bind_error {α β : Type} (m : R α) (f : α → R β) (hf : ∀ a, ∃ e, f a = Except.error e) : ∃ e, (m >>= f) = Except.error e := by
  cases m with
  | error e => exact ⟨e, rfl⟩
  | ok a => exact hf a

/-- Every program evaluates to a representation of its value in the ring of `w`-bit integers. -/
theorem rep (e : IntExpr (BitVec w)) (h : e.Ok) :
    match e.ty with
    | none => ∃ err, e.run = Except.error err
    | some τ => ∃ t, e.run = Except.ok t ∧ Rep t τ e.value := by
  induction e with
  | obj t =>
      refine ⟨t, rfl, h.1, h.2, rfl, rfl, fun o i ho hi => ?_⟩
      exact (fullOf_get h.1 (hasItem_valid ho h.1.batch_pos) hi).symm
  | add a b iha ihb =>
      exact bin T3f.add addTy (fun _ _ v w o i => v o i + w o i) _ (fun _ _ _ _ => rfl)
        (fun _ _ _ _ _ _ h1 h2 => add_rep h1 h2) (iha h.1) (ihb h.2)
  | sub a b => exact bind_error _ _ fun s => bind_error _ _ fun t => ⟨_, rfl⟩
  | neg a => exact bind_error _ _ fun s => ⟨_, rfl⟩
  | smul c a => exact bind_error _ _ fun s => ⟨_, rfl⟩
  | mul a b iha ihb =>
      exact bin T3f.multiply mulTy (fun _ _ v w o i => v o i * w o i) _ (fun _ _ _ _ => rfl)
        (fun _ _ _ _ _ _ h1 h2 => mul_rep h1 h2) (iha h.1) (ihb h.2)
  | matmul a b iha ihb =>
      exact bin T3f.ttTTMatmul matmulTy (fun τ _ v w o i =>
          ∑ z ∈ Finset.range (τ.raw.getD 1 []).prod, v o [i.getD 0 0, z] * w o [z, i.getD 1 0]) _
        (fun τ σ ea _ => by funext o i; rw [value, ea]; rfl)
        (fun _ _ _ _ _ _ h1 h2 => matmul_rep h1 h2) (iha h.1) (ihb h.2)
  | transpose a iha =>
      exact un T3f.ttTranspose transposeTy (fun _ v o i => v o i.reverse) _ (fun _ _ => rfl)
        (fun _ _ _ hs => transpose_rep hs) (iha h)
  | expand a iha =>
      exact un T3f.expandBatchDim (fun τ => some ⟨τ.raw, some (τ.batch.getD 1)⟩)
        (fun _ v => v) _ (fun _ _ => rfl) (fun _ _ _ hs => expand_rep hs) (iha h)
  | squeeze a iha =>
      exact un T3f.squeezeBatchDim (fun τ => some ⟨τ.raw, squeezed τ.batch⟩)
        (fun _ v => v) _ (fun _ _ => rfl) (fun _ _ _ hs => squeeze_rep hs) (iha h)
  | pick k a iha =>
      exact un (Expr.pickItem k) (pickTy k) (fun τ v _ i => v (pyPos (τ.batch.getD 0) k) i) _
        (fun τ ea => by funext o i; rw [value, ea]; rfl) (fun _ _ _ hs => pick_rep k hs) (iha h)

omit [CommRing K] [CommRing L] in
theorem map_map {M : Type} (f : K → L) (g : L → M) (e : IntExpr K) : (e.map f).map g = e.map (g ∘ f) := by
  induction e <;> simp_all [map, TT.mapEntries, Tensor.map, Function.comp_def]

omit [CommRing K] in
theorem map_id (e : IntExpr K) : e.map id = e := by
  induction e <;> simp_all [map, TT.mapEntries, Tensor.map]

/-- The value in the ring of `w`-bit integers is the exact value modulo `2 ^ w`. -/
theorem value_exact {e : IntExpr (BitVec w)} (h : e.Ok) {τ : Ty} (hτ : e.ty = some τ) {o : ℕ} {i : List ℕ} (ho : τ.HasItem o)
    (hi : Valid τ.shape i) : e.value o i = ((e.exact o i : ℤ) : BitVec w) := by
  have h1 : (e.map BitVec.toInt).map (Int.castRingHom (BitVec w)) = e := by
    rw [map_map]
    have : (⇑(Int.castRingHom (BitVec w)) ∘ BitVec.toInt) = id := by
      funext x
      exact BitVec.eq_of_toInt_eq (by simp)
    rw [this, map_id]
  have h2 := value_map (Int.castRingHom (BitVec w)) (ok_map BitVec.toInt h) (by rw [ty_map]; exact hτ) ho hi
  rw [h1] at h2
  rw [h2]
  rfl

end

end IntExpr

end T3f
