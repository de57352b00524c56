import Verif.Spec.Typed
import Verif.Proofs.TypedMixed
import Verif.Proofs.Variables
import Verif.Props.C51Closure

/-!
# Programs with data types
-/

namespace T3f.Dt

theorem eq_tagT {K : Type} {t : TT K} {d : DType} (h : t.Uniform d) : t = tagT d t.erase := by
  obtain ⟨cores, sh, rk, bs⟩ := t
  unfold tagT TT.erase
  congr 1
  simp only [List.map_map]
  refine (List.map_id cores).symm.trans (List.map_congr_left fun c hc => ?_)
  have := h c hc
  obtain ⟨e, v⟩ := c
  subst this
  rfl

theorem tagT_uniform {K : Type} (d : DType) (t : T3f.TT K) : (tagT d t).Uniform d := by
  intro c hc
  obtain ⟨x, _, rfl⟩ := List.mem_map.mp hc
  rfl

/-- What is shown for every subexpression. -/
structure Good (qr : QRRoutine) (e : DExpr) : Prop where
  ok : ∀ d, e.dtype = some d → e.run qr = tagT d <$> e.plain.run qr
  mixed : e.dtype = none → Mixed (e.run qr) (e.plain.run qr)

theorem pickItem_tag {K : Type} [CommRing K] (d : DType) (k : ℤ) (t : T3f.TT K) : DExpr.pickItem k (tagT d t) = tagT d <$> Expr.pickItem k t := by
  unfold DExpr.pickItem Expr.pickItem
  rw [batchGetItem_tag, ttGetItem_tag, tagT_erase, map_ite]

theorem sub_mixed {d e : DType} (h : d ≠ e) {a b : T3f.TT ℝ} (ha : a.WF) (hb : b.WF) : Mixed (sub (tagT d a) (tagT e b)) (T3f.sub a b) := by
  unfold sub T3f.sub
  rw [multiplyNumber_tag e (ne_nil_of_wf hb)]
  exact Mixed.bind_tag fun c _ => add_mixed h (ne_nil_of_wf ha)

theorem plain_ok {e : DExpr} (h : e.Ok) : e.plain.Ok := by
  induction e with
  | obj t => exact ⟨h.1, h.2.1⟩
  | add a b iha ihb | sub a b iha ihb | mul a b iha ihb | matmul a b iha ihb => exact ⟨iha h.1, ihb h.2⟩
  | renormalize eps a ih => exact ⟨h.1, ih h.2⟩
  | neg a ih | smul c a ih | transpose a ih | orthogonalize lr a ih | expand a ih | squeeze a ih | pick k a ih | cast d a ih => exact ih h

theorem run_wf {qr : QRRoutine} (hqr : qr.Correct) {e : Expr} (h : e.Ok) {t : T3f.TT ℝ} (ht : e.run qr = Except.ok t) : t.WF := by
  have := C51_closure hqr e h
  revert this
  cases e.ty with
  | none => rintro ⟨err, he⟩; rw [he] at ht; cases ht
  | some τ =>
    rintro ⟨t', F, he, hw, -⟩
    rw [he] at ht
    cases ht
    exact hw

theorem Good.un {qr : QRRoutine} {a : DExpr} (ha : Good qr a) (hw : ∀ t, a.plain.run qr = Except.ok t → t.WF) {op : TT ℝ → R (TT ℝ)} {op' : T3f.TT ℝ → R (T3f.TT ℝ)}
    (g : DType → DType) (h : ∀ d t, t.WF → op (tagT d t) = tagT (g d) <$> op' t) :
    (∀ d, a.dtype.map g = some d → (a.run qr >>= op) = tagT d <$> (a.plain.run qr >>= op')) ∧
      (a.dtype.map g = none → Mixed (a.run qr >>= op) (a.plain.run qr >>= op')) := by
  constructor
  · intro d hd
    obtain ⟨e, he, rfl⟩ := Option.map_eq_some_iff.mp hd
    rw [ha.ok e he, bind_map, map_bind]
    cases hr : a.plain.run qr with
    | error _ => rfl
    | ok t => exact h e t (hw t hr)
  · intro hn
    exact Mixed.bind_left (ha.mixed (Option.map_eq_none_iff.mp hn)) _ _

theorem same_none_left (x : Option DType) : DExpr.same none x = none := by cases x <;> rfl

theorem same_none_right (x : Option DType) : DExpr.same x none = none := by cases x <;> rfl

theorem same_self (d : DType) : DExpr.same (some d) (some d) = some d := if_pos rfl

theorem same_ne {d e : DType} (h : d ≠ e) : DExpr.same (some d) (some e) = none := if_neg h

theorem Good.bin {qr : QRRoutine} {a b : DExpr} (ha : Good qr a) (hb : Good qr b) (hwa : ∀ t, a.plain.run qr = Except.ok t → t.WF)
    (hwb : ∀ t, b.plain.run qr = Except.ok t → t.WF) {op : TT ℝ → TT ℝ → R (TT ℝ)} {op' : T3f.TT ℝ → T3f.TT ℝ → R (T3f.TT ℝ)}
    (h : ∀ d s t, s.WF → t.WF → op (tagT d s) (tagT d t) = tagT d <$> op' s t)
    (hm : ∀ d e s t, d ≠ e → s.WF → t.WF → Mixed (op (tagT d s) (tagT e t)) (op' s t)) :
    (∀ d, DExpr.same a.dtype b.dtype = some d → (do op (← a.run qr) (← b.run qr)) = tagT d <$> (do op' (← a.plain.run qr) (← b.plain.run qr))) ∧
      (DExpr.same a.dtype b.dtype = none → Mixed (do op (← a.run qr) (← b.run qr)) (do op' (← a.plain.run qr) (← b.plain.run qr))) := by
  cases hda : a.dtype with
  | none =>
    refine ⟨fun d hd => ?_, fun _ => Mixed.bind_left (ha.mixed hda) _ _⟩
    rw [same_none_left] at hd
    cases hd
  | some d =>
    cases hdb : b.dtype with
    | none =>
      refine ⟨fun d hd => ?_, fun _ => ?_⟩
      · rw [same_none_right] at hd
        cases hd
      · rw [ha.ok d hda]
        exact Mixed.bind_tag fun s _ => Mixed.bind_left (hb.mixed hdb) _ _
    | some e =>
      rw [ha.ok d hda, hb.ok e hdb]
      by_cases hde : d = e
      · subst hde
        rw [same_self]
        refine ⟨fun c hc => ?_, fun hc => by cases hc⟩
        cases hc
        rw [bind_map, map_bind]
        cases hra : a.plain.run qr with
        | error _ => rfl
        | ok s =>
          rw [ok_bind, ok_bind, bind_map, map_bind]
          cases hrb : b.plain.run qr with
          | error _ => rfl
          | ok t => exact h d s t (hwa s hra) (hwb t hrb)
      · rw [same_ne hde]
        refine ⟨fun c hc => ?_, fun _ => ?_⟩
        · cases hc
        exact Mixed.bind_tag fun s hs => Mixed.bind_tag fun t ht => hm d e s t hde (hwa s hs) (hwb t ht)

theorem mapRange_pyGet {K : Type} [CommRing K] (l : List (T3f.Tensor K)) : mapRange l.length (pyGet l) = Except.ok l := by
  rw [mapRange_eq l.length _ (fun k => l.getD k default) fun k hk => pyGet_of_lt l k default hk]
  congr 1
  refine List.ext_getElem (by simp) fun k h1 h2 => ?_
  simp [List.getD, h2]

theorem ttCast_wf (d e : DType) {t : T3f.TT ℝ} (h : t.WF) : ttCast e (tagT d t) = Except.ok (tagT e t) := by
  rw [ttCast_tag, show t.ndims = t.cores.length from rfl, mapRange_pyGet, ok_bind, mkLike_self h]
  rfl

theorem good {qr : QRRoutine} (hqr : qr.Correct) : ∀ (e : DExpr), e.Ok → Good qr e := by
  intro e
  induction e with
  | obj t =>
    rintro ⟨h1, h2, d, hd⟩
    have hne : t.cores ≠ [] := by
      intro h0
      exact ne_nil_of_wf h1 (by unfold TT.erase; rw [h0]; rfl)
    have hdt : (DExpr.obj t).dtype = some d := by
      unfold DExpr.dtype
      cases hc : t.cores with
      | nil => exact absurd hc hne
      | cons c cs => exact congrArg some (hd c (by rw [hc]; simp))
    refine ⟨fun e he => ?_, fun h0 => by rw [hdt] at h0; cases h0⟩
    rw [hdt] at he
    cases he
    exact congrArg Except.ok (eq_tagT hd)
  | add a b iha ihb =>
    intro h
    have := Good.bin (iha h.1) (ihb h.2) (fun t => run_wf hqr (plain_ok h.1)) (fun t => run_wf hqr (plain_ok h.2)) (op := Dt.add) (op' := T3f.add)
      (fun d s t hs _ => add_tag d (ne_nil_of_wf hs) t) (fun d e s t hde hs _ => add_mixed hde (ne_nil_of_wf hs))
    exact ⟨this.1, this.2⟩
  | sub a b iha ihb =>
    intro h
    have := Good.bin (iha h.1) (ihb h.2) (fun t => run_wf hqr (plain_ok h.1)) (fun t => run_wf hqr (plain_ok h.2)) (op := Dt.sub) (op' := T3f.sub)
      (fun d s t hs ht => sub_tag d (ne_nil_of_wf hs) (ne_nil_of_wf ht)) (fun d e s t hde hs ht => sub_mixed hde hs ht)
    exact ⟨this.1, this.2⟩
  | mul a b iha ihb =>
    intro h
    have := Good.bin (iha h.1) (ihb h.2) (fun t => run_wf hqr (plain_ok h.1)) (fun t => run_wf hqr (plain_ok h.2)) (op := Dt.multiply) (op' := T3f.multiply)
      (fun d s t _ _ => multiply_tag d s t) (fun d e s t hde hs _ => multiply_mixed hde hs)
    exact ⟨this.1, this.2⟩
  | matmul a b iha ihb =>
    intro h
    have := Good.bin (iha h.1) (ihb h.2) (fun t => run_wf hqr (plain_ok h.1)) (fun t => run_wf hqr (plain_ok h.2)) (op := Dt.ttTTMatmul) (op' := T3f.ttTTMatmul)
      (fun d s t _ _ => ttTTMatmul_tag d s t) (fun d e s t hde hs _ => ttTTMatmul_mixed hde hs)
    exact ⟨this.1, this.2⟩
  | neg a ih =>
    intro h
    have := Good.un (ih h) (fun t => run_wf hqr (plain_ok (e := a) h)) (op := Dt.neg) (op' := T3f.neg) id (fun d t ht => neg_tag d (ne_nil_of_wf ht))
    rw [Option.map_id] at this
    exact ⟨this.1, this.2⟩
  | smul c a ih =>
    intro h
    have := Good.un (ih h) (fun t => run_wf hqr (plain_ok (e := a) h)) (op := fun t => Dt.multiplyNumber t c) (op' := fun t => T3f.multiplyScalar t c.value) id
      (fun d t ht => multiplyNumber_tag d (ne_nil_of_wf ht) c)
    rw [Option.map_id] at this
    exact ⟨this.1, this.2⟩
  | transpose a ih =>
    intro h
    have := Good.un (ih h) (fun t => run_wf hqr (plain_ok (e := a) h)) (op := Dt.ttTranspose) (op' := T3f.ttTranspose) id (fun d t _ => ttTranspose_tag d t)
    rw [Option.map_id] at this
    exact ⟨this.1, this.2⟩
  | orthogonalize lr a ih =>
    intro h
    have := Good.un (ih h) (fun t => run_wf hqr (plain_ok (e := a) h)) (op := fun t => Dt.orthogonalize qr t lr) (op' := fun t => T3f.orthogonalize qr t lr) id
      (fun d t _ => orthogonalize_tag d qr t lr)
    rw [Option.map_id] at this
    exact ⟨this.1, this.2⟩
  | renormalize eps a ih =>
    intro h
    have := Good.un (ih h.2) (fun t => run_wf hqr (plain_ok h.2)) (op := fun t => Dt.renormalize t eps) (op' := fun t => T3f.renormalize t eps) id
      (fun d t ht => renormalize_tag d (ne_nil_of_wf ht) eps)
    rw [Option.map_id] at this
    exact ⟨this.1, this.2⟩
  | expand a ih =>
    intro h
    have := Good.un (ih h) (fun t => run_wf hqr (plain_ok (e := a) h)) (op := Dt.expandBatchDim) (op' := T3f.expandBatchDim) id (fun d t _ => expandBatchDim_tag d t)
    rw [Option.map_id] at this
    exact ⟨this.1, this.2⟩
  | squeeze a ih =>
    intro h
    have := Good.un (ih h) (fun t => run_wf hqr (plain_ok (e := a) h)) (op := Dt.squeezeBatchDim) (op' := T3f.squeezeBatchDim) id (fun d t _ => squeezeBatchDim_tag d t)
    rw [Option.map_id] at this
    exact ⟨this.1, this.2⟩
  | pick k a ih =>
    intro h
    have := Good.un (ih h) (fun t => run_wf hqr (plain_ok (e := a) h)) (op := DExpr.pickItem k) (op' := Expr.pickItem k) id (fun d t _ => pickItem_tag d k t)
    rw [Option.map_id] at this
    exact ⟨this.1, this.2⟩
  | cast e a ih =>
    intro h
    have := Good.un (ih h) (fun t => run_wf hqr (plain_ok (e := a) h)) (op := Dt.ttCast e) (op' := fun t => Except.ok t) (fun _ => e)
      (fun d t ht => ttCast_wf d e ht)
    have hb : ∀ x : R (T3f.TT ℝ), (x >>= fun t => Except.ok t) = x := fun x => by cases x <;> rfl
    rw [hb] at this
    exact ⟨this.1, this.2⟩

end T3f.Dt
