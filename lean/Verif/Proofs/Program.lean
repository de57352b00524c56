import Verif.Model.Program
import Verif.Proofs.Expr
import Verif.Proofs.Project
import Verif.Props.C48Variables

/-! # Programs with variables: one expression, one statement -/

namespace T3f

/-- The object has the type, the ranks and the elements of the item. -/
structure RepR (t : TT ℝ) (it : Item) : Prop where
  rep : Rep t it.ty it.val
  rk : ∀ k ≤ t.ndims, t.rank k = it.rk k

section ops
variable {a b : TT ℝ} {u v : Item}

theorem RepR.modeSize (ha : RepR a u) : a.N = Item.modeSize u.ty := by
  funext k
  simp only [TT.N, TT.modes, Item.modeSize, ha.rep.raw]

theorem add_repR (ha : RepR a u) (hb : RepR b v) :
    match addTy u.ty v.ty with
    | none => ∃ e, add a b = Except.error e
    | some τ => ∃ c, add a b = Except.ok c ∧ RepR c ⟨τ, Item.sumRank u.ty.ndims u.rk v.rk, fun o i => u.val o i + v.val o i⟩ := by
  have h1 := add_rep ha.rep hb.rep
  revert h1
  cases hτ : addTy u.ty v.ty with
  | none => exact id
  | some τ =>
    rintro ⟨c, e, hc⟩
    refine ⟨c, e, hc, fun k hk => ?_⟩
    unfold addTy at hτ
    split_ifs at hτ with h
    obtain ⟨hr, hd, hB⟩ := h
    obtain ⟨c', e', -, -, -, nc, rk, -⟩ := add_spec ha.rep.wf hb.rep.wf (by rw [← ha.rep.ndims]; exact hd) (by rw [ha.rep.raw, hb.rep.raw, hr])
      (by rw [ha.rep.batch, hb.rep.batch]; exact hB)
    obtain rfl : c' = c := Except.ok.inj (e'.symm.trans e)
    rw [nc] at hk
    have hnb : b.ndims = a.ndims := ndims_eq_of_rawShape hb.rep.wf ha.rep.wf (by rw [ha.rep.raw, hb.rep.raw, hr])
    rw [rk k hk, addRk, ha.rk k hk, hb.rk k (by omega)]
    show _ = Item.sumRank _ _ _ _
    rw [Item.sumRank, ha.rep.ndims]
    exact if_congr (by omega) rfl rfl

theorem mul_repR (ha : RepR a u) (hb : RepR b v) :
    match mulTy u.ty v.ty with
    | none => ∃ e, multiply a b = Except.error e
    | some τ => ∃ c, multiply a b = Except.ok c ∧ RepR c ⟨τ, fun k => u.rk k * v.rk k, fun o i => u.val o i * v.val o i⟩ := by
  have h1 := mul_rep ha.rep hb.rep
  revert h1
  cases hτ : mulTy u.ty v.ty with
  | none => exact id
  | some τ =>
    rintro ⟨c, e, hc⟩
    refine ⟨c, e, hc, fun k hk => ?_⟩
    unfold mulTy at hτ
    split_ifs at hτ with h
    obtain ⟨hr, hB⟩ := h
    have hr' : a.rawShape = b.rawShape := by rw [ha.rep.raw, hb.rep.raw, hr]
    obtain ⟨c', e', -, -, -, -, nc, rk, -⟩ := multiply_spec ha.rep.wf hb.rep.wf hr' (by rw [ha.rep.batch, hb.rep.batch]; exact hB)
      (modes_prod_pos ha.rep.wf ha.rep.pos)
    obtain rfl : c' = c := Except.ok.inj (e'.symm.trans e)
    rw [nc] at hk
    have hnb : b.ndims = a.ndims := ndims_eq_of_rawShape hb.rep.wf ha.rep.wf hr'.symm
    rw [rk k hk, ha.rk k hk, hb.rk k (by omega)]

theorem smul_repR (ha : RepR a u) (x : ℝ) : ∃ c, multiplyScalar a x = Except.ok c ∧ RepR c ⟨u.ty, u.rk, fun o i => x * u.val o i⟩ := by
  obtain ⟨c, e, hc⟩ := smul_rep ha.rep x
  obtain ⟨c', e', -, -, -, rk, nc, -⟩ := multiplyScalar_spec ha.rep.wf x
  obtain rfl : c' = c := Except.ok.inj (e'.symm.trans e)
  exact ⟨c', e, hc, fun k hk => by rw [TT.rank, rk, ← TT.rank]; exact ha.rk k (by omega)⟩

theorem sub_repR (ha : RepR a u) (hb : RepR b v) :
    match addTy u.ty v.ty with
    | none => ∃ e, sub a b = Except.error e
    | some τ => ∃ c, sub a b = Except.ok c ∧ RepR c ⟨τ, Item.sumRank u.ty.ndims u.rk v.rk, fun o i => u.val o i - v.val o i⟩ := by
  obtain ⟨b', e, hb'⟩ := smul_repR hb (-1)
  have := add_repR ha hb'
  unfold sub
  rw [e, R.ok_bind]
  revert this
  simp only
  cases addTy u.ty v.ty with
  | none => exact id
  | some ρ =>
      rintro ⟨c, ec, hc⟩
      refine ⟨c, ec, ?_⟩
      have : (fun o i => u.val o i - v.val o i) = fun o i => u.val o i + -1 * v.val o i := by funext o i; ring
      rw [this]; exact hc

theorem neg_repR (ha : RepR a u) : ∃ c, neg a = Except.ok c ∧ RepR c ⟨u.ty, u.rk, fun o i => - u.val o i⟩ := by
  obtain ⟨c, e, hc⟩ := smul_repR ha (-1)
  refine ⟨c, e, ?_⟩
  have : (fun o i => - u.val o i) = fun o i => -1 * u.val o i := by funext o i; ring
  rw [this]; exact hc

theorem matmul_repR (ha : RepR a u) (hb : RepR b v) :
    match matmulTy u.ty v.ty with
    | none => ∃ e, ttTTMatmul a b = Except.error e
    | some τ => ∃ c, ttTTMatmul a b = Except.ok c ∧ RepR c ⟨τ, fun k => u.rk k * v.rk k, fun o i =>
        ∑ z ∈ Finset.range (u.ty.raw.getD 1 []).prod, u.val o [i.getD 0 0, z] * v.val o [z, i.getD 1 0]⟩ := by
  have h1 := matmul_rep ha.rep hb.rep
  revert h1
  cases hτ : matmulTy u.ty v.ty with
  | none => exact id
  | some τ =>
    rintro ⟨c, e, hc⟩
    refine ⟨c, e, hc, fun k hk => ?_⟩
    unfold matmulTy at hτ
    split at hτ
    · rename_i I J J' L ea eb
      split_ifs at hτ with h
      obtain ⟨rfl, hB⟩ := h
      obtain ⟨c', e', -, -, -, nc, rk, -⟩ := ttTTMatmul_spec ha.rep.wf hb.rep.wf (ha.rep.raw.trans ea) (hb.rep.raw.trans eb)
        (by rw [ha.rep.batch, hb.rep.batch]; exact hB)
      obtain rfl : c' = c := Except.ok.inj (e'.symm.trans e)
      rw [nc] at hk
      have h1 := ha.rep.wf.rows_len J (by rw [ha.rep.raw, ea]; simp)
      have h2 := hb.rep.wf.rows_len J (by rw [hb.rep.raw, eb]; simp)
      rw [rk k hk, ha.rk k hk, hb.rk k (by omega)]
    · cases hτ

theorem transpose_repR (ha : RepR a u) :
    match transposeTy u.ty with
    | none => ∃ e, ttTranspose a = Except.error e
    | some τ => ∃ c, ttTranspose a = Except.ok c ∧ RepR c ⟨τ, u.rk, fun o i => u.val o i.reverse⟩ := by
  have h1 := transpose_rep ha.rep
  revert h1
  cases hτ : transposeTy u.ty with
  | none => exact id
  | some τ =>
    rintro ⟨c, e, hc⟩
    refine ⟨c, e, hc, fun k hk => ?_⟩
    unfold transposeTy at hτ
    split at hτ
    · rename_i I J ea
      obtain ⟨c', e', -, -, -, nc, rk, -⟩ := ttTranspose_spec ha.rep.wf (ha.rep.raw.trans ea)
      obtain rfl : c' = c := Except.ok.inj (e'.symm.trans e)
      rw [TT.rank, rk, ← TT.rank]
      exact ha.rk k (by omega)
    · cases hτ

theorem rightRank_eq (τ : Ty) (r : ℕ → ℕ) (d : ℕ) (hd : τ.ndims = d) (r' : ℕ → ℕ) (h : ∀ k ≤ d, r' k = r k) (k : ℕ) :
    rlRank (Item.modeSize τ) r' d k = Item.rightRank τ r k := by
  unfold rlRank Item.rightRank
  rw [hd]
  have : ∀ m, rlRankAux (Item.modeSize τ) r' d m = Item.rightRankAux τ r m := fun m => by
    induction m with
    | zero => rfl
    | succ m ih => rw [rlRankAux, Item.rightRankAux, ih, hd, h _ (by omega)]
  rw [this]

theorem leftRank_eq (τ : Ty) (r : ℕ → ℕ) (d : ℕ) (r' : ℕ → ℕ) (h : ∀ k ≤ d, r' k = r k) (k : ℕ) (hk : k ≤ d) :
    lrRank (Item.modeSize τ) r' k = Item.leftRank τ r k := by
  induction k with
  | zero => rfl
  | succ k ih => rw [lrRank, Item.leftRank, ih (by omega), h _ hk]

theorem orthogonalize_repR {qr : QRRoutine} (hqr : qr.Correct) (lr : Bool) (ha : RepR a u) :
    match (if lr = true then some (⟨u.ty, Item.leftRank u.ty u.rk, u.val⟩ : Item)
      else if u.ty.batch = none then some ⟨u.ty, Item.rightRank u.ty u.rk, u.val⟩ else none) with
    | none => ∃ e, orthogonalize qr a lr = Except.error e
    | some it => ∃ c, orthogonalize qr a lr = Except.ok c ∧ RepR c it := by
  have h1 := orthogonalize_rep hqr lr ha.rep
  by_cases hlr : lr = true
  · rw [if_pos (Or.inl hlr)] at h1
    rw [if_pos hlr]
    obtain ⟨c, e, hc⟩ := h1
    refine ⟨c, e, hc, fun k hk => ?_⟩
    unfold orthogonalize at e
    rw [if_pos hlr] at e
    obtain ⟨c', e', -, -, -, nc, rk, -⟩ := orthoLR_ok hqr ha.rep.wf ha.rep.pos
    obtain rfl : c' = c := Except.ok.inj (e'.symm.trans e)
    rw [rk k (by omega), ha.modeSize]
    exact leftRank_eq _ _ _ _ ha.rk k (by omega)
  · rw [if_neg hlr]
    by_cases hb : u.ty.batch = none
    · rw [if_pos (Or.inr hb)] at h1
      rw [if_pos hb]
      obtain ⟨c, e, hc⟩ := h1
      refine ⟨c, e, hc, fun k hk => ?_⟩
      have hb' : a.batch = none := ha.rep.batch.trans hb
      unfold orthogonalize at e
      rw [if_neg hlr, if_neg (by simp [TT.isBatch, hb'])] at e
      obtain ⟨c', e', -, -, -, nc, rk, -⟩ := orthoRL_ok hqr ha.rep.wf hb' ha.rep.pos
      obtain rfl : c' = c := Except.ok.inj (e'.symm.trans e)
      rw [rk k (by omega), ha.modeSize]
      exact rightRank_eq _ _ _ ha.rep.ndims _ ha.rk k
    · rw [if_neg (by tauto)] at h1
      rw [if_neg hb]
      exact h1

theorem renormalize_repR {eps : ℝ} (heps : 0 < eps) (ha : RepR a u) : ∃ c, renormalize a eps = Except.ok c ∧ RepR c u := by
  obtain ⟨c, e, hc⟩ := renormalize_rep heps ha.rep
  obtain ⟨c', e', -, -, -, kc, -⟩ := renormalize_spec ha.rep.wf heps
  obtain rfl : c' = c := Except.ok.inj (e'.symm.trans e)
  have hn : c'.ndims = a.ndims := by rw [← hc.ndims, ha.rep.ndims]
  exact ⟨c', e, hc, fun k hk => by rw [TT.rank, kc, ← TT.rank]; exact ha.rk k (by omega)⟩

theorem expand_repR (ha : RepR a u) :
    ∃ c, expandBatchDim a = Except.ok c ∧ RepR c ⟨⟨u.ty.raw, some (u.ty.batch.getD 1)⟩, u.rk, u.val⟩ := by
  obtain ⟨c, e, hc⟩ := expand_rep ha.rep
  refine ⟨c, e, hc, fun k hk => ?_⟩
  have hn : c.ndims = a.ndims := by rw [← hc.ndims, ← ha.rep.ndims]; rfl
  obtain ⟨w, n, e', -, -, -, kw, -⟩ := expand_fl ha.rep.wf
  obtain rfl : w = c := Except.ok.inj (e'.symm.trans e)
  rw [kw]
  exact ha.rk k (by omega)

theorem squeeze_repR (ha : RepR a u) :
    ∃ c, squeezeBatchDim a = Except.ok c ∧ RepR c ⟨⟨u.ty.raw, squeezed u.ty.batch⟩, u.rk, u.val⟩ := by
  obtain ⟨c, e, hc⟩ := squeeze_rep ha.rep
  refine ⟨c, e, hc, fun k hk => ?_⟩
  obtain ⟨w, e', -, -, kw, nw, -⟩ := squeeze_bsel ha.rep.wf
  obtain rfl : w = c := Except.ok.inj (e'.symm.trans e)
  rw [TT.rank, kw, ← TT.rank]
  exact ha.rk k (by omega)

theorem pick_repR (k : ℤ) (ha : RepR a u) :
    match pickTy k u.ty with
    | none => ∃ e, Expr.pickItem k a = Except.error e
    | some τ => ∃ c, Expr.pickItem k a = Except.ok c ∧ RepR c ⟨τ, u.rk, fun _ i => u.val (pyPos (u.ty.batch.getD 0) k) i⟩ := by
  have h1 := pick_rep k ha.rep
  revert h1
  cases hτ : pickTy k u.ty with
  | none => exact id
  | some τ =>
    rintro ⟨c, e, hc⟩
    refine ⟨c, e, hc, fun j hj => ?_⟩
    unfold pickTy at hτ
    rcases hb : u.ty.batch with _ | n
    · rw [hb] at hτ; cases hτ
    · rw [hb] at hτ
      simp only at hτ
      split_ifs at hτ with hk
      have hb' : a.batch = some n := ha.rep.batch.trans hb
      have hres : resolve1 n (.int k) = Except.ok (Sel.one (pyPos n k)) := by
        simp [resolve1, intPosition_eq, hk]
      obtain ⟨T, eT, wT, rT, kT, nT, -⟩ := batchDimGetItem_spec ha.rep.wf n hb' (.int k) _ hres (by simp [selShape])
      have e' : Expr.pickItem k a = batchDimGetItem a (.int k) := by
        unfold Expr.pickItem batchGetItem
        rw [if_pos (by simp [TT.isBatch, hb']), if_pos rfl]
      obtain rfl : T = c := Except.ok.inj (eT.symm.trans (e'.symm.trans e))
      rw [TT.rank, kT, ← TT.rank]
      exact ha.rk j (by omega)

theorem lit_repR {t : TT ℝ} (h : t.WF) (hp : t.ModesPos) :
    RepR t (Item.ofTT t) := by
  refine ⟨⟨h, hp, rfl, rfl, fun o i ho hi => ?_⟩, fun _ _ => rfl⟩
  obtain ⟨F, eF, -, vF⟩ := full_ok h
  show _ = (Expr.fullOf t).get (bsel t.batch o ++ i)
  rw [Expr.fullOf, eF]
  exact (vF _ i (hasItem_valid ho h.batch_pos) hi).symm

end ops

/-! ## Simulation -/

theorem freshObj_tt (σ : Store ℝ) (t : TT ℝ) : (freshObj t).tt σ = t := by
  obtain ⟨c, r, k, b⟩ := t
  simp [freshObj, VObj.tt, List.map_map, Function.comp_def, VCore.value]

/-- The object made of the variables with the addresses `as`. -/
def varObj (it : Item) (as : List ℕ) : VObj ℝ := ⟨as.map .var, it.ty.raw, (List.range (it.ty.ndims + 1)).map it.rk, it.ty.batch⟩

theorem RepR.ttRanks {t : TT ℝ} {it : Item} (h : RepR t it) : t.ttRanks = (List.range (it.ty.ndims + 1)).map it.rk := by
  rw [h.rep.ndims]
  have hl := h.rep.wf.ranks_len
  refine List.ext_getElem (by simp [hl]) fun i h1 h2 => ?_
  have := h.rk i (by omega)
  rw [TT.rank, List.getD_eq_getElem _ _ h1] at this
  simp [this]

theorem varObj_congr {it it' : Item} (h1 : it'.ty = it.ty) (h2 : ∀ k ≤ it'.ty.ndims, it'.rk k = it.rk k) (as : List ℕ) : varObj it' as = varObj it as := by
  unfold varObj
  rw [← h1]
  congr 1
  exact List.map_congr_left fun k hk => h2 k (by simpa [Nat.lt_succ_iff] using hk)

/-- The running program and the program of the specification agree; `ad v` are the addresses of variable `v`. -/
structure Sim (S : CState) (A : AState) (ad : ℕ → List ℕ) : Prop where
  isVar : ∀ v it, A.mem[v]? = some it → (varObj it (ad v)).IsVariable S.store (ad v)
  disj : ∀ v w, v < A.mem.length → w < A.mem.length → v ≠ w → ∀ a ∈ ad v, a ∉ ad w
  val : ∀ v it, A.mem[v]? = some it → RepR ((varObj it (ad v)).tt S.store) it
  len : S.store.length = (A.mem.map (·.ty.ndims)).sum
  env : ∀ x, match A.env x with
    | none => S.env x = none
    | some (.const it) => ∃ t, S.env x = some (freshObj t) ∧ RepR t it
    | some (.ref v) => ∃ it, A.mem[v]? = some it ∧ S.env x = some (varObj it (ad v))

/-- An object is what the binding says. -/
def Agrees (A : AState) (ad : ℕ → List ℕ) (it : Item) (u : VObj ℝ) : Binding → Prop
  | .const it' => it' = it ∧ ∃ t, u = freshObj t ∧ RepR t it
  | .ref v => A.mem[v]? = some it ∧ u = varObj it (ad v)

section sim
variable {S : CState} {A : AState} {ad : ℕ → List ℕ} {qr : QRRoutine}

theorem Agrees.repR (h : Sim S A ad) {it : Item} {u : VObj ℝ} {b : Binding} (hb : Agrees A ad it u b) : RepR (u.tt S.store) it := by
  cases b with
  | const it' =>
    obtain ⟨-, t, rfl, hr⟩ := hb
    rw [freshObj_tt]; exact hr
  | ref v =>
    obtain ⟨h1, rfl⟩ := hb
    exact h.val v it h1

/-- What is to be shown of an expression. -/
def EvalOk (qr : QRRoutine) (S : CState) (A : AState) (ad : ℕ → List ℕ) (e : NExpr) : Prop :=
  match e.denote A.look with
  | none => (∃ err, e.eval qr S.store S.env = Except.error err) ∧ A.bindingOf e = none
  | some it => ∃ u b, e.eval qr S.store S.env = Except.ok u ∧ A.bindingOf e = some b ∧ Agrees A ad it u b

theorem EvalOk.cases {e : NExpr} (h : EvalOk qr S A ad e) :
    (e.denote A.look = none ∧ (∃ err, e.eval qr S.store S.env = Except.error err) ∧ A.bindingOf e = none) ∨
    ∃ it u b, e.denote A.look = some it ∧ e.eval qr S.store S.env = Except.ok u ∧ A.bindingOf e = some b ∧ Agrees A ad it u b := by
  unfold EvalOk at h
  revert h
  cases hd : e.denote A.look with
  | none => exact fun h => Or.inl ⟨rfl, h⟩
  | some it => exact fun ⟨u, b, h⟩ => Or.inr ⟨it, u, b, rfl, h⟩

/-- A function of one argument which makes a new object. -/
theorem EvalOk.un (hS : Sim S A ad) {e a : NExpr} (op : TT ℝ → R (TT ℝ)) (f : Item → Option Item)
    (he : e.eval qr S.store S.env = (a.eval qr S.store S.env).bind fun u => (op (u.tt S.store)).bind fun c => Except.ok (freshObj c))
    (hd : e.denote A.look = (a.denote A.look).bind f) (hbind : A.bindingOf e = (e.denote A.look).map .const)
    (hop : ∀ t it, RepR t it → match f it with
      | none => ∃ err, op t = Except.error err
      | some it' => ∃ c, op t = Except.ok c ∧ RepR c it')
    (ha : EvalOk qr S A ad a) : EvalOk qr S A ad e := by
  unfold EvalOk
  rw [hbind, he, hd]
  rcases ha.cases with ⟨h1, ⟨err, h2⟩, -⟩ | ⟨it, u, b, h1, h2, -, h4⟩
  · rw [h1, h2]
    exact ⟨⟨err, rfl⟩, rfl⟩
  · have := hop _ _ (h4.repR hS)
    rw [h1, h2]
    show match f it with | none => _ | some it => _
    cases hf : f it with
    | none =>
      rw [hf] at this
      obtain ⟨err, e'⟩ := this
      exact ⟨⟨err, by simp only [Except.bind, e']⟩, by simp [hf]⟩
    | some it' =>
      rw [hf] at this
      obtain ⟨c, e', hc⟩ := this
      exact ⟨freshObj c, .const it', by simp only [Except.bind, e'], by simp [hf], rfl, c, rfl, hc⟩

/-- A function of two arguments which makes a new object. -/
theorem EvalOk.bin (hS : Sim S A ad) {e a b : NExpr} (op : TT ℝ → TT ℝ → R (TT ℝ)) (f : Item → Item → Option Item)
    (he : e.eval qr S.store S.env = (a.eval qr S.store S.env).bind fun u => (b.eval qr S.store S.env).bind fun v =>
      (op (u.tt S.store) (v.tt S.store)).bind fun c => Except.ok (freshObj c))
    (hd : e.denote A.look = (a.denote A.look).bind fun u => (b.denote A.look).bind fun v => f u v) (hbind : A.bindingOf e = (e.denote A.look).map .const)
    (hop : ∀ s t u v, RepR s u → RepR t v → match f u v with
      | none => ∃ err, op s t = Except.error err
      | some it' => ∃ c, op s t = Except.ok c ∧ RepR c it')
    (ha : EvalOk qr S A ad a) (hb : EvalOk qr S A ad b) : EvalOk qr S A ad e := by
  unfold EvalOk
  rw [hbind, he, hd]
  rcases ha.cases with ⟨h1, ⟨err, h2⟩, -⟩ | ⟨it, u, c, h1, h2, -, h4⟩
  · rw [h1, h2]
    exact ⟨⟨err, rfl⟩, rfl⟩
  · rw [h1, h2]
    rcases hb.cases with ⟨g1, ⟨err, g2⟩, -⟩ | ⟨it', v, d, g1, g2, -, g4⟩
    · rw [g1, g2]
      exact ⟨⟨err, rfl⟩, rfl⟩
    · have := hop _ _ _ _ (h4.repR hS) (g4.repR hS)
      rw [g1, g2]
      show match f it it' with | none => _ | some it => _
      cases hf : f it it' with
      | none =>
        rw [hf] at this
        obtain ⟨err, e'⟩ := this
        exact ⟨⟨err, by simp only [Except.bind, e']⟩, by simp [hf]⟩
      | some i =>
        rw [hf] at this
        obtain ⟨c, e', hc⟩ := this
        exact ⟨freshObj c, .const i, by simp only [Except.bind, e'], by simp [hf], rfl, c, rfl, hc⟩

theorem Agrees.batch {it : Item} {u : VObj ℝ} {b : Binding} (hb : Agrees A ad it u b) : u.batch = it.ty.batch := by
  cases b with
  | const it' =>
    obtain ⟨-, t, rfl, hr⟩ := hb
    exact hr.rep.batch
  | ref v =>
    obtain ⟨h1, rfl⟩ := hb
    rfl

theorem eval_sim (hqr : qr.Correct) (hS : Sim S A ad) (e : NExpr) (he : e.Ok) : EvalOk qr S A ad e := by
  induction e with
  | name x =>
    unfold EvalOk
    simp only [NExpr.denote, NExpr.eval, AState.bindingOf, AState.look]
    have := hS.env x
    revert this
    cases A.env x with
    | none =>
      intro h
      rw [h]
      exact ⟨⟨_, rfl⟩, rfl⟩
    | some b =>
      cases b with
      | const it =>
        rintro ⟨t, h1, h2⟩
        rw [h1]
        exact ⟨_, _, rfl, rfl, rfl, t, rfl, h2⟩
      | ref v =>
        rintro ⟨it, h1, h2⟩
        rw [h2]
        simp only [Option.bind_some, AState.item, h1]
        exact ⟨_, _, rfl, rfl, h1, rfl⟩
  | lit t => exact ⟨_, _, rfl, rfl, rfl, t, rfl, lit_repR he.1 he.2⟩
  | add a b iha ihb =>
    exact EvalOk.bin hS T3f.add (fun u v => (addTy u.ty v.ty).bind fun τ => some ⟨τ, Item.sumRank u.ty.ndims u.rk v.rk, fun o i => u.val o i + v.val o i⟩) rfl rfl rfl
      (fun s t u v hs ht => by
        have := add_repR hs ht
        revert this
        cases addTy u.ty v.ty <;> exact id) (iha he.1) (ihb he.2)
  | sub a b iha ihb =>
    exact EvalOk.bin hS T3f.sub (fun u v => (addTy u.ty v.ty).bind fun τ => some ⟨τ, Item.sumRank u.ty.ndims u.rk v.rk, fun o i => u.val o i - v.val o i⟩) rfl rfl rfl
      (fun s t u v hs ht => by
        have := sub_repR hs ht
        revert this
        cases addTy u.ty v.ty <;> exact id) (iha he.1) (ihb he.2)
  | neg a iha => exact EvalOk.un hS T3f.neg (fun u => some ⟨u.ty, u.rk, fun o i => - u.val o i⟩) rfl rfl rfl (fun t it ht => neg_repR ht) (iha he)
  | mul a b iha ihb =>
    exact EvalOk.bin hS T3f.multiply (fun u v => (mulTy u.ty v.ty).bind fun τ => some ⟨τ, fun k => u.rk k * v.rk k, fun o i => u.val o i * v.val o i⟩) rfl rfl rfl
      (fun s t u v hs ht => by
        have := mul_repR hs ht
        revert this
        cases mulTy u.ty v.ty <;> exact id) (iha he.1) (ihb he.2)
  | smul x a iha =>
    exact EvalOk.un hS (fun t => T3f.multiplyScalar t x) (fun u => some ⟨u.ty, u.rk, fun o i => x * u.val o i⟩) rfl rfl rfl (fun t it ht => smul_repR ht x) (iha he)
  | matmul a b iha ihb =>
    exact EvalOk.bin hS T3f.ttTTMatmul (fun u v => (matmulTy u.ty v.ty).bind fun τ => some ⟨τ, fun k => u.rk k * v.rk k, fun o i =>
        ∑ z ∈ Finset.range (u.ty.raw.getD 1 []).prod, u.val o [i.getD 0 0, z] * v.val o [z, i.getD 1 0]⟩) rfl rfl rfl
      (fun s t u v hs ht => by
        have := matmul_repR hs ht
        revert this
        cases matmulTy u.ty v.ty <;> exact id) (iha he.1) (ihb he.2)
  | transpose a iha =>
    exact EvalOk.un hS T3f.ttTranspose (fun u => (transposeTy u.ty).bind fun τ => some ⟨τ, u.rk, fun o i => u.val o i.reverse⟩) rfl rfl rfl
      (fun t u ht => by
        have := transpose_repR ht
        revert this
        cases transposeTy u.ty <;> exact id) (iha he)
  | orthogonalize lr a iha =>
    exact EvalOk.un hS (fun t => T3f.orthogonalize qr t lr) (fun u => if lr = true then some ⟨u.ty, Item.leftRank u.ty u.rk, u.val⟩
      else if u.ty.batch = none then some ⟨u.ty, Item.rightRank u.ty u.rk, u.val⟩ else none) rfl rfl rfl (fun t u ht => orthogonalize_repR hqr lr ht) (iha he)
  | renormalize eps a iha =>
    exact EvalOk.un hS (fun t => T3f.renormalize t eps) some rfl (by simp [NExpr.denote]) rfl (fun t u ht => renormalize_repR he.1 ht) (iha he.2)
  | pick k a iha =>
    exact EvalOk.un hS (Expr.pickItem k) (fun u => (pickTy k u.ty).bind fun τ => some ⟨τ, u.rk, fun _ i => u.val (pyPos (u.ty.batch.getD 0) k) i⟩) rfl rfl rfl
      (fun t u ht => by
        have := pick_repR k ht
        revert this
        cases pickTy k u.ty <;> exact id) (iha he)
  | expand a iha =>
    unfold EvalOk
    simp only [NExpr.denote, NExpr.eval, AState.bindingOf]
    rcases (iha he).cases with ⟨h1, ⟨err, h2⟩, -⟩ | ⟨it, u, b, h1, h2, h3, h4⟩
    · rw [h1, h2]
      exact ⟨⟨err, rfl⟩, rfl⟩
    · rw [h1, h2, R.ok_bind]
      simp only [Option.bind_eq_bind, Option.bind_some, h4.batch]
      by_cases hb : it.ty.batch.isSome = true
      · rw [if_pos hb, if_pos hb, h3]
        have : (⟨⟨it.ty.raw, some (it.ty.batch.getD 1)⟩, it.rk, it.val⟩ : Item) = it := by
          obtain ⟨⟨raw, bt⟩, rk, val⟩ := it
          cases bt with
          | none => cases hb
          | some n => rfl
        rw [this]
        exact ⟨u, b, rfl, rfl, h4⟩
      · rw [if_neg hb, if_neg hb]
        obtain ⟨c, e, hc⟩ := expand_repR (h4.repR hS)
        rw [e]
        exact ⟨_, _, rfl, rfl, rfl, c, rfl, hc⟩
  | squeeze a iha =>
    unfold EvalOk
    simp only [NExpr.denote, NExpr.eval, AState.bindingOf]
    rcases (iha he).cases with ⟨h1, ⟨err, h2⟩, -⟩ | ⟨it, u, b, h1, h2, h3, h4⟩
    · rw [h1, h2]
      exact ⟨⟨err, rfl⟩, rfl⟩
    · rw [h1, h2, R.ok_bind]
      simp only [Option.bind_eq_bind, Option.bind_some, h4.batch]
      by_cases hb : it.ty.batch = some 1
      · rw [if_pos hb, if_pos hb]
        obtain ⟨c, e, hc⟩ := squeeze_repR (h4.repR hS)
        rw [e]
        exact ⟨_, _, rfl, rfl, rfl, c, rfl, hc⟩
      · rw [if_neg hb, if_neg hb, h3]
        have : (⟨⟨it.ty.raw, squeezed it.ty.batch⟩, it.rk, it.val⟩ : Item) = it := by
          obtain ⟨⟨raw, bt⟩, rk, val⟩ := it
          have : squeezed bt = bt := by
            unfold squeezed
            split
            · exact absurd rfl hb
            · rfl
          rw [this]
        rw [this]
        exact ⟨u, b, rfl, rfl, h4⟩

/-- Defining a name. -/
theorem Sim.update (hS : Sim S A ad) {it : Item} {u : VObj ℝ} {b : Binding} (hb : Agrees A ad it u b) (x : ℕ) :
    Sim ⟨S.store, Function.update S.env x (some u)⟩ ⟨Function.update A.env x (some b), A.mem⟩ ad := by
  refine ⟨hS.isVar, hS.disj, hS.val, hS.len, fun y => ?_⟩
  by_cases hy : y = x
  · subst hy
    simp only [Function.update_self]
    cases b with
    | const it' =>
      obtain ⟨rfl, t, rfl, hr⟩ := hb
      exact ⟨t, rfl, hr⟩
    | ref v =>
      obtain ⟨h1, rfl⟩ := hb
      exact ⟨it, h1, rfl⟩
  · simp only [Function.update_of_ne hy]
    exact hS.env y

theorem varObj_tt_same {it : Item} {as : List ℕ} {σ σ' : Store ℝ} (h : ∀ a ∈ as, σ'[a]? = σ[a]?) : (varObj it as).tt σ' = (varObj it as).tt σ := by
  simp only [VObj.tt, varObj]
  congr 1
  simp only [List.map_map]
  refine List.map_congr_left fun a ha => ?_
  simp [VCore.value, List.getD_eq_getElem?_getD, h a ha]

theorem vobj_eq {it : Item} {as : List ℕ} {σ : Store ℝ} {w : VObj ℝ} (hw : RepR (w.tt σ) it) (hc : w.cores = as.map .var) : w = varObj it as := by
  have h1 := hw.rep.raw
  have h2 := hw.ttRanks
  have h3 := hw.rep.batch
  obtain ⟨c, r, k, b⟩ := w
  simp only [VObj.tt] at h1 h2 h3 hc
  rw [h1, h2, h3, hc, varObj]

theorem newVar_sim (hS : Sim S A ad) {it : Item} {u : VObj ℝ} (hu : RepR (u.tt S.store) it) :
    ∃ σ' w ad', getVariable S.store (some u) none = (σ', Except.ok w) ∧ Sim ⟨σ', S.env⟩ ⟨A.env, A.mem ++ [it]⟩ ad' ∧
      w = varObj it (ad' A.mem.length) ∧ ∀ v < A.mem.length, ad' v = ad v := by
  obtain ⟨σ', w, e, e1, e2, e3⟩ := C48_get_variable S.store u hu.rep.wf
  have hσ : S.store ++ u.cores.map (·.value S.store) = σ' := (Prod.ext_iff.1 e).1
  have hlen : σ'.length = S.store.length + u.cores.length := by rw [← hσ]; simp
  have hun : u.cores.length = it.ty.ndims := by rw [hu.rep.ndims]; simp [VObj.tt, TT.ndims]
  obtain ⟨as, has⟩ : ∃ as, (List.range u.cores.length).map (S.store.length + ·) = as := ⟨_, rfl⟩
  rw [has] at e2
  have hw : w = varObj it as := vobj_eq (σ := σ') (by rw [e1]; exact hu) e2.cores
  have hold : ∀ v, v < A.mem.length → ∀ a ∈ ad v, a < S.store.length := fun v hv a ha => by
    exact (hS.isVar v _ (List.getElem?_eq_getElem hv)).inStore a ha
  have hnew : ∀ a ∈ as, S.store.length ≤ a := fun a ha => by
    rw [← has] at ha
    obtain ⟨i, -, rfl⟩ := List.mem_map.1 ha
    omega
  have had : ∀ v < A.mem.length, Function.update ad A.mem.length as v = ad v := fun v hv => Function.update_of_ne (by omega) _ _
  have hcase : ∀ v it', (A.mem ++ [it])[v]? = some it' → (A.mem[v]? = some it' ∧ v < A.mem.length) ∨ (v = A.mem.length ∧ it' = it) := fun v it' h => by
    by_cases hv : v < A.mem.length
    · rw [List.getElem?_append_left hv] at h
      exact Or.inl ⟨h, hv⟩
    · have : v < A.mem.length + 1 := by
        have := (List.getElem?_eq_some_iff.1 h).1
        simpa using this
      obtain rfl : v = A.mem.length := by omega
      rw [List.getElem?_append_right le_rfl] at h
      simp at h
      exact Or.inr ⟨rfl, h.symm⟩
  refine ⟨σ', w, Function.update ad A.mem.length as, e, ⟨fun v it' h => ?_, fun v w' hv hw' hne a ha => ?_, fun v it' h => ?_, ?_, fun x => ?_⟩,
    by rw [Function.update_self]; exact hw, had⟩
  · rcases hcase v it' h with ⟨h, hv⟩ | ⟨rfl, rfl⟩
    · rw [had v hv]
      have := hS.isVar v it' h
      exact ⟨rfl, this.nodup, fun a ha => by have := this.inStore a ha; show a < σ'.length; omega⟩
    · rw [Function.update_self, ← hw]
      exact e2
  · simp only [List.length_append, List.length_singleton] at hv hw'
    by_cases h1 : v < A.mem.length
    · rw [had v h1] at ha
      by_cases h2 : w' < A.mem.length
      · rw [had w' h2]
        exact hS.disj v w' h1 h2 hne a ha
      · obtain rfl : w' = A.mem.length := by omega
        rw [Function.update_self]
        intro hc
        have := hold v h1 a ha
        have := hnew a hc
        omega
    · obtain rfl : v = A.mem.length := by omega
      rw [Function.update_self] at ha
      rw [had w' (by omega)]
      intro hc
      have := hold w' (by omega) a hc
      have := hnew a ha
      omega
  · rcases hcase v it' h with ⟨h, hv⟩ | ⟨rfl, rfl⟩
    · rw [had v hv, varObj_tt_same (σ := S.store) fun a ha => e3 a (hold v hv a ha)]
      exact hS.val v it' h
    · rw [Function.update_self, ← hw, e1]
      exact hu
  · show σ'.length = _
    rw [hlen, hS.len]
    simp [hun]
  · have := hS.env x
    revert this
    simp only
    cases A.env x with
    | none => exact id
    | some b =>
      cases b with
      | const it' => exact id
      | ref v =>
        rintro ⟨it', h1, h2⟩
        have hv := (List.getElem?_eq_some_iff.1 h1).1
        exact ⟨it', by rw [List.getElem?_append_left hv]; exact h1, by rw [had v hv]; exact h2⟩

theorem agrees_separate (hS : Sim S A ad) {it : Item} {u : VObj ℝ} {b : Binding} (hb : Agrees A ad it u b) {v : ℕ} (hv : v < A.mem.length) :
    u.Separate (ad v) := by
  intro i j a h1 h2
  cases b with
  | const it' =>
    obtain ⟨-, t, rfl, hr⟩ := hb
    simp [freshObj] at h1
  | ref w =>
    obtain ⟨hm, rfl⟩ := hb
    have hw := (List.getElem?_eq_some_iff.1 hm).1
    have h1' : (ad w)[i]? = some a := by simpa [varObj] using h1
    by_cases hvw : v = w
    · subst hvw
      have hi := (List.getElem?_eq_some_iff.1 h1').1
      have hj := (List.getElem?_eq_some_iff.1 h2).1
      have hnd := (hS.isVar v it hm).nodup
      exact (List.getElem?_inj hi hnd).1 (h1'.trans h2.symm)
    · exact absurd (List.mem_of_getElem? h1') (hS.disj v w hv hw hvw a (List.mem_of_getElem? h2))

theorem assign_sim (hS : Sim S A ad) {it old : Item} {u : VObj ℝ} {b : Binding} (hb : Agrees A ad it u b) {v : ℕ} (hv : A.mem[v]? = some old)
    (hty : it.ty = old.ty) (hrk : ∀ k ≤ it.ty.ndims, it.rk k = old.rk k) :
    ∃ σ' w, T3f.assign S.store (varObj old (ad v)) u = (σ', Except.ok w) ∧ Sim ⟨σ', S.env⟩ ⟨A.env, A.mem.set v it⟩ ad ∧ w = varObj it (ad v) := by
  have hl := (List.getElem?_eq_some_iff.1 hv).1
  have hu := hb.repR hS
  have hvar := hS.isVar v old hv
  have hval := hS.val v old hv
  have hco := varObj_congr hty hrk (ad v)
  obtain ⟨σ', w, e, e1, e2, e3, e4, e5⟩ := C48_assign S.store (varObj old (ad v)) u (ad v) hvar hval.rep.wf hu.rep.wf (agrees_separate hS hb hl)
    (hu.rep.batch.trans (congrArg Ty.batch hty)) (hu.rep.raw.trans (congrArg Ty.raw hty))
    (hu.ttRanks.trans (congrArg VObj.ttRanks hco))
  have hw : w = varObj it (ad v) := vobj_eq (σ := σ') (by rw [e2]; exact hu) e3
  have hother : ∀ w, w < A.mem.length → w ≠ v → ∀ a ∈ ad w, σ'[a]? = S.store[a]? := fun w hw hne a ha =>
    e5 a (hS.disj w v hw hl hne a ha)
  refine ⟨σ', w, e, ⟨fun x it' h => ?_, fun x y hx hy hne a ha => ?_, fun x it' h => ?_, ?_, fun x => ?_⟩, hw⟩
  · have : x < A.mem.length := by
      have := (List.getElem?_eq_some_iff.1 h).1
      simpa using this
    have := hS.isVar x _ (List.getElem?_eq_getElem this)
    exact ⟨rfl, this.nodup, fun a ha => by show a < σ'.length; rw [e4]; exact this.inStore a ha⟩
  · simp only [List.length_set] at hx hy
    exact hS.disj x y hx hy hne a ha
  · by_cases hx : x = v
    · subst hx
      rw [List.getElem?_set_self hl] at h
      obtain rfl : it = it' := Option.some.inj h
      rw [hco, e1]
      exact hu
    · rw [List.getElem?_set_ne (Ne.symm hx)] at h
      rw [varObj_tt_same (σ := S.store) (hother x (List.getElem?_eq_some_iff.1 h).1 hx)]
      exact hS.val x it' h
  · show σ'.length = _
    rw [e4, hS.len]
    congr 1
    rw [List.map_set]
    refine List.ext_getElem? fun i => ?_
    by_cases hi : i = v
    · subst hi
      rw [List.getElem?_set_self (by simpa using hl), List.getElem?_map, hv, Option.map_some, hty]
    · rw [List.getElem?_set_ne (Ne.symm hi)]
  · have := hS.env x
    revert this
    simp only
    cases A.env x with
    | none => exact id
    | some b =>
      cases b with
      | const it' => exact id
      | ref y =>
        rintro ⟨it', h1, h2⟩
        by_cases hy : y = v
        · subst hy
          obtain rfl : old = it' := Option.some.inj (hv.symm.trans h1)
          exact ⟨it, List.getElem?_set_self hl, by rw [hco]; exact h2⟩
        · exact ⟨it', by rw [List.getElem?_set_ne (Ne.symm hy)]; exact h1, h2⟩

/-- One statement. -/
theorem run_sim (hqr : qr.Correct) (hS : Sim S A ad) (s : Stmt) (hs : s.expr.Ok) {A' : AState} (h : A.exec s = some A') :
    ∃ S' ad', s.run qr S = Except.ok S' ∧ Sim S' A' ad' ∧ (∀ v < A.mem.length, ad' v = ad v) ∧ ∀ x, x ≠ s.target → S'.env x = S.env x := by
  cases s with
  | bind x e =>
    rcases (eval_sim hqr hS e hs).cases with ⟨-, -, h3⟩ | ⟨it, u, b, h1, h2, h3, h4⟩
    · simp [AState.exec, h3] at h
    · simp only [AState.exec, h3, Option.bind_eq_bind, Option.bind_some, Option.some.injEq] at h
      subst h
      exact ⟨_, ad, by rw [Stmt.run, h2]; rfl, hS.update h4 x, fun _ _ => rfl, fun y hy => Function.update_of_ne hy _ _⟩
  | newVar x e =>
    rcases (eval_sim hqr hS e hs).cases with ⟨h1, -, -⟩ | ⟨it, u, b, h1, h2, h3, h4⟩
    · simp [AState.exec, h1] at h
    · simp only [AState.exec, h1, Option.bind_eq_bind, Option.bind_some, Option.some.injEq] at h
      subst h
      obtain ⟨σ', w, ad', e1, e2, e3, e4⟩ := newVar_sim hS (h4.repR hS)
      refine ⟨⟨σ', Function.update S.env x (some w)⟩, ad', ?_, Sim.update e2 (it := it) (b := .ref A.mem.length) ⟨by simp, e3⟩ x, e4, fun y hy => Function.update_of_ne hy _ _⟩
      rw [Stmt.run, h2, R.ok_bind]
      simp only [e1]
      rfl
  | assign y x e =>
    rcases (eval_sim hqr hS e hs).cases with ⟨h1, -, -⟩ | ⟨it, u, b, h1, h2, h3, h4⟩
    · simp only [AState.exec, h1, Option.bind_eq_bind] at h
      cases hx : A.env x with
      | none => rw [hx] at h; cases h
      | some bx =>
        rw [hx] at h
        cases bx with
        | const i => cases h
        | ref v => simp at h
    · have hx := hS.env x
      simp only [AState.exec, h1, Option.bind_eq_bind, Option.bind_some] at h
      revert h hx
      cases A.env x with
      | none => intro _ h; cases h
      | some bx =>
        cases bx with
        | const i => intro _ h; cases h
        | ref v =>
          rintro ⟨old, g1, g2⟩ h
          simp only [Option.bind_some, g1] at h
          split_ifs at h with hc
          obtain rfl := Option.some.inj h
          obtain ⟨σ', w, e1, e2, e3⟩ := assign_sim hS h4 g1 hc.1 hc.2
          have hl := (List.getElem?_eq_some_iff.1 g1).1
          refine ⟨⟨σ', Function.update S.env y (some w)⟩, ad, ?_, Sim.update e2 (it := it) (b := .ref v) ⟨List.getElem?_set_self hl, e3⟩ y, fun _ _ => rfl,
            fun z hz => Function.update_of_ne hz _ _⟩
          rw [Stmt.run, NExpr.eval, g2]
          show ((Except.ok (varObj old (ad v)) : R (VObj ℝ)) >>= _) = _
          rw [R.ok_bind, h2, R.ok_bind]
          simp only [e1]
          rfl

end sim

theorem Sim.empty : Sim .empty .empty fun _ => [] :=
  ⟨fun v it h => by simp [AState.empty] at h, fun v w hv => by simp [AState.empty] at hv, fun v it h => by simp [AState.empty] at h, rfl, fun _ => rfl⟩

/-- A program. -/
theorem runProgram_sim {qr : QRRoutine} (hqr : qr.Correct) (p : List Stmt) (hp : ∀ s ∈ p, s.expr.Ok) {S : CState} {A A' : AState} {ad : ℕ → List ℕ}
    (hS : Sim S A ad) (h : A.execAll p = some A') :
    ∃ S' ad', runProgram qr S p = Except.ok S' ∧ Sim S' A' ad' ∧ ∀ x, (∀ s ∈ p, s.target ≠ x) → S'.env x = S.env x := by
  induction p generalizing S A ad with
  | nil =>
    obtain rfl := Option.some.inj h
    exact ⟨S, ad, rfl, hS, fun _ _ => rfl⟩
  | cons s p ih =>
    rw [AState.execAll] at h
    cases hs : A.exec s with
    | none => rw [hs] at h; cases h
    | some B =>
      rw [hs] at h
      obtain ⟨S1, ad1, e1, h1, -, g1⟩ := run_sim hqr hS s (hp s (by simp)) hs
      obtain ⟨S2, ad2, e2, h2, g2⟩ := ih (fun t ht => hp t (by simp [ht])) h1 h
      refine ⟨S2, ad2, ?_, h2, fun x hx => ?_⟩
      · rw [runProgram, e1]
        exact e2
      · rw [g2 x fun t ht => hx t (by simp [ht]), g1 x (Ne.symm (hx s (by simp)))]

end T3f
