import Verif.Proofs.Program

/-!
# C63: programs with variables

Straight-line programs that bind names, create TT-variables and assign to them (`Verif/Spec/Program.lean` says what such a program means, without cores or TensorFlow
variables).
-/

namespace T3f

/-- What can be observed of the object `u`, with the variables as in `σ`, is the item: its shape, batch size and TT-ranks, and its dense form. -/
def Shows (σ : Store ℝ) (u : VObj ℝ) (it : Item) : Prop :=
  (u.tt σ).WF ∧ u.rawShape = it.ty.raw ∧ u.batch = it.ty.batch ∧ u.ttRanks = (List.range (it.ty.ndims + 1)).map it.rk ∧
    ∃ F, full (u.tt σ) = Except.ok F ∧ F.shape = it.ty.batch.toList ++ it.ty.shape ∧
      ∀ o i, it.ty.HasItem o → Valid it.ty.shape i → F.get (bsel it.ty.batch o ++ i) = it.val o i

theorem RepR.shows {σ : Store ℝ} {u : VObj ℝ} {it : Item} (h : RepR (u.tt σ) it) : Shows σ u it := by
  obtain ⟨F, eF, sF, vF⟩ := full_ok h.rep.wf
  refine ⟨h.rep.wf, h.rep.raw, h.rep.batch, h.ttRanks, F, eF, by rw [sF, TT.bpre, h.rep.batch, h.rep.raw]; rfl, fun o i ho hi => ?_⟩
  rw [vF _ i (h.rep.valid ho) (by rw [h.rep.raw]; exact hi), h.rep.raw, h.rep.val o i ho hi]

/-- **C63.** A program with a meaning runs without exception. Afterwards exactly the names of the specification are defined, and each of them has the shape, the TT-ranks
and the elements which the specification says. There is one TensorFlow variable for every core of every TT-variable. -/
theorem C63_program {qr : QRRoutine} (hqr : qr.Correct) (p : List Stmt) (hp : ∀ s ∈ p, s.expr.Ok) {A : AState} (h : AState.empty.execAll p = some A) :
    ∃ S, runProgram qr .empty p = Except.ok S ∧ S.store.length = (A.mem.map (·.ty.ndims)).sum ∧
      ∀ x, match A.look x with
        | none => S.env x = none
        | some it => ∃ u, S.env x = some u ∧ Shows S.store u it := by
  obtain ⟨S, ad, e, hS, -⟩ := runProgram_sim hqr p hp Sim.empty h
  refine ⟨S, e, hS.len, fun x => ?_⟩
  have := hS.env x
  unfold AState.look
  revert this
  cases A.env x with
  | none => exact id
  | some b =>
    cases b with
    | const it =>
      rintro ⟨t, h1, h2⟩
      exact ⟨_, h1, RepR.shows (by rw [freshObj_tt]; exact h2)⟩
    | ref v =>
      rintro ⟨it, h1, h2⟩
      simp only [Option.bind_some, AState.item, h1]
      exact ⟨_, h2, (hS.val v it h1).shows⟩

theorem execAll_append (A : AState) (p q : List Stmt) : A.execAll (p ++ q) = (A.execAll p).bind fun B => B.execAll q := by
  induction p generalizing A with
  | nil => rfl
  | cons s p ih =>
    rw [List.cons_append, AState.execAll, AState.execAll]
    cases A.exec s with
    | none => rfl
    | some B => exact ih B

theorem runProgram_append (qr : QRRoutine) (S : CState) (p q : List Stmt) : runProgram qr S (p ++ q) = runProgram qr S p >>= fun T => runProgram qr T q := by
  induction p generalizing S with
  | nil => rfl
  | cons s p ih =>
    rw [List.cons_append, runProgram, runProgram]
    cases s.run qr S with
    | error e => rfl
    | ok T => exact ih T

/-- **C63.** A name bound to a computed value is a snapshot: whatever is assigned to variables later, the object is the same and so are its values. -/
theorem C63_snapshot {qr : QRRoutine} (hqr : qr.Correct) (p q : List Stmt) (hp : ∀ s ∈ p ++ q, s.expr.Ok) {A B : AState} (h : AState.empty.execAll p = some A)
    (h' : A.execAll q = some B) {x : ℕ} {it : Item} (hx : A.env x = some (.const it)) (hq : ∀ s ∈ q, s.target ≠ x) :
    ∃ S T u, runProgram qr .empty p = Except.ok S ∧ runProgram qr .empty (p ++ q) = Except.ok T ∧ S.env x = some u ∧ T.env x = some u ∧
      u.tt T.store = u.tt S.store ∧ Shows T.store u it := by
  obtain ⟨S, ad, e, hS, -⟩ := runProgram_sim hqr p (fun s hs => hp s (by simp [hs])) Sim.empty h
  obtain ⟨T, ad', e', -, hT⟩ := runProgram_sim hqr q (fun s hs => hp s (by simp [hs])) hS h'
  have := hS.env x
  rw [hx] at this
  obtain ⟨t, h1, h2⟩ := this
  exact ⟨S, T, freshObj t, e, by rw [runProgram_append, e]; exact e', h1, by rw [hT x hq, h1], by rw [freshObj_tt, freshObj_tt],
    RepR.shows (by rw [freshObj_tt]; exact h2)⟩

/-- **C63.** Two names of the same variable are the same object, and always show the same value. Names of different variables have no core in common. -/
theorem C63_same_variable {qr : QRRoutine} (hqr : qr.Correct) (p : List Stmt) (hp : ∀ s ∈ p, s.expr.Ok) {A : AState} (h : AState.empty.execAll p = some A)
    {x y v w : ℕ} (hx : A.env x = some (.ref v)) (hy : A.env y = some (.ref w)) :
    ∃ S a b, runProgram qr .empty p = Except.ok S ∧ S.env x = some a ∧ S.env y = some b ∧ (v = w → a = b) ∧
      (v ≠ w → ∀ c ∈ a.cores, c ∉ b.cores) := by
  obtain ⟨S, ad, e, hS, -⟩ := runProgram_sim hqr p hp Sim.empty h
  have h1 := hS.env x
  have h2 := hS.env y
  rw [hx] at h1
  rw [hy] at h2
  obtain ⟨i, hi, ei⟩ := h1
  obtain ⟨j, hj, ej⟩ := h2
  refine ⟨S, _, _, e, ei, ej, fun hvw => ?_, fun hvw c hc hc' => ?_⟩
  · subst hvw
    rw [Option.some.inj (hi.symm.trans hj)]
  · obtain ⟨a, ha, rfl⟩ := List.mem_map.1 hc
    obtain ⟨a', ha', h⟩ := List.mem_map.1 hc'
    obtain rfl : a' = a := by injection h
    exact hS.disj v w (List.getElem?_eq_some_iff.1 hi).1 (List.getElem?_eq_some_iff.1 hj).1 hvw a' ha ha'

/-! ## Exceptions -/

/-- The value of an assignment does not fit and the core assignments notice it: it has no more cores than the variable, and it is not at once a batch of tensors where
the variable is a matrix (or the other way round), whose cores have as many axes. -/
def Noticed (A : AState) : Stmt → Prop
  | .assign _ x e => ∀ v old it, A.env x = some (.ref v) → A.mem[v]? = some old → e.denote A.look = some it →
      it.ty.ndims ≤ old.ty.ndims ∧ (it.ty.batch.isSome = old.ty.batch.isSome ∨ it.ty.raw.length = old.ty.raw.length)
  | _ => True

theorem assign_first_error {σ : Store ℝ} {ref value : VObj ℝ} {as : List ℕ} (hv : ref.IsVariable σ as) (hs : value.Separate as) (hr : (ref.tt σ).WF)
    (hw : (value.tt σ).WF) (hne : ((value.tt σ).core 0).shape ≠ ((ref.tt σ).core 0).shape) : ∃ err, (assign σ ref value).2 = Except.error err := by
  have hrl : 0 < as.length := by
    have := hr.pos
    rw [← hv.len]
    simpa [TT.ndims, VObj.tt] using this
  have hwl : 0 < value.cores.length := by simpa [TT.ndims, VObj.tt] using hw.pos
  have h1 : assignStep ref value σ 0 = Except.error Err.value := by
    rw [assignStep_eq hv hs hrl fun _ _ => rfl, if_pos hwl, if_neg hne]
  have h2 : assignLoop ref value σ (0 + 1) = (σ, Except.error Err.value) := by
    simp [assignLoop, h1]
  refine ⟨Err.value, ?_⟩
  have h3 := assignLoop_error h2 (ref.cores.length - 1)
  rw [show 0 + 1 + (ref.cores.length - 1) = ref.cores.length by have := hv.len; omega] at h3
  rw [assign, h3]

theorem shape_length {t : TT ℝ} {τ : Ty} {v : ℕ → List ℕ → ℝ} (h : Rep t τ v) : (t.core 0).shape.length = τ.raw.length + 2 + if τ.batch.isSome then 1 else 0 := by
  rw [h.wf.core_shape 0 h.wf.pos]
  simp only [TT.bpre, h.batch, TT.modes, h.raw, List.length_append, List.length_cons, List.length_map, List.length_nil]
  cases τ.batch <;> simp; omega

/-- **C63.** A statement without a meaning raises, so nothing after it is executed. (An assignment of a value that does not fit is not always noticed, C48: that is the
condition.) -/
theorem C63_error {qr : QRRoutine} (hqr : qr.Correct) (p q : List Stmt) (s : Stmt) (hp : ∀ s ∈ p, s.expr.Ok) (hs : s.expr.Ok) {A : AState}
    (h : AState.empty.execAll p = some A) (hn : A.exec s = none) (hc : Noticed A s) : ∃ err, runProgram qr .empty (p ++ s :: q) = Except.error err := by
  obtain ⟨S, ad, e, hS, -⟩ := runProgram_sim hqr p hp Sim.empty h
  suffices hrun : ∃ err, s.run qr S = Except.error err by
    obtain ⟨err, he⟩ := hrun
    exact ⟨err, by rw [runProgram_append, e, R.ok_bind, runProgram, he]; rfl⟩
  cases s with
  | bind x e =>
    rcases (eval_sim hqr hS e hs).cases with ⟨-, ⟨err, h2⟩, -⟩ | ⟨it, u, b, h1, h2, h3, h4⟩
    · exact ⟨err, by rw [Stmt.run, h2]; rfl⟩
    · simp [AState.exec, h3] at hn
  | newVar x e =>
    rcases (eval_sim hqr hS e hs).cases with ⟨-, ⟨err, h2⟩, -⟩ | ⟨it, u, b, h1, h2, h3, h4⟩
    · exact ⟨err, by rw [Stmt.run, h2]; rfl⟩
    · simp [AState.exec, h1] at hn
  | assign y x e =>
    have hx := hS.env x
    cases hA : A.env x with
    | none =>
      rw [hA] at hx
      exact ⟨Err.attr, by rw [Stmt.run, NExpr.eval, hx]; rfl⟩
    | some bx =>
      rw [hA] at hx
      rcases (eval_sim hqr hS e hs).cases with ⟨-, ⟨err, h2⟩, -⟩ | ⟨it, u, b, h1, h2, h3, h4⟩
      · refine ⟨err, ?_⟩
        obtain ⟨o, ho⟩ : ∃ o, S.env x = some o := by
          cases bx with
          | const i => exact ⟨_, hx.choose_spec.1⟩
          | ref v => exact ⟨_, hx.choose_spec.2⟩
        rw [Stmt.run, NExpr.eval, ho]
        show ((Except.ok o : R (VObj ℝ)) >>= _) = _
        rw [R.ok_bind, h2]
        rfl
      · have key : ∀ o, S.env x = some o → (∃ err, (T3f.assign S.store o u).2 = Except.error err) →
            ∃ err, (Stmt.assign y x e).run qr S = Except.error err := fun o ho ⟨err, he⟩ => by
          refine ⟨err, ?_⟩
          rw [Stmt.run, NExpr.eval, ho]
          show ((Except.ok o : R (VObj ℝ)) >>= _) = _
          rw [R.ok_bind, h2, R.ok_bind]
          cases hz : T3f.assign S.store o u with
          | mk σ' r =>
            rw [hz] at he
            simp only at he ⊢
            rw [he]
            rfl
        have hu := h4.repR hS
        cases bx with
        | const i =>
          obtain ⟨t, g1, g2⟩ := hx
          refine key _ g1 ⟨Err.attr, ?_⟩
          have hpos := g2.rep.wf.pos
          have hupos : 0 < u.cores.length := by simpa [TT.ndims, VObj.tt] using hu.rep.wf.pos
          obtain ⟨T, ts, ht⟩ := List.exists_cons_of_ne_nil (l := t.cores) (by rintro h0; simp [TT.ndims, h0] at hpos)
          rw [C48_not_variable S.store (freshObj t) u T (by simp [freshObj, ht]) (by rintro h0; simp [h0] at hupos)]
        | ref v =>
          obtain ⟨old, g1, g2⟩ := hx
          have hl := (List.getElem?_eq_some_iff.1 g1).1
          refine key _ g2 ?_
          have hv := hS.isVar v old g1
          have hval := hS.val v old g1
          have hsep := agrees_separate hS h4 hl
          obtain ⟨hle, hkind⟩ := hc v old it hA g1 h1
          have hne : ¬ (it.ty = old.ty ∧ ∀ k ≤ it.ty.ndims, it.rk k = old.rk k) := by
            simp only [AState.exec, hA, h1, g1, Option.bind_eq_bind, Option.bind_some] at hn
            by_contra hcon
            rw [if_pos hcon] at hn
            cases hn
          by_cases hboth : it.ty.batch.isSome = old.ty.batch.isSome ∧ it.ty.raw.length = old.ty.raw.length
          · have hcl : ∀ {w : VObj ℝ} {i : Item}, RepR (w.tt S.store) i → w.cores.length = i.ty.ndims := fun hw => by
              rw [hw.rep.ndims]; simp [TT.ndims, VObj.tt]
            obtain ⟨σ', n, -, -, he, -⟩ := C48_assign_error S.store (varObj old (ad v)) u (ad v) hv hval.rep.wf hu.rep.wf hsep
              (by
                have : u.batch = it.ty.batch := hu.rep.batch
                rw [this]; exact hboth.1)
              (by
                unfold TT.isMatrix
                rw [hu.rep.raw, hval.rep.raw, hboth.2])
              (by rw [hcl hu, hcl hval]; exact hle)
              (fun ⟨a1, a2, a3⟩ => hne (by
                have b1 : u.batch = it.ty.batch := hu.rep.batch
                have b2 : u.rawShape = it.ty.raw := hu.rep.raw
                have b3 : u.ttRanks = _ := hu.ttRanks
                have hty : it.ty = old.ty := by
                  have c1 : it.ty.raw = old.ty.raw := b2.symm.trans a2
                  have c2 : it.ty.batch = old.ty.batch := b1.symm.trans a1
                  obtain ⟨⟨r1, b1⟩, k1, v1⟩ := it
                  obtain ⟨⟨r2, b2⟩, k2, v2⟩ := old
                  simp only at c1 c2
                  subst c1 c2
                  rfl
                refine ⟨hty, fun k hk => ?_⟩
                have c3 : (List.range (it.ty.ndims + 1)).map it.rk = (List.range (old.ty.ndims + 1)).map old.rk := b3.symm.trans a3
                rw [hty] at c3 hk
                exact List.map_inj_left.1 c3 k (by simp; omega)))
            exact ⟨_, congrArg Prod.snd he⟩
          · refine assign_first_error hv hsep hval.rep.wf hu.rep.wf fun hsh => ?_
            have := congrArg List.length hsh
            rw [shape_length hu.rep, shape_length hval.rep] at this
            rcases hkind with hk | hk
            · rw [hk] at this
              exact hboth ⟨hk, by omega⟩
            · rw [hk] at this
              refine hboth ⟨?_, hk⟩
              rcases hb1 : it.ty.batch.isSome <;> rcases hb2 : old.ty.batch.isSome <;> simp [hb1, hb2] at this ⊢

/-- **C63.** `assign(x, x + e)` and `assign(x, x - e)` raise for every variable `x` and every `e`: the TT-ranks of the sum are larger. (The result has to be rounded first.) -/
theorem C63_no_update_by_sum {qr : QRRoutine} (hqr : qr.Correct) (p q : List Stmt) (hp : ∀ s ∈ p, s.expr.Ok) {A : AState} (h : AState.empty.execAll p = some A)
    (y x : ℕ) (e e' : NExpr) (he : e.Ok) (he' : e' = .add (.name x) e ∨ e' = .sub (.name x) e) {v : ℕ} (hx : A.env x = some (.ref v)) :
    ∃ err, runProgram qr .empty (p ++ .assign y x e' :: q) = Except.error err := by
  obtain ⟨S, ad, -, hS, -⟩ := runProgram_sim hqr p hp Sim.empty h
  have hxs := hS.env x
  rw [hx] at hxs
  obtain ⟨old, g1, -⟩ := hxs
  have hlook : A.look x = some old := by simp [AState.look, hx, AState.item, g1]
  have hval := hS.val v old g1
  have hden : ∀ it, e'.denote A.look = some it → it.ty.raw = old.ty.raw ∧ 2 ≤ old.ty.ndims ∧ old.rk 1 < it.rk 1 := by
    intro it hit
    rcases (eval_sim hqr hS e he).cases with ⟨h1, -, -⟩ | ⟨i2, u, b, h1, -, -, h4⟩
    · rcases he' with rfl | rfl <;> simp [NExpr.denote, h1] at hit
    · have hu := h4.repR hS
      cases hτ : addTy old.ty i2.ty with
      | none => rcases he' with rfl | rfl <;> simp [NExpr.denote, h1, hlook, hτ] at hit
      | some τ =>
        have hit' : it.ty = τ ∧ it.rk = Item.sumRank old.ty.ndims old.rk i2.rk := by
          rcases he' with rfl | rfl <;>
          · simp only [NExpr.denote, h1, hlook, hτ, Option.bind_eq_bind, Option.bind_some, Option.some.injEq] at hit
            subst hit
            exact ⟨rfl, rfl⟩
        unfold addTy at hτ
        split_ifs at hτ with hadd
        obtain rfl := Option.some.inj hτ
        refine ⟨by rw [hit'.1], hadd.2.1, ?_⟩
        rw [hit'.2, Item.sumRank, if_neg (by omega)]
        have hnd : i2.ty.ndims = old.ty.ndims := by unfold Ty.ndims; rw [hadd.1]
        have hpos := hu.rep.wf.rank_pos 1 (by rw [← hu.rep.ndims]; omega)
        rw [hu.rk 1 (by rw [← hu.rep.ndims]; omega)] at hpos
        omega
  refine C63_error hqr p q _ hp ?_ h ?_ ?_
  · rcases he' with rfl | rfl <;> exact ⟨trivial, he⟩
  · simp only [AState.exec, hx, g1, Option.bind_eq_bind, Option.bind_some]
    cases hd : e'.denote A.look with
    | none => rfl
    | some it =>
      obtain ⟨h1, h2, h3⟩ := hden it hd
      rw [Option.bind_some, if_neg]
      rintro ⟨h4, h5⟩
      have := h5 1 (by rw [h4]; omega)
      omega
  · intro v' old' it h1 h2 h3
    obtain rfl : v' = v := by
      rw [hx] at h1
      injection h1 with h1
      injection h1 with h1
      exact h1.symm
    obtain rfl : old = old' := Option.some.inj (g1.symm.trans h2)
    obtain ⟨a1, a2, a3⟩ := hden it h3
    exact ⟨by unfold Ty.ndims; rw [a1], Or.inr (by rw [a1])⟩

/-! ## Aliasing -/

/-- **C63.** `squeeze_batch_dim` of anything but a batch of size one, and `expand_batch_dim` of a batch, return the very object they are given. So in
```
x = get_variable(initializer=t); y = squeeze_batch_dim(x); z = 1. * x; assign(x, c * x)
```
`y` becomes `c * t`, while `z` remains `t`. -/
theorem C63_alias {qr : QRRoutine} (hqr : qr.Correct) (t : TT ℝ) (ht : t.WF) (hp : t.ModesPos) (hb : t.batch ≠ some 1) (c : ℝ) :
    ∃ S y z, runProgram qr .empty [.newVar 0 (.lit t), .bind 1 (.squeeze (.name 0)), .bind 2 (.smul 1 (.name 0)), .assign 3 0 (.smul c (.name 0))] = Except.ok S ∧
      S.env 0 = some y ∧ S.env 1 = some y ∧ S.env 2 = some z ∧
      Shows S.store y ⟨(Item.ofTT t).ty, (Item.ofTT t).rk, fun o i => c * (Item.ofTT t).val o i⟩ ∧
      Shows S.store z (Item.ofTT t) := by
  obtain ⟨it, hit⟩ : ∃ it, Item.ofTT t = it := ⟨_, rfl⟩
  rw [hit]
  have hbt : it.ty.batch = t.batch := by rw [← hit]; rfl
  let e1 : ℕ → Option Binding := Function.update (fun _ => none) 0 (some (.ref 0))
  let e2 : ℕ → Option Binding := Function.update e1 1 (some (.ref 0))
  let e3 : ℕ → Option Binding := Function.update e2 2 (some (.const ⟨it.ty, it.rk, fun o i => 1 * it.val o i⟩))
  let e4 : ℕ → Option Binding := Function.update e3 3 (some (.ref 0))
  have l1 : AState.look ⟨e1, [it]⟩ 0 = some it := rfl
  have l2 : AState.look ⟨e2, [it]⟩ 0 = some it := rfl
  have l3 : AState.look ⟨e3, [it]⟩ 0 = some it := rfl
  have x1 : AState.empty.exec (.newVar 0 (.lit t)) = some ⟨e1, [it]⟩ := by
    simp only [AState.exec, NExpr.denote, hit, Option.bind_eq_bind, Option.bind_some]
    rfl
  have x2 : AState.exec ⟨e1, [it]⟩ (.bind 1 (.squeeze (.name 0))) = some ⟨e2, [it]⟩ := by
    simp only [AState.exec, AState.bindingOf, NExpr.denote, l1, Option.bind_eq_bind, Option.bind_some, hbt, if_neg hb]
    rfl
  have x3 : AState.exec ⟨e2, [it]⟩ (.bind 2 (.smul 1 (.name 0))) = some ⟨e3, [it]⟩ := by
    simp only [AState.exec, AState.bindingOf, NExpr.denote, l2, Option.bind_eq_bind, Option.bind_some]
    rfl
  have x4 : AState.exec ⟨e3, [it]⟩ (.assign 3 0 (.smul c (.name 0))) = some ⟨e4, [⟨it.ty, it.rk, fun o i => c * it.val o i⟩]⟩ := by
    have h0 : e3 0 = some (.ref 0) := rfl
    simp only [AState.exec, h0, NExpr.denote, l3, Option.bind_eq_bind, Option.bind_some, List.getElem?_cons_zero]
    rw [if_pos ⟨trivial, fun _ _ => trivial⟩]
    rfl
  have hex : AState.empty.execAll [.newVar 0 (.lit t), .bind 1 (.squeeze (.name 0)), .bind 2 (.smul 1 (.name 0)), .assign 3 0 (.smul c (.name 0))] =
      some ⟨e4, [⟨it.ty, it.rk, fun o i => c * it.val o i⟩]⟩ := by
    simp only [AState.execAll, x1, x2, x3, x4, Option.bind_eq_bind, Option.bind_some]
  obtain ⟨S, ad, e, hS, -⟩ := runProgram_sim hqr _ (fun s hs => by
    simp only [List.mem_cons, List.not_mem_nil, or_false] at hs
    rcases hs with rfl | rfl | rfl | rfl
    · exact ⟨ht, hp⟩
    all_goals trivial) Sim.empty hex
  have h0 := hS.env 0
  have h1 := hS.env 1
  have h2 := hS.env 2
  have q0 : e4 0 = some (.ref 0) := rfl
  have q1 : e4 1 = some (.ref 0) := rfl
  have q2 : e4 2 = some (.const ⟨it.ty, it.rk, fun o i => 1 * it.val o i⟩) := rfl
  simp only [q0, q1, q2] at h0 h1 h2
  obtain ⟨i0, m0, s0⟩ := h0
  obtain ⟨i1, m1, s1⟩ := h1
  obtain ⟨z, s2, r2⟩ := h2
  obtain rfl := Option.some.inj m0
  obtain rfl := Option.some.inj m1
  refine ⟨S, _, _, e, s0, s1, s2, (hS.val 0 _ m0).shows, RepR.shows ?_⟩
  rw [freshObj_tt]
  simpa only [one_mul] using r2

/-! ## A case -/

/-- A product of a variable with itself, an assignment, and the old value. -/
noncomputable def exProgram : List Stmt :=
  [.newVar 0 (.lit exMatrix.toReal), .bind 1 (.matmul (.name 0) (.transpose (.name 0))), .assign 2 0 (.smul 3 (.name 0)), .bind 3 (.sub (.name 1) (.matmul (.name 2) (.transpose (.name 0))))]

theorem exMatrix_modesPos : exMatrix.toReal.ModesPos := by
  intro row hrow n hn
  simp [TT.toReal, exMatrix] at hrow
  rcases hrow with rfl | rfl <;> simp at hn <;> omega

example : ∀ s ∈ exProgram, s.expr.Ok := by
  intro s hs
  simp only [exProgram, List.mem_cons, List.not_mem_nil, or_false] at hs
  rcases hs with rfl | rfl | rfl | rfl
  · exact ⟨TT.WF.toReal (by decide), exMatrix_modesPos⟩
  all_goals simp [Stmt.expr, NExpr.Ok]

example : exMatrix.toReal.WF ∧ exMatrix.toReal.ModesPos ∧ exMatrix.toReal.batch ≠ some 1 := ⟨TT.WF.toReal (by decide), exMatrix_modesPos, by simp [TT.toReal, exMatrix]⟩

/-- `x = get_variable(t); assign(x, x + t)` raises. -/
example {qr : QRRoutine} (hqr : qr.Correct) : ∃ err, runProgram qr .empty ([.newVar 0 (.lit exMatrix.toReal)] ++
    [.assign 1 0 (.add (.name 0) (.lit exMatrix.toReal))]) = Except.error err :=
  have hok : (NExpr.lit exMatrix.toReal).Ok := ⟨TT.WF.toReal (by decide), exMatrix_modesPos⟩
  C63_no_update_by_sum hqr _ _ (by simpa [Stmt.expr] using hok) (A := ⟨Function.update (fun _ => none) 0 (some (.ref 0)), [.ofTT exMatrix.toReal]⟩) rfl 1 0 _ _ hok
    (Or.inl rfl) (v := 0) rfl

/-- `y = 2 * x` is a snapshot of the variable `x`. -/
example {qr : QRRoutine} (hqr : qr.Correct) : ∃ T u it, runProgram qr .empty ([.newVar 0 (.lit exMatrix.toReal), .bind 1 (.smul 2 (.name 0))] ++
    [.newVar 2 (.transpose (.name 0))]) = Except.ok T ∧ T.env 1 = some u ∧ Shows T.store u it := by
  have hok : (NExpr.lit exMatrix.toReal).Ok := ⟨TT.WF.toReal (by decide), exMatrix_modesPos⟩
  obtain ⟨S, T, u, -, h2, -, h4, -, h6⟩ := C63_snapshot hqr [.newVar 0 (.lit exMatrix.toReal), .bind 1 (.smul 2 (.name 0))] [.newVar 2 (.transpose (.name 0))]
    (by
      intro s hs
      simp only [List.cons_append, List.nil_append, List.mem_cons, List.not_mem_nil, or_false] at hs
      rcases hs with rfl | rfl | rfl
      · exact hok
      all_goals trivial)
    (A := ⟨Function.update (Function.update (fun _ => none) 0 (some (.ref 0))) 1 (some (.const ⟨_, _, _⟩)), [.ofTT exMatrix.toReal]⟩) rfl rfl (x := 1) rfl
    (by simp [Stmt.target])
  exact ⟨T, u, _, h2, h4, h6⟩

example : ∃ A, AState.empty.execAll exProgram = some A := by
  simp [exProgram, AState.execAll, AState.exec, AState.bindingOf, NExpr.denote, AState.look, AState.item, AState.empty, Item.ofTT, matmulTy, transposeTy, addTy, Ty.ndims,
    TT.toReal, exMatrix, AddBatches, BCompat, bcast, squeezed]

end T3f
