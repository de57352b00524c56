import Verif.Proofs.StaticOps
import Verif.Proofs.TTTranspose
import Verif.Proofs.MulArray
import Verif.Props.C04Add
import Verif.Props.C51Closure

/-!
# Static shapes: results of operations, programs
-/

namespace T3f

variable {K : Type}

namespace Static

section unary

variable [Zero K] {s s' : Sym K} {t t' : TT K}

/-- Other cores with the same static shapes. -/
theorem Is.replace (h : s.Is t) (hw : t'.WF) (hv : s'.cores.map (·.val) = t'.cores) (hs : s'.cores.map (·.sh) = s.cores.map (·.sh))
    (hb : s'.batch = s.batch) (hr : s'.ttRanks = s.ttRanks) (hm : s'.rawShape = s.rawShape) (hb' : t'.batch = t.batch)
    (hr' : t'.ttRanks = t.ttRanks) (hm' : t'.rawShape = t.rawShape) : s'.Is t' := by
  have hl : s'.cores.length = s.cores.length := by simpa using congrArg List.length hs
  refine ⟨hw, hv, by rw [hb, h.batch, hb'], by rw [hr, hr']; exact h.ranks, by rw [hm, hm']; exact h.rows, ?_, by rw [hr]; exact h.first,
    by rw [hr, hl]; exact h.last⟩
  intro k hk
  obtain ⟨b, e1, e2⟩ := h.cores k (hl ▸ hk)
  refine ⟨b, by rw [TT.bpre, hb']; exact e1, ?_⟩
  rw [hr, hm, ← e2, ← List.getElem?_map, ← List.getElem?_map, hs]

end unary

theorem multiplyScalar_fields {t t' : TT ℝ} {c : ℝ} (h : t.WF) (e : multiplyScalar t c = Except.ok t') :
    t' = ⟨(t.cores.map (smul (|c| ^ (1 / (t.ndims : ℝ))))).set 0
      (((t.cores.map (smul (|c| ^ (1 / (t.ndims : ℝ))))).getD 0 default).map (· * SignType.sign c)), t.rawShape, t.ttRanks, t.batch⟩ := by
  simp only [multiplyScalar, bind_ok_iff] at e
  obtain ⟨c0, hc0, e⟩ := e
  obtain ⟨rfl, hk⟩ := pyGet_getD hc0 default
  have hne : t.rawShape ≠ [] := by
    have := h.rows
    intro hc; rw [hc] at this; simp at this
  exact (mkLike_fields hne e).1

theorem multiplyScalar_is {s : Sym ℝ} {t : TT ℝ} (h : s.Is t) (c : ℝ) :
    ∃ s' t', multiplyScalarS s c = Except.ok s' ∧ multiplyScalar t c = Except.ok t' ∧ s'.Is t' ∧ s'.rawShape = s.rawShape ∧
      s'.ttRanks = s.ttRanks := by
  obtain ⟨t', e, w, r, b, k, n, -⟩ := multiplyScalar_spec h.wf c
  have hf := multiplyScalar_fields h.wf e
  have hp : 0 < s.cores.length := by rw [Is.len h]; exact h.wf.pos
  have hn : s.ndims = t.ndims := Is.len h
  set f : SCore ℝ → SCore ℝ := fun x => ⟨smul (|c| ^ (1 / (s.ndims : ℝ))) x.val, x.sh⟩ with hfd
  set c0 : SCore ℝ := f s.cores[0] with hc0
  have e0 : pyGet (s.cores.map f) 0 = Except.ok c0 := pyGet_some (by rw [List.getElem?_map, List.getElem?_eq_getElem hp]; rfl)
  set s' : Sym ℝ := ⟨(s.cores.map f).set 0 ⟨c0.val.map (· * SignType.sign c), c0.sh⟩, s.rawShape, s.ttRanks, s.batch⟩ with hs'
  have his : s'.Is t' := by
    refine Is.replace h w ?_ ?_ rfl rfl rfl b k r
    · rw [hf]
      show ((s.cores.map f).set 0 _).map (·.val) = List.set (t.cores.map _) 0 _
      have hv : (s.cores.map f).map (·.val) = t.cores.map (smul (|c| ^ (1 / (t.ndims : ℝ)))) := by
        rw [← h.vals, List.map_map, List.map_map, ← hn]; rfl
      have h0 : (t.cores.map (smul (|c| ^ (1 / (t.ndims : ℝ))))).getD 0 default = c0.val := by
        rw [← hv, List.map_map, List.getD_eq_getElem _ _ (by simpa using hp), List.getElem_map]; rfl
      rw [List.map_set, hv, h0]
    · show ((s.cores.map f).set 0 _).map (·.sh) = _
      have hsh : (s.cores.map f).map (·.sh) = s.cores.map (·.sh) := by rw [List.map_map]; rfl
      rw [List.map_set, hsh]
      have : c0.sh = (s.cores.map (·.sh))[0]'(by simpa using hp) := by rw [List.getElem_map]
      rw [this, List.set_getElem_self]
  refine ⟨s', t', ?_, e, his, rfl, rfl⟩
  unfold multiplyScalarS
  simp only [← hfd, e0, R.ok_bind]
  exact Is.mkSym his

theorem ttTranspose_fields [CommRing K] {t t' : TT K} (e : ttTranspose t = Except.ok t') :
    t'.cores.length = t.ndims ∧ (∀ k < t.ndims, transpose (t.core k) (if t.isBatch then [0, 1, 3, 2, 4] else [0, 2, 1, 3]) = Except.ok (t'.core k)) := by
  obtain ⟨_, hM, e⟩ := bind_ok_iff.mp e
  obtain ⟨cores, hc, e⟩ := bind_ok_iff.mp e
  obtain ⟨r0, h0, e⟩ := bind_ok_iff.mp e
  obtain ⟨r1, h1, e⟩ := bind_ok_iff.mp e
  have hce : t'.cores = cores := by
    cases hb : t.batch with
    | none =>
      rw [hb] at e
      simp only [mkLike, mkTT, bind_ok_iff] at e
      obtain ⟨a, _, v, _, e⟩ := e
      cases v with
      | false => cases e
      | true => cases e; rfl
    | some n =>
      rw [hb] at e
      simp only [mkLike, mkBatch, bind_ok_iff] at e
      obtain ⟨a, _, v, _, e⟩ := e
      cases v with
      | false => cases e
      | true => cases e; rfl
  obtain ⟨hl, hg⟩ := mapRange_inv hc
  refine ⟨by rw [hce, hl], fun k hk => ?_⟩
  have := hg k hk
  rw [pyGet_of_lt _ _ default hk, R.ok_bind] at this
  rw [TT.core, TT.core, hce, ← this]
  cases t.isBatch <;> rfl

theorem ttTranspose_is [CommRing K] {s : Sym K} {t : TT K} (h : s.Is t) (hM : s.isMatrix) :
    ∃ s' t', ttTransposeS s = Except.ok s' ∧ ttTranspose t = Except.ok t' ∧ s'.Is t' ∧ s'.rawShape = s.rawShape.reverse ∧
      s'.ttRanks = s.ttRanks := by
  obtain ⟨r0, r1, hr⟩ : ∃ r0 r1, s.rawShape = [r0, r1] := List.length_eq_two.mp hM
  obtain ⟨I, J, hI⟩ : ∃ I J, t.rawShape = [I, J] := List.length_eq_two.mp ((Is.isMatrix h).mp hM)
  obtain ⟨t', e, w, r, b, n, k, -⟩ := ttTranspose_spec h.wf hI
  obtain ⟨hl, hc⟩ := ttTranspose_fields e
  have hb : s.batch.isSome = t.isBatch := by rw [h.batch]; rfl
  have hrows := h.rows
  rw [hr, hI] at hrows
  obtain ⟨hr0, hr1⟩ : List.Forall₂ Knows r0 I ∧ List.Forall₂ Knows r1 J := by
    cases hrows with
    | cons a b => cases b with
      | cons b c => exact ⟨a, b⟩
  set perm : List ℕ := if t.isBatch then [0, 1, 3, 2, 4] else [0, 2, 1, 3] with hperm
  set g : ℕ → SCore K := fun i => ⟨t'.core i, perm.map fun j => ((s.cores.map (·.sh)).getD i []).getD j none⟩ with hg
  have e1 : (mapRange s.ndims fun i => do
      let c ← pyGet s.cores i
      let perm := if s.batch.isSome then [0, 1, 3, 2, 4] else [0, 2, 1, 3]
      pure (⟨← transpose c.val perm, perm.map fun k => c.sh.getD k none⟩ : SCore K)) = Except.ok ((List.range t.ndims).map g) := by
    rw [Sym.ndims, Is.len h]
    apply mapRange_eq
    intro i hi
    have hi' : i < s.cores.length := by rw [Is.len h]; exact hi
    have hci : s.cores[i].val = t.core i := by
      have : t.core i = t.cores[i]'hi := List.getD_eq_getElem _ _ hi
      rw [this]
      simp only [← h.vals, List.getElem_map]
    have hsi : (s.cores.map (·.sh)).getD i [] = s.cores[i].sh := by
      rw [List.getD_eq_getElem _ _ (by simpa using hi'), List.getElem_map]
    simp only [pyGet_some (List.getElem?_eq_getElem hi'), R.ok_bind, hb, hci, ← hperm, hc i hi, R.pure_eq, hg, hsi]
  set s' : Sym K := ⟨(List.range t.ndims).map g, [r1, r0], s.ttRanks, s.batch⟩ with hs'
  have hlen : s'.cores.length = t.ndims := by simp [hs']
  have his : s'.Is t' := by
    refine ⟨w, ?_, by rw [hs', b]; exact h.batch, by rw [k]; exact h.ranks, ?_, ?_, h.first, ?_⟩
    · show ((List.range t.ndims).map g).map (·.val) = _
      rw [List.map_map, list_eq_range_map t'.cores default, hl]
      rfl
    · rw [r]; exact .cons hr1 (.cons hr0 .nil)
    · intro i hi
      rw [hlen] at hi
      have hi' : i < s.cores.length := by rw [Is.len h]; exact hi
      obtain ⟨bb, hb1, hb2⟩ := h.cores i hi'
      refine ⟨bb, by rw [TT.bpre, b]; exact hb1, ?_⟩
      have hsi : (s.cores.map (·.sh)).getD i [] = bb ++ s.ttRanks.getD i none :: ([r0.getD i none, r1.getD i none] ++ [s.ttRanks.getD (i + 1) none]) := by
        rw [List.getElem?_eq_getElem hi', Option.map_some, Option.some.injEq, hr] at hb2
        rw [List.getD_eq_getElem _ _ (by simpa using hi'), List.getElem_map, hb2]; rfl
      show (((List.range t.ndims).map g)[i]?).map _ = _
      rw [List.getElem?_map, List.getElem?_range hi]
      simp only [Option.map_some, hg, hsi, hs', List.map_cons, List.map_nil]
      have hbl := hb1.length_eq
      rw [bpre_len] at hbl
      rw [hperm, TT.isBatch]
      cases hbt : t.batch with
      | none =>
        rw [hbt] at hbl
        obtain rfl : bb = [] := List.length_eq_zero_iff.mp hbl
        rfl
      | some x =>
        rw [hbt] at hbl
        obtain ⟨y, rfl⟩ : ∃ y, bb = [y] := List.length_eq_one_iff.mp hbl
        rfl
    · rw [hlen]
      have := h.last
      rwa [Is.len h] at this
  refine ⟨s', t', ?_, e, his, by rw [hr]; rfl, rfl⟩
  have p0 : pyGet s.rawShape 0 = Except.ok r0 := by rw [hr]; rfl
  have p1 : pyGet s.rawShape 1 = Except.ok r1 := by rw [hr]; rfl
  unfold ttTransposeS
  simp only [require_pos hM, R.ok_bind]
  rw [show (mapRange s.ndims fun i => do
      let c ← pyGet s.cores i
      let perm := if s.batch.isSome then [0, 1, 3, 2, 4] else [0, 2, 1, 3]
      pure (⟨← transpose c.val perm, perm.map fun k => c.sh.getD k none⟩ : SCore K)) = _ from e1]
  simp only [R.ok_bind, p0, p1]
  exact Is.mkSym his

section binary

variable [CommRing K] {a b : Sym K} {ta tb : TT K}

theorem Is.rank (h : a.Is ta) {k : ℕ} (hk : k ≤ ta.ndims) : pyGet a.ttRanks k = Except.ok (a.ttRanks.getD k none) := by
  apply pyGet_of_lt
  rw [h.ranks.length_eq, h.wf.ranks_len]; omega

theorem Is.rank_known (h : a.Is ta) (hr : a.KnownRanks) {k : ℕ} (hk : k ≤ ta.ndims) : ∃ n, a.ttRanks.getD k none = some n := by
  have hl : k < a.ttRanks.length := by rw [h.ranks.length_eq, h.wf.ranks_len]; omega
  rw [List.getD_eq_getElem _ _ hl]
  cases e : a.ttRanks[k] with
  | none => exact absurd (e ▸ List.getElem_mem hl) hr
  | some n => exact ⟨n, rfl⟩

/-- An unknown rank is an inner one. -/
theorem Is.rank_unknown (h : a.Is ta) (hr : ¬ a.KnownRanks) : ∃ k, k + 1 < ta.ndims ∧ a.ttRanks.getD (k + 1) none = none := by
  obtain ⟨j, hj, e⟩ := List.getElem_of_mem (not_not.mp hr)
  have hl : a.ttRanks.length = ta.ndims + 1 := by rw [h.ranks.length_eq, h.wf.ranks_len]
  have e' : a.ttRanks.getD j none = none := by rw [List.getD_eq_getElem _ _ hj, e]
  have h0 : j ≠ 0 := by rintro rfl; rw [h.first] at e'; cases e'
  have h1 : j ≠ ta.ndims := by
    rintro rfl
    have := h.last
    rw [Is.len h, e'] at this; cases this
  exact ⟨j - 1, by omega, by rwa [show j - 1 + 1 = j by omega]⟩

theorem addPy_cases (x y : Option ℕ) : (∃ v, addPy x y = Except.ok v) ∨ addPy x y = Except.error Err.type := by
  cases x <;> cases y <;> first | exact Or.inr rfl | exact Or.inl ⟨_, rfl⟩

theorem mulPy_cases (x y : Option ℕ) : (∃ v, mulPy x y = Except.ok v) ∨ mulPy x y = Except.error Err.type := by
  cases x <;> cases y <;> first | exact Or.inr rfl | exact Or.inl ⟨_, rfl⟩

theorem addRanks_known (ha : a.Is ta) (hb : b.Is tb) (hn : ta.ndims = tb.ndims) (ka : a.KnownRanks) (kb : b.KnownRanks) :
    ∃ l, addRanksS a b = Except.ok l := by
  unfold addRanksS
  have : ∀ k < a.ndims - 1, ∃ v, (do addPy (← pyGet a.ttRanks (k + 1)) (← pyGet b.ttRanks (k + 1)) : R (Option ℕ)) = Except.ok v ∧ True := by
    intro k hk
    rw [Sym.ndims, Is.len ha] at hk
    obtain ⟨x, hx⟩ := Is.rank_known ha ka (k := k + 1) (by omega)
    obtain ⟨y, hy⟩ := Is.rank_known hb kb (k := k + 1) (by omega)
    rw [Is.rank ha (by omega), Is.rank hb (by omega), R.ok_bind, R.ok_bind, hx, hy]
    exact ⟨_, rfl, trivial⟩
  obtain ⟨l, e, -⟩ := mapRange_ok _ _ _ this
  exact ⟨l, e⟩

theorem addRanks_unknown (ha : a.Is ta) (hb : b.Is tb) (hn : ta.ndims = tb.ndims) (h : ¬ (a.KnownRanks ∧ b.KnownRanks)) :
    addRanksS a b = Except.error Err.type := by
  unfold addRanksS
  rw [Sym.ndims, Is.len ha]
  apply mapRange_error
  · by_cases ka : a.KnownRanks
    · obtain ⟨k, hk, e⟩ := Is.rank_unknown hb (fun kb => h ⟨ka, kb⟩)
      refine ⟨k, by omega, ?_⟩
      rw [Is.rank ha (by omega), Is.rank hb (by omega), R.ok_bind, R.ok_bind, e]
      cases a.ttRanks.getD (k + 1) none <;> rfl
    · obtain ⟨k, hk, e⟩ := Is.rank_unknown ha ka
      refine ⟨k, by omega, ?_⟩
      rw [Is.rank ha (by omega), Is.rank hb (by omega), R.ok_bind, R.ok_bind, e]
      rfl
  · intro k hk
    rw [Is.rank ha (by omega), Is.rank hb (by omega), R.ok_bind, R.ok_bind]
    exact addPy_cases _ _

theorem mulZip_known : ∀ {l l' : List (Option ℕ)}, none ∉ l → none ∉ l' → ∃ r, ((l.zip l').mapM fun p => mulPy p.1 p.2) = Except.ok r
  | [], _, _, _ => ⟨[], rfl⟩
  | _ :: _, [], _, _ => ⟨[], rfl⟩
  | none :: _, _, h, _ => by simp at h
  | some _ :: _, none :: _, _, h => by simp at h
  | some x :: l, some y :: l', h, h' => by
    obtain ⟨r, e⟩ := mulZip_known (l := l) (l' := l') (fun hc => h (List.mem_cons_of_mem _ hc)) (fun hc => h' (List.mem_cons_of_mem _ hc))
    refine ⟨some (x * y) :: r, ?_⟩
    rw [List.zip_cons_cons, List.mapM_cons, e]; rfl

theorem mulZip_unknown : ∀ {l l' : List (Option ℕ)}, l.length = l'.length → none ∈ l ∨ none ∈ l' →
    ((l.zip l').mapM fun p => mulPy p.1 p.2) = Except.error Err.type
  | [], [], _, h => by simp at h
  | [], _ :: _, h, _ => by simp at h
  | _ :: _, [], h, _ => by simp at h
  | x :: l, y :: l', hl, h => by
    rw [List.zip_cons_cons, List.mapM_cons]
    rcases x with _ | x
    · rfl
    rcases y with _ | y
    · rfl
    have h' : none ∈ l ∨ none ∈ l' := by simpa using h
    rw [mulZip_unknown (by simpa using hl) h']; rfl

theorem mulRanks_unknown (ha : a.Is ta) (hb : b.Is tb) (hn : ta.ndims = tb.ndims) (h : ¬ (a.KnownRanks ∧ b.KnownRanks)) :
    mulRanksS a b = Except.error Err.type := by
  apply mulZip_unknown
  · rw [ha.ranks.length_eq, hb.ranks.length_eq, ha.wf.ranks_len, hb.wf.ranks_len, hn]
  · by_contra hc
    exact h ⟨fun h1 => hc (Or.inl h1), fun h1 => hc (Or.inr h1)⟩

theorem add_ndims (ha : ta.WF) (hb : tb.WF) {c : TT K} (e : add ta tb = Except.ok c) : ta.ndims = tb.ndims := by
  obtain ⟨-, hr, -⟩ := (C05_add_ok_iff ta tb ha hb).1.mp ⟨c, e⟩
  exact ndims_eq_of_rawShape ha hb hr

theorem multiply_ndims (ha : ta.WF) (hb : tb.WF) {c : TT K} (e : multiply ta tb = Except.ok c) : ta.ndims = tb.ndims := by
  obtain ⟨_, h0, e⟩ := bind_ok_iff.mp e
  obtain ⟨_, h1, e⟩ := bind_ok_iff.mp e
  exact ndims_eq_of_rawShape ha hb (require_inv h1)

theorem matmul_ndims {c : TT K} (e : ttTTMatmul ta tb = Except.ok c) : ta.ndims = tb.ndims := by
  obtain ⟨_, h0, e⟩ := bind_ok_iff.mp e
  obtain ⟨_, h1, e⟩ := bind_ok_iff.mp e
  obtain ⟨_, h2, e⟩ := bind_ok_iff.mp e
  exact (require_inv h2).symm

/-- What a binary operation does, compared with the eager one. -/
structure Bin (opS : R (Sym K)) (op : R (TT K)) (kn : Prop) : Prop where
  known : kn → opS = knownSym <$> op
  unknown : ¬ kn → ∀ c, op = Except.ok c → opS = Except.error Err.type
  error : ∀ e, op = Except.error e → opS = Except.error e

omit [CommRing K] in
theorem Bin.mk' {op : TT K → TT K → R (TT K)} {rk : Sym K → Sym K → R (List (Option ℕ))} (ea : a.run = Except.ok ta) (eb : b.run = Except.ok tb)
    (h1 : ∀ c, op ta tb = Except.ok c → a.KnownRanks ∧ b.KnownRanks → ∃ l, rk a b = Except.ok l)
    (h2 : ∀ c, op ta tb = Except.ok c → ¬ (a.KnownRanks ∧ b.KnownRanks) → rk a b = Except.error Err.type) :
    Bin (do
      let r ← op (← a.run) (← b.run)
      let _ ← rk a b
      pure (knownSym r)) (op ta tb) (a.KnownRanks ∧ b.KnownRanks) := by
  have e0 : (do
      let r ← op (← a.run) (← b.run)
      let _ ← rk a b
      pure (knownSym r) : R (Sym K)) = (op ta tb >>= fun r => rk a b >>= fun _ => pure (knownSym r)) := by
    simp only [ea, eb, R.ok_bind]
  rw [e0]
  refine ⟨fun hk => ?_, fun hk c e => ?_, fun x e => ?_⟩
  · cases e : op ta tb with
    | error x => rfl
    | ok c =>
      obtain ⟨l, el⟩ := h1 c e hk
      rw [R.ok_bind, el]; rfl
  · rw [e, R.ok_bind, h2 c e hk]; rfl
  · rw [e]; rfl

theorem add_bin (ha : a.Is ta) (hb : b.Is tb) (ma : a.KnownModes) (mb : b.KnownModes) : Bin (addS a b) (add ta tb) (a.KnownRanks ∧ b.KnownRanks) :=
  Bin.mk' (Is.run_ok ha (Or.inl ma)) (Is.run_ok hb (Or.inl mb)) (fun _ e hk => addRanks_known ha hb (add_ndims ha.wf hb.wf e) hk.1 hk.2)
    (fun _ e hk => addRanks_unknown ha hb (add_ndims ha.wf hb.wf e) hk)

theorem multiply_bin (ha : a.Is ta) (hb : b.Is tb) (ma : a.KnownModes) (mb : b.KnownModes) :
    Bin (multiplyS a b) (multiply ta tb) (a.KnownRanks ∧ b.KnownRanks) :=
  Bin.mk' (Is.run_ok ha (Or.inl ma)) (Is.run_ok hb (Or.inl mb)) (fun _ _ hk => mulZip_known hk.1 hk.2)
    (fun _ e hk => mulRanks_unknown ha hb (multiply_ndims ha.wf hb.wf e) hk)

theorem matmul_bin (ha : a.Is ta) (hb : b.Is tb) (ma : a.KnownModes) (mb : b.KnownModes) :
    Bin (ttTTMatmulS a b) (ttTTMatmul ta tb) (a.KnownRanks ∧ b.KnownRanks) :=
  Bin.mk' (Is.run_ok ha (Or.inl ma)) (Is.run_ok hb (Or.inl mb)) (fun _ _ hk => mulZip_known hk.1 hk.2)
    (fun _ e hk => mulRanks_unknown ha hb (matmul_ndims e) hk)

end binary

theorem eager_ok (e : SExpr) (h : e.Sound) : e.eager.Ok := by
  induction e with
  | obj s t => exact ⟨h.1.wf, h.2.2⟩
  | add a b iha ihb => exact ⟨iha h.1, ihb h.2⟩
  | sub a b iha ihb => exact ⟨iha h.1, ihb h.2⟩
  | neg a ih => exact ih h
  | mul a b iha ihb => exact ⟨iha h.1, ihb h.2⟩
  | smul c a ih => exact ih h
  | matmul a b iha ihb => exact ⟨iha h.1, ihb h.2⟩
  | transpose a ih => exact ih h

theorem eager_wf {qr : QRRoutine} (hqr : qr.Correct) {e : SExpr} (h : e.Sound) {t : TT ℝ} (ht : e.eager.run qr = Except.ok t) : t.WF := by
  have := C51_closure hqr e.eager (eager_ok e h)
  cases ety : e.eager.ty with
  | none =>
    rw [ety] at this
    obtain ⟨x, hx⟩ := this
    rw [ht] at hx; cases hx
  | some τ =>
    rw [ety] at this
    obtain ⟨t', F, e', w, -⟩ := this
    rw [ht] at e'; cases e'
    exact w

/-- What is shown about a traced program. -/
def Claim (rS : R (Sym ℝ)) (r : R (TT ℝ)) (sup rk : Prop) : Prop :=
  match r with
  | .ok t => (sup → ∃ s, rS = Except.ok s ∧ s.Is t ∧ s.KnownModes ∧ (s.KnownRanks ↔ rk)) ∧ (¬ sup → rS = Except.error Err.type)
  | .error _ => ∃ x, rS = Except.error x

theorem claim_un {ra : R (Sym ℝ)} {r : R (TT ℝ)} {sup rk : Prop} {f : Sym ℝ → R (Sym ℝ)} {g : TT ℝ → R (TT ℝ)} (h : Claim ra r sup rk)
    (hf : ∀ s t, s.Is t → s.KnownModes → (∃ s' t', f s = Except.ok s' ∧ g t = Except.ok t' ∧ s'.Is t' ∧ s'.KnownModes ∧ (s'.KnownRanks ↔ s.KnownRanks)) ∨
      ∃ x, f s = Except.error x ∧ g t = Except.error x) : Claim (ra >>= f) (r >>= g) sup rk := by
  cases r with
  | error x =>
    obtain ⟨y, rfl⟩ := h
    exact ⟨y, rfl⟩
  | ok t =>
    by_cases hs : sup
    · obtain ⟨s, rfl, his, hm, hr⟩ := h.1 hs
      simp only [R.ok_bind]
      rcases hf s t his hm with ⟨s', t', e1, e2, i', m', r'⟩ | ⟨x, e1, e2⟩
      · rw [e2]
        exact ⟨fun _ => ⟨s', e1, i', m', r'.trans hr⟩, fun hc => absurd hs hc⟩
      · rw [e2]; exact ⟨x, e1⟩
    · have := h.2 hs
      subst this
      simp only [R.ok_bind]
      cases g t with
      | error y => exact ⟨_, rfl⟩
      | ok t' => exact ⟨fun hc => absurd hc hs, fun _ => rfl⟩

theorem claim_bin {ra rb : R (Sym ℝ)} {qa qb : R (TT ℝ)} {sa sb ka kb : Prop} {f : Sym ℝ → Sym ℝ → R (Sym ℝ)} {g : TT ℝ → TT ℝ → R (TT ℝ)}
    (ha : Claim ra qa sa ka) (hb : Claim rb qb sb kb)
    (hf : ∀ s t s' t', s.Is t → s'.Is t' → s.KnownModes → s'.KnownModes → Bin (f s s') (g t t') (s.KnownRanks ∧ s'.KnownRanks))
    (hw : ∀ t t' r, qa = Except.ok t → qb = Except.ok t' → g t t' = Except.ok r → r.WF) :
    Claim (do f (← ra) (← rb)) (do g (← qa) (← qb)) (sa ∧ sb ∧ ka ∧ kb) True := by
  cases qa with
  | error x =>
    obtain ⟨y, rfl⟩ := ha
    exact ⟨y, rfl⟩
  | ok t =>
    by_cases hsa : sa
    swap
    · have := ha.2 hsa
      subst this
      simp only [R.ok_bind]
      show Claim (Except.error Err.type) _ _ _
      cases qb >>= fun x => g t x with
      | error y => exact ⟨_, rfl⟩
      | ok t' => exact ⟨fun hc => absurd hc.1 hsa, fun _ => rfl⟩
    obtain ⟨s, rfl, his, hm, hr⟩ := ha.1 hsa
    simp only [R.ok_bind]
    cases qb with
    | error x =>
      obtain ⟨y, rfl⟩ := hb
      exact ⟨y, rfl⟩
    | ok t' =>
      by_cases hsb : sb
      swap
      · have := hb.2 hsb
        subst this
        simp only [R.ok_bind]
        show Claim (Except.error Err.type) _ _ _
        cases g t t' with
        | error y => exact ⟨_, rfl⟩
        | ok t' => exact ⟨fun hc => absurd hc.2.1 hsb, fun _ => rfl⟩
      obtain ⟨s', rfl, his', hm', hr'⟩ := hb.1 hsb
      simp only [R.ok_bind]
      have H := hf s t s' t' his his' hm hm'
      cases e : g t t' with
      | error x => exact ⟨x, H.error x e⟩
      | ok r =>
        have wr := hw t t' r rfl rfl e
        refine ⟨fun hc => ⟨knownSym r, ?_, known_is wr, known_modes r, by simp [known_ranks]⟩, fun hc => H.unknown (fun hk => hc ⟨hsa, hsb, hr.mp hk.1, hr'.mp hk.2⟩) r e⟩
        rw [H.known ⟨hr.mpr hc.2.2.1, hr'.mpr hc.2.2.2⟩, e]; rfl

theorem scalar_step (c : ℝ) (s : Sym ℝ) (t : TT ℝ) (h : s.Is t) (hm : s.KnownModes) :
    (∃ s' t', multiplyScalarS s c = Except.ok s' ∧ multiplyScalar t c = Except.ok t' ∧ s'.Is t' ∧ s'.KnownModes ∧ (s'.KnownRanks ↔ s.KnownRanks)) := by
  obtain ⟨s', t', e1, e2, i, r, k⟩ := multiplyScalar_is h c
  exact ⟨s', t', e1, e2, i, by rw [Sym.KnownModes, r]; exact hm, by rw [Sym.KnownRanks, Sym.KnownRanks, k]⟩

theorem program {qr : QRRoutine} (hqr : qr.Correct) (e : SExpr) (h : e.Sound) : Claim e.run (e.eager.run qr) e.Supported e.RanksKnown := by
  induction e with
  | obj s t => exact ⟨fun _ => ⟨s, rfl, h.1, h.2.1, Iff.rfl⟩, fun hc => absurd trivial hc⟩
  | add a b iha ihb =>
    refine claim_bin (iha h.1) (ihb h.2) (fun s t s' t' h1 h2 m1 m2 => add_bin h1 h2 m1 m2) fun t t' r h1 h2 h3 => ?_
    refine eager_wf hqr (e := .add a b) h ?_
    show (do T3f.add (← a.eager.run qr) (← b.eager.run qr)) = _
    rw [h1, h2]; exact h3
  | sub a b iha ihb =>
    refine claim_bin (f := subS) (g := T3f.sub) (iha h.1) (ihb h.2) (fun s t s' t' h1 h2 m1 m2 => ?_) fun t t' r h1 h2 h3 => ?_
    · obtain ⟨s2, t2, e1, e2, i, m, k⟩ := scalar_step (-1) s' t' h2 m2
      have := add_bin h1 i m1 m
      unfold subS T3f.sub
      rw [e1, e2, R.ok_bind, R.ok_bind]
      rw [k] at this
      exact this
    · refine eager_wf hqr (e := .sub a b) h ?_
      show (do T3f.sub (← a.eager.run qr) (← b.eager.run qr)) = _
      rw [h1, h2]; exact h3
  | neg a ih => exact claim_un (ih h) (fun s t h1 hm => Or.inl (scalar_step (-1) s t h1 hm))
  | mul a b iha ihb =>
    refine claim_bin (iha h.1) (ihb h.2) (fun s t s' t' h1 h2 m1 m2 => multiply_bin h1 h2 m1 m2) fun t t' r h1 h2 h3 => ?_
    refine eager_wf hqr (e := .mul a b) h ?_
    show (do T3f.multiply (← a.eager.run qr) (← b.eager.run qr)) = _
    rw [h1, h2]; exact h3
  | smul c a ih => exact claim_un (ih h) (fun s t h1 hm => Or.inl (scalar_step c s t h1 hm))
  | matmul a b iha ihb =>
    refine claim_bin (iha h.1) (ihb h.2) (fun s t s' t' h1 h2 m1 m2 => matmul_bin h1 h2 m1 m2) fun t t' r h1 h2 h3 => ?_
    refine eager_wf hqr (e := .matmul a b) h ?_
    show (do T3f.ttTTMatmul (← a.eager.run qr) (← b.eager.run qr)) = _
    rw [h1, h2]; exact h3
  | transpose a ih =>
    refine claim_un (ih h) (fun s t h1 hm => ?_)
    by_cases hM : s.isMatrix
    · obtain ⟨s', t', e1, e2, i, r, k⟩ := ttTranspose_is h1 hM
      refine Or.inl ⟨s', t', e1, e2, i, ?_, by rw [Sym.KnownRanks, Sym.KnownRanks, k]⟩
      intro row hrow
      rw [r, List.mem_reverse] at hrow
      exact hm row hrow
    · refine Or.inr ⟨Err.value, ?_, ?_⟩
      · unfold ttTransposeS; rw [require_neg hM]; rfl
      · unfold ttTranspose; rw [require_neg (fun hc => hM ((Is.isMatrix h1).mpr hc))]; rfl

end Static

end T3f
