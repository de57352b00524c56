import Verif.Proofs.BilinearBatch
import Verif.Proofs.Pairwise
import Verif.Proofs.Paths

/-!
# When the bilinear form and the pairwise inner products succeed
-/

namespace T3f

variable {K : Type} [CommRing K]

/-- A loop that ends has run through all its steps. -/
theorem forRange_steps {σ : Type} {f : ℕ → σ → R σ} : ∀ {n a : ℕ} {s r : σ}, forRange f a n s = Except.ok r →
    ∃ v : ℕ → σ, v a = s ∧ ∀ k, a ≤ k → k < a + n → f k (v k) = Except.ok (v (k + 1)) := by
  intro n
  induction n with
  | zero => exact fun {a s r} _ => ⟨fun _ => s, rfl, fun k h1 h2 => by omega⟩
  | succ n ih =>
    intro a s r h
    have h' : (f a s >>= fun t => forRange f (a + 1) n t) = Except.ok r := h
    cases e : f a s with
    | error x => rw [e] at h'; cases h'
    | ok t =>
      rw [e] at h'
      obtain ⟨v, v0, hv⟩ := ih h'
      refine ⟨fun k => if k = a then s else v k, by simp, fun k h1 h2 => ?_⟩
      by_cases hk : k = a
      · subst hk; simp [e, v0]
      · simp only [if_neg hk, if_neg (show k + 1 ≠ a by omega)]
        exact hv k (by omega) (by omega)

/-- The errors of a loop are those of its steps. -/
theorem forRange_error_of {σ : Type} {f : ℕ → σ → R σ} {P : Err → Prop} (hf : ∀ k s e, f k s = Except.error e → P e) :
    ∀ {n a : ℕ} {s : σ} {e : Err}, forRange f a n s = Except.error e → P e := by
  intro n
  induction n with
  | zero => intro a s e h; cases h
  | succ n ih =>
    intro a s e h
    have h' : (f a s >>= fun t => forRange f (a + 1) n t) = Except.error e := h
    cases e' : f a s with
    | error x => rw [e'] at h'; cases h'; exact hf _ _ _ e'
    | ok t => rw [e'] at h'; exact ih h'

theorem einsum_error_eq {spec : List (List Char) × List Char} {ops : List (Tensor K)} {e : Err} (h : einsum spec ops = Except.error e) : e = Err.tf := by
  rcases einsum_cases spec ops with ⟨E, e'⟩ | e'
  · rw [e'] at h; cases h
  · rw [e'] at h; cases h; rfl

theorem pyGet_error_eq {α : Type} {l : List α} {k : ℕ} {e : Err} (h : pyGet l k = Except.error e) : e = Err.index := by
  unfold pyGet at h
  split at h <;> cases h
  rfl

omit [CommRing K] in
theorem bilFirst_iff {qb qA qc : Option ℕ} {B M C : Tensor K} {r1 r2 s1 s2 t1 t2 i i' j j' l l' : ℕ}
    (sB : B.shape = qb.toList ++ [r1, i', l, r2]) (sM : M.shape = qA.toList ++ [s1, i, j, s2]) (sC : C.shape = qc.toList ++ [t1, j', l', t2]) :
    EinOk ([bLabel 'p' qb ++ chars! "aikb", chars! "cijd", bLabel 'p' qb ++ chars! "ejkf"], bLabel 'p' qb ++ chars! "bdf") [B, M, C] ↔
      qA = none ∧ qb = qc ∧ i' = i ∧ j' = j ∧ l = l' := by
  rcases qb with _ | qb <;> rcases qA with _ | qA <;> rcases qc with _ | qc <;> simp [EinOk, einDims, bLabel, List.lookup, sB, sM, sC] <;> (try omega)

omit [CommRing K] in
theorem bilStep_iff {qb qA qc : Option ℕ} {T B M C : Tensor K} {r1 r2 s1 s2 t1 t2 i i' j j' l l' : ℕ} (sT : T.shape = qb.toList ++ [r1, s1, t1])
    (sB : B.shape = qb.toList ++ [r1, i', l, r2]) (sM : M.shape = qA.toList ++ [s1, i, j, s2]) (sC : C.shape = qc.toList ++ [t1, j', l', t2]) :
    EinOk ([bLabel 'p' qb ++ chars! "ace", bLabel 'p' qb ++ chars! "aikb", chars! "cijd", bLabel 'p' qb ++ chars! "ejkf"], bLabel 'p' qb ++ chars! "bdf")
      [T, B, M, C] ↔ qA = none ∧ qb = qc ∧ i' = i ∧ j' = j ∧ l = l' := by
  rcases qb with _ | qb <;> rcases qA with _ | qA <;> rcases qc with _ | qc <;> simp [EinOk, einDims, bLabel, List.lookup, sT, sB, sM, sC] <;> (try omega)

omit [CommRing K] in
theorem pyGet_core_lt {t : TT K} {k : ℕ} {c : Tensor K} (h : pyGet t.cores k = Except.ok c) : k < t.ndims := by
  by_contra hk
  have : t.cores[k]? = none := by simpa [TT.ndims] using hk
  unfold pyGet at h
  rw [this] at h
  cases h

theorem bilinearForm_iff {A b c : TT K} (hA : A.WF) (hb : b.WF) (hc : c.WF) {I J I' L J' L' : List ℕ} (rA : A.rawShape = [I, J]) (rb : b.rawShape = [I', L])
    (rc : c.rawShape = [J', L']) :
    (∃ F, bilinearForm A b c = Except.ok F) ↔ A.batch = none ∧ b.batch = c.batch ∧ A.ndims ≤ b.ndims ∧ A.ndims ≤ c.ndims ∧
      ∀ k < A.ndims, I'.getD k 0 = I.getD k 0 ∧ J'.getD k 0 = J.getD k 0 ∧ L.getD k 0 = L'.getD k 0 := by
  have hpos := hA.pos
  have sA : ∀ k < A.ndims, (A.core k).shape = A.batch.toList ++ [A.rank k, I.getD k 0, J.getD k 0, A.rank (k + 1)] := by
    intro k hk; rw [hA.core_shape k hk]; simp [TT.modes, rA, TT.bpre]
  have sb : ∀ k < b.ndims, (b.core k).shape = b.batch.toList ++ [b.rank k, I'.getD k 0, L.getD k 0, b.rank (k + 1)] := by
    intro k hk; rw [hb.core_shape k hk]; simp [TT.modes, rb, TT.bpre]
  have sc : ∀ k < c.ndims, (c.core k).shape = c.batch.toList ++ [c.rank k, J'.getD k 0, L'.getD k 0, c.rank (k + 1)] := by
    intro k hk; rw [hc.core_shape k hk]; simp [TT.modes, rc, TT.bpre]
  constructor
  · rintro ⟨F, h⟩
    unfold bilinearForm at h
    simp only [require_pos (show A.isMatrix by simp [TT.isMatrix, rA]), require_pos (show b.isMatrix by simp [TT.isMatrix, rb]),
      require_pos (show c.isMatrix by simp [TT.isMatrix, rc]), R.ok_bind, hA.pyCore hpos, hb.pyCore hb.pos, hc.pyCore hc.pos] at h
    generalize he : einsum _ [b.core 0, A.core 0, c.core 0] = r at h
    cases r with
    | error e => cases h
    | ok E =>
      obtain ⟨bA, hbc, h0⟩ := (bilFirst_iff (sb 0 hb.pos) (sA 0 hpos) (sc 0 hc.pos)).1 (einOk_of_ok he)
      rw [R.ok_bind] at h
      generalize hf : forRange _ 1 (A.ndims - 1) E = r at h
      cases r with
      | error e => cases h
      | ok T =>
        obtain ⟨v, v1, hv⟩ := forRange_steps hf
        have sE : E.shape = b.batch.toList ++ [b.rank 1, A.rank 1, c.rank 1] := by
          obtain ⟨E', e', sE', -⟩ := bilEin_first b.batch (b.core 0) (A.core 0) (c.core 0) (I.getD 0 0) (J.getD 0 0) (L.getD 0 0) (b.rank 1) (A.rank 1) (c.rank 1)
            (by rw [sb 0 hb.pos, hb.rank_first, h0.1]) (by rw [sA 0 hpos, hA.rank_first, bA]; rfl)
            (by rw [sc 0 hc.pos, hc.rank_first, h0.2.1, ← h0.2.2, hbc])
          rw [he] at e'
          cases e'
          exact sE'
        have key : ∀ k, 1 ≤ k → k < A.ndims → (v k).shape = b.batch.toList ++ [b.rank k, A.rank k, c.rank k] →
            (k < b.ndims ∧ k < c.ndims ∧ I'.getD k 0 = I.getD k 0 ∧ J'.getD k 0 = J.getD k 0 ∧ L.getD k 0 = L'.getD k 0) ∧
            (v (k + 1)).shape = b.batch.toList ++ [b.rank (k + 1), A.rank (k + 1), c.rank (k + 1)] := by
          intro k hk1 hk sv
          have hs := hv k hk1 (by omega)
          generalize g1 : pyGet b.cores k = q at hs
          cases q with
          | error e => cases hs
          | ok bc =>
          have kb := pyGet_core_lt g1
          rw [hb.pyCore kb] at g1
          cases g1
          rw [R.ok_bind] at hs
          generalize g1 : pyGet c.cores k = q at hs
          cases q with
          | error e => cases hs
          | ok cc =>
          have kc := pyGet_core_lt g1
          rw [hc.pyCore kc] at g1
          cases g1
          rw [R.ok_bind, hA.pyCore hk, R.ok_bind] at hs
          obtain ⟨-, -, e1, e2, e3⟩ := (bilStep_iff sv (sb k kb) (sA k hk) (sc k kc)).1 (einOk_of_ok hs)
          refine ⟨⟨kb, kc, e1, e2, e3⟩, ?_⟩
          obtain ⟨E', eE', sE', -⟩ := bilEin_step b.batch (v k) (b.core k) (A.core k) (c.core k) (I.getD k 0) (J.getD k 0) (L.getD k 0) _ _ _ (b.rank (k + 1))
            (A.rank (k + 1)) (c.rank (k + 1)) sv (by rw [sb k kb, e1]) (by rw [sA k hk, bA]; rfl)
            (by rw [sc k kc, e2, ← e3, hbc])
          rw [eE'] at hs
          cases hs
          exact sE'
        have sv : ∀ k, 1 ≤ k → k < A.ndims → (v k).shape = b.batch.toList ++ [b.rank k, A.rank k, c.rank k] := by
          intro k hk1
          induction k, hk1 using Nat.le_induction with
          | base => intro _; rw [v1]; exact sE
          | succ k hk1 ih => intro hk; exact (key k hk1 (by omega) (ih (by omega))).2
        have fin : ∀ k < A.ndims, k < b.ndims ∧ k < c.ndims ∧ I'.getD k 0 = I.getD k 0 ∧ J'.getD k 0 = J.getD k 0 ∧ L.getD k 0 = L'.getD k 0 := by
          intro k hk
          rcases Nat.eq_zero_or_pos k with rfl | hk1
          · exact ⟨hb.pos, hc.pos, h0⟩
          · exact (key k hk1 hk (sv k hk1 hk)).1
        have hl := fin (A.ndims - 1) (by omega)
        exact ⟨bA, hbc, by omega, by omega, fun k hk => (fin k hk).2.2⟩
  · rintro ⟨bA, hbc, hnb, hnc, hk⟩
    obtain ⟨E, eE, sE, -⟩ := bilEin_first b.batch (b.core 0) (A.core 0) (c.core 0) (I.getD 0 0) (J.getD 0 0) (L.getD 0 0) (b.rank 1) (A.rank 1) (c.rank 1)
      (by rw [sb 0 hb.pos, hb.rank_first, (hk 0 hpos).1]) (by rw [sA 0 hpos, hA.rank_first, bA]; rfl)
      (by rw [sc 0 hc.pos, hc.rank_first, (hk 0 hpos).2.1, ← (hk 0 hpos).2.2, hbc])
    obtain ⟨T, eT, -⟩ := forRange_inv (fun k (T : Tensor K) => T.shape = b.batch.toList ++ [b.rank k, A.rank k, c.rank k]) (fun k res => do
      let bc ← pyGet b.cores k
      let cc ← pyGet c.cores k
      let Ac ← pyGet A.cores k
      einsum ([bLabel 'p' b.batch ++ chars! "ace", bLabel 'p' b.batch ++ chars! "aikb", chars! "cijd",
        bLabel 'p' b.batch ++ chars! "ejkf"], bLabel 'p' b.batch ++ chars! "bdf") [res, bc, Ac, cc]) 1 (A.ndims - 1) E sE (by
        intro k T h1 h2 sT
        obtain ⟨E', eE', sE', -⟩ := bilEin_step b.batch T (b.core k) (A.core k) (c.core k) (I.getD k 0) (J.getD k 0) (L.getD k 0) _ _ _ (b.rank (k + 1))
          (A.rank (k + 1)) (c.rank (k + 1)) sT (by rw [sb k (by omega), (hk k (by omega)).1]) (by rw [sA k (by omega), bA]; rfl)
          (by rw [sc k (by omega), (hk k (by omega)).2.1, ← (hk k (by omega)).2.2, hbc])
        refine ⟨E', ?_, sE'⟩
        simp only [hA.pyCore (show k < A.ndims by omega), hb.pyCore (show k < b.ndims by omega),
          hc.pyCore (show k < c.ndims by omega), R.ok_bind]
        exact eE')
    refine ⟨squeezeAll T, ?_⟩
    unfold bilinearForm
    simp only [require_pos (show A.isMatrix by simp [TT.isMatrix, rA]), require_pos (show b.isMatrix by simp [TT.isMatrix, rb]),
      require_pos (show c.isMatrix by simp [TT.isMatrix, rc]), R.ok_bind, hA.pyCore hpos, hb.pyCore hb.pos, hc.pyCore hc.pos, eE, eT]
    rfl

/-- The errors of the bilinear form of TT-matrices come from the contractions or from missing cores. -/
theorem bilinearForm_error {A b c : TT K} (mA : A.isMatrix) (mb : b.isMatrix) (mc : c.isMatrix) {e : Err}
    (h : bilinearForm A b c = Except.error e) : e = Err.tf ∨ e = Err.index := by
  unfold bilinearForm at h
  simp only [require_pos mA, require_pos mb, require_pos mc, R.ok_bind] at h
  generalize g1 : pyGet b.cores 0 = q at h
  cases q with
  | error e => cases h; exact Or.inr (pyGet_error_eq g1)
  | ok b0 =>
  rw [R.ok_bind] at h
  generalize g3 : pyGet c.cores 0 = q at h
  cases q with
  | error e => cases h; exact Or.inr (pyGet_error_eq g3)
  | ok c0 =>
  rw [R.ok_bind] at h
  generalize g2 : pyGet A.cores 0 = q at h
  cases q with
  | error e => cases h; exact Or.inr (pyGet_error_eq g2)
  | ok A0 =>
  rw [R.ok_bind] at h
  generalize g4 : einsum _ [b0, A0, c0] = q at h
  cases q with
  | error e => cases h; exact Or.inl (einsum_error_eq g4)
  | ok E =>
  rw [R.ok_bind] at h
  generalize g5 : forRange _ 1 (A.ndims - 1) E = q at h
  cases q with
  | ok T => cases h
  | error e =>
  cases h
  refine forRange_error_of (P := fun e => e = Err.tf ∨ e = Err.index) (fun k s e h => ?_) g5
  generalize g1 : pyGet b.cores k = q at h
  cases q with
  | error e => cases h; exact Or.inr (pyGet_error_eq g1)
  | ok b0 =>
  rw [R.ok_bind] at h
  generalize g2 : pyGet c.cores k = q at h
  cases q with
  | error e => cases h; exact Or.inr (pyGet_error_eq g2)
  | ok c0 =>
  rw [R.ok_bind] at h
  generalize g3 : pyGet A.cores k = q at h
  cases q with
  | error e => cases h; exact Or.inr (pyGet_error_eq g3)
  | ok A0 =>
  rw [R.ok_bind] at h
  exact Or.inl (einsum_error_eq h)

omit [CommRing K] in
theorem pairFirst_iff {A B : Tensor K} {m n ra rb : ℕ} {M N : List ℕ} {ax : List Char}
    (hM : (M.length = 1 ∧ ax = chars! "i") ∨ (M.length = 2 ∧ ax = chars! "ij")) (hN : N.length = 1 ∨ N.length = 2)
    (hA : A.shape = m :: 1 :: (M ++ [ra])) (hB : B.shape = n :: 1 :: (N ++ [rb])) : EinOk (pairSpec true ax) [A, B] ↔ M = N := by
  rcases hM with ⟨hM, rfl⟩ | ⟨hM, rfl⟩
  · obtain ⟨i, rfl⟩ := List.length_eq_one_iff.1 hM
    rcases hN with hN | hN
    · obtain ⟨i', rfl⟩ := List.length_eq_one_iff.1 hN
      simp [EinOk, pairSpec, einDims, List.lookup, hA, hB]
    · obtain ⟨i', j', rfl⟩ := List.length_eq_two.1 hN
      simp [EinOk, pairSpec, einDims, List.lookup, hA, hB]
  · obtain ⟨i, j, rfl⟩ := List.length_eq_two.1 hM
    rcases hN with hN | hN
    · obtain ⟨i', rfl⟩ := List.length_eq_one_iff.1 hN
      simp [EinOk, pairSpec, einDims, List.lookup, hA, hB]
    · obtain ⟨i', j', rfl⟩ := List.length_eq_two.1 hN
      simp [EinOk, pairSpec, einDims, List.lookup, hA, hB]

omit [CommRing K] in
theorem pairStep_iff {Q A B : Tensor K} {m n qa qb ra rb : ℕ} {M N : List ℕ} {ax : List Char}
    (hM : (M.length = 1 ∧ ax = chars! "i") ∨ (M.length = 2 ∧ ax = chars! "ij")) (hN : N.length = 1 ∨ N.length = 2) (hQ : Q.shape = [m, n, qa, qb])
    (hA : A.shape = m :: qa :: (M ++ [ra])) (hB : B.shape = n :: qb :: (N ++ [rb])) : EinOk (pairSpec false ax) [Q, A, B] ↔ M = N := by
  rcases hM with ⟨hM, rfl⟩ | ⟨hM, rfl⟩
  · obtain ⟨i, rfl⟩ := List.length_eq_one_iff.1 hM
    rcases hN with hN | hN
    · obtain ⟨i', rfl⟩ := List.length_eq_one_iff.1 hN
      simp [EinOk, pairSpec, einDims, List.lookup, hQ, hA, hB]
    · obtain ⟨i', j', rfl⟩ := List.length_eq_two.1 hN
      simp [EinOk, pairSpec, einDims, List.lookup, hQ, hA, hB]
  · obtain ⟨i, j, rfl⟩ := List.length_eq_two.1 hM
    rcases hN with hN | hN
    · obtain ⟨i', rfl⟩ := List.length_eq_one_iff.1 hN
      simp [EinOk, pairSpec, einDims, List.lookup, hQ, hA, hB]
    · obtain ⟨i', j', rfl⟩ := List.length_eq_two.1 hN
      simp [EinOk, pairSpec, einDims, List.lookup, hQ, hA, hB]

theorem pairwiseFlatInner_iff {a b : TT K} (ha : a.WF) (hb : b.WF) {m n : ℕ} (hm : a.batch = some m) (hn : b.batch = some n) :
    (∃ T, pairwiseFlatInner a b = Except.ok T) ↔ a.ndims ≤ b.ndims ∧ ∀ k < a.ndims, a.modes k = b.modes k := by
  have hpos := ha.pos
  have sA : ∀ k < a.ndims, (a.core k).shape = m :: a.rank k :: (a.modes k ++ [a.rank (k + 1)]) := by
    intro k hk; rw [ha.core_shape k hk, bpre_some hm]; rfl
  have sB : ∀ k < b.ndims, (b.core k).shape = n :: b.rank k :: (b.modes k ++ [b.rank (k + 1)]) := by
    intro k hk; rw [hb.core_shape k hk, bpre_some hn]; rfl
  have mb : ∀ k, (b.modes k).length = 1 ∨ (b.modes k).length = 2 := fun k => (modeLabels_spec hb k).imp And.left And.left
  constructor
  · rintro ⟨F, h⟩
    unfold pairwiseFlatInner at h
    simp only [R.ok_bind, ha.pyCore hpos, hb.pyCore hb.pos] at h
    generalize he : einsum _ [a.core 0, b.core 0] = r at h
    cases r with
    | error e => cases h
    | ok E =>
      have h0 := (pairFirst_iff (modeLabels_spec ha 0) (mb 0) (by rw [sA 0 hpos, ha.rank_first]) (by rw [sB 0 hb.pos, hb.rank_first])).1 (einOk_of_ok he)
      rw [R.ok_bind] at h
      generalize hf : forRange _ 1 (a.ndims - 1) E = r at h
      cases r with
      | error e => cases h
      | ok T =>
        obtain ⟨v, v1, hv⟩ := forRange_steps hf
        have sE : E.shape = [m, n, a.rank 1, b.rank 1] := by
          obtain ⟨E', e', sE', -⟩ := pairEin_first (a.core 0) (b.core 0) m n (a.modes 0) (modeLabels a) (modeLabels_spec ha 0) (a.rank 1) (b.rank 1)
            (by rw [sA 0 hpos, ha.rank_first]) (by rw [sB 0 hb.pos, hb.rank_first, h0])
          rw [he] at e'
          cases e'
          exact sE'
        have key : ∀ k, 1 ≤ k → k < a.ndims → (v k).shape = [m, n, a.rank k, b.rank k] →
            (k < b.ndims ∧ a.modes k = b.modes k) ∧ (v (k + 1)).shape = [m, n, a.rank (k + 1), b.rank (k + 1)] := by
          intro k hk1 hk sv
          have hs := hv k hk1 (by omega)
          rw [ha.pyCore hk, R.ok_bind] at hs
          generalize g1 : pyGet b.cores k = q at hs
          cases q with
          | error e => cases hs
          | ok bc =>
          have kb := pyGet_core_lt g1
          rw [hb.pyCore kb] at g1
          cases g1
          rw [R.ok_bind] at hs
          have e1 := (pairStep_iff (modeLabels_spec ha k) (mb k) sv (sA k hk) (sB k kb)).1 (einOk_of_ok hs)
          refine ⟨⟨kb, e1⟩, ?_⟩
          obtain ⟨E', eE', sE', -⟩ := pairEin_step (v k) (a.core k) (b.core k) m n (a.modes k) (modeLabels a) (modeLabels_spec ha k) _ _ _ (b.rank (k + 1))
            sv (sA k hk) (by rw [sB k kb, e1])
          rw [eE'] at hs
          cases hs
          exact sE'
        have sv : ∀ k, 1 ≤ k → k < a.ndims → (v k).shape = [m, n, a.rank k, b.rank k] := by
          intro k hk1
          induction k, hk1 using Nat.le_induction with
          | base => intro _; rw [v1]; exact sE
          | succ k hk1 ih => intro hk; exact (key k hk1 (by omega) (ih (by omega))).2
        have fin : ∀ k < a.ndims, k < b.ndims ∧ a.modes k = b.modes k := by
          intro k hk
          rcases Nat.eq_zero_or_pos k with rfl | hk1
          · exact ⟨hb.pos, h0⟩
          · exact (key k hk1 hk (sv k hk1 hk)).1
        have hl := fin (a.ndims - 1) (by omega)
        exact ⟨by omega, fun k hk => (fin k hk).2⟩
  · rintro ⟨hab, hk⟩
    obtain ⟨E, eE, sE, -⟩ := pairEin_first (a.core 0) (b.core 0) m n (a.modes 0) (modeLabels a) (modeLabels_spec ha 0) (a.rank 1) (b.rank 1)
      (by rw [sA 0 hpos, ha.rank_first]) (by rw [sB 0 hb.pos, hb.rank_first, hk 0 hpos])
    obtain ⟨T, eT, -⟩ := forRange_inv (fun k (T : Tensor K) => T.shape = [m, n, a.rank k, b.rank k]) (fun k res => do
      let ac ← pyGet a.cores k
      let bc ← pyGet b.cores k
      einsum (pairSpec false (modeLabels a)) [res, ac, bc]) 1 (a.ndims - 1) E sE (by
        intro k T h1 h2 sT
        obtain ⟨E', eE', sE', -⟩ := pairEin_step T (a.core k) (b.core k) m n (a.modes k) (modeLabels a) (modeLabels_spec ha k) _ _ (a.rank (k + 1))
          (b.rank (k + 1)) sT (sA k (by omega)) (by rw [sB k (by omega), hk k (by omega)])
        refine ⟨E', ?_, sE'⟩
        simp only [ha.pyCore (show k < a.ndims by omega), hb.pyCore (show k < b.ndims by omega), R.ok_bind]
        exact eE')
    refine ⟨squeezeAll T, ?_⟩
    unfold pairwiseFlatInner
    simp only [R.ok_bind, ha.pyCore hpos, hb.pyCore hb.pos, eE, eT]
    rfl

theorem pairwiseFlatInner_error {a b : TT K} {e : Err} (h : pairwiseFlatInner a b = Except.error e) : e = Err.tf ∨ e = Err.index := by
  unfold pairwiseFlatInner at h
  generalize g1 : pyGet a.cores 0 = q at h
  cases q with
  | error e => cases h; exact Or.inr (pyGet_error_eq g1)
  | ok b0 =>
  rw [R.ok_bind] at h
  generalize g2 : pyGet b.cores 0 = q at h
  cases q with
  | error e => cases h; exact Or.inr (pyGet_error_eq g2)
  | ok A0 =>
  simp only [R.ok_bind] at h
  generalize g4 : einsum _ [b0, A0] = q at h
  cases q with
  | error e => cases h; exact Or.inl (einsum_error_eq g4)
  | ok E =>
  rw [R.ok_bind] at h
  generalize g5 : forRange _ 1 (a.ndims - 1) E = q at h
  cases q with
  | ok T => cases h
  | error e =>
  cases h
  refine forRange_error_of (P := fun e => e = Err.tf ∨ e = Err.index) (fun k s e h => ?_) g5
  generalize g1 : pyGet a.cores k = q at h
  cases q with
  | error e => cases h; exact Or.inr (pyGet_error_eq g1)
  | ok b0 =>
  rw [R.ok_bind] at h
  generalize g2 : pyGet b.cores k = q at h
  cases q with
  | error e => cases h; exact Or.inr (pyGet_error_eq g2)
  | ok c0 =>
  rw [R.ok_bind] at h
  exact Or.inl (einsum_error_eq h)

theorem forRange_congr {σ : Type} {f g : ℕ → σ → R σ} : ∀ {n a : ℕ} {s : σ}, (∀ k, a ≤ k → k < a + n → ∀ s, f k s = g k s) →
    forRange f a n s = forRange g a n s := by
  intro n
  induction n with
  | zero => intros; rfl
  | succ n ih =>
    intro a s h
    show (f a s >>= fun t => forRange f (a + 1) n t) = (g a s >>= fun t => forRange g (a + 1) n t)
    rw [h a le_rfl (by omega)]
    congr 1
    funext t
    exact ih fun k h1 h2 => h k (by omega) (by omega)

end T3f
