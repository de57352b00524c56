import Verif.Proofs.RoundOps
import Verif.Spec.Accuracy
import Verif.Props.C51Closure

/-!
# Three runs of matrix products and inner products
-/

namespace T3f

section

variable {F : FloatRoutines} {A : Arith} {m m' : ℕ → ℕ} {a b c a' b' c' : TT ℝ} {ρ : ℕ → ℝ → ℝ → ℝ → Prop}

theorem TTri.absolute (t : TT ℝ) (m : ℕ → ℕ) {u : ℝ} (hu : 0 ≤ u) : TTri (fun k => Approx u (m k)) t t t.abs := by
  refine ⟨rfl, rfl, rfl, rfl, rfl, rfl, ⟨rfl, by simp [TT.abs], fun k x y z h1 h2 h3 => ?_⟩⟩
  obtain rfl := Option.some.inj (h1.symm.trans h2)
  simp only [TT.abs, List.getElem?_map, h1, Option.map_some, Option.some.injEq] at h3
  subst h3
  exact ⟨rfl, rfl, fun i _ => (Approx.refl u (x.get i)).mono hu (Nat.zero_le _)⟩

theorem pyGet_core {t : TT ℝ} {k : ℕ} {x : Tensor ℝ} (h : pyGet t.cores k = Except.ok x) : x = t.core k ∧ k < t.ndims := pyGet_getD h default

theorem TTri.core_shape₂ (h : TTri ρ a b c) (k : ℕ) : (b.core k).shape = (a.core k).shape := by
  have := h.cores.shapes.1
  unfold TT.core
  by_cases hk : k < a.cores.length
  · have hk' : k < b.cores.length := h.cores.len₂ ▸ hk
    rw [List.getD_eq_getElem _ _ hk, List.getD_eq_getElem _ _ hk']
    have := List.getElem_of_eq this (i := k) (by simpa using hk')
    simpa using this
  · rw [List.getD_eq_default _ _ (by rw [h.cores.len₂]; omega), List.getD_eq_default _ _ (by omega)]

theorem TTri.core_shape₃ (h : TTri ρ a b c) (k : ℕ) : (c.core k).shape = (a.core k).shape := by
  have := h.cores.shapes.2
  unfold TT.core
  by_cases hk : k < a.cores.length
  · have hk' : k < c.cores.length := h.cores.len₃ ▸ hk
    rw [List.getD_eq_getElem _ _ hk, List.getD_eq_getElem _ _ hk']
    have := List.getElem_of_eq this (i := k) (by simpa using hk')
    simpa using this
  · rw [List.getD_eq_default _ _ (by rw [h.cores.len₃]; omega), List.getD_eq_default _ _ (by omega)]

/-- Well-formedness does not depend on the elements. -/
theorem wf_of_shapes {s t : TT ℝ} (h : t.WF) (h1 : s.rawShape = t.rawShape) (h2 : s.ttRanks = t.ttRanks) (h3 : s.batch = t.batch)
    (h4 : s.ndims = t.ndims) (h5 : ∀ k, (s.core k).shape = (t.core k).shape) : s.WF := by
  have hr : s.rank = t.rank := by unfold TT.rank; rw [h2]
  have hm : s.modes = t.modes := by unfold TT.modes; rw [h1]
  have hb : s.bpre = t.bpre := by unfold TT.bpre; rw [h3]
  exact ⟨h4 ▸ h.pos, by rw [h2, h4, h.ranks_len], hr ▸ h.rank_first, by rw [hr, h4, h.rank_last], by rw [hr, h4]; exact h.rank_pos, h1 ▸ h.rows,
    by rw [h1, h4]; exact h.rows_len, by rw [h4, hb, hr, hm]; exact fun k hk => (h5 k).trans (h.core_shape k hk), h3 ▸ h.batch_pos⟩

theorem TTri.wf₁ (h : TTri ρ a b c) (hb : b.WF) : a.WF :=
  wf_of_shapes hb h.raw₂.symm h.ranks₂.symm h.batch₂.symm h.ndims.1.symm fun k => (h.core_shape₂ k).symm

theorem TTri.wf₃ (h : TTri ρ a b c) (hb : a.WF) : c.WF :=
  wf_of_shapes hb h.raw₃ h.ranks₃ h.batch₃ h.ndims.2 fun k => h.core_shape₃ k

theorem TTri.wf₂ (h : TTri ρ a b c) (hb : a.WF) : b.WF :=
  wf_of_shapes hb h.raw₂ h.ranks₂ h.batch₂ h.ndims.1 fun k => h.core_shape₂ k

/-! ## Matrix products -/

theorem TT.WF.matrix_shape {t : TT ℝ} (h : t.WF) (hm : t.isMatrix) {k : ℕ} (hk : k < t.ndims) :
    (t.core k).shape = t.batch.toList ++ [t.rank k, (t.rawShape.getD 0 []).getD k 0, (t.rawShape.getD 1 []).getD k 0, t.rank (k + 1)] := by
  rw [h.core_shape k hk, TT.bpre, TT.modes]
  unfold TT.isMatrix at hm
  match hr : t.rawShape, hm with
  | [r0, r1], _ => simp

theorem TT.WF.tensor_shape {t : TT ℝ} (h : t.WF) (hm : ¬ t.isMatrix) {k : ℕ} (hk : k < t.ndims) :
    (t.core k).shape = t.batch.toList ++ [t.rank k, (t.rawShape.getD 0 []).getD k 0, t.rank (k + 1)] := by
  rw [h.core_shape k hk, TT.bpre, TT.modes]
  have h1 := h.rows.resolve_right hm
  match hr : t.rawShape, h1 with
  | [r0], _ => simp

theorem einTerms_matmul {x y : Tensor ℝ} {b b' : Option ℕ} {r n n' s r' p q s' : ℕ} (hx : x.shape = b.toList ++ [r, n, n', s])
    (hy : y.shape = b'.toList ++ [r', p, q, s']) :
    einTerms ([bLabel 'o' b ++ chars! "aijb", bLabel 'o' b' ++ chars! "cjkd"], bLabel 'o' (resBatch b b') ++ chars! "acikbd") [x, y] = n' := by
  cases b <;> cases b' <;> simp [einTerms, einContracted, einDims, hx, hy, List.eraseDupsBy_cons, bLabel, resBatch]

theorem sync_matmulCore (hF : F.Follows A) (h : TTri (fun k => Approx A.u (m k)) a b c) (h' : TTri (fun k => Approx A.u (m' k)) a' b' c') (wa : a.WF)
    (wa' : a'.WF) (ma : a.isMatrix) (ma' : a'.isMatrix) (k : ℕ) :
    Sync (Tri (Approx A.u (m k + m' k + (a.rawShape.getD 1 []).getD k 0))) (matmulCoreF F a a' k) (matmulCore b b' k) (matmulCore c c' k) := by
  unfold matmulCoreF matmulCore
  simp only [h.raw₂, h.raw₃, h'.raw₂, h'.raw₃, h.ranks₂, h.ranks₃, h'.ranks₂, h'.ranks₃, h.batch₂, h.batch₃, h'.batch₂, h'.batch₃]
  refine Sync.bind_eq (h.cores.pyGet k) fun x y z ex _ _ hx => Sync.bind_eq (h'.cores.pyGet k) fun x' y' z' ex' _ _ hx' => ?_
  obtain ⟨rfl, hk⟩ := pyGet_core ex
  obtain ⟨rfl, hk'⟩ := pyGet_core ex'
  have := hF.sync_einsum (ms := [m k, m' k]) (as := [a.core k, a'.core k]) (bs := [y, y']) (cs := [z, z']) ⟨hx, hx', trivial⟩
    ([bLabel 'o' a.batch ++ chars! "aijb", bLabel 'o' a'.batch ++ chars! "cjkd"], bLabel 'o' (resBatch a.batch a'.batch) ++ chars! "acikbd")
  rw [einTerms_matmul (wa.matrix_shape ma hk) (wa'.matrix_shape ma' hk')] at this
  simp only [List.sum_cons, List.sum_nil, List.length_cons, List.length_nil, add_zero, zero_add, Nat.reduceAdd, Nat.add_sub_cancel] at this
  exact Sync.bind this fun x y z hx => Sync.bind_same _ fun _ _ => Sync.bind_same _ fun _ _ => Sync.bind_same _ fun _ _ => Sync.bind_same _ fun _ _ =>
    Sync.bind_same _ fun _ _ => Sync.bind_same _ fun _ _ => Sync.bind_same _ fun _ _ => Sync.bind_same _ fun _ _ => hx.reshape _

theorem sync_ttTTMatmul (hF : F.Follows A) (h : TTri (fun k => Approx A.u (m k)) a b c) (h' : TTri (fun k => Approx A.u (m' k)) a' b' c') (wa : a.WF)
    (wa' : a'.WF) :
    Sync (TTri fun k => Approx A.u (m k + m' k + (a.rawShape.getD 1 []).getD k 0)) (ttTTMatmulF F a a') (ttTTMatmul b b') (ttTTMatmul c c') := by
  unfold ttTTMatmulF ttTTMatmul
  simp only [h.isMatrix.1, h.isMatrix.2, h'.isMatrix.1, h'.isMatrix.2, (h.broadcasting h').1, (h.broadcasting h').2, h.ndims.1, h.ndims.2, h'.ndims.1,
    h'.ndims.2]
  by_cases hm : a.isMatrix ∧ a'.isMatrix
  swap
  · rw [require_neg hm]; exact Sync.error _
  rw [require_pos hm]
  refine Sync.bind (Sync.same (Except.ok ())) fun _ _ _ _ => Sync.bind_same _ fun _ _ => Sync.bind_same _ fun _ _ =>
    Sync.bind_eq h.squeezeBatchDim fun x y z ex _ _ hx => Sync.bind_eq h'.squeezeBatchDim fun x' y' z' ex' _ _ hx' => ?_
  obtain ⟨T, eT, wT, rT, -⟩ := squeezeBatchDim_spec wa
  obtain ⟨T', eT', wT', rT', -⟩ := squeezeBatchDim_spec wa'
  obtain rfl := Except.ok.inj (ex.symm.trans eT)
  obtain rfl := Except.ok.inj (ex'.symm.trans eT')
  simp only [hx.raw₂, hx.raw₃, hx'.raw₂, hx'.raw₃, hx.batch₂, hx.batch₃, hx'.batch₂, hx'.batch₃, hx.ranks₂, hx.ranks₃, hx'.ranks₂, hx'.ranks₃]
  rw [← rT]
  exact Sync.bind (Sync.mapRange (Q := fun k => Tri (Approx A.u (m k + m' k + (x.rawShape.getD 1 []).getD k 0))) _ fun k _ =>
    sync_matmulCore hF hx hx' wT wT' (by unfold TT.isMatrix; rw [rT]; exact hm.1) (by unfold TT.isMatrix; rw [rT']; exact hm.2) k) fun x y z hx =>
    Sync.bind_same _ fun _ _ => Sync.bind_same _ fun _ _ => sync_mkLike hx.1 _ _ _

/-! ## Inner products -/

/-- The roundings of an inner product before core `k`. -/
def innerRounds (m m' r s n : ℕ → ℕ) (k : ℕ) : ℕ :=
  ∑ j ∈ Finset.range k, m j + ∑ j ∈ Finset.range k, m' j + ∑ j ∈ Finset.range k, r j * s j * n j + (k - 1)

/-- The labels of the batch axes of an inner product. -/
def InnerLabels (ba bb br : Option ℕ) (la lb lr : List Char) : Prop :=
  (la = bLabel 'o' ba ∧ lb = bLabel 'o' bb ∧ lr = bLabel 'o' br ∧ br = if ba.isSome then ba else bb) ∨
    (la = bLabel 'n' ba ∧ lb = la ∧ lr = la ∧ bb = ba ∧ br = ba)

theorem einTerms_inner_first {x y : Tensor ℝ} {ba bb br : Option ℕ} {la lb lr : List Char} (hl : InnerLabels ba bb br la lb lr) {t : TT ℝ} {r s r' s' : ℕ}
    {k : ℕ} {M' : List ℕ} (hM : (t.isMatrix ∧ (t.modes k).length = 2) ∨ (¬ t.isMatrix ∧ (t.modes k).length = 1)) (hM' : M'.length = (t.modes k).length)
    (hx : x.shape = ba.toList ++ r :: (t.modes k ++ [s])) (hy : y.shape = bb.toList ++ r' :: (M' ++ [s'])) :
    einTerms (innerSpec true (modeLabels t) la lb lr) [x, y] = r * r' * t.modeSize k := by
  unfold TT.modeSize modeLabels
  rcases hM with ⟨hm, hM⟩ | ⟨hm, hM⟩
  · simp only [hm, if_true]
    generalize t.modes k = M at *
    match M, hM, M', hM' with
    | [n1, n2], _, [n1', n2'], _ =>
      rcases hl with ⟨rfl, rfl, rfl, rfl⟩ | ⟨rfl, rfl, rfl, rfl, rfl⟩
      · cases ba <;> cases bb <;> simp [einTerms, einContracted, einDims, hx, hy, List.eraseDupsBy_cons, bLabel, innerSpec] <;> ring
      · cases br <;> simp [einTerms, einContracted, einDims, hx, hy, List.eraseDupsBy_cons, bLabel, innerSpec] <;> ring
  · simp only [hm, if_false]
    generalize t.modes k = M at *
    match M, hM, M', hM' with
    | [n1], _, [n1'], _ =>
      rcases hl with ⟨rfl, rfl, rfl, rfl⟩ | ⟨rfl, rfl, rfl, rfl, rfl⟩
      · cases ba <;> cases bb <;> simp [einTerms, einContracted, einDims, hx, hy, List.eraseDupsBy_cons, bLabel, innerSpec] <;> ring
      · cases br <;> simp [einTerms, einContracted, einDims, hx, hy, List.eraseDupsBy_cons, bLabel, innerSpec] <;> ring

theorem einTerms_inner_next {w x y : Tensor ℝ} {ba bb br : Option ℕ} {la lb lr : List Char} (hl : InnerLabels ba bb br la lb lr) {t : TT ℝ}
    {R R' r s r' s' : ℕ} {k : ℕ} {M' : List ℕ} (hM : (t.isMatrix ∧ (t.modes k).length = 2) ∨ (¬ t.isMatrix ∧ (t.modes k).length = 1))
    (hM' : M'.length = (t.modes k).length) (hw : w.shape = br.toList ++ [R, R']) (hx : x.shape = ba.toList ++ r :: (t.modes k ++ [s]))
    (hy : y.shape = bb.toList ++ r' :: (M' ++ [s'])) :
    einTerms (innerSpec false (modeLabels t) la lb lr) [w, x, y] = R * R' * t.modeSize k := by
  unfold TT.modeSize modeLabels
  rcases hM with ⟨hm, hM⟩ | ⟨hm, hM⟩
  · simp only [hm, if_true]
    generalize t.modes k = M at *
    match M, hM, M', hM' with
    | [n1, n2], _, [n1', n2'], _ =>
      rcases hl with ⟨rfl, rfl, rfl, rfl⟩ | ⟨rfl, rfl, rfl, rfl, rfl⟩
      · cases ba <;> cases bb <;> simp [einTerms, einContracted, einDims, hw, hx, hy, List.eraseDupsBy_cons, bLabel, innerSpec] <;> ring
      · cases br <;> simp [einTerms, einContracted, einDims, hw, hx, hy, List.eraseDupsBy_cons, bLabel, innerSpec] <;> ring
  · simp only [hm, if_false]
    generalize t.modes k = M at *
    match M, hM, M', hM' with
    | [n1], _, [n1'], _ =>
      rcases hl with ⟨rfl, rfl, rfl, rfl⟩ | ⟨rfl, rfl, rfl, rfl, rfl⟩
      · cases ba <;> cases bb <;> simp [einTerms, einContracted, einDims, hw, hx, hy, List.eraseDupsBy_cons, bLabel, innerSpec] <;> ring
      · cases br <;> simp [einTerms, einContracted, einDims, hw, hx, hy, List.eraseDupsBy_cons, bLabel, innerSpec] <;> ring

theorem einsum_shape {spec : List (List Char) × List Char} {ops : List (Tensor ℝ)} {t : Tensor ℝ} (h : einsum spec ops = Except.ok t) :
    t.shape = spec.2.map (lookupLabel (einDims spec.1 ops)) := by
  classical
  rw [einsum_eq] at h
  by_cases hk : EinOk spec ops
  · rw [if_pos hk] at h
    rw [← Except.ok.inj h]
  · rw [if_neg hk] at h
    exact absurd h (by simp)

theorem inner_first_shape {x y t : Tensor ℝ} {ba bb br : Option ℕ} {la lb lr : List Char} (hl : InnerLabels ba bb br la lb lr) {b c : TT ℝ} (wb : b.WF)
    (wc : c.WF) (hm : b.isMatrix ↔ c.isMatrix) (hb : b.batch = ba) (hc : c.batch = bb) {k : ℕ} (hk : k < b.ndims) (hk' : k < c.ndims) (hx : x.shape = (b.core k).shape)
    (hy : y.shape = (c.core k).shape) (h : einsum (innerSpec true (modeLabels b) la lb lr) [x, y] = Except.ok t) :
    t.shape = br.toList ++ [b.rank (k + 1), c.rank (k + 1)] := by
  rw [einsum_shape h]
  unfold modeLabels
  by_cases hM : b.isMatrix
  · rw [wb.matrix_shape hM hk, hb] at hx
    rw [wc.matrix_shape (hm.1 hM) hk', hc] at hy
    simp only [hM, if_true]
    rcases hl with ⟨rfl, rfl, rfl, rfl⟩ | ⟨rfl, rfl, rfl, rfl, rfl⟩
    · cases ba <;> cases bb <;> simp [einDims, hx, hy, bLabel, innerSpec, lookupLabel, List.lookup]
    · cases br <;> simp [einDims, hx, hy, bLabel, innerSpec, lookupLabel, List.lookup]
  · rw [wb.tensor_shape hM hk, hb] at hx
    rw [wc.tensor_shape (mt hm.2 hM) hk', hc] at hy
    simp only [hM, if_false]
    rcases hl with ⟨rfl, rfl, rfl, rfl⟩ | ⟨rfl, rfl, rfl, rfl, rfl⟩
    · cases ba <;> cases bb <;> simp [einDims, hx, hy, bLabel, innerSpec, lookupLabel, List.lookup]
    · cases br <;> simp [einDims, hx, hy, bLabel, innerSpec, lookupLabel, List.lookup]

theorem inner_next_shape {w x y t : Tensor ℝ} {ba bb br : Option ℕ} {la lb lr : List Char} (hl : InnerLabels ba bb br la lb lr) {b c : TT ℝ} (wb : b.WF)
    (wc : c.WF) (hm : b.isMatrix ↔ c.isMatrix) (hb : b.batch = ba) (hc : c.batch = bb) {k R R' : ℕ} (hk : k < b.ndims) (hk' : k < c.ndims)
    (hw : w.shape = br.toList ++ [R, R']) (hx : x.shape = (b.core k).shape)
    (hy : y.shape = (c.core k).shape) (h : einsum (innerSpec false (modeLabels b) la lb lr) [w, x, y] = Except.ok t) :
    t.shape = br.toList ++ [b.rank (k + 1), c.rank (k + 1)] := by
  rw [einsum_shape h]
  unfold modeLabels
  by_cases hM : b.isMatrix
  · rw [wb.matrix_shape hM hk, hb] at hx
    rw [wc.matrix_shape (hm.1 hM) hk', hc] at hy
    simp only [hM, if_true]
    rcases hl with ⟨rfl, rfl, rfl, rfl⟩ | ⟨rfl, rfl, rfl, rfl, rfl⟩
    · cases ba <;> cases bb <;> simp [einDims, hw, hx, hy, bLabel, innerSpec, lookupLabel, List.lookup]
    · cases br <;> simp [einDims, hw, hx, hy, bLabel, innerSpec, lookupLabel, List.lookup]
  · rw [wb.tensor_shape hM hk, hb] at hx
    rw [wc.tensor_shape (mt hm.2 hM) hk', hc] at hy
    simp only [hM, if_false]
    rcases hl with ⟨rfl, rfl, rfl, rfl⟩ | ⟨rfl, rfl, rfl, rfl, rfl⟩
    · cases ba <;> cases bb <;> simp [einDims, hw, hx, hy, bLabel, innerSpec, lookupLabel, List.lookup]
    · cases br <;> simp [einDims, hw, hx, hy, bLabel, innerSpec, lookupLabel, List.lookup]

theorem Sync.and_mid {α β γ : Type} {P : α → β → γ → Prop} {x : R α} {y : R β} {z : R γ} (h : Sync P x y z) {Q : α → β → γ → Prop}
    (hQ : ∀ a b c, y = Except.ok b → P a b c → Q a b c) : Sync Q x y z := by
  rcases h with ⟨a, b, c, rfl, rfl, rfl, h⟩ | ⟨e, rfl, rfl, rfl⟩
  · exact ok (hQ _ _ _ rfl h)
  · exact error e

theorem TT.WF.modes_length {t : TT ℝ} (h : t.WF) (k : ℕ) : (t.isMatrix ∧ (t.modes k).length = 2) ∨ (¬ t.isMatrix ∧ (t.modes k).length = 1) := by
  unfold TT.modes TT.isMatrix
  rw [List.length_map]
  rcases h.rows with h | h <;> rw [h] <;> simp

theorem innerRounds_succ (m m' r s n : ℕ → ℕ) {k : ℕ} (hk : 1 ≤ k) :
    innerRounds m m' r s n (k + 1) = innerRounds m m' r s n k + m k + m' k + (r k * s k * n k + 1) := by
  unfold innerRounds
  simp only [Finset.sum_range_succ]
  omega

theorem sync_innerLoop (hF : F.Follows A) (h : TTri (fun k => Approx A.u (m k)) a b c) (h' : TTri (fun k => Approx A.u (m' k)) a' b' c') (wa : a.WF)
    (wa' : a'.WF) (hm : a.isMatrix ↔ a'.isMatrix) {br : Option ℕ} {la lb lr : List Char} (hl : InnerLabels a.batch a'.batch br la lb lr)
    {n : ℕ} (hn : 1 ≤ n) :
    Sync (Tri (Approx A.u (innerRounds m m' a.rank a'.rank a.modeSize n))) (innerLoopF F a a' n (modeLabels a) la lb lr)
      (innerLoop b b' n (modeLabels a) la lb lr) (innerLoop c c' n (modeLabels a) la lb lr) := by
  have hlen : ∀ k, (a'.modes k).length = (a.modes k).length := by
    intro k
    rcases wa.modes_length k with ⟨h1, h2⟩ | ⟨h1, h2⟩ <;> rcases wa'.modes_length k with ⟨h3, h4⟩ | ⟨h3, h4⟩
    · omega
    · exact absurd (hm.1 h1) h3
    · exact absurd (hm.2 h3) h1
    · omega
  have lab : modeLabels b = modeLabels a := by unfold modeLabels; simp only [h.isMatrix.1]
  have wb := h.wf₂ wa
  have wb' := h'.wf₂ wa'
  have hm' : b.isMatrix ↔ b'.isMatrix := by rw [h.isMatrix.1, h'.isMatrix.1]; exact hm
  have rb : ∀ k, b.rank k = a.rank k := fun k => by unfold TT.rank; rw [h.ranks₂]
  have rb' : ∀ k, b'.rank k = a'.rank k := fun k => by unfold TT.rank; rw [h'.ranks₂]
  unfold innerLoopF innerLoop
  refine Sync.bind_eq (h.cores.pyGet 0) fun x y z ex ey _ hx => Sync.bind_eq (h'.cores.pyGet 0) fun x' y' z' ex' ey' _ hx' => ?_
  obtain ⟨rfl, hk⟩ := pyGet_core ex
  obtain ⟨rfl, hk'⟩ := pyGet_core ex'
  have e1 := hF.sync_einsum (ms := [m 0, m' 0]) (as := [a.core 0, a'.core 0]) (bs := [y, y']) (cs := [z, z']) ⟨hx, hx', trivial⟩
    (innerSpec true (modeLabels a) la lb lr)
  rw [einTerms_inner_first hl (wa.modes_length 0) (hlen 0) (wa.core_shape 0 hk) (wa'.core_shape 0 hk')] at e1
  refine Sync.bind (P := fun x y z => Tri (Approx A.u (innerRounds m m' a.rank a'.rank a.modeSize 1)) x y z ∧ y.shape = br.toList ++ [a.rank 1, a'.rank 1])
    (e1.and_mid fun x1 y1 z1 hy1 hP => ⟨?_, ?_⟩) fun x y z hx => ?_
  · convert hP using 2
    simp [innerRounds]
  · rw [← lab] at hy1
    rw [inner_first_shape hl wb wb' hm' h.batch₂ h'.batch₂ (h.ndims.1 ▸ hk) (h'.ndims.1 ▸ hk') (hx.shape₂.trans (h.core_shape₂ 0).symm)
      (hx'.shape₂.trans (h'.core_shape₂ 0).symm) hy1, rb, rb']
  · have := Sync.forRange (P := fun k x y z => Tri (Approx A.u (innerRounds m m' a.rank a'.rank a.modeSize k)) x y z ∧
        y.shape = br.toList ++ [a.rank k, a'.rank k]) (f := fun k res => do
          let ac ← pyGet a.cores k
          let bc ← pyGet a'.cores k
          F.einsum (innerSpec false (modeLabels a) la lb lr) [res, ac, bc]) (g := fun k res => do
          let ac ← pyGet b.cores k
          let bc ← pyGet b'.cores k
          einsum (innerSpec false (modeLabels a) la lb lr) [res, ac, bc]) (h := fun k res => do
          let ac ← pyGet c.cores k
          let bc ← pyGet c'.cores k
          einsum (innerSpec false (modeLabels a) la lb lr) [res, ac, bc]) 1 (n - 1) (fun k w v u' h1 h2 hw => ?_) hx
    · rw [show 1 + (n - 1) = n by omega] at this
      exact this.mono fun _ _ _ h => h.1
    · refine Sync.bind_eq (h.cores.pyGet k) fun x y z ex ey _ hx => Sync.bind_eq (h'.cores.pyGet k) fun x' y' z' ex' ey' _ hx' => ?_
      obtain ⟨rfl, hk⟩ := pyGet_core ex
      obtain ⟨rfl, hk'⟩ := pyGet_core ex'
      have e1 := hF.sync_einsum (ms := [innerRounds m m' a.rank a'.rank a.modeSize k, m k, m' k]) (as := [w, a.core k, a'.core k]) (bs := [v, y, y'])
        (cs := [u', z, z']) ⟨hw.1, hx, hx', trivial⟩ (innerSpec false (modeLabels a) la lb lr)
      rw [einTerms_inner_next hl (wa.modes_length k) (hlen k) (hw.1.shape₂ ▸ hw.2) (wa.core_shape k hk) (wa'.core_shape k hk')] at e1
      refine e1.and_mid fun x1 y1 z1 hy1 hP => ⟨?_, ?_⟩
      · rw [innerRounds_succ _ _ _ _ _ h1]
        convert hP using 2
        simp
        ring
      · rw [← lab] at hy1
        rw [inner_next_shape hl wb wb' hm' h.batch₂ h'.batch₂ (h.ndims.1 ▸ hk) (h'.ndims.1 ▸ hk') hw.2 (hx.shape₂.trans (h.core_shape₂ k).symm)
          (hx'.shape₂.trans (h'.core_shape₂ k).symm) hy1, rb, rb']

theorem sync_flatInner (hF : F.Follows A) (h : TTri (fun k => Approx A.u (m k)) a b c) (h' : TTri (fun k => Approx A.u (m' k)) a' b' c') (wa : a.WF)
    (wa' : a'.WF) :
    Sync (Tri (Approx A.u (innerRounds m m' a.rank a'.rank a.modeSize a.ndims))) (flatInnerF F a a') (flatInner b b') (flatInner c c') := by
  have lab : modeLabels b = modeLabels a ∧ modeLabels c = modeLabels a := by unfold modeLabels; simp only [h.isMatrix.1, h.isMatrix.2, and_self]
  unfold flatInnerF flatInner
  simp only [h.isMatrix.1, h.isMatrix.2, h'.isMatrix.1, h'.isMatrix.2, (h.broadcasting h').1, (h.broadcasting h').2, h.ndims.1, h.ndims.2, h'.ndims.1,
    h'.ndims.2, lab.1, lab.2]
  by_cases hm : a.isMatrix ↔ a'.isMatrix
  swap
  · rw [require_neg hm]; exact Sync.error _
  rw [require_pos hm]
  refine Sync.bind (Sync.same (Except.ok ())) fun _ _ _ _ => Sync.bind_same _ fun _ _ => Sync.bind_same _ fun _ _ =>
    Sync.bind_eq h.squeezeBatchDim fun x y z ex _ _ hx => Sync.bind_eq h'.squeezeBatchDim fun x' y' z' ex' _ _ hx' => ?_
  obtain ⟨T, eT, wT, rT, kT, -⟩ := squeezeBatchDim_spec wa
  obtain ⟨T', eT', wT', rT', kT', -⟩ := squeezeBatchDim_spec wa'
  obtain rfl := Except.ok.inj (ex.symm.trans eT)
  obtain rfl := Except.ok.inj (ex'.symm.trans eT')
  simp only [hx.batch₂, hx.batch₃, hx'.batch₂, hx'.batch₃]
  have e1 : a.rank = x.rank := by unfold TT.rank; rw [kT]
  have e2 : a'.rank = x'.rank := by unfold TT.rank; rw [kT']
  have e3 : a.modeSize = x.modeSize := by unfold TT.modeSize TT.modes; rw [rT]
  have e4 : modeLabels a = modeLabels x := by
    have : x.isMatrix ↔ a.isMatrix := by unfold TT.isMatrix; rw [rT]
    unfold modeLabels
    simp only [this]
  rw [e1, e2, e3, e4]
  have e5 : bLabel 'o' (resBatch x.batch x'.batch) = bLabel 'o' (if x.batch.isSome then x.batch else x'.batch) := by
    cases x.batch <;> cases x'.batch <;> rfl
  rw [e5]
  refine Sync.bind (sync_innerLoop hF hx hx' wT wT' (by unfold TT.isMatrix at hm ⊢; rw [rT, rT']; exact hm) (Or.inl ⟨rfl, rfl, rfl, rfl⟩) wa.pos)
    fun x y z hx => Sync.ok hx.squeezeAll

theorem sync_normSquared (hF : F.Follows A) (h : TTri (fun k => Approx A.u (m k)) a b c) (wa : a.WF) :
    Sync (Tri (Approx A.u (innerRounds m m a.rank a.rank a.modeSize a.ndims))) (frobeniusNormSquaredDiffF F a) (frobeniusNormSquaredDiff b)
      (frobeniusNormSquaredDiff c) := by
  have lab : modeLabels b = modeLabels a ∧ modeLabels c = modeLabels a := by unfold modeLabels; simp only [h.isMatrix.1, h.isMatrix.2, and_self]
  unfold frobeniusNormSquaredDiffF frobeniusNormSquaredDiff
  simp only [h.ndims.1, h.ndims.2, lab.1, lab.2, h.batch₂, h.batch₃]
  refine Sync.bind (sync_innerLoop hF h h wa wa Iff.rfl (Or.inr ⟨rfl, rfl, rfl, rfl, rfl⟩) wa.pos) fun x y z hx => ?_
  simp only [hx.shape₂, hx.shape₃]
  refine Sync.bind (hx.squeezeAxis _) fun x y z hx => ?_
  simp only [hx.shape₂, hx.shape₃]
  exact hx.squeezeAxis _

/-! ## Signs -/

theorem Approx.neg {u : ℝ} {k : ℕ} {x y z : ℝ} (h : Approx u k x y z) : Approx u k (-x) (-y) z := by
  refine ⟨?_, ?_⟩
  · have := h.err
    rwa [← abs_neg, show -(-x - -y) = x - y by ring]
  · have := h.bound
    rwa [abs_neg]

theorem sync_neg (h : TTri (fun k => Approx A.u (m k)) a b c) (wa : a.WF) : Sync (TTri fun k => Approx A.u (m k)) (neg a) (neg b) (pure c) := by
  have wc := h.wf₃ wa
  rw [show (pure c : R (TT ℝ)) = mkLike c.batch c.cores c.rawShape c.ttRanks from (mkLike_self wc).symm]
  unfold neg multiplyScalar
  have hp := wa.pos
  have hp' := (h.wf₂ wa).pos
  have hp'' := wc.pos
  simp only [abs_neg, abs_one, Real.one_rpow]
  have get : ∀ t : TT ℝ, (ht : 0 < t.ndims) → pyGet (t.cores.map (smul 1)) 0 = Except.ok ((t.cores.map (smul 1))[0]'(by rw [List.length_map]; exact ht)) := by
    intro t ht
    unfold pyGet
    rw [List.getElem?_eq_getElem (by rw [List.length_map]; exact ht)]
  rw [get a hp, get b hp']
  rw [h.batch₂, h.batch₃, h.raw₂, h.raw₃, h.ranks₂, h.ranks₃]
  refine sync_mkLike (ρ := fun k => Approx A.u (m k)) ⟨by simpa using h.cores.len₂, by simpa using h.cores.len₃, fun k x y z h1 h2 h3 => ?_⟩ _ _ _
  have key : ∀ (t : TT ℝ) (ht : 0 < (t.cores.map (smul 1)).length) (v : Tensor ℝ), ((t.cores.map (smul 1)).set 0 ((t.cores.map (smul 1))[0].map
      (· * ((SignType.sign (-1 : ℝ) : SignType) : ℝ))))[k]? = some v → ∃ w, t.cores[k]? = some w ∧ v.shape = w.shape ∧
        ∀ i, v.get i = if k = 0 then - w.get i else w.get i := by
    intro t ht v hv
    rw [List.getElem?_set] at hv
    split_ifs at hv with h1
    · subst h1
      have := Option.some.inj hv
      refine ⟨t.cores[0]'(by simpa using ht), List.getElem?_eq_getElem _, by rw [← this]; simp [Tensor.map, smul], fun i => ?_⟩
      rw [← this]
      simp [Tensor.map, smul]
    · rw [List.getElem?_map] at hv
      obtain ⟨w, hw, rfl⟩ := Option.map_eq_some_iff.1 hv
      exact ⟨w, hw, rfl, fun i => by simp [smul, Tensor.map, Ne.symm h1]⟩
  obtain ⟨x', hx', sx, gx⟩ := key a _ x h1
  obtain ⟨y', hy', sy, gy⟩ := key b _ y h2
  have := h.cores.item k x' y' z hx' hy' h3
  refine ⟨by rw [sx, sy]; exact this.shape₂, by rw [sx]; exact this.shape₃, fun i hi => ?_⟩
  have hi' := this.item i (sx ▸ hi)
  rw [gx, gy]
  split_ifs
  · exact hi'.neg
  · exact hi'

/-- Products with a number; in the third run with a larger one. -/
theorem sync_smul (hF : F.Follows A) (h : TTri (fun k => Approx A.u (m k)) a b c) {x y : ℝ} (hxy : |x| ≤ y) :
    Sync (TTri fun k => Approx A.u (m k + F.rootRounds + 1)) (multiplyScalarF F a x) (multiplyScalar b x) (multiplyScalar c y) := by
  have hy : 0 ≤ y := (abs_nonneg x).trans hxy
  unfold multiplyScalarF multiplyScalar
  simp only [h.ndims.1, h.ndims.2, h.batch₂, h.batch₃, h.raw₂, h.raw₃, h.ranks₂, h.ranks₃]
  set n := a.ndims
  have hroot : Approx A.u F.rootRounds (F.root x n) (|x| ^ (1 / (n : ℝ))) (|y| ^ (1 / (n : ℝ))) := by
    have hle : |x| ^ (1 / (n : ℝ)) ≤ |y| ^ (1 / (n : ℝ)) :=
      Real.rpow_le_rpow (abs_nonneg x) (by rwa [abs_of_nonneg hy]) (by positivity)
    refine ⟨(hF.root x n).trans ?_, by rwa [abs_of_nonneg (by positivity)]⟩
    exact mul_le_mul_of_nonneg_left hle (sub_nonneg.2 (Approx.one_le A.nonneg _))
  have scale : ∀ {k : ℕ} {p q r : ℝ}, Approx A.u k p q r →
      Approx A.u (k + F.rootRounds + 1) (F.mul (F.root x n) p) (|x| ^ (1 / (n : ℝ)) * q) (|y| ^ (1 / (n : ℝ)) * r) := fun {k p q r} hp => by
    have := (hroot.mul A.nonneg hp).round A.nonneg (hF.mul _ _)
    rwa [show F.rootRounds + k + 1 = k + F.rootRounds + 1 by omega] at this
  have sgn : ∀ {k : ℕ} {p q r : ℝ}, Approx A.u k p q r →
      Approx A.u k (p * ((SignType.sign x : SignType) : ℝ)) (q * ((SignType.sign x : SignType) : ℝ)) (r * ((SignType.sign y : SignType) : ℝ)) := by
    intro k p q r hp
    rcases hy.eq_or_lt with rfl | hy
    · obtain rfl : x = 0 := by simpa using hxy
      simpa using Approx.zero A.u k
    · rw [sign_pos hy]
      rcases lt_trichotomy x 0 with hx | rfl | hx
      · rw [sign_neg hx]
        simpa using hp.neg
      · simp only [sign_zero, SignType.coe_zero, mul_zero, SignType.coe_one, mul_one]
        exact ⟨by simpa using mul_nonneg (sub_nonneg.2 (Approx.one_le A.nonneg _)) hp.nonneg, by simpa using hp.nonneg⟩
      · rw [sign_pos hx]
        simpa using hp
  have he : Each (fun k => Tri (Approx A.u (m k + F.rootRounds + 1))) (a.cores.map fun t => t.map (F.mul (F.root x n))) (b.cores.map (smul (|x| ^ (1 / (n : ℝ)))))
      (c.cores.map (smul (|y| ^ (1 / (n : ℝ))))) := by
    refine ⟨by simpa using h.cores.len₂, by simpa using h.cores.len₃, fun k p q r h1 h2 h3 => ?_⟩
    rw [List.getElem?_map] at h1 h2 h3
    obtain ⟨p', hp', rfl⟩ := Option.map_eq_some_iff.1 h1
    obtain ⟨q', hq', rfl⟩ := Option.map_eq_some_iff.1 h2
    obtain ⟨r', hr', rfl⟩ := Option.map_eq_some_iff.1 h3
    have := h.cores.item k p' q' r' hp' hq' hr'
    exact ⟨this.shape₂, this.shape₃, fun i hi => scale (this.item i hi)⟩
  refine Sync.bind (he.pyGet 0) fun p q r hp => sync_mkLike (ρ := fun k => Approx A.u (m k + F.rootRounds + 1)) ?_ _ _ _
  refine ⟨by simpa using h.cores.len₂, by simpa using h.cores.len₃, fun k p' q' r' h1 h2 h3 => ?_⟩
  rw [List.getElem?_set] at h1 h2 h3
  by_cases e : 0 = k
  · subst e
    simp only [if_true] at h1 h2 h3
    split_ifs at h1 h2 h3
    cases h1; cases h2; cases h3
    exact ⟨hp.shape₂, hp.shape₃, fun i hi => sgn (hp.item i hi)⟩
  · simp only [e, if_false] at h1 h2 h3
    exact he.item k _ _ _ h1 h2 h3

theorem sync_pick (h : TTri ρ a b c) (k : ℤ) : Sync (TTri ρ) (Expr.pickItem k a) (Expr.pickItem k b) (Expr.pickItem k c) := by
  unfold Expr.pickItem
  rw [h.isBatch.1, h.isBatch.2]
  split_ifs
  · exact h.batchDimGetItem _
  · unfold ttGetItem
    simp only [h.ndims.1, h.ndims.2]
    refine Sync.bind_same _ fun _ hr => ?_
    have h1 : a.ndims = 1 := by
      by_contra hne
      rw [require_neg (by simpa using Ne.symm hne)] at hr
      exact absurd hr (by simp)
    rw [h1]
    have step : Sync (fun x y z => (x.1 = [] ∧ y.1 = [] ∧ z.1 = [] ∧ (∃ r, x.2 = some r) ∧ (∃ r, y.2 = some r) ∧ ∃ r, z.2 = some r) ∨
        (x.2 = none ∧ y.2 = none ∧ z.2 = none ∧ Each (fun k => Tri (ρ k)) x.1 y.1 z.1))
        (ttGetItemStep a [.int k] 0 ([], none)) (ttGetItemStep b [.int k] 0 ([], none)) (ttGetItemStep c [.int k] 0 ([], none)) := by
      unfold ttGetItemStep
      refine Sync.bind (h.cores.pyGet 0) fun x y z hx => ?_
      simp only [h.isMatrix.1, h.isMatrix.2]
      split_ifs
      · exact Sync.error _
      refine Sync.bind_same _ fun ix hix => Sync.bind (hx.getItem _) fun x' y' z' hx' => ?_
      rw [hx.shape₂, hx.shape₃, hx'.shape₂, hx'.shape₃]
      split_ifs
      · exact Sync.ok (Or.inl ⟨rfl, rfl, rfl, ⟨_, rfl⟩, ⟨_, rfl⟩, _, rfl⟩)
      · exact Sync.ok (Or.inr ⟨rfl, rfl, rfl, Each.nil.append hx'⟩)
    refine Sync.bind (show Sync _ (forRange _ 0 1 _) (forRange _ 0 1 _) (forRange _ 0 1 _) from Sync.bind step fun x y z h => Sync.ok h) fun x y z hx => ?_
    obtain ⟨x1, x2⟩ := x
    obtain ⟨y1, y2⟩ := y
    obtain ⟨z1, z2⟩ := z
    rcases hx with ⟨rfl, rfl, rfl, ⟨r, rfl⟩, ⟨r', rfl⟩, r'', rfl⟩ | ⟨rfl, rfl, rfl, he⟩
    · exact Sync.error _
    · exact sync_mkTT he _ _

/-! ## Programs -/

/-- The second program is the first one with larger objects and without signs. -/
def Expr.Maj : Expr → Expr → Prop
  | .obj t, .obj s => TTri (fun _ x y z => x = y ∧ |y| ≤ z) t t s
  | .add a b, .add c d => a.Maj c ∧ b.Maj d
  | .sub a b, .add c d => a.Maj c ∧ b.Maj d
  | .neg a, c => a.Maj c
  | .mul a b, .mul c d => a.Maj c ∧ b.Maj d
  | .smul x a, .smul y c => |x| ≤ y ∧ a.Maj c
  | .matmul a b, .matmul c d => a.Maj c ∧ b.Maj d
  | .transpose a, .transpose c => a.Maj c
  | .expand a, .expand c => a.Maj c
  | .squeeze a, .squeeze c => a.Maj c
  | .pick k a, .pick l c => k = l ∧ a.Maj c
  | _, _ => False

/-- Running a program in floating point arithmetic, exactly, and on larger objects. -/
theorem sync_maj {qr : QRRoutine} (hqr : qr.Correct) (hF : F.Follows A) (e : Expr) (he : e.Ok) (g : Expr) (hp : e.Maj g) :
    Sync (TTri fun k => Approx A.u (e.rounds F.rootRounds k)) (e.runF F) (e.run qr) (g.run qr) := by
  have wf : ∀ (e : Expr) (s b' c' : TT ℝ) (ρ : ℕ → ℝ → ℝ → ℝ → Prop), e.Ok → e.run qr = Except.ok b' → TTri ρ s b' c' → s.WF ∧
      ∃ τ, e.ty = some τ ∧ s.rawShape = τ.raw := by
    intro e s b' c' ρ ho hr ht
    have := Expr.rep hqr e ho
    cases hty : e.ty with
    | none => rw [hty] at this; obtain ⟨err, h⟩ := this; rw [h] at hr; exact absurd hr (by simp)
    | some τ =>
      rw [hty] at this
      obtain ⟨t, h1, h2⟩ := this
      obtain rfl := Except.ok.inj (h1.symm.trans hr)
      exact ⟨ht.wf₁ h2.wf, τ, rfl, by rw [← ht.raw₂, h2.raw]⟩
  have zero : ∀ k n : ℕ, Approx A.u n 0 0 0 := fun _ n => Approx.zero A.u n
  induction e generalizing g with
  | obj t =>
    cases g with
    | obj s =>
      refine Sync.ok (TTri.mono hp fun k x y z h => ?_)
      obtain ⟨rfl, h⟩ := h
      exact ⟨by simp [Expr.rounds], h⟩
    | _ => exact hp.elim
  | add a b iha ihb =>
    cases g with
    | add c d =>
      refine Sync.bind (iha he.1 _ hp.1) fun x y z h => Sync.bind (ihb he.2 _ hp.2) fun x' y' z' h' => ?_
      exact TTri.add (fun k => zero k _) (h.mono fun k _ _ _ hx => hx.mono A.nonneg (le_max_left _ _))
        (h'.mono fun k _ _ _ hx => hx.mono A.nonneg (le_max_right _ _))
    | _ => exact hp.elim
  | sub a b iha ihb =>
    cases g with
    | add c d =>
      refine Sync.bind (iha he.1 _ hp.1) fun x y z h => Sync.bind_eq (ihb he.2 _ hp.2) fun x' y' z' ex ey ez h' => ?_
      have hw := (wf b x' y' z' _ he.2 ey h').1
      have hn := sync_neg h' hw
      rw [show T3f.add z z' = (pure z' >>= fun w => T3f.add z w) from rfl]
      refine Sync.bind hn fun x' y' z' h' => ?_
      exact TTri.add (fun k => zero k _) (h.mono fun k _ _ _ hx => hx.mono A.nonneg (le_max_left _ _))
        (h'.mono fun k _ _ _ hx => hx.mono A.nonneg (le_max_right _ _))
    | _ => exact hp.elim
  | neg a iha =>
    have := Sync.bind_eq (Q := TTri fun k => Approx A.u (a.rounds F.rootRounds k)) (f := T3f.neg) (g := T3f.neg) (k := pure) (iha he g (by simpa [Expr.Maj] using hp))
      fun x y z ex ey ez h => sync_neg h (wf a x y z _ he ey h).1
    rw [bind_pure] at this
    exact this
  | mul a b iha ihb =>
    cases g with
    | mul c d => exact Sync.bind (iha he.1 _ hp.1) fun x y z h => Sync.bind (ihb he.2 _ hp.2) fun x' y' z' h' => sync_multiply hF h h'
    | _ => exact hp.elim
  | smul x a iha =>
    cases g with
    | smul y c => exact Sync.bind (iha he _ hp.2) fun _ _ _ h => sync_smul hF h hp.1
    | _ => exact hp.elim
  | matmul a b iha ihb =>
    cases g with
    | matmul c d =>
      refine Sync.bind_eq (iha he.1 _ hp.1) fun x y z ex ey ez h => Sync.bind_eq (ihb he.2 _ hp.2) fun x' y' z' ex' ey' ez' h' => ?_
      obtain ⟨w1, τ, e1, e2⟩ := wf a x y z _ he.1 ey h
      have := sync_ttTTMatmul hF h h' w1 (wf b x' y' z' _ he.2 ey' h').1
      rw [e2] at this
      simpa [Expr.rounds, e1] using this
    | _ => exact hp.elim
  | transpose a iha =>
    cases g with
    | transpose c => exact Sync.bind (iha he _ hp) fun x y z h => h.ttTranspose
    | _ => exact hp.elim
  | orthogonalize lr a iha => cases g <;> exact hp.elim
  | renormalize eps a iha => cases g <;> exact hp.elim
  | expand a iha =>
    cases g with
    | expand c => exact Sync.bind (iha he _ hp) fun x y z h => h.expandBatchDim
    | _ => exact hp.elim
  | squeeze a iha =>
    cases g with
    | squeeze c => exact Sync.bind (iha he _ hp) fun x y z h => h.squeezeBatchDim
    | _ => exact hp.elim
  | pick k a iha =>
    cases g with
    | pick l c =>
      obtain ⟨rfl, hp⟩ := hp
      exact Sync.bind (iha he _ hp) fun x y z h => sync_pick h k
    | _ => exact hp.elim

theorem Expr.maj_absolute (e : Expr) (hp : e.Plain) : e.Maj e.absolute := by
  induction e with
  | obj t =>
    refine ⟨rfl, rfl, rfl, rfl, rfl, rfl, ⟨rfl, by simp [TT.abs], fun k x y z h1 h2 h3 => ?_⟩⟩
    obtain rfl := Option.some.inj (h1.symm.trans h2)
    simp only [TT.abs, List.getElem?_map, h1, Option.map_some, Option.some.injEq] at h3
    subst h3
    exact ⟨rfl, rfl, fun i _ => ⟨rfl, le_rfl⟩⟩
  | add a b iha ihb => exact ⟨iha hp.1, ihb hp.2⟩
  | sub a b iha ihb => exact ⟨iha hp.1, ihb hp.2⟩
  | neg a iha => simpa [Expr.Maj, Expr.absolute] using iha hp
  | mul a b iha ihb => exact ⟨iha hp.1, ihb hp.2⟩
  | smul c a iha => exact ⟨le_rfl, iha hp⟩
  | matmul a b iha ihb => exact ⟨iha hp.1, ihb hp.2⟩
  | transpose a iha => exact iha hp
  | orthogonalize lr a iha => exact hp.elim
  | renormalize eps a iha => exact hp.elim
  | expand a iha => exact iha hp
  | squeeze a iha => exact iha hp
  | pick k a iha => exact ⟨rfl, iha hp⟩

/-- Running a program in floating point arithmetic, exactly, and on absolute values. -/
theorem sync_expr {qr : QRRoutine} (hqr : qr.Correct) (hF : F.Follows A) (e : Expr) (he : e.Ok) (hp : e.Plain) :
    Sync (TTri fun k => Approx A.u (e.rounds F.rootRounds k)) (e.runF F) (e.run qr) (e.absolute.run qr) :=
  sync_maj hqr hF e he _ (e.maj_absolute hp)

/-- Without signs the program on absolute values is the one on larger objects as well. -/
theorem Expr.maj_nonneg (e : Expr) (hp : e.Nonneg) : e.absolute.Maj e := by
  induction e with
  | obj t =>
    refine ⟨rfl, rfl, rfl, rfl, rfl, rfl, ⟨rfl, by simp [TT.abs], fun k x y z h1 h2 h3 => ?_⟩⟩
    obtain rfl := Option.some.inj (h1.symm.trans h2)
    simp only [TT.abs, List.getElem?_map, h3, Option.map_some, Option.some.injEq] at h1
    subst h1
    refine ⟨rfl, rfl, fun i hi => ⟨rfl, ?_⟩⟩
    have := hp z (List.mem_of_getElem? h3) i hi
    simp [Tensor.map, abs_of_nonneg this]
  | add a b iha ihb => exact ⟨iha hp.1, ihb hp.2⟩
  | sub a b iha ihb => exact hp.elim
  | neg a iha => exact hp.elim
  | mul a b iha ihb => exact ⟨iha hp.1, ihb hp.2⟩
  | smul c a iha => exact ⟨by rw [abs_abs, abs_of_nonneg hp.1], iha hp.2⟩
  | matmul a b iha ihb => exact ⟨iha hp.1, ihb hp.2⟩
  | transpose a iha => exact iha hp
  | orthogonalize lr a iha => exact hp.elim
  | renormalize eps a iha => exact hp.elim
  | expand a iha => exact iha hp
  | squeeze a iha => exact iha hp
  | pick k a iha => exact ⟨rfl, iha hp⟩

end

end T3f
