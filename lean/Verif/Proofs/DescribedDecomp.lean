import Verif.Proofs.DescribedInit
import Verif.Proofs.GatherRank

/-! # Orthogonalization, rounding and the conversion of dense tensors return described objects -/

namespace T3f

variable {t : TT ℝ} (qr : QRRoutine) (svd : SVDRoutine)

/-- The result has the shape and the batch size of the argument. -/
def Like (t : TT ℝ) (x : R (TT ℝ)) : Prop := Post (fun u => u.Described ∧ u.rawShape = t.rawShape ∧ u.ndims = t.ndims ∧ u.batch = t.batch) x

theorem set_axes {cores : List (Tensor ℝ)} {k d : ℕ} (hd : 0 < d) (hl : cores.length = d) (x : Tensor ℝ) (n : ℕ) (h0 : 0 < k → (cores.getD 0 default).shape.length = n)
    (hx : k = 0 → x.shape.length = n) : ((cores.set k x).getD 0 default).shape.length = n := by
  rcases Nat.eq_zero_or_pos k with rfl | hk
  · rw [getD_set_self _ _ _ _ (by omega)]
    exact hx rfl
  · rw [getD_set_ne _ _ _ (by omega)]
    exact h0 hk

/-- The constructor call at the end of the sweeps. -/
theorem sweep_like (h : t.Described) {cores : List (Tensor ℝ)} (hl : cores.length = t.ndims) (h0 : (cores.getD 0 default).shape.length = t.batch.toList.length + t.rawShape.length + 2)
    {rk : Option (List ℕ)} (hrk : ∀ r ∈ rk, r.length = t.ndims + 1) :
    Like t (match t.batch with
      | some n => mkBatch cores (.shapes t.rawShape) rk (some n)
      | none => mkTT cores (.shapes t.rawShape) rk) := by
  intro u e
  have hrow : ∀ row ∈ t.rawShape, row.length = cores.length := fun row hr => by rw [hl, h.rowLen row hr]
  rw [← hl] at hrk
  cases hbt : t.batch with
  | none =>
    rw [hbt] at e h0
    obtain ⟨h1, h2, h3, h4⟩ := mkTT_described h.rows hrow hrk (by rw [h0]; simp) u e
    exact ⟨h1, h3, by rw [TT.ndims, h2, hl], h4⟩
  | some n =>
    rw [hbt] at e h0
    obtain ⟨h1, h2, h3, h4⟩ := mkBatch_described h.rows hrow hrk (by rw [h0, Option.toList_some, List.length_singleton]; omega) (Or.inl rfl) u e
    exact ⟨h1, h3, by rw [TT.ndims, h2, hl], h4⟩

theorem orthoLR_like (h : t.Described) : Like t (orthoLR qr t) := by
  intro u e
  simp only [orthoLR, bind_ok_iff] at e
  obtain ⟨r0, -, ⟨cores, nr⟩, hf, last, -, last', hl, e⟩ := e
  have hd := h.pos
  have inv := forRange_returns (P := fun k (s : List (Tensor ℝ) × ℕ) => s.1.length = t.ndims ∧
    (0 < k → (s.1.getD 0 default).shape.length = t.batch.toList.length + t.rawShape.length + 2)) (fun k s s' _ hk hs he => ?_) ⟨rfl, fun h => absurd h (lt_irrefl 0)⟩ hf
  · have hll := congrArg List.length (reshape_some_shape hl)
    simp only [List.length_append, List.length_cons, List.length_nil, coreModes, List.length_map] at hll
    refine sweep_like h (by rw [List.length_set]; exact inv.1) (set_axes hd inv.1 _ _ (fun h => inv.2 (by omega)) fun h0 => ?_) (by simp) u e
    omega
  · simp only [orthoLRStep, bind_ok_iff] at he
    obtain ⟨core, -, _, -, _, -, ⟨q, tri⟩, -, rows, -, cols, -, new, hnew, next, -, next', -, next'', -, he⟩ := he
    have he := Except.ok.inj he
    rw [← he]
    have hll := congrArg List.length (reshape_some_shape hnew)
    simp only [List.length_append, List.length_cons, List.length_nil, coreModes, List.length_map] at hll
    refine ⟨by simpa using hs.1, fun _ => ?_⟩
    refine set_axes hd (by simpa using hs.1) _ _ (fun _ => set_axes hd hs.1 _ _ hs.2 fun _ => ?_) (fun h => absurd h (by omega))
    omega

theorem orthoRL_like (h : t.Described) (hb : t.batch = none) : Like t (orthoRL qr t) := by
  intro u e
  simp only [orthoRL, bind_ok_iff] at e
  obtain ⟨r0, -, ⟨cores, nr⟩, hf, first, -, first', hl, e⟩ := e
  have hd := h.pos
  have inv := forRange_returns (P := fun _ (s : List (Tensor ℝ) × ℕ) => s.1.length = t.ndims) (fun k s s' _ hk hs he => ?_) rfl hf
  · have hll := congrArg List.length (reshape_some_shape hl)
    simp only [List.length_append, List.length_cons, List.length_nil, coreModes, List.length_map] at hll
    refine sweep_like h (rk := none) (cores := cores.set 0 first') (by rw [List.length_set]; exact inv)
      (set_axes hd inv _ _ (fun h => absurd h (lt_irrefl 0)) fun h0 => ?_) (by simp) u (by rw [hb]; exact e)
    rw [hb, Option.toList_none, List.length_nil]
    omega
  · simp only [orthoRLStep, bind_ok_iff] at he
    obtain ⟨_, -, _, -, _, -, _, -, ⟨q, tri⟩, -, _, -, _, -, _, -, _, -, _, -, _, -, _, -, _, -, he⟩ := he
    have he := Except.ok.inj he
    rw [← he]
    simpa using hs

theorem orthogonalize_like (h : t.Described) (l : Bool) : Like t (orthogonalize qr t l) := by
  intro u e
  unfold orthogonalize at e
  split_ifs at e with h1 h2
  · exact orthoLR_like qr h u e
  · refine orthoRL_like qr h ?_ u e
    unfold TT.isBatch at h2
    cases hb : t.batch with
    | none => rfl
    | some n => simp [hb] at h2

theorem roundWith_like (h : t.Described) (bounds : List ℕ) : Like t (roundWith qr svd t bounds) := by
  intro u e
  simp only [roundWith, bind_ok_iff] at e
  obtain ⟨o, ho, ⟨cores, ranks⟩, hf, r0, -, r1, -, first, -, first', hl, e⟩ := e
  have hd := h.pos
  have ho' := (orthogonalize_like qr h true o ho).2.2.1
  have hd0 : ((o.cores, List.replicate (t.ndims + 1) 1) : List (Tensor ℝ) × List ℕ).1.length = t.ndims := ho'
  have inv := forRange_returns (P := fun _ (s : List (Tensor ℝ) × List ℕ) => s.1.length = t.ndims ∧ s.2.length = t.ndims + 1) (fun k s s' _ hk hs he => ?_)
    ⟨hd0, by simp⟩ hf
  · have hll := congrArg List.length (reshape_some_shape hl)
    simp only [List.length_append, List.length_cons, List.length_nil, coreModes, List.length_map] at hll
    refine sweep_like h (rk := some ranks) (cores := cores.set 0 first') (by rw [List.length_set]; exact inv.1)
      (set_axes hd inv.1 _ _ (fun h => absurd h (lt_irrefl 0)) fun h0 => ?_) (fun r hr => by cases hr; exact inv.2) u e
    omega
  · simp only [roundStep, bind_ok_iff] at he
    obtain ⟨_, -, _, -, _, -, _, -, _, -, ⟨sv, us, v⟩, -, _, -, _, -, _, -, _, -, _, -, _, -, _, -, _, -, _, -, _, -, he⟩ := he
    have he := Except.ok.inj he
    rw [← he]
    simpa using hs

theorem ttRound_like (h : t.Described) (m : MaxRank) (eps : Option ℝ) : Like t (ttRound qr svd t m eps) := by
  intro u e
  unfold ttRound at e
  by_cases hB : t.isBatch = true
  all_goals
    simp only [hB, if_true, if_false, Bool.false_eq_true, bind_ok_iff] at e
    obtain ⟨b, -, e⟩ := e
    exact roundWith_like qr svd h b u e

theorem toTTTensor_described (x : Tensor ℝ) (m : MaxRank) (eps : Option ℝ) :
    Post (fun u => u.Described ∧ u.ndims = x.shape.length) (toTTTensor svd x m eps) := by
  intro u e
  simp only [toTTTensor, bind_ok_iff] at e
  obtain ⟨b, -, ⟨rest, ranks, cores⟩, hf, lm, hlm, r, -, rd, -, last, hl, e⟩ := e
  have hpos : 0 < x.shape.length := by
    have := (pyGet_getD hlm 0).2
    simpa using this
  have inv := forRange_returns (P := fun k (s : Tensor ℝ × List ℕ × List (Tensor ℝ)) => s.2.1.length = x.shape.length + 1 ∧ s.2.2.length = k ∧
    (0 < k → (s.2.2.getD 0 default).shape.length = 3)) (fun k s s' _ hk hs he => ?_) ?_ hf
  · have hll := reshape_axes hl
    obtain ⟨i1, i2, i3⟩ := inv
    simp only [Nat.zero_add] at i1 i2 i3
    have hcl : (cores ++ [last]).length = x.shape.length := by
      rw [List.length_append, List.length_singleton, i2]
      omega
    have hx : ((cores ++ [last]).getD 0 default).shape.length = 3 := by
      cases hc : cores with
      | nil => exact hll
      | cons c cs =>
        rw [hc] at i3 i2
        exact i3 (by rw [← i2]; simp)
    obtain ⟨h1, h2, -⟩ := mkTT_described (rows := [x.shape]) (Or.inl rfl) (by simpa using hcl.symm) (fun r hr => by cases hr; rw [hcl, i1]) hx u
      (mkTT_clean (fun r => cleanFlat) e)
    exact ⟨h1, by rw [TT.ndims, h2, hcl]⟩
  · simp only [toTTStep, bind_ok_iff] at he
    obtain ⟨_, -, _, -, _, -, _, -, ⟨sv, us, v⟩, -, _, -, _, -, _, -, _, -, core, hcore, _, -, _, -, _, -, he⟩ := he
    have he := Except.ok.inj he
    rw [← he]
    obtain ⟨i1, i2, i3⟩ := hs
    refine ⟨by simpa using i1, by simpa using i2, fun _ => ?_⟩
    cases hc : s.2.2 with
    | nil => simpa using! reshape_axes hcore
    | cons c cs =>
      have := i3 (by rw [← i2, hc]; simp)
      rw [hc] at this
      exact this
  · exact ⟨List.length_replicate, rfl, fun h => absurd h (lt_irrefl 0)⟩

theorem toTTMatrix_desc (x : Tensor ℝ) (a b : Option (List ℕ)) (m : MaxRank) (eps : Option ℝ) : Desc (toTTMatrix svd x a b m eps) := by
  intro u e
  simp only [toTTMatrix, bind_ok_iff] at e
  obtain ⟨⟨a', b'⟩, -, _, hab, x1, -, x2, -, x3, hx3, tt, htt, cores, hc, e⟩ := e
  have hab : a'.length = b'.length := require_inv hab
  obtain ⟨h1, h2⟩ := toTTTensor_described svd x3 m eps tt htt
  have hx3 := congrArg List.length (reshape_some_shape hx3)
  simp only [List.length_zipWith, ← hab, min_self] at hx3
  obtain ⟨hl, hg⟩ := mapRange_core hc
  dsimp only at hl hg
  have hd : 0 < tt.ndims := h1.pos
  refine mkTT_desc (rows := [a', b']) (Or.inr rfl) (by simp [hl, hab]) (fun r hr => by cases hr; rw [h1.ranksLen, hl]; omega) ?_ u e
  have h0 := hg 0 (by omega)
  simp only [bind_ok_iff] at h0
  obtain ⟨_, -, _, -, _, -, _, -, _, -, h0⟩ := h0
  rw [reshape_axes h0]
  rfl

end T3f
