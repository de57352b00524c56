import Verif.Proofs.DescribedBatch

/-! # Initializers return described objects, except for matrices with one mode -/

namespace T3f

theorem mapM_length {α β : Type} {f : α → R β} : ∀ {l : List α} {r : List β}, l.mapM f = Except.ok r → r.length = l.length
  | [], r, h => by
    rw [List.mapM_nil] at h
    cases h
    rfl
  | x :: l, r, h => by
    rw [List.mapM_cons] at h
    simp only [bind_ok_iff] at h
    obtain ⟨y, -, ys, hys, h⟩ := h
    cases h
    rw [List.length_cons, mapM_length hys, List.length_cons]

theorem fillCores_axes {g : ℕ → List ℕ → Tensor ℝ} (hg : ∀ i s, (g i s).shape = s) {pre : List ℕ} {rows : List (List ℕ)} {rk : List ℕ} {d : ℕ}
    {cores : List (Tensor ℝ)} (h : fillCores g pre rows rk d = Except.ok cores) :
    cores.length = d ∧ (0 < d → (cores.getD 0 default).shape.length = pre.length + rows.length + 2) := by
  obtain ⟨hl, hc⟩ := mapRange_core h
  refine ⟨hl, fun hd => ?_⟩
  have h0 := hc 0 hd
  simp only [bind_ok_iff] at h0
  obtain ⟨r, -, ms, hms, r', -, h0⟩ := h0
  have h0 := Except.ok.inj h0
  rw [← h0, hg]
  simp [mapM_length hms]
  omega

theorem validateRank_len {d : ℕ} {rank : RankArg} {rk : List ℤ} (h : validateRank d (some rank) = Except.ok ()) (he : expandRank d rank = Except.ok rk) :
    rk.length = d + 1 := by
  cases rank with
  | num r =>
    simp only [expandRank] at he
    split_ifs at he
    cases he
    simp
    omega
  | list l =>
    simp only [validateRank, bind_ok_iff] at h
    obtain ⟨_, -, _, -, h⟩ := h
    cases he
    exact require_inv h

theorem cleanFlat {sh : List ℕ} {r : Option (List (List ℕ))} (h : cleanRawShape (.flat sh) = Except.ok r) : cleanRawShape (.shapes [sh]) = Except.ok r := by
  match sh, h with
  | [], h => cases h
  | [_], h => cases h
  | a :: b :: l, h => exact h

theorem cleanNested {a b : List ℕ} (ha : a.length ≠ 1) {r : Option (List (List ℕ))} (h : cleanRawShape (.nested [a, b]) = Except.ok r) :
    cleanRawShape (.shapes [a, b]) = Except.ok r := by
  simp only [cleanRawShape, if_neg ha] at h
  split_ifs at h with h1 h2
  · cases h2
  · exact h

theorem mkTT_clean {cores : List (Tensor ℝ)} {s s' : ShapeArg} {rk : Option (List ℕ)} (hs : ∀ r, cleanRawShape s = Except.ok r → cleanRawShape s' = Except.ok r)
    {u : TT ℝ} (h : mkTT cores s rk = Except.ok u) : mkTT cores s' rk = Except.ok u := by
  simp only [mkTT, bind_ok_iff] at h ⊢
  obtain ⟨r, hr, h⟩ := h
  exact ⟨r, hs r hr, h⟩

theorem mkBatch_clean {cores : List (Tensor ℝ)} {s s' : ShapeArg} {rk : Option (List ℕ)} {bs : Option ℕ}
    (hs : ∀ r, cleanRawShape s = Except.ok r → cleanRawShape s' = Except.ok r)
    {u : TT ℝ} (h : mkBatch cores s rk bs = Except.ok u) : mkBatch cores s' rk bs = Except.ok u := by
  simp only [mkBatch, bind_ok_iff] at h ⊢
  obtain ⟨r, hr, h⟩ := h
  exact ⟨r, hs r hr, h⟩

theorem mkTT_nil (s : ShapeArg) (rk : Option (List ℕ)) (u : TT ℝ) : mkTT [] s rk ≠ Except.ok u := by
  intro h
  simp only [mkTT, bind_ok_iff] at h
  obtain ⟨r, -, b, hb, -⟩ := h
  cases hb

theorem mkBatch_nil (s : ShapeArg) (rk : Option (List ℕ)) (bs : Option ℕ) (u : TT ℝ) : mkBatch [] s rk bs ≠ Except.ok u := by
  intro h
  simp only [mkBatch, bind_ok_iff] at h
  obtain ⟨r, -, b, hb, -⟩ := h
  cases hb

theorem fill_desc {g : ℕ → List ℕ → Tensor ℝ} (hg : ∀ i s, (g i s).shape = s) {rows : List (List ℕ)} (hr : rows.length = 1 ∨ rows.length = 2) {rk : List ℕ} {d : ℕ}
    (hrow : ∀ row ∈ rows, row.length = d) (hrk : rk.length = d + 1) {s : ShapeArg} (hs : ∀ r, cleanRawShape s = Except.ok r → cleanRawShape (.shapes rows) = Except.ok r)
    {cores : List (Tensor ℝ)} (h : fillCores g [] rows rk d = Except.ok cores) : Desc (mkTT cores s (some rk)) := by
  intro u e
  obtain ⟨hl, hx⟩ := fillCores_axes hg h
  have hd : 0 < d := by
    rcases Nat.eq_zero_or_pos d with rfl | hd
    · rw [List.length_eq_zero_iff.1 hl] at e
      exact absurd e (mkTT_nil _ _ _)
    · exact hd
  refine mkTT_desc hr (by rw [hl]; exact hrow) (fun r h => by cases h; rw [hl, hrk]) ?_ u (mkTT_clean hs e)
  rw [hx hd, List.length_nil]
  omega

theorem fillBatch_desc {g : ℕ → List ℕ → Tensor ℝ} (hg : ∀ i s, (g i s).shape = s) {rows : List (List ℕ)} (hr : rows.length = 1 ∨ rows.length = 2) {rk : List ℕ} {d n : ℕ}
    (hrow : ∀ row ∈ rows, row.length = d) (hrk : rk.length = d + 1) {s : ShapeArg} (hs : ∀ r, cleanRawShape s = Except.ok r → cleanRawShape (.shapes rows) = Except.ok r)
    {cores : List (Tensor ℝ)} (h : fillCores g [n] rows rk d = Except.ok cores) : Desc (mkBatch cores s (some rk) (some n)) := by
  intro u e
  obtain ⟨hl, hx⟩ := fillCores_axes hg h
  have hd : 0 < d := by
    rcases Nat.eq_zero_or_pos d with rfl | hd
    · rw [List.length_eq_zero_iff.1 hl] at e
      exact absurd e (mkBatch_nil _ _ _ _)
    · exact hd
  refine mkBatch_desc hr (by rw [hl]; exact hrow) (fun r h => by cases h; rw [hl, hrk]) ?_ u (mkBatch_clean hs e)
  rw [hx hd, List.length_singleton]
  omega

theorem tensorConst_desc {g : List ℕ → Tensor ℝ} (hg : ∀ s, (g s).shape = s) (shape : List ℤ) : Desc (tensorConst g shape) := by
  intro u e
  simp only [tensorConst, bind_ok_iff] at e
  obtain ⟨_, -, cores, hc, e⟩ := e
  exact fill_desc (fun _ => hg) (Or.inl rfl) (by simp) (by simp) (fun r => cleanFlat) hc u e

theorem fillShape_ne {a b : Option (List ℤ)} (h : notOneMode a b) {p : List ℤ × List ℤ} (e : fillShape a b = Except.ok p) : p.1.length ≠ 1 := by
  cases a <;> cases b <;> simp only [fillShape] at e <;> cases e
  · simpa using h.2 _ rfl
  · exact h.1 _ rfl
  · exact h.1 _ rfl

theorem matrix_rows {a b : List ℤ} (h : a.length = b.length) (row : List ℕ) (hr : row ∈ [a.map Int.toNat, b.map Int.toNat]) : row.length = a.length := by
  simp only [List.mem_cons, List.not_mem_nil, or_false] at hr
  rcases hr with rfl | rfl <;> simp [h]

theorem matrixConst_desc {g : List ℕ → Tensor ℝ} (hg : ∀ s, (g s).shape = s) {a b : Option (List ℤ)} (h : notOneMode a b) : Desc (matrixConst g a b) := by
  intro u e
  simp only [matrixConst, bind_ok_iff] at e
  obtain ⟨⟨a', b'⟩, hf, _, hv, cores, hc, e⟩ := e
  have hn := fillShape_ne h hf
  simp only [validateMatrix, bind_ok_iff] at hv
  obtain ⟨_, hab, -⟩ := hv
  exact fill_desc (fun _ => hg) (Or.inr rfl) (matrix_rows (require_inv hab)) (by simp) (fun r => cleanNested (by simpa using hn)) hc u e

theorem eye_desc {shape : List ℤ} (h : shape.length ≠ 1) : Desc (eye (K := ℝ) shape) := by
  intro u e
  simp only [eye, bind_ok_iff] at e
  obtain ⟨_, -, cores, hc, e⟩ := e
  obtain ⟨hl, hg⟩ := mapRange_core hc
  rw [List.length_map] at hl
  rcases Nat.eq_zero_or_pos shape.length with hd | hd
  · rw [List.length_eq_zero_iff.1 (hl.trans hd)] at e
    exact absurd e (mkTT_nil _ _ _)
  · refine mkTT_desc (rows := [shape.map Int.toNat, shape.map Int.toNat]) (Or.inr rfl) (by simp [hl]) (fun r h => by cases h; simp [hl]) ?_ u
      (mkTT_clean (fun r => cleanNested (by simpa using h)) e)
    have h0 := hg 0 (by simpa using hd)
    simp only [bind_ok_iff] at h0
    obtain ⟨n, -, h0⟩ := h0
    rw [reshape_axes h0]
    rfl

theorem constLike_desc {g : List ℕ → Tensor ℝ} (hg : ∀ s, (g s).shape = s) {t : TT ℝ} (h : t.Described) (h1 : t.isMatrix → t.ndims ≠ 1) : Desc (constLike g t) := by
  intro u e
  simp only [constLike, bind_ok_iff] at e
  obtain ⟨row, hrow, e⟩ := e
  by_cases hM : t.isMatrix
  · simp only [if_pos hM, bind_ok_iff] at e
    obtain ⟨row', hrow', e⟩ := e
    have key : ∀ k r, pyGet t.rawShape k = Except.ok r → (r.map Int.ofNat).length ≠ 1 := fun k r hr => by
      rw [List.length_map, h.rowLen r (row_mem hr)]
      exact h1 hM
    refine matrixConst_desc hg ⟨fun l hl => ?_, fun l hl => ?_⟩ u e
    · cases hl; exact key 0 row hrow
    · cases hl; exact key 1 row' hrow'
  · rw [if_neg hM] at e
    exact tensorConst_desc hg _ u e

section Random

variable (z : ℕ → List ℕ → ℝ)

theorem tensorRandom_desc (shape : List ℤ) (rank : RankArg) (m s : ℝ) : Desc (tensorWithRandomCores z shape rank m s) := by
  intro u e
  simp only [tensorWithRandomCores, bind_ok_iff, validateTensor, validateRest] at e
  obtain ⟨_, ⟨_, -, _, -, hv⟩, rk, hr, cores, hc, e⟩ := e
  exact fill_desc (fun _ _ => rfl) (Or.inl rfl) (by simp) (by simp [validateRank_len hv hr]) (fun r => cleanFlat) hc u e

theorem tensorBatchRandom_desc (shape : List ℤ) (rank : RankArg) (bs : ℤ) (m s : ℝ) : Desc (tensorBatchWithRandomCores z shape rank bs m s) := by
  intro u e
  simp only [tensorBatchWithRandomCores, bind_ok_iff, validateTensor, validateRest] at e
  obtain ⟨_, ⟨_, -, _, -, hv⟩, rk, hr, cores, hc, e⟩ := e
  exact fillBatch_desc (fun _ _ => rfl) (Or.inl rfl) (by simp) (by simp [validateRank_len hv hr]) (fun r => cleanFlat) hc u e

theorem matrixRandom_desc {a b : Option (List ℤ)} (h : notOneMode a b) (rank : RankArg) (m s : ℝ) : Desc (matrixWithRandomCores z a b rank m s) := by
  intro u e
  simp only [matrixWithRandomCores, bind_ok_iff, validateMatrix, validateRest] at e
  obtain ⟨⟨a', b'⟩, hf, _, ⟨_, hab, _, -, _, -, hv⟩, rk, hr, cores, hc, e⟩ := e
  have hn := fillShape_ne h hf
  exact fill_desc (fun _ _ => rfl) (Or.inr rfl) (matrix_rows (require_inv hab)) (by simp [validateRank_len hv hr])
    (fun r => cleanNested (by simpa using hn)) hc u e

theorem matrixBatchRandom_desc {a b : Option (List ℤ)} (h : notOneMode a b) (rank : RankArg) (bs : ℤ) (m s : ℝ) :
    Desc (matrixBatchWithRandomCores z a b rank bs m s) := by
  intro u e
  simp only [matrixBatchWithRandomCores, bind_ok_iff, validateMatrix, validateRest] at e
  obtain ⟨⟨a', b'⟩, hf, _, ⟨_, hab, _, -, _, -, hv⟩, rk, hr, cores, hc, e⟩ := e
  have hn := fillShape_ne h hf
  exact fillBatch_desc (fun _ _ => rfl) (Or.inr rfl) (matrix_rows (require_inv hab)) (by simp [validateRank_len hv hr])
    (fun r => cleanNested (by simpa using hn)) hc u e

theorem checkMean_inv {α : Type} {m : ℝ} {t u : α} (h : checkMean m t = Except.ok u) : t = u := by
  unfold checkMean at h
  split_ifs at h
  exact Except.ok.inj h

theorem randomTensor_desc (shape : List ℤ) (rank : RankArg) (m s : ℝ) : Desc (randomTensor z shape rank m s) := by
  intro u e
  simp only [randomTensor, bind_ok_iff] at e
  obtain ⟨_, -, rk, -, t, ht, e⟩ := e
  exact tensorRandom_desc z _ _ _ _ u (checkMean_inv e ▸ ht)

theorem randomTensorBatch_desc (shape : List ℤ) (rank : RankArg) (bs : ℤ) (m s : ℝ) : Desc (randomTensorBatch z shape rank bs m s) := by
  intro u e
  simp only [randomTensorBatch, bind_ok_iff] at e
  obtain ⟨_, -, rk, -, t, ht, e⟩ := e
  exact tensorBatchRandom_desc z _ _ _ _ _ u (checkMean_inv e ▸ ht)

theorem filled_ne {a b : Option (List ℤ)} (h : notOneMode a b) {p : List ℤ × List ℤ} (e : fillShape a b = Except.ok p) (hab : p.1.length = p.2.length) :
    notOneMode (some p.1) (some p.2) := by
  have := fillShape_ne h e
  refine ⟨fun l hl => ?_, fun l hl => ?_⟩ <;> cases hl
  · exact this
  · rw [← hab]; exact this

theorem randomMatrix_desc {a b : Option (List ℤ)} (h : notOneMode a b) (rank : RankArg) (m s : ℝ) : Desc (randomMatrix z a b rank m s) := by
  intro u e
  simp only [randomMatrix, bind_ok_iff, validateMatrix] at e
  obtain ⟨⟨a', b'⟩, hf, _, ⟨_, hab, -⟩, rk, -, t, ht, e⟩ := e
  exact matrixRandom_desc z (filled_ne h hf (require_inv hab)) _ _ _ u (checkMean_inv e ▸ ht)

theorem randomMatrixBatch_desc {a b : Option (List ℤ)} (h : notOneMode a b) (rank : RankArg) (bs : ℤ) (m s : ℝ) : Desc (randomMatrixBatch z a b rank bs m s) := by
  intro u e
  simp only [randomMatrixBatch, bind_ok_iff, validateMatrix] at e
  obtain ⟨⟨a', b'⟩, hf, _, ⟨_, hab, -⟩, rk, -, t, ht, e⟩ := e
  exact matrixBatchRandom_desc z (filled_ne h hf (require_inv hab)) _ _ _ _ u (checkMean_inv e ▸ ht)

theorem nnInitializer_desc (f : ℤ → ℤ → ℝ) {a b : Option (List ℤ)} (h : notOneMode a b) (rank : RankArg) : Desc (nnInitializer f z a b rank) := by
  intro u e
  simp only [nnInitializer, bind_ok_iff, validateMatrix] at e
  obtain ⟨⟨a', b'⟩, hf, _, ⟨_, hab, -⟩, e⟩ := e
  exact randomMatrix_desc z (filled_ne h hf (require_inv hab)) _ _ _ u e

end Random

end T3f
