import Verif.Proofs.WF

/-!
# The constructors accept consistent cores
-/

namespace T3f

variable {K : Type}

theorem andR_true_iff (a b : R Bool) : andR a b = Except.ok true ↔ a = Except.ok true ∧ b = Except.ok true := by
  unfold andR
  rcases a with e | v
  · simp
  · cases v <;> simp

theorem eqR_ok {α : Type} [DecidableEq α] (x y : α) :
    eqR (Except.ok x : R α) (Except.ok y) = Except.ok (decide (x = y)) := rfl

theorem allRange_true_iff (f : ℕ → R Bool) (a n : ℕ) :
    allRange f a n = Except.ok true ↔ ∀ i, a ≤ i → i < a + n → f i = Except.ok true := by
  induction n generalizing a with
  | zero => simp [allRange]; omega
  | succ n ih =>
    rw [allRange, andR_true_iff, ih]
    constructor
    · rintro ⟨h1, h2⟩ i hi hi'
      rcases Nat.eq_or_lt_of_le hi with h | h
      · subst h; exact h1
      · exact h2 i h (by omega)
    · intro h
      exact ⟨h a le_rfl (by omega), fun i hi hi' => h i (by omega) (by omega)⟩

/-- Raw shape rows described by a function. -/
def rowsOf (M : ℕ → List ℕ) (d nm : ℕ) : List (List ℕ) :=
  (List.range nm).map fun j => (List.range d).map fun k => (M k).getD j 0

/-- Rank list described by a function. -/
def ranksOf (r : ℕ → ℕ) (d : ℕ) : List ℕ := (List.range (d + 1)).map r

/-- A consistent list of cores with ranks `r`, mode sizes `M` and `nm` mode axes. -/
structure Chain [Zero K] (bs : Option ℕ) (cores : List (Tensor K)) (r : ℕ → ℕ) (M : ℕ → List ℕ)
    (nm : ℕ) : Prop where
  pos : 0 < cores.length
  r0 : r 0 = 1
  rd : r cores.length = 1
  rpos : ∀ k ≤ cores.length, 0 < r k
  nm12 : nm = 1 ∨ nm = 2
  Mlen : ∀ k < cores.length, (M k).length = nm
  shape : ∀ k < cores.length,
    (cores.getD k default).shape = bs.toList ++ r k :: (M k ++ [r (k + 1)])
  bpos : bs ≠ some 0

theorem getD_range_map {α : Type} (f : ℕ → α) (n k : ℕ) (d : α) (h : k < n) :
    ((List.range n).map f).getD k d = f k := by
  rw [List.getD_eq_getElem _ _ (by simpa using h)]; simp

theorem list_eq_range_map {α : Type} (l : List α) (d : α) :
    l = (List.range l.length).map fun k => l.getD k d := by
  apply List.ext_getElem
  · simp
  · intro i h1 h2
    simp [h1]

theorem rowsOf_map_getD (M : ℕ → List ℕ) (d nm k : ℕ) (hk : k < d) (hl : (M k).length = nm) :
    (rowsOf M d nm).map (·.getD k 0) = M k := by
  rw [rowsOf, List.map_map]
  conv_rhs => rw [list_eq_range_map (M k) 0, hl]
  apply List.map_congr_left
  intro j _
  simp only [Function.comp]
  rw [getD_range_map _ _ _ _ hk]

/-- `o` is the number of leading (batch) axes. -/
def boff (bs : Option ℕ) : ℕ := bs.toList.length

section
variable [Zero K] {bs : Option ℕ} {cores : List (Tensor K)} {r : ℕ → ℕ} {M : ℕ → List ℕ} {nm : ℕ}

theorem Chain.pyShape (h : Chain bs cores r M nm) {k : ℕ} (hk : k < cores.length) :
    pyGet (cores.map (·.shape)) k = Except.ok (bs.toList ++ r k :: (M k ++ [r (k + 1)])) := by
  rw [← h.shape k hk, pyGet_of_lt _ _ (default : Tensor K).shape (by simpa using hk), List.getD_map]

theorem Chain.coreCheck_true (h : Chain bs cores r M nm) (bs' : Option ℕ)
    (hbs' : bs' = none ∨ bs' = bs)
    (sh : Option (List (List ℕ))) (hsh : sh = none ∨ sh = some (rowsOf M cores.length nm))
    (rk : Option (List ℕ)) (hrk : rk = none ∨ rk = some (ranksOf r cores.length))
    (i : ℕ) (hi : i < cores.length) :
    coreCheck (boff bs) bs' (cores.map (·.shape)) sh rk i = Except.ok true := by
  have hp0 := h.pyShape h.pos
  have hpi := h.pyShape hi
  have hcur0 : pyGet (bs.toList ++ r i :: (M i ++ [r (i + 1)])) (boff bs) = Except.ok (r i) := by
    rw [pyGet_of_lt _ _ 0 (by simp [boff]), List.getD_append_right _ _ _ _ (by simp [boff])]
    simp [boff]
  have hlast : ∀ k, pyLast (bs.toList ++ r k :: (M k ++ [r (k + 1)])) = Except.ok (r (k + 1)) := by
    intro k
    have : bs.toList ++ r k :: (M k ++ [r (k + 1)]) = (bs.toList ++ r k :: M k) ++ [r (k + 1)] := by simp
    rw [this, pyLast, List.getLast?_concat]
  unfold coreCheck
  simp only [hpi, hp0, R.ok_bind, andR_true_iff]
  refine ⟨?_, ?_, ?_, ?_, ?_⟩
  · simp [h.Mlen i hi, h.Mlen 0 h.pos]
  · rcases hbs' with rfl | rfl
    · rfl
    · cases bs' with
      | none => rfl
      | some n => simp [pyGet, eqR_ok]
  · rcases hsh with rfl | rfl
    · rfl
    · simp only
      rw [allRange_true_iff]
      intro j _ hj
      have hj' : j < nm := by simpa [rowsOf] using hj
      have e1 : pyGet (bs.toList ++ r i :: (M i ++ [r (i + 1)])) (j + 1 + boff bs) =
          Except.ok ((M i).getD j 0) := by
        have hl := h.Mlen i hi
        rw [pyGet_of_lt _ _ 0 (by simp [boff, hl]; omega),
          List.getD_append_right _ _ _ _ (by simp [boff])]
        rw [show j + 1 + boff bs - bs.toList.length = j + 1 by simp [boff], List.getD_cons_succ,
          List.getD_append _ _ _ _ (by omega)]
      have e2 : pyGet (rowsOf M cores.length nm) j =
          Except.ok ((List.range cores.length).map fun k => (M k).getD j 0) := by
        rw [pyGet_of_lt _ _ [] (by simpa [rowsOf] using hj'), rowsOf, getD_range_map _ _ _ _ hj']
      rw [e1, e2, R.ok_bind, pyGet_of_lt _ _ 0 (by simpa using hi), getD_range_map _ _ _ _ hi, eqR_ok]
      simp
  · split
    · rename_i h1
      rw [hcur0, h.pyShape (k := i - 1) (by omega), R.ok_bind, hlast, eqR_ok,
        show i - 1 + 1 = i by omega]
      simp
    · rfl
  · rcases hrk with rfl | rfl
    · rfl
    · simp only
      rw [andR_true_iff, hcur0, hlast]
      unfold ranksOf
      rw [pyGet_of_lt _ _ 0 (by simp; omega), pyGet_of_lt _ _ 0 (by simp; omega),
        getD_range_map _ _ _ _ (by omega), getD_range_map _ _ _ _ (by omega)]
      simp [eqR_ok]

theorem Chain.coresValid_true (h : Chain bs cores r M nm) (bs' : Option ℕ)
    (hbs' : bs' = none ∨ bs' = bs)
    (sh : Option (List (List ℕ))) (hsh : sh = none ∨ sh = some (rowsOf M cores.length nm))
    (rk : Option (List ℕ)) (hrk : rk = none ∨ rk = some (ranksOf r cores.length)) :
    coresValid (boff bs) bs' (cores.map (·.shape)) sh rk = Except.ok true := by
  unfold coresValid
  rw [andR_true_iff, andR_true_iff, allRange_true_iff]
  have hp0 := h.pyShape h.pos
  refine ⟨fun i _ hi => h.coreCheck_true bs' hbs' sh hsh rk hrk i (by simpa using hi), ?_, ?_⟩
  · rw [hp0, R.ok_bind, pyGet_of_lt _ _ 0 (by simp [boff]),
      List.getD_append_right _ _ _ _ (by simp [boff]), R.pure_eq, eqR_ok]
    simp [boff, h.r0]
  · have hl : pyLast (cores.map (·.shape)) = pyGet (cores.map (·.shape)) (cores.length - 1) := by
      unfold pyLast pyGet
      rw [List.getLast?_eq_getElem?, List.length_map]
      cases (cores.map (·.shape))[cores.length - 1]? <;> rfl
    have hpos := h.pos
    rw [hl, h.pyShape (k := cores.length - 1) (by omega), R.ok_bind]
    have : bs.toList ++ r (cores.length - 1) :: (M (cores.length - 1) ++ [r (cores.length - 1 + 1)]) =
      (bs.toList ++ r (cores.length - 1) :: M (cores.length - 1)) ++ [r (cores.length - 1 + 1)] := by simp
    rw [this, pyLast, List.getLast?_concat]
    simp only [R.pure_eq, eqR_ok]
    rw [show cores.length - 1 + 1 = cores.length by omega, h.rd]
    rfl

theorem Chain.infer_rows (h : Chain bs cores r M nm) :
    inferRawShape (boff bs) (cores.map (·.shape)) = rowsOf M cores.length nm := by
  have h0 : ((cores.map (·.shape)).headD []).length - (2 + boff bs) = nm := by
    have hp := h.shape 0 h.pos
    have : (cores.map (·.shape)).headD [] = (cores.getD 0 default).shape := by
      have := h.pos
      cases cores with
      | nil => simp at this
      | cons a l => rfl
    rw [this, hp]
    simp [boff, h.Mlen 0 h.pos]; omega
  rw [inferRawShape, h0, rowsOf]
  apply List.map_congr_left
  intro j hj
  have hj' : j < nm := by simpa using hj
  conv_lhs => rw [list_eq_range_map (cores.map (·.shape)) (default : Tensor K).shape]
  rw [List.map_map, List.length_map]
  apply List.map_congr_left
  intro k hk
  have hk' : k < cores.length := by simpa using hk
  have hl := h.Mlen k hk'
  rw [Function.comp, List.getD_map, h.shape k hk', List.getD_append_right _ _ _ _ (by simp [boff])]
  rw [show j + 1 + boff bs - bs.toList.length = j + 1 by simp [boff], List.getD_cons_succ,
    List.getD_append _ _ _ _ (by omega)]

theorem Chain.infer_ranks (h : Chain bs cores r M nm) :
    inferTTRanks (boff bs) (cores.map (·.shape)) = ranksOf r cores.length := by
  unfold inferTTRanks ranksOf
  rw [List.range_succ, List.map_append]
  congr 1
  · conv_lhs => rw [list_eq_range_map (cores.map (·.shape)) (default : Tensor K).shape]
    rw [List.map_map, List.length_map]
    apply List.map_congr_left
    intro k hk
    have hk' : k < cores.length := by simpa using hk
    rw [Function.comp, List.getD_map, h.shape k hk', List.getD_append_right _ _ _ _ (by simp [boff])]
    simp [boff]
  · have hpos := h.pos
    have e : (cores.map (·.shape)).getLastD [] = (cores.getD (cores.length - 1) default).shape := by
      rw [List.getLastD_eq_getLast?, List.getLast?_eq_getElem?]
      rw [List.getD_eq_getElem _ _ (by omega)]
      rw [List.length_map, List.getElem?_map, List.getElem?_eq_getElem (by omega)]
      rfl
    rw [e, h.shape _ (by omega)]
    have : bs.toList ++ r (cores.length - 1) :: (M (cores.length - 1) ++ [r (cores.length - 1 + 1)]) =
      (bs.toList ++ r (cores.length - 1) :: M (cores.length - 1)) ++ [r (cores.length - 1 + 1)] := by simp
    rw [this, List.getLastD_concat, show cores.length - 1 + 1 = cores.length by omega]
    simp

/-- The object described by a chain. -/
def chainTT (bs : Option ℕ) (cores : List (Tensor K)) (r : ℕ → ℕ) (M : ℕ → List ℕ) (nm : ℕ) : TT K :=
  ⟨cores, rowsOf M cores.length nm, ranksOf r cores.length, bs⟩

omit [Zero K] in
theorem chainTT_rank (k : ℕ) (hk : k ≤ cores.length) : (chainTT bs cores r M nm).rank k = r k := by
  unfold chainTT TT.rank ranksOf
  exact getD_range_map _ _ _ _ (by omega)

theorem Chain.modes_eq (h : Chain bs cores r M nm) (k : ℕ) (hk : k < cores.length) :
    (chainTT bs cores r M nm).modes k = M k :=
  rowsOf_map_getD _ _ _ _ hk (h.Mlen k hk)

theorem Chain.wf (h : Chain bs cores r M nm) : (chainTT bs cores r M nm).WF where
  pos := h.pos
  ranks_len := by simp [chainTT, ranksOf, TT.ndims]
  rank_first := by rw [chainTT_rank 0 (by omega), h.r0]
  rank_last := by rw [TT.ndims]; exact (chainTT_rank _ le_rfl).trans h.rd
  rank_pos := fun k hk => by
    have hk' : k ≤ cores.length := hk
    rw [chainTT_rank k hk']; exact h.rpos k hk'
  rows := by simpa [chainTT, rowsOf] using h.nm12
  rows_len := by
    intro row hrow
    simp only [chainTT, rowsOf, List.mem_map, List.mem_range] at hrow
    obtain ⟨j, _, rfl⟩ := hrow
    simp [TT.ndims, chainTT]
  core_shape := by
    intro k hk
    have hk' : k < cores.length := hk
    rw [chainTT_rank k hk'.le, chainTT_rank (k + 1) hk', h.modes_eq k hk']
    exact h.shape k hk'
  batch_pos := h.bpos

end

theorem Chain.clean [Zero K] {bs : Option ℕ} {cores : List (Tensor K)} {r : ℕ → ℕ} {M : ℕ → List ℕ} {nm : ℕ}
    (h : Chain bs cores r M nm) {rows : List (List ℕ)} (hr : rows = rowsOf M cores.length nm) :
    cleanRawShape (.shapes rows) = Except.ok (some (rowsOf M cores.length nm)) := by
  subst hr
  cases hrow : rowsOf M cores.length nm with
  | nil =>
    have hl : (rowsOf M cores.length nm).length = nm := by simp [rowsOf]
    rw [hrow] at hl
    have := h.nm12
    simp only [List.length_nil] at hl
    omega
  | cons a l => rfl

theorem mkTT_ok [Zero K] {cores : List (Tensor K)} {r : ℕ → ℕ} {M : ℕ → List ℕ} {nm : ℕ}
    (h : Chain none cores r M nm) (sh : ShapeArg)
    (hsh : cleanRawShape sh = Except.ok none ∨ cleanRawShape sh = Except.ok (some (rowsOf M cores.length nm)))
    (rk : Option (List ℕ)) (hrk : rk = none ∨ rk = some (ranksOf r cores.length)) :
    mkTT cores sh rk = Except.ok (chainTT none cores r M nm) := by
  unfold mkTT
  have hinf := h.infer_rows
  have hinr := h.infer_ranks
  have hr : rk.getD (inferTTRanks 0 (cores.map (·.shape))) = ranksOf r cores.length := by
    rcases hrk with rfl | rfl
    · exact hinr
    · rfl
  rcases hsh with e | e
  · have hv := h.coresValid_true none (Or.inl rfl) none (Or.inl rfl) rk hrk
    have hv' : coresValid 0 none (cores.map (·.shape)) none rk = Except.ok true := hv
    have hinf' : inferRawShape 0 (cores.map (·.shape)) = _ := hinf
    simp only [e, R.ok_bind, hv', if_true, R.pure_eq, Option.getD_none, hinf', hr]
    rfl
  · have hv := h.coresValid_true none (Or.inl rfl) _ (Or.inr rfl) rk hrk
    have hv' : coresValid 0 none (cores.map (·.shape)) _ rk = Except.ok true := hv
    simp only [e, R.ok_bind, hv', if_true, R.pure_eq, Option.getD_some, hr]
    rfl

theorem mkBatch_ok [Zero K] {n : ℕ} {cores : List (Tensor K)} {r : ℕ → ℕ} {M : ℕ → List ℕ} {nm : ℕ}
    (h : Chain (some n) cores r M nm) (sh : ShapeArg)
    (hsh : cleanRawShape sh = Except.ok none ∨ cleanRawShape sh = Except.ok (some (rowsOf M cores.length nm)))
    (rk : Option (List ℕ)) (hrk : rk = none ∨ rk = some (ranksOf r cores.length))
    (bs : Option ℕ) (hbs : bs = none ∨ bs = some n) :
    mkBatch cores sh rk bs = Except.ok (chainTT (some n) cores r M nm) := by
  unfold mkBatch
  have hinf := h.infer_rows
  have hinr := h.infer_ranks
  have hr : rk.getD (inferTTRanks 1 (cores.map (·.shape))) = ranksOf r cores.length := by
    rcases hrk with rfl | rfl
    · exact hinr
    · rfl
  have hb : bs.getD (((cores.map (·.shape)).headD []).headD 0) = n := by
    rcases hbs with rfl | rfl
    · have hp := h.shape 0 h.pos
      have : (cores.map (·.shape)).headD [] = (cores.getD 0 default).shape := by
        have := h.pos
        cases cores with
        | nil => simp at this
        | cons a l => rfl
      rw [this, hp]; rfl
    · rfl
  rcases hsh with e | e
  · have hv := h.coresValid_true bs hbs none (Or.inl rfl) rk hrk
    have hv' : coresValid 1 bs (cores.map (·.shape)) none rk = Except.ok true := hv
    have hinf' : inferRawShape 1 (cores.map (·.shape)) = _ := hinf
    simp only [e, R.ok_bind, hv', if_true, R.pure_eq, Option.getD_none, hinf', hr, hb]
    rfl
  · have hv := h.coresValid_true bs hbs _ (Or.inr rfl) rk hrk
    have hv' : coresValid 1 bs (cores.map (·.shape)) _ rk = Except.ok true := hv
    simp only [e, R.ok_bind, hv', if_true, R.pure_eq, Option.getD_some, hr, hb]
    rfl

theorem mkLike_ok [Zero K] {bs : Option ℕ} {cores : List (Tensor K)} {r : ℕ → ℕ} {M : ℕ → List ℕ}
    {nm : ℕ} (h : Chain bs cores r M nm) (rows : List (List ℕ)) (hrows : rows = rowsOf M cores.length nm)
    (rk : List ℕ) (hrk : rk = ranksOf r cores.length) :
    mkLike bs cores rows rk = Except.ok (chainTT bs cores r M nm) := by
  subst hrows hrk
  cases bs with
  | none => exact mkTT_ok h _ (Or.inr (h.clean rfl)) _ (Or.inr rfl)
  | some n => exact mkBatch_ok h _ (Or.inr (h.clean rfl)) _ (Or.inr rfl) _ (Or.inr rfl)

theorem TT.WF.chain [Zero K] {t : TT K} (h : t.WF) :
    Chain t.batch t.cores t.rank t.modes t.rawShape.length where
  pos := h.pos
  r0 := h.rank_first
  rd := h.rank_last
  rpos := h.rank_pos
  nm12 := h.rows
  Mlen := fun k _ => by simp [TT.modes]
  shape := h.core_shape
  bpos := h.batch_pos

theorem TT.WF.rows_eq [Zero K] {t : TT K} (h : t.WF) :
    t.rawShape = rowsOf t.modes t.ndims t.rawShape.length := by
  unfold rowsOf
  conv_lhs => rw [list_eq_range_map t.rawShape []]
  apply List.map_congr_left
  intro j hj
  have hj' : j < t.rawShape.length := by simpa using hj
  have hl : (t.rawShape.getD j []).length = t.ndims := by
    apply h.rows_len
    rw [List.getD_eq_getElem _ _ hj']; exact List.getElem_mem _
  conv_lhs => rw [list_eq_range_map (t.rawShape.getD j []) 0, hl]
  apply List.map_congr_left
  intro k _
  simp only [TT.modes]
  rw [List.getD_eq_getElem (t.rawShape.map _) _ (by simpa using hj'), List.getElem_map,
    List.getD_eq_getElem t.rawShape _ hj']

theorem TT.WF.ranks_eq [Zero K] {t : TT K} (h : t.WF) : t.ttRanks = ranksOf t.rank t.ndims := by
  unfold ranksOf
  conv_lhs => rw [list_eq_range_map t.ttRanks 0, h.ranks_len]
  rfl

end T3f
