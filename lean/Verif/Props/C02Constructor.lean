import Verif.Proofs.Describes
import Verif.Spec.Examples

/-!
# C02, C03, C45, C46: constructors, shape cleaning, batch broadcasting
-/

namespace T3f

variable {K : Type} [Zero K]

/-! ## C02 -/

omit [Zero K] in
theorem cons_head {cores : List (Tensor K)} (hne : cores ≠ []) {c : Tensor K} (hc : cores.head? = some c) :
    (cores.map (·.shape)).getD 0 [] = c.shape := by
  cases cores with
  | nil => exact absurd rfl hne
  | cons a l => cases hc; rfl

/-- **C02.** `TensorTrain(cores)`: accepted exactly if the cores are consistent, otherwise ValueError; the
reported metadata describes the cores. (Cores have at least two axes.) -/
theorem C02_tensor_train (cores : List (Tensor K)) (c : Tensor K) (hc : cores.head? = some c) (h2 : 2 ≤ c.shape.length) :
    (Consistent 0 (cores.map (·.shape)) → ∃ t, mkTT cores = Except.ok t ∧ t.cores = cores ∧ t.batch = none ∧
      t.rawShape.length = c.shape.length - 2 ∧ t.Describes) ∧
    (¬ Consistent 0 (cores.map (·.shape)) → mkTT cores = Except.error Err.value) := by
  have hne : cores ≠ [] := by rintro rfl; simp at hc
  have hh := cons_head hne hc
  have hd := coresValid_decides (o := 0) (bs := none) (shapes := cores.map (·.shape)) (rows := none) (rk := none)
    (by simpa using hne) (by rw [hh]; omega) (by simp) (by simp)
  replace hd := hd.congr (q := Consistent 0 (cores.map (·.shape))) (by simp)
  constructor
  · intro hcs
    refine ⟨⟨cores, inferRawShape 0 (cores.map (·.shape)), inferTTRanks 0 (cores.map (·.shape)), none⟩, ?_, rfl, rfl, ?_,
      infer_describes (o := 0) (bs := none) hne rfl (by rw [hh]; omega) hcs (by simp)⟩
    · simp only [mkTT, cleanRawShape, R.ok_bind, hd.1 hcs]
      rfl
    · cases cores with
      | nil => exact absurd rfl hne
      | cons a l => cases hc; simp [inferRawShape]
  · intro hcs
    simp only [mkTT, cleanRawShape, R.ok_bind, hd.2 hcs]
    rfl

/-- **C02.** With three or four axes per core and nonzero ranks the object is well-formed. -/
theorem C02_tensor_train_wf (cores : List (Tensor K)) (c : Tensor K) (hc : cores.head? = some c)
    (h2 : c.shape.length = 3 ∨ c.shape.length = 4) (hcs : Consistent 0 (cores.map (·.shape)))
    (hp : ∀ x ∈ cores, 0 < x.shape.getD 0 0) : ∃ t, mkTT cores = Except.ok t ∧ t.WF ∧ t.cores = cores := by
  obtain ⟨t, e, h1, h3, h4, h5⟩ := (C02_tensor_train cores c hc (by omega)).1 hcs
  have hpos : 0 < t.ndims := by
    rw [TT.ndims, h1]
    cases cores with
    | nil => simp at hc
    | cons a l => simp
  have hb : t.bpre = [] := by simp [TT.bpre, h3]
  obtain ⟨r0, rd⟩ := describes_rank h5 hpos (o := 0) (by simp [hb]) (by rw [h1]; exact hcs)
  refine ⟨t, e, h5.wf hpos (by omega) r0 rd (fun k hk => ?_) (by simp [h3]), h1⟩
  rcases Nat.eq_or_lt_of_le hk with rfl | hk
  · omega
  · have hk' : k < t.cores.length := hk
    have := h5.core_shape k hk
    have hm : t.core k ∈ cores := by
      rw [TT.core, List.getD_eq_getElem _ _ hk', ← h1]; exact List.getElem_mem _
    have := hp _ hm
    rw [h5.core_shape k hk, hb] at this
    simpa using this

/-- **C02.** `TensorTrainBatch(cores)`: accepted exactly if the cores are consistent apart from their batch
sizes; the metadata describes the cores if the batch sizes agree. -/
theorem C02_batch (cores : List (Tensor K)) (c : Tensor K) (hc : cores.head? = some c) (h2 : 3 ≤ c.shape.length) :
    (Consistent 1 (cores.map (·.shape)) → ∃ t n, mkBatch cores = Except.ok t ∧ t.cores = cores ∧ t.batch = some n ∧
      c.shape.head? = some n ∧ t.rawShape.length = c.shape.length - 3 ∧
      ((∀ x ∈ cores, x.shape.head? = some n) → t.Describes)) ∧
    (¬ Consistent 1 (cores.map (·.shape)) → mkBatch cores = Except.error Err.value) := by
  have hne : cores ≠ [] := by rintro rfl; simp at hc
  have hh := cons_head hne hc
  have hd := coresValid_decides (o := 1) (bs := none) (shapes := cores.map (·.shape)) (rows := none) (rk := none)
    (by simpa using hne) (by rw [hh]; omega) (by simp) (by simp)
  replace hd := hd.congr (q := Consistent 1 (cores.map (·.shape))) (by simp)
  obtain ⟨n, s, hns⟩ : ∃ n s, c.shape = n :: s := by
    cases h : c.shape with
    | nil => simp [h] at h2
    | cons n s => exact ⟨n, s, rfl⟩
  constructor
  · intro hcs
    refine ⟨⟨cores, inferRawShape 1 (cores.map (·.shape)), inferTTRanks 1 (cores.map (·.shape)), some n⟩, n, ?_, rfl, rfl,
      by simp [hns], ?_, fun hb => infer_describes (o := 1) (bs := some n) hne rfl (by rw [hh]; omega) hcs ?_⟩
    · simp only [mkBatch, cleanRawShape, R.ok_bind, hd.1 hcs]
      cases cores with
      | nil => exact absurd rfl hne
      | cons a l => cases hc; simp [hns]
    · cases cores with
      | nil => exact absurd rfl hne
      | cons a l => cases hc; simp [inferRawShape]
    · intro m hm i hi
      cases hm
      have := hb cores[i] (List.getElem_mem _)
      rw [List.getD_eq_getElem (cores.map (·.shape)) _ (by simpa using hi), List.getElem_map]
      cases hs : cores[i].shape with
      | nil => simp [hs] at this
      | cons a s => simp [hs] at this; simp [this]
  · intro hcs
    simp only [mkBatch, cleanRawShape, R.ok_bind, hd.2 hcs]
    rfl

omit [Zero K] in
/-- **C02.** An empty list of cores raises IndexError. -/
theorem C02_empty : mkTT ([] : List (Tensor K)) = Except.error Err.index ∧
    mkBatch ([] : List (Tensor K)) = Except.error Err.index := ⟨rfl, rfl⟩

/-- Cores with batch sizes two and three. -/
def exUnequalBatches : List (Tensor ℤ) := [zeros [2, 1, 4, 1], zeros [3, 1, 5, 1]]

/-- **C02, finding.** Without an explicit batch size, cores with different batch sizes are accepted. -/
theorem C02_batch_sizes_unchecked :
    ∃ t, mkBatch exUnequalBatches = Except.ok t ∧ t.batch = some 2 ∧ ¬ t.Describes := by
  refine ⟨⟨exUnequalBatches, [[4, 5]], [1, 1, 1], some 2⟩, by rfl, rfl, fun h => ?_⟩
  have := h.core_shape 1 (by decide)
  revert this
  decide

instance (o : ℕ) (s : List (List ℕ)) : Decidable (Consistent o s) :=
  decidable_of_iff
    ((∀ i < s.length, (s.getD i []).length = (s.getD 0 []).length) ∧
      (∀ i < s.length - 1, (s.getD (i + 1) []).getD o 0 = (s.getD i []).getLastD 0) ∧
      (s.getD 0 []).getD o 0 = 1 ∧ (s.getD (s.length - 1) []).getLastD 0 = 1)
    ⟨fun ⟨a, b, c, d⟩ => ⟨a, fun i hi => b i (by omega), c, d⟩, fun ⟨a, b, c, d⟩ => ⟨a, fun i hi => b i (by omega), c, d⟩⟩

example : Consistent 0 [[1, 2, 3, 5], [5, 4, 2, 1]] := by decide
example : ¬ Consistent 0 [[1, 2, 3, 5], [4, 4, 2, 1]] := by decide
example : Consistent 1 [[7, 1, 3, 5], [7, 5, 2, 1]] := by decide
example : (mkTT [(zeros [1, 2, 5] : Tensor ℤ), zeros [5, 4, 1]]).map (fun t => (t.rawShape, t.ttRanks)) =
    Except.ok ([[2, 4]], [1, 5, 1]) := by decide

/-! ## C03 -/

/-- **C03.** `TensorTrain(cores, shape, tt_ranks)` with one row per mode axis, one entry per core in each row, and
one rank more than cores: accepted exactly if the cores are consistent and the given metadata describes
them; otherwise ValueError. -/
theorem C03_explicit (cores : List (Tensor K)) (c : Tensor K) (hc : cores.head? = some c) (rows : List (List ℕ))
    (rk : List ℕ) (hne : rows ≠ []) (hax : c.shape.length = rows.length + 2)
    (hrl : ∀ row ∈ rows, row.length = cores.length) (hrk : rk.length = cores.length + 1) :
    (Consistent 0 (cores.map (·.shape)) ∧ (⟨cores, rows, rk, none⟩ : TT K).Describes →
      mkTT cores (.shapes rows) (some rk) = Except.ok ⟨cores, rows, rk, none⟩) ∧
    (¬ (Consistent 0 (cores.map (·.shape)) ∧ (⟨cores, rows, rk, none⟩ : TT K).Describes) →
      mkTT cores (.shapes rows) (some rk) = Except.error Err.value) := by
  have hcn : cores ≠ [] := by rintro rfl; simp at hc
  have hh := cons_head hcn hc
  have hcl : cleanRawShape (.shapes rows) = Except.ok (some rows) := by
    cases rows with
    | nil => exact absurd rfl hne
    | cons a l => rfl
  have hd := coresValid_decides (o := 0) (bs := none) (shapes := cores.map (·.shape)) (rows := some rows) (rk := some rk)
    (by simpa using hcn) (by rw [hh]; omega) (by
      intro rw' hrw
      cases hrw
      refine ⟨by rw [hh]; omega, fun j hj => ?_⟩
      rw [List.length_map, hrl _ (by rw [List.getD_eq_getElem _ _ hj]; exact List.getElem_mem _)])
    (by intro r hr; cases hr; simp [hrk])
  replace hd := hd.congr (describes_iff hcn rfl (by rw [hh]; omega) hrl hrk)
  constructor
  · intro h
    simp only [mkTT, hcl, R.ok_bind, hd.1 h]
    rfl
  · intro h
    simp only [mkTT, hcl, R.ok_bind, hd.2 h]
    rfl

/-- **C03.** The same for `TensorTrainBatch(cores, shape, tt_ranks, batch_size)`. -/
theorem C03_explicit_batch (cores : List (Tensor K)) (c : Tensor K) (hc : cores.head? = some c) (rows : List (List ℕ))
    (rk : List ℕ) (n : ℕ) (hne : rows ≠ []) (hax : c.shape.length = rows.length + 3)
    (hrl : ∀ row ∈ rows, row.length = cores.length) (hrk : rk.length = cores.length + 1) :
    (Consistent 1 (cores.map (·.shape)) ∧ (⟨cores, rows, rk, some n⟩ : TT K).Describes →
      mkBatch cores (.shapes rows) (some rk) (some n) = Except.ok ⟨cores, rows, rk, some n⟩) ∧
    (¬ (Consistent 1 (cores.map (·.shape)) ∧ (⟨cores, rows, rk, some n⟩ : TT K).Describes) →
      mkBatch cores (.shapes rows) (some rk) (some n) = Except.error Err.value) := by
  have hcn : cores ≠ [] := by rintro rfl; simp at hc
  have hh := cons_head hcn hc
  have hcl : cleanRawShape (.shapes rows) = Except.ok (some rows) := by
    cases rows with
    | nil => exact absurd rfl hne
    | cons a l => rfl
  have hd := coresValid_decides (o := 1) (bs := some n) (shapes := cores.map (·.shape)) (rows := some rows)
    (rk := some rk) (by simpa using hcn) (by rw [hh]; omega) (by
      intro rw' hrw
      cases hrw
      refine ⟨by rw [hh]; omega, fun j hj => ?_⟩
      rw [List.length_map, hrl _ (by rw [List.getD_eq_getElem _ _ hj]; exact List.getElem_mem _)])
    (by intro r hr; cases hr; simp [hrk])
  replace hd := hd.congr (describes_iff hcn rfl (by rw [hh]; omega) hrl hrk)
  constructor
  · intro h
    simp only [mkBatch, hcl, R.ok_bind, hd.1 h]
    rfl
  · intro h
    simp only [mkBatch, hcl, R.ok_bind, hd.2 h]
    rfl

/-- Cores of a `2 × 3` tensor. -/
def exCores : List (Tensor ℤ) := [zeros [1, 2, 1], zeros [1, 3, 1]]

/-- **C03, findings.** A shape with too many entries is accepted and reported; so is a rank list that is too
long; and TT-matrix cores with a shape of one row become a TT-tensor. -/
theorem C03_unchecked :
    (∃ t, mkTT exCores (.flat [2, 3, 7]) = Except.ok t ∧ t.rawShape = [[2, 3, 7]] ∧ ¬ t.Describes) ∧
    (∃ t, mkTT exCores (.flat [2, 3]) (some [1, 1, 1, 5]) = Except.ok t ∧ t.ttRanks = [1, 1, 1, 5] ∧ ¬ t.Describes) ∧
    (∃ t, mkTT exMatrix.cores (.flat [2, 2]) = Except.ok t ∧ ¬ t.isMatrix ∧ ¬ t.Describes) := by
  refine ⟨⟨_, rfl, rfl, fun h => ?_⟩, ⟨_, rfl, rfl, fun h => ?_⟩, ⟨_, rfl, by decide, fun h => ?_⟩⟩
  · exact absurd (h.rows_len [2, 3, 7] (by simp)) (by decide)
  · exact absurd h.ranks_len (by decide)
  · exact absurd (h.core_shape 0 (by decide)) (by decide)

example : exMatrix.cores.head? = some (.ofList [1, 2, 1, 2] [1, 2, 3, 4]) ∧
    Consistent 0 (exMatrix.cores.map (·.shape)) := ⟨rfl, by decide⟩
example : (mkTT exMatrix.cores (.shapes [[2, 2], [1, 2]]) (some [1, 2, 1])).isOk = true := by decide
example : (mkTT exMatrix.cores (.shapes [[2, 2], [1, 3]]) (some [1, 2, 1])).isOk = false := by decide

/-! ## C45 -/

/-- **C45.** A list of at least two sizes is one row; a pair of lists of equal length other than one is two rows. -/
theorem C45_clean_raw_shape :
    (∀ l : List ℕ, 2 ≤ l.length → cleanRawShape (.flat l) = Except.ok (some [l])) ∧
    (∀ a b : List ℕ, a.length = b.length → a.length ≠ 1 → cleanRawShape (.nested [a, b]) = Except.ok (some [a, b])) ∧
    (∀ a : List ℕ, a.length ≠ 1 → cleanRawShape (.nested [a]) = Except.ok (some [a])) ∧
    (cleanRawShape .omitted = Except.ok none) ∧
    (∀ rows : List (List ℕ), rows ≠ [] → cleanRawShape (.shapes rows) = Except.ok (some rows)) := by
  refine ⟨fun l hl => ?_, fun a b hab h1 => ?_, fun a h1 => ?_, rfl, fun rows h => ?_⟩
  · match l, hl with
    | _ :: _ :: _, _ => rfl
  · simp [cleanRawShape, hab, hab ▸ h1]
  · simp [cleanRawShape, h1]
  · match rows, h with
    | _ :: _, _ => rfl

/-- **C45, findings.** One-dimensional objects: a pair of one-element lists (the shape of a TT-matrix with one
core) becomes the shape of a tensor with two dimensions; a one-element list and lists of different
length raise TypeError, empty lists IndexError. -/
theorem C45_degenerate :
    (∀ n m : ℕ, cleanRawShape (.nested [[n], [m]]) = Except.ok (some [[n, m]])) ∧
    (∀ n : ℕ, cleanRawShape (.flat [n]) = Except.error Err.type) ∧
    (∀ n : ℕ, cleanRawShape (.nested [[n]]) = Except.error Err.type) ∧
    (∀ a b : List ℕ, a.length ≠ b.length → cleanRawShape (.nested [a, b]) = Except.error Err.type) ∧
    (cleanRawShape (.flat []) = Except.error Err.index) := by
  refine ⟨fun n m => by simp [cleanRawShape], fun n => rfl, fun n => rfl, fun a b h => ?_, rfl⟩
  simp [cleanRawShape, Ne.symm h]

example : cleanRawShape (.nested [[2, 3], [4, 5]]) = Except.ok (some [[2, 3], [4, 5]]) := by decide

/-! ## C46 -/

omit [Zero K] in
/-- **C46.** Batches broadcast exactly if one of the objects is no batch, the sizes are equal, or one of them is
one; the relation is symmetric. -/
theorem C46_broadcasting (a b : TT K) :
    (isBatchBroadcastingPossible a b = true ↔
      ∀ m n, a.batch = some m → b.batch = some n → m = n ∨ m = 1 ∨ n = 1) ∧
    isBatchBroadcastingPossible a b = isBatchBroadcastingPossible b a := by
  unfold isBatchBroadcastingPossible
  rcases a.batch with _ | m <;> rcases b.batch with _ | n <;> simp
  rw [Bool.eq_iff_iff]
  simp only [Bool.or_eq_true, decide_eq_true_eq]
  omega

/-- **C46.** The decision including sizes that are not known statically (`some none`; `none` is an object that is no
batch): true exactly if one object is no batch, both sizes are known and equal, or one of the sizes is known to
be one. Symmetric; on known sizes it is the decision above. -/
theorem C46_unknown_sizes (a b : Option (Option ℕ)) :
    (broadcastDecision a b = true ↔ a = none ∨ b = none ∨ (∃ n, a = some (some n) ∧ b = some (some n)) ∨
      a = some (some 1) ∨ b = some (some 1)) ∧
    broadcastDecision a b = broadcastDecision b a ∧
    broadcastDecision (some none) (some none) = false := by
  refine ⟨?_, ?_, rfl⟩
  · rcases a with _ | _ | m <;> rcases b with _ | _ | n <;> simp [broadcastDecision]
    constructor
    · rintro ((rfl | rfl) | rfl) <;> simp
    · rintro (⟨_, rfl, rfl⟩ | rfl | rfl) <;> simp
  · rcases a with _ | _ | m <;> rcases b with _ | _ | n <;> simp [broadcastDecision]
    rw [Bool.eq_iff_iff]
    simp only [Bool.or_eq_true, decide_eq_true_eq]
    omega

omit [Zero K] in
/-- **C46.** The two models of the function agree. -/
theorem C46_known (a b : TT K) :
    isBatchBroadcastingPossible a b = broadcastDecision (a.batch.map some) (b.batch.map some) := by
  unfold isBatchBroadcastingPossible
  rcases a.batch with _ | m <;> rcases b.batch with _ | n <;> simp [broadcastDecision]

example : broadcastDecision (some none) (some (some 1)) = true ∧ broadcastDecision (some (some 3)) (some none) = false := by
  decide
example : isBatchBroadcastingPossible exBatch exBatch1 = true ∧ isBatchBroadcastingPossible exBatch exTensor = true := by
  decide

end T3f
