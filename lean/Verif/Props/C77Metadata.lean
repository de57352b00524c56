import Verif.Proofs.DescribedCalls
import Verif.Props.C01Full
import Mathlib.Tactic.IntervalCases

/-!
# C77: metadata stays correct in all programs

A program is a list of calls of the library (`PyCall`). `TT.Described` says that shape, TT-ranks and batch size of an object are those of its cores, that neighbouring cores
fit together and that the object is a TT-tensor or a TT-matrix or a batch of them. The restrictions of `PyCall.Plain` concern the arguments of the two constructors, shapes of TT-matrices
with one mode, weights with more than one axis in `multiply_along_batch_dim` for objects with one core and `deltas_to_tangent_space` for batches.
-/

namespace T3f

/-- C77: if a program starts with objects that are described by their metadata and returns then all objects that it computed are described by their metadata. -/
theorem C77_run (qr : QRRoutine) (svd : SVDRoutine) (z : ℕ → ℕ → List ℕ → ℝ) (p : List PyCall) {env out : List PyVal} (h : AllDescribed env) (hp : PlainRun qr svd z p env)
    (e : runCalls qr svd z p env = Except.ok out) : AllDescribed out := runCalls_good qr svd z p h hp e

/-- The calls that need no condition on the values. -/
def PyCall.alwaysPlain : PyCall → Prop
  | .newTT .. | .newBatch .. | .onesLike .. | .zerosLike .. | .fromDeltas .. | .multiplyBatch .. => False
  | .matrixOnes a b | .matrixZeros a b | .matrixRandomCores a b .. | .matrixBatchRandomCores a b .. | .randomMatrix a b .. | .randomMatrixBatch a b .. | .glorot a b _ | .he a b _
  | .lecun a b _ => notOneMode a b
  | .eye shape => shape.length ≠ 1
  | _ => True

/-- C77: in particular this holds for all programs that use no constructor, no `ones_like`, `zeros_like`, `deltas_to_tangent_space`, `multiply_along_batch_dim` and no shapes of TT-matrices with one mode. -/
theorem C77_program (qr : QRRoutine) (svd : SVDRoutine) (z : ℕ → ℕ → List ℕ → ℝ) (p : List PyCall) {env out : List PyVal} (h : AllDescribed env) (hp : ∀ c ∈ p, c.alwaysPlain)
    (e : runCalls qr svd z p env = Except.ok out) : AllDescribed out := by
  refine C77_run qr svd z p h ?_ e
  clear e h
  induction p generalizing env with
  | nil => trivial
  | cons c p ih =>
    refine ⟨?_, fun vs _ => ih fun c hc => hp c (by simp [hc])⟩
    have := hp c (by simp)
    cases c <;> first | exact this | trivial

theorem described_nonempty {t : TT ℝ} (h : t.Described) (hne : ∀ c ∈ t.cores, ∀ n ∈ c.shape, 0 < n) : t.WF := by
  have key : ∀ k < t.ndims, ∀ n ∈ (t.core k).shape, 0 < n := fun k hk => hne _ (by
    have hk' : k < t.cores.length := hk
    rw [TT.core, List.getD_eq_getElem _ _ hk']
    exact List.getElem_mem _)
  refine h.describes.wf h.pos h.rows h.rank_first h.rank_last (fun k hk => ?_) fun hb => ?_
  · rcases Nat.lt_or_ge k t.ndims with hk | hk'
    · exact key k hk _ (by rw [h.describes.core_shape k hk]; simp)
    · rw [le_antisymm hk hk', h.rank_last]
      exact one_pos
  · have := key 0 h.pos 0 (by rw [h.describes.core_shape 0 h.pos, TT.bpre, hb]; simp)
    exact lt_irrefl _ this

/-- C77: every object of such a program without empty axes can be converted by `full`, and the dense tensor has the shape that the object reports: the batch size, then the numbers of
the shape, for TT-matrices their products. -/
theorem C77_full (qr : QRRoutine) (svd : SVDRoutine) (z : ℕ → ℕ → List ℕ → ℝ) (p : List PyCall) {env out : List PyVal} (h : AllDescribed env) (hp : PlainRun qr svd z p env)
    (e : runCalls qr svd z p env = Except.ok out) {t : TT ℝ} {on : Option ℕ} (ht : PyVal.tt t on ∈ out) (hne : ∀ c ∈ t.cores, ∀ n ∈ c.shape, 0 < n) :
    t.WF ∧ ∃ F, full t = Except.ok F ∧ F.shape = t.batch.toList ++ (match t.rawShape with | [n] => n | rows => rows.map List.prod) := by
  have hw := described_nonempty (C77_run qr svd z p h hp e t on ht) hne
  obtain ⟨F, hF, hs, -⟩ := full_dense hw
  refine ⟨hw, F, hF, ?_⟩
  rw [hs]
  have hr := hw.rows
  change t.batch.toList ++ (if t.rawShape.length = 2 then t.rawShape.map List.prod else t.rawShape.headD []) = _
  generalize t.rawShape = rows at hr
  match rows, hr with
  | [n], _ => rfl
  | [n, m], _ => rfl

/-- A program with sums, rounding, slicing, batches and initializers; the start is described by its metadata. -/
example : AllDescribed [.tt exTensor.toReal none] ∧ ∀ c ∈ [PyCall.add 0 0, .round 1 (.num 1) none, .eye [2, 3], .matmul 3 3, .expand 1, .concatBatch [5, 5],
    .reduceSumBatch 6 (.num 2) none, .randomMatrix (some [2, 2]) none (.num 2) 0 1, .project 1 2], c.alwaysPlain := by
  refine ⟨fun t on ht => ?_, ?_⟩
  · cases List.mem_singleton.1 ht
    exact .ofWF (TT.WF.toReal (by decide))
  · simp [PyCall.alwaysPlain, notOneMode]

/-- The constructors with all arguments given: two cores of a TT-tensor, shape and ranks. -/
example : PlainArgs 0 [zeros [1, 4, 2], zeros [2, 5, 1]] (.flat [4, 5]) (some [1, 2, 1]) ∧ PlainArgs 1 [zeros [7, 1, 4, 2], zeros [7, 2, 5, 1]] .omitted none := by
  refine ⟨⟨by simp, rfl, rfl⟩, ⟨by simp, Or.inl rfl⟩⟩

/-- A TT-matrix with one mode. -/
noncomputable def exOneModeMatrix : TT ℝ := ⟨[zeros [1, 2, 3, 1]], [[2], [3]], [1, 1], none⟩

theorem exOneModeMatrix_described : exOneModeMatrix.Described :=
  ⟨by decide, rfl, rfl, Or.inr rfl, rfl, by decide, fun k hk => by
    obtain rfl : k = 0 := Nat.lt_one_iff.1 hk
    rfl⟩

/-- A batch with one TT-matrix. -/
noncomputable def exBatchOneMatrix : TT ℝ := ⟨[zeros [1, 1, 2, 2, 1], zeros [1, 1, 2, 2, 1]], [[2, 2], [2, 2]], [1, 1, 1], some 1⟩

theorem exBatchOneMatrix_described : exBatchOneMatrix.Described :=
  ⟨by decide, rfl, rfl, Or.inr rfl, rfl, by decide, fun k hk => by
    have hk : k < 2 := hk
    interval_cases k <;> rfl⟩

/-- A batch of `n` TT-tensors with one core. -/
noncomputable def exOneCoreBatch (n : ℕ) : TT ℝ := ⟨[ones [n, 1, n, 1]], [[n]], [1, 1], some n⟩

theorem exOneCoreBatch_described (n : ℕ) : (exOneCoreBatch n).Described :=
  ⟨Nat.one_pos, rfl, rfl, Or.inl rfl, rfl, by simp [exOneCoreBatch, TT.ndims], fun k hk => by
    obtain rfl : k = 0 := Nat.lt_one_iff.1 hk
    rfl⟩

/-- C77, findings: the restrictions are necessary. `matrix_ones([[2], [3]])`, `eye([2])`, `ones_like` of a TT-matrix with one mode, a constructor that is given one rank too many, one that
is given one mode too many, one for a batch whose cores have different batch sizes, `multiply_along_batch_dim` for a batch of two vectors with one core and weights of shape `[2, 1, 1]`, and `deltas_to_tangent_space` for a batch of TT-matrices and deltas with an empty axis return an object
that is not described by its metadata. -/
theorem C77_restrictions (qr : QRRoutine) (svd : SVDRoutine) (z : ℕ → ℕ → List ℕ → ℝ) :
    ∀ q ∈ ([([.matrixOnes (some [2]) (some [3])], []), ([.eye [2]], []), ([.onesLike 0], [.tt exOneModeMatrix none]),
      ([.newTT [0, 0] .omitted (some [1, 1, 1, 9])], [.tensor (zeros [1, 4, 1])]),
      ([.newTT [0, 0] (.flat [4, 4, 9]) none], [.tensor (zeros [1, 4, 1])]),
      ([.newBatch [0, 1] .omitted none none], [.tensor (zeros [2, 1, 4, 1]), .tensor (zeros [3, 1, 4, 1])]),
      ([.multiplyBatch 0 1], [.tt (exOneCoreBatch 2) none, .tensor (ones [2, 1, 1])]),
      ([.fromDeltas [1, 2] 0 (some 0) (some 0)], [.tt exBatchOneMatrix none, .tensor (zeros [1, 1, 2, 2, 0]), .tensor (zeros [1, 0, 2, 2, 1])])] :
      List (List PyCall × List PyVal)),
    AllDescribed q.2 ∧ ∃ out t on, runCalls qr svd z q.1 q.2 = Except.ok out ∧ PyVal.tt t on ∈ out ∧ ¬ t.Described := by
  have hno : ∀ l : List (Tensor ℝ), AllDescribed (l.map .tensor) := fun l t on ht => by
    obtain ⟨x, -, hx⟩ := List.mem_map.1 ht
    cases hx
  simp only [List.forall_mem_cons]
  refine ⟨⟨hno [], ?_⟩, ⟨hno [], ?_⟩, ⟨AllDescribed.single _ exOneModeMatrix_described, ?_⟩, ⟨hno [_], ?_⟩, ⟨hno [_], ?_⟩, ⟨hno [_, _], ?_⟩, ⟨fun t on ht => ?_, ?_⟩, ⟨fun t on ht => ?_, ?_⟩, by simp⟩
  · refine ⟨_, ⟨[ones [1, 2, 3, 1]], [[2, 3]], [1, 1], none⟩, none, rfl, List.mem_singleton.2 rfl, fun h => ?_⟩
    cases h.describes.rows_len [2, 3] (List.mem_singleton.2 rfl)
  · obtain ⟨c, hc⟩ : ∃ c, reshape (eyeT (K := ℝ) 2) [some 1, some 2, some 2, some 1] = Except.ok c := ⟨_, rfl⟩
    refine ⟨_, ⟨[c], [[2, 2]], [1, 1], none⟩, none, by cases hc; rfl, List.mem_singleton.2 rfl, fun h => ?_⟩
    cases h.describes.rows_len [2, 2] (List.mem_singleton.2 rfl)
  · refine ⟨_, ⟨[ones [1, 2, 3, 1]], [[2, 3]], [1, 1], none⟩, none, rfl, List.mem_cons_of_mem _ (List.mem_singleton.2 rfl), fun h => ?_⟩
    cases h.describes.rows_len [2, 3] (List.mem_singleton.2 rfl)
  · refine ⟨_, ⟨[zeros [1, 4, 1], zeros [1, 4, 1]], [[4, 4]], [1, 1, 1, 9], none⟩, none, rfl, List.mem_cons_of_mem _ (List.mem_singleton.2 rfl), fun h => ?_⟩
    cases h.describes.ranks_len
  · refine ⟨_, ⟨[zeros [1, 4, 1], zeros [1, 4, 1]], [[4, 4, 9]], [1, 1, 1], none⟩, none, rfl, List.mem_cons_of_mem _ (List.mem_singleton.2 rfl), fun h => ?_⟩
    cases h.describes.rows_len [4, 4, 9] (List.mem_singleton.2 rfl)
  · refine ⟨_, ⟨[zeros [2, 1, 4, 1], zeros [3, 1, 4, 1]], [[4, 4]], [1, 1, 1], some 2⟩, none, rfl,
      List.mem_cons_of_mem _ (List.mem_cons_of_mem _ (List.mem_singleton.2 rfl)), fun h => ?_⟩
    cases h.describes.core_shape 1 (by decide)
  · rcases List.mem_cons.1 ht with ht | ht
    · cases ht
      exact exOneCoreBatch_described 2
    · exact hno [ones [2, 1, 1]] t on ht
  · obtain ⟨c, hc, hcs⟩ : ∃ c, binop (· * ·) ⟨[2, 1, 1, 1, 1, 1], fun _ => (1 : ℝ)⟩ (ones (K := ℝ) [2, 1, 2, 1]) = Except.ok c ∧ c.shape = [2, 1, 2, 1, 2, 1] := ⟨_, rfl, rfl⟩
    refine ⟨_, ⟨[c], [[2]], [1, 1], some 2⟩, none, by cases hc; rfl,
      List.mem_cons_of_mem _ (List.mem_cons_of_mem _ (List.mem_singleton.2 rfl)), fun h => ?_⟩
    have := h.describes.core_shape 0 Nat.one_pos
    change c.shape = _ at this
    rw [hcs] at this
    cases this
  · rcases List.mem_cons.1 ht with ht | ht
    · cases ht
      exact exBatchOneMatrix_described
    · exact hno [zeros [1, 1, 2, 2, 0], zeros [1, 0, 2, 2, 1]] t on ht
  · obtain ⟨c, hc, hcs⟩ : ∃ c, concat 4 [zeros [1, 1, 2, 2, 0], zeros (K := ℝ) [1, 1, 2, 2, 1]] = Except.ok c ∧ c.shape = [1, 1, 2, 2, 1] := ⟨_, rfl, rfl⟩
    obtain ⟨d, hd, hds⟩ : ∃ d, concat 1 [zeros (K := ℝ) [1, 1, 2, 2, 1], zeros [1, 0, 2, 2, 1]] = Except.ok d ∧ d.shape = [1, 1, 2, 2, 1] := ⟨_, rfl, rfl⟩
    refine ⟨_, ⟨[c, d], [[1, 1], [2, 2], [2, 2]], [1, 1, 1], none⟩, some 0, by cases hc; cases hd; rfl,
      List.mem_cons_of_mem _ (List.mem_cons_of_mem _ (List.mem_cons_of_mem _ (List.mem_singleton.2 rfl))), fun h => ?_⟩
    rcases h.rows with h | h <;> cases h

end T3f
