import Verif.Proofs.Equivariance
import Verif.Props.C56Descent

/-! Curves of tensor trains with given tangent vectors -/

namespace T3f

/-- Expansion of a product of perturbed matrices to first order. -/
theorem lprod_expand (r : ℕ → ℕ) (A E : ℕ → ℕ → ℕ → ℝ) (k : ℕ) : ∃ C : ℕ → ℝ, ∀ s : ℝ, |s| ≤ 1 → ∀ b,
    |lprod r (fun j a b => A j a b + s * E j a b) k b - lprod r A k b -
      s * ∑ j ∈ Finset.range k, lprod r (fun i => if i = j then E j else A i) k b| ≤ C b * s ^ 2 := by
  induction k with
  | zero => exact ⟨fun _ => 0, fun s _ b => by simp [lprod]⟩
  | succ k ih =>
    obtain ⟨C, hC⟩ := ih
    set T : ℕ → ℝ := fun a => ∑ j ∈ Finset.range k, lprod r (fun i => if i = j then E j else A i) k a with hT
    refine ⟨fun b => ∑ a ∈ Finset.range (r k), (C a * (|A k a b| + |E k a b|) + |T a| * |E k a b|), fun s hs b => ?_⟩
    have hsum : ∑ j ∈ Finset.range (k + 1), lprod r (fun i => if i = j then E j else A i) (k + 1) b =
        ∑ a ∈ Finset.range (r k), (T a * A k a b + lprod r A k a * E k a b) := by
      rw [Finset.sum_range_succ, Finset.sum_add_distrib]
      congr 1
      · simp only [lprod, hT, Finset.sum_mul]
        rw [Finset.sum_comm]
        refine Finset.sum_congr rfl fun a _ => Finset.sum_congr rfl fun j hj => ?_
        rw [if_neg (by have := Finset.mem_range.1 hj; omega)]
      · rw [lprod]
        refine Finset.sum_congr rfl fun a _ => ?_
        rw [if_pos rfl, lprod_congr' (B := A) fun j hj => if_neg (by omega)]
    rw [hsum]
    simp only [lprod]
    rw [Finset.mul_sum, ← Finset.sum_sub_distrib, ← Finset.sum_sub_distrib, Finset.sum_mul]
    refine (Finset.abs_sum_le_sum_abs _ _).trans (Finset.sum_le_sum fun a _ => ?_)
    have hR := hC s hs a
    change |_ - _ - s * T a| ≤ _ at hR
    set P := lprod r (fun j a b => A j a b + s * E j a b) k a
    set L := lprod r A k a
    have e : P * (A k a b + s * E k a b) - L * A k a b - s * (T a * A k a b + L * E k a b) =
        (P - L - s * T a) * (A k a b + s * E k a b) + T a * E k a b * s ^ 2 := by ring
    rw [e]
    refine (abs_add_le _ _).trans ?_
    rw [abs_mul, abs_mul (T a * E k a b), abs_mul (T a), abs_of_nonneg (sq_nonneg s), add_mul]
    refine add_le_add ?_ le_rfl
    have h1 : |A k a b + s * E k a b| ≤ |A k a b| + |E k a b| := by
      refine (abs_add_le _ _).trans (add_le_add le_rfl ?_)
      rw [abs_mul]
      exact mul_le_of_le_one_left (abs_nonneg _) hs
    calc |P - L - s * T a| * |A k a b + s * E k a b| ≤ (C a * s ^ 2) * (|A k a b| + |E k a b|) :=
          mul_le_mul hR h1 (abs_nonneg _) ((abs_nonneg _).trans hR)
      _ = C a * (|A k a b| + |E k a b|) * s ^ 2 := by ring

/-- The object with the cores moved by `s` times `D`. -/
def moveCores (x : TT ℝ) (D : ℕ → List ℕ → ℕ → ℕ → ℝ) (s : ℝ) : TT ℝ :=
  { x with cores := (List.range x.ndims).map fun k =>
      ⟨(x.core k).shape, fun i => (x.core k).get i + s * D k i.tail.dropLast (i.headD 0) (i.reverse.headD 0)⟩ }

theorem moveCores_ndims (x : TT ℝ) (D : ℕ → List ℕ → ℕ → ℕ → ℝ) (s : ℝ) : (moveCores x D s).ndims = x.ndims := by
  simp [moveCores, TT.ndims]

theorem moveCores_core (x : TT ℝ) (D : ℕ → List ℕ → ℕ → ℕ → ℝ) (s : ℝ) {k : ℕ} (hk : k < x.ndims) : (moveCores x D s).core k =
    ⟨(x.core k).shape, fun i => (x.core k).get i + s * D k i.tail.dropLast (i.headD 0) (i.reverse.headD 0)⟩ := by
  simp [moveCores, TT.core, hk]

theorem moveCores_wf {x : TT ℝ} (h : x.WF) (D : ℕ → List ℕ → ℕ → ℕ → ℝ) (s : ℝ) : (moveCores x D s).WF := by
  have hl : (moveCores x D s).ndims = x.ndims := moveCores_ndims x D s
  exact {
    pos := by rw [hl]; exact h.pos
    ranks_len := by rw [hl]; exact h.ranks_len
    rank_first := h.rank_first
    rank_last := by rw [hl]; exact h.rank_last
    rank_pos := by rw [hl]; exact h.rank_pos
    rows := h.rows
    rows_len := by rw [hl]; exact h.rows_len
    core_shape := fun k hk => by
      have hk' : k < x.ndims := hl ▸ hk
      rw [moveCores_core x D s hk']
      exact h.core_shape k hk'
    batch_pos := h.batch_pos }

theorem moveCores_slice (x : TT ℝ) (D : ℕ → List ℕ → ℕ → ℕ → ℝ) (s : ℝ) (m : ℕ → List ℕ) {k : ℕ} (hk : k < x.ndims) :
    (moveCores x D s).slice [] m k = fun a b => x.slice [] m k a b + s * D k (m k) a b := by
  funext a b
  rw [TT.slice, moveCores_core x D s hk, TT.slice]
  simp

theorem moveCores_entry (x : TT ℝ) (D : ℕ → List ℕ → ℕ → ℕ → ℝ) (m : ℕ → List ℕ) : ∃ C : ℝ, ∀ s : ℝ, |s| ≤ 1 →
    |(moveCores x D s).entry [] m - x.entry [] m -
      s * ∑ k ∈ Finset.range x.ndims, lprod x.rank (fun j => if j = k then D k (m k) else x.slice [] m j) x.ndims 0| ≤ C * s ^ 2 := by
  obtain ⟨C, hC⟩ := lprod_expand x.rank (x.slice [] m) (fun k => D k (m k)) x.ndims
  refine ⟨C 0, fun s hs => ?_⟩
  have := hC s hs 0
  rw [TT.entry, moveCores_ndims, TT.entry]
  rwa [lprod_congr' (r := (moveCores x D s).rank) (B := fun j a b => x.slice [] m j a b + s * D j (m j) a b)
    fun j hj => moveCores_slice x D s m hj]

/-- A curve of tensor trains with the ranks of `x` and the tangent vector `f`. -/
theorem tangent_curve {x : TT ℝ} (h : x.WF) (hb : x.batch = none) {f : List ℕ → ℝ} (hf : x.TangentVector f) :
    ∃ C, 0 ≤ C ∧ ∀ s : ℝ, |s| ≤ 1 → ∃ S : TT ℝ, S.WF ∧ S.rawShape = x.rawShape ∧ S.batch = none ∧ S.ttRanks = x.ttRanks ∧
      ∀ i, Valid (restShape x.rawShape) i →
        |S.entry [] (restModes x.rawShape i) - (x.entry [] (restModes x.rawShape i) + s * f i)| ≤ C * s ^ 2 := by
  obtain ⟨D, hD⟩ := hf
  rw [dense_shape_single hb] at hD
  choose C hC using fun i => moveCores_entry x D (restModes x.rawShape i)
  set N := restShape x.rawShape
  have hC0 : ∀ i, 0 ≤ C i := fun i => by
    have := (abs_nonneg _).trans (hC i 1 (by simp)); simpa using this
  refine ⟨∑ n ∈ Finset.range N.prod, C (unravel N n), Finset.sum_nonneg fun n _ => hC0 _, fun s hs =>
    ⟨moveCores x D s, moveCores_wf h D s, rfl, hb, rfl, fun i hi => ?_⟩⟩
  have e : f i = ∑ k ∈ Finset.range x.ndims, lprod x.rank (fun j => if j = k then D k (restModes x.rawShape i k) else
      x.slice [] (restModes x.rawShape i) j) x.ndims 0 := by
    rw [hD i hi]
    simp only [TT.replaceCore, decode_single hb]
  rw [e, ← sub_sub]
  refine (hC i s hs).trans (mul_le_mul_of_nonneg_right ?_ (sq_nonneg s))
  obtain ⟨n, hn, rfl⟩ : ∃ n < N.prod, unravel N n = i := ⟨ravel N i, ravel_lt hi, unravel_ravel hi⟩
  exact Finset.single_le_sum (f := fun n => C (unravel N n)) (fun n _ => hC0 _) (Finset.mem_range.2 hn)

/-- The same in terms of dense tensors. -/
theorem tangent_curve_dist {x : TT ℝ} (h : x.WF) (hb : x.batch = none) {f : List ℕ → ℝ} (hf : x.TangentVector f) {X : Tensor ℝ}
    (eX : full x = Except.ok X) :
    ∃ C, 0 ≤ C ∧ ∀ s : ℝ, |s| ≤ 1 → ∃ (S : TT ℝ) (F : Tensor ℝ), S.WF ∧ S.rawShape = x.rawShape ∧ S.batch = none ∧ S.ttRanks = x.ttRanks ∧ full S = Except.ok F ∧
      ∀ Y : Tensor ℝ, (∀ i, Valid X.shape i → Y.get i = X.get i + s * f i) → Y.distSq F [] X.shape ≤ (C * s ^ 2) ^ 2 := by
  obtain ⟨X', eX', sX, vX⟩ := full_single h hb
  obtain rfl : X' = X := Except.ok.inj (eX'.symm.trans eX)
  obtain ⟨C, hC, hS⟩ := tangent_curve h hb hf
  refine ⟨√X'.shape.prod * C, by positivity, fun s hs => ?_⟩
  obtain ⟨S, w, r, bt, rk, v⟩ := hS s hs
  obtain ⟨F, eF, sF, vF⟩ := full_single w bt
  rw [r] at sF vF
  refine ⟨S, F, w, r, bt, rk, eF, fun Y hY => ?_⟩
  rw [Tensor.distSq]
  calc ∑ n ∈ Finset.range X'.shape.prod, (Y.get ([] ++ unravel X'.shape n) - F.get ([] ++ unravel X'.shape n)) ^ 2
      ≤ ∑ n ∈ Finset.range X'.shape.prod, (C * s ^ 2) ^ 2 := Finset.sum_le_sum fun n hn => by
        have hi : Valid X'.shape (unravel X'.shape n) := unravel_valid (Finset.mem_range.1 hn)
        rw [List.nil_append, hY _ hi]
        rw [sX] at hi ⊢
        rw [vF _ hi, vX _ hi]
        refine sq_le_sq' ?_ ?_ <;> have := abs_le.1 (v _ hi) <;> linarith [this.1, this.2]
    _ = (√X'.shape.prod * C * s ^ 2) ^ 2 := by
        rw [Finset.sum_const, Finset.card_range, nsmul_eq_mul, mul_assoc, mul_pow (√_), Real.sq_sqrt (by positivity)]

/-- `x + s * v` for single objects. -/
theorem add_scaled {a b : TT ℝ} (ha : a.WF) (hb : b.WF) (hd : 2 ≤ a.ndims) (hr : b.rawShape = a.rawShape) (h1 : a.batch = none) (h2 : b.batch = none)
    (s : ℝ) : ∃ t c, multiplyScalar b s = Except.ok t ∧ add a t = Except.ok c ∧ c.WF ∧ c.rawShape = a.rawShape ∧ c.batch = none ∧ c.ndims = a.ndims ∧
      ∀ A B C, full a = Except.ok A → full b = Except.ok B → full c = Except.ok C →
        ∀ i, Valid (restShape a.rawShape) i → C.get i = A.get i + s * B.get i := by
  obtain ⟨t, et, wt, rt, bt, kt, nt, vt⟩ := multiplyScalar_spec hb s
  obtain ⟨c, e, w, r, bc, nd, rk, en⟩ := add_spec ha wt hd (hr.symm.trans rt.symm) (Or.inl ⟨h1, bt.trans h2⟩)
  have hcb : c.batch = none := by
    have : bshape a.bpre t.bpre = some [] := by simp [TT.bpre, h1, bt, h2, bshape]
    rw [this] at bc
    have := (Option.some.inj bc).symm
    unfold TT.bpre at this
    cases hc : c.batch with
    | none => rfl
    | some n => rw [hc] at this; simp at this
  refine ⟨t, c, et, e, w, r, hcb, nd, fun A B C eA eB eC i hi => ?_⟩
  obtain ⟨A', eA', sA, vA⟩ := full_single ha h1
  obtain ⟨B', eB', sB, vB⟩ := full_single hb h2
  obtain ⟨C', eC', sC, vC⟩ := full_single w hcb
  obtain rfl : A' = A := Except.ok.inj (eA'.symm.trans eA)
  obtain rfl : B' = B := Except.ok.inj (eB'.symm.trans eB)
  obtain rfl : C' = C := Except.ok.inj (eC'.symm.trans eC)
  have hi' : Valid (restShape c.rawShape) i := by rw [r]; exact hi
  rw [vA i hi, vB i (by rw [hr]; exact hi), vC i hi', r, hr]
  have hv := validModes_rest w hi'
  rw [r] at hv
  have hcp : c.bpre = [] := by simp [TT.bpre, hcb]
  rw [en [] _ (by rw [hcp]; trivial) hv, vt]
  have e1 : bproj a.bpre [] = [] := by simp [TT.bpre, h1, bproj]
  have e2 : bproj t.bpre [] = [] := by simp [TT.bpre, bt, h2, bproj]
  rw [e1, e2]

end T3f
