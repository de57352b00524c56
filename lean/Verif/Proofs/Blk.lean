import Verif.Proofs.KronMap
import Verif.Proofs.Factor
import Verif.Model.Decompositions

/-! # Tensors as blocks of numbers, whatever their shape -/

namespace T3f

variable {K : Type}

/-- In row-major order, `X` holds the numbers `f p α n β` with leading index `p`, `α < a`, `n < N`, `β < b`. -/
def Blk (X : Tensor K) (pre : List ℕ) (a N b : ℕ) (f : List ℕ → ℕ → ℕ → ℕ → K) : Prop :=
  X.shape.prod = pre.prod * (a * (N * b)) ∧ ∀ p, Valid pre p → ∀ α < a, ∀ n < N, ∀ β < b,
    X.flat (ravel pre p * (a * (N * b)) + (α * (N * b) + (n * b + β))) = f p α n β

theorem ravel_core {pre M p v : List ℕ} (a b α β : ℕ) (hp : Valid pre p) (hv : Valid M v) :
    ravel (pre ++ a :: (M ++ [b])) (p ++ α :: (v ++ [β])) =
      ravel pre p * (a * (M.prod * b)) + (α * (M.prod * b) + (ravel M v * b + β)) := by
  rw [ravel_append _ _ hp.length_eq, ravel_cons, ravel_append _ _ hv.length_eq]
  simp

theorem ravel_two {pre p : List ℕ} (m n x y : ℕ) (hp : Valid pre p) :
    ravel (pre ++ [m, n]) (p ++ [x, y]) = ravel pre p * (m * n) + (x * n + y) := by
  rw [ravel_append _ _ hp.length_eq]
  simp [ravel]

theorem blk_of_core {X : Tensor K} {pre M : List ℕ} {a b : ℕ} (h : X.shape = pre ++ a :: (M ++ [b])) :
    Blk X pre a M.prod b fun p α n β => X.get (p ++ α :: (unravel M n ++ [β])) := by
  refine ⟨by rw [h]; simp [List.prod_append], fun p hp α hα n hn β hβ => ?_⟩
  have hu := unravel_valid hn
  have hv : Valid X.shape (p ++ α :: (unravel M n ++ [β])) := by
    rw [h]
    exact valid_append hp (by rw [valid_cons]; exact ⟨hα, valid_append hu (by simpa using hβ)⟩)
  show _ = X.get _
  rw [← Tensor.flat_ravel X hv, h, ravel_core _ _ _ _ hp hu, ravel_unravel hn]

theorem Blk.core {X : Tensor K} {pre M : List ℕ} {a N b : ℕ} {f : List ℕ → ℕ → ℕ → ℕ → K} (h : Blk X pre a N b f)
    (hs : X.shape = pre ++ a :: (M ++ [b])) (hN : N = M.prod) {p v : List ℕ} {α β : ℕ} (hp : Valid pre p) (hα : α < a)
    (hv : Valid M v) (hβ : β < b) : X.get (p ++ α :: (v ++ [β])) = f p α (ravel M v) β := by
  subst hN
  have hv' : Valid X.shape (p ++ α :: (v ++ [β])) := by
    rw [hs]
    exact valid_append hp (by rw [valid_cons]; exact ⟨hα, valid_append hv (by simpa using hβ)⟩)
  rw [← Tensor.flat_ravel X hv', hs, ravel_core _ _ _ _ hp hv, h.2 p hp α hα _ (ravel_lt hv) β hβ]

theorem flat_two {X : Tensor K} {pre p : List ℕ} {m n x y : ℕ} (h : X.shape = pre ++ [m, n]) (hp : Valid pre p) (hx : x < m)
    (hy : y < n) : X.flat (ravel pre p * (m * n) + (x * n + y)) = X.get (p ++ [x, y]) := by
  have hv : Valid X.shape (p ++ [x, y]) := by
    rw [h]
    exact valid_append hp ((valid_pair _ _ _).2 ⟨x, y, rfl, hx, hy⟩)
  rw [← Tensor.flat_ravel X hv, h, ravel_two _ _ _ _ hp]

theorem blk_of_tall {X : Tensor K} {pre : List ℕ} {a N b : ℕ} (h : X.shape = pre ++ [a * N, b]) :
    Blk X pre a N b fun p α n β => X.get (p ++ [α * N + n, β]) := by
  refine ⟨by rw [h, List.prod_append]; simp only [List.prod_cons, List.prod_nil]; ring, fun p hp α hα n hn β hβ => ?_⟩
  show _ = X.get _
  rw [← flat_two h hp (mul_add_lt hα hn) hβ]
  congr 1; ring

theorem blk_of_wide {X : Tensor K} {pre : List ℕ} {a N b : ℕ} (h : X.shape = pre ++ [a, N * b]) :
    Blk X pre a N b fun p α n β => X.get (p ++ [α, n * b + β]) := by
  refine ⟨by rw [h]; simp [List.prod_append], fun p hp α hα n hn β hβ => ?_⟩
  show _ = X.get _
  rw [← flat_two h hp hα (mul_add_lt hn hβ)]

theorem Blk.tall {X : Tensor K} {pre : List ℕ} {a N b : ℕ} {f : List ℕ → ℕ → ℕ → ℕ → K} (h : Blk X pre a N b f)
    (hs : X.shape = pre ++ [a * N, b]) {p : List ℕ} {α n β : ℕ} (hp : Valid pre p) (hα : α < a) (hn : n < N) (hβ : β < b) :
    X.get (p ++ [α * N + n, β]) = f p α n β := by
  rw [← h.2 p hp α hα n hn β hβ, ← flat_two hs hp (mul_add_lt hα hn) hβ]
  congr 1; ring

theorem Blk.wide {X : Tensor K} {pre : List ℕ} {a N b : ℕ} {f : List ℕ → ℕ → ℕ → ℕ → K} (h : Blk X pre a N b f)
    (hs : X.shape = pre ++ [a, N * b]) {p : List ℕ} {α n β : ℕ} (hp : Valid pre p) (hα : α < a) (hn : n < N) (hβ : β < b) :
    X.get (p ++ [α, n * b + β]) = f p α n β := by
  rw [← h.2 p hp α hα n hn β hβ, ← flat_two hs hp hα (mul_add_lt hn hβ)]

theorem Blk.congr {X : Tensor K} {pre : List ℕ} {a N b : ℕ} {f g : List ℕ → ℕ → ℕ → ℕ → K} (h : Blk X pre a N b f)
    (hfg : ∀ p, Valid pre p → ∀ α < a, ∀ n < N, ∀ β < b, f p α n β = g p α n β) : Blk X pre a N b g :=
  ⟨h.1, fun p hp α hα n hn β hβ => (h.2 p hp α hα n hn β hβ).trans (hfg p hp α hα n hn β hβ)⟩

theorem blk_pos_lt {pre p : List ℕ} {a N b α n β : ℕ} (hp : Valid pre p) (hα : α < a) (hn : n < N) (hβ : β < b) :
    ravel pre p * (a * (N * b)) + (α * (N * b) + (n * b + β)) < pre.prod * (a * (N * b)) :=
  mul_add_lt (ravel_lt hp) (mul_add_lt hα (mul_add_lt hn hβ))

theorem Blk.reshape {X : Tensor K} {pre : List ℕ} {a N b : ℕ} {f : List ℕ → ℕ → ℕ → ℕ → K} (h : Blk X pre a N b f)
    {target : List (Option ℕ)} {s : List ℕ} (hr : resolveShape X.shape.prod target = Except.ok s) :
    ∃ Y, T3f.reshape X target = Except.ok Y ∧ Y.shape = s ∧ Blk Y pre a N b f := by
  obtain ⟨Y, e, hs, hY⟩ := reshape_flat X target s hr
  refine ⟨Y, e, hs, ?_, fun p hp α hα n hn β hβ => ?_⟩
  · rw [hs, resolveShape_prod hr, h.1]
  · rw [hY _ (by rw [h.1]; exact blk_pos_lt hp hα hn hβ)]
    exact h.2 p hp α hα n hn β hβ

/-- Reshaping to a completely given shape. -/
theorem Blk.reshape_some {X : Tensor K} {pre : List ℕ} {a N b : ℕ} {f : List ℕ → ℕ → ℕ → ℕ → K} (h : Blk X pre a N b f)
    {s : List ℕ} (hs : s.prod = pre.prod * (a * (N * b))) :
    ∃ Y, T3f.reshape X (s.map some) = Except.ok Y ∧ Y.shape = s ∧ Blk Y pre a N b f :=
  h.reshape (resolveShape_some s _ (by rw [hs, h.1]))

theorem count_none_map (l : List ℕ) : (l.map some).count none = 0 := by
  rw [List.count_eq_zero]; simp

theorem knownProd_append (l l' : List (Option ℕ)) : knownProd (l ++ l') = knownProd l * knownProd l' := by
  induction l with
  | nil => simp [knownProd]
  | cons x l ih => cases x <;> simp [knownProd, ih, Nat.mul_assoc]

theorem knownProd_map (l : List ℕ) : knownProd (l.map some) = l.prod := by
  induction l with
  | nil => rfl
  | cons x l ih => simp [knownProd, ih]

/-- Reshaping to `pre ++ [c, -1]`. -/
theorem Blk.reshape_last {X : Tensor K} {pre : List ℕ} {a N b : ℕ} {f : List ℕ → ℕ → ℕ → ℕ → K} (h : Blk X pre a N b f)
    (c m : ℕ) (hc : 0 < pre.prod * c) (hm : a * (N * b) = c * m) :
    ∃ Y, T3f.reshape X (pre.map some ++ [some c, none]) = Except.ok Y ∧ Y.shape = pre ++ [c, m] ∧ Blk Y pre a N b f := by
  have hk : knownProd (pre.map some ++ [some c, none]) = pre.prod * c := by
    rw [knownProd_append, knownProd_map]; simp [knownProd]
  have := h.reshape (resolveShape_infer (pre.map some ++ [some c, none]) m X.shape.prod
    (by rw [List.count_append, count_none_map]; simp) (by rw [hk]; exact hc) (by rw [hk, h.1, hm]; ring))
  simpa [List.map_append, Function.comp_def] using this

/-- Reshaping to `pre ++ [-1, c]`. -/
theorem Blk.reshape_first {X : Tensor K} {pre : List ℕ} {a N b : ℕ} {f : List ℕ → ℕ → ℕ → ℕ → K} (h : Blk X pre a N b f)
    (c m : ℕ) (hc : 0 < pre.prod * c) (hm : a * (N * b) = m * c) :
    ∃ Y, T3f.reshape X (pre.map some ++ [none, some c]) = Except.ok Y ∧ Y.shape = pre ++ [m, c] ∧ Blk Y pre a N b f := by
  have hk : knownProd (pre.map some ++ [none, some c]) = pre.prod * c := by
    rw [knownProd_append, knownProd_map]; simp [knownProd]
  have := h.reshape (resolveShape_infer (pre.map some ++ [none, some c]) m X.shape.prod
    (by rw [List.count_append, count_none_map]; simp) (by rw [hk]; exact hc) (by rw [hk, h.1, hm]; ring))
  simpa [List.map_append, Function.comp_def] using this

/-- Matrix product, for single matrices and for batches. -/
theorem matmul_pre [Semiring K] {bs : Option ℕ} {A B : Tensor K} {m k n : ℕ} (hA : A.shape = bs.toList ++ [m, k])
    (hB : B.shape = bs.toList ++ [k, n]) :
    ∃ C, matmul A B = Except.ok C ∧ C.shape = bs.toList ++ [m, n] ∧
      ∀ p, Valid bs.toList p → ∀ x y, C.get (p ++ [x, y]) = ∑ l ∈ Finset.range k, A.get (p ++ [x, l]) * B.get (p ++ [l, y]) := by
  cases bs with
  | none =>
    obtain ⟨C, e, s, v⟩ := matmul2 A B m k n hA hB
    refine ⟨C, e, s, fun p hp x y => ?_⟩
    obtain rfl := (valid_nil_iff p).1 hp
    exact v x y
  | some b =>
    obtain ⟨C, e, s, v⟩ := matmul3 A B b m k n hA hB
    refine ⟨C, e, s, fun p hp x y => ?_⟩
    obtain ⟨o, rfl, -⟩ := (valid_singleton _ _).1 hp
    exact v o x y

theorem matShape_pre (bs : Option ℕ) (n m : ℕ) : matShape (bs.toList ++ [n, m]) = Except.ok (bs.toList, n, m) := by
  cases bs <;> rfl

/-- Multiplying a wide block from the left. -/
theorem Blk.mul_left [Semiring K] {bs : Option ℕ} {X T : Tensor K} {a N b k : ℕ} {f : List ℕ → ℕ → ℕ → ℕ → K}
    (h : Blk X bs.toList a N b f) (hs : X.shape = bs.toList ++ [a, N * b]) (hT : T.shape = bs.toList ++ [k, a]) :
    ∃ Y, matmul T X = Except.ok Y ∧ Y.shape = bs.toList ++ [k, N * b] ∧
      Blk Y bs.toList k N b fun p γ n β => ∑ l ∈ Finset.range a, T.get (p ++ [γ, l]) * f p l n β := by
  obtain ⟨Y, e, s, v⟩ := matmul_pre hT hs
  refine ⟨Y, e, s, (blk_of_wide s).congr fun p hp γ _ n hn β hβ => ?_⟩
  rw [v p hp]
  exact Finset.sum_congr rfl fun l hl => by rw [h.wide hs hp (Finset.mem_range.1 hl) hn hβ]

/-- Multiplying a tall block from the right. -/
theorem Blk.mul_right [Semiring K] {bs : Option ℕ} {X T : Tensor K} {a N b k : ℕ} {f : List ℕ → ℕ → ℕ → ℕ → K}
    (h : Blk X bs.toList a N b f) (hs : X.shape = bs.toList ++ [a * N, b]) (hT : T.shape = bs.toList ++ [b, k]) :
    ∃ Y, matmul X T = Except.ok Y ∧ Y.shape = bs.toList ++ [a * N, k] ∧
      Blk Y bs.toList a N k fun p α n γ => ∑ l ∈ Finset.range b, f p α n l * T.get (p ++ [l, γ]) := by
  obtain ⟨Y, e, s, v⟩ := matmul_pre hs hT
  refine ⟨Y, e, s, (blk_of_tall s).congr fun p hp α hα n hn γ _ => ?_⟩
  rw [v p hp]
  exact Finset.sum_congr rfl fun l hl => by rw [h.tall hs hp hα hn (Finset.mem_range.1 hl)]

/-! ## QR of a block -/

theorem ofMats_mat {pre p : List ℕ} (n m : ℕ) (f : List ℕ → Matrix (Fin n) (Fin m) ℝ) (hp : p.length = pre.length) :
    (ofMats pre n m f).mat p n m = f p := by
  ext i j
  exact ofMats_get pre n m f p i j hp i.isLt j.isLt

theorem sum_fin_mul {N a : ℕ} (g : ℕ → ℝ) : ∑ x : Fin (a * N), g x = ∑ α ∈ Finset.range a, ∑ n ∈ Finset.range N, g (α * N + n) := by
  rw [← sum_range_mul, Finset.sum_range]

/-- QR decomposition of a tall block: `f = q t`, and the columns of `q` are orthonormal. -/
theorem qr_tall {qr : QRRoutine} (hqr : qr.Correct) {bs : Option ℕ} {X : Tensor ℝ} {a N b : ℕ} {f : List ℕ → ℕ → ℕ → ℕ → ℝ}
    (h : Blk X bs.toList a N b f) (hs : X.shape = bs.toList ++ [a * N, b]) :
    ∃ (Q T : Tensor ℝ) (g : List ℕ → ℕ → ℕ → ℕ → ℝ) (t : List ℕ → ℕ → ℕ → ℝ), linalgQR qr X = Except.ok (Q, T) ∧ Q.shape = bs.toList ++ [a * N, min (a * N) b] ∧
      Blk Q bs.toList a N (min (a * N) b) g ∧ T.shape = bs.toList ++ [min (a * N) b, b] ∧
      (∀ p γ β, T.get (p ++ [γ, β]) = t p γ β) ∧
      ∀ p, Valid bs.toList p →
        (∀ α < a, ∀ n < N, ∀ β < b, ∑ γ ∈ Finset.range (min (a * N) b), g p α n γ * t p γ β = f p α n β) ∧
        ∀ γ < min (a * N) b, ∀ γ' < min (a * N) b,
          ∑ α ∈ Finset.range a, ∑ n ∈ Finset.range N, g p α n γ * g p α n γ' = if γ = γ' then 1 else 0 := by
  set k := min (a * N) b with hk
  let Q := ofMats bs.toList (a * N) k fun p => qr.q (a * N) b (X.mat p (a * N) b)
  let T := ofMats bs.toList k b fun p => qr.r (a * N) b (X.mat p (a * N) b)
  have hQs : Q.shape = bs.toList ++ [a * N, k] := rfl
  refine ⟨Q, T, fun p α n β => Q.get (p ++ [α * N + n, β]), fun p γ β => T.get (p ++ [γ, β]), ?_, hQs, blk_of_tall hQs, rfl,
    fun _ _ _ => rfl, fun p hp => ?_⟩
  · unfold linalgQR
    rw [hs, matShape_pre, R.ok_bind]
    rfl
  · obtain ⟨h1, h2, -⟩ := hqr (a * N) b (X.mat p (a * N) b)
    rw [← ofMats_mat (pre := bs.toList) (p := p) (a * N) k (fun p => qr.q (a * N) b (X.mat p (a * N) b)) hp.length_eq] at h1 h2
    rw [← ofMats_mat (pre := bs.toList) (p := p) k b (fun p => qr.r (a * N) b (X.mat p (a * N) b)) hp.length_eq] at h2
    constructor
    · intro α hα n hn β hβ
      have := congrFun (congrFun h2 ⟨α * N + n, mul_add_lt hα hn⟩) ⟨β, hβ⟩
      rw [Matrix.mul_apply] at this
      simp only [Tensor.mat, Matrix.of_apply] at this
      rw [h.tall hs hp hα hn hβ] at this
      rw [← this, Finset.sum_range]
      rfl
    · intro γ hγ γ' hγ'
      have := congrFun (congrFun h1 ⟨γ, hγ⟩) ⟨γ', hγ'⟩
      rw [Matrix.mul_apply, Matrix.one_apply] at this
      simp only [Tensor.mat, Matrix.of_apply, Matrix.transpose_apply, Fin.mk.injEq] at this
      rw [← this]
      exact (sum_fin_mul fun x => Q.get (p ++ [x, γ]) * Q.get (p ++ [x, γ'])).symm

end T3f
