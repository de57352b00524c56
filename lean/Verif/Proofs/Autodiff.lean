import Verif.Proofs.Deltas
import Verif.Proofs.Sparse
import Verif.Model.Autodiff
import Mathlib.Analysis.Calculus.Deriv.Add
import Mathlib.Analysis.Calculus.Deriv.Mul

/-! # Automatic differentiation on tangent spaces -/

namespace T3f

/-! ## Gradients of functions of lists of tensors -/

theorem innerAll_range (d : ℕ) (g e : ℕ → Tensor ℝ) :
    innerAll ((List.range d).map g) ((List.range d).map e) = ∑ k ∈ Finset.range d, dot (g k).shape (g k).get (e k).get := by
  have : ∀ l : List ℕ, List.zipWith (fun g e => ∑ n ∈ Finset.range g.shape.prod, g.get (unravel g.shape n) * e.get (unravel g.shape n)) (l.map g) (l.map e) =
      l.map fun k => dot (g k).shape (g k).get (e k).get := by
    intro l
    induction l with
    | nil => rfl
    | cons a l ih => simp only [List.map_cons, List.zipWith_cons_cons, ih]; rfl
  unfold innerAll
  rw [this]
  induction d with
  | zero => rfl
  | succ d ih => rw [List.range_succ, List.map_append, List.sum_append, ih, Finset.sum_range_succ]; simp

theorem list_range_getD (l : List (Tensor ℝ)) : l = (List.range l.length).map fun k => l.getD k default := list_eq_range_map l default

theorem innerAll_eq {gs es : List (Tensor ℝ)} (h : es.length = gs.length) :
    innerAll gs es = ∑ k ∈ Finset.range gs.length, dot (gs.getD k default).shape (gs.getD k default).get (es.getD k default).get := by
  rw [← innerAll_range]
  congr 1
  · exact list_range_getD gs
  · rw [← h]; exact list_range_getD es

theorem shapes_eq_iff {gs ds : List (Tensor ℝ)} : gs.map (·.shape) = ds.map (·.shape) ↔
    gs.length = ds.length ∧ ∀ k < ds.length, (gs.getD k default).shape = (ds.getD k default).shape := by
  constructor
  · intro h
    have hl : gs.length = ds.length := by simpa using congrArg List.length h
    refine ⟨hl, fun k hk => ?_⟩
    have := congrArg (fun l => l.getD k []) h
    simp only [List.getD_eq_getElem?_getD, List.getElem?_map] at this ⊢
    rw [List.getElem?_eq_getElem (by omega), List.getElem?_eq_getElem hk] at this ⊢
    simpa using this
  · rintro ⟨hl, h⟩
    refine List.ext_getElem (by simpa using hl) fun k h1 h2 => ?_
    simp only [List.length_map] at h1 h2
    have := h k h2
    rw [List.getD_eq_getElem _ _ h1, List.getD_eq_getElem _ _ h2] at this
    simpa using this

/-- The gradient is unique. -/
theorem IsGradient.unique {f : List (Tensor ℝ) → R ℝ} {ds gs gs' : List (Tensor ℝ)} (h : IsGradient f ds gs) (h' : IsGradient f ds gs') :
    gs'.length = gs.length ∧ ∀ k < gs.length, (gs'.getD k default).shape = (gs.getD k default).shape ∧
      ∀ i, Valid (gs.getD k default).shape i → (gs'.getD k default).get i = (gs.getD k default).get i := by
  obtain ⟨hl, hs⟩ := shapes_eq_iff.1 h.1
  obtain ⟨hl', hs'⟩ := shapes_eq_iff.1 h'.1
  have hsh : ∀ k < gs.length, (gs'.getD k default).shape = (gs.getD k default).shape := fun k hk => by
    rw [hs k (by omega), hs' k (by omega)]
  refine ⟨by omega, fun k hk => ⟨hsh k hk, ?_⟩⟩
  let es : List (Tensor ℝ) := (List.range gs.length).map fun k =>
    ⟨(gs.getD k default).shape, fun i => (gs'.getD k default).get i - (gs.getD k default).get i⟩
  have hel : es.length = gs.length := by simp [es]
  have heg : ∀ k < gs.length, es.getD k default =
      ⟨(gs.getD k default).shape, fun i => (gs'.getD k default).get i - (gs.getD k default).get i⟩ := fun k hk => by
    rw [List.getD_eq_getElem _ _ (by omega)]; simp [es]
  have hes : es.map (·.shape) = ds.map (·.shape) := shapes_eq_iff.2 ⟨by omega, fun k hk => by rw [heg k (by omega), hs k hk]⟩
  obtain ⟨F, e1, d1⟩ := h.2 es hes
  obtain ⟨F', e2, d2⟩ := h'.2 es hes
  have hFF : F =ᶠ[nhds 0] F' := by
    filter_upwards [e1, e2] with t a b
    exact Except.ok.inj (a.symm.trans b)
  have := (d1.congr_of_eventuallyEq hFF.symm).unique d2
  rw [innerAll_eq hel, innerAll_eq (by omega), show gs'.length = gs.length by omega] at this
  have hz : ∑ k ∈ Finset.range gs.length, dot (gs.getD k default).shape (es.getD k default).get (es.getD k default).get = 0 := by
    rw [← sub_eq_zero.2 this.symm, ← Finset.sum_sub_distrib]
    refine Finset.sum_congr rfl fun k hk => ?_
    have hk := Finset.mem_range.1 hk
    rw [hsh k hk, ← dot_sub, heg k hk]
  have h0 := (Finset.sum_eq_zero_iff_of_nonneg fun k _ => dot_self_nonneg _).1 hz k (Finset.mem_range.2 hk)
  intro i hi
  have := dot_self h0 i hi
  rw [heg k hk] at this
  exact sub_eq_zero.1 this

/-- There is a routine that satisfies the specification. -/
theorem gradRoutine_exists : ∃ ad : GradRoutine, ad.Correct := by
  classical
  refine ⟨⟨fun f ds => match f ds with
    | Except.error e => Except.error e
    | Except.ok v => if h : ∃ gs, IsGradient f ds gs then Except.ok (v, h.choose) else Except.ok (v, ds)⟩, fun f ds => ⟨fun e he => ?_, fun v gs hv hg => ?_⟩⟩
  · simp only [he]
  · have h : ∃ gs, IsGradient f ds gs := ⟨gs, hg⟩
    refine ⟨h.choose, by simp only [hv, dif_pos h], hg.unique h.choose_spec⟩

/-! ## The gauge conditions -/

section
variable {x left right : TT ℝ}

/-- The block without its part along the left core. -/
noncomputable def gaugeBlock (N rL : ℕ → ℕ) (L G : ℕ → ℕ → ℕ → ℕ → ℝ) (d k n a b : ℕ) : ℝ :=
  if k + 1 < d then G k n a b - ∑ c ∈ Finset.range (rL (k + 1)), L k n a c *
    ∑ a' ∈ Finset.range (rL k), ∑ n' ∈ Finset.range (N k), L k n' a' c * G k n' a' b
  else G k n a b

theorem gaugeBlock_gauged {N rL rV : ℕ → ℕ} {L G : ℕ → ℕ → ℕ → ℕ → ℝ} {d : ℕ} (hL : ∀ j, j + 1 < d → LOrth N rL L j) :
    Gauged N rL rV L (gaugeBlock N rL L G d) d := by
  intro k hk c hc b _
  simp only [gaugeBlock, if_pos hk, mul_sub, Finset.sum_sub_distrib]
  rw [sub_eq_zero]
  obtain ⟨u, hu⟩ : ∃ u : ℕ → ℝ, ∀ c, ∑ a' ∈ Finset.range (rL k), ∑ n' ∈ Finset.range (N k), L k n' a' c * G k n' a' b = u c := ⟨_, fun _ => rfl⟩
  simp only [hu]
  simp only [Finset.mul_sum]
  calc u c = ∑ c' ∈ Finset.range (rL (k + 1)), δ c c' * u c' := (sum_δ_left hc _).symm
    _ = ∑ c' ∈ Finset.range (rL (k + 1)), ∑ a ∈ Finset.range (rL k), ∑ n ∈ Finset.range (N k), L k n a c * (L k n a c' * u c') := by
      refine Finset.sum_congr rfl fun c' hc' => ?_
      rw [← hL k hk c hc c' (Finset.mem_range.1 hc')]
      simp only [Finset.sum_mul, mul_assoc]
    _ = _ := by
      rw [Finset.sum_comm]
      refine Finset.sum_congr rfl fun a _ => ?_
      rw [Finset.sum_comm]

/-- For gauged blocks nothing is changed by the gauge conditions on the other factor. -/
theorem gaugeBlock_dot {N rL rV : ℕ → ℕ} {L G E : ℕ → ℕ → ℕ → ℕ → ℝ} {d : ℕ} (hE : Gauged N rL rV L E d) (k : ℕ) :
    ∑ a ∈ Finset.range (rL k), ∑ n ∈ Finset.range (N k), ∑ b ∈ Finset.range (rV (k + 1)), gaugeBlock N rL L G d k n a b * E k n a b =
    ∑ a ∈ Finset.range (rL k), ∑ n ∈ Finset.range (N k), ∑ b ∈ Finset.range (rV (k + 1)), G k n a b * E k n a b := by
  by_cases hk : k + 1 < d
  swap
  · simp only [gaugeBlock, if_neg hk]
  simp only [gaugeBlock, if_pos hk, sub_mul, Finset.sum_sub_distrib]
  rw [sub_eq_self]
  obtain ⟨u, hu⟩ : ∃ u : ℕ → ℕ → ℝ, ∀ b c, ∑ a' ∈ Finset.range (rL k), ∑ n' ∈ Finset.range (N k), L k n' a' c * G k n' a' b = u b c :=
    ⟨_, fun _ _ => rfl⟩
  simp only [hu]
  calc _ = ∑ b ∈ Finset.range (rV (k + 1)), ∑ c ∈ Finset.range (rL (k + 1)), u b c *
        ∑ a ∈ Finset.range (rL k), ∑ n ∈ Finset.range (N k), L k n a c * E k n a b := by
        simp only [Finset.mul_sum, Finset.sum_mul]
        rw [Finset.sum_congr rfl fun a _ => Finset.sum_comm, Finset.sum_comm]
        refine Finset.sum_congr rfl fun b _ => ?_
        rw [Finset.sum_congr rfl fun a _ => Finset.sum_comm, Finset.sum_comm]
        refine Finset.sum_congr rfl fun c _ => Finset.sum_congr rfl fun a _ => Finset.sum_congr rfl fun n _ => ?_
        ring
    _ = 0 := Finset.sum_eq_zero fun b hb => Finset.sum_eq_zero fun c hc => by
        rw [hE k hk c (Finset.mem_range.1 hc) b (Finset.mem_range.1 hb), mul_zero]

theorem binop_same (f : ℝ → ℝ → ℝ) {A B : Tensor ℝ} {s : List ℕ} (hA : A.shape = s) (hB : B.shape = s) :
    ∃ S, binop f A B = Except.ok S ∧ S.shape = s ∧ ∀ i, Valid s i → S.get i = f (A.get i) (B.get i) := by
  obtain ⟨S, e, sh, v⟩ := binop_ok f A B s (by rw [hA, hB]; exact bshape_self _)
  refine ⟨S, e, sh, fun i hi => ?_⟩
  rw [v, hA, hB, bproj_valid hi]

theorem gaugeStep_ok (F : TFrame x left right) (hrk : ∀ k ≤ x.ndims, right.rank k = left.rank k) {gs : List (Tensor ℝ)} (hlen : gs.length = x.ndims)
    (hs : ∀ k < x.ndims, (gs.getD k default).shape = left.rank k :: (x.modes k ++ [right.rank (k + 1)])) {k : ℕ} (hk : k < x.ndims) :
    ∃ D, gaugeStep left gs k = Except.ok D ∧ D.shape = left.rank k :: (x.modes k ++ [right.rank (k + 1)]) ∧
      ∀ a < left.rank k, ∀ n < x.N k, ∀ b < right.rank (k + 1), D.get (a :: (unravel (x.modes k) n ++ [b])) =
        gaugeBlock x.N left.rank (left.fl []) (flat x (blk (fun k => gs.getD k default) [])) x.ndims k n a b := by
  have hkl : k < left.ndims := by rw [F.nl]; exact hk
  set G := gs.getD k default
  have pG : pyGet gs k = Except.ok G := pyGet_of_lt _ _ _ (by omega)
  have rpos : 0 < left.rank (k + 1) := F.wl.rank_pos _ (by rw [F.nl]; omega)
  have hsG := hs k hk
  rw [hrk (k + 1) (by omega)] at hsG ⊢
  have hsl := F.sl hk
  obtain ⟨Q, eQ, sQ, bQ⟩ := (blk_of_core (pre := []) hsl).reshape_first (left.rank (k + 1)) (left.rank k * (x.modes k).prod) (by simpa using rpos) (by ring)
  unfold gaugeStep
  rw [F.wl.pyRank (by omega), F.cl hk]
  simp only [R.ok_bind, List.map_nil, List.nil_append] at eQ sQ ⊢
  rw [eQ]
  simp only [R.ok_bind, pG, F.nl]
  have hc : (k < x.ndims - 1) ↔ k + 1 < x.ndims := by omega
  by_cases hk1 : k + 1 < x.ndims
  swap
  · rw [if_neg (by omega)]
    refine ⟨G, rfl, hsG, fun a ha n hn b hb => ?_⟩
    rw [gaugeBlock, if_neg hk1]
    rfl
  rw [if_pos (by omega)]
  obtain ⟨M, eM, sM, bM⟩ := (blk_of_core (pre := []) hsG).reshape_first (left.rank (k + 1)) (left.rank k * (x.modes k).prod) (by simpa using rpos) (by ring)
  simp only [List.map_nil, List.nil_append] at eM sM
  obtain ⟨T, eT, sT, vT⟩ := transpose10 sQ
  obtain ⟨C, eC, sC, vC⟩ := matmul2 T M _ _ _ sT sM
  obtain ⟨C', eC', sC', vC'⟩ := matmul2 Q C _ _ _ sQ sC
  obtain ⟨S, eS, sS, vS⟩ := binop_same (· - ·) sM sC'
  have bS : Blk S [] (left.rank k) (x.modes k).prod (left.rank (k + 1)) fun p α n β => S.get (p ++ [α * (x.modes k).prod + n, β]) := blk_of_tall (by simpa using sS)
  obtain ⟨D, eD, sD, bD⟩ := bS.reshape_some (s := (left.core k).shape) (by rw [hsl]; simp)
  refine ⟨D, ?_, sD.trans hsl, fun a ha n hn b hb => ?_⟩
  · rw [eM, R.ok_bind, eT, R.ok_bind, eC, R.ok_bind, eC', R.ok_bind, eS, R.ok_bind, eD]
  · have hn' : n < (x.modes k).prod := hn
    have key := bD.core (pre := []) (M := x.modes k) (p := []) (v := unravel (x.modes k) n) (α := a) (β := b) (by rw [sD, hsl]; rfl) rfl trivial ha (unravel_valid hn') hb
    simp only [List.nil_append, ravel_unravel hn'] at key
    rw [key, vS [a * (x.modes k).prod + n, b] ⟨mul_add_lt ha hn', hb, trivial⟩, vC']
    simp only [vC, vT]
    have hQ : ∀ a < left.rank k, ∀ n < (x.modes k).prod, ∀ c < left.rank (k + 1), Q.get [a * (x.modes k).prod + n, c] = left.fl [] k n a c := by
      intro a ha n hn c hc
      have := bQ.tall (p := []) (by simpa using sQ) trivial ha hn hc
      simp only [List.nil_append] at this
      rw [this, TT.fl, F.ml]; rfl
    have hM : ∀ a < left.rank k, ∀ n < (x.modes k).prod, ∀ c < left.rank (k + 1), M.get [a * (x.modes k).prod + n, c] =
        flat x (blk (fun k => gs.getD k default) []) k n a c := by
      intro a ha n hn c hc
      have := bM.tall (p := []) (by simpa using sM) trivial ha hn hc
      simp only [List.nil_append] at this
      rw [this]; rfl
    rw [gaugeBlock, if_pos hk1, hM a ha n hn' b hb]
    congr 1
    refine Finset.sum_congr rfl fun c hc => ?_
    have hc := Finset.mem_range.1 hc
    rw [hQ a ha n hn' c hc, sum_range_mul]
    congr 1
    refine Finset.sum_congr rfl fun a' ha' => Finset.sum_congr rfl fun n' hn' => ?_
    rw [hQ a' (Finset.mem_range.1 ha') n' (Finset.mem_range.1 hn') c hc, hM a' (Finset.mem_range.1 ha') n' (Finset.mem_range.1 hn') b hb]

theorem enforceGauge_ok (F : TFrame x left right) (hrk : ∀ k ≤ x.ndims, right.rank k = left.rank k) {gs : List (Tensor ℝ)} (hlen : gs.length = x.ndims)
    (hs : ∀ k < x.ndims, (gs.getD k default).shape = left.rank k :: (x.modes k ++ [right.rank (k + 1)])) :
    ∃ ds, enforceGauge gs left = Except.ok ds ∧ ds.length = x.ndims ∧
      (∀ k < x.ndims, (ds.getD k default).shape = left.rank k :: (x.modes k ++ [right.rank (k + 1)])) ∧
      ∀ k < x.ndims, ∀ a < left.rank k, ∀ n < x.N k, ∀ b < right.rank (k + 1), flat x (blk (fun k => ds.getD k default) []) k n a b =
        gaugeBlock x.N left.rank (left.fl []) (flat x (blk (fun k => gs.getD k default) [])) x.ndims k n a b := by
  obtain ⟨ds, e, hl, h⟩ := mapRange_ok left.ndims (gaugeStep left gs) (fun k D => D.shape = left.rank k :: (x.modes k ++ [right.rank (k + 1)]) ∧
      ∀ a < left.rank k, ∀ n < x.N k, ∀ b < right.rank (k + 1), D.get (a :: (unravel (x.modes k) n ++ [b])) =
        gaugeBlock x.N left.rank (left.fl []) (flat x (blk (fun k => gs.getD k default) [])) x.ndims k n a b)
    fun k hk => gaugeStep_ok F hrk hlen hs (by rw [← F.nl]; exact hk)
  refine ⟨ds, e, by rw [hl, F.nl], fun k hk => ?_, fun k hk a ha n hn b hb => ?_⟩
  · exact (h k (by rw [F.nl]; exact hk)).1
  · exact (h k (by rw [F.nl]; exact hk)).2 a ha n hn b hb

/-! ## Gradients along a frame -/

theorem dot_core (r r' : ℕ) (M : List ℕ) (f g : List ℕ → ℝ) : dot (r :: (M ++ [r'])) f g =
    ∑ a ∈ Finset.range r, ∑ n ∈ Finset.range M.prod, ∑ b ∈ Finset.range r', f (a :: (unravel M n ++ [b])) * g (a :: (unravel M n ++ [b])) := by
  unfold dot
  rw [List.prod_cons, sum_range_mul, List.prod_append, List.prod_singleton]
  refine Finset.sum_congr rfl fun a ha => ?_
  rw [sum_range_mul]
  refine Finset.sum_congr rfl fun n hn => Finset.sum_congr rfl fun b hb => ?_
  have hn := Finset.mem_range.1 hn
  have hb := Finset.mem_range.1 hb
  have h1 : n * r' + b < (M ++ [r']).prod := by rw [List.prod_append, List.prod_singleton]; exact mul_add_lt hn hb
  have : unravel (r :: (M ++ [r'])) (a * (M.prod * r') + (n * r' + b)) = a :: (unravel M n ++ [b]) := by
    rw [← unravel_append_singleton M r' n b hn hb]
    have e := unravel_append [r] (M ++ [r']) a (n * r' + b) (by simpa using Finset.mem_range.1 ha) h1
    rw [List.prod_append, List.prod_singleton] at e
    rw [List.singleton_append] at e
    rw [e]
    have : unravel [r] a = [a] := by simp [unravel]
    rw [this]; rfl
  rw [this]

/-- The shape of block `k`. -/
def blkShape (x left right : TT ℝ) (k : ℕ) : List ℕ := left.rank k :: (x.modes k ++ [right.rank (k + 1)])

/-- The blocks given by their elements. -/
def ofElems (E : ℕ → List ℕ → ℝ) : ℕ → List ℕ → ℕ → ℕ → ℝ := fun k v a b => E k (a :: (v ++ [b]))

theorem dot_blkShape (k : ℕ) (f g : ℕ → List ℕ → ℝ) : dot (blkShape x left right k) (f k) (g k) =
    ∑ a ∈ Finset.range (left.rank k), ∑ n ∈ Finset.range (x.N k), ∑ b ∈ Finset.range (right.rank (k + 1)),
      flat x (ofElems f) k n a b * flat x (ofElems g) k n a b := dot_core _ _ _ _ _

theorem dot_sum {ι : Type} (s : List ℕ) (S : Finset ι) (h : List ℕ → ℝ) (f : ι → List ℕ → ℝ) :
    dot s h (fun i => ∑ j ∈ S, f j i) = ∑ j ∈ S, dot s h (f j) := by
  unfold dot
  rw [Finset.sum_comm]
  exact Finset.sum_congr rfl fun n _ => Finset.mul_sum _ _ _

theorem dot_smul (s : List ℕ) (h : List ℕ → ℝ) (c : ℝ) (f : List ℕ → ℝ) : dot s h (fun i => c * f i) = c * dot s h f := by
  unfold dot
  rw [Finset.mul_sum]
  exact Finset.sum_congr rfl fun n _ => by ring

theorem dot_add (s : List ℕ) (h : List ℕ → ℝ) (f g : List ℕ → ℝ) : dot s h (fun i => f i + g i) = dot s h f + dot s h g := by
  unfold dot
  rw [← Finset.sum_add_distrib]
  exact Finset.sum_congr rfl fun n _ => by ring

/-- The inner product with a vector, as a linear function of the blocks. -/
theorem pullback_exists (wx : x.WF) (s : List ℕ) (hs : s = restShape x.rawShape) (h : List ℕ → ℝ) :
    ∃ G : ℕ → Tensor ℝ, (∀ k, (G k).shape = blkShape x left right k) ∧ ∀ E : ℕ → List ℕ → ℝ,
      ∑ k ∈ Finset.range x.ndims, dot (blkShape x left right k) (G k).get (E k) =
        dot s h (fun i => frameVec x left right (ofElems E) (restModes x.rawShape i)) := by
  classical
  let U : ℕ → List ℕ → ℕ → List ℕ → ℕ → ℕ → ℝ := fun k idx k' v a b => if k' = k ∧ a :: (v ++ [b]) = idx then 1 else 0
  refine ⟨fun k => ⟨blkShape x left right k, fun idx => dot s h (fun i => frameVec x left right (U k idx) (restModes x.rawShape i))⟩, fun _ => rfl, fun E => ?_⟩
  calc _ = ∑ k ∈ Finset.range x.ndims, ∑ n ∈ Finset.range (blkShape x left right k).prod,
        dot s h (fun i => E k (unravel (blkShape x left right k) n) * frameVec x left right (U k (unravel (blkShape x left right k) n)) (restModes x.rawShape i)) := by
        refine Finset.sum_congr rfl fun k _ => ?_
        conv_lhs => unfold dot
        refine Finset.sum_congr rfl fun n _ => ?_
        rw [dot_smul, mul_comm]
        rfl
    _ = dot s h (fun i => ∑ k ∈ Finset.range x.ndims, ∑ n ∈ Finset.range (blkShape x left right k).prod,
        E k (unravel (blkShape x left right k) n) * frameVec x left right (U k (unravel (blkShape x left right k) n)) (restModes x.rawShape i)) := by
        rw [dot_sum]
        exact Finset.sum_congr rfl fun k _ => (dot_sum _ _ _ _).symm
    _ = _ := by
        subst hs
        refine dot_congr (fun _ _ => rfl) fun i hi => ?_
        have hm := validModes_rest wx hi
        simp only [← frameVec_smul, ← frameVec_sum]
        refine frameVec_congr fun k hk a ha b hb => ?_
        have hv : Valid (blkShape x left right k) (a :: (restModes x.rawShape i k ++ [b])) := valid_rmr ha (hm k hk) hb
        rw [Finset.sum_eq_single_of_mem k (Finset.mem_range.2 hk)]
        · rw [Finset.sum_eq_single_of_mem (ravel (blkShape x left right k) (a :: (restModes x.rawShape i k ++ [b]))) (Finset.mem_range.2 (ravel_lt hv))]
          · rw [unravel_ravel hv]
            simp [U, ofElems]
          · intro n hn hne
            have hn := Finset.mem_range.1 hn
            simp only [U]
            rw [if_neg, mul_zero]
            rintro ⟨-, e⟩
            apply hne
            rw [e, ravel_unravel hn]
        · intro k' _ hne
          refine Finset.sum_eq_zero fun n _ => ?_
          simp only [U]
          rw [if_neg (fun e => hne e.1.symm), mul_zero]

/-- Every vector of the space has gauged blocks. -/
theorem gauged_rep {qr : QRRoutine} (F : TFrame x left right) (h : x.WF) (hb : x.batch = none) (hd : 2 ≤ x.ndims)
    (hrk : ∀ k, 0 < k → k + 1 < x.ndims → right.rank k = left.rank k) {f : List ℕ → ℝ} (hf : f ∈ frameSpace x left right) :
    ∃ E, Gauged x.N left.rank right.rank (left.fl []) (flat x E) x.ndims ∧
      ∀ i, Valid (restShape x.rawShape) i → f i = frameVec x left right E (restModes x.rawShape i) := by
  obtain ⟨D, hD⟩ := hf
  let ds : List (Tensor ℝ) := (List.range x.ndims).map fun k =>
    ⟨blkShape x left right k, fun idx => D k ((idx.drop 1).dropLast) (idx.getD 0 0) (idx.getD (idx.length - 1) 0)⟩
  have hds : ∀ k < x.ndims, ds.getD k default = ⟨blkShape x left right k, fun idx => D k ((idx.drop 1).dropLast) (idx.getD 0 0) (idx.getD (idx.length - 1) 0)⟩ :=
    fun k hk => by rw [List.getD_eq_getElem _ _ (by simpa [ds] using hk)]; simp [ds]
  obtain ⟨y, _, T, yb⟩ := deltasToTangent_ok (qr := qr) F h hb hd hrk (lo := some left) (ro := some right) rfl rfl (out := none) (by simp) (deltas := ds)
    (by simp [ds]) (fun k hk => by rw [hds k hk]; rfl)
  have hry : y.rawShape = x.rawShape := T.rows.trans F.rl
  have hy : ∀ i, Valid (restShape x.rawShape) i → y.entry [] (restModes x.rawShape i) = f i := fun i hi => by
    have hm := validModes_rest h hi
    rw [T.entry_vec F (by rw [TT.bpre, yb]; trivial) hm, hD i hi]
    refine frameVec_congr fun k hk a ha b hb' => ?_
    rw [hds k hk]
    simp
  let E : ℕ → List ℕ → ℕ → ℕ → ℝ := fun k v a b => tBlock x left right y [] k (ravel (x.modes k) v) a b
  have hE : ∀ k < x.ndims, ∀ m < (x.modes k).prod, ∀ a < left.rank k, ∀ b < right.rank (k + 1),
      E k (unravel (x.modes k) m) a b = tBlock x left right y [] k m a b := fun k _ m hm a _ b _ => by
    simp only [E]; rw [ravel_unravel hm]
  have hg : Gauged x.N left.rank right.rank (left.fl []) (flat x E) x.ndims :=
    (gauged_tanBlock (rW := y.rank) (V := right.fl []) (W := y.fl []) F.lo).congr fun k hk n hn a ha b hb' => hE k (by omega) n hn a ha b hb'
  refine ⟨E, hg, fun i hi => ?_⟩
  have key := fun D' => frame_dot F h T.wf hry [] hE D'
  have hEm : (fun i => frameVec x left right E (restModes x.rawShape i)) ∈ frameSpace x left right := ⟨E, fun _ _ => rfl⟩
  obtain ⟨D', hD'⟩ := (frameSpace x left right).sub_mem ⟨D, hD⟩ hEm
  have k1 := key D'
  have hz : dot (restShape x.rawShape) (fun i => f i - frameVec x left right E (restModes x.rawShape i))
      (fun i => f i - frameVec x left right E (restModes x.rawShape i)) = 0 := by
    rw [dot_congr (g := fun i => f i - frameVec x left right E (restModes x.rawShape i)) (g' := fun i => frameVec x left right D' (restModes x.rawShape i))
      (fun _ _ => rfl) (fun i hi => hD' i hi), dot_sub, k1, sub_eq_zero]
    exact dot_congr (fun i hi => (hy i hi).symm) fun _ _ => rfl
  exact sub_eq_zero.1 (dot_self hz i hi)

/-- The gauge conditions turn a gradient along the blocks into the blocks of the projection. -/
theorem gauge_proj {qr : QRRoutine} (F : TFrame x left right) (h : x.WF) (hb : x.batch = none) (hd : 2 ≤ x.ndims)
    (hrk : ∀ k, 0 < k → k + 1 < x.ndims → right.rank k = left.rank k) {v : List ℕ → ℝ} {G D : ℕ → List ℕ → ℕ → ℕ → ℝ}
    (hG : ∀ E, ∑ k ∈ Finset.range x.ndims, ∑ a ∈ Finset.range (left.rank k), ∑ n ∈ Finset.range (x.N k), ∑ b ∈ Finset.range (right.rank (k + 1)),
      flat x G k n a b * flat x E k n a b = dot (restShape x.rawShape) v (fun i => frameVec x left right E (restModes x.rawShape i)))
    (hD : ∀ k < x.ndims, ∀ a < left.rank k, ∀ n < x.N k, ∀ b < right.rank (k + 1),
      flat x D k n a b = gaugeBlock x.N left.rank (left.fl []) (flat x G) x.ndims k n a b) :
    Gauged x.N left.rank right.rank (left.fl []) (flat x D) x.ndims ∧ ∀ f ∈ frameSpace x left right,
      dot (restShape x.rawShape) (fun i => frameVec x left right D (restModes x.rawShape i)) f = dot (restShape x.rawShape) v f := by
  have hg : Gauged x.N left.rank right.rank (left.fl []) (flat x D) x.ndims :=
    (gaugeBlock_gauged (G := flat x G) F.lo).congr fun k hk n hn a ha b hb' => hD k (by omega) a ha n hn b hb'
  refine ⟨hg, fun f hf => ?_⟩
  obtain ⟨E, hE, hv⟩ := gauged_rep (qr := qr) F h hb hd hrk hf
  rw [dot_congr (f := v) (fun _ _ => rfl) hv, dot_congr (s := restShape x.rawShape) (fun _ _ => rfl) hv, frame_gauged_dot F h hg hE, ← hG E]
  refine Finset.sum_congr rfl fun k hk => ?_
  rw [← gaugeBlock_dot (G := flat x G) hE k]
  exact Finset.sum_congr rfl fun a ha => Finset.sum_congr rfl fun n hn => Finset.sum_congr rfl fun b hb' => by
    rw [hD k (Finset.mem_range.1 hk) a (Finset.mem_range.1 ha) n (Finset.mem_range.1 hn) b (Finset.mem_range.1 hb')]

end

end T3f
