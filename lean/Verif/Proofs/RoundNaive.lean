import Verif.Proofs.RoundContract

/-!
# Routines that add the products one after the other
-/

namespace T3f

namespace Circ

variable {ι : Type}

/-- `c₁ + (c₂ + ...)`. -/
def sumOf : List (Circ ι) → Circ ι
  | [] => zero
  | [c] => c
  | c :: l => add c (sumOf l)

/-- `x₁ * (x₂ * ...)`. -/
def prodOf : List (Circ ι) → Circ ι
  | [] => one
  | [c] => c
  | c :: l => mul c (prodOf l)

theorem sumOf_exact (x : ι → ℝ) (l : List (Circ ι)) : (sumOf l).exact x = (l.map (exact x)).sum := by
  induction l with
  | nil => rfl
  | cons c l ih =>
    cases l with
    | nil => simp [sumOf]
    | cons d l => simp only [sumOf, exact, ih, List.map_cons, List.sum_cons]

theorem prodOf_exact (x : ι → ℝ) (l : List (Circ ι)) : (prodOf l).exact x = (l.map (exact x)).prod := by
  induction l with
  | nil => rfl
  | cons c l ih =>
    cases l with
    | nil => simp [prodOf]
    | cons d l => simp only [prodOf, exact, ih, List.map_cons, List.prod_cons]

theorem sumOf_rounds {r : ℕ} (l : List (Circ ι)) (h : ∀ c ∈ l, c.rounds ≤ r) : (sumOf l).rounds ≤ r + (l.length - 1) := by
  induction l with
  | nil => simp [sumOf, rounds]
  | cons c l ih =>
    cases l with
    | nil => simpa [sumOf] using h c (by simp)
    | cons d l =>
      have h1 := h c (by simp)
      have h2 := ih fun c hc => h c (List.mem_cons_of_mem _ hc)
      simp only [sumOf, rounds, List.length_cons] at h2 ⊢
      omega

theorem prodOf_rounds (l : List (Circ ι)) (h : ∀ c ∈ l, c.rounds = 0) : (prodOf l).rounds = l.length - 1 := by
  induction l with
  | nil => simp [prodOf, rounds]
  | cons c l ih =>
    cases l with
    | nil => simpa [prodOf] using h c (by simp)
    | cons d l =>
      have h1 := h c (by simp)
      have h2 := ih fun c hc => h c (List.mem_cons_of_mem _ hc)
      simp only [prodOf, rounds, List.length_cons] at h2 ⊢
      omega

end Circ

/-- The elements that are multiplied for the labels `env`. -/
def einVars (ins : List (List Char)) (env : List (Char × ℕ)) : ℕ → List (Circ (ℕ × List ℕ))
  | k => ins.zipIdx k |>.map fun p => Circ.var (p.2, p.1.map (lookupLabel env))

/-- One element of an einsum call. -/
def einCirc (spec : List (List Char) × List Char) (ops : List (Tensor ℝ)) (idx : List ℕ) : Circ (ℕ × List ℕ) :=
  Circ.sumOf ((envs (einContracted spec ops) (spec.2.zip idx)).map fun env => Circ.prodOf (einVars spec.1 env 0))

/-- One element of a matrix product: the products are `a[p ++ [l]] * b[q ++ [l] ++ r]`. -/
def matCirc (k : ℕ) (p q r : List ℕ) : Circ (ℕ × List ℕ) :=
  Circ.sumOf ((List.range k).map fun l => Circ.mul (Circ.var (0, p ++ [l])) (Circ.var (1, q ++ l :: r)))

/-- The circuit of an element of `tf.matmul`. -/
def matmulCirc (a b : Tensor ℝ) (idx : List ℕ) : Circ (ℕ × List ℕ) :=
  match a.shape.reverse, b.shape.reverse with
  | k :: _ :: pa, _ :: _ :: pb => match bshape pa pb with
      | some p => matCirc k (bproj pa.reverse (idx.take p.length) ++ [idx.getD p.length 0]) (bproj pb.reverse (idx.take p.length))
          [idx.getD (p.length + 1) 0]
      | none => Circ.zero
  | _, _ => Circ.zero

/-- Routines that compute each element by adding the products one after the other. -/
noncomputable def naiveRoutines (A : Arith) : FloatRoutines where
  matmul a b := do
    let C ← T3f.matmul a b
    pure ⟨C.shape, fun idx => (matmulCirc a b idx).eval A (elements [a, b])⟩
  einsum spec ops := do
    let C ← T3f.einsum spec ops
    pure ⟨C.shape, fun idx => (einCirc spec ops idx).eval A (elements ops)⟩
  mul := A.mul
  root c n := A.mul (|c| ^ (1 / (n : ℝ))) 1
  rootRounds := 1

theorem einVars_exact (ins : List (List Char)) (env : List (Char × ℕ)) (pre ops : List (Tensor ℝ)) (hl : ins.length = ops.length) :
    ((einVars ins env pre.length).map (Circ.exact (elements (pre ++ ops)))).prod = einProd ins ops env := by
  unfold einVars einProd
  induction ins generalizing pre ops with
  | nil => simp
  | cons l ins ih =>
    cases ops with
    | nil => simp at hl
    | cons t ops =>
      have := ih (pre ++ [t]) ops (by simpa using hl)
      simp only [List.append_assoc, List.singleton_append, List.length_append, List.length_singleton] at this
      simp only [List.zipIdx_cons, List.map_cons, List.prod_cons, List.zipWith_cons_cons, this]
      congr 1
      simp [Circ.exact, elements, List.getD_eq_getElem?_getD]

theorem einCirc_exact {spec : List (List Char) × List Char} {ops ops' : List (Tensor ℝ)} {C : Tensor ℝ} (hs : ops'.map Tensor.shape = ops.map Tensor.shape)
    (h : einsum spec ops' = Except.ok C) (idx : List ℕ) : (einCirc spec ops idx).exact (elements ops') = C.get idx := by
  classical
  rw [einsum_eq] at h
  by_cases hk : EinOk spec ops'
  · rw [if_pos hk] at h
    rw [← Except.ok.inj h]
    unfold einCirc
    rw [Circ.sumOf_exact, List.map_map, einContracted_congr hs]
    refine congrArg List.sum (List.map_congr_left fun env _ => ?_)
    simp only [Function.comp_apply]
    rw [Circ.prodOf_exact]
    exact einVars_exact spec.1 env [] ops' (by simpa using congrArg List.length hk.1)
  · rw [if_neg hk] at h
    exact absurd h (by simp)

theorem einCirc_rounds (spec : List (List Char) × List Char) (ops : List (Tensor ℝ)) (idx : List ℕ) (hl : spec.1.length = ops.length) :
    (einCirc spec ops idx).rounds ≤ einTerms spec ops + ops.length - 2 := by
  unfold einCirc
  have hp : ∀ env, (Circ.prodOf (einVars spec.1 env 0)).rounds = ops.length - 1 := fun env => by
    rw [Circ.prodOf_rounds]
    · simp [einVars, hl]
    · intro c hc
      simp only [einVars, List.mem_map] at hc
      obtain ⟨p, -, rfl⟩ := hc
      rfl
  have hn : (envs (einContracted spec ops) (spec.2.zip idx)).length = einTerms spec ops := length_envs _ _
  cases he : envs (einContracted spec ops) (spec.2.zip idx) with
  | nil => simp [Circ.sumOf, Circ.rounds]
  | cons e l =>
    rw [← he]
    have := Circ.sumOf_rounds (r := ops.length - 1) ((envs (einContracted spec ops) (spec.2.zip idx)).map fun env => Circ.prodOf (einVars spec.1 env 0)) (by
      intro c hc
      obtain ⟨env, -, rfl⟩ := List.mem_map.1 hc
      exact (hp env).le)
    rw [List.length_map, hn] at this
    have h1 : 1 ≤ einTerms spec ops := by rw [← hn, he]; simp
    rcases Nat.eq_zero_or_pos ops.length with h0 | h0
    · have : einTerms spec ops = 1 := by
        have : ops = [] := by simpa using h0
        subst this
        simp [einTerms, einContracted, einDims]
      omega
    · omega

theorem matCirc_exact (k : ℕ) (p q r : List ℕ) (ops : List (Tensor ℝ)) :
    (matCirc k p q r).exact (elements ops) = ∑ l ∈ Finset.range k, (ops.getD 0 default).get (p ++ [l]) * (ops.getD 1 default).get (q ++ l :: r) := by
  unfold matCirc
  rw [Circ.sumOf_exact, sum_range_list, List.map_map]
  rfl

theorem matCirc_rounds (k : ℕ) (p q r : List ℕ) : (matCirc k p q r).rounds ≤ k := by
  cases k with
  | zero => simp [matCirc, Circ.sumOf, Circ.rounds]
  | succ k =>
    have := Circ.sumOf_rounds (r := 1) ((List.range (k + 1)).map fun l => Circ.mul (Circ.var (0, p ++ [l])) (Circ.var (1, q ++ l :: r))) (by
      intro c hc
      obtain ⟨l, -, rfl⟩ := List.mem_map.1 hc
      simp [Circ.rounds])
    simp only [List.length_map, List.length_range] at this
    unfold matCirc
    omega

theorem naive_matmul (A : Arith) (a b : Tensor ℝ) : Rounded A (fun l => T3f.matmul (l.getD 0 default) (l.getD 1 default)) (a.shape.getLastD 0) [a, b]
    ((naiveRoutines A).matmul a b) := by
  unfold Rounded naiveRoutines
  simp only [List.getD_cons_zero, List.getD_cons_succ]
  cases e : T3f.matmul a b with
  | error err => rfl
  | ok C =>
    refine ⟨_, rfl, rfl, fun idx hi => ⟨matmulCirc a b idx, ?_, rfl, fun ops' C' hs hC' => ?_⟩⟩
    · unfold matmulCirc
      split
      · rename_i k m pa n k' pb ea eb
        have : a.shape.getLastD 0 = k := by rw [← List.reverse_reverse a.shape, ea]; simp
        rw [this]
        split
        · exact matCirc_rounds _ _ _ _
        · simp [Circ.rounds]
      · simp [Circ.rounds]
    · obtain ⟨a', b', rfl⟩ := List.length_eq_two.1 (show ops'.length = 2 by simpa using congrArg List.length hs)
      simp only [List.map_cons, List.map_nil, List.cons.injEq, and_true] at hs
      simp only [List.getD_cons_zero, List.getD_cons_succ] at hC'
      obtain ⟨D, eD, sD, vD⟩ := matmul_bmatmul e
      obtain ⟨D', eD', sD', vD'⟩ := matmul_bmatmul hC'
      have hi' : Valid D'.shape idx := by
        have : D'.shape = D.shape := by
          clear vD vD'
          unfold bmatmul at eD eD'
          rw [hs.1, hs.2] at eD'
          split at eD
          · rename_i ea eb
            split at eD
            · rename_i hp
              split_ifs at eD with hk
              simp only [ea, eb, hp, hk, if_true] at eD'
              rw [← Except.ok.inj eD, ← Except.ok.inj eD']
            · cases eD
          · cases eD
        rw [this, sD]
        exact hi
      rw [← vD' idx (sD' ▸ hi')]
      unfold bmatmul at eD'
      unfold matmulCirc
      rw [hs.1, hs.2] at eD'
      split at eD'
      · rename_i k m pa n k' pb ea eb
        split at eD'
        · rename_i p hp
          split_ifs at eD'
          simp only [ea, eb, hp]
          obtain rfl := Except.ok.inj eD'
          simp only
          rw [matCirc_exact]
          simp
        · cases eD'
      · cases eD'

theorem naive_einsum (A : Arith) (spec : List (List Char) × List Char) (ops : List (Tensor ℝ)) :
    Rounded A (T3f.einsum spec) (einTerms spec ops + ops.length - 2) ops ((naiveRoutines A).einsum spec ops) := by
  unfold Rounded naiveRoutines
  simp only
  cases e : T3f.einsum spec ops with
  | error err => rfl
  | ok C =>
    refine ⟨_, rfl, rfl, fun idx hi => ⟨einCirc spec ops idx, einCirc_rounds spec ops idx ?_, rfl, fun ops' C' hs hC' => einCirc_exact hs hC' idx⟩⟩
    classical
    rw [einsum_eq] at e
    by_cases hk : EinOk spec ops
    · simpa using congrArg List.length hk.1
    · rw [if_neg hk] at e
      exact absurd e (by simp)

theorem naive_root (A : Arith) (c : ℝ) (n : ℕ) :
    |(naiveRoutines A).root c n - |c| ^ (1 / (n : ℝ))| ≤ ((1 + A.u) ^ (naiveRoutines A).rootRounds - 1) * |c| ^ (1 / (n : ℝ)) := by
  have := A.mul_err (|c| ^ (1 / (n : ℝ))) 1
  rw [mul_one, abs_of_nonneg (show 0 ≤ |c| ^ (1 / (n : ℝ)) by positivity)] at this
  change |A.mul (|c| ^ (1 / (n : ℝ))) 1 - |c| ^ (1 / (n : ℝ))| ≤ ((1 + A.u) ^ 1 - 1) * |c| ^ (1 / (n : ℝ))
  rwa [pow_one, add_sub_cancel_left]

theorem naive_follows (A : Arith) : (naiveRoutines A).Follows A :=
  ⟨fun a b => (naive_matmul A a b).accurate, fun spec ops => (naive_einsum A spec ops).accurate, A.mul_err, naive_root A⟩

theorem naive_kernels (A : Arith) : (naiveRoutines A).Kernels A := ⟨naive_matmul A, fun spec ops _ => naive_einsum A spec ops, A.mul_err, naive_root A⟩

end T3f
