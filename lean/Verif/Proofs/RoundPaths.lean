import Verif.Proofs.RoundContract
import Verif.Proofs.Paths
import Verif.Spec.Cost

/-!
# Rounding errors of contractions along a path
-/

namespace T3f

section

variable {ρ : ℕ → ℝ → ℝ → ℝ → Prop}

theorem TriL.length {ms : List ℕ} {as bs cs : List (Tensor ℝ)} (h : TriL ρ ms as bs cs) : ms.length = as.length := by
  induction as generalizing ms bs cs with
  | nil => match ms, bs, cs, h with
    | [], [], [], _ => rfl
  | cons a as ih => match ms, bs, cs, h with
    | m :: ms, b :: bs, c :: cs, h => simp [ih h.2]

theorem TriL.getD {ms : List ℕ} {as bs cs : List (Tensor ℝ)} (h : TriL ρ ms as bs cs) {i : ℕ} (hi : i < as.length) :
    Tri (ρ (ms.getD i 0)) (as.getD i default) (bs.getD i default) (cs.getD i default) := by
  induction as generalizing ms bs cs i with
  | nil => simp at hi
  | cons a as ih => match ms, bs, cs, h with
    | m :: ms, b :: bs, c :: cs, h =>
      cases i with
      | zero => exact h.1
      | succ i => simpa using ih h.2 (by simpa using hi)

theorem TriL.eraseIdx {ms : List ℕ} {as bs cs : List (Tensor ℝ)} (h : TriL ρ ms as bs cs) (i : ℕ) :
    TriL ρ (ms.eraseIdx i) (as.eraseIdx i) (bs.eraseIdx i) (cs.eraseIdx i) := by
  induction as generalizing ms bs cs i with
  | nil => match ms, bs, cs, h with
    | [], [], [], _ => trivial
  | cons a as ih => match ms, bs, cs, h with
    | m :: ms, b :: bs, c :: cs, h =>
      cases i with
      | zero => exact h.2
      | succ i => exact ⟨h.1, ih h.2 i⟩

theorem TriL.append {ms : List ℕ} {as bs cs : List (Tensor ℝ)} (h : TriL ρ ms as bs cs) {m : ℕ} {a b c : Tensor ℝ} (ha : Tri (ρ m) a b c) :
    TriL ρ (ms ++ [m]) (as ++ [a]) (bs ++ [b]) (cs ++ [c]) := by
  induction as generalizing ms bs cs with
  | nil => match ms, bs, cs, h with
    | [], [], [], _ => exact ⟨ha, trivial⟩
  | cons a as ih => match ms, bs, cs, h with
    | m :: ms, b :: bs, c :: cs, h => exact ⟨h.1, ih h.2⟩

end

theorem Sized.einTerms {dim : Char → ℕ} {ls : List (List Char)} {ts : List (Tensor ℝ)} (h : Sized dim ls ts) (out : List Char) :
    einTerms (ls, out) ts = labelSize dim (summed ls out) := by
  unfold T3f.einTerms labelSize
  rw [← ((h.contracted_perm out).map dim).prod_eq, List.map_map]
  congr 1
  exact List.map_congr_left fun p hp => h.contracted_dim out p hp

/-- The roundings of the contractions along a path. -/
def pathRounds (dim : Char → ℕ) (out : List Char) : List (ℕ × ℕ) → List (List Char) → ℕ
  | [], ls => labelSize dim (summed ls out) + ls.length - 2
  | [_], ls => labelSize dim (summed ls out) + ls.length - 2
  | (i, j) :: p, ls =>
    labelSize dim (summed [ls.getD i [], ls.getD j []] (keptLabels out ((ls.eraseIdx j).eraseIdx i) (jointLabels (ls.getD i []) (ls.getD j [])))) +
      pathRounds dim out p (contractPair out ls i j)

variable {F : FloatRoutines} {A : Arith}

theorem FloatRoutines.Kernels.sync_einsum (hF : F.Kernels A) {ms : List ℕ} {as bs cs : List (Tensor ℝ)} (h : TriL (Approx A.u) ms as bs cs)
    (spec : List (List Char) × List Char) (hl : as.length ≤ 2) :
    Sync (Tri (Approx A.u (ms.sum + (T3f.einTerms spec as + as.length - 2)))) (F.einsum spec as) (T3f.einsum spec bs) (T3f.einsum spec cs) :=
  (hF.einsum spec as hl).accurate.sync ((approx_family A.nonneg).einsum h spec) ((below_family A.nonneg).einsum h.below spec)

theorem Sized.congr {dim : Char → ℕ} {ls : List (List Char)} {as bs : List (Tensor ℝ)} (h : Sized dim ls as)
    (hs : bs.map Tensor.shape = as.map Tensor.shape) : Sized dim ls bs := by
  unfold Sized at h ⊢
  induction h generalizing bs with
  | nil =>
    obtain rfl : bs = [] := by simpa using hs
    exact List.Forall₂.nil
  | cons h1 _ ih =>
    match bs, hs with
    | b :: bs, hs =>
      simp only [List.map_cons, List.cons.injEq] at hs
      exact List.Forall₂.cons (hs.1.trans h1) (ih hs.2)

theorem sync_alongPath (hF : F.Kernels A) {dim : Char → ℕ} {out : List Char} {p : List (ℕ × ℕ)} {ls : List (List Char)} {ms : List ℕ}
    {as bs cs : List (Tensor ℝ)} (h : TriL (Approx A.u) ms as bs cs) (hs : Sized dim ls as) (hout : ∀ c ∈ out, ∃ l ∈ ls, c ∈ l)
    (hp : ValidPath ls.length p) :
    Sync (Tri (Approx A.u (ms.sum + pathRounds dim out p ls))) (alongPath F.einsum out p ls as) (alongPath einsum out p ls bs)
      (alongPath einsum out p ls cs) := by
  induction p generalizing ls ms as bs cs with
  | nil =>
    have hl : as.length ≤ 2 := by
      rw [← hs.length]
      match ls.length, hp with
      | 0, _ => omega
      | 1, _ => omega
    have := hF.sync_einsum h (ls, out) hl
    rwa [hs.einTerms, ← hs.length] at this
  | cons q p ih =>
    obtain ⟨i, j⟩ := q
    obtain ⟨hij, hj, hp'⟩ := hp.cons
    have hja : j < as.length := hs.length ▸ hj
    cases p with
    | nil =>
      have hl : as.length ≤ 2 := by
        rw [← hs.length]
        match ls.length, hp' with
        | 0, _ => omega
        | 1, _ => omega
        | 2, _ => omega
      have := hF.sync_einsum h (ls, out) hl
      rwa [hs.einTerms, ← hs.length] at this
    | cons q' p =>
      have h2 : TriL (Approx A.u) [ms.getD i 0, ms.getD j 0] [as.getD i default, as.getD j default] [bs.getD i default, bs.getD j default]
          [cs.getD i default, cs.getD j default] := ⟨h.getD (hij.trans hja), h.getD hja, trivial⟩
      have hsync := hF.sync_einsum h2 ([ls.getD i [], ls.getD j []],
        keptLabels out ((ls.eraseIdx j).eraseIdx i) (jointLabels (ls.getD i []) (ls.getD j []))) le_rfl
      have hs2 : Sized dim [ls.getD i [], ls.getD j []] [as.getD i default, as.getD j default] :=
        List.Forall₂.cons (forall₂_getD hs (hij.trans hj) _ _) (List.Forall₂.cons (forall₂_getD hs hj _ _) List.Forall₂.nil)
      rw [hs2.einTerms] at hsync
      obtain ⟨r, hr, h3, h4, -⟩ := (hs.congr h.shapes.1).pair hout hij hj
      rw [alongPath, alongPath, alongPath]
      · rw [hr] at hsync ⊢
        rcases hsync with ⟨a, b, c, ha, hb, hc, habc⟩ | ⟨e, -, he, -⟩
        · obtain rfl := Except.ok.inj hb
          rw [ha, hc]
          have h5 := ((h.eraseIdx j).eraseIdx i).append habc
          have := ih h5 (h3.congr h5.shapes.1.symm) h4 (by rw [length_contractPair hij hj]; exact hp')
          have e : ms.sum + pathRounds dim out ((i, j) :: q' :: p) ls = (((ms.eraseIdx j).eraseIdx i) ++ [[ms.getD i 0, ms.getD j 0].sum +
              (labelSize dim (summed [ls.getD i [], ls.getD j []]
                (keptLabels out ((ls.eraseIdx j).eraseIdx i) (jointLabels (ls.getD i []) (ls.getD j [])))) +
                [as.getD i default, as.getD j default].length - 2)]).sum + pathRounds dim out (q' :: p) (contractPair out ls i j) := by
            have hjm : j < ms.length := h.length ▸ hja
            rw [pathRounds, (pair_perm ms hij hjm 0).sum_eq]
            · simp only [List.sum_append, List.sum_cons, List.sum_nil, List.length_cons, List.length_nil]
              omega
            · simp
          rw [e]
          exact this
        · exact absurd he (by simp)
      all_goals simp

/-- Whatever the path, contracting two operands at a time needs no more roundings than adding up the products one after the other. -/
theorem pathRounds_le {dim : Char → ℕ} {out : List Char} {p : List (ℕ × ℕ)} {ls : List (List Char)} (hp : ValidPath ls.length p)
    (h : ∀ c ∈ summed ls out, 1 ≤ dim c) : pathRounds dim out p ls ≤ labelSize dim (summed ls out) + ls.length - 2 := by
  induction p generalizing ls with
  | nil => exact le_rfl
  | cons q p ih =>
    obtain ⟨i, j⟩ := q
    obtain ⟨hij, hj, hp'⟩ := hp.cons
    cases p with
    | nil => exact le_rfl
    | cons q' p =>
      have hperm := summed_pair (out := out) hij hj
      rw [pathRounds]
      · have h1 := ih (by rw [length_contractPair hij hj]; exact hp') fun c hc => h c (hperm.mem_iff.2 (List.mem_append_left _ hc))
        have pos : ∀ l : List Char, (∀ c ∈ l, 1 ≤ dim c) → 1 ≤ labelSize dim l := fun l hl => by
          unfold labelSize
          exact List.one_le_prod_of_one_le (by simpa using hl)
        have p1 := pos _ fun c hc => h c (hperm.mem_iff.2 (List.mem_append_left _ hc))
        have p2 := pos _ fun c hc => h c (hperm.mem_iff.2 (List.mem_append_right _ hc))
        have hm : labelSize dim (summed ls out) = _ := (hperm.map dim).prod_eq
        rw [List.map_append, List.prod_append] at hm
        change _ = labelSize dim _ * labelSize dim _ at hm
        rw [length_contractPair hij hj] at h1
        rw [hm]
        obtain ⟨h5, h6, -⟩ := hp'.cons
        generalize labelSize dim (summed (contractPair out ls i j) out) = x at *
        generalize labelSize dim (summed [ls.getD i [], ls.getD j []] _) = y at *
        have : x + y ≤ x * y + 1 := by nlinarith
        omega
      · simp

theorem sumL_zero {dim : Char → ℕ} {l : List Char} {c : Char} (hc : c ∈ l) (h : dim c = 0) (σ : Char → ℕ) (f : (Char → ℕ) → ℝ) :
    sumL dim l σ f = 0 := by
  induction l generalizing σ with
  | nil => simp at hc
  | cons d l ih =>
    by_cases hd : c = d
    · subst hd
      simp [sumL, h]
    · exact Finset.sum_eq_zero fun x _ => ih (by simpa [hd] using hc) _

theorem TriL.absolute {u : ℝ} (ops : List (Tensor ℝ)) : TriL (Approx u) (ops.map fun _ => 0) ops ops (ops.map absT) := by
  induction ops with
  | nil => trivial
  | cons t ops ih => exact ⟨⟨rfl, rfl, fun i _ => Approx.refl _ _⟩, ih⟩

/-- The routines of TensorFlow follow the arithmetic of the routines for two operands. -/
theorem along_follows (hF : F.Kernels A) {S : Strategy} (hS : S.Valid) : (F.along S).Follows A where
  mul := hF.mul
  root := hF.root
  matmul a b := (hF.matmul a b).accurate
  einsum spec ops := by
    unfold Accurate FloatRoutines.along
    simp only
    cases hg : T3f.einsum spec ops with
    | error e => rfl
    | ok C =>
      obtain ⟨ls, out⟩ := spec
      obtain ⟨hs, hout⟩ := (einOk_of_ok hg).sized
      simp only at hs hout
      generalize lookupLabel (einDims ls ops) = dim at hs ⊢
      have hp := hS dim ls out
      have hsync := sync_alongPath hF (TriL.absolute ops) hs hout hp
      have hsh : (ops.map absT).map Tensor.shape = ops.map Tensor.shape := by simp [absT, Tensor.map, Function.comp_def]
      have hs' := hs.congr hsh
      have e1 := alongPath_einsum hg hp
      have e2 := alongPath_einsum (hs'.einsum hout) hp
      simp only at e1 e2
      rw [e1, e2] at hsync
      rcases hsync with ⟨D, C', B', hD, hC, hB, hT⟩ | ⟨e, -, he, -⟩
      · obtain rfl := Except.ok.inj hC
        refine ⟨D, hD, hT.shape₂.symm, fun B hB' i hi => ?_⟩
        obtain rfl : B = B' := Except.ok.inj (hB'.symm.trans ((hs'.einsum hout).trans hB))
        have hv := (hT.item i (by rwa [← hT.shape₂])).err
        rw [hs.einTerms, ← hs.length]
        by_cases hz : ∀ c ∈ summed ls out, 1 ≤ dim c
        · refine hv.trans ?_
          have := pathRounds_le hp hz
          have h0 : (ops.map fun _ => 0).sum = 0 := by simp
          rw [h0, zero_add]
          have hn := (hT.item i (by rwa [← hT.shape₂])).nonneg
          have := pow_le_pow_right₀ (show (1 : ℝ) ≤ 1 + A.u by linarith [A.nonneg]) this
          gcongr
        · push Not at hz
          obtain ⟨c, hc, hc0⟩ := hz
          have : B.get i = 0 := by
            rw [← Except.ok.inj hB]
            exact sumL_zero hc (by omega) _ _
          rw [this] at hv ⊢
          simpa using hv
      · exact absurd he (by simp)

end T3f
