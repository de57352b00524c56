import Verif.Proofs.RoundSync
import Verif.Proofs.Broadcast

/-!
# Matrix products and einsum in floating point arithmetic
-/

namespace T3f

/-! ## Exact evaluation on related operands -/

/-- Relations indexed by a number of roundings that are compatible with sums and products. -/
structure Family (ρ : ℕ → ℝ → ℝ → ℝ → Prop) : Prop where
  one : ρ 0 1 1 1
  zero : ∀ m, ρ m 0 0 0
  add : ∀ {m x y z x' y' z'}, ρ m x y z → ρ m x' y' z' → ρ m (x + x') (y + y') (z + z')
  mul : ∀ {m n x y z x' y' z'}, ρ m x y z → ρ n x' y' z' → ρ (m + n) (x * x') (y * y') (z * z')

/-- Lists of operands whose elements are related, with the numbers of roundings. -/
def TriL (ρ : ℕ → ℝ → ℝ → ℝ → Prop) : List ℕ → List (Tensor ℝ) → List (Tensor ℝ) → List (Tensor ℝ) → Prop
  | [], [], [], [] => True
  | m :: ms, a :: as, b :: bs, c :: cs => Tri (ρ m) a b c ∧ TriL ρ ms as bs cs
  | _, _, _, _ => False

section

variable {ρ : ℕ → ℝ → ℝ → ℝ → Prop}

theorem TriL.shapes {ms : List ℕ} {as bs cs : List (Tensor ℝ)} (h : TriL ρ ms as bs cs) :
    bs.map Tensor.shape = as.map Tensor.shape ∧ cs.map Tensor.shape = as.map Tensor.shape := by
  induction as generalizing ms bs cs with
  | nil => match ms, bs, cs, h with
    | [], [], [], _ => exact ⟨rfl, rfl⟩
  | cons a as ih => match ms, bs, cs, h with
    | m :: ms, b :: bs, c :: cs, h =>
      obtain ⟨h1, h2⟩ := ih h.2
      exact ⟨by simp [h1, h.1.shape₂], by simp [h2, h.1.shape₃]⟩

theorem Family.list_sum (hρ : Family ρ) {α : Type} (m : ℕ) (l : List α) (f g k : α → ℝ) (h : ∀ e ∈ l, ρ m (f e) (g e) (k e)) :
    ρ m (l.map f).sum (l.map g).sum (l.map k).sum := by
  induction l with
  | nil => simpa using hρ.zero m
  | cons e l ih =>
    simp only [List.map_cons, List.sum_cons]
    exact hρ.add (h e (by simp)) (ih fun e he => h e (by simp [he]))

theorem einDims_congr {as bs : List (Tensor ℝ)} (h : bs.map Tensor.shape = as.map Tensor.shape) (ins : List (List Char)) :
    einDims ins bs = einDims ins as := by
  have : ∀ l : List (Tensor ℝ), einDims ins l = (List.zipWith (fun l t => l.zip t) ins (l.map Tensor.shape)).flatten := fun l => by
    unfold einDims
    rw [List.zipWith_map_right]
  rw [this, this, h]

theorem einOk_congr {as bs : List (Tensor ℝ)} (h : bs.map Tensor.shape = as.map Tensor.shape) (spec : List (List Char) × List Char) :
    EinOk spec bs ↔ EinOk spec as := by
  unfold EinOk
  rw [einDims_congr h]
  have : ∀ l : List (Tensor ℝ), l.map (fun t => t.shape.length) = (l.map Tensor.shape).map List.length := fun l => by simp
  rw [this, this, h]

theorem einContracted_congr {as bs : List (Tensor ℝ)} (h : bs.map Tensor.shape = as.map Tensor.shape) (spec : List (List Char) × List Char) :
    einContracted spec bs = einContracted spec as := by
  unfold einContracted
  rw [einDims_congr h]

theorem einTerms_congr {as bs : List (Tensor ℝ)} (h : bs.map Tensor.shape = as.map Tensor.shape) (spec : List (List Char) × List Char) :
    einTerms spec bs = einTerms spec as := by
  unfold einTerms
  rw [einContracted_congr h]

theorem Family.einProd (hρ : Family ρ) {ms : List ℕ} {as bs cs : List (Tensor ℝ)} (h : TriL ρ ms as bs cs) {ins : List (List Char)}
    (hl : ins.length = as.length) {env : List (Char × ℕ)} (hv : ∀ l t, (l, t) ∈ ins.zip as → Valid t.shape (l.map (lookupLabel env))) :
    ρ ms.sum (einProd ins as env) (einProd ins bs env) (einProd ins cs env) := by
  induction as generalizing ms bs cs ins with
  | nil => match ms, bs, cs, h with
    | [], [], [], _ => simpa [T3f.einProd] using hρ.one
  | cons a as ih => match ms, bs, cs, h, ins, hl with
    | m :: ms, b :: bs, c :: cs, h, l :: ins, hl =>
      have := ih h.2 (by simpa using hl) fun l t hlt => hv l t (by simp [hlt])
      simpa [T3f.einProd] using hρ.mul (h.1.item _ (hv l a (by simp))) this

theorem Family.einsum (hρ : Family ρ) {ms : List ℕ} {as bs cs : List (Tensor ℝ)} (h : TriL ρ ms as bs cs) (spec : List (List Char) × List Char) :
    Sync (Tri (ρ ms.sum)) (einsum spec as) (einsum spec bs) (einsum spec cs) := by
  obtain ⟨s2, s3⟩ := h.shapes
  rw [einsum_eq, einsum_eq, einsum_eq]
  simp only [einDims_congr s2, einDims_congr s3, einContracted_congr s2, einContracted_congr s3]
  by_cases hk : EinOk spec as
  · rw [if_pos hk, if_pos ((einOk_congr s2 spec).2 hk), if_pos ((einOk_congr s3 spec).2 hk)]
    refine Sync.ok ⟨rfl, rfl, fun i hi => ?_⟩
    refine hρ.list_sum _ _ _ _ _ fun e he => hρ.einProd h ?_ fun l t hlt => hk.valid hi he hlt
    simpa using congrArg List.length hk.1
  · rw [if_neg hk, if_neg fun h => hk ((einOk_congr s2 spec).1 h), if_neg fun h => hk ((einOk_congr s3 spec).1 h)]
    exact Sync.error _

theorem Family.bmatmul (hρ : Family ρ) {m n : ℕ} {a b c a' b' c' : Tensor ℝ} (h : Tri (ρ m) a b c) (h' : Tri (ρ n) a' b' c') :
    Sync (Tri (ρ (m + n))) (bmatmul a a') (bmatmul b b') (bmatmul c c') := by
  have hv := h.item
  have hv' := h'.item
  unfold T3f.bmatmul
  rw [h.shape₂, h.shape₃, h'.shape₂, h'.shape₃]
  split
  · rename_i k q pa r k' pb e e'
    rw [← List.reverse_reverse a.shape, e, List.reverse_cons, List.reverse_cons] at hv
    rw [← List.reverse_reverse a'.shape, e', List.reverse_cons, List.reverse_cons] at hv'
    split
    · rename_i p hp
      split_ifs with hk
      · subst hk
        refine Sync.ok ⟨rfl, rfl, fun i hi => ?_⟩
        obtain ⟨z, i, rfl, hz, hi⟩ := valid_append_iff.1 hi
        obtain ⟨x, y, rfl, hx, hy⟩ := (valid_pair _ _ _).1 hi
        have hl : z.length = p.length := by simpa using hz.length_eq
        obtain ⟨v1, v2⟩ := bproj_bshape hp hz
        have e1 : (z ++ [x, y]).take p.length = z := by rw [← hl]; simp
        have e2 : (z ++ [x, y]).getD p.length 0 = x := by rw [← hl]; simp
        have e3 : (z ++ [x, y]).getD (p.length + 1) 0 = y := by rw [← hl]; simp
        simp only [e1, e2, e3, sum_range_list]
        refine hρ.list_sum _ _ _ _ _ fun l hl => ?_
        rw [List.mem_range] at hl
        refine hρ.mul (hv _ ?_) (hv' _ ?_)
        · rw [List.append_assoc]
          exact valid_append v1 ((valid_pair _ _ _).2 ⟨x, l, rfl, hx, hl⟩)
        · rw [List.append_assoc]
          exact valid_append v2 ((valid_pair _ _ _).2 ⟨l, y, rfl, hl, hy⟩)
      · exact Sync.error _
    · exact Sync.error _
  · exact Sync.error _

theorem Family.matmul (hρ : Family ρ) {m n : ℕ} {a b c a' b' c' : Tensor ℝ} (h : Tri (ρ m) a b c) (h' : Tri (ρ n) a' b' c') :
    Sync (Tri (ρ (m + n))) (matmul a a') (matmul b b') (matmul c c') := by
  have hv := h.item
  have hv' := h'.item
  unfold T3f.matmul
  rw [h.shape₂, h.shape₃, h'.shape₂, h'.shape₃]
  split
  · rename_i p k k' q e e'
    rw [e] at hv
    rw [e'] at hv'
    split_ifs with hk
    · subst hk
      refine Sync.ok ⟨rfl, rfl, fun i hi => ?_⟩
      obtain ⟨x, y, rfl, hx, hy⟩ := (valid_pair _ _ _).1 hi
      simp only [sum_range_list]
      refine hρ.list_sum _ _ _ _ _ fun l hl => ?_
      rw [List.mem_range] at hl
      exact hρ.mul (hv _ ((valid_pair _ _ _).2 ⟨x, l, rfl, hx, hl⟩)) (hv' _ ((valid_pair _ _ _).2 ⟨l, y, rfl, hl, hy⟩))
    · exact Sync.error _
  · rename_i o p k o' k' q e e'
    rw [e] at hv
    rw [e'] at hv'
    split_ifs with hk
    · obtain ⟨rfl, rfl⟩ := hk
      refine Sync.ok ⟨rfl, rfl, fun i hi => ?_⟩
      match i, hi with
      | z :: i, hi =>
      obtain ⟨x, y, rfl, hx, hy⟩ := (valid_pair _ _ _).1 hi.2
      simp only [sum_range_list]
      refine hρ.list_sum _ _ _ _ _ fun l hl => ?_
      rw [List.mem_range] at hl
      exact hρ.mul (hv _ ⟨hi.1, (valid_pair _ _ _).2 ⟨x, l, rfl, hx, hl⟩⟩) (hv' _ ⟨hi.1, (valid_pair _ _ _).2 ⟨l, y, rfl, hl, hy⟩⟩)
    · exact hρ.bmatmul h h'
  · exact hρ.bmatmul h h'

end

/-! ## Rounded evaluation -/

theorem approx_family {u : ℝ} (hu : 0 ≤ u) : Family (Approx u) where
  one := by simpa using Approx.refl u 1
  zero := Approx.zero u
  add h k := h.add k
  mul h k := h.mul hu k

/-- A nonnegative value below a multiple of the majorant. -/
def Below (u : ℝ) (m : ℕ) (x _y z : ℝ) : Prop := 0 ≤ x ∧ x ≤ (1 + u) ^ m * z ∧ 0 ≤ z

theorem below_family {u : ℝ} (hu : 0 ≤ u) : Family (Below u) where
  one := by simp [Below]
  zero m := by simp [Below]
  add := by
    rintro m x y z x' y' z' ⟨h1, h2, h3⟩ ⟨k1, k2, k3⟩
    exact ⟨by positivity, by rw [mul_add]; exact add_le_add h2 k2, by positivity⟩
  mul := by
    rintro m n x y z x' y' z' ⟨h1, h2, h3⟩ ⟨k1, k2, k3⟩
    refine ⟨by positivity, ?_, by positivity⟩
    calc x * x' ≤ ((1 + u) ^ m * z) * ((1 + u) ^ n * z') := by gcongr
      _ = (1 + u) ^ (m + n) * (z * z') := by rw [pow_add]; ring

theorem elements_abs (ops : List (Tensor ℝ)) (v : ℕ × List ℕ) : elements (ops.map absT) v = |elements ops v| := by
  unfold elements
  rw [List.getD_eq_getElem?_getD, List.getD_eq_getElem?_getD, List.getElem?_map]
  cases ops[v.1]? with
  | none => simp [default]
  | some t => rfl

/-- Circuits are accurate. -/
theorem Rounded.accurate {A : Arith} {g : List (Tensor ℝ) → R (Tensor ℝ)} {N : ℕ} {ops : List (Tensor ℝ)} {res : R (Tensor ℝ)}
    (h : Rounded A g N ops res) : Accurate A g N ops res := by
  unfold Rounded at h
  unfold Accurate
  cases hg : g ops with
  | error e => rw [hg] at h; exact h
  | ok C =>
    rw [hg] at h
    obtain ⟨D, rfl, hs, hD⟩ := h
    refine ⟨D, rfl, hs, fun B hB i hi => ?_⟩
    obtain ⟨e, hr, he, hx⟩ := hD i hi
    have e1 := hx ops C rfl hg
    have e2 := hx (ops.map absT) B (by simp [absT, Tensor.map, Function.comp_def]) hB
    have e3 : e.exact (fun v => |elements ops v|) = B.get i := by
      rw [← e2]
      congr 1
      exact funext fun v => (elements_abs ops v).symm
    have ap := (e.approx A (elements ops)).mono A.nonneg hr
    rw [e1, e3, ← he] at ap
    exact ap.err

/-- A routine that rounds, given a bound for the exact operation on the computed operands. -/
theorem Accurate.sync {A : Arith} {g : List (Tensor ℝ) → R (Tensor ℝ)} {N m : ℕ} {ops : List (Tensor ℝ)} {res y z : R (Tensor ℝ)}
    (h : Accurate A g N ops res) (h1 : Sync (Tri (Approx A.u m)) (g ops) y z) (h2 : Sync (Tri (Below A.u m)) (g (ops.map absT)) y z) :
    Sync (Tri (Approx A.u (m + N))) res y z := by
  unfold Accurate at h
  rcases h1 with ⟨a, b, c, ha, rfl, rfl, h1⟩ | ⟨e, he, rfl, rfl⟩
  · rw [ha] at h
    obtain ⟨D, rfl, hs, hD⟩ := h
    rcases h2 with ⟨a2, b2, c2, ha2, hb2, hc2, h2⟩ | ⟨e, _, he, _⟩
    · obtain rfl := Except.ok.inj hb2
      obtain rfl := Except.ok.inj hc2
      refine Sync.ok ⟨h1.shape₂.trans hs.symm, h1.shape₃.trans hs.symm, fun i hi => ?_⟩
      rw [hs] at hi
      exact (h1.item i hi).trans A.nonneg (hD a2 ha2 i hi) (h2.item i (by rwa [← h2.shape₂, h1.shape₂])).2.1
    · exact absurd he (by simp)
  · rw [he] at h
    subst h
    exact Sync.error e

theorem Tri.below {u : ℝ} {m : ℕ} {a b c : Tensor ℝ} (h : Tri (Approx u m) a b c) : Tri (Below u m) (absT a) b c :=
  ⟨h.shape₂, h.shape₃, fun i hi => ⟨abs_nonneg _, (h.item i hi).abs_le, (h.item i hi).nonneg⟩⟩

theorem TriL.below {u : ℝ} {ms : List ℕ} {as bs cs : List (Tensor ℝ)} (h : TriL (Approx u) ms as bs cs) : TriL (Below u) ms (as.map absT) bs cs := by
  induction as generalizing ms bs cs with
  | nil => match ms, bs, cs, h with
    | [], [], [], _ => trivial
  | cons a as ih => match ms, bs, cs, h with
    | m :: ms, b :: bs, c :: cs, h => exact ⟨h.1.below, ih h.2⟩

namespace FloatRoutines.Follows

variable {F : FloatRoutines} {A : Arith}

theorem sync_matmul (hF : F.Follows A) {m n : ℕ} {a b c a' b' c' : Tensor ℝ} (h : Tri (Approx A.u m) a b c) (h' : Tri (Approx A.u n) a' b' c') :
    Sync (Tri (Approx A.u (m + n + a.shape.getLastD 0))) (F.matmul a a') (T3f.matmul b b') (T3f.matmul c c') :=
  (hF.matmul a a').sync ((approx_family A.nonneg).matmul h h') ((below_family A.nonneg).matmul h.below h'.below)

theorem sync_einsum (hF : F.Follows A) {ms : List ℕ} {as bs cs : List (Tensor ℝ)} (h : TriL (Approx A.u) ms as bs cs)
    (spec : List (List Char) × List Char) :
    Sync (Tri (Approx A.u (ms.sum + (einTerms spec as + as.length - 2)))) (F.einsum spec as) (T3f.einsum spec bs) (T3f.einsum spec cs) :=
  (hF.einsum spec as).sync ((approx_family A.nonneg).einsum h spec) ((below_family A.nonneg).einsum h.below spec)

end FloatRoutines.Follows

end T3f
