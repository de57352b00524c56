import Verif.Tf.Rounding
import Verif.Proofs.Prim
import Mathlib.Tactic.Ring
import Mathlib.Tactic.Linarith
import Mathlib.Tactic.Positivity
import Mathlib.Tactic.GCongr
import Mathlib.Algebra.Order.BigOperators.Group.List
import Mathlib.Algebra.BigOperators.Ring.List

/-!
# Rounding errors of sums of products
-/

namespace T3f

/-- `x'` is the value `x` with at most `m` roundings, where `a` is the value for the absolute values of all inputs. -/
structure Approx (u : ℝ) (m : ℕ) (x' x a : ℝ) : Prop where
  err : |x' - x| ≤ ((1 + u) ^ m - 1) * a
  bound : |x| ≤ a

namespace Approx

variable {u : ℝ} {m n : ℕ} {x' x a y' y b : ℝ}

theorem one_le (hu : 0 ≤ u) (m : ℕ) : 1 ≤ (1 + u) ^ m := one_le_pow₀ (by linarith)

theorem nonneg (h : Approx u m x' x a) : 0 ≤ a := (abs_nonneg _).trans h.bound

theorem abs_le (h : Approx u m x' x a) : |x'| ≤ (1 + u) ^ m * a := by
  have h1 : |x'| ≤ |x' - x| + |x| := by simpa using abs_add_le (x' - x) x
  have := h.err
  have := h.bound
  nlinarith

theorem refl (u x : ℝ) : Approx u 0 x x |x| := ⟨by simp, le_rfl⟩

theorem zero (u : ℝ) (m : ℕ) : Approx u m 0 0 0 := ⟨by simp, by simp⟩

theorem mono (hu : 0 ≤ u) (h : Approx u m x' x a) (hmn : m ≤ n) : Approx u n x' x a := by
  refine ⟨h.err.trans ?_, h.bound⟩
  have := pow_le_pow_right₀ (show (1 : ℝ) ≤ 1 + u by linarith) hmn
  have := h.nonneg
  gcongr

theorem add (h : Approx u m x' x a) (k : Approx u m y' y b) : Approx u m (x' + y') (x + y) (a + b) := by
  refine ⟨?_, (abs_add_le _ _).trans (add_le_add h.bound k.bound)⟩
  have : x' + y' - (x + y) = (x' - x) + (y' - y) := by ring
  rw [this, mul_add]
  exact (abs_add_le _ _).trans (add_le_add h.err k.err)

theorem mul (hu : 0 ≤ u) (h : Approx u m x' x a) (k : Approx u n y' y b) : Approx u (m + n) (x' * y') (x * y) (a * b) := by
  refine ⟨?_, by rw [abs_mul]; exact mul_le_mul h.bound k.bound (abs_nonneg _) h.nonneg⟩
  have e : x' * y' - x * y = (x' - x) * y' + x * (y' - y) := by ring
  have h1 := one_le hu m
  have h2 := one_le hu n
  have ha := h.nonneg
  have hb := k.nonneg
  calc |x' * y' - x * y| ≤ |x' - x| * |y'| + |x| * |y' - y| := by
        rw [e]; refine (abs_add_le _ _).trans ?_; rw [abs_mul, abs_mul]
    _ ≤ (((1 + u) ^ m - 1) * a) * ((1 + u) ^ n * b) + a * (((1 + u) ^ n - 1) * b) := by
        have := h.err; have := h.bound; have := k.err; have := k.abs_le
        gcongr
    _ = ((1 + u) ^ (m + n) - 1) * (a * b) := by rw [pow_add]; ring

theorem round (hu : 0 ≤ u) (h : Approx u m x' x a) {v : ℝ} (hv : |v - x'| ≤ u * |x'|) : Approx u (m + 1) v x a := by
  refine ⟨?_, h.bound⟩
  calc |v - x| ≤ |v - x'| + |x' - x| := by simpa using abs_add_le (v - x') (x' - x)
    _ ≤ u * ((1 + u) ^ m * a) + ((1 + u) ^ m - 1) * a := by
        have := h.abs_le; have := h.err
        gcongr
        exact hv.trans (by gcongr)
    _ = ((1 + u) ^ (m + 1) - 1) * a := by rw [pow_succ]; ring

theorem list_sum {α : Type} (l : List α) (f' f g : α → ℝ) (h : ∀ e ∈ l, Approx u m (f' e) (f e) (g e)) :
    Approx u m (l.map f').sum (l.map f).sum (l.map g).sum := by
  induction l with
  | nil => simpa using zero u m
  | cons e l ih =>
    simp only [List.map_cons, List.sum_cons]
    exact (h e (by simp)).add (ih fun e he => h e (by simp [he]))

theorem finset_sum {α : Type} (s : Finset α) (f' f g : α → ℝ) (h : ∀ e ∈ s, Approx u m (f' e) (f e) (g e)) :
    Approx u m (∑ e ∈ s, f' e) (∑ e ∈ s, f e) (∑ e ∈ s, g e) := by
  classical
  induction s using Finset.induction_on with
  | empty => simpa using zero u m
  | insert e s he ih =>
    rw [Finset.sum_insert he, Finset.sum_insert he, Finset.sum_insert he]
    exact (h e (by simp)).add (ih fun e he => h e (by simp [he]))

/-- A computed value of a sum whose inputs are computed values. -/
theorem trans (hu : 0 ≤ u) {v b : ℝ} (h : Approx u m x' x a) (hv : |v - x'| ≤ ((1 + u) ^ n - 1) * b) (hb : b ≤ (1 + u) ^ m * a) :
    Approx u (m + n) v x a := by
  refine ⟨?_, h.bound⟩
  have h1 := one_le hu n
  calc |v - x| ≤ |v - x'| + |x' - x| := by simpa using abs_add_le (v - x') (x' - x)
    _ ≤ ((1 + u) ^ n - 1) * ((1 + u) ^ m * a) + ((1 + u) ^ m - 1) * a := by
        have := h.err
        gcongr
        exact hv.trans (by gcongr)
    _ = ((1 + u) ^ (m + n) - 1) * a := by rw [pow_add]; ring

end Approx

/-! ## Circuits -/

theorem Circ.approx {ι : Type} (A : Arith) (x : ι → ℝ) (e : Circ ι) :
    Approx A.u e.rounds (e.eval A x) (e.exact x) (e.exact fun i => |x i|) := by
  have hu := A.nonneg
  induction e with
  | zero => exact Approx.zero _ _
  | one => exact ⟨by simp [eval, exact, rounds], by simp [exact]⟩
  | var i => exact Approx.refl _ _
  | add a b iha ihb =>
    exact ((iha.mono hu (le_max_left _ _)).add (ihb.mono hu (le_max_right _ _))).round hu (A.add_err _ _)
  | mul a b iha ihb => exact (iha.mul hu ihb).round hu (A.mul_err _ _)
  | fma a b c iha ihb ihc =>
    exact (((iha.mul hu ihb).mono hu (le_max_left _ _)).add (ihc.mono hu (le_max_right _ _))).round hu (A.fma_err _ _ _)

/-! ## Assignments of the summed labels -/

/-- All assignments that extend `env` by values of the labels `cs`. -/
def envs : List (Char × ℕ) → List (Char × ℕ) → List (List (Char × ℕ))
  | [], env => [env]
  | (c, n) :: cs, env => (List.range n).flatMap fun x => envs cs ((c, x) :: env)

theorem sum_range_list {K : Type} [AddCommMonoid K] (n : ℕ) (f : ℕ → K) : ∑ x ∈ Finset.range n, f x = ((List.range n).map f).sum := by
  induction n with
  | zero => simp
  | succ n ih => rw [Finset.sum_range_succ, ih, List.range_succ]; simp

theorem sumOver_envs {K : Type} [AddCommMonoid K] (cs env : List (Char × ℕ)) (f : List (Char × ℕ) → K) :
    sumOver cs env f = ((envs cs env).map f).sum := by
  induction cs generalizing env with
  | nil => simp [sumOver, envs]
  | cons p cs ih =>
    obtain ⟨c, n⟩ := p
    simp only [sumOver, envs, ih, sum_range_list]
    induction List.range n with
    | nil => simp
    | cons x l ih' => simp only [List.map_cons, List.sum_cons, List.flatMap_cons, List.map_append, List.sum_append, ih']

theorem length_envs (cs env : List (Char × ℕ)) : (envs cs env).length = (cs.map Prod.snd).prod := by
  induction cs generalizing env with
  | nil => simp [envs]
  | cons p cs ih =>
    obtain ⟨c, n⟩ := p
    simp [envs, List.length_flatMap, ih]

theorem lookup_envs {cs env e : List (Char × ℕ)} (h : e ∈ envs cs env) (c : Char) (hc : c ∉ cs.map Prod.fst) : e.lookup c = env.lookup c := by
  induction cs generalizing env with
  | nil => simp only [envs, List.mem_singleton] at h; rw [h]
  | cons p cs ih =>
    obtain ⟨d, n⟩ := p
    simp only [envs, List.mem_flatMap] at h
    obtain ⟨x, -, h⟩ := h
    simp only [List.map_cons, List.mem_cons, not_or] at hc
    rw [ih h hc.2, List.lookup_cons]
    simp [beq_false_of_ne hc.1]

theorem lookup_envs_mem {cs env e : List (Char × ℕ)} (hn : (cs.map Prod.fst).Nodup) (h : e ∈ envs cs env) {c : Char} {n : ℕ}
    (hc : (c, n) ∈ cs) : ∃ x < n, e.lookup c = some x := by
  induction cs generalizing env with
  | nil => simp at hc
  | cons p cs ih =>
    obtain ⟨d, k⟩ := p
    simp only [envs, List.mem_flatMap, List.mem_range] at h
    obtain ⟨x, hx, h⟩ := h
    simp only [List.map_cons, List.nodup_cons] at hn
    rcases List.mem_cons.1 hc with hc | hc
    · obtain ⟨rfl, rfl⟩ := Prod.mk.inj hc
      exact ⟨x, hx, by rw [lookup_envs h c hn.1]; simp⟩
    · exact ih hn.2 h hc

/-! ## The positions an einsum call reads -/

theorem mem_of_mem_eraseDupsBy {α : Type} {r : α → α → Bool} {l : List α} {x : α} (h : x ∈ l.eraseDupsBy r) : x ∈ l := by
  induction hn : l.length using Nat.strong_induction_on generalizing l with
  | _ n ih =>
    cases l with
    | nil => exact h
    | cons a l =>
      rw [List.eraseDupsBy_cons] at h
      rcases List.mem_cons.1 h with rfl | h
      · simp
      · have := ih _ (by rw [← hn]; exact Nat.lt_succ_of_le (List.length_filter_le _ _)) h rfl
        exact List.mem_cons_of_mem _ (List.mem_filter.1 this).1

theorem nodup_eraseDupsBy_fst {l : List (Char × ℕ)} : ((l.eraseDupsBy fun p q => p.1 == q.1).map Prod.fst).Nodup := by
  induction hn : l.length using Nat.strong_induction_on generalizing l with
  | _ n ih =>
    cases l with
    | nil => simp
    | cons a l =>
      rw [List.eraseDupsBy_cons, List.map_cons, List.nodup_cons]
      refine ⟨fun h => ?_, ih _ (by rw [← hn]; exact Nat.lt_succ_of_le (List.length_filter_le _ _)) rfl⟩
      obtain ⟨p, hp, he⟩ := List.mem_map.1 h
      have := (List.mem_filter.1 (mem_of_mem_eraseDupsBy hp)).2
      simp [he] at this

theorem fst_mem_eraseDupsBy {l : List (Char × ℕ)} {c : Char} (h : c ∈ l.map Prod.fst) :
    c ∈ (l.eraseDupsBy fun p q => p.1 == q.1).map Prod.fst := by
  induction hn : l.length using Nat.strong_induction_on generalizing l with
  | _ n ih =>
    cases l with
    | nil => simp at h
    | cons a l =>
      rw [List.eraseDupsBy_cons, List.map_cons]
      by_cases hc : c = a.1
      · simp [hc]
      · refine List.mem_cons_of_mem _ (ih _ (by rw [← hn]; exact Nat.lt_succ_of_le (List.length_filter_le _ _)) ?_ rfl)
        obtain ⟨p, hp, rfl⟩ := List.mem_map.1 h
        rcases List.mem_cons.1 hp with rfl | hp
        · exact absurd rfl hc
        · exact List.mem_map.2 ⟨p, List.mem_filter.2 ⟨hp, by simpa using hc⟩, rfl⟩

/-- The conditions that einsum checks. -/
def EinOk {K : Type} (spec : List (List Char) × List Char) (ops : List (Tensor K)) : Prop :=
  spec.1.map List.length = ops.map (fun t => t.shape.length) ∧
    (∀ p ∈ einDims spec.1 ops, (einDims spec.1 ops).lookup p.1 = some p.2) ∧ (∀ c ∈ spec.2, ((einDims spec.1 ops).lookup c).isSome)

/-- One product of an einsum call. -/
def einProd {K : Type} [CommSemiring K] (ins : List (List Char)) (ops : List (Tensor K)) (env : List (Char × ℕ)) : K :=
  (List.zipWith (fun (l : List Char) (t : Tensor K) => t.get (l.map (lookupLabel env))) ins ops).prod

open Classical in
theorem einsum_eq {K : Type} [CommSemiring K] (spec : List (List Char) × List Char) (ops : List (Tensor K)) :
    einsum spec ops = if EinOk spec ops then Except.ok ⟨spec.2.map (lookupLabel (einDims spec.1 ops)), fun idx =>
      ((envs (einContracted spec ops) (spec.2.zip idx)).map (einProd spec.1 ops)).sum⟩ else Except.error Err.tf := by
  unfold einsum EinOk
  simp only [sumOver_envs]
  split_ifs <;> rfl

theorem lookup_zip_lt {dim : Char → ℕ} {out : List Char} {idx : List ℕ} (hi : Valid (out.map dim) idx) {c : Char} (hc : c ∈ out) :
    ((out.zip idx).lookup c).getD 0 < dim c := by
  induction out generalizing idx with
  | nil => simp at hc
  | cons d out ih =>
    cases idx with
    | nil => exact absurd hi (by simp)
    | cons x idx =>
      simp only [List.map_cons, valid_cons] at hi
      rw [List.zip_cons_cons, List.lookup_cons]
      by_cases hcd : c = d
      · subst hcd; simpa using hi.1
      · rw [beq_false_of_ne hcd]
        exact ih hi.2 ((List.mem_cons.1 hc).resolve_left hcd)

/-- Every element that einsum reads exists. -/
theorem EinOk.valid {K : Type} {spec : List (List Char) × List Char} {ops : List (Tensor K)} (h : EinOk spec ops) {idx : List ℕ}
    (hi : Valid (spec.2.map (lookupLabel (einDims spec.1 ops))) idx) {e : List (Char × ℕ)}
    (he : e ∈ envs (einContracted spec ops) (spec.2.zip idx)) {l : List Char} {t : Tensor K} (hlt : (l, t) ∈ spec.1.zip ops) :
    Valid t.shape (l.map (lookupLabel e)) := by
  obtain ⟨h1, h2, h3⟩ := h
  have hlen : l.length = t.shape.length := by
    have : ∀ (A : List (List Char)) (B : List (Tensor K)), A.map List.length = B.map (fun t => t.shape.length) → (l, t) ∈ A.zip B →
        l.length = t.shape.length := by
      intro A
      induction A with
      | nil => intro B _ h; simp at h
      | cons a A ih =>
        intro B hB h
        cases B with
        | nil => simp at h
        | cons b B =>
          simp only [List.map_cons, List.cons.injEq] at hB
          rcases List.mem_cons.1 h with h | h
          · obtain ⟨rfl, rfl⟩ := Prod.mk.inj h; exact hB.1
          · exact ih B hB.2 h
    exact this _ _ h1 hlt
  have hmem : ∀ p ∈ l.zip t.shape, p ∈ einDims spec.1 ops := by
    intro p hp
    unfold einDims
    rw [List.mem_flatten]
    refine ⟨_, ?_, hp⟩
    rw [← List.map_uncurry_zip_eq_zipWith]
    exact List.mem_map.2 ⟨(l, t), hlt, rfl⟩
  have key : ∀ p ∈ l.zip t.shape, lookupLabel e p.1 < p.2 := by
    intro p hp
    have hd := hmem p hp
    have hl := h2 p hd
    by_cases hc : p.1 ∈ spec.2
    · have hn : p.1 ∉ (einContracted spec ops).map Prod.fst := by
        intro hq
        obtain ⟨q, hq, hqe⟩ := List.mem_map.1 hq
        have := (List.mem_filter.1 (mem_of_mem_eraseDupsBy hq)).2
        simp only [decide_eq_true_eq] at this
        exact this (hqe ▸ hc)
      unfold lookupLabel
      rw [lookup_envs he _ hn]
      have := lookup_zip_lt hi hc
      rwa [lookupLabel, hl] at this
    · have hq := fst_mem_eraseDupsBy (l := (einDims spec.1 ops).filter fun p => p.1 ∉ spec.2)
        (List.mem_map.2 ⟨p, List.mem_filter.2 ⟨hd, by simpa using hc⟩, rfl⟩)
      obtain ⟨q, hq, hqe⟩ := List.mem_map.1 hq
      obtain ⟨x, hx, hxe⟩ := lookup_envs_mem nodup_eraseDupsBy_fst he hq
      have hq2 := h2 q (List.mem_filter.1 (mem_of_mem_eraseDupsBy hq)).1
      rw [hqe, hl] at hq2
      unfold lookupLabel
      rw [← hqe, hxe]
      have : p.2 = q.2 := by simpa using hq2
      simpa [this] using hx
  clear hmem hlt
  generalize t.shape = sh at *
  induction l generalizing sh with
  | nil => cases sh with
    | nil => trivial
    | cons => simp at hlen
  | cons c l ih => cases sh with
    | nil => simp at hlen
    | cons n sh =>
      simp only [List.map_cons, valid_cons]
      refine ⟨key (c, n) (by simp), ih sh (by simpa using hlen) fun p hp => key p (by simp [hp])⟩

end T3f
