import Verif.Proofs.FullGet
import Verif.Proofs.Batch

/-!
# Contractions of chains of cores: sums over mode indices and ranks
-/

namespace T3f

variable {K : Type} [CommRing K]

theorem sum_mode1 (i : ℕ) (f : List ℕ → K) :
    ∑ n ∈ Finset.range [i].prod, f (unravel [i] n) = ∑ z ∈ Finset.range i, f [z] := by
  simp

theorem unravel_append (s t : List ℕ) (l j : ℕ) (hl : l < s.prod) (hj : j < t.prod) :
    unravel (s ++ t) (l * t.prod + j) = unravel s l ++ unravel t j := by
  have hv := valid_append (unravel_valid hl) (unravel_valid hj)
  rw [← unravel_ravel hv, ravel_append _ _ (unravel_valid hl).length_eq, ravel_unravel hl,
    ravel_unravel hj]

theorem sum_mode_append (s t : List ℕ) (f : List ℕ → K) :
    ∑ n ∈ Finset.range (s ++ t).prod, f (unravel (s ++ t) n) =
      ∑ l ∈ Finset.range s.prod, ∑ j ∈ Finset.range t.prod, f (unravel s l ++ unravel t j) := by
  rw [List.prod_append, sum_range_mul]
  exact Finset.sum_congr rfl fun l hl => Finset.sum_congr rfl fun j hj => by
    rw [unravel_append s t l j (by simpa using hl) (by simpa using hj)]

theorem sum_mode_cons (i : ℕ) (s : List ℕ) (f : List ℕ → K) :
    ∑ n ∈ Finset.range (i :: s).prod, f (unravel (i :: s) n) =
      ∑ z ∈ Finset.range i, ∑ j ∈ Finset.range s.prod, f (z :: unravel s j) := by
  have := sum_mode_append [i] s f
  simpa using this

theorem sum_mode2 (i j : ℕ) (f : List ℕ → K) :
    ∑ n ∈ Finset.range [i, j].prod, f (unravel [i, j] n) =
      ∑ z ∈ Finset.range i, ∑ w ∈ Finset.range j, f [z, w] := by
  rw [sum_mode_cons]; simp

/-- Sums over groups of modes. -/
theorem msum_append (M M' : ℕ → List ℕ) (d : ℕ) (F : (ℕ → List ℕ) → K) :
    msum (fun k => M k ++ M' k) d F =
      msum M d fun g => msum M' d fun g' => F fun k => g k ++ g' k := by
  induction d generalizing F with
  | zero => rfl
  | succ d ih =>
    rw [msum, sum_mode_append (M d) (M' d) (fun v => msum (fun k => M k ++ M' k) d fun g =>
      F (Function.update g d v)), msum]
    refine Finset.sum_congr rfl fun l _ => ?_
    simp only [msum]
    rw [msum_sum]
    refine Finset.sum_congr rfl fun j _ => ?_
    rw [ih]
    refine msum_congr_all _ _ _ _ fun g => msum_congr_all _ _ _ _ fun g' => ?_
    congr 1
    funext k
    by_cases hk : k = d
    · subst hk; simp
    · simp [Function.update_of_ne hk]

omit [CommRing K] in
theorem rows_cases {t : TT K} [Zero K] (h : t.WF) :
    (∃ row, t.rawShape = [row] ∧ row.length = t.ndims) ∨
    (∃ row0 row1, t.rawShape = [row0, row1] ∧ row0.length = t.ndims ∧ row1.length = t.ndims) := by
  rcases h.rows with h1 | h2
  · obtain ⟨r, hr⟩ := List.length_eq_one_iff.1 h1
    exact Or.inl ⟨r, hr, h.rows_len r (by simp [hr])⟩
  · obtain ⟨r, r', hr⟩ := List.length_eq_two.1 h2
    exact Or.inr ⟨r, r', hr, h.rows_len r (by simp [hr]), h.rows_len r' (by simp [hr])⟩

/-- Sum over all mode indices of a TT object as a sum over the positions of the dense object. -/
theorem msum_rest {t : TT K} (h : t.WF) (F : (ℕ → List ℕ) → K) (hF : DependsBelow t.ndims F) :
    msum t.modes t.ndims F = ∑ n ∈ Finset.range (restShape t.rawShape).prod,
      F (restModes t.rawShape (unravel (restShape t.rawShape) n)) := by
  rcases rows_cases h with ⟨row, hr, hl⟩ | ⟨row0, row1, hr, hl0, hl1⟩
  · rw [hr, restShape_tensor, ← hl]
    rw [← hl] at hF
    rw [msum_tensor row _ (fun k _ => by simp [TT.modes, hr]) F hF]
    rfl
  · rw [hr, restShape_matrix, msum_matrix t.ndims row0 row1 hl0 hl1 _
      (fun k _ => by simp [TT.modes, hr]) F hF]
    rw [sum_mode2 row0.prod row1.prod (fun v => F (restModes [row0, row1] v))]
    rfl

/-- Entries depend on the mode indices of the cores only. -/
theorem entry_depends (t : TT K) (p : List ℕ) : DependsBelow t.ndims (fun g => t.entry p g) := by
  intro g g' hg
  exact lprod_congr' fun j hj => by funext x y; simp [TT.slice, hg j hj]

theorem slice_update (t : TT K) (p : List ℕ) (g : ℕ → List ℕ) (k b : ℕ) (v : List ℕ) :
    lprod t.rank (t.slice p (Function.update g k v)) k b = lprod t.rank (t.slice p g) k b :=
  lprod_congr' fun j hj => by funext x y; simp [TT.slice, Function.update_of_ne (show j ≠ k by omega)]

omit [CommRing K] in
theorem squeezeAll_shape (t : Tensor K) : (squeezeAll t).shape = t.shape.filter (· ≠ 1) := rfl

omit [CommRing K] in
/-- `tf.squeeze` on a batch of `1 × ⋯ × 1` results. -/
theorem squeezeAll_batch (T : Tensor K) (b : Option ℕ) (n : ℕ) (hT : T.shape = b.toList ++ List.replicate n 1) :
    (squeezeAll T).shape = (squeezed b).toList ∧
      ∀ o, o < b.getD 1 → (squeezeAll T).get (bsel (squeezed b) o) = T.get (lsel b o ++ List.replicate n 0) := by
  have hu : ∀ n, unsqueezeIdx (List.replicate n 1) [] = List.replicate n 0 := by
    intro n
    induction n with
    | zero => rfl
    | succ n ih => simp [List.replicate_succ, unsqueezeIdx, ih]
  rcases b with _ | m
  · refine ⟨by simp [squeezeAll, hT, squeezed], fun o ho => ?_⟩
    simp [squeezeAll, hT, squeezed, bsel, lsel, hu]
  · by_cases hm : m = 1
    · subst hm
      refine ⟨by simp [squeezeAll, hT, squeezed], fun o ho => ?_⟩
      obtain rfl : o = 0 := by simpa using ho
      simp [squeezeAll, hT, squeezed, bsel, lsel, hu, unsqueezeIdx]
    · rw [show squeezed (some m) = some m by rw [squeezed_eq]; simp [hm]]
      refine ⟨by simp [squeezeAll, hT, hm], fun o ho => ?_⟩
      simp [squeezeAll, hT, bsel, lsel, hu, unsqueezeIdx, hm]

/-! ## Contractions of three and four chains -/

/-- Recursion for the contraction of three chains. -/
theorem msum_lprod3 (ra rb rc : ℕ → ℕ) (A B C : ℕ → List ℕ → ℕ → ℕ → K) (M : ℕ → List ℕ) (k x y z : ℕ) :
    msum M (k + 1) (fun g => lprod ra (fun j => A j (g j)) (k + 1) x *
        (lprod rb (fun j => B j (g j)) (k + 1) y * lprod rc (fun j => C j (g j)) (k + 1) z)) =
      ∑ a ∈ Finset.range (ra k), ∑ b ∈ Finset.range (rb k), ∑ c ∈ Finset.range (rc k),
        msum M k (fun g => lprod ra (fun j => A j (g j)) k a *
          (lprod rb (fun j => B j (g j)) k b * lprod rc (fun j => C j (g j)) k c)) *
          ∑ n ∈ Finset.range (M k).prod,
            A k (unravel (M k) n) a x * (B k (unravel (M k) n) b y * C k (unravel (M k) n) c z) := by
  rw [msum_step (Finset.range (ra k) ×ˢ (Finset.range (rb k) ×ˢ Finset.range (rc k))) M k
    (fun g s => lprod ra (fun j => A j (g j)) k s.1 * (lprod rb (fun j => B j (g j)) k s.2.1 *
      lprod rc (fun j => C j (g j)) k s.2.2))
    (fun g v s => by rw [lprod_update, lprod_update, lprod_update]) _
    (fun v s => A k v s.1 x * (B k v s.2.1 y * C k v s.2.2 z))]
  · simp only [Finset.sum_product]
  · intro g
    simp only [lprod, Finset.sum_mul_sum, Finset.sum_product]
    refine Finset.sum_congr rfl fun a _ => Finset.sum_congr rfl fun b _ => ?_
    rw [Finset.mul_sum]
    exact Finset.sum_congr rfl fun c _ => by ring

/-- Recursion for the contraction of four chains. -/
theorem msum_lprod4 (ra rb rc rd : ℕ → ℕ) (A B C D : ℕ → List ℕ → ℕ → ℕ → K) (M : ℕ → List ℕ)
    (k x y z w : ℕ) :
    msum M (k + 1) (fun g => lprod ra (fun j => A j (g j)) (k + 1) x *
        (lprod rb (fun j => B j (g j)) (k + 1) y * (lprod rc (fun j => C j (g j)) (k + 1) z *
          lprod rd (fun j => D j (g j)) (k + 1) w))) =
      ∑ a ∈ Finset.range (ra k), ∑ b ∈ Finset.range (rb k), ∑ c ∈ Finset.range (rc k), ∑ d ∈ Finset.range (rd k),
        msum M k (fun g => lprod ra (fun j => A j (g j)) k a *
          (lprod rb (fun j => B j (g j)) k b * (lprod rc (fun j => C j (g j)) k c *
            lprod rd (fun j => D j (g j)) k d))) *
          ∑ n ∈ Finset.range (M k).prod,
            A k (unravel (M k) n) a x * (B k (unravel (M k) n) b y * (C k (unravel (M k) n) c z *
              D k (unravel (M k) n) d w)) := by
  rw [msum_step (Finset.range (ra k) ×ˢ (Finset.range (rb k) ×ˢ (Finset.range (rc k) ×ˢ Finset.range (rd k)))) M k
    (fun g s => lprod ra (fun j => A j (g j)) k s.1 * (lprod rb (fun j => B j (g j)) k s.2.1 *
      (lprod rc (fun j => C j (g j)) k s.2.2.1 * lprod rd (fun j => D j (g j)) k s.2.2.2)))
    (fun g v s => by rw [lprod_update, lprod_update, lprod_update, lprod_update]) _
    (fun v s => A k v s.1 x * (B k v s.2.1 y * (C k v s.2.2.1 z * D k v s.2.2.2 w)))]
  · simp only [Finset.sum_product]
  · intro g
    simp only [lprod, Finset.sum_mul_sum, Finset.sum_product]
    refine Finset.sum_congr rfl fun a _ => Finset.sum_congr rfl fun b _ => ?_
    rw [Finset.mul_sum]
    refine Finset.sum_congr rfl fun c _ => ?_
    rw [Finset.mul_sum, Finset.mul_sum]
    exact Finset.sum_congr rfl fun d _ => by ring

/-- Peel off the first of several modes per core. -/
theorem msum_cons (d : ℕ) (I : List ℕ) (hI : I.length = d) (M : ℕ → List ℕ) (F : (ℕ → List ℕ) → K)
    (hF : DependsBelow d F) :
    msum (fun k => I.getD k 0 :: M k) d F =
      ∑ n ∈ Finset.range I.prod, msum M d fun g => F fun k => (unravel I n).getD k 0 :: g k := by
  have h := msum_append (fun k => [I.getD k 0]) M d F
  simp only [List.cons_append, List.nil_append] at h
  rw [h]
  subst hI
  rw [msum_tensor I _ (fun _ _ => rfl)]
  · rfl
  · intro g g' hg
    refine msum_congr_all _ _ _ _ fun v => hF _ _ fun j hj => by rw [hg j hj]

theorem msum_nil (d : ℕ) (F : (ℕ → List ℕ) → K) (hF : DependsBelow d F) :
    msum (fun _ => []) d F = F fun _ => [] := by
  induction d generalizing F with
  | zero => rfl
  | succ d ih =>
    simp only [msum, List.prod_nil, Finset.range_one, Finset.sum_singleton, unravel_nil]
    rw [ih]
    · congr 1
      funext k
      by_cases hk : k = d <;> simp [hk]
    · intro g g' hg
      refine hF _ _ fun j hj => ?_
      by_cases hk : j = d
      · simp [hk]
      · simp [Function.update_of_ne hk, hg j (by omega)]

end T3f
