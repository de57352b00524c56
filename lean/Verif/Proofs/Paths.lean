import Verif.Proofs.Rounding
import Verif.Tf.Cost
import Mathlib.Algebra.BigOperators.Group.List.Basic
import Mathlib.Algebra.BigOperators.Ring.Finset
import Mathlib.Algebra.BigOperators.Group.Finset.Sigma

/-!
# Contracting two operands at a time
-/

namespace T3f

variable {K : Type} [CommSemiring K]

/-! ## Sums over labels -/

/-- The sum over all values of the labels. -/
def sumL (dim : Char → ℕ) : List Char → (Char → ℕ) → ((Char → ℕ) → K) → K
  | [], σ, f => f σ
  | c :: l, σ, f => ∑ x ∈ Finset.range (dim c), sumL dim l (Function.update σ c x) f

/-- The function only looks at the labels in `s`. -/
def DependsOn (f : (Char → ℕ) → K) (s : Char → Prop) : Prop := ∀ σ τ, (∀ c, s c → σ c = τ c) → f σ = f τ

variable {dim : Char → ℕ}

theorem sumL_append (l l' : List Char) (σ : Char → ℕ) (f : (Char → ℕ) → K) :
    sumL dim (l ++ l') σ f = sumL dim l σ fun τ => sumL dim l' τ f := by
  induction l generalizing σ with
  | nil => rfl
  | cons c l ih => simp only [List.cons_append, sumL, ih]

theorem sumL_perm {l l' : List Char} (h : l.Perm l') (hn : l.Nodup) (σ : Char → ℕ) (f : (Char → ℕ) → K) : sumL dim l σ f = sumL dim l' σ f := by
  induction h generalizing σ with
  | nil => rfl
  | cons c _ ih => simp only [sumL, ih (List.nodup_cons.1 hn).2]
  | swap c d l =>
    simp only [sumL]
    rw [Finset.sum_comm]
    refine Finset.sum_congr rfl fun x _ => Finset.sum_congr rfl fun y _ => ?_
    have : c ≠ d := by
      rintro rfl
      simp at hn
    rw [Function.update_comm this]
  | trans h1 _ ih1 ih2 => rw [ih1 hn, ih2 (h1.nodup_iff.1 hn)]

theorem sumL_mul_left {l : List Char} {g : (Char → ℕ) → K} (hg : DependsOn g (· ∉ l)) (σ : Char → ℕ) (h : (Char → ℕ) → K) :
    sumL dim l σ (fun τ => g τ * h τ) = g σ * sumL dim l σ h := by
  induction l generalizing σ with
  | nil => rfl
  | cons c l ih =>
    simp only [sumL]
    rw [Finset.mul_sum]
    refine Finset.sum_congr rfl fun x _ => ?_
    rw [ih fun σ τ hστ => hg σ τ fun d hd => hστ d fun h => hd (List.mem_cons_of_mem _ h)]
    congr 1
    refine hg _ _ fun d hd => ?_
    rw [Function.update_of_ne]
    rintro rfl
    simp at hd

theorem sumL_depends {l : List Char} {f : (Char → ℕ) → K} {s : Char → Prop} (hf : DependsOn f s) {σ τ : Char → ℕ}
    (h : ∀ c, s c → c ∉ l → σ c = τ c) : sumL dim l σ f = sumL dim l τ f := by
  induction l generalizing σ τ with
  | nil => exact hf _ _ fun c hc => h c hc (by simp)
  | cons c l ih =>
    refine Finset.sum_congr rfl fun x _ => ih fun d hd hdl => ?_
    by_cases hdc : d = c
    · subst hdc; simp
    · rw [Function.update_of_ne hdc, Function.update_of_ne hdc]
      exact h d hd (by simp [hdc, hdl])

/-! ## Networks -/

/-- The shapes of the operands are given by the sizes of their labels. -/
def Sized (dim : Char → ℕ) (ls : List (List Char)) (ts : List (Tensor K)) : Prop := List.Forall₂ (fun l t => t.shape = l.map dim) ls ts

/-- The product of the elements for an assignment of the labels. -/
def netProd (ls : List (List Char)) (ts : List (Tensor K)) (σ : Char → ℕ) : K := (List.zipWith (fun l t => t.get (l.map σ)) ls ts).prod

/-- The labels that are summed. -/
def summed (ls : List (List Char)) (out : List Char) : List Char := (ls.flatten.filter (· ∉ out)).dedup

theorem mem_summed {ls : List (List Char)} {out : List Char} {c : Char} : c ∈ summed ls out ↔ (∃ l ∈ ls, c ∈ l) ∧ c ∉ out := by
  simp only [summed, List.mem_dedup, List.mem_filter, List.mem_flatten, decide_eq_true_eq]

omit [CommSemiring K] in
theorem Sized.length {ls : List (List Char)} {ts : List (Tensor K)} (h : Sized dim ls ts) : ls.length = ts.length := List.Forall₂.length_eq h

omit [CommSemiring K] in
theorem Sized.mem_dims {ls : List (List Char)} {ts : List (Tensor K)} (h : Sized dim ls ts) {p : Char × ℕ} (hp : p ∈ einDims ls ts) :
    p.2 = dim p.1 ∧ ∃ l ∈ ls, p.1 ∈ l := by
  unfold einDims at hp
  induction h with
  | nil => simp at hp
  | @cons l t ls ts hlt _ ih =>
    simp only [List.zipWith_cons_cons, List.flatten_cons, List.mem_append] at hp
    rcases hp with hp | hp
    · rw [hlt, List.zip_map_right] at hp
      obtain ⟨q, hq, rfl⟩ := List.mem_map.1 hp
      have := List.of_mem_zip (show (q.1, q.2) ∈ l.zip l from hq)
      have e : q.1 = q.2 := by
        clear hp hlt
        induction l with
        | nil => simp at hq
        | cons a l ih' =>
          rcases List.mem_cons.1 hq with h | h
          · rw [h]
          · exact ih' h (List.of_mem_zip (show (q.1, q.2) ∈ l.zip l from h))
      exact ⟨by simp [Prod.map, e], l, by simp, by simpa using this.1⟩
    · obtain ⟨h1, l', h2, h3⟩ := ih hp
      exact ⟨h1, l', by simp [h2], h3⟩

omit [CommSemiring K] in
theorem Sized.dims_mem {ls : List (List Char)} {ts : List (Tensor K)} (h : Sized dim ls ts) {l : List Char} (hl : l ∈ ls) {c : Char} (hc : c ∈ l) :
    (c, dim c) ∈ einDims ls ts := by
  unfold einDims
  induction h with
  | nil => simp at hl
  | @cons l' t ls ts hlt _ ih =>
    simp only [List.zipWith_cons_cons, List.flatten_cons, List.mem_append]
    rcases List.mem_cons.1 hl with rfl | hl
    · left
      rw [hlt, List.zip_map_right]
      exact List.mem_map.2 ⟨(c, c), by
        clear hlt ih hl
        induction l with
        | nil => simp at hc
        | cons a l ih' =>
          rcases List.mem_cons.1 hc with rfl | hc
          · simp
          · simp only [List.zip_cons_cons, List.mem_cons]
            exact Or.inr (ih' hc), rfl⟩
    · exact Or.inr (ih hl)

theorem lookup_of_mem {l : List (Char × ℕ)} {dim : Char → ℕ} (h : ∀ p ∈ l, p.2 = dim p.1) {c : Char} {n : ℕ} (hc : (c, n) ∈ l) : l.lookup c = some (dim c) := by
  induction l with
  | nil => simp at hc
  | cons p l ih =>
    rw [List.lookup_cons]
    by_cases he : c = p.1
    · subst he
      have := h p (by simp)
      simp [this]
    · rw [beq_false_of_ne he]
      rcases List.mem_cons.1 hc with rfl | hc
      · exact absurd rfl he
      · exact ih (fun p hp => h p (by simp [hp])) hc

omit [CommSemiring K] in
theorem Sized.lookup {ls : List (List Char)} {ts : List (Tensor K)} (h : Sized dim ls ts) {l : List Char} (hl : l ∈ ls) {c : Char} (hc : c ∈ l) :
    (einDims ls ts).lookup c = some (dim c) :=
  lookup_of_mem (fun _ hp => (h.mem_dims hp).1) (h.dims_mem hl hc)

omit [CommSemiring K] in
theorem Sized.einOk {ls : List (List Char)} {ts : List (Tensor K)} (h : Sized dim ls ts) {out : List Char} (hout : ∀ c ∈ out, ∃ l ∈ ls, c ∈ l) :
    EinOk (ls, out) ts := by
  refine ⟨?_, fun p hp => ?_, fun c hc => ?_⟩
  · show ls.map List.length = _
    clear hout
    induction h with
    | nil => rfl
    | @cons l t ls ts hlt _ ih => simp only [List.map_cons, ih, hlt, List.length_map]
  · obtain ⟨h1, l, hl, hc⟩ := h.mem_dims hp
    rw [h.lookup hl hc, h1]
  · obtain ⟨l, hl, hc⟩ := hout c hc
    show ((einDims ls ts).lookup c).isSome
    rw [h.lookup hl hc]
    rfl

omit [CommSemiring K] in
theorem EinOk.sized {spec : List (List Char) × List Char} {ts : List (Tensor K)} (h : EinOk spec ts) :
    Sized (lookupLabel (einDims spec.1 ts)) spec.1 ts ∧ ∀ c ∈ spec.2, ∃ l ∈ spec.1, c ∈ l := by
  obtain ⟨ls, out⟩ := spec
  obtain ⟨h1, h2, h3⟩ := h
  simp only at h1 h2 h3 ⊢
  refine ⟨?_, fun c hc => ?_⟩
  · have key : ∀ p ∈ einDims ls ts, lookupLabel (einDims ls ts) p.1 = p.2 := fun p hp => by
      unfold lookupLabel; rw [h2 p hp]; rfl
    clear h2 h3
    revert key
    generalize lookupLabel (einDims ls ts) = dim
    intro key
    unfold Sized
    induction ls generalizing ts with
    | nil =>
      cases ts with
      | nil => exact List.Forall₂.nil
      | cons => simp at h1
    | cons l ls ih =>
      cases ts with
      | nil => simp at h1
      | cons t ts =>
        simp only [List.map_cons, List.cons.injEq] at h1
        simp only [einDims, List.zipWith_cons_cons, List.flatten_cons, List.mem_append] at key
        refine List.Forall₂.cons ?_ (ih h1.2 fun p hp => key p (Or.inr hp))
        have k1 := fun p hp => key p (Or.inl hp)
        have hlen := h1.1
        clear key ih h1
        generalize t.shape = s at *
        induction l generalizing s with
        | nil => cases s with
          | nil => rfl
          | cons => simp at hlen
        | cons c l ih => cases s with
          | nil => simp at hlen
          | cons n s =>
            rw [List.map_cons, k1 (c, n) (by simp), ← ih s (fun p hp => k1 p (by simp [hp])) (by simpa using hlen)]
  · have := h3 c hc
    rw [Option.isSome_iff_exists] at this
    obtain ⟨n, hn⟩ := this
    have hm : (c, n) ∈ einDims ls ts := by
      clear h1 h2 h3
      generalize einDims ls ts = L at hn
      induction L with
      | nil => simp at hn
      | cons p L ih =>
        rw [List.lookup_cons] at hn
        by_cases he : c = p.1
        · subst he
          simp at hn
          simp [← hn]
        · rw [beq_false_of_ne he] at hn
          exact List.mem_cons_of_mem _ (ih hn)
    unfold einDims at hm
    rw [← List.map_uncurry_zip_eq_zipWith, List.mem_flatten] at hm
    obtain ⟨q, hq, hpq⟩ := hm
    obtain ⟨⟨l, t⟩, hlt, rfl⟩ := List.mem_map.1 hq
    exact ⟨l, (List.of_mem_zip hlt).1, (List.of_mem_zip (show (c, n) ∈ l.zip t.shape from hpq)).1⟩

theorem lookupLabel_cons (c : Char) (x : ℕ) (env : List (Char × ℕ)) : lookupLabel ((c, x) :: env) = Function.update (lookupLabel env) c x := by
  funext d
  unfold lookupLabel
  rw [List.lookup_cons]
  by_cases h : d = c
  · subst h; simp
  · rw [beq_false_of_ne h, Function.update_of_ne h]

theorem sumOver_sumL {cs : List (Char × ℕ)} (h : ∀ p ∈ cs, p.2 = dim p.1) (env : List (Char × ℕ)) (f : (Char → ℕ) → K) :
    sumOver cs env (fun e => f (lookupLabel e)) = sumL dim (cs.map Prod.fst) (lookupLabel env) f := by
  induction cs generalizing env with
  | nil => rfl
  | cons p cs ih =>
    obtain ⟨c, n⟩ := p
    have : n = dim c := h (c, n) (by simp)
    subst this
    simp only [sumOver, List.map_cons, sumL, ih fun p hp => h p (List.mem_cons_of_mem _ hp), lookupLabel_cons]

theorem lookupLabel_zip {out : List Char} (σ : Char → ℕ) {c : Char} (hc : c ∈ out) : lookupLabel (out.zip (out.map σ)) c = σ c := by
  induction out with
  | nil => simp at hc
  | cons d out ih =>
    rw [List.map_cons, List.zip_cons_cons, lookupLabel_cons]
    by_cases h : c = d
    · subst h; simp
    · rw [Function.update_of_ne h]
      exact ih (by simpa [h] using hc)

theorem netProd_depends (ls : List (List Char)) (ts : List (Tensor K)) : DependsOn (netProd ls ts) (fun c => ∃ l ∈ ls, c ∈ l) := by
  intro σ τ h
  unfold netProd
  congr 1
  induction ls generalizing ts with
  | nil => rfl
  | cons l ls ih =>
    cases ts with
    | nil => rfl
    | cons t ts =>
      rw [List.zipWith_cons_cons, List.zipWith_cons_cons, ih ts fun c ⟨l', h1, h2⟩ => h c ⟨l', by simp [h1], h2⟩,
        List.map_congr_left fun c hc => h c ⟨l, by simp, hc⟩]

theorem summed_nodup (ls : List (List Char)) (out : List Char) : (summed ls out).Nodup := List.nodup_dedup _

omit [CommSemiring K] in
theorem Sized.contracted_perm {ls : List (List Char)} {ts : List (Tensor K)} (h : Sized dim ls ts) (out : List Char) :
    ((einContracted (ls, out) ts).map Prod.fst).Perm (summed ls out) := by
  refine (List.perm_ext_iff_of_nodup nodup_eraseDupsBy_fst (summed_nodup ls out)).2 fun c => ?_
  rw [mem_summed]
  constructor
  · intro hc
    obtain ⟨p, hp, rfl⟩ := List.mem_map.1 hc
    obtain ⟨h1, h2⟩ := List.mem_filter.1 (mem_of_mem_eraseDupsBy hp)
    exact ⟨(h.mem_dims h1).2, by simpa using h2⟩
  · rintro ⟨⟨l, hl, hc⟩, hout⟩
    exact fst_mem_eraseDupsBy (List.mem_map.2 ⟨(c, dim c), List.mem_filter.2 ⟨h.dims_mem hl hc, by simpa using hout⟩, rfl⟩)

omit [CommSemiring K] in
theorem Sized.contracted_dim {ls : List (List Char)} {ts : List (Tensor K)} (h : Sized dim ls ts) (out : List Char) :
    ∀ p ∈ einContracted (ls, out) ts, p.2 = dim p.1 := fun _ hp =>
  (h.mem_dims (List.mem_filter.1 (mem_of_mem_eraseDupsBy hp)).1).1

/-- The value of an einsum call. -/
theorem Sized.einsum {ls : List (List Char)} {ts : List (Tensor K)} (h : Sized dim ls ts) {out : List Char} (hout : ∀ c ∈ out, ∃ l ∈ ls, c ∈ l) :
    T3f.einsum (ls, out) ts =
      Except.ok ⟨out.map dim, fun idx => sumL dim (summed ls out) (lookupLabel (out.zip idx)) (netProd ls ts)⟩ := by
  unfold T3f.einsum
  refine (if_pos (h.einOk hout)).trans ?_
  refine congrArg Except.ok (congrArg₂ Tensor.mk ?_ ?_)
  · refine List.map_congr_left fun c hc => ?_
    obtain ⟨l, hl, hc⟩ := hout c hc
    show lookupLabel (einDims ls ts) c = _
    rw [lookupLabel, h.lookup hl hc]
    rfl
  · funext idx
    show sumOver (einContracted (ls, out) ts) (out.zip idx) (fun e => netProd ls ts (lookupLabel e)) = _
    rw [sumOver_sumL (h.contracted_dim out), sumL_perm (h.contracted_perm out) nodup_eraseDupsBy_fst]

theorem sumL_lookup (ls : List (List Char)) (ts : List (Tensor K)) (out : List Char) (σ : Char → ℕ) :
    sumL dim (summed ls out) (lookupLabel (out.zip (out.map σ))) (netProd ls ts) = sumL dim (summed ls out) σ (netProd ls ts) :=
  sumL_depends (netProd_depends ls ts) fun c hc hn => lookupLabel_zip σ (by
    by_contra hco
    exact hn (mem_summed.2 ⟨hc, hco⟩))

/-! ## One contraction of two operands -/

theorem pair_perm {α : Type} (l : List α) {i j : ℕ} (hij : i < j) (hj : j < l.length) (d : α) :
    l.Perm ((l.eraseIdx j).eraseIdx i ++ [l.getD i d, l.getD j d]) := by
  have hi : i < (l.eraseIdx j).length := by rw [List.length_eraseIdx_of_lt hj]; omega
  have e1 : (l.eraseIdx j)[i] = l.getD i d := by
    rw [List.getElem_eraseIdx_of_lt hi hij, List.getD_eq_getElem]
  have e2 : l[j] = l.getD j d := (List.getD_eq_getElem _ _ hj).symm
  have p1 := List.getElem_cons_eraseIdx_perm hj
  have p2 := List.getElem_cons_eraseIdx_perm hi
  rw [e2] at p1
  rw [e1] at p2
  refine p1.symm.trans ((p2.symm.cons _).trans ?_)
  refine (List.Perm.swap _ _ _).trans ?_
  exact (List.perm_append_comm (l₁ := [l.getD i d, l.getD j d]))

theorem zipWith_eraseIdx {α β γ : Type} (f : α → β → γ) (l : List α) (m : List β) (h : l.length = m.length) (i : ℕ) :
    List.zipWith f (l.eraseIdx i) (m.eraseIdx i) = (List.zipWith f l m).eraseIdx i := by
  induction l generalizing m i with
  | nil => simp
  | cons a l ih =>
    cases m with
    | nil => simp at h
    | cons b m =>
      cases i with
      | zero => simp
      | succ i => simpa using ih m (by simpa using h) i

theorem forall₂_eraseIdx {α β : Type} {P : α → β → Prop} {l : List α} {m : List β} (h : List.Forall₂ P l m) (i : ℕ) :
    List.Forall₂ P (l.eraseIdx i) (m.eraseIdx i) := by
  induction h generalizing i with
  | nil => simp
  | cons hab h ih =>
    cases i with
    | zero => simpa using h
    | succ i => simpa using ⟨hab, ih i⟩

theorem forall₂_getD {α β : Type} {P : α → β → Prop} {l : List α} {m : List β} (h : List.Forall₂ P l m) {i : ℕ} (hi : i < l.length) (a : α) (b : β) :
    P (l.getD i a) (m.getD i b) := by
  induction h generalizing i with
  | nil => simp at hi
  | cons hab h ih =>
    cases i with
    | zero => simpa using hab
    | succ i => simpa using ih (by simpa using hi)

theorem netProd_pair {ls : List (List Char)} {ts : List (Tensor K)} (h : ls.length = ts.length) {i j : ℕ} (hij : i < j) (hj : j < ls.length)
    (σ : Char → ℕ) : netProd ls ts σ = netProd ((ls.eraseIdx j).eraseIdx i) ((ts.eraseIdx j).eraseIdx i) σ *
      netProd [ls.getD i [], ls.getD j []] [ts.getD i default, ts.getD j default] σ := by
  unfold netProd
  have hl : (ls.eraseIdx j).length = (ts.eraseIdx j).length := by
    rw [List.length_eraseIdx_of_lt hj, List.length_eraseIdx_of_lt (h ▸ hj), h]
  rw [zipWith_eraseIdx _ _ _ hl, zipWith_eraseIdx _ _ _ h]
  have hz : j < (List.zipWith (fun (l : List Char) (t : Tensor K) => t.get (l.map σ)) ls ts).length := by
    rw [List.length_zipWith, ← h, min_self]; exact hj
  rw [(pair_perm _ hij hz 0).prod_eq, List.prod_append]
  congr 2
  have hti : i < ts.length := h ▸ hij.trans hj
  have htj : j < ts.length := h ▸ hj
  rw [List.getD_eq_getElem _ _ hz, List.getD_eq_getElem _ _ (hij.trans hz), List.getElem_zipWith, List.getElem_zipWith,
    List.getD_eq_getElem ls _ hj, List.getD_eq_getElem ls _ (hij.trans hj), List.getD_eq_getElem ts _ htj, List.getD_eq_getElem ts _ hti]
  rfl

theorem mem_jointLabels {l m : List Char} {c : Char} : c ∈ jointLabels l m ↔ c ∈ l ∨ c ∈ m := by
  unfold jointLabels
  simp only [List.mem_append, List.mem_filter, decide_eq_true_eq]
  tauto

theorem mem_keptLabels {out : List Char} {rest : List (List Char)} {l m : List Char} {c : Char} :
    c ∈ keptLabels out rest (jointLabels l m) ↔ (c ∈ l ∨ c ∈ m) ∧ (c ∈ out ∨ ∃ r ∈ rest, c ∈ r) := by
  unfold keptLabels
  simp only [List.mem_filter, decide_eq_true_eq, mem_jointLabels]

theorem mem_pair {ls : List (List Char)} {i j : ℕ} (hij : i < j) (hj : j < ls.length) {c : Char} :
    (∃ l ∈ ls, c ∈ l) ↔ (∃ r ∈ (ls.eraseIdx j).eraseIdx i, c ∈ r) ∨ c ∈ ls.getD i [] ∨ c ∈ ls.getD j [] := by
  have hp := pair_perm ls hij hj []
  constructor
  · rintro ⟨l, hl, hc⟩
    rw [hp.mem_iff, List.mem_append] at hl
    rcases hl with hl | hl
    · exact Or.inl ⟨l, hl, hc⟩
    · simp only [List.mem_cons, List.not_mem_nil, or_false] at hl
      rcases hl with rfl | rfl
      · exact Or.inr (Or.inl hc)
      · exact Or.inr (Or.inr hc)
  · rintro (⟨l, hl, hc⟩ | hc | hc)
    · exact ⟨l, hp.mem_iff.2 (List.mem_append_left _ hl), hc⟩
    · exact ⟨_, hp.mem_iff.2 (List.mem_append_right _ (by simp)), hc⟩
    · exact ⟨_, hp.mem_iff.2 (List.mem_append_right _ (by simp)), hc⟩

theorem mem_contractPair {out : List Char} {ls : List (List Char)} {i j : ℕ} {c : Char} :
    (∃ l ∈ contractPair out ls i j, c ∈ l) ↔ (∃ r ∈ (ls.eraseIdx j).eraseIdx i, c ∈ r) ∨
      c ∈ keptLabels out ((ls.eraseIdx j).eraseIdx i) (jointLabels (ls.getD i []) (ls.getD j [])) := by
  unfold contractPair
  simp only [List.mem_append, List.mem_singleton]
  constructor
  · rintro ⟨l, hl | rfl, hc⟩
    · exact Or.inl ⟨l, hl, hc⟩
    · exact Or.inr hc
  · rintro (⟨l, hl, hc⟩ | hc)
    · exact ⟨l, Or.inl hl, hc⟩
    · exact ⟨_, Or.inr rfl, hc⟩

/-- The labels that are summed are split between the contraction and the rest. -/
theorem summed_pair {out : List Char} {ls : List (List Char)} {i j : ℕ} (hij : i < j) (hj : j < ls.length) :
    (summed ls out).Perm (summed (contractPair out ls i j) out ++ summed [ls.getD i [], ls.getD j []]
      (keptLabels out ((ls.eraseIdx j).eraseIdx i) (jointLabels (ls.getD i []) (ls.getD j [])))) := by
  refine (List.perm_ext_iff_of_nodup (summed_nodup _ _) (List.nodup_append.2 ⟨summed_nodup _ _, summed_nodup _ _, ?_⟩)).2 fun c => ?_
  · rintro c hc d hd rfl
    rw [mem_summed, mem_contractPair] at hc
    rw [mem_summed] at hd
    obtain ⟨h1, h2⟩ := hc
    obtain ⟨⟨l, hl, hcl⟩, h4⟩ := hd
    rcases h1 with h1 | h1
    · refine h4 (mem_keptLabels.2 ⟨?_, Or.inr h1⟩)
      simp only [List.mem_cons, List.not_mem_nil, or_false] at hl
      rcases hl with rfl | rfl
      · exact Or.inl hcl
      · exact Or.inr hcl
    · exact h4 h1
  · have e : (∃ l ∈ [ls.getD i [], ls.getD j []], c ∈ l) ↔ c ∈ ls.getD i [] ∨ c ∈ ls.getD j [] := by simp
    rw [List.mem_append, mem_summed, mem_summed, mem_summed, mem_contractPair, mem_pair hij hj, e, mem_keptLabels]
    generalize (∃ r ∈ (ls.eraseIdx j).eraseIdx i, c ∈ r) = P
    tauto

/-- One contraction of two operands. -/
theorem Sized.pair {ls : List (List Char)} {ts : List (Tensor K)} (h : Sized dim ls ts) {out : List Char} (hout : ∀ c ∈ out, ∃ l ∈ ls, c ∈ l)
    {i j : ℕ} (hij : i < j) (hj : j < ls.length) :
    ∃ r, T3f.einsum ([ls.getD i [], ls.getD j []], keptLabels out ((ls.eraseIdx j).eraseIdx i) (jointLabels (ls.getD i []) (ls.getD j [])))
        [ts.getD i default, ts.getD j default] = Except.ok r ∧
      Sized dim (contractPair out ls i j) ((ts.eraseIdx j).eraseIdx i ++ [r]) ∧ (∀ c ∈ out, ∃ l ∈ contractPair out ls i j, c ∈ l) ∧
      ∀ σ, sumL dim (summed ls out) σ (netProd ls ts) =
        sumL dim (summed (contractPair out ls i j) out) σ (netProd (contractPair out ls i j) ((ts.eraseIdx j).eraseIdx i ++ [r])) := by
  have hs : Sized dim [ls.getD i [], ls.getD j []] [ts.getD i default, ts.getD j default] :=
    List.Forall₂.cons (forall₂_getD h (hij.trans hj) _ _) (List.Forall₂.cons (forall₂_getD h hj _ _) List.Forall₂.nil)
  have hr := hs.einsum (out := keptLabels out ((ls.eraseIdx j).eraseIdx i) (jointLabels (ls.getD i []) (ls.getD j [])))
    fun c hc => by
      rcases (mem_keptLabels.1 hc).1 with h | h
      · exact ⟨_, by simp, h⟩
      · exact ⟨_, by simp, h⟩
  have hrest := forall₂_eraseIdx (forall₂_eraseIdx h j) i
  refine ⟨_, hr, ?_, fun c hc => ?_, fun σ => ?_⟩
  · exact List.rel_append hrest (List.Forall₂.cons rfl List.Forall₂.nil)
  · rw [mem_contractPair, mem_keptLabels]
    have := (mem_pair hij hj).1 (hout c hc)
    revert this
    generalize (∃ r ∈ (ls.eraseIdx j).eraseIdx i, c ∈ r) = P
    tauto
  · rw [sumL_perm (summed_pair hij hj) (summed_nodup _ _), sumL_append]
    congr 1
    funext τ
    rw [show netProd ls ts = _ from funext fun σ => netProd_pair h.length hij hj σ, sumL_mul_left]
    · unfold contractPair
      have : ∀ (A : List (List Char)) (B : List (Tensor K)) (l : List Char) (t : Tensor K), A.length = B.length →
          netProd (A ++ [l]) (B ++ [t]) τ = netProd A B τ * t.get (l.map τ) := by
        intro A B l t hAB
        unfold netProd
        rw [List.zipWith_append hAB, List.prod_append]
        simp
      rw [this _ _ _ _ (List.Forall₂.length_eq hrest)]
      exact congrArg _ (sumL_lookup _ _ _ _).symm
    · intro σ τ hστ
      refine netProd_depends _ _ _ _ fun c hc => hστ c fun hcs => ?_
      rw [mem_summed] at hcs
      obtain ⟨⟨l, hl, hcl⟩, h4⟩ := hcs
      refine h4 (mem_keptLabels.2 ⟨?_, Or.inr hc⟩)
      simp only [List.mem_cons, List.not_mem_nil, or_false] at hl
      rcases hl with rfl | rfl
      · exact Or.inl hcl
      · exact Or.inr hcl

theorem length_contractPair {out : List Char} {ls : List (List Char)} {i j : ℕ} (hij : i < j) (hj : j < ls.length) :
    (contractPair out ls i j).length = ls.length - 1 := by
  have : i < (ls.eraseIdx j).length := by rw [List.length_eraseIdx_of_lt hj]; omega
  unfold contractPair
  rw [List.length_append, List.length_eraseIdx_of_lt this, List.length_eraseIdx_of_lt hj]
  simp
  omega

theorem ValidPath.cons {n : ℕ} {i j : ℕ} {p : List (ℕ × ℕ)} (hp : ValidPath n ((i, j) :: p)) : i < j ∧ j < n ∧ ValidPath (n - 1) p := by
  match n, hp with
  | 0, hp => simp [ValidPath] at hp
  | 1, hp => simp [ValidPath] at hp
  | n + 2, hp => exact hp

/-- Contracting along a path gives the value of the network. -/
theorem Sized.alongPath {p : List (ℕ × ℕ)} {ls : List (List Char)} {ts : List (Tensor K)} (h : Sized dim ls ts) {out : List Char}
    (hout : ∀ c ∈ out, ∃ l ∈ ls, c ∈ l) (hp : ValidPath ls.length p) : T3f.alongPath T3f.einsum out p ls ts =
      Except.ok ⟨out.map dim, fun idx => sumL dim (summed ls out) (lookupLabel (out.zip idx)) (netProd ls ts)⟩ := by
  induction p generalizing ls ts with
  | nil => exact h.einsum hout
  | cons q p ih =>
    obtain ⟨i, j⟩ := q
    cases p with
    | nil => exact h.einsum hout
    | cons q' p =>
      obtain ⟨hij, hj, hp'⟩ := hp.cons
      obtain ⟨r, hr, h1, h2, h3⟩ := h.pair hout hij hj
      simp only [h3]
      rw [T3f.alongPath, hr]
      · exact ih h1 h2 (by rw [length_contractPair hij hj]; exact hp')
      · simp

theorem einOk_of_ok {spec : List (List Char) × List Char} {ts : List (Tensor K)} {C : Tensor K} (h : einsum spec ts = Except.ok C) : EinOk spec ts := by
  by_contra hn
  rw [einsum_eq, if_neg hn] at h
  cases h

/-- Contracting two operands at a time along a path computes the einsum. -/
theorem alongPath_einsum {spec : List (List Char) × List Char} {ts : List (Tensor K)} {C : Tensor K} (h : einsum spec ts = Except.ok C)
    {p : List (ℕ × ℕ)} (hp : ValidPath spec.1.length p) : alongPath einsum spec.2 p spec.1 ts = Except.ok C := by
  obtain ⟨hs, hout⟩ := (einOk_of_ok h).sized
  rw [hs.alongPath hout hp, ← hs.einsum hout, ← h]

end T3f
