import Verif.Proofs.RoundTT
import Verif.Proofs.BatchItem
import Verif.Proofs.Variables
import Verif.Model.Rounded

/-!
# Three runs of `full`, products and inner products
-/

namespace T3f

theorem Sync.bind_eq {α β γ α' β' γ' : Type} {P : α → β → γ → Prop} {Q : α' → β' → γ' → Prop} {x : R α} {y : R β} {z : R γ} {f : α → R α'}
    {g : β → R β'} {k : γ → R γ'} (h : Sync P x y z)
    (hf : ∀ a b c, x = Except.ok a → y = Except.ok b → z = Except.ok c → P a b c → Sync Q (f a) (g b) (k c)) :
    Sync Q (x >>= f) (y >>= g) (z >>= k) := by
  rcases h with ⟨a, b, c, rfl, rfl, rfl, h⟩ | ⟨e, rfl, rfl, rfl⟩
  · exact hf _ _ _ rfl rfl rfl h
  · exact error e

theorem Tri.approx_mono {u : ℝ} (hu : 0 ≤ u) {m n : ℕ} (hmn : m ≤ n) {a b c : Tensor ℝ} (h : Tri (Approx u m) a b c) : Tri (Approx u n) a b c :=
  h.mono fun _ _ _ hx => hx.mono hu hmn

theorem pyGet_getD {α : Type} {l : List α} {k : ℕ} {x : α} (h : pyGet l k = Except.ok x) (d : α) : x = l.getD k d ∧ k < l.length := by
  unfold pyGet at h
  cases e : l[k]? with
  | none => rw [e] at h; exact absurd h (by simp)
  | some y =>
    rw [e] at h
    obtain rfl := Except.ok.inj h
    exact ⟨by rw [List.getD_eq_getElem?_getD, e]; rfl, (List.getElem?_eq_some_iff.1 e).1⟩

theorem resolveShape_shape {n : ℕ} {l : List (Option ℕ)} {s : List ℕ} (h : resolveShape n l = Except.ok s) : ∃ d, s = l.map (·.getD d) := by
  unfold resolveShape at h
  simp only at h
  split at h
  · split_ifs at h
    exact ⟨0, (Except.ok.inj h).symm⟩
  · split_ifs at h
    exact ⟨_, (Except.ok.inj h).symm⟩
  · exact absurd h (by simp)

theorem reshape_shape {t x : Tensor ℝ} {l : List (Option ℕ)} (h : reshape t l = Except.ok x) : ∃ d, x.shape = l.map (·.getD d) := by
  unfold reshape at h
  cases e : resolveShape t.shape.prod l with
  | error => rw [e] at h; exact absurd h (by simp [bind, Except.bind])
  | ok s =>
    rw [e] at h
    obtain rfl := Except.ok.inj h
    exact resolveShape_shape e

/-! ## Numbers of products -/

theorem einTerms_outer {K : Type} {spec : List (List Char) × List Char} (ops : List (Tensor K)) (h : ∀ l ∈ spec.1, ∀ c ∈ l, c ∈ spec.2) :
    einTerms spec ops = 1 := by
  have : (einDims spec.1 ops).filter (fun p => p.1 ∉ spec.2) = [] := by
    rw [List.filter_eq_nil_iff]
    intro p hp
    unfold einDims at hp
    rw [← List.map_uncurry_zip_eq_zipWith, List.mem_flatten] at hp
    obtain ⟨q, hq, hpq⟩ := hp
    obtain ⟨⟨l, t⟩, hlt, rfl⟩ := List.mem_map.1 hq
    have h1 := (List.of_mem_zip hlt).1
    have h2 : p.1 ∈ l := (List.of_mem_zip (show (p.1, p.2) ∈ l.zip t.shape from hpq)).1
    simpa using h l h1 _ h2
  unfold einTerms einContracted
  rw [this]
  rfl

theorem einTerms_full {x y : Tensor ℝ} {B q r B' r' w : ℕ} (hx : x.shape = [B, q, r]) (hy : y.shape = [B', r', w]) :
    einTerms (ein! "oqb,obw->oqw") [x, y] = r := by
  simp [einTerms, einContracted, einDims, hx, hy, List.eraseDupsBy_cons]

/-! ## `full` -/

/-- The roundings of `full` before core `k`. -/
def fullRounds (m r : ℕ → ℕ) (k : ℕ) : ℕ := ∑ j ∈ Finset.range k, m j + ∑ j ∈ Finset.Ico 1 k, r j

theorem fullRounds_succ (m r : ℕ → ℕ) {k : ℕ} (hk : 1 ≤ k) : fullRounds m r (k + 1) = fullRounds m r k + m k + r k := by
  unfold fullRounds
  rw [Finset.sum_range_succ, Finset.sum_Ico_succ_top hk]
  ring

section

variable {F : FloatRoutines} {A : Arith} {m m' : ℕ → ℕ} {a b c a' b' c' : TT ℝ}

theorem TTri.interleavedShape {ρ : ℕ → ℝ → ℝ → ℝ → Prop} (h : TTri ρ a b c) : interleavedShape b = interleavedShape a ∧
    interleavedShape c = interleavedShape a := by
  unfold T3f.interleavedShape
  simp only [h.raw₂, h.raw₃, h.ndims.1, h.ndims.2, and_self]

theorem sync_fullTT (hF : F.Follows A) (h : TTri (fun k => Approx A.u (m k)) a b c) :
    Sync (Tri (Approx A.u (fullRounds m a.rank (1 + (a.ndims - 1))))) (fullTTF F a) (fullTT b) (fullTT c) := by
  unfold fullTTF fullTT
  simp only [h.getShape.1, h.getShape.2, h.interleavedShape.1, h.interleavedShape.2, h.ndims.1, h.ndims.2, h.isMatrix.1, h.isMatrix.2, h.ranks₂, h.ranks₃]
  refine Sync.bind_same _ fun sh _ => Sync.bind (h.cores.pyGet 0) fun x y z hx => ?_
  refine Sync.bind (Sync.forRange (P := fun k => Tri (Approx A.u (fullRounds m a.rank k))) 1 (a.ndims - 1) (fun k x y z h1 h2 hk => ?_)
    (by simpa [fullRounds] using hx)) fun x y z hx => ?_
  · refine Sync.bind_same _ fun r hr => Sync.bind_eq (hk.reshape _) fun x' y' z' ex _ _ hx' => Sync.bind (h.cores.pyGet k) fun x1 y1 z1 hx1 =>
      Sync.bind (hx1.reshape _) fun x2 y2 z2 hx2 => ?_
    rw [fullRounds_succ _ _ h1]
    have := hF.sync_matmul hx' hx2
    obtain ⟨d, hd⟩ := reshape_shape ex
    rw [hd] at this
    have e := (pyGet_getD hr 0).1
    rw [show a.rank k = r from e.symm]
    exact this
  · split_ifs
    · exact Sync.bind_same _ fun s _ => Sync.bind (hx.reshape _) fun x y z hx => Sync.bind (hx.transpose _) fun x y z hx => hx.reshape _
    · exact hx.reshape _

theorem sync_fullBatch (hF : F.Follows A) (h : TTri (fun k => Approx A.u (m k)) a b c) :
    Sync (Tri (Approx A.u (fullRounds m a.rank (1 + (a.ndims - 1))))) (fullBatchF F a) (fullBatch b) (fullBatch c) := by
  unfold fullBatchF fullBatch
  simp only [h.getShape.1, h.getShape.2, h.interleavedShape.1, h.interleavedShape.2, h.ndims.1, h.ndims.2, h.isMatrix.1, h.isMatrix.2, h.ranks₂, h.ranks₃,
    h.lazyBatchSize.1, h.lazyBatchSize.2]
  refine Sync.bind_same _ fun sh _ => Sync.bind (h.cores.pyGet 0) fun x y z hx => Sync.bind_same _ fun bs _ => ?_
  refine Sync.bind (Sync.forRange (P := fun k => Tri (Approx A.u (fullRounds m a.rank k))) 1 (a.ndims - 1) (fun k x y z h1 h2 hk => ?_)
    (by simpa [fullRounds] using hx)) fun x y z hx => ?_
  · refine Sync.bind_same _ fun r hr => Sync.bind_eq (hk.reshape _) fun x' y' z' ex _ _ hx' => Sync.bind (h.cores.pyGet k) fun x1 y1 z1 hx1 =>
      Sync.bind_eq (hx1.reshape _) fun x2 y2 z2 ex2 _ _ hx2 => ?_
    rw [fullRounds_succ _ _ h1]
    have := hF.sync_einsum (ms := [fullRounds m a.rank k, m k]) (as := [x', x2]) (bs := [y', y2]) (cs := [z', z2]) ⟨hx', hx2, trivial⟩
      (ein! "oqb,obw->oqw")
    obtain ⟨d, hd⟩ := reshape_shape ex
    obtain ⟨d2, hd2⟩ := reshape_shape ex2
    rw [einTerms_full hd hd2] at this
    have e := (pyGet_getD hr 0).1
    rw [show a.rank k = r from e.symm]
    convert this using 3
    simp
  · split_ifs
    · exact Sync.bind_same _ fun s _ => Sync.bind (hx.reshape _) fun x y z hx => Sync.bind (hx.transpose _) fun x y z hx => hx.reshape _
    · exact hx.reshape _

theorem sync_full (hF : F.Follows A) (h : TTri (fun k => Approx A.u (m k)) a b c) :
    Sync (Tri (Approx A.u (fullRounds m a.rank (1 + (a.ndims - 1))))) (fullF F a) (full b) (full c) := by
  unfold fullF full
  rw [h.isBatch.1, h.isBatch.2]
  split_ifs
  · exact sync_fullBatch hF h
  · exact sync_fullTT hF h

/-! ## Elementwise products -/

theorem sync_mulCore (hF : F.Follows A) (h : TTri (fun k => Approx A.u (m k)) a b c) (h' : TTri (fun k => Approx A.u (m' k)) a' b' c') (k : ℕ) :
    Sync (Tri (Approx A.u (m k + m' k + 1))) (mulCoreF F a a' k) (mulCore b b' k) (mulCore c c' k) := by
  unfold mulCoreF mulCore mulCoreWith
  simp only [h.isMatrix.1, h.isMatrix.2, h.raw₂, h.raw₃, h.ranks₂, h.ranks₃, h'.ranks₂, h'.ranks₃, h.batch₂, h.batch₃, h'.batch₂, h'.batch₃,
    h.isBatch.1, h.isBatch.2, h'.isBatch.1, h'.isBatch.2]
  refine Sync.bind (h.cores.pyGet k) fun x y z hx => Sync.bind (h'.cores.pyGet k) fun x' y' z' hx' => Sync.bind_same _ fun r1 _ => Sync.bind_same _ fun r2 _ =>
    Sync.bind_same _ fun r3 _ => Sync.bind_same _ fun r4 _ => ?_
  have hlab : ∀ s, s = (mulLabels a.batch a'.batch).1 ∨ s = (mulLabels a.batch a'.batch).2.1 → ∀ d ∈ s, d ∈ (mulLabels a.batch a'.batch).2.2 := by
    unfold mulLabels
    cases a.batch <;> cases a'.batch <;> simp
    split_ifs <;> simp
  generalize mulLabels a.batch a'.batch = L at hlab ⊢
  obtain ⟨l, r, o⟩ := L
  have key : ∀ sl sr so : List Char, (∀ d ∈ sl, d ∈ so) → (∀ d ∈ sr, d ∈ so) →
      Sync (Tri (Approx A.u (m k + m' k + 1))) (F.einsum ([l ++ sl, r ++ sr], o ++ so) [x, x']) (einsum ([l ++ sl, r ++ sr], o ++ so) [y, y'])
        (einsum ([l ++ sl, r ++ sr], o ++ so) [z, z']) := by
    intro sl sr so h1 h2
    have := hF.sync_einsum (ms := [m k, m' k]) (as := [x, x']) (bs := [y, y']) (cs := [z, z']) ⟨hx, hx', trivial⟩ ([l ++ sl, r ++ sr], o ++ so)
    rw [einTerms_outer] at this
    · simpa [← add_assoc] using this
    · intro s hs d hd
      simp only [List.mem_cons, List.not_mem_nil, or_false] at hs
      rw [List.mem_append]
      rcases hs with rfl | rfl
      · rcases List.mem_append.1 hd with hd | hd
        · exact Or.inl (hlab l (Or.inl rfl) d hd)
        · exact Or.inr (h1 d hd)
      · rcases List.mem_append.1 hd with hd | hd
        · exact Or.inl (hlab r (Or.inr rfl) d hd)
        · exact Or.inr (h2 d hd)
  split_ifs
  · exact Sync.bind (key _ _ _ (by simp) (by simp)) fun x y z hx => Sync.bind_same _ fun w0 _ => Sync.bind_same _ fun w1 _ => Sync.bind_same _ fun n0 _ =>
      Sync.bind_same _ fun n1 _ => Sync.bind (hx.reshape _) fun x y z hx => Sync.ok hx
  · exact Sync.bind (key _ _ _ (by simp) (by simp)) fun x y z hx => Sync.bind_same _ fun w0 _ => Sync.bind_same _ fun w1 _ => Sync.bind_same _ fun n0 _ =>
      Sync.bind_same _ fun n1 _ => Sync.bind (hx.reshape _) fun x y z hx => hx.squeezeAxis 0
  · exact Sync.bind (key _ _ _ (by simp) (by simp)) fun x y z hx => Sync.bind_same _ fun w0 _ => Sync.bind_same _ fun w1 _ =>
      Sync.bind (hx.reshape _) fun x y z hx => Sync.ok hx
  · exact Sync.bind (key _ _ _ (by simp) (by simp)) fun x y z hx => Sync.bind_same _ fun w0 _ => Sync.bind_same _ fun w1 _ =>
      Sync.bind (hx.reshape _) fun x y z hx => hx.squeezeAxis 0

theorem sync_multiply (hF : F.Follows A) (h : TTri (fun k => Approx A.u (m k)) a b c) (h' : TTri (fun k => Approx A.u (m' k)) a' b' c') :
    Sync (TTri fun k => Approx A.u (m k + m' k + 1)) (multiplyF F a a') (multiply b b') (multiply c c') := by
  unfold multiplyF multiply
  simp only [h.isMatrix.1, h.isMatrix.2, h'.isMatrix.1, h'.isMatrix.2, h.raw₂, h.raw₃, h'.raw₂, h'.raw₃, (h.broadcasting h').1, (h.broadcasting h').2,
    h.batch₂, h.batch₃, h'.batch₂, h'.batch₃, h.ranks₂, h.ranks₃, h'.ranks₂, h'.ranks₃, h.ndims.1, h.ndims.2]
  exact Sync.bind_same _ fun _ _ => Sync.bind_same _ fun _ _ => Sync.bind_same _ fun _ _ =>
    Sync.bind (Sync.mapRange (Q := fun k => Tri (Approx A.u (m k + m' k + 1))) _ fun k _ => sync_mulCore hF h h' k) fun x y z hx => sync_mkLike hx.1 _ _ _

end

end T3f
