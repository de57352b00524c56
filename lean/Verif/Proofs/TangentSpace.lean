import Verif.Proofs.Minimal
import Verif.Proofs.Project
import Verif.Proofs.RoundFull

/-! # The space of the tangent vectors of a frame -/

namespace T3f

/-- The chain with block `D` at `k`, by its left and right parts. -/
theorem lprod_blockMat {rL rV : ℕ → ℕ} {L V D : ℕ → ℕ → ℕ → ℝ} {d k : ℕ} (hk : k < d) (hd : rV d = 1) :
    lprod (blockRank rL rV k) (blockMat L V D k) d 0 =
      ∑ a ∈ Finset.range (rL k), ∑ b ∈ Finset.range (rV (k + 1)), lprod rL L k a * D k a b * rprod rV V (d - 1 - k) (k + 1) b := by
  obtain ⟨m, rfl⟩ : ∃ m, d = k + (m + 1) := ⟨d - 1 - k, by omega⟩
  rw [lprod_split _ _ (m + 1) k (by rw [blockRank_gt (by omega)]; exact hd), blockRank_le le_rfl]
  refine Finset.sum_congr rfl fun a ha => ?_
  rw [rprod, blockRank_gt (by omega), Finset.mul_sum]
  refine Finset.sum_congr rfl fun b hb => ?_
  rw [← mul_assoc]
  congr 1
  · congr 1
    · refine lprod_congr (fun j hj => blockRank_le (by omega)) (fun j hj a b _ _ => ?_) (by rw [blockRank_le le_rfl]; exact Finset.mem_range.1 ha)
      rw [blockMat, if_pos hj]
    · rw [blockMat, if_neg (by omega), if_pos rfl]
  · rw [show k + (m + 1) - 1 - k = m by omega]
    refine rprod_congr (fun j h1 _ => blockRank_gt (by omega)) (fun j h1 _ a b _ _ => ?_) (by rw [blockRank_gt (by omega)]; exact Finset.mem_range.1 hb)
    rw [blockMat, if_neg (by omega), if_neg (by omega)]

/-- The tensor `∑ₖ L₀ … L_{k-1} Dₖ V_{k+1} … V_{d-1}` at the mode indices `m`. -/
noncomputable def frameVec (x left right : TT ℝ) (D : ℕ → List ℕ → ℕ → ℕ → ℝ) (m : ℕ → List ℕ) : ℝ :=
  ∑ k ∈ Finset.range x.ndims, ∑ a ∈ Finset.range (left.rank k), ∑ b ∈ Finset.range (right.rank (k + 1)),
    lprod left.rank (left.slice [] m) k a * D k (m k) a b * rprod right.rank (right.slice [] m) (x.ndims - 1 - k) (k + 1) b

section
variable {x left right : TT ℝ}

theorem frameVec_congr {D D' : ℕ → List ℕ → ℕ → ℕ → ℝ} {m : ℕ → List ℕ}
    (h : ∀ k < x.ndims, ∀ a < left.rank k, ∀ b < right.rank (k + 1), D k (m k) a b = D' k (m k) a b) :
    frameVec x left right D m = frameVec x left right D' m :=
  Finset.sum_congr rfl fun k hk => Finset.sum_congr rfl fun a ha => Finset.sum_congr rfl fun b hb => by
    rw [h k (Finset.mem_range.1 hk) a (Finset.mem_range.1 ha) b (Finset.mem_range.1 hb)]

theorem frameVec_add (D D' : ℕ → List ℕ → ℕ → ℕ → ℝ) (m : ℕ → List ℕ) :
    frameVec x left right (fun k v a b => D k v a b + D' k v a b) m = frameVec x left right D m + frameVec x left right D' m := by
  unfold frameVec
  simp only [← Finset.sum_add_distrib]
  exact Finset.sum_congr rfl fun k _ => Finset.sum_congr rfl fun a _ => Finset.sum_congr rfl fun b _ => by ring

theorem frameVec_smul (c : ℝ) (D : ℕ → List ℕ → ℕ → ℕ → ℝ) (m : ℕ → List ℕ) :
    frameVec x left right (fun k v a b => c * D k v a b) m = c * frameVec x left right D m := by
  unfold frameVec
  simp only [Finset.mul_sum]
  exact Finset.sum_congr rfl fun k _ => Finset.sum_congr rfl fun a _ => Finset.sum_congr rfl fun b _ => by ring

theorem frameVec_zero (m : ℕ → List ℕ) : frameVec x left right (fun _ _ _ _ => 0) m = 0 := by
  unfold frameVec
  simp

theorem frameVec_sum {ι : Type} (S : Finset ι) (D : ι → ℕ → List ℕ → ℕ → ℕ → ℝ) (m : ℕ → List ℕ) :
    frameVec x left right (fun k v a b => ∑ s ∈ S, D s k v a b) m = ∑ s ∈ S, frameVec x left right (D s) m := by
  classical
  induction S using Finset.induction_on with
  | empty => simp [frameVec_zero]
  | insert s S hs ih => simp only [Finset.sum_insert hs]; rw [← ih, ← frameVec_add]

/-- `frameVec` as a sum of chains. -/
theorem frameVec_chains (F : TFrame x left right) (D : ℕ → List ℕ → ℕ → ℕ → ℝ) (m : ℕ → List ℕ) : frameVec x left right D m =
    ∑ k ∈ Finset.range x.ndims, lprod (blockRank left.rank right.rank k)
      (blockMat (left.slice [] m) (right.slice [] m) (fun j => D j (m j)) k) x.ndims 0 :=
  Finset.sum_congr rfl fun _ hk => (lprod_blockMat (rL := left.rank) (L := left.slice [] m) (V := right.slice [] m)
    (D := fun j => D j (m j)) (Finset.mem_range.1 hk) F.rd).symm

theorem IsTangent.entry_vec {y : TT ℝ} {D : ℕ → Tensor ℝ} (F : TFrame x left right) (T : IsTangent left right D y) {p : List ℕ} {m : ℕ → List ℕ}
    (hp : Valid y.bpre p) (hm : ∀ k < x.ndims, Valid (x.modes k) (m k)) :
    y.entry p m = frameVec x left right (fun k v a b => (D k).get (p ++ a :: (v ++ [b]))) m := by
  rw [T.entry F hp hm, frameVec_chains F]
  rfl

/-- The tangent vectors of the frame, as functions of the position in the dense tensor. -/
def frameSpace (x left right : TT ℝ) : Submodule ℝ (List ℕ → ℝ) where
  carrier := {f | ∃ D, ∀ i, Valid (restShape x.rawShape) i → f i = frameVec x left right D (restModes x.rawShape i)}
  add_mem' := by
    rintro f g ⟨D, hD⟩ ⟨E, hE⟩
    exact ⟨_, fun i hi => by rw [Pi.add_apply, hD i hi, hE i hi, ← frameVec_add]⟩
  zero_mem' := ⟨fun _ _ _ _ => 0, fun i _ => by rw [frameVec_zero]; rfl⟩
  smul_mem' := by
    rintro c f ⟨D, hD⟩
    exact ⟨_, fun i hi => by rw [Pi.smul_apply, hD i hi, smul_eq_mul, ← frameVec_smul]⟩

theorem mem_frameSpace {f : List ℕ → ℝ} : f ∈ frameSpace x left right ↔
    ∃ D, ∀ i, Valid (restShape x.rawShape) i → f i = frameVec x left right D (restModes x.rawShape i) := Iff.rfl

/-! ## The point is in its tangent space -/

theorem frame_self (F : TFrame x left right) (h : x.WF) : (fun i => x.entry [] (restModes x.rawShape i)) ∈ frameSpace x left right := by
  have hpos := h.pos
  refine ⟨fun k v a b => if k = 0 then (right.core 0).get (a :: (v ++ [b])) else 0, fun i hi => ?_⟩
  set m := restModes x.rawShape i
  have hm : ∀ j < x.ndims, Valid (x.modes j) (m j) := validModes_rest h hi
  show x.entry [] m = _
  rw [← F.er m hm, TT.entry, F.nr, frameVec]
  rw [Finset.sum_eq_single_of_mem 0 (Finset.mem_range.2 hpos) (fun k _ hk => by simp [hk])]
  obtain ⟨d, hd⟩ : ∃ d, x.ndims = d + 1 := ⟨x.ndims - 1, by omega⟩
  have hrd := F.rd
  rw [hd] at hrd ⊢
  have := lprod_split right.rank (right.slice [] m) (d + 1) 0 (by rw [Nat.zero_add]; exact hrd)
  rw [Nat.zero_add] at this
  rw [this, F.l0, F.wr.rank_first, Finset.sum_range_one, Finset.sum_range_one, rprod]
  simp only [lprod, if_true, one_mul, Nat.add_sub_cancel, Nat.sub_zero]
  rfl

/-! ## Inner products -/

theorem dense_gram (h : x.WF) {ra rb : ℕ → ℕ} (A B : ℕ → List ℕ → ℕ → ℕ → ℝ) :
    ∑ n ∈ Finset.range (restShape x.rawShape).prod,
      lprod ra (fun j => A j (restModes x.rawShape (unravel (restShape x.rawShape) n) j)) x.ndims 0 *
      lprod rb (fun j => B j (restModes x.rawShape (unravel (restShape x.rawShape) n) j)) x.ndims 0 =
    gram x.N ra rb (fun k n => A k (unravel (x.modes k) n)) (fun k n => B k (unravel (x.modes k) n)) x.ndims 0 0 := by
  have := gram_msum x.modes ra rb A B x.ndims 0 0
  rw [show x.N = fun k => (x.modes k).prod from rfl, ← this, msum_rest h]
  intro g g' hg
  have e : ∀ (r : ℕ → ℕ) (C : ℕ → List ℕ → ℕ → ℕ → ℝ), lprod r (fun j => C j (g j)) x.ndims 0 = lprod r (fun j => C j (g' j)) x.ndims 0 :=
    fun r C => lprod_congr' fun j hj => by rw [hg j hj]
  show lprod ra _ x.ndims 0 * lprod rb _ x.ndims 0 = _
  rw [e ra A, e rb B]

/-- The chain with block `D` at `k`, as a function of the mode indices. -/
def lchain (left right : TT ℝ) (D : ℕ → List ℕ → ℕ → ℕ → ℝ) (k j : ℕ) (v : List ℕ) : ℕ → ℕ → ℝ :=
  if j < k then fun a b => (left.core j).get (a :: (v ++ [b])) else if j = k then D j v else fun a b => (right.core j).get (a :: (v ++ [b]))

theorem blockMat_lchain (D : ℕ → List ℕ → ℕ → ℕ → ℝ) (m : ℕ → List ℕ) (k : ℕ) :
    blockMat (left.slice [] m) (right.slice [] m) (fun j => D j (m j)) k = fun j => lchain left right D k j (m j) := by
  funext j a b
  unfold blockMat lchain TT.slice
  split_ifs <;> rfl

theorem lchain_flat (F : TFrame x left right) (D : ℕ → List ℕ → ℕ → ℕ → ℝ) (k : ℕ) :
    (fun j n => lchain left right D k j (unravel (x.modes j) n)) =
      blockChain (left.fl []) (right.fl []) (fun n => D k (unravel (x.modes k) n)) k := by
  funext j n a b
  unfold blockChain lchain TT.fl
  rw [F.ml, F.mr]
  split_ifs with h1 h2
  · rfl
  · subst h2; rfl
  · rfl

/-- A vector and a tangent vector have the same inner product as the projection of the vector and the tangent vector. -/
theorem frame_dot (F : TFrame x left right) (h : x.WF) {z : TT ℝ} (hz : z.WF) (hr : z.rawShape = x.rawShape) (p : List ℕ)
    {E : ℕ → List ℕ → ℕ → ℕ → ℝ}
    (hE : ∀ k < x.ndims, ∀ m < (x.modes k).prod, ∀ a < left.rank k, ∀ b < right.rank (k + 1),
      E k (unravel (x.modes k) m) a b = tBlock x left right z p k m a b) (D : ℕ → List ℕ → ℕ → ℕ → ℝ) :
    dot (restShape x.rawShape) (fun i => frameVec x left right E (restModes x.rawShape i)) (fun i => frameVec x left right D (restModes x.rawShape i)) =
    dot (restShape x.rawShape) (fun i => z.entry p (restModes x.rawShape i)) (fun i => frameVec x left right D (restModes x.rawShape i)) := by
  have hnz : z.ndims = x.ndims := ndims_of_rows hz h hr
  have hmz : z.modes = x.modes := modes_of_rows hr
  have hzd : z.rank x.ndims = 1 := by rw [← hnz]; exact hz.rank_last
  unfold dot
  simp only [frameVec_chains F, blockMat_lchain, Finset.mul_sum, Finset.sum_mul]
  rw [Finset.sum_comm]
  conv_rhs => rw [Finset.sum_comm]
  refine Finset.sum_congr rfl fun k hk => ?_
  have hk := Finset.mem_range.1 hk
  rw [Finset.sum_comm]
  have hz' : ∀ m, z.entry p m = lprod z.rank (fun j => (fun (j : ℕ) (v : List ℕ) a b => (z.core j).get (p ++ a :: (v ++ [b]))) j (m j)) x.ndims 0 := by
    intro m; rw [TT.entry, hnz]; rfl
  simp only [hz']
  rw [dense_gram h (fun (j : ℕ) (v : List ℕ) a b => (z.core j).get (p ++ a :: (v ++ [b]))) (lchain left right D k), lchain_flat F,
    Finset.sum_congr rfl fun i _ => dense_gram h (lchain left right E i) (lchain left right D k)]
  simp only [lchain_flat F]
  have hzf : (fun k n => (fun (j : ℕ) (v : List ℕ) a b => (z.core j).get (p ++ a :: (v ++ [b]))) k (unravel (x.modes k) n)) = z.fl p := by
    funext k n a b; rw [TT.fl, hmz]
  rw [hzf, ← tan_dot F.l0 F.rd hzd F.lo F.ro hk]
  refine Finset.sum_congr rfl fun i hi => ?_
  have hi := Finset.mem_range.1 hi
  refine gram_congr (fun _ _ => rfl) (fun _ _ => rfl) (fun _ _ => rfl) (fun j hj n hn a ha b hb => ?_) (fun _ _ _ _ _ _ _ _ => rfl)
    (by rw [blockRank_gt hi, F.rd]; omega) (by rw [blockRank_gt hk, F.rd]; omega)
  unfold blockChain
  split_ifs with h1 h2
  · rfl
  · subst h2
    rw [blockRank_le le_rfl] at ha
    rw [blockRank_gt (by omega)] at hb
    exact hE j hi n hn a ha b hb
  · rfl

/-! ## The frame of a minimal representation spans the tangent space -/

theorem replaceCore_eq (h : x.WF) (hb : x.batch = none) (D : List ℕ → ℕ → ℕ → ℝ) (i : List ℕ) {k : ℕ} (hk : k < x.ndims) :
    x.replaceCore k D i = ∑ a ∈ Finset.range (x.rank k), ∑ b ∈ Finset.range (x.rank (k + 1)),
      lprod x.rank (x.slice [] (restModes x.rawShape i)) k a * D (restModes x.rawShape i k) a b *
        rprod x.rank (x.slice [] (restModes x.rawShape i)) (x.ndims - 1 - k) (k + 1) b := by
  have hdec : (x.decode i).2 = restModes x.rawShape i := by
    unfold TT.decode
    simp only [show x.bpre = [] by simp [TT.bpre, hb], List.length_nil, List.drop_zero]
    by_cases hm : x.isMatrix
    · rw [if_pos hm, restModes, if_pos (show x.rawShape.length = 2 from hm)]
    · rw [if_neg hm, restModes, if_neg (show ¬ x.rawShape.length = 2 from hm)]
  unfold TT.replaceCore
  rw [hdec]
  set m := restModes x.rawShape i
  have e := lprod_blockMat (rL := x.rank) (rV := x.rank) (L := x.slice [] m) (V := x.slice [] m) (D := fun j => D (m j)) hk h.rank_last
  rw [← e]
  have hB : blockRank x.rank x.rank k = x.rank := by
    funext j
    rcases Nat.lt_or_ge k j with h | h
    · rw [blockRank_gt h]
    · rw [blockRank_le h]
  rw [hB]
  refine lprod_congr' fun j _ => ?_
  funext a b
  unfold blockMat
  by_cases h1 : j = k
  · subst h1; simp
  · simp only [if_neg h1, ite_self]

/-- Change of frame. -/
theorem frame_change {d : ℕ} {r r' q q' : ℕ → ℕ} {l l' ρ ρ' : ℕ → ℕ → ℝ} {M N : ℕ → ℕ → ℕ → ℝ}
    (hl : ∀ k < d, ∀ a < r k, l k a = ∑ c ∈ Finset.range (r' k), l' k c * M k c a)
    (hρ : ∀ k < d, ∀ b < q (k + 1), ρ k b = ∑ e ∈ Finset.range (q' (k + 1)), N k b e * ρ' k e) (D : ℕ → ℕ → ℕ → ℝ) :
    ∑ k ∈ Finset.range d, ∑ a ∈ Finset.range (r k), ∑ b ∈ Finset.range (q (k + 1)), l k a * D k a b * ρ k b =
    ∑ k ∈ Finset.range d, ∑ c ∈ Finset.range (r' k), ∑ e ∈ Finset.range (q' (k + 1)), l' k c *
      (∑ a ∈ Finset.range (r k), ∑ b ∈ Finset.range (q (k + 1)), M k c a * D k a b * N k b e) * ρ' k e := by
  refine Finset.sum_congr rfl fun k hk => ?_
  have hk := Finset.mem_range.1 hk
  rw [Finset.sum_congr rfl fun a ha => Finset.sum_congr rfl fun b hb => by
    rw [hl k hk a (Finset.mem_range.1 ha), hρ k hk b (Finset.mem_range.1 hb)]]
  simp only [Finset.mul_sum, Finset.sum_mul]
  rw [Finset.sum_congr rfl fun a _ => Finset.sum_comm]
  rw [Finset.sum_comm]
  conv_rhs => rw [Finset.sum_comm]
  refine Finset.sum_congr rfl fun e _ => ?_
  rw [Finset.sum_congr rfl fun a _ => Finset.sum_comm]
  rw [Finset.sum_comm]
  refine Finset.sum_congr rfl fun c _ => Finset.sum_congr rfl fun a _ => Finset.sum_congr rfl fun b _ => by ring

theorem TFrame.le_left (F : TFrame x left right) (h : x.WF) {k : ℕ} (hk : k ≤ x.ndims) : left.rank k ≤ x.rank k := by
  rw [F.kl k hk]; exact lrRank_le _ _ h.rank_first k

theorem TFrame.le_right (F : TFrame x left right) (h : x.WF) {k : ℕ} (hk : k ≤ x.ndims) : right.rank k ≤ x.rank k := by
  rw [F.kr k hk]
  exact (rlRank_le _ _ (by rw [← F.nl]; exact F.wl.rank_last) hk).trans (F.le_left h hk)

theorem MinimalRanks.transfer {s t : TT ℝ} (hmin : s.MinimalRanks) (hr : t.rawShape = s.rawShape) (hn : t.ndims = s.ndims)
    (he : t.dense ≃ₜ s.dense) (hle : ∀ k ≤ s.ndims, t.rank k ≤ s.rank k) : t.MinimalRanks :=
  fun u hu bu ru eu k hk => (hle k (hn ▸ hk)).trans (hmin u hu bu (ru.trans hr) (eu.trans he) k (hn ▸ hk))

theorem Nonzero.transfer {s t : TT ℝ} (hne : s.Nonzero) (he : t.dense ≃ₜ s.dense) : t.Nonzero := by
  obtain ⟨i, hi, hv⟩ := hne
  exact ⟨i, by rw [he.1]; exact hi, by rw [he.2 i (by rw [he.1]; exact hi)]; exact hv⟩

theorem TFrame.rank_eq (F : TFrame x left right) (h : x.WF) (hb : x.batch = none) (hmin : x.MinimalRanks) {k : ℕ} (hk : k ≤ x.ndims) :
    left.rank k = x.rank k ∧ right.rank k = x.rank k :=
  ⟨le_antisymm (F.le_left h hk) (hmin left F.wl F.bl F.rl (dense_eqv h F.rl hb F.bl F.el) k hk),
    le_antisymm (F.le_right h hk) (hmin right F.wr F.br F.rr (dense_eqv h F.rr hb F.br F.er) k hk)⟩

/-- For a nonzero tensor with minimal ranks the space of the frame is the tangent space. -/
theorem frame_tangent (F : TFrame x left right) (h : x.WF) (hb : x.batch = none) (hmin : x.MinimalRanks) (hne : x.Nonzero)
    (f : List ℕ → ℝ) : f ∈ frameSpace x left right ↔ x.TangentVector f := by
  have hsh : x.dense.shape = restShape x.rawShape := by
    change x.bpre ++ restShape x.rawShape = _
    simp [TT.bpre, hb]
  have dl := dense_eqv h F.rl hb F.bl F.el
  have dr := dense_eqv h F.rr hb F.br F.er
  have ml := MinimalRanks.transfer hmin F.rl F.nl dl (fun k hk => F.le_left h hk)
  have mr := MinimalRanks.transfer hmin F.rr F.nr dr (fun k hk => F.le_right h hk)
  constructor
  · rintro ⟨D, hD⟩
    have hL := fun k (hk : k < x.ndims) => left_transfer F.wl h F.bl ml (Nonzero.transfer hne dl) F.nl.symm
      (fun g => (F.el g.1 (by rw [← F.nl, ← F.ml]; exact g.2)).symm) (k := k) (by rw [F.nl]; omega)
    have hR := fun k (hk : k < x.ndims) => right_transfer F.wr h F.br mr (Nonzero.transfer hne dr) F.nr.symm
      (fun g => (F.er g.1 (by rw [← F.nr, ← F.mr]; exact g.2)).symm) (k := k + 1) (by rw [F.nr]; omega)
    choose! M hM using hL
    choose! N hN using hR
    refine ⟨fun k v c e => ∑ a ∈ Finset.range (left.rank k), ∑ b ∈ Finset.range (right.rank (k + 1)), M k c a * D k v a b * N k b e, fun i hi => ?_⟩
    rw [hsh] at hi
    rw [hD i hi, frameVec, Finset.sum_congr rfl fun k hk => replaceCore_eq h hb _ i (Finset.mem_range.1 hk)]
    have hm := validModes_rest h hi
    refine frame_change (l := fun k a => lprod left.rank (left.slice [] (restModes x.rawShape i)) k a)
      (l' := fun k a => lprod x.rank (x.slice [] (restModes x.rawShape i)) k a)
      (ρ := fun k b => rprod right.rank (right.slice [] (restModes x.rawShape i)) (x.ndims - 1 - k) (k + 1) b)
      (ρ' := fun k b => rprod x.rank (x.slice [] (restModes x.rawShape i)) (x.ndims - 1 - k) (k + 1) b)
      (fun k hk a ha => hM k hk ⟨_, by rw [F.nl, F.ml]; exact hm⟩ a ha) (fun k hk b hb => ?_) (fun k => D k (restModes x.rawShape i k))
    have := hN k hk ⟨_, by rw [F.nr, F.mr]; exact hm⟩ b hb
    rw [show right.ndims - (k + 1) = x.ndims - 1 - k by have := F.nr; omega] at this
    exact this
  · rintro ⟨D, hD⟩
    have hL := fun k (hk : k < x.ndims) => left_transfer h F.wl hb hmin hne F.nl (fun g => F.el g.1 g.2) (k := k) (by omega)
    have hR := fun k (hk : k < x.ndims) => right_transfer h F.wr hb hmin hne F.nr (fun g => F.er g.1 g.2) (k := k + 1) (by omega)
    choose! M hM using hL
    choose! N hN using hR
    refine ⟨fun k v c e => ∑ a ∈ Finset.range (x.rank k), ∑ b ∈ Finset.range (x.rank (k + 1)), M k c a * D k v a b * N k b e, fun i hi => ?_⟩
    have hm := validModes_rest h hi
    rw [hD i (by rw [hsh]; exact hi), frameVec, Finset.sum_congr rfl fun k hk => replaceCore_eq h hb _ i (Finset.mem_range.1 hk)]
    refine frame_change (l' := fun k a => lprod left.rank (left.slice [] (restModes x.rawShape i)) k a)
      (l := fun k a => lprod x.rank (x.slice [] (restModes x.rawShape i)) k a)
      (ρ' := fun k b => rprod right.rank (right.slice [] (restModes x.rawShape i)) (x.ndims - 1 - k) (k + 1) b)
      (ρ := fun k b => rprod x.rank (x.slice [] (restModes x.rawShape i)) (x.ndims - 1 - k) (k + 1) b)
      (fun k hk a ha => hM k hk ⟨_, hm⟩ a ha) (fun k hk b hb => ?_) (fun k => D k (restModes x.rawShape i k))
    have := hN k hk ⟨_, hm⟩ b hb
    rw [show x.ndims - (k + 1) = x.ndims - 1 - k by omega] at this
    exact this

end

end T3f
