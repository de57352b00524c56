import Verif.Proofs.RoundItem
import Verif.Model.Approximate
import Verif.Proofs.BatchItem

/-! # Summation tree of `add_n` -/

namespace T3f

theorem ndims_of_len {rows : List (List ℕ)} {d : ℕ} (hdr : ∀ row ∈ rows, row.length = d) {t : TT ℝ} (h : t.WF) (hr : t.rawShape = rows) : t.ndims = d := by
  have h1 := h.rows
  cases hrs : t.rawShape with
  | nil => rw [hrs] at h1; simp at h1
  | cons row rest =>
    have h2 := h.rows_len row (by rw [hrs]; simp)
    rw [← hr, hrs] at hdr
    have h3 := hdr row (by simp)
    omega

theorem repEntry_mono {rows : List (List ℕ)} {b b' : ℕ → ℕ} {X X' : List ℕ → ℝ} {d : ℕ} (hdr : ∀ row ∈ rows, row.length = d)
    (hb : ∀ k, 0 < k → k < d → b k ≤ b' k) (hX : ∀ i, Valid (restShape rows) i → X i = X' i) (h : RepEntry rows b X) : RepEntry rows b' X' := by
  obtain ⟨S, h1, h2, h3, h4, h5⟩ := h
  have hd := ndims_of_len hdr h1 h2
  exact ⟨S, h1, h2, h3, fun k h0 hk => (h4 k h0 hk).trans (hb k h0 (by omega)), fun i hi => (h5 i hi).trans (hX i hi)⟩

/-- The ranks of a sum add up. -/
theorem repEntry_sum {rows : List (List ℕ)} {d : ℕ} (hd : 2 ≤ d) (hdr : ∀ row ∈ rows, row.length = d) {ι : Type} (s : Finset ι) (hs : s.Nonempty)
    (r : ι → ℕ → ℕ) (f : ι → List ℕ → ℝ) (h : ∀ k ∈ s, RepEntry rows (r k) (f k)) :
    RepEntry rows (fun j => ∑ k ∈ s, r k j) (fun i => ∑ k ∈ s, f k i) := by
  classical
  induction hs using Finset.Nonempty.cons_induction with
  | singleton a => simpa using h a (by simp)
  | cons a s ha hs ih =>
    obtain ⟨S, h1, h2, h3, h4, h5⟩ := h a (by simp)
    obtain ⟨T, g1, g2, g3, g4, g5⟩ := ih fun k hk => h k (by simp [hk])
    have hdS := ndims_of_len hdr h1 h2
    have hdT := ndims_of_len hdr g1 g2
    obtain ⟨c, -, wc, rc, bc, nc, kc, vc⟩ := addTT_spec h1 g1 (by omega) (by rw [h2, g2]) h3 g3
    refine ⟨c, wc, by rw [rc, h2], bc, fun k h0 hk => ?_, fun i hi => ?_⟩
    · rw [nc, hdS] at hk
      rw [kc k (by omega), addRk, if_neg (by omega)]
      simp only [Finset.sum_cons]
      exact add_le_add (h4 k h0 (by omega)) (g4 k h0 (by omega))
    · have hc : c.bpre = [] := by simp [TT.bpre, bc]
      rw [vc [] _ (by rw [hc]; simp) (by rw [← h2, ← rc]; exact validModes_rest wc (by rw [rc, h2]; exact hi)), h5 i hi, g5 i hi]
      simp only [Finset.sum_cons]

/-- State of the tree at level `l`. `Q l q p` is what is known about the tensor of node `q`, batch item `p`. -/
structure TreeInv (rows : List (List ℕ)) (bs : Option ℕ) (b : ℕ → ℕ) (n : ℕ) (Q : ℕ → ℕ → List ℕ → (List ℕ → ℝ) → Prop) (l : ℕ) (L : List (TT ℝ)) : Prop where
  lvl : Lvl n l L.length
  wf : ∀ q < L.length, (L.getD q default).WF
  shape : ∀ q < L.length, (L.getD q default).rawShape = rows
  batch : ∀ q < L.length, (L.getD q default).batch = bs
  two : 0 < l → 2 ^ (l - 1) < n
  rank : ∀ q < L.length, 0 < l → (2 * q + 1) * 2 ^ (l - 1) < n → ∀ k, 0 < k → k < (L.getD q default).ndims → (L.getD q default).rank k ≤ b k
  entry : ∀ q < L.length, ∀ p, Valid bs.toList p → Q l q p fun i => (L.getD q default).entry p (restModes rows i)

/-- What is known passes from a level to the next. -/
structure TreeStep (rows : List (List ℕ)) (bs : Option ℕ) (b : ℕ → ℕ) (d n : ℕ) (Q : ℕ → ℕ → List ℕ → (List ℕ → ℝ) → Prop) : Prop where
  merge : ∀ l q p, (2 * q + 1) * 2 ^ l < n → Valid bs.toList p → ∀ A B S X, Q l (2 * q) p A → Q l (2 * q + 1) p B →
    (∀ i, Valid (restShape rows) i → S i = A i + B i) → RoundsTo rows b d S X → Q (l + 1) q p X
  lone : ∀ l q p A, n ≤ (2 * q + 1) * 2 ^ l → Q l (2 * q) p A → Q (l + 1) q p A

theorem block_empty {n l q : ℕ} (h : n ≤ q * 2 ^ l) : block n l q = ∅ := by
  rw [block, Finset.filter_eq_empty_iff]
  rintro k hk rfl
  have := Nat.div_mul_le_self k (2 ^ l)
  rw [Finset.mem_range] at hk
  omega

/-- All roundings are exact if the partial sums are within the bounds. -/
theorem TreeStep.exact {rows : List (List ℕ)} {bs : Option ℕ} {b : ℕ → ℕ} {d n : ℕ} (hdr : ∀ row ∈ rows, row.length = d) (f : ℕ → List ℕ → List ℕ → ℝ)
    (hE : ∀ l q, (2 * q + 1) * 2 ^ l < n → ∀ p, Valid bs.toList p → RepEntry rows b (fun i => ∑ k ∈ block n (l + 1) q, f k p i)) :
    TreeStep rows bs b d n fun l q p A => ∀ i, Valid (restShape rows) i → A i = ∑ k ∈ block n l q, f k p i := by
  refine ⟨fun l q p h hp A B S X hA hB hS hX i hi => ?_, fun l q p A h hA i hi => ?_⟩
  · have hsum : ∀ i, Valid (restShape rows) i → S i = ∑ k ∈ block n (l + 1) q, f k p i := fun i hi => by
      rw [hS i hi, hA i hi, hB i hi, sum_block_succ]
    rw [← hsum i hi]
    exact hX.exact (repEntry_mono hdr (fun _ _ _ => le_rfl) (fun i hi => (hsum i hi).symm) (hE l q h p hp)) hi
  · rw [sum_block_succ, block_empty h, Finset.sum_empty, add_zero]
    exact hA i hi

variable {qr : QRRoutine} (hqr : qr.Correct) {svd : SVDRoutine} (hsvd : svd.Correct)
  {rows : List (List ℕ)} {bs : Option ℕ} {m : MaxRank} {b : ℕ → ℕ} {n d : ℕ} {Q : ℕ → ℕ → List ℕ → (List ℕ → ℝ) → Prop}
  (hd : 2 ≤ d) (hdr : ∀ row ∈ rows, row.length = d) (hpos : ∀ row ∈ rows, ∀ x ∈ row, 0 < x) (hb : m.Bounds d b) (hbatch : bs ≠ none → m.Single)

include hqr hsvd hd hdr hpos hb hbatch in
theorem addNLevel_ok (hQ : TreeStep rows bs b d n Q) {l : ℕ} {L : List (TT ℝ)} (h : TreeInv rows bs b n Q l L) (hL : 1 < L.length) :
    ∃ L', addNLevel qr svd m L = Except.ok L' ∧ L'.length = (L.length + 1) / 2 ∧ TreeInv rows bs b n Q (l + 1) L' := by
  obtain ⟨L', e, hl, hp⟩ := mapRange_ok ((L.length + 1) / 2) (fun j => do
    let curr ← pyGet L (2 * j)
    if 2 * j + 1 < L.length then do
      let other ← pyGet L (2 * j + 1)
      let sum ← add curr other
      ttRound qr svd sum m none
    else pure curr) (fun q x => x.WF ∧ x.rawShape = rows ∧ x.batch = bs ∧
      ((2 * q + 1) * 2 ^ l < n → ∀ k, 0 < k → k < x.ndims → x.rank k ≤ b k) ∧
      ∀ p, Valid bs.toList p → Q (l + 1) q p fun i => x.entry p (restModes rows i)) (by
    intro q hq
    have h1 : 2 * q < L.length := by omega
    rw [pyGet_of_lt L (2 * q) default h1, R.ok_bind]
    by_cases h2 : 2 * q + 1 < L.length
    · rw [if_pos h2, pyGet_of_lt L (2 * q + 1) default h2, R.ok_bind]
      have wa := h.wf _ h1
      have wb := h.wf _ h2
      have da : (L.getD (2 * q) default).ndims = d := ndims_of_len hdr wa (h.shape _ h1)
      have hb1 := h.batch _ h1
      have hb2 := h.batch _ h2
      obtain ⟨c, ec, wc, rc, bc, nc, -, vc⟩ := add_spec wa wb (by omega) (by rw [h.shape _ h1, h.shape _ h2]) (by
        rw [hb1, hb2]
        cases bs with
        | none => exact Or.inl ⟨rfl, rfl⟩
        | some k => exact Or.inr (Or.inl ⟨k, rfl, rfl⟩))
      rw [ec, R.ok_bind]
      have hcb : c.batch = bs := by
        rw [TT.bpre, TT.bpre, hb1, hb2] at bc
        cases bs with
        | none => cases hc : c.batch <;> simp [TT.bpre, hc, bshape] at bc ⊢
        | some k => cases hc : c.batch <;> simp [TT.bpre, hc, bshape] at bc ⊢; exact bc.symm
      have rc' : c.rawShape = rows := by rw [rc, h.shape _ h1]
      obtain ⟨x, ex, wx, rx, bx, kx, vx⟩ := round_item hqr hsvd wc (by rw [TT.ModesPos, rc']; exact hpos) (m := m) (b := b) (by rw [nc, da]; exact hb)
        (by rw [TT.isBatch, hcb]; intro hh; exact hbatch (by rintro rfl; simp at hh)) (eps := none) (by simp)
      refine ⟨x, ex, wx, by rw [rx, rc'], by rw [bx, hcb], fun _ k h0 hk => kx k h0 (by rw [nc, da, ← ndims_of_len hdr wx (by rw [rx, rc'])]; exact hk), ?_⟩
      intro p hp
      have hcp : c.bpre = bs.toList := by rw [TT.bpre, hcb]
      have hx := vx p (by rw [hcp]; exact hp)
      rw [rc', nc, da] at hx
      refine hQ.merge l q p ((h.lvl _).1 h2) hp _ _ _ _ (h.entry _ h1 p hp) (h.entry _ h2 p hp) (fun i hi => ?_) hx
      rw [vc p _ (by rw [hcp]; exact hp) (by rw [← rc']; exact validModes_rest wc (by rw [rc']; exact hi)), TT.bpre, TT.bpre, hb1, hb2]
      have : bproj bs.toList p = p := bproj_valid hp
      rw [this]
    · rw [if_neg h2]
      refine ⟨_, rfl, h.wf _ h1, h.shape _ h1, h.batch _ h1, fun hh => absurd ((h.lvl _).2 hh) h2, fun p hp => ?_⟩
      exact hQ.lone l q p _ (not_lt.1 fun hh => h2 ((h.lvl _).2 hh)) (h.entry _ h1 p hp))
  refine ⟨L', e, hl, ⟨by rw [hl]; exact h.lvl.succ, ?_, ?_, ?_, fun _ => ?_, ?_, ?_⟩⟩
  · exact fun q hq => (hp q (by omega)).1
  · exact fun q hq => (hp q (by omega)).2.1
  · exact fun q hq => (hp q (by omega)).2.2.1
  · simpa using (h.lvl 1).1 hL
  · exact fun q hq _ hh => (hp q (by omega)).2.2.2.1 hh
  · exact fun q hq => (hp q (by omega)).2.2.2.2

include hqr hsvd hd hdr hpos hb hbatch in
theorem addNLoop_ok (hn : 0 < n)
    (hQ : TreeStep rows bs b d n Q) :
    ∀ (fuel : ℕ) (l : ℕ) (L : List (TT ℝ)), TreeInv rows bs b n Q l L → L.length ≤ fuel →
    ∃ l' x, addNLoop qr svd m fuel L = Except.ok [x] ∧ TreeInv rows bs b n Q l' [x] ∧ (1 < L.length → 0 < l') := by
  intro fuel
  induction fuel with
  | zero => intro l L h hL; have := h.lvl.pos hn; omega
  | succ fuel ih =>
    intro l L h hL
    have h0 := h.lvl.pos hn
    rw [addNLoop]
    by_cases h1 : 1 < L.length
    · obtain ⟨L', e, hl, h'⟩ := addNLevel_ok hqr hsvd hd hdr hpos hb hbatch hQ h h1
      obtain ⟨l', x, ex, hx, hx'⟩ := ih (l + 1) L' h' (by omega)
      refine ⟨l', x, by rw [if_pos h1, e, R.ok_bind, ex], hx, fun _ => ?_⟩
      by_contra hl0
      have hl0 : l' = 0 := by omega
      subst hl0
      have h2 : n = 1 := by
        have := hx.lvl
        have h3 := (this 1).2
        simp at h3; omega
      have := (h.lvl 1).1 h1
      have := Nat.one_le_two_pow (n := l)
      omega
    · obtain ⟨x, rfl⟩ := List.length_eq_one_iff.1 (show L.length = 1 by omega)
      exact ⟨l, x, by rw [if_neg h1]; rfl, h, fun hh => absurd hh h1⟩

end T3f
