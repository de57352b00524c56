import Verif.Proofs.DescribedDecomp

/-! # Approximate sums return described objects -/

namespace T3f

variable {t : TT ℝ} (qr : QRRoutine) (svd : SVDRoutine)

theorem ttRound_desc (h : t.Described) (m : MaxRank) (eps : Option ℝ) : Desc (ttRound qr svd t m eps) := fun u e => (ttRound_like qr svd h m eps u e).1

theorem pyGet_mem {α : Type} {l : List α} {k : ℕ} {x : α} (h : pyGet l k = Except.ok x) : x ∈ l := by
  obtain ⟨hx, hk⟩ := pyGet_getD h x
  rw [hx, List.getD_eq_getElem _ _ hk]
  exact List.getElem_mem _

theorem addNLevel_desc (m : MaxRank) {ts r : List (TT ℝ)} (h : ∀ t ∈ ts, t.Described) (e : addNLevel qr svd m ts = Except.ok r) : ∀ t ∈ r, t.Described := by
  obtain ⟨hl, hg⟩ := mapRange_inv e
  intro t ht
  obtain ⟨k, hk, rfl⟩ := List.getElem_of_mem ht
  have hk' := hg k (by omega)
  simp only [bind_ok_iff] at hk'
  obtain ⟨c, hc, hk'⟩ := hk'
  have hc := h c (pyGet_mem hc)
  rw [List.getD_eq_getElem _ _ hk] at hk'
  split_ifs at hk'
  · simp only [bind_ok_iff] at hk'
    obtain ⟨o, ho, s, hs, hk'⟩ := hk'
    exact ttRound_desc qr svd (add_desc hc o s hs) _ _ _ hk'
  · have := Except.ok.inj hk'
    rw [← this]
    exact hc

theorem addNLoop_desc (m : MaxRank) : ∀ (n : ℕ) {ts r : List (TT ℝ)}, (∀ t ∈ ts, t.Described) → addNLoop qr svd m n ts = Except.ok r → ∀ t ∈ r, t.Described
  | 0, ts, r, h, e => by
    have e := Except.ok.inj e
    rw [← e]
    exact h
  | n + 1, ts, r, h, e => by
    unfold addNLoop at e
    split_ifs at e
    · simp only [bind_ok_iff] at e
      obtain ⟨s, hs, e⟩ := e
      exact addNLoop_desc m n (addNLevel_desc qr svd m h hs) e
    · have e := Except.ok.inj e
      rw [← e]
      exact h

theorem addN_desc {ts : List (TT ℝ)} (h : ∀ t ∈ ts, t.Described) (m : MaxRank) : Desc (addN qr svd ts m) := by
  intro u e
  simp only [addN, bind_ok_iff] at e
  obtain ⟨r, hr, e⟩ := e
  exact addNLoop_desc qr svd m _ h hr u (pyGet_mem e)

theorem getItem_slice_count {x y : Tensor ℝ} {n : ℕ} {s : List ℕ} (hx : x.shape = n :: s) {a b : Option ℤ} {c : ℤ} (h : getItem x [.slice a b c] = Except.ok y) :
    y.shape = ixCount n (.slice a b c) :: s := by
  simp only [getItem, bind_ok_iff] at h
  obtain ⟨l, hl, h⟩ := h
  cases h
  rw [hx] at hl
  simp only [resolveIx] at hl
  split_ifs at hl
  rw [bind_ok_iff] at hl
  obtain ⟨l', h1, h⟩ := hl
  cases h
  cases h1
  have : ∀ s : List ℕ, selShape (s.map fun n => Sel.many (List.range n)) = s := by
    intro s
    induction s with
    | nil => rfl
    | cons a s ih => simp [selShape, ih]
  simp [selShape, this, ixCount]

theorem pyGet_shape0 {x : Tensor ℝ} {n m : ℕ} {s : List ℕ} (hx : x.shape = n :: s) (h : pyGet x.shape 0 = Except.ok m) : m = n := by
  rw [(pyGet_getD h 0).1, hx]
  rfl

/-- The first axis of the half of a core. -/
def halfSize (out : Option ℕ) (n : ℕ) : ℕ :=
  match out with
  | none => ixCount n (.slice none none 2)
  | some N => ixCount (n / N) (.slice none none 2) * N

theorem halves_shape {out : Option ℕ} {core a b : Tensor ℝ} {n : ℕ} {s : List ℕ} (hs : core.shape = n :: s) (h : halves out core = Except.ok (a, b)) :
    a.shape = halfSize out n :: s := by
  simp only [halves, bind_ok_iff] at h
  obtain ⟨c, hc, a', ha, b', -, b'', -, a'', hm, b3, -, e⟩ := h
  cases e
  cases out with
  | none =>
    have hc := Except.ok.inj hc
    have hm := Except.ok.inj hm
    rw [← hm, getItem_slice_count (hc ▸ hs) ha]
    rfl
  | some N =>
    simp only [splitFirst, bind_ok_iff] at hc
    obtain ⟨n', hn', hc⟩ := hc
    rw [pyGet_shape0 hs hn', hs] at hc
    have hc := reshape_some_shape hc
    have ha := getItem_slice_count hc ha
    simp only [mergeFirst, bind_ok_iff] at hm
    obtain ⟨m, hm', N', hN', hm⟩ := hm
    have hN := (pyGet_getD hN' 0).1
    rw [ha] at hN
    rw [reshape_some_shape hm, pyGet_shape0 ha hm', hN, ha]
    rfl

theorem concat_pair_head {ax : ℕ} {a b y : Tensor ℝ} (h : concat (ax + 1) [a, b] = Except.ok y) : y.shape.getD 0 0 = a.shape.getD 0 0 := by
  simp only [concat, bind_ok_iff] at h
  obtain ⟨r, -, h⟩ := h
  unfold concat2 at h
  split_ifs at h
  cases h
  rw [getD_set_ne _ _ _ (by omega)]

theorem addCore_head {l r d i : ℕ} {us ls : R (List ℕ)} {a b y : Tensor ℝ} (h : addCore (l + 1) (r + 1) d i us ls a b = Except.ok y) :
    y.shape.getD 0 0 = a.shape.getD 0 0 := by
  unfold addCore at h
  split_ifs at h
  · exact concat_pair_head h
  · exact concat_pair_head h
  · simp only [bind_ok_iff] at h
    obtain ⟨_, -, _, -, u, hu, v, -, h⟩ := h
    rw [concat_pair_head h, concat_pair_head hu]

theorem core_cons (h : t.Described) {n k : ℕ} (hb : t.batch = some n) (hk : k < t.ndims) : ∃ s, (t.core k).shape = n :: s ∧ s.length = t.rawShape.length + 2 := by
  refine ⟨t.rank k :: (t.modes k ++ [t.rank (k + 1)]), ?_, by simp [TT.modes]⟩
  rw [h.describes.core_shape k hk, TT.bpre, hb]
  rfl

theorem reduceLevel_desc (h : t.Described) {n : ℕ} (hb : t.batch = some n) (m : MaxRank) (out : Option ℕ) : Desc (reduceLevel qr svd m out t) := by
  intro u e
  simp only [reduceLevel, bind_ok_iff] at e
  obtain ⟨cores, hc, s, hs, e⟩ := e
  obtain ⟨hl, hg⟩ := mapRange_core hc
  refine ttRound_desc qr svd (mkBatch_described (n := halfSize out n) h.rows (fun row hr => by rw [hl, h.rowLen row hr]) (by simp) ?_ (Or.inr ⟨rfl, fun k hk => ?_⟩) s hs).1 _ _ u e
  · have h0 := hg 0 h.pos
    simp only [bind_ok_iff] at h0
    obtain ⟨c, hc, ⟨a, b⟩, hab, h0⟩ := h0
    obtain ⟨rfl, hk, -⟩ := h.pyGet hc
    obtain ⟨sh, hsh, hlen⟩ := core_cons h hb hk
    rw [addCore_axes h0, halves_shape hsh hab, List.length_cons, hlen]
  · have h0 := hg k (by omega)
    simp only [bind_ok_iff] at h0
    obtain ⟨c, hc, ⟨a, b⟩, hab, h0⟩ := h0
    obtain ⟨rfl, hk, -⟩ := h.pyGet hc
    obtain ⟨sh, hsh, hlen⟩ := core_cons h hb hk
    have : (cores.getD k default).shape.getD 0 0 = a.shape.getD 0 0 := by
      split_ifs at h0
      · exact addCore_head (l := 0) (r := 3) h0
      · exact addCore_head (l := 0) (r := 2) h0
    rw [this, halves_shape hsh hab]
    rfl

theorem reduceLoop_desc (m : MaxRank) (out : Option ℕ) : ∀ (n : ℕ) {t : TT ℝ}, t.Described → Desc (reduceLoop qr svd m out n t)
  | 0, t, h => fun u e => by
    have e := Except.ok.inj e
    rw [← e]
    exact h
  | n + 1, t, h => fun u e => by
    unfold reduceLoop at e
    split_ifs at e with hlt
    · simp only [bind_ok_iff] at e
      obtain ⟨s, hs, e⟩ := e
      cases hb : t.batch with
      | none => rw [hb] at hlt; simp at hlt
      | some B => exact reduceLoop_desc m out n (reduceLevel_desc qr svd h hb m out s hs) u e
    · have e := Except.ok.inj e
      rw [← e]
      exact h

theorem repeatCore_shape {coef core y : Tensor ℝ} {N k n : ℕ} {s : List ℕ} (hs : core.shape = n :: s) (h : repeatCore coef core N k = Except.ok y) : y.shape = n * N :: s := by
  simp only [repeatCore, bind_ok_iff] at h
  obtain ⟨n', hn, _, -, t, -, h⟩ := h
  have key : ∀ w : Tensor ℝ, reshape w (((n' * N) :: core.shape.tail).map some) = Except.ok y → y.shape = n * N :: s := fun w hw => by
    rw [reshape_some_shape hw, pyGet_shape0 hs hn, hs]
    rfl
  split_ifs at h
  · simp only [bind_ok_iff] at h
    obtain ⟨w, -, h⟩ := h
    exact key w h
  · exact key t h

theorem weightBatch_desc (h : t.Described) (coef : Option (Tensor ℝ)) {w : TT ℝ} {out : Option ℕ} (e : weightBatch t coef = Except.ok (w, out)) : w.Described := by
  cases coef with
  | none =>
    cases e
    exact h
  | some c =>
    simp only [weightBatch] at e
    split at e
    · simp only [bind_ok_iff] at e
      obtain ⟨v, hv, e⟩ := e
      cases e
      rename_i hs
      exact (multiplyBatch_described h c (fun _ => by rw [hs]; rfl) _ hv).1
    · rename_i n N _
      simp only [bind_ok_iff] at e
      obtain ⟨_, hq, cores, hc, v, hv, e⟩ := e
      cases e
      have hb : t.batch = some n := require_inv hq
      obtain ⟨hl, hg⟩ := mapRange_core hc
      have key : ∀ k < t.ndims, ∃ s, (cores.getD k default).shape = n * N :: s ∧ s.length = t.rawShape.length + 2 := fun k hk => by
        have h0 := hg k hk
        simp only [bind_ok_iff] at h0
        obtain ⟨x, hx, h0⟩ := h0
        obtain ⟨rfl, hk, -⟩ := h.pyGet hx
        obtain ⟨sh, hsh, hlen⟩ := core_cons h hb hk
        exact ⟨sh, repeatCore_shape hsh h0, hlen⟩
      refine (mkBatch_described (n := n * N) h.rows (fun row hr => by rw [hl, h.rowLen row hr]) (fun r hr => by cases hr; rw [hl, h.ranksLen]) ?_
        (Or.inr ⟨rfl, fun k hk => ?_⟩) w hv).1
      · obtain ⟨s, h1, h2⟩ := key 0 h.pos
        rw [h1, List.length_cons, h2]
      · obtain ⟨s, h1, h2⟩ := key k (by omega)
        rw [h1]
        rfl
    · cases e

theorem reduceSumBatch_desc (h : t.Described) (m : MaxRank) (coef : Option (Tensor ℝ)) : Desc (reduceSumBatch qr svd t m coef) := by
  intro u e
  simp only [reduceSumBatch, bind_ok_iff] at e
  obtain ⟨⟨w, out⟩, hw, last, hl, e⟩ := e
  have hd := reduceLoop_desc qr svd m out _ (weightBatch_desc h coef hw) last hl
  cases out with
  | none => exact batchGetItem_desc hd _ _ u e
  | some N =>
    have e := Except.ok.inj e
    rw [← e]
    exact hd

end T3f
