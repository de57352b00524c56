import Verif.Proofs.ProjectedOn

/-! # The two orthogonalizations of a point -/

namespace T3f

theorem frame_of {qr : QRRoutine} (hqr : qr.Correct) {x left right : TT ℝ} (h : x.WF) (hb : x.batch = none) (hm : x.ModesPos)
    (hl : orthogonalize qr x true = Except.ok left) (hr : orthogonalize qr left false = Except.ok right) :
    tangentFrame qr x = Except.ok (left, right) ∧ TFrame x left right := by
  have e : tangentFrame qr x = Except.ok (left, right) := by
    unfold tangentFrame
    rw [hl, R.ok_bind, hr]; rfl
  obtain ⟨l, r, e', F⟩ := tangentFrame_ok hqr h hb hm
  obtain ⟨rfl, rfl⟩ := Prod.mk.inj (Except.ok.inj (e'.symm.trans e))
  exact ⟨e, F⟩

theorem tangentFrame_inv {qr : QRRoutine} {x left right : TT ℝ} (e : tangentFrame qr x = Except.ok (left, right)) :
    orthogonalize qr x true = Except.ok left ∧ orthogonalize qr left false = Except.ok right := by
  unfold tangentFrame at e
  cases h1 : orthogonalize qr x true with
  | error _ => rw [h1] at e; exact absurd e (by simp [bind, Except.bind])
  | ok l =>
    rw [h1, R.ok_bind] at e
    cases h2 : orthogonalize qr l false with
    | error _ => rw [h2] at e; exact absurd e (by simp [bind, Except.bind])
    | ok r =>
      rw [h2, R.ok_bind] at e
      obtain ⟨rfl, rfl⟩ := Prod.mk.inj (Except.ok.inj e)
      exact ⟨rfl, h2⟩

theorem TFrame.right_le {x left right : TT ℝ} (F : TFrame x left right) {k : ℕ} (hk : k ≤ x.ndims) : right.rank k ≤ left.rank k := by
  rw [F.kr k hk]
  exact rlRank_le _ _ (by rw [← F.nl]; exact F.wl.rank_last) hk

theorem halves_of {x left right : TT ℝ} (F : TFrame x left right) (hk : ∀ k, 0 < k → k < x.ndims → left.rank k ≤ right.rank k + 1) :
    Halves x left right := fun k h0 h1 => by
  have := F.right_le h1.le
  have := hk k h0 h1
  omega

end T3f
