import Verif.Spec.NewAxis
import Verif.Props.C88Subscripts

/-!
# C88: the subscripts of dense tensors

The model of TensorFlow's subscripts agrees with their description in `Verif/Spec/NewAxis.lean`.
-/

namespace T3f

variable {K : Type}

theorem newAxes_fold {spec : List SubItem} (he : .ellipsis ∉ spec) {pre s : List ℕ} {u : Tensor K} (hu : u.shape = pre ++ s)
    (hl : ((SubItem.axes spec).filter fun i => !doCollapseDim i).length ≤ s.length) :
    ∃ v, (newAxes spec pre.length).foldlM expandDims u = Except.ok v ∧ v.shape = pre ++ SubItem.withNew spec s ∧
      ∀ a j, a.length = pre.length → j.length = (SubItem.withNew spec s).length → v.get (a ++ j) = u.get (a ++ SubItem.dropNew spec j) := by
  induction spec generalizing pre s u with
  | nil => exact ⟨u, rfl, hu, fun _ _ _ _ => rfl⟩
  | cons x spec ih =>
    have he' : .ellipsis ∉ spec := fun h => he (List.mem_cons_of_mem _ h)
    have keep : ∀ (x : SubItem), newAxes (x :: spec) pre.length = newAxes spec (pre.length + 1) → (∀ n s, SubItem.withNew (x :: spec) (n :: s) = n :: SubItem.withNew spec s) →
        (∀ a j, SubItem.dropNew (x :: spec) (a :: j) = a :: SubItem.dropNew spec j) →
        ((SubItem.axes spec).filter fun i => !doCollapseDim i).length + 1 ≤ s.length →
        ∃ v, (newAxes (x :: spec) pre.length).foldlM expandDims u = Except.ok v ∧ v.shape = pre ++ SubItem.withNew (x :: spec) s ∧
      ∀ a j, a.length = pre.length → j.length = (SubItem.withNew (x :: spec) s).length → v.get (a ++ j) = u.get (a ++ SubItem.dropNew (x :: spec) j) := by
      intro x h1 h2 h3 h4
      obtain ⟨n, s, rfl⟩ : ∃ n s', s = n :: s' := by
        cases s with
        | nil => simp at h4
        | cons n s => exact ⟨n, s, rfl⟩
      obtain ⟨v, e, sv, hv⟩ := ih he' (pre := pre ++ [n]) (s := s) (u := u) (by rw [hu]; simp) (by simpa using h4)
      rw [List.length_append] at e
      refine ⟨v, by rw [h1]; exact e, by rw [sv, h2]; simp, fun a j ha hj => ?_⟩
      rw [h2] at hj
      cases j with
      | nil => simp at hj
      | cons b j =>
        rw [h3]
        have := hv (a ++ [b]) j (by simp [ha]) (by simpa using hj)
        simpa using this
    rcases x with ⟨_ | _ | _⟩ | _ | _
    · exact keep _ rfl (fun _ _ => rfl) (fun _ _ => rfl) (by simpa [SubItem.axes, doCollapseDim] using hl)
    · obtain ⟨v, e, sv, hv⟩ := ih he' hu (by simpa [SubItem.axes, doCollapseDim] using hl)
      exact ⟨v, e, sv, hv⟩
    · exact keep _ rfl (fun _ _ => rfl) (fun _ _ => rfl) (by simpa [SubItem.axes, doCollapseDim] using hl)
    · exact absurd List.mem_cons_self he
    · have hi : (pre ++ s).insertIdx pre.length 1 = (pre ++ [1]) ++ s := by
        clear hu ih keep
        induction pre with
        | nil => rfl
        | cons n pre ih => simp [ih]
      obtain ⟨v, e, sv, hv⟩ := ih he' (pre := pre ++ [1]) (s := s)
        (u := ⟨u.shape.insertIdx pre.length 1, fun idx => u.get (idx.eraseIdx pre.length)⟩) (by rw [← hi, ← hu]) (by simpa [SubItem.axes] using hl)
      rw [List.length_append] at e
      refine ⟨v, ?_, by rw [sv]; simp [SubItem.withNew], fun a j ha hj => ?_⟩
      · rw [newAxes, List.foldlM_cons, expandDims, if_pos (by rw [hu]; simp)]
        exact e
      · cases j with
        | nil => simp [SubItem.withNew] at hj
        | cons b j =>
          have := hv (a ++ [b]) j (by simp [ha]) (by simpa [SubItem.withNew] using hj)
          rw [List.append_assoc, List.singleton_append] at this
          rw [this]
          show u.get _ = u.get _
          rw [← ha, List.append_assoc, List.singleton_append, List.eraseIdx_append_of_length_le le_rfl]
          simp [SubItem.dropNew]

theorem expand_none {spec : List SubItem} (he : .ellipsis ∉ spec) (n : ℕ) : spec.flatMap (expandItem n) = spec := by
  induction spec with
  | nil => rfl
  | cons x l ih =>
    rw [List.flatMap_cons, ih fun h => he (List.mem_cons_of_mem _ h)]
    cases x with
    | ellipsis => exact absurd List.mem_cons_self he
    | ix i => rfl
    | newaxis => rfl

/-- **C88.** Subscripts with `None`: the elements are those of the subscript without `None`, with an axis of size one at the place of every `None`. -/
theorem C88_none {t s : Tensor K} {spec : List SubItem} (he : .ellipsis ∉ spec) (h : getItem t (SubItem.axes spec) = Except.ok s) :
    ∃ u, getItems t spec = Except.ok u ∧ u.shape = SubItem.withNew spec s.shape ∧ ∀ j, Valid u.shape j → u.get j = s.get (SubItem.dropNew spec j) := by
  obtain ⟨h1, h2⟩ := getItem_axes' h
  have h3 : ((SubItem.axes spec).filter fun i => !doCollapseDim i).length ≤ s.shape.length := by
    have := List.length_eq_length_filter_add (l := SubItem.axes spec) doCollapseDim
    omega
  obtain ⟨v, e, sv, hv⟩ := newAxes_fold he (pre := []) (s := s.shape) (u := s) rfl h3
  refine ⟨v, ?_, sv, fun j hj => hv [] j rfl ?_⟩
  · unfold getItems
    rw [expandEllipsis_eq, if_neg (by rw [List.count_eq_zero.2 he]; omega), expand_none he, R.ok_bind, h, R.ok_bind]
    exact e
  · rw [sv] at hj
    exact hj.length_eq

/-- **C88.** `...` stands for the missing items `:`. -/
theorem C88_ellipsis (t : Tensor K) {a b : List SubItem} (ha : .ellipsis ∉ a) (hb : .ellipsis ∉ b)
    (h : (SubItem.axes a).length + (SubItem.axes b).length ≤ t.shape.length) :
    getItems t (a ++ .ellipsis :: b) =
      getItems t (a ++ (List.replicate (t.shape.length - (SubItem.axes a).length - (SubItem.axes b).length) (.ix .all) ++ b)) := by
  have hx : SubItem.axes (a ++ .ellipsis :: b) = SubItem.axes a ++ SubItem.axes b := by rw [axes_append]; rfl
  have hn : ∀ n, SubItem.ellipsis ∉ a ++ (List.replicate n (SubItem.ix .all) ++ b) := by
    intro n hm
    simp only [List.mem_append, List.mem_replicate] at hm
    rcases hm with hm | ⟨-, hm⟩ | hm
    · exact ha hm
    · cases hm
    · exact hb hm
  have hc : (a ++ SubItem.ellipsis :: b).count .ellipsis = 1 := by
    rw [List.count_append, List.count_cons_self, List.count_eq_zero.2 ha, List.count_eq_zero.2 hb]
  unfold getItems
  rw [expandEllipsis_eq, expandEllipsis_eq, if_neg, if_neg, expand_none (hn _), List.flatMap_append, List.flatMap_cons, expand_none ha, expand_none hb, hx]
  · simp only [List.length_append, expandItem, Nat.sub_sub]
  · rw [List.count_eq_zero.2 (hn _), axes_append, axes_append, axes_replicate]
    simp only [List.length_append, List.length_replicate]
    omega
  · rw [hc, hx, List.length_append]
    omega

example : ∃ u : Tensor ℤ, getItems (.ofList [2, 3] [1, 2, 3, 4, 5, 6]) [.ix (.int 1), .newaxis, .ix .all] = Except.ok u ∧ u.shape = [1, 3] ∧ u.get [0, 2] = 6 :=
  ⟨_, rfl, rfl, rfl⟩
example : ∃ u : Tensor ℤ, getItems (.ofList [2, 3] [1, 2, 3, 4, 5, 6]) [.newaxis, .ellipsis, .ix (.int 1)] = Except.ok u ∧ u.shape = [1, 2] ∧ u.get [0, 1] = 5 :=
  ⟨_, rfl, rfl, rfl⟩

end T3f
