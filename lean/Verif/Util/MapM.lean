/-! `List.mapM` in `Option`. -/

namespace Verif.Util
variable {α β : Type}

theorem mapM_exists {f : α → Option β} {l : List α} (h : ∀ x ∈ l, ∃ y, f x = some y) :
    ∃ out, l.mapM f = some out := by
  induction l with
  | nil => exact ⟨[], rfl⟩
  | cons x l ih =>
    obtain ⟨y, hy⟩ := h x (by simp)
    obtain ⟨ys, hys⟩ := ih (fun x hx => h x (by simp [hx]))
    exact ⟨y :: ys, by simp [List.mapM_cons, hy, hys]⟩

theorem mapM_get {f : α → Option β} {l : List α} {out : List β} (h : l.mapM f = some out) :
    out.length = l.length ∧ ∀ (i : Nat) (x : α), l[i]? = some x → out[i]? = f x := by
  induction l generalizing out with
  | nil =>
    simp at h
    subst h
    simp
  | cons x l ih =>
    simp only [List.mapM_cons] at h
    cases hx : f x with
    | none => simp [hx] at h
    | some y =>
      cases hl : l.mapM f with
      | none => simp [hx, hl] at h
      | some ys =>
        simp [hx, hl] at h
        subst h
        obtain ⟨h1, h2⟩ := ih hl
        refine ⟨by simp [h1], ?_⟩
        intro i x' hi
        cases i with
        | zero => simp at hi; subst hi; simp [hx]
        | succ i => simp at hi ⊢; exact h2 i x' hi

end Verif.Util
