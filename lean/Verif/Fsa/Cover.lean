import Verif.Fsa.Core
import Mathlib.Algebra.BigOperators.Group.List.Basic

/-! Relating paths of two FSAs that look the same locally. -/

namespace Verif.Fsa
variable {W : Type}

/-- If, on a set `P` of states closed under arcs, the arcs of `B` that leave `e s` are the
images under `φ` of the arcs of `A` that leave `s`, then paths of `B` from `e s` are the images
of paths of `A` from `s`. -/
theorem path_cover {V : Type} {A : List (Arc V)} {B : List (Arc W)} {e : Nat → Nat}
    {φ : Arc V → Arc W} {P : Nat → Prop}
    (hcl : ∀ a ∈ A, P a.src → P a.dst)
    (hφ : ∀ a ∈ A, P a.src → (φ a).dst = e a.dst)
    (hlv : ∀ s, P s → ∀ b, (b ∈ B ∧ b.src = e s) ↔ ∃ a ∈ A, a.src = s ∧ b = φ a)
    {s : Nat} (hs : P s) (p : List (Arc W)) (t' : Nat) :
    Path B (e s) p t' ↔ ∃ q t, Path A s q t ∧ e t = t' ∧ p = q.map φ := by
  induction p generalizing s with
  | nil =>
    rw [path_nil]
    constructor
    · intro h; exact ⟨[], s, (path_nil _ _ _).mpr rfl, h, rfl⟩
    · rintro ⟨q, t, hq, rfl, e⟩
      have : q = [] := by simpa using e.symm
      subst this
      rw [path_nil] at hq; rw [hq]
  | cons b p ih =>
    rw [path_cons]
    constructor
    · rintro ⟨hb, hsrc, hp⟩
      obtain ⟨a, ha, has, rfl⟩ := (hlv s hs b).mp ⟨hb, hsrc⟩
      subst has
      rw [hφ a ha hs] at hp
      obtain ⟨q, t, hq, rfl, rfl⟩ := (ih (hcl a ha hs)).mp hp
      exact ⟨a :: q, t, (path_cons _ _ _ _ _).mpr ⟨ha, rfl, hq⟩, rfl, rfl⟩
    · rintro ⟨q, t, hq, rfl, e⟩
      cases q with
      | nil => simp at e
      | cons a q =>
        simp only [List.map_cons, List.cons.injEq] at e
        obtain ⟨rfl, rfl⟩ := e
        rw [path_cons] at hq
        obtain ⟨ha, has, hq⟩ := hq
        subst has
        obtain ⟨h1, h2⟩ := (hlv a.src hs (φ a)).mpr ⟨a, ha, rfl, rfl⟩
        refine ⟨h1, h2, ?_⟩
        rw [hφ a ha hs]
        exact (ih (hcl a ha hs)).mpr ⟨q, t, hq, rfl, rfl⟩

theorem labels_map {V : Type} (φ : Arc V → Arc W) (q : List (Arc V))
    (h : ∀ a ∈ q, (φ a).label = a.label) : labels (q.map φ) = labels q := by
  induction q with
  | nil => rfl
  | cons a q ih =>
    simp only [List.map_cons, labels_cons, h a (by simp), ih (fun b hb => h b (by simp [hb]))]

theorem score_map [Add W] [Zero W] (φ : Arc W → Arc W) (q : List (Arc W))
    (h : ∀ a ∈ q, (φ a).score = a.score) : score (q.map φ) = score q := by
  induction q with
  | nil => rfl
  | cons a q ih =>
    simp only [List.map_cons, score_cons, h a (by simp), ih (fun b hb => h b (by simp [hb]))]

theorem score_append [AddMonoid W] (p q : List (Arc W)) :
    score (p ++ q) = score p + score q := by
  simp [score]

/-- An accepting path of a valid FSA is not empty. -/
theorem Accepting.ne_nil {f : Fsa W} {p : List (Arc W)} (h : Accepting f p) : p ≠ [] := by
  rintro rfl
  obtain ⟨h1, h2⟩ := h
  rw [path_nil] at h2
  simp only [Fsa.final] at h2; omega

end Verif.Fsa
