import Mathlib.Algebra.Group.Defs
import Mathlib.Order.Defs.LinearOrder
import Verif.Fsa.Core

/-!
# What it means to remove the epsilons of an FSA
-/

namespace Verif.Fsa
variable {W V : Type} [AddCommGroup W] [LinearOrder W] [Add V] [Zero V]

/-- The labels without epsilons. -/
def noEps (l : List Int) : List Int := l.filter (fun x => x != 0)

/-- `g`, with the arc derivatives `d`, is `f` without epsilons.  `num` turns the scores of `f` into
scores of `g`. -/
structure IsEpsRemoval (num : W → V) (f : Fsa W) (g : Fsa V) (d : List (List Nat)) : Prop where
  /-- (An FSA without arcs may become an FSA without states.) -/
  valid : f.arcs ≠ [] → g.Valid
  epsFree : ∀ a ∈ g.arcs, a.label ≠ 0
  length_eq : d.length = g.arcs.length
  /-- The derivatives along an accepting path are an accepting path of the input with the same
  symbols and the same score. -/
  sound : ∀ (ks : List Nat) (q : List (Arc V)), ks.map (fun k => g.arcs[k]?) = q.map some →
    Accepting g q →
    ∃ p, ((ks.map fun k => (d[k]?).getD []).flatten).map (fun j => f.arcs[j]?) = p.map some ∧
      Accepting f p ∧ noEps (labels p) = labels q ∧ score q = num (score p)
  /-- Every accepting path of the input has a path that is at least as good. -/
  complete : ∀ p, Accepting f p →
    ∃ q w, Accepting g q ∧ labels q = noEps (labels p) ∧ score q = num w ∧ score p ≤ w

/-- Then `w` is the best score of the paths that accept `x` in the input exactly if it is in the
result. -/
theorem IsEpsRemoval.best {num : W → V} (hnum : Function.Injective num) {f : Fsa W} {g : Fsa V}
    {d : List (List Nat)} (hr : IsEpsRemoval num f g d) (x : List Int) (w : W) :
    ((∃ p, Accepting f p ∧ noEps (labels p) = x ∧ score p = w) ∧
        ∀ p, Accepting f p → noEps (labels p) = x → score p ≤ w) ↔
      ((∃ q, Accepting g q ∧ labels q = x ∧ score q = num w) ∧
        ∀ q, Accepting g q → labels q = x → ∃ v, score q = num v ∧ v ≤ w) := by
  have hnames : ∀ q : List (Arc V), (∀ a ∈ q, a ∈ g.arcs) →
      ∃ ks : List Nat, ks.map (fun k => g.arcs[k]?) = q.map some := by
    intro q
    induction q with
    | nil => intro _; exact ⟨[], rfl⟩
    | cons a q ih =>
      intro hq
      obtain ⟨ks, hks⟩ := ih fun b hb => hq b (by simp [hb])
      obtain ⟨k, hk⟩ := List.mem_iff_getElem?.1 (hq a (by simp))
      exact ⟨k :: ks, by simp [hk, hks]⟩
  have hback : ∀ q, Accepting g q → ∃ p, Accepting f p ∧ noEps (labels p) = labels q ∧
      score q = num (score p) := by
    intro q hq
    obtain ⟨ks, hks⟩ := hnames q hq.2.2
    obtain ⟨p, _, h2, h3, h4⟩ := hr.sound ks q hks hq
    exact ⟨p, h2, h3, h4⟩
  constructor
  · rintro ⟨⟨p, h1, h2, h3⟩, h4⟩
    have hub : ∀ q, Accepting g q → labels q = x → ∃ v, score q = num v ∧ v ≤ w := by
      intro q hq hl
      obtain ⟨p', e1, e2, e3⟩ := hback q hq
      exact ⟨_, e3, h4 p' e1 (by rw [e2, hl])⟩
    refine ⟨?_, hub⟩
    obtain ⟨q, v, e1, e2, e3, e4⟩ := hr.complete p h1
    refine ⟨q, e1, by rw [e2, h2], ?_⟩
    obtain ⟨v', e5, e6⟩ := hub q e1 (by rw [e2, h2])
    have e5 := hnum (e3.symm.trans e5)
    subst e5
    rw [e3, le_antisymm e6 (by rw [← h3]; exact e4)]
  · rintro ⟨⟨q, h1, h2, h3⟩, h4⟩
    have hub : ∀ p, Accepting f p → noEps (labels p) = x → score p ≤ w := by
      intro p hp hl
      obtain ⟨q', v, e1, e2, e3, e4⟩ := hr.complete p hp
      obtain ⟨v', e5, e6⟩ := h4 q' e1 (by rw [e2, hl])
      have e5 := hnum (e3.symm.trans e5)
      subst e5
      exact le_trans e4 e6
    refine ⟨?_, hub⟩
    obtain ⟨p, e1, e2, e3⟩ := hback q h1
    exact ⟨p, e1, by rw [e2, h2], (hnum (h3.symm.trans e3)).symm⟩

end Verif.Fsa
