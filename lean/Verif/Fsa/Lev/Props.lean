import Verif.Fsa.Lev.Paths
import Mathlib.Tactic.NormNum

/-!
# C25: Levenshtein graphs and edit distance

`levenshtein_alignment` (k2/python/k2/fsa_algo.py 1378-1453) intersects two Levenshtein graphs on
literally equal labels, drops the idle steps (pairs of self-loops), takes a best path and subtracts
the score offsets.  A path of the lattice is a pair of accepting paths with equal labels.
-/

namespace Verif.Fsa.Lev
open Verif.Fsa Verif.Lev

/-- A path of the lattice of two graphs. -/
def LatticePath (g h : Fsa Tag) (p q : List (Arc Tag)) : Prop :=
  Accepting g p ∧ Accepting h q ∧ labels p = labels q

/-- Score of a path of the lattice, and the score after the offsets have been subtracted. -/
def pairScore (p q : List (Arc Tag)) : ℚ := sc p + sc q
def adjusted (p q : List (Arc Tag)) : ℚ := (sc p + sc q) - (off p + off q)

/-- The call fails exactly if 0 or -1 is among the symbols. -/
theorem levenshteinGraph_defined (s : ℚ) (xs : List Int) :
    (levenshteinGraph s xs).isSome ↔ (0 : Int) ∉ xs ∧ (-1 : Int) ∉ xs := by
  unfold levenshteinGraph
  split
  · rename_i h; simp; tauto
  · rename_i h; simp; tauto

theorem graph_some {s : ℚ} {xs : List Int} {g : Fsa Tag} (h : levenshteinGraph s xs = some g) :
    (0 : Int) ∉ xs ∧ (-1 : Int) ∉ xs ∧ g = ⟨xs.length + 2, levArcs s xs⟩ := by
  unfold levenshteinGraph at h
  split at h
  · simp at h
  · rename_i hn
    exact ⟨fun h => hn (Or.inl h), fun h => hn (Or.inr h), (Option.some.inj h).symm⟩

theorem latticePath_iff {s : ℚ} {xs ys : List Int} {g h : Fsa Tag}
    (hg : levenshteinGraph s xs = some g) (hh : levenshteinGraph s ys = some h)
    (p q : List (Arc Tag)) : LatticePath g h p q ↔ Joint s xs ys 0 0 p q := by
  obtain ⟨_, _, rfl⟩ := graph_some hg
  obtain ⟨_, _, rfl⟩ := graph_some hh
  unfold LatticePath Accepting Joint Fsa.final
  simp

/-- Every path of the lattice shows an alignment of reference and hypothesis, apart from `k` idle
steps; its adjusted score is minus the number of edits, minus one per idle step. -/
theorem lattice_sound (s : ℚ) (xs ys : List Int) (g h : Fsa Tag)
    (hg : levenshteinGraph s xs = some g) (hh : levenshteinGraph s ys = some h)
    (p q : List (Arc Tag)) (hp : LatticePath g h p q) :
    ∃ (l : List Op) (k : Nat), Aligns l xs ys ∧
      (shown p q).filter (· ≠ idle) = l.map Op.shown ++ [(-1, -1, -1)] ∧
      (shown p q).count idle = k ∧
      pairScore p q = -(edits l : ℚ) + (gaps l : ℚ) * (s + 1/2) + (k : ℚ) * (2 * s) ∧
      adjusted p q = -(edits l : ℚ) - k := by
  rw [latticePath_iff hg hh] at hp
  obtain ⟨x0, x1, _⟩ := graph_some hg
  obtain ⟨y0, y1, _⟩ := graph_some hh
  obtain ⟨l, k, e1, e2, e3, e4, e5⟩ := joint_sound s xs ys x0 x1 y0 y1 p q 0 0 (Nat.zero_le _)
    (Nat.zero_le _) hp
  refine ⟨l, k, by simpa using e1, e4, e5, e2, ?_⟩
  unfold adjusted
  rw [e2, e3]
  unfold rawScore
  ring

/-- Every alignment is shown by a path of the lattice without idle steps, and its adjusted score
is minus the number of edits. -/
theorem lattice_complete (s : ℚ) (xs ys : List Int) (g h : Fsa Tag)
    (hg : levenshteinGraph s xs = some g) (hh : levenshteinGraph s ys = some h)
    (l : List Op) (hl : Aligns l xs ys) :
    ∃ p q, LatticePath g h p q ∧ shown p q = l.map Op.shown ++ [(-1, -1, -1)] ∧
      pairScore p q = -(edits l : ℚ) + (gaps l : ℚ) * (s + 1/2) ∧
      adjusted p q = -(edits l : ℚ) := by
  obtain ⟨p, q, e1, e2, e3, e4⟩ := joint_complete s xs ys l 0 0 (Nat.zero_le _)
    (Nat.zero_le _) (by simpa using hl)
  refine ⟨p, q, (latticePath_iff hg hh p q).mpr e1, e4, e2, ?_⟩
  unfold adjusted
  rw [e2, e3]
  unfold rawScore
  ring

/-- `p, q` is a best path of the lattice. -/
def Best (g h : Fsa Tag) (p q : List (Arc Tag)) : Prop :=
  LatticePath g h p q ∧ ∀ p' q', LatticePath g h p' q' → pairScore p' q' ≤ pairScore p q

/-- A best path belongs to an alignment of maximal raw score and has no idle steps. -/
theorem best_alignment (s : ℚ) (hs : s ≤ -1/2) (xs ys : List Int) (g h : Fsa Tag)
    (hg : levenshteinGraph s xs = some g) (hh : levenshteinGraph s ys = some h)
    (p q : List (Arc Tag)) (hb : Best g h p q) :
    ∃ l, Aligns l xs ys ∧ adjusted p q = -(edits l : ℚ) ∧
      ∀ l', Aligns l' xs ys → rawScore s l' ≤ rawScore s l := by
  obtain ⟨l, k, e1, _, _, e4, e5⟩ := lattice_sound s xs ys g h hg hh p q hb.1
  have hk : k = 0 := by
    obtain ⟨p', q', f1, _, f3, _⟩ := lattice_complete s xs ys g h hg hh l e1
    have := hb.2 p' q' f1
    rw [e4, f3] at this
    by_contra hk
    have h1 : (1 : ℚ) ≤ (k : ℚ) := by exact_mod_cast Nat.one_le_iff_ne_zero.mpr hk
    nlinarith
  subst hk
  refine ⟨l, e1, by rw [e5]; simp, ?_⟩
  intro l' hl'
  obtain ⟨p', q', f1, _, f3, _⟩ := lattice_complete s xs ys g h hg hh l' hl'
  have := hb.2 p' q' f1
  rw [e4, f3] at this
  unfold rawScore
  simpa using this

/-- The adjusted score of a best path is minus the edit distance, provided the extra penalty of
insertions and deletions cannot add up to a whole edit.  Missing for the full claim: sequences that
are longer than this; see `levenshtein_not_distance`. -/
theorem levenshtein_distance_partial (s : ℚ) (hs : s ≤ -1/2) (xs ys : List Int)
    (hshort : (-1/2 - s) * ((xs.length : ℚ) + ys.length) < 1) (g h : Fsa Tag)
    (hg : levenshteinGraph s xs = some g) (hh : levenshteinGraph s ys = some h)
    (p q : List (Arc Tag)) (hb : Best g h p q) :
    adjusted p q = -(editDistance xs ys : ℚ) := by
  obtain ⟨l, ⟨e1, e2⟩, e3, e4⟩ := best_alignment s hs xs ys g h hg hh p q hb
  obtain ⟨l', ⟨f1, f2⟩, f3⟩ := editDistance_attained _ xs ys (Nat.le_refl _)
  have h1 := e4 l' ⟨f1, f2⟩
  have h2 := gaps_le l'
  rw [f1, f2] at h2
  have h3 := editDistance_le l
  rw [e1, e2] at h3
  have h4 : (edits l : ℚ) < (edits l' : ℚ) + 1 := by
    unfold rawScore at h1
    have hg1 : (gaps l' : ℚ) ≤ (xs.length : ℚ) + ys.length := by exact_mod_cast h2
    have hg2 : (0 : ℚ) ≤ (gaps l : ℚ) := by positivity
    nlinarith
  have h5 : edits l < edits l' + 1 := by exact_mod_cast h4
  rw [e3]
  congr 2
  omega

end Verif.Fsa.Lev
