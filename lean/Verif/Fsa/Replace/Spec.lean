import Mathlib.Algebra.Group.Defs
import Verif.Fsa.Core
import Verif.Fsa.RmEps.Spec

/-!
# Substitution of FSAs for labels
-/

namespace Verif.Fsa
variable {W : Type}

/-- The number of arcs of the FSAs before number `i`. -/
def arcsBefore (src : List (Fsa W)) (i : Nat) : Nat := ((src.take i).map fun g => g.arcs.length).sum

/-- A way of substituting paths of `src` for the labels `b`, `b + 1`, ... of a path of `f`:
`Subst src b f is ss ls w` says that `is` are arc positions in `f`, `ss` are the arcs in `src` that are
put in (one accepting path for each label that is replaced), `ls` are the labels and `w` the total
score. -/
inductive Subst [Add W] [Zero W] (src : List (Fsa W)) (b : Int) (f : Fsa W) :
    List Nat → List Nat → List Int → W → Prop where
  | nil : Subst src b f [] [] [] 0
  | copy {k : Nat} {a : Arc W} {is ss : List Nat} {ls : List Int} {w : W} :
      f.arcs[k]? = some a → (a.label < b ∨ b + src.length ≤ a.label) → Subst src b f is ss ls w →
      Subst src b f (k :: is) ss (a.label :: ls) (a.score + w)
  | replace {k i : Nat} {a : Arc W} {g : Fsa W} {js is ss : List Nat} {q : List (Arc W)} {x ls : List Int}
      {w : W} :
      f.arcs[k]? = some a → a.label = b + i → src[i]? = some g →
      js.map (fun j => g.arcs[j]?) = q.map some → Accepting g q → labels q = x ++ [-1] →
      Subst src b f is ss ls w →
      Subst src b f (k :: is) (js.map (fun j => arcsBefore src i + j) ++ ss) (x ++ ls)
        (a.score + (score q + w))

/-- The entries of an arc map at the positions `ks`, without the entries -1. -/
def mapped (m : List Int) (ks : List Nat) : List Nat :=
  ks.filterMap fun k =>
    match m[k]? with
    | some x => if x = -1 then none else some x.toNat
    | none => none

/-- `g`, with the arc maps `msrc` and `mindex`, is `f` with the labels `b`, `b + 1`, ... replaced by
the FSAs of `src`; `o` is the index of the first arc of `f` in the arc map. -/
structure IsReplacement [Add W] [Zero W] (src : List (Fsa W)) (b : Int) (o : Nat) (f g : Fsa W)
    (msrc mindex : List Int) : Prop where
  valid : g.Valid
  length_src : msrc.length = g.arcs.length
  length_index : mindex.length = g.arcs.length
  /-- An accepting path of the result is a substitution in the accepting path of `f` that the arc map
  names. -/
  sound : ∀ (ks : List Nat) (q : List (Arc W)), ks.map (fun k => g.arcs[k]?) = q.map some →
    Accepting g q →
    ∃ is p ls, mapped mindex ks = is.map (fun k => o + k) ∧
      is.map (fun k => f.arcs[k]?) = p.map some ∧ Accepting f p ∧
      Subst src b f is (mapped msrc ks) ls (score q) ∧ noEps (labels q) = noEps ls
  /-- Every substitution in an accepting path of `f` is exactly one accepting path of the result. -/
  complete : ∀ (is ss : List Nat) (p : List (Arc W)) (ls : List Int) (w : W),
    is.map (fun k => f.arcs[k]?) = p.map some → Accepting f p → Subst src b f is ss ls w →
    ∃ ks, (mapped mindex ks = is.map (fun k => o + k) ∧ mapped msrc ks = ss ∧
        ∃ q, ks.map (fun k => g.arcs[k]?) = q.map some ∧ Accepting g q ∧ score q = w ∧
          noEps (labels q) = noEps ls) ∧
      ∀ ks', mapped mindex ks' = is.map (fun k => o + k) → mapped msrc ks' = ss →
        (∃ q, ks'.map (fun k => g.arcs[k]?) = q.map some ∧ Accepting g q) → ks' = ks

end Verif.Fsa
