import Verif.Nbest.StatsModel
import Mathlib.Algebra.Group.Nat.Defs

/-!
# What `GetBestMatchingStats` returns, in terms of histories
-/

namespace Verif.Nbest

/-- The length of the common prefix of two lists. -/
def lcpLen {α : Type} [DecidableEq α] : List α → List α → Nat
  | a :: as, b :: bs => if a = b then lcpLen as bs + 1 else 0
  | _, _ => 0

/-- A token and what is before it, the last first, with eos before everything. -/
def hist (w : List Int) (eos : Int) (i : Nat) : List Int := (eos :: w.take (i + 1)).reverse

/-- The length of the longest match of the position `i` with a key. -/
def best (w : List Int) (eos : Int) (counts : List Nat) (i : Nat) : Nat :=
  (((List.range w.length).filter (fun j => counts.getD j 0 ≠ 0)).map
    (fun j => lcpLen (hist w eos i) (hist w eos j))).foldr max 0

/-- The positions that match that long. -/
def matching (w : List Int) (eos : Int) (counts : List Nat) (i : Nat) : List Nat :=
  (List.range w.length).filter (fun j => best w eos counts i ≤ lcpLen (hist w eos i) (hist w eos j))

/-- The number of the token in its sentence, from one on. -/
def toBegin : List (List Int) → Nat → Nat
  | [], _ => 0
  | r :: rs, i => if i < r.length then i + 1 else toBegin rs (i - r.length)

variable {K : Type} [Field K]

/-- The total over the positions that match. -/
def total {M : Type} [AddCommMonoid M] (v : List M) (js : List Nat) : M := (js.map (fun j => v.getD j 0)).sum

/-- The mean returned for `i`. -/
def meanAt (w : List Int) (eos : Int) (counts : List Nat) (scores : List K) (i : Nat) : K :=
  if total counts (matching w eos counts i) = 0 then 0
  else total scores (matching w eos counts i) / (total counts (matching w eos counts i) : Nat)

/-- The variance returned for `i`. -/
def varAt (w : List Int) (eos : Int) (counts : List Nat) (scores : List K) (i : Nat) : K :=
  if total counts (matching w eos counts i) ≤ 1 then 0
  else (total (scores.map (fun v => v * v)) (matching w eos counts i)
      - 2 * meanAt w eos counts scores i * total scores (matching w eos counts i)
      + (total counts (matching w eos counts i) : Nat) * meanAt w eos counts scores i * meanAt w eos counts scores i)
    / (total counts (matching w eos counts i) : Nat)

/-- What is returned for `i`; `cap` is `max_order` in the type `T`. -/
def specAt (cap : Int) (tokens : List (List Int)) (scores : List K) (counts : List Nat) (eos maxOrder : Int) (i : Nat) :
    Stat K :=
  let w := tokens.flatten
  let l := best w eos counts i
  { mean := meanAt w eos counts scores i
    var := varAt w eos counts scores i
    count := if l = 0 then 0 else total counts (matching w eos counts i)
    order := if l = 0 then 0 else if toBegin tokens i ≤ l then maxOrder else min (l : Int) cap }

end Verif.Nbest
