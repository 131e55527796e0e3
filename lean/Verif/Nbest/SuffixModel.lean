import Mathlib.Data.List.Basic

/-!
# `CreateSuffixArray` (k2/csrc/nbest.cu)

Numbers of type `T` are natural numbers: they do not overflow, and where the code has -1 for "nothing"
there is an `Option`.  `none` stands for an access outside an array.  An array that the code fills from
arbitrary contents has zeros here before.
-/

namespace Verif.Nbest

/-- `b[i] = v`. -/
def write {α : Type} (b : List α) (i : Nat) (v : α) : Option (List α) := if i < b.length then some (b.set i v) else none

/-- A loop of writes. -/
def writeAll {α : Type} (b : List α) : List (Nat × α) → Option (List α)
  | [] => some b
  | w :: ws => (write b w.1 w.2).bind (fun b => writeAll b ws)

/-- `for (i < n) c[r[a[i]]]++`, line 51; `off` is added to the pointer `r`. -/
def countKeys (r : List Nat) (off : Nat) : List Nat → List Nat → Option (List Nat)
  | [], c => some c
  | x :: a, c => do
    let k ← r[x + off]?
    let m ← c[k]?
    countKeys r off a (c.set k (m + 1))

/-- Lines 52-54, from the sum `s`. -/
def exclusiveSum : Nat → List Nat → List Nat
  | _, [] => []
  | s, t :: c => s :: exclusiveSum (s + t) c

/-- `for (i < n) b[c[r[a[i]]]++] = a[i]`, line 55. -/
def place (r : List Nat) (off : Nat) : List Nat → List Nat → List Nat → Option (List Nat)
  | [], _, b => some b
  | x :: a, c, b => do
    let k ← r[x + off]?
    let m ← c[k]?
    let b ← write b m x
    place r off a (c.set k (m + 1)) b

/-- `RadixPass(a, b, r + off, a.length, K)`, lines 48-56. -/
def radixPass (a r : List Nat) (off K : Nat) : Option (List Nat) := do
  let c ← countKeys r off a (List.replicate (K + 1) 0)
  place r off a (exclusiveSum 0 c) (List.replicate a.length 0)

/-- The loop that names triples, lines 90-101. -/
def nameLoop (text : List Nat) (n0 : Nat) : List Nat → Nat → Option (Nat × Nat × Nat) → List Nat →
    Option (Nat × List Nat)
  | [], name, _, R => some (name, R)
  | s :: l, name, last, R => do
    let x0 ← text[s]?
    let x1 ← text[s + 1]?
    let x2 ← text[s + 2]?
    let name' := if last = some (x0, x1, x2) then name else name + 1
    let R ← write R (if s % 3 = 1 then s / 3 else s / 3 + n0) name'
    nameLoop text n0 l name' (some (x0, x1, x2)) R

/-- The position in the text of element `s` of the sample. -/
def samplePos (n0 s : Nat) : Nat := if s < n0 then s * 3 + 1 else (s - n0) * 3 + 2

/-- `Leq` of pairs, lines 30-34. -/
def leq2 (a1 a2 b1 b2 : Nat) : Bool := a1 < b1 || (a1 = b1 && a2 ≤ b2)

/-- `Leq` of triples, lines 35-39. -/
def leq3 (a1 a2 a3 b1 b2 b3 : Nat) : Bool := a1 < b1 || (a1 = b1 && leq2 a2 a3 b2 b3)

/-- The comparison of the merge, lines 121-124, of element `s` of the sample and position `j`. -/
def sampleLeq (text R : List Nat) (n0 s j : Nat) : Option Bool := do
  let i := samplePos n0 s
  let xi ← text[i]?
  let xj ← text[j]?
  if s < n0 then do
    let ri ← R[s + n0]?
    let rj ← R[j / 3]?
    some (leq2 xi ri xj rj)
  else do
    let xi' ← text[i + 1]?
    let ri ← R[s - n0 + 1]?
    let xj' ← text[j + 1]?
    let rj ← R[j / 3 + n0]?
    some (leq3 xi xi' ri xj xj' rj)

/-- The merge, lines 115-134, of what is left of `SA12` and `SA0`. -/
def merge (text R : List Nat) (n0 : Nat) : List Nat → List Nat → Option (List Nat)
  | [], l0 => some l0
  | s :: l12, [] => some ((s :: l12).map (samplePos n0))
  | s :: l12, j :: l0 => do
    let le ← sampleLeq text R n0 s j
    if le then do
      let rest ← merge text R n0 l12 (j :: l0)
      some (samplePos n0 s :: rest)
    else do
      let rest ← merge text R n0 (s :: l12) l0
      some (j :: rest)
termination_by l12 l0 => l12.length + l0.length

/-- `CreateSuffixArray`, lines 61-135. -/
def createSuffixArray (text : List Nat) (n K : Nat) : Option (List Nat) :=
  if n = 1 then some [0] else do
    let n0 := (n + 2) / 3
    let n1 := (n + 1) / 3
    let n02 := n0 + n / 3
    let R := (List.range (n + (n0 - n1))).filter (fun i => i % 3 ≠ 0)
    let sa ← radixPass R text 2 K
    let R ← radixPass sa text 1 K
    let sa ← radixPass R text 0 K
    let (name, R) ← nameLoop text n0 sa 0 none (R ++ [0, 0, 0])
    let (sa, R) ← if h : name < n02 then do
        let sa ← createSuffixArray R n02 name
        let R ← writeAll R (sa.zipIdx.map (fun x => (x.1, x.2 + 1)))
        some (sa, R)
      else do
        let sa ← writeAll sa ((R.take n02).zipIdx.map (fun x => (x.1 - 1, x.2)))
        some (sa, R)
    let R0 := (sa.filter (fun s => s < n0)).map (fun s => 3 * s)
    let sa0 ← radixPass R0 text 0 K
    merge text R n0 (sa.drop (n0 - n1)) sa0
termination_by n
decreasing_by omega

end Verif.Nbest
