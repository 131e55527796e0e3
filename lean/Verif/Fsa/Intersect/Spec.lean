import Verif.Fsa.Connect.Props

/-!
# What an intersection is
-/

namespace Verif.Fsa.Isect
variable {W : Type}

/-- The arcs at the given positions. -/
def arcsAt (f : Fsa W) (js : List Nat) : List (Arc W) := js.filterMap (fun j => f.arcs[j]?)

/-- Label sequences without epsilons. -/
def noEps (l : List Int) : List Int := l.filter (fun x => x ≠ 0)

/-- The same labels: up to epsilons if they are treated specially, otherwise literally. -/
def Agree (eps : Bool) (l l' : List Int) : Prop := if eps then noEps l = noEps l' else l = l'

/-- The arcs that an arc map names along a path; -1 names none. -/
def used (m : List Int) (js : List Nat) : List Nat :=
  js.filterMap (fun j => (m[j]?).bind (fun x => if x = -1 then none else some x.toNat))

/-- What the arc maps say about one arc `z` of the result. -/
def Made [Add W] (eps : Bool) (f g : Fsa W) (z : Arc W) (a b : Int) : Prop :=
  (∃ (i j : Nat) (x y : Arc W), a = i ∧ b = j ∧ f.arcs[i]? = some x ∧ g.arcs[j]? = some y ∧
      x.label = y.label ∧ z.label = x.label ∧ z.score = x.score + y.score ∧
      (eps = true → x.label ≠ 0)) ∨
  (eps = true ∧ ∃ (i : Nat) (x : Arc W), a = i ∧ b = -1 ∧ f.arcs[i]? = some x ∧ x.label = 0 ∧
      z.label = 0 ∧ z.score = x.score) ∨
  (eps = true ∧ ∃ (j : Nat) (y : Arc W), a = -1 ∧ b = j ∧ g.arcs[j]? = some y ∧ y.label = 0 ∧
      z.label = 0 ∧ z.score = y.score)

/-- `c` with the arc maps `ma` and `mb` is the intersection of `f` and `g`. -/
structure IsIntersection [Add W] [Zero W] (eps : Bool) (f g c : Fsa W) (ma mb : List Int) : Prop where
  lenA : ma.length = c.arcs.length
  lenB : mb.length = c.arcs.length
  /-- Every arc is made from the arcs that the arc maps name. -/
  arcs : ∀ (k : Nat) (z : Arc W), c.arcs[k]? = some z →
    ∃ a b, ma[k]? = some a ∧ mb[k]? = some b ∧ Made eps f g z a b
  /-- An accepting path of `c` uses accepting paths of `f` and `g` with the same labels, and its
  score is the sum of their scores. -/
  sound : ∀ js, IAccepting c js → IAccepting f (used ma js) ∧ IAccepting g (used mb js) ∧
    Agree eps (labels (arcsAt c js)) (labels (arcsAt f (used ma js))) ∧
    Agree eps (labels (arcsAt c js)) (labels (arcsAt g (used mb js))) ∧
    score (arcsAt c js) = score (arcsAt f (used ma js)) + score (arcsAt g (used mb js))
  /-- Every two accepting paths with the same labels are used by an accepting path of `c`. -/
  complete : ∀ is js, IAccepting f is → IAccepting g js →
    Agree eps (labels (arcsAt f is)) (labels (arcsAt g js)) →
    ∃ ks, IAccepting c ks ∧ used ma ks = is ∧ used mb ks = js
  /-- A path of `c` is determined by what its arcs are made from. -/
  unique : ∀ ks ks', IAccepting c ks → IAccepting c ks' →
    ks.map (fun k => ma[k]?) = ks'.map (fun k => ma[k]?) →
    ks.map (fun k => mb[k]?) = ks'.map (fun k => mb[k]?) → ks = ks'
  valid : f.Valid → g.Valid → c.Valid

/-- `f` has an accepting path with exactly these labels, epsilons included, and this score. -/
def AcceptsLabels [Add W] [Zero W] (f : Fsa W) (l : List Int) (w : W) : Prop :=
  ∃ p, Accepting f p ∧ labels p = l ∧ score p = w

/-! ## Vectors of FSAs -/

/-- The arcs leaving each state are sorted by label read as an unsigned number. -/
def RowSorted (f : List (List (Arc W))) : Prop :=
  ∀ row ∈ f, row.Pairwise (fun x y => u32 x.label ≤ u32 y.label)

/-- The number of arcs of the FSAs before `r`. -/
def base (T : List (List (List (Arc W)))) (r : Nat) : Nat :=
  ((T.map (fun f => f.flatten.length)).take r).sum

/-- What `Intersect` needs to know about each FSA: state numbers in range, arcs sorted by label,
labels that fit into 32 bits, at least two states or none, nothing leaving the final state. -/
structure Input (f : List (List (Arc W))) : Prop where
  ok : RowsOk f
  sorted : RowSorted f
  labels : ∀ a ∈ f.flatten, Int32 a.label
  size : f.length ≠ 1
  final : ∀ a ∈ f.flatten, a.src ≠ f.length - 1

/-- An arc map that counts the arcs from the beginning of the vector. -/
def shiftMap (b : Nat) (m : List Int) : List Int := m.map (fun x => if x ≠ -1 then x + b else x)

/-- The arc maps of all FSAs. -/
def joinShift (bs : List Nat) (ms : List (List Int)) : List Int :=
  (List.zipWith shiftMap bs ms).flatten

/-- Which FSA of a vector is used: vectors with one FSA are broadcast. -/
def pick (T : List (List (List (Arc W)))) (i : Nat) : Nat := if T.length = 1 then 0 else i

end Verif.Fsa.Isect
