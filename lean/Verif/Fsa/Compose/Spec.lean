import Verif.Fsa.Intersect.Spec

/-!
# What a composition is
-/

namespace Verif.Fsa.Comp
open Verif.Fsa Verif.Fsa.Isect
variable {W : Type}

/-- The output label of an arc: -1 exactly on arcs that enter the final state, elsewhere -1 counts as
epsilon. -/
def outLabel (f : Fsa W) (a : Arc W) (x : Int) : Int :=
  if a.dst = f.final then -1 else if x = -1 then 0 else x

/-- The output labels along a path. -/
def outs (f : Fsa W) (fa : List Int) (js : List Nat) : List Int :=
  js.filterMap (fun j => (f.arcs[j]?).bind (fun a => (fa[j]?).map (outLabel f a)))

/-- The values of an attribute along a path. -/
def along (l : List Int) (js : List Nat) : List Int := js.filterMap (fun j => l[j]?)

/-- How one arc `z` of the result with the aux label `o` and the inner label `n` is made from the arcs at `a`
and `b`; -1 stands for none. -/
def Composed [Add W] (eps : Bool) (f : Fsa W) (fa : List Int) (g : Fsa W) (gb : List Int) (z : Arc W) (o n a b : Int) : Prop :=
  (∃ (i j : Nat) (x y : Arc W) (u v : Int), a = i ∧ b = j ∧ f.arcs[i]? = some x ∧ fa[i]? = some u ∧ g.arcs[j]? = some y ∧
      gb[j]? = some v ∧ outLabel f x u = y.label ∧ z.label = x.label ∧ o = v ∧ n = y.label ∧
      z.score = x.score + y.score ∧ (eps = true → y.label ≠ 0)) ∨
  (eps = true ∧ ∃ (i : Nat) (x : Arc W) (u : Int), a = i ∧ b = -1 ∧ f.arcs[i]? = some x ∧ fa[i]? = some u ∧
      outLabel f x u = 0 ∧ z.label = x.label ∧ o = 0 ∧ n = 0 ∧ z.score = x.score) ∨
  (eps = true ∧ ∃ (j : Nat) (y : Arc W) (v : Int), a = -1 ∧ b = j ∧ g.arcs[j]? = some y ∧ gb[j]? = some v ∧ y.label = 0 ∧
      z.label = 0 ∧ o = v ∧ n = 0 ∧ z.score = y.score)

/-- `c` with the aux labels `ca`, the inner labels `ci` and the arc maps `ma`, `mb` is the composition of `f` with
the aux labels `fa` and `g` with the aux labels `gb`. -/
structure IsComposition [Add W] [Zero W] (eps : Bool) (f : Fsa W) (fa : List Int) (g : Fsa W) (gb : List Int)
    (c : Fsa W) (ca ci ma mb : List Int) : Prop where
  lenA : ma.length = c.arcs.length
  lenB : mb.length = c.arcs.length
  lenAux : ca.length = c.arcs.length
  lenInner : ci.length = c.arcs.length
  arcs : ∀ (k : Nat) (z : Arc W), c.arcs[k]? = some z →
    ∃ a b o n, ma[k]? = some a ∧ mb[k]? = some b ∧ ca[k]? = some o ∧ ci[k]? = some n ∧ Composed eps f fa g gb z o n a b
  /-- An accepting path uses accepting paths of `f` and `g`, the output of the first is the input of the second.
  It has the input of the first, the output of the second, and the sum of the scores. -/
  sound : ∀ js, IAccepting c js → IAccepting f (used ma js) ∧ IAccepting g (used mb js) ∧
    Agree eps (outs f fa (used ma js)) (labels (arcsAt g (used mb js))) ∧
    Agree eps (labels (arcsAt c js)) (labels (arcsAt f (used ma js))) ∧
    Agree eps (along ca js) (along gb (used mb js)) ∧
    Agree eps (along ci js) (labels (arcsAt g (used mb js))) ∧
    score (arcsAt c js) = score (arcsAt f (used ma js)) + score (arcsAt g (used mb js))
  /-- Every two accepting paths that match are used by an accepting path of `c`. -/
  complete : ∀ is js, IAccepting f is → IAccepting g js → Agree eps (outs f fa is) (labels (arcsAt g js)) →
    ∃ ks, IAccepting c ks ∧ used ma ks = is ∧ used mb ks = js
  /-- A path of `c` is determined by what its arcs are made from. -/
  unique : ∀ ks ks', IAccepting c ks → IAccepting c ks' →
    ks.map (fun k => ma[k]?) = ks'.map (fun k => ma[k]?) →
    ks.map (fun k => mb[k]?) = ks'.map (fun k => mb[k]?) → ks = ks'
  valid : f.Valid → g.Valid → c.Valid

/-- The transducer maps the string `x` to the string `y` with score `w`. -/
def Relates [Add W] [Zero W] (f : Fsa W) (fa : List Int) (x y : List Int) (w : W) : Prop :=
  ∃ js, IAccepting f js ∧ strip (labels (arcsAt f js)) = x ∧ strip (along fa js) = y ∧ score (arcsAt f js) = w

end Verif.Fsa.Comp
