import Verif.Fsa.Core
import Verif.Util.MapM

/-!
# Single-FSA algorithms applied to an FsaVec one FSA at a time

`k2/csrc/fsa_algo.cu`: the two `RecursionWrapper`s (lines 47-71 and 222-245) and the branch of
`Determinize` for three axes (lines 314-344).

* An `FsaVec` is the list of its FSAs; `src.Index(0, i)` is entry `i`, and `Stack(0, ..)`
  of the results is the list of the results (`Verif.Ragged.stack_axis0` is the theorem about the
  array layout).  `idx012` of an arc is its position in the concatenation of the arcs.
* The single-FSA algorithm is a parameter; `none` is "the check failed / undefined".
* Arc maps are lists, arc derivatives (`Ragged<int32_t>` with two axes) are lists of lists, and
  `Cat(0, ..)` is concatenation (`Verif.Ragged.cat_axis0`).
-/

namespace Verif.Fsa.Det

variable {W : Type}

/-- The result of one run: the output FSA and one list of arc indexes per output arc. -/
abbrev Run (W : Type) := Fsa W × List (List Nat)

/-- `Plus(values, t)` (`array_ops_inl.h` 810-820) on the values of a ragged array. -/
def plus (t : Nat) (d : List (List Nat)) : List (List Nat) := d.map (·.map (t + ·))

/-- The loop of `RecursionWrapper` for arc derivatives, `fsa_algo.cu` 233-243: run `f`, add the
number of arcs of the FSAs seen so far, go on.  `tot` is `tot_num_arcs`. -/
def wrapLoop (f : Fsa W → Option (Run W)) : Nat → List (Fsa W) → Option (List (Run W))
  | _, [] => some []
  | tot, s :: ss =>
    match f s with
    | none => none
    | some r =>
      match wrapLoop f (tot + s.arcs.length) ss with
      | none => none
      | some rs => some ((r.1, plus tot r.2) :: rs)

/-- `RecursionWrapper` with `arc_deriv != nullptr`, `fsa_algo.cu` 222-245. -/
def recursionWrapper (f : Fsa W → Option (Run W)) (srcs : List (Fsa W)) :
    Option (List (Fsa W) × List (List Nat)) :=
  match wrapLoop f 0 srcs with
  | none => none
  | some rs => some (rs.map Prod.fst, (rs.map Prod.snd).flatten)

/-- The loop of `RecursionWrapper` for arc maps, `fsa_algo.cu` 55-66. -/
def wrapMapLoop (f : Fsa W → Option (Fsa W × List Nat)) :
    Nat → List (Fsa W) → Option (List (Fsa W × List Nat))
  | _, [] => some []
  | tot, s :: ss =>
    match f s with
    | none => none
    | some r =>
      match wrapMapLoop f (tot + s.arcs.length) ss with
      | none => none
      | some rs => some ((r.1, r.2.map (tot + ·)) :: rs)

/-- `RecursionWrapper` with `arc_map != nullptr`, `fsa_algo.cu` 47-71 (used by `ConnectHost` and
`TopSortHost`). -/
def recursionWrapperMap (f : Fsa W → Option (Fsa W × List Nat)) (srcs : List (Fsa W)) :
    Option (List (Fsa W) × List Nat) :=
  match wrapMapLoop f 0 srcs with
  | none => none
  | some rs => some (rs.map Prod.fst, (rs.map Prod.snd).flatten)

/-- A `Ragged<int32_t>` object in memory: `none` when default-constructed, so that its `values`
array has no region and `Context()` dereferences a null pointer (`array.h` 129-132, 348). -/
abbrev Obj := Option (List (List Nat))

/-- The loop of `Determinize` on an `FsaVec`, `fsa_algo.cu` 327-340.  `mem` is the memory that
starts at the caller's pointer `arc_derivs`; line 335 takes `arc_derivs[i].values`, that is,
object `i` of that memory, and line 336 replaces it by `Plus(values, tot_num_arcs)`.  Undefined
when there is no object `i`, or when that object was default-constructed. -/
def detLoop (det : Fsa W → Option (Run W)) :
    Nat → Nat → List Obj → List (Fsa W) → Option (List (Run W) × List Obj)
  | _, _, mem, [] => some ([], mem)
  | i, tot, mem, s :: ss =>
    match det s with
    | none => none
    | some r =>
      match mem[i]? with
      | none => none
      | some none => none
      | some (some v) =>
        match detLoop det (i + 1) (tot + s.arcs.length) (mem.set i (some (plus tot v))) ss with
        | none => none
        | some (rs, m) => some (r :: rs, m)

/-- `Determinize` on an `FsaVec` with `arc_derivs != nullptr`, `fsa_algo.cu` 320-344: the FSAs
of `*dest`, and the memory at `arc_derivs` afterwards.  Line 342 assigns to `*arc_derivs`, which
is object 0. -/
def determinizeVec (det : Fsa W → Option (Run W)) (mem : List Obj) (srcs : List (Fsa W)) :
    Option (List (Fsa W) × List Obj) :=
  match detLoop det 0 0 mem srcs with
  | none => none
  | some (rs, m) => some (rs.map Prod.fst, m.set 0 (some (rs.map Prod.snd).flatten))

/-- `Determinize` on an `FsaVec` with `arc_derivs == nullptr`, `fsa_algo.cu` 320-344. -/
def determinizeVecNoDerivs (det : Fsa W → Option (Run W)) (srcs : List (Fsa W)) :
    Option (List (Fsa W)) :=
  srcs.mapM fun s => (det s).map Prod.fst

/-- `determinize` of the python extension, `k2/python/csrc/torch/fsa_algo.cu` 401-411, on an
`FsaVec`: `arc_map` is one default-constructed object. -/
def pyDeterminizeVec (det : Fsa W → Option (Run W)) (srcs : List (Fsa W)) :
    Option (List (Fsa W) × List Obj) :=
  determinizeVec det [none] srcs

end Verif.Fsa.Det
