import Verif.Fsa.Core
import Verif.Util.Stream

/-!
# Text formats of FSAs: `FsaToString` and the reader of the k2 format

Modelled code: `k2/csrc/fsa_utils.cu` 70-205 (`K2FsaFromStream`) and 569-648 (`FsaToString`).

* The text of a score and the conversion of a decimal to a score are parameters (`Codec`): nothing is
  assumed about the rounding that both do.
* `K2_LOG(FATAL)` and failed checks are `none`.  After a failed extraction every way through the code
  ends in `K2_LOG(FATAL)` (line 155), so a failed extraction is `none` as well.
* `std::getline` leaves out the empty piece after the last newline; here it is a blank line, which both
  readers ignore.
* Line 146 skips white space on a stream that may be at its end.  With the resolution of LWG 415
  (implemented by newer libraries) this sets `failbit`; `wsFails` says whether it does.
* An array of `num_aux_labels` arrays, indexed `[label][arc]`, is a list of lists, and a ragged array is
  a list of lists.
-/

namespace Verif.Fsa.Txt
open Verif.Util.Stream Verif.Text
variable {W : Type}

/-- How scores are printed and read. -/
structure Codec (W : Type) where
  /-- `os << score` -/
  pr : W → List Char
  /-- the score nearest to `m * 10^e` -/
  conv : Int → Int → W
  neg : W → W

/-! ## Printing -/

/-- `os << aux_labels_data[i][a] << sep` for all `i`, fsa_utils.cu 622-623. -/
def printAux (aux : List (List Int)) (a : Nat) : List Char :=
  aux.flatMap fun x => showInt (x.getD a 0) ++ [' ']

/-- fsa_utils.cu 624-630. -/
def printRagged (rag : List (List (List Int))) (a : Nat) : List Char :=
  rag.flatMap fun x =>
    ['[', ' '] ++ ((x.getD a []).flatMap fun z => showInt z ++ [' ']) ++ [']', ' ']

/-- The line of an arc, fsa_utils.cu 615-633. -/
def printArc (c : Codec W) (openfst : Bool) (aux : List (List Int)) (rag : List (List (List Int)))
    (a : Nat) (arc : Arc W) : List Char :=
  (if openfst && arc.label == -1 then showInt arc.src ++ [' ']
   else showInt arc.src ++ [' '] ++ showInt arc.dst ++ [' '] ++ showInt arc.label ++ [' '] ++
     printAux aux a ++ printRagged rag a) ++
  c.pr (if openfst then c.neg arc.score else arc.score)

/-- `FsaToString`, fsa_utils.cu 569-648. -/
def fsaToString (c : Codec W) (openfst : Bool) (f : Fsa W) (aux : List (List Int))
    (rag : List (List (List Int))) : Option (List Char) :=
  if aux.length ≤ 10 ∧ (∀ x ∈ aux, x.length = f.arcs.length) ∧
      rag.length ≤ 10 ∧ (∀ x ∈ rag, x.length = f.arcs.length) then
    some ((f.arcs.mapIdx fun a arc => printArc c openfst aux rag a arc ++ ['\n']).flatten ++
      (if !f.arcs.isEmpty && !openfst then showInt ((f.numStates : Int) - 1) ++ ['\n'] else []))
  else none

/-! ## Reading the k2 format -/

/-- The auxiliary labels of a line, fsa_utils.cu 117-125. -/
def readAux : Nat → List Char → Option (List Int × List Char)
  | 0, l => some ([], l)
  | n + 1, l => do
    let x ← readReal l
    let z ← realToInt x.1
    let r ← readAux n x.2
    some (z :: r.1, r.2)

/-- The loop of lines 134-138 and the extraction of the closing bracket (line 139): `fuel` bounds the
number of labels. -/
def ragLoop : Nat → List Char → Option (List Int × List Char)
  | _, ']' :: t => some ([], t)
  | 0, _ => none
  | fuel + 1, l => do
    let x ← readInt l
    let r ← ragLoop fuel x.2
    some (x.1 :: r.1, r.2)

/-- One ragged label, fsa_utils.cu 127-139. -/
def readRagged (l : List Char) : Option (List Int × List Char) :=
  match skip l with
  | '[' :: t => ragLoop t.length (skip t)
  | _ => none

def readRags : Nat → List Char → Option (List (List Int) × List Char)
  | 0, l => some ([], l)
  | n + 1, l => do
    let x ← readRagged l
    let r ← readRags n x.2
    some (x.1 :: r.1, r.2)

/-- A line of the file. -/
inductive Line (W : Type) where
  | blank
  | final (s : Int)
  | arc (src dst label : Int) (aux : List Int) (rag : List (List Int)) (score : W)
  deriving DecidableEq

/-- The end of the line of an arc: the optional score, fsa_utils.cu 142-153. -/
def readScore (c : Codec W) (wsFails : Bool) (nr : Nat) (l : List Char) : Option W :=
  if l.isEmpty && nr == 0 && wsFails then none
  else if (skip l).isEmpty then some (c.conv 0 0)
  else do
    let x ← readReal (skip l)
    if (skip x.2).isEmpty then some (c.conv x.1.1 x.1.2) else none

/-- The line of an arc after the source state, fsa_utils.cu 109-153. -/
def parseArc (c : Codec W) (wsFails : Bool) (na nr : Nat) (src : Int) (l : List Char) :
    Option (Line W) := do
  let dst ← readInt l
  let label ← readInt dst.2
  if src < 0 ∨ dst.1 < 0 then none
  else
    let aux ← readAux na label.2
    let rag ← readRags nr aux.2
    let score ← readScore c wsFails nr rag.2
    some (.arc src dst.1 label.1 aux.1 rag.1 score)

/-- A line, fsa_utils.cu 91-153. -/
def parseLine (c : Codec W) (wsFails : Bool) (na nr : Nat) (line : List Char) : Option (Line W) :=
  if (skip line).isEmpty then some .blank
  else do
    let src ← readInt (skip line)
    if (skip src.2).isEmpty then (if src.1 < 0 then none else some (.final src.1))
    else parseArc c wsFails na nr src.1 (skip src.2)

/-- The variables of the reader, fsa_utils.cu 78-90. -/
structure St (W : Type) where
  rowSplits : List Nat
  arcs : List (Arc W)
  aux : List Int
  rag : List (List (List Int))
  max : Int
  final : Int

def startSt : St W := ⟨[], [], [], [], -1, -1⟩

/-- `while (fsa_row_splits.size() < n) fsa_row_splits.push_back(arcs.size())`. -/
def pad (rs : List Nat) (n k : Nat) : List Nat := rs ++ List.replicate (n - rs.length) k

/-- One line, fsa_utils.cu 91-165. -/
def step (c : Codec W) (wsFails : Bool) (na nr : Nat) (st : St W) (line : List Char) :
    Option (St W) :=
  match parseLine c wsFails na nr line with
  | none => none
  | some .blank => some st
  | some (.final s) => if st.final ≠ -1 then none else some { st with final := s, max := max st.max s }
  | some (.arc src dst label aux rag score) =>
    if st.final ≠ -1 then none
    else if !st.arcs.isEmpty && decide (src < (st.rowSplits.length : Int) - 1) then none
    else some
      { st with
        rowSplits := pad st.rowSplits (src.toNat + 1) st.arcs.length
        arcs := st.arcs ++ [⟨src.toNat, dst.toNat, label, score⟩]
        aux := st.aux ++ aux
        rag := st.rag ++ [rag]
        max := max st.max (max src dst) }

/-- What the reader returns: the FSA, `aux_labels_out` and `ragged_labels_out`. -/
structure Out (W : Type) where
  rowSplits : List Nat
  arcs : List (Arc W)
  aux : List (List Int)
  rag : List (List (List Int))
  deriving DecidableEq

/-- fsa_utils.cu 167-203. -/
def finish (na nr : Nat) (st : St W) : Option (Out W) :=
  if ¬ (st.final ≠ -1 ∨ st.arcs = []) then none
  else if st.max ≠ st.final then none
  else if st.aux.length ≠ st.arcs.length * na then none
  else some
    ⟨pad st.rowSplits ((st.max + 1).toNat + 1) st.arcs.length, st.arcs,
      (List.range na).map fun j => (List.range st.arcs.length).map fun i => st.aux.getD (i * na + j) 0,
      (List.range nr).map fun j => st.rag.map fun r => r.getD j []⟩

/-- `K2FsaFromStream`, fsa_utils.cu 70-205. -/
def fsaFromString (c : Codec W) (wsFails : Bool) (na nr : Nat) (text : List Char) : Option (Out W) := do
  let st ← (splitNl text).foldlM (step c wsFails na nr) startSt
  finish na nr st

end Verif.Fsa.Txt
