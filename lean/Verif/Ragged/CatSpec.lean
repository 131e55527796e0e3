import Verif.Ragged.Transpose

/-!
# What stacking and concatenating on a later axis mean

`Nest X a` is a nested list of depth `a` with leaves in `X`.  On axis `a + 1` the sources are lists
of `Nest X a` where `X` is a list of something; they have to agree above the leaves.
-/

namespace Verif.Ragged
variable {X Y : Type}

/-- The two nested lists differ at most in their leaves. -/
def SameAbove (a : Nat) (T U : List (Nest X a)) : Prop :=
  T.map (Nest.map (fun _ => ()) a) = U.map (Nest.map (fun _ => ()) a)

/-- Put a list of nested lists together leaf by leaf: every leaf of the result is the list of the
leaves that the arguments have in this place. -/
def Nest.zip : (a : Nat) → List (Nest X a) → Nest (List X) a
  | 0, Ts => Ts
  | a + 1, Ts =>
    let Ts : List (List (Nest X a)) := Ts
    List.map (Nest.zip a) (swapAxes (Ts.headD []).length Ts)

/-- `Nest.zip` for lists of nested lists, the form in which ragged arrays come. -/
def zipAll (a : Nat) (Ts : List (List (Nest X a))) : List (Nest (List X) a) :=
  (swapAxes (Ts.headD []).length Ts).map (Nest.zip a)

end Verif.Ragged
