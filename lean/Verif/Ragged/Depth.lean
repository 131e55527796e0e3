import Verif.Ragged.IndexProps

/-!
# Nested lists cut at some depth

An axis in the middle of a ragged array is reached by viewing the array as a nested list of depth
`a` whose leaves are themselves nested lists (`Nest (Nest α m) a`).  `Nest.join` forgets the cut;
`fullLayers_join` says that the representation is the layers above the cut followed by those of
the list of leaves.
-/

namespace Verif.Ragged
variable {α β : Type}

/-- Apply `f` to all leaves. -/
def Nest.map (f : α → β) : (a : Nat) → Nest α a → Nest β a
  | 0, x => f x
  | a + 1, l => List.map (Nest.map f a) (l : List (Nest α a))

/-- A nested list whose leaves are nested lists is a deeper nested list. -/
def Nest.join (m : Nat) : (a : Nat) → Nest (Nest α m) a → Nest α (m + a)
  | 0, x => x
  | a + 1, l => List.map (Nest.join m a) (l : List (Nest (Nest α m) a))

/-- Cut a nested list at depth `a`. -/
def Nest.cut (m : Nat) : (a : Nat) → Nest α (m + a) → Nest (Nest α m) a
  | 0, x => x
  | a + 1, l => List.map (Nest.cut m a) (l : List (Nest α (m + a)))

theorem Nest.join_cut (m a : Nat) (x : Nest α (m + a)) : Nest.join m a (Nest.cut m a x) = x := by
  induction a with
  | zero => rfl
  | succ a ih =>
    have key : ∀ l : List (Nest α (m + a)),
        List.map (Nest.join m a) (List.map (Nest.cut m a) l) = l := by
      intro l
      rw [List.map_map]
      conv_rhs => rw [← List.map_id l]
      exact List.map_congr_left (fun x _ => ih x)
    exact key x

theorem flatten_map_map {X Y : Type} (f : X → Y) (l : List (List X)) :
    (l.map (List.map f)).flatten = l.flatten.map f := by
  induction l with
  | nil => rfl
  | cons x l ih => rw [List.map_cons, List.flatten_cons, List.flatten_cons, ih, List.map_append]

theorem lengths_map_map {X Y : Type} (f : X → Y) (l : List (List X)) :
    (l.map (List.map f)).map List.length = l.map List.length := by
  rw [List.map_map]
  exact List.map_congr_left (fun x _ => by simp)

theorem fullLayers_join (m a : Nat) (T : List (Nest (Nest α m) a)) :
    fullLayers (m + a) (T.map (Nest.join m a)) = fullLayers a T ++ fullLayers m (valuesOf a T) := by
  induction a with
  | zero =>
    have : T.map (Nest.join m 0) = T := by
      conv_rhs => rw [← List.map_id T]
      rfl
    rw [this]; rfl
  | succ a ih =>
    have key : ∀ T : List (List (Nest (Nest α m) a)),
        fullLayers (m + a + 1) (T.map (List.map (Nest.join m a)) : List (List (Nest α (m + a)))) =
          fullLayers (a + 1) T ++ fullLayers m (valuesOf a T.flatten) := by
      intro T
      have h1 := fullLayers_succ (m + a) (T.map (List.map (Nest.join m a)))
      have h2 := fullLayers_succ a T
      rw [h1, h2, flatten_map_map, lengths_map_map, ih, List.cons_append]
    exact key T

theorem valuesOf_join (m a : Nat) (T : List (Nest (Nest α m) a)) :
    valuesOf (m + a) (T.map (Nest.join m a)) = valuesOf m (valuesOf a T) := by
  induction a with
  | zero =>
    have : T.map (Nest.join m 0) = T := by
      conv_rhs => rw [← List.map_id T]
      rfl
    rw [this]; rfl
  | succ a ih =>
    have key : ∀ T : List (List (Nest (Nest α m) a)),
        valuesOf (m + a + 1) (T.map (List.map (Nest.join m a)) : List (List (Nest α (m + a)))) =
          valuesOf m (valuesOf a T.flatten) := by
      intro T
      have : valuesOf (m + a + 1)
          (T.map (List.map (Nest.join m a)) : List (List (Nest α (m + a)))) =
          valuesOf (m + a) (T.map (List.map (Nest.join m a))).flatten := rfl
      rw [this, flatten_map_map, ih]
    exact key T

/-- Changing the leaves does not change the layers above them. -/
theorem fullLayers_map (f : α → β) (a : Nat) (T : List (Nest α a)) :
    fullLayers a (T.map (Nest.map f a)) = fullLayers a T := by
  induction a with
  | zero => rfl
  | succ a ih =>
    have key : ∀ T : List (List (Nest α a)),
        fullLayers (a + 1) (T.map (List.map (Nest.map f a)) : List (List (Nest β a))) =
          fullLayers (a + 1) T := by
      intro T
      have h1 := fullLayers_succ a (T.map (List.map (Nest.map f a)))
      have h2 := fullLayers_succ a T
      rw [h1, h2, flatten_map_map, lengths_map_map, ih]
    exact key T

theorem valuesOf_map (f : α → β) (a : Nat) (T : List (Nest α a)) :
    valuesOf a (T.map (Nest.map f a)) = (valuesOf a T).map f := by
  induction a with
  | zero => rfl
  | succ a ih =>
    have key : ∀ T : List (List (Nest α a)),
        valuesOf (a + 1) (T.map (List.map (Nest.map f a)) : List (List (Nest β a))) =
          (valuesOf a T.flatten).map f := by
      intro T
      have : valuesOf (a + 1) (T.map (List.map (Nest.map f a)) : List (List (Nest β a))) =
          valuesOf a (T.map (List.map (Nest.map f a))).flatten := rfl
      rw [this, flatten_map_map, ih]
    exact key T

@[simp] theorem fullLayers_length (n : Nat) (T : List (Nest α n)) : (fullLayers n T).length = n := by
  induction n with
  | zero => rfl
  | succ n ih =>
    have key : ∀ T : List (List (Nest α n)), (fullLayers (n + 1) T).length = n + 1 := by
      intro T
      have := fullLayers_succ n T
      rw [this, List.length_cons, ih]
    exact key T

end Verif.Ragged
