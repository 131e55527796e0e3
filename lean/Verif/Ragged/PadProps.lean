import Verif.Ragged.PadModel
import Verif.Ragged.UnstackCore
import Verif.Ragged.UniqueProps

/-!
# C101: `RaggedTensor.pad`
-/

namespace Verif.Ragged
open Verif.Util
variable {X : Type}

/-! ## Specification -/

/-- The missing entries of a row, on the left or on the right. -/
def fillRow (left : Bool) (N : Nat) (x : X) (row : List X) : List X :=
  if left then List.replicate (N - row.length) x ++ row else row ++ List.replicate (N - row.length) x

/-- The entry of the row that is repeated in mode `replicate`: the one next to the missing entries. -/
def edgeOf (left : Bool) (pv : X) (row : List X) : X := if left then row.headD pv else row.getLastD pv

/-! ## Proof -/

theorem fillRow_length (left : Bool) (N : Nat) (x : X) (row : List X) (h : row.length ≤ N) :
    (fillRow left N x row).length = N := by
  unfold fillRow
  split <;> simp <;> omega

theorem fillRow_get (left : Bool) (N j : Nat) (x : X) (row : List X) (h : row.length ≤ N) (hj : j < N) :
    (fillRow left N x row)[j]? = if left then (if j < N - row.length then some x else row[j - (N - row.length)]?)
      else (if row.length ≤ j then some x else row[j]?) := by
  unfold fillRow
  cases left with
  | true =>
    simp only [if_true]
    split
    · rw [List.getElem?_append_left (by simpa using by assumption), List.getElem?_replicate, if_pos (by assumption)]
    · rw [List.getElem?_append_right (by simp; omega), List.length_replicate]
  | false =>
    simp only [Bool.false_eq_true, if_false]
    split
    · rw [List.getElem?_append_right (by omega), List.getElem?_replicate, if_pos (by omega)]
    · rw [List.getElem?_append_left (by omega)]

theorem rows_mapM (V : List (List X)) (N : Nat) (hN : IsLongest N V) (f : Nat → Nat → Option X)
    (g : List X → List X) (hg : ∀ row ∈ V, (g row).length = N)
    (h : ∀ i row j, V[i]? = some row → j < N → f i j = (g row)[j]?) :
    (List.range V.length).mapM (fun i => (List.range N).mapM (fun j => f i j)) = some (V.map g) := by
  apply mapM_some_of
  · simp
  · intro i b hb
    have hi : i < V.length := by have := (List.getElem?_eq_some_iff.mp hb).1; simpa using this
    rw [List.getElem?_range hi] at hb
    obtain rfl := Option.some.inj hb
    rw [List.getElem?_map, List.getElem?_eq_getElem hi, Option.map_some]
    apply mapM_some_of
    · rw [List.length_range, hg _ (List.getElem_mem hi)]
    · intro j b hb
      have hj : j < N := by have := (List.getElem?_eq_some_iff.mp hb).1; simpa using this
      rw [List.getElem?_range hj] at hb
      obtain rfl := Option.some.inj hb
      exact h i _ j (List.getElem?_eq_getElem hi) hj

theorem pad_mode (V : List (List X)) (N : Nat) (hN : IsLongest N V) (mode : String) (pv : X) (left : Bool)
    (hm : mode = "constant" ∨ mode = "replicate") (g : List X → List X) (hg : ∀ row ∈ V, (g row).length = N)
    (h : ∀ i row j, V[i]? = some row → j < N →
      (if mode = "constant" then padConstant (lay V).1 V.flatten pv left N i j
        else padReplicate (lay V).1 V.flatten pv left N i j) = (g row)[j]?) :
    padRagged [lay V] V.flatten mode pv left = some (V.map g) := by
  unfold padRagged
  have := maxSize_eq [] [] V N hN
  rw [List.nil_append, List.length_nil, Nat.zero_add] at this
  simp only [if_pos hm, this, Option.bind_eq_bind, Option.bind_some]
  rw [show (lay V).1.length - 1 = V.length by simp [lay]]
  exact rows_mapM V N hN _ g hg h

theorem pad_reads (V : List (List X)) (i : Nat) (row : List X) (h : V[i]? = some row) :
    (lay V).1[i]? = some (splits V i) ∧ (lay V).1[i + 1]? = some (splits V i + row.length) ∧
      ∀ k, k < row.length → V.flatten[splits V i + k]? = row[k]? := by
  have hi := (List.getElem?_eq_some_iff.mp h).1
  refine ⟨psum_splits V i (by omega), ?_, ?_⟩
  · rw [show (lay V).1 = psum (V.map List.length) from rfl, psum_splits V (i + 1) (by omega),
      splits_eq_take, splits_eq_take, List.take_add_one, List.getElem?_map, h]
    simp
  · intro k hk
    rw [splits_eq_take]
    exact row_at V i k row h hk

/-- **C101.** In mode `constant` every row is followed (or, with `pad_left`, preceded) by copies of the padding
value up to the length of the longest row. -/
theorem pad_constant (V : List (List X)) (N : Nat) (hN : IsLongest N V) (pv : X) (left : Bool) :
    padRagged [lay V] V.flatten "constant" pv left = some (V.map (fillRow left N pv)) := by
  apply pad_mode V N hN "constant" pv left (Or.inl rfl)
  · intro row hr
    exact fillRow_length left N pv row (hN.1 row hr)
  · intro i row j hi hj
    have hl := hN.1 row (List.mem_of_getElem? hi)
    obtain ⟨h1, h2, h3⟩ := pad_reads V i row hi
    rw [if_pos rfl, fillRow_get left N j pv row hl hj]
    unfold padConstant
    simp only [h1, h2, Option.bind_eq_bind, Option.bind_some, Nat.add_sub_cancel_left]
    cases left with
    | true =>
      simp only [if_true]
      split
      · rfl
      · rw [show splits V i + j - (N - row.length) = splits V i + (j - (N - row.length)) by omega, h3 _ (by omega)]
    | false =>
      simp only [Bool.false_eq_true, if_false]
      split
      · rfl
      · rw [h3 _ (by omega)]

/-- **C101.** In mode `replicate` a row that is not empty is continued with its own last value (with `pad_left`:
preceded by its own first value); the padding value is used for empty rows only. -/
theorem pad_replicate (V : List (List X)) (N : Nat) (hN : IsLongest N V) (pv : X) (left : Bool) :
    padRagged [lay V] V.flatten "replicate" pv left =
      some (V.map (fun row => fillRow left N (edgeOf left pv row) row)) := by
  apply pad_mode V N hN "replicate" pv left (Or.inr rfl)
  · intro row hr
    exact fillRow_length left N _ row (hN.1 row hr)
  · intro i row j hi hj
    have hl := hN.1 row (List.mem_of_getElem? hi)
    obtain ⟨h1, h2, h3⟩ := pad_reads V i row hi
    rw [if_neg (by decide), fillRow_get left N j _ row hl hj]
    unfold padReplicate
    simp only [h1, h2, Option.bind_eq_bind, Option.bind_some, Nat.add_sub_cancel_left]
    by_cases h0 : row.length = 0
    · obtain rfl := List.length_eq_zero_iff.mp h0
      rw [if_pos h0]
      cases left with
      | true => simp [edgeOf, hj]
      | false => simp [edgeOf]
    · rw [if_neg h0]
      have hne : row ≠ [] := fun h => h0 (by rw [h]; rfl)
      cases left with
      | true =>
        simp only [if_true]
        split
        · have := h3 0 (by omega)
          rw [Nat.add_zero] at this
          rw [this, ← List.head?_eq_getElem?]
          obtain ⟨a, l, rfl⟩ := List.exists_cons_of_ne_nil hne
          rfl
        · rw [show splits V i + j - (N - row.length) = splits V i + (j - (N - row.length)) by omega, h3 _ (by omega)]
      | false =>
        simp only [Bool.false_eq_true, if_false]
        split
        · rw [show splits V i + row.length - 1 = splits V i + (row.length - 1) by omega, h3 _ (by omega),
            ← List.getLast?_eq_getElem?, List.getLast?_eq_some_getLast hne]
          simp [edgeOf, List.getLastD_eq_getLast?, List.getLast?_eq_some_getLast hne]
        · rw [h3 _ (by omega)]

/-- Any other mode, and any other number of axes, is rejected. -/
theorem pad_rejects (shape : Shape) (vals : List X) (mode : String) (pv : X) (left : Bool)
    (h : shape.length ≠ 1 ∨ (mode ≠ "constant" ∧ mode ≠ "replicate")) :
    padRagged shape vals mode pv left = none := by
  unfold padRagged
  split
  · rcases h with h | h
    · simp at h
    · rw [if_neg (by simpa using h)]
  · rfl

/-- Padding loses nothing: taking the entries of each row back gives the ragged tensor. -/
theorem pad_recover (V : List (List X)) (N : Nat) (hN : IsLongest N V) (mode : String) (pv : X) (left : Bool)
    (R : List (List X)) (h : padRagged [lay V] V.flatten mode pv left = some R) :
    R.length = V.length ∧ (∀ r ∈ R, r.length = N) ∧
      List.zipWith (fun r n => if left then r.drop (N - n) else r.take n) R (V.map List.length) = V := by
  have key : ∀ x : List X → X, V.map (fun row => fillRow left N (x row) row) = R → R.length = V.length ∧
      (∀ r ∈ R, r.length = N) ∧
      List.zipWith (fun r n => if left then r.drop (N - n) else r.take n) R (V.map List.length) = V := by
    intro x hx
    subst hx
    refine ⟨by simp, ?_, ?_⟩
    · intro r hr
      obtain ⟨row, h1, rfl⟩ := List.mem_map.mp hr
      exact fillRow_length left N _ row (hN.1 row h1)
    · rw [List.zipWith_map, List.zipWith_self]
      conv_rhs => rw [← List.map_id V]
      apply List.map_congr_left
      intro row h1
      have := hN.1 row h1
      unfold fillRow
      cases left with
      | true => simp
      | false => simp
  by_cases hc : mode = "constant"
  · subst hc
    rw [pad_constant V N hN pv left] at h
    exact key (fun _ => pv) (Option.some.inj h)
  · by_cases hr : mode = "replicate"
    · subst hr
      rw [pad_replicate V N hN pv left] at h
      exact key (edgeOf left pv) (Option.some.inj h)
    · rw [pad_rejects _ _ _ _ _ (Or.inr ⟨hc, hr⟩)] at h
      simp at h

/-- Three rows, one of them empty, in both modes. -/
theorem padExample :
    IsLongest 3 [[1, 2, 3], [], [4, 5]] ∧
    padRagged [lay [[1, 2, 3], [], [4, 5]]] [1, 2, 3, 4, 5] "constant" (-1 : Int) true =
      some [[1, 2, 3], [-1, -1, -1], [-1, 4, 5]] ∧
    padRagged [lay [[1, 2, 3], [], [4, 5]]] [1, 2, 3, 4, 5] "replicate" (-1 : Int) false =
      some [[1, 2, 3], [-1, -1, -1], [4, 5, 5]] := by
  refine ⟨by constructor <;> simp, ?_, ?_⟩ <;> decide +kernel

end Verif.Ragged
