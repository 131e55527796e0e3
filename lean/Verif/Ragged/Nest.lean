import Verif.Ragged.LayerProps

/-!
# Nested lists and their ragged representation

The specification side of the ragged-array operations: a ragged array with axes 0..n is a list of
nested lists of depth n.  `layersOf` and `valuesOf` give its k2 representation (one row_splits
array per layer, and the values in one flat array; k2/csrc/ragged.h 30-90), and
`nest_exists`/`nest_unique` say that valid representations and nested lists correspond one to one.
-/

namespace Verif.Ragged
variable {α : Type}

/-- Nested lists of depth `n` over `α`. -/
@[reducible] def Nest (α : Type) : Nat → Type
  | 0 => α
  | n + 1 => List (Nest α n)

/-- The row_splits of the `n` layers of a list of nested lists of depth `n`. -/
def layersOf : (n : Nat) → List (Nest α n) → List (List Nat)
  | 0, _ => []
  | n + 1, T => psum (List.map (List.length (α := Nest α n)) T) ::
      layersOf n (List.flatten (α := Nest α n) T)

/-- The values in storage order. -/
def valuesOf : (n : Nat) → List (Nest α n) → List α
  | 0, T => T
  | n + 1, T => valuesOf n (List.flatten (α := Nest α n) T)

/-- What `RaggedShape::Check` (k2/csrc/ragged.cu 296-500) requires of the row_splits: each array
is valid and the number of elements of a layer is the number of rows of the next one.  `dim` is
the number of rows of the first layer, `tot` the number of elements of the last one. -/
def ValidShape : (dim : Nat) → List (List Nat) → (tot : Nat) → Prop
  | dim, [], tot => dim = tot
  | dim, rs :: rest, tot =>
    ValidSplits rs ∧ rs.length = dim + 1 ∧ ∃ m, rs[dim]? = some m ∧ ValidShape m rest tot

/-! ## Cutting a list into pieces of given sizes -/

def unflatten : List Nat → List α → List (List α)
  | [], _ => []
  | n :: ns, l => l.take n :: unflatten ns (l.drop n)

theorem unflatten_length (ns : List Nat) (l : List α) : (unflatten ns l).length = ns.length := by
  induction ns generalizing l with
  | nil => rfl
  | cons n ns ih => simp [unflatten, ih]

theorem unflatten_sizes (ns : List Nat) (l : List α) (h : ns.sum = l.length) :
    (unflatten ns l).map List.length = ns := by
  induction ns generalizing l with
  | nil => rfl
  | cons n ns ih =>
    simp only [List.sum_cons] at h
    simp only [unflatten, List.map_cons, List.length_take]
    rw [ih (l.drop n) (by rw [List.length_drop]; omega)]
    congr 1; omega

theorem unflatten_flatten (ns : List Nat) (l : List α) (h : ns.sum = l.length) :
    (unflatten ns l).flatten = l := by
  induction ns generalizing l with
  | nil =>
    have : l = [] := List.eq_nil_of_length_eq_zero (by simpa using h.symm)
    simp [unflatten, this]
  | cons n ns ih =>
    simp only [List.sum_cons] at h
    rw [unflatten, List.flatten_cons, ih (l.drop n) (by rw [List.length_drop]; omega),
      List.take_append_drop]

theorem rows_unique (T U : List (List α)) (h1 : T.map List.length = U.map List.length)
    (h2 : T.flatten = U.flatten) : T = U := by
  induction T generalizing U with
  | nil => cases U with
    | nil => rfl
    | cons _ _ => simp at h1
  | cons t T ih =>
    cases U with
    | nil => simp at h1
    | cons u U =>
      simp only [List.map_cons, List.cons.injEq] at h1
      simp only [List.flatten_cons] at h2
      obtain ⟨h3, h4⟩ := List.append_inj h2 h1.1
      rw [h3, ih U h1.2 h4]

theorem psum_inj (ns ms : List Nat) (h : psum ns = psum ms) : ns = ms := by
  have key : ∀ (ns ms : List Nat) (a : Nat), psumFrom a ns = psumFrom a ms → ns = ms := by
    intro ns
    induction ns with
    | nil =>
      intro ms a h
      have := congrArg List.length h
      simp only [psumFrom_length, List.length_nil] at this
      exact (List.eq_nil_of_length_eq_zero (by omega)).symm
    | cons n ns ih =>
      intro ms a h
      cases ms with
      | nil =>
        have := congrArg List.length h
        simp only [psumFrom_length, List.length_nil, List.length_cons] at this
        omega
      | cons m ms =>
        simp only [psumFrom, List.cons.injEq, true_and] at h
        have h0 := congrArg (fun l => l[0]?) h
        simp only [psumFrom_head, Option.some.injEq] at h0
        obtain rfl : n = m := by omega
        rw [ih ms _ h]
  exact key ns ms 0 h

/-! ## Representation -/

theorem psum_top (T : List (List α)) :
    (psum (T.map List.length)).length = T.length + 1 ∧
      (psum (T.map List.length))[T.length]? = some T.flatten.length := by
  refine ⟨by simp, ?_⟩
  rw [psum_get _ _ (by simp), List.length_flatten, List.take_of_length_le (by simp)]

theorem valid_layersOf (n : Nat) (T : List (Nest α n)) :
    ValidShape T.length (layersOf n T) (valuesOf n T).length := by
  induction n with
  | zero => rfl
  | succ n ih =>
    have h := psum_top (α := Nest α n) T
    exact ⟨validSplits_psum _, h.1, _, h.2, ih _⟩

/-- Every valid shape with values is the representation of a nested list. -/
theorem nest_exists (dim : Nat) (layers : List (List Nat)) (vals : List α)
    (h : ValidShape dim layers vals.length) :
    ∃ T : List (Nest α layers.length),
      T.length = dim ∧ layersOf _ T = layers ∧ valuesOf _ T = vals := by
  induction layers generalizing dim with
  | nil => exact ⟨vals, h.symm, rfl, rfl⟩
  | cons rs rest ih =>
    obtain ⟨h1, h2, m, h3, h4⟩ := h
    obtain ⟨ns, rfl, -⟩ := h1.sizes
    obtain ⟨T, hT1, hT2, hT3⟩ := ih m h4
    have hl : ns.length = dim := by rw [psum_length] at h2; omega
    have hm : ns.sum = T.length := by
      rw [psum_get ns dim (by omega), List.take_of_length_le (by omega)] at h3
      rw [hT1]; exact Option.some.inj h3
    refine ⟨unflatten ns T, ?_, ?_, ?_⟩
    · show (unflatten ns T).length = dim
      rw [unflatten_length, hl]
    · show psum ((unflatten ns T).map List.length) :: layersOf _ (unflatten ns T).flatten = _
      rw [unflatten_sizes ns T hm, unflatten_flatten ns T hm, hT2]
    · show valuesOf _ (unflatten ns T).flatten = _
      rw [unflatten_flatten ns T hm, hT3]

/-- A nested list is determined by its representation. -/
theorem nest_unique (n : Nat) (T U : List (Nest α n)) (h1 : layersOf n T = layersOf n U)
    (h2 : valuesOf n T = valuesOf n U) : T = U := by
  induction n with
  | zero => exact h2
  | succ n ih =>
    simp only [layersOf, List.cons.injEq] at h1
    have h3 := psum_inj _ _ h1.1
    have h4 := ih _ _ h1.2 h2
    exact rows_unique T U h3 h4

/-! ## Slices -/

/-- The elements at positions `b .. e-1`. -/
def slice (l : List α) (b e : Nat) : List α := (l.drop b).take (e - b)

theorem slice_length (l : List α) (b e : Nat) (h : b ≤ e) (he : e ≤ l.length) :
    (slice l b e).length = e - b := by
  rw [slice, List.length_take, List.length_drop]; omega

theorem slice_get (l : List α) (b e k : Nat) (hk : k < e - b) : (slice l b e)[k]? = l[b + k]? := by
  rw [slice, List.getElem?_take, if_pos hk, List.getElem?_drop]

theorem take_sum_mono (ns : List Nat) {a b : Nat} (h : a ≤ b) :
    (ns.take a).sum ≤ (ns.take b).sum := by
  obtain ⟨c, rfl⟩ := Nat.exists_eq_add_of_le h
  rw [List.take_add, List.sum_append]; omega

theorem drop_flatten (T : List (List α)) (b : Nat) :
    T.flatten.drop ((T.map List.length).take b).sum = (T.drop b).flatten := by
  induction T generalizing b with
  | nil => simp
  | cons t T ih =>
    cases b with
    | zero => simp
    | succ b =>
      simp only [List.map_cons, List.take_succ_cons, List.sum_cons, List.flatten_cons,
        List.drop_succ_cons]
      rw [← ih b, List.drop_append]
      simp

theorem take_flatten (T : List (List α)) (b : Nat) :
    T.flatten.take ((T.map List.length).take b).sum = (T.take b).flatten := by
  induction T generalizing b with
  | nil => simp
  | cons t T ih =>
    cases b with
    | zero => simp
    | succ b =>
      simp only [List.map_cons, List.take_succ_cons, List.sum_cons, List.flatten_cons]
      rw [← ih b, List.take_append]
      simp

/-- A range of rows is a range of elements. -/
theorem slice_flatten (T : List (List α)) (b e : Nat) (h : b ≤ e) :
    slice T.flatten ((T.map List.length).take b).sum ((T.map List.length).take e).sum =
      (slice T b e).flatten := by
  rw [slice, slice, drop_flatten, ← take_flatten]
  congr 1
  obtain ⟨c, rfl⟩ := Nat.exists_eq_add_of_le h
  rw [List.take_add, List.sum_append, Nat.add_sub_cancel_left, Nat.add_sub_cancel_left,
    List.map_drop]

end Verif.Ragged
