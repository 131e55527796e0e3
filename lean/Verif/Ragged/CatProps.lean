import Verif.Ragged.CatCore

/-!
# C08: `Stack`, `Cat` on any axis, and `Merge`

`SameAbove`, `zipAll` (`CatSpec.lean`) and `Merged` (`CatLemmas.lean`) are the specification.
-/

namespace Verif.Ragged
open Verif.Util
variable {α : Type}

/-- The layers of a ragged array whose axis `a + 1` holds lists. -/
def srcShape (m a : Nat) (T : List (Nest (List (Nest α m)) a)) : Shape :=
  fullLayers (m + 1 + a) (T.map (Nest.join (α := α) (m + 1) a))

theorem srcShape_eq (m a : Nat) (T : List (Nest (List (Nest α m)) a)) :
    srcShape m a T = fullLayers a T ++ fullLayers (m + 1) (valuesOf a T : List (Nest α (m + 1))) :=
  fullLayers_join (α := α) (m + 1) a T

theorem srcs_common (m a : Nat) (Ts : List (List (Nest (List (Nest α m)) a)))
    (h : ∀ T ∈ Ts, SameAbove a T (Ts.headD [])) :
    Ts.map (srcShape m a) = (Ts.map (valuesOf a)).map (fun V =>
      fullLayers a (Ts.headD []) ++ fullLayers (m + 1) (V : List (Nest α (m + 1)))) ∧
    Regular (Ts.map (valuesOf a)) (valuesOf a (Ts.headD [])).length := by
  constructor
  · rw [List.map_map]
    apply List.map_congr_left
    intro T hT
    rw [srcShape_eq, (SameAbove.iff.mp (h T hT)).1]
    rfl
  · intro V hV
    obtain ⟨T, hT, rfl⟩ := List.mem_map.mp hV
    exact (SameAbove.iff.mp (h T hT)).2

theorem upper_total (a : Nat) {X : Type} (T : List (Nest X a)) :
    fullLayers a T = [] ∨
      totSize (fullLayers a T) (fullLayers a T).length = some (valuesOf a T).length := by
  cases a with
  | zero => exact Or.inl rfl
  | succ a =>
    right
    rw [fullLayers_length, totSize_fullLayers (a + 1) T (a + 1) (by omega) (Nat.le_refl _),
      totAt_values]

theorem values_zip (m a : Nat) (Ts : List (List (Nest (List (Nest α m)) a)))
    (hne : Ts ≠ []) (h : ∀ T ∈ Ts, SameAbove a T (Ts.headD [])) :
    Ts.map (fun T => valuesOf (m + 1 + a) (T.map (Nest.join (α := α) (m + 1) a))) =
      (Ts.map (valuesOf a)).map (fun V => valuesOf m V.flatten) ∧
    valuesOf (m + 2 + a) ((zipAll a Ts).map (Nest.join (α := α) (m + 2) a)) =
      valuesOf m (swapAxes (valuesOf a (Ts.headD [])).length (Ts.map (valuesOf a))).flatten.flatten := by
  constructor
  · rw [List.map_map]
    apply List.map_congr_left
    intro T _
    exact valuesOf_join (α := α) (m + 1) a T
  · have e : valuesOf (m + 2 + a) ((zipAll a Ts).map (Nest.join (α := α) (m + 2) a)) = _ :=
      valuesOf_join (α := α) (m + 2) a (zipAll a Ts)
    rw [e, (zipAll_repr a Ts hne h).2]
    rfl

/-- `Stack` on axis `a + 1`: the sources agree above this axis, and in every place the result has the
list of the lists that the sources have there.  The merge map says where each value comes from.  On
the CPU and on the GPU, in debug and in release builds. -/
theorem stack_axis (dev : Dev) (debug : Bool) (m a : Nat)
    (Ts : List (List (Nest (List (Nest α m)) a))) (hne : Ts ≠ [])
    (h : ∀ T ∈ Ts, SameAbove a T (Ts.headD [])) :
    ∃ mm, stackAxis dev debug (Ts.map (srcShape m a)) (a + 1) =
        some (fullLayers (m + 2 + a) ((zipAll a Ts).map (Nest.join (α := α) (m + 2) a)), mm) ∧
      Merged mm (Ts.map (fun T => valuesOf (m + 1 + a) (T.map (Nest.join (α := α) (m + 1) a))))
        (valuesOf (m + 2 + a) ((zipAll a Ts).map (Nest.join (α := α) (m + 2) a))) := by
  obtain ⟨s1, s2⟩ := srcs_common m a Ts h
  obtain ⟨mm, h1, h2⟩ := stack_core dev debug (fullLayers a (Ts.headD [])) _ m (Ts.map (valuesOf a))
    (by simpa using hne) s2 (upper_total a _)
  rw [fullLayers_length, ← s1] at h1
  obtain ⟨v1, v2⟩ := values_zip m a Ts hne h
  refine ⟨mm, ?_, by rw [v1, v2]; exact h2⟩
  obtain ⟨z1, z2⟩ := zipAll_repr a Ts hne h
  have e : fullLayers (m + 2 + a) ((zipAll a Ts).map (Nest.join (α := α) (m + 2) a)) = _ :=
    fullLayers_join (α := α) (m + 2) a (zipAll a Ts)
  rw [h1, e, z1, z2]

/-- `Cat` on axis `a + 1`: as `Stack`, but the lists are appended. -/
theorem cat_axis (dev : Dev) (debug : Bool) (m a : Nat)
    (Ts : List (List (Nest (List (Nest α m)) a))) (hne : Ts ≠ [])
    (h : ∀ T ∈ Ts, SameAbove a T (Ts.headD [])) :
    ∃ mm, catAxis dev debug (Ts.map (srcShape m a)) (a + 1) =
        some (srcShape m a ((zipAll a Ts).map (Nest.map List.flatten a)), mm) ∧
      Merged mm (Ts.map (fun T => valuesOf (m + 1 + a) (T.map (Nest.join (α := α) (m + 1) a))))
        (valuesOf (m + 1 + a) (((zipAll a Ts).map
          (Nest.map (β := List (Nest α m)) List.flatten a)).map (Nest.join (α := α) (m + 1) a))) := by
  obtain ⟨s1, s2⟩ := srcs_common m a Ts h
  obtain ⟨mm, h1, h2⟩ := cat_core dev debug (fullLayers a (Ts.headD [])) _ m (Ts.map (valuesOf a))
    (by simpa using hne) s2 (upper_total a _)
  rw [fullLayers_length, ← s1] at h1
  obtain ⟨v1, v2⟩ := values_zip m a Ts hne h
  refine ⟨mm, ?_, by rw [v1, removeAxis_values m a (zipAll a Ts), v2]; exact h2⟩
  obtain ⟨z1, z2⟩ := zipAll_repr a Ts hne h
  rw [h1, srcShape_eq, fullLayers_map, valuesOf_map, z1, z2]

/-! ## When the sources do not agree -/

theorem mapM_mem {X Y : Type} {f : X → Option Y} {l : List X} {out : List Y} (h : l.mapM f = some out)
    (x : X) (hx : x ∈ l) : ∃ y, f x = some y := by
  obtain ⟨i, hi⟩ := List.getElem?_of_mem hx
  obtain ⟨h1, h2⟩ := mapM_get h
  have hl := (List.getElem?_eq_some_iff.mp hi).1
  exact ⟨out[i], by rw [← h2 i x hi]; exact List.getElem?_eq_getElem (by omega)⟩

theorem totSize_srcShape (m a : Nat) (T : List (Nest (List (Nest α m)) a)) :
    totSize (srcShape m a T) a = some (valuesOf a T).length := by
  have h := below_of (fullLayers a T) (valuesOf a T).length m [valuesOf a T]
    (by intro r hr; rw [List.mem_singleton.mp hr]) (upper_total a T)
  have := (h.drop 0 _ _ (by rfl) (by rfl)).2 (by omega)
  rw [fullLayers_length] at this
  rw [srcShape_eq]
  exact this

theorem agree_of_checks (dev : Dev) (m a : Nat) (Ts : List (List (Nest (List (Nest α m)) a)))
    {x : List Unit} {y} (h1 : (List.range a).mapM (checkLayerEqual true (Ts.map (srcShape m a))) = some x)
    (h2 : intersperse dev (Ts.map (srcShape m a)) a = some y) :
    ∀ T ∈ Ts, SameAbove a T (Ts.headD []) := by
  match Ts with
  | [] => intro T hT; simp at hT
  | [T0] =>
    intro T hT
    rw [List.mem_singleton.mp hT]
    rfl
  | T0 :: T1 :: Ts =>
    have hT0 : (T0 :: T1 :: Ts).headD [] = T0 := rfl
    rw [hT0]
    have hd : ∀ T ∈ T0 :: T1 :: Ts, (valuesOf a T).length = (valuesOf a T0).length := by
      intro T hT
      simp only [List.map_cons, intersperse, totSize_srcShape, Option.bind_eq_bind,
        Option.bind_some] at h2
      split at h2
      · rename_i hall
        rw [List.all_eq_true] at hall
        have := hall (srcShape m a T) (by
          have : srcShape m a T ∈ (T0 :: T1 :: Ts).map (srcShape m a) := List.mem_map_of_mem hT
          simpa using this)
        rw [totSize_srcShape] at this
        simp at this
        exact this.2
      · simp at h2
    have hl : ∀ T ∈ T1 :: Ts, ∀ l < a,
        (srcShape m a T)[l]?.map Prod.fst = (srcShape m a T0)[l]?.map Prod.fst := by
      intro T hT l hl
      obtain ⟨u, hu⟩ := mapM_mem h1 l (by simpa using hl)
      simp only [List.map_cons, checkLayerEqual, Option.bind_eq_bind, Option.bind_eq_some_iff] at hu
      obtain ⟨_, _, _, _, hu⟩ := hu
      split at hu
      · rename_i hall
        rw [Bool.and_eq_true, Bool.or_eq_true] at hall
        rcases hall.2 with h | h
        · simp at h
        · rw [List.all_eq_true] at h
          have := h (srcShape m a T) (by
            have : srcShape m a T ∈ (T1 :: Ts).map (srcShape m a) := List.mem_map_of_mem hT
            simpa using this)
          exact eq_of_beq this
      · simp at hu
    intro T hT
    rcases List.mem_cons.mp hT with rfl | hT'
    · rfl
    · refine SameAbove.iff.mpr ⟨?_, hd T hT⟩
      have e : layersOf a T = layersOf a T0 := by
        rw [layersOf_full, layersOf_full]
        apply List.ext_getElem?
        intro l
        rw [List.getElem?_map, List.getElem?_map]
        by_cases hla : l < a
        · have := hl T hT' l hla
          rw [srcShape_eq, srcShape_eq, List.getElem?_append_left (by simpa using hla),
            List.getElem?_append_left (by simpa using hla)] at this
          exact this
        · rw [List.getElem?_eq_none (by simp; omega), List.getElem?_eq_none (by simp; omega)]
      rw [fullLayers, fullLayers, e]

/-- In debug builds `Stack` returns exactly if there are sources and they agree above the axis. -/
theorem stack_axis_returns_iff (dev : Dev) (m a : Nat) (Ts : List (List (Nest (List (Nest α m)) a))) :
    (∃ r, stackAxis dev true (Ts.map (srcShape m a)) (a + 1) = some r) ↔
      Ts ≠ [] ∧ ∀ T ∈ Ts, SameAbove a T (Ts.headD []) := by
  constructor
  · rintro ⟨r, h⟩
    match Ts with
    | [] => simp [stackAxis] at h
    | T :: Ts =>
      refine ⟨by simp, ?_⟩
      rw [List.map_cons, stackAxis, ← List.map_cons (f := srcShape m a)] at h
      split at h
      · simp at h
      · rw [if_neg (by omega)] at h
        simp only [Option.bind_eq_bind, Option.bind_eq_some_iff, Nat.add_sub_cancel] at h
        obtain ⟨x, h1, y, h2, _⟩ := h
        exact agree_of_checks dev m a _ h1 h2
  · rintro ⟨hne, h⟩
    obtain ⟨mm, h1, _⟩ := stack_axis dev true m a Ts hne h
    exact ⟨_, h1⟩

/-- The same for `Cat`. -/
theorem cat_axis_returns_iff (dev : Dev) (m a : Nat) (Ts : List (List (Nest (List (Nest α m)) a))) :
    (∃ r, catAxis dev true (Ts.map (srcShape m a)) (a + 1) = some r) ↔
      Ts ≠ [] ∧ ∀ T ∈ Ts, SameAbove a T (Ts.headD []) := by
  constructor
  · rintro ⟨r, h⟩
    match Ts with
    | [] => simp [catAxis] at h
    | T :: Ts =>
      refine ⟨by simp, ?_⟩
      rw [List.map_cons, catAxis, ← List.map_cons (f := srcShape m a)] at h
      rw [if_neg (by omega)] at h
      split at h
      · simp at h
      · simp only [Option.bind_eq_bind, Option.bind_eq_some_iff, Nat.add_sub_cancel] at h
        obtain ⟨x, h1, y, h2, _⟩ := h
        exact agree_of_checks dev m a _ h1 h2
  · rintro ⟨hne, h⟩
    obtain ⟨mm, h1, _⟩ := cat_axis dev true m a Ts hne h
    exact ⟨_, h1⟩

/-- In release builds only the sizes are compared: concatenating `[[[1], [2]], [[3]]]` and
`[[[4]], [[5], [6]]]` on axis 2 does not raise and gives `[[[1, 4], [2, 5]], [[3, 6]]]`, although the two
differ on axis 1. -/
theorem cat_release_accepts :
    (∃ mm, catAxis .cpu false [srcShape 0 1 [[[1], [2]], [[3]]], srcShape 0 1 [[[4]], [[5], [6]]]] 2 =
      some (srcShape 0 1 [[[1, 4], [2, 5]], [[3, 6]]], mm)) ∧
    catAxis .cpu true [srcShape 0 1 [[[1], [2]], [[3]]], srcShape 0 1 [[[4]], [[5], [6]]]] 2 = none :=
  ⟨⟨[0, 1, 2, 3, 4, 5], by decide +kernel⟩, by decide +kernel⟩

/-! ## Merge -/

/-- `Merge` takes the rows of the sources in the order of the merge map, and the map it returns does the
same for the values. -/
theorem merge_spec (m : Nat) (Ts : List (List (Nest α (m + 1)))) (E : List (Nest α (m + 1)))
    (mm : List Nat) (hne : Ts ≠ []) (h : Merged mm Ts E) :
    ∃ mm', mergeShapes (Ts.map (fullLayers (m + 1))) mm = some (fullLayers (m + 1) E, mm') ∧
      Merged mm' (Ts.map (valuesOf (m + 1))) (valuesOf (m + 1) E) := by
  have hB : Below (Ts.map (fullLayers (m + 1))) 0 (m + 1) Ts := by
    refine ⟨by simp, ?_⟩
    intro j s V hs hV
    rw [List.getElem?_map, hV] at hs
    obtain rfl := Option.some.inj hs
    exact ⟨rfl, fun _ => totSize_fullLayers (m + 1) V 0 (by omega) (by omega)⟩
  obtain ⟨mm', h1, h2⟩ := mergeRest_eq (m + 1) _ 0 Ts E mm hB (by simpa using hne) h
  refine ⟨mm', ?_, h2⟩
  match Ts, hne with
  | T :: Ts, _ =>
    rw [List.map_cons, mergeShapes, fullLayers_length, ← List.map_cons (f := fullLayers (m + 1))]
    exact h1

/-! ## Concrete cases -/

/-- Two arrays of three axes that agree on axis 1, on the CPU and on the GPU. -/
def catExample : List (List (Nest (List Nat) 1)) :=
  [[[[1, 2], []], [[3]]], [[[4], [5]], [[6, 7]]]]

example : ∀ T ∈ catExample, SameAbove 1 T (catExample.headD []) := by
  unfold SameAbove catExample; decide

example : zipAll 1 catExample = [[[[1, 2], [4]], [[], [5]]], [[[3], [6, 7]]]] := by decide

example : stackAxis .gpu false (catExample.map (srcShape (α := Nat) 0 1)) 2 =
    some ([([0, 2, 3], [0, 0, 1]), ([0, 2, 4, 6], [0, 0, 1, 1, 2, 2]),
      ([0, 2, 3, 3, 4, 5, 7], [0, 0, 1, 3, 4, 5, 5])], [0, 2, 1, 3, 4, 5, 7]) := by decide +kernel

example : ∃ mm, catAxis .cpu true (catExample.map (srcShape (α := Nat) 0 1)) 2 =
    some (srcShape (α := Nat) 0 1 [[[1, 2, 4], [5]], [[3, 6, 7]]], mm) :=
  ⟨[0, 2, 1, 3, 4, 5, 7], by decide +kernel⟩

example : Merged [1, 0, 2] [["a", "b"], ["c"]] ["c", "a", "b"] :=
  ⟨by decide, rfl, by
    intro i m hm
    match i with
    | 0 => simp at hm; subst hm; exact ⟨["c"], by decide, by decide, by decide⟩
    | 1 => simp at hm; subst hm; exact ⟨["a", "b"], by decide, by decide, by decide⟩
    | 2 => simp at hm; subst hm; exact ⟨["a", "b"], by decide, by decide, by decide⟩
    | i + 3 => simp at hm⟩

end Verif.Ragged
