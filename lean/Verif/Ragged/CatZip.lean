import Verif.Ragged.CatSpec
import Verif.Ragged.CatLemmas

/-! The representation of `zipAll`. -/

namespace Verif.Ragged
open Verif.Util
variable {X Y : Type}

theorem layersOf_full (a : Nat) (V : List (Nest X a)) :
    layersOf a V = (fullLayers a V).map Prod.fst := by
  rw [fullLayers, List.map_map]
  exact (List.map_id _).symm

/-- Agreeing above the leaves, in terms of the representation. -/
theorem SameAbove.iff {a : Nat} {T U : List (Nest X a)} :
    SameAbove a T U ↔
      fullLayers a T = fullLayers a U ∧ (valuesOf a T).length = (valuesOf a U).length := by
  constructor
  · intro h
    constructor
    · rw [← fullLayers_map (fun _ => ()) a T, ← fullLayers_map (fun _ => ()) a U]
      exact congrArg _ h
    · have h1 := congrArg (fun l => (valuesOf a l).length) h
      simp only [valuesOf_map, List.length_map] at h1
      exact h1
  · rintro ⟨h1, h2⟩
    refine nest_unique a _ _ ?_ ?_
    · rw [layersOf_full, layersOf_full, fullLayers_map, fullLayers_map, h1]
    · rw [valuesOf_map, valuesOf_map]
      apply List.ext_getElem
      · simpa using h2
      · intros; rfl

theorem splits_congr (L : List (List X)) (M : List (List Y))
    (h : L.map List.length = M.map List.length) (k : Nat) : splits L k = splits M k := by
  rw [splits_eq_take, splits_eq_take, h]

/-- Transposing the concatenations is concatenating the transposed columns. -/
theorem swapAxes_flatten (Ts : List (List (List X))) (T0 : List (List X))
    (h : ∀ T ∈ Ts, T.map List.length = T0.map List.length) (hne : Ts ≠ []) :
    swapAxes T0.flatten.length (Ts.map List.flatten) =
      ((swapAxes T0.length Ts).map (fun c => swapAxes (c.headD []).length c)).flatten := by
  set L := (swapAxes T0.length Ts).map (fun c => swapAxes (c.headD []).length c) with hL
  have hreg : Regular Ts T0.length := fun T hT => by
    have := congrArg List.length (h T hT); simpa using this
  have hcol : ∀ (k : Nat) (r : List X), T0[k]? = some r → ∃ c, (swapAxes T0.length Ts)[k]? = some c ∧
      c = Ts.filterMap (fun T => T[k]?) ∧ (c.headD []).length = r.length := by
    intro k r hk
    have hk' := (List.getElem?_eq_some_iff.mp hk).1
    refine ⟨Ts.filterMap (fun T => T[k]?), ?_, rfl, ?_⟩
    · rw [swapAxes, List.getElem?_map, List.getElem?_range hk']; rfl
    · match Ts, hne, h with
      | T :: Ts, _, h =>
        have e := h T (by simp)
        have e1 := congrArg (fun l => l[k]?) e
        simp only [List.getElem?_map, hk, Option.map_some] at e1
        obtain ⟨r', e2, e3⟩ := Option.map_eq_some_iff.mp e1
        rw [List.filterMap_cons_some (f := fun row : List (List X) => row[k]?) e2]
        simpa using e3
  have hlen : L.map List.length = T0.map List.length := by
    apply List.ext_getElem?
    intro k
    rw [hL, List.getElem?_map, List.getElem?_map, List.getElem?_map]
    by_cases hk : k < T0.length
    · obtain ⟨c, e1, -, e3⟩ := hcol k T0[k] (List.getElem?_eq_getElem hk)
      rw [e1, List.getElem?_eq_getElem hk]
      simp only [Option.map_some]
      rw [(by simp [swapAxes] : (swapAxes (c.headD []).length c).length = (c.headD []).length), e3]
    · rw [List.getElem?_eq_none (by simp [swapAxes]; omega), List.getElem?_eq_none (by omega)]
      rfl
  have htot : L.flatten.length = T0.flatten.length := by
    rw [List.length_flatten, hlen, ← List.length_flatten]
  apply List.ext_getElem?
  intro i
  by_cases hi : i < T0.flatten.length
  · obtain ⟨k, r, p, h1, h2, rfl⟩ := flatten_pos T0 i hi
    have hk := (List.getElem?_eq_some_iff.mp h1).1
    obtain ⟨c, e1, e2, e3⟩ := hcol k r h1
    have e4 : L[k]? = some (swapAxes (c.headD []).length c) := by
      rw [hL, List.getElem?_map, e1]; rfl
    have e5 := flatten_get L k _ e4 p (by simp only [swapAxes, List.length_map, List.length_range]; omega)
    rw [splits_congr L T0 hlen k] at e5
    rw [e5, swapAxes, List.getElem?_map, List.getElem?_range hi, swapAxes, List.getElem?_map,
      List.getElem?_range (by omega), Option.map_some, Option.map_some, e2, List.filterMap_map,
      List.filterMap_filterMap]
    congr 1
    apply List.filterMap_congr
    intro T hT
    have hs := h T hT
    have e6 : ∃ r', T[k]? = some r' ∧ r'.length = r.length := by
      have e := congrArg (fun l => l[k]?) hs
      simp only [List.getElem?_map, h1, Option.map_some] at e
      obtain ⟨r', a1, a2⟩ := Option.map_eq_some_iff.mp e
      exact ⟨r', a1, a2⟩
    obtain ⟨r', e6, e7⟩ := e6
    have := flatten_get T k r' e6 p (by omega)
    rw [splits_congr T T0 hs k] at this
    simp only [Function.comp_apply, e6, Option.bind_some]
    exact this
  · rw [List.getElem?_eq_none (by simp only [swapAxes, List.length_map, List.length_range]; omega), List.getElem?_eq_none (by omega)]

theorem lengths_of_fullLayers {a : Nat} {T U : List (List (Nest X a))}
    (h : fullLayers (a + 1) (T : List (Nest X (a + 1))) = fullLayers (a + 1) (U : List (Nest X (a + 1)))) :
    T.map List.length = U.map List.length ∧ fullLayers a T.flatten = fullLayers a U.flatten := by
  have h1 := fullLayers_succ a T
  have h2 := fullLayers_succ a U
  rw [h1, h2] at h
  simp only [List.cons.injEq, Prod.mk.injEq] at h
  exact ⟨psum_inj _ _ h.1.1, h.2⟩

theorem zipAll_zero (Ts : List (List X)) :
    zipAll 0 (Ts : List (List (Nest X 0))) = swapAxes (Ts.headD []).length Ts := by
  unfold zipAll
  conv_rhs => rw [← List.map_id (swapAxes (Ts.headD []).length Ts)]
  rfl

/-- The rows of `zipAll`, one level down. -/
theorem zipAll_succ_flatten (a : Nat) (Ts : List (List (List (Nest X a)))) (T0 : List (List (Nest X a)))
    (hne : Ts ≠ []) (h0 : Ts.headD [] = T0)
    (h : ∀ T ∈ Ts, T.map List.length = T0.map List.length) :
    (zipAll (a + 1) (Ts : List (List (Nest X (a + 1))))).map (List.length (α := Nest (List X) a)) =
        T0.map List.length ∧
    (zipAll (a + 1) (Ts : List (List (Nest X (a + 1))))).flatten (α := Nest (List X) a) =
      zipAll a (Ts.map List.flatten) := by
  have e0 : zipAll (a + 1) (Ts : List (List (Nest X (a + 1)))) =
      (swapAxes T0.length Ts).map (fun c : List (List (Nest X a)) =>
        (swapAxes (c.headD []).length c).map (Nest.zip a)) := by
    rw [← h0]; rfl
  have e1 := swapAxes_flatten Ts T0 h hne
  have e2 : ((Ts.map List.flatten).headD []).length = T0.flatten.length := by
    match Ts, hne, h0 with
    | T :: Ts, _, h0 => simp at h0; subst h0; simp
  constructor
  · rw [e0, List.map_map]
    apply List.ext_getElem?
    intro k
    rw [List.getElem?_map, List.getElem?_map]
    by_cases hk : k < T0.length
    · match Ts, hne, h0, h with
      | T :: Ts, _, h0, h =>
        simp at h0
        subst h0
        rw [swapAxes, List.getElem?_map, List.getElem?_range hk,
          List.getElem?_eq_getElem hk]
        simp only [Option.map_some, Function.comp_apply, List.length_map]
        rw [List.filterMap_cons_some (f := fun row : List (List (Nest X a)) => row[k]?)
          (List.getElem?_eq_getElem hk)]
        simp [swapAxes]
    · rw [List.getElem?_eq_none (by simp [swapAxes]; omega), List.getElem?_eq_none (by omega)]
      rfl
  · show _ = (swapAxes ((Ts.map List.flatten).headD []).length (Ts.map List.flatten)).map (Nest.zip a)
    rw [e2, e1, e0, ← flatten_map_map, List.map_map]
    rfl

/-- The representation of `zipAll`: the layers above the leaves are those of the arguments, the
leaves are the transposed lists of leaves. -/
theorem zipAll_repr (a : Nat) (Ts : List (List (Nest X a))) (hne : Ts ≠ [])
    (h : ∀ T ∈ Ts, SameAbove a T (Ts.headD [])) :
    fullLayers a (zipAll a Ts) = fullLayers a (Ts.headD []) ∧
      valuesOf a (zipAll a Ts) =
        swapAxes (valuesOf a (Ts.headD [])).length (Ts.map (valuesOf a)) := by
  induction a with
  | zero =>
    refine ⟨rfl, ?_⟩
    have e := zipAll_zero Ts
    have e1 : ∀ V : List (Nest X 0), valuesOf 0 V = V := fun _ => rfl
    have e2 : Ts.map (valuesOf 0) = Ts := by
      conv_rhs => rw [← List.map_id Ts]
      rfl
    rw [e2]
    exact e
  | succ a ih =>
    have key : ∀ (Ts : List (List (List (Nest X a)))), Ts ≠ [] →
        (∀ T ∈ Ts, SameAbove (a + 1) (T : List (Nest X (a + 1))) (Ts.headD [])) →
        fullLayers (a + 1) (zipAll (a + 1) (Ts : List (List (Nest X (a + 1))))) =
          fullLayers (a + 1) (Ts.headD [] : List (Nest X (a + 1))) ∧
        valuesOf (a + 1) (zipAll (a + 1) (Ts : List (List (Nest X (a + 1))))) =
          swapAxes (valuesOf (a + 1) (Ts.headD [] : List (Nest X (a + 1)))).length
            (Ts.map (valuesOf (a + 1))) := by
      intro Ts hne h
      set T0 := Ts.headD [] with hT0
      have hl : ∀ T ∈ Ts, T.map List.length = T0.map List.length ∧
          SameAbove a T.flatten T0.flatten := by
        intro T hT
        obtain ⟨h1, h2⟩ := SameAbove.iff.mp (h T hT)
        obtain ⟨h3, h4⟩ := lengths_of_fullLayers h1
        exact ⟨h3, SameAbove.iff.mpr ⟨h4, h2⟩⟩
      obtain ⟨z1, z2⟩ := zipAll_succ_flatten a Ts T0 hne hT0.symm (fun T hT => (hl T hT).1)
      have hd : (Ts.map List.flatten).headD [] = T0.flatten := by
        match Ts, hne, hT0 with
        | T :: Ts, _, hT0 => simp at hT0; subst hT0; simp
      obtain ⟨i1, i2⟩ := ih (Ts.map List.flatten) (by simpa using hne) (by
        intro T hT
        obtain ⟨T', hT', rfl⟩ := List.mem_map.mp hT
        rw [hd]
        exact (hl T' hT').2)
      rw [hd] at i1 i2
      constructor
      · have f1 := fullLayers_succ a (zipAll (a + 1) (Ts : List (List (Nest X (a + 1)))))
        have f2 := fullLayers_succ a T0
        refine f1.trans (Eq.trans ?_ f2.symm)
        rw [z1, z2, i1]
      · have v1 : valuesOf (a + 1) (zipAll (a + 1) (Ts : List (List (Nest X (a + 1))))) = _ :=
          congrArg (valuesOf a) z2
        rw [v1, i2, List.map_map]
        rfl
    exact key Ts hne h

end Verif.Ragged
