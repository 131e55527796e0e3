import Verif.Ragged.UnstackCore
import Verif.Ragged.CatProps

/-!
# C08: `Unstack`

The specification is `padded`/`column`/`IsLongest` (`UnstackSpec.lean`): every list at the chosen axis is
filled with gaps up to the length of the longest one, and output `j` collects entry `j` of each.
`ValuesAt src e out` says that reading the values of the source at the positions `e` (the split map)
gives the values of the output.
-/

namespace Verif.Ragged
open Verif.Util
variable {α : Type}

/-- Axis `a + 1`, not the last one: output `j` has, in place of each list of lists at depth `a`, the entry
`j` of the filled list, the empty list standing for a gap.  The shape of the caller is unchanged. -/
theorem unstack_inner (m a : Nat) (padRight : Bool) (N : Nat)
    (T : List (Nest (List (List (Nest α m))) a)) (hN : IsLongest N (valuesOf a T)) :
    ∃ outs, unstack (fullLayers (m + 2 + a) (T.map (Nest.join (α := α) (m + 2) a))) (a + 1) padRight =
        some (fullLayers (m + 2 + a) (T.map (Nest.join (α := α) (m + 2) a)), outs) ∧ outs.length = N ∧
      ∀ j, j < N → ∃ e,
        outs[j]? = some (srcShape m a (T.map
          (Nest.map (fun L => (column padRight N j L).getD []) a)), e) ∧
        ValuesAt (valuesOf (m + 2 + a) (T.map (Nest.join (α := α) (m + 2) a))) e
          (valuesOf (m + 1 + a) ((T.map (Nest.map (β := List (Nest α m))
            (fun L => (column padRight N j L).getD []) a)).map (Nest.join (α := α) (m + 1) a))) := by
  have e1 : fullLayers (m + 2 + a) (T.map (Nest.join (α := α) (m + 2) a)) = _ :=
    fullLayers_join (α := α) (m + 2) a T
  obtain ⟨outs, h1, h2, h3⟩ := unstackPos_inner m (fullLayers a T) (valuesOf a T) N padRight
    (upper_total a T) hN
  rw [fullLayers_length] at h1
  refine ⟨outs, ?_, h2, ?_⟩
  · rw [e1, unstack, if_neg (by omega)]; exact h1
  · intro j hj
    obtain ⟨e, h4, h5⟩ := h3 j hj
    refine ⟨e, ?_, ?_⟩
    · rw [h4, srcShape_eq, fullLayers_map, valuesOf_map]
    · have v1 : valuesOf (m + 2 + a) (T.map (Nest.join (α := α) (m + 2) a)) = _ :=
        valuesOf_join (α := α) (m + 2) a T
      have v2 : valuesOf (m + 1 + a) ((T.map (Nest.map (β := List (Nest α m))
            (fun L => (column padRight N j L).getD []) a)).map (Nest.join (α := α) (m + 1) a)) = _ :=
        valuesOf_join (α := α) (m + 1) a _
      rw [v1, v2, valuesOf_map]
      exact h5

/-- The last axis of an array with at least three axes: output `j` keeps, in each list at depth `a`,
the entries `j` of the filled leaf lists, gaps left out.  The shape of the caller has one more axis
afterwards. -/
theorem unstack_last (a : Nat) (padRight : Bool) (N : Nat) (T : List (Nest (List (List α)) a))
    (hN : IsLongest N (valuesOf a T).flatten) :
    ∃ outs, unstack (fullLayers (2 + a) (T.map (Nest.join (α := α) 2 a))) (a + 2) padRight =
        some (fullLayers (2 + a) (T.map (Nest.join (α := α) 2 a)) ++
          [regularLayer (valuesOf (2 + a) (T.map (Nest.join (α := α) 2 a))).length 1], outs) ∧
      outs.length = N ∧
      ∀ j, j < N → ∃ e,
        outs[j]? = some (srcShape (α := α) 0 a
          (T.map (Nest.map (β := List α) (List.filterMap (column padRight N j)) a)), e) ∧
        ValuesAt (valuesOf (2 + a) (T.map (Nest.join (α := α) 2 a))) e
          (valuesOf (0 + 1 + a) ((T.map (Nest.map (β := List α)
            (List.filterMap (column padRight N j)) a)).map (Nest.join (α := α) (0 + 1) a))) := by
  have e1 : fullLayers (2 + a) (T.map (Nest.join (α := α) 2 a)) = _ := fullLayers_join (α := α) 2 a T
  have e2 : fullLayers 2 (valuesOf a T : List (Nest α 2)) = _ := fullLayers_succ 1 (α := α) (valuesOf a T)
  have e3 : fullLayers 1 ((valuesOf a T).flatten : List (Nest α 1)) = _ :=
    fullLayers_succ 0 (α := α) (valuesOf a T).flatten
  have e4 : fullLayers (2 + a) (T.map (Nest.join (α := α) 2 a)) =
      (fullLayers a T ++ [lay (valuesOf a T)]) ++ [lay (valuesOf a T).flatten] := by
    rw [e1, e2, e3, List.append_assoc]; rfl
  have v1 : valuesOf (2 + a) (T.map (Nest.join (α := α) 2 a)) = (valuesOf a T).flatten.flatten :=
    valuesOf_join (α := α) 2 a T
  obtain ⟨outs, h1, h2, h3⟩ := unstackPos_last a T (fullLayers a T ++ [lay (valuesOf a T)]) N padRight
    (Or.inr (lay_tot _ _)) (by rw [topOf, if_neg (by simp)]) hN
  have hl : (fullLayers a T ++ [lay (valuesOf a T)]).length + 1 = a + 2 := by
    rw [List.length_append, fullLayers_length]; rfl
  rw [hl] at h1
  refine ⟨outs, ?_, h2, ?_⟩
  · rw [e4, unstack, if_neg (by omega), h1, v1, List.append_assoc, List.append_assoc, List.append_assoc]
    rfl
  · intro j hj
    obtain ⟨e, h4, h5⟩ := h3 j hj
    refine ⟨e, ?_, ?_⟩
    · rw [h4, srcShape_eq, fullLayers_map, valuesOf_map]
      have e5 : fullLayers (0 + 1) ((valuesOf a T).map (List.filterMap (column padRight N j)) :
        List (Nest α (0 + 1))) = _ := fullLayers_succ 0 (α := α) _
      rw [e5]; rfl
    · have v2 : valuesOf (0 + 1 + a) ((T.map (Nest.map (β := List α)
            (List.filterMap (column padRight N j)) a)).map (Nest.join (α := α) (0 + 1) a)) = _ :=
        valuesOf_join (α := α) (0 + 1) a _
      rw [v1, v2, valuesOf_map]
      exact h5

/-- The last axis of an array with two axes: output `j` is a single list. -/
theorem unstack_last_two (padRight : Bool) (N : Nat) (V : List (List α)) (hN : IsLongest N V) :
    ∃ outs, unstack (fullLayers 1 (V : List (Nest α 1))) 1 padRight =
        some (fullLayers 1 (V : List (Nest α 1)) ++ [regularLayer V.flatten.length 1], outs) ∧
      outs.length = N ∧
      ∀ j, j < N → ∃ e,
        outs[j]? = some (fullLayers 1 ([V.filterMap (column padRight N j)] : List (Nest α 1)), e) ∧
        ValuesAt V.flatten e (V.filterMap (column padRight N j)) := by
  have e1 : fullLayers 1 (V : List (Nest α 1)) = _ := fullLayers_succ 0 (α := α) V
  have hf : ([V] : List (List (List α))).flatten = V := by simp
  have hv : valuesOf 0 ([V] : List (Nest (List (List α)) 0)) = [V] := rfl
  obtain ⟨outs, h1, h2, h3⟩ := unstackPos_last 0 ([V] : List (List (List α))) [] N padRight
    (Or.inl rfl) (by
      rw [hv, hf, topOf, if_pos rfl]
      change [trivialLayer V.length] = [lay [V]]
      rw [← lay_trivial]) (by rw [hv, hf]; exact hN)
  rw [hv, hf] at h1
  refine ⟨outs, ?_, h2, ?_⟩
  · rw [unstack, if_neg (by omega), e1]; exact h1
  · intro j hj
    obtain ⟨e, h4, h5⟩ := h3 j hj
    rw [hv] at h4 h5
    refine ⟨e, ?_, ?_⟩
    · have e5 : fullLayers 1 ([V.filterMap (column padRight N j)] : List (Nest α 1)) = _ :=
        fullLayers_succ 0 (α := α) _
      rw [h4, e5]; rfl
    · rw [hf] at h5
      simpa using h5

/-- Axis 0 of an array with at least three axes: the outputs are the rows of the source. -/
theorem unstack_zero (n : Nat) (padRight : Bool) (T : List (List (List (Nest α n)))) :
    ∃ outs, unstack (fullLayers (n + 2) (T : List (Nest α (n + 2)))) 0 padRight =
        some (fullLayers (n + 2) (T : List (Nest α (n + 2))), outs) ∧ outs.length = T.length ∧
      ∀ (j : Nat) (t : List (List (Nest α n))), T[j]? = some t → ∃ e,
        outs[j]? = some (fullLayers (n + 1) (t : List (Nest α (n + 1))), e) ∧
        ValuesAt (valuesOf (n + 2) (T : List (Nest α (n + 2)))) e
          (valuesOf (n + 1) (t : List (Nest α (n + 1)))) := by
  let R : List (List Int) := ((List.range T.length).map (fun i : Nat => (i : Int))).map (fun x => [x])
  have hR : R.flatten = (List.range T.length).map (fun i : Nat => (i : Int)) := by
    simp only [R]
    generalize (List.range T.length).map (fun i : Nat => (i : Int)) = l
    induction l with
    | nil => rfl
    | cons x l ih => rw [List.map_cons, List.flatten_cons, ih]; rfl
  have hlay : regularLayer T.length 1 = lay R := by
    simp only [R]
    rw [lay_singletons]; simp
  have hin : ∀ i ∈ R.flatten, -1 ≤ i ∧ i < (T.length : Int) := by
    intro i hi
    rw [hR] at hi
    obtain ⟨k, hk, rfl⟩ := List.mem_map.mp hi
    have := List.mem_range.mp hk
    omega
  have hsel := select_axis0 (n + 1) (T : List (Nest α (n + 2))) R hin (by
    intro r hr
    obtain ⟨x, _, rfl⟩ := List.mem_map.mp hr
    simp)
  have hd : totSize (fullLayers (n + 2) (T : List (Nest α (n + 2)))) 0 = some T.length :=
    totSize_fullLayers (n + 2) (T : List (Nest α (n + 2))) 0 (by omega) (by omega)
  have hrow : ∀ (j : Nat) (t : List (List (Nest α n))), T[j]? = some t → ∃ e,
      indexAxis0 (layersOf (n + 2) (T : List (Nest α (n + 2)))) [(j : Int)] =
        some (fullLayers (n + 2) ([t] : List (Nest α (n + 2))), e) ∧
      ValuesAt (valuesOf (n + 2) (T : List (Nest α (n + 2)))) e
          (valuesOf (n + 1) (t : List (Nest α (n + 1)))) := by
    intro j t ht
    have hj := (List.getElem?_eq_some_iff.mp ht).1
    obtain ⟨e, h1, h2⟩ := index_axis0 (n + 1) (T : List (Nest α (n + 2))) [(j : Int)] (by
      intro i hi
      rw [List.mem_singleton] at hi
      subst hi
      exact ⟨by omega, by exact_mod_cast hj⟩)
    have hp : pick (α := Nest α (n + 1)) T [(j : Int)] = [t] := by
      unfold pick
      rw [List.map_singleton, if_neg (by omega), Int.toNat_natCast]
      congr 1
      exact (congrArg (fun o : Option (List (List (Nest α n))) => o.getD []) ht)
    rw [hp] at h1 h2
    refine ⟨e, h1, ?_⟩
    have : valuesOf (n + 2) ([t] : List (Nest α (n + 2))) = valuesOf (n + 1) (t : List (Nest α (n + 1))) := by
      change valuesOf (n + 1) (([t] : List (List (List (Nest α n)))).flatten : List (Nest α (n + 1))) = _
      congr 1
      simp
    rw [← this]
    exact h2
  have hget : ∀ j, R[j]? = if j < T.length then some [(j : Int)] else none := by
    intro j
    simp only [R, List.getElem?_map]
    by_cases hj : j < T.length
    · rw [List.getElem?_range hj, if_pos hj]; rfl
    · rw [List.getElem?_eq_none (by simpa using hj), if_neg hj]; rfl
  obtain ⟨outs, hout⟩ := mapM_exists (f := indexAxis0 (layersOf (n + 2) (T : List (Nest α (n + 2)))))
    (l := R) (by
      intro r hr
      obtain ⟨j, hj⟩ := List.mem_iff_getElem?.mp hr
      rw [hget] at hj
      by_cases h : j < T.length
      · rw [if_pos h] at hj
        obtain rfl := Option.some.inj hj
        obtain ⟨e, he, _⟩ := hrow j T[j] (List.getElem?_eq_getElem h)
        exact ⟨_, he⟩
      · rw [if_neg h] at hj; simp at hj)
  obtain ⟨o1, o2⟩ := mapM_get hout
  have hRl : R.length = T.length := by simp [R]
  have hrm : ∀ (t : List (List (Nest α n))) (e : List Nat),
      (do let s ← removeAxis (fullLayers (n + 2) ([t] : List (Nest α (n + 2))), e).1 0
          some (s, (fullLayers (n + 2) ([t] : List (Nest α (n + 2))), e).2)) =
        some (fullLayers (n + 1) (t : List (Nest α (n + 1))), e) := by
    intro t e
    have := removeAxis_zero n ([t] : List (List (List (Nest α n))))
    have hf : ([t] : List (List (List (Nest α n)))).flatten = t := by simp
    rw [hf] at this
    simp only [this, Option.bind_eq_bind, Option.bind_some]
  have hel : ∀ (j : Nat) (t : List (List (Nest α n))), T[j]? = some t → ∃ e,
      outs[j]? = some (fullLayers (n + 2) ([t] : List (Nest α (n + 2))), e) ∧
      ValuesAt (valuesOf (n + 2) (T : List (Nest α (n + 2)))) e
          (valuesOf (n + 1) (t : List (Nest α (n + 1)))) := by
    intro j t ht
    obtain ⟨e, he, hv⟩ := hrow j t ht
    refine ⟨e, ?_, hv⟩
    rw [o2 j [(j : Int)] (by rw [hget, if_pos (List.getElem?_eq_some_iff.mp ht).1]), he]
  obtain ⟨res, hres⟩ := mapM_exists (f := fun o : Shape × List Nat => do
        let s ← removeAxis o.1 0
        some (s, o.2)) (l := outs) (by
    intro o ho
    obtain ⟨j, hj⟩ := List.mem_iff_getElem?.mp ho
    have hlt : j < T.length := by
      rw [← hRl, ← o1]; exact (List.getElem?_eq_some_iff.mp hj).1
    obtain ⟨e, he, _⟩ := hel j T[j] (List.getElem?_eq_getElem hlt)
    obtain rfl := Option.some.inj (hj.symm.trans he)
    exact ⟨_, hrm _ _⟩)
  obtain ⟨r1, r2⟩ := mapM_get hres
  refine ⟨res, ?_, by rw [r1, o1, hRl], ?_⟩
  · have hl : ¬ (fullLayers (n + 2) (T : List (Nest α (n + 2)))).length = 1 := by
      rw [fullLayers_length]; omega
    rw [hR, ← hlay] at hsel
    rw [unstack, if_pos rfl, hd, Option.bind_eq_bind, Option.bind_some, if_neg hl]
    rw [show selectAxis0 (fullLayers (n + 2) (T : List (Nest α (n + 2)))) (regularLayer T.length 1)
      ((List.range T.length).map (fun i : Nat => (i : Int))) = some outs from hsel.trans hout]
    rw [Option.bind_eq_bind, Option.bind_some, hres]; rfl
  · intro j t ht
    obtain ⟨e, he, hv⟩ := hel j t ht
    exact ⟨e, by rw [r2 j _ he, hrm], hv⟩

/-- Axis 0 of an array with two axes: each output is an array with two axes and one row. -/
theorem unstack_zero_two (padRight : Bool) (V : List (List α)) :
    ∃ outs, unstack (fullLayers 1 (V : List (Nest α 1))) 0 padRight =
        some (fullLayers 1 (V : List (Nest α 1)), outs) ∧ outs.length = V.length ∧
      ∀ (j : Nat) (r : List α), V[j]? = some r → ∃ e,
        outs[j]? = some (fullLayers 1 ([r] : List (Nest α 1)), e) ∧ ValuesAt V.flatten e r := by
  have e1 : fullLayers 1 (V : List (Nest α 1)) = _ := fullLayers_succ 0 (α := α) V
  have e1' : fullLayers 1 (V : List (Nest α 1)) = [lay V] := e1
  have e2 : fullLayers (0 + 2) ([V] : List (Nest α (0 + 2))) = _ :=
    fullLayers_succ (0 + 1) (α := α) ([V] : List (List (List α)))
  have hf : ([V] : List (List (List α))).flatten = V := by simp
  have hc : composeShapes [trivialLayer V.length] [lay V] =
      some (fullLayers (0 + 2) ([V] : List (Nest α (0 + 2)))) := by
    rw [composeShapes, if_pos ⟨by simp, by simp, by rw [lay_dim]; rfl⟩, e2, hf,
      show fullLayers (0 + 1) (V : List (Nest α (0 + 1))) = _ from e1', ← lay_trivial]
    rfl
  obtain ⟨outs, h1, h2, h3⟩ := unstackPos_inner (α := α) 0 [] [V] V.length padRight (Or.inl rfl)
    ⟨by simp, Or.inr ⟨V, by simp, rfl⟩⟩
  refine ⟨outs, ?_, h2, ?_⟩
  · rw [e1', unstack, if_pos rfl, lay_dim, Option.bind_eq_bind, Option.bind_some, if_pos (by rfl), hc,
      Option.bind_eq_bind, Option.bind_some]
    have h1' : unstackPos (fullLayers (0 + 2) ([V] : List (Nest α (0 + 2)))) 1 padRight =
      some (fullLayers (0 + 2) ([V] : List (Nest α (0 + 2))), outs) := h1
    rw [h1']; rfl
  · intro j r hr
    have hj := (List.getElem?_eq_some_iff.mp hr).1
    obtain ⟨e, h4, h5⟩ := h3 j hj
    have hcol : column padRight V.length j V = some r :=
      (column_iff padRight V.length j V r).mpr ⟨j, hr, by unfold place; split <;> omega⟩
    rw [List.map_singleton, hcol] at h4 h5
    refine ⟨e, h4, ?_⟩
    rw [hf] at h5
    have h5' : ValuesAt V.flatten e ([r] : List (List α)).flatten := h5
    simpa using h5'

/-- `Unstack` undoes `Stack` on axis 0. -/
theorem unstack_stack_zero (n : Nat) (padRight : Bool) (Ts : List (List (List (Nest α n)))) (h : Ts ≠ []) :
    ∃ (S : Shape) (mm : List Nat) (outs : List (Shape × List Nat)),
       stackAxis0 (Ts.map (fun T => fullLayers (n + 1) (T : List (Nest α (n + 1))))) = some (S, mm) ∧
      unstack S 0 padRight = some (S, outs) ∧
      outs.map Prod.fst = Ts.map (fun T => fullLayers (n + 1) (T : List (Nest α (n + 1)))) := by
  obtain ⟨mm, h1, _⟩ := stack_axis0 n (Ts : List (List (Nest α (n + 1)))) h
  obtain ⟨outs, h3, h4, h5⟩ := unstack_zero n padRight Ts
  refine ⟨_, mm, outs, h1, h3, ?_⟩
  apply List.ext_getElem?
  intro j
  rw [List.getElem?_map, List.getElem?_map]
  by_cases hj : j < Ts.length
  · have ht : Ts[j]? = some Ts[j] := List.getElem?_eq_getElem hj
    obtain ⟨e, he, _⟩ := h5 j _ ht
    rw [he, ht]; rfl
  · rw [List.getElem?_eq_none (by omega), List.getElem?_eq_none (by omega)]; rfl

/-- `Unstack` undoes `Stack` on a later axis, when there is at least one list above that axis. -/
theorem unstack_stack_partial (dev : Dev) (debug : Bool) (m a : Nat) (padRight : Bool)
    (Ts : List (List (Nest (List (Nest α m)) a))) (hne : Ts ≠ [])
    (h : ∀ T ∈ Ts, SameAbove a T (Ts.headD [])) (hpos : valuesOf a (Ts.headD []) ≠ []) :
    ∃ (S : Shape) (mm : List Nat) (outs : List (Shape × List Nat)),
       stackAxis dev debug (Ts.map (srcShape m a)) (a + 1) = some (S, mm) ∧
      unstack S (a + 1) padRight = some (S, outs) ∧ outs.map Prod.fst = Ts.map (srcShape m a) ∧
      ∀ (j : Nat) (T : List (Nest (List (Nest α m)) a)), Ts[j]? = some T →
        ∃ o : Shape × List Nat, outs[j]? = some o ∧
        ValuesAt (valuesOf (m + 2 + a) ((zipAll a Ts).map (Nest.join (α := α) (m + 2) a))) o.2
          (valuesOf (m + 1 + a) (T.map (Nest.join (α := α) (m + 1) a))) := by
  obtain ⟨mm, h1, _⟩ := stack_axis dev debug m a Ts hne h
  obtain ⟨_, s2⟩ := srcs_common m a Ts h
  obtain ⟨z1, z2⟩ := zipAll_repr a Ts hne h
  obtain ⟨q1, q2⟩ := swapAxes_regular (Ts.map (valuesOf a)) _ s2
  rw [List.length_map] at q1
  have hN : IsLongest Ts.length (valuesOf a (zipAll a Ts)) := by
    rw [z2]
    refine ⟨fun L hL => Nat.le_of_eq (q1 L hL), Or.inr ?_⟩
    have hp : 0 < (valuesOf a (Ts.headD [])).length := List.length_pos_iff.mpr hpos
    obtain ⟨r, hr, _⟩ := swapAxes_row (Ts.map (valuesOf a)) _ s2 0 hp
    exact ⟨r, List.mem_of_getElem? hr, q1 r (List.mem_of_getElem? hr)⟩
  obtain ⟨outs, h3, h4, h5⟩ := unstack_inner m a padRight Ts.length (zipAll a Ts) hN
  have hcol : ∀ (j : Nat) (T : List (Nest (List (Nest α m)) a)), Ts[j]? = some T →
      (valuesOf a (zipAll a Ts)).map (fun L => (column padRight Ts.length j L).getD []) =
        valuesOf a T := by
    intro j T hT
    have hVj : (Ts.map (valuesOf a))[j]? = some (valuesOf a T) := by rw [List.getElem?_map, hT]; rfl
    have hlen := s2 _ (List.mem_of_getElem? hVj)
    rw [z2]
    apply List.ext_getElem?
    intro k
    by_cases hk : k < (valuesOf a (Ts.headD [])).length
    · obtain ⟨r, g1, g2, g3⟩ := swapAxes_row (Ts.map (valuesOf a)) _ s2 k hk
      have e : (valuesOf a T)[k]? = some (valuesOf a T)[k] := List.getElem?_eq_getElem (by omega)
      have hj := (List.getElem?_eq_some_iff.mp hT).1
      rw [List.length_map] at g2
      have hc : column padRight Ts.length j r = some (valuesOf a T)[k] :=
        (column_iff padRight Ts.length j r _).mpr ⟨j, by rw [g3 j _ hVj, e], by
          unfold place; split <;> omega⟩
      rw [List.getElem?_map, g1, Option.map_some, hc, e]; rfl
    · rw [List.getElem?_eq_none (by rw [List.length_map, q2]; omega), List.getElem?_eq_none (by omega)]
  refine ⟨_, mm, outs, h1, h3, ?_, ?_⟩
  · apply List.ext_getElem?
    intro j
    rw [List.getElem?_map, List.getElem?_map]
    by_cases hj : j < Ts.length
    · have ht : Ts[j]? = some Ts[j] := List.getElem?_eq_getElem hj
      obtain ⟨e, he, _⟩ := h5 j hj
      have hS := h _ (List.mem_of_getElem? ht)
      rw [he, ht, Option.map_some, Option.map_some]
      congr 1
      change srcShape m a _ = srcShape m a Ts[j]
      rw [srcShape_eq, srcShape_eq, fullLayers_map, valuesOf_map, hcol j _ ht, z1,
        (SameAbove.iff.mp hS).1]
    · rw [List.getElem?_eq_none (by omega), List.getElem?_eq_none (by omega)]; rfl
  · intro j T hT
    obtain ⟨e, he, hv⟩ := h5 j (List.getElem?_eq_some_iff.mp hT).1
    refine ⟨_, he, ?_⟩
    have v1 : valuesOf (m + 1 + a) (((zipAll a Ts).map (Nest.map (β := List (Nest α m))
            (fun L => (column padRight Ts.length j L).getD []) a)).map (Nest.join (α := α) (m + 1) a)) = _ :=
        valuesOf_join (α := α) (m + 1) a _
    have v2 : valuesOf (m + 1 + a) (T.map (Nest.join (α := α) (m + 1) a)) = _ :=
        valuesOf_join (α := α) (m + 1) a _
    rw [v1, valuesOf_map, hcol j T hT] at hv
    rw [v2]
    exact hv

/-- `Stack` of the outputs of `Unstack` on axis 0 is the source (ragged_ops.h 215-216). -/
theorem stack_unstack_zero (n : Nat) (padRight : Bool) (T : List (List (List (Nest α n)))) (h : T ≠ []) :
    ∃ (outs : List (Shape × List Nat)) (mm : List Nat), unstack (fullLayers (n + 2) (T : List (Nest α (n + 2)))) 0 padRight =
        some (fullLayers (n + 2) (T : List (Nest α (n + 2))), outs) ∧
      stackAxis0 (outs.map Prod.fst) = some (fullLayers (n + 2) (T : List (Nest α (n + 2))), mm) := by
  obtain ⟨S, mm, outs, h1, h2, h3⟩ := unstack_stack_zero n padRight T h
  obtain ⟨mm', h1', _⟩ := stack_axis0 n (T : List (List (Nest α (n + 1)))) h
  obtain ⟨rfl, rfl⟩ := Prod.mk.inj (Option.some.inj (h1.symm.trans h1'))
  exact ⟨outs, mm, h2, by rw [h3]; exact h1⟩

set_option synthInstance.maxSize 2000

/-! ## Disagreements with the documentation -/

/-- ragged_ops.h 227-228 says that `pad_right` makes no difference on the last axis.  It does. -/
theorem unstack_last_pad_matters : ∃ src : Shape, src.length = 2 ∧
    (unstack src 2 true).map (fun r => r.2) ≠ (unstack src 2 false).map (fun r => r.2) :=
  ⟨fullLayers (α := Nat) 2 [[[1, 2], [3]]], by decide +kernel, by decide +kernel⟩

/-- On the last axis the shape of the caller, passed by reference, is replaced by one with another
axis: a second call with the same arguments then gives other outputs. -/
theorem unstack_last_changes_source : ∃ (src src' : Shape) (r r' : List (Shape × List Nat)),
    unstack src 1 true = some (src', r) ∧
    src' ≠ src ∧ unstack src' 1 true = some (src', r') ∧ r' ≠ r :=
  ⟨_, fullLayers (α := Nat) 1 [[1, 2], [3]] ++ [([0, 1, 2, 3], [0, 1, 2])],
    [(fullLayers (α := Nat) 1 [[1, 3]], [0, 2]), (fullLayers (α := Nat) 1 [[2]], [1])],
    [(fullLayers (α := Nat) 1 [[1], [3]], [0, 2]), (fullLayers (α := Nat) 1 [[2], []], [1])],
    (by decide +kernel : unstack (fullLayers (α := Nat) 1 [[1, 2], [3]]) 1 true = _),
    by decide +kernel, by decide +kernel, by decide +kernel⟩

/-- `Stack` of empty sources and then `Unstack` on axis 1 loses the number of sources. -/
theorem unstack_stack_empty : ∃ (srcs : List Shape) (S : Shape) (mm : List Nat), srcs.length = 2 ∧ stackAxis .cpu true srcs 1 = some (S, mm) ∧
    unstack S 1 true = some (S, []) :=
  ⟨[([([0], [])] : Shape), [([0], [])]], [([0], []), ([0], [])], [], rfl, by decide +kernel, by decide +kernel⟩

/-- `SelectAxis0` with an empty list of indexes leaves entries of the row_splits of that output unwritten,
although selecting nothing is meaningful (`indexAxis0` returns the empty array).  `Unstack` never
passes an empty list. -/
theorem select_empty_row : ∃ (src : Shape) (R : List (List Int)), (∀ i ∈ R.flatten, -1 ≤ i ∧ i < 1) ∧
    totSize src 0 = some 1 ∧ selectAxis0 src (lay R) R.flatten = none ∧
    ∀ r ∈ R, (indexAxis0 (src.map Prod.fst) r).isSome :=
  ⟨fullLayers (α := Nat) 1 [[1, 2]], [[0], []], by decide +kernel, by decide +kernel, by decide +kernel,
    by decide +kernel⟩

/-! ## Examples, ragged_ops.h 252-287 -/

def unstackExample : List (List (List Nat)) := [[[1, 2], [3]], [[4]]]

example : IsLongest 2 unstackExample :=
  ⟨by decide, Or.inr ⟨_, by unfold unstackExample; simp; exact Or.inl rfl, rfl⟩⟩

example : (unstack (fullLayers (α := Nat) 2 unstackExample) 0 true).map (fun r => r.2) =
    some [(fullLayers (α := Nat) 1 [[1, 2], [3]], [0, 1, 2]), (fullLayers (α := Nat) 1 [[4]], [3])] := by
  decide +kernel

example : (unstack (fullLayers (α := Nat) 2 unstackExample) 1 true).map (fun r => r.2) =
    some [(fullLayers (α := Nat) 1 [[1, 2], [4]], [0, 1, 3]), (fullLayers (α := Nat) 1 [[3], []], [2])] := by
  decide +kernel

example : (unstack (fullLayers (α := Nat) 2 unstackExample) 2 true).map (fun r => r.2) =
    some [(fullLayers (α := Nat) 1 [[1, 3], [4]], [0, 2, 3]), (fullLayers (α := Nat) 1 [[2], []], [1])] := by
  decide +kernel

example : (unstack (fullLayers (α := Nat) 2 unstackExample) 1 false).map (fun r => r.2) =
    some [(fullLayers (α := Nat) 1 [[1, 2], []], [0, 1]), (fullLayers (α := Nat) 1 [[3], [4]], [2, 3])] := by
  decide +kernel

example : valuesOf 1 ((catExample : List (List (Nest (List (Nest Nat 0)) 1))).headD []) ≠ [] := by
  unfold catExample; decide

end Verif.Ragged
