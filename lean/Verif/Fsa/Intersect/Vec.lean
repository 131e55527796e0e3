import Verif.Fsa.Intersect.Single
import Verif.Fsa.Intersect.Creator

/-!
# Vectors of FSAs
-/

namespace Verif.Fsa.Isect
open Verif.Ragged Verif.Util Verif.Fsa.Top Verif.Fsa.Bat
variable {W : Type}

theorem row_pos (f : List (List (Arc W))) (j : Nat) (a : Arc W) (h : f.flatten[j]? = some a) :
    ∃ (s k : Nat) (row : List (Arc W)), f[s]? = some row ∧ row[k]? = some a ∧ j = lpos f s + k := by
  have hj := (List.getElem?_eq_some_iff.mp h).1
  rw [List.length_flatten] at hj
  obtain ⟨s, n, k, h4, h5, h6⟩ := ids_pos _ j hj
  rw [List.getElem?_map] at h4
  obtain ⟨row, hrow, rfl⟩ := Option.map_eq_some_iff.mp h4
  refine ⟨s, k, row, hrow, ?_, h6⟩
  rw [← row_at f s k row hrow h5, ← h6]
  exact h

theorem hostView_flat (T : List (List (List (Arc W)))) (r : Nat) (f : List (List (Arc W)))
    (hf : T[r]? = some f) (hok : RowsOk f) (hs : RowSorted f) :
    ∃ a, hostView (flat T) r = some a ∧ View (rowsFsa f) a (base T r) := by
  have hend : off T r + f.length ≤ T.flatten.length := by
    rw [← off_succ T r f hf, ← off_length T]
    exact off_mono T (List.getElem?_eq_some_iff.mp hf).1
  have hb := flat_sp1 T r (Nat.le_of_lt (List.getElem?_eq_some_iff.mp hf).1)
  have he := flat_sp1_succ T r f hf
  have h1 := flat_sp2 T (off T r) (by omega)
  have h2 := flat_sp2 T (off T r + f.length) hend
  have hidx : ∀ s, s ≤ f.length → ((flat T).sp2.drop (off T r))[s]? = some (base T r + lpos f s) := by
    intro s hs
    rw [List.getElem?_drop, flat_sp2 T _ (by omega), apos_local T r s f hf hs]
    rfl
  refine ⟨⟨f.length, (flat T).sp2.drop (off T r), (flat T).arcs⟩, ?_, rfl, ?_, ?_⟩
  · unfold hostView
    simp only [hb, he, h1, h2, Option.bind_eq_bind, Option.bind_some, Nat.add_sub_cancel_left]
  · show ((flat T).sp2.drop (off T r))[0]? = some (base T r)
    rw [hidx 0 (Nat.zero_le _)]
    simp [lpos]
  · intro s hslt
    have hslt : s < f.length := hslt
    obtain ⟨row, hrow⟩ : ∃ row, f[s]? = some row := ⟨_, List.getElem?_eq_getElem hslt⟩
    have hsucc : lpos f (s + 1) = lpos f s + row.length :=
      take_succ_sum _ _ _ (by rw [List.getElem?_map, hrow]; rfl)
    refine ⟨row.zipIdx.map (fun x => (base T r + lpos f s + x.2, x.1)), ?_, ?_, ?_, ?_⟩
    · unfold leaving
      show (((flat T).sp2.drop (off T r))[s]?).bind (fun b =>
        (((flat T).sp2.drop (off T r))[s + 1]?).bind (fun e =>
          (List.range' b (e - b)).mapM (fun j => ((flat T).arcs[j]?).map (fun x => (j, x))))) = _
      rw [hidx s (by omega), hidx (s + 1) (by omega), Option.bind_some, Option.bind_some, hsucc,
        ← Nat.add_assoc, Nat.add_sub_cancel_left]
      apply mapM_some_of
      · simp
      · intro k j hj
        have hk := (List.getElem?_eq_some_iff.mp hj).1
        rw [List.length_range'] at hk
        rw [List.getElem?_range' hk] at hj
        have hj : base T r + lpos f s + k = j := by simpa using hj
        subst hj
        have harc := flat_arc T (off T r + s) k row (by rw [state_at T r s f hf hslt]; exact hrow) hk
        rw [apos_local T r s f hf (by omega)] at harc
        have harc : (flat T).arcs[base T r + lpos f s + k]? = row[k]? := harc
        rw [harc, List.getElem?_map, List.getElem?_zipIdx, List.getElem?_eq_getElem hk]
        simp
    · rintro ⟨i, x⟩
      constructor
      · intro hx
        obtain ⟨⟨y, k⟩, hy, heq⟩ := List.mem_map.mp hx
        simp only [Prod.mk.injEq] at heq
        obtain ⟨rfl, rfl⟩ := heq
        have hk := List.mem_zipIdx_iff_getElem?.mp hy
        simp only at hk
        have hkl := (List.getElem?_eq_some_iff.mp hk).1
        refine ⟨lpos f s + k, by simp [Nat.add_assoc], ?_, (hok s row hrow y (List.mem_of_getElem? hk)).1⟩
        show f.flatten[lpos f s + k]? = some y
        rw [show lpos f s = ((f.map List.length).take s).sum from rfl, row_at f s k row hrow hkl]
        exact hk
      · rintro ⟨j, hi, hj, hsrc⟩
        simp only at hi hj hsrc
        obtain ⟨s', k, row', h3, h4, rfl⟩ := row_pos f j x hj
        have hs' := (hok s' row' h3 x (List.mem_of_getElem? h4)).1
        have : s' = s := by omega
        subst this
        rw [hrow] at h3
        obtain rfl := Option.some.inj h3
        refine List.mem_map.mpr ⟨(x, k), List.mem_zipIdx_iff_getElem?.mpr h4, ?_⟩
        simp only [Prod.mk.injEq, and_true]
        omega
    · rw [List.map_map, List.Nodup, List.pairwise_map]
      have := zipIdx_snd_nodup row
      rw [List.Nodup, List.pairwise_map] at this
      apply this.imp
      intro x y hxy h
      simp only [Function.comp] at h
      omega
    · rw [List.pairwise_map]
      have := hs row (List.mem_of_getElem? hrow)
      rw [← List.zipIdx_map_fst 0 row, List.pairwise_map] at this
      exact this

theorem offsetMap_flat (T : List (List (List (Arc W)))) (r : Nat) (hr : r < T.length) (m : List Int) :
    offsetMap (flat T) r m = some (shiftMap (base T r) m) := by
  obtain ⟨f, hf⟩ : ∃ f, T[r]? = some f := ⟨_, List.getElem?_eq_getElem hr⟩
  have h1 := flat_sp1 T r (by omega)
  have hle : off T r ≤ T.flatten.length := by rw [← off_length T]; exact off_mono T (by omega)
  have h2 := flat_sp2 T (off T r) hle
  have h3 := apos_local T r 0 f hf (Nat.zero_le _)
  rw [Nat.add_zero] at h3
  unfold offsetMap
  simp only [h1, h2, Option.bind_eq_bind, Option.bind_some, h3]
  simp [shiftMap, base, lpos]

theorem strides_pick (Ta Tb : List (List (List (Arc W)))) (ha : Ta ≠ []) (hb : Tb ≠ [])
    (hn : Ta.length = Tb.length ∨ Ta.length = 1 ∨ Tb.length = 1) :
    ∃ st, strides Ta.length Tb.length = some st ∧ ∀ i < max Ta.length Tb.length,
      i * st.1 = pick Ta i ∧ i * st.2 = pick Tb i ∧ pick Ta i < Ta.length ∧ pick Tb i < Tb.length := by
  have h1 := List.length_pos_of_ne_nil ha
  have h2 := List.length_pos_of_ne_nil hb
  unfold strides pick
  by_cases h : Ta.length = Tb.length
  · refine ⟨(1, 1), by rw [if_pos h], ?_⟩
    intro i hi
    rw [h] at hi ⊢
    rw [Nat.max_self] at hi
    by_cases h3 : Tb.length = 1
    · rw [if_pos h3]; simp; omega
    · rw [if_neg h3]; simp; omega
  · by_cases h3 : Ta.length = 1
    · refine ⟨(0, 1), by rw [if_neg h, if_pos h3], ?_⟩
      intro i hi
      rw [if_pos h3, if_neg (by omega)]
      refine ⟨by simp, by simp, by omega, by omega⟩
    · have h4 : Tb.length = 1 := by omega
      refine ⟨(1, 0), by rw [if_neg h, if_neg h3, if_pos h4], ?_⟩
      intro i hi
      rw [if_pos h4, if_neg h3]
      refine ⟨by simp, by simp, by omega, by omega⟩

theorem rowsOk_dst {f : List (List (Arc W))} (h : RowsOk f) : ∀ a ∈ f.flatten, a.dst < f.length := by
  intro a ha
  obtain ⟨row, hrow, harow⟩ := List.mem_flatten.mp ha
  obtain ⟨s, hs⟩ := List.mem_iff_getElem?.mp hrow
  exact (h s row hs a harow).2

theorem intersectAt_spec [AddCommMonoid W] (eps : Bool) (Ta Tb : List (List (List (Arc W))))
    (ia ib : Nat) (f g : List (List (Arc W))) (hf : Ta[ia]? = some f) (hg : Tb[ib]? = some g)
    (kf : Input f) (kg : Input g) :
    ∃ x : List (List (Arc W)) × List Int × List Int,
      intersectAt (flat Ta) (flat Tb) eps ia ib = some (outOf x) ∧ RowsOk x.1 ∧
      IsIntersection eps (rowsFsa f) (rowsFsa g) (rowsFsa x.1) x.2.1 x.2.2 := by
  obtain ⟨a, ha, va⟩ := hostView_flat Ta ia f hf kf.ok kf.sorted
  obtain ⟨b, hb, vb⟩ := hostView_flat Tb ib g hg kg.ok kg.sorted
  obtain ⟨rows, ma, mb, h1, h2, h3⟩ := intersectHost_spec eps (rowsFsa f) (rowsFsa g) a b _ _ va vb
    kf.labels kg.labels (rowsOk_dst kf.ok) (rowsOk_dst kg.ok) kf.final kg.final kf.size kg.size
  refine ⟨(rows, ma, mb), ?_, h2, h3⟩
  unfold intersectAt
  simp only [ha, hb, Option.bind_eq_bind, Option.bind_some]
  exact h1

theorem intersect_vec [AddCommMonoid W] (eps : Bool) (Ta Tb : List (List (List (Arc W))))
    (ha : Ta ≠ []) (hb : Tb ≠ []) (hn : Ta.length = Tb.length ∨ Ta.length = 1 ∨ Tb.length = 1)
    (ka : ∀ f ∈ Ta, Input f) (kb : ∀ f ∈ Tb, Input f) :
    ∃ R : List (List (List (Arc W)) × List Int × List Int),
      R.length = max Ta.length Tb.length ∧
      intersect (flat Ta) (flat Tb) eps = some (flat (R.map Prod.fst),
        joinShift ((List.range R.length).map (fun i => base Ta (pick Ta i))) (R.map (fun x => x.2.1)),
        joinShift ((List.range R.length).map (fun i => base Tb (pick Tb i))) (R.map (fun x => x.2.2))) ∧
      ∀ (i : Nat) (x : List (List (Arc W)) × List Int × List Int), R[i]? = some x →
        ∃ f g, Ta[pick Ta i]? = some f ∧ Tb[pick Tb i]? = some g ∧ RowsOk x.1 ∧
          IsIntersection eps (rowsFsa f) (rowsFsa g) (rowsFsa x.1) x.2.1 x.2.2 := by
  obtain ⟨st, hst, hpick⟩ := strides_pick Ta Tb ha hb hn
  have hpa := List.length_pos_of_ne_nil ha
  have hpb := List.length_pos_of_ne_nil hb
  have key : ∀ i, i < max Ta.length Tb.length → ∃ x : List (List (Arc W)) × List Int × List Int,
      intersectAt (flat Ta) (flat Tb) eps (i * st.1) (i * st.2) = some (outOf x) ∧
      ∃ f g, Ta[pick Ta i]? = some f ∧ Tb[pick Tb i]? = some g ∧ RowsOk x.1 ∧
        IsIntersection eps (rowsFsa f) (rowsFsa g) (rowsFsa x.1) x.2.1 x.2.2 := by
    intro i hi
    obtain ⟨h1, h2, h3, h4⟩ := hpick i hi
    obtain ⟨f, hf⟩ : ∃ f, Ta[pick Ta i]? = some f := ⟨_, List.getElem?_eq_getElem h3⟩
    obtain ⟨g, hg⟩ : ∃ g, Tb[pick Tb i]? = some g := ⟨_, List.getElem?_eq_getElem h4⟩
    rw [h1, h2]
    obtain ⟨x, h5, h6, h7⟩ := intersectAt_spec eps Ta Tb _ _ f g hf hg
      (ka f (List.mem_of_getElem? hf)) (kb g (List.mem_of_getElem? hg))
    exact ⟨x, h5, f, g, hf, hg, h6, h7⟩
  choose! X hX1 hX2 using key
  have hRl : ((List.range (max Ta.length Tb.length)).map X).length = max Ta.length Tb.length := by simp
  refine ⟨(List.range (max Ta.length Tb.length)).map X, hRl, ?_, ?_⟩
  · have hla : (flat Ta).sp1.length - 1 = Ta.length := by rw [flat_sp1_length]; rfl
    have hlb : (flat Tb).sp1.length - 1 = Tb.length := by rw [flat_sp1_length]; rfl
    have houts : (List.range (max Ta.length Tb.length)).mapM
        (fun i => intersectAt (flat Ta) (flat Tb) eps (i * st.1) (i * st.2)) =
        some (((List.range (max Ta.length Tb.length)).map X).map outOf) := by
      apply mapM_some_of
      · simp
      · intro i b hb
        obtain ⟨hlt, hb⟩ := List.getElem?_eq_some_iff.mp hb
        rw [List.getElem_range] at hb
        subst hb
        rw [List.length_range] at hlt
        rw [hX1 i hlt]
        simp [hlt]
    have hvec := createVec_flat ((List.range (max Ta.length Tb.length)).map X) (by
      intro h
      rw [h] at hRl
      simp at hRl
      omega)
    have hmapA : ((((List.range (max Ta.length Tb.length)).map X).map outOf).zipIdx).mapM
        (fun x => offsetMap (flat Ta) (x.2 * st.1) x.1.ma) =
        some (List.zipWith shiftMap
          ((List.range ((List.range (max Ta.length Tb.length)).map X).length).map
            (fun i => base Ta (pick Ta i)))
          (((List.range (max Ta.length Tb.length)).map X).map (fun x => x.2.1))) := by
      apply mapM_some_of
      · simp
      · rintro i ⟨o, k⟩ hi
        have hlt := (List.getElem?_eq_some_iff.mp hi).1
        simp only [List.length_zipIdx, List.length_map, List.length_range] at hlt
        rw [List.getElem?_zipIdx, List.getElem?_map, List.getElem?_map, List.getElem?_range hlt] at hi
        simp only [Option.map_some, Option.some.injEq, Prod.mk.injEq, Nat.zero_add] at hi
        obtain ⟨rfl, rfl⟩ := hi
        obtain ⟨h1, h2, h3, h4⟩ := hpick i hlt
        simp only
        rw [h1, offsetMap_flat Ta _ h3]
        simp [List.getElem?_zipWith, hlt, outOf]
    have hmapB : ((((List.range (max Ta.length Tb.length)).map X).map outOf).zipIdx).mapM
        (fun x => offsetMap (flat Tb) (x.2 * st.2) x.1.mb) =
        some (List.zipWith shiftMap
          ((List.range ((List.range (max Ta.length Tb.length)).map X).length).map
            (fun i => base Tb (pick Tb i)))
          (((List.range (max Ta.length Tb.length)).map X).map (fun x => x.2.2))) := by
      apply mapM_some_of
      · simp
      · rintro i ⟨o, k⟩ hi
        have hlt := (List.getElem?_eq_some_iff.mp hi).1
        simp only [List.length_zipIdx, List.length_map, List.length_range] at hlt
        rw [List.getElem?_zipIdx, List.getElem?_map, List.getElem?_map, List.getElem?_range hlt] at hi
        simp only [Option.map_some, Option.some.injEq, Prod.mk.injEq, Nat.zero_add] at hi
        obtain ⟨rfl, rfl⟩ := hi
        obtain ⟨h1, h2, h3, h4⟩ := hpick i hlt
        simp only
        rw [h2, offsetMap_flat Tb _ h4]
        simp [List.getElem?_zipWith, hlt, outOf]
    unfold intersect
    simp only [hla, hlb]
    rw [if_neg (by omega)]
    simp only [hst, houts, hvec, hmapA, hmapB, Option.bind_eq_bind, Option.bind_some]
    rfl
  · intro i x hx
    have hlt := (List.getElem?_eq_some_iff.mp hx).1
    rw [hRl] at hlt
    rw [List.getElem?_map, List.getElem?_range hlt] at hx
    obtain rfl := Option.some.inj hx
    exact hX2 i hlt

end Verif.Fsa.Isect
