import Verif.Ragged.IndexAxisProps

/-! # The indexes that `UniqueSequences` returns, row by row -/

namespace Verif.Ragged
variable {X Y : Type} (hash : List Int → Int)

/-- The numbers, in a sub-list, of the sequences kept from it. -/
def keptRow (t : List (List Int)) : List Nat := sel (flagsRow hash t) (orderRow (t.map hash) 0 t.length)

theorem orderRow_shift (H : List Int) (s n : Nat) :
    orderRow H s n = (orderRow (H.drop s) 0 n).map (s + ·) := by
  rw [orderRow, orderRow, List.map_mergeSort (s := fun a b => notLess (H.getD a 0) (H.getD b 0))]
  · congr 1
    rw [List.range'_eq_map_range, List.range'_eq_map_range, List.map_map]
    apply List.map_congr_left
    intro a _
    simp
  · intro a _ b _
    simp only [List.getD_eq_getElem?_getD, List.getElem?_drop]

theorem orderRow_congr (H H' : List Int) (s n : Nat) (h : ∀ a, s ≤ a → a < s + n → H.getD a 0 = H'.getD a 0) :
    orderRow H s n = orderRow H' s n := by
  have e : orderRow H s n = (orderRow H' s n).map id := by
    rw [orderRow, orderRow, List.map_mergeSort (s := fun a b => notLess (H.getD a 0) (H.getD b 0)), List.map_id]
    intro a ha b hb
    rw [List.mem_range'_1] at ha hb
    simp only [id]
    rw [h a ha.1 ha.2, h b hb.1 hb.2]
  rw [e, List.map_id]

theorem globalIdx_range (V : List (List X)) (R : List (List Nat)) (h : R.length = V.length) (s : Nat) :
    globalIdx s V R = ((List.range V.length).map (fun i =>
      (R.getD i []).map ((s + ((V.map List.length).take i).sum) + ·))).flatten := by
  induction V generalizing R s with
  | nil =>
    obtain rfl : R = [] := List.eq_nil_of_length_eq_zero (by simpa using h)
    rfl
  | cons row V ih =>
    cases R with
    | nil => simp at h
    | cons is R =>
      rw [globalIdx, ih R (by simpa using h), List.length_cons, List.range_succ_eq_map, List.map_cons,
        List.flatten_cons, List.map_map]
      simp only [List.map_cons, List.take_zero, List.sum_nil, Nat.add_zero, List.getD_cons_zero]
      congr 2
      apply List.map_congr_left
      intro i _
      simp only [Function.comp_apply, List.getD_cons_succ, List.take_succ_cons, List.sum_cons, Nat.add_assoc]

/-- The positions of the kept sequences are the numbers of the sequences of the rows. -/
theorem indexes_rows (T : List (List (List Int))) :
    sel (flagsAll hash T) (orderAll hash T) = globalIdx 0 T (T.map (keptRow hash)) := by
  rw [globalIdx_range _ _ (by simp), flagsAll, orderAll, sel_flatten_rows]
  · congr 1
    apply List.ext_getElem?
    intro i
    rw [List.getElem?_zipWith]
    by_cases hi : i < T.length
    · have ht := List.getElem?_eq_getElem hi
      generalize T[i] = t at ht
      simp only [List.getElem?_map, List.getElem?_range hi, ht, Option.map_some, List.getD_eq_getElem?_getD,
        Option.getD_some, Nat.zero_add]
      rw [keptRow, sel_map]
      congr 2
      rw [orderRow_shift]
      congr 1
      apply orderRow_congr
      intro a _ ha
      rw [Nat.zero_add] at ha
      rw [List.getD_eq_getElem?_getD, List.getElem?_drop, List.getElem?_map, row_at T i a t ht ha,
        List.getD_eq_getElem?_getD, List.getElem?_map]
    · rw [List.getElem?_eq_none (by simp; omega), List.getElem?_eq_none (by simp; omega),
        List.getElem?_eq_none (by simp; omega)]
  · rw [List.map_map, List.map_map]
    have := orderAll_rows hash T
    refine Eq.trans ?_ this.symm
    apply List.map_congr_left
    intro t _
    exact flagsRow_length hash t

theorem keptRow_lt (t : List (List Int)) : ∀ i ∈ keptRow hash t, i < t.length := by
  intro i hi
  have := (orderRow_mem _ _ _ i).mp ((sel_sublist _ _).mem hi)
  omega

theorem inRows_kept (V : List (List X)) (T : List (List (List Int))) (h : V.map List.length = T.map List.length) :
    InRows V (T.map (keptRow hash)) := by
  induction V generalizing T with
  | nil =>
    have : T = [] := by simpa using h.symm
    subst this
    exact List.Forall₂.nil
  | cons row V ih =>
    cases T with
    | nil => simp at h
    | cons t T =>
      rw [List.map_cons, List.map_cons, List.cons.injEq] at h
      refine List.Forall₂.cons ?_ (ih T h.2)
      intro i hi
      rw [h.1]
      exact keptRow_lt hash t i hi

theorem globalIdx_congr (V : List (List X)) (V' : List (List Y)) (h : V.map List.length = V'.map List.length)
    (R : List (List Nat)) (s : Nat) : globalIdx s V R = globalIdx s V' R := by
  induction V generalizing V' R s with
  | nil =>
    have : V' = [] := by simpa using h.symm
    subst this
    cases R <;> rfl
  | cons row V ih =>
    cases V' with
    | nil => simp at h
    | cons row' V' =>
      rw [List.map_cons, List.map_cons, List.cons.injEq] at h
      cases R with
      | nil => rfl
      | cons is R => rw [globalIdx, globalIdx, ih V' h.2, h.1]

theorem picks_map (f : X → Y) (V : List (List X)) (R : List (List Nat)) :
    picks (V.map (List.map f)) R = (picks V R).map (List.map f) := by
  induction V generalizing R with
  | nil => cases R <;> rfl
  | cons row V ih =>
    cases R with
    | nil => rfl
    | cons is R =>
      rw [List.map_cons, picks, picks, List.map_cons, ih]
      congr 1
      rw [List.map_filterMap]
      simp only [List.getElem?_map]

theorem mem_picks (V : List (List X)) (R : List (List Nat)) (r : Nat) (v q : List X) (hv : V[r]? = some v)
    (hq : (picks V R)[r]? = some q) : ∀ x ∈ q, x ∈ v := by
  induction V generalizing R r with
  | nil => simp at hv
  | cons row V ih =>
    cases R with
    | nil => simp [picks] at hq
    | cons is R =>
      rw [picks] at hq
      cases r with
      | zero =>
        simp only [List.getElem?_cons_zero, Option.some.injEq] at hv hq
        subst hv hq
        intro x hx
        obtain ⟨i, _, h⟩ := List.mem_filterMap.mp hx
        exact List.mem_of_getElem? h
      | succ r => exact ih R r (by simpa using hv) (by simpa using hq)

theorem picks_kept_row (t : List (List Int)) :
    (keptRow hash t).filterMap (fun i => t[i]?) = uniqRow hash t := by
  have h := orderRow_map hash [t] 0 t rfl
  simp only [List.flatten_cons, List.flatten_nil, List.append_nil, List.take_zero, List.sum_nil] at h
  rw [uniqRow, ← h, ← sel_map]
  apply List.map_injective_iff.mpr (Option.some_injective _)
  rw [picks_row _ _ (keptRow_lt hash t), List.map_map, keptRow]
  apply List.map_congr_left
  intro i hi
  have := keptRow_lt hash t i hi
  rw [Function.comp_apply, List.getD_eq_getElem?_getD, List.getElem?_eq_getElem this, Option.getD_some]

theorem picks_kept (T : List (List (List Int))) : picks T (T.map (keptRow hash)) = T.map (uniqRow hash) := by
  induction T with
  | nil => rfl
  | cons t T ih => rw [List.map_cons, picks, ih, picks_kept_row, List.map_cons]

end Verif.Ragged
