import Verif.Ragged.EditModel
import Verif.Ragged.StackProps

/-!
# C10: `Prefix` and `Arange` keep the rows in a range
-/

namespace Verif.Ragged
open Verif.Util
variable {α : Type}

theorem arangeL_some (l : List α) (s e : Nat) (h1 : s ≤ e) (h2 : e ≤ l.length) :
    arangeL l s e = some ((l.drop s).take (e - s)) := by
  rw [arangeL, if_pos ⟨by omega, h1, h2⟩]

/-- Rows `b` to `e` (not included). -/
def rowRange {X : Type} (T : List X) (b e : Nat) : List X := (T.drop b).take (e - b)

theorem psum_range (ns : List Nat) (b e : Nat) (hb : b ≤ e) (he : e ≤ ns.length) :
    (((psum ns).drop b).take (e + 1 - b)).map (fun x => x - (ns.take b).sum) =
      psum (rowRange ns b e) := by
  have hl : (rowRange ns b e).length = e - b := by simp [rowRange]; omega
  apply List.ext_getElem?
  intro k
  by_cases hk : k ≤ e - b
  · rw [List.getElem?_map, List.getElem?_take_of_lt (by omega), List.getElem?_drop,
      psum_get ns (b + k) (by omega), psum_get _ k (by omega), Option.map_some, rowRange,
      List.take_take, Nat.min_eq_left hk, List.take_add, List.sum_append, Nat.add_sub_cancel_left]
  · rw [List.getElem?_eq_none (by simp; omega), List.getElem?_eq_none (by rw [psum_length]; omega)]

theorem sum_take_drop (ns : List Nat) (b e : Nat) (hb : b ≤ e) :
    (ns.take e).sum = (ns.take b).sum + (rowRange ns b e).sum := by
  have : e = b + (e - b) := by omega
  conv_lhs => rw [this, List.take_add, List.sum_append]
  rfl

theorem ids_range (ns : List Nat) (b e : Nat) (hb : b ≤ e) (he : e ≤ ns.length) :
    (((idsFrom 0 ns).drop (ns.take b).sum).take ((ns.take e).sum - (ns.take b).sum)).map
      (fun x => x - b) = idsFrom 0 (rowRange ns b e) := by
  have h1 : ns = ns.take b ++ (rowRange ns b e ++ ns.drop e) := by
    conv_lhs => rw [← List.take_append_drop b ns, ← List.take_append_drop (e - b) (ns.drop b),
      List.drop_drop, show b + (e - b) = e by omega]
    rfl
  have h2 : idsFrom 0 ns = idsFrom 0 (ns.take b) ++
      (idsFrom b (rowRange ns b e) ++ idsFrom (b + (rowRange ns b e).length) (ns.drop e)) := by
    conv_lhs => rw [h1, idsFrom_append, idsFrom_append, Nat.zero_add, List.length_take,
      Nat.min_eq_left (by omega)]
  rw [h2, List.drop_append_of_le_length (by simp), List.drop_of_length_le (by simp),
    List.nil_append, sum_take_drop ns b e hb, Nat.add_sub_cancel_left,
    List.take_append_of_le_length (by simp), List.take_of_length_le (by simp), idsFrom_shift,
    List.map_map]
  conv_rhs => rw [← List.map_id (idsFrom 0 (rowRange ns b e))]
  exact List.map_congr_left (fun x _ => Nat.add_sub_cancel x b)

theorem rowRange_flatten {X : Type} (T : List (List X)) (b e : Nat) (hb : b ≤ e)
    (he : e ≤ T.length) :
    (rowRange T b e).flatten =
      rowRange T.flatten ((T.map List.length).take b).sum ((T.map List.length).take e).sum := by
  have h1 : T.flatten = (T.take b).flatten ++ ((rowRange T b e).flatten ++ (T.drop e).flatten) := by
    rw [← List.flatten_append, ← List.flatten_append]
    congr 1
    conv_lhs => rw [← List.take_append_drop b T, ← List.take_append_drop (e - b) (T.drop b),
      List.drop_drop, show b + (e - b) = e by omega]
    rfl
  have h2 : ((T.map List.length).take b).sum = (T.take b).flatten.length := by
    rw [List.length_flatten, List.map_take]
  have h3 : (rowRange (T.map List.length) b e).sum = (rowRange T b e).flatten.length := by
    rw [List.length_flatten, rowRange, rowRange, List.map_take, List.map_drop]
  have h4 := sum_take_drop (T.map List.length) b e hb
  rw [h4, h2, h3]
  conv_rhs => rw [rowRange, Nat.add_sub_cancel_left, h1, List.drop_left, List.take_left]

theorem arangeGo_eq (n : Nat) (T : List (Nest α n)) (b e : Nat) (hb : b ≤ e) (he : e ≤ T.length) :
    ∃ vb ve, arangeGo (fullLayers n T) b e = some (fullLayers n (rowRange T b e), vb, ve) ∧
      vb ≤ ve ∧ ve ≤ (valuesOf n T).length ∧
      valuesOf n (rowRange T b e) = rowRange (valuesOf n T) vb ve := by
  induction n generalizing b e with
  | zero => exact ⟨b, e, rfl, hb, he, rfl⟩
  | succ n ih =>
    have hns : (T.map List.length).length = T.length := by simp
    generalize hns' : T.map List.length = ns at *
    have hmono := sum_take_drop ns b e hb
    have htot : (ns.take e).sum ≤ T.flatten.length := by
      rw [List.length_flatten, hns']
      conv_rhs => rw [← List.take_append_drop e ns, List.sum_append]
      omega
    obtain ⟨vb, ve, h1, h2, h3, h4⟩ := ih T.flatten (ns.take b).sum (ns.take e).sum (by omega) htot
    have hr := rowRange_flatten T b e hb he
    rw [hns'] at hr
    rw [← hr] at h1 h4
    refine ⟨vb, ve, ?_, h2, h3, h4⟩
    rw [fullLayers_succ, fullLayers_succ, hns']
    have e1 := arangeL_some (psum ns) b (e + 1) (by omega) (by rw [psum_length]; omega)
    have e2 := psum_get ns b (by omega)
    have e3 := psum_get ns e (by omega)
    have e4 := arangeL_some (idsFrom 0 ns) (ns.take b).sum (ns.take e).sum (by omega) (by
      rw [idsFrom_length, ← hns', ← List.length_flatten, hns']; exact htot)
    have e5 : (rowRange T b e).map List.length = rowRange ns b e := by
      rw [rowRange, List.map_take, List.map_drop, hns']; rfl
    simp only [arangeGo, e1, e2, e3, e4, h1, Option.bind_eq_bind, Option.bind_some,
      psum_range ns b e hb (by omega), ids_range ns b e hb (by omega), e5]

/-- `Arange` along an axis keeps the elements `b` to `e` of that axis, and `value_range` delimits
their values. -/
theorem arange_spec (m a : Nat) (T : List (Nest (Nest α (m + 1)) a)) (b e : Nat) (hb : b < e)
    (he : e ≤ (valuesOf a T).length) (vals : List α)
    (hv : vals = valuesOf (m + 1 + a) (T.map (Nest.join (m + 1) a))) :
    arangeRagged (fullLayers (m + 1 + a) (T.map (Nest.join (m + 1) a))) vals a b e =
      some (fullLayers (m + 1) (rowRange (valuesOf a T) b e),
        valuesOf (m + 1) (rowRange (valuesOf a T) b e)) := by
  obtain ⟨vb, ve, h1, h2, h3, h4⟩ := arangeGo_eq (m + 1) (valuesOf a T) b e (by omega) he
  rw [valuesOf_join] at hv
  have ht : totSize (fullLayers (m + 1 + a) (T.map (Nest.join (m + 1) a))) a =
      some (valuesOf a T).length := by
    rw [fullLayers_join]
    unfold totSize
    cases a with
    | zero =>
      have h0 : fullLayers 0 T = [] := rfl
      rw [if_pos rfl, h0, List.nil_append, fullLayers_succ]
      simp
    | succ a =>
      obtain ⟨pre, ns, g1, g2, g3⟩ := fullLayers_last a T
      rw [if_neg (by omega), Nat.add_sub_cancel, List.getElem?_append_left (by simp), g2,
        List.getElem?_append_right (by omega), g1, Nat.sub_self, ← g3]
      exact congrArg some (psum_getLastD ns)
  have hs : arangeShape (fullLayers (m + 1 + a) (T.map (Nest.join (m + 1) a))) a b e =
      some (fullLayers (m + 1) (rowRange (valuesOf a T) b e), vb, ve) := by
    unfold arangeShape
    rw [if_neg (by simp), ht]
    simp only [Option.bind_eq_bind, Option.bind_some]
    rw [if_pos ⟨by omega, he⟩, if_neg (by omega), fullLayers_join,
      List.drop_append_of_le_length (by simp), List.drop_of_length_le (by simp), List.nil_append, h1]
  unfold arangeRagged
  rw [hs]
  simp only [Option.bind_eq_bind, Option.bind_some]
  rw [hv, arangeL_some _ _ _ h2 h3, h4]
  rfl

/-- An empty range fails on `Ragged<T>` when its position exceeds the number of values: the
`value_range` returned is in units of rows. -/
theorem arange_empty_fails :
    ∃ (T : List (List Nat)), 1 ≤ T.length ∧
      arangeRagged (fullLayers 1 (T : List (Nest Nat 1))) (valuesOf 1 (T : List (Nest Nat 1))) 0 1 1 =
        none := ⟨[[], []], by decide, by decide⟩

theorem prefixGo_eq (n : Nat) (T : List (Nest α n)) (k : Nat) (h : k ≤ T.length) :
    prefixGo (fullLayers n T) k = some (fullLayers n (T.take k)) := by
  induction n generalizing k with
  | zero => rfl
  | succ n ih =>
    have hk : ((T.map List.length).take k).sum ≤ T.flatten.length := by
      rw [List.length_flatten]
      conv_rhs => rw [← List.take_append_drop k (T.map List.length), List.sum_append]
      omega
    have h1 := ih T.flatten ((T.map List.length).take k).sum hk
    have h2 := rowRange_flatten T 0 k (by omega) h
    simp only [rowRange, List.drop_zero, Nat.sub_zero, List.take_zero, List.sum_nil] at h2
    rw [← h2] at h1
    rw [fullLayers_succ, fullLayers_succ]
    have e1 := arangeL_some (psum (T.map List.length)) 0 (k + 1) (by omega)
      (by rw [psum_length, List.length_map]; omega)
    have e2 := psum_get (T.map List.length) k (by rw [List.length_map]; exact h)
    have e3 := arangeL_some (idsFrom 0 (T.map List.length)) 0 ((T.map List.length).take k).sum
      (by omega) (by rw [idsFrom_length, ← List.length_flatten]; exact hk)
    have e4 := psum_range (T.map List.length) 0 k (by omega) (by rw [List.length_map]; exact h)
    have e5 := ids_range (T.map List.length) 0 k (by omega) (by rw [List.length_map]; exact h)
    simp only [List.drop_zero, Nat.sub_zero, List.take_zero, List.sum_nil, rowRange,
      List.map_id_fun', id_eq] at e1 e3 e4 e5
    simp only [prefixGo, e1, e2, e3, h1, Option.bind_eq_bind, Option.bind_some, e4, e5, List.map_take]

/-- `Prefix` keeps the first `k` rows. -/
theorem prefix_spec (n : Nat) (T : List (Nest α (n + 1))) (k : Nat) :
    prefixShape (fullLayers (n + 1) T) k =
      if k ≤ T.length then some (fullLayers (n + 1) (T.take k)) else none := by
  have ht := totSize_fullLayers (n + 1) T 0 (by omega) (by omega)
  unfold prefixShape
  rw [ht]
  simp only [Option.bind_eq_bind, Option.bind_some]
  show (if k ≤ T.length then _ else _) = _
  split
  · next h => exact prefixGo_eq (n + 1) T k h
  · rfl

/-! Three axes, a range in the middle and an empty row. -/

example : arangeRagged (fullLayers 2 indexExample) (valuesOf 2 indexExample) 0 1 3 =
    some ([([0, 0, 2], [1, 1]), ([0, 1, 4], [0, 1, 1, 1])], [3, 4, 5, 6]) := by decide

example : prefixShape (fullLayers 2 indexExample) 2 =
    some [([0, 2, 2], [0, 0]), ([0, 2, 2], [0, 0])] := by decide

end Verif.Ragged
