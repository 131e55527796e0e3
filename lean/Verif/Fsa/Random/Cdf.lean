import Verif.Fsa.Random.Model
import Verif.Ragged.ReduceProps
import Mathlib.Algebra.Order.BigOperators.Group.List
import Mathlib.Tactic.Linarith
import Mathlib.Tactic.FieldSimp
import Mathlib.Tactic.Ring

/-!
# `GetArcCdf`
-/

namespace Verif.Fsa.Rp
open Verif.Ragged Verif.Util Verif.Fsa.Bat Verif.Fsa.Sco

/-- A kernel over all elements of a ragged array. -/
theorem mapM_rows {β : Type} (out : List (List β)) (n : Nat) (hn : n = out.flatten.length) (f : Nat → Option β)
    (h : ∀ (g k : Nat) (row : List β) (y : β), out[g]? = some row → row[k]? = some y → f (splits out g + k) = some y) :
    (List.range n).mapM f = some out.flatten := by
  apply mapM_some_of
  · simp [hn]
  · intro i b hb
    have hi : i < n := by have := (List.getElem?_eq_some_iff.mp hb).1; simpa using this
    rw [List.getElem?_range hi] at hb
    obtain rfl := Option.some.inj hb
    obtain ⟨g, row, k, h1, h2, h3⟩ := flatten_pos out i (by omega)
    have h4 := flatten_get out g row h1 k h2
    rw [h3, h4, h g k row row[k] h1 (List.getElem?_eq_getElem h2), List.getElem?_eq_getElem h2]

theorem splits_map {α β : Type} (U : List (List α)) (f : List α → List β) (hf : ∀ w ∈ U, (f w).length = w.length) (g : Nat) :
    splits (U.map f) g = splits U g := by
  unfold splits
  rw [← List.map_take, List.map_map]
  congr 1
  apply List.map_congr_left
  intro w hw
  exact hf w (List.mem_of_mem_take hw)

theorem length_map_flatten {α β : Type} (U : List (List α)) (f : List α → List β) (hf : ∀ w ∈ U, (f w).length = w.length) :
    (U.map f).flatten.length = U.flatten.length := by
  rw [← splits_length, ← splits_length, List.length_map, splits_map U f hf]

variable {W K : Type} [Field K] [LinearOrder K] [IsStrictOrderedRing K]

/-- The cumulative distribution of a row of weights. -/
def cdfRow (w : List K) : List K := (List.range w.length).map (fun k => (w.take k).sum / w.sum)

@[simp] theorem cdfRow_length (w : List K) : (cdfRow w).length = w.length := by simp [cdfRow]

theorem cdfRow_get (w : List K) (k : Nat) (h : k < w.length) : (cdfRow w)[k]? = some ((w.take k).sum / w.sum) := by
  simp [cdfRow, h]

theorem take_add_sum (w : List K) (k : Nat) (x : K) (h : w[k]? = some x) :
    (w.take (k + 1)).sum = (w.take k).sum + x := by
  rw [List.take_add_one, h, List.sum_append]; simp

theorem take_sum_le (w : List K) (hw : ∀ x ∈ w, 0 ≤ x) {a b : Nat} (h : a ≤ b) : (w.take a).sum ≤ (w.take b).sum := by
  have h1 : w.take b = w.take a ++ (w.take b).drop a := by
    conv_lhs => rw [← List.take_append_drop a (w.take b), List.take_take, Nat.min_eq_left h]
  rw [h1, List.sum_append]
  have : 0 ≤ ((w.take b).drop a).sum := List.sum_nonneg (fun x hx => hw x (List.mem_of_mem_take (List.mem_of_mem_drop hx)))
  linarith

theorem take_sum_nonneg (w : List K) (hw : ∀ x ∈ w, 0 ≤ x) (a : Nat) : 0 ≤ (w.take a).sum :=
  List.sum_nonneg (fun x hx => hw x (List.mem_of_mem_take hx))

theorem take_sum_le_sum (w : List K) (hw : ∀ x ∈ w, 0 ≤ x) (a : Nat) : (w.take a).sum ≤ w.sum := by
  rcases Nat.lt_or_ge a w.length with h | h
  · have := take_sum_le w hw h.le
    rwa [List.take_length] at this
  · rw [List.take_of_length_le h]

theorem foldl_add (w : List K) (x : K) : w.foldl (fun val elem => elem + val) x = x + w.sum := by
  induction w generalizing x with
  | nil => simp
  | cons a l ih => rw [List.foldl_cons, ih, List.sum_cons]; ring

theorem sum_div (w : List K) (c : K) : (w.map (fun x => x / c)).sum = w.sum / c := by
  induction w with
  | nil => simp
  | cons a l ih => rw [List.map_cons, List.sum_cons, ih, List.sum_cons, add_div]

theorem fixLoop_le (cdf : List K) (cutoff m : K) (k : Nat) : ∀ (next : Nat),
    (∀ i, next ≤ i → i < next + k → ∃ x, cdf[i]? = some x ∧ m ≤ x) →
    fixLoop cdf cutoff next k m = some m := by
  induction k with
  | zero => intro next _; rfl
  | succ k ih =>
    intro next h
    obtain ⟨x, hx, hm⟩ := h next (by omega) (by omega)
    have h1 : (if x < m then x else m) = m := if_neg (not_lt.mpr hm)
    have h2 := ih (next + 1) (fun i h1 h2 => h i (by omega) (by omega))
    simp only [fixLoop, hx, Option.bind_eq_bind, Option.bind_some, h1, h2, ite_self]

section
variable (low : K) (hlow : 0 < low) (v : FsaVec W) (U : List (List K)) (hU : ∀ w ∈ U, ∀ x ∈ w, 0 ≤ x)
  (hsp : v.sp2 = psum (U.map List.length)) (har : v.arcs.length = U.flatten.length) (hid1 : v.id1.length = U.length)
  (hid : ∀ (g k : Nat) (w : List K), U[g]? = some w → k < w.length → v.id2[splits U g + k]? = some g)
include hlow hU hsp har hid1 hid

theorem arcCdf_eq : arcCdf low v U.flatten = some (U.map cdfRow).flatten := by
  have hst : segmentedReduce (· + ·) low v.sp2 U.flatten = some (U.map (fun w => low + w.sum)) := by
    rw [hsp, segmentedReduce_eq]
    simp only [foldl_add]
  set pr : List K → List K := fun w => w.map (fun x => x / (low + w.sum)) with hpr
  have hprl : ∀ w ∈ U, (pr w).length = w.length := fun w _ => by simp [hpr]
  have hpdf : arcPdf v.id2 U.flatten (U.map (fun w => low + w.sum)) = some (U.map pr).flatten := by
    unfold arcPdf
    refine mapM_rows (U.map pr) _ (length_map_flatten U pr hprl).symm _ ?_
    intro g k row y hg hy
    rw [splits_map U pr hprl]
    obtain ⟨w, hw, rfl⟩ : ∃ w, U[g]? = some w ∧ pr w = row := by simpa using hg
    have hk : k < w.length := by
      have := (List.getElem?_eq_some_iff.mp hy).1
      simpa [hpr] using this
    have e : (U.map (fun w => low + w.sum))[g]? = some (low + w.sum) := by simp [hw]
    rw [flatten_get U g w hw k hk, hid g k w hw hk, List.getElem?_eq_getElem hk]
    simp only [Option.bind_eq_bind, Option.bind_some, e]
    rw [← hy]
    simp [hpr, hk]
  have hcdf : exclusiveSumRows v.sp2 (U.map pr).flatten = some (U.map (fun w => beforeSums (pr w))).flatten := by
    have h1 : v.sp2 = psum ((U.map pr).map List.length) := by
      rw [hsp, List.map_map]
      congr 1
      apply List.map_congr_left
      intro w hw
      exact (hprl w hw).symm
    rw [h1, exclusive_sum_cpu, List.map_map]
    rfl
  have hbl : ∀ w ∈ U, (beforeSums (pr w)).length = w.length := fun w _ => by simp [beforeSums, hpr]
  have hbget : ∀ (w : List K) (k : Nat), k < w.length → (beforeSums (pr w))[k]? = some ((w.take k).sum / (low + w.sum)) := by
    intro w k hk
    simp only [beforeSums, hpr, List.length_map, List.getElem?_map, List.getElem?_range hk, Option.map_some, ← List.map_take,
      sum_div]
  set iv : List K → K := fun w => if w.length = 0 then 1 else if 0 < w.sum / (low + w.sum) then 1 / (w.sum / (low + w.sum)) else 1
    with hiv
  have hinv : (List.range v.id1.length).mapM (invTot v.sp2 (U.map pr).flatten (U.map (fun w => beforeSums (pr w))).flatten) =
      some (U.map iv) := by
    rw [hid1]
    apply mapM_some_of
    · simp
    · intro i b hb
      have hi : i < U.length := by have := (List.getElem?_eq_some_iff.mp hb).1; simpa using this
      rw [List.getElem?_range hi] at hb
      obtain rfl := Option.some.inj hb
      have hw := List.getElem?_eq_getElem hi
      generalize U[i] = w at hw
      have hs := splits_succ U i w hw
      unfold invTot
      rw [hsp, psum_splits U i (by omega), psum_splits U (i + 1) (by omega), hs, List.getElem?_map, hw]
      simp only [Option.bind_eq_bind, Option.bind_some, Option.map_some]
      by_cases h0 : w.length = 0
      · rw [if_neg (by omega)]
        simp only [hiv]
        rw [if_pos h0]
      · rw [if_pos (by omega)]
        have e1 : (U.map (fun w => beforeSums (pr w)))[i]? = some (beforeSums (pr w)) := by simp [hw]
        have e2 : (U.map pr)[i]? = some (pr w) := by simp [hw]
        have g1 := flatten_get _ i _ e1 (w.length - 1) (by
          rw [hbl w (List.mem_of_getElem? hw)]; omega)
        have g2 := flatten_get _ i _ e2 (w.length - 1) (by
          rw [hprl w (List.mem_of_getElem? hw)]; omega)
        rw [splits_map U _ hbl, hbget w _ (by omega)] at g1
        rw [splits_map U _ hprl] at g2
        have hlt : w.length - 1 < w.length := by omega
        have g3 : (pr w)[w.length - 1]? = some (w[w.length - 1] / (low + w.sum)) := by
          simp only [hpr]
          rw [List.getElem?_map, List.getElem?_eq_getElem hlt]; rfl
        rw [g3] at g2
        rw [show splits U i + w.length - 1 = splits U i + (w.length - 1) by omega, g1, g2]
        simp only [Option.bind_some]
        have hsum : (w.take (w.length - 1)).sum + w[w.length - 1] = w.sum := by
          have h1 := take_add_sum w (w.length - 1) _ (List.getElem?_eq_getElem hlt)
          rw [Nat.sub_add_cancel (by omega), List.take_length] at h1
          exact h1.symm
        rw [← add_div, hsum]
        simp only [hiv]
        rw [if_neg h0]
  have hcell : ∀ w ∈ U, ∀ k < w.length, (w.take k).sum / (low + w.sum) * iv w = (w.take k).sum / w.sum := by
    intro w hw k hk
    have hS : 0 ≤ w.sum := List.sum_nonneg (hU w hw)
    have hls : 0 < low + w.sum := by linarith
    have hne : w.length ≠ 0 := by omega
    simp only [hiv, hne, if_false]
    rcases hS.eq_or_lt with h | h
    · have h1 := take_sum_nonneg w (hU w hw) k
      have h2 := take_sum_le_sum w (hU w hw) k
      have h3 : (w.take k).sum = 0 := by linarith
      rw [h3]; simp
    · rw [if_pos (div_pos h hls)]
      field_simp
  have hcl : ∀ w ∈ U, (cdfRow w).length = w.length := fun w _ => cdfRow_length w
  have hsc : scaleCdf v.id2 (U.map (fun w => beforeSums (pr w))).flatten (U.map iv) = some (U.map cdfRow).flatten := by
    unfold scaleCdf
    refine mapM_rows (U.map cdfRow) _ (by rw [length_map_flatten U _ hbl, length_map_flatten U _ hcl]) _ ?_
    intro g k row y hg hy
    rw [splits_map U _ hcl]
    obtain ⟨w, hw, rfl⟩ : ∃ w, U[g]? = some w ∧ cdfRow w = row := by simpa using hg
    have hk : k < w.length := by have := (List.getElem?_eq_some_iff.mp hy).1; simpa using this
    have hwm := List.mem_of_getElem? hw
    have e1 : (U.map (fun w => beforeSums (pr w)))[g]? = some (beforeSums (pr w)) := by simp [hw]
    have g1 := flatten_get _ g _ e1 k (by rw [hbl w hwm]; exact hk)
    rw [splits_map U _ hbl, hbget w k hk] at g1
    rw [hid g k w hw hk, Option.bind_eq_bind, Option.bind_some, g1, Option.bind_eq_bind, Option.bind_some,
      List.getElem?_map, hw]
    simp only [Option.map_some, Option.bind_eq_bind, Option.bind_some]
    rw [cdfRow_get w k hk] at hy
    rw [hcell w hwm k hk, hy]
  have hfix : (List.range (U.map cdfRow).flatten.length).mapM (fixCdf v.sp2 v.id2 (U.map cdfRow).flatten) =
      some (U.map cdfRow).flatten := by
    refine mapM_rows (U.map cdfRow) _ rfl _ ?_
    intro g k row y hg hy
    rw [splits_map U _ hcl]
    obtain ⟨w, hw, rfl⟩ : ∃ w, U[g]? = some w ∧ cdfRow w = row := by simpa using hg
    have hk : k < w.length := by have := (List.getElem?_eq_some_iff.mp hy).1; simpa using this
    have hwm := List.mem_of_getElem? hw
    have hgl := (List.getElem?_eq_some_iff.mp hw).1
    have hget : ∀ i < w.length, (U.map cdfRow).flatten[splits U g + i]? = some ((w.take i).sum / w.sum) := by
      intro i hi
      have := flatten_get _ g _ hg i (by rw [cdfRow_length]; exact hi)
      rw [splits_map U _ hcl, cdfRow_get w i hi] at this
      exact this
    have hS : 0 ≤ w.sum := List.sum_nonneg (hU w hwm)
    rw [cdfRow_get w k hk] at hy
    obtain rfl := Option.some.inj hy
    have hl := fixLoop_le (U.map cdfRow).flatten ((w.take k).sum / w.sum + 1 / 10000) ((w.take k).sum / w.sum)
      (w.length - (k + 1)) (splits U g + k + 1) (by
        intro i h1 h2
        obtain ⟨d, rfl⟩ : ∃ d, i = splits U g + d := ⟨i - splits U g, by omega⟩
        exact ⟨_, hget d (by omega), div_le_div_of_nonneg_right (take_sum_le w (hU w hwm) (by omega)) hS⟩)
    have hle : ¬ 1 < (w.take k).sum / w.sum := by
      rw [not_lt]
      rcases hS.eq_or_lt with h | h
      · rw [← h]; simp
      · rw [div_le_one h]; exact take_sum_le_sum w (hU w hwm) k
    unfold fixCdf
    simp only [hid g k w hw hk, hsp, psum_splits U (g + 1) (by omega), splits_succ U g w hw, hget k hk,
      Option.bind_eq_bind, Option.bind_some]
    rw [show splits U g + w.length - (splits U g + k + 1) = w.length - (k + 1) by omega, hl]
    simp [hle]
  unfold arcCdf
  rw [if_neg (by rw [har]; simp)]
  simp only [hst, hpdf, hcdf, hinv, hsc, Option.bind_eq_bind, Option.bind_some]
  exact hfix
end

end Verif.Fsa.Rp
