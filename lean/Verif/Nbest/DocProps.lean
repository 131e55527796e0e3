import Verif.Nbest.Props
import Mathlib.Tactic.Ring
import Mathlib.Data.Rat.Defs
import Mathlib.Algebra.BigOperators.Ring.List

/-!
# `GetBestMatchingStats` against its documentation

The documentation (k2/csrc/nbest.h lines 245-340) speaks of the scores of the best matching keys.  That is what
is returned if the score of every position that is not a key is zero.
-/

namespace Verif.Nbest

variable {K : Type} [Field K]

/-- The keys that match best. -/
def bestKeys (w : List Int) (eos : Int) (counts : List Nat) (i : Nat) : List Nat :=
  (List.range w.length).filter (fun j => counts.getD j 0 ≠ 0 ∧ lcpLen (hist w eos i) (hist w eos j) = best w eos counts i)

/-- The mean of values. -/
def meanOf (v : List K) : K := if v = [] then 0 else v.sum / (v.length : Nat)

/-- The centered variance of values. -/
def varOf (v : List K) : K := if v = [] then 0 else (v.map (fun a => (a - meanOf v) * (a - meanOf v))).sum / (v.length : Nat)

theorem total_keys {M : Type} [AddCommMonoid M] (w : List Int) (eos : Int) (counts : List Nat) (i : Nat) (v : List M)
    (hv : ∀ j, j < w.length → counts.getD j 0 = 0 → v.getD j 0 = 0) :
    total v (matching w eos counts i) = ((bestKeys w eos counts i).map (fun j => v.getD j 0)).sum := by
  rw [total, matching, bestKeys, sum_filter, sum_filter]
  congr 1
  apply List.map_congr_left
  intro j hj
  have hj := List.mem_range.mp hj
  by_cases hk : counts.getD j 0 = 0
  · rw [hv j hj hk]; simp
  · have hle : lcpLen (hist w eos i) (hist w eos j) ≤ best w eos counts i := by
      apply le_foldr_max
      exact List.mem_map.mpr ⟨j, List.mem_filter.mpr ⟨List.mem_range.mpr hj, by simpa using hk⟩, rfl⟩
    by_cases h : best w eos counts i ≤ lcpLen (hist w eos i) (hist w eos j)
    · rw [if_pos h, if_pos ⟨hk, by omega⟩]
    · rw [if_neg h, if_neg]
      rintro ⟨-, h'⟩; omega

theorem sum_sq (v : List K) (m : K) :
    (v.map (fun a => (a - m) * (a - m))).sum =
      (v.map (fun a => a * a)).sum - 2 * m * v.sum + (v.length : Nat) * m * m := by
  induction v with
  | nil => simp
  | cons a v ih =>
    simp only [List.map_cons, List.sum_cons, List.length_cons, ih]
    push_cast
    ring

/-- The documented statistics: those of the keys that match best. -/
theorem bestMatching_documented_partial {tokens : List (List Int)} {scores : List K} {counts : List Nat}
    {eos mn mx maxOrder : Int} (hw : ∀ t ∈ tokens.flatten, mn ≤ t ∧ t ≤ mx) (he : mn ≤ eos ∧ eos ≤ mx)
    (hfit : mx + 2 - mn < 2 ^ 31) (ho : 2 ≤ maxOrder) (ho' : maxOrder < 2 ^ 15)
    (hs : scores.length = tokens.flatten.length) (hc : counts.length = tokens.flatten.length)
    (hone : ∀ c ∈ counts, c ≤ 1)
    (hzero : ∀ j, j < tokens.flatten.length → counts.getD j 0 = 0 → scores.getD j 0 = 0) :
    ∃ out, bestMatching tokens scores counts eos mn mx maxOrder = some out ∧
      ∀ i, i < tokens.flatten.length → counts.getD i 0 = 0 → ∃ o, out[i]? = some o ∧
        o.mean = meanOf ((bestKeys tokens.flatten eos counts i).map (fun j => scores.getD j 0)) ∧
        o.var = varOf ((bestKeys tokens.flatten eos counts i).map (fun j => scores.getD j 0)) ∧
        (0 < best tokens.flatten eos counts i → o.count = (bestKeys tokens.flatten eos counts i).length ∧
          (toBegin tokens i ≤ best tokens.flatten eos counts i → o.order = maxOrder) ∧
          (best tokens.flatten eos counts i < toBegin tokens i →
            o.order = min (best tokens.flatten eos counts i : Int) maxOrder)) ∧
        (best tokens.flatten eos counts i = 0 → o.count = 0 ∧ o.order = 0) := by
  obtain ⟨out, h1, h2, h3⟩ := bestMatching_correct (scores := scores) hw he hfit ho hs hc
  refine ⟨out, h1, fun i hi hq => ⟨_, h3 i hi hq, ?_⟩⟩
  set w := tokens.flatten with hwdef
  set ks := bestKeys w eos counts i with hks
  have e1 := total_keys w eos counts i scores hzero
  have e2 := total_keys w eos counts i (scores.map (fun v => v * v)) (by
    intro j hj hk
    have := hzero j hj hk
    rw [List.getD_eq_getElem?_getD] at this ⊢
    rw [List.getElem?_map]
    cases h : scores[j]? with
    | none => rfl
    | some a =>
      rw [h] at this
      simp only [Option.getD_some] at this
      simp [this])
  have e3 : total counts (matching w eos counts i) = ks.length := by
    rw [total_keys w eos counts i counts (fun j _ h => h), ← hks]
    have : ks.map (fun j => counts.getD j 0) = ks.map (fun _ => 1) := by
      apply List.map_congr_left
      intro j hj
      have hj' := (List.mem_filter.mp hj)
      have hj1 := List.mem_range.mp hj'.1
      have hj2 : counts.getD j 0 ≠ 0 := by
        have := hj'.2
        simp only [decide_eq_true_eq] at this
        exact this.1
      rw [List.getD_eq_getElem _ _ (by omega)] at hj2 ⊢
      have := hone _ (List.getElem_mem (show j < counts.length by omega))
      omega
    rw [this]; simp
  have e2' : ((bestKeys w eos counts i).map (fun j => (scores.map (fun v => v * v)).getD j 0)) =
      (ks.map (fun j => scores.getD j 0)).map (fun a => a * a) := by
    rw [List.map_map, ← hks]
    apply List.map_congr_left
    intro j hj
    have hj1 := List.mem_range.mp (List.mem_filter.mp hj).1
    simp only [Function.comp_apply]
    rw [List.getD_eq_getElem _ _ (show j < scores.length by omega), List.getD_eq_getElem _ _ (by simp; omega),
      List.getElem_map]
  rw [e2'] at e2
  rw [← hks] at e1
  set v := ks.map (fun j => scores.getD j 0) with hv
  have hlen : ks.length = v.length := by rw [hv, List.length_map]
  rw [hlen] at e3
  have hmean : meanAt w eos counts scores i = meanOf v := by
    rw [meanAt, meanOf, e1, e3]
    by_cases h : v = []
    · rw [if_pos h, if_pos (by rw [h]; rfl)]
    · rw [if_neg h, if_neg (by rwa [List.length_eq_zero_iff])]
  refine ⟨hmean, ?_, ?_, ?_⟩
  · show varAt w eos counts scores i = varOf v
    rw [varAt, e3, hmean, e2, e1]
    by_cases h : v.length ≤ 1
    · rw [if_pos h, varOf]
      match hvv : v, h with
      | [], _ => rfl
      | [a], _ => simp [meanOf]
    · rw [if_neg h, varOf, if_neg (by rintro h'; rw [h'] at h; simp at h), sum_sq]
  · intro hb
    have hwrap : wrap (bitsOf tokens mn mx) maxOrder = maxOrder := by
      apply wrap_eq (by omega)
      unfold bitsOf
      split
      · norm_num at ho' ⊢; omega
      · norm_num at ho' ⊢; omega
    refine ⟨?_, ?_, ?_⟩
    · show (if best w eos counts i = 0 then 0 else total counts (matching w eos counts i)) = _
      rw [if_neg (by omega), e3, hlen]
    · intro h
      show (if best w eos counts i = 0 then 0 else if toBegin tokens i ≤ best w eos counts i then maxOrder else _) = _
      rw [if_neg (by omega), if_pos h]
    · intro h
      show (if best w eos counts i = 0 then 0 else if toBegin tokens i ≤ best w eos counts i then maxOrder else _) = _
      rw [if_neg (by omega), if_neg (by omega), hwrap]
  · intro hb
    constructor
    · show (if best w eos counts i = 0 then 0 else _) = 0
      rw [if_pos hb]
    · show (if best w eos counts i = 0 then (0 : Int) else _) = 0
      rw [if_pos hb]

end Verif.Nbest
