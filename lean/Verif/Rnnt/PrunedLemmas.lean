import Verif.Rnnt.PrunedModel
import Verif.Rnnt.RangesProps
import Verif.Rnnt.MutualInfoProps
import Verif.Util.MapM

/-! Helper lemmas for C45. -/

namespace Verif.Rnnt
open Verif.Util
variable {W V A L : Type}

/-- Rolling a padded row moves it to its place. -/
theorem rollBy_pad [Zero W] (row : List W) (S : Nat) (b : Int) (hb : 0 ≤ b)
    (hlen : b + row.length ≤ S + 1) (j : Nat) (hj : j ≤ S) :
    (rollBy (row ++ List.replicate (S + 1 - row.length) 0) b).getD j 0 =
      if b ≤ j ∧ (j : Int) < b + row.length then row.getD (j - b.toNat) 0 else 0 := by
  have hn : (row ++ List.replicate (S + 1 - row.length) (0 : W)).length = S + 1 := by
    simp; omega
  simp only [rollBy, hn]
  rw [List.getD_eq_getElem?_getD, List.getElem?_map, List.getElem?_range (by omega)]
  simp only [Option.map_some, Option.getD_some]
  by_cases h1 : b ≤ j
  · have e : (((j : Int) - b) % ((S + 1 : Nat) : Int)).toNat = j - b.toNat := by
      rw [Int.emod_eq_of_lt (by omega) (by omega)]; omega
    rw [e]
    by_cases h2 : (j : Int) < b + row.length
    · rw [if_pos ⟨h1, h2⟩, List.getD_eq_getElem?_getD, List.getD_eq_getElem?_getD,
        List.getElem?_append_left (by omega)]
    · rw [if_neg (by omega), List.getD_eq_getElem?_getD, List.getElem?_append_right (by omega),
        List.getElem?_replicate]
      split <;> rfl
  · have e : (((j : Int) - b) % ((S + 1 : Nat) : Int)).toNat = j + (S + 1) - b.toNat := by
      have : ((j : Int) - b) % ((S + 1 : Nat) : Int) = (j : Int) - b + (S + 1 : Nat) := by
        rw [← Int.add_emod_right, Int.emod_eq_of_lt (by omega) (by omega)]
      rw [this]; omega
    rw [e, if_neg (by omega), List.getD_eq_getElem?_getD,
      List.getElem?_append_right (by omega), List.getElem?_replicate]
    split <;> rfl

/-- The documented form of one range. -/
def rangeRow (b : Int) (r : Nat) : List Int := (List.range r).map fun (k : Nat) => b + (k : Int)

theorem gather_range {α : Type} (src : List α) (b : Int) (r : Nat) (hb : 0 ≤ b)
    (h : b + r ≤ src.length) :
    ∃ out, gather src (rangeRow b r) = some out ∧ out.length = r ∧
      ∀ k, k < r → out[k]? = src[b.toNat + k]? := by
  have hex : ∃ out, gather src (rangeRow b r) = some out := by
    apply mapM_exists
    intro i hi
    simp only [rangeRow, List.mem_map, List.mem_range] at hi
    obtain ⟨k, hk, rfl⟩ := hi
    exact ⟨src[(b + (k : Int)).toNat]'(by omega), by
      rw [if_neg (by omega), List.getElem?_eq_getElem]⟩
  obtain ⟨out, hout⟩ := hex
  obtain ⟨h1, h2⟩ := mapM_get hout
  refine ⟨out, hout, by simp [h1, rangeRow], ?_⟩
  intro k hk
  rw [h2 k (b + (k : Int)) (by simp [rangeRow, hk]), if_neg (by omega)]
  congr 1; omega

/-- The steps that an RNN-T type may take at position `(s, t)` given ranges. -/
def Kept (ty : RnntType) (rows : List (List Int)) (tEnd : Nat) : Step → Nat → Nat → Prop
  | .Y, s, t => InR rows tEnd t s
  | .X, s, t => InR rows tEnd t s ∧ (ty = .constrained → InR rows tEnd t ((s : Int) + 1))

/-- All steps of the alignment are kept. -/
def Inside (md : Bool) (K : Step → Nat → Nat → Prop) : Nat → Nat → List Step → Prop
  | _, _, [] => True
  | s, t, .X :: l => K .X s t ∧ Inside md K (s + 1) (t + Step.X.frames md) l
  | s, t, .Y :: l => K .Y s t ∧ Inside md K s (t + 1) l

theorem inside_snoc {md : Bool} {K : Step → Nat → Nat → Prop} {s t : Nat} {l : List Step}
    {a : Step} (h : Inside md K s t l) (ha : K a (s + numX l) (t + numT md l)) :
    Inside md K s t (l ++ [a]) := by
  induction l generalizing s t with
  | nil => cases a <;> simpa [Inside, numX, numT] using ha
  | cons b l ih =>
    cases b with
    | X =>
      simp only [List.cons_append, Inside] at h ⊢
      refine ⟨h.1, ih h.2 ?_⟩
      simp only [numX, numT] at ha
      rw [show s + 1 + numX l = s + (numX l + 1) by omega,
        show t + Step.X.frames md + numT md l = t + (Step.X.frames md + numT md l) by omega]
      exact ha
    | Y =>
      simp only [List.cons_append, Inside] at h ⊢
      refine ⟨h.1, ih h.2 ?_⟩
      simp only [numX, numT, Step.frames] at ha
      rw [show t + 1 + numT md l = t + (1 + numT md l) by omega]
      exact ha

open Classical in
/-- If px', py' are px, py where the step is kept and 0 elsewhere, the weight of an alignment
is its old weight if all its steps are kept, else 0. -/
theorem weight_masked [CommSemiring W] (md : Bool) (K : Step → Nat → Nat → Prop)
    (px py px' py' : Nat → Nat → W) (S T : Nat)
    (hx : ∀ s t, s < S → t + Step.X.frames md ≤ T → px' s t = if K .X s t then px s t else 0)
    (hy : ∀ s t, s ≤ S → t < T → py' s t = if K .Y s t then py s t else 0)
    (s t : Nat) (l : List Step) (h1 : s + numX l = S) (h2 : t + numT md l = T) :
    weight md px' py' s t l = if Inside md K s t l then weight md px py s t l else 0 := by
  induction l generalizing s t with
  | nil => simp [weight, Inside]
  | cons a l ih =>
    cases a with
    | X =>
      simp only [numX, numT] at h1 h2
      simp only [weight, Inside]
      rw [hx s t (by omega) (by omega), ih (s + 1) (t + Step.X.frames md) (by omega) (by omega)]
      by_cases c1 : K .X s t <;> by_cases c2 : Inside md K (s + 1) (t + Step.X.frames md) l <;>
        simp [c1, c2]
    | Y =>
      simp only [numX, numT, Step.frames] at h1 h2
      simp only [weight, Inside]
      rw [hy s t (by omega) (by omega), ih s (t + 1) (by omega) (by omega)]
      by_cases c1 : K .Y s t <;> by_cases c2 : Inside md K s (t + 1) l <;> simp [c1, c2]

/-- Values of one frame of the pruned tables. -/
theorem pxFrame_spec [Zero W] (fx : V → Nat → W) (symbols : List Nat) (term : Nat)
    (full : List V) (hfull : full.length = symbols.length + 1) (b : Int) (r : Nat) (hr : 1 ≤ r)
    (hb : 0 ≤ b) (hbr : b + r ≤ symbols.length + 1)
    (logits : List V) (hl : gather full (rangeRow b r) = some logits) :
    ∃ fr, pxFrame fx symbols.length (symbols ++ [term]) logits (rangeRow b r) = some fr ∧
      ∀ s, fr.getD s 0 = if s < symbols.length ∧ b ≤ s ∧ (s : Int) < b + r then
        (List.zipWith fx (full.take symbols.length) symbols).getD s 0 else 0 := by
  obtain ⟨cs, hcs, hcl, hcg⟩ := gather_range (symbols ++ [term]) b r hb (by simpa using hbr)
  obtain ⟨lg, hlg, hll, hlget⟩ := gather_range full b r hb (by omega)
  rw [hl] at hlg
  obtain rfl := Option.some.inj hlg
  have hzl : (List.zipWith fx logits cs).length = r := by simp [hll, hcl]
  have hrow : rangeRow b r = b :: (rangeRow b r).tail := by
    obtain ⟨n, rfl⟩ : ∃ n, r = n + 1 := ⟨r - 1, by omega⟩
    simp [rangeRow, List.range_succ_eq_map]
  refine ⟨_, by
    unfold pxFrame
    rw [hcs, hrow]
    simp only [padRow, hzl]
    rw [if_pos (by omega)]
    rfl, ?_⟩
  intro s
  by_cases hs : s < symbols.length
  · rw [List.getD_eq_getElem?_getD, List.getElem?_take_of_lt hs, ← List.getD_eq_getElem?_getD]
    have := rollBy_pad (List.zipWith fx logits cs) symbols.length b hb (by omega) s (by omega)
    rw [hzl] at this
    rw [this]
    by_cases hc : b ≤ s ∧ (s : Int) < b + r
    · rw [if_pos hc, if_pos ⟨hs, hc⟩]
      obtain ⟨hc1, hc2⟩ := hc
      rw [List.getD_eq_getElem?_getD, List.getD_eq_getElem?_getD, List.getElem?_zipWith,
        List.getElem?_zipWith, hlget _ (by omega), hcg _ (by omega),
        show b.toNat + (s - b.toNat) = s by omega, List.getElem?_take_of_lt hs,
        List.getElem?_append_left hs]
    · rw [if_neg hc, if_neg (by tauto)]
  · rw [if_neg (by tauto), List.getD_eq_getElem?_getD, List.getElem?_eq_none]
    · rfl
    · simp; omega

theorem pyFrame_spec [Zero W] (fy : V → W) (S : Nat)
    (full : List V) (hfull : full.length = S + 1) (b : Int) (r : Nat) (hr : 1 ≤ r)
    (hb : 0 ≤ b) (hbr : b + r ≤ S + 1)
    (logits : List V) (hl : gather full (rangeRow b r) = some logits) :
    ∃ fr, pyFrame fy S logits (rangeRow b r) = some fr ∧
      ∀ s, fr.getD s 0 = if b ≤ s ∧ (s : Int) < b + r then (full.map fy).getD s 0 else 0 := by
  obtain ⟨lg, hlg, hll, hlget⟩ := gather_range full b r hb (by omega)
  rw [hl] at hlg
  obtain rfl := Option.some.inj hlg
  have hrow : rangeRow b r = b :: (rangeRow b r).tail := by
    obtain ⟨n, rfl⟩ : ∃ n, r = n + 1 := ⟨r - 1, by omega⟩
    simp [rangeRow, List.range_succ_eq_map]
  have hml : (logits.map fy).length = r := by simp [hll]
  refine ⟨_, by
    unfold pyFrame
    rw [hrow]
    simp only [padRow, hml]
    rw [if_pos (by omega)]
    rfl, ?_⟩
  intro s
  by_cases hs : s ≤ S
  · have := rollBy_pad (logits.map fy) S b hb (by omega) s hs
    rw [hml] at this
    rw [this]
    by_cases hc : b ≤ s ∧ (s : Int) < b + r
    · rw [if_pos hc, if_pos hc]
      obtain ⟨hc1, hc2⟩ := hc
      rw [List.getD_eq_getElem?_getD, List.getD_eq_getElem?_getD, List.getElem?_map,
        List.getElem?_map, hlget _ (by omega), show b.toNat + (s - b.toNat) = s by omega]
    · rw [if_neg hc, if_neg hc]
  · rw [if_neg (by omega), List.getD_eq_getElem?_getD, List.getElem?_eq_none]
    · rfl
    · simp [rollBy, hll]; omega

end Verif.Rnnt
