import Verif.Rnnt.PrunedLemmas

/-!
# C45: pruned log-probs keep in-range entries and kill the rest

Specification: `Kept` (which steps the ranges allow) and `Inside` (all steps of an alignment
are kept) of `Verif.Rnnt.PrunedLemmas`, `alignments` and `weight` of `Verif.Rnnt.Alignments`.
-/

namespace Verif.Rnnt
open Verif.Util
variable {W V A L : Type}

theorem gather_map {α β : Type} (f : α → β) (src : List α) (idx : List Int) :
    gather (src.map f) idx = (gather src idx).map (·.map f) := by
  simp only [gather]
  induction idx with
  | nil => rfl
  | cons i idx ih =>
    simp only [List.mapM_cons, ih]
    by_cases hi : i < 0
    · simp [hi]
    · simp only [hi, if_false, List.getElem?_map]
      cases src[i.toNat]? with
      | none => rfl
      | some x =>
        cases idx.mapM (fun i => if i < 0 then none else src[i.toNat]?) <;> rfl

/-- Ranges of the documented form: `T` rows of `r` consecutive positions within `0..S`. -/
def Consecutive (rows : List (List Int)) (T S r : Nat) (s : Nat → Int) : Prop :=
  rows.length = T ∧ 1 ≤ r ∧
    ∀ t, t < T → rows[t]? = some (rangeRow (s t) r) ∧ 0 ≤ s t ∧ s t + r ≤ S + 1

theorem GoodRanges.consecutive {rows : List (List Int)} {T S : Nat} {r step : Int}
    {s : Nat → Int} (h : GoodRanges rows T S r step s) (hr : 1 ≤ r) :
    Consecutive rows T S r.toNat s := by
  obtain ⟨h1, h2, _, _, h3⟩ := h
  refine ⟨h1, by omega, fun t ht => ⟨h2 t ht, (h3 t ht).1, ?_⟩⟩
  have := (h3 t ht).2
  omega

theorem Consecutive.inR {rows : List (List Int)} {T S r : Nat} {s : Nat → Int}
    (h : Consecutive rows T S r s) {tEnd t : Nat} (hT : tEnd ≤ T) (v : Nat) :
    InR rows tEnd t v ↔ t < tEnd ∧ s t ≤ v ∧ (v : Int) < s t + r := by
  constructor
  · rintro ⟨ht, row, hrow, hv⟩
    rw [(h.2.2 t (by omega)).1] at hrow
    obtain rfl := Option.some.inj hrow
    have hv : (v : Int) ∈ ((List.range ((r : Int)).toNat).map fun (k : Nat) => s t + (k : Int)) := hv
    exact ⟨ht, mem_row.mp hv⟩
  · rintro ⟨ht, hv⟩
    exact ⟨ht, _, (h.2.2 t (by omega)).1,
      (mem_row.mpr hv : (v : Int) ∈ ((List.range ((r : Int)).toNat).map _))⟩

open Classical in
/-- C45, entries.  Prune the encoder and predictor outputs with any ranges of the documented
form, apply any joiner, build px and py.  Nothing fails, and at every position a step of an
alignment can be taken, px and py are those of the unpruned joiner where the step is kept and
minus infinity (0) where it is not. -/
theorem logprobsPruned_entries [CommSemiring W] (fx : V → Nat → W) (fy : V → W)
    (J : A → L → V) (ty : RnntType) (symbols : List Nat) (term tEnd : Nat) (am : List A)
    (lm : List L) (hlm : lm.length = symbols.length + 1) (htEnd : tEnd ≤ am.length)
    (rows : List (List Int)) (r : Nat) (s0 : Nat → Int)
    (hrows : Consecutive rows am.length symbols.length r s0) :
    ∃ pruned px py, doPruning am lm rows = some pruned ∧
      logprobsPruned fx fy ty symbols term tEnd
        (pruned.map (·.map fun p => J p.1 p.2)) rows = some (px, py) ∧
      let full := logprobsJoint fx fy ty symbols tEnd (am.map fun a => lm.map (J a))
      (∀ s t, s < symbols.length → t + Step.X.frames ty.isModified ≤ tEnd →
        px s t = if Kept ty rows tEnd .X s t then full.1 s t else 0) ∧
      (∀ s t, s ≤ symbols.length → t < tEnd →
        py s t = if Kept ty rows tEnd .Y s t then full.2 s t else 0) := by
  obtain ⟨hlen, hr, hrow⟩ := hrows
  have hcons : Consecutive rows am.length symbols.length r s0 := ⟨hlen, hr, hrow⟩
  -- pruning succeeds
  have hzip : ∀ t, t < am.length → ∃ a, am[t]? = some a ∧
      (am.zip rows)[t]? = some (a, rangeRow (s0 t) r) := by
    intro t ht
    refine ⟨am[t], List.getElem?_eq_getElem ht, ?_⟩
    rw [List.getElem?_zip_eq_some]
    exact ⟨List.getElem?_eq_getElem ht, (hrow t ht).1⟩
  have hmemzip : ∀ (p : A × List Int), p ∈ am.zip rows → ∃ t, t < am.length ∧
      am[t]? = some p.1 ∧ p.2 = rangeRow (s0 t) r := by
    intro p hp
    obtain ⟨t, ht⟩ := List.getElem?_of_mem hp
    have hlt : t < am.length := by
      have := (List.getElem?_eq_some_iff.mp ht).1
      simp at this; omega
    obtain ⟨a, ha, hz⟩ := hzip t hlt
    rw [ht] at hz
    have := Option.some.inj hz
    subst this
    exact ⟨t, hlt, ha, rfl⟩
  have hpr : ∃ pruned, doPruning am lm rows = some pruned := by
    simp only [doPruning, hlen, if_true]
    apply mapM_exists
    intro p hp
    obtain ⟨t, ht, _, h2⟩ := hmemzip p hp
    obtain ⟨out, ho, _⟩ := gather_range lm (s0 t) r (hrow t ht).2.1 (by have := (hrow t ht).2.2; omega)
    rw [h2, ho]
    exact ⟨_, rfl⟩
  obtain ⟨pruned, hpruned⟩ := hpr
  have hpruned' := hpruned
  simp only [doPruning, hlen, if_true] at hpruned'
  obtain ⟨hpl, hpg⟩ := mapM_get hpruned'
  have hpl' : pruned.length = am.length := by rw [hpl]; simp [hlen]
  -- frames of the joiner output
  have hlog : ∀ t, t < am.length → ∃ a lg, am[t]? = some a ∧
      (pruned.map (·.map fun p => J p.1 p.2))[t]? = some lg ∧ lg.length = r ∧
      gather (lm.map (J a)) (rangeRow (s0 t) r) = some lg := by
    intro t ht
    obtain ⟨a, ha, hz⟩ := hzip t ht
    have hg := hpg t _ hz
    obtain ⟨out, ho, hol, _⟩ := gather_range lm (s0 t) r (hrow t ht).2.1
      (by have := (hrow t ht).2.2; omega)
    simp only [ho, Option.map_some] at hg
    refine ⟨a, out.map (J a), ha, ?_, by simp [hol], ?_⟩
    · rw [List.getElem?_map, hg]; simp [Function.comp_def]
    · rw [gather_map, ho]; rfl
  have hshape : (pruned.map (·.map fun p => J p.1 p.2)).map (·.length) = rows.map (·.length) := by
    apply List.ext_getElem?
    intro t
    by_cases ht : t < am.length
    · obtain ⟨a, lg, _, h2, h3, _⟩ := hlog t ht
      rw [List.getElem?_map, h2, List.getElem?_map, (hrow t ht).1]
      simp [h3, rangeRow]
    · rw [List.getElem?_eq_none (by simp; omega), List.getElem?_eq_none (by simp; omega)]
  generalize hL : pruned.map (·.map fun p => J p.1 p.2) = logits at hlog hshape
  have hLl : logits.length = am.length := by rw [← hL]; simp [hpl']
  have hzl : ∀ t, t < am.length → ∃ a lg, am[t]? = some a ∧
      (logits.zip rows)[t]? = some (lg, rangeRow (s0 t) r) ∧
      gather (lm.map (J a)) (rangeRow (s0 t) r) = some lg := by
    intro t ht
    obtain ⟨a, lg, h1, h2, _, h4⟩ := hlog t ht
    exact ⟨a, lg, h1, List.getElem?_zip_eq_some.mpr ⟨h2, (hrow t ht).1⟩, h4⟩
  have hmz : ∀ p ∈ logits.zip rows, ∃ t, t < am.length ∧ (logits.zip rows)[t]? = some p := by
    intro p hp
    obtain ⟨t, ht⟩ := List.getElem?_of_mem hp
    have := (List.getElem?_eq_some_iff.mp ht).1
    simp at this
    exact ⟨t, by omega, ht⟩
  have hfx : ∃ fr, (logits.zip rows).mapM
      (fun p => pxFrame fx symbols.length (symbols ++ [term]) p.1 p.2) = some fr := by
    apply mapM_exists
    intro p hp
    obtain ⟨t, ht, hpt⟩ := hmz p hp
    obtain ⟨a, lg, _, h2, h3⟩ := hzl t ht
    rw [hpt] at h2
    obtain rfl := Option.some.inj h2
    obtain ⟨fr, hfr, _⟩ := pxFrame_spec fx symbols term (lm.map (J a)) (by simp [hlm]) (s0 t) r hr
      (hrow t ht).2.1 (hrow t ht).2.2 lg h3
    exact ⟨fr, hfr⟩
  have hfy : ∃ fr, (logits.zip rows).mapM
      (fun p => pyFrame fy symbols.length p.1 p.2) = some fr := by
    apply mapM_exists
    intro p hp
    obtain ⟨t, ht, hpt⟩ := hmz p hp
    obtain ⟨a, lg, _, h2, h3⟩ := hzl t ht
    rw [hpt] at h2
    obtain rfl := Option.some.inj h2
    obtain ⟨fr, hfr, _⟩ := pyFrame_spec fy symbols.length (lm.map (J a)) (by simp [hlm]) (s0 t) r hr
      (hrow t ht).2.1 (hrow t ht).2.2 lg h3
    exact ⟨fr, hfr⟩
  obtain ⟨px, hpx⟩ := hfx
  obtain ⟨py, hpy⟩ := hfy
  obtain ⟨_, hpxg⟩ := mapM_get hpx
  obtain ⟨_, hpyg⟩ := mapM_get hpy
  -- raw entries
  have ex : ∀ s t, t < am.length → table px s t =
      if s < symbols.length ∧ s0 t ≤ s ∧ (s : Int) < s0 t + r then
        table ((am.map fun a => lm.map (J a)).map fun fr =>
          List.zipWith fx (fr.take symbols.length) symbols) s t else 0 := by
    intro s t ht
    obtain ⟨a, lg, ha, h2, h3⟩ := hzl t ht
    obtain ⟨fr, hfr, hs⟩ := pxFrame_spec fx symbols term (lm.map (J a)) (by simp [hlm]) (s0 t) r hr
      (hrow t ht).2.1 (hrow t ht).2.2 lg h3
    have := hpxg t _ h2
    simp only [hfr] at this
    simp only [table]
    rw [show px.getD t [] = fr by rw [List.getD_eq_getElem?_getD, this]; rfl, hs s]
    congr 1
    rw [List.getD_eq_getElem?_getD (l := List.map _ _), List.getElem?_map, List.getElem?_map, ha]
    rfl
  have ey : ∀ s t, t < am.length → table py s t =
      if s0 t ≤ s ∧ (s : Int) < s0 t + r then
        table ((am.map fun a => lm.map (J a)).map fun fr => fr.map fy) s t else 0 := by
    intro s t ht
    obtain ⟨a, lg, ha, h2, h3⟩ := hzl t ht
    obtain ⟨fr, hfr, hs⟩ := pyFrame_spec fy symbols.length (lm.map (J a)) (by simp [hlm]) (s0 t) r hr
      (hrow t ht).2.1 (hrow t ht).2.2 lg h3
    have := hpyg t _ h2
    simp only [hfr] at this
    simp only [table]
    rw [show py.getD t [] = fr by rw [List.getD_eq_getElem?_getD, this]; rfl, hs s]
    congr 1
    have : ((am.map fun a => lm.map (J a)).map fun fr => fr.map fy).getD t [] =
        (lm.map (J a)).map fy := by
      rw [List.getD_eq_getElem?_getD, List.getElem?_map, List.getElem?_map, ha]; rfl
    rw [this]
  refine ⟨pruned, finishPx ty tEnd (table px) (table py), table py, hpruned, ?_, ?_, ?_⟩
  · rw [hL]
    simp only [logprobsPruned, hshape, if_true, hpx, hpy]
  · intro s t hs ht
    simp only [logprobsJoint]
    cases ty with
    | regular =>
      simp only [finishPx, Kept]
      by_cases hte : t = tEnd
      · simp [hte]
      · have htl : t < tEnd := by simp [RnntType.isModified, Step.frames] at ht; omega
        rw [if_neg hte, if_neg hte, ex s t (by omega)]
        simp only [hcons.inR htEnd, htl, hs, true_and]
        simp
    | modified =>
      have htl : t < tEnd := by simp [RnntType.isModified, Step.frames] at ht; omega
      simp only [finishPx, Kept]
      rw [ex s t (by omega)]
      simp only [hcons.inR htEnd, htl, hs, true_and]
      simp
    | constrained =>
      have htl : t < tEnd := by simp [RnntType.isModified, Step.frames] at ht; omega
      simp only [finishPx, Kept]
      rw [ex s t (by omega), ey (s + 1) t (by omega)]
      have e : ((s : Int) + 1) = ((s + 1 : Nat) : Int) := by omega
      rw [e]
      simp only [hcons.inR htEnd, htl, hs, true_and, forall_const]
      by_cases c1 : s0 t ≤ s ∧ (s : Int) < s0 t + r <;>
        by_cases c2 : s0 t ≤ ((s + 1 : Nat) : Int) ∧ ((s + 1 : Nat) : Int) < s0 t + r <;>
        simp [c1, c2]
  · intro s t hs ht
    simp only [logprobsJoint, Kept]
    rw [ey s t (by omega)]
    simp only [hcons.inR htEnd, ht, true_and]

open Classical in
/-- C45, score.  The pruned score of a sequence with `Sb` symbols and `Tb` frames is the sum, over
exactly the alignments all of whose steps are kept, of the weights the unpruned joiner gives
them; the unpruned score is the sum over all alignments of the same weights. -/
theorem pruned_score [CommSemiring W] (fx : V → Nat → W) (fy : V → W)
    (J : A → L → V) (ty : RnntType) (symbols : List Nat) (term : Nat) (am : List A)
    (lm : List L) (hlm : lm.length = symbols.length + 1) (Sb Tb : Nat)
    (hSb : Sb ≤ symbols.length) (hTb : Tb ≤ am.length)
    (rows : List (List Int)) (r : Nat) (s0 : Nat → Int)
    (hrows : Consecutive rows am.length symbols.length r s0) (p0 : Nat → Nat → W) :
    ∃ pruned px py, doPruning am lm rows = some pruned ∧
      logprobsPruned fx fy ty symbols term Tb
        (pruned.map (·.map fun p => J p.1 p.2)) rows = some (px, py) ∧
      let full := logprobsJoint fx fy ty symbols Tb (am.map fun a => lm.map (J a))
      let md := ty.isModified
      miForward md px py 0 0 Sb Tb p0 Sb Tb =
        ∑ l ∈ alignments md Sb Tb with Inside md (Kept ty rows Tb) 0 0 l,
          weight md full.1 full.2 0 0 l ∧
      miForward md full.1 full.2 0 0 Sb Tb p0 Sb Tb =
        ∑ l ∈ alignments md Sb Tb, weight md full.1 full.2 0 0 l := by
  obtain ⟨pruned, px, py, h1, h2, h3, h4⟩ :=
    logprobsPruned_entries fx fy J ty symbols term Tb am lm hlm hTb rows r s0 hrows
  refine ⟨pruned, px, py, h1, h2, ?_, ?_⟩
  · rw [miForward_total _ _ _ (by omega) (by omega) p0 (by omega) (by omega) (by omega) (by omega),
      Finset.sum_filter]
    refine Finset.sum_congr (by simp) (fun l hl => ?_)
    obtain ⟨e1, e2⟩ := (mem_alignments _ _ _ _).mp hl
    exact weight_masked ty.isModified (Kept ty rows Tb) _ _ px py Sb Tb
      (fun s t hs ht => h3 s t (by omega) ht) (fun s t hs ht => h4 s t (by omega) ht) 0 0 l
      (by omega) (by omega)
  · rw [miForward_total _ _ _ (by omega) (by omega) p0 (by omega) (by omega) (by omega) (by omega)]
    simp

/-! ## The whole pruned pipeline leaves a finite loss -/

theorem reachReg_inside {R : Nat → Int → Prop} {s : Int} {t : Nat} (h : ReachReg R s t) :
    ∃ l, (numX l : Int) = s ∧ numT false l = t ∧
      Inside false (fun _ s t => R t (s : Int)) 0 0 l := by
  induction h with
  | start => exact ⟨[], rfl, rfl, trivial⟩
  | blank _ hR ih =>
    obtain ⟨l, h1, h2, h3⟩ := ih
    refine ⟨l ++ [.Y], by simp [numX, h1], by simp [numT, h2, Step.frames], inside_snoc h3 ?_⟩
    rw [Nat.zero_add, Nat.zero_add, h2, h1]; exact hR
  | symbol _ hR ih =>
    obtain ⟨l, h1, h2, h3⟩ := ih
    refine ⟨l ++ [.X], by simp [numX, h1], by simp [numT, h2, Step.frames], inside_snoc h3 ?_⟩
    rw [Nat.zero_add, Nat.zero_add, h2, h1]; exact hR

theorem reachMod_inside {R : Nat → Int → Prop} {s : Int} {t : Nat} (h : ReachMod R s t) :
    ∃ l, (numX l : Int) = s ∧ numT true l = t ∧
      Inside true (fun _ s t => R t (s : Int)) 0 0 l := by
  induction h with
  | start => exact ⟨[], rfl, rfl, trivial⟩
  | blank _ hR ih =>
    obtain ⟨l, h1, h2, h3⟩ := ih
    refine ⟨l ++ [.Y], by simp [numX, h1], by simp [numT, h2, Step.frames], inside_snoc h3 ?_⟩
    rw [Nat.zero_add, Nat.zero_add, h2, h1]; exact hR
  | symbol _ hR ih =>
    obtain ⟨l, h1, h2, h3⟩ := ih
    refine ⟨l ++ [.X], by simp [numX, h1], by simp [numT, h2, Step.frames], inside_snoc h3 ?_⟩
    rw [Nat.zero_add, Nat.zero_add, h2, h1]; exact hR

theorem inside_mono {md : Bool} {K K' : Step → Nat → Nat → Prop} (h : ∀ a s t, K a s t → K' a s t)
    {s t : Nat} {l : List Step} (hl : Inside md K s t l) : Inside md K' s t l := by
  induction l generalizing s t with
  | nil => trivial
  | cons a l ih => cases a <;> exact ⟨h _ _ _ hl.1, ih hl.2⟩

section finite
variable {W : Type} [CommSemiring W] [LinearOrder W] [IsStrictOrderedRing W]

/-- An alignment inside the ranges has positive weight if all probabilities are positive. -/
theorem weight_pos (fx : V → Nat → W) (fy : V → W) (J : A → L → V) (ty : RnntType)
    (hty : ty ≠ .constrained) (symbols : List Nat) (am : List A) (lm : List L)
    (hlm : lm.length = symbols.length + 1) (Tb : Nat) (hTb : Tb ≤ am.length)
    (hfx : ∀ v c, 0 < fx v c) (hfy : ∀ v, 0 < fy v)
    (rows : List (List Int)) (Sb : Nat) (hSb : Sb ≤ symbols.length) (s t : Nat) (l : List Step)
    (hl : Inside ty.isModified (Kept ty rows Tb) s t l) (hs : s + numX l = Sb)
    (ht : t + numT ty.isModified l = Tb) :
    let full := logprobsJoint fx fy ty symbols Tb (am.map fun a => lm.map (J a))
    0 < weight ty.isModified full.1 full.2 s t l := by
  intro full
  induction l generalizing s t with
  | nil => simp [weight]
  | cons a l ih =>
    cases a with
    | X =>
      simp only [numX, numT] at hs ht
      obtain ⟨h1, h2⟩ := hl
      refine mul_pos ?_ (ih _ _ h2 (by omega) (by omega))
      have htl : t < Tb := h1.1.1
      have e1 : symbols[s]? = some symbols[s] := List.getElem?_eq_getElem (by omega)
      have e2 : am[t]? = some am[t] := List.getElem?_eq_getElem (by omega)
      have e3 : lm[s]? = some lm[s] := List.getElem?_eq_getElem (by omega)
      have : full.1 s t = fx (J am[t] lm[s]) symbols[s] := by
        have hss : s < symbols.length := by omega
        cases ty with
        | constrained => exact absurd rfl hty
        | regular =>
          simp only [full, logprobsJoint, finishPx]
          rw [if_neg (by omega)]
          simp [table, List.getD_eq_getElem?_getD, e2, List.getElem?_zipWith, e1, hss, e3,
            List.getElem?_take_of_lt]
        | modified =>
          simp [full, logprobsJoint, finishPx, table, List.getD_eq_getElem?_getD, e2,
            List.getElem?_zipWith, e1, hss, e3, List.getElem?_take_of_lt]
      rw [this]
      exact hfx _ _
    | Y =>
      simp only [numX, numT, Step.frames] at hs ht
      obtain ⟨h1, h2⟩ := hl
      refine mul_pos ?_ (ih _ _ h2 (by omega) (by omega))
      have htl : t < Tb := h1.1
      have e2 : am[t]? = some am[t] := List.getElem?_eq_getElem (by omega)
      have e3 : lm[s]? = some lm[s] := List.getElem?_eq_getElem (by omega)
      have : full.2 s t = fy (J am[t] lm[s]) := by
        simp [full, logprobsJoint, table, List.getD_eq_getElem?_getD, e2, e3]
      rw [this]
      exact hfy _

/-- C44 and C45 together.  Take ranges computed by `get_rnnt_prune_ranges` from any gradients,
prune with them, apply any joiner with positive probabilities: the pruned score of every
sequence of the batch is positive (the loss is finite), for regular and modified RNN-T. -/
theorem pruned_pipeline_finite (fx : V → Nat → W) (fy : V → W) (J : A → L → V) (ty : RnntType)
    (hty : ty ≠ .constrained) (hfx : ∀ v c, 0 < fx v c) (hfy : ∀ v, 0 < fy v)
    (S T : Nat) (bd : List (Nat × Nat)) (sRange : Int)
    (argmax : Nat → Nat → Int) (out : List (List (List Int)))
    (h : pruneRanges (!ty.isModified) S T bd sRange argmax = .ok out)
    (hbd : ∀ b ∈ bd, b.1 ≤ S ∧ 1 ≤ b.2 ∧ b.2 ≤ T) (ham : ∀ b t, 0 ≤ argmax b t)
    (b : Nat) (hb : b < bd.length) (symbols : List Nat) (hsym : symbols.length = S) (term : Nat)
    (am : List A) (hamT : am.length = T) (lm : List L) (hlm : lm.length = S + 1)
    (p0 : Nat → Nat → W) :
    ∃ rows pruned px py, out[b]? = some rows ∧ doPruning am lm rows = some pruned ∧
      logprobsPruned fx fy ty symbols term bd[b].2
        (pruned.map (·.map fun p => J p.1 p.2)) rows = some (px, py) ∧
      0 < miForward ty.isModified px py 0 0 bd[b].1 bd[b].2 p0 bd[b].1 bd[b].2 := by
  classical
  obtain ⟨hbS, hb1, hbT⟩ := hbd _ (List.getElem_mem hb)
  have key : ∃ rows r s0 l, out[b]? = some rows ∧ Consecutive rows T S r s0 ∧
      numX l = bd[b].1 ∧ numT ty.isModified l = bd[b].2 ∧
      Inside ty.isModified (Kept ty rows bd[b].2) 0 0 l := by
    cases ty with
    | constrained => exact absurd rfl hty
    | regular =>
      obtain ⟨_, r, hr, _, hall⟩ := pruneRanges_regular S T bd sRange argmax out h
        (fun b hb => ⟨(hbd b hb).1, (hbd b hb).2.2⟩) ham
      obtain ⟨rows, hrows, ⟨s0, hg⟩, hreach⟩ := hall b hb
      obtain ⟨l, h1, h2, h3⟩ := reachReg_inside hreach
      refine ⟨rows, r.toNat, s0, l, hrows, hg.consecutive (by omega), by omega, h2,
        inside_mono ?_ h3⟩
      intro a s t hR
      cases a <;> simp [Kept, hR]
    | modified =>
      obtain ⟨_, r, hr, _, hall⟩ := pruneRanges_modified S T bd sRange argmax out h hbd ham
      obtain ⟨rows, hrows, ⟨s0, hg⟩, hreach, _⟩ := hall b hb
      obtain ⟨l, h1, h2, h3⟩ := reachMod_inside hreach
      refine ⟨rows, r.toNat, s0, l, hrows, hg.consecutive (by omega), by omega, h2,
        inside_mono ?_ h3⟩
      intro a s t hR
      cases a <;> simp [Kept, hR]
  obtain ⟨rows, r, s0, l, hrows, hc, h1, h2, h3⟩ := key
  subst hsym hamT
  obtain ⟨pruned, px, py, hp1, hp2, hp3, _⟩ := pruned_score fx fy J ty symbols term am lm hlm
    bd[b].1 bd[b].2 hbS hbT rows r s0 hc p0
  refine ⟨rows, pruned, px, py, hrows, hp1, hp2, ?_⟩
  rw [hp3]
  apply Finset.sum_pos
  · intro l' hl'
    simp only [Finset.mem_filter, mem_alignments] at hl'
    exact weight_pos fx fy J ty hty symbols am lm hlm bd[b].2 hbT hfx hfy rows bd[b].1 hbS 0 0 l'
      hl'.2 (by omega) (by omega)
  · exact ⟨l, by simp only [Finset.mem_filter, mem_alignments]; exact ⟨⟨h1, h2⟩, h3⟩⟩

end finite

/-- A concrete run: 2 symbols, 3 frames, ranges of width 2, all probabilities 1, so the score
counts alignments inside the ranges: 2 of the 6 that end with a blank on the last frame. -/
example :
    (logprobsPruned (W := Nat) (V := Unit) (fun _ _ => 1) (fun _ => 1) .regular [5, 7] 0 3
      [[(), ()], [(), ()], [(), ()]] [[0, 1], [0, 1], [1, 2]]).map
      (fun p => miForward false p.1 p.2 0 0 2 3 (fun _ _ => 0) 2 3) = some 2 := by
  decide +kernel

end Verif.Rnnt
