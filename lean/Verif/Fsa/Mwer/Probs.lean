import Verif.Fsa.Mwer.Lemmas

/-! # The probabilities of the paths in `mwer_loss` -/

namespace Verif.Fsa
open Verif.Ragged

/-- The score of a path, given by the numbers of its arcs. -/
noncomputable def scoreOf (A : List (Arc ℝ)) (path : List Nat) : ℝ := ((arcsAt A path).map (fun a => a.score)).sum

/-- The share of `exp (score / temperature)` of a path in the sum over the paths in `qs`. -/
noncomputable def share (A : List (Arc ℝ)) (temperature : ℝ) (qs : List (List Nat)) (q : List Nat) : ℝ :=
  Real.exp (scoreOf A q / temperature) / (qs.map (fun q' => Real.exp (scoreOf A q' / temperature))).sum

namespace Mwer
open Verif.Util Verif.Fsa.Bat Verif.Fsa.Nb

/-- The sums of the scores of the paths. -/
theorem pathSums_eq (A : List (Arc ℝ)) (Y : List (List Nat)) (hY : ∀ path ∈ Y, (arcsAt A path).length = path.length) :
    segmentedReduce (· + ·) 0 (psum (Y.map List.length))
      ((flat (Y.map (fun path => lineFsa (arcsAt A path)))).arcs.map (fun a => a.score)) = some (Y.map (scoreOf A)) := by
  set L := Y.map (fun path => (arcsAt A path).map (fun a => a.score)) with hL
  have h1 : L.map List.length = Y.map List.length := by
    rw [hL, List.map_map]
    apply List.map_congr_left
    intro path hp
    rw [Function.comp_apply, List.length_map, hY path hp]
  have h2 : (flat (Y.map (fun path => lineFsa (arcsAt A path)))).arcs.map (fun a => a.score) = L.flatten := by
    show (Y.map (fun path => lineFsa (arcsAt A path))).flatten.flatten.map (fun a => a.score) = _
    rw [List.flatten_flatten, List.map_flatten, List.map_map, List.map_map, hL]
    congr 1
    apply List.map_congr_left
    intro path _
    rw [Function.comp_apply, Function.comp_apply, lineFsa_flatten]
    apply List.ext_getElem?
    intro k
    simp only [List.getElem?_map, List.getElem?_mapIdx, Option.map_map]
    rfl
  have h3 := segmentedReduce_eq (· + ·) (0 : ℝ) L
  have h4 := sum_per_sublist 0 L _ (Or.inl h3)
  rw [h2, ← h1, h3, h4, hL, List.map_map]
  congr 1
  apply List.map_congr_left
  intro path _
  rw [Function.comp_apply, zero_add]
  rfl

/-- The probabilities are the shares of the paths of the utterance, up to the error of `LogAdd`. -/
theorem pathProbs_eq (cut : WithBot ℝ) (temperature : ℝ) (ht : temperature ≠ 0) (A : List (Arc ℝ)) (Q : List (List (List Nat)))
    (hQ : ∀ path ∈ Q.flatten, (arcsAt A path).length = path.length) (aux : Aux) :
    ∃ R : List (List ℝ), pathProbs cut temperature ⟨flat (Q.flatten.map (fun path => lineFsa (arcsAt A path))), aux,
        (psum (Q.map List.length), idsFrom 0 (Q.map List.length)),
        [(psum (Q.flatten.map List.length), idsFrom 0 (Q.flatten.map List.length))], Q.flatten.flatten⟩ = some R.flatten ∧
      R.length = Q.length ∧
      ∀ (r : Nat) (qs : List (List Nat)), Q[r]? = some qs → ∃ z : ℝ, 1 ≤ z ∧ z ≤ (1 + expB cut) ^ qs.length ∧
        R[r]? = some (qs.map (fun q => z * share A temperature qs q)) := by
  set X : List (List (WithBot ℝ)) := Q.map (List.map (fun q => ((scoreOf A q / temperature : ℝ) : WithBot ℝ))) with hX
  have hXl : X.map List.length = Q.map List.length := by
    rw [hX, List.map_map]; apply List.map_congr_left; intro l _; simp
  have hXf : (Q.flatten.map (scoreOf A)).map (fun x => ((x / temperature : ℝ) : WithBot ℝ)) = X.flatten := by
    rw [hX, List.map_map, List.map_flatten]; rfl
  have hsum := segmentedReduce_eq (logAdd cut) ⊥ X
  obtain ⟨R0, r1, r2, r3⟩ := normalize_log cut X _ (Or.inl hsum) (by
    intro row hrow hne
    obtain ⟨l, hl, rfl⟩ := List.mem_map.mp hrow
    cases l with
    | nil => simp at hne
    | cons q l => exact ⟨_, List.mem_map.mpr ⟨q, List.mem_cons_self .., rfl⟩, WithBot.coe_ne_bot⟩)
  refine ⟨R0.map (List.map expB), ?_, ?_, ?_⟩
  · unfold pathProbs
    simp only [pathSums_eq A Q.flatten hQ, Option.bind_eq_bind, Option.bind_some]
    rw [if_neg ht, hXf, ← hXl]
    unfold normalizeLog
    rw [hsum, Option.bind_some, r1, Option.bind_some, List.map_flatten]
  · rw [List.length_map, r2, hX, List.length_map]
  · intro r qs hr
    have hxr : X[r]? = some (qs.map (fun q => ((scoreOf A q / temperature : ℝ) : WithBot ℝ))) := by
      rw [hX, List.getElem?_map, hr]; rfl
    obtain ⟨out, o1, c, rfl, o2⟩ := r3 r _ hxr
    by_cases hne : qs = []
    · subst hne
      refine ⟨1, le_refl 1, by simp, ?_⟩
      rw [List.getElem?_map, o1]; rfl
    · obtain ⟨o3, o4⟩ := o2 (by simpa using hne)
      have hout : ((qs.map (fun q => ((scoreOf A q / temperature : ℝ) : WithBot ℝ))).map (minus c)).map expB =
          qs.map (fun q => Real.exp (scoreOf A q / temperature) / Real.exp c) := by
        rw [List.map_map, List.map_map]
        apply List.map_congr_left
        intro q _
        simp only [Function.comp_apply, expB_minus, expB_coe]
      rw [hout] at o3 o4
      rw [List.length_map] at o4
      refine ⟨_, o3, o4, ?_⟩
      rw [List.getElem?_map, o1, Option.map_some, hout]
      congr 1
      apply List.map_congr_left
      intro q _
      unfold share
      have hs : (qs.map (fun q => Real.exp (scoreOf A q / temperature) / Real.exp c)).sum =
          (qs.map (fun q => Real.exp (scoreOf A q / temperature))).sum / Real.exp c := by
        simp only [div_eq_mul_inv]
        rw [List.sum_map_mul_right]
      have hpos : 0 < (qs.map (fun q => Real.exp (scoreOf A q / temperature))).sum := by
        apply List.sum_pos
        · intro x hx
          obtain ⟨q, _, rfl⟩ := List.mem_map.mp hx
          exact Real.exp_pos _
        · simpa using hne
      have hc := Real.exp_pos c
      rw [hs]
      field_simp

end Mwer
end Verif.Fsa
