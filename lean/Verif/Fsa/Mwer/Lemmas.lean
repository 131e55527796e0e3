import Verif.Fsa.Mwer.Model
import Verif.Fsa.Nbest.Props
import Verif.Ragged.NormalizeProps

/-! # Lemmas on `mwer_loss` -/

namespace Verif.Fsa.Mwer
open Verif.Ragged Verif.Util Verif.Fsa.Bat Verif.Fsa.Sco Verif.Fsa.Top Verif.Fsa.Rp Verif.Fsa.Nb

/-- The paths of a fair sample are accepting paths. -/
theorem fair_accepting {W K : Type} [Field K] [LinearOrder K] (wt : W → K) (f : List (List (Arc W)))
    (hfw : ∀ a ∈ f.flatten, a.src < a.dst) (first n : Nat) (ps : List (List Nat)) (h : FairSample wt f first n ps) :
    ∀ path ∈ ps, ∃ is, IAccepting (rowsFsa f) is ∧ path = is.map (first + ·) := by
  intro path hpath
  rcases Nat.eq_zero_or_pos f.length with h0 | h0
  · have h1 := (h [] List.nodup_nil (by
      intro is
      refine ⟨fun h => by simp at h, fun h => ?_⟩
      have : 0 < f.length := h.1
      omega)).1 rfl
    rw [h1] at hpath
    simp at hpath
  · obtain ⟨L, hL1, hL2⟩ := allPaths_exists f.flatten hfw 0 (f.length - 1)
    have hL3 : ∀ is, is ∈ L ↔ IAccepting (rowsFsa f) is := fun is => (hL2 is).trans ⟨fun h => ⟨h0, h⟩, fun h => h.2⟩
    obtain ⟨h1, h2⟩ := h L hL1 hL3
    by_cases hz : (L.map (pathWeight wt f.flatten)).sum = 0
    · rw [h1 hz] at hpath
      simp at hpath
    · obtain ⟨is, his, rfl⟩ := (h2 hz).2.1 path hpath
      exact ⟨is, (hL3 is).mp his, rfl⟩

/-- The words of the paths: `Ws` holds the words of the arcs of each path. -/
theorem getTexts_eq {W : Type} (Ps : List (List (Arc W))) (Ws : List (List (List Int)))
    (hl : Ws.map List.length = Ps.map List.length) {aux : Aux} (haux : AuxIs aux Ws.flatten) :
    getTexts (flat (Ps.map lineFsa)) aux =
      some ([(psum ((Ws.map (fun w => w.flatten.filter (fun x => decide (0 < x)))).map List.length),
          idsFrom 0 ((Ws.map (fun w => w.flatten.filter (fun x => decide (0 < x)))).map List.length))],
        (Ws.map (fun w => w.flatten.filter (fun x => decide (0 < x)))).flatten) := by
  have hfl : (Ps.map lineFsa).map (fun f => f.flatten.length) = Ws.map List.length := by
    rw [hl, List.map_map]
    apply List.map_congr_left
    intro p _
    rw [Function.comp_apply, lineFsa_flatten, List.length_mapIdx]
  have hs := gather_splits (Ps.map lineFsa)
  have hi := gather_ids (Ps.map lineFsa) [] 0
  rw [List.nil_append, List.length_nil] at hi
  rw [hfl] at hs hi
  have hdim : aux.dim = (flat (Ps.map lineFsa)).arcs.length := by
    rw [auxIs_length haux]
    show _ = (Ps.map lineFsa).flatten.flatten.length
    rw [List.flatten_flatten, List.length_flatten, List.length_flatten, List.map_map, List.map_map]
    rw [hl]
    congr 1
    apply List.map_congr_left
    intro p _
    simp [lineFsa_flatten]
  cases aux with
  | tensor vals =>
    simp only [AuxIs] at haux
    have hsing : ∀ w ∈ Ws, ∀ x ∈ w, x.length = 1 := by
      intro w hw x hx
      have : x ∈ vals.map (fun x => [x]) := by rw [← haux]; exact List.mem_flatten.mpr ⟨w, hw, hx⟩
      obtain ⟨y, _, rfl⟩ := List.mem_map.mp this
      rfl
    have hlen : (Ws.map List.flatten).map List.length = Ws.map List.length := by
      rw [List.map_map]
      apply List.map_congr_left
      intro w hw
      have h1 : w.map List.length = w.map (fun _ => 1) := List.map_congr_left (fun x hx => hsing w hw x hx)
      rw [Function.comp_apply, List.length_flatten, h1]
      simp
    have hvals : (Ws.map List.flatten).flatten = vals := by
      rw [← List.flatten_flatten, haux, ← List.flatMap_def]
      simp
    have hr := removeValuesLeq_rows [] (Ws.map List.flatten) 0
    rw [hlen, hvals, List.nil_append, List.nil_append, List.map_map (f := List.flatten)] at hr
    unfold getTexts removeAxis
    simp only [List.length_cons, List.length_nil]
    rw [if_neg (by decide), if_neg (by decide), if_pos (by decide)]
    have hs' : gather (flat (Ps.map lineFsa)).sp2 (flat (Ps.map lineFsa)).sp1 = _ := hs
    have hi' : gather (flat (Ps.map lineFsa)).id1 (flat (Ps.map lineFsa)).id2 = _ := hi
    simp only [Nat.sub_self, List.getElem?_cons_zero, List.getElem?_cons_succ, hs', hi', Option.bind_eq_bind,
      Option.bind_some]
    rw [if_pos hdim]
    exact hr
  | ragged sp vals =>
    simp only [AuxIs] at haux
    obtain ⟨rfl, rfl⟩ := haux
    have hr := removeValuesLeq_rows [] Ws.flatten 0
    rw [List.nil_append, List.nil_append] at hr
    set Vs := Ws.map (List.map (List.filter (fun x => decide (0 < x)))) with hVs
    have e1 : Ws.flatten.map (List.filter (fun x => decide (0 < x))) = Vs.flatten := by rw [hVs, List.map_flatten]
    have e2 : Ws.map List.length = Vs.map List.length := by
      rw [hVs, List.map_map]; apply List.map_congr_left; intro w _; simp
    rw [e1] at hr
    have e3 : Ws.map (fun w => w.flatten.filter (fun x => decide (0 < x))) = Vs.map List.flatten := by
      rw [hVs, List.map_map]
      apply List.map_congr_left
      intro w _
      rw [Function.comp_apply, List.filter_flatten]
    have hs2 := gather_splits Vs
    have hi2 := gather_ids Vs [] 0
    rw [List.nil_append, List.length_nil] at hi2
    unfold getTexts
    simp only [layer_psum, hr, Option.bind_eq_bind, Option.bind_some]
    rw [if_pos hdim]
    have hs' : gather (flat (Ps.map lineFsa)).sp2 (flat (Ps.map lineFsa)).sp1 = _ := hs
    have hi' : gather (flat (Ps.map lineFsa)).id1 (flat (Ps.map lineFsa)).id2 = _ := hi
    rw [e2] at hs' hi'
    unfold removeAxis
    simp only [List.length_cons, List.length_nil, List.cons_append, List.nil_append]
    rw [if_neg (by decide), if_neg (by decide), if_pos (by decide)]
    simp only [Nat.sub_self, List.getElem?_cons_zero, List.getElem?_cons_succ, hs', hi', Option.bind_eq_bind,
      Option.bind_some, List.take_zero, List.nil_append, List.drop_succ_cons, List.drop_zero, List.length_cons,
      List.length_nil]
    rw [if_neg (by decide), if_neg (by decide), if_pos (by decide)]
    simp only [hs2, hi2, Option.bind_some, e3]
    have e4 : Vs.map (fun l => l.flatten.length) = (Vs.map List.flatten).map List.length :=
      (List.map_map (f := List.flatten) (g := List.length) (l := Vs)).symm
    rw [e4, List.flatten_flatten]

/-- `wers`: the hypotheses of utterance `r` are compared with reference `r`. -/
theorem wersOf_eq (wer : List Int → List Int → Option ℝ) (d : List Int → List Int → ℝ) (refs : List (List Int))
    {X : Type} (Q : List (List X)) (words : X → List Int) (hrefs : refs.length = Q.length)
    (hd : ∀ (r : Nat) (qs : List X) (ref : List Int), Q[r]? = some qs → refs[r]? = some ref → ∀ q ∈ qs,
      wer ref (words q) = some (d ref (words q))) :
    wersOf wer refs (idsFrom 0 (Q.map List.length)) (psum ((Q.flatten.map words).map List.length))
      (Q.flatten.map words).flatten =
      some (Q.mapIdx (fun r qs => qs.map (fun q => d (refs.getD r []) (words q)))).flatten := by
  unfold wersOf
  have hil : (idsFrom 0 (Q.map List.length)).length = Q.flatten.length := by rw [idsFrom_length, List.length_flatten]
  rw [if_pos (by rw [hil, psum_length, List.length_map, List.length_map]), hil]
  rw [mapM_rows Q _ (fun r _ q => d (refs.getD r []) (words q))]
  · congr 3
    funext r qs
    apply List.ext_getElem?
    intro k
    simp [List.getElem?_mapIdx]
  · intro r qs k q hr hk
    have hkl := (List.getElem?_eq_some_iff.mp hk).1
    have hrl := (List.getElem?_eq_some_iff.mp hr).1
    have href := List.getElem?_eq_getElem (show r < refs.length by omega)
    have hgD : refs.getD r [] = refs[r] := by rw [List.getD_eq_getElem?_getD, href]; rfl
    have hat : Q.flatten[splits Q r + k]? = some q := by
      rw [splits_eq_take, row_at Q r k qs hr hkl, hk]
    have hlt := (List.getElem?_eq_some_iff.mp hat).1
    have h1 := psum_splits (Q.flatten.map words) (splits Q r + k) (by rw [List.length_map]; omega)
    have h2 := psum_splits (Q.flatten.map words) (splits Q r + k + 1) (by rw [List.length_map]; omega)
    obtain ⟨row, h3, h4⟩ := drop_take_row _ _ _ _ h1 h2
    rw [List.getElem?_map, hat] at h3
    obtain rfl := Option.some.inj h3
    simp only [idsFrom_flat Q r qs k hr hkl, href, h1, h2, h4, Option.bind_eq_bind, Option.bind_some, hgD]
    exact hd r qs _ hr href q (List.mem_of_getElem? hk)

end Verif.Fsa.Mwer
