import Verif.Fsa.Loss.Total
import Verif.Fsa.Ctc.BatchProps
import Mathlib.Algebra.BigOperators.Fin

/-! # The alignments of a CTC graph are the label sequences that collapse to the transcript -/

namespace Verif.Fsa.Loss
open Verif.Ragged Verif.Util Verif.Fsa.Dn Verif.Fsa.Sco Verif.Fsa.CtcB

section
variable (C : Nat) (fr : List (List (WithBot ℝ)))

theorem closed_length : (closed C fr).length = fr.length + 1 := by simp [closed]

/-- The score of an alignment. -/
theorem alignScore_closed (p : List (Arc (WithBot ℝ))) (s : List Int) (hl : labels p = s ++ [-1])
    (hs : s.length = fr.length) (h0 : ∀ a ∈ p, a.score = 0) (hp : ∀ l ∈ s, 0 ≤ l) :
    alignScore p (closed C fr) = seqScore fr s := by
  induction fr generalizing p s with
  | nil =>
    have : s = [] := by simpa using hs
    subst this
    obtain ⟨a, rfl⟩ : ∃ a, p = [a] := by
      have := congrArg List.length hl
      simp only [labels, List.length_map, List.nil_append, List.length_singleton] at this
      exact List.length_eq_one_iff.mp this
    have ha : a.label = -1 := by simpa [labels] using hl
    simp [closed, alignScore, labScore, seqScore, ha, h0 a (by simp)]
  | cons row fr ih =>
    cases s with
    | nil => simp at hs
    | cons l s =>
      cases p with
      | nil => simp [labels] at hl
      | cons a p =>
        simp only [labels, List.map_cons, List.cons_append, List.cons.injEq] at hl
        have h1 := ih p s hl.2 (by simpa using hs) (fun a ha => h0 a (by simp [ha])) (fun x hx => hp x (by simp [hx]))
        have hc : closed C (row :: fr) = (⊥ :: row) :: closed C fr := rfl
        have hlp := hp l (by simp)
        rw [hc, alignScore, h1, h0 a (by simp), zero_add, hl.1]
        have : (l + 1).toNat = l.toNat + 1 := by omega
        simp [labScore, this, seqScore]

theorem expB_sum (l : List (WithBot ℝ)) : expB l.sum = (l.map expB).prod := by
  induction l with
  | nil => simp
  | cons x l ih => simp [expB_add, ih]

theorem seqScore_prod (s : Fin fr.length → Fin C) :
    ∏ t, expB ((fr.get t).getD (s t) ⊥) = expB (seqScore fr (List.ofFn (fun t => ((s t : Nat) : Int)))) := by
  rw [seqScore, expB_sum, ← List.prod_ofFn]
  congr 1
  apply List.ext_getElem?
  intro t
  by_cases ht : t < fr.length
  · simp [List.getElem?_zipWith, List.getElem?_ofFn, ht]
  · rw [List.getElem?_eq_none (by simpa using ht), List.getElem?_eq_none (by simp; omega)]

variable (y : List Int) (G : List (List (Arc (WithBot ℝ) × Int))) (hG : IsCtcGraph y G)

/-- The arcs of a graph. -/
abbrev arcRows : List (List (Arc (WithBot ℝ))) := G.map (List.map Prod.fst)

include hG

theorem rows_flatten : (arcRows G).flatten = G.flatten.map Prod.fst := by
  rw [arcRows, List.map_flatten]

/-- A label other than the last is not -1. -/
theorem labels_init (p : List (Arc (WithBot ℝ))) (q e : Nat) (hc : Chain q p e)
    (hm : ∀ a ∈ p, a ∈ (arcRows G).flatten) (s : List Int) (x : Int) (hl : labels p = s ++ [x]) :
    ∀ l ∈ s, l = 0 ∨ l ∈ y := by
  induction p generalizing q s with
  | nil => simp [labels] at hl
  | cons a p ih =>
    cases s with
    | nil => simp
    | cons l s =>
      simp only [labels, List.map_cons, List.cons_append, List.cons.injEq] at hl
      have hrec := ih a.dst hc.2 (fun b hb => hm b (by simp [hb])) s hl.2
      intro l' hl'
      rcases List.mem_cons.mp hl' with rfl | h
      · have ha := hm a (by simp)
        rcases hG.labels a ha with h | h | h
        · exact Or.inl (hl.1 ▸ h)
        · exfalso
          have hd := (hG.final a ha).mp h
          cases p with
          | nil => simp at hl
          | cons b p =>
            have := hG.noExit b (hm b (by simp))
            have := hc.2.1
            omega
        · exact Or.inr (hl.1 ▸ h)
      · exact hrec l' h

/-- Every alignment spells a label sequence that collapses to the transcript. -/
theorem align_seq (js : List Nat) (p : List (Arc (WithBot ℝ))) (h : IsAlign (arcRows G) (closed C fr) js p) :
    ∃ s, labels p = s ++ [-1] ∧ s.length = fr.length ∧ ctcCollapse s = y ∧ ∀ l ∈ s, l = 0 ∨ l ∈ y := by
  have hlen := h.len
  rw [closed_length] at hlen
  have hmem : ∀ a ∈ p, a ∈ (arcRows G).flatten := by
    intro a ha
    obtain ⟨k, hk⟩ := List.getElem?_of_mem ha
    have := congrArg (fun l => l[k]?) h.arcs
    simp only [List.getElem?_map, hk, Option.map_some] at this
    obtain ⟨j, -, hj⟩ := Option.map_eq_some_iff.mp this
    exact List.mem_of_getElem? hj
  obtain ⟨p0, a, rfl⟩ : ∃ p0 a, p = p0 ++ [a] := by
    rcases List.eq_nil_or_concat p with rfl | ⟨p0, a, rfl⟩
    · simp at hlen
    · exact ⟨p0, a, by simp⟩
  have ha : a.label = -1 := by
    rw [hG.final a (hmem a (by simp))]
    obtain ⟨m, -, h2⟩ := (chain_append _ _ _ _).mp h.chain
    have := h2.2
    have hp := h.pos
    simp only [arcRows, List.length_map] at this hp
    simp only [chain_nil] at this
    omega
  refine ⟨labels p0, by simp [labels, ha], by simpa [labels] using hlen, ?_, ?_⟩
  · have hpath : Path (G.flatten.map Prod.fst) 0 (p0 ++ [a]) (G.length - 1) := by
      refine ⟨by simpa [arcRows] using h.chain, ?_⟩
      rw [← rows_flatten y G hG]; exact hmem
    obtain ⟨tp, h1, h2⟩ := (path_map_fst _ _ _ _).mp hpath
    exact ((hG.maps (labels p0) (ostring tp)).mp ⟨tp, h1, by simp [ilabels, h2, labels, ha], rfl⟩).1
  · exact labels_init y G hG _ 0 _ h.chain hmem (labels p0) a.label (by simp [labels])

/-- Every label sequence that collapses to the transcript is spelled by an alignment. -/
theorem seq_align (s : List Int) (hs : s.length = fr.length) (hc : ctcCollapse s = y) :
    ∃ js p, IsAlign (arcRows G) (closed C fr) js p ∧ labels p = s ++ [-1] := by
  obtain ⟨tp, h1, h2, -⟩ := (hG.maps s y).mpr ⟨hc, rfl⟩
  have hp := (path_map_fst _ _ _ _).mpr ⟨tp, h1, rfl⟩
  obtain ⟨js, hjs⟩ := path_index (arcRows G).flatten (tp.map Prod.fst) (by
    rw [rows_flatten y G hG]; exact hp.2)
  have hl : (tp.map Prod.fst).length = fr.length + 1 := by
    have := congrArg List.length h2
    simp only [ilabels, labels, List.length_map, List.length_append, List.length_singleton] at this
    rw [List.length_map]; omega
  refine ⟨js, tp.map Prod.fst, ⟨?_, by simpa [arcRows] using hp.1, hjs, by rw [hl, closed_length]⟩, h2⟩
  obtain ⟨a, ha⟩ : ∃ a, a ∈ (arcRows G).flatten := by
    rw [rows_flatten y G hG]
    cases htp : tp.map Prod.fst with
    | nil => rw [htp] at hl; simp at hl
    | cons a _ => exact ⟨a, hp.2 a (by rw [htp]; simp)⟩
  have := hG.noExit a ha
  simp only [arcRows, List.length_map]; omega

/-- An alignment is determined by its label sequence. -/
theorem align_unique (js js' : List Nat) (p p' : List (Arc (WithBot ℝ))) (h : IsAlign (arcRows G) (closed C fr) js p)
    (h' : IsAlign (arcRows G) (closed C fr) js' p') (hl : labels p = labels p') : js = js' := by
  have hmem : ∀ (js : List Nat) (p : List (Arc (WithBot ℝ))), IsAlign (arcRows G) (closed C fr) js p →
      ∃ tp, TPath G.flatten 0 tp (G.length - 1) ∧ tp.map Prod.fst = p := by
    intro js p h
    refine (path_map_fst _ _ _ _).mp ⟨by simpa [arcRows] using h.chain, ?_⟩
    intro a ha
    rw [← rows_flatten y G hG]
    obtain ⟨k, hk⟩ := List.getElem?_of_mem ha
    have := congrArg (fun l => l[k]?) h.arcs
    simp only [List.getElem?_map, hk, Option.map_some] at this
    obtain ⟨j, -, hj⟩ := Option.map_eq_some_iff.mp this
    exact List.mem_of_getElem? hj
  obtain ⟨s, hs, -⟩ := align_seq C fr y G hG js p h
  obtain ⟨tp, h1, h2⟩ := hmem js p h
  obtain ⟨tp', h1', h2'⟩ := hmem js' p' h'
  have he := hG.unique s tp tp' h1 h1' (by rw [ilabels, h2, hs]) (by rw [ilabels, h2', ← hl, hs])
  have hpp : p = p' := by rw [← h2, ← h2', he]
  subst hpp
  have e1 := congrArg List.length h.arcs
  have e2 := congrArg List.length h'.arcs
  simp only [List.length_map] at e1 e2
  apply List.ext_getElem (by omega)
  intro k hk hk'
  have k1 := congrArg (fun l => l[k]?) h.arcs
  have k2 := congrArg (fun l => l[k]?) h'.arcs
  have hp := List.getElem?_eq_getElem (show k < p.length by omega)
  simp only [List.getElem?_map, List.getElem?_eq_getElem hk, List.getElem?_eq_getElem hk', hp, Option.map_some,
    Option.some.injEq] at k1 k2
  obtain ⟨b1, c1⟩ := List.getElem?_eq_some_iff.mp k1
  obtain ⟨b2, c2⟩ := List.getElem?_eq_some_iff.mp k2
  exact (List.Nodup.getElem_inj_iff hG.nodup).mp (c1.trans c2.symm)

/-- The alignments in the beam, in terms of label sequences. -/
def WideBeam (neg : WithBot ℝ) : Prop :=
  ∀ s s' : List Int, s.length = fr.length → s'.length = fr.length → ctcCollapse s = y → ctcCollapse s' = y →
    seqScore fr s' ≠ ⊥ → seqScore fr s + neg < seqScore fr s'

variable (hy : ∀ l ∈ y, 0 < l ∧ l < C) (hC : 0 < C)
include hy hC

theorem align_score (js : List Nat) (p : List (Arc (WithBot ℝ))) (h : IsAlign (arcRows G) (closed C fr) js p) :
    ∃ s, labels p = s ++ [-1] ∧ s.length = fr.length ∧ ctcCollapse s = y ∧ (∀ l ∈ s, 0 ≤ l ∧ l < C) ∧
      alignScore p (closed C fr) = seqScore fr s := by
  obtain ⟨s, h1, h2, h3, h4⟩ := align_seq C fr y G hG js p h
  have hb : ∀ l ∈ s, 0 ≤ l ∧ l < C := by
    intro l hl
    rcases h4 l hl with rfl | h
    · exact ⟨le_refl _, by exact_mod_cast hC⟩
    · have := hy l h; omega
  refine ⟨s, h1, h2, h3, hb, alignScore_closed C fr p s h1 h2 ?_ (fun l hl => (hb l hl).1)⟩
  intro a ha
  obtain ⟨k, hk⟩ := List.getElem?_of_mem ha
  have := congrArg (fun l => l[k]?) h.arcs
  simp only [List.getElem?_map, hk, Option.map_some] at this
  obtain ⟨j, -, hj⟩ := Option.map_eq_some_iff.mp this
  exact hG.score a (List.mem_of_getElem? hj)

/-- The sum over some alignments is at most the CTC probability; it is equal if no alignment of a positive
probability is missing. -/
theorem sum_le_ctcProb (P : List (List Nat)) (hP : P.Nodup)
    (hal : ∀ js ∈ P, ∃ p, IsAlign (arcRows G) (closed C fr) js p) (mid : ℝ) (mask : Nat → Bool) :
    (P.map (alignProb (arcRows G) (closed C fr) 0 mid mask)).sum ≤ ctcProb C fr y ∧
    ((∀ js p, IsAlign (arcRows G) (closed C fr) js p → alignScore p (closed C fr) ≠ ⊥ → js ∈ P) →
      (P.map (alignProb (arcRows G) (closed C fr) 0 mid mask)).sum = ctcProb C fr y) := by
  classical
  have hdel : ∀ (t : Nat) (js : List Nat), delay 0 mid mask t js = 0 := by
    intro t js
    induction js generalizing t with
    | nil => rfl
    | cons j js ih => simp [delay, ih]
  -- the label sequence of an alignment
  let g : List Nat → (Fin fr.length → Fin C) := fun js t =>
    ⟨((labels (arcsAt (arcRows G) js)).getD t 0).toNat % C, Nat.mod_lt _ hC⟩
  have hg : ∀ js p, IsAlign (arcRows G) (closed C fr) js p →
      labels p = List.ofFn (fun t => ((g js t : Nat) : Int)) ++ [-1] ∧
      ctcCollapse (List.ofFn (fun t => ((g js t : Nat) : Int))) = y ∧
      alignProb (arcRows G) (closed C fr) 0 mid mask js = ∏ t, expB ((fr.get t).getD (g js t) ⊥) := by
    intro js p h
    obtain ⟨s, h1, h2, h3, h4, h5⟩ := align_score C fr y G hG hy hC js p h
    have hs : List.ofFn (fun t => ((g js t : Nat) : Int)) = s := by
      apply List.ext_getElem (by simp [h2])
      intro k hk hk'
      rw [List.getElem_ofFn]
      simp only [g]
      rw [arcsAt_eq _ js p h.arcs, h1, List.getD_eq_getElem?_getD, List.getElem?_append_left hk',
        List.getElem?_eq_getElem hk', Option.getD_some]
      have := h4 s[k] (List.getElem_mem hk')
      rw [Nat.mod_eq_of_lt (by omega)]
      omega
    refine ⟨by rw [hs, h1], by rw [hs, h3], ?_⟩
    rw [seqScore_prod, hs, alignProb, arcsAt_eq _ js p h.arcs, h5, hdel, Real.exp_zero, mul_one]
  let term : (Fin fr.length → Fin C) → ℝ := fun s =>
    if ctcCollapse (List.ofFn (fun t => ((s t : Nat) : Int))) = y then ∏ t, expB ((fr.get t).getD (s t) ⊥) else 0
  have hterm : ∀ s, 0 ≤ term s := by
    intro s
    simp only [term]
    split
    · exact Finset.prod_nonneg (fun t _ => expB_nonneg _)
    · exact le_refl _
  have hinj : Set.InjOn g (P.toFinset : Set (List Nat)) := by
    intro js hjs js' hjs' he
    obtain ⟨p, hp⟩ := hal js (by simpa using hjs)
    obtain ⟨p', hp'⟩ := hal js' (by simpa using hjs')
    refine align_unique C fr y G hG js js' p p' hp hp' ?_
    rw [(hg js p hp).1, (hg js' p' hp').1, he]
  have hsum : (P.map (alignProb (arcRows G) (closed C fr) 0 mid mask)).sum = ∑ s ∈ P.toFinset.image g, term s := by
    rw [Finset.sum_image hinj, ← List.sum_toFinset _ hP]
    apply Finset.sum_congr rfl
    intro js hjs
    obtain ⟨p, hp⟩ := hal js (by simpa using hjs)
    obtain ⟨-, h2, h3⟩ := hg js p hp
    simp only [term]
    rw [if_pos h2, h3]
  have hprob : ctcProb C fr y = ∑ s, term s := by
    unfold ctcProb
    apply Finset.sum_congr rfl
    intro s _
    simp only [term]
  rw [hsum, hprob]
  refine ⟨Finset.sum_le_sum_of_subset_of_nonneg (Finset.subset_univ _) (fun s _ _ => hterm s), ?_⟩
  intro hall
  apply Finset.sum_subset (Finset.subset_univ _)
  intro s _ hs
  by_contra hne
  simp only [term] at hne
  split at hne
  · next hc =>
    rw [seqScore_prod] at hne
    obtain ⟨js, p, hp, hl⟩ := seq_align C fr y G hG _ (by simp) hc
    obtain ⟨s', h1, h2, h3, h4, h5⟩ := align_score C fr y G hG hy hC js p hp
    have hss : s' = List.ofFn (fun t => ((s t : Nat) : Int)) := by
      rw [h1] at hl; exact List.append_cancel_right hl
    have hm := hall js p hp (by
      rw [h5, hss]
      intro hb
      rw [hb] at hne
      exact hne rfl)
    apply hs
    rw [Finset.mem_image]
    refine ⟨js, by simpa using hm, ?_⟩
    have h6 := (hg js p hp).1
    rw [hl] at h6
    have h7 := List.append_cancel_right h6
    have h8 := List.ofFn_injective h7
    funext t
    have := congrFun h8 t
    apply Fin.ext
    exact_mod_cast this.symm
  · exact hne rfl

end

end Verif.Fsa.Loss
