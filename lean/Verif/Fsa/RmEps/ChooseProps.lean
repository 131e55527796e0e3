import Verif.Fsa.RmEps.Choose
import Verif.Fsa.RmEps.DevProps

/-!
# C35: `remove_epsilon`
-/

namespace Verif.Fsa.Rmd
open Verif.Fsa.Rme (Num EpsOnly removeEpsilonHost removeEpsilonHost_correct)
variable {W : Type} [AddCommGroup W] [LinearOrder W] [IsOrderedAddMonoid W]

theorem sorted_no_cycle {f : Fsa W} (h : ∀ a ∈ f.arcs, a.src < a.dst) : ¬ PositiveCycle f := by
  rintro ⟨s, p, hp, _, hpos⟩
  have mono : ∀ (q : List (Arc W)) (s t : Nat), Path f.arcs s q t → s ≤ t := by
    intro q
    induction q with
    | nil => intro s t h; rw [path_nil] at h; omega
    | cons b q ih =>
      intro s t hq
      rw [path_cons] at hq
      have := ih _ _ hq.2.2
      have := h b hq.1
      omega
  cases p with
  | nil => simp [score] at hpos
  | cons a p =>
    rw [path_cons] at hp
    have := mono _ _ _ hp.2.2
    have := h a hp.1
    omega

theorem topSortedAndAcyclic_iff (f : Fsa W) :
    topSortedAndAcyclic f = true ↔ ∀ a ∈ f.arcs, a.src < a.dst := by
  simp [topSortedAndAcyclic]

/-- An arc with its score as a number. -/
def arcNum (a : Arc W) : Arc (Num W) := ⟨a.src, a.dst, a.label, .fin a.score⟩

theorem chain_num (q : List (Arc W)) : ∀ s t, Chain s (q.map arcNum) t ↔ Chain s q t := by
  induction q with
  | nil => intro s t; exact Iff.rfl
  | cons a q ih => intro s t; exact and_congr Iff.rfl (ih _ _)

theorem score_num (q : List (Arc W)) : score (q.map arcNum) = .fin (score q) := by
  induction q with
  | nil => rfl
  | cons a q ih =>
    have h1 : score ((a :: q).map arcNum) = .fin a.score + score (q.map arcNum) := rfl
    have h2 : score (a :: q) = a.score + score q := rfl
    rw [h1, ih, h2]
    rfl

theorem labels_num (q : List (Arc W)) : labels (q.map arcNum) = labels q := by
  simp [labels, arcNum]

theorem arcNum_inj {a b : Arc W} (h : arcNum a = arcNum b) : a = b := by
  cases a
  cases b
  unfold arcNum at h
  simp only [Arc.mk.injEq, Num.fin.injEq] at h
  simp only [Arc.mk.injEq]
  exact h

theorem removal_num {f g : Fsa W} {d : List (List Nat)} (h : IsEpsRemoval id f g d) :
    IsEpsRemoval Num.fin f (toNum g) d := by
  have hmem : ∀ a ∈ (toNum g).arcs, ∃ b ∈ g.arcs, arcNum b = a := fun a ha => List.mem_map.1 ha
  refine ⟨?_, ?_, ?_, ?_, ?_⟩
  · intro hne
    have hv := h.valid hne
    refine ⟨hv.two, ?_, ?_, ?_, ?_⟩
    · show (g.arcs.map arcNum).Pairwise _
      rw [List.pairwise_map]
      exact hv.sorted
    · intro a ha
      obtain ⟨b, hb, rfl⟩ := hmem a ha
      exact hv.src_lt b hb
    · intro a ha
      obtain ⟨b, hb, rfl⟩ := hmem a ha
      exact hv.dst_lt b hb
    · intro a ha
      obtain ⟨b, hb, rfl⟩ := hmem a ha
      exact hv.final_iff b hb
  · intro a ha
    obtain ⟨b, hb, rfl⟩ := hmem a ha
    exact h.epsFree b hb
  · rw [h.length_eq]
    simp [toNum]
  · intro ks q hn hacc
    have hq : ∃ q' : List (Arc W), q = q'.map arcNum ∧ ks.map (fun k => g.arcs[k]?) = q'.map some := by
      clear hacc
      induction ks generalizing q with
      | nil =>
        cases q with
        | nil => exact ⟨[], rfl, rfl⟩
        | cons => simp at hn
      | cons k ks ih =>
        cases q with
        | nil => simp at hn
        | cons a q =>
          simp only [List.map_cons, List.cons.injEq] at hn
          obtain ⟨q', h1, h2⟩ := ih q hn.2
          have h3 : (g.arcs.map arcNum)[k]? = some a := hn.1
          rw [List.getElem?_map] at h3
          cases hk : g.arcs[k]? with
          | none => rw [hk] at h3; simp at h3
          | some b =>
            rw [hk] at h3
            exact ⟨b :: q', by rw [h1, ← Option.some.inj h3]; rfl, by simp [hk, h2]⟩
    obtain ⟨q', rfl, hn'⟩ := hq
    have hacc' : Accepting g q' := by
      refine ⟨hacc.1, (chain_num ..).1 hacc.2.1, ?_⟩
      intro b hb
      obtain ⟨c, hc, e⟩ := hmem _ (hacc.2.2 (arcNum b) (List.mem_map_of_mem hb))
      rw [← arcNum_inj e]
      exact hc
    obtain ⟨p, h1, h2, h3, h4⟩ := h.sound ks q' hn' hacc'
    exact ⟨p, h1, h2, by rw [h3, labels_num], by rw [score_num, h4]; rfl⟩
  · intro p hp
    obtain ⟨q, w, h1, h2, h3, h4⟩ := h.complete p hp
    refine ⟨q.map arcNum, w, ⟨h1.1, (chain_num ..).2 h1.2.1, ?_⟩, by rw [labels_num, h2],
      by rw [score_num, h3]; rfl, h4⟩
    intro a ha
    obtain ⟨b, hb, rfl⟩ := List.mem_map.1 ha
    exact List.mem_map.2 ⟨b, h1.2.2 b hb, rfl⟩

/-- **C35**: on every device, `remove_epsilon` of a valid FSA without epsilon cycles of positive score
terminates with an epsilon-free FSA that accepts the same strings with the same best scores, and the
derivatives of its arcs name the arcs of the paths they stand for. -/
theorem removeEpsilon_correct (cpu : Bool) (f : Fsa W) (hv : f.Valid) (hcyc : ¬ PositiveCycle f) :
    ∃ g d, removeEpsilon cpu f = some (.done (g, d)) ∧ IsEpsRemoval Num.fin f g d := by
  unfold removeEpsilon
  by_cases h : (topSortedAndAcyclic f && cpu) = true
  · rw [if_pos h]
    obtain ⟨g, d, h1, _, h2⟩ := removeEpsilonHost_correct f hv
      ((topSortedAndAcyclic_iff f).1 (by simp at h; exact h.1))
    rw [h1]
    exact ⟨g, d, rfl, h2⟩
  · rw [if_neg h]
    obtain ⟨g, d, h1, h2⟩ := removeEpsilonDevice_correct f hv hcyc
    rw [h1]
    exact ⟨toNum g, d, rfl, removal_num h2⟩

/-- **C35**: it aborts exactly if there is an epsilon cycle with a positive score. -/
theorem removeEpsilon_aborts (cpu : Bool) (f : Fsa W) (hv : f.Valid) :
    removeEpsilon cpu f = some .aborted ↔ PositiveCycle f := by
  constructor
  · intro ha
    by_contra hcyc
    obtain ⟨g, d, h1, _⟩ := removeEpsilon_correct cpu f hv hcyc
    rw [ha] at h1
    cases h1
  · intro hcyc
    unfold removeEpsilon
    rw [if_neg, (removeEpsilonDevice_aborts f hv).2 hcyc]
    intro h
    exact sorted_no_cycle ((topSortedAndAcyclic_iff f).1 (by simp at h; exact h.1)) hcyc

/-- **C35**: the best score of each string is the same. -/
theorem removeEpsilon_best (cpu : Bool) (f : Fsa W) (hv : f.Valid) (g : Fsa (Num W))
    (d : List (List Nat)) (h : removeEpsilon cpu f = some (.done (g, d))) (x : List Int) (w : W) :
    ((∃ p, Accepting f p ∧ noEps (labels p) = x ∧ score p = w) ∧
        ∀ p, Accepting f p → noEps (labels p) = x → score p ≤ w) ↔
      ((∃ q, Accepting g q ∧ labels q = x ∧ score q = .fin w) ∧
        ∀ q, Accepting g q → labels q = x → ∃ v, score q = .fin v ∧ v ≤ w) := by
  have hcyc : ¬ PositiveCycle f := by
    rw [← removeEpsilon_aborts cpu f hv, h]
    intro h
    cases h
  obtain ⟨g', d', h', hr⟩ := removeEpsilon_correct cpu f hv hcyc
  rw [h] at h'
  cases h'
  exact hr.best (fun _ _ => Num.fin.inj) x w

example : ∃ g d, removeEpsilon true epsCycle = some (.done (g, d)) ∧ IsEpsRemoval Num.fin epsCycle g d :=
  removeEpsilon_correct true _ epsCycle_valid
    (no_positive_cycle _ (fun s => if s = 2 then 2 else 0) (by decide))

example : ∃ g d, removeEpsilon true Rme.twoWays = some (.done (g, d)) ∧
    IsEpsRemoval Num.fin Rme.twoWays g d :=
  removeEpsilon_correct true _ Rme.twoWays_valid (sorted_no_cycle (by decide))

end Verif.Fsa.Rmd
