import Verif.Fsa.Nbest.IsectModel
import Verif.Fsa.Ops.LoopsVecProps
import Verif.Fsa.Device.BindProps
import Verif.Fsa.Shortest.Props
import Verif.Fsa.Sort.Props
import Verif.Fsa.Batches.Props
import Verif.Fsa.RmEps.ChooseProps
import Verif.Fsa.Nbest.TopLemmas
import Verif.Fsa.Nbest.Props

/-!
# C106: `Nbest.intersect`
-/

namespace Verif.Fsa.Nbi
open Verif.Ragged Verif.Util Verif.Fsa.Best Verif.Fsa.Lpv Verif.Fsa.Idv Verif.Fsa.Isect Verif.Fsa.Top
variable {W : Type}

/-! ## Specification -/

/-- An accepting path of the lattice `f` and one of the FSA `g` with the same labels, not counting the epsilons of
the lattice. -/
def Together (f g : Fsa W) (q r : List (Arc W)) : Prop :=
  Accepting f q ∧ Accepting g r ∧ Isect.noEps (labels q) = labels r

/-- Every arc that is not final goes from one level of states to the next one, as in a lattice with one step for
each frame. -/
def Levels (f : List (List (Arc W))) : Prop :=
  ∃ lev : Nat → Nat, lev 0 = 0 ∧ ∀ a ∈ f.flatten, a.label ≠ -1 → lev a.dst = lev a.src + 1

/-- What is given to `Nbest.intersect`: lattices, and FSAs without epsilons that belong to the utterances `utt`. -/
structure Given (Ta Tb : List (List (List (Arc W)))) (utt : List Nat) : Prop where
  ne : Ta ≠ []
  okA : ∀ f ∈ Ta, RowsOk f
  okB : ∀ g ∈ Tb, RowsOk g
  validA : ∀ f ∈ Ta, f ≠ [] → (rowsFsa f).Valid
  validB : ∀ g ∈ Tb, g ≠ [] → (rowsFsa g).Valid
  labA : ∀ f ∈ Ta, ∀ a ∈ f.flatten, Int32 a.label
  labB : ∀ g ∈ Tb, ∀ a ∈ g.flatten, Int32 a.label
  epsFree : ∀ g ∈ Tb, ∀ a ∈ g.flatten, a.label ≠ 0
  len : utt.length = Tb.length
  lt : ∀ j ∈ utt, j < Ta.length

/-! ## Sorting -/

/-- An FSA with sorted arcs. -/
def sortRows (f : List (List (Arc W))) : List (List (Arc W)) :=
  f.map (fun row => row.mergeSort (fun a b => !arcLess b a))

theorem arcSortVec_eq (T : List (List (List (Arc W)))) : arcSortVec (flat T) = some (flat (T.map sortRows)) := by
  have h := sortSublists_eq arcLess T.flatten
  unfold arcSortVec
  have e1 : (flat T).sp2 = psum (T.flatten.map List.length) := rfl
  have e2 : (flat T).arcs = T.flatten.flatten := rfl
  have e3 : (T.map sortRows).flatten = T.flatten.map (fun row => row.mergeSort (fun a b => !arcLess b a)) := by
    rw [List.map_flatten]
    rfl
  have e4 : (T.map sortRows).map List.length = T.map List.length := by
    rw [List.map_map]
    apply List.map_congr_left
    intro f _
    simp [sortRows]
  have e5 : (T.map sortRows).flatten.map List.length = T.flatten.map List.length := by
    rw [e3, List.map_map]
    apply List.map_congr_left
    intro row _
    simp [List.length_mergeSort]
  rw [e1, e2, h, Option.map_some]
  unfold flat
  rw [e4, e5, e3]

theorem sortRows_length (f : List (List (Arc W))) : (sortRows f).length = f.length := by simp [sortRows]

theorem sortRows_mem (f : List (List (Arc W))) (a : Arc W) : a ∈ (sortRows f).flatten ↔ a ∈ f.flatten := by
  simp only [sortRows, List.mem_flatten, List.mem_map]
  constructor
  · rintro ⟨_, ⟨row, hr, rfl⟩, ha⟩
    exact ⟨row, hr, List.mem_mergeSort.mp ha⟩
  · rintro ⟨row, hr, ha⟩
    exact ⟨_, ⟨row, hr, rfl⟩, List.mem_mergeSort.mpr ha⟩

theorem sortRows_ok (f : List (List (Arc W))) (h : RowsOk f) : RowsOk (sortRows f) := by
  intro s row hs a ha
  rw [sortRows, List.getElem?_map] at hs
  obtain ⟨row', hr, rfl⟩ := Option.map_eq_some_iff.mp hs
  rw [sortRows_length]
  exact h s row' hr a (List.mem_mergeSort.mp ha)

theorem sortRows_valid (f : List (List (Arc W))) (h : RowsOk f) (hv : (rowsFsa f).Valid) :
    (rowsFsa (sortRows f)).Valid := by
  have hl := sortRows_length f
  refine ⟨by simpa [rowsFsa, hl] using hv.two, Comp.rowsOk_sorted _ (sortRows_ok f h), ?_, ?_, ?_⟩
  · intro a ha
    simp only [Fsa.final, rowsFsa, hl] at ha ⊢
    exact hv.src_lt a ((sortRows_mem f a).mp ha)
  · intro a ha
    simp only [rowsFsa, hl] at ha ⊢
    exact hv.dst_lt a ((sortRows_mem f a).mp ha)
  · intro a ha
    simp only [Fsa.final, rowsFsa, hl] at ha ⊢
    exact hv.final_iff a ((sortRows_mem f a).mp ha)

theorem sortRows_sorted (f : List (List (Arc W))) (hl : ∀ a ∈ f.flatten, Int32 a.label) : RowSorted (sortRows f) := by
  intro row hr
  obtain ⟨row, hrow, rfl⟩ := List.mem_map.mp hr
  have hl' : ∀ a ∈ row, Int32 a.label := fun a ha => hl a (List.mem_flatten.mpr ⟨row, hrow, ha⟩)
  have key : (row.mergeSort (fun a b => !arcLess b a)) =
      row.mergeSort (fun a b => decide (u32 a.label < u32 b.label ∨ (u32 a.label = u32 b.label ∧ a.dst ≤ b.dst))) := by
    apply mergeSort_congr
    intro a ha b hb
    rw [Bool.eq_iff_iff, decide_eq_true_iff]
    unfold arcLess
    by_cases h : b.label = a.label
    · rw [if_neg (by simpa using h)]
      simp only [h, Bool.not_eq_true', decide_eq_false_iff_not, lt_irrefl, true_and, false_or]
      omega
    · rw [if_pos h]
      have : u32 a.label ≠ u32 b.label := fun he => h (u32_inj _ _ (hl' a ha) (hl' b hb) he).symm
      simp only [Bool.not_eq_true', decide_eq_false_iff_not]
      omega
  rw [key]
  have := List.pairwise_mergeSort (le := fun a b : Arc W =>
    decide (u32 a.label < u32 b.label ∨ (u32 a.label = u32 b.label ∧ a.dst ≤ b.dst)))
    (by intro a b c h1 h2; simp only [decide_eq_true_iff] at *; omega)
    (by intro a b; simp only [Bool.or_eq_true, decide_eq_true_iff]; omega) row
  refine this.imp ?_
  intro a b h
  simp only [decide_eq_true_iff] at h
  omega

theorem accepting_mem {f g : Fsa W} (hn : f.numStates = g.numStates) (hm : ∀ a, a ∈ f.arcs ↔ a ∈ g.arcs)
    (p : List (Arc W)) : Accepting f p ↔ Accepting g p := by
  have hfin : f.final = g.final := by simp only [Fsa.final, hn]
  constructor
  · rintro ⟨h2, hp⟩
    exact ⟨hn ▸ h2, hfin ▸ hp.mono (fun a => (hm a).mp)⟩
  · rintro ⟨h2, hp⟩
    exact ⟨hn ▸ h2, hfin ▸ hp.mono (fun a => (hm a).mpr)⟩

theorem sortRows_accepting (f : List (List (Arc W))) (p : List (Arc W)) :
    Accepting (rowsFsa (sortRows f)) p ↔ Accepting (rowsFsa f) p :=
  accepting_mem (by simp [rowsFsa, sortRows_length]) (sortRows_mem f) p

/-! ## Loops -/

theorem noEps_cons (c : Int) (l : List Int) : Isect.noEps (c :: l) = if c ≠ 0 then c :: Isect.noEps l else Isect.noEps l := by
  by_cases h : c = 0 <;> simp [Isect.noEps, h]

/-- Without its loops a path has the same labels but for the epsilons. -/
theorem drop_loops [AddMonoid W] (g : List (List (Arc W))) (he : ∀ a ∈ g.flatten, a.label ≠ 0) (q : List (Arc W)) :
    ∀ s t, Path (withLoops g).flatten s q t →
      ∃ r, Path g.flatten s r t ∧ labels r = Isect.noEps (labels q) ∧ score r = score q := by
  induction q with
  | nil => intro s t hp; exact ⟨[], by rw [path_nil] at hp ⊢; exact hp, rfl, rfl⟩
  | cons a q ih =>
    intro s t hp
    rw [path_cons] at hp
    obtain ⟨ha, hs, hp⟩ := hp
    obtain ⟨r, hr, hl, hsc⟩ := ih _ _ hp
    rcases (withLoops_mem g a).mp ha with hm | ⟨u, _, rfl⟩
    · refine ⟨a :: r, (path_cons _ _ _ _ _).mpr ⟨hm, hs, hr⟩, ?_, ?_⟩
      · rw [labels_cons, labels_cons, noEps_cons, if_pos (he a hm), hl]
      · rw [score_cons, score_cons, hsc]
    · refine ⟨r, by simp only at hs hr; rw [← hs]; exact hr, ?_, ?_⟩
      · rw [hl, labels_cons, noEps_cons, if_neg (by simp)]
      · rw [hsc]; simp

/-- Loops can be inserted wherever the other FSA has epsilons. -/
theorem insert_loops [AddMonoid W] (g : List (List (Arc W))) (hv : (rowsFsa g).Valid) (l : List Int) :
    ∀ (s : Nat) (r : List (Arc W)), Path g.flatten s r (g.length - 1) → labels r = Isect.noEps l →
      l.getLast? ≠ some 0 →
      ∃ q, Path (withLoops g).flatten s q (g.length - 1) ∧ labels q = l ∧ score q = score r := by
  induction l with
  | nil =>
    intro s r hp hl _
    have : r = [] := by
      cases r with
      | nil => rfl
      | cons a r => simp [labels, Isect.noEps] at hl
    subst this
    exact ⟨[], by rw [path_nil] at hp ⊢; exact hp, rfl, rfl⟩
  | cons c l ih =>
    intro s r hp hl hlast
    have hlast' : l.getLast? ≠ some 0 := by
      intro h
      apply hlast
      rw [List.getLast?_cons, h]
      rfl
    rw [noEps_cons] at hl
    by_cases hc : c = 0
    · subst hc
      rw [if_neg (by simp)] at hl
      obtain ⟨q, h1, h2, h3⟩ := ih s r hp hl hlast'
      have hrne : r ≠ [] := by
        rintro rfl
        rw [labels, List.map_nil] at hl
        cases l with
        | nil => simp at hlast
        | cons d l =>
          have hx : (d :: l).getLast (by simp) ∈ d :: l := List.getLast_mem _
          have : (d :: l).getLast (by simp) = 0 := by
            by_contra hne
            have : (d :: l).getLast (by simp) ∈ Isect.noEps (d :: l) := by
              rw [Isect.noEps, List.mem_filter]
              exact ⟨hx, by simpa using hne⟩
            rw [← hl] at this
            simp at this
          apply hlast'
          rw [List.getLast?_eq_some_getLast (by simp), this]
      have hs : s + 1 < g.length := by
        cases r with
        | nil => exact absurd rfl hrne
        | cons a r =>
          rw [path_cons] at hp
          have := hv.src_lt a hp.1
          simp only [Fsa.final, rowsFsa] at this
          have := hp.2.1
          omega
      refine ⟨⟨s, s, 0, 0⟩ :: q, (path_cons _ _ _ _ _).mpr ⟨(withLoops_mem g _).mpr (Or.inr ⟨s, hs, rfl⟩), rfl, h1⟩, ?_, ?_⟩
      · rw [labels_cons, h2]
      · rw [score_cons, h3]; simp
    · rw [if_pos hc] at hl
      cases r with
      | nil => simp [labels] at hl
      | cons a r =>
        rw [labels_cons, List.cons.injEq] at hl
        rw [path_cons] at hp
        obtain ⟨q, h1, h2, h3⟩ := ih a.dst r hp.2.2 hl.2 hlast'
        refine ⟨a :: q, (path_cons _ _ _ _ _).mpr ⟨(withLoops_mem g _).mpr (Or.inl hp.1), hp.2.1, h1⟩, ?_, ?_⟩
        · rw [labels_cons, h2, hl.1]
        · rw [score_cons, score_cons, h3]

/-- The last label of an accepting path is not an epsilon. -/
theorem last_label {f : Fsa W} (hv : f.Valid) {p : List (Arc W)} (hp : Accepting f p) : (labels p).getLast? ≠ some 0 := by
  have key : ∀ (p : List (Arc W)) (s : Nat), Path f.arcs s p f.final → (labels p).getLast? ≠ some 0 := by
    intro p
    induction p with
    | nil => intro s _; simp [labels]
    | cons a p ih =>
      intro s hp
      rw [path_cons] at hp
      have := ih _ hp.2.2
      rw [labels_cons, List.getLast?_cons]
      cases p with
      | nil =>
        have h1 := hp.2.2
        rw [path_nil] at h1
        have := (hv.final_iff a hp.1).mpr h1
        simp [labels, this]
      | cons b p =>
        intro h
        apply this
        cases hq : (labels (b :: p)).getLast? with
        | none => rw [List.getLast?_eq_none_iff] at hq; simp [labels] at hq
        | some x => rw [hq] at h; simpa using h
  exact key p 0 hp.2

/-- What the intersection with the loops accepts. -/
theorem loops_accepts [AddCommMonoid W] {f g : List (List (Arc W))} {c : Fsa W} {ma mb : List Int}
    (hfo : RowsOk f) (hgo : RowsOk g) (hf : (rowsFsa f).Valid) (hg : (rowsFsa g).Valid)
    (he : ∀ a ∈ g.flatten, a.label ≠ 0)
    (h : IsIntersection false (rowsFsa (sortRows f)) (rowsFsa (withLoops g)) c ma mb) (l : List Int) (w : W) :
    AcceptsLabels c l w ↔ ∃ q r, Together (rowsFsa f) (rowsFsa g) q r ∧ labels q = l ∧ w = score q + score r := by
  have hgl : (rowsFsa (withLoops g)).final = g.length - 1 := by simp [Fsa.final, rowsFsa, withLoops_length]
  rw [intersection_accepts_literal (sortRows_valid f hfo hf) (withLoops_valid g hgo hg) h]
  constructor
  · rintro ⟨w1, w2, ⟨q, hq, hql, rfl⟩, ⟨r', hr', hrl, rfl⟩, rfl⟩
    obtain ⟨h2, hp⟩ := hr'
    rw [hgl] at hp
    obtain ⟨r, k1, k2, k3⟩ := drop_loops g he r' 0 _ hp
    refine ⟨q, r, ⟨(sortRows_accepting f q).mp hq, ⟨hg.two, k1⟩, ?_⟩, hql, by rw [k3]⟩
    rw [hql, ← hrl, k2]
  · rintro ⟨q, r, ⟨hq, hr, hl⟩, rfl, rfl⟩
    obtain ⟨r', k1, k2, k3⟩ := insert_loops g hg (labels q) 0 r hr.2 hl.symm (last_label hf hq)
    refine ⟨_, _, ⟨q, (sortRows_accepting f q).mpr hq, rfl, rfl⟩, ⟨r', ⟨?_, ?_⟩, k2, rfl⟩, by rw [k3]⟩
    · have := (withLoops_valid g hgo hg).two
      exact this
    · rw [hgl]
      exact k1

/-! ## The linear FSA -/

theorem linear_line {p : List (Arc W)} (hp : p ≠ []) : linearRows p = lineFsa p := by
  rw [linearRows, if_neg hp, lineFsa]

theorem linear_ok (p : List (Arc W)) : RowsOk (linearRows p) := by
  intro s row hs a ha
  by_cases hp : p = []
  · subst hp
    simp [linearRows] at hs
  · rw [linearRows_length, if_neg (by simpa using hp)]
    rcases Nat.lt_trichotomy s p.length with h | h | h
    · rw [linearRows_get p s _ (List.getElem?_eq_getElem h)] at hs
      obtain rfl := Option.some.inj hs
      obtain rfl := List.mem_singleton.mp ha
      exact ⟨rfl, by simp only; omega⟩
    · subst h
      rw [linearRows_last p hp] at hs
      obtain rfl := Option.some.inj hs
      simp at ha
    · rw [List.getElem?_eq_none (by rw [linearRows_length, if_neg (by simpa using hp)]; omega)] at hs
      exact absurd hs (by simp)

theorem line_arc {p : List (Arc W)} {a : Arc W} (h : a ∈ (lineFsa p).flatten) :
    ∃ (k : Nat) (b : Arc W), p[k]? = some b ∧ a = ⟨k, k + 1, b.label, b.score⟩ := by
  rw [Nb.lineFsa_flatten] at h
  obtain ⟨k, hk⟩ := List.getElem?_of_mem h
  rw [List.getElem?_mapIdx] at hk
  obtain ⟨b, hb, rfl⟩ := Option.map_eq_some_iff.mp hk
  exact ⟨k, b, hb, rfl⟩

theorem line_valid {p : List (Arc W)} (hp : Nb.Ends p) : (rowsFsa (linearRows p)).Valid := by
  obtain ⟨p0, e, rfl, he, hb⟩ := hp
  have hne : p0 ++ [e] ≠ [] := by simp
  have hok := linear_ok (p0 ++ [e])
  have hlen : (lineFsa (p0 ++ [e])).length = p0.length + 2 := by simp [lineFsa]
  rw [linear_line hne] at hok ⊢
  refine ⟨by simp [rowsFsa, hlen], Comp.rowsOk_sorted _ hok, ?_, ?_, ?_⟩
  · intro a ha
    obtain ⟨k, b, hk, rfl⟩ := line_arc ha
    have := (List.getElem?_eq_some_iff.mp hk).1
    simp only [List.length_append, List.length_singleton] at this
    simp only [Fsa.final, rowsFsa, hlen]
    omega
  · intro a ha
    obtain ⟨k, b, hk, rfl⟩ := line_arc ha
    have := (List.getElem?_eq_some_iff.mp hk).1
    simp only [List.length_append, List.length_singleton] at this
    simp only [rowsFsa, hlen]
    omega
  · intro a ha
    obtain ⟨k, b, hk, rfl⟩ := line_arc ha
    have hlt := (List.getElem?_eq_some_iff.mp hk).1
    simp only [List.length_append, List.length_singleton] at hlt
    simp only [Fsa.final, rowsFsa, hlen]
    rcases Nat.lt_or_ge k p0.length with h1 | h1
    · rw [List.getElem?_append_left h1] at hk
      have := hb b (List.mem_of_getElem? hk)
      constructor
      · intro h; exact absurd h this
      · intro h; omega
    · have hk0 : k = p0.length := by omega
      subst hk0
      rw [List.getElem?_append_right (by omega), Nat.sub_self] at hk
      have : e = b := by simpa using hk
      subst this
      constructor
      · intro _; omega
      · intro _; exact he

theorem line_labels (p : List (Arc W)) : labels (p.mapIdx (fun k a => (⟨k, k + 1, a.label, a.score⟩ : Arc W))) = labels p := by
  apply List.ext_getElem?
  intro i
  simp only [labels, List.getElem?_map, List.getElem?_mapIdx, Option.map_map]
  rfl

theorem line_score [AddMonoid W] (p : List (Arc W)) :
    score (p.mapIdx (fun k a => (⟨k, k + 1, a.label, a.score⟩ : Arc W))) = score p := by
  have : (p.mapIdx (fun k a => (⟨k, k + 1, a.label, a.score⟩ : Arc W))).map Arc.score = p.map Arc.score := by
    apply List.ext_getElem?
    intro i
    simp only [List.getElem?_map, List.getElem?_mapIdx, Option.map_map]
    rfl
  rw [score, score, this]

section
variable [AddCommGroup W] [LinearOrder W] [IsOrderedAddMonoid W]

/-- `remove_epsilon` of the linear FSA of a path. -/
theorem line_removed (p : List (Arc W)) (hp : Nb.Ends p) (cpu : Bool) :
    ∃ c d, Rmd.removeEpsilon cpu (rowsFsa (linearRows p)) = some (.done (c, d)) ∧ (∀ a ∈ c.arcs, a.label ≠ 0) ∧
      (∃ t, Accepting c t) ∧ ∀ t, Accepting c t → labels t = Isect.noEps (labels p) ∧ score t = .fin (score p) := by
  have hv := line_valid hp
  have hne : p ≠ [] := by
    obtain ⟨p0, e, rfl, -⟩ := hp
    simp
  have hpath : ∀ q, Accepting (rowsFsa (linearRows p)) q ↔ q = p.mapIdx (fun k a => ⟨k, k + 1, a.label, a.score⟩) := by
    rw [linear_line hne]
    exact lineFsa_path p hne
  have hsrt : ∀ a ∈ (rowsFsa (linearRows p)).arcs, a.src < a.dst := by
    intro a ha
    rw [linear_line hne] at ha
    obtain ⟨k, b, -, rfl⟩ := line_arc ha
    simp
  obtain ⟨c, d, h1, h2⟩ := Rmd.removeEpsilon_correct cpu _ hv (Rmd.sorted_no_cycle hsrt)
  have hall : ∀ t, Accepting c t → labels t = Isect.noEps (labels p) ∧ score t = .fin (score p) := by
    intro t ht
    obtain ⟨ks, hks, -⟩ := ((path_iff_ipath _ _ _ _).mp ht.2)
    obtain ⟨q, -, h3, h4, h5⟩ := h2.sound ks t hks ht
    rw [(hpath q).mp h3, line_labels] at h4
    rw [(hpath q).mp h3, line_score] at h5
    refine ⟨?_, h5⟩
    rw [← h4, Fsa.noEps, Isect.noEps]
    apply List.filter_congr
    intro x _
    by_cases hx : x = 0 <;> simp [hx]
  obtain ⟨t, w, h3, -⟩ := h2.complete _ ((hpath _).mpr rfl)
  exact ⟨c, d, h1, h2.epsFree, ⟨t, h3⟩, hall⟩

/-! ## The result -/

/-- Best pairs of paths, if there are any. -/
def BestOf (f g : Fsa W) (p : List (Arc W)) : Prop :=
  ((∃ q r, Together f g q r) →
    ∃ q r, Together f g q r ∧ labels p = labels q ∧ score p = score q + score r ∧
      (∀ q' r', Together f g q' r' → score q' + score r' ≤ score p) ∧
      ∀ cpu, ∃ c d, Rmd.removeEpsilon cpu (rowsFsa (linearRows p)) = some (.done (c, d)) ∧
        (∀ a ∈ c.arcs, a.label ≠ 0) ∧ (∃ t, Accepting c t) ∧
        ∀ t, Accepting c t → labels t = labels r ∧ score t = .fin (score p)) ∧
  ((¬ ∃ q r, Together f g q r) → p = [])

/-- **C106**, for lattices with levels: `Nbest.intersect` returns for every path of the n-best list a linear FSA.  If
the lattice of its utterance accepts its labels, that FSA has those labels, and the score is the score of the path
plus the best score that the lattice gives to them; else it is empty. -/
theorem nbest_intersect_partial (Ta Tb : List (List (List (Arc W)))) (utt : List Nat) (h : Given Ta Tb utt)
    (hlev : ∀ f ∈ Ta, Levels f) (gpu : Bool) (order : Nat → Nat → List Nat)
    (ho : ∀ t n, (order t n).Perm (List.range n))
    (hsize : ∀ v ma mb, intersectDevice ⟨flat (Ta.map sortRows), flat (Tb.map withLoops), utt, true, gpu⟩ order =
      some (v, ma, mb) → v.id1.length ≤ Bat.intMax) :
    ∃ P : List (List (Arc W)), P.length = Tb.length ∧
      (∀ lp0 jm, 0 < jm → ∃ m, intersectBest gpu lp0 jm order extend ⊥ 0 (flat Ta) (flat Tb) Ta.length utt =
        some (flat (P.map linearRows), m)) ∧
      ∀ (i : Nat) (g : List (List (Arc W))), Tb[i]? = some g → ∃ j f p, utt[i]? = some j ∧ Ta[j]? = some f ∧
        P[i]? = some p ∧ BestOf (rowsFsa f) (rowsFsa g) p := by
  have hmA : ∀ f ∈ Ta.map sortRows, ∃ f' ∈ Ta, f = sortRows f' := by
    intro f hf
    obtain ⟨f', h1, rfl⟩ := List.mem_map.mp hf
    exact ⟨f', h1, rfl⟩
  have hmB : ∀ f ∈ Tb.map withLoops, ∃ f' ∈ Tb, f = withLoops f' := by
    intro f hf
    obtain ⟨f', h1, rfl⟩ := List.mem_map.mp hf
    exact ⟨f', h1, rfl⟩
  have hsz : ∀ f : List (List (Arc W)), sortRows f ≠ [] → f ≠ [] := by
    rintro f hf rfl
    exact hf rfl
  have hwz : ∀ f : List (List (Arc W)), withLoops f ≠ [] → f ≠ [] := by
    rintro f hf rfl
    exact hf rfl
  have hctx : Ctx (Ta.map sortRows) (Tb.map withLoops)
      ⟨flat (Ta.map sortRows), flat (Tb.map withLoops), utt, true, gpu⟩ := by
    refine ⟨rfl, rfl, ?_, ?_, ?_, ?_, ?_, ?_, ?_, by simpa using h.len, by simpa using h.lt⟩
    · intro f hf
      obtain ⟨f, hf', rfl⟩ := hmA f hf
      exact sortRows_ok f (h.okA f hf')
    · intro f hf
      obtain ⟨f, hf', rfl⟩ := hmB f hf
      exact withLoops_rows f (h.okB f hf')
    · intro f hf hne
      obtain ⟨f, hf', rfl⟩ := hmA f hf
      exact sortRows_valid f (h.okA f hf') (h.validA f hf' (hsz f hne))
    · intro f hf hne
      obtain ⟨f, hf', rfl⟩ := hmB f hf
      exact withLoops_valid f (h.okB f hf') (h.validB f hf' (hwz f hne))
    · intro f hf a ha
      obtain ⟨f, hf', rfl⟩ := hmA f hf
      exact h.labA f hf' a ((sortRows_mem f a).mp ha)
    · intro f hf a ha
      obtain ⟨f, hf', rfl⟩ := hmB f hf
      rcases (withLoops_mem f a).mp ha with ha | ⟨s, -, rfl⟩
      · exact h.labB f hf' a ha
      · unfold Int32
        simp
    · intro _ f hf
      obtain ⟨f, hf', rfl⟩ := hmA f hf
      exact sortRows_sorted f (h.labA f hf')
  obtain ⟨R, ma, mb, h1, h2, -, -, h3⟩ := intersect_device_correct (Ta.map sortRows) (Tb.map withLoops) _ hctx
    (by simpa using h.ne) order ho
  have hR : ∀ (i : Nat) (x : List (List (Arc W)) × List Int × List Int), R[i]? = some x → ∃ j f g,
      utt[i]? = some j ∧ Ta[j]? = some f ∧ Tb[i]? = some g ∧ RowsOk x.1 ∧
      IsIntersection false (rowsFsa (sortRows f)) (rowsFsa (withLoops g)) (rowsFsa x.1) x.2.1 x.2.2 ∧
      ((f = [] ∨ g = []) ↔ x.1 = []) ∧ ∀ a ∈ x.1.flatten, a.src < a.dst := by
    intro i x hx
    obtain ⟨j, f', g', e1, e2, e3, e4, e5, e6, -, e7⟩ := h3 i x hx
    rw [List.getElem?_map] at e2 e3
    obtain ⟨f, hf, rfl⟩ := Option.map_eq_some_iff.mp e2
    obtain ⟨g, hg, rfl⟩ := Option.map_eq_some_iff.mp e3
    refine ⟨j, f, g, e1, hf, hg, e4, e5, ?_, ?_⟩
    · rw [← e6, ← List.length_eq_zero_iff, ← List.length_eq_zero_iff, ← List.length_eq_zero_iff (l := sortRows f),
        ← List.length_eq_zero_iff (l := withLoops g), sortRows_length, withLoops_length]
    · obtain ⟨lev, l0, l1⟩ := hlev f (List.mem_of_getElem? hf)
      apply e7 (fun x => lev x.1) l0
      intro y hy z _ _ hn
      exact l1 y ((sortRows_mem f y).mp hy) hn
  have hTok : VecOk (R.map Prod.fst) := by
    intro f hf
    obtain ⟨x, hx, rfl⟩ := List.mem_map.mp hf
    obtain ⟨i, hi⟩ := List.getElem?_of_mem hx
    obtain ⟨j, f, g, -, -, -, h4, -⟩ := hR i x hi
    exact h4
  have hfw : ∀ f ∈ R.map Prod.fst, ∀ a ∈ f.flatten, a.src < a.dst := by
    intro f hf
    obtain ⟨x, hx, rfl⟩ := List.mem_map.mp hf
    obtain ⟨i, hi⟩ := List.getElem?_of_mem hx
    obtain ⟨j, f, g, -, -, -, -, -, -, h4⟩ := hR i x hi
    exact h4
  have hn : (R.map Prod.fst).flatten.length ≤ Bat.intMax := by
    have := hsize _ _ _ h2
    have e : (flat (R.map Prod.fst)).id1.length = (R.map Prod.fst).flatten.length := by
      rw [List.length_flatten]
      simp [flat]
    omega
  obtain ⟨Q, P, fwd, p1, p2, p3, -, p4⟩ := shortest_path_is_best (R.map Prod.fst) hTok hn hfw
  refine ⟨P, by rw [p2, List.length_map, h1, List.length_map], ?_, ?_⟩
  · intro lp0 jm hjm
    have hl := addLoopsVec_eq Tb (fun g hg => lastEmpty_of_valid g (h.okB g hg) (by
      by_cases hg0 : g = []
      · exact Or.inl hg0
      · exact Or.inr (h.validB g hg hg0)))
    refine ⟨Q.flatten.map some, ?_⟩
    unfold intersectBest
    rw [if_neg (by rw [flat_sp1_length]; simp)]
    simp only [arcSortVec_eq, hl, h2, Option.bind_eq_bind, Option.bind_some]
    exact p3 lp0 jm hjm
  · intro i g hg
    have hi : i < R.length := by
      rw [h1, List.length_map]
      exact (List.getElem?_eq_some_iff.mp hg).1
    obtain ⟨x, hx⟩ : ∃ x, R[i]? = some x := ⟨_, List.getElem?_eq_getElem hi⟩
    obtain ⟨j, f, g', e1, e2, e3, e4, e5, e6, e7⟩ := hR i x hx
    rw [hg] at e3
    obtain rfl := Option.some.inj e3
    obtain ⟨js, p, -, k2, k3, k4⟩ := p4 i x.1 (by rw [List.getElem?_map, hx]; rfl)
    refine ⟨j, f, p, e1, e2, k2, ?_⟩
    have hmf := List.mem_of_getElem? e2
    have hmg := List.mem_of_getElem? hg
    by_cases h0 : f = [] ∨ g = []
    · have hno : ¬ ∃ q r, Together (rowsFsa f) (rowsFsa g) q r := by
        rintro ⟨q, r, ⟨hq, -⟩, ⟨hr, -⟩, -⟩
        rcases h0 with rfl | rfl
        · simp [rowsFsa] at hq
        · simp [rowsFsa] at hr
      refine ⟨fun hx => absurd hx hno, fun _ => (k4 ?_).2⟩
      rintro ⟨is, q, hq, -⟩
      rw [e6.mp h0] at hq
      simp [rowsFsa] at hq
    · have hf0 : f ≠ [] := fun e => h0 (Or.inl e)
      have hg0 : g ≠ [] := fun e => h0 (Or.inr e)
      have hvf := h.validA f hmf hf0
      have hvg := h.validB g hmg hg0
      have hvx := e5.valid (sortRows_valid f (h.okA f hmf) hvf) (withLoops_valid g (h.okB g hmg) hvg)
      have hacc := loops_accepts (h.okA f hmf) (h.okB g hmg) hvf hvg (h.epsFree g hmg) e5
      have hpa : ∀ q, Accepting (rowsFsa x.1) q ↔ ∃ is, IsPath (rowsFsa x.1) is q := by
        intro q
        have h2 := hvx.two
        rw [← path_isPath x.1 q (by simp only [rowsFsa] at h2; omega)]
        constructor
        · intro hq; exact hq.2
        · intro hq; exact ⟨h2, hq⟩
      constructor
      · rintro ⟨q0, r0, hqr0⟩
        obtain ⟨t0, ht0, -, -⟩ := (hacc _ _).mpr ⟨q0, r0, hqr0, rfl, rfl⟩
        obtain ⟨is0, his0⟩ := (hpa t0).mp ht0
        obtain ⟨m1, m2, -⟩ := k3 ⟨is0, t0, his0⟩
        have hp := (hpa p).mpr ⟨js, m1⟩
        obtain ⟨q, r, hqr, hl, hs⟩ := (hacc (labels p) (score p)).mp ⟨p, hp, rfl, rfl⟩
        have hends : Nb.Ends p := by
          have hpne : p ≠ [] := by
            rintro rfl
            have h3 := hp.2
            rw [path_nil] at h3
            have := hvx.two
            simp only [Fsa.final] at h3
            omega
          obtain ⟨p0, e, q1, q2, q3⟩ := Nb.chain_last p 0 _ (fun a ha => e7 a (hp.2.2 a ha)) hpne hp.2.1
          refine ⟨p0, e, q1, ?_, ?_⟩
          · exact (hvx.final_iff e (hp.2.2 e (by rw [q1]; simp))).mpr q2
          · intro b hb he
            have := (hvx.final_iff b (hp.2.2 b (by rw [q1]; simp [hb]))).mp he
            have := q3 b hb
            omega
        refine ⟨q, r, hqr, hl.symm, hs, ?_, ?_⟩
        · intro q' r' hqr'
          obtain ⟨t, ht, -, hts⟩ := (hacc _ _).mpr ⟨q', r', hqr', rfl, rfl⟩
          obtain ⟨is, his⟩ := (hpa t).mp ht
          rw [← hts]
          exact m2 is t his
        · intro cpu
          obtain ⟨c, d, a1, a2, a3, a4⟩ := line_removed p hends cpu
          refine ⟨c, d, a1, a2, a3, ?_⟩
          intro t ht
          obtain ⟨b1, b2⟩ := a4 t ht
          exact ⟨by rw [b1, ← hl, hqr.2.2], b2⟩
      · intro hno
        refine (k4 ?_).2
        rintro ⟨is, t, ht⟩
        obtain ⟨q, r, hqr, -⟩ := (hacc (labels t) (score t)).mp ⟨t, (hpa t).mpr ⟨is, ht⟩, rfl, rfl⟩
        exact hno ⟨q, r, hqr⟩

end

/-! ## Other lattices -/

/-- Label 5, reached at once or after two epsilons. -/
def exL : List (List (List (Arc Int))) :=
  [[[⟨0, 1, 0, 1⟩, ⟨0, 3, 5, 2⟩], [⟨1, 2, 0, 3⟩], [⟨2, 3, 5, 4⟩], [⟨3, 4, -1, 5⟩], []]]

/-- 5 -/
def exP : List (List (List (Arc Int))) := [[[⟨0, 1, 5, 6⟩], [⟨1, 2, -1, 7⟩], []]]

theorem sortRows_same (f : List (List (Arc W))) (h : ∀ row ∈ f, row.Pairwise (fun a b => (!arcLess b a) = true)) :
    sortRows f = f := by
  unfold sortRows
  conv_rhs => rw [← List.map_id f]
  apply List.map_congr_left
  intro row hr
  exact List.mergeSort_of_pairwise (h row hr)

theorem exL_sorted : exL.map sortRows = exL := by
  conv_rhs => rw [← List.map_id exL]
  apply List.map_congr_left
  intro f hf
  simp only [exL, List.mem_singleton] at hf
  subst hf
  exact sortRows_same _ (by decide)

theorem exGiven : Given exL exP [0] := by
  refine ⟨by decide, ?_, ?_, ?_, ?_, ?_, ?_, by decide, by decide, by decide⟩
  · intro f hf
    simp only [exL, List.mem_singleton] at hf
    subst hf
    exact (input_of_check _ (by decide) (by decide) (by decide)).1
  · intro f hf
    simp only [exP, List.mem_singleton] at hf
    subst hf
    exact (input_of_check _ (by decide) (by decide) (by decide)).1
  · intro f hf _
    simp only [exL, List.mem_singleton] at hf
    subst hf
    exact ⟨by decide, by unfold Fsa.Sorted; decide, by decide, by decide, by decide⟩
  · intro f hf _
    simp only [exP, List.mem_singleton] at hf
    subst hf
    exact ⟨by decide, by unfold Fsa.Sorted; decide, by decide, by decide, by decide⟩
  · unfold Int32; decide
  · unfold Int32; decide

/-- What `intersect_device` makes of them. -/
def exC : List (List (List (Arc Int))) :=
  [[[⟨0, 1, 0, 1⟩, ⟨0, 2, 5, 8⟩], [⟨1, 3, 0, 3⟩], [⟨2, 4, -1, 12⟩], [⟨3, 2, 5, 10⟩], []]]

theorem shortest_aborts {K : Type} [LinearOrder K] (lp0 jm : Nat) (mul : K → W → K) (bot one : K)
    (T : List (List (List (Arc W)))) (hT : VecOk T) (hn : T.flatten.length ≤ Bat.intMax)
    (h : ¬ ∀ f ∈ T, ∀ a ∈ f.flatten, a.src < a.dst) : shortestPathFsas lp0 jm mul bot one (flat T) = none := by
  have h1 : Bat.stateBatches lp0 (flat T) = none := by
    by_contra h2
    exact h ((stateBatches_succeeds_iff lp0 T hT hn).mp h2)
  unfold shortestPathFsas forwardBest Bat.stateBatchesT
  rw [h1]
  rfl

/-- The lattice is topologically sorted and accepts the path, but `Nbest.intersect` aborts: an arc of the result of
`intersect_device` goes backward, which `GetStateBatches` does not allow (fsa_utils.cu 737). -/
theorem nbest_intersect_aborts (lp0 jm : Nat) :
    Given exL exP [0] ∧ (∀ f ∈ exL, ∀ a ∈ f.flatten, a.src < a.dst) ∧
    (∃ f g q r, exL[0]? = some f ∧ exP[0]? = some g ∧ Together (rowsFsa f) (rowsFsa g) q r) ∧
    intersectBest false lp0 jm exOrder extend ⊥ 0 (flat exL) (flat exP) 1 [0] = none := by
  refine ⟨exGiven, by decide, ⟨_, _, [⟨0, 3, 5, 2⟩, ⟨3, 4, -1, 5⟩], [⟨0, 1, 5, 6⟩, ⟨1, 2, -1, 7⟩], rfl, rfl,
    ⟨by decide, ?_⟩, ⟨by decide, ?_⟩, by decide⟩, ?_⟩
  · exact ⟨by simp [Chain, rowsFsa, Fsa.final], by decide⟩
  · exact ⟨by simp [Chain, rowsFsa, Fsa.final], by decide⟩
  · have h1 : addLoopsVec (flat exP) = some (flat (exP.map withLoops), _) := addLoopsVec_eq exP (fun g hg =>
      lastEmpty_of_valid g (exGiven.okB g hg) (by
        by_cases hg0 : g = []
        · exact Or.inl hg0
        · exact Or.inr (exGiven.validB g hg hg0)))
    have h2 : (intersectDevice ⟨flat exL, flat (exP.map withLoops), [0], true, false⟩ exOrder).map (·.1) =
        some (flat exC) := by decide +kernel
    obtain ⟨r, h3, h4⟩ := Option.map_eq_some_iff.mp h2
    unfold intersectBest
    rw [if_neg (by decide)]
    simp only [arcSortVec_eq, exL_sorted, h1, h3, h4, Option.bind_eq_bind, Option.bind_some]
    refine shortest_aborts lp0 jm _ _ _ exC ?_ (by decide) (by decide)
    intro f hf
    simp only [exC, List.mem_singleton] at hf
    subst hf
    exact (input_of_check _ (by decide) (by decide) (by decide)).1

/-! ## A case -/

/-- Two frames: 5 and epsilon in both orders. -/
def exLat : List (List (List (Arc Int))) :=
  [[[⟨0, 1, 0, 1⟩, ⟨0, 2, 5, 2⟩], [⟨1, 3, 5, 3⟩], [⟨2, 3, 0, 4⟩, ⟨2, 3, 5, 1⟩], [⟨3, 4, -1, 5⟩], []]]

theorem exLat_levels : ∀ f ∈ exLat, Levels f := by
  intro f hf
  simp only [exLat, List.mem_singleton] at hf
  subst hf
  exact ⟨fun s => if s = 0 then 0 else if s ≤ 2 then 1 else 2, by decide, by decide⟩

theorem exLat_given : Given exLat (exP ++ exP) [0, 0] := by
  refine ⟨by decide, ?_, ?_, ?_, ?_, ?_, ?_, by decide, by decide, by decide⟩
  · intro f hf
    simp only [exLat, List.mem_singleton] at hf
    subst hf
    exact (input_of_check _ (by decide) (by decide) (by decide)).1
  · intro f hf
    simp only [exP, List.cons_append, List.nil_append, List.mem_cons, List.not_mem_nil, or_false, or_self] at hf
    subst hf
    exact (input_of_check _ (by decide) (by decide) (by decide)).1
  · intro f hf _
    simp only [exLat, List.mem_singleton] at hf
    subst hf
    exact ⟨by decide, by unfold Fsa.Sorted; decide, by decide, by decide, by decide⟩
  · intro f hf _
    simp only [exP, List.cons_append, List.nil_append, List.mem_cons, List.not_mem_nil, or_false, or_self] at hf
    subst hf
    exact ⟨by decide, by unfold Fsa.Sorted; decide, by decide, by decide, by decide⟩
  · unfold Int32; decide
  · unfold Int32; decide

theorem exLat_sorted : exLat.map sortRows = exLat := by
  conv_rhs => rw [← List.map_id exLat]
  apply List.map_congr_left
  intro f hf
  simp only [exLat, List.mem_singleton] at hf
  subst hf
  exact sortRows_same _ (by decide)

example : ∃ P : List (List (Arc Int)), P.length = 2 ∧
    ∀ lp0 jm, 0 < jm → ∃ m, intersectBest true lp0 jm exReverse extend ⊥ 0 (flat exLat) (flat (exP ++ exP)) 1 [0, 0] =
      some (flat (P.map linearRows), m) := by
  obtain ⟨P, h1, h2, -⟩ := nbest_intersect_partial exLat (exP ++ exP) [0, 0] exLat_given exLat_levels true exReverse
    (fun t n => List.reverse_perm _) (by
      rw [exLat_sorted]
      intro v ma mb hv
      have h2 : ((intersectDevice ⟨flat exLat, flat ((exP ++ exP).map withLoops), [0, 0], true, true⟩ exReverse).map
          (·.1.id1.length)) = some 10 := by decide +kernel
      rw [hv] at h2
      have : v.id1.length = 10 := by simpa using h2
      rw [this]
      decide)
  exact ⟨P, h1, h2⟩

end Verif.Fsa.Nbi
