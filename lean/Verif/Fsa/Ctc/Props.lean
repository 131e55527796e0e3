import Verif.Fsa.Ctc.TopoLemmas
import Mathlib.Data.List.Destutter
import Mathlib.Algebra.Group.Defs

/-!
# Languages of the graphs built from token sequences (C20 - C24)

Everything is stated about accepting paths of the FSA that the function returns.  0 is the
blank for CTC, so the frame sequences are literal label sequences.
-/

namespace Verif.Fsa
variable {W : Type}

/-! ## Specification -/

/-- CTC collapsing: merge repeats, then drop blanks. -/
def ctcCollapse (s : List Int) : List Int := (s.destutter (· ≠ ·)).filter (· ≠ 0)

/-- The FSA part of a (states, arcs with aux labels) result. -/
def toFsa (n : Nat) (T : List (Arc W × Int)) : Fsa W := ⟨n, T.map Prod.fst⟩

/-- The FST with `n` states and (arc, aux label) list `T` maps the literal input sequence `s`
(followed by the final label) to the output string `o`. -/
def Maps (n : Nat) (T : List (Arc W × Int)) (s o : List Int) : Prop :=
  ∃ p, TPath T 0 p (n - 1) ∧ ilabels p = s ++ [-1] ∧ ostring p = o

/-- At most one accepting path spells `s`. -/
def UniquePath (n : Nat) (T : List (Arc W × Int)) (s : List Int) : Prop :=
  ∀ p q, TPath T 0 p (n - 1) → TPath T 0 q (n - 1) → ilabels p = s ++ [-1] →
    ilabels q = s ++ [-1] → p = q

theorem acceptsLit_iff_maps (n : Nat) (hn : 2 ≤ n) (T : List (Arc W × Int)) (s : List Int) :
    AcceptsLit (toFsa n T) s ↔ ∃ o, Maps n T s o := by
  constructor
  · rintro ⟨q, ⟨_, hq⟩, hl⟩
    obtain ⟨p, hp, rfl⟩ := (path_map_fst T _ _ q).mp hq
    exact ⟨_, p, hp, hl, rfl⟩
  · rintro ⟨o, p, hp, hl, _⟩
    exact ⟨p.map Prod.fst, ⟨hn, (path_map_fst T _ _ _).mpr ⟨p, hp, rfl⟩⟩, hl⟩

section
variable [Zero W]

/-! ## C20: linear_fsa -/

theorem linear_path (syms : List Int) (m i : Nat) (h : i + m = syms.length + 1)
    (p : List (Arc W)) :
    Path (linearFsas syms).arcs i p (syms.length + 1) ↔
      p = (List.range' i m).map (linearArc syms) := by
  induction m generalizing i p with
  | zero =>
    cases p with
    | nil => simp [path_nil, ← h]
    | cons a p =>
      rw [path_cons]
      simp only [linearFsas, List.mem_map, List.mem_range, List.range'_zero, List.map_nil,
        reduceCtorEq, iff_false]
      rintro ⟨⟨j, hj, rfl⟩, hs, _⟩
      simp [linearArc] at hs; omega
  | succ m ih =>
    cases p with
    | nil => simp [path_nil, List.range'_succ]; omega
    | cons a p =>
      rw [path_cons, List.range'_succ, List.map_cons, List.cons.injEq]
      constructor
      · rintro ⟨ha, hs, hp⟩
        simp only [linearFsas, List.mem_map, List.mem_range] at ha
        obtain ⟨j, hj, rfl⟩ := ha
        simp only [linearArc] at hs
        subst hs
        exact ⟨rfl, (ih (j + 1) (by omega) p).mp hp⟩
      · rintro ⟨rfl, hp⟩
        refine ⟨?_, rfl, (ih (i + 1) (by omega) p).mpr hp⟩
        simp only [linearFsas, List.mem_map, List.mem_range]
        exact ⟨i, by omega, rfl⟩

theorem linear_labels (syms : List Int) :
    labels ((List.range' 0 (syms.length + 1)).map (linearArc (W := W) syms)) = syms ++ [-1] := by
  apply List.ext_getElem
  · simp [labels]
  · intro i h1 h2
    simp only [labels, List.getElem_map, List.getElem_range', linearArc, List.getElem_append]
    simp

/-- `linear_fsa` fails exactly when -1 is among the symbols. -/
theorem linearFsa_isSome_iff (syms : List Int) :
    (linearFsa (W := W) syms).isSome ↔ (-1 : Int) ∉ syms := by
  simp only [linearFsa]; split <;> simp_all

/-- The accepting paths of a linear FSA: exactly one, and its labels are the symbols. -/
theorem linearFsas_accepting (syms : List Int) (p : List (Arc W)) :
    Accepting (linearFsas syms) p ↔
      p = (List.range' 0 (syms.length + 1)).map (linearArc syms) := by
  have := linear_path (W := W) syms (syms.length + 1) 0 (by omega) p
  simp only [Accepting]
  rw [← this]
  have h : (linearFsas (W := W) syms).final = syms.length + 1 := rfl
  rw [h]
  exact ⟨fun h => h.2, fun h => ⟨by simp [linearFsas], h⟩⟩

/-- `linear_fsa(symbols)` accepts exactly `symbols` by a single path. -/
theorem linearFsa_language (syms : List Int) (f : Fsa W) (hf : linearFsa syms = some f) :
    (∀ s, AcceptsLit f s ↔ s = syms) ∧
    (∀ p q, Accepting f p → Accepting f q → p = q) ∧
    f.Valid := by
  have h1 : (-1 : Int) ∉ syms := (linearFsa_isSome_iff (W := W) syms).mp (by simp [hf])
  have hf' : f = linearFsas syms := by
    simp only [linearFsa, h1, if_false, Option.some.injEq] at hf; exact hf.symm
  subst hf'
  refine ⟨fun s => ?_, ?_, ?_⟩
  · constructor
    · rintro ⟨p, hp, hl⟩
      rw [linearFsas_accepting] at hp; subst hp
      rw [linear_labels] at hl
      exact (List.append_cancel_right hl).symm
    · rintro rfl
      exact ⟨_, (linearFsas_accepting _ _).mpr rfl, linear_labels _⟩
  · intro p q hp hq
    rw [linearFsas_accepting] at hp hq
    rw [hp, hq]
  · refine ⟨by simp [linearFsas], ?_, ?_, ?_, ?_⟩
    · simp only [Fsa.Sorted, linearFsas, List.pairwise_map, linearArc]
      exact List.pairwise_le_range
    · simp only [linearFsas, Fsa.final, List.mem_map, List.mem_range]
      rintro a ⟨i, hi, rfl⟩; simp [linearArc]; omega
    · simp only [linearFsas, List.mem_map, List.mem_range]
      rintro a ⟨i, hi, rfl⟩; simp [linearArc]; omega
    · simp only [linearFsas, Fsa.final, List.mem_map, List.mem_range]
      rintro a ⟨i, hi, rfl⟩
      simp only [linearArc]
      split
      · rename_i h
        have : syms[i] ≠ -1 := fun e => h1 (e ▸ List.getElem_mem h)
        constructor
        · intro e; exact absurd e this
        · intro e; omega
      · simp; omega

example : (linearFsa (W := Int) [5, 0, 7]).isSome := by decide
example : linearFsa (W := Int) [5, -1, 7] = none := by decide

/-- `LinearFsas` (the batch version behind `linear_fsa` on ragged or nested-list input) does
not reject -1 and then returns an FSA that is not valid. -/
theorem linearFsas_invalid : ¬ (linearFsas (W := Int) [5, -1]).Valid := by
  intro h
  have := h.final_iff ⟨1, 2, -1, 0⟩ (by decide)
  simp [linearFsas, Fsa.final] at this

/-! ## C21, C22, C23: CTC -/

theorem destutter_filter (p : Int) (s : List Int) :
    (s.destutter' (· ≠ ·) p).filter (· ≠ 0) = [p].filter (· ≠ 0) ++ collapseFrom p s := by
  induction s generalizing p with
  | nil => simp [collapseFrom]
  | cons x s ih =>
    simp only [List.destutter'_cons]
    by_cases h : p = x
    · subst h
      simp only [ne_eq, not_true_eq_false, if_false, collapseFrom, or_true, if_true]
      exact ih p
    · simp only [ne_eq, h, not_false_eq_true, if_true]
      rw [List.filter_cons]
      have := ih x
      simp only [ne_eq] at this
      by_cases hx : x = 0
      · subst hx
        simp only [this]
        simp [collapseFrom, List.filter_cons]
        split <;> rfl
      · have h' : ¬ x = p := fun e => h e.symm
        simp only [this]
        simp [collapseFrom, hx, h', List.filter_cons]
        split <;> rfl

theorem ctcCollapse_eq (s : List Int) : ctcCollapse s = collapseFrom 0 s := by
  cases s with
  | nil => rfl
  | cons x s =>
    simp only [ctcCollapse, List.destutter_cons']
    have := destutter_filter x s
    simp only [ne_eq] at this ⊢
    rw [this]
    by_cases hx : x = 0 <;> simp [collapseFrom, hx]

/-- C21. The standard topology maps `s` to `o` exactly if all frames are tokens in range and
`o` is the CTC collapse of `s`; and there is at most one path per frame sequence. -/
theorem ctcTopo_language (maxToken : Nat) (s o : List Int) :
    (Maps (maxToken + 2) (ctcTopo (W := W) false maxToken) s o ↔
      (∀ x ∈ s, 0 ≤ x ∧ x ≤ maxToken) ∧ o = ctcCollapse s) ∧
    UniquePath (maxToken + 2) (ctcTopo (W := W) false maxToken) s := by
  constructor
  · rw [ctcCollapse_eq]
    exact topo_std_rel maxToken s 0 (by omega) o
  · intro p q hp hq hl hl'
    exact deterministic_unique _ (topo_std_deterministic _) 0 _ _ p q hp hq (hl.trans hl'.symm)

example : ctcCollapse [0, 3, 3, 0, 3, 5, 5, 0] = [3, 3, 5] := by decide

theorem ctcGraph_isSome_iff (syms : List Int) :
    (ctcGraph (W := W) false syms).isSome ↔ (-1 : Int) ∉ syms := by
  simp only [ctcGraph]; split <;> simp_all

/-- C22. The standard CTC graph of a transcript of non-blank tokens accepts `s` exactly if
`s` collapses to the transcript, by one path, and the aux labels spell the transcript. -/
theorem ctcGraph_language (syms : List Int) (h0 : (0 : Int) ∉ syms) (n : Nat)
    (T : List (Arc W × Int)) (h : ctcGraph false syms = some (n, T)) (s : List Int) :
    (∀ o, Maps n T s o ↔ ctcCollapse s = syms ∧ o = syms) ∧
    (AcceptsLit (toFsa n T) s ↔ ctcCollapse s = syms) ∧
    UniquePath n T s := by
  have h1 : (-1 : Int) ∉ syms := (ctcGraph_isSome_iff (W := W) syms).mp (by simp [h])
  simp only [ctcGraph, h1, and_false, if_false, Option.some.injEq, Prod.mk.injEq] at h
  obtain ⟨rfl, rfl⟩ := h
  have hmaps : ∀ o, Maps (syms.length * 2 + 2) (ctcArcs (W := W) false syms) s o ↔
      ctcCollapse s = syms ∧ o = syms := by
    intro o
    have := (ctc_std_rel (W := W) syms h0 h1 s).1 0 (by omega) o
    rw [List.drop_zero] at this
    rw [ctcCollapse_eq, ← this]
    have e : 2 * syms.length + 1 = syms.length * 2 + 2 - 1 := by omega
    rw [e]; rfl
  refine ⟨hmaps, ?_, ?_⟩
  · rw [acceptsLit_iff_maps _ (by omega)]
    constructor
    · rintro ⟨o, ho⟩; exact ((hmaps o).mp ho).1
    · intro h; exact ⟨syms, (hmaps syms).mpr ⟨h, rfl⟩⟩
  · intro p q hp hq hl hl'
    exact deterministic_unique _ (ctc_std_deterministic syms h0) 0 _ _ p q hp hq
      (hl.trans hl'.symm)

example : (ctcGraph (W := Int) false [3, 3, 5]).isSome := by decide

/-- The CTC graph of a transcript is the part of the CTC topology that outputs it. -/
theorem ctcGraph_eq_topo (syms : List Int) (h0 : (0 : Int) ∉ syms) (n : Nat)
    (T : List (Arc W × Int)) (h : ctcGraph false syms = some (n, T)) (maxToken : Nat)
    (hmax : ∀ x ∈ syms, 0 ≤ x ∧ x ≤ maxToken) (s : List Int) :
    Maps n T s syms ↔ Maps (maxToken + 2) (ctcTopo (W := W) false maxToken) s syms := by
  rw [((ctcGraph_language syms h0 n T h s).1 syms), (ctcTopo_language maxToken s syms).1]
  constructor
  · rintro ⟨hc, _⟩
    refine ⟨fun x hx => ?_, hc.symm⟩
    by_cases hx0 : x = 0
    · subst hx0; omega
    · have hmem : ∀ (prev : Int) (s : List Int) (x : Int), x ∈ s → x ≠ 0 →
          x ∈ prev :: collapseFrom prev s := by
        intro prev s
        induction s generalizing prev with
        | nil => simp
        | cons y s ih =>
          intro x hx hx0
          rcases List.mem_cons.mp hx with rfl | hx
          · simp only [collapseFrom, hx0, false_or]
            split <;> simp_all
          · have := ih y x hx hx0
            simp only [collapseFrom]
            rcases List.mem_cons.mp this with rfl | h
            · split
              · rename_i h; rcases h with h | h <;> simp_all
              · simp
            · split <;> simp [h]
      have := hmem 0 s x hx hx0
      rw [← ctcCollapse_eq, hc] at this
      rcases List.mem_cons.mp this with h | h
      · exact absurd h hx0
      · exact hmax x h
  · rintro ⟨_, h⟩; exact ⟨h.symm, rfl⟩

/-- C23. The modified CTC graph of a transcript of proper tokens accepts exactly the frame
sequences that modified CTC assigns to it, and the aux labels spell the transcript. -/
theorem ctcGraph_modified_language (syms : List Int) (h0 : (0 : Int) ∉ syms)
    (h1 : (-1 : Int) ∉ syms) (s : List Int) :
    ∃ n T, ctcGraph (W := W) true syms = some (n, T) ∧
      (∀ o, Maps n T s o ↔ ModCtc s syms ∧ o = syms) ∧
      (AcceptsLit (toFsa n T) s ↔ ModCtc s syms) := by
  refine ⟨syms.length * 2 + 2, ctcArcs true syms, by simp [ctcGraph], ?_, ?_⟩
  all_goals
    have hmaps : ∀ o, Maps (syms.length * 2 + 2) (ctcArcs (W := W) true syms) s o ↔
        ModCtc s syms ∧ o = syms := by
      intro o
      have := (ctc_mod_rel (W := W) syms h0 h1 s).1 0 (by omega) o
      rw [List.drop_zero] at this
      rw [← this]
      have e : 2 * syms.length + 1 = syms.length * 2 + 2 - 1 := by omega
      rw [e]; rfl
  · exact hmaps
  · rw [acceptsLit_iff_maps _ (by omega)]
    constructor
    · rintro ⟨o, ho⟩; exact ((hmaps o).mp ho).1
    · intro h; exact ⟨syms, (hmaps syms).mpr ⟨h, rfl⟩⟩

/-- C23. The modified topology is the modified CTC relation on tokens in range. -/
theorem ctcTopo_modified_language (maxToken : Nat) (s o : List Int) :
    Maps (maxToken + 2) (ctcTopo (W := W) true maxToken) s o ↔
      (∀ x ∈ s, 0 ≤ x ∧ x ≤ maxToken) ∧ ModCtc s o :=
  (topo_mod_rel maxToken s).1 o

/-- C23. The modified CTC graph is the part of the modified topology that outputs the
transcript. -/
theorem ctcGraph_modified_eq_topo (syms : List Int) (h0 : (0 : Int) ∉ syms)
    (maxToken : Nat) (hmax : ∀ x ∈ syms, 0 ≤ x ∧ x ≤ maxToken) (s : List Int) :
    Maps (syms.length * 2 + 2) (ctcArcs (W := W) true syms) s syms ↔
      Maps (maxToken + 2) (ctcTopo (W := W) true maxToken) s syms := by
  have h1 : (-1 : Int) ∉ syms := fun h => by have := hmax _ h; omega
  obtain ⟨n, T, hT, hm, _⟩ := ctcGraph_modified_language (W := W) syms h0 h1 s
  simp only [ctcGraph, Bool.true_eq_false, false_and, if_false, Option.some.injEq,
    Prod.mk.injEq] at hT
  obtain ⟨rfl, rfl⟩ := hT
  rw [hm, ctcTopo_modified_language]
  constructor
  · rintro ⟨h, _⟩
    refine ⟨fun x hx => ?_, h⟩
    rcases modCtc_mem' h x hx with rfl | h
    · omega
    · exact hmax x h
  · rintro ⟨_, h⟩; exact ⟨h, rfl⟩

/-- Modified CTC may merge or split a run, e.g. `3 3` can mean `3` or `3 3`. -/
example : ModCtc [3, 3] [3] ∧ ModCtc [3, 3] [3, 3] :=
  ⟨ModCtc.block 3 1 (by decide) .nil, .block 3 0 (by decide) (.block 3 0 (by decide) .nil)⟩

/-! ## Validity -/

omit [Zero W] in
theorem sorted_flatMap_range (n : Nat) (g : Nat → List (Arc W × Int))
    (h : ∀ q, ∀ x ∈ g q, x.1.src = q) :
    (((List.range n).flatMap g).map Prod.fst).Pairwise (fun a b => a.src ≤ b.src) := by
  rw [List.pairwise_map, List.pairwise_flatMap]
  constructor
  · intro q _
    rw [List.pairwise_iff_getElem]
    intro i j hi hj _
    rw [h q _ (List.getElem_mem hi), h q _ (List.getElem_mem hj)]
  · refine List.Pairwise.imp ?_ List.pairwise_lt_range
    intro a b hab x hx y hy
    rw [h a x hx, h b y hy]; omega

/-- The standard and modified graphs are valid FSAs with zero scores. -/
theorem ctcGraph_valid (m : Bool) (syms : List Int) (h1 : (-1 : Int) ∉ syms) :
    (toFsa (syms.length * 2 + 2) (ctcArcs (W := W) m syms)).Valid ∧
    ∀ x ∈ ctcArcs (W := W) m syms, x.1.score = 0 := by
  have cases_arc : ∀ x ∈ ctcArcs (W := W) m syms,
      ∃ i, (i ≤ syms.length ∧ (x = (⟨2 * i, 2 * i, 0, 0⟩, 0) ∨
        x = (⟨2 * i, 2 * i + 1, symAt syms i, 0⟩, symAt syms i))) ∨
       (i < syms.length ∧ (x = (⟨2 * i + 1, 2 * i + 2, 0, 0⟩, 0) ∨
      x = (⟨2 * i + 1, 2 * i + 1, symAt syms i, 0⟩, 0) ∨
        x = (⟨2 * i + 1, 2 * i + 3, symAt syms (i + 1), 0⟩, symAt syms (i + 1)))) := by
    intro x hx
    obtain ⟨q, hq⟩ : ∃ q, x.1.src = q := ⟨_, rfl⟩
    have hqlt : q < syms.length * 2 + 2 := ((mem_ctcArcs_src _ _ _ _).mp ⟨hx, hq⟩).1
    rcases Nat.mod_two_eq_zero_or_one q with hmod | hmod
    · obtain ⟨i, rfl⟩ : ∃ i, q = 2 * i := ⟨q / 2, by omega⟩
      exact ⟨i, Or.inl ⟨by omega, (ctc_blank m syms i (by omega) x).mp ⟨hx, hq⟩⟩⟩
    · obtain ⟨i, rfl⟩ : ∃ i, q = 2 * i + 1 := ⟨q / 2, by omega⟩
      by_cases h : i = syms.length
      · subst h; exact absurd ⟨hx, hq⟩ (ctc_final m syms x)
      · have := (ctc_symbol m syms i (by omega) x).mp ⟨hx, hq⟩
        exact ⟨i, Or.inr ⟨by omega, this.imp id (Or.imp id And.right)⟩⟩
  have hs : ∀ i, symAt syms i = -1 ↔ syms.length ≤ i := by
    intro i
    constructor
    · intro h
      by_cases hi : i < syms.length
      · exact absurd h (symAt_ne_neg_one h1 hi)
      · omega
    · intro h; simp [symAt]; omega
  refine ⟨⟨by simp [toFsa], ?_, ?_, ?_, ?_⟩, ?_⟩
  · apply sorted_flatMap_range
    intro q x hx
    obtain ⟨k, _, rfl⟩ := List.mem_map.mp hx
    exact ctcArc_src ..
  · intro a ha
    obtain ⟨x, hx, rfl⟩ := List.mem_map.mp ha
    obtain ⟨i, ⟨hi, rfl | rfl⟩ | ⟨hi, rfl | rfl | rfl⟩⟩ := cases_arc x hx <;>
      simp [toFsa, Fsa.final] <;> omega
  · intro a ha
    obtain ⟨x, hx, rfl⟩ := List.mem_map.mp ha
    obtain ⟨i, ⟨hi, rfl | rfl⟩ | ⟨hi, rfl | rfl | rfl⟩⟩ := cases_arc x hx <;>
      simp [toFsa] <;> omega
  · intro a ha
    obtain ⟨x, hx, rfl⟩ := List.mem_map.mp ha
    obtain ⟨i, ⟨hi, rfl | rfl⟩ | ⟨hi, rfl | rfl | rfl⟩⟩ := cases_arc x hx <;>
      simp [toFsa, Fsa.final, hs] <;> omega
  · intro x hx
    obtain ⟨i, ⟨hi, rfl | rfl⟩ | ⟨hi, rfl | rfl | rfl⟩⟩ := cases_arc x hx <;> rfl

/-- Both topologies are valid FSAs with zero scores. -/
theorem ctcTopo_valid (m : Bool) (maxToken : Nat) :
    (toFsa (maxToken + 2) (ctcTopo (W := W) m maxToken)).Valid ∧
    ∀ x ∈ ctcTopo (W := W) m maxToken, x.1.score = 0 := by
  cases m with
  | false =>
    have hx : ∀ x ∈ ctcTopo (W := W) false maxToken,
        ∃ i j, i < maxToken + 1 ∧ j < maxToken + 2 ∧ x = topoArc maxToken i j := by
      intro x hx
      obtain ⟨h, j, hj, e⟩ := (mem_ctcTopo_std maxToken _ x).mp ⟨hx, rfl⟩
      exact ⟨_, j, h, hj, e⟩
    refine ⟨⟨by simp [toFsa], ?_, ?_, ?_, ?_⟩, ?_⟩
    · simp only [Fsa.Sorted, toFsa, ctcTopo, Bool.false_eq_true, if_false]
      apply sorted_flatMap_range
      intro q x hx
      obtain ⟨k, _, rfl⟩ := List.mem_map.mp hx
      rfl
    · intro a ha
      obtain ⟨x, hx', rfl⟩ := List.mem_map.mp ha
      obtain ⟨i, j, hi, hj, rfl⟩ := hx x hx'
      simp [toFsa, Fsa.final, topoArc]; omega
    · intro a ha
      obtain ⟨x, hx', rfl⟩ := List.mem_map.mp ha
      obtain ⟨i, j, hi, hj, rfl⟩ := hx x hx'
      simpa [toFsa, topoArc] using hj
    · intro a ha
      obtain ⟨x, hx', rfl⟩ := List.mem_map.mp ha
      obtain ⟨i, j, hi, hj, rfl⟩ := hx x hx'
      simp [toFsa, Fsa.final, topoArc]
    · intro x hx'
      obtain ⟨i, j, hi, hj, rfl⟩ := hx x hx'
      rfl
  | true =>
    refine ⟨⟨by simp [toFsa], ?_, ?_, ?_, ?_⟩, ?_⟩
    · simp only [Fsa.Sorted, toFsa, ctcTopo, if_true, List.pairwise_map]
      refine List.Pairwise.imp ?_ List.pairwise_lt_range
      intro a b hab
      have hsrc : ∀ i, (topoModArc (W := W) maxToken i).1.src =
          if i < (maxToken + 1) * 2 then 0 else (i - (maxToken + 1) * 2) / 2 + 1 := by
        intro i
        simp only [topoModArc]
        split
        · rw [if_pos (by omega)]
        · split
          · rename_i h; exact (if_pos h).symm
          · rename_i h; exact (if_neg h).symm
      rw [hsrc, hsrc]
      split <;> split <;> omega
    all_goals intro a ha
    · obtain ⟨x, hx, rfl⟩ := List.mem_map.mp ha
      rcases (mem_ctcTopo_mod maxToken x).mp hx with
        ⟨d, hd, rfl⟩ | ⟨d, hd1, hd, rfl⟩ | rfl | ⟨d, hd1, hd, rfl | rfl⟩ <;>
        simp [toFsa, Fsa.final] <;> omega
    · obtain ⟨x, hx, rfl⟩ := List.mem_map.mp ha
      rcases (mem_ctcTopo_mod maxToken x).mp hx with
        ⟨d, hd, rfl⟩ | ⟨d, hd1, hd, rfl⟩ | rfl | ⟨d, hd1, hd, rfl | rfl⟩ <;>
        simp [toFsa] <;> omega
    · obtain ⟨x, hx, rfl⟩ := List.mem_map.mp ha
      rcases (mem_ctcTopo_mod maxToken x).mp hx with
        ⟨d, hd, rfl⟩ | ⟨d, hd1, hd, rfl⟩ | rfl | ⟨d, hd1, hd, rfl | rfl⟩ <;>
        simp [toFsa, Fsa.final] <;> omega
    · rcases (mem_ctcTopo_mod maxToken a).mp ha with
        ⟨d, hd, rfl⟩ | ⟨d, hd1, hd, rfl⟩ | rfl | ⟨d, hd1, hd, rfl | rfl⟩ <;> rfl

/-! ## C24: trivial_graph -/

theorem mem_trivialGraph (M : Nat) (x : Arc W × Int) :
    x ∈ trivialGraph M ↔
      x = (⟨0, 1, -1, 0⟩, -1) ∨ ∃ d : Int, 1 ≤ d ∧ d ≤ M ∧ x = (⟨0, 0, d, 0⟩, d) := by
  simp only [trivialGraph, List.mem_map, List.mem_range]
  constructor
  · rintro ⟨i, hi, rfl⟩
    split
    · exact Or.inl rfl
    · exact Or.inr ⟨_, by omega, by omega, rfl⟩
  · rintro (rfl | ⟨d, h1, h2, rfl⟩)
    · exact ⟨M, by omega, by simp⟩
    · refine ⟨(d - 1).toNat, by omega, ?_⟩
      rw [if_neg (by omega)]
      have : (((d - 1).toNat : Int)) + 1 = d := by omega
      rw [this]

theorem trivial_rel (M : Nat) (s o : List Int) :
    Rel (trivialGraph (W := W) M) 1 0 (s ++ [-1]) o ↔ (∀ x ∈ s, 1 ≤ x ∧ x ≤ M) ∧ o = s := by
  induction s generalizing o with
  | nil =>
    rw [List.nil_append, rel_cons]
    simp only [mem_trivialGraph, rel_nil]
    constructor
    · rintro ⟨x, rfl | ⟨d, h1, h2, rfl⟩, hs, hl, o', ho, hd, rfl⟩
      · exact ⟨by simp, by simpa [strip_neg_one] using ho⟩
      · simp at hd
    · rintro ⟨_, rfl⟩
      exact ⟨_, Or.inl rfl, rfl, rfl, [], rfl, rfl, rfl⟩
  | cons y s ih =>
    rw [List.cons_append, rel_cons]
    simp only [mem_trivialGraph]
    constructor
    · rintro ⟨x, rfl | ⟨d, h1, h2, rfl⟩, hs, hl, o', ho, h⟩
      · exfalso
        simp only at h
        cases s with
        | nil =>
          rw [List.nil_append, rel_cons] at h
          obtain ⟨z, hz, hzs, _⟩ := h
          rcases (mem_trivialGraph M z).mp hz with rfl | ⟨_, _, _, rfl⟩ <;> simp at hzs
        | cons w s =>
          rw [List.cons_append, rel_cons] at h
          obtain ⟨z, hz, hzs, _⟩ := h
          rcases (mem_trivialGraph M z).mp hz with rfl | ⟨_, _, _, rfl⟩ <;> simp at hzs
      · subst hl
        obtain ⟨hb, rfl⟩ := (ih o').mp h
        rw [strip_one (by omega) (by omega)] at ho
        refine ⟨?_, ho⟩
        intro z hz
        rcases List.mem_cons.mp hz with rfl | hz
        · exact ⟨h1, h2⟩
        · exact hb z hz
    · rintro ⟨hb, rfl⟩
      obtain ⟨h1, h2⟩ := hb y (by simp)
      refine ⟨_, Or.inr ⟨y, h1, h2, rfl⟩, rfl, rfl, s, ?_,
        (ih s).mpr ⟨fun z hz => hb z (List.mem_cons_of_mem _ hz), rfl⟩⟩
      rw [strip_one (by omega) (by omega)]; rfl

/-- C24. `trivial_graph(max_token)` maps every sequence over `1..max_token` to itself, by one
path, and accepts nothing else; it is valid and its scores are zero. -/
theorem trivialGraph_language (maxToken : Nat) (s : List Int) :
    (∀ o, Maps 2 (trivialGraph (W := W) maxToken) s o ↔
      (∀ x ∈ s, 1 ≤ x ∧ x ≤ maxToken) ∧ o = s) ∧
    (AcceptsLit (toFsa 2 (trivialGraph (W := W) maxToken)) s ↔
      ∀ x ∈ s, 1 ≤ x ∧ x ≤ (maxToken : Int)) ∧
    UniquePath 2 (trivialGraph (W := W) maxToken) s := by
  refine ⟨fun o => trivial_rel maxToken s o, ?_, ?_⟩
  · rw [acceptsLit_iff_maps _ (by omega)]
    constructor
    · rintro ⟨o, ho⟩; exact ((trivial_rel maxToken s o).mp ho).1
    · intro h; exact ⟨s, (trivial_rel maxToken s s).mpr ⟨h, rfl⟩⟩
  · intro p q hp hq hl hl'
    refine deterministic_unique _ ?_ 0 _ _ p q hp hq (hl.trans hl'.symm)
    intro x hx y hy _ hlab
    rcases (mem_trivialGraph maxToken x).mp hx with rfl | ⟨d, _, _, rfl⟩ <;>
      rcases (mem_trivialGraph maxToken y).mp hy with rfl | ⟨e, _, _, rfl⟩ <;>
      simp at hlab
    · rfl
    · omega
    · omega
    · subst hlab; rfl

theorem trivialGraph_valid (maxToken : Nat) :
    (toFsa 2 (trivialGraph (W := W) maxToken)).Valid ∧
    ∀ x ∈ trivialGraph (W := W) maxToken, x.1.score = 0 := by
  refine ⟨⟨by simp [toFsa], ?_, ?_, ?_, ?_⟩, ?_⟩
  · simp only [Fsa.Sorted, toFsa, trivialGraph, List.map_map, List.pairwise_map]
    refine List.Pairwise.imp ?_ List.pairwise_lt_range
    intro a b _
    simp only [Function.comp]
    split <;> split <;> simp
  all_goals intro a ha
  · obtain ⟨x, hx, rfl⟩ := List.mem_map.mp ha
    rcases (mem_trivialGraph maxToken x).mp hx with rfl | ⟨d, h1, h2, rfl⟩ <;>
      simp [toFsa, Fsa.final]
  · obtain ⟨x, hx, rfl⟩ := List.mem_map.mp ha
    rcases (mem_trivialGraph maxToken x).mp hx with rfl | ⟨d, h1, h2, rfl⟩ <;>
      simp [toFsa]
  · obtain ⟨x, hx, rfl⟩ := List.mem_map.mp ha
    rcases (mem_trivialGraph maxToken x).mp hx with rfl | ⟨d, h1, h2, rfl⟩ <;>
      simp [toFsa, Fsa.final]
    omega
  · rcases (mem_trivialGraph maxToken a).mp ha with rfl | ⟨d, _, _, rfl⟩ <;> rfl

end

/-! ## Scores -/

/-- If all arcs have score zero, so have all paths. -/
theorem score_eq_zero [AddMonoid W] (p : List (Arc W)) (h : ∀ a ∈ p, a.score = 0) :
    score p = 0 := by
  induction p with
  | nil => rfl
  | cons a p ih =>
    rw [score_cons, h a (by simp), ih (fun b hb => h b (List.mem_cons_of_mem _ hb)), add_zero]

/-- C20 with epsilons removed and scores: `linear_fsa` accepts exactly the string, score 0. -/
theorem linearFsa_accepts [AddMonoid W] (syms : List Int) (f : Fsa W)
    (hf : linearFsa syms = some f) (s : List Int) (w : W) :
    Accepts f s w ↔ s = strip syms ∧ w = 0 := by
  have hf' : f = linearFsas syms := by
    simp only [linearFsa] at hf
    split at hf
    · simp at hf
    · exact (Option.some.inj hf).symm
  subst hf'
  have hz : score ((List.range' 0 (syms.length + 1)).map (linearArc (W := W) syms)) = 0 := by
    apply score_eq_zero
    intro a ha
    obtain ⟨i, _, rfl⟩ := List.mem_map.mp ha
    rfl
  have hl : strip (labels ((List.range' 0 (syms.length + 1)).map (linearArc (W := W) syms)))
      = strip syms := by
    rw [linear_labels, strip_append, strip_neg_one, List.append_nil]
  constructor
  · rintro ⟨p, hp, rfl, rfl⟩
    rw [linearFsas_accepting] at hp
    subst hp
    exact ⟨hl, hz⟩
  · rintro ⟨rfl, rfl⟩
    exact ⟨_, (linearFsas_accepting _ _).mpr rfl, hl, hz⟩

end Verif.Fsa
