import Verif.Fsa.Ctc.BatchLemmas
import Verif.Fsa.Ctc.LinearBatch
import Verif.Fsa.Ctc.Props

/-!
# C94: `ctc_graph` and `linear_fsa` on a batch of transcripts

`Y` are the transcripts; as a ragged array they are `psum (Y.map List.length)` (row_splits) and `Y.flatten`.
-/

namespace Verif.Fsa.CtcB
open Verif.Ragged Verif.Util
variable {W : Type} [Zero W]

/-- `G` (arcs with aux labels for each state) is a CTC graph of the transcript `y`: a well-formed FSA that
accepts, by one path, exactly the frame sequences that collapse to `y`; the aux labels of that path spell `y`. -/
structure IsCtcGraph (y : List Int) (G : List (List (Arc W × Int))) : Prop where
  rows : RowsOk (G.map (List.map Prod.fst))
  maps : ∀ s o, Maps G.length G.flatten s o ↔ ctcCollapse s = y ∧ o = y
  unique : ∀ s, UniquePath G.length G.flatten s
  final : ∀ a ∈ (G.map (List.map Prod.fst)).flatten, (a.label = -1 ↔ a.dst + 1 = G.length)
  score : ∀ a ∈ (G.map (List.map Prod.fst)).flatten, a.score = 0
  noExit : ∀ a ∈ (G.map (List.map Prod.fst)).flatten, a.src + 1 < G.length
  labels : ∀ a ∈ (G.map (List.map Prod.fst)).flatten, a.label = 0 ∨ a.label = -1 ∨ a.label ∈ y
  /-- There are no parallel arcs, so a path is determined by its arcs. -/
  nodup : (G.map (List.map Prod.fst)).flatten.Nodup

theorem symAt_mem (y : List Int) (i : Nat) : symAt y i = -1 ∨ symAt y i ∈ y := by
  unfold symAt
  split
  · exact Or.inr (List.getElem_mem _)
  · exact Or.inl rfl

theorem ctcArc_label (y : List Int) (q k : Nat) :
    (ctcArc (W := W) false y q k).1.label = 0 ∨ (ctcArc (W := W) false y q k).1.label = -1 ∨
      (ctcArc (W := W) false y q k).1.label ∈ y := by
  have h1 := symAt_mem y (q / 2)
  have h2 := symAt_mem y (q / 2 + 1)
  unfold ctcArc
  by_cases hq : q % 2 = 1
  · by_cases he : symAt y (q / 2) = symAt y (q / 2 + 1)
    · by_cases hk : k = 0
      · simp [hq, he, hk]
      · simp only [hq, he, hk, and_self, if_true, if_false]; exact Or.inr h2
    · simp only [hq, he, false_and, if_true, if_false]
      rcases k with _ | _ | k
      · simp
      · exact Or.inr h1
      · exact Or.inr h2
  · by_cases hk : k = 0
    · simp [hq, hk]
    · simp only [hq, hk, if_false]; exact Or.inr h1

theorem ctcArc_inj (y : List Int) (q k k' : Nat) (hk : k < ctcNumArcs false y q) (hk' : k' < ctcNumArcs false y q)
    (h : (ctcArc (W := W) false y q k).1 = (ctcArc (W := W) false y q k').1) : k = k' := by
  have hd := congrArg Arc.dst h
  unfold ctcNumArcs at hk hk'
  unfold ctcArc at hd
  by_cases hq : q % 2 = 1
  · simp only [hq, if_true] at hd hk hk'
    by_cases hl : q / 2 = y.length
    · simp [hl] at hk
    · by_cases he : symAt y (q / 2) = symAt y (q / 2 + 1)
      · simp only [he, and_self, if_true, hl, if_false, Bool.false_eq_true, ne_eq, not_true_eq_false] at hd hk hk'
        split at hd <;> split at hd <;> omega
      · simp only [he, false_and, if_false, hl, Bool.false_eq_true, ne_eq, not_false_eq_true, if_true] at hd hk hk'
        obtain rfl | rfl | rfl : k = 0 ∨ k = 1 ∨ k = 2 := by omega
        all_goals obtain rfl | rfl | rfl : k' = 0 ∨ k' = 1 ∨ k' = 2 := by omega
        all_goals simp at hd ⊢
  · simp only [hq, if_false] at hd hk hk'
    split at hd <;> split at hd <;> omega

theorem ctcRows_nodup (y : List Int) : ((ctcRows (W := W) false y).map (List.map Prod.fst)).flatten.Nodup := by
  rw [List.nodup_flatten]
  constructor
  · intro row hrow
    obtain ⟨row', h1, rfl⟩ := List.mem_map.mp hrow
    obtain ⟨q, -, rfl⟩ := List.mem_map.mp h1
    rw [List.map_map]
    refine List.Nodup.map_on ?_ List.nodup_range
    intro k hk k' hk' he
    exact ctcArc_inj y q k k' (List.mem_range.mp hk) (List.mem_range.mp hk') he
  · unfold ctcRows
    rw [List.map_map, List.pairwise_map]
    refine List.nodup_range.imp ?_
    intro q q' hne a ha ha'
    simp only [Function.comp_apply, List.map_map, List.mem_map] at ha ha'
    obtain ⟨k, -, rfl⟩ := ha
    obtain ⟨k', -, he⟩ := ha'
    have := congrArg Arc.src he
    rw [ctcArc_src, ctcArc_src] at this
    exact hne this.symm

theorem ctcRows_ok (m : Bool) (y : List Int) (h1 : (-1 : Int) ∉ y) :
    RowsOk ((ctcRows (W := W) m y).map (List.map Prod.fst)) := by
  intro q row hr a ha
  rw [List.length_map, ctcRows_length]
  rw [List.getElem?_map] at hr
  obtain ⟨row', hr', rfl⟩ := Option.map_eq_some_iff.mp hr
  have hq := (List.getElem?_eq_some_iff.mp hr').1
  rw [ctcRows_length] at hq
  rw [ctcRows_get m y q hq] at hr'
  obtain rfl := Option.some.inj hr'
  simp only [List.map_map, List.mem_map, List.mem_range, Function.comp_def] at ha
  obtain ⟨k, hk, rfl⟩ := ha
  refine ⟨ctcArc_src m y q k, ?_⟩
  have hv := (ctcGraph_valid (W := W) m y h1).1
  have := hv.dst_lt (ctcArc (W := W) m y q k).1 (by
    simp only [toFsa]
    exact List.mem_map_of_mem ((mem_ctcArcs m y _).mpr ⟨q, k, hq, hk, rfl⟩))
  simpa [toFsa] using this

theorem ctcRows_graph (y : List Int) (h0 : (0 : Int) ∉ y) (h1 : (-1 : Int) ∉ y) :
    IsCtcGraph y (ctcRows (W := W) false y) := by
  have hg : ctcGraph (W := W) false y = some (y.length * 2 + 2, ctcArcs false y) := by simp [ctcGraph, h1]
  refine ⟨ctcRows_ok false y h1, ?_, ?_, ?_, ?_, ?_, ?_, ctcRows_nodup y⟩
  · intro s o
    rw [ctcRows_length, ctcRows_flatten]
    exact (ctcGraph_language y h0 _ _ hg s).1 o
  · intro s
    rw [ctcRows_length, ctcRows_flatten]
    exact (ctcGraph_language y h0 _ _ hg s).2.2
  · intro a ha
    rw [← List.map_flatten, ctcRows_flatten] at ha
    have hv := (ctcGraph_valid (W := W) false y h1).1
    have := hv.final_iff a ha
    rw [this, ctcRows_length]
    simp only [toFsa, Fsa.final]
    omega
  · intro a ha
    rw [← List.map_flatten, ctcRows_flatten] at ha
    obtain ⟨x, hx, rfl⟩ := List.mem_map.mp ha
    obtain ⟨q, k, _, _, rfl⟩ := (mem_ctcArcs false y x).mp hx
    exact ctcArc_score ..
  · intro a ha
    rw [← List.map_flatten, ctcRows_flatten] at ha
    have hv := (ctcGraph_valid (W := W) false y h1).1
    have := hv.src_lt a ha
    rw [ctcRows_length]
    simp only [toFsa, Fsa.final] at this
    omega
  · intro a ha
    rw [← List.map_flatten, ctcRows_flatten] at ha
    obtain ⟨x, hx, rfl⟩ := List.mem_map.mp ha
    obtain ⟨q, k, _, _, rfl⟩ := (mem_ctcArcs false y x).mp hx
    exact ctcArc_label y q k

/-- C94: for transcripts of tokens other than the blank, `ctc_graph` returns one CTC graph for each
transcript, in the order of the transcripts, and the aux labels in the order of the arcs. -/
theorem ctc_graph_batch (Y : List (List Int)) (h0 : ∀ y ∈ Y, (0 : Int) ∉ y) (h1 : ∀ y ∈ Y, (-1 : Int) ∉ y) :
    ∃ G : List (List (List (Arc W × Int))),
      ctcGraphs false (psum (Y.map List.length)) Y.flatten =
        some (flat (G.map (List.map (List.map Prod.fst))), (G.flatten.flatten).map Prod.snd) ∧
      G.length = Y.length ∧
      ∀ (r : Nat) (y : List Int) (g : List (List (Arc W × Int))), Y[r]? = some y → G[r]? = some g →
        IsCtcGraph y g := by
  refine ⟨ctcAll false Y, ctcGraphs_eq false Y (fun _ => h1), by simp [ctcAll], ?_⟩
  intro r y g hy hg
  rw [ctcAll_get false Y hy] at hg
  obtain rfl := Option.some.inj hg
  have := List.mem_of_getElem? hy
  exact ctcRows_graph y (h0 y this) (h1 y this)

/-- The standard version fails exactly if -1 is a token of some transcript. -/
theorem ctc_graph_batch_fails_iff (Y : List (List Int)) :
    ctcGraphs (W := W) false (psum (Y.map List.length)) Y.flatten = none ↔ ∃ y ∈ Y, (-1 : Int) ∈ y := by
  constructor
  · intro h
    by_contra hc
    rw [ctcGraphs_eq false Y (fun _ y hy hm => hc ⟨y, hy, hm⟩)] at h
    exact absurd h (by simp)
  · rintro ⟨y, hy, h⟩
    exact ctcGraphs_none Y y hy h

/-- The modified version: one FSA for each transcript that relates frame sequences and transcript as
modified CTC does. -/
theorem ctc_graph_batch_modified (Y : List (List Int)) (h0 : ∀ y ∈ Y, (0 : Int) ∉ y)
    (h1 : ∀ y ∈ Y, (-1 : Int) ∉ y) :
    ∃ G : List (List (List (Arc W × Int))),
      ctcGraphs true (psum (Y.map List.length)) Y.flatten =
        some (flat (G.map (List.map (List.map Prod.fst))), (G.flatten.flatten).map Prod.snd) ∧
      G.length = Y.length ∧
      ∀ (r : Nat) (y : List Int) (g : List (List (Arc W × Int))), Y[r]? = some y → G[r]? = some g →
        RowsOk (g.map (List.map Prod.fst)) ∧
        ∀ s o, Maps g.length g.flatten s o ↔ ModCtc s y ∧ o = y := by
  refine ⟨ctcAll true Y, ctcGraphs_eq true Y (by simp), by simp [ctcAll], ?_⟩
  intro r y g hy hg
  rw [ctcAll_get true Y hy] at hg
  obtain rfl := Option.some.inj hg
  have := List.mem_of_getElem? hy
  refine ⟨ctcRows_ok true y (h1 y this), fun s o => ?_⟩
  obtain ⟨n, T, e, hm, _⟩ := ctcGraph_modified_language (W := W) y (h0 y this) (h1 y this) s
  simp only [ctcGraph, Bool.true_eq_false, false_and, if_false, Option.some.injEq, Prod.mk.injEq] at e
  obtain ⟨rfl, rfl⟩ := e
  rw [ctcRows_length, ctcRows_flatten]
  exact hm o

/-- C94: `linear_fsa` on a batch returns one FSA for each transcript; it accepts exactly the transcript, by a
single path. -/
theorem linear_fsa_batch (Y : List (List Int)) :
    ∃ G : List (List (List (Arc W))),
      linearBatch (psum (Y.map List.length)) Y.flatten = some (flat G) ∧ G.length = Y.length ∧
      ∀ (r : Nat) (y : List Int) (g : List (List (Arc W))), Y[r]? = some y → G[r]? = some g →
        RowsOk g ∧ (∀ s, AcceptsLit (rowsFsa g) s ↔ s = y) ∧
        ∀ p q, Accepting (rowsFsa g) p → Accepting (rowsFsa g) q → p = q := by
  refine ⟨linAll Y, linearBatch_eq Y, by simp [linAll], ?_⟩
  intro r y g hy hg
  rw [linAll_get Y hy] at hg
  obtain rfl := Option.some.inj hg
  have hf : rowsFsa (linearRows (W := W) y) = linearFsas y := by
    unfold rowsFsa linearFsas
    rw [linearRows_length, linearRows_flatten]
  refine ⟨?_, ?_, ?_⟩
  · intro q row hr a ha
    rw [linearRows_get] at hr
    rw [linearRows_length]
    split at hr
    · obtain rfl := Option.some.inj hr
      have : a = linearArc y q := by simpa using ha
      subst this
      exact ⟨rfl, by simp [linearArc]; omega⟩
    · split at hr
      · obtain rfl := Option.some.inj hr; simp at ha
      · exact absurd hr (by simp)
  · intro s
    rw [hf]
    constructor
    · rintro ⟨p, hp, hl⟩
      rw [linearFsas_accepting] at hp; subst hp
      rw [linear_labels] at hl
      exact (List.append_cancel_right hl).symm
    · rintro rfl
      exact ⟨_, (linearFsas_accepting _ _).mpr rfl, linear_labels _⟩
  · intro p q hp hq
    rw [hf, linearFsas_accepting] at hp hq
    rw [hp, hq]

/-! ## Examples -/

/-- The hypotheses are met by two transcripts, one of them with a repeated token. -/
example : ∀ y ∈ [[3, 3], [], [5]], (0 : Int) ∉ y ∧ (-1 : Int) ∉ y := by decide

example : (ctcGraphs (W := Int) false [0, 2, 2, 3] [3, 3, 5]).map (fun v => (v.1.sp1, v.2)) =
    some ([0, 6, 8, 12], [0, 3, 0, 0, 0, 3, 0, 0, -1, 0, -1, 0, -1, 0, 5, 0, 0, -1, 0, -1]) := by decide +kernel

example : ctcGraphs (W := Int) false [0, 2, 3] [3, -1, 5] = none := by decide +kernel

example : (linearBatch (W := Int) [0, 2, 2, 3] [3, 3, 5]).map (fun v => (v.sp1, v.sp2, labels v.arcs)) =
    some ([0, 4, 6, 9], [0, 1, 2, 3, 3, 4, 4, 5, 6, 6], [3, 3, -1, -1, 5, -1]) := by decide +kernel

end Verif.Fsa.CtcB
