import Verif.Fsa.Text.Lemmas
import Mathlib.Data.List.Induction

/-! Printing an FSA and reading it back. -/

namespace Verif.Fsa.Txt
open Verif.Util.Stream Verif.Text
variable {W : Type}

/-- What the printer needs: the arcs are ordered by source state, the states exist, and all numbers
fit into 32 bits. -/
structure Printable (f : Fsa W) (aux : List (List Int)) : Prop where
  sorted : f.Sorted
  src_lt : ∀ a ∈ f.arcs, a.src < f.numStates
  dst_lt : ∀ a ∈ f.arcs, a.dst < f.numStates
  states : f.numStates ≤ 2147483648
  label : ∀ a ∈ f.arcs, inInt32 a.label = true
  aux_le : aux.length ≤ 10
  aux_len : ∀ x ∈ aux, x.length = f.arcs.length
  aux_int : ∀ x ∈ aux, ∀ z ∈ x, inInt32 z = true

/-- The row_splits of an FSA. -/
def rowSplitsOf (f : Fsa W) : List Nat :=
  (List.range (f.numStates + 1)).map fun s => f.arcs.countP (fun a => decide (a.src < s))

/-- The arc with the score that is read. -/
def withScore (a : Arc W) (w : W) : Arc W := ⟨a.src, a.dst, a.label, w⟩

theorem fits {f : Fsa W} {aux : List (List Int)} (h : Printable f aux) {a : Nat} {arc : Arc W}
    (ha : f.arcs[a]? = some arc) : Fits aux a arc := by
  have hm := List.mem_of_getElem? ha
  have h1 := h.src_lt arc hm
  have h2 := h.dst_lt arc hm
  have h3 := h.states
  refine ⟨?_, ?_, h.label arc hm, ?_⟩
  · simp only [inInt32, Bool.and_eq_true, decide_eq_true_eq]; omega
  · simp only [inInt32, Bool.and_eq_true, decide_eq_true_eq]; omega
  · rw [List.all_eq_true]
    intro x hx
    have hl := h.aux_len x hx
    have hlt := (List.getElem?_eq_some_iff.1 ha).1
    rw [List.getD_eq_getElem?_getD, List.getElem?_eq_getElem (by omega), Option.getD_some]
    exact h.aux_int x hx _ (List.getElem_mem _)

/-- The state of the reader after the first `k` arcs. -/
structure Inv (f : Fsa W) (aux : List (List Int)) (nr : Nat) (rd : List (Arc W)) (k : Nat) (st : St W) :
    Prop where
  len : k ≤ f.arcs.length
  final : st.final = -1
  arcs : st.arcs = rd.take k
  aux : st.aux = (List.range k).flatMap fun a => aux.map fun x => x.getD a 0
  rag : st.rag = List.replicate k (List.replicate nr [])
  max : st.max < f.numStates
  max_ge : -1 ≤ st.max
  splits : ∃ m, st.rowSplits = (List.range m).map (fun s => f.arcs.countP (fun a => decide (a.src < s))) ∧
    m ≤ f.numStates ∧ (∀ (i : Nat) (a : Arc W), f.arcs[i]? = some a → i < k → a.src < m) ∧
    (∀ (i : Nat) (a : Arc W), f.arcs[i]? = some a → k ≤ i → m ≤ a.src + 1)

/-- The number of arcs before a state, if it is between two consecutive sources. -/
theorem count_between (l : List (Arc W)) (k s : Nat) (hk : k ≤ l.length)
    (h1 : ∀ (i : Nat) (a : Arc W), l[i]? = some a → i < k → a.src < s)
    (h2 : ∀ (i : Nat) (a : Arc W), l[i]? = some a → k ≤ i → s ≤ a.src) :
    l.countP (fun a => decide (a.src < s)) = k := by
  have e : l = l.take k ++ l.drop k := (List.take_append_drop k l).symm
  rw [e, List.countP_append]
  have c1 : (l.take k).countP (fun a => decide (a.src < s)) = k := by
    have : (l.take k).countP (fun a => decide (a.src < s)) = (l.take k).length := by
      rw [List.countP_eq_length]
      intro a ha
      obtain ⟨i, hi⟩ := List.mem_iff_getElem?.1 ha
      have hlt := (List.getElem?_eq_some_iff.1 hi).1
      rw [List.length_take] at hlt
      rw [List.getElem?_take_of_lt (by omega)] at hi
      simpa using h1 i a hi (by omega)
    rw [this, List.length_take]; omega
  have c2 : (l.drop k).countP (fun a => decide (a.src < s)) = 0 := by
    rw [List.countP_eq_zero]
    intro a ha
    obtain ⟨i, hi⟩ := List.mem_iff_getElem?.1 ha
    rw [List.getElem?_drop] at hi
    have := h2 (k + i) a hi (by omega)
    simp; omega
  omega

theorem src_mono {f : Fsa W} (hs : f.Sorted) {i j : Nat} {a b : Arc W} (ha : f.arcs[i]? = some a)
    (hb : f.arcs[j]? = some b) (hij : i ≤ j) : a.src ≤ b.src := by
  rcases Nat.lt_or_eq_of_le hij with h | rfl
  · obtain ⟨h1, rfl⟩ := List.getElem?_eq_some_iff.1 ha
    obtain ⟨h2, rfl⟩ := List.getElem?_eq_some_iff.1 hb
    exact List.pairwise_iff_getElem.1 hs i j h1 h2 h
  · rw [ha] at hb
    exact Nat.le_of_eq (congrArg Arc.src (Option.some.inj hb))

/-- Filling up the row_splits. -/
theorem pad_counts {f : Fsa W} {k m n : Nat} {rs : List Nat}
    (hrs : rs = (List.range m).map (fun s => f.arcs.countP (fun a => decide (a.src < s))))
    (hk : k ≤ f.arcs.length)
    (h1 : ∀ (i : Nat) (a : Arc W), f.arcs[i]? = some a → i < k → a.src < m)
    (h2 : ∀ (i : Nat) (a : Arc W), f.arcs[i]? = some a → k ≤ i → n ≤ a.src + 1) (hmn : m ≤ n) :
    pad rs n k = (List.range n).map (fun s => f.arcs.countP (fun a => decide (a.src < s))) := by
  have hlen : rs.length = m := by rw [hrs]; simp
  unfold pad
  rw [hlen]
  apply List.ext_getElem?
  intro j
  by_cases hj : j < m
  · rw [List.getElem?_append_left (by omega), hrs]
    have e1 : (List.range m)[j]? = some j := by simp [hj]
    have e2 : (List.range n)[j]? = some j := List.getElem?_range (by omega)
    rw [List.getElem?_map, List.getElem?_map, e1, e2]
  · rw [List.getElem?_append_right (by omega), hlen]
    by_cases hj2 : j < n
    · have e2 : (List.range n)[j]? = some j := by simp [hj2]
      rw [List.getElem?_replicate_of_lt (by omega), List.getElem?_map, e2, Option.map_some]
      congr 1
      refine (count_between f.arcs k j hk (fun i a hi hik => ?_) (fun i a hi hik => ?_)).symm
      · have := h1 i a hi hik; omega
      · have := h2 i a hi hik; omega
    · rw [List.getElem?_eq_none (by simp; omega), List.getElem?_eq_none (by simp; omega)]

theorem step_print {f : Fsa W} {aux : List (List Int)} {rag : List (List (List Int))}
    (h : Printable f aux) (c : Codec W) (wsFails : Bool) (rd : List (Arc W))
    (hlen : rd.length = f.arcs.length)
    (hrd : ∀ (i : Nat) (a : Arc W), f.arcs[i]? = some a →
      ∃ w, ReadsAs c a.score w ∧ rd[i]? = some (withScore a w))
    (hrag : ∀ x ∈ rag, ∀ y ∈ x, y = []) {k : Nat} {st : St W} (hi : Inv f aux rag.length rd k st)
    {arc : Arc W} (ha : f.arcs[k]? = some arc) :
    ∃ st', step c wsFails aux.length rag.length st (printArc c false aux rag k arc) = some st' ∧
      Inv f aux rag.length rd (k + 1) st' := by
  obtain ⟨w, hw, hw2⟩ := hrd k arc ha
  have hr : rag.all (fun x => (x.getD k []).isEmpty) = true := by
    rw [List.all_eq_true]
    intro x hx
    rw [List.getD_eq_getElem?_getD]
    cases hk : x[k]? with
    | none => rfl
    | some y => rw [Option.getD_some, hrag x hx y (List.mem_of_getElem? hk)]; rfl
  have hm := List.mem_of_getElem? ha
  have hsrc := h.src_lt arc hm
  have hdst := h.dst_lt arc hm
  have hklt := (List.getElem?_eq_some_iff.1 ha).1
  obtain ⟨m, hs1, hs2, hs3, hs4⟩ := hi.splits
  have harc : st.arcs.length = k := by rw [hi.arcs, List.length_take]; omega
  have hml := hs4 k arc ha (Nat.le_refl _)
  have hlenrs : st.rowSplits.length = m := by rw [hs1]; simp
  refine ⟨{ st with
      rowSplits := pad st.rowSplits (((arc.src : Nat) : Int).toNat + 1) st.arcs.length
      arcs := st.arcs ++ [⟨((arc.src : Nat) : Int).toNat, ((arc.dst : Nat) : Int).toNat, arc.label, w⟩]
      aux := st.aux ++ aux.map fun x => x.getD k 0
      rag := st.rag ++ [rag.map fun _ => []]
      max := max st.max (max arc.src arc.dst) }, ?_, ?_⟩
  · unfold step
    rw [parseLine_print c wsFails aux rag k arc w hw (fits h ha) hr]
    dsimp only
    rw [if_neg (by rw [hi.final]; simp), if_neg]
    simp only [Bool.and_eq_true, decide_eq_true_eq, not_and]
    intro _
    rw [hlenrs]
    omega
  · refine ⟨hklt, hi.final, ?_, ?_, ?_, ?_, ?_, arc.src + 1, ?_, hsrc, ?_, ?_⟩
    · rw [List.take_add_one, hw2, hi.arcs]
      simp [withScore]
    · rw [List.range_succ, List.flatMap_append, hi.aux]
      simp
    · dsimp only
      rw [hi.rag, List.map_const', List.replicate_succ']
    · have := hi.max
      dsimp only
      omega
    · have := hi.max_ge
      dsimp only
      omega
    · dsimp only
      rw [harc, Int.toNat_natCast]
      exact pad_counts hs1 hi.len hs3
        (fun i a hia hik => Nat.succ_le_succ (src_mono h.sorted ha hia hik)) hml
    · intro i a hia hik
      have := src_mono h.sorted hia ha (by omega)
      omega
    · intro i a hia hik
      have := src_mono h.sorted ha hia (by omega)
      omega

theorem fold_print {f : Fsa W} {aux : List (List Int)} {rag : List (List (List Int))}
    (h : Printable f aux) (c : Codec W) (wsFails : Bool) (rd : List (Arc W))
    (hlen : rd.length = f.arcs.length)
    (hrd : ∀ (i : Nat) (a : Arc W), f.arcs[i]? = some a →
      ∃ w, ReadsAs c a.score w ∧ rd[i]? = some (withScore a w))
    (hrag : ∀ x ∈ rag, ∀ y ∈ x, y = []) (k : Nat) (hk : k ≤ f.arcs.length) :
    ∃ st, ((f.arcs.mapIdx fun a arc => printArc c false aux rag a arc).take k).foldlM
        (step c wsFails aux.length rag.length) startSt = some st ∧
      Inv f aux rag.length rd k st := by
  induction k with
  | zero =>
    refine ⟨startSt, rfl, by omega, rfl, by simp [startSt], by simp [startSt], by simp [startSt],
      by simp only [startSt]; omega, by simp [startSt], 0, by simp [startSt], by omega, ?_, ?_⟩
    · intro i a _ hi; omega
    · intro i a _ _; omega
  | succ k ih =>
    obtain ⟨st, h1, h2⟩ := ih (by omega)
    have ha := List.getElem?_eq_getElem (show k < f.arcs.length by omega)
    obtain ⟨st', h3, h4⟩ := step_print h c wsFails rd hlen hrd hrag h2 ha
    refine ⟨st', ?_, h4⟩
    rw [List.take_add_one, List.foldlM_append, h1, List.getElem?_mapIdx, ha]
    simpa using h3

/-- The text that is printed. -/
theorem print_eq {f : Fsa W} {aux : List (List Int)} {rag : List (List (List Int))}
    (h : Printable f aux) (c : Codec W) (hr1 : rag.length ≤ 10)
    (hr2 : ∀ x ∈ rag, x.length = f.arcs.length) (hne : f.arcs ≠ []) :
    fsaToString c false f aux rag = some
      (((f.arcs.mapIdx fun a arc => printArc c false aux rag a arc) ++
        [showInt ((f.numStates : Int) - 1)]).map (fun l => l ++ ['\n'])).flatten := by
  unfold fsaToString
  rw [if_pos ⟨h.aux_le, h.aux_len, hr1, hr2⟩]
  congr 1
  rw [List.map_append, List.flatten_append]
  congr 1
  · congr 1
    apply List.ext_getElem?
    intro i
    simp only [List.getElem?_mapIdx, List.getElem?_map, Option.map_map]
    rfl
  · have : f.arcs.isEmpty = false := by
      cases hh : f.arcs with
      | nil => exact absurd hh hne
      | cons a l => rfl
    rw [this]
    simp

/-- C40: every FSA with an arc is read back as it was printed: the same states, the same arcs with the
scores as printed, and the same auxiliary labels.  Ragged labels survive if they are all empty. -/
theorem text_round_trip {f : Fsa W} {aux : List (List Int)} {rag : List (List (List Int))}
    (h : Printable f aux) (c : Codec W) (wsFails : Bool) (hne : f.arcs ≠ []) (rd : List (Arc W))
    (hlen : rd.length = f.arcs.length)
    (hrd : ∀ (i : Nat) (a : Arc W), f.arcs[i]? = some a →
      ∃ w, ReadsAs c a.score w ∧ rd[i]? = some (withScore a w))
    (hr1 : rag.length ≤ 10) (hr2 : ∀ x ∈ rag, x.length = f.arcs.length)
    (hrag : ∀ x ∈ rag, ∀ y ∈ x, y = []) :
    ∃ text, fsaToString c false f aux rag = some text ∧
      fsaFromString c wsFails aux.length rag.length text = some ⟨rowSplitsOf f, rd, aux, rag⟩ := by
  refine ⟨_, print_eq h c hr1 hr2 hne, ?_⟩
  have hn1 : 1 ≤ f.numStates := by
    cases hh : f.arcs with
    | nil => exact absurd hh hne
    | cons a l => have := h.src_lt a (by rw [hh]; simp); omega
  have hstates := h.states
  unfold fsaFromString
  rw [splitNl_lines]
  · obtain ⟨st, h1, h2⟩ := fold_print h c wsFails rd hlen hrd hrag f.arcs.length (Nat.le_refl _)
    rw [List.take_of_length_le (by simp)] at h1
    obtain ⟨m, hs1, hs2, hs3, _⟩ := h2.splits
    have harcs : st.arcs = rd := by rw [h2.arcs, List.take_of_length_le (by omega)]
    have e : (f.numStates : Int) - 1 = ((f.numStates - 1 : Nat) : Int) := by omega
    have hmax : max st.max ((f.numStates - 1 : Nat) : Int) = ((f.numStates - 1 : Nat) : Int) := by
      have := h2.max; omega
    rw [List.append_assoc, List.foldlM_append, h1, e]
    simp only [Option.bind_eq_bind, Option.bind_some, List.cons_append, List.nil_append,
      List.foldlM_cons, List.foldlM_nil]
    have hfin : step c wsFails aux.length rag.length st (showInt ((f.numStates - 1 : Nat) : Int)) =
        some { st with final := ((f.numStates - 1 : Nat) : Int), max := ((f.numStates - 1 : Nat) : Int) } := by
      unfold step
      rw [parseLine_final c wsFails _ _ _ (by
        simp only [inInt32, Bool.and_eq_true, decide_eq_true_eq]; omega)]
      dsimp only
      rw [if_neg (by rw [h2.final]; simp), hmax]
    rw [hfin]
    simp only [Option.bind_some]
    have hbl : ∀ s : St W, step c wsFails aux.length rag.length s [] = some s := by
      intro s
      unfold step
      rw [parseLine_blank]
    rw [hbl]
    simp only [Option.bind_some, Option.pure_def]
    unfold finish
    dsimp only
    rw [if_neg (by simp only [ne_eq, not_or, not_not]; omega), if_neg (by simp), if_neg]
    · have hrs : pad st.rowSplits ((((f.numStates - 1 : Nat) : Int) + 1).toNat + 1) st.arcs.length =
          rowSplitsOf f := by
        have e2 : (((f.numStates - 1 : Nat) : Int) + 1).toNat + 1 = f.numStates + 1 := by omega
        rw [e2, harcs, hlen]
        refine pad_counts hs1 (Nat.le_refl _) hs3 ?_ (by omega)
        intro i a hi hle
        have := (List.getElem?_eq_some_iff.1 hi).1
        omega
      rw [hrs, harcs, hlen]
      congr 2
      · apply List.ext_getElem?
        intro j
        by_cases hj : j < aux.length
        · have e1 : (List.range aux.length)[j]? = some j := by simp [hj]
          rw [List.getElem?_map, e1, Option.map_some, List.getElem?_eq_getElem hj]
          congr 1
          have hl := h.aux_len _ (List.getElem_mem hj)
          apply List.ext_getElem?
          intro i
          by_cases hi : i < f.arcs.length
          · have e3 : (List.range f.arcs.length)[i]? = some i := by simp [hi]
            rw [List.getElem?_map, e3, Option.map_some, h2.aux, List.getD_eq_getElem?_getD,
              flatMap_get _ aux.length (by simp) _ i j hi hj, List.getElem?_map,
              List.getElem?_eq_getElem hj]
            simp only [Option.map_some, Option.getD_some, List.getD_eq_getElem?_getD]
            rw [List.getElem?_eq_getElem (show i < aux[j].length by omega), Option.getD_some]
          · rw [List.getElem?_eq_none (by simp; omega), List.getElem?_eq_none (by omega)]
        · rw [List.getElem?_eq_none (by simp; omega), List.getElem?_eq_none (by omega)]
      · apply List.ext_getElem?
        intro j
        by_cases hj : j < rag.length
        · have e1 : (List.range rag.length)[j]? = some j := by simp [hj]
          rw [List.getElem?_map, e1, Option.map_some, List.getElem?_eq_getElem hj]
          congr 1
          have hl := hr2 _ (List.getElem_mem hj)
          rw [h2.rag, List.map_replicate]
          symm
          rw [List.eq_replicate_iff]
          refine ⟨hl, fun y hy => ?_⟩
          rw [hrag _ (List.getElem_mem hj) y hy, List.getD_eq_getElem?_getD,
            List.getElem?_replicate_of_lt hj]
          rfl
        · rw [List.getElem?_eq_none (by simp; omega), List.getElem?_eq_none (by omega)]
    · rw [h2.aux, harcs, hlen, List.length_flatMap]
      simp [List.map_const', List.sum_replicate_nat]
  · intro l hl
    rcases List.mem_append.1 hl with hl | hl
    · obtain ⟨i, hi, rfl⟩ := List.mem_mapIdx.1 hl
      obtain ⟨w, hw, _⟩ := hrd i _ (List.getElem?_eq_getElem hi)
      exact printArc_noNl c false aux rag i _ hw.noSpace
    · rw [List.mem_singleton] at hl
      rw [hl]
      exact showInt_noNl _

/-- C41, negated: an FSA with a ragged label that is not empty is never read back in the k2 format. -/
theorem ragged_text_rejected {f : Fsa W} {aux : List (List Int)} {rag : List (List (List Int))}
    (c : Codec W) (wsFails : Bool) (hsp : ∀ a ∈ f.arcs, ∀ x ∈ c.pr a.score, isSpace x = false)
    (x : List (List Int)) (hx : x ∈ rag) (y : List Int) (hy : y ∈ x) (hne : y ≠ []) (text : List Char)
    (ht : fsaToString c false f aux rag = some text) :
    fsaFromString c wsFails aux.length rag.length text = none := by
  unfold fsaToString at ht
  split at ht
  · rename_i hc
    obtain ⟨k, hk⟩ := List.mem_iff_getElem?.1 hy
    have hkl := (List.getElem?_eq_some_iff.1 hk).1
    rw [hc.2.2.2 x hx] at hkl
    have hempty : f.arcs.isEmpty = false := by
      cases hh : f.arcs with
      | nil => rw [hh] at hkl; simp at hkl
      | cons a l => rfl
    obtain rfl := Option.some.inj ht
    have e : (f.arcs.mapIdx fun a arc => printArc c false aux rag a arc ++ ['\n']).flatten ++
        (if !f.arcs.isEmpty && !false then showInt ((f.numStates : Int) - 1) ++ ['\n'] else []) =
        (((f.arcs.mapIdx fun a arc => printArc c false aux rag a arc) ++
        [showInt ((f.numStates : Int) - 1)]).map (fun l => l ++ ['\n'])).flatten := by
      rw [List.map_append, List.flatten_append]
      congr 1
      · congr 1
        apply List.ext_getElem?
        intro i
        simp only [List.getElem?_mapIdx, List.getElem?_map, Option.map_map]
        rfl
      · rw [hempty]
        simp
    unfold fsaFromString
    rw [e, splitNl_lines]
    · have hbad : rag.all (fun x => (x.getD k []).isEmpty) = false := by
        rw [List.all_eq_false]
        refine ⟨x, hx, ?_⟩
        rw [List.getD_eq_getElem?_getD, hk, Option.getD_some]
        cases y with
        | nil => exact absurd rfl hne
        | cons z zs => simp
      have hmem : printArc c false aux rag k f.arcs[k] ∈
          (f.arcs.mapIdx fun a arc => printArc c false aux rag a arc) ++
            [showInt ((f.numStates : Int) - 1)] ++ [[]] := by
        apply List.mem_append_left
        apply List.mem_append_left
        exact List.mem_mapIdx.2 ⟨k, hkl, rfl⟩
      rw [foldlM_none _ _ _ hmem]
      · rfl
      · intro b
        unfold step
        rw [parseLine_ragged c wsFails aux rag k _ hbad]
    · intro l hl
      rcases List.mem_append.1 hl with hl | hl
      · obtain ⟨i, hi, rfl⟩ := List.mem_mapIdx.1 hl
        exact printArc_noNl c false aux rag i _ (hsp _ (List.getElem_mem hi))
      · rw [List.mem_singleton] at hl
        rw [hl]
        exact showInt_noNl _
  · simp at ht

/-- A text with auxiliary labels is rejected if it is read with a smaller number of auxiliary labels: the
labels are not mistaken for scores. -/
theorem too_few_aux_rejected {f : Fsa W} (aux more : List (List Int)) (y : List Int)
    (c : Codec W) (wsFails : Bool)
    (hsp : ∀ a ∈ f.arcs, c.pr a.score ≠ [] ∧ ∀ x ∈ c.pr a.score, isSpace x = false)
    (hne : f.arcs ≠ []) (text : List Char)
    (ht : fsaToString c false f (aux ++ y :: more) [] = some text) :
    fsaFromString c wsFails aux.length 0 text = none := by
  unfold fsaToString at ht
  split at ht
  · obtain rfl := Option.some.inj ht
    have hempty : f.arcs.isEmpty = false := by
      cases hh : f.arcs with
      | nil => exact absurd hh hne
      | cons a l => rfl
    have e : (f.arcs.mapIdx fun a arc => printArc c false (aux ++ y :: more) [] a arc ++ ['\n']).flatten ++
        (if !f.arcs.isEmpty && !false then showInt ((f.numStates : Int) - 1) ++ ['\n'] else []) =
        (((f.arcs.mapIdx fun a arc => printArc c false (aux ++ y :: more) [] a arc) ++
        [showInt ((f.numStates : Int) - 1)]).map (fun l => l ++ ['\n'])).flatten := by
      rw [List.map_append, List.flatten_append]
      congr 1
      · congr 1
        apply List.ext_getElem?
        intro i
        simp only [List.getElem?_mapIdx, List.getElem?_map, Option.map_map]
        rfl
      · rw [hempty]
        simp
    have hk : 0 < f.arcs.length := by
      cases hh : f.arcs with
      | nil => exact absurd hh hne
      | cons a l => simp
    unfold fsaFromString
    rw [e, splitNl_lines]
    · have hmem : printArc c false (aux ++ y :: more) [] 0 f.arcs[0] ∈
          (f.arcs.mapIdx fun a arc => printArc c false (aux ++ y :: more) [] a arc) ++
            [showInt ((f.numStates : Int) - 1)] ++ [[]] := by
        apply List.mem_append_left
        apply List.mem_append_left
        exact List.mem_mapIdx.2 ⟨0, hk, rfl⟩
      rw [foldlM_none _ _ _ hmem]
      · rfl
      · intro b
        unfold step
        rw [parseLine_extra c wsFails aux more y 0 _ (hsp _ (List.getElem_mem hk)).2
          (hsp _ (List.getElem_mem hk)).1]
    · intro l hl
      rcases List.mem_append.1 hl with hl | hl
      · obtain ⟨i, hi, rfl⟩ := List.mem_mapIdx.1 hl
        exact printArc_noNl c false _ _ i _ (hsp _ (List.getElem_mem hi)).2
      · rw [List.mem_singleton] at hl
        rw [hl]
        exact showInt_noNl _
  · simp at ht

/-- C41, the part that holds: if all ragged labels are empty, the text is read back. -/
theorem ragged_text_round_trip_partial {f : Fsa W} {aux : List (List Int)} {rag : List (List (List Int))}
    (h : Printable f aux) (c : Codec W) (wsFails : Bool) (hne : f.arcs ≠ []) (rd : List (Arc W))
    (hlen : rd.length = f.arcs.length)
    (hrd : ∀ (i : Nat) (a : Arc W), f.arcs[i]? = some a →
      ∃ w, ReadsAs c a.score w ∧ rd[i]? = some (withScore a w))
    (hr1 : rag.length ≤ 10) (hr2 : ∀ x ∈ rag, x.length = f.arcs.length)
    (hrag : ∀ x ∈ rag, ∀ y ∈ x, y = []) :
    ∃ text, fsaToString c false f aux rag = some text ∧
      fsaFromString c wsFails aux.length rag.length text = some ⟨rowSplitsOf f, rd, aux, rag⟩ :=
  text_round_trip h c wsFails hne rd hlen hrd hr1 hr2 hrag

/-- An FSA with states but without arcs is printed as the empty text, which is read as the FSA without
states. -/
theorem no_arcs_lost (c : Codec W) (wsFails : Bool) (n : Nat) :
    fsaToString c false (⟨n, []⟩ : Fsa W) [] [] = some [] ∧
      fsaFromString c wsFails 0 0 [] = some ⟨[0], [], [], []⟩ := by
  refine ⟨by simp [fsaToString], ?_⟩
  simp [fsaFromString, splitNl, step, parseLine_blank, finish, startSt, pad]

/-! ## Concrete cases -/

/-- Scores that are printed as integers. -/
def intCodec : Codec Int := ⟨showInt, fun m _ => m, fun z => -z⟩

theorem intCodec_reads (z : Int) : ReadsAs intCodec z z := by
  refine ⟨⟨z, 0, ?_, rfl⟩, fun x hx => isSpace_isWs (showInt_noWs z x hx)⟩
  have e : intCodec.pr z = showInt z ++ [] := by simp [intCodec]
  obtain ⟨h1, h2, h3, _⟩ := sign_showInt z [] ends_nil
  rw [e]
  unfold scanReal
  dsimp only
  rw [h2]
  have hf : fraction [] = ([], []) := rfl
  have he : exponent [] = some (0, []) := rfl
  rw [hf]
  dsimp only
  rw [List.append_nil, if_neg (by rw [h1]; simp), he, h3]
  rfl

def exFsa : Fsa Int := ⟨3, [⟨0, 1, 5, 10⟩, ⟨0, 1, -7, -20⟩, ⟨1, 2, -1, 0⟩]⟩

def exAux : List (List Int) := [[1, 2, -1]]

theorem ex_printable : Printable exFsa exAux :=
  ⟨by unfold Fsa.Sorted; decide, by decide, by decide, by decide, by decide, by decide, by decide,
    by decide⟩

example : fsaToString intCodec false exFsa exAux [] =
    some "0 1 5 1 10\n0 1 -7 2 -20\n1 2 -1 -1 0\n2\n".toList := by decide +kernel

example : ∃ text, fsaToString intCodec false exFsa exAux [] = some text ∧
    fsaFromString intCodec true 1 0 text = some ⟨rowSplitsOf exFsa, exFsa.arcs, exAux, []⟩ :=
  text_round_trip ex_printable intCodec true (by decide) exFsa.arcs rfl
    (fun i a h => ⟨a.score, intCodec_reads _, h⟩) (by decide) (by decide) (by decide)

example : fsaFromString intCodec true 0 0 "0 1 5 1 10\n0 1 -7 2 -20\n1 2 -1 -1 0\n2\n".toList = none :=
  too_few_aux_rejected (f := exFsa) [] [] [1, 2, -1] intCodec true
    (fun a _ => ⟨showInt_ne_nil _, (intCodec_reads a.score).noSpace⟩) (by decide) _ (by decide +kernel)

example : fsaToString intCodec false exFsa [] [[[10], [], [20, 30]]] =
    some "0 1 5 [ 10 ] 10\n0 1 -7 [ ] -20\n1 2 -1 [ 20 30 ] 0\n2\n".toList := by decide +kernel

/-- The reader does read ragged labels without a space before the closing bracket. -/
theorem ragged_handwritten :
    fsaFromString intCodec true 0 1 "0 1 5 [10 20] 10\n1 2 -1 [] 0\n2".toList =
      some ⟨[0, 1, 2, 2], [⟨0, 1, 5, 10⟩, ⟨1, 2, -1, 0⟩], [], [[[10, 20], []]]⟩ := by decide +kernel

/-- The text of an infinite score is not read back: the arc below has the score text `-inf`. -/
theorem inf_score_rejected (c : Codec W) (w : W) (h : c.pr w = "-inf".toList) (wsFails : Bool) :
    ∃ text, fsaToString c false (⟨2, [⟨0, 1, -1, w⟩]⟩ : Fsa W) [] [] = some text ∧
      fsaFromString c wsFails 0 0 text = none := by
  refine ⟨"0 1 -1 -inf\n1\n".toList, ?_, ?_⟩
  · simp [fsaToString, printArc, printAux, printRagged, h]
    decide +kernel
  · have e : splitNl "0 1 -1 -inf\n1\n".toList = ["0 1 -1 -inf".toList, "1".toList, []] := by decide +kernel
    unfold fsaFromString
    rw [e, List.foldlM_cons]
    have : step c wsFails 0 0 (startSt : St W) "0 1 -1 -inf".toList = none := by
      unfold step
      have : parseLine c wsFails 0 0 "0 1 -1 -inf".toList = none := by
        unfold parseLine parseArc readScore
        have e1 : skip "0 1 -1 -inf".toList = "0 1 -1 -inf".toList := by decide +kernel
        have e2 : readInt "0 1 -1 -inf".toList = some (0, " 1 -1 -inf".toList) := by decide +kernel
        have e3 : skip " 1 -1 -inf".toList = "1 -1 -inf".toList := by decide +kernel
        have e4 : readInt "1 -1 -inf".toList = some (1, " -1 -inf".toList) := by decide +kernel
        have e5 : readInt " -1 -inf".toList = some (-1, " -inf".toList) := by decide +kernel
        have e6 : skip " -inf".toList = "-inf".toList := by decide +kernel
        have e7 : readReal "-inf".toList = none := by decide +kernel
        rw [e1, e2]
        simp only [Option.bind_eq_bind, Option.bind_some, e3, e4, e5, readAux, readRags, e6, e7]
        rfl
      rw [this]
    rw [this]
    rfl

end Verif.Fsa.Txt
