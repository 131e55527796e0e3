import Verif.Fsa.Sort.Model
import Verif.Fsa.Flags.Semantics

/-!
# C19: sorting arcs
-/

namespace Verif.Fsa
open Verif.Ragged Verif.Util
variable {A W : Type}

/-! ## The loop -/

/-- The positions of a sub-list that starts at `b`, sorted by its values. -/
def orderOf (lt : A → A → Bool) (b : Nat) (row : List A) : List Nat :=
  (List.range' b row.length).mergeSort (fun i j => leAt lt row (i - b) (j - b))

/-- The positions of all sub-lists. -/
def ordersFrom (lt : A → A → Bool) : Nat → List (List A) → List Nat
  | _, [] => []
  | b, row :: V => orderOf lt b row ++ ordersFrom lt (b + row.length) V

theorem mergeSort_congr {B : Type} (le le' : B → B → Bool) (l : List B)
    (h : ∀ a ∈ l, ∀ b ∈ l, le a b = le' a b) : l.mergeSort le = l.mergeSort le' := by
  have := List.map_mergeSort (r := le) (s := le') (f := id) (l := l) (by simpa using h)
  simpa using this

theorem sortLoop_eq (lt : A → A → Bool) (V : List (List A)) (pre : List A) (opre : List Nat)
    (ho : opre.length = pre.length) :
    sortLoop lt (psumFrom pre.length (V.map List.length))
      (pre ++ V.flatten, opre ++ List.range' pre.length V.flatten.length) =
    some (pre ++ (V.map (fun row => row.mergeSort (fun a b => !lt b a))).flatten,
      opre ++ ordersFrom lt pre.length V) := by
  induction V generalizing pre opre with
  | nil => simp [psumFrom, sortLoop, ordersFrom]
  | cons row V ih =>
    have hps : psumFrom pre.length ((row :: V).map List.length) =
        pre.length :: psumFrom (pre.length + row.length) (V.map List.length) := rfl
    have hps2 : ∃ rest, psumFrom (pre.length + row.length) (V.map List.length) =
        (pre.length + row.length) :: rest := by
      cases V <;> exact ⟨_, rfl⟩
    obtain ⟨rest, hrest⟩ := hps2
    rw [hps, hrest, sortLoop]
    have hstep : sortStep lt (pre ++ (row :: V).flatten,
        opre ++ List.range' pre.length (row :: V).flatten.length) pre.length (pre.length + row.length) =
      some ((pre ++ row.mergeSort (fun a b => !lt b a)) ++ V.flatten,
        (opre ++ orderOf lt pre.length row) ++ List.range' (pre.length + row.length) V.flatten.length) := by
      unfold sortStep
      rw [if_neg (by
        simp only [List.flatten_cons, List.length_append, List.length_range', ho]; omega)]
      simp only [List.flatten_cons, List.length_append, ← List.range'_append_1]
      have t1 : (pre ++ (row ++ V.flatten)).take pre.length = pre := List.take_left
      have t2 : ((pre ++ (row ++ V.flatten)).take (pre.length + row.length)).drop pre.length = row := by
        rw [← List.append_assoc, ← List.length_append, List.take_left, List.drop_left]
      have t3 : (pre ++ (row ++ V.flatten)).drop (pre.length + row.length) = V.flatten := by
        rw [← List.append_assoc, ← List.length_append, List.drop_left]
      have u1 : (opre ++ (List.range' pre.length row.length ++
          List.range' (pre.length + row.length) V.flatten.length)).take pre.length = opre := by
        rw [← ho]; exact List.take_left
      have u2 : ((opre ++ (List.range' pre.length row.length ++
          List.range' (pre.length + row.length) V.flatten.length)).take (pre.length + row.length)).drop
            pre.length = List.range' pre.length row.length := by
        have : pre.length + row.length = (opre ++ List.range' pre.length row.length).length := by
          rw [List.length_append, List.length_range', ho]
        rw [← List.append_assoc]
        generalize List.range' (pre.length + row.length) V.flatten.length = z
        rw [this, List.take_left]
        generalize List.range' pre.length row.length = z2
        rw [← ho, List.drop_left]
      have u3 : (opre ++ (List.range' pre.length row.length ++
          List.range' (pre.length + row.length) V.flatten.length)).drop (pre.length + row.length) =
            List.range' (pre.length + row.length) V.flatten.length := by
        have : pre.length + row.length = (opre ++ List.range' pre.length row.length).length := by
          rw [List.length_append, List.length_range', ho]
        rw [← List.append_assoc]
        generalize List.range' (pre.length + row.length) V.flatten.length = z
        rw [this, List.drop_left]
      rw [t1, t2, t3, u1, u2, u3]
      have hs : (List.range' pre.length row.length).mergeSort (leAt lt (pre ++ (row ++ V.flatten))) =
          orderOf lt pre.length row := by
        apply mergeSort_congr
        intro i hi j hj
        rw [List.mem_range'_1] at hi hj
        unfold leAt
        rw [List.getElem?_append_right hi.1, List.getElem?_append_right hj.1,
          List.getElem?_append_left (by omega), List.getElem?_append_left (by omega)]
      rw [hs, ← List.append_assoc, ← List.append_assoc]
    rw [hstep]
    simp only [Option.bind_eq_bind, Option.bind_some]
    have hl1 : (pre ++ row.mergeSort (fun a b => !lt b a)).length = pre.length + row.length := by
      rw [List.length_append, List.length_mergeSort]
    have := ih (pre ++ row.mergeSort (fun a b => !lt b a)) (opre ++ orderOf lt pre.length row) (by
      rw [hl1, List.length_append, orderOf, List.length_mergeSort, List.length_range', ho])
    rw [hl1, hrest] at this
    rw [this]
    simp only [List.map_cons, List.flatten_cons, ordersFrom, List.append_assoc]

theorem sortSublists_eq (lt : A → A → Bool) (V : List (List A)) :
    sortSublists lt (psum (V.map List.length)) V.flatten =
      some ((V.map (fun row => row.mergeSort (fun a b => !lt b a))).flatten, ordersFrom lt 0 V) := by
  have := sortLoop_eq lt V [] [] rfl
  simp only [List.length_nil, List.nil_append] at this
  rw [← List.range_eq_range'] at this
  exact this

theorem orderOf_values (lt : A → A → Bool) (b : Nat) (row p : List A)
    (hp : ∀ k, k < row.length → p[b + k]? = row[k]?) :
    (orderOf lt b row).map (fun i => p[i]?) = (row.mergeSort (fun a b => !lt b a)).map some := by
  unfold orderOf
  rw [List.map_mergeSort (s := leOpt lt),
    List.map_mergeSort (s := leOpt lt)]
  · congr 1
    apply List.ext_getElem?
    intro k
    by_cases hk : k < row.length
    · rw [List.getElem?_map, List.getElem?_map, List.getElem?_range' hk, Nat.one_mul, Option.map_some,
        hp k hk, List.getElem?_eq_getElem hk]
      rfl
    · rw [List.getElem?_eq_none (by simpa using hk), List.getElem?_eq_none (by simpa using hk)]
  · intro a _ b _; rfl
  · intro i hi j hj
    rw [List.mem_range'_1] at hi hj
    have h1 := hp (i - b) (by omega)
    have h2 := hp (j - b) (by omega)
    rw [show b + (i - b) = i by omega] at h1
    rw [show b + (j - b) = j by omega] at h2
    unfold leAt
    rw [h1, h2]

theorem ordersFrom_values (lt : A → A → Bool) (V : List (List A)) (b : Nat) (p : List A)
    (hp : ∀ k, k < V.flatten.length → p[b + k]? = V.flatten[k]?) :
    (ordersFrom lt b V).map (fun i => p[i]?) =
      (V.map (fun row => row.mergeSort (fun a b => !lt b a))).flatten.map some := by
  induction V generalizing b with
  | nil => rfl
  | cons row V ih =>
    simp only [ordersFrom, List.map_append, List.map_cons, List.flatten_cons]
    rw [orderOf_values lt b row p, ih (b + row.length)]
    · intro k hk
      have := hp (row.length + k) (by rw [List.flatten_cons, List.length_append]; omega)
      rw [List.flatten_cons, List.getElem?_append_right (by omega), Nat.add_sub_cancel_left, ← Nat.add_assoc] at this
      exact this
    · intro k hk
      have := hp k (by rw [List.flatten_cons, List.length_append]; omega)
      rw [List.flatten_cons, List.getElem?_append_left hk] at this
      exact this

theorem ordersFrom_perm (lt : A → A → Bool) (V : List (List A)) (b : Nat) :
    (ordersFrom lt b V).Perm (List.range' b V.flatten.length) := by
  induction V generalizing b with
  | nil => exact List.Perm.refl _
  | cons row V ih =>
    rw [ordersFrom, List.flatten_cons, List.length_append, ← List.range'_append_1]
    exact List.Perm.append (List.mergeSort_perm _ _) (ih _)

/-! ## Specification -/

/-- `leArc` without the equality of labels that differ by a multiple of 2^32. -/
theorem not_arcLt (a b : RArc W) (ha : Int32 a.label) (hb : Int32 b.label) :
    (!arcLt b a) = true ↔ leArc a b := by
  unfold arcLt leArc
  by_cases h : b.label = a.label
  · rw [if_neg (by simpa using h)]
    simp only [h, Bool.not_eq_true', decide_eq_false_iff_not, lt_irrefl, true_and, false_or]
    omega
  · rw [if_pos h]
    have : u32 a.label ≠ u32 b.label := fun he => h (u32_inj _ _ ha hb he).symm
    simp only [Bool.not_eq_true', decide_eq_false_iff_not]
    constructor
    · intro h1; left; omega
    · rintro (h1 | ⟨h1, _⟩)
      · omega
      · exact absurd h1.symm h

/-- What arc sorting has to do to the rows of arcs of an FSA, with the arc map. -/
structure ArcSorted (f g : List (List (RArc W))) (m : List Nat) : Prop where
  length : g.length = f.length
  /-- Every state keeps its arcs. -/
  perm : ∀ (s : Nat) (row row' : List (RArc W)), f[s]? = some row → g[s]? = some row' → row'.Perm row
  /-- The arcs of every state are in order. -/
  sorted : ∀ row ∈ g, row.Pairwise leArc
  map_perm : m.Perm (List.range f.flatten.length)
  /-- Arc `i` of the result is arc `m[i]` of the input. -/
  map_arc : ∀ (i j : Nat), m[i]? = some j → ∃ a, f.flatten[j]? = some a ∧ g.flatten[i]? = some a
  /-- Arcs that compare equal keep their order. -/
  stable : ∀ (s : Nat) (row row' sub : List (RArc W)), f[s]? = some row → g[s]? = some row' →
    sub.Sublist row → sub.Pairwise leArc → sub.Sublist row'

theorem leArc_total_trans (row : List (RArc W)) (hl : ∀ a ∈ row, Int32 a.label) :
    (row.mergeSort (fun a b => !arcLt b a)).Pairwise leArc := by
  have key : (row.mergeSort (fun a b => !arcLt b a)) =
      row.mergeSort (fun a b => decide (u32 a.label < u32 b.label ∨ (u32 a.label = u32 b.label ∧ a.dst ≤ b.dst))) := by
    apply mergeSort_congr
    intro a ha b hb
    rw [Bool.eq_iff_iff, not_arcLt a b (hl a ha) (hl b hb), decide_eq_true_iff]
    unfold leArc
    constructor
    · rintro (h | ⟨h, h'⟩)
      · exact Or.inl h
      · exact Or.inr ⟨by rw [h], h'⟩
    · rintro (h | ⟨h, h'⟩)
      · exact Or.inl h
      · exact Or.inr ⟨u32_inj _ _ (hl a ha) (hl b hb) h, h'⟩
  rw [key]
  have := List.pairwise_mergeSort (le := fun a b : RArc W =>
    decide (u32 a.label < u32 b.label ∨ (u32 a.label = u32 b.label ∧ a.dst ≤ b.dst)))
    (by intro a b c h1 h2; simp only [decide_eq_true_iff] at *; omega)
    (by intro a b; simp only [Bool.or_eq_true, decide_eq_true_iff]; omega) row
  refine List.Pairwise.imp_of_mem ?_ this
  intro a b ha hb h
  rw [List.mem_mergeSort] at ha hb
  simp only [decide_eq_true_iff] at h
  unfold leArc
  rcases h with h | ⟨h, h'⟩
  · exact Or.inl h
  · exact Or.inr ⟨u32_inj _ _ (hl a ha) (hl b hb) h, h'⟩

theorem arcSort_stable (row sub : List (RArc W)) (hl : ∀ a ∈ row, Int32 a.label) (h : sub.Sublist row)
    (hs : sub.Pairwise leArc) : sub.Sublist (row.mergeSort (fun a b => !arcLt b a)) := by
  have key : (row.mergeSort (fun a b => !arcLt b a)) =
      row.mergeSort (fun a b => decide (u32 a.label < u32 b.label ∨ (u32 a.label = u32 b.label ∧ a.dst ≤ b.dst))) := by
    apply mergeSort_congr
    intro a ha b hb
    rw [Bool.eq_iff_iff, not_arcLt a b (hl a ha) (hl b hb), decide_eq_true_iff]
    unfold leArc
    constructor
    · rintro (h | ⟨h, h'⟩)
      · exact Or.inl h
      · exact Or.inr ⟨by rw [h], h'⟩
    · rintro (h | ⟨h, h'⟩)
      · exact Or.inl h
      · exact Or.inr ⟨u32_inj _ _ (hl a ha) (hl b hb) h, h'⟩
  rw [key]
  apply List.sublist_mergeSort (le := fun a b : RArc W =>
    decide (u32 a.label < u32 b.label ∨ (u32 a.label = u32 b.label ∧ a.dst ≤ b.dst)))
    (by intro a b c h1 h2; simp only [decide_eq_true_iff] at *; omega)
    (by intro a b; simp only [Bool.or_eq_true, decide_eq_true_iff]; omega) _ h
  refine List.Pairwise.imp ?_ hs
  intro a b h1
  simp only [decide_eq_true_iff]
  unfold leArc at h1
  rcases h1 with h1 | ⟨h1, h2⟩
  · exact Or.inl h1
  · exact Or.inr ⟨by rw [h1], h2⟩

/-- **C19.** `ArcSort` on the rows of an FSA (or of all FSAs of a vector). -/
theorem arcSort_spec (f : List (List (RArc W))) (hl : ∀ a ∈ f.flatten, Int32 a.label) :
    ∃ g m, arcSort (psum (f.map List.length)) f.flatten = some (g.flatten, m) ∧
      psum (g.map List.length) = psum (f.map List.length) ∧ ArcSorted f g m := by
  have hl' : ∀ row ∈ f, ∀ a ∈ row, Int32 a.label := fun row hr a ha => hl a (List.mem_flatten.mpr ⟨row, hr, ha⟩)
  refine ⟨_, _, sortSublists_eq arcLt f, ?_, ?_⟩
  · rw [List.map_map]
    congr 1
    apply List.map_congr_left
    intro row _
    simp
  constructor
  · rw [List.length_map]
  · intro s row row' h1 h2
    rw [List.getElem?_map, h1] at h2
    rw [← Option.some.inj h2]
    exact List.mergeSort_perm _ _
  · intro row' h
    obtain ⟨row, hr, rfl⟩ := List.mem_map.mp h
    exact leArc_total_trans row (hl' row hr)
  · have := ordersFrom_perm arcLt f 0
    rwa [← List.range_eq_range'] at this
  · intro i j hij
    have := ordersFrom_values arcLt f 0 f.flatten (by intro k _; rw [Nat.zero_add])
    have h1 := congrArg (fun l => l[i]?) this
    simp only [List.getElem?_map, hij, Option.map_some] at h1
    rw [eq_comm, Option.map_eq_some_iff] at h1
    obtain ⟨a, ha, ha2⟩ := h1
    exact ⟨a, ha2.symm, ha⟩
  · intro s row row' sub h1 h2 h3 h4
    rw [List.getElem?_map, h1] at h2
    rw [← Option.some.inj h2]
    exact arcSort_stable row sub (hl' row (List.mem_of_getElem? h1)) h3 h4

/-- Sorting does not change the paths: a path of positions of the result is one of the input through the
arc map. -/
theorem ArcSorted.paths {f g : List (List (RArc W))} {m : List Nat} (h : ArcSorted f g m)
    (is js : List Nat) (hm : is.map (fun i => m[i]?) = js.map some) (s t : Nat) :
    IPath (rawFsa g).arcs s is t ↔ IPath (rawFsa f).arcs s js t := by
  have key : is.map (fun i => (rawFsa g).arcs[i]?) = js.map (fun j => (rawFsa f).arcs[j]?) := by
    induction is generalizing js with
    | nil => cases js <;> simp_all
    | cons i is ih =>
      cases js with
      | nil => simp at hm
      | cons j js =>
        simp only [List.map_cons, List.cons.injEq] at hm ⊢
        obtain ⟨a, h1, h2⟩ := h.map_arc i j hm.1
        refine ⟨?_, ih js hm.2⟩
        simp only [rawFsa, List.getElem?_map, h1, h2]
  unfold IPath
  rw [key]

theorem ArcSorted.mem {f g : List (List (RArc W))} {m : List Nat} (h : ArcSorted f g m) (a : Arc W) :
    a ∈ (rawFsa g).arcs ↔ a ∈ (rawFsa f).arcs := by
  rw [mem_rawFsa, mem_rawFsa]
  constructor
  · rintro ⟨s, row', hs, b, hb, rfl⟩
    have hlt := (List.getElem?_eq_some_iff.mp hs).1
    rw [h.length] at hlt
    have := h.perm s _ row' (List.getElem?_eq_getElem hlt) hs
    exact ⟨s, _, List.getElem?_eq_getElem hlt, b, this.mem_iff.mp hb, rfl⟩
  · rintro ⟨s, row, hs, b, hb, rfl⟩
    have hlt := (List.getElem?_eq_some_iff.mp hs).1
    rw [← h.length] at hlt
    have := h.perm s row _ hs (List.getElem?_eq_getElem hlt)
    exact ⟨s, _, List.getElem?_eq_getElem hlt, b, this.mem_iff.mpr hb, rfl⟩

/-- **C19.** Accepted strings and scores do not change. -/
theorem ArcSorted.accepts [Add W] [Zero W] {f g : List (List (RArc W))} {m : List Nat} (h : ArcSorted f g m)
    (x : List Int) (w : W) : Accepts (rawFsa g) x w ↔ Accepts (rawFsa f) x w := by
  have hp : ∀ p, Accepting (rawFsa g) p ↔ Accepting (rawFsa f) p := by
    intro p
    unfold Accepting Path Fsa.final
    rw [show (rawFsa g).numStates = (rawFsa f).numStates from h.length]
    simp only [h.mem]
  unfold Accepts
  simp only [hp]

/-- The arcs with label -1 come last and those with label 0 first. -/
theorem ArcSorted.ends {f g : List (List (RArc W))} {m : List Nat} (h : ArcSorted f g m) (row : List (RArc W))
    (hr : row ∈ g) (hl : ∀ a ∈ row, -1 ≤ a.label ∧ a.label < 2147483648) :
    row.Pairwise (fun a b => (a.label = -1 → b.label = -1) ∧ (b.label = 0 → a.label = 0)) := by
  refine List.Pairwise.imp_of_mem ?_ (h.sorted row hr)
  intro a b ha hb hab
  have h1 := hl a ha
  have h2 := hl b hb
  unfold leArc u32 at hab
  omega

/-! ## The python function -/

/-- `arc_sort`, k2/python/k2/fsa_algo.py 532-596, of a single FSA, with the arc map. -/
def pyArcSort (f : List (List (RArc W))) : Option (List (RArc W) × List Nat) :=
  if (flagsOf f).valid = true then
    if (flagsOf f).arcSorted = true then some (f.flatten, List.range f.flatten.length)
    else arcSort (psum (f.map List.length)) f.flatten
  else none

/-- **C19.** The python function, including the shortcut for FSAs that are sorted. -/
theorem pyArcSort_spec (f : List (List (RArc W))) (hv : (flagsOf f).valid = true)
    (hl : ∀ a ∈ f.flatten, Int32 a.label) :
    ∃ g m, pyArcSort f = some (g.flatten, m) ∧ psum (g.map List.length) = psum (f.map List.length) ∧
      ArcSorted f g m := by
  unfold pyArcSort
  rw [if_pos hv]
  by_cases hs : (flagsOf f).arcSorted = true
  · rw [if_pos hs]
    refine ⟨f, _, rfl, rfl, rfl, ?_, (arcSorted_iff f hl).mp hs, List.Perm.refl _, ?_, ?_⟩
    · intro s row row' h1 h2
      rw [h1] at h2; rw [Option.some.inj h2]
    · intro i j hij
      have hlt := (List.getElem?_eq_some_iff.mp hij).1
      rw [List.length_range] at hlt
      rw [List.getElem?_range hlt] at hij
      obtain rfl := Option.some.inj hij
      exact ⟨_, List.getElem?_eq_getElem hlt, List.getElem?_eq_getElem hlt⟩
    · intro s row row' sub h1 h2 h3 _
      rw [h1] at h2; rw [← Option.some.inj h2]; exact h3
  · rw [if_neg hs]
    exact arcSort_spec f hl

/-- A case that meets the hypotheses: arcs out of order, two with the same label. -/
def exampleSort : List (List (RArc Int)) :=
  [[⟨0, 2, -1, 4⟩, ⟨0, 1, 3, 7⟩, ⟨0, 0, 3, 5⟩], [⟨1, 2, -1, 0⟩], []]

example : (flagsOf exampleSort).valid = true ∧ (flagsOf exampleSort).arcSorted = false ∧
    ∀ a ∈ exampleSort.flatten, Int32 a.label := by
  refine ⟨by decide, by decide, ?_⟩
  intro a ha
  simp only [exampleSort, List.flatten_cons, List.flatten_nil, List.mem_append, List.mem_cons, List.not_mem_nil,
    or_false] at ha
  rcases ha with ((rfl | rfl | rfl) | rfl) <;> simp [Int32]

/-- The model run on it. -/
example : arcSort (psum (exampleSort.map List.length)) exampleSort.flatten =
    some ([⟨0, 0, 3, 5⟩, ⟨0, 1, 3, 7⟩, ⟨0, 2, -1, 4⟩, ⟨1, 2, -1, 0⟩], [2, 1, 0, 3]) := by
  simp [arcSort, exampleSort, psum, psumFrom, sortSublists, sortLoop, sortStep, List.mergeSort, leAt, leOpt, arcLt,
    u32, List.range, List.range.loop, List.MergeSort.Internal.splitInTwo]

end Verif.Fsa
