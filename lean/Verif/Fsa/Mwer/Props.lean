import Verif.Fsa.Mwer.Probs
import Verif.Fsa.Lev.Props

/-!
# C100: `mwer_loss` is the expected number of word errors of the sampled paths

For each utterance `Nbest.from_lattice` keeps sampled paths with different word sequences (C99).  The loss of a path is
its share of `exp (score / temperature)` among the kept paths of the utterance, times its edit distance from the
reference.
-/

namespace Verif.Fsa
open Verif.Ragged Verif.Util Verif.Fsa.Bat Verif.Fsa.Sco Verif.Fsa.Top Verif.Fsa.Rp Verif.Fsa.Nb Verif.Fsa.Mwer
open Verif.Lev

/-! ## Specification -/

/-- `wer` is what the best path of the alignment lattice of two Levenshtein graphs gives (C25, C53), with
`ins_del_score=-0.501`. -/
def IsWer (wer : List Int → List Int → Option ℝ) : Prop :=
  ∀ (xs ys : List Int) (g h : Fsa Lev.Tag), Lev.levenshteinGraph (-501 / 1000) xs = some g →
    Lev.levenshteinGraph (-501 / 1000) ys = some h →
    ∃ p q, Lev.Best g h p q ∧ wer xs ys = some (((-Lev.adjusted p q : ℚ)) : ℝ)

/-- The loss of utterance number `r` with the kept paths `qs`: a factor `z`, which is the error of `LogAdd`, times the
shares of the paths times their distances from the reference. -/
def UttLoss (A : List (Arc ℝ)) (cut : WithBot ℝ) (temperature : ℝ) (dist : List Nat → ℝ) (qs : List (List Nat))
    (row : List ℝ) : Prop :=
  ∃ z : ℝ, 1 ≤ z ∧ z ≤ (1 + expB cut) ^ qs.length ∧
    row = qs.map (fun q => z * share A temperature qs q * dist q)

/-! ## Theorems -/

/-- The shares of the kept paths add up to one. -/
theorem share_sum (A : List (Arc ℝ)) (temperature : ℝ) (qs : List (List Nat)) (h : qs ≠ []) :
    (qs.map (share A temperature qs)).sum = 1 := by
  have hpos : 0 < (qs.map (fun q => Real.exp (scoreOf A q / temperature))).sum := by
    apply List.sum_pos
    · intro x hx
      obtain ⟨q, _, rfl⟩ := List.mem_map.mp hx
      exact Real.exp_pos _
    · simpa using h
  unfold share
  simp only [div_eq_mul_inv]
  rw [List.sum_map_mul_right]
  simp only [← div_eq_mul_inv]
  exact div_self hpos.ne'

section
variable (hash : List Int → Int) (low : ℝ) (hlow : 0 < low) (mid : ℝ → ℝ → ℝ) (hmid : ∀ x, mid x x = x)
  (cut : WithBot ℝ) (scale temperature : ℝ) (ht : temperature ≠ 0) (n : Nat) (hn0 : 0 < n)
  (T : List (List (List (Arc ℝ)))) (hT : VecOk T) (hn : T.flatten.length ≤ intMax)
  (hfw : ∀ f ∈ T, ∀ a ∈ f.flatten, a.src < a.dst) (hone : ∀ f ∈ T, f.length ≠ 1)
  (hlab : ∀ f ∈ T, ∀ a ∈ f.flatten, a.label = -1 ↔ a.dst + 1 = f.length)
  (aux : Aux) (A : List (List Int)) (haux : AuxIs aux A) (hA : A.length = (flat T).arcs.length)
  (refs : List (List Int)) (hrefs : refs.length = T.length)
include hlow hmid ht hn0 hT hn hfw hone hlab haux hA hrefs

/-- The loss for any function that compares a reference with a hypothesis. -/
theorem mwer_loss_paths (wer : List Int → List Int → Option ℝ) (d : List Int → List Int → ℝ)
    (hd : ∀ (r : Nat) (f : List (List (Arc ℝ))) (ref : List Int), T[r]? = some f → refs[r]? = some ref →
      ∀ is, IAccepting (rowsFsa f) is →
        wer ref (wordsOf A (is.map (base T r + ·))) = some (d ref (wordsOf A (is.map (base T r + ·))))) :
    ∃ (P Q : List (List (List Nat))) (losses : List (List ℝ)),
      (∀ gpu lp0, mwerLoss hash gpu lp0 low mid cut scale temperature n wer refs (flat T) aux =
        some (psum (Q.map List.length), losses.flatten)) ∧
      P.length = T.length ∧
      (∀ (r : Nat) (f : List (List (Arc ℝ))) (paths : List (List Nat)), T[r]? = some f → P[r]? = some paths →
        FairSample (fun w => Real.exp (w * scale)) f (base T r) n paths) ∧
      OnePerSequence hash (wordsOf A) P Q ∧
      losses.length = Q.length ∧
      ∀ (r : Nat) (qs : List (List Nat)) (ref : List Int) (row : List ℝ), Q[r]? = some qs → refs[r]? = some ref →
        losses[r]? = some row →
        UttLoss (flat T).arcs cut temperature (fun q => d ref (wordsOf A q)) qs row := by
  obtain ⟨P, Q, aux', h1, h2, h3, h4, h5⟩ := nbest_from_lattice hash low hlow Real.exp (fun w => (Real.exp_pos w).le) mid
    hmid (fun w => w * scale) n hn0 T hT hn hfw hone hlab aux A haux hA
  have hQl : Q.length = T.length := h5.1.trans h3
  -- the kept paths are accepting paths
  have hacc : ∀ (r : Nat) (qs : List (List Nat)), Q[r]? = some qs → ∀ q ∈ qs, ∃ f, T[r]? = some f ∧
      ∃ is, IAccepting (rowsFsa f) is ∧ q = is.map (base T r + ·) := by
    intro r qs hq q hqm
    have hr : r < T.length := by rw [← hQl]; exact (List.getElem?_eq_some_iff.mp hq).1
    have hf := List.getElem?_eq_getElem hr
    have hp := List.getElem?_eq_getElem (show r < P.length by omega)
    refine ⟨_, hf, ?_⟩
    have hm := List.mem_of_getElem? hf
    exact fair_accepting _ _ (hfw _ hm) _ _ _ (h4 r _ _ hf hp) q ((h5.2 r _ qs hp hq).1 q hqm)
  have hlen : ∀ path ∈ Q.flatten, (arcsAt (flat T).arcs path).length = path.length := by
    intro path hpath
    obtain ⟨qs, q1, q2⟩ := List.mem_flatten.mp hpath
    obtain ⟨r, hr⟩ := List.getElem?_of_mem q1
    obtain ⟨f, hf, is, his, rfl⟩ := hacc r qs hr path q2
    have hm := List.mem_of_getElem? hf
    obtain ⟨p, p1, _⟩ := path_ends T r f hf (hfw f hm) (hone f hm) (hlab f hm) is his
    rw [arcsAt_of p1]
    have := congrArg List.length p1
    simpa using this.symm
  -- the words of the kept paths
  set Ws := Q.flatten.map (List.map (fun i => A.getD i [])) with hWs
  have hWf : Ws.flatten = Q.flatten.flatten.map (fun i => A.getD i []) := by
    rw [hWs]; exact (List.map_flatten ..).symm
  have htx := getTexts_eq (Q.flatten.map (arcsAt (flat T).arcs)) Ws (by
    rw [hWs, List.map_map, List.map_map]
    apply List.map_congr_left
    intro path hp
    rw [Function.comp_apply, Function.comp_apply, List.length_map, hlen path hp]) (aux := aux') (by rw [hWf]; exact h2)
  rw [List.map_map] at htx
  have hWw : Ws.map (fun w => w.flatten.filter (fun x => decide (0 < x))) = Q.flatten.map (wordsOf A) := by
    rw [hWs, List.map_map]; rfl
  rw [hWw] at htx
  have hw := wersOf_eq wer d refs Q (wordsOf A) (hrefs.trans hQl.symm) (by
    intro r qs ref hq href q hqm
    obtain ⟨f, hf, is, his, rfl⟩ := hacc r qs hq q hqm
    exact hd r f ref hf href is his)
  obtain ⟨R, r1, r2, r3⟩ := pathProbs_eq cut temperature ht (flat T).arcs Q hlen aux'
  set D := Q.mapIdx (fun r qs => qs.map (fun q => d (refs.getD r []) (wordsOf A q))) with hD
  have hRD : R.map List.length = D.map List.length := by
    apply List.ext_getElem?
    intro r
    rw [List.getElem?_map, List.getElem?_map, hD, List.getElem?_mapIdx]
    cases hq : Q[r]? with
    | none =>
      have : Q.length ≤ r := List.getElem?_eq_none_iff.mp hq
      rw [List.getElem?_eq_none (by omega)]; rfl
    | some qs =>
      obtain ⟨z, _, _, hz⟩ := r3 r qs hq
      rw [hz]; simp
  refine ⟨P, Q, List.zipWith (List.zipWith (· * ·)) R D, ?_, h3, h4, h5, ?_, ?_⟩
  · intro gpu lp0
    have hzip : ∀ (R D : List (List ℝ)), R.map List.length = D.map List.length →
        List.zipWith (· * ·) R.flatten D.flatten = (List.zipWith (List.zipWith (· * ·)) R D).flatten := by
      intro R
      induction R with
      | nil => intro D _; simp
      | cons row R ih =>
        intro D h
        cases D with
        | nil => simp at h
        | cons row' D =>
          rw [List.map_cons, List.map_cons] at h
          obtain ⟨e1, e2⟩ := List.cons.inj h
          rw [List.flatten_cons, List.flatten_cons, List.zipWith_append e1, ih D e2]
          rfl
    have hfl : R.flatten.length = D.flatten.length := by rw [List.length_flatten, List.length_flatten, hRD]
    unfold mwerLoss lossOf
    have h1' := h1 gpu lp0
    simp only [h1', Option.bind_eq_bind, Option.bind_some]
    have htx' : getTexts (flat (Q.flatten.map (fun path => lineFsa (arcsAt (flat T).arcs path)))) aux' = _ := htx
    simp only [htx', Option.bind_some, hw, r1]
    rw [if_pos hfl, hzip R D hRD]
  · have : R.length = D.length := by
      have := congrArg List.length hRD
      simpa using this
    rw [List.length_zipWith, r2, ← this, r2, Nat.min_self]
  · intro r qs ref row hq href hrow
    obtain ⟨z, z1, z2, z3⟩ := r3 r qs hq
    refine ⟨z, z1, z2, ?_⟩
    have hDr : D[r]? = some (qs.map (fun q => d ref (wordsOf A q))) := by
      rw [hD, List.getElem?_mapIdx, hq, List.getD_eq_getElem?_getD, href]; rfl
    rw [List.getElem?_zipWith, z3, hDr] at hrow
    rw [← Option.some.inj hrow, List.zipWith_map, List.zipWith_self]

/-- C100: the loss of a kept path is its share times its edit distance from the reference of the utterance.  The
references must not contain 0 or -1, and a reference and the words of a path must not have 1000 or more words together
(C53). -/
theorem mwer_loss_is_expected_edits (wer : List Int → List Int → Option ℝ) (hwer : IsWer wer)
    (hsym : ∀ ref ∈ refs, (0 : Int) ∉ ref ∧ (-1 : Int) ∉ ref)
    (hshort : ∀ (r : Nat) (f : List (List (Arc ℝ))) (ref : List Int), T[r]? = some f → refs[r]? = some ref →
      ∀ is, IAccepting (rowsFsa f) is → ref.length + (wordsOf A (is.map (base T r + ·))).length < 1000) :
    ∃ (P Q : List (List (List Nat))) (losses : List (List ℝ)),
      (∀ gpu lp0, mwerLoss hash gpu lp0 low mid cut scale temperature n wer refs (flat T) aux =
        some (psum (Q.map List.length), losses.flatten)) ∧
      P.length = T.length ∧
      (∀ (r : Nat) (f : List (List (Arc ℝ))) (paths : List (List Nat)), T[r]? = some f → P[r]? = some paths →
        FairSample (fun w => Real.exp (w * scale)) f (base T r) n paths) ∧
      OnePerSequence hash (wordsOf A) P Q ∧
      losses.length = Q.length ∧
      ∀ (r : Nat) (qs : List (List Nat)) (ref : List Int) (row : List ℝ), Q[r]? = some qs → refs[r]? = some ref →
        losses[r]? = some row →
        UttLoss (flat T).arcs cut temperature (fun q => (editDistance ref (wordsOf A q) : ℝ)) qs row := by
  apply mwer_loss_paths hash low hlow mid hmid cut scale temperature ht n hn0 T hT hn hfw hone hlab aux A haux hA refs hrefs
    wer (fun ref ws => (editDistance ref ws : ℝ))
  intro r f ref hf href is his
  have h1 := hshort r f ref hf href is his
  have h2 := hsym ref (List.mem_of_getElem? href)
  have h3 : (0 : Int) ∉ wordsOf A (is.map (base T r + ·)) ∧ (-1 : Int) ∉ wordsOf A (is.map (base T r + ·)) := by
    constructor <;> intro h <;> · have := (List.mem_filter.mp h).2; simp at this
  obtain ⟨g, hg⟩ := Option.isSome_iff_exists.mp ((Lev.levenshteinGraph_defined (-501 / 1000) ref).mpr h2)
  obtain ⟨h, hh⟩ := Option.isSome_iff_exists.mp ((Lev.levenshteinGraph_defined (-501 / 1000) _).mpr h3)
  obtain ⟨p, q, hb, hw⟩ := hwer ref _ g h hg hh
  rw [hw, Lev.levenshtein_distance_partial (-501 / 1000) (by norm_num) ref _ (by
    have : (ref.length : ℚ) + (wordsOf A (is.map (base T r + ·))).length < 1000 := by exact_mod_cast h1
    linarith) g h hg hh p q hb]
  push_cast
  rw [neg_neg]
end

/-- `reduction='none'` followed by a sum over each utterance: the expected number of errors, up to the error of
`LogAdd`. -/
theorem uttLoss_sum (A : List (Arc ℝ)) (cut : WithBot ℝ) (temperature : ℝ) (dist : List Nat → ℝ) (hd : ∀ q, 0 ≤ dist q)
    (qs : List (List Nat)) (row : List ℝ) (h : UttLoss A cut temperature dist qs row) :
    (qs.map (fun q => share A temperature qs q * dist q)).sum ≤ row.sum ∧
      row.sum ≤ (1 + expB cut) ^ qs.length * (qs.map (fun q => share A temperature qs q * dist q)).sum := by
  obtain ⟨z, z1, z2, rfl⟩ := h
  have e : (qs.map (fun q => z * share A temperature qs q * dist q)).sum =
      z * (qs.map (fun q => share A temperature qs q * dist q)).sum := by
    simp only [mul_assoc]
    rw [List.sum_map_mul_left]
  have h0 : 0 ≤ (qs.map (fun q => share A temperature qs q * dist q)).sum := by
    apply List.sum_nonneg
    intro x hx
    obtain ⟨q, _, rfl⟩ := List.mem_map.mp hx
    apply mul_nonneg _ (hd q)
    unfold share
    apply div_nonneg (Real.exp_pos _).le
    apply List.sum_nonneg
    intro y hy
    obtain ⟨q', _, rfl⟩ := List.mem_map.mp hy
    exact (Real.exp_pos _).le
  rw [e]
  exact ⟨le_mul_of_one_le_left h0 z1, mul_le_mul_of_nonneg_right z2 h0⟩

/-- `reduction='sum'` adds the losses of the utterances; `reduction='mean'` divides by the number of paths. -/
theorem mwer_reductions (sp : List Nat) (losses : List (List ℝ)) :
    reduceSum (sp, losses.flatten) = (losses.map List.sum).sum ∧
    (reduceMean (sp, losses.flatten) = none ↔ losses.flatten = []) ∧
    (losses.flatten ≠ [] → reduceMean (sp, losses.flatten) =
      some ((losses.map List.sum).sum / ((losses.map List.length).sum : Nat))) := by
  have h : losses.flatten.sum = (losses.map List.sum).sum := by
    induction losses with
    | nil => simp
    | cons l L ih => rw [List.flatten_cons, List.sum_append, ih, List.map_cons, List.sum_cons]
  refine ⟨h, ?_, ?_⟩
  · unfold reduceMean
    constructor
    · intro e
      by_contra hc
      rw [if_neg (fun h => hc (List.length_eq_zero_iff.mp h))] at e
      cases e
    · intro e
      rw [e]; rfl
  · intro hne
    unfold reduceMean
    rw [if_neg (fun h => hne (List.length_eq_zero_iff.mp h)), h]
    show some (_ / ((losses.flatten.length : Nat) : ℝ)) = _
    rw [List.length_flatten]

/-- There is such a function `wer`: alignment lattices have best paths. -/
theorem isWer_exists : ∃ wer, IsWer wer := by
  have key : ∀ (xs ys : List Int) (g h : Fsa Lev.Tag), Lev.levenshteinGraph (-501 / 1000) xs = some g →
      Lev.levenshteinGraph (-501 / 1000) ys = some h → ∃ p q, Lev.Best g h p q := by
    intro xs ys g h hg hh
    classical
    obtain ⟨l0, hl0, _⟩ := editDistance_attained _ xs ys (Nat.le_refl _)
    have hex : ∃ m, ∃ l, Aligns l xs ys ∧ 1000 * edits l + gaps l = m := ⟨_, l0, hl0, rfl⟩
    obtain ⟨l, hl, hm⟩ := Nat.find_spec hex
    have hmin : ∀ l', Aligns l' xs ys → 1000 * edits l + gaps l ≤ 1000 * edits l' + gaps l' := by
      intro l' hl'
      rw [hm]
      exact Nat.find_min' hex ⟨l', hl', rfl⟩
    obtain ⟨p, q, e1, _, e3, _⟩ := Lev.lattice_complete (-501 / 1000) xs ys g h hg hh l hl
    refine ⟨p, q, e1, ?_⟩
    intro p' q' hp'
    obtain ⟨l', k, f1, _, _, f4, _⟩ := Lev.lattice_sound (-501 / 1000) xs ys g h hg hh p' q' hp'
    have h1 := hmin l' f1
    have h2 : (1000 : ℚ) * edits l + gaps l ≤ 1000 * edits l' + gaps l' := by exact_mod_cast h1
    have h3 : (0 : ℚ) ≤ k := by positivity
    rw [e3, f4]
    linarith
  have key' : ∀ xs ys : List Int, ∃ w : Option ℝ, ∀ (g h : Fsa Lev.Tag), Lev.levenshteinGraph (-501 / 1000) xs = some g →
      Lev.levenshteinGraph (-501 / 1000) ys = some h →
      ∃ p q, Lev.Best g h p q ∧ w = some (((-Lev.adjusted p q : ℚ)) : ℝ) := by
    intro xs ys
    cases hg : Lev.levenshteinGraph (-501 / 1000) xs with
    | none => exact ⟨none, fun g h e => by cases e⟩
    | some g =>
      cases hh : Lev.levenshteinGraph (-501 / 1000) ys with
      | none => exact ⟨none, fun g h _ e => by cases e⟩
      | some h =>
        obtain ⟨p, q, hb⟩ := key xs ys g h hg hh
        refine ⟨some (((-Lev.adjusted p q : ℚ)) : ℝ), ?_⟩
        rintro g' h' ⟨⟩ ⟨⟩
        exact ⟨p, q, hb, rfl⟩
  choose wer hwer using key'
  exact ⟨wer, fun xs ys g h hg hh => hwer xs ys g h hg hh⟩

/-! ## Examples -/

/-- Three paths; the first two have the same words.  The second utterance has no path. -/
def mwerExample : List (List (List (Arc ℝ))) :=
  [[[⟨0, 1, 1, 2⟩, ⟨0, 1, 2, 1⟩, ⟨0, 1, 3, 1⟩], [⟨1, 2, -1, 1⟩], []], [[], []]]

theorem mwerExample_ok : VecOk mwerExample := by
  intro f hf
  rcases List.mem_cons.mp hf with rfl | hf
  · intro s row hs a ha
    match s with
    | 0 => simp at hs; subst hs; simp at ha; rcases ha with rfl | rfl | rfl <;> simp
    | 1 => simp at hs; subst hs; simp at ha; subst ha; simp
    | 2 => simp at hs; subst hs; simp at ha
    | s + 3 => simp at hs
  · simp at hf; subst hf
    intro s row hs a ha
    match s with
    | 0 => simp at hs; subst hs; simp at ha
    | 1 => simp at hs; subst hs; simp at ha
    | s + 2 => simp at hs

/-- The hypotheses of the theorem hold for it, with the references [7, 8] and [9]. -/
example (wer : List Int → List Int → Option ℝ) (hwer : IsWer wer) :=
  mwer_loss_is_expected_edits hash64 (1 / 1000) (by norm_num) (fun x y => (x + y) / 2) (by intro x; ring) ⊥ (1 / 2) 1
    (by norm_num) 4 (by decide) mwerExample mwerExample_ok (by simp [mwerExample, Bat.intMax])
    (by
      simp only [mwerExample, List.mem_cons, List.not_mem_nil, or_false]
      rintro f (rfl | rfl) a ha <;> simp at ha
      rcases ha with rfl | rfl | rfl | rfl <;> simp)
    (by simp [mwerExample]) (by
      simp only [mwerExample, List.mem_cons, List.not_mem_nil, or_false]
      rintro f (rfl | rfl) a ha <;> simp at ha
      rcases ha with rfl | rfl | rfl | rfl <;> simp)
    (.ragged [0, 1, 3, 5, 6] [7, 0, 7, 8, 9, -1]) nbestWords
    ⟨by decide, by decide⟩ (by simp [mwerExample, nbestWords, flat]) [[7, 8], [9]] rfl wer hwer (by decide) (by
      intro r f ref hf href is his
      have hl : ref.length ≤ 2 := by
        match r with
        | 0 => simp at href; subst href; simp
        | 1 => simp at href; subst href; simp
        | r + 2 => simp at href
      have hw : (wordsOf nbestWords (is.map (base mwerExample r + ·))).length ≤ 2 * is.length := by
        unfold wordsOf
        refine (List.length_filter_le _ _).trans ?_
        rw [List.length_flatten, List.map_map, List.map_map]
        generalize is = is
        induction is with
        | nil => simp
        | cons i is ih =>
          rw [List.map_cons, List.sum_cons, List.length_cons]
          have : ∀ j : Nat, (nbestWords.getD j []).length ≤ 2 := by
            intro j
            match j with
            | 0 => simp [nbestWords]
            | 1 => simp [nbestWords]
            | 2 => simp [nbestWords]
            | 3 => simp [nbestWords]
            | j + 4 => simp [nbestWords]
          have := this (base mwerExample r + i)
          simp only [Function.comp_apply] at ih ⊢
          omega
      have hs : is.length ≤ 2 := by
        obtain ⟨_, p, hc, hp⟩ := his
        have hlen : is.length = p.length := by
          have := congrArg List.length hp
          simpa using this
        rw [hlen]
        have hfm := List.mem_of_getElem? hf
        have hmem : ∀ a ∈ p, a ∈ f.flatten := by
          intro a ha
          have : some a ∈ is.map (fun i => (rowsFsa f).arcs[i]?) := by rw [hp]; exact List.mem_map.mpr ⟨a, ha, rfl⟩
          obtain ⟨i, _, hi⟩ := List.mem_map.mp this
          exact List.mem_of_getElem? hi
        have hfl : ∀ a ∈ f.flatten, a.src < a.dst ∧ a.dst ≤ 2 := by
          simp [mwerExample] at hfm
          rcases hfm with rfl | rfl <;> simp
        match p with
        | [] => simp
        | [_] => simp
        | [_, _] => simp
        | a :: b :: c :: p =>
          exfalso
          have h1 : a.src = 0 := hc.1
          have h2 : b.src = a.dst := hc.2.1
          have h3 : c.src = b.dst := hc.2.2.1
          have := hfl a (hmem a (by simp))
          have := hfl b (hmem b (by simp))
          have := hfl c (hmem c (by simp))
          omega
      omega)

end Verif.Fsa
