import Verif.Fsa.Nbest.TopModel
import Verif.Fsa.Nbest.Lemmas
import Verif.Fsa.Shortest.Props
import Verif.Fsa.Sort.Props
import Verif.Ragged.PadProps

/-! # Lemmas on `Nbest.total_scores` and `Nbest.top_k` -/

namespace Verif.Fsa
open Verif.Ragged Verif.Util Verif.Fsa.Bat Verif.Fsa.Sco Verif.Fsa.Top Verif.Fsa.Best
variable {W : Type}

/-! ## Specification -/

/-- An FSA, the arcs of its states, with the words of each arc. -/
abbrev WordFsa (W : Type) := List (List (Arc W × List Int))

/-- The FSA without the words. -/
def plain (f : WordFsa W) : List (List (Arc W)) := f.map (List.map Prod.fst)

/-- The words of the arcs of several FSAs. -/
def arcWords (T : List (WordFsa W)) : List (List Int) := T.flatten.flatten.map Prod.snd

section
variable [AddCommMonoid W] [LinearOrder W] [IsOrderedAddMonoid W]

/-- `x` is the score of the best accepting path of the FSA, minus infinity if it has none. -/
def IsBest (f : List (List (Arc W))) (x : WithBot W) : Prop :=
  (∀ is q, IsPath (rowsFsa f) is q → ((score q : W) : WithBot W) ≤ x) ∧
    (x = ⊥ ∨ ∃ is q, IsPath (rowsFsa f) is q ∧ x = ((score q : W) : WithBot W))

omit [IsOrderedAddMonoid W] in
theorem IsBest.unique {f : List (List (Arc W))} {x y : WithBot W} (hx : IsBest f x) (hy : IsBest f y) : x = y := by
  apply le_antisymm
  · rcases hx.2 with rfl | ⟨is, q, h, rfl⟩
    · exact bot_le
    · exact hy.1 is q h
  · rcases hy.2 with rfl | ⟨is, q, h, rfl⟩
    · exact bot_le
    · exact hx.1 is q h

/-! ## Total scores -/

omit [AddCommMonoid W] [LinearOrder W] [IsOrderedAddMonoid W] in
theorem path_isPath (f : List (List (Arc W))) (q : List (Arc W)) (h0 : 0 < f.length) :
    Path f.flatten 0 q (f.length - 1) ↔ ∃ is, IsPath (rowsFsa f) is q := by
  constructor
  · rintro ⟨h1, h2⟩
    have : ∃ is : List Nat, is.map (f.flatten[·]?) = q.map some := by
      clear h1
      induction q with
      | nil => exact ⟨[], rfl⟩
      | cons a q ih =>
        obtain ⟨is, h⟩ := ih (fun b hb => h2 b (List.mem_cons_of_mem _ hb))
        obtain ⟨i, hi⟩ := List.mem_iff_getElem?.mp (h2 a (by simp))
        exact ⟨i :: is, by simp [hi, h]⟩
    obtain ⟨is, h⟩ := this
    exact ⟨is, h0, h1, h⟩
  · rintro ⟨is, _, h1, h2⟩
    refine ⟨h1, fun a ha => ?_⟩
    have h2' : is.map (f.flatten[·]?) = q.map some := h2
    have : some a ∈ is.map (f.flatten[·]?) := by rw [h2']; exact List.mem_map.mpr ⟨a, ha, rfl⟩
    obtain ⟨i, _, hi⟩ := List.mem_map.mp this
    exact List.mem_of_getElem? hi

omit [IsOrderedAddMonoid W] in
/-- A state that has a score has a path of this score. -/
theorem forward_attained (f : List (List (Arc W))) (hlt : ∀ a ∈ f.flatten, a.src < a.dst ∧ a.dst < f.length)
    (F : Nat → WithBot W) (hF : ForwardEq extend max ⊥ 0 f F) :
    ∀ n s, s ≤ n → s < f.length → F s = ⊥ ∨ ∃ q, Path f.flatten 0 q s ∧ F s = ((score q : W) : WithBot W) := by
  intro n
  induction n with
  | zero =>
    intro s h1 h2
    obtain rfl : s = 0 := by omega
    exact Or.inr ⟨[], ⟨rfl, by simp⟩, by rw [hF 0 h2, if_pos rfl]; rfl⟩
  | succ n ih =>
    intro s h1 h2
    by_cases h0 : s = 0
    · exact ih s (by omega) h2
    · rw [hF s h2, if_neg h0]
      rcases (reduceRow_max_le ((f.flatten.filter (fun a => decide (a.dst = s))).map
        (fun a => extend (F a.src) a.score)) (⊥ : WithBot W)).2.2 with h | h
      · exact Or.inl h
      · obtain ⟨a, ha, hx⟩ := List.mem_map.mp h
        obtain ⟨ha1, ha2⟩ := List.mem_filter.mp ha
        have hd : a.dst = s := of_decide_eq_true ha2
        obtain ⟨k1, k2⟩ := hlt a ha1
        have hx' : reduceRow max (⊥ : WithBot W) ((f.flatten.filter (fun a => decide (a.dst = s))).map
          (fun a => extend (F a.src) a.score)) = extend (F a.src) a.score := hx.symm
        rw [hx']
        rcases ih a.src (by omega) (by omega) with h3 | ⟨q, h3, h4⟩
        · left
          rw [h3, extend, WithBot.bot_add]
        · right
          refine ⟨q ++ [a], ⟨?_, ?_⟩, ?_⟩
          · rw [chain_append]
            exact ⟨a.src, h3.1, rfl, hd⟩
          · intro b hb
            rcases List.mem_append.mp hb with hb | hb
            · exact h3.2 b hb
            · rw [List.mem_singleton.mp hb]; exact ha1
          · have : score (q ++ [a]) = score q + a.score := by simp [score]
            rw [h4, this, extend, WithBot.coe_add]

omit [AddCommMonoid W] [LinearOrder W] [IsOrderedAddMonoid W] in
theorem totScores_flat {K : Type} (T : List (List (List (Arc W)))) (bot : K) (fwd : List K)
    (h : fwd.length = T.flatten.length) :
    totScores (flat T) bot fwd = some (T.mapIdx (fun r f => if f = [] then bot else fwd.getD (off T r + (f.length - 1)) bot)) := by
  unfold totScores
  rw [if_neg (by rw [flat_id1_length, h]; simp), flat_sp1_length, Nat.add_sub_cancel]
  apply mapM_some_of
  · simp
  · intro r b hb
    have hr : r < T.length := by have := (List.getElem?_eq_some_iff.mp hb).1; simpa using this
    rw [List.getElem?_range hr] at hb
    obtain rfl := Option.some.inj hb
    have hf := List.getElem?_eq_getElem hr
    have ho := off_succ T r _ hf
    have e1 := flat_sp1 T r (by omega)
    have e2 := flat_sp1 T (r + 1) (by omega)
    simp only [e1, e2, Option.bind_eq_bind, Option.bind_some, List.getElem?_mapIdx, hf, Option.map_some]
    by_cases h0 : T[r] = []
    · rw [if_pos h0, if_neg (by rw [ho, h0]; simp)]
    · have hpos : 0 < T[r].length := List.length_pos_iff.mpr h0
      have hlt := off_lt T r (T[r].length - 1) _ hf (by omega)
      have hlt' : off T r + (T[r].length - 1) < fwd.length := by omega
      rw [if_neg h0, if_pos (by omega), ho, show off T r + T[r].length - 1 = off T r + (T[r].length - 1) by omega,
        List.getD_eq_getElem?_getD, List.getElem?_eq_getElem hlt']
      rfl

/-- **C102.** `total_scores` gives every FSA the score of its best accepting path, or minus infinity. -/
theorem total_scores_best (T : List (List (List (Arc W)))) (hT : VecOk T) (hn : T.flatten.length ≤ intMax)
    (hfw : ∀ f ∈ T, ∀ a ∈ f.flatten, a.src < a.dst) :
    ∃ tot, (∀ lp0, Nb.totalScores lp0 (flat T) = some tot) ∧ tot.length = T.length ∧
      ∀ (r : Nat) (f : List (List (Arc W))), T[r]? = some f → ∃ x, tot[r]? = some x ∧ IsBest f x := by
  obtain ⟨fwd, h1, h2, h3⟩ := forward_fixed (extend (W := W)) max ⊥ 0 reduceRow_max_perm T hT hn hfw
  refine ⟨T.mapIdx (fun r f => if f = [] then ⊥ else fwd.getD (off T r + (f.length - 1)) ⊥), fun lp0 => ?_, ?_, ?_⟩
  · unfold Nb.totalScores
    have : forwardScores lp0 (fun (x : WithBot W) (w : W) => x + (w : WithBot W)) max ⊥ 0 (flat T) = some fwd := h1 lp0
    simp only [this, Option.bind_eq_bind, Option.bind_some]
    exact totScores_flat T ⊥ fwd h2
  · simp
  · intro r f hf
    refine ⟨_, by rw [List.getElem?_mapIdx, hf, Option.map_some], ?_⟩
    have hm := List.mem_of_getElem? hf
    have hlt : ∀ a ∈ f.flatten, a.src < a.dst ∧ a.dst < f.length :=
      fun a ha => ⟨hfw f hm a ha, (vec_arc_lt hT hm a ha).2⟩
    by_cases h0 : f = []
    · rw [if_pos h0]
      subst h0
      refine ⟨?_, Or.inl rfl⟩
      rintro is q ⟨hc, _⟩
      simp [rowsFsa] at hc
    · rw [if_neg h0]
      have hpos : 0 < f.length := List.length_pos_iff.mpr h0
      have hF := h3 r f hf
      refine ⟨?_, ?_⟩
      · intro is q hq
        exact forward_upper f hlt _ hF q (f.length - 1) (by omega) ((path_isPath f q hpos).mpr ⟨is, hq⟩)
      · rcases forward_attained f hlt _ hF (f.length - 1) (f.length - 1) (le_refl _) (by omega) with h | ⟨q, h, hx⟩
        · exact Or.inl h
        · obtain ⟨is, hq⟩ := (path_isPath f q hpos).mp h
          exact Or.inr ⟨is, q, hq, hx⟩

end

/-! ## `index_fsa` -/

theorem plain_length (f : WordFsa W) : (plain f).length = f.length := by simp [plain]

theorem flat_plain (T : List (WordFsa W)) :
    flat (T.map plain) = ⟨psum (T.map List.length), idsFrom 0 (T.map List.length), psum (T.flatten.map List.length),
      idsFrom 0 (T.flatten.map List.length), T.flatten.flatten.map Prod.fst⟩ := by
  have h1 : (T.map plain).map List.length = T.map List.length := by
    rw [List.map_map]; apply List.map_congr_left; intro f _; exact plain_length f
  have h2 : (T.map plain).flatten = T.flatten.map (List.map Prod.fst) := by
    rw [List.map_flatten]; rfl
  have h3 : (T.flatten.map (List.map Prod.fst)).map List.length = T.flatten.map List.length := by
    rw [List.map_map]; apply List.map_congr_left; intro f _; simp
  unfold flat
  have h4 : T.flatten.flatten.map Prod.fst = (T.flatten.map (List.map Prod.fst)).flatten := List.map_flatten
  rw [h2, h3, h1, h4]

namespace Nb

/-- **C102.** `index_fsa` returns the chosen FSAs, with the words of their arcs. -/
theorem indexFsa_eq (T : List (WordFsa W)) (aux : Aux) (ha : AuxIs aux (arcWords T)) (idx : List Nat)
    (hi : ∀ i ∈ idx, i < T.length) :
    ∃ aux', indexFsa (flat (T.map plain)) aux idx = some (flat ((idx.map (fun i => T.getD i [])).map plain), aux') ∧
      AuxIs aux' (arcWords (idx.map (fun i => T.getD i []))) := by
  obtain ⟨elems, e1, e2⟩ := index_axis0 (α := Arc W × List Int) 1 T (idx.map (fun n : Nat => (n : Int))) (by
    intro i hi'
    obtain ⟨a, ha, rfl⟩ := List.mem_map.mp hi'
    have := hi a ha
    have : a < List.length T := this
    constructor
    · omega
    · exact_mod_cast this)
  have hp : pick (α := Nest (Arc W × List Int) 1) T (idx.map (fun n : Nat => (n : Int))) = idx.map (fun i => T.getD i []) := by
    rw [pick, List.map_map]
    apply List.map_congr_left
    intro a _
    rw [Function.comp_apply, if_neg (by omega), Int.toNat_natCast, List.getD_eq_getElem?_getD]
  rw [hp] at e1 e2
  generalize hP : idx.map (fun i => T.getD i []) = P at *
  have e3 : fullLayers 2 (P : List (Nest (Arc W × List Int) 2)) = [(psum (P.map List.length), idsFrom 0 (P.map List.length)),
      (psum (P.flatten.map List.length), idsFrom 0 (P.flatten.map List.length))] := by
    rw [show fullLayers 2 (P : List (Nest (Arc W × List Int) 2)) = _ from fullLayers_succ 1 P,
      show fullLayers 1 (P.flatten : List (Nest (Arc W × List Int) 1)) = _ from fullLayers_succ 0 P.flatten]
    rfl
  have e4 : valuesOf 2 (P : List (Nest (Arc W × List Int) 2)) = P.flatten.flatten := rfl
  have e5 : valuesOf 2 (T : List (Nest (Arc W × List Int) 2)) = T.flatten.flatten := rfl
  have e6 : layersOf 2 (T : List (Nest (Arc W × List Int) 2)) = [psum (T.map List.length), psum (T.flatten.map List.length)] := rfl
  have e2' : elems.map (fun e => T.flatten.flatten[e]?) = P.flatten.flatten.map some := e2
  have e1' : indexAxis0 [psum (T.map List.length), psum (T.flatten.map List.length)] (idx.map (fun n : Nat => (n : Int))) =
      some ([(psum (P.map List.length), idsFrom 0 (P.map List.length)),
      (psum (P.flatten.map List.length), idsFrom 0 (P.flatten.map List.length))], elems) := by
    rw [← e3, ← e6]; exact e1
  have hel : ∀ e ∈ elems, e < T.flatten.flatten.length := by
    intro e he
    have : T.flatten.flatten[e]? ∈ P.flatten.flatten.map some := by rw [← e2']; exact List.mem_map.mpr ⟨e, he, rfl⟩
    obtain ⟨x, _, hx⟩ := List.mem_map.mp this
    exact (List.getElem?_eq_some_iff.mp hx.symm).1
  have harcs : elems.mapM (fun e => (T.flatten.flatten.map Prod.fst)[e]?) = some (P.flatten.flatten.map Prod.fst) := by
    apply mapM_of_map
    have : elems.map (fun e => (T.flatten.flatten.map Prod.fst)[e]?) =
        (elems.map (fun e => T.flatten.flatten[e]?)).map (Option.map Prod.fst) := by
      rw [List.map_map]; apply List.map_congr_left; intro e _
      exact List.getElem?_map
    rw [this, e2', List.map_map, List.map_map]
    rfl
  have hw : elems.map (fun i => (arcWords T).getD i []) = arcWords P := by
    have : elems.map (fun i => (arcWords T).getD i []) =
        (elems.map (fun e => T.flatten.flatten[e]?)).map (fun o => (o.map Prod.snd).getD []) := by
      rw [List.map_map]; apply List.map_congr_left; intro e _
      rw [arcWords, List.getD_eq_getElem?_getD, List.getElem?_map]
      rfl
    rw [this, e2', List.map_map]
    rfl
  obtain ⟨aux', a1, a2⟩ := auxIndex_eq ha elems (by
    intro e he; have := hel e he; unfold arcWords; rwa [List.length_map])
  rw [hw] at a2
  refine ⟨aux', ?_, a2⟩
  rw [flat_plain, flat_plain]
  unfold indexFsa indexRagged indexAxis
  rw [if_neg (by simp), if_pos rfl]
  simp only [List.map_cons, List.map_nil, e1', harcs, a1, Option.bind_eq_bind, Option.bind_some]

/-! ## Orders -/

/-- `ordersFrom` as rows. -/
def orderRows {A : Type} (lt : A → A → Bool) : Nat → List (List A) → List (List Nat)
  | _, [] => []
  | b, row :: V => orderOf lt b row :: orderRows lt (b + row.length) V

theorem orderRows_flatten {A : Type} (lt : A → A → Bool) (V : List (List A)) :
    ∀ b, (orderRows lt b V).flatten = ordersFrom lt b V := by
  induction V with
  | nil => intro b; rfl
  | cons row V ih => intro b; rw [orderRows, List.flatten_cons, ih, ordersFrom]

theorem orderOf_length {A : Type} (lt : A → A → Bool) (b : Nat) (row : List A) : (orderOf lt b row).length = row.length := by
  rw [orderOf, List.length_mergeSort, List.length_range']

theorem orderRows_lengths {A : Type} (lt : A → A → Bool) (V : List (List A)) :
    ∀ b, (orderRows lt b V).map List.length = V.map List.length := by
  induction V with
  | nil => intro b; rfl
  | cons row V ih => intro b; rw [orderRows, List.map_cons, ih, List.map_cons, orderOf_length]

theorem orderRows_get {A : Type} (lt : A → A → Bool) (V : List (List A)) :
    ∀ b r, (orderRows lt b V)[r]? = V[r]?.map (orderOf lt (b + splits V r)) := by
  induction V with
  | nil => intro b r; rfl
  | cons row V ih =>
    intro b r
    cases r with
    | zero => simp [orderRows, splits]
    | succ r =>
      rw [orderRows, List.getElem?_cons_succ, ih, List.getElem?_cons_succ]
      congr 2
      simp [splits, Nat.add_assoc]

end Nb
end Verif.Fsa
