import Verif.Fsa.Nbest.TopLemmas
import Verif.Ragged.CatCore

/-!
# C102: `Nbest.top_k`
-/

namespace Verif.Fsa
open Verif.Ragged Verif.Util Verif.Fsa.Bat Verif.Fsa.Sco Verif.Fsa.Top Verif.Fsa.Best
variable {W : Type} [AddCommMonoid W] [LinearOrder W] [IsOrderedAddMonoid W]

/-- `out` holds `k` of the FSAs `u`: the FSAs in the order of the scores of their best paths, the best first; if
there are fewer than `k`, then the last one of this order is repeated. -/
def TopOf (k : Nat) (u out : List (WordFsa W)) : Prop :=
  ∃ S : List (WordFsa W), S.Perm u ∧
    S.Pairwise (fun f g => ∀ x y, IsBest (plain f) x → IsBest (plain g) y → y ≤ x) ∧
    out.length = k ∧ ∀ j < k, out[j]? = S[min j (S.length - 1)]?

/-- When `top_k` returns: no utterance is without paths, and some utterance has at least `k` of them. -/
def TopFits (k N : Nat) (U : List (List (WordFsa W))) : Prop :=
  ((∀ u ∈ U, u ≠ []) ∨ N = 0) ∧ (U = [] ∨ k ≤ N)

namespace Nb

theorem take_fillRow {X : Type} (k N : Nat) (x : X) (row : List X) (hk : k ≤ N) :
    (fillRow false N x row).take k = row.take k ++ List.replicate (k - row.length) x := by
  unfold fillRow
  simp only [Bool.false_eq_true, if_false, List.take_append, List.take_replicate]
  congr 2
  omega

theorem take_fillRow_get {X : Type} (k N : Nat) (pv : X) (row : List X) (hk : k ≤ N) (hr : row ≠ []) (j : Nat) (hj : j < k) :
    ((fillRow false N (edgeOf false pv row) row).take k)[j]? = row[min j (row.length - 1)]? := by
  have hpos : 0 < row.length := List.length_pos_iff.mpr hr
  rw [take_fillRow k N _ row hk]
  by_cases h : j < row.length
  · rw [List.getElem?_append_left (by rw [List.length_take]; omega), List.getElem?_take_of_lt hj,
      Nat.min_eq_left (by omega)]
  · rw [List.getElem?_append_right (by rw [List.length_take]; omega), List.length_take,
      List.getElem?_replicate, if_pos (by omega), Nat.min_eq_right (by omega), ← List.getLast?_eq_getElem?,
      List.getLast?_eq_some_getLast hr]
    simp [edgeOf, List.getLastD_eq_getLast?, List.getLast?_eq_some_getLast hr]

theorem isLongest_of_lengths {X Y : Type} {N : Nat} {V : List (List X)} {V' : List (List Y)}
    (h : V'.map List.length = V.map List.length) (hN : IsLongest N V) : IsLongest N V' := by
  refine ⟨fun L hL => ?_, ?_⟩
  · have : L.length ∈ V.map List.length := by rw [← h]; exact List.mem_map.mpr ⟨L, hL, rfl⟩
    obtain ⟨M, hM, he⟩ := List.mem_map.mp this
    rw [← he]; exact hN.1 M hM
  · rcases hN.2 with h0 | ⟨L, hL, he⟩
    · exact Or.inl h0
    · have : L.length ∈ V'.map List.length := by rw [h]; exact List.mem_map.mpr ⟨L, hL, rfl⟩
      obtain ⟨M, hM, hm⟩ := List.mem_map.mp this
      exact Or.inr ⟨M, hM, by omega⟩

/-- The FSAs of one utterance in the order of the sort. -/
theorem order_row (U : List (List (WordFsa W))) (best : WordFsa W → WithBot W) (r : Nat) (u : List (WordFsa W))
    (hu : U[r]? = some u) :
    let o := orderOf (fun a b : WithBot W => decide (b < a)) (splits U r) (u.map best)
    (∀ i ∈ o, i < U.flatten.length) ∧ (o.map (fun i => U.flatten.getD i [])).Perm u ∧
      (o.map (fun i => U.flatten.getD i [])).Pairwise (fun f g => best g ≤ best f) := by
  intro o
  have hread : ∀ k, k < u.length → U.flatten[splits U r + k]? = u[k]? := by
    intro k hk
    rw [splits_eq_take]
    exact row_at U r k u hu hk
  have hperm : o.Perm (List.range' (splits U r) u.length) := by
    have := List.mergeSort_perm (List.range' (splits U r) (u.map best).length)
      (fun i j => leAt (fun a b : WithBot W => decide (b < a)) (u.map best) (i - splits U r) (j - splits U r))
    have h2 : List.range' (splits U r) (u.map best).length = List.range' (splits U r) u.length := by rw [List.length_map]
    rw [← h2]
    exact this
  have hlt : ∀ i ∈ o, i < U.flatten.length := by
    intro i hi
    have := List.mem_range'_1.mp (hperm.mem_iff.mp hi)
    have h2 := hread (i - splits U r) (by omega)
    have hk : i - splits U r < u.length := by omega
    rw [show splits U r + (i - splits U r) = i by omega, List.getElem?_eq_getElem hk] at h2
    exact (List.getElem?_eq_some_iff.mp h2).1
  refine ⟨hlt, ?_, ?_⟩
  · have h1 := hperm.map (fun i => U.flatten.getD i [])
    have h2 : (List.range' (splits U r) u.length).map (fun i => U.flatten.getD i []) = u := by
      apply List.ext_getElem?
      intro k
      by_cases hk : k < u.length
      · rw [List.getElem?_map, List.getElem?_range' hk, Nat.one_mul, Option.map_some, List.getD_eq_getElem?_getD,
          hread k hk, List.getElem?_eq_getElem hk]
        rfl
      · rw [List.getElem?_eq_none (by simpa using hk), List.getElem?_eq_none (by simpa using hk)]
    rwa [h2] at h1
  · have hv := orderOf_values (fun a b : WithBot W => decide (b < a)) (splits U r) (u.map best) (U.flatten.map best) (by
      intro k hk
      rw [List.length_map] at hk
      rw [List.getElem?_map, hread k hk, List.getElem?_map])
    have hs : (o.map (fun i => U.flatten.getD i [])).map best =
        (u.map best).mergeSort (fun a b => !decide (a < b)) := by
      have h1 : o.map (fun i => (U.flatten.map best)[i]?) = ((o.map (fun i => U.flatten.getD i [])).map best).map some := by
        rw [List.map_map, List.map_map]
        apply List.map_congr_left
        intro i hi
        simp only [Function.comp_apply]
        rw [List.getElem?_map, List.getD_eq_getElem?_getD, List.getElem?_eq_getElem (hlt i hi)]
        rfl
      rw [h1] at hv
      exact List.map_injective_iff.mpr (Option.some_injective _) hv
    have hsorted := List.pairwise_mergeSort (le := fun a b : WithBot W => !decide (a < b)) (by
      intro a b c h1 h2
      simp only [Bool.not_eq_true', decide_eq_false_iff_not, not_lt] at *
      exact le_trans h2 h1) (by
      intro a b
      simp only [Bool.or_eq_true, Bool.not_eq_true', decide_eq_false_iff_not, not_lt]
      exact le_total b a) (u.map best)
    rw [← hs, List.pairwise_map] at hsorted
    refine hsorted.imp ?_
    intro f g h
    simpa using h

/-- **C102, partial** (missing: the promise of the documentation for `k` larger than the number of paths of every
utterance, which is false, see `top_k_fails_below_k`).  What `top_k` does on an n-best list with the FSAs `U` of each utterance, the words of whose arcs are
in `aux`.  It fails unless no utterance is without paths and some utterance has `k` of them (or there is nothing to
return).  Otherwise every utterance gets exactly `k` FSAs, the best ones in the order of their scores, with their
words. -/
theorem top_k_partial (U : List (List (WordFsa W))) (N : Nat) (hN : IsLongest N U) (aux : Aux)
    (ha : AuxIs aux (arcWords U.flatten)) (hT : VecOk (U.flatten.map plain))
    (hn : (U.flatten.map plain).flatten.length ≤ intMax)
    (hfw : ∀ f ∈ U.flatten.map plain, ∀ a ∈ f.flatten, a.src < a.dst) (lp0 k : Nat) (ks : Shape) (kp : List Nat) :
    (¬ TopFits k N U → topK lp0 k ⟨flat (U.flatten.map plain), aux, lay U, ks, kp⟩ = none) ∧
    (TopFits k N U → ∃ (R : List (List (WordFsa W))) (aux' : Aux),
      topK lp0 k ⟨flat (U.flatten.map plain), aux, lay U, ks, kp⟩ =
        some ⟨flat (R.flatten.map plain), aux', lay R, [], []⟩ ∧
      AuxIs aux' (arcWords R.flatten) ∧ R.length = U.length ∧
      ∀ (r : Nat) (u out : List (WordFsa W)), U[r]? = some u → R[r]? = some out → TopOf k u out) := by
  classical
  obtain ⟨tot, t1, t2, t3⟩ := total_scores_best (U.flatten.map plain) hT hn hfw
  rw [List.length_map] at t2
  -- the score of an FSA
  let best : WordFsa W → WithBot W := fun f => if h : ∃ x, IsBest (plain f) x then h.choose else ⊥
  have hbest : ∀ f x, IsBest (plain f) x → best f = x := by
    intro f x hx
    have h : ∃ x, IsBest (plain f) x := ⟨x, hx⟩
    show (if h : ∃ x, IsBest (plain f) x then h.choose else ⊥) = x
    rw [dif_pos h]
    exact h.choose_spec.unique hx
  have htot : tot = U.flatten.map best := by
    apply List.ext_getElem?
    intro i
    by_cases hi : i < U.flatten.length
    · obtain ⟨x, h1, h2⟩ := t3 i (plain U.flatten[i]) (by rw [List.getElem?_map, List.getElem?_eq_getElem hi]; rfl)
      rw [h1, List.getElem?_map, List.getElem?_eq_getElem hi, Option.map_some, hbest _ x h2]
    · rw [List.getElem?_eq_none (by omega), List.getElem?_eq_none (by rw [List.length_map]; omega)]
  -- the orders
  let V : List (List (WithBot W)) := U.map (List.map best)
  have hVl : V.map List.length = U.map List.length := by
    show (U.map (List.map best)).map List.length = _
    rw [List.map_map]; apply List.map_congr_left; intro u _; simp
  have hVf : V.flatten = tot := by
    rw [htot]
    show (U.map (List.map best)).flatten = _
    rw [List.map_flatten]
  have hVs : ∀ r, splits V r = splits U r := by
    intro r; rw [splits_eq_take, splits_eq_take, hVl]
  let O : List (List Nat) := orderRows (fun a b : WithBot W => decide (b < a)) 0 V
  have hOl : O.map List.length = U.map List.length := (orderRows_lengths _ V 0).trans hVl
  have hOlen : O.length = U.length := by simpa using congrArg List.length hOl
  have hOget : ∀ (r : Nat) (u : List (WordFsa W)), U[r]? = some u →
      O[r]? = some (orderOf (fun a b : WithBot W => decide (b < a)) (splits U r) (u.map best)) := by
    intro r u hu
    show (orderRows _ 0 V)[r]? = _
    rw [orderRows_get, Nat.zero_add, hVs]
    show ((U.map (List.map best))[r]?).map _ = _
    rw [List.getElem?_map, hu]
    rfl
  have hsort : sortSublists (fun a b : WithBot W => decide (b < a)) (lay U).1 tot =
      some ((V.map (fun row => row.mergeSort (fun a b => !decide (a < b)))).flatten, O.flatten) := by
    have := sortSublists_eq (fun a b : WithBot W => decide (b < a)) V
    rw [hVl, hVf, ← orderRows_flatten] at this
    exact this
  -- padding
  let O' : List (List Int) := O.map (List.map (fun n : Nat => (n : Int)))
  have hO'l : O'.map List.length = U.map List.length := by
    rw [← hOl]
    show (O.map (List.map _)).map List.length = _
    rw [List.map_map]; apply List.map_congr_left; intro u _; simp
  have hlay : lay U = lay O' := by unfold lay; rw [hO'l]
  have hO'f : O.flatten.map (fun n : Nat => (n : Int)) = O'.flatten := by
    show _ = (O.map (List.map _)).flatten
    rw [List.map_flatten]
  have hN' : IsLongest N O' := isLongest_of_lengths hO'l hN
  have hpad := pad_replicate O' N hN' (-1 : Int) false
  let P : List (List Int) := O'.map (fun row => fillRow false N (edgeOf false (-1) row) row)
  have hPlen : P.length = U.length := by simp [P, O', hOlen]
  have hProw : ∀ row ∈ P, row.length = N := by
    intro row hr
    obtain ⟨o, ho, rfl⟩ := List.mem_map.mp hr
    exact fillRow_length false N _ o (hN'.1 o ho)
  have hOne : ∀ (r : Nat) (u : List (WordFsa W)) (o : List Int), U[r]? = some u → O'[r]? = some o → o.length = u.length := by
    intro r u o h1 h2
    have := congrArg (·[r]?) hO'l
    simp only [List.getElem?_map, h1, h2, Option.map_some, Option.some.injEq] at this
    exact this
  have hpos : ∀ o ∈ O', ∀ x ∈ o, 0 ≤ x := by
    intro o ho x hx
    obtain ⟨o1, _, rfl⟩ := List.mem_map.mp ho
    obtain ⟨n, _, rfl⟩ := List.mem_map.mp hx
    omega
  have hentries : ∀ o ∈ O', o ≠ [] ∨ N = 0 → ∀ x ∈ fillRow false N (edgeOf false (-1) o) o, x ∈ o := by
    intro o ho hne x hx
    unfold fillRow at hx
    simp only [Bool.false_eq_true, if_false] at hx
    rcases List.mem_append.mp hx with h | h
    · exact h
    · obtain ⟨h1, rfl⟩ := List.mem_replicate.mp h
      rcases hne with h2 | h2
      · simp [edgeOf, List.getLastD_eq_getLast?, List.getLast?_eq_some_getLast h2]
      · omega
  have hcheck : P.all (fun row => row.all (fun x => decide (0 ≤ x))) = true ↔ ((∀ u ∈ U, u ≠ []) ∨ N = 0) := by
    rw [List.all_eq_true]
    constructor
    · intro h
      by_cases h0 : N = 0
      · exact Or.inr h0
      · left
        intro u hu hnil
        obtain ⟨r, hr⟩ := List.mem_iff_getElem?.mp hu
        have hrlt : r < O'.length := by
          have := (List.getElem?_eq_some_iff.mp hr).1; simp only [O', List.length_map]; omega
        have ho := List.getElem?_eq_getElem hrlt
        have hl := hOne r u _ hr ho
        rw [hnil, List.length_nil] at hl
        have hoe : O'[r] = [] := List.length_eq_zero_iff.mp hl
        have := h (fillRow false N (edgeOf false (-1) O'[r]) O'[r]) (List.mem_map.mpr ⟨_, List.getElem_mem hrlt, rfl⟩)
        rw [hoe, List.all_eq_true] at this
        have := this (-1) (by simp [fillRow, edgeOf, h0])
        simp at this
    · intro h row hr
      obtain ⟨o, ho, rfl⟩ := List.mem_map.mp hr
      rw [List.all_eq_true]
      intro x hx
      have hx' := hentries o ho (by
        rcases h with h | h
        · left
          intro hnil
          obtain ⟨r, hr'⟩ := List.mem_iff_getElem?.mp ho
          have hrU : r < U.length := by
            have := (List.getElem?_eq_some_iff.mp hr').1; simp only [O', List.length_map] at this; omega
          have hl := hOne r _ o (List.getElem?_eq_getElem hrU) hr'
          rw [hnil, List.length_nil] at hl
          exact h _ (List.getElem_mem hrU) (List.length_eq_zero_iff.mp hl.symm)
        · exact Or.inr h) x hx
      simpa using hpos o ho x hx'
  -- the call
  have hts : totSize [lay U] 1 = some tot.length := by
    rw [t2]
    unfold totSize lay
    rw [if_neg (by omega)]
    simp only [Nat.sub_self, List.getElem?_cons_zero, Option.map_some, psum_getLastD, List.length_flatten]
  have hpad' : padRagged [lay U] (O.flatten.map (fun n : Nat => (n : Int))) "replicate" (-1) false = some P := by
    rw [hlay, hO'f]; exact hpad
  have hrun : topK lp0 k ⟨flat (U.flatten.map plain), aux, lay U, ks, kp⟩ =
      if P.all (fun row => row.all (fun x => decide (0 ≤ x))) then
        (indexFsa (flat (U.flatten.map plain)) aux (((P.map (fun row => row.take k)).flatten).map Int.toNat)).bind
          (fun r => mkNbest r.1 r.2 (regularLayer U.length k) [] [])
      else none := by
    unfold topK
    simp only [t1 lp0, Option.bind_eq_bind, Option.bind_some]
    rw [if_neg (by rw [hts]; simp)]
    simp only [hsort, hpad', Option.bind_some]
    rw [show (lay U).1.length - 1 = U.length by simp [lay]]
  rw [hrun]
  by_cases hc : (∀ u ∈ U, u ≠ []) ∨ N = 0
  · rw [if_pos (hcheck.mpr hc)]
    -- the rows of indexes
    let I : List (List Nat) := P.map (fun row => (row.take k).map Int.toNat)
    have hI : ((P.map (fun row => row.take k)).flatten).map Int.toNat = I.flatten := by
      rw [List.map_flatten, List.map_map]; rfl
    have hIlen : I.length = U.length := by simp only [I, List.length_map]; exact hPlen
    have hone : ∀ o ∈ O', o ≠ [] ∨ N = 0 := by
      intro o ho
      rcases hc with h | h
      · left
        intro hnil
        obtain ⟨r, hr'⟩ := List.mem_iff_getElem?.mp ho
        have hrU : r < U.length := by
          have := (List.getElem?_eq_some_iff.mp hr').1; simp only [O', List.length_map] at this; omega
        have hl := hOne r _ o (List.getElem?_eq_getElem hrU) hr'
        rw [hnil, List.length_nil] at hl
        exact h _ (List.getElem_mem hrU) (List.length_eq_zero_iff.mp hl.symm)
      · exact Or.inr h
    have hIlt : ∀ i ∈ I.flatten, i < U.flatten.length := by
      intro i hi
      obtain ⟨row, h1, h2⟩ := List.mem_flatten.mp hi
      obtain ⟨p, hp, rfl⟩ := List.mem_map.mp h1
      obtain ⟨x, hx, rfl⟩ := List.mem_map.mp h2
      obtain ⟨o, ho, rfl⟩ := List.mem_map.mp hp
      have hx' := hentries o ho (hone o ho) x (List.mem_of_mem_take hx)
      obtain ⟨r, hr'⟩ := List.mem_iff_getElem?.mp ho
      have hrU : r < U.length := by
        have := (List.getElem?_eq_some_iff.mp hr').1; simp only [O', List.length_map] at this; omega
      have hg := hOget r _ (List.getElem?_eq_getElem hrU)
      have : O'[r]? = (O[r]?).map (List.map (fun n : Nat => (n : Int))) := List.getElem?_map
      rw [hr', hg] at this
      obtain rfl := Option.some.inj this
      obtain ⟨n, hn1, rfl⟩ := List.mem_map.mp hx'
      rw [Int.toNat_natCast]
      exact (order_row U best r _ (List.getElem?_eq_getElem hrU)).1 n hn1
    obtain ⟨aux', x1, x2⟩ := indexFsa_eq U.flatten aux ha I.flatten hIlt
    let R : List (List (WordFsa W)) := I.map (List.map (fun i => U.flatten.getD i []))
    have hR : I.flatten.map (fun i => U.flatten.getD i []) = R.flatten := by
      rw [List.map_flatten]
    have hRl : R.map List.length = List.replicate U.length (min k N) := by
      rw [List.eq_replicate_iff]
      refine ⟨by simp only [R, List.length_map]; exact hIlen, ?_⟩
      intro n hn'
      obtain ⟨x, hx, rfl⟩ := List.mem_map.mp hn'
      obtain ⟨i, hi, rfl⟩ := List.mem_map.mp hx
      obtain ⟨p, hp, rfl⟩ := List.mem_map.mp hi
      rw [List.length_map, List.length_map, List.length_take, hProw p hp]
    have hRlen : R.length = U.length := by simp only [R, List.length_map]; exact hIlen
    have hRf : R.flatten.length = U.length * min k N := by
      rw [List.length_flatten, hRl, List.sum_replicate, smul_eq_mul]
    rw [hI, x1, Option.bind_some, hR]
    have hmk : mkNbest (flat (R.flatten.map plain)) aux' (regularLayer U.length k) [] [] =
        if U.length * k = U.length * min k N then
          some ⟨flat (R.flatten.map plain), aux', regularLayer U.length k, [], []⟩ else none := by
      unfold mkNbest
      have e1 : totSize [regularLayer U.length k] 1 = some (U.length * k) := by
        rw [regularLayer_eq]
        unfold totSize
        rw [if_neg (by omega)]
        simp only [Nat.sub_self, List.getElem?_cons_zero, Option.map_some, psum_getLastD, List.sum_replicate, smul_eq_mul]
      have e2 : (flat (R.flatten.map plain)).sp1.length - 1 = U.length * min k N := by
        rw [flat_sp1_length, Nat.add_sub_cancel, List.length_map, hRf]
      rw [e1, e2]
      simp only [Option.some.injEq]
    rw [hmk]
    have hfit : U.length * k = U.length * min k N ↔ (U = [] ∨ k ≤ N) := by
      constructor
      · intro h
        by_cases h0 : U = []
        · exact Or.inl h0
        · right
          have := Nat.eq_of_mul_eq_mul_left (List.length_pos_iff.mpr h0) h
          omega
      · rintro (h | h)
        · rw [h]; simp
        · rw [Nat.min_eq_left h]
    constructor
    · intro h
      rw [if_neg]
      intro h2
      exact h ⟨hc, hfit.mp h2⟩
    · rintro ⟨_, h⟩
      refine ⟨R, aux', ?_, ?_, hRlen, ?_⟩
      · rw [if_pos (hfit.mpr h)]
        have : regularLayer U.length k = lay R := by
          rw [regularLayer_eq]
          unfold lay
          rw [hRl]
          rcases h with h | h
          · rw [h]; rfl
          · rw [Nat.min_eq_left h]
        rw [this]
      · rw [← hR]; exact x2
      · intro r u out hu hout
        have hk : k ≤ N := by
          rcases h with h | h
          · rw [h] at hu; simp at hu
          · exact h
        obtain ⟨s1, s2, s3⟩ := order_row U best r u hu
        have hg := hOget r u hu
        generalize orderOf (fun a b : WithBot W => decide (b < a)) (splits U r) (u.map best) = o at hg s1 s2 s3
        have hO'r : O'[r]? = some (o.map (fun n : Nat => (n : Int))) := by
          show (O.map _)[r]? = _
          rw [List.getElem?_map, hg]; rfl
        have hout' : out = (((fillRow false N (edgeOf false (-1) (o.map (fun n : Nat => (n : Int))))
            (o.map (fun n : Nat => (n : Int)))).take k).map Int.toNat).map (fun i => U.flatten.getD i []) := by
          have : R[r]? = some ((((fillRow false N (edgeOf false (-1) (o.map (fun n : Nat => (n : Int))))
            (o.map (fun n : Nat => (n : Int)))).take k).map Int.toNat).map (fun i => U.flatten.getD i [])) := by
            show (I.map _)[r]? = _
            rw [List.getElem?_map]
            show ((P.map _)[r]?).map _ = _
            rw [List.getElem?_map]
            show (((O'.map _)[r]?).map _).map _ = _
            rw [List.getElem?_map, hO'r]
            rfl
          rw [this] at hout
          exact (Option.some.inj hout).symm
        refine ⟨o.map (fun i => U.flatten.getD i []), s2, ?_, ?_, ?_⟩
        · refine s3.imp ?_
          intro f g hfg x y hx hy
          rw [← hbest f x hx, ← hbest g y hy]
          exact hfg
        · rw [hout', List.length_map, List.length_map, List.length_take,
            fillRow_length false N _ _ (hN'.1 _ (List.mem_of_getElem? hO'r))]
          omega
        · intro j hj
          have hne : o.map (fun n : Nat => (n : Int)) ≠ [] := by
            rcases hone _ (List.mem_of_getElem? hO'r) with h2 | h2
            · exact h2
            · omega
          rw [hout', List.getElem?_map, List.getElem?_map, take_fillRow_get k N (-1) _ hk hne j hj, List.getElem?_map,
            List.getElem?_map, List.length_map, List.length_map]
          cases o[min j (o.length - 1)]? with
          | none => rfl
          | some n => simp
  · rw [if_neg (fun h => hc (hcheck.mp h))]
    exact ⟨fun _ => rfl, fun h => absurd h.1 hc⟩

/-- The documentation promises that an utterance with fewer than `k` paths gets its last path repeated.  If every
utterance has fewer than `k` paths, `top_k` fails instead. -/
theorem top_k_fails_below_k (U : List (List (WordFsa W))) (N : Nat) (hN : IsLongest N U) (aux : Aux)
    (ha : AuxIs aux (arcWords U.flatten)) (hT : VecOk (U.flatten.map plain))
    (hn : (U.flatten.map plain).flatten.length ≤ intMax)
    (hfw : ∀ f ∈ U.flatten.map plain, ∀ a ∈ f.flatten, a.src < a.dst) (lp0 k : Nat) (ks : Shape) (kp : List Nat)
    (hU : U ≠ []) (hk : N < k) :
    topK lp0 k ⟨flat (U.flatten.map plain), aux, lay U, ks, kp⟩ = none := by
  refine (top_k_partial U N hN aux ha hT hn hfw lp0 k ks kp).1 ?_
  rintro ⟨_, h | h⟩
  · exact hU h
  · omega

/-- Two utterances with two paths and one path; the words are those of a tensor. -/
def topExample : List (List (WordFsa Int)) :=
  [[[[(⟨0, 1, 5, -3⟩, [7])], [(⟨1, 2, -1, 0⟩, [-1])], []], [[(⟨0, 1, 6, -1⟩, [8])], [(⟨1, 2, -1, 0⟩, [-1])], []]],
    [[[(⟨0, 1, 4, -2⟩, [9])], [(⟨1, 2, -1, 0⟩, [-1])], []]]]

def topExampleAux : Aux := .tensor [7, -1, 8, -1, 9, -1]

/-- The example meets the hypotheses: `top_k(2)` returns, `top_k(3)` does not. -/
theorem topExample_spec :
    (∃ R aux', topK 1 2 ⟨flat (topExample.flatten.map plain), topExampleAux, lay topExample, [], []⟩ =
        some ⟨flat (R.flatten.map plain), aux', lay R, [], []⟩ ∧ AuxIs aux' (arcWords R.flatten) ∧ R.length = 2 ∧
        ∀ (r : Nat) (u out : List (WordFsa Int)), topExample[r]? = some u → R[r]? = some out → TopOf 2 u out) ∧
    topK 1 3 ⟨flat (topExample.flatten.map plain), topExampleAux, lay topExample, [], []⟩ = none := by
  have hN : IsLongest 2 topExample := by
    constructor
    · intro L hL
      simp only [topExample, List.mem_cons, List.not_mem_nil, or_false] at hL
      rcases hL with rfl | rfl <;> simp
    · exact Or.inr ⟨_, List.mem_cons_self, rfl⟩
  have ha : AuxIs topExampleAux (arcWords topExample.flatten) := rfl
  have hT : VecOk (topExample.flatten.map plain) := by
    intro f hf
    simp only [topExample, plain, List.flatten_cons, List.flatten_nil, List.cons_append, List.nil_append, List.map_cons,
      List.map_nil, List.mem_cons, List.not_mem_nil, or_false] at hf
    rcases hf with rfl | rfl | rfl <;>
    · intro s row hs a hm
      have : s < 3 := by have := (List.getElem?_eq_some_iff.mp hs).1; simpa using this
      have : s = 0 ∨ s = 1 ∨ s = 2 := by omega
      rcases this with rfl | rfl | rfl <;> · simp at hs; subst hs; simp at hm; try (subst hm; simp)
  have hn : (topExample.flatten.map plain).flatten.length ≤ intMax := by decide
  have hfw : ∀ f ∈ topExample.flatten.map plain, ∀ a ∈ f.flatten, a.src < a.dst := by decide
  refine ⟨?_, top_k_fails_below_k topExample 2 hN topExampleAux ha hT hn hfw 1 3 [] [] (by simp [topExample]) (by omega)⟩
  exact (top_k_partial topExample 2 hN topExampleAux ha hT hn hfw 1 2 [] []).2
    ⟨Or.inl (by intro u hu; simp only [topExample, List.mem_cons, List.not_mem_nil, or_false] at hu; rcases hu with rfl | rfl <;> simp),
      Or.inr (le_refl _)⟩

end Nb
end Verif.Fsa
