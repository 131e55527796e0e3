import Verif.Fsa.Prune.Model
import Verif.Fsa.Connect.Paths
import Verif.Fsa.Pruned.Number
import Verif.Fsa.Random.Lemmas
import Mathlib.Tactic.Linarith
import Mathlib.Tactic.Choose
import Mathlib.Algebra.Order.BigOperators.Group.List

/-!
# Lemmas for `prune_on_arc_post`
-/

namespace Verif.Fsa.Pap
open Verif.Ragged Verif.Util Verif.Fsa.Bat Verif.Fsa.Sco Verif.Fsa.Top
variable {W X Y K : Type}

/-! ## Flags on the elements of nested lists -/

/-- The rows of flagged elements without the flags. -/
def bare (Q : List (List (X × Bool))) : List (List X) := Q.map (fun row => row.map Prod.fst)

/-- The elements with flag true, row by row. -/
def picked (Q : List (List (X × Bool))) : List (List X) := Q.map (fun row => (row.filter Prod.snd).map Prod.fst)

/-- The flags. -/
def flags (Q : List (List (X × Bool))) : List Bool := Q.flatten.map Prod.snd

theorem exists_flags (rows : List (List X)) : ∀ keep : List Bool, keep.length = rows.flatten.length →
    ∃ Q, bare Q = rows ∧ flags Q = keep := by
  induction rows with
  | nil => intro keep h; exact ⟨[], rfl, by simp [flags]; simpa using h⟩
  | cons row rows ih =>
    intro keep h
    rw [List.flatten_cons, List.length_append] at h
    obtain ⟨Q, h1, h2⟩ := ih (keep.drop row.length) (by rw [List.length_drop]; omega)
    refine ⟨row.zip (keep.take row.length) :: Q, ?_, ?_⟩
    · unfold bare at h1 ⊢
      rw [List.map_cons, h1, List.map_fst_zip]
      rw [List.length_take]; omega
    · unfold flags at h2 ⊢
      rw [List.flatten_cons, List.map_append, h2, List.map_snd_zip, List.take_append_drop]
      rw [List.length_take]; omega

/-- Flags on the arcs of a vector of FSAs. -/
theorem exists_flags_vec (T : List (List (List X))) : ∀ keep : List Bool, keep.length = T.flatten.flatten.length →
    ∃ P : List (List (List (X × Bool))), P.map bare = T ∧ (P.map flags).flatten = keep := by
  induction T with
  | nil => intro keep h; exact ⟨[], rfl, by simp; simpa using h⟩
  | cons f T ih =>
    intro keep h
    rw [List.flatten_cons, List.flatten_append, List.length_append] at h
    obtain ⟨P, h1, h2⟩ := ih (keep.drop f.flatten.length) (by rw [List.length_drop]; omega)
    obtain ⟨Q, q1, q2⟩ := exists_flags f (keep.take f.flatten.length) (by rw [List.length_take]; omega)
    refine ⟨Q :: P, by rw [List.map_cons, h1, q1], ?_⟩
    rw [List.map_cons, List.flatten_cons, h2, q2, List.take_append_drop]

theorem flags_flatten (P : List (List (List (X × Bool)))) : flags P.flatten = (P.map flags).flatten := by
  induction P with
  | nil => rfl
  | cons Q P ih =>
    rw [List.flatten_cons, List.map_cons, List.flatten_cons, ← ih]
    simp [flags]

theorem bare_flatten (P : List (List (List (X × Bool)))) : bare P.flatten = (P.map bare).flatten := by
  simp only [bare]
  rw [List.map_flatten]
  rfl

theorem picked_flatten (P : List (List (List (X × Bool)))) : picked P.flatten = (P.map picked).flatten := by
  simp only [picked]
  rw [List.map_flatten]
  rfl

theorem bare_elems (Q : List (List (X × Bool))) : (bare Q).flatten = Q.flatten.map Prod.fst := by
  unfold bare; rw [List.map_flatten]

theorem picked_elems (Q : List (List (X × Bool))) : (picked Q).flatten = (Q.flatten.filter Prod.snd).map Prod.fst := by
  unfold picked
  rw [← flatten_filter, List.map_flatten, List.map_map]
  rfl

theorem picked_sel (Q : List (List (X × Bool))) : (picked Q).flatten = sel (flags Q) (bare Q).flatten := by
  rw [picked_elems, bare_elems, flags, ← sel_map, sel_filter]

theorem picked_length (Q : List (List (X × Bool))) : (picked Q).length = (bare Q).length := by
  simp [picked, bare]

theorem flags_length (Q : List (List (X × Bool))) : (flags Q).length = (bare Q).flatten.length := by
  rw [bare_elems, flags, List.length_map, List.length_map]

theorem picked_ids (Q : List (List (X × Bool))) (r : Nat) :
    sel (flags Q) (idsFrom r ((bare Q).map List.length)) = idsFrom r ((picked Q).map List.length) := by
  have e1 : (bare Q).map List.length = Q.map List.length := by
    unfold bare; rw [List.map_map]; apply List.map_congr_left; intro row _; simp
  have e2 : (picked Q).map List.length = (Q.map (List.filter Prod.snd)).map List.length := by
    unfold picked; rw [List.map_map, List.map_map]; apply List.map_congr_left; intro row _; simp
  rw [e1, e2]
  exact sel_ids Prod.snd Q r

/-! ## `Index` on the last axis -/

theorem indexLast_eq (P : List (List (List (Arc W × Bool)))) :
    indexLast (flat (P.map bare)) (sel (P.map flags).flatten (List.range (P.map flags).flatten.length)) =
      some (flat (P.map picked), sel (P.map flags).flatten (List.range (P.map flags).flatten.length)) := by
  have hl : (P.map flags).flatten.length = (P.map bare).flatten.flatten.length := by
    rw [← flags_flatten, ← bare_flatten, flags_length]
  have h1 := gather_sel (idsFrom 0 ((P.map bare).flatten.map List.length)) (P.map flags).flatten (by
    rw [hl, idsFrom_length, List.length_flatten])
  have h2 : (sel (P.map flags).flatten (List.range (P.map flags).flatten.length)).mapM
      (fun i => (P.map bare).flatten.flatten[i]?) = _ :=
    Verif.Fsa.Dp.gather_sel _ _ hl.symm
  rw [← flags_flatten, ← bare_flatten, picked_ids] at h1
  rw [← flags_flatten, ← bare_flatten, ← picked_sel] at h2
  have h3 := rowIdsToRowSplits_idsFrom ((picked P.flatten).map List.length)
  have e1 : P.map (List.length ∘ bare) = P.map (List.length ∘ picked) := by
    apply List.map_congr_left; intro Q _; simp [bare, picked]
  unfold indexLast
  simp only [flat, ← flags_flatten, ← bare_flatten, h1, h2, Option.bind_eq_bind, Option.bind_some]
  rw [show (psum ((bare P.flatten).map List.length)).length - 1 = ((picked P.flatten).map List.length).length by
    rw [psum_length, List.length_map, List.length_map, picked_length, Nat.add_sub_cancel], h3]
  simp only [Option.bind_some, ← picked_flatten, List.map_map, e1]

/-! ## The arc map -/

/-- The kept arcs of one FSA. -/
def arcMap (Q : List (List (X × Bool))) : List Nat := sel (flags Q) (List.range (flags Q).length)

theorem sel_range' (k : List Bool) (s : Nat) :
    sel k (List.range' s k.length) = (sel k (List.range k.length)).map (s + ·) := by
  rw [sel_map, List.range_eq_range', List.map_add_range', Nat.add_zero]

theorem arcMap_vec (P : List (List (List (X × Bool)))) : ∀ (r i : Nat) (Q : List (List (X × Bool))) (j : Nat),
    P[r]? = some Q → (arcMap Q)[i]? = some j →
      (sel (P.map flags).flatten (List.range (P.map flags).flatten.length))[base (P.map picked) r + i]? =
        some (base (P.map bare) r + j) := by
  induction P with
  | nil => intro r i Q j h; simp at h
  | cons Q0 P ih =>
    intro r i Q j h hj
    have e : sel (flags Q0 ++ (P.map flags).flatten)
        (List.range (flags Q0 ++ (P.map flags).flatten).length) =
        arcMap Q0 ++ (sel (P.map flags).flatten (List.range (P.map flags).flatten.length)).map
          ((flags Q0).length + ·) := by
      rw [List.length_append, List.range_add, sel_append _ _ _ _ (by simp), ← sel_map]
      rfl
    have hl : (arcMap Q0).length = (picked Q0).flatten.length := by
      rw [picked_sel, arcMap, sel_length_filter _ _ (by simp), sel_length_filter _ _ (flags_length Q0)]
    rw [List.map_cons, List.flatten_cons, e]
    cases r with
    | zero =>
      obtain rfl := Option.some.inj h
      have := (List.getElem?_eq_some_iff.mp hj).1
      simp only [base, List.take_zero, List.sum_nil, Nat.zero_add]
      rw [List.getElem?_append_left this, hj]
    | succ r =>
      have := ih r i Q j h hj
      simp only [base, List.map_cons, List.take_succ_cons, List.sum_cons] at this ⊢
      rw [List.getElem?_append_right (by omega), List.getElem?_map, hl,
        show ∀ a b : Nat, a + b + i - a = b + i by intros; omega, this]
      simp only [Option.map_some, flags_length, Nat.add_assoc]

theorem arcMap_mem (Q : List (List (X × Bool))) (j : Nat) : j ∈ arcMap Q ↔ (flags Q)[j]? = some true := by
  unfold arcMap
  rw [Verif.Fsa.Dp.mem_sel _ _ (by simp)]
  constructor
  · rintro ⟨w, h1, h2⟩
    rw [List.getElem?_range (List.getElem?_eq_some_iff.mp h1).1] at h2
    obtain rfl := Option.some.inj h2
    exact h1
  · intro h
    exact ⟨j, h, List.getElem?_range (List.getElem?_eq_some_iff.mp h).1⟩

theorem arcMap_get (Q : List (List (X × Bool))) (i j : Nat) (h : (arcMap Q)[i]? = some j) :
    (picked Q).flatten[i]? = (bare Q).flatten[j]? := by
  rw [picked_sel]
  exact sel_pos _ _ _ (flags_length Q).symm rfl i j h

theorem arcMap_length (Q : List (List (X × Bool))) : (arcMap Q).length = (picked Q).flatten.length := by
  rw [picked_sel, arcMap, sel_length_filter _ _ (by simp), sel_length_filter _ _ (flags_length Q)]

theorem arcMap_sorted (Q : List (List (X × Bool))) : (arcMap Q).Pairwise (· < ·) :=
  Verif.Fsa.Dp.sel_pairwise _ _ List.pairwise_lt_range

/-- The arcs `js` behind the arcs `is` of the pruned FSA. -/
def Behind (Q : List (List (X × Bool))) (is js : List Nat) : Prop :=
  is.map (fun i => (arcMap Q)[i]?) = js.map some

theorem behind_arcs (Q : List (List (X × Bool))) : ∀ is js, Behind Q is js →
    is.map (fun i => (picked Q).flatten[i]?) = js.map (fun j => (bare Q).flatten[j]?) := by
  intro is
  induction is with
  | nil => intro js h; cases js with
    | nil => rfl
    | cons j js => simp [Behind] at h
  | cons i is ih =>
    intro js h
    cases js with
    | nil => simp [Behind] at h
    | cons j js =>
      simp only [Behind, List.map_cons, List.cons.injEq] at h ⊢
      exact ⟨arcMap_get Q i j h.1, ih js h.2⟩

theorem behind_path (Q : List (List (Arc W × Bool))) (is js : List Nat) (h : Behind Q is js) (s t : Nat) :
    IPath (picked Q).flatten s is t ↔ IPath (bare Q).flatten s js t := by
  unfold IPath
  rw [behind_arcs Q is js h]

theorem behind_exists (Q : List (List (X × Bool))) (is : List Nat) (h : ∀ i ∈ is, i < (picked Q).flatten.length) :
    ∃ js, Behind Q is js := by
  induction is with
  | nil => exact ⟨[], rfl⟩
  | cons i is ih =>
    obtain ⟨js, hj⟩ := ih (fun x hx => h x (List.mem_cons_of_mem _ hx))
    have := h i (List.mem_cons_self ..)
    rw [← arcMap_length] at this
    exact ⟨(arcMap Q)[i] :: js, by simp only [Behind, List.map_cons] at hj ⊢; rw [hj, List.getElem?_eq_getElem this]⟩

theorem behind_kept (Q : List (List (X × Bool))) (is js : List Nat) (h : Behind Q is js) :
    ∀ j ∈ js, j ∈ arcMap Q := by
  intro j hj
  have : some j ∈ is.map (fun i => (arcMap Q)[i]?) := by rw [h]; exact List.mem_map.mpr ⟨j, hj, rfl⟩
  obtain ⟨i, _, hi⟩ := List.mem_map.mp this
  exact List.mem_of_getElem? hi

theorem behind_of_kept (Q : List (List (X × Bool))) (js : List Nat) (h : ∀ j ∈ js, j ∈ arcMap Q) :
    ∃ is, Behind Q is js := by
  induction js with
  | nil => exact ⟨[], rfl⟩
  | cons j js ih =>
    obtain ⟨is, hi⟩ := ih (fun x hx => h x (List.mem_cons_of_mem _ hx))
    obtain ⟨i, hj⟩ := List.getElem?_of_mem (h j (List.mem_cons_self ..))
    exact ⟨i :: is, by simp only [Behind, List.map_cons] at hi ⊢; rw [hi, hj]⟩

theorem behind_inj (Q : List (List (X × Bool))) : ∀ (is is' js : List Nat), Behind Q is js → Behind Q is' js → is = is' := by
  intro is
  induction is with
  | nil =>
    intro is' js h h'
    cases js with
    | nil => cases is' with
      | nil => rfl
      | cons i is' => simp [Behind] at h'
    | cons j js => simp [Behind] at h
  | cons i is ih =>
    intro is' js h h'
    cases js with
    | nil => simp [Behind] at h
    | cons j js =>
      cases is' with
      | nil => simp [Behind] at h'
      | cons i' is' =>
        simp only [Behind, List.map_cons, List.cons.injEq] at h h'
        have hn : (arcMap Q).Nodup := (arcMap_sorted Q).imp (fun h => Nat.ne_of_lt h)
        have e : i = i' := by
          have h1 := (List.getElem?_eq_some_iff.mp h.1)
          have h2 := (List.getElem?_eq_some_iff.mp h'.1)
          obtain ⟨a, ha⟩ := h1
          obtain ⟨b, hb⟩ := h2
          exact (List.Nodup.getElem_inj_iff hn).mp (ha.trans hb.symm)
        rw [e, ih is' js h.2 h'.2]

theorem behind_fun (Q : List (List (X × Bool))) (is js js' : List Nat) (h : Behind Q is js) (h' : Behind Q is js') :
    js = js' := by
  have : js.map some = js'.map some := h.symm.trans h'
  exact List.map_injective_iff.mpr (Option.some_injective _) this

theorem behind_weight [CommSemiring K] (wt : W → K) (Q : List (List (Arc W × Bool))) (is js : List Nat)
    (h : Behind Q is js) : pathWeight wt (picked Q).flatten is = pathWeight wt (bare Q).flatten js := by
  have := congrArg (List.map (fun o : Option (Arc W) => o.elim 1 (fun a => wt a.score))) (behind_arcs Q is js h)
  rw [List.map_map, List.map_map] at this
  exact congrArg List.prod this

theorem ipath_lt (A : List (Arc W)) (is : List Nat) (s t : Nat) (h : IPath A s is t) : ∀ i ∈ is, i < A.length := by
  obtain ⟨p, _, hp⟩ := h
  intro i hi
  have : A[i]? ∈ p.map some := by rw [← hp]; exact List.mem_map.mpr ⟨i, hi, rfl⟩
  obtain ⟨a, _, ha⟩ := List.mem_map.mp this
  exact (List.getElem?_eq_some_iff.mp ha.symm).1

/-! ## The weight of the paths that are left -/

/-- The accepting paths of the pruned FSA are those along kept arcs. -/
theorem behind_perm (Q : List (List (Arc W × Bool))) (L L' : List (List Nat))
    (hL : L.Nodup) (hL2 : ∀ is, is ∈ L ↔ IAccepting (rowsFsa (bare Q)) is)
    (hL' : L'.Nodup) (hL2' : ∀ is, is ∈ L' ↔ IAccepting (rowsFsa (picked Q)) is) :
    ∃ g : List Nat → List Nat, (∀ is ∈ L', Behind Q is (g is)) ∧
      (L'.map g).Perm (L.filter (fun js => js.all (fun j => decide (j ∈ arcMap Q)))) := by
  classical
  have hex : ∀ is ∈ L', ∃ js, Behind Q is js := fun is hi =>
    behind_exists Q is (ipath_lt _ _ _ _ ((hL2' is).mp hi).2)
  choose! g hg using hex
  refine ⟨g, hg, ?_⟩
  rw [List.perm_ext_iff_of_nodup]
  · intro js
    rw [List.mem_map, List.mem_filter, hL2]
    constructor
    · rintro ⟨is, hi, rfl⟩
      have hb := hg is hi
      have ha := (hL2' is).mp hi
      refine ⟨⟨?_, (behind_path Q is _ hb _ _).mp ?_⟩, ?_⟩
      · have := ha.1
        simpa [rowsFsa, picked_length] using this
      · have := ha.2
        simpa [rowsFsa, Fsa.final, picked_length] using this
      · rw [List.all_eq_true]
        intro j hj
        exact decide_eq_true (behind_kept Q is _ hb j hj)
    · rintro ⟨ha, hk⟩
      rw [List.all_eq_true] at hk
      obtain ⟨is, hb⟩ := behind_of_kept Q js (fun j hj => of_decide_eq_true (hk j hj))
      have hi : is ∈ L' := by
        rw [hL2']
        refine ⟨?_, ?_⟩
        · have := ha.1
          simpa [rowsFsa, picked_length] using this
        · have := (behind_path Q is js hb _ _).mpr ha.2
          simpa [rowsFsa, Fsa.final, picked_length] using this
      exact ⟨is, hi, behind_fun Q is _ _ (hg is hi) hb⟩
  · rw [List.nodup_map_iff_inj_on hL']
    intro a ha b hb h
    have h1 := hg a ha
    rw [h] at h1
    exact behind_inj Q a b _ h1 (hg b hb)
  · exact hL.filter _

theorem sum_behind [CommSemiring K] (wt : W → K) (Q : List (List (Arc W × Bool))) (L L' : List (List Nat))
    (hL : L.Nodup) (hL2 : ∀ is, is ∈ L ↔ IAccepting (rowsFsa (bare Q)) is)
    (hL' : L'.Nodup) (hL2' : ∀ is, is ∈ L' ↔ IAccepting (rowsFsa (picked Q)) is) :
    (L'.map (pathWeight wt (picked Q).flatten)).sum =
      ((L.filter (fun js => js.all (fun j => decide (j ∈ arcMap Q)))).map (pathWeight wt (bare Q).flatten)).sum := by
  obtain ⟨g, hg, hp⟩ := behind_perm Q L L' hL hL2 hL' hL2'
  have e1 : L'.map (pathWeight wt (picked Q).flatten) = (L'.map g).map (pathWeight wt (bare Q).flatten) := by
    rw [List.map_map]
    apply List.map_congr_left
    intro is hi
    exact behind_weight wt Q is _ (hg is hi)
  rw [e1]
  exact (hp.map _).sum_eq

theorem perm_behind (P : List (List (List (Arc W × Bool)))) (r : Nat) (Q : List (List (Arc W × Bool)))
    (hQ : P[r]? = some Q) (L L' : List (List Nat))
    (hL : L.Nodup) (hL2 : ∀ is, is ∈ L ↔ IAccepting (rowsFsa (bare Q)) is)
    (hL' : L'.Nodup) (hL2' : ∀ is, is ∈ L' ↔ IAccepting (rowsFsa (picked Q)) is) :
    (L'.map (fun is => is.map (fun i =>
      (sel (P.map flags).flatten (List.range (P.map flags).flatten.length))[base (P.map picked) r + i]?))).Perm
      ((L.filter (fun js => js.all (fun j => decide (j ∈ arcMap Q)))).map
        (fun js => js.map (fun j => some (base (P.map bare) r + j)))) := by
  obtain ⟨g, hg, hp⟩ := behind_perm Q L L' hL hL2 hL' hL2'
  have e1 : L'.map (fun is => is.map (fun i =>
      (sel (P.map flags).flatten (List.range (P.map flags).flatten.length))[base (P.map picked) r + i]?)) =
      (L'.map g).map (fun js => js.map (fun j => some (base (P.map bare) r + j))) := by
    rw [List.map_map]
    apply List.map_congr_left
    intro is hi
    have key : ∀ is js, Behind Q is js → is.map (fun i =>
        (sel (P.map flags).flatten (List.range (P.map flags).flatten.length))[base (P.map picked) r + i]?) =
        js.map (fun j => some (base (P.map bare) r + j)) := by
      intro is
      induction is with
      | nil => intro js h; cases js with
        | nil => rfl
        | cons j js => simp [Behind] at h
      | cons i is ih =>
        intro js h
        cases js with
        | nil => simp [Behind] at h
        | cons j js =>
          simp only [Behind, List.map_cons, List.cons.injEq] at h ⊢
          exact ⟨arcMap_vec P r i Q j hQ h.1, ih js h.2⟩
    exact key is _ (hg is hi)
  rw [e1]
  exact hp.map _

theorem keep_get (P : List (List (List (X × Bool)))) : ∀ (r j : Nat) (Q : List (List (X × Bool))),
    P[r]? = some Q → j < (flags Q).length →
      (P.map flags).flatten[base (P.map bare) r + j]? = (flags Q)[j]? := by
  induction P with
  | nil => intro r j Q h; simp at h
  | cons Q0 P ih =>
    intro r j Q h hj
    rw [List.map_cons, List.flatten_cons]
    cases r with
    | zero =>
      obtain rfl := Option.some.inj h
      simp only [base, List.take_zero, List.sum_nil, Nat.zero_add]
      rw [List.getElem?_append_left hj]
    | succ r =>
      have := ih r j Q h hj
      simp only [base, List.map_cons, List.take_succ_cons, List.sum_cons] at this ⊢
      rw [List.getElem?_append_right (by rw [flags_length]; omega), flags_length,
        show ∀ a b : Nat, a + b + j - a = b + j by intros; omega, this]

theorem map_of_mapM (f : X → Option Y) : ∀ (l : List X) (l' : List Y), l.mapM f = some l' → l.map f = l'.map some := by
  intro l l' h
  obtain ⟨h1, h2⟩ := mapM_get h
  apply List.ext_getElem?
  intro i
  rw [List.getElem?_map, List.getElem?_map]
  cases hi : l[i]? with
  | none =>
    have : l'[i]? = none := List.getElem?_eq_none (by rw [h1]; exact List.getElem?_eq_none_iff.mp hi)
    rw [this]; rfl
  | some x =>
    have h3 := h2 i x hi
    have hlt : i < l'.length := by rw [h1]; exact (List.getElem?_eq_some_iff.mp hi).1
    rw [List.getElem?_eq_getElem hlt] at h3 ⊢
    rw [Option.map_some, Option.map_some, h3]

section
variable [Field K] [LinearOrder K] [IsStrictOrderedRing K]

/-- The union bound: what is lost weighs at most as much as the paths through the arcs of `R`. -/
theorem union_bound (L : List (List Nat)) (w : List Nat → K) (hw : ∀ is, 0 ≤ w is) (keep : Nat → Bool) (R : List Nat)
    (hR : ∀ is ∈ L, ∀ j ∈ is, keep j = false → j ∈ R) :
    (L.map w).sum ≤ ((L.filter (fun is => is.all keep)).map w).sum +
      (R.map (fun j => ((L.filter (fun is => decide (j ∈ is))).map w).sum)).sum := by
  induction L with
  | nil =>
    simp
  | cons is L ih =>
    have ih' := ih (fun x hx => hR x (List.mem_cons_of_mem _ hx))
    have h0 : (R.map (fun j => (((is :: L).filter (fun is => decide (j ∈ is))).map w).sum)).sum =
        (R.map (fun j => if j ∈ is then w is else 0)).sum +
          (R.map (fun j => ((L.filter (fun is => decide (j ∈ is))).map w).sum)).sum := by
      rw [← List.sum_map_add]
      congr 1
      apply List.map_congr_left
      intro j _
      rw [List.filter_cons]
      by_cases h : j ∈ is <;> simp [h]
    have h1 : ∀ l : List Nat, 0 ≤ (l.map (fun j => if j ∈ is then w is else 0)).sum := by
      intro l
      apply List.sum_nonneg
      intro x hx
      obtain ⟨j, _, rfl⟩ := List.mem_map.mp hx
      split
      · exact hw is
      · exact le_refl _
    rw [h0, List.filter_cons, List.map_cons, List.sum_cons]
    by_cases h : is.all keep = true
    · rw [if_pos h, List.map_cons, List.sum_cons]
      have := h1 R
      linarith
    · rw [if_neg h]
      have : w is ≤ (R.map (fun j => if j ∈ is then w is else 0)).sum := by
        simp only [List.all_eq_true, not_forall, Bool.not_eq_true] at h
        obtain ⟨j, hj, hk⟩ := h
        have hm := hR is (List.mem_cons_self ..) j hj hk
        have hle := List.single_le_sum (l := R.map (fun j => if j ∈ is then w is else 0)) (by
          intro x hx
          obtain ⟨j, _, rfl⟩ := List.mem_map.mp hx
          split
          · exact hw is
          · exact le_refl _) (w is) (List.mem_map.mpr ⟨j, hm, by rw [if_pos hj]⟩)
        exact hle
      linarith
end

end Verif.Fsa.Pap
