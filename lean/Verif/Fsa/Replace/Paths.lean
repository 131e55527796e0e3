import Verif.Fsa.Replace.Lemmas
import Mathlib.Algebra.BigOperators.Group.List.Basic

/-! Paths of the result of `ReplaceFsa`. -/

namespace Verif.Fsa.Repl
open Verif.Util Verif.Fsa.Det
variable {W : Type}

/-- What `ReplaceFsa` needs: `index` is valid, the FSAs that are put in are valid, and the label of
final arcs is not replaced. -/
structure Ok (src : List (Fsa W)) (b : Int) (f : Fsa W) : Prop where
  valid : f.Valid
  used : ∀ a ∈ f.arcs, ∀ i g, source src b a.label = some (i, g) → g.Valid
  final : source src b (-1) = none

/-- The entries of `arc_map_src` along a path, without the entries -1. -/
def srcs (q : List (Arc (W × Int × Int))) : List Nat :=
  q.filterMap fun x => if x.score.2.1 = -1 then none else some x.score.2.1.toNat

/-- The entries of `arc_map_index` along a path, without the entries -1. -/
def idxs (q : List (Arc (W × Int × Int))) : List Nat :=
  q.filterMap fun x => if x.score.2.2 = -1 then none else some x.score.2.2.toNat

theorem srcs_append (p q : List (Arc (W × Int × Int))) : srcs (p ++ q) = srcs p ++ srcs q := by
  simp [srcs]

theorem idxs_append (p q : List (Arc (W × Int × Int))) : idxs (p ++ q) = idxs p ++ idxs q := by
  simp [idxs]

theorem tag_nat (n : Nat) {x : Int} (h : x = (n : Int)) :
    (if x = -1 then none else some x.toNat) = some n := by
  subst h
  rw [if_neg (by omega), Int.toNat_natCast]

section
variable (src : List (Fsa W)) (b : Int) (o : Nat) (f : Fsa W)

theorem indexArc_tags (pos s k : Nat) (a : Arc W) :
    (indexArc src b o f pos s k a).score = (a.score, -1, ((o + splits f.rows s + k : Nat) : Int)) := by
  unfold indexArc
  split <;> rfl

theorem srcs_index (pos s k : Nat) (a : Arc W) (q : List (Arc (W × Int × Int))) :
    srcs (indexArc src b o f pos s k a :: q) = srcs q := by
  simp [srcs, indexArc_tags]

theorem idxs_index (pos s k : Nat) (a : Arc W) (q : List (Arc (W × Int × Int))) :
    idxs (indexArc src b o f pos s k a :: q) = (o + splits f.rows s + k) :: idxs q := by
  unfold idxs
  rw [List.filterMap_cons_some (b := o + splits f.rows s + k)]
  exact tag_nat _ (by rw [indexArc_tags])

theorem srcs_src (pos j : Nat) (a : Arc W) (i : Nat) (g : Fsa W) (m : Nat) (c : Arc W)
    (q : List (Arc (W × Int × Int))) :
    srcs (srcArc src b f pos j a i g m c :: q) =
      (arcsBefore src i + (splits g.rows j + m)) :: srcs q := by
  unfold srcs
  rw [List.filterMap_cons_some (b := arcsBefore src i + (splits g.rows j + m))]
  exact tag_nat _ (by rw [← arcsBefore_eq, ← Nat.add_assoc]; rfl)

theorem idxs_src (pos j : Nat) (a : Arc W) (i : Nat) (g : Fsa W) (m : Nat) (c : Arc W)
    (q : List (Arc (W × Int × Int))) : idxs (srcArc src b f pos j a i g m c :: q) = idxs q := by
  simp [idxs, srcArc]

end

variable [AddMonoid W]

/-- The score of a path with arc maps. -/
def tscore (q : List (Arc (W × Int × Int))) : W := (q.map fun x => x.score.1).sum

theorem tscore_append (p q : List (Arc (W × Int × Int))) : tscore (p ++ q) = tscore p + tscore q := by
  simp [tscore]

theorem tscore_cons (x : Arc (W × Int × Int)) (q : List (Arc (W × Int × Int))) :
    tscore (x :: q) = x.score.1 + tscore q := by
  simp [tscore]

variable {src : List (Fsa W)} {b : Int} {o : Nat} {f : Fsa W}

/-- A path that starts inside a copy of an FSA leaves it through the final state. -/
theorem sound_mid (h : Ok src b f) {s k i : Nat} {a : Arc W} {g : Fsa W} (hs : s < f.numStates)
    (hk : (row f s)[k]? = some a) (hg : source src b a.label = some (i, g)) (hgv : g.Valid)
    (q : List (Arc (W × Int × Int))) :
    ∀ j, j < g.numStates - 1 → (∀ x ∈ q, x ∈ (replaceTagged src b o f).arcs) →
      Chain (midNum src b f s k j) q (origNum src b f f.final) →
      ∃ q1 q2 js c x, q = q1 ++ q2 ∧ idxs q1 = [] ∧ srcs q1 = js.map (fun j => arcsBefore src i + j) ∧
        Names g.arcs js c ∧ Chain j c g.final ∧ labels c = x ++ [-1] ∧ labels q1 = x ++ [0] ∧
        tscore q1 = score c ∧ Chain (origNum src b f a.dst) q2 (origNum src b f f.final) := by
  have hfin : f.final < f.numStates := by have := h.valid.two; simp only [Fsa.final]; omega
  induction q with
  | nil =>
    intro j hj _ hc
    exact absurd hc (mid_ne_orig src b f s k j _ a hs hk (by simp only [midLen, hg]; exact hj) hfin)
  | cons x q ih =>
    intro j hj hm hc
    obtain ⟨hc1, hc2⟩ := hc
    obtain ⟨n, hn⟩ := List.mem_iff_getElem?.1 (hm x (by simp))
    obtain ⟨m, c, h1, rfl, _⟩ := (from_mid src b f o s k j a i g hs hk hg hj n x).1 ⟨hn, hc1⟩
    obtain ⟨e1, e2⟩ := row_arc hgv (by omega) h1
    by_cases hl : c.label = -1
    · refine ⟨[srcArc src b f (midNum src b f s k j) j a i g m c], q, [splits g.rows j + m], [c], [],
        by simp, ?_, ?_, Names.single e1, ?_, by simp [labels, hl], by simp [labels, srcArc, hl], ?_, ?_⟩
      · rw [idxs_src]; rfl
      · rw [srcs_src]; rfl
      · exact ⟨e2, (hgv.final_iff c (List.mem_of_getElem? e1)).1 hl⟩
      · simp [tscore, score, srcArc]
      · simpa [srcArc, hl] using hc2
    · have hd : c.dst < g.numStates - 1 := by
        have d1 := hgv.dst_lt c (List.mem_of_getElem? e1)
        have d2 : c.dst ≠ g.final := fun hh => hl ((hgv.final_iff c (List.mem_of_getElem? e1)).2 hh)
        simp only [Fsa.final] at d2
        omega
      have hc3 : Chain (midNum src b f s k c.dst) q (origNum src b f f.final) := by
        simpa [srcArc, hl, midNum_sub] using hc2
      obtain ⟨q1, q2, js, c', y, r1, r2, r3, r4, r5, r6, r7, r8, r9⟩ :=
        ih c.dst hd (fun x hx => hm x (by simp [hx])) hc3
      refine ⟨srcArc src b f (midNum src b f s k j) j a i g m c :: q1, q2,
        (splits g.rows j + m) :: js, c :: c', c.label :: y, by simp [r1], ?_, ?_,
        (Names.single e1).append r4, ⟨e2, r5⟩, ?_, ?_, ?_, r9⟩
      · rw [idxs_src, r2]
      · rw [srcs_src, r3]; rfl
      · simp only [labels, List.map_cons, List.cons_append, List.cons.injEq, true_and]; exact r6
      · have : (srcArc src b f (midNum src b f s k j) j a i g m c).label = c.label := by
          simp [srcArc, hl]
        simp only [labels, List.map_cons, List.cons_append, List.cons.injEq, this, true_and]; exact r7
      · rw [tscore_cons, r8]; simp [score, srcArc]

/-- A path from an old state is a substitution. -/
theorem sound_orig (h : Ok src b f) (n : Nat) :
    ∀ (q : List (Arc (W × Int × Int))) (s : Nat), q.length ≤ n → s < f.numStates →
      (∀ x ∈ q, x ∈ (replaceTagged src b o f).arcs) →
      Chain (origNum src b f s) q (origNum src b f f.final) →
      ∃ is p ls, idxs q = is.map (fun k => o + k) ∧ Names f.arcs is p ∧ Chain s p f.final ∧
        Subst src b f is (srcs q) ls (tscore q) ∧ noEps (labels q) = noEps ls := by
  have hfin : f.final < f.numStates := by have := h.valid.two; simp only [Fsa.final]; omega
  induction n with
  | zero =>
    intro q s hq hs hm hc
    have : q = [] := List.length_eq_zero_iff.1 (by omega)
    subst this
    exact ⟨[], [], [], rfl, Names.nil _, origNum_inj src b f _ _ hs hfin hc, Subst.nil, rfl⟩
  | succ n ih =>
    intro q s hq hs hm hc
    cases q with
    | nil => exact ⟨[], [], [], rfl, Names.nil _, origNum_inj src b f _ _ hs hfin hc, Subst.nil, rfl⟩
    | cons x q =>
      obtain ⟨hc1, hc2⟩ := hc
      obtain ⟨nn, hn⟩ := List.mem_iff_getElem?.1 (hm x (by simp))
      obtain ⟨k, a, h1, rfl, _⟩ := (from_orig src b f o s hs nn x).1 ⟨hn, hc1⟩
      obtain ⟨e1, e2⟩ := row_arc h.valid hs h1
      have ha := List.mem_of_getElem? e1
      have hm2 : ∀ x ∈ q, x ∈ (replaceTagged src b o f).arcs := fun x hx => hm x (by simp [hx])
      have hq2 : q.length ≤ n := by simp at hq; omega
      cases hg : source src b a.label with
      | none =>
        have hx : indexArc src b o f (origNum src b f s) s k a =
            ⟨origNum src b f s, origNum src b f a.dst, a.label,
              (a.score, -1, ((o + splits f.rows s + k : Nat) : Int))⟩ := by
          unfold indexArc; rw [hg]
        have hc3 : Chain (origNum src b f a.dst) q (origNum src b f f.final) := by
          rw [hx] at hc2; exact hc2
        obtain ⟨is, p, ls, r1, r2, r3, r4, r5⟩ := ih q a.dst hq2 (h.valid.dst_lt a ha) hm2 hc3
        refine ⟨(splits f.rows s + k) :: is, a :: p, a.label :: ls, ?_, (Names.single e1).append r2,
          ⟨e2, r3⟩, ?_, ?_⟩
        · rw [idxs_index, r1, List.map_cons, Nat.add_assoc]
        · rw [srcs_index, tscore_cons, indexArc_tags]
          exact Subst.copy e1 (source_none.1 hg) r4
        · simp only [labels, List.map_cons] at r5 ⊢
          rw [hx]
          simp only [noEps, List.filter_cons] at r5 ⊢
          rw [r5]
      | some ig =>
        obtain ⟨i, g⟩ := ig
        have hgv := h.used a ha i g hg
        have h2 := hgv.two
        have hx : indexArc src b o f (origNum src b f s) s k a =
            ⟨origNum src b f s, midNum src b f s k 0, 0,
              (a.score, -1, ((o + splits f.rows s + k : Nat) : Int))⟩ := by
          unfold indexArc; rw [hg]
          simp only [← bias_eq]
          rw [if_neg (by omega)]
        have hc3 : Chain (midNum src b f s k 0) q (origNum src b f f.final) := by
          rw [hx] at hc2; exact hc2
        obtain ⟨q1, q2, js, c, y, t1, t2, t3, t4, t5, t6, t7, t8, t9⟩ :=
          sound_mid h hs h1 hg hgv q 0 (by omega) hm2 hc3
        subst t1
        obtain ⟨is, p, ls, r1, r2, r3, r4, r5⟩ := ih q2 a.dst
          (by simp at hq2; omega) (h.valid.dst_lt a ha) (fun x hx => hm2 x (by simp [hx])) t9
        obtain ⟨u1, u2⟩ := source_some.1 hg
        refine ⟨(splits f.rows s + k) :: is, a :: p, y ++ ls, ?_, (Names.single e1).append r2,
          ⟨e2, r3⟩, ?_, ?_⟩
        · rw [idxs_index, idxs_append, t2, List.nil_append, r1, List.map_cons, Nat.add_assoc]
        · rw [srcs_index, srcs_append, t3, tscore_cons, tscore_append, t8, indexArc_tags]
          exact Subst.replace e1 u1 u2 t4 ⟨h2, t5, t4.mem⟩ t6 r4
        · have e : labels (indexArc src b o f (origNum src b f s) s k a :: (q1 ++ q2)) =
              0 :: (labels q1 ++ labels q2) := by
            rw [hx]; simp [labels]
          rw [e, t7]
          unfold noEps at r5 ⊢
          simp [r5]

/-- Every path of an FSA that is put in has a copy. -/
theorem complete_mid {s k i : Nat} {a : Arc W} {g : Fsa W} (hs : s < f.numStates)
    (hk : (row f s)[k]? = some a) (hg : source src b a.label = some (i, g)) (hgv : g.Valid)
    (c : List (Arc W)) :
    ∀ (js : List Nat) (j : Nat) (x : List Int), j < g.numStates - 1 → Names g.arcs js c →
      Chain j c g.final → labels c = x ++ [-1] →
      ∃ ks q, Names (replaceTagged src b o f).arcs ks q ∧
        Chain (midNum src b f s k j) q (origNum src b f a.dst) ∧ idxs q = [] ∧
        srcs q = js.map (fun j => arcsBefore src i + j) ∧ labels q = x ++ [0] ∧ tscore q = score c := by
  induction c with
  | nil =>
    intro js j x _ _ _ hl
    simp [labels] at hl
  | cons d c ih =>
    intro js j x hj hn hc hl
    obtain ⟨hc1, hc2⟩ := hc
    cases js with
    | nil => simp [Names] at hn
    | cons n js =>
      simp only [Names, List.map_cons, List.cons.injEq] at hn
      obtain ⟨hn1, hn2⟩ := hn
      obtain ⟨hd, m, e1, e2⟩ := arc_row hgv hn1
      rw [hc1] at e1 e2
      have hmem := List.mem_of_getElem? hn1
      obtain ⟨g1, g2⟩ := (from_mid src b f o s k j a i g hs hk hg hj _ _).2 ⟨m, d, e1, rfl, rfl⟩
      by_cases hdl : d.label = -1
      · have hfin := (hgv.final_iff d hmem).1 hdl
        have hcn : c = [] := by
          cases c with
          | nil => rfl
          | cons e c =>
            cases js with
            | nil => simp at hn2
            | cons n2 js =>
              simp only [List.map_cons, List.cons.injEq] at hn2
              have := hgv.src_lt e (List.mem_of_getElem? hn2.1)
              have h3 := hc2.1
              omega
        subst hcn
        have hjs : js = [] := by simpa using hn2
        subst hjs
        have hxn : x = [] := by
          cases x with
          | nil => rfl
          | cons y x => simp [labels] at hl
        subst hxn
        refine ⟨_, [_], Names.single g1, ⟨g2, ?_⟩, ?_, ?_, ?_, ?_⟩
        · simp [srcArc, hdl]
        · rw [idxs_src]; rfl
        · rw [srcs_src, e2]; rfl
        · simp [labels, srcArc, hdl]
        · simp [tscore, score, srcArc]
      · have hne : d.dst ≠ g.final := fun hh => hdl ((hgv.final_iff d hmem).2 hh)
        have hdd := hgv.dst_lt d hmem
        cases x with
        | nil =>
          simp only [labels, List.map_cons, List.nil_append, List.cons.injEq] at hl
          exact absurd hl.1 hdl
        | cons y x =>
          simp only [labels, List.map_cons, List.cons_append, List.cons.injEq] at hl
          obtain ⟨hl1, hl2⟩ := hl
          obtain ⟨ks, q, r1, r2, r3, r4, r5, r6⟩ := ih js d.dst x
            (by simp only [Fsa.final] at hne; omega) hn2 hc2 hl2
          refine ⟨_, _ :: q, (Names.single g1).append r1, ⟨g2, ?_⟩, ?_, ?_, ?_, ?_⟩
          · simpa [srcArc, hdl, midNum_sub] using r2
          · rw [idxs_src, r3]
          · rw [srcs_src, r4, e2]; rfl
          · have : (srcArc src b f (midNum src b f s k j) j a i g m d).label = y := by
              rw [← hl1]; simp [srcArc, hdl]
            simp only [labels, List.map_cons, this, List.cons_append, List.cons.injEq, true_and]
            exact r5
          · rw [tscore_cons, r6]; simp [score, srcArc]

/-- Every substitution in a path of `index` is a path of the result. -/
theorem complete_orig (h : Ok src b f) {is ss : List Nat} {ls : List Int} {w : W}
    (hsub : Subst src b f is ss ls w) :
    ∀ (s t : Nat) (p : List (Arc W)), s < f.numStates → Names f.arcs is p → Chain s p t →
      ∃ ks q, Names (replaceTagged src b o f).arcs ks q ∧
        Chain (origNum src b f s) q (origNum src b f t) ∧ idxs q = is.map (fun k => o + k) ∧
        srcs q = ss ∧ tscore q = w ∧ noEps (labels q) = noEps ls := by
  induction hsub with
  | nil =>
    intro s t p hs hn hc
    have : p = [] := by simpa [Names] using hn.symm
    subst this
    have : s = t := hc
    subst this
    exact ⟨[], [], Names.nil _, rfl, rfl, rfl, rfl, rfl⟩
  | @copy k a is ss ls w h1 h2 _ ih =>
    intro s t p hs hn hc
    cases p with
    | nil => simp [Names] at hn
    | cons a' p =>
      simp only [Names, List.map_cons, List.cons.injEq, h1, Option.some.injEq] at hn
      obtain ⟨rfl, hn⟩ := hn
      obtain ⟨hc1, hc2⟩ := hc
      obtain ⟨hd, m, e1, e2⟩ := arc_row h.valid h1
      rw [hc1] at e1 e2
      obtain ⟨ks, q, r1, r2, r3, r4, r5, r6⟩ :=
        ih a.dst t p (h.valid.dst_lt a (List.mem_of_getElem? h1)) hn hc2
      obtain ⟨g1, g2⟩ := (from_orig src b f o s hs _ _).2 ⟨m, a, e1, rfl, rfl⟩
      have hx : indexArc src b o f (origNum src b f s) s m a =
            ⟨origNum src b f s, origNum src b f a.dst, a.label,
              (a.score, -1, ((o + splits f.rows s + m : Nat) : Int))⟩ := by
          unfold indexArc; rw [source_none.2 h2]
      refine ⟨_, _ :: q, (Names.single g1).append r1, ⟨g2, ?_⟩, ?_, ?_, ?_, ?_⟩
      · rw [hx]; exact r2
      · rw [idxs_index, r3, List.map_cons, e2, Nat.add_assoc]
      · rw [srcs_index, r4]
      · rw [tscore_cons, r5, indexArc_tags]
      · simp only [labels, List.map_cons] at r6 ⊢
        rw [hx]
        simp only [noEps, List.filter_cons] at r6 ⊢
        rw [r6]
  | @replace k i a g js is ss c x ls w h1 h2 h3 h4 h5 h6 _ ih =>
    intro s t p hs hn hc
    cases p with
    | nil => simp [Names] at hn
    | cons a' p =>
      simp only [Names, List.map_cons, List.cons.injEq, h1, Option.some.injEq] at hn
      obtain ⟨rfl, hn⟩ := hn
      obtain ⟨hc1, hc2⟩ := hc
      obtain ⟨hd, m, e1, e2⟩ := arc_row h.valid h1
      rw [hc1] at e1 e2
      have ha := List.mem_of_getElem? h1
      have hg : source src b a.label = some (i, g) := source_some.2 ⟨h2, h3⟩
      have hgv := h.used a ha i g hg
      have h22 := hgv.two
      obtain ⟨ks, q, r1, r2, r3, r4, r5, r6⟩ := ih a.dst t p (h.valid.dst_lt a ha) hn hc2
      obtain ⟨ks1, q1, t1, t2, t3, t4, t5, t6⟩ :=
        complete_mid (o := o) hs e1 hg hgv c js 0 x (by omega) h4 h5.2.1 h6
      obtain ⟨g1, g2⟩ := (from_orig src b f o s hs _ _).2 ⟨m, a, e1, rfl, rfl⟩
      have hx : indexArc src b o f (origNum src b f s) s m a =
            ⟨origNum src b f s, midNum src b f s m 0, 0,
              (a.score, -1, ((o + splits f.rows s + m : Nat) : Int))⟩ := by
          unfold indexArc; rw [hg]
          simp only [← bias_eq]
          rw [if_neg (by omega)]
      refine ⟨_, _ :: (q1 ++ q), (Names.single g1).append (t1.append r1), ⟨g2, ?_⟩, ?_, ?_, ?_, ?_⟩
      · rw [hx]
        exact (chain_append _ _ _ _).2 ⟨_, t2, r2⟩
      · rw [idxs_index, idxs_append, t3, List.nil_append, r3, List.map_cons, e2, Nat.add_assoc]
      · rw [srcs_index, srcs_append, t4, r4]
      · rw [tscore_cons, tscore_append, r5, t6, indexArc_tags]
      · have e : labels (indexArc src b o f (origNum src b f s) s m a :: (q1 ++ q)) =
            0 :: (labels q1 ++ labels q) := by
          rw [hx]; simp [labels]
        rw [e, t5]
        unfold noEps at r6 ⊢
        simp [r6]

omit [AddMonoid W] in
/-- A path to the final state is determined by its first state and the arc maps along it. -/
theorem unique_path (h : Ok src b f) (q : List (Arc (W × Int × Int))) :
    ∀ (ks ks' : List Nat) (q' : List (Arc (W × Int × Int))) (pos : Nat),
      Names (replaceTagged src b o f).arcs ks q → Names (replaceTagged src b o f).arcs ks' q' →
      Chain pos q (origNum src b f f.final) → Chain pos q' (origNum src b f f.final) →
      idxs q = idxs q' → srcs q = srcs q' → ks = ks' := by
  have hfin : f.final < f.numStates := by have := h.valid.two; simp only [Fsa.final]; omega
  have hno : ∀ (n : Nat) (x : Arc (W × Int × Int)), (replaceTagged src b o f).arcs[n]? = some x →
      x.src ≠ origNum src b f f.final := by
    intro n x hn hx
    obtain ⟨k, a, h1, _⟩ := (from_orig src b f o _ hfin n x).1 ⟨hn, hx⟩
    obtain ⟨e1, e2⟩ := row_arc h.valid hfin h1
    have := h.valid.src_lt a (List.mem_of_getElem? e1)
    omega
  induction q with
  | nil =>
    intro ks ks' q' pos hn hn' hc hc' _ _
    have h1 : ks = [] := by simpa [Names] using hn
    cases q' with
    | nil =>
      have h2 : ks' = [] := by simpa [Names] using hn'
      rw [h1, h2]
    | cons x q' =>
      exfalso
      cases ks' with
      | nil => simp [Names] at hn'
      | cons n ks' =>
        simp only [Names, List.map_cons, List.cons.injEq] at hn'
        have e : pos = _ := hc
        exact hno n x hn'.1 (by rw [hc'.1, e])
  | cons x q ih =>
    intro ks ks' q' pos hn hn' hc hc' hi hs
    cases ks with
    | nil => simp [Names] at hn
    | cons n ks =>
    simp only [Names, List.map_cons, List.cons.injEq] at hn
    obtain ⟨hn1, hn2⟩ := hn
    cases q' with
    | nil =>
      exfalso
      have e : pos = _ := hc'
      exact hno n x hn1 (by rw [hc.1, e])
    | cons x' q' =>
    cases ks' with
    | nil => simp [Names] at hn'
    | cons n' ks' =>
    simp only [Names, List.map_cons, List.cons.injEq] at hn'
    obtain ⟨hn1', hn2'⟩ := hn'
    obtain ⟨c1, c2⟩ := hc
    obtain ⟨c1', c2'⟩ := hc'
    obtain ⟨pos', os, m, t1, t2, t3⟩ := (tagged_get src b f o n x).1 hn1
    have : pos' = pos := by
      rw [← c1]; exact (oarcsOf_src src b f o _ _ _ (List.mem_of_getElem? t2)).symm
    subst this
    have hstep : n = n' ∧ x = x' ∧ idxs q = idxs q' ∧ srcs q = srcs q' := by
      rcases ostates_cases src b f pos' os t1 with ⟨s, hs1, rfl, rfl⟩ | ⟨s, k, j, a, hs1, hk, hj, rfl, rfl⟩
      · obtain ⟨k, a, e1, rfl, e3⟩ := (from_orig src b f o s hs1 n x).1 ⟨hn1, c1⟩
        obtain ⟨k', a', e1', rfl, e3'⟩ := (from_orig src b f o s hs1 n' x').1 ⟨hn1', c1'⟩
        rw [idxs_index, idxs_index] at hi
        rw [srcs_index, srcs_index] at hs
        simp only [List.cons.injEq] at hi
        have hkk : k = k' := by omega
        subst hkk
        rw [e1] at e1'
        obtain rfl := Option.some.inj e1'
        exact ⟨by omega, rfl, hi.2, hs⟩
      · have hgs : ∃ i g, source src b a.label = some (i, g) ∧ j < g.numStates - 1 := by
          unfold midLen at hj
          cases hg : source src b a.label with
          | none => rw [hg] at hj; exact absurd hj (Nat.not_lt_zero _)
          | some ig => rw [hg] at hj; exact ⟨ig.1, ig.2, rfl, hj⟩
        obtain ⟨i, g, hg, hj2⟩ := hgs
        obtain ⟨m1, d, e1, rfl, e3⟩ := (from_mid src b f o s k j a i g hs1 hk hg hj2 n x).1 ⟨hn1, c1⟩
        obtain ⟨m1', d', e1', rfl, e3'⟩ :=
          (from_mid src b f o s k j a i g hs1 hk hg hj2 n' x').1 ⟨hn1', c1'⟩
        rw [srcs_src, srcs_src] at hs
        rw [idxs_src, idxs_src] at hi
        simp only [List.cons.injEq] at hs
        have hmm : m1 = m1' := by omega
        subst hmm
        rw [e1] at e1'
        obtain rfl := Option.some.inj e1'
        exact ⟨by omega, rfl, hi, hs.2⟩
    obtain ⟨rfl, rfl, hi2, hs2⟩ := hstep
    rw [ih ks ks' q' x.dst hn2 hn2' c2 c2' hi2 hs2]

end Verif.Fsa.Repl
