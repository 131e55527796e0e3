import Verif.Fsa.Replace.Paths

/-! `ReplaceFsa` is substitution. -/

namespace Verif.Fsa.Repl
open Verif.Util Verif.Fsa.Det
variable {W : Type}

theorem replace_src (src : List (Fsa W)) (b : Int) (o : Nat) (f : Fsa W) :
    (replaceTagged src b o f).Sorted := by
  have key : ∀ (L : List OState) (F : Nat → OState → List (Arc (W × Int × Int))) (n : Nat),
      (∀ (pos : Nat) (os : OState), ∀ x ∈ F pos os, x.src = n + pos) →
      (L.mapIdx F).flatten.Pairwise (fun a b => a.src ≤ b.src) ∧
        ∀ x ∈ (L.mapIdx F).flatten, n ≤ x.src := by
    intro L
    induction L with
    | nil => intro F n _; simp
    | cons os L ih =>
      intro F n hF
      obtain ⟨i1, i2⟩ := ih (fun i => F (i + 1)) (n + 1) (fun pos os x hx => by
        rw [hF _ _ x hx]; omega)
      rw [List.mapIdx_cons, List.flatten_cons]
      refine ⟨List.pairwise_append.2 ⟨?_, i1, ?_⟩, ?_⟩
      · apply List.pairwise_iff_forall_sublist.2
        intro x y hxy
        have hx := hF 0 os x (hxy.subset (by simp))
        have hy := hF 0 os y (hxy.subset (by simp))
        omega
      · intro x hx y hy
        have hx := hF 0 os x hx
        have hy := i2 y hy
        omega
      · intro x hx
        rcases List.mem_append.1 hx with hx | hx
        · have := hF 0 os x hx; omega
        · have := i2 x hx; omega
  exact (key (ostates src b f) (oarcsOf src b o f) 0
    (fun pos os x hx => by rw [oarcsOf_src src b f o pos os x hx]; omega)).1

/-- Every arc of the result is a copy of an arc of `index` or of an arc of `src`. -/
theorem arc_cases {src : List (Fsa W)} {b : Int} {o : Nat} {f : Fsa W} (x : Arc (W × Int × Int))
    (hx : x ∈ (replaceTagged src b o f).arcs) :
    (∃ s k a, s < f.numStates ∧ (row f s)[k]? = some a ∧
      x = indexArc src b o f (origNum src b f s) s k a) ∨
    (∃ s k j a i g m c, s < f.numStates ∧ (row f s)[k]? = some a ∧
      source src b a.label = some (i, g) ∧ j < g.numStates - 1 ∧ (row g j)[m]? = some c ∧
      x = srcArc src b f (midNum src b f s k j) j a i g m c) := by
  obtain ⟨n, hn⟩ := List.mem_iff_getElem?.1 hx
  obtain ⟨pos, os, m, t1, t2, t3⟩ := (tagged_get src b f o n x).1 hn
  have hp := oarcsOf_src src b f o _ _ _ (List.mem_of_getElem? t2)
  rcases ostates_cases src b f pos os t1 with ⟨s, hs1, rfl, rfl⟩ | ⟨s, k, j, a, hs1, hk, hj, rfl, rfl⟩
  · obtain ⟨k, a, e1, e2, _⟩ := (from_orig src b f o s hs1 n x).1 ⟨hn, hp⟩
    exact Or.inl ⟨s, k, a, hs1, e1, e2⟩
  · have hgs : ∃ i g, source src b a.label = some (i, g) ∧ j < g.numStates - 1 := by
      unfold midLen at hj
      cases hg : source src b a.label with
      | none => rw [hg] at hj; exact absurd hj (Nat.not_lt_zero _)
      | some ig => rw [hg] at hj; exact ⟨ig.1, ig.2, rfl, hj⟩
    obtain ⟨i, g, hg, hj2⟩ := hgs
    obtain ⟨m1, d, e1, e2, _⟩ := (from_mid src b f o s k j a i g hs1 hk hg hj2 n x).1 ⟨hn, hp⟩
    exact Or.inr ⟨s, k, j, a, i, g, m1, d, hs1, hk, hg, hj2, e1, e2⟩

theorem tagged_valid {src : List (Fsa W)} {b : Int} {f : Fsa W} (h : Ok src b f) (o : Nat) :
    (replaceTagged src b o f).Valid := by
  have h2 := h.valid.two
  obtain ⟨l1, l2⟩ := replace_final h.valid src b
  have hfin : f.final < f.numStates := by simp only [Fsa.final]; omega
  have hF : (replaceTagged src b o f).final = origNum src b f f.final := by
    unfold Fsa.final replaceTagged
    dsimp only
    simp only [Fsa.final] at l1
    omega
  have hN : (replaceTagged src b o f).numStates = origNum src b f f.final + 1 := l1
  have lt_of : ∀ pos os, (ostates src b f)[pos]? = some os → pos < (replaceTagged src b o f).numStates :=
    fun pos os hh => (List.getElem?_eq_some_iff.1 hh).1
  refine ⟨by omega, replace_src src b o f, ?_, ?_, ?_⟩
  · intro x hx
    rw [hF]
    rcases arc_cases x hx with ⟨s, k, a, hs, hk, rfl⟩ | ⟨s, k, j, a, i, g, m, c, hs, hk, hg, hj, hm, rfl⟩
    · obtain ⟨e1, e2⟩ := row_arc h.valid hs hk
      have h3 := h.valid.src_lt a (List.mem_of_getElem? e1)
      have e : (indexArc src b o f (origNum src b f s) s k a).src = origNum src b f s := by
        unfold indexArc; split <;> rfl
      rw [e]
      have h4 := lt_of _ _ (ostates_orig src b f s hs)
      have h5 : origNum src b f s ≠ origNum src b f f.final := fun hh => by
        have := origNum_inj src b f _ _ hs hfin hh; omega
      omega
    · have hj2 : j < midLen src b a := by simp only [midLen, hg]; exact hj
      have h4 := lt_of _ _ (ostates_mid src b f s k j a hs hk hj2)
      have h5 := mid_ne_orig src b f s k j _ a hs hk hj2 hfin
      change midNum src b f s k j < _
      omega
  · intro x hx
    rcases arc_cases x hx with ⟨s, k, a, hs, hk, rfl⟩ | ⟨s, k, j, a, i, g, m, c, hs, hk, hg, hj, hm, rfl⟩
    · obtain ⟨e1, e2⟩ := row_arc h.valid hs hk
      have ha := List.mem_of_getElem? e1
      have hd := lt_of _ _ (ostates_orig src b f _ (h.valid.dst_lt a ha))
      unfold indexArc
      cases hg : source src b a.label with
      | none => exact hd
      | some ig =>
        have hv := (h.used a ha ig.1 ig.2 hg).two
        dsimp only
        rw [if_neg (by omega), bias_eq]
        exact lt_of _ _ (ostates_mid src b f s k 0 a hs hk (by simp only [midLen, hg]; omega))
    · obtain ⟨e1, e2⟩ := row_arc h.valid hs hk
      have ha := List.mem_of_getElem? e1
      have hgv := h.used a ha i g hg
      obtain ⟨d1, d2⟩ := row_arc hgv (by omega) hm
      have hc := List.mem_of_getElem? d1
      unfold srcArc
      dsimp only
      split
      · exact lt_of _ _ (ostates_orig src b f _ (h.valid.dst_lt a ha))
      · rename_i hl
        rw [midNum_sub]
        have hne : c.dst ≠ g.final := fun hh => hl ((hgv.final_iff c hc).2 hh)
        have hdd := hgv.dst_lt c hc
        simp only [Fsa.final] at hne
        exact lt_of _ _ (ostates_mid src b f s k c.dst a hs hk (by simp only [midLen, hg]; omega))
  · intro x hx
    rw [hF]
    rcases arc_cases x hx with ⟨s, k, a, hs, hk, rfl⟩ | ⟨s, k, j, a, i, g, m, c, hs, hk, hg, hj, hm, rfl⟩
    · obtain ⟨e1, e2⟩ := row_arc h.valid hs hk
      have ha := List.mem_of_getElem? e1
      unfold indexArc
      cases hg : source src b a.label with
      | none =>
        dsimp only
        rw [h.valid.final_iff a ha]
        constructor
        · intro e; rw [e]
        · intro e; exact origNum_inj src b f _ _ (h.valid.dst_lt a ha) hfin e
      | some ig =>
        have hv := (h.used a ha ig.1 ig.2 hg).two
        dsimp only
        rw [if_neg (by omega), bias_eq]
        have := mid_ne_orig src b f s k 0 _ a hs hk (by simp only [midLen, hg]; omega) hfin
        constructor
        · intro e; simp at e
        · intro e; exact absurd e this
    · obtain ⟨e1, e2⟩ := row_arc h.valid hs hk
      have ha := List.mem_of_getElem? e1
      have hgv := h.used a ha i g hg
      obtain ⟨d1, d2⟩ := row_arc hgv (by omega) hm
      have hc := List.mem_of_getElem? d1
      unfold srcArc
      dsimp only
      by_cases hl : c.label = -1
      · rw [if_pos hl, if_pos hl]
        constructor
        · intro e; simp at e
        · intro e
          have e3 := origNum_inj src b f _ _ (h.valid.dst_lt a ha) hfin e
          have e4 := (h.valid.final_iff a ha).2 e3
          rw [e4, h.final] at hg
          simp at hg
      · rw [if_neg hl, if_neg hl, midNum_sub]
        have hne : c.dst ≠ g.final := fun hh => hl ((hgv.final_iff c hc).2 hh)
        have hdd := hgv.dst_lt c hc
        simp only [Fsa.final] at hne
        constructor
        · intro e; exact absurd e hl
        · intro e
          exact absurd e (mid_ne_orig src b f s k c.dst _ a hs hk (by simp only [midLen, hg]; omega) hfin)

theorem mapped_eq (A : List (Arc (W × Int × Int))) (t : Arc (W × Int × Int) → Int) (ks : List Nat)
    (q : List (Arc (W × Int × Int))) (h : Names A ks q) :
    mapped (A.map t) ks = q.filterMap (fun x => if t x = -1 then none else some (t x).toNat) := by
  induction ks generalizing q with
  | nil =>
    have : q = [] := by simpa [Names] using h.symm
    subst this; rfl
  | cons k ks ih =>
    cases q with
    | nil => simp [Names] at h
    | cons x q =>
      simp only [Names, List.map_cons, List.cons.injEq] at h
      have := ih q h.2
      unfold mapped at this ⊢
      rw [List.filterMap_cons, List.filterMap_cons, this, List.getElem?_map, h.1]
      rfl

theorem chain_untag (s t : Nat) (q : List (Arc (W × Int × Int))) :
    Chain s (q.map untag) t ↔ Chain s q t := by
  induction q generalizing s with
  | nil => rfl
  | cons x q ih => simp only [List.map_cons, chain_cons, ih]; rfl

theorem names_untag (A : List (Arc (W × Int × Int))) (ks : List Nat) (q : List (Arc W)) :
    ks.map (fun k => (A.map untag)[k]?) = q.map some ↔ ∃ q', Names A ks q' ∧ q = q'.map untag := by
  induction ks generalizing q with
  | nil =>
    constructor
    · intro h
      have : q = [] := by simpa using h.symm
      subst this
      exact ⟨[], rfl, rfl⟩
    · rintro ⟨q', h1, rfl⟩
      have : q' = [] := by simpa [Names] using h1.symm
      subst this; rfl
  | cons k ks ih =>
    constructor
    · intro h
      cases q with
      | nil => simp at h
      | cons x q =>
        simp only [List.map_cons, List.cons.injEq, List.getElem?_map, Option.map_eq_some_iff] at h
        obtain ⟨⟨y, h1, rfl⟩, h2⟩ := h
        obtain ⟨q', h3, rfl⟩ := (ih q).1 (by simpa using h2)
        exact ⟨y :: q', (Names.single h1).append h3, rfl⟩
    · rintro ⟨q', h1, rfl⟩
      cases q' with
      | nil => simp [Names] at h1
      | cons y q' =>
        simp only [Names, List.map_cons, List.cons.injEq] at h1
        have := (ih (q'.map untag)).2 ⟨q', h1.2, rfl⟩
        simp only [List.map_cons, List.cons.injEq]
        exact ⟨by simp [h1.1], this⟩

theorem labels_untag (q : List (Arc (W × Int × Int))) : labels (q.map untag) = labels q := by
  simp [labels, untag]

theorem valid_untag {g : Fsa (W × Int × Int)} (h : g.Valid) : (⟨g.numStates, g.arcs.map untag⟩ : Fsa W).Valid := by
  refine ⟨h.two, ?_, ?_, ?_, ?_⟩
  · exact List.pairwise_map.2 h.sorted
  · intro a ha
    obtain ⟨x, hx, rfl⟩ := List.mem_map.1 ha
    exact h.src_lt x hx
  · intro a ha
    obtain ⟨x, hx, rfl⟩ := List.mem_map.1 ha
    exact h.dst_lt x hx
  · intro a ha
    obtain ⟨x, hx, rfl⟩ := List.mem_map.1 ha
    exact h.final_iff x hx

variable [AddMonoid W]

theorem score_untag (q : List (Arc (W × Int × Int))) : score (q.map untag) = tscore q := by
  simp [score, tscore, untag, Function.comp_def]

/-- C33 on one FSA: `ReplaceFsa` computes the substitution. -/
theorem replaceOne_correct {src : List (Fsa W)} {b : Int} {f : Fsa W} (h : Ok src b f) (o : Nat) :
    IsReplacement src b o f (replaceOne src b o f).1 (replaceOne src b o f).2.1
      (replaceOne src b o f).2.2 := by
  have hv := tagged_valid h o
  have h2 := h.valid.two
  obtain ⟨l1, l2⟩ := replace_final h.valid src b
  have hF : (⟨(replaceTagged src b o f).numStates, (replaceTagged src b o f).arcs.map untag⟩ :
      Fsa W).final = origNum src b f f.final := by
    unfold Fsa.final replaceTagged
    dsimp only
    simp only [Fsa.final] at l1
    omega
  have hz := origNum_zero src b f
  refine ⟨valid_untag hv, by simp [replaceOne], by simp [replaceOne], ?_, ?_⟩
  · intro ks q hn ha
    obtain ⟨q', hn', rfl⟩ := (names_untag _ _ _).1 hn
    have hc : Chain (origNum src b f 0) q' (origNum src b f f.final) := by
      have := ha.2.1
      rw [chain_untag] at this
      rw [hz, ← hF]; exact this
    obtain ⟨is, p, ls, r1, r2, r3, r4, r5⟩ := sound_orig h q'.length q' 0 (Nat.le_refl _) (by omega)
      hn'.mem hc
    refine ⟨is, p, ls, ?_, r2, ⟨h2, r3, r2.mem⟩, ?_, ?_⟩
    · exact (mapped_eq _ (fun a => a.score.2.2) ks q' hn').trans r1
    · have e : mapped (replaceOne src b o f).2.1 ks = srcs q' :=
        mapped_eq _ (fun a => a.score.2.1) ks q' hn'
      rw [e, score_untag]
      exact r4
    · rw [labels_untag]; exact r5
  · intro is ss p ls w hn ha hsub
    obtain ⟨ks, q, r1, r2, r3, r4, r5, r6⟩ :=
      complete_orig (o := o) h hsub 0 f.final p (by omega) hn ha.2.1
    refine ⟨ks, ⟨?_, ?_, q.map untag, (names_untag _ _ _).2 ⟨q, r1, rfl⟩, ⟨hv.two, ?_, ?_⟩, ?_, ?_⟩, ?_⟩
    · exact (mapped_eq _ (fun a => a.score.2.2) ks q r1).trans r3
    · exact (mapped_eq _ (fun a => a.score.2.1) ks q r1).trans r4
    · rw [chain_untag]
      rw [hz, ← hF] at r2
      exact r2
    · intro x hx
      obtain ⟨y, hy, rfl⟩ := List.mem_map.1 hx
      exact List.mem_map_of_mem (r1.mem y hy)
    · rw [score_untag, r5]
    · rw [labels_untag, r6]
    · rintro ks' m1 m2 ⟨q2, n2, a2⟩
      obtain ⟨q', hn', rfl⟩ := (names_untag _ _ _).1 n2
      have hc : Chain 0 q' (origNum src b f f.final) := by
        have := a2.2.1
        rw [chain_untag] at this
        rw [← hF]; exact this
      have r2' : Chain 0 q (origNum src b f f.final) := by rw [hz] at r2; exact r2
      have i1 : idxs q' = is.map (fun k => o + k) :=
        (mapped_eq _ (fun a => a.score.2.2) ks' q' hn').symm.trans m1
      have i2 : srcs q' = ss := (mapped_eq _ (fun a => a.score.2.1) ks' q' hn').symm.trans m2
      exact unique_path h q' ks' ks q 0 hn' r1 hc r2' (by rw [i1, r3]) (by rw [i2, r4])

/-- C33: every FSA of the result of `ReplaceFsa` is the substitution of `src` in the FSA of `index`
with the same number, and the arc maps are the concatenation of the arc maps of the FSAs. -/
theorem replaceFsa_correct (src index : List (Fsa W)) (b : Int) (h : ∀ f ∈ index, Ok src b f) :
    (replaceFsa src index b).1.length = index.length ∧
    (replaceFsa src index b).2.1.length = arcsBefore (replaceFsa src index b).1 index.length ∧
    (replaceFsa src index b).2.2.length = arcsBefore (replaceFsa src index b).1 index.length ∧
    ∀ n f, index[n]? = some f → ∃ g ms mi, (replaceFsa src index b).1[n]? = some g ∧
      IsReplacement src b (arcsBefore index n) f g ms mi ∧
      ∀ k, k < g.arcs.length →
        (replaceFsa src index b).2.1[arcsBefore (replaceFsa src index b).1 n + k]? = ms[k]? ∧
        (replaceFsa src index b).2.2[arcsBefore (replaceFsa src index b).1 n + k]? = mi[k]? := by
  have hlen : ∀ n, ∀ x ∈ (index.mapIdx (fun n f =>
      replaceOne src b (splits (index.map Fsa.arcs) n) f)).take n,
      x.2.1.length = x.1.arcs.length ∧ x.2.2.length = x.1.arcs.length := by
    intro n x hx
    obtain ⟨k, hk, rfl⟩ := List.mem_mapIdx.1 (List.mem_of_mem_take hx)
    simp [replaceOne]
  have hs1 : ∀ n, splits ((index.mapIdx (fun n f =>
      replaceOne src b (splits (index.map Fsa.arcs) n) f)).map fun x => x.2.1) n =
      arcsBefore (replaceFsa src index b).1 n := by
    intro n
    unfold splits arcsBefore replaceFsa
    dsimp only
    rw [← List.map_take, ← List.map_take, List.map_map, List.map_map]
    congr 1
    exact List.map_congr_left fun x hx => (hlen n x hx).1
  have hs2 : ∀ n, splits ((index.mapIdx (fun n f =>
      replaceOne src b (splits (index.map Fsa.arcs) n) f)).map fun x => x.2.2) n =
      arcsBefore (replaceFsa src index b).1 n := by
    intro n
    unfold splits arcsBefore replaceFsa
    dsimp only
    rw [← List.map_take, ← List.map_take, List.map_map, List.map_map]
    congr 1
    exact List.map_congr_left fun x hx => (hlen n x hx).2
  refine ⟨by simp [replaceFsa], ?_, ?_, ?_⟩
  · rw [← hs1]
    unfold replaceFsa
    dsimp only
    rw [← splits_length]
    simp
  · rw [← hs2]
    unfold replaceFsa
    dsimp only
    rw [← splits_length]
    simp
  · intro n f hf
    have hok := h f (List.mem_of_getElem? hf)
    have hget : (index.mapIdx (fun n f =>
        replaceOne src b (splits (index.map Fsa.arcs) n) f))[n]? =
        some (replaceOne src b (arcsBefore index n) f) := by
      rw [List.getElem?_mapIdx, hf, arcsBefore_eq]; rfl
    have hrep := replaceOne_correct hok (arcsBefore index n)
    refine ⟨(replaceOne src b (arcsBefore index n) f).1, _, _, ?_, hrep, ?_⟩
    · unfold replaceFsa
      dsimp only
      rw [List.getElem?_map, hget]; rfl
    · intro k hk
      rw [← hrep.length_src] at hk
      constructor
      · rw [← hs1]
        exact flatten_get _ n _ (by rw [List.getElem?_map, hget]; rfl) k hk
      · rw [hrep.length_src, ← hrep.length_index] at hk
        rw [← hs2]
        exact flatten_get _ n _ (by rw [List.getElem?_map, hget]; rfl) k hk

/-- Python returns the same FSAs, with the arc map of `index` first. -/
theorem pyReplaceFsa_eq (src index : List (Fsa W)) (b : Int) :
    (pyReplaceFsa src index b).1 = (replaceFsa src index b).1 ∧
    (pyReplaceFsa src index b).2.1 = (replaceFsa src index b).2.2 ∧
    (pyReplaceFsa src index b).2.2 = (replaceFsa src index b).2.1 := ⟨rfl, rfl, rfl⟩

/-- C33 in terms of strings: the result accepts exactly the strings of the substitution, with the sum
of the scores. -/
theorem replace_accepts {src : List (Fsa W)} {b : Int} {f : Fsa W} (h : Ok src b f) (o : Nat)
    (x : List Int) (w : W) :
    (∃ q, Accepting (replaceOne src b o f).1 q ∧ noEps (labels q) = x ∧ score q = w) ↔
      ∃ is ss p ls, is.map (fun k => f.arcs[k]?) = p.map some ∧ Accepting f p ∧
        Subst src b f is ss ls w ∧ noEps ls = x := by
  have hr := replaceOne_correct h o
  constructor
  · rintro ⟨q, h1, rfl, rfl⟩
    have hnames : ∀ q : List (Arc W), (∀ a ∈ q, a ∈ (replaceOne src b o f).1.arcs) →
        ∃ ks : List Nat, ks.map (fun k => (replaceOne src b o f).1.arcs[k]?) = q.map some := by
      intro q
      induction q with
      | nil => intro _; exact ⟨[], rfl⟩
      | cons a q ih =>
        intro hq
        obtain ⟨ks, hks⟩ := ih fun b hb => hq b (by simp [hb])
        obtain ⟨k, hk⟩ := List.mem_iff_getElem?.1 (hq a (by simp))
        exact ⟨k :: ks, by simp [hk, hks]⟩
    obtain ⟨ks, hks⟩ := hnames q h1.2.2
    obtain ⟨is, p, ls, _, e2, e3, e4, e5⟩ := hr.sound ks q hks h1
    exact ⟨is, _, p, ls, e2, e3, e4, e5.symm⟩
  · rintro ⟨is, ss, p, ls, h1, h2, h3, rfl⟩
    obtain ⟨ks, ⟨_, _, q, _, e1, e2, e3⟩, _⟩ := hr.complete is ss p ls w h1 h2 h3
    exact ⟨q, e1, e3, e2⟩

/-! ## A concrete case -/

/-- An index FSA with two arcs to be replaced (labels 10 and 11) and one that is kept. -/
def exIndex : Fsa Int := ⟨3, [⟨0, 1, 10, 1⟩, ⟨0, 1, 7, 2⟩, ⟨1, 1, 11, 3⟩, ⟨1, 2, -1, 4⟩]⟩

/-- Number 0 accepts `5`, number 1 accepts `6*`. -/
def exSrc : List (Fsa Int) :=
  [⟨3, [⟨0, 1, 5, 10⟩, ⟨1, 2, -1, 20⟩]⟩, ⟨2, [⟨0, 0, 6, 30⟩, ⟨0, 1, -1, 40⟩]⟩]

theorem ex_ok : Ok exSrc 10 exIndex := by
  have v0 : (⟨3, [⟨0, 1, 5, 10⟩, ⟨1, 2, -1, 20⟩]⟩ : Fsa Int).Valid :=
    ⟨by decide, by unfold Fsa.Sorted; decide, by decide, by decide, by decide⟩
  have v1 : (⟨2, [⟨0, 0, 6, 30⟩, ⟨0, 1, -1, 40⟩]⟩ : Fsa Int).Valid :=
    ⟨by decide, by unfold Fsa.Sorted; decide, by decide, by decide, by decide⟩
  refine ⟨⟨by decide, by unfold Fsa.Sorted; decide, by decide, by decide, by decide⟩, ?_, by decide⟩
  intro a _ i g hg
  have := List.mem_of_getElem? (source_some.1 hg).2
  simp only [exSrc, List.mem_cons, List.not_mem_nil, or_false] at this
  rcases this with rfl | rfl
  · exact v0
  · exact v1

example : replaceOne exSrc 10 0 exIndex =
    (⟨6, [⟨0, 1, 0, 1⟩, ⟨0, 3, 7, 2⟩, ⟨1, 2, 5, 10⟩, ⟨2, 3, 0, 20⟩, ⟨3, 4, 0, 3⟩, ⟨3, 5, -1, 4⟩,
      ⟨4, 4, 6, 30⟩, ⟨4, 3, 0, 40⟩]⟩,
      [-1, -1, 0, 1, -1, -1, 2, 3], [0, 1, -1, -1, 2, 3, -1, -1]) := by decide

/-! ## Where the result is not the substitution -/

/-- An FSA without states accepts nothing, but as a replacement it acts as an epsilon arc: the result
accepts the empty string although no substitution exists. -/
theorem replace_empty_source :
    let f : Fsa Int := ⟨4, [⟨0, 2, 10, 1⟩, ⟨1, 3, -1, 7⟩, ⟨2, 3, -1, 2⟩]⟩
    let src : List (Fsa Int) := [⟨0, []⟩]
    (∃ q, Accepting (replaceOne src 10 0 f).1 q ∧ noEps (labels q) = [-1] ∧ score q = 3) ∧
    ∀ is ss p ls w, is.map (fun k => f.arcs[k]?) = p.map some → Accepting f p →
      ¬ Subst src 10 f is ss ls w := by
  intro f src
  constructor
  · refine ⟨[⟨0, 2, 0, 1⟩, ⟨2, 3, -1, 2⟩], ⟨by decide, ⟨rfl, rfl, rfl⟩, by decide⟩, by decide, by decide⟩
  · intro is ss p ls w hn ha hsub
    cases hsub with
    | nil =>
      have : p = [] := by simpa using hn.symm
      subst this
      exact absurd (show (0 : Nat) = f.final from ha.2.1) (by decide)
    | copy h1 h2 _ =>
      rename_i k a is ls w
      cases p with
      | nil => simp at hn
      | cons a' p =>
        simp only [List.map_cons, List.cons.injEq, h1, Option.some.injEq] at hn
        have hsrc : a'.src = 0 := ha.2.1.1
        have hm := List.mem_of_getElem? h1
        rw [← hn.1] at hsrc
        simp only [f, List.mem_cons, List.not_mem_nil, or_false] at hm
        rcases hm with rfl | rfl | rfl
        · simp [src] at h2
        · simp at hsrc
        · simp at hsrc
    | replace h1 h2 h3 h4 h5 _ _ =>
      have hm := List.mem_of_getElem? h3
      simp only [src, List.mem_cons, List.not_mem_nil, or_false] at hm
      subst hm
      exact absurd h5.1 (by decide)

/-- If -1 is in the range of symbols that are replaced, the result is not a valid FSA. -/
theorem replace_final_label :
    let f : Fsa Int := ⟨2, [⟨0, 1, -1, 1⟩]⟩
    let src : List (Fsa Int) := [⟨2, [⟨0, 1, -1, 2⟩]⟩]
    f.Valid ∧ (∀ g ∈ src, g.Valid) ∧ ¬ (replaceOne src (-1) 0 f).1.Valid := by
  refine ⟨⟨by decide, by unfold Fsa.Sorted; decide, by decide, by decide, by decide⟩, ?_, ?_⟩
  · intro g hg
    simp only [List.mem_cons, List.not_mem_nil, or_false] at hg
    subst hg
    exact ⟨by decide, by unfold Fsa.Sorted; decide, by decide, by decide, by decide⟩
  · intro h
    exact absurd (h.final_iff ⟨1, 2, 0, 2⟩ (by decide)) (by decide)

/-- The value that line 2050 reads for a replaced arc of `index` may be past the end of the arcs of
`src`: the read uses the number of the arc of `index`. -/
theorem replace_reads_past_end :
    let f : Fsa Int := ⟨3, [⟨0, 1, 10, 0⟩, ⟨0, 1, 10, 0⟩, ⟨1, 2, -1, 0⟩]⟩
    let src : List (Fsa Int) := [⟨2, [⟨0, 1, -1, 2⟩]⟩]
    f.Valid ∧ (row f 0)[1]? = some ⟨0, 1, 10, 0⟩ ∧ source src 10 10 = some (0, ⟨2, [⟨0, 1, -1, 2⟩]⟩) ∧
      ¬ unusedRead src 0 1 < (src.map Fsa.arcs).flatten.length := by
  refine ⟨⟨by decide, by unfold Fsa.Sorted; decide, by decide, by decide, by decide⟩, by decide,
    by decide, by decide⟩

end Verif.Fsa.Repl
