import Mathlib.Algebra.Order.Group.Int
import Verif.Fsa.Det.Create
import Verif.Fsa.Det.Term

/-!
# C55: determinization
-/

namespace Verif.Fsa.Det
variable {W : Type} [AddCommGroup W] [LinearOrder W] [IsOrderedAddMonoid W]

omit [AddCommGroup W] [LinearOrder W] [IsOrderedAddMonoid W] in
theorem deterministic_of_nodup {g : Fsa W} (h : (g.arcs.map fun a => (a.src, a.label)).Nodup) :
    Deterministic g := by
  intro i j a b ha hb h1 h2
  have hi : i < (g.arcs.map fun a => (a.src, a.label)).length := by
    rw [List.length_map]
    exact (List.getElem?_eq_some_iff.1 ha).1
  refine (List.getElem?_inj hi h).1 ?_
  rw [List.getElem?_map, List.getElem?_map, ha, hb]
  simp [h1, h2]

omit [IsOrderedAddMonoid W] in
theorem createFsa_none {arcs : List (Arc W × List Nat)} (he : arcs ≠ [])
    (hne : ¬ ∃ z ∈ arcs, z.1.label = -1) : createFsa arcs = none := by
  unfold createFsa
  have h1 : arcs.isEmpty = false := by
    rw [Bool.eq_false_iff]
    intro hcon
    exact he (List.isEmpty_iff.1 hcon)
  rw [h1, oldFinal_spec arcs 0 none (Or.inl rfl) (fun z hz hl => absurd ⟨z, hz, hl⟩ hne)]
  simp only [reduceCtorEq, false_or, if_neg hne]
  rfl

/-- From the arcs that the loop leaves to the result. -/
theorem create_correct {f : Fsa W} (hv : f.Valid) {op : Option (W → W → W)}
    (hop : ∀ g, op = some g → PushOk g) {st : St W} {keys : List Key} {done : List Nat}
    (h : Inv f op st keys done) (hq : st.queue = []) (F : Nat)
    (hF : keys[F]? = some ([], f.final)) (hne : ∃ z ∈ st.arcs, z.1.label = -1) :
    ∃ g d n2o, createFsa st.arcs = some (g, d) ∧ g.Valid ∧ Created st.arcs F g d n2o ∧
      IsDeterminization f g d := by
  have h0 : F ≠ 0 := by
    rintro rfl
    rw [h.core.start] at hF
    have h1 := congrArg Prod.snd (Option.some.inj hF)
    have h2 := hv.two
    simp only [Fsa.final] at h1
    omega
  obtain ⟨g, d, n2o, h1, h2, h3⟩ := createFsa_spec st.arcs F hne (raw_final_iff hv h F hF)
    (raw_final_src hv h F hF) h0
  refine ⟨g, d, n2o, h1, h2, h3, Or.inl h2, ?_, ?_, ?_, ?_⟩
  · refine deterministic_of_nodup ?_
    rw [h3.garcs]
    exact moveArcs_det st.arcs n2o h.core.det
  · rw [h3.derivs, h3.garcs, List.length_map, List.length_map]
  · intro ks q hn hacc
    obtain ⟨zs, e1, e2, e3, e4, e5⟩ := h3.chain_back q ks 0 g.final 0 F hn hacc.2.1 h3.first h3.last
    obtain ⟨p, c1, c2, c3, c4, v, c5, c6⟩ := raw_sound hop h zs F _ e1 e2 hF
    have hv0 : v = 0 := c5.unique hop (pushed_base f op f.final)
    have hlab : labels p = labels q := by
      rw [← e3]
      have c3 : labels p ++ [] = labels (zs.map Prod.fst) := c3
      rwa [List.append_nil] at c3
    refine ⟨p, ?_, ⟨⟨hv.two, c2⟩, ?_⟩, hlab, ?_⟩
    · unfold derivPath
      rw [← e5]
      exact c1
    · intro p' hp' hl'
      obtain ⟨q', g1, g2, g3⟩ := c4 f.final p' hp'.2 (by rw [hl', hlab, ← e3]; rfl)
      have : q' = [] := by simpa [labels] using g2
      subst this
      simpa [score] using g3
    · rw [← e4]
      have : score (zs.map Prod.fst) = score p + v := c6
      rw [this, hv0, add_zero]
  · intro p hp
    obtain ⟨zs, j, k, e1, e2, e3, e4⟩ := raw_complete hop h hq p f.final hp.2
    have hj : j = F := by
      rcases List.eq_nil_or_concat p with rfl | ⟨p0, a, rfl⟩
      · have h5 := hp.2
        rw [path_nil] at h5
        have h6 := hv.two
        simp only [Fsa.final] at h5
        omega
      · have hpa := hp.2
        rw [List.concat_eq_append, path_snoc] at hpa
        have hla := (hv.final_iff a hpa.2.1).2 hpa.2.2
        rcases List.eq_nil_or_concat zs with rfl | ⟨zs0, z, rfl⟩
        · simp [rawArcs, labels] at e4
        · rw [List.concat_eq_append] at e1 e2 e4
          rw [List.concat_eq_append, labels_append] at e4
          have hr : rawArcs (zs0 ++ [z]) = rawArcs zs0 ++ [z.1] := by simp [rawArcs]
          rw [hr, labels_append] at e4
          have h7 := (List.append_inj' e4 rfl).2
          have hlz : z.1.label = -1 := by
            rw [← hla]
            simpa [labels] using h7
          have hdz := (raw_final_iff hv h F hF z (e1 z (by simp))).1 hlz
          rw [hr, chain_append] at e2
          obtain ⟨m, _, _, h8⟩ := e2
          have h8 : z.1.dst = j := h8
          omega
    subst hj
    have h9 := h3.chain_fwd zs 0 j e1 e2
    rw [idxOf_of_get h3.nodup h3.first, idxOf_of_get h3.nodup h3.last] at h9
    refine ⟨_, ⟨h2.two, h9⟩, ?_⟩
    rw [← e4]
    simp [labels, rawArcs, moved]

/-- **C55.** Whenever `Determinize` returns, its result is deterministic, accepts the same label
sequences with the best scores, and the derivatives along an accepting path are a best path of the
input.  This holds for every weight pushing operation that is commutative, associative and
compatible with shifting the scores, and in whatever order the hash maps and the queue hand out
their elements.  The only hypothesis on the input, besides being an FSA, is that the 128-bit codes
of the keys that occur do not collide. -/
theorem determinize_correct_partial (o : Orders W) (op : Option (W → W → W))
    (hop : ∀ g, op = some g → PushOk g) (f : Fsa W) (hv : f.Valid) (hc : NoCollision f) (fuel : Nat)
    (g : Fsa W) (d : List (List Nat)) (h : determinize o op fuel f = some (g, d)) :
    IsDeterminization f g d := by
  unfold determinize at h
  rw [if_neg (by have := hv.two; omega)] at h
  obtain ⟨st, hs, hi⟩ := startSt_inv o hop f
  rw [hs] at h
  simp only at h
  cases hm : mainLoop o op f fuel st with
  | none => simp [hm] at h
  | some st' =>
    rw [hm] at h
    simp only at h
    obtain ⟨keys, done, hI, hq⟩ := mainLoop_inv o hop hv hc fuel hi hm
    by_cases he : st'.arcs = []
    · rw [he] at h
      have hg : createFsa ([] : List (Arc W × List Nat)) = some (⟨0, []⟩, []) := rfl
      rw [hg] at h
      cases h
      have hno : ∀ p, ¬ Accepting f p := by
        intro p hp
        obtain ⟨zs, j, k, e1, _, _, e4⟩ := raw_complete hop hI hq p f.final hp.2
        have hz : zs = [] := by
          cases zs with
          | nil => rfl
          | cons z zs =>
            have := e1 z (by simp)
            rw [he] at this
            simp at this
        subst hz
        have hp0 : p = [] := by simpa [labels, rawArcs] using e4.symm
        subst hp0
        have h5 := hp.2
        rw [path_nil] at h5
        have h6 := hv.two
        simp only [Fsa.final] at h5
        omega
      refine ⟨Or.inr ⟨rfl, hno⟩, ?_, rfl, ?_, fun p hp => absurd hp (hno p)⟩
      · intro i j a b ha
        simp at ha
      · intro ks q _ hacc
        exact absurd hacc.1 (by simp)
    · by_cases hne : ∃ z ∈ st'.arcs, z.1.label = -1
      · obtain ⟨z, hz, hl⟩ := hne
        obtain ⟨⟨k, k', w, h1, h2, h3, h4, h5⟩, _⟩ := hI.core.arcs z hz
        rw [h5 hl] at h2
        obtain ⟨g', d', _, e1, _, _, e2⟩ := create_correct hv hop hI hq z.1.dst h2 ⟨z, hz, hl⟩
        rw [e1] at h
        cases h
        exact e2
      · exfalso
        rw [createFsa_none he hne] at h
        cases h

/-- **C55.** Without weight pushing the score of an arc is the sum of the scores of the arcs it
stands for. -/
theorem determinize_arc_scores_partial (o : Orders W) (f : Fsa W) (hv : f.Valid) (hc : NoCollision f)
    (fuel : Nat) (g : Fsa W) (d : List (List Nat)) (h : determinize o none fuel f = some (g, d))
    (k : Nat) (a : Arc W) (ha : g.arcs[k]? = some a) :
    ∃ js p, d[k]? = some js ∧ js.map (fun j => f.arcs[j]?) = p.map some ∧ a.score = score p := by
  have hop : ∀ g : W → W → W, (none : Option (W → W → W)) = some g → PushOk g := by simp
  unfold determinize at h
  rw [if_neg (by have := hv.two; omega)] at h
  obtain ⟨st, hs, hi⟩ := startSt_inv o hop f
  rw [hs] at h
  simp only at h
  cases hm : mainLoop o none f fuel st with
  | none => simp [hm] at h
  | some st' =>
    rw [hm] at h
    simp only at h
    obtain ⟨keys, done, hI, hq⟩ := mainLoop_inv o hop hv hc fuel hi hm
    by_cases hne : ∃ z ∈ st'.arcs, z.1.label = -1
    · obtain ⟨z, hz, hl⟩ := hne
      obtain ⟨⟨k0, k', w, h1, h2, h3, h4, h5⟩, _⟩ := hI.core.arcs z hz
      rw [h5 hl] at h2
      obtain ⟨g', d', _, e1, _, e2, _⟩ := create_correct hv hop hI hq z.1.dst h2 ⟨z, hz, hl⟩
      rw [e1] at h
      cases h
      obtain ⟨y, hy, rfl, hd⟩ := e2.get ha
      obtain ⟨⟨k1, k2, w1, _, _, ⟨⟨p, f1, _, _, f4⟩, _⟩, f5, _⟩, _⟩ := hI.core.arcs y hy
      exact ⟨_, p, hd, f1, Eq.trans f5 f4.symm⟩
    · exfalso
      by_cases he : st'.arcs = []
      · rw [he] at h
        have hg : createFsa ([] : List (Arc W × List Nat)) = some (⟨0, []⟩, []) := rfl
        rw [hg] at h
        cases h
        simp at ha
      · rw [createFsa_none he hne] at h
        cases h

/-- **C55.** On an input without cycles and without dead ends `Determinize` terminates, fails no
check, and returns an FSA. -/
theorem determinize_terminates_partial (o : Orders W) (op : Option (W → W → W))
    (hop : ∀ g, op = some g → PushOk g) (f : Fsa W) (hv : f.Valid) (hc : NoCollision f)
    (ha : Acyclic f) (hd : NoDeadEnd f) :
    ∃ N, ∀ fuel, N ≤ fuel → ∃ g d, determinize o op fuel f = some (g, d) ∧ g.Valid := by
  refine ⟨(keysUpTo f f.numStates).length, fun fuel hf => ?_⟩
  obtain ⟨st, hs, hi⟩ := startSt_inv o hop f
  have hK : ∀ keys : List Key, keys.Nodup → (∀ k ∈ keys, KeyOk f k) →
      keys.length ≤ (keysUpTo f f.numStates).length := fun keys h1 h2 =>
    (List.subperm_of_subset h1 fun k hk => keyOk_mem hv ha (h2 k hk)).length_le
  obtain ⟨st', hm⟩ := mainLoop_some o hop hv hc hd _ hK fuel hi (by simpa using hf)
  obtain ⟨keys, done, hI, hq⟩ := mainLoop_inv o hop hv hc fuel hi hm
  obtain ⟨p, hp⟩ := hd [] 0 ((path_nil ..).2 rfl)
  obtain ⟨zs, j, k, e1, e2, e3, e4⟩ := raw_complete hop hI hq p f.final hp
  have hne : ∃ z ∈ st'.arcs, z.1.label = -1 := by
    rcases List.eq_nil_or_concat p with rfl | ⟨p0, a, rfl⟩
    · rw [path_nil] at hp
      have h6 := hv.two
      simp only [Fsa.final] at hp
      omega
    · rw [List.concat_eq_append, path_snoc] at hp
      have hla := (hv.final_iff a hp.2.1).2 hp.2.2
      have : (-1 : Int) ∈ labels (rawArcs zs) := by
        rw [e4]
        simp [labels, hla]
      obtain ⟨y, hy, hyl⟩ := List.mem_map.1 this
      obtain ⟨z, hz, rfl⟩ := List.mem_map.1 hy
      exact ⟨z, e1 z hz, hyl⟩
  obtain ⟨z, hz, hl⟩ := hne
  obtain ⟨⟨k0, k', w, h1, h2, h3, h4, h5⟩, _⟩ := hI.core.arcs z hz
  rw [h5 hl] at h2
  obtain ⟨g, d, _, f1, f2, _⟩ := create_correct hv hop hI hq z.1.dst h2 ⟨z, hz, hl⟩
  refine ⟨g, d, ?_, f2⟩
  unfold determinize
  rw [if_neg (by have := hv.two; omega), hs]
  simp only [hm]
  exact f1

/-! ### Concrete cases -/

/-- `kTropicalWeight`: the maximum meets the conditions. -/
theorem pushOk_max : PushOk (max : Int → Int → Int) :=
  ⟨max_comm, max_assoc, fun a b c => by omega⟩

/-- The orders in which lists are kept. -/
def plainOrders (W : Type) : Orders W :=
  ⟨id, fun l => List.Perm.refl l, id, fun l => List.Perm.refl l, id, fun l => List.Perm.refl l⟩

omit [AddCommGroup W] [LinearOrder W] [IsOrderedAddMonoid W] in
theorem acyclic_of_increasing {f : Fsa W} (h : ∀ a ∈ f.arcs, a.src < a.dst) : Acyclic f := by
  have key : ∀ (p : List (Arc W)) s t, Path f.arcs s p t → s ≤ t ∧ (p ≠ [] → s < t) := by
    intro p
    induction p with
    | nil => intro s t hp; rw [path_nil] at hp; simp [hp]
    | cons a p ih =>
      intro s t hp
      rw [path_cons] at hp
      have h1 := (ih _ _ hp.2.2).1
      have h2 := h a hp.1
      have h3 := hp.2.1
      exact ⟨by omega, fun _ => by omega⟩
  intro s p hne hp
  exact lt_irrefl _ ((key p s s hp).2 hne)

omit [AddCommGroup W] [LinearOrder W] [IsOrderedAddMonoid W] in
theorem noDeadEnd_of_increasing {f : Fsa W} (hv : f.Valid)
    (h : ∀ s, s < f.final → ∃ a ∈ f.arcs, a.src = s ∧ s < a.dst) : NoDeadEnd f := by
  have key : ∀ n s, f.final - s = n → s ≤ f.final → ∃ q, Path f.arcs s q f.final := by
    intro n
    induction n using Nat.strong_induction_on with
    | _ n ih =>
      intro s hs hle
      rcases Nat.lt_or_ge s f.final with hlt | hge
      · obtain ⟨a, ha, h1, h2⟩ := h s hlt
        have h3 := hv.dst_lt a ha
        have h4 : a.dst ≤ f.final := by rw [Fsa.final]; omega
        obtain ⟨q, hq⟩ := ih (f.final - a.dst) (by omega) a.dst rfl h4
        exact ⟨a :: q, (path_cons ..).2 ⟨ha, h1, hq⟩⟩
      · exact ⟨[], (path_nil ..).2 (by omega)⟩
  intro p s hp
  have := path_end_lt hv hp
  exact key _ s rfl (by rw [Fsa.final]; omega)

/-- Two arcs with label 5 leave the start; the better one leads to the state where only 6 can
follow. -/
def ambiguous : Fsa Int :=
  ⟨5, [⟨0, 1, 5, 3⟩, ⟨0, 2, 5, 1⟩, ⟨1, 3, 6, 0⟩, ⟨2, 3, 6, 1⟩, ⟨2, 3, 7, 2⟩, ⟨3, 4, -1, 0⟩]⟩

theorem ambiguous_valid : ambiguous.Valid :=
  ⟨by decide, by unfold Fsa.Sorted; decide, by decide, by decide, by decide⟩

theorem ambiguous_acyclic : Acyclic ambiguous := acyclic_of_increasing (by decide)

theorem ambiguous_noCollision : NoCollision ambiguous :=
  noCollision_of_check ambiguous_valid ambiguous_acyclic (by decide +kernel)

theorem ambiguous_noDeadEnd : NoDeadEnd ambiguous :=
  noDeadEnd_of_increasing ambiguous_valid (by decide)

/-- Without pushing the arc with label 5 has score 0 and stands for no arc: what it stands for is
not known yet. -/
example : determinize (plainOrders Int) none 9 ambiguous =
    some (⟨4, [⟨0, 1, 5, 0⟩, ⟨1, 2, 6, 3⟩, ⟨1, 2, 7, 3⟩, ⟨2, 3, -1, 0⟩]⟩,
      [[], [0, 2], [1, 4], [5]]) := by decide +kernel

/-- With pushing the better of the two scores is moved to it. -/
example : determinize (plainOrders Int) (some max) 9 ambiguous =
    some (⟨4, [⟨0, 1, 5, 3⟩, ⟨1, 2, 6, 0⟩, ⟨1, 2, 7, 0⟩, ⟨2, 3, -1, 0⟩]⟩,
      [[], [0, 2], [1, 4], [5]]) := by decide +kernel

example (o : Orders Int) : ∃ N, ∀ fuel, N ≤ fuel →
    ∃ g d, determinize o (some max) fuel ambiguous = some (g, d) ∧ g.Valid :=
  determinize_terminates_partial o _ (fun _ h => by cases h; exact pushOk_max) _ ambiguous_valid
    ambiguous_noCollision ambiguous_acyclic ambiguous_noDeadEnd

/-! ### Colliding codes -/

/-- Two words of eight symbols, each readable along two chains; the chains of the first word are
followed by 1 or 2, those of the second by 3 or 4. -/
def colliding : Fsa Int :=
  ⟨35, [⟨0, 1, 1, 0⟩, ⟨0, 9, 1, 0⟩, ⟨0, 17, 3915, 0⟩, ⟨0, 25, 3915, 0⟩, ⟨1, 2, 9574, 0⟩,
    ⟨2, 3, 1, 0⟩, ⟨3, 4, 1, 0⟩, ⟨4, 5, 1, 0⟩, ⟨5, 6, 17095, 0⟩, ⟨6, 7, 6994, 0⟩,
    ⟨7, 8, 27714, 0⟩, ⟨8, 33, 1, 0⟩, ⟨9, 10, 9574, 0⟩, ⟨10, 11, 1, 0⟩, ⟨11, 12, 1, 0⟩,
    ⟨12, 13, 1, 0⟩, ⟨13, 14, 17095, 0⟩, ⟨14, 15, 6994, 0⟩, ⟨15, 16, 27714, 0⟩, ⟨16, 33, 2, 0⟩,
    ⟨17, 18, 1, 0⟩, ⟨18, 19, 28108, 0⟩, ⟨19, 20, 10243, 0⟩, ⟨20, 21, 4595, 0⟩, ⟨21, 22, 1, 0⟩,
    ⟨22, 23, 1, 0⟩, ⟨23, 24, 1, 0⟩, ⟨24, 33, 3, 0⟩, ⟨25, 26, 1, 0⟩, ⟨26, 27, 28108, 0⟩,
    ⟨27, 28, 10243, 0⟩, ⟨28, 29, 4595, 0⟩, ⟨29, 30, 1, 0⟩, ⟨30, 31, 1, 0⟩, ⟨31, 32, 1, 0⟩,
    ⟨32, 33, 4, 0⟩, ⟨33, 34, -1, 0⟩]⟩

theorem colliding_valid : colliding.Valid :=
  ⟨by decide, by unfold Fsa.Sorted; decide +kernel, by decide +kernel, by decide +kernel,
    by decide +kernel⟩

/-- The second word with a 3 after it. -/
def lostWord : List Int := [3915, 1, 28108, 10243, 4595, 1, 1, 1, 3, -1]

/-- The result of `Determinize` on `colliding`. -/
def collidingOut : Option (Fsa Int × List (List Nat)) :=
  determinize (plainOrders Int) none 99 colliding

/-- **C55** without the hypothesis on codes is false: the two keys of eight symbols have the same
128-bit code, the two states are merged, and a string that the input accepts is lost. -/
theorem determinize_collision :
    ∃ g d, determinize (plainOrders Int) none 99 colliding = some (g, d) ∧
      (∃ p, Accepting colliding p ∧ labels p = lostWord) ∧
      ¬ ∃ q, Accepting g q ∧ labels q = lostWord := by
  have h1 : collidingOut.isSome := by decide +kernel
  have h2 : ∀ r ∈ collidingOut, lostWord ∉ labelsFrom r.1 10 0 := by decide +kernel
  obtain ⟨⟨g, d⟩, hr⟩ := Option.isSome_iff_exists.1 h1
  refine ⟨g, d, hr, ?_, ?_⟩
  · refine ⟨[⟨0, 17, 3915, 0⟩, ⟨17, 18, 1, 0⟩, ⟨18, 19, 28108, 0⟩, ⟨19, 20, 10243, 0⟩, ⟨20, 21, 4595, 0⟩, ⟨21, 22, 1, 0⟩, ⟨22, 23, 1, 0⟩, ⟨23, 24, 1, 0⟩, ⟨24, 33, 3, 0⟩, ⟨33, 34, -1, 0⟩],
      ⟨by decide, ?_⟩, by decide +kernel⟩
    simp only [path_cons, path_nil]
    decide +kernel
  · rintro ⟨q, hq, hl⟩
    have hlen : q.length = 10 := by
      have := congrArg List.length hl
      simpa [labels, lostWord] using this
    have := mem_labelsFrom g q 10 0 g.final hq.2 (by omega)
    rw [hl] at this
    exact h2 (g, d) hr this

end Verif.Fsa.Det
