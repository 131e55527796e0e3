import Verif.Fsa.Ops.ClosureModel

/-!
# C27, C28: closure

C27 says that the closure accepts the Kleene star of the input.  The code reuses the start state
of the input as the start state of the result and does not check that no arc enters it, so this
is false in general (`closure_not_star`); `closure_accepts` says what is accepted for every
valid input and `closure_star_partial` is the claim for inputs whose start state is not entered.
-/

namespace Verif.Fsa
variable {W : Type}

/-- Specification: the weighted Kleene star of a weighted language. -/
inductive Star [AddMonoid W] (L : List Int → W → Prop) : List Int → W → Prop
  | nil : Star L [] 0
  | cons {s s' : List Int} {w w' : W} : L s w → Star L s' w' → Star L (s ++ s') (w + w')

theorem closure_some [Zero W] {f g : Fsa W} {m : List Int} (hf : f.Valid)
    (h : closure f = some (g, m)) :
    f.arcs ≠ [] ∧ g.numStates = f.numStates ∧
      g.arcs = (f.arcs.take (startArcs f)).map (closureArc f) ++ closureNewArc f ::
        (f.arcs.drop (startArcs f)).map (closureArc f) ∧
      m = (List.range (startArcs f)).map (fun (k : Nat) => (k : Int)) ++ (-1) ::
        (List.range (f.arcs.length - startArcs f)).map
          (fun (k : Nat) => ((startArcs f + k : Nat) : Int)) := by
  have h2 := hf.two
  unfold closure at h
  rw [if_neg (by omega)] at h
  by_cases hc : f.arcs.isEmpty = true
  · rw [if_pos hc] at h; exact absurd h (by simp)
  · rw [if_neg hc] at h
    simp only [Option.some.injEq, Prod.mk.injEq] at h
    obtain ⟨rfl, rfl⟩ := h
    exact ⟨by simpa using hc, rfl, rfl, rfl⟩

theorem closure_mem [Zero W] {f g : Fsa W} {m : List Int} (hf : f.Valid)
    (h : closure f = some (g, m)) (b : Arc W) :
    b ∈ g.arcs ↔ b = closureNewArc f ∨ ∃ a ∈ f.arcs, b = closureArc f a := by
  rw [(closure_some hf h).2.2.1]
  have e : ∀ a, a ∈ f.arcs ↔ a ∈ f.arcs.take (startArcs f) ∨ a ∈ f.arcs.drop (startArcs f) := by
    intro a; rw [← List.mem_append, List.take_append_drop]
  simp only [List.mem_append, List.mem_cons, List.mem_map]
  constructor
  · rintro (⟨a, ha, rfl⟩ | rfl | ⟨a, ha, rfl⟩)
    · exact Or.inr ⟨a, (e a).mpr (Or.inl ha), rfl⟩
    · exact Or.inl rfl
    · exact Or.inr ⟨a, (e a).mpr (Or.inr ha), rfl⟩
  · rintro (rfl | ⟨a, ha, rfl⟩)
    · exact Or.inr (Or.inl rfl)
    · rcases (e a).mp ha with h | h
      · exact Or.inl ⟨a, h, rfl⟩
      · exact Or.inr (Or.inr ⟨a, h, rfl⟩)

theorem closureArc_src (f : Fsa W) (a : Arc W) : (closureArc f a).src = a.src := by
  unfold closureArc; split <;> rfl

theorem closureArc_score (f : Fsa W) (a : Arc W) : (closureArc f a).score = a.score := by
  unfold closureArc; split <;> rfl

theorem closureArc_dst (f : Fsa W) (a : Arc W) :
    (closureArc f a).dst = if a.dst = f.final then 0 else a.dst := by
  unfold closureArc Fsa.final; split <;> rfl

theorem strip_closure {f : Fsa W} (hf : f.Valid) (q : List (Arc W)) (hq : ∀ a ∈ q, a ∈ f.arcs) :
    strip (labels (q.map (closureArc f))) = strip (labels q) := by
  induction q with
  | nil => rfl
  | cons a q ih =>
    have ih := ih (fun x hx => hq x (by simp [hx]))
    have hfi := hf.final_iff a (hq a (by simp))
    rw [List.map_cons, labels_cons, labels_cons]
    simp only [strip, List.filter_cons] at ih ⊢
    rw [ih]
    by_cases hc : a.dst = f.final
    · have hl : a.label = -1 := hfi.mpr hc
      have : (closureArc f a).label = 0 := by
        unfold closureArc; rw [show f.numStates - 1 = f.final from rfl, if_pos hc]
      rw [this, hl]; simp
    · have : closureArc f a = a := by
        unfold closureArc; rw [show f.numStates - 1 = f.final from rfl, if_neg hc]
      rw [this]

theorem score_closure [Add W] [Zero W] (f : Fsa W) (q : List (Arc W)) :
    score (q.map (closureArc f)) = score q :=
  score_map (closureArc f) q (fun a _ => closureArc_score f a)

/-- Images of paths of the input are paths of the closure. -/
theorem closure_path_image [Zero W] {f g : Fsa W} {m : List Int} (hf : f.Valid)
    (h : closure f = some (g, m)) (q : List (Arc W)) (s t : Nat) (hs : s < f.final)
    (hq : Path f.arcs s q t) :
    Path g.arcs s (q.map (closureArc f)) (if t = f.final then 0 else t) := by
  induction q generalizing s with
  | nil =>
    rw [path_nil] at hq
    subst hq
    rw [if_neg (by omega)]
    exact (path_nil _ _ _).mpr rfl
  | cons a q ih =>
    rw [path_cons] at hq
    obtain ⟨ha, rfl, hq⟩ := hq
    refine (path_cons _ _ _ _ _).mpr ⟨(closure_mem hf h _).mpr (Or.inr ⟨a, ha, rfl⟩),
      closureArc_src f a, ?_⟩
    rw [closureArc_dst]
    by_cases hc : a.dst = f.final
    · rw [if_pos hc]
      cases q with
      | nil =>
        rw [path_nil] at hq
        rw [if_pos (hq.symm.trans hc)]
        exact (path_nil _ _ _).mpr rfl
      | cons b q =>
        rw [path_cons] at hq
        have := hf.src_lt b hq.1
        omega
    · rw [if_neg hc]
      have := hf.dst_lt a ha
      have h2 := hf.two
      exact ih a.dst (by simp only [Fsa.final] at *; omega) hq

theorem closure_path_split [Zero W] {f g : Fsa W} {m : List Int} (hf : f.Valid)
    (h : closure f = some (g, m)) (p : List (Arc W)) (s : Nat) (hs : s < f.final)
    (hp : Path g.arcs s p f.final) :
    (∃ r, Path f.arcs s r 0 ∧ p = r.map (closureArc f) ++ [closureNewArc f]) ∨
    (∃ (q : List (Arc W)) (qs : List (List (Arc W))) (r : List (Arc W)), Path f.arcs s q f.final ∧ (∀ q' ∈ qs, Path f.arcs 0 q' f.final) ∧
      Path f.arcs 0 r 0 ∧
      p = q.map (closureArc f) ++ ((qs.map (List.map (closureArc f))).flatten ++
        (r.map (closureArc f) ++ [closureNewArc f]))) := by
  have h2 := hf.two
  have hfin : f.final = f.numStates - 1 := rfl
  induction p generalizing s with
  | nil => rw [path_nil] at hp; omega
  | cons b p ih =>
    rw [path_cons] at hp
    obtain ⟨hb, hsrc, hp⟩ := hp
    rcases (closure_mem hf h b).mp hb with rfl | ⟨a, ha, rfl⟩
    · left
      have hs0 : s = 0 := hsrc.symm
      have hpn : p = [] := by
        cases p with
        | nil => rfl
        | cons c p =>
          rw [path_cons] at hp
          obtain ⟨hc, hcs, _⟩ := hp
          exfalso
          rcases (closure_mem hf h c).mp hc with rfl | ⟨a, ha, rfl⟩
          · simp only [closureNewArc] at hcs; omega
          · have := hf.src_lt a ha
            rw [closureArc_src] at hcs
            simp only [closureNewArc] at hcs; omega
      subst hpn
      exact ⟨[], (path_nil _ _ _).mpr hs0, rfl⟩
    · rw [closureArc_src] at hsrc
      rw [closureArc_dst] at hp
      by_cases hc : a.dst = f.final
      · rw [if_pos hc] at hp
        right
        have hone : Path f.arcs s [a] f.final :=
          (path_cons _ _ _ _ _).mpr ⟨ha, hsrc, (path_nil _ _ _).mpr hc⟩
        rcases ih 0 (by omega) hp with ⟨r, hr, rfl⟩ | ⟨q, qs, r, hq, hqs, hr, rfl⟩
        · exact ⟨[a], [], r, hone, by simp, hr, by simp⟩
        · refine ⟨[a], q :: qs, r, hone, ?_, hr, by simp⟩
          intro q' hq'
          rcases List.mem_cons.mp hq' with rfl | hm
          · exact hq
          · exact hqs q' hm
      · rw [if_neg hc] at hp
        have := hf.dst_lt a ha
        rcases ih a.dst (by omega) hp with ⟨r, hr, rfl⟩ | ⟨q, qs, r, hq, hqs, hr, rfl⟩
        · exact Or.inl ⟨a :: r, (path_cons _ _ _ _ _).mpr ⟨ha, hsrc, hr⟩, by simp⟩
        · exact Or.inr ⟨a :: q, qs, r, (path_cons _ _ _ _ _).mpr ⟨ha, hsrc, hq⟩, hqs, hr,
            by simp⟩

/-- The accepting paths of the closure: a sequence of accepting paths of the input, then a path
of the input from its start state to its start state, then the new arc. -/
theorem closure_paths [Zero W] {f g : Fsa W} {m : List Int} (hf : f.Valid)
    (h : closure f = some (g, m)) (p : List (Arc W)) :
    Accepting g p ↔ ∃ (qs : List (List (Arc W))) (r : List (Arc W)),
      (∀ q ∈ qs, Accepting f q) ∧ Path f.arcs 0 r 0 ∧
      p = (qs.map (List.map (closureArc f))).flatten ++
        (r.map (closureArc f) ++ [closureNewArc f]) := by
  have h2 := hf.two
  have hgn := (closure_some hf h).2.1
  have hgf : g.final = f.final := by simp only [Fsa.final, hgn]
  have hfin : f.final = f.numStates - 1 := rfl
  constructor
  · rintro ⟨_, hp⟩
    rw [hgf] at hp
    rcases closure_path_split hf h p 0 (by omega) hp with ⟨r, hr, rfl⟩ | ⟨q, qs, r, hq, hqs, hr, rfl⟩
    · exact ⟨[], r, by simp, hr, rfl⟩
    · refine ⟨q :: qs, r, ?_, hr, by simp⟩
      intro q' hq'
      rcases List.mem_cons.mp hq' with rfl | hm
      · exact ⟨h2, hq⟩
      · exact ⟨h2, hqs q' hm⟩
  · rintro ⟨qs, r, hqs, hr, rfl⟩
    refine ⟨by omega, ?_⟩
    rw [hgf]
    have hlast : Path g.arcs 0 (r.map (closureArc f) ++ [closureNewArc f]) f.final := by
      refine (path_append _ _ _ _ _).mpr ⟨0, ?_, ?_⟩
      · have := closure_path_image hf h r 0 0 (by omega) hr
        rwa [if_neg (by omega)] at this
      · exact (path_cons _ _ _ _ _).mpr ⟨(closure_mem hf h _).mpr (Or.inl rfl), rfl,
          (path_nil _ _ _).mpr rfl⟩
    induction qs with
    | nil => simpa using hlast
    | cons q qs ih =>
      rw [List.map_cons, List.flatten_cons, List.append_assoc]
      refine (path_append _ _ _ _ _).mpr ⟨0, ?_, ih (fun q' hq' => hqs q' (by simp [hq']))⟩
      have := closure_path_image hf h q 0 f.final (by omega) (hqs q (by simp)).2
      rwa [if_pos rfl] at this

theorem star_iff [AddMonoid W] (f : Fsa W) (s : List Int) (w : W) :
    Star (Accepts f) s w ↔ ∃ qs : List (List (Arc W)), (∀ q ∈ qs, Accepting f q) ∧
      s = strip (labels qs.flatten) ∧ w = score qs.flatten := by
  constructor
  · intro h
    induction h with
    | nil => exact ⟨[], by simp, rfl, rfl⟩
    | cons h1 _ ih =>
      obtain ⟨p, hp, rfl, rfl⟩ := h1
      obtain ⟨qs, hqs, rfl, rfl⟩ := ih
      refine ⟨p :: qs, ?_, ?_, ?_⟩
      · intro q hq
        rcases List.mem_cons.mp hq with rfl | hm
        · exact hp
        · exact hqs q hm
      · rw [List.flatten_cons, labels_append, strip_append]
      · rw [List.flatten_cons, score_append]
  · rintro ⟨qs, hqs, rfl, rfl⟩
    induction qs with
    | nil => exact Star.nil
    | cons q qs ih =>
      rw [List.flatten_cons, labels_append, strip_append, score_append]
      exact Star.cons ⟨q, hqs q (by simp), rfl, rfl⟩ (ih (fun q' hq' => hqs q' (by simp [hq'])))

/-- What `closure` accepts, for every valid FSA with arcs: the Kleene star of the input followed
by the labels of a path of the input that returns to the start state. -/
theorem closure_accepts [AddMonoid W] {f g : Fsa W} {m : List Int} (hf : f.Valid)
    (h : closure f = some (g, m)) (s : List Int) (w : W) :
    Accepts g s w ↔ ∃ s1 w1 r, Star (Accepts f) s1 w1 ∧ Path f.arcs 0 r 0 ∧
      s = s1 ++ strip (labels r) ∧ w = w1 + score r := by
  have key : ∀ (qs : List (List (Arc W))) (r : List (Arc W)), (∀ q ∈ qs, Accepting f q) →
      Path f.arcs 0 r 0 →
      strip (labels ((qs.map (List.map (closureArc f))).flatten ++
        (r.map (closureArc f) ++ [closureNewArc f]))) =
        strip (labels qs.flatten) ++ strip (labels r) ∧
      score ((qs.map (List.map (closureArc f))).flatten ++
        (r.map (closureArc f) ++ [closureNewArc f])) = score qs.flatten + score r := by
    intro qs r hqs hr
    have hm : ∀ a ∈ qs.flatten, a ∈ f.arcs := by
      intro a ha
      obtain ⟨q, hq, haq⟩ := List.mem_flatten.mp ha
      exact (hqs q hq).2.2 a haq
    rw [← List.map_flatten]
    constructor
    · rw [labels_append, labels_append, strip_append, strip_append, strip_closure hf _ hm,
        strip_closure hf _ hr.2]
      simp [strip, closureNewArc]
    · rw [score_append, score_append, score_closure, score_closure]
      simp [closureNewArc]
  constructor
  · rintro ⟨p, hp, rfl, rfl⟩
    obtain ⟨qs, r, hqs, hr, rfl⟩ := (closure_paths hf h p).mp hp
    exact ⟨_, _, r, (star_iff f _ _).mpr ⟨qs, hqs, rfl, rfl⟩, hr, (key qs r hqs hr).1,
      (key qs r hqs hr).2⟩
  · rintro ⟨s1, w1, r, hst, hr, rfl, rfl⟩
    obtain ⟨qs, hqs, rfl, rfl⟩ := (star_iff f _ _).mp hst
    exact ⟨_, (closure_paths hf h _).mpr ⟨qs, r, hqs, hr, rfl⟩, (key qs r hqs hr).1,
      (key qs r hqs hr).2⟩

/-- **C27.** If no arc enters the start state, the closure accepts the Kleene star of the
input.  What is missing from C27 is the case of an input whose start state is entered, where the
claim is false: `closure_not_star`. -/
theorem closure_star_partial [AddMonoid W] {f g : Fsa W} {m : List Int} (hf : f.Valid)
    (h : closure f = some (g, m)) (h0 : ∀ a ∈ f.arcs, a.dst ≠ 0) (s : List Int) (w : W) :
    Accepts g s w ↔ Star (Accepts f) s w := by
  have hr0 : ∀ r, Path f.arcs 0 r 0 → r = [] := by
    intro r hr
    rcases List.eq_nil_or_concat r with e | ⟨r', a, rfl⟩
    · exact e
    · exfalso
      rw [List.concat_eq_append] at hr
      obtain ⟨mm, _, hl⟩ := (path_append _ _ _ _ _).mp hr
      rw [path_cons, path_nil] at hl
      exact h0 a hl.1 hl.2.2
  rw [closure_accepts hf h]
  constructor
  · rintro ⟨s1, w1, r, hst, hr, rfl, rfl⟩
    rw [hr0 r hr]
    simpa [strip] using hst
  · intro hst
    exact ⟨s, w, [], hst, (path_nil _ _ _).mpr rfl, by simp [strip], by simp⟩

/-- The Kleene star is always contained in what the closure accepts. -/
theorem closure_star_subset [AddMonoid W] {f g : Fsa W} {m : List Int} (hf : f.Valid)
    (h : closure f = some (g, m)) (s : List Int) (w : W) (hs : Star (Accepts f) s w) :
    Accepts g s w :=
  (closure_accepts hf h s w).mpr
    ⟨s, w, [], hs, (path_nil _ _ _).mpr rfl, by simp [strip], by simp⟩

/-- An FSA accepting `1 (2 1)*`, whose start state is entered by an arc. -/
def closureWitness : Fsa Int :=
  ⟨3, [⟨0, 1, 1, 0⟩, ⟨1, 0, 2, 0⟩, ⟨1, 2, -1, 0⟩]⟩

theorem closureWitness_valid : closureWitness.Valid :=
  ⟨by decide, by unfold Fsa.Sorted; decide, by decide, by decide, by decide⟩

/-- **Disagreement with C27.** The closure of `1 (2 1)*` accepts `1 2`, but every non-empty
string of the Kleene star ends in `1`. -/
theorem closure_not_star : ∃ (f g : Fsa Int) (m : List Int), f.Valid ∧ closure f = some (g, m) ∧
    ∃ s w, Accepts g s w ∧ ¬ Star (Accepts f) s w := by
  refine ⟨closureWitness, _, _, closureWitness_valid, rfl, [1, 2], 0, ?_, ?_⟩
  · refine ⟨[⟨0, 1, 1, 0⟩, ⟨1, 0, 2, 0⟩, ⟨0, 2, -1, 0⟩], ⟨by decide, ?_, ?_⟩, by decide, by decide⟩
    · simp [Chain, Fsa.final, closureWitness]
    · decide
  · -- invariant: strings accepted by the witness do not end in 2
    have hend : ∀ (p : List (Arc Int)), Path closureWitness.arcs 1 p 2 →
        (strip (labels p)).getLast? ≠ some 2 := by
      intro p
      have : ∀ n (p : List (Arc Int)), p.length ≤ n →
          (Path closureWitness.arcs 1 p 2 → (strip (labels p)).getLast? ≠ some 2) ∧
          (Path closureWitness.arcs 0 p 2 → (strip (labels p)).getLast? ≠ some 2 ∧
            strip (labels p) ≠ []) := by
        intro n
        induction n with
        | zero =>
          intro p hp
          have : p = [] := by simpa using hp
          subst this
          simp [path_nil]
        | succ n ih =>
          intro p hp
          cases p with
          | nil => simp [path_nil]
          | cons a p =>
            have ihp := ih p (by simpa using hp)
            constructor
            · intro h
              rw [path_cons] at h
              obtain ⟨ha, hs, hp⟩ := h
              simp only [closureWitness, List.mem_cons, List.not_mem_nil, or_false] at ha
              rcases ha with rfl | rfl | rfl
              · simp at hs
              · have := ihp.2 hp
                simp only [labels_cons, strip, List.filter_cons] at this ⊢
                simp only [show ((2 : Int) ≠ 0 ∧ (2 : Int) ≠ -1) from by decide, decide_true, if_true,
                  not_false_eq_true, and_self, ne_eq, List.getLast?_cons] at this ⊢
                intro hh
                cases hq : (List.filter (fun x : Int => decide (¬x = 0 ∧ ¬x = -1)) (labels p)).getLast? with
                | none => exact this.2 (List.getLast?_eq_none_iff.mp hq)
                | some x =>
                  rw [hq] at hh this
                  simp only [Option.getD_some, Option.some.injEq] at hh this
                  exact this.1 hh
              · simp only at hp
                cases p with
                | nil => simp [strip]
                | cons b p =>
                  rw [path_cons] at hp
                  obtain ⟨hb, hs, _⟩ := hp
                  simp only [closureWitness, List.mem_cons, List.not_mem_nil, or_false] at hb
                  rcases hb with rfl | rfl | rfl <;> simp at hs
            · intro h
              rw [path_cons] at h
              obtain ⟨ha, hs, hp⟩ := h
              simp only [closureWitness, List.mem_cons, List.not_mem_nil, or_false] at ha
              rcases ha with rfl | rfl | rfl
              · have := ihp.1 hp
                simp only [labels_cons, strip, List.filter_cons] at this ⊢
                simp only [show ((1 : Int) ≠ 0 ∧ (1 : Int) ≠ -1) from by decide, decide_true, if_true,
                  not_false_eq_true, and_self, ne_eq, List.getLast?_cons] at this ⊢
                refine ⟨?_, by simp⟩
                intro hh
                cases hq : (List.filter (fun x : Int => decide (¬x = 0 ∧ ¬x = -1)) (labels p)).getLast? with
                | none => rw [hq] at hh; simp at hh
                | some x =>
                  rw [hq] at hh this
                  simp only [Option.getD_some, Option.some.injEq] at hh this
                  exact this hh
              · simp at hs
              · simp at hs
      exact (this p.length p (Nat.le_refl _)).1
    have hacc : ∀ s w, Accepts closureWitness s w → s.getLast? ≠ some 2 ∧ s ≠ [] := by
      rintro s w ⟨p, ⟨_, hp⟩, rfl, rfl⟩
      cases p with
      | nil => rw [path_nil] at hp; simp [Fsa.final, closureWitness] at hp
      | cons a p =>
        rw [path_cons] at hp
        obtain ⟨ha, hs, hp⟩ := hp
        simp only [closureWitness, List.mem_cons, List.not_mem_nil, or_false] at ha
        rcases ha with rfl | rfl | rfl
        · have := hend p hp
          simp only [labels_cons, strip, List.filter_cons] at this ⊢
          simp only [show ((1 : Int) ≠ 0 ∧ (1 : Int) ≠ -1) from by decide, decide_true, if_true,
            not_false_eq_true, and_self, ne_eq, List.getLast?_cons] at this ⊢
          refine ⟨?_, by simp⟩
          intro hh
          cases hq : (List.filter (fun x : Int => decide (¬x = 0 ∧ ¬x = -1)) (labels p)).getLast? with
          | none => rw [hq] at hh; simp at hh
          | some x =>
            rw [hq] at hh this
            simp only [Option.getD_some, Option.some.injEq] at hh this
            exact this hh
        · simp at hs
        · simp at hs
    have hstar : ∀ s w, Star (Accepts closureWitness) s w → s.getLast? ≠ some 2 := by
      intro s w h
      induction h with
      | nil => simp
      | cons h1 _ ih =>
        have := hacc _ _ h1
        rw [List.getLast?_append]
        intro hh
        cases hq : List.getLast? _ with
        | none => rw [hq] at hh; exact this.1 (by simpa using hh)
        | some x => rw [hq] at hh ih; exact ih (by simpa using hh)
    intro h
    exact hstar _ _ h (by decide)

end Verif.Fsa
