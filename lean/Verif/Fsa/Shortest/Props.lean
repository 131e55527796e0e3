import Verif.Fsa.Shortest.FromArcs
import Verif.Fsa.Scores.Props
import Verif.Fsa.Connect.Props
import Mathlib.Algebra.Order.Monoid.WithTop
import Mathlib.Algebra.Order.Ring.Int

/-!
# shortest_path returns best paths (C39)

The scores of states are `WithBot W`: `⊥` is minus infinity.  The arcs have finite scores, in a linearly
ordered additive monoid `W`; addition is that of `WithBot W` and rounding is not modelled.
-/

namespace Verif.Fsa
open Verif.Ragged Verif.Util Verif.Fsa.Bat Verif.Fsa.Sco Verif.Fsa.Top Verif.Fsa.Best

/-- `js` and `p` are the same path of `f` from its start to its final state, as positions and as arcs. -/
def IsPath {W : Type} (f : Fsa W) (js : List Nat) (p : List (Arc W)) : Prop :=
  0 < f.numStates ∧ Chain 0 p f.final ∧ js.map (f.arcs[·]?) = p.map some

section
variable {W : Type} [AddCommMonoid W] [LinearOrder W] [IsOrderedAddMonoid W]

/-- The score of a state extended by an arc. -/
def extend (x : WithBot W) (w : W) : WithBot W := x + w

theorem path_snoc_cases (A : List (Arc W)) (s t : Nat) (p : List (Arc W)) (a : Arc W) (h : Path A s (p ++ [a]) t) :
    Path A s p a.src ∧ a ∈ A ∧ a.dst = t := by
  obtain ⟨h1, h2⟩ := h
  refine ⟨⟨?_, fun b hb => h2 b (List.mem_append_left _ hb)⟩, h2 a (by simp), ?_⟩
  · clear h2
    induction p generalizing s with
    | nil => exact h1.1.symm
    | cons b p ih => exact ⟨h1.1, ih _ h1.2⟩
  · clear h2
    induction p generalizing s with
    | nil => exact h1.2
    | cons b p ih => exact ih _ h1.2

/-- No path has a greater score than its end state. -/
theorem forward_upper (f : List (List (Arc W))) (hlt : ∀ a ∈ f.flatten, a.src < a.dst ∧ a.dst < f.length)
    (F : Nat → WithBot W) (hF : ForwardEq extend max ⊥ 0 f F) (q : List (Arc W)) :
    ∀ s < f.length, Path f.flatten 0 q s → ((score q : W) : WithBot W) ≤ F s := by
  induction q using List.reverseRecOn with
  | nil =>
    intro s hs h
    obtain rfl : 0 = s := h.1
    rw [hF 0 hs, if_pos rfl]
    exact le_refl _
  | append_singleton q a ih =>
    intro s hs h
    obtain ⟨h1, h2, h3⟩ := path_snoc_cases f.flatten 0 s q a h
    obtain ⟨h4, h5⟩ := hlt a h2
    have h6 := ih a.src (by omega) h1
    rw [hF s hs, if_neg (by omega)]
    have h7 := (reduceRow_max_le ((f.flatten.filter (fun a => decide (a.dst = s))).map
      (fun a => extend (F a.src) a.score)) (⊥ : WithBot W)).2.1 (extend (F a.src) a.score)
      (List.mem_map.mpr ⟨a, List.mem_filter.mpr ⟨h2, by simpa using h3⟩, rfl⟩)
    refine le_trans ?_ h7
    have : score (q ++ [a]) = score q + a.score := by simp [score]
    rw [this, WithBot.coe_add]
    exact add_le_add_left h6 _

/-- Following best arcs back from a state: a path of the score of the state, or the state has no score. -/
theorem trace_score (f : List (List (Arc W))) (hlt : ∀ a ∈ f.flatten, a.src < a.dst ∧ a.dst < f.length)
    (F : Nat → WithBot W) (hF : ForwardEq extend max ⊥ 0 f F) (e : Nat → Option Nat)
    (he : ∀ s < f.length, BestArc extend f F s (e s)) (l : List Nat) :
    ∀ s < f.length, ∀ t, Trace f e s l t → ∃ p, l.reverse.map (f.flatten[·]?) = p.map some ∧ Chain t p s ∧
      F s = if t = 0 then ((score p : W) : WithBot W) else ⊥ := by
  induction l with
  | nil =>
    intro s hs t ht
    obtain ⟨h1, rfl⟩ := ht
    refine ⟨[], rfl, rfl, ?_⟩
    rw [hF s hs]
    split
    · rfl
    · have hnil : f.flatten.filter (fun a => decide (a.dst = s)) = [] := by
        rw [List.filter_eq_nil_iff]
        intro a ha
        simpa using (he s hs).1 h1 a ha
      rw [hnil]
      rfl
  | cons k l ih =>
    intro s hs t ht
    obtain ⟨h1, a, h2, h3⟩ := ht
    obtain ⟨a', h2', h4, h5⟩ := (he s hs).2 k h1
    rw [h2] at h2'
    obtain rfl := Option.some.inj h2'
    have ham := List.mem_of_getElem? h2
    obtain ⟨h6, h7⟩ := hlt a ham
    obtain ⟨p, g1, g2, g3⟩ := ih a.src (by omega) t h3
    refine ⟨p ++ [a], ?_, ?_, ?_⟩
    · rw [List.reverse_cons, List.map_append, List.map_append, g1]
      simp [h2]
    · rw [chain_append]
      exact ⟨a.src, g2, rfl, h4⟩
    · have hs0 : s ≠ 0 := by omega
      rw [hF s hs, if_neg hs0, reduceRow_max_eq _ (extend (F a.src) a.score)
        (List.mem_map.mpr ⟨a, List.mem_filter.mpr ⟨ham, by simpa using h4⟩, rfl⟩) (by
          intro y hy
          obtain ⟨b, hb, rfl⟩ := List.mem_map.mp hy
          obtain ⟨hb1, hb2⟩ := List.mem_filter.mp hb
          exact h5 b hb1 (of_decide_eq_true hb2)), g3]
      split
      · have : score (p ++ [a]) = score p + a.score := by simp [score]
        rw [this, WithBot.coe_add]
        rfl
      · unfold extend
        rw [WithBot.bot_add]

variable (T : List (List (List (Arc W)))) (hT : VecOk T) (hn : T.flatten.length ≤ intMax)
  (hfw : ∀ f ∈ T, ∀ a ∈ f.flatten, a.src < a.dst)
include hT hn hfw

/-- `shortest_path` returns for every FSA its best accepting path, or an empty path if there is none.  The
result does not depend on the device (`lp0`) or the number of threads (`jm`); its score is the score that
`GetForwardScores` gives to the final state.  The FSAs that it returns are the linear FSAs of the paths. -/
theorem shortest_path_is_best :
    ∃ (Q : List (List Nat)) (P : List (List (Arc W))) (fwd : List (WithBot W)),
      Q.length = T.length ∧ P.length = T.length ∧
      (∀ lp0 jm, 0 < jm → shortestPathFsas lp0 jm extend ⊥ 0 (flat T) =
        some (flat (P.map linearRows), Q.flatten.map some)) ∧
      (∀ lp0, forwardScores lp0 extend max ⊥ 0 (flat T) = some fwd) ∧
      ∀ (r : Nat) (f : List (List (Arc W))), T[r]? = some f → ∃ js p,
        Q[r]? = some (js.map (base T r + ·)) ∧ P[r]? = some p ∧
        ((∃ is q, IsPath (rowsFsa f) is q) →
          IsPath (rowsFsa f) js p ∧ (∀ is q, IsPath (rowsFsa f) is q → score q ≤ score p) ∧
          fwd[off T r + (f.length - 1)]? = some ((score p : W) : WithBot W)) ∧
        ((¬ ∃ is q, IsPath (rowsFsa f) is q) → js = [] ∧ p = []) := by
  obtain ⟨fwd, ent, h1, h2, h3, h4, h5⟩ := forwardBest_spec extend (0 : WithBot W) T hT hn hfw
  -- the entering arcs by FSA
  have h6 : ∀ r s, ∃ e : Option Nat, ∀ f, T[r]? = some f → s < f.length →
      ent[off T r + s]? = some (e.map (base T r + ·)) ∧
      BestArc extend f (fun s => fwd.getD (off T r + s) ⊥) s e := by
    intro r s
    cases hf : T[r]? with
    | none => exact ⟨none, fun f h => by simp at h⟩
    | some f =>
      by_cases hs : s < f.length
      · obtain ⟨e, g⟩ := (h5 r f hf).2 s hs
        refine ⟨e, fun f' h' _ => ?_⟩
        obtain rfl := Option.some.inj h'
        exact g
      · refine ⟨none, fun f' h' hs' => ?_⟩
        obtain rfl := Option.some.inj h'
        exact absurd hs' hs
  choose e he using h6
  have hent : EntOk T e ent := by
    refine ⟨h4, fun r f hf s hs => (he r s f hf hs).1, fun r f hf s hs k hk => ?_⟩
    obtain ⟨a, g1, g2, _⟩ := (he r s f hf hs).2.2 k hk
    exact ⟨a, g1, g2⟩
  obtain ⟨Q, q1, q2, q3⟩ := shortestPath_eq T hT hfw e ent hent
  have hlt : ∀ f ∈ T, ∀ a ∈ f.flatten, a.src < a.dst ∧ a.dst < f.length := by
    intro f hf a ha
    exact ⟨hfw f hf a ha, (vec_arc_lt hT hf a ha).2⟩
  -- what each row is
  have hrow : ∀ (r : Nat) (f : List (List (Arc W))), T[r]? = some f → ∃ js p,
      Q[r]? = some (js.map (base T r + ·)) ∧ js.map (f.flatten[·]?) = p.map some ∧
      ((∃ is q, IsPath (rowsFsa f) is q) →
          IsPath (rowsFsa f) js p ∧ (∀ is q, IsPath (rowsFsa f) is q → score q ≤ score p) ∧
          fwd[off T r + (f.length - 1)]? = some ((score p : W) : WithBot W)) ∧
        ((¬ ∃ is q, IsPath (rowsFsa f) is q) → js = [] ∧ p = []) := by
    intro r f hf
    have hfm := List.mem_of_getElem? hf
    rcases q3 r f hf with ⟨rfl, hq⟩ | ⟨l, t, htr, hpos, hq⟩
    · refine ⟨[], [], hq, rfl, ?_, fun _ => ⟨rfl, rfl⟩⟩
      rintro ⟨is, q, hc, _⟩
      simp [rowsFsa] at hc
    · have hFr := (h5 r f hf).1
      have hs : f.length - 1 < f.length := by omega
      obtain ⟨p, g1, g2, g3⟩ := trace_score f (hlt f hfm) _ hFr (e r) (fun s hs => (he r s f hf hs).2) l _ hs t htr
      have hpath : ∀ is q, IsPath (rowsFsa f) is q → Path f.flatten 0 q (f.length - 1) := by
        rintro is q ⟨_, k2, k3⟩
        refine ⟨k2, fun a ha => ?_⟩
        have : some a ∈ is.map (f.flatten[·]?) := by
          have k3' : is.map (f.flatten[·]?) = q.map some := k3
          rw [k3']; exact List.mem_map.mpr ⟨a, ha, rfl⟩
        obtain ⟨i, _, hi⟩ := List.mem_map.mp this
        exact List.mem_of_getElem? hi
      by_cases ht0 : t = 0
      · subst ht0
        rw [if_pos rfl] at hq g3
        refine ⟨l.reverse, p, hq, g1, fun _ => ⟨⟨hpos, g2, g1⟩, ?_, ?_⟩, ?_⟩
        · intro is q hiq
          have := forward_upper f (hlt f hfm) _ hFr q _ hs (hpath is q hiq)
          rw [g3] at this
          exact WithBot.coe_le_coe.mp this
        · have hl : off T r + (f.length - 1) < fwd.length := by
            rw [h3]; exact off_lt T r _ f hf hs
          rw [← g3, List.getD_eq_getElem?_getD, List.getElem?_eq_getElem hl]
          rfl
        · intro hc
          exact absurd ⟨l.reverse, p, hpos, g2, g1⟩ hc
      · rw [if_neg ht0] at hq g3
        refine ⟨[], [], hq, rfl, ?_, fun _ => ⟨rfl, rfl⟩⟩
        rintro ⟨is, q, hiq⟩
        have := forward_upper f (hlt f hfm) _ hFr q _ hs (hpath is q hiq)
        rw [g3, le_bot_iff] at this
        exact absurd this WithBot.coe_ne_bot
  have hchoose : ∀ r, ∃ x : List Nat × List (Arc W), ∀ f, T[r]? = some f →
      Q[r]? = some (x.1.map (base T r + ·)) ∧ x.1.map (f.flatten[·]?) = x.2.map some ∧
      ((∃ is q, IsPath (rowsFsa f) is q) →
          IsPath (rowsFsa f) x.1 x.2 ∧ (∀ is q, IsPath (rowsFsa f) is q → score q ≤ score x.2) ∧
          fwd[off T r + (f.length - 1)]? = some ((score x.2 : W) : WithBot W)) ∧
        ((¬ ∃ is q, IsPath (rowsFsa f) is q) → x.1 = [] ∧ x.2 = []) := by
    intro r
    cases hf : T[r]? with
    | none => exact ⟨([], []), fun f h => by simp at h⟩
    | some f =>
      obtain ⟨js, p, g⟩ := hrow r f hf
      refine ⟨(js, p), fun f' h' => ?_⟩
      obtain rfl := Option.some.inj h'
      exact g
  choose X hX using hchoose
  refine ⟨Q, (List.range T.length).map (fun r => (X r).2), fwd, q1, by simp, ?_, h2, ?_⟩
  · intro lp0 jm hjm
    unfold shortestPathFsas
    simp only [h1 lp0, q2 lp0 jm hjm, Option.bind_eq_bind, Option.bind_some]
    rw [fsaVecFromArcIndexes_eq (flat T) Q ((List.range T.length).map (fun r => (X r).2))
      (by rw [flat_sp1_length, q1]) (by simp [q1]) (by
        intro r row p hr hp
        have hrl : r < T.length := by rw [← q1]; exact (List.getElem?_eq_some_iff.mp hr).1
        obtain ⟨f, hf⟩ : ∃ f, T[r]? = some f := ⟨_, List.getElem?_eq_getElem hrl⟩
        obtain ⟨k1, k2, _⟩ := hX r f hf
        rw [List.getElem?_map, List.getElem?_range hrl] at hp
        obtain rfl := Option.some.inj hp
        rw [hr] at k1
        obtain rfl := Option.some.inj k1
        show _ = (X r).2.map some
        rw [← k2, List.map_map]
        apply List.map_congr_left
        intro k hk
        have hkm : f.flatten[k]? ∈ (X r).2.map some := by
          rw [← k2]
          exact List.mem_map.mpr ⟨k, hk, rfl⟩
        obtain ⟨a, _, ha⟩ := List.mem_map.mp hkm
        show (flat T).arcs[base T r + k]? = f.flatten[k]?
        rw [← ha]
        exact (Best.arc_at T hT r k f a hf ha.symm).1)]
    rfl
  · intro r f hf
    have hrl := (List.getElem?_eq_some_iff.mp hf).1
    obtain ⟨k1, _, k3, k4⟩ := hX r f hf
    refine ⟨(X r).1, (X r).2, k1, ?_, k3, k4⟩
    rw [List.getElem?_map, List.getElem?_range hrl]
    rfl

end

section
variable {W : Type}

/-- For any entering arcs, the trace-back by powers of two gives what following the arcs one by one gives,
for every device and number of threads; an FSA whose trace does not reach its start state gets no path. -/
theorem power_doubling_is_sequential (T : List (List (List (Arc W)))) (hT : VecOk T)
    (hfw : ∀ f ∈ T, ∀ a ∈ f.flatten, a.src < a.dst) (e : Nat → Nat → Option Nat) (ent : List (Option Nat))
    (he : EntOk T e ent) (lp0 jm : Nat) (hjm : 0 < jm) :
    ∃ Q : List (List Nat), Q.length = T.length ∧
      shortestPath lp0 jm (flat T) ent = some (psum (Q.map List.length), Q.flatten.map some) ∧
      ∀ (r : Nat) (f : List (List (Arc W))), T[r]? = some f → 0 < f.length →
        ∀ l t, Trace f (e r) (f.length - 1) l t →
          Q[r]? = some (if t = 0 then l.reverse.map (base T r + ·) else []) := by
  obtain ⟨Q, h1, h2, h3⟩ := shortestPath_eq T hT hfw e ent he
  refine ⟨Q, h1, h2 lp0 jm hjm, ?_⟩
  intro r f hf hpos l t ht
  rcases h3 r f hf with ⟨rfl, _⟩ | ⟨l', t', ht', _, hq⟩
  · simp at hpos
  · obtain ⟨rfl, rfl⟩ := trace_unique f (e r) _ _ _ _ _ ht ht'
    exact hq

/-- The linear FSA of a path accepts exactly that path, renumbered. -/
theorem linear_fsa_accepts (p : List (Arc W)) (is : List Nat) :
    IAccepting (rowsFsa (linearRows p)) is ↔ p ≠ [] ∧ is = List.range p.length := by
  by_cases hp : p = []
  · subst hp
    simp [IAccepting, rowsFsa, linearRows]
  have hlen := linearRows_length p
  rw [if_neg (by simpa using hp)] at hlen
  have hfl : (linearRows p).flatten = p.mapIdx (fun i a => (⟨i, i + 1, a.label, a.score⟩ : Arc W)) := by
    unfold linearRows
    rw [if_neg hp, List.flatten_append]
    have : ∀ (q : List (Arc W)) (g : Nat → Arc W → Arc W), (q.mapIdx (fun i a => [g i a])).flatten = q.mapIdx g := by
      intro q
      induction q with
      | nil => intro g; rfl
      | cons a q ih =>
        intro g
        rw [List.mapIdx_cons, List.mapIdx_cons, List.flatten_cons, ih (fun i => g (i + 1))]
        rfl
    rw [this]
    simp
  have hget : ∀ (i : Nat) (a : Arc W), (linearRows p).flatten[i]? = some a → a.src = i ∧ a.dst = i + 1 ∧ i < p.length := by
    intro i a h
    rw [hfl, List.getElem?_mapIdx] at h
    obtain ⟨b, hb, rfl⟩ := Option.map_eq_some_iff.mp h
    exact ⟨rfl, rfl, (List.getElem?_eq_some_iff.mp hb).1⟩
  have hex : ∀ i < p.length, ∃ a, (linearRows p).flatten[i]? = some a := by
    intro i hi
    rw [hfl, List.getElem?_mapIdx, List.getElem?_eq_getElem hi]
    exact ⟨_, rfl⟩
  have hpath : ∀ (n s : Nat) (is : List Nat), s + n = p.length →
      (IPath (linearRows p).flatten s is p.length ↔ is = List.range' s n) := by
    intro n
    induction n with
    | zero =>
      intro s is hs
      cases is with
      | nil => simp [ipath_nil]; omega
      | cons i is =>
        rw [ipath_cons]
        constructor
        · rintro ⟨a, h1, h2, _⟩
          obtain ⟨h3, _, h4⟩ := hget i a h1
          omega
        · intro h; simp at h
    | succ n ih =>
      intro s is hs
      cases is with
      | nil =>
        rw [ipath_nil]
        constructor
        · intro h; omega
        · intro h; simp [List.range'_succ] at h
      | cons i is =>
        rw [ipath_cons, List.range'_succ, List.cons.injEq]
        constructor
        · rintro ⟨a, h1, h2, h3⟩
          obtain ⟨h4, h5, _⟩ := hget i a h1
          rw [h5] at h3
          refine ⟨by omega, ?_⟩
          rw [show i + 1 = s + 1 by omega] at h3
          exact (ih (s + 1) is (by omega)).mp h3
        · rintro ⟨rfl, rfl⟩
          obtain ⟨a, ha⟩ := hex i (by omega)
          obtain ⟨h4, h5, _⟩ := hget i a ha
          refine ⟨a, ha, h4, ?_⟩
          rw [h5]
          exact (ih (i + 1) _ (by omega)).mpr rfl
  unfold IAccepting
  have hfin : (rowsFsa (linearRows p)).final = p.length := by
    simp [rowsFsa, Fsa.final, hlen]
  have harcs : (rowsFsa (linearRows p)).arcs = (linearRows p).flatten := rfl
  rw [hfin, harcs, hpath p.length 0 is (by omega), ← List.range_eq_range']
  constructor
  · rintro ⟨_, h⟩; exact ⟨hp, h⟩
  · rintro ⟨_, h⟩; exact ⟨by simp [rowsFsa, hlen], h⟩
end

/-! ## Examples -/

/-- Two paths to state 3, the second one is better; an FSA whose final state cannot be reached; an empty FSA. -/
def shortestExample : List (List (List (Arc Int))) :=
  [[[⟨0, 1, 1, -1⟩, ⟨0, 2, 2, -3⟩], [⟨1, 3, 1, -4⟩], [⟨2, 3, 1, 0⟩], [⟨3, 4, -1, 0⟩], []],
   [[], [⟨1, 2, -1, 7⟩], []], []]

theorem shortestExample_ok : VecOk shortestExample := by
  intro f hf
  simp only [shortestExample, List.mem_cons, List.not_mem_nil, or_false] at hf
  rcases hf with rfl | rfl | rfl
  · intro s row hs a ha
    match s with
    | 0 => simp at hs; subst hs; simp at ha; rcases ha with rfl | rfl <;> decide
    | 1 => simp at hs; subst hs; simp at ha; subst ha; decide
    | 2 => simp at hs; subst hs; simp at ha; subst ha; decide
    | 3 => simp at hs; subst hs; simp at ha; subst ha; decide
    | 4 => simp at hs; subst hs; simp at ha
    | s + 5 => simp at hs
  · intro s row hs a ha
    match s with
    | 0 => simp at hs; subst hs; simp at ha
    | 1 => simp at hs; subst hs; simp at ha; subst ha; decide
    | 2 => simp at hs; subst hs; simp at ha
    | s + 3 => simp at hs
  · intro s row hs
    simp at hs

example : shortestExample.flatten.length ≤ intMax := by decide
example : ∀ f ∈ shortestExample, ∀ a ∈ f.flatten, a.src < a.dst := by decide

/-- Arcs 1, 3 and 4 for the first FSA, nothing for the others. -/
example : (shortestPathFsas 0 2 extend ⊥ (0 : WithBot Int) (flat shortestExample)).map Prod.snd =
    some [some 1, some 3, some 4] := by decide +kernel

example : (shortestPathFsas 4 1 extend ⊥ (0 : WithBot Int) (flat shortestExample)).map (fun x => (x.1.sp1, x.1.sp2, x.1.arcs)) =
    some ([0, 4, 4, 4], [0, 1, 2, 3, 3], [⟨0, 1, 2, -3⟩, ⟨1, 2, 1, 0⟩, ⟨2, 3, -1, 0⟩]) := by decide +kernel

example : ∃ is q, IsPath (rowsFsa (shortestExample.getD 0 [])) is q :=
  ⟨[0, 2, 4], [⟨0, 1, 1, -1⟩, ⟨1, 3, 1, -4⟩, ⟨3, 4, -1, 0⟩], by decide, by simp [Chain]; decide, by decide⟩

/-- Arcs of minus infinite score: state 1 cannot be reached, but of two arcs with equal values the last one is
taken, so the result is empty although there is an accepting path. -/
theorem shortest_path_minus_inf :
    ∃ T : List (List (List (Arc (WithBot Int)))), (∀ f ∈ T, ∀ a ∈ f.flatten, a.src < a.dst) ∧
      (∃ is q, T.map rowsFsa = [rowsFsa (T.getD 0 [])] ∧ IsPath (rowsFsa (T.getD 0 [])) is q) ∧
      (shortestPathFsas 0 1 (fun x w => x + w) ⊥ (0 : WithBot Int) (flat T)).map Prod.snd = some [] := by
  refine ⟨[[[⟨0, 2, -1, ⊥⟩], [⟨1, 2, -1, 0⟩], []]], by decide, ⟨[0], [⟨0, 2, -1, ⊥⟩], rfl, ?_⟩, by decide +kernel⟩
  exact ⟨by decide, by simp [Chain]; decide, by decide⟩

end Verif.Fsa
