import Verif.Fsa.Pruned.Final

/-!
# The paths of the output
-/

set_option linter.unusedSectionVars false

namespace Verif.Fsa.Dp
open Verif.Ragged Verif.Util Verif.Fsa.Dn Verif.Fsa.Sco Verif.Fsa.Top

section
variable {K : Type} [Field K] [LinearOrder K] [IsStrictOrderedRing K]

local notation "S" => WithBot K

variable (p : Args K) (c : Seq K) (s : (Nat → List Nat) × (Nat → Arc (WithBot K) × Nat → Bool))

/-- Arcs that are left, from state `q` of frame `t` to state `q'`. -/
def Steps : Nat → Nat → List (Arc S × Nat) → Nat → Prop
  | _, q, [], q' => q = q'
  | t, q, x :: xs, q' => t < c.fr.length ∧ x.1.src = q ∧ c.f.flatten[x.2]? = some x.1 ∧ s.2 t x = true ∧
      c.dst (partFlag p c) t x.1 ∈ s.1 (t + 1) ∧ Steps (t + 1) (c.dst (partFlag p c) t x.1) xs q'

/-- The arcs of the output. -/
def entriesOf : Nat → Nat → List (Arc S × Nat) → List (Arc S × Int × Nat)
  | _, _, [] => []
  | t, q, x :: xs => entry p c (lay c s.1) t q x :: entriesOf (t + 1) (c.dst (partFlag p c) t x.1) xs

/-- The score of arcs that start on frame `t`. -/
def stepsScore : Nat → List (Arc S × Nat) → S
  | _, [] => 0
  | t, x :: xs => c.sc (partFlag p c) t x.1 + stepsScore (t + 1) xs

/-- The FSA. -/
def outFsa : List (List (Arc S)) := (outRows p c s).map (fun row => row.map Prod.fst)

/-- The map to the arcs of the graph. -/
def outMapA : List Int := (outRows p c s).flatten.map (fun x => x.2.1)

/-- The map to the scores. -/
def outMapB : List Nat := (outRows p c s).flatten.map (fun x => x.2.2)

theorem outFsa_flatten : (outFsa p c s).flatten = (outRows p c s).flatten.map Prod.fst := by
  unfold outFsa; rw [List.map_flatten]

theorem outFsa_length : (outFsa p c s).length = off (lay c s.1) (c.fr.length + 1) := by
  unfold outFsa outRows; rw [List.length_map, layRows_length]

variable {p c s} (hc : SeqOk c) (hs : Good p c s)
include hc hs

theorem lay_nodup (t : Nat) : (lay c s.1 t).Nodup := by
  unfold lay
  split
  · simp
  · exact hs.nodup t

theorem lay_last (hf : 0 < c.f.length) : lay c s.1 c.fr.length = [c.f.length - 1] := by
  unfold lay
  split
  · rfl
  · rename_i h
    have hne : s.1 c.fr.length ≠ [] := by tauto
    obtain ⟨q, hq⟩ := List.exists_mem_of_ne_nil _ hne
    have h1 : ∀ y ∈ s.1 c.fr.length, y = c.f.length - 1 := by
      intro y hy
      have := hc.alpha_last p y (hs.active _ y hy)
      omega
    exact nodup_single _ _ (hs.nodup _) (by rw [← h1 q hq]; exact hq) h1

theorem lay_empty (hf : ¬ 0 < c.f.length) (t : Nat) : lay c s.1 t = [] := by
  unfold lay
  rw [if_neg (by tauto)]
  apply List.eq_nil_iff_forall_not_mem.mpr
  intro q hq
  have := hc.alpha_lt p t q (hs.active t q hq)
  omega

theorem out_pos : 0 < (outFsa p c s).length ↔ 0 < c.f.length := by
  rw [outFsa_length, off_succ]
  constructor
  · intro h
    by_contra hf
    rw [lay_empty hc hs hf, off_congr _ (fun _ => []) _ (fun t _ => lay_empty hc hs hf t)] at h
    simp [off] at h
  · intro hf
    rw [lay_last hc hs hf]
    simp

theorem num_start (hf : 0 < c.f.length) : num (lay c s.1) 0 0 = 0 := by
  have hp := hc.pos
  rw [num, lay_lt _ _ _ (by omega), hs.start, if_pos hf]
  rfl

theorem num_end (hf : 0 < c.f.length) :
    num (lay c s.1) c.fr.length (c.f.length - 1) = (outFsa p c s).length - 1 := by
  rw [outFsa_length, off_succ, num, lay_last hc hs hf]
  simp

theorem start_mem (hf : 0 < c.f.length) : 0 ∈ s.1 0 := by rw [hs.start, if_pos hf]; simp

/-- The entries of a row. -/
theorem entries_of (t q : Nat) (y : Arc S × Int × Nat) (k : Nat) (hy : (entries p c s t q)[k]? = some y) :
    t < c.fr.length ∧ ∃ x, ((posArcs c.f q).filter (s.2 t))[k]? = some x ∧ y = entry p c (lay c s.1) t q x ∧
      x.1.src = q ∧ c.f.flatten[x.2]? = some x.1 ∧ s.2 t x = true ∧ c.dst (partFlag p c) t x.1 ∈ s.1 (t + 1) := by
  unfold entries at hy
  split at hy
  · rename_i ht
    rw [List.getElem?_map, Option.map_eq_some_iff] at hy
    obtain ⟨x, hx, rfl⟩ := hy
    obtain ⟨h1, h2⟩ := List.mem_filter.mp (List.mem_of_getElem? hx)
    obtain ⟨h3, h4⟩ := (mem_posArcs _ hc.rows _ _).mp h1
    exact ⟨ht, x, hx, rfl, h4, h3, h2, hs.linked t ht x h2⟩
  · simp at hy

theorem entries_mem (t : Nat) (ht : t < c.fr.length) (x : Arc S × Nat)
    (h3 : c.f.flatten[x.2]? = some x.1) (h2 : s.2 t x = true) :
    entry p c (lay c s.1) t x.1.src x ∈ entries p c s t x.1.src := by
  unfold entries
  rw [if_pos ht]
  exact List.mem_map.mpr ⟨x, List.mem_filter.mpr ⟨(mem_posArcs _ hc.rows _ _).mpr ⟨h3, rfl⟩, h2⟩, rfl⟩

/-- Paths of the output consist of arcs that are left. -/
theorem out_steps (is : List Nat) (q : List (Arc S)) (t u t' u' : Nat) (hu : u ∈ lay c s.1 t)
    (hu' : u' ∈ lay c s.1 t') (hch : Chain (num (lay c s.1) t u) q (num (lay c s.1) t' u'))
    (hq : is.map (fun i => (outFsa p c s).flatten[i]?) = q.map some) :
    ∃ xs, Steps p c s t u xs u' ∧ t + xs.length = t' ∧
      is.map (fun i => (outRows p c s).flatten[i]?) = (entriesOf p c s t u xs).map some ∧
      q = (entriesOf p c s t u xs).map Prod.fst := by
  induction q generalizing is t u with
  | nil =>
    have : is = [] := by simpa using hq
    subst this
    obtain ⟨rfl, rfl⟩ := num_inj _ t u t' u' hu hu' hch
    exact ⟨[], rfl, rfl, rfl, rfl⟩
  | cons b q ih =>
    cases is with
    | nil => simp at hq
    | cons i is =>
      rw [List.map_cons, List.map_cons] at hq
      obtain ⟨hb, hq'⟩ := List.cons_eq_cons.mp hq
      obtain ⟨hsrc, hch⟩ := hch
      rw [outFsa_flatten, List.getElem?_map, Option.map_eq_some_iff] at hb
      obtain ⟨y, hy, rfl⟩ := hb
      obtain ⟨t1, q1, k, ht1, hq1, hk, hi⟩ := lay_arc _ _ _ (lay_nodup hc hs) i y hy
      obtain ⟨h1, x, h2, h3, h4, h5, h6, h7⟩ := entries_of hc hs t1 q1 y k hk
      have e : num (lay c s.1) t1 q1 = num (lay c s.1) t u := by rw [← hsrc, h3]; rfl
      obtain ⟨rfl, rfl⟩ := num_inj _ t1 q1 t u hq1 hu e
      have hd : y.1.dst = num (lay c s.1) (t1 + 1) (c.dst (partFlag p c) t1 x.1) := by rw [h3]; rfl
      rw [hd] at hch
      obtain ⟨xs, g1, g2, g3, g4⟩ := ih is (t1 + 1) _ (lay_sub _ _ _ _ h7) hch hq'
      refine ⟨x :: xs, ⟨h1, h4, h5, h6, h7, g1⟩, by rw [List.length_cons]; omega, ?_, ?_⟩
      · rw [List.map_cons, entriesOf, List.map_cons, g3, hy, h3]
      · rw [entriesOf, List.map_cons, ← g4, h3]

/-- Arcs that are left form a path of the output. -/
theorem steps_out (xs : List (Arc S × Nat)) (t u u' : Nat) (hu : u ∈ s.1 t) (h : Steps p c s t u xs u') :
    ∃ is : List Nat, is.map (fun i => (outRows p c s).flatten[i]?) = (entriesOf p c s t u xs).map some ∧
      IPath (outFsa p c s).flatten (num (lay c s.1) t u) is (num (lay c s.1) (t + xs.length) u') ∧
      u' ∈ s.1 (t + xs.length) := by
  induction xs generalizing t u with
  | nil =>
    obtain rfl : u = u' := h
    exact ⟨[], rfl, ⟨[], rfl, rfl⟩, hu⟩
  | cons x xs ih =>
    obtain ⟨h1, rfl, h3, h4, h5, h6⟩ := h
    obtain ⟨is, g1, g2, g3⟩ := ih (t + 1) _ h5 h6
    obtain ⟨k, hk⟩ := List.mem_iff_getElem?.mp (entries_mem hc hs t h1 x h3 h4)
    have hx := lay_arc_mem (lay c s.1) c.fr.length (entries p c s) t x.1.src k _ (by omega) (lay_sub _ _ _ _ hu) hk
    have e : t + 1 + xs.length = t + (x :: xs).length := by rw [List.length_cons]; omega
    rw [e] at g2 g3
    refine ⟨(splits (layRows (lay c s.1) c.fr.length (entries p c s)) (num (lay c s.1) t x.1.src) + k) :: is, ?_, ?_, g3⟩
    · rw [List.map_cons, entriesOf, List.map_cons, g1]
      congr 1
    · rw [ipath_cons]
      refine ⟨(entry p c (lay c s.1) t x.1.src x).1, ?_, rfl, g2⟩
      rw [outFsa_flatten, List.getElem?_map]
      exact congrArg (Option.map Prod.fst) hx

omit hc hs in
theorem entries_score (xs : List (Arc S × Nat)) (t u : Nat) :
    score ((entriesOf p c s t u xs).map Prod.fst) = stepsScore p c t xs := by
  induction xs generalizing t u with
  | nil => rfl
  | cons x xs ih =>
    rw [entriesOf, List.map_cons, stepsScore, ← ih (t + 1) (c.dst (partFlag p c) t x.1)]
    simp [score, entry]

omit hc hs in
theorem entriesOf_length (xs : List (Arc S × Nat)) (t u : Nat) : (entriesOf p c s t u xs).length = xs.length := by
  induction xs generalizing t u with
  | nil => rfl
  | cons x xs ih => rw [entriesOf, List.length_cons, List.length_cons, ih]

omit hc hs in
theorem entriesOf_get (xs : List (Arc S × Nat)) (t u k : Nat) (x : Arc S × Nat) (h : xs[k]? = some x)
    (hst : ∃ u', Steps p c s t u xs u') :
    (entriesOf p c s t u xs)[k]? = some (entry p c (lay c s.1) (t + k) x.1.src x) := by
  induction xs generalizing t u k with
  | nil => simp at h
  | cons y xs ih =>
    obtain ⟨u', h1, h2, h3, h4, h5, h6⟩ := hst
    cases k with
    | zero =>
      simp only [List.getElem?_cons_zero, Option.some.injEq] at h
      subst h
      rw [entriesOf, List.getElem?_cons_zero, Nat.add_zero, h2]
    | succ k =>
      rw [entriesOf, List.getElem?_cons_succ, ih (t + 1) _ k (by simpa using h) ⟨u', h6⟩,
        show t + 1 + k = t + (k + 1) by omega]

omit hc hs in
theorem steps_append (xs ys : List (Arc S × Nat)) (t u v : Nat) :
    Steps p c s t u (xs ++ ys) v ↔ ∃ w, Steps p c s t u xs w ∧ Steps p c s (t + xs.length) w ys v := by
  induction xs generalizing t u with
  | nil =>
    simp only [List.nil_append, Steps, List.length_nil, Nat.add_zero]
    constructor
    · intro h; exact ⟨u, rfl, h⟩
    · rintro ⟨w, rfl, h⟩; exact h
  | cons x xs ih =>
    simp only [List.cons_append, Steps, List.length_cons, ih]
    have e : t + 1 + xs.length = t + (xs.length + 1) := by omega
    rw [e]
    constructor
    · rintro ⟨h1, h2, h3, h4, h5, w, h6, h7⟩; exact ⟨w, ⟨h1, h2, h3, h4, h5, h6⟩, h7⟩
    · rintro ⟨w, ⟨h1, h2, h3, h4, h5, h6⟩, h7⟩; exact ⟨h1, h2, h3, h4, h5, w, h6, h7⟩

omit hc hs in
theorem stepsScore_append (xs ys : List (Arc S × Nat)) (t : Nat) :
    stepsScore p c t (xs ++ ys) = stepsScore p c t xs + stepsScore p c (t + xs.length) ys := by
  induction xs generalizing t with
  | nil => simp [stepsScore]
  | cons x xs ih =>
    rw [List.cons_append, stepsScore, stepsScore, ih, List.length_cons,
      show t + 1 + xs.length = t + (xs.length + 1) by omega, add_assoc]

/-- No path is better than the score of its last state. -/
theorem steps_le (xs : List (Arc S × Nat)) (t u v : Nat) (hu : u ∈ s.1 t) (h : Steps p c s t u xs v) :
    alpha p c t u + stepsScore p c t xs ≤ alpha p c (t + xs.length) v := by
  induction xs generalizing t u with
  | nil =>
    obtain rfl : u = v := h
    simp [stepsScore]
  | cons x xs ih =>
    obtain ⟨h1, rfl, h3, h4, h5, h6⟩ := h
    have g := alpha_ge p c t x.1 (List.mem_of_getElem? h3) (hs.active _ _ h5)
    have := ih (t + 1) _ h5 h6
    rw [stepsScore, ← add_assoc, List.length_cons, show t + (xs.length + 1) = t + 1 + xs.length by omega]
    refine le_trans ?_ this
    gcongr

theorem steps_real (xs : List (Arc S × Nat)) (t u v : Nat) (h : Steps p c s t u xs v) : stepsScore p c t xs ≠ ⊥ := by
  induction xs generalizing t u with
  | nil => rw [stepsScore, ← WithBot.coe_zero]; exact WithBot.coe_ne_bot
  | cons x xs ih =>
    obtain ⟨h1, rfl, h3, h4, h5, h6⟩ := h
    rw [stepsScore]
    intro hb
    rcases WithBot.add_eq_bot.mp hb with h7 | h7
    · exact hs.real t h1 x h4 h7
    · exact ih _ _ h6 h7

/-- Every state is reached by a best path. -/
theorem steps_to (hE : ∀ t < c.fr.length, Entered p c s t) (t q : Nat) (ht : t ≤ c.fr.length) (hq : q ∈ s.1 t) :
    ∃ xs, Steps p c s 0 0 xs q ∧ xs.length = t ∧ stepsScore p c 0 xs = alpha p c t q := by
  induction t generalizing q with
  | zero =>
    rw [hs.start] at hq
    split at hq
    · rename_i hf
      have : q = 0 := by simpa using hq
      subst this
      exact ⟨[], rfl, rfl, by rw [alpha_zero, if_pos ⟨rfl, hf⟩]; rfl⟩
    · simp at hq
  | succ t ih =>
    obtain ⟨x, h1, h2, h3, h4, h5⟩ := hE t (by omega) q hq
    obtain ⟨xs, g1, g2, g3⟩ := ih _ (by omega) h3
    refine ⟨xs ++ [x], (steps_append _ _ _ _ _).mpr ⟨_, g1, ?_⟩, by simp [g2], ?_⟩
    · rw [g2, Nat.zero_add]
      refine ⟨by omega, rfl, h1, h2, by rw [h4]; exact hq, h4⟩
    · rw [stepsScore_append, g2, g3, Nat.zero_add, stepsScore, stepsScore, add_zero, h5]

end

end Verif.Fsa.Dp
