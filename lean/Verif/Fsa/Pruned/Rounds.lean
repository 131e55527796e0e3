import Verif.Fsa.Pruned.Backward
import Mathlib.Tactic.Linarith

/-!
# All frames, all rounds of pruning
-/

set_option linter.unusedSectionVars false

namespace Verif.Fsa.Dp
open Verif.Ragged Verif.Util Verif.Fsa.Dn

section
variable {K : Type} [Field K] [LinearOrder K] [IsStrictOrderedRing K]

local notation "S" => WithBot K

/-! ## One sequence -/

/-- One round of pruning. -/
def prune1 (p : Args K) (c : Seq K) (s : (Nat → List Nat) × (Nat → Arc S × Nat → Bool)) (r : Nat × Nat) :
    (Nat → List Nat) × (Nat → Arc S × Nat → Bool) :=
  (newL p c s.1 s.2 r.1 r.2, newR p c s.1 s.2 r.1 r.2)

/-- Rounds of pruning. -/
def pruneAll (p : Args K) (c : Seq K) (rs : List (Nat × Nat))
    (s : (Nat → List Nat) × (Nat → Arc S × Nat → Bool)) : (Nat → List Nat) × (Nat → Arc S × Nat → Bool) :=
  rs.foldl (prune1 p c) s

theorem newL_sub (p : Args K) (c : Seq K) (L : Nat → List Nat) (R : Nat → Arc S × Nat → Bool)
    (lo hi t q : Nat) (h : q ∈ newL p c L R lo hi t) : q ∈ L t := (List.mem_filter.mp h).1

theorem newL_active (p : Args K) (c : Seq K) (L : Nat → List Nat) (R : Nat → Arc S × Nat → Bool)
    (lo hi : Nat) (h : Active p c L) : Active p c (newL p c L R lo hi) :=
  fun t q hq => h t q (newL_sub p c L R lo hi t q hq)

theorem pruneAll_active (p : Args K) (c : Seq K) (rs : List (Nat × Nat))
    (s : (Nat → List Nat) × (Nat → Arc S × Nat → Bool)) (h : Active p c s.1) :
    Active p c (pruneAll p c rs s).1 := by
  induction rs generalizing s with
  | nil => exact h
  | cons r rs ih => exact ih _ (newL_active p c s.1 s.2 r.1 r.2 h)

theorem pruneAll_nodup (p : Args K) (c : Seq K) (rs : List (Nat × Nat))
    (s : (Nat → List Nat) × (Nat → Arc S × Nat → Bool)) (h : ∀ t, (s.1 t).Nodup) :
    ∀ t, ((pruneAll p c rs s).1 t).Nodup := by
  induction rs generalizing s with
  | nil => exact h
  | cons r rs ih => exact ih _ (fun t => (h t).filter _)

theorem pruneAll_sub (p : Args K) (c : Seq K) (rs : List (Nat × Nat))
    (s : (Nat → List Nat) × (Nat → Arc S × Nat → Bool)) (t q : Nat) (h : q ∈ (pruneAll p c rs s).1 t) :
    q ∈ s.1 t := by
  induction rs generalizing s with
  | nil => exact h
  | cons r rs ih => exact newL_sub p c s.1 s.2 r.1 r.2 t q (ih _ h)

theorem pruneAll_subR (p : Args K) (c : Seq K) (rs : List (Nat × Nat))
    (s : (Nat → List Nat) × (Nat → Arc S × Nat → Bool)) (t : Nat) (x : Arc S × Nat)
    (h : (pruneAll p c rs s).2 t x = true) : s.2 t x = true := by
  induction rs generalizing s with
  | nil => exact h
  | cons r rs ih =>
    have := ih _ h
    change newR p c s.1 s.2 r.1 r.2 t x = true at this
    unfold newR at this
    split at this
    · exact (Bool.and_eq_true _ _ ▸ this).1
    · exact this

/-- The first frame stays as it is. -/
theorem pruneAll_zero (p : Args K) (c : Seq K) (rs : List (Nat × Nat))
    (s : (Nat → List Nat) × (Nat → Arc S × Nat → Bool)) : (pruneAll p c rs s).1 0 = s.1 0 := by
  induction rs generalizing s with
  | nil => rfl
  | cons r rs ih =>
    refine (ih _).trans ?_
    exact newL_out p c s.1 s.2 r.1 r.2 0 (by omega)

theorem back_final (p : Args K) (c : Seq K) (L : Nat → List Nat) (R : Nat → Arc S × Nat → Bool)
    (hi t : Nat) (ht : t ≤ hi) (q : Nat) (hq : q + 1 = c.f.length) :
    back p c L R hi (hi - t) q = neg (alpha p c t q) := by
  rcases Nat.eq_or_lt_of_le ht with rfl | h
  · rw [Nat.sub_self]; rfl
  · obtain ⟨k, hk⟩ : ∃ k, hi - t = k + 1 := ⟨hi - t - 1, by omega⟩
    rw [hk, back, stepBack, if_pos (by omega), show hi - (k + 1) = t by omega]

/-- The final state of the graph is never removed. -/
theorem newL_final (p : Args K) (c : Seq K) (L : Nat → List Nat) (R : Nat → Arc S × Nat → Bool)
    (lo hi t q : Nat) (hL : Active p c L) (hq : q + 1 = c.f.length) (h : q ∈ L t) :
    q ∈ newL p c L R lo hi t := by
  by_cases ht : lo < t ∧ t < hi
  · refine List.mem_filter.mpr ⟨h, ?_⟩
    unfold keepSt
    rw [back_final p c L R hi t (by omega) q hq, Bool.or_eq_true]
    right
    rw [decide_eq_true_eq, neg_ne_bot]
    exact hL t q h
  · rw [newL_out p c L R lo hi t ht]; exact h

theorem pruneAll_final (p : Args K) (c : Seq K) (rs : List (Nat × Nat))
    (s : (Nat → List Nat) × (Nat → Arc S × Nat → Bool)) (hs : Active p c s.1) (t q : Nat)
    (hq : q + 1 = c.f.length) (h : q ∈ s.1 t) : q ∈ (pruneAll p c rs s).1 t := by
  induction rs generalizing s with
  | nil => exact h
  | cons r rs ih =>
    exact ih _ (newL_active p c s.1 s.2 r.1 r.2 hs) (newL_final p c s.1 s.2 r.1 r.2 t q hs hq h)

/-- Every arc of the frame leads to a state that is there. -/
def Linked (p : Args K) (c : Seq K) (s : (Nat → List Nat) × (Nat → Arc S × Nat → Bool)) (t : Nat) : Prop :=
  ∀ x, s.2 t x = true → c.dst (partFlag p c) t x.1 ∈ s.1 (t + 1)

theorem prune1_links (p : Args K) (c : Seq K) (s : (Nat → List Nat) × (Nat → Arc S × Nat → Bool))
    (r : Nat × Nat) (t : Nat) (h : (r.1 ≤ t ∧ t < r.2) ∨ Linked p c s t) : Linked p c (prune1 p c s r) t := by
  intro x hx
  change newR p c s.1 s.2 r.1 r.2 t x = true at hx
  change _ ∈ newL p c s.1 s.2 r.1 r.2 (t + 1)
  unfold newR at hx
  split at hx
  · rename_i hr
    rw [Bool.and_eq_true] at hx
    have hx := hx.2
    simp only [keepArc, Bool.and_eq_true, decide_eq_true_eq] at hx
    refine List.mem_filter.mpr ⟨hx.1, ?_⟩
    unfold keepSt
    rw [Bool.or_eq_true]
    right
    rw [decide_eq_true_eq]
    intro hb
    rw [hb, WithBot.add_bot, WithBot.bot_add] at hx
    exact absurd hx.2 (by simp)
  · rename_i hr
    rcases h with h | h
    · exact absurd h hr
    · have := h x hx
      by_cases hin : r.1 < t + 1 ∧ t + 1 < r.2
      · omega
      · rw [newL_out p c s.1 s.2 r.1 r.2 (t + 1) hin]; exact this

theorem pruneAll_links (p : Args K) (c : Seq K) (rs : List (Nat × Nat))
    (s : (Nat → List Nat) × (Nat → Arc S × Nat → Bool)) (t : Nat)
    (h : (∃ r ∈ rs, r.1 ≤ t ∧ t < r.2) ∨ Linked p c s t) : Linked p c (pruneAll p c rs s) t := by
  induction rs generalizing s with
  | nil =>
    rcases h with ⟨r, hr, -⟩ | h
    · simp at hr
    · exact h
  | cons r rs ih =>
    apply ih
    rcases h with ⟨r', hr', h'⟩ | h
    · rcases List.mem_cons.mp hr' with rfl | h3
      · exact Or.inr (prune1_links p c s r' t (Or.inl h'))
      · exact Or.inl ⟨r', h3, h'⟩
    · exact Or.inr (prune1_links p c s r t (Or.inr h))

/-! ## Runs through the search -/

/-- A run: arcs `X t` between the states `Q t`, all of which are there. -/
structure Run (p : Args K) (c : Seq K) (s : (Nat → List Nat) × (Nat → Arc S × Nat → Bool))
    (X : Nat → Arc S × Nat) (Q : Nat → Nat) : Prop where
  start : Q 0 = 0
  arc : ∀ t < c.fr.length, c.f.flatten[(X t).2]? = some (X t).1
  src : ∀ t < c.fr.length, (X t).1.src = Q t
  dst : ∀ t < c.fr.length, c.dst (partFlag p c) t (X t).1 = Q (t + 1)
  st : ∀ t ≤ c.fr.length, Q t ∈ s.1 t
  kept : ∀ t < c.fr.length, s.2 t (X t) = true

/-- The score of the first `t` arcs. -/
def preScore (p : Args K) (c : Seq K) (X : Nat → Arc S × Nat) : Nat → S
  | 0 => 0
  | t + 1 => preScore p c X t + c.sc (partFlag p c) t (X t).1

theorem preScore_ne_bot (p : Args K) (c : Seq K) (X : Nat → Arc S × Nat) (n t : Nat) (h : t ≤ n)
    (hn : preScore p c X n ≠ ⊥) : preScore p c X t ≠ ⊥ := by
  induction h with
  | refl => exact hn
  | step _ ih =>
    apply ih
    intro hb
    rw [preScore, hb, WithBot.bot_add] at hn
    exact hn rfl

/-- Runs within the output beam survive a round. -/
theorem run_survives (p : Args K) (c : Seq K) (hc : SeqOk c) (hn : 0 < p.outputBeam)
    (s : (Nat → List Nat) × (Nat → Arc S × Nat → Bool)) (hs : Active p c s.1) (X : Nat → Arc S × Nat)
    (Q : Nat → Nat) (hr : Run p c s X Q)
    (hsc : alpha p c c.fr.length (Q c.fr.length) + ((-p.outputBeam : K) : S) ≤ preScore p c X c.fr.length)
    (r : Nat × Nat) : Run p c (prune1 p c s r) X Q := by
  obtain ⟨lo, hi⟩ := r
  set n := c.fr.length with hnn
  have hA : ∀ t ≤ n, alpha p c t (Q t) ≠ ⊥ := fun t ht => hs t _ (hr.st t ht)
  have hpn : preScore p c X n ≠ ⊥ := by
    intro hb
    rw [hb, le_bot_iff] at hsc
    rcases WithBot.add_eq_bot.mp hsc with h | h
    · exact hA n le_rfl h
    · exact WithBot.coe_ne_bot h
  have hex : ∀ t, ∃ u a : K, t ≤ n → preScore p c X t = (u : S) ∧ alpha p c t (Q t) = (a : S) := by
    intro t
    by_cases ht : t ≤ n
    · obtain ⟨u, hu⟩ := WithBot.ne_bot_iff_exists.mp (preScore_ne_bot p c X n t ht hpn)
      obtain ⟨a, ha⟩ := WithBot.ne_bot_iff_exists.mp (hA t ht)
      exact ⟨u, a, fun _ => ⟨hu.symm, ha.symm⟩⟩
    · exact ⟨0, 0, fun h => absurd h ht⟩
  choose u a hua using hex
  have hstep : ∀ t < n, c.sc (partFlag p c) t (X t).1 = ((u (t + 1) - u t : K) : S) := by
    intro t ht
    have h1 := (hua (t + 1) ht).1
    rw [preScore, (hua t (by omega)).1] at h1
    cases hsc' : c.sc (partFlag p c) t (X t).1 with
    | bot => rw [hsc', WithBot.add_bot] at h1; exact absurd h1.symm WithBot.coe_ne_bot
    | coe k =>
      rw [hsc', ← WithBot.coe_add, WithBot.coe_inj] at h1
      rw [WithBot.coe_inj, ← h1]; ring
  have hage : ∀ t < n, a t + (u (t + 1) - u t) ≤ a (t + 1) := by
    intro t ht
    have h1 := alpha_ge p c t (X t).1 (List.mem_of_getElem? (hr.arc t ht)) (by
      rw [hr.dst t ht]; exact hA (t + 1) ht)
    rw [hr.dst t ht, hr.src t ht, (hua t (by omega)).2, (hua (t + 1) ht).2, hstep t ht,
      ← WithBot.coe_add, WithBot.coe_le_coe] at h1
    exact h1
  have hmono : ∀ t m, t ≤ m → m ≤ n → a t - u t ≤ a m - u m := by
    intro t m htm
    induction htm with
    | refl => intro _; exact le_rfl
    | @step m _ ih =>
      intro hm
      have h1 := ih (by omega)
      have h2 := hage m (by omega)
      change a t - u t ≤ a (m + 1) - u (m + 1)
      linarith
  have hfn : a n - p.outputBeam ≤ u n := by
    rw [(hua n le_rfl).1, (hua n le_rfl).2, ← WithBot.coe_add, WithBot.coe_le_coe] at hsc
    linarith
  have hge0 : ∀ t ≤ n, 0 ≤ a t - u t := by
    intro t ht
    have h1 := hmono 0 t (by omega) ht
    have h2 := (hua 0 (by omega)).1
    have h3 := (hua 0 (by omega)).2
    rw [preScore, ← WithBot.coe_zero, WithBot.coe_inj] at h2
    rw [hr.start, alpha_zero] at h3
    have h4 : a 0 = 0 := by
      split at h3
      · rw [← WithBot.coe_zero, WithBot.coe_inj] at h3; exact h3.symm
      · exact absurd h3.symm WithBot.coe_ne_bot
    rw [← h2, h4] at h1
    linarith
  have hfl : ∀ t < n, Q t + 1 < c.f.length := by
    intro t ht
    have := hc.fin _ (List.mem_of_getElem? (hr.arc t ht))
    rw [hr.src t ht] at this
    exact this
  -- the backward scores, by induction from the end
  have key : ∀ d m, m = min hi n → ∀ t, t + d = m →
      ((u m - u t - a m : K) : S) ≤ back p c s.1 s.2 hi (hi - t) (Q t) := by
    intro d m hm
    have hmn : m ≤ n := by omega
    have hmh : m ≤ hi := by omega
    have htail : a m - u m ≤ p.outputBeam := by
      have := hmono m n hmn le_rfl
      linarith
    induction d with
    | zero =>
      intro t ht
      obtain rfl : t = m := by omega
      have hneg : neg (alpha p c t (Q t)) = ((-a t : K) : S) := by rw [(hua t hmn).2]; rfl
      have hb : back p c s.1 s.2 hi (hi - t) (Q t) = neg (alpha p c t (Q t)) := by
        rcases Nat.lt_or_ge t hi with h | h
        · have htn : t = n := by omega
          apply back_final p c s.1 s.2 hi t (by omega)
          have := hA t hmn
          rw [htn] at this ⊢
          exact hc.alpha_last p _ this
        · have : hi = t := by omega
          rw [this, Nat.sub_self]; rfl
      rw [hb, hneg, WithBot.coe_le_coe]
      linarith
    | succ d ih =>
      intro t ht
      have htn : t < n := by omega
      have h1 := ih (t + 1) (by omega)
      obtain ⟨k, hk⟩ : ∃ k, hi - t = k + 1 := ⟨hi - t - 1, by omega⟩
      have e1 : hi - (t + 1) = k := by omega
      have e2 : hi - (k + 1) = t := by omega
      have e3 : hi - k = t + 1 := by omega
      rw [e1] at h1
      have hq := hfl t htn
      rw [hk, back, e2, e3, stepBack, if_neg (by omega)]
      have hle : ((u m - u t - a m : K) : S) ≤ c.sc (partFlag p c) t (X t).1 +
          back p c s.1 s.2 hi k (Q (t + 1)) := by
        calc ((u m - u t - a m : K) : S) = ((u (t + 1) - u t : K) : S) + ((u m - u (t + 1) - a m : K) : S) := by
              rw [← WithBot.coe_add, WithBot.coe_inj]; ring
          _ ≤ _ := by rw [hstep t htn]; gcongr
      have hka : keepArc p c t (s.1 (t + 1)) (back p c s.1 s.2 hi k) (Q t) (X t) = true := by
        simp only [keepArc, Bool.and_eq_true, decide_eq_true_eq]
        rw [hr.dst t htn]
        refine ⟨hr.st (t + 1) htn, ?_⟩
        have h2 := hge0 t (by omega)
        calc ((-p.outputBeam : K) : S) ≤ ((u m - u t - a m : K) : S) + ((a t : K) : S) := by
              rw [← WithBot.coe_add, WithBot.coe_le_coe]; linarith
          _ ≤ _ := by rw [(hua t (by omega)).2]; gcongr
      refine le_trans hle (le_mx _ _ (List.mem_map.mpr ⟨X t, List.mem_filter.mpr ⟨?_, hr.kept t htn⟩, ?_⟩))
      · exact (mem_posArcs _ hc.rows _ _).mpr ⟨hr.arc t htn, hr.src t htn⟩
      · rw [if_pos hka, hr.dst t htn]
  refine ⟨hr.start, hr.arc, hr.src, hr.dst, ?_, ?_⟩
  · intro t ht
    change Q t ∈ newL p c s.1 s.2 lo hi t
    by_cases hin : lo < t ∧ t < hi
    · refine List.mem_filter.mpr ⟨hr.st t ht, ?_⟩
      unfold keepSt
      rw [Bool.or_eq_true]
      right
      rw [decide_eq_true_eq]
      intro hb
      have := key (min hi n - t) _ rfl t (by omega)
      rw [hb, le_bot_iff] at this
      exact WithBot.coe_ne_bot this
    · rw [newL_out p c s.1 s.2 lo hi t hin]; exact hr.st t ht
  · intro t ht
    change newR p c s.1 s.2 lo hi t (X t) = true
    unfold newR
    split
    · rename_i hin
      rw [Bool.and_eq_true]
      refine ⟨hr.kept t ht, ?_⟩
      simp only [keepArc, Bool.and_eq_true, decide_eq_true_eq]
      rw [hr.dst t ht, hr.src t ht]
      refine ⟨hr.st (t + 1) ht, ?_⟩
      have h1 := key (min hi n - (t + 1)) _ rfl (t + 1) (by omega)
      have h2 := hge0 t (by omega)
      have h3 := hmono (min hi n) n (by omega) le_rfl
      calc ((-p.outputBeam : K) : S) ≤ ((u (t + 1) - u t : K) : S) +
            ((u (min hi n) - u (t + 1) - a (min hi n) : K) : S) + ((a t : K) : S) := by
              rw [← WithBot.coe_add, ← WithBot.coe_add, WithBot.coe_le_coe]; linarith
        _ ≤ _ := by rw [hstep t ht, (hua t (by omega)).2]; gcongr
    · exact hr.kept t ht

theorem run_survives_all (p : Args K) (c : Seq K) (hc : SeqOk c) (hn : 0 < p.outputBeam)
    (rs : List (Nat × Nat)) (s : (Nat → List Nat) × (Nat → Arc S × Nat → Bool)) (hs : Active p c s.1)
    (X : Nat → Arc S × Nat) (Q : Nat → Nat) (hr : Run p c s X Q)
    (hsc : alpha p c c.fr.length (Q c.fr.length) + ((-p.outputBeam : K) : S) ≤ preScore p c X c.fr.length) :
    Run p c (pruneAll p c rs s) X Q := by
  induction rs generalizing s with
  | nil => exact hr
  | cons r rs ih =>
    exact ih _ (newL_active p c s.1 s.2 r.1 r.2 hs) (run_survives p c hc hn s hs X Q hr hsc r)

/-! ## The ranges -/

theorem pruneRanges_ok (T k : Nat) (h : 20 * k - 10 < T) : ∀ r ∈ pruneRanges T k, r.1 < r.2 ∧ r.2 ≤ T := by
  rw [pruneRanges]
  split
  · intro r hr
    rw [List.mem_singleton] at hr
    subst hr
    exact ⟨h, le_rfl⟩
  · intro r hr
    rcases List.mem_cons.mp hr with rfl | hr
    · simp only; omega
    · exact pruneRanges_ok T (k + 1) (by omega) r hr
termination_by T - 20 * k

theorem pruneRanges_cover (T k t : Nat) (h : 20 * k - 10 ≤ t) (ht : t < T) :
    ∃ r ∈ pruneRanges T k, r.1 ≤ t ∧ t < r.2 := by
  rw [pruneRanges]
  split
  · exact ⟨_, List.mem_singleton.mpr rfl, h, ht⟩
  · by_cases ht' : t < 20 * k + 20
    · exact ⟨_, List.mem_cons_self, h, ht'⟩
    · obtain ⟨r, h1, h2⟩ := pruneRanges_cover T (k + 1) t (by omega) ht
      exact ⟨r, List.mem_cons_of_mem _ h1, h2⟩
termination_by T - 20 * k

/-! ## The batch -/

variable {p : Args K} {c : Nat → Seq K} (hp : Setup p c)
include hp

theorem Setup.initialFrame_eq : initialFrame p = some ((List.range p.seqs).map (fun i =>
    stRow (c i) (alpha p (c i) 0) (fun _ => ⊥) (if 0 < (c i).f.length then [0] else []))) := by
  unfold initialFrame
  apply mapM_id'
  intro i hi
  rw [List.mem_range] at hi
  simp only [hp.lo i hi, hp.hi i hi, Option.bind_eq_bind, Option.bind_some, Option.some.injEq]
  by_cases h : 0 < (c i).f.length
  · rw [if_pos h, if_pos (by omega), stRow, List.map_singleton, alpha_zero, if_pos ⟨rfl, h⟩]; rfl
  · rw [if_neg h, if_neg (by omega)]; rfl

omit hp in
theorem initial_lists (i : Nat) : Lists p (c i) 0 (if 0 < (c i).f.length then [0] else []) := by
  constructor
  · split <;> simp
  · intro q
    rw [alpha_zero]
    by_cases h : 0 < (c i).f.length
    · by_cases hq : q = 0
      · simp [h, hq]
      · simp [h, hq]
    · simp [h]

theorem Setup.forward_eq (order : Nat → Nat → List Nat) (ho : ∀ t n, (order t n).Perm (List.range n))
    (k t : Nat) (L0 : Nat → List Nat) (hL0 : ∀ i < p.seqs, Lists p (c i) t (L0 i)) :
    ∃ L : Nat → Nat → List Nat, (∀ i < p.seqs, ∀ s, t ≤ s → s ≤ t + k → Lists p (c i) s (L i s)) ∧
      (∀ i s, s < t ∨ t + k < s → L i s = []) ∧ (∀ i, L i t = L0 i) ∧
      forward p order t k
        ((List.range p.seqs).map (fun i => stRow (c i) (alpha p (c i) t) (fun _ => ⊥) (L0 i)))
        ((List.range p.seqs).map (fun i => beamAt p (c i) t)) =
      some ((List.range' t k).map (frameOf p c L (fun _ _ _ => true) (fun _ _ _ => ⊥)),
        (List.range p.seqs).map (fun i =>
          stRow (c i) (alpha p (c i) (t + k)) (fun _ => ⊥) (L i (t + k)))) := by
  induction k generalizing t L0 with
  | zero =>
    refine ⟨fun i s => if s = t then L0 i else [], ?_, ?_, ?_, ?_⟩
    · intro i hi s h1 h2
      obtain rfl : s = t := by omega
      simp only [if_true]
      exact hL0 i hi
    · intro i s h
      simp only
      rw [if_neg (by omega)]
    · intro i; simp
    · simp [forward]
  | succ k ih =>
    obtain ⟨L', h1, h2⟩ := hp.forward_step t L0 hL0 (order t) (ho t)
    obtain ⟨L, h3, h4, h5, h6⟩ := ih (t + 1) L' h1
    refine ⟨fun i s => if s = t then L0 i else L i s, ?_, ?_, ?_, ?_⟩
    · intro i hi s h7 h8
      simp only
      split
      · rename_i h; subst h; exact hL0 i hi
      · exact h3 i hi s (by omega) (by omega)
    · intro i s h
      simp only
      rw [if_neg (by omega)]
      exact h4 i s (by omega)
    · intro i; simp
    · rw [forward, h2]
      simp only [Option.bind_eq_bind, Option.bind_some, h6, List.range'_succ, List.map_cons,
        Option.some.injEq, Prod.mk.injEq, List.cons.injEq]
      refine ⟨⟨?_, ?_⟩, ?_⟩
      · simp only [frameOf, if_true, if_neg (Nat.succ_ne_self t), h5]
      · apply List.map_congr_left
        intro s hs
        have := List.mem_range'_1.mp hs
        simp only [frameOf, if_neg (show ¬ s = t by omega), if_neg (show ¬ s + 1 = t by omega)]
      · simp only [if_neg (show ¬ t + (k + 1) = t by omega), show t + 1 + k = t + (k + 1) by omega]

theorem Setup.pruneTimeRange_eq (L : Nat → Nat → List Nat) (R : Nat → Nat → Arc S × Nat → Bool)
    (hL : ∀ i < p.seqs, Active p (c i) (L i)) (bw : Nat → Nat → Nat → S) (lo hi T : Nat)
    (h1 : lo < hi) (h2 : hi ≤ T) : ∃ bw',
    pruneTimeRange p lo hi ((List.range (T + 1)).map (frameOf p c L R bw)) =
      some ((List.range (T + 1)).map (frameOf p c (fun i => newL p (c i) (L i) (R i) lo hi)
        (fun i => newR p (c i) (L i) (R i) lo hi) bw')) := by
  have hsplit : List.range (T + 1) =
      List.range' 0 lo ++ List.range' lo (hi - lo) ++ (hi :: List.range' (hi + 1) (T - hi)) := by
    rw [List.range_eq_range', List.append_assoc, ← List.range'_succ (n := T - hi),
      show (List.range' lo (hi - lo) ++ List.range' hi (T - hi + 1)) = List.range' lo (T + 1 - lo) by
        have := List.range'_append_1 (s := lo) (m := hi - lo) (n := T - hi + 1)
        rw [show lo + (hi - lo) = hi by omega, show hi - lo + (T - hi + 1) = T + 1 - lo by omega] at this
        exact this]
    have := List.range'_append_1 (s := 0) (m := lo) (n := T + 1 - lo)
    rw [show 0 + lo = lo by omega, show lo + (T + 1 - lo) = T + 1 by omega] at this
    exact this.symm
  refine ⟨fun i t => if lo ≤ t ∧ t ≤ hi then back p (c i) (L i) (R i) hi (hi - t) else bw i t, ?_⟩
  unfold pruneTimeRange
  have hget : ((List.range (T + 1)).map (frameOf p c L R bw))[hi]? = some (frameOf p c L R bw hi) := by
    rw [map_range_get _ _ _ (by omega)]
  have htake : (((List.range (T + 1)).map (frameOf p c L R bw)).take hi).drop lo =
      (List.range' lo (hi - lo)).map (frameOf p c L R bw) := by
    rw [← List.map_take, ← List.map_drop, hsplit]
    congr 1
    rw [List.take_append_of_le_length (by simp; omega), List.take_of_length_le (by simp; omega)]
    rw [List.drop_append_of_le_length (by simp), List.drop_of_length_le (by simp)]
    simp
  have htake2 : ((List.range (T + 1)).map (frameOf p c L R bw)).take lo =
      (List.range' 0 lo).map (frameOf p c L R bw) := by
    rw [← List.map_take, hsplit]
    congr 1
    rw [List.append_assoc, List.take_append_of_le_length (by simp), List.take_of_length_le (by simp)]
  have hdrop : ((List.range (T + 1)).map (frameOf p c L R bw)).drop (hi + 1) =
      (List.range' (hi + 1) (T - hi)).map (frameOf p c L R bw) := by
    rw [← List.map_drop, hsplit]
    congr 1
    have e : (List.range' 0 lo ++ List.range' lo (hi - lo)).length = hi := by simp; omega
    rw [List.drop_append, List.drop_of_length_le (by rw [e]; omega), e,
      show hi + 1 - hi = 1 by omega]
    simp
  simp only [hget, Option.bind_eq_bind, Option.bind_some, htake, hp.pruneFrames_eq L R hL bw lo hi h1]
  rw [htake2, hdrop, hsplit]
  simp only [List.map_append, List.map_cons, Option.some.injEq]
  have hout : ∀ t, (t < lo ∨ hi < t) → frameOf p c L R bw t =
      frameOf p c (fun i => newL p (c i) (L i) (R i) lo hi) (fun i => newR p (c i) (L i) (R i) lo hi)
        (fun i t => if lo ≤ t ∧ t ≤ hi then back p (c i) (L i) (R i) hi (hi - t) else bw i t) t := by
    intro t ht
    have e1 : ∀ i, newR p (c i) (L i) (R i) lo hi t = R i t := by
      intro i; funext x; rw [newR, if_neg (by omega)]
    unfold frameOf
    congr 1
    · apply List.map_congr_left
      intro i _
      beta_reduce
      rw [newL_out p (c i) (L i) (R i) lo hi t (by omega), if_neg (by omega)]
    · apply List.map_congr_left
      intro i _
      beta_reduce
      rw [newL_out p (c i) (L i) (R i) lo hi t (by omega), newL_out p (c i) (L i) (R i) lo hi (t + 1) (by omega),
        e1]
  congr 1
  · congr 1
    · apply List.map_congr_left
      intro t ht
      have := List.mem_range'_1.mp ht
      exact hout t (by omega)
    · apply List.map_congr_left
      intro t ht
      have := List.mem_range'_1.mp ht
      unfold frameOf
      congr 1
      apply List.map_congr_left
      intro i _
      beta_reduce
      rw [if_pos (by omega)]
  · congr 1
    · have e1 : ∀ i, newR p (c i) (L i) (R i) lo hi hi = R i hi := by
        intro i; funext x; rw [newR, if_neg (by omega)]
      unfold frameOf
      congr 1
      · apply List.map_congr_left
        intro i _
        beta_reduce
        rw [newL_out p (c i) (L i) (R i) lo hi hi (by omega), if_pos (by omega), Nat.sub_self]
      · apply List.map_congr_left
        intro i _
        beta_reduce
        rw [newL_out p (c i) (L i) (R i) lo hi hi (by omega),
          newL_out p (c i) (L i) (R i) lo hi (hi + 1) (by omega), e1]
    · apply List.map_congr_left
      intro t ht
      have := List.mem_range'_1.mp ht
      exact hout t (by omega)

theorem Setup.backwardPass_eq (rs : List (Nat × Nat)) (T : Nat) (hrs : ∀ r ∈ rs, r.1 < r.2 ∧ r.2 ≤ T)
    (s : Nat → (Nat → List Nat) × (Nat → Arc S × Nat → Bool))
    (hs : ∀ i < p.seqs, Active p (c i) (s i).1) (bw : Nat → Nat → Nat → S) : ∃ bw',
    backwardPass p rs ((List.range (T + 1)).map (frameOf p c (fun i => (s i).1) (fun i => (s i).2) bw)) =
      some ((List.range (T + 1)).map (frameOf p c (fun i => (pruneAll p (c i) rs (s i)).1)
        (fun i => (pruneAll p (c i) rs (s i)).2) bw')) := by
  induction rs generalizing s bw with
  | nil => exact ⟨bw, rfl⟩
  | cons r rs ih =>
    obtain ⟨h1, h2⟩ := hrs r List.mem_cons_self
    obtain ⟨bw1, e1⟩ := hp.pruneTimeRange_eq (fun i => (s i).1) (fun i => (s i).2) hs bw r.1 r.2 T h1 h2
    obtain ⟨bw2, e2⟩ := ih (fun r hr => hrs r (List.mem_cons_of_mem _ hr))
      (fun i => prune1 p (c i) (s i) r) (fun i hi => newL_active p (c i) _ _ _ _ (hs i hi)) bw1
    refine ⟨bw2, ?_⟩
    rw [backwardPass, e1, Option.bind_some]
    exact e2

end

end Verif.Fsa.Dp
