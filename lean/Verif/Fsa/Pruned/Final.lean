import Verif.Fsa.Pruned.Output

/-!
# What is left after all rounds, and the whole function
-/

set_option linter.unusedSectionVars false

namespace Verif.Fsa.Dp
open Verif.Ragged Verif.Util Verif.Fsa.Dn

section
variable {K : Type} [Field K] [LinearOrder K] [IsStrictOrderedRing K]

local notation "S" => WithBot K

/-! ## Arcs have scores -/

/-- The arcs of the frame have scores. -/
def Real (p : Args K) (c : Seq K) (s : (Nat → List Nat) × (Nat → Arc S × Nat → Bool)) (t : Nat) : Prop :=
  ∀ x, s.2 t x = true → c.sc (partFlag p c) t x.1 ≠ ⊥

theorem prune1_real (p : Args K) (c : Seq K) (s : (Nat → List Nat) × (Nat → Arc S × Nat → Bool))
    (r : Nat × Nat) (t : Nat) (h : (r.1 ≤ t ∧ t < r.2) ∨ Real p c s t) : Real p c (prune1 p c s r) t := by
  intro x hx
  change newR p c s.1 s.2 r.1 r.2 t x = true at hx
  unfold newR at hx
  split at hx
  · rename_i hr
    rw [Bool.and_eq_true] at hx
    have hx := hx.2
    simp only [keepArc, Bool.and_eq_true, decide_eq_true_eq] at hx
    intro hb
    rw [hb, WithBot.bot_add, WithBot.bot_add] at hx
    exact absurd hx.2 (by simp)
  · rename_i hr
    rcases h with h | h
    · exact absurd h hr
    · exact h x hx

theorem pruneAll_real (p : Args K) (c : Seq K) (rs : List (Nat × Nat))
    (s : (Nat → List Nat) × (Nat → Arc S × Nat → Bool)) (t : Nat)
    (h : (∃ r ∈ rs, r.1 ≤ t ∧ t < r.2) ∨ Real p c s t) : Real p c (pruneAll p c rs s) t := by
  induction rs generalizing s with
  | nil =>
    rcases h with ⟨r, hr, -⟩ | h
    · simp at hr
    · exact h
  | cons r rs ih =>
    apply ih
    rcases h with ⟨r', hr', h'⟩ | h
    · rcases List.mem_cons.mp hr' with rfl | h3
      · exact Or.inr (prune1_real p c s r' t (Or.inl h'))
      · exact Or.inl ⟨r', h3, h'⟩
    · exact Or.inr (prune1_real p c s r t (Or.inr h))

/-! ## States can be reached -/

/-- Each state of the next frame is entered by an arc that gives it its score. -/
def Entered (p : Args K) (c : Seq K) (s : (Nat → List Nat) × (Nat → Arc S × Nat → Bool)) (t : Nat) : Prop :=
  ∀ q ∈ s.1 (t + 1), ∃ x : Arc S × Nat, c.f.flatten[x.2]? = some x.1 ∧ s.2 t x = true ∧ x.1.src ∈ s.1 t ∧
    c.dst (partFlag p c) t x.1 = q ∧ alpha p c t x.1.src + c.sc (partFlag p c) t x.1 = alpha p c (t + 1) q

theorem back_value (p : Args K) (c : Seq K) (L : Nat → List Nat) (R : Nat → Arc S × Nat → Bool) (hi t q : Nat)
    (ht : t < hi) (hq : q + 1 < c.f.length) (hb : back p c L R hi (hi - t) q ≠ ⊥) :
    ∃ x ∈ posArcs c.f q, R t x = true ∧
      keepArc p c t (L (t + 1)) (back p c L R hi (hi - (t + 1))) q x = true ∧
      back p c L R hi (hi - t) q = c.sc (partFlag p c) t x.1 +
        back p c L R hi (hi - (t + 1)) (c.dst (partFlag p c) t x.1) := by
  obtain ⟨k, hk⟩ : ∃ k, hi - t = k + 1 := ⟨hi - t - 1, by omega⟩
  have e1 : hi - (t + 1) = k := by omega
  have e2 : hi - (k + 1) = t := by omega
  have e3 : hi - k = t + 1 := by omega
  rw [hk, back, e2, e3, stepBack, if_neg (by omega)] at hb ⊢
  rw [e1]
  rcases mx_mem (((posArcs c.f q).filter (R t)).map (fun x =>
      if keepArc p c t (L (t + 1)) (back p c L R hi k) q x then
        c.sc (partFlag p c) t x.1 + back p c L R hi k (c.dst (partFlag p c) t x.1) else ⊥)) with h | h
  · exact absurd h hb
  · obtain ⟨x, hx, he⟩ := List.mem_map.mp h
    obtain ⟨hx1, hx2⟩ := List.mem_filter.mp hx
    split at he
    · rename_i hka
      exact ⟨x, hx1, hx2, hka, he.symm⟩
    · rw [← he] at hb; exact absurd rfl hb

theorem back_ge (p : Args K) (c : Seq K) (hc : SeqOk c) (L : Nat → List Nat) (R : Nat → Arc S × Nat → Bool)
    (hi t q : Nat) (ht : t < hi) (hq : q + 1 < c.f.length) (x : Arc S × Nat)
    (hx : c.f.flatten[x.2]? = some x.1) (hsrc : x.1.src = q) (hR : R t x = true)
    (hk : keepArc p c t (L (t + 1)) (back p c L R hi (hi - (t + 1))) q x = true) :
    c.sc (partFlag p c) t x.1 + back p c L R hi (hi - (t + 1)) (c.dst (partFlag p c) t x.1) ≤
      back p c L R hi (hi - t) q := by
  obtain ⟨k, hk'⟩ : ∃ k, hi - t = k + 1 := ⟨hi - t - 1, by omega⟩
  have e1 : hi - (t + 1) = k := by omega
  have e2 : hi - (k + 1) = t := by omega
  have e3 : hi - k = t + 1 := by omega
  rw [e1] at hk ⊢
  rw [hk', back, e2, e3, stepBack, if_neg (by omega)]
  refine le_mx _ _ (List.mem_map.mpr ⟨x, List.mem_filter.mpr ⟨(mem_posArcs _ hc.rows _ _).mpr ⟨hx, hsrc⟩, hR⟩, ?_⟩)
  rw [if_pos hk]

theorem keepArc_bound (p : Args K) (c : Seq K) (t : Nat) (L' : List Nat) (nb : Nat → S) (q : Nat)
    (x : Arc S × Nat) (h : keepArc p c t L' nb q x = true) :
    ((-p.outputBeam : K) : S) ≤ c.sc (partFlag p c) t x.1 + nb (c.dst (partFlag p c) t x.1) + alpha p c t q := by
  simp only [keepArc, Bool.and_eq_true, decide_eq_true_eq] at h
  exact h.2

theorem neg_beam_le (p : Args K) (h : 0 < p.outputBeam) : ((-p.outputBeam : K) : S) ≤ 0 := by
  rw [← WithBot.coe_zero, WithBot.coe_le_coe]; linarith

theorem prune1_entered (p : Args K) (c : Seq K) (hc : SeqOk c) (hob : 0 < p.outputBeam)
    (s : (Nat → List Nat) × (Nat → Arc S × Nat → Bool)) (hs : Active p c s.1) (r : Nat × Nat) (t : Nat)
    (h : Entered p c s t) : Entered p c (prune1 p c s r) t := by
  obtain ⟨lo, hi⟩ := r
  intro q hq
  change q ∈ newL p c s.1 s.2 lo hi (t + 1) at hq
  have hq0 := newL_sub p c s.1 s.2 lo hi (t + 1) q hq
  obtain ⟨x, h1, h2, h3, h4, h5⟩ := h q hq0
  refine ⟨x, h1, ?_, ?_, h4, h5⟩
  all_goals
    have hfin := hc.fin x.1 (List.mem_of_getElem? h1)
    have hA := hs (t + 1) q hq0
    -- the score of the best path through `q`
    have hval : lo ≤ t → t < hi → ((-p.outputBeam : K) : S) ≤
        back p c s.1 s.2 hi (hi - (t + 1)) q + alpha p c (t + 1) q := by
      intro hlo hhi
      by_cases hqf : q + 1 < c.f.length
      · rcases Nat.lt_or_ge (t + 1) hi with h6 | h6
        · have hb : back p c s.1 s.2 hi (hi - (t + 1)) q ≠ ⊥ := by
            have := (List.mem_filter.mp hq).2
            unfold keepSt at this
            rw [Bool.or_eq_true] at this
            rcases this with h7 | h7
            · simp [h6] at h7; omega
            · simpa using h7
          obtain ⟨y, -, -, hy3, hy4⟩ := back_value p c s.1 s.2 hi (t + 1) q h6 hqf hb
          rw [hy4]
          exact keepArc_bound p c _ _ _ _ _ hy3
        · obtain rfl : hi = t + 1 := by omega
          rw [Nat.sub_self, back, neg_add _ hA]
          exact neg_beam_le p hob
      · have := hc.alpha_lt p (t + 1) q hA
        rw [back_final p c s.1 s.2 hi (t + 1) (by omega) q (by omega), neg_add _ hA]
        exact neg_beam_le p hob
    have hka : lo ≤ t → t < hi → keepArc p c t (s.1 (t + 1)) (back p c s.1 s.2 hi (hi - (t + 1))) x.1.src x = true := by
      intro hlo hhi
      simp only [keepArc, Bool.and_eq_true, decide_eq_true_eq]
      rw [h4]
      refine ⟨hq0, le_trans (hval hlo hhi) (le_of_eq ?_)⟩
      rw [← h5, add_comm (c.sc _ _ _), add_assoc, add_comm (c.sc _ _ _)]
  · change newR p c s.1 s.2 lo hi t x = true
    unfold newR
    split
    · rename_i hr
      rw [Bool.and_eq_true]
      exact ⟨h2, hka hr.1 hr.2⟩
    · exact h2
  · change x.1.src ∈ newL p c s.1 s.2 lo hi t
    by_cases hin : lo < t ∧ t < hi
    · refine List.mem_filter.mpr ⟨h3, ?_⟩
      unfold keepSt
      rw [Bool.or_eq_true]
      right
      rw [decide_eq_true_eq]
      have h6 := back_ge p c hc s.1 s.2 hi t x.1.src hin.2 hfin x h1 rfl h2 (hka (by omega) hin.2)
      have h7 := keepArc_bound p c _ _ _ _ _ (hka (by omega) hin.2)
      intro hb
      rw [hb, le_bot_iff] at h6
      rw [h6, WithBot.bot_add] at h7
      exact absurd h7 (by simp)
    · rw [newL_out p c s.1 s.2 lo hi t hin]; exact h3

theorem pruneAll_entered (p : Args K) (c : Seq K) (hc : SeqOk c) (hob : 0 < p.outputBeam) (rs : List (Nat × Nat))
    (s : (Nat → List Nat) × (Nat → Arc S × Nat → Bool)) (hs : Active p c s.1) (t : Nat)
    (h : Entered p c s t) : Entered p c (pruneAll p c rs s) t := by
  induction rs generalizing s with
  | nil => exact h
  | cons r rs ih =>
    exact ih _ (newL_active p c s.1 s.2 r.1 r.2 hs) (prune1_entered p c hc hob s hs r t h)

/-! ## Dead ends -/

/-- Every state but the final one has an arc. -/
def Alive (c : Seq K) (s : (Nat → List Nat) × (Nat → Arc S × Nat → Bool)) (t : Nat) : Prop :=
  ∀ q ∈ s.1 t, q + 1 < c.f.length → ∃ x ∈ posArcs c.f q, s.2 t x = true

theorem prune1_alive (p : Args K) (c : Seq K) (hc : SeqOk c) (s : (Nat → List Nat) × (Nat → Arc S × Nat → Bool))
    (r : Nat × Nat) (t : Nat) (hne : t ≠ r.1) (h : (r.1 < t ∧ t < r.2) ∨ Alive c s t) :
    Alive c (prune1 p c s r) t := by
  obtain ⟨lo, hi⟩ := r
  intro q hq hqf
  change q ∈ newL p c s.1 s.2 lo hi t at hq
  change ∃ x ∈ posArcs c.f q, newR p c s.1 s.2 lo hi t x = true
  simp only at hne h
  by_cases hin : lo < t ∧ t < hi
  · have hb : back p c s.1 s.2 hi (hi - t) q ≠ ⊥ := by
      have := (List.mem_filter.mp hq).2
      unfold keepSt at this
      rw [Bool.or_eq_true] at this
      rcases this with h7 | h7
      · simp [hin] at h7
      · simpa using h7
    obtain ⟨x, h1, h2, h3, -⟩ := back_value p c s.1 s.2 hi t q hin.2 hqf hb
    refine ⟨x, h1, ?_⟩
    rw [newR, if_pos ⟨by omega, hin.2⟩, Bool.and_eq_true]
    refine ⟨h2, ?_⟩
    rw [((mem_posArcs _ hc.rows _ _).mp h1).2]
    exact h3
  · rcases h with h | h
    · exact absurd h hin
    · obtain ⟨x, h1, h2⟩ := h q (newL_sub p c s.1 s.2 lo hi t q hq) hqf
      exact ⟨x, h1, by rw [newR, if_neg (by omega)]; exact h2⟩

theorem pruneAll_alive (p : Args K) (c : Seq K) (hc : SeqOk c) (rs : List (Nat × Nat))
    (s : (Nat → List Nat) × (Nat → Arc S × Nat → Bool)) (t : Nat) (hne : ∀ r ∈ rs, t ≠ r.1)
    (h : (∃ r ∈ rs, r.1 < t ∧ t < r.2) ∨ Alive c s t) : Alive c (pruneAll p c rs s) t := by
  induction rs generalizing s with
  | nil =>
    rcases h with ⟨r, hr, -⟩ | h
    · simp at hr
    · exact h
  | cons r rs ih =>
    have h0 := hne r List.mem_cons_self
    apply ih _ (fun r hr => hne r (List.mem_cons_of_mem _ hr))
    rcases h with ⟨r', hr', h'⟩ | h
    · rcases List.mem_cons.mp hr' with rfl | h3
      · exact Or.inr (prune1_alive p c hc s r' t h0 (Or.inl h'))
      · exact Or.inl ⟨r', h3, h'⟩
    · exact Or.inr (prune1_alive p c hc s r t h0 (Or.inr h))

theorem pruneRanges_lo (T k : Nat) : ∀ r ∈ pruneRanges T k, ∃ m, r.1 = 20 * m - 10 := by
  rw [pruneRanges]
  split
  · intro r hr
    rw [List.mem_singleton] at hr
    subst hr
    exact ⟨k, rfl⟩
  · intro r hr
    rcases List.mem_cons.mp hr with rfl | hr
    · exact ⟨k, rfl⟩
    · exact pruneRanges_lo T (k + 1) r hr
termination_by T - 20 * k

/-! ## All rounds -/

/-- The state before the rounds. -/
def startOf (L : Nat → List Nat) : (Nat → List Nat) × (Nat → Arc S × Nat → Bool) := (L, fun _ _ => true)

/-- What is left at the end. -/
def rest (p : Args K) (c : Seq K) (L : Nat → List Nat) : (Nat → List Nat) × (Nat → Arc S × Nat → Bool) :=
  pruneAll p c (pruneRanges p.maxFrames 0) (startOf L)

/-- All active states, frame by frame. -/
def AllActive (p : Args K) (c : Seq K) (L : Nat → List Nat) : Prop := ∀ t, Lists p c t (L t)

theorem AllActive.active {p : Args K} {c : Seq K} {L : Nat → List Nat} (h : AllActive p c L) : Active p c L :=
  fun t q hq => ((h t).2 q).mp hq

theorem start_list {p : Args K} {c : Seq K} {L : Nat → List Nat} (h : AllActive p c L) :
    L 0 = if 0 < c.f.length then [0] else [] := by
  have h0 := h 0
  split
  · rename_i hf
    apply nodup_single _ _ h0.1
    · rw [h0.2, alpha_zero, if_pos ⟨rfl, hf⟩]; simp
    · intro y hy
      rw [h0.2, alpha_zero] at hy
      by_contra hne
      rw [if_neg (by tauto)] at hy
      exact hy rfl
  · rename_i hf
    apply List.eq_nil_iff_forall_not_mem.mpr
    intro q hq
    rw [h0.2, alpha_zero, if_neg (by tauto)] at hq
    exact hq rfl

theorem rest_good (p : Args K) (c : Seq K) (hT : c.fr.length ≤ p.maxFrames) (L : Nat → List Nat)
    (h : AllActive p c L) : Good p c (rest p c L) := by
  have hcov : ∀ t < c.fr.length, ∃ r ∈ pruneRanges p.maxFrames 0, r.1 ≤ t ∧ t < r.2 := by
    intro t ht
    exact pruneRanges_cover p.maxFrames 0 t (by omega) (by omega)
  refine ⟨?_, ?_, ?_, ?_, ?_⟩
  · exact pruneAll_nodup p c _ _ (fun t => (h t).1)
  · exact pruneAll_active p c _ _ h.active
  · exact (pruneAll_zero p c _ _).trans (start_list h)
  · intro t ht; exact pruneAll_links p c _ _ t (Or.inl (hcov t ht))
  · intro t ht; exact pruneAll_real p c _ _ t (Or.inl (hcov t ht))

theorem rest_entered (p : Args K) (c : Seq K) (hc : SeqOk c) (hob : 0 < p.outputBeam) (L : Nat → List Nat)
    (h : AllActive p c L) (t : Nat) : Entered p c (rest p c L) t := by
  apply pruneAll_entered p c hc hob _ _ h.active
  intro q hq
  obtain ⟨a, h1, h2, h3⟩ := alpha_from p c t q (((h (t + 1)).2 q).mp hq)
  obtain ⟨j, hj⟩ := List.mem_iff_getElem?.mp h1
  refine ⟨(a, j), hj, rfl, ?_, h2, h3⟩
  apply ((h t).2 _).mpr
  intro hb
  have := ((h (t + 1)).2 q).mp hq
  simp only at hb
  rw [← h3, hb, WithBot.bot_add] at this
  exact this rfl

theorem rest_alive (p : Args K) (c : Seq K) (hc : SeqOk c) (hT : c.fr.length ≤ p.maxFrames) (L : Nat → List Nat)
    (t : Nat) (h0 : 0 < t) (ht : t < c.fr.length) (h10 : t % 20 ≠ 10) : Alive c (rest p c L) t := by
  have hne : ∀ r ∈ pruneRanges p.maxFrames 0, t ≠ r.1 := by
    intro r hr
    obtain ⟨m, hm⟩ := pruneRanges_lo _ _ r hr
    omega
  apply pruneAll_alive p c hc _ _ t hne
  left
  obtain ⟨r, h1, h2, h3⟩ := pruneRanges_cover p.maxFrames 0 t (by omega) (by omega)
  have := hne r h1
  exact ⟨r, h1, by omega, h3⟩

variable {p : Args K} {c : Nat → Seq K} (hp : Setup p c)
include hp

/-- The whole function. -/
theorem Setup.run (hok : p.ok) (hT : 0 < p.maxFrames) (order : Nat → Nat → List Nat)
    (ho : ∀ t n, (order t n).Perm (List.range n)) : ∃ L : Nat → Nat → List Nat,
    (∀ i < p.seqs, AllActive p (c i) (L i)) ∧
    intersectDensePruned p order = some
      (flat ((List.range p.seqs).map (fun i =>
          (outRows p (c i) (rest p (c i) (L i))).map (fun row => row.map Prod.fst))),
        ((List.range p.seqs).map (fun i =>
          (outRows p (c i) (rest p (c i) (L i))).flatten.map (fun x => x.2.1))).flatten,
        ((List.range p.seqs).map (fun i =>
          (outRows p (c i) (rest p (c i) (L i))).flatten.map (fun x => x.2.2))).flatten) := by
  obtain ⟨L, h1, h2, h3, h4⟩ := hp.forward_eq order ho (p.maxFrames + 1) 0
    (fun i => if 0 < (c i).f.length then [0] else []) (fun i _ => initial_lists i)
  have hL : ∀ i < p.seqs, AllActive p (c i) (L i) := by
    intro i hi t
    by_cases ht : t ≤ p.maxFrames + 1
    · exact h1 i hi t (by omega) (by omega)
    · rw [h2 i t (by omega)]
      refine ⟨List.nodup_nil, fun q => ?_⟩
      rw [(hp.ok i hi).alpha_after p t q (by have := hp.maxT i hi; omega)]
      simp
  refine ⟨L, hL, ?_⟩
  have hbeam : List.replicate p.seqs p.searchBeam = (List.range p.seqs).map (fun i => beamAt p (c i) 0) := by
    apply List.ext_getElem?
    intro i
    by_cases hi : i < p.seqs
    · rw [map_range_get _ _ _ hi, List.getElem?_replicate, if_pos hi]; rfl
    · rw [List.getElem?_eq_none (by simpa using hi), List.getElem?_eq_none (by simpa using hi)]
  obtain ⟨bw, h5⟩ := hp.backwardPass_eq (pruneRanges p.maxFrames 0) p.maxFrames
    (pruneRanges_ok _ _ (by omega)) (fun i => startOf (L i)) (fun i hi => (hL i hi).active) (fun _ _ _ => ⊥)
  have h6 := hp.formatOutput_eq (fun i => rest p (c i) (L i))
    (fun i hi => rest_good p (c i) (hp.maxT i hi) (L i) (hL i hi)) bw
  unfold intersectDensePruned
  rw [if_pos ⟨hok, hT⟩, hp.initialFrame_eq, hbeam]
  simp only [Option.bind_eq_bind, Option.bind_some]
  rw [h4, Option.bind_some]
  simp only
  rw [← List.range_eq_range']
  erw [h5]
  exact h6

end

end Verif.Fsa.Dp
