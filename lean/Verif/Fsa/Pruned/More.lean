import Verif.Fsa.Pruned.Result

/-!
# The order of the hash, partial results, short batches
-/

set_option linter.unusedSectionVars false

namespace Verif.Fsa.Dp
open Verif.Ragged Verif.Util Verif.Fsa.Dn Verif.Fsa.Sco Verif.Fsa.Top

section
variable {K : Type} [Field K] [LinearOrder K] [IsStrictOrderedRing K]

local notation "S" => WithBot K

/-! ## The order of the states does not matter -/

theorem keepArc_same (p : Args K) (c : Seq K) (t : Nat) (L L' : List Nat) (h : ∀ q, q ∈ L ↔ q ∈ L') (nb : Nat → S)
    (q : Nat) (x : Arc S × Nat) : keepArc p c t L nb q x = keepArc p c t L' nb q x := by
  unfold keepArc
  rw [show decide (c.dst (partFlag p c) t x.1 ∈ L) = decide (c.dst (partFlag p c) t x.1 ∈ L') from
    decide_eq_decide.mpr (h _)]

theorem back_same (p : Args K) (c : Seq K) (L L' : Nat → List Nat) (h : ∀ t q, q ∈ L t ↔ q ∈ L' t)
    (R : Nat → Arc S × Nat → Bool) (hi k : Nat) : back p c L R hi k = back p c L' R hi k := by
  induction k with
  | zero => rfl
  | succ k ih =>
    funext q
    rw [back, back, ih, stepBack, stepBack]
    simp only [keepArc_same p c _ _ _ (h (hi - k))]

theorem prune1_same (p : Args K) (c : Seq K) (s s' : (Nat → List Nat) × (Nat → Arc S × Nat → Bool))
    (h : (∀ t q, q ∈ s.1 t ↔ q ∈ s'.1 t) ∧ s.2 = s'.2) (r : Nat × Nat) :
    (∀ t q, q ∈ (prune1 p c s r).1 t ↔ q ∈ (prune1 p c s' r).1 t) ∧ (prune1 p c s r).2 = (prune1 p c s' r).2 := by
  obtain ⟨h1, h2⟩ := h
  constructor
  · intro t q
    show q ∈ newL p c s.1 s.2 r.1 r.2 t ↔ q ∈ newL p c s'.1 s'.2 r.1 r.2 t
    rw [newL, newL, List.mem_filter, List.mem_filter, h1, keepSt, keepSt, h2, back_same p c _ _ h1]
  · funext t x
    show newR p c s.1 s.2 r.1 r.2 t x = newR p c s'.1 s'.2 r.1 r.2 t x
    rw [newR, newR, h2, back_same p c _ _ h1, keepArc_same p c t _ _ (h1 (t + 1))]

theorem pruneAll_same (p : Args K) (c : Seq K) (rs : List (Nat × Nat))
    (s s' : (Nat → List Nat) × (Nat → Arc S × Nat → Bool)) (h : (∀ t q, q ∈ s.1 t ↔ q ∈ s'.1 t) ∧ s.2 = s'.2) :
    (∀ t q, q ∈ (pruneAll p c rs s).1 t ↔ q ∈ (pruneAll p c rs s').1 t) ∧
      (pruneAll p c rs s).2 = (pruneAll p c rs s').2 := by
  induction rs generalizing s s' with
  | nil => exact h
  | cons r rs ih => exact ih _ _ (prune1_same p c s s' h r)

theorem rest_same (p : Args K) (c : Seq K) (L L' : Nat → List Nat) (h : AllActive p c L) (h' : AllActive p c L') :
    (∀ t q, q ∈ (rest p c L).1 t ↔ q ∈ (rest p c L').1 t) ∧ (rest p c L).2 = (rest p c L').2 :=
  pruneAll_same p c _ _ _ ⟨fun t q => ((h t).2 q).trans ((h' t).2 q).symm, rfl⟩

theorem steps_same (p : Args K) (c : Seq K) (s s' : (Nat → List Nat) × (Nat → Arc S × Nat → Bool))
    (h : (∀ t q, q ∈ s.1 t ↔ q ∈ s'.1 t) ∧ s.2 = s'.2) (xs : List (Arc S × Nat)) (t u v : Nat)
    (hx : Steps p c s t u xs v) : Steps p c s' t u xs v := by
  induction xs generalizing t u with
  | nil => exact hx
  | cons x xs ih =>
    obtain ⟨h1, h2, h3, h4, h5, h6⟩ := hx
    exact ⟨h1, h2, h3, h.2 ▸ h4, (h.1 _ _).mp h5, ih _ _ h6⟩

/-- The data of an entry that does not depend on the numbers of the states. -/
def entryData (y : Arc S × Int × Nat) : Int × S × Int × Nat := (y.1.label, y.1.score, y.2.1, y.2.2)

theorem entries_same (p : Args K) (c : Seq K) (s s' : (Nat → List Nat) × (Nat → Arc S × Nat → Bool))
    (xs : List (Arc S × Nat)) (t u : Nat) :
    (entriesOf p c s t u xs).map entryData = (entriesOf p c s' t u xs).map entryData := by
  induction xs generalizing t u with
  | nil => rfl
  | cons x xs ih => rw [entriesOf, entriesOf, List.map_cons, List.map_cons, ih]; rfl

theorem map_data {α : Type} (is is' : List Nat) (l l' : List (Arc S × Int × Nat)) (E E' : List (Arc S × Int × Nat))
    (g : Int × S × Int × Nat → α) (h1 : is.map (fun i => l[i]?) = E.map some)
    (h2 : is'.map (fun i => l'[i]?) = E'.map some) (hE : E.map entryData = E'.map entryData) :
    is.map (fun i => (l.map (fun y => g (entryData y)))[i]?) =
      is'.map (fun i => (l'.map (fun y => g (entryData y)))[i]?) := by
  have key : ∀ (is : List Nat) (l E : List (Arc S × Int × Nat)), is.map (fun i => l[i]?) = E.map some →
      is.map (fun i => (l.map (fun y => g (entryData y)))[i]?) = (E.map entryData).map (fun d => some (g d)) := by
    intro is l E h
    have := congrArg (List.map (Option.map (fun y => g (entryData y)))) h
    rw [List.map_map, List.map_map] at this
    simp only [List.getElem?_map, List.map_map]
    exact this
  rw [key is l E h1, key is' l' E' h2, hE]

/-- Two results have the same accepting paths: the same labels, scores and arc maps. -/
def SamePaths (g g' : List (List (Arc S))) (ma ma' : List Int) (mb mb' : List Nat) : Prop :=
  ∀ is q, IsOut g is q → ∃ is' q', IsOut g' is' q' ∧ labels q' = labels q ∧
    q'.map Arc.score = q.map Arc.score ∧ is'.map (fun i => ma'[i]?) = is.map (fun i => ma[i]?) ∧
    is'.map (fun i => mb'[i]?) = is.map (fun i => mb[i]?)

theorem same_paths (p : Args K) (c : Seq K) (hc : SeqOk c) (hT : c.fr.length ≤ p.maxFrames) (L L' : Nat → List Nat)
    (h : AllActive p c L) (h' : AllActive p c L') :
    SamePaths (outFsa p c (rest p c L)) (outFsa p c (rest p c L')) (outMapA p c (rest p c L))
      (outMapA p c (rest p c L')) (outMapB p c (rest p c L)) (outMapB p c (rest p c L')) := by
  intro is q hq
  have hs := rest_good p c hT L h
  have hs' := rest_good p c hT L' h'
  obtain ⟨hf, xs, h1, h2, h3, h4⟩ := out_accept hc hs is q hq
  have g1 := steps_same p c _ _ (rest_same p c L L' h h') xs 0 0 _ h1
  obtain ⟨is', g2, g3, g4⟩ := accept_out hc hs' hf xs _ g1 h2
  have he := entries_same p c (rest p c L') (rest p c L) xs 0 0
  refine ⟨is', _, g3, ?_, ?_, ?_, ?_⟩
  · have := congrArg (List.map Prod.fst) he
    rw [h4]
    unfold labels
    rw [List.map_map, List.map_map] at this ⊢
    exact this
  · have := congrArg (List.map (fun d => d.2.1)) he
    rw [h4]
    rw [List.map_map, List.map_map] at this ⊢
    exact this
  · exact map_data is' is _ _ _ _ (fun d => d.2.2.1) g2 h3 he
  · exact map_data is' is _ _ _ _ (fun d => d.2.2.2) g2 h3 he

/-! ## Partial results -/

theorem final_accept (p : Args K) (c : Seq K) (hc : SeqOk c) (hT : c.fr.length ≤ p.maxFrames) (L : Nat → List Nat)
    (hL : AllActive p c L) (hob : 0 < p.outputBeam) (hf : 0 < c.f.length)
    (h : alpha p c c.fr.length (c.f.length - 1) ≠ ⊥) : ∃ is q, IsOut (outFsa p c (rest p c L)) is q := by
  have hs := rest_good p c hT L hL
  have h1 : c.f.length - 1 ∈ (rest p c L).1 c.fr.length :=
    pruneAll_final p c _ _ hL.active _ _ (by omega) (((hL _).2 _).mpr h)
  obtain ⟨xs, g1, g2, -⟩ := steps_to hc hs (fun t _ => rest_entered p c hc hob L hL t) _ _ le_rfl h1
  obtain ⟨is, -, g3, -⟩ := accept_out hc hs hf xs _ g1 g2
  exact ⟨is, _, g3⟩

/-- The best arc of a frame survives. -/
theorem best_survives (p : Args K) (c : Seq K) (t : Nat) (a : Arc S) (ha : a ∈ c.f.flatten)
    (h : alpha p c t a.src + c.sc (partFlag p c) t a ≠ ⊥) (hb : 0 < beamAt p c (t + 1)) :
    ∃ a' ∈ c.f.flatten, alpha p c t a'.src + c.sc (partFlag p c) t a' ≠ ⊥ ∧
      alpha p c (t + 1) (c.dst (partFlag p c) t a') ≠ ⊥ := by
  have hle : alpha p c t a.src + c.sc (partFlag p c) t a ≤ c.best (partFlag p c) t (alpha p c t) :=
    le_mx _ _ (List.mem_map.mpr ⟨a, ha, rfl⟩)
  have hne : c.best (partFlag p c) t (alpha p c t) ≠ ⊥ := by
    intro hb; rw [hb] at hle; exact h (le_bot_iff.mp hle)
  rcases mx_mem (c.f.flatten.map (fun a => alpha p c t a.src + c.sc (partFlag p c) t a)) with h1 | h1
  · exact absurd h1 hne
  · obtain ⟨a', ha', he⟩ := List.mem_map.mp h1
    have he : alpha p c t a'.src + c.sc (partFlag p c) t a' = c.best (partFlag p c) t (alpha p c t) := he
    refine ⟨a', ha', by rw [he]; exact hne, alpha_enter p c t a' ha' ?_⟩
    rw [he]
    obtain ⟨b, hb'⟩ := WithBot.ne_bot_iff_exists.mp hne
    rw [sub, ← hb', ← WithBot.coe_add, WithBot.coe_lt_coe]
    linarith

/-- With `allow_partial` there is a result: all scores are finite and every state has an arc with a label
that is not -1. -/
theorem partial_accept (p : Args K) (c : Seq K) (hc : SeqOk c) (hT : c.fr.length ≤ p.maxFrames)
    (L : Nat → List Nat) (hL : AllActive p c L) (hob : 0 < p.outputBeam) (hsb : 0 < p.searchBeam)
    (hap : p.allowPartial = true) (hf : 1 < c.f.length)
    (hfin : ∀ a ∈ c.f.flatten, a.dst + 1 = c.f.length → a.label = -1)
    (hstate : ∀ q, q + 1 < c.f.length → ∃ a ∈ c.f.flatten, a.src = q ∧ a.label ≠ -1)
    (hscore : ∀ a ∈ c.f.flatten, a.score ≠ ⊥)
    (hframe : ∀ t, t + 1 < c.fr.length → ∀ a ∈ c.f.flatten, a.label ≠ -1 → labScore (c.fr.getD t []) a.label ≠ ⊥)
    (hlast : labScore (c.fr.getD (c.fr.length - 1) []) (-1) ≠ ⊥) :
    ∃ is q, IsOut (outFsa p c (rest p c L)) is q := by
  have hn := hc.pos
  have hact : ∀ t, t < c.fr.length → ∃ q, q + 1 < c.f.length ∧ alpha p c t q ≠ ⊥ := by
    intro t
    induction t with
    | zero =>
      intro _
      exact ⟨0, by omega, by rw [alpha_zero, if_pos ⟨rfl, by omega⟩, ← WithBot.coe_zero]; exact WithBot.coe_ne_bot⟩
    | succ t ih =>
      intro ht
      obtain ⟨q, hq, hqa⟩ := ih (by omega)
      obtain ⟨a, h1, h2, h3⟩ := hstate q hq
      have hbeam : 0 < beamAt p c (t + 1) := by
        refine lt_of_lt_of_le ?_ (beam_ge p c hsb (t + 1) ht)
        positivity
      have hsc : alpha p c t a.src + c.sc (partFlag p c) t a ≠ ⊥ := by
        rw [h2, sc_use _ _ _ _ (Or.inr ht), useScore]
        intro hb
        rcases WithBot.add_eq_bot.mp hb with h | h
        · exact hqa h
        · rcases WithBot.add_eq_bot.mp h with h | h
          · exact hscore a h1 h
          · exact hframe t ht a h1 h3 h
      obtain ⟨a', k1, k2, k3⟩ := best_survives p c t a h1 hsc hbeam
      rw [dst_use _ _ _ _ (Or.inr ht)] at k3
      refine ⟨a'.dst, ?_, k3⟩
      have hlt := hc.alpha_lt p _ _ k3
      by_contra hge
      have hl := hfin a' k1 (by omega)
      apply k2
      rw [sc_use _ _ _ _ (Or.inr ht), useScore, hl, hc.others t ht, WithBot.add_bot, WithBot.add_bot]
  obtain ⟨m, hm⟩ : ∃ m, c.fr.length = m + 1 := ⟨c.fr.length - 1, by omega⟩
  have hbeam : 0 < beamAt p c (m + 1) := by rw [← hm]; exact beam_last p c hn
  apply final_accept p c hc hT L hL hob (by omega)
  have : ∃ a ∈ c.f.flatten, alpha p c m a.src + c.sc (partFlag p c) m a ≠ ⊥ := by
    by_cases hpf : partFlag p c = true
    · obtain ⟨q, hq, hqa⟩ := hact m (by omega)
      obtain ⟨a, h1, h2, h3⟩ := hstate q hq
      refine ⟨a, h1, ?_⟩
      rw [h2, Seq.sc, if_pos ⟨hpf, hm.symm⟩]
      intro hb
      rcases WithBot.add_eq_bot.mp hb with h | h
      · exact hqa h
      · exact hscore a h1 h
    · have hseen : finalSeen p c = true := by
        unfold partFlag at hpf
        rw [hap] at hpf
        simpa using hpf
      unfold finalSeen at hseen
      rw [decide_eq_true_eq] at hseen
      obtain ⟨a, h1, h2, h3⟩ := hseen
      refine ⟨a, h1, ?_⟩
      rw [Seq.sc, if_neg (by tauto), h2]
      have h3 : alpha p c m a.src ≠ ⊥ := by
        unfold alpha
        rw [search_part p c _ _ (by omega), show m = c.fr.length - 1 by omega]; exact h3
      rw [show c.fr.length - 1 = m by omega] at hlast
      intro hb
      rcases WithBot.add_eq_bot.mp hb with h | h
      · exact h3 h
      · rcases WithBot.add_eq_bot.mp h with h | h
        · exact hlast h
        · exact hscore a h1 h
  obtain ⟨a, h1, h2⟩ := this
  obtain ⟨a', k1, k2, k3⟩ := best_survives p c m a h1 h2 hbeam
  rw [hm]
  have := hc.alpha_last p (c.dst (partFlag p c) m a') (by rw [hm]; exact k3)
  rw [show c.f.length - 1 = c.dst (partFlag p c) m a' by omega]
  exact k3

theorem entriesOf_append (p : Args K) (c : Seq K) (s : (Nat → List Nat) × (Nat → Arc S × Nat → Bool))
    (xs ys : List (Arc S × Nat)) (t u w : Nat) (h : Steps p c s t u xs w) :
    entriesOf p c s t u (xs ++ ys) = entriesOf p c s t u xs ++ entriesOf p c s (t + xs.length) w ys := by
  induction xs generalizing t u with
  | nil => obtain rfl : u = w := h; rfl
  | cons y xs ih =>
    rw [List.cons_append, entriesOf, ih _ _ h.2.2.2.2.2, entriesOf, List.cons_append, List.length_cons,
      show t + 1 + xs.length = t + (xs.length + 1) by omega]

/-! ## Batches with at most 20 frames -/

/-- Every arc is on an accepting path that is at most the beam worse than any accepting path. -/
def Used (g : List (List (Arc S))) (beam : K) : Prop :=
  ∀ i < g.flatten.length, ∃ is q, i ∈ is ∧ IsOut g is q ∧
    ∀ is' q', IsOut g is' q' → score q' + ((-beam : K) : S) ≤ score q

theorem ranges_short (T : Nat) (h : T ≤ 20) : pruneRanges T 0 = [(0, T)] := by
  rw [pruneRanges, if_pos (by omega)]

/-- The arcs that the backward pass follows. -/
theorem back_steps (p : Args K) (c : Seq K) (hc : SeqOk c) (T : Nat) (hnT : c.fr.length ≤ T) (L : Nat → List Nat)
    (hL : AllActive p c L) (hfin : ∀ a ∈ c.f.flatten, a.dst + 1 = c.f.length → a.label = -1) (k : Nat) :
    ∀ t q, 0 < t → t + k = c.fr.length → q ∈ L t → back p c L (fun _ _ => true) T (T - t) q ≠ ⊥ →
    ∃ xs, Steps p c (prune1 p c (startOf L) (0, T)) t q xs (c.f.length - 1) ∧ xs.length = k ∧
      stepsScore p c t xs + neg (alpha p c c.fr.length (c.f.length - 1)) =
        back p c L (fun _ _ => true) T (T - t) q := by
  induction k with
  | zero =>
    intro t q h0 ht hq hb
    have hact := ((hL t).2 q).mp hq
    obtain rfl : t = c.fr.length := by omega
    have hqf := hc.alpha_last p q hact
    refine ⟨[], by show q = _; omega, rfl, ?_⟩
    rw [stepsScore, zero_add, show c.f.length - 1 = q by omega]
    cases hk : T - c.fr.length with
    | zero => rw [back]; rw [show T = c.fr.length by omega]
    | succ k => rw [back, stepBack, if_pos (by omega), show T - (k + 1) = c.fr.length by omega]
  | succ k ih =>
    intro t q h0 ht hq hb
    have hact := ((hL t).2 q).mp hq
    have hqf : q + 1 < c.f.length := by
      have hlt := hc.alpha_lt p t q hact
      by_contra hge
      obtain ⟨m, rfl⟩ : ∃ m, t = m + 1 := ⟨t - 1, by omega⟩
      obtain ⟨a, k1, k2, k3⟩ := alpha_from p c m q hact
      rw [dst_use _ _ _ _ (Or.inr (by omega))] at k2
      have hla := hfin a k1 (by omega)
      rw [sc_use _ _ _ _ (Or.inr (by omega)), useScore, hla, hc.others m (by omega), WithBot.add_bot,
        WithBot.add_bot] at k3
      exact hact k3.symm
    obtain ⟨x, g1, -, g3, g4⟩ := back_value p c L _ T t q (by omega) hqf hb
    obtain ⟨g5, g6⟩ := (mem_posArcs _ hc.rows _ _).mp g1
    have g7 : c.dst (partFlag p c) t x.1 ∈ L (t + 1) := by
      simp only [keepArc, Bool.and_eq_true, decide_eq_true_eq] at g3; exact g3.1
    have g8 : back p c L (fun _ _ => true) T (T - (t + 1)) (c.dst (partFlag p c) t x.1) ≠ ⊥ := by
      intro h; rw [g4, h, WithBot.add_bot] at hb; exact hb rfl
    obtain ⟨xs, w1, w2, w3⟩ := ih (t + 1) _ (by omega) (by omega) g7 g8
    refine ⟨x :: xs, ⟨by omega, g6, g5, ?_, ?_, w1⟩, by simp [w2], ?_⟩
    · show newR p c L (fun _ _ => true) 0 T t x = true
      rw [newR, if_pos ⟨by omega, by omega⟩, g6, g3]; rfl
    · show _ ∈ newL p c L (fun _ _ => true) 0 T (t + 1)
      rw [newL, List.mem_filter]
      refine ⟨g7, ?_⟩
      unfold keepSt
      rw [Bool.or_eq_true]
      exact Or.inr (decide_eq_true g8)
    · rw [g4, ← w3, stepsScore, add_assoc]

theorem short_used (p : Args K) (c : Seq K) (hc : SeqOk c) (hT : c.fr.length ≤ p.maxFrames) (L : Nat → List Nat)
    (hL : AllActive p c L) (hob : 0 < p.outputBeam)
    (hfin : ∀ a ∈ c.f.flatten, a.dst + 1 = c.f.length → a.label = -1) (h20 : p.maxFrames ≤ 20) :
    Used (outFsa p c (rest p c L)) p.outputBeam := by
  have hs := rest_good p c hT L hL
  have hr : rest p c L = prune1 p c (startOf L) (0, p.maxFrames) := by
    rw [rest, ranges_short _ h20]; rfl
  intro i hi
  rw [outFsa_flatten, List.length_map] at hi
  obtain ⟨t, q, k, ht, hq, hk, hii⟩ := lay_arc _ _ _ (lay_nodup hc hs) i _ (List.getElem?_eq_getElem hi)
  obtain ⟨h1, x, h2, h3, h4, h5, h6, h7⟩ := entries_of hc hs t q _ k hk
  have hf : 0 < c.f.length := by have := hc.fin x.1 (List.mem_of_getElem? h5); omega
  rw [lay_lt _ _ _ (by omega)] at hq
  obtain ⟨xs, g1, g2, g3⟩ := steps_to hc hs (fun t _ => rest_entered p c hc hob L hL t) t q (by omega) hq
  have h6' := h6
  rw [hr] at h6'
  change newR p c L (fun _ _ => true) 0 p.maxFrames t x = true at h6'
  rw [newR, if_pos ⟨by omega, by omega⟩, Bool.true_and, h4] at h6'
  have hbound := keepArc_bound p c t _ _ q x h6'
  have hdst : c.dst (partFlag p c) t x.1 ∈ L (t + 1) := by
    simp only [keepArc, Bool.and_eq_true, decide_eq_true_eq] at h6'; exact h6'.1
  have hback : back p c L (fun _ _ => true) p.maxFrames (p.maxFrames - (t + 1)) (c.dst (partFlag p c) t x.1) ≠ ⊥ := by
    intro h; rw [h, WithBot.add_bot, WithBot.bot_add] at hbound; exact absurd (le_bot_iff.mp hbound) WithBot.coe_ne_bot
  obtain ⟨ys, w1, w2, w3⟩ := back_steps p c hc p.maxFrames hT L hL hfin (c.fr.length - (t + 1)) (t + 1) _ (by omega)
    (by omega) hdst hback
  rw [← hr] at w1
  have hall : Steps p c (rest p c L) 0 0 (xs ++ x :: ys) (c.f.length - 1) := by
    refine (steps_append _ _ _ _ _).mpr ⟨q, g1, ?_⟩
    rw [Nat.zero_add, g2]
    exact ⟨h1, h4, h5, h6, h7, w1⟩
  have hlen : (xs ++ x :: ys).length = c.fr.length := by
    rw [List.length_append, List.length_cons, g2, w2]; omega
  have hfa : alpha p c c.fr.length (c.f.length - 1) ≠ ⊥ := by
    intro h
    rw [h] at w3
    apply hback
    rw [← w3]
    simp [neg]
  obtain ⟨is1, u1, u2, u3⟩ := steps_out hc hs xs 0 0 q (start_mem hc hs hf) g1
  obtain ⟨is2, u4, u5, u6⟩ := steps_out hc hs ys (t + 1) _ _ h7 w1
  rw [Nat.zero_add, g2, num_start hc hs hf] at u2
  rw [w2, show t + 1 + (c.fr.length - (t + 1)) = c.fr.length by omega, num_end hc hs hf] at u5
  have hrow : (outRows p c (rest p c L)).flatten[i]? = some (entry p c (lay c (rest p c L).1) t q x) := by
    rw [List.getElem?_eq_getElem hi, h3]
  have hpath : IPath (outFsa p c (rest p c L)).flatten 0 (is1 ++ i :: is2) ((outFsa p c (rest p c L)).length - 1) := by
    refine (ipath_append _ _ _ _ _).mpr ⟨_, u2, (ipath_cons _ _ _ _ _).mpr
      ⟨(entry p c (lay c (rest p c L).1) t q x).1, ?_, rfl, u5⟩⟩
    rw [outFsa_flatten, List.getElem?_map, hrow]; rfl
  have hent : entriesOf p c (rest p c L) 0 0 (xs ++ x :: ys) = entriesOf p c (rest p c L) 0 0 xs ++
      entry p c (lay c (rest p c L).1) t q x :: entriesOf p c (rest p c L) (t + 1) (c.dst (partFlag p c) t x.1) ys := by
    rw [entriesOf_append _ _ _ _ _ _ _ _ g1, Nat.zero_add, g2]; rfl
  have v1 : (is1 ++ i :: is2).map (fun i => (outRows p c (rest p c L)).flatten[i]?) =
      (entriesOf p c (rest p c L) 0 0 (xs ++ x :: ys)).map some := by
    rw [hent, List.map_append, List.map_append, u1, List.map_cons, List.map_cons, u4, hrow]
  have v2 : IsOut (outFsa p c (rest p c L)) (is1 ++ i :: is2)
      ((entriesOf p c (rest p c L) 0 0 (xs ++ x :: ys)).map Prod.fst) := by
    obtain ⟨r, r1, r2⟩ := hpath
    have r3 := fsa_of _ _ v1
    rw [r3] at r2
    have : _ = r := List.map_injective_iff.mpr (Option.some_injective _) r2
    rw [← this] at r1
    exact ⟨(out_pos hc hs).mpr hf, r1, r3⟩
  refine ⟨is1 ++ i :: is2, _, by simp, v2, ?_⟩
  · intro is' q' hq'
    obtain ⟨-, zs, z1, z2, z3, z4⟩ := out_accept hc hs is' q' hq'
    have hle := steps_le hc hs zs 0 0 _ (start_mem hc hs hf) z1
    rw [Nat.zero_add, z2, alpha_zero, if_pos ⟨rfl, hf⟩, zero_add] at hle
    rw [z4, entries_score, entries_score, stepsScore_append, g2, g3, Nat.zero_add, stepsScore]
    refine le_trans (add_le_add_left hle _) ?_
    obtain ⟨A, hA⟩ := WithBot.ne_bot_iff_exists.mp hfa
    rw [← w3, ← hA] at hbound
    rw [← hA]
    have : (A : S) + ((-p.outputBeam : K) : S) ≤ A + (c.sc (partFlag p c) t x.1 + (stepsScore p c (t + 1) ys +
        neg (A : S)) + alpha p c t q) := add_le_add_right hbound _
    refine le_trans this (le_of_eq ?_)
    have hz : (A : S) + neg (A : S) = 0 := by
      show (A : S) + ((-A : K) : S) = 0
      rw [← WithBot.coe_add, add_neg_cancel]; rfl
    calc (A : S) + (c.sc (partFlag p c) t x.1 + (stepsScore p c (t + 1) ys + neg (A : S)) + alpha p c t q)
        = ((A : S) + neg (A : S)) + (alpha p c t q + (c.sc (partFlag p c) t x.1 + stepsScore p c (t + 1) ys)) := by
          rw [add_comm (alpha p c t q)]; simp only [add_assoc, add_comm, add_left_comm]
      _ = _ := by rw [hz, zero_add]

end

end Verif.Fsa.Dp
