import Verif.Fsa.Pruned.Paths
import Verif.Fsa.Pruned.Spec

/-!
# The output of one sequence is a decoding result
-/

set_option linter.unusedSectionVars false

namespace Verif.Fsa.Dp
open Verif.Ragged Verif.Util Verif.Fsa.Dn Verif.Fsa.Sco Verif.Fsa.Top

section
variable {K : Type} [Field K] [LinearOrder K] [IsStrictOrderedRing K]

local notation "S" => WithBot K

/-! ## Scores and paths of the search -/

theorem sc_use (c : Seq K) (pf : Bool) (t : Nat) (a : Arc S) (h : pf = false ∨ t + 1 < c.fr.length) :
    c.sc pf t a = useScore c.fr t a := by
  rw [Seq.sc, if_neg (by rintro ⟨h1, h2⟩; rcases h with h | h; rw [h] at h1; simp at h1; omega), useScore, add_comm]

theorem dst_use (c : Seq K) (pf : Bool) (t : Nat) (a : Arc S) (h : pf = false ∨ t + 1 < c.fr.length) :
    c.dst pf t a = a.dst := by
  rw [Seq.dst, if_neg (by rintro ⟨h1, h2⟩; rcases h with h | h; rw [h] at h1; simp at h1; omega)]

theorem align_snoc (pth : List (Arc S)) (a : Arc S) (fr : List (List S)) (h : pth.length < fr.length) :
    alignScore (pth ++ [a]) fr = alignScore pth fr + useScore fr pth.length a := by
  have := alignScore_append pth [a] fr 0 (by omega)
  rw [List.drop_zero, Nat.zero_add, alignScore_cons _ _ _ _ h, alignScore_nil, add_zero] at this
  exact this

/-- The score of a state is that of a path. -/
theorem alpha_path (p : Args K) (c : Seq K) (t q : Nat) (h : alpha p c t q ≠ ⊥)
    (ht : t ≤ c.fr.length) (hpf : partFlag p c = false ∨ t < c.fr.length) :
    ∃ pth, Path c.f.flatten 0 pth q ∧ pth.length = t ∧ alignScore pth c.fr = alpha p c t q := by
  induction t generalizing q with
  | zero =>
    rw [alpha_zero] at h ⊢
    split at h
    · rename_i h0
      rw [if_pos h0]
      exact ⟨[], ⟨h0.1.symm, by simp⟩, rfl, alignScore_nil _⟩
    · exact absurd rfl h
  | succ t ih =>
    obtain ⟨a, h1, h2, h3⟩ := alpha_from p c t q h
    have hsrc : alpha p c t a.src ≠ ⊥ := by intro hb; rw [← h3, hb, WithBot.bot_add] at h; exact h rfl
    obtain ⟨pth, g1, g2, g3⟩ := ih a.src hsrc (by omega) (Or.inr (by omega))
    rw [dst_use c _ t a (by tauto)] at h2
    rw [sc_use c _ t a (by tauto)] at h3
    refine ⟨pth ++ [a], (path_append _ _ _ _ _).mpr ⟨a.src, g1, (path_cons _ _ _ _ _).mpr ⟨h1, rfl, h2, by simp⟩⟩,
      by simp [g2], ?_⟩
    rw [align_snoc _ _ _ (by omega), g2, g3, h3]

theorem sub_lt (x : S) (k : K) (hx : x ≠ ⊥) (hk : 0 < k) : sub x k < x := by
  obtain ⟨y, rfl⟩ := WithBot.ne_bot_iff_exists.mp hx
  rw [sub, ← WithBot.coe_add, WithBot.coe_lt_coe]; linarith

theorem sub_mono (x : S) (k k' : K) (h : k ≤ k') : sub x k' ≤ sub x k := by
  unfold sub
  gcongr
  rw [WithBot.coe_le_coe]; linarith

/-! ## Arcs of a path, as functions of the frame -/

/-- The arc of frame `t`. -/
def arcOf (xs : List (Arc S × Nat)) (t : Nat) : Arc S × Nat := xs.getD t (⟨0, 0, 0, ⊥⟩, 0)

/-- The state before frame `t`. -/
def stateOf (p : Args K) (c : Seq K) (xs : List (Arc S × Nat)) : Nat → Nat
  | 0 => 0
  | t + 1 => c.dst (partFlag p c) t (arcOf xs t).1

theorem arcOf_get (xs : List (Arc S × Nat)) (t : Nat) (h : t < xs.length) : xs[t]? = some (arcOf xs t) := by
  rw [arcOf, List.getD_eq_getElem?_getD, List.getElem?_eq_getElem h]; rfl

theorem chain_src (pth : List (Arc S)) (s e : Nat) (h : Chain s pth e) (t : Nat) (a b : Arc S)
    (ha : pth[t]? = some a) (hb : pth[t + 1]? = some b) : b.src = a.dst := by
  induction pth generalizing s t with
  | nil => simp at ha
  | cons x pth ih =>
    obtain ⟨-, h⟩ := h
    cases t with
    | zero =>
      simp only [List.getElem?_cons_zero, Option.some.injEq] at ha
      subst ha
      cases pth with
      | nil => simp at hb
      | cons y pth =>
        simp only [List.getElem?_cons_succ, List.getElem?_cons_zero, Option.some.injEq] at hb
        subst hb
        exact h.1
    | succ t =>
      rw [List.getElem?_cons_succ] at ha hb
      exact ih _ h t ha hb

section
variable (p : Args K) (c : Seq K) (hc : SeqOk c) (xs : List (Arc (WithBot K) × Nat)) (hlen : xs.length = c.fr.length)
  (hch : ∃ e, Chain 0 (xs.map Prod.fst) e) (harc : ∀ x ∈ xs, c.f.flatten[x.2]? = some x.1)
include hc hlen hch harc

theorem path_arc (t : Nat) (h : t < c.fr.length) : c.f.flatten[(arcOf xs t).2]? = some (arcOf xs t).1 :=
  harc _ (List.mem_of_getElem? (arcOf_get xs t (by omega)))

theorem path_src (t : Nat) (h : t < c.fr.length) : (arcOf xs t).1.src = stateOf p c xs t := by
  obtain ⟨e, hch⟩ := hch
  cases t with
  | zero =>
    cases xs with
    | nil => simp at hlen; omega
    | cons x xs => exact hch.1
  | succ t =>
    rw [stateOf, dst_use _ _ _ _ (Or.inr h)]
    refine chain_src _ _ _ hch t _ _ ?_ ?_
    · rw [List.getElem?_map, arcOf_get xs t (by omega)]; rfl
    · rw [List.getElem?_map, arcOf_get xs (t + 1) (by omega)]; rfl

omit hc hch harc in
theorem path_score (t : Nat) (h : t ≤ c.fr.length) (hpf : partFlag p c = false ∨ t < c.fr.length) :
    preScore p c (arcOf xs) t = alignScore ((xs.map Prod.fst).take t) c.fr := by
  induction t with
  | zero => rw [preScore, List.take_zero, alignScore_nil]
  | succ t ih =>
    rw [preScore, ih (by omega) (Or.inr (by omega)), sc_use _ _ _ _ (by tauto), List.take_add_one, List.getElem?_map,
      arcOf_get xs t (by omega), Option.map_some, Option.toList_some, align_snoc]
    · rw [List.length_take, List.length_map, Nat.min_eq_left (by omega)]
    · rw [List.length_take, List.length_map]; omega

variable (β : Nat → K) (hβ : ∀ t, 0 < t → t < c.fr.length → β t ≤ beamAt p c t)
  (hpos : 0 < c.f.length) (hreal : preScore p c (arcOf xs) c.fr.length ≠ ⊥)
  (hon : OnBeam c.f c.fr β (xs.map Prod.fst))
include hβ hpos hreal hon

/-- The states of a path that stays in the beam are active. -/
theorem path_active (t : Nat) (h : t < c.fr.length) :
    alpha p c t (stateOf p c xs t) ≠ ⊥ ∧ preScore p c (arcOf xs) t ≤ alpha p c t (stateOf p c xs t) := by
  induction t with
  | zero =>
    rw [stateOf, alpha_zero, if_pos ⟨rfl, hpos⟩, preScore, ← WithBot.coe_zero]
    exact ⟨WithBot.coe_ne_bot, le_rfl⟩
  | succ t ih =>
    obtain ⟨-, h2⟩ := ih (by omega)
    have harc' := path_arc c hc xs hlen hch harc t (by omega)
    have hsrc := path_src p c hc xs hlen hch harc t (by omega)
    have hmem := List.mem_of_getElem? harc'
    have hne := preScore_ne_bot p c (arcOf xs) _ (t + 1) (by omega : t + 1 ≤ c.fr.length) hreal
    have hle : preScore p c (arcOf xs) (t + 1) ≤
        alpha p c t (arcOf xs t).1.src + c.sc (partFlag p c) t (arcOf xs t).1 := by
      rw [preScore, hsrc]; gcongr
    have hact : alpha p c (t + 1) (c.dst (partFlag p c) t (arcOf xs t).1) ≠ ⊥ := by
      apply alpha_enter p c t _ hmem
      refine lt_of_le_of_lt (sub_mono _ _ _ (hβ (t + 1) (by omega) h)) (lt_of_lt_of_le ?_ hle)
      rcases mx_mem (c.f.flatten.map (fun a => alpha p c t a.src + c.sc (partFlag p c) t a)) with hm | hm
      · rw [Seq.best, hm, sub, WithBot.bot_add]
        exact bot_lt_iff_ne_bot.mpr hne
      · obtain ⟨a, ha, he⟩ := List.mem_map.mp hm
        rw [Seq.best, ← he]
        by_cases hb : alpha p c t a.src = ⊥
        · rw [hb, WithBot.bot_add, sub, WithBot.bot_add]
          exact bot_lt_iff_ne_bot.mpr hne
        · obtain ⟨pth, g1, g2, g3⟩ := alpha_path p c t a.src hb (by omega) (Or.inr (by omega))
          have := hon (t + 1) (by omega) h (pth ++ [a]) a.dst
            ((path_append _ _ _ _ _).mpr ⟨a.src, g1, (path_cons _ _ _ _ _).mpr ⟨ha, rfl, rfl, by simp⟩⟩) (by simp [g2])
          rw [align_snoc _ _ _ (by omega), g2, g3, ← sc_use c (partFlag p c) t a (Or.inr h),
            ← path_score p c xs hlen (t + 1) (by omega) (Or.inr h)] at this
          exact this
    refine ⟨hact, le_trans hle ?_⟩
    exact alpha_ge p c t _ hmem hact

/-- The final state is active at the end. -/
theorem path_final (hb : 0 < beamAt p c c.fr.length) :
    alpha p c c.fr.length (stateOf p c xs c.fr.length) ≠ ⊥ ∧
      stateOf p c xs c.fr.length = c.f.length - 1 := by
  have hn := hc.pos
  obtain ⟨m, hm⟩ : ∃ m, c.fr.length = m + 1 := ⟨c.fr.length - 1, by omega⟩
  obtain ⟨-, h2⟩ := path_active p c hc xs hlen hch harc β hβ hpos hreal hon m (by omega)
  have harc' := path_arc c hc xs hlen hch harc m (by omega)
  have hsrc := path_src p c hc xs hlen hch harc m (by omega)
  have hmem := List.mem_of_getElem? harc'
  -- all arcs of the last frame lead to the final state
  have hfin : ∀ a ∈ c.f.flatten, c.sc (partFlag p c) m a ≠ ⊥ → c.dst (partFlag p c) m a = c.f.length - 1 := by
    intro a ha hsc
    by_cases hpf : partFlag p c = true
    · rw [Seq.dst, if_pos ⟨hpf, hm.symm⟩]
    · have hpf : partFlag p c = false := by simpa using hpf
      rw [dst_use _ _ _ _ (Or.inl hpf)]
      have hl : a.label = -1 := by
        by_contra hl
        have h3 := hc.last a ha hl
        rw [show c.fr.length - 1 = m by omega] at h3
        rw [sc_use _ _ _ _ (Or.inl hpf), useScore, h3, WithBot.add_bot] at hsc
        exact hsc rfl
      have := hc.lab a ha hl
      omega
  have hne : preScore p c (arcOf xs) (m + 1) ≠ ⊥ := by rw [← hm]; exact hreal
  have hsc : c.sc (partFlag p c) m (arcOf xs m).1 ≠ ⊥ := by
    intro hb'; rw [preScore, hb', WithBot.add_bot] at hne; exact hne rfl
  have hval : alpha p c m (arcOf xs m).1.src + c.sc (partFlag p c) m (arcOf xs m).1 ≠ ⊥ := by
    intro hb'
    rw [preScore] at hne
    apply hne
    rw [hsrc] at hb'
    exact le_bot_iff.mp (le_trans (by gcongr) (le_of_eq hb'))
  have hbi : c.best (partFlag p c) m (alpha p c m) = c.into (partFlag p c) m (alpha p c m) (c.f.length - 1) := by
    apply mx_congr
    intro z hz
    constructor
    · intro h3
      obtain ⟨a, ha, rfl⟩ := List.mem_map.mp h3
      refine List.mem_map.mpr ⟨a, List.mem_filter.mpr ⟨ha, ?_⟩, rfl⟩
      rw [decide_eq_true_eq]
      apply hfin a ha
      intro hb'; rw [hb', WithBot.add_bot] at hz; exact hz rfl
    · intro h3
      obtain ⟨a, ha, rfl⟩ := List.mem_map.mp h3
      exact List.mem_map.mpr ⟨a, (List.mem_filter.mp ha).1, rfl⟩
  have hbest : c.best (partFlag p c) m (alpha p c m) ≠ ⊥ := by
    intro hb'
    have := le_mx _ _ (List.mem_map.mpr ⟨(arcOf xs m).1, hmem, rfl⟩ :
      alpha p c m (arcOf xs m).1.src + c.sc (partFlag p c) m (arcOf xs m).1 ∈
        c.f.flatten.map (fun a => alpha p c m a.src + c.sc (partFlag p c) m a))
    unfold Seq.best at hb'
    rw [hb', le_bot_iff] at this
    exact hval this
  have hQ : stateOf p c xs c.fr.length = c.f.length - 1 := by rw [hm, stateOf]; exact hfin _ hmem hsc
  refine ⟨?_, hQ⟩
  rw [hQ, hm, alpha_succ, step_ne_bot, ← hbi]
  apply sub_lt _ _ hbest
  rw [← hm]; exact hb

/-- A path in the beams is left. -/
theorem path_run (hob : 0 < p.outputBeam) (hb : 0 < beamAt p c c.fr.length) (L : Nat → List Nat)
    (hL : AllActive p c L)
    (hout : alpha p c c.fr.length (c.f.length - 1) + ((-p.outputBeam : K) : S) ≤ preScore p c (arcOf xs) c.fr.length) :
    Run p c (rest p c L) (arcOf xs) (stateOf p c xs) := by
  obtain ⟨h1, h2⟩ := path_final p c hc xs hlen hch harc β hβ hpos hreal hon hb
  apply run_survives_all p c hc hob _ _ hL.active
  · refine ⟨rfl, path_arc c hc xs hlen hch harc, path_src p c hc xs hlen hch harc, fun t _ => rfl, ?_, fun _ _ => rfl⟩
    intro t ht
    apply ((hL t).2 _).mpr
    rcases Nat.eq_or_lt_of_le ht with rfl | h
    · exact h1
    · exact (path_active p c hc xs hlen hch harc β hβ hpos hreal hon t h).1
  · rw [h2]; exact hout

end

theorem run_steps (p : Args K) (c : Seq K) (s : (Nat → List Nat) × (Nat → Arc S × Nat → Bool))
    (X : Nat → Arc S × Nat) (Q : Nat → Nat) (hr : Run p c s X Q) (k t : Nat) (h : t + k ≤ c.fr.length) :
    Steps p c s t (Q t) ((List.range' t k).map X) (Q (t + k)) := by
  induction k generalizing t with
  | zero => rfl
  | succ k ih =>
    rw [List.range'_succ, List.map_cons]
    have e := hr.dst t (by omega)
    refine ⟨by omega, hr.src t (by omega), hr.arc t (by omega), hr.kept t (by omega), ?_, ?_⟩
    · rw [e]; exact hr.st (t + 1) (by omega)
    · rw [e, show t + (k + 1) = t + 1 + k by omega]
      exact ih (t + 1) (by omega)

theorem arcs_list (xs : List (Arc S × Nat)) : (List.range' 0 xs.length).map (arcOf xs) = xs := by
  apply List.ext_getElem?
  intro i
  rw [← List.range_eq_range']
  by_cases h : i < xs.length
  · rw [map_range_get _ _ _ h, arcOf_get xs i h]
  · rw [List.getElem?_eq_none (by simpa using h), List.getElem?_eq_none (by omega)]

/-! ## Steps and alignments -/

section
variable {p : Args K} {c : Seq K} {s : (Nat → List Nat) × (Nat → Arc (WithBot K) × Nat → Bool)}

theorem steps_chain (xs : List (Arc S × Nat)) (t u v : Nat) (h : Steps p c s t u xs v)
    (hpf : partFlag p c = false ∨ t + xs.length < c.fr.length) : Chain u (xs.map Prod.fst) v := by
  induction xs generalizing t u with
  | nil => exact h
  | cons x xs ih =>
    obtain ⟨h1, h2, h3, h4, h5, h6⟩ := h
    rw [List.length_cons] at hpf
    rw [dst_use _ _ _ _ (hpf.imp id (by omega))] at h6
    exact ⟨h2, ih (t + 1) _ h6 (hpf.imp id (by omega))⟩

theorem steps_score (xs : List (Arc S × Nat)) (t u v : Nat) (h : Steps p c s t u xs v)
    (hpf : partFlag p c = false ∨ t + xs.length < c.fr.length) :
    stepsScore p c t xs = alignScore (xs.map Prod.fst) (c.fr.drop t) := by
  induction xs generalizing t u with
  | nil => rw [stepsScore, List.map_nil, alignScore_nil]
  | cons x xs ih =>
    obtain ⟨h1, h2, h3, h4, h5, h6⟩ := h
    rw [List.length_cons] at hpf
    rw [stepsScore, List.map_cons, alignScore_cons _ _ _ _ h1, sc_use _ _ _ _ (hpf.imp id (by omega)),
      ih (t + 1) _ h6 (hpf.imp id (by omega))]

theorem steps_arcs (xs : List (Arc S × Nat)) (t u v : Nat) (h : Steps p c s t u xs v) :
    (xs.map Prod.snd).map (fun j => c.f.flatten[j]?) = (xs.map Prod.fst).map some := by
  induction xs generalizing t u with
  | nil => rfl
  | cons x xs ih =>
    obtain ⟨h1, h2, h3, h4, h5, h6⟩ := h
    simp only [List.map_cons, h3, ih _ _ h6]

theorem steps_bound (xs : List (Arc S × Nat)) (t u v : Nat) (ht : t ≤ c.fr.length) (h : Steps p c s t u xs v) :
    t + xs.length ≤ c.fr.length := by
  induction xs generalizing t u with
  | nil => exact ht
  | cons x xs ih =>
    obtain ⟨h1, h2, h3, h4, h5, h6⟩ := h
    have := ih (t + 1) _ h1 h6
    rw [List.length_cons]; omega

variable (hc : SeqOk c) (hs : Good p c s)
include hc hs

theorem faked_part (t : Nat) (ht : t < c.fr.length) (x : Arc S × Nat)
    (hx : c.f.flatten[x.2]? = some x.1) (h : s.2 t x = true) (hf : faked c t x.1) : partFlag p c = true := by
  by_contra hpf
  have hpf : partFlag p c = false := by simpa using hpf
  apply hs.real t ht x h
  have h3 := hc.last x.1 (List.mem_of_getElem? hx) hf.2
  rw [show c.fr.length - 1 = t by have := hf.1; omega] at h3
  rw [sc_use _ _ _ _ (Or.inl hpf), useScore, h3, WithBot.add_bot]

/-- With partial results, all arcs of the last frame are made final. -/
theorem part_faked (t : Nat) (ht : t + 1 = c.fr.length) (x : Arc S × Nat) (hx : c.f.flatten[x.2]? = some x.1)
    (hsrc : x.1.src ∈ s.1 t) (hpf : partFlag p c = true) : x.1.label ≠ -1 := by
  intro hl
  unfold partFlag at hpf
  rw [Bool.and_eq_true, Bool.not_eq_true'] at hpf
  have h1 := hpf.2
  unfold finalSeen at h1
  rw [decide_eq_false_iff_not] at h1
  apply h1
  refine ⟨x.1, List.mem_of_getElem? hx, hl, ?_⟩
  have h2 := hs.active t _ hsrc
  unfold alpha at h2
  rw [search_part p c _ t (by omega)] at h2
  rw [show c.fr.length - 1 = t by omega]
  exact h2

/-- The entries of arcs that are not made final. -/
theorem entries_plain (xs : List (Arc S × Nat)) (t u v : Nat) (h : Steps p c s t u xs v)
    (hpf : partFlag p c = false ∨ t + xs.length < c.fr.length) :
    labels ((entriesOf p c s t u xs).map Prod.fst) = labels (xs.map Prod.fst) ∧
    (entriesOf p c s t u xs).map (fun y => y.2.1) = xs.map (fun x => ((c.aoff + x.2 : Nat) : Int)) := by
  induction xs generalizing t u with
  | nil => exact ⟨rfl, rfl⟩
  | cons x xs ih =>
    obtain ⟨h1, h2, h3, h4, h5, h6⟩ := h
    rw [List.length_cons] at hpf
    obtain ⟨g1, g2⟩ := ih (t + 1) _ h6 (hpf.imp id (by omega))
    have hnf : ¬ faked c t x.1 := by
      intro hf
      rcases hpf with h | h
      · rw [faked_part hc hs t h1 x h3 h4 hf] at h; simp at h
      · have := hf.1; omega
    unfold labels at g1 ⊢
    simp only [entriesOf, List.map_cons, g1, g2, entry, if_neg hnf]
    exact ⟨trivial, trivial⟩

theorem entries_mb (xs : List (Arc S × Nat)) (u v : Nat) (h : Steps p c s 0 u xs v) (is : List Nat)
    (his : is.map (fun i => (outRows p c s).flatten[i]?) = (entriesOf p c s 0 u xs).map some) (t i : Nat) (a : Arc S)
    (hi : is[t]? = some i) (ha : (xs.map Prod.fst)[t]? = some a) :
    (outMapB p c s)[i]? = some ((c.base + t) * p.b.cols + (a.label + 1).toNat) := by
  rw [List.getElem?_map, Option.map_eq_some_iff] at ha
  obtain ⟨x, hx, rfl⟩ := ha
  have h1 := entriesOf_get xs 0 u t x hx ⟨v, h⟩
  have h2 : (is.map (fun i => (outRows p c s).flatten[i]?))[t]? = some ((outRows p c s).flatten[i]?) := by
    rw [List.getElem?_map, hi]; rfl
  rw [his, List.getElem?_map, h1, Option.map_some, Option.some.injEq, Nat.zero_add] at h2
  rw [outMapB, List.getElem?_map, ← h2]
  rfl

omit hc hs in
theorem mapA_of (is : List Nat) (ys : List (Arc S × Int × Nat))
    (his : is.map (fun i => (outRows p c s).flatten[i]?) = ys.map some) :
    is.map (fun i => (outMapA p c s)[i]?) = (ys.map (fun y => y.2.1)).map some := by
  have := congrArg (List.map (Option.map (fun y : Arc S × Int × Nat => y.2.1))) his
  rw [List.map_map, List.map_map] at this
  rw [List.map_map]
  refine Eq.trans ?_ this
  apply List.map_congr_left
  intro i _
  simp only [Function.comp_apply, outMapA, List.getElem?_map]

omit hc hs in
theorem fsa_of (is : List Nat) (ys : List (Arc S × Int × Nat))
    (his : is.map (fun i => (outRows p c s).flatten[i]?) = ys.map some) :
    is.map (fun i => (outFsa p c s).flatten[i]?) = (ys.map Prod.fst).map some := by
  have := congrArg (List.map (Option.map (fun y : Arc S × Int × Nat => y.1))) his
  rw [List.map_map, List.map_map] at this
  rw [List.map_map]
  refine Eq.trans ?_ this
  apply List.map_congr_left
  intro i _
  simp only [Function.comp_apply, outFsa_flatten, List.getElem?_map]

/-- Accepting paths of the output, as steps. -/
theorem out_accept (is : List Nat) (q : List (Arc S)) (h : IsOut (outFsa p c s) is q) :
    0 < c.f.length ∧ ∃ xs, Steps p c s 0 0 xs (c.f.length - 1) ∧ xs.length = c.fr.length ∧
      is.map (fun i => (outRows p c s).flatten[i]?) = (entriesOf p c s 0 0 xs).map some ∧
      q = (entriesOf p c s 0 0 xs).map Prod.fst := by
  have hf := (out_pos hc hs).mp h.pos
  have hch := h.chain
  rw [← num_end hc hs hf] at hch
  obtain ⟨xs, h1, h2, h3, h4⟩ := out_steps hc hs is q 0 0 c.fr.length (c.f.length - 1)
    (lay_sub _ _ _ _ (start_mem hc hs hf)) (by rw [lay_last hc hs hf]; simp)
    (by rw [num_start hc hs hf]; exact hch) h.arcs
  exact ⟨hf, xs, h1, by omega, h3, h4⟩

theorem accept_out (hf : 0 < c.f.length) (xs : List (Arc S × Nat)) (v : Nat) (h : Steps p c s 0 0 xs v)
    (hlen : xs.length = c.fr.length) : ∃ is : List Nat,
    is.map (fun i => (outRows p c s).flatten[i]?) = (entriesOf p c s 0 0 xs).map some ∧
    IsOut (outFsa p c s) is ((entriesOf p c s 0 0 xs).map Prod.fst) ∧ IAccepting (rowsFsa (outFsa p c s)) is := by
  obtain ⟨is, h1, h2, h3⟩ := steps_out hc hs xs 0 0 v (start_mem hc hs hf) h
  rw [Nat.zero_add, hlen] at h2 h3
  have hv : v = c.f.length - 1 := by
    have := hc.alpha_last p v (hs.active _ v h3)
    omega
  rw [hv, num_end hc hs hf, num_start hc hs hf] at h2
  have hpos := (out_pos hc hs).mpr hf
  obtain ⟨q, hq1, hq2⟩ := h2
  have hq3 := fsa_of is _ h1
  rw [hq3] at hq2
  have : (entriesOf p c s 0 0 xs).map Prod.fst = q := List.map_injective_iff.mpr (Option.some_injective _) hq2
  rw [← this] at hq1
  exact ⟨is, h1, ⟨hpos, hq1, hq3⟩, hpos, _, hq1, hq3⟩

/-- The positions in the graph of the arcs of a row are different. -/
theorem row_nodup (t q : Nat) : (((posArcs c.f q).filter (s.2 t)).map Prod.snd).Nodup := by
  refine List.Nodup.sublist (List.Sublist.map _ List.filter_sublist) ?_
  rw [posArcs, List.zipIdx_map_snd]
  exact List.nodup_range'

/-- Two paths of the output that are mapped to the same arcs are equal. -/
theorem out_unique (hpf : partFlag p c = false) (is is' js : List Nat) (t u e e' : Nat) (hu : u ∈ lay c s.1 t)
    (h1 : IPath (outFsa p c s).flatten (num (lay c s.1) t u) is e)
    (h2 : IPath (outFsa p c s).flatten (num (lay c s.1) t u) is' e')
    (hj : is.map (fun i => (outMapA p c s)[i]?) = js.map (fun j => some ((c.aoff + j : Nat) : Int)))
    (hj' : is'.map (fun i => (outMapA p c s)[i]?) = js.map (fun j => some ((c.aoff + j : Nat) : Int))) : is = is' := by
  induction is generalizing is' js t u with
  | nil =>
    have : js = [] := by simpa using hj.symm
    subst this
    have : is' = [] := by simpa using hj'
    exact this.symm
  | cons i is ih =>
    cases js with
    | nil => simp at hj
    | cons j js =>
      cases is' with
      | nil => simp at hj'
      | cons i' is' =>
        simp only [List.map_cons, List.cons.injEq] at hj hj'
        obtain ⟨b, hb, hbs, hp⟩ := (ipath_cons _ _ _ _ _).mp h1
        obtain ⟨b', hb', hbs', hp'⟩ := (ipath_cons _ _ _ _ _).mp h2
        rw [outFsa_flatten, List.getElem?_map, Option.map_eq_some_iff] at hb hb'
        obtain ⟨y, hy, rfl⟩ := hb
        obtain ⟨y', hy', rfl⟩ := hb'
        obtain ⟨t1, q1, k1, ht1, hq1, hk1, hi1⟩ := lay_arc _ _ _ (lay_nodup hc hs) i y hy
        obtain ⟨t2, q2, k2, ht2, hq2, hk2, hi2⟩ := lay_arc _ _ _ (lay_nodup hc hs) i' y' hy'
        obtain ⟨a1, x1, a2, a3, a4, a5, a6, a7⟩ := entries_of hc hs t1 q1 y k1 hk1
        obtain ⟨b1, x2, b2, b3, b4, b5, b6, b7⟩ := entries_of hc hs t2 q2 y' k2 hk2
        have g1 : num (lay c s.1) t1 q1 = num (lay c s.1) t u := by rw [← hbs, a3]; rfl
        have g2 : num (lay c s.1) t2 q2 = num (lay c s.1) t u := by rw [← hbs', b3]; rfl
        obtain ⟨rfl, rfl⟩ := num_inj _ t1 q1 t u hq1 hu g1
        obtain ⟨rfl, rfl⟩ := num_inj _ t2 q2 t1 q1 hq2 hu g2
        have n1 : ¬ faked c t2 x1.1 := by
          intro hf; rw [faked_part hc hs t2 a1 x1 a5 a6 hf] at hpf; simp at hpf
        have n2 : ¬ faked c t2 x2.1 := by
          intro hf; rw [faked_part hc hs t2 b1 x2 b5 b6 hf] at hpf; simp at hpf
        have m1 : x1.2 = j := by
          have := hj.1
          rw [outMapA, List.getElem?_map, hy, a3, Option.map_some, Option.some.injEq] at this
          simp only [entry, if_neg n1] at this
          omega
        have m2 : x2.2 = j := by
          have := hj'.1
          rw [outMapA, List.getElem?_map, hy', b3, Option.map_some, Option.some.injEq] at this
          simp only [entry, if_neg n2] at this
          omega
        have hk : k1 = k2 := by
          have l1 := (List.getElem?_eq_some_iff.mp a2).1
          refine (List.getElem?_inj (i := k1) (j := k2)
            (l := ((posArcs c.f q2).filter (s.2 t2)).map Prod.snd)
            (by rw [List.length_map]; exact l1) (row_nodup hc hs t2 q2)).mp ?_
          rw [List.getElem?_map, List.getElem?_map, a2, b2, Option.map_some, Option.map_some, m1, m2]
        subst hk
        have hxx : y = y' := by rw [hk1] at hk2; exact Option.some.inj hk2
        subst hxx
        have hd : y.1.dst = num (lay c s.1) (t2 + 1) (c.dst (partFlag p c) t2 x1.1) := by rw [a3]; rfl
        rw [hd] at hp hp'
        rw [hi1, hi2, ih is' js (t2 + 1) _ (lay_sub _ _ _ _ a7) hp hp' hj.2 hj'.2]

end

end

end Verif.Fsa.Dp
