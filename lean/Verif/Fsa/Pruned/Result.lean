import Verif.Fsa.Pruned.Main
import Mathlib.Tactic.Positivity

/-!
# The decoding result of one sequence
-/

set_option linter.unusedSectionVars false

namespace Verif.Fsa.Dp
open Verif.Ragged Verif.Util Verif.Fsa.Dn Verif.Fsa.Sco Verif.Fsa.Top

section
variable {K : Type} [Field K] [LinearOrder K] [IsStrictOrderedRing K]

local notation "S" => WithBot K

/-! ## The beams -/

theorem beam_last (p : Args K) (c : Seq K) (hn : 0 < c.fr.length) : 0 < beamAt p c c.fr.length := by
  obtain ⟨m, hm⟩ : ∃ m, c.fr.length = m + 1 := ⟨c.fr.length - 1, by omega⟩
  have : beamAt p c (m + 1) = 10000000000 := by
    rw [beamAt_succ, nextBeam]
    simp [hm]
  rw [hm, this]
  norm_num

/-- The beam before frame `t` is not narrower than `searchBeam * (4/5)^t`. -/
theorem beam_ge (p : Args K) (c : Seq K) (hs : 0 < p.searchBeam) (t : Nat) (ht : t < c.fr.length) :
    p.searchBeam * (4 / 5) ^ t ≤ beamAt p c t := by
  induction t with
  | zero => simp [beamAt, search]
  | succ t ih =>
    have h := ih (by omega)
    have hpow : (0 : K) < (4 / 5) ^ t := by positivity
    have hpow1 : ((4 / 5 : K)) ^ t ≤ 1 := pow_le_one₀ (by norm_num) (by norm_num)
    have hsp : 0 < p.searchBeam * (4 / 5) ^ t := by positivity
    have hsl : p.searchBeam * (4 / 5) ^ t ≤ p.searchBeam := by
      have := mul_le_mul_of_nonneg_left hpow1 hs.le
      linarith
    rw [beamAt_succ, nextBeam, pow_succ, ← mul_assoc]
    rw [if_neg (by omega)]
    clear ih
    split_ifs <;> linarith

/-- With at most `maxActive` states in the graph, the beam is never narrower than `searchBeam`. -/
theorem beam_ge' (p : Args K) (c : Seq K) (hs : 0 < p.searchBeam) (hm : c.f.length ≤ p.maxActive) (t : Nat)
    (ht : t < c.fr.length) : p.searchBeam ≤ beamAt p c t := by
  induction t with
  | zero => simp [beamAt, search]
  | succ t ih =>
    have h := ih (by omega)
    have ha : c.active (alpha p c t) ≤ p.maxActive := by
      refine le_trans ?_ hm
      unfold Seq.active
      exact le_trans (List.length_filter_le _ _) (by simp)
    rw [beamAt_succ, nextBeam]
    rw [if_neg (by omega), if_pos ha]
    clear ih
    split_ifs <;> linarith

/-! ## The result -/

variable (p : Args K) (c : Seq K) (hc : SeqOk c) (hT : c.fr.length ≤ p.maxFrames) (L : Nat → List Nat)
  (hL : AllActive p c L) (hob : 0 < p.outputBeam) (β : Nat → K)
  (hβ : ∀ t, 0 < t → t < c.fr.length → β t ≤ beamAt p c t)

theorem zip_arcs (js : List Nat) (pth : List (Arc S)) (f : List (List (Arc S)))
    (h : js.map (fun j => f.flatten[j]?) = pth.map some) :
    ((pth.zip js).map Prod.fst = pth ∧ (pth.zip js).map Prod.snd = js) ∧
      ∀ x ∈ pth.zip js, f.flatten[x.2]? = some x.1 := by
  have hl : js.length = pth.length := by simpa using congrArg List.length h
  refine ⟨⟨List.map_fst_zip (by omega), List.map_snd_zip (by omega)⟩, ?_⟩
  intro x hx
  obtain ⟨k, hk⟩ := List.mem_iff_getElem?.mp hx
  obtain ⟨h1, h2⟩ := List.getElem?_zip_eq_some.mp hk
  have h3 := congrArg (·[k]?) h
  simp only [List.getElem?_map, h1, h2, Option.map_some, Option.some.injEq] at h3
  exact h3

include hc hT hL hob hβ in
/-- Completeness, for alignments and partial alignments. -/
theorem path_accepted (hf : 0 < c.f.length) (xs : List (Arc S × Nat)) (hlen : xs.length = c.fr.length)
    (hch : ∃ e, Chain 0 (xs.map Prod.fst) e) (harc : ∀ x ∈ xs, c.f.flatten[x.2]? = some x.1)
    (hreal : preScore p c (arcOf xs) c.fr.length ≠ ⊥) (hon : OnBeam c.f c.fr β (xs.map Prod.fst))
    (hout : alpha p c c.fr.length (c.f.length - 1) + ((-p.outputBeam : K) : S) ≤
      preScore p c (arcOf xs) c.fr.length) : ∃ v is,
    Steps p c (rest p c L) 0 0 xs v ∧
    is.map (fun i => (outRows p c (rest p c L)).flatten[i]?) = (entriesOf p c (rest p c L) 0 0 xs).map some ∧
    IsOut (outFsa p c (rest p c L)) is ((entriesOf p c (rest p c L) 0 0 xs).map Prod.fst) ∧
    IAccepting (rowsFsa (outFsa p c (rest p c L))) is := by
  have hs := rest_good p c hT L hL
  have hr := path_run p c hc xs hlen hch harc β hβ hf hreal hon hob (beam_last p c hc.pos) L hL hout
  have h1 := run_steps p c _ _ _ hr c.fr.length 0 (by omega)
  rw [← hlen, arcs_list] at h1
  obtain ⟨is, h2, h3, h4⟩ := accept_out hc hs hf xs _ h1 hlen
  exact ⟨_, is, h1, h2, h3, h4⟩

theorem part_of_active (p : Args K) (c : Seq K) (a : Arc S) (ha : a ∈ c.f.flatten) (hl : a.label = -1)
    (hn : 0 < c.fr.length) (h : alpha p c (c.fr.length - 1) a.src ≠ ⊥) : partFlag p c = false := by
  unfold alpha at h
  rw [search_part p c _ _ (by omega)] at h
  have : finalSeen p c = true := by
    unfold finalSeen
    rw [decide_eq_true_eq]
    exact ⟨a, ha, hl, h⟩
  unfold partFlag
  rw [this]; simp

include hc hT hL hob hβ in
theorem decoded (hfin : ∀ a ∈ c.f.flatten, a.dst + 1 = c.f.length → a.label = -1) :
    Decoded c.f c.fr c.aoff c.base p.b.cols p.outputBeam β (partFlag p c) (outFsa p c (rest p c L))
      (outMapA p c (rest p c L)) (outMapB p c (rest p c L)) := by
  have hs := rest_good p c hT L hL
  have hn := hc.pos
  have hlen : (outFsa p c (rest p c L)).length = (outRows p c (rest p c L)).length := by simp [outFsa]
  refine ⟨?_, ?_, ?_, ?_, out_pos hc hs, ?_, ?_, ?_, ?_, ?_, ?_, ?_⟩
  · -- rows
    intro x row hx a ha
    have hxl := (List.getElem?_eq_some_iff.mp hx).1
    rw [hlen] at hxl
    obtain ⟨t, q, ht, hq, rfl⟩ := num_surj _ _ _ (lay_nodup hc hs) x hxl
    rw [outFsa, List.getElem?_map, outRows, layRows_get _ _ _ t q ht hq] at hx
    obtain rfl := Option.some.inj hx
    obtain ⟨y, hy, rfl⟩ := List.mem_map.mp ha
    obtain ⟨k, hk⟩ := List.mem_iff_getElem?.mp hy
    obtain ⟨h1, z, h2, h3, h4, h5, h6, h7⟩ := entries_of hc hs t q y k hk
    rw [hlen, h3]
    exact ⟨rfl, num_lt _ _ _ (t + 1) _ h1 (lay_sub _ _ _ _ h7)⟩
  · -- top
    intro a ha
    rw [outFsa_flatten] at ha
    obtain ⟨y, hy, rfl⟩ := List.mem_map.mp ha
    obtain ⟨i, hi⟩ := List.mem_iff_getElem?.mp hy
    obtain ⟨t, q, k, ht, hq, hk, -⟩ := lay_arc _ _ _ (lay_nodup hc hs) i y hi
    obtain ⟨h1, z, h2, h3, h4, h5, h6, h7⟩ := entries_of hc hs t q y k hk
    rw [h3]
    exact num_mono _ t q _ hq
  · rw [outMapA, outFsa_flatten, List.length_map, List.length_map]
  · rw [outMapB, outFsa_flatten, List.length_map, List.length_map]
  · -- sound
    intro hpf is q hq
    obtain ⟨hf, xs, h1, h2, h3, h4⟩ := out_accept hc hs is q hq
    obtain ⟨g1, g2⟩ := entries_plain hc hs xs 0 0 _ h1 (Or.inl hpf)
    have hsc := steps_score xs 0 0 _ h1 (Or.inl hpf)
    rw [List.drop_zero] at hsc
    refine ⟨xs.map Prod.snd, xs.map Prod.fst, ⟨hf, steps_chain xs 0 0 _ h1 (Or.inl hpf), steps_arcs xs 0 0 _ h1, by
      simp [h2]⟩, ?_, by rw [h4, g1], by rw [h4, entries_score, hsc], ?_, ?_⟩
    · rw [mapA_of is _ h3, g2, List.map_map, List.map_map]; rfl
    · rw [h4, entries_score]; exact steps_real hc hs xs 0 0 _ h1
    · exact entries_mb hc hs xs 0 _ h1 is h3
  · -- partial
    intro hpf is q hq
    obtain ⟨hf, xs, h1, h2, h3, h4⟩ := out_accept hc hs is q hq
    obtain ⟨ys, x, rfl⟩ : ∃ ys x, xs = ys ++ [x] := by
      have : xs ≠ [] := by intro h; rw [h] at h2; simp at h2; omega
      exact ⟨xs.dropLast, xs.getLast this, (List.dropLast_append_getLast this).symm⟩
    rw [List.length_append, List.length_singleton] at h2
    obtain ⟨w, s1, s2⟩ := (steps_append _ _ _ _ _).mp h1
    rw [Nat.zero_add] at s2
    obtain ⟨-, -, -, hw⟩ := steps_out hc hs ys 0 0 w (start_mem hc hs hf) s1
    rw [Nat.zero_add] at hw
    obtain ⟨b1, b2, b3, b4, b5, b6⟩ := s2
    have hlab : x.1.label ≠ -1 := part_faked hc hs ys.length h2 x b3 (by rw [b2]; exact hw) hpf
    have hfk : faked c ys.length x.1 := ⟨h2, hlab⟩
    obtain ⟨g1, g2⟩ := entries_plain hc hs ys 0 0 _ s1 (Or.inr (by omega))
    have hsc := steps_score ys 0 0 _ s1 (Or.inr (by omega))
    rw [List.drop_zero] at hsc
    have hent : ∀ (ys : List (Arc S × Nat)) t u, Steps p c (rest p c L) t u ys w →
        entriesOf p c (rest p c L) t u (ys ++ [x]) = entriesOf p c (rest p c L) t u ys ++
          [entry p c (lay c (rest p c L).1) (t + ys.length) w x] := by
      intro ys
      induction ys with
      | nil => intro t u h; obtain rfl : u = w := h; rfl
      | cons y ys ih =>
        intro t u h
        rw [List.cons_append, entriesOf, ih _ _ h.2.2.2.2.2, entriesOf, List.cons_append, List.length_cons,
          show t + 1 + ys.length = t + (ys.length + 1) by omega]
    have he := hent ys 0 0 s1
    rw [Nat.zero_add] at he
    refine ⟨ys.map Prod.snd, ys.map Prod.fst, x.2, x.1, ⟨⟨x.1.dst, ?_⟩, ?_, by simp [h2], hlab⟩, ?_, ?_, ?_, ?_, ?_⟩
    · exact (chain_append _ _ _ _).mpr ⟨w, steps_chain ys 0 0 _ s1 (Or.inr (by omega)), b2, rfl⟩
    · rw [List.map_append, List.map_append, steps_arcs ys 0 0 _ s1]
      simp [b3]
    · rw [mapA_of is _ h3, he, List.map_append, List.map_append, g2, List.map_map, List.map_map]
      simp [entry, if_pos hfk]
    · rw [h4, he]
      unfold labels at g1 ⊢
      rw [List.map_append, List.map_append, g1]
      simp [entry, if_pos hfk]
    · rw [h4, entries_score, stepsScore_append, hsc, Nat.zero_add, stepsScore, stepsScore, add_zero, Seq.sc,
        if_pos ⟨hpf, h2⟩]
    · rw [h4, entries_score]; exact steps_real hc hs _ 0 0 _ h1
    · intro t i b hi hb
      exact entries_mb hc hs _ 0 _ h1 is h3 t i b hi (by rw [List.map_append]; exact hb)
  · -- complete
    intro js pth hal hfinite hon hio
    obtain ⟨⟨e1, e2⟩, harc⟩ := zip_arcs js pth c.f hal.arcs
    set xs := pth.zip js with hxs
    have hl : xs.length = c.fr.length := by
      rw [← hal.len, ← e1, List.length_map]
    have hch : ∃ e, Chain 0 (xs.map Prod.fst) e := ⟨_, by rw [e1]; exact hal.chain⟩
    have hf := hal.pos
    -- the last arc has label -1
    obtain ⟨m, hm⟩ : ∃ m, c.fr.length = m + 1 := ⟨c.fr.length - 1, by omega⟩
    have hpl := path_arc c hc xs hl hch harc m (by omega)
    have hsplit : pth = pth.take m ++ [(arcOf xs m).1] := by
      have h1 : pth[m]? = some (arcOf xs m).1 := by
        rw [← e1, List.getElem?_map, arcOf_get xs m (by omega)]; rfl
      have h2 := List.take_add_one (l := pth) (i := m)
      rw [h1, List.take_of_length_le (by rw [hal.len]; omega)] at h2
      exact h2
    have hlab : (arcOf xs m).1.label = -1 := by
      by_contra hlab
      apply hfinite
      rw [hsplit, align_snoc _ _ _ (by rw [List.length_take]; omega), List.length_take, hal.len,
        Nat.min_eq_left (by omega), useScore]
      have := hc.last _ (List.mem_of_getElem? hpl) hlab
      rw [show c.fr.length - 1 = m by omega] at this
      rw [this, WithBot.add_bot, WithBot.add_bot]
    have hps : ∀ t < c.fr.length, preScore p c (arcOf xs) t = alignScore (pth.take t) c.fr := by
      intro t ht
      rw [path_score p c xs hl t (by omega) (Or.inr ht), e1]
    -- so it is seen
    have hpf : partFlag p c = false := by
      by_contra hpf
      have hpf' : partFlag p c = true := by simpa using hpf
      have hreal : preScore p c (arcOf xs) c.fr.length ≠ ⊥ := by
        rw [hm, preScore, hps m (by omega), Seq.sc, if_pos ⟨hpf', hm.symm⟩]
        intro hb
        apply hfinite
        rw [hsplit, align_snoc _ _ _ (by rw [List.length_take]; omega), useScore, ← add_assoc, hb, WithBot.bot_add]
      have h1 := (path_active p c hc xs hl hch harc β hβ hf hreal (by rw [e1]; exact hon) m (by omega)).1
      rw [← path_src p c hc xs hl hch harc m (by omega), show m = c.fr.length - 1 by omega] at h1
      have h2 := part_of_active p c _ (List.mem_of_getElem? (by rw [show c.fr.length - 1 = m by omega]; exact hpl))
        (by rw [show c.fr.length - 1 = m by omega]; exact hlab) hn h1
      exact hpf h2
    have htot : preScore p c (arcOf xs) c.fr.length = alignScore pth c.fr := by
      rw [path_score p c xs hl _ le_rfl (Or.inl hpf), e1, List.take_of_length_le (by rw [hal.len])]
    refine ⟨hpf, ?_⟩
    have hout : alpha p c c.fr.length (c.f.length - 1) + ((-p.outputBeam : K) : S) ≤
        preScore p c (arcOf xs) c.fr.length := by
      rw [htot]
      by_cases hb : alpha p c c.fr.length (c.f.length - 1) = ⊥
      · rw [hb, WithBot.bot_add]; exact bot_le
      · obtain ⟨pth', g1, g2, g3⟩ := alpha_path p c _ _ hb le_rfl (Or.inl hpf)
        obtain ⟨js', hjs'⟩ := path_index c.f.flatten pth' g1.2
        rw [← g3]
        exact hio js' pth' ⟨hf, g1.1, hjs', g2⟩
    obtain ⟨v, is, h1, h2, h3, h4⟩ := path_accepted p c hc hT L hL hob β hβ hf xs hl hch harc
      (by rw [htot]; exact hfinite) (by rw [e1]; exact hon) hout
    have hmap : is.map (fun i => (outMapA p c (rest p c L))[i]?) =
        js.map (fun j => some ((c.aoff + j : Nat) : Int)) := by
      rw [mapA_of is _ h2, (entries_plain hc hs xs 0 0 _ h1 (Or.inl hpf)).2, List.map_map]
      conv_rhs => rw [← e2, List.map_map]
      rfl
    refine ⟨is, ⟨hmap, h4⟩, ?_⟩
    rintro is' ⟨hmap', h4'⟩
    refine out_unique hc hs hpf is' is js 0 0 ((outFsa p c (rest p c L)).length - 1)
      ((outFsa p c (rest p c L)).length - 1) (lay_sub _ _ _ _ (start_mem hc hs hf)) ?_ ?_ hmap' hmap
    · rw [num_start hc hs hf]; exact h4'.2
    · rw [num_start hc hs hf]; exact h4.2
  · -- complete, partial
    intro hpf js pth j a hpa hfinite hon hio
    obtain ⟨⟨e1, e2⟩, harc⟩ := zip_arcs (js ++ [j]) (pth ++ [a]) c.f hpa.arcs
    set xs := (pth ++ [a]).zip (js ++ [j]) with hxs
    have hl : xs.length = c.fr.length := by
      rw [← hpa.len]
      have := congrArg List.length e1
      simpa using this
    obtain ⟨e, hche⟩ := hpa.chain
    have hch : ∃ e, Chain 0 (xs.map Prod.fst) e := ⟨e, by rw [e1]; exact hche⟩
    obtain ⟨m, hm⟩ : ∃ m, c.fr.length = m + 1 := ⟨c.fr.length - 1, by omega⟩
    have hlp : pth.length = m := by have := hpa.len; omega
    have hax : (arcOf xs m).1 = a := by
      have h1 : (pth ++ [a])[m]? = some (arcOf xs m).1 := by
        rw [← e1, List.getElem?_map, arcOf_get xs m (by omega)]; rfl
      rw [← hlp] at h1 ⊢
      simpa using h1.symm
    have hf : 0 < c.f.length := by
      have := hc.fin a (by
        have := path_arc c hc xs hl hch harc m (by omega)
        rw [hax] at this
        exact List.mem_of_getElem? this)
      omega
    have htot : preScore p c (arcOf xs) c.fr.length = alignScore pth c.fr + a.score := by
      rw [hm, preScore, path_score p c xs hl m (by omega) (Or.inr (by omega)), e1, Seq.sc, if_pos ⟨hpf, hm.symm⟩, hax,
        ← hlp, List.take_left]
    have hon' : OnBeam c.f c.fr β (xs.map Prod.fst) := by
      intro t h0 ht other e' hpath hlo
      rw [e1, List.take_append_of_le_length (by omega)]
      exact hon t h0 ht other e' hpath hlo
    have hout : alpha p c c.fr.length (c.f.length - 1) + ((-p.outputBeam : K) : S) ≤
        preScore p c (arcOf xs) c.fr.length := by
      rw [htot]
      by_cases hb : alpha p c c.fr.length (c.f.length - 1) = ⊥
      · rw [hb, WithBot.bot_add]; exact bot_le
      · rw [hm] at hb
        obtain ⟨a', k1, k2, k3⟩ := alpha_from p c m _ hb
        have hsrc : alpha p c m a'.src ≠ ⊥ := by intro h; rw [← k3, h, WithBot.bot_add] at hb; exact hb rfl
        obtain ⟨pth', g1, g2, g3⟩ := alpha_path p c m _ hsrc (by omega) (Or.inr (by omega))
        have hpath : ∀ b ∈ pth' ++ [a'], b ∈ c.f.flatten := by
          intro b hb
          rcases List.mem_append.mp hb with h | h
          · exact g1.2 b h
          · rw [List.mem_singleton.mp h]; exact k1
        obtain ⟨js', hjs'⟩ := path_index c.f.flatten pth' g1.2
        obtain ⟨j', hj'⟩ := List.mem_iff_getElem?.mp k1
        have hla : a'.label ≠ -1 := by
          intro hl'
          have := part_of_active p c a' k1 hl' hn (by rw [show c.fr.length - 1 = m by omega]; exact hsrc)
          rw [this] at hpf; simp at hpf
        have := hio js' pth' j' a' ⟨⟨a'.dst, (chain_append _ _ _ _).mpr ⟨_, g1.1, rfl, rfl⟩⟩, by
          rw [List.map_append, List.map_append, hjs']; simp [hj'], by omega, hla⟩
        rw [hm, ← k3, Seq.sc, if_pos ⟨hpf, hm.symm⟩, ← g3]
        exact this
    obtain ⟨v, is, h1, h2, h3, h4⟩ := path_accepted p c hc hT L hL hob β hβ hf xs hl hch harc
      (by rw [htot]; exact hfinite) hon' hout
    -- what the path is, from soundness of the steps
    obtain ⟨ys, x, hyx⟩ : ∃ ys x, xs = ys ++ [x] := by
      have : xs ≠ [] := by intro h; rw [h] at hl; simp at hl; omega
      exact ⟨xs.dropLast, xs.getLast this, (List.dropLast_append_getLast this).symm⟩
    have hy1 : ys.map Prod.fst = pth ∧ x.1 = a := by
      have := e1
      rw [hyx, List.map_append, List.map_singleton] at this
      have h5 := List.append_inj' this rfl
      exact ⟨h5.1, by simpa using h5.2⟩
    have hy2 : ys.map Prod.snd = js ∧ x.2 = j := by
      have := e2
      rw [hyx, List.map_append, List.map_singleton] at this
      have h5 := List.append_inj' this rfl
      exact ⟨h5.1, by simpa using h5.2⟩
    rw [hyx] at h1 h2 h3
    have hyl : ys.length = m := by rw [← hlp, ← hy1.1, List.length_map]
    obtain ⟨w, s1, s2⟩ := (steps_append _ _ _ _ _).mp h1
    obtain ⟨g1, g2⟩ := entries_plain hc hs ys 0 0 _ s1 (Or.inr (by omega))
    have hfk : faked c ys.length x.1 := ⟨by omega, by rw [hy1.2]; exact hpa.label⟩
    have hent : ∀ (ys : List (Arc S × Nat)) t u, Steps p c (rest p c L) t u ys w →
        entriesOf p c (rest p c L) t u (ys ++ [x]) = entriesOf p c (rest p c L) t u ys ++
          [entry p c (lay c (rest p c L).1) (t + ys.length) w x] := by
      intro ys
      induction ys with
      | nil => intro t u h; obtain rfl : u = w := h; rfl
      | cons y ys ih =>
        intro t u h
        rw [List.cons_append, entriesOf, ih _ _ h.2.2.2.2.2, entriesOf, List.cons_append, List.length_cons,
          show t + 1 + ys.length = t + (ys.length + 1) by omega]
    have he := hent ys 0 0 s1
    rw [Nat.zero_add] at he
    refine ⟨is, _, h3, ?_, ?_, ?_⟩
    · have hsc := steps_score ys 0 0 _ s1 (Or.inr (by omega))
      rw [List.drop_zero] at hsc
      rw [entries_score, stepsScore_append, hsc, Nat.zero_add, stepsScore, stepsScore, add_zero, Seq.sc,
        if_pos ⟨hpf, by omega⟩, hy1.1, hy1.2]
    · rw [he]
      unfold labels at g1 ⊢
      rw [List.map_append, List.map_append, g1, hy1.1]
      simp [entry, if_pos hfk]
    · rw [mapA_of is _ h2, he, List.map_append, List.map_append, g2, List.map_map, List.map_map]
      conv_rhs => rw [← hy2.1, List.map_map]
      simp only [List.map_cons, List.map_nil, entry, if_pos hfk]
      rfl
  · -- reached
    intro x hx
    have hxl : x < (outRows p c (rest p c L)).length := by rw [← hlen]; omega
    obtain ⟨t, q, ht, hq, rfl⟩ := num_surj _ _ _ (lay_nodup hc hs) x hxl
    have hf := (out_pos hc hs).mp (by omega)
    have hq' : q ∈ (rest p c L).1 t := by
      unfold lay at hq
      split at hq
      · rename_i h
        have : q = c.f.length - 1 := by simpa using hq
        subst this
        rw [h.1, num_end hc hs hf] at hx
        omega
      · exact hq
    obtain ⟨xs, h1, h2, -⟩ := steps_to hc hs (fun t _ => rest_entered p c hc hob L hL t) t q ht hq'
    obtain ⟨is, -, h3, -⟩ := steps_out hc hs xs 0 0 q (start_mem hc hs hf) h1
    rw [num_start hc hs hf, Nat.zero_add, h2] at h3
    exact ⟨is, h3⟩
  · -- alive
    intro is x hp h0 hl h10
    obtain ⟨q, hq1, hq2⟩ := hp
    have hqne : q ≠ [] := by
      intro h; rw [h] at hq2; simp at hq2; rw [hq2] at h0; simp at h0
    have hxl : x < (outFsa p c (rest p c L)).length := by
      have hrows : RowsOk (outFsa p c (rest p c L)) := by
        intro x row hx a ha
        have hxl := (List.getElem?_eq_some_iff.mp hx).1
        rw [hlen] at hxl
        obtain ⟨t, q, ht, hq, rfl⟩ := num_surj _ _ _ (lay_nodup hc hs) x hxl
        rw [outFsa, List.getElem?_map, outRows, layRows_get _ _ _ t q ht hq] at hx
        obtain rfl := Option.some.inj hx
        obtain ⟨y, hy, rfl⟩ := List.mem_map.mp ha
        obtain ⟨k, hk⟩ := List.mem_iff_getElem?.mp hy
        obtain ⟨h1, z, h2, h3, h4, h5, h6, h7⟩ := entries_of hc hs t q y k hk
        rw [hlen, h3]
        exact ⟨rfl, num_lt _ _ _ (t + 1) _ h1 (lay_sub _ _ _ _ h7)⟩
      obtain ⟨r, b, rfl⟩ : ∃ r b, q = r ++ [b] :=
        ⟨q.dropLast, q.getLast hqne, (List.dropLast_append_getLast hqne).symm⟩
      obtain ⟨w, -, hb1, hb2⟩ := (chain_append _ _ _ _).mp hq1
      have hb : b ∈ (outFsa p c (rest p c L)).flatten := path_of_index _ is _ hq2 b (by simp)
      have := (arc_in_row _ hrows b hb).2.2
      rw [show x = b.dst from hb2.symm]
      exact this
    have hf := (out_pos hc hs).mp (by omega)
    obtain ⟨t, u, ht, hu, rfl⟩ := num_surj _ _ _ (lay_nodup hc hs) x (by rw [hlen] at hxl; exact hxl)
    rw [← num_start hc hs hf] at hq1
    obtain ⟨xs, h1, h2, h3, h4⟩ := out_steps hc hs is q 0 0 t u (lay_sub _ _ _ _ (start_mem hc hs hf)) hu hq1 hq2
    have hil : is.length = t := by
      have := congrArg List.length h3
      rw [List.length_map, List.length_map, entriesOf_length] at this
      omega
    rw [hil] at h0 hl h10
    rw [lay_lt _ _ _ (by omega)] at hu
    -- the final state is not active before the end
    have huf : u + 1 < c.f.length := by
      have hact := hs.active t u hu
      have hlt := hc.alpha_lt p t u hact
      by_contra hge
      obtain ⟨m, rfl⟩ : ∃ m, t = m + 1 := ⟨t - 1, by omega⟩
      obtain ⟨a, k1, k2, k3⟩ := alpha_from p c m u hact
      rw [dst_use _ _ _ _ (Or.inr hl)] at k2
      have hla := hfin a k1 (by omega)
      rw [sc_use _ _ _ _ (Or.inr hl), useScore, hla, hc.others m hl, WithBot.add_bot, WithBot.add_bot] at k3
      exact hact k3.symm
    obtain ⟨y, k1, k2⟩ := rest_alive p c hc hT L t h0 hl h10 u hu huf
    obtain ⟨k3, k4⟩ := (mem_posArcs _ hc.rows _ _).mp k1
    have hmem := entries_mem hc hs t hl y k3 k2
    obtain ⟨k, hk⟩ := List.mem_iff_getElem?.mp hmem
    have := lay_arc_mem (lay c (rest p c L).1) c.fr.length (entries p c (rest p c L)) t y.1.src k _ (by omega)
      (by rw [k4]; exact lay_sub _ _ _ _ hu) hk
    refine ⟨(entry p c (lay c (rest p c L).1) t y.1.src y).1, ?_, ?_⟩
    · rw [outFsa_flatten]
      exact List.mem_map.mpr ⟨_, List.mem_of_getElem? this, rfl⟩
    · rw [← k4]; rfl
  · -- origin
    intro hpf i b hb
    rw [outFsa_flatten, List.getElem?_map, Option.map_eq_some_iff] at hb
    obtain ⟨y, hy, rfl⟩ := hb
    obtain ⟨t, q, k, ht, hq, hk, -⟩ := lay_arc _ _ _ (lay_nodup hc hs) i y hy
    obtain ⟨h1, z, h2, h3, h4, h5, h6, h7⟩ := entries_of hc hs t q y k hk
    have hn : ¬ faked c t z.1 := by
      intro hf
      rw [faked_part hc hs t h1 z h5 h6 hf] at hpf
      simp at hpf
    refine ⟨z.2, z.1, h5, ?_, ?_⟩
    · rw [outMapA, List.getElem?_map, hy, h3, Option.map_some]
      simp only [entry, if_neg hn]
    · rw [h3]
      simp only [entry, if_neg hn]

end

end Verif.Fsa.Dp
