import Verif.Rnnt.Decode.Step
import Verif.Rnnt.Decode.Spec

/-! Contexts as numbers, and the first pass. -/

namespace Verif.Rnnt.Dec
open Verif.Fsa Verif.Util

/-- The number of a context. -/
def cval (V : Nat) (c : List Nat) : Nat := c.foldl (fun x d => x * V + d) 0

theorem cval_snoc (V : Nat) (l : List Nat) (d : Nat) : cval V (l ++ [d]) = cval V l * V + d := by
  simp [cval, List.foldl_append]

theorem cval_cons (V : Nat) (a : Nat) (l : List Nat) : cval V (a :: l) = a * V ^ l.length + cval V l := by
  induction l using List.reverseRecOn with
  | nil => simp [cval]
  | append_singleton l d ih =>
    rw [← List.cons_append, cval_snoc, cval_snoc, ih, List.length_append, List.length_singleton, Nat.pow_succ,
      Nat.add_mul, Nat.mul_assoc, Nat.add_assoc]

theorem cval_lt (V : Nat) (l : List Nat) (h : ∀ d ∈ l, d < V) : cval V l < V ^ l.length := by
  induction l with
  | nil => simp [cval]
  | cons a l ih =>
    rw [cval_cons, List.length_cons, Nat.pow_succ]
    have h1 := ih (fun d hd => h d (by simp [hd]))
    have h2 : a + 1 ≤ V := h a (by simp)
    have := Nat.mul_le_mul_right (V ^ l.length) h2
    rw [Nat.add_mul, Nat.one_mul, Nat.mul_comm V] at this
    omega

/-- Dropping the first symbols takes the remainder. -/
theorem cval_drop (V : Nat) (hV : 1 ≤ V) (c : List Nat) (h : ∀ d ∈ c, d < V) (k : Nat) :
    cval V c % V ^ (c.length - k) = cval V (c.drop k) := by
  induction k generalizing c with
  | zero => simpa using Nat.mod_eq_of_lt (cval_lt V c h)
  | succ k ih =>
    cases c with
    | nil => simp [cval, Nat.mod_one]
    | cons a c =>
      have ih := ih c (fun d hd => h d (by simp [hd]))
      rw [List.length_cons, List.drop_succ_cons, Nat.add_sub_add_right, cval_cons, ← ih]
      have : V ^ (c.length - k) ∣ a * V ^ c.length :=
        Dvd.dvd.mul_left (Nat.pow_dvd_pow V (Nat.sub_le _ _)) a
      rw [Nat.add_mod, Nat.mod_eq_zero_of_dvd this, Nat.zero_add, Nat.mod_mod]

/-- The digits of the number of a context are its symbols. -/
theorem cval_digits (V : Nat) (hV : 1 ≤ V) (c : List Nat) (h : ∀ d ∈ c, d < V) :
    (List.range c.length).map (fun col => cval V c % V ^ (c.length - col) / V ^ (c.length - col - 1)) = c := by
  apply List.ext_getElem?
  intro k
  rw [List.getElem?_map]
  by_cases hk : k < c.length
  · rw [List.getElem?_range hk, Option.map_some, cval_drop V hV c h, List.drop_eq_getElem_cons hk, cval_cons,
      List.getElem?_eq_getElem hk]
    have hl : (c.drop (k + 1)).length = c.length - k - 1 := by simp; omega
    rw [hl]
    have hlt : cval V (c.drop (k + 1)) < V ^ (c.length - k - 1) := by
      rw [← hl]
      exact cval_lt V _ (fun d hd => h d (List.mem_of_mem_drop hd))
    rw [Nat.mul_comm, Nat.mul_add_div (Nat.pow_pos hV), Nat.div_eq_of_lt hlt, Nat.add_zero]
  · rw [List.getElem?_eq_none (by simpa using Nat.le_of_not_lt hk), List.getElem?_eq_none (by omega)]
    rfl

theorem lastSyms_length (H : Nat) (w : List Nat) : (lastSyms H w).length = H := by
  simp [lastSyms]

theorem lastSyms_lt (H V : Nat) (hV : 1 ≤ V) (w : List Nat) (h : ∀ d ∈ w, d < V) : ∀ d ∈ lastSyms H w, d < V := by
  intro d hd
  have := List.mem_of_mem_drop hd
  rw [List.mem_append] at this
  rcases this with h' | h'
  · have := (List.mem_replicate.1 h').2; omega
  · exact h d h'

theorem lastSyms_snoc (H : Nat) (hH : 1 ≤ H) (w : List Nat) (d : Nat) :
    lastSyms H (w ++ [d]) = (lastSyms H w).drop 1 ++ [d] := by
  unfold lastSyms
  rw [List.length_append, List.length_singleton, ← List.append_assoc, List.drop_drop,
    List.drop_append_of_le_length (by simp; omega)]

theorem cval_shift (H V : Nat) (hH : 1 ≤ H) (hV : 1 ≤ V) (w : List Nat) (h : ∀ d ∈ w, d < V) (d : Nat) :
    cval V (lastSyms H w) % V ^ (H - 1) * V + d = cval V (lastSyms H (w ++ [d])) := by
  rw [lastSyms_snoc H hH, cval_snoc]
  have := cval_drop V hV (lastSyms H w) (lastSyms_lt H V hV w h) 1
  rw [lastSyms_length] at this
  rw [this]

theorem flatMap_if {α β : Type} (l : List α) (P : α → Bool) (h : α → β) :
    (l.map (fun x => if P x then [h x] else [])).flatten = (l.filter P).map h := by
  induction l with
  | nil => rfl
  | cons a l ih =>
    rw [List.map_cons, List.flatten_cons, ih, List.filter_cons]
    by_cases hp : P a
    · simp [hp]
    · simp [hp]

section
variable {K : Type} [Field K] [LinearOrder K] [IsStrictOrderedRing K]

local notation "S" => WithBot K

/-- A move that the first pass keeps; `best` is the best score and `s` that of the state. -/
def Kept (beam : K) (net : List Nat → Nat → S) (c : List Nat) (best s : S) (m : Move S) : Prop :=
  m.label = 0 ∨ sub best beam ≤ s + m.graphScore + (if m.label = -1 then 0 else net c m.symbol)

instance (beam : K) (net : List Nat → Nat → S) (c : List Nat) (best s : S) (m : Move S) :
    Decidable (Kept beam net c best s m) := by unfold Kept; infer_instance

/-- The arc of a move after the first pass. -/
def pendOf (V H n : Nat) (net : List Nat → Nat → S) (w : List Nat) (q : Nat) (s : S) (m : Move S) : Pend S :=
  ⟨m.id, m.graphScore + net (lastSyms H w) m.symbol, m.label,
    cval V (lastSyms H (w ++ m.emits)) * n + m.next q, s + (m.graphScore + net (lastSyms H w) m.symbol)⟩

omit [LinearOrder K] [IsStrictOrderedRing K] [Field K] in
theorem look_row (V : Nat) (net : List Nat → Nat → S) (c : List Nat) (l : Int) (h0 : 0 ≤ l) (h1 : l < V) :
    look (netRow V net c) l = some (net c l.toNat) := by
  have : l.toNat < V := by omega
  simp [look, h0, netRow, this]

theorem expand_spec (cfg : Cfg K) (hc : CfgOk cfg) (g : Graph S) (hg : GraphOk g cfg.vocab)
    (net : List Nat → Nat → S) (w : List Nat) (hw : ∀ d ∈ w, d < cfg.vocab) (q : Nat) (hq : q < g.length)
    (best s : S) (v : Nat) (hv : v = cval cfg.vocab (lastSyms cfg.hist w) * g.length + q) :
    ∃ l, expand cfg g (netRow cfg.vocab net (lastSyms cfg.hist w)) best (v, s) = some l ∧
      (l.map Pend.arc).Nodup ∧
      ∀ p, p ∈ l ↔ ∃ m : Move S, m.Can g q ∧ Kept cfg.beam net (lastSyms cfg.hist w) best s m ∧
        p = pendOf cfg.vocab cfg.hist g.length net w q s m := by
  have hn : 0 < g.length := hg.pos
  have hmod : v % g.length = q := by rw [hv, Nat.mul_comm, Nat.mul_add_mod, Nat.mod_eq_of_lt hq]
  have hdiv : v / g.length = cval cfg.vocab (lastSyms cfg.hist w) := by
    rw [hv, Nat.mul_comm, Nat.mul_add_div hn, Nat.div_eq_of_lt hq, Nat.add_zero]
  unfold expand
  rw [if_neg (by omega)]
  simp only [hmod]
  by_cases hfin : q + 1 = g.length
  · rw [if_pos hfin]
    refine ⟨[], rfl, by simp, ?_⟩
    intro p
    constructor
    · intro h; simp at h
    · rintro ⟨m, hm, _⟩
      cases m with
      | blank => simp [Move.Can] at hm; omega
      | arc j a => have := hm.1; omega
  · rw [if_neg hfin]
    have hv1 := hc.vocab
    rw [look_row cfg.vocab net _ 0 le_rfl (by omega)]
    obtain ⟨arcs, harcs⟩ : ∃ arcs, g[q]? = some arcs := ⟨g[q], List.getElem?_eq_getElem hq⟩
    rw [harcs]
    simp only [Option.bind_eq_bind, Option.bind_some]
    set c := lastSyms cfg.hist w with hcdef
    set off := (g.take q).flatten.length with hoff
    have hsplits : splits g q = off := by rw [hoff, List.length_flatten]; rfl
    have hmem : ∀ x ∈ arcs.zipIdx, x.1 ∈ arcs ∧ arcs[x.2]? = some x.1 := by
      intro x hx
      have := List.mem_zipIdx_iff_getElem?.1 hx
      exact ⟨List.mem_of_getElem? this, this⟩
    have hflat : ∀ a ∈ arcs, a ∈ g.flatten := fun a ha => List.mem_flatten.2 ⟨arcs, List.mem_of_getElem? harcs, ha⟩
    let mv : Arc S × Nat → Move S := fun x => Move.arc (off + x.2) x.1
    have hmap : arcs.zipIdx.mapM (fun a => (keepArc cfg (netRow cfg.vocab net c) best s a.1).bind (fun keep =>
        if keep = true then (pendArc cfg g.length (netRow cfg.vocab net c) v s (off + a.2) a.1).bind (fun p => some [p])
        else some [])) =
        some (arcs.zipIdx.map (fun x => if decide (Kept cfg.beam net c best s (mv x)) then
          [pendOf cfg.vocab cfg.hist g.length net w q s (mv x)] else [])) := by
      apply mapM_eq_map
      intro x hx
      obtain ⟨ha, hk⟩ := hmem x hx
      have hl := hg.label x.1 (hflat _ ha)
      have hkeep : keepArc cfg (netRow cfg.vocab net c) best s x.1 = some (decide (Kept cfg.beam net c best s (mv x))) := by
        unfold keepArc
        by_cases h0 : x.1.label = 0
        · rw [if_pos h0]
          have : Kept cfg.beam net c best s (mv x) := Or.inl h0
          simp [this]
        · rw [if_neg h0]
          have hiff : ∀ lp, (lp = if x.1.label = -1 then (0 : S) else net c x.1.label.toNat) →
              decide (sub best cfg.beam ≤ s + x.1.score + lp) = decide (Kept cfg.beam net c best s (mv x)) := by
            intro lp hlp
            rw [decide_eq_decide, hlp]
            constructor
            · intro h; exact Or.inr h
            · intro h
              rcases h with h | h
              · exact absurd h h0
              · exact h
          unfold passLp
          by_cases h1 : x.1.label = -1
          · rw [if_pos h1]
            simp only [Option.bind_eq_bind, Option.bind_some]
            rw [hiff 0 (by rw [if_pos h1])]
          · rw [if_neg h1, look_row _ _ _ _ (by omega) hl.2]
            simp only [Option.bind_eq_bind, Option.bind_some]
            rw [hiff _ (by rw [if_neg h1])]
      have hpend : pendArc cfg g.length (netRow cfg.vocab net c) v s (off + x.2) x.1 =
          some (pendOf cfg.vocab cfg.hist g.length net w q s (mv x)) := by
        unfold pendArc
        rw [hdiv]
        have hh := hc.hist
        have hlp : arcLp (netRow cfg.vocab net c) x.1 = some (net c (mv x).symbol) := by
          unfold arcLp
          split
          · rename_i h
            rw [look_row _ _ _ _ le_rfl (by omega)]
            have : (mv x).symbol = 0 := by
              change x.1.label.toNat = 0; rw [h]; rfl
            rw [this]; rfl
          · rw [look_row _ _ _ _ (by omega) hl.2]; rfl
        have hctx : newCtx cfg (cval cfg.vocab c) x.1 =
            some (cval cfg.vocab (lastSyms cfg.hist (w ++ (mv x).emits))) := by
          unfold newCtx
          split
          · rename_i h
            have : (mv x).emits = [] := by
              have : ¬ 0 < (mv x).label := by change ¬ 0 < x.1.label; omega
              simp [Move.emits, this]
            rw [this, List.append_nil]
          · rw [if_neg (by omega)]
            have : (mv x).emits = [x.1.label.toNat] := by
              have : 0 < (mv x).label := by change 0 < x.1.label; omega
              simp only [Move.emits, this, if_true]; rfl
            rw [this, cval_shift cfg.hist cfg.vocab hh hc.vocab w hw]
        rw [hctx, hlp]
        simp only [Option.bind_eq_bind, Option.bind_some]
        rw [pendOf]
        simp only [add_assoc, Nat.cast_add]
        rfl
      rw [hkeep, Option.bind_some]
      by_cases hkp : Kept cfg.beam net c best s (mv x)
      · simp only [hkp, decide_true, if_true]
        rw [hpend]; rfl
      · simp [hkp]
    refine ⟨_, by rw [hmap]; rfl, ?_⟩
    rw [flatMap_if]
    have hblank : (⟨-1, net c (Int.toNat 0), 0, v, s + net c (Int.toNat 0)⟩ : Pend S) =
        pendOf cfg.vocab cfg.hist g.length net w q s Move.blank := by
      simp only [pendOf, Move.id, Move.graphScore, zero_add, Move.label, Move.next, Move.emits, lt_irrefl, if_false,
        List.append_nil, Move.symbol]
      rw [hv]
    rw [hblank]
    refine ⟨?_, ?_⟩
    · rw [List.map_cons, List.map_map, List.nodup_cons]
      refine ⟨?_, ?_⟩
      · intro h
        obtain ⟨x, _, hx⟩ := List.mem_map.1 h
        have : ((off + x.2 : Nat) : Int) = -1 := hx
        omega
      · have hnd : (arcs.zipIdx.map (fun x => ((off + x.2 : Nat) : Int))).Nodup := by
          have : arcs.zipIdx.map (fun x => ((off + x.2 : Nat) : Int)) =
              (List.range arcs.length).map (fun k => ((off + k : Nat) : Int)) := by
            rw [List.range_eq_range', ← List.zipIdx_map_snd 0 arcs, List.map_map]
            rfl
          rw [this]
          apply List.Nodup.map _ List.nodup_range
          intro a b hab
          have : ((off + a : Nat) : Int) = ((off + b : Nat) : Int) := hab
          omega
        exact hnd.sublist ((List.filter_sublist).map _)
    · intro p
      rw [List.mem_cons]
      constructor
      · rintro (h | h)
        · exact ⟨Move.blank, by simp [Move.Can]; omega, Or.inl rfl, h⟩
        · obtain ⟨x, hx, rfl⟩ := List.mem_map.1 h
          rw [List.mem_filter] at hx
          obtain ⟨ha, hk⟩ := hmem x hx.1
          refine ⟨mv x, ⟨by omega, hg.src q arcs harcs _ ha, ?_⟩, by simpa using hx.2, rfl⟩
          rw [← hsplits]
          rw [flatten_get g q arcs harcs x.2 (List.getElem?_eq_some_iff.1 hk).1]
          exact hk
      · rintro ⟨m, hm, hk, rfl⟩
        cases m with
        | blank => left; rfl
        | arc j a =>
          right
          obtain ⟨_, hsrc, hj⟩ := hm
          obtain ⟨s', r, k, hr, hk', hjj⟩ := flatten_pos g j (List.getElem?_eq_some_iff.1 hj).1
          have hget := flatten_get g s' r hr k hk'
          rw [← hjj, hj] at hget
          have har : a ∈ r := List.mem_of_getElem? hget.symm
          have hs' : s' = q := (hg.src s' r hr a har).symm.trans hsrc
          subst hs'
          rw [harcs] at hr
          cases hr
          refine List.mem_map.2 ⟨(a, k), List.mem_filter.2 ⟨List.mem_zipIdx_iff_getElem?.2 hget.symm, ?_⟩, ?_⟩
          · have : mv (a, k) = Move.arc j a := by simp only [mv]; rw [hjj, hsplits]
            rw [this]
            simpa using hk
          · have : mv (a, k) = Move.arc j a := by simp only [mv]; rw [hjj, hsplits]
            rw [this]

end

end Verif.Rnnt.Dec
