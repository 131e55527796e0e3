import Verif.Rnnt.Decode.Expand

/-! The first pass of a stream, and a frame of a stream in a batch. -/

namespace Verif.Rnnt.Dec
open Verif.Fsa Verif.Util

section
variable {K : Type} [Field K] [LinearOrder K] [IsStrictOrderedRing K]

local notation "S" => WithBot K

/-- The symbols of the context of a state. -/
def ctxSyms (cfg : Cfg K) (n v : Nat) : List Nat :=
  (List.range cfg.hist).map (fun col => (v / n) % cfg.vocab ^ (cfg.hist - col) / cfg.vocab ^ (cfg.hist - col - 1))

/-- The active states are numbers of contexts and graph states, grouped by context. -/
structure CurOk (cfg : Cfg K) (n : Nat) (cur : States S) : Prop where
  ne : ∀ c ∈ cur, c ≠ []
  enc : ∀ x ∈ cur.flatten, ∃ w q, (∀ d ∈ w, d < cfg.vocab) ∧ q < n ∧ x.1 = cval cfg.vocab (lastSyms cfg.hist w) * n + q
  ctx : ∀ c ∈ cur, ∀ x ∈ c, ∀ y ∈ c, x.1 / n = y.1 / n

omit [LinearOrder K] [IsStrictOrderedRing K] [Field K] in
theorem enc_div (V H n : Nat) (w : List Nat) (q : Nat) (hq : q < n) :
    (cval V (lastSyms H w) * n + q) / n = cval V (lastSyms H w) := by
  rw [Nat.mul_comm, Nat.mul_add_div (by omega), Nat.div_eq_of_lt hq, Nat.add_zero]

omit [LinearOrder K] [IsStrictOrderedRing K] [Field K] in
theorem enc_mod (V H n : Nat) (w : List Nat) (q : Nat) (hq : q < n) :
    (cval V (lastSyms H w) * n + q) % n = q := by
  rw [Nat.mul_comm, Nat.mul_add_mod, Nat.mod_eq_of_lt hq]

omit [Field K] [LinearOrder K] [IsStrictOrderedRing K] in
theorem ctxSyms_enc (cfg : Cfg K) (hV : 1 ≤ cfg.vocab) (n : Nat) (w : List Nat) (hw : ∀ d ∈ w, d < cfg.vocab)
    (q : Nat) (hq : q < n) : ctxSyms cfg n (cval cfg.vocab (lastSyms cfg.hist w) * n + q) = lastSyms cfg.hist w := by
  unfold ctxSyms
  rw [enc_div _ _ _ _ _ hq]
  have := cval_digits cfg.vocab hV (lastSyms cfg.hist w) (lastSyms_lt _ _ hV w hw)
  rwa [lastSyms_length] at this

/-- The contexts of the states. -/
def ctxList (cfg : Cfg K) (n : Nat) (cur : States S) : List (List Nat) :=
  cur.map (fun c => ctxSyms cfg n ((c.map Prod.fst).headD 0))

theorem contexts_eq (cfg : Cfg K) (hV : 1 ≤ cfg.vocab) (n : Nat) (hn : 1 ≤ n) (cur : States S)
    (hne : ∀ c ∈ cur, c ≠ []) : contexts cfg n cur = some (ctxList cfg n cur) := by
  unfold contexts ctxList
  apply mapM_eq_map
  intro c hc
  cases c with
  | nil => exact absurd rfl (hne _ hc)
  | cons x c =>
    obtain ⟨v, s⟩ := x
    simp only
    rw [if_neg (by omega)]
    rfl

/-- The first pass of a stream. -/
def PassSpec (cfg : Cfg K) (g : Graph S) (net : List Nat → Nat → S) (cur : States S)
    (nested : List (List (List (Pend S)))) : Prop :=
  ∃ E : Nat × S → List (Pend S), nested = cur.map (List.map E) ∧
    ∀ x ∈ cur.flatten, ∀ w q, (∀ d ∈ w, d < cfg.vocab) → q < g.length →
      x.1 = cval cfg.vocab (lastSyms cfg.hist w) * g.length + q →
      ((E x).map Pend.arc).Nodup ∧
      ∀ p, p ∈ E x ↔ ∃ m : Move S, m.Can g q ∧
        Kept cfg.beam net (lastSyms cfg.hist w) (maxOf (cur.flatten.map Prod.snd)) x.2 m ∧
        p = pendOf cfg.vocab cfg.hist g.length net w q x.2 m

theorem pass1_spec (cfg : Cfg K) (hc : CfgOk cfg) (g : Graph S) (hg : GraphOk g cfg.vocab)
    (net : List Nat → Nat → S) (cur : States S) (hcur : CurOk cfg g.length cur) :
    ∃ nested, pass1 cfg g ((ctxList cfg g.length cur).map (netRow cfg.vocab net)) cur = some nested ∧
      PassSpec cfg g net cur nested := by
  set best := maxOf (cur.flatten.map Prod.snd) with hbest
  let E : Nat × S → List (Pend S) := fun x => (expand cfg g (netRow cfg.vocab net (ctxSyms cfg g.length x.1)) best x).getD []
  have hE : ∀ x ∈ cur.flatten, expand cfg g (netRow cfg.vocab net (ctxSyms cfg g.length x.1)) best x = some (E x) := by
    intro x hx
    obtain ⟨w, q, hw, hq, he⟩ := hcur.enc x hx
    obtain ⟨l, hl, _⟩ := expand_spec cfg hc g hg net w hw q hq best x.2 x.1 he
    have h2 : expand cfg g (netRow cfg.vocab net (ctxSyms cfg g.length x.1)) best x = some l := by
      rw [he, ctxSyms_enc cfg hc.vocab g.length w hw q hq]
      exact hl
    simp only [E, h2, Option.getD_some]
  refine ⟨cur.map (List.map E), ?_, E, rfl, ?_⟩
  · unfold pass1
    rw [if_pos (by simp [ctxList])]
    simp only
    have hz : cur.zip ((ctxList cfg g.length cur).map (netRow cfg.vocab net)) =
        cur.map (fun c => (c, netRow cfg.vocab net (ctxSyms cfg g.length ((c.map Prod.fst).headD 0)))) := by
      rw [ctxList, List.map_map, List.zip_map_right, List.zip_eq_zipWith, List.zipWith_self]
      simp [Function.comp_def]
    rw [hz, List.mapM_map]
    apply mapM_eq_map
    intro c hcc
    simp only [Function.comp_apply]
    apply mapM_eq_map
    intro x hx
    have hxf : x ∈ cur.flatten := List.mem_flatten.2 ⟨c, hcc, hx⟩
    rw [← hbest, ← hE x hxf]
    have : ctxSyms cfg g.length ((c.map Prod.fst).headD 0) = ctxSyms cfg g.length x.1 := by
      cases c with
      | nil => simp at hx
      | cons y c =>
        simp only [List.map_cons, List.headD_cons]
        unfold ctxSyms
        rw [hcur.ctx _ hcc y (by simp) x hx]
    rw [this]
  · intro x hx w q hw hq he
    obtain ⟨l, hl, hnd, hmem⟩ := expand_spec cfg hc g hg net w hw q hq best x.2 x.1 he
    have h2 : expand cfg g (netRow cfg.vocab net (ctxSyms cfg g.length x.1)) best x = some l := by
      rw [he, ctxSyms_enc cfg hc.vocab g.length w hw q hq]
      exact hl
    have : E x = l := by
      have := hE x hx
      rw [h2] at this
      exact (Option.some.inj this).symm
    rw [this]
    exact ⟨hnd, hmem⟩

omit [Field K] [LinearOrder K] [IsStrictOrderedRing K] in
theorem le_sum_of_mem {l : List Nat} {a : Nat} (h : a ∈ l) : a ≤ l.sum := by
  induction l with
  | nil => simp at h
  | cons b l ih =>
    rw [List.sum_cons]
    rcases List.mem_cons.1 h with h | h
    · omega
    · have := ih h; omega

/-- One frame of one stream with the given rows. -/
def step1 (cfg : Cfg K) (g : Graph S) (rows : List (List S)) (st : States S) : Option (States S × Frame S) :=
  (pass1 cfg g rows st).bind (step2 cfg g.length)

theorem prune_total (cfg : Cfg K) (total totalC : Nat) (items : List (Pend S)) (G : List (List (List Nat)))
    (h1 : G.flatten.length ≤ total) (h2 : G.length ≤ totalC) :
    pruneContexts cfg totalC items (pruneStates cfg total items G) =
      pruneContexts cfg (pruneStates cfg G.flatten.length items G).length items
        (pruneStates cfg G.flatten.length items G) := by
  have e1 : pruneStates cfg total items G = pruneStates cfg G.flatten.length items G := by
    unfold pruneStates
    have hl : (stateMax items G).length = G.flatten.length := by rw [stateMax, List.length_map]
    rw [pruneKeep_total total _ _ _ (by omega), hl]
  rw [e1]
  unfold pruneContexts
  have hl : (pruneStates cfg G.flatten.length items G).length = G.length := by
    unfold pruneStates
    rw [List.length_zipWith, reshape_length, Nat.min_self]
  rw [pruneKeep_total totalC _ _ _ (by rw [List.length_map, hl]; exact h2), List.length_map]

theorem pruneStates_length (cfg : Cfg K) (total : Nat) (items : List (Pend S)) (G : List (List (List Nat))) :
    (pruneStates cfg total items G).length = G.length := by
  unfold pruneStates
  rw [List.length_zipWith, reshape_length, Nat.min_self]

/-- What `Advance` needs of its argument. -/
def RowsFit (cfg : Cfg K) (logprobs : List (List S)) (x : Streams S) : Prop :=
  x.attached = true ∧ logprobs.length = x.states.flatten.length ∧ ∀ r ∈ logprobs, r.length = cfg.vocab

theorem mapM_congr' {α β : Type} {l : List α} {f g : α → Option β} (h : ∀ x ∈ l, f x = g x) : l.mapM f = l.mapM g := by
  induction l with
  | nil => rfl
  | cons a l ih => rw [List.mapM_cons, List.mapM_cons, h a (by simp), ih (fun x hx => h x (by simp [hx]))]

theorem mapM_bind_zip {α β γ : Type} (l : List α) (f : α → Option β) (h : α → β → Option γ) :
    l.mapM (fun a => (f a).bind (h a)) = (l.mapM f).bind (fun bs => (l.zip bs).mapM (fun p => h p.1 p.2)) := by
  induction l with
  | nil => rfl
  | cons a l ih =>
    rw [List.mapM_cons, List.mapM_cons, ih]
    cases hf : f a with
    | none => rfl
    | some b =>
      cases hl : l.mapM f with
      | none =>
        simp only [Option.bind_eq_bind, Option.bind_some, Option.bind_none]
        cases h a b <;> rfl
      | some bs =>
        simp only [Option.bind_eq_bind, Option.bind_some, Option.pure_def, List.zip_cons_cons, List.mapM_cons]

theorem mapM_map_pair {α β γ : Type} (l : List α) (f : α → Option β) (h : α → γ) :
    l.mapM (fun a => (f a).map (fun b => (b, h a))) = (l.mapM f).map (fun bs => bs.zip (l.map h)) := by
  induction l with
  | nil => rfl
  | cons a l ih =>
    rw [List.mapM_cons, List.mapM_cons, ih]
    cases f a with
    | none => rfl
    | some b => cases l.mapM f <;> rfl

theorem step2_eq (cfg : Cfg K) (n : Nat) (nested : List (List (List (Pend S)))) (A : List (List (List Nat)))
    (hA : A = pruneContexts cfg (pruneStates cfg (group n nested.flatten.flatten).flatten.length nested.flatten.flatten
      (group n nested.flatten.flatten)).length nested.flatten.flatten
        (pruneStates cfg (group n nested.flatten.flatten).flatten.length nested.flatten.flatten
          (group n nested.flatten.flatten))) :
    step2 cfg n nested = (nextStates nested.flatten.flatten A).map (fun st => (st, frameArcs nested A)) := by
  subst hA
  unfold step2
  simp only [Option.bind_eq_bind]
  rw [Option.map_eq_bind]
  rfl

/-- The streams of a batch are advanced independently. -/
theorem advance_eq (cfg : Cfg K) (logprobs : List (List S)) (x : Streams S) (hl : x.states.length = x.srcs.length)
    (hfit : RowsFit cfg logprobs x) :
    advance cfg logprobs x =
      (((x.srcs.zip x.states).zip (reshape x.states logprobs)).mapM (fun s => step1 cfg s.1.1.graph s.2 s.1.2)).map
        (fun out => { x with states := out.map Prod.fst, prev := x.prev ++ [out.map Prod.snd] }) := by
  have hsrc : ((x.srcs.zip x.states).zip (reshape x.states logprobs)).map (fun s => s.1.1) = x.srcs := by
    rw [show (fun s : (Stream S × States S) × List (List S) => s.1.1) = Prod.fst ∘ Prod.fst from rfl, ← List.map_map,
      List.map_fst_zip (by simp [reshape_length]), List.map_fst_zip (by omega)]
  unfold advance
  rw [if_pos (show _ ∧ _ ∧ _ from hfit)]
  simp only [Option.bind_eq_bind]
  generalize (x.srcs.zip x.states).zip (reshape x.states logprobs) = J at hsrc
  unfold step1
  rw [mapM_bind_zip]
  cases hp : J.mapM (fun s => pass1 cfg s.1.1.graph s.2 s.1.2) with
  | none => rfl
  | some arcs =>
    have halen : arcs.length = x.srcs.length := by
      rw [(mapM_get hp).1, ← hsrc, List.length_map]
    simp only [Option.bind_some]
    set Z := x.srcs.zip arcs with hZ
    have hZ2 : Z.map Prod.snd = arcs := List.map_snd_zip (by omega)
    have hJZ : (J.zip arcs).mapM (fun p => step2 cfg (List.length p.1.1.1.graph) p.2) =
        Z.mapM (fun z => step2 cfg z.1.graph.length z.2) := by
      rw [hZ, ← hsrc, List.zip_map_left, List.mapM_map]
      rfl
    rw [hJZ]
    set grp : Stream S × List (List (List (Pend S))) → List (List (List Nat)) :=
      fun z => group z.1.graph.length z.2.flatten.flatten with hgrp
    have zipmap : ∀ {γ : Type} (h : Stream S × List (List (List (Pend S))) → γ),
        arcs.zip (Z.map h) = Z.map (fun z => (z.2, h z)) := by
      intro γ h
      conv_lhs => rw [← hZ2]
      rw [List.zip_map', ]
    rw [zipmap grp]
    simp only [List.map_map, Function.comp_def]
    set total := (Z.map (fun z => (grp z).flatten.length)).sum with htotal
    rw [zipmap]
    simp only [List.map_map, Function.comp_def]
    set totalC := (Z.map (fun z => (pruneStates cfg total z.2.flatten.flatten (grp z)).length)).sum with htotalC
    rw [zipmap]
    simp only [List.map_map, Function.comp_def, List.mapM_map]
    set A : Stream S × List (List (List (Pend S))) → List (List (List Nat)) := fun z =>
      pruneContexts cfg (pruneStates cfg (grp z).flatten.length z.2.flatten.flatten (grp z)).length z.2.flatten.flatten
        (pruneStates cfg (grp z).flatten.length z.2.flatten.flatten (grp z)) with hA
    have hpr : ∀ z ∈ Z, pruneContexts cfg totalC z.2.flatten.flatten (pruneStates cfg total z.2.flatten.flatten (grp z)) = A z := by
      intro z hz
      apply prune_total
      · exact le_sum_of_mem (List.mem_map.2 ⟨z, hz, rfl⟩)
      · have : (pruneStates cfg total z.2.flatten.flatten (grp z)).length ≤ totalC :=
          le_sum_of_mem (List.mem_map.2 ⟨z, hz, rfl⟩)
        rwa [pruneStates_length] at this
    have e1 : Z.mapM (fun z => nextStates z.2.flatten.flatten
        (pruneContexts cfg totalC z.2.flatten.flatten (pruneStates cfg total z.2.flatten.flatten (grp z)))) =
        Z.mapM (fun z => nextStates z.2.flatten.flatten (A z)) :=
      mapM_congr' (fun z hz => by rw [hpr z hz])
    have e2 : Z.map (fun z => frameArcs z.2
        (pruneContexts cfg totalC z.2.flatten.flatten (pruneStates cfg total z.2.flatten.flatten (grp z)))) =
        Z.map (fun z => frameArcs z.2 (A z)) :=
      List.map_congr_left (fun z hz => by rw [hpr z hz])
    have e3 : Z.mapM (fun z => step2 cfg z.1.graph.length z.2) =
        Z.mapM (fun z => (nextStates z.2.flatten.flatten (A z)).map (fun st => (st, frameArcs z.2 (A z)))) :=
      mapM_congr' (fun z hz => step2_eq cfg _ z.2 (A z) rfl)
    rw [e1, e2, e3, mapM_map_pair]
    cases hn : Z.mapM (fun z => nextStates z.2.flatten.flatten (A z)) with
    | none => rfl
    | some sts =>
      have hlen := (mapM_get hn).1
      simp only [Option.bind_some, Option.map_some]
      rw [List.map_fst_zip (by simp [hlen]), List.map_snd_zip (by simp [hlen])]

end

end Verif.Rnnt.Dec
