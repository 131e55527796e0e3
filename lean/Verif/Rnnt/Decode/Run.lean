import Verif.Rnnt.Decode.Frame

/-! The frames of a stream. -/

namespace Verif.Rnnt.Dec
open Verif.Fsa Verif.Util

section
variable {K : Type} [Field K] [LinearOrder K] [IsStrictOrderedRing K]

local notation "S" => WithBot K

/-- `sts` are the active states before each frame, `frs` the arcs of each frame and `cur` the states after
the last frame. -/
inductive Good (cfg : Cfg K) (g : Graph S) (net : Nat → List Nat → Nat → S) :
    List (States S) → List (Frame S) → States S → Prop
  | start : Good cfg g net [] [] [[(0, 0)]]
  | step {sts : List (States S)} {frs : List (Frame S)} {cur : States S} (nested : List (List (List (Pend S))))
      (nxt : States S) (fr : Frame S) : Good cfg g net sts frs cur → PassSpec cfg g (net sts.length) cur nested →
      StepSpec cfg g.length nested nxt fr → Good cfg g net (sts ++ [cur]) (frs ++ [fr]) nxt

/-- The number of a state. -/
def encode (cfg : Cfg K) (n : Nat) (ms : List (Move S)) (q : Nat) : Nat :=
  cval cfg.vocab (lastSyms cfg.hist (history ms)) * n + q

omit [LinearOrder K] [IsStrictOrderedRing K] in
theorem history_snoc (ms : List (Move S)) (m : Move S) : history (ms ++ [m]) = history ms ++ m.emits := by
  simp [history]

omit [LinearOrder K] [IsStrictOrderedRing K] in
theorem can_next {g : Graph S} {V : Nat} (hg : GraphOk g V) {q : Nat} {m : Move S} (h : m.Can g q) :
    m.next q < g.length ∧ ∀ d ∈ m.emits, d < V := by
  cases m with
  | blank =>
    simp only [Move.Can] at h
    exact ⟨by simp only [Move.next]; omega, by simp [Move.emits, Move.label]⟩
  | arc j a =>
    obtain ⟨_, _, hj⟩ := h
    have ha : a ∈ g.flatten := List.mem_of_getElem? hj
    refine ⟨hg.dst a ha, ?_⟩
    intro d hd
    have hl := hg.label a ha
    unfold Move.emits at hd
    simp only [Move.label] at hd
    by_cases h0 : 0 < a.label
    · simp [h0] at hd; omega
    · simp [h0] at hd

omit [LinearOrder K] [IsStrictOrderedRing K] in
theorem align_ok {g : Graph S} {V H : Nat} (hg : GraphOk g V) {net : Nat → List Nat → Nat → S} {ms : List (Move S)}
    {q : Nat} {s : S} (h : Align g H net ms q s) : q < g.length ∧ ∀ d ∈ history ms, d < V := by
  induction h with
  | start => exact ⟨hg.pos, by simp [history]⟩
  | step m _ hm ih =>
    obtain ⟨h1, h2⟩ := can_next hg hm
    refine ⟨h1, ?_⟩
    intro d hd
    rw [history_snoc, List.mem_append] at hd
    rcases hd with hd | hd
    · exact ih.2 d hd
    · exact h2 d hd

/-- Every active state is reached by moves with its score. -/
def Reach (cfg : Cfg K) (g : Graph S) (net : Nat → List Nat → Nat → S) (t : Nat) (cur : States S) : Prop :=
  ∀ x ∈ cur.flatten, ∃ ms q, Align g cfg.hist net ms q x.2 ∧ ms.length = t ∧ x.1 = encode cfg g.length ms q

variable {cfg : Cfg K} {g : Graph (WithBot K)} {net : Nat → List Nat → Nat → WithBot K}

omit [Field K] [LinearOrder K] [IsStrictOrderedRing K] in
theorem mem_nested {cur : States S} {E : Nat × S → List (Pend S)} {p : Pend S}
    (h : p ∈ (cur.map (List.map E)).flatten.flatten) : ∃ x ∈ cur.flatten, p ∈ E x := by
  rw [← List.map_flatten] at h
  obtain ⟨l, hl, hp⟩ := List.mem_flatten.1 h
  obtain ⟨x, hx, rfl⟩ := List.mem_map.1 hl
  exact ⟨x, hx, hp⟩

omit [Field K] [LinearOrder K] [IsStrictOrderedRing K] in
theorem nested_mem {cur : States S} {E : Nat × S → List (Pend S)} {p : Pend S} {x : Nat × S}
    (hx : x ∈ cur.flatten) (hp : p ∈ E x) : p ∈ (cur.map (List.map E)).flatten.flatten := by
  rw [← List.map_flatten]
  exact List.mem_flatten.2 ⟨E x, List.mem_map.2 ⟨x, hx, rfl⟩, hp⟩

/-- The arcs after the first pass are moves after the moves to the active states. -/
theorem pass_moves (hg : GraphOk g cfg.vocab) {t : Nat} {cur : States S} {nested : List (List (List (Pend S)))}
    (hr : Reach cfg g net t cur) (hp : PassSpec cfg g (net t) cur nested) {p : Pend S}
    (h : p ∈ nested.flatten.flatten) : ∃ (ms : List (Move S)) (q : Nat) (m : Move S), Align g cfg.hist net (ms ++ [m]) (m.next q) p.fin ∧ ms.length = t ∧
      m.Can g q ∧ p.dest = encode cfg g.length (ms ++ [m]) (m.next q) := by
  obtain ⟨E, rfl, hE⟩ := hp
  obtain ⟨x, hx, hpx⟩ := mem_nested h
  obtain ⟨ms, q, ha, hl, he⟩ := hr x hx
  obtain ⟨hq, hw⟩ := align_ok hg ha
  obtain ⟨m, hm, _, rfl⟩ := ((hE x hx _ q hw hq he).2 p).1 hpx
  refine ⟨ms, q, m, ?_, hl, hm, ?_⟩
  · have := Align.step m ha hm
    rw [hl] at this
    exact this
  · rw [encode, history_snoc]; rfl

theorem reach_good (hg : GraphOk g cfg.vocab) {sts : List (States S)} {frs : List (Frame S)} {cur : States S}
    (h : Good cfg g net sts frs cur) : Reach cfg g net sts.length cur := by
  induction h with
  | start =>
    intro x hx
    simp at hx
    subst hx
    refine ⟨[], 0, Align.start, rfl, ?_⟩
    have : ∀ H, cval cfg.vocab (List.replicate H 0) = 0 := by
      intro H
      induction H with
      | zero => rfl
      | succ H ih => rw [List.replicate_succ, cval_cons, ih, Nat.zero_mul]
    simp [encode, history, lastSyms, this]
  | step nested nxt fr hgood hp hs ih =>
    intro x hx
    obtain ⟨p, hpm, hd, hf⟩ := hs.scoreMem x hx
    obtain ⟨ms, q, m, ha, hl, _, he⟩ := pass_moves hg ih hp hpm
    exact ⟨ms ++ [m], m.next q, hf ▸ ha, by simp [hl], by rw [← hd, he]⟩

omit [LinearOrder K] [IsStrictOrderedRing K] in
theorem add_ne_bot {a b : S} (h1 : a ≠ ⊥) (h2 : b ≠ ⊥) : a + b ≠ ⊥ := by
  intro h
  rw [WithBot.add_eq_bot] at h
  rcases h with h | h
  · exact h1 h
  · exact h2 h

theorem curOk_good (hg : GraphOk g cfg.vocab) {sts : List (States S)} {frs : List (Frame S)}
    {cur : States S} (h : Good cfg g net sts frs cur) : CurOk cfg g.length cur := by
  have hr := reach_good hg h
  refine ⟨?_, ?_, ?_⟩
  · cases h with
    | start => simp
    | step nested nxt fr hgood hp hs => exact hs.ctxNe
  · intro x hx
    obtain ⟨ms, q, ha, _, he⟩ := hr x hx
    obtain ⟨hq, hw⟩ := align_ok hg ha
    exact ⟨history ms, q, hw, hq, he⟩
  · cases h with
    | start =>
      intro c hc x hx y hy
      simp only [List.mem_singleton] at hc
      subst hc
      simp only [List.mem_singleton] at hx hy
      rw [hx, hy]
    | step nested nxt fr hgood hp hs => exact hs.ctx

omit [IsStrictOrderedRing K] in
/-- There is an arc with a finite score, if there is one at all. -/
theorem pass_finite (hg : GraphOk g cfg.vocab) (hb : ∀ t c, net t c 0 ≠ ⊥) {t : Nat} {cur : States S}
    (hfin : ∀ x ∈ cur.flatten, x.2 ≠ ⊥) {nested : List (List (List (Pend S)))}
    (hr : Reach cfg g net t cur) (hp : PassSpec cfg g (net t) cur nested) :
    nested.flatten.flatten = [] ∨ ∃ p ∈ nested.flatten.flatten, p.fin ≠ ⊥ := by
  by_cases h0 : nested.flatten.flatten = []
  · exact Or.inl h0
  · right
    obtain ⟨p, hpm⟩ := List.exists_mem_of_ne_nil _ h0
    obtain ⟨E, rfl, hE⟩ := hp
    obtain ⟨x, hx, hpx⟩ := mem_nested hpm
    obtain ⟨ms, q, ha, hl, he⟩ := hr x hx
    obtain ⟨hq, hw⟩ := align_ok hg ha
    obtain ⟨m, hm, _, _⟩ := ((hE x hx _ q hw hq he).2 p).1 hpx
    have hq1 : q + 1 < g.length := by
      cases m with
      | blank => exact hm
      | arc j a => exact hm.1
    refine ⟨_, nested_mem hx (((hE x hx _ q hw hq he).2 _).2 ⟨Move.blank, hq1, Or.inl rfl, rfl⟩), ?_⟩
    simp only [pendOf, Move.graphScore, zero_add, Move.symbol, Move.label]
    exact add_ne_bot (hfin x hx) (hb _ _)

theorem fin_good (hg : GraphOk g cfg.vocab) (hb : ∀ t c, net t c 0 ≠ ⊥) {sts : List (States S)} {frs : List (Frame S)}
    {cur : States S} (h : Good cfg g net sts frs cur) : ∀ x ∈ cur.flatten, x.2 ≠ ⊥ := by
  induction h with
  | start => simp
  | step nested nxt fr hgood hp hs ih =>
    intro x hx hbot
    rcases pass_finite hg hb ih (reach_good hg hgood) hp with h0 | ⟨p, hpm, hpf⟩
    · obtain ⟨p, hpm, _⟩ := hs.scoreMem x hx
      rw [h0] at hpm
      simp at hpm
    · have := hs.inBeam x hx p hpm
      rw [hbot] at this
      exact hpf (sub_eq_bot.1 (le_bot_iff.1 this))

/-- The next frame of a stream. -/
theorem good_step' (hc : CfgOk cfg) (hg : GraphOk g cfg.vocab) (hb : ∀ t c, net t c 0 ≠ ⊥) {sts : List (States S)}
    {frs : List (Frame S)} {cur : States S} (h : Good cfg g net sts frs cur) :
    ∃ nxt fr nested, step1 cfg g ((ctxList cfg g.length cur).map (netRow cfg.vocab (net sts.length))) cur = some (nxt, fr) ∧
      PassSpec cfg g (net sts.length) cur nested ∧ StepSpec cfg g.length nested nxt fr := by
  obtain ⟨nested, h1, hp⟩ := pass1_spec cfg hc g hg (net sts.length) cur (curOk_good hg h)
  obtain ⟨nxt, fr, h2, hs⟩ := step2_spec cfg hc.beam g.length nested
    (pass_finite hg hb (fin_good hg hb h) (reach_good hg h) hp)
  exact ⟨nxt, fr, nested, by rw [step1, h1]; exact h2, hp, hs⟩

theorem good_step (hc : CfgOk cfg) (hg : GraphOk g cfg.vocab) (hb : ∀ t c, net t c 0 ≠ ⊥) {sts : List (States S)}
    {frs : List (Frame S)} {cur : States S} (h : Good cfg g net sts frs cur) :
    ∃ nxt fr, step1 cfg g ((ctxList cfg g.length cur).map (netRow cfg.vocab (net sts.length))) cur = some (nxt, fr) ∧
      Good cfg g net (sts ++ [cur]) (frs ++ [fr]) nxt := by
  obtain ⟨nxt, fr, nested, h1, hp, hs⟩ := good_step' hc hg hb h
  exact ⟨nxt, fr, h1, Good.step nested nxt fr h hp hs⟩

omit [IsStrictOrderedRing K] in
theorem good_limit {sts : List (States S)} {frs : List (Frame S)} {cur : States S} (h : Good cfg g net sts frs cur)
    (hC : 0 < cfg.maxContexts) : (cur.length : Int) ≤ cfg.maxContexts := by
  cases h with
  | start => simp; omega
  | step nested nxt fr _ _ hs => exact hs.maxContexts hC

theorem good_length {sts : List (States S)} {frs : List (Frame S)} {cur : States S} (h : Good cfg g net sts frs cur) :
    sts.length = frs.length := by
  induction h with
  | start => rfl
  | step _ _ _ _ _ _ ih => simp [ih]

omit [IsStrictOrderedRing K] in
theorem good_zero {sts : List (States S)} {frs : List (Frame S)} {cur : States S} (h : Good cfg g net sts frs cur)
    (h0 : sts = []) : cur = [[(0, 0)]] := by
  cases h with
  | start => rfl
  | step _ _ _ _ _ _ => simp at h0

/-- The first frames. -/
theorem good_take {sts : List (States S)} {frs : List (Frame S)} {cur : States S} (h : Good cfg g net sts frs cur)
    (t : Nat) (st : States S) (ht : (sts ++ [cur])[t]? = some st) : Good cfg g net (sts.take t) (frs.take t) st := by
  induction h with
  | start =>
    have : t = 0 := by
      have := (List.getElem?_eq_some_iff.1 ht).1
      simp at this; omega
    subst this
    simp at ht
    subst ht
    exact Good.start
  | @step sts frs cur nested nxt fr hgood hp hs ih =>
    have hl := good_length hgood
    by_cases htl : t < (sts ++ [cur]).length
    · rw [List.getElem?_append_left htl] at ht
      have := ih ht
      simp at htl
      rw [List.take_append_of_le_length (by omega), List.take_append_of_le_length (by omega)]
      exact this
    · have : t = (sts ++ [cur]).length := by
        have := (List.getElem?_eq_some_iff.1 ht).1
        simp at this htl ⊢; omega
      subst this
      rw [List.getElem?_append_right le_rfl] at ht
      simp at ht
      subst ht
      rw [List.take_of_length_le le_rfl, List.take_of_length_le (by simp [hl])]
      exact Good.step nested nxt fr hgood hp hs

/-- What happens on frame `t`. -/
theorem good_frame {sts : List (States S)} {frs : List (Frame S)} {cur : States S} (h : Good cfg g net sts frs cur)
    (t : Nat) (ht : t < sts.length) : ∃ st nxt fr nested, sts[t]? = some st ∧ (sts ++ [cur])[t + 1]? = some nxt ∧
      frs[t]? = some fr ∧ PassSpec cfg g (net t) st nested ∧ StepSpec cfg g.length nested nxt fr := by
  induction h with
  | start => simp at ht
  | @step sts frs cur nested nxt fr hgood hp hs ih =>
    have hl := good_length hgood
    by_cases htl : t < sts.length
    · obtain ⟨st, nxt', fr', nested', h1, h2, h3, h4, h5⟩ := ih htl
      refine ⟨st, nxt', fr', nested', ?_, ?_, ?_, h4, h5⟩
      · rw [List.getElem?_append_left htl]; exact h1
      · rw [List.getElem?_append_left (by simp; omega)]; exact h2
      · rw [List.getElem?_append_left (by omega)]; exact h3
    · have : t = sts.length := by simp at ht; omega
      subst this
      refine ⟨cur, nxt, fr, nested, by simp, ?_, by simp [hl], hp, hs⟩
      rw [List.getElem?_append_right (by simp)]
      simp

omit [Field K] [LinearOrder K] [IsStrictOrderedRing K] in
theorem idxOf_iff {l : List Nat} (h : l.Nodup) (d k : Nat) : l.idxOf? d = some k ↔ l[k]? = some d := by
  induction l generalizing k with
  | nil => simp
  | cons a l ih =>
    rw [List.nodup_cons] at h
    rw [List.idxOf?_cons]
    by_cases had : a = d
    · subst had
      simp only [BEq.rfl, if_true, Option.some.injEq]
      constructor
      · rintro rfl; rfl
      · intro hk
        cases k with
        | zero => rfl
        | succ k =>
          simp only [List.getElem?_cons_succ] at hk
          exact absurd (List.mem_of_getElem? hk) h.1
    · have : (a == d) = false := by simpa using had
      simp only [this]
      cases k with
      | zero =>
        simp [had]
      | succ k =>
        simp only [List.getElem?_cons_succ, ← ih h.2 k]
        simp

/-- The arcs of a frame are the moves whose destination is active afterwards. -/
theorem step_arcs {t : Nat} {st nxt : States S} {fr : Frame S} {nested : List (List (List (Pend S)))}
    (hp : PassSpec cfg g (net t) st nested) (hs : StepSpec cfg g.length nested nxt fr) :
    ∃ R : Nat × S → List (Ai S), fr = st.map (List.map R) ∧
      ∀ x ∈ st.flatten, ∀ w q, (∀ d ∈ w, d < cfg.vocab) → q < g.length →
        x.1 = cval cfg.vocab (lastSyms cfg.hist w) * g.length + q →
        ((R x).map Ai.arc).Nodup ∧
        ∀ ai, ai ∈ R x ↔ ∃ (m : Move S) (k : Nat) (s' : S), m.Can g q ∧
          Kept cfg.beam (net t) (lastSyms cfg.hist w) (maxOf (st.flatten.map Prod.snd)) x.2 m ∧
          ai = ⟨m.id, m.graphScore + net t (lastSyms cfg.hist w) m.symbol, m.label, k⟩ ∧
          nxt.flatten[k]? = some (cval cfg.vocab (lastSyms cfg.hist (w ++ m.emits)) * g.length + m.next q, s') := by
  obtain ⟨E, hnested, hE⟩ := hp
  set vals := nxt.flatten.map Prod.fst with hvals
  have hnd : vals.Nodup := hs.sorted.imp (fun h => Nat.ne_of_lt h)
  refine ⟨fun x => (E x).filterMap (fun p => (vals.idxOf? p.dest).map (fun k => (⟨p.arc, p.score, p.label, k⟩ : Ai S))), ?_, ?_⟩
  · rw [hs.frame, hnested, List.map_map]
    apply List.map_congr_left
    intro c _
    simp only [Function.comp_def, List.map_map]
    rfl
  · intro x hx w q hw hq he
    obtain ⟨h1, h2⟩ := hE x hx w q hw hq he
    refine ⟨?_, ?_⟩
    · have hsub : ∀ l : List (Pend S), ((l.filterMap (fun p => (vals.idxOf? p.dest).map
          (fun k => (⟨p.arc, p.score, p.label, k⟩ : Ai S)))).map Ai.arc).Sublist (l.map Pend.arc) := by
        intro l
        induction l with
        | nil => simp
        | cons p l ih =>
          rw [List.filterMap_cons]
          cases vals.idxOf? p.dest with
          | none => simpa using ih.trans (List.sublist_cons_self _ _)
          | some k => simpa using ih
      exact h1.sublist (hsub _)
    · intro ai
      rw [List.mem_filterMap]
      constructor
      · rintro ⟨p, hpm, hpa⟩
        obtain ⟨m, hm, hk, rfl⟩ := (h2 p).1 hpm
        rw [Option.map_eq_some_iff] at hpa
        obtain ⟨k, hk1, hk2⟩ := hpa
        rw [idxOf_iff hnd, hvals, List.getElem?_map, Option.map_eq_some_iff] at hk1
        obtain ⟨y, hy1, hy2⟩ := hk1
        refine ⟨m, k, y.2, hm, hk, hk2.symm, ?_⟩
        rw [hy1]
        exact congrArg some (Prod.ext hy2 rfl)
      · rintro ⟨m, k, s', hm, hk, rfl, hn⟩
        refine ⟨_, (h2 _).2 ⟨m, hm, hk, rfl⟩, ?_⟩
        rw [Option.map_eq_some_iff]
        refine ⟨k, ?_, rfl⟩
        rw [idxOf_iff hnd, hvals, List.getElem?_map, hn]
        rfl

/-- A move in the beam is kept if there are no limits. -/
theorem onBeam_step (hg : GraphOk g cfg.vocab) (hS : cfg.maxStates ≤ 0) (hC : cfg.maxContexts ≤ 0)
    {sts : List (States S)} {frs : List (Frame S)} {cur : States S} (h : Good cfg g net sts frs cur)
    {ms : List (Move S)} {q : Nat} {s : S} (ha : Align g cfg.hist net ms q s) {m : Move S} (hm : m.Can g q)
    (hbeam : OnBeam g cfg.hist net cfg.beam (ms ++ [m])) {st nxt : States S} (h1 : sts[ms.length]? = some st)
    (h2 : (sts ++ [cur])[ms.length + 1]? = some nxt) {x : Nat × S} (hx : x ∈ st.flatten)
    (hxe : x.1 = encode cfg g.length ms q) (hxs : s ≤ x.2) :
    Kept cfg.beam (net ms.length) (lastSyms cfg.hist (history ms)) (maxOf (st.flatten.map Prod.snd)) x.2 m ∧
    ∃ y ∈ nxt.flatten, y.1 = encode cfg g.length (ms ++ [m]) (m.next q) ∧
      s + (m.graphScore + net ms.length (lastSyms cfg.hist (history ms)) m.symbol) ≤ y.2 := by
  have hl : ms.length < sts.length := (List.getElem?_eq_some_iff.1 h1).1
  obtain ⟨st', nxt', fr, nested, h1', h2', _, h4, h5⟩ := good_frame h ms.length hl
  rw [h1, Option.some.injEq] at h1'
  subst st'
  rw [h2, Option.some.injEq] at h2'
  subst nxt'
  have hgst := good_take h ms.length st (by rw [List.getElem?_append_left (by omega)]; exact h1)
  have hr := reach_good hg hgst
  rw [List.length_take, Nat.min_eq_left (by omega)] at hr
  obtain ⟨hq, hw⟩ := align_ok hg ha
  obtain ⟨hbA, hbB⟩ := hbeam ms m [] rfl q s ha
  have hkept : Kept cfg.beam (net ms.length) (lastSyms cfg.hist (history ms)) (maxOf (st.flatten.map Prod.snd)) x.2 m := by
    by_cases h0 : m.label = 0
    · exact Or.inl h0
    · right
      have hne : st.flatten.map Prod.snd ≠ [] := by
        intro h; rw [List.map_eq_nil_iff] at h; rw [h] at hx; simp at hx
      obtain ⟨y, hy, hye⟩ := List.mem_map.1 (maxOf_mem hne)
      obtain ⟨ms', q', ha', hl', _⟩ := hr y hy
      rw [← hye]
      refine (hbA h0 ms' q' y.2 ha' hl').trans ?_
      exact add_le_add_left (add_le_add_left hxs _) _
  refine ⟨hkept, ?_⟩
  obtain ⟨E, hnested, hE⟩ := id h4
  have hpE := ((hE x hx _ q hw hq hxe).2 _).2 ⟨m, hm, hkept, rfl⟩
  set p := pendOf cfg.vocab cfg.hist g.length (net ms.length) (history ms) q x.2 m with hp
  have hpm : p ∈ nested.flatten.flatten := by rw [hnested]; exact nested_mem hx hpE
  have hpge : s + (m.graphScore + net ms.length (lastSyms cfg.hist (history ms)) m.symbol) ≤ p.fin :=
    add_le_add_left hxs _
  have hin : p.dest ∈ nxt.flatten.map Prod.fst := by
    by_contra hnot
    rcases h5.dropped p hpm (fun p' hp' => by
      obtain ⟨ms', q', m', ha', hl', _, _⟩ := pass_moves hg hr h4 hp'
      exact (hbB _ _ _ ha' (by simp [hl'])).trans hpge) hnot with h | h <;> omega
  obtain ⟨y, hy, hye⟩ := List.mem_map.1 hin
  refine ⟨y, hy, ?_, hpge.trans (h5.scoreMax y hy p hpm hye.symm)⟩
  rw [hye, encode, history_snoc]
  rfl

omit [LinearOrder K] [IsStrictOrderedRing K] in
theorem encode_start (cfg : Cfg K) (n : Nat) : encode cfg n ([] : List (Move S)) 0 = 0 := by
  have : ∀ H, cval cfg.vocab (List.replicate H 0) = 0 := by
    intro H
    induction H with
    | zero => rfl
    | succ H ih => rw [List.replicate_succ, cval_cons, ih, Nat.zero_mul]
  simp [encode, history, lastSyms, this]

/-- Moves in the beam are kept if there are no limits. -/
theorem onBeam_active (hg : GraphOk g cfg.vocab) (hS : cfg.maxStates ≤ 0) (hC : cfg.maxContexts ≤ 0)
    {sts : List (States S)} {frs : List (Frame S)} {cur : States S} (h : Good cfg g net sts frs cur)
    {ms : List (Move S)} {q : Nat} {s : S} (ha : Align g cfg.hist net ms q s) (hl : ms.length ≤ sts.length)
    (hbeam : OnBeam g cfg.hist net cfg.beam ms) :
    ∃ st, (sts ++ [cur])[ms.length]? = some st ∧ ∃ x ∈ st.flatten, x.1 = encode cfg g.length ms q ∧ s ≤ x.2 := by
  induction ha with
  | start =>
    obtain ⟨st, hst⟩ : ∃ st, (sts ++ [cur])[0]? = some st := ⟨(sts ++ [cur])[0], List.getElem?_eq_getElem (by simp)⟩
    have := good_zero (good_take h 0 st hst) rfl
    subst this
    exact ⟨_, hst, (0, 0), by simp, (encode_start _ _).symm, le_rfl⟩
  | @step ms q s m ha hm ih =>
    simp only [List.length_append, List.length_singleton] at hl
    have hb1 : OnBeam g cfg.hist net cfg.beam ms := by
      intro ms1 m1 ms2 he
      exact hbeam ms1 m1 (ms2 ++ [m]) (by rw [he]; simp)
    obtain ⟨st, hst, x, hx, hxe, hxs⟩ := ih (by omega) hb1
    rw [List.getElem?_append_left (by omega)] at hst
    obtain ⟨_, nxt, _, _, _, h2, _⟩ := good_frame h ms.length (by omega)
    obtain ⟨_, y, hy⟩ := onBeam_step hg hS hC h ha hm hbeam hst h2 hx hxe hxs
    exact ⟨nxt, by simpa using h2, y, hy⟩

end

end Verif.Rnnt.Dec
