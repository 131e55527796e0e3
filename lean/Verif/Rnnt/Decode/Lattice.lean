import Verif.Rnnt.Decode.Desc

/-! Paths of the lattice are alignments. -/

namespace Verif.Rnnt.Dec
open Verif.Fsa Verif.Util

section
variable {K : Type} [Field K] [LinearOrder K] [IsStrictOrderedRing K]

local notation "S" => WithBot K

variable {cfg : Cfg K} {g : Graph (WithBot K)} {net : Nat → List Nat → Nat → WithBot K}

omit [LinearOrder K] [IsStrictOrderedRing K] in
/-- A final arc is the last one. -/
theorem align_labels {V H : Nat} (hg : GraphOk g V) {ms : List (Move S)} {q : Nat} {s : S}
    (h : Align g H net ms q s) (hq : q + 1 < g.length) : ∀ mv ∈ ms, (mv.symbol : Int) = mv.label := by
  induction h with
  | start => simp
  | @step ms q s m _ hm ih =>
    have hq1 : q + 1 < g.length := by
      cases m with
      | blank => exact hm
      | arc j a => exact hm.1
    intro mv hmv
    rcases List.mem_append.1 hmv with hmv | hmv
    · exact ih hq1 mv hmv
    · rw [List.mem_singleton.1 hmv]
      cases m with
      | blank => rfl
      | arc j a =>
        obtain ⟨_, _, hj⟩ := hm
        have ha : a ∈ g.flatten := List.mem_of_getElem? hj
        have h1 := (hg.label a ha).1
        have h2 : a.label ≠ -1 := by
          intro h0
          have := hg.final a ha h0
          simp only [Move.next] at hq
          omega
        simp only [Move.symbol, Move.label]
        omega

omit [LinearOrder K] [IsStrictOrderedRing K] in
theorem can_pos {q : Nat} {m : Move S} (hm : m.Can g q) : q + 1 < g.length := by
  cases m with
  | blank => exact hm
  | arc j a => exact hm.1

omit [LinearOrder K] [IsStrictOrderedRing K] in
theorem align_enc (hg : GraphOk g cfg.vocab) {ms : List (Move S)} {q : Nat} {s : S} (h : Align g cfg.hist net ms q s) :
    Enc cfg g.length (encode cfg g.length ms q) (history ms) q := by
  obtain ⟨h1, h2⟩ := align_ok hg h
  exact ⟨h2, h1, rfl⟩

/-- Everything about the lattice of a stream. -/
structure LatSetup (cfg : Cfg K) (g : Graph S) (net : Nat → List Nat → Nat → S) (m : Nat) (part : Bool)
    (sts : List (States S)) (frs : List (Frame S)) (cur : States S) (off : Option (Nat → Nat))
    (cs : List (List (List Nat))) (lat : List (List (Arc S × Int × Int)))
    (Ls : List (List (List (Arc S × Int × Int)))) : Prop where
  hc : CfgOk cfg
  hg : GraphOk g cfg.vocab
  hm : 1 ≤ m
  len : sts.length = m
  good : Good cfg g net sts frs cur
  desc : LatDesc cfg g net m part sts cur off lat Ls
  ctxs : ∀ (u : Nat) (st : States S), sts[u]? = some st → cs[u]? = some (ctxList cfg g.length st)

variable {m : Nat} {part : Bool} {sts : List (States (WithBot K))} {frs : List (Frame (WithBot K))} {cur : States (WithBot K)}
  {off : Option (Nat → Nat)} {cs : List (List (List Nat))} {lat : List (List (Arc (WithBot K) × Int × Int))}
  {Ls : List (List (List (Arc (WithBot K) × Int × Int)))}

namespace LatSetup

theorem size (L : LatSetup cfg g net m part sts frs cur off cs lat Ls) : lat.length = splits Ls m + 1 := by
  rw [L.desc.eq, List.length_append, ← L.desc.len, splits_length]
  rfl

/-- Each row belongs to a state of a frame, but the last one. -/
theorem row (L : LatSetup cfg g net m part sts frs cur off cs lat Ls) (s : Nat) (r : List (Arc S × Int × Int))
    (h : lat[s]? = some r) : (s + 1 = lat.length ∧ r = []) ∨
      ∃ k st y x, k < m ∧ sts[k]? = some st ∧ st.flatten[y]? = some x ∧ s = splits Ls k + y := by
  have hl := (List.getElem?_eq_some_iff.1 h).1
  have hsz := L.size
  by_cases hs : s = splits Ls m
  · left
    refine ⟨by omega, ?_⟩
    have hfl : Ls.flatten.length = splits Ls m := by rw [← L.desc.len, splits_length]
    rw [L.desc.eq, hs, ← hfl, List.getElem?_append_right le_rfl] at h
    simpa using h.symm
  · right
    obtain ⟨k, R, y, h1, h2, h3⟩ := flatten_pos Ls s (by rw [← splits_length, L.desc.len]; omega)
    have hk : k < m := by rw [← L.desc.len]; exact (List.getElem?_eq_some_iff.1 h1).1
    have hks : k < sts.length := by rw [L.len]; exact hk
    obtain ⟨R', e1, e2⟩ := L.desc.layer k _ (List.getElem?_eq_getElem hks)
    rw [h1, Option.some.injEq] at e1
    subst e1
    exact ⟨k, _, y, _, hk, List.getElem?_eq_getElem hks, List.getElem?_eq_getElem (by omega), h3⟩

theorem unique (L : LatSetup cfg g net m part sts frs cur off cs lat Ls) {k k' y y' : Nat} {st st' : States S}
    {x x' : Nat × S} (h1 : sts[k]? = some st) (h2 : sts[k']? = some st') (h3 : st.flatten[y]? = some x)
    (h4 : st'.flatten[y']? = some x') (he : splits Ls k + y = splits Ls k' + y') : k = k' ∧ y = y' := by
  obtain ⟨R, e1, e2⟩ := L.desc.layer k st h1
  obtain ⟨R', e3, e4⟩ := L.desc.layer k' st' h2
  exact flatten_pos_unique Ls e1 e3 (by rw [e2]; exact (List.getElem?_eq_some_iff.1 h3).1)
    (by rw [e4]; exact (List.getElem?_eq_some_iff.1 h4).1) he

theorem lt_size (L : LatSetup cfg g net m part sts frs cur off cs lat Ls) {k y : Nat} {st : States S}
    {x : Nat × S} (h1 : sts[k]? = some st) (h3 : st.flatten[y]? = some x) : splits Ls k + y + 1 < lat.length := by
  obtain ⟨R, e1, e2⟩ := L.desc.layer k st h1
  have hk : k < Ls.length := (List.getElem?_eq_some_iff.1 e1).1
  have := splits_mono Ls (show k + 1 ≤ m by rw [← L.desc.len]; omega)
  rw [splits_succ Ls k R e1, e2] at this
  have := (List.getElem?_eq_some_iff.1 h3).1
  have := L.size
  omega

theorem enc (L : LatSetup cfg g net m part sts frs cur off cs lat Ls) {k y : Nat} {st : States S}
    {x : Nat × S} (h1 : sts[k]? = some st) (h3 : st.flatten[y]? = some x) : ∃ w q, Enc cfg g.length x.1 w q := by
  have hk : k < sts.length := (List.getElem?_eq_some_iff.1 h1).1
  obtain ⟨ms, q, ha, _, he⟩ := reach_good L.hg (good_take L.good k st (by rw [List.getElem?_append_left hk]; exact h1)) x
    (List.mem_of_getElem? h3)
  exact ⟨history ms, q, he ▸ align_enc L.hg ha⟩

theorem next (L : LatSetup cfg g net m part sts frs cur off cs lat Ls) {k : Nat} (hk : k + 1 < m) :
    ∃ nxt, sts[k + 1]? = some nxt ∧ (sts ++ [cur])[k + 1]? = some nxt := by
  have h : k + 1 < sts.length := by rw [L.len]; exact hk
  exact ⟨sts[k + 1], List.getElem?_eq_getElem h, by rw [List.getElem?_append_left h, List.getElem?_eq_getElem h]⟩

/-- What an arc is. -/
theorem edge (L : LatSetup cfg g net m part sts frs cur off cs lat Ls) {s : Nat} {r : List (Arc S × Int × Int)}
    (h : lat[s]? = some r) {e : Arc S × Int × Int} (he : e ∈ r) :
    ∃ k st y x, sts[k]? = some st ∧ st.flatten[y]? = some x ∧ s = splits Ls k + y ∧
      ((k + 1 = m ∧ e.1 = ⟨s, lat.length - 1, -1, 0⟩ ∧ e.2.1 = -1) ∨
       (k + 1 < m ∧ ∃ (nxt : States S) (c : Nat) (ctx : List (Nat × S)), sts[k + 1]? = some nxt ∧ st[c]? = some ctx ∧ x ∈ ctx ∧
        ∀ w q, Enc cfg g.length x.1 w q → ∃ (mv : Move S) (j : Nat) (x' : Nat × S), mv.Can g q ∧ nxt.flatten[j]? = some x' ∧
          x'.1 = cval cfg.vocab (lastSyms cfg.hist (w ++ mv.emits)) * g.length + mv.next q ∧
          e = (⟨s, splits Ls (k + 1) + j, (mv.symbol : Nat),
            mv.graphScore + net k (lastSyms cfg.hist w) mv.symbol⟩, mv.id, tokOf off cfg.vocab k c mv.symbol))) := by
  rcases L.row s r h with ⟨_, rfl⟩ | ⟨k, st, y, x, hk, h1, h2, rfl⟩
  · simp at he
  refine ⟨k, st, y, x, h1, h2, rfl, ?_⟩
  by_cases hkm : k + 1 = m
  · left
    have hk1 : k = m - 1 := by omega
    subst hk1
    obtain ⟨r', e1, e2, _⟩ := L.desc.last st y x h1 h2
    rw [h, Option.some.injEq] at e1
    subst e1
    exact ⟨hkm, e2 e he⟩
  · right
    obtain ⟨nxt, n1, n2⟩ := L.next (show k + 1 < m by omega)
    obtain ⟨r', c, ctx, e1, e2, e3, e4⟩ := L.desc.mid k st nxt y x h1 n2 (by omega) h2
    rw [h, Option.some.injEq] at e1
    subst e1
    refine ⟨by omega, nxt, c, ctx, n1, e2, e3, ?_⟩
    intro w q hw
    obtain ⟨mv, j, ⟨l1, _, s', l3⟩, l4⟩ := ((e4 w q hw).2 e).1 he
    exact ⟨mv, j, _, l1, l3, rfl, l4⟩

/-- The context of a state. -/
theorem context (L : LatSetup cfg g net m part sts frs cur off cs lat Ls) {k : Nat} {st : States S} {c : Nat}
    {ctx : List (Nat × S)} {x : Nat × S} {w : List Nat} {q : Nat} (h1 : sts[k]? = some st) (h2 : st[c]? = some ctx)
    (h3 : x ∈ ctx) (he : Enc cfg g.length x.1 w q) : (cs[k]?.bind (·[c]?)) = some (lastSyms cfg.hist w) := by
  rw [L.ctxs k st h1]
  simp only [Option.bind_some, ctxList, List.getElem?_map, h2, Option.map_some, Option.some.injEq]
  have hk : k < sts.length := (List.getElem?_eq_some_iff.1 h1).1
  have hcur := curOk_good L.hg (good_take L.good k st (by rw [List.getElem?_append_left hk]; exact h1))
  cases ctx with
  | nil => simp at h3
  | cons x0 ctx =>
    have hd := hcur.ctx _ (List.mem_of_getElem? h2) x0 (by simp) x h3
    simp only [List.map_cons, List.headD_cons]
    rw [← ctxSyms_enc cfg L.hc.vocab g.length w he.1 q he.2.1]
    unfold ctxSyms
    rw [hd, he.2.2]

theorem position (L : LatSetup cfg g net m part sts frs cur off cs lat Ls) {i : Nat} {e : Arc S × Int × Int}
    (h : lat.flatten[i]? = some e) : ∃ r k, lat[e.1.src]? = some r ∧ r[k]? = some e ∧ i = splits lat e.1.src + k := by
  obtain ⟨s, r, k, h1, h2, h3⟩ := flatten_pos lat i (List.getElem?_eq_some_iff.1 h).1
  rw [h3, flatten_get lat s r h1 k h2] at h
  have hs : e.1.src = s := by
    obtain ⟨k', st, y, x, e1, e2, e3, e4 | ⟨_, nxt, c, ctx, _, _, _, e4⟩⟩ := L.edge h1 (List.mem_of_getElem? h)
    · rw [e4.2.1]
    · obtain ⟨w, q, he⟩ := L.enc e1 e2
      obtain ⟨mv, j, x', _, _, _, rfl⟩ := e4 w q he
      rfl
  rw [hs]
  exact ⟨r, k, h1, h, h3⟩

/-- The tokens of the arcs of a path. -/
def Tokens (cfg : Cfg K) (cs : List (List (List Nat))) (off : Option (Nat → Nat)) (is : List Nat)
    (lat : List (List (Arc S × Int × Int))) (ms : List (Move S)) : Prop :=
  ∀ off', off = some off' → ∀ u mv, ms[u]? = some mv → ∃ (k c : Nat),
      is[u]? = some k ∧ (cs[u]?.bind (·[c]?)) = some (lastSyms cfg.hist (history (ms.take u))) ∧
      lat.flatten[k]?.map (fun a => a.2.2) = some (((off' u + c : Nat) : Int) * cfg.vocab + mv.symbol)

/-- A path to a state of a frame is an alignment. -/
theorem prefix_sound (L : LatSetup cfg g net m part sts frs cur off cs lat Ls) (es : List (Arc S × Int × Int)) :
    ∀ (is : List Nat) (k : Nat) (st : States S) (y : Nat) (x : Nat × S), is.map (fun i => lat.flatten[i]?) = es.map some →
      sts[k]? = some st → st.flatten[y]? = some x → Chain 0 (es.map Prod.fst) (splits Ls k + y) →
      ∃ ms q, Align g cfg.hist net ms q (score (es.map Prod.fst)) ∧ ms.length = k ∧ x.1 = encode cfg g.length ms q ∧
        es.map (fun e => e.1.label) = ms.map (fun mv => (mv.symbol : Int)) ∧ es.map (fun e => e.2.1) = ms.map Move.id ∧
        Tokens cfg cs off is lat ms := by
  induction es using List.reverseRecOn with
  | nil =>
    intro is k st y x his h1 h2 hch
    simp only [List.map_nil, chain_nil] at hch
    have h0 : sts[0]? = some [[(0, 0)]] := by
      have hl : 0 < sts.length := by have := L.len; have := L.hm; omega
      have := good_take L.good 0 sts[0] (by rw [List.getElem?_append_left hl, List.getElem?_eq_getElem hl])
      rw [List.getElem?_eq_getElem hl, good_zero this rfl]
    obtain ⟨rfl, rfl⟩ := L.unique h0 h1 (show ([[((0 : Nat), (0 : S))]] : States S).flatten[0]? = some (0, 0) from rfl) h2
      (by rw [splits_zero]; omega)
    rw [h0, Option.some.injEq] at h1
    subst h1
    simp only [List.flatten_cons, List.flatten_nil, List.append_nil, List.getElem?_cons_zero, Option.some.injEq] at h2
    subst h2
    refine ⟨[], 0, Align.start, rfl, (encode_start _ _).symm, rfl, rfl, ?_⟩
    intro off' _ u mv hu
    simp at hu
  | append_singleton es e ih =>
    intro is k st y x his h1 h2 hch
    rw [List.map_append, chain_append] at hch
    obtain ⟨s, hch1, hch2⟩ := hch
    simp only [List.map_cons, List.map_nil, chain_cons, chain_nil] at hch2
    obtain ⟨hsrc, hdst⟩ := hch2
    obtain ⟨is', i, rfl⟩ : ∃ is' i, is = is' ++ [i] := by
      rcases List.eq_nil_or_concat is with h0 | ⟨is', i, h0⟩
      · subst h0; simp at his
      · exact ⟨is', i, by rw [h0]; simp⟩
    rw [List.map_append, List.map_append] at his
    obtain ⟨his1, his2⟩ := List.append_inj' his (by simp)
    simp only [List.map_cons, List.map_nil, List.cons.injEq, and_true] at his2
    obtain ⟨r, n, hr, hn, _⟩ := L.position his2
    rw [hsrc] at hr
    obtain ⟨k', st', y', x', a1, a2, a3, ⟨_, a4, _⟩ | ⟨hk', nxt, c, ctx, a4, a5, a6, a7⟩⟩ := L.edge hr (List.mem_of_getElem? hn)
    · have := L.lt_size h1 h2
      rw [a4] at hdst
      simp only at hdst
      omega
    · rw [a3] at hch1
      obtain ⟨ms, q, b1, b2, b3, b4, b5, b6⟩ := ih is' k' st' y' x' his1 a1 a2 hch1
      have hen : Enc cfg g.length x'.1 (history ms) q := b3 ▸ align_enc L.hg b1
      obtain ⟨mv, j, x'', c1, c2, c3, c4⟩ := a7 _ _ hen
      have hd : e.1.dst = splits Ls (k' + 1) + j := by rw [c4]
      obtain ⟨rfl, rfl⟩ := L.unique a4 h1 c2 h2 (by omega)
      rw [h1, Option.some.injEq] at a4
      subst a4
      rw [h2, Option.some.injEq] at c2
      subst c2
      have hal := Align.step mv b1 c1
      refine ⟨ms ++ [mv], mv.next q, ?_, by simp [b2], ?_, ?_, ?_, ?_⟩
      · have hsc : score ((es ++ [e]).map Prod.fst) = score (es.map Prod.fst) + e.1.score := by
          simp [score]
        rw [hsc, c4]
        rw [b2] at hal
        exact hal
      · rw [c3, encode, history_snoc]
      · rw [List.map_append, List.map_append, b4, c4]; rfl
      · rw [List.map_append, List.map_append, b5, c4]; rfl
      · intro off' ho u mv' hu
        have hil : is'.length = ms.length := by
          have e1 := congrArg List.length his1
          have e2 := congrArg List.length b5
          simp at e1 e2
          omega
        by_cases hul : u < ms.length
        · rw [List.getElem?_append_left hul] at hu
          obtain ⟨kk, cc, d1, d2, d3⟩ := b6 off' ho u mv' hu
          refine ⟨kk, cc, ?_, ?_, d3⟩
          · rw [List.getElem?_append_left (by omega)]; exact d1
          · rw [List.take_append_of_le_length (by omega)]; exact d2
        · have hue : u = ms.length := by
            have := (List.getElem?_eq_some_iff.1 hu).1
            simp at this; omega
          subst hue
          rw [List.getElem?_append_right le_rfl] at hu
          simp at hu
          subst hu
          refine ⟨i, c, ?_, ?_, ?_⟩
          · rw [← hil, List.getElem?_append_right le_rfl]; simp
          · rw [List.take_left', b2]
            · exact L.context a1 a5 a6 hen
            · rfl
          · rw [his2, c4, ho, b2]
            rfl

end LatSetup

end

end Verif.Rnnt.Dec
