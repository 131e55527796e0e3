import Verif.Rnnt.Decode.Run
import Verif.Util.MapM

/-! The streams of a batch. -/

namespace Verif.Rnnt.Dec
open Verif.Fsa Verif.Util

section
variable {K : Type} [Field K] [LinearOrder K] [IsStrictOrderedRing K]

local notation "S" => WithBot K

/-- The batches that can be made: from streams, and by frames. -/
inductive Batch (cfg : Cfg K) : Streams S → Prop
  | make (srcs : List (Stream S)) (x : Streams S) : mkStreams srcs = some x → Batch cfg x
  | frame (x y : Streams S) (logprobs : List (List S)) : Batch cfg x → advance cfg logprobs x = some y → Batch cfg y

/-- What holds for all batches. -/
structure BatchOk (x : Streams S) : Prop where
  attached : x.attached = true
  states : x.states.length = x.srcs.length
  prev : ∀ f ∈ x.prev, f.length = x.srcs.length
  first : x.prev = [] → x.states = x.srcs.map Stream.states

variable {cfg : Cfg K} {g : Graph (WithBot K)} {net : Nat → List Nat → Nat → WithBot K}

theorem advance_fit {lp : List (List S)} {x y : Streams S} (h : advance cfg lp x = some y) : RowsFit cfg lp x := by
  unfold advance at h
  split at h
  · assumption
  · simp at h

/-- A frame of a batch is a frame of each stream. -/
theorem advance_get {lp : List (List S)} {x y : Streams S} (hok : BatchOk x) (h : advance cfg lp x = some y) :
    y.attached = true ∧ y.srcs = x.srcs ∧ y.states.length = x.srcs.length ∧ ∃ f : List (Frame S), f.length = x.srcs.length ∧
      y.prev = x.prev ++ [f] ∧ ∀ (i : Nat) (s : Stream S) (st : States S), x.srcs[i]? = some s → x.states[i]? = some st →
        ∃ nxt fr, step1 cfg s.graph ((lp.drop ((x.states.take i).map List.length).sum).take st.length) st = some (nxt, fr) ∧
          y.states[i]? = some nxt ∧ f[i]? = some fr := by
  rw [advance_eq cfg lp x hok.states (advance_fit h), Option.map_eq_some_iff] at h
  obtain ⟨out, h1, rfl⟩ := h
  obtain ⟨hl, hget⟩ := mapM_get h1
  have hl' : out.length = x.srcs.length := by
    rw [hl]; simp [reshape_length, hok.states]
  refine ⟨hok.attached, rfl, by simp [hl'], out.map Prod.snd, by simp [hl'], rfl, ?_⟩
  intro i s st hs hst
  have hz : ((x.srcs.zip x.states).zip (reshape x.states lp))[i]? =
      some ((s, st), (lp.drop ((x.states.take i).map List.length).sum).take st.length) := by
    rw [List.getElem?_zip_eq_some, List.getElem?_zip_eq_some]
    exact ⟨⟨hs, hst⟩, reshape_get _ _ _ _ hst⟩
  have hg := hget i _ hz
  have hil : i < out.length := by rw [hl']; exact (List.getElem?_eq_some_iff.1 hs).1
  rw [List.getElem?_eq_getElem hil] at hg
  refine ⟨out[i].1, out[i].2, hg.symm, ?_, ?_⟩
  · rw [List.getElem?_map, List.getElem?_eq_getElem hil]; rfl
  · rw [List.getElem?_map, List.getElem?_eq_getElem hil]; rfl

/-- A frame of a batch works if it works for each stream. -/
theorem advance_total {lp : List (List S)} {x : Streams S} (hok : BatchOk x) (hfit : RowsFit cfg lp x)
    (h : ∀ (i : Nat) (s : Stream S) (st : States S), x.srcs[i]? = some s → x.states[i]? = some st →
      (step1 cfg s.graph ((lp.drop ((x.states.take i).map List.length).sum).take st.length) st).isSome) :
    ∃ y, advance cfg lp x = some y := by
  rw [advance_eq cfg lp x hok.states hfit]
  obtain ⟨out, ho⟩ := mapM_exists (f := fun s : (Stream S × States S) × List (List S) => step1 cfg s.1.1.graph s.2 s.1.2)
    (l := (x.srcs.zip x.states).zip (reshape x.states lp)) (by
      intro z hz
      obtain ⟨i, hi⟩ := List.getElem?_of_mem hz
      rw [List.getElem?_zip_eq_some, List.getElem?_zip_eq_some] at hi
      obtain ⟨⟨hs, hst⟩, hr⟩ := hi
      rw [reshape_get _ _ _ _ hst, Option.some.injEq] at hr
      rw [← hr]
      exact Option.isSome_iff_exists.1 (h i _ _ hs hst))
  rw [ho]
  exact ⟨_, rfl⟩

omit [Field K] [LinearOrder K] [IsStrictOrderedRing K] in
theorem mkStreams_eq {srcs : List (Stream S)} {x : Streams S} (h : mkStreams srcs = some x) :
    x = ⟨true, srcs, srcs.map Stream.states, []⟩ ∧ 1 ≤ srcs.length := by
  unfold mkStreams at h
  split at h
  · exact ⟨(Option.some.inj h).symm, by assumption⟩
  · simp at h

theorem batch_ok {x : Streams S} (h : Batch cfg x) : BatchOk x := by
  induction h with
  | make srcs x hx =>
    obtain ⟨rfl, _⟩ := mkStreams_eq hx
    exact ⟨rfl, by simp, by simp, fun _ => rfl⟩
  | frame x y lp _ hy ih =>
    obtain ⟨h1, h2, h3, f, h4, h5, _⟩ := advance_get ih hy
    refine ⟨h1, by rw [h3, h2], ?_, by rw [h5]; simp⟩
    rw [h5, h2]
    intro f' hf'
    rcases List.mem_append.1 hf' with hf' | hf'
    · exact ih.prev f' hf'
    · rw [List.mem_singleton.1 hf', h4]

omit [Field K] [LinearOrder K] [IsStrictOrderedRing K] in
/-- The streams after the frames are given back. -/
theorem flush_get {x : Streams S} (hok : BatchOk x) (i : Nat) (s : Stream S) (st : States S) (hs : x.srcs[i]? = some s)
    (hst : x.states[i]? = some st) :
    (flush x).srcs[i]? = some ⟨s.graph, st, s.frames ++ x.prev.filterMap (fun f => f[i]?)⟩ := by
  unfold flush
  by_cases hp : x.prev = []
  · rw [if_pos (by simp [hp]), hs, hp]
    have := hok.first hp
    rw [this, List.getElem?_map, hs, Option.map_some, Option.some.injEq] at hst
    rw [← hst]
    simp
  · rw [if_neg (by simp [hp, hok.attached])]
    simp only [List.getElem?_map, List.getElem?_zipIdx]
    rw [(List.getElem?_zip_eq_some (z := (s, st))).2 ⟨hs, hst⟩]
    simp

omit [Field K] [LinearOrder K] [IsStrictOrderedRing K] in
theorem flush_length {x : Streams S} (hok : BatchOk x) : (flush x).srcs.length = x.srcs.length := by
  unfold flush
  split
  · rfl
  · simp [hok.states]

omit [LinearOrder K] [IsStrictOrderedRing K] [Field K] in
theorem contexts_length {n : Nat} {st : States S} {c : List (List Nat)} (h : contexts cfg n st = some c) :
    c.length = st.length := (mapM_get h).1

omit [IsStrictOrderedRing K] [Field K] [LinearOrder K] in
theorem getContexts_get {x : Streams S} (hok : BatchOk x) {all : List (List (List Nat))}
    (h : getContexts cfg x = some all) : all.map List.length = x.states.map List.length ∧
      ∀ (i : Nat) (s : Stream S) (st : States S), x.srcs[i]? = some s → x.states[i]? = some st →
        all[i]? = contexts cfg s.graph.length st := by
  obtain ⟨hl, hget⟩ := mapM_get h
  have hl' : all.length = x.states.length := by rw [hl]; simp [hok.states]
  have h2 : ∀ (i : Nat) (s : Stream S) (st : States S), x.srcs[i]? = some s → x.states[i]? = some st →
        all[i]? = contexts cfg s.graph.length st := by
    intro i s st hs hst
    exact hget i (s, st) ((List.getElem?_zip_eq_some (z := (s, st))).2 ⟨hs, hst⟩)
  refine ⟨?_, h2⟩
  apply List.ext_getElem?
  intro i
  rw [List.getElem?_map, List.getElem?_map]
  by_cases hi : i < x.states.length
  · have hi2 : i < x.srcs.length := by rw [← hok.states]; exact hi
    have := h2 i _ _ (List.getElem?_eq_getElem hi2) (List.getElem?_eq_getElem hi)
    rw [List.getElem?_eq_getElem (by omega : i < all.length)] at this
    rw [List.getElem?_eq_getElem hi, List.getElem?_eq_getElem (by omega : i < all.length)]
    simp only [Option.map_some]
    rw [contexts_length this.symm]
  · rw [List.getElem?_eq_none (by omega), List.getElem?_eq_none (by omega)]
    rfl

/-- What is known about a stream that was decoded. -/
structure Decoded (cfg : Cfg K) (g : Graph S) (net : Nat → List Nat → Nat → S) (i : Nat) (cs : List (List (List Nat)))
    (x : Streams S) (s : Stream S) (st : States S) (sts : List (States S)) (frs : List (Frame S)) : Prop where
  ok : BatchOk x
  src : x.srcs[i]? = some s
  graph : s.graph = g
  state : x.states[i]? = some st
  frames : s.frames ++ x.prev.filterMap (fun f => f[i]?) = frs
  good : Good cfg g net sts frs st
  ctxs : cs = sts.map (ctxList cfg g.length)

theorem decoding_good (hc : CfgOk cfg) (hg : GraphOk g cfg.vocab) (hb : ∀ t c, net t c 0 ≠ ⊥) {i : Nat}
    {cs : List (List (List Nat))} {x : Streams S} (h : Decoding cfg g net i cs x) :
    ∃ s st sts frs, Decoded cfg g net i cs x s st sts frs := by
  induction h with
  | fresh i srcs x hx hs =>
    obtain ⟨rfl, _⟩ := mkStreams_eq hx
    refine ⟨_, [[(0, 0)]], [], [], batch_ok (cfg := cfg) (Batch.make _ _ hx), hs, rfl, ?_, rfl, Good.start, rfl⟩
    rw [List.getElem?_map, hs]
    rfl
  | moved i j cs x y srcs _ hy hij hi ih =>
    obtain ⟨s, st, sts, frs, hd⟩ := ih
    obtain ⟨rfl, _⟩ := mkStreams_eq hy
    rw [flush_get hd.ok j s st hd.src hd.state] at hij
    refine ⟨_, st, sts, frs, batch_ok (cfg := cfg) (Batch.make _ _ hy), hij, hd.graph, ?_, ?_, hd.good, hd.ctxs⟩
    · rw [List.getElem?_map, hij]
      rfl
    · simpa using hd.frames
  | frame i cs x y all c lp _ hall hc' hlp hy ih =>
    obtain ⟨s, st, sts, frs, hd⟩ := ih
    obtain ⟨hlen, hctx⟩ := getContexts_get hd.ok hall
    have hcc : c = ctxList cfg g.length st := by
      have := hctx i s st hd.src hd.state
      rw [hc', hd.graph, contexts_eq cfg hc.vocab g.length hg.pos st (curOk_good hg hd.good).ne] at this
      exact Option.some.inj this
    have hsum : ((all.take i).map List.length).sum = ((x.states.take i).map List.length).sum := by
      rw [List.map_take, hlen, List.map_take]
    have hcl : c.length = st.length := by rw [hcc, ctxList, List.length_map]
    have hcsl : cs.length = sts.length := by rw [hd.ctxs, List.length_map]
    obtain ⟨h1, h2, h3, f, h4, h5, h6⟩ := advance_get hd.ok hy
    obtain ⟨nxt, fr, h7, h8, h9⟩ := h6 i s st hd.src hd.state
    rw [hsum, hcl, hcc, hcsl] at hlp
    rw [hlp, hd.graph] at h7
    obtain ⟨nxt', fr', h10, h11⟩ := good_step hc hg hb hd.good
    rw [h7, Option.some.injEq, Prod.mk.injEq] at h10
    obtain ⟨rfl, rfl⟩ := h10
    refine ⟨s, nxt, _, _, ?_, by rw [h2]; exact hd.src, hd.graph, h8, ?_, h11, ?_⟩
    · refine ⟨h1, by rw [h3, h2], ?_, by rw [h5]; simp⟩
      rw [h5, h2]
      intro f' hf'
      rcases List.mem_append.1 hf' with hf' | hf'
      · exact hd.ok.prev f' hf'
      · rw [List.mem_singleton.1 hf', h4]
    · rw [h5, List.filterMap_append, ← List.append_assoc, hd.frames]
      simp [h9]
    · rw [hcc, hd.ctxs]
      simp

/-- The contexts of a stream. -/
theorem decoding_contexts (hc : CfgOk cfg) (hg : GraphOk g cfg.vocab) {i : Nat} {cs : List (List (List Nat))}
    {x : Streams S} {s : Stream S} {st : States S} {sts : List (States S)} {frs : List (Frame S)}
    (hd : Decoded cfg g net i cs x s st sts frs) :
    contexts cfg s.graph.length st = some (ctxList cfg g.length st) := by
  rw [hd.graph]
  exact contexts_eq cfg hc.vocab g.length hg.pos st (curOk_good hg hd.good).ne

end

end Verif.Rnnt.Dec
