import Verif.Rnnt.Decode.Paths
import Verif.Rnnt.Decode.Batch

/-!
# Properties of RNN-T decoding

`Decoding cfg g net i cs x` says that the stream at position `i` of the batch `x` was decoded with the graph
`g` and the network `net`.  The log-prob of blank is never minus infinity.
-/

namespace Verif.Rnnt.Dec
open Verif.Fsa Verif.Util

section
variable {K : Type} [Field K] [LinearOrder K] [IsStrictOrderedRing K]

local notation "S" => WithBot K

/-! ## Contexts -/

theorem ctxList_spec {cfg : Cfg K} {g : Graph S} {net : Nat → List Nat → Nat → S} (hc : CfgOk cfg)
    (hg : GraphOk g cfg.vocab) {sts : List (States S)} {frs : List (Frame S)} {cur : States S}
    (h : Good cfg g net sts frs cur) :
    (ctxList cfg g.length cur).Nodup ∧
    (∀ c ∈ ctxList cfg g.length cur, ∃ ms q s, Align g cfg.hist net ms q s ∧ ms.length = sts.length ∧
      c = lastSyms cfg.hist (history ms)) ∧
    (∀ x ∈ cur.flatten, ∀ ms q s, Align g cfg.hist net ms q s → x.1 = encode cfg g.length ms q →
      lastSyms cfg.hist (history ms) ∈ ctxList cfg g.length cur) := by
  have hr := reach_good hg h
  have hcur := curOk_good hg h
  have hctx : ∀ ctx ∈ cur, ∀ x ∈ ctx, ∀ w q, Enc cfg g.length x.1 w q →
      ctxSyms cfg g.length ((ctx.map Prod.fst).headD 0) = lastSyms cfg.hist w := by
    intro ctx hctx x hx w q he
    cases ctx with
    | nil => simp at hx
    | cons x0 ctx =>
      have hd := hcur.ctx _ hctx x0 (by simp) x hx
      simp only [List.map_cons, List.headD_cons]
      rw [← ctxSyms_enc cfg hc.vocab g.length w he.1 q he.2.1]
      unfold ctxSyms
      rw [hd, he.2.2]
  refine ⟨?_, ?_, ?_⟩
  · have hpw : cur.Pairwise (fun c c' => ∀ x ∈ c, ∀ y ∈ c', x.1 / g.length < y.1 / g.length) := by
      cases h with
      | start => simp
      | step nested nxt fr _ _ hs => exact hs.ctxs
    unfold ctxList
    rw [List.Nodup, List.pairwise_map]
    refine List.Pairwise.imp_of_mem ?_ hpw
    intro c c' hcm hcm' hlt heq
    obtain ⟨x, hx⟩ := List.exists_mem_of_ne_nil _ (hcur.ne c hcm)
    obtain ⟨x', hx'⟩ := List.exists_mem_of_ne_nil _ (hcur.ne c' hcm')
    obtain ⟨w, q, he⟩ := hcur.enc x (List.mem_flatten.2 ⟨c, hcm, hx⟩)
    obtain ⟨w', q', he'⟩ := hcur.enc x' (List.mem_flatten.2 ⟨c', hcm', hx'⟩)
    rw [hctx c hcm x hx w q he, hctx c' hcm' x' hx' w' q' he'] at heq
    have h1 := hlt x hx x' hx'
    rw [he.2.2, he'.2.2, enc_div _ _ _ _ _ he.2.1, enc_div _ _ _ _ _ he'.2.1, heq] at h1
    omega
  · intro c hcm
    obtain ⟨ctx, hctxm, rfl⟩ := List.mem_map.1 hcm
    obtain ⟨x, hx⟩ := List.exists_mem_of_ne_nil _ (hcur.ne ctx hctxm)
    obtain ⟨ms, q, ha, hl, he⟩ := hr x (List.mem_flatten.2 ⟨ctx, hctxm, hx⟩)
    exact ⟨ms, q, x.2, ha, hl, hctx ctx hctxm x hx _ q (he ▸ align_enc hg ha)⟩
  · intro x hx ms q s ha he
    obtain ⟨ctx, hctxm, hxc⟩ := List.mem_flatten.1 hx
    exact List.mem_map.2 ⟨ctx, hctxm, hctx ctx hctxm x hxc _ q (he ▸ align_enc hg ha)⟩

/-- The contexts of one stream on one frame. -/
structure ContextsOk (cfg : Cfg K) (g : Graph S) (net : Nat → List Nat → Nat → S) (t : Nat) (c : List (List Nat)) :
    Prop where
  /-- A context is listed once. -/
  nodup : c.Nodup
  /-- It consists of the last symbols of an alignment of the frames so far. -/
  sound : ∀ h ∈ c, ∃ ms q s, Align g cfg.hist net ms q s ∧ ms.length = t ∧ h = lastSyms cfg.hist (history ms)
  /-- Without limits, the contexts of all alignments in the beam are there. -/
  complete : cfg.maxStates ≤ 0 → cfg.maxContexts ≤ 0 → ∀ ms q s, Align g cfg.hist net ms q s → ms.length = t →
    OnBeam g cfg.hist net cfg.beam ms → lastSyms cfg.hist (history ms) ∈ c
  limit : 0 < cfg.maxContexts → (c.length : Int) ≤ cfg.maxContexts

/-- The contexts that `GetContexts` returned and returns for a stream. -/
theorem getContexts_correct (cfg : Cfg K) (hc : CfgOk cfg) (g : Graph S) (hg : GraphOk g cfg.vocab)
    (net : Nat → List Nat → Nat → S) (hb : ∀ t c, net t c 0 ≠ ⊥) (i : Nat) (cs : List (List (List Nat)))
    (x : Streams S) (h : Decoding cfg g net i cs x) :
    (∀ all, getContexts cfg x = some all → ∃ c, all[i]? = some c ∧ ContextsOk cfg g net cs.length c) ∧
    ∀ (u : Nat) (c : List (List Nat)), cs[u]? = some c → ContextsOk cfg g net u c := by
  obtain ⟨s, st, sts, frs, hd⟩ := decoding_good hc hg hb h
  have key : ∀ (u : Nat) (st' : States S), (sts ++ [st])[u]? = some st' → ContextsOk cfg g net u (ctxList cfg g.length st') := by
    intro u st' hu
    have hgood := good_take hd.good u st' hu
    have hul : u ≤ sts.length := by
      have := (List.getElem?_eq_some_iff.1 hu).1
      simp at this; omega
    have hlen : (sts.take u).length = u := by rw [List.length_take]; omega
    obtain ⟨h1, h2, h3⟩ := ctxList_spec hc hg hgood
    rw [hlen] at h2
    refine ⟨h1, h2, ?_, ?_⟩
    · intro hS hC ms q s' ha hl hbeam
      obtain ⟨st'', hst'', x', hx', he', _⟩ := onBeam_active hg hS hC hd.good ha (by omega) hbeam
      rw [hl, hu, Option.some.injEq] at hst''
      subst hst''
      exact h3 x' hx' ms q s' ha he'
    · intro hC
      rw [ctxList, List.length_map]
      exact good_limit hgood hC
  refine ⟨?_, ?_⟩
  · intro all hall
    refine ⟨ctxList cfg g.length st, ?_, ?_⟩
    · rw [(getContexts_get hd.ok hall).2 i s st hd.src hd.state]
      exact decoding_contexts hc hg hd
    · rw [hd.ctxs, List.length_map]
      exact key sts.length st (by simp)
  · intro u c hu
    rw [hd.ctxs, List.getElem?_map, Option.map_eq_some_iff] at hu
    obtain ⟨st', hst', rfl⟩ := hu
    exact key u st' (by rw [List.getElem?_append_left (List.getElem?_eq_some_iff.1 hst').1]; exact hst')

/-! ## Pruning -/

/-- From the active states `st`, some move that survives the first pass leads to the state with number `v`
with score `f`. -/
def Cand (cfg : Cfg K) (g : Graph S) (net : List Nat → Nat → S) (st : States S) (v : Nat) (f : S) : Prop :=
  ∃ x ∈ st.flatten, ∃ w q, ∃ mv : Move S, Enc cfg g.length x.1 w q ∧ mv.Can g q ∧
    (mv.label = 0 ∨ ∀ y ∈ st.flatten, sub y.2 cfg.beam ≤ x.2 + mv.graphScore +
      (if mv.label = -1 then 0 else net (lastSyms cfg.hist w) mv.symbol)) ∧
    Enc cfg g.length v (w ++ mv.emits) (mv.next q) ∧
    f = x.2 + (mv.graphScore + net (lastSyms cfg.hist w) mv.symbol)

/-- The active states before and after a frame. -/
structure FrameOk (cfg : Cfg K) (g : Graph S) (net : List Nat → Nat → S) (st nxt : States S) : Prop where
  /-- States are sorted; there is one list for each context. -/
  sorted : (nxt.flatten.map Prod.fst).Pairwise (· < ·)
  ctxNe : ∀ c ∈ nxt, c ≠ []
  ctx : nxt.Pairwise (fun c c' => ∀ x ∈ c, ∀ y ∈ c', x.1 / g.length < y.1 / g.length)
  ctx' : ∀ c ∈ nxt, ∀ x ∈ c, ∀ y ∈ c, x.1 / g.length = y.1 / g.length
  /-- The score is the best of all moves to the state. -/
  score : ∀ x ∈ nxt.flatten, Cand cfg g net st x.1 x.2 ∧ ∀ f, Cand cfg g net st x.1 f → f ≤ x.2
  maxStates : 0 < cfg.maxStates → (nxt.flatten.length : Int) ≤ cfg.maxStates
  maxContexts : 0 < cfg.maxContexts → (nxt.length : Int) ≤ cfg.maxContexts
  /-- All states are in the beam, and the best one is kept. -/
  inBeam : ∀ x ∈ nxt.flatten, ∀ v f, Cand cfg g net st v f → sub f cfg.beam ≤ x.2
  best : (∃ v f, Cand cfg g net st v f) → ∃ x ∈ nxt.flatten, ∀ v f, Cand cfg g net st v f → f ≤ x.2
  /-- A state in the beam is only dropped if there are enough states, or enough contexts, that are not
  worse. -/
  dropped : ∀ v f, Cand cfg g net st v f → (∀ v' f', Cand cfg g net st v' f' → sub f' cfg.beam ≤ f) →
    v ∉ nxt.flatten.map Prod.fst →
    (0 < cfg.maxStates ∧ ∃ l : List Nat, l.Nodup ∧ (l.length : Int) = cfg.maxStates ∧ v ∉ l ∧
      ∀ v' ∈ l, ∃ f', Cand cfg g net st v' f' ∧ f ≤ f') ∨
    (0 < cfg.maxContexts ∧ (nxt.length : Int) = cfg.maxContexts ∧ ∀ c ∈ nxt, ∃ x ∈ c, f ≤ x.2)

theorem cand_iff {cfg : Cfg K} {g : Graph S} {net : List Nat → Nat → S} (hg : GraphOk g cfg.vocab) {st : States S}
    {nested : List (List (List (Pend S)))} (hcur : CurOk cfg g.length st) (hp : PassSpec cfg g net st nested)
    (v : Nat) (f : S) : Cand cfg g net st v f ↔ ∃ p ∈ nested.flatten.flatten, p.dest = v ∧ p.fin = f := by
  obtain ⟨E, rfl, hE⟩ := hp
  have hmax : ∀ x ∈ st.flatten, ∀ z : S, sub (maxOf (st.flatten.map Prod.snd)) cfg.beam ≤ z ↔
      ∀ y ∈ st.flatten, sub y.2 cfg.beam ≤ z := by
    intro x hx z
    constructor
    · intro h y hy
      exact (sub_mono _ (le_maxOf (List.mem_map.2 ⟨y, hy, rfl⟩))).trans h
    · intro h
      obtain ⟨y, hy, hye⟩ := List.mem_map.1 (maxOf_mem (l := st.flatten.map Prod.snd) (by
        intro h0; rw [List.map_eq_nil_iff] at h0; rw [h0] at hx; simp at hx))
      rw [← hye]
      exact h y hy
  constructor
  · rintro ⟨x, hx, w, q, mv, he, hcan, hk, he', rfl⟩
    refine ⟨_, nested_mem hx (((hE x hx w q he.1 he.2.1 he.2.2).2 _).2 ⟨mv, hcan, ?_, rfl⟩), he'.2.2.symm, rfl⟩
    rcases hk with h0 | h0
    · exact Or.inl h0
    · exact Or.inr ((hmax x hx _).2 h0)
  · rintro ⟨p, hp, rfl, rfl⟩
    obtain ⟨x, hx, hpx⟩ := mem_nested hp
    obtain ⟨w, q, h1, h2, h3⟩ := hcur.enc x hx
    obtain ⟨mv, hcan, hk, rfl⟩ := ((hE x hx w q h1 h2 h3).2 p).1 hpx
    obtain ⟨n1, n2⟩ := can_next hg hcan
    refine ⟨x, hx, w, q, mv, ⟨h1, h2, h3⟩, hcan, ?_, ⟨?_, n1, rfl⟩, rfl⟩
    · rcases hk with h0 | h0
      · exact Or.inl h0
      · exact Or.inr ((hmax x hx _).1 h0)
    · intro d hd
      rcases List.mem_append.1 hd with hd | hd
      · exact h1 d hd
      · exact n2 d hd

/-- What `Advance` keeps of a stream. -/
theorem advance_frame (cfg : Cfg K) (hc : CfgOk cfg) (g : Graph S) (hg : GraphOk g cfg.vocab)
    (net : Nat → List Nat → Nat → S) (hb : ∀ t c, net t c 0 ≠ ⊥) (i : Nat) (cs : List (List (List Nat)))
    (x y : Streams S) (h : Decoding cfg g net i cs x) (all : List (List (List Nat))) (c : List (List Nat))
    (logprobs : List (List S)) (hall : getContexts cfg x = some all) (hci : all[i]? = some c)
    (hlp : (logprobs.drop ((all.take i).map List.length).sum).take c.length = c.map (netRow cfg.vocab (net cs.length)))
    (hy : advance cfg logprobs x = some y) :
    ∃ st nxt, x.states[i]? = some st ∧ y.states[i]? = some nxt ∧ FrameOk cfg g (net cs.length) st nxt := by
  obtain ⟨s, st, sts, frs, hd⟩ := decoding_good hc hg hb h
  obtain ⟨hlen, hctx⟩ := getContexts_get hd.ok hall
  have hcc : c = ctxList cfg g.length st := by
    have := hctx i s st hd.src hd.state
    rw [hci, decoding_contexts hc hg hd] at this
    exact Option.some.inj this
  have hcsl : cs.length = sts.length := by rw [hd.ctxs, List.length_map]
  have hsum : ((all.take i).map List.length).sum = ((x.states.take i).map List.length).sum := by
    rw [List.map_take, hlen, List.map_take]
  have hcl : c.length = st.length := by rw [hcc, ctxList, List.length_map]
  obtain ⟨_, _, _, f, _, _, h6⟩ := advance_get hd.ok hy
  obtain ⟨nxt, fr', h7, h8, _⟩ := h6 i s st hd.src hd.state
  rw [hsum, hcl, hcc, hcsl] at hlp
  rw [hlp, hd.graph] at h7
  obtain ⟨nxt', fr, nested, h10, hp, hs⟩ := good_step' hc hg hb hd.good
  rw [h7, Option.some.injEq, Prod.mk.injEq] at h10
  obtain ⟨rfl, rfl⟩ := h10
  rw [hcsl]
  have hcur : CurOk cfg g.length st := curOk_good hg hd.good
  have hiff := cand_iff hg hcur hp
  refine ⟨st, nxt, hd.state, h8, hs.sorted, hs.ctxNe, hs.ctxs, hs.ctx, ?_, hs.maxStates, hs.maxContexts, ?_, ?_, ?_⟩
  · intro z hz
    refine ⟨(hiff _ _).2 (hs.scoreMem z hz), ?_⟩
    intro f hf
    obtain ⟨p, hpm, hpd, rfl⟩ := (hiff _ _).1 hf
    exact hs.scoreMax z hz p hpm hpd
  · intro z hz v f hf
    obtain ⟨p, hpm, _, rfl⟩ := (hiff _ _).1 hf
    exact hs.inBeam z hz p hpm
  · rintro ⟨v, f, hf⟩
    obtain ⟨p, hpm, _, _⟩ := (hiff _ _).1 hf
    obtain ⟨z, hz, hbest⟩ := hs.best (List.ne_nil_of_mem hpm)
    refine ⟨z, hz, ?_⟩
    intro v' f' hf'
    obtain ⟨p', hpm', _, rfl⟩ := (hiff _ _).1 hf'
    exact hbest p' hpm'
  · intro v f hf hbeam hnot
    obtain ⟨p, hpm, rfl, rfl⟩ := (hiff _ _).1 hf
    rcases hs.dropped p hpm (fun p' hp' => hbeam p'.dest p'.fin ((hiff _ _).2 ⟨p', hp', rfl, rfl⟩)) hnot with
      ⟨h1, l, l1, l2, l3, l4⟩ | h1
    · refine Or.inl ⟨h1, l, l1, l2, l3, ?_⟩
      intro v' hv'
      obtain ⟨p', hp', hpd, hle⟩ := l4 v' hv'
      exact ⟨p'.fin, (hiff _ _).2 ⟨p', hp', hpd, rfl⟩, hle⟩
    · exact Or.inr h1

/-! ## The lattice -/

omit [Field K] [LinearOrder K] [IsStrictOrderedRing K] in
theorem gather_frames (part : Bool) (T m : Nat) (hm : 1 ≤ m) (hT : m ≤ T) (fs : List (Frame S)) (hl : fs.length = m) :
    (List.replicate (T - m) [] ++ fs).take (T - 1) ++ ((List.replicate (T - m) [] ++ fs).drop (T - 1)).map (finalArcs part) =
      List.replicate (T - m) [] ++ lastFrames part m fs := by
  have h1 : (List.replicate (T - m) ([] : Frame S)).length = T - m := List.length_replicate
  have h2 : T - 1 = (List.replicate (T - m) ([] : Frame S)).length + (m - 1) := by rw [h1]; omega
  rw [h2, List.take_length_add_append, List.drop_length_add_append, List.append_assoc]
  rfl

theorem foldr_max_le (l : List Nat) (a : Nat) (h : a ∈ l) : a ≤ l.foldr max 0 := by
  induction l with
  | nil => simp at h
  | cons b l ih =>
    rcases List.mem_cons.1 h with h | h
    · subst h; simp
    · have := ih h; simp only [List.foldr_cons]; omega

variable {cfg : Cfg K} {g : Graph (WithBot K)} {net : Nat → List Nat → Nat → WithBot K}

/-- The lattice of a stream that was decoded. -/
theorem stream_lattice (hc : CfgOk cfg) (hg : GraphOk g cfg.vocab) {i : Nat} {cs : List (List (List Nat))}
    {x : Streams S} {s : Stream S} {st : States S} {sts : List (States S)} {frs : List (Frame S)}
    (hd : Decoded cfg g net i cs x s st sts frs) (part : Bool) (sizes : Option (List (List Nat))) (T m : Nat) (hm : 1 ≤ m)
    (hmT : m ≤ T) (hml : m ≤ frs.length) (hsz : SizesOk sizes i m) :
    (∃ lat, outFrames cfg sizes g i T (T - m) 0 0 ((List.replicate (T - m) [] ++ frs.take m).take (T - 1) ++
      ((List.replicate (T - m) [] ++ frs.take m).drop (T - 1)).map (finalArcs part)) = some lat) ∧
    ∀ lat, outFrames cfg sizes g i T (T - m) 0 0 ((List.replicate (T - m) [] ++ frs.take m).take (T - 1) ++
      ((List.replicate (T - m) [] ++ frs.take m).drop (T - 1)).map (finalArcs part)) = some lat →
      LatticeOk cfg g net m part cs (sizes.map (fun sz => offOf sz i)) lat := by
  have hl := good_length hd.good
  obtain ⟨stm, hstm⟩ : ∃ stm, (sts ++ [st])[m]? = some stm :=
    ⟨_, List.getElem?_eq_getElem (by simp; omega)⟩
  have hgood := good_take hd.good m stm hstm
  have hlen : (sts.take m).length = m := by rw [List.length_take]; omega
  rw [gather_frames part T m hm hmT _ (by rw [List.length_take]; omega), outFrames_pad, Nat.zero_add]
  obtain ⟨h1, h2⟩ := latDesc hg hgood m hm hlen part sizes i T hsz hmT
  refine ⟨h1, ?_⟩
  intro lat hlat
  obtain ⟨Ls, hL⟩ := h2 lat hlat
  refine LatSetup.ok (sts := sts.take m) (frs := frs.take m) (cur := stm) (Ls := Ls) ⟨hc, hg, hm, hlen, hgood, hL, ?_⟩
  intro u st' hu
  rw [hd.ctxs, List.getElem?_map]
  rw [List.getElem?_take] at hu
  split at hu
  · rw [hu]; rfl
  · simp at hu

/-- The lattice that `FormatOutput` returns for a stream. -/
theorem formatOutput_correct (cfg : Cfg K) (hc : CfgOk cfg) (g : Graph S) (hg : GraphOk g cfg.vocab)
    (net : Nat → List Nat → Nat → S) (hb : ∀ t c, net t c 0 ≠ ⊥) (i : Nat) (cs : List (List (List Nat)))
    (x : Streams S) (h : Decoding cfg g net i cs x) (numFrames : List Nat) (part : Bool) (sizes : Option (List (List Nat)))
    (out : List (List (List (Arc S × Int × Int)))) (hout : formatOutput cfg numFrames part sizes (flush x) = some out)
    (m : Nat) (hmi : numFrames[i]? = some m) (hm : 1 ≤ m) (hsz : SizesOk sizes i m) :
    ∃ lat, out[i]? = some lat ∧ LatticeOk cfg g net m part cs (sizes.map (fun sz => offOf sz i)) lat := by
  obtain ⟨s, st, sts, frs, hd⟩ := decoding_good hc hg hb h
  unfold formatOutput at hout
  simp only at hout
  split at hout
  · simp at hout
  · obtain ⟨hol, hget⟩ := mapM_get hout
    have hsi := flush_get hd.ok i s st hd.src hd.state
    rw [hd.frames] at hsi
    have hz : ((flush x).srcs.zip numFrames).zipIdx[i]? = some ((⟨s.graph, st, frs⟩, m), i) := by
      rw [List.getElem?_zipIdx, (List.getElem?_zip_eq_some (z := (⟨s.graph, st, frs⟩, m))).2 ⟨hsi, hmi⟩]
      simp
    have hoi := hget i _ hz
    have hil : i < out.length := by
      rw [hol]; exact (List.getElem?_eq_some_iff.1 hz).1
    rw [List.getElem?_eq_getElem hil] at hoi
    simp only [gather] at hoi
    by_cases hml : m ≤ frs.length
    · rw [if_pos hml] at hoi
      simp only [Option.bind_eq_bind, Option.bind_some] at hoi
      rw [hd.graph] at hoi
      refine ⟨out[i], List.getElem?_eq_getElem hil, ?_⟩
      exact (stream_lattice hc hg hd part sizes _ m hm (foldr_max_le _ _ (List.mem_of_getElem? hmi)) hml hsz).2 _ hoi.symm
    · rw [if_neg hml] at hoi
      simp at hoi

/-- `FormatOutput` works if all streams were decoded for long enough. -/
theorem formatOutput_total (cfg : Cfg K) (hc : CfgOk cfg) (x : Streams S) (hne : x.prev ≠ []) (numFrames : List Nat)
    (part : Bool) (sizes : Option (List (List Nat))) (hl : numFrames.length = x.srcs.length) (hpos : 1 ≤ x.srcs.length)
    (hall : ∀ i m, numFrames[i]? = some m → 1 ≤ m ∧ SizesOk sizes i m ∧ ∃ g net cs, GraphOk g cfg.vocab ∧
      (∀ t c, net t c 0 ≠ ⊥) ∧ Decoding cfg g net i cs x ∧ m ≤ cs.length) :
    ∃ out, formatOutput cfg numFrames part sizes (flush x) = some out := by
  have hdec : ∀ i m, numFrames[i]? = some m → 1 ≤ m ∧ SizesOk sizes i m ∧ ∃ g net cs s st sts frs, GraphOk g cfg.vocab ∧
      Decoded cfg g net i cs x s st sts frs ∧ m ≤ frs.length := by
    intro i m hi
    obtain ⟨h1, h2, g, net, cs, h3, h4, h5, h6⟩ := hall i m hi
    obtain ⟨s, st, sts, frs, hd⟩ := decoding_good hc h3 h4 h5
    refine ⟨h1, h2, g, net, cs, s, st, sts, frs, h3, hd, ?_⟩
    rw [← good_length hd.good]
    have := congrArg List.length hd.ctxs
    simp at this; omega
  obtain ⟨m0, hm0⟩ : ∃ m0, numFrames[0]? = some m0 := ⟨_, List.getElem?_eq_getElem (show 0 < numFrames.length by omega)⟩
  obtain ⟨hm1, _, _, _, _, _, _, _, _, _, hd0, _⟩ := hdec 0 m0 hm0
  have hT : numFrames.foldr max 0 ≠ 0 := by
    have := foldr_max_le _ _ (List.mem_of_getElem? hm0)
    omega
  have hat : (flush x).attached = false := by
    unfold flush
    rw [if_neg (by simp [hne, hd0.ok.attached])]
  unfold formatOutput
  simp only
  rw [if_neg (by
    rw [flush_length hd0.ok, hat]
    simp [hl, hT])]
  apply mapM_exists
  intro z hz
  obtain ⟨n, hn⟩ := List.getElem?_of_mem hz
  rw [List.getElem?_zipIdx, Option.map_eq_some_iff] at hn
  obtain ⟨⟨s', m⟩, hn, rfl⟩ := hn
  rw [List.getElem?_zip_eq_some] at hn
  simp only at hn
  obtain ⟨h1, h2, g, net, cs, s, st, sts, frs, h3, hd, h4⟩ := hdec n m hn.2
  have hsi := flush_get hd.ok n s st hd.src hd.state
  rw [hd.frames, hn.1, Option.some.injEq] at hsi
  subst hsi
  simp only [gather, Nat.zero_add]
  rw [if_pos h4]
  simp only [Option.bind_eq_bind, Option.bind_some]
  rw [hd.graph]
  exact (stream_lattice hc h3 hd part sizes _ m h1 (foldr_max_le _ _ (List.mem_of_getElem? hn.2)) h4 h2).1

/-- `GetContexts` works for streams that were decoded. -/
theorem getContexts_total (cfg : Cfg K) (hc : CfgOk cfg) (x : Streams S)
    (hall : ∀ i < x.srcs.length, ∃ g net cs, GraphOk g cfg.vocab ∧ (∀ t c, net t c 0 ≠ ⊥) ∧ Decoding cfg g net i cs x) :
    ∃ all, getContexts cfg x = some all := by
  apply mapM_exists
  intro z hz
  obtain ⟨n, hn⟩ := List.getElem?_of_mem hz
  rw [List.getElem?_zip_eq_some] at hn
  obtain ⟨g, net, cs, h1, h2, h3⟩ := hall n (List.getElem?_eq_some_iff.1 hn.1).1
  obtain ⟨s, st, sts, frs, hd⟩ := decoding_good hc h1 h2 h3
  have e1 := hd.src
  have e2 := hd.state
  rw [hn.1, Option.some.injEq] at e1
  rw [hn.2, Option.some.injEq] at e2
  rw [e1, e2]
  exact ⟨_, decoding_contexts hc h1 hd⟩

/-- `Advance` works for streams that were decoded, and the log-probs of their networks. -/
theorem advance_some (cfg : Cfg K) (hc : CfgOk cfg) (x : Streams S) (all : List (List (List Nat)))
    (hctx : getContexts cfg x = some all) (logprobs : List (List S)) (hpos : 1 ≤ x.srcs.length)
    (hl : logprobs.length = (all.map List.length).sum) (hrow : ∀ r ∈ logprobs, r.length = cfg.vocab)
    (hall : ∀ i < x.srcs.length, ∃ g net cs c, GraphOk g cfg.vocab ∧ (∀ t c, net t c 0 ≠ ⊥) ∧ Decoding cfg g net i cs x ∧
      all[i]? = some c ∧
      (logprobs.drop ((all.take i).map List.length).sum).take c.length = c.map (netRow cfg.vocab (net cs.length))) :
    ∃ y, advance cfg logprobs x = some y := by
  have hok : BatchOk x := by
    obtain ⟨g, net, cs, c, h1, h2, h3, _⟩ := hall 0 (by omega)
    obtain ⟨s, st, sts, frs, hd⟩ := decoding_good hc h1 h2 h3
    exact hd.ok
  obtain ⟨hlen, hget⟩ := getContexts_get hok hctx
  refine advance_total hok ⟨hok.attached, ?_, hrow⟩ ?_
  · rw [hl, hlen, List.length_flatten]
  · intro i s st hs hst
    obtain ⟨g, net, cs, c, h1, h2, h3, h4, h5⟩ := hall i (List.getElem?_eq_some_iff.1 hs).1
    obtain ⟨s', st', sts, frs, hd⟩ := decoding_good hc h1 h2 h3
    have e1 := hd.src
    have e2 := hd.state
    rw [hs, Option.some.injEq] at e1
    rw [hst, Option.some.injEq] at e2
    subst e1 e2
    have hcc : c = ctxList cfg g.length st := by
      have := hget i s st hs hst
      rw [h4, decoding_contexts hc h1 hd] at this
      exact Option.some.inj this
    have hcsl : cs.length = sts.length := by rw [hd.ctxs, List.length_map]
    have hsum : ((all.take i).map List.length).sum = ((x.states.take i).map List.length).sum := by
      rw [List.map_take, hlen, List.map_take]
    have hcl : c.length = st.length := by rw [hcc, ctxList, List.length_map]
    rw [hsum, hcl, hcc, hcsl] at h5
    rw [h5, hd.graph]
    obtain ⟨nxt, fr, h10, _⟩ := good_step hc h1 h2 hd.good
    rw [h10]
    rfl

/-! ## Batches -/

/-- The rows of log-probs of stream `i`. -/
def rowsOf (all : List (List (List Nat))) (logprobs : List (List S)) (i : Nat) : List (List S) :=
  (logprobs.drop ((all.take i).map List.length).sum).take ((all.getD i []).length)

/-- A stream of a batch behaves as if it were alone: it has the same contexts, and after a frame it is the
same. -/
theorem advance_alone (cfg : Cfg K) (x : Streams S) (hx : Batch cfg x) (all : List (List (List Nat)))
    (hctx : getContexts cfg x = some all) (i : Nat) (s : Stream S) (hs : (flush x).srcs[i]? = some s) :
    ∃ (x1 : Streams S) (c : List (List Nat)), mkStreams [s] = some x1 ∧ getContexts cfg x1 = some [c] ∧ all[i]? = some c ∧
      ∀ (logprobs : List (List S)) (y : Streams S), advance cfg logprobs x = some y →
        ∃ y1, advance cfg (rowsOf all logprobs i) x1 = some y1 ∧ (flush y1).srcs[0]? = (flush y).srcs[i]? := by
  have hok := batch_ok hx
  obtain ⟨hlen, hget⟩ := getContexts_get hok hctx
  have hil : i < x.srcs.length := by
    rw [← flush_length hok]; exact (List.getElem?_eq_some_iff.1 hs).1
  obtain ⟨s0, hs0⟩ : ∃ s0, x.srcs[i]? = some s0 := ⟨_, List.getElem?_eq_getElem hil⟩
  obtain ⟨st, hst⟩ : ∃ st, x.states[i]? = some st := ⟨_, List.getElem?_eq_getElem (by rw [hok.states]; exact hil)⟩
  rw [flush_get hok i s0 st hs0 hst, Option.some.injEq] at hs
  have hall := hget i s0 st hs0 hst
  have hal : i < all.length := by
    have := congrArg List.length hlen
    simp only [List.length_map] at this
    rw [this, hok.states]
    exact hil
  obtain ⟨c, hci⟩ : ∃ c, all[i]? = some c := ⟨_, List.getElem?_eq_getElem hal⟩
  rw [hci] at hall
  have hcl : c.length = st.length := contexts_length hall.symm
  refine ⟨⟨true, [s], [st], []⟩, c, ?_, ?_, hci, ?_⟩
  · rw [← hs]; rfl
  · rw [← hs]
    simp only [getContexts, List.zip_cons_cons, List.zip_nil_right, List.mapM_cons, List.mapM_nil]
    rw [← hall]
    rfl
  · intro lp y hy
    have hfit := advance_fit hy
    obtain ⟨y1', y2', y3', f, y4', y5', h6⟩ := advance_get hok hy
    obtain ⟨nxt, fr, h7, h8, h9⟩ := h6 i s0 st hs0 hst
    have hoky : BatchOk y := batch_ok (Batch.frame x y lp hx hy)
    have hsum : ((all.take i).map List.length).sum = ((x.states.take i).map List.length).sum := by
      rw [List.map_take, hlen, List.map_take]
    have hrows : rowsOf all lp i = (lp.drop ((x.states.take i).map List.length).sum).take st.length := by
      unfold rowsOf
      rw [hsum, List.getD_eq_getElem?_getD, hci, Option.getD_some, hcl]
    have hrl : (rowsOf all lp i).length = st.length := by
      have hsplit : x.states = x.states.take i ++ st :: x.states.drop (i + 1) := by
        have hi' : i < x.states.length := (List.getElem?_eq_some_iff.1 hst).1
        have hge : x.states[i] = st := (List.getElem?_eq_some_iff.1 hst).2
        rw [← hge, List.getElem_cons_drop, List.take_append_drop]
      have := hfit.2.1
      rw [hsplit, List.flatten_append, List.flatten_cons, List.length_append, List.length_append] at this
      have hfl : (x.states.take i).flatten.length = ((x.states.take i).map List.length).sum := List.length_flatten
      rw [hrows, List.length_take, List.length_drop]
      omega
    have hok1 : BatchOk (⟨true, [s], [st], []⟩ : Streams S) := by
      refine ⟨rfl, rfl, by simp, ?_⟩
      intro _
      rw [← hs]
      rfl
    have hadv : advance cfg (rowsOf all lp i) ⟨true, [s], [st], []⟩ = some ⟨true, [s], [nxt], [[fr]]⟩ := by
      rw [advance_eq cfg _ _ rfl ⟨rfl, by simpa using hrl, fun r hr => hfit.2.2 r (by
        unfold rowsOf at hr
        exact List.mem_of_mem_drop (List.mem_of_mem_take hr))⟩]
      simp only [reshape, List.zip_cons_cons, List.zip_nil_right, List.mapM_cons, List.mapM_nil]
      have hg : s.graph = s0.graph := by rw [← hs]
      rw [hg, List.take_of_length_le (by omega), hrows, h7]
      rfl
    refine ⟨_, hadv, ?_⟩
    have hoky1 : BatchOk (⟨true, [s], [nxt], [[fr]]⟩ : Streams S) := ⟨rfl, rfl, by simp, by simp⟩
    rw [flush_get hoky i s0 nxt (by rw [y2']; exact hs0) h8]
    rw [flush_get hoky1 0 s nxt rfl rfl, ← hs, y5']
    simp [h9]

/-- A frame works for a batch if it works for each stream alone. -/
theorem advance_each (cfg : Cfg K) (x : Streams S) (hx : Batch cfg x) (all : List (List (List Nat)))
    (hctx : getContexts cfg x = some all) (logprobs : List (List S)) (hl : logprobs.length = (all.map List.length).sum)
    (hrow : ∀ r ∈ logprobs, r.length = cfg.vocab)
    (h : ∀ i s, (flush x).srcs[i]? = some s → ∃ x1 y1, mkStreams [s] = some x1 ∧
      advance cfg (rowsOf all logprobs i) x1 = some y1) :
    ∃ y, advance cfg logprobs x = some y := by
  have hok := batch_ok hx
  obtain ⟨hlen, hget⟩ := getContexts_get hok hctx
  refine advance_total hok ⟨hok.attached, by rw [hl, hlen, List.length_flatten], hrow⟩ ?_
  intro i s0 st hs0 hst
  obtain ⟨x1, y1, h1, h2⟩ := h i _ (flush_get hok i s0 st hs0 hst)
  obtain ⟨rfl, _⟩ := mkStreams_eq h1
  have hall := hget i s0 st hs0 hst
  have hal : i < all.length := by
    have := congrArg List.length hlen
    simp only [List.length_map] at this
    rw [this]
    exact (List.getElem?_eq_some_iff.1 hst).1
  have hci := List.getElem?_eq_getElem hal
  rw [hci] at hall
  have hcl := contexts_length hall.symm
  have hsum : ((all.take i).map List.length).sum = ((x.states.take i).map List.length).sum := by
    rw [List.map_take, hlen, List.map_take]
  have hrows : rowsOf all logprobs i = (logprobs.drop ((x.states.take i).map List.length).sum).take st.length := by
    unfold rowsOf
    rw [hsum, List.getD_eq_getElem?_getD, hci, Option.getD_some, hcl]
  obtain ⟨_, _, _, f, _, _, h6⟩ := advance_get (batch_ok (cfg := cfg) (Batch.make _ _ h1)) h2
  obtain ⟨nxt, fr, h7, _, _⟩ := h6 0 _ st rfl rfl
  simp only [List.take_zero, List.map_nil, List.sum_nil, List.drop_zero] at h7
  rw [hrows, List.take_take, Nat.min_self] at h7
  rw [h7]
  rfl

end

end Verif.Rnnt.Dec
