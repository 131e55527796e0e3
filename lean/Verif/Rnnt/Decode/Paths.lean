import Verif.Rnnt.Decode.Lattice

/-! The lattice is right. -/

namespace Verif.Rnnt.Dec
open Verif.Fsa Verif.Util

section
variable {K : Type} [Field K] [LinearOrder K] [IsStrictOrderedRing K]

local notation "S" => WithBot K

variable {cfg : Cfg K} {g : Graph (WithBot K)} {net : Nat → List Nat → Nat → WithBot K}
variable {m : Nat} {part : Bool} {sts : List (States (WithBot K))} {frs : List (Frame (WithBot K))} {cur : States (WithBot K)}
  {off : Option (Nat → Nat)} {cs : List (List (List Nat))} {lat : List (List (Arc (WithBot K) × Int × Int))}
  {Ls : List (List (List (Arc (WithBot K) × Int × Int)))}

omit [Field K] [LinearOrder K] [IsStrictOrderedRing K] in
/-- The arcs of a path with the arc maps. -/
theorem path_els {is : List Nat} {p : List (Arc S)}
    (h : is.map (fun i => (lat.map (List.map Prod.fst)).flatten[i]?) = p.map some) :
    ∃ es : List (Arc S × Int × Int), is.map (fun i => lat.flatten[i]?) = es.map some ∧ p = es.map Prod.fst := by
  rw [← List.map_flatten] at h
  induction is generalizing p with
  | nil =>
    have : p = [] := by simpa using h.symm
    exact ⟨[], rfl, by rw [this]; rfl⟩
  | cons i is ih =>
    cases p with
    | nil => simp at h
    | cons a p =>
      simp only [List.map_cons, List.cons.injEq] at h
      obtain ⟨h1, h2⟩ := h
      obtain ⟨es, e1, e2⟩ := ih h2
      rw [List.getElem?_map, Option.map_eq_some_iff] at h1
      obtain ⟨e, e3, e4⟩ := h1
      exact ⟨e :: es, by simp [e3, e1], by simp [e4, e2]⟩

omit [Field K] [LinearOrder K] [IsStrictOrderedRing K] in
theorem els_path {is : List Nat} {es : List (Arc S × Int × Int)} (h : is.map (fun i => lat.flatten[i]?) = es.map some) :
    is.map (fun i => (lat.map (List.map Prod.fst)).flatten[i]?) = (es.map Prod.fst).map some ∧
    is.map (fun i => lat.flatten[i]?.map (fun a => a.2.1)) = es.map (fun e => some e.2.1) := by
  constructor
  · have := congrArg (List.map (Option.map Prod.fst)) h
    rw [List.map_map, List.map_map] at this
    rw [List.map_map, ← List.map_flatten]
    simp only [List.getElem?_map]
    exact this
  · have := congrArg (List.map (Option.map (fun a : Arc S × Int × Int => a.2.1))) h
    simpa [Function.comp_def] using this

namespace LatSetup

/-- Without limits, moves in the beam are a path. -/
theorem prefix_complete (L : LatSetup cfg g net m part sts frs cur off cs lat Ls) (hS : cfg.maxStates ≤ 0)
    (hC : cfg.maxContexts ≤ 0) {ms : List (Move S)} {q : Nat} {s : S} (ha : Align g cfg.hist net ms q s) (hl : ms.length < m)
    (hb : OnBeam g cfg.hist net cfg.beam ms) :
    ∃ (es : List (Arc S × Int × Int)) (is : List Nat) (st : States S) (y : Nat) (x : Nat × S),
      is.map (fun i => lat.flatten[i]?) = es.map some ∧ sts[ms.length]? = some st ∧ st.flatten[y]? = some x ∧
      x.1 = encode cfg g.length ms q ∧ s ≤ x.2 ∧ Chain 0 (es.map Prod.fst) (splits Ls ms.length + y) ∧
      score (es.map Prod.fst) = s ∧ es.map (fun e => e.1.label) = ms.map (fun mv => (mv.symbol : Int)) ∧
      es.map (fun e => e.2.1) = ms.map Move.id := by
  induction ha with
  | start =>
    have h0 : sts[0]? = some [[(0, 0)]] := by
      have hl : 0 < sts.length := by have := L.len; have := L.hm; omega
      have := good_take L.good 0 sts[0] (by rw [List.getElem?_append_left hl, List.getElem?_eq_getElem hl])
      rw [List.getElem?_eq_getElem hl, good_zero this rfl]
    exact ⟨[], [], _, 0, (0, 0), rfl, h0, rfl, (encode_start _ _).symm, le_rfl, by simp [splits_zero], rfl, rfl, rfl⟩
  | @step ms q s mv ha hm ih =>
    simp only [List.length_append, List.length_singleton] at hl
    have hb1 : OnBeam g cfg.hist net cfg.beam ms := by
      intro ms1 m1 ms2 he
      exact hb ms1 m1 (ms2 ++ [mv]) (by rw [he]; simp)
    obtain ⟨es, is, st, y, x, h1, h2, h3, h4, h5, h6, h7, h8, h9⟩ := ih (by omega) hb1
    obtain ⟨nxt, n1, n2⟩ := L.next hl
    obtain ⟨hk, x', hx', he', hle⟩ := onBeam_step L.hg hS hC L.good ha hm hb h2 n2 (List.mem_of_getElem? h3) h4 h5
    obtain ⟨j, hj⟩ := List.getElem?_of_mem hx'
    obtain ⟨row, c, ctx, r1, r2, r3, r4⟩ := L.desc.mid ms.length st nxt y x h2 n2 hl h3
    have hen : Enc cfg g.length x.1 (history ms) q := h4 ▸ align_enc L.hg ha
    have hleft : Left cfg g (net ms.length) st nxt x (history ms) q mv j := by
      refine ⟨hm, hk, x'.2, ?_⟩
      rw [hj]
      refine congrArg some (Prod.ext ?_ rfl)
      rw [he', encode, history_snoc]
    obtain ⟨e, hee, hmem⟩ : ∃ e : Arc S × Int × Int, e = (⟨splits Ls ms.length + y, splits Ls (ms.length + 1) + j, (mv.symbol : Nat),
        mv.graphScore + net ms.length (lastSyms cfg.hist (history ms)) mv.symbol⟩, mv.id, tokOf off cfg.vocab ms.length c mv.symbol) ∧
        e ∈ row := ⟨_, rfl, ((r4 _ _ hen).2 _).2 ⟨mv, j, hleft, rfl⟩⟩
    obtain ⟨n, hn⟩ := List.getElem?_of_mem hmem
    refine ⟨es ++ [e], is ++ [splits lat (splits Ls ms.length + y) + n], nxt, j, x', ?_, by simpa using n1, hj, he', hle, ?_, ?_, ?_, ?_⟩
    · rw [List.map_append, List.map_append, h1, List.map_singleton, List.map_singleton,
        flatten_get lat _ row r1 n (List.getElem?_eq_some_iff.1 hn).1, hn]
    · rw [List.map_append, chain_append]
      exact ⟨_, h6, by simp [hee]⟩
    · have : ∀ e : Arc S × Int × Int, score ((es ++ [e]).map Prod.fst) = score (es.map Prod.fst) + e.1.score := by
        intro e; simp [score]
      rw [this, h7, hee]
    · rw [List.map_append, List.map_append, h8, hee]; rfl
    · rw [List.map_append, List.map_append, h9, hee]; rfl

theorem beam_left (L : LatSetup cfg g net m part sts frs cur off cs lat Ls) (hS : cfg.maxStates ≤ 0)
    (hC : cfg.maxContexts ≤ 0) {ms : List (Move S)} {q : Nat} {s : S} (ha : Align g cfg.hist net ms q s) (hl : ms.length + 1 = m)
    {mv : Move S} (hm : mv.Can g q) (hb : OnBeam g cfg.hist net cfg.beam (ms ++ [mv])) {st : States S}
    (hst : sts[m - 1]? = some st) {x : Nat × S} (hx : x ∈ st.flatten) (hxe : x.1 = encode cfg g.length ms q) (hxs : s ≤ x.2) :
    ∃ j, Left cfg g (net (m - 1)) st cur x (history ms) q mv j := by
  have hml : ms.length = m - 1 := by omega
  obtain ⟨hk, x', hx', he', _⟩ := onBeam_step L.hg hS hC L.good ha hm hb (by rw [hml]; exact hst)
    (show (sts ++ [cur])[ms.length + 1]? = some cur by
      rw [List.getElem?_append_right (by rw [L.len]; omega)]
      simp [L.len, hl]) hx hxe hxs
  obtain ⟨j, hj⟩ := List.getElem?_of_mem hx'
  refine ⟨j, hm, hml ▸ hk, x'.2, ?_⟩
  rw [hj]
  refine congrArg some (Prod.ext ?_ rfl)
  rw [he', encode, history_snoc]

theorem stay (L : LatSetup cfg g net m part sts frs cur off cs lat Ls) : ∀ (es es' : List (Arc S × Int × Int)) (is is' : List Nat)
    (x : Nat), is.map (fun i => lat.flatten[i]?) = es.map some → is'.map (fun i => lat.flatten[i]?) = es'.map some →
    Chain x (es.map Prod.fst) (lat.length - 1) → Chain x (es'.map Prod.fst) (lat.length - 1) →
    es.map (fun e => e.2.1) = es'.map (fun e => e.2.1) → is.dropLast = is'.dropLast := by
  intro es
  induction es with
  | nil =>
    intro es' is is' x h1 h2 h3 h4 h5
    have : es' = [] := by simpa using h5.symm
    subst this
    simp only [List.map_nil, List.map_eq_nil_iff] at h1 h2
    rw [h1, h2]
  | cons e es ih =>
    intro es' is is' x h1 h2 h3 h4 h5
    cases es' with
    | nil => simp at h5
    | cons e' es' =>
      cases is with
      | nil => simp at h1
      | cons i is =>
        cases is' with
        | nil => simp at h2
        | cons i' is' =>
          simp only [List.map_cons, List.cons.injEq, chain_cons] at h1 h2 h3 h4 h5
          obtain ⟨r, n, p1, p2, p3⟩ := L.position h1.1
          obtain ⟨r', n', p1', p2', p3'⟩ := L.position h2.1
          rw [h3.1] at p1 p3
          rw [h4.1, p1, Option.some.injEq] at p1'
          subst p1'
          rw [h4.1] at p3'
          have hlen : is.length = es.length ∧ is'.length = es'.length ∧ es.length = es'.length := by
            have a1 := congrArg List.length h1.2
            have a2 := congrArg List.length h2.2
            have a3 := congrArg List.length h5.2
            simp only [List.length_map] at a1 a2 a3
            exact ⟨a1, a2, a3⟩
          -- the arc goes to the final state, and the path ends, or it is determined by its number
          obtain ⟨k, st, y, x', a1, a2, a3, ⟨_, a4, _⟩ | ⟨hk', nxt, c, ctx, a4, a5, a6, a7⟩⟩ := L.edge p1 (List.mem_of_getElem? p2)
          · have hend : es = [] := by
              cases es with
              | nil => rfl
              | cons e2 es2 =>
                exfalso
                simp only [List.map_cons, chain_cons] at h3
                cases is with
                | nil => simp at hlen
                | cons i2 is2 =>
                  simp only [List.map_cons, List.cons.injEq] at h1
                  obtain ⟨r2, n2, q1, q2, _⟩ := L.position h1.2.1
                  rw [h3.2.1, a4] at q1
                  rcases L.row _ r2 q1 with ⟨_, rfl⟩ | ⟨k2, st2, y2, x2, _, b1, b2, b3⟩
                  · simp at q2
                  · have := L.lt_size b1 b2
                    simp only at b3
                    omega
            subst hend
            have e1 : is = [] := List.length_eq_zero_iff.1 (by simpa using hlen.1)
            have e2 : is' = [] := List.length_eq_zero_iff.1 (by
              have := hlen.2.1; have := hlen.2.2; simp only [List.length_nil] at this; omega)
            rw [e1, e2]
            rfl
          · obtain ⟨w, q, hen⟩ := L.enc a1 a2
            obtain ⟨nxt', m1, m2⟩ := L.next hk'
            obtain ⟨row, c', ctx', r1, _, _, r4⟩ := L.desc.mid k st nxt' y x' a1 m2 hk' a2
            rw [← a3, p1, Option.some.injEq] at r1
            subst r1
            have hnd := (r4 w q hen).1
            have hnn : n = n' := by
              have g1 : (r.map (fun e => e.2.1))[n]? = some e.2.1 := by rw [List.getElem?_map, p2]; rfl
              have g2 : (r.map (fun e => e.2.1))[n']? = some e.2.1 := by rw [List.getElem?_map, p2', h5.1]; rfl
              have l1 := (List.getElem?_eq_some_iff.1 g1)
              have l2 := (List.getElem?_eq_some_iff.1 g2)
              exact (List.Nodup.getElem_inj_iff hnd).1 (l1.2.trans l2.2.symm)
            subst hnn
            rw [p2, Option.some.injEq] at p2'
            subst p2'
            have hii : i = i' := by rw [p3, p3']
            subst hii
            have := ih es' is is' _ h1.2 h2.2 h3.2 h4.2 h5.2
            cases is with
            | nil =>
              have : is' = [] := List.length_eq_zero_iff.1 (by
                have := hlen.1; have := hlen.2.1; have := hlen.2.2; simp only [List.length_nil] at *; omega)
              rw [this]
            | cons b is =>
              cases is' with
              | nil => 
                have := hlen.1; have := hlen.2.1; have := hlen.2.2; simp only [List.length_nil, List.length_cons] at *; omega
              | cons b' is' =>
                show i :: (b :: is).dropLast = i :: (b' :: is').dropLast
                rw [this]

theorem ok (L : LatSetup cfg g net m part sts frs cur off cs lat Ls) : LatticeOk cfg g net m part cs off lat := by
  have hlast : lat.length - 1 = splits Ls m := by rw [L.size]; omega
  obtain ⟨stl, hstl⟩ : ∃ st, sts[m - 1]? = some st :=
    ⟨_, List.getElem?_eq_getElem (show m - 1 < sts.length by have := L.len; have := L.hm; omega)⟩
  have hedge : ∀ (x : Nat) (row : List (Arc S × Int × Int)), lat[x]? = some row → ∀ a ∈ row,
      a.1.src = x ∧ a.1.src < a.1.dst ∧ a.1.dst < lat.length ∧ (a.1.label = -1 ↔ a.1.dst + 1 = lat.length) := by
    intro x row hrow a ha
    obtain ⟨k, st, y, x', a1, a2, a3, ⟨_, a4, _⟩ | ⟨hk', nxt, c, ctx, a4, a5, a6, a7⟩⟩ := L.edge hrow ha
    · have := L.lt_size a1 a2
      rw [a4]
      refine ⟨rfl, ?_, ?_, ?_⟩ <;> simp only [true_iff] <;> omega
    · obtain ⟨w, q, hen⟩ := L.enc a1 a2
      obtain ⟨mv, j, x'', c1, c2, c3, rfl⟩ := a7 _ _ hen
      have h1 := L.lt_size a4 c2
      obtain ⟨R, e1, e2⟩ := L.desc.layer k st a1
      have h2 := splits_succ Ls k R e1
      have h3 := (List.getElem?_eq_some_iff.1 a2).1
      refine ⟨rfl, ?_, ?_, ?_⟩
      · simp only; omega
      · simp only; omega
      · simp only
        constructor
        · intro h; omega
        · intro h; omega
  refine ⟨fun x row h a ha => (hedge x row h a ha).1, ?_, ?_, ?_, ?_, ?_⟩
  · intro a ha
    obtain ⟨row, hr, har⟩ := List.mem_flatten.1 ha
    obtain ⟨x, hx⟩ := List.getElem?_of_mem hr
    exact ⟨(hedge x row hx a har).2.1, (hedge x row hx a har).2.2.1⟩
  · intro a ha
    obtain ⟨row, hr, har⟩ := List.mem_flatten.1 ha
    obtain ⟨x, hx⟩ := List.getElem?_of_mem hr
    exact (hedge x row hx a har).2.2.2
  · intro is p ho
    obtain ⟨es, he1, rfl⟩ := path_els ho.arcs
    have hch := ho.chain
    rw [List.length_map] at hch
    rcases List.eq_nil_or_concat es with h0 | ⟨es', e, h0⟩
    · subst h0
      simp only [List.map_nil, chain_nil] at hch
      have h00 : sts[0]? = some [[(0, 0)]] := by
        have hl : 0 < sts.length := by have := L.len; have := L.hm; omega
        have := good_take L.good 0 sts[0] (by rw [List.getElem?_append_left hl, List.getElem?_eq_getElem hl])
        rw [List.getElem?_eq_getElem hl, good_zero this rfl]
      have := L.lt_size h00 (show ([[((0 : Nat), (0 : S))]] : States S).flatten[0]? = some (0, 0) from rfl)
      omega
    · rw [List.concat_eq_append] at h0
      subst h0
      rw [List.map_append, chain_append] at hch
      obtain ⟨s, hch1, hch2⟩ := hch
      simp only [List.map_cons, List.map_nil, chain_cons, chain_nil] at hch2
      obtain ⟨hsrc, hdst⟩ := hch2
      obtain ⟨is', i, rfl⟩ : ∃ is' i, is = is' ++ [i] := by
        rcases List.eq_nil_or_concat is with h0 | ⟨is', i, h0⟩
        · subst h0; simp at he1
        · exact ⟨is', i, by rw [h0]; simp⟩
      have he1' := he1
      rw [List.map_append, List.map_append] at he1
      obtain ⟨his1, his2⟩ := List.append_inj' he1 (by simp)
      simp only [List.map_cons, List.map_nil, List.cons.injEq, and_true] at his2
      obtain ⟨r, n, hr, hn, _⟩ := L.position his2
      rw [hsrc] at hr
      obtain ⟨k, st, y, x, a1, a2, a3, ⟨hk, a4, a5⟩ | ⟨hk', nxt, c, ctx, a4, a5, a6, a7⟩⟩ := L.edge hr (List.mem_of_getElem? hn)
      · have hk1 : k = m - 1 := by omega
        subst hk1
        rw [a3] at hch1
        obtain ⟨ms, q, b1, b2, b3, b4, b5, b6⟩ := L.prefix_sound es' is' (m - 1) st y x his1 a1 a2 hch1
        have hen : Enc cfg g.length x.1 (history ms) q := b3 ▸ align_enc L.hg b1
        obtain ⟨row, d1, d2, d3⟩ := L.desc.last st y x a1 a2
        rw [← a3, hr, Option.some.injEq] at d1
        subst d1
        obtain ⟨mv, j, hleft, hlab⟩ := (d3 _ _ hen).1 ⟨e, List.mem_of_getElem? hn⟩
        have hq := can_pos hleft.1
        have hsym := align_labels L.hg b1 hq
        refine ⟨ms, q, _, mv, b1, by omega, hleft.1, ?_, ?_, ?_, ?_, ?_⟩
        · rcases hlab with h0 | ⟨h0, h1⟩
          · exact Or.inl h0
          · refine Or.inr ⟨h0, ?_⟩
            intro hS hC ms' q' s' mv' ha' hl' hcan' hb'
            have hb1 : OnBeam g cfg.hist net cfg.beam ms' := by
              intro ms1 m1 ms2 he
              exact hb' ms1 m1 (ms2 ++ [mv']) (by rw [he]; simp)
            obtain ⟨st', hst', x', hx', hxe', hxs'⟩ := onBeam_active L.hg hS hC L.good ha' (by rw [L.len]; omega) hb1
            rw [show ms'.length = m - 1 by omega, List.getElem?_append_left (by rw [L.len]; omega), a1, Option.some.injEq] at hst'
            subst hst'
            obtain ⟨j', hl⟩ := L.beam_left hS hC ha' hl' hcan' hb' a1 hx' hxe' hxs'
            exact h1 x' hx' (history ms') q' (hxe' ▸ align_enc L.hg ha') mv' j' hl
        · simp only [labels, List.map_append, List.map_map, List.map_cons, List.map_nil]
          rw [a4]
          congr 1
          rw [show (Arc.label ∘ Prod.fst : Arc S × Int × Int → Int) = (fun e => e.1.label) from rfl, b4]
          exact List.map_congr_left hsym
        · simp [score, a4]
        · rw [(els_path he1').2, List.map_append]
          congr 1
          · have := congrArg (List.map some) b5
            simpa [Function.comp_def] using this
          · simp [a5]
        · intro off' ho u mv' hu
          obtain ⟨kk, cc, d1, d2, d3⟩ := b6 off' ho u mv' hu
          refine ⟨kk, cc, ?_, d2, d3⟩
          rw [List.getElem?_append_left (List.getElem?_eq_some_iff.1 d1).1]
          exact d1
      · obtain ⟨w, q, hen⟩ := L.enc a1 a2
        obtain ⟨mv, j, x'', c1, c2, c3, c4⟩ := a7 _ _ hen
        have := L.lt_size a4 c2
        rw [c4] at hdst
        simp only at hdst
        omega
  · intro is p is' p' ho ho' hids
    obtain ⟨es, he1, rfl⟩ := path_els ho.arcs
    obtain ⟨es', he1', rfl⟩ := path_els ho'.arcs
    have hch := ho.chain
    have hch' := ho'.chain
    rw [List.length_map] at hch hch'
    rw [(els_path he1).2, (els_path he1').2] at hids
    refine L.stay es es' is is' 0 he1 he1' hch hch' ?_
    have := congrArg (List.map (fun o : Option Int => o.getD 0)) hids
    simpa [Function.comp_def] using this
  · intro hS hC ms q s mv ha hcan hl hb hor
    have hb1 : OnBeam g cfg.hist net cfg.beam ms := by
      intro ms1 m1 ms2 he
      exact hb ms1 m1 (ms2 ++ [mv]) (by rw [he]; simp)
    obtain ⟨es, is, st, y, x, h1, h2, h3, h4, h5, h6, h7, h8, h9⟩ := L.prefix_complete hS hC ha (by omega) hb1
    have hml : ms.length = m - 1 := by omega
    rw [hml] at h2 h6
    have hen : Enc cfg g.length x.1 (history ms) q := h4 ▸ align_enc L.hg ha
    obtain ⟨j, hleft⟩ := L.beam_left hS hC ha hl hcan hb h2 (List.mem_of_getElem? h3) h4 h5
    obtain ⟨row, d1, d2, d3⟩ := L.desc.last st y x h2 h3
    obtain ⟨e, he⟩ := (d3 _ _ hen).2 ⟨mv, j, hleft, by
      rcases hor with h0 | ⟨h0, h1⟩
      · exact Or.inl h0
      · refine Or.inr ⟨h0, ?_⟩
        intro x' hx' w' q' hen' mv' j' hl'
        obtain ⟨ms'', q'', ha'', hl'', he''⟩ := reach_good L.hg (good_take L.good (m - 1) st (by
          rw [List.getElem?_append_left (by rw [L.len]; omega)]; exact h2)) x' hx'
        rw [List.length_take, L.len, Nat.min_eq_left (by omega)] at hl''
        have hqq : q' = q'' := by
          have e1 := enc_mod cfg.vocab cfg.hist g.length w' q' hen'.2.1
          have e2 := enc_mod cfg.vocab cfg.hist g.length (history ms'') q'' (align_ok L.hg ha'').1
          rw [← hen'.2.2] at e1
          rw [show cval cfg.vocab (lastSyms cfg.hist (history ms'')) * g.length + q'' = x'.1 from he''.symm] at e2
          omega
        subst hqq
        exact h1 ms'' q' _ mv' ha'' (by omega) hl'.1⟩
    obtain ⟨n, hn⟩ := List.getElem?_of_mem he
    obtain ⟨f1, f2⟩ := d2 e he
    have hels : (is ++ [splits lat (splits Ls (m - 1) + y) + n]).map (fun i => lat.flatten[i]?) = (es ++ [e]).map some := by
      rw [List.map_append, List.map_append, h1, List.map_singleton, List.map_singleton,
        flatten_get lat _ row d1 n (List.getElem?_eq_some_iff.1 hn).1, hn]
    have hsym := align_labels L.hg ha (can_pos hcan)
    refine ⟨is ++ [splits lat (splits Ls (m - 1) + y) + n], (es ++ [e]).map Prod.fst, ⟨?_, ?_, (els_path hels).1⟩, ?_, ?_, ?_⟩
    · rw [List.length_map, L.size]; omega
    · rw [List.length_map, List.map_append, chain_append]
      refine ⟨_, h6, ?_⟩
      simp [f1]
    · simp only [labels, List.map_append, List.map_map, List.map_cons, List.map_nil]
      rw [f1]
      congr 1
      rw [show (Arc.label ∘ Prod.fst : Arc S × Int × Int → Int) = (fun e => e.1.label) from rfl, h8]
      exact List.map_congr_left hsym
    · have : score ((es ++ [e]).map Prod.fst) = score (es.map Prod.fst) + e.1.score := by simp [score]
      rw [this, h7, f1]
      simp
    · rw [(els_path hels).2, List.map_append]
      congr 1
      · have := congrArg (List.map some) h9
        simpa [Function.comp_def] using this
      · simp [f2]

end LatSetup

end

end Verif.Rnnt.Dec
