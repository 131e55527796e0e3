import Verif.Rnnt.Decode.Rows

/-! The arcs of the lattice are the moves that are left. -/

namespace Verif.Rnnt.Dec
open Verif.Fsa Verif.Util

section
variable {K : Type} [Field K] [LinearOrder K] [IsStrictOrderedRing K]

local notation "S" => WithBot K

/-- The second arc map. -/
def tokOf (off : Option (Nat → Nat)) (vocab k c sym : Nat) : Int :=
  match off with
  | none => 0
  | some off => ((off k + c : Nat) : Int) * vocab + sym

/-- The arc comes from a move. -/
def AiOk (g : Graph S) (ai : Ai S) : Prop :=
  -1 ≤ ai.label ∧ ((ai.arc = -1 ∧ ai.label = 0) ∨ ∃ (j : Nat) (a : Arc S), ai.arc = j ∧ g.flatten[j]? = some a ∧ a.label = ai.label)

omit [LinearOrder K] [IsStrictOrderedRing K] in
theorem aiOk_of {g : Graph S} {V : Nat} (hg : GraphOk g V) {q : Nat} {m : Move S} (hm : m.Can g q) (s : S) (k : Nat) :
    AiOk g ⟨m.id, s, m.label, k⟩ := by
  cases m with
  | blank => exact ⟨by simp [Move.label], Or.inl ⟨rfl, rfl⟩⟩
  | arc j a =>
    obtain ⟨_, _, hj⟩ := hm
    exact ⟨(hg.label a (List.mem_of_getElem? hj)).1, Or.inr ⟨j, a, rfl, hj, rfl⟩⟩

theorem tokenMap_eq {vocab : Nat} {sz : List (List Nat)} {i u c : Nat} (h : i < (sz.getD u []).length) (l : Int) :
    tokenMap vocab sz i u c l = some (if l = -1 then -1 else ((offOf sz i u + c : Nat) : Int) * vocab + l) := by
  unfold tokenMap
  cases hu : sz[u]? with
  | none => simp [List.getD_eq_getElem?_getD, hu] at h
  | some row =>
    simp only [List.getD_eq_getElem?_getD, hu, Option.getD_some] at h
    simp only [Option.bind_eq_bind, Option.bind_some, List.getElem?_eq_getElem h]
    simp [offOf, List.getD_eq_getElem?_getD, hu]

omit [LinearOrder K] [IsStrictOrderedRing K] in
theorem outEl_mid {cfg : Cfg K} {sizes : Option (List (List Nat))} {g : Graph S} {i T t u src next c : Nat} {ai : Ai S}
    (hT : t + 1 ≠ T) (hz : ∀ sz, sizes = some sz → i < (sz.getD u []).length) (hai : AiOk g ai) :
    outEl cfg sizes g i T t u src next c ai =
      some (⟨src, next + ai.dst, (ai.label.toNat : Nat), ai.score⟩, ai.arc,
        tokOf (sizes.map (fun sz => offOf sz i)) cfg.vocab u c ai.label.toNat) := by
  have harc : outArc g T t src next ai = some (⟨src, next + ai.dst, (ai.label.toNat : Nat), ai.score⟩, ai.arc) := by
    unfold outArc
    rw [if_neg hT]
    obtain ⟨hl, h | ⟨j, a, h1, h2, h3⟩⟩ := hai
    · rw [if_pos (Or.inl h.1), h.2]; rfl
    · by_cases hm : ai.label = -1
      · rw [if_pos (Or.inr hm), hm]; rfl
      · rw [if_neg (by omega), h1]
        simp [h2, h3]
        omega
  unfold outEl
  rw [harc]
  simp only [Option.bind_eq_bind, Option.bind_some]
  cases sizes with
  | none => rfl
  | some sz =>
    simp only [tokenMap_eq (hz sz rfl), Option.bind_some, Option.map_some, tokOf]
    rw [if_neg (by omega)]

omit [LinearOrder K] [IsStrictOrderedRing K] in
theorem outEl_last {cfg : Cfg K} {sizes : Option (List (List Nat))} {g : Graph S} {i T t u src next c : Nat} {ai : Ai S}
    (hT : t + 1 = T) (hz : ∀ sz, sizes = some sz → i < (sz.getD u []).length) :
    ∃ b, outEl cfg sizes g i T t u src next c ai = some (⟨src, next, -1, 0⟩, -1, b) := by
  have harc : outArc g T t src next ai = some (⟨src, next, -1, 0⟩, -1) := by
    unfold outArc
    rw [if_pos hT]
  unfold outEl
  rw [harc]
  simp only [Option.bind_eq_bind, Option.bind_some]
  cases sizes with
  | none => exact ⟨_, rfl⟩
  | some sz =>
    simp only [tokenMap_eq (hz sz rfl), Option.bind_some]
    exact ⟨_, rfl⟩

/-- The state is a context and a state of the graph. -/
def Enc (cfg : Cfg K) (n : Nat) (v : Nat) (w : List Nat) (q : Nat) : Prop :=
  (∀ d ∈ w, d < cfg.vocab) ∧ q < n ∧ v = cval cfg.vocab (lastSyms cfg.hist w) * n + q

/-- The move `mv` from the state `x` of `st` is left: it is kept, and leads to state `j` of `nxt`. -/
def Left (cfg : Cfg K) (g : Graph S) (net : List Nat → Nat → S) (st nxt : States S) (x : Nat × S) (w : List Nat)
    (q : Nat) (mv : Move S) (j : Nat) : Prop :=
  mv.Can g q ∧ Kept cfg.beam net (lastSyms cfg.hist w) (maxOf (st.flatten.map Prod.snd)) x.2 mv ∧
    ∃ s', nxt.flatten[j]? = some (cval cfg.vocab (lastSyms cfg.hist (w ++ mv.emits)) * g.length + mv.next q, s')

/-- The lattice in terms of moves; `Ls` are the rows of each frame. -/
structure LatDesc (cfg : Cfg K) (g : Graph S) (net : Nat → List Nat → Nat → S) (m : Nat) (part : Bool)
    (sts : List (States S)) (cur : States S) (off : Option (Nat → Nat)) (lat : List (List (Arc S × Int × Int)))
    (Ls : List (List (List (Arc S × Int × Int)))) : Prop where
  eq : lat = Ls.flatten ++ [[]]
  len : Ls.length = m
  layer : ∀ (k : Nat) (st : States S), sts[k]? = some st → ∃ L, Ls[k]? = some L ∧ L.length = st.flatten.length
  mid : ∀ (k : Nat) (st nxt : States S) (y : Nat) (x : Nat × S), sts[k]? = some st → (sts ++ [cur])[k + 1]? = some nxt →
    k + 1 < m → st.flatten[y]? = some x → ∃ (row : List (Arc S × Int × Int)) (c : Nat) (ctx : List (Nat × S)),
      lat[splits Ls k + y]? = some row ∧ st[c]? = some ctx ∧
      x ∈ ctx ∧ ∀ w q, Enc cfg g.length x.1 w q → (row.map (fun e => e.2.1)).Nodup ∧
        ∀ e, e ∈ row ↔ ∃ mv j, Left cfg g (net k) st nxt x w q mv j ∧
          e = (⟨splits Ls k + y, splits Ls (k + 1) + j, (mv.symbol : Nat),
            mv.graphScore + net k (lastSyms cfg.hist w) mv.symbol⟩, mv.id, tokOf off cfg.vocab k c mv.symbol)
  last : ∀ (st : States S) (y : Nat) (x : Nat × S), sts[m - 1]? = some st → st.flatten[y]? = some x →
    ∃ row : List (Arc S × Int × Int), lat[splits Ls (m - 1) + y]? = some row ∧
      (∀ e ∈ row, e.1 = ⟨splits Ls (m - 1) + y, lat.length - 1, -1, 0⟩ ∧ e.2.1 = -1) ∧
      ∀ w q, Enc cfg g.length x.1 w q → ((∃ e, e ∈ row) ↔ ∃ mv j, Left cfg g (net (m - 1)) st cur x w q mv j ∧
        (mv.label = -1 ∨ (part = true ∧ ∀ x' ∈ st.flatten, ∀ w' q', Enc cfg g.length x'.1 w' q' → ∀ mv' j',
          Left cfg g (net (m - 1)) st cur x' w' q' mv' j' → mv'.label ≠ -1)))

omit [Field K] [LinearOrder K] [IsStrictOrderedRing K] in
theorem splits_map_map {α β : Type} (L : List (List α)) (R : α → β) (c : Nat) : splits (L.map (List.map R)) c = splits L c := by
  induction L generalizing c with
  | nil => simp [splits]
  | cons r L ih =>
    cases c with
    | zero => simp
    | succ c => rw [List.map_cons, splits_cons_succ, splits_cons_succ, ih, List.length_map]

omit [Field K] [LinearOrder K] [IsStrictOrderedRing K] in
theorem mapM_row {α β : Type} {l : List α} {f : α → Option β} {h : α → β} {row : List β}
    (hf : ∀ a ∈ l, f a = some (h a)) (hr : l.mapM f = some row) : row = l.map h := by
  rw [mapM_eq_map hf] at hr
  exact (Option.some.inj hr).symm

variable {cfg : Cfg K} {g : Graph (WithBot K)} {net : Nat → List Nat → Nat → WithBot K}

/-- The arcs of a frame. -/
theorem frame_left (hg : GraphOk g cfg.vocab) {sts : List (States S)} {frs : List (Frame S)} {cur : States S}
    (h : Good cfg g net sts frs cur) (k : Nat) (st nxt : States S) (fr : Frame S) (h1 : sts[k]? = some st)
    (h2 : (sts ++ [cur])[k + 1]? = some nxt) (h3 : frs[k]? = some fr) :
    (∀ x ∈ st.flatten, ∃ w q, Enc cfg g.length x.1 w q) ∧
    ∃ R : Nat × S → List (Ai S), fr = st.map (List.map R) ∧ ∀ x ∈ st.flatten,
      (∀ ai ∈ R x, AiOk g ai) ∧ ∀ w q, Enc cfg g.length x.1 w q → ((R x).map Ai.arc).Nodup ∧
        ∀ ai, ai ∈ R x ↔ ∃ mv j, Left cfg g (net k) st nxt x w q mv j ∧
          ai = ⟨mv.id, mv.graphScore + net k (lastSyms cfg.hist w) mv.symbol, mv.label, j⟩ := by
  have hk : k < sts.length := (List.getElem?_eq_some_iff.1 h1).1
  obtain ⟨st', nxt', fr', nested, e1, e2, e3, hp, hs⟩ := good_frame h k hk
  rw [h1, Option.some.injEq] at e1
  rw [h2, Option.some.injEq] at e2
  rw [h3, Option.some.injEq] at e3
  subst e1 e2 e3
  have hcur := curOk_good hg (good_take h k st (by rw [List.getElem?_append_left hk]; exact h1))
  refine ⟨fun x hx => hcur.enc x hx, ?_⟩
  obtain ⟨R, hR1, hR2⟩ := step_arcs hp hs
  have hmain : ∀ x ∈ st.flatten, ∀ w q, Enc cfg g.length x.1 w q → ((R x).map Ai.arc).Nodup ∧
        ∀ ai, ai ∈ R x ↔ ∃ mv j, Left cfg g (net k) st nxt x w q mv j ∧
          ai = ⟨mv.id, mv.graphScore + net k (lastSyms cfg.hist w) mv.symbol, mv.label, j⟩ := by
    intro x hx w q he
    obtain ⟨h4, h5⟩ := hR2 x hx w q he.1 he.2.1 he.2.2
    refine ⟨h4, ?_⟩
    intro ai
    rw [h5]
    constructor
    · rintro ⟨mv, j, s', a1, a2, a3, a4⟩
      exact ⟨mv, j, ⟨a1, a2, s', a4⟩, a3⟩
    · rintro ⟨mv, j, ⟨a1, a2, s', a4⟩, a3⟩
      exact ⟨mv, j, s', a1, a2, a3, a4⟩
  refine ⟨R, hR1, ?_⟩
  intro x hx
  refine ⟨?_, hmain x hx⟩
  intro ai hai
  obtain ⟨w, q, he⟩ := hcur.enc x hx
  obtain ⟨mv, j, hl, rfl⟩ := ((hmain x hx w q he).2 ai).1 hai
  exact aiOk_of hg hl.1 _ _

/-- The frames that are put out. -/
def lastFrames (part : Bool) (m : Nat) (frs : List (Frame S)) : List (Frame S) :=
  frs.take (m - 1) ++ (frs.drop (m - 1)).map (finalArcs part)

omit [Field K] [LinearOrder K] [IsStrictOrderedRing K] in
theorem lastFrames_mid (part : Bool) (m : Nat) (frs : List (Frame S)) (k : Nat) (h : k + 1 < m) (hl : frs.length = m) :
    (lastFrames part m frs)[k]? = frs[k]? := by
  unfold lastFrames
  rw [List.getElem?_append_left (by rw [List.length_take]; omega), List.getElem?_take, if_pos (by omega)]

omit [Field K] [LinearOrder K] [IsStrictOrderedRing K] in
theorem lastFrames_last (part : Bool) (m : Nat) (frs : List (Frame S)) (h : 1 ≤ m) (hl : frs.length = m) :
    (lastFrames part m frs)[m - 1]? = frs[m - 1]?.map (finalArcs part) := by
  unfold lastFrames
  rw [List.getElem?_append_right (by rw [List.length_take]; omega), List.length_take, Nat.min_eq_left (by omega),
    Nat.sub_self, List.getElem?_map, List.getElem?_drop, Nat.add_zero]

omit [Field K] [LinearOrder K] [IsStrictOrderedRing K] in
theorem lastFrames_length (part : Bool) (m : Nat) (frs : List (Frame S)) (h : 1 ≤ m) (hl : frs.length = m) :
    (lastFrames part m frs).length = m := by
  unfold lastFrames
  simp only [List.length_append, List.length_take, List.length_map, List.length_drop]
  omega

omit [Field K] [LinearOrder K] [IsStrictOrderedRing K] in
theorem finalArcs_eq (part : Bool) (st : States S) (R : Nat × S → List (Ai S)) :
    finalArcs part (st.map (List.map R)) = st.map (List.map (fun x => (R x).filter (fun a => decide (a.label = -1) ||
      (part && !(st.map (List.map R)).flatten.flatten.any (fun a => a.label = -1))))) := by
  unfold finalArcs
  simp [Function.comp_def]

theorem latDesc (hg : GraphOk g cfg.vocab) {sts : List (States S)} {frs : List (Frame S)} {cur : States S}
    (h : Good cfg g net sts frs cur) (m : Nat) (hm : 1 ≤ m) (hlen : sts.length = m) (part : Bool)
    (sizes : Option (List (List Nat))) (i T : Nat) (hsz : SizesOk sizes i m) (hT : m ≤ T) :
    (∃ lat, outFrames cfg sizes g i T (T - m) (T - m) 0 (lastFrames part m frs) = some lat) ∧
    ∀ lat, outFrames cfg sizes g i T (T - m) (T - m) 0 (lastFrames part m frs) = some lat →
      ∃ Ls, LatDesc cfg g net m part sts cur (sizes.map (fun sz => offOf sz i)) lat Ls := by
  have hlen2 : frs.length = m := by rw [← good_length h, hlen]
  have hu : ∀ k, T - m + k - (T - m) = k := by intro k; omega
  -- the frames
  have hfr : ∀ k, k < m → ∃ st nxt fr, sts[k]? = some st ∧ (sts ++ [cur])[k + 1]? = some nxt ∧ frs[k]? = some fr := by
    intro k hk
    obtain ⟨st, nxt, fr, _, e1, e2, e3, _⟩ := good_frame h k (by omega)
    exact ⟨st, nxt, fr, e1, e2, e3⟩
  refine ⟨?_, ?_⟩
  · apply outFrames_exists
    intro k f hf src' next c ai hai
    rw [hu]
    have hk : k < m := by
      have := (List.getElem?_eq_some_iff.1 hf).1
      rwa [lastFrames_length part m frs hm hlen2] at this
    have hzk : ∀ sz, sizes = some sz → i < (sz.getD k []).length := fun sz hs => hsz sz hs k hk
    by_cases hkm : k + 1 = m
    · obtain ⟨b, hb⟩ := outEl_last (cfg := cfg) (sizes := sizes) (g := g) (i := i) (T := T) (t := T - m + k) (u := k) (src := src')
        (next := next) (c := c) (ai := ai) (by omega) hzk
      rw [hb]; rfl
    · rw [lastFrames_mid part m frs k (by omega) hlen2] at hf
      obtain ⟨st, nxt, fr, e1, e2, e3⟩ := hfr k hk
      rw [hf, Option.some.injEq] at e3
      subst e3
      obtain ⟨_, R, rfl, hR⟩ := frame_left hg h k st nxt f e1 e2 hf
      obtain ⟨x, hx, hxa⟩ : ∃ x ∈ st.flatten, ai ∈ R x := by
        rw [← List.map_flatten] at hai
        obtain ⟨l, hl, hp⟩ := List.mem_flatten.1 hai
        obtain ⟨x, hx, rfl⟩ := List.mem_map.1 hl
        exact ⟨x, hx, hp⟩
      rw [outEl_mid (by omega) hzk ((hR x hx).1 ai hxa)]
      rfl
  · intro lat hlat
    obtain ⟨Ls, heq, hLl, hLs⟩ := outFrames_get hlat
    rw [lastFrames_length part m frs hm hlen2] at hLl
    simp only [hu, Nat.zero_add] at hLs
    -- rows of a frame
    have hpos : ∀ k L y row, Ls[k]? = some L → L[y]? = some row → lat[splits Ls k + y]? = some row := by
      intro k L y row hL hy
      have hyl := (List.getElem?_eq_some_iff.1 hy).1
      have := flatten_get Ls k L hL y hyl
      rw [hy] at this
      rw [heq, List.getElem?_append_left (List.getElem?_eq_some_iff.1 this).1]
      exact this
    refine ⟨Ls, heq, hLl, ?_, ?_, ?_⟩
    · intro k st hst
      have hk : k < m := by rw [← hlen]; exact (List.getElem?_eq_some_iff.1 hst).1
      obtain ⟨st', nxt, fr, e1, e2, e3⟩ := hfr k hk
      rw [hst, Option.some.injEq] at e1
      subst e1
      obtain ⟨_, R, hRf, hR⟩ := frame_left hg h k st nxt fr hst e2 e3
      by_cases hkm : k + 1 = m
      · obtain ⟨L, a1, a2, _⟩ := hLs k (finalArcs part fr) (by
          rw [show k = m - 1 by omega, lastFrames_last part m frs hm hlen2, show m - 1 = k by omega, e3]; rfl)
        refine ⟨L, a1, ?_⟩
        rw [a2, hRf, finalArcs_eq, ← List.map_flatten, List.length_map]
      · obtain ⟨L, a1, a2, _⟩ := hLs k fr (by rw [lastFrames_mid part m frs k (by omega) hlen2, e3])
        refine ⟨L, a1, ?_⟩
        rw [a2, hRf, ← List.map_flatten, List.length_map]
    · intro k st nxt y x hst hnxt hkm hy
      obtain ⟨_, _, fr, _, _, e3⟩ := hfr k (by omega)
      obtain ⟨hEnc, R, hRf, hR⟩ := frame_left hg h k st nxt fr hst hnxt e3
      obtain ⟨L, a1, a2, a3⟩ := hLs k fr (by rw [lastFrames_mid part m frs k (by omega) hlen2, e3])
      have hyl := (List.getElem?_eq_some_iff.1 hy).1
      obtain ⟨c, ctx, j, hc, hj, rfl⟩ := flatten_pos st y hyl
      rw [flatten_get st c ctx hc j hj] at hy
      have hxc : x ∈ ctx := List.mem_of_getElem? hy
      have hxs : x ∈ st.flatten := List.mem_flatten.2 ⟨ctx, List.mem_of_getElem? hc, hxc⟩
      obtain ⟨row, b1, b2⟩ := a3 c (ctx.map R) j (R x) (by rw [hRf, List.getElem?_map, hc]; rfl)
        (by rw [List.getElem?_map, hy]; rfl)
      rw [hRf, splits_map_map] at b1 b2
      have hzk : ∀ sz, sizes = some sz → i < (sz.getD k []).length := fun sz hs => hsz sz hs k (by omega)
      have hrow := mapM_row (h := fun ai : Ai S => ((⟨splits Ls k + (splits st c + j), splits Ls (k + 1) + ai.dst,
          (ai.label.toNat : Nat), ai.score⟩ : Arc S), ai.arc,
          tokOf (sizes.map (fun sz => offOf sz i)) cfg.vocab k c ai.label.toNat))
        (fun ai hai => outEl_mid (by omega) hzk ((hR x hxs).1 ai hai)) b2
      refine ⟨row, c, ctx, hpos k L _ row a1 b1, hc, hxc, ?_⟩
      intro w q he
      obtain ⟨d1, d2⟩ := (hR x hxs).2 w q he
      refine ⟨?_, ?_⟩
      · rw [hrow, List.map_map]
        exact d1
      · intro e
        rw [hrow, List.mem_map]
        constructor
        · rintro ⟨ai, hai, rfl⟩
          obtain ⟨mv, j', hl, rfl⟩ := (d2 ai).1 hai
          exact ⟨mv, j', hl, rfl⟩
        · rintro ⟨mv, j', hl, rfl⟩
          exact ⟨_, (d2 _).2 ⟨mv, j', hl, rfl⟩, rfl⟩
    · intro st y x hst hy
      obtain ⟨st', nxt, fr, e1, e2, e3⟩ := hfr (m - 1) (by omega)
      rw [hst, Option.some.injEq] at e1
      subst e1
      have hnc : nxt = cur := by
        rw [show m - 1 + 1 = sts.length by omega] at e2
        simpa using e2.symm
      subst hnc
      obtain ⟨hEnc, R, hRf, hR⟩ := frame_left hg h (m - 1) st nxt fr hst e2 e3
      obtain ⟨L, a1, a2, a3⟩ := hLs (m - 1) (finalArcs part fr) (by rw [lastFrames_last part m frs hm hlen2, e3]; rfl)
      rw [hRf, finalArcs_eq] at a3
      set P : Ai S → Bool := fun a => decide (a.label = -1) ||
        (part && !(st.map (List.map R)).flatten.flatten.any (fun a => a.label = -1)) with hP
      have hyl := (List.getElem?_eq_some_iff.1 hy).1
      obtain ⟨c, ctx, j, hc, hj, rfl⟩ := flatten_pos st y hyl
      rw [flatten_get st c ctx hc j hj] at hy
      have hxc : x ∈ ctx := List.mem_of_getElem? hy
      have hxs : x ∈ st.flatten := List.mem_flatten.2 ⟨ctx, List.mem_of_getElem? hc, hxc⟩
      obtain ⟨row, b1, b2⟩ := a3 c (ctx.map (fun x => (R x).filter P)) j ((R x).filter P) (by rw [List.getElem?_map, hc]; rfl)
        (by rw [List.getElem?_map, hy]; rfl)
      rw [splits_map_map] at b1 b2
      have hzk : ∀ sz, sizes = some sz → i < (sz.getD (m - 1) []).length := fun sz hs => hsz sz hs (m - 1) (by omega)
      have hlast : splits Ls (m - 1 + 1) = lat.length - 1 := by
        rw [show m - 1 + 1 = Ls.length by omega, splits_length, heq]
        simp only [List.length_append, List.length_singleton]
        omega
      obtain ⟨hml, hmg⟩ := mapM_get b2
      refine ⟨row, hpos (m - 1) L _ row a1 b1, ?_, ?_⟩
      · intro e he
        obtain ⟨n, hn⟩ := List.getElem?_of_mem he
        have hnl : n < ((R x).filter P).length := by
          rw [← hml]; exact (List.getElem?_eq_some_iff.1 hn).1
        have := hmg n _ (List.getElem?_eq_getElem hnl)
        obtain ⟨b, hb⟩ := outEl_last (cfg := cfg) (sizes := sizes) (g := g) (i := i) (T := T) (t := T - m + (m - 1)) (u := m - 1)
          (src := splits Ls (m - 1) + (splits st c + j)) (next := splits Ls (m - 1 + 1)) (c := c)
          (ai := ((R x).filter P)[n]) (by omega) hzk
        rw [hb, hn, Option.some.injEq] at this
        rw [this]
        exact ⟨by rw [hlast], rfl⟩
      · intro w q he
        obtain ⟨d1, d2⟩ := (hR x hxs).2 w q he
        have hany : ((st.map (List.map R)).flatten.flatten.any (fun a => a.label = -1) = false) ↔
            ∀ x' ∈ st.flatten, ∀ w' q', Enc cfg g.length x'.1 w' q' → ∀ mv' j',
              Left cfg g (net (m - 1)) st nxt x' w' q' mv' j' → mv'.label ≠ -1 := by
          rw [List.any_eq_false]
          constructor
          · intro hh x' hx' w' q' he' mv' j' hl' hlab
            have hai := (((hR x' hx').2 w' q' he').2 _).2 ⟨mv', j', hl', rfl⟩
            have := hh _ (by
              rw [← List.map_flatten]
              exact List.mem_flatten.2 ⟨R x', List.mem_map.2 ⟨x', hx', rfl⟩, hai⟩)
            simp [hlab] at this
          · intro hh ai hai
            rw [← List.map_flatten] at hai
            obtain ⟨l, hl, hp⟩ := List.mem_flatten.1 hai
            obtain ⟨x', hx', rfl⟩ := List.mem_map.1 hl
            obtain ⟨w', q', he'⟩ := hEnc x' hx'
            obtain ⟨mv', j', hl', rfl⟩ := (((hR x' hx').2 w' q' he').2 ai).1 hp
            simpa using hh x' hx' w' q' he' mv' j' hl'
        constructor
        · rintro ⟨e, hee⟩
          have hne : (R x).filter P ≠ [] := by
            intro h0
            rw [h0] at hml
            have := List.length_pos_of_mem hee
            simp at hml
            rw [hml] at this
            simp at this
          obtain ⟨ai, hai⟩ := List.exists_mem_of_ne_nil _ hne
          obtain ⟨hai1, hai2⟩ := List.mem_filter.1 hai
          obtain ⟨mv, j', hl, rfl⟩ := (d2 ai).1 hai1
          refine ⟨mv, j', hl, ?_⟩
          rw [hP] at hai2
          simp only [Bool.or_eq_true, decide_eq_true_eq, Bool.and_eq_true, Bool.not_eq_true'] at hai2
          rcases hai2 with h0 | ⟨h0, h1⟩
          · exact Or.inl h0
          · exact Or.inr ⟨h0, hany.1 h1⟩
        · rintro ⟨mv, j', hl, hor⟩
          have hai1 := (d2 _).2 ⟨mv, j', hl, rfl⟩
          have hmem := List.mem_filter.2 ⟨hai1, show P _ = true by
            rw [hP]
            simp only [Bool.or_eq_true, decide_eq_true_eq, Bool.and_eq_true, Bool.not_eq_true']
            rcases hor with h0 | ⟨h0, h1⟩
            · exact Or.inl h0
            · exact Or.inr ⟨h0, hany.2 h1⟩⟩
          have hpl : 0 < row.length := by rw [hml]; exact List.length_pos_of_mem hmem
          exact ⟨row[0], List.getElem_mem hpl⟩

end

end Verif.Rnnt.Dec
