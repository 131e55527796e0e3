import Mathlib.Data.List.Range
import Verif.Fsa.Det.Norm

/-!
# The main loop of the determinizer
-/

namespace Verif.Fsa.Det
variable {W : Type} [AddCommGroup W] [LinearOrder W]

/-- A key that can occur: the base can be reached and the symbols can be read from it. -/
def KeyOk (f : Fsa W) (k : Key) : Prop :=
  (∃ r, Path f.arcs 0 r k.2) ∧ ∃ t p, Path f.arcs k.2 p t ∧ labels p = k.1

/-- No two keys that can occur have the same 128-bit code. -/
def NoCollision (f : Fsa W) : Prop := ∀ k k', KeyOk f k → KeyOk f k' → ckey k = ckey k' → k = k'

/-- How the score of an output arc relates to the score `w` of the arcs it stands for. -/
def ScoreOk (f : Fsa W) (op : Option (W → W → W)) (k k' : Key) (w s : W) : Prop :=
  match op with
  | none => s = w
  | some op => ∃ v v', PushVal f op k v ∧ PushVal f op k' v' ∧ s = w + v' - v

/-- An output arc. -/
def ArcOk (f : Fsa W) (op : Option (W → W → W)) (keys : List Key) (x : Arc W × List Nat) : Prop :=
  ∃ k k' w, keys[x.1.src]? = some k ∧ keys[x.1.dst]? = some k' ∧ KStep f k k' x.1.label x.2 w ∧
    ScoreOk f op k k' w x.1.score ∧ (x.1.label = -1 → k' = ([], f.final))

/-- The normalizer of a `DetState`. -/
def NormOk (f : Fsa W) (op : Option (W → W → W)) (k : Key) (v : W) : Prop :=
  match op with
  | none => True
  | some op => PushVal f op k v

/-- A `DetState` in the queue. -/
def DOk (f : Fsa W) (op : Option (W → W → W)) (keys : List Key) (d : DState W) : Prop :=
  ∃ x b, Good f x d.els d.seqLen b ∧ keys[d.id]? = some (rest x d.seqLen, b.state) ∧
    NormOk f op (rest x d.seqLen, b.state) (d.norm - b.fwd)

/-- State `i` has an arc for every symbol that can be read. -/
def Complete (f : Fsa W) (keys : List Key) (arcs : List (Arc W × List Nat)) (i : Nat) : Prop :=
  ∀ k, keys[i]? = some k → ∀ p u, Path f.arcs k.2 p u → labels p = k.1 → ∀ a ∈ f.arcs, a.src = u →
    ∃ x ∈ arcs, x.1.src = i ∧ x.1.label = a.label

/-- What holds of the variables of `GetSizes`; `proc` are the states taken from the queue so far. -/
structure Core (f : Fsa W) (op : Option (W → W → W)) (st : St W) (keys : List Key)
    (proc : List Nat) : Prop where
  map_eq : st.map = keys.map ckey
  keyOk : ∀ k ∈ keys, KeyOk f k
  nodup : keys.Nodup
  start : keys[0]? = some ([], 0)
  queue : ∀ d ∈ st.queue, DOk f op keys d
  ids : (proc ++ st.queue.map DState.id).Perm (List.range keys.length)
  arcs : ∀ x ∈ st.arcs, ArcOk f op keys x ∧ x.1.src ∈ proc
  det : (st.arcs.map fun x => (x.1.src, x.1.label)).Nodup
  reached : ∀ i, i < keys.length → i = 0 ∨ ∃ x ∈ st.arcs, x.1.dst = i

theorem Core.proc_lt {f : Fsa W} {op : Option (W → W → W)} {st : St W} {keys : List Key}
    {proc : List Nat} (h : Core f op st keys proc) : ∀ i ∈ proc, i < keys.length := by
  intro i hi
  have := h.ids.mem_iff.1 (List.mem_append_left _ hi)
  simpa using this

omit [AddCommGroup W] [LinearOrder W] in
theorem get_append_some {X : Type} {l : List X} {i : Nat} {x : X} (y : X) (h : l[i]? = some x) :
    (l ++ [y])[i]? = some x := by
  obtain ⟨hi, _⟩ := List.getElem?_eq_some_iff.1 h
  rw [List.getElem?_append_left hi, h]

theorem ArcOk.append {f : Fsa W} {op : Option (W → W → W)} {keys : List Key}
    {x : Arc W × List Nat} (h : ArcOk f op keys x) (k : Key) : ArcOk f op (keys ++ [k]) x := by
  obtain ⟨a, b, w, h1, h2, h3⟩ := h
  exact ⟨a, b, w, get_append_some _ h1, get_append_some _ h2, h3⟩

theorem DOk.append {f : Fsa W} {op : Option (W → W → W)} {keys : List Key} {d : DState W}
    (h : DOk f op keys d) (k : Key) : DOk f op (keys ++ [k]) d := by
  obtain ⟨x, b, h1, h2, h3⟩ := h
  exact ⟨x, b, h1, get_append_some _ h2, h3⟩

variable [IsOrderedAddMonoid W]

omit [IsOrderedAddMonoid W] in
theorem Good.base_reach {f : Fsa W} {x : List Int} {els : List (Node W)} {len : Nat} {b : Node W}
    (h : Good f x els len b) : ∃ r, Path f.arcs 0 r b.state := by
  obtain ⟨n, hn⟩ := List.exists_mem_of_ne_nil _ h.layer.ne
  obtain ⟨els0, hL, hb⟩ := h.layer.back_layer len h.len_le n hn
  rw [h.base n hn] at hb
  obtain ⟨p, _, h2, _⟩ := hL.seg_path _ (le_refl _) b hb
  rw [hL.back_all b hb] at h2
  exact ⟨p, h2⟩

omit [IsOrderedAddMonoid W] in
theorem Good.keyOk {f : Fsa W} {x : List Int} {els : List (Node W)} {len : Nat} {b : Node W}
    (h : Good f x els len b) : KeyOk f (rest x len, b.state) := by
  refine ⟨h.base_reach, ?_⟩
  obtain ⟨n, hn⟩ := List.exists_mem_of_ne_nil _ h.layer.ne
  obtain ⟨p, _, h2, h3, _⟩ := h.elem n hn
  exact ⟨n.state, p, h2, h3⟩

theorem Good.normOk {f : Fsa W} {x : List Int} {els : List (Node W)} {len : Nat} {b : Node W}
    (h : Good f x els len b) (o : Orders W) (op : Option (W → W → W))
    (hop : ∀ g, op = some g → PushOk g) (nm : W) (hn : normalizer o op els = some nm) :
    NormOk f op (rest x len, b.state) (nm - b.fwd) := by
  cases op with
  | none => trivial
  | some g => exact h.pushVal o (hop g rfl) nm hn

/-- The invariant while the arcs of `d` are being made; `seen` are the labels done so far. -/
structure Mid (f : Fsa W) (op : Option (W → W → W)) (d : DState W) (done : List Nat) (st : St W)
    (keys : List Key) (seen : List Int) : Prop where
  core : Core f op st keys (d.id :: done)
  complete : ∀ i ∈ done, Complete f keys st.arcs i
  dok : DOk f op keys d
  mine : ∀ x ∈ st.arcs, x.1.src = d.id → x.1.label ∈ seen
  seen : ∀ l ∈ seen, ∃ x ∈ st.arcs, x.1.src = d.id ∧ x.1.label = l

omit [IsOrderedAddMonoid W] in
theorem Complete.mono {f : Fsa W} {keys keys' : List Key} {arcs arcs' : List (Arc W × List Nat)}
    {i : Nat} (h : Complete f keys arcs i) (hk : keys'[i]? = keys[i]?) (ha : arcs ⊆ arcs') :
    Complete f keys' arcs' i := by
  intro k hki p u h1 h2 a h3 h4
  obtain ⟨x, hx, h5⟩ := h k (by rw [← hk]; exact hki) p u h1 h2 a h3 h4
  exact ⟨x, ha hx, h5⟩

omit [IsOrderedAddMonoid W] in
/-- Successors by the final label lead to the final state only. -/
theorem succ_final {f : Fsa W} (hv : f.Valid) {els els' : List (Node W)} (hs : Succ f els (-1) els') :
    ∃ n, els' = [n] ∧ n.state = f.final := by
  have hall : ∀ n ∈ els', n.state = f.final := by
    intro n hn
    obtain ⟨p, _, i, a, ha, _, hl, rfl⟩ := hs.sound n hn
    exact (hv.final_iff a (List.mem_of_getElem? ha)).1 hl
  match els', hs.ne, hs.nodup, hall with
  | [n], _, _, h => exact ⟨n, rfl, h n (by simp)⟩
  | a :: b :: l, _, hnd, h =>
    have h1 := h a (by simp)
    have h2 := h b (by simp)
    simp [h1, h2] at hnd

/-- One label. -/
theorem processLabel_mid (o : Orders W) {op : Option (W → W → W)}
    (hop : ∀ g, op = some g → PushOk g) {f : Fsa W} (hv : f.Valid) (hc : NoCollision f) {d : DState W}
    {done : List Nat} {st : St W} {keys : List Key} {seen : List Int} (h : Mid f op d done st keys seen)
    (x : Int × List (Node W)) (hs : Succ f d.els x.1 x.2) (hx : x.1 ∉ seen) :
    ∃ st' keys', processLabel o op f d st x = some st' ∧
      Mid f op d done st' keys' (seen ++ [x.1]) := by
  obtain ⟨y, b, hg, hkd, hnd⟩ := h.dok
  obtain ⟨nz, b', h1, h2, h3, h4, h5, h6, h7⟩ := normalize_spec o op hg hs
  have hcore := h.core
  have hkey := h2.keyOk
  have hfin : x.1 = -1 → (rest (y ++ [x.1]) nz.seqLen, b'.state) = (([], f.final) : Key) := by
    intro he
    rw [he] at hs
    obtain ⟨n, hn, hn2⟩ := succ_final hv hs
    obtain ⟨h8, h9⟩ := h7 n hn
    rw [h8, h9, hn2]
    simp [rest]
  have hsc : ScoreOk f op (rest y d.seqLen, b.state) (rest (y ++ [x.1]) nz.seqLen, b'.state) nz.weight
      (arcWeight op d nz) := by
    have hn2 := h2.normOk o op hop nz.norm h5
    cases op with
    | none => rfl
    | some g =>
      refine ⟨_, _, hnd, hn2, ?_⟩
      change nz.norm - d.norm = _
      rw [h4]
      abel
  generalize hk' : (rest (y ++ [x.1]) nz.seqLen, b'.state) = k' at *
  -- the new arc, whatever its destination is called
  have hnew : ∀ (keys' : List Key) (j : Nat), keys'[d.id]? = some (rest y d.seqLen, b.state) →
      keys'[j]? = some k' →
      ArcOk f op keys' ((⟨d.id, j, x.1, arcWeight op d nz⟩ : Arc W), nz.deriv) :=
    fun keys' j ha hb => ⟨_, k', nz.weight, ha, hb, h3, hsc, hfin⟩
  have hdet : ∀ (j : Nat), ((st.arcs ++ [((⟨d.id, j, x.1, arcWeight op d nz⟩ : Arc W), nz.deriv)]).map
      fun x => (x.1.src, x.1.label)).Nodup := by
    intro j
    rw [List.map_append, List.nodup_append]
    refine ⟨hcore.det, by simp, ?_⟩
    intro a ha c hc
    obtain ⟨z, hz, rfl⟩ := List.mem_map.1 ha
    simp only [List.map_cons, List.map_nil, List.mem_singleton] at hc
    subst hc
    intro he
    rw [Prod.mk.injEq] at he
    have := h.mine z hz he.1
    rw [he.2] at this
    exact hx this
  have hmine : ∀ (j : Nat), ∀ z ∈ st.arcs ++ [((⟨d.id, j, x.1, arcWeight op d nz⟩ : Arc W), nz.deriv)],
      z.1.src = d.id → z.1.label ∈ seen ++ [x.1] := by
    intro j z hz hsz
    rcases List.mem_append.1 hz with hz | hz
    · exact List.mem_append_left _ (h.mine z hz hsz)
    · cases List.mem_singleton.1 hz
      simp
  have hseen : ∀ (j : Nat), ∀ l ∈ seen ++ [x.1],
      ∃ z ∈ st.arcs ++ [((⟨d.id, j, x.1, arcWeight op d nz⟩ : Arc W), nz.deriv)],
        z.1.src = d.id ∧ z.1.label = l := by
    intro j l hl
    rcases List.mem_append.1 hl with hl | hl
    · obtain ⟨z, hz, hz2⟩ := h.seen l hl
      exact ⟨z, List.mem_append_left _ hz, hz2⟩
    · cases List.mem_singleton.1 hl
      exact ⟨_, List.mem_append_right _ (List.mem_singleton_self _), rfl, rfl⟩
  by_cases hin : ckey k' ∈ st.map
  · -- an old state
    have hj : ∃ j, st.map.idxOf (ckey k') = j ∧ keys[j]? = some k' := by
      refine ⟨_, rfl, ?_⟩
      have hlt : st.map.idxOf (ckey k') < st.map.length := List.idxOf_lt_length_iff.2 hin
      have hget : st.map[st.map.idxOf (ckey k')]? = some (ckey k') := by
        rw [List.getElem?_eq_getElem hlt, List.getElem_idxOf]
      generalize st.map.idxOf (ckey k') = j at hget
      rw [hcore.map_eq, List.getElem?_map, Option.map_eq_some_iff] at hget
      obtain ⟨k'', hk1, hk2⟩ := hget
      rw [hk1, hc k'' k' (hcore.keyOk _ (List.mem_of_getElem? hk1)) hkey hk2]
    obtain ⟨j, hj1, hj2⟩ := hj
    refine ⟨{ st with arcs := st.arcs ++ [(⟨d.id, j, x.1, arcWeight op d nz⟩, nz.deriv)] }, keys,
      ?_, ⟨?_, ?_, h.dok, hmine j, hseen j⟩⟩
    · rw [processLabel, h1]
      simp only [h6, if_pos hin, hj1]
    · refine ⟨hcore.map_eq, hcore.keyOk, hcore.nodup, hcore.start, hcore.queue, hcore.ids, ?_,
        hdet j, ?_⟩
      · intro z hz
        rcases List.mem_append.1 hz with hz | hz
        · exact hcore.arcs z hz
        · cases List.mem_singleton.1 hz
          exact ⟨hnew keys j hkd hj2, by simp⟩
      · intro i hi
        rcases hcore.reached i hi with h0 | ⟨z, hz, hz2⟩
        · exact Or.inl h0
        · exact Or.inr ⟨z, List.mem_append_left _ hz, hz2⟩
    · intro i hi
      exact (h.complete i hi).mono rfl (List.subset_append_left _ _)
  · -- a new state
    have hnotin : k' ∉ keys := by
      intro hk
      apply hin
      rw [hcore.map_eq]
      exact List.mem_map_of_mem hk
    have hml : st.map.length = keys.length := by rw [hcore.map_eq, List.length_map]
    refine ⟨⟨st.map ++ [ckey k'], st.queue ++ [⟨st.map.length, nz.seqLen, nz.norm, x.2⟩],
      st.arcs ++ [(⟨d.id, st.map.length, x.1, arcWeight op d nz⟩, nz.deriv)]⟩, keys ++ [k'], ?_,
      ⟨?_, ?_, h.dok.append k', hmine _, hseen _⟩⟩
    · rw [processLabel, h1]
      simp only [h6, if_neg hin]
    · have hlast : (keys ++ [k'])[st.map.length]? = some k' := by
        rw [hml]; simp
      refine ⟨?_, ?_, ?_, get_append_some _ hcore.start, ?_, ?_, ?_, hdet _, ?_⟩
      · simp [hcore.map_eq]
      · intro k hk
        rcases List.mem_append.1 hk with hk | hk
        · exact hcore.keyOk k hk
        · cases List.mem_singleton.1 hk
          exact hkey
      · exact List.nodup_append.2 ⟨hcore.nodup, by simp, fun a ha c hc => by
          cases List.mem_singleton.1 hc
          rintro rfl
          exact hnotin ha⟩
      · intro e he
        rcases List.mem_append.1 he with he | he
        · exact (hcore.queue e he).append k'
        · cases List.mem_singleton.1 he
          refine ⟨y ++ [x.1], b', h2, ?_, ?_⟩
          · simp only [hk']
            exact hlast
          · exact h2.normOk o op hop nz.norm h5
      · rw [List.map_append, ← List.append_assoc, List.length_append, List.length_singleton,
          List.range_succ]
        simp only [List.map_cons, List.map_nil, hml]
        exact hcore.ids.append_right _
      · intro z hz
        rcases List.mem_append.1 hz with hz | hz
        · obtain ⟨h8, h9⟩ := hcore.arcs z hz
          exact ⟨h8.append k', h9⟩
        · cases List.mem_singleton.1 hz
          exact ⟨hnew (keys ++ [k']) st.map.length (get_append_some _ hkd) hlast, by simp⟩
      · intro i hi
        rw [List.length_append, List.length_singleton] at hi
        by_cases hi2 : i < keys.length
        · rcases hcore.reached i hi2 with h0 | ⟨z, hz, hz2⟩
          · exact Or.inl h0
          · exact Or.inr ⟨z, List.mem_append_left _ hz, hz2⟩
        · right
          refine ⟨_, List.mem_append_right _ (List.mem_singleton_self _), ?_⟩
          simp only
          omega
    · intro i hi
      have hlt : i < keys.length := hcore.proc_lt i (by simp [hi])
      exact (h.complete i hi).mono (List.getElem?_append_left hlt) (List.subset_append_left _ _)

/-- The invariant between two iterations. -/
structure Inv (f : Fsa W) (op : Option (W → W → W)) (st : St W) (keys : List Key)
    (done : List Nat) : Prop where
  core : Core f op st keys done
  complete : ∀ i ∈ done, Complete f keys st.arcs i

theorem foldlM_mid (o : Orders W) {op : Option (W → W → W)}
    (hop : ∀ g, op = some g → PushOk g) {f : Fsa W} (hv : f.Valid) (hc : NoCollision f) {d : DState W}
    {done : List Nat} (l : List (Int × List (Node W))) :
    ∀ {st : St W} {keys : List Key} {seen : List Int}, Mid f op d done st keys seen →
      (∀ x ∈ l, Succ f d.els x.1 x.2) → (seen ++ l.map Prod.fst).Nodup →
      ∃ st' keys', l.foldlM (processLabel o op f d) st = some st' ∧
        Mid f op d done st' keys' (seen ++ l.map Prod.fst) := by
  induction l with
  | nil =>
    intro st keys seen h _ _
    exact ⟨st, keys, rfl, by simpa using h⟩
  | cons x l ih =>
    intro st keys seen h hs hn
    have hx : x.1 ∉ seen := by
      intro hm
      have := (List.nodup_append.1 hn).2.2 x.1 hm x.1 (by simp)
      exact this rfl
    obtain ⟨st1, keys1, h1, h2⟩ := processLabel_mid o hop hv hc h x (hs x (by simp)) hx
    obtain ⟨st2, keys2, h3, h4⟩ := ih h2 (fun y hy => hs y (by simp [hy])) (by simpa using hn)
    refine ⟨st2, keys2, ?_, by simpa using h4⟩
    rw [List.foldlM_cons, h1]
    exact h3

/-- One iteration of the main loop, when `GetDetStatesSuccessor` does not fail. -/
theorem processArcs_inv (o : Orders W) {op : Option (W → W → W)}
    (hop : ∀ g, op = some g → PushOk g) {f : Fsa W} (hv : f.Valid) (hc : NoCollision f) {st : St W}
    {keys : List Key} {done : List Nat} (h : Inv f op st keys done) {d : DState W}
    {q : List (DState W)} (hq : o.queue st.queue = d :: q) :
    (∀ l, successors o f d.els = some l → ∃ st' keys',
      processArcs o op f d { st with queue := q } = some st' ∧ Inv f op st' keys' (d.id :: done)) := by
  intro l hl
  have hcore := h.core
  have hperm := o.queue_perm st.queue
  rw [hq] at hperm
  have hlab : l = labelToState o f d.els := by
    rw [successors] at hl
    rcases he : labelToState o f d.els with _ | ⟨e, es⟩
    · rw [he] at hl
      rcases hn : o.nodes d.els with _ | ⟨n, ns⟩
      · simp [hn] at hl
      · simp only [hn] at hl
        split at hl
        · exact (Option.some.inj hl).symm
        · cases hl
    · rw [he] at hl
      exact (Option.some.inj hl).symm
  obtain ⟨hs1, hs2, hs3⟩ := labelToState_spec o f d.els
  rw [← hlab] at hs1 hs2 hs3
  have hids : (d.id :: done ++ q.map DState.id).Perm (List.range keys.length) := by
    refine List.Perm.trans ?_ hcore.ids
    have : (d.id :: done ++ q.map DState.id).Perm (done ++ (d :: q).map DState.id) := by
      simp only [List.map_cons, List.cons_append]
      exact List.perm_middle.symm
    exact this.trans ((hperm.map DState.id).append_left done)
  have hdone : d.id ∉ done := by
    have := hids.nodup_iff.2 List.nodup_range
    simp only [List.cons_append, List.nodup_cons, List.mem_append, not_or] at this
    exact this.1.1
  have hdok : DOk f op keys d := hcore.queue d (hperm.mem_iff.1 (by simp))
  have hmid : Mid f op d done { st with queue := q } keys [] := by
    refine ⟨⟨hcore.map_eq, hcore.keyOk, hcore.nodup, hcore.start, ?_, hids, ?_, hcore.det,
      hcore.reached⟩, h.complete, hdok, ?_, by simp⟩
    · intro e he
      exact hcore.queue e (hperm.mem_iff.1 (by simp [he]))
    · intro x hx
      obtain ⟨h1, h2⟩ := hcore.arcs x hx
      exact ⟨h1, by simp [h2]⟩
    · intro x hx hxd
      exact absurd (hxd ▸ (hcore.arcs x hx).2) hdone
  have hp2 := o.byLabel_perm l
  obtain ⟨st', keys', h1, h2⟩ := foldlM_mid o hop hv hc (o.byLabel l) hmid
    (fun x hx => hs2 x (hp2.mem_iff.1 hx))
    (by simpa using ((hp2.map Prod.fst).nodup_iff.2 hs1))
  refine ⟨st', keys', ?_, h2.core, ?_⟩
  · rw [processArcs, hl]
    exact h1
  · intro i hi
    rcases List.mem_cons.1 hi with rfl | hi
    · intro k hk p u hpu hlp a ha hsrc
      obtain ⟨y, b, hg, hkd, _⟩ := h2.dok
      rw [hkd] at hk
      cases hk
      obtain ⟨n, hn, hnu, _⟩ := hg.reach p u hpu hlp
      have := hs3 n hn a ha (by rw [hsrc, hnu])
      refine h2.seen a.label ?_
      simpa using ((hp2.map Prod.fst).mem_iff.2 this)
    · exact h2.complete i hi

theorem good_start (f : Fsa W) : Good f [] [(.start : Node W)] 0 .start :=
  ⟨.start, le_refl _, by simp [back]⟩

theorem startSt_inv (o : Orders W) {op : Option (W → W → W)}
    (hop : ∀ g, op = some g → PushOk g) (f : Fsa W) :
    ∃ st, startSt o f = some st ∧ Inv f op st [([], 0)] [] := by
  have hc : compactOf o f 0 [(.start : Node W)] = some (ckey ([], 0)) := by
    rw [compactOf]
    have hp := o.nodes_perm [(.start : Node W)]
    rw [List.perm_singleton.1 hp]
    rfl
  refine ⟨_, by rw [startSt, hc], ⟨rfl, ?_, by simp, rfl, ?_, by simp, by simp, by simp, ?_⟩, by simp⟩
  · intro k hk
    cases List.mem_singleton.1 hk
    exact (good_start f).keyOk
  · intro d hd
    cases List.mem_singleton.1 hd
    refine ⟨[], .start, good_start f, rfl, ?_⟩
    have hn : ∀ g, normalizer o (some g) [(.start : Node W)] = some 0 := by
      intro g
      rw [normalizer]
      have hp := o.nodes_perm [(.start : Node W)]
      rw [List.perm_singleton.1 hp]
      rfl
    cases op with
    | none => trivial
    | some g => exact (good_start f).normOk o (some g) hop 0 (hn g)
  · intro i hi
    left
    simpa using hi

/-- What holds when the loop ends. -/
theorem mainLoop_inv (o : Orders W) {op : Option (W → W → W)}
    (hop : ∀ g, op = some g → PushOk g) {f : Fsa W} (hv : f.Valid) (hc : NoCollision f) (fuel : Nat) :
    ∀ {st st' : St W} {keys : List Key} {done : List Nat}, Inv f op st keys done →
      mainLoop o op f fuel st = some st' → ∃ keys' done', Inv f op st' keys' done' ∧ st'.queue = [] := by
  induction fuel with
  | zero =>
    intro st st' keys done h hm
    rw [mainLoop] at hm
    split at hm
    · rename_i hq
      cases hm
      exact ⟨keys, done, h, List.isEmpty_iff.1 hq⟩
    · cases hm
  | succ n ih =>
    intro st st' keys done h hm
    rw [mainLoop] at hm
    rcases hq : o.queue st.queue with _ | ⟨d, q⟩
    · rw [hq] at hm
      cases hm
      have := o.queue_perm st.queue
      rw [hq] at this
      exact ⟨keys, done, h, List.nil_perm.1 this⟩
    · rw [hq] at hm
      simp only at hm
      rcases hs : successors o f d.els with _ | l
      · rw [processArcs, hs] at hm
        cases hm
      · obtain ⟨st1, keys1, h1, h2⟩ := processArcs_inv o hop hv hc h hq l hs
        rw [h1] at hm
        exact ih h2 hm

end Verif.Fsa.Det
