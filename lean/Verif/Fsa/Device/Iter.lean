import Verif.Fsa.Device.Step

/-!
# What an iteration adds
-/

namespace Verif.Fsa.Idv
open Verif.Ragged Verif.Util Verif.Fsa.Dn Verif.Fsa.Dp
variable {W : Type}
variable {Ta Tb : List (List (List (Arc W)))} {p : Args W}

theorem Leads.unique {c : Cand} {x y x' y' : Arc W} {st d d' : Nat × Nat}
    (h : Leads Ta Tb p c x y st d) (h' : Leads Ta Tb p c x' y' st d') : x = x' ∧ y = y' ∧ d = d' := by
  have h1 := h.ia
  rw [h'.ia] at h1
  obtain rfl := Option.some.inj h1
  have h2 := h.ib
  rw [h'.ib] at h2
  obtain rfl := Option.some.inj h2
  refine ⟨rfl, rfl, ?_⟩
  obtain ⟨i, j, u, v, f, g, e1, e2, -⟩ := h.ex
  obtain ⟨i', j', u', v', f', g', e1', e2', -⟩ := h'.ex
  have hi : i = i' := by rw [← e1.fsa, ← e1'.fsa]
  subst hi
  have hj := e1.map
  rw [e1'.map] at hj
  obtain rfl := Option.some.inj hj
  rw [e2.eq, e2'.eq]

/-- The candidates, with what they are. -/
structure Cands (Ta Tb : List (List (List (Arc W)))) (p : Args W) (block : List (Nat × Nat)) (C : List Cand)
    (lx ly : Cand → Int) (D : Cand → Nat × Nat) : Prop where
  nodup : C.Nodup
  sorted : C.Pairwise (fun c d => c.si ≤ d.si)
  ent : ∀ c ∈ C, ∃ x y st, block[c.si]? = some st ∧ Leads Ta Tb p c x y st (D c) ∧ x.label = lx c ∧ y.label = ly c ∧
    Fits Ta Tb block c x y
  same : p.sorted = true → ∀ c ∈ C, lx c = ly c
  all : ∀ c x y, Fits Ta Tb block c x y → x.label = y.label → c ∈ C

theorem Ctx.cands (hc : Ctx Ta Tb p) (block : List (Nat × Nat)) (hb : ∀ st ∈ block, Live Ta Tb p st) :
    ∃ C lx ly D, pairsOf p block = some C ∧ Cands Ta Tb p block C lx ly D := by
  obtain ⟨C, h1, h2, h3, h4⟩ := pairsOf_spec p hc.a hc.b block (by
    intro st hst
    obtain ⟨i, j, u, v, f, g, hh, -⟩ := hb st hst
    exact ⟨hh.lt1, hh.lt2⟩) hc.sorted hc.labA hc.labB
  have key : ∀ c, c ∈ C → ∃ (lx ly : Int) (d : Nat × Nat), (∃ x y st, block[c.si]? = some st ∧
      Leads Ta Tb p c x y st d ∧ x.label = lx ∧ y.label = ly ∧ Fits Ta Tb block c x y) ∧
      (p.sorted = true → lx = ly) := by
    intro c hcC
    obtain ⟨x, y, hf, hs⟩ := (h4 c).mp hcC
    obtain ⟨st, d, e1, e2⟩ := hc.leads hb hf
    exact ⟨_, _, d, ⟨x, y, st, e1, e2, rfl, rfl, hf⟩, hs⟩
  choose! lx ly D k1 k2 using key
  refine ⟨C, lx, ly, D, h1, h2, h3, k1, fun hs c hcC => k2 c hcC hs, ?_⟩
  intro c x y hf he
  exact (h4 c).mpr ⟨x, y, hf, fun _ => he⟩

theorem mapM_map {X Y : Type} (l : List X) (f : X → Option Y) (g : X → Y) (h : ∀ x ∈ l, f x = some (g x)) :
    l.mapM f = some (l.map g) := by
  apply mapM_some_of
  · simp
  · intro i x hx
    rw [h x (List.mem_of_getElem? hx), List.getElem?_map, hx]; rfl

theorem sel_filter {X : Type} (l : List X) (q : X → Bool) : sel (l.map q) l = l.filter q := by
  induction l with
  | nil => rfl
  | cons x l ih =>
    rw [List.map_cons, sel, List.filter_cons, ih]

/-- What an iteration adds to the states and arcs. -/
structure Added (Ta Tb : List (List (List (Arc W)))) (p : Args W) (s : St) (b : Nat) (news : List (Nat × Nat))
    (A : List Cand) : Prop where
  live : ∀ d ∈ news, Live Ta Tb p d
  fresh : ∀ d ∈ news, s.hash.lookup (pkey Ta Tb p d) = none
  reached : ∀ d ∈ news, ∃ c ∈ A, ∃ x y st, s.states[c.si]? = some st ∧ Leads Ta Tb p c x y st d ∧ x.label ≠ -1
  nodup : (news.map (pkey Ta Tb p)).Nodup
  bySeq : (s.states.drop b).Pairwise (fun x y => fsaOf Tb x ≤ fsaOf Tb y) →
    news.Pairwise (fun x y => fsaOf Tb x ≤ fsaOf Tb y)
  arcsNodup : A.Nodup
  arcsSorted : A.Pairwise (fun c d => c.si ≤ d.si)
  arcs : ∀ c, c ∈ A ↔ b ≤ c.si ∧ ∃ x y, Fits Ta Tb s.states c x y ∧ x.label = y.label
  entered : ∀ c ∈ A, ∀ x y st d, s.states[c.si]? = some st → Leads Ta Tb p c x y st d → x.label ≠ -1 →
    d ∈ news ∨ s.hash.lookup (pkey Ta Tb p d) ≠ none

theorem Ctx.oneIter (hc : Ctx Ta Tb p) (order : Nat → List Nat) (ho : ∀ n, (order n).Perm (List.range n))
    (s : St) (b : Nat) (hl : ∀ st ∈ s.states, Live Ta Tb p st) :
    ∃ news A, oneIter p order s b s.states.length = some ⟨s.states ++ news, s.arcs ++ A,
        news.zipIdx.map (fun x => (pkey Ta Tb p x.1, s.states.length + x.2)) ++ s.hash,
        s.iters ++ [s.states.length + news.length]⟩ ∧ Added Ta Tb p s b news A := by
  have hblock : (s.states.take s.states.length).drop b = s.states.drop b := by rw [List.take_length]
  have hbl : ∀ st ∈ s.states.drop b, Live Ta Tb p st := fun st h => hl st (List.mem_of_mem_drop h)
  obtain ⟨C, lx, ly, D, hC, k⟩ := hc.cands (s.states.drop b) hbl
  have hinfos : C.mapM (infoOf p (s.states.drop b)) =
      some (C.map (fun c => infoFor Ta Tb p (lx c) (ly c) (D c))) := by
    apply mapM_map
    intro c hcC
    obtain ⟨x, y, st, h1, h2, h3, h4, -⟩ := k.ent c hcC
    rw [h2.info h1 (fun hs => by rw [h3, h4]; exact k.same hs c hcC), h3, h4]
  generalize hI : C.map (fun c => infoFor Ta Tb p (lx c) (ly c) (D c)) = infos at hinfos
  have hIl : infos.length = C.length := by rw [← hI, List.length_map]
  obtain ⟨m, n1, n2, n3, n4, n5⟩ := numbering infos s.hash (order C.length) (by rw [hIl]; exact ho _)
  have hren := renumber_eq p infos (winners infos m) n2 (by
    intro hs x hx
    rw [← hI] at hx
    obtain ⟨c, hcC, rfl⟩ := List.mem_map.mp hx
    simpa [infoFor] using k.same hs c hcC)
  have hgl : ∀ i : Nat, infos[i]? = (C[i]?).map (fun c => infoFor Ta Tb p (lx c) (ly c) (D c)) := by
    intro i; rw [← hI, List.getElem?_map]
  have hkeys : (sel (winners infos m) (List.range infos.length)).mapM (fun i => (infos[i]?).map Info.key) =
      some ((sel (winners infos m) (C.map D)).map (pkey Ta Tb p)) := by
    have := gather_sel (winners infos m) (infos.map Info.key) (by simp [n2])
    rw [n2] at this
    simp only [List.getElem?_map] at this
    rw [this, ← sel_map, ← hI, List.map_map, List.map_map]
    rfl
  have hnews : (sel (winners infos m) (List.range infos.length)).mapM (fun i => (C[i]?).bind (fun c =>
      (infos[i]?).bind (fun x => newState p (s.states.drop b) c x.key))) = some (sel (winners infos m) (C.map D)) := by
    have := gather_sel (winners infos m) (C.map D) (by simp [n2, hIl])
    rw [n2] at this
    rw [← this]
    congr 1
    funext i
    rw [hgl, List.getElem?_map]
    cases hi : C[i]? with
    | none => rfl
    | some c =>
      obtain ⟨x, y, st, h1, h2, h3, h4, -⟩ := k.ent c (List.mem_of_getElem? hi)
      exact h2.new hc h1
  have hkept : (sel (infos.map Info.keep) (List.range infos.length)).mapM (fun i => C[i]?) =
      some (C.filter (fun c => decide (lx c = ly c))) := by
    have := gather_sel (infos.map Info.keep) C (by simp [hIl])
    rw [List.length_map] at this
    rw [this, ← sel_filter, ← hI, List.map_map]
    rfl
  have hnmem : ∀ d, d ∈ sel (winners infos m) (C.map D) →
      ∃ c ∈ C, D c = d ∧ lx c = ly c ∧ lx c ≠ -1 ∧ s.hash.lookup (pkey Ta Tb p d) = none := by
    intro d hd
    rw [mem_sel _ _ (by simp [n2, hIl])] at hd
    obtain ⟨w, h1, h2⟩ := hd
    obtain ⟨x, h3, h4, h5⟩ := n3 w h1
    rw [List.getElem?_map] at h2
    obtain ⟨c, h6, rfl⟩ := Option.map_eq_some_iff.mp h2
    rw [hgl, h6] at h3
    obtain rfl := Option.some.inj h3
    simp only [infoFor, Bool.and_eq_true, decide_eq_true_eq] at h4
    exact ⟨c, List.mem_of_getElem? h6, rfl, h4.1, h4.2, h5⟩
  -- candidates in terms of all states
  have hshift : ∀ c : Cand, (s.states.drop b)[c.si]? = s.states[c.si + b]? := by
    intro c; rw [List.getElem?_drop, Nat.add_comm]
  have hAmem : ∀ c : Cand, c ∈ (C.filter (fun c => decide (lx c = ly c))).map (fun c => { c with si := c.si + b }) ↔
      ∃ c' ∈ C, lx c' = ly c' ∧ c = { c' with si := c'.si + b } := by
    intro c
    rw [List.mem_map]
    constructor
    · rintro ⟨c', h1, rfl⟩
      obtain ⟨h2, h3⟩ := List.mem_filter.mp h1
      exact ⟨c', h2, by simpa using h3, rfl⟩
    · rintro ⟨c', h1, h2, rfl⟩
      exact ⟨c', List.mem_filter.mpr ⟨h1, by simpa using h2⟩, rfl⟩
  have hlead : ∀ (c : Cand) (n : Nat) (x y : Arc W) (st d : Nat × Nat), Leads Ta Tb p c x y st d ↔
      Leads Ta Tb p { c with si := n } x y st d := by
    intro c n x y st d
    exact ⟨fun h => ⟨h.ex, h.ia, h.ib, h.id2⟩, fun h => ⟨h.ex, h.ia, h.ib, h.id2⟩⟩
  refine ⟨sel (winners infos m) (C.map D), (C.filter (fun c => decide (lx c = ly c))).map
    (fun c => { c with si := c.si + b }), ?_, ?_⟩
  · unfold Idv.oneIter
    simp only [hblock, hC, hinfos, n1, hren, hkeys, hnews, hkept, Option.bind_eq_bind, Option.bind_some]
    congr 3
    rw [List.zipIdx_map, List.map_map]
    rfl
  · refine ⟨?_, ?_, ?_, ?_, ?_, ?_, ?_, ?_, ?_⟩
    · intro d hd
      obtain ⟨c, hcC, rfl, h1, h2, -⟩ := hnmem d hd
      obtain ⟨x, y, st, g1, g2, g3, g4, -⟩ := k.ent c hcC
      exact g2.live hc (by rw [g3, g4]; exact h1) (by rw [g3]; exact h2)
    · intro d hd
      obtain ⟨c, hcC, rfl, h1, h2, h3⟩ := hnmem d hd
      exact h3
    · intro d hd
      obtain ⟨c, hcC, rfl, h1, h2, h3⟩ := hnmem d hd
      obtain ⟨x, y, st, g1, g2, g3, g4, -⟩ := k.ent c hcC
      refine ⟨_, (hAmem _).mpr ⟨c, hcC, h1, rfl⟩, x, y, st, ?_, (hlead c _ x y st _).mp g2, by rw [g3]; exact h2⟩
      rw [← g1, hshift]
    · rw [← sel_map, List.map_map]
      rw [← hI] at n4
      rw [List.map_map] at n4
      rw [← hI]
      exact n4
    · intro hp
      apply sel_pairwise
      rw [List.pairwise_map]
      refine (k.sorted.imp_of_mem ?_)
      intro c c' hcC hcC' hle
      obtain ⟨x, y, st, g1, g2, -⟩ := k.ent c hcC
      obtain ⟨x', y', st', g1', g2', -⟩ := k.ent c' hcC'
      rw [g2.fsa, g2'.fsa]
      rcases Nat.lt_or_eq_of_le hle with h1 | h1
      · obtain ⟨l1, e1⟩ := List.getElem?_eq_some_iff.mp g1
        obtain ⟨l2, e2⟩ := List.getElem?_eq_some_iff.mp g1'
        have := List.pairwise_iff_getElem.mp hp _ _ l1 l2 h1
        rw [e1, e2] at this
        exact this
      · rw [h1, g1'] at g1
        rw [Option.some.inj g1]
    · apply (k.nodup.filter _).map
      intro c c' he
      simp only [Cand.mk.injEq, Nat.add_right_cancel_iff] at he
      cases c; cases c'
      simpa using he
    · rw [List.pairwise_map]
      apply (k.sorted.filter _).imp
      intro c c' h
      simp only
      omega
    · intro c
      rw [hAmem]
      constructor
      · rintro ⟨c', h1, h2, rfl⟩
        obtain ⟨x, y, st, g1, g2, g3, g4, st', f1, ka, kb, f2⟩ := k.ent c' h1
        refine ⟨by simp, x, y, ⟨st', by rw [← f1, hshift], ka, kb, f2⟩, by rw [g3, g4]; exact h2⟩
      · rintro ⟨h1, x, y, ⟨st', f1, ka, kb, f2⟩, he⟩
        have e : c = { ({ c with si := c.si - b } : Cand) with si := c.si - b + b } := by
          cases c
          simp only [Cand.mk.injEq, and_self, and_true]
          simp only at h1
          omega
        have hfit : Fits Ta Tb (s.states.drop b) { c with si := c.si - b } x y := by
          refine ⟨st', ?_, ka, kb, f2⟩
          rw [hshift]
          simp only
          rw [Nat.sub_add_cancel h1, f1]
        have hm := k.all _ x y hfit he
        refine ⟨_, hm, ?_, e⟩
        obtain ⟨x', y', st, g1, g2, g3, g4, -⟩ := k.ent _ hm
        obtain ⟨st1, d1, q1, q2⟩ := hc.leads hbl hfit
        rw [q1] at g1
        obtain rfl := Option.some.inj g1
        obtain ⟨rfl, rfl, -⟩ := q2.unique g2
        rw [← g3, ← g4, he]
    · intro c hcA x y st d hst hle hn
      obtain ⟨c', h1, h2, rfl⟩ := (hAmem c).mp hcA
      obtain ⟨x', y', st', g1, g2, g3, g4, -⟩ := k.ent c' h1
      rw [hshift] at g1
      simp only at hst
      rw [g1] at hst
      obtain rfl := Option.some.inj hst
      obtain ⟨rfl, rfl, rfl⟩ := g2.unique ((hlead c' _ x y _ d).mpr hle)
      by_cases hh : s.hash.lookup (pkey Ta Tb p (D c')) = none
      · left
        have hin : infoFor Ta Tb p (lx c') (ly c') (D c') ∈ infos := by
          rw [← hI]
          exact List.mem_map.mpr ⟨c', h1, rfl⟩
        have := n5 _ hin (by
          rw [g3] at hn
          unfold infoFor
          simp only [decide_eq_true h2, decide_eq_true hn, Bool.and_self]) hh
        rw [← hI, List.map_map, hI, show (Info.key ∘ fun c => infoFor Ta Tb p (lx c) (ly c) (D c)) =
          fun c => pkey Ta Tb p (D c) from rfl, show (C.map fun c => pkey Ta Tb p (D c)) =
          (C.map D).map (pkey Ta Tb p) by rw [List.map_map]; rfl, sel_map] at this
        obtain ⟨d', hd', he⟩ := List.mem_map.mp this
        obtain ⟨c2, hc2, rfl, q1, q2, -⟩ := hnmem d' hd'
        obtain ⟨x2, y2, st2, r1, r2, r3, r4, -⟩ := k.ent c2 hc2
        have l1 := r2.live hc (by rw [r3, r4]; exact q1) (by rw [r3]; exact q2)
        have l2 := g2.live hc (by rw [g3, g4]; exact h2) hn
        have := Live.inj hc l1 l2 he
        rw [← this]
        exact hd'
      · exact Or.inr hh

end Verif.Fsa.Idv
