import Verif.Fsa.Device.Final
import Verif.Fsa.Compose.Vec

/-!
# Each FSA of the output is an intersection
-/

namespace Verif.Fsa.Idv
open Verif.Ragged Verif.Util Verif.Fsa.Dn Verif.Fsa.Top Verif.Fsa.Isect
variable {W : Type} [AddCommMonoid W]
variable {Ta Tb : List (List (List (Arc W)))} {p : Args W} {s s1 : St} {B : List (List (Nat × Nat))}

/-- The arcs of FSA `i`. -/
def fsaArcs (Tb : List (List (List (Arc W)))) (s : St) (i : Nat) : List Nat := ((gr Tb s i).map (arow s)).flatten

theorem outRows_flatten (i : Nat) : (outRows Tb p s i).flatten = (fsaArcs Tb s i).map (val Tb p s) := by
  rw [outRows, fsaArcs, List.map_flatten, List.map_map]
  rfl

theorem arcsOnly_flatten (R : List (List (Arc W × Nat × Nat))) : (arcsOnly R).flatten = R.flatten.map Prod.fst := by
  rw [arcsOnly, List.map_flatten]

theorem gr_nodup (i : Nat) : (gr Tb s i).Nodup := grp_nodup _ _ _

theorem fsaArcs_nodup (i : Nat) : (fsaArcs Tb s i).Nodup := by
  rw [fsaArcs, List.nodup_flatten]
  refine ⟨?_, ?_⟩
  · intro l hl
    obtain ⟨q, -, rfl⟩ := List.mem_map.mp hl
    exact List.nodup_range.filter _
  · rw [List.pairwise_map]
    refine (gr_nodup i).imp ?_
    intro q q' hne
    rw [List.disjoint_left]
    intro k h1 h2
    obtain ⟨c, e1, e2⟩ := mem_arow.mp h1
    obtain ⟨c', e1', e2'⟩ := mem_arow.mp h2
    rw [e1] at e1'
    obtain rfl := Option.some.inj e1'
    exact hne (e2.symm.trans e2')

theorem mem_fsaArcs (h : Whole Ta Tb p s B) (i k : Nat) :
    k ∈ fsaArcs Tb s i ↔ ∃ c, s.arcs[k]? = some c ∧ fk Tb s c.si = i := by
  rw [fsaArcs, List.mem_flatten]
  constructor
  · rintro ⟨l, hl, hk⟩
    obtain ⟨q, hq, rfl⟩ := List.mem_map.mp hl
    obtain ⟨c, h1, h2⟩ := mem_arow.mp hk
    exact ⟨c, h1, by rw [h2]; exact (mem_grp.mp hq).2⟩
  · rintro ⟨c, h1, h2⟩
    exact ⟨_, List.mem_map.mpr ⟨c.si, mem_grp.mpr ⟨h.si_lt (List.mem_of_getElem? h1), h2⟩, rfl⟩,
      mem_arow.mpr ⟨c, h1, rfl⟩⟩

/-- A pair of states with numbers inside the FSAs. -/
def loc (Ta Tb : List (List (List (Arc W)))) (i j : Nat) (st : Nat × Nat) : Nat × Nat := (st.1 - off Ta j, st.2 - off Tb i)

/-- The pairs that the states of FSA `i` stand for. -/
def pairsAt (Ta Tb : List (List (List (Arc W)))) (s : St) (i j : Nat) : List (Nat × Nat) :=
  (gr Tb s i).map (fun q => loc Ta Tb i j (s.states.getD q (0, 0)))

theorem pairs_get {i j q : Nat} {st : Nat × Nat} (hq : s.states[q]? = some st) (hi : fsaOf Tb st = i) :
    q ∈ gr Tb s i ∧ (pairsAt Ta Tb s i j)[(gr Tb s i).idxOf q]? = some (loc Ta Tb i j st) := by
  have hm : q ∈ gr Tb s i := mem_grp.mpr ⟨(List.getElem?_eq_some_iff.mp hq).1, by rw [fk_get hq, hi]⟩
  refine ⟨hm, ?_⟩
  have hlt := List.idxOf_lt_length_of_mem hm
  rw [pairsAt, List.getElem?_map, List.getElem?_eq_getElem hlt, List.getElem_idxOf, Option.map_some,
    List.getD_eq_getElem?_getD, hq]
  rfl

theorem pairs_inv {i j t : Nat} {x : Nat × Nat} (h : (pairsAt Ta Tb s i j)[t]? = some x) :
    ∃ q st, (gr Tb s i)[t]? = some q ∧ s.states[q]? = some st ∧ fsaOf Tb st = i ∧ x = loc Ta Tb i j st := by
  rw [pairsAt, List.getElem?_map] at h
  obtain ⟨q, h1, h2⟩ := Option.map_eq_some_iff.mp h
  obtain ⟨h3, h4⟩ := mem_grp.mp (List.mem_of_getElem? h1)
  have h5 := List.getElem?_eq_getElem h3
  refine ⟨q, _, h1, h5, ?_, ?_⟩
  · rw [← fk_get h5, h4]
  · rw [← h2, List.getD_eq_getElem?_getD, h5]; rfl

theorem here_at {i j : Nat} {f g : List (List (Arc W))} (hj : p.map[i]? = some j) (hf : Ta[j]? = some f)
    (hg : Tb[i]? = some g) {st : Nat × Nat} (hi : fsaOf Tb st = i) {i' j' u v : Nat} {f' g' : List (List (Arc W))}
    (hh : Here Ta Tb p i' j' u v f' g' st) : Here Ta Tb p i j u v f g st ∧ loc Ta Tb i j st = (u, v) := by
  have e1 : i' = i := by rw [← hh.fsa, hi]
  subst e1
  have e2 := hh.map
  rw [hj] at e2
  obtain rfl := Option.some.inj e2
  have e3 := hh.fa
  rw [hf] at e3
  obtain rfl := Option.some.inj e3
  have e4 := hh.fb
  rw [hg] at e4
  obtain rfl := Option.some.inj e4
  refine ⟨hh, ?_⟩
  rw [loc, hh.eq]
  simp

/-- The first and the last state. -/
theorem Done.ends (hc : Ctx Ta Tb p) (h : Done Ta Tb p s s1 B) {i j : Nat} {f g : List (List (Arc W))}
    (hj : p.map[i]? = some j) (hf : Ta[j]? = some f) (hg : Tb[i]? = some g) (hf0 : f ≠ []) (hg0 : g ≠ []) :
    2 ≤ f.length ∧ 2 ≤ g.length ∧ (∃ q0, (gr Tb s i)[0]? = some q0 ∧ q0 < s1.states.length ∧
      q0 < ((lives Ta Tb p).map (startOf Ta Tb p)).length ∧
      s.states[q0]? = some (startOf Ta Tb p i) ∧ loc Ta Tb i j (startOf Ta Tb p i) = (0, 0)) ∧
    ∃ qf, (∀ t q : Nat, (gr Tb s i)[t]? = some q → (q = qf ↔ t + 1 = (gr Tb s i).length)) ∧ qf ∈ gr Tb s i ∧
      s.states[qf]? = some (finOf Ta Tb p i) ∧ loc Ta Tb i j (finOf Ta Tb p i) = (f.length - 1, g.length - 1) ∧
      (∀ q ∈ gr Tb s i, q < s1.states.length ∨ q = qf) ∧ s1.states.length ≤ qf := by
  have hin := (List.getElem?_eq_some_iff.mp hg).1
  have hl : i ∈ lives Ta Tb p := by
    rw [lives, List.mem_filter, List.mem_range, both, List.getD_eq_getElem?_getD, List.getD_eq_getElem?_getD,
      List.getD_eq_getElem?_getD, hj, Option.getD_some, hf, hg]
    simp only [Option.getD_some, Bool.and_eq_true, decide_eq_true_eq]
    exact ⟨hin, List.length_pos_of_ne_nil hf0, List.length_pos_of_ne_nil hg0⟩
  obtain ⟨j', f', g', h1, h2, h3, h4⟩ := hc.lives_here i hl
  obtain ⟨-, l1⟩ := here_at hj hf hg h1.fsa h1
  obtain ⟨hx, l2⟩ := here_at hj hf hg h2.fsa h2
  have e1 : f' = f := by
    have e2 := h1.map
    rw [hj] at e2
    obtain rfl := Option.some.inj e2
    have e3 := h1.fa
    rw [hf] at e3
    exact (Option.some.inj e3).symm
  have e2 : g' = g := by
    have e4 := h1.fb
    rw [hg] at e4
    exact (Option.some.inj e4).symm
  subst e1 e2
  obtain ⟨t, ht⟩ := List.getElem?_of_mem hl
  have htl := (List.getElem?_eq_some_iff.mp ht).1
  have hnd : (lives Ta Tb p).Nodup := (lives_lt Ta Tb p).imp (fun h => Nat.ne_of_lt h)
  -- the first block
  obtain ⟨rest, hB⟩ : ∃ rest, B = (lives Ta Tb p).map (startOf Ta Tb p) :: rest := by
    have := h.inv.first
    cases hB : B with
    | nil =>
      rw [hB] at this
      simp only [List.headD_nil] at this
      rw [List.map_eq_nil_iff.mp this.symm] at hl
      simp at hl
    | cons b B =>
      rw [hB, List.headD_cons] at this
      exact ⟨B, by rw [this]⟩
  have hpre : ∀ k, k < (lives Ta Tb p).length → s.states[k]? = ((lives Ta Tb p)[k]?).map (startOf Ta Tb p) := by
    intro k hk
    rw [h.states, h.inv.states, hB, List.flatten_cons, List.append_assoc, List.getElem?_append_left (by simpa using hk),
      List.getElem?_map]
  have hlen0 : (lives Ta Tb p).length ≤ s1.states.length := by
    rw [h.inv.states, hB]; simp
  have hfin : ∀ k, k < (lives Ta Tb p).length →
      s.states[s1.states.length + k]? = ((lives Ta Tb p)[k]?).map (finOf Ta Tb p) := by
    intro k hk
    rw [h.states, List.getElem?_append_right (by omega), Nat.add_sub_cancel_left, List.getElem?_map]
  have hq0 : s.states[t]? = some (startOf Ta Tb p i) := by rw [hpre t htl, ht]; rfl
  have hqf : s.states[s1.states.length + t]? = some (finOf Ta Tb p i) := by rw [hfin t htl, ht]; rfl
  have hm0 : t ∈ gr Tb s i := (pairs_get (Ta := Ta) (j := j) hq0 h1.fsa).1
  have hmf : s1.states.length + t ∈ gr Tb s i := (pairs_get (Ta := Ta) (j := j) hqf h2.fsa).1
  have hor : ∀ q ∈ gr Tb s i, q < s1.states.length ∨ q = s1.states.length + t := by
    intro q hq
    obtain ⟨g1, g2⟩ := mem_grp.mp hq
    rcases Nat.lt_or_ge q s1.states.length with h5 | h5
    · exact Or.inl h5
    · right
      obtain ⟨k, rfl⟩ := Nat.exists_eq_add_of_le h5
      have hk : k < (lives Ta Tb p).length := by
        rw [h.states, List.length_append, List.length_map] at g1
        omega
      obtain ⟨i', hi'⟩ : ∃ i', (lives Ta Tb p)[k]? = some i' := ⟨_, List.getElem?_eq_getElem hk⟩
      have hs := hfin k hk
      rw [hi', Option.map_some] at hs
      obtain ⟨j', f', g', -, h2', -⟩ := hc.lives_here i' (List.mem_of_getElem? hi')
      rw [fk_get hs, h2'.fsa] at g2
      subst g2
      rw [← getElem_idxOf hnd k i' hi', ← getElem_idxOf hnd t i' ht]
  refine ⟨h3, h4, ⟨t, ?_, by omega, by simpa using htl, hq0, l1⟩, ⟨s1.states.length + t, ?_, hmf, hqf, l2, hor, by omega⟩⟩
  · apply first_of_le (grp_lt _ _ _) t hm0
    intro q hq
    by_contra hlt
    obtain ⟨g1, g2⟩ := mem_grp.mp hq
    obtain ⟨i', hi'⟩ : ∃ i', (lives Ta Tb p)[q]? = some i' :=
      ⟨_, List.getElem?_eq_getElem (show q < (lives Ta Tb p).length by omega)⟩
    have hs := hpre q (by omega)
    rw [hi', Option.map_some] at hs
    obtain ⟨j', f', g', h2', -⟩ := hc.lives_here i' (List.mem_of_getElem? hi')
    rw [fk_get hs, h2'.fsa] at g2
    subst g2
    have := getElem_idxOf hnd q i' hi'
    have := getElem_idxOf hnd t i' ht
    omega
  · intro t' q hq
    apply last_of_ge (grp_lt _ _ _) (s1.states.length + t) hmf ?_ t' q hq
    intro q hq
    rcases hor q hq with h5 | h5 <;> omega

/-- What is known about an arc of FSA `i`. -/
theorem Done.arc (hc : Ctx Ta Tb p) (h : Done Ta Tb p s s1 B) {i j : Nat} {f g : List (List (Arc W))}
    (hj : p.map[i]? = some j) (hf : Ta[j]? = some f) (hg : Tb[i]? = some g) {k : Nat} {c : Cand}
    (hk : s.arcs[k]? = some c) (hi : fk Tb s c.si = i) :
    ∃ i0 j0 x y dst, val Tb p s k = (⟨(gr Tb s i).idxOf c.si, dst, x.label, x.score + y.score⟩,
        base Ta j + i0, base Tb i + j0) ∧ c.ia = base Ta j + i0 ∧ c.ib = base Tb i + j0 ∧
      f.flatten[i0]? = some x ∧ g.flatten[j0]? = some y ∧ x.label = y.label ∧
      c.si ∈ gr Tb s i ∧ (pairsAt Ta Tb s i j)[(gr Tb s i).idxOf c.si]? = some (x.src, y.src) ∧
      dst < (gr Tb s i).length ∧ (pairsAt Ta Tb s i j)[dst]? = some (x.dst, y.dst) ∧
      (x.label ≠ -1 → ∀ o d st, s.states[c.si]? = some st → Leads Ta Tb p c x y st d →
        s.hash.lookup (pkey Ta Tb p d) = some o → dst = (gr Tb s i).idxOf o) := by
  have hcm : c ∈ s1.arcs := by rw [← h.arcs]; exact List.mem_of_getElem? hk
  obtain ⟨hlt, x, y, hfit, hlab⟩ := (h.inv.arcs c).mp hcm
  obtain ⟨st, d, h4, h5⟩ := hc.leads h.inv.live hfit
  have hst : s.states[c.si]? = some st := by rw [h.states, List.getElem?_append_left hlt, h4]
  have hfs : fsaOf Tb st = i := by rw [← fk_get hst, hi]
  obtain ⟨i', j', u, v, f', g', hh', hd', hu, hv, hx, hy⟩ := h5.ex
  obtain ⟨hh, hloc⟩ := here_at hj hf hg hfs hh'
  obtain ⟨hd, hdloc⟩ := here_at hj hf hg (by rw [h5.fsa, hfs]) hd'
  obtain ⟨i0, j0, a3, b3, a1, b1, a2, b2⟩ := (fits_iff hc hh h4 x y).mp hfit
  have hf0 : f ≠ [] := by
    intro he; have := hh.hu; rw [he] at this; simp at this
  have hg0 : g ≠ [] := by
    intro he; have := hh.hv; rw [he] at this; simp at this
  obtain ⟨p1, p2⟩ := pairs_get (Ta := Ta) (j := j) hst hfs
  have hv := val_get hk hst h5
  rw [hfs, a3, b3] at hv
  refine ⟨i0, j0, x, y, _, hv, a3, b3, a1, b1, hlab, p1, by rw [p2, hloc, a2, b2], ?_, ?_, ?_⟩
  · split
    · have := List.length_pos_of_mem p1
      omega
    · rename_i hne
      obtain ⟨x', y', st', d', k1, k2, k3, k4⟩ := h.whole.arcs c (by rw [h.arcs]; exact hcm)
      rw [hst] at k1
      obtain rfl := Option.some.inj k1
      obtain ⟨rfl, rfl, rfl⟩ := h5.unique k2
      obtain ⟨o, o1, o2⟩ := k4 hne
      rw [o1]
      exact List.idxOf_lt_length_of_mem (pairs_get (Ta := Ta) (j := j) o2 (by rw [h5.fsa, hfs])).1
  · split
    · rename_i he
      obtain ⟨-, -, -, qf, q1, q2, q3, q4, -⟩ := h.ends hc hj hf hg hf0 hg0
      have hpos := List.length_pos_of_mem p1
      have hlast : (gr Tb s i)[(gr Tb s i).length - 1]? = some qf := by
        have e0 := List.getElem?_eq_getElem (show (gr Tb s i).length - 1 < (gr Tb s i).length by omega)
        rw [e0, ((q1 _ _ e0).mpr (by omega))]
      have e1 := (hc.validA f (List.mem_of_getElem? hf) hf0).final_iff x (List.mem_of_getElem? a1)
      have e2 := (hc.validB g (List.mem_of_getElem? hg) hg0).final_iff y (List.mem_of_getElem? b1)
      simp only [Fsa.final, rowsFsa] at e1 e2
      rw [e1.mp he, e2.mp (hlab ▸ he), ← q4, pairsAt, List.getElem?_map, hlast, Option.map_some,
        List.getD_eq_getElem?_getD, q3]
      rfl
    · rename_i hne
      obtain ⟨x', y', st', d', k1, k2, k3, k4⟩ := h.whole.arcs c (by rw [h.arcs]; exact hcm)
      rw [hst] at k1
      obtain rfl := Option.some.inj k1
      obtain ⟨rfl, rfl, rfl⟩ := h5.unique k2
      obtain ⟨o, o1, o2⟩ := k4 hne
      rw [o1, Option.getD_some, (pairs_get (Ta := Ta) (j := j) o2 (by rw [h5.fsa, hfs])).2, hdloc]
  · intro hne o d' st' k1 k2 k3
    rw [hst] at k1
    obtain rfl := Option.some.inj k1
    obtain ⟨-, -, rfl⟩ := h5.unique k2
    rw [if_neg hne, k3]
    rfl

/-- The arc maps of FSA `i`. -/
def mapA (Ta Tb : List (List (List (Arc W)))) (p : Args W) (s : St) (i j : Nat) : List Nat :=
  (fsaArcs Tb s i).map (fun k => (val Tb p s k).2.1 - base Ta j)
def mapB (Tb : List (List (List (Arc W)))) (p : Args W) (s : St) (i : Nat) : List Nat :=
  (fsaArcs Tb s i).map (fun k => (val Tb p s k).2.2 - base Tb i)

theorem Done.rowsOk (hc : Ctx Ta Tb p) (h : Done Ta Tb p s s1 B) {i j : Nat} {f g : List (List (Arc W))}
    (hj : p.map[i]? = some j) (hf : Ta[j]? = some f) (hg : Tb[i]? = some g) :
    RowsOk (arcsOnly (outRows Tb p s i)) := by
  intro t row hrow a ha
  rw [arcsOnly, outRows, List.getElem?_map, List.getElem?_map] at hrow
  obtain ⟨l, hl, rfl⟩ := Option.map_eq_some_iff.mp hrow
  obtain ⟨q, hq, rfl⟩ := Option.map_eq_some_iff.mp hl
  obtain ⟨z, hz, rfl⟩ := List.mem_map.mp ha
  obtain ⟨k, hk, rfl⟩ := List.mem_map.mp hz
  obtain ⟨c, h1, h2⟩ := mem_arow.mp hk
  have hfk : fk Tb s c.si = i := by rw [h2]; exact (mem_grp.mp (List.mem_of_getElem? hq)).2
  obtain ⟨i0, j0, x, y, dst, e1, e2, e3, e4, e5, e6, e7, e8, e9, e10, -⟩ := h.arc hc hj hf hg h1 hfk
  rw [e1]
  refine ⟨?_, ?_⟩
  · simp only
    rw [h2]
    exact getElem_idxOf (gr_nodup i) t q hq
  · simpa [arcsOnly, outRows] using e9

/-- If the arcs that match go from one level to the next one, all arcs of FSA `i` go to a later state. -/
theorem Done.ahead (hc : Ctx Ta Tb p) (h : Done Ta Tb p s s1 B) {i j : Nat} {f g : List (List (Arc W))}
    (hj : p.map[i]? = some j) (hf : Ta[j]? = some f) (hg : Tb[i]? = some g) (lev : Nat × Nat → Nat)
    (h0 : lev (0, 0) = 0) (hlev : ∀ x ∈ f.flatten, ∀ y ∈ g.flatten, x.label = y.label → x.label ≠ -1 →
      lev (x.dst, y.dst) = lev (x.src, y.src) + 1) :
    ∀ a ∈ (arcsOnly (outRows Tb p s i)).flatten, a.src < a.dst := by
  intro a ha
  rw [arcsOnly_flatten, outRows_flatten, List.map_map] at ha
  obtain ⟨k, hk, rfl⟩ := List.mem_map.mp ha
  obtain ⟨c, hk1, hk2⟩ := (mem_fsaArcs h.whole i k).mp hk
  obtain ⟨i0, j0, x, y, dst, e1, e2, e3, e4, e5, e6, e7, e8, e9, e10, e11⟩ := h.arc hc hj hf hg hk1 hk2
  simp only [Function.comp_apply, e1]
  have hcm : c ∈ s1.arcs := by rw [← h.arcs]; exact List.mem_of_getElem? hk1
  obtain ⟨hlt, x', y', hfit, hlab⟩ := (h.inv.arcs c).mp hcm
  obtain ⟨st, d, h4, h5⟩ := hc.leads h.inv.live hfit
  have hst : s.states[c.si]? = some st := by rw [h.states, List.getElem?_append_left hlt, h4]
  have hfs : fsaOf Tb st = i := by rw [← fk_get hst, hk2]
  have hx : x' = x := by
    have q := h5.ia
    rw [hc.a, e2, arc_base Ta j i0 f hf (List.getElem?_eq_some_iff.mp e4).1, e4] at q
    exact (Option.some.inj q).symm
  have hy : y' = y := by
    have q := h5.ib
    rw [hc.b, e3, arc_base Tb i j0 g hg (List.getElem?_eq_some_iff.mp e5).1, e5] at q
    exact (Option.some.inj q).symm
  subst hx hy
  obtain ⟨i', j', u, v, f', g', hh', -⟩ := h5.ex
  obtain ⟨hh, -⟩ := here_at hj hf hg hfs hh'
  have hf0 : f ≠ [] := by
    intro he; have := hh.hu; rw [he] at this; simp at this
  have hg0 : g ≠ [] := by
    intro he; have := hh.hv; rw [he] at this; simp at this
  by_cases hne : x'.label = -1
  · -- the last state
    obtain ⟨-, -, -, qf, q1, q2, q3, q4, q5, q6⟩ := h.ends hc hj hf hg hf0 hg0
    have hlen := List.idxOf_lt_length_of_mem e7
    have hsi := List.getElem?_eq_getElem hlen
    rw [List.getElem_idxOf] at hsi
    have hne1 : ¬ (gr Tb s i).idxOf c.si + 1 = (gr Tb s i).length := by
      intro hlast
      have := (q1 _ _ hsi).mpr hlast
      omega
    have hv := val_get hk1 hst h5
    rw [hfs, if_pos hne] at hv
    rw [e1] at hv
    have hd : dst = (gr Tb s i).length - 1 := congrArg (fun z => z.1.dst) hv
    omega
  · obtain ⟨x2, y2, st2, d2, k1, k2, k3, k4⟩ := h.whole.arcs c (by rw [h.arcs]; exact hcm)
    rw [hst] at k1
    obtain rfl := Option.some.inj k1
    obtain ⟨rfl, rfl, rfl⟩ := h5.unique k2
    obtain ⟨o, o1, o2⟩ := k4 hne
    rw [e11 hne o d st hst h5 o1]
    have hdf : fsaOf Tb d = i := by rw [h5.fsa, hfs]
    have hog := (pairs_get (Ta := Ta) (j := j) o2 hdf).1
    -- the levels
    have hlevel := h.inv.level i (fun st => lev (loc Ta Tb i j st)) (by
      intro st' hst' hi'
      obtain ⟨i2, hi2, rfl⟩ := List.mem_map.mp hst'
      obtain ⟨j2, f2, g2, h1', -⟩ := hc.lives_here i2 hi2
      obtain ⟨-, l1⟩ := here_at hj hf hg hi' h1'
      simp only [l1, h0]) (by
      intro c' x' y' st' d' hle hfi he hn
      obtain ⟨i2, j2, u2, v2, f2, g2, hh2, hd2, hu2, hv2, hx2, hy2⟩ := hle.ex
      obtain ⟨a1, a2⟩ := here_at hj hf hg hfi hh2
      obtain ⟨-, b2⟩ := here_at hj hf hg (by rw [hle.fsa, hfi]) hd2
      simp only [a2, b2]
      have ei : i2 = i := by rw [← hh2.fsa, hfi]
      subst ei
      have ej := hh2.map
      rw [hj] at ej
      obtain rfl := Option.some.inj ej
      have ef := hh2.fa
      rw [hf] at ef
      obtain rfl := Option.some.inj ef
      have eg := hh2.fb
      rw [hg] at eg
      obtain rfl := Option.some.inj eg
      rw [← hu2, ← hv2]
      exact hlev x' hx2 y' hy2 he hn)
    have hblock : ∀ (q : Nat) (st' : Nat × Nat), s1.states[q]? = some st' → fsaOf Tb st' = i →
        ∃ k : Nat, (∃ row, B[lev (loc Ta Tb i j st')]? = some row ∧ k < row.length) ∧
          q = splits B (lev (loc Ta Tb i j st')) + k := by
      intro q st' hq hi'
      obtain ⟨t, row, k, a1, a2, a3⟩ := flatten_pos B q (by
        rw [← h.inv.states]; exact (List.getElem?_eq_some_iff.mp hq).1)
      have hst' : row[k]? = some st' := by
        rw [h.inv.states, a3, flatten_get B t row a1 k a2] at hq
        exact hq
      have := hlevel t row a1 st' (List.mem_of_getElem? hst') hi'
      rw [this]
      exact ⟨k, ⟨row, a1, a2⟩, a3⟩
    have hlt2 : c.si < o := by
      rcases Nat.lt_or_ge o s1.states.length with h6 | h6
      · have o3 : s1.states[o]? = some d := by rw [h.states, List.getElem?_append_left h6] at o2; exact o2
        obtain ⟨ka, ⟨ra, r1, r2⟩, r3⟩ := hblock c.si st h4 hfs
        obtain ⟨kb, ⟨rb, t1, t2⟩, t3⟩ := hblock o d o3 hdf
        obtain ⟨i2, j2, u2, v2, f2, g2, hh2, hd2, hu2, hv2, hx2, hy2⟩ := h5.ex
        obtain ⟨a1, a2⟩ := here_at hj hf hg hfs hh2
        obtain ⟨-, b2⟩ := here_at hj hf hg hdf hd2
        have := hlev x' (List.mem_of_getElem? e4) y' (List.mem_of_getElem? e5) e6 hne
        rw [a2, ← hu2, ← hv2] at r1 r3
        rw [b2, this] at t3
        rw [splits_succ B _ ra r1] at t3
        omega
      · omega
    -- positions in the list of the states of FSA `i`
    have hl1 := List.idxOf_lt_length_of_mem e7
    have hl2 := List.idxOf_lt_length_of_mem hog
    by_contra hge
    have hsort := grp_lt (fk Tb s) s.states.length i
    rw [List.pairwise_iff_getElem] at hsort
    rcases Nat.lt_or_eq_of_le (Nat.le_of_not_lt hge) with h7 | h7
    · have := hsort _ _ hl2 hl1 h7
      change (gr Tb s i)[(gr Tb s i).idxOf o] < (gr Tb s i)[(gr Tb s i).idxOf c.si] at this
      rw [List.getElem_idxOf, List.getElem_idxOf] at this
      omega
    · have q1 := List.getElem_idxOf hl1
      have q2 := List.getElem_idxOf hl2
      have : o = c.si := by
        rw [← q1, ← q2]
        congr 1
      omega

theorem Done.covers (hc : Ctx Ta Tb p) (h : Done Ta Tb p s s1 B) {i j : Nat} {f g : List (List (Arc W))}
    (hj : p.map[i]? = some j) (hf : Ta[j]? = some f) (hg : Tb[i]? = some g) (hf0 : f ≠ []) (hg0 : g ≠ []) :
    Covers (rowsFsa f) (rowsFsa g) (rowsFsa (arcsOnly (outRows Tb p s i))) (pairsAt Ta Tb s i j)
      (mapA Ta Tb p s i j) (mapB Tb p s i) := by
  obtain ⟨m1, m2, ⟨q0, a1, a2, a2', a3, a4⟩, qf, b1, b2, b3, b4, b5, b6⟩ := h.ends hc hj hf hg hf0 hg0
  have harcs : (rowsFsa (arcsOnly (outRows Tb p s i))).arcs = (fsaArcs Tb s i).map (fun k => (val Tb p s k).1) := by
    rw [rowsFsa, arcsOnly_flatten, outRows_flatten, List.map_map]
    rfl
  have hplen : (pairsAt Ta Tb s i j).length = (gr Tb s i).length := by simp [pairsAt]
  have hget : ∀ (k : Nat) (z : Arc W), (rowsFsa (arcsOnly (outRows Tb p s i))).arcs[k]? = some z →
      ∃ a c, (fsaArcs Tb s i)[k]? = some a ∧ z = (val Tb p s a).1 ∧ s.arcs[a]? = some c ∧ fk Tb s c.si = i := by
    intro k z hz
    rw [harcs, List.getElem?_map] at hz
    obtain ⟨a, ha, rfl⟩ := Option.map_eq_some_iff.mp hz
    obtain ⟨c, h1, h2⟩ := (mem_fsaArcs h.whole i a).mp (List.mem_of_getElem? ha)
    exact ⟨a, c, ha, rfl, h1, h2⟩
  refine ⟨?_, ?_, ?_, ?_, ?_, ?_, ?_, ?_, ?_, ?_⟩
  · rw [hplen]
    simp [rowsFsa, arcsOnly, outRows]
  · rw [harcs]; simp [mapA]
  · rw [harcs]; simp [mapB]
  · exact Comp.rowsOk_sorted _ (h.rowsOk hc hj hf hg)
  · rw [hplen]
    by_contra hlt
    have hpos := List.length_pos_of_mem b2
    have := (b1 0 q0 a1).mpr (by omega)
    omega
  · have hp := pairs_get (Ta := Ta) (i := i) (j := j) a3 (by
      have := (mem_grp.mp (List.mem_of_getElem? a1)).2
      rw [fk_get a3] at this
      exact this)
    rw [getElem_idxOf (gr_nodup i) 0 q0 a1, a4] at hp
    exact hp.2
  · intro t x hx
    obtain ⟨q, st, c1, c2, c3, rfl⟩ := pairs_inv hx
    rw [hplen, ← b1 t q c1]
    constructor
    · intro he
      rcases b5 q (List.mem_of_getElem? c1) with h5 | h5
      · exfalso
        rw [h.states, List.getElem?_append_left h5] at c2
        obtain ⟨i', j', u, v, f', g', hh, l1, l2⟩ := h.inv.live st (List.mem_of_getElem? c2)
        obtain ⟨hh', hl⟩ := here_at hj hf hg c3 hh
        rw [hl, Prod.mk.injEq] at he
        have ef : f' = f := by
          have q1 := hh.map
          rw [show i' = i by rw [← hh.fsa, c3], hj] at q1
          obtain rfl := Option.some.inj q1
          have := hh.fa
          rw [hf] at this
          exact (Option.some.inj this).symm
        rw [ef] at l1
        simp only [Fsa.final, rowsFsa] at he
        omega
      · exact h5
    · rintro rfl
      rw [b3] at c2
      obtain rfl := Option.some.inj c2
      exact b4
  · intro k z hz
    obtain ⟨a, c, e1, rfl, e3, e4⟩ := hget k z hz
    obtain ⟨i0, j0, x, y, dst, g1, g2, g3, g4, g5, g6, g7, g8, g9, g10, -⟩ := h.arc hc hj hf hg e3 e4
    refine ⟨i0, j0, x, y, ?_, ?_, g4, g5, ?_, ?_, g6, ?_, ?_⟩
    · rw [mapA, List.getElem?_map, e1, Option.map_some, g1]
      simp
    · rw [mapB, List.getElem?_map, e1, Option.map_some, g1]
      simp
    · rw [g1]; exact g8
    · rw [g1]; exact g10
    · rw [g1]
    · rw [g1]
  · intro t i0 j0 x y hp hx hy hl
    obtain ⟨q, st, c1, c2, c3, c4⟩ := pairs_inv hp
    have hmem := List.mem_of_getElem? c1
    have hq1 : q < s1.states.length := by
      rcases b5 q hmem with h5 | h5
      · exact h5
      · exfalso
        subst h5
        rw [b3] at c2
        obtain rfl := Option.some.inj c2
        rw [b4, Prod.mk.injEq] at c4
        have := (hc.validA f (List.mem_of_getElem? hf) hf0).src_lt x (List.mem_of_getElem? hx)
        simp only [Fsa.final, rowsFsa] at this
        omega
    have c2' : s1.states[q]? = some st := by rw [h.states, List.getElem?_append_left hq1] at c2; exact c2
    obtain ⟨i', j', u, v, f', g', hh, -⟩ := h.inv.live st (List.mem_of_getElem? c2')
    obtain ⟨hh', hloc⟩ := here_at hj hf hg c3 hh
    rw [hloc, Prod.mk.injEq] at c4
    have hfit := (fits_iff hc hh' (c := ⟨q, base Ta j + i0, base Tb i + j0⟩) c2' x y).mpr
      ⟨i0, j0, rfl, rfl, hx, hy, c4.1, c4.2⟩
    have hcm := (h.inv.arcs _).mpr ⟨hq1, x, y, hfit, hl⟩
    rw [← h.arcs] at hcm
    obtain ⟨a, ha⟩ := List.getElem?_of_mem hcm
    have hfk : fk Tb s q = i := (mem_grp.mp hmem).2
    have hafs : a ∈ fsaArcs Tb s i := (mem_fsaArcs h.whole i a).mpr ⟨_, ha, hfk⟩
    obtain ⟨k, hk⟩ := List.getElem?_of_mem hafs
    obtain ⟨i1, j1, x', y', dst, g1, g2, g3, -⟩ := h.arc hc hj hf hg ha hfk
    simp only at g2 g3
    refine ⟨k, (val Tb p s a).1, by rw [harcs, List.getElem?_map, hk]; rfl, ?_, ?_, ?_⟩
    · rw [g1]
      exact getElem_idxOf (gr_nodup i) t q c1
    · rw [mapA, List.getElem?_map, hk, Option.map_some, g1]
      simp only [Nat.add_sub_cancel_left]
      congr 1; omega
    · rw [mapB, List.getElem?_map, hk, Option.map_some, g1]
      simp only [Nat.add_sub_cancel_left]
      congr 1; omega
  · intro k k' z z' hz hz' hs ha hb
    obtain ⟨a, c, e1, rfl, e3, e4⟩ := hget k z hz
    obtain ⟨a', c', e1', rfl, e3', e4'⟩ := hget k' z' hz'
    obtain ⟨i0, j0, x, y, dst, g1, g2, g3, g4, g5, g6, g7, g8, -⟩ := h.arc hc hj hf hg e3 e4
    obtain ⟨i0', j0', x', y', dst', g1', g2', g3', g4', g5', g6', g7', g8', -⟩ := h.arc hc hj hf hg e3' e4'
    rw [mapA, List.getElem?_map, List.getElem?_map, e1, e1', Option.map_some, Option.map_some, g1, g1',
      Option.some.injEq] at ha
    rw [mapB, List.getElem?_map, List.getElem?_map, e1, e1', Option.map_some, Option.map_some, g1, g1',
      Option.some.injEq] at hb
    rw [g1, g1'] at hs
    simp only [Nat.add_sub_cancel_left] at ha hb hs
    have hsi : c.si = c'.si := (List.idxOf_inj g7).mp hs
    have hcc : c = c' := by
      cases c; cases c'
      simp only at g2 g3 g2' g3' hsi
      subst ha hb
      rw [g2, g3, g2', g3', hsi]
    subst hcc
    have haa : a = a' := by
      obtain ⟨h1, h2⟩ := List.getElem?_eq_some_iff.mp e3
      obtain ⟨h1', h2'⟩ := List.getElem?_eq_some_iff.mp e3'
      exact (List.Nodup.getElem_inj_iff h.whole.arcsNodup).mp (h2.trans h2'.symm)
    subst haa
    obtain ⟨h1, h2⟩ := List.getElem?_eq_some_iff.mp e1
    obtain ⟨h1', h2'⟩ := List.getElem?_eq_some_iff.mp e1'
    exact (List.Nodup.getElem_inj_iff (fsaArcs_nodup i)).mp (h2.trans h2'.symm)

/-- Every state but the last one is reached from the first one. -/
theorem Done.reach (hc : Ctx Ta Tb p) (h : Done Ta Tb p s s1 B) {i j : Nat} {f g : List (List (Arc W))}
    (hj : p.map[i]? = some j) (hf : Ta[j]? = some f) (hg : Tb[i]? = some g) (hf0 : f ≠ []) (hg0 : g ≠ []) :
    ∀ (n t q : Nat), q ≤ n → (gr Tb s i)[t]? = some q → t + 1 < (gr Tb s i).length →
      ∃ ks, IPath (rowsFsa (arcsOnly (outRows Tb p s i))).arcs 0 ks t := by
  obtain ⟨m1, m2, ⟨q0, a1, a2, a2', a3, a4⟩, qf, b1, b2, b3, b4, b5, b6⟩ := h.ends hc hj hf hg hf0 hg0
  have harcs : (rowsFsa (arcsOnly (outRows Tb p s i))).arcs = (fsaArcs Tb s i).map (fun k => (val Tb p s k).1) := by
    rw [rowsFsa, arcsOnly_flatten, outRows_flatten, List.map_map]
    rfl
  have hnd : (lives Ta Tb p).Nodup := (lives_lt Ta Tb p).imp (fun h => Nat.ne_of_lt h)
  intro n
  induction n with
  | zero =>
    intro t q hq ht htl
    have : q = 0 := by omega
    subst this
    have h0 : t = 0 := by
      by_contra hne
      have hmono := List.pairwise_iff_getElem.mp (grp_lt (fk Tb s) s.states.length i)
      obtain ⟨e1, e2⟩ := List.getElem?_eq_some_iff.mp ht
      have := hmono 0 t (show 0 < (gr Tb s i).length by omega) e1 (by omega)
      change (gr Tb s i)[0] < (gr Tb s i)[t] at this
      omega
    subst h0
    exact ⟨[], (ipath_nil _ _ _).mpr rfl⟩
  | succ n ih =>
    intro t q hq ht htl
    by_cases ht0 : t = 0
    · subst ht0
      exact ⟨[], (ipath_nil _ _ _).mpr rfl⟩
    have hmem := List.mem_of_getElem? ht
    obtain ⟨hqlt, hqi⟩ := mem_grp.mp hmem
    have hq1 : q < s1.states.length := by
      rcases b5 q hmem with h5 | h5
      · exact h5
      · have := (b1 t q ht).mp h5
        omega
    obtain ⟨d, hd⟩ : ∃ d, s1.states[q]? = some d := ⟨_, List.getElem?_eq_getElem hq1⟩
    have hd' : s.states[q]? = some d := by rw [h.states, List.getElem?_append_left hq1, hd]
    have hge : ((lives Ta Tb p).map (startOf Ta Tb p)).length ≤ q := by
      by_contra hlt
      have hlt' : q < (lives Ta Tb p).length := by simpa using hlt
      -- two start states of one FSA
      have hB : ∀ k i' : Nat, (lives Ta Tb p)[k]? = some i' → s.states[k]? = some (startOf Ta Tb p i') := by
        intro k i' hk
        have hkl := (List.getElem?_eq_some_iff.mp hk).1
        have hfirst := h.inv.first
        cases hB : B with
        | nil =>
          rw [hB] at hfirst
          simp only [List.headD_nil] at hfirst
          rw [List.map_eq_nil_iff.mp hfirst.symm] at hkl
          simp at hkl
        | cons b B' =>
          rw [hB, List.headD_cons] at hfirst
          rw [h.states, h.inv.states, hB, hfirst, List.flatten_cons, List.append_assoc,
            List.getElem?_append_left (by simpa using hkl), List.getElem?_map, hk]
          rfl
      have key : ∀ k i' : Nat, (lives Ta Tb p)[k]? = some i' → fk Tb s k = i' := by
        intro k i' hk
        obtain ⟨j', f', g', h2', -⟩ := hc.lives_here i' (List.mem_of_getElem? hk)
        rw [fk_get (hB k i' hk), h2'.fsa]
      have e1 := List.getElem?_eq_getElem hlt'
      have e2 := List.getElem?_eq_getElem (show q0 < (lives Ta Tb p).length by simpa using a2')
      have k1 := key q _ e1
      have k2 := key q0 _ e2
      have hq0i : fk Tb s q0 = i := (mem_grp.mp (List.mem_of_getElem? a1)).2
      have : q = q0 := (List.Nodup.getElem_inj_iff hnd).mp (k1.symm.trans (hqi.trans (hq0i.symm.trans k2)))
      subst this
      have i1 := getElem_idxOf (gr_nodup i) 0 q a1
      have i2 := getElem_idxOf (gr_nodup i) t q ht
      omega
    obtain ⟨hlook, c, hcm, hclt, x, y, st, hst, hlead, hne⟩ := h.inv.reached q d hd hge
    have hst' : s.states[c.si]? = some st := by
      rw [h.states, List.getElem?_append_left (List.getElem?_eq_some_iff.mp hst).1, hst]
    have hci : fk Tb s c.si = i := by
      rw [fk_get hst', ← hlead.fsa, ← fk_get hd', hqi]
    obtain ⟨a, ha⟩ := List.getElem?_of_mem (show c ∈ s.arcs by rw [h.arcs]; exact hcm)
    obtain ⟨i0, j0, x', y', dst, g1, g2, g3, g4, g5, g6, g7, g8, g9, g10, g11⟩ := h.arc hc hj hf hg ha hci
    have hxx : x = x' ∧ y = y' := by
      have e1 := hlead.ia
      rw [hc.a, g2, arc_base Ta j i0 f hf (List.getElem?_eq_some_iff.mp g4).1, g4] at e1
      have e2 := hlead.ib
      rw [hc.b, g3, arc_base Tb i j0 g hg (List.getElem?_eq_some_iff.mp g5).1, g5] at e2
      exact ⟨(Option.some.inj e1).symm, (Option.some.inj e2).symm⟩
    obtain ⟨rfl, rfl⟩ := hxx
    have hdst := g11 hne q d st hst' hlead (by rw [h.hash]; exact hlook)
    rw [getElem_idxOf (gr_nodup i) t q ht] at hdst
    subst hdst
    have hsi := List.idxOf_lt_length_of_mem g7
    have hsg : (gr Tb s i)[(gr Tb s i).idxOf c.si]? = some c.si := by
      rw [List.getElem?_eq_getElem hsi, List.getElem_idxOf]
    obtain ⟨ks, hks⟩ := ih _ c.si (by omega) hsg (by
      by_contra hnl
      have := (b1 _ _ hsg).mpr (by omega)
      have hcs := (List.getElem?_eq_some_iff.mp hst).1
      omega)
    obtain ⟨k, hk⟩ := List.getElem?_of_mem ((mem_fsaArcs h.whole i a).mpr ⟨c, ha, hci⟩)
    refine ⟨ks ++ [k], (Sco.ipath_snoc _ _ _ _ _).mpr ⟨(val Tb p s a).1, ?_, ?_, ?_⟩⟩
    · rw [harcs, List.getElem?_map, hk]; rfl
    · rw [g1]; exact hks
    · rw [g1]

/-- An empty FSA has no states in the output. -/
theorem Done.empty (h : Done Ta Tb p s s1 B) {i j : Nat} {f g : List (List (Arc W))}
    (hj : p.map[i]? = some j) (hf : Ta[j]? = some f) (hg : Tb[i]? = some g) (h0 : f = [] ∨ g = []) :
    gr Tb s i = [] := by
  by_contra hne
  obtain ⟨q, hq⟩ := List.exists_mem_of_ne_nil _ hne
  obtain ⟨h1, h2⟩ := mem_grp.mp hq
  have h3 := List.getElem?_eq_getElem h1
  obtain ⟨i', j', u, v, f', g', hh⟩ := h.whole.here _ (List.mem_of_getElem? h3)
  rw [fk_get h3] at h2
  obtain ⟨hh', -⟩ := here_at hj hf hg h2 hh
  have e1 := hh'.hu
  have e2 := hh'.hv
  rcases h0 with rfl | rfl
  · simp at e1
  · simp at e2

end Verif.Fsa.Idv
