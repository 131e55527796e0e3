import Verif.Fsa.Device.Format
import Verif.Fsa.Device.Cover
import Verif.Fsa.Scores.Fixed
import Verif.Fsa.Scores.Paths

/-!
# Each FSA of the output
-/

namespace Verif.Fsa.Idv
open Verif.Ragged Verif.Util Verif.Fsa.Dn Verif.Fsa.Top Verif.Fsa.Isect
variable {W : Type}
variable {Ta Tb : List (List (List (Arc W)))} {p : Args W}

/-! ## The first iteration -/

/-- Both FSAs have states. -/
def both (Ta Tb : List (List (List (Arc W)))) (p : Args W) (i : Nat) : Bool :=
  decide (0 < (Ta.getD (p.map.getD i 0) []).length) && decide (0 < (Tb.getD i []).length)

def startOf (Ta Tb : List (List (List (Arc W)))) (p : Args W) (i : Nat) : Nat × Nat :=
  (off Ta (p.map.getD i 0), off Tb i)

def finOf (Ta Tb : List (List (List (Arc W)))) (p : Args W) (i : Nat) : Nat × Nat :=
  (off Ta (p.map.getD i 0) + (Ta.getD (p.map.getD i 0) []).length - 1, off Tb i + (Tb.getD i []).length - 1)

/-- The FSAs that are not empty. -/
def lives (Ta Tb : List (List (List (Arc W)))) (p : Args W) : List Nat :=
  (List.range Tb.length).filter (both Ta Tb p)

theorem Ctx.pos (hc : Ctx Ta Tb p) (i : Nat) (hi : i < Tb.length) :
    ∃ j f g, p.map[i]? = some j ∧ p.map.getD i 0 = j ∧ Ta[j]? = some f ∧ Ta.getD j [] = f ∧ Tb[i]? = some g ∧
      Tb.getD i [] = g := by
  have h1 : i < p.map.length := by rw [hc.mapLen]; exact hi
  have h2 := hc.mapLt _ (List.getElem_mem h1)
  refine ⟨p.map[i], Ta[p.map[i]], Tb[i], List.getElem?_eq_getElem h1, ?_, List.getElem?_eq_getElem h2, ?_,
    List.getElem?_eq_getElem hi, ?_⟩
  · rw [List.getD_eq_getElem?_getD, List.getElem?_eq_getElem h1]; rfl
  · rw [List.getD_eq_getElem?_getD, List.getElem?_eq_getElem h2]; rfl
  · rw [List.getD_eq_getElem?_getD, List.getElem?_eq_getElem hi]; rfl

theorem Ctx.fsas (hc : Ctx Ta Tb p) : p.fsas = Tb.length := by
  rw [Args.fsas, hc.b, flat_sp1_length, Nat.add_sub_cancel]

theorem Ctx.firstIter (hc : Ctx Ta Tb p) :
    firstIter p = some ((lives Ta Tb p).map (startOf Ta Tb p), (lives Ta Tb p).map (finOf Ta Tb p)) := by
  have hflags : (List.range p.fsas).mapM (fun i => do
      let b0 ← p.b.sp1[i]?
      let b1 ← p.b.sp1[i + 1]?
      let j ← p.map[i]?
      let a0 ← p.a.sp1[j]?
      let a1 ← p.a.sp1[j + 1]?
      some (decide (a0 < a1) && decide (b0 < b1))) = some ((List.range Tb.length).map (both Ta Tb p)) := by
    rw [hc.fsas]
    apply mapM_map
    intro i hi
    obtain ⟨j, f, g, h1, h2, h3, h4, h5, h6⟩ := hc.pos i (List.mem_range.mp hi)
    simp only [hc.a, hc.b, flat_sp1 Tb i (by have := (List.getElem?_eq_some_iff.mp h5).1; omega),
      flat_sp1_succ Tb i g h5, h1, flat_sp1 Ta j (by have := (List.getElem?_eq_some_iff.mp h3).1; omega),
      flat_sp1_succ Ta j f h3, Option.bind_eq_bind, Option.bind_some, both, h2, h4, h6]
    simp
  have hl : ∀ i ∈ lives Ta Tb p, i < Tb.length := by
    intro i hi
    exact List.mem_range.mp (List.mem_filter.mp hi).1
  unfold Idv.firstIter
  simp only [Option.bind_eq_bind] at hflags ⊢
  simp only [hflags, Option.bind_some, new2old_spec, List.length_map, List.length_range]
  rw [Idv.sel_filter, ← lives]
  rw [mapM_map (lives Ta Tb p) _ (startOf Ta Tb p), Option.bind_some, mapM_map (lives Ta Tb p) _ (finOf Ta Tb p),
    Option.bind_some]
  · intro i hi
    obtain ⟨j, f, g, h1, h2, h3, h4, h5, h6⟩ := hc.pos i (hl i hi)
    simp only [hc.a, hc.b, flat_sp1_succ Tb i g h5, h1, flat_sp1_succ Ta j f h3, Option.bind_some, finOf,
      h2, h4, h6]
  · intro i hi
    obtain ⟨j, f, g, h1, h2, h3, h4, h5, h6⟩ := hc.pos i (hl i hi)
    simp only [hc.a, hc.b, flat_sp1 Tb i (by have := (List.getElem?_eq_some_iff.mp h5).1; omega), h1,
      flat_sp1 Ta j (by have := (List.getElem?_eq_some_iff.mp h3).1; omega), Option.bind_some, startOf, h2]

theorem Ctx.lives_here (hc : Ctx Ta Tb p) (i : Nat) (hi : i ∈ lives Ta Tb p) :
    ∃ j f g, Here Ta Tb p i j 0 0 f g (startOf Ta Tb p i) ∧
      Here Ta Tb p i j (f.length - 1) (g.length - 1) f g (finOf Ta Tb p i) ∧ 2 ≤ f.length ∧ 2 ≤ g.length := by
  obtain ⟨h0, hb⟩ := List.mem_filter.mp hi
  obtain ⟨j, f, g, h1, h2, h3, h4, h5, h6⟩ := hc.pos i (List.mem_range.mp h0)
  rw [both, h2, h4, h6, Bool.and_eq_true, decide_eq_true_eq, decide_eq_true_eq] at hb
  have v1 := (hc.validA f (List.mem_of_getElem? h3) (List.ne_nil_of_length_pos hb.1)).two
  have v2 := (hc.validB g (List.mem_of_getElem? h5) (List.ne_nil_of_length_pos hb.2)).two
  refine ⟨j, f, g, ⟨h1, h3, h5, hb.1, hb.2, ?_⟩, ⟨h1, h3, h5, by omega, by omega, ?_⟩, v1, v2⟩
  · rw [startOf, h2]; rfl
  · rw [finOf, h2, h4, h6]
    congr 1 <;> omega

theorem lives_lt (Ta Tb : List (List (List (Arc W)))) (p : Args W) : (lives Ta Tb p).Pairwise (· < ·) :=
  List.pairwise_lt_range.filter _

theorem Ctx.start (hc : Ctx Ta Tb p) :
    Inv Ta Tb p ((lives Ta Tb p).map (startOf Ta Tb p)) ⟨(lives Ta Tb p).map (startOf Ta Tb p), [], [],
      [0, ((lives Ta Tb p).map (startOf Ta Tb p)).length]⟩ ([] ++ [(lives Ta Tb p).map (startOf Ta Tb p)])
      ([] : List (List (Nat × Nat))).flatten.length := by
  refine ⟨by simp, by simp [psum, psumFrom], by simp, ?_, ?_, List.nodup_nil, List.Pairwise.nil, ?_, by simp, ?_, by simp, ?_, ?_, ?_⟩
  · intro st hst
    obtain ⟨i, hi, rfl⟩ := List.mem_map.mp hst
    obtain ⟨j, f, g, h1, -, h2, h3⟩ := hc.lives_here i hi
    exact ⟨i, j, 0, 0, f, g, h1, by omega, by omega⟩
  · intro l hl
    simp only [List.nil_append, List.mem_singleton] at hl
    subst hl
    rw [List.pairwise_map]
    refine (lives_lt Ta Tb p).imp_of_mem ?_
    intro i i' hi hi' hlt
    obtain ⟨j, f, g, h1, -⟩ := hc.lives_here i hi
    obtain ⟨j', f', g', h1', -⟩ := hc.lives_here i' hi'
    rw [h1.fsa, h1'.fsa]
    omega
  · intro c
    simp
  · intro k o h
    simp at h
  · intro c hcm
    simp at hcm
  · intro o d h hge
    simp only at h
    rw [List.getElem?_eq_none hge] at h
    exact absurd h (by simp)
  · intro i lev h0 _ t l hl d hd hi
    rw [List.nil_append, List.getElem?_singleton] at hl
    split at hl
    · rename_i ht
      obtain rfl := Option.some.inj hl
      rw [ht]
      exact h0 d hd hi
    · exact absurd hl (by simp)

/-! ## The states and arcs before they are reordered -/

/-- The last iteration and what is known about the others. -/
structure Done (Ta Tb : List (List (List (Arc W)))) (p : Args W) (s : St) (s1 : St) (B : List (List (Nat × Nat))) : Prop where
  inv : Inv Ta Tb p ((lives Ta Tb p).map (startOf Ta Tb p)) s1 B s1.states.length
  states : s.states = s1.states ++ (lives Ta Tb p).map (finOf Ta Tb p)
  arcs : s.arcs = s1.arcs
  hash : s.hash = s1.hash
  whole : Whole Ta Tb p s (B ++ [(lives Ta Tb p).map (finOf Ta Tb p)])

theorem Ctx.last (hc : Ctx Ta Tb p) (s1 : St) (B : List (List (Nat × Nat)))
    (h : Inv Ta Tb p ((lives Ta Tb p).map (startOf Ta Tb p)) s1 B s1.states.length) :
    ∃ s, lastIter ((lives Ta Tb p).map (finOf Ta Tb p)) s1 = some s ∧ Done Ta Tb p s s1 B := by
  have hl : s1.iters.getLast? = some s1.states.length := by
    rw [h.iters, h.states, List.length_flatten]
    rw [List.getLast?_eq_getElem?]
    exact psum_last _
  unfold lastIter
  rw [if_pos hl]
  refine ⟨_, rfl, h, rfl, rfl, rfl, ?_⟩
  refine ⟨?_, ?_, ?_, ?_, h.arcsNodup, h.arcsSorted, ?_⟩
  · simp only
    rw [h.states]; simp
  · simp only
    rw [h.iters, List.map_append, h.states, List.length_flatten]
    apply List.ext_getElem?
    intro i
    rcases Nat.lt_trichotomy i (B.length + 1) with h1 | h1 | h1
    · rw [List.getElem?_append_left (by simp; omega), psum_get _ _ (by simp; omega), psum_get _ _ (by simp; omega),
        List.take_append_of_le_length (by simp; omega)]
    · subst h1
      rw [List.getElem?_append_right (by simp), psum_get _ _ (by simp), List.take_of_length_le (by simp)]
      simp
    · rw [List.getElem?_eq_none (by simp; omega), List.getElem?_eq_none (by simp; omega)]
  · intro st hst
    rcases List.mem_append.mp hst with h1 | h1
    · obtain ⟨i, j, u, v, f, g, hh, -⟩ := h.live st h1
      exact ⟨i, j, u, v, f, g, hh⟩
    · obtain ⟨i, hi, rfl⟩ := List.mem_map.mp h1
      obtain ⟨j, f, g, -, h2, -⟩ := hc.lives_here i hi
      exact ⟨i, j, _, _, f, g, h2⟩
  · intro l hl
    rcases List.mem_append.mp hl with h1 | h1
    · exact h.bySeq l h1
    · rw [List.mem_singleton.mp h1, List.pairwise_map]
      refine (lives_lt Ta Tb p).imp_of_mem ?_
      intro i i' hi hi' hlt
      obtain ⟨j, f, g, -, h1, -⟩ := hc.lives_here i hi
      obtain ⟨j', f', g', -, h1', -⟩ := hc.lives_here i' hi'
      rw [h1.fsa, h1'.fsa]
      omega
  · intro c hcm
    simp only at hcm ⊢
    obtain ⟨h1, x, y, h2, h3⟩ := (h.arcs c).mp hcm
    obtain ⟨st, d, h4, h5⟩ := hc.leads h.live h2
    refine ⟨x, y, st, d, by rw [List.getElem?_append_left h1, h4], h5, h3, ?_⟩
    intro hne
    obtain ⟨o, ho⟩ := h.entered c hcm x y st d h4 h5 hne
    obtain ⟨d', g1, g2⟩ := h.hashVal _ o ho
    have hd : d' = d := Live.inj hc (h.live d' (List.mem_of_getElem? g1)) (h5.live hc h3 hne) g2
    subst hd
    exact ⟨o, ho, by rw [List.getElem?_append_left (List.getElem?_eq_some_iff.mp g1).1, g1]⟩

/-! ## One FSA -/

theorem getElem_idxOf {l : List Nat} (hn : l.Nodup) (s q : Nat) : l[s]? = some q → l.idxOf q = s := by
  intro h
  obtain ⟨h1, h2⟩ := List.getElem?_eq_some_iff.mp h
  rw [← h2]
  exact List.Nodup.idxOf_getElem hn _ h1

theorem first_of_le {l : List Nat} (hl : l.Pairwise (· < ·)) (m : Nat) (hm : m ∈ l) (h : ∀ q ∈ l, m ≤ q) :
    l[0]? = some m := by
  cases l with
  | nil => simp at hm
  | cons x l =>
    rw [List.pairwise_cons] at hl
    rcases List.mem_cons.mp hm with rfl | h1
    · rfl
    · have := hl.1 m h1
      have := h x (by simp)
      omega

theorem last_of_ge {l : List Nat} (hl : l.Pairwise (· < ·)) (m : Nat) (hm : m ∈ l) (h : ∀ q ∈ l, q ≤ m) (s q : Nat)
    (hs : l[s]? = some q) : q = m ↔ s + 1 = l.length := by
  obtain ⟨h1, rfl⟩ := List.getElem?_eq_some_iff.mp hs
  obtain ⟨t, h2⟩ := List.getElem?_of_mem hm
  obtain ⟨h3, h4⟩ := List.getElem?_eq_some_iff.mp h2
  have hmono := List.pairwise_iff_getElem.mp hl
  have ht : t + 1 = l.length := by
    by_contra hne
    have := hmono t (t + 1) h3 (by omega) (by omega)
    have := h _ (List.getElem_mem (show t + 1 < l.length by omega))
    omega
  constructor
  · intro he
    rcases Nat.lt_trichotomy s t with h5 | h5 | h5
    · have := hmono s t h1 h3 h5; omega
    · omega
    · omega
  · intro he
    have : s = t := by omega
    subst this
    exact h4

theorem arc_base (T : List (List (List (Arc W)))) (r k : Nat) (f : List (List (Arc W))) (hf : T[r]? = some f)
    (hk : k < f.flatten.length) : (flat T).arcs[base T r + k]? = f.flatten[k]? := by
  have := row_at (T.map List.flatten) r k f.flatten (by rw [List.getElem?_map, hf]; rfl) hk
  rw [← List.flatten_flatten, List.map_map] at this
  exact this

theorem fits_iff (hc : Ctx Ta Tb p) {S : List (Nat × Nat)} {i j u v : Nat} {f g : List (List (Arc W))} {st : Nat × Nat}
    (hh : Here Ta Tb p i j u v f g st) {c : Cand} (hst : S[c.si]? = some st) (x y : Arc W) :
    Fits Ta Tb S c x y ↔ ∃ i0 j0 : Nat, c.ia = base Ta j + i0 ∧ c.ib = base Tb i + j0 ∧ f.flatten[i0]? = some x ∧
      g.flatten[j0]? = some y ∧ x.src = u ∧ y.src = v := by
  have ea : Ta.flatten[st.1]? = some (ra Ta st) := ra_get hh.lt1
  have eb : Tb.flatten[st.2]? = some (rb Tb st) := rb_get hh.lt2
  have s1 : st.1 = off Ta j + u := by rw [hh.eq]
  have s2 : st.2 = off Tb i + v := by rw [hh.eq]
  have fu : f[u]? = some (ra Ta st) := by
    rw [← state_at Ta j u f hh.fa hh.hu, ← s1, ea]
  have gv : g[v]? = some (rb Tb st) := by
    rw [← state_at Tb i v g hh.fb hh.hv, ← s2, eb]
  have la := Sco.leaving_mem Ta hc.okA j u f hh.fa _ fu
  have lb := Sco.leaving_mem Tb hc.okB i v g hh.fb _ gv
  constructor
  · rintro ⟨st', hst', ka, kb, h1, h2, h3, h4⟩
    rw [hst] at hst'
    obtain rfl := Option.some.inj hst'
    have hka := (List.getElem?_eq_some_iff.mp h1).1
    have hkb := (List.getElem?_eq_some_iff.mp h2).1
    obtain ⟨i0, x', a1, a2, a3⟩ := (la c.ia).mp (by rw [List.mem_range'_1, h3, s1]; omega)
    obtain ⟨j0, y', b1, b2, b3⟩ := (lb c.ib).mp (by rw [List.mem_range'_1, h4, s2]; omega)
    have ex : x = x' := by
      have e1 := flat_arc Ta st.1 ka _ ea hka
      rw [h1] at e1
      have e2 := arc_base Ta j i0 f hh.fa (List.getElem?_eq_some_iff.mp a1).1
      rw [a1] at e2
      have e3 : (flat Ta).arcs[c.ia]? = some x := by rw [h3]; exact e1
      rw [a3] at e3
      exact Option.some.inj (e3.symm.trans e2)
    have ey : y = y' := by
      have e1 := flat_arc Tb st.2 kb _ eb hkb
      rw [h2] at e1
      have e2 := arc_base Tb i j0 g hh.fb (List.getElem?_eq_some_iff.mp b1).1
      rw [b1] at e2
      have e3 : (flat Tb).arcs[c.ib]? = some y := by rw [h4]; exact e1
      rw [b3] at e3
      exact Option.some.inj (e3.symm.trans e2)
    subst ex ey
    exact ⟨i0, j0, a3, b3, a1, b1, of_decide_eq_true a2, of_decide_eq_true b2⟩
  · rintro ⟨i0, j0, a3, b3, a1, b1, a2, b2⟩
    have m1 := (la c.ia).mpr ⟨i0, x, a1, decide_eq_true a2, a3⟩
    have m2 := (lb c.ib).mpr ⟨j0, y, b1, decide_eq_true b2, b3⟩
    rw [List.mem_range'_1, ← s1] at m1
    rw [List.mem_range'_1, ← s2] at m2
    refine ⟨st, hst, c.ia - apos Ta st.1, c.ib - apos Tb st.2, ?_, ?_, by omega, by omega⟩
    · have e1 := flat_arc Ta st.1 (c.ia - apos Ta st.1) _ ea (by omega)
      rw [show apos Ta st.1 + (c.ia - apos Ta st.1) = c.ia by omega, a3] at e1
      have e2 := arc_base Ta j i0 f hh.fa (List.getElem?_eq_some_iff.mp a1).1
      rw [a3, ← e1, ← a1, ← e2]
      rfl
    · have e1 := flat_arc Tb st.2 (c.ib - apos Tb st.2) _ eb (by omega)
      rw [show apos Tb st.2 + (c.ib - apos Tb st.2) = c.ib by omega, b3] at e1
      have e2 := arc_base Tb i j0 g hh.fb (List.getElem?_eq_some_iff.mp b1).1
      rw [b3, ← e1, ← b1, ← e2]
      rfl

end Verif.Fsa.Idv
