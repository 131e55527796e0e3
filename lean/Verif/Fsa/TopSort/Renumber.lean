import Verif.Fsa.TopSort.Order
import Verif.Fsa.Connect.Props

/-!
`RenumberFsaVec` with an order that permutes the states of each FSA.
-/

namespace Verif.Fsa.Top
open Verif.Ragged Verif.Util
variable {W X : Type}

/-- An arc with its states renumbered: state `ord[i]` becomes state `i`. -/
def moveArc (ord : List Nat) (a : Arc W) : Arc W := ⟨ord.idxOf a.src, ord.idxOf a.dst, a.label, a.score⟩

/-- The FSA with its states in the order `ord`. -/
def permFsa (ord : List Nat) (f : List (List (Arc W))) : List (List (Arc W)) :=
  ord.map (fun s => (f.getD s []).map (moveArc ord))

/-- The number of arcs before those of state `s`. -/
def lpos (f : List (List X)) (s : Nat) : Nat := ((f.map List.length).take s).sum

/-- The positions of the arcs of `permFsa ord f` in `f`. -/
def permMap (ord : List Nat) (f : List (List X)) : List Nat :=
  ord.flatMap (fun s => List.range' (lpos f s) (f.getD s []).length)

theorem permFsa_length (ord : List Nat) (f : List (List (Arc W))) : (permFsa ord f).length = ord.length := by
  rw [permFsa, List.length_map]

theorem oldToNew_eq (order : List Nat) (i : Nat) (o2n : List (Option Nat)) (hnd : order.Nodup)
    (h : ∀ s ∈ order, o2n[s]? = some none) :
    ∃ out, oldToNew order i o2n = some out ∧
      (∀ k s, order[k]? = some s → out[s]? = some (some (i + k))) ∧
      ∀ s, s ∉ order → out[s]? = o2n[s]? := by
  induction order generalizing i o2n with
  | nil => exact ⟨o2n, rfl, by simp, fun _ _ => rfl⟩
  | cons x order ih =>
    obtain ⟨hx, hnd⟩ := List.nodup_cons.mp hnd
    have h0 := h x List.mem_cons_self
    have hlt := (List.getElem?_eq_some_iff.mp h0).1
    obtain ⟨out, h1, h2, h3⟩ := ih (i + 1) (o2n.set x (some i)) hnd (by
      intro s hs
      rw [List.getElem?_set_ne (by rintro rfl; exact hx hs)]
      exact h s (List.mem_cons_of_mem _ hs))
    refine ⟨out, ?_, ?_, ?_⟩
    · rw [oldToNew]; simp only [h0]; exact h1
    · intro k s hk
      cases k with
      | zero =>
        obtain rfl : x = s := by simpa using hk
        rw [h3 x hx, List.getElem?_set_self hlt]; rfl
      | succ k =>
        rw [h2 k s (by simpa using hk)]
        congr 2; omega
    · intro s hs
      rw [List.mem_cons, not_or] at hs
      rw [h3 s hs.2, List.getElem?_set_ne (Ne.symm hs.1)]

/-- The position of an arc is its position in its FSA plus the number of arcs of the FSAs before. -/
theorem apos_local (T : List (List (List X))) (r s : Nat) (f : List (List X)) (hf : T[r]? = some f)
    (hs : s ≤ f.length) :
    apos T (off T r + s) = ((T.map (fun f => f.flatten.length)).take r).sum + lpos f s := by
  induction T generalizing r with
  | nil => simp at hf
  | cons g T ih =>
    cases r with
    | zero =>
      obtain rfl : g = f := by simpa using hf
      unfold apos off lpos
      rw [List.flatten_cons, List.map_append]
      simp only [List.take_zero, List.sum_nil, Nat.zero_add]
      rw [List.take_append_of_le_length (by rw [List.length_map]; exact hs)]
    | succ r =>
      have hf' : T[r]? = some f := by simpa using hf
      have := ih r hf'
      unfold apos off at *
      rw [List.flatten_cons, List.map_append, List.map_cons, List.map_cons, List.take_succ_cons,
        List.sum_cons, List.take_succ_cons, List.sum_cons]
      rw [show g.length + ((T.map List.length).take r).sum + s = (g.map List.length).length +
        (((T.map List.length).take r).sum + s) from by rw [List.length_map]; omega,
        List.take_length_add_append, List.sum_append, this, List.length_flatten]
      omega

section
variable (P : List (List Nat × List (List (Arc W))))

/-- The FSAs after renumbering. -/
def permVec : List (List (List (Arc W))) := P.map (fun p => permFsa p.1 p.2)

/-- The order of the states of the vector. -/
def wholeOrder : List Nat :=
  (P.zipIdx.map (fun p => p.1.1.map (off (P.map Prod.snd) p.2 + ·))).flatten

variable {P}
variable (hP : ∀ p ∈ P, p.1.Perm (List.range p.2.length))
include hP

theorem permVec_lengths : (permVec P).map List.length = (P.map Prod.snd).map List.length := by
  unfold permVec
  rw [List.map_map, List.map_map]
  apply List.map_congr_left
  intro p hp
  simp only [Function.comp_apply, permFsa_length]
  rw [(hP p hp).length_eq, List.length_range]

theorem permVec_off (r : Nat) : off (permVec P) r = off (P.map Prod.snd) r := by
  unfold off; rw [permVec_lengths hP]

theorem wholeOrder_rows : (P.zipIdx.map (fun p => p.1.1.map (off (P.map Prod.snd) p.2 + ·))).map List.length =
    (P.map Prod.snd).map List.length := by
  apply List.ext_getElem
  · simp
  · intro i h1 h2
    have hi : i < P.length := by simpa using h2
    have := (hP P[i] (List.getElem_mem hi)).length_eq
    rw [List.length_range] at this
    simpa using this

theorem wholeOrder_get (r : Nat) (p : List Nat × List (List (Arc W))) (hp : P[r]? = some p) (q s : Nat)
    (hq : p.1[q]? = some s) :
    (wholeOrder P)[off (P.map Prod.snd) r + q]? = some (off (P.map Prod.snd) r + s) := by
  have hql := (List.getElem?_eq_some_iff.mp hq).1
  have := row_at (P.zipIdx.map (fun p => p.1.1.map (off (P.map Prod.snd) p.2 + ·))) r q
    (p.1.map (off (P.map Prod.snd) r + ·)) (by
      rw [List.getElem?_map, List.getElem?_zipIdx, hp]; simp) (by simpa using hql)
  rw [wholeOrder_rows hP] at this
  rw [wholeOrder, show off (P.map Prod.snd) r = (((P.map Prod.snd).map List.length).take r).sum from rfl,
    this, List.getElem?_map, hq]
  rfl

theorem wholeOrder_length : (wholeOrder P).length = (P.map Prod.snd).flatten.length := by
  rw [wholeOrder, List.length_flatten, wholeOrder_rows hP, List.length_flatten]

theorem wholeOrder_pos (i : Nat) (h : i < (P.map Prod.snd).flatten.length) :
    ∃ (r : Nat) (p : List Nat × List (List (Arc W))) (q s : Nat), P[r]? = some p ∧ p.1[q]? = some s ∧
      s < p.2.length ∧ q < p.2.length ∧ i = off (P.map Prod.snd) r + q := by
  obtain ⟨r, f, q, hf, hq, rfl⟩ := state_pos _ i h
  rw [List.getElem?_map] at hf
  obtain ⟨p, hp, rfl⟩ := Option.map_eq_some_iff.mp hf
  have hperm := hP p (List.mem_of_getElem? hp)
  have hl : p.1.length = p.2.length := by rw [hperm.length_eq, List.length_range]
  have hs := List.getElem?_eq_getElem (show q < p.1.length by omega)
  have := hperm.mem_iff.mp (List.mem_of_getElem? hs)
  exact ⟨r, p, q, _, hp, hs, List.mem_range.mp this, hq, rfl⟩

theorem wholeOrder_nodup : (wholeOrder P).Nodup := by
  rw [List.nodup_iff_getElem?_ne_getElem?]
  intro i j hij hj he
  rw [wholeOrder_length hP] at hj
  obtain ⟨r, p, q, s, hp, hq, hs, hq2, rfl⟩ := wholeOrder_pos hP i (by omega)
  obtain ⟨r', p', q', s', hp', hq', hs', hq2', rfl⟩ := wholeOrder_pos hP j hj
  rw [wholeOrder_get hP r p hp q s hq, wholeOrder_get hP r' p' hp' q' s' hq'] at he
  obtain ⟨rfl, rfl⟩ := off_inj _ r r' s s' p.2 p'.2 (by rw [List.getElem?_map, hp]; rfl)
    (by rw [List.getElem?_map, hp']; rfl) hs hs' (Option.some.inj he)
  rw [hp] at hp'
  obtain rfl := Option.some.inj hp'
  have hnd := (hP p (List.mem_of_getElem? hp)).nodup_iff.mpr List.nodup_range
  have := (List.nodup_iff_injective_get.mp hnd)
  obtain ⟨h1, h2⟩ := List.getElem?_eq_some_iff.mp hq
  obtain ⟨h3, h4⟩ := List.getElem?_eq_some_iff.mp hq'
  have := this (a₁ := ⟨q, h1⟩) (a₂ := ⟨q', h3⟩) (by simp [h2, h4])
  have := Fin.mk.inj_iff.mp this
  omega

theorem wholeOrder_lt (s : Nat) (hs : s ∈ wholeOrder P) : s < (P.map Prod.snd).flatten.length := by
  obtain ⟨i, hi⟩ := List.getElem?_of_mem hs
  have hlt := (List.getElem?_eq_some_iff.mp hi).1
  rw [wholeOrder_length hP] at hlt
  obtain ⟨r, p, q, s', hp, hq, hs', _, rfl⟩ := wholeOrder_pos hP i hlt
  rw [wholeOrder_get hP r p hp q s' hq] at hi
  rw [← Option.some.inj hi]
  exact off_lt _ r s' p.2 (by rw [List.getElem?_map, hp]; rfl) hs'

/-- The row of a state of the result. -/
theorem permVec_row (r : Nat) (p : List Nat × List (List (Arc W))) (hp : P[r]? = some p) (q s : Nat)
    (hq : p.1[q]? = some s) :
    (permVec P).flatten[off (P.map Prod.snd) r + q]? = some ((p.2.getD s []).map (moveArc p.1)) := by
  have hql := (List.getElem?_eq_some_iff.mp hq).1
  rw [← permVec_off hP, state_at (permVec P) r q (permFsa p.1 p.2) (by
    rw [permVec, List.getElem?_map, hp]; rfl) (by rw [permFsa_length]; exact hql), permFsa,
    List.getElem?_map, hq]
  rfl

end

theorem idxOf_get (l : List Nat) (hnd : l.Nodup) (q s : Nat) (h : l[q]? = some s) : l.idxOf s = q := by
  obtain ⟨hq, rfl⟩ := List.getElem?_eq_some_iff.mp h
  exact hnd.idxOf_getElem q hq

theorem renumberVec_eq (P : List (List Nat × List (List (Arc W))))
    (hP : ∀ p ∈ P, p.1.Perm (List.range p.2.length)) (hT : VecOk (P.map Prod.snd)) :
    renumberVec (flat (P.map Prod.snd)) (wholeOrder P) =
      some (flat (permVec P), joinMaps (P.map Prod.snd) (P.map (fun p => permMap p.1 p.2))) := by
  set T := P.map Prod.snd with hTd
  set order := wholeOrder P with hord
  have hget : ∀ (r : Nat) p, P[r]? = some p → T[r]? = some p.2 := by
    intro r p hp; rw [hTd, List.getElem?_map, hp]; rfl
  have hlen : order.length = T.flatten.length := wholeOrder_length hP
  have hwpos : ∀ i, i < T.flatten.length → ∃ (r : Nat) (p : List Nat × List (List (Arc W))) (q s : Nat),
      P[r]? = some p ∧ p.1[q]? = some s ∧ s < p.2.length ∧ q < p.2.length ∧ i = off T r + q :=
    wholeOrder_pos hP
  have hwget : ∀ (r : Nat) (p : List Nat × List (List (Arc W))), P[r]? = some p → ∀ q s : Nat,
      p.1[q]? = some s → order[off T r + q]? = some (off T r + s) := wholeOrder_get hP
  have hprow : ∀ (r : Nat) (p : List Nat × List (List (Arc W))), P[r]? = some p → ∀ q s : Nat,
      p.1[q]? = some s → (permVec P).flatten[off T r + q]? = some ((p.2.getD s []).map (moveArc p.1)) :=
    permVec_row hP
  obtain ⟨o2n, e1, h2, _⟩ := oldToNew_eq order 0 (List.replicate (flat T).id1.length none)
    (wholeOrder_nodup hP) (by
      intro s hs
      rw [List.getElem?_replicate, if_pos (by rw [flat_id1_length]; exact wholeOrder_lt hP s hs)])
  have ho2n : ∀ (r : Nat) p, P[r]? = some p → ∀ s, s < p.2.length →
      o2n[off T r + s]? = some (some (off T r + p.1.idxOf s)) := by
    intro r p hp s hs
    have hperm := hP p (List.mem_of_getElem? hp)
    have hmem : s ∈ p.1 := hperm.mem_iff.mpr (List.mem_range.mpr hs)
    have := h2 (off T r + p.1.idxOf s) (off T r + s) (hwget r p hp _ s
      (by rw [List.getElem?_eq_getElem (List.idxOf_lt_length_iff.mpr hmem), List.getElem_idxOf]))
    rw [this, Nat.zero_add]
  -- the row of a state of the result, in the input
  have hrow : ∀ (r : Nat) p, P[r]? = some p → ∀ s, s < p.2.length →
      T.flatten[off T r + s]? = some (p.2.getD s []) := by
    intro r p hp s hs
    rw [state_at T r s p.2 (hget r p hp) hs, List.getD_eq_getElem?_getD, List.getElem?_eq_getElem hs]; rfl
  have e2 : order.mapM (fun s => ((flat T).sp2[s]?).bind fun b => ((flat T).sp2[s + 1]?).bind fun e =>
      some (e - b)) = some ((permVec P).flatten.map List.length) := by
    have hQl : (permVec P).flatten.length = T.flatten.length := by
      rw [List.length_flatten, List.length_flatten, permVec_lengths hP]
    apply mapM_some_of
    · rw [List.length_map, hQl, hlen]
    · intro i b hb
      have hlt := (List.getElem?_eq_some_iff.mp hb).1
      rw [hlen] at hlt
      obtain ⟨r, p, q, s, hp, hq, hs, _, rfl⟩ := hwpos i hlt
      rw [hwget r p hp q s hq] at hb
      obtain rfl := Option.some.inj hb
      have hr := hrow r p hp s hs
      have hbound := (List.getElem?_eq_some_iff.mp hr).1
      rw [flat_sp2 T _ (by omega), flat_sp2_succ T _ _ hr, Option.bind_some, Option.bind_some,
        List.getElem?_map, hprow r p hp q s hq, Option.map_some, List.length_map]
      congr 1; omega
  have e3 : renLayer1 (flat T) order = some ((flat T).sp1, (flat T).id1) := by
    rw [renLayer1, if_pos (by rw [hlen, flat_id1_length])]
  have hsum : ((permVec P).flatten.map List.length).sum = (permVec P).flatten.flatten.length := by
    rw [List.length_flatten]
  have e4 : runningSums 0 ((permVec P).flatten.map List.length) = (flat (permVec P)).sp2 :=
    runningSums_eq 0 _
  have e5 : rowSplitsToRowIds (flat (permVec P)).sp2 ((permVec P).flatten.map List.length).sum =
      some (flat (permVec P)).id2 := rowSplitsToRowIds_psum _
  have hsp1 : (flat (permVec P)).sp1 = (flat T).sp1 := by
    show psum ((permVec P).map List.length) = psum (T.map List.length)
    rw [permVec_lengths hP]
  have hid1 : (flat (permVec P)).id1 = (flat T).id1 := by
    show idsFrom 0 ((permVec P).map List.length) = idsFrom 0 (T.map List.length)
    rw [permVec_lengths hP]
  set m := joinMaps T (P.map (fun p => permMap p.1 p.2)) with hm
  -- the arc map as one list of ranges
  have hmrows : m = ((order.map (fun g => List.range' (apos T g) (T.flatten.getD g []).length))).flatten := by
    rw [hm, joinMaps, hord, wholeOrder, List.map_flatten, List.flatten_flatten]
    congr 1
    rw [← hTd]
    apply List.ext_getElem?
    intro r
    simp only [List.getElem?_map, List.getElem?_zipIdx, List.getElem?_zipWith]
    cases hp : P[r]? with
    | none =>
      simp only [Option.map_none]
      cases (psum (T.map fun f => f.flatten.length))[r]? <;> rfl
    | some p =>
      have hr := (List.getElem?_eq_some_iff.mp hp).1
      rw [psum_get _ r (by simp [hTd]; omega)]
      simp only [Option.map_some, Function.comp_apply, permMap, List.map_flatMap, List.map_map, Nat.zero_add]
      congr 1
      rw [List.flatMap_def]
      congr 1
      apply List.map_congr_left
      intro s hs
      have hsl : s < p.2.length :=
        List.mem_range.mp ((hP p (List.mem_of_getElem? hp)).mem_iff.mp hs)
      simp only [Function.comp_apply]
      rw [List.map_add_range', apos_local T r s p.2 (hget r p hp) (Nat.le_of_lt hsl),
        List.getD_eq_getElem?_getD (l := T.flatten), hrow r p hp s hsl, Option.getD_some]
  have hmlens : (order.map (fun g => List.range' (apos T g) (T.flatten.getD g []).length)).map List.length =
      (permVec P).flatten.map List.length := by
    have hQl : (permVec P).flatten.length = T.flatten.length := by
      rw [List.length_flatten, List.length_flatten, permVec_lengths hP]
    apply List.ext_getElem?
    intro i
    by_cases hi : i < T.flatten.length
    · obtain ⟨r, p, q, s, hp, hq, hs, _, rfl⟩ := hwpos i hi
      rw [List.getElem?_map, List.getElem?_map, List.getElem?_map, hwget r p hp q s hq,
        hprow r p hp q s hq, Option.map_some, Option.map_some, Option.map_some,
        List.length_range', List.length_map, List.getD_eq_getElem?_getD, hrow r p hp s hs,
        Option.getD_some]
    · rw [List.getElem?_eq_none (by rw [List.length_map, List.length_map]; omega),
        List.getElem?_eq_none (by rw [List.length_map]; omega)]
  have hml : m.length = (permVec P).flatten.flatten.length := by
    rw [hmrows, List.length_flatten, hmlens, ← List.length_flatten]
  have e6 : (List.range ((permVec P).flatten.map List.length).sum).mapM
      (renArcAt (flat T) order o2n (flat T).sp1 (flat T).id1 (flat (permVec P)).sp2 (flat (permVec P)).id2) =
      some ((permVec P).flatten.flatten.zip m) := by
    apply mapM_some_of
    · rw [List.length_zip, hml, List.length_range, hsum, Nat.min_self]
    · intro i b hb
      obtain ⟨hlt, hb⟩ := List.getElem?_eq_some_iff.mp hb
      rw [List.getElem_range] at hb; subst hb; rw [List.length_range, hsum] at hlt
      obtain ⟨g, row, k, hg, hk, rfl⟩ := arc_pos2 (permVec P) i hlt
      have hgl := (List.getElem?_eq_some_iff.mp hg).1
      have hgT : g < T.flatten.length := by
        rw [List.length_flatten] at hgl ⊢; rw [permVec_lengths hP] at hgl; exact hgl
      obtain ⟨r, p, q, s, hp, hq, hs, hq2, rfl⟩ := hwpos g hgT
      have hperm := hP p (List.mem_of_getElem? hp)
      have hnd : p.1.Nodup := hperm.nodup_iff.mpr List.nodup_range
      rw [hprow r p hp q s hq] at hg
      obtain rfl := Option.some.inj hg
      rw [List.length_map] at hk
      have hr := (List.getElem?_eq_some_iff.mp (hget r p hp)).1
      have hTrow := hrow r p hp s hs
      have hbound := (List.getElem?_eq_some_iff.mp hTrow).1
      have hProw := hprow r p hp q s hq
      have ha := List.getElem?_eq_getElem hk
      set a := (p.2.getD s [])[k] with had
      have harcs : (flat T).arcs[apos T (off T r + s) + k]? = some a := by
        have := flat_arc T _ k _ hTrow hk
        rw [ha] at this; exact this
      have hok := hT.at (hget r p hp) (show p.2[s]? = some (p.2.getD s []) from by
        rw [List.getD_eq_getElem?_getD, List.getElem?_eq_getElem hs]; rfl) a (List.getElem_mem hk)
      have f1 : (flat (permVec P)).id2[apos (permVec P) (off T r + q) + k]? = some (off T r + q) :=
        flat_id2 (permVec P) _ k _ hProw (by rw [List.length_map]; exact hk)
      have f2 : (flat (permVec P)).sp2[off T r + q]? = some (apos (permVec P) (off T r + q)) :=
        flat_sp2 (permVec P) _ (by omega)
      have f3 : (flat T).id1[off T r + q]? = some r := flat_id1 T r q p.2 (hget r p hp) hq2
      have f4 : (flat T).sp1[r]? = some (off T r) := flat_sp1 T r (by omega)
      have f5 : order[off T r + q]? = some (off T r + s) := hwget r p hp q s hq
      have f6 : (flat T).sp2[off T r + s]? = some (apos T (off T r + s)) := flat_sp2 T _ (by omega)
      have f7 : o2n[off T r + a.src]? = some (some (off T r + q)) := by
        rw [hok.1, ho2n r p hp s hs, idxOf_get p.1 hnd q s hq]
      have f8 : o2n[off T r + a.dst]? = some (some (off T r + p.1.idxOf a.dst)) :=
        ho2n r p hp a.dst hok.2
      unfold renArcAt
      simp only [f1, f2, f3, f4, f5, f6, Option.bind_eq_bind, Option.bind_some, Nat.add_sub_cancel_left,
        harcs, f7, f8]
      rw [if_pos ⟨trivial, Nat.le_add_right _ _⟩, List.getElem?_zip_eq_some.mpr]
      constructor
      · rw [flat_arc (permVec P) _ k _ hProw (by rw [List.length_map]; exact hk), List.getElem?_map, ha,
          Option.map_some, moveArc, hok.1, idxOf_get p.1 hnd q s hq]
      · have := row_at (order.map (fun g => List.range' (apos T g) (T.flatten.getD g []).length))
          (off T r + q) k (List.range' (apos T (off T r + s)) (p.2.getD s []).length) (by
            rw [List.getElem?_map, f5, Option.map_some, List.getD_eq_getElem?_getD, hTrow,
              Option.getD_some]) (by rw [List.length_range']; exact hk)
        rw [hmlens, ← hmrows] at this
        show m[((permVec P).flatten.map List.length |>.take (off T r + q)).sum + k]? = _
        rw [this, List.getElem?_range' hk, Nat.one_mul]
  unfold renumberVec
  rw [if_neg (by rw [flat_id1_length, hlen]; omega)]
  simp only [e1, e2, e3, Option.bind_eq_bind, Option.bind_some, e4, e5, e6]
  rw [List.map_fst_zip (by omega), List.map_snd_zip (by omega), ← hsp1, ← hid1]
  rfl

end Verif.Fsa.Top
