import Verif.Fsa.Intersect.Model
import Mathlib.Data.List.Nodup
import Mathlib.Data.List.ProdSigma
import Mathlib.Data.List.Perm.Subperm

/-!
# The breadth-first construction

`E p` is the list of what the loops add for the pair `p`.
-/

namespace Verif.Fsa.Isect
variable {W : Type}

/-- The number given to a pair: its position in the list of pairs, -1 for the final pair. -/
def num (pf : Nat × Nat) (order : List (Nat × Nat)) (p : Nat × Nat) : Int :=
  if p = pf then -1 else (order.idxOf p : Int)

/-- The arc for `e` leaving the state `i`. -/
def draft (pf : Nat × Nat) (order : List (Nat × Nat)) (x : Nat × Emit W) : Draft W :=
  ⟨x.1, num pf order x.2.next, x.2.label, x.2.score⟩

/-- The invariant of the loops: `order` are the pairs found so far, `k` how many have been taken
from the queue, `log` what has been added so far and for which state. -/
structure Inv (pf : Nat × Nat) (order : List (Nat × Nat)) (k : Nat) (log : List (Nat × Emit W))
    (st : St W) : Prop where
  nodup : order.Nodup
  notfinal : pf ∉ order
  map : ∀ p, lookup st.map p = if p = pf ∨ p ∈ order then some (num pf order p) else none
  last : st.last + 1 = order.length
  queue : st.queue = order.drop k
  closed : ∀ x ∈ log, x.2.next = pf ∨ x.2.next ∈ order
  arcs : st.arcs = log.map (draft pf order)
  ma : st.ma = log.map (fun x => x.2.ma)
  mb : st.mb = log.map (fun x => x.2.mb)

theorem num_append {pf : Nat × Nat} {order : List (Nat × Nat)} {p q : Nat × Nat}
    (h : p = pf ∨ p ∈ order) : num pf (order ++ [q]) p = num pf order p := by
  unfold num
  split
  · rfl
  · next hp =>
    have hm := h.resolve_left hp
    rw [List.idxOf_append, if_pos hm]

theorem lookup_append (m : List ((Nat × Nat) × Int)) (p q : Nat × Nat) (i : Int) :
    lookup (m ++ [(q, i)]) p = (lookup m p).or (if q = p then some i else none) := by
  unfold lookup
  rw [List.find?_append]
  cases m.find? (fun x => decide (x.1 = p)) with
  | some x => rfl
  | none =>
    by_cases h : q = p
    · simp [h]
    · simp [h]

theorem emit_inv {pf : Nat × Nat} {order : List (Nat × Nat)} {k i : Nat}
    {log : List (Nat × Emit W)} {st : St W} (h : Inv pf order k log st) (hk : k ≤ order.length)
    (e : Emit W) :
    ∃ order', (order' = order ∨ (order' = order ++ [e.next] ∧ e.next ∉ order ∧ e.next ≠ pf)) ∧
      Inv pf order' k (log ++ [(i, e)]) (emit (i : Int) st e) ∧
      (emit (i : Int) st e).starts = st.starts := by
  by_cases hm : e.next = pf ∨ e.next ∈ order
  · refine ⟨order, Or.inl rfl, ?_, ?_⟩
    · have hl := h.map e.next
      rw [if_pos hm] at hl
      have hins : insertState st e.next = (st, num pf order e.next) := by
        unfold insertState
        rw [hl]
      unfold emit
      rw [hins]
      refine ⟨h.nodup, h.notfinal, h.map, h.last, h.queue, ?_, ?_, ?_, ?_⟩
      · intro x hx
        rcases List.mem_append.mp hx with hx | hx
        · exact h.closed x hx
        · rw [List.mem_singleton] at hx
          subst hx
          exact hm
      · simp only [addArc, h.arcs, List.map_append, List.map_cons, List.map_nil]
        rfl
      · simp only [addArc, h.ma, List.map_append, List.map_cons, List.map_nil]
      · simp only [addArc, h.mb, List.map_append, List.map_cons, List.map_nil]
    · have hl := h.map e.next
      rw [if_pos hm] at hl
      unfold emit insertState
      rw [hl]
      rfl
  · rw [not_or] at hm
    have hl := h.map e.next
    rw [if_neg (not_or.mpr hm)] at hl
    have hlast : ((st.last : Int) + 1) = (order.length : Int) := by
      have := h.last
      omega
    have hins : insertState st e.next =
        ({ st with map := st.map ++ [(e.next, (st.last : Int) + 1)], queue := st.queue ++ [e.next],
                   last := st.last + 1 }, (st.last : Int) + 1) := by
      unfold insertState
      rw [hl]
    refine ⟨order ++ [e.next], Or.inr ⟨rfl, hm.2, hm.1⟩, ?_, ?_⟩
    · unfold emit
      rw [hins]
      have hnew : num pf (order ++ [e.next]) e.next = (order.length : Int) := by
        unfold num
        rw [if_neg hm.1, List.idxOf_append, if_neg hm.2]
        simp
      refine ⟨?_, ?_, ?_, ?_, ?_, ?_, ?_, ?_, ?_⟩
      · rw [List.nodup_append]
        refine ⟨h.nodup, List.nodup_singleton _, ?_⟩
        intro a ha b hb
        rw [List.mem_singleton] at hb
        subst hb
        rintro rfl
        exact hm.2 ha
      · rw [List.mem_append, List.mem_singleton, not_or]
        exact ⟨h.notfinal, fun hh => hm.1 hh.symm⟩
      · intro p
        simp only [addArc]
        rw [lookup_append, h.map p]
        by_cases hp : p = pf ∨ p ∈ order
        · have hp' : p = pf ∨ p ∈ order ++ [e.next] :=
            hp.imp id (fun h => List.mem_append_left _ h)
          rw [if_pos hp, if_pos hp', num_append hp]
          rfl
        · rw [if_neg hp]
          by_cases hpe : e.next = p
          · subst hpe
            have hp' : e.next = pf ∨ e.next ∈ order ++ [e.next] :=
              Or.inr (List.mem_append_right _ (List.mem_singleton.mpr rfl))
            rw [if_pos rfl, if_pos hp', hnew, hlast]
            rfl
          · have hp' : ¬(p = pf ∨ p ∈ order ++ [e.next]) := by
              rw [List.mem_append, List.mem_singleton]
              rw [not_or] at hp ⊢
              exact ⟨hp.1, not_or.mpr ⟨hp.2, fun hh => hpe hh.symm⟩⟩
            rw [if_neg hpe, if_neg hp']
            rfl
      · simp only [addArc, List.length_append, List.length_singleton]
        have := h.last
        omega
      · simp only [addArc]
        rw [h.queue, List.drop_append_of_le_length hk]
      · intro x hx
        rcases List.mem_append.mp hx with hx | hx
        · exact (h.closed x hx).imp id (fun h => List.mem_append_left _ h)
        · rw [List.mem_singleton] at hx
          subst hx
          exact Or.inr (List.mem_append_right _ (List.mem_singleton.mpr rfl))
      · simp only [addArc, h.arcs, List.map_append, List.map_cons, List.map_nil]
        congr 1
        · apply List.map_congr_left
          intro x hx
          simp only [draft]
          rw [num_append (h.closed x hx)]
        · simp only [draft, hnew, hlast]
      · simp only [addArc, h.ma, List.map_append, List.map_cons, List.map_nil]
      · simp only [addArc, h.mb, List.map_append, List.map_cons, List.map_nil]
    · unfold emit
      rw [hins]
      rfl

theorem emits_inv {pf : Nat × Nat} {k i : Nat} (es : List (Emit W)) :
    ∀ {order : List (Nat × Nat)} {log : List (Nat × Emit W)} {st : St W},
    Inv pf order k log st → k ≤ order.length →
    ∃ ext, (∀ p ∈ ext, ∃ e ∈ es, e.next = p) ∧
      Inv pf (order ++ ext) k (log ++ es.map (fun e => (i, e))) (es.foldl (emit (i : Int)) st) ∧
      (es.foldl (emit (i : Int)) st).starts = st.starts := by
  induction es with
  | nil =>
    intro order log st h hk
    exact ⟨[], by simp, by simpa using h, rfl⟩
  | cons e es ih =>
    intro order log st h hk
    obtain ⟨order', ho, h', hs'⟩ := emit_inv (i := i) h hk e
    have hk' : k ≤ order'.length := by
      rcases ho with rfl | ⟨rfl, _⟩
      · exact hk
      · rw [List.length_append]; omega
    obtain ⟨ext, hext, h2, hs2⟩ := ih h' hk'
    have hlog : log ++ (e :: es).map (fun e => (i, e)) =
        log ++ [(i, e)] ++ es.map (fun e => (i, e)) := by simp
    rw [List.foldl_cons, hlog]
    rcases ho with rfl | ⟨rfl, _⟩
    · refine ⟨ext, ?_, h2, hs2.trans hs'⟩
      intro p hp
      obtain ⟨e', he', rfl⟩ := hext p hp
      exact ⟨e', List.mem_cons_of_mem _ he', rfl⟩
    · refine ⟨e.next :: ext, ?_, ?_, hs2.trans hs'⟩
      · intro p hp
        rcases List.mem_cons.mp hp with rfl | hp
        · exact ⟨e, List.mem_cons_self, rfl⟩
        · obtain ⟨e', he', rfl⟩ := hext p hp
          exact ⟨e', List.mem_cons_of_mem _ he', rfl⟩
      · rw [List.append_assoc] at h2
        exact h2

/-- What has been added after the first `k` pairs have been visited. -/
def logOf (E : Nat × Nat → List (Emit W)) (order : List (Nat × Nat)) (k : Nat) :
    List (Nat × Emit W) :=
  ((order.take k).zipIdx).flatMap (fun x => (E x.1).map (fun e => (x.2, e)))

/-- Where the arcs of each of the first `k` pairs begin. -/
def startsOf (E : Nat × Nat → List (Emit W)) (order : List (Nat × Nat)) (k : Nat) : List Nat :=
  (List.range k).map (fun i => (logOf E order i).length)

theorem logOf_append (E : Nat × Nat → List (Emit W)) (order ext : List (Nat × Nat)) (k : Nat)
    (hk : k ≤ order.length) : logOf E (order ++ ext) k = logOf E order k := by
  unfold logOf
  rw [List.take_append_of_le_length hk]

theorem logOf_succ (E : Nat × Nat → List (Emit W)) (order : List (Nat × Nat)) (k : Nat)
    (p : Nat × Nat) (hp : order[k]? = some p) :
    logOf E order (k + 1) = logOf E order k ++ (E p).map (fun e => (k, e)) := by
  obtain ⟨hlt, hp⟩ := List.getElem?_eq_some_iff.mp hp
  unfold logOf
  rw [List.take_succ_eq_append_getElem hlt, List.zipIdx_append, List.flatMap_append, hp]
  congr 1
  simp [List.length_take, Nat.min_eq_left (Nat.le_of_lt hlt)]

theorem startsOf_append (E : Nat × Nat → List (Emit W)) (order ext : List (Nat × Nat)) (k : Nat)
    (hk : k ≤ order.length) : startsOf E (order ++ ext) k = startsOf E order k := by
  unfold startsOf
  apply List.map_congr_left
  intro i hi
  rw [List.mem_range] at hi
  rw [logOf_append E order ext i (by omega)]

theorem startsOf_succ (E : Nat × Nat → List (Emit W)) (order : List (Nat × Nat)) (k : Nat) :
    startsOf E order (k + 1) = startsOf E order k ++ [(logOf E order k).length] := by
  unfold startsOf
  rw [List.range_succ, List.map_append]
  rfl

/-- The result of the loop. -/
structure Done (E : Nat × Nat → List (Emit W)) (pf : Nat × Nat) (order : List (Nat × Nat))
    (st : St W) : Prop where
  inv : Inv pf order order.length (logOf E order order.length) st
  starts : st.starts = startsOf E order order.length
  first : order[0]? = some (0, 0)

/-- The loop visits every pair of states at most once, and ends. -/
theorem loop_spec [Add W] (a b : HostFsa W) (eps : Bool) (na nb : Nat) (pf : Nat × Nat)
    (E : Nat × Nat → List (Emit W))
    (hE : ∀ p, p.1 < na → p.2 < nb → ∀ e ∈ E p, e.next.1 < na ∧ e.next.2 < nb)
    (hvisit : ∀ p, p.1 < na → p.2 < nb → ∀ (st : St W) (q : List (Nat × Nat)) (cur : Int),
      lookup st.map p = some cur →
      visit a b eps st p q = some ((E p).foldl (emit cur)
        { st with starts := st.starts ++ [st.arcs.length], queue := q }))
    (fuel : Nat) :
    ∀ (k : Nat) (order : List (Nat × Nat)) (st : St W),
      Inv pf order k (logOf E order k) st → st.starts = startsOf E order k →
      order[0]? = some (0, 0) → (∀ p ∈ order, p.1 < na ∧ p.2 < nb) → k ≤ order.length →
      na * nb < fuel + k →
      ∃ order' st', loop a b eps fuel st = some st' ∧ Done E pf order' st' ∧
        ∀ p ∈ order', p.1 < na ∧ p.2 < nb := by
  induction fuel with
  | zero =>
    intro k order st h hs h0 hb hk hf
    exfalso
    have hsub : order.Subperm (List.range na ×ˢ List.range nb) := by
      apply List.Nodup.subperm h.nodup
      intro p hp
      obtain ⟨h1, h2⟩ := hb p hp
      exact List.mem_product.mpr ⟨List.mem_range.mpr h1, List.mem_range.mpr h2⟩
    have := hsub.length_le
    rw [List.length_product, List.length_range, List.length_range] at this
    omega
  | succ fuel ih =>
    intro k order st h hs h0 hb hk hf
    rw [loop]
    by_cases hend : k = order.length
    · have hq : st.queue = [] := by rw [h.queue, hend, List.drop_length]
      rw [hq]
      refine ⟨order, st, rfl, ⟨?_, ?_, h0⟩, hb⟩
      · rw [hend] at h; exact h
      · rw [hend] at hs; exact hs
    · have hlt : k < order.length := by omega
      have hq : st.queue = order[k] :: order.drop (k + 1) := by
        rw [h.queue, List.drop_eq_getElem_cons hlt]
      rw [hq]
      have hget : order[k]? = some order[k] := List.getElem?_eq_getElem hlt
      have hmem : order[k] ∈ order := List.getElem_mem hlt
      obtain ⟨hb1, hb2⟩ := hb _ hmem
      have hne : order[k] ≠ pf := fun hh => h.notfinal (hh ▸ hmem)
      have hcur : lookup st.map order[k] = some (k : Int) := by
        rw [h.map, if_pos (Or.inr hmem)]
        unfold num
        rw [if_neg hne, List.Nodup.idxOf_getElem h.nodup k hlt]
      show ∃ order' st', (visit a b eps st order[k] (order.drop (k + 1))).bind (loop a b eps fuel)
        = some st' ∧ _
      rw [hvisit _ hb1 hb2 st _ _ hcur, Option.bind_some]
      have h1 : Inv pf order (k + 1) (logOf E order k)
          { st with starts := st.starts ++ [st.arcs.length], queue := order.drop (k + 1) } :=
        ⟨h.nodup, h.notfinal, h.map, h.last, rfl, h.closed, h.arcs, h.ma, h.mb⟩
      obtain ⟨ext, hext, h2, hs2⟩ := emits_inv (i := k) (E order[k]) h1 (by omega)
      have hget' : (order ++ ext)[k]? = some order[k] := by
        rw [List.getElem?_append_left hlt]; exact hget
      have hlog : logOf E (order ++ ext) (k + 1) =
          logOf E order k ++ (E order[k]).map (fun e => (k, e)) := by
        rw [logOf_succ E _ k _ hget', logOf_append E order ext k hk]
      rw [← hlog] at h2
      refine ih (k + 1) (order ++ ext) _ h2 ?_ ?_ ?_ ?_ (by omega)
      · rw [hs2, startsOf_succ, startsOf_append E order ext k hk, logOf_append E order ext k hk]
        simp only [hs, h.arcs, List.length_map]
      · rw [List.getElem?_append_left (by omega)]; exact h0
      · intro p hp
        rcases List.mem_append.mp hp with hp | hp
        · exact hb p hp
        · obtain ⟨e, he, rfl⟩ := hext p hp
          exact hE _ hb1 hb2 e he
      · rw [List.length_append]; omega

end Verif.Fsa.Isect
