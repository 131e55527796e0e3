import Verif.Fsa.Intersect.Emits
import Verif.Fsa.TopSort.Props
import Verif.Util.MapM

/-!
# The FSA that is built, as a graph of pairs
-/

namespace Verif.Fsa.Isect
open Verif.Ragged Verif.Util Verif.Fsa.Top
variable {W : Type}

/-- The number of the state that stands for a pair. -/
def stateOf (pf : Nat × Nat) (order : List (Nat × Nat)) (p : Nat × Nat) : Nat :=
  if p = pf then order.length else order.idxOf p

/-- The pair that a state stands for. -/
def pairOf (pf : Nat × Nat) (order : List (Nat × Nat)) (s : Nat) : Nat × Nat :=
  (order[s]?).getD pf

/-- The arc added for the state `x.1`. -/
def arcOf (pf : Nat × Nat) (order : List (Nat × Nat)) (x : Nat × Emit W) : Arc W :=
  ⟨x.1, stateOf pf order x.2.next, x.2.label, x.2.score⟩

/-- The arcs of each state. -/
def rowsOf (E : Nat × Nat → List (Emit W)) (pf : Nat × Nat) (order : List (Nat × Nat)) :
    List (List (Arc W)) :=
  order.zipIdx.map (fun x => (E x.1).map (fun e => arcOf pf order (x.2, e))) ++ [[]]

theorem rowsOf_length (E : Nat × Nat → List (Emit W)) (pf : Nat × Nat)
    (order : List (Nat × Nat)) : (rowsOf E pf order).length = order.length + 1 := by
  simp [rowsOf]

theorem flatten_map_map {X Y Z : Type} (l : List X) (g : X → List Y) (h : Y → Z) :
    (l.map (fun x => (g x).map h)).flatten = (l.flatMap g).map h := by
  induction l with
  | nil => rfl
  | cons x l ih => rw [List.map_cons, List.flatten_cons, ih, List.flatMap_cons, List.map_append]

theorem rowsOf_flatten (E : Nat × Nat → List (Emit W)) (pf : Nat × Nat)
    (order : List (Nat × Nat)) :
    (rowsOf E pf order).flatten = (logOf E order order.length).map (arcOf pf order) := by
  unfold rowsOf logOf
  rw [List.flatten_append, List.take_length, ← flatten_map_map]
  simp [Function.comp_def]

theorem rowsOf_lengths (E : Nat × Nat → List (Emit W)) (pf : Nat × Nat)
    (order : List (Nat × Nat)) (k : Nat) (hk : k ≤ order.length) :
    (((rowsOf E pf order).map List.length).take k).sum = (logOf E order k).length := by
  unfold rowsOf logOf
  rw [List.map_append, List.take_append_of_le_length (by simpa using hk), List.map_map,
    List.length_flatMap, ← List.map_take]
  have : order.zipIdx.take k = (order.take k).zipIdx := by
    apply List.ext_getElem?
    intro i
    rw [List.getElem?_take, List.getElem?_zipIdx, List.getElem?_zipIdx, List.getElem?_take]
    split <;> rfl
  rw [this]
  congr 1
  apply List.map_congr_left
  intro x _
  simp

theorem starts_psum (E : Nat × Nat → List (Emit W)) (pf : Nat × Nat) (order : List (Nat × Nat)) :
    startsOf E order order.length ++
        [(logOf E order order.length).length, (logOf E order order.length).length] =
      psum ((rowsOf E pf order).map List.length) := by
  apply List.ext_getElem?
  intro i
  by_cases h : i ≤ order.length + 1
  · have hr := psum_get ((rowsOf E pf order).map List.length) i
      (by rw [List.length_map, rowsOf_length]; exact h)
    rw [hr]
    by_cases h1 : i < order.length
    · rw [List.getElem?_append_left (by simpa [startsOf] using h1), rowsOf_lengths E pf order i (by omega)]
      unfold startsOf
      rw [List.getElem?_map, List.getElem?_range h1]
      rfl
    · rw [List.getElem?_append_right (by simp [startsOf]; omega)]
      have hl : (startsOf E order order.length).length = order.length := by simp [startsOf]
      rw [hl]
      by_cases h2 : i = order.length
      · subst h2
        rw [rowsOf_lengths E pf order _ (Nat.le_refl _)]
        simp
      · obtain rfl : i = order.length + 1 := by omega
        have : (((rowsOf E pf order).map List.length).take (order.length + 1)).sum =
            (((rowsOf E pf order).map List.length).take order.length).sum := by
          have h3 : ((rowsOf E pf order).map List.length)[order.length]? = some 0 := by
            unfold rowsOf
            rw [List.map_append, List.getElem?_append_right (by simp)]
            simp
          rw [List.take_add_one, h3]
          simp
        rw [this, rowsOf_lengths E pf order _ (Nat.le_refl _)]
        simp
  · rw [List.getElem?_eq_none, List.getElem?_eq_none]
    · rw [psum_length, List.length_map, rowsOf_length]; omega
    · simp [startsOf]; omega

theorem draft_close (pf : Nat × Nat) (order : List (Nat × Nat)) (x : Nat × Emit W) :
    closeArc order.length (draft pf order x) = some (arcOf pf order x) := by
  unfold closeArc draft arcOf num stateOf
  by_cases h : x.2.next = pf
  · simp [h]
  · simp only [if_neg h]
    rw [if_neg (by omega), if_neg (by omega), if_neg (by omega)]
    simp

theorem mapM_draft (pf : Nat × Nat) (order : List (Nat × Nat)) (log : List (Nat × Emit W)) :
    (log.map (draft pf order)).mapM (closeArc order.length) = some (log.map (arcOf pf order)) := by
  induction log with
  | nil => rfl
  | cons x log ih =>
    rw [List.map_cons, List.mapM_cons, draft_close, Option.bind_eq_bind, Option.bind_some, ih]
    rfl

/-- The output for the result of the loop. -/
theorem finish_spec (E : Nat × Nat → List (Emit W)) (pf : Nat × Nat) (order : List (Nat × Nat))
    (st : St W) (h : Done E pf order st) :
    finishOut st = some ⟨order.length + 1, psum ((rowsOf E pf order).map List.length),
      (rowsOf E pf order).flatten, (logOf E order order.length).map (fun x => x.2.ma),
      (logOf E order order.length).map (fun x => x.2.mb)⟩ := by
  have hlen : st.arcs.length = (logOf E order order.length).length := by
    rw [h.inv.arcs, List.length_map]
  have h1 : st.starts ++ [st.arcs.length, st.arcs.length] =
      psum ((rowsOf E pf order).map List.length) := by
    rw [h.starts, hlen, starts_psum]
  unfold finishOut
  rw [h1, h.inv.last, h.inv.arcs, mapM_draft, Option.bind_eq_bind, Option.bind_some, if_pos,
    h.inv.ma, h.inv.mb, rowsOf_flatten]
  rw [psum_length, List.length_map, rowsOf_length]

/-! ## Logs -/

theorem log_mem (E : Nat × Nat → List (Emit W)) (order : List (Nat × Nat)) (i : Nat) (e : Emit W) :
    (i, e) ∈ logOf E order order.length ↔ ∃ p, order[i]? = some p ∧ e ∈ E p := by
  unfold logOf
  rw [List.take_length, List.mem_flatMap]
  constructor
  · rintro ⟨⟨p, k⟩, hp, he⟩
    obtain ⟨e', he', heq⟩ := List.mem_map.mp he
    simp only [Prod.mk.injEq] at heq
    obtain ⟨rfl, rfl⟩ := heq
    exact ⟨p, List.mem_zipIdx_iff_getElem?.mp hp, he'⟩
  · rintro ⟨p, hp, he⟩
    exact ⟨(p, i), List.mem_zipIdx_iff_getElem?.mpr hp, List.mem_map.mpr ⟨e, he, rfl⟩⟩

theorem zipIdx_snd_nodup {X : Type} (l : List X) : (l.zipIdx.map Prod.snd).Nodup := by
  rw [List.zipIdx_map_snd]
  exact List.nodup_range'

theorem log_nodup (E : Nat × Nat → List (Emit W)) (order : List (Nat × Nat))
    (hE : ∀ p ∈ order, ((E p).map marks).Nodup) :
    ((logOf E order order.length).map (fun x => (x.1, marks x.2))).Nodup := by
  unfold logOf
  rw [List.take_length, List.map_flatMap, List.nodup_flatMap]
  constructor
  · rintro ⟨p, k⟩ hp
    have := hE p (List.mem_of_getElem? (List.mem_zipIdx_iff_getElem?.mp hp))
    rw [List.map_map]
    rw [List.Nodup, List.pairwise_map] at this ⊢
    apply this.imp
    intro x y hxy h
    simp only [Function.comp, Prod.mk.injEq] at h
    exact hxy h.2
  · have := zipIdx_snd_nodup order
    rw [List.Nodup, List.pairwise_map] at this
    apply this.imp
    rintro ⟨p, k⟩ ⟨q, l⟩ hkl
    simp only [Function.onFun, List.disjoint_left, List.map_map, List.mem_map, not_exists, not_and]
    rintro m ⟨x, _, rfl⟩ z _ h
    simp only [Function.comp, Prod.mk.injEq] at h
    exact hkl h.1.symm

theorem log_unique (E : Nat × Nat → List (Emit W)) (order : List (Nat × Nat))
    (hE : ∀ p ∈ order, ((E p).map marks).Nodup) (g g' s : Nat) (e e' : Emit W)
    (h : (logOf E order order.length)[g]? = some (s, e))
    (h' : (logOf E order order.length)[g']? = some (s, e')) (hm : marks e = marks e') : g = g' := by
  have hn := log_nodup E order hE
  have h1 : ((logOf E order order.length).map (fun x => (x.1, marks x.2)))[g]? = some (s, marks e) := by
    rw [List.getElem?_map, h]; rfl
  have h2 : ((logOf E order order.length).map (fun x => (x.1, marks x.2)))[g']? = some (s, marks e) := by
    rw [List.getElem?_map, h', hm]; rfl
  obtain ⟨hl1, h1⟩ := List.getElem?_eq_some_iff.mp h1
  obtain ⟨hl2, h2⟩ := List.getElem?_eq_some_iff.mp h2
  exact (List.Nodup.getElem_inj_iff hn).mp (h1.trans h2.symm)

/-! ## The graph -/

/-- `order` are the pairs, numbered in this order; `E` what leaves them. -/
structure Graph (E : Nat × Nat → List (Emit W)) (pf : Nat × Nat) (order : List (Nat × Nat)) : Prop where
  nodup : order.Nodup
  notfinal : pf ∉ order
  closed : ∀ p ∈ order, ∀ e ∈ E p, e.next = pf ∨ e.next ∈ order
  unamb : ∀ p ∈ order, ((E p).map marks).Nodup
  stop : E pf = []
  first : order[0]? = some (0, 0)

theorem pairOf_stateOf {pf : Nat × Nat} {order : List (Nat × Nat)} {p : Nat × Nat}
    (h : p = pf ∨ p ∈ order) : pairOf pf order (stateOf pf order p) = p := by
  unfold pairOf stateOf
  split
  · next hp => rw [List.getElem?_eq_none (Nat.le_refl _)]; exact hp.symm
  · next hp =>
    have hm := h.resolve_left hp
    rw [List.getElem?_eq_getElem (List.idxOf_lt_length_iff.mpr hm), List.getElem_idxOf]
    rfl

theorem stateOf_le {pf : Nat × Nat} {order : List (Nat × Nat)} {p : Nat × Nat} :
    stateOf pf order p ≤ order.length := by
  unfold stateOf
  split
  · exact Nat.le_refl _
  · exact List.idxOf_le_length

theorem pairOf_final {pf : Nat × Nat} {order : List (Nat × Nat)} (h : pf ∉ order) (s : Nat)
    (hs : s ≤ order.length) : pairOf pf order s = pf ↔ s = order.length := by
  unfold pairOf
  constructor
  · intro hp
    by_contra hne
    have hlt : s < order.length := by omega
    rw [List.getElem?_eq_getElem hlt, Option.getD_some] at hp
    exact h (hp ▸ List.getElem_mem hlt)
  · rintro rfl
    rw [List.getElem?_eq_none (Nat.le_refl _)]
    rfl

/-- A connected sequence of additions. -/
def Walk (E : Nat × Nat → List (Emit W)) : Nat × Nat → List (Emit W) → Nat × Nat → Prop
  | p, [], q => p = q
  | p, e :: es, q => e ∈ E p ∧ Walk E e.next es q

variable {E : Nat × Nat → List (Emit W)} {pf : Nat × Nat} {order : List (Nat × Nat)}

theorem Graph.arc (h : Graph E pf order) (g : Nat) (c : Arc W)
    (hg : (rowsOf E pf order).flatten[g]? = some c) :
    ∃ e, (logOf E order order.length)[g]? = some (c.src, e) ∧ c.src < order.length ∧
      e ∈ E (pairOf pf order c.src) ∧ pairOf pf order c.dst = e.next ∧ c.dst ≤ order.length ∧
      c.dst = stateOf pf order e.next ∧ c.label = e.label ∧ c.score = e.score := by
  rw [rowsOf_flatten, List.getElem?_map] at hg
  obtain ⟨⟨i, e⟩, hl, rfl⟩ := Option.map_eq_some_iff.mp hg
  obtain ⟨p, hp, he⟩ := (log_mem E order i e).mp (List.mem_of_getElem? hl)
  have hlt := (List.getElem?_eq_some_iff.mp hp).1
  refine ⟨e, hl, hlt, ?_, ?_, stateOf_le, rfl, rfl, rfl⟩
  · unfold pairOf arcOf
    simp only [hp, Option.getD_some]
    exact he
  · exact pairOf_stateOf (h.closed p (List.mem_of_getElem? hp) e he)

theorem Graph.add (h : Graph E pf order) (s : Nat) (hs : s ≤ order.length) (e : Emit W)
    (he : e ∈ E (pairOf pf order s)) :
    ∃ (g : Nat) (c : Arc W), (rowsOf E pf order).flatten[g]? = some c ∧
      (logOf E order order.length)[g]? = some (s, e) ∧ c.src = s ∧ c.dst ≤ order.length ∧
      pairOf pf order c.dst = e.next := by
  by_cases hlast : s = order.length
  · rw [(pairOf_final h.notfinal s hs).mpr hlast, h.stop] at he
    exact absurd he (List.not_mem_nil)
  · have hlt : s < order.length := by omega
    have hp : order[s]? = some order[s] := List.getElem?_eq_getElem hlt
    have hpe : pairOf pf order s = order[s] := by unfold pairOf; rw [hp]; rfl
    rw [hpe] at he
    obtain ⟨g, hg⟩ := List.mem_iff_getElem?.mp ((log_mem E order s e).mpr ⟨_, hp, he⟩)
    refine ⟨g, arcOf pf order (s, e), ?_, hg, rfl, stateOf_le, ?_⟩
    · rw [rowsOf_flatten, List.getElem?_map, hg]; rfl
    · exact pairOf_stateOf (h.closed _ (List.getElem_mem hlt) e he)

/-- Which additions the arcs of a path stand for. -/
def Reads (E : Nat × Nat → List (Emit W)) (order : List (Nat × Nat)) (js : List Nat)
    (es : List (Emit W)) : Prop :=
  js.map (fun j => ((logOf E order order.length)[j]?).map Prod.snd) = es.map some

theorem Graph.sound (h : Graph E pf order) (js : List Nat) :
    ∀ s t, IPath (rowsOf E pf order).flatten s js t →
      ∃ es, Reads E order js es ∧ Walk E (pairOf pf order s) es (pairOf pf order t) := by
  induction js with
  | nil =>
    intro s t hp
    rw [ipath_nil] at hp
    subst hp
    exact ⟨[], rfl, rfl⟩
  | cons j js ih =>
    intro s t hp
    obtain ⟨c, hc, rfl, hr⟩ := (ipath_cons _ _ _ _ _).mp hp
    obtain ⟨e, h1, h2, h3, h4, _⟩ := h.arc j c hc
    obtain ⟨es, h5, h6⟩ := ih _ _ hr
    refine ⟨e :: es, ?_, h3, ?_⟩
    · unfold Reads at h5 ⊢
      rw [List.map_cons, List.map_cons, h5, h1]
      rfl
    · rw [← h4]; exact h6

theorem Graph.complete (h : Graph E pf order) (es : List (Emit W)) :
    ∀ s q, s ≤ order.length → Walk E (pairOf pf order s) es q →
      ∃ js t, Reads E order js es ∧ t ≤ order.length ∧ pairOf pf order t = q ∧
        IPath (rowsOf E pf order).flatten s js t := by
  induction es with
  | nil =>
    intro s q hs hw
    exact ⟨[], s, rfl, hs, hw, (ipath_nil _ _ _).mpr rfl⟩
  | cons e es ih =>
    rintro s q hs ⟨he, hw⟩
    obtain ⟨g, c, h1, h2, h3, h4, h5⟩ := h.add s hs e he
    rw [← h5] at hw
    obtain ⟨js, t, h6, h7, h8, h9⟩ := ih _ q h4 hw
    refine ⟨g :: js, t, ?_, h7, h8, (ipath_cons _ _ _ _ _).mpr ⟨c, h1, h3, h9⟩⟩
    unfold Reads at h6 ⊢
    rw [List.map_cons, List.map_cons, h6, h2]
    rfl

theorem Graph.unique (h : Graph E pf order) (js : List Nat) :
    ∀ (js' : List Nat) (s t t' : Nat), IPath (rowsOf E pf order).flatten s js t →
      IPath (rowsOf E pf order).flatten s js' t' →
      js.map (fun j => ((logOf E order order.length).map (fun x => marks x.2))[j]?) =
        js'.map (fun j => ((logOf E order order.length).map (fun x => marks x.2))[j]?) → js = js' := by
  induction js with
  | nil =>
    intro js' s t t' _ _ hm
    symm
    simpa using hm.symm
  | cons j js ih =>
    intro js' s t t' hp hp' hm
    cases js' with
    | nil => simp at hm
    | cons j' js' =>
      obtain ⟨c, hc, hs, hr⟩ := (ipath_cons _ _ _ _ _).mp hp
      obtain ⟨c', hc', hs', hr'⟩ := (ipath_cons _ _ _ _ _).mp hp'
      obtain ⟨e, h1, _⟩ := h.arc j c hc
      obtain ⟨e', h1', _⟩ := h.arc j' c' hc'
      rw [List.map_cons, List.map_cons, List.cons.injEq] at hm
      rw [hs] at h1
      rw [hs'] at h1'
      have hmk : marks e = marks e' := by
        have := hm.1
        rw [List.getElem?_map, List.getElem?_map, h1, h1'] at this
        exact Option.some.inj this
      have hj := log_unique E order h.unamb j j' s e e' h1 h1' hmk
      subst hj
      rw [hc] at hc'
      obtain rfl := Option.some.inj hc'
      rw [ih js' _ _ _ hr hr' hm.2]

end Verif.Fsa.Isect
