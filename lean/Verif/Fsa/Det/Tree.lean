import Mathlib.Algebra.Order.Monoid.Defs
import Mathlib.Algebra.Order.Group.Defs
import Mathlib.Algebra.BigOperators.Group.List.Basic
import Mathlib.Tactic.Abel
import Verif.Fsa.Det.Layer

/-!
# Walking back from the elements of a `DetState`
-/

namespace Verif.Fsa.Det
variable {W : Type}

/-- `js` are positions of the arcs `p`. -/
def Names (A : List (Arc W)) (js : List Nat) (p : List (Arc W)) : Prop :=
  js.map (fun j => A[j]?) = p.map some

theorem Names.nil (A : List (Arc W)) : Names A [] [] := rfl

theorem Names.append {A : List (Arc W)} {js ks : List Nat} {p q : List (Arc W)} (h : Names A js p)
    (h2 : Names A ks q) : Names A (js ++ ks) (p ++ q) := by
  unfold Names at *
  rw [List.map_append, List.map_append, h, h2]

theorem Names.single {A : List (Arc W)} {j : Nat} {a : Arc W} (h : A[j]? = some a) :
    Names A [j] [a] := by simp [Names, h]

theorem Names.mem {A : List (Arc W)} {js : List Nat} {p : List (Arc W)} (h : Names A js p) :
    ∀ a ∈ p, a ∈ A := by
  intro a ha
  have : some a ∈ p.map some := List.mem_map_of_mem ha
  rw [← h, List.mem_map] at this
  obtain ⟨j, _, hj⟩ := this
  exact List.mem_of_getElem? hj

/-- `k` steps back. -/
def back : Nat → Node W → Node W
  | 0, n => n
  | _ + 1, .start => .start
  | k + 1, .step p _ _ _ => back k p

/-- The last `k` arcs, in order. -/
def seg : Nat → Node W → List Nat
  | 0, _ => []
  | _ + 1, .start => []
  | k + 1, .step p _ a _ => seg k p ++ [a]

theorem labels_append (p q : List (Arc W)) : labels (p ++ q) = labels p ++ labels q := by
  simp [labels]

theorem path_snoc (A : List (Arc W)) (s t : Nat) (a : Arc W) (p : List (Arc W)) :
    Path A s (p ++ [a]) t ↔ Path A s p a.src ∧ a ∈ A ∧ a.dst = t := by
  rw [path_append]
  constructor
  · rintro ⟨m, h1, h2⟩
    rw [path_cons, path_nil] at h2
    obtain ⟨h3, rfl, h4⟩ := h2
    exact ⟨h1, h3, h4⟩
  · rintro ⟨h1, h2, h3⟩
    exact ⟨_, h1, by rw [path_cons, path_nil]; exact ⟨h2, rfl, h3⟩⟩

variable [AddCommGroup W] [LinearOrder W]

theorem score_snoc (p : List (Arc W)) (a : Arc W) : score (p ++ [a]) = score p + a.score := by
  simp [score]

theorem score_app (p q : List (Arc W)) : score (p ++ q) = score p + score q := by
  simp [score]

theorem Layer.ne {f : Fsa W} {x : List Int} {els : List (Node W)} (h : Layer f x els) : els ≠ [] := by
  cases h with
  | start => simp
  | step _ hs => exact hs.ne

theorem Layer.nodup {f : Fsa W} {x : List Int} {els : List (Node W)} (h : Layer f x els) :
    (els.map Node.state).Nodup := by
  cases h with
  | start => simp
  | step _ hs => exact hs.nodup

theorem Layer.depth {f : Fsa W} {x : List Int} {els : List (Node W)} (h : Layer f x els) :
    ∀ n ∈ els, n.depth = x.length := by
  induction h with
  | start => intro n hn; cases List.mem_singleton.1 hn; rfl
  | step _ hs ih =>
    intro n hn
    obtain ⟨p, hp, i, a, _, _, _, rfl⟩ := hs.sound n hn
    simp [Node.depth, ih p hp]

theorem Layer.back_inj {f : Fsa W} {x : List Int} {els : List (Node W)} (h : Layer f x els) :
    ∀ (k : Nat), ∀ n ∈ els, ∀ m ∈ els, (back k n).state = (back k m).state → back k n = back k m := by
  have zero : ∀ (els : List (Node W)), (els.map Node.state).Nodup → ∀ n ∈ els, ∀ m ∈ els,
      n.state = m.state → n = m := fun els he n hn m hm h => List.inj_on_of_nodup_map he hn hm h
  induction h with
  | start =>
    intro k n hn m hm _
    cases List.mem_singleton.1 hn
    cases List.mem_singleton.1 hm
    rfl
  | step hl hs ih =>
    intro k n hn m hm hst
    cases k with
    | zero => exact zero _ hs.nodup n hn m hm hst
    | succ k =>
      obtain ⟨p, hp, i, a, _, _, _, rfl⟩ := hs.sound n hn
      obtain ⟨q, hq, j, b, _, _, _, rfl⟩ := hs.sound m hm
      exact ih k p hp q hq hst

/-- The last `k` arcs of an element are a path with the last `k` labels. -/
theorem Layer.seg_path {f : Fsa W} {x : List Int} {els : List (Node W)} (h : Layer f x els) :
    ∀ (k : Nat), k ≤ x.length → ∀ n ∈ els, ∃ p, Names f.arcs (seg k n) p ∧
      Path f.arcs (back k n).state p n.state ∧ labels p = x.drop (x.length - k) ∧
      n.fwd = (back k n).fwd + score p ∧ traceBack k n = some (seg k n, back k n) ∧
      readBack f k n = some ((x.drop (x.length - k)).reverse, (back k n).state) := by
  induction h with
  | start =>
    intro k hk n hn
    cases List.mem_singleton.1 hn
    simp only [List.length_nil, Nat.le_zero] at hk
    subst hk
    exact ⟨[], rfl, (path_nil ..).2 rfl, rfl, by simp [back, score], rfl, rfl⟩
  | @step x els l els' hl hs ih =>
    intro k hk n hn
    cases k with
    | zero =>
      exact ⟨[], rfl, (path_nil ..).2 rfl, by simp [labels], by simp [back, score], rfl,
        by simp [readBack, back]⟩
    | succ k =>
      obtain ⟨p, hp, i, a, ha, hsrc, hlab, rfl⟩ := hs.sound n hn
      simp only [List.length_append, List.length_singleton] at hk
      obtain ⟨q, h1, h2, h3, h4, h5, h6⟩ := ih k (by omega) p hp
      have hd : (x ++ [l]).drop ((x ++ [l]).length - (k + 1)) = x.drop (x.length - k) ++ [l] := by
        rw [List.drop_append_of_le_length (by simp)]
        congr 2
        simp
      refine ⟨q ++ [a], ?_, ?_, ?_, ?_, ?_, ?_⟩
      · exact h1.append (Names.single ha)
      · rw [path_snoc]
        exact ⟨by rw [hsrc]; exact h2, List.mem_of_getElem? ha, rfl⟩
      · rw [labels_append, h3, hd, ← hlab]
        rfl
      · rw [score_snoc, ← add_assoc]
        change p.fwd + a.score = (back k p).fwd + score q + a.score
        rw [h4]
      · rw [traceBack, h5]
        rfl
      · rw [readBack, ha]
        simp only [h6, hd, hlab, List.reverse_append, List.reverse_cons, List.reverse_nil,
          List.nil_append, List.cons_append]
        rfl

theorem Layer.back_all {f : Fsa W} {x : List Int} {els : List (Node W)} (h : Layer f x els) :
    ∀ n ∈ els, back x.length n = .start := by
  induction h with
  | start => intro n hn; cases List.mem_singleton.1 hn; rfl
  | step _ hs ih =>
    intro n hn
    obtain ⟨p, hp, i, a, _, _, _, rfl⟩ := hs.sound n hn
    rw [List.length_append]
    exact ih p hp

/-- Whatever can be reached by reading `x` is an element, and no path is better than it. -/
theorem Layer.reach [IsOrderedAddMonoid W] {f : Fsa W} {x : List Int} {els : List (Node W)}
    (h : Layer f x els) : ∀ (p : List (Arc W)) (t : Nat), Path f.arcs 0 p t → labels p = x →
      ∃ n ∈ els, n.state = t ∧ score p ≤ n.fwd := by
  induction h with
  | start =>
    intro p t hp hl
    have : p = [] := by simpa [labels] using hl
    subst this
    rw [path_nil] at hp
    exact ⟨.start, by simp, hp, by simp [score, Node.fwd]⟩
  | @step x els l els' hl hs ih =>
    intro p t hp hlab
    rcases List.eq_nil_or_concat p with rfl | ⟨q, a, rfl⟩
    · simp [labels] at hlab
    · rw [List.concat_eq_append] at hp hlab ⊢
      rw [path_snoc] at hp
      rw [labels_append] at hlab
      obtain ⟨h1, h2⟩ := List.append_inj' hlab rfl
      obtain ⟨n, hn, h3, h4⟩ := ih q a.src hp.1 h1
      obtain ⟨m, hm, h5, h6⟩ := hs.complete n hn a hp.2.1 h3.symm (by simpa [labels] using h2)
      refine ⟨m, hm, h5.trans hp.2.2, ?_⟩
      rw [score_snoc]
      exact le_trans (add_le_add_left h4 _) h6

theorem mapM_prev (l : List (Node W)) (D : Nat) (h : ∀ n ∈ l, n.depth = D + 1) :
    ∃ ps, l.mapM Node.prev? = some ps ∧ (∀ p ∈ ps, p.depth = D ∧ ∃ n ∈ l, ∀ m, back (m + 1) n = back m p) ∧
      ∀ n ∈ l, ∃ p ∈ ps, ∀ m, back (m + 1) n = back m p := by
  induction l with
  | nil => exact ⟨[], rfl, by simp, by simp⟩
  | cons n l ih =>
    obtain ⟨ps, h1, h2, h3⟩ := ih fun n hn => h n (by simp [hn])
    have hd := h n (by simp)
    cases n with
    | start => cases hd
    | step p s a w =>
      refine ⟨p :: ps, ?_, ?_, ?_⟩
      · rw [List.mapM_cons]
        simp [Node.prev?, h1]
      · intro q hq
        rcases List.mem_cons.1 hq with rfl | hq
        · exact ⟨by simpa [Node.depth] using hd, _, List.mem_cons_self .., fun m => rfl⟩
        · obtain ⟨h4, n, hn, h5⟩ := h2 q hq
          exact ⟨h4, n, by simp [hn], h5⟩
      · intro n hn
        rcases List.mem_cons.1 hn with rfl | hn
        · exact ⟨p, by simp, fun m => rfl⟩
        · obtain ⟨q, hq, h4⟩ := h3 n hn
          exact ⟨q, by simp [hq], h4⟩

/-- The most recent common ancestor: it exists, and it is the most recent one. -/
theorem mrca_spec (D : Nat) : ∀ (fuel : Nat) (l : List (Node W)), D + 1 ≤ fuel → l ≠ [] → l.Nodup →
    (∀ n ∈ l, n.depth = D) → ∃ b k, mrca fuel l = some (b, k) ∧ (∀ n ∈ l, back k n = b) ∧
      ∀ m, (∃ c, ∀ n ∈ l, back m n = c) → k ≤ m := by
  induction D with
  | zero =>
    intro fuel l hf hne hnd hd
    obtain ⟨fuel, rfl⟩ := Nat.exists_eq_succ_of_ne_zero (show fuel ≠ 0 by omega)
    match l, hne, hnd, hd with
    | [b], _, _, _ => exact ⟨b, 0, rfl, by simp [back], by simp⟩
    | b :: c :: l, _, hnd, hd =>
      exfalso
      have h1 := hd b (by simp)
      have h2 := hd c (by simp)
      cases b with
      | step => cases h1
      | start => cases c with
        | step => cases h2
        | start => simp at hnd
  | succ D ih =>
    intro fuel l hf hne hnd hd
    obtain ⟨fuel, rfl⟩ := Nat.exists_eq_succ_of_ne_zero (show fuel ≠ 0 by omega)
    match l, hne, hnd, hd with
    | [b], _, _, _ => exact ⟨b, 0, rfl, by simp [back], by simp⟩
    | b :: c :: l, _, hnd, hd =>
      obtain ⟨ps, h1, h2, h3⟩ := mapM_prev (b :: c :: l) D hd
      obtain ⟨p0, hp0, _⟩ := h3 b (by simp)
      obtain ⟨r, k, h4, h5, h6⟩ := ih fuel ps.dedup (by omega)
        (List.ne_nil_of_mem (List.mem_dedup.2 hp0)) (List.nodup_dedup _)
        (fun n hn => (h2 n (List.mem_dedup.1 hn)).1)
      refine ⟨r, k + 1, ?_, ?_, ?_⟩
      · rw [mrca, h1]
        simp only [h4]
      · intro n hn
        obtain ⟨p, hp, h7⟩ := h3 n hn
        rw [h7]
        exact h5 p (List.mem_dedup.2 hp)
      · rintro m ⟨z, hz⟩
        cases m with
        | zero =>
          exfalso
          have hb := hz b (by simp)
          have hc := hz c (by simp)
          simp only [back] at hb hc
          rw [hb, hc] at hnd
          simp at hnd
        | succ m =>
          have := h6 m ⟨z, fun p hp => by
            obtain ⟨_, n, hn, h7⟩ := h2 p (List.mem_dedup.1 hp)
            rw [← h7]
            exact hz n hn⟩
          omega

/-- What is true of the elements of a normalized `DetState`: they are the elements after reading
`x`, and `b` is where all of them were `len` steps ago. -/
structure Good (f : Fsa W) (x : List Int) (els : List (Node W)) (len : Nat) (b : Node W) : Prop where
  layer : Layer f x els
  len_le : len ≤ x.length
  base : ∀ n ∈ els, back len n = b

/-- The symbols read since then. -/
def rest (x : List Int) (len : Nat) : List Int := x.drop (x.length - len)

theorem rest_length (x : List Int) (len : Nat) (h : len ≤ x.length) : (rest x len).length = len := by
  simp [rest]; omega

theorem take_rest (x : List Int) (len : Nat) : x.take (x.length - len) ++ rest x len = x :=
  List.take_append_drop ..

/-- The elements, seen from the base. -/
theorem Good.elem {f : Fsa W} {x : List Int} {els : List (Node W)} {len : Nat} {b : Node W}
    (h : Good f x els len b) : ∀ n ∈ els, ∃ p, Names f.arcs (seg len n) p ∧
      Path f.arcs b.state p n.state ∧ labels p = rest x len ∧ n.fwd = b.fwd + score p ∧
      readBack f len n = some ((rest x len).reverse, b.state) := by
  intro n hn
  obtain ⟨p, h1, h2, h3, h4, h5, h6⟩ := h.layer.seg_path len h.len_le n hn
  rw [h.base n hn] at h2 h4 h6
  exact ⟨p, h1, h2, h3, h4, h6⟩

theorem back_add (i j : Nat) (n : Node W) : back (i + j) n = back i (back j n) := by
  induction j generalizing n with
  | zero => rfl
  | succ j ih =>
    cases n with
    | start =>
      have : ∀ k, back k (Node.start : Node W) = .start := by
        intro k; cases k <;> rfl
      rw [this, this, this]
    | step p s a w => exact ih p

/-- Everything that is reached from the base by the remaining symbols is an element, and no path
from the base is better than it. -/
theorem Good.reach [IsOrderedAddMonoid W] {f : Fsa W} {x : List Int} {els : List (Node W)}
    {len : Nat} {b : Node W} (h : Good f x els len b) (p : List (Arc W)) (t : Nat)
    (hp : Path f.arcs b.state p t) (hl : labels p = rest x len) :
    ∃ n ∈ els, n.state = t ∧ b.fwd + score p ≤ n.fwd := by
  obtain ⟨n, hn⟩ := List.exists_mem_of_ne_nil _ h.layer.ne
  obtain ⟨q, _, h2, h3, h4, _⟩ := h.layer.seg_path x.length (le_refl _) n hn
  obtain ⟨q', _, h2', h3', h4', _⟩ := h.layer.seg_path len h.len_le n hn
  -- a path from the start to the base with the symbols before
  have key : ∃ r, Path f.arcs 0 r b.state ∧ labels r = x.take (x.length - len) ∧ score r = b.fwd := by
    clear h2 h3 h4 h2' h3' h4' hp hl
    have aux : ∀ (x : List Int) (els : List (Node W)), Layer f x els → ∀ (len : Nat), len ≤ x.length →
        ∀ n ∈ els, ∃ r, Path f.arcs 0 r (back len n).state ∧ labels r = x.take (x.length - len) ∧
          score r = (back len n).fwd := by
      intro x els hL
      induction hL with
      | start =>
        intro len hl n hn
        cases List.mem_singleton.1 hn
        simp only [List.length_nil, Nat.le_zero] at hl
        subst hl
        exact ⟨[], (path_nil ..).2 rfl, rfl, by simp [score, back, Node.fwd]⟩
      | @step x els l els' hL hs ih =>
        intro len hl n hn
        obtain ⟨p, hp, i, a, ha, hsrc, hlab, rfl⟩ := hs.sound n hn
        cases len with
        | zero =>
          obtain ⟨r, h1, h2, h3⟩ := ih 0 (by omega) p hp
          refine ⟨r ++ [a], ?_, ?_, ?_⟩
          · rw [path_snoc]
            exact ⟨by rw [hsrc]; exact h1, List.mem_of_getElem? ha, rfl⟩
          · rw [labels_append, h2]
            simp [labels, hlab]
          · rw [score_snoc, h3]
            rfl
        | succ len =>
          simp only [List.length_append, List.length_singleton] at hl
          obtain ⟨r, h1, h2, h3⟩ := ih len (by omega) p hp
          refine ⟨r, h1, ?_, h3⟩
          rw [h2, List.take_append_of_le_length (by simp)]
          congr 1
          simp
    obtain ⟨r, h1, h2, h3⟩ := aux x els h.layer len h.len_le n hn
    rw [h.base n hn] at h1 h3
    exact ⟨r, h1, h2, h3⟩
  obtain ⟨r, h5, h6, h7⟩ := key
  obtain ⟨m, hm, h8, h9⟩ := h.layer.reach (r ++ p) t ((path_append ..).2 ⟨_, h5, hp⟩)
    (by rw [labels_append, h6, hl, take_rest])
  refine ⟨m, hm, h8, ?_⟩
  rw [score_app, h7] at h9
  exact h9

end Verif.Fsa.Det
