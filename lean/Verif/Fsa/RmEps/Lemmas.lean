import Mathlib.Algebra.Order.Group.Defs
import Mathlib.Tactic.Abel
import Mathlib.Tactic.Tauto
import Mathlib.Data.List.Perm.Subperm
import Verif.Fsa.RmEps.Model
import Verif.Fsa.Det.Tree
import Verif.Util.MapM

/-!
# Removing epsilons from one state
-/

namespace Verif.Fsa.Rme
open Verif.Fsa.Det (Names labels_append path_snoc)
variable {W : Type}

/-- All labels are epsilon. -/
def EpsOnly (p : List (Arc W)) : Prop := ∀ a ∈ p, a.label = 0

theorem mem_leaving (f : Fsa W) (s : Nat) (x : Arc W × Nat) :
    x ∈ leaving f s ↔ f.arcs[x.2]? = some x.1 ∧ x.1.src = s := by
  unfold leaving
  rw [List.mem_filter, List.mem_zipIdx_iff_getElem?]
  simp

/-! ## Forward scores -/

section
variable [AddCommGroup W] [LinearOrder W]

def Num.IsFin (x : Num W) : Prop := ∃ w, x = .fin w

theorem gt_fin {x y : Num W} (h : Num.gt x y = true) : x.IsFin := by
  cases x <;> cases y <;> simp [Num.gt] at h <;> exact ⟨_, rfl⟩

theorem add_fin_fin (a b : W) : (Num.fin a + Num.fin b) = Num.fin (a + b) := rfl

theorem forwardStep_fin (ws : Nat → Num W) (a : Arc W) (s : Nat) (h : (ws s).IsFin) :
    (forwardStep ws a s).IsFin := by
  unfold forwardStep
  split
  · rename_i hg
    dsimp only
    split
    · exact gt_fin hg
    · exact h
  · exact h

theorem forwardStep_nan (ws : Nat → Num W) (a : Arc W) (h : ∀ s, ws s ≠ .nan) (s : Nat) :
    forwardStep ws a s ≠ .nan := by
  unfold forwardStep
  split
  · rename_i hg
    dsimp only
    split
    · obtain ⟨w, hw⟩ := gt_fin hg
      rw [hw]
      simp
    · exact h s
  · exact h s

theorem forwardStep_dst (ws : Nat → Num W) (a : Arc W) (h : ∀ s, ws s ≠ .nan)
    (hs : (ws a.src).IsFin) : (forwardStep ws a a.dst).IsFin := by
  unfold forwardStep
  split
  · rename_i hg
    simp only [if_true]
    exact gt_fin hg
  · rename_i hg
    obtain ⟨v, hv⟩ := hs
    rw [hv, add_fin_fin] at hg
    cases hd : ws a.dst with
    | nan => exact absurd hd (h _)
    | ninf => rw [hd] at hg; simp [Num.gt] at hg
    | fin w => exact ⟨w, rfl⟩

theorem forwardStep_other (ws : Nat → Num W) (a : Arc W) (s : Nat) (h : s ≠ a.dst) :
    forwardStep ws a s = ws s := by
  unfold forwardStep
  split
  · dsimp only
    rw [if_neg h]
  · rfl

theorem foldl_forward (l : List (Arc W)) : ∀ (ws : Nat → Num W), (∀ s, ws s ≠ .nan) →
    l.Pairwise (fun a b => a.src ≤ b.src) → (∀ a ∈ l, a.src < a.dst) →
    (∀ s, (ws s).IsFin → (l.foldl forwardStep ws s).IsFin) ∧
    (∀ s, (∀ a ∈ l, a.dst ≠ s) → l.foldl forwardStep ws s = ws s) ∧
    ∀ a ∈ l, (l.foldl forwardStep ws a.src).IsFin → (l.foldl forwardStep ws a.dst).IsFin := by
  induction l with
  | nil => intro ws _ _ _; simp
  | cons b l ih =>
    intro ws hn hp hi
    rw [List.pairwise_cons] at hp
    obtain ⟨h1, h2, h3⟩ := ih (forwardStep ws b) (forwardStep_nan ws b hn) hp.2
      fun a ha => hi a (by simp [ha])
    refine ⟨fun s hs => h1 s (forwardStep_fin ws b s hs), ?_, ?_⟩
    · intro s hs
      rw [List.foldl_cons, h2 s fun a ha => hs a (by simp [ha])]
      exact forwardStep_other ws b s (Ne.symm (hs b (by simp)))
    · intro a ha
      rw [List.foldl_cons]
      rcases List.mem_cons.1 ha with rfl | ha
      · intro hf
        have hne : a.src ≠ a.dst := Nat.ne_of_lt (hi a (by simp))
        rw [h2 a.src, forwardStep_other ws a _ hne] at hf
        · exact h1 _ (forwardStep_dst ws a hn hf)
        · intro c hc
          have e1 := hp.1 c hc
          have e2 := hi c (by simp [hc])
          omega
      · exact h3 a ha

/-- The forward score of a state that can be reached is finite. -/
theorem forward_fin {f : Fsa W} (hv : f.Valid) (hi : ∀ a ∈ f.arcs, a.src < a.dst) (p : List (Arc W)) :
    ∀ s t, Path f.arcs s p t → (forwardWeights f s).IsFin → (forwardWeights f t).IsFin := by
  have key := (foldl_forward f.arcs (fun s => if s = 0 then .fin 0 else .ninf) (by
    intro s
    split <;> simp) hv.sorted hi).2.2
  induction p with
  | nil => intro s t hp h; rw [path_nil] at hp; rwa [← hp]
  | cons a p ih =>
    intro s t hp h
    rw [path_cons] at hp
    obtain ⟨h1, rfl, h2⟩ := hp
    exact ih _ _ h2 (key a h1 h)

theorem forward_start {f : Fsa W} (hv : f.Valid) (hi : ∀ a ∈ f.arcs, a.src < a.dst) :
    (forwardWeights f 0).IsFin :=
  (foldl_forward f.arcs (fun s => if s = 0 then .fin 0 else .ninf) (by
    intro s
    split <;> simp) hv.sorted hi).1 0 ⟨0, by simp⟩

end

/-! ## The sorted queue -/

theorem mem_insertSorted (x y : Nat) (l : List Nat) : y ∈ insertSorted x l ↔ y = x ∨ y ∈ l := by
  induction l with
  | nil => simp [insertSorted]
  | cons z l ih =>
    rw [insertSorted]
    split
    · simp
    · split
      · rename_i h
        subst h
        simp
      · simp [ih]
        tauto

theorem insertSorted_sorted (x : Nat) (l : List Nat) (h : l.Pairwise (· < ·)) :
    (insertSorted x l).Pairwise (· < ·) := by
  induction l with
  | nil => simp [insertSorted]
  | cons z l ih =>
    rw [List.pairwise_cons] at h
    rw [insertSorted]
    split
    · rename_i hlt
      rw [List.pairwise_cons]
      refine ⟨?_, List.pairwise_cons.2 h⟩
      intro y hy
      rcases List.mem_cons.1 hy with rfl | hy
      · exact hlt
      · exact Nat.lt_trans hlt (h.1 y hy)
    · split
      · exact List.pairwise_cons.2 h
      · rw [List.pairwise_cons]
        refine ⟨?_, ih h.2⟩
        intro y hy
        rcases (mem_insertSorted x y l).1 hy with rfl | hy
        · omega
        · exact h.1 y hy

/-! ## The loop -/

variable [AddCommGroup W] [LinearOrder W] [IsOrderedAddMonoid W]

/-- A traceback state of state `s`. -/
def NodeOk (f : Fsa W) (i : Nat) (sf : Num W) (s : Nat) (c : Node W) : Prop :=
  ∃ p, Names f.arcs c.trace p ∧ Path f.arcs i p s ∧ EpsOnly p ∧
    ∀ v, sf = .fin v → c.fwd = .fin (v + score p)

/-- An arc that was made. -/
def OutOk (f : Fsa W) (i : Nat) (sf : Num W) (z : Arc (Num W) × List Nat) : Prop :=
  ∃ p a, Names f.arcs z.2 (p ++ [a]) ∧ Path f.arcs i p a.src ∧ EpsOnly p ∧ a ∈ f.arcs ∧
    a.label ≠ 0 ∧ z.1.src = number f i ∧ z.1.dst = number f a.dst ∧ z.1.label = a.label ∧
    ∀ v, sf = .fin v → z.1.score = .fin (score p + a.score)

/-- `b` is not worse than `a` (when the forward score of the start is a number). -/
def Better (sf : Num W) (a b : Num W) : Prop :=
  ∀ v, sf = .fin v → ∃ x y, a = .fin x ∧ b = .fin y ∧ x ≤ y

/-- What the arc `a` has given rise to, once it was handled. -/
def Handled (f : Fsa W) (i : Nat) (sf : Num W) (st : St W) (a : Arc W) : Prop :=
  ∃ c, st.tb a.src = some c ∧
    (a.label = 0 → ∃ e, st.tb a.dst = some e ∧ Better sf (c.fwd + .fin a.score) e.fwd) ∧
    (a.label ≠ 0 → ∃ z ∈ st.out, z.1 =
      ⟨number f i, number f a.dst, a.label, Num.sub (c.fwd + .fin a.score) sf⟩)

/-- The invariant; `H` are the arcs handled so far, `P` the states taken from the queue. -/
structure Inv (f : Fsa W) (i : Nat) (sf : Num W) (P : List Nat) (H : Arc W → Prop) (st : St W) :
    Prop where
  sorted : st.queue.Pairwise (· < ·)
  later : ∀ s ∈ st.queue, ∀ r ∈ P, r < s
  lt : ∀ s ∈ st.queue, s < f.numStates
  dom : ∀ s, (st.tb s).isSome ↔ s ∈ P ∨ s ∈ st.queue
  node : ∀ s c, st.tb s = some c → NodeOk f i sf s c
  out : ∀ z ∈ st.out, OutOk f i sf z
  handled : ∀ a, H a → Handled f i sf st a
  start : (st.tb i).isSome

theorem put_same (tb : Nat → Option (Node W)) (s : Nat) (n : Node W) : put tb s n s = some n := by
  simp [put]

theorem put_isSome (tb : Nat → Option (Node W)) (s r : Nat) (n : Node W) (h : (tb r).isSome) :
    (put tb s n r).isSome := by
  unfold put
  split
  · rfl
  · exact h

theorem put_other (tb : Nat → Option (Node W)) (s r : Nat) (n : Node W) (h : r ≠ s) :
    put tb s n r = tb r := by simp [put, h]

omit [IsOrderedAddMonoid W] in
theorem nodeOk_step {f : Fsa W} {i : Nat} {sf : Num W} {c : Node W} {a : Arc W} {j : Nat}
    (hc : NodeOk f i sf a.src c) (ha : f.arcs[j]? = some a) (hl : a.label = 0) :
    NodeOk f i sf a.dst (.step c a.dst j (c.fwd + .fin a.score)) := by
  obtain ⟨p, h1, h2, h3, h4⟩ := hc
  refine ⟨p ++ [a], h1.append (Names.single ha),
    (path_snoc ..).2 ⟨h2, List.mem_of_getElem? ha, rfl⟩, ?_, ?_⟩
  · intro b hb
    rcases List.mem_append.1 hb with hb | hb
    · exact h3 b hb
    · cases List.mem_singleton.1 hb
      exact hl
  · intro v hv
    show c.fwd + .fin a.score = _
    rw [h4 v hv, add_fin_fin, Det.score_snoc, add_assoc]

/-- One arc. -/
theorem relax_inv {f : Fsa W} (hv : f.Valid) {i : Nat} {sf : Num W} {P : List Nat}
    {H : Arc W → Prop} {st : St W} (hinv : Inv f i sf P H st) {c : Node W} {x : Arc W × Nat}
    (hx : f.arcs[x.2]? = some x.1) (hlt : x.1.src < x.1.dst) (hP : ∀ r ∈ P, r ≤ x.1.src)
    (hsrc : x.1.src ∈ P) (hc : st.tb x.1.src = some c) (hH : ∀ a, H a → a.src ∈ P) :
    Inv f i sf P (fun a => H a ∨ a = x.1) (relax f i sf c st x) ∧
      (relax f i sf c st x).tb x.1.src = some c := by
  obtain ⟨a, j⟩ := x
  simp only at hx hlt hP hsrc hc
  have hcok := hinv.node _ _ hc
  have hmem := List.mem_of_getElem? hx
  have hne : a.src ≠ a.dst := Nat.ne_of_lt hlt
  unfold relax
  simp only
  by_cases hl : a.label = 0
  · rw [if_pos hl]
    have hnodeNew := nodeOk_step hcok hx hl
    cases hd : st.tb a.dst with
    | none =>
      simp only
      refine ⟨⟨insertSorted_sorted _ _ hinv.sorted, ?_, ?_, ?_, ?_, hinv.out, ?_, ?_⟩, ?_⟩
      · intro s hs r hr
        rcases (mem_insertSorted _ _ _).1 hs with rfl | hs
        · exact Nat.lt_of_le_of_lt (hP r hr) hlt
        · exact hinv.later s hs r hr
      · intro s hs
        rcases (mem_insertSorted _ _ _).1 hs with rfl | hs
        · exact hv.dst_lt a hmem
        · exact hinv.lt s hs
      · intro s
        dsimp only
        by_cases hs : s = a.dst
        · subst hs
          rw [put_same]
          simp [mem_insertSorted]
        · rw [put_other _ _ _ _ hs, hinv.dom s]
          simp [mem_insertSorted, hs]
      · intro s e he
        dsimp only at he
        by_cases hs : s = a.dst
        · subst hs
          rw [put_same] at he
          cases he
          exact hnodeNew
        · rw [put_other _ _ _ _ hs] at he
          exact hinv.node s e he
      · intro b hb
        rcases hb with hb | rfl
        · obtain ⟨cb, h1, h2, h3⟩ := hinv.handled b hb
          have hsb : b.src ≠ a.dst := by
            have := hP b.src (hH b hb)
            omega
          refine ⟨cb, by dsimp only; rw [put_other _ _ _ _ hsb, h1], ?_, h3⟩
          intro hb0
          obtain ⟨e, he, hbe⟩ := h2 hb0
          have hdb : b.dst ≠ a.dst := by
            intro h
            rw [h, hd] at he
            cases he
          exact ⟨e, by dsimp only; rw [put_other _ _ _ _ hdb, he], hbe⟩
        · refine ⟨c, by dsimp only; rw [put_other _ _ _ _ hne, hc], ?_, fun h => absurd hl h⟩
          intro _
          refine ⟨_, put_same _ _ _, ?_⟩
          intro v hsf
          obtain ⟨p, _, _, _, h4⟩ := hcok
          refine ⟨_, _, ?_, ?_, le_refl (v + score p + b.score)⟩
          · rw [h4 v hsf, add_fin_fin]
          · show c.fwd + .fin b.score = _
            rw [h4 v hsf, add_fin_fin]
      · exact put_isSome _ _ _ _ hinv.start
      · rw [put_other _ _ _ _ hne, hc]
    | some e =>
      simp only
      have heok := hinv.node _ _ hd
      have hacc : NodeOk f i sf a.dst (e.accept c a.dst j a.score) := by
        unfold Node.accept
        split
        · exact hnodeNew
        · exact heok
      have hge1 : Better sf e.fwd (e.accept c a.dst j a.score).fwd := by
        intro v hsf
        obtain ⟨pe, _, _, _, h4e⟩ := heok
        obtain ⟨pc, _, _, _, h4c⟩ := hcok
        unfold Node.accept
        rw [h4e v hsf, h4c v hsf, add_fin_fin]
        by_cases hg : v + score pe < v + score pc + a.score
        · rw [if_pos (by simp [Num.gt, hg])]
          exact ⟨_, _, rfl, rfl, le_of_lt hg⟩
        · rw [if_neg (by simp [Num.gt, hg])]
          exact ⟨_, _, rfl, h4e v hsf, le_refl _⟩
      have hge2 : Better sf (c.fwd + .fin a.score) (e.accept c a.dst j a.score).fwd := by
        intro v hsf
        obtain ⟨pe, _, _, _, h4e⟩ := heok
        obtain ⟨pc, _, _, _, h4c⟩ := hcok
        unfold Node.accept
        rw [h4e v hsf, h4c v hsf, add_fin_fin]
        by_cases hg : v + score pe < v + score pc + a.score
        · rw [if_pos (by simp [Num.gt, hg])]
          exact ⟨_, _, rfl, rfl, le_refl _⟩
        · rw [if_neg (by simp [Num.gt, hg])]
          exact ⟨_, _, rfl, h4e v hsf, le_of_not_gt hg⟩
      refine ⟨⟨hinv.sorted, hinv.later, hinv.lt, ?_, ?_, hinv.out, ?_, ?_⟩, ?_⟩
      · intro s
        dsimp only
        by_cases hs : s = a.dst
        · subst hs
          have := hinv.dom a.dst
          rw [hd] at this
          rw [put_same]
          simpa using this
        · rw [put_other _ _ _ _ hs, hinv.dom s]
      · intro s e' he
        dsimp only at he
        by_cases hs : s = a.dst
        · subst hs
          rw [put_same] at he
          cases he
          exact hacc
        · rw [put_other _ _ _ _ hs] at he
          exact hinv.node s e' he
      · intro b hb
        rcases hb with hb | rfl
        · obtain ⟨cb, h1, h2, h3⟩ := hinv.handled b hb
          have hsb : b.src ≠ a.dst := by
            have := hP b.src (hH b hb)
            omega
          refine ⟨cb, by dsimp only; rw [put_other _ _ _ _ hsb, h1], ?_, h3⟩
          intro hb0
          obtain ⟨e', he, hbe⟩ := h2 hb0
          by_cases hdb : b.dst = a.dst
          · rw [hdb, hd] at he
            cases he
            refine ⟨_, by dsimp only; rw [hdb, put_same], ?_⟩
            intro v hsf
            obtain ⟨x, y, e1, e2, e3⟩ := hbe v hsf
            obtain ⟨x', y', e4, e5, e6⟩ := hge1 v hsf
            rw [e2] at e4
            cases e4
            exact ⟨x, y', e1, e5, le_trans e3 e6⟩
          · exact ⟨e', by dsimp only; rw [put_other _ _ _ _ hdb, he], hbe⟩
        · refine ⟨c, by dsimp only; rw [put_other _ _ _ _ hne, hc], ?_, fun h => absurd hl h⟩
          intro _
          exact ⟨_, put_same _ _ _, hge2⟩
      · exact put_isSome _ _ _ _ hinv.start
      · rw [put_other _ _ _ _ hne, hc]
  · rw [if_neg hl]
    refine ⟨⟨hinv.sorted, hinv.later, hinv.lt, hinv.dom, hinv.node, ?_, ?_, hinv.start⟩, hc⟩
    · intro z hz
      rcases List.mem_append.1 hz with hz | hz
      · exact hinv.out z hz
      · cases List.mem_singleton.1 hz
        obtain ⟨p, h1, h2, h3, h4⟩ := hcok
        refine ⟨p, a, h1.append (Names.single hx), h2, h3, hmem, hl, rfl, rfl, rfl, ?_⟩
        intro v hsf
        simp only
        rw [h4 v hsf, hsf, add_fin_fin]
        show Num.fin (v + score p + a.score - v) = _
        congr 1
        abel
    · intro b hb
      rcases hb with hb | rfl
      · obtain ⟨cb, h1, h2, h3⟩ := hinv.handled b hb
        refine ⟨cb, h1, h2, ?_⟩
        intro hb0
        obtain ⟨z, hz, he⟩ := h3 hb0
        exact ⟨z, by simp [hz], he⟩
      · refine ⟨c, hc, fun h => absurd h hl, ?_⟩
        intro _
        exact ⟨_, List.mem_append_right _ (List.mem_singleton.2 rfl), rfl⟩

theorem foldl_relax {f : Fsa W} (hv : f.Valid) (hi : ∀ a ∈ f.arcs, a.src < a.dst) {i : Nat}
    {sf : Num W} {P : List Nat} {s : Nat} (hs : s ∈ P) (hP : ∀ r ∈ P, r ≤ s) {c : Node W}
    (l : List (Arc W × Nat)) : ∀ {H : Arc W → Prop} {st : St W}, Inv f i sf P H st →
      (∀ x ∈ l, f.arcs[x.2]? = some x.1 ∧ x.1.src = s) → st.tb s = some c → (∀ a, H a → a.src ∈ P) →
      Inv f i sf P (fun a => H a ∨ ∃ j, (a, j) ∈ l) (l.foldl (relax f i sf c) st) := by
  induction l with
  | nil =>
    intro H st h _ _ _
    simpa using h
  | cons x l ih =>
    intro H st h hl hc hH
    obtain ⟨hx1, hx2⟩ := hl x (by simp)
    obtain ⟨h1, h2⟩ := relax_inv hv h hx1 (hi _ (List.mem_of_getElem? hx1)) (by rw [hx2]; exact hP)
      (by rw [hx2]; exact hs) (by rw [hx2]; exact hc) hH
    have h3 := ih h1 (fun y hy => hl y (by simp [hy])) (by rw [← hx2]; exact h2) (by
      rintro a (ha | rfl)
      · exact hH a ha
      · rw [hx2]; exact hs)
    rw [List.foldl_cons]
    refine ⟨h3.sorted, h3.later, h3.lt, h3.dom, h3.node, h3.out, ?_, h3.start⟩
    intro a ha
    refine h3.handled a ?_
    rcases ha with ha | ⟨j, hj⟩
    · exact Or.inl (Or.inl ha)
    · rcases List.mem_cons.1 hj with hj | hj
      · exact Or.inl (Or.inr (by rw [← hj]))
      · exact Or.inr ⟨j, hj⟩

/-- The whole loop. -/
theorem expand_inv {f : Fsa W} (hv : f.Valid) (hi : ∀ a ∈ f.arcs, a.src < a.dst) {i : Nat}
    {sf : Num W} (n : Nat) : ∀ {P : List Nat} {st : St W},
      Inv f i sf P (fun a => a ∈ f.arcs ∧ a.src ∈ P) st → (∀ r ∈ P, r < f.numStates) → P.Nodup →
      f.numStates ≤ P.length + n →
      ∃ P' st', expand f i sf n st = some st' ∧ st'.queue = [] ∧
        Inv f i sf P' (fun a => a ∈ f.arcs ∧ a.src ∈ P') st' := by
  induction n with
  | zero =>
    intro P st h hlt hnd hf
    have hq : st.queue = [] := by
      cases hq : st.queue with
      | nil => rfl
      | cons s q =>
        exfalso
        have h1 : (s :: P).Nodup := by
          rw [List.nodup_cons]
          refine ⟨fun hm => ?_, hnd⟩
          exact lt_irrefl _ (h.later s (by simp [hq]) s hm)
        have h2 : (s :: P) ⊆ List.range f.numStates := by
          intro r hr
          rw [List.mem_range]
          rcases List.mem_cons.1 hr with rfl | hr
          · exact h.lt r (by simp [hq])
          · exact hlt r hr
        have := (List.subperm_of_subset h1 h2).length_le
        simp at this
        omega
    exact ⟨P, st, by rw [expand, hq]; rfl, hq, h⟩
  | succ n ih =>
    intro P st h hlt hnd hf
    rw [expand]
    cases hq : st.queue with
    | nil => exact ⟨P, st, rfl, hq, h⟩
    | cons s q =>
      simp only
      have hsq : s ∈ st.queue := by simp [hq]
      have hsP : s ∉ P := fun hm => lt_irrefl _ (h.later s hsq s hm)
      have hdom := (h.dom s).2 (Or.inr hsq)
      obtain ⟨c, hc⟩ := Option.isSome_iff_exists.1 hdom
      rw [hc]
      simp only
      have hsort := h.sorted
      rw [hq, List.pairwise_cons] at hsort
      have h1 : Inv f i sf (s :: P) (fun a => a ∈ f.arcs ∧ a.src ∈ P) { st with queue := q } := by
        refine ⟨hsort.2, ?_, ?_, ?_, h.node, h.out, ?_, h.start⟩
        · intro t ht r hr
          rcases List.mem_cons.1 hr with rfl | hr
          · exact hsort.1 t ht
          · exact h.later t (by simp [hq, show t ∈ q from ht]) r hr
        · intro t ht
          exact h.lt t (by simp [hq, show t ∈ q from ht])
        · intro t
          rw [h.dom t, hq]
          simp only [List.mem_cons]
          tauto
        · exact h.handled
      have h2 := foldl_relax hv hi (s := s) (by simp) (by
          intro r hr
          rcases List.mem_cons.1 hr with rfl | hr
          · exact le_refl _
          · exact le_of_lt (h.later s hsq r hr)) (leaving f s) h1
        (fun x hx => (mem_leaving f s x).1 hx) hc (by
          rintro a ⟨_, ha⟩
          simp [ha])
      have h3 : Inv f i sf (s :: P) (fun a => a ∈ f.arcs ∧ a.src ∈ s :: P)
          ((leaving f s).foldl (relax f i sf c) { st with queue := q }) := by
        refine ⟨h2.sorted, h2.later, h2.lt, h2.dom, h2.node, h2.out, ?_, h2.start⟩
        rintro a ⟨ha, has⟩
        refine h2.handled a ?_
        rcases List.mem_cons.1 has with has | has
        · right
          obtain ⟨j, hj⟩ := List.mem_iff_getElem?.1 ha
          exact ⟨j, (mem_leaving f s (a, j)).2 ⟨hj, has⟩⟩
        · exact Or.inl ⟨ha, has⟩
      exact ih h3 (by
          intro r hr
          rcases List.mem_cons.1 hr with rfl | hr
          · exact h.lt r hsq
          · exact hlt r hr) (List.nodup_cons.2 ⟨hsP, hnd⟩) (by simp only [List.length_cons]; omega)

end Verif.Fsa.Rme
