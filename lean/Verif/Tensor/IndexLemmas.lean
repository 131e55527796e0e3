import Verif.Tensor.IndexModel
import Verif.Tensor.Copy
import Mathlib.Algebra.BigOperators.Group.List.Lemmas
import Mathlib.Algebra.BigOperators.Intervals
import Mathlib.Algebra.BigOperators.Ring.Finset

/-! # Lemmas on selecting and adding -/

namespace Verif.Tensor

theorem mapM_spec {α β : Type} (f : α → Option β) (l : List α) (h : ∀ a ∈ l, ∃ b, f a = some b) :
    ∃ r, l.mapM f = some r ∧ r.length = l.length ∧ ∀ (i : Nat) (a : α), l[i]? = some a → r[i]? = f a := by
  induction l with
  | nil => exact ⟨[], rfl, rfl, by simp⟩
  | cons x l ih =>
    obtain ⟨r, h1, h2, h3⟩ := ih (fun a ha => h a (by simp [ha]))
    obtain ⟨b, hb⟩ := h x (by simp)
    refine ⟨b :: r, ?_, by simp [h2], ?_⟩
    · simp [List.mapM_cons, hb, h1]
    · intro i a hi
      cases i with
      | zero => simp at hi; subst hi; simp [hb]
      | succ n => simp at hi; simpa using h3 n a hi

/-- What a thread adds at a position. -/
def contrib {α : Type} [Zero α] (c : Option (Int × α)) (p : Int) : α :=
  match c with
  | none => 0
  | some (q, x) => if q = p then x else 0

theorem readAt_writeAt {α : Type} {data out : List α} {q : Int} {x : α} (h : writeAt data q x = some out) (p : Int) :
    out.length = data.length ∧ readAt out p = if p = q then some x else readAt data p := by
  unfold writeAt at h
  split at h
  · next hq =>
    cases h
    refine ⟨List.length_set, ?_⟩
    unfold readAt
    by_cases hp : 0 ≤ p
    · rw [if_pos hp, List.getElem?_set]
      by_cases he : p = q
      · subst he
        have : p.toNat < data.length := by omega
        simp [this]
      · have : ¬ q.toNat = p.toNat := by omega
        simp [this, he, hp]
    · have : p ≠ q := by omega
      simp [hp, this]
  · cases h

/-- Atomic additions in an order: every position gets the sum of what is added there. -/
theorem adds_spec {α ι : Type} [AddCommMonoid α] (step : ι → List α → Option (List α)) (c : ι → Option (Int × α))
    (n : Nat) (order : List ι)
    (hstep : ∀ i ∈ order, ∀ data, step i data = match c i with | none => some data | some (p, x) => atomicAdd data p x)
    (hin : ∀ i ∈ order, ∀ p x, c i = some (p, x) → 0 ≤ p ∧ p < n) :
    ∀ data : List α, data.length = n →
      ∃ out, order.foldlM (fun data i => step i data) data = some out ∧ out.length = n ∧
        ∀ p, readAt out p = (readAt data p).map (· + (order.map (fun i => contrib (c i) p)).sum) := by
  induction order with
  | nil =>
    intro data hd
    refine ⟨data, rfl, hd, fun p => ?_⟩
    cases readAt data p <;> simp
  | cons i order ih =>
    intro data hd
    have ih' := ih (fun j hj => hstep j (by simp [hj])) (fun j hj => hin j (by simp [hj]))
    have hs := hstep i (by simp) data
    have hi := hin i (by simp)
    cases hc : c i with
    | none =>
      rw [hc] at hs
      obtain ⟨out, h1, h2, h3⟩ := ih' data hd
      refine ⟨out, ?_, h2, fun p => ?_⟩
      · simp only at hs
        simp [List.foldlM_cons, hs, h1]
      · rw [h3 p]
        simp [hc, contrib]
    | some px =>
      obtain ⟨q, x⟩ := px
      rw [hc] at hs
      simp only at hs
      have hq := hi q x hc
      obtain ⟨y, hy⟩ := (readAt_isSome data q).2 (by rw [hd]; exact hq)
      have hw := writeAt_some (data := data) (y + x) (p := q) (by rw [hd]; exact hq)
      have ha : atomicAdd data q x = some (data.set q.toNat (y + x)) := by
        unfold atomicAdd
        rw [hy]
        exact hw
      obtain ⟨out, h1, h2, h3⟩ := ih' (data.set q.toNat (y + x)) (by simpa using hd)
      refine ⟨out, ?_, h2, fun p => ?_⟩
      · simp [List.foldlM_cons, hs, ha, h1]
      · rw [h3 p, (readAt_writeAt hw p).2]
        by_cases hp : p = q
        · subst hp
          simp [hy, hc, contrib, add_assoc]
        · have hp' : ¬ q = p := fun h => hp h.symm
          simp [hp, hc, contrib, hp']

/-! ## Writes -/

theorem writes_length {α : Type} (l : List (Nat × α)) (a : List α) : (writes l a).length = a.length := by
  unfold writes
  induction l generalizing a with
  | nil => rfl
  | cons w l ih => simp only [List.foldl_cons]; rw [ih]; simp

/-- A position holds the old value if nobody writes there, and otherwise one of the values that are written. -/
theorem writes_get {α : Type} (l : List (Nat × α)) (a : List α) (r : Nat) (hr : r < a.length) :
    ((∀ w ∈ l, w.1 ≠ r) → (writes l a)[r]? = a[r]?) ∧
    ((∃ w ∈ l, w.1 = r) → ∃ w ∈ l, w.1 = r ∧ (writes l a)[r]? = some w.2) := by
  unfold writes
  induction l generalizing a with
  | nil => simp
  | cons w l ih =>
    have ih' := ih (a.set w.1 w.2) (by simpa using hr)
    simp only [List.foldl_cons]
    constructor
    · intro h
      rw [ih'.1 (fun v hv => h v (by simp [hv])), List.getElem?_set_ne (h w (by simp))]
    · intro h
      by_cases hl : ∃ v ∈ l, v.1 = r
      · obtain ⟨v, hv, e1, e2⟩ := ih'.2 hl
        exact ⟨v, by simp [hv], e1, e2⟩
      · have hn : ∀ v ∈ l, v.1 ≠ r := fun v hv e => hl ⟨v, hv, e⟩
        obtain ⟨v, hv, e⟩ := h
        rcases List.mem_cons.1 hv with rfl | hv
        · refine ⟨v, by simp, e, ?_⟩
          rw [ih'.1 hn, e]
          simp [hr]
        · exact absurd e (hn v hv)

theorem foldl_last (l : List Nat) (a : Nat) : l = [] ∧ l.foldl (fun _ s => s) a = a ∨ l.foldl (fun _ s => s) a ∈ l := by
  induction l generalizing a with
  | nil => simp
  | cons x l ih =>
    right
    simp only [List.foldl_cons]
    rcases ih x with ⟨h1, h2⟩ | h
    · rw [h2]; simp
    · simp [h]

theorem mem_nonZero {α : Type} [Zero α] [DecidableEq α] (values : List α) (rowIds : List Nat) (w : Nat × Nat × α) :
    w ∈ nonZero values rowIds ↔ rowIds[w.2.1]? = some w.1 ∧ values[w.2.1]? = some w.2.2 ∧ w.2.2 ≠ 0 := by
  obtain ⟨r, i, v⟩ := w
  simp only [nonZero, List.mem_filterMap, List.mem_range]
  constructor
  · rintro ⟨j, hj, h⟩
    split at h
    · next r' v' h1 h2 =>
      split at h
      · next hv => simp at h; obtain ⟨rfl, rfl, rfl⟩ := h; exact ⟨h1, h2, hv⟩
      · cases h
    · cases h
  · rintro ⟨h1, h2, h3⟩
    exact ⟨i, (List.getElem?_eq_some_iff.1 h2).1, by simp [h1, h2, h3]⟩

end Verif.Tensor
