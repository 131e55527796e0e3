/-!
# Counting loops

`forUp a b f` is `for (int i = a; i <= b; ++i)`, `forDown b a f` is
`for (int i = b; i > a; --i)`, with the loop state passed explicitly.
-/

namespace Verif.Loop
variable {σ : Type}

/-- `for (int i = a; i <= b; ++i) st = f i st`. -/
def forUp (a b : Nat) (f : Nat → σ → σ) (st : σ) : σ :=
  (List.range' a (b + 1 - a)).foldl (fun st i => f i st) st

/-- `for (int i = b; i > a; --i) st = f i st`. -/
def forDown (b a : Nat) (f : Nat → σ → σ) (st : σ) : σ :=
  (List.range' (a + 1) (b - a)).reverse.foldl (fun st i => f i st) st

theorem forUp_empty (a b : Nat) (h : b < a) (f : Nat → σ → σ) (st : σ) :
    forUp a b f st = st := by
  simp [forUp, show b + 1 - a = 0 by omega]

theorem forUp_snoc (a b : Nat) (h : a ≤ b + 1) (f : Nat → σ → σ) (st : σ) :
    forUp a (b + 1) f st = f (b + 1) (forUp a b f st) := by
  simp only [forUp]
  rw [show b + 1 + 1 - a = (b + 1 - a) + 1 by omega, List.range'_1_concat, List.foldl_append]
  simp only [List.foldl_cons, List.foldl_nil]
  rw [show a + (b + 1 - a) = b + 1 by omega]

/-- Loop rule for `forUp`: `P i` holds when `i` is the next index to process. -/
theorem forUp_inv (P : Nat → σ → Prop) (a b : Nat) (f : Nat → σ → σ) (st : σ)
    (hab : a ≤ b + 1) (h0 : P a st)
    (hstep : ∀ i st, a ≤ i → i ≤ b → P i st → P (i + 1) (f i st)) :
    P (b + 1) (forUp a b f st) := by
  simp only [forUp]
  obtain ⟨n, hn⟩ : ∃ n, b + 1 - a = n := ⟨_, rfl⟩
  rw [hn]
  have key : ∀ n a st, a + n = b + 1 → P a st →
      (∀ i st, a ≤ i → i ≤ b → P i st → P (i + 1) (f i st)) →
      P (b + 1) ((List.range' a n).foldl (fun st i => f i st) st) := by
    intro n
    induction n with
    | zero => intro a st h h0 _; simp at h; subst h; exact h0
    | succ n ih =>
      intro a st h h0 hs
      rw [List.range'_succ, List.foldl_cons]
      exact ih (a + 1) _ (by omega) (hs a st (by omega) (by omega) h0)
        (fun i st h1 h2 => hs i st (by omega) h2)
  exact key n a st (by omega) h0 hstep

/-- Loop rule for `forDown`: `P i` holds when all indices above `i` have been processed. -/
theorem forDown_inv (P : Nat → σ → Prop) (b a : Nat) (f : Nat → σ → σ) (st : σ)
    (hab : a ≤ b) (h0 : P b st)
    (hstep : ∀ i st, a ≤ i → i < b → P (i + 1) st → P i (f (i + 1) st)) :
    P a (forDown b a f st) := by
  simp only [forDown]
  obtain ⟨n, hn⟩ : ∃ n, b - a = n := ⟨_, rfl⟩
  rw [hn]
  have key : ∀ n b st, a + n = b → P b st →
      (∀ i st, a ≤ i → i < b → P (i + 1) st → P i (f (i + 1) st)) →
      P a ((List.range' (a + 1) n).reverse.foldl (fun st i => f i st) st) := by
    intro n
    induction n with
    | zero => intro b st h h0 _; simp at h; subst h; exact h0
    | succ n ih =>
      intro b st h h0 hs
      rw [List.range'_1_concat, List.reverse_append, List.foldl_append]
      simp only [List.reverse_cons, List.reverse_nil, List.nil_append, List.foldl_cons,
        List.foldl_nil]
      refine ih (b - 1) _ (by omega) ?_ (fun i st h1 h2 => hs i st h1 (by omega))
      have := hs (b - 1) st (by omega) (by omega) (by rw [show b - 1 + 1 = b by omega]; exact h0)
      rw [show b - 1 + 1 = a + 1 + n by omega] at this
      exact this
  exact key n b st (by omega) h0 hstep

/-! ## Two-dimensional tables -/

/-- `p[s][t] = v`. -/
def upd {W : Type} (p : Nat → Nat → W) (s t : Nat) (v : W) : Nat → Nat → W :=
  fun s' t' => if s' = s ∧ t' = t then v else p s' t'

@[simp] theorem upd_same {W : Type} (p : Nat → Nat → W) (s t : Nat) (v : W) :
    upd p s t v s t = v := by simp [upd]

theorem upd_other {W : Type} (p : Nat → Nat → W) {s t s' t' : Nat} (v : W)
    (h : s' ≠ s ∨ t' ≠ t) : upd p s t v s' t' = p s' t' := by
  simp only [upd]; rw [if_neg]; rintro ⟨rfl, rfl⟩; simp at h

end Verif.Loop
