import Verif.Pinned.Model

/-! Invariants of the allocator and of the programs that use it. -/

namespace Verif.Pinned

theorem setBlock_same (bs : Nat → Option Block) (p : Nat) (b : Block) :
    setBlock bs p b p = some b := if_pos rfl
theorem setBlock_other (bs : Nat → Option Block) {p q : Nat} (b : Block) (h : q ≠ p) :
    setBlock bs p b q = bs q := if_neg h

theorem mem_insertSet {e x : Nat × Nat} {l : List (Nat × Nat)} (h : x ∈ insertSet e l) :
    x = e ∨ x ∈ l := by
  induction l with
  | nil => simpa [insertSet] using h
  | cons y l ih =>
    simp only [insertSet] at h
    split at h
    · rcases List.mem_cons.1 h with h | h
      · exact Or.inl h
      · exact Or.inr h
    · split at h
      · rcases List.mem_cons.1 h with h | h
        · exact Or.inr (by simp [h])
        · rcases ih h with h | h
          · exact Or.inl h
          · exact Or.inr (List.mem_cons_of_mem _ h)
      · exact Or.inr h

theorem eq_of_not_less {a b : Nat × Nat} (h1 : ¬ less a b) (h2 : ¬ less b a) : a = b := by
  obtain ⟨a1, a2⟩ := a
  obtain ⟨b1, b2⟩ := b
  simp only [less] at h1 h2
  have : a1 = b1 := by
    apply Classical.byContradiction
    intro h
    rw [if_pos h] at h1
    rw [if_pos (Ne.symm h)] at h2
    omega
  subst this
  simp at h1 h2
  rw [Nat.le_antisymm h2 h1]

theorem self_mem_insertSet (e : Nat × Nat) (l : List (Nat × Nat)) : e ∈ insertSet e l := by
  induction l with
  | nil => simp [insertSet]
  | cons y l ih =>
    simp only [insertSet]
    split
    · simp
    · split
      · exact List.mem_cons_of_mem _ ih
      · next h1 h2 => rw [eq_of_not_less h1 h2]; simp

theorem mem_insertSet_of_mem {e x : Nat × Nat} {l : List (Nat × Nat)} (h : x ∈ l) :
    x ∈ insertSet e l := by
  induction l with
  | nil => simp at h
  | cons y l ih =>
    simp only [insertSet]
    split
    · exact List.mem_cons_of_mem _ h
    · split
      · rcases List.mem_cons.1 h with h | h
        · simp [h]
        · exact List.mem_cons_of_mem _ (ih h)
      · exact h

/-- `available_` is sorted. -/
def Sorted (l : List (Nat × Nat)) : Prop := l.Pairwise less

theorem less_trans {a b c : Nat × Nat} (h1 : less a b) (h2 : less b c) : less a c := by
  obtain ⟨a1, a2⟩ := a
  obtain ⟨b1, b2⟩ := b
  obtain ⟨c1, c2⟩ := c
  simp only [less] at *
  split at h1 <;> split at h2 <;> split <;> simp_all <;> omega

theorem less_irrefl (a : Nat × Nat) : ¬ less a a := by simp [less]

theorem sorted_insertSet {e : Nat × Nat} {l : List (Nat × Nat)} (h : Sorted l) :
    Sorted (insertSet e l) := by
  induction l with
  | nil => simp [insertSet, Sorted]
  | cons y l ih =>
    simp only [Sorted, List.pairwise_cons] at h
    simp only [insertSet]
    split
    · next hl =>
      simp only [Sorted, List.pairwise_cons]
      refine ⟨?_, h.1, h.2⟩
      intro a ha
      rcases List.mem_cons.1 ha with rfl | ha
      · exact hl
      · exact less_trans hl (h.1 a ha)
    · split
      · next hl =>
        simp only [Sorted, List.pairwise_cons]
        refine ⟨?_, ih h.2⟩
        intro a ha
        rcases mem_insertSet ha with rfl | ha
        · exact hl
        · exact h.1 a ha
      · simp only [Sorted, List.pairwise_cons]; exact h

/-- The allocator, between two calls. -/
structure AInv (a : Alloc) : Prop where
  disj : ∀ p b p' b', a.blocks p = some b → a.blocks p' = some b' → p ≠ p' →
    p + b.size ≤ p' ∨ p' + b'.size ≤ p
  zero : ∀ b, a.blocks 0 = some b → b.size = 0 ∧ b.allocated = true
  sorted : Sorted a.available
  avail : ∀ e ∈ a.available, ∃ b, a.blocks e.2 = some b ∧ b.size = e.1 ∧ b.allocated = false ∧
    b.eventCount = 0
  count : ∀ p b, a.blocks p = some b → b.eventCount = a.events.countP (fun e => e.2 = p)
  events : ∀ e ∈ a.events, ∃ b, a.blocks e.2 = some b ∧ b.allocated = false
  streams : ∀ p b, a.blocks p = some b → b.allocated = false → b.streams = []

/-- The parts of a block that `ProcessEvents` does not change. -/
def core (b : Block) : Nat × Bool × List Nat := (b.size, b.allocated, b.streams)

def Same (a a' : Alloc) : Prop := ∀ p, (a'.blocks p).map core = (a.blocks p).map core

theorem Same.some {a a' : Alloc} (h : Same a a') {p : Nat} {b : Block} (hb : a.blocks p = some b) :
    ∃ b', a'.blocks p = some b' ∧ b'.size = b.size ∧ b'.allocated = b.allocated ∧
      b'.streams = b.streams := by
  have := h p
  rw [hb] at this
  cases hb' : a'.blocks p with
  | none => rw [hb'] at this; simp at this
  | some b' =>
    rw [hb'] at this
    simp only [Option.map_some, Option.some.injEq, core, Prod.mk.injEq] at this
    exact ⟨b', rfl, this.1, this.2.1, this.2.2⟩

theorem Same.symm {a a' : Alloc} (h : Same a a') : Same a' a := fun p => (h p).symm
theorem Same.refl (a : Alloc) : Same a a := fun _ => rfl
theorem Same.trans {a b c : Alloc} (h : Same a b) (h' : Same b c) : Same a c :=
  fun p => (h' p).trans (h p)

/-- A copy that has not been executed is protected: its block is allocated and remembers the
stream, or there is an event behind the copy in its stream. -/
def Prot (a : Alloc) (c : Copy) : Prop :=
  ∃ b, a.blocks c.src = some b ∧ c.len ≤ b.size ∧
    ((b.allocated = true ∧ c.stream ∈ b.streams) ∨
      ∃ e ∈ a.events, e.2 = c.src ∧ e.1.stream = c.stream ∧ c.idx < e.1.stamp)

theorem answer_ok {done : Nat → Nat} {o : Nat → Query} {i : Nat} {ev : Event}
    (h : answer done o i ev = .ok) : ev.stamp ≤ done ev.stream := by
  simp only [answer] at h
  split at h
  · simp at h
  · next hn =>
    apply Classical.byContradiction
    intro hh
    exact hn ⟨h, hh⟩

theorem process_spec (done : Nat → Nat) (o : Nat → Query) (l : List (Event × Nat)) :
    ∀ (i : Nat) (a : Alloc), AInv { a with events := l } →
      let r := process done o i l a
      AInv r.1 ∧ Same a r.1 ∧ r.2 ≠ .abort ∧
        (∀ c : Copy, done c.stream ≤ c.idx → Prot { a with events := l } c → Prot r.1 c) ∧
        (∀ e ∈ a.available, e ∈ r.1.available) := by
  induction l with
  | nil =>
    intro i a h
    exact ⟨h, fun _ => rfl, by simp [process], fun _ _ h => h, fun _ h => h⟩
  | cons e l ih =>
    obtain ⟨ev, p⟩ := e
    intro i a h
    simp only [process]
    cases hans : answer done o i ev with
    | notReady => exact ⟨h, fun _ => rfl, by simp, fun _ _ h => h, fun _ h => h⟩
    | error => exact ⟨h, fun _ => rfl, by simp, fun _ _ h => h, fun _ h => h⟩
    | destroyError => exact ⟨h, fun _ => rfl, by simp, fun _ _ h => h, fun _ h => h⟩
    | ok =>
      simp only
      obtain ⟨b, hb, hal⟩ := h.events (ev, p) (by simp)
      simp only at hb
      rw [hb]
      simp only
      have hcount := h.count p b hb
      simp only [List.countP_cons, decide_true, if_true] at hcount
      let b' : Block := { b with eventCount := b.eventCount - 1 }
      let a' : Alloc := { a with
        blocks := setBlock a.blocks p b'
        available := if b'.eventCount = 0 ∧ b'.allocated = false then
          insertSet (b'.size, p) a.available else a.available }
      have hsame : Same a a' := by
        intro q
        simp only [a', setBlock]
        split
        · next e => subst e; rw [hb]; rfl
        · rfl
      have hb' : a'.blocks p = some b' := setBlock_same _ _ _
      have hback : ∀ q b2, a'.blocks q = some b2 → ∃ b1, a.blocks q = some b1 ∧
          b1.size = b2.size ∧ b1.allocated = b2.allocated ∧ b1.streams = b2.streams :=
        fun q b2 hq => hsame.symm.some hq
      have hinv : AInv { a' with events := l } := by
        refine ⟨?_, ?_, ?_, ?_, ?_, ?_, ?_⟩
        · intro q b1 q' b2 h1 h2 hne
          obtain ⟨c1, k1, k2, _⟩ := hback q b1 h1
          obtain ⟨c2, k3, k4, _⟩ := hback q' b2 h2
          rw [← k2, ← k4]
          exact h.disj q c1 q' c2 k1 k3 hne
        · intro b1 h1
          obtain ⟨c1, k1, k2, k3, _⟩ := hback 0 b1 h1
          rw [← k2, ← k3]
          exact h.zero c1 k1
        · simp only [a']
          split
          · exact sorted_insertSet h.sorted
          · exact h.sorted
        · intro e he
          have hold : ∀ e ∈ a.available, ∃ b, a'.blocks e.2 = some b ∧ b.size = e.1 ∧
              b.allocated = false ∧ b.eventCount = 0 := by
            intro e he
            obtain ⟨c, k1, k2, k3, k4⟩ := h.avail e he
            have hne : e.2 ≠ p := by
              intro hp
              simp only at k1
              rw [hp, hb] at k1
              simp only [Option.some.injEq] at k1
              subst k1
              have : (0 : Int) ≤ (l.countP (fun e => decide (e.2 = p)) : Nat) := Int.natCast_nonneg _
              omega
            exact ⟨c, by simp only [a']; rw [setBlock_other _ _ hne]; exact k1, k2, k3, k4⟩
          simp only [a'] at he
          split at he
          · next hc =>
            rcases mem_insertSet he with rfl | he
            · exact ⟨b', hb', rfl, hc.2, hc.1⟩
            · exact hold e he
          · exact hold e he
        · intro q b1 h1
          by_cases hq : q = p
          · subst hq
            simp only at h1
            rw [hb'] at h1
            simp only [Option.some.injEq] at h1
            rw [← h1]
            simp only [b']
            omega
          · simp only [a'] at h1
            rw [setBlock_other _ _ hq] at h1
            have := h.count q b1 h1
            simp only [List.countP_cons] at this
            rw [if_neg (by simpa using (Ne.symm hq))] at this
            simpa using this
        · intro e he
          obtain ⟨b1, k1, k2⟩ := h.events e (List.mem_cons_of_mem _ he)
          obtain ⟨b2, m1, m2, m3, m4⟩ := hsame.some k1
          exact ⟨b2, m1, by rw [m3, k2]⟩
        · intro q b1 h1 h2
          obtain ⟨c1, k1, k2, k3, k4⟩ := hback q b1 h1
          rw [← k4]
          exact h.streams q c1 k1 (by rw [k3, h2])
      obtain ⟨g1, g2, g3, g4, g5⟩ := ih (i + 1) a' hinv
      refine ⟨g1, hsame.trans g2, g3, ?_, ?_⟩
      · intro c hc hp
        apply g4 c hc
        obtain ⟨b1, k1, k2, k3⟩ := hp
        obtain ⟨b2, m1, m2, m3, m4⟩ := hsame.some k1
        refine ⟨b2, m1, by rw [m2]; exact k2, ?_⟩
        rcases k3 with k3 | ⟨e, k4, k5, k6, k7⟩
        · left; rw [m3, m4]; exact k3
        · right
          rcases List.mem_cons.1 k4 with rfl | k4
          · have := answer_ok hans
            simp only at k6 k7
            rw [k6] at this
            omega
          · exact ⟨e, k4, k5, k6, k7⟩
      · intro e he
        apply g5
        simp only [a']
        split
        · exact mem_insertSet_of_mem he
        · exact he

/-! ## `Malloc` -/

/-- The pointer is in the pool: its block is free, and no events are outstanding. -/
def Free (a : Alloc) (p n : Nat) : Prop :=
  ∃ b, a.blocks p = some b ∧ b.allocated = false ∧ n ≤ b.size ∧ ∀ e ∈ a.events, e.2 ≠ p

/-- After block `p`, whose state was `b`, is marked as allocated. -/
structure Taken (a a' : Alloc) (p : Nat) (b : Block) : Prop where
  here : a'.blocks p = some { b with allocated := true }
  other : ∀ q, q ≠ p → a'.blocks q = a.blocks q
  events : a'.events = a.events

theorem reuse_spec {a : Alloc} (h : AInv a) {n : Nat} {r : Alloc × Res} (hr : reuse n a = some r) :
    AInv r.1 ∧ ∃ p b, r.2 = .ptr p false ∧ a.blocks p = some b ∧ (b.size, p) ∈ a.available ∧
      b.allocated = false ∧ (∀ e ∈ a.events, e.2 ≠ p) ∧ n ≤ b.size ∧
      (∀ e ∈ a.available, n ≤ e.1 → b.size ≤ e.1) ∧ Taken a r.1 p b := by
  simp only [reuse] at hr
  split at hr
  · simp at hr
  · next sz p hl =>
    have hmem : (sz, p) ∈ a.available := List.mem_of_find?_eq_some hl
    have hge : ¬ less (sz, p) (n, 0) := by
      have := List.find?_some hl
      simpa using this
    obtain ⟨b, hb, hsz, hal, hev⟩ := h.avail _ hmem
    simp only at hb hsz
    rw [hb] at hr
    simp only at hr
    rw [if_pos ⟨hal, hev⟩] at hr
    simp only [Option.some.injEq] at hr
    subst hr
    have hnle : n ≤ sz := by
      apply Classical.byContradiction
      intro hlt
      apply hge
      simp only [less]
      rw [if_pos (show sz ≠ n by omega)]
      exact Nat.lt_of_not_le hlt
    have hnone : ∀ e ∈ a.events, e.2 ≠ p := by
      have := h.count p b hb
      rw [hev] at this
      have h0 : a.events.countP (fun e => decide (e.2 = p)) = 0 := by omega
      rw [List.countP_eq_zero] at h0
      intro e he
      simpa using h0 e he
    have hbest : ∀ e ∈ a.available, n ≤ e.1 → b.size ≤ e.1 := by
      intro e he hn
      rw [hsz]
      obtain ⟨l1, l2, heq, hl1⟩ := List.find?_eq_some_iff_append.1 hl |>.2
      rw [heq] at he
      have hs := h.sorted
      rw [Sorted, heq, List.pairwise_append] at hs
      rcases List.mem_append.1 he with he | he
      · have := hl1 e he
        simp only [decide_not, Bool.not_not, decide_eq_true_eq] at this
        exfalso
        simp only [less] at this
        split at this
        · exact absurd (show e.1 < n from this) (by omega)
        · exact Nat.not_lt_zero _ this
      · rcases List.mem_cons.1 he with rfl | he
        · exact Nat.le_refl _
        · have := (List.pairwise_cons.1 hs.2.1).1 e he
          simp only [less] at this
          split at this
          · exact Nat.le_of_lt this
          · next heq' => simp only [ne_eq, Decidable.not_not] at heq'; omega
    refine ⟨⟨?_, ?_, ?_, ?_, ?_, ?_, ?_⟩, p, b, rfl, hb, by rw [hsz]; exact hmem, hal, hnone,
      by omega, hbest, setBlock_same _ _ _, fun q hq => setBlock_other _ _ hq, rfl⟩
    · intro q b1 q' b2 h1 h2 hne
      have get : ∀ q b1, setBlock a.blocks p { b with allocated := true } q = some b1 →
          ∃ c, a.blocks q = some c ∧ c.size = b1.size := by
        intro q b1 hx
        simp only [setBlock] at hx
        split at hx
        · next e =>
          simp only [Option.some.injEq] at hx
          rw [e, ← hx]
          exact ⟨b, hb, rfl⟩
        · exact ⟨b1, hx, rfl⟩
      obtain ⟨c1, k1, k2⟩ := get q b1 h1
      obtain ⟨c2, k3, k4⟩ := get q' b2 h2
      rw [← k2, ← k4]
      exact h.disj q c1 q' c2 k1 k3 hne
    · intro b1 h1
      simp only [setBlock] at h1
      split at h1
      · next e =>
        subst e
        rw [(h.zero b hb).2] at hal
        simp at hal
      · exact h.zero b1 h1
    · exact List.Pairwise.sublist List.erase_sublist h.sorted
    · intro e he
      have he' : e ∈ a.available := List.mem_of_mem_erase he
      obtain ⟨c, k1, k2, k3, k4⟩ := h.avail e he'
      have hne : e.2 ≠ p := by
        intro hp
        rw [hp, hb] at k1
        simp only [Option.some.injEq] at k1
        subst k1
        have heq : e = (sz, p) := by
          obtain ⟨e1, e2⟩ := e
          simp only at hp k2
          rw [hp, ← k2, hsz]
        subst heq
        have hnd : a.available.Nodup := by
          have hs := h.sorted
          exact hs.imp (fun hl => by rintro rfl; exact less_irrefl _ hl)
        exact (hnd.mem_erase_iff.1 he).1 rfl
      exact ⟨c, by simp only; rw [setBlock_other _ _ hne]; exact k1, k2, k3, k4⟩
    · intro q b1 h1
      simp only [setBlock] at h1
      split at h1
      · next e =>
        subst e
        simp only [Option.some.injEq] at h1
        subst h1
        exact h.count q b hb
      · exact h.count q b1 h1
    · intro e he
      obtain ⟨c, k1, k2⟩ := h.events e he
      exact ⟨c, by simp only; rw [setBlock_other _ _ (hnone e he)]; exact k1, k2⟩
    · intro q b1 h1 h2
      simp only [setBlock] at h1
      split at h1
      · next e =>
        simp only [Option.some.injEq] at h1
        subst h1
        simp at h2
      · exact h.streams q b1 h1 h2

/-- What `Malloc` does to the blocks: at most one block changes, `p`. -/
structure Given (a a' : Alloc) (p n : Nat) (fr : Bool) : Prop where
  block : ∃ b, a'.blocks p = some b ∧ b.allocated = true ∧ n ≤ b.size
  old : ∀ q b, a.blocks q = some b → q ≠ p → ∃ b', a'.blocks q = some b' ∧ b'.size = b.size ∧
    b'.allocated = b.allocated ∧ b'.streams = b.streams
  /-- the block was in the pool, or is new -/
  pool : (fr = false ∧ ∃ b, a.blocks p = some b ∧ b.allocated = false ∧ n ≤ b.size) ∨
    (fr = true ∧ p ≠ 0 ∧ a.blocks p = none ∧ ∀ q b, a.blocks q = some b → p + n ≤ q ∨ q + b.size ≤ p) ∨
    (fr = true ∧ p = 0 ∧ n = 0 ∧ ∀ b, a.blocks 0 = some b → ∃ b', a'.blocks 0 = some b' ∧
      b'.size = b.size ∧ b'.allocated = b.allocated ∧ b'.streams = b.streams)

theorem fresh_spec {a : Alloc} (h : AInv a) {n : Nat} {host : Option Nat} (hh : HostOk a n host) :
    (fresh n host a = (a, .error)) ∨
      ∃ p, (fresh n host a).2 = .ptr p true ∧ AInv (fresh n host a).1 ∧
        Given a (fresh n host a).1 p n true ∧ (fresh n host a).1.events = a.events ∧
        (fresh n host a).1.available = a.available ∧
        (a.blocks p = none → ∃ b, (fresh n host a).1.blocks p = some b ∧ b.streams = []) ∧
        (∀ q, q ≠ p → (fresh n host a).1.blocks q = a.blocks q) ∧
        (∀ b, a.blocks p = some b → (fresh n host a).1.blocks p = some b) := by
  cases hhost : host with
  | none => left; rfl
  | some p =>
    right
    have hc := hh p hhost
    cases hb : a.blocks p with
    | none =>
      have hf : fresh n (some p) a =
          ({ a with blocks := setBlock a.blocks p ⟨n, true, 0, []⟩ }, .ptr p true) := by
        simp only [fresh, hb]
      rw [hf]
      refine ⟨p, rfl, ?_, ?_, rfl, rfl, fun _ => ⟨_, setBlock_same _ _ _, rfl⟩,
        fun q hq => setBlock_other _ _ hq, fun b h => by rw [hb] at h; simp at h⟩
      · refine ⟨?_, ?_, h.sorted, ?_, ?_, ?_, ?_⟩
        · intro q b1 q' b2 h1 h2 hne
          by_cases hn : n = 0
          · rw [if_pos hn] at hc
            subst hc
            simp only [setBlock] at h1 h2
            split at h1
            · simp only [Option.some.injEq] at h1
              left; rw [← h1]; simp only; omega
            · split at h2
              · simp only [Option.some.injEq] at h2
                right; rw [← h2]; simp only; omega
              · exact h.disj q b1 q' b2 h1 h2 hne
          · rw [if_neg hn] at hc
            simp only [setBlock] at h1 h2
            split at h1
            · next e =>
              simp only [Option.some.injEq] at h1
              rw [← h1, e]
              rw [if_neg (by omega)] at h2
              exact (hc.2 q' b2 h2).2
            · split at h2
              · next e =>
                simp only [Option.some.injEq] at h2
                rw [← h2, e]
                exact (hc.2 q b1 h1).2.symm
              · exact h.disj q b1 q' b2 h1 h2 hne
        · intro b1 h1
          simp only [setBlock] at h1
          split at h1
          · next e =>
            simp only [Option.some.injEq] at h1
            rw [← h1]
            simp only [and_true]
            apply Classical.byContradiction
            intro hn
            rw [if_neg hn] at hc
            exact hc.1 e.symm
          · exact h.zero b1 h1
        · intro e he
          obtain ⟨c, k1, k2⟩ := h.avail e he
          refine ⟨c, ?_, k2⟩
          simp only
          rw [setBlock_other]
          · exact k1
          · intro hp; rw [hp, hb] at k1; simp at k1
        · intro q b1 h1
          simp only [setBlock] at h1
          split at h1
          · next e =>
            simp only [Option.some.injEq] at h1
            rw [← h1]
            simp only
            symm
            rw [Int.natCast_eq_zero, List.countP_eq_zero]
            intro e' he'
            simp only [decide_eq_true_eq]
            intro hp
            obtain ⟨c, k1, _⟩ := h.events e' he'
            rw [hp, e, hb] at k1
            simp at k1
          · exact h.count q b1 h1
        · intro e he
          obtain ⟨c, k1, k2⟩ := h.events e he
          refine ⟨c, ?_, k2⟩
          simp only
          rw [setBlock_other]
          · exact k1
          · intro hp; rw [hp, hb] at k1; simp at k1
        · intro q b1 h1 h2
          simp only [setBlock] at h1
          split at h1
          · simp only [Option.some.injEq] at h1
            rw [← h1]
          · exact h.streams q b1 h1 h2
      · refine ⟨⟨_, setBlock_same _ _ _, rfl, Nat.le_refl _⟩, ?_, ?_⟩
        · intro q b1 h1 hne
          exact ⟨b1, by simp only; rw [setBlock_other _ _ hne]; exact h1, rfl, rfl, rfl⟩
        · right
          by_cases hn : n = 0
          · rw [if_pos hn] at hc
            right
            refine ⟨rfl, hc, hn, ?_⟩
            intro b1 h1
            rw [hc, h1] at hb
            simp at hb
          · rw [if_neg hn] at hc
            left
            exact ⟨rfl, hc.1, hb, fun q b1 h1 => (hc.2 q b1 h1).2⟩
    | some b0 =>
      have hf : fresh n (some p) a = (a, .ptr p true) := by simp only [fresh, hb]
      rw [hf]
      have hn : n = 0 := by
        apply Classical.byContradiction
        intro hn
        rw [if_neg hn] at hc
        exact (hc.2 p b0 hb).1 rfl
      rw [if_pos hn] at hc
      subst hc
      refine ⟨0, rfl, h, ⟨⟨b0, hb, (h.zero b0 hb).2, by omega⟩, ?_, ?_⟩, rfl, rfl, ?_,
        fun _ _ => rfl, fun b h => h⟩
      · intro q b1 h1 _
        exact ⟨b1, h1, rfl, rfl, rfl⟩
      · right; right
        refine ⟨rfl, rfl, hn, ?_⟩
        intro b1 h1
        exact ⟨b1, h1, rfl, rfl, rfl⟩
      · intro h'; rw [hb] at h'; simp at h'

theorem hostOk_same {a a' : Alloc} (hs : Same a a') {n : Nat} {host : Option Nat}
    (h : HostOk a n host) : HostOk a' n host := by
  intro p hp
  have := h p hp
  split
  · next hn => rw [if_pos hn] at this; exact this
  · next hn =>
    rw [if_neg hn] at this
    refine ⟨this.1, ?_⟩
    intro q b hq
    obtain ⟨b1, k1, k2, _⟩ := hs.symm.some hq
    rw [← k2]
    exact this.2 q b1 k1

/-- A copy is safe from `Malloc`. -/
theorem Taken.prot {a a' : Alloc} {p : Nat} {b : Block} (h : Taken a a' p b)
    (hb : a.blocks p = some b) (hal : b.allocated = false) (hev : ∀ e ∈ a.events, e.2 ≠ p) {c : Copy}
    (hp : Prot a c) : c.src ≠ p ∧ Prot a' c := by
  obtain ⟨b1, k1, k2, k3⟩ := hp
  have hne : c.src ≠ p := by
    intro e
    rw [e, hb] at k1
    simp only [Option.some.injEq] at k1
    subst k1
    rcases k3 with k3 | ⟨e', k4, k5, _⟩
    · rw [hal] at k3; simp at k3
    · exact hev e' k4 (k5.trans e)
  refine ⟨hne, b1, by rw [h.other _ hne]; exact k1, k2, ?_⟩
  rcases k3 with k3 | ⟨e, k4, k5⟩
  · exact Or.inl k3
  · exact Or.inr ⟨e, by rw [h.events]; exact k4, k5⟩

/-- What `Malloc` guarantees. -/
structure MallocOk (done : Nat → Nat) (n : Nat) (a : Alloc) (r : Alloc × Res) : Prop where
  inv : AInv r.1
  noAbort : r.2 ≠ .abort
  /-- an error changes nothing that matters -/
  err : r.2 = .error → Same a r.1 ∧ ∀ c : Copy, done c.stream ≤ c.idx → Prot a c → Prot r.1 c
  given : ∀ p fr, r.2 = .ptr p fr → Given a r.1 p n fr
  prot : ∀ p fr, r.2 = .ptr p fr → ∀ c : Copy, done c.stream ≤ c.idx → 0 < c.len → Prot a c →
    c.src ≠ p ∧ Prot r.1 c

theorem given_of_taken {a a1 a2 : Alloc} (hs : Same a a1) {p n : Nat} {b : Block}
    (hb : a1.blocks p = some b) (hal : b.allocated = false) (hn : n ≤ b.size) (ht : Taken a1 a2 p b) :
    Given a a2 p n false := by
  refine ⟨⟨_, ht.here, rfl, hn⟩, ?_, Or.inl ⟨rfl, ?_⟩⟩
  · intro q b1 h1 hne
    obtain ⟨b2, k1, k2⟩ := hs.some h1
    exact ⟨b2, by rw [ht.other q hne]; exact k1, k2⟩
  · obtain ⟨b2, k1, k2, k3, _⟩ := hs.symm.some hb
    exact ⟨b2, k1, by rw [k3]; exact hal, by omega⟩

theorem reuse_ok {a a1 : Alloc} {done : Nat → Nat} (hs : Same a a1) (h1 : AInv a1)
    (hp : ∀ c : Copy, done c.stream ≤ c.idx → Prot a c → Prot a1 c) {n : Nat} {r : Alloc × Res}
    (hr : reuse n a1 = some r) : MallocOk done n a r := by
  obtain ⟨g0, p, b, g1, g2, g3, g4, g5, g6, g7, g8⟩ := reuse_spec h1 hr
  refine ⟨g0, by rw [g1]; simp, by rw [g1]; simp, ?_, ?_⟩
  · intro p' fr h
    rw [g1] at h
    simp only [Res.ptr.injEq] at h
    obtain ⟨rfl, rfl⟩ := h
    exact given_of_taken hs g2 g4 g6 g8
  · intro p' fr h c hc _ hcp
    rw [g1] at h
    simp only [Res.ptr.injEq] at h
    obtain ⟨rfl, rfl⟩ := h
    exact g8.prot g2 g4 g5 (hp c hc hcp)

theorem fresh_ok {a a1 : Alloc} {done : Nat → Nat} (hs : Same a a1) (h1 : AInv a1)
    (hp : ∀ c : Copy, done c.stream ≤ c.idx → Prot a c → Prot a1 c) {n : Nat} {host : Option Nat}
    (hh : HostOk a n host) : MallocOk done n a (fresh n host a1) := by
  rcases fresh_spec h1 (hostOk_same hs hh) with he | ⟨p, g1, g2, g3, g4, g5, g6, g7, g8⟩
  · rw [he]
    exact ⟨h1, by simp, fun _ => ⟨hs, hp⟩, by simp, by simp⟩
  · refine ⟨g2, by rw [g1]; simp, by rw [g1]; simp, ?_, ?_⟩
    · intro p' fr h
      rw [g1] at h
      simp only [Res.ptr.injEq] at h
      obtain ⟨rfl, rfl⟩ := h
      refine ⟨g3.block, ?_, ?_⟩
      · intro q b hq hne
        obtain ⟨b1, k1, k2, k3, k4⟩ := hs.some hq
        obtain ⟨b2, m1, m2, m3, m4⟩ := g3.old q b1 k1 hne
        exact ⟨b2, m1, m2.trans k2, m3.trans k3, m4.trans k4⟩
      · rcases g3.pool with ⟨hf, _⟩ | ⟨_, hn0, hnone, hap⟩ | ⟨_, hp0, hn0, hz⟩
        · simp at hf
        · right; left
          refine ⟨rfl, hn0, ?_, ?_⟩
          · cases hb : a.blocks p with
            | none => rfl
            | some b =>
              obtain ⟨b1, k1, _⟩ := hs.some hb
              rw [hnone] at k1
              simp at k1
          · intro q b hq
            obtain ⟨b1, k1, k2, _⟩ := hs.some hq
            rw [← k2]
            exact hap q b1 k1
        · right; right
          refine ⟨rfl, hp0, hn0, ?_⟩
          intro b hb
          obtain ⟨b1, k1, k2, k3, k4⟩ := hs.some hb
          obtain ⟨b2, m1, m2, m3, m4⟩ := hz b1 k1
          exact ⟨b2, m1, m2.trans k2, m3.trans k3, m4.trans k4⟩
    · intro p' fr h c hc hlen hcp
      rw [g1] at h
      simp only [Res.ptr.injEq] at h
      obtain ⟨rfl, rfl⟩ := h
      obtain ⟨b, k1, k2, k3⟩ := hp c hc hcp
      have hne : c.src ≠ p := by
        intro e
        rcases g3.pool with ⟨hf, _⟩ | ⟨_, _, hnone, _⟩ | ⟨_, hp0, _⟩
        · simp at hf
        · rw [e, hnone] at k1; simp at k1
        · rw [e, hp0] at k1
          have := (h1.zero b k1).1
          omega
      refine ⟨hne, b, by rw [g7 _ hne]; exact k1, k2, ?_⟩
      rw [g4]
      exact k3

theorem malloc_ok {a : Alloc} (h : AInv a) (done : Nat → Nat) (n : Nat) (o0 o1 : Nat → Query)
    {host : Option Nat} (hh : HostOk a n host) :
    MallocOk done n a (malloc done n o0 o1 host a) := by
  simp only [malloc]
  obtain ⟨r0, hr0⟩ : ∃ r0, r0 =
    (if a.events.length > 100 then process done o0 0 a.events a else (a, Status.ok)) := ⟨_, rfl⟩
  rw [← hr0]
  have hs0 : AInv r0.1 ∧ Same a r0.1 ∧ r0.2 ≠ .abort ∧
      (∀ c : Copy, done c.stream ≤ c.idx → Prot a c → Prot r0.1 c) := by
    rw [hr0]
    split
    · have := process_spec done o0 a.events 0 a h
      exact ⟨this.1, this.2.1, this.2.2.1, this.2.2.2.1⟩
    · exact ⟨h, Same.refl a, by simp, fun _ _ h => h⟩
  obtain ⟨i0, s0, n0, p0⟩ := hs0
  cases h0 : r0.2 with
  | abort => exact absurd h0 n0
  | error => exact ⟨i0, by simp, fun _ => ⟨s0, p0⟩, by simp, by simp⟩
  | ok =>
    simp only
    cases hre : reuse n r0.1 with
    | some r => exact reuse_ok s0 i0 p0 hre
    | none =>
      simp only
      obtain ⟨i1, s1, n1, p1, _⟩ := process_spec done o1 r0.1.events 0 r0.1 i0
      have s1' := s0.trans s1
      have p1' : ∀ c : Copy, done c.stream ≤ c.idx → Prot a c →
          Prot (process done o1 0 r0.1.events r0.1).1 c := fun c hc hp => p1 c hc (p0 c hc hp)
      cases hst : (process done o1 0 r0.1.events r0.1).2 with
      | abort => exact absurd hst n1
      | error => exact ⟨i1, by simp, fun _ => ⟨s1', p1'⟩, by simp, by simp⟩
      | ok =>
        simp only
        cases hre1 : reuse n (process done o1 0 r0.1.events r0.1).1 with
        | some r => exact reuse_ok s1' i1 p1' hre1
        | none => exact fresh_ok s1' i1 p1' hh

end Verif.Pinned
