import Verif.Pinned.Sys

/-! Memory that was freed is used again. -/

namespace Verif.Pinned

/-- No CUDA call of the operation fails. -/
def Op.Clean : Op → Prop
  | .malloc _ o0 o1 _ => (∀ i, o0 i = .ok ∨ o0 i = .notReady) ∧ ∀ i, o1 i = .ok ∨ o1 i = .notReady
  | .free _ o _ _ => ∀ i, o i = .ok ∨ o i = .notReady
  | _ => True

/-- Every block that is free and has no outstanding events is in the pool. -/
def Pooled (a : Alloc) : Prop :=
  ∀ p b, a.blocks p = some b → b.allocated = false → b.eventCount = 0 → (b.size, p) ∈ a.available

theorem answer_clean {done : Nat → Nat} {o : Nat → Query} (ho : ∀ i, o i = .ok ∨ o i = .notReady)
    (i : Nat) (ev : Event) : answer done o i ev = .ok ∨ answer done o i ev = .notReady := by
  simp only [answer]
  split
  · exact Or.inr rfl
  · exact ho i

theorem process_live (done : Nat → Nat) (o : Nat → Query)
    (ho : ∀ i, o i = .ok ∨ o i = .notReady) (l : List (Event × Nat)) :
    ∀ (i : Nat) (a : Alloc), AInv { a with events := l } → Pooled a →
      let r := process done o i l a
      Pooled r.1 ∧ r.2 = .ok ∧ (∀ e ∈ r.1.events, e ∈ l) ∧
        ((∀ i, o i = .ok) → (∀ e ∈ l, e.1.stamp ≤ done e.1.stream) → r.1.events = []) := by
  induction l with
  | nil => intro i a _ hp; exact ⟨hp, rfl, by simp [process], by simp [process]⟩
  | cons e l ih =>
    obtain ⟨ev, p⟩ := e
    intro i a h hp
    have hstep : ∀ b, a.blocks p = some b →
        AInv { a with
          blocks := setBlock a.blocks p { b with eventCount := b.eventCount - 1 }
          available := if b.eventCount - 1 = 0 ∧ b.allocated = false then
            insertSet (b.size, p) a.available else a.available
          events := l } := by
      intro b hb
      have := process_spec (fun x => if x = ev.stream then ev.stamp else 0)
        (fun j => if j = 0 then .ok else .notReady) ((ev, p) :: l) 0 a h
      have hproc : ∀ (j : Nat) (hj : j ≠ 0) (l : List (Event × Nat)) (a : Alloc),
          process (fun x => if x = ev.stream then ev.stamp else 0)
            (fun j => if j = 0 then .ok else .notReady) j l a = ({ a with events := l }, .ok) := by
        intro j hj l a
        cases l with
        | nil => rfl
        | cons x l =>
          simp only [process, answer, hj, if_false]
          simp
      simp only [process, answer, hb] at this
      simp only [if_true, Nat.le_refl, not_true_eq_false, and_false, if_false] at this
      rw [hproc _ (by omega)] at this
      exact this.1
    simp only [process]
    rcases answer_clean (done := done) ho i ev with hans | hans
    · rw [hans]
      simp only
      obtain ⟨b, hb, hal⟩ := h.events (ev, p) (by simp)
      simp only at hb
      rw [hb]
      simp only
      have hpool : Pooled { a with
          blocks := setBlock a.blocks p { b with eventCount := b.eventCount - 1 }
          available := if b.eventCount - 1 = 0 ∧ b.allocated = false then
            insertSet (b.size, p) a.available else a.available } := by
        intro q b1 h1 h2 h3
        simp only [setBlock] at h1
        split at h1
        · next e =>
          simp only [Option.some.injEq] at h1
          subst h1
          subst e
          simp only at h2 h3 ⊢
          rw [if_pos ⟨h3, h2⟩]
          exact self_mem_insertSet _ _
        · have := hp q b1 h1 h2 h3
          simp only
          split
          · exact mem_insertSet_of_mem this
          · exact this
      obtain ⟨g1, g2, g3, g4⟩ := ih (i + 1) _ (hstep b hb) hpool
      exact ⟨g1, g2, fun e he => List.mem_cons_of_mem _ (g3 e he),
        fun h1 h2 => g4 h1 (fun e he => h2 e (List.mem_cons_of_mem _ he))⟩
    · rw [hans]
      refine ⟨hp, rfl, fun e he => he, ?_⟩
      intro h1 h2
      exfalso
      have := h2 (ev, p) (by simp)
      simp only [answer, h1, true_and] at hans
      rw [if_neg (by simpa using this)] at hans
      simp at hans

theorem reuse_live {a : Alloc} (h : AInv a) (hp : Pooled a) {n : Nat} {r : Alloc × Res}
    (hr : reuse n a = some r) : Pooled r.1 := by
  obtain ⟨_, p, b, g1, g2, g3, g4, g5, g6, g7, g8⟩ := reuse_spec h hr
  intro q b1 h1 h2 h3
  by_cases e : q = p
  · subst e
    rw [g8.here] at h1
    simp only [Option.some.injEq] at h1
    rw [← h1] at h2
    simp at h2
  · rw [g8.other q e] at h1
    have hm := hp q b1 h1 h2 h3
    simp only [reuse] at hr
    split at hr
    · simp at hr
    · next sz p' hl =>
      cases hb' : a.blocks p' with
      | none => rw [hb'] at hr; simp only [Option.some.injEq] at hr; rw [← hr]; exact hm
      | some b' =>
        rw [hb'] at hr
        simp only at hr
        split at hr
        · simp only [Option.some.injEq] at hr
          rw [← hr] at g1 ⊢
          simp only [Res.ptr.injEq, and_true] at g1
          simp only
          rw [List.mem_erase_of_ne]
          · exact hm
          · intro he
            simp only [Prod.mk.injEq] at he
            exact e (he.2.trans g1)
        · simp only [Option.some.injEq] at hr; rw [← hr]; exact hm

theorem reuse_some {a : Alloc} {n sz p : Nat} (hm : (sz, p) ∈ a.available) (hn : n ≤ sz) :
    ∃ r, reuse n a = some r := by
  cases hr : reuse n a with
  | some r => exact ⟨r, rfl⟩
  | none =>
    exfalso
    simp only [reuse] at hr
    split at hr
    · next hl =>
      simp only [lowerBound, List.find?_eq_none, decide_eq_true_eq] at hl
      have := hl (sz, p) hm
      simp only [Decidable.not_not, less] at this
      split at this
      · omega
      · simp at this
    · next hl =>
      split at hr
      · simp at hr
      · split at hr <;> simp at hr

/-- Nothing is lost: free blocks are in the pool once their events were processed, allocated blocks
are held by the program, and events are not in the future. -/
structure LInv (st : Sys) : Prop where
  pool : Pooled st.a
  held : ∀ p b, st.a.blocks p = some b → b.allocated = true → p ≠ 0 → ∃ h ∈ st.held, h.ptr = p
  stamp : ∀ e ∈ st.a.events, e.1.stamp ≤ st.sub e.1.stream

/-- What `Malloc` does to pool and events. -/
theorem malloc_live {a : Alloc} (h : AInv a) (hp : Pooled a) (done : Nat → Nat) (n : Nat)
    {o0 o1 : Nat → Query} (ho0 : ∀ i, o0 i = .ok ∨ o0 i = .notReady)
    (ho1 : ∀ i, o1 i = .ok ∨ o1 i = .notReady) {host : Option Nat} (hh : HostOk a n host) :
    Pooled (malloc done n o0 o1 host a).1 ∧
      (∀ e ∈ (malloc done n o0 o1 host a).1.events, e ∈ a.events) ∧
      ∀ q b, (malloc done n o0 o1 host a).1.blocks q = some b → b.allocated = true →
        (∃ b', a.blocks q = some b' ∧ b'.allocated = true) ∨
        ∃ fr, (malloc done n o0 o1 host a).2 = .ptr q fr := by
  have hreuse : ∀ a1 r, AInv a1 → Pooled a1 → Same a a1 → (∀ e ∈ a1.events, e ∈ a.events) →
      reuse n a1 = some r → Pooled r.1 ∧ (∀ e ∈ r.1.events, e ∈ a.events) ∧
        ∀ q b, r.1.blocks q = some b → b.allocated = true →
        (∃ b', a.blocks q = some b' ∧ b'.allocated = true) ∨ ∃ fr, r.2 = .ptr q fr := by
    intro a1 r i1 hp1 hs he hr
    obtain ⟨_, p, b, g1, g2, g3, g4, g5, g6, g7, g8⟩ := reuse_spec i1 hr
    refine ⟨reuse_live i1 hp1 hr, fun e h => he e (by rw [g8.events] at h; exact h), ?_⟩
    intro q b1 h1 h2
    by_cases e : q = p
    · right; exact ⟨false, by rw [g1, e]⟩
    · left
      rw [g8.other q e] at h1
      obtain ⟨b2, k1, k2, k3, _⟩ := hs.symm.some h1
      exact ⟨b2, k1, by rw [k3]; exact h2⟩
  simp only [malloc]
  obtain ⟨r0, hr0⟩ : ∃ r0, r0 =
    (if a.events.length > 100 then process done o0 0 a.events a else (a, Status.ok)) := ⟨_, rfl⟩
  rw [← hr0]
  have hs0 : AInv r0.1 ∧ Same a r0.1 ∧ Pooled r0.1 ∧ r0.2 = .ok ∧ ∀ e ∈ r0.1.events, e ∈ a.events := by
    rw [hr0]
    split
    · have h1 := process_spec done o0 a.events 0 a h
      have h2 := process_live done o0 ho0 a.events 0 a h hp
      exact ⟨h1.1, h1.2.1, h2.1, h2.2.1, h2.2.2.1⟩
    · exact ⟨h, Same.refl a, hp, rfl, fun _ h => h⟩
  obtain ⟨i0, s0, l0, k0, e0⟩ := hs0
  rw [k0]
  simp only
  cases hre : reuse n r0.1 with
  | some r => exact hreuse r0.1 r i0 l0 s0 e0 hre
  | none =>
    simp only
    obtain ⟨i1, s1, _⟩ := process_spec done o1 r0.1.events 0 r0.1 i0
    obtain ⟨l1, k1, e1, _⟩ := process_live done o1 ho1 r0.1.events 0 r0.1 i0 l0
    rw [k1]
    simp only
    have s1' := s0.trans s1
    have e1' : ∀ e ∈ (process done o1 0 r0.1.events r0.1).1.events, e ∈ a.events :=
      fun e he => e0 e (e1 e he)
    cases hre1 : reuse n (process done o1 0 r0.1.events r0.1).1 with
    | some r => exact hreuse _ r i1 l1 s1' e1' hre1
    | none =>
      simp only
      rcases fresh_spec i1 (hostOk_same s1' hh) with he | ⟨p, g1, g2, g3, g4, g5, g6, g7, g8⟩
      · rw [he]
        refine ⟨l1, e1', ?_⟩
        intro q b1 h1 h2
        obtain ⟨b2, m1, m2, m3, _⟩ := s1'.symm.some h1
        exact Or.inl ⟨b2, m1, by rw [m3]; exact h2⟩
      · refine ⟨?_, by rw [g4]; exact e1', ?_⟩
        · intro q b1 h1 h2 h3
          rw [g5]
          by_cases e : q = p
          · subst e
            obtain ⟨b2, m1, m2, _⟩ := g3.block
            rw [h1] at m1
            simp only [Option.some.injEq] at m1
            rw [← m1, h2] at m2
            simp at m2
          · rw [g7 q e] at h1
            exact l1 q b1 h1 h2 h3
        · intro q b1 h1 h2
          by_cases e : q = p
          · right; exact ⟨true, by rw [g1, e]⟩
          · left
            rw [g7 q e] at h1
            obtain ⟨b2, m1, m2, m3, _⟩ := s1'.symm.some h1
            exact ⟨b2, m1, by rw [m3]; exact h2⟩

theorem free_live {a : Alloc} (h : AInv a) (hp : Pooled a) (sub done : Nat → Nat) {p : Nat}
    {o : Nat → Query} (ho : ∀ i, o i = .ok ∨ o i = .notReady)
    (ord : List Nat → List Nat) (f : Nat → Bool) (hf : ∀ i, f i = false)
    (hal : p = 0 ∨ ∃ b, a.blocks p = some b ∧ b.allocated = true) :
    let r := free sub done p o ord f a
    Pooled r.1 ∧ r.2 = .ok ∧
      (∀ e ∈ r.1.events, e ∈ a.events ∨ e.1.stamp = sub e.1.stream) ∧
      ∀ q b, r.1.blocks q = some b → b.allocated = true →
        (p = 0 ∨ q ≠ p) ∧ ∃ b', a.blocks q = some b' ∧ b'.allocated = true := by
  simp only [free]
  by_cases hp0 : p = 0
  · rw [if_pos hp0]
    exact ⟨hp, rfl, fun e he => Or.inl he, fun q b h1 h2 => ⟨Or.inl hp0, b, h1, h2⟩⟩
  · rw [if_neg hp0]
    obtain ⟨b0, hb0, hal0⟩ := hal.resolve_left hp0
    obtain ⟨i1, s1, _⟩ := process_spec done o a.events 0 a h
    obtain ⟨l1, k1, e1, _⟩ := process_live done o ho a.events 0 a h hp
    generalize process done o 0 a.events a = r at *
    obtain ⟨a1, st⟩ := r
    simp only at i1 s1 l1 k1 e1 ⊢
    subst k1
    simp only
    obtain ⟨b, hb, hsz, hal, hst⟩ := s1.some hb0
    rw [hb]
    simp only
    rw [hal0] at hal
    rw [hal]
    simp only [Bool.true_eq_false, if_false]
    rw [insertEvents_ok sub p f hf]
    simp only
    refine ⟨?_, trivial, ?_, ?_⟩
    · intro q b1 h1 h2 h3
      simp only [setBlock] at h1 ⊢
      split at h1
      · next e =>
        simp only [Option.some.injEq] at h1
        subst h1
        subst e
        simp only at h3 ⊢
        rw [if_pos h3]
        exact self_mem_insertSet _ _
      · have := l1 q b1 h1 h2 h3
        split
        · exact mem_insertSet_of_mem this
        · exact this
    · intro e he
      rcases List.mem_append.1 he with he | he
      · exact Or.inl (e1 e he)
      · simp only [List.mem_map] at he
        obtain ⟨s, _, rfl⟩ := he
        exact Or.inr rfl
    · intro q b1 h1 h2
      simp only [setBlock] at h1
      split at h1
      · simp only [Option.some.injEq] at h1
        rw [← h1] at h2
        simp at h2
      · next e =>
        obtain ⟨b2, m1, m2, m3, _⟩ := s1.symm.some h1
        exact ⟨Or.inr e, b2, m1, by rw [m3]; exact h2⟩

theorem LInv.step {st : Sys} (h : Inv st) (hl : LInv st) (op : Op) (hop : st.Allowed op)
    (hc : op.Clean) : LInv (st.step op).1 := by
  cases op with
  | malloc n o0 o1 host =>
    obtain ⟨m1, m2, m3⟩ := malloc_live h.a hl.pool st.done n hc.1 hc.2 hop
    simp only [Sys.step]
    have hheld : ∀ held', (∀ h ∈ st.held, h ∈ held') →
        (∀ q fr, (malloc st.done n o0 o1 host st.a).2 = .ptr q fr → ∃ h ∈ held', h.ptr = q) →
        LInv { st with a := (malloc st.done n o0 o1 host st.a).1, held := held' } := by
      intro held' h1 h2
      refine ⟨m1, ?_, fun e he => hl.stamp e (m2 e he)⟩
      intro p b hb hal hp0
      rcases m3 p b hb hal with ⟨b', k1, k2⟩ | ⟨fr, k⟩
      · obtain ⟨x, hx, he⟩ := hl.held p b' k1 k2 hp0
        exact ⟨x, h1 x hx, he⟩
      · exact h2 p fr k
    cases hres : (malloc st.done n o0 o1 host st.a).2 with
    | abort => exact hheld st.held (fun _ h => h) (by simp [hres])
    | error => exact hheld st.held (fun _ h => h) (by simp [hres])
    | ptr p fr =>
      apply hheld _ (fun _ h => List.mem_cons_of_mem _ h)
      intro q fr' hq
      rw [hres] at hq
      simp only [Res.ptr.injEq] at hq
      exact ⟨_, List.mem_cons_self, hq.1⟩
  | free p o ord f =>
    obtain ⟨hh, hord, hf⟩ := hop
    have hp' : p = 0 ∨ ∃ b, st.a.blocks p = some b ∧ b.allocated = true := by
      rcases hh with hh | ⟨x, hx, rfl⟩
      · exact Or.inl hh
      · obtain ⟨b, k1, k2, _⟩ := h.held x hx
        exact Or.inr ⟨b, k1, k2⟩
    obtain ⟨m1, m2, m3, m4⟩ := free_live h.a hl.pool st.sub st.done hc ord f hf hp'
    simp only [Sys.step]
    rw [m2]
    refine ⟨m1, ?_, ?_⟩
    · intro q b hb hal hq0
      obtain ⟨k1, b', k2, k3⟩ := m4 q b hb hal
      obtain ⟨x, hx, he⟩ := hl.held q b' k2 k3 hq0
      refine ⟨x, ?_, he⟩
      simp only
      split
      · exact hx
      · next hp0 =>
        simp only [ne_eq, decide_not, List.mem_filter, Bool.not_eq_true', decide_eq_false_iff_not]
        exact ⟨hx, by rw [he]; exact k1.resolve_left hp0⟩
    · intro e he
      rcases m3 e he with he | he
      · exact hl.stamp e he
      · exact Nat.le_of_eq he
  | write p off v => exact ⟨hl.pool, hl.held, hl.stamp⟩
  | copy src len s =>
    obtain ⟨x, hx, rfl, hlen⟩ := hop
    obtain ⟨b, k1, k2, k3⟩ := h.held x hx
    obtain ⟨r1, r2, ⟨b', r3, r4, r5, r6, r7⟩, r8, r9⟩ := record_ok h.a s k1 k2
    have r10 : (record s x.ptr st.a).1.available = st.a.available := by
      simp only [record, k1, k2]; rfl
    simp only [Sys.step]
    rw [r1]
    refine ⟨?_, ?_, ?_⟩
    · intro q b1 h1 h2 h3
      simp only at h1 ⊢
      rw [r10]
      by_cases e : q = x.ptr
      · rw [e, r3] at h1
        simp only [Option.some.injEq] at h1
        rw [← h1, r5] at h2
        simp at h2
      · rw [r8 q e] at h1
        exact hl.pool q b1 h1 h2 h3
    · intro q b1 h1 h2 h3
      have hex : ∃ h ∈ st.held, h.ptr = q := by
        by_cases e : q = x.ptr
        · exact ⟨x, hx, e.symm⟩
        · simp only at h1
          rw [r8 q e] at h1
          exact hl.held q b1 h1 h2 h3
      obtain ⟨y, hy, he⟩ := hex
      refine ⟨_, List.mem_map.2 ⟨y, hy, rfl⟩, ?_⟩
      split <;> exact he
    · intro e he
      simp only at he ⊢
      rw [r9] at he
      exact Nat.le_trans (hl.stamp e he) (bump_le _ _ _)
  | kernel s =>
    exact ⟨hl.pool, hl.held, fun e he => Nat.le_trans (hl.stamp e he) (bump_le _ _ _)⟩
  | progress s =>
    simp only [Sys.step]
    split
    · exact ⟨hl.pool, hl.held, hl.stamp⟩
    · exact hl

/-- The states that can be reached without an error of CUDA. -/
inductive ReachClean : Sys → Prop where
  | init (mem : Nat → Nat) : ReachClean (Sys.init mem)
  | step (st : Sys) (op : Op) : ReachClean st → st.Allowed op → op.Clean →
      ReachClean (st.step op).1

theorem ReachClean.reach {st : Sys} (h : ReachClean st) : Reach st := by
  induction h with
  | init mem => exact .init mem
  | step st op _ hop _ ih => exact .step st op ih hop

theorem ReachClean.linv {st : Sys} (h : ReachClean st) : LInv st := by
  induction h with
  | init mem => exact ⟨by intro p b h; simp [Sys.init, Alloc.empty] at h,
      by intro p b h; simp [Sys.init, Alloc.empty] at h, by simp [Sys.init, Alloc.empty]⟩
  | step st op hr hop hc ih => exact ih.step hr.reach.inv op hop hc

end Verif.Pinned
