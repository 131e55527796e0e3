import Verif.Pinned.Lemmas

/-! `Free`, `RecordEvent`, and the invariant of programs. -/

namespace Verif.Pinned

theorem insertEvents_ok (sub : Nat → Nat) (p : Nat) (f : Nat → Bool) (hf : ∀ i, f i = false)
    (ss : List Nat) : ∀ (i : Nat) (k : Int) (evs : List (Event × Nat)),
      insertEvents sub p f i ss k evs =
        (k + ss.length, evs ++ ss.map (fun s => (⟨s, sub s⟩, p)), .ok) := by
  induction ss with
  | nil => intro i k evs; simp [insertEvents]
  | cons s ss ih =>
    intro i k evs
    simp only [insertEvents, hf, Bool.false_eq_true, if_false]
    rw [ih]
    simp only [List.length_cons, List.map_cons, List.append_assoc, List.singleton_append,
      Prod.mk.injEq, and_true]
    push_cast
    omega

/-- What `Free` guarantees. -/
structure FreeOk (sub done : Nat → Nat) (p : Nat) (a : Alloc) (r : Alloc × Status) : Prop where
  inv : AInv r.1
  noAbort : r.2 ≠ .abort
  old : ∀ q b, a.blocks q = some b → ∃ b', r.1.blocks q = some b' ∧ b'.size = b.size ∧
    (q ≠ p → b'.allocated = b.allocated)
  none : ∀ q, a.blocks q = none → r.1.blocks q = none
  prot : ∀ c : Copy, done c.stream ≤ c.idx → c.idx < sub c.stream → Prot a c → Prot r.1 c

theorem free_ok {a : Alloc} (h : AInv a) (sub done : Nat → Nat) {p : Nat} (o : Nat → Query)
    {ord : List Nat → List Nat} (hord : ∀ l, (ord l).Perm l) {f : Nat → Bool}
    (hf : ∀ i, f i = false) (hp : p = 0 ∨ ∃ b, a.blocks p = some b ∧ b.allocated = true) :
    FreeOk sub done p a (free sub done p o ord f a) := by
  simp only [free]
  by_cases hp0 : p = 0
  · rw [if_pos hp0]
    exact ⟨h, by simp, fun q b hq => ⟨b, hq, rfl, fun _ => rfl⟩, fun _ h => h, fun _ _ _ h => h⟩
  · rw [if_neg hp0]
    obtain ⟨b0, hb0, hal0⟩ := hp.resolve_left hp0
    obtain ⟨i1, s1, n1, p1, _⟩ := process_spec done o a.events 0 a h
    generalize process done o 0 a.events a = r at *
    obtain ⟨a1, st⟩ := r
    simp only at i1 s1 n1 p1 ⊢
    have hsame : ∀ q b, a.blocks q = some b → ∃ b', a1.blocks q = some b' ∧ b'.size = b.size ∧
        (q ≠ p → b'.allocated = b.allocated) := by
      intro q b hq
      obtain ⟨b', k1, k2, k3, _⟩ := s1.some hq
      exact ⟨b', k1, k2, fun _ => k3⟩
    have hnone : ∀ q, a.blocks q = none → a1.blocks q = none := by
      intro q hq
      have := s1 q
      rw [hq] at this
      simpa using this
    cases st with
    | abort => exact absurd rfl n1
    | error => exact ⟨i1, by simp, hsame, hnone, fun c hc _ hcp => p1 c hc hcp⟩
    | ok =>
      simp only
      obtain ⟨b, hb, hsz, hal, hst⟩ := s1.some hb0
      rw [hb]
      simp only
      rw [hal0] at hal
      rw [hal]
      simp only [Bool.true_eq_false, if_false]
      rw [insertEvents_ok sub p f hf]
      simp only
      -- no event refers to an allocated block
      have hno : ∀ e ∈ a1.events, e.2 ≠ p := by
        intro e he hep
        obtain ⟨b2, k1, k2⟩ := i1.events e he
        rw [hep, hb] at k1
        simp only [Option.some.injEq] at k1
        rw [← k1, hal] at k2
        simp at k2
      have hcnt0 : a1.events.countP (fun e => decide (e.2 = p)) = 0 := by
        rw [List.countP_eq_zero]
        intro e he
        simpa using hno e he
      have hc0 : b.eventCount = 0 := by
        rw [i1.count p b hb, hcnt0]; rfl
      rw [hc0]
      have hlen : (ord b.streams).length = b.streams.length := (hord _).length_eq
      rw [hlen]
      have hcnt : ∀ q, (a1.events ++ (ord b.streams).map (fun s => ((⟨s, sub s⟩ : Event), p))).countP
          (fun e => decide (e.2 = q)) = a1.events.countP (fun e => decide (e.2 = q)) +
            if q = p then b.streams.length else 0 := by
        intro q
        rw [List.countP_append, List.countP_map]
        congr 1
        split
        · next e =>
          subst e
          rw [← hlen]
          apply List.countP_eq_length.2
          intro s _
          simp
        · next e =>
          rw [List.countP_eq_zero]
          intro s _
          simpa using (Ne.symm e)
      refine ⟨⟨?_, ?_, ?_, ?_, ?_, ?_, ?_⟩, by simp, ?_, ?_, ?_⟩
      · intro q b1 q' b2 h1 h2 hne
        have get : ∀ q b1, setBlock a1.blocks p ⟨b.size, false, 0 + b.streams.length, []⟩ q =
            some b1 → ∃ c, a1.blocks q = some c ∧ c.size = b1.size := by
          intro q b1 hx
          simp only [setBlock] at hx
          split at hx
          · next e =>
            simp only [Option.some.injEq] at hx
            rw [e, ← hx]
            exact ⟨b, hb, rfl⟩
          · exact ⟨b1, hx, rfl⟩
        obtain ⟨c1, k1, k2⟩ := get q b1 h1
        obtain ⟨c2, k3, k4⟩ := get q' b2 h2
        rw [← k2, ← k4]
        exact i1.disj q c1 q' c2 k1 k3 hne
      · intro b1 h1
        simp only at h1
        rw [setBlock_other _ _ (Ne.symm hp0)] at h1
        exact i1.zero b1 h1
      · simp only
        split
        · exact sorted_insertSet i1.sorted
        · exact i1.sorted
      · intro e he
        have hold : ∀ e ∈ a1.available, ∃ b2,
            setBlock a1.blocks p ⟨b.size, false, 0 + b.streams.length, []⟩ e.2 = some b2 ∧
              b2.size = e.1 ∧ b2.allocated = false ∧ b2.eventCount = 0 := by
          intro e he
          obtain ⟨c, k1, k2, k3, k4⟩ := i1.avail e he
          refine ⟨c, ?_, k2, k3, k4⟩
          rw [setBlock_other]
          · exact k1
          · intro hep
            rw [hep, hb] at k1
            simp only [Option.some.injEq] at k1
            rw [← k1, hal] at k3
            simp at k3
        simp only at he
        split at he
        · next hz =>
          rcases mem_insertSet he with rfl | he
          · exact ⟨_, setBlock_same _ _ _, rfl, rfl, hz⟩
          · exact hold e he
        · exact hold e he
      · intro q b1 h1
        simp only at h1 ⊢
        rw [hcnt q]
        simp only [setBlock] at h1
        split at h1
        · next e =>
          simp only [Option.some.injEq] at h1
          rw [if_pos e, ← h1, e, hcnt0]
          simp
        · next e =>
          rw [if_neg e, Nat.add_zero]
          exact i1.count q b1 h1
      · intro e he
        simp only at he ⊢
        rcases List.mem_append.1 he with he | he
        · obtain ⟨c, k1, k2⟩ := i1.events e he
          refine ⟨c, ?_, k2⟩
          rw [setBlock_other _ _ (hno e he)]
          exact k1
        · simp only [List.mem_map] at he
          obtain ⟨s, _, rfl⟩ := he
          exact ⟨_, setBlock_same _ _ _, rfl⟩
      · intro q b1 h1 h2
        simp only [setBlock] at h1
        split at h1
        · simp only [Option.some.injEq] at h1
          rw [← h1]
        · exact i1.streams q b1 h1 h2
      · intro q b1 hq
        obtain ⟨b2, k1, k2, k3⟩ := hsame q b1 hq
        simp only
        by_cases e : q = p
        · subst e
          rw [hb0] at hq
          simp only [Option.some.injEq] at hq
          subst hq
          exact ⟨_, setBlock_same _ _ _, hsz, fun hne => absurd rfl hne⟩
        · exact ⟨b2, by rw [setBlock_other _ _ e]; exact k1, k2, k3⟩
      · intro q hq
        have := hnone q hq
        simp only
        rw [setBlock_other]
        · exact this
        · intro e
          rw [e, hb0] at hq
          simp at hq
      · intro c hc hidx hcp
        obtain ⟨b1, k1, k2, k3⟩ := p1 c hc hcp
        by_cases e : c.src = p
        · rw [e, hb] at k1
          simp only [Option.some.injEq] at k1
          subst k1
          refine ⟨⟨b.size, false, 0 + b.streams.length, []⟩, ?_, k2, Or.inr ?_⟩
          · rw [e]; exact setBlock_same _ _ _
          · rcases k3 with ⟨_, k3⟩ | ⟨e', k4, k5, _⟩
            · refine ⟨(⟨c.stream, sub c.stream⟩, p), ?_, e.symm, rfl, hidx⟩
              simp only [List.mem_append, List.mem_map]
              right
              exact ⟨c.stream, (hord _).mem_iff.2 k3, rfl⟩
            · exact absurd (k5.trans e) (hno e' k4)
        · refine ⟨b1, ?_, k2, ?_⟩
          · simp only
            rw [setBlock_other _ _ e]
            exact k1
          · rcases k3 with k3 | ⟨e', k4, k5⟩
            · exact Or.inl k3
            · exact Or.inr ⟨e', List.mem_append_left _ k4, k5⟩

/-- What `RecordEvent` guarantees for a block that is allocated. -/
theorem record_ok {a : Alloc} (h : AInv a) (s : Nat) {p : Nat} {b : Block} (hb : a.blocks p = some b)
    (hal : b.allocated = true) :
    (record s p a).2 = .ok ∧ AInv (record s p a).1 ∧
      (∃ b', (record s p a).1.blocks p = some b' ∧ b'.size = b.size ∧ b'.allocated = true ∧
        s ∈ b'.streams ∧ ∀ x ∈ b.streams, x ∈ b'.streams) ∧
      (∀ q, q ≠ p → (record s p a).1.blocks q = a.blocks q) ∧
      (record s p a).1.events = a.events := by
  have hr : record s p a = ({ a with
      blocks := setBlock a.blocks p
        { b with streams := if s ∈ b.streams then b.streams else s :: b.streams } }, .ok) := by
    simp only [record, hb, hal, Bool.true_eq_false, if_false]
  rw [hr]
  refine ⟨rfl, ⟨?_, ?_, h.sorted, ?_, ?_, ?_, ?_⟩, ⟨_, setBlock_same _ _ _, rfl, hal, ?_, ?_⟩,
    fun q hq => setBlock_other _ _ hq, rfl⟩
  · intro q b1 q' b2 h1 h2 hne
    have get : ∀ q b1, setBlock a.blocks p
        { b with streams := if s ∈ b.streams then b.streams else s :: b.streams } q =
        some b1 → ∃ c, a.blocks q = some c ∧ c.size = b1.size := by
      intro q b1 hx
      simp only [setBlock] at hx
      split at hx
      · next e =>
        simp only [Option.some.injEq] at hx
        rw [e, ← hx]
        exact ⟨b, hb, rfl⟩
      · exact ⟨b1, hx, rfl⟩
    obtain ⟨c1, k1, k2⟩ := get q b1 h1
    obtain ⟨c2, k3, k4⟩ := get q' b2 h2
    rw [← k2, ← k4]
    exact h.disj q c1 q' c2 k1 k3 hne
  · intro b1 h1
    simp only [setBlock] at h1
    split at h1
    · next e =>
      simp only [Option.some.injEq] at h1
      rw [← h1]
      exact h.zero b (by rw [e]; exact hb)
    · exact h.zero b1 h1
  · intro e he
    obtain ⟨c, k1, k2, k3, k4⟩ := h.avail e he
    refine ⟨c, ?_, k2, k3, k4⟩
    simp only
    rw [setBlock_other]
    · exact k1
    · intro hep
      rw [hep, hb] at k1
      simp only [Option.some.injEq] at k1
      rw [← k1, hal] at k3
      simp at k3
  · intro q b1 h1
    simp only [setBlock] at h1
    split at h1
    · next e =>
      simp only [Option.some.injEq] at h1
      rw [← h1, e]
      exact h.count p b hb
    · exact h.count q b1 h1
  · intro e he
    obtain ⟨c, k1, k2⟩ := h.events e he
    refine ⟨c, ?_, k2⟩
    simp only
    rw [setBlock_other]
    · exact k1
    · intro hep
      rw [hep, hb] at k1
      simp only [Option.some.injEq] at k1
      rw [← k1, hal] at k2
      simp at k2
  · intro q b1 h1 h2
    simp only [setBlock] at h1
    split at h1
    · simp only [Option.some.injEq] at h1
      rw [← h1] at h2
      simp only [hal] at h2
      simp at h2
    · exact h.streams q b1 h1 h2
  · simp only
    split
    · assumption
    · simp
  · intro x hx
    simp only
    split
    · exact hx
    · exact List.mem_cons_of_mem _ hx

/-! ## Programs -/

structure Inv (st : Sys) : Prop where
  a : AInv st.a
  held : ∀ h ∈ st.held, ∃ b, st.a.blocks h.ptr = some b ∧ b.allocated = true ∧ h.size ≤ b.size
  copies : ∀ c ∈ st.copies, st.Pending c → 0 < c.len → Prot st.a c
  idx : ∀ c ∈ st.copies, c.idx < st.sub c.stream
  snap : ∀ c ∈ st.copies, st.Pending c → ∀ i < c.len, st.mem (c.src + i) = c.snap i
  unsent : ∀ h ∈ st.held, h.sent = false → 0 < h.size → ∀ c ∈ st.copies, st.Pending c → 0 < c.len →
    c.src ≠ h.ptr
  out : ∀ x ∈ st.out, ∀ i < x.1.len, x.2 i = x.1.snap i

theorem bump_le (f : Nat → Nat) (s x : Nat) : f x ≤ bump f s x := by
  simp only [bump]; split <;> omega

theorem inv_init (mem : Nat → Nat) : Inv (Sys.init mem) := by
  refine ⟨⟨?_, ?_, List.Pairwise.nil, ?_, ?_, ?_, ?_⟩, ?_, ?_, ?_, ?_, ?_, ?_⟩ <;>
    simp [Sys.init, Alloc.empty]

/-- No operation of a program that does what is allowed aborts, and the invariant holds after. -/
theorem Inv.step {st : Sys} (h : Inv st) (op : Op) (hop : st.Allowed op) :
    Inv (st.step op).1 ∧ (st.step op).2 ≠ .abort := by
  cases op with
  | malloc n o0 o1 host =>
    have hm := malloc_ok h.a st.done n o0 o1 hop
    simp only [Sys.step]
    cases hres : (malloc st.done n o0 o1 host st.a).2 with
    | abort => exact absurd hres hm.noAbort
    | error =>
      obtain ⟨hs, hp⟩ := hm.err hres
      simp only
      refine ⟨⟨hm.inv, ?_, fun c hc hpe hl => hp c hpe (h.copies c hc hpe hl), h.idx, h.snap, h.unsent,
        h.out⟩, by simp⟩
      intro x hx
      obtain ⟨b, k1, k2, k3⟩ := h.held x hx
      obtain ⟨b', m1, m2, m3, _⟩ := hs.some k1
      exact ⟨b', m1, by rw [m3]; exact k2, by rw [m2]; exact k3⟩
    | ptr p fr =>
      have hg := hm.given p fr hres
      have hp := hm.prot p fr hres
      simp only
      refine ⟨⟨hm.inv, ?_, fun c hc hpe hl => (hp c hpe hl (h.copies c hc hpe hl)).2, h.idx, h.snap, ?_,
        h.out⟩, by simp⟩
      · intro x hx
        rcases List.mem_cons.1 hx with rfl | hx
        · exact hg.block
        · obtain ⟨b, k1, k2, k3⟩ := h.held x hx
          by_cases e : x.ptr = p
          · rcases hg.pool with ⟨_, b1, m1, m2, _⟩ | ⟨_, _, m1, _⟩ | ⟨_, m0, _, m1⟩
            · rw [← e, k1] at m1
              simp only [Option.some.injEq] at m1
              rw [← m1, k2] at m2
              simp at m2
            · rw [← e, k1] at m1
              simp at m1
            · rw [e, m0] at k1
              obtain ⟨b', j1, j2, j3, _⟩ := m1 b k1
              refine ⟨b', ?_, by rw [j3]; exact k2, by rw [j2]; exact k3⟩
              simp only
              rw [e, m0]
              exact j1
          · obtain ⟨b', m1, m2, m3, _⟩ := hg.old _ b k1 e
            exact ⟨b', m1, by rw [m3]; exact k2, by rw [m2]; exact k3⟩
      · intro x hx hs hsz c hc hpe hl
        rcases List.mem_cons.1 hx with rfl | hx
        · exact (hp c hpe hl (h.copies c hc hpe hl)).1
        · exact h.unsent x hx hs hsz c hc hpe hl
  | free p o ord f =>
    obtain ⟨hh, hord, hf⟩ := hop
    have hp' : p = 0 ∨ ∃ b, st.a.blocks p = some b ∧ b.allocated = true := by
      rcases hh with hh | ⟨x, hx, rfl⟩
      · exact Or.inl hh
      · obtain ⟨b, k1, k2, _⟩ := h.held x hx
        exact Or.inr ⟨b, k1, k2⟩
    have hm := free_ok h.a st.sub st.done o hord hf hp'
    have hsub : ∀ x ∈ (if p = 0 then st.held else st.held.filter fun h => h.ptr ≠ p),
        x ∈ st.held ∧ (p = 0 ∨ x.ptr ≠ p) := by
      intro x hx
      split at hx
      · next e => exact ⟨hx, Or.inl e⟩
      · simp only [ne_eq, decide_not, List.mem_filter, Bool.not_eq_true',
          decide_eq_false_iff_not] at hx
        exact ⟨hx.1, Or.inr hx.2⟩
    have hall : ∀ s : Status, Inv { st with
        a := (free st.sub st.done p o ord f st.a).1
        held := if p = 0 then st.held else st.held.filter fun h => h.ptr ≠ p } := by
      intro _
      refine ⟨hm.inv, ?_, fun c hc hpe hl => hm.prot c hpe (h.idx c hc) (h.copies c hc hpe hl), h.idx,
        h.snap, ?_, h.out⟩
      · intro x hx
        obtain ⟨hx, hne⟩ := hsub x hx
        obtain ⟨b, k1, k2, k3⟩ := h.held x hx
        by_cases hp0 : p = 0
        · simp only [free, if_pos hp0]
          exact ⟨b, k1, k2, k3⟩
        · obtain ⟨b', m1, m2, m3⟩ := hm.old _ b k1
          exact ⟨b', m1, by rw [m3 (hne.resolve_left hp0)]; exact k2, by rw [m2]; exact k3⟩
      · intro x hx
        exact h.unsent x (hsub x hx).1
    simp only [Sys.step]
    cases hres : (free st.sub st.done p o ord f st.a).2 with
    | abort => exact absurd hres hm.noAbort
    | error => exact ⟨hall .ok, by simp⟩
    | ok => exact ⟨hall .ok, by simp⟩
  | write p off v =>
    obtain ⟨x, hx, rfl, hoff, hun⟩ := hop
    simp only [Sys.step]
    refine ⟨⟨h.a, h.held, h.copies, h.idx, ?_, h.unsent, h.out⟩, by simp⟩
    intro c hc hpe i hi
    simp only
    rw [if_neg]
    · exact h.snap c hc hpe i hi
    · intro e
      have hne := h.unsent x hx hun (by omega) c hc hpe (by omega)
      obtain ⟨b, k1, k2, k3⟩ := h.held x hx
      obtain ⟨b2, m1, m2, _⟩ := h.copies c hc hpe (by omega)
      have := h.a.disj _ b2 _ b m1 k1 hne
      omega
  | copy src len s =>
    obtain ⟨x, hx, rfl, hlen⟩ := hop
    obtain ⟨b, k1, k2, k3⟩ := h.held x hx
    obtain ⟨r1, r2, ⟨b', r3, r4, r5, r6, r7⟩, r8, r9⟩ := record_ok h.a s k1 k2
    simp only [Sys.step]
    rw [r1]
    simp only
    refine ⟨⟨r2, ?_, ?_, ?_, ?_, ?_, h.out⟩, by simp⟩
    · intro y hy
      simp only [List.mem_map] at hy
      obtain ⟨z, hz, rfl⟩ := hy
      obtain ⟨c, j1, j2, j3⟩ := h.held z hz
      have hps : (if z.ptr = x.ptr then { z with sent := true } else z).ptr = z.ptr ∧
          (if z.ptr = x.ptr then { z with sent := true } else z).size = z.size := by
        split <;> exact ⟨rfl, rfl⟩
      rw [hps.1, hps.2]
      by_cases e : z.ptr = x.ptr
      · rw [e] at j1 ⊢
        rw [k1] at j1
        simp only [Option.some.injEq] at j1
        exact ⟨b', r3, r5, by rw [r4, j1]; exact j3⟩
      · exact ⟨c, by rw [r8 _ e]; exact j1, j2, j3⟩
    · intro c hc hpe hl
      rcases List.mem_cons.1 hc with rfl | hc
      · exact ⟨b', r3, by simp only; omega, Or.inl ⟨r5, r6⟩⟩
      · obtain ⟨c1, j1, j2, j3⟩ := h.copies c hc hpe hl
        by_cases e : c.src = x.ptr
        · rw [e, k1] at j1
          simp only [Option.some.injEq] at j1
          subst j1
          refine ⟨b', by rw [e]; exact r3, by omega, ?_⟩
          rcases j3 with j3 | ⟨e', j4, j5⟩
          · exact Or.inl ⟨r5, r7 _ j3.2⟩
          · exact Or.inr ⟨e', by rw [r9]; exact j4, j5⟩
        · refine ⟨c1, by rw [r8 _ e]; exact j1, j2, ?_⟩
          rw [r9]
          exact j3
    · intro c hc
      rcases List.mem_cons.1 hc with rfl | hc
      · simp [bump]
      · exact Nat.lt_of_lt_of_le (h.idx c hc) (bump_le _ _ _)
    · intro c hc hpe i hi
      rcases List.mem_cons.1 hc with rfl | hc
      · rfl
      · exact h.snap c hc hpe i hi
    · intro y hy hun hsz c hc hpe hl
      simp only [List.mem_map] at hy
      obtain ⟨z, hz, rfl⟩ := hy
      by_cases e : z.ptr = x.ptr
      · rw [if_pos e] at hun
        simp at hun
      · rw [if_neg e] at hun hsz ⊢
        rcases List.mem_cons.1 hc with rfl | hc
        · exact Ne.symm e
        · exact h.unsent z hz hun hsz c hc hpe hl
  | kernel s =>
    simp only [Sys.step]
    exact ⟨⟨h.a, h.held, h.copies, fun c hc => Nat.lt_of_lt_of_le (h.idx c hc) (bump_le _ _ _),
      h.snap, h.unsent, h.out⟩, by simp⟩
  | progress s =>
    simp only [Sys.step]
    split
    · have hpend : ∀ c : Copy, bump st.done s c.stream ≤ c.idx → st.Pending c := fun c hc =>
        Nat.le_trans (bump_le _ _ _) hc
      refine ⟨⟨h.a, h.held, fun c hc hpe => h.copies c hc (hpend c hpe), h.idx,
        fun c hc hpe => h.snap c hc (hpend c hpe),
        fun x hx hs hsz c hc hpe => h.unsent x hx hs hsz c hc (hpend c hpe), ?_⟩, by simp⟩
      intro x hx i hi
      rcases List.mem_append.1 hx with hx | hx
      · simp only [List.mem_map, List.mem_filter, decide_eq_true_eq] at hx
        obtain ⟨c, ⟨hc, hs, hi'⟩, rfl⟩ := hx
        exact h.snap c hc (by simp only [Sys.Pending, hs, hi']; exact Nat.le_refl _) i hi
      · exact h.out x hx i hi
    · exact ⟨h, by simp⟩

theorem Reach.inv {st : Sys} (hr : Reach st) : Inv st := by
  induction hr with
  | init mem => exact inv_init mem
  | step st op _ hop ih => exact (ih.step op hop).1

end Verif.Pinned
