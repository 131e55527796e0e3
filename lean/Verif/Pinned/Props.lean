import Verif.Pinned.Live

/-! C111, C112: pinned memory is handed out only when nobody uses it, and is used again. -/

namespace Verif.Pinned

/-- C111.  Memory that `Malloc` returns overlaps neither with memory that is held nor with the
source of a copy that has not been executed, and no call aborts. -/
theorem malloc_exclusive {st : Sys} (hr : Reach st) {n : Nat} {o0 o1 : Nat → Query}
    {host : Option Nat} (hop : st.Allowed (.malloc n o0 o1 host)) {p : Nat} {fr : Bool}
    (hres : (st.step (.malloc n o0 o1 host)).2 = .ptr p fr) :
    (∀ h ∈ st.held, Apart p n h.ptr h.size) ∧
      ∀ c ∈ st.copies, st.Pending c → Apart p n c.src c.len := by
  have h := hr.inv
  have hm := malloc_ok h.a st.done n o0 o1 hop
  have hres' : (malloc st.done n o0 o1 host st.a).2 = .ptr p fr := by
    simp only [Sys.step] at hres
    cases hx : (malloc st.done n o0 o1 host st.a).2 with
    | abort => rw [hx] at hres; simp at hres
    | error => rw [hx] at hres; simp at hres
    | ptr q f => rw [hx] at hres; simpa using hres
  have hg := hm.given p fr hres'
  obtain ⟨bp, hbp, _, hnp⟩ := hg.block
  refine ⟨?_, ?_⟩
  · intro x hx
    obtain ⟨b, k1, k2, k3⟩ := h.held x hx
    by_cases e : x.ptr = p
    · rcases hg.pool with ⟨_, b1, m1, m2, _⟩ | ⟨_, _, m1, _⟩ | ⟨_, m0, hn, _⟩
      · rw [← e, k1] at m1
        simp only [Option.some.injEq] at m1
        rw [← m1, k2] at m2
        simp at m2
      · rw [← e, k1] at m1
        simp at m1
      · exact Or.inr (Or.inr (Or.inl hn))
    · obtain ⟨b', m1, m2, _⟩ := hg.old _ b k1 e
      have := hm.inv.disj _ _ _ _ hbp m1 (Ne.symm e)
      simp only [Apart]
      omega
  · intro c hc hpe
    by_cases hl : c.len = 0
    · exact Or.inr (Or.inr (Or.inr hl))
    · obtain ⟨k1, b, k2, k3, _⟩ := hm.prot p fr hres' c hpe (by omega) (h.copies c hc hpe (by omega))
      have := hm.inv.disj _ _ _ _ hbp k2 (Ne.symm k1)
      simp only [Apart]
      omega

/-- C111.  No assertion of the allocator fails, and no entry that is looked up is missing. -/
theorem no_abort {st : Sys} (hr : Reach st) {op : Op} (hop : st.Allowed op) :
    (st.step op).2 ≠ .abort := (hr.inv.step op hop).2

/-- C111.  If a block in the pool is large enough, `Malloc` returns a smallest such block. -/
theorem malloc_best_fit {st : Sys} (hr : Reach st) (n : Nat) (o0 o1 : Nat → Query)
    (host : Option Nat) (hev : st.a.events.length ≤ 100) {sz q : Nat}
    (hq : (sz, q) ∈ st.a.available) (hn : n ≤ sz) :
    ∃ p sz', (st.step (.malloc n o0 o1 host)).2 = .ptr p false ∧ (sz', p) ∈ st.a.available ∧
      n ≤ sz' ∧ ∀ e ∈ st.a.available, n ≤ e.1 → sz' ≤ e.1 := by
  obtain ⟨r, hre⟩ := reuse_some hq hn
  obtain ⟨_, p, b, g1, g2, g3, g4, g5, g6, g7, g8⟩ := reuse_spec hr.inv.a hre
  refine ⟨p, b.size, ?_, g3, g6, g7⟩
  have : (malloc st.done n o0 o1 host st.a) = r := by
    simp only [malloc, if_neg (Nat.not_lt.2 hev), hre]
  simp only [Sys.step, this, g1]

/-- C112.  Every copy that has been executed delivered what was in the source at the time of the
call, although the source may be freed right after the call. -/
theorem copies_deliver {st : Sys} (hr : Reach st) :
    ∀ x ∈ st.out, ∀ i < x.1.len, x.2 i = x.1.snap i := hr.inv.out

/-- C112.  And a copy that has not been executed will: its source still has the same contents. -/
theorem pending_intact {st : Sys} (hr : Reach st) :
    ∀ c ∈ st.copies, st.Pending c → ∀ i < c.len, st.mem (c.src + i) = c.snap i := hr.inv.snap

/-- C112.  Nothing is lost: if CUDA reports no errors and the streams are idle, a block that nobody
holds is used again, and `cudaMallocHost` is not called. -/
theorem malloc_reuses {st : Sys} (hr : ReachClean st) (hidle : ∀ s, st.done s = st.sub s)
    {q : Nat} {b : Block} (hb : st.a.blocks q = some b) (hq : q ≠ 0) (hh : ∀ h ∈ st.held, h.ptr ≠ q)
    {n : Nat} (hn : n ≤ b.size) {o0 : Nat → Query} (ho0 : ∀ i, o0 i = .ok ∨ o0 i = .notReady)
    (host : Option Nat) :
    ∃ p, (st.step (.malloc n o0 (fun _ => .ok) host)).2 = .ptr p false := by
  have h := hr.reach.inv
  have hl := hr.linv
  have hfree : b.allocated = false := by
    cases hal : b.allocated with
    | false => rfl
    | true =>
      obtain ⟨x, hx, he⟩ := hl.held q b hb hal hq
      exact absurd he (hh x hx)
  have key : ∃ r p, malloc st.done n o0 (fun _ => .ok) host st.a = r ∧ r.2 = .ptr p false := by
    simp only [malloc]
    obtain ⟨r0, hr0⟩ : ∃ r0, r0 = (if st.a.events.length > 100 then
      process st.done o0 0 st.a.events st.a else (st.a, Status.ok)) := ⟨_, rfl⟩
    rw [← hr0]
    have hs0 : AInv r0.1 ∧ Same st.a r0.1 ∧ Pooled r0.1 ∧ r0.2 = .ok ∧
        ∀ e ∈ r0.1.events, e ∈ st.a.events := by
      rw [hr0]
      split
      · have h1 := process_spec st.done o0 st.a.events 0 st.a h.a
        have h2 := process_live st.done o0 ho0 st.a.events 0 st.a h.a hl.pool
        exact ⟨h1.1, h1.2.1, h2.1, h2.2.1, h2.2.2.1⟩
      · exact ⟨h.a, Same.refl _, hl.pool, rfl, fun _ h => h⟩
    obtain ⟨i0, s0, l0, k0, e0⟩ := hs0
    rw [k0]
    simp only
    cases hre : reuse n r0.1 with
    | some r =>
      obtain ⟨_, p, b, g1, _⟩ := reuse_spec i0 hre
      exact ⟨r, p, rfl, g1⟩
    | none =>
      simp only
      obtain ⟨i1, s1, _⟩ := process_spec st.done (fun _ => .ok) r0.1.events 0 r0.1 i0
      obtain ⟨l1, k1, e1, z1⟩ := process_live st.done (fun _ => .ok) (fun _ => Or.inl rfl)
        r0.1.events 0 r0.1 i0 l0
      have hnil := z1 (fun _ => rfl) (fun e he => by
        rw [hidle]; exact hl.stamp e (e0 e he))
      rw [k1]
      simp only
      obtain ⟨b1, m1, m2, m3, _⟩ := (s0.trans s1).some hb
      have hcount := i1.count q b1 m1
      rw [hnil] at hcount
      have hav := l1 q b1 m1 (by rw [m3]; exact hfree) (by simpa using hcount)
      obtain ⟨r, hre1⟩ := reuse_some hav (n := n) (by rw [m2]; exact hn)
      rw [hre1]
      obtain ⟨_, p, b, g1, _⟩ := reuse_spec i1 hre1
      exact ⟨r, p, rfl, g1⟩
  obtain ⟨r, p, g1, g2⟩ := key
  refine ⟨p, ?_⟩
  simp only [Sys.step, g1, g2]

/-! ### Examples and counterexamples -/

/-- Runs operations one after the other; the result of the last one. -/
def runAll (st : Sys) : List Op → Sys × List Res
  | [] => (st, [])
  | op :: ops => ((runAll (st.step op).1 ops).1, (st.step op).2 :: (runAll (st.step op).1 ops).2)

/-- `PytorchCpuContext::CopyDataTo`: 8 bytes in pinned memory, copied to stream 3, freed at once. -/
def transfer : List Op :=
  [.malloc 8 (fun _ => .ok) (fun _ => .ok) (some 100), .write 100 0 7, .copy 100 8 3,
    .free 100 (fun _ => .ok) id (fun _ => false)]

def start : Sys := Sys.init fun _ => 0

/-- The states after each operation of `transfer` are reachable, without errors. -/
theorem transfer_reach : ReachClean (runAll start transfer).1 := by
  have h0 : ReachClean start := .init _
  have h1 := h0.step _ (.malloc 8 (fun _ => .ok) (fun _ => .ok) (some 100))
    (by intro p hp; simp at hp; subst hp; simp [start, Sys.init, Alloc.empty])
    ⟨fun _ => Or.inl rfl, fun _ => Or.inl rfl⟩
  have h2 := h1.step _ (.write 100 0 7)
    ⟨⟨100, 8, false⟩, by simp [Sys.step, malloc, start, Sys.init, Alloc.empty, process, reuse, lowerBound,
      fresh], rfl, by simp, rfl⟩ trivial
  have h3 := h2.step _ (.copy 100 8 3)
    ⟨⟨100, 8, false⟩, by simp [Sys.step, malloc, start, Sys.init, Alloc.empty, process, reuse, lowerBound,
      fresh], rfl, by simp⟩ trivial
  exact h3.step _ (.free 100 (fun _ => .ok) id (fun _ => false))
    ⟨Or.inr ⟨⟨100, 8, true⟩, by
      simp [Sys.step, malloc, start, Sys.init, Alloc.empty, process, reuse, lowerBound, fresh, record,
        setBlock], rfl⟩, fun l => List.Perm.refl l, fun _ => rfl⟩ (fun _ => Or.inl rfl)

/-- While the copy is pending, `Malloc` asks CUDA for new memory; afterwards it uses the block again,
and the copy delivered the 7. -/
example :
    (runAll start (transfer ++ [.malloc 8 (fun _ => .ok) (fun _ => .ok) (some 200)])).2.getLast? =
        some (.ptr 200 true) ∧
      (runAll start (transfer ++ [.progress 3, .malloc 5 (fun _ => .ok) (fun _ => .ok) none])).2.getLast? =
        some (.ptr 100 false) ∧
      (runAll start (transfer ++ [.progress 3])).1.out.map (fun x => (x.1.src, x.2 0)) = [(100, 7)] := by
  decide

/-- The hypotheses of `malloc_reuses` hold after the copy was executed. -/
example : ∃ st b, ReachClean st ∧ (∀ s, st.done s = st.sub s) ∧ st.a.blocks 100 = some b ∧
    (∀ h ∈ st.held, h.ptr ≠ 100) ∧ b.size = 8 :=
  ⟨_, _, transfer_reach.step _ (.progress 3) trivial trivial, by
    intro s
    by_cases hs : s = 3
    · subst hs; decide
    · simp [runAll, transfer, start, Sys.init, Alloc.empty, Sys.step, malloc, process, reuse,
        lowerBound, fresh, record, setBlock, free, insertEvents, bump, hs], rfl, by decide, rfl⟩

/-- C111, where the code falls short: `RecordEvent` looks for the pointer itself.  A copy from the
middle of a block is not remembered, and the block is handed out while the copy is pending. -/
theorem interior_copy_unprotected :
    let r := runAll start [.malloc 8 (fun _ => .ok) (fun _ => .ok) (some 100), .copy 104 4 3,
      .free 100 (fun _ => .ok) id (fun _ => false), .malloc 8 (fun _ => .ok) (fun _ => .ok) none]
    r.2.getLast? = some (.ptr 100 false) ∧
      (r.1.copies.map fun c => (c.src, c.len, decide (r.1.done c.stream ≤ c.idx))) = [(104, 4, true)] := by
  decide

/-- C111, where the code falls short: the streams are taken from the block before the events are
created.  If the second event fails, the block is handed out when the first stream is done, while the
copy on the second one is pending. -/
theorem failed_event_unprotected :
    let r := runAll start [.malloc 8 (fun _ => .ok) (fun _ => .ok) (some 100), .copy 100 8 3,
      .copy 100 8 4, .free 100 (fun _ => .ok) id (fun i => i == 1), .progress 4,
      .malloc 8 (fun _ => .ok) (fun _ => .ok) none]
    r.2.getLast? = some (.ptr 100 false) ∧
      (r.1.copies.map fun c => (c.src, c.len, c.stream, decide (r.1.done c.stream ≤ c.idx))) =
        [(100, 8, 4, false), (100, 8, 3, true)] := by
  decide

end Verif.Pinned
