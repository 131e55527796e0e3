import Verif.Threads.Model
import Mathlib.Algebra.BigOperators.Group.List.Basic
import Mathlib.Algebra.Order.Group.Multiset
import Mathlib.Data.Multiset.AddSub

/-!
# Invariants of the thread pool
-/

namespace Verif.Threads

/-! ### Changing one element of a list -/

theorem sum_set {A M : Type} [AddCommMonoid M] (f : A → M) (l : List A) (i : Nat) (a b : A)
    (h : l[i]? = some a) : ((l.set i b).map f).sum + f a = (l.map f).sum + f b := by
  induction l generalizing i with
  | nil => simp at h
  | cons x l ih =>
    cases i with
    | zero =>
      simp only [List.getElem?_cons_zero, Option.some.injEq] at h
      subst h
      simp only [List.set_cons_zero, List.map_cons, List.sum_cons]
      rw [add_right_comm, add_comm (f b), add_right_comm, add_assoc]
    | succ i =>
      simp only [List.getElem?_cons_succ] at h
      simp only [List.set_cons_succ, List.map_cons, List.sum_cons]
      rw [add_assoc, ih i h, add_assoc]

theorem mem_set_iff_of_ne {A : Type} (l : List A) (i : Nat) (a b c : A) (h : l[i]? = some a)
    (hac : a ≠ c) (hbc : b ≠ c) : c ∈ l.set i b ↔ c ∈ l := by
  induction l generalizing i with
  | nil => simp
  | cons x l ih =>
    cases i with
    | zero =>
      simp only [List.getElem?_cons_zero, Option.some.injEq] at h
      subst h
      simp only [List.set_cons_zero, List.mem_cons]
      constructor
      · rintro (rfl | h)
        · exact absurd rfl hbc
        · exact Or.inr h
      · rintro (rfl | h)
        · exact absurd rfl hac
        · exact Or.inr h
    | succ i =>
      simp only [List.getElem?_cons_succ] at h
      simp only [List.set_cons_succ, List.mem_cons, ih i h]

theorem mem_set_of_get {A : Type} {l : List A} {i : Nat} {a : A} (b : A) (h : l[i]? = some a) :
    b ∈ l.set i b := by
  have hlt : i < l.length := (List.getElem?_eq_some_iff.mp h).1
  rw [List.mem_iff_getElem?]
  exact ⟨i, by rw [List.getElem?_set_self hlt]⟩

theorem mem_of_mem_set {A : Type} {l : List A} {i : Nat} {b c : A} (h : c ∈ l.set i b) :
    c = b ∨ c ∈ l := (List.mem_or_eq_of_mem_set h).symm

/-! ### Notification -/

theorem notifyOne_cases {A : Type} [DecidableEq A] {asleep ready : A} {k : Nat} {l l' : List A}
    (h : notifyOne asleep ready k l = some l') :
    (l[k]? = some asleep ∧ l' = l.set k ready) ∨ (asleep ∉ l ∧ l' = l) := by
  unfold notifyOne at h
  split at h
  · next hk => exact Or.inl ⟨hk, (Option.some.inj h).symm⟩
  · split at h
    · simp at h
    · next hm => exact Or.inr ⟨hm, (Option.some.inj h).symm⟩

/-- There is always a possible choice. -/
theorem notifyOne_exists {A : Type} [DecidableEq A] (asleep ready : A) (l : List A) :
    ∃ k l', notifyOne asleep ready k l = some l' := by
  by_cases h : asleep ∈ l
  · obtain ⟨k, hk⟩ := List.mem_iff_getElem?.mp h
    exact ⟨k, _, by unfold notifyOne; rw [if_pos hk]⟩
  · refine ⟨0, l, ?_⟩
    unfold notifyOne
    rw [if_neg, if_neg h]
    intro h0
    exact h (List.mem_iff_getElem?.mpr ⟨0, h0⟩)

theorem notifyOne_length {A : Type} [DecidableEq A] {asleep ready : A} {k : Nat} {l l' : List A}
    (h : notifyOne asleep ready k l = some l') : l'.length = l.length := by
  rcases notifyOne_cases h with ⟨_, rfl⟩ | ⟨_, rfl⟩ <;> simp

theorem notifyOne_sum {A M : Type} [AddCommMonoid M] [DecidableEq A] {asleep ready : A}
    (f : A → M) (hf : f asleep = 0) (hf' : f ready = 0) {k : Nat} {l l' : List A}
    (h : notifyOne asleep ready k l = some l') : (l'.map f).sum = (l.map f).sum := by
  rcases notifyOne_cases h with ⟨hk, rfl⟩ | ⟨_, rfl⟩
  · have := sum_set f l k asleep ready hk
    rw [hf, hf', add_zero, add_zero] at this
    exact this
  · rfl

theorem notifyOne_mem {A : Type} [DecidableEq A] {asleep ready c : A} {k : Nat} {l l' : List A}
    (h : notifyOne asleep ready k l = some l') (h1 : asleep ≠ c) (h2 : ready ≠ c) :
    c ∈ l' ↔ c ∈ l := by
  rcases notifyOne_cases h with ⟨hk, rfl⟩ | ⟨_, rfl⟩
  · exact mem_set_iff_of_ne l k asleep ready c hk h1 h2
  · exact Iff.rfl

theorem notifyOne_ready {A : Type} [DecidableEq A] {asleep ready : A} {k : Nat} {l l' : List A}
    (h : notifyOne asleep ready k l = some l') : ready ∈ l' ∨ asleep ∉ l' := by
  rcases notifyOne_cases h with ⟨hk, rfl⟩ | ⟨hn, rfl⟩
  · exact Or.inl (mem_set_of_get ready hk)
  · exact Or.inr hn

/-- Threads that are neither asleep nor ready are not touched. -/
theorem notifyOne_get {A : Type} [DecidableEq A] {asleep ready c : A} {k : Nat} {l l' : List A}
    (h : notifyOne asleep ready k l = some l') (i : Nat) (hi : l[i]? = some c) (hc : asleep ≠ c) :
    l'[i]? = some c := by
  rcases notifyOne_cases h with ⟨hk, rfl⟩ | ⟨_, rfl⟩
  · rw [List.getElem?_set_ne, hi]
    rintro rfl
    rw [hk] at hi
    exact hc (Option.some.inj hi)
  · exact hi

/-! ### What the trace says -/

/-- Tasks submitted, in order. -/
def submitted (tr : List Event) : List Nat :=
  tr.filterMap (fun e => match e with | .submitted t => some t | _ => none)

/-- Tasks that some worker began to run, in order. -/
def began (tr : List Event) : List Nat :=
  tr.filterMap (fun e => match e with | .began _ t => some t | _ => none)

/-- Tasks that some worker has run to the end, in order. -/
def ended (tr : List Event) : List Nat :=
  tr.filterMap (fun e => match e with | .ended _ t => some t | _ => none)

/-- Whenever `WaitAllTasksFinished` returned, the tasks run to the end were the tasks submitted. -/
def WaitsOk (tr : List Event) : Prop :=
  ∀ pre j post, tr = pre ++ .returned j :: post → (ended pre).Perm (submitted pre)

theorem waitsOk_snoc {tr : List Event} (h : WaitsOk tr) (e : Event)
    (he : ∀ j, e = .returned j → (ended tr).Perm (submitted tr)) : WaitsOk (tr ++ [e]) := by
  intro pre j post heq
  rcases List.eq_nil_or_concat post with rfl | ⟨post', x, rfl⟩
  · have := List.append_inj' heq rfl
    obtain ⟨h1, h2⟩ := this
    subst h1
    exact he j (by simpa using h2)
  · rw [List.concat_eq_append, ← List.cons_append, ← List.append_assoc] at heq
    exact h pre j post' (List.append_inj' heq rfl).1

/-! ### The invariant -/

/-- Task that a worker is running. -/
def taskOf : Worker → Multiset Nat
  | .running t => {t}
  | _ => 0

/-- Is a worker counted by `running_counter_`? -/
def busyOf : Worker → Nat
  | .running _ => 1
  | .ended => 1
  | _ => 0

/-- The invariant of the pool. -/
structure Inv (s : Pool) : Prop where
  fifo : submitted s.trace = began s.trace ++ s.tasks
  once : (began s.trace : Multiset Nat) = ended s.trace + (s.workers.map taskOf).sum
  counter : s.counter = (s.workers.map busyOf).sum
  finished : s.finished = true ↔ s.tasks = [] ∧ s.counter = 0
  waits : WaitsOk s.trace
  exited : s.keep = true → .exited ∉ s.workers
  asleep : s.keep = false → .asleep ∉ s.workers
  awake : s.keep = true → s.tasks ≠ [] → .ready ∈ s.workers ∨ .asleep ∉ s.workers

theorem sum_taskOf_zero {ws : List Worker} (h : (ws.map busyOf).sum = 0) :
    (ws.map taskOf).sum = 0 := by
  induction ws with
  | nil => rfl
  | cons w ws ih =>
    simp only [List.map_cons, List.sum_cons, Nat.add_eq_zero_iff] at h ⊢
    rw [ih h.2, add_zero]
    cases w <;> first | rfl | (simp [busyOf] at h)

/-- When the pool is finished, the tasks run to the end are the tasks submitted. -/
theorem Inv.all_ended {s : Pool} (h : Inv s) (hf : s.tasks = []) (hc : s.counter = 0) :
    (ended s.trace).Perm (submitted s.trace) := by
  rw [← Multiset.coe_eq_coe, h.fifo, hf, List.append_nil, h.once,
    sum_taskOf_zero (h.counter.symm.trans hc), add_zero]

theorem init_inv (n m : Nat) : Inv (Pool.init n m) := by
  have h1 : ((List.replicate n Worker.ready).map taskOf).sum = 0 := by
    rw [List.map_replicate]
    exact List.sum_replicate n 0 |>.trans (nsmul_zero n)
  have h2 : ((List.replicate n Worker.ready).map busyOf).sum = 0 := by
    rw [List.map_replicate]
    exact List.sum_replicate n 0 |>.trans (nsmul_zero n)
  refine ⟨rfl, ?_, h2.symm, ?_, ?_, ?_, ?_, ?_⟩
  · show (0 : Multiset Nat) = 0 + _
    rw [zero_add]; exact h1.symm
  · simp [Pool.init]
  · intro pre j post h
    simp [Pool.init] at h
  · intro _ h
    have := List.eq_of_mem_replicate h
    simp at this
  · intro h
    simp [Pool.init] at h
  · intro _ h
    simp [Pool.init] at h

theorem submit_inv {s s' : Pool} {t k : Nat} (h : Inv s) (hs : submit s t k = some s') : Inv s' := by
  unfold submit notifyWorker at hs
  split at hs
  · simp at hs
  · simp only [Option.map_eq_some_iff] at hs
    obtain ⟨_, ⟨ws, hn, rfl⟩, rfl⟩ := hs
    have hsub : submitted (s.trace ++ [.submitted t]) = submitted s.trace ++ [t] := by
      simp [submitted]
    have hbeg : began (s.trace ++ [.submitted t]) = began s.trace := by simp [began]
    have hend : ended (s.trace ++ [.submitted t]) = ended s.trace := by simp [ended]
    constructor
    · show submitted (s.trace ++ [_]) = began (s.trace ++ [_]) ++ (s.tasks ++ [t])
      rw [hsub, hbeg, h.fifo, List.append_assoc]
    · show ((began (s.trace ++ [_]) : List Nat) : Multiset Nat) = _
      rw [hbeg]
      show _ = ((ended (s.trace ++ [_]) : List Nat) : Multiset Nat) + (ws.map taskOf).sum
      rw [hend, notifyOne_sum taskOf rfl rfl hn]
      exact h.once
    · show s.counter = (ws.map busyOf).sum
      rw [notifyOne_sum busyOf rfl rfl hn]
      exact h.counter
    · show false = true ↔ s.tasks ++ [t] = [] ∧ _
      simp
    · exact waitsOk_snoc h.waits _ (by simp)
    · intro hk
      show _ ∉ ws
      rw [notifyOne_mem hn (by simp) (by simp)]
      exact h.exited hk
    · intro hk
      show _ ∉ ws
      rcases notifyOne_cases hn with ⟨hk', _⟩ | ⟨hn', rfl⟩
      · exact absurd (List.mem_iff_getElem?.mpr ⟨k, hk'⟩) (h.asleep hk)
      · exact hn'
    · intro _ _
      exact notifyOne_ready hn

/-- Conditions on the worker that runs `loopHead`: it is no longer counted. -/
theorem loopHead_inv {s s' : Pool} {i k : Nat} {w : Worker} (h : Inv s) (hw : s.workers[i]? = some w)
    (hb : w = .ready) (hs : loopHead s i k = some s') : Inv s' := by
  subst hb
  unfold loopHead at hs
  split at hs
  · next hk =>
    obtain rfl := Option.some.inj hs
    have e1 := sum_set taskOf s.workers i .ready .exited hw
    have e2 := sum_set busyOf s.workers i .ready .exited hw
    simp only [taskOf, busyOf, add_zero] at e1 e2
    refine ⟨h.fifo, ?_, ?_, h.finished, h.waits, ?_, ?_, ?_⟩
    · show _ = _ + ((s.workers.set i .exited).map taskOf).sum
      rw [e1]; exact h.once
    · show _ = ((s.workers.set i .exited).map busyOf).sum
      rw [e2]; exact h.counter
    · intro hk'
      exact absurd (hk.symm.trans hk') (by simp)
    · intro _
      show _ ∉ s.workers.set i .exited
      rw [mem_set_iff_of_ne s.workers i .ready .exited .asleep hw (by simp) (by simp)]
      exact h.asleep hk
    · intro hk'
      exact absurd (hk.symm.trans hk') (by simp)
  · next hk =>
    have hk : s.keep = true := by simpa using hk
    split at hs
    · next ht =>
      obtain rfl := Option.some.inj hs
      have e1 := sum_set taskOf s.workers i .ready .asleep hw
      have e2 := sum_set busyOf s.workers i .ready .asleep hw
      simp only [taskOf, busyOf, add_zero] at e1 e2
      refine ⟨h.fifo, ?_, ?_, h.finished, h.waits, ?_, ?_, ?_⟩
      · show _ = _ + ((s.workers.set i .asleep).map taskOf).sum
        rw [e1]; exact h.once
      · show _ = ((s.workers.set i .asleep).map busyOf).sum
        rw [e2]; exact h.counter
      · intro _
        show _ ∉ s.workers.set i .asleep
        rw [mem_set_iff_of_ne s.workers i .ready .asleep .exited hw (by simp) (by simp)]
        exact h.exited hk
      · intro hk'
        exact absurd (hk.symm.trans hk') (by simp)
      · intro _ hne
        exact absurd ht hne
    · next t rest ht =>
      unfold take at hs
      simp only [Option.map_eq_some_iff] at hs
      obtain ⟨s1, h1, rfl⟩ := hs
      have key : ∃ ws, s1 = { s with tasks := rest, workers := ws } ∧
          (ws.map taskOf).sum = (s.workers.map taskOf).sum ∧
          (ws.map busyOf).sum = (s.workers.map busyOf).sum ∧
          ws[i]? = some .ready ∧ .exited ∉ ws ∧
          (rest ≠ [] → (∃ k, k ≠ i ∧ ws[k]? = some .ready) ∨ .asleep ∉ ws) := by
        split at h1
        · next hr =>
          obtain rfl := Option.some.inj h1
          exact ⟨s.workers, rfl, rfl, rfl, hw, h.exited hk, fun hne => absurd hr hne⟩
        · unfold notifyWorker at h1
          simp only [Option.map_eq_some_iff] at h1
          obtain ⟨ws, hn, rfl⟩ := h1
          refine ⟨ws, rfl, notifyOne_sum taskOf rfl rfl hn, notifyOne_sum busyOf rfl rfl hn,
            notifyOne_get hn i hw (by simp), ?_, ?_⟩
          · rw [notifyOne_mem hn (by simp) (by simp)]
            exact h.exited hk
          · intro _
            rcases notifyOne_cases hn with ⟨hk', rfl⟩ | ⟨hn', rfl⟩
            · left
              refine ⟨k, ?_, List.getElem?_set_self (List.getElem?_eq_some_iff.mp hk').1⟩
              rintro rfl
              exact absurd (hw.symm.trans hk') (by simp)
            · exact Or.inr hn'
      obtain ⟨ws, rfl, k1, k2, k3, k4, k5⟩ := key
      have e1 := sum_set taskOf ws i .ready (.running t) k3
      have e2 := sum_set busyOf ws i .ready (.running t) k3
      simp only [taskOf, busyOf, add_zero] at e1 e2
      have hsub : submitted (s.trace ++ [.began i t]) = submitted s.trace := by simp [submitted]
      have hbeg : began (s.trace ++ [.began i t]) = began s.trace ++ [t] := by simp [began]
      have hend : ended (s.trace ++ [.began i t]) = ended s.trace := by simp [ended]
      constructor
      · show submitted (s.trace ++ [_]) = began (s.trace ++ [_]) ++ rest
        rw [hsub, hbeg, h.fifo, ht, List.append_assoc]; rfl
      · show ((began (s.trace ++ [_]) : List Nat) : Multiset Nat) =
          ((ended (s.trace ++ [_]) : List Nat) : Multiset Nat) +
            ((ws.set i (.running t)).map taskOf).sum
        rw [hbeg, hend, e1, k1, ← add_assoc, ← h.once]
        exact Multiset.coe_add _ _ |>.symm
      · show s.counter + 1 = ((ws.set i (.running t)).map busyOf).sum
        rw [e2, k2, h.counter]
      · show s.finished = true ↔ rest = [] ∧ s.counter + 1 = 0
        constructor
        · intro hf
          exact absurd (ht.symm.trans (h.finished.mp hf).1) (by simp)
        · rintro ⟨_, h0⟩
          omega
      · exact waitsOk_snoc h.waits _ (by simp)
      · intro _
        show _ ∉ ws.set i (.running t)
        rw [mem_set_iff_of_ne ws i .ready (.running t) .exited k3 (by simp) (by simp)]
        exact k4
      · intro hk'
        exact absurd (hk.symm.trans hk') (by simp)
      · intro _ hne
        show _ ∈ ws.set i (.running t) ∨ _ ∉ ws.set i (.running t)
        rcases k5 hne with ⟨k, hki, hkr⟩ | hn
        · left
          refine List.mem_iff_getElem?.mpr ⟨k, ?_⟩
          rw [List.getElem?_set_ne (Ne.symm hki)]
          exact hkr
        · right
          rw [mem_set_iff_of_ne ws i .ready (.running t) .asleep k3 (by simp) (by simp)]
          exact hn

/-- `finish` and then the worker is at the head of its loop. -/
theorem finish_inv {s s' : Pool} {i w : Nat} (h : Inv s) (hi : s.workers[i]? = some .ended)
    (hs : finish s w = some s') :
    Inv { s' with workers := s'.workers.set i .ready } ∧ s'.workers = s.workers := by
  have e1 := sum_set taskOf s.workers i .ended .ready hi
  have e2 := sum_set busyOf s.workers i .ended .ready hi
  simp only [taskOf, busyOf, add_zero] at e1 e2
  have m1 : s.keep = true → Worker.exited ∉ s.workers.set i .ready := by
    intro hk
    rw [mem_set_iff_of_ne s.workers i .ended .ready .exited hi (by simp) (by simp)]
    exact h.exited hk
  have m2 : s.keep = false → Worker.asleep ∉ s.workers.set i .ready := by
    intro hk
    rw [mem_set_iff_of_ne s.workers i .ended .ready .asleep hi (by simp) (by simp)]
    exact h.asleep hk
  have m3 : Worker.ready ∈ s.workers.set i .ready := mem_set_of_get _ hi
  unfold finish at hs
  split at hs
  · simp at hs
  · next c hc =>
    have hcnt : c = ((s.workers.set i .ready).map busyOf).sum := by
      have := h.counter
      omega
    split at hs
    · next hcond =>
      unfold notifyWaiter at hs
      simp only [Option.map_eq_some_iff] at hs
      obtain ⟨ws, _, rfl⟩ := hs
      refine ⟨⟨h.fifo, ?_, hcnt, ?_, h.waits, m1, m2, fun _ _ => Or.inl m3⟩, rfl⟩
      · show _ = _ + ((s.workers.set i .ready).map taskOf).sum
        rw [e1]; exact h.once
      · show true = true ↔ s.tasks = [] ∧ c = 0
        simp [hcond]
    · next hcond =>
      obtain rfl := Option.some.inj hs
      refine ⟨⟨h.fifo, ?_, hcnt, ?_, h.waits, m1, m2, fun _ _ => Or.inl m3⟩, rfl⟩
      · show _ = _ + ((s.workers.set i .ready).map taskOf).sum
        rw [e1]; exact h.once
      · show s.finished = true ↔ s.tasks = [] ∧ c = 0
        constructor
        · intro hf
          have := (h.finished.mp hf).2
          omega
        · intro hf
          exact absurd hf hcond

theorem loopHead_ready (s : Pool) (i k : Nat) (hi : s.workers[i]? = some .ended) :
    ∀ s', loopHead s i k = some s' →
      loopHead { s with workers := s.workers.set i .ready } i k = some s' := by
  intro s' hs
  unfold loopHead at hs ⊢
  have hset : ∀ x, (s.workers.set i .ready).set i x = s.workers.set i x := by
    intro x; rw [List.set_set]
  dsimp only at hs ⊢
  split
  · next hk =>
    rw [if_pos hk] at hs
    simpa only [hset] using hs
  · next hk =>
    rw [if_neg hk] at hs
    cases ht : s.tasks with
    | nil =>
      rw [ht] at hs
      simpa only [ht, hset] using hs
    | cons t rest =>
      rw [ht] at hs
      simp only at hs ⊢
      unfold take at hs ⊢
      simp only [Option.map_eq_some_iff] at hs ⊢
      obtain ⟨s1, h1, rfl⟩ := hs
      by_cases hr : rest = []
      · rw [if_pos hr] at h1
        obtain rfl := Option.some.inj h1
        refine ⟨{ s with tasks := rest, workers := s.workers.set i .ready }, ?_, ?_⟩
        · rw [if_pos hr]
        · simp only [hset]
      · rw [if_neg hr] at h1
        unfold notifyWorker at h1 ⊢
        simp only [Option.map_eq_some_iff] at h1
        obtain ⟨ws, hn, rfl⟩ := h1
        rcases notifyOne_cases hn with ⟨hk', rfl⟩ | ⟨hn', rfl⟩
        · have hne : i ≠ k := by
            rintro rfl
            exact absurd (hi.symm.trans hk') (by simp)
          refine ⟨{ s with tasks := rest, workers := (s.workers.set i .ready).set k .ready }, ?_, ?_⟩
          · rw [if_neg hr]
            simp only [Option.map_eq_some_iff]
            refine ⟨_, ?_, rfl⟩
            unfold notifyOne
            rw [if_pos]
            rw [List.getElem?_set_ne hne]
            exact hk'
          · simp only
            rw [List.set_comm _ _ (Ne.symm hne), List.set_set]
            rw [List.set_comm _ _ hne]
        · have hn'' : Worker.asleep ∉ s.workers.set i .ready := by
            rw [mem_set_iff_of_ne s.workers i .ended .ready .asleep hi (by simp) (by simp)]
            exact hn'
          refine ⟨{ s with tasks := rest, workers := s.workers.set i .ready }, ?_, ?_⟩
          · rw [if_neg hr]
            simp only [Option.map_eq_some_iff]
            refine ⟨_, ?_, rfl⟩
            unfold notifyOne
            rw [if_neg, if_neg hn'']
            intro hh
            exact hn'' (List.mem_iff_getElem?.mpr ⟨k, hh⟩)
          · simp only [hset]

theorem step_inv {s s' : Pool} (a : Action) (h : Inv s) (hs : step s a = some s') : Inv s' := by
  cases a with
  | submit t k => exact submit_inv h hs
  | call j =>
    simp only [step] at hs
    split at hs
    · obtain rfl := Option.some.inj hs
      exact ⟨h.fifo, h.once, h.counter, h.finished, h.waits, h.exited, h.asleep, h.awake⟩
    · simp at hs
  | wait j =>
    simp only [step] at hs
    split at hs
    · obtain rfl := Option.some.inj hs
      unfold waitLoop
      split
      · next hf =>
        have hsub : submitted (s.trace ++ [.returned j]) = submitted s.trace := by simp [submitted]
        have hbeg : began (s.trace ++ [.returned j]) = began s.trace := by simp [began]
        have hend : ended (s.trace ++ [.returned j]) = ended s.trace := by simp [ended]
        obtain ⟨hf1, hf2⟩ := h.finished.mp hf
        refine ⟨?_, ?_, h.counter, h.finished, ?_, h.exited, h.asleep, h.awake⟩
        · show submitted (s.trace ++ [_]) = began (s.trace ++ [_]) ++ s.tasks
          rw [hsub, hbeg]; exact h.fifo
        · show ((began (s.trace ++ [_]) : List Nat) : Multiset Nat) =
            ((ended (s.trace ++ [_]) : List Nat) : Multiset Nat) + _
          rw [hend, hbeg]; exact h.once
        · exact waitsOk_snoc h.waits _ (fun _ _ => h.all_ended hf1 hf2)
      · exact ⟨h.fifo, h.once, h.counter, h.finished, h.waits, h.exited, h.asleep, h.awake⟩
    · simp at hs
  | work i k =>
    simp only [step] at hs
    split at hs
    · next hi => exact loopHead_inv h hi rfl hs
    · simp at hs
  | run i =>
    simp only [step] at hs
    split at hs
    · next t hi =>
      obtain rfl := Option.some.inj hs
      have e1 := sum_set taskOf s.workers i (.running t) .ended hi
      have e2 := sum_set busyOf s.workers i (.running t) .ended hi
      simp only [taskOf, busyOf, add_zero] at e1 e2
      have hsub : submitted (s.trace ++ [.ended i t]) = submitted s.trace := by simp [submitted]
      have hbeg : began (s.trace ++ [.ended i t]) = began s.trace := by simp [began]
      have hend : ended (s.trace ++ [.ended i t]) = ended s.trace ++ [t] := by simp [ended]
      refine ⟨?_, ?_, ?_, h.finished, ?_, ?_, ?_, ?_⟩
      · show submitted (s.trace ++ [_]) = began (s.trace ++ [_]) ++ s.tasks
        rw [hsub, hbeg]; exact h.fifo
      · show ((began (s.trace ++ [_]) : List Nat) : Multiset Nat) =
            ((ended (s.trace ++ [_]) : List Nat) : Multiset Nat) +
              ((s.workers.set i .ended).map taskOf).sum
        rw [hend, hbeg, h.once, ← e1, ← Multiset.coe_add, add_assoc]
        rw [Multiset.coe_singleton]
        rw [add_comm ((s.workers.set i .ended).map taskOf).sum]
      · show s.counter = ((s.workers.set i .ended).map busyOf).sum
        have := h.counter
        omega
      · exact waitsOk_snoc h.waits _ (by simp)
      · intro hk
        show _ ∉ s.workers.set i .ended
        rw [mem_set_iff_of_ne s.workers i _ .ended .exited hi (by simp) (by simp)]
        exact h.exited hk
      · intro hk
        show _ ∉ s.workers.set i .ended
        rw [mem_set_iff_of_ne s.workers i _ .ended .asleep hi (by simp) (by simp)]
        exact h.asleep hk
      · intro hk hne
        show _ ∈ s.workers.set i .ended ∨ _ ∉ s.workers.set i .ended
        rw [mem_set_iff_of_ne s.workers i _ .ended .asleep hi (by simp) (by simp),
          mem_set_iff_of_ne s.workers i _ .ended .ready hi (by simp) (by simp)]
        exact h.awake hk hne
    · simp at hs
  | done i w k =>
    simp only [step] at hs
    split at hs
    · next hi =>
      obtain ⟨s1, h1, h2⟩ := Option.bind_eq_some_iff.mp hs
      obtain ⟨hinv, hws⟩ := finish_inv h hi h1
      have hi1 : s1.workers[i]? = some .ended := by rw [hws]; exact hi
      have hlt : i < s1.workers.length := (List.getElem?_eq_some_iff.mp hi1).1
      exact loopHead_inv hinv (List.getElem?_set_self hlt) rfl (loopHead_ready s1 i k hi1 s' h2)
    · simp at hs
  | spuriousWorker i =>
    simp only [step] at hs
    split at hs
    · next hi =>
      obtain rfl := Option.some.inj hs
      have e1 := sum_set taskOf s.workers i .asleep .ready hi
      have e2 := sum_set busyOf s.workers i .asleep .ready hi
      simp only [taskOf, busyOf, add_zero] at e1 e2
      refine ⟨h.fifo, ?_, ?_, h.finished, h.waits, ?_, ?_, fun _ _ => Or.inl (mem_set_of_get _ hi)⟩
      · show _ = _ + ((s.workers.set i .ready).map taskOf).sum
        rw [e1]; exact h.once
      · show _ = ((s.workers.set i .ready).map busyOf).sum
        rw [e2]; exact h.counter
      · intro hk
        show _ ∉ s.workers.set i .ready
        rw [mem_set_iff_of_ne s.workers i _ .ready .exited hi (by simp) (by simp)]
        exact h.exited hk
      · intro hk hmem
        rcases mem_of_mem_set hmem with h' | h'
        · simp at h'
        · exact h.asleep hk h'
    · simp at hs
  | spuriousWaiter j =>
    simp only [step] at hs
    split at hs
    · obtain rfl := Option.some.inj hs
      exact ⟨h.fifo, h.once, h.counter, h.finished, h.waits, h.exited, h.asleep, h.awake⟩
    · simp at hs
  | stop =>
    simp only [step] at hs
    obtain rfl := Option.some.inj hs
    have hsub : submitted (s.trace ++ [.stopped]) = submitted s.trace := by simp [submitted]
    have hbeg : began (s.trace ++ [.stopped]) = began s.trace := by simp [began]
    have hend : ended (s.trace ++ [.stopped]) = ended s.trace := by simp [ended]
    have hsum : ∀ {M : Type} [AddCommMonoid M] (f : Worker → M), f .asleep = f .ready →
        ((notifyAll .asleep .ready s.workers).map f).sum = (s.workers.map f).sum := by
      intro M _ f hf
      unfold notifyAll
      rw [List.map_map]
      congr 1
      apply List.map_congr_left
      intro x _
      show f (if x = .asleep then .ready else x) = f x
      split
      · next hx => rw [hx, hf]
      · rfl
    refine ⟨?_, ?_, ?_, h.finished, ?_, ?_, ?_, ?_⟩
    · show submitted (s.trace ++ [_]) = began (s.trace ++ [_]) ++ s.tasks
      rw [hsub, hbeg]; exact h.fifo
    · show ((began (s.trace ++ [_]) : List Nat) : Multiset Nat) =
            ((ended (s.trace ++ [_]) : List Nat) : Multiset Nat) +
              ((notifyAll .asleep .ready s.workers).map taskOf).sum
      rw [hbeg, hend, hsum taskOf rfl]; exact h.once
    · show s.counter = ((notifyAll .asleep .ready s.workers).map busyOf).sum
      rw [hsum busyOf rfl]; exact h.counter
    · exact waitsOk_snoc h.waits _ (by simp)
    · intro hk
      simp at hk
    · intro _ hmem
      unfold notifyAll at hmem
      simp only [List.mem_map] at hmem
      obtain ⟨x, _, hx⟩ := hmem
      split at hx
      · simp at hx
      · next hne => exact hne hx
    · intro hk
      simp at hk

theorem run_inv {s s' : Pool} (as : List Action) (h : Inv s) (hs : run s as = some s') : Inv s' := by
  induction as generalizing s with
  | nil =>
    obtain rfl := Option.some.inj hs
    exact h
  | cons a as ih =>
    unfold run at hs
    rw [List.foldlM_cons] at hs
    obtain ⟨s1, h1, h2⟩ := Option.bind_eq_some_iff.mp hs
    exact ih (step_inv a h h1) h2

end Verif.Threads
