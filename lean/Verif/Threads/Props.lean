import Verif.Threads.Serial

/-!
# Properties C49, C50 and C51: the thread pool and the semaphore

The properties speak about executions: sequences of steps of any number of threads in any order,
starting from a new pool or semaphore, and about the events they show.
-/

namespace Verif.Threads

/-! ### C49 -/

/-- C49.  In every execution, at every moment: tasks begin in the order in which they were
submitted, and each beginning belongs to one submission (the tasks begun followed by the tasks in
the queue are the tasks submitted); tasks run to the end are tasks begun, with multiplicity; and at
every moment at which `WaitAllTasksFinished` returned, the tasks run to the end were all tasks
submitted until then, each as often as it was submitted. -/
theorem pool_runs_once_and_waits (n m : Nat) (as : List Action) (s : Pool)
    (hs : run (Pool.init n m) as = some s) :
    submitted s.trace = began s.trace ++ s.tasks ∧
      (ended s.trace).Subperm (began s.trace) ∧
      (∀ pre j post, s.trace = pre ++ .returned j :: post → (ended pre).Perm (submitted pre)) := by
  have h := run_inv as (init_inv n m) hs
  refine ⟨h.fifo, ?_, h.waits⟩
  rw [← Multiset.coe_le, h.once]
  exact Multiset.le_add_right _ _

/-- C49.  In every execution that does not destroy the pool, when no thread can move on its own any
more, every task submitted was run to the end, each exactly as often as it was submitted. -/
theorem pool_runs_all (n m : Nat) (hn : 0 < n) (as : List Action) (s : Pool)
    (hs : run (Pool.init n m) as = some s) (hstop : .stop ∉ as) (hq : Quiet s) :
    (ended s.trace).Perm (submitted s.trace) := by
  have h := run_inv as (init_inv n m) hs
  have hl : s.workers.length = n := by
    rw [(run_lengths as hs).1]; simp [Pool.init]
  obtain ⟨h1, h2⟩ := quiet_finished h (by rintro h0; rw [h0] at hl; simp at hl; omega)
    (run_keep as rfl hstop hs) hq
  exact h.all_ended h1 h2

/-- C49.  The threads come to rest: the number of steps that threads make on their own is bounded by
the number of calls and of wake-ups without notification.  With `pool_runs_all`: every execution
with finitely many submissions that goes on as long as it can runs every task. -/
theorem pool_terminates (n m : Nat) (as : List Action) (s : Pool)
    (hs : run (Pool.init n m) as = some s) :
    as.countP Action.internal ≤
      n + 5 * as.countP (fun a => match a with | .submit _ _ => true | _ => false) +
        as.countP (fun a => match a with | .call _ => true | _ => false) +
        as.countP (fun a => match a with
          | .spuriousWorker _ => true | .spuriousWaiter _ => true | _ => false) +
        n * as.countP (fun a => match a with | .stop => true | _ => false) := by
  have h := run_weight as hs
  have hw : weight (Pool.init n m) = n := by
    unfold weight Pool.init
    simp only [List.map_replicate, List.sum_replicate, workerWeight, waiterWeight]
    simp
  rw [hw] at h
  have hl : (Pool.init n m).workers.length = n := by simp [Pool.init]
  rw [hl] at h
  have hc : ∀ as : List Action, (as.map (credit n)).sum =
      5 * as.countP (fun a => match a with | .submit _ _ => true | _ => false) +
        as.countP (fun a => match a with | .call _ => true | _ => false) +
        as.countP (fun a => match a with
          | .spuriousWorker _ => true | .spuriousWaiter _ => true | _ => false) +
        n * as.countP (fun a => match a with | .stop => true | _ => false) := by
    intro as
    induction as with
    | nil => simp
    | cons a as ih =>
      simp only [List.map_cons, List.sum_cons, List.countP_cons, ih]
      cases a <;> simp only [credit, if_true, if_false, Bool.false_eq_true, Nat.mul_add] <;> omega
  rw [hc] at h
  omega

/-- C49.  Idle workers are used: while tasks are in the queue and the pool is not being destroyed,
either no worker is asleep or some worker is awake and about to take a task. -/
theorem pool_uses_idle_workers (n m : Nat) (as : List Action) (s : Pool)
    (hs : run (Pool.init n m) as = some s) (hstop : .stop ∉ as) (ht : s.tasks ≠ []) :
    (∀ i : Nat, s.workers[i]? ≠ some .asleep) ∨ ∃ i : Nat, s.workers[i]? = some .ready := by
  have h := run_inv as (init_inv n m) hs
  rcases h.awake (run_keep as rfl hstop hs) ht with hr | ha
  · exact Or.inr (List.mem_iff_getElem?.mp hr)
  · left
    intro i hi
    exact ha (List.mem_iff_getElem?.mpr ⟨i, hi⟩)

/-- C49.  The destructor: when `WaitAllTasksFinished` has returned (`finished_`), the pool is
stopped and no task is submitted afterwards, then as soon as no thread can move on its own all
workers have returned, so that `join` succeeds, and all tasks were run, each exactly once. -/
theorem pool_destructor (n m : Nat) (as bs : List Action) (s1 s : Pool)
    (h1 : run (Pool.init n m) as = some s1) (hf : s1.finished = true)
    (hb : ∀ t k, .submit t k ∉ bs) (hs : run s1 (.stop :: bs) = some s) (hq : Quiet s) :
    (∀ (i : Nat) w, s.workers[i]? = some w → w = .exited) ∧ (ended s.trace).Perm (submitted s.trace) := by
  have i1 := run_inv as (init_inv n m) h1
  have i2 := run_inv (.stop :: bs) i1 hs
  obtain ⟨s2, e1, e2⟩ := run_cons.mp hs
  have hk : s.keep = false := by
    refine run_stopped bs ?_ e2
    rw [step_keep _ e1]
    simp
  have hex := quiet_exited i2 hk hq
  refine ⟨fun i w hi => hex w (List.mem_iff_getElem?.mpr ⟨i, hi⟩), ?_⟩
  refine i2.all_ended ?_ ?_
  · exact run_no_tasks bs (step_no_tasks _ (i1.finished.mp hf).1 (by simp) e1) hb e2
  · rw [i2.counter]
    exact busy_zero_of (fun w hw => Or.inr (hex w hw))

/-- The events are those of the execution: tasks submitted are the arguments of the calls of
`SubmitTask`, and a task ends for each step in which a worker runs one. -/
theorem pool_events (n m : Nat) (as : List Action) (s : Pool)
    (hs : run (Pool.init n m) as = some s) :
    submitted s.trace = as.filterMap (fun a => match a with | .submit t _ => some t | _ => none) ∧
      (ended s.trace).length = as.countP (fun a => match a with | .run _ => true | _ => false) := by
  have gen : ∀ (as : List Action) (s0 s : Pool), run s0 as = some s →
      submitted s.trace = submitted s0.trace ++
          as.filterMap (fun a => match a with | .submit t _ => some t | _ => none) ∧
        (ended s.trace).length = (ended s0.trace).length +
          as.countP (fun a => match a with | .run _ => true | _ => false) := by
    intro as
    induction as with
    | nil =>
      intro s0 s hs
      obtain rfl := Option.some.inj hs
      simp
    | cons a as ih =>
      intro s0 s hs
      obtain ⟨s1, h1, h2⟩ := run_cons.mp hs
      obtain ⟨e1, e2⟩ := ih s1 s h2
      rw [e1, e2, List.countP_cons]
      have key := step_events a h1
      rw [key.1, key.2, List.append_assoc, Nat.add_assoc]
      refine ⟨?_, ?_⟩
      · cases a <;> simp
      · cases a <;> simp <;> omega
  have := gen as _ s hs
  simpa [Pool.init, submitted, ended] using this

/-- An execution of two workers and one user thread: two tasks, of which the second ends first;
the user thread returns after both. -/
def poolExample : List Action :=
  [.work 0 0, .submit 7 0, .submit 8 0, .call 0, .wait 0, .work 1 0, .work 0 0, .run 0, .done 0 0 0,
   .run 1, .done 1 0 0, .wait 0]

theorem poolExample_ok :
    (run (Pool.init 2 1) poolExample).map (fun s => (s.trace, s.tasks, s.workers, s.waiters)) =
      some ([.submitted 7, .submitted 8, .began 1 7, .began 0 8, .ended 0 8, .ended 1 7, .returned 0],
        [], [.asleep, .asleep], [.away]) := by decide

/-! ### C50 -/

/-- Two user threads wait for one task. -/
def twoWaiters : List Action :=
  [.submit 5 0, .call 0, .call 1, .wait 0, .wait 1, .work 0 0, .run 0, .done 0 0 0, .wait 0]

/-- C50, the negation: an execution of a pool with one worker after which all tasks were run, no
thread can move on its own, and the second of the two threads that called `WaitAllTasksFinished` is
still blocked in it: only a wake-up without notification or a further submission could end that. -/
theorem second_waiter_blocked :
    ∃ s, run (Pool.init 1 2) twoWaiters = some s ∧ (ended s.trace).Perm (submitted s.trace) ∧
      s.tasks = [] ∧ s.finished = true ∧ s.waiters[1]? = some .asleep ∧ Quiet s := by
  refine ⟨⟨[], true, true, 0, [.asleep], [.away, .asleep],
    [.submitted 5, .began 0 5, .ended 0 5, .returned 0]⟩, by decide, ?_, rfl, rfl, rfl, ?_⟩
  · exact List.Perm.refl _
  · intro a ha
    cases a with
    | wait j =>
      match j with
      | 0 => rfl
      | 1 => rfl
      | j + 2 => rfl
    | work i k =>
      match i with
      | 0 => rfl
      | i + 1 => rfl
    | run i =>
      match i with
      | 0 => rfl
      | i + 1 => rfl
    | done i w k =>
      match i with
      | 0 => rfl
      | i + 1 => rfl
    | submit _ _ => simp [Action.internal] at ha
    | call _ => simp [Action.internal] at ha
    | spuriousWorker _ => simp [Action.internal] at ha
    | spuriousWaiter _ => simp [Action.internal] at ha
    | stop => simp [Action.internal] at ha

/-- C50 with at most one thread inside `WaitAllTasksFinished` at a time: when no thread can move on
its own any more, no thread is inside `WaitAllTasksFinished`.  Missing from C50: several
threads inside at the same time (`second_waiter_blocked`). -/
theorem single_waiter_returns_partial (n m : Nat) (hn : 0 < n) (as : List Action) (s : Pool)
    (hs : run (Pool.init n m) as = some s) (hstop : .stop ∉ as)
    (hser : ∀ pre post s1, as = pre ++ post → run (Pool.init n m) pre = some s1 →
      s1.waiters.countP (fun w => decide (w ≠ .away)) ≤ 1)
    (hq : Quiet s) : ∀ (j : Nat) w, s.waiters[j]? = some w → w = .away := by
  intro j w hj
  have h := run_inv as (init_inv n m) hs
  have hl : s.workers.length = n := by
    rw [(run_lengths as hs).1]; simp [Pool.init]
  have hf := quiet_finished h (by rintro h0; rw [h0] at hl; simp at hl; omega)
    (run_keep as rfl hstop hs) hq
  have hns := run_no_sleeper as (s := Pool.init n m)
    (fun _ hm => by have := List.eq_of_mem_replicate hm; simp at this) hs hser
    (h.finished.mpr hf)
  have hmem := List.mem_iff_getElem?.mpr ⟨j, hj⟩
  cases w with
  | away => rfl
  | ready => exact absurd hmem (quiet_waiter hq)
  | asleep => exact absurd hmem hns

/-! ### C51 -/

/-- C51.  In every execution on a semaphore with initial count `c ≥ 0` the count is `c` plus the
number of releases minus the number of acquisitions, and is never negative; so acquisitions never
exceed `c` plus the releases. -/
theorem sema_conserves_permits (c : Int) (hc : 0 ≤ c) (m : Nat) (as : List SemaAction) (s : Sema)
    (hs : semaRun (Sema.init c m) as = some s) :
    s.count = c + s.released - s.acquired ∧ 0 ≤ s.count ∧ (s.acquired : Int) ≤ c + s.released := by
  have h := sema_run_inv as (sema_init_inv c m hc) hs
  have h1 := h.count
  have h2 := h.nonneg
  exact ⟨h1, h2, by omega⟩

/-- C51.  When no thread inside `acquire` can move on its own any more, either no thread is blocked
or no permit is left; the number of acquisitions is the smaller one of the number of calls and the
number of permits. -/
theorem sema_no_lost_wakeup (c : Int) (hc : 0 ≤ c) (m : Nat) (as : List SemaAction) (s : Sema)
    (hs : semaRun (Sema.init c m) as = some s) (hq : ∀ j, semaStep s (.acquire j) = none) :
    ((∃ j : Nat, s.threads[j]? = some .asleep) → s.count = 0) ∧
      (s.acquired : Int) = min (s.called : Int) (c + s.released) := by
  have h := sema_run_inv as (sema_init_inv c m hc) hs
  have hr : Acq.ready ∉ s.threads := by
    intro hm
    obtain ⟨j, hj⟩ := List.mem_iff_getElem?.mp hm
    have := hq j
    simp only [semaStep, if_pos hj] at this
    simp at this
  have h0 := readyOf_zero hr
  have h1 := h.count
  have h2 := h.nonneg
  have h3 := h.calls
  have h4 := h.awake
  refine ⟨?_, ?_⟩
  · rintro ⟨j, hj⟩
    have := h4 (List.mem_iff_getElem?.mpr ⟨j, hj⟩)
    rw [h0] at this
    omega
  · by_cases hm : Acq.asleep ∈ s.threads
    · have := h4 hm
      rw [h0] at this
      omega
    · rw [insideOf_zero hr hm] at h3
      omega

/-- C51.  The threads come to rest: every step of a thread inside `acquire` is paid for by a call, a
release or a wake-up without notification. -/
theorem sema_terminates (c : Int) (m : Nat) (as : List SemaAction) (s : Sema)
    (hs : semaRun (Sema.init c m) as = some s) :
    as.countP SemaAction.internal ≤ as.countP (fun a => !a.internal) := by
  have h := sema_run_weight as hs
  have h0 : ((Sema.init c m).threads.map readyOf).sum = 0 :=
    readyOf_zero (fun hm => by have := List.eq_of_mem_replicate hm; simp at this)
  omega

/-- The counters of the model count what their names say. -/
theorem sema_counters (c : Int) (m : Nat) (as : List SemaAction) (s : Sema)
    (hs : semaRun (Sema.init c m) as = some s) :
    s.released = as.countP (fun a => match a with | .release _ => true | _ => false) ∧
      s.called = as.countP (fun a => match a with | .call _ => true | _ => false) := by
  have gen : ∀ (as : List SemaAction) (s0 s : Sema), semaRun s0 as = some s →
      s.released = s0.released +
          as.countP (fun a => match a with | .release _ => true | _ => false) ∧
        s.called = s0.called +
          as.countP (fun a => match a with | .call _ => true | _ => false) := by
    intro as
    induction as with
    | nil =>
      intro s0 s hs
      obtain rfl := Option.some.inj hs
      simp
    | cons a as ih =>
      intro s0 s hs
      obtain ⟨s1, h1, h2⟩ := semaRun_cons.mp hs
      obtain ⟨e1, e2⟩ := ih s1 s h2
      rw [e1, e2, List.countP_cons, List.countP_cons]
      cases a with
      | release k =>
        simp only [semaStep, release, Option.map_eq_some_iff] at h1
        obtain ⟨ts, hn, rfl⟩ := h1
        simp; omega
      | call j =>
        simp only [semaStep] at h1
        split at h1
        · obtain rfl := Option.some.inj h1
          simp; omega
        · simp at h1
      | acquire j =>
        simp only [semaStep] at h1
        split at h1
        · obtain rfl := Option.some.inj h1
          unfold acquire
          split <;> simp
        · simp at h1
      | spurious j =>
        simp only [semaStep] at h1
        split at h1
        · obtain rfl := Option.some.inj h1
          simp
        · simp at h1
  have := gen as _ s hs
  simpa [Sema.init] using this

/-- Two threads acquire, one release: one of them goes on. -/
theorem sema_example :
    semaRun (Sema.init 0 2) [.call 0, .call 1, .acquire 0, .acquire 1, .release 1, .acquire 1] =
      some ⟨0, [.asleep, .away], 1, 1, 2⟩ := by decide

/-- The condition `0 ≤ c` is needed: the test in `acquire` is `count_ == 0`, so with a negative
initial count `acquire` returns although there was no permit. -/
theorem negative_count_does_not_block :
    semaRun (Sema.init (-1) 1) [.call 0, .acquire 0] = some ⟨-2, [.away], 0, 1, 1⟩ := by decide

end Verif.Threads
