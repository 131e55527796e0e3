import Verif.Threads.Lemmas

/-!
# Progress of the thread pool
-/

namespace Verif.Threads

/-- Steps that threads inside the pool's functions make on their own: not calls by the user, not
wake-ups without notification. -/
def Action.internal : Action → Bool
  | .wait _ | .work _ _ | .run _ | .done _ _ _ => true
  | _ => false

/-- No thread can move on its own. -/
def Quiet (s : Pool) : Prop := ∀ a : Action, a.internal = true → step s a = none

theorem loopHead_exists (s : Pool) (i : Nat) : ∃ k s', loopHead s i k = some s' := by
  unfold loopHead
  by_cases hk : s.keep = false
  · exact ⟨0, _, if_pos hk⟩
  · simp only [if_neg hk]
    cases s.tasks with
    | nil => exact ⟨0, _, rfl⟩
    | cons t rest =>
      simp only [take, notifyWorker]
      by_cases hr : rest = []
      · exact ⟨0, _, by rw [if_pos hr]; rfl⟩
      · obtain ⟨k, ws, hn⟩ := notifyOne_exists Worker.asleep Worker.ready s.workers
        exact ⟨k, _, by rw [if_neg hr, hn]; rfl⟩

theorem finish_exists (s : Pool) (h : 0 < s.counter) : ∃ w s', finish s w = some s' := by
  unfold finish notifyWaiter
  obtain ⟨c, hc⟩ : ∃ c, s.counter = c + 1 := ⟨s.counter - 1, by omega⟩
  rw [hc]
  obtain ⟨w, ws, hn⟩ := notifyOne_exists Waiter.asleep Waiter.ready s.waiters
  by_cases hcond : s.tasks = [] ∧ c = 0
  · exact ⟨w, _, by simp only; rw [if_pos hcond, hn]; rfl⟩
  · exact ⟨w, _, by simp only; rw [if_neg hcond]⟩

theorem sum_pos_of_get {A : Type} (f : A → Nat) (l : List A) (i : Nat) (a : A)
    (h : l[i]? = some a) : f a ≤ (l.map f).sum := by
  induction l generalizing i with
  | nil => simp at h
  | cons x l ih =>
    cases i with
    | zero =>
      simp only [List.getElem?_cons_zero, Option.some.injEq] at h
      subst h
      simp
    | succ i =>
      simp only [List.getElem?_cons_succ] at h
      have := ih i h
      simp only [List.map_cons, List.sum_cons]
      omega

theorem quiet_worker {s : Pool} (h : Inv s) (hq : Quiet s) (w : Worker) (hw : w ∈ s.workers) :
    w = .asleep ∨ w = .exited := by
  obtain ⟨i, hi⟩ := List.mem_iff_getElem?.mp hw
  cases w with
  | asleep => exact Or.inl rfl
  | exited => exact Or.inr rfl
  | ready =>
    exfalso
    obtain ⟨k, s', hs⟩ := loopHead_exists s i
    have := hq (.work i k) rfl
    simp only [step, if_pos hi] at this
    rw [hs] at this
    simp at this
  | running t =>
    exfalso
    have := hq (.run i) rfl
    simp only [step, hi] at this
    simp at this
  | ended =>
    exfalso
    have hc : 0 < s.counter := by
      have := sum_pos_of_get busyOf s.workers i _ hi
      simp only [busyOf] at this
      rw [h.counter]; omega
    obtain ⟨w, s1, h1⟩ := finish_exists s hc
    obtain ⟨k, s2, h2⟩ := loopHead_exists s1 i
    have := hq (.done i w k) rfl
    simp only [step, if_pos hi] at this
    rw [h1, Option.bind_some, h2] at this
    simp at this

theorem quiet_waiter {s : Pool} (hq : Quiet s) : Waiter.ready ∉ s.waiters := by
  intro hw
  obtain ⟨j, hj⟩ := List.mem_iff_getElem?.mp hw
  have := hq (.wait j) rfl
  simp only [step, if_pos hj] at this
  simp at this

theorem busy_zero_of {ws : List Worker} (h : ∀ w ∈ ws, w = Worker.asleep ∨ w = .exited) :
    (ws.map busyOf).sum = 0 := by
  induction ws with
  | nil => rfl
  | cons w ws ih =>
    simp only [List.map_cons, List.sum_cons]
    rw [ih (fun x hx => h x (List.mem_cons_of_mem _ hx))]
    rcases h w List.mem_cons_self with rfl | rfl <;> rfl

theorem quiet_finished {s : Pool} (h : Inv s) (hn : s.workers ≠ []) (hk : s.keep = true)
    (hq : Quiet s) : s.tasks = [] ∧ s.counter = 0 := by
  have hall := fun w hw => quiet_worker h hq w hw
  refine ⟨?_, by rw [h.counter]; exact busy_zero_of hall⟩
  by_contra hne
  rcases h.awake hk hne with hr | ha
  · rcases hall _ hr with h' | h' <;> simp at h'
  · obtain ⟨w, hw⟩ := List.exists_mem_of_ne_nil _ hn
    rcases hall w hw with rfl | rfl
    · exact ha hw
    · exact h.exited hk hw

theorem quiet_exited {s : Pool} (h : Inv s) (hk : s.keep = false) (hq : Quiet s) :
    ∀ w ∈ s.workers, w = .exited := by
  intro w hw
  rcases quiet_worker h hq w hw with rfl | rfl
  · exact absurd hw (h.asleep hk)
  · rfl

/-! ### Number of threads -/

theorem loopHead_length {s s' : Pool} {i k : Nat} (hs : loopHead s i k = some s') :
    s'.workers.length = s.workers.length ∧ s'.waiters = s.waiters ∧ s'.keep = s.keep ∧
      s'.finished = s.finished ∧ (s.tasks = [] → s'.tasks = []) := by
  unfold loopHead at hs
  split at hs
  · obtain rfl := Option.some.inj hs
    simp
  · split at hs
    · next ht =>
      obtain rfl := Option.some.inj hs
      simp
    · next t rest ht =>
      unfold take at hs
      simp only [Option.map_eq_some_iff] at hs
      obtain ⟨s1, h1, rfl⟩ := hs
      split at h1
      · obtain rfl := Option.some.inj h1
        simp [ht]
      · unfold notifyWorker at h1
        simp only [Option.map_eq_some_iff] at h1
        obtain ⟨ws, hn, rfl⟩ := h1
        simp [notifyOne_length hn, ht]

theorem finish_length {s s' : Pool} {w : Nat} (hs : finish s w = some s') :
    s'.workers = s.workers ∧ s'.waiters.length = s.waiters.length ∧ s'.keep = s.keep ∧
      s'.tasks = s.tasks := by
  unfold finish at hs
  split at hs
  · simp at hs
  · split at hs
    · unfold notifyWaiter at hs
      simp only [Option.map_eq_some_iff] at hs
      obtain ⟨ws, hn, rfl⟩ := hs
      exact ⟨rfl, notifyOne_length hn, rfl, rfl⟩
    · obtain rfl := Option.some.inj hs
      exact ⟨rfl, rfl, rfl, rfl⟩

theorem step_lengths {s s' : Pool} (a : Action) (hs : step s a = some s') :
    s'.workers.length = s.workers.length ∧ s'.waiters.length = s.waiters.length := by
  cases a with
  | submit t k =>
    simp only [step, submit, notifyWorker] at hs
    split at hs
    · simp at hs
    · simp only [Option.map_eq_some_iff] at hs
      obtain ⟨_, ⟨ws, hn, rfl⟩, rfl⟩ := hs
      exact ⟨notifyOne_length hn, rfl⟩
  | call j =>
    simp only [step] at hs
    split at hs
    · obtain rfl := Option.some.inj hs; simp
    · simp at hs
  | wait j =>
    simp only [step] at hs
    split at hs
    · obtain rfl := Option.some.inj hs
      unfold waitLoop
      split <;> simp
    · simp at hs
  | work i k =>
    simp only [step] at hs
    split at hs
    · have := loopHead_length hs
      exact ⟨this.1, by rw [this.2.1]⟩
    · simp at hs
  | run i =>
    simp only [step] at hs
    split at hs
    · obtain rfl := Option.some.inj hs; simp
    · simp at hs
  | done i w k =>
    simp only [step] at hs
    split at hs
    · obtain ⟨s1, h1, h2⟩ := Option.bind_eq_some_iff.mp hs
      have e1 := finish_length h1
      have e2 := loopHead_length h2
      exact ⟨by rw [e2.1, e1.1], by rw [e2.2.1, e1.2.1]⟩
    · simp at hs
  | spuriousWorker i =>
    simp only [step] at hs
    split at hs
    · obtain rfl := Option.some.inj hs; simp
    · simp at hs
  | spuriousWaiter j =>
    simp only [step] at hs
    split at hs
    · obtain rfl := Option.some.inj hs; simp
    · simp at hs
  | stop =>
    simp only [step] at hs
    obtain rfl := Option.some.inj hs
    simp [notifyAll]

theorem run_cons {s s' : Pool} {a : Action} {as : List Action} :
    run s (a :: as) = some s' ↔ ∃ s1, step s a = some s1 ∧ run s1 as = some s' := by
  unfold run
  rw [List.foldlM_cons]
  exact Option.bind_eq_some_iff

theorem run_append {s s' : Pool} {as bs : List Action} :
    run s (as ++ bs) = some s' ↔ ∃ s1, run s as = some s1 ∧ run s1 bs = some s' := by
  unfold run
  rw [List.foldlM_append]
  exact Option.bind_eq_some_iff

theorem run_lengths {s s' : Pool} (as : List Action) (hs : run s as = some s') :
    s'.workers.length = s.workers.length ∧ s'.waiters.length = s.waiters.length := by
  induction as generalizing s with
  | nil =>
    obtain rfl := Option.some.inj hs
    exact ⟨rfl, rfl⟩
  | cons a as ih =>
    obtain ⟨s1, h1, h2⟩ := run_cons.mp hs
    have e1 := step_lengths a h1
    have e2 := ih h2
    exact ⟨e2.1.trans e1.1, e2.2.trans e1.2⟩

/-! ### Keeping and stopping -/

theorem step_keep {s s' : Pool} (a : Action) (hs : step s a = some s') :
    s'.keep = (s.keep && a != .stop) := by
  cases a with
  | submit t k =>
    simp only [step, submit, notifyWorker] at hs
    split at hs
    · simp at hs
    · simp only [Option.map_eq_some_iff] at hs
      obtain ⟨_, ⟨ws, hn, rfl⟩, rfl⟩ := hs
      simp
  | call j =>
    simp only [step] at hs
    split at hs
    · obtain rfl := Option.some.inj hs; simp
    · simp at hs
  | wait j =>
    simp only [step] at hs
    split at hs
    · obtain rfl := Option.some.inj hs
      unfold waitLoop
      split <;> simp
    · simp at hs
  | work i k =>
    simp only [step] at hs
    split at hs
    · have := loopHead_length hs
      rw [this.2.2.1]; simp
    · simp at hs
  | run i =>
    simp only [step] at hs
    split at hs
    · obtain rfl := Option.some.inj hs; simp
    · simp at hs
  | done i w k =>
    simp only [step] at hs
    split at hs
    · obtain ⟨s1, h1, h2⟩ := Option.bind_eq_some_iff.mp hs
      rw [(loopHead_length h2).2.2.1, (finish_length h1).2.2.1]; simp
    · simp at hs
  | spuriousWorker i =>
    simp only [step] at hs
    split at hs
    · obtain rfl := Option.some.inj hs; simp
    · simp at hs
  | spuriousWaiter j =>
    simp only [step] at hs
    split at hs
    · obtain rfl := Option.some.inj hs; simp
    · simp at hs
  | stop =>
    simp only [step] at hs
    obtain rfl := Option.some.inj hs
    simp

theorem run_keep {s s' : Pool} (as : List Action) (hk : s.keep = true) (hn : .stop ∉ as)
    (hs : run s as = some s') : s'.keep = true := by
  induction as generalizing s with
  | nil =>
    obtain rfl := Option.some.inj hs
    exact hk
  | cons a as ih =>
    obtain ⟨s1, h1, h2⟩ := run_cons.mp hs
    rw [List.mem_cons, not_or] at hn
    refine ih ?_ hn.2 h2
    rw [step_keep a h1, hk]
    simpa using Ne.symm hn.1

theorem run_stopped {s s' : Pool} (as : List Action) (hk : s.keep = false)
    (hs : run s as = some s') : s'.keep = false := by
  induction as generalizing s with
  | nil =>
    obtain rfl := Option.some.inj hs
    exact hk
  | cons a as ih =>
    obtain ⟨s1, h1, h2⟩ := run_cons.mp hs
    refine ih ?_ h2
    rw [step_keep a h1, hk]
    rfl

theorem step_no_tasks {s s' : Pool} (a : Action) (ht : s.tasks = []) (hn : ∀ t k, a ≠ .submit t k)
    (hs : step s a = some s') : s'.tasks = [] := by
  cases a with
  | submit t k => exact absurd rfl (hn t k)
  | call j =>
    simp only [step] at hs
    split at hs
    · obtain rfl := Option.some.inj hs; exact ht
    · simp at hs
  | wait j =>
    simp only [step] at hs
    split at hs
    · obtain rfl := Option.some.inj hs
      unfold waitLoop
      split <;> exact ht
    · simp at hs
  | work i k =>
    simp only [step] at hs
    split at hs
    · exact (loopHead_length hs).2.2.2.2 ht
    · simp at hs
  | run i =>
    simp only [step] at hs
    split at hs
    · obtain rfl := Option.some.inj hs; exact ht
    · simp at hs
  | done i w k =>
    simp only [step] at hs
    split at hs
    · obtain ⟨s1, h1, h2⟩ := Option.bind_eq_some_iff.mp hs
      exact (loopHead_length h2).2.2.2.2 ((finish_length h1).2.2.2.trans ht)
    · simp at hs
  | spuriousWorker i =>
    simp only [step] at hs
    split at hs
    · obtain rfl := Option.some.inj hs; exact ht
    · simp at hs
  | spuriousWaiter j =>
    simp only [step] at hs
    split at hs
    · obtain rfl := Option.some.inj hs; exact ht
    · simp at hs
  | stop =>
    simp only [step] at hs
    obtain rfl := Option.some.inj hs
    exact ht

theorem run_no_tasks {s s' : Pool} (as : List Action) (ht : s.tasks = [])
    (hn : ∀ t k, .submit t k ∉ as) (hs : run s as = some s') : s'.tasks = [] := by
  induction as generalizing s with
  | nil =>
    obtain rfl := Option.some.inj hs
    exact ht
  | cons a as ih =>
    obtain ⟨s1, h1, h2⟩ := run_cons.mp hs
    refine ih (step_no_tasks a ht ?_ h1) ?_ h2
    · rintro t k rfl
      exact hn t k List.mem_cons_self
    · intro t k hmem
      exact hn t k (List.mem_cons_of_mem _ hmem)

/-! ### Events -/

theorem loopHead_events {s s' : Pool} {i k : Nat} (hs : loopHead s i k = some s') :
    submitted s'.trace = submitted s.trace ∧ ended s'.trace = ended s.trace := by
  unfold loopHead at hs
  split at hs
  · obtain rfl := Option.some.inj hs
    exact ⟨rfl, rfl⟩
  · split at hs
    · obtain rfl := Option.some.inj hs
      exact ⟨rfl, rfl⟩
    · next t rest ht =>
      unfold take at hs
      simp only [Option.map_eq_some_iff] at hs
      obtain ⟨s1, h1, rfl⟩ := hs
      split at h1
      · obtain rfl := Option.some.inj h1
        simp [submitted, ended]
      · unfold notifyWorker at h1
        simp only [Option.map_eq_some_iff] at h1
        obtain ⟨ws, hn, rfl⟩ := h1
        simp [submitted, ended]

theorem finish_events {s s' : Pool} {w : Nat} (hs : finish s w = some s') :
    s'.trace = s.trace := by
  unfold finish at hs
  split at hs
  · simp at hs
  · split at hs
    · unfold notifyWaiter at hs
      simp only [Option.map_eq_some_iff] at hs
      obtain ⟨ws, hn, rfl⟩ := hs
      rfl
    · obtain rfl := Option.some.inj hs
      rfl

theorem step_events {s s' : Pool} (a : Action) (hs : step s a = some s') :
    submitted s'.trace = submitted s.trace ++
        (match a with | .submit t _ => [t] | _ => []) ∧
      (ended s'.trace).length = (ended s.trace).length + (match a with | .run _ => 1 | _ => 0) := by
  cases a with
  | submit t k =>
    simp only [step, submit, notifyWorker] at hs
    split at hs
    · simp at hs
    · simp only [Option.map_eq_some_iff] at hs
      obtain ⟨_, ⟨ws, hn, rfl⟩, rfl⟩ := hs
      simp [submitted, ended]
  | call j =>
    simp only [step] at hs
    split at hs
    · obtain rfl := Option.some.inj hs; simp
    · simp at hs
  | wait j =>
    simp only [step] at hs
    split at hs
    · obtain rfl := Option.some.inj hs
      unfold waitLoop
      split <;> simp [submitted, ended]
    · simp at hs
  | work i k =>
    simp only [step] at hs
    split at hs
    · have := loopHead_events hs
      rw [this.1, this.2]; simp
    · simp at hs
  | run i =>
    simp only [step] at hs
    split at hs
    · obtain rfl := Option.some.inj hs
      simp [submitted, ended]
    · simp at hs
  | done i w k =>
    simp only [step] at hs
    split at hs
    · obtain ⟨s1, h1, h2⟩ := Option.bind_eq_some_iff.mp hs
      have := loopHead_events h2
      rw [this.1, this.2, finish_events h1]; simp
    · simp at hs
  | spuriousWorker i =>
    simp only [step] at hs
    split at hs
    · obtain rfl := Option.some.inj hs; simp
    · simp at hs
  | spuriousWaiter j =>
    simp only [step] at hs
    split at hs
    · obtain rfl := Option.some.inj hs; simp
    · simp at hs
  | stop =>
    simp only [step] at hs
    obtain rfl := Option.some.inj hs
    simp [submitted, ended]

/-! ### Termination -/

/-- How many more steps a worker can make without getting a new task. -/
def workerWeight : Worker → Nat
  | .ready => 1
  | .running _ => 3
  | .ended => 2
  | _ => 0

/-- How many more steps a waiter can make without a new wake-up. -/
def waiterWeight : Waiter → Nat
  | .ready => 1
  | _ => 0

/-- Bound for the number of steps that threads can make on their own. -/
def weight (s : Pool) : Nat :=
  4 * s.tasks.length + (s.workers.map workerWeight).sum + (s.waiters.map waiterWeight).sum

theorem notifyOne_weight {A : Type} [DecidableEq A] {asleep ready : A} (f : A → Nat)
    (hf : f asleep = 0) (hf' : f ready = 1) {k : Nat} {l l' : List A}
    (h : notifyOne asleep ready k l = some l') : (l'.map f).sum ≤ (l.map f).sum + 1 := by
  rcases notifyOne_cases h with ⟨hk, rfl⟩ | ⟨_, rfl⟩
  · have := sum_set f l k asleep ready hk
    omega
  · omega

theorem loopHead_weight {s s' : Pool} {i k : Nat} {w : Worker} (hw : s.workers[i]? = some w)
    (hne : w ≠ .asleep) (hw1 : 1 ≤ workerWeight w) (hs : loopHead s i k = some s') :
    weight s' + workerWeight w ≤ weight s + (if s.tasks = [] then 0 else workerWeight w - 1) := by
  have w1 : workerWeight .exited = 0 := rfl
  have w2 : workerWeight .asleep = 0 := rfl
  have w3 : ∀ t, workerWeight (.running t) = 3 := fun _ => rfl
  unfold loopHead at hs
  split at hs
  · obtain rfl := Option.some.inj hs
    have := sum_set workerWeight s.workers i w .exited hw
    simp only [weight]
    rw [w1] at this
    omega
  · split at hs
    · next ht =>
      obtain rfl := Option.some.inj hs
      have := sum_set workerWeight s.workers i w .asleep hw
      simp only [weight]
      rw [w2] at this
      omega
    · next t rest ht =>
      unfold take at hs
      simp only [Option.map_eq_some_iff] at hs
      obtain ⟨s1, h1, rfl⟩ := hs
      split at h1
      · obtain rfl := Option.some.inj h1
        have := sum_set workerWeight s.workers i w (.running t) hw
        simp only [weight, ht, List.length_cons]
        rw [w3] at this
        split
        · simp_all
        · omega
      · unfold notifyWorker at h1
        simp only [Option.map_eq_some_iff] at h1
        obtain ⟨ws, hn, rfl⟩ := h1
        have h2 := notifyOne_get hn i hw hne.symm
        have := sum_set workerWeight ws i w (.running t) h2
        have h3 := notifyOne_weight workerWeight rfl rfl hn
        simp only [weight, ht, List.length_cons]
        rw [w3] at this
        split
        · simp_all
        · omega

theorem finish_weight {s s' : Pool} {w : Nat} (hs : finish s w = some s') :
    weight s' ≤ weight s + (if s.tasks = [] then 1 else 0) := by
  unfold finish at hs
  split at hs
  · simp at hs
  · split at hs
    · next hc =>
      unfold notifyWaiter at hs
      simp only [Option.map_eq_some_iff] at hs
      obtain ⟨ws, hn, rfl⟩ := hs
      have := notifyOne_weight waiterWeight rfl rfl hn
      rw [if_pos hc.1]
      simp only [weight]
      omega
    · obtain rfl := Option.some.inj hs
      simp only [weight]
      omega

/-- How much a step may add to the bound. -/
def credit (n : Nat) : Action → Nat
  | .submit _ _ => 5
  | .call _ => 1
  | .spuriousWorker _ => 1
  | .spuriousWaiter _ => 1
  | .stop => n
  | _ => 0

theorem notifyAll_weight (l : List Worker) :
    ((notifyAll .asleep .ready l).map workerWeight).sum ≤ (l.map workerWeight).sum + l.length := by
  induction l with
  | nil => simp [notifyAll]
  | cons x l ih =>
    simp only [notifyAll, List.map_cons, List.sum_cons, List.length_cons] at ih ⊢
    split
    · next hx => subst hx; simp only [workerWeight]; omega
    · omega

theorem step_weight {s s' : Pool} (a : Action) (hs : step s a = some s') :
    weight s' + (if a.internal = true then 1 else 0) ≤ weight s + credit s.workers.length a := by
  cases a with
  | submit t k =>
    simp only [step, submit, notifyWorker] at hs
    split at hs
    · simp at hs
    · simp only [Option.map_eq_some_iff] at hs
      obtain ⟨_, ⟨ws, hn, rfl⟩, rfl⟩ := hs
      have := notifyOne_weight workerWeight rfl rfl hn
      simp only [weight, credit, Action.internal, List.length_append, List.length_singleton]
      simp only [Bool.false_eq_true, if_false]
      omega
  | call j =>
    simp only [step] at hs
    split at hs
    · next hj =>
      obtain rfl := Option.some.inj hs
      have := sum_set waiterWeight s.waiters j .away .ready hj
      simp only [waiterWeight] at this
      simp only [weight, credit, Action.internal]
      simp only [Bool.false_eq_true, if_false]
      omega
    · simp at hs
  | wait j =>
    simp only [step] at hs
    split at hs
    · next hj =>
      obtain rfl := Option.some.inj hs
      have h1 := sum_set waiterWeight s.waiters j .ready .away hj
      have h2 := sum_set waiterWeight s.waiters j .ready .asleep hj
      simp only [waiterWeight] at h1 h2
      unfold waitLoop
      split <;> simp only [weight, credit, Action.internal, if_true] <;> omega
    · simp at hs
  | work i k =>
    simp only [step] at hs
    split at hs
    · next hi =>
      have := loopHead_weight hi (by simp) (by simp [workerWeight]) hs
      simp only [workerWeight] at this
      simp only [credit, Action.internal, if_true]
      split at this <;> omega
    · simp at hs
  | run i =>
    simp only [step] at hs
    split at hs
    · next t hi =>
      obtain rfl := Option.some.inj hs
      have := sum_set workerWeight s.workers i (.running t) .ended hi
      simp only [workerWeight] at this
      simp only [weight, credit, Action.internal, if_true]
      omega
    · simp at hs
  | done i w k =>
    simp only [step] at hs
    split at hs
    · next hi =>
      obtain ⟨s1, h1, h2⟩ := Option.bind_eq_some_iff.mp hs
      have e := finish_length h1
      have h3 := finish_weight h1
      have h4 := loopHead_weight (e.1 ▸ hi : s1.workers[i]? = some .ended) (by simp)
        (by simp [workerWeight]) h2
      rw [e.2.2.2] at h4
      simp only [workerWeight] at h4
      simp only [credit, Action.internal, if_true]
      split at h4 <;> simp_all <;> omega
    · simp at hs
  | spuriousWorker i =>
    simp only [step] at hs
    split at hs
    · next hi =>
      obtain rfl := Option.some.inj hs
      have := sum_set workerWeight s.workers i .asleep .ready hi
      simp only [workerWeight] at this
      simp only [weight, credit, Action.internal, Bool.false_eq_true, if_false]
      omega
    · simp at hs
  | spuriousWaiter j =>
    simp only [step] at hs
    split at hs
    · next hj =>
      obtain rfl := Option.some.inj hs
      have := sum_set waiterWeight s.waiters j .asleep .ready hj
      simp only [waiterWeight] at this
      simp only [weight, credit, Action.internal, Bool.false_eq_true, if_false]
      omega
    · simp at hs
  | stop =>
    simp only [step] at hs
    obtain rfl := Option.some.inj hs
    have := notifyAll_weight s.workers
    simp only [weight, credit, Action.internal, Bool.false_eq_true, if_false]
    omega

theorem run_weight {s s' : Pool} (as : List Action) (hs : run s as = some s') :
    weight s' + as.countP Action.internal ≤
      weight s + (as.map (credit s.workers.length)).sum := by
  induction as generalizing s with
  | nil =>
    obtain rfl := Option.some.inj hs
    simp
  | cons a as ih =>
    obtain ⟨s1, h1, h2⟩ := run_cons.mp hs
    have e1 := step_weight a h1
    have e2 := ih h2
    rw [(step_lengths a h1).1] at e2
    rw [List.countP_cons, List.map_cons, List.sum_cons]
    omega

end Verif.Threads
