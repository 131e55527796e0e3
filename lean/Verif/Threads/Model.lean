/-!
# `ThreadPool` and `counting_semaphore` as transition systems

Modelled code: `k2/csrc/thread_pool.h` 32-116, `k2/csrc/thread_pool.cu` 31-87 and
`k2/csrc/semaphore.h` 37-56.

Every shared member is read and written only while `mutex_` is held, so one step of the model is what
one thread does between acquiring the mutex and giving it up (by `unlock`, by the end of the scope
or inside `wait`).  Running a task happens outside the mutex and is a separate step.  Steps of
different threads interleave in any order.

A condition variable is the set of the threads blocked in its `wait`, given by their program
counters.  `notify_one` wakes one of them if there is one: which one is a parameter of the step, and
a step whose choice names a thread that is not blocked while another one is blocked does not exist
(`none`).  A thread that was woken still has to acquire the mutex (program counter `ready`).
Wake-ups without notification are allowed by C++, so they are steps too.

Simplifications: a task is a number; a task returns (an exception would end the program); a task
may call `SubmitTask` (steps `submit` are allowed at any time) but does not call
`WaitAllTasksFinished`.  `running_counter_` is a natural number (`none` when it would become
negative).  Threads of the pool never fail to start.
-/

namespace Verif.Threads

/-- Program counter of a worker, `ProcessTasks`, thread_pool.cu 55-87.
`ready`: waits for the mutex, at line 56 or inside `wait` after a wake-up (line 61); both continue
at the test of line 58.  `asleep`: blocked in `not_empty_cond_.wait`.  `running t`: at line 72.
`ended`: after line 72, waits for the mutex at line 76.  `exited`: returned. -/
inductive Worker where
  | ready
  | asleep
  | running (t : Nat)
  | ended
  | exited
  deriving DecidableEq, Repr

/-- Program counter of a thread of the user, `WaitAllTasksFinished`, thread_pool.cu 47-53.
`away`: not inside the function.  `ready`: waits for the mutex.  `asleep`: blocked in
`empty_cond_.wait`. -/
inductive Waiter where
  | away
  | ready
  | asleep
  deriving DecidableEq, Repr

/-- What can be observed from outside. -/
inductive Event where
  /-- `SubmitTask(t)` has put the task into the queue. -/
  | submitted (t : Nat)
  /-- Worker `i` begins to run `t`. -/
  | began (i t : Nat)
  /-- Worker `i` has run `t`. -/
  | ended (i t : Nat)
  /-- Thread `j` returns from `WaitAllTasksFinished`. -/
  | returned (j : Nat)
  /-- The destructor has set `keep_running_` to false. -/
  | stopped
  deriving DecidableEq, Repr

/-- Members of `ThreadPool`, thread_pool.h 87-115, program counters of all threads and the events so
far. -/
structure Pool where
  /-- `tasks_` -/
  tasks : List Nat
  /-- `keep_running_` -/
  keep : Bool
  /-- `finished_` -/
  finished : Bool
  /-- `running_counter_` -/
  counter : Nat
  workers : List Worker
  waiters : List Waiter
  trace : List Event
  deriving DecidableEq, Repr

/-- A pool of `n` threads just after its construction, thread_pool.cu 31-35, used by `m` threads. -/
def Pool.init (n m : Nat) : Pool :=
  ⟨[], true, true, 0, List.replicate n .ready, List.replicate m .away, []⟩

/-- `notify_one` for a condition variable whose blocked threads are those with program counter
`asleep`; `k` is the thread that wakes up. -/
def notifyOne {A : Type} [DecidableEq A] (asleep ready : A) (k : Nat) (l : List A) :
    Option (List A) :=
  if l[k]? = some asleep then some (l.set k ready)
  else if asleep ∈ l then none
  else some l

/-- `notify_all`. -/
def notifyAll {A : Type} [DecidableEq A] (asleep ready : A) (l : List A) : List A :=
  l.map (fun x => if x = asleep then ready else x)

/-- `not_empty_cond_.notify_one()`. -/
def notifyWorker (s : Pool) (k : Nat) : Option Pool :=
  (notifyOne Worker.asleep Worker.ready k s.workers).map (fun ws => { s with workers := ws })

/-- `empty_cond_.notify_one()`. -/
def notifyWaiter (s : Pool) (k : Nat) : Option Pool :=
  (notifyOne Waiter.asleep Waiter.ready k s.waiters).map (fun ws => { s with waiters := ws })

/-- `SubmitTask`, thread_pool.h 64-70. -/
def submit (s : Pool) (t k : Nat) : Option Pool :=
  if s.workers.length = 0 then none
  else
    (notifyWorker { s with tasks := s.tasks ++ [t], trace := s.trace ++ [.submitted t] } k).map
      (fun s => { s with finished := false })

/-- thread_pool.cu 67-71 by worker `i`: takes the first task; `k` is the worker woken at line 69. -/
def take (s : Pool) (i k t : Nat) (rest : List Nat) : Option Pool :=
  (if rest = [] then some { s with tasks := rest } else notifyWorker { s with tasks := rest } k).map
    (fun s => { s with counter := s.counter + 1, workers := s.workers.set i (.running t),
                       trace := s.trace ++ [.began i t] })

/-- thread_pool.cu 57-71 by worker `i`, which holds the mutex: returns, blocks or takes a task. -/
def loopHead (s : Pool) (i k : Nat) : Option Pool :=
  if s.keep = false then some { s with workers := s.workers.set i .exited }
  else match s.tasks with
    | [] => some { s with workers := s.workers.set i .asleep }
    | t :: rest => take s i k t rest

/-- thread_pool.cu 77-82: `k` is the thread woken at line 81. -/
def finish (s : Pool) (k : Nat) : Option Pool :=
  match s.counter with
  | 0 => none
  | c + 1 =>
    if s.tasks = [] ∧ c = 0 then notifyWaiter { s with counter := c, finished := true } k
    else some { s with counter := c }

/-- One critical section of `WaitAllTasksFinished` by thread `j`, thread_pool.cu 48-53. -/
def waitLoop (s : Pool) (j : Nat) : Pool :=
  if s.finished then
    { s with waiters := s.waiters.set j .away, trace := s.trace ++ [.returned j] }
  else { s with waiters := s.waiters.set j .asleep }

/-- The steps of the threads. -/
inductive Action where
  /-- Some thread runs `SubmitTask(t)`; `k` is the worker it wakes. -/
  | submit (t k : Nat)
  /-- Thread `j` calls `WaitAllTasksFinished`. -/
  | call (j : Nat)
  /-- Thread `j`, in `WaitAllTasksFinished`, gets the mutex. -/
  | wait (j : Nat)
  /-- Worker `i`, at the head of its loop, gets the mutex; `k` is the worker it wakes. -/
  | work (i k : Nat)
  /-- Worker `i` runs its task to the end. -/
  | run (i : Nat)
  /-- Worker `i` gets the mutex after its task; `w` and `k` are the threads it wakes. -/
  | done (i w k : Nat)
  /-- Worker `i` wakes up without notification. -/
  | spuriousWorker (i : Nat)
  /-- Thread `j` wakes up without notification. -/
  | spuriousWaiter (j : Nat)
  /-- The destructor's critical section, thread_pool.cu 39-43. -/
  | stop
  deriving DecidableEq, Repr

/-- One step. -/
def step (s : Pool) : Action → Option Pool
  | .submit t k => submit s t k
  | .call j =>
    if s.waiters[j]? = some .away then some { s with waiters := s.waiters.set j .ready } else none
  | .wait j => if s.waiters[j]? = some .ready then some (waitLoop s j) else none
  | .work i k => if s.workers[i]? = some .ready then loopHead s i k else none
  | .run i =>
    match s.workers[i]? with
    | some (.running t) =>
      some { s with workers := s.workers.set i .ended, trace := s.trace ++ [.ended i t] }
    | _ => none
  | .done i w k =>
    if s.workers[i]? = some .ended then (finish s w).bind (fun s => loopHead s i k) else none
  | .spuriousWorker i =>
    if s.workers[i]? = some .asleep then some { s with workers := s.workers.set i .ready } else none
  | .spuriousWaiter j =>
    if s.waiters[j]? = some .asleep then some { s with waiters := s.waiters.set j .ready } else none
  | .stop =>
    some { s with keep := false, workers := notifyAll .asleep .ready s.workers,
                  trace := s.trace ++ [.stopped] }

/-- A sequence of steps. -/
def run (s : Pool) (as : List Action) : Option Pool := as.foldlM step s

/-! ### The semaphore -/

/-- Program counter of a thread in `acquire`, semaphore.h 46-50. -/
inductive Acq where
  | away
  | ready
  | asleep
  deriving DecidableEq, Repr

/-- `counting_semaphore`: `count_`, the program counters of the threads, and how often `release` and
`acquire` have returned and `acquire` was called. -/
structure Sema where
  count : Int
  threads : List Acq
  released : Nat
  acquired : Nat
  called : Nat
  deriving DecidableEq, Repr

/-- `counting_semaphore(c)`, semaphore.h 39, used by `m` threads. -/
def Sema.init (c : Int) (m : Nat) : Sema := ⟨c, List.replicate m .away, 0, 0, 0⟩

/-- Steps on a semaphore. -/
inductive SemaAction where
  /-- `release()`; `k` is the thread it wakes. -/
  | release (k : Nat)
  /-- Thread `j` calls `acquire()`. -/
  | call (j : Nat)
  /-- Thread `j`, in `acquire`, gets the mutex. -/
  | acquire (j : Nat)
  /-- Thread `j` wakes up without notification. -/
  | spurious (j : Nat)
  deriving DecidableEq, Repr

/-- `release`, semaphore.h 41-45. -/
def release (s : Sema) (k : Nat) : Option Sema :=
  (notifyOne Acq.asleep Acq.ready k s.threads).map
    (fun ts => { s with count := s.count + 1, threads := ts, released := s.released + 1 })

/-- One critical section of `acquire` by thread `j`, semaphore.h 47-49. -/
def acquire (s : Sema) (j : Nat) : Sema :=
  if s.count = 0 then { s with threads := s.threads.set j .asleep }
  else { s with count := s.count - 1, threads := s.threads.set j .away, acquired := s.acquired + 1 }

/-- One step. -/
def semaStep (s : Sema) : SemaAction → Option Sema
  | .release k => release s k
  | .call j =>
    if s.threads[j]? = some .away then
      some { s with threads := s.threads.set j .ready, called := s.called + 1 }
    else none
  | .acquire j => if s.threads[j]? = some .ready then some (acquire s j) else none
  | .spurious j =>
    if s.threads[j]? = some .asleep then some { s with threads := s.threads.set j .ready } else none

/-- A sequence of steps. -/
def semaRun (s : Sema) (as : List SemaAction) : Option Sema := as.foldlM semaStep s

end Verif.Threads
