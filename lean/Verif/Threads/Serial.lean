import Verif.Threads.Live

/-!
# One waiter at a time, and the semaphore
-/

namespace Verif.Threads

theorem two_le_countP {A : Type} (p : A → Bool) (a b : A) (l : List A) (hab : a ≠ b)
    (ha : a ∈ l) (hb : b ∈ l) (hpa : p a = true) (hpb : p b = true) : 2 ≤ l.countP p := by
  induction l with
  | nil => simp at ha
  | cons x l ih =>
    rw [List.countP_cons]
    rcases List.mem_cons.mp ha with rfl | ha' <;> rcases List.mem_cons.mp hb with rfl | hb'
    · exact absurd rfl hab
    · have : 0 < l.countP p := List.countP_pos_iff.mpr ⟨b, hb', hpb⟩
      rw [if_pos hpa]; omega
    · have : 0 < l.countP p := List.countP_pos_iff.mpr ⟨a, ha', hpa⟩
      rw [if_pos hpb]; omega
    · have := ih ha' hb'
      omega

/-- Is a thread inside `WaitAllTasksFinished`? -/
def Waiter.inside (w : Waiter) : Bool := decide (w ≠ .away)

theorem step_no_sleeper {s s' : Pool} (a : Action)
    (h : s.finished = true → Waiter.asleep ∉ s.waiters) (hs : step s a = some s')
    (h1 : s'.waiters.countP Waiter.inside ≤ 1) :
    s'.finished = true → Waiter.asleep ∉ s'.waiters := by
  cases a with
  | submit t k =>
    simp only [step, submit, notifyWorker] at hs
    split at hs
    · simp at hs
    · simp only [Option.map_eq_some_iff] at hs
      obtain ⟨_, ⟨ws, hn, rfl⟩, rfl⟩ := hs
      simp
  | call j =>
    simp only [step] at hs
    split at hs
    · next hj =>
      obtain rfl := Option.some.inj hs
      intro hf
      show _ ∉ s.waiters.set j .ready
      rw [mem_set_iff_of_ne s.waiters j _ .ready .asleep hj (by simp) (by simp)]
      exact h hf
    · simp at hs
  | wait j =>
    simp only [step] at hs
    split at hs
    · next hj =>
      obtain rfl := Option.some.inj hs
      unfold waitLoop
      split
      · intro hf
        show _ ∉ s.waiters.set j .away
        rw [mem_set_iff_of_ne s.waiters j _ .away .asleep hj (by simp) (by simp)]
        exact h hf
      · next hf =>
        intro hf'
        exact absurd hf' hf
    · simp at hs
  | work i k =>
    simp only [step] at hs
    split at hs
    · have e := loopHead_length hs
      rw [e.2.2.2.1, e.2.1]
      exact h
    · simp at hs
  | run i =>
    simp only [step] at hs
    split at hs
    · obtain rfl := Option.some.inj hs; exact h
    · simp at hs
  | done i w k =>
    simp only [step] at hs
    split at hs
    · obtain ⟨s1, e1, e2⟩ := Option.bind_eq_some_iff.mp hs
      have e := loopHead_length e2
      rw [e.2.1] at h1
      rw [e.2.2.2.1, e.2.1]
      unfold finish at e1
      split at e1
      · simp at e1
      · split at e1
        · unfold notifyWaiter at e1
          simp only [Option.map_eq_some_iff] at e1
          obtain ⟨ws, hn, rfl⟩ := e1
          intro _ hmem
          rcases notifyOne_ready hn with hr | hr
          · have := two_le_countP Waiter.inside .ready .asleep ws (by simp) hr hmem rfl rfl
            have h1' : ws.countP Waiter.inside ≤ 1 := h1
            omega
          · exact hr hmem
        · obtain rfl := Option.some.inj e1
          exact h
    · simp at hs
  | spuriousWorker i =>
    simp only [step] at hs
    split at hs
    · obtain rfl := Option.some.inj hs; exact h
    · simp at hs
  | spuriousWaiter j =>
    simp only [step] at hs
    split at hs
    · obtain rfl := Option.some.inj hs
      intro hf hmem
      rcases mem_of_mem_set hmem with h' | h'
      · simp at h'
      · exact h hf h'
    · simp at hs
  | stop =>
    simp only [step] at hs
    obtain rfl := Option.some.inj hs
    exact h

theorem run_no_sleeper {s s' : Pool} (as : List Action)
    (h : s.finished = true → Waiter.asleep ∉ s.waiters) (hs : run s as = some s')
    (h1 : ∀ pre post s1, as = pre ++ post → run s pre = some s1 →
      s1.waiters.countP Waiter.inside ≤ 1) :
    s'.finished = true → Waiter.asleep ∉ s'.waiters := by
  induction as generalizing s with
  | nil =>
    obtain rfl := Option.some.inj hs
    exact h
  | cons a as ih =>
    obtain ⟨s1, e1, e2⟩ := run_cons.mp hs
    refine ih (step_no_sleeper a h e1 ?_) e2 ?_
    · exact h1 [a] as s1 rfl (run_cons.mpr ⟨s1, e1, rfl⟩)
    · intro pre post s2 heq hr
      exact h1 (a :: pre) post s2 (by rw [heq]; rfl) (run_cons.mpr ⟨s1, e1, hr⟩)

/-! ### Semaphore -/

/-- 1 for a thread that is awake inside `acquire`. -/
def readyOf : Acq → Nat
  | .ready => 1
  | _ => 0

/-- 1 for a thread inside `acquire`. -/
def insideOf : Acq → Nat
  | .away => 0
  | _ => 1

/-- The invariant of a semaphore made with `c`. -/
structure SemaInv (c : Int) (s : Sema) : Prop where
  count : s.count = c + s.released - s.acquired
  nonneg : 0 ≤ s.count
  calls : s.called = s.acquired + (s.threads.map insideOf).sum
  awake : Acq.asleep ∈ s.threads → s.count ≤ ((s.threads.map readyOf).sum : Nat)

theorem sema_init_inv (c : Int) (m : Nat) (hc : 0 ≤ c) : SemaInv c (Sema.init c m) := by
  refine ⟨by simp [Sema.init], hc, ?_, ?_⟩
  · show 0 = 0 + ((List.replicate m Acq.away).map insideOf).sum
    rw [List.map_replicate, List.sum_replicate]
    simp [insideOf]
  · intro h
    have := List.eq_of_mem_replicate h
    simp at this

theorem notifyOne_readyOf {k : Nat} {l l' : List Acq} (h : notifyOne Acq.asleep Acq.ready k l = some l')
    (hm : Acq.asleep ∈ l') : (l'.map readyOf).sum = (l.map readyOf).sum + 1 ∧ Acq.asleep ∈ l := by
  rcases notifyOne_cases h with ⟨hk, rfl⟩ | ⟨hn, rfl⟩
  · have := sum_set readyOf l k .asleep .ready hk
    simp only [readyOf] at this
    exact ⟨by omega, List.mem_iff_getElem?.mpr ⟨k, hk⟩⟩
  · exact absurd hm hn

theorem notifyOne_insideOf {k : Nat} {l l' : List Acq}
    (h : notifyOne Acq.asleep Acq.ready k l = some l') :
    (l'.map insideOf).sum = (l.map insideOf).sum := by
  rcases notifyOne_cases h with ⟨hk, rfl⟩ | ⟨hn, rfl⟩
  · have := sum_set insideOf l k .asleep .ready hk
    simp only [insideOf] at this
    omega
  · rfl

theorem sema_step_inv {c : Int} {s s' : Sema} (a : SemaAction) (h : SemaInv c s)
    (hs : semaStep s a = some s') : SemaInv c s' := by
  cases a with
  | release k =>
    simp only [semaStep, release, Option.map_eq_some_iff] at hs
    obtain ⟨ts, hn, rfl⟩ := hs
    have h1 := h.count
    have h2 := h.nonneg
    refine ⟨?_, ?_, ?_, ?_⟩
    · simp only; omega
    · simp only; omega
    · simp only
      rw [notifyOne_insideOf hn]; exact h.calls
    · intro hm
      obtain ⟨e, hm'⟩ := notifyOne_readyOf hn hm
      have := h.awake hm'
      simp only
      rw [e]; omega
  | call j =>
    simp only [semaStep] at hs
    split at hs
    · next hj =>
      obtain rfl := Option.some.inj hs
      have e1 := sum_set readyOf s.threads j .away .ready hj
      have e2 := sum_set insideOf s.threads j .away .ready hj
      simp only [readyOf, insideOf] at e1 e2
      refine ⟨h.count, h.nonneg, ?_, ?_⟩
      · have := h.calls
        simp only; omega
      · intro hm
        simp only at hm ⊢
        rw [mem_set_iff_of_ne s.threads j _ .ready .asleep hj (by simp) (by simp)] at hm
        have := h.awake hm
        omega
    · simp at hs
  | acquire j =>
    simp only [semaStep] at hs
    split at hs
    · next hj =>
      obtain rfl := Option.some.inj hs
      unfold acquire
      have h1 := h.count
      have h2 := h.nonneg
      have h3 := h.calls
      split
      · next hc =>
        have e2 := sum_set insideOf s.threads j .ready .asleep hj
        simp only [insideOf] at e2
        refine ⟨h.count, h.nonneg, ?_, ?_⟩
        · simp only; omega
        · intro _
          simp only
          rw [hc]
          exact Int.natCast_nonneg _
      · next hc =>
        have e1 := sum_set readyOf s.threads j .ready .away hj
        have e2 := sum_set insideOf s.threads j .ready .away hj
        simp only [readyOf, insideOf] at e1 e2
        refine ⟨?_, ?_, ?_, ?_⟩
        · simp only; omega
        · simp only; omega
        · simp only; omega
        · intro hm
          simp only at hm ⊢
          rw [mem_set_iff_of_ne s.threads j _ .away .asleep hj (by simp) (by simp)] at hm
          have := h.awake hm
          omega
    · simp at hs
  | spurious j =>
    simp only [semaStep] at hs
    split at hs
    · next hj =>
      obtain rfl := Option.some.inj hs
      have e1 := sum_set readyOf s.threads j .asleep .ready hj
      have e2 := sum_set insideOf s.threads j .asleep .ready hj
      simp only [readyOf, insideOf] at e1 e2
      refine ⟨h.count, h.nonneg, ?_, ?_⟩
      · have := h.calls
        simp only; omega
      · intro _
        have := h.awake (List.mem_iff_getElem?.mpr ⟨j, hj⟩)
        simp only
        omega
    · simp at hs

theorem semaRun_cons {s s' : Sema} {a : SemaAction} {as : List SemaAction} :
    semaRun s (a :: as) = some s' ↔ ∃ s1, semaStep s a = some s1 ∧ semaRun s1 as = some s' := by
  unfold semaRun
  rw [List.foldlM_cons]
  exact Option.bind_eq_some_iff

theorem sema_run_inv {c : Int} {s s' : Sema} (as : List SemaAction) (h : SemaInv c s)
    (hs : semaRun s as = some s') : SemaInv c s' := by
  induction as generalizing s with
  | nil =>
    obtain rfl := Option.some.inj hs
    exact h
  | cons a as ih =>
    obtain ⟨s1, h1, h2⟩ := semaRun_cons.mp hs
    exact ih (sema_step_inv a h h1) h2

/-- The step of a thread inside `acquire`. -/
def SemaAction.internal : SemaAction → Bool
  | .acquire _ => true
  | _ => false

theorem sema_step_weight {s s' : Sema} (a : SemaAction) (hs : semaStep s a = some s') :
    (s'.threads.map readyOf).sum + (if a.internal = true then 1 else 0) ≤
      (s.threads.map readyOf).sum + (if a.internal = true then 0 else 1) := by
  cases a with
  | release k =>
    simp only [semaStep, release, Option.map_eq_some_iff] at hs
    obtain ⟨ts, hn, rfl⟩ := hs
    have := notifyOne_weight readyOf rfl rfl hn
    simpa [SemaAction.internal] using this
  | call j =>
    simp only [semaStep] at hs
    split at hs
    · next hj =>
      obtain rfl := Option.some.inj hs
      have e1 := sum_set readyOf s.threads j .away .ready hj
      simp only [readyOf] at e1
      simp only [SemaAction.internal, Bool.false_eq_true, if_false]
      omega
    · simp at hs
  | acquire j =>
    simp only [semaStep] at hs
    split at hs
    · next hj =>
      obtain rfl := Option.some.inj hs
      have e1 := sum_set readyOf s.threads j .ready .away hj
      have e2 := sum_set readyOf s.threads j .ready .asleep hj
      simp only [readyOf] at e1 e2
      unfold acquire
      split <;> simp only [SemaAction.internal, if_true] <;> omega
    · simp at hs
  | spurious j =>
    simp only [semaStep] at hs
    split at hs
    · next hj =>
      obtain rfl := Option.some.inj hs
      have e1 := sum_set readyOf s.threads j .asleep .ready hj
      simp only [readyOf] at e1
      simp only [SemaAction.internal, Bool.false_eq_true, if_false]
      omega
    · simp at hs

theorem sema_run_weight {s s' : Sema} (as : List SemaAction) (hs : semaRun s as = some s') :
    (s'.threads.map readyOf).sum + as.countP SemaAction.internal ≤
      (s.threads.map readyOf).sum + as.countP (fun a => !a.internal) := by
  induction as generalizing s with
  | nil =>
    obtain rfl := Option.some.inj hs
    simp
  | cons a as ih =>
    obtain ⟨s1, h1, h2⟩ := semaRun_cons.mp hs
    have e1 := sema_step_weight a h1
    have e2 := ih h2
    rw [List.countP_cons, List.countP_cons]
    cases ha : a.internal <;> simp only [ha, if_true, if_false, Bool.false_eq_true, Bool.not_true,
      Bool.not_false] at e1 ⊢ <;> omega

theorem readyOf_zero {l : List Acq} (h : Acq.ready ∉ l) : (l.map readyOf).sum = 0 := by
  induction l with
  | nil => rfl
  | cons x l ih =>
    rw [List.mem_cons, not_or] at h
    rw [List.map_cons, List.sum_cons, ih h.2]
    cases x <;> simp_all [readyOf]

theorem insideOf_zero {l : List Acq} (h1 : Acq.ready ∉ l) (h2 : Acq.asleep ∉ l) :
    (l.map insideOf).sum = 0 := by
  induction l with
  | nil => rfl
  | cons x l ih =>
    rw [List.mem_cons, not_or] at h1 h2
    rw [List.map_cons, List.sum_cons, ih h1.2 h2.2]
    cases x <;> simp_all [insideOf]

end Verif.Threads
