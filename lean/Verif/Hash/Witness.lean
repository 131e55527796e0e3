import Verif.Hash.Props

/-!
# Cases of the theorems about `Hash`, and keys that cannot be inserted
-/

namespace Verif.Hash

/-! ## Executions -/

/-- What happens next: a call, a step of a thread, a return. -/
inductive Act
  | call (t : Nat) (op : Op)
  | run (t : Nat)
  | ret (t : Nat)

instance (c : Cfg) (key : Nat) : Decidable (KeyOk c key) := by unfold KeyOk; infer_instance

/-- The conditions on calls, to be computed. -/
def legalB (c : Cfg) (known : List (Nat × Nat)) : Op → Bool
  | .insert key val => decide (KeyOk c key) && decide (val < 2 ^ c.valBits)
  | .find key => decide (KeyOk c key)
  | .set loc key val => decide ((key, loc) ∈ known) && decide (val < 2 ^ c.valBits)
  | .set2 loc val => known.any (fun x => x.2 == loc) && decide (val < 2 ^ c.valBits)

theorem legalB_ok {c : Cfg} {known : List (Nat × Nat)} {op : Op} (h : legalB c known op = true) :
    Legal c known op := by
  cases op with
  | insert key val => simpa [legalB, Legal] using h
  | find key => simpa [legalB, Legal] using h
  | set loc key val => simpa [legalB, Legal] using h
  | set2 loc val =>
    simp only [legalB, Bool.and_eq_true, List.any_eq_true, beq_iff_eq, decide_eq_true_eq] at h
    obtain ⟨⟨⟨k, l⟩, h1, rfl⟩, h2⟩ := h
    exact ⟨⟨k, h1⟩, h2⟩

def go (c : Cfg) (s : Sys) : List Act → Option (List Ev × Sys)
  | [] => some ([], s)
  | .call t op :: l =>
    if s.pc t = .idle ∧ legalB c s.known op = true then
      (go c ⟨s.mem, setPc s.pc t (start c op), s.known⟩ l).map (fun x => (.call t op :: x.1, x.2))
    else none
  | .run t :: l =>
    match run c s.mem (s.pc t) with
    | none => none
    | some (mem, p) => go c ⟨mem, setPc s.pc t p, s.known⟩ l
  | .ret t :: l =>
    match s.pc t with
    | .done op r => (go c ⟨s.mem, setPc s.pc t .idle, learnt op r ++ s.known⟩ l).map (fun x => (.ret t op r :: x.1, x.2))
    | _ => none

theorem exec_trans {St : Type} {step : St → Option Ev → St → Prop} {s s' s'' : St} {es es' : List Ev}
    (h : Exec step s es s') (h' : Exec step s' es' s'') : Exec step s (es ++ es') s'' := by
  induction h' with
  | nil => simpa using h
  | tau a b l _ h2 ih => exact .tau _ _ _ _ ih h2
  | ev a b l e _ h2 ih =>
    have := Exec.ev _ _ _ _ e ih h2
    simpa [List.append_assoc] using this

theorem go_exec (c : Cfg) (l : List Act) (s s' : Sys) (es : List Ev) (h : go c s l = some (es, s')) :
    Exec (Step c) s es s' := by
  induction l generalizing s es with
  | nil =>
    obtain ⟨rfl, rfl⟩ := Prod.mk.inj (Option.some.inj h)
    exact .nil _
  | cons x l ih =>
    cases x with
    | call t op =>
      rw [go] at h
      split at h
      · next hl =>
        obtain ⟨y, hy, e⟩ := Option.map_eq_some_iff.mp h
        obtain ⟨rfl, rfl⟩ := Prod.mk.inj e
        exact exec_trans (.ev _ _ _ [] _ (.nil s) (.call s t op hl.1 (legalB_ok hl.2))) (ih _ _ hy)
      · exact absurd h (by simp)
    | run t =>
      rw [go] at h
      split at h
      · exact absurd h (by simp)
      · next mem p hr => exact exec_trans (.tau _ _ _ [] (.nil s) (.run s t mem p hr)) (ih _ _ h)
    | ret t =>
      rw [go] at h
      split at h
      · next op r hd =>
        obtain ⟨y, hy, e⟩ := Option.map_eq_some_iff.mp h
        obtain ⟨rfl, rfl⟩ := Prod.mk.inj e
        exact exec_trans (.ev _ _ _ [] _ (.nil s) (.ret s t op r hd)) (ih _ _ hy)
      · exact absurd h (by simp)

/-- The thread of an action. -/
def Act.thread : Act → Nat
  | .call t _ => t
  | .run t => t
  | .ret t => t

theorem go_other (c : Cfg) (l : List Act) (s s' : Sys) (es : List Ev) (h : go c s l = some (es, s')) (u : Nat)
    (hu : ∀ x ∈ l, x.thread ≠ u) : s'.pc u = s.pc u := by
  induction l generalizing s es with
  | nil =>
    obtain ⟨rfl, rfl⟩ := Prod.mk.inj (Option.some.inj h)
    rfl
  | cons x l ih =>
    have hx : u ≠ x.thread := fun e => hu x (by simp) e.symm
    have hl : ∀ y ∈ l, y.thread ≠ u := fun y hy => hu y (List.mem_cons_of_mem _ hy)
    cases x with
    | call t op =>
      rw [go] at h
      split at h
      · obtain ⟨y, hy, e⟩ := Option.map_eq_some_iff.mp h
        obtain ⟨rfl, rfl⟩ := Prod.mk.inj e
        rw [ih _ _ hy hl]; simp only [setPc]; exact if_neg hx
      · exact absurd h (by simp)
    | run t =>
      rw [go] at h
      split at h
      · exact absurd h (by simp)
      · rw [ih _ _ h hl]; simp only [setPc]; exact if_neg hx
    | ret t =>
      rw [go] at h
      split at h
      · obtain ⟨y, hy, e⟩ := Option.map_eq_some_iff.mp h
        obtain ⟨rfl, rfl⟩ := Prod.mk.inj e
        rw [ih _ _ hy hl]; simp only [setPc]; exact if_neg hx
      · exact absurd h (by simp)

/-! ## Cases

A hash with 2048 buckets, 30 bits for keys and 40 bits for values. -/

def exC : Cfg := ⟨11, 30, 40⟩

/-- Threads 0 and 1 insert the key 70, thread 2 inserts a key whose first position is the same, thread 3 looks for
70.  All have seen the empty position before the first writes. -/
def exActs : List Act :=
  [.call 0 (.insert 70 5), .call 1 (.insert 70 6), .call 2 (.insert 2118 7), .call 3 (.find 70),
   .run 0, .run 1, .run 2, .run 1, .run 3, .run 0, .run 2, .run 2, .run 2,
   .ret 0, .ret 1, .ret 2, .ret 3]

def exEvents : List Ev :=
  [.call 0 (.insert 70 5), .call 1 (.insert 70 6), .call 2 (.insert 2118 7), .call 3 (.find 70),
   .ret 0 (.insert 70 5) (.ins false (some 6) 70), .ret 1 (.insert 70 6) (.ins true none 70),
   .ret 2 (.insert 2118 7) (.ins true none 390), .ret 3 (.find 70) (.found (some (6, 70)))]

theorem ex_go : (go exC new exActs).map Prod.fst = some exEvents := by decide +kernel

theorem ex_exec : ∃ s, Exec (Step exC) new exEvents s := by
  obtain ⟨x, h1, h2⟩ := Option.map_eq_some_iff.mp ex_go
  exact ⟨x.2, h2 ▸ go_exec exC exActs new x.2 x.1 h1⟩

/-- The execution ends with all threads idle, and it has no `SetValue`: `hash_kernel` applies to it. -/
theorem ex_idle : ∃ s, Exec (Step exC) new exEvents s ∧ (∀ t, s.pc t = .idle) ∧
    (∀ e ∈ exEvents, e.quiet = true) ∧ s.mem 70 = mkWord exC 70 6 ∧ used exC s.mem = 2 := by
  have h : (go exC new exActs).map (fun x => (x.1, [0, 1, 2, 3].map x.2.pc, x.2.mem 70, used exC x.2.mem)) =
      some (exEvents, [.idle, .idle, .idle, .idle], mkWord exC 70 6, 2) := by decide +kernel
  obtain ⟨⟨es, s⟩, h1, h2⟩ := Option.map_eq_some_iff.mp h
  simp only [List.map_cons, List.map_nil, Prod.mk.injEq, List.cons.injEq, and_true] at h2
  obtain ⟨rfl, ⟨p0, p1, p2, p3⟩, h5, h6⟩ := h2
  refine ⟨s, go_exec exC exActs new s _ h1, ?_, by decide, h5, h6⟩
  intro t
  by_cases ht : t < 4
  · match t, ht with
    | 0, _ => exact p0
    | 1, _ => exact p1
    | 2, _ => exact p2
    | 3, _ => exact p3
  · refine go_other exC exActs new s _ h1 t ?_
    intro x hx
    have : x.thread < 4 := (by decide : ∀ y ∈ exActs.map Act.thread, y < 4) _ (List.mem_map_of_mem hx)
    omega

theorem exC_ok : exC.Ok := (construct_ok 2048 30 (some 40) exC (by decide) (by decide)).1

/-- All three theorems hold of this execution: afterwards 70 has the value of the thread that won. -/
example : ∃ s m, Exec (Step exC) new exEvents s ∧ Content exC s.mem m ∧ m 70 = some (6, 70) ∧
    m 2118 = some (7, 390) := by
  obtain ⟨s, h1, h2, h3, -⟩ := ex_idle
  obtain ⟨m0, m, -, h4, -, -, -, h5, -⟩ := hash_kernel exC exC_ok [] exEvents new s (.nil _) (fun _ => rfl) h1 h2 h3
  exact ⟨s, m, h1, h4, (h5 1 70 6 true none 70 (by decide)).1, (h5 2 2118 7 true none 390 (by decide)).1⟩

/-- An operation that is not finished: `hash_finishes` applies. -/
example : ∃ s s', Exec (Step exC) new [.call 0 (.insert 70 5)] s ∧ s.pc 0 = start exC (.insert 70 5) ∧
    Busy exC 0 s 1 s' ∧ ∀ r, s'.pc 0 ≠ .done (.insert 70 5) r := by
  refine ⟨⟨new.mem, setPc new.pc 0 (start exC (.insert 70 5)), []⟩, _,
    .ev _ _ _ [] _ (.nil _) (.call new 0 _ rfl (legalB_ok (by decide))), rfl, .mine _ _ 0 _ _ (.nil _) rfl, ?_⟩
  intro r h
  simp only [setPc, if_true] at h
  rw [show afterRead exC 70 5 (first exC 70) (new.mem (first exC 70)) = .insCas 70 5 70 by decide +kernel] at h
  exact absurd h (by simp)

/-! ## Kernels -/

def goK {P : Type} (run : (Nat → Nat) → P → Option ((Nat → Nat) × P)) (s : KSt P) : List Nat → Option (KSt P)
  | [] => some s
  | t :: l =>
    match run s.mem (s.pc t) with
    | none => none
    | some (mem, p) => goK run ⟨mem, fun u => if u = t then p else s.pc u⟩ l

theorem sched_trans {P : Type} {run : (Nat → Nat) → P → Option ((Nat → Nat) × P)} {s s' s'' : KSt P} {l l' : List Nat}
    (h : Sched run s l s') (h' : Sched run s' l' s'') : Sched run s (l ++ l') s'' := by
  induction h' with
  | nil => simpa using h
  | step a l t mem p _ h2 ih =>
    have := Sched.step _ _ _ _ _ _ ih h2
    simpa [List.append_assoc] using this

theorem goK_sched {P : Type} (run : (Nat → Nat) → P → Option ((Nat → Nat) × P)) (l : List Nat) (s s' : KSt P)
    (h : goK run s l = some s') : Sched run s l s' := by
  induction l generalizing s with
  | nil => obtain rfl := Option.some.inj h; exact .nil _
  | cons t l ih =>
    rw [goK] at h
    split at h
    · exact absurd h (by simp)
    · next mem p hr => exact sched_trans (.step s s [] t mem p (.nil s) hr) (ih _ h)

/-- The two keys are deleted in the order in which the second must pass the emptied position of the first. -/
example : ∃ s s', Exec (Step exC) new exEvents s ∧ used exC s.mem = 2 ∧
    Sched (delRun exC) ⟨s.mem, delInit exC [70, 2118]⟩ [0, 0, 1, 1, 1] s' ∧ s'.pc 0 = .done ∧ s'.pc 1 = .done ∧
    used exC s'.mem = 0 := by
  have h : ((go exC new exActs).bind (fun x => (goK (delRun exC) ⟨x.2.mem, delInit exC [70, 2118]⟩ [0, 0, 1, 1, 1]).map
      (fun y => (x.1, used exC x.2.mem, y.pc 0, y.pc 1, used exC y.mem)))) =
      some (exEvents, 2, .done, .done, 0) := by decide +kernel
  obtain ⟨⟨es, s⟩, h1, h2⟩ := Option.bind_eq_some_iff.mp h
  obtain ⟨s', h3, h4⟩ := Option.map_eq_some_iff.mp h2
  simp only [Prod.mk.injEq] at h4
  obtain ⟨rfl, h5, h6, h7, h8⟩ := h4
  exact ⟨s, s', go_exec exC exActs new s _ h1, h5, goK_sched _ _ _ _ h3, h6, h7, h8⟩

/-- From 128 to 256 buckets with 32 bits for keys: the keys 3 and 131 collide in the old hash only. -/
example : ∃ s s', Exec (Step ⟨7, 32, 32⟩) new
      [.call 0 (.insert 3 5), .ret 0 (.insert 3 5) (.ins true none 3),
       .call 0 (.insert 131 6), .ret 0 (.insert 131 6) (.ins true none 4)] s ∧
    Sched (copyRun ⟨8, 32, 32⟩) ⟨fun _ => empty, copyInit ⟨8, 32, 32⟩ 128 s.mem⟩ [4, 3] s' ∧
    s'.pc 3 = .done ∧ s'.pc 4 = .done ∧ s'.mem 3 = mkWord ⟨8, 32, 32⟩ 3 5 ∧ s'.mem 131 = mkWord ⟨8, 32, 32⟩ 131 6 := by
  have h : ((go ⟨7, 32, 32⟩ new [.call 0 (.insert 3 5), .run 0, .run 0, .ret 0,
      .call 0 (.insert 131 6), .run 0, .run 0, .run 0, .ret 0]).bind (fun x =>
      (goK (copyRun ⟨8, 32, 32⟩) ⟨fun _ => empty, copyInit ⟨8, 32, 32⟩ 128 x.2.mem⟩ [4, 3]).map
      (fun y => (x.1, y.pc 3, y.pc 4, y.mem 3, y.mem 131)))) =
      some ([.call 0 (.insert 3 5), .ret 0 (.insert 3 5) (.ins true none 3),
       .call 0 (.insert 131 6), .ret 0 (.insert 131 6) (.ins true none 4)],
       .done, .done, mkWord ⟨8, 32, 32⟩ 3 5, mkWord ⟨8, 32, 32⟩ 131 6) := by decide +kernel
  obtain ⟨⟨es, s⟩, h1, h2⟩ := Option.bind_eq_some_iff.mp h
  obtain ⟨s', h3, h4⟩ := Option.map_eq_some_iff.mp h2
  simp only [Prod.mk.injEq] at h4
  obtain ⟨rfl, h5, h6, h7, h8⟩ := h4
  exact ⟨s, s', go_exec _ _ new s _ h1, goK_sched _ _ _ _ h3, h5, h6, h7, h8⟩

/-- The insertions of `CopyDataFrom` into a hash with other numbers of bits. -/
example : ∃ s s' es, Exec (Step exC) new exEvents s ∧ copyOp exC s.mem 70 = some (.insert 70 6) ∧
    copyOp exC s.mem 390 = some (.insert 2118 7) ∧ Exec (Step ⟨7, 32, 32⟩) new es s' ∧
    es = [.call 390 (.insert 2118 7), .call 70 (.insert 70 6),
      .ret 70 (.insert 70 6) (.ins true none 70), .ret 390 (.insert 2118 7) (.ins true none 45)] := by
  have h : ((go exC new exActs).bind (fun x => (go ⟨7, 32, 32⟩ new
      [.call 390 (.insert 2118 7), .run 390, .call 70 (.insert 70 6), .run 70, .run 70, .run 390, .run 390, .run 390, .ret 70, .ret 390]).map
      (fun y => (x.1, copyOp exC x.2.mem 70, copyOp exC x.2.mem 390, y.1)))) =
      some (exEvents, some (.insert 70 6), some (.insert 2118 7), [.call 390 (.insert 2118 7), .call 70 (.insert 70 6),
      .ret 70 (.insert 70 6) (.ins true none 70), .ret 390 (.insert 2118 7) (.ins true none 45)]) := by decide +kernel
  obtain ⟨⟨es, s⟩, h1, h2⟩ := Option.bind_eq_some_iff.mp h
  obtain ⟨⟨es', s'⟩, h3, h4⟩ := Option.map_eq_some_iff.mp h2
  simp only [Prod.mk.injEq] at h4
  obtain ⟨rfl, h5, h6, h7⟩ := h4
  exact ⟨s, s', es', go_exec exC exActs new s _ h1, h5, h6, go_exec _ _ new s' _ h3, h7⟩

/-! ## Keys that cannot be inserted

hash.h 78-80: "You can store any (key,value) pair allowed by the number of key and value bits, except the pair
where all the bits of both key and value are set"; hash.h 115-117: "keys used must be less than
(1<<num_key_bits)-1".  `Insert` compares the key before it tests whether the bucket is empty. -/

/-- Inserting a key whose kept bits are all set into an empty hash returns false at once, with an old value that
nobody inserted. -/
theorem insert_all_ones (c : Cfg) (hc : c.Ok) (key val : Nat) (hk : keptKey c key = 2 ^ c.kept - 1) :
    run c new.mem (start c (.insert key val)) =
      some (new.mem, .done (.insert key val) (.ins false (some (2 ^ c.valBits - 1)) (first c key))) := by
  have h1 : wordKey c empty = keptKey c key := by rw [wordKey_empty c hc, hk]
  have h2 : wordVal c empty = 2 ^ c.valBits - 1 := by
    rw [wordVal_eq, empty]
    have h3 : 2 ^ 64 = 2 ^ c.kept * 2 ^ c.valBits := by rw [← pow_add, kept_add c hc]
    have h4 := Nat.two_pow_pos c.kept
    have h5 := Nat.two_pow_pos c.valBits
    rw [h3, Nat.mul_comm]
    refine Nat.div_eq_of_lt_le ?_ ?_
    · rw [Nat.sub_mul, Nat.one_mul]; omega
    · rw [Nat.sub_add_cancel h5]
      have := Nat.mul_pos h5 h4
      omega
  simp only [start, run, new, afterRead, h1, if_true, h2]

/-- The key `2^30 - 2` with the value 5 is allowed by both rules, but cannot be inserted. -/
theorem hash_insert_neg : construct 2048 30 (some 40) = some exC ∧ 2 ^ 30 - 2 < 2 ^ 30 - 1 ∧
    ¬ (2 ^ 30 - 2 = 2 ^ 30 - 1 ∧ 5 = 2 ^ 40 - 1) ∧
    ∃ b, run exC new.mem (start exC (.insert (2 ^ 30 - 2) 5)) =
      some (new.mem, .done (.insert (2 ^ 30 - 2) 5) (.ins false (some (2 ^ 40 - 1)) b)) :=
  ⟨by decide, by decide, by decide, _, insert_all_ones exC exC_ok _ _ (by decide)⟩

end Verif.Hash
