import Verif.Hash.Phase

/-!
# Properties of `Hash`

The specification is in `Spec.lean`: a map whose operations each take effect at one moment between call and
return.  `Content` says what an array means as a map, without the order in which positions are tried.
-/

namespace Verif.Hash

/-- The array is the map: every pair is at its position, read with the key bits of the word and the position,
and at the other positions there is nothing. -/
def Content (c : Cfg) (mem : Nat → Nat) (m : Map) : Prop :=
  ∀ b < c.N, (mem b = empty ∧ ∀ k v, m k ≠ some (v, b)) ∨
    (mem b ≠ empty ∧ m (unpackKey c (wordKey c (mem b)) b) = some (wordVal c (mem b), b) ∧
      ∀ k v, m k = some (v, b) → k = unpackKey c (wordKey c (mem b)) b)

theorem repr_content {c : Cfg} (hc : c.Ok) {mem : Nat → Nat} {m : Map} (hr : Repr c mem m) :
    Content c mem m ∧ ∀ k v b, m k = some (v, b) → b < c.N := by
  constructor
  · intro b hb
    by_cases he : mem b = empty
    · refine .inl ⟨he, fun k v hk => ?_⟩
      obtain ⟨h1, h2, h3, -⟩ := hr.place k v b hk
      exact mkWord_ne c hc k v h1 h2 (h3.symm.trans he)
    · obtain ⟨k, v, hk⟩ := hr.full b hb he
      obtain ⟨h1, h2, h3, n, -, h4, -⟩ := hr.place k v b hk
      have e : unpackKey c (wordKey c (mem b)) b = k := by
        rw [h3, wordKey_mkWord c hc k v h1.1 h2, h4, unpack_key c hc k n h1.1]
      rw [e]
      refine .inr ⟨he, by rw [h3, wordVal_mkWord c hc k v h1.1 h2]; exact hk, fun k' v' hk' => hr.same hc hk' hk⟩
  · intro k v b hk
    obtain ⟨-, -, -, n, -, h4, -⟩ := hr.place k v b hk
    rw [h4]; exact probe_lt c k n

/-! ## C61: operations from any number of threads behave as operations on a map -/

/-- Whatever the threads do and in whatever order they run, the calls and returns are those of an execution of
the specification, and at every moment the array is the map of the specification. -/
theorem hash_linearizable (buckets keyBits : Nat) (valBits : Option Nat) (c : Cfg) (hk : keyBits < 64)
    (h : construct buckets keyBits valBits = some c) (es : List Ev) (s : Sys) (hx : Exec (Step c) new es s) :
    ∃ a, Exec AStep aNew es a ∧ Content c s.mem a.m ∧ (∀ k v b, a.m k = some (v, b) → b < buckets) := by
  obtain ⟨hc, hN⟩ := construct_ok buckets keyBits valBits c hk h
  obtain ⟨a, h1, h2⟩ := exec_sim hc _ _ _ _ (new_sim c) hx
  obtain ⟨h3, h4⟩ := repr_content hc h2.repr
  exact ⟨a, h1, h3, hN ▸ h4⟩

/-- A hash with 30 bits for keys and 40 for values: six bits of the key are in the position. -/
example : construct 2048 30 (some 40) = some ⟨11, 30, 40⟩ := by decide
example : construct 128 32 none = some ⟨7, 32, 32⟩ := by decide
example : construct 100 32 none = none := by decide
example : construct 1024 30 (some 40) = none := by decide

/-! ## C62: a kernel of insertions and look-ups -/

/-- After a kernel without `SetValue`, started on a hash built by any earlier execution: keys that were there are
still there with their values; every key that a thread wanted to insert is there; a new key is there exactly if
one thread was told that it inserted it, and with the value and the location of that thread; the others were told
its value and its location; look-ups that found a key were told the same. -/
theorem hash_kernel (c : Cfg) (hc : c.Ok) (es0 es : List Ev) (s0 s : Sys) (h0 : Exec (Step c) new es0 s0)
    (hidle0 : ∀ t, s0.pc t = .idle) (hx : Exec (Step c) s0 es s) (hidle : ∀ t, s.pc t = .idle)
    (hq : ∀ e ∈ es, e.quiet = true) :
    ∃ m0 m : Map, Content c s0.mem m0 ∧ Content c s.mem m ∧
      (∀ k x, m0 k = some x → m k = some x) ∧
      (∀ t k v, .call t (.insert k v) ∈ es → m k ≠ none) ∧
      (∀ k v b, m0 k = none →
        (m k = some (v, b) ↔ ∃ t, .ret t (.insert k v) (.ins true none b) ∈ es)) ∧
      (∀ t k v ok old b, .ret t (.insert k v) (.ins ok old b) ∈ es →
        m k = some (if ok then v else old.getD 0, b) ∧ old.isSome = !ok) ∧
      (∀ t k x, .ret t (.find k) (.found x) ∈ es → (x = none ∧ m0 k = none) ∨ m k = x) ∧
      (∀ k, (es.filter (isWin k)).length ≤ 1) := by
  obtain ⟨a0, -, hs0⟩ := exec_sim hc _ _ _ _ (new_sim c) h0
  obtain ⟨a, ha, hs⟩ := exec_sim hc _ _ _ _ hs0 hx
  have ai : ∀ (s : Sys) (a : ASys), Sim c s a → (∀ t, s.pc t = .idle) → ∀ t, a.pc t = .idle := by
    intro s a hs hi t
    have := hs.pcs t
    rw [hi t] at this
    cases hap : a.pc t with
    | idle => rfl
    | pending _ => rw [hap] at this; exact this.elim
    | done _ _ => rw [hap] at this; exact this.elim
  have hI := exec_inv a0.m a es hq a0 rfl (ai s0 a0 hs0 hidle0) ha
  refine ⟨a0.m, a.m, (repr_content hc hs0.repr).1, (repr_content hc hs.repr).1, hI.keep, ?_, ?_, ?_, ?_, hI.count⟩
  · intro t k v h
    rcases hI.called t k v h with h1 | h1
    · rw [ai s a hs hidle t] at h1; exact absurd h1 (by simp)
    · exact h1
  · intro k v b hk
    constructor
    · intro h
      rcases hI.origin k v b hk h with h1 | ⟨t, h1⟩
      · exact h1
      · rw [ai s a hs hidle t] at h1; exact absurd h1 (by simp)
    · rintro ⟨t, ht⟩
      exact (hI.rets _ _ _ ht).2
  · intro t k v ok old b h
    have := hI.rets _ _ _ h
    cases ok <;> cases old <;> simp only [Agrees] at this
    · exact ⟨this, rfl⟩
    · exact ⟨this.2, rfl⟩
  · intro t k x h
    have := hI.rets _ _ _ h
    cases x with
    | none => exact .inl ⟨rfl, this⟩
    | some x => exact .inr this

/-! ## C63: operations finish -/

/-- If one position with the implicit bits of the key is free, a thread finishes its operation after at most two
steps for each position in use and two more, whatever the others do; and as long as it has not finished, it can
make a step (no check fails). -/
theorem hash_finishes (c : Cfg) (hc : c.Ok) (es : List Ev) (s s' : Sys) (hx : Exec (Step c) new es s) (t n : Nat)
    (op : Op) (hs : s.pc t = start c op) (hb : Busy c t s n s') (hopen : ∀ r, s'.pc t ≠ .done op r) :
    run c s'.mem (s'.pc t) ≠ none ∧
    ((∀ key, op.key? = some key → ∃ b < c.N, b % 2 ^ c.impl = key % 2 ^ c.impl ∧ s'.mem b = empty) →
      n ≤ 2 * used c s'.mem + 1) := by
  obtain ⟨a, -, hsim⟩ := exec_sim hc _ _ _ _ (new_sim c) hx
  obtain ⟨a', hsim', hrank⟩ := busy_rank hc t s s' n op a hsim hs hb
  have hidle : s'.pc t ≠ .idle := fun e => by rw [e] at hrank; exact hrank
  have hdone : ∀ op' r, s'.pc t ≠ .done op' r := by
    intro op' r e
    rw [e] at hrank
    obtain rfl : op = op' := hrank
    exact hopen r e
  refine ⟨run_total hc s' a' hsim' t hidle hdone, fun hfree => ?_⟩
  generalize s'.pc t = p at hrank hdone
  cases p with
  | idle => exact hrank.elim
  | done op' r => exact absurd rfl (hdone op' r)
  | insRead key val cur =>
    obtain ⟨rfl, j, h1, -, h2⟩ := hrank
    have := tried_bound hc s'.mem a'.m hsim'.repr key j h2 (hfree key rfl)
    omega
  | insCas key val cur =>
    obtain ⟨rfl, j, h1, -, h2⟩ := hrank
    have := tried_bound hc s'.mem a'.m hsim'.repr key j h2 (hfree key rfl)
    omega
  | findRead key cur =>
    obtain ⟨rfl, j, h1, -, h2⟩ := hrank
    have := tried_bound hc s'.mem a'.m hsim'.repr key j h2 (hfree key rfl)
    omega
  | setWrite loc key val => obtain ⟨-, h1⟩ := hrank; omega
  | set2Read loc val => obtain ⟨-, h1⟩ := hrank; omega
  | set2Write loc val w => obtain ⟨-, h1⟩ := hrank; omega

/-! ## C64: deleting -/

/-- A kernel of `Delete`, one thread for each of a list of different keys that are in the hash: every thread can
make a step until it has finished, it makes at most as many steps as positions were in use and one more, and at the
end exactly the positions of those keys are empty. -/
theorem hash_delete (c : Cfg) (hc : c.Ok) (es : List Ev) (s : Sys) (hx : Exec (Step c) new es s) :
    ∃ m : Map, Content c s.mem m ∧ ∀ (keys : List Nat), keys.Nodup → (∀ k ∈ keys, m k ≠ none) →
      ∀ (l : List Nat) (s' : KSt DPc), Sched (delRun c) ⟨s.mem, delInit c keys⟩ l s' →
        (∀ t, s'.pc t ≠ .done → delRun c s'.mem (s'.pc t) ≠ none) ∧
        (∀ t, l.count t ≤ used c s.mem + 1) ∧
        ((∀ t, s'.pc t = .done) → ∀ b < c.N,
          ((∃ k ∈ keys, ∃ v, m k = some (v, b)) → s'.mem b = empty) ∧
          ((¬ ∃ k ∈ keys, ∃ v, m k = some (v, b)) → s'.mem b = s.mem b)) := by
  obtain ⟨a, -, hsim⟩ := exec_sim hc _ _ _ _ (new_sim c) hx
  refine ⟨a.m, (repr_content hc hsim.repr).1, fun keys hnd hin l s' hl => ?_⟩
  have hI := del_inv hc s.mem a.m hsim.repr keys hnd hin l s' hl
  refine ⟨?_, ?_, ?_⟩
  · intro t h
    generalize s'.pc t = p at h
    cases p with
    | read key cur => simp [delRun]
    | write key cur => simp [delRun]
    | done => exact absurd rfl h
  · intro t
    cases hk : keys[t]? with
    | none => rw [(hI.out t hk).2]; omega
    | some k =>
      obtain ⟨v, j, h1, h2, h3, h4⟩ := hI.thr t k hk
      obtain ⟨p1, p2, p3, -⟩ := hsim.repr.place k v _ h1
      have : j + 1 ≤ used c s.mem := by
        refine tried_used hc s.mem k (j + 1) (fun i hi => ?_) (by omega)
        rcases Nat.lt_succ_iff_lt_or_eq.mp hi with h5 | rfl
        · exact h3 i h5
        · rw [p3]; exact mkWord_ne c hc k v p1 p2
      rcases h4 with ⟨i, hi, -, h5⟩ | ⟨-, h5⟩ | ⟨-, h5⟩ <;> omega
  · intro hall b hb
    constructor
    · rintro ⟨k, hk, v, h1⟩
      obtain ⟨t, ht, rfl⟩ := List.mem_iff_getElem.mp hk
      exact hI.gone b ⟨t, _, v, List.getElem?_eq_getElem ht, hall t, h1⟩
    · intro hno
      refine hI.keep b ?_
      rintro ⟨t, k, v, h1, -, h2⟩
      exact hno ⟨k, List.mem_of_getElem? h1, v, h2⟩

/-- After all keys have been deleted the hash is as new: the check of the destructor passes. -/
theorem hash_delete_all (c : Cfg) (hc : c.Ok) (es : List Ev) (s : Sys) (hx : Exec (Step c) new es s) :
    ∃ m : Map, Content c s.mem m ∧ ∀ (keys : List Nat), keys.Nodup → (∀ k, k ∈ keys ↔ m k ≠ none) →
      ∀ (l : List Nat) (s' : KSt DPc), Sched (delRun c) ⟨s.mem, delInit c keys⟩ l s' →
        (∀ t, s'.pc t = .done) → (∀ b < c.N, s'.mem b = empty) ∧ checkEmpty c s'.mem = true := by
  obtain ⟨m, h1, h2⟩ := hash_delete c hc es s hx
  refine ⟨m, h1, fun keys hnd hin l s' hl hall => ?_⟩
  obtain ⟨-, -, h3⟩ := h2 keys hnd (fun k hk => (hin k).mp hk) l s' hl
  have h4 : ∀ b < c.N, s'.mem b = empty := by
    intro b hb
    obtain ⟨g1, g2⟩ := h3 hall b hb
    by_cases e : ∃ k ∈ keys, ∃ v, m k = some (v, b)
    · exact g1 e
    · rw [g2 e]
      rcases h1 b hb with ⟨h5, -⟩ | ⟨-, h5, -⟩
      · exact h5
      · exact absurd ⟨_, (hin _).mpr (by rw [h5]; simp), _, h5⟩ e
  refine ⟨h4, ?_⟩
  simp only [checkEmpty, List.all_eq_true, List.mem_range, beq_iff_eq]
  exact h4

/-! ## C65: resizing -/

/-- `CopyDataFromSimple` to a hash with the same numbers of bits: the threads can make steps until they have
finished, they finish if there is room, and then the new hash is the same map from keys to values. -/
theorem hash_copy_simple (c d : Cfg) (hc : c.Ok) (hd : d.Ok) (hk : d.keyBits = c.keyBits) (hv : d.valBits = c.valBits)
    (h64 : c.keyBits + c.valBits = 64) (es : List Ev) (s : Sys) (hx : Exec (Step c) new es s) :
    ∃ m : Map, Content c s.mem m ∧ ∀ (l : List Nat) (s' : KSt CPc),
      Sched (copyRun d) ⟨fun _ => empty, copyInit d c.N s.mem⟩ l s' →
      (∀ t, s'.pc t ≠ .done → copyRun d s'.mem (s'.pc t) ≠ none) ∧
      (∀ t, s'.pc t ≠ .done → used d s'.mem < d.N → l.count t ≤ used d s'.mem) ∧
      ((∀ t, s'.pc t = .done) → ∃ m', Content d s'.mem m' ∧ ∀ k, (m' k).map Prod.fst = (m k).map Prod.fst) := by
  obtain ⟨a, -, hsim⟩ := exec_sim hc _ _ _ _ (new_sim c) hx
  refine ⟨a.m, (repr_content hc hsim.repr).1, fun l s' hl => ?_⟩
  have hs : SameBits c d := ⟨hk, hv, h64⟩
  obtain ⟨m', hI⟩ := copy_inv hc hd hs s.mem a.m hsim.repr l s' hl
  refine ⟨?_, ?_, ?_⟩
  · intro t h
    generalize s'.pc t = p at h
    cases p with
    | cas w key cur => simp only [copyRun]; split <;> simp
    | done => exact absurd rfl h
  · intro t h hroom
    by_cases hkt : ∃ k v, a.m k = some (v, t)
    · obtain ⟨k, v, hkv⟩ := hkt
      rcases hI.thr k v t hkv with ⟨h1, -⟩ | ⟨-, j, -, h2, h3⟩
      · exact absurd h1 h
      · refine h3.trans (tried_bound hd s'.mem m' hI.repr k j h2 ?_)
        by_contra hno
        refine absurd hroom ?_
        rw [used, List.filter_eq_self.mpr, List.length_range]
        · omega
        · intro b hb
          refine decide_eq_true (fun he => hno ⟨b, List.mem_range.mp hb, ?_, he⟩)
          rw [hs.impl0', Nat.pow_zero, Nat.mod_one, Nat.mod_one]
    · exact absurd (hI.idle t (fun k v h => hkt ⟨k, v, h⟩)) h
  · intro hall
    refine ⟨m', (repr_content hd hI.repr).1, fun k => ?_⟩
    cases hm : a.m k with
    | none =>
      cases hm' : m' k with
      | none => rfl
      | some x =>
        obtain ⟨t, ht⟩ := hI.from_ k x.1 x.2 hm'
        rw [hm] at ht; exact absurd ht (by simp)
    | some x =>
      rcases hI.thr k x.1 x.2 hm with ⟨-, b, h1⟩ | ⟨-, j, h1, -⟩
      · rw [h1]; rfl
      · rw [hall] at h1; exact absurd h1 (by simp)

/-- `CopyDataFrom` to a hash with any numbers of bits in which the keys and the values are allowed: no check
fails, and at the end the new hash is the same map from keys to values.  Every thread with a full bucket calls
`Insert` once. -/
theorem hash_copy (c d : Cfg) (hc : c.Ok) (hd : d.Ok) (es0 : List Ev) (s : Sys) (hx0 : Exec (Step c) new es0 s) :
    ∃ m : Map, Content c s.mem m ∧ ∀ (es : List Ev) (s' : Sys), Exec (Step d) new es s' → (∀ t, s'.pc t = .idle) →
      (∀ t op, .call t op ∈ es ↔ t < c.N ∧ copyOp c s.mem t = some op) →
      (∀ t, (es.filter (isCall t)).length ≤ 1) →
      (∀ t op r, .ret t op r ∈ es → ∃ b, r = .ins true none b) ∧
      ∃ m', Content d s'.mem m' ∧ ∀ k, (m' k).map Prod.fst = (m k).map Prod.fst := by
  obtain ⟨a, -, hsim⟩ := exec_sim hc _ _ _ _ (new_sim c) hx0
  refine ⟨a.m, (repr_content hc hsim.repr).1, fun es s' hx hidle hcalls honce => ?_⟩
  obtain ⟨a', ha', hsim'⟩ := exec_sim hd _ _ _ _ (new_sim d) hx
  -- what the threads insert
  have hop : ∀ t op, t < c.N → copyOp c s.mem t = some op → ∃ k v, op = .insert k v ∧ a.m k = some (v, t) := by
    intro t op ht h
    unfold copyOp at h
    split at h
    · exact absurd h (by simp)
    · next hne =>
      obtain ⟨k, v, hk⟩ := hsim.repr.full t ht hne
      obtain ⟨h1, h2, h3, n, -, h4, -⟩ := hsim.repr.place k v t hk
      have e := unpack_key c hc k n h1.1
      rw [← h4, unpackKey] at e
      rw [h3, wordKey_mkWord c hc k v h1.1 h2, wordVal_mkWord c hc k v h1.1 h2, e] at h
      exact ⟨k, v, (Option.some.inj h).symm, hk⟩
  have hopc : ∀ t op, .call t op ∈ es → ∃ k v, op = .insert k v ∧ a.m k = some (v, t) := fun t op h =>
    hop t op ((hcalls t op).mp h).1 ((hcalls t op).mp h).2
  have hcall : ∀ k v t, a.m k = some (v, t) → .call t (.insert k v) ∈ es := by
    intro k v t hk
    obtain ⟨h1, h2, h3, n, -, h4, -⟩ := hsim.repr.place k v t hk
    have ht : t < c.N := by rw [h4]; exact probe_lt c k n
    have hne : s.mem t ≠ empty := by rw [h3]; exact mkWord_ne c hc k v h1 h2
    have hsome : copyOp c s.mem t ≠ none := by rw [copyOp, if_neg hne]; simp
    obtain ⟨op, h5⟩ := Option.ne_none_iff_exists'.mp hsome
    obtain ⟨k', v', rfl, h6⟩ := hop t op ht h5
    obtain rfl := hsim.repr.same hc h6 hk
    rw [hk] at h6
    obtain ⟨rfl, -⟩ := Prod.mk.inj (Option.some.inj h6)
    exact (hcalls t _).mpr ⟨ht, h5⟩
  have hq : ∀ e ∈ es, e.quiet = true := by
    intro e he
    cases e with
    | ret _ _ _ => rfl
    | call t op =>
      obtain ⟨k, v, rfl, -⟩ := hopc t op he
      rfl
  have hP := exec_paired aNew a' es (fun _ => rfl) ha'
  have hI := exec_inv (fun _ => none) a' es hq aNew rfl (fun _ => rfl) ha'
  have hidle' : ∀ t, a'.pc t = .idle := by
    intro t
    have := hsim'.pcs t
    rw [hidle t] at this
    cases hap : a'.pc t with
    | idle => rfl
    | pending _ => rw [hap] at this; exact this.elim
    | done _ _ => rw [hap] at this; exact this.elim
  have hwin : ∀ k v b, a'.m k = some (v, b) → ∃ t, .ret t (.insert k v) (.ins true none b) ∈ es := by
    intro k v b hk
    rcases hI.origin k v b rfl hk with h1 | ⟨t, h1⟩
    · exact h1
    · rw [hidle' t] at h1; exact absurd h1 (by simp)
  refine ⟨?_, a'.m, (repr_content hd hsim'.repr).1, ?_⟩
  · intro t op r hr
    obtain ⟨k, v, rfl, hk⟩ := hopc t op (hP.ret t op r hr)
    have hag := hI.rets _ _ _ hr
    cases r with
    | found x => exact hag.elim
    | unit => exact hag.elim
    | key k => exact hag.elim
    | ins ok old b =>
      cases ok with
      | true =>
        cases old with
        | none => exact ⟨b, rfl⟩
        | some o => exact hag.elim
      | false =>
        exfalso
        cases old with
        | none => exact hag.elim
        | some o =>
          obtain ⟨u, hu⟩ := hwin k o b hag
          obtain ⟨k', v', e, hk'⟩ := hopc u _ (hP.ret u _ _ hu)
          obtain ⟨rfl, rfl⟩ := Op.insert.inj e
          rw [hk] at hk'
          obtain ⟨rfl, rfl⟩ := Prod.mk.inj (Option.some.inj hk')
          have hle : (es.filter (isRet t)).length ≤ 1 := by
            have := hP.cnt t; have := honce t; omega
          have m1 := List.mem_filter.mpr ⟨hr, (by simp [isRet] : isRet t (.ret t _ _) = true)⟩
          have m2 := List.mem_filter.mpr ⟨hu, (by simp [isRet] : isRet t (.ret t _ _) = true)⟩
          match hfl : es.filter (isRet t), hle, m1, m2 with
          | [], _, m1, _ => exact absurd m1 (by simp)
          | [x], _, m1, m2 =>
            have := (List.mem_singleton.mp m1).trans (List.mem_singleton.mp m2).symm
            exact absurd this (by simp)
          | _ :: _ :: _, hle, _, _ => simp at hle
  · intro k
    cases hm : a.m k with
    | none =>
      cases hm' : a'.m k with
      | none => rfl
      | some x =>
        obtain ⟨t, ht⟩ := hwin k x.1 x.2 hm'
        obtain ⟨k', v', e, hk'⟩ := hopc t _ (hP.ret t _ _ ht)
        obtain ⟨rfl, -⟩ := Op.insert.inj e
        rw [hm] at hk'; exact absurd hk' (by simp)
    | some x =>
      have hc1 := hcall k x.1 x.2 hm
      rcases hI.called _ _ _ hc1 with h1 | h1
      · rw [hidle'] at h1; exact absurd h1 (by simp)
      · obtain ⟨y, hy⟩ := Option.ne_none_iff_exists'.mp h1
        obtain ⟨t, ht⟩ := hwin k y.1 y.2 hy
        obtain ⟨k', v', e, hk'⟩ := hopc t _ (hP.ret t _ _ ht)
        obtain ⟨rfl, rfl⟩ := Op.insert.inj e
        rw [hm] at hk'
        rw [hy]
        simp only [Option.map_some, Option.some.injEq] at hk' ⊢
        rw [hk']

end Verif.Hash
