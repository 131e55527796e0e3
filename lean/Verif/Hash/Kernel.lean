import Verif.Hash.Linear

/-!
# What a kernel of insertions and look-ups does
-/

namespace Verif.Hash

/-- The event is the return of a successful insertion of a key. -/
def isWin (key : Nat) : Ev → Bool
  | .ret _ (.insert k _) (.ins true _ _) => k == key
  | _ => false

/-- The operation is no `SetValue`. -/
def Op.quiet : Op → Bool
  | .insert _ _ => true
  | .find _ => true
  | _ => false

/-- The event is no call of `SetValue`. -/
def Ev.quiet : Ev → Bool
  | .call _ op => op.quiet
  | .ret _ _ _ => true

/-- What a result of an operation says about the map at a later time. -/
def Agrees (m0 m : Map) : Op → Res → Prop
  | .insert k v, .ins true none b => m0 k = none ∧ m k = some (v, b)
  | .insert k _, .ins false (some old) b => m k = some (old, b)
  | .find k, .found (some x) => m k = some x
  | .find k, .found none => m0 k = none
  | _, _ => False

/-- The thread has inserted a key, but has not yet returned. -/
def Won (key : Nat) : APc → Prop
  | .done (.insert k _) (.ins true _ _) => k = key
  | _ => False

structure Inv (m0 : Map) (es : List Ev) (a : ASys) : Prop where
  pend : ∀ t op, a.pc t = .pending op → op.quiet = true
  keep : ∀ k x, m0 k = some x → a.m k = some x
  rets : ∀ t op r, .ret t op r ∈ es → Agrees m0 a.m op r
  dones : ∀ t op r, a.pc t = .done op r → Agrees m0 a.m op r
  origin : ∀ k v b, m0 k = none → a.m k = some (v, b) →
    (∃ t, .ret t (.insert k v) (.ins true none b) ∈ es) ∨ ∃ t, a.pc t = .done (.insert k v) (.ins true none b)
  count : ∀ k, (es.filter (isWin k)).length ≤ 1
  count1 : ∀ k t, Won k (a.pc t) → es.filter (isWin k) = []
  count2 : ∀ k t u, Won k (a.pc t) → Won k (a.pc u) → t = u
  called : ∀ t k v, .call t (.insert k v) ∈ es → a.pc t = .pending (.insert k v) ∨ a.m k ≠ none

theorem Agrees.grow {m0 m m' : Map} (h : ∀ k x, m k = some x → m' k = some x) {op : Op} {r : Res}
    (ha : Agrees m0 m op r) : Agrees m0 m' op r := by
  unfold Agrees at ha ⊢
  split at ha
  · exact ⟨ha.1, h _ _ ha.2⟩
  · exact h _ _ ha
  · exact h _ _ ha
  · exact ha
  · exact ha.elim

theorem won_some {m0 : Map} {es : List Ev} {a : ASys} (h : Inv m0 es a) (k t : Nat) (hw : Won k (a.pc t)) :
    m0 k = none ∧ ∃ x, a.m k = some x := by
  cases hp : a.pc t with
  | idle => rw [hp] at hw; exact hw.elim
  | pending op => rw [hp] at hw; exact hw.elim
  | done op r =>
    have hd := h.dones t op r hp
    rw [hp] at hw
    unfold Won at hw
    split at hw
    · next k' v' o b heq =>
      obtain ⟨rfl, rfl⟩ := APc.done.inj heq
      subst hw
      cases o with
      | none => exact ⟨hd.1, _, hd.2⟩
      | some o => exact hd.elim
    · exact hw.elim

theorem win_some {m0 : Map} {es : List Ev} {a : ASys} (h : Inv m0 es a) (k : Nat)
    (hw : es.filter (isWin k) ≠ []) : ∃ x, a.m k = some x := by
  obtain ⟨e, he⟩ := List.exists_mem_of_ne_nil _ hw
  obtain ⟨h1, h2⟩ := List.mem_filter.mp he
  unfold isWin at h2
  split at h2
  · next t k' v' o b =>
    have hd := h.rets _ _ _ h1
    rw [beq_iff_eq.mp h2] at hd
    cases o with
    | none => exact ⟨_, hd.2⟩
    | some o => exact hd.elim
  · exact absurd h2 (by simp)

theorem inv_call {m0 : Map} {es : List Ev} {a : ASys} (h : Inv m0 es a) (t : Nat) (op : Op) (hq : op.quiet = true)
    (hidle : a.pc t = .idle) : Inv m0 (es ++ [.call t op]) ⟨a.m, setAPc a.pc t (.pending op)⟩ := by
  have hw : ∀ k, (es ++ [Ev.call t op]).filter (isWin k) = es.filter (isWin k) := by
    intro k; rw [List.filter_append]; simp [isWin]
  have hne : ∀ u, ∀ p, p ≠ APc.pending op → setAPc a.pc t (.pending op) u = p → a.pc u = p := by
    intro u p hp hu
    simp only [setAPc] at hu
    split at hu
    · exact absurd hu.symm hp
    · exact hu
  have hwon : ∀ k u, Won k (setAPc a.pc t (.pending op) u) → Won k (a.pc u) := by
    intro k u
    simp only [setAPc]
    split
    · exact fun h => h.elim
    · exact id
  refine ⟨?_, h.keep, ?_, ?_, ?_, ?_, ?_, ?_, ?_⟩
  · intro u op' hu
    simp only [setAPc] at hu
    split at hu
    · obtain rfl := APc.pending.inj hu; exact hq
    · exact h.pend u op' hu
  · intro u op' r hm
    rcases List.mem_append.mp hm with hm | hm
    · exact h.rets u op' r hm
    · exact absurd (List.mem_singleton.mp hm) (by simp)
  · exact fun u op' r hu => h.dones u op' r (hne u _ (by simp) hu)
  · intro k v b h0 hk
    rcases h.origin k v b h0 hk with ⟨u, hu⟩ | ⟨u, hu⟩
    · exact .inl ⟨u, List.mem_append_left _ hu⟩
    · refine .inr ⟨u, ?_⟩
      have : u ≠ t := fun e => by rw [e, hidle] at hu; exact absurd hu (by simp)
      simp [setAPc, this, hu]
  · intro k; rw [hw]; exact h.count k
  · intro k u hu; rw [hw]; exact h.count1 k u (hwon k u hu)
  · exact fun k u u' h1 h2 => h.count2 k u u' (hwon k u h1) (hwon k u' h2)
  · intro u k v hm
    rcases List.mem_append.mp hm with hm | hm
    · rcases h.called u k v hm with h1 | h1
      · refine .inl ?_
        have : u ≠ t := fun e => by rw [e, hidle] at h1; exact absurd h1 (by simp)
        simp [setAPc, this, h1]
      · exact .inr h1
    · obtain ⟨rfl, rfl⟩ := Ev.call.inj (List.mem_singleton.mp hm)
      exact .inl (by simp [setAPc])

theorem inv_ret {m0 : Map} {es : List Ev} {a : ASys} (h : Inv m0 es a) (t : Nat) (op : Op) (r : Res)
    (hd : a.pc t = .done op r) : Inv m0 (es ++ [.ret t op r]) ⟨a.m, setAPc a.pc t .idle⟩ := by
  have hne : ∀ u, ∀ p, p ≠ APc.idle → setAPc a.pc t .idle u = p → a.pc u = p ∧ u ≠ t := by
    intro u p hp hu
    simp only [setAPc] at hu
    split at hu
    · exact absurd hu.symm hp
    · next e => exact ⟨hu, e⟩
  have hwon : ∀ k u, Won k (setAPc a.pc t .idle u) → Won k (a.pc u) ∧ u ≠ t := by
    intro k u
    simp only [setAPc]
    split
    · exact fun h => h.elim
    · next e => exact fun h => ⟨h, e⟩
  have hwin : ∀ k, isWin k (.ret t op r) = true → Won k (a.pc t) := by
    intro k hw
    rw [hd]
    unfold isWin at hw
    split at hw
    · next heq =>
      obtain ⟨-, rfl, rfl⟩ := Ev.ret.inj heq
      exact beq_iff_eq.mp hw
    · exact absurd hw (by simp)
  refine ⟨fun u op' hu => h.pend u op' (hne u _ (by simp) hu).1, h.keep, ?_, ?_, ?_, ?_, ?_, ?_, ?_⟩
  · intro u op' r' hm
    rcases List.mem_append.mp hm with hm | hm
    · exact h.rets u op' r' hm
    · obtain ⟨rfl, rfl, rfl⟩ := Ev.ret.inj (List.mem_singleton.mp hm)
      exact h.dones _ _ _ hd
  · exact fun u op' r hu => h.dones u op' r (hne u _ (by simp) hu).1
  · intro k v b h0 hk
    rcases h.origin k v b h0 hk with ⟨u, hu⟩ | ⟨u, hu⟩
    · exact .inl ⟨u, List.mem_append_left _ hu⟩
    · by_cases e : u = t
      · rw [e, hd] at hu
        obtain ⟨rfl, rfl⟩ := APc.done.inj hu
        exact .inl ⟨t, by simp⟩
      · exact .inr ⟨u, by simp [setAPc, e, hu]⟩
  · intro k
    rw [List.filter_append]
    by_cases hw : isWin k (.ret t op r) = true
    · rw [h.count1 k t (hwin k hw)]; simp [hw]
    · simpa [hw] using h.count k
  · intro k u hu
    obtain ⟨h1, h2⟩ := hwon k u hu
    rw [List.filter_append, h.count1 k u h1]
    by_cases hw : isWin k (.ret t op r) = true
    · exact absurd (h.count2 k u t h1 (hwin k hw)) h2
    · simp [hw]
  · exact fun k u u' h1 h2 => h.count2 k u u' (hwon k u h1).1 (hwon k u' h2).1
  · intro u k v hm
    rcases List.mem_append.mp hm with hm | hm
    · rcases h.called u k v hm with h1 | h1
      · refine .inl ?_
        have : u ≠ t := fun e => by rw [e, hd] at h1; exact absurd h1 (by simp)
        simp [setAPc, this, h1]
      · exact .inr h1
    · exact absurd (List.mem_singleton.mp hm) (by simp)

theorem inv_lin {m0 : Map} {es : List Ev} {a : ASys} (h : Inv m0 es a) (t : Nat) (op : Op) (m : Map) (r : Res)
    (hp : a.pc t = .pending op) (he : Effect a.m op m r) : Inv m0 es ⟨m, setAPc a.pc t (.done op r)⟩ := by
  have hq := h.pend t op hp
  have hgrow : ∀ k x, a.m k = some x → m k = some x := by
    intro k x hk
    cases he with
    | insertNew key val loc h1 h2 =>
      have : k ≠ key := fun e => by rw [e, h1] at hk; exact absurd hk (by simp)
      simp [this, hk]
    | insertOld key val v loc h1 => exact hk
    | find key => exact hk
    | set loc key val v h1 => exact absurd hq (by simp [Op.quiet])
    | set2 loc key val v h1 => exact absurd hq (by simp [Op.quiet])
  have hag : Agrees m0 m op r := by
    cases he with
    | insertNew key val loc h1 h2 =>
      refine ⟨?_, by simp⟩
      cases h0 : m0 key with
      | none => rfl
      | some x => rw [h.keep key x h0] at h1; exact absurd h1 (by simp)
    | insertOld key val v loc h1 => exact h1
    | find key =>
      cases h1 : a.m key with
      | none =>
        change m0 key = none
        cases h0 : m0 key with
        | none => rfl
        | some x => rw [h.keep key x h0] at h1; exact absurd h1 (by simp)
      | some x => exact h1
    | set loc key val v h1 => exact absurd hq (by simp [Op.quiet])
    | set2 loc key val v h1 => exact absurd hq (by simp [Op.quiet])
  have hwon : ∀ k u, Won k (setAPc a.pc t (.done op r) u) → Won k (a.pc u) ∨ u = t ∧ a.m k = none ∧ m k ≠ none := by
    intro k u
    simp only [setAPc]
    split
    · next e =>
      intro hw
      refine .inr ⟨e, ?_⟩
      cases he with
      | insertNew key val loc h1 h2 =>
        have hw' : key = k := hw
        rw [← hw']
        exact ⟨h1, by simp⟩
      | insertOld key val v loc h1 => exact hw.elim
      | find key => exact hw.elim
      | set loc key val v h1 => exact hw.elim
      | set2 loc key val v h1 => exact hw.elim
    · exact .inl
  refine ⟨?_, fun k x hx => hgrow k x (h.keep k x hx), fun u op' r' hm => (h.rets u op' r' hm).grow hgrow,
    ?_, ?_, h.count, ?_, ?_, ?_⟩
  · intro u op' hu
    simp only [setAPc] at hu
    split at hu
    · exact absurd hu (by simp)
    · exact h.pend u op' hu
  · intro u op' r' hu
    simp only [setAPc] at hu
    split at hu
    · obtain ⟨rfl, rfl⟩ := APc.done.inj hu; exact hag
    · exact (h.dones u op' r' hu).grow hgrow
  · intro k v b h0 hk
    have hold : a.m k = some (v, b) →
        (∃ u, .ret u (.insert k v) (.ins true none b) ∈ es) ∨
          ∃ u, setAPc a.pc t (.done op r) u = .done (.insert k v) (.ins true none b) := by
      intro hk
      rcases h.origin k v b h0 hk with ⟨u, hu⟩ | ⟨u, hu⟩
      · exact .inl ⟨u, hu⟩
      · refine .inr ⟨u, ?_⟩
        have : u ≠ t := fun e => by rw [e, hp] at hu; exact absurd hu (by simp)
        simp [setAPc, this, hu]
    cases he with
    | insertNew key val loc h1 h2 =>
      by_cases e : k = key
      · subst e
        simp only [if_true, Option.some.injEq, Prod.mk.injEq] at hk
        obtain ⟨rfl, rfl⟩ := hk
        exact .inr ⟨t, by simp [setAPc]⟩
      · simp only [if_neg e] at hk
        exact hold hk
    | insertOld key val v loc h1 => exact hold hk
    | find key => exact hold hk
    | set loc key val v h1 => exact absurd hq (by simp [Op.quiet])
    | set2 loc key val v h1 => exact absurd hq (by simp [Op.quiet])
  · intro k u hu
    rcases hwon k u hu with h1 | ⟨-, h1, -⟩
    · exact h.count1 k u h1
    · by_contra hne
      obtain ⟨x, hx⟩ := win_some h k hne
      rw [h1] at hx
      exact absurd hx (by simp)
  · intro k u u' hu hu'
    rcases hwon k u hu with h1 | ⟨e1, h1, -⟩
    · rcases hwon k u' hu' with h2 | ⟨e2, h2, -⟩
      · exact h.count2 k u u' h1 h2
      · obtain ⟨x, hx⟩ := (won_some h k u h1).2
        rw [h2] at hx; exact absurd hx (by simp)
    · rcases hwon k u' hu' with h2 | ⟨e2, h2, -⟩
      · obtain ⟨x, hx⟩ := (won_some h k u' h2).2
        rw [h1] at hx; exact absurd hx (by simp)
      · rw [e1, e2]
  · intro u k v hm
    rcases h.called u k v hm with h1 | h1
    · by_cases e : u = t
      · rw [e, hp] at h1
        obtain rfl := APc.pending.inj h1
        refine .inr ?_
        cases he with
        | insertNew key val loc h1 h2 => simp
        | insertOld key val v loc h1 => simp [h1]
      · exact .inl (by simp [setAPc, e, h1])
    · refine .inr fun h2 => ?_
      cases hx : a.m k with
      | none => exact h1 hx
      | some x => exact absurd ((hgrow k x hx).symm.trans h2) (by simp)

theorem exec_inv (m0 : Map) (a : ASys) (es : List Ev) (hq : ∀ e ∈ es, e.quiet = true) (a0 : ASys) (hm : a0.m = m0)
    (hidle : ∀ t, a0.pc t = .idle) (hx : Exec AStep a0 es a) : Inv m0 es a := by
  have nope : ∀ k t, ¬ Won k (a0.pc t) := by intro k t h; rw [hidle] at h; exact h
  induction hx with
  | nil =>
    exact ⟨fun t op h => absurd ((hidle t).symm.trans h) (by simp), fun k x h => hm ▸ h, fun _ _ _ h => absurd h (by simp),
      fun t op r h => absurd ((hidle t).symm.trans h) (by simp),
      fun k v b h0 h => absurd ((congrFun hm k).symm.trans h) (by simp [h0]),
      fun _ => by simp, fun k t h => absurd h (nope k t), fun k t u h => absurd h (nope k t),
      fun _ _ _ h => absurd h (by simp)⟩
  | tau s1 s2 es _ hs ih =>
    cases hs with
    | lin t op m r h1 h2 => exact inv_lin (ih hq) t op m r h1 h2
  | ev s1 s2 es e _ hs ih =>
    have ih' := ih (fun e he => hq e (List.mem_append_left _ he))
    cases hs with
    | call t op h1 => exact inv_call ih' t op (hq (.call t op) (by simp)) h1
    | ret t op r h1 => exact inv_ret ih' t op r h1

/-! ## Calls and returns -/

/-- The event is a call by a thread. -/
def isCall (t : Nat) : Ev → Bool
  | .call u _ => u == t
  | .ret _ _ _ => false

/-- The event is a return of a thread. -/
def isRet (t : Nat) : Ev → Bool
  | .call _ _ => false
  | .ret u _ _ => u == t

/-- How many operations of the thread are open. -/
def APc.busy : APc → Nat
  | .idle => 0
  | _ => 1

/-- The operation of a thread. -/
def APc.op? : APc → Option Op
  | .idle => none
  | .pending op => some op
  | .done op _ => some op

structure Paired (es : List Ev) (a : ASys) : Prop where
  cnt : ∀ t, (es.filter (isCall t)).length = (es.filter (isRet t)).length + (a.pc t).busy
  opened : ∀ t op, (a.pc t).op? = some op → .call t op ∈ es
  ret : ∀ t op r, .ret t op r ∈ es → .call t op ∈ es

theorem exec_paired (a0 a : ASys) (es : List Ev) (hidle : ∀ t, a0.pc t = .idle) (hx : Exec AStep a0 es a) :
    Paired es a := by
  induction hx with
  | nil =>
    exact ⟨fun t => by simp [hidle, APc.busy], fun t op h => by simp [hidle, APc.op?] at h, fun _ _ _ h => by simp at h⟩
  | tau s1 s2 es _ hs ih =>
    cases hs with
    | lin t op m r h1 h2 =>
      refine ⟨fun u => ?_, fun u op' h => ?_, ih.ret⟩
      · rw [ih.cnt u]
        simp only [setAPc]
        split
        · next e => rw [e, h1]; rfl
        · rfl
      · simp only [setAPc] at h
        split at h
        · next e => rw [e]; exact ih.opened t op' (by rw [h1]; exact h)
        · exact ih.opened u op' h
  | ev s1 s2 es e _ hs ih =>
    cases hs with
    | call t op h1 =>
      refine ⟨fun u => ?_, fun u op' h => ?_, fun u op' r h => ?_⟩
      · have := ih.cnt u
        simp only [List.filter_append, List.length_append, setAPc]
        by_cases e : u = t
        · subst e
          rw [this, h1]; simp [isCall, isRet, APc.busy]
        · rw [this, if_neg e]; simp [isCall, isRet, Ne.symm e]
      · simp only [setAPc] at h
        split at h
        · next e =>
          obtain rfl := Option.some.inj h
          rw [e]; simp
        · exact List.mem_append_left _ (ih.opened u op' h)
      · rcases List.mem_append.mp h with h | h
        · exact List.mem_append_left _ (ih.ret u op' r h)
        · exact absurd (List.mem_singleton.mp h) (by simp)
    | ret t op r h1 =>
      refine ⟨fun u => ?_, fun u op' h => ?_, fun u op' r' h => ?_⟩
      · have := ih.cnt u
        simp only [List.filter_append, List.length_append, setAPc]
        by_cases e : u = t
        · subst e
          rw [this, h1]; simp [isCall, isRet, APc.busy]
        · rw [this, if_neg e]; simp [isCall, isRet, Ne.symm e]
      · simp only [setAPc] at h
        split at h
        · exact absurd h (by simp [APc.op?])
        · exact List.mem_append_left _ (ih.opened u op' h)
      · rcases List.mem_append.mp h with h | h
        · exact List.mem_append_left _ (ih.ret u op' r' h)
        · obtain ⟨rfl, rfl, rfl⟩ := Ev.ret.inj (List.mem_singleton.mp h)
          exact List.mem_append_left _ (ih.opened _ _ (by rw [h1]; rfl))

end Verif.Hash
