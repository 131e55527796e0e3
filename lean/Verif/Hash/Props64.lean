import Verif.Hash.Model64
import Verif.Hash.Kernel

/-!
# Properties of `Hash64`
-/

namespace Verif.Hash

/-- The positions that are tried for a key. -/
def path64 (B key : Nat) : Nat → Nat
  | 0 => first64 B key
  | n + 1 => step64 B key (path64 B key n)

/-- Somebody wants to insert the pair, or to set the value at the location of the key. -/
def Called (es : List Ev) (keys : Nat → Nat) (k v : Nat) : Prop :=
  (∃ t, .call t (.insert k v) ∈ es) ∨ ∃ t loc, .call t (.set2 loc v) ∈ es ∧ keys loc = k

/-- The positions before this one are taken by other keys. -/
def Pass (B : Nat) (keys : Nat → Nat) (k cur : Nat) : Prop :=
  ∃ n, cur = path64 B k n ∧ ∀ i < n, keys (path64 B k i) ≠ empty ∧ keys (path64 B k i) ≠ k

/-- What a result means. -/
def Res64 (es : List Ev) (keys : Nat → Nat) : Op → Res → Prop
  | .insert k _, .ins true none b => k ≠ empty ∧ keys b = k
  | .insert k _, .ins false (some o) b => k ≠ empty ∧ keys b = k ∧ (o = empty ∨ Called es keys k o)
  | .find k, .found (some (o, b)) => k ≠ empty ∧ keys b = k ∧ Called es keys k o
  | .find _, .found none => True
  | .set2 loc _, .unit => keys loc ≠ empty
  | _, _ => False

def Ok64 (B : Nat) (es : List Ev) (keys : Nat → Nat) : Pc64 → Prop
  | .idle => True
  | .insKey k v cur => k ≠ empty ∧ Called es keys k v ∧ Pass B keys k cur
  | .insVal k v cur ck => k ≠ empty ∧ Called es keys k v ∧ Pass B keys k cur ∧ (ck ≠ empty → keys cur = ck)
  | .insCas k v cur cv => k ≠ empty ∧ Called es keys k v ∧ Pass B keys k cur ∧
      (cv = empty ∨ keys cur ≠ empty ∧ Called es keys (keys cur) cv)
  | .insWrite k v cur => k ≠ empty ∧ Called es keys k v ∧ keys cur = k
  | .findKey k cur => k ≠ empty ∧ Pass B keys k cur
  | .findVal k cur ok => k ≠ empty ∧ Pass B keys k cur ∧ (ok ≠ empty → keys cur = ok)
  | .findWait k cur => k ≠ empty ∧ keys cur = k
  | .setVal loc v => keys loc ≠ empty ∧ Called es keys (keys loc) v
  | .done op r => Res64 es keys op r

/-- The thread has taken a bucket for a key, but has not yet returned. -/
def Holds (key : Nat) : Pc64 → Prop
  | .insWrite k _ _ => k = key
  | .done (.insert k _) (.ins true _ _) => k = key
  | _ => False

structure Inv64 (B : Nat) (es : List Ev) (s : Sys64) : Prop where
  stored : ∀ b, s.mem.key b ≠ empty → Pass B s.mem.key (s.mem.key b) b
  vals : ∀ b, s.mem.val b ≠ empty → s.mem.key b ≠ empty ∧ Called es s.mem.key (s.mem.key b) (s.mem.val b)
  pcs : ∀ t, Ok64 B es s.mem.key (s.pc t)
  rets : ∀ t op r, .ret t op r ∈ es → Res64 es s.mem.key op r
  count : ∀ k, (es.filter (isWin k)).length ≤ 1
  count1 : ∀ k t, Holds k (s.pc t) → es.filter (isWin k) = []
  count2 : ∀ k t u, Holds k (s.pc t) → Holds k (s.pc u) → t = u

theorem one_bucket {B : Nat} {keys : Nat → Nat} (h : ∀ b, keys b ≠ empty → Pass B keys (keys b) b) (b b' : Nat)
    (hb : keys b ≠ empty) (e : keys b' = keys b) : b = b' := by
  obtain ⟨n, h1, h2⟩ := h b hb
  obtain ⟨n', h3, h4⟩ := h b' (e ▸ hb)
  rw [e] at h3 h4
  rcases Nat.lt_trichotomy n n' with hlt | rfl | hlt
  · exact absurd (congrArg keys h1).symm (h4 n hlt).2
  · rw [h1, h3]
  · exact absurd ((congrArg keys h3).symm.trans e) (h2 n' hlt).2

/-- Keys stay where they are. -/
def Grow (keys keys' : Nat → Nat) : Prop := ∀ b, keys b ≠ empty → keys' b = keys b

theorem Called.mono {es es' : List Ev} (h : es ⊆ es') {keys keys' : Nat → Nat} (hg : Grow keys keys') {k v : Nat}
    (hk : k ≠ empty) (hc : Called es keys k v) : Called es' keys' k v := by
  rcases hc with ⟨t, ht⟩ | ⟨t, loc, ht, hl⟩
  · exact .inl ⟨t, h ht⟩
  · exact .inr ⟨t, loc, h ht, by rw [hg loc (hl ▸ hk), hl]⟩

theorem Pass.mono {B : Nat} {keys keys' : Nat → Nat} (hg : Grow keys keys') {k cur : Nat} (h : Pass B keys k cur) :
    Pass B keys' k cur := by
  obtain ⟨n, h1, h2⟩ := h
  exact ⟨n, h1, fun i hi => by rw [hg _ (h2 i hi).1]; exact h2 i hi⟩

theorem keep_key {keys keys' : Nat → Nat} (hg : Grow keys keys') {b k : Nat} (hk : k ≠ empty) (h : keys b = k) :
    keys' b = k := by rw [hg b (h ▸ hk), h]

theorem Res64.mono {es es' : List Ev} (he : es ⊆ es') {keys keys' : Nat → Nat} (hg : Grow keys keys') {op : Op} {r : Res}
    (h : Res64 es keys op r) : Res64 es' keys' op r := by
  unfold Res64 at h ⊢
  split at h
  · exact ⟨h.1, keep_key hg h.1 h.2⟩
  · exact ⟨h.1, keep_key hg h.1 h.2.1, h.2.2.imp id (Called.mono he hg h.1)⟩
  · exact ⟨h.1, keep_key hg h.1 h.2.1, h.2.2.mono he hg h.1⟩
  · trivial
  · rw [hg _ h]; exact h
  · exact h

theorem Ok64.mono {B : Nat} {es es' : List Ev} (he : es ⊆ es') {keys keys' : Nat → Nat} (hg : Grow keys keys') {p : Pc64}
    (h : Ok64 B es keys p) : Ok64 B es' keys' p := by
  cases p <;> simp only [Ok64] at h ⊢
  · exact ⟨h.1, h.2.1.mono he hg h.1, h.2.2.mono hg⟩
  · exact ⟨h.1, h.2.1.mono he hg h.1, h.2.2.1.mono hg, fun hne => keep_key hg hne (h.2.2.2 hne)⟩
  · refine ⟨h.1, h.2.1.mono he hg h.1, h.2.2.1.mono hg, h.2.2.2.imp id ?_⟩
    rintro ⟨h1, h2⟩
    rw [hg _ h1]
    exact ⟨h1, h2.mono he hg h1⟩
  · exact ⟨h.1, h.2.1.mono he hg h.1, keep_key hg h.1 h.2.2⟩
  · exact ⟨h.1, h.2.mono hg⟩
  · exact ⟨h.1, h.2.1.mono hg, fun hne => keep_key hg hne (h.2.2 hne)⟩
  · exact ⟨h.1, keep_key hg h.1 h.2⟩
  · rw [hg _ h.1]; exact ⟨h.1, h.2.mono he hg h.1⟩
  · exact h.mono he hg

theorem holds_key {B : Nat} {es : List Ev} {keys : Nat → Nat} {p : Pc64} (h : Ok64 B es keys p) {k : Nat}
    (hh : Holds k p) : ∃ b, keys b = k := by
  unfold Holds at hh
  split at hh
  · subst hh; exact ⟨_, h.2.2⟩
  · next old b =>
    subst hh
    cases old with
    | none => exact ⟨b, h.2⟩
    | some o => exact h.elim
  · exact hh.elim

theorem win_key {B : Nat} {es : List Ev} {s : Sys64} (h : Inv64 B es s) (k : Nat) (hw : es.filter (isWin k) ≠ []) :
    ∃ b, s.mem.key b = k := by
  obtain ⟨e, he⟩ := List.exists_mem_of_ne_nil _ hw
  obtain ⟨h1, h2⟩ := List.mem_filter.mp he
  unfold isWin at h2
  split at h2
  · next t k' v' o b =>
    have hd := h.rets _ _ _ h1
    rw [beq_iff_eq.mp h2] at hd
    cases o with
    | none => exact ⟨b, hd.2⟩
    | some o => exact hd.elim
  · exact absurd h2 (by simp)

theorem inv64_run {B : Nat} {es : List Ev} {s : Sys64} (h : Inv64 B es s) (t : Nat) (mem : Mem64) (p : Pc64)
    (hg : Grow s.mem.key mem.key) (hst : ∀ b, mem.key b ≠ empty → Pass B mem.key (mem.key b) b)
    (hv : ∀ b, mem.val b ≠ empty → mem.key b ≠ empty ∧ Called es mem.key (mem.key b) (mem.val b))
    (hp : Ok64 B es mem.key p) (hh : ∀ k, Holds k p → Holds k (s.pc t) ∨ ¬ ∃ b, s.mem.key b = k) :
    Inv64 B es ⟨mem, fun u => if u = t then p else s.pc u⟩ := by
  refine ⟨hst, hv, ?_, fun u op r hr => (h.rets u op r hr).mono (fun _ => id) hg, h.count, ?_, ?_⟩
  · intro u
    simp only
    split
    · exact hp
    · exact (h.pcs u).mono (fun _ => id) hg
  · intro k u hu
    simp only at hu
    split at hu
    · rcases hh k hu with h1 | h1
      · exact h.count1 k t h1
      · by_contra hne
        exact h1 (win_key h k hne)
    · exact h.count1 k u hu
  · intro k u u' hu hu'
    simp only at hu hu'
    split at hu
    · next e =>
      split at hu'
      · next e' => rw [e, e']
      · rcases hh k hu with h1 | h1
        · rw [e]; exact h.count2 k t u' h1 hu'
        · exact absurd (holds_key (h.pcs u') hu') h1
    · split at hu'
      · next e' =>
        rcases hh k hu' with h1 | h1
        · rw [e']; exact h.count2 k u t hu h1
        · exact absurd (holds_key (h.pcs u) hu) h1
      · exact h.count2 k u u' hu hu'

theorem pass_next {B : Nat} {keys : Nat → Nat} {k cur : Nat} (h : Pass B keys k cur) (h1 : keys cur ≠ empty)
    (h2 : keys cur ≠ k) : Pass B keys k (step64 B k cur) := by
  obtain ⟨n, rfl, h3⟩ := h
  refine ⟨n + 1, rfl, fun i hi => ?_⟩
  rcases Nat.lt_succ_iff_lt_or_eq.mp hi with h4 | rfl
  · exact h3 i h4
  · exact ⟨h1, h2⟩

theorem run64_inv {B : Nat} {es : List Ev} {s : Sys64} (h : Inv64 B es s) (t : Nat) (mem : Mem64) (p : Pc64)
    (hrun : run64 B s.mem (s.pc t) = some (mem, p)) : Inv64 B es ⟨mem, fun u => if u = t then p else s.pc u⟩ := by
  have hp := h.pcs t
  have same : ∀ p, Ok64 B es s.mem.key p → (∀ k, Holds k p → Holds k (s.pc t) ∨ ¬ ∃ b, s.mem.key b = k) →
      Inv64 B es ⟨s.mem, fun u => if u = t then p else s.pc u⟩ := fun p h1 h2 =>
    inv64_run h t s.mem p (fun _ _ => rfl) h.stored h.vals h1 h2
  cases hs : s.pc t with
  | idle => rw [hs] at hrun; exact absurd hrun (by simp [run64])
  | done op r => rw [hs] at hrun; exact absurd hrun (by simp [run64])
  | insKey k v cur =>
    rw [hs] at hrun hp
    obtain ⟨rfl, rfl⟩ := Prod.mk.inj (Option.some.inj hrun)
    exact same _ ⟨hp.1, hp.2.1, hp.2.2, fun _ => rfl⟩ (fun k hk => hk.elim)
  | insVal k v cur ck =>
    rw [hs] at hrun hp
    obtain ⟨rfl, rfl⟩ := Prod.mk.inj (Option.some.inj hrun)
    obtain ⟨h1, h2, h3, h4⟩ := hp
    have hval : s.mem.val cur = empty ∨ s.mem.key cur ≠ empty ∧ Called es s.mem.key (s.mem.key cur) (s.mem.val cur) := by
      by_cases e : s.mem.val cur = empty
      · exact .inl e
      · exact .inr (h.vals cur e)
    unfold afterRead64
    split
    · next e =>
      have hk : s.mem.key cur = k := by rw [h4 (e ▸ h1), e]
      refine same _ ⟨h1, hk, hval.imp id (fun x => hk ▸ x.2)⟩ (fun k hk => hk.elim)
    · next e =>
      split
      · exact same _ ⟨h1, h2, h3, hval⟩ (fun k hk => hk.elim)
      · next e2 =>
        have hk := h4 e2
        exact same _ ⟨h1, h2, pass_next h3 (hk ▸ e2) (hk ▸ e)⟩ (fun k hk => hk.elim)
  | insCas k v cur cv =>
    rw [hs] at hrun hp
    obtain ⟨hmem, rfl⟩ := Prod.mk.inj (Option.some.inj hrun)
    obtain ⟨h1, h2, h3, h4⟩ := hp
    by_cases he : s.mem.key cur = empty
    · rw [if_pos he] at hmem
      subst hmem
      rw [afterCas64, if_pos he]
      have hg : Grow s.mem.key (fun i => if i = cur then k else s.mem.key i) := by
        intro b hb
        have : b ≠ cur := fun e => hb (e ▸ he)
        simp [this]
      have habs : ¬ ∃ b, s.mem.key b = k := by
        rintro ⟨b, hb⟩
        obtain ⟨n, g1, g2⟩ := h3
        obtain ⟨n', g3, g4⟩ := h.stored b (hb ▸ h1)
        rw [hb] at g3 g4
        rcases Nat.lt_trichotomy n n' with hlt | rfl | hlt
        · exact (g4 n hlt).1 (g1 ▸ he)
        · rw [← g1] at g3
          rw [g3, he] at hb
          exact h1 hb.symm
        · exact (g2 n' hlt).2 (g3 ▸ hb)
      refine inv64_run h t _ _ hg ?_ ?_ ⟨h1, h2.mono (fun _ => id) hg h1, by simp⟩ ?_
      · intro b hb
        by_cases e : b = cur
        · simp only [if_pos e] at hb ⊢
          rw [e]; exact h3.mono hg
        · simp only [if_neg e] at hb ⊢
          exact (h.stored b hb).mono hg
      · intro b hb
        obtain ⟨g1, g2⟩ := h.vals b hb
        have e : b ≠ cur := fun e => g1 (e ▸ he)
        simp only [if_neg e]
        exact ⟨g1, g2.mono (fun _ => id) hg g1⟩
      · intro k' hk'
        obtain rfl : k = k' := hk'
        exact .inr habs
    · rw [if_neg he] at hmem
      subst hmem
      rw [afterCas64, if_neg he]
      split
      · next e => exact same _ ⟨h1, e, h4.imp id (fun x => e ▸ x.2)⟩ (fun k hk => hk.elim)
      · next e => exact same _ ⟨h1, h2, pass_next h3 he e⟩ (fun k hk => hk.elim)
  | insWrite k v cur =>
    rw [hs] at hrun hp
    obtain ⟨rfl, rfl⟩ := Prod.mk.inj (Option.some.inj hrun)
    obtain ⟨h1, h2, h3⟩ := hp
    refine inv64_run h t _ _ (fun _ _ => rfl) h.stored ?_ ⟨h1, h3⟩ (fun k' hk' => .inl (by rw [hs]; exact hk'))
    intro b hb
    by_cases e : b = cur
    · simp only [if_pos e]
      rw [e, h3]
      exact ⟨h1, h2⟩
    · simp only [if_neg e] at hb ⊢
      exact h.vals b hb
  | findKey k cur =>
    rw [hs] at hrun hp
    obtain ⟨rfl, rfl⟩ := Prod.mk.inj (Option.some.inj hrun)
    exact same _ ⟨hp.1, hp.2, fun _ => rfl⟩ (fun k hk => hk.elim)
  | findVal k cur ok =>
    rw [hs] at hrun hp
    obtain ⟨rfl, rfl⟩ := Prod.mk.inj (Option.some.inj hrun)
    obtain ⟨h1, h2, h3⟩ := hp
    unfold afterFind64
    split
    · exact same _ trivial (fun k hk => hk.elim)
    · next e =>
      split
      · next e2 =>
        have hk : s.mem.key cur = k := by rw [h3 e, e2]
        split
        · exact same _ ⟨h1, hk⟩ (fun k hk => hk.elim)
        · next e3 => exact same _ ⟨h1, hk, hk ▸ (h.vals cur e3).2⟩ (fun k hk => hk.elim)
      · next e2 =>
        have hk := h3 e
        exact same _ ⟨h1, pass_next h2 (hk ▸ e) (hk ▸ e2)⟩ (fun k hk => hk.elim)
  | findWait k cur =>
    rw [hs] at hrun hp
    obtain ⟨rfl, rfl⟩ := Prod.mk.inj (Option.some.inj hrun)
    obtain ⟨h1, h2⟩ := hp
    split
    · exact same _ ⟨h1, h2⟩ (fun k hk => hk.elim)
    · next e3 => exact same _ ⟨h1, h2, h2 ▸ (h.vals cur e3).2⟩ (fun k hk => hk.elim)
  | setVal loc v =>
    rw [hs] at hrun hp
    obtain ⟨rfl, rfl⟩ := Prod.mk.inj (Option.some.inj hrun)
    refine inv64_run h t _ _ (fun _ _ => rfl) h.stored ?_ hp.1 (fun k hk => hk.elim)
    intro b hb
    by_cases e : b = loc
    · simp only [if_pos e]
      rw [e]
      exact hp
    · simp only [if_neg e] at hb ⊢
      exact h.vals b hb

theorem call64_inv {B : Nat} {es : List Ev} {s : Sys64} (h : Inv64 B es s) (t : Nat) (op : Op) (p : Pc64)
    (hp : Ok64 B (es ++ [.call t op]) s.mem.key p) (hh : ∀ k, ¬ Holds k p) :
    Inv64 B (es ++ [.call t op]) ⟨s.mem, fun u => if u = t then p else s.pc u⟩ := by
  have hsub : es ⊆ es ++ [.call t op] := List.subset_append_left _ _
  have hw : ∀ k, (es ++ [Ev.call t op]).filter (isWin k) = es.filter (isWin k) := by
    intro k; rw [List.filter_append]; simp [isWin]
  have hwon : ∀ k u, Holds k (if u = t then p else s.pc u) → Holds k (s.pc u) := by
    intro k u
    split
    · exact fun x => absurd x (hh k)
    · exact id
  refine ⟨h.stored, fun b hb => ⟨(h.vals b hb).1, (h.vals b hb).2.mono hsub (fun _ _ => rfl) (h.vals b hb).1⟩, ?_, ?_, ?_, ?_, ?_⟩
  · intro u
    simp only
    split
    · exact hp
    · exact (h.pcs u).mono hsub (fun _ _ => rfl)
  · intro u op' r hm
    rcases List.mem_append.mp hm with hm | hm
    · exact (h.rets u op' r hm).mono hsub (fun _ _ => rfl)
    · exact absurd (List.mem_singleton.mp hm) (by simp)
  · intro k; rw [hw]; exact h.count k
  · intro k u hu; rw [hw]; exact h.count1 k u (hwon k u hu)
  · exact fun k u u' h1 h2 => h.count2 k u u' (hwon k u h1) (hwon k u' h2)

theorem ret64_inv {B : Nat} {es : List Ev} {s : Sys64} (h : Inv64 B es s) (t : Nat) (op : Op) (r : Res)
    (hd : s.pc t = .done op r) : Inv64 B (es ++ [.ret t op r]) ⟨s.mem, fun u => if u = t then .idle else s.pc u⟩ := by
  have hsub : es ⊆ es ++ [.ret t op r] := List.subset_append_left _ _
  have hwon : ∀ k u, Holds k (if u = t then .idle else s.pc u) → Holds k (s.pc u) ∧ u ≠ t := by
    intro k u
    split
    · exact fun x => x.elim
    · next e => exact fun x => ⟨x, e⟩
  have hwin : ∀ k, isWin k (.ret t op r) = true → Holds k (s.pc t) := by
    intro k hw
    rw [hd]
    unfold isWin at hw
    split at hw
    · next heq =>
      obtain ⟨-, rfl, rfl⟩ := Ev.ret.inj heq
      exact beq_iff_eq.mp hw
    · exact absurd hw (by simp)
  have hpt := h.pcs t
  rw [hd] at hpt
  refine ⟨h.stored, fun b hb => ⟨(h.vals b hb).1, (h.vals b hb).2.mono hsub (fun _ _ => rfl) (h.vals b hb).1⟩, ?_, ?_, ?_, ?_, ?_⟩
  · intro u
    simp only
    split
    · trivial
    · exact (h.pcs u).mono hsub (fun _ _ => rfl)
  · intro u op' r' hm
    rcases List.mem_append.mp hm with hm | hm
    · exact (h.rets u op' r' hm).mono hsub (fun _ _ => rfl)
    · obtain ⟨rfl, rfl, rfl⟩ := Ev.ret.inj (List.mem_singleton.mp hm)
      exact Res64.mono hsub (fun _ _ => rfl) hpt
  · intro k
    rw [List.filter_append]
    by_cases hw : isWin k (.ret t op r) = true
    · rw [h.count1 k t (hwin k hw)]; simp [hw]
    · simpa [hw] using h.count k
  · intro k u hu
    obtain ⟨h1, h2⟩ := hwon k u hu
    rw [List.filter_append, h.count1 k u h1]
    by_cases hw : isWin k (.ret t op r) = true
    · exact absurd (h.count2 k u t h1 (hwin k hw)) h2
    · simp [hw]
  · exact fun k u u' h1 h2 => h.count2 k u u' (hwon k u h1).1 (hwon k u' h2).1

theorem exec64_inv (B : Nat) (es : List Ev) (s : Sys64) (hx : Exec (Step64 B) new64 es s) : Inv64 B es s := by
  generalize h0 : new64 = s0 at hx
  induction hx with
  | nil =>
    subst h0
    exact ⟨fun b h => absurd rfl h, fun b h => absurd rfl h, fun _ => trivial, fun _ _ _ h => absurd h (by simp),
      fun _ => by simp, fun _ _ h => h.elim, fun _ _ _ h => h.elim⟩
  | tau s1 s2 es _ hs ih =>
    cases hs with
    | run t mem p hr => exact run64_inv ih t mem p hr
  | ev s1 s2 es e _ hs ih =>
    cases hs with
    | insert t key val h1 h2 h3 =>
      refine call64_inv ih t _ _ ⟨by omega, .inl ⟨t, by simp⟩, 0, rfl, fun i hi => absurd hi (by omega)⟩ (fun _ h => h)
    | find t key h1 h2 =>
      refine call64_inv ih t _ _ ⟨by omega, 0, rfl, fun i hi => absurd hi (by omega)⟩ (fun _ h => h)
    | set t loc val h1 h2 h3 =>
      exact call64_inv ih t _ _ ⟨h2, .inr ⟨t, loc, by simp, rfl⟩⟩ (fun _ h => h)
    | ret t op r h1 => exact ret64_inv ih t op r h1

/-- C66, in every execution: no key is in two buckets, at most one insertion of a key succeeds, a value that is
found was inserted for that key or set at its location, and the old value of an insertion that does not succeed was
inserted for that key, set at its location or is all ones (which is not a value).  What is missing: that it is a
value at all (`hash64_old_neg`). -/
theorem hash64_partial (B : Nat) (es : List Ev) (s : Sys64) (hx : Exec (Step64 B) new64 es s) :
    (∀ b b', s.mem.key b ≠ empty → s.mem.key b' = s.mem.key b → b = b') ∧
    (∀ k, (es.filter (isWin k)).length ≤ 1) ∧
    (∀ t k v b, .ret t (.find k) (.found (some (v, b))) ∈ es →
      (∃ u, .call u (.insert k v) ∈ es) ∨ ∃ u, .call u (.set2 b v) ∈ es) ∧
    (∀ t k v o b, .ret t (.insert k v) (.ins false (some o) b) ∈ es →
      o = empty ∨ (∃ u, .call u (.insert k o) ∈ es) ∨ ∃ u, .call u (.set2 b o) ∈ es) := by
  have h := exec64_inv B es s hx
  have loc : ∀ k v b, k ≠ empty → s.mem.key b = k → Called es s.mem.key k v →
      (∃ u, .call u (.insert k v) ∈ es) ∨ ∃ u, .call u (.set2 b v) ∈ es := by
    rintro k v b hk hb (hc | ⟨t, l, h1, h2⟩)
    · exact .inl hc
    · obtain rfl := one_bucket h.stored b l (hb ▸ hk) (h2.trans hb.symm)
      exact .inr ⟨t, h1⟩
  refine ⟨fun b b' => one_bucket h.stored b b', h.count, fun t k v b hr => ?_, fun t k v o b hr => ?_⟩
  · obtain ⟨h1, h2, h3⟩ := h.rets _ _ _ hr
    exact loc k v b h1 h2 h3
  · obtain ⟨h1, h2, h3⟩ := h.rets _ _ _ hr
    exact h3.imp id (loc k o b h1 h2)

/-! ## An old value that nobody inserted -/

/-- The events of the execution. -/
def events64 : List Ev :=
  [.call 0 (.insert 3 5), .call 1 (.insert 3 6), .ret 1 (.insert 3 6) (.ins false (some empty) 3),
   .ret 0 (.insert 3 5) (.ins true none 3)]

/-- Two threads insert the key 3 with the values 5 and 6 into a new hash with 128 buckets.  The second is told that
the key is there with the value `2^64 - 1`: the first has written the key, but not yet the value. -/
theorem hash64_old_neg : ∃ s, Exec (Step64 7) new64 events64 s := by
  refine ⟨_, .ev _ _ _ [.call 0 (.insert 3 5), .call 1 (.insert 3 6), .ret 1 (.insert 3 6) (.ins false (some empty) 3)] _
    (.tau _ _ _ _ (.ev _ _ _ [.call 0 (.insert 3 5), .call 1 (.insert 3 6)] _
      (.tau _ _ _ _ (.tau _ _ _ _ (.tau _ _ _ _ (.tau _ _ _ _ (.tau _ _ _ _
        (.ev _ _ _ [.call 0 (.insert 3 5)] _ (.ev _ _ _ [] _ (.nil _)
          (.insert _ 0 3 5 rfl (by decide) (by decide))) (.insert _ 1 3 6 rfl (by decide) (by decide)))
        (.run _ 0 _ _ rfl)) (.run _ 0 _ _ rfl)) (.run _ 0 _ _ rfl)) (.run _ 1 _ _ rfl)) (.run _ 1 _ _ rfl))
      (.ret _ 1 _ _ ?_)) (.run _ 0 _ _ rfl)) (.ret _ 0 _ _ ?_)⟩
  · decide +kernel
  · decide +kernel

end Verif.Hash
