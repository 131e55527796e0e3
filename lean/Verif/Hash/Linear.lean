import Verif.Hash.Probe

/-!
# The hash is linearizable
-/

namespace Verif.Hash
variable {c : Cfg}

abbrev Map := Nat → Option (Nat × Nat)

/-- The array represents the map: every pair is in its place, with no empty position before it, and there is
nothing else. -/
structure Repr (c : Cfg) (mem : Nat → Nat) (m : Map) : Prop where
  place : ∀ k v b, m k = some (v, b) → KeyOk c k ∧ v < 2 ^ c.valBits ∧ mem b = mkWord c k v ∧
    ∃ n < c.G, b = probe c k n ∧ ∀ i < n, mem (probe c k i) ≠ empty
  full : ∀ b < c.N, mem b ≠ empty → ∃ k v, m k = some (v, b)

/-- Another key is at a position. -/
def Taken (m : Map) (key b : Nat) : Prop := ∃ k v, m k = some (v, b) ∧ k ≠ key

/-- Keys stay where they are. -/
def Grows (m m' : Map) : Prop := ∀ k v b, m k = some (v, b) → ∃ v', m' k = some (v', b)

theorem Grows.refl (m : Map) : Grows m m := fun _ v _ h => ⟨v, h⟩

theorem Taken.mono {m m' : Map} (h : Grows m m') {key b : Nat} (ht : Taken m key b) : Taken m' key b := by
  obtain ⟨k, v, h1, h2⟩ := ht
  obtain ⟨v', h3⟩ := h k v b h1
  exact ⟨k, v', h3, h2⟩

/-- Positions tried before this one are taken by other keys. -/
def Tried (c : Cfg) (m : Map) (key cur : Nat) : Prop :=
  ∃ n, cur = probe c key n ∧ ∀ i < n, Taken m key (probe c key i)

theorem Tried.mono {m m' : Map} (h : Grows m m') {key cur : Nat} (ht : Tried c m key cur) :
    Tried c m' key cur := by
  obtain ⟨n, h1, h2⟩ := ht
  exact ⟨n, h1, fun i hi => (h2 i hi).mono h⟩

theorem Tried.start (hc : c.Ok) (m : Map) (key : Nat) : Tried c m key (first c key) :=
  ⟨0, first_eq c hc key, fun _ h => absurd h (by omega)⟩

theorem Tried.next (hc : c.Ok) {m : Map} {key cur : Nat} (h : Tried c m key cur) (ht : Taken m key cur) :
    Tried c m key (next c key cur) := by
  obtain ⟨n, rfl, h2⟩ := h
  refine ⟨n + 1, next_eq c hc key n, fun i hi => ?_⟩
  rcases Nat.lt_succ_iff_lt_or_eq.mp hi with h | rfl
  · exact h2 i h
  · exact ht

theorem probe_period (hc : c.Ok) (key n : Nat) : probe c key (n + c.G) = probe c key n := by
  have h3 : c.G * 2 ^ c.impl = c.N := by
    simp only [Cfg.N, Cfg.G]
    rw [← pow_add]; congr 1; have := hc.group; omega
  simp only [probe]
  rw [Nat.add_mul, show c.G * (odd c key * 2 ^ c.impl) = c.N * odd c key by rw [← h3]; ring, ← Nat.add_assoc,
    Nat.add_mul_mod_self_left]

variable {mem : Nat → Nat} {m : Map}

theorem Repr.taken_ne (hc : c.Ok) (hr : Repr c mem m) {key b : Nat} (h : Taken m key b) : mem b ≠ empty := by
  obtain ⟨k, v, h1, -⟩ := h
  obtain ⟨h2, h3, h4, -⟩ := hr.place k v b h1
  rw [h4]
  exact mkWord_ne c hc k v h2 h3

/-- At a position on the way to a key: the word is the word of that key, or another key is there. -/
theorem Repr.look (hc : c.Ok) (hr : Repr c mem m) {key cur : Nat} (h : Tried c m key cur)
    (hne : mem cur ≠ empty) :
    (wordKey c (mem cur) = keptKey c key → m key = some (wordVal c (mem cur), cur)) ∧
    (wordKey c (mem cur) ≠ keptKey c key → Taken m key cur) := by
  obtain ⟨n, rfl, -⟩ := h
  obtain ⟨k, v, hk⟩ := hr.full _ (probe_lt c key n) hne
  obtain ⟨h2, h3, h4, j, -, h5, -⟩ := hr.place k v _ hk
  rw [h4, wordKey_mkWord c hc k v h2.1 h3, wordVal_mkWord c hc k v h2.1 h3]
  refine ⟨fun h => ?_, fun h => ⟨k, v, hk, fun e => h (by rw [e])⟩⟩
  have := key_unique c hc k key j n h h5.symm
  rw [← this, hk, this]

/-- When the search for a key comes to an empty position, the key is not in the map. -/
theorem Repr.absent (hc : c.Ok) (hr : Repr c mem m) {key cur : Nat} (h : Tried c m key cur)
    (he : mem cur = empty) : m key = none := by
  obtain ⟨n, rfl, h2⟩ := h
  cases hm : m key with
  | none => rfl
  | some x =>
    exfalso
    obtain ⟨v, b⟩ := x
    obtain ⟨h3, h4, h5, n', -, h6, h7⟩ := hr.place key v b hm
    rcases Nat.lt_trichotomy n n' with hlt | rfl | hlt
    · exact h7 n hlt he
    · rw [← h6, h5] at he
      exact mkWord_ne c hc key v h3 h4 he
    · obtain ⟨k, v', h8, h9⟩ := h2 n' hlt
      obtain ⟨g1, g2, g3, j, -, g4, -⟩ := hr.place k v' _ h8
      rw [← h6, h5] at g3
      have e := congrArg (wordKey c) g3
      rw [wordKey_mkWord c hc key v h3.1 h4, wordKey_mkWord c hc k v' g1.1 g2] at e
      exact h9 (key_unique c hc k key j n' e.symm g4.symm)

theorem write_ne (mem : Nat → Nat) (loc w : Nat) (hw : w ≠ empty) (b : Nat) (h : mem b ≠ empty) :
    write mem loc w b ≠ empty := by
  unfold write; split
  · exact hw
  · exact h

/-- Writing a new pair to an empty position on the way. -/
theorem Repr.insert (hc : c.Ok) (hr : Repr c mem m) {key val cur : Nat} (h : Tried c m key cur)
    (he : mem cur = empty) (hk : KeyOk c key) (hv : val < 2 ^ c.valBits) :
    Repr c (write mem cur (mkWord c key val)) (fun k => if k = key then some (val, cur) else m k) ∧
    (∀ k v, m k ≠ some (v, cur)) ∧ Grows m (fun k => if k = key then some (val, cur) else m k) := by
  have habs := hr.absent hc h he
  have hfresh : ∀ k v, m k ≠ some (v, cur) := by
    intro k v hkv
    obtain ⟨h2, h3, h4, -⟩ := hr.place k v cur hkv
    exact mkWord_ne c hc k v h2 h3 (h4.symm.trans he)
  have hw := mkWord_ne c hc key val hk hv
  obtain ⟨n, hn, h2⟩ := h
  have hG : n < c.G := by
    by_contra hge
    have e := probe_period hc key (n - c.G)
    rw [Nat.sub_add_cancel (by omega), ← hn] at e
    have := hr.taken_ne hc (h2 (n - c.G) (by have := Nat.two_pow_pos (c.B - c.impl); simp only [Cfg.G] at *; omega))
    rw [← e] at this
    exact this he
  refine ⟨⟨?_, ?_⟩, hfresh, ?_⟩
  · intro k v b hkv
    split at hkv
    · next e =>
      subst e
      obtain ⟨rfl, rfl⟩ := Prod.mk.inj (Option.some.inj hkv)
      exact ⟨hk, hv, by simp [write], n, hG, hn, fun i hi => write_ne _ _ _ hw _ (hr.taken_ne hc (h2 i hi))⟩
    · next e =>
      obtain ⟨g1, g2, g3, j, g4, g5, g6⟩ := hr.place k v b hkv
      refine ⟨g1, g2, ?_, j, g4, g5, fun i hi => write_ne _ _ _ hw _ (g6 i hi)⟩
      have : b ≠ cur := fun e => hfresh k v (e ▸ hkv)
      simp [write, this, g3]
  · intro b hb hne
    by_cases e : b = cur
    · exact ⟨key, val, by simp [e]⟩
    · simp only [write, if_neg e] at hne
      obtain ⟨k, v, hkv⟩ := hr.full b hb hne
      refine ⟨k, v, ?_⟩
      have : k ≠ key := fun e => by rw [e, habs] at hkv; exact absurd hkv (by simp)
      simp [this, hkv]
  · intro k v b hkv
    have : k ≠ key := fun e => by rw [e, habs] at hkv; exact absurd hkv (by simp)
    exact ⟨v, by simp [this, hkv]⟩

/-- Writing a new value for a key that is present. -/
theorem Repr.set (hc : c.Ok) (hr : Repr c mem m) {key v loc val : Nat} (h : m key = some (v, loc))
    (hv : val < 2 ^ c.valBits) :
    Repr c (write mem loc (mkWord c key val)) (fun k => if k = key then some (val, loc) else m k) ∧
    Grows m (fun k => if k = key then some (val, loc) else m k) := by
  obtain ⟨hk, -, hmem, n, hn, hloc, hpre⟩ := hr.place key v loc h
  have hw := mkWord_ne c hc key val hk hv
  refine ⟨⟨?_, ?_⟩, ?_⟩
  · intro k v' b hkv
    split at hkv
    · next e =>
      subst e
      obtain ⟨rfl, rfl⟩ := Prod.mk.inj (Option.some.inj hkv)
      exact ⟨hk, hv, by simp [write], n, hn, hloc, fun i hi => write_ne _ _ _ hw _ (hpre i hi)⟩
    · next e =>
      obtain ⟨g1, g2, g3, j, g4, g5, g6⟩ := hr.place k v' b hkv
      refine ⟨g1, g2, ?_, j, g4, g5, fun i hi => write_ne _ _ _ hw _ (g6 i hi)⟩
      have : b ≠ loc := by
        intro eb
        rw [eb, hmem] at g3
        have e2 := congrArg (wordKey c) g3
        rw [wordKey_mkWord c hc key v hk.1 (hr.place key v loc h).2.1, wordKey_mkWord c hc k v' g1.1 g2] at e2
        exact e (key_unique c hc k key j n e2.symm (by rw [← g5, eb, hloc]))
      simp [write, this, g3]
  · intro b hb hne
    by_cases e : b = loc
    · exact ⟨key, val, by simp [e]⟩
    · simp only [write, if_neg e] at hne
      obtain ⟨k, v', hkv⟩ := hr.full b hb hne
      refine ⟨k, v', ?_⟩
      have : k ≠ key := fun ek => by
        rw [ek, h] at hkv
        exact e (Prod.mk.inj (Option.some.inj hkv)).2.symm
      simp [this, hkv]
  · intro k v' b hkv
    by_cases e : k = key
    · rw [e, h] at hkv
      obtain ⟨rfl, rfl⟩ := Prod.mk.inj (Option.some.inj hkv)
      exact ⟨val, by simp [e]⟩
    · exact ⟨v', by simp [e, hkv]⟩

/-! ## The simulation -/

/-- Keys with their locations are in the map. -/
def Knows (m : Map) (l : List (Nat × Nat)) : Prop := ∀ k b, (k, b) ∈ l → ∃ v, m k = some (v, b)

theorem Knows.mono {m m' : Map} (h : Grows m m') {l : List (Nat × Nat)} (hk : Knows m l) : Knows m' l := by
  intro k b hm
  obtain ⟨v, hv⟩ := hk k b hm
  exact h k v b hv

/-- What holds for a thread of the hash and the same thread of the specification. -/
def PcRel (c : Cfg) (m : Map) : Pc → APc → Prop
  | .idle, .idle => True
  | .insRead key val cur, .pending op => op = .insert key val ∧ KeyOk c key ∧ val < 2 ^ c.valBits ∧ Tried c m key cur
  | .insCas key val cur, .pending op => op = .insert key val ∧ KeyOk c key ∧ val < 2 ^ c.valBits ∧ Tried c m key cur
  | .findRead key cur, .pending op => op = .find key ∧ KeyOk c key ∧ Tried c m key cur
  | .setWrite loc key val, .pending op => op = .set loc key val ∧ val < 2 ^ c.valBits ∧ ∃ v, m key = some (v, loc)
  | .set2Read loc val, .pending op => op = .set2 loc val ∧ val < 2 ^ c.valBits ∧ ∃ key v, m key = some (v, loc)
  | .set2Write loc val w, .pending op => op = .set2 loc val ∧ val < 2 ^ c.valBits ∧
      ∃ key v, m key = some (v, loc) ∧ w = keptKey c key
  | .done op r, .done op' r' => op = op' ∧ r = r' ∧ Knows m (learnt op r)
  | _, _ => False

theorem PcRel.mono {m m' : Map} (h : Grows m m') {p : Pc} {a : APc} (hp : PcRel c m p a) : PcRel c m' p a := by
  cases p <;> cases a <;> simp only [PcRel] at hp ⊢
  · obtain ⟨h1, h2, h3, h4⟩ := hp; exact ⟨h1, h2, h3, h4.mono h⟩
  · obtain ⟨h1, h2, h3, h4⟩ := hp; exact ⟨h1, h2, h3, h4.mono h⟩
  · obtain ⟨h1, h2, h3⟩ := hp; exact ⟨h1, h2, h3.mono h⟩
  · obtain ⟨h1, h2, v, h3⟩ := hp; exact ⟨h1, h2, h _ _ _ h3⟩
  · obtain ⟨h1, h2, k, v, h3⟩ := hp; exact ⟨h1, h2, k, h _ _ _ h3⟩
  · obtain ⟨h1, h2, k, v, h3, h4⟩ := hp
    obtain ⟨v', h5⟩ := h _ _ _ h3
    exact ⟨h1, h2, k, v', h5, h4⟩
  · obtain ⟨h1, h2, h3⟩ := hp; exact ⟨h1, h2, h3.mono h⟩

structure Sim (c : Cfg) (s : Sys) (a : ASys) : Prop where
  repr : Repr c s.mem a.m
  pcs : ∀ t, PcRel c a.m (s.pc t) (a.pc t)
  known : Knows a.m s.known

theorem pcs_set {m m' : Map} {f : Nat → Pc} {g : Nat → APc} (t : Nat) (p : Pc) (q : APc) (hg : Grows m m')
    (h : ∀ t, PcRel c m (f t) (g t)) (hp : PcRel c m' p q) : ∀ u, PcRel c m' (setPc f t p u) (setAPc g t q u) := by
  intro u
  unfold setPc setAPc
  split
  · exact hp
  · exact (h u).mono hg

theorem pcs_set_one {m : Map} {f : Nat → Pc} {g : Nat → APc} (t : Nat) (p : Pc)
    (h : ∀ t, PcRel c m (f t) (g t)) (hp : PcRel c m p (g t)) : ∀ u, PcRel c m (setPc f t p u) (g u) := by
  intro u
  unfold setPc
  split
  · next e => rw [e]; exact hp
  · exact h u

/-- The steps of a thread: the specification does nothing, or the operation takes effect. -/
theorem run_sim (hc : c.Ok) (s : Sys) (a : ASys) (h : Sim c s a) (t : Nat) (mem : Nat → Nat) (p : Pc)
    (hrun : run c s.mem (s.pc t) = some (mem, p)) :
    ∃ a', (a' = a ∨ AStep a none a') ∧ Sim c ⟨mem, setPc s.pc t p, s.known⟩ a' := by
  obtain ⟨hr, hp, hkn⟩ := h
  have ht := hp t
  generalize hsp : s.pc t = sp at ht hrun
  generalize hap : a.pc t = ap at ht
  -- the operation takes effect
  have lin : ∀ (op : Op) (m' : Map) (r : Res), ap = .pending op → Effect a.m op m' r → Grows a.m m' →
      Repr c mem m' → p = .done op r → Knows m' (learnt op r) →
      ∃ a', (a' = a ∨ AStep a none a') ∧ Sim c ⟨mem, setPc s.pc t p, s.known⟩ a' := by
    intro op m' r e1 e2 e3 e4 e5 e6
    refine ⟨⟨m', setAPc a.pc t (.done op r)⟩, .inr (.lin a t op m' r (hap.trans e1) e2), e4, ?_, hkn.mono e3⟩
    subst e5
    exact pcs_set t _ _ e3 hp ⟨rfl, rfl, e6⟩
  -- nothing happens
  have stay : mem = s.mem → PcRel c a.m p (a.pc t) →
      ∃ a', (a' = a ∨ AStep a none a') ∧ Sim c ⟨mem, setPc s.pc t p, s.known⟩ a' := by
    intro e1 e2
    exact ⟨a, .inl rfl, e1 ▸ hr, pcs_set_one t p hp e2, hkn⟩
  cases sp with
  | idle => exact absurd hrun (by simp [run])
  | done op r => exact absurd hrun (by simp [run])
  | insRead key val cur =>
    cases ap with
    | idle => exact ht.elim
    | done _ _ => exact ht.elim
    | pending op =>
      obtain ⟨rfl, hk, hv, htr⟩ := ht
      obtain ⟨rfl, rfl⟩ := Prod.mk.inj (Option.some.inj hrun)
      by_cases he : s.mem cur = empty
      · refine stay rfl ?_
        rw [hap, afterRead, he, if_neg (empty_key c hc key hk), if_pos rfl]
        exact ⟨rfl, hk, hv, htr⟩
      · obtain ⟨l1, l2⟩ := hr.look hc htr he
        by_cases hw : wordKey c (s.mem cur) = keptKey c key
        · refine lin _ a.m _ rfl (.insertOld key val _ cur (l1 hw)) (.refl _) hr (by rw [afterRead, if_pos hw]) ?_
          intro k b hkb
          obtain ⟨rfl, rfl⟩ := Prod.mk.inj (List.mem_singleton.mp hkb)
          exact ⟨_, l1 hw⟩
        · refine stay rfl ?_
          rw [hap, afterRead, if_neg hw, if_neg he]
          exact ⟨rfl, hk, hv, htr.next hc (l2 hw)⟩
  | insCas key val cur =>
    cases ap with
    | idle => exact ht.elim
    | done _ _ => exact ht.elim
    | pending op =>
      obtain ⟨rfl, hk, hv, htr⟩ := ht
      obtain ⟨hmem, rfl⟩ := Prod.mk.inj (Option.some.inj hrun)
      by_cases he : s.mem cur = empty
      · rw [if_pos he] at hmem
        obtain ⟨g1, g2, g3⟩ := hr.insert hc htr he hk hv
        refine lin _ _ _ rfl (.insertNew key val cur (hr.absent hc htr he) g2) g3 (hmem ▸ g1)
          (by rw [afterCas, if_pos he]) ?_
        intro k b hkb
        obtain ⟨rfl, rfl⟩ := Prod.mk.inj (List.mem_singleton.mp hkb)
        exact ⟨val, by simp⟩
      · rw [if_neg he] at hmem
        obtain ⟨l1, l2⟩ := hr.look hc htr he
        by_cases hw : wordKey c (s.mem cur) = keptKey c key
        · refine lin _ a.m _ rfl (.insertOld key val _ cur (l1 hw)) (.refl _) (hmem ▸ hr)
            (by rw [afterCas, if_neg he, if_pos hw]) ?_
          intro k b hkb
          obtain ⟨rfl, rfl⟩ := Prod.mk.inj (List.mem_singleton.mp hkb)
          exact ⟨_, l1 hw⟩
        · refine stay hmem.symm ?_
          rw [hap, afterCas, if_neg he, if_neg hw]
          exact ⟨rfl, hk, hv, htr.next hc (l2 hw)⟩
  | findRead key cur =>
    cases ap with
    | idle => exact ht.elim
    | done _ _ => exact ht.elim
    | pending op =>
      obtain ⟨rfl, hk, htr⟩ := ht
      obtain ⟨rfl, rfl⟩ := Prod.mk.inj (Option.some.inj hrun)
      by_cases he : s.mem cur = empty
      · have habs := hr.absent hc htr he
        have e := Effect.find (m := a.m) key
        rw [habs] at e
        refine lin _ a.m _ rfl e (.refl _) hr (by rw [afterFind, if_pos he]) ?_
        intro k b hkb
        exact absurd hkb (by simp [learnt])
      · obtain ⟨l1, l2⟩ := hr.look hc htr he
        by_cases hw : wordKey c (s.mem cur) = keptKey c key
        · have e := Effect.find (m := a.m) key
          rw [l1 hw] at e
          refine lin _ a.m _ rfl e (.refl _) hr (by rw [afterFind, if_neg he, if_pos hw]) ?_
          intro k b hkb
          obtain ⟨rfl, rfl⟩ := Prod.mk.inj (List.mem_singleton.mp hkb)
          exact ⟨_, l1 hw⟩
        · refine stay rfl ?_
          rw [hap, afterFind, if_neg he, if_neg hw]
          exact ⟨rfl, hk, htr.next hc (l2 hw)⟩
  | setWrite loc key val =>
    cases ap with
    | idle => exact ht.elim
    | done _ _ => exact ht.elim
    | pending op =>
      obtain ⟨rfl, hv, v, hm⟩ := ht
      obtain ⟨rfl, rfl⟩ := Prod.mk.inj (Option.some.inj hrun)
      obtain ⟨g1, g2⟩ := hr.set hc hm hv
      exact lin _ _ _ rfl (.set loc key val v hm) g2 g1 rfl (fun k b hkb => absurd hkb (by simp [learnt]))
  | set2Read loc val =>
    cases ap with
    | idle => exact ht.elim
    | done _ _ => exact ht.elim
    | pending op =>
      obtain ⟨rfl, hv, key, v, hm⟩ := ht
      rw [run] at hrun
      split at hrun
      · exact absurd hrun (by simp)
      · obtain ⟨rfl, rfl⟩ := Prod.mk.inj (Option.some.inj hrun)
        refine stay rfl ?_
        rw [hap]
        obtain ⟨h1, h2, h3, -⟩ := hr.place key v loc hm
        exact ⟨rfl, hv, key, v, hm, by rw [h3, wordKey_mkWord c hc key v h1.1 h2]⟩
  | set2Write loc val w =>
    cases ap with
    | idle => exact ht.elim
    | done _ _ => exact ht.elim
    | pending op =>
      obtain ⟨rfl, hv, key, v, hm, rfl⟩ := ht
      obtain ⟨rfl, rfl⟩ := Prod.mk.inj (Option.some.inj hrun)
      obtain ⟨g1, g2⟩ := hr.set hc hm hv
      obtain ⟨h1, -, -, n, -, h3, -⟩ := hr.place key v loc hm
      refine lin _ _ _ rfl (.set2 loc key val v hm) g2 (by rw [rewrite_word]; exact g1)
        (by rw [h3, unpack_key c hc key n h1.1]) (fun k b hkb => absurd hkb (by simp [learnt]))

theorem step_sim (hc : c.Ok) (s s' : Sys) (a : ASys) (e : Option Ev) (h : Sim c s a) (hs : Step c s e s') :
    ∃ a', (a' = a ∧ e = none ∨ AStep a e a') ∧ Sim c s' a' := by
  cases hs with
  | call t op hidle hleg =>
    have ht := h.pcs t
    rw [hidle] at ht
    cases hap : a.pc t with
    | pending _ => rw [hap] at ht; exact ht.elim
    | done _ _ => rw [hap] at ht; exact ht.elim
    | idle =>
      refine ⟨_, .inr (.call a t op hap), h.repr, pcs_set t _ _ (.refl _) h.pcs ?_, h.known⟩
      cases op with
      | insert key val => exact ⟨rfl, hleg.1, hleg.2, .start hc _ _⟩
      | find key => exact ⟨rfl, hleg, .start hc _ _⟩
      | set loc key val => exact ⟨rfl, hleg.2, h.known _ _ hleg.1⟩
      | set2 loc val =>
        obtain ⟨⟨key, hk⟩, hv⟩ := hleg
        exact ⟨rfl, hv, key, h.known _ _ hk⟩
  | run t mem p hrun =>
    obtain ⟨a', h1, h2⟩ := run_sim hc s a h t mem p hrun
    exact ⟨a', h1.imp (fun e => ⟨e, rfl⟩) id, h2⟩
  | ret t op r hdone =>
    have ht := h.pcs t
    rw [hdone] at ht
    cases hap : a.pc t with
    | pending _ => rw [hap] at ht; exact ht.elim
    | idle => rw [hap] at ht; exact ht.elim
    | done op' r' =>
      rw [hap] at ht
      obtain ⟨rfl, rfl, hl⟩ := ht
      refine ⟨_, .inr (.ret a t op r hap), h.repr, pcs_set t _ _ (.refl _) h.pcs trivial, ?_⟩
      intro k b hkb
      rcases List.mem_append.mp hkb with h1 | h1
      · exact hl k b h1
      · exact h.known k b h1

theorem new_sim (c : Cfg) : Sim c new aNew :=
  ⟨⟨fun _ _ _ h => absurd h (by simp [aNew]), fun _ _ h => absurd rfl h⟩, fun _ => trivial,
    fun _ _ h => absurd h (by simp [new])⟩

theorem exec_sim (hc : c.Ok) (s s' : Sys) (es : List Ev) (a : ASys) (h : Sim c s a) (hx : Exec (Step c) s es s') :
    ∃ a', Exec AStep a es a' ∧ Sim c s' a' := by
  induction hx with
  | nil => exact ⟨a, .nil a, h⟩
  | tau s1 s2 es _ hs ih =>
    obtain ⟨a1, h1, h2⟩ := ih
    obtain ⟨a2, h3, h4⟩ := step_sim hc _ _ _ _ h2 hs
    rcases h3 with ⟨rfl, -⟩ | h3
    · exact ⟨_, h1, h4⟩
    · exact ⟨a2, .tau _ _ _ _ h1 h3, h4⟩
  | ev s1 s2 es e _ hs ih =>
    obtain ⟨a1, h1, h2⟩ := ih
    obtain ⟨a2, h3, h4⟩ := step_sim hc _ _ _ _ h2 hs
    rcases h3 with ⟨-, h3⟩ | h3
    · exact absurd h3 (by simp)
    · exact ⟨a2, .ev _ _ _ _ _ h1 h3, h4⟩

end Verif.Hash
