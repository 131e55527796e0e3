import Verif.Hash.Progress
import Verif.Hash.Kernel
import Verif.Hash.PhaseModel

/-!
# Deleting and copying
-/

namespace Verif.Hash
variable {c : Cfg}

/-- Two keys are not at one position. -/
theorem Repr.same (hc : c.Ok) {mem : Nat → Nat} {m : Map} (hr : Repr c mem m) {k k' v v' b : Nat}
    (h : m k = some (v, b)) (h' : m k' = some (v', b)) : k = k' := by
  obtain ⟨h1, h2, h3, n, -, h4, -⟩ := hr.place k v b h
  obtain ⟨g1, g2, g3, n', -, g4, -⟩ := hr.place k' v' b h'
  have e := congrArg (wordKey c) (h3.symm.trans g3)
  rw [wordKey_mkWord c hc k v h1.1 h2, wordKey_mkWord c hc k' v' g1.1 g2] at e
  exact key_unique c hc k k' n n' e (h4.symm.trans g4)

/-! ## `Delete` -/

/-- A thread has emptied the position. -/
def Gone (m : Map) (keys : List Nat) (pc : Nat → DPc) (b : Nat) : Prop :=
  ∃ t k v, keys[t]? = some k ∧ pc t = .done ∧ m k = some (v, b)

def DelAt (c : Cfg) (mem : Nat → Nat) (m : Map) (k cnt : Nat) (p : DPc) : Prop :=
  ∃ v j, m k = some (v, probe c k j) ∧ j < c.G ∧ (∀ i < j, mem (probe c k i) ≠ empty) ∧
    ((∃ i ≤ j, p = .read k (probe c k i) ∧ cnt = i) ∨ (p = .write k (probe c k j) ∧ cnt = j + 1) ∨
      (p = .done ∧ cnt = j + 2))

structure DelInv (c : Cfg) (mem : Nat → Nat) (m : Map) (keys : List Nat) (l : List Nat) (s : KSt DPc) : Prop where
  thr : ∀ t k, keys[t]? = some k → DelAt c mem m k (l.count t) (s.pc t)
  out : ∀ t, keys[t]? = none → s.pc t = .done ∧ l.count t = 0
  gone : ∀ b, Gone m keys s.pc b → s.mem b = empty
  keep : ∀ b, ¬ Gone m keys s.pc b → s.mem b = mem b

theorem del_inv (hc : c.Ok) (mem : Nat → Nat) (m : Map) (hr : Repr c mem m) (keys : List Nat) (hnd : keys.Nodup)
    (hin : ∀ k ∈ keys, m k ≠ none) (l : List Nat) (s : KSt DPc)
    (hx : Sched (delRun c) ⟨mem, delInit c keys⟩ l s) : DelInv c mem m keys l s := by
  generalize hs0 : (⟨mem, delInit c keys⟩ : KSt DPc) = s0 at hx
  induction hx with
  | nil =>
    subst hs0
    have hno : ∀ b, ¬ Gone m keys (delInit c keys) b := by
      rintro b ⟨t, k, v, h1, h2, -⟩
      simp [delInit, h1] at h2
    refine ⟨fun t k hk => ?_, fun t ht => by simp [delInit, ht], fun b hb => absurd hb (hno b), fun b _ => rfl⟩
    obtain ⟨x, hx⟩ := Option.ne_none_iff_exists'.mp (hin k (List.mem_of_getElem? hk))
    obtain ⟨v, b⟩ := x
    obtain ⟨-, -, -, j, h1, h2, h3⟩ := hr.place k v b hx
    refine ⟨v, j, by rw [← h2]; exact hx, h1, h3, .inl ⟨0, by omega, ?_, by simp⟩⟩
    simp [delInit, hk, first_eq c hc]
  | step s l t mem' p _ hrun ih =>
    have hcnt : ∀ u, u ≠ t → (l ++ [t]).count u = l.count u := by
      intro u hu; simp [List.count_append, Ne.symm hu]
    have hcntt : (l ++ [t]).count t = l.count t + 1 := by simp [List.count_append]
    cases hk : keys[t]? with
    | none =>
      rw [(ih.out t hk).1] at hrun
      exact absurd hrun (by simp [delRun])
    | some k =>
      obtain ⟨v, j, h1, h2, h3, h4⟩ := ih.thr t k hk
      have out : ∀ u, keys[u]? = none →
          (if u = t then p else s.pc u) = .done ∧ (l ++ [t]).count u = 0 := by
        intro u hu
        have hut : u ≠ t := fun e => by rw [e, hk] at hu; exact absurd hu (by simp)
        rw [if_neg hut, hcnt u hut]
        exact ih.out u hu
      have thr : DelAt c mem m k (l.count t + 1) p → ∀ u k', keys[u]? = some k' →
          DelAt c mem m k' ((l ++ [t]).count u) (if u = t then p else s.pc u) := by
        intro hp u k' hu
        by_cases e : u = t
        · rw [e, hk] at hu
          obtain rfl := Option.some.inj hu
          rw [if_pos e, e, hcntt]
          exact hp
        · rw [if_neg e, hcnt u e]
          exact ih.thr u k' hu
      -- the thread was not done and is not done: nothing else is gone
      have same : s.pc t ≠ .done → p ≠ .done → ∀ b,
          Gone m keys (fun u => if u = t then p else s.pc u) b ↔ Gone m keys s.pc b := by
        intro e1 e2 b
        constructor
        · rintro ⟨u, k', v', g1, g2, g3⟩
          by_cases e : u = t
          · simp only [if_pos e] at g2; exact absurd g2 e2
          · simp only [if_neg e] at g2; exact ⟨u, k', v', g1, g2, g3⟩
        · rintro ⟨u, k', v', g1, g2, g3⟩
          have e : u ≠ t := fun e => e1 (e ▸ g2)
          exact ⟨u, k', v', g1, by simp only [if_neg e]; exact g2, g3⟩
      rcases h4 with ⟨i, hi, hp, hct⟩ | ⟨hp, hct⟩ | ⟨hp, -⟩
      · rw [hp] at hrun
        obtain ⟨rfl, rfl⟩ := Prod.mk.inj (Option.some.inj hrun)
        obtain ⟨p1, p2, p3, -⟩ := hr.place k v _ h1
        -- the position of the key is not empty yet
        have hhere : ¬ Gone m keys s.pc (probe c k j) := by
          rintro ⟨u, k', v', g1, g2, g3⟩
          obtain rfl := hr.same hc g3 h1
          have : u = t := by
            have g4 := (List.getElem?_eq_some_iff.mp g1)
            have g5 := (List.getElem?_eq_some_iff.mp hk)
            obtain ⟨a1, a2⟩ := g4
            obtain ⟨b1, b2⟩ := g5
            exact (List.Nodup.getElem_inj_iff hnd).mp (a2.trans b2.symm)
          rw [this, hp] at g2
          exact absurd g2 (by simp)
        by_cases hij : i = j
        · subst hij
          have hw : wordKey c (s.mem (probe c k i)) = keptKey c k := by
            rw [ih.keep _ hhere, p3, wordKey_mkWord c hc k v p1.1 p2]
          simp only [if_pos hw] at *
          refine ⟨thr ⟨v, i, h1, h2, h3, .inr (.inl ⟨rfl, by omega⟩)⟩, out, ?_, ?_⟩
          · exact fun b hb => ih.gone b ((same (by rw [hp]; simp) (by simp) b).mp hb)
          · exact fun b hb => ih.keep b (fun h => hb ((same (by rw [hp]; simp) (by simp) b).mpr h))
        · have hw : wordKey c (s.mem (probe c k i)) ≠ keptKey c k := by
            by_cases hg : Gone m keys s.pc (probe c k i)
            · rw [ih.gone _ hg]; exact empty_key c hc k p1
            · rw [ih.keep _ hg]
              obtain ⟨k', v', hk'⟩ := hr.full _ (probe_lt c k i) (h3 i (by omega))
              obtain ⟨q1, q2, q3, n', -, q4, -⟩ := hr.place k' v' _ hk'
              rw [q3, wordKey_mkWord c hc k' v' q1.1 q2]
              intro e
              have e' := key_unique c hc k' k n' i e q4.symm
              rw [e', h1] at hk'
              exact hij (probe_inj c hc k i j (by omega) h2 (Prod.mk.inj (Option.some.inj hk')).2.symm)
          simp only [if_neg hw] at *
          refine ⟨thr ⟨v, j, h1, h2, h3, .inl ⟨i + 1, by omega, by rw [next_eq c hc], by omega⟩⟩, out, ?_, ?_⟩
          · exact fun b hb => ih.gone b ((same (by rw [hp]; simp) (by simp) b).mp hb)
          · exact fun b hb => ih.keep b (fun h => hb ((same (by rw [hp]; simp) (by simp) b).mpr h))
      · rw [hp] at hrun
        obtain ⟨rfl, rfl⟩ := Prod.mk.inj (Option.some.inj hrun)
        have old : ∀ b, Gone m keys s.pc b → Gone m keys (fun u => if u = t then .done else s.pc u) b := by
          rintro b ⟨u, k', v', g1, g2, g3⟩
          refine ⟨u, k', v', g1, ?_, g3⟩
          simp only; split
          · rfl
          · exact g2
        refine ⟨thr ⟨v, j, h1, h2, h3, .inr (.inr ⟨rfl, by omega⟩)⟩, out, ?_, ?_⟩
        · rintro b ⟨u, k', v', g1, g2, g3⟩
          simp only [write]
          split
          · rfl
          · next hb =>
            refine ih.gone b ⟨u, k', v', g1, ?_, g3⟩
            have e : u ≠ t := by
              rintro rfl
              rw [hk] at g1
              obtain rfl := Option.some.inj g1
              rw [h1] at g3
              exact hb (Prod.mk.inj (Option.some.inj g3)).2.symm
            simpa only [if_neg e] using g2
        · intro b hb
          have hb' : b ≠ probe c k j := by
            rintro rfl
            exact hb ⟨t, k, v, hk, by simp, h1⟩
          simp only [write, if_neg hb']
          exact ih.keep b (fun h => hb (old b h))
      · rw [hp] at hrun
        exact absurd hrun (by simp [delRun])

/-! ## `CopyDataFromSimple` -/

theorem next64_eq (hc : c.Ok) (h0 : c.impl = 0) (key n : Nat) : next64 c key (probe c key n) = probe c key (n + 1) := by
  have h1 : c.N ∣ 2 ^ 64 := (N_dvd c hc).trans (pow_dvd_pow 2 (by omega))
  simp only [next64, mask]
  rw [Nat.mod_mod_of_dvd _ h1]
  simp only [probe, h0, Nat.pow_zero, Nat.mul_one]
  rw [Nat.mod_add_mod]
  congr 1
  rw [Nat.add_mul, Nat.one_mul, Nat.add_assoc]
  rfl

/-- The two hashes have the same numbers of bits, and the keys are stored as a whole. -/
structure SameBits (c d : Cfg) : Prop where
  key : d.keyBits = c.keyBits
  val : d.valBits = c.valBits
  sum : c.keyBits + c.valBits = 64

namespace SameBits
variable {d : Cfg} (h : SameBits c d)
include h

theorem kept : d.kept = c.kept := by simp only [Cfg.kept, h.val]
theorem impl0 : c.impl = 0 := by have := h.sum; simp only [Cfg.impl]; omega
theorem impl0' : d.impl = 0 := by have := h.sum; have := h.key; have := h.val; simp only [Cfg.impl]; omega
theorem keptKey (k : Nat) : keptKey d k = Hash.keptKey c k := by simp only [Hash.keptKey, h.impl0, h.impl0']
theorem mkWord (k v : Nat) : mkWord d k v = Hash.mkWord c k v := by simp only [Hash.mkWord, h.keptKey, h.kept]
theorem keyOk (k : Nat) : KeyOk d k ↔ KeyOk c k := by simp only [KeyOk, h.keptKey, h.kept, h.key]
theorem keptBits : c.kept = c.keyBits := by have := h.sum; simp only [Cfg.kept]; omega

end SameBits

structure CopyInv (c d : Cfg) (m : Map) (l : List Nat) (s : KSt CPc) (m' : Map) : Prop where
  repr : Repr d s.mem m'
  from_ : ∀ k v b, m' k = some (v, b) → ∃ t, m k = some (v, t)
  thr : ∀ k v t, m k = some (v, t) →
    (s.pc t = .done ∧ ∃ b, m' k = some (v, b)) ∨
    (m' k = none ∧ ∃ j, s.pc t = .cas (mkWord c k v) k (probe d k j) ∧
      (∀ i < j, Taken m' k (probe d k i)) ∧ l.count t ≤ j)
  idle : ∀ t, (∀ k v, m k ≠ some (v, t)) → s.pc t = .done

theorem copy_inv (hc : c.Ok) {d : Cfg} (hd : d.Ok) (hs : SameBits c d) (src : Nat → Nat) (m : Map) (hr : Repr c src m)
    (l : List Nat) (s : KSt CPc) (hx : Sched (copyRun d) ⟨fun _ => empty, copyInit d c.N src⟩ l s) :
    ∃ m', CopyInv c d m l s m' := by
  generalize hs0 : (⟨fun _ => empty, copyInit d c.N src⟩ : KSt CPc) = s0 at hx
  induction hx with
  | nil =>
    subst hs0
    refine ⟨fun _ => none, ⟨fun _ _ _ h => absurd h (by simp), fun _ _ h => absurd rfl h⟩,
      fun _ _ _ h => absurd h (by simp), ?_, ?_⟩
    · intro k v t hk
      obtain ⟨h1, h2, h3, n, -, h4, -⟩ := hr.place k v t hk
      refine .inr ⟨rfl, 0, ?_, fun i hi => absurd hi (by omega), by simp⟩
      have ht : t < c.N := by rw [h4]; exact probe_lt c k n
      have hne : src t ≠ empty := by rw [h3]; exact mkWord_ne c hc k v h1 h2
      have hkey : src t &&& (2 ^ d.keyBits - 1) = k := by
        have := wordKey_mkWord c hc k v h1.1 h2
        rw [wordKey, ← h3, hs.keptBits, Hash.keptKey, hs.impl0, Nat.shiftRight_zero] at this
        rw [hs.key]
        exact this
      simp only [copyInit, if_pos ht, if_neg hne, hkey]
      rw [h3]
      congr 1
      simp only [probe, mask, Nat.zero_mul, Nat.add_zero]
    · intro t ht
      simp only [copyInit]
      split
      · next hlt =>
        split
        · rfl
        · next hne =>
          obtain ⟨k, v, hk⟩ := hr.full t hlt hne
          exact absurd hk (ht k v)
      · rfl
  | step s l t mem' p _ hrun ih =>
    obtain ⟨m', ih⟩ := ih
    have hcnt : ∀ u, u ≠ t → (l ++ [t]).count u = l.count u := by
      intro u hu; simp [List.count_append, Ne.symm hu]
    have hcntt : (l ++ [t]).count t = l.count t + 1 := by simp [List.count_append]
    by_cases hkt : ∃ k v, m k = some (v, t)
    · obtain ⟨k, v, hk⟩ := hkt
      have huniq : ∀ k' v', m k' = some (v', t) → k' = k ∧ v' = v := by
        intro k' v' h
        obtain rfl := hr.same hc h hk
        rw [hk] at h
        exact ⟨rfl, (Prod.mk.inj (Option.some.inj h)).1.symm⟩
      obtain ⟨h1, h2, -⟩ := hr.place k v t hk
      rcases ih.thr k v t hk with ⟨hp, -⟩ | ⟨habs, j, hp, htr, hct⟩
      · rw [hp] at hrun
        exact absurd hrun (by simp [copyRun])
      · rw [hp, copyRun] at hrun
        have idle' : ∀ u, (∀ k v, m k ≠ some (v, u)) → (if u = t then p else s.pc u) = .done := by
          intro u hu
          have e : u ≠ t := fun e => hu k v (by rw [e]; exact hk)
          rw [if_neg e]
          exact ih.idle u hu
        split at hrun
        · next he =>
          obtain ⟨rfl, rfl⟩ := Prod.mk.inj (Option.some.inj hrun)
          obtain ⟨g1, g2, g3⟩ := ih.repr.insert hd ⟨j, rfl, htr⟩ he ((hs.keyOk k).mpr h1) (hs.val ▸ h2)
          refine ⟨fun k' => if k' = k then some (v, probe d k j) else m' k', by rw [← hs.mkWord]; exact g1, ?_, ?_, idle'⟩
          · intro k' v' b hk'
            split at hk'
            · next e =>
              subst e
              obtain ⟨rfl, rfl⟩ := Prod.mk.inj (Option.some.inj hk')
              exact ⟨t, hk⟩
            · exact ih.from_ k' v' b hk'
          · intro k' v' u hk'
            by_cases e : u = t
            · subst e
              obtain ⟨rfl, rfl⟩ := huniq k' v' hk'
              exact .inl ⟨by simp, probe d k' j, by simp⟩
            · have hkk : k' ≠ k := by
                rintro rfl
                rw [hk] at hk'
                exact e (Prod.mk.inj (Option.some.inj hk')).2.symm
              simp only [if_neg e, if_neg hkk, hcnt u e]
              rcases ih.thr k' v' u hk' with h5 | ⟨h5, j', h6, h7, h8⟩
              · exact .inl h5
              · exact .inr ⟨h5, j', h6, fun i hi => (h7 i hi).mono g3, h8⟩
        · next he =>
          obtain ⟨rfl, rfl⟩ := Prod.mk.inj (Option.some.inj hrun)
          refine ⟨m', ih.repr, ih.from_, ?_, idle'⟩
          intro k' v' u hk'
          by_cases e : u = t
          · subst e
            obtain ⟨rfl, rfl⟩ := huniq k' v' hk'
            refine .inr ⟨habs, j + 1, by simp [next64_eq hd hs.impl0'], ?_, by rw [hcntt]; omega⟩
            intro i hi
            rcases Nat.lt_succ_iff_lt_or_eq.mp hi with h5 | rfl
            · exact htr i h5
            · obtain ⟨l1, l2⟩ := ih.repr.look hd ⟨i, rfl, htr⟩ he
              exact l2 (fun h => by rw [l1 h] at habs; exact absurd habs (by simp))
          · simp only [if_neg e, hcnt u e]
            exact ih.thr k' v' u hk'
    · rw [ih.idle t (fun k v h => hkt ⟨k, v, h⟩)] at hrun
      exact absurd hrun (by simp [copyRun])

end Verif.Hash
