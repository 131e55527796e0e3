import Verif.Hash.Linear
import Mathlib.Data.Finset.Card
import Mathlib.Data.Finset.Image

/-!
# Operations finish
-/

namespace Verif.Hash
variable {c : Cfg}

theorem G_mul (hc : c.Ok) : 2 ^ c.impl * c.G = c.N := by
  simp only [Cfg.N, Cfg.G]
  rw [← pow_add]; congr 1; have := hc.group; omega

/-- All positions with the implicit bits of the key are tried. -/
theorem probe_surj (hc : c.Ok) (key b : Nat) (hb : b < c.N) (h : b % 2 ^ c.impl = key % 2 ^ c.impl) :
    ∃ i < c.G, probe c key i = b := by
  have hlt : ∀ x < c.N, x / 2 ^ c.impl < c.G := by
    intro x hx
    rw [Nat.div_lt_iff_lt_mul (Nat.two_pow_pos _), Nat.mul_comm, G_mul hc]
    exact hx
  have hsplit : ∀ x y, x % 2 ^ c.impl = y % 2 ^ c.impl → x / 2 ^ c.impl = y / 2 ^ c.impl → x = y := by
    intro x y h1 h2
    rw [← Nat.div_add_mod x (2 ^ c.impl), ← Nat.div_add_mod y (2 ^ c.impl), h1, h2]
  have hinj : Set.InjOn (fun i => probe c key i / 2 ^ c.impl) (Finset.range c.G : Set Nat) := by
    intro i hi j hj e
    refine probe_inj c hc key i j (by simpa using hi) (by simpa using hj) (hsplit _ _ ?_ e)
    rw [probe_impl c hc, probe_impl c hc]
  have himg : (Finset.range c.G).image (fun i => probe c key i / 2 ^ c.impl) = Finset.range c.G := by
    refine Finset.eq_of_subset_of_card_le ?_ ?_
    · intro x hx
      obtain ⟨i, -, rfl⟩ := Finset.mem_image.mp hx
      exact Finset.mem_range.mpr (hlt _ (probe_lt c key i))
    · rw [Finset.card_image_of_injOn hinj]
  have hmem : b / 2 ^ c.impl ∈ (Finset.range c.G).image (fun i => probe c key i / 2 ^ c.impl) := by
    rw [himg]; exact Finset.mem_range.mpr (hlt b hb)
  obtain ⟨i, hi, e⟩ := Finset.mem_image.mp hmem
  exact ⟨i, Finset.mem_range.mp hi, hsplit _ _ (by rw [probe_impl c hc, h]) e⟩

/-- The number of positions in use. -/
def used (c : Cfg) (mem : Nat → Nat) : Nat := ((List.range c.N).filter (fun b => mem b ≠ empty)).length

theorem tried_used (hc : c.Ok) (mem : Nat → Nat) (key j : Nat) (h : ∀ i < j, mem (probe c key i) ≠ empty)
    (hj : j ≤ c.G) : j ≤ used c mem := by
  have h1 : ((List.range j).map (probe c key)).Nodup := by
    refine (List.nodup_map_iff_inj_on List.nodup_range).mpr ?_
    intro x hx y hy e
    exact probe_inj c hc key x y (by have := List.mem_range.mp hx; omega) (by have := List.mem_range.mp hy; omega) e
  have h2 : (List.range j).map (probe c key) ⊆ (List.range c.N).filter (fun b => mem b ≠ empty) := by
    intro b hb
    obtain ⟨i, hi, rfl⟩ := List.mem_map.mp hb
    exact List.mem_filter.mpr ⟨List.mem_range.mpr (probe_lt c key i), by simpa using h i (List.mem_range.mp hi)⟩
  have h3 := (h1.subperm h2).length_le
  simpa [used] using h3

/-- Executions in which thread `t` makes `n` steps of its operation; the other threads do anything. -/
inductive Busy (c : Cfg) (t : Nat) : Sys → Nat → Sys → Prop
  | nil (s : Sys) : Busy c t s 0 s
  | mine (s s' : Sys) (n : Nat) (mem : Nat → Nat) (p : Pc) : Busy c t s n s' →
      run c s'.mem (s'.pc t) = some (mem, p) → Busy c t s (n + 1) ⟨mem, setPc s'.pc t p, s'.known⟩
  | otherCall (s s' : Sys) (n u : Nat) (op : Op) : Busy c t s n s' → u ≠ t → s'.pc u = .idle →
      Legal c s'.known op → Busy c t s n ⟨s'.mem, setPc s'.pc u (start c op), s'.known⟩
  | otherRun (s s' : Sys) (n u : Nat) (mem : Nat → Nat) (p : Pc) : Busy c t s n s' → u ≠ t →
      run c s'.mem (s'.pc u) = some (mem, p) → Busy c t s n ⟨mem, setPc s'.pc u p, s'.known⟩
  | otherRet (s s' : Sys) (n u : Nat) (op : Op) (r : Res) : Busy c t s n s' → u ≠ t → s'.pc u = .done op r →
      Busy c t s n ⟨s'.mem, setPc s'.pc u .idle, learnt op r ++ s'.known⟩

/-- The key that an operation searches. -/
def Op.key? : Op → Option Nat
  | .insert key _ => some key
  | .find key => some key
  | _ => none

/-- A bound on the steps of a thread by the positions it has tried. -/
def Rank (c : Cfg) (m : Map) (n : Nat) (op : Op) : Pc → Prop
  | .idle => False
  | .insRead key val cur => op = .insert key val ∧
      ∃ j, n ≤ 2 * j ∧ cur = probe c key j ∧ ∀ i < j, Taken m key (probe c key i)
  | .insCas key val cur => op = .insert key val ∧
      ∃ j, n ≤ 2 * j + 1 ∧ cur = probe c key j ∧ ∀ i < j, Taken m key (probe c key i)
  | .findRead key cur => op = .find key ∧
      ∃ j, n ≤ 2 * j ∧ cur = probe c key j ∧ ∀ i < j, Taken m key (probe c key i)
  | .setWrite loc key val => op = .set loc key val ∧ n = 0
  | .set2Read loc val => op = .set2 loc val ∧ n = 0
  | .set2Write loc val _ => op = .set2 loc val ∧ n ≤ 1
  | .done op' _ => op = op'

theorem Rank.mono {m m' : Map} (h : Grows m m') {n : Nat} {op : Op} {p : Pc} (hr : Rank c m n op p) :
    Rank c m' n op p := by
  cases p <;> simp only [Rank] at hr ⊢
  · obtain ⟨h1, j, h2, h3, h4⟩ := hr; exact ⟨h1, j, h2, h3, fun i hi => (h4 i hi).mono h⟩
  · obtain ⟨h1, j, h2, h3, h4⟩ := hr; exact ⟨h1, j, h2, h3, fun i hi => (h4 i hi).mono h⟩
  · obtain ⟨h1, j, h2, h3, h4⟩ := hr; exact ⟨h1, j, h2, h3, fun i hi => (h4 i hi).mono h⟩
  · exact hr
  · exact hr
  · exact hr
  · exact hr

theorem effect_grows {m m' : Map} {op : Op} {r : Res} (h : Effect m op m' r) : Grows m m' := by
  intro k v b hk
  cases h with
  | insertNew key val loc h1 h2 =>
    have : k ≠ key := fun e => by rw [e, h1] at hk; exact absurd hk (by simp)
    exact ⟨v, by simp [this, hk]⟩
  | insertOld key val v' loc h1 => exact ⟨v, hk⟩
  | find key => exact ⟨v, hk⟩
  | set loc key val v' h1 =>
    by_cases e : k = key
    · rw [e, h1] at hk
      obtain ⟨rfl, rfl⟩ := Prod.mk.inj (Option.some.inj hk)
      exact ⟨val, by simp [e]⟩
    · exact ⟨v, by simp [e, hk]⟩
  | set2 loc key val v' h1 =>
    by_cases e : k = key
    · rw [e, h1] at hk
      obtain ⟨rfl, rfl⟩ := Prod.mk.inj (Option.some.inj hk)
      exact ⟨val, by simp [e]⟩
    · exact ⟨v, by simp [e, hk]⟩

theorem step_grows {a a' : ASys} {e : Option Ev} (h : a' = a ∧ e = none ∨ AStep a e a') : Grows a.m a'.m := by
  rcases h with ⟨rfl, -⟩ | h
  · exact .refl _
  · cases h with
    | call t op h1 => exact .refl _
    | lin t op m r h1 h2 => exact effect_grows h2
    | ret t op r h1 => exact .refl _

/-- One more step of the thread. -/
theorem rank_run (hc : c.Ok) (s : Sys) (a : ASys) (h : Sim c s a) (t n : Nat) (op : Op) (mem : Nat → Nat) (p : Pc)
    (hrun : run c s.mem (s.pc t) = some (mem, p)) (hr : Rank c a.m n op (s.pc t)) : Rank c a.m (n + 1) op p := by
  have hpc := h.pcs t
  generalize s.pc t = sp at hpc hr hrun
  have htaken : ∀ key cur j, cur = probe c key j → (∀ i < j, Taken a.m key (probe c key i)) →
      s.mem cur ≠ empty → wordKey c (s.mem cur) ≠ keptKey c key →
      ∀ i < j + 1, Taken a.m key (probe c key i) := by
    intro key cur j h3 h4 hne hw i hi
    rcases Nat.lt_succ_iff_lt_or_eq.mp hi with h5 | rfl
    · exact h4 i h5
    · exact h3 ▸ (h.repr.look hc ⟨i, h3, h4⟩ hne).2 hw
  cases sp with
  | idle => exact hr.elim
  | done op' r => exact absurd hrun (by simp [run])
  | insRead key val cur =>
    obtain ⟨rfl, j, h2, h3, h4⟩ := hr
    obtain ⟨rfl, rfl⟩ := Prod.mk.inj (Option.some.inj hrun)
    unfold afterRead
    split
    · exact rfl
    · next hw =>
      split
      · exact ⟨rfl, j, by omega, h3, h4⟩
      · next he => exact ⟨rfl, j + 1, by omega, by rw [h3, next_eq c hc], htaken key cur j h3 h4 he hw⟩
  | insCas key val cur =>
    obtain ⟨rfl, j, h2, h3, h4⟩ := hr
    obtain ⟨-, rfl⟩ := Prod.mk.inj (Option.some.inj hrun)
    unfold afterCas
    split
    · exact rfl
    · next he =>
      split
      · exact rfl
      · next hw => exact ⟨rfl, j + 1, by omega, by rw [h3, next_eq c hc], htaken key cur j h3 h4 he hw⟩
  | findRead key cur =>
    obtain ⟨rfl, j, h2, h3, h4⟩ := hr
    obtain ⟨-, rfl⟩ := Prod.mk.inj (Option.some.inj hrun)
    unfold afterFind
    split
    · exact rfl
    · next he =>
      split
      · exact rfl
      · next hw => exact ⟨rfl, j + 1, by omega, by rw [h3, next_eq c hc], htaken key cur j h3 h4 he hw⟩
  | setWrite loc key val =>
    obtain ⟨rfl, h2⟩ := hr
    obtain ⟨-, rfl⟩ := Prod.mk.inj (Option.some.inj hrun)
    exact rfl
  | set2Read loc val =>
    obtain ⟨rfl, h2⟩ := hr
    rw [run] at hrun
    split at hrun
    · exact absurd hrun (by simp)
    · obtain ⟨-, rfl⟩ := Prod.mk.inj (Option.some.inj hrun)
      exact ⟨rfl, by omega⟩
  | set2Write loc val w =>
    obtain ⟨rfl, h2⟩ := hr
    obtain ⟨-, rfl⟩ := Prod.mk.inj (Option.some.inj hrun)
    exact rfl

theorem busy_rank (hc : c.Ok) (t : Nat) (s s' : Sys) (n : Nat) (op : Op) (a : ASys) (h : Sim c s a)
    (hs : s.pc t = start c op) (hb : Busy c t s n s') : ∃ a', Sim c s' a' ∧ Rank c a'.m n op (s'.pc t) := by
  induction hb with
  | nil =>
    refine ⟨a, h, ?_⟩
    rw [hs]
    cases op with
    | insert key val => exact ⟨rfl, 0, by omega, first_eq c hc key, fun _ hi => absurd hi (by omega)⟩
    | find key => exact ⟨rfl, 0, by omega, first_eq c hc key, fun _ hi => absurd hi (by omega)⟩
    | set loc key val => exact ⟨rfl, rfl⟩
    | set2 loc val => exact ⟨rfl, rfl⟩
  | mine s1 n mem p _ hrun ih =>
    obtain ⟨a1, h1, h2⟩ := ih
    obtain ⟨a2, h3, h4⟩ := step_sim hc _ _ _ _ h1 (.run s1 t mem p hrun)
    refine ⟨a2, h4, ?_⟩
    simp only [setPc, if_true]
    exact (rank_run hc s1 a1 h1 t n op mem p hrun h2).mono (step_grows h3)
  | otherCall s1 n u op' _ hu h5 h6 ih =>
    obtain ⟨a1, h1, h2⟩ := ih
    obtain ⟨a2, h3, h4⟩ := step_sim hc _ _ _ _ h1 (.call s1 u op' h5 h6)
    refine ⟨a2, h4, ?_⟩
    simp only [setPc, if_neg (Ne.symm hu)]
    exact h2.mono (step_grows h3)
  | otherRun s1 n u mem p _ hu h5 ih =>
    obtain ⟨a1, h1, h2⟩ := ih
    obtain ⟨a2, h3, h4⟩ := step_sim hc _ _ _ _ h1 (.run s1 u mem p h5)
    refine ⟨a2, h4, ?_⟩
    simp only [setPc, if_neg (Ne.symm hu)]
    exact h2.mono (step_grows h3)
  | otherRet s1 n u op' r _ hu h5 ih =>
    obtain ⟨a1, h1, h2⟩ := ih
    obtain ⟨a2, h3, h4⟩ := step_sim hc _ _ _ _ h1 (.ret s1 u op' r h5)
    refine ⟨a2, h4, ?_⟩
    simp only [setPc, if_neg (Ne.symm hu)]
    exact h2.mono (step_grows h3)

/-- A search that has not ended has tried fewer positions than there are. -/
theorem tried_bound (hc : c.Ok) (mem : Nat → Nat) (m : Map) (hr : Repr c mem m) (key j : Nat)
    (h : ∀ i < j, Taken m key (probe c key i))
    (hfree : ∃ b < c.N, b % 2 ^ c.impl = key % 2 ^ c.impl ∧ mem b = empty) : j ≤ used c mem := by
  obtain ⟨b, hb, h1, h2⟩ := hfree
  obtain ⟨i, hi, rfl⟩ := probe_surj hc key b hb h1
  have : j ≤ i := by
    by_contra hlt
    exact hr.taken_ne hc (h i (by omega)) h2
  exact tried_used hc mem key j (fun i hi => hr.taken_ne hc (h i hi)) (by omega)

/-- A thread inside an operation can make a step: `K2_CHECK_NE` does not fail. -/
theorem run_total (hc : c.Ok) (s : Sys) (a : ASys) (h : Sim c s a) (t : Nat) (h1 : s.pc t ≠ .idle)
    (h2 : ∀ op r, s.pc t ≠ .done op r) : run c s.mem (s.pc t) ≠ none := by
  have hpc := h.pcs t
  generalize s.pc t = sp at h1 h2 hpc
  cases sp with
  | idle => exact absurd rfl h1
  | done op r => exact absurd rfl (h2 op r)
  | insRead key val cur => simp [run]
  | insCas key val cur => simp [run]
  | findRead key cur => simp [run]
  | setWrite loc key val => simp [run]
  | set2Write loc val w => simp [run]
  | set2Read loc val =>
    cases hap : a.pc t with
    | idle => rw [hap] at hpc; exact hpc.elim
    | done _ _ => rw [hap] at hpc; exact hpc.elim
    | pending op =>
      rw [hap] at hpc
      obtain ⟨-, -, key, v, hm⟩ := hpc
      obtain ⟨h3, h4, h5, -⟩ := h.repr.place key v loc hm
      rw [run, if_neg (h5 ▸ mkWord_ne c hc key v h3 h4)]
      simp

end Verif.Hash
