import Verif.Hash.Probe64
import Verif.Hash.Phase64Model

/-!
# `Hash64`: the table between kernels, deleting and copying
-/

namespace Verif.Hash

/-- A table on which no operation runs. -/
structure Table (B : Nat) (m : Mem64) : Prop where
  place : ∀ b, m.key b ≠ empty → Pass B m.key (m.key b) b
  full : ∀ b, m.key b ≠ empty → m.val b ≠ empty
  clear : ∀ b, m.key b = empty → m.val b = empty

/-! ## After an execution -/

/-- The values that threads write. -/
def ValOk : Pc64 → Prop
  | .insKey _ v _ => v ≠ empty
  | .insVal _ v _ _ => v ≠ empty
  | .insCas _ v _ _ => v ≠ empty
  | .insWrite _ v _ => v ≠ empty
  | .setVal _ v => v ≠ empty
  | _ => True

structure Fill (s : Sys64) : Prop where
  ok : ∀ t, ValOk (s.pc t)
  fill : ∀ b, s.mem.key b ≠ empty → s.mem.val b ≠ empty ∨ ∃ t k v, s.pc t = .insWrite k v b

theorem fill_run {B : Nat} {s : Sys64} (h : Fill s) (t : Nat) (mem : Mem64) (p : Pc64)
    (hrun : run64 B s.mem (s.pc t) = some (mem, p)) : Fill ⟨mem, fun u => if u = t then p else s.pc u⟩ := by
  have hok := h.ok t
  have main : ValOk p → (∀ b, mem.key b ≠ empty → mem.val b ≠ empty ∨
      (s.mem.key b ≠ empty ∧ s.mem.val b = empty ∧ ∀ k v, s.pc t ≠ .insWrite k v b) ∨ ∃ k v, p = .insWrite k v b) →
      Fill ⟨mem, fun u => if u = t then p else s.pc u⟩ := by
    intro h1 h2
    refine ⟨fun u => ?_, fun b hb => ?_⟩
    · simp only; split
      · exact h1
      · exact h.ok u
    · rcases h2 b hb with g | ⟨g1, g2, g3⟩ | ⟨k, v, g⟩
      · exact .inl g
      · rcases h.fill b g1 with g | ⟨u, k, v, g⟩
        · exact absurd g2 g
        · have e : u ≠ t := by rintro rfl; exact g3 k v g
          exact .inr ⟨u, k, v, by simp [e, g]⟩
      · exact .inr ⟨t, k, v, by simp [g]⟩
  have same : (∀ k v b, s.pc t ≠ .insWrite k v b) → ∀ b, s.mem.key b ≠ empty → s.mem.val b ≠ empty ∨
      (s.mem.key b ≠ empty ∧ s.mem.val b = empty ∧ ∀ k v, s.pc t ≠ .insWrite k v b) ∨ ∃ k v, p = .insWrite k v b := by
    intro hne b hb
    by_cases e : s.mem.val b = empty
    · exact .inr (.inl ⟨hb, e, fun k v => hne k v b⟩)
    · exact .inl e
  cases hs : s.pc t with
  | idle => rw [hs] at hrun; exact absurd hrun (by simp [run64])
  | done op r => rw [hs] at hrun; exact absurd hrun (by simp [run64])
  | insKey k v cur =>
    have h3 := same (by rw [hs]; simp)
    rw [hs] at hrun hok
    obtain ⟨rfl, rfl⟩ := Prod.mk.inj (Option.some.inj hrun)
    exact main hok h3
  | insVal k v cur ck =>
    have h3 := same (by rw [hs]; simp)
    rw [hs] at hrun hok
    obtain ⟨rfl, rfl⟩ := Prod.mk.inj (Option.some.inj hrun)
    refine main ?_ h3
    unfold afterRead64
    split
    · trivial
    · split
      · exact hok
      · exact hok
  | insCas k v cur cv =>
    have h3 := same (by rw [hs]; simp)
    rw [hs] at hrun hok
    obtain ⟨hmem, rfl⟩ := Prod.mk.inj (Option.some.inj hrun)
    by_cases he : s.mem.key cur = empty
    · rw [if_pos he] at hmem
      subst hmem
      rw [afterCas64, if_pos he] at h3 ⊢
      rw [afterCas64, if_pos he] at main
      refine main hok (fun b hb => ?_)
      by_cases e : b = cur
      · exact .inr (.inr ⟨k, v, by rw [e]⟩)
      · simp only [if_neg e] at hb
        exact h3 b hb
    · rw [if_neg he] at hmem
      subst hmem
      refine main ?_ h3
      rw [afterCas64, if_neg he]
      split
      · trivial
      · exact hok
  | insWrite k v cur =>
    rw [hs] at hrun hok
    obtain ⟨rfl, rfl⟩ := Prod.mk.inj (Option.some.inj hrun)
    refine main trivial (fun b hb => ?_)
    by_cases e : b = cur
    · exact .inl (by simp only [if_pos e]; exact hok)
    · simp only [if_neg e]
      by_cases e2 : s.mem.val b = empty
      · refine .inr (.inl ⟨hb, e2, fun k' v' hw => ?_⟩)
        rw [hs] at hw
        exact e (Pc64.insWrite.inj hw).2.2.symm
      · exact .inl e2
  | findKey k cur =>
    have h3 := same (by rw [hs]; simp)
    rw [hs] at hrun hok
    obtain ⟨rfl, rfl⟩ := Prod.mk.inj (Option.some.inj hrun)
    exact main trivial h3
  | findVal k cur ok =>
    have h3 := same (by rw [hs]; simp)
    rw [hs] at hrun hok
    obtain ⟨rfl, rfl⟩ := Prod.mk.inj (Option.some.inj hrun)
    refine main ?_ h3
    unfold afterFind64
    split
    · trivial
    · split
      · split <;> trivial
      · trivial
  | findWait k cur =>
    have h3 := same (by rw [hs]; simp)
    rw [hs] at hrun hok
    obtain ⟨rfl, rfl⟩ := Prod.mk.inj (Option.some.inj hrun)
    refine main ?_ h3
    split <;> trivial
  | setVal loc v =>
    have h3 := same (by rw [hs]; simp)
    rw [hs] at hrun hok
    obtain ⟨rfl, rfl⟩ := Prod.mk.inj (Option.some.inj hrun)
    refine main trivial (fun b hb => ?_)
    by_cases e : b = loc
    · exact .inl (by simp only [if_pos e]; exact hok)
    · simp only [if_neg e]
      exact h3 b hb

theorem fill_other {s : Sys64} (h : Fill s) (t : Nat) (p : Pc64) (h1 : ∀ k v b, s.pc t ≠ .insWrite k v b)
    (h2 : ValOk p) : Fill ⟨s.mem, fun u => if u = t then p else s.pc u⟩ := by
  refine ⟨fun u => ?_, fun b hb => ?_⟩
  · simp only; split
    · exact h2
    · exact h.ok u
  · rcases h.fill b hb with g | ⟨u, k, v, g⟩
    · exact .inl g
    · have e : u ≠ t := by rintro rfl; exact h1 k v b g
      exact .inr ⟨u, k, v, by simp [e, g]⟩

theorem fill_exec (B : Nat) (es : List Ev) (s : Sys64) (hx : Exec (Step64 B) new64 es s) : Fill s := by
  generalize h0 : new64 = s0 at hx
  induction hx with
  | nil => subst h0; exact ⟨fun _ => trivial, fun b h => absurd rfl h⟩
  | tau s1 s2 es _ hs ih =>
    cases hs with
    | run t mem p hr => exact fill_run ih t mem p hr
  | ev s1 s2 es e _ hs ih =>
    cases hs with
    | insert t key val h1 h2 h3 => exact fill_other ih t _ (by rw [h1]; simp) (by simp only [ValOk]; omega)
    | find t key h1 h2 => exact fill_other ih t _ (by rw [h1]; simp) trivial
    | set t loc val h1 h2 h3 => exact fill_other ih t _ (by rw [h1]; simp) (by simp only [ValOk]; omega)
    | ret t op r h1 => exact fill_other ih t _ (by rw [h1]; simp) trivial

theorem exec_table (B : Nat) (es : List Ev) (s : Sys64) (hx : Exec (Step64 B) new64 es s)
    (hidle : ∀ t, s.pc t = .idle) : Table B s.mem := by
  have h := exec64_inv B es s hx
  have h2 := fill_exec B es s hx
  refine ⟨h.stored, fun b hb => ?_, fun b hb => ?_⟩
  · rcases h2.fill b hb with g | ⟨t, k, v, g⟩
    · exact g
    · rw [hidle] at g; exact absurd g (by simp)
  · by_contra hv
    exact (h.vals b hv).1 hb

/-! ## Positions -/

theorem path64_lt (B key : Nat) (hB : B ≤ 64) (n : Nat) : path64 B key n < 2 ^ B := by
  rw [path64_eq B key hB]; exact Nat.mod_lt _ (Nat.two_pow_pos _)

/-- The buckets in use. -/
def usedSet (B : Nat) (keys : Nat → Nat) : Finset Nat := (Finset.range (2 ^ B)).filter (fun b => keys b ≠ empty)

/-- The number of buckets in use. -/
def used64 (B : Nat) (keys : Nat → Nat) : Nat := (usedSet B keys).card

theorem tried64 (B key : Nat) (hB : B ≤ 64) (keys : Nat → Nat) (n : Nat) (hn : n ≤ 2 ^ B)
    (h : ∀ i < n, keys (path64 B key i) ≠ empty) : n ≤ used64 B keys := by
  have h1 : ((Finset.range n).image (path64 B key)).card = n := by
    rw [Finset.card_image_of_injOn, Finset.card_range]
    intro i hi j hj e
    have hi := Finset.mem_range.mp (Finset.mem_coe.mp hi)
    have hj := Finset.mem_range.mp (Finset.mem_coe.mp hj)
    exact (hash64_tries_all B key hB).1 i (by omega) j (by omega) e
  rw [← h1]
  refine Finset.card_le_card (fun b hb => ?_)
  obtain ⟨i, hi, rfl⟩ := Finset.mem_image.mp hb
  exact Finset.mem_filter.mpr ⟨Finset.mem_range.mpr (path64_lt B key hB i), h i (Finset.mem_range.mp hi)⟩

theorem path64_period (B key : Nat) (hB : B ≤ 64) (n : Nat) : path64 B key n = path64 B key (n % 2 ^ B) := by
  rw [path64_eq B key hB, path64_eq B key hB]
  exact ((Nat.mod_modEq n (2 ^ B)).symm.mul_right (odd64 B key)).add_left key

/-- A key is found before the positions repeat. -/
theorem place_lt (B key : Nat) (hB : B ≤ 64) (keys : Nat → Nat) (n : Nat) (h : keys (path64 B key n) = key)
    (h2 : ∀ i < n, keys (path64 B key i) ≠ empty ∧ keys (path64 B key i) ≠ key) : n < 2 ^ B := by
  by_contra hge
  have hlt : n % 2 ^ B < n := lt_of_lt_of_le (Nat.mod_lt _ (Nat.two_pow_pos _)) (by omega)
  exact (h2 _ hlt).2 (by rw [← path64_period B key hB]; exact h)

/-! ## `Delete` -/

/-- The thread of the key at the position has written the key word. -/
def GoneK (m0 : Mem64) (keys : List Nat) (pc : Nat → DPc64) (b : Nat) : Prop :=
  ∃ t, keys[t]? = some (m0.key b) ∧ (pc t = .clearVal b ∨ pc t = .done)

/-- The thread of the key at the position has written both words. -/
def GoneV (m0 : Mem64) (keys : List Nat) (pc : Nat → DPc64) (b : Nat) : Prop :=
  ∃ t, keys[t]? = some (m0.key b) ∧ pc t = .done

def DelAt64 (B : Nat) (m0 : Mem64) (k cnt : Nat) (p : DPc64) : Prop :=
  ∃ j, m0.key (path64 B k j) = k ∧ (∀ i < j, m0.key (path64 B k i) ≠ empty ∧ m0.key (path64 B k i) ≠ k) ∧
    ((∃ i ≤ j, p = .read k (path64 B k i) ∧ cnt = i) ∨ (p = .clearKey (path64 B k j) ∧ cnt = j + 1) ∨
      (p = .clearVal (path64 B k j) ∧ cnt = j + 2) ∨ (p = .done ∧ cnt = j + 3))

structure DelInv64 (B : Nat) (m0 : Mem64) (keys : List Nat) (l : List Nat) (s : KSt64 DPc64) : Prop where
  thr : ∀ t k, keys[t]? = some k → DelAt64 B m0 k (l.count t) (s.pc t)
  out : ∀ t, keys[t]? = none → s.pc t = .done ∧ l.count t = 0
  goneK : ∀ b, GoneK m0 keys s.pc b → s.mem.key b = empty
  keepK : ∀ b, ¬ GoneK m0 keys s.pc b → s.mem.key b = m0.key b
  goneV : ∀ b, GoneV m0 keys s.pc b → s.mem.val b = empty
  keepV : ∀ b, ¬ GoneV m0 keys s.pc b → s.mem.val b = m0.val b

theorem nodup_idx {keys : List Nat} (h : keys.Nodup) {t u k : Nat} (ht : keys[t]? = some k) (hu : keys[u]? = some k) :
    t = u := by
  obtain ⟨a1, a2⟩ := List.getElem?_eq_some_iff.mp ht
  obtain ⟨b1, b2⟩ := List.getElem?_eq_some_iff.mp hu
  exact (List.Nodup.getElem_inj_iff h).mp (a2.trans b2.symm)

theorem del_inv64 (B : Nat) (m0 : Mem64) (htab : Table B m0) (keys : List Nat) (hnd : keys.Nodup)
    (hin : ∀ k ∈ keys, k ≠ empty ∧ ∃ b, m0.key b = k) (l : List Nat) (s : KSt64 DPc64)
    (hx : Sched64 (delRun64 B) ⟨m0, delInit64 B keys⟩ l s) : DelInv64 B m0 keys l s := by
  generalize hs0 : (⟨m0, delInit64 B keys⟩ : KSt64 DPc64) = s0 at hx
  induction hx with
  | nil =>
    subst hs0
    have hno : ∀ b, ¬ GoneK m0 keys (delInit64 B keys) b := by
      rintro b ⟨t, h1, h2⟩
      simp [delInit64, h1] at h2
    have hno' : ∀ b, ¬ GoneV m0 keys (delInit64 B keys) b := by
      rintro b ⟨t, h1, h2⟩
      simp [delInit64, h1] at h2
    refine ⟨fun t k hk => ?_, fun t ht => by simp [delInit64, ht], fun b hb => absurd hb (hno b), fun b _ => rfl,
      fun b hb => absurd hb (hno' b), fun b _ => rfl⟩
    obtain ⟨h1, b, rfl⟩ := hin k (List.mem_of_getElem? hk)
    obtain ⟨n, h2, h3⟩ := htab.place b h1
    refine ⟨n, by rw [← h2], h3, .inl ⟨0, by omega, ?_, by simp⟩⟩
    simp [delInit64, hk, path64]
  | step s l t mem' p _ hrun ih =>
    have hcnt : ∀ u, u ≠ t → (l ++ [t]).count u = l.count u := by
      intro u hu; simp [List.count_append, Ne.symm hu]
    have hcntt : (l ++ [t]).count t = l.count t + 1 := by simp [List.count_append]
    cases hk : keys[t]? with
    | none =>
      rw [(ih.out t hk).1] at hrun
      exact absurd hrun (by simp [delRun64])
    | some k =>
      obtain ⟨j, h1, h2, h3⟩ := ih.thr t k hk
      have hk0 : k ≠ empty := (hin k (List.mem_of_getElem? hk)).1
      have out : ∀ u, keys[u]? = none →
          (if u = t then p else s.pc u) = .done ∧ (l ++ [t]).count u = 0 := by
        intro u hu
        have hut : u ≠ t := fun e => by rw [e, hk] at hu; exact absurd hu (by simp)
        rw [if_neg hut, hcnt u hut]
        exact ih.out u hu
      have thr : DelAt64 B m0 k (l.count t + 1) p → ∀ u k', keys[u]? = some k' →
          DelAt64 B m0 k' ((l ++ [t]).count u) (if u = t then p else s.pc u) := by
        intro hp u k' hu
        by_cases e : u = t
        · rw [e, hk] at hu
          obtain rfl := Option.some.inj hu
          rw [if_pos e, e, hcntt]
          exact hp
        · rw [if_neg e, hcnt u e]
          exact ih.thr u k' hu
      -- the only thread that empties the position of the key
      have mine : ∀ u, keys[u]? = some (m0.key (path64 B k j)) → u = t := fun u hu => by
        rw [h1] at hu; exact nodup_idx hnd hu hk
      -- the buckets with other keys are as before
      have elseK : ∀ (q : DPc64) b, b ≠ path64 B k j → (GoneK m0 keys (fun u => if u = t then q else s.pc u) b ↔
          GoneK m0 keys s.pc b) := by
        intro q b hb
        have hu : ∀ u, keys[u]? = some (m0.key b) → u ≠ t := by
          rintro u hu rfl
          rw [hk] at hu
          have e := Option.some.inj hu
          exact hb (one_bucket htab.place _ _ (by rw [h1]; exact hk0) (by rw [h1, e])).symm
        constructor
        · rintro ⟨u, g1, g2⟩
          simp only [if_neg (hu u g1)] at g2; exact ⟨u, g1, g2⟩
        · rintro ⟨u, g1, g2⟩
          exact ⟨u, g1, by simp only [if_neg (hu u g1)]; exact g2⟩
      have elseV : ∀ (q : DPc64) b, b ≠ path64 B k j → (GoneV m0 keys (fun u => if u = t then q else s.pc u) b ↔
          GoneV m0 keys s.pc b) := by
        intro q b hb
        have hu : ∀ u, keys[u]? = some (m0.key b) → u ≠ t := by
          rintro u hu rfl
          rw [hk] at hu
          have e := Option.some.inj hu
          exact hb (one_bucket htab.place _ _ (by rw [h1]; exact hk0) (by rw [h1, e])).symm
        constructor
        · rintro ⟨u, g1, g2⟩
          simp only [if_neg (hu u g1)] at g2; exact ⟨u, g1, g2⟩
        · rintro ⟨u, g1, g2⟩
          exact ⟨u, g1, by simp only [if_neg (hu u g1)]; exact g2⟩
      have hereK : ∀ q : Nat → DPc64, GoneK m0 keys q (path64 B k j) ↔
          (q t = .clearVal (path64 B k j) ∨ q t = .done) := by
        intro q
        constructor
        · rintro ⟨u, g1, g2⟩; rw [← mine u g1]; exact g2
        · exact fun g => ⟨t, by rw [h1]; exact hk, g⟩
      have hereV : ∀ q : Nat → DPc64, GoneV m0 keys q (path64 B k j) ↔ q t = .done := by
        intro q
        constructor
        · rintro ⟨u, g1, g2⟩; rw [← mine u g1]; exact g2
        · exact fun g => ⟨t, by rw [h1]; exact hk, g⟩
      rcases h3 with ⟨i, hi, hp, hct⟩ | ⟨hp, hct⟩ | ⟨hp, hct⟩ | ⟨hp, -⟩
      · rw [hp] at hrun
        obtain ⟨rfl, rfl⟩ := Prod.mk.inj (Option.some.inj hrun)
        have hhere : ¬ GoneK m0 keys s.pc (path64 B k j) := by rw [hereK, hp]; simp
        have hhereV : ¬ GoneV m0 keys s.pc (path64 B k j) := by rw [hereV, hp]; simp
        have finish : ∀ q : DPc64, (q ≠ .done ∧ ∀ b, q ≠ .clearVal b) →
            (∀ b, GoneK m0 keys (fun u => if u = t then q else s.pc u) b ↔ GoneK m0 keys s.pc b) ∧
            ∀ b, GoneV m0 keys (fun u => if u = t then q else s.pc u) b ↔ GoneV m0 keys s.pc b := by
          rintro q ⟨q1, q2⟩
          refine ⟨fun b => ?_, fun b => ?_⟩
          · by_cases e : b = path64 B k j
            · subst e
              exact iff_of_false (by rw [hereK]; simp [q1, q2]) hhere
            · exact elseK _ b e
          · by_cases e : b = path64 B k j
            · subst e
              exact iff_of_false (by rw [hereV]; simp [q1]) hhereV
            · exact elseV _ b e
        by_cases hij : i = j
        · subst hij
          have hw : s.mem.key (path64 B k i) = k := by rw [ih.keepK _ hhere, h1]
          simp only [if_pos hw] at *
          obtain ⟨f1, f2⟩ := finish (.clearKey (path64 B k i)) (by simp)
          exact ⟨thr ⟨i, h1, h2, .inr (.inl ⟨rfl, by omega⟩)⟩, out, fun b hb => ih.goneK b ((f1 b).mp hb),
            fun b hb => ih.keepK b (fun h => hb ((f1 b).mpr h)), fun b hb => ih.goneV b ((f2 b).mp hb),
            fun b hb => ih.keepV b (fun h => hb ((f2 b).mpr h))⟩
        · have hw : s.mem.key (path64 B k i) ≠ k := by
            by_cases hg : GoneK m0 keys s.pc (path64 B k i)
            · rw [ih.goneK _ hg]; exact hk0.symm
            · rw [ih.keepK _ hg]; exact (h2 i (by omega)).2
          simp only [if_neg hw] at *
          obtain ⟨f1, f2⟩ := finish (.read k (step64 B k (path64 B k i))) (by simp)
          exact ⟨thr ⟨j, h1, h2, .inl ⟨i + 1, by omega, rfl, by omega⟩⟩, out, fun b hb => ih.goneK b ((f1 b).mp hb),
            fun b hb => ih.keepK b (fun h => hb ((f1 b).mpr h)), fun b hb => ih.goneV b ((f2 b).mp hb),
            fun b hb => ih.keepV b (fun h => hb ((f2 b).mpr h))⟩
      · rw [hp] at hrun
        obtain ⟨rfl, rfl⟩ := Prod.mk.inj (Option.some.inj hrun)
        have nV : ∀ b, GoneV m0 keys (fun u => if u = t then .clearVal (path64 B k j) else s.pc u) b ↔
            GoneV m0 keys s.pc b := by
          intro b
          by_cases e : b = path64 B k j
          · subst e
            exact iff_of_false (by rw [hereV]; simp) (by rw [hereV, hp]; simp)
          · exact elseV _ b e
        refine ⟨thr ⟨j, h1, h2, .inr (.inr (.inl ⟨rfl, by omega⟩))⟩, out, ?_, ?_,
          fun b hb => ih.goneV b ((nV b).mp hb), fun b hb => ih.keepV b (fun h => hb ((nV b).mpr h))⟩
        · intro b hb
          by_cases e : b = path64 B k j
          · simp [e]
          · simp only [if_neg e]
            exact ih.goneK b ((elseK _ b e).mp hb)
        · intro b hb
          by_cases e : b = path64 B k j
          · subst e
            exact absurd ((hereK _).mpr (.inl (by simp))) hb
          · simp only [if_neg e]
            exact ih.keepK b (fun h => hb ((elseK _ b e).mpr h))
      · rw [hp] at hrun
        obtain ⟨rfl, rfl⟩ := Prod.mk.inj (Option.some.inj hrun)
        have nK : ∀ b, GoneK m0 keys (fun u => if u = t then .done else s.pc u) b ↔
            GoneK m0 keys s.pc b := by
          intro b
          by_cases e : b = path64 B k j
          · subst e
            exact iff_of_true (by rw [hereK]; simp) (by rw [hereK, hp]; simp)
          · exact elseK _ b e
        refine ⟨thr ⟨j, h1, h2, .inr (.inr (.inr ⟨rfl, by omega⟩))⟩, out,
          fun b hb => ih.goneK b ((nK b).mp hb), fun b hb => ih.keepK b (fun h => hb ((nK b).mpr h)), ?_, ?_⟩
        · intro b hb
          by_cases e : b = path64 B k j
          · simp [e]
          · simp only [if_neg e]
            exact ih.goneV b ((elseV _ b e).mp hb)
        · intro b hb
          by_cases e : b = path64 B k j
          · subst e
            exact absurd ((hereV _).mpr (by simp)) hb
          · simp only [if_neg e]
            exact ih.keepV b (fun h => hb ((elseV _ b e).mpr h))
      · rw [hp] at hrun
        exact absurd hrun (by simp [delRun64])

/-! ## Copying -/

structure CopyInv64 (B0 B : Nat) (src : Mem64) (l : List Nat) (s : KSt64 CPc64) : Prop where
  place : ∀ b, s.mem.key b ≠ empty → Pass B s.mem.key (s.mem.key b) b
  clear : ∀ b, s.mem.key b = empty → s.mem.val b = empty
  from_ : ∀ b, s.mem.key b ≠ empty → ∃ t < 2 ^ B0, src.key t = s.mem.key b ∧
    (s.pc t = .write (src.val t) b ∨ s.pc t = .done ∧ s.mem.val b = src.val t)
  thr : ∀ t < 2 ^ B0, src.key t ≠ empty →
    (∃ j, s.pc t = .cas (src.key t) (src.val t) (path64 B (src.key t) j) ∧ l.count t = j ∧
      (∀ i < j, s.mem.key (path64 B (src.key t) i) ≠ empty) ∧ ∀ b, s.mem.key b ≠ src.key t) ∨
    ∃ b j, b = path64 B (src.key t) j ∧ (∀ i < j, s.mem.key (path64 B (src.key t) i) ≠ empty ∧
        s.mem.key (path64 B (src.key t) i) ≠ src.key t) ∧ s.mem.key b = src.key t ∧
      ((s.pc t = .write (src.val t) b ∧ l.count t = j + 1) ∨
        (s.pc t = .done ∧ s.mem.val b = src.val t ∧ l.count t = j + 2))
  idle : ∀ t, ¬ (t < 2 ^ B0 ∧ src.key t ≠ empty) → s.pc t = .done ∧ l.count t = 0

theorem copy_inv64 (B0 B : Nat) (src : Mem64) (htab : Table B0 src) (l : List Nat) (s : KSt64 CPc64)
    (hx : Sched64 (copyRun64 B) ⟨⟨fun _ => empty, fun _ => empty⟩, copyInit64 B0 B src⟩ l s) :
    CopyInv64 B0 B src l s := by
  generalize hs0 : (⟨⟨fun _ => empty, fun _ => empty⟩, copyInit64 B0 B src⟩ : KSt64 CPc64) = s0 at hx
  induction hx with
  | nil =>
    subst hs0
    refine ⟨fun b hb => absurd rfl hb, fun _ _ => rfl, fun b hb => absurd rfl hb, fun t ht hk => .inl ⟨0, ?_⟩, ?_⟩
    · refine ⟨by simp [copyInit64, ht, hk, path64], by simp, fun i hi => absurd hi (by omega), fun b => hk.symm⟩
    · intro t ht
      refine ⟨?_, by simp⟩
      simp only [copyInit64]
      split
      · next h1 =>
        split
        · rfl
        · next h2 => exact absurd ⟨h1, h2⟩ ht
      · rfl
  | step s l t mem' p _ hrun ih =>
    have hcnt : ∀ u, u ≠ t → (l ++ [t]).count u = l.count u := by
      intro u hu; simp [List.count_append, Ne.symm hu]
    have hcntt : (l ++ [t]).count t = l.count t + 1 := by simp [List.count_append]
    by_cases hreal : t < 2 ^ B0 ∧ src.key t ≠ empty
    swap
    · rw [(ih.idle t hreal).1] at hrun
      exact absurd hrun (by simp [copyRun64])
    obtain ⟨ht, hk⟩ := hreal
    have idle' : ∀ u, ¬ (u < 2 ^ B0 ∧ src.key u ≠ empty) →
        (if u = t then p else s.pc u) = .done ∧ (l ++ [t]).count u = 0 := by
      intro u hu
      have e : u ≠ t := by rintro rfl; exact hu ⟨ht, hk⟩
      rw [if_neg e, hcnt u e]
      exact ih.idle u hu
    have other : ∀ u, u ≠ t → src.key u ≠ src.key t := fun u hu e =>
      hu (one_bucket htab.place t u hk e).symm
    rcases ih.thr t ht hk with ⟨j, hp, hct, htr, habs⟩ | ⟨b, j, hb, htr, hkb, ⟨hp, hct⟩ | ⟨hp, -⟩⟩
    · rw [hp, copyRun64] at hrun
      split at hrun
      · next he =>
        obtain ⟨rfl, rfl⟩ := Prod.mk.inj (Option.some.inj hrun)
        have hg : Grow s.mem.key (fun i => if i = path64 B (src.key t) j then src.key t else s.mem.key i) := by
          intro b hb
          have : b ≠ path64 B (src.key t) j := fun e => hb (e ▸ he)
          simp [this]
        have hpass : Pass B s.mem.key (src.key t) (path64 B (src.key t) j) :=
          ⟨j, rfl, fun i hi => ⟨htr i hi, habs _⟩⟩
        refine ⟨?_, ?_, ?_, ?_, idle'⟩
        · intro b hb
          by_cases e : b = path64 B (src.key t) j
          · simp only [if_pos e] at hb ⊢
            rw [e]; exact hpass.mono hg
          · simp only [if_neg e] at hb ⊢
            exact (ih.place b hb).mono hg
        · intro b hb
          by_cases e : b = path64 B (src.key t) j
          · simp only [if_pos e] at hb; exact absurd hb hk
          · simp only [if_neg e] at hb; exact ih.clear b hb
        · intro b hb
          by_cases e : b = path64 B (src.key t) j
          · simp only [if_pos e]
            exact ⟨t, ht, rfl, .inl (by simp [e])⟩
          · simp only [if_neg e] at hb ⊢
            obtain ⟨u, g1, g2, g3⟩ := ih.from_ b hb
            have hu : u ≠ t := by rintro rfl; exact habs b g2.symm
            exact ⟨u, g1, g2, by simpa only [if_neg hu] using g3⟩
        · intro u hu hku
          by_cases e : u = t
          · subst e
            refine .inr ⟨path64 B (src.key u) j, j, rfl, fun i hi => ?_, by simp, .inl ⟨by simp, by rw [hcntt, hct]⟩⟩
            have hne : path64 B (src.key u) i ≠ path64 B (src.key u) j := fun e => htr i hi (e ▸ he)
            simp only [if_neg hne]
            exact ⟨htr i hi, habs _⟩
          · simp only [if_neg e, hcnt u e]
            rcases ih.thr u hu hku with ⟨j', g1, g2, g3, g4⟩ | ⟨b, j', g1, g2, g3, g4⟩
            · refine .inl ⟨j', g1, g2, fun i hi => ?_, fun b => ?_⟩
              · have e1 := hg _ (g3 i hi)
                simp only at e1
                rw [e1]; exact g3 i hi
              · split
                · exact (other u e).symm
                · exact g4 b
            · refine .inr ⟨b, j', g1, fun i hi => ?_, ?_, g4⟩
              · have e1 := hg _ (g2 i hi).1
                simp only at e1
                rw [e1]; exact g2 i hi
              · have e1 := hg b (g3 ▸ hku)
                simp only at e1
                rw [e1, g3]
      · next he =>
        obtain ⟨rfl, rfl⟩ := Prod.mk.inj (Option.some.inj hrun)
        refine ⟨ih.place, ih.clear, ?_, ?_, idle'⟩
        · intro b hb
          obtain ⟨u, g1, g2, g3⟩ := ih.from_ b hb
          have hu : u ≠ t := by rintro rfl; exact habs b g2.symm
          exact ⟨u, g1, g2, by simpa only [if_neg hu] using g3⟩
        · intro u hu hku
          by_cases e : u = t
          · subst e
            refine .inl ⟨j + 1, by simp [path64], by rw [hcntt, hct], fun i hi => ?_, habs⟩
            rcases Nat.lt_succ_iff_lt_or_eq.mp hi with g | rfl
            · exact htr i g
            · exact he
          · simp only [if_neg e, hcnt u e]
            exact ih.thr u hu hku
    · rw [hp] at hrun
      obtain ⟨rfl, rfl⟩ := Prod.mk.inj (Option.some.inj hrun)
      refine ⟨ih.place, ?_, ?_, ?_, idle'⟩
      · intro b' hb'
        have e : b' ≠ b := by rintro rfl; exact hk (hkb ▸ hb')
        simp only [if_neg e]
        exact ih.clear b' hb'
      · intro b' hb'
        by_cases e : b' = b
        · subst e
          exact ⟨t, ht, hkb.symm, .inr ⟨by simp, by simp⟩⟩
        · obtain ⟨u, g1, g2, g3⟩ := ih.from_ b' hb'
          have hu : u ≠ t := by
            rintro rfl
            exact e (one_bucket ih.place b b' (hkb ▸ hk) (by rw [hkb, ← g2])).symm
          refine ⟨u, g1, g2, ?_⟩
          simp only [if_neg hu, if_neg e]
          exact g3
      · intro u hu hku
        by_cases e : u = t
        · subst e
          exact .inr ⟨b, j, hb, htr, hkb, .inr ⟨by simp, by simp, by rw [hcntt, hct]⟩⟩
        · simp only [if_neg e, hcnt u e]
          rcases ih.thr u hu hku with g | ⟨b', j', g1, g2, g3, g4⟩
          · exact .inl g
          · refine .inr ⟨b', j', g1, g2, g3, g4.imp id ?_⟩
            rintro ⟨a1, a2, a3⟩
            have hne : b' ≠ b := by
              rintro rfl
              exact other u e (g3.symm.trans hkb)
            exact ⟨a1, by simpa only [if_neg hne] using a2, a3⟩
    · rw [hp] at hrun
      exact absurd hrun (by simp [copyRun64])

end Verif.Hash
