import Verif.Hash.Phase64

/-!
# Properties of `Hash64`: deleting and resizing
-/

namespace Verif.Hash

/-- What is stored: the key and the value are the two words of one bucket of a table with two to the `B` buckets. -/
def Stored (B : Nat) (m : Mem64) (k v : Nat) : Prop := k ≠ empty ∧ ∃ b < 2 ^ B, m.key b = k ∧ m.val b = v

/-- Outside of the buckets there is nothing, and no bucket is half full. -/
theorem table_inside {B : Nat} (hB : B ≤ 64) {m : Mem64} (h : Table B m) (b : Nat) (hb : m.key b ≠ empty) : b < 2 ^ B := by
  obtain ⟨n, h1, -⟩ := h.place b hb
  rw [h1]; exact path64_lt B _ hB n

theorem table_key {B : Nat} (hB : B ≤ 64) {m : Mem64} (h : Table B m) (k : Nat) :
    (∃ v, Stored B m k v) ↔ k ≠ empty ∧ ∃ b, m.key b = k := by
  constructor
  · rintro ⟨v, h1, b, -, h2, -⟩
    exact ⟨h1, b, h2⟩
  · rintro ⟨h1, b, rfl⟩
    exact ⟨m.val b, h1, b, table_inside hB h b h1, rfl, rfl⟩

/-! ## C66: the table between kernels -/

/-- When all operations have returned, every bucket is empty in both words or full in both, no key is in two
buckets, every key is stored with one value, and the value was inserted for the key or set at its bucket. -/
theorem hash64_table (B : Nat) (hB : B ≤ 64) (es : List Ev) (s : Sys64) (hx : Exec (Step64 B) new64 es s)
    (hidle : ∀ t, s.pc t = .idle) :
    (∀ b, (s.mem.key b = empty ∧ s.mem.val b = empty) ∨
      (b < 2 ^ B ∧ s.mem.key b ≠ empty ∧ s.mem.val b ≠ empty ∧
        ((∃ t, .call t (.insert (s.mem.key b) (s.mem.val b)) ∈ es) ∨ ∃ t, .call t (.set2 b (s.mem.val b)) ∈ es))) ∧
    ∀ k v v', Stored B s.mem k v → Stored B s.mem k v' → v = v' := by
  have h := exec_table B es s hx hidle
  have hI := exec64_inv B es s hx
  refine ⟨fun b => ?_, ?_⟩
  · by_cases hb : s.mem.key b = empty
    · exact .inl ⟨hb, h.clear b hb⟩
    · refine .inr ⟨table_inside hB h b hb, hb, h.full b hb, ?_⟩
      rcases (hI.vals b (h.full b hb)).2 with g | ⟨t, loc, g1, g2⟩
      · exact .inl g
      · obtain rfl := one_bucket h.place b loc hb g2
        exact .inr ⟨t, g1⟩
  · rintro k v v' ⟨h1, b, -, h2, h3⟩ ⟨-, b', -, h4, h5⟩
    obtain rfl := one_bucket h.place b b' (h2 ▸ h1) (h4.trans h2.symm)
    rw [← h3, ← h5]

/-! ## C115: deleting -/

/-- If each of a list of different keys that are in the table is deleted by one thread: the threads can make steps
until they have finished; they finish within the number of full buckets and two more steps; then the buckets of
these keys are empty in both words and the other buckets are as before. -/
theorem hash64_delete (B : Nat) (hB : B ≤ 64) (es : List Ev) (s : Sys64) (hx : Exec (Step64 B) new64 es s)
    (hidle : ∀ t, s.pc t = .idle) (keys : List Nat) (hnd : keys.Nodup) (hin : ∀ k ∈ keys, ∃ v, Stored B s.mem k v)
    (l : List Nat) (s' : KSt64 DPc64) (hl : Sched64 (delRun64 B) ⟨s.mem, delInit64 B keys⟩ l s') :
    (∀ t, s'.pc t ≠ .done → delRun64 B s'.mem (s'.pc t) ≠ none) ∧
    (∀ t, l.count t ≤ used64 B s.mem.key + 2) ∧
    ((∀ t, s'.pc t = .done) → ∀ b,
      (s.mem.key b ∈ keys → s'.mem.key b = empty ∧ s'.mem.val b = empty) ∧
      (s.mem.key b ∉ keys → s'.mem.key b = s.mem.key b ∧ s'.mem.val b = s.mem.val b)) := by
  have htab := exec_table B es s hx hidle
  have hI := del_inv64 B s.mem htab keys hnd (fun k hk => (table_key hB htab k).mp (hin k hk)) l s' hl
  refine ⟨?_, ?_, ?_⟩
  · intro t h
    generalize s'.pc t = p at h
    cases p with
    | read key cur => simp [delRun64]
    | clearKey cur => simp [delRun64]
    | clearVal cur => simp [delRun64]
    | done => exact absurd rfl h
  · intro t
    cases hk : keys[t]? with
    | none => rw [(hI.out t hk).2]; omega
    | some k =>
      obtain ⟨j, h1, h2, h3⟩ := hI.thr t k hk
      have hk0 : k ≠ empty := ((table_key hB htab k).mp (hin k (List.mem_of_getElem? hk))).1
      have hj := place_lt B k hB s.mem.key j h1 h2
      have : j + 1 ≤ used64 B s.mem.key := by
        refine tried64 B k hB s.mem.key (j + 1) (by omega) (fun i hi => ?_)
        rcases Nat.lt_succ_iff_lt_or_eq.mp hi with h5 | rfl
        · exact (h2 i h5).1
        · rw [h1]; exact hk0
      rcases h3 with ⟨i, hi, -, h5⟩ | ⟨-, h5⟩ | ⟨-, h5⟩ | ⟨-, h5⟩ <;> omega
  · intro hall b
    constructor
    · intro hk
      obtain ⟨t, ht, e⟩ := List.mem_iff_getElem.mp hk
      have ht' : keys[t]? = some (s.mem.key b) := by rw [← e]; exact List.getElem?_eq_getElem ht
      exact ⟨hI.goneK b ⟨t, ht', .inr (hall t)⟩, hI.goneV b ⟨t, ht', hall t⟩⟩
    · intro hno
      refine ⟨hI.keepK b ?_, hI.keepV b ?_⟩
      · rintro ⟨t, h1, -⟩
        exact hno (List.mem_of_getElem? h1)
      · rintro ⟨t, h1, -⟩
        exact hno (List.mem_of_getElem? h1)

/-- After all keys have been deleted the hash is as new: the check of the destructor passes. -/
theorem hash64_delete_all (B : Nat) (hB : B ≤ 64) (es : List Ev) (s : Sys64) (hx : Exec (Step64 B) new64 es s)
    (hidle : ∀ t, s.pc t = .idle) (keys : List Nat) (hnd : keys.Nodup)
    (hin : ∀ k, k ∈ keys ↔ ∃ v, Stored B s.mem k v) (l : List Nat) (s' : KSt64 DPc64)
    (hl : Sched64 (delRun64 B) ⟨s.mem, delInit64 B keys⟩ l s') (hall : ∀ t, s'.pc t = .done) :
    s'.mem = new64.mem ∧ checkEmpty64 B s'.mem = true := by
  have htab := exec_table B es s hx hidle
  obtain ⟨-, -, h⟩ := hash64_delete B hB es s hx hidle keys hnd (fun k hk => (hin k).mp hk) l s' hl
  have h1 : ∀ b, s'.mem.key b = empty ∧ s'.mem.val b = empty := by
    intro b
    obtain ⟨g1, g2⟩ := h hall b
    by_cases e : s.mem.key b ∈ keys
    · exact g1 e
    · obtain ⟨g3, g4⟩ := g2 e
      have he : s.mem.key b = empty := by
        by_contra hne
        exact e ((hin _).mpr ((table_key hB htab _).mpr ⟨hne, b, rfl⟩))
      rw [g3, g4]
      exact ⟨he, htab.clear b he⟩
  have h2 : s'.mem = new64.mem := by
    cases hm : s'.mem with
    | mk kk vv =>
      rw [hm] at h1
      simp only [new64, Mem64.mk.injEq]
      exact ⟨funext fun b => (h1 b).1, funext fun b => (h1 b).2⟩
  refine ⟨h2, ?_⟩
  rw [h2]
  simp [checkEmpty64, new64]

/-- An execution of a kernel that runs the threads in the given order. -/
def runList {P : Type} (run : Mem64 → P → Option (Mem64 × P)) (s : KSt64 P) : List Nat → Option (KSt64 P)
  | [] => some s
  | t :: l => (run s.mem (s.pc t)).bind (fun x => runList run ⟨x.1, fun u => if u = t then x.2 else s.pc u⟩ l)

/-- The keys 3 and 131 share their first bucket of 128.  They are deleted by two threads: the first empties the
bucket of 3 before the second has looked there. -/
example : (runList (delRun64 7) ⟨⟨fun b => if b = 3 then 3 else if b = 4 then 131 else empty,
      fun b => if b = 3 then 7 else if b = 4 then 8 else empty⟩, delInit64 7 [3, 131]⟩ [0, 0, 1]).map
    (fun s => (s.pc 0, s.pc 1, s.mem.key 3, s.mem.val 3)) =
    some (.clearVal 3, .read 131 (path64 7 131 1), empty, 7) := by decide +kernel

/-! ## C116: resizing -/

theorem bitsLoop_le (N : Nat) : ∀ fuel n bits r, bitsLoop N fuel n bits = some r → r < bits + fuel := by
  intro fuel
  induction fuel with
  | zero => intro n bits r h; exact absurd h (by simp [bitsLoop])
  | succ f ih =>
    intro n bits r h
    rw [bitsLoop] at h
    split at h
    · have := ih _ _ _ h; omega
    · obtain rfl := Option.some.inj h; omega

theorem resize64_eq (N B : Nat) (h : resize64 N = some B) : N = 2 ^ B ∧ B ≤ 64 := by
  unfold resize64 at h
  split at h
  · unfold construct64 at h
    split at h
    · exact absurd h (by simp)
    · next bits hb =>
      split at h
      · next hc =>
        obtain rfl := Option.some.inj h
        have := bitsLoop_le N _ _ _ _ hb
        refine ⟨?_, by omega⟩
        rw [hc.2.2, Nat.shiftLeft_eq, pow_succ, Nat.mul_comm]
      · exact absurd h (by simp)
  · exact absurd h (by simp)

/-- `Resize`: if the checks pass and the new table has at least as many buckets as the old one has keys, the threads
can make steps until they have finished; each finishes within the number of its buckets and one more step; and then
the new table has the same keys with the same values, no key twice, and no bucket that is half full. -/
theorem hash64_resize (B0 : Nat) (hB0 : B0 ≤ 64) (es : List Ev) (s : Sys64) (hx : Exec (Step64 B0) new64 es s)
    (hidle : ∀ t, s.pc t = .idle) (N B : Nat) (hN : resize64 N = some B) (hroom : used64 B0 s.mem.key ≤ N)
    (l : List Nat) (s' : KSt64 CPc64)
    (hl : Sched64 (copyRun64 B) ⟨new64.mem, copyInit64 B0 B s.mem⟩ l s') :
    (∀ t, s'.pc t ≠ .done → copyRun64 B s'.mem (s'.pc t) ≠ none) ∧
    (∀ t, l.count t ≤ N + 1) ∧
    ((∀ t, s'.pc t = .done) →
      (∀ k v, Stored B s'.mem k v ↔ Stored B0 s.mem k v) ∧ Table B s'.mem ∧
      ∀ b b', s'.mem.key b ≠ empty → s'.mem.key b' = s'.mem.key b → b = b') := by
  obtain ⟨rfl, hB⟩ := resize64_eq N B hN
  have htab := exec_table B0 es s hx hidle
  have hI := copy_inv64 B0 B s.mem htab l s' hl
  refine ⟨?_, ?_, ?_⟩
  · intro t h
    generalize s'.pc t = p at h
    cases p with
    | cas key val cur => simp only [copyRun64]; split <;> simp
    | write val cur => simp [copyRun64]
    | done => exact absurd rfl h
  · intro t
    by_cases hreal : t < 2 ^ B0 ∧ s.mem.key t ≠ empty
    swap
    · rw [(hI.idle t hreal).2]; omega
    obtain ⟨ht, hk⟩ := hreal
    rcases hI.thr t ht hk with ⟨j, -, hct, h2, h3⟩ | ⟨b, j, hb, h2, h3, h4⟩
    · -- the key is not in the new table, so the new table is not full
      have hlt : used64 B s'.mem.key < used64 B0 s.mem.key := by
        have hsub : (usedSet B s'.mem.key).image s'.mem.key ⊂ (usedSet B0 s.mem.key).image s.mem.key := by
          refine (Finset.ssubset_iff_of_subset ?_).mpr ⟨s.mem.key t, ?_, ?_⟩
          · intro k hk'
            obtain ⟨b, h5, rfl⟩ := Finset.mem_image.mp hk'
            obtain ⟨-, h6⟩ := Finset.mem_filter.mp h5
            obtain ⟨u, h7, h8, -⟩ := hI.from_ b h6
            exact Finset.mem_image.mpr ⟨u, Finset.mem_filter.mpr ⟨Finset.mem_range.mpr h7, by rw [h8]; exact h6⟩, h8⟩
          · exact Finset.mem_image.mpr ⟨t, Finset.mem_filter.mpr ⟨Finset.mem_range.mpr ht, hk⟩, rfl⟩
          · intro hk'
            obtain ⟨b, -, h5⟩ := Finset.mem_image.mp hk'
            exact h3 b h5
        have e1 : ((usedSet B s'.mem.key).image s'.mem.key).card = used64 B s'.mem.key := by
          refine Finset.card_image_of_injOn (fun b hb b' hb' e => ?_)
          exact one_bucket hI.place b b' (Finset.mem_filter.mp (Finset.mem_coe.mp hb)).2 e.symm
        have e2 := Finset.card_image_le (s := usedSet B0 s.mem.key) (f := s.mem.key)
        have e3 := Finset.card_lt_card hsub
        simp only [used64] at *
        omega
      by_contra hbig
      have := tried64 B (s.mem.key t) hB s'.mem.key (2 ^ B) le_rfl (fun i hi => h2 i (by omega))
      omega
    · have hj := place_lt B (s.mem.key t) hB s'.mem.key j (by rw [← hb]; exact h3) h2
      rcases h4 with ⟨-, h5⟩ | ⟨-, -, h5⟩ <;> omega
  · intro hall
    have hval : ∀ b, s'.mem.key b ≠ empty → ∃ t < 2 ^ B0, s.mem.key t = s'.mem.key b ∧ s'.mem.val b = s.mem.val t := by
      intro b hb
      obtain ⟨t, h1, h2, h3⟩ := hI.from_ b hb
      rcases h3 with h3 | ⟨-, h3⟩
      · rw [hall] at h3; exact absurd h3 (by simp)
      · exact ⟨t, h1, h2, h3⟩
    have hT : Table B s'.mem := by
      refine ⟨hI.place, fun b hb => ?_, hI.clear⟩
      obtain ⟨t, -, h2, h3⟩ := hval b hb
      rw [h3]
      exact htab.full t (by rw [h2]; exact hb)
    refine ⟨fun k v => ⟨?_, ?_⟩, hT, fun b b' => one_bucket hI.place b b'⟩
    · rintro ⟨h1, b, -, rfl, rfl⟩
      obtain ⟨t, h2, h3, h4⟩ := hval b h1
      exact ⟨h1, t, h2, h3, h4.symm⟩
    · rintro ⟨h1, t, ht, rfl, rfl⟩
      rcases hI.thr t ht h1 with ⟨j, h2, -⟩ | ⟨b, j, -, -, h3, h4⟩
      · rw [hall] at h2; exact absurd h2 (by simp)
      · rcases h4 with ⟨h4, -⟩ | ⟨-, h4, -⟩
        · rw [hall] at h4; exact absurd h4 (by simp)
        · exact ⟨h1, b, table_inside hB hT b (by rw [h3]; exact h1), h3, h4⟩

/-- The sizes that `Resize` accepts. -/
example : resize64 128 = some 7 ∧ resize64 4096 = some 12 ∧ resize64 64 = none ∧ resize64 130 = none := by decide

/-- The keys 3 and 259 are in different buckets of 256 and share the first bucket of 128; the second thread takes
it, so the first one moves on. -/
example : (runList (copyRun64 7) ⟨new64.mem, copyInit64 8 7 ⟨fun b => if b = 3 then 3 else if b = 7 then 259 else empty,
      fun b => if b = 3 then 50 else if b = 7 then 60 else empty⟩⟩ [7, 3, 7, 3, 3]).map
    (fun s => (s.pc 3, s.pc 7, s.mem.key 3, s.mem.val 3, s.mem.key 6, s.mem.val 6)) =
    some (.done, .done, 259, 60, 3, 50) := by decide +kernel

end Verif.Hash
