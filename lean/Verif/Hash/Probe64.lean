import Verif.Hash.Props64
import Verif.Hash.Progress

/-!
# The positions that `Hash64` tries
-/

namespace Verif.Hash

/-- The odd step of a key. -/
def odd64 (B key : Nat) : Nat := 1 ||| ((key >>> (B - 1)) ^^^ key)

theorem odd64_odd (B key : Nat) : odd64 B key % 2 = 1 := by
  unfold odd64
  have h := Nat.testBit_or 1 ((key >>> (B - 1)) ^^^ key) 0
  rw [show Nat.testBit 1 0 = true by decide, Bool.true_or, Nat.testBit_zero] at h
  simpa using h

theorem path64_eq (B key : Nat) (hB : B ≤ 64) (n : Nat) :
    path64 B key n = (key + n * odd64 B key) % 2 ^ B := by
  induction n with
  | zero => simp [path64, first64, Nat.and_two_pow_sub_one_eq_mod]
  | succ n ih =>
    rw [path64, step64, ih, Nat.and_two_pow_sub_one_eq_mod, Nat.mod_mod_of_dvd _ (pow_dvd_pow 2 hB)]
    show ((key + n * odd64 B key) % 2 ^ B + odd64 B key) % 2 ^ B = _
    rw [Nat.mod_add_mod]
    congr 1
    ring

/-- C66: the positions that `Hash64` tries for a key are all positions of the table, each one once before the
first one is tried again.  So no free position can be missed. -/
theorem hash64_tries_all (B key : Nat) (hB : B ≤ 64) :
    (∀ i < 2 ^ B, ∀ j < 2 ^ B, path64 B key i = path64 B key j → i = j) ∧
    ∀ b < 2 ^ B, ∃ i < 2 ^ B, path64 B key i = b := by
  have hcop : Nat.Coprime (2 ^ B) (odd64 B key) := by
    apply Nat.Coprime.pow_left
    rw [Nat.coprime_two_left, Nat.odd_iff]
    exact odd64_odd B key
  have hinj : ∀ i < 2 ^ B, ∀ j < 2 ^ B, path64 B key i = path64 B key j → i = j := by
    intro i hi j hj h
    rw [path64_eq B key hB, path64_eq B key hB] at h
    have h1 : i * odd64 B key ≡ j * odd64 B key [MOD 2 ^ B] := Nat.ModEq.add_left_cancel' key h
    have h2 : i ≡ j [MOD 2 ^ B] := Nat.ModEq.cancel_right_of_coprime hcop h1
    exact Nat.ModEq.eq_of_lt_of_lt h2 hi hj
  refine ⟨hinj, ?_⟩
  intro b hb
  have hs : Set.SurjOn (path64 B key) (Finset.range (2 ^ B) : Set Nat) (Finset.range (2 ^ B) : Set Nat) := by
    apply Finset.surjOn_of_injOn_of_card_le
    · intro i _
      simp only [Finset.coe_range, Set.mem_Iio]
      rw [path64_eq B key hB]
      exact Nat.mod_lt _ (Nat.two_pow_pos _)
    · intro i hi j hj h
      exact hinj i (by simpa using hi) j (by simpa using hj) h
    · exact le_refl _
  obtain ⟨i, hi, h⟩ := hs (by simpa using hb)
  exact ⟨i, by simpa using hi, h⟩

/-- Four positions; key 5 has step 7. -/
example : (List.range 4).map (path64 2 5) = [1, 0, 3, 2] := by decide

end Verif.Hash
