import Verif.Hash.Spec
import Mathlib.Data.Nat.Bitwise
import Mathlib.Tactic.Ring
import Mathlib.Algebra.Order.Ring.Nat
import Mathlib.Data.Nat.ModEq
import Mathlib.Data.Nat.Prime.Basic

/-!
# The positions that are tried for a key, and the contents of a word
-/

namespace Verif.Hash

/-- The documented conditions on the numbers of bits. -/
structure Cfg.Ok (c : Cfg) : Prop where
  bLow : 7 ≤ c.B
  bHigh : c.B ≤ 30
  key : c.keyBits < 64
  val : c.valBits < 64
  sum : 64 ≤ c.keyBits + c.valBits
  group : c.impl + 5 ≤ c.B

theorem bitsLoop_some (buckets : Nat) (fuel n bits r : Nat) (h : bitsLoop buckets fuel n bits = some r) :
    bits ≤ r ∧ r < bits + fuel := by
  induction fuel generalizing n bits with
  | zero => simp [bitsLoop] at h
  | succ fuel ih =>
    rw [bitsLoop] at h
    split at h
    · have := ih _ _ h; omega
    · obtain rfl := Option.some.inj h; omega

/-- What the constructor accepts satisfies the conditions. -/
theorem construct_ok (buckets keyBits : Nat) (valBits : Option Nat) (c : Cfg) (hk : keyBits < 64)
    (h : construct buckets keyBits valBits = some c) : c.Ok ∧ c.N = buckets := by
  unfold construct at h
  split at h
  · exact absurd h (by simp)
  · next bits hb =>
    simp only at h
    split at h
    · next hc =>
      obtain ⟨h1, h2, h3, h4, h5, h6⟩ := hc
      obtain rfl := Option.some.inj h
      rw [Nat.shiftLeft_eq, Nat.mul_comm, ← pow_succ] at h3
      have hlow : 7 ≤ bits + 1 := by
        by_contra hlt
        have := Nat.pow_le_pow_right (n := 2) (by omega) (show bits + 1 ≤ 6 by omega)
        omega
      have hhigh : bits + 1 ≤ 30 := by
        by_contra hlt
        have := Nat.pow_le_pow_right (n := 2) (by omega) (show 31 ≤ bits + 1 by omega)
        omega
      refine ⟨⟨hlow, hhigh, hk, h6, h4, ?_⟩, h3.symm⟩
      simp only [Cfg.impl]
      rw [h3, Nat.shiftRight_eq_div_pow, Nat.le_div_iff_mul_le (Nat.two_pow_pos _),
        show 32 = 2 ^ 5 by rfl, ← pow_add, Nat.pow_le_pow_iff_right (by omega)] at h5
      omega
    · exact absurd h (by simp)

variable (c : Cfg)

/-- The number of positions that a key can have. -/
def Cfg.G (c : Cfg) : Nat := 2 ^ (c.B - c.impl)

/-- The odd factor of `bucket_inc`. -/
def odd (key : Nat) : Nat := 1 ||| ((key >>> (c.B - 1)) ^^^ key)

theorem odd_odd (key : Nat) : odd c key % 2 = 1 := by
  unfold odd
  have h := Nat.testBit_or 1 ((key >>> (c.B - 1)) ^^^ key) 0
  rw [show Nat.testBit 1 0 = true by decide, Bool.true_or, Nat.testBit_zero] at h
  simpa using h

/-- The position that is tried after `n` failures. -/
def probe (key n : Nat) : Nat := (key + n * (odd c key * 2 ^ c.impl)) % c.N

theorem N_dvd (hc : c.Ok) : c.N ∣ 2 ^ 32 := pow_dvd_pow 2 (by have := hc.bHigh; omega)

theorem mask (c : Cfg) (x : Nat) : x &&& (c.N - 1) = x % c.N := Nat.and_two_pow_sub_one_eq_mod x c.B

theorem first_eq (hc : c.Ok) (key : Nat) : first c key = probe c key 0 := by
  simp only [first, probe, mask, Nat.zero_mul, Nat.add_zero]
  exact Nat.mod_mod_of_dvd _ (N_dvd c hc)

theorem inc_mod (hc : c.Ok) (key : Nat) : inc c key % c.N = odd c key * 2 ^ c.impl % c.N := by
  have h1 := N_dvd c hc
  have h2 : c.N ∣ 2 ^ 64 := h1.trans (pow_dvd_pow 2 (by omega))
  simp only [inc]
  rw [Nat.mod_mod_of_dvd _ h1, Nat.mod_mod_of_dvd _ h2, Nat.shiftLeft_eq]
  rfl

theorem next_eq (hc : c.Ok) (key n : Nat) : next c key (probe c key n) = probe c key (n + 1) := by
  simp only [next, mask]
  rw [Nat.mod_mod_of_dvd _ (N_dvd c hc), Nat.add_mod, inc_mod c hc, ← Nat.add_mod]
  simp only [probe]
  rw [Nat.mod_add_mod]
  congr 1
  ring

theorem probe_lt (key n : Nat) : probe c key n < c.N := Nat.mod_lt _ (Nat.two_pow_pos _)

theorem impl_dvd (hc : c.Ok) : 2 ^ c.impl ∣ c.N := pow_dvd_pow 2 (by have := hc.group; omega)

/-- The position determines the implicit bits of the key. -/
theorem probe_impl (hc : c.Ok) (key n : Nat) : probe c key n % 2 ^ c.impl = key % 2 ^ c.impl := by
  simp only [probe]
  rw [Nat.mod_mod_of_dvd _ (impl_dvd c hc), ← Nat.mul_assoc, Nat.add_mul_mod_self_right]

/-- As many positions are tried as there are, before the first one is tried again. -/
theorem probe_inj (hc : c.Ok) (key i j : Nat) (hi : i < c.G) (hj : j < c.G) (h : probe c key i = probe c key j) :
    i = j := by
  wlog hij : i ≤ j generalizing i j with H
  · exact (H j i hj hi h.symm (by omega)).symm
  have h1 : i * (odd c key * 2 ^ c.impl) ≡ j * (odd c key * 2 ^ c.impl) [MOD c.N] := Nat.ModEq.add_left_cancel' key h
  have h2 := (Nat.modEq_iff_dvd' (Nat.mul_le_mul_right _ hij)).mp h1
  rw [← Nat.sub_mul, ← Nat.mul_assoc] at h2
  have h3 : c.N = c.G * 2 ^ c.impl := by
    simp only [Cfg.N, Cfg.G]
    rw [← pow_add]; congr 1; have := hc.group; omega
  rw [h3] at h2
  have h4 := Nat.dvd_of_mul_dvd_mul_right (Nat.two_pow_pos _) h2
  have h5 : Nat.Coprime c.G (odd c key) := by
    apply Nat.Coprime.pow_left
    rw [Nat.coprime_two_left]
    exact Nat.odd_iff.mpr (odd_odd c key)
  have h6 := h5.dvd_of_dvd_mul_right h4
  rcases Nat.eq_zero_or_pos (j - i) with h0 | h0
  · omega
  · have := Nat.le_of_dvd h0 h6; omega

/-! ## Words -/

theorem kept_add (hc : c.Ok) : c.kept + c.valBits = 64 := by have := hc.val; simp only [Cfg.kept]; omega

theorem kept_impl (hc : c.Ok) : c.keyBits = c.kept + c.impl := by
  have := hc.val; have := hc.sum; simp only [Cfg.kept, Cfg.impl]; omega

theorem keptKey_lt (hc : c.Ok) (key : Nat) (h : key < 2 ^ c.keyBits) : keptKey c key < 2 ^ c.kept := by
  rw [keptKey, Nat.shiftRight_eq_div_pow, Nat.div_lt_iff_lt_mul (Nat.two_pow_pos _), ← pow_add, ← kept_impl c hc]
  exact h

theorem shift_val (hc : c.Ok) (val : Nat) (h : val < 2 ^ c.valBits) :
    (val <<< c.kept) % 2 ^ 64 = 2 ^ c.kept * val := by
  rw [Nat.shiftLeft_eq, Nat.mul_comm, Nat.mod_eq_of_lt]
  calc 2 ^ c.kept * val < 2 ^ c.kept * 2 ^ c.valBits := Nat.mul_lt_mul_of_pos_left h (Nat.two_pow_pos _)
    _ = 2 ^ 64 := by rw [← pow_add, kept_add c hc]

theorem mkWord_eq (hc : c.Ok) (key val : Nat) (hk : key < 2 ^ c.keyBits) (hv : val < 2 ^ c.valBits) :
    mkWord c key val = 2 ^ c.kept * val + keptKey c key := by
  rw [mkWord, shift_val c hc val hv, Nat.two_pow_add_eq_or_of_lt (keptKey_lt c hc key hk)]

theorem wordKey_eq (w : Nat) : wordKey c w = w % 2 ^ c.kept := Nat.and_two_pow_sub_one_eq_mod w c.kept

theorem wordVal_eq (w : Nat) : wordVal c w = w / 2 ^ c.kept := Nat.shiftRight_eq_div_pow w c.kept

theorem wordKey_mkWord (hc : c.Ok) (key val : Nat) (hk : key < 2 ^ c.keyBits) (hv : val < 2 ^ c.valBits) :
    wordKey c (mkWord c key val) = keptKey c key := by
  rw [wordKey_eq, mkWord_eq c hc key val hk hv, Nat.mul_add_mod]
  exact Nat.mod_eq_of_lt (keptKey_lt c hc key hk)

theorem wordVal_mkWord (hc : c.Ok) (key val : Nat) (hk : key < 2 ^ c.keyBits) (hv : val < 2 ^ c.valBits) :
    wordVal c (mkWord c key val) = val := by
  rw [wordVal_eq, mkWord_eq c hc key val hk hv, Nat.mul_add_div (Nat.two_pow_pos _),
    Nat.div_eq_of_lt (keptKey_lt c hc key hk), Nat.add_zero]

theorem wordKey_empty (hc : c.Ok) : wordKey c empty = 2 ^ c.kept - 1 := by
  rw [wordKey_eq]
  have h1 : 2 ^ 64 = 2 ^ c.kept * 2 ^ c.valBits := by rw [← pow_add, kept_add c hc]
  have h2 := Nat.two_pow_pos c.kept
  have h3 := Nat.two_pow_pos c.valBits
  have h4 : empty = 2 ^ c.kept * (2 ^ c.valBits - 1) + (2 ^ c.kept - 1) := by
    rw [empty, h1, Nat.mul_sub, Nat.mul_one]
    have := Nat.le_mul_of_pos_right (2 ^ c.kept) h3
    omega
  rw [h4, Nat.mul_add_mod, Nat.mod_eq_of_lt (by omega)]

theorem mkWord_ne (hc : c.Ok) (key val : Nat) (hk : KeyOk c key) (hv : val < 2 ^ c.valBits) :
    mkWord c key val ≠ empty := by
  intro h
  have := wordKey_mkWord c hc key val hk.1 hv
  rw [h, wordKey_empty c hc] at this
  exact hk.2 this.symm

theorem empty_key (hc : c.Ok) (key : Nat) (hk : KeyOk c key) : wordKey c empty ≠ keptKey c key := by
  rw [wordKey_empty c hc]; exact fun h => hk.2 h.symm

/-- Kept bits and position determine the key. -/
theorem key_unique (hc : c.Ok) (k k' i j : Nat) (h : keptKey c k = keptKey c k') (hp : probe c k i = probe c k' j) :
    k = k' := by
  have h1 := probe_impl c hc k i
  have h2 := probe_impl c hc k' j
  rw [hp, h2] at h1
  simp only [keptKey, Nat.shiftRight_eq_div_pow] at h
  rw [← Nat.div_add_mod k (2 ^ c.impl), ← Nat.div_add_mod k' (2 ^ c.impl), h, h1]

theorem unpack_key (hc : c.Ok) (key n : Nat) (hk : key < 2 ^ c.keyBits) :
    unpackKey c (keptKey c key) (probe c key n) = key := by
  have h1 : keptKey c key <<< c.impl % 2 ^ 64 = 2 ^ c.impl * keptKey c key := by
    rw [Nat.shiftLeft_eq, Nat.mul_comm, Nat.mod_eq_of_lt]
    have h2 := hc.key
    calc 2 ^ c.impl * keptKey c key ≤ key := by
          rw [keptKey, Nat.shiftRight_eq_div_pow]; exact Nat.mul_div_le _ _
      _ < 2 ^ c.keyBits := hk
      _ ≤ 2 ^ 64 := Nat.pow_le_pow_right (by omega) (by omega)
  rw [unpackKey, h1, Nat.and_two_pow_sub_one_eq_mod, probe_impl c hc,
    ← Nat.two_pow_add_eq_or_of_lt (Nat.mod_lt _ (Nat.two_pow_pos _)), keptKey, Nat.shiftRight_eq_div_pow]
  exact Nat.div_add_mod _ _

/-- Writing the kept key and a value, as the second `SetValue` does, is writing the word. -/
theorem rewrite_word (key val : Nat) : keptKey c key ||| ((val <<< c.kept) % 2 ^ 64) = mkWord c key val :=
  Nat.or_comm _ _

end Verif.Hash
