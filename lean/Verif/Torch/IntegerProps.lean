import Verif.Torch.IntegerModel
import Mathlib.Data.Nat.Digits.Defs
import Mathlib.Data.List.Induction
import Mathlib.Data.List.TakeWhile

/-! # Which strings are integers -/

namespace Verif.Options

/-- The number with the given decimal digits, the highest first. -/
def decimal (ds : Str) : Nat := Nat.ofDigits 10 (ds.reverse.map (fun c => c.toNat - '0'.toNat))

theorem digitsValue_eq (ds : Str) : digitsValue ds = decimal ds := by
  unfold digitsValue decimal
  induction ds using List.reverseRecOn with
  | nil => rfl
  | append_singleton ds c ih =>
    rw [List.foldl_append, List.reverse_append, ih]
    simp only [List.foldl_cons, List.foldl_nil, List.reverse_singleton, List.singleton_append, List.map_cons,
      Nat.ofDigits_cons]
    have : '0'.toNat = 48 := rfl
    rw [this]
    omega

theorem signSplit_spec (t : Str) : ∃ sign, t = sign ++ (signSplit t).2 ∧
    ((signSplit t).1 = true ∧ sign = ['-'] ∨ (signSplit t).1 = false ∧ (sign = [] ∨ sign = ['+'])) := by
  cases t with
  | nil => exact ⟨[], rfl, Or.inr ⟨rfl, Or.inl rfl⟩⟩
  | cons c l =>
    simp only [signSplit]
    by_cases h : c = '-'
    · rw [if_pos h]
      exact ⟨['-'], by rw [h]; rfl, Or.inl ⟨rfl, rfl⟩⟩
    · rw [if_neg h]
      by_cases h' : c = '+'
      · rw [if_pos h']
        exact ⟨['+'], by rw [h']; rfl, Or.inr ⟨rfl, Or.inr rfl⟩⟩
      · rw [if_neg h']
        exact ⟨[], rfl, Or.inr ⟨rfl, Or.inl rfl⟩⟩

theorem digit_not_white (c : Char) (h : white c = true) : c.isDigit = false := by
  simp only [white, List.contains_iff_mem, List.mem_cons, List.not_mem_nil, or_false] at h
  rcases h with h | h | h | h | h | h <;> subst h <;> rfl

theorem dropWhile_white {l : Str} (h : l.dropWhile white = []) : ∀ c ∈ l, white c = true := by
  rwa [List.dropWhile_eq_nil_iff] at h

/-- The numbers that the type can hold. -/
def InRange (signed : Bool) (v : Int) : Prop := if signed then -2 ^ 31 ≤ v ∧ v < 2 ^ 31 else 0 ≤ v ∧ v < 2 ^ 32

/-- A string is an integer if it has white space, perhaps a sign, digits and white space, and the number can be held by the
type; the result is the number. -/
theorem integer_iff (signed : Bool) (s : Str) (v : Int) : convertInteger signed s = some v ↔
    InRange signed v ∧ ∃ pre sign ds post : Str, s = pre ++ (sign ++ (ds ++ post)) ∧ (∀ c ∈ pre, white c = true) ∧
      (∀ c ∈ post, white c = true) ∧ ds ≠ [] ∧ (∀ c ∈ ds, c.isDigit = true) ∧
      (((sign = [] ∨ sign = ['+']) ∧ v = decimal ds) ∨ (sign = ['-'] ∧ v = -(decimal ds : Int))) := by
  constructor
  · intro h
    unfold convertInteger at h
    split at h
    · simp at h
    · rename_i i rest err hs
      unfold strtoll at hs
      simp only at hs
      split at hs
      · simp at hs
      · rename_i hds
        rw [Option.some.injEq, Prod.mk.injEq, Prod.mk.injEq] at hs
        obtain ⟨e1, e2, e3⟩ := hs
        split at h
        · simp at h
        · rename_i hc
          push Not at hc
          split at h
          · simp at h
          · rename_i hr
            push Not at hr
            rw [Option.some.injEq, hr.1] at h
            obtain ⟨sign, hsp, hsg⟩ := signSplit_spec (s.dropWhile white)
            have herr : err = false := by simpa using hc.2
            rw [herr, bne_eq_false_iff_eq, e1] at e3
            rw [digitsValue_eq] at e3
            refine ⟨?_, s.takeWhile white, sign, (signSplit (s.dropWhile white)).2.takeWhile Char.isDigit, rest, ?_, ?_,
              dropWhile_white hc.1, hds, ?_, ?_⟩
            · have := hr.1
              have h2 := hr.2
              unfold InRange
              unfold cast32 at this
              cases signed
              · simp only [Bool.false_eq_true, if_false] at this ⊢
                omega
              · simp only [if_true] at this ⊢
                omega
            · rw [← e2, List.takeWhile_append_dropWhile, ← hsp, List.takeWhile_append_dropWhile]
            · exact fun c hc => List.mem_takeWhile_imp hc
            · exact fun c hc => List.mem_takeWhile_imp hc
            · rcases hsg with ⟨g1, g2⟩ | ⟨g1, g2⟩
              · right
                rw [g1, if_pos rfl] at e3
                exact ⟨g2, by rw [← h, e3]⟩
              · left
                rw [g1, if_neg (by simp)] at e3
                exact ⟨g2, by rw [← h, e3]⟩
  · rintro ⟨hr, pre, sign, ds, post, hs, hpre, hpost, hne, hdig, hv⟩
    obtain ⟨d, ds', hd⟩ : ∃ d ds', ds = d :: ds' := List.exists_cons_of_ne_nil hne
    have hdd : d.isDigit = true := hdig d (by simp [hd])
    have hw : ∀ c : Char, c.isDigit = true → white c = false := by
      intro c hc
      by_contra hcon
      rw [digit_not_white c (by simpa using hcon)] at hc
      simp at hc
    have hdrop : s.dropWhile white = sign ++ (ds ++ post) := by
      rw [hs, List.dropWhile_append_of_pos hpre]
      rcases hv with ⟨h | h, _⟩ | ⟨h, _⟩ <;> subst h
      · rw [List.nil_append, hd, List.cons_append, List.dropWhile_cons_of_neg (by simp [hw d hdd])]
      · rfl
      · rfl
    have hsplit : signSplit (sign ++ (ds ++ post)) = (decide (sign = ['-']), ds ++ post) := by
      rcases hv with ⟨h | h, _⟩ | ⟨h, _⟩ <;> subst h
      · rw [List.nil_append, hd, List.cons_append]
        rw [signSplit, if_neg (by rintro rfl; simp at hdd), if_neg (by rintro rfl; simp at hdd)]
        rfl
      · rfl
      · rfl
    have htake : (ds ++ post).takeWhile Char.isDigit = ds := by
      rw [List.takeWhile_append_of_pos hdig]
      cases post with
      | nil => simp
      | cons c l =>
        rw [List.takeWhile_cons_of_neg (by simp [digit_not_white c (hpost c (by simp))]), List.append_nil]
    have hdropd : (ds ++ post).dropWhile Char.isDigit = post := by
      rw [List.dropWhile_append_of_pos hdig]
      cases post with
      | nil => simp
      | cons c l =>
        rw [List.dropWhile_cons_of_neg (by simp [digit_not_white c (hpost c (by simp))])]
    have hval : (if decide (sign = ['-']) = true then -(digitsValue ds : Int) else (digitsValue ds : Int)) = v := by
      rw [digitsValue_eq]
      rcases hv with ⟨h | h, e⟩ | ⟨h, e⟩ <;> subst h <;> simp [e]
    have hclamp : clamp64 v = v := by
      unfold clamp64
      unfold InRange at hr
      cases signed
      · simp only [Bool.false_eq_true, if_false] at hr
        rw [if_neg (by omega), if_neg (by omega)]
      · simp only [if_true] at hr
        rw [if_neg (by omega), if_neg (by omega)]
    have hstr : strtoll s = some (v, post, false) := by
      unfold strtoll
      simp only [hdrop, hsplit, htake, hdropd, hval, hclamp]
      rw [if_neg hne]
      simp
    have hcast : cast32 signed v = v ∧ ¬(v < 0 ∧ signed = false) := by
      unfold cast32
      unfold InRange at hr
      cases signed
      · simp only [Bool.false_eq_true, if_false] at hr ⊢
        omega
      · simp only [if_true] at hr ⊢
        constructor
        · omega
        · simp
    unfold convertInteger
    rw [hstr]
    simp only
    rw [if_neg (by simpa [List.dropWhile_eq_nil_iff] using hpost), if_neg (by simp only [hcast.1]; simpa using hcast.2),
      hcast.1]

/-- White space, a sign, the ends of the range, and strings that are no numbers. -/
example : convertInteger true " -2147483648 ".toList = some (-2147483648) ∧
    convertInteger true "2147483648".toList = none ∧ convertInteger false "+4294967295".toList = some 4294967295 ∧
    convertInteger false "-1".toList = none ∧ convertInteger true "1.0".toList = none ∧
    convertInteger true "99999999999999999999".toList = none ∧ convertInteger true [] = none := by decide +kernel

end Verif.Options
