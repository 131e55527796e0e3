import Verif.Util.Text

/-!
# Formatted input from an `istringstream`

What the readers of `k2/csrc/fsa_utils.cu` use of `std::istringstream`: the stream is the list of the
characters that are left; an extraction that would set `failbit` is `none`.  `eofbit` is set when an
extraction looks at the end of the string, so after reading a number or skipping white space it is
set exactly if nothing is left.

* white space and digits are those of the "C" locale;
* integers are 32 bits wide: a number out of range sets `failbit` ([istream.formatted.arithmetic]);
* a real number is kept as an exact decimal `m * 10^e`.
-/

namespace Verif.Util.Stream
open Verif.Text

/-- `isspace` in the "C" locale. -/
def isSpace (c : Char) : Bool := c.toNat == 32 || (9 ≤ c.toNat && c.toNat ≤ 13)

/-- Skip white space (`std::ws`, and the sentry of every formatted extraction). -/
def skip (l : List Char) : List Char := l.dropWhile isSpace

/-- An optional sign. -/
def sign : List Char → Bool × List Char
  | '-' :: l => (true, l)
  | '+' :: l => (false, l)
  | l => (false, l)

def applySign (neg : Bool) (n : Nat) : Int := if neg then -(n : Int) else n

/-- The values of `int32_t`. -/
def inInt32 (z : Int) : Bool := decide (-2147483648 ≤ z) && decide (z ≤ 2147483647)

/-- The longest integer at the beginning. -/
def scanInt (l : List Char) : Option (Int × List Char) :=
  let s := sign l
  let d := s.2.takeWhile Char.isDigit
  let r := s.2.dropWhile Char.isDigit
  let v := applySign s.1 (Nat.ofDigitChars 10 d 0)
  if d.isEmpty then none else if inInt32 v then some (v, r) else none

/-- `is >> i` for an `int32_t`. -/
def readInt (l : List Char) : Option (Int × List Char) := scanInt (skip l)

/-- The digits after a decimal point. -/
def fraction : List Char → List Char × List Char
  | '.' :: l => (l.takeWhile Char.isDigit, l.dropWhile Char.isDigit)
  | l => ([], l)

/-- The exponent of a real number: 0 if there is none. -/
def exponent (l : List Char) : Option (Int × List Char) :=
  let go (t : List Char) : Option (Int × List Char) :=
    let s := sign t
    let d := s.2.takeWhile Char.isDigit
    if d.isEmpty then none
    else some (applySign s.1 (Nat.ofDigitChars 10 d 0), s.2.dropWhile Char.isDigit)
  match l with
  | 'e' :: t => go t
  | 'E' :: t => go t
  | l => some (0, l)

/-- The longest real number at the beginning, as `(m, e)` for `m * 10^e`. -/
def scanReal (l : List Char) : Option ((Int × Int) × List Char) :=
  let s := sign l
  let d := s.2.takeWhile Char.isDigit
  let fr := fraction (s.2.dropWhile Char.isDigit)
  if (d ++ fr.1).isEmpty then none
  else
    match exponent fr.2 with
    | none => none
    | some (e, r) =>
      some ((applySign s.1 (Nat.ofDigitChars 10 (d ++ fr.1) 0), e - (fr.1.length : Int)), r)

/-- `is >> x` for a `float` or a `double`. -/
def readReal (l : List Char) : Option ((Int × Int) × List Char) := scanReal (skip l)

/-- `(int32_t)x` if it is equal to `x`. -/
def realToInt (x : Int × Int) : Option Int :=
  let v : Option Int :=
    if 0 ≤ x.2 then some (x.1 * 10 ^ x.2.toNat)
    else if x.1 % 10 ^ (-x.2).toNat = 0 then some (x.1 / 10 ^ (-x.2).toNat) else none
  v.bind fun z => if inInt32 z then some z else none

/-! ## Reading what was printed -/

theorem isSpace_isWs {c : Char} (h : isWs c = false) : isSpace c = false := by
  unfold isSpace
  unfold isWs at h
  simp only [Bool.or_eq_false_iff, Bool.and_eq_false_iff, decide_eq_false_iff_not, beq_eq_false_iff_ne] at *
  omega

theorem skip_of_head {c : Char} {l : List Char} (h : isSpace c = false) : skip (c :: l) = c :: l := by
  simp [skip, h]

theorem skip_space (l : List Char) : skip (' ' :: l) = skip l := by
  simp [skip, isSpace]

theorem skip_showInt (z : Int) (l : List Char) : skip (showInt z ++ l) = showInt z ++ l := by
  cases h : showInt z with
  | nil => exact absurd h (showInt_ne_nil z)
  | cons c t =>
    rw [List.cons_append]
    exact skip_of_head (isSpace_isWs (showInt_noWs z c (by rw [h]; simp)))

/-- Something that ends a number. -/
def Ends (l : List Char) : Prop := ∀ c t, l = c :: t → c.isDigit = false

theorem ends_nil : Ends [] := by intro c t h; simp at h

theorem ends_cons {c : Char} {t : List Char} (h : c.isDigit = false) : Ends (c :: t) := by
  intro c' t' e
  simp only [List.cons.injEq] at e
  rw [← e.1]; exact h

theorem takeWhile_digits (d l : List Char) (hd : ∀ c ∈ d, c.isDigit = true) (hl : Ends l) :
    (d ++ l).takeWhile Char.isDigit = d ∧ (d ++ l).dropWhile Char.isDigit = l := by
  induction d with
  | nil =>
    cases l with
    | nil => simp
    | cons c t => simp [hl c t rfl]
  | cons c d ih =>
    have hc := hd c (by simp)
    obtain ⟨h1, h2⟩ := ih fun x hx => hd x (by simp [hx])
    simp [hc, h1, h2]

theorem sign_digits (d l : List Char) (hd : ∀ c ∈ d, c.isDigit = true) (hne : d ≠ []) :
    sign (d ++ l) = (false, d ++ l) := by
  cases d with
  | nil => exact absurd rfl hne
  | cons c d =>
    have hc := hd c (by simp)
    rw [List.cons_append]
    unfold sign
    split
    · rename_i h; simp only [List.cons.injEq] at h; rw [h.1] at hc; exact absurd hc (by decide)
    · rename_i h; simp only [List.cons.injEq] at h; rw [h.1] at hc; exact absurd hc (by decide)
    · rfl

theorem ofDigitChars_showNat (n : Nat) : Nat.ofDigitChars 10 (showNat n) 0 = n := by
  have h := parseNat_showNat n
  unfold parseNat at h
  split at h
  · simp at h
  · split at h
    · exact Option.some.inj h
    · simp at h

/-- The sign and the digits of a printed number. -/
theorem sign_showInt (z : Int) (l : List Char) (hl : Ends l) :
    let s := sign (showInt z ++ l)
    let d := s.2.takeWhile Char.isDigit
    d.isEmpty = false ∧ s.2.dropWhile Char.isDigit = l ∧
      applySign s.1 (Nat.ofDigitChars 10 d 0) = z ∧
      ∀ l', Ends l' → ((d ++ l').takeWhile Char.isDigit = d) := by
  have key : ∀ n : Nat, ((showNat n ++ l).takeWhile Char.isDigit).isEmpty = false ∧
      (showNat n ++ l).dropWhile Char.isDigit = l ∧
      Nat.ofDigitChars 10 ((showNat n ++ l).takeWhile Char.isDigit) 0 = n ∧
      (∀ l', Ends l' → (((showNat n ++ l).takeWhile Char.isDigit ++ l').takeWhile Char.isDigit =
        (showNat n ++ l).takeWhile Char.isDigit)) := by
    intro n
    obtain ⟨h1, h2⟩ := takeWhile_digits (showNat n) l (fun c hc => isDigit_of_mem_showNat hc) hl
    rw [h1, h2]
    refine ⟨?_, rfl, ofDigitChars_showNat n, ?_⟩
    · cases h : showNat n with
      | nil => exact absurd h (showNat_ne_nil n)
      | cons c t => rfl
    · intro l' hl'
      exact (takeWhile_digits (showNat n) l' (fun c hc => isDigit_of_mem_showNat hc) hl').1
  cases z with
  | ofNat n =>
    simp only [showInt]
    rw [sign_digits _ _ (fun c hc => isDigit_of_mem_showNat hc) (showNat_ne_nil n)]
    obtain ⟨h1, h2, h3, h4⟩ := key n
    exact ⟨h1, h2, by dsimp only; rw [h3]; simp [applySign], h4⟩
  | negSucc n =>
    obtain ⟨h1, h2, h3, h4⟩ := key (n + 1)
    refine ⟨h1, h2, ?_, h4⟩
    change applySign true (Nat.ofDigitChars 10 ((showNat (n + 1) ++ l).takeWhile Char.isDigit) 0) = _
    rw [h3]
    simp [applySign, Int.negSucc_eq]

theorem scanInt_showInt (z : Int) (l : List Char) (hl : Ends l) :
    scanInt (showInt z ++ l) = if inInt32 z then some (z, l) else none := by
  obtain ⟨h1, h2, h3, _⟩ := sign_showInt z l hl
  unfold scanInt
  dsimp only
  rw [if_neg (by rw [h1]; simp), h3, h2]

theorem readInt_showInt (z : Int) (l : List Char) (hl : Ends l) :
    readInt (showInt z ++ l) = if inInt32 z then some (z, l) else none := by
  unfold readInt
  rw [skip_showInt]
  exact scanInt_showInt z l hl

theorem readInt_space (l : List Char) : readInt (' ' :: l) = readInt l := by
  unfold readInt; rw [skip_space]

theorem readReal_space (l : List Char) : readReal (' ' :: l) = readReal l := by
  unfold readReal; rw [skip_space]

/-- A printed integer is read as a real number. -/
theorem readReal_showInt (z : Int) (l : List Char) :
    readReal (showInt z ++ ' ' :: l) = some ((z, 0), ' ' :: l) := by
  unfold readReal
  rw [skip_showInt]
  obtain ⟨h1, h2, h3, _⟩ := sign_showInt z (' ' :: l) (ends_cons (by decide))
  unfold scanReal
  dsimp only
  rw [h2]
  have hf : fraction (' ' :: l) = ([], ' ' :: l) := rfl
  have he : exponent (' ' :: l) = some (0, ' ' :: l) := rfl
  rw [hf]
  dsimp only
  rw [List.append_nil, if_neg (by rw [h1]; simp), he, h3]
  rfl

theorem realToInt_int (z : Int) : realToInt (z, 0) = if inInt32 z then some z else none := by
  simp [realToInt]

/-- A character that begins no number. -/
theorem readInt_bad (c : Char) (l : List Char) (hs : isSpace c = false) (hd : c.isDigit = false)
    (hm : c ≠ '-') (hp : c ≠ '+') : readInt (c :: l) = none := by
  unfold readInt
  rw [skip_of_head hs]
  have : sign (c :: l) = (false, c :: l) := by
    unfold sign
    split
    · rename_i h; simp only [List.cons.injEq] at h; exact absurd h.1 hm
    · rename_i h; simp only [List.cons.injEq] at h; exact absurd h.1 hp
    · rfl
  unfold scanInt
  rw [this]
  simp [hd]

end Verif.Util.Stream
