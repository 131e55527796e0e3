/-!
# Text helpers shared by the text-format models

Strings are lists of characters.  The functions mirror the Python / C++ library
functions that the k2 readers and printers use:

* `isWs`     : the characters Python's `str.split()` treats as white space
               (also the ASCII ones that C++ `std::isspace` / `>>` skip).
* `splitNl`  : `s.split('\n')`
* `fields`   : `line.split()`
* `showInt`  : `f'{idx}'` / `os << int`
* `parseInt` : `int(field)` restricted to an optional sign and ASCII digits.  (Python's
               `int` also accepts underscores, surrounding white space and non-ASCII
               digits; these inputs are rejected here.)
-/

namespace Verif.Text

/-- White space in the sense of Python `str.split()`. -/
def isWs (c : Char) : Bool :=
  let n := c.toNat
  (9 ≤ n && n ≤ 13) || (28 ≤ n && n ≤ 32) || n == 133 || n == 160 || n == 5760 ||
  (8192 ≤ n && n ≤ 8202) || n == 8232 || n == 8233 || n == 8239 || n == 8287 || n == 12288

/-- Python `s.split('\n')`: always at least one piece. -/
def splitNl : List Char → List (List Char)
  | [] => [[]]
  | c :: cs =>
    if c = '\n' then [] :: splitNl cs
    else match splitNl cs with
      | [] => [[c]]
      | l :: ls => (c :: l) :: ls

/-- Python `line.split()`: maximal runs of non-white-space characters. -/
def fieldsAux : List Char → List Char → List (List Char)
  | [], acc => if acc.isEmpty then [] else [acc.reverse]
  | c :: cs, acc =>
    if isWs c then
      (if acc.isEmpty then fieldsAux cs [] else acc.reverse :: fieldsAux cs [])
    else fieldsAux cs (c :: acc)

def fields (s : List Char) : List (List Char) := fieldsAux s []

def showNat (n : Nat) : List Char := Nat.toDigits 10 n

def showInt : Int → List Char
  | Int.ofNat n => showNat n
  | Int.negSucc n => '-' :: showNat (n + 1)

def parseNat (s : List Char) : Option Nat :=
  if s.isEmpty then none
  else if s.all Char.isDigit then some (Nat.ofDigitChars 10 s 0) else none

def parseInt (s : List Char) : Option Int :=
  match s with
  | '-' :: t => (parseNat t).map (fun n => -(n : Int))
  | '+' :: t => (parseNat t).map (fun n => (n : Int))
  | t => (parseNat t).map (fun n => (n : Int))

/-! ## Lemmas -/

theorem showNat_ne_nil (n : Nat) : showNat n ≠ [] := Nat.toDigits_ne_nil

theorem isDigit_of_mem_showNat {n : Nat} {c : Char} (h : c ∈ showNat n) : c.isDigit = true :=
  Nat.isDigit_of_mem_toDigits (by decide) (by decide) h

theorem parseNat_showNat (n : Nat) : parseNat (showNat n) = some n := by
  unfold parseNat
  have h1 : (showNat n).isEmpty = false := by
    cases h : showNat n with
    | nil => exact absurd h (showNat_ne_nil n)
    | cons => rfl
  have h2 : (showNat n).all Char.isDigit = true := by
    rw [List.all_eq_true]; intro c hc; exact isDigit_of_mem_showNat hc
  rw [h1, h2]
  simp [showNat, Nat.ofDigitChars_ten_toDigits]

theorem not_isWs_of_isDigit {c : Char} (h : c.isDigit = true) : isWs c = false := by
  simp only [Char.isDigit, Bool.and_eq_true, decide_eq_true_eq] at h
  have h1 : 48 ≤ c.toNat := UInt32.le_iff_toNat_le.mp h.1
  have h2 : c.toNat ≤ 57 := UInt32.le_iff_toNat_le.mp h.2
  simp only [isWs, Bool.or_eq_false_iff, Bool.and_eq_false_iff, decide_eq_false_iff_not,
    beq_eq_false_iff_ne]
  omega

theorem parseInt_showInt (z : Int) : parseInt (showInt z) = some z := by
  cases z with
  | ofNat n =>
    have hd : ∀ c ∈ showNat n, c.isDigit = true := fun c hc => isDigit_of_mem_showNat hc
    have hp := parseNat_showNat n
    simp only [showInt]
    unfold parseInt
    split
    · rename_i t heq; rw [heq] at hd; exact absurd (hd '-' (by simp)) (by decide)
    · rename_i t heq; rw [heq] at hd; exact absurd (hd '+' (by simp)) (by decide)
    · rw [hp]; rfl
  | negSucc n =>
    simp only [showInt, parseInt, parseNat_showNat]
    simp [Int.negSucc_eq]

theorem showInt_noWs (z : Int) : ∀ c ∈ showInt z, isWs c = false := by
  cases z with
  | ofNat n => intro c hc; exact not_isWs_of_isDigit (isDigit_of_mem_showNat hc)
  | negSucc n =>
    intro c hc
    simp only [showInt, List.mem_cons] at hc
    rcases hc with rfl | hc
    · decide
    · exact not_isWs_of_isDigit (isDigit_of_mem_showNat hc)

theorem showInt_ne_nil (z : Int) : showInt z ≠ [] := by
  cases z with
  | ofNat n => exact showNat_ne_nil n
  | negSucc n => simp [showInt]

theorem fieldsAux_word (w rest acc : List Char) (hw : ∀ c ∈ w, isWs c = false) :
    fieldsAux (w ++ rest) acc = fieldsAux rest (w.reverse ++ acc) := by
  induction w generalizing acc with
  | nil => rfl
  | cons c w ih =>
    have hc : isWs c = false := hw c (by simp)
    simp only [List.cons_append, fieldsAux, hc, List.reverse_cons, List.append_assoc]
    exact ih (c :: acc) (fun d hd => hw d (by simp [hd]))

theorem fieldsAux_word_ws (w rest : List Char) (c : Char) (hw : ∀ c ∈ w, isWs c = false)
    (hne : w ≠ []) (hc : isWs c = true) :
    fieldsAux (w ++ c :: rest) [] = w :: fieldsAux rest [] := by
  rw [fieldsAux_word w (c :: rest) [] hw]
  cases w with
  | nil => exact absurd rfl hne
  | cons a w => simp [fieldsAux, hc]

theorem fieldsAux_word_end (w : List Char) (hw : ∀ c ∈ w, isWs c = false) (hne : w ≠ []) :
    fieldsAux w [] = [w] := by
  have := fieldsAux_word w [] [] hw
  rw [List.append_nil] at this
  rw [this]
  cases w with
  | nil => exact absurd rfl hne
  | cons a w => simp [fieldsAux]

theorem fields_two (a b : List Char) (ha : ∀ c ∈ a, isWs c = false)
    (hb : ∀ c ∈ b, isWs c = false) (ha0 : a ≠ []) (hb0 : b ≠ []) :
    fields (a ++ ' ' :: b) = [a, b] := by
  unfold fields
  rw [fieldsAux_word_ws a b ' ' ha ha0 (by decide), fieldsAux_word_end b hb hb0]

theorem splitNl_ne_nil (s : List Char) : splitNl s ≠ [] := by
  cases s with
  | nil => simp [splitNl]
  | cons c cs =>
    simp only [splitNl]
    split
    · simp
    · split <;> simp

theorem splitNl_line (l rest : List Char) (hl : '\n' ∉ l) :
    splitNl (l ++ '\n' :: rest) = l :: splitNl rest := by
  induction l with
  | nil => simp [splitNl]
  | cons c l ih =>
    simp only [List.mem_cons, not_or] at hl
    have hc : c ≠ '\n' := fun h => hl.1 h.symm
    simp only [List.cons_append, splitNl, hc, if_false, ih hl.2]

theorem not_mem_nl_of_noWs {l : List Char} (h : ∀ c ∈ l, isWs c = false) : '\n' ∉ l := by
  intro hm
  exact absurd (h _ hm) (by decide)

end Verif.Text
