import Verif.Torch.EscapeModel

/-! # The printed command line as the shell reads it -/

namespace Verif.Escape

/-! ## How bash splits a line into words -/

/-- Where the shell is: outside of quotes, after a backslash, or between two single or two double quotes. -/
inductive Mode where
  | bare
  | esc
  | single
  | double

/-- Whether a character outside of quotes stands for itself in the word that has begun with `cur`.  A `[` may begin a
pattern, and a `~` at the beginning or after `=` or `:` a home directory. -/
def plain (cur : Option (List Char)) (c : Char) : Bool :=
  c.isAlphanum || ['_', '-', '+', '=', ':', '.', ',', '/', '^', ']', '@', '%', '#'].contains c ||
    (c == '~' && (match cur with
      | none => false
      | some w => w.getLast? != none && w.getLast? != some '=' && w.getLast? != some ':'))

/-- The words of a line for bash in interactive use; `none` stands for lines with a meaning that depends on variables,
files, the history or other lines, and for operators.  `cur` is the word that has begun. -/
def shell : Mode → Option (List Char) → List Char → Option (List (List Char))
  | .bare, cur, [] => some cur.toList
  | _, _, [] => none
  | .bare, cur, c :: l =>
    if c = ' ' then (shell .bare none l).map (cur.toList ++ ·)
    else if c = '\'' then shell .single (some (cur.getD [])) l
    else if c = '"' then shell .double (some (cur.getD [])) l
    else if c = '\\' then shell .esc cur l
    else if c = '#' ∧ cur = none then some []
    else if plain cur c then shell .bare (some (cur.getD [] ++ [c])) l
    else none
  | .esc, cur, c :: l => if c = '\n' then none else shell .bare (some (cur.getD [] ++ [c])) l
  | .single, cur, c :: l => if c = '\'' then shell .bare cur l else shell .single (some (cur.getD [] ++ [c])) l
  | .double, cur, c :: l =>
    if c = '"' then shell .bare cur l
    else if ['$', '`', '\\', '!'].contains c then none
    else shell .double (some (cur.getD [] ++ [c])) l

/-! ## Single quotes -/

theorem shell_single (s acc rest : List Char) :
    shell .single (some acc)
      (s.flatMap (fun c => if c = '\'' then ['\'', '\\', '\'', '\''] else [c]) ++ ('\'' :: rest)) =
      shell .bare (some (acc ++ s)) rest := by
  induction s generalizing acc with
  | nil => simp [shell]
  | cons c s ih =>
    rw [List.flatMap_cons]
    by_cases hc : c = '\''
    · subst hc
      have := ih (acc ++ ['\''])
      simpa [shell] using this
    · have := ih (acc ++ [c])
      simpa [shell, hc] using this

/-! ## Double quotes -/

theorem shell_double (s acc rest : List Char)
    (h : ∀ c ∈ s, c ≠ '"' ∧ c ≠ '$' ∧ c ≠ '`' ∧ c ≠ '\\' ∧ c ≠ '!') :
    shell .double (some acc) (s.flatMap (fun c => if c = '"' then ['\\', '"'] else [c]) ++ ('"' :: rest)) =
      shell .bare (some (acc ++ s)) rest := by
  induction s generalizing acc with
  | nil => simp [shell]
  | cons c s ih =>
    obtain ⟨h1, h2, h3, h4, h5⟩ := h c (by simp)
    have := ih (acc ++ [c]) (fun d hd => h d (by simp [hd]))
    rw [List.flatMap_cons, if_neg h1]
    simpa [shell, h1, h2, h3, h4, h5] using this

/-! ## Words without quotes -/

/-- What is known about the characters of a word that is not quoted. -/
theorem bare_char (c : Char) (h : c.isAlphanum = true ∨ c ∈ okChars) :
    c ≠ ' ' ∧ c ≠ '\'' ∧ c ≠ '"' ∧ c ≠ '\\' := by
  refine ⟨?_, ?_, ?_, ?_⟩ <;>
  · rintro rfl
    revert h
    decide

theorem bare_plain (cur : Option (List Char)) (c : Char) (h : c.isAlphanum = true ∨ c ∈ okChars) (h1 : c ≠ '[')
    (h2 : c ≠ '~') : plain cur c = true := by
  unfold plain
  rcases h with h | h
  · simp [h]
  · simp only [okChars, List.mem_cons, List.not_mem_nil, or_false, h1, h2, false_or] at h
    rcases h with h | h | h | h | h | h | h | h | h | h | h <;> subst h <;> simp

theorem shell_bare (s acc rest : List Char)
    (h : ∀ c ∈ s, (c.isAlphanum = true ∨ c ∈ okChars) ∧ c ≠ '[' ∧ c ≠ '~') :
    shell .bare (some acc) (s ++ rest) = shell .bare (some (acc ++ s)) rest := by
  induction s generalizing acc with
  | nil => simp
  | cons c s ih =>
    obtain ⟨h1, h2, h3⟩ := h c (by simp)
    obtain ⟨k1, k2, k3, k4⟩ := bare_char c h1
    have := ih (acc ++ [c]) (fun d hd => h d (by simp [hd]))
    rw [List.cons_append, shell, if_neg k1, if_neg k2, if_neg k3, if_neg k4, if_neg (by simp),
      if_pos (bare_plain _ c h1 h2 h3)]
    simpa using this

/-! ## Command lines -/

/-- The shell reads an argument back from what is printed for it. -/
theorem escape_word (s rest : List Char) (h1 : '[' ∉ s) (h2 : '~' ∉ s) (h3 : s.head? ≠ some '#')
    (h4 : '\'' ∈ s → '!' ∉ s) :
    shell .bare none (escape s ++ (' ' :: rest)) = (shell .bare none rest).map (s :: ·) := by
  have fin : shell .bare (some s) (' ' :: rest) = (shell .bare none rest).map (s :: ·) := by
    rw [shell, if_pos rfl]
    rfl
  unfold escape
  split
  · unfold quoteAndEscape
    by_cases hq : (s.contains '\'' && !s.any (fun c => ['"', '`', '$', '\\'].contains c)) = true
    · have e : quoteOf s = ('"', ['\\', '"']) := by unfold quoteOf; rw [if_pos hq]
      rw [e]
      simp only [Bool.and_eq_true, List.contains_iff_mem, Bool.not_eq_true', List.any_eq_false] at hq
      have := shell_double s [] (' ' :: rest) (fun c hc => by
        have k := hq.2 c hc
        simp only [List.mem_cons, List.not_mem_nil, or_false, not_or] at k
        refine ⟨k.1, k.2.2.1, k.2.1, k.2.2.2, ?_⟩
        rintro rfl
        exact h4 hq.1 hc)
      rw [List.nil_append, fin] at this
      rw [← this]
      simp [shell]
    · have e : quoteOf s = ('\'', ['\'', '\\', '\'', '\'']) := by unfold quoteOf; rw [if_neg hq]
      rw [e]
      have := shell_single s [] (' ' :: rest)
      rw [List.nil_append, fin] at this
      rw [← this]
      simp [shell]
  · rename_i hm
    simp only [mustBeQuoted, Bool.or_eq_true, not_or, Bool.not_eq_true, List.any_eq_false, Bool.not_eq_true',
      List.isEmpty_eq_false_iff, Bool.not_eq_false, List.contains_iff_mem] at hm
    have hall : ∀ c ∈ s, (c.isAlphanum = true ∨ c ∈ okChars) ∧ c ≠ '[' ∧ c ≠ '~' := by
      intro c hc
      refine ⟨?_, ?_, ?_⟩
      · have := hm.2 c hc
        simpa using this
      · rintro rfl; exact h1 hc
      · rintro rfl; exact h2 hc
    match s, hm.1 with
    | c :: s, _ =>
      obtain ⟨k1, k2, k3⟩ := hall c (by simp)
      obtain ⟨l1, l2, l3, l4⟩ := bare_char c k1
      rw [List.cons_append, shell, if_neg l1, if_neg l2, if_neg l3, if_neg l4,
        if_neg (by rintro ⟨rfl, _⟩; exact h3 rfl), if_pos (bare_plain _ c k1 k2 k3)]
      rw [Option.getD_none, List.nil_append, shell_bare s [c] _ (fun d hd => hall d (by simp [hd]))]
      exact fin

/-- The shell reads the printed command line as the arguments that the program was given, if no argument has a `[` or a
`~`, begins with `#`, or has both an apostrophe and an exclamation mark. -/
theorem printed_words_partial (args : List (List Char))
    (h : ∀ s ∈ args, '[' ∉ s ∧ '~' ∉ s ∧ s.head? ≠ some '#' ∧ ('\'' ∈ s → '!' ∉ s)) :
    shell .bare none (printed args) = some args := by
  induction args with
  | nil => rfl
  | cons s args ih =>
    obtain ⟨h1, h2, h3, h4⟩ := h s (by simp)
    have e : printed (s :: args) = escape s ++ (' ' :: printed args) := by simp [printed]
    rw [e, escape_word s _ h1 h2 h3 h4, ih (fun t ht => h t (by simp [ht]))]
    rfl

/-- Different arguments are printed differently. -/
theorem printed_injective_partial (a b : List (List Char))
    (ha : ∀ s ∈ a, '[' ∉ s ∧ '~' ∉ s ∧ s.head? ≠ some '#' ∧ ('\'' ∈ s → '!' ∉ s))
    (hb : ∀ s ∈ b, '[' ∉ s ∧ '~' ∉ s ∧ s.head? ≠ some '#' ∧ ('\'' ∈ s → '!' ∉ s)) (h : printed a = printed b) : a = b := by
  have h1 := printed_words_partial a ha
  rw [h, printed_words_partial b hb] at h1
  exact (Option.some.inj h1).symm

/-- A blank and a dollar, an apostrophe, an apostrophe and a dollar, and an empty argument. -/
example : printed ["a $b".toList, "it's".toList, "'$".toList, [], "x=1".toList] =
      "'a $b' \"it's\" ''\\''$' '' x=1 ".toList ∧
    shell .bare none (printed ["a $b".toList, "it's".toList, "'$".toList, [], "x=1".toList]) =
      some ["a $b".toList, "it's".toList, "'$".toList, [], "x=1".toList] :=
  ⟨by decide +kernel, printed_words_partial _ (by decide +kernel)⟩

/-- An argument that begins with `#` is printed without quotes; the shell takes it and all that follow for a comment. -/
theorem printed_comment_neg : shell .bare none (printed [['p'], ['#', '1'], ['x']]) = some [['p']] := by decide +kernel

/-- A home directory, a pattern, and a reference to the history in double quotes are left to the shell. -/
theorem printed_special_neg : shell .bare none (printed [['p'], ['~']]) = none ∧
    shell .bare none (printed [['p'], ['[', 'a', ']']]) = none ∧
    shell .bare none (printed [['p'], ['\'', '!', 'p']]) = none := by decide +kernel

end Verif.Escape
