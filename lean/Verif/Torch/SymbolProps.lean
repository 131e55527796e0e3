import Verif.Torch.SymbolModel
import Verif.Torch.IntegerProps
import Mathlib.Data.List.Nodup

/-! # Properties of symbol tables -/

namespace Verif.Symbols

open Verif.Options

/-! ## The two maps are inverse to each other -/

theorem load_nodup (fuel : Nat) (t : Table) (l : Str) (out : Table) (h1 : (t.map Prod.fst).Nodup)
    (h2 : (t.map Prod.snd).Nodup) (h : load fuel t l = some out) :
    (out.map Prod.fst).Nodup ∧ (out.map Prod.snd).Nodup := by
  induction fuel generalizing t l with
  | zero => simp [load] at h
  | succ fuel ih =>
    rw [load] at h
    split at h
    · rw [Option.some.injEq] at h
      subst h
      exact ⟨h1, h2⟩
    · split at h
      · split at h
        · rw [Option.some.injEq] at h
          subst h
          exact ⟨h1, h2⟩
        · simp at h
      · split at h
        · simp at h
        · rename_i hc
          push Not at hc
          refine ih _ _ ?_ ?_ h
          · rw [List.map_append, List.nodup_append]
            refine ⟨h1, by simp, ?_⟩
            intro a ha b hb e
            simp only [List.map_cons, List.map_nil, List.mem_singleton] at hb
            obtain ⟨x, hx, rfl⟩ := List.mem_map.1 ha
            apply hc.1
            rw [List.any_eq_true]
            exact ⟨x, hx, by simp [e, hb]⟩
          · rw [List.map_append, List.nodup_append]
            refine ⟨h2, by simp, ?_⟩
            intro a ha b hb e
            simp only [List.map_cons, List.map_nil, List.mem_singleton] at hb
            obtain ⟨x, hx, rfl⟩ := List.mem_map.1 ha
            apply hc.2
            rw [List.any_eq_true]
            exact ⟨x, hx, by simp [e, hb]⟩

theorem idOf_iff (t : Table) (h : (t.map Prod.fst).Nodup) (s : Str) (v : Int) : idOf t s = some v ↔ (s, v) ∈ t := by
  induction t with
  | nil => simp [idOf]
  | cons e t ih =>
    rw [List.map_cons, List.nodup_cons] at h
    have ih := ih h.2
    unfold idOf at ih ⊢
    by_cases he : e.1 = s
    · rw [List.find?_cons_of_pos (by simpa using he)]
      constructor
      · intro hv
        simp only [Option.map_some, Option.some.injEq] at hv
        rw [← he, ← hv]
        simp
      · intro hm
        rcases List.mem_cons.1 hm with hm | hm
        · rw [← hm]
          rfl
        · exact absurd (List.mem_map.2 ⟨_, hm, rfl⟩) (by rw [he] at h; exact h.1)
    · rw [List.find?_cons_of_neg (by simpa using he), ih, List.mem_cons]
      constructor
      · exact Or.inr
      · rintro (hm | hm)
        · exact absurd (by rw [← hm]) he
        · exact hm

theorem symOf_iff (t : Table) (h : (t.map Prod.snd).Nodup) (s : Str) (v : Int) : symOf t v = some s ↔ (s, v) ∈ t := by
  induction t with
  | nil => simp [symOf]
  | cons e t ih =>
    rw [List.map_cons, List.nodup_cons] at h
    have ih := ih h.2
    unfold symOf at ih ⊢
    by_cases he : e.2 = v
    · rw [List.find?_cons_of_pos (by simpa using he)]
      constructor
      · intro hv
        simp only [Option.map_some, Option.some.injEq] at hv
        rw [← he, ← hv]
        simp
      · intro hm
        rcases List.mem_cons.1 hm with hm | hm
        · rw [← hm]
          rfl
        · exact absurd (List.mem_map.2 ⟨_, hm, rfl⟩) (by rw [he] at h; exact h.1)
    · rw [List.find?_cons_of_neg (by simpa using he), ih, List.mem_cons]
      constructor
      · exact Or.inr
      · rintro (hm | hm)
        · exact absurd (by rw [← hm]) he
        · exact hm

/-- Whatever the file is: if it is accepted, a symbol has a number exactly if the number has the symbol. -/
theorem symbols_bijective (l : Str) (t : Table) (h : symbolTable l = some t) (s : Str) (v : Int) :
    idOf t s = some v ↔ symOf t v = some s := by
  obtain ⟨h1, h2⟩ := load_nodup _ [] l t (by simp) (by simp) h
  rw [idOf_iff t h1, symOf_iff t h2]

/-! ## Files are read as they were written -/

/-- A line of a file: the symbol, the sign and the digits. -/
structure Entry where
  sym : Str
  sign : Str
  digits : Str

/-- The number of a line. -/
def Entry.value (e : Entry) : Int := if e.sign = ['-'] then -(decimal e.digits : Int) else decimal e.digits

/-- The line. -/
def Entry.line (e : Entry) : Str := e.sym ++ (' ' :: (e.sign ++ (e.digits ++ ['\n'])))

/-- Symbols are not empty and have no white space; numbers have digits and 32 bits. -/
def Entry.Ok (e : Entry) : Prop :=
  e.sym ≠ [] ∧ (∀ c ∈ e.sym, white c = false) ∧ (e.sign = [] ∨ e.sign = ['+'] ∨ e.sign = ['-']) ∧ e.digits ≠ [] ∧
    (∀ c ∈ e.digits, c.isDigit = true) ∧ -2 ^ 31 ≤ e.value ∧ e.value < 2 ^ 31

theorem readSym_entry (w sym tl : Str) (hw : ∀ c ∈ w, white c = true) (hne : sym ≠ []) (hs : ∀ c ∈ sym, white c = false) :
    readSym (w ++ (sym ++ (' ' :: tl))) = some (sym, ' ' :: tl) := by
  obtain ⟨d, ds, rfl⟩ := List.exists_cons_of_ne_nil hne
  have hd : (w ++ (d :: ds ++ (' ' :: tl))).dropWhile white = d :: ds ++ (' ' :: tl) := by
    rw [List.dropWhile_append_of_pos hw, List.cons_append, List.dropWhile_cons_of_neg (by simp [hs d])]
  have hp : ∀ c ∈ d :: ds, (!white c) = true := fun c hc => by simp [hs c hc]
  unfold readSym
  simp only [hd]
  rw [if_neg (by simp), List.takeWhile_append_of_pos hp, List.dropWhile_append_of_pos hp,
    List.takeWhile_cons_of_neg (by decide), List.dropWhile_cons_of_neg (by decide), List.append_nil]

theorem readInt_entry (e : Entry) (h : e.Ok) (tl : Str) :
    readInt (' ' :: (e.sign ++ (e.digits ++ ('\n' :: tl)))) = .ok e.value ('\n' :: tl) := by
  obtain ⟨_, _, hsg, hne, hdig, hlo, hhi⟩ := h
  obtain ⟨d, ds, hd⟩ := List.exists_cons_of_ne_nil hne
  have hdd : d.isDigit = true := hdig d (by simp [hd])
  have hwd : white d = false := by
    by_contra hcon
    rw [digit_not_white d (by simpa using hcon)] at hdd
    simp at hdd
  have hdrop : (' ' :: (e.sign ++ (e.digits ++ ('\n' :: tl)))).dropWhile white =
      e.sign ++ (e.digits ++ ('\n' :: tl)) := by
    rw [List.dropWhile_cons_of_pos (by decide)]
    rcases hsg with h | h | h <;> rw [h]
    · rw [List.nil_append, hd, List.cons_append, List.dropWhile_cons_of_neg (by simp [hwd])]
    · rfl
    · rfl
  have hsplit : signSplit (e.sign ++ (e.digits ++ ('\n' :: tl))) = (decide (e.sign = ['-']), e.digits ++ ('\n' :: tl)) := by
    rcases hsg with h | h | h <;> rw [h]
    · rw [List.nil_append, hd, List.cons_append, signSplit, if_neg (by rintro rfl; simp at hdd),
        if_neg (by rintro rfl; simp at hdd)]
      rfl
    · rfl
    · rfl
  have htake : (e.digits ++ ('\n' :: tl)).takeWhile Char.isDigit = e.digits := by
    rw [List.takeWhile_append_of_pos hdig, List.takeWhile_cons_of_neg (by decide), List.append_nil]
  have hdropd : (e.digits ++ ('\n' :: tl)).dropWhile Char.isDigit = '\n' :: tl := by
    rw [List.dropWhile_append_of_pos hdig, List.dropWhile_cons_of_neg (by decide)]
  have hval : (if decide (e.sign = ['-']) = true then -(digitsValue e.digits : Int) else (digitsValue e.digits : Int)) =
      e.value := by
    rw [digitsValue_eq]
    unfold Entry.value
    simp
  unfold readInt
  simp only [hdrop, hsplit, htake, hdropd, hval]
  rw [if_neg]
  rintro (h | h | h)
  · exact hne h
  · omega
  · omega

/-- The blank that stands for U+2581 does not make different symbols equal. -/
theorem unspace_inj (a b : Str) (ha : ∀ c ∈ a, white c = false) (hb : ∀ c ∈ b, white c = false)
    (h : unspace a = unspace b) : a = b := by
  have hw : white ' ' = true := by decide
  unfold unspace at h
  split at h <;> split at h
  · rename_i h1 h2
    rw [← List.take_append_drop 3 a, ← List.take_append_drop 3 b, h1, h2, (List.cons.inj h).2]
  · have := hb ' ' (by rw [← h]; simp)
    rw [hw] at this
    simp at this
  · have := ha ' ' (by rw [h]; simp)
    rw [hw] at this
    simp at this
  · exact h

theorem load_entries (es : List Entry) (hok : ∀ e ∈ es, e.Ok) (t : Table) (w : Str) (hw : ∀ c ∈ w, white c = true)
    (h1 : (t.map Prod.fst ++ es.map (fun e => unspace e.sym)).Nodup)
    (h2 : (t.map Prod.snd ++ es.map Entry.value).Nodup) (fuel : Nat) (hf : es.length < fuel) :
    load fuel t (w ++ (es.map Entry.line).flatten) = some (t ++ es.map (fun e => (unspace e.sym, e.value))) := by
  induction es generalizing t w fuel with
  | nil =>
    obtain ⟨k, rfl⟩ : ∃ k, fuel = k + 1 := ⟨fuel - 1, by simp at hf; omega⟩
    have : readSym w = none := by
      unfold readSym
      rw [if_pos (List.dropWhile_eq_nil_iff.2 hw)]
    simp [load, this]
  | cons e es ih =>
    obtain ⟨k, rfl⟩ : ∃ k, fuel = k + 1 := ⟨fuel - 1, by simp at hf; omega⟩
    have he := hok e (by simp)
    have eq1 : w ++ ((e :: es).map Entry.line).flatten =
        w ++ (e.sym ++ (' ' :: (e.sign ++ (e.digits ++ ('\n' :: (es.map Entry.line).flatten))))) := by
      simp [Entry.line]
    rw [eq1, load, readSym_entry w e.sym _ hw he.1 he.2.1]
    simp only [readInt_entry e he]
    have n1 := h1
    have n2 := h2
    rw [List.map_cons, List.nodup_append] at n1 n2
    rw [if_neg]
    · have := ih (fun x hx => hok x (by simp [hx])) (t ++ [(unspace e.sym, e.value)]) ['\n'] (by decide)
        (by simpa using h1) (by simpa using h2) k (by simp at hf; omega)
      rw [List.singleton_append] at this
      rw [this]
      simp
    · rintro (h | h)
      · obtain ⟨x, hx, hxe⟩ := List.any_eq_true.1 h
        exact n1.2.2 _ (List.mem_map.2 ⟨x, hx, rfl⟩) _ List.mem_cons_self (by simpa using hxe)
      · obtain ⟨x, hx, hxe⟩ := List.any_eq_true.1 h
        exact n2.2.2 _ (List.mem_map.2 ⟨x, hx, rfl⟩) _ List.mem_cons_self (by simpa using hxe)

/-- A file with different symbols and different numbers is read as it was written. -/
theorem symbols_read (es : List Entry) (hok : ∀ e ∈ es, e.Ok) (h1 : (es.map Entry.sym).Nodup)
    (h2 : (es.map Entry.value).Nodup) :
    symbolTable (es.map Entry.line).flatten = some (es.map (fun e => (unspace e.sym, e.value))) := by
  have hlen : es.length < (es.map Entry.line).flatten.length + 1 := by
    have : ∀ es : List Entry, es.length ≤ (es.map Entry.line).flatten.length := by
      intro es
      induction es with
      | nil => simp
      | cons e es ih =>
        rw [List.map_cons, List.flatten_cons, List.length_append, List.length_cons]
        have : 1 ≤ e.line.length := by simp [Entry.line]; omega
        omega
    have := this es
    omega
  have := load_entries es hok [] [] (by simp) ?_ (by simpa using h2) _ hlen
  · simpa [symbolTable] using this
  · have e : es.map (fun e => unspace e.sym) = (es.map Entry.sym).map unspace := by rw [List.map_map]; rfl
    rw [List.map_nil, List.nil_append, e]
    refine List.Nodup.map_on ?_ h1
    intro a ha b hb hab
    obtain ⟨x, hx, rfl⟩ := List.mem_map.1 ha
    obtain ⟨y, hy, rfl⟩ := List.mem_map.1 hb
    exact unspace_inj _ _ (hok x hx).2.1 (hok y hy).2.1 hab

/-- Two symbols, and a file with the same number twice. -/
example : symbolTable "a 1\nb -2\n".toList = some [(['a'], 1), (['b'], -2)] ∧ symbolTable "a 1\nb 1\n".toList = none ∧
    symbolTable "a 1\nb x\n".toList = none := by decide +kernel

/-- A symbol without a number, or with a number that is too large, at the end of the file is dropped without an error. -/
theorem symbols_truncated_neg : symbolTable "a 1\nb".toList = some [(['a'], 1)] ∧
    symbolTable "a 1\nb 4294967296".toList = some [(['a'], 1)] ∧ symbolTable "a 1\nb 4294967296\n".toList = none := by
  decide +kernel

/-- A number may be followed directly by the next symbol. -/
theorem symbols_joined_neg : symbolTable "a 1b 2".toList = some [(['a'], 1), (['b'], 2)] := by decide +kernel

end Verif.Symbols
