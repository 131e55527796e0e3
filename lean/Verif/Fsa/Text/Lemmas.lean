import Verif.Fsa.Text.Model

/-! Reading the lines that `FsaToString` prints. -/

namespace Verif.Fsa.Txt
open Verif.Util.Stream Verif.Text
variable {W : Type}

/-- The text of the score `w` is read as the score `w'`. -/
structure ReadsAs (c : Codec W) (w w' : W) : Prop where
  scan : ∃ m e, scanReal (c.pr w) = some ((m, e), []) ∧ c.conv m e = w'
  noSpace : ∀ x ∈ c.pr w, isSpace x = false

theorem ReadsAs.skip {c : Codec W} {w w' : W} (h : ReadsAs c w w') :
    (Verif.Util.Stream.skip (c.pr w)) = c.pr w ∧ (c.pr w).isEmpty = false := by
  cases hp : c.pr w with
  | nil =>
    obtain ⟨m, e, h1, _⟩ := h.scan
    rw [hp] at h1
    simp [scanReal, sign, fraction] at h1
  | cons x l => exact ⟨skip_of_head (h.noSpace x (by rw [hp]; simp)), rfl⟩

/-! ## Pieces of a line -/

theorem readAux_print (aux : List (List Int)) (a : Nat) (l : List Char) :
    readAux aux.length (' ' :: (printAux aux a ++ l)) =
      if aux.all (fun x => inInt32 (x.getD a 0)) then
        some (aux.map (fun x => x.getD a 0), ' ' :: l) else none := by
  induction aux with
  | nil => simp [readAux, printAux]
  | cons x aux ih =>
    have e : printAux (x :: aux) a ++ l = showInt (x.getD a 0) ++ ' ' :: (printAux aux a ++ l) := by
      simp [printAux]
    rw [e, List.length_cons, readAux, readReal_space, readReal_showInt, Option.bind_eq_bind,
      Option.bind_some]
    dsimp only
    rw [realToInt_int, ih]
    by_cases h1 : inInt32 (x.getD a 0) = true
    · by_cases h2 : aux.all (fun x => inInt32 (x.getD a 0)) = true
      · rw [if_pos h1, if_pos h2, if_pos (by rw [List.all_cons, h1, h2]; rfl)]
        simp
      · rw [if_pos h1, if_neg h2, if_neg (by rw [List.all_cons]; simp only [h1]; simpa using h2)]
        simp
    · rw [if_neg h1, if_neg (c := ((x :: aux).all fun x => inInt32 (x.getD a 0)) = true)
        (by rw [List.all_cons]; simp only [Bool.and_eq_true]; exact fun hh => h1 hh.1)]
      rfl

theorem printRagged_cons (x : List (List Int)) (rag : List (List (List Int))) (a : Nat) (l : List Char) :
    printRagged (x :: rag) a ++ l =
      '[' :: ' ' :: (((x.getD a []).flatMap fun z => showInt z ++ [' ']) ++ (']' :: ' ' :: (printRagged rag a ++ l))) := by
  simp [printRagged]

theorem ragLoop_succ (n : Nat) (l : List Char) (h : ∀ t, l ≠ ']' :: t) :
    ragLoop (n + 1) l = (readInt l).bind fun x => (ragLoop n x.2).bind fun r => some (x.1 :: r.1, r.2) := by
  rw [ragLoop]
  · rfl
  · exact h

theorem ragLoop_zero (l : List Char) (h : ∀ t, l ≠ ']' :: t) : ragLoop 0 l = none := by
  rw [ragLoop]
  exact h

theorem ragLoop_close (n : Nat) (t : List Char) : ragLoop n (']' :: t) = some ([], t) := by
  cases n <;> simp [ragLoop]

/-- A ragged label that is not empty is not read back. -/
theorem readRagged_print (z : Int) (zs : List Int) (l : List Char) :
    readRagged (' ' :: '[' :: ' ' :: (((z :: zs).flatMap fun z => showInt z ++ [' ']) ++ (']' :: l))) =
      none := by
  have loop : ∀ (zs : List Int) (fuel : Nat) (t : List Char),
      ragLoop fuel (' ' :: ((zs.flatMap fun z => showInt z ++ [' ']) ++ (']' :: t))) = none := by
    intro zs
    induction zs with
    | nil =>
      intro fuel t
      cases fuel with
      | zero => exact ragLoop_zero _ (by intro t; simp)
      | succ n =>
        rw [List.flatMap_nil, List.nil_append, ragLoop_succ _ _ (by intro t; simp), readInt_space, readInt_bad ']' t (by decide) (by decide) (by decide) (by decide)]
        rfl
    | cons z zs ih =>
      intro fuel t
      cases fuel with
      | zero => exact ragLoop_zero _ (by intro t; simp)
      | succ n =>
        rw [ragLoop_succ _ _ (by intro t; simp), readInt_space]
        have e : ((z :: zs).flatMap fun z => showInt z ++ [' ']) ++ (']' :: t) =
            showInt z ++ (' ' :: ((zs.flatMap fun z => showInt z ++ [' ']) ++ (']' :: t))) := by simp
        rw [e, readInt_showInt _ _ (ends_cons (by decide))]
        split
        · rw [Option.bind_some, ih]; rfl
        · rfl
  unfold readRagged
  rw [skip_space, skip_of_head (show isSpace '[' = false by decide)]
  change ragLoop _ (skip (' ' :: _)) = none
  rw [skip_space]
  have e : ((z :: zs).flatMap fun z => showInt z ++ [' ']) ++ (']' :: l) =
      showInt z ++ (' ' :: ((zs.flatMap fun z => showInt z ++ [' ']) ++ (']' :: l))) := by simp
  rw [e, skip_showInt]
  generalize hfuel : (' ' :: (showInt z ++ (' ' :: ((zs.flatMap fun z => showInt z ++ [' ']) ++ (']' :: l))))).length = fuel
  -- the first character of a number is no bracket
  have hhead : ∀ t, ragLoop fuel (showInt z ++ t) = (readInt (showInt z ++ t)).bind fun x =>
      (ragLoop (fuel - 1) x.2).bind fun r => some (x.1 :: r.1, r.2) := by
    intro t
    obtain ⟨k, rfl⟩ : ∃ k, fuel = k + 1 := ⟨fuel - 1, by simp at hfuel; omega⟩
    cases h : showInt z with
    | nil => exact absurd h (showInt_ne_nil z)
    | cons c u =>
      have hc : c ≠ ']' := by
        intro hc
        cases z with
        | ofNat n =>
          have : c.isDigit = true := isDigit_of_mem_showNat (n := n) (by
            have h' : showNat n = c :: u := h
            rw [h']; simp)
          rw [hc] at this
          exact absurd this (by decide)
        | negSucc n =>
          simp only [showInt, List.cons.injEq] at h
          rw [hc] at h
          exact absurd h.1 (by decide)
      rw [List.cons_append, ragLoop_succ]
      · rfl
      · intro t' e; simp only [List.cons.injEq] at e; exact hc e.1
  rw [hhead, readInt_showInt _ _ (ends_cons (by decide))]
  split
  · simp only [Option.bind_some]
    rw [loop]; rfl
  · rfl

theorem readRags_print (rag : List (List (List Int))) (a : Nat) (l : List Char) :
    readRags rag.length (' ' :: (printRagged rag a ++ l)) =
      if rag.all (fun x => (x.getD a []).isEmpty) then
        some (rag.map (fun _ => []), ' ' :: l) else none := by
  induction rag with
  | nil => simp [readRags, printRagged]
  | cons x rag ih =>
    rw [printRagged_cons, List.length_cons, readRags]
    cases hx : x.getD a [] with
    | nil =>
      have : readRagged (' ' :: '[' :: ' ' :: ((([] : List Int).flatMap fun z => showInt z ++ [' ']) ++
          (']' :: ' ' :: (printRagged rag a ++ l)))) = some ([], ' ' :: (printRagged rag a ++ l)) := by
        unfold readRagged
        rw [skip_space, skip_of_head (show isSpace '[' = false by decide)]
        change ragLoop _ (skip (' ' :: _)) = _
        rw [List.flatMap_nil, List.nil_append, skip_space,
          skip_of_head (show isSpace ']' = false by decide), ragLoop_close]
      rw [this, Option.bind_eq_bind, Option.bind_some]
      dsimp only
      rw [ih, List.all_cons, hx]
      split <;> simp_all
    | cons z zs =>
      rw [readRagged_print, if_neg (by rw [List.all_cons, hx]; simp)]
      rfl

theorem readScore_print {c : Codec W} {w w' : W} (h : ReadsAs c w w') (wsFails : Bool) (nr : Nat) :
    readScore c wsFails nr (' ' :: c.pr w) = some w' := by
  obtain ⟨h1, h2⟩ := h.skip
  obtain ⟨m, e, h3, h4⟩ := h.scan
  unfold readScore
  rw [skip_space, h1, if_neg (by simp), if_neg (by rw [h2]; simp)]
  unfold readReal
  rw [h1, h3]
  simp [Verif.Util.Stream.skip, h4]

/-! ## A line -/

/-- All numbers of an arc fit into 32 bits. -/
def Fits (aux : List (List Int)) (a : Nat) (arc : Arc W) : Prop :=
  inInt32 arc.src = true ∧ inInt32 arc.dst = true ∧ inInt32 arc.label = true ∧
    aux.all (fun x => inInt32 (x.getD a 0)) = true

theorem parseLine_print (c : Codec W) (wsFails : Bool) (aux : List (List Int))
    (rag : List (List (List Int))) (a : Nat) (arc : Arc W) (w' : W) (hw : ReadsAs c arc.score w')
    (hfit : Fits aux a arc) (hrag : rag.all (fun x => (x.getD a []).isEmpty) = true) :
    parseLine c wsFails aux.length rag.length (printArc c false aux rag a arc) =
      some (.arc arc.src arc.dst arc.label (aux.map (fun x => x.getD a 0)) (rag.map (fun _ => [])) w') := by
  obtain ⟨f1, f2, f3, f4⟩ := hfit
  have e : printArc c false aux rag a arc = showInt arc.src ++ ' ' :: (showInt arc.dst ++ ' ' ::
      (showInt arc.label ++ ' ' :: (printAux aux a ++ (printRagged rag a ++ c.pr arc.score)))) := by
    simp [printArc]
  rw [e]
  unfold parseLine
  rw [skip_showInt, if_neg (by simp [showInt_ne_nil]), readInt_showInt _ _ (ends_cons (by decide)),
    if_pos f1, Option.bind_eq_bind, Option.bind_some]
  dsimp only
  rw [skip_space, skip_showInt, if_neg (by simp [showInt_ne_nil])]
  unfold parseArc
  rw [readInt_showInt _ _ (ends_cons (by decide)), if_pos f2, Option.bind_eq_bind, Option.bind_some]
  dsimp only
  rw [readInt_space, readInt_showInt _ _ (ends_cons (by decide)), if_pos f3, Option.bind_some]
  dsimp only
  rw [if_neg (by omega), readAux_print, if_pos f4, Option.bind_eq_bind, Option.bind_some]
  dsimp only
  rw [readRags_print, if_pos hrag, Option.bind_eq_bind, Option.bind_some]
  dsimp only
  rw [readScore_print hw]
  rfl

/-- A line with one auxiliary label more than expected is rejected: the label is read as the score, and
text is left. -/
theorem parseLine_extra (c : Codec W) (wsFails : Bool) (aux more : List (List Int)) (y : List Int)
    (a : Nat) (arc : Arc W) (hsp : ∀ x ∈ c.pr arc.score, isSpace x = false) (hne : c.pr arc.score ≠ []) :
    parseLine c wsFails aux.length 0 (printArc c false (aux ++ y :: more) [] a arc) = none := by
  have e : printArc c false (aux ++ y :: more) [] a arc = showInt arc.src ++ ' ' :: (showInt arc.dst ++ ' ' ::
      (showInt arc.label ++ ' ' :: (printAux aux a ++ (showInt (y.getD a 0) ++ ' ' ::
        (printAux more a ++ c.pr arc.score))))) := by
    simp [printArc, printAux, printRagged]
  have hlast : (skip (' ' :: (printAux more a ++ c.pr arc.score))).isEmpty = false := by
    rw [skip_space]
    cases more with
    | nil =>
      cases hp : c.pr arc.score with
      | nil => exact absurd hp hne
      | cons x l =>
        simp only [printAux, List.flatMap_nil, List.nil_append]
        rw [skip_of_head (hsp x (by rw [hp]; simp))]
        rfl
    | cons x more =>
      have e2 : printAux (x :: more) a ++ c.pr arc.score =
          showInt (x.getD a 0) ++ ' ' :: (printAux more a ++ c.pr arc.score) := by simp [printAux]
      rw [e2, skip_showInt]
      simp [showInt_ne_nil]
  rw [e]
  unfold parseLine
  rw [skip_showInt, if_neg (by simp [showInt_ne_nil]), readInt_showInt _ _ (ends_cons (by decide))]
  split
  · rw [Option.bind_eq_bind, Option.bind_some]
    dsimp only
    rw [skip_space, skip_showInt, if_neg (by simp [showInt_ne_nil])]
    unfold parseArc
    rw [readInt_showInt _ _ (ends_cons (by decide))]
    split
    · rw [Option.bind_eq_bind, Option.bind_some]
      dsimp only
      rw [readInt_space, readInt_showInt _ _ (ends_cons (by decide))]
      split
      · rw [Option.bind_some]
        dsimp only
        split
        · rfl
        · rw [readAux_print]
          split
          · rw [Option.bind_eq_bind, Option.bind_some]
            simp only [readRags, Option.bind_eq_bind, Option.bind_some]
            have : readScore c wsFails 0 (' ' :: (showInt (y.getD a 0) ++ ' ' ::
                (printAux more a ++ c.pr arc.score))) = none := by
              unfold readScore
              rw [if_neg (by simp), skip_space, skip_showInt, if_neg (by simp [showInt_ne_nil]),
                readReal_showInt, Option.bind_eq_bind, Option.bind_some]
              dsimp only
              rw [if_neg (by rw [hlast]; simp)]
            rw [this]
            rfl
          · rfl
      · rfl
    · rfl
  · rfl

theorem parseLine_ragged (c : Codec W) (wsFails : Bool) (aux : List (List Int))
    (rag : List (List (List Int))) (a : Nat) (arc : Arc W)
    (hrag : rag.all (fun x => (x.getD a []).isEmpty) = false) :
    parseLine c wsFails aux.length rag.length (printArc c false aux rag a arc) = none := by
  have e : printArc c false aux rag a arc = showInt arc.src ++ ' ' :: (showInt arc.dst ++ ' ' ::
      (showInt arc.label ++ ' ' :: (printAux aux a ++ (printRagged rag a ++ c.pr arc.score)))) := by
    simp [printArc]
  rw [e]
  unfold parseLine
  rw [skip_showInt, if_neg (by simp [showInt_ne_nil]), readInt_showInt _ _ (ends_cons (by decide))]
  split
  · rw [Option.bind_eq_bind, Option.bind_some]
    dsimp only
    rw [skip_space, skip_showInt, if_neg (by simp [showInt_ne_nil])]
    unfold parseArc
    rw [readInt_showInt _ _ (ends_cons (by decide))]
    split
    · rw [Option.bind_eq_bind, Option.bind_some]
      dsimp only
      rw [readInt_space, readInt_showInt _ _ (ends_cons (by decide))]
      split
      · rw [Option.bind_some]
        dsimp only
        rw [if_neg (by omega), readAux_print]
        split
        · rw [Option.bind_eq_bind, Option.bind_some]
          dsimp only
          rw [readRags_print, if_neg (by rw [hrag]; simp)]
          rfl
        · rfl
      · rfl
    · rfl
  · rfl

theorem parseLine_final (c : Codec W) (wsFails : Bool) (na nr : Nat) (n : Nat)
    (h : inInt32 (n : Int) = true) :
    parseLine c wsFails na nr (showInt (n : Int)) = some (.final n) := by
  have e : showInt (n : Int) = showInt (n : Int) ++ [] := by simp
  unfold parseLine
  rw [e, skip_showInt, if_neg (by simp [showInt_ne_nil]), readInt_showInt _ _ ends_nil, if_pos h]
  simp [skip]

theorem parseLine_blank (c : Codec W) (wsFails : Bool) (na nr : Nat) :
    parseLine c wsFails na nr [] = some .blank := by
  simp [parseLine, skip]

/-! ## Lines -/

theorem splitNl_lines (L : List (List Char)) (h : ∀ l ∈ L, '\n' ∉ l) :
    splitNl (L.map (fun l => l ++ ['\n'])).flatten = L ++ [[]] := by
  induction L with
  | nil => rfl
  | cons l L ih =>
    rw [List.map_cons, List.flatten_cons, List.append_assoc, List.cons_append, List.nil_append,
      splitNl_line _ _ (h l (by simp)), ih fun l' hl' => h l' (by simp [hl'])]
    rfl

theorem showInt_noNl (z : Int) : '\n' ∉ showInt z := not_mem_nl_of_noWs (showInt_noWs z)

theorem noNl_of_noSpace {l : List Char} (h : ∀ x ∈ l, isSpace x = false) : '\n' ∉ l :=
  fun hm => absurd (h _ hm) (by decide)

theorem printArc_noNl (c : Codec W) (op : Bool) (aux : List (List Int)) (rag : List (List (List Int)))
    (a : Nat) (arc : Arc W)
    (h : ∀ x ∈ c.pr (if op then c.neg arc.score else arc.score), isSpace x = false) :
    '\n' ∉ printArc c op aux rag a arc := by
  have hp := noNl_of_noSpace h
  have h1 : '\n' ∉ printAux aux a := by
    simp only [printAux, List.mem_flatMap, List.mem_append, not_exists, not_and, not_or]
    intro x _
    exact ⟨showInt_noNl _, by simp⟩
  have h2 : '\n' ∉ printRagged rag a := by
    simp only [printRagged, List.mem_flatMap, List.mem_append, not_exists, not_and, not_or]
    intro x _
    refine ⟨⟨by simp, ?_⟩, by simp⟩
    intro z _
    exact ⟨showInt_noNl _, by simp⟩
  unfold printArc
  simp only [List.mem_append, not_or]
  refine ⟨?_, hp⟩
  split
  · simp [showInt_noNl]
  · simp [showInt_noNl, h1, h2]

theorem foldlM_none {α β : Type} (g : β → α → Option β) (l : List α) (x : α) (hx : x ∈ l)
    (h : ∀ b, g b x = none) (b : β) : l.foldlM g b = none := by
  induction l generalizing b with
  | nil => simp at hx
  | cons y l ih =>
    rw [List.foldlM_cons, Option.bind_eq_bind]
    rcases List.mem_cons.1 hx with rfl | hx
    · rw [h]; rfl
    · cases g b y with
      | none => rfl
      | some b' => exact ih hx b'

/-- The element of a concatenation of lists of the same length. -/
theorem flatMap_get {α : Type} (g : Nat → List α) (n : Nat) (hg : ∀ i, (g i).length = n) (k i j : Nat)
    (hi : i < k) (hj : j < n) : ((List.range k).flatMap g)[i * n + j]? = (g i)[j]? := by
  induction k with
  | zero => omega
  | succ k ih =>
    have hl : ((List.range k).flatMap g).length = k * n := by
      rw [List.length_flatMap]
      simp [hg, List.map_const', List.sum_replicate_nat]
    rw [List.range_succ, List.flatMap_append, List.flatMap_singleton]
    by_cases h : i < k
    · rw [List.getElem?_append_left, ih h]
      rw [hl]
      calc i * n + j < i * n + n := by omega
        _ = (i + 1) * n := by rw [Nat.add_mul]; omega
        _ ≤ k * n := Nat.mul_le_mul_right n h
    · have : i = k := by omega
      subst this
      rw [List.getElem?_append_right (by omega), hl]
      congr 1
      omega

end Verif.Fsa.Txt
