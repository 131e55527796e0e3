import Verif.Torch.OptionsModel
import Mathlib.Data.List.Forall2

/-! # Properties of the command line options -/

namespace Verif.Options

/-! ## Positional arguments -/

/-- The options of a command line end at the first argument that does not begin with `--`, and at `--`. -/
def isOption (a : Str) : Bool := isLong a && a != dashes

theorem positional_true (l : List Str) : positional l true = l := by
  induction l with
  | nil => rfl
  | cons a l ih => simp [positional, ih]

theorem positional_false (l : List Str) : positional l false = l.erase dashes := by
  induction l with
  | nil => rfl
  | cons a l ih =>
    by_cases h : a = dashes
    · subst h
      simp [positional, positional_true]
    · simp [positional, h, ih, List.erase_cons_tail]

theorem secondPass_rest (kind : Str → Option Kind) (vals : Vals) (args : List Str) (r : Vals × List Str × Bool)
    (h : secondPass kind vals args = some r) : positional r.2.1 r.2.2 = (args.dropWhile isOption).erase dashes := by
  induction args generalizing vals with
  | nil =>
    simp only [secondPass, Option.some.injEq] at h
    subst h
    rfl
  | cons a l ih =>
    rw [secondPass] at h
    by_cases hl : isLong a = true
    · rw [if_pos hl] at h
      by_cases hd : a = dashes
      · rw [if_pos hd, Option.some.injEq] at h
        subst h
        rw [List.dropWhile_cons_of_neg (by simp [isOption, hd]), hd, List.erase_cons_head]
        exact positional_true l
      · rw [if_neg hd] at h
        rw [List.dropWhile_cons_of_pos (by simp [isOption, hd, hl])]
        cases hs : setArg kind vals a with
        | none => simp [hs] at h
        | some v =>
          simp only [hs] at h
          exact ih v h
    · rw [if_neg hl, Option.some.injEq] at h
      subst h
      rw [List.dropWhile_cons_of_neg (by simp [isOption, hl])]
      exact positional_false _

/-- The positional arguments are those after the options, without the first `--` among them. -/
theorem read_positional (kind : Str → Option Kind) (files : Str → Option (List Str)) (vals : Vals) (args : List Str)
    (out : Vals) (pos : List Str) (h : read kind files vals args = .ok out pos) :
    pos = (args.dropWhile isOption).erase dashes := by
  unfold read at h
  split at h
  · simp at h
  · simp at h
  · rename_i v _
    split at h
    · simp at h
    · rename_i w rest seen hs
      simp only [Res.ok.injEq] at h
      rw [← h.2]
      exact secondPass_rest kind v args _ hs

/-! ## Values -/

/-- The last value for `k` in a list of settings, or the value before. -/
def lastOr (l : List (Str × Value)) (k : Str) (old : Option Value) : Option Value :=
  (l.filter (fun p => p.1 = k)).getLast?.elim old (fun p => some p.2)

theorem lastOr_cons (p : Str × Value) (l : List (Str × Value)) (k : Str) (vals : Vals) :
    lastOr (p :: l) k (vals k) = lastOr l k (Function.update vals p.1 (some p.2) k) := by
  unfold lastOr
  by_cases h : p.1 = k
  · rw [List.filter_cons_of_pos (by simpa using h), List.getLast?_cons]
    subst h
    rw [Function.update_self]
    cases (l.filter (fun q => q.1 = p.1)).getLast? <;> rfl
  · rw [List.filter_cons_of_neg (by simpa using h), Function.update_of_ne (fun e => h e.symm)]

/-- `a` sets the option `p.1` to `p.2`. -/
def Sets (kind : Str → Option Kind) (a : Str) (p : Str × Value) : Prop :=
  ∃ v e, parseArg a = some (p.1, v, e) ∧ convert kind p.1 v e = some p.2

theorem setArg_some (kind : Str → Option Kind) (vals out : Vals) (a : Str) (h : setArg kind vals a = some out) :
    ∃ p, Sets kind a p ∧ out = Function.update vals p.1 (some p.2) := by
  unfold setArg at h
  split at h
  · simp at h
  · rename_i k v e hp
    cases hc : convert kind k v e with
    | none => simp [hc] at h
    | some x =>
      simp only [hc, Option.map_some, Option.some.injEq] at h
      exact ⟨(k, x), ⟨v, e, hp, hc⟩, h.symm⟩

/-- The second pass: every option has a value, and the last one counts. -/
theorem secondPass_values (kind : Str → Option Kind) (vals : Vals) (args : List Str) (r : Vals × List Str × Bool)
    (h : secondPass kind vals args = some r) :
    ∃ l : List (Str × Value), List.Forall₂ (Sets kind) (args.takeWhile isOption) l ∧
      ∀ k, r.1 k = lastOr l k (vals k) := by
  induction args generalizing vals with
  | nil =>
    simp only [secondPass, Option.some.injEq] at h
    subst h
    exact ⟨[], .nil, fun k => rfl⟩
  | cons a l ih =>
    rw [secondPass] at h
    by_cases hl : isLong a = true
    · rw [if_pos hl] at h
      by_cases hd : a = dashes
      · rw [if_pos hd, Option.some.injEq] at h
        subst h
        rw [List.takeWhile_cons_of_neg (by simp [isOption, hd])]
        exact ⟨[], .nil, fun k => rfl⟩
      · rw [if_neg hd] at h
        rw [List.takeWhile_cons_of_pos (by simp [isOption, hd, hl])]
        cases hs : setArg kind vals a with
        | none => simp [hs] at h
        | some v =>
          simp only [hs] at h
          obtain ⟨p, hp, rfl⟩ := setArg_some kind vals v a hs
          obtain ⟨q, hq, hv⟩ := ih _ h
          exact ⟨p :: q, .cons hp hq, fun k => by rw [hv k, lastOr_cons]⟩
    · rw [if_neg hl, Option.some.injEq] at h
      subst h
      rw [List.takeWhile_cons_of_neg (by simp [isOption, hl])]
      exact ⟨[], .nil, fun k => rfl⟩

/-- The values: what the first pass leaves is overwritten by the options of the command line, of which the last one counts
for every name. -/
theorem read_values (kind : Str → Option Kind) (files : Str → Option (List Str)) (vals : Vals) (args : List Str)
    (out : Vals) (pos : List Str) (h : read kind files vals args = .ok out pos) :
    ∃ (base : Vals) (l : List (Str × Value)), firstPass kind files vals args = .ok base ∧
      List.Forall₂ (Sets kind) (args.takeWhile isOption) l ∧ ∀ k, out k = lastOr l k (base k) := by
  unfold read at h
  split at h
  · simp at h
  · simp at h
  · rename_i v hf
    split at h
    · simp at h
    · rename_i w rest seen hs
      simp only [Res.ok.injEq] at h
      obtain ⟨l, h1, h2⟩ := secondPass_values kind v args _ hs
      exact ⟨v, l, hf, h1, fun k => by rw [← h.1]; exact h2 k⟩

/-- An option of the command line that is not given again has its value, whatever the configuration files say. -/
theorem command_line_wins (kind : Str → Option Kind) (files : Str → Option (List Str)) (vals : Vals)
    (before : List Str) (a : Str) (after : List Str) (hb : ∀ b ∈ before, isOption b = true) (ha : isOption a = true)
    (p : Str × Value) (hp : Sets kind a p)
    (hafter : ∀ b ∈ after.takeWhile isOption, ∀ q, Sets kind b q → q.1 ≠ p.1) (out : Vals) (pos : List Str)
    (h : read kind files vals (before ++ a :: after) = .ok out pos) : out p.1 = some p.2 := by
  obtain ⟨base, l, _, h2, h3⟩ := read_values kind files vals _ out pos h
  rw [List.takeWhile_append_of_pos hb, List.takeWhile_cons_of_pos ha] at h2
  have key : ∀ (before : List Str) (l : List (Str × Value)) (old : Option Value),
      List.Forall₂ (Sets kind) (before ++ a :: after.takeWhile isOption) l → lastOr l p.1 old = some p.2 := by
    intro before
    induction before with
    | nil =>
      intro l old hl
      cases hl with
      | cons hx hr =>
        rename_i x r
        have hxp : x = p := by
          obtain ⟨v, e, e1, e2⟩ := hx
          obtain ⟨v', e', e1', e2'⟩ := hp
          rw [e1, Option.some.injEq, Prod.mk.injEq, Prod.mk.injEq] at e1'
          obtain ⟨i1, i2, i3⟩ := e1'
          rw [i1, i2, i3, e2', Option.some.injEq] at e2
          exact Prod.ext i1 e2.symm
        have hnone : r.filter (fun q => q.1 = p.1) = [] := by
          rw [List.filter_eq_nil_iff]
          intro q hq
          obtain ⟨i, hi⟩ := List.mem_iff_getElem?.1 hq
          have hlen := hr.length_eq
          have hir : i < r.length := (List.getElem?_eq_some_iff.1 hi).1
          have hs := hr.get (by omega : i < _) hir
          have hq' : r[i] = q := (List.getElem?_eq_some_iff.1 hi).2
          have := hafter _ (List.getElem_mem (by omega : i < (after.takeWhile isOption).length)) _ hs
          simpa [← hq'] using this
        unfold lastOr
        rw [List.filter_cons_of_pos (by simp [hxp]), hnone, hxp]
        rfl
    | cons b before ih =>
      intro l old hl
      rw [List.cons_append] at hl
      cases hl with
      | cons hx hr =>
        rename_i x r
        have := lastOr_cons x r p.1 (fun _ => old)
        rw [this]
        exact ih r _ hr
  rw [h3 p.1]
  exact key before l _ h2

/-- A name and a value are found again in `--name=value`, the name in lower case and with dashes, the value without white
space at its ends. -/
theorem parse_name_value (k v : Str) (hk : k ≠ []) (he : '=' ∉ k) :
    parseArg (dashes ++ (k ++ '=' :: v)) = some (normalize k, trim v, true) := by
  have h1 : (k ++ '=' :: v).takeWhile (· != '=') = k := by
    rw [List.takeWhile_append_of_pos (fun c hc => by simp; rintro rfl; exact he hc)]
    simp
  have h2 : (k ++ '=' :: v).dropWhile (· != '=') = '=' :: v := by
    rw [List.dropWhile_append_of_pos (fun c hc => by simp; rintro rfl; exact he hc)]
    simp
  have hd : (dashes ++ (k ++ '=' :: v)).drop 2 = k ++ '=' :: v := rfl
  unfold parseArg splitLongArg
  simp only [hd, h1, h2]
  rw [if_pos (by simp), if_neg hk]
  simp [hk]

/-! ## Configuration files -/

/-- The lines of a configuration file that are not empty without their comments. -/
def settingLines (lines : List Str) : List Str :=
  (lines.map (fun x => trim (x.takeWhile (· != '#')))).filter (fun x => x ≠ [])

/-- The last line of a configuration file counts for every name. -/
theorem config_values (kind : Str → Option Kind) (vals : Vals) (lines : List Str) (out : Vals)
    (h : readConfig kind vals lines = some out) :
    ∃ l : List (Str × Value), List.Forall₂ (Sets kind) (settingLines lines) l ∧ ∀ k, out k = lastOr l k (vals k) := by
  induction lines generalizing vals with
  | nil =>
    simp only [readConfig, Option.some.injEq] at h
    subst h
    exact ⟨[], .nil, fun k => rfl⟩
  | cons x lines ih =>
    rw [readConfig] at h
    by_cases ht : trim (x.takeWhile (· != '#')) = []
    · rw [if_pos ht] at h
      have e : settingLines (x :: lines) = settingLines lines := by
        unfold settingLines
        rw [List.map_cons, List.filter_cons_of_neg (by simp [ht])]
      rw [e]
      exact ih vals h
    · rw [if_neg ht] at h
      have e : settingLines (x :: lines) = trim (x.takeWhile (· != '#')) :: settingLines lines := by
        unfold settingLines
        rw [List.map_cons, List.filter_cons_of_pos (by simp [ht])]
      rw [e]
      split at h
      · cases hs : setArg kind vals (trim (x.takeWhile (· != '#'))) with
        | none => simp [hs] at h
        | some v =>
          simp only [hs] at h
          obtain ⟨p, hp, rfl⟩ := setArg_some kind vals v _ hs
          obtain ⟨q, hq, hv⟩ := ih _ h
          exact ⟨p :: q, .cons hp hq, fun k => by rw [hv k, lastOr_cons]⟩
      · simp at h

/-- Without `--config` and `--help`, the first pass changes nothing. -/
theorem firstPass_none (kind : Str → Option Kind) (files : Str → Option (List Str)) (vals : Vals) (args : List Str)
    (h : ∀ a ∈ args, isOption a = true → ∃ k v e, parseArg a = some (k, v, e) ∧ k ≠ "config".toList ∧ k ≠ "help".toList) :
    firstPass kind files vals args = .ok vals := by
  induction args with
  | nil => rfl
  | cons a l ih =>
    have ih' := ih (fun b hb => h b (by simp [hb]))
    rw [firstPass]
    by_cases hl : isLong a = true
    · rw [if_pos hl]
      by_cases hd : a = dashes
      · rw [if_pos hd]
      · rw [if_neg hd]
        obtain ⟨k, v, e, hp, h1, h2⟩ := h a (by simp) (by simp [isOption, hl, hd])
        simp only [hp]
        rw [if_neg (by simpa using h1), if_neg (by simpa using h2), ih']
    · rw [if_neg hl, ih']

/-- If no argument is `--config` or `--help`, the arguments behind the options do not change any value. -/
theorem read_ignores_rest_partial (kind : Str → Option Kind) (files : Str → Option (List Str)) (vals : Vals)
    (args : List Str) (out : Vals) (pos : List Str)
    (h : ∀ a ∈ args, isOption a = true → ∃ k v e, parseArg a = some (k, v, e) ∧ k ≠ "config".toList ∧ k ≠ "help".toList)
    (hr : read kind files vals args = .ok out pos) :
    ∃ l : List (Str × Value), List.Forall₂ (Sets kind) (args.takeWhile isOption) l ∧ ∀ k, out k = lastOr l k (vals k) := by
  obtain ⟨base, l, h1, h2, h3⟩ := read_values kind files vals args out pos hr
  rw [firstPass_none kind files vals args h] at h1
  cases h1
  exact ⟨l, h2, h3⟩

/-- If moreover every option has a name that is known and a value that can be converted, the program is not ended. -/
theorem read_total_partial (kind : Str → Option Kind) (files : Str → Option (List Str)) (vals : Vals) (args : List Str)
    (h : ∀ a ∈ args, isOption a = true → ∃ k v e, parseArg a = some (k, v, e) ∧ k ≠ "config".toList ∧ k ≠ "help".toList)
    (hs : ∀ a ∈ args.takeWhile isOption, ∃ p, Sets kind a p) :
    ∃ out, read kind files vals args = .ok out ((args.dropWhile isOption).erase dashes) := by
  have key : ∀ (args : List Str) (vals : Vals), (∀ a ∈ args.takeWhile isOption, ∃ p, Sets kind a p) →
      ∃ r, secondPass kind vals args = some r := by
    intro args
    induction args with
    | nil => exact fun vals _ => ⟨_, rfl⟩
    | cons a l ih =>
      intro vals hs
      rw [secondPass]
      by_cases hl : isLong a = true
      · rw [if_pos hl]
        by_cases hd : a = dashes
        · rw [if_pos hd]
          exact ⟨_, rfl⟩
        · rw [if_neg hd]
          rw [List.takeWhile_cons_of_pos (by simp [isOption, hd, hl])] at hs
          obtain ⟨p, v, e, e1, e2⟩ := hs a (by simp)
          have : setArg kind vals a = some (Function.update vals p.1 (some p.2)) := by
            unfold setArg
            simp only [e1, e2, Option.map_some]
          simp only [this]
          exact ih _ (fun b hb => hs b (by simp [hb]))
      · rw [if_neg hl]
        exact ⟨_, rfl⟩
  obtain ⟨r, hr⟩ := key args vals hs
  have hread : read kind files vals args = .ok r.1 (positional r.2.1 r.2.2) := by
    unfold read
    rw [firstPass_none kind files vals args h]
    simp only [hr]
  exact ⟨r.1, by rw [hread, secondPass_rest kind vals args r hr]⟩

/-- The kinds of a small program: a number, and the options that every program has. -/
def exKind : Str → Option Kind := fun k =>
  if k = "beam".toList then some (.number (fun s => if s = "1".toList then some 1 else if s = "2".toList then some 2 else none))
  else if k = "config".toList then some .text
  else if k = "help".toList then some .bool
  else none

/-- One configuration file. -/
def exFiles : Str → Option (List Str) := fun f =>
  if f = "c".toList then some ["# beam".toList, "--beam=2 # two".toList] else none

/-- The values of `beam` and the positional arguments. -/
def beamOf : Res → Option (Option Value × List Str)
  | .ok v p => some (v "beam".toList, p)
  | _ => none

/-- The configuration file is read first, wherever it is given; the last `--` counts as an argument. -/
example : beamOf (read exKind exFiles (fun _ => none) ["--config=c".toList, "a".toList]) =
      some (some (.number 2), ["a".toList]) ∧
    beamOf (read exKind exFiles (fun _ => none) ["--Beam= 1".toList, "--config=c".toList, "a".toList]) =
      some (some (.number 1), ["a".toList]) ∧
    beamOf (read exKind exFiles (fun _ => none) ["a".toList, "--".toList, "--".toList]) =
      some (none, ["a".toList, "--".toList]) := by decide +kernel

/-- A configuration file that is named behind a positional argument is read, although the name is also passed on as a
positional argument. -/
theorem read_config_neg : beamOf (read exKind exFiles (fun _ => none) ["a".toList, "--config=c".toList]) =
    some (some (.number 2), ["a".toList, "--config=c".toList]) := by decide +kernel

/-- `--help` behind a positional argument ends the program. -/
theorem read_help_neg : ∃ args : List Str, args.takeWhile isOption = [] ∧
    read exKind exFiles (fun _ => none) args = .help :=
  ⟨["a".toList, "--help".toList], by decide +kernel, rfl⟩

/-- `--config` in a configuration file is accepted, but the file it names is not read. -/
theorem nested_config_neg (files : Str → Option (List Str)) (h : files "d".toList = some ["--config=c".toList]) :
    ∃ out, read exKind files (fun _ => none) ["--config=d".toList] = .ok out [] ∧ out "beam".toList = none := by
  have hf : firstPass exKind files (fun _ => none) ["--config=d".toList] =
      .ok (Function.update (fun _ => none) "config".toList (some (.text "c".toList))) := by
    have hp : parseArg "--config=d".toList = some ("config".toList, "d".toList, true) := by decide +kernel
    rw [firstPass, if_pos (by decide +kernel), if_neg (by decide +kernel)]
    simp only [hp]
    rw [if_pos (by decide +kernel)]
    simp only [h]
    rfl
  refine ⟨Function.update (Function.update (fun _ => none) "config".toList (some (.text "c".toList))) "config".toList
    (some (.text "d".toList)), ?_, ?_⟩
  · unfold read
    rw [hf]
    rfl
  · rw [Function.update_of_ne (by decide +kernel), Function.update_of_ne (by decide +kernel)]

end Verif.Options
