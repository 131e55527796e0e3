import Mathlib.Data.List.Basic
import Verif.Fsa.Det.Wrap

/-!
# C52 and C54: arc maps of algorithms that go through an FsaVec one FSA at a time

Specification.  The arcs of a vector of FSAs are the concatenation of the arcs of its FSAs.  A
derivative list of the vector is right when each of its entries selects, from all arcs of the
sources, the arc that the single-FSA algorithm selected from its own source.
-/

namespace Verif.Fsa.Det

variable {W : Type}

/-- All arcs of a vector, in order: position in this list is `idx012`. -/
def allArcs (fs : List (Fsa W)) : List (Arc W) := (fs.map Fsa.arcs).flatten

/-- The arcs of the sources that the derivative lists name (`none` for an index out of range). -/
def named (arcs : List (Arc W)) (d : List (List Nat)) : List (List (Option (Arc W))) :=
  d.map (·.map fun k => arcs[k]?)

/-- Entries of the derivative lists are arcs of the FSA. -/
def InRange (f : Fsa W) (d : List (List Nat)) : Prop := ∀ l ∈ d, ∀ k ∈ l, k < f.arcs.length

/-- `out` and `derivs` are what `f` gives on each FSA separately, with the derivatives naming the
same arcs: as many groups of derivatives as FSAs, and group `i` names among all arcs the arcs
that `f` named among the arcs of FSA `i`. -/
def RightDerivs (f : Fsa W → Option (Run W)) (srcs out : List (Fsa W))
    (derivs : List (List Nat)) : Prop :=
  ∃ rs : List (Run W), srcs.map f = rs.map some ∧ out = rs.map Prod.fst ∧
    named (allArcs srcs) derivs =
      ((srcs.zip rs).map fun q => named q.1.arcs q.2.2).flatten

theorem named_plus (pre mid post : List (Arc W)) (d : List (List Nat))
    (h : ∀ l ∈ d, ∀ k ∈ l, k < mid.length) :
    named (pre ++ mid ++ post) (plus pre.length d) = named mid d := by
  simp only [named, plus, List.map_map]
  refine List.map_congr_left fun l hl => ?_
  simp only [Function.comp, List.map_map]
  refine List.map_congr_left fun k hk => ?_
  simp only [Function.comp]
  have := h l hl k hk
  rw [List.getElem?_append_left (by simp; omega), List.getElem?_append_right (by omega)]
  congr 1
  omega

theorem named_append (arcs : List (Arc W)) (a b : List (List Nat)) :
    named arcs (a ++ b) = named arcs a ++ named arcs b := by
  simp [named]

theorem wrapLoop_spec (f : Fsa W → Option (Run W))
    (hr : ∀ s r, f s = some r → InRange s r.2) (srcs : List (Fsa W)) :
    ∀ (pre : List (Arc W)) (out : List (Run W)), wrapLoop f pre.length srcs = some out →
      ∃ rs : List (Run W), srcs.map f = rs.map some ∧ out.map Prod.fst = rs.map Prod.fst ∧
        named (pre ++ allArcs srcs) (out.map Prod.snd).flatten =
          ((srcs.zip rs).map fun q => named q.1.arcs q.2.2).flatten := by
  induction srcs with
  | nil =>
    intro pre out h
    cases h
    exact ⟨[], rfl, rfl, rfl⟩
  | cons s ss ih =>
    intro pre out h
    rw [wrapLoop] at h
    rcases hf : f s with _ | r
    · rw [hf] at h; cases h
    rw [hf] at h
    simp only at h
    rw [← List.length_append] at h
    rcases hw : wrapLoop f (pre ++ s.arcs).length ss with _ | rs'
    · rw [hw] at h; cases h
    rw [hw] at h
    cases h
    obtain ⟨rs, h1, h2, h3⟩ := ih (pre ++ s.arcs) rs' hw
    refine ⟨r :: rs, by simp [hf, h1], by simp [h2], ?_⟩
    have he : pre ++ allArcs (s :: ss) = pre ++ s.arcs ++ allArcs ss := by simp [allArcs]
    rw [he]
    simp only [List.map_cons, List.flatten_cons, List.zip_cons_cons]
    rw [named_append, named_plus pre s.arcs _ r.2 (hr s r hf), h3]

theorem wrapLoop_defined (f : Fsa W → Option (Run W)) (srcs : List (Fsa W))
    (h : ∀ s ∈ srcs, (f s).isSome) (tot : Nat) : (wrapLoop f tot srcs).isSome := by
  induction srcs generalizing tot with
  | nil => rfl
  | cons s ss ih =>
    rw [wrapLoop]
    obtain ⟨r, hr⟩ := Option.isSome_iff_exists.1 (h s (by simp))
    obtain ⟨rs, hrs⟩ := Option.isSome_iff_exists.1
      (ih (fun x hx => h x (by simp [hx])) (tot + s.arcs.length))
    rw [hr]
    simp only [hrs, Option.isSome_some]

/-- **C54.** The wrapper for arc derivatives (used by `RemoveEpsilonHost` on an `FsaVec`): it
succeeds whenever the single-FSA algorithm does on every FSA, and its derivatives name the right
arcs of the right FSA. -/
theorem recursionWrapper_spec (f : Fsa W → Option (Run W))
    (hr : ∀ s r, f s = some r → InRange s r.2) (srcs : List (Fsa W)) :
    ((∀ s ∈ srcs, (f s).isSome) → (recursionWrapper f srcs).isSome) ∧
      ∀ out derivs, recursionWrapper f srcs = some (out, derivs) →
        RightDerivs f srcs out derivs := by
  constructor
  · intro h
    obtain ⟨rs, hrs⟩ := Option.isSome_iff_exists.1 (wrapLoop_defined f srcs h 0)
    simp [recursionWrapper, hrs]
  · intro out derivs h
    rw [recursionWrapper] at h
    rcases hw : wrapLoop f 0 srcs with _ | rs'
    · rw [hw] at h; cases h
    rw [hw] at h
    cases h
    obtain ⟨rs, h1, h2, h3⟩ := wrapLoop_spec f hr srcs [] rs' hw
    exact ⟨rs, h1, h2, by simpa using h3⟩

/-- An arc map seen as derivative lists with one entry each. -/
def single (r : Fsa W × List Nat) : Run W := (r.1, r.2.map fun k => [k])

theorem wrapMapLoop_eq (f : Fsa W → Option (Fsa W × List Nat)) (srcs : List (Fsa W)) (tot : Nat) :
    wrapLoop (fun s => (f s).map single) tot srcs = (wrapMapLoop f tot srcs).map (·.map single) := by
  induction srcs generalizing tot with
  | nil => rfl
  | cons s ss ih =>
    rw [wrapLoop, wrapMapLoop]
    rcases f s with _ | r
    · rfl
    simp only [Option.map_some, ih]
    rcases wrapMapLoop f (tot + s.arcs.length) ss with _ | rs
    · rfl
    simp [single, plus, Function.comp_def]

/-- **C54.** The wrapper for arc maps (`ConnectHost`, `TopSortHost`): same statement, arc maps
having one entry per output arc. -/
theorem recursionWrapperMap_spec (f : Fsa W → Option (Fsa W × List Nat))
    (hr : ∀ s r, f s = some r → ∀ k ∈ r.2, k < s.arcs.length) (srcs : List (Fsa W)) :
    ((∀ s ∈ srcs, (f s).isSome) → (recursionWrapperMap f srcs).isSome) ∧
      ∀ out map, recursionWrapperMap f srcs = some (out, map) →
        ∃ rs : List (Fsa W × List Nat), srcs.map f = rs.map some ∧ out = rs.map Prod.fst ∧
          map.map (fun k => (allArcs srcs)[k]?) =
            ((srcs.zip rs).map fun q => q.2.2.map fun k => q.1.arcs[k]?).flatten := by
  have hw := wrapMapLoop_eq f srcs 0
  have hr' : ∀ s r, (fun s => (f s).map single) s = some r → InRange s r.2 := by
    intro s r h
    obtain ⟨x, hx, rfl⟩ := Option.map_eq_some_iff.1 h
    intro l hl k hk
    simp only [single, List.mem_map] at hl
    obtain ⟨j, hj, rfl⟩ := hl
    cases List.mem_singleton.1 hk
    exact hr s x hx _ hj
  constructor
  · intro h
    have := wrapLoop_defined (fun s => (f s).map single) srcs (fun s hs => by simpa using h s hs) 0
    rw [hw, Option.isSome_map] at this
    obtain ⟨rs, hrs⟩ := Option.isSome_iff_exists.1 this
    simp [recursionWrapperMap, hrs]
  · intro out map h
    rw [recursionWrapperMap] at h
    rcases hm : wrapMapLoop f 0 srcs with _ | rs'
    · rw [hm] at h; cases h
    rw [hm] at h
    cases h
    rw [hm] at hw
    obtain ⟨rs, h1, h2, h3⟩ := wrapLoop_spec _ hr' srcs [] _ hw
    have hrs : ∃ qs : List (Fsa W × List Nat), srcs.map f = qs.map some ∧ rs = qs.map single := by
      clear h2 h3 hw hm hr hr'
      induction srcs generalizing rs with
      | nil => cases rs with
        | nil => exact ⟨[], rfl, rfl⟩
        | cons _ _ => simp at h1
      | cons s ss ih =>
        cases rs with
        | nil => simp at h1
        | cons r rs =>
          simp only [List.map_cons, List.cons.injEq] at h1
          obtain ⟨x, hx, rfl⟩ := Option.map_eq_some_iff.1 h1.1
          obtain ⟨qs, hq1, hq2⟩ := ih rs h1.2
          exact ⟨x :: qs, by simp [hx, hq1], by simp [hq2]⟩
    obtain ⟨qs, hq1, rfl⟩ := hrs
    refine ⟨qs, hq1, ?_, ?_⟩
    · simpa [single, Function.comp_def] using h2
    · have key : ∀ (arcs : List (Arc W)) (l : List Nat),
          named arcs (l.map fun k => [k]) = (l.map fun k => arcs[k]?).map fun x => [x] := by
        intro arcs l
        simp [named, Function.comp_def]
      have inj : Function.Injective (List.map fun x : Option (Arc W) => [x]) :=
        List.map_injective_iff.2 fun a b h => by simpa using h
      apply inj
      rw [List.nil_append] at h3
      have e1 : (List.map Prod.snd (List.map single rs')).flatten =
          (rs'.map Prod.snd).flatten.map fun k => [k] := by
        rw [List.map_flatten, List.map_map, List.map_map]
        rfl
      rw [e1, key] at h3
      rw [h3, List.map_flatten, List.map_map, List.zip_map_right, List.map_map]
      congr 1
      refine List.map_congr_left fun q _ => ?_
      simp only [Function.comp, Prod.map, id, single]
      exact key _ _

/-! ### `Determinize` on an `FsaVec` -/

/-- **C52, what holds.** Without derivatives, every FSA of the vector is determinized. -/
theorem determinizeVec_fsas_partial (det : Fsa W → Option (Run W)) (srcs out : List (Fsa W)) :
    determinizeVecNoDerivs det srcs = some out ↔
      srcs.map (fun s => (det s).map Prod.fst) = out.map some := by
  unfold determinizeVecNoDerivs
  induction srcs generalizing out with
  | nil => cases out <;> simp
  | cons s ss ih =>
    rw [List.mapM_cons]
    rcases hd : (det s).map Prod.fst with _ | d
    · cases out <;> simp [hd]
    · simp only [Option.bind_eq_bind, Option.bind_some, List.map_cons, hd]
      rcases hm : ss.mapM fun s => (det s).map Prod.fst with _ | ds
      · cases out with
        | nil => simp
        | cons o os =>
          have := mt (ih os).2 (by simp [hm])
          simp
          exact fun _ => this
      · cases out with
        | nil => simp
        | cons o os =>
          have := ih os
          rw [hm] at this
          simp only [Option.bind_some, Option.pure_def, Option.some.injEq, List.cons.injEq,
            List.map_cons] at this ⊢
          rw [this]

/-- **C52, what holds.** With one FSA in the vector and an output object that had been
initialised by an earlier call, the derivatives are those of the FSA. -/
theorem determinizeVec_one_partial (det : Fsa W → Option (Run W)) (s : Fsa W) (r : Run W)
    (v : List (List Nat)) (h : det s = some r) :
    determinizeVec det [some v] [s] = some ([r.1], [some r.2]) ∧
      RightDerivs det [s] [r.1] r.2 := by
  constructor
  · simp [determinizeVec, detLoop, h]
  · exact ⟨[r], by simp [h], by simp, by simp [allArcs]⟩

/-- **C52 is violated.** The python function is undefined on every `FsaVec` with at least one
FSA: line 336 copies the context of a default-constructed array. -/
theorem pyDeterminizeVec_undefined (det : Fsa W → Option (Run W)) (s : Fsa W)
    (srcs : List (Fsa W)) : pyDeterminizeVec det (s :: srcs) = none := by
  unfold pyDeterminizeVec determinizeVec
  rw [detLoop]
  rcases det s with _ | r <;> rfl

/-- **C52 is violated.** With two or more FSAs and one output object, as every caller passes, the
function reads past that object. -/
theorem determinizeVec_two_undefined (det : Fsa W → Option (Run W)) (o : Obj) (s t : Fsa W)
    (srcs : List (Fsa W)) : determinizeVec det [o] (s :: t :: srcs) = none := by
  unfold determinizeVec
  rw [detLoop]
  rcases det s with _ | r
  · rfl
  rcases o with _ | v
  · rfl
  simp only [List.getElem?_cons_zero, List.set_cons_zero]
  rw [detLoop]
  rcases det t with _ | r <;> rfl

theorem detLoop_enough (det : Fsa W → Option (Run W)) (srcs : List (Fsa W)) (rs : List (Run W))
    (h : srcs.map det = rs.map some) :
    ∀ (i tot : Nat) (mem : List Obj), (∀ o ∈ mem, o.isSome) → i + srcs.length ≤ mem.length →
      ∃ m, detLoop det i tot mem srcs = some (rs, m) ∧ m.length = mem.length := by
  induction srcs generalizing rs with
  | nil =>
    intro i tot mem _ _
    cases rs with
    | nil => exact ⟨mem, rfl, rfl⟩
    | cons _ _ => simp at h
  | cons s ss ih =>
    intro i tot mem hm hl
    cases rs with
    | nil => simp at h
    | cons r rs =>
      simp only [List.map_cons, List.cons.injEq] at h
      simp only [List.length_cons] at hl
      rw [detLoop, h.1]
      have hi : i < mem.length := by omega
      obtain ⟨v, hv⟩ := Option.isSome_iff_exists.1 (hm _ (List.getElem_mem hi))
      have hg : mem[i]? = some (some v) := by rw [List.getElem?_eq_getElem hi, hv]
      obtain ⟨m, hm1, hm2⟩ := ih rs h.2 (i + 1) (tot + s.arcs.length)
        (mem.set i (some (plus tot v))) (by
          intro o ho
          rcases List.mem_or_eq_of_mem_set ho with h | rfl
          · exact hm o h
          · rfl) (by simp; omega)
      refine ⟨m, ?_, by simpa using hm2⟩
      simp only [hg, hm1]

/-- Even when the caller passes as many initialised objects as there are FSAs, the derivatives
are those of the single FSAs *without* the offsets. -/
theorem determinizeVec_unshifted (det : Fsa W → Option (Run W)) (srcs : List (Fsa W))
    (rs : List (Run W)) (h : srcs.map det = rs.map some) (mem : List Obj)
    (hm : ∀ o ∈ mem, o.isSome) (hl : srcs.length ≤ mem.length) (h0 : mem ≠ []) :
    ∃ m, determinizeVec det mem srcs = some (rs.map Prod.fst, m) ∧
      m[0]? = some (some (rs.map Prod.snd).flatten) := by
  obtain ⟨m, h1, h2⟩ := detLoop_enough det srcs rs h 0 0 mem hm (by omega)
  refine ⟨_, by rw [determinizeVec, h1], ?_⟩
  have : 0 < m.length := by rw [h2]; exact List.length_pos_iff.2 h0
  simp [this]

/-! ### Concrete cases -/

/-- A two-state FSA with two arcs. -/
def twoArcs (a b : Int) : Fsa Int := ⟨3, [⟨0, 1, a, 1⟩, ⟨1, 2, -1, b⟩]⟩

/-- A stand-in for the single-FSA algorithm: it keeps the FSA and each arc depends on itself. -/
def keep (f : Fsa Int) : Option (Run Int) := some (f, (List.range f.arcs.length).map fun k => [k])

theorem keep_inRange (s : Fsa Int) (r : Run Int) (h : keep s = some r) : InRange s r.2 := by
  cases h
  intro l hl k hk
  simp only [List.mem_map, List.mem_range] at hl
  obtain ⟨j, hj, rfl⟩ := hl
  cases List.mem_singleton.1 hk
  exact hj

/-- The wrapper gives offsets `2, 3` for the arcs of the second FSA. -/
example : recursionWrapper keep [twoArcs 5 6, twoArcs 7 8] =
    some ([twoArcs 5 6, twoArcs 7 8], [[0], [1], [2], [3]]) := by decide +kernel

/-- `Determinize`, given two initialised objects, says that the arcs of the second FSA come from
arcs `0, 1`, which belong to the first. -/
theorem determinizeVec_wrong_fsa :
    ∃ m, determinizeVec keep [some [], some []] [twoArcs 5 6, twoArcs 7 8] =
        some ([twoArcs 5 6, twoArcs 7 8], m) ∧
      m[0]? = some (some [[0], [1], [0], [1]]) ∧
      ¬ RightDerivs keep [twoArcs 5 6, twoArcs 7 8] [twoArcs 5 6, twoArcs 7 8]
        [[0], [1], [0], [1]] := by
  refine ⟨_, rfl, by decide +kernel, ?_⟩
  rintro ⟨rs, h1, -, h3⟩
  have : rs = [(twoArcs 5 6, [[0], [1]]), (twoArcs 7 8, [[0], [1]])] := by
    have hk : List.map keep [twoArcs 5 6, twoArcs 7 8] =
        List.map some [(twoArcs 5 6, [[0], [1]]), (twoArcs 7 8, [[0], [1]])] := by decide +kernel
    rw [hk] at h1
    exact (List.map_injective_iff.2 (fun _ _ h => Option.some.inj h) h1).symm
  subst this
  revert h3
  decide +kernel

end Verif.Fsa.Det
