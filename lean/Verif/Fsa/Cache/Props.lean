import Verif.Fsa.Cache.System

/-!
# C42: cached queries agree with the arcs

`queries_fresh_partial` is about every history of calls, raising or not.  What it leaves out, and what the
theorems after it need on top, is shown to be needed at the end of the file.
-/

namespace Verif.Fsa.Cac
variable {T S R : Type} {o : Ops T S R}

/-! ## Histories -/

/-- The calls of the theorems: everything but

* `detach`, which makes two objects share their arcs;
* writing into the tensor `fsa.scores`, instead of assigning to it;
* assigning to or deleting the attribute `labels_version`, also by a rename to a name that is a prefix of
  it (such a rename deletes all attributes that start with that name; `labels` is an exception). -/
def Allowed : SysOp S → Prop
  | .on _ (.set n _) => n ≠ "labels_version"
  | .on _ (.del n) => n ≠ "labels_version"
  | .on _ (.rename _ dst) => dst = "labels" ∨ ¬ dst.toList <+: "labels_version".toList
  | .on _ (.editScores _) => False
  | .detach _ => False
  | _ => True

/-- The system with one object, just constructed. -/
def alone (m : Mem T S) (ans : Obj S R) : Sys T S R := ⟨[m], [(0, ans)]⟩

/-- No assignment to the labels raised. -/
def LabelsFine (o : Ops T S R) (y : Sys T S R) (h : List (SysOp S)) : Prop :=
  ∀ pre i op post, h = pre ++ .on i op :: post → assignsLabels op →
    (step o (history o y pre) (.on i op)).1 ≠ none

/-- No assignment to the scores raised, and no other kind of value was assigned to them. -/
def AllScoresFine (o : Ops T S R) (y : Sys T S R) (h : List (SysOp S)) : Prop :=
  ∀ pre i op post, h = pre ++ .on i op :: post →
    (∀ v, op = .set "scores" v → (step o (history o y pre) (.on i op)).1 ≠ none ∧ ∀ a b, v ≠ .ragged a b) ∧
    ∀ a, op ≠ .rename a "scores"

/-- Best paths are only computed with this precision, and the cached entering arcs are not deleted. -/
def OnePrecision (d0 : Bool) : SysOp S → Prop
  | .on _ (.query d k) => ∀ d', tropical d k = some d' → d' = d0
  | .on _ (.del n) => n ≠ "entering_arcs"
  | _ => True

theorem hist_ok {D : Bool → Prop} {keep A B : Prop} (h : List (SysOp S)) : ∀ (y : Sys T S R),
    (∀ op ∈ h, Allowed op) → (A → LabelsFine o y h) → (B → AllScoresFine o y h) →
    (∀ op ∈ h, ∀ i d k, op = .on i (.query d k) → ∀ d', tropical d k = some d' → D d') →
    (keep → ∀ op ∈ h, ∀ i n, op = .on i (.del n) → n ≠ "entering_arcs") → HistOk o D keep A B y h := by
  induction h with
  | nil => intros; trivial
  | cons op t ih =>
    intro y h1 h2 h3 h4 h5
    refine ⟨?_, ih _ (fun x hx => h1 x (List.mem_cons_of_mem _ hx)) ?_ ?_
      (fun x hx => h4 x (List.mem_cons_of_mem _ hx)) (fun hk x hx => h5 hk x (List.mem_cons_of_mem _ hx))⟩
    · have a1 := h1 op List.mem_cons_self
      cases op with
      | detach i => exact a1
      | clone i => trivial
      | on i op =>
        refine ⟨?_, ?_, ?_⟩
        · cases op with
          | set n v => exact a1
          | del n => exact ⟨a1, fun hk => h5 hk _ List.mem_cons_self i n rfl⟩
          | query d k => exact h4 _ List.mem_cons_self i d k rfl
          | rename a b => exact a1
          | editScores l => exact a1
          | _ => trivial
        · intro hA hl
          exact Option.isSome_iff_ne_none.2 (h2 hA [] i op t rfl hl)
        · intro hB
          obtain ⟨b1, b2⟩ := h3 hB [] i op t rfl
          exact ⟨fun v hv => ⟨Option.isSome_iff_ne_none.2 (b1 v hv).1, (b1 v hv).2⟩, b2⟩
    · intro hA pre i op' post he hl
      exact h2 hA (op :: pre) i op' post (by rw [he]; rfl) hl
    · intro hB pre i op' post he
      exact h3 hB (op :: pre) i op' post (by rw [he]; rfl)

/-! ## The theorems -/

section
variable {m : Mem T S} {p : Option Nat} {ans : Obj S R} {t : OS T S R} (hc : construct o m p = (some ans, t))
  {h : List (SysOp S)} (hh : ∀ op ∈ h, Allowed op)
  {i : Nat} {x : Nat × Obj S R} {mi : Mem T S} (hx : (history o (alone m ans) h).objs[i]? = some x)
  (hm : (history o (alone m ans) h).heap[x.1]? = some mi)
include hc hh hx hm

theorem step_on (op : Op S) :
    (step o (history o (alone m ans) h) (.on i op)).1 = (run o op (x.2, mi)).1 := by
  clear hc hh
  unfold step
  dsimp only
  rw [hx]
  dsimp only
  rw [hm]

/-- After any history of attribute assignments, deletions, renames, inversions, writes into `fsa.labels`,
queries and clones (any of which may have raised), every query but the one for entering arcs does what
computing it from the current arcs and scores does: same value, or raises as well.
What is missing: the calls excluded by `Allowed`, and entering arcs (see below). -/
theorem queries_fresh_partial (d : Bool) (k : Key) (hk : k ≠ .enteringArcs) :
    (step o (history o (alone m ans) h) (.on i (.query d k))).1 = (fresh o mi k).map .val := by
  have hi : SysInv o (fun _ => True) False False False (history o (alone m ans) h) :=
    history_inv h (start_inv m p (fun hA => hA.elim) hc)
      (hist_ok h _ hh (fun hA => hA.elim) (fun hB => hB.elim) (fun _ _ _ _ _ _ _ _ => trivial) (fun hk => hk.elim))
  obtain ⟨mi', hm', hg⟩ := hi.good i x hx
  rw [hm] at hm'
  obtain rfl := Option.some.inj hm'
  rw [step_on hc hh hx hm]
  obtain ⟨_, _, h3, _⟩ := query_run hg.weak.coh d k (fun _ _ => trivial)
  simp only [run]
  rw [bind_run]
  rw [← h3 hk]
  cases query o d k (x.2, mi) with
  | mk r s => cases r <;> rfl

/-- The entering arcs are right if one precision is used throughout. -/
theorem entering_arcs_fresh_partial (d0 : Bool) (hd : ∀ op ∈ h, OnePrecision d0 op) :
    (step o (history o (alone m ans) h) (.on i (.query d0 .enteringArcs))).1 = (freshEnt o mi d0).map .val := by
  have hi : SysInv o (fun d => d = d0) True False False (history o (alone m ans) h) :=
    history_inv h (start_inv m p (fun hA => hA.elim) hc)
      (hist_ok h _ hh (fun hA => hA.elim) (fun hB => hB.elim)
        (fun op hop i d k e => by have := hd op hop; rw [e] at this; exact this)
        (fun _ op hop i n e => by have := hd op hop; rw [e] at this; exact this))
  obtain ⟨mi', hm', hg⟩ := hi.good i x hx
  rw [hm] at hm'
  obtain rfl := Option.some.inj hm'
  rw [step_on hc hh hx hm]
  obtain ⟨_, _, _, _, h5⟩ := query_run hg.weak.coh d0 .enteringArcs (fun d' hd' => (Option.some.inj hd').symm)
  obtain ⟨d', rfl, h5⟩ := h5 rfl trivial
  simp only [run]
  rw [bind_run, ← h5]
  cases query o d' .enteringArcs (x.2, mi) with
  | mk r s => cases r <;> rfl

/-- In any case they were computed from the current arcs and scores, with some precision. -/
theorem entering_arcs_some_precision (d : Bool) (v : R)
    (hv : (step o (history o (alone m ans) h) (.on i (.query d .enteringArcs))).1 = some (.val v)) :
    ∃ d', freshEnt o mi d' = some v := by
  have hi : SysInv o (fun _ => True) False False False (history o (alone m ans) h) :=
    history_inv h (start_inv m p (fun hA => hA.elim) hc)
      (hist_ok h _ hh (fun hA => hA.elim) (fun hB => hB.elim) (fun _ _ _ _ _ _ _ _ => trivial) (fun hk => hk.elim))
  obtain ⟨mi', hm', hg⟩ := hi.good i x hx
  rw [hm] at hm'
  obtain rfl := Option.some.inj hm'
  rw [step_on hc hh hx hm] at hv
  obtain ⟨_, _, _, h4, _⟩ := query_run hg.weak.coh d .enteringArcs (fun _ _ => trivial)
  simp only [run] at hv
  rw [bind_run] at hv
  cases hq : query o d .enteringArcs (x.2, mi) with
  | mk r s =>
    rw [hq] at hv h4
    cases r with
    | none => simp at hv
    | some w =>
      simp only [pure_run, Option.some.injEq, Res.val.injEq] at hv
      obtain ⟨d', _, h⟩ := h4 rfl w rfl
      exact ⟨d', by rw [← hv]; exact h⟩

/-- `fsa.properties` returns the properties of the current arcs, or raises, provided that no assignment to
the labels raised before.  The properties given to the constructor have to be right. -/
theorem properties_fresh_partial (hp : ∀ q, p = some q → q = o.basicProps m.topo m.labels)
    (hl : LabelsFine o (alone m ans) h) (q : Nat)
    (hq : (step o (history o (alone m ans) h) (.on i .props)).1 = some (.bits q)) :
    q = o.basicProps mi.topo mi.labels := by
  have hi : SysInv o (fun _ => True) False True False (history o (alone m ans) h) :=
    history_inv h (start_inv m p (fun _ => hp) hc)
      (hist_ok h _ hh (fun _ => hl) (fun hB => hB.elim) (fun _ _ _ _ _ _ _ _ => trivial) (fun hk => hk.elim))
  obtain ⟨mi', hm', hg⟩ := hi.good i x hx
  rw [hm] at hm'
  obtain rfl := Option.some.inj hm'
  rw [step_on hc hh hx hm] at hq
  obtain ⟨_, _, _, _, _, _, _, h8, _⟩ := properties_run hg.weak
  simp only [run] at hq
  rw [bind_run] at hq
  cases hr : properties o (x.2, mi) with
  | mk r s =>
    rw [hr] at hq h8
    cases r with
    | none => simp at hq
    | some w =>
      simp only [pure_run, Option.some.injEq, Res.bits.injEq] at hq
      rw [← hq]
      exact (h8 w (hg.props trivial) rfl).1

/-- `fsa.scores` are the scores of the arcs, provided that no assignment to them raised before. -/
theorem scores_read_partial (hs : AllScoresFine o (alone m ans) h) :
    (step o (history o (alone m ans) h) (.on i (.attr "scores"))).1 = some (.attr (.f32 mi.scores)) := by
  have hi : SysInv o (fun _ => True) False False True (history o (alone m ans) h) :=
    history_inv h (start_inv m p (fun hA => hA.elim) hc)
      (hist_ok h _ hh (fun hA => hA.elim) (fun _ => hs) (fun _ _ _ _ _ _ _ _ => trivial) (fun hk => hk.elim))
  obtain ⟨mi', hm', hg⟩ := hi.good i x hx
  rw [hm] at hm'
  obtain rfl := Option.some.inj hm'
  rw [step_on hc hh hx hm]
  obtain ⟨w, h1, h2⟩ := hg.sync trivial
  simp only [run]
  rw [read_bind]
  unfold attr
  rw [h1]
  rcases h2 with rfl | rfl <;> rfl

/-- Reading a cached query as an attribute, `fsa.forward_scores_double_log`, gives the value that the
query would have now. -/
theorem cache_read_partial (k : Key) (hk : k ≠ .enteringArcs) (v : R)
    (hv : (step o (history o (alone m ans) h) (.on i (.attr k.name))).1 = some (.val v)) :
    fresh o mi k = some v := by
  have hi : SysInv o (fun _ => True) False False False (history o (alone m ans) h) :=
    history_inv h (start_inv m p (fun hA => hA.elim) hc)
      (hist_ok h _ hh (fun hA => hA.elim) (fun hB => hB.elim) (fun _ _ _ _ _ _ _ _ => trivial) (fun hk => hk.elim))
  obtain ⟨mi', hm', hg⟩ := hi.good i x hx
  rw [hm] at hm'
  obtain rfl := Option.some.inj hm'
  rw [step_on hc hh hx hm] at hv
  simp only [run] at hv
  rw [read_bind] at hv
  simp only [ofOption] at hv
  cases ha : attr (x.2, mi) k.name with
  | some w => rw [ha] at hv; simp at hv
  | none =>
    rw [ha] at hv
    simp only [Option.map_none, Option.none_or, Option.map_eq_some_iff, Res.val.injEq] at hv
    obtain ⟨w, h1, rfl⟩ := hv
    exact hg.weak.coh.val k w hk h1

/-- Assigning scores: on success the arcs have them, nothing else about the arcs changes, and every query
that follows uses them. -/
theorem scores_assigned_partial (l : List S)
    (hs : (step o (history o (alone m ans) h) (.on i (.set "scores" (.f32 l)))).1 ≠ none) :
    (history o (alone m ans) (h ++ [.on i (.set "scores" (.f32 l))])).heap[x.1]? = some { mi with scores := l } ∧
    ∀ d k, k ≠ .enteringArcs →
      (step o (history o (alone m ans) (h ++ [.on i (.set "scores" (.f32 l))])) (.on i (.query d k))).1 =
        (fresh o { mi with scores := l } k).map .val := by
  have hh' : ∀ op ∈ h ++ [.on i (.set "scores" (.f32 l))], Allowed op := by
    intro op hop
    rcases List.mem_append.1 hop with hop | hop
    · exact hh op hop
    · rw [List.mem_singleton.1 hop]
      show "scores" ≠ "labels_version"
      decide
  have hst : history o (alone m ans) (h ++ [.on i (.set "scores" (.f32 l))]) =
      ⟨(history o (alone m ans) h).heap.set x.1 (run o (.set "scores" (.f32 l)) (x.2, mi)).2.2,
        (history o (alone m ans) h).objs.set i (x.1, (run o (.set "scores" (.f32 l)) (x.2, mi)).2.1)⟩ := by
    unfold history
    rw [List.foldl_append]
    show (step o (history o (alone m ans) h) (.on i (.set "scores" (.f32 l)))).2 = _
    unfold step
    dsimp only
    rw [hx]
    dsimp only
    rw [hm]
    rfl
  rw [step_on hc hh hx hm] at hs
  have hmem : (run o (.set "scores" (.f32 l)) (x.2, mi)).2.2 = { mi with scores := l } := by
    simp only [run, bind_unit] at hs ⊢
    unfold setAttr at hs ⊢
    rw [check_bind, if_pos (by decide)] at hs ⊢
    dsimp only at hs ⊢
    unfold setTensor at hs ⊢
    rw [read_bind, check_bind] at hs ⊢
    split
    · rw [if_neg (by decide), modify_bind, if_pos rfl]
      rfl
    · rename_i hne
      rw [if_neg hne] at hs
      simp at hs
  have hi : i < (history o (alone m ans) h).objs.length := (List.getElem?_eq_some_iff.1 hx).1
  have hj : x.1 < (history o (alone m ans) h).heap.length := (List.getElem?_eq_some_iff.1 hm).1
  have hheap : (history o (alone m ans) (h ++ [.on i (.set "scores" (.f32 l))])).heap[x.1]? =
      some { mi with scores := l } := by
    rw [hst, hmem]
    dsimp only
    rw [List.getElem?_set, if_pos rfl, if_pos hj]
  refine ⟨hheap, fun d k hk => ?_⟩
  refine queries_fresh_partial hc hh' (x := (x.1, (run o (.set "scores" (.f32 l)) (x.2, mi)).2.1)) ?_ hheap d k hk
  rw [hst]
  dsimp only
  rw [List.getElem?_set, if_pos rfl, if_pos hi]

end

/-! ## A small instance

The arcs are given by whether they enter a final state; results are lists.  Bit 1 of the properties says
that there is no epsilon.  Entering arcs show the precision that they were computed with. -/

def toy : Ops (List Bool) Int (List Int) where
  stateBatches _ := some [1]
  destStates t := if t = [] then none else some [2]
  incomingArcs _ d := some (3 :: d)
  enteringBatches _ i b := some (i ++ b)
  leavingBatches _ b := some (4 :: b)
  forward d l _ s b e := some ((if l then 5 else 6) :: s ++ b ++ e, [if d then 64 else 32])
  tot d _ f := some [f.sum, if d then 64 else 32]
  backward _ l _ s b a := some ((if l then 7 else 8) :: s ++ b ++ a)
  arcPost _ _ s f b := some (s ++ f ++ b)
  arcCdf _ _ p := some (9 :: p)
  basicProps _ l := if l.contains 0 then 1 else 3
  enters t := t
  reserved n := n == "properties" || n == "num_arcs"

/-- Two arcs, the second one final. -/
def mem0 : Mem (List Bool) Int := ⟨[false, true], [5, -1], [10, 20]⟩

def obj0 : Obj Int (List Int) :=
  ⟨0, [("scores", .scoresView), ("labels", .labelsView)], [("labels_version", .num 0)], [], some 3⟩

theorem constructed : construct toy mem0 none = (some obj0, (obj0, mem0)) := by decide +kernel

/-- A history of the kind that the theorems are about: a query, new scores, a refused assignment, a clone,
scores for the clone, aux labels and an inversion. -/
def demo : List (SysOp Int) :=
  [.on 0 (.query true (.tot true true)), .on 0 (.set "scores" (.f32 [1, 2])), .on 0 (.set "foo" (.f32 [1])),
   .clone 0, .on 1 (.set "scores" (.f32 [3, 4])), .on 0 (.query true (.arcCdf true false)),
   .on 1 (.set "aux_labels" (.i32 [7, -1])), .on 1 .invert]

theorem demo_allowed : ∀ op ∈ demo, Allowed op := by
  intro op hop
  simp only [demo, List.mem_cons, List.not_mem_nil, or_false] at hop
  rcases hop with rfl | rfl | rfl | rfl | rfl | rfl | rfl | rfl <;> first | trivial | (show _ ≠ _; decide)

theorem demo_state :
    (history toy (alone mem0 obj0) demo).heap =
      [⟨[false, true], [5, -1], [1, 2]⟩, ⟨[false, true], [7, -1], [3, 4]⟩] ∧
    (history toy (alone mem0 obj0) demo).objs.map Prod.fst = [0, 1] := by decide +kernel

/-- The hypotheses of `queries_fresh_partial` and `scores_assigned_partial` are met, and the value depends on the scores. -/
example : ∃ x, (history toy (alone mem0 obj0) demo).objs[1]? = some x ∧
    (history toy (alone mem0 obj0) demo).heap[x.1]? = some ⟨[false, true], [7, -1], [3, 4]⟩ ∧
    (step toy (history toy (alone mem0 obj0) demo) (.on 1 (.query true (.tot true true)))).1 =
      some (.val [19, 64]) ∧
    (step toy (history toy (alone mem0 obj0) demo) (.on 0 (.query true (.tot true true)))).1 =
      some (.val [15, 64]) ∧
    (step toy (history toy (alone mem0 obj0) demo) (.on 1 (.set "scores" (.f32 [0, 0])))).1 ≠ none :=
  ⟨((history toy (alone mem0 obj0) demo).objs[1]'(by decide +kernel)), by decide +kernel, by decide +kernel,
    by decide +kernel, by decide +kernel, by decide +kernel⟩

/-- The conditions of the other theorems are met as well. -/
example : (∀ op ∈ demo, OnePrecision true op) ∧
    (step toy (history toy (alone mem0 obj0) demo) (.on 0 (.query true .enteringArcs))).1 = some (.val [64]) ∧
    (step toy (history toy (alone mem0 obj0) demo) (.on 1 .props)).1 = some (.bits 3) ∧
    (step toy (history toy (alone mem0 obj0) demo) (.on 1 (.attr "scores"))).1 = some (.attr (.f32 [3, 4])) ∧
    (step toy (history toy (alone mem0 obj0) demo) (.on 0 (.attr "arc_post_double_tropical"))).1 =
      some (.val [1, 2, 6, 1, 2, 1, 3, 2, 1, 8, 1, 2, 1, 4, 1]) := by
  refine ⟨?_, by decide +kernel, by decide +kernel, by decide +kernel, by decide +kernel⟩
  intro op hop
  simp only [demo, List.mem_cons, List.not_mem_nil, or_false] at hop
  rcases hop with rfl | rfl | rfl | rfl | rfl | rfl | rfl | rfl <;> first | trivial | skip
  · intro d' h; simp [tropical] at h
  · intro d' h; simpa [tropical] using h.symm

/-- The successes that `LabelsFine` and `AllScoresFine` ask for, call by call. -/
example : (step toy (history toy (alone mem0 obj0) (demo.take 7)) (.on 1 .invert)).1 ≠ none ∧
    (step toy (history toy (alone mem0 obj0) (demo.take 1)) (.on 0 (.set "scores" (.f32 [1, 2])))).1 ≠ none ∧
    (step toy (history toy (alone mem0 obj0) (demo.take 4)) (.on 1 (.set "scores" (.f32 [3, 4])))).1 ≠ none := by
  decide +kernel

/-! ## What goes wrong

Each of these is a history of calls on an object that the constructor made; the statement of C42 does not
hold for it. -/

/-- An assignment to the labels that is refused, because a final arc would get the label 5, leaves the new
labels in the arcs and the old properties in place: `properties` then claims that there is no epsilon. -/
theorem failed_labels_stale :
    (step toy (alone mem0 obj0) (.on 0 (.set "labels" (.i32 [0, 5])))).1 = none ∧
    (history toy (alone mem0 obj0) [.on 0 (.set "labels" (.i32 [0, 5]))]).heap = [⟨[false, true], [0, 5], [10, 20]⟩] ∧
    (step toy (history toy (alone mem0 obj0) [.on 0 (.set "labels" (.i32 [0, 5]))]) (.on 0 .props)).1 = some (.bits 3) ∧
    toy.basicProps [false, true] [0, 5] = 1 := by decide +kernel

/-- Entering arcs asked for in double precision are the ones found in single precision before. -/
theorem entering_arcs_wrong_precision :
    (step toy (history toy (alone mem0 obj0) [.on 0 (.query true (.forward false false))])
      (.on 0 (.query true .enteringArcs))).1 = some (.val [32]) ∧
    freshEnt toy mem0 true = some [64] := by decide +kernel

/-- `del fsa.entering_arcs` makes the query raise (a `KeyError`). -/
theorem entering_arcs_deleted :
    (step toy (history toy (alone mem0 obj0) [.on 0 (.query true .enteringArcs), .on 0 (.del "entering_arcs")])
      (.on 0 (.query true .enteringArcs))).1 = none ∧
    freshEnt toy mem0 true = some [64] := by decide +kernel

/-- After `detach`, assigning scores to the copy leaves the queries of the original as they were, although
its arcs have the new scores. -/
theorem detach_stale :
    (history toy (alone mem0 obj0) [.on 0 (.query true (.tot true true)), .detach 0,
      .on 1 (.set "scores" (.f32 [1, 2]))]).heap = [⟨[false, true], [5, -1], [1, 2]⟩] ∧
    (step toy (history toy (alone mem0 obj0) [.on 0 (.query true (.tot true true)), .detach 0,
      .on 1 (.set "scores" (.f32 [1, 2]))]) (.on 0 (.query true (.tot true true)))).1 = some (.val [42, 64]) ∧
    fresh toy ⟨[false, true], [5, -1], [1, 2]⟩ (.tot true true) = some [15, 64] := by decide +kernel

/-- Writing into `fsa.scores` is not noticed. -/
theorem scores_written_stale :
    (history toy (alone mem0 obj0) [.on 0 (.query true (.tot true true)), .on 0 (.editScores [1, 2])]).heap =
      [⟨[false, true], [5, -1], [1, 2]⟩] ∧
    (step toy (history toy (alone mem0 obj0) [.on 0 (.query true (.tot true true)), .on 0 (.editScores [1, 2])])
      (.on 0 (.query true (.tot true true)))).1 = some (.val [42, 64]) ∧
    fresh toy ⟨[false, true], [5, -1], [1, 2]⟩ (.tot true true) = some [15, 64] := by decide +kernel

/-- Scores of another type are refused, but `fsa.scores` returns them from then on; a ragged tensor is
even accepted. -/
theorem failed_scores_stale :
    (step toy (alone mem0 obj0) (.on 0 (.set "scores" (.i32 [1, 2])))).1 = none ∧
    (step toy (history toy (alone mem0 obj0) [.on 0 (.set "scores" (.i32 [1, 2]))]) (.on 0 (.attr "scores"))).1 =
      some (.attr (.i32 [1, 2])) ∧
    (step toy (alone mem0 obj0) (.on 0 (.set "scores" (.ragged 2 0)))).1 = some .unit ∧
    (history toy (alone mem0 obj0) [.on 0 (.set "scores" (.ragged 2 0))]).heap = [mem0] := by decide +kernel

/-- Renaming an attribute to `label` deletes `labels_version`; `properties` raises from then on. -/
theorem rename_breaks_properties :
    (step toy (history toy (alone mem0 obj0) [.on 0 (.set "foo" (.i32 [1, 2]))]) (.on 0 (.rename "foo" "label"))).1 =
      some .unit ∧
    (step toy (history toy (alone mem0 obj0) [.on 0 (.set "foo" (.i32 [1, 2])), .on 0 (.rename "foo" "label")])
      (.on 0 .props)).1 = none ∧
    (step toy (history toy (alone mem0 obj0) [.on 0 (.set "foo" (.i32 [1, 2]))]) (.on 0 .props)).1 =
      some (.bits 3) := by decide +kernel

/-- Assigning the attribute `labels_version` hides a write into the labels. -/
theorem version_assigned_stale :
    (history toy (alone mem0 obj0) [.on 0 (.edit [0, -1]), .on 0 (.set "labels_version" (.num 1))]).heap =
      [⟨[false, true], [0, -1], [10, 20]⟩] ∧
    (step toy (history toy (alone mem0 obj0) [.on 0 (.edit [0, -1]), .on 0 (.set "labels_version" (.num 1))])
      (.on 0 .props)).1 = some (.bits 3) ∧
    toy.basicProps [false, true] [0, -1] = 1 := by decide +kernel

end Verif.Fsa.Cac
