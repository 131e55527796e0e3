import Verif.Fsa.Connect.Paths
import Verif.Fsa.Flags.Semantics

/-!
# C16, C17: connecting FSAs
-/

namespace Verif.Fsa
open Verif.Ragged Verif.Util
variable {W : Type}

/-! ## Specification -/

/-- `js` are the positions of the arcs of a path from the start to the final state. -/
def IAccepting (f : Fsa W) (js : List Nat) : Prop := 0 < f.numStates ∧ IPath f.arcs 0 js f.final

/-- `g` is what remains of `f` when the useless states are removed; arc `i` of `g` is arc `m[i]` of `f`. -/
structure Connected (f g : Fsa W) (m : List Nat) : Prop where
  /-- The arc map keeps the order of the arcs. -/
  sorted : m.Pairwise (· < ·)
  length : m.length = g.arcs.length
  /-- The arcs keep their labels and scores. -/
  same : ∀ i j : Nat, m[i]? = some j → ∃ a b : Arc W, g.arcs[i]? = some a ∧ f.arcs[j]? = some b ∧
    a.label = b.label ∧ a.score = b.score
  /-- The accepting paths of `g` are those of `f`, through the arc map. -/
  paths : ∀ js, IAccepting f js ↔
    ∃ is : List Nat, is.map (fun i => m[i]?) = js.map some ∧ IAccepting g is
  accessible : Accessible g
  coaccessible : Coaccessible g
  /-- Nothing is left of an FSA with no accepting path. -/
  empty : (¬ ∃ js, IAccepting f js) → g.numStates = 0
  /-- The start and the final state stay different. -/
  two : 2 ≤ f.numStates → g.numStates = 0 ∨ 2 ≤ g.numStates
  valid : f.Valid → g.numStates = 0 ∨ g.Valid

/-- The arc maps of the FSAs, each shifted by the number of arcs before its FSA. -/
def joinMaps (T : List (List (List (Arc W)))) (ms : List (List Nat)) : List Nat :=
  (List.zipWith (fun b m => m.map (b + ·)) (psum (T.map (fun f => f.flatten.length))) ms).flatten

/-! ## One FSA -/

theorem restrict_connected (f : List (List (Arc W))) (hf : RowsOk f) :
    Connected (rowsFsa f) (rowsFsa (restrictFsa (usefulFlags f) f)) (arcMapOf (usefulFlags f) f) := by
  have hl := usefulFlags_length f
  have hlenG := restrictFsa_length _ f hl
  have honto : ∀ s', s' < (restrictFsa (usefulFlags f) f).length →
      ∃ s, (usefulFlags f)[s]? = some true ∧ s' = rank (usefulFlags f) s := by
    intro s' h
    rw [hlenG] at h
    exact rank_surj' _ s' h
  -- an accepting path makes its states and arcs useful
  have hacc : ∀ js, IAccepting (rowsFsa f) js → (usefulFlags f)[0]? = some true ∧
      (usefulFlags f)[f.length - 1]? = some true ∧ ∀ j ∈ js, j ∈ arcMapOf (usefulFlags f) f := by
    rintro js ⟨h0, p, hc, hp⟩
    have hpath : Path f.flatten 0 p (f.length - 1) := ⟨hc, ipath_mem _ p js hp⟩
    obtain ⟨h1, h2, h3⟩ := path_useful f hf 0 (f.length - 1) h0 ⟨[], (path_nil _ _ _).mpr rfl⟩
      ⟨[], (path_nil _ _ _).mpr rfl⟩ p hpath
    refine ⟨h1, h2, ?_⟩
    intro j hj
    have : f.flatten[j]? ∈ p.map some := by
      rw [← show js.map (fun j => f.flatten[j]?) = p.map some from hp]
      exact List.mem_map.mpr ⟨j, hj, rfl⟩
    obtain ⟨a, ha, hja⟩ := List.mem_map.mp this
    exact (arcMapOf_mem _ f j).mpr ⟨a, hja.symm, h3 a ha⟩
  have hreach : ∀ s t, (usefulFlags f)[s]? = some true → (usefulFlags f)[t]? = some true →
      (∃ p, Path f.flatten s p t) →
      ∃ q, Path (restrictFsa (usefulFlags f) f).flatten (rank (usefulFlags f) s) q (rank (usefulFlags f) t) := by
    rintro s t hs ht ⟨p, hp⟩
    obtain ⟨h1, h2, _⟩ := (usefulFlags_iff f s).mp hs
    obtain ⟨_, _, h3⟩ := (usefulFlags_iff f t).mp ht
    obtain ⟨_, _, h4⟩ := path_useful f hf s t h1 h2 h3 p hp
    obtain ⟨js, hjs, hip⟩ := (path_iff_ipath _ _ _ _).mp hp
    have hk : ∀ j ∈ js, j ∈ arcMapOf (usefulFlags f) f := by
      intro j hj
      have : f.flatten[j]? ∈ p.map some := by rw [← hjs]; exact List.mem_map.mpr ⟨j, hj, rfl⟩
      obtain ⟨a, ha, hja⟩ := List.mem_map.mp this
      exact (arcMapOf_mem _ f j).mpr ⟨a, hja.symm, h4 a ha⟩
    obtain ⟨is, _, q, hc, hq⟩ := (ipath_restrict _ f hl hf s t hs ht js).mp ⟨hip, hk⟩
    exact ⟨q, hc, ipath_mem _ q is hq⟩
  have hempty : (¬ ∃ js, IAccepting (rowsFsa f) js) → (restrictFsa (usefulFlags f) f).length = 0 := by
    intro h
    by_contra hne
    obtain ⟨s, hs, _⟩ := honto 0 (by omega)
    obtain ⟨hs1, ⟨p, hp⟩, q, hq⟩ := (usefulFlags_iff f s).mp hs
    have hpq : Path f.flatten 0 (p ++ q) (f.length - 1) := (path_append _ _ _ _ _).mpr ⟨s, hp, hq⟩
    obtain ⟨js, _, hip⟩ := (path_iff_ipath _ _ _ _).mp hpq
    exact h ⟨js, show 0 < f.length by omega, hip⟩
  have htwo : 2 ≤ f.length → (restrictFsa (usefulFlags f) f).length = 0 ∨
      2 ≤ (restrictFsa (usefulFlags f) f).length := by
    intro h2
    by_cases h0 : (restrictFsa (usefulFlags f) f).length = 0
    · exact Or.inl h0
    · obtain ⟨s, hs, _⟩ := honto 0 (by omega)
      obtain ⟨h3, h4, h5⟩ := useful_ends f s hs
      have := rank_strict (usefulFlags f) 0 (f.length - 1) h3 (by omega)
      rw [h5, rank_zero] at this
      exact Or.inr (by omega)
  constructor
  · exact arcMapOf_sorted _ f
  · exact arcMapOf_length _ f hl hf
  · intro i j hij
    obtain ⟨b, hb, _⟩ := (arcMapOf_mem _ f j).mp (List.mem_of_getElem? hij)
    have := restrict_arc _ f hl hf i j hij
    rw [hb] at this
    exact ⟨_, b, this, hb, rfl, rfl⟩
  · intro js
    constructor
    · intro h
      obtain ⟨h1, h2, h3⟩ := hacc js h
      obtain ⟨is, his, hp⟩ := (ipath_restrict _ f hl hf 0 (f.length - 1) h1 h2 js).mp ⟨h.2, h3⟩
      rw [rank_zero, (useful_ends f 0 h1).2.2] at hp
      have := rank_lt _ _ h1
      exact ⟨is, his, show 0 < (restrictFsa _ f).length by omega, hp⟩
    · rintro ⟨is, his, h0, hp⟩
      obtain ⟨s, hs, _⟩ := honto 0 h0
      obtain ⟨h1, h2, h3⟩ := useful_ends f s hs
      have hp' : IPath (restrictFsa (usefulFlags f) f).flatten (rank (usefulFlags f) 0) is
          (rank (usefulFlags f) (f.length - 1)) := by
        rw [rank_zero, h3]; exact hp
      have := (ipath_restrict _ f hl hf 0 (f.length - 1) h1 h2 js).mpr ⟨is, his, hp'⟩
      have hs1 := ((usefulFlags_iff f s).mp hs).1
      exact ⟨show 0 < f.length by omega, this.1⟩
  · intro s' hs'
    obtain ⟨s, hs, rfl⟩ := honto s' hs'
    have h0 := (useful_ends f s hs).1
    have := hreach 0 s h0 hs ((usefulFlags_iff f s).mp hs).2.1
    rw [rank_zero] at this
    exact this
  · intro s' hs'
    obtain ⟨s, hs, rfl⟩ := honto s' hs'
    obtain ⟨_, h1, h2⟩ := useful_ends f s hs
    have := hreach s (f.length - 1) hs h1 ((usefulFlags_iff f s).mp hs).2.2
    rw [h2] at this
    exact this
  · exact hempty
  · exact htwo
  · intro hv
    rcases htwo hv.two with h0 | h2
    · exact Or.inl h0
    right
    have hrows := restrict_rowsOk (usefulFlags f) f hl hf
    obtain ⟨s0, hs0, _⟩ := honto 0 (by omega)
    obtain ⟨e0, e1, e2⟩ := useful_ends f s0 hs0
    have harc : ∀ a ∈ (restrictFsa (usefulFlags f) f).flatten, ∃ b ∈ f.flatten,
        (usefulFlags f)[b.src]? = some true ∧ (usefulFlags f)[b.dst]? = some true ∧
          renArc (usefulFlags f) b = a := by
      intro a ha
      obtain ⟨i, hi⟩ := List.getElem?_of_mem ha
      have hlt := (List.getElem?_eq_some_iff.mp hi).1
      rw [← arcMapOf_length _ f hl hf] at hlt
      have hj := List.getElem?_eq_getElem hlt
      obtain ⟨b, hb, hk⟩ := (arcMapOf_mem _ f _).mp (List.mem_of_getElem? hj)
      have := restrict_arc _ f hl hf i _ hj
      rw [hb, hi] at this
      simp only [arcKept, Bool.and_eq_true, kept_iff] at hk
      exact ⟨b, List.mem_of_getElem? hb, hk.1, hk.2, (Option.some.inj this).symm⟩
    constructor
    · exact h2
    · show (restrictFsa (usefulFlags f) f).flatten.Pairwise _
      rw [List.pairwise_flatten]
      refine ⟨fun row hr => ?_, ?_⟩
      · obtain ⟨s, hs⟩ := List.getElem?_of_mem hr
        refine List.Pairwise.imp_of_mem ?_ (List.pairwise_of_forall (R := fun _ _ => True) (fun _ _ => trivial))
        intro a b ha hb _
        rw [(hrows s row hs a ha).1, (hrows s row hs b hb).1]
      · rw [List.pairwise_iff_getElem]
        intro i j hi hj hij a ha b hb
        rw [(hrows i _ (List.getElem?_eq_getElem hi) a ha).1, (hrows j _ (List.getElem?_eq_getElem hj) b hb).1]
        omega
    · intro a ha
      obtain ⟨b, hb, hk1, _, rfl⟩ := harc a ha
      have : b.src < f.length - 1 := hv.src_lt b hb
      have := rank_strict (usefulFlags f) b.src (f.length - 1) hk1 this
      rw [e2] at this
      exact this
    · intro a ha
      obtain ⟨row, hrow, har⟩ := mem_rows_arcs hrows a ha
      exact (hrows _ row hrow a har).2
    · intro a ha
      obtain ⟨b, hb, _, hk2, rfl⟩ := harc a ha
      have h1 : b.label = -1 ↔ b.dst = f.length - 1 := hv.final_iff b hb
      show b.label = -1 ↔ rank (usefulFlags f) b.dst = (restrictFsa (usefulFlags f) f).length - 1
      rw [h1, ← e2]
      exact ⟨fun h => by rw [h], rank_inj _ _ _ hk2 e1⟩

/-! ## Vectors -/

theorem sel_range_join (T : List (List (List (Arc W)))) (q : List (List (Arc W)) → List Bool) (b : Nat) :
    sel (T.map (fun f => arcFlagsOf (q f) f)).flatten.flatten (List.range' b T.flatten.flatten.length) =
      (List.zipWith (fun b m => m.map (b + ·)) (psumFrom b (T.map (fun f => f.flatten.length)))
        (T.map (fun f => arcMapOf (q f) f))).flatten := by
  induction T generalizing b with
  | nil => rfl
  | cons f T ih =>
    simp only [List.map_cons, List.flatten_cons, List.flatten_append, List.length_append, psumFrom,
      List.zipWith_cons_cons]
    rw [← ih, ← List.range'_append_1, sel_append _ _ _ _ (by
      rw [arcFlagsOf_flatten, List.length_map, List.length_range'])]
    congr 1
    rw [arcMapOf, sel_map, List.range_eq_range', List.map_add_range', Nat.add_zero]

theorem zipWith_and_map (T : List (List (List (Arc W)))) :
    List.zipWith (· && ·) (T.map accFlags).flatten (T.map coaccFlags).flatten =
      (T.map usefulFlags).flatten := by
  induction T with
  | nil => rfl
  | cons f T ih =>
    simp only [List.map_cons, List.flatten_cons]
    rw [List.zipWith_append (by simp [accFlags, coaccFlags]), ih]
    rfl

theorem connectVec_eq (T : List (List (List (Arc W)))) (hT : VecOk T) :
    connectVec (flat T) = some (flat (T.map (fun f => restrictFsa (usefulFlags f) f)),
      joinMaps T (T.map (fun f => arcMapOf (usefulFlags f) f))) := by
  obtain ⟨dest, hd1, hd2, hd3⟩ := destStates_spec T hT
  have h1 := forwardPass_eq T hT dest hd3
  have h2 := backwardPass_eq T hT dest hd2 hd3
  have h3 := restrictVec_eq (T.map (fun f => (usefulFlags f, f)))
    (by intro p hp
        obtain ⟨f, _, rfl⟩ := List.mem_map.mp hp
        exact usefulFlags_length f)
    (by rw [List.map_map, show (Prod.snd ∘ fun f => (usefulFlags f, f)) = id from rfl, List.map_id]; exact hT)
  simp only [newVec, List.map_map, show (Prod.snd ∘ fun f : List (List (Arc W)) => (usefulFlags f, f)) = id from rfl,
    show (Prod.fst ∘ fun f : List (List (Arc W)) => (usefulFlags f, f)) = usefulFlags from rfl, List.map_id,
    Function.comp_def] at h3
  have h4 := sel_range_join T usefulFlags 0
  rw [← List.range_eq_range'] at h4
  unfold connectVec
  simp only [hd1, h1, h2, Option.bind_eq_bind, Option.bind_some]
  rw [zipWith_and_map, h3, h4]
  rfl

/-- **C16.** `Connect` succeeds on every vector of FSAs.  FSA by FSA, it returns the connected version and
the arc map. -/
theorem connectVec_spec (T : List (List (List (Arc W)))) (hT : VecOk T) :
    ∃ (out : List (List (List (Arc W)))) (ms : List (List Nat)),
      connectVec (flat T) = some (flat out, joinMaps T ms) ∧ out.length = T.length ∧ ms.length = T.length ∧
      ∀ (r : Nat) (f : List (List (Arc W))), T[r]? = some f →
        ∃ g m, out[r]? = some g ∧ ms[r]? = some m ∧ RowsOk g ∧ Connected (rowsFsa f) (rowsFsa g) m := by
  refine ⟨_, _, connectVec_eq T hT, by rw [List.length_map], by rw [List.length_map], ?_⟩
  intro r f hf
  have hfo := hT f (List.mem_of_getElem? hf)
  exact ⟨_, _, by rw [List.getElem?_map, hf]; rfl, by rw [List.getElem?_map, hf]; rfl,
    restrict_rowsOk _ f (usefulFlags_length f) hfo, restrict_connected f hfo⟩

/-! ## A single FSA -/

/-- `GetFsaVecElement`, k2/csrc/fsa.h (`fsas.Index(0, i)`): the arcs of the states of FSA `r`. -/
def element (v : FsaVec W) (r : Nat) : Option (List (List (Arc W))) := do
  let b ← v.sp1[r]?
  let e ← v.sp1[r + 1]?
  (List.range' b (e - b)).mapM (fun s => do
    let x ← v.sp2[s]?
    let y ← v.sp2[s + 1]?
    some ((v.arcs.drop x).take (y - x)))

theorem element_flat (T : List (List (List (Arc W)))) (r : Nat) (f : List (List (Arc W)))
    (hf : T[r]? = some f) : element (flat T) r = some f := by
  have hr := (List.getElem?_eq_some_iff.mp hf).1
  have f1 := flat_sp1 T r (by omega)
  have f2 := flat_sp1_succ T r f hf
  unfold element
  simp only [f1, f2, Option.bind_eq_bind, Option.bind_some]
  apply mapM_some_of
  · rw [List.length_range']; omega
  intro i b hb
  obtain ⟨hlt, hb⟩ := List.getElem?_eq_some_iff.mp hb
  rw [List.length_range'] at hlt; rw [List.getElem_range', Nat.one_mul] at hb; subst hb
  have hi : i < f.length := by omega
  have hg := state_at T r i f hf hi
  rw [List.getElem?_eq_getElem hi] at hg
  have g1 := flat_sp2 T (off T r + i) (Nat.le_of_lt (off_lt T r i f hf hi))
  have g2 := flat_sp2_succ T (off T r + i) _ hg
  simp only [g1, g2, Option.bind_some, Nat.add_sub_cancel_left]
  rw [List.getElem?_eq_getElem hi]
  congr 1
  apply List.ext_getElem?
  intro k
  by_cases hk : k < f[i].length
  · rw [List.getElem?_take_of_lt hk, List.getElem?_drop]
    exact flat_arc T _ k _ hg hk
  · rw [List.getElem?_eq_none (by rw [List.length_take]; omega), List.getElem?_eq_none (by omega)]

/-- `Connect` of an FSA with two axes, connect.cu 502-514. -/
def connectOne (f : List (List (Arc W))) : Option (List (List (Arc W)) × List Nat) := do
  let r ← connectVec (flat [f])
  let g ← element r.1 0
  some (g, r.2)

/-- **C16.** `Connect` of a single FSA. -/
theorem connectOne_spec (f : List (List (Arc W))) (hf : RowsOk f) :
    ∃ g m, connectOne f = some (g, m) ∧ RowsOk g ∧ Connected (rowsFsa f) (rowsFsa g) m := by
  have hT : VecOk [f] := by intro g hg; simp only [List.mem_singleton] at hg; subst hg; exact hf
  refine ⟨_, _, ?_, restrict_rowsOk _ f (usefulFlags_length f) hf, restrict_connected f hf⟩
  unfold connectOne
  simp only [connectVec_eq [f] hT, Option.bind_eq_bind, Option.bind_some]
  rw [element_flat _ 0 (restrictFsa (usefulFlags f) f) rfl]
  simp [joinMaps, psum, psumFrom]

/-- What the specification says about labels and scores of accepting paths. -/
theorem Connected.accepting {f g : Fsa W} {m : List Nat} (h : Connected f g m) (p : List (Arc W))
    (hp : Accepting f p) : ∃ q, Accepting g q ∧ labels q = labels p ∧ q.map Arc.score = p.map Arc.score := by
  obtain ⟨h2, hp⟩ := hp
  obtain ⟨js, hjs, hip⟩ := (path_iff_ipath _ _ _ _).mp hp
  obtain ⟨is, his, h0, q, hc, hq⟩ := (h.paths js).mp ⟨by omega, hip⟩
  have key : ∀ (is js : List Nat) (p q : List (Arc W)), is.map (fun i => m[i]?) = js.map some →
      js.map (fun j => f.arcs[j]?) = p.map some → is.map (fun i => g.arcs[i]?) = q.map some →
      labels q = labels p ∧ q.map Arc.score = p.map Arc.score := by
    intro is
    induction is with
    | nil =>
      intro js p q h1 h2 h3
      cases js with
      | nil => cases p <;> cases q <;> simp_all
      | cons j js => simp at h1
    | cons i is ih =>
      intro js p q h1 h2 h3
      cases js with
      | nil => simp at h1
      | cons j js =>
        cases p with
        | nil => simp at h2
        | cons a p =>
          cases q with
          | nil => simp at h3
          | cons b q =>
            simp only [List.map_cons, List.cons.injEq] at h1 h2 h3
            obtain ⟨b', a', hb, ha, hlab, hsc⟩ := h.same i j h1.1
            rw [h3.1] at hb
            rw [h2.1] at ha
            obtain rfl := Option.some.inj hb
            obtain rfl := Option.some.inj ha
            obtain ⟨h4, h5⟩ := ih js p q h1.2 h2.2 h3.2
            exact ⟨by simp only [labels, List.map_cons, hlab]; congr 1,
              by simp only [List.map_cons, hsc, h5]⟩
  obtain ⟨h4, h5⟩ := key is js p q his hjs hq
  refine ⟨q, ⟨?_, hc, ipath_mem _ q is hq⟩, h4, h5⟩
  rcases h.two h2 with h6 | h6
  · omega
  · exact h6

theorem Connected.accepting_back {f g : Fsa W} {m : List Nat} (h : Connected f g m) (h2 : 2 ≤ f.numStates)
    (q : List (Arc W)) (hq : Accepting g q) :
    ∃ p, Accepting f p ∧ labels q = labels p ∧ q.map Arc.score = p.map Arc.score := by
  obtain ⟨hg2, hq⟩ := hq
  obtain ⟨is, his, hip⟩ := (path_iff_ipath _ _ _ _).mp hq
  have key : ∀ (is : List Nat) (q : List (Arc W)), is.map (fun i => g.arcs[i]?) = q.map some →
      ∃ (js : List Nat) (p : List (Arc W)), is.map (fun i => m[i]?) = js.map some ∧
        js.map (fun j => f.arcs[j]?) = p.map some ∧ labels q = labels p ∧ q.map Arc.score = p.map Arc.score := by
    intro is
    induction is with
    | nil =>
      intro q hq
      cases q with
      | nil => exact ⟨[], [], rfl, rfl, rfl, rfl⟩
      | cons b q => simp at hq
    | cons i is ih =>
      intro q hq
      cases q with
      | nil => simp at hq
      | cons b q =>
        simp only [List.map_cons, List.cons.injEq] at hq
        obtain ⟨js, p, h1, h2, h3, h4⟩ := ih q hq.2
        have hlt := (List.getElem?_eq_some_iff.mp hq.1).1
        rw [← h.length] at hlt
        obtain ⟨b', a, hb, ha, hlab, hsc⟩ := h.same i _ (List.getElem?_eq_getElem hlt)
        rw [hq.1] at hb
        obtain rfl := Option.some.inj hb
        refine ⟨m[i] :: js, a :: p, by simp [h1, List.getElem?_eq_getElem hlt], by simp [h2, ha], ?_,
          by simp only [List.map_cons, hsc, h4]⟩
        simp only [labels, List.map_cons, hlab]
        congr 1
  obtain ⟨js, p, h1, h3, h4, h5⟩ := key is q his
  obtain ⟨_, p', hc, hp'⟩ := (h.paths js).mpr ⟨is, h1, by omega, hip⟩
  have : p' = p := by
    have := hp'.symm.trans h3
    exact List.map_inj_right (fun _ _ h => Option.some.inj h) |>.mp this
  subst this
  exact ⟨p', ⟨h2, hc, ipath_mem _ p' js hp'⟩, h4, h5⟩

/-! ## The python function -/

/-- `connect`, k2/python/k2/fsa_algo.py 502-530, of a single FSA.  Reading `fsa.properties` raises an
error for an FSA that is not valid (fsa.py 438-446). -/
def pyConnect (f : List (List (RArc W))) : Option (List (List (Arc W))) :=
  if (flagsOf f).valid = true then
    if (flagsOf f).accessible = true ∧ (flagsOf f).coaccessible = true then
      some (f.map (List.map RArc.toArc))
    else
      (connectOne (f.map (List.map RArc.toArc))).map Prod.fst
  else none

theorem rowsOk_of_valid (f : List (List (RArc W))) (hv : (flagsOf f).valid = true) :
    RowsOk (f.map (List.map RArc.toArc)) := by
  rw [valid_iff] at hv
  intro s row hs a ha
  rw [List.getElem?_map, Option.map_eq_some_iff] at hs
  obtain ⟨row, hrow, rfl⟩ := hs
  obtain ⟨b, hb, rfl⟩ := List.mem_map.mp ha
  refine ⟨toArc_src f hv s row hrow b hb, ?_⟩
  have := hv s row hrow b hb
  rw [List.length_map]
  simp only [RArc.toArc]
  omega

theorem rowsFsa_rawFsa (f : List (List (RArc W))) : rowsFsa (f.map (List.map RArc.toArc)) = rawFsa f := by
  simp [rowsFsa, rawFsa, List.map_flatten]

theorem connected_self (f : Fsa W) (h1 : Accessible f) (h2 : Coaccessible f) :
    Connected f f (List.range f.arcs.length) := by
  have hsome : ∀ (js : List Nat), (∀ j ∈ js, j < f.arcs.length) →
      js.map (fun i => (List.range f.arcs.length)[i]?) = js.map some := by
    intro js h
    apply List.map_congr_left
    intro j hj
    rw [List.getElem?_range (h j hj)]
  constructor
  · exact List.pairwise_lt_range
  · rw [List.length_range]
  · intro i j h
    have hlt := (List.getElem?_eq_some_iff.mp h).1
    rw [List.length_range] at hlt
    rw [List.getElem?_range hlt] at h
    obtain rfl := Option.some.inj h
    exact ⟨_, _, List.getElem?_eq_getElem hlt, List.getElem?_eq_getElem hlt, rfl, rfl⟩
  · intro js
    constructor
    · rintro ⟨h0, p, hc, hp⟩
      refine ⟨js, hsome js ?_, h0, p, hc, hp⟩
      intro j hj
      have : f.arcs[j]? ∈ p.map some := by
        rw [← show js.map (fun j => f.arcs[j]?) = p.map some from hp]; exact List.mem_map.mpr ⟨j, hj, rfl⟩
      obtain ⟨a, _, ha⟩ := List.mem_map.mp this
      exact (List.getElem?_eq_some_iff.mp ha.symm).1
    · rintro ⟨is, his, hp⟩
      have hlt : ∀ i ∈ is, i < f.arcs.length := by
        intro i hi
        have : (List.range f.arcs.length)[i]? ∈ js.map some := by
          rw [← his]; exact List.mem_map.mpr ⟨i, hi, rfl⟩
        obtain ⟨j, _, hj⟩ := List.mem_map.mp this
        have := (List.getElem?_eq_some_iff.mp hj.symm).1
        rwa [List.length_range] at this
      rw [hsome is hlt] at his
      rw [← List.map_inj_right (fun _ _ h => Option.some.inj h) |>.mp his]
      exact hp
  · exact h1
  · exact h2
  · intro h
    by_contra hne
    obtain ⟨p, hp⟩ := h2 0 (by omega)
    obtain ⟨js, _, hip⟩ := (path_iff_ipath _ _ _ _).mp hp
    exact h ⟨js, by omega, hip⟩
  · exact Or.inr
  · exact Or.inr

/-- **C17** (part). Python `connect` returns the connected version of the FSA if one of the two bits is not
set or the TopSorted bit is set.  Missing: the FSAs that are not topologically sorted with both bits set,
for which `pyConnect_not_connected` shows that the claim is false. -/
theorem pyConnect_partial (f : List (List (RArc W))) (hv : (flagsOf f).valid = true)
    (h : (flagsOf f).accessible = true → (flagsOf f).coaccessible = true → (flagsOf f).topSorted = true) :
    ∃ g m, pyConnect f = some g ∧ Connected (rawFsa f) (rowsFsa g) m := by
  unfold pyConnect
  rw [if_pos hv]
  by_cases hb : (flagsOf f).accessible = true ∧ (flagsOf f).coaccessible = true
  · rw [if_pos hb]
    have ht := h hb.1 hb.2
    refine ⟨_, List.range (rawFsa f).arcs.length, rfl, ?_⟩
    rw [rowsFsa_rawFsa]
    exact connected_self _ (accessible_of_topSorted f hv ht hb.1) (coaccessible_of_topSorted f hv ht hb.2)
  · rw [if_neg hb]
    obtain ⟨g, m, h1, _, h2⟩ := connectOne_spec _ (rowsOk_of_valid f hv)
    rw [rowsFsa_rawFsa] at h2
    exact ⟨g, m, by rw [h1]; rfl, h2⟩

/-- **C17** is false: python `connect` returns this valid FSA, which is not connected, as it is. -/
theorem pyConnect_not_connected :
    ∃ g, pyConnect islandFsa = some g ∧ rowsFsa g = rawFsa islandFsa ∧
      ¬ Accessible (rowsFsa g) ∧ ¬ Coaccessible (rowsFsa g) := by
  obtain ⟨h1, h2, h3, h4, h5⟩ := maybe_bits_not_connected
  refine ⟨_, by unfold pyConnect; rw [if_pos h1, if_pos ⟨h2, h3⟩], rowsFsa_rawFsa _, ?_, ?_⟩
  · rw [rowsFsa_rawFsa]; exact h4
  · rw [rowsFsa_rawFsa]; exact h5

/-! ## Cases that meet the hypotheses -/

/-- Two FSAs: in the first, state 1 does not reach the final state; the second has no accepting path. -/
def exampleVec : List (List (List (Arc Int))) :=
  [[[⟨0, 1, 5, 1⟩, ⟨0, 2, 6, 2⟩], [⟨1, 1, 7, 3⟩], [⟨2, 3, -1, 4⟩, ⟨2, 0, 8, 5⟩], []],
   [[⟨0, 0, 1, 1⟩], []]]

example : VecOk exampleVec := by
  intro f hf s row hs a ha
  simp only [exampleVec, List.mem_cons, List.not_mem_nil, or_false] at hf
  rcases hf with rfl | rfl
  · match s, hs with
    | 0, hs => simp at hs; subst hs; simp at ha; rcases ha with rfl | rfl <;> simp
    | 1, hs => simp at hs; subst hs; simp at ha; subst ha; simp
    | 2, hs => simp at hs; subst hs; simp at ha; rcases ha with rfl | rfl <;> simp
    | 3, hs => simp at hs; subst hs; simp at ha
  · match s, hs with
    | 0, hs => simp at hs; subst hs; simp at ha; subst ha; simp
    | 1, hs => simp at hs; subst hs; simp at ha

/-- The model run on them. -/
example : connectVec (flat exampleVec) =
    some (flat [[[⟨0, 1, 6, 2⟩], [⟨1, 2, -1, 4⟩, ⟨1, 0, 8, 5⟩], []], []], [1, 3, 4]) := by decide +kernel

/-- An FSA for which python `connect` has work to do. -/
example : let f : List (List (RArc Nat)) := [[⟨0, 2, -1, 0⟩], [⟨1, 2, -1, 1⟩], []]
    (flagsOf f).valid = true ∧ (flagsOf f).accessible = false ∧ (flagsOf f).coaccessible = true ∧
      pyConnect f = some [[⟨0, 1, -1, 0⟩], []] := by decide +kernel

end Verif.Fsa
