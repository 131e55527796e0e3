import Verif.Fsa.Nbest.Lemmas

/-!
# C99: `Nbest.from_lattice` keeps one sampled path for each word sequence

`k2.Nbest.from_lattice(lattice, num_paths, use_double_scores, nbest_scale)` samples paths of the lattice with scaled
scores (C97), keeps one path for each word sequence and makes a linear FSA of it, with the labels, the scores and the
auxiliary labels of its arcs.
-/

namespace Verif.Fsa
open Verif.Ragged Verif.Util Verif.Fsa.Bat Verif.Fsa.Sco Verif.Fsa.Top Verif.Fsa.Rp Verif.Fsa.Nb
variable {W K : Type} [Field K] [LinearOrder K] [IsStrictOrderedRing K]

/-! ## Specification -/

/-- `Q` holds, for each utterance, one sampled path (of those in `P`) for each word sequence, as far as the hash
function can tell word sequences apart. -/
def OnePerSequence (hash : List Int → Int) (words : List Nat → List Int) (P Q : List (List (List Nat))) : Prop :=
  Q.length = P.length ∧
  ∀ (r : Nat) (ps qs : List (List Nat)), P[r]? = some ps → Q[r]? = some qs →
    (∀ q ∈ qs, q ∈ ps) ∧ (qs.map words).Nodup ∧ ∀ p ∈ ps, ∃ q ∈ qs, hash (words q) = hash (words p)

/-! ## Lemmas -/

namespace Nb

/-- The arc with a scaled score. -/
def sc (scale : W → W) (a : Arc W) : Arc W := { a with score := scale a.score }

theorem setScores_map (scale : W → W) (T : List (List (List (Arc W)))) :
    setScores (flat T) ((flat T).arcs.map (fun a => scale a.score)) = some (flat (T.map (List.map (List.map (sc scale))))) := by
  have h1 : ∀ l : List (Arc W), List.zipWith (fun (a : Arc W) s => { a with score := s }) l (l.map (fun a => scale a.score)) =
      l.map (sc scale) := by
    intro l
    induction l with
    | nil => rfl
    | cons a l ih => rw [List.map_cons, List.zipWith_cons_cons, ih]; rfl
  unfold setScores
  rw [if_pos (by simp), h1]
  have h2 : (T.map (List.map (List.map (sc scale)))).map List.length = T.map List.length := by
    rw [List.map_map]; apply List.map_congr_left; intro f _; simp
  have h3 : (T.map (List.map (List.map (sc scale)))).flatten = T.flatten.map (List.map (sc scale)) := by
    rw [List.map_flatten]
  have h4 : (T.flatten.map (List.map (sc scale))).map List.length = T.flatten.map List.length := by
    rw [List.map_map]; apply List.map_congr_left; intro f _; simp
  unfold flat
  have h5 : T.flatten.flatten.map (sc scale) = (T.flatten.map (List.map (sc scale))).flatten := List.map_flatten
  rw [h2, h3, h4, ← h5]

theorem scaled_ok (scale : W → W) (T : List (List (List (Arc W)))) (hT : VecOk T) :
    VecOk (T.map (List.map (List.map (sc scale)))) := by
  intro f hf
  obtain ⟨g, hg, rfl⟩ := List.mem_map.mp hf
  intro s row hs a ha
  rw [List.getElem?_map] at hs
  cases hr : g[s]? with
  | none => rw [hr] at hs; cases hs
  | some row0 =>
    rw [hr] at hs
    obtain rfl := Option.some.inj hs
    obtain ⟨b, hb, rfl⟩ := List.mem_map.mp ha
    rw [List.length_map]
    exact hT g hg s row0 hr b hb

theorem chain_sc (scale : W → W) (p : List (Arc W)) (s t : Nat) : Chain s (p.map (sc scale)) t ↔ Chain s p t := by
  induction p generalizing s with
  | nil => rfl
  | cons a p ih =>
    show (a.src = s ∧ Chain a.dst (p.map (sc scale)) t) ↔ (a.src = s ∧ Chain a.dst p t)
    rw [ih]

theorem accepting_sc (scale : W → W) (f : List (List (Arc W))) (is : List Nat) :
    IAccepting (rowsFsa (f.map (List.map (sc scale)))) is ↔ IAccepting (rowsFsa f) is := by
  have h1 : (rowsFsa (f.map (List.map (sc scale)))).arcs = f.flatten.map (sc scale) := by
    show (f.map (List.map (sc scale))).flatten = _
    rw [List.map_flatten]
  have h2 : (rowsFsa (f.map (List.map (sc scale)))).numStates = f.length := by
    show (f.map (List.map (sc scale))).length = _
    rw [List.length_map]
  unfold IAccepting Fsa.final IPath
  rw [h1, h2]
  refine and_congr_right fun _ => ⟨?_, ?_⟩
  · rintro ⟨p, hc, hp⟩
    have hp' : (is.map (fun i => f.flatten[i]?)).map (Option.map (sc scale)) = p.map some := by
      rw [← hp, List.map_map]
      apply List.map_congr_left
      intro i _
      rw [Function.comp_apply, List.getElem?_map]
    have hall : ∀ o ∈ is.map (fun i => f.flatten[i]?), o ≠ none := by
      rintro o ho rfl
      have : Option.map (sc scale) none ∈ p.map some := by rw [← hp']; exact List.mem_map.mpr ⟨none, ho, rfl⟩
      obtain ⟨a, _, ha⟩ := List.mem_map.mp this
      cases ha
    have hq : is.map (fun i => f.flatten[i]?) = ((is.map (fun i => f.flatten[i]?)).filterMap id).map some := by
      generalize is.map (fun i => f.flatten[i]?) = l at hall
      induction l with
      | nil => rfl
      | cons o l ih =>
        cases o with
        | none => exact absurd rfl (hall none (List.mem_cons_self ..))
        | some a =>
          rw [List.filterMap_cons]
          simp only [id_eq, List.map_cons]
          congr 1
          exact ih (fun o ho => hall o (List.mem_cons_of_mem _ ho))
    refine ⟨(is.map (fun i => f.flatten[i]?)).filterMap id, ?_, hq⟩
    rw [← chain_sc scale]
    have : ((is.map (fun i => f.flatten[i]?)).filterMap id).map (sc scale) = p := by
      apply List.map_injective_iff.mpr (Option.some_injective _)
      rw [← hp']
      conv_rhs => rw [hq]
      rw [List.map_map, List.map_map]
      rfl
    rw [this]; exact hc
  · rintro ⟨p, hc, hp⟩
    refine ⟨p.map (sc scale), (chain_sc scale p _ _).mpr hc, ?_⟩
    rw [List.map_map, show (some ∘ sc scale) = (Option.map (sc scale)) ∘ some from rfl, ← List.map_map, ← hp, List.map_map]
    apply List.map_congr_left
    intro i _
    rw [Function.comp_apply, List.getElem?_map]
    rfl

theorem base_sc (scale : W → W) (T : List (List (List (Arc W)))) (r : Nat) :
    base (T.map (List.map (List.map (sc scale)))) r = base T r := by
  unfold base
  rw [List.map_map]
  congr 2
  apply List.map_congr_left
  intro f _
  rw [Function.comp_apply, ← List.map_flatten, List.length_map]

omit [IsStrictOrderedRing K] in
theorem fair_sc (wt : W → K) (scale : W → W) (f : List (List (Arc W))) (first n : Nat) (paths : List (List Nat))
    (h : FairSample wt (f.map (List.map (sc scale))) first n paths) :
    FairSample (fun w => wt (scale w)) f first n paths := by
  have hw : pathWeight wt (f.map (List.map (sc scale))).flatten = pathWeight (fun w => wt (scale w)) f.flatten := by
    funext is
    rw [← List.map_flatten, pathWeight, pathWeight]
    congr 1
    apply List.map_congr_left
    intro i _
    rw [List.getElem?_map]
    cases f.flatten[i]? <;> rfl
  intro L h1 h2
  have := h L h1 (fun is => (h2 is).trans (accepting_sc scale f is).symm)
  rw [hw] at this
  exact this

end Nb

/-! ## Theorems -/

section
variable [Zero W] (hash : List Int → Int) (low : K) (hlow : 0 < low) (wt : W → K) (hwt : ∀ w, 0 ≤ wt w)
  (mid : K → K → K) (hmid : ∀ x, mid x x = x) (scale : W → W) (n : Nat) (hn0 : 0 < n)
  (T : List (List (List (Arc W)))) (hT : VecOk T) (hn : T.flatten.length ≤ intMax)
  (hfw : ∀ f ∈ T, ∀ a ∈ f.flatten, a.src < a.dst) (hone : ∀ f ∈ T, f.length ≠ 1)
  (hlab : ∀ f ∈ T, ∀ a ∈ f.flatten, a.label = -1 ↔ a.dst + 1 = f.length)
  (aux : Aux) (A : List (List Int)) (haux : AuxIs aux A) (hA : A.length = (flat T).arcs.length)
include hlow hwt hmid hn0 hT hn hfw hone hlab haux hA

/-- C99: `Nbest.from_lattice` takes a fair sample `P` of the paths with the scaled scores and keeps of it one path for
each word sequence, `Q`.  The shape is that of `Q`; FSA `k` is the linear FSA of the `k`-th path in `Q` with the
labels and the unscaled scores of its arcs; the auxiliary labels are those of the arcs of the paths. -/
theorem nbest_from_lattice : ∃ (P Q : List (List (List Nat))) (aux' : Aux),
    (∀ gpu lp0, fromLattice hash gpu lp0 low wt mid scale n (flat T) aux =
      some ⟨flat (Q.flatten.map (fun path => lineFsa (arcsAt (flat T).arcs path))), aux',
        (psum (Q.map List.length), idsFrom 0 (Q.map List.length)),
        [(psum (Q.flatten.map List.length), idsFrom 0 (Q.flatten.map List.length))], Q.flatten.flatten⟩) ∧
    AuxIs aux' (Q.flatten.flatten.map (fun i => A.getD i [])) ∧
    P.length = T.length ∧
    (∀ (r : Nat) (f : List (List (Arc W))) (paths : List (List Nat)), T[r]? = some f → P[r]? = some paths →
      FairSample (fun w => wt (scale w)) f (base T r) n paths) ∧
    OnePerSequence hash (wordsOf A) P Q := by
  obtain ⟨P, p1, p2, p3⟩ := random_paths_sample low hlow wt hwt mid hmid n hn0 (T.map (List.map (List.map (sc scale))))
    (scaled_ok scale T hT) (by
      rw [← List.map_flatten, List.length_map]; exact hn) (by
      intro f hf a ha
      obtain ⟨g, hg, rfl⟩ := List.mem_map.mp hf
      rw [← List.map_flatten] at ha
      obtain ⟨b, hb, rfl⟩ := List.mem_map.mp ha
      exact hfw g hg b hb) (by
      intro f hf
      obtain ⟨g, hg, rfl⟩ := List.mem_map.mp hf
      rw [List.length_map]
      exact hone g hg)
  rw [List.length_map] at p2
  have hfair : ∀ (r : Nat) (f : List (List (Arc W))) (paths : List (List Nat)), T[r]? = some f → P[r]? = some paths →
      FairSample (fun w => wt (scale w)) f (base T r) n paths := by
    intro r f paths hf hp
    have := p3 r _ paths (by rw [List.getElem?_map, hf]; rfl) hp
    rw [base_sc] at this
    exact fair_sc wt scale f _ n paths this
  -- the arcs of the sampled paths
  have hends : ∀ (r : Nat) (paths : List (List Nat)), P[r]? = some paths → ∀ path ∈ paths,
      ∃ p, path.map (fun i => (flat T).arcs[i]?) = p.map some ∧ Ends p := by
    intro r paths hp path hpath
    have hr : r < T.length := by rw [← p2]; exact (List.getElem?_eq_some_iff.mp hp).1
    have hf := List.getElem?_eq_getElem hr
    generalize T[r] = f at hf
    have hm := List.mem_of_getElem? hf
    rcases Nat.eq_zero_or_pos f.length with h0 | h0
    · have h1 := (hfair r f paths hf hp [] List.nodup_nil (by
        intro is
        refine ⟨fun h => by simp at h, fun h => ?_⟩
        have : 0 < f.length := h.1
        omega)).1 rfl
      rw [h1] at hpath
      simp at hpath
    · obtain ⟨L, hL1, hL2⟩ := allPaths_exists f.flatten (hfw f hm) 0 (f.length - 1)
      have hL3 : ∀ is, is ∈ L ↔ IAccepting (rowsFsa f) is := fun is => (hL2 is).trans ⟨fun h => ⟨h0, h⟩, fun h => h.2⟩
      obtain ⟨h1, h2⟩ := hfair r f paths hf hp L hL1 hL3
      by_cases hz : (L.map (pathWeight (fun w => wt (scale w)) f.flatten)).sum = 0
      · rw [h1 hz] at hpath
        simp at hpath
      · obtain ⟨is, his, rfl⟩ := (h2 hz).2.1 path hpath
        exact path_ends T r f hf (hfw f hm) (hone f hm) (hlab f hm) is ((hL3 is).mp his)
  have hends' : ∀ path ∈ P.flatten, ∃ p, path.map (fun i => (flat T).arcs[i]?) = p.map some ∧ Ends p := by
    intro path hpath
    obtain ⟨paths, h1, h2⟩ := List.mem_flatten.mp hpath
    obtain ⟨r, hr⟩ := List.getElem?_of_mem h1
    exact hends r paths hr path h2
  have hidx : ∀ i ∈ P.flatten.flatten, i < A.length := by
    intro i hi
    obtain ⟨path, hp, hm⟩ := List.mem_flatten.mp hi
    obtain ⟨p, h1, _⟩ := hends' path hp
    have : (flat T).arcs[i]? ∈ p.map some := by rw [← h1]; exact List.mem_map.mpr ⟨i, hm, rfl⟩
    obtain ⟨a, _, ha⟩ := List.mem_map.mp this
    rw [hA]
    exact (List.getElem?_eq_some_iff.mp ha.symm).1
  -- the word sequences
  set S := P.map (List.map (wordsOf A)) with hS
  have hSlen : P.map List.length = S.map List.length := by
    rw [hS, List.map_map]; apply List.map_congr_left; intro l _; simp
  set R := S.map (keptRow hash) with hR
  have hin : InRows P R := inRows_kept hash P S hSlen
  set Q := picks P R with hQ
  have hQS : Q.map (List.map (wordsOf A)) = S.map (uniqRow hash) := by
    rw [hQ, ← picks_map, ← hS, hR, picks_kept]
  have hQlen : Q.length = P.length := by
    have := congrArg List.length (picks_lengths P R hin)
    rw [List.length_map, List.length_map] at this
    rw [this, hR, List.length_map, hS, List.length_map]
  have hone' : OnePerSequence hash (wordsOf A) P Q := by
    refine ⟨hQlen, ?_⟩
    intro r ps qs hp hq
    have hs : S[r]? = some (ps.map (wordsOf A)) := by rw [hS, List.getElem?_map, hp]; rfl
    have hu : qs.map (wordsOf A) = uniqRow hash (ps.map (wordsOf A)) := by
      have := congrArg (fun l => l[r]?) hQS
      simp only [List.getElem?_map, hq, hs, Option.map_some] at this
      exact Option.some.inj this
    obtain ⟨u1, u2, u3, _⟩ := uniqRow_spec hash (ps.map (wordsOf A))
    refine ⟨mem_picks P R r ps qs hp hq, ?_, ?_⟩
    · rw [hu]
      apply List.Nodup.of_map hash
      exact u1.imp (fun h => by omega)
    · intro p hpp
      obtain ⟨u, hu1, hu2⟩ := u3 (wordsOf A p) (List.mem_map.mpr ⟨p, hpp, rfl⟩)
      rw [← hu] at hu1
      obtain ⟨q, hq1, rfl⟩ := List.mem_map.mp hu1
      exact ⟨q, hq1, hu2⟩
  have hQends : ∀ path ∈ Q.flatten, ∃ p, path.map (fun i => (flat T).arcs[i]?) = p.map some ∧ Ends p := by
    intro path hpath
    obtain ⟨qs, h1, h2⟩ := List.mem_flatten.mp hpath
    obtain ⟨r, hr⟩ := List.getElem?_of_mem h1
    have hrl : r < P.length := by rw [← hQlen]; exact (List.getElem?_eq_some_iff.mp hr).1
    have hp := List.getElem?_eq_getElem hrl
    exact hends r _ hp path (mem_picks P R r _ qs hp hr path h2)
  obtain ⟨aux', a1, a2⟩ := nbestOf_eq (flat T) haux hA Q hQends
  refine ⟨P, Q, aux', ?_, a1, p2, hfair, hone'⟩
  intro gpu lp0
  have hw := wordSeq_eq haux (psum (P.map List.length), idsFrom 0 (P.map List.length)) P.flatten hidx
  have hrm := removeValuesLeq_rows [(psum (P.map List.length), idsFrom 0 (P.map List.length))]
    (P.flatten.map (fun path => (path.map (fun i => A.getD i [])).flatten)) 0
  have hfl : (P.flatten.map (fun path => (path.map (fun i => A.getD i [])).flatten)).map
      (List.filter (fun x => decide (0 < x))) = S.flatten := by
    rw [hS, ← List.map_flatten, List.map_map]
    rfl
  rw [hfl] at hrm
  have hu := uniqueSequences_eq hash [] S (idsFrom 0 (S.flatten.map List.length))
  obtain ⟨elems, e1, _⟩ := index_axis_middle (α := Nat) 0 [] P R hin
  have f1 : fullLayers 1 (P.flatten : List (Nest Nat 1)) = _ := fullLayers_succ 0 (α := Nat) P.flatten
  have e2 : indexRagged [(psum (P.map List.length), idsFrom 0 (P.map List.length)),
      (psum (P.flatten.map List.length), idsFrom 0 (P.flatten.map List.length))] P.flatten.flatten 1 (globalIdx 0 P R) =
      some (fullLayers 2 (Q : List (Nest Nat 2)), Q.flatten.flatten, elems) := by
    have g1 : fullLayers 2 (Q : List (Nest Nat 2)) = _ := fullLayers_succ 1 (α := Nat) Q
    rw [g1]
    have g2 : fullLayers 1 (P.flatten : List (Nest Nat 1)) =
      [(psum (P.flatten.map List.length), idsFrom 0 (P.flatten.map List.length))] := f1
    have g3 : indexRagged ([] ++ (psum (P.map List.length), idsFrom 0 (P.map List.length)) ::
      fullLayers 1 (P.flatten : List (Nest Nat 1))) P.flatten.flatten 1 (globalIdx 0 P R) = _ := e1
    rw [g2] at g3
    exact g3
  have hidxs : sel (flagsAll hash S) (orderAll hash S) = globalIdx 0 P R := by
    rw [indexes_rows, ← hR]
    exact (globalIdx_congr P S hSlen R 0).symm
  unfold fromLattice
  simp only [setScores_map, Option.bind_eq_bind, Option.bind_some, p1 gpu lp0, layer_psum, hw, hrm]
  simp only [List.cons_append, List.nil_append]
  rw [hSlen, hu]
  simp only [Option.bind_some, hidxs]
  rw [← hSlen, e2]
  simp only [Option.bind_some]
  exact a2

/-- C99, for word sequences that the hash function separates: for each word sequence of a sampled path of an
utterance there is exactly one path. -/
theorem nbest_unique_sequences
    (hinj : ∀ (r : Nat) (f : List (List (Arc W))), T[r]? = some f → ∀ is js, IAccepting (rowsFsa f) is → IAccepting (rowsFsa f) js →
      hash (wordsOf A (is.map (base T r + ·))) = hash (wordsOf A (js.map (base T r + ·))) →
      wordsOf A (is.map (base T r + ·)) = wordsOf A (js.map (base T r + ·))) :
    ∃ (P Q : List (List (List Nat))) (nb : Nbest W),
      (∀ gpu lp0, fromLattice hash gpu lp0 low wt mid scale n (flat T) aux = some nb) ∧
      nb.shape.1 = psum (Q.map List.length) ∧
      nb.fsa = flat (Q.flatten.map (fun path => lineFsa (arcsAt (flat T).arcs path))) ∧
      Q.length = T.length ∧ P.length = T.length ∧
      (∀ (r : Nat) (f : List (List (Arc W))) (paths : List (List Nat)), T[r]? = some f → P[r]? = some paths →
        FairSample (fun w => wt (scale w)) f (base T r) n paths) ∧
      ∀ (r : Nat) (ps qs : List (List Nat)), P[r]? = some ps → Q[r]? = some qs →
        (∀ q ∈ qs, q ∈ ps) ∧ (qs.map (wordsOf A)).Nodup ∧ ∀ p ∈ ps, wordsOf A p ∈ qs.map (wordsOf A) := by
  obtain ⟨P, Q, aux', h1, h2, h3, h4, h5, h6⟩ := nbest_from_lattice hash low hlow wt hwt mid hmid scale n hn0 T hT hn hfw
    hone hlab aux A haux hA
  refine ⟨P, Q, _, h1, rfl, rfl, h5.trans h3, h3, h4, ?_⟩
  intro r ps qs hp hq
  obtain ⟨g1, g2, g3⟩ := h6 r ps qs hp hq
  refine ⟨g1, g2, ?_⟩
  intro p hpp
  obtain ⟨q, hq1, hq2⟩ := g3 p hpp
  have hr : r < T.length := by rw [← h3]; exact (List.getElem?_eq_some_iff.mp hp).1
  have hf := List.getElem?_eq_getElem hr
  generalize T[r] = f at hf
  have hm := List.mem_of_getElem? hf
  have hacc : ∀ path ∈ ps, ∃ is, IAccepting (rowsFsa f) is ∧ path = is.map (base T r + ·) := by
    intro path hpath
    rcases Nat.eq_zero_or_pos f.length with h0 | h0
    · have h1 := (h4 r f ps hf hp [] List.nodup_nil (by
        intro is
        refine ⟨fun h => by simp at h, fun h => ?_⟩
        have : 0 < f.length := h.1
        omega)).1 rfl
      rw [h1] at hpath
      simp at hpath
    · obtain ⟨L, hL1, hL2⟩ := allPaths_exists f.flatten (hfw f hm) 0 (f.length - 1)
      have hL3 : ∀ is, is ∈ L ↔ IAccepting (rowsFsa f) is := fun is => (hL2 is).trans ⟨fun h => ⟨h0, h⟩, fun h => h.2⟩
      obtain ⟨h1, h2⟩ := h4 r f ps hf hp L hL1 hL3
      by_cases hz : (L.map (pathWeight (fun w => wt (scale w)) f.flatten)).sum = 0
      · rw [h1 hz] at hpath
        simp at hpath
      · obtain ⟨is, his, rfl⟩ := (h2 hz).2.1 path hpath
        exact ⟨is, (hL3 is).mp his, rfl⟩
  obtain ⟨is, i1, rfl⟩ := hacc p hpp
  obtain ⟨js, j1, rfl⟩ := hacc q (g1 q hq1)
  have := hinj r f hf js is j1 i1 hq2
  rw [← this]
  exact List.mem_map.mpr ⟨_, hq1, rfl⟩
end

/-! ## The linear FSAs -/

/-- A linear FSA has the arcs of the path one after the other and no other accepting path. -/
theorem lineFsa_path (p : List (Arc W)) (hp : p ≠ []) (q : List (Arc W)) :
    Accepting (rowsFsa (lineFsa p)) q ↔ q = p.mapIdx (fun k a => ⟨k, k + 1, a.label, a.score⟩) := by
  have hlen : (lineFsa p).length = p.length + 1 := by simp [lineFsa]
  have key : ∀ (k : Nat) (q : List (Arc W)), k ≤ p.length →
      ((Chain k q p.length ∧ ∀ a ∈ q, a ∈ (lineFsa p).flatten) ↔
        q = (p.mapIdx (fun k a => (⟨k, k + 1, a.label, a.score⟩ : Arc W))).drop k) := by
    intro k q hk
    rw [lineFsa_flatten]
    generalize hm : p.length - k = m
    induction m generalizing k q with
    | zero =>
      have hk' : k = p.length := by omega
      subst hk'
      rw [List.drop_of_length_le (by simp)]
      constructor
      · rintro ⟨hc, ha⟩
        cases q with
        | nil => rfl
        | cons a q =>
          exfalso
          have h1 := ha a (List.mem_cons_self ..)
          obtain ⟨i, hi⟩ := List.getElem?_of_mem h1
          rw [List.getElem?_mapIdx] at hi
          cases hpi : p[i]? with
          | none => rw [hpi] at hi; cases hi
          | some b =>
            rw [hpi] at hi
            have := (List.getElem?_eq_some_iff.mp hpi).1
            have h2 : a.src = p.length := hc.1
            rw [← Option.some.inj hi] at h2
            simp only at h2
            omega
      · rintro rfl
        exact ⟨rfl, by simp⟩
    | succ m ih =>
      have hkl : k < p.length := by omega
      have hget : (p.mapIdx (fun k a => (⟨k, k + 1, a.label, a.score⟩ : Arc W))).drop k =
          ⟨k, k + 1, p[k].label, p[k].score⟩ :: (p.mapIdx (fun k a => (⟨k, k + 1, a.label, a.score⟩ : Arc W))).drop (k + 1) := by
        rw [List.drop_eq_getElem_cons (by simpa using hkl)]
        simp
      rw [hget]
      constructor
      · rintro ⟨hc, ha⟩
        cases q with
        | nil =>
          have : k = p.length := hc
          omega
        | cons a q =>
          obtain ⟨i, hi⟩ := List.getElem?_of_mem (ha a (List.mem_cons_self ..))
          rw [List.getElem?_mapIdx] at hi
          cases hpi : p[i]? with
          | none => rw [hpi] at hi; cases hi
          | some b =>
            rw [hpi] at hi
            have hi' := (Option.some.inj hi).symm
            simp only at hi'
            have h2 : a.src = k := hc.1
            rw [hi'] at h2
            simp only at h2
            subst h2
            have hb : b = p[i] := by
              rw [List.getElem?_eq_getElem hkl] at hpi
              exact (Option.some.inj hpi).symm
            subst hb
            have h3 : Chain a.dst q p.length := hc.2
            rw [hi'] at h3
            have := (ih (i + 1) q (by omega) (by omega)).mp ⟨h3, fun x hx => ha x (List.mem_cons_of_mem _ hx)⟩
            rw [hi', this]
      · rintro rfl
        obtain ⟨h1, h2⟩ := (ih (k + 1) _ (by omega) (by omega)).mpr rfl
        refine ⟨⟨rfl, h1⟩, ?_⟩
        intro a ha
        rcases List.mem_cons.mp ha with rfl | ha
        · apply List.mem_of_getElem? (i := k)
          rw [List.getElem?_mapIdx, List.getElem?_eq_getElem hkl]
          rfl
        · exact h2 a ha
  have := key 0 q (Nat.zero_le _)
  rw [List.drop_zero] at this
  rw [← this]
  unfold Accepting Path
  have hf : (rowsFsa (lineFsa p)).final = p.length := by
    show (lineFsa p).length - 1 = _
    rw [hlen]; omega
  rw [hf]
  constructor
  · intro h; exact h.2
  · intro h; exact ⟨by
      have := List.length_pos_of_ne_nil hp
      show 2 ≤ (lineFsa p).length
      omega, h⟩

/-! ## Examples -/

/-- Three paths, of weights 2, 1 and 1; the first two have the same words.  The second utterance has no path. -/
def nbestExample : List (List (List (Arc Nat))) :=
  [[[⟨0, 1, 1, 2⟩, ⟨0, 1, 2, 1⟩, ⟨0, 1, 3, 1⟩], [⟨1, 2, -1, 1⟩], []], [[], []]]

theorem nbestExample_ok : VecOk nbestExample := by
  intro f hf
  rcases List.mem_cons.mp hf with rfl | hf
  · intro s row hs a ha
    match s with
    | 0 => simp at hs; subst hs; simp at ha; rcases ha with rfl | rfl | rfl <;> decide
    | 1 => simp at hs; subst hs; simp at ha; subst ha; decide
    | 2 => simp at hs; subst hs; simp at ha
    | s + 3 => simp at hs
  · simp at hf; subst hf
    intro s row hs a ha
    match s with
    | 0 => simp at hs; subst hs; simp at ha
    | 1 => simp at hs; subst hs; simp at ha
    | s + 2 => simp at hs

/-- The words of the arcs: the first two arcs have word 7, the third one 8 and 9. -/
def nbestWords : List (List Int) := [[7], [0, 7], [8, 9], [-1]]

example : AuxIs (.ragged [0, 1, 3, 5, 6] [7, 0, 7, 8, 9, -1]) nbestWords := ⟨by decide, by decide⟩

example : AuxIs (.tensor [7, 7, 8, -1]) [[7], [7], [8], [-1]] := by simp [AuxIs]

example : [[0, 3], [0, 3], [1, 3], [2, 3]].map (wordsOf nbestWords) = [[7], [7], [7], [8, 9]] := by decide

/-- The hypotheses of the theorems hold for it. -/
example := nbest_from_lattice hash64 (1 / 1000 : ℚ) (by norm_num) (fun w : Nat => (w : ℚ))
  (fun w => Nat.cast_nonneg w) (fun x y => (x + y) / 2) (by intro x; ring) (fun w => w) 4 (by decide) nbestExample
  nbestExample_ok (by decide) (by decide) (by decide) (by decide) (.ragged [0, 1, 3, 5, 6] [7, 0, 7, 8, 9, -1]) nbestWords
  ⟨by decide, by decide⟩ (by decide)

/-- The hash of the code separates the words of the example. -/
example : ∀ x ∈ [[7], [8, 9]], ∀ y ∈ ([[7], [8, 9]] : List (List Int)), hash64 x = hash64 y → x = y := by decide +kernel

example : nbestOf (flat nbestExample) (.tensor [7, 7, 8, -1]) [([0, 2, 2], [0, 0]), ([0, 2, 4], [0, 0, 1, 1])] [0, 3, 2, 3] =
    some ⟨flat [[[⟨0, 1, 1, 2⟩], [⟨1, 2, -1, 1⟩], []], [[⟨0, 1, 3, 1⟩], [⟨1, 2, -1, 1⟩], []]], .tensor [7, -1, 8, -1],
      ([0, 2, 2], [0, 0]), [([0, 2, 4], [0, 0, 1, 1])], [0, 3, 2, 3]⟩ := by decide +kernel

end Verif.Fsa
