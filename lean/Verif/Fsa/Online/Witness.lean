import Verif.Fsa.Online.Props
import Verif.Fsa.Pruned.Witness

/-!
# Concrete cases
-/

namespace Verif.Fsa.Onl
open Verif.Ragged Verif.Util Verif.Fsa.Dn Verif.Fsa.Dp

/-- Eight frames. -/
def exRows : List (List (WithBot ℚ)) :=
  [[⊥, w (-1), w (-2)], [⊥, w (-3), w (-1)], [⊥, w (-1), w (-1)], [⊥, w (-2), w (-1)], [⊥, w (-1), w (-3)],
    [⊥, w (-1), w (-2)], [⊥, w (-3), w (-1)], [⊥, w (-1), w (-1)]]

/-- The frame for the final arcs. -/
def exLast : List (WithBot ℚ) := [w 0, ⊥, ⊥]

/-- The sequences `fss`, each with the frame for the final arcs, and the graph `exGraph`. -/
def exChunk (fss : List (List (List (WithBot ℚ)))) : Args ℚ :=
  ⟨flat [exGraph], ⟨psum (fss.map (fun f => f.length + 1)), 3, 3, (fss.flatMap (· ++ [exLast])).flatten⟩,
    8, 4, 1, 10, false⟩

/-- The first frame and the second frame are chunks. -/
theorem ex_chunk (T : Nat) (hT : T < 2) : Chunk (exChunk [exRows]) (exChunk [(exRows.drop T).take 1]) T 1 := by
  have h1 : (exChunk [(exRows.drop T).take 1]).seqs = 1 := rfl
  constructor
  · rfl
  · rfl
  · rfl
  · rfl
  · rfl
  · rfl
  · rfl
  · intro i hi
    rw [h1] at hi
    obtain rfl : i = 0 := by omega
    match T, hT with
    | 0, _ => rfl
    | 1, _ => rfl
  · intro i hi
    rw [h1] at hi
    obtain rfl : i = 0 := by omega
    exact ⟨9, rfl, by omega⟩
  · intro i hi x0 x e0 e t ht l hl
    rw [h1] at hi
    obtain rfl : i = 0 := by omega
    obtain rfl : t = 0 := by omega
    obtain rfl : 0 = x0 := Option.some.inj e0
    obtain rfl : 0 = x := Option.some.inj e
    have hl : l < 3 := hl
    match T, hT, l, hl with
    | 0, _, 0, _ => rfl
    | 0, _, 1, _ => rfl
    | 0, _, 2, _ => rfl
    | 1, _, 0, _ => rfl
    | 1, _, 1, _ => rfl
    | 1, _, 2, _ => rfl

/-- The histories after a chunk. -/
def exNext (p : Args ℚ) (infos : List (Info ℚ)) : Option (List (Info ℚ)) :=
  (decode p inOrder infos).map (fun x => x.2.2)

/-- The active states, without backward scores, and the beam. -/
def exTip (d : Info ℚ) : List (St (WithBot ℚ)) × ℚ := (strip d.tip, d.beam)

theorem ex_first : (exNext (exChunk [exRows.take 1]) [fresh (exChunk [])]).map (·.map exTip) =
    some [([⟨0, w (-1), ⊥⟩, ⟨1, w (-3), ⊥⟩], 8)] := by decide +kernel

theorem ex_second : ((exNext (exChunk [exRows.take 1]) [fresh (exChunk [])]).bind
    (exNext (exChunk [(exRows.drop 1).take 1]))).map (·.map exTip) =
    some [([⟨0, w (-4), ⊥⟩, ⟨1, w (-3), ⊥⟩], 8)] := by decide +kernel

theorem ex_next {p : Args ℚ} {infos infos' : List (Info ℚ)} (h : exNext p infos = some infos') :
    ∃ o m, decode p inOrder infos = some (o, m, infos') := by
  unfold exNext at h
  obtain ⟨⟨o, m, i⟩, h1, rfl⟩ := Option.map_eq_some_iff.mp h
  exact ⟨o, m, h1⟩

/-- The hypotheses of `online_states_partial` hold after two chunks; these are the active states. -/
theorem ex_online : ∃ infos, Decodes (exChunk [exRows]) inOrder 2 infos ∧
    infos.map exTip = [([⟨0, w (-4), ⊥⟩, ⟨1, w (-3), ⊥⟩], 8)] := by
  have h1 := ex_first
  have h2 := ex_second
  obtain ⟨i1, e1, t1⟩ := Option.map_eq_some_iff.mp h1
  rw [e1, Option.bind_some] at h2
  obtain ⟨i2, e2, t2⟩ := Option.map_eq_some_iff.mp h2
  obtain ⟨o1, m1, d1⟩ := ex_next e1
  obtain ⟨o2, m2, d2⟩ := ex_next e2
  have s0 : Decodes (exChunk [exRows]) inOrder 0 [fresh (exChunk [])] := Decodes.start
  have s1 := Decodes.step 0 1 _ _ _ o1 m1 s0 (by intro d hd; obtain rfl := List.mem_singleton.mp hd; decide)
    (ex_chunk 0 (by omega)) d1
  refine ⟨i2, Decodes.step 1 1 _ _ _ o2 m2 s1 ?_ (ex_chunk 1 (by omega)) d2, t2⟩
  intro d hd h0
  have : exTip d ∈ i1.map exTip := List.mem_map_of_mem hd
  rw [t1, List.mem_singleton] at this
  rw [exTip, h0] at this
  simp [strip] at this

/-- What the theorem says there. -/
example : (run (exChunk [exRows]) inOrder 2) = some ([[⟨0, w (-4), ⊥⟩, ⟨1, w (-3), ⊥⟩]], [8]) := by
  obtain ⟨infos, h1, h2⟩ := ex_online
  have h := online_states_partial exGraph (by decide) (exChunk [exRows]) rfl inOrder 2 infos h1
  unfold AtFrame at h
  have e1 : infos.map (fun d => strip d.tip) = (infos.map exTip).map Prod.fst := by
    rw [List.map_map]
    rfl
  have e2 : infos.map Info.beam = (infos.map exTip).map Prod.snd := by
    rw [List.map_map]
    rfl
  rw [h, e1, e2, h2]
  rfl

/-- A frame that no label fits. -/
def exDead : List (List (WithBot ℚ)) := [[⊥, ⊥, ⊥]]

/-- A stream whose states have all died in a chunk starts again in the next chunk, as if there had been no frames
before; `IntersectDensePruned` has no states left for the same frames. -/
theorem online_restarts :
    (exNext (exChunk [exDead]) [fresh (exChunk [])]).map (·.map exTip) = some [([], 8)] ∧
    (run (exChunk [exDead ++ exRows]) inOrder 2).map Prod.fst = some [[]] ∧
    ((exNext (exChunk [exDead]) [fresh (exChunk [])]).bind
      (fun i => decode (exChunk [exRows.take 1]) inOrder i)).map (fun x => x.1) =
    (decode (exChunk [exRows.take 1]) inOrder [fresh (exChunk [])]).map (fun x => x.1) ∧
    ((exNext (exChunk [exDead]) [fresh (exChunk [])]).bind (exNext (exChunk [exRows.take 1]))).map (·.map exTip) =
      some [([⟨0, w (-1), ⊥⟩, ⟨1, w (-3), ⊥⟩], 8)] :=
  ⟨by decide +kernel, by decide +kernel, by decide +kernel, by decide +kernel⟩

/-- A stream with a shorter chunk than another stream of the batch loses its active states, although it keeps them
if it is decoded alone. -/
theorem online_shorter_chunk :
    (exNext (exChunk [exRows.take 1, exRows.take 3]) [fresh (exChunk []), fresh (exChunk [])]).map (·.map exTip) =
      some [([], 8), ([⟨0, w (-5), ⊥⟩, ⟨1, w (-4), ⊥⟩], 8)] ∧
    (exNext (exChunk [exRows.take 1]) [fresh (exChunk [])]).map (·.map exTip) =
      some [([⟨0, w (-1), ⊥⟩, ⟨1, w (-3), ⊥⟩], 8)] :=
  ⟨by decide +kernel, by decide +kernel⟩

end Verif.Fsa.Onl
