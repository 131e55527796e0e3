import Verif.Fsa.TopSort.Degrees

/-!
One round of `TopSort`, for every order of the threads.
-/

namespace Verif.Fsa.Top
open Verif.Ragged Verif.Util
variable {W X : Type}

/-- `dst` gives the destination states, which lie in the FSAs of the source states. -/
structure DestOk (T : List (List (List X))) (dest : List Nat) (dst : Nat → Nat) : Prop where
  length : dest.length = T.flatten.flatten.length
  get : ∀ j < T.flatten.flatten.length, dest[j]? = some (dst j)
  lt : ∀ j < T.flatten.flatten.length, dst j < T.flatten.length
  key : ∀ j < T.flatten.flatten.length, keyOf T (dst j) = keyOf T (srcOf T j)

/-- The states whose degree becomes zero when `B` is processed after `S`. -/
def fresh (T : List (List (List X))) (dst : Nat → Nat) (S B : List Nat) : List Nat :=
  (List.range T.flatten.length).filter (fun d =>
    decide (into T dst S d + fin T d ≠ 0) && decide (into T dst (S ++ B) d + fin T d = 0))

theorem fresh_mem (T : List (List (List X))) (dst : Nat → Nat) (S B : List Nat) (d : Nat) :
    d ∈ fresh T dst S B ↔ d < T.flatten.length ∧ into T dst S d + fin T d ≠ 0 ∧
      into T dst (S ++ B) d + fin T d = 0 := by
  rw [fresh, List.mem_filter, List.mem_range, Bool.and_eq_true, decide_eq_true_iff, decide_eq_true_iff]

/-- The target of a thread. -/
def target (dst : Nat → Nat) (items : List (Nat × Nat × Nat)) (i : Nat) : Option Nat :=
  (items[i]?).bind (fun x => if dst x.2.2 = x.2.1 then none else some (dst x.2.2))

theorem range_map_get (l : List X) : (List.range l.length).map (fun i => l[i]?) = l.map some := by
  apply List.ext_getElem
  · simp
  · intro i h1 h2
    simp at h1
    simp [List.getElem?_eq_getElem h1]

theorem hits_eq (T : List (List (List X))) (dst : Nat → Nat) (B : List Nat)
    (h : ∀ v ∈ B, v < T.flatten.length) (hnd : B.Nodup) (d : Nat) :
    hits (target dst (itemsOf T B)) (List.range (itemsOf T B).length) d =
      (List.range T.flatten.flatten.length).countP
        (fun j => decide (dst j = d ∧ srcOf T j ≠ d ∧ srcOf T j ∈ B)) := by
  set q : Option (Nat × Nat × Nat) → Bool := fun o =>
    decide ((o.bind (fun x => if dst x.2.2 = x.2.1 then none else some (dst x.2.2))) = some d) with hq
  have h1 : hits (target dst (itemsOf T B)) (List.range (itemsOf T B).length) d =
      ((List.range (itemsOf T B).length).map (fun i => (itemsOf T B)[i]?)).countP q := by
    rw [List.countP_map]; rfl
  rw [h1, range_map_get, List.countP_map]
  have h2 : (itemsOf T B).countP (q ∘ some) =
      (itemsOf T B).countP ((fun j => decide (dst j = d ∧ srcOf T j ≠ d)) ∘ fun x => x.2.2) := by
    apply List.countP_congr
    intro x hx
    have h3 := ((itemsOf_mem T B h x).mp hx).2.2.2
    simp only [Function.comp_apply, hq, Option.bind_some, h3, decide_eq_true_iff]
    by_cases he : dst x.2.2 = x.2.1
    · rw [if_pos he, he]; simp
    · rw [if_neg he]
      simp only [Option.some.injEq]
      constructor
      · intro h4; exact ⟨h4, fun h5 => he (by rw [h4, h5])⟩
      · exact fun h4 => h4.1
  rw [h2, ← List.countP_map, (itemsOf_arcs T B h hnd).countP_eq, List.countP_filter]
  apply List.countP_congr
  intro j _
  simp [and_assoc]

theorem decStep_eq (T : List (List (List X))) (dest : List Nat) (dst : Nat → Nat) (hd : DestOk T dest dst)
    (B : List Nat) (h : ∀ v ∈ B, v < T.flatten.length) (i : Nat) (hi : i < (itemsOf T B).length)
    (st : List Nat × List Bool) :
    decStep dest (itemsOf T B) st i = decTo (target dst (itemsOf T B) i) st i := by
  have hx := List.getElem?_eq_getElem hi
  have hm := (itemsOf_mem T B h _).mp (List.getElem_mem hi)
  unfold decStep target
  simp only [hx, Option.bind_eq_bind, Option.bind_some, hd.get _ hm.2.2.1]
  by_cases he : dst (itemsOf T B)[i].2.2 = (itemsOf T B)[i].2.1
  · rw [if_pos he, if_pos he]; rfl
  · rw [if_neg he, if_neg he, decTo]
    cases st.1[dst (itemsOf T B)[i].2.2]? with
    | none => rfl
    | some n => rfl

theorem nextBatch_eq (T : List (List (List (Arc W)))) (dest : List Nat) (dst : Nat → Nat)
    (hd : DestOk T dest dst) (sched : Nat → List Nat) (hs : ∀ n, (sched n).Perm (List.range n))
    (S B : List Nat) (hB : Asc T B) (hdis : ∀ v ∈ B, v ∉ S) :
    nextBatch (flat T) dest sched (degs T dst S) (batchOf (keyOf T) T.length B) =
      some (degs T dst (S ++ B),
        if fresh T dst S B = [] then none
        else some (batchOf (keyOf T) T.length (fresh T dst S B))) := by
  set items := itemsOf T B with hitems
  set tg := target dst items with htg
  have hitem : ∀ i (hi : i < items.length), items[i].1 = keyOf T items[i].2.1 ∧ items[i].2.1 ∈ B ∧
      items[i].2.2 < T.flatten.flatten.length ∧ srcOf T items[i].2.2 = items[i].2.1 := fun i hi =>
    (itemsOf_mem T B hB.mem _).mp (List.getElem_mem hi)
  have htgs : ∀ i d, tg i = some d → ∃ hi : i < items.length, dst items[i].2.2 = d ∧
      dst items[i].2.2 ≠ items[i].2.1 := by
    intro i d h
    rw [htg, target] at h
    obtain ⟨x, hx, h⟩ := Option.bind_eq_some_iff.mp h
    obtain ⟨hi, rfl⟩ := List.getElem?_eq_some_iff.mp hx
    split at h
    · simp at h
    · next hne => exact ⟨hi, Option.some.inj h, hne⟩
  have hhits : ∀ d, into T dst S d = into T dst (S ++ B) d + hits tg (List.range items.length) d := by
    intro d
    rw [into_append T dst S B d hdis, htg, hitems, hits_eq T dst B hB.mem hB.nodup d]
  obtain ⟨deg', keep', e, l1, l2, p1, p3, p4, p5⟩ := decLoop_perm dest items tg (sched items.length)
    (hs _) (fun i hi st => decStep_eq T dest dst hd B hB.mem i hi st) (degs T dst S)
    (by
      intro i hi d h
      obtain ⟨_, h1, _⟩ := htgs i d h
      rw [degs_length, ← h1]
      exact hd.lt _ (hitem i hi).2.2.1)
    (by
      intro d n hn
      have hlt := (List.getElem?_eq_some_iff.mp hn).1
      rw [degs_length] at hlt
      rw [degs_get T dst S d hlt] at hn
      have := Option.some.inj hn
      have := hhits d
      omega)
  have hdeg' : deg' = degs T dst (S ++ B) := by
    apply degs_of_get
    · rw [l1, degs_length]
    · intro d hlt
      rw [p1 d _ (degs_get T dst S d hlt)]
      have := hhits d
      congr 1; omega
  -- the kept threads
  set K := sel keep' (List.range keep'.length) with hK
  have hKm : ∀ i, i ∈ K ↔ keep'[i]? = some true := fun i => sel_range_mem keep' i
  have hKlt : ∀ i ∈ K, i < items.length := by
    intro i hi
    have := (List.getElem?_eq_some_iff.mp ((hKm i).mp hi)).1
    omega
  have hKasc : K.Pairwise (· < ·) := List.pairwise_lt_range.sublist (sel_sublist _ _)
  set jOf : Nat → Nat := fun i => (items.getD i (0, 0, 0)).2.2 with hjOf
  have hjOf' : ∀ i (hi : i < items.length), jOf i = items[i].2.2 := by
    intro i hi
    rw [hjOf]
    simp only [List.getD_eq_getElem?_getD, List.getElem?_eq_getElem hi, Option.getD_some]
  set vals := K.map (fun i => dst (jOf i)) with hvals
  have hvmem : ∀ d, d ∈ vals ↔ d ∈ fresh T dst S B := by
    intro d
    rw [hvals, List.mem_map, fresh_mem]
    constructor
    · rintro ⟨i, hi, rfl⟩
      have hlt := hKlt i hi
      obtain ⟨d, h1, h2⟩ := p3 i ((hKm i).mp hi)
      obtain ⟨_, h3, _⟩ := htgs i d h1
      rw [hjOf' i hlt, h3]
      have hdl : d < T.flatten.length := by rw [← h3]; exact hd.lt _ (hitem i hlt).2.2.1
      rw [degs_get T dst S d hdl] at h2
      have h2 := Option.some.inj h2
      have := hhits d
      have := hits_pos tg (List.range items.length) i d (List.mem_range.mpr hlt) h1
      omega
    · rintro ⟨h1, h2, h3⟩
      have := hhits d
      obtain ⟨i, h4, h5⟩ := p5 d (by rw [degs_get T dst S d h1]; congr 1; omega) (by omega)
      obtain ⟨hi, h6, _⟩ := htgs i d h5
      exact ⟨i, (hKm i).mpr h4, by rw [hjOf' i hi]; exact h6⟩
  have hvnd : vals.Nodup := by
    rw [hvals]
    apply (List.nodup_map_iff_inj_on (hKasc.imp (fun h => Nat.ne_of_lt h))).mpr
    intro i hi j hj he
    have hi' := hKlt i hi; have hj' := hKlt j hj
    obtain ⟨d, h1, _⟩ := p3 i ((hKm i).mp hi)
    obtain ⟨d', h2, _⟩ := p3 j ((hKm j).mp hj)
    obtain ⟨_, h3, _⟩ := htgs i d h1
    obtain ⟨_, h4, _⟩ := htgs j d' h2
    rw [hjOf' i hi', hjOf' j hj', h3, h4] at he
    exact p4 i j ((hKm i).mp hi) ((hKm j).mp hj) (by rw [h1, h2, he])
  have hasc := asc_filter T (fun d => decide (into T dst S d + fin T d ≠ 0) &&
    decide (into T dst (S ++ B) d + fin T d = 0))
  have hperm : vals.Perm (fresh T dst S B) :=
    (List.perm_ext_iff_of_nodup hvnd hasc.nodup).mpr hvmem
  have hvkey : ∀ i ∈ K, keyOf T (dst (jOf i)) = (items.getD i (0, 0, 0)).1 := by
    intro i hi
    have hlt := hKlt i hi
    obtain ⟨h1, h2, h3, h4⟩ := hitem i hlt
    rw [hjOf' i hlt, hd.key _ h3, h4, List.getD_eq_getElem?_getD, List.getElem?_eq_getElem hlt,
      Option.getD_some, h1]
  have hvsort : vals.Pairwise (fun a b => keyOf T a ≤ keyOf T b) := by
    rw [hvals, List.pairwise_map]
    apply hKasc.imp_of_mem
    intro i j hi hj hij
    rw [hvkey i hi, hvkey j hj]
    have := List.pairwise_iff_getElem.mp (itemsOf_keys T B hB.keys) i j (hKlt i hi) (hKlt j hj) hij
    rw [List.getD_eq_getElem?_getD, List.getD_eq_getElem?_getD, List.getElem?_eq_getElem (hKlt i hi),
      List.getElem?_eq_getElem (hKlt j hj)]
    exact this
  have f1 : leavingArcs (flat T).sp2 (batchOf (keyOf T) T.length B) = some items :=
    leavingArcs_eq T B hB.mem _
  have f2 : new2old keep' = some K := new2old_spec keep'
  have hempty : K = [] ↔ fresh T dst S B = [] := by
    rw [← List.length_eq_zero_iff, ← List.length_eq_zero_iff, ← hperm.length_eq, hvals, List.length_map]
  unfold nextBatch
  simp only [f1, e, f2, Option.bind_eq_bind, Option.bind_some]
  by_cases hz : K = []
  · rw [if_pos hz, if_pos (hempty.mp hz), hdeg']
  · rw [if_neg hz, if_neg (fun h => hz (hempty.mpr h))]
    have hnf : (flat T).sp1.length - 1 = T.length := by rw [flat_sp1_length]; rfl
    have g1 : K.mapM (fun i => (items[i]?).bind fun x => dest[x.2.2]?) = some vals := by
      apply mapM_some_of
      · rw [hvals, List.length_map]
      · intro k i hk
        have hi : i < items.length := hKlt i (List.mem_of_getElem? hk)
        simp only [List.getElem?_eq_getElem hi, Option.bind_some, hd.get _ (hitem i hi).2.2.1]
        rw [hvals, List.getElem?_map, hk, Option.map_some, hjOf' i hi]
    have g2 : K.mapM (fun i => (items[i]?).bind fun x => some x.1) = some (vals.map (keyOf T)) := by
      apply mapM_some_of
      · rw [hvals, List.length_map, List.length_map]
      · intro k i hk
        have hi : i < items.length := hKlt i (List.mem_of_getElem? hk)
        have := hvkey i (List.mem_of_getElem? hk)
        rw [List.getD_eq_getElem?_getD, List.getElem?_eq_getElem hi, Option.getD_some] at this
        simp only [List.getElem?_eq_getElem hi, Option.bind_some]
        rw [hvals, List.getElem?_map, List.getElem?_map, hk, Option.map_some, Option.map_some, this]
    have g3 := sortedBatch_eq (keyOf T) T.length vals (fresh T dst S B) hasc.keys hvsort hperm hasc.lt
      hasc.key_lt
    have g4 : newBatch ((flat T).sp1.length - 1) dest items K =
        some (batchOf (keyOf T) T.length (fresh T dst S B)) := by
      unfold newBatch
      simp only [Option.bind_eq_bind, g1, g2, Option.bind_some, hnf]
      exact g3
    rw [g4, Option.bind_some, hdeg']

end Verif.Fsa.Top
