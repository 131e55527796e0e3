import Verif.Ragged.AxisModel
import Verif.Ragged.Depth

/-!
# C07: `RemoveAxis` flattens one level; `Unsqueeze` adds a trivial one

Specification on nested lists: removing an axis that is not the last one concatenates the lists
at that level; removing the last one forgets the innermost elements; unsqueezing axis 0 makes a
list with one entry and unsqueezing a later axis puts each sub-array into a list of its own.
`Nest.join_cut` (Depth.lean) says that every nested list has the cut form used in the statements.
-/

namespace Verif.Ragged
open Verif.Util
variable {α : Type}

/-! ## Lemmas on gathering -/

theorem gather_append (l a b : List Nat) (x y : List Nat) (ha : gather l a = some x)
    (hb : gather l b = some y) : gather l (a ++ b) = some (x ++ y) := by
  unfold gather at *
  rw [List.mapM_append, ha, hb]; rfl

theorem gather_splits {X : Type} (T : List (List (List X))) :
    gather (psum (T.flatten.map List.length)) (psum (T.map List.length)) =
      some (psum (T.map (fun l => l.flatten.length))) := by
  apply mapM_some_of
  · simp
  intro k p hp
  have hk : k ≤ T.length := by
    have := (List.getElem?_eq_some_iff.mp hp).1
    simp at this; omega
  rw [psum_get _ _ (by simpa using hk)] at hp
  obtain rfl := Option.some.inj hp
  rw [psum_get (T.map (fun l => l.flatten.length)) k (by simpa using hk)]
  have h1 : ((T.map List.length).take k).sum = ((T.take k).flatten).length := by
    rw [List.length_flatten, List.map_take]
  have h2 : (T.flatten).take ((T.take k).flatten).length = (T.take k).flatten := by
    conv_lhs => rw [← List.take_append_drop k T, List.flatten_append, List.take_append_drop]
    exact List.take_left
  rw [h1, psum_get, ← List.map_take, h2]
  · congr 1
    rw [← List.map_take]
    generalize T.take k = U
    induction U with
    | nil => rfl
    | cons u U ih => rw [List.flatten_cons, List.map_append, List.sum_append, ih, List.map_cons,
        List.sum_cons, List.length_flatten]
  · rw [List.length_map, ← h2, List.length_take]; exact Nat.min_le_right _ _

theorem gather_const (l : List Nat) (r : Nat) (idx : List Nat) (h : ∀ i ∈ idx, l[i]? = some r) :
    gather l idx = some (List.replicate idx.length r) := by
  apply mapM_some_of
  · simp
  intro k p hp
  have hk := (List.getElem?_eq_some_iff.mp hp).1
  rw [h p (List.mem_of_getElem? hp), List.getElem?_replicate, if_pos hk]

theorem idsFrom_append (r : Nat) (a b : List Nat) :
    idsFrom r (a ++ b) = idsFrom r a ++ idsFrom (r + a.length) b := by
  induction a generalizing r with
  | nil => simp [idsFrom]
  | cons x a ih =>
    rw [List.cons_append, idsFrom, idsFrom, ih, List.append_assoc, List.length_cons]
    congr 3; omega

theorem gather_ids {X : Type} (T : List (List (List X))) (pre : List Nat) (r : Nat) :
    gather (pre ++ idsFrom r (T.map List.length)) (idsFrom pre.length (T.flatten.map List.length)) =
      some (idsFrom r (T.map (fun l => l.flatten.length))) := by
  induction T generalizing pre r with
  | nil => rfl
  | cons l T ih =>
    rw [List.flatten_cons, List.map_append, idsFrom_append, List.map_cons, List.map_cons, idsFrom,
      idsFrom]
    apply gather_append
    · have h := gather_const
        (pre ++ (List.replicate l.length r ++ idsFrom (r + 1) (T.map List.length))) r
        (idsFrom pre.length (l.map List.length)) (by
          intro i hi
          have := idsFrom_mem _ _ i hi
          rw [List.length_map] at this
          rw [List.getElem?_append_right this.1, List.getElem?_append_left
            (by rw [List.length_replicate]; omega), List.getElem?_replicate, if_pos (by omega)])
      rwa [idsFrom_length, ← List.length_flatten] at h
    · have h := ih (pre ++ List.replicate l.length r) (r + 1)
      rw [List.length_append, List.length_replicate, List.append_assoc] at h
      rw [List.length_map]
      exact h

/-! ## RemoveAxis -/

/-- Removing an axis that is neither the first nor the last flattens the lists at that level. -/
theorem removeAxis_middle (m a : Nat) (T : List (Nest (List (List (Nest α m))) a)) :
    removeAxis (fullLayers (m + 2 + a) (T.map (Nest.join (α := α) (m + 2) a))) (a + 1) =
      some (fullLayers (m + 1 + a)
        ((T.map (Nest.map (β := List (Nest α m)) List.flatten a)).map
          (Nest.join (α := α) (m + 1) a))) := by
  have e1 : fullLayers (m + 2 + a) (T.map (Nest.join (α := α) (m + 2) a)) = _ :=
    fullLayers_join (α := α) (m + 2) a T
  have e2 : fullLayers (m + 1 + a) ((T.map (Nest.map (β := List (Nest α m)) List.flatten a)).map
      (Nest.join (α := α) (m + 1) a)) = _ :=
    fullLayers_join (α := α) (m + 1) a (T.map (Nest.map (β := List (Nest α m)) List.flatten a))
  have e3 : fullLayers a (T.map (Nest.map (β := List (Nest α m)) List.flatten a)) = _ :=
    fullLayers_map (List.flatten) a T
  have e4 : valuesOf a (T.map (Nest.map (β := List (Nest α m)) List.flatten a)) = _ :=
    valuesOf_map (List.flatten) a T
  have key : ∀ V : List (List (List (Nest α m))),
      removeAxis (fullLayers a T ++ fullLayers (m + 2) (V : List (Nest α (m + 2)))) (a + 1) =
        some (fullLayers a T ++ fullLayers (m + 1) (V.map List.flatten : List (List (Nest α m)))) := by
    intro V
    have f1 : fullLayers (m + 2) (V : List (Nest α (m + 2))) = _ :=
      fullLayers_succ (m + 1) (α := α) V
    have f2 : fullLayers (m + 1) (V.flatten : List (List (Nest α m))) = _ :=
      fullLayers_succ m V.flatten
    have f3 : fullLayers (m + 1) (V.map List.flatten : List (List (Nest α m))) = _ :=
      fullLayers_succ m (V.map List.flatten)
    have f4 : V.flatten.flatten = (V.map List.flatten).flatten := List.flatten_flatten
    have f5 : (V.map List.flatten).map List.length = V.map (fun l => l.flatten.length) := by
      rw [List.map_map]; rfl
    have f6 : fullLayers (m + 2) (V : List (Nest α (m + 2))) =
        (psum (V.map List.length), idsFrom 0 (V.map List.length)) ::
        (psum (V.flatten.map List.length), idsFrom 0 (V.flatten.map List.length)) ::
        fullLayers m V.flatten.flatten := f1.trans (congrArg _ f2)
    rw [f6, f3, f5, ← f4]
    unfold removeAxis
    have hl : ∀ x y z, (fullLayers a T ++ x :: y :: z : List (List Nat × List Nat)).length =
        a + 2 + z.length := by intros; simp; omega
    rw [if_neg (by rw [hl]; omega), if_neg (by omega), if_pos (by rw [hl]; omega)]
    have g1 : ∀ x y z, (fullLayers a T ++ x :: y :: z : List (List Nat × List Nat))[a + 1 - 1]? =
        some x := by
      intro x y z
      rw [Nat.add_sub_cancel, List.getElem?_append_right (by simp)]; simp
    have g2 : ∀ x y z, (fullLayers a T ++ x :: y :: z : List (List Nat × List Nat))[a + 1]? =
        some y := by
      intro x y z
      rw [List.getElem?_append_right (by simp)]; simp
    have g3 : ∀ x y z, (fullLayers a T ++ x :: y :: z : List (List Nat × List Nat)).take (a + 1 - 1)
        = fullLayers a T := by
      intro x y z
      rw [Nat.add_sub_cancel, List.take_append_of_le_length (by simp), List.take_of_length_le (by simp)]
    have g4 : ∀ x y z, (fullLayers a T ++ x :: y :: z : List (List Nat × List Nat)).drop (a + 1 + 1)
        = z := by
      intro x y z
      rw [List.drop_append, List.drop_of_length_le (by simp; omega), fullLayers_length,
        show a + 1 + 1 - a = 2 by omega]
      rfl
    have g5 := gather_ids V [] 0
    rw [List.nil_append, List.length_nil] at g5
    rw [g1, g2, g3, g4]
    simp only [gather_splits, g5, Option.bind_eq_bind, Option.bind_some]
  rw [e1, e2, e3, e4]
  exact key (valuesOf a T)

/-- Removing axis 0 concatenates the rows. -/
theorem removeAxis_zero (n : Nat) (T : List (List (List (Nest α n)))) :
    removeAxis (fullLayers (n + 2) (T : List (Nest α (n + 2)))) 0 =
      some (fullLayers (n + 1) (T.flatten : List (List (Nest α n)))) := by
  have f1 : fullLayers (n + 2) (T : List (Nest α (n + 2))) = _ := fullLayers_succ (n + 1) (α := α) T
  unfold removeAxis
  rw [fullLayers_length, if_neg (by omega), if_pos rfl, f1]
  rfl

/-- Removing the last axis forgets the innermost elements. -/
theorem removeAxis_last (a : Nat) (T : List (Nest (List α) (a + 1))) :
    removeAxis (fullLayers (1 + (a + 1)) (T.map (Nest.join (α := α) 1 (a + 1)))) (a + 2) =
      some (fullLayers (a + 1) T) := by
  have e1 : fullLayers (1 + (a + 1)) (T.map (Nest.join (α := α) 1 (a + 1))) = _ :=
    fullLayers_join (α := α) 1 (a + 1) T
  unfold removeAxis
  rw [e1]
  have hl : (fullLayers (a + 1) T ++ fullLayers 1 (valuesOf (a + 1) T : List (Nest α 1))).length =
    a + 2 := by simp
  rw [if_neg (by rw [hl]; omega), if_neg (by omega), if_neg (by rw [hl]; omega),
    List.take_append_of_le_length (by simp), List.take_of_length_le (by simp)]

/-- Flattening a level keeps the values in order (`Ragged::RemoveAxis` keeps the values array). -/
theorem removeAxis_values (m a : Nat) (T : List (Nest (List (List (Nest α m))) a)) :
    valuesOf (m + 1 + a) ((T.map (Nest.map (β := List (Nest α m)) List.flatten a)).map
      (Nest.join (α := α) (m + 1) a)) =
      valuesOf (m + 2 + a) (T.map (Nest.join (α := α) (m + 2) a)) := by
  have e1 : valuesOf (m + 2 + a) (T.map (Nest.join (α := α) (m + 2) a)) = _ :=
    valuesOf_join (α := α) (m + 2) a T
  have e2 : valuesOf (m + 1 + a) ((T.map (Nest.map (β := List (Nest α m)) List.flatten a)).map
      (Nest.join (α := α) (m + 1) a)) = _ :=
    valuesOf_join (α := α) (m + 1) a (T.map (Nest.map (β := List (Nest α m)) List.flatten a))
  have e4 : valuesOf a (T.map (Nest.map (β := List (Nest α m)) List.flatten a)) = _ :=
    valuesOf_map (List.flatten) a T
  rw [e1, e2, e4]
  have key : ∀ V : List (List (List (Nest α m))),
      valuesOf (m + 1) (V.map List.flatten : List (List (Nest α m))) =
        valuesOf (m + 2) (V : List (Nest α (m + 2))) := by
    intro V
    have : valuesOf (m + 1) (V.map List.flatten : List (List (Nest α m))) =
      valuesOf m (V.map List.flatten).flatten := rfl
    rw [this, ← List.flatten_flatten]
    rfl
  exact key _

/-! ## Unsqueeze -/

theorem fullLayers_last (b : Nat) (T : List (Nest α (b + 1))) :
    ∃ pre ns, pre.length = b ∧ fullLayers (b + 1) T = pre ++ [(psum ns, idsFrom 0 ns)] ∧
      ns.sum = (valuesOf (b + 1) T).length := by
  induction b with
  | zero =>
    have key : ∀ T : List (List (Nest α 0)), ∃ pre ns, pre.length = 0 ∧
        fullLayers 1 (T : List (Nest α 1)) = pre ++ [(psum ns, idsFrom 0 ns)] ∧
        ns.sum = (valuesOf 1 (T : List (Nest α 1))).length := by
      intro T
      refine ⟨[], T.map List.length, rfl, fullLayers_succ 0 T, ?_⟩
      have : valuesOf 1 (T : List (Nest α 1)) = T.flatten := rfl
      rw [this, List.length_flatten]
    exact key T
  | succ b ih =>
    have key : ∀ T : List (List (Nest α (b + 1))), ∃ pre ns, pre.length = b + 1 ∧
        fullLayers (b + 2) (T : List (Nest α (b + 2))) = pre ++ [(psum ns, idsFrom 0 ns)] ∧
        ns.sum = (valuesOf (b + 1) T.flatten).length := by
      intro T
      obtain ⟨pre, ns, h1, h2, h3⟩ := ih T.flatten
      refine ⟨(psum (T.map List.length), idsFrom 0 (T.map List.length)) :: pre, ns, by simp [h1], ?_,
        h3⟩
      have : fullLayers (b + 2) (T : List (Nest α (b + 2))) = _ := fullLayers_succ (b + 1) T
      rw [this, h2]; rfl
    exact key T

theorem psum_ones (a t : Nat) : psumFrom a (List.replicate t 1) = List.range' a (t + 1) := by
  induction t generalizing a with
  | zero => rfl
  | succ t ih => rw [List.replicate_succ, psumFrom, ih]; rfl

theorem idsFrom_ones (r t : Nat) : idsFrom r (List.replicate t 1) = List.range' r t := by
  induction t generalizing r with
  | zero => rfl
  | succ t ih => rw [List.replicate_succ, idsFrom, ih, List.range'_succ]; rfl

theorem mod_mem (t : Nat) :
    ((List.range (t + 1 + t)).map (fun i => i % (t + 1))).take (t + 1) = List.range' 0 (t + 1) ∧
    ((List.range (t + 1 + t)).map (fun i => i % (t + 1))).drop (t + 1) = List.range' 0 t := by
  rw [← List.range_eq_range', ← List.range_eq_range', List.range_add, List.map_append]
  constructor
  · rw [List.take_append_of_le_length (by simp), List.take_of_length_le (by simp)]
    conv_rhs => rw [← List.map_id (List.range (t + 1))]
    exact List.map_congr_left (fun i hi => Nat.mod_eq_of_lt (by simpa using hi))
  · rw [List.drop_append_of_le_length (by simp), List.drop_of_length_le (by simp), List.nil_append,
      List.map_map]
    conv_rhs => rw [← List.map_id (List.range t)]
    refine List.map_congr_left (fun i hi => ?_)
    have : i < t := by simpa using hi
    show (t + 1 + i) % (t + 1) = i
    rw [Nat.add_mod_left, Nat.mod_eq_of_lt (by omega)]

/-- Unsqueezing axis 0 makes the array the only row of a new one. -/
theorem unsqueeze_zero (n : Nat) (T : List (List (Nest α n))) :
    unsqueeze (fullLayers (n + 1) (T : List (Nest α (n + 1)))) 0 =
      some (fullLayers (n + 2) ([T] : List (List (List (Nest α n))))) := by
  have f1 : fullLayers (n + 2) ([T] : List (List (List (Nest α n)))) = _ :=
    fullLayers_succ (n + 1) (α := α) [T]
  have f2 : fullLayers (n + 1) (T : List (Nest α (n + 1))) = _ := fullLayers_succ n T
  have f3 : totSize (fullLayers (n + 1) (T : List (Nest α (n + 1)))) 0 = some T.length := by
    rw [f2]; simp [totSize]
  have f4 : ([T] : List (List (List (Nest α n)))).flatten = T := by simp
  unfold unsqueeze
  rw [if_neg (by omega), if_pos rfl, f3, f1]
  simp only [Option.bind_eq_bind, Option.bind_some]
  have f5 : (List.range (2 + T.length)).map (fun i => if i = 1 then T.length else 0) =
      [0, T.length] ++ List.replicate T.length 0 := by
    rw [List.range_add, List.map_append, List.map_map]
    congr 1
    rw [List.eq_replicate_iff]
    refine ⟨by simp, fun b hb => ?_⟩
    obtain ⟨i, _, rfl⟩ := List.mem_map.mp hb
    show (if 2 + i = 1 then T.length else 0) = 0
    rw [if_neg (by omega)]
  rw [f5]
  have f6 : psum (List.map List.length [T]) = [0, T.length] := by simp [psum, psumFrom]
  have f7 : idsFrom 0 (List.map List.length [T]) = List.replicate T.length 0 := by simp [idsFrom]
  rw [f4]
  congr 2
  exact Prod.ext f6.symm f7.symm

/-- Unsqueezing a later axis puts each element of that axis into a list of its own. -/
theorem unsqueeze_pos (m a : Nat) (T : List (Nest (Nest α m) (a + 1))) :
    unsqueeze (fullLayers (m + (a + 1)) (T.map (Nest.join m (a + 1)))) (a + 1) =
      some (fullLayers (m + 1 + (a + 1))
        ((T.map (Nest.map (β := List (Nest α m)) (fun x => [x]) (a + 1))).map
          (Nest.join (α := α) (m + 1) (a + 1)))) := by
  have e2 : fullLayers (m + 1 + (a + 1))
      ((T.map (Nest.map (β := List (Nest α m)) (fun x => [x]) (a + 1))).map
        (Nest.join (α := α) (m + 1) (a + 1))) = _ :=
    fullLayers_join (α := α) (m + 1) (a + 1) (T.map (Nest.map (β := List (Nest α m)) (fun x => [x]) (a + 1)))
  have e3 : fullLayers (a + 1) (T.map (Nest.map (β := List (Nest α m)) (fun x => [x]) (a + 1))) = _ :=
    fullLayers_map (fun x => [x]) (a + 1) T
  have e4 : valuesOf (a + 1) (T.map (Nest.map (β := List (Nest α m)) (fun x => [x]) (a + 1))) = _ :=
    valuesOf_map (fun x => [x]) (a + 1) T
  rw [fullLayers_join, e2, e3, e4]
  obtain ⟨pre, ns, h1, h2, h3⟩ := fullLayers_last a T
  have key : ∀ V : List (Nest α m), V.length = ns.sum →
      unsqueeze (fullLayers (a + 1) T ++ fullLayers m V) (a + 1) =
        some (fullLayers (a + 1) T ++
          fullLayers (m + 1) (V.map (fun x => [x]) : List (List (Nest α m)))) := by
    intro V hV
    have f1 : fullLayers (m + 1) (V.map (fun x => [x]) : List (List (Nest α m))) = _ :=
      fullLayers_succ m (V.map (fun x => [x]))
    have f2 : (V.map (fun x => [x])).map List.length = List.replicate ns.sum 1 := by
      rw [List.map_map, List.eq_replicate_iff]
      refine ⟨by simp [hV], fun b hb => ?_⟩
      obtain ⟨x, _, rfl⟩ := List.mem_map.mp hb
      rfl
    have f3 : (V.map (fun x => [x])).flatten = V := by
      rw [← List.flatMap_def]
      simp
    have f4 : totSize (fullLayers (a + 1) T ++ fullLayers m V) (a + 1) = some ns.sum := by
      unfold totSize
      rw [if_neg (by omega), Nat.add_sub_cancel, List.getElem?_append_left (by simp), h2,
        List.getElem?_append_right (by omega), h1, Nat.sub_self]
      exact congrArg some (psum_getLastD ns)
    unfold unsqueeze
    rw [if_neg (by simp; omega), if_neg (by omega), f4, f1, f2, f3]
    simp only [Option.bind_eq_bind, Option.bind_some, mod_mem, psum, psum_ones, idsFrom_ones]
    rw [List.take_append_of_le_length (by simp), List.take_of_length_le (by simp),
      List.drop_append_of_le_length (by simp), List.drop_of_length_le (by simp), List.nil_append]
  exact key _ h3.symm

/-- Unsqueezing any axis and removing the new axis gives the shape back. -/
theorem unsqueeze_removeAxis (n : Nat) (T : List (Nest α (n + 1))) (axis : Nat) (h : axis ≤ n + 1) :
    ∃ L, unsqueeze (fullLayers (n + 1) T) axis = some L ∧ L.length = n + 2 ∧
      removeAxis L axis = some (fullLayers (n + 1) T) := by
  cases axis with
  | zero =>
    refine ⟨_, unsqueeze_zero n T, fullLayers_length _ _, ?_⟩
    have := removeAxis_zero n (α := α) [T]
    rw [List.flatten_singleton] at this
    exact this
  | succ a =>
    obtain ⟨m, hm⟩ : ∃ m, n + 1 = m + (a + 1) := ⟨n - a, by omega⟩
    have key : ∀ N, N = m + (a + 1) → ∀ U : List (Nest α N),
        ∃ L, unsqueeze (fullLayers N U) (a + 1) = some L ∧ L.length = N + 1 ∧
          removeAxis L (a + 1) = some (fullLayers N U) := by
      intro N hN U
      subst hN
      obtain ⟨T', hT'⟩ : ∃ T' : List (Nest (Nest α m) (a + 1)), U = T'.map (Nest.join m (a + 1)) :=
        ⟨U.map (Nest.cut m (a + 1)), by
          rw [List.map_map]
          conv_lhs => rw [← List.map_id U]
          exact List.map_congr_left (fun x _ => (Nest.join_cut m (a + 1) x).symm)⟩
      refine ⟨_, by rw [hT']; exact unsqueeze_pos m a T', by simp; omega, ?_⟩
      rw [hT', fullLayers_join m (a + 1) T']
      have e2 : fullLayers (m + 1 + (a + 1))
          ((T'.map (Nest.map (β := List (Nest α m)) (fun x => [x]) (a + 1))).map
            (Nest.join (α := α) (m + 1) (a + 1))) = _ :=
        fullLayers_join (α := α) (m + 1) (a + 1)
          (T'.map (Nest.map (β := List (Nest α m)) (fun x => [x]) (a + 1)))
      have e3 : fullLayers (a + 1)
          (T'.map (Nest.map (β := List (Nest α m)) (fun x => [x]) (a + 1))) = _ :=
        fullLayers_map (fun x => [x]) (a + 1) T'
      have e4 : valuesOf (a + 1)
          (T'.map (Nest.map (β := List (Nest α m)) (fun x => [x]) (a + 1))) = _ :=
        valuesOf_map (fun x => [x]) (a + 1) T'
      rw [e2, e3, e4]
      obtain ⟨pre, ns, h1, h2, h3⟩ := fullLayers_last a T'
      have key : ∀ V : List (Nest α m), V.length = ns.sum →
          removeAxis (fullLayers (a + 1) T' ++
            fullLayers (m + 1) (V.map (fun x => [x]) : List (List (Nest α m)))) (a + 1) =
          some (fullLayers (a + 1) T' ++ fullLayers m V) := by
        intro V hV
        have f1 : fullLayers (m + 1) (V.map (fun x => [x]) : List (List (Nest α m))) = _ :=
          fullLayers_succ m (V.map (fun x => [x]))
        have f2 : (V.map (fun x => [x])).map List.length = List.replicate ns.sum 1 := by
          rw [List.map_map, List.eq_replicate_iff]
          refine ⟨by simp [hV], fun b hb => ?_⟩
          obtain ⟨x, _, rfl⟩ := List.mem_map.mp hb
          rfl
        have f3 : (V.map (fun x => [x])).flatten = V := by
          rw [← List.flatMap_def]
          simp
        rw [f1, f2, f3, h2]
        have hl : (pre ++ [(psum ns, idsFrom 0 ns)] ++ (psum (List.replicate ns.sum 1),
            idsFrom 0 (List.replicate ns.sum 1)) :: fullLayers m V).length = a + 2 + m := by
          simp [h1]; omega
        unfold removeAxis
        rw [if_neg (by rw [hl]; omega), if_neg (by omega), if_pos (by rw [hl]; omega)]
        have g1 : (pre ++ [(psum ns, idsFrom 0 ns)] ++ (psum (List.replicate ns.sum 1),
            idsFrom 0 (List.replicate ns.sum 1)) :: fullLayers m V)[a + 1 - 1]? =
            some (psum ns, idsFrom 0 ns) := by
          rw [Nat.add_sub_cancel, List.getElem?_append_left (by simp [h1]),
            List.getElem?_append_right (by omega)]
          simp [h1]
        have g2 : (pre ++ [(psum ns, idsFrom 0 ns)] ++ (psum (List.replicate ns.sum 1),
            idsFrom 0 (List.replicate ns.sum 1)) :: fullLayers m V)[a + 1]? =
            some (psum (List.replicate ns.sum 1), idsFrom 0 (List.replicate ns.sum 1)) := by
          rw [List.getElem?_append_right (by simp [h1])]
          simp [h1]
        have g3 : (pre ++ [(psum ns, idsFrom 0 ns)] ++ (psum (List.replicate ns.sum 1),
            idsFrom 0 (List.replicate ns.sum 1)) :: fullLayers m V).take (a + 1 - 1) = pre := by
          rw [Nat.add_sub_cancel, List.append_assoc, List.take_append_of_le_length (by omega),
            List.take_of_length_le (by omega)]
        have g4 : (pre ++ [(psum ns, idsFrom 0 ns)] ++ (psum (List.replicate ns.sum 1),
            idsFrom 0 (List.replicate ns.sum 1)) :: fullLayers m V).drop (a + 1 + 1) =
            fullLayers m V := by
          rw [List.drop_append, List.drop_of_length_le (by simp [h1])]
          simp [h1]
        have g5 : gather (idsFrom 0 ns) (idsFrom 0 (List.replicate ns.sum 1)) =
            some (idsFrom 0 ns) := by
          rw [idsFrom_ones, ← List.range_eq_range']
          apply mapM_some_of
          · simp
          intro i b hb
          have hi : i < ns.sum := by simpa using (List.getElem?_eq_some_iff.mp hb).1
          rw [List.getElem?_range hi] at hb
          rw [Option.some.inj hb]
        have g6 : gather (psum (List.replicate ns.sum 1)) (psum ns) = some (psum ns) := by
          rw [psum, psum_ones, ← List.range_eq_range']
          apply mapM_some_of
          · rfl
          intro i b hb
          have hi : i ≤ ns.length := by
            have := (List.getElem?_eq_some_iff.mp hb).1; rw [psum_length] at this; omega
          rw [hb]
          rw [psum_get _ _ hi] at hb
          have : b ≤ ns.sum := by
            rw [← Option.some.inj hb]
            conv_rhs => rw [← List.take_append_drop i ns, List.sum_append]
            omega
          rw [List.getElem?_range (by omega)]
        rw [g1, g2, g3, g4]
        simp only [g5, g6, Option.bind_eq_bind, Option.bind_some, List.append_assoc,
          List.singleton_append]
      exact key _ h3.symm
    exact key (n + 1) hm T

/-! A shape with three axes. -/

def axisExample : List (Nest (List (List Nat)) 0) :=
  ([[[1, 2], []], [], [[3], [4, 5, 6]]] : List (List (List Nat)))

example : removeAxis [([0, 2, 2, 4], [0, 0, 2, 2]), ([0, 2, 2, 3, 6], [0, 0, 2, 3, 3, 3])] 1 =
    some [([0, 2, 2, 6], [0, 0, 2, 2, 2, 2])] := by decide

example : unsqueeze [([0, 2, 2, 4], [0, 0, 2, 2])] 1 =
    some [([0, 2, 2, 4], [0, 0, 2, 2]), ([0, 1, 2, 3, 4], [0, 1, 2, 3])] := by decide

/-- The check at the start of `Unsqueeze` accepts `axis = NumAxes()`, but the call then fails. -/
theorem unsqueeze_past_end (n : Nat) (T : List (Nest α n)) :
    unsqueeze (fullLayers n T) (n + 1) = none := by
  unfold unsqueeze
  rw [if_neg (by simp), if_neg (by omega)]
  have : totSize (fullLayers n T) (n + 1) = none := by
    unfold totSize
    rw [if_neg (by omega), Nat.add_sub_cancel, List.getElem?_eq_none (by simp)]
    rfl
  rw [this]; rfl

end Verif.Ragged
