import Verif.Ragged.ReduceLemmas
import Verif.Ragged.ChunkProps

/-!
# C71: reductions of the rows of a ragged tensor

A tensor with rows `L` has the values `L.flatten`, the row_splits `psum (L.map length)` and the row_ids
`idsFrom 0 (L.map length)`.
-/

namespace Verif.Ragged
open Verif.Util
variable {α K : Type}

/-! ## Specification -/

/-- `out` is what `SegmentedReduce` may write, on the CPU or on the GPU. -/
def Reduced (op : α → α → α) (init : α) (L : List (List α)) (out : List α) : Prop :=
  segmentedReduce op init (psum (L.map List.length)) L.flatten = some out ∨
    GpuReduce op init (psum (L.map List.length)) L.flatten out

/-- One output per row, related to it by `P`. -/
def EachRow {α β : Type} (L : List (List α)) (out : List β) (P : List α → β → Prop) : Prop :=
  out.length = L.length ∧ ∀ (r : Nat) (row : List α), L[r]? = some row → ∃ v, out[r]? = some v ∧ P row v

/-- `i` is the position, in the values of the tensor, of the last largest element of the row that begins
at position `off`; it is `-1` if all elements are smaller than `init`. -/
def IsArgMax [LinearOrder K] (init : K) (off : Nat) (row : List K) (i : Int) : Prop :=
  (i = -1 ∧ ∀ x ∈ row, x < init) ∨
  ∃ (k : Nat) (x : K), row[k]? = some x ∧ i = ((off + k : Nat) : Int) ∧ init ≤ x ∧
    ∀ (m : Nat) (y : K), row[m]? = some y → y ≤ x ∧ (y = x → m ≤ k)

/-! ## Theorems -/

theorem Reduced.gpu {op : α → α → α} {init : α} {L : List (List α)} {out : List α} (h : Reduced op init L out) :
    GpuReduce op init (psum (L.map List.length)) L.flatten out := h.elim cpu_gpu id

theorem Reduced.each {op : α → α → α} {init : α} {L : List (List α)} {out : List α} (h : Reduced op init L out)
    {P : List α → α → Prop} (hP : ∀ row l v, l.Perm (init :: row) → Eval op l v → P row v) : EachRow L out P := by
  obtain ⟨h1, h2⟩ := gpu_rows h.gpu
  refine ⟨h1, fun r row hr => ?_⟩
  obtain ⟨v, hv, l, hl, he⟩ := h2 r row hr
  exact ⟨v, hv, hP row l v hl he⟩

/-- A reduction of a well-formed tensor on the CPU has a result. -/
theorem reduce_defined (op : α → α → α) (init : α) (L : List (List α)) :
    ∃ out, segmentedReduce op init (psum (L.map List.length)) L.flatten = some out ∧ out.length = L.length :=
  ⟨_, segmentedReduce_eq op init L, by simp⟩

/-- `SumPerSublist`. -/
theorem sum_per_sublist [AddCommMonoid K] (init : K) (L : List (List K)) (out : List K)
    (h : Reduced (· + ·) init L out) : out = L.map (fun row => init + row.sum) := by
  have := h.each (P := fun row v => v = init + row.sum) (fun row l v hl he => by
    rw [eval_sum he, hl.sum_eq, List.sum_cons])
  apply List.ext_getElem?
  intro r
  by_cases hr : r < L.length
  · obtain ⟨v, hv, e⟩ := this.2 r L[r] (List.getElem?_eq_getElem hr)
    rw [hv, e]
    simp [List.getElem?_eq_getElem hr]
  · rw [List.getElem?_eq_none (by rw [this.1]; omega), List.getElem?_eq_none (by simp; omega)]

/-- `MaxPerSublist`. -/
theorem max_per_sublist [LinearOrder K] (init : K) (L : List (List K)) (out : List K)
    (h : Reduced maxOp init L out) :
    EachRow L out (fun row v => v ∈ init :: row ∧ ∀ x ∈ init :: row, x ≤ v) :=
  h.each (fun _ _ _ hl he => ⟨hl.mem_iff.mp (eval_max he).1, fun x hx => (eval_max he).2 x (hl.mem_iff.mpr hx)⟩)

/-- `MinPerSublist`. -/
theorem min_per_sublist [LinearOrder K] (init : K) (L : List (List K)) (out : List K)
    (h : Reduced minOp init L out) :
    EachRow L out (fun row v => v ∈ init :: row ∧ ∀ x ∈ init :: row, v ≤ x) :=
  h.each (fun _ _ _ hl he => ⟨hl.mem_iff.mp (eval_min he).1, fun x hx => (eval_min he).2 x (hl.mem_iff.mpr hx)⟩)

/-- `AndPerSublist`: a bit is set if it is set in the initial value and in every element. -/
theorem and_per_sublist {w : Nat} (init : BitVec w) (L : List (List (BitVec w))) (out : List (BitVec w))
    (h : Reduced (· &&& ·) init L out) :
    EachRow L out (fun row v => ∀ i : Nat, v.getLsbD i = true ↔ ∀ x ∈ init :: row, x.getLsbD i = true) :=
  h.each (fun row l v hl he i => by
    rw [eval_and he i, List.all_eq_true]
    exact ⟨fun h x hx => h x (hl.mem_iff.mpr hx), fun h x hx => h x (hl.mem_iff.mp hx)⟩)

/-- `OrPerSublist`: a bit is set if it is set in the initial value or in some element. -/
theorem or_per_sublist {w : Nat} (init : BitVec w) (L : List (List (BitVec w))) (out : List (BitVec w))
    (h : Reduced (· ||| ·) init L out) :
    EachRow L out (fun row v => ∀ i : Nat, v.getLsbD i = true ↔ ∃ x ∈ init :: row, x.getLsbD i = true) :=
  h.each (fun row l v hl he i => by
    rw [eval_or he i, List.any_eq_true]
    exact ⟨fun ⟨x, hx, hb⟩ => ⟨x, hl.mem_iff.mp hx, hb⟩, fun ⟨x, hx, hb⟩ => ⟨x, hl.mem_iff.mpr hx, hb⟩⟩)

/-- `LogSumPerSublist`: the exponential of the result is the sum of the exponentials, up to a factor of
one plus epsilon (the exponential of `cut`) for each element, in whatever order they are added. -/
theorem logsum_per_sublist (cut init : WithBot ℝ) (L : List (List (WithBot ℝ))) (out : List (WithBot ℝ))
    (h : Reduced (logAdd cut) init L out) :
    EachRow L out (fun row v => expB v ≤ expB init + (row.map expB).sum ∧
      expB init + (row.map expB).sum ≤ (1 + expB cut) ^ row.length * expB v) :=
  h.each (fun row l v hl he => by
    obtain ⟨h1, h2, _⟩ := eval_logAdd he
    rw [(hl.map expB).sum_eq, List.map_cons, List.sum_cons] at h1 h2
    rw [hl.length_eq, List.length_cons, Nat.add_sub_cancel] at h2
    exact ⟨h1, h2⟩)

/-- `LogSumPerSublist` without the shortcut of `LogAdd`. -/
theorem logsum_exact (init : WithBot ℝ) (L : List (List (WithBot ℝ))) (out : List (WithBot ℝ))
    (h : Reduced (logAdd ⊥) init L out) :
    EachRow L out (fun row v => expB v = expB init + (row.map expB).sum) := by
  obtain ⟨h1, h2⟩ := logsum_per_sublist ⊥ init L out h
  refine ⟨h1, fun r row hr => ?_⟩
  obtain ⟨v, hv, h3, h4⟩ := h2 r row hr
  refine ⟨v, hv, le_antisymm h3 (by simpa using h4)⟩

theorem argMax_unique [LinearOrder K] {init : K} {off : Nat} {row : List K} {i j : Int}
    (h1 : IsArgMax init off row i) (h2 : IsArgMax init off row j) : i = j := by
  rcases h1 with ⟨a, b⟩ | ⟨k, x, a, b, c, d⟩ <;> rcases h2 with ⟨a', b'⟩ | ⟨k', x', a', b', c', d'⟩
  · rw [a, a']
  · exact absurd (b x' (List.mem_of_getElem? a')) (not_lt.mpr c')
  · exact absurd (b' x (List.mem_of_getElem? a)) (not_lt.mpr c)
  · have e1 := d k' x' a'
    have e2 := d' k x a
    have e : x = x' := le_antisymm e2.1 e1.1
    subst e
    rw [b, b', le_antisymm (e2.2 rfl) (e1.2 rfl)]

theorem rowFold_argMax [LinearOrder K] (row : List K) : ∀ (j : Nat) (val : K) (idx : Int),
    ((rowFold argMaxStep j row (val, idx)).2 = idx ∧ ∀ x ∈ row, x < val) ∨
    ∃ (k : Nat) (x : K), row[k]? = some x ∧ (rowFold argMaxStep j row (val, idx)).2 = ((j + k : Nat) : Int) ∧
      val ≤ x ∧ ∀ (m : Nat) (y : K), row[m]? = some y → y ≤ x ∧ (y = x → m ≤ k) := by
  induction row with
  | nil => intro j val idx; exact Or.inl ⟨rfl, by simp⟩
  | cons e row ih =>
    intro j val idx
    rw [rowFold, argMaxStep]
    simp only
    split
    · next hle =>
      refine Or.inr ?_
      rcases ih (j + 1) e j with ⟨h1, h2⟩ | ⟨k, x, h1, h2, h3, h4⟩
      · refine ⟨0, e, rfl, by simpa using h1, hle, ?_⟩
        intro m y hm
        cases m with
        | zero => simp at hm; simp [hm]
        | succ m =>
          have := h2 y (List.mem_of_getElem? (by simpa using hm))
          exact ⟨this.le, fun e => absurd e this.ne⟩
      · refine ⟨k + 1, x, by simpa using h1, by rw [h2]; push_cast; ring, hle.trans h3, ?_⟩
        intro m y hm
        cases m with
        | zero => simp at hm; subst hm; exact ⟨h3, fun _ => by omega⟩
        | succ m =>
          have := h4 m y (by simpa using hm)
          exact ⟨this.1, fun e => by have := this.2 e; omega⟩
    · next hlt =>
      rcases ih (j + 1) val idx with ⟨h1, h2⟩ | ⟨k, x, h1, h2, h3, h4⟩
      · refine Or.inl ⟨h1, ?_⟩
        intro x hx
        rcases List.mem_cons.mp hx with rfl | hx
        · exact not_le.mp hlt
        · exact h2 x hx
      · refine Or.inr ⟨k + 1, x, by simpa using h1, by rw [h2]; push_cast; ring, h3, ?_⟩
        intro m y hm
        cases m with
        | zero => simp at hm; subst hm; exact ⟨(not_le.mp hlt).le.trans h3, fun _ => by omega⟩
        | succ m =>
          have := h4 m y (by simpa using hm)
          exact ⟨this.1, fun e => by have := this.2 e; omega⟩

/-- `ArgMaxPerSublist` on the CPU. -/
theorem argmax_cpu [LinearOrder K] (init : K) (L : List (List K)) :
    ∃ out, argMaxPerSublist init (psum (L.map List.length)) L.flatten = some out ∧ out.length = L.length ∧
      ∀ (r : Nat) (row : List K), L[r]? = some row → ∃ i, out[r]? = some i ∧ IsArgMax init (splits L r) row i := by
  have h := rowsLoop_eq (argMaxStep (K := K)) (init, -1) L []
  simp only [List.nil_append, List.length_nil, Nat.zero_add] at h
  refine ⟨_, by rw [argMaxPerSublist, psum_head, Option.bind_some, psum, h]; rfl, by simp, ?_⟩
  intro r row hr
  have hl := (List.getElem?_eq_some_iff.mp hr).1
  refine ⟨(rowFold argMaxStep (splits L r) row (init, -1)).2, by
    simp [List.getElem?_range hl, hr], ?_⟩
  rcases rowFold_argMax row (splits L r) init (-1) with h | h
  · exact Or.inl h
  · exact Or.inr h

/-- `ArgMaxPerSublist` on the GPU. -/
theorem argmax_gpu [LinearOrder K] (init : K) (L : List (List K)) (out : List Int)
    (h : GpuArgMax init (psum (L.map List.length)) L.flatten out) :
    out.length = L.length ∧
      ∀ (r : Nat) (row : List K), L[r]? = some row → ∃ i, out[r]? = some i ∧ IsArgMax init (splits L r) row i := by
  obtain ⟨pairs, ⟨h0, h⟩, rfl⟩ := h
  refine ⟨by simpa using h0, ?_⟩
  intro r row hr
  have hl := (List.getElem?_eq_some_iff.mp hr).1
  obtain ⟨v, hv, l, hl2, he⟩ := h r _ _ (psum_splits L r (by omega)) (psum_splits L (r + 1) (by omega))
  obtain ⟨h1, h2⟩ := eval_pair he
  refine ⟨v.2, by simp [hv], ?_⟩
  have hget : ∀ (k : Nat) (x : K × Int), (((L.flatten.zipIdx.map (fun x => (x.1, (x.2 : Int)))).drop (splits L r)).take
      (splits L (r + 1) - splits L r))[k]? = some x ↔ ∃ y, row[k]? = some y ∧ x = (y, ((splits L r + k : Nat) : Int)) := by
    intro k x
    rw [splits_succ L r row hr, Nat.add_sub_cancel_left, List.getElem?_take]
    split
    · next hk =>
      rw [List.getElem?_drop, List.getElem?_map, List.getElem?_zipIdx, flatten_get L r row hr k hk,
        List.getElem?_eq_getElem hk]
      simp [eq_comm]
    · next hk => simp [List.getElem?_eq_none (Nat.not_lt.mp hk)]
  have hall : ∀ (m : Nat) (y : K), row[m]? = some y → y < v.1 ∨ (y = v.1 ∧ ((splits L r + m : Nat) : Int) ≤ v.2) := by
    intro m y hm
    have := (hget m (y, ((splits L r + m : Nat) : Int))).mpr ⟨y, hm, rfl⟩
    exact h2 _ (hl2.mem_iff.mpr (List.mem_cons_of_mem _ (List.mem_of_getElem? this)))
  have hinit := h2 (init, -1) (hl2.mem_iff.mpr List.mem_cons_self)
  rcases List.mem_cons.mp (hl2.mem_iff.mp h1) with rfl | hmem
  · refine Or.inl ⟨rfl, ?_⟩
    intro x hx
    obtain ⟨m, hm⟩ := List.mem_iff_getElem?.mp hx
    rcases hall m x hm with h | ⟨_, h⟩
    · exact h
    · simp at h; omega
  · obtain ⟨k, hk⟩ := List.mem_iff_getElem?.mp hmem
    obtain ⟨y, hy, rfl⟩ := (hget k v).mp hk
    refine Or.inr ⟨k, y, hy, rfl, ?_, ?_⟩
    · rcases hinit with h | h
      · exact h.le
      · exact h.1.le
    · intro m z hm
      rcases hall m z hm with h | ⟨h, h'⟩
      · exact ⟨h.le, fun e => absurd e h.ne⟩
      · exact ⟨h.le, fun _ => by simpa using h'⟩

/-- The CPU and the GPU agree. -/
theorem argmax_same [LinearOrder K] (init : K) (L : List (List K)) (out : List Int)
    (h : GpuArgMax init (psum (L.map List.length)) L.flatten out) :
    argMaxPerSublist init (psum (L.map List.length)) L.flatten = some out := by
  obtain ⟨out', h1, h2, h3⟩ := argmax_cpu init L
  obtain ⟨h4, h5⟩ := argmax_gpu init L out h
  rw [h1]
  refine congrArg some (List.ext_getElem? fun r => ?_)
  by_cases hr : r < L.length
  · obtain ⟨i, hi, hi2⟩ := h3 r L[r] (List.getElem?_eq_getElem hr)
    obtain ⟨j, hj, hj2⟩ := h5 r L[r] (List.getElem?_eq_getElem hr)
    rw [hi, hj, argMax_unique hi2 hj2]
  · rw [List.getElem?_eq_none (by omega), List.getElem?_eq_none (by omega)]

/-! ## Kernels that run over the elements -/

/-- A kernel that writes `g r k x` for the element `x` at place `k` of row `r`. -/
theorem mapM_rows {β : Type} (L : List (List α)) (f : Nat → Option β) (g : Nat → Nat → α → β)
    (h : ∀ (r : Nat) (row : List α) (k : Nat) (x : α), L[r]? = some row → row[k]? = some x →
      f (splits L r + k) = some (g r k x)) :
    (List.range L.flatten.length).mapM f = some (L.mapIdx (fun r row => row.mapIdx (g r))).flatten := by
  have hs : ∀ s, splits (L.mapIdx (fun r row => row.mapIdx (g r))) s = splits L s := by
    intro s
    unfold splits
    congr 1
    apply List.ext_getElem?
    intro i
    simp only [List.getElem?_map, List.getElem?_take, List.getElem?_mapIdx]
    split
    · cases L[i]? <;> simp
    · rfl
  have hlen : (L.mapIdx (fun r row => row.mapIdx (g r))).flatten.length = L.flatten.length := by
    rw [← splits_length, ← splits_length, hs, List.length_mapIdx]
  apply mapM_some_of
  · simp [hlen]
  · intro i b hi
    obtain ⟨h1, h2⟩ := List.getElem?_eq_some_iff.mp hi
    simp at h1 h2
    subst h2
    obtain ⟨s, row, k, h3, h4, h5⟩ := flatten_pos L i (by simpa [List.length_flatten] using h1)
    rw [h5, h s row k row[k] h3 (List.getElem?_eq_getElem h4), ← hs s,
      flatten_get _ s (row.mapIdx (g s)) (by simp [h3]) k (by simpa using h4)]
    simp [List.getElem?_eq_getElem h4]

/-- `AddPerSublist` adds the scaled value of its row to each element. -/
theorem add_per_sublist [Add K] [Mul K] (L : List (List K)) (value : List K) (scale : K)
    (h : value.length = L.length) :
    addPerSublist (psum (L.map List.length)) (idsFrom 0 (L.map List.length)) L.flatten value scale =
      some (List.zipWith (fun row v => row.map (fun x => x + v * scale)) L value).flatten := by
  unfold addPerSublist
  rw [if_neg (by simp [h])]
  rw [mapM_rows L _ (fun r _ x => (value[r]?.map (fun v => x + v * scale)).getD x)]
  · congr 2
    apply List.ext_getElem?
    intro r
    rw [List.getElem?_mapIdx, List.getElem?_zipWith]
    cases hr : L[r]? with
    | none => simp
    | some row =>
      have hl := (List.getElem?_eq_some_iff.mp hr).1
      rw [List.getElem?_eq_getElem (by omega : r < value.length)]
      simp only [Option.map_some, Option.getD_some, Option.some.injEq]
      apply List.ext_getElem
      · simp
      · intro k h1 h2; simp
  · intro r row k x hr hk
    have hl := (List.getElem?_eq_some_iff.mp hr).1
    have hk' := (List.getElem?_eq_some_iff.mp hk).1
    rw [flatten_get L r row hr k hk', hk, idsFrom_flat L r row k hr hk',
      Option.bind_some, Option.bind_some, List.getElem?_eq_getElem (by omega : r < value.length)]
    rfl

/-! ## Exclusive sums -/

theorem exclusiveRow_eq [AddMonoid K] (row pre post : List K) (s : K) :
    exclusiveRow (pre ++ row ++ post) pre.length row.length s =
      some ((List.range row.length).map (fun k => s + (row.take k).sum)) := by
  induction row generalizing pre s with
  | nil => rfl
  | cons x row ih =>
    have h := ih (pre ++ [x]) (s + x)
    simp only [List.append_assoc, List.singleton_append, List.length_append, List.length_singleton] at h
    simp only [List.length_cons, exclusiveRow, List.append_assoc]
    rw [List.getElem?_append_right (Nat.le_refl _), List.range_succ_eq_map]
    rw [List.cons_append] at h
    simp [h, Function.comp_def, add_assoc]

theorem flatten_split (L : List (List α)) (r : Nat) (row : List α) (h : L[r]? = some row) :
    ∃ pre post, L.flatten = pre ++ row ++ post ∧ pre.length = splits L r := by
  obtain ⟨hr, e⟩ := List.getElem?_eq_some_iff.mp h
  refine ⟨(L.take r).flatten, (L.drop (r + 1)).flatten, ?_, by simp [splits, List.length_flatten]⟩
  conv_lhs => rw [← List.take_append_drop r L, List.drop_eq_getElem_cons hr, e]
  simp

/-- The sums of the elements before each element of its row. -/
def beforeSums [Add K] [Zero K] (row : List K) : List K := (List.range row.length).map (fun k => (row.take k).sum)

/-- `SegmentedExclusiveSum` on the CPU. -/
theorem exclusive_sum_cpu [AddMonoid K] (L : List (List K)) :
    exclusiveSumRows (psum (L.map List.length)) L.flatten = some (L.map beforeSums).flatten := by
  unfold exclusiveSumRows
  rw [mapM_some_of _ _ (L.map beforeSums) (by simp)]
  · rfl
  · intro i b hi
    obtain ⟨h1, h2⟩ := List.getElem?_eq_some_iff.mp hi
    simp at h1 h2
    subst h2
    have hr := List.getElem?_eq_getElem h1
    obtain ⟨pre, post, e1, e2⟩ := flatten_split L i _ hr
    have := exclusiveRow_eq L[i] pre post 0
    rw [psum_splits L i (by omega), psum_splits L (i + 1) (by omega), Option.bind_some, Option.bind_some,
      splits_succ L i _ hr, Nat.add_sub_cancel_left, e1, ← e2, this]
    simp [hr, beforeSums]

theorem exclusiveSum_get [AddMonoid K] (l : List K) : ∀ (s : K) (i : Nat), i < l.length →
    (exclusiveSum s l)[i]? = some (s + (l.take i).sum) := by
  induction l with
  | nil => intro s i hi; simp at hi
  | cons x l ih =>
    intro s i hi
    cases i with
    | zero => simp [exclusiveSum]
    | succ i =>
      rw [exclusiveSum, List.getElem?_cons_succ, ih _ _ (by simpa using hi)]
      simp [add_assoc]

theorem beforeSums_flat [Add K] [Zero K] (L : List (List K)) :
    (L.mapIdx (fun _ row => row.mapIdx (fun k _ => (row.take k).sum))).flatten = (L.map beforeSums).flatten := by
  congr 1
  apply List.ext_getElem?
  intro r
  rw [List.getElem?_mapIdx, List.getElem?_map]
  cases L[r]? with
  | none => rfl
  | some row =>
    simp only [Option.map_some, Option.some.injEq]
    apply List.ext_getElem
    · simp [beforeSums]
    · intro k h1 h2; simp [beforeSums]

theorem take_at [AddMonoid K] (L : List (List K)) (r : Nat) (row : List K) (k : Nat) (h : L[r]? = some row)
    (hk : k ≤ row.length) : (L.flatten.take (splits L r + k)).sum = (L.flatten.take (splits L r)).sum + (row.take k).sum := by
  obtain ⟨pre, post, e1, e2⟩ := flatten_split L r row h
  rw [e1, ← e2, List.append_assoc, List.take_append, List.take_append, List.take_of_length_le (Nat.le_add_right _ _)]
  simp [Nat.sub_eq_zero_of_le hk]

/-- `SegmentedExclusiveSum` on the GPU, integers. -/
theorem exclusive_sum_int [AddCommGroup K] (L : List (List K)) :
    exclusiveSumInt (psum (L.map List.length)) (idsFrom 0 (L.map List.length)) L.flatten =
      some (L.map beforeSums).flatten := by
  unfold exclusiveSumInt
  rw [mapM_rows L _ (fun r k _ => (((L.getD r []).take k).sum))]
  · rw [← beforeSums_flat]
    congr 2
    apply List.ext_getElem?
    intro r
    rw [List.getElem?_mapIdx, List.getElem?_mapIdx]
    cases hr : L[r]? <;> simp [hr]
  · intro r row k x hr hk
    have hl := (List.getElem?_eq_some_iff.mp hr).1
    have hk' := (List.getElem?_eq_some_iff.mp hk).1
    have hn : splits L r + k < L.flatten.length := by
      have := splits_le L (r + 1)
      rw [splits_succ L r row hr] at this
      omega
    rw [idsFrom_flat L r row k hr hk', Option.bind_some, psum_splits L r (by omega), Option.bind_some,
      exclusiveSum_get _ _ _ hn, Option.bind_some, exclusiveSum_get _ _ _ (by omega), Option.map_some,
      take_at L r row k hr (by omega)]
    simp [hr]

theorem flaggedSum_append [AddMonoid K] (a b : List (K × Bool)) (s : K) :
    ∃ t, flaggedSum s (a ++ b) = flaggedSum s a ++ flaggedSum t b := by
  induction a generalizing s with
  | nil => exact ⟨s, rfl⟩
  | cons x a ih =>
    obtain ⟨t, ht⟩ := ih ((if x.2 then 0 else s) + x.1)
    exact ⟨t, by rw [List.cons_append, flaggedSum, flaggedSum, ht]; rfl⟩

theorem flaggedSum_row [AddMonoid K] (row : List K) (s : K) :
    flaggedSum s (row.map (fun x => (x, false))) = (List.range row.length).map (fun k => s + (row.take k).sum) := by
  induction row generalizing s with
  | nil => rfl
  | cons x row ih =>
    simp only [List.map_cons, flaggedSum, Bool.false_eq_true, if_false, ih, List.length_cons]
    rw [List.range_succ_eq_map]
    simp [Function.comp_def, add_assoc]

theorem flaggedSum_rows [AddMonoid K] (L : List (List K)) : ∀ (a : Nat) (s : K), (a = 0 → s = 0) →
    flaggedSum s (L.flatten.zip
      (L.mapIdx (fun r row => row.mapIdx (fun k _ => k == 0 && !(a + splits L r + k == 0)))).flatten) =
      (L.map beforeSums).flatten := by
  induction L with
  | nil => intro a s _; rfl
  | cons row L ih =>
    intro a s hs
    rw [List.mapIdx_cons, List.flatten_cons, List.flatten_cons]
    simp only [splits_cons_succ, splits_zero, Nat.add_zero]
    cases row with
    | nil =>
      have := ih a s hs
      simpa [beforeSums] using this
    | cons x row =>
      have hm : (x :: row).mapIdx (fun k _ => k == 0 && !(a + k == 0)) =
          (!(a == 0)) :: List.replicate row.length false := by
        apply List.ext_getElem
        · simp
        · intro k h1 h2; cases k <;> simp
      rw [hm, List.zip_append (by simp), List.zip_cons_cons, List.cons_append, flaggedSum]
      have e0 : (if (!(a == 0)) = true then 0 else s) = (0 : K) := by
        by_cases ha : a = 0
        · simp [ha, hs ha]
        · simp [ha]
      rw [e0]
      obtain ⟨t, ht⟩ := flaggedSum_append (row.zip (List.replicate row.length false))
        (L.flatten.zip (L.mapIdx (fun r row' => row'.mapIdx (fun k _ =>
          k == 0 && !(a + ((x :: row).length + splits L r) + k == 0)))).flatten) (0 + x)
      have h2 := ih (a + (x :: row).length) t (by simp)
      have h4 : row.zip (List.replicate row.length false) = row.map (fun x => (x, false)) := by
        apply List.ext_getElem
        · simp
        · intro k h1 h2; simp
      simp only [Nat.add_assoc] at h2 ht ⊢
      rw [ht, h2, h4, flaggedSum_row]
      simp [beforeSums, List.range_succ_eq_map, Function.comp_def]

/-- `SegmentedExclusiveSum` on the GPU, floating-point numbers. -/
theorem exclusive_sum_float [AddMonoid K] (L : List (List K)) :
    exclusiveSumFloat (psum (L.map List.length)) (idsFrom 0 (L.map List.length)) L.flatten =
      some (L.map beforeSums).flatten := by
  unfold exclusiveSumFloat headFlags
  rw [mapM_rows L _ (fun r k _ => (k == 0 && !(splits L r + k == 0)))]
  · rw [Option.map_some]
    congr 1
    have := flaggedSum_rows L 0 0 (fun _ => rfl)
    simpa using this
  · intro r row k x hr hk
    have hl := (List.getElem?_eq_some_iff.mp hr).1
    have hk' := (List.getElem?_eq_some_iff.mp hk).1
    rw [idsFrom_flat L r row k hr hk', Option.bind_some, psum_splits L r (by omega), Option.bind_some,
      psum_splits L (r + 1) (by omega), Option.bind_some, splits_succ L r row hr, if_pos (by omega)]
    cases k with
    | zero => simp
    | succ k => simp

end Verif.Ragged
