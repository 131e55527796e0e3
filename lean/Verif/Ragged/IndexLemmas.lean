import Verif.Ragged.IndexModel
import Verif.Ragged.Nest
import Verif.Util.Ragged
import Mathlib.Data.List.Basic

/-! Helper lemmas for `IndexProps.lean`. -/

namespace Verif.Ragged
open Verif.Util
variable {α : Type}

/-- Where position `i` of a kernel lies. -/
theorem pos_split (ns : List Nat) (i : Nat) (h : i < ns.sum) :
    ∃ j k n, ns[j]? = some n ∧ k < n ∧ (idsFrom 0 ns)[i]? = some j ∧ i = (ns.take j).sum + k ∧
      j < ns.length := by
  obtain ⟨j, hj⟩ : ∃ r, (idsFrom 0 ns)[i]? = some r :=
    ⟨_, List.getElem?_eq_getElem (by simpa using h)⟩
  have hg := idsFrom_get 0 ns i j
  rw [Nat.zero_add] at hg
  obtain ⟨h1, h2, h3⟩ := hg.mp hj
  have hn : ns[j]? = some ns[j] := List.getElem?_eq_getElem h1
  refine ⟨j, i - (ns.take j).sum, ns[j], hn, ?_, hj, by omega, h1⟩
  rw [List.take_add_one, hn, List.sum_append] at h3
  simp at h3; omega

/-- The rows selected by the ranges. -/
def selected (T : List α) (jobs : List (Nat × Nat)) : List α :=
  jobs.flatMap (fun p => slice T p.1 p.2)

/-- The ranges are within a list of `n` elements. -/
def JobsIn (jobs : List (Nat × Nat)) (n : Nat) : Prop := ∀ p ∈ jobs, p.1 ≤ p.2 ∧ p.2 ≤ n

/-- The ranges of elements that correspond to the ranges of rows. -/
def elemJobs (T : List (List α)) (jobs : List (Nat × Nat)) : List (Nat × Nat) :=
  jobs.map (fun p => (((T.map List.length).take p.1).sum, ((T.map List.length).take p.2).sum))

theorem nextJobs_eq (T : List (List α)) (jobs : List (Nat × Nat)) (h : JobsIn jobs T.length) :
    nextJobs (psum (T.map List.length)) jobs = some (elemJobs T jobs) := by
  unfold nextJobs elemJobs
  induction jobs with
  | nil => rfl
  | cons p jobs ih =>
    have hp := h p (by simp)
    have h1 := psum_get (T.map List.length) p.1 (by simp; omega)
    have h2 := psum_get (T.map List.length) p.2 (by simp; omega)
    rw [List.mapM_cons, ih (fun q hq => h q (by simp [hq])), h1, h2]
    rfl

theorem elemJobs_in (T : List (List α)) (jobs : List (Nat × Nat)) (h : JobsIn jobs T.length) :
    JobsIn (elemJobs T jobs) T.flatten.length := by
  intro q hq
  obtain ⟨p, hp, rfl⟩ := List.mem_map.mp hq
  have := h p hp
  refine ⟨take_sum_mono _ this.1, ?_⟩
  rw [List.length_flatten]
  have := take_sum_mono (T.map List.length) (show p.2 ≤ (T.map List.length).length by simp; omega)
  rwa [List.take_length] at this

/-- The elements selected are the elements of the rows selected. -/
theorem selected_flatten (T : List (List α)) (jobs : List (Nat × Nat))
    (h : JobsIn jobs T.length) :
    selected T.flatten (elemJobs T jobs) = (selected T jobs).flatten := by
  unfold selected elemJobs
  induction jobs with
  | nil => rfl
  | cons p jobs ih =>
    have hp := h p (by simp)
    rw [List.map_cons, List.flatMap_cons, List.flatMap_cons, List.flatten_append,
      ih (fun q hq => h q (by simp [hq])), slice_flatten T p.1 p.2 hp.1]

theorem sizes_selected (T : List α) (jobs : List (Nat × Nat)) (h : JobsIn jobs T.length) :
    sizes jobs = (jobs.map (fun p => slice T p.1 p.2)).map List.length := by
  unfold sizes
  rw [List.map_map]
  apply List.map_congr_left
  intro p hp
  have := h p hp
  simp [slice_length T p.1 p.2 this.1 this.2]

theorem selected_length (T : List α) (jobs : List (Nat × Nat)) (h : JobsIn jobs T.length) :
    (selected T jobs).length = (sizes jobs).sum := by
  rw [sizes_selected T jobs h, selected, List.flatMap_def, List.length_flatten]

/-- The element of the selection at position `k` of range `j`. -/
theorem selected_get (T : List α) (jobs : List (Nat × Nat)) (h : JobsIn jobs T.length) (j k : Nat)
    (p : Nat × Nat) (hp : jobs[j]? = some p) (hk : k < p.2 - p.1) :
    (selected T jobs)[((sizes jobs).take j).sum + k]? = T[p.1 + k]? := by
  have hin := h p (List.mem_of_getElem? hp)
  have h1 := flatten_get (jobs.map (fun p => slice T p.1 p.2)) j (slice T p.1 p.2) (by simp [hp]) k
    (by rw [slice_length T p.1 p.2 hin.1 hin.2]; exact hk)
  rw [slice_get _ _ _ _ hk] at h1
  rw [sizes_selected T jobs h, selected, List.flatMap_def, ← h1, splits, List.map_take]

theorem selected_take (T : List α) (jobs : List (Nat × Nat)) (h : JobsIn jobs T.length) (j k : Nat)
    (p : Nat × Nat) (hp : jobs[j]? = some p) (hk : k ≤ p.2 - p.1) :
    (selected T jobs).take (((sizes jobs).take j).sum + k) =
      selected T (jobs.take j) ++ slice T p.1 (p.1 + k) := by
  have hj : j < jobs.length := (List.getElem?_eq_some_iff.mp hp).1
  have hp' : jobs.drop j = p :: jobs.drop (j + 1) := by
    rw [List.drop_eq_getElem_cons hj]
    congr 1
    have := List.getElem?_eq_getElem hj
    rw [hp] at this
    exact (Option.some.inj this).symm
  have hin := h p (List.mem_of_getElem? hp)
  have hsel : selected T jobs = selected T (jobs.take j) ++
      (slice T p.1 p.2 ++ selected T (jobs.drop (j + 1))) := by
    conv_lhs => rw [← List.take_append_drop j jobs, hp']
    simp [selected]
  have hlen : (selected T (jobs.take j)).length = ((sizes jobs).take j).sum := by
    rw [selected_length T _ (fun q hq => h q (List.mem_of_mem_take hq))]
    simp [sizes, List.map_take]
  rw [hsel, List.take_append, ← hlen]
  rw [List.take_of_length_le (by omega), Nat.add_sub_cancel_left, List.take_append,
    slice_length T p.1 p.2 hin.1 hin.2, show k - (p.2 - p.1) = 0 by omega, List.take_zero,
    List.append_nil]
  congr 1
  rw [slice, slice, List.take_take]
  congr 1; omega

theorem sum_sizes_elemJobs (T : List (List α)) (jobs : List (Nat × Nat))
    (h : JobsIn jobs T.length) :
    (sizes (elemJobs T jobs)).sum = ((selected T jobs).map List.length).sum := by
  rw [← selected_length T.flatten _ (elemJobs_in T jobs h), selected_flatten T jobs h,
    List.length_flatten]

theorem slice_sizes_sum (T : List (List α)) (b k : Nat) :
    ((slice T b (b + k)).map List.length).sum + ((T.map List.length).take b).sum =
      ((T.map List.length).take (b + k)).sum := by
  rw [slice, Nat.add_sub_cancel_left, List.take_add, List.sum_append, List.map_take,
    List.map_drop, Nat.add_comm]

/-- The row_splits written by the kernel are those of the selected rows. -/
theorem indexSplits_eq (T : List (List α)) (jobs : List (Nat × Nat)) (h : JobsIn jobs T.length) :
    indexSplits (psum (T.map List.length)) jobs (elemJobs T jobs) =
      some (psum ((selected T jobs).map List.length)) := by
  unfold indexSplits
  simp only [rowSplitsToRowIds_psum, Option.bind_eq_bind, Option.bind_some]
  have htot := selected_length T jobs h
  apply mapM_some_of
  · simp [htot]
  · intro i b hb
    have hi : i < (sizes jobs).sum + 1 := by
      have := (List.getElem?_eq_some_iff.mp hb).1; simpa using this
    rw [List.getElem?_range hi] at hb
    obtain rfl := Option.some.inj hb
    rw [psum_get _ i (by simp [htot]; omega)]
    have hlen' : (sizes (elemJobs T jobs)).length = jobs.length := by simp [sizes, elemJobs]
    split
    · next hit =>
      subst hit
      rw [psum_get _ _ (by omega), ← hlen', List.take_length, sum_sizes_elemJobs T jobs h,
        List.take_of_length_le (by simp [htot])]
    · next hit =>
      obtain ⟨j, k, n, h1, h2, h3, h4, h5⟩ := pos_split (sizes jobs) i (by omega)
      have hjl : j < jobs.length := by simpa [sizes] using h5
      obtain ⟨p, hp⟩ : ∃ p, jobs[j]? = some p := ⟨_, List.getElem?_eq_getElem hjl⟩
      have hn : n = p.2 - p.1 := by
        simp only [sizes, List.getElem?_map, hp, Option.map_some, Option.some.injEq] at h1
        exact h1.symm
      have hin := h p (List.mem_of_getElem? hp)
      have e1 : (elemJobs T jobs)[j]? = some (((T.map List.length).take p.1).sum,
          ((T.map List.length).take p.2).sum) := by simp [elemJobs, hp]
      have f1 := psum_get (sizes jobs) j (by omega)
      have f2 := psum_get (sizes (elemJobs T jobs)) j (by omega)
      simp only [h3, Option.bind_some, f1, f2, hp, e1]
      rw [h4, Nat.add_sub_cancel_left, psum_get _ _ (by simp; omega)]
      simp only [Option.bind_some, Option.some.injEq]
      rw [← List.map_take (l := selected T jobs), selected_take T jobs h j k p hp (by omega),
        List.map_append, List.sum_append]
      have e2 := sum_sizes_elemJobs T (jobs.take j) (fun q hq => h q (List.mem_of_mem_take hq))
      have e3 : sizes (elemJobs T (jobs.take j)) = (sizes (elemJobs T jobs)).take j := by
        simp [sizes, elemJobs, List.map_take]
      have e4 := slice_sizes_sum T p.1 k
      rw [e3] at e2
      omega

theorem indexElems_eq (jobs : List (Nat × Nat)) (n : Nat) (h : JobsIn jobs n) :
    indexElems jobs = some (selected (List.range n) jobs) := by
  unfold indexElems
  simp only [rowSplitsToRowIds_psum, Option.bind_eq_bind, Option.bind_some]
  have h' : JobsIn jobs (List.range n).length := by simpa using h
  have htot := selected_length (List.range n) jobs h'
  apply mapM_some_of
  · simp [htot]
  · intro i b hb
    have hi : i < (sizes jobs).sum := by
      have := (List.getElem?_eq_some_iff.mp hb).1; simpa using this
    rw [List.getElem?_range hi] at hb
    obtain rfl := Option.some.inj hb
    obtain ⟨j, k, m, h1, h2, h3, h4, h5⟩ := pos_split (sizes jobs) i hi
    have hjl : j < jobs.length := by simpa [sizes] using h5
    obtain ⟨p, hp⟩ : ∃ p, jobs[j]? = some p := ⟨_, List.getElem?_eq_getElem hjl⟩
    have hm : m = p.2 - p.1 := by
      simp only [sizes, List.getElem?_map, hp, Option.map_some, Option.some.injEq] at h1
      exact h1.symm
    have hin := h p (List.mem_of_getElem? hp)
    have f1 := psum_get (sizes jobs) j (by omega)
    simp only [h3, Option.bind_some, f1, hp]
    rw [h4, selected_get _ jobs h' j k p hp (by omega), Nat.add_sub_cancel_left,
      List.getElem?_range (by omega)]

/-- Position of an element of the selection in its row. -/
theorem indexIds_eq (T : List (List α)) (jobs : List (Nat × Nat)) (h : JobsIn jobs T.length) :
    indexIds (idsFrom 0 (T.map List.length)) jobs (elemJobs T jobs) =
      some (idsFrom 0 ((selected T jobs).map List.length)) := by
  unfold indexIds
  simp only [rowSplitsToRowIds_psum, Option.bind_eq_bind, Option.bind_some]
  have hsum := sum_sizes_elemJobs T jobs h
  apply mapM_some_of
  · simp [hsum]
  · intro i b hb
    have hi : i < (sizes (elemJobs T jobs)).sum := by
      have := (List.getElem?_eq_some_iff.mp hb).1; simpa using this
    rw [List.getElem?_range hi] at hb
    obtain rfl := Option.some.inj hb
    obtain ⟨j, k, n, h1, h2, h3, h4, h5⟩ := pos_split (sizes (elemJobs T jobs)) i hi
    have hjl : j < jobs.length := by simpa [sizes, elemJobs] using h5
    obtain ⟨p, hp⟩ : ∃ p, jobs[j]? = some p := ⟨_, List.getElem?_eq_getElem hjl⟩
    have hin := h p (List.mem_of_getElem? hp)
    have e1 : (elemJobs T jobs)[j]? = some (((T.map List.length).take p.1).sum,
        ((T.map List.length).take p.2).sum) := by simp [elemJobs, hp]
    have hn : n = ((T.map List.length).take p.2).sum - ((T.map List.length).take p.1).sum := by
      simp only [sizes, List.getElem?_map, e1, Option.map_some, Option.some.injEq] at h1
      exact h1.symm
    have hlj : (sizes jobs).length = jobs.length := by simp [sizes]
    have f1 := psum_get (sizes jobs) j (by omega)
    have f2 := psum_get (sizes (elemJobs T jobs)) j (by omega)
    simp only [h3, Option.bind_some, f1, f2, hp, e1]
    rw [h4, Nat.add_sub_cancel_left]
    -- the old row of the element
    have hlt : ((T.map List.length).take p.1).sum + k < (T.map List.length).sum := by
      have := take_sum_mono (T.map List.length)
        (show p.2 ≤ (T.map List.length).length by simp; omega)
      rw [List.take_length] at this
      omega
    obtain ⟨r, hr⟩ : ∃ r, (idsFrom 0 (T.map List.length))[((T.map List.length).take p.1).sum + k]?
        = some r := ⟨_, List.getElem?_eq_getElem (by simpa using hlt)⟩
    have hg := idsFrom_get 0 (T.map List.length) (((T.map List.length).take p.1).sum + k) r
    rw [Nat.zero_add] at hg
    obtain ⟨g1, g2, g3⟩ := hg.mp hr
    have hrp : p.1 ≤ r := by
      by_contra hc
      have := take_sum_mono (T.map List.length) (show r + 1 ≤ p.1 by omega)
      omega
    have hrp2 : r < p.2 := by
      by_contra hc
      have := take_sum_mono (T.map List.length) (show p.2 ≤ r by omega)
      omega
    rw [hr]
    simp only [Option.bind_some]
    -- the new row
    have hnew := idsFrom_get 0 ((selected T jobs).map List.length)
      (((sizes (elemJobs T jobs)).take j).sum + k) (((sizes jobs).take j).sum + (r - p.1))
    rw [Nat.zero_add] at hnew
    rw [show r + ((sizes jobs).take j).sum - p.1 = ((sizes jobs).take j).sum + (r - p.1) by omega]
    symm
    rw [hnew]
    have e2 := sum_sizes_elemJobs T (jobs.take j) (fun q hq => h q (List.mem_of_mem_take hq))
    have e3 : sizes (elemJobs T (jobs.take j)) = (sizes (elemJobs T jobs)).take j := by
      simp [sizes, elemJobs, List.map_take]
    rw [e3] at e2
    have e4 := slice_sizes_sum T p.1 (r - p.1)
    have e5 := slice_sizes_sum T p.1 (r - p.1 + 1)
    rw [show p.1 + (r - p.1) = r by omega] at e4
    rw [show p.1 + (r - p.1 + 1) = r + 1 by omega] at e5
    have t1 := selected_take T jobs h j (r - p.1) p hp (by omega)
    have t2 := selected_take T jobs h j (r - p.1 + 1) p hp (by omega)
    rw [show p.1 + (r - p.1) = r by omega] at t1
    rw [show p.1 + (r - p.1 + 1) = r + 1 by omega] at t2
    refine ⟨?_, ?_, ?_⟩
    · have hlen := selected_length T jobs h
      have := selected_get T jobs h j (r - p.1) p hp (by omega)
      have hs : p.1 + (r - p.1) < T.length := by simp at g1; omega
      rw [List.getElem?_eq_getElem hs] at this
      have := (List.getElem?_eq_some_iff.mp this).1
      simpa using this
    · rw [← List.map_take, t1, List.map_append, List.sum_append]
      omega
    · rw [← List.map_take, show ((sizes jobs).take j).sum + (r - p.1) + 1 =
        ((sizes jobs).take j).sum + (r - p.1 + 1) by omega, t2, List.map_append, List.sum_append]
      omega

theorem psum_getLastD (ns : List Nat) : (psum ns).getLastD 0 = ns.sum := by
  rw [List.getLastD_eq_getLast?, List.getLast?_eq_getElem?, psum_last]; rfl

end Verif.Ragged
