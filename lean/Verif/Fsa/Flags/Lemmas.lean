import Verif.Fsa.Flags.Model
import Verif.Ragged.UniqueProps

/-!
The result of `GetFsaVecBasicProperties` written FSA by FSA.
-/

namespace Verif.Fsa
open Verif.Ragged Verif.Util
variable {W : Type}

/-- The flags of the arcs leaving one state. -/
def rowFlags (n : Int) (s : Nat) (row : List (RArc W)) : List Flags :=
  row.mapIdx (fun k a => arcFlags n s (if k ≠ 0 then row[k - 1]? else none) a)

/-- The flags of the arcs of one FSA, state by state. -/
def arcsFlags (f : List (List (RArc W))) : List (List Flags) :=
  f.mapIdx (fun s row => rowFlags (f.length : Int) s row)

/-- Whether a state is marked reachable. -/
def reachOf (f : List (List (RArc W))) (s : Nat) : Bool :=
  decide (∃ a ∈ f.flatten, a.dst ≠ a.src ∧ a.dst = s) || (decide (f.flatten ≠ []) && s == 0)

/-- Whether a state is marked co-reachable. -/
def coreachOf (f : List (List (RArc W))) (s : Nat) : Bool :=
  decide (∃ a ∈ (f[s]?).getD [], a.dst ≠ a.src) || (decide (f.flatten ≠ []) && s == f.length - 1)

/-- The properties of one FSA. -/
def flagsOf (f : List (List (RArc W))) : Flags :=
  finalizeFlags ((arcsFlags f).flatten.foldl Flags.and Flags.all)
    (((List.range f.length).map (reachOf f)).foldl (· && ·) true)
    (((List.range f.length).map (coreachOf f)).foldl (· && ·) true) (decide (f.flatten.length = 0))

section
variable {X : Type}

theorem andPerSublist_rows (op : X → X → X) (init : X) (L : List (List X)) :
    andPerSublist op init (psum (L.map List.length)) L.flatten = some (L.map (List.foldl op init)) := by
  unfold andPerSublist
  apply mapM_some_of
  · simp
  intro i b hb
  obtain ⟨hlt, hb⟩ := List.getElem?_eq_some_iff.mp hb
  rw [List.getElem_range] at hb
  subst hb
  rw [List.length_range, psum_length, List.length_map] at hlt
  have ht := List.getElem?_eq_getElem (show i < L.length by omega)
  have hn : (L.map List.length)[i]? = some L[i].length := by rw [List.getElem?_map, ht]; rfl
  simp only [Option.bind_eq_bind]
  rw [psum_get _ i (by simp; omega), psum_get _ (i + 1) (by simp; omega), Option.bind_some,
    Option.bind_some, if_neg (by have := row_end_le L (i + 1); omega), take_succ_sum _ _ _ hn,
    Nat.add_sub_cancel_left, row_slice L i _ ht, List.getElem?_map, ht]
  rfl

theorem sum_take_rows (T : List (List (List X))) (r s : Nat) (f : List (List X)) (hf : T[r]? = some f)
    (hs : s ≤ f.length) :
    ((T.flatten.map List.length).take (((T.map List.length).take r).sum + s)).sum =
      ((T.map (fun f => f.flatten.length)).take r).sum + ((f.map List.length).take s).sum := by
  induction T generalizing r with
  | nil => simp at hf
  | cons f' T ih =>
    cases r with
    | zero =>
      simp only [List.getElem?_cons_zero, Option.some.injEq] at hf
      subst hf
      simp only [List.take_zero, List.sum_nil, Nat.zero_add, List.flatten_cons, List.map_append]
      rw [List.take_append_of_le_length (by simpa using hs)]
    | succ r =>
      rw [List.getElem?_cons_succ] at hf
      have := ih r hf
      simp only [List.map_cons, List.take_succ_cons, List.sum_cons, List.flatten_cons,
        List.map_append]
      rw [Nat.add_assoc, List.take_append, List.take_of_length_le (by simp), List.sum_append,
        List.length_map, Nat.add_sub_cancel_left, this, List.length_flatten]
      omega

/-- Where an arc is: FSA `r`, state `s`, position `k`. -/
theorem arc_pos (T : List (List (List X))) (i : Nat) (h : i < T.flatten.flatten.length) :
    ∃ (r : Nat) (f : List (List X)) (s : Nat) (row : List X) (k : Nat), T[r]? = some f ∧
      f[s]? = some row ∧ k < row.length ∧
      i = ((T.flatten.map List.length).take (((T.map List.length).take r).sum + s)).sum + k := by
  rw [List.length_flatten] at h
  obtain ⟨g, n, k, h1, h2, h3⟩ := ids_pos _ i h
  have hg : g < T.flatten.length := by
    have := (List.getElem?_eq_some_iff.mp h1).1; rwa [List.length_map] at this
  have hg' := hg
  rw [List.length_flatten] at hg'
  obtain ⟨r, m, s, h4, h5, h6⟩ := ids_pos _ g hg'
  have hr : r < T.length := by have := (List.getElem?_eq_some_iff.mp h4).1; simpa using this
  have hf := List.getElem?_eq_getElem hr
  have hm : m = T[r].length := by
    rw [List.getElem?_map, hf] at h4; exact (Option.some.inj h4).symm
  subst hm
  have hrow := row_at T r s _ hf h5
  rw [← h6] at hrow
  rw [List.getElem?_map, hrow] at h1
  have hs := List.getElem?_eq_getElem h5
  rw [hs] at h1
  have hk : k < (T[r][s]).length := by
    have := Option.some.inj h1; omega
  exact ⟨r, T[r], s, T[r][s], k, hf, hs, hk, by rw [← h6]; exact h3⟩

theorem arc_at (T : List (List (List X))) (r s k : Nat) (f : List (List X)) (row : List X)
    (hf : T[r]? = some f) (hs : f[s]? = some row) (hk : k < row.length) :
    T.flatten.flatten[((T.flatten.map List.length).take (((T.map List.length).take r).sum + s)).sum + k]? =
      row[k]? := by
  have hsl := (List.getElem?_eq_some_iff.mp hs).1
  have h1 := row_at T r s f hf hsl
  rw [hs] at h1
  exact row_at T.flatten _ k row h1 hk

theorem arcIdx_at (T : List (List (List X))) (r s k : Nat) (f : List (List X)) (row : List X)
    (hf : T[r]? = some f) (hs : f[s]? = some row) (hk : k < row.length) :
    arcIdx (psum (T.map List.length)) (idsFrom 0 (T.map List.length)) (psum (T.flatten.map List.length))
      (idsFrom 0 (T.flatten.map List.length))
      (((T.flatten.map List.length).take (((T.map List.length).take r).sum + s)).sum + k) =
    some ⟨k, ((T.map List.length).take r).sum + s, s, ((T.map List.length).take r).sum,
      ((T.map List.length).take r).sum + f.length,
      ((T.flatten.map List.length).take ((T.map List.length).take r).sum).sum⟩ := by
  have hsl := (List.getElem?_eq_some_iff.mp hs).1
  have hrl := (List.getElem?_eq_some_iff.mp hf).1
  have h1 := row_at T r s f hf hsl
  rw [hs] at h1
  have hgl := (List.getElem?_eq_some_iff.mp h1).1
  have hn2 : (T.flatten.map List.length)[((T.map List.length).take r).sum + s]? = some row.length := by
    rw [List.getElem?_map, h1]; rfl
  have hn1 : (T.map List.length)[r]? = some f.length := by
    rw [List.getElem?_map, hf]; rfl
  unfold arcIdx
  simp only [Option.bind_eq_bind]
  rw [ids_at _ _ _ k hn2 hk, Option.bind_some, psum_get _ _ (by rw [List.length_map]; omega),
    Option.bind_some, ids_at _ r _ s hn1 hsl, Option.bind_some, psum_get _ r (by simp; omega),
    Option.bind_some, psum_get _ (r + 1) (by simp; omega), Option.bind_some,
    psum_get _ _ (by rw [List.length_map]; omega), Option.bind_some, take_succ_sum _ _ _ hn1]
  simp

end

/-- The properties computed for the arcs. -/
theorem props_eq (T : List (List (List (RArc W)))) (idxs : List ArcIdx)
    (hidx : ∀ i, i < T.flatten.flatten.length → idxs[i]? =
      arcIdx (psum (T.map List.length)) (idsFrom 0 (T.map List.length))
        (psum (T.flatten.map List.length)) (idsFrom 0 (T.flatten.map List.length)) i) :
    arcKernel idxs T.flatten.flatten (fun x i a =>
      arcFlags x.n x.idx1 (if x.idx2 ≠ 0 then T.flatten.flatten[i - 1]? else none) a) =
    some (T.map arcsFlags).flatten.flatten := by
  have l1 : ∀ f : List (List (RArc W)), (arcsFlags f).map List.length = f.map List.length := by
    intro f
    apply List.ext_getElem?
    intro i
    simp only [arcsFlags, List.getElem?_map, List.getElem?_mapIdx, Option.map_map]
    cases f[i]? with
    | none => rfl
    | some row => simp [rowFlags]
  have l2 : (T.map arcsFlags).map List.length = T.map List.length := by
    rw [List.map_map]
    apply List.map_congr_left
    intro f _
    simp [arcsFlags]
  have l3 : (T.map arcsFlags).flatten.map List.length = T.flatten.map List.length := by
    rw [List.map_flatten, List.map_flatten, List.map_map]
    congr 1
    apply List.map_congr_left
    intro f _
    exact l1 f
  unfold arcKernel
  simp only [Option.bind_eq_bind]
  apply mapM_some_of
  · rw [List.length_range, List.length_flatten, List.length_flatten, l3]
  intro i b hb
  obtain ⟨hlt, hb⟩ := List.getElem?_eq_some_iff.mp hb
  rw [List.getElem_range] at hb
  subst hb
  rw [List.length_range] at hlt
  rw [hidx i hlt]
  obtain ⟨r, f, s, row, k, hf, hs, hk, rfl⟩ := arc_pos T i hlt
  rw [arcIdx_at T r s k f row hf hs hk, arc_at T r s k f row hf hs hk]
  have h2 := arc_at (T.map arcsFlags) r s k (arcsFlags f) (rowFlags (f.length : Int) s row)
    (by rw [List.getElem?_map, hf]; rfl)
    (by rw [arcsFlags, List.getElem?_mapIdx, hs]; rfl) (by simpa [rowFlags] using hk)
  rw [l2, l3] at h2
  rw [h2, rowFlags, List.getElem?_mapIdx, List.getElem?_eq_getElem hk]
  simp only [Option.bind_some, Option.map_some, ArcIdx.n, Option.some.injEq]
  congr 1
  · omega
  · by_cases h0 : k = 0
    · subst h0; simp
    · rw [if_pos h0, if_pos h0, Nat.add_sub_assoc (by omega),
        arc_at T r s (k - 1) f row hf hs (by omega)]

/-- The start of an FSA is the start of its first arc exactly for its first arc. -/
theorem first_arc (T : List (List (List (RArc W)))) (r s k : Nat) (f : List (List (RArc W)))
    (row : List (RArc W)) (hf : T[r]? = some f) (hs : f[s]? = some row) (hk : k < row.length) :
    ((T.flatten.map List.length).take ((T.map List.length).take r).sum).sum =
      ((T.flatten.map List.length).take (((T.map List.length).take r).sum + s)).sum + k ↔
    ((f.map List.length).take s).sum = 0 ∧ k = 0 := by
  have hsl := (List.getElem?_eq_some_iff.mp hs).1
  have h0 := sum_take_rows T r 0 f hf (by omega)
  have h1 := sum_take_rows T r s f hf (by omega)
  simp only [Nat.add_zero, List.take_zero, List.sum_nil] at h0
  rw [h0, h1]
  omega

/-- An FSA that has arcs has a first arc. -/
theorem first_arc_exists (f : List (List (RArc W))) (h : f.flatten ≠ []) :
    ∃ (s : Nat) (row : List (RArc W)), f[s]? = some row ∧ 0 < row.length ∧
      ((f.map List.length).take s).sum = 0 := by
  induction f with
  | nil => simp at h
  | cons row f ih =>
    cases row with
    | cons a row => exact ⟨0, a :: row, rfl, by simp, by simp⟩
    | nil =>
      obtain ⟨s, row, h1, h2, h3⟩ := ih (by simpa using h)
      exact ⟨s + 1, row, by simpa using h1, h2, by simpa using h3⟩

/-- Membership in the writes of a kernel over the arcs. -/
theorem writes_mem (T : List (List (List (RArc W)))) (idxs : List ArcIdx)
    (hidx : ∀ i, i < T.flatten.flatten.length → idxs[i]? =
      arcIdx (psum (T.map List.length)) (idsFrom 0 (T.map List.length))
        (psum (T.flatten.map List.length)) (idsFrom 0 (T.flatten.map List.length)) i)
    (w : ArcIdx → Nat → RArc W → List Nat) :
    ∃ out, arcKernel idxs T.flatten.flatten w = some out ∧
    ∀ g, g ∈ out.flatten ↔ ∃ (r : Nat) (f : List (List (RArc W))) (s : Nat) (row : List (RArc W))
      (k : Nat) (a : RArc W), T[r]? = some f ∧ f[s]? = some row ∧ row[k]? = some a ∧
      g ∈ w ⟨k, ((T.map List.length).take r).sum + s, s, ((T.map List.length).take r).sum,
        ((T.map List.length).take r).sum + f.length,
        ((T.flatten.map List.length).take ((T.map List.length).take r).sum).sum⟩
        (((T.flatten.map List.length).take (((T.map List.length).take r).sum + s)).sum + k) a := by
  have hex : ∃ out, (List.range T.flatten.flatten.length).mapM (fun i =>
      T.flatten.flatten[i]?.bind fun a => idxs[i]?.bind fun x => some (w x i a)) = some out := by
    apply mapM_exists
    intro i hi
    rw [List.mem_range] at hi
    rw [hidx i hi]
    obtain ⟨r, f, s, row, k, hf, hs, hk, rfl⟩ := arc_pos T i hi
    rw [arcIdx_at T r s k f row hf hs hk, arc_at T r s k f row hf hs hk,
      List.getElem?_eq_getElem hk]
    exact ⟨_, rfl⟩
  obtain ⟨out, hout⟩ := hex
  refine ⟨out, hout, fun g => ?_⟩
  rw [mem_flatten_mapM hout g]
  constructor
  · rintro ⟨i, hi, ws, hw, hg⟩
    rw [List.mem_range] at hi
    rw [hidx i hi] at hw
    obtain ⟨r, f, s, row, k, hf, hs, hk, rfl⟩ := arc_pos T i hi
    rw [arcIdx_at T r s k f row hf hs hk, arc_at T r s k f row hf hs hk,
      List.getElem?_eq_getElem hk, Option.bind_some, Option.bind_some] at hw
    obtain rfl := Option.some.inj hw
    exact ⟨r, f, s, row, k, row[k], hf, hs, List.getElem?_eq_getElem hk, hg⟩
  · rintro ⟨r, f, s, row, k, a, hf, hs, ha, hg⟩
    have hk := (List.getElem?_eq_some_iff.mp ha).1
    have hat := arc_at T r s k f row hf hs hk
    rw [ha] at hat
    have hi := (List.getElem?_eq_some_iff.mp hat).1
    refine ⟨_, List.mem_range.mpr hi, _, ?_, hg⟩
    rw [hidx _ hi, arcIdx_at T r s k f row hf hs hk, hat, Option.bind_some, Option.bind_some]

/-- Two states of FSAs at the same flat position are the same state of the same FSA. -/
theorem state_unique (ns : List Nat) (r r' s s' n n' : Nat) (h : ns[r]? = some n) (h' : ns[r']? = some n')
    (hs : s < n) (hs' : s' < n') (he : (ns.take r).sum + s = (ns.take r').sum + s') : r = r' ∧ s = s' := by
  rcases Nat.lt_trichotomy r r' with hlt | heq | hgt
  · have := take_sum_mono ns (show r + 1 ≤ r' from hlt)
    rw [take_succ_sum ns r n h] at this; omega
  · subst heq; omega
  · have := take_sum_mono ns (show r' + 1 ≤ r from hgt)
    rw [take_succ_sum ns r' n' h'] at this; omega

theorem reach_mem (T : List (List (List (RArc W)))) (out : List (List Nat))
    (h : ∀ g, g ∈ out.flatten ↔ ∃ (r : Nat) (f : List (List (RArc W))) (s : Nat) (row : List (RArc W))
      (k : Nat) (a : RArc W), T[r]? = some f ∧ f[s]? = some row ∧ row[k]? = some a ∧
      g ∈ reachWrites ⟨k, ((T.map List.length).take r).sum + s, s, ((T.map List.length).take r).sum,
        ((T.map List.length).take r).sum + f.length,
        ((T.flatten.map List.length).take ((T.map List.length).take r).sum).sum⟩
        (((T.flatten.map List.length).take (((T.map List.length).take r).sum + s)).sum + k) a)
    (r s : Nat) (f : List (List (RArc W))) (hf : T[r]? = some f) (hs : s < f.length) :
    out.flatten.contains (((T.map List.length).take r).sum + s) = reachOf f s := by
  have hn1 : ∀ (r : Nat) (f : List (List (RArc W))), T[r]? = some f →
      (T.map List.length)[r]? = some f.length := by
    intro r f hf; rw [List.getElem?_map, hf]; rfl
  rw [Bool.eq_iff_iff, List.contains_iff_mem, h]
  simp only [reachOf, Bool.or_eq_true, decide_eq_true_eq, Bool.and_eq_true, beq_iff_eq]
  constructor
  · rintro ⟨r', f', s', row, k, a, hf', hs', ha, hg⟩
    have hk := (List.getElem?_eq_some_iff.mp ha).1
    have hsl := (List.getElem?_eq_some_iff.mp hs').1
    simp only [reachWrites, List.mem_append] at hg
    rcases hg with hg | hg
    · split at hg
      · simp at hg
      · next hr =>
        split at hg
        · next hd =>
          simp only [ArcIdx.n] at hr
          rw [List.mem_singleton] at hg
          obtain ⟨rfl, hss⟩ := state_unique _ r r' s a.dst.toNat _ _ (hn1 r f hf) (hn1 r' f' hf') hs
            (by omega) hg
          obtain rfl : f = f' := by rw [hf] at hf'; exact Option.some.inj hf'
          left
          exact ⟨a, List.mem_flatten.mpr ⟨row, List.mem_of_getElem? hs', List.mem_of_getElem? ha⟩, hd,
            by omega⟩
        · simp at hg
    · split at hg
      · rw [List.mem_singleton] at hg
        obtain ⟨rfl, hss⟩ := state_unique _ r r' s 0 _ _ (hn1 r f hf) (hn1 r' f' hf') hs
          (by omega) hg
        obtain rfl : f = f' := by rw [hf] at hf'; exact Option.some.inj hf'
        right
        refine ⟨?_, hss⟩
        intro hnil
        have : a ∈ f.flatten :=
          List.mem_flatten.mpr ⟨row, List.mem_of_getElem? hs', List.mem_of_getElem? ha⟩
        rw [hnil] at this; simp at this
      · simp at hg
  · rintro (⟨a, ha, hd, hds⟩ | ⟨hne, rfl⟩)
    · obtain ⟨row, hrow, ha⟩ := List.mem_flatten.mp ha
      obtain ⟨s', hs'⟩ := List.getElem?_of_mem hrow
      obtain ⟨k, hk⟩ := List.getElem?_of_mem ha
      refine ⟨r, f, s', row, k, a, hf, hs', hk, ?_⟩
      simp only [reachWrites, List.mem_append]
      left
      rw [if_neg (by simp only [ArcIdx.n]; omega), if_pos hd, List.mem_singleton, hds]
      rfl
    · obtain ⟨s', row, h1, h2, h3⟩ := first_arc_exists f hne
      refine ⟨r, f, s', row, 0, row[0], hf, h1, List.getElem?_eq_getElem h2, ?_⟩
      simp only [reachWrites, List.mem_append]
      right
      rw [if_pos ((first_arc T r s' 0 f row hf h1 h2).mpr ⟨h3, rfl⟩), List.mem_singleton]
      rfl

theorem coreach_mem (T : List (List (List (RArc W)))) (out : List (List Nat))
    (h : ∀ g, g ∈ out.flatten ↔ ∃ (r : Nat) (f : List (List (RArc W))) (s : Nat) (row : List (RArc W))
      (k : Nat) (a : RArc W), T[r]? = some f ∧ f[s]? = some row ∧ row[k]? = some a ∧
      g ∈ coreachWrites ⟨k, ((T.map List.length).take r).sum + s, s, ((T.map List.length).take r).sum,
        ((T.map List.length).take r).sum + f.length,
        ((T.flatten.map List.length).take ((T.map List.length).take r).sum).sum⟩
        (((T.flatten.map List.length).take (((T.map List.length).take r).sum + s)).sum + k) a)
    (r s : Nat) (f : List (List (RArc W))) (hf : T[r]? = some f) (hs : s < f.length) :
    out.flatten.contains (((T.map List.length).take r).sum + s) = coreachOf f s := by
  have hn1 : ∀ (r : Nat) (f : List (List (RArc W))), T[r]? = some f →
      (T.map List.length)[r]? = some f.length := by
    intro r f hf; rw [List.getElem?_map, hf]; rfl
  rw [Bool.eq_iff_iff, List.contains_iff_mem, h]
  simp only [coreachOf, Bool.or_eq_true, decide_eq_true_eq, Bool.and_eq_true, beq_iff_eq]
  constructor
  · rintro ⟨r', f', s', row, k, a, hf', hs', ha, hg⟩
    have hk := (List.getElem?_eq_some_iff.mp ha).1
    have hsl := (List.getElem?_eq_some_iff.mp hs').1
    simp only [coreachWrites, List.mem_append] at hg
    rcases hg with hg | hg
    · split at hg
      · rw [List.mem_singleton] at hg
        obtain ⟨rfl, hss⟩ := state_unique _ r r' s (f'.length - 1) _ _ (hn1 r f hf) (hn1 r' f' hf') hs
          (by omega) (by omega)
        obtain rfl : f = f' := by rw [hf] at hf'; exact Option.some.inj hf'
        right
        refine ⟨?_, hss⟩
        intro hnil
        have : a ∈ f.flatten :=
          List.mem_flatten.mpr ⟨row, List.mem_of_getElem? hs', List.mem_of_getElem? ha⟩
        rw [hnil] at this; simp at this
      · simp at hg
    · split at hg
      · next hd =>
        rw [List.mem_singleton] at hg
        obtain ⟨rfl, rfl⟩ := state_unique _ r r' s s' _ _ (hn1 r f hf) (hn1 r' f' hf') hs hsl hg
        obtain rfl : f = f' := by rw [hf] at hf'; exact Option.some.inj hf'
        left
        exact ⟨a, by rw [hs']; exact List.mem_of_getElem? ha, hd⟩
      · simp at hg
  · rintro (⟨a, ha, hd⟩ | ⟨hne, rfl⟩)
    · have hrow := List.getElem?_eq_getElem hs
      rw [hrow, Option.getD_some] at ha
      obtain ⟨k, hk⟩ := List.getElem?_of_mem ha
      refine ⟨r, f, s, f[s], k, a, hf, hrow, hk, ?_⟩
      simp only [coreachWrites, List.mem_append]
      right
      rw [if_pos hd, List.mem_singleton]
    · obtain ⟨s', row, h1, h2, h3⟩ := first_arc_exists f hne
      refine ⟨r, f, s', row, 0, row[0], hf, h1, List.getElem?_eq_getElem h2, ?_⟩
      simp only [coreachWrites, List.mem_append]
      left
      rw [if_pos ((first_arc T r s' 0 f row hf h1 h2).mpr ⟨h3, rfl⟩), List.mem_singleton]
      omega

theorem states_map (T : List (List (List (RArc W)))) (p : List Nat) (q : List (List (RArc W)) → Nat → Bool)
    (h : ∀ (r s : Nat) (f : List (List (RArc W))), T[r]? = some f → s < f.length →
      p.contains (((T.map List.length).take r).sum + s) = q f s) :
    marks (idsFrom 0 (T.map List.length)).length p =
      (T.map (fun f => (List.range f.length).map (q f))).flatten := by
  have hlen : (T.map (fun f => (List.range f.length).map (q f))).map List.length = T.map List.length := by
    rw [List.map_map]
    apply List.map_congr_left
    intro f _
    simp
  unfold marks
  apply List.ext_getElem?
  intro g
  rw [idsFrom_length]
  by_cases hg : g < (T.map List.length).sum
  · obtain ⟨r, n, s, h1, h2, rfl⟩ := ids_pos _ g hg
    have hr : r < T.length := by have := (List.getElem?_eq_some_iff.mp h1).1; simpa using this
    have hf := List.getElem?_eq_getElem hr
    have hn : n = T[r].length := by
      rw [List.getElem?_map, hf] at h1; exact (Option.some.inj h1).symm
    subst hn
    have := row_at (T.map (fun f => (List.range f.length).map (q f))) r s
      ((List.range T[r].length).map (q T[r])) (by rw [List.getElem?_map, hf]; rfl) (by simpa using h2)
    rw [hlen] at this
    rw [this, List.getElem?_map, List.getElem?_range hg, List.getElem?_map, List.getElem?_range h2,
      Option.map_some, Option.map_some, h r s _ hf h2]
  · rw [List.getElem?_eq_none (by simpa using hg), List.getElem?_eq_none (by
      rw [List.length_flatten, hlen]; omega)]

/-- `GetFsaVecBasicProperties` computes the properties FSA by FSA. -/
theorem fsaVecProperties_eq (T : List (List (List (RArc W)))) :
    fsaVecProperties (psum (T.map List.length)) (idsFrom 0 (T.map List.length))
      (psum (T.flatten.map List.length)) (idsFrom 0 (T.flatten.map List.length)) T.flatten.flatten =
    some (T.map flagsOf) := by
  obtain ⟨idxs, hidx⟩ := mapM_exists (l := List.range T.flatten.flatten.length)
    (f := arcIdx (psum (T.map List.length)) (idsFrom 0 (T.map List.length))
      (psum (T.flatten.map List.length)) (idsFrom 0 (T.flatten.map List.length))) (by
    intro i hi
    rw [List.mem_range] at hi
    obtain ⟨r, f, s, row, k, hf, hs, hk, rfl⟩ := arc_pos T i hi
    rw [arcIdx_at T r s k f row hf hs hk]
    exact ⟨_, rfl⟩)
  have hget : ∀ i, i < T.flatten.flatten.length → idxs[i]? =
      arcIdx (psum (T.map List.length)) (idsFrom 0 (T.map List.length))
        (psum (T.flatten.map List.length)) (idsFrom 0 (T.flatten.map List.length)) i := by
    intro i hi
    exact (mapM_get hidx).2 i i (List.getElem?_range hi)
  have f2 := props_eq T idxs hget
  obtain ⟨rw', f3, h3⟩ := writes_mem T idxs hget reachWrites
  obtain ⟨cw, f4, h4⟩ := writes_mem T idxs hget coreachWrites
  have f5 := states_map T rw'.flatten reachOf
    (fun r s f hf hs => reach_mem T rw' h3 r s f hf hs)
  have f6 := states_map T cw.flatten coreachOf
    (fun r s f hf hs => coreach_mem T cw h4 r s f hf hs)
  have f7 : gather (psum (T.flatten.map List.length)) (psum (T.map List.length)) =
      some (psum (T.map (fun f => f.flatten.length))) := by
    exact gather_splits T
  have f8 : andPerSublist Flags.and Flags.all (psum (T.map (fun f => f.flatten.length)))
      (T.map arcsFlags).flatten.flatten =
      some (T.map (fun f => (arcsFlags f).flatten.foldl Flags.and Flags.all)) := by
    have := andPerSublist_rows Flags.and Flags.all ((T.map arcsFlags).map List.flatten)
    simp only [List.map_map] at this
    rw [List.flatten_flatten, List.map_map]
    rw [show T.map (fun f => f.flatten.length) =
      T.map (List.length ∘ List.flatten ∘ arcsFlags) from ?_]
    · exact this
    · apply List.map_congr_left
      intro f _
      simp only [Function.comp_apply, List.length_flatten]
      congr 1
      apply List.ext_getElem?
      intro i
      simp only [arcsFlags, List.getElem?_map, List.getElem?_mapIdx, Option.map_map]
      cases f[i]? with
      | none => rfl
      | some row => simp [rowFlags]
  have hb : ∀ q : List (List (RArc W)) → Nat → Bool, andPerSublist (· && ·) true
      (psum (T.map List.length)) (T.map (fun f => (List.range f.length).map (q f))).flatten =
      some (T.map (fun f => ((List.range f.length).map (q f)).foldl (· && ·) true)) := by
    intro q
    have := andPerSublist_rows (· && ·) true (T.map (fun f => (List.range f.length).map (q f)))
    rw [List.map_map, List.map_map] at this
    rw [show T.map List.length =
      T.map (List.length ∘ fun f => (List.range f.length).map (q f)) from ?_]
    · exact this
    · apply List.map_congr_left
      intro f _
      simp
  have f9 := hb reachOf
  have f10 := hb coreachOf
  unfold fsaVecProperties
  simp only [hidx, f2, f3, f4, f5, f6, f7, Option.bind_eq_bind, Option.bind_some]
  unfold finishProperties
  simp only [f8, f9, f10, Option.bind_eq_bind, Option.bind_some]
  apply mapM_some_of
  · simp
  intro i b hb
  obtain ⟨hlt, hb⟩ := List.getElem?_eq_some_iff.mp hb
  rw [List.getElem_range] at hb
  subst hb
  rw [List.length_range, psum_length, List.length_map] at hlt
  have hf := List.getElem?_eq_getElem (show i < T.length by omega)
  have hn : (T.map (fun f => f.flatten.length))[i]? = some T[i].flatten.length := by
    rw [List.getElem?_map, hf]; rfl
  rw [psum_get _ i (by simp; omega), psum_get _ (i + 1) (by simp; omega), take_succ_sum _ _ _ hn]
  simp only [List.getElem?_map, hf, Option.map_some, Option.bind_some, Option.some.injEq, flagsOf]
  congr 1
  rw [decide_eq_decide]
  omega

end Verif.Fsa
