import Verif.Ragged.EditModel
import Verif.Ragged.StackProps
import Mathlib.Tactic.Ring
import Mathlib.Tactic.Linarith

/-!
# C10: changing the sizes of the innermost lists, and appending one element per list
-/

namespace Verif.Ragged
open Verif.Util
variable {α : Type}

theorem mem_flatten_mapM {X Y : Type} {l : List X} {f : X → Option (List Y)} {out : List (List Y)}
    (h : l.mapM f = some out) (w : Y) :
    w ∈ out.flatten ↔ ∃ x ∈ l, ∃ ws, f x = some ws ∧ w ∈ ws := by
  obtain ⟨h1, h2⟩ := mapM_get h
  rw [List.mem_flatten]
  constructor
  · rintro ⟨ws, hws, hw⟩
    obtain ⟨i, hi⟩ := List.getElem?_of_mem hws
    have hlt : i < l.length := by rw [← h1]; exact (List.getElem?_eq_some_iff.mp hi).1
    have := h2 i l[i] (List.getElem?_eq_getElem hlt)
    exact ⟨l[i], List.getElem_mem hlt, ws, by rw [← this]; exact hi, hw⟩
  · rintro ⟨x, hx, ws, hf, hw⟩
    obtain ⟨i, hi⟩ := List.getElem?_of_mem hx
    have := h2 i x hi
    exact ⟨ws, List.mem_of_getElem? (this.trans hf), hw⟩

theorem ids_pos (ns : List Nat) (i : Nat) (h : i < ns.sum) :
    ∃ r n k, ns[r]? = some n ∧ k < n ∧ i = (ns.take r).sum + k := by
  induction ns generalizing i with
  | nil => simp at h
  | cons n ns ih =>
    by_cases hi : i < n
    · exact ⟨0, n, i, rfl, hi, by simp⟩
    · rw [List.sum_cons] at h
      obtain ⟨r, m, k, h1, h2, h3⟩ := ih (i - n) (by omega)
      exact ⟨r + 1, m, k, by simpa using h1, h2, by simp; omega⟩

theorem take_succ_sum (ns : List Nat) (r n : Nat) (h : ns[r]? = some n) :
    (ns.take (r + 1)).sum = (ns.take r).sum + n := by
  rw [List.take_add_one, h]; simp

theorem ids_at (ns : List Nat) (r n k : Nat) (h : ns[r]? = some n) (hk : k < n) :
    (idsFrom 0 ns)[(ns.take r).sum + k]? = some r := by
  have := (idsFrom_get 0 ns ((ns.take r).sum + k) r).mpr
    ⟨(List.getElem?_eq_some_iff.mp h).1, by omega, by rw [take_succ_sum ns r n h]; omega⟩
  rwa [Nat.zero_add] at this

/-- The new sizes. -/
def resized (ns : List Nat) (delta : Int) : List Nat := ns.map (fun n : Nat => ((n : Int) + delta).toNat)

theorem resized_take_sum (ns : List Nat) (delta : Int) (h : ∀ n ∈ ns, 0 ≤ (n : Int) + delta) (i : Nat)
    (hi : i ≤ ns.length) :
    (((resized ns delta).take i).sum : Int) = (ns.take i).sum + delta * (i : Int) := by
  induction i with
  | zero => simp
  | succ i ih =>
    have hlt : i < ns.length := by omega
    have e1 : ns[i]? = some ns[i] := List.getElem?_eq_getElem hlt
    have e2 : (resized ns delta)[i]? = some ((ns[i] : Int) + delta).toNat := by
      rw [resized, List.getElem?_map, e1]; rfl
    have := h ns[i] (List.getElem_mem hlt)
    rw [take_succ_sum _ _ _ e1, take_succ_sum _ _ _ e2]
    push_cast
    rw [ih (by omega), Int.toNat_of_nonneg this]
    ring

theorem newSplits_eq (ns : List Nat) (delta : Int) (h : ∀ n ∈ ns, 0 ≤ (n : Int) + delta) :
    ((List.range (psum ns).length).mapM (fun i : Nat => do
      let v ← (psum ns)[i]?
      if 0 ≤ (v : Int) + delta * (i : Int) then some ((v : Int) + delta * (i : Int)).toNat else none)) =
      some (psum (resized ns delta)) := by
  apply mapM_some_of
  · simp [resized]
  intro i b hb
  have hi : i ≤ ns.length := by
    have := (List.getElem?_eq_some_iff.mp hb).1; simp at this; omega
  obtain rfl : i = b := by
    rw [List.getElem?_range (by simp; omega)] at hb; exact Option.some.inj hb
  have e := resized_take_sum ns delta h i hi
  rw [psum_get ns i hi, psum_get (resized ns delta) i (by simp [resized]; exact hi)]
  simp only [Option.bind_eq_bind, Option.bind_some]
  rw [← e, if_pos (by omega), Int.toNat_natCast]

/-- The last layer: every size changes by `delta`. -/
theorem changeLayer_eq (ns : List Nat) (delta : Int) (h : ∀ n ∈ ns, 0 ≤ (n : Int) + delta) :
    changeLayer (psum ns) (idsFrom 0 ns) delta =
      some (psum (resized ns delta), idsFrom 0 (resized ns delta)) := by
  have hlen : (resized ns delta).length = ns.length := by simp [resized]
  have hget : ∀ (r n : Nat), ns[r]? = some n →
      (resized ns delta)[r]? = some ((n : Int) + delta).toNat := by
    intro r n hr; rw [resized, List.getElem?_map, hr]; rfl
  have hw1 : ∀ (r n k : Nat), ns[r]? = some n → k < n →
      ((idsFrom 0 ns)[(ns.take r).sum + k]?.bind fun r' =>
        (psum ns)[r']?.bind fun x =>
        (psum (resized ns delta))[r']?.bind fun b =>
        (psum (resized ns delta))[r' + 1]?.bind fun e =>
        some (if b + ((ns.take r).sum + k - x) < e then [(b + ((ns.take r).sum + k - x), r')] else [])) =
      some (if k < ((n : Int) + delta).toNat then
        [(((resized ns delta).take r).sum + k, r)] else []) := by
    intro r n k hr hk
    have hrl := (List.getElem?_eq_some_iff.mp hr).1
    rw [ids_at ns r n k hr hk, Option.bind_some, psum_get ns r (by omega), Option.bind_some,
      psum_get _ r (by omega), Option.bind_some, psum_get _ (r + 1) (by omega), Option.bind_some,
      Nat.add_sub_cancel_left, take_succ_sum _ _ _ (hget r n hr)]
    congr 1
    by_cases hc : k < ((n : Int) + delta).toNat
    · rw [if_pos (by omega), if_pos hc]
    · rw [if_neg (by omega), if_neg hc]
  have hw2 : ∀ (r n q : Nat), ns[r]? = some n → q < delta.toNat →
      ((psum (resized ns delta))[(r * delta.toNat + q) / delta.toNat + 1]?.bind fun next =>
        some [(next - 1 - (r * delta.toNat + q) % delta.toNat, (r * delta.toNat + q) / delta.toNat)]) =
      some [(((resized ns delta).take r).sum + ((n : Int) + delta).toNat - 1 - q, r)] := by
    intro r n q hr hq
    have hrl := (List.getElem?_eq_some_iff.mp hr).1
    have e1 : (r * delta.toNat + q) / delta.toNat = r := by
      rw [Nat.mul_comm, Nat.mul_add_div (by omega), Nat.div_eq_of_lt hq]; omega
    have e2 : (r * delta.toNat + q) % delta.toNat = q := by
      rw [Nat.mul_comm, Nat.mul_add_mod, Nat.mod_eq_of_lt hq]
    rw [e1, e2, psum_get _ (r + 1) (by omega), Option.bind_some, take_succ_sum _ _ _ (hget r n hr)]
  obtain ⟨w1, hw1e⟩ := mapM_exists (l := List.range (idsFrom 0 ns).length) (f := fun i =>
      (idsFrom 0 ns)[i]?.bind fun r' =>
        (psum ns)[r']?.bind fun x =>
        (psum (resized ns delta))[r']?.bind fun b =>
        (psum (resized ns delta))[r' + 1]?.bind fun e =>
        some (if b + (i - x) < e then [(b + (i - x), r')] else [])) (by
    intro i hi
    obtain ⟨r, n, k, h1, h2, rfl⟩ := ids_pos ns i (by simpa using hi)
    exact ⟨_, hw1 r n k h1 h2⟩)
  have hpos2 : ∀ i, i < ns.length * delta.toNat → ∃ r n q, ns[r]? = some n ∧ q < delta.toNat ∧
      i = r * delta.toNat + q := by
    intro i hi
    have hd : 0 < delta.toNat := by
      rcases Nat.eq_zero_or_pos delta.toNat with h0 | h0
      · rw [h0] at hi; omega
      · exact h0
    have hr : i / delta.toNat < ns.length := by rw [Nat.div_lt_iff_lt_mul hd]; exact hi
    exact ⟨i / delta.toNat, ns[i / delta.toNat], i % delta.toNat, List.getElem?_eq_getElem hr,
      Nat.mod_lt _ hd, by rw [Nat.mul_comm, Nat.div_add_mod]⟩
  obtain ⟨w2, hw2e⟩ := mapM_exists (l := List.range (((psum ns).length - 1) * delta.toNat))
    (f := fun i => (psum (resized ns delta))[i / delta.toNat + 1]?.bind fun next =>
        some [(next - 1 - i % delta.toNat, i / delta.toNat)]) (by
    intro i hi
    obtain ⟨r, n, q, h1, h2, rfl⟩ := hpos2 i (by simpa using hi)
    exact ⟨_, hw2 r n q h1 h2⟩)
  have hs : scatter (resized ns delta).sum (w1.flatten ++ w2.flatten) =
      some (idsFrom 0 (resized ns delta)) := by
    apply scatter_eq
    · simp
    · intro w hw
      rw [List.mem_append, mem_flatten_mapM hw1e, mem_flatten_mapM hw2e] at hw
      rcases hw with ⟨i, hi, ws, hf, hw⟩ | ⟨i, hi, ws, hf, hw⟩
      · obtain ⟨r, n, k, h1, h2, rfl⟩ := ids_pos ns i (by simpa using hi)
        have hf' := hw1 r n k h1 h2
        rw [hf] at hf'
        rw [Option.some.inj hf'] at hw
        split at hw
        · next hk =>
          obtain rfl := List.mem_singleton.mp hw
          exact ids_at _ r _ k (hget r n h1) hk
        · simp at hw
      · obtain ⟨r, n, q, h1, h2, rfl⟩ := hpos2 i (by simpa using hi)
        have hf' := hw2 r n q h1 h2
        rw [hf] at hf'
        rw [Option.some.inj hf'] at hw
        obtain rfl := List.mem_singleton.mp hw
        have hn : delta.toNat ≤ ((n : Int) + delta).toNat := by omega
        have := ids_at _ r _ (((n : Int) + delta).toNat - 1 - q) (hget r n h1) (by omega)
        rw [← this]
        show (idsFrom 0 (resized ns delta))[_]? = _
        congr 1; omega
    · intro j hj
      obtain ⟨r, m, k, h1, h2, rfl⟩ := ids_pos (resized ns delta) j hj
      have hr : r < ns.length := by rw [← hlen]; exact (List.getElem?_eq_some_iff.mp h1).1
      have e1 : ns[r]? = some ns[r] := List.getElem?_eq_getElem hr
      have e2 := hget r _ e1
      rw [h1] at e2
      obtain rfl := Option.some.inj e2
      by_cases hk : k < ns[r]
      · refine ⟨(((resized ns delta).take r).sum + k, r), ?_, rfl⟩
        rw [List.mem_append, mem_flatten_mapM hw1e]
        left
        refine ⟨(ns.take r).sum + k, ?_, _, hw1 r _ k e1 hk, by rw [if_pos h2]; simp⟩
        have := ids_at ns r _ k e1 hk
        have := (List.getElem?_eq_some_iff.mp this).1
        simpa using this
      · have hq : ((ns[r] : Int) + delta).toNat - 1 - k < delta.toNat := by omega
        refine ⟨(((resized ns delta).take r).sum + ((ns[r] : Int) + delta).toNat - 1 -
          (((ns[r] : Int) + delta).toNat - 1 - k), r), ?_, ?_⟩
        · rw [List.mem_append, mem_flatten_mapM hw2e]
          right
          refine ⟨r * delta.toNat + (((ns[r] : Int) + delta).toNat - 1 - k), ?_, _,
            hw2 r _ _ e1 hq, List.mem_singleton.mpr rfl⟩
          have : (r + 1) * delta.toNat ≤ ns.length * delta.toNat := Nat.mul_le_mul_right _ hr
          rw [Nat.succ_mul] at this
          simp only [List.mem_range, psum_length, Nat.add_sub_cancel]
          omega
        · show _ + _ - 1 - _ = _
          omega
  unfold changeLayer
  have e1 := psum_last (resized ns delta)
  simp only [Option.bind_eq_bind] at *
  have e0 := newSplits_eq ns delta h
  simp only [Option.bind_eq_bind] at e0
  rw [e0, Option.bind_some, e1, Option.bind_some, hw1e, Option.bind_some, hw2e, Option.bind_some, hs,
    Option.bind_some]

/-- `ChangeSublistSize` changes each innermost size by `delta` and nothing else. -/
theorem changeSublistSize_spec (pre : Shape) (ns : List Nat) (delta : Int)
    (h : ∀ n ∈ ns, 0 ≤ (n : Int) + delta) :
    changeSublistSize (pre ++ [(psum ns, idsFrom 0 ns)]) delta =
      some (pre ++ [(psum (resized ns delta), idsFrom 0 (resized ns delta))]) := by
  unfold changeSublistSize
  rw [List.getLast?_concat]
  simp only [Option.bind_eq_bind, Option.bind_some, changeLayer_eq ns delta h,
    List.dropLast_concat]

/-- Sizes for `ChangeSublistSizePinned`: empty lists stay empty and no size goes below zero. -/
def pinned (ns : List Nat) (delta : Int) : List Nat :=
  ns.map (fun n : Nat => if n = 0 then 0 else ((n : Int) + delta).toNat)

theorem changeSublistSizePinned_spec (pre : Shape) (ns ids : List Nat) (delta : Int) :
    changeSublistSizePinned (pre ++ [(psum ns, ids)]) delta =
      some (pre ++ [(psum (pinned ns delta), idsFrom 0 (pinned ns delta))]) := by
  have hs : ((List.range ((psum ns).length - 1)).mapM (fun i => do
      let a : Nat ← (psum ns)[i]?
      let b : Nat ← (psum ns)[i + 1]?
      if (b : Int) - (a : Int) = 0 ∨ (b : Int) - (a : Int) + delta ≤ 0 then some 0
      else some ((b : Int) - (a : Int) + delta).toNat)) = some (pinned ns delta) := by
    apply mapM_some_of
    · simp [pinned]
    intro i b hb
    have hi : i < ns.length := by
      have := (List.getElem?_eq_some_iff.mp hb).1; simpa using this
    obtain rfl : i = b := by
      rw [List.getElem?_range (by simp; omega)] at hb; exact Option.some.inj hb
    rw [psum_get ns i (by omega), psum_get ns (i + 1) (by omega),
      take_succ_sum ns i _ (List.getElem?_eq_getElem hi), pinned, List.getElem?_map,
      List.getElem?_eq_getElem hi]
    simp only [Option.bind_eq_bind, Option.bind_some, Option.map_some]
    push_cast
    rw [show ((ns.take i).sum : Int) + (ns[i] : Int) - (ns.take i).sum = (ns[i] : Int) by ring]
    by_cases h0 : ns[i] = 0
    · rw [if_pos (by omega), if_pos h0]
    · rw [if_neg h0]
      split
      · congr 1; omega
      · rfl
  unfold changeSublistSizePinned changeLayerPinned
  rw [List.getLast?_concat]
  simp only [Option.bind_eq_bind, Option.bind_some, List.dropLast_concat] at hs ⊢
  have e : runningSums 0 (pinned ns delta) = psum (pinned ns delta) := runningSums_eq 0 _
  have e2 := rowSplitsToRowIds_psum (pinned ns delta)
  rw [hs]
  simp only [Option.bind_some, e, psum_getLastD, e2]

/-- Taking away more than a row has gives row_splits that decrease (the documentation calls this an
error, but no check catches it in the function itself). -/
theorem changeLayer_invalid :
    ∃ sp ids, changeLayer (psum [2, 0, 3]) (idsFrom 0 [2, 0, 3]) (-1) = some (sp, ids) ∧
      ¬ ValidSplits sp := by
  refine ⟨[0, 1, 0, 2], [0, 2], by decide +kernel, ?_⟩
  intro h
  exact absurd h.2 (by decide)

example : changeLayer (psum [2, 0, 3]) (idsFrom 0 [2, 0, 3]) 2 =
    some ([0, 4, 6, 11], [0, 0, 0, 0, 1, 1, 2, 2, 2, 2, 2]) := by decide +kernel

/-! ## One more element per list -/

theorem resized_one (R : List (List α)) : resized (R.map List.length) 1 = R.map (fun r => r.length + 1) := by
  rw [resized, List.map_map]
  exact List.map_congr_left (fun r _ => by simp only [Function.comp]; omega)

theorem take_sum_succ (R : List (List α)) (r : Nat) (h : r ≤ R.length) :
    ((R.map (fun l => l.length + 1)).take r).sum = splits R r + r := by
  rw [splits_eq_take]
  induction r with
  | zero => simp
  | succ r ih =>
    have hr : R[r]? = some R[r] := List.getElem?_eq_getElem (by omega)
    rw [take_succ_sum _ r (R[r].length + 1) (by rw [List.getElem?_map, hr]; rfl), ih (by omega),
      take_succ_sum (R.map List.length) r R[r].length (by rw [List.getElem?_map, hr]; rfl)]
    omega

/-- `AddSuffixToRagged` appends to each innermost list its entry of `suffix`. -/
theorem addSuffix_spec (pre : Shape) (R : List (List α)) (suffix : List α)
    (h : suffix.length = R.length) :
    addSuffix (pre ++ [(psum (R.map List.length), idsFrom 0 (R.map List.length))]) R.flatten suffix =
      some (pre ++ [(psum ((List.zipWith (fun r s => r ++ [s]) R suffix).map List.length),
          idsFrom 0 ((List.zipWith (fun r s => r ++ [s]) R suffix).map List.length))],
        (List.zipWith (fun r s => r ++ [s]) R suffix).flatten) := by
  set Z := List.zipWith (fun r s => r ++ [s]) R suffix with hZ
  have hZl : Z.map List.length = R.map (fun r => r.length + 1) := by
    apply List.ext_getElem?
    intro i
    rw [List.getElem?_map, List.getElem?_map, hZ, List.getElem?_zipWith]
    by_cases hi : i < R.length
    · rw [List.getElem?_eq_getElem hi, List.getElem?_eq_getElem (by omega : i < suffix.length)]; simp
    · rw [List.getElem?_eq_none (by omega : R.length ≤ i)]; simp
  have hc := changeSublistSize_spec pre (R.map List.length) 1 (fun n _ => by omega)
  rw [resized_one, ← hZl] at hc
  unfold addSuffix
  rw [List.getLast?_concat]
  simp only [Option.bind_eq_bind, Option.bind_some]
  rw [if_pos (by simp [h]), hc, Option.bind_some, List.getLast?_concat]
  simp only [Option.bind_some, idsFrom_length, ← List.length_flatten]
  have hv : (List.range Z.flatten.length).mapM (fun i =>
      (idsFrom 0 (Z.map List.length))[i]?.bind fun idx0 =>
        (psum (Z.map List.length))[idx0 + 1]?.bind fun e =>
          if i = e - 1 then suffix[idx0]? else R.flatten[i - idx0]?) = some Z.flatten := by
    apply mapM_some_of
    · simp
    intro i b hb
    have hi : i < Z.flatten.length := by
      have := (List.getElem?_eq_some_iff.mp hb).1; simpa using this
    obtain rfl : i = b := by
      rw [List.getElem?_range hi] at hb; exact Option.some.inj hb
    obtain ⟨r, row, k, h1, h2, rfl⟩ := flatten_pos Z i hi
    have hrR : r < R.length := by
      have := (List.getElem?_eq_some_iff.mp h1).1
      rw [hZ, List.length_zipWith] at this; omega
    have eR : R[r]? = some R[r] := List.getElem?_eq_getElem hrR
    have eS : suffix[r]? = some suffix[r] := List.getElem?_eq_getElem (by omega)
    have erow : row = R[r] ++ [suffix[r]] := by
      rw [hZ, List.getElem?_zipWith, eR, eS] at h1
      exact (Option.some.inj h1).symm
    have hsp : splits Z r = splits R r + r := by
      rw [splits_eq_take, hZl, take_sum_succ R r (by omega)]
    have hrowl : row.length = R[r].length + 1 := by rw [erow]; simp
    rw [comp_get Z r row k h1 h2, Option.bind_some, psum_get _ (r + 1) (by rw [hZl]; simp; omega),
      Option.bind_some, ← splits_eq_take, splits_succ Z r row h1, Util.flatten_get Z r row h1 k h2]
    by_cases hk : k = R[r].length
    · rw [if_pos (by omega), erow, eS, hk, List.getElem?_append_right (Nat.le_refl _)]
      simp
    · rw [if_neg (by omega), erow, List.getElem?_append_left (by omega), hsp,
        show splits R r + r + k - r = splits R r + k by omega,
        Util.flatten_get R r R[r] eR k (by omega)]
  rw [hv]; rfl

/-- `AddPrefixToRagged` puts in front of each innermost list its entry of `prefix`. -/
theorem addPrefix_spec (pre : Shape) (R : List (List α)) (pfx : List α)
    (h : pfx.length = R.length) :
    addPrefix (pre ++ [(psum (R.map List.length), idsFrom 0 (R.map List.length))]) R.flatten pfx =
      some (pre ++ [(psum ((List.zipWith (fun r s => s :: r) R pfx).map List.length),
          idsFrom 0 ((List.zipWith (fun r s => s :: r) R pfx).map List.length))],
        (List.zipWith (fun r s => s :: r) R pfx).flatten) := by
  set Z := List.zipWith (fun r s => s :: r) R pfx with hZ
  have hZl : Z.map List.length = R.map (fun r => r.length + 1) := by
    apply List.ext_getElem?
    intro i
    rw [List.getElem?_map, List.getElem?_map, hZ, List.getElem?_zipWith]
    by_cases hi : i < R.length
    · rw [List.getElem?_eq_getElem hi, List.getElem?_eq_getElem (by omega : i < pfx.length)]; simp
    · rw [List.getElem?_eq_none (by omega : R.length ≤ i)]; simp
  have hc := changeSublistSize_spec pre (R.map List.length) 1 (fun n _ => by omega)
  rw [resized_one, ← hZl] at hc
  unfold addPrefix
  rw [List.getLast?_concat]
  simp only [Option.bind_eq_bind, Option.bind_some]
  rw [if_pos (by simp [h]), hc, Option.bind_some, List.getLast?_concat]
  simp only [Option.bind_some, idsFrom_length, ← List.length_flatten]
  have hv : (List.range Z.flatten.length).mapM (fun i =>
      (idsFrom 0 (Z.map List.length))[i]?.bind fun idx0 =>
        (psum (Z.map List.length))[idx0]?.bind fun b =>
          if i = b then pfx[idx0]? else R.flatten[i - idx0 - 1]?) = some Z.flatten := by
    apply mapM_some_of
    · simp
    intro i b hb
    have hi : i < Z.flatten.length := by
      have := (List.getElem?_eq_some_iff.mp hb).1; simpa using this
    obtain rfl : i = b := by
      rw [List.getElem?_range hi] at hb; exact Option.some.inj hb
    obtain ⟨r, row, k, h1, h2, rfl⟩ := flatten_pos Z i hi
    have hrR : r < R.length := by
      have := (List.getElem?_eq_some_iff.mp h1).1
      rw [hZ, List.length_zipWith] at this; omega
    have eR : R[r]? = some R[r] := List.getElem?_eq_getElem hrR
    have eS : pfx[r]? = some pfx[r] := List.getElem?_eq_getElem (by omega)
    have erow : row = pfx[r] :: R[r] := by
      rw [hZ, List.getElem?_zipWith, eR, eS] at h1
      exact (Option.some.inj h1).symm
    have hsp : splits Z r = splits R r + r := by
      rw [splits_eq_take, hZl, take_sum_succ R r (by omega)]
    have hrowl : row.length = R[r].length + 1 := by rw [erow]; simp
    rw [comp_get Z r row k h1 h2, Option.bind_some, psum_get _ r (by rw [hZl]; simp; omega),
      Option.bind_some, ← splits_eq_take, Util.flatten_get Z r row h1 k h2]
    by_cases hk : k = 0
    · rw [if_pos (by omega), erow, eS, hk]
      simp
    · obtain ⟨k, rfl⟩ : ∃ k', k = k' + 1 := ⟨k - 1, by omega⟩
      rw [if_neg (by omega), erow, List.getElem?_cons_succ, hsp,
        show splits R r + r + (k + 1) - r - 1 = splits R r + k by omega,
        Util.flatten_get R r R[r] eR k (by omega)]
  rw [hv]; rfl

example : addSuffix [(psum [2, 0, 1], idsFrom 0 [2, 0, 1])] [5, 6, 7] [10, 20, 30] =
    some ([([0, 3, 4, 6], [0, 0, 0, 1, 2, 2])], [5, 6, 10, 20, 7, 30]) := by decide +kernel

example : addPrefix [(psum [2, 0, 1], idsFrom 0 [2, 0, 1])] [5, 6, 7] [10, 20, 30] =
    some ([([0, 3, 4, 6], [0, 0, 0, 1, 2, 2])], [10, 5, 6, 20, 30, 7]) := by decide +kernel

end Verif.Ragged
