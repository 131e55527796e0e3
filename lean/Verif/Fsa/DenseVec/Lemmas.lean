import Verif.Fsa.DenseVec.Model
import Verif.Fsa.Vec.Lemmas
import Verif.Ragged.SizeProps
import Mathlib.Tactic.Ring
import Mathlib.Tactic.Linarith

/-! # Lemmas on `ConvertDenseToFsaVec` -/

namespace Verif.Fsa
variable {W : Type}

/-! ## Specification -/

/-- The arcs that leave the state of frame `t`: one for each symbol from 0 on; at the last frame, one for the final
symbol -1 only. -/
def frameArcs (last : Bool) (t : Nat) (row : List W) : List (Arc W) :=
  if last then (row.take 1).map (fun x => ⟨t, t + 1, -1, x⟩)
  else (row.drop 1).mapIdx (fun s x => ⟨t, t + 1, s, x⟩)

/-- The FSA of one sequence of score rows, the arcs of its states. -/
def denseFsa (seg : List (List W)) : List (List (Arc W)) :=
  seg.mapIdx (fun t row => frameArcs (decide (t + 1 = seg.length)) t row) ++ [[]]

namespace Dv
open Verif.Ragged Verif.Util

theorem denseFsa_length (seg : List (List W)) : (denseFsa seg).length = seg.length + 1 := by simp [denseFsa]

theorem denseFsa_get (seg : List (List W)) (t : Nat) (row : List W) (h : seg[t]? = some row) :
    (denseFsa seg)[t]? = some (frameArcs (decide (t + 1 = seg.length)) t row) := by
  have ht := (List.getElem?_eq_some_iff.mp h).1
  unfold denseFsa
  rw [List.getElem?_append_left (by simpa using ht), List.getElem?_mapIdx, h]
  rfl

theorem denseFsa_end (seg : List (List W)) : (denseFsa seg)[seg.length]? = some [] := by
  unfold denseFsa
  rw [List.getElem?_append_right (by simp)]
  simp

theorem frameArcs_length (last : Bool) (t n : Nat) (row : List W) (h : row.length = n + 1) :
    (frameArcs last t row).length = if last then 1 else n := by
  unfold frameArcs
  split <;> simp [h]

theorem frameArcs_get (last : Bool) (t n s : Nat) (row : List W) (h : row.length = n + 1) (hs : s < n)
    (hl : ¬ (last = true ∧ 0 < s)) :
    ∃ x, row[if last then s else s + 1]? = some x ∧ s < (frameArcs last t row).length ∧
      (frameArcs last t row)[s]? = some ⟨t, t + 1, if last then (s : Int) - 1 else s, x⟩ := by
  cases last with
  | true =>
    obtain rfl : s = 0 := by by_contra hc; exact hl ⟨rfl, by omega⟩
    cases row with
    | nil => simp at h
    | cons x row => exact ⟨x, rfl, by simp [frameArcs], by simp [frameArcs]⟩
  | false =>
    have hlt : s + 1 < row.length := by omega
    refine ⟨row[s + 1], List.getElem?_eq_getElem hlt, ?_, ?_⟩
    · rw [frameArcs_length _ _ n _ h]; simpa using hs
    · simp only [frameArcs, Bool.false_eq_true, if_false, List.getElem?_mapIdx, List.getElem?_drop]
      rw [Nat.add_comm 1 s, List.getElem?_eq_getElem hlt]
      rfl

section
variable (n : Nat) (hn : 0 < n) (S : List (List (List W)))
  (hS : ∀ seg ∈ S, seg ≠ [] ∧ ∀ row ∈ seg, row.length = n + 1)
include hn hS

omit hn hS in
theorem off_dense (r : Nat) (h : r ≤ S.length) : off (S.map denseFsa) r = off S r + r := by
  induction r with
  | zero => simp [off]
  | succ r ih =>
    have hr := List.getElem?_eq_getElem (show r < S.length by omega)
    rw [off_succ (S.map denseFsa) r (denseFsa S[r]) (by rw [List.getElem?_map, hr]; rfl), off_succ S r _ hr, ih (by omega),
      denseFsa_length]
    omega

omit hn in
theorem apos_row (r t : Nat) (seg : List (List W)) (hr : S[r]? = some seg) (ht : t < seg.length) :
    apos (S.map denseFsa) (off (S.map denseFsa) r + t) = apos (S.map denseFsa) (off (S.map denseFsa) r) + t * n := by
  have hT : (S.map denseFsa)[r]? = some (denseFsa seg) := by rw [List.getElem?_map, hr]; rfl
  obtain ⟨hne, hrows⟩ := hS seg (List.mem_of_getElem? hr)
  induction t with
  | zero => simp
  | succ t ih =>
    have htl : t < seg.length := by omega
    have hg := denseFsa_get seg t _ (List.getElem?_eq_getElem htl)
    have hst := state_at (S.map denseFsa) r t _ hT (by rw [denseFsa_length]; omega)
    rw [hg] at hst
    rw [← Nat.add_assoc, apos_succ _ _ _ hst, ih htl,
      frameArcs_length _ _ n _ (hrows _ (List.getElem_mem htl)), decide_eq_false (by omega)]
    simp only [Bool.false_eq_true, if_false]
    ring

theorem apos_end (r : Nat) (seg : List (List W)) (hr : S[r]? = some seg) :
    apos (S.map denseFsa) (off (S.map denseFsa) r + seg.length) =
      apos (S.map denseFsa) (off (S.map denseFsa) r) + (seg.length - 1) * n + 1 := by
  have hT : (S.map denseFsa)[r]? = some (denseFsa seg) := by rw [List.getElem?_map, hr]; rfl
  obtain ⟨hne, hrows⟩ := hS seg (List.mem_of_getElem? hr)
  have hpos : 0 < seg.length := List.length_pos_iff.mpr hne
  have htl : seg.length - 1 < seg.length := by omega
  have hg := denseFsa_get seg (seg.length - 1) _ (List.getElem?_eq_getElem htl)
  have hst := state_at (S.map denseFsa) r (seg.length - 1) _ hT (by rw [denseFsa_length]; omega)
  rw [hg] at hst
  have := apos_succ _ _ _ hst
  rw [show off (S.map denseFsa) r + (seg.length - 1) + 1 = off (S.map denseFsa) r + seg.length by omega] at this
  rw [this, apos_row n S hS r _ seg hr htl, frameArcs_length _ _ n _ (hrows _ (List.getElem_mem htl)),
    decide_eq_true (by omega)]
  simp

theorem apos_next (r : Nat) (seg : List (List W)) (hr : S[r]? = some seg) :
    apos (S.map denseFsa) (off (S.map denseFsa) (r + 1)) =
      apos (S.map denseFsa) (off (S.map denseFsa) r) + (seg.length - 1) * n + 1 := by
  have hT : (S.map denseFsa)[r]? = some (denseFsa seg) := by rw [List.getElem?_map, hr]; rfl
  have hst := state_at (S.map denseFsa) r seg.length _ hT (by rw [denseFsa_length]; omega)
  rw [denseFsa_end] at hst
  have := apos_succ _ _ _ hst
  rw [off_succ _ r _ hT, denseFsa_length, ← Nat.add_assoc, this, apos_end n hn S hS r seg hr]
  simp

theorem apos_fsa (r : Nat) (h : r ≤ S.length) :
    (apos (S.map denseFsa) (off (S.map denseFsa) r) : Int) = (off S r : Int) * n - (r : Int) * ((n : Int) - 1) := by
  induction r with
  | zero => simp [off, apos]
  | succ r ih =>
    have hr := List.getElem?_eq_getElem (show r < S.length by omega)
    obtain ⟨hne, _⟩ := hS _ (List.mem_of_getElem? hr)
    have hpos : 0 < S[r].length := List.length_pos_iff.mpr hne
    obtain ⟨m, hm⟩ : ∃ m, S[r].length = m + 1 := ⟨S[r].length - 1, by omega⟩
    rw [apos_next n hn S hS r _ hr, off_succ S r _ hr, hm]
    push_cast [ih (by omega)]
    ring

theorem arcs_total : ((S.map denseFsa).flatten.flatten.length : Int) =
    (S.flatten.length : Int) * n - ((n : Int) - 1) * S.length := by
  have h1 : (S.map denseFsa).flatten.flatten.length = apos (S.map denseFsa) (off (S.map denseFsa) S.length) := by
    have e : off (S.map denseFsa) S.length = (S.map denseFsa).flatten.length := by
      rw [off, List.take_of_length_le (by simp), List.length_flatten]
    rw [e, apos, List.take_of_length_le (by rw [List.length_map]), List.length_flatten (L := (S.map denseFsa).flatten)]
  have h2 : off S S.length = S.flatten.length := by
    rw [off, List.take_of_length_le (by simp), List.length_flatten]
  rw [h1, apos_fsa n hn S hS _ (le_refl _), h2]
  ring

omit hn hS in
theorem states_total : (S.map denseFsa).flatten.length = S.flatten.length + S.length := by
  have := off_dense S S.length (le_refl _)
  have e : off (S.map denseFsa) S.length = (S.map denseFsa).flatten.length := by
    rw [off, List.take_of_length_le (by simp), List.length_flatten]
  have h2 : off S S.length = S.flatten.length := by
    rw [off, List.take_of_length_le (by simp), List.length_flatten]
  rw [← e, this, h2]

/-- What a thread writes. -/
def expected (T : List (List (List (Arc W)))) (last : Bool) (g t s i : Nat) (x : W) : Writes W :=
  if last = true ∧ 0 < s then ⟨[], [], []⟩
  else ⟨[(apos T g + s, ⟨t, t + 1, if last then (s : Int) - 1 else s, x⟩)], [(apos T g + s, g)],
    (if last then [(g + 1, apos T g + s + 1)] else []) ++
      (if s = 0 then [(g, apos T g + s)] ++ (if i = 0 then [(T.flatten.length, T.flatten.flatten.length)] else []) else [])⟩

theorem thread_eq (r t s : Nat) (seg : List (List W)) (row : List W) (hr : S[r]? = some seg) (ht : seg[t]? = some row) :
    thread (psum (S.map List.length)) (idsFrom 0 (S.map List.length)) (flat (S.map denseFsa)).id1 S.flatten n
      (S.map denseFsa).flatten.length (S.map denseFsa).flatten.flatten.length (off S r + t) s =
    if decide (t + 1 = seg.length) = true ∧ 0 < s then some ⟨[], [], []⟩ else
    (row[if decide (t + 1 = seg.length) then s else s + 1]?).map
      (expected (S.map denseFsa) (decide (t + 1 = seg.length)) (off (S.map denseFsa) r + t) t s (off S r + t)) := by
  have hrl := (List.getElem?_eq_some_iff.mp hr).1
  have htl := (List.getElem?_eq_some_iff.mp ht).1
  have hT : (S.map denseFsa)[r]? = some (denseFsa seg) := by rw [List.getElem?_map, hr]; rfl
  have e1 : (idsFrom 0 (S.map List.length))[off S r + t]? = some r :=
    ids_at (S.map List.length) r seg.length t (by rw [List.getElem?_map, hr]; rfl) htl
  have e2 : (psum (S.map List.length))[r]? = some (off S r) := psum_get _ _ (by rw [List.length_map]; omega)
  have e3 : (psum (S.map List.length))[r + 1]? = some (off S r + seg.length) := by
    rw [← off_succ S r seg hr]
    exact psum_get _ _ (by rw [List.length_map]; omega)
  have e4 : S.flatten[off S r + t]? = some row := by
    rw [off, row_at S r t seg hr htl, ht]
  have e5 : (flat (S.map denseFsa)).id1[off S r + t + r]? = some r := by
    have := flat_id1 (S.map denseFsa) r t _ hT (by rw [denseFsa_length]; omega)
    rw [off_dense S r (by omega)] at this
    rw [show off S r + t + r = off S r + r + t by omega, this]
  have e6 : ((off S r : Int) * n - (r : Int) * ((n : Int) - 1) + ((off S r + t - off S r : Nat) : Int) * n + (s : Int)) =
      ((apos (S.map denseFsa) (off (S.map denseFsa) r + t) + s : Nat) : Int) := by
    rw [apos_row n S hS r t seg hr htl, Nat.add_sub_cancel_left]
    push_cast
    rw [apos_fsa n hn S hS r (by omega)]
  unfold thread
  simp only [e1, e2, e3, e4, e5, Option.bind_eq_bind, Option.bind_some]
  rw [e6, if_neg (by omega), Int.toNat_natCast, Nat.add_sub_cancel_left, Nat.add_sub_cancel_left]
  by_cases hc : decide (t + 1 = seg.length) = true ∧ 0 < s
  · rw [if_pos hc, if_pos hc]
  · rw [if_neg hc, if_neg hc]
    cases hx : row[if decide (t + 1 = seg.length) then s else s + 1]? with
    | none => rfl
    | some x =>
      simp only [Option.bind_some, Option.map_some]
      rw [if_neg (by simp), expected, if_neg hc, off_dense S r (by omega),
        show off S r + r + t = off S r + t + r by omega]

end
end Dv
end Verif.Fsa
