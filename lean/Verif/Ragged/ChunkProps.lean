import Verif.Ragged.ChunkModel
import Verif.Ragged.RemoveEmptyProps
import Verif.Ragged.RangeProps
import Verif.Ragged.CatLemmas
import Verif.Ragged.StackProps

/-!
# `GetNew2OldAndRowIds` computes the renumbering and the rows of the kept elements

`sel flags l` is the list of the elements of `l` whose flag is set.  `F` holds the value of the
predicate for every element, row by row.
-/

namespace Verif.Ragged
open Verif.Util
variable {X : Type}

/-- `keep` has the value `F[r][k]` for element `k` of row `r`, where element and row are shifted. -/
def KeepIs (keep : Nat → Nat → Option Bool) (F : List (List Bool)) (r0 e0 : Nat) : Prop :=
  ∀ (r : Nat) (row : List Bool) (k : Nat) (b : Bool), F[r]? = some row → row[k]? = some b →
    keep (splits F r + k + e0) (r + r0) = some b

theorem idsFrom_flat {X : Type} (S : List (List X)) (r : Nat) (row : List X) (k : Nat) (h : S[r]? = some row)
    (hk : k < row.length) : (idsFrom 0 (S.map List.length))[splits S r + k]? = some r := by
  have h1 := (idsFrom_get 0 (S.map List.length) (splits S r + k) r).mpr (by
    rw [← splits_eq_take, ← splits_eq_take, splits_succ S r row h]
    have := (List.getElem?_eq_some_iff.mp h).1
    refine ⟨by simpa using this, by omega, by omega⟩)
  simpa using h1

theorem chunkOne_eq (sp : List Nat) (keep : Nat → Nat → Option Bool) (r0 e0 b : Nat) (F : List (List Bool))
    (hb : sp[0]? = some b) (hs : sp.map (fun x => x - b) = psum (F.map List.length))
    (hk : KeepIs keep F r0 e0) :
    chunkOne sp keep r0 e0 F.flatten.length =
      some (sel F.flatten (List.range F.flatten.length), sel F.flatten (idsFrom 0 (F.map List.length))) := by
  have h1 : rowSplitsToRowIds (psum (F.map List.length)) F.flatten.length =
      some (idsFrom 0 (F.map List.length)) := by
    rw [List.length_flatten]; exact rowSplitsToRowIds_psum _
  have h2 : (List.range F.flatten.length).mapM (fun i => do
      let r ← (idsFrom 0 (F.map List.length))[i]?
      keep (i + e0) (r + r0)) = some F.flatten := by
    apply mapM_some_of
    · simp
    · intro i x hx
      obtain ⟨hx1, hx2⟩ := List.getElem?_eq_some_iff.mp hx
      simp only [List.getElem_range] at hx2
      subst hx2
      have hi : i < F.flatten.length := by simpa using hx1
      obtain ⟨r, row, k, hr, hk', rfl⟩ := flatten_pos F i hi
      rw [idsFrom_flat F r row k hr hk', flatten_get F r row hr k hk']
      rw [List.getElem?_eq_getElem hk']
      exact hk r row k _ hr (List.getElem?_eq_getElem hk')
  unfold chunkOne
  rw [hb]
  simp only [Option.bind_eq_bind, Option.bind_some]
  rw [hs, h1]
  simp only [Option.bind_some]
  simp only [Option.bind_eq_bind] at h2
  rw [h2]
  simp only [Option.bind_some]
  rw [new2old_spec, Option.bind_some, gather_sel _ _ (by rw [idsFrom_length, List.length_flatten])]
  rfl

theorem chunkPlan_cover (maxSize n R : Nat) (hm : 0 < maxSize) (hn : 0 < n) (hR : 0 < R) :
    1 ≤ (chunkPlan maxSize n R).1 ∧ 1 ≤ (chunkPlan maxSize n R).2 ∧
      R ≤ (chunkPlan maxSize n R).1 * (chunkPlan maxSize n R).2 := by
  have ha : 1 ≤ (n + maxSize - 1) / maxSize := (Nat.one_le_div_iff hm).mpr (by omega)
  simp only [chunkPlan]
  set a := (n + maxSize - 1) / maxSize
  have hp : 1 ≤ (R + a - 1) / a := (Nat.one_le_div_iff (by omega)).mpr (by omega)
  have hc : R ≤ a * ((R + a - 1) / a) := by
    have h1 := Nat.div_add_mod (R + a - 1) a
    have h2 := Nat.mod_lt (R + a - 1) (show a > 0 by omega)
    omega
  set p := (R + a - 1) / a
  split
  · next h =>
    refine ⟨?_, hp, h⟩
    show 1 ≤ a - 1
    rcases Nat.eq_zero_or_pos (a - 1) with h0 | h0
    · rw [h0] at h; omega
    · exact h0
  · exact ⟨ha, hp, hc⟩

/-- The rows of piece `i`. -/
def piece (F : List X) (part i : Nat) : List X := (F.drop (i * part)).take part

theorem take_piece (F : List X) (part i : Nat) :
    F.take ((i + 1) * part) = F.take (i * part) ++ piece F part i := by
  rw [piece, ← List.take_add]; congr 1; ring

theorem splits_piece {X : Type} (F : List (List X)) (part i r : Nat) (h : r ≤ part) :
    splits F (i * part + r) = splits F (i * part) + splits (piece F part i) r := by
  unfold splits
  rw [List.take_add, List.map_append, List.sum_append, piece, List.take_take, Nat.min_eq_left h]

theorem pieces_flatten (F : List (List Bool)) (part num : Nat) :
    ((List.range num).map (fun i => (sel (piece F part i).flatten
        (List.range (piece F part i).flatten.length)).map (fun x => x + splits F (i * part)))).flatten =
      sel (F.take (num * part)).flatten (List.range (F.take (num * part)).flatten.length) ∧
    ((List.range num).map (fun i => (sel (piece F part i).flatten
        (idsFrom 0 ((piece F part i).map List.length))).map (fun x => x + min (i * part) F.length))).flatten =
      sel (F.take (num * part)).flatten (idsFrom 0 ((F.take (num * part)).map List.length)) := by
  induction num with
  | zero => simp [sel]
  | succ n ih =>
    constructor
    · rw [List.range_succ, List.map_append, List.flatten_append, ih.1, take_piece, List.flatten_append,
        List.length_append, List.range_add, sel_append _ _ _ _ (by simp)]
      congr 1
      simp only [List.map_cons, List.map_nil, List.flatten_cons, List.flatten_nil, List.append_nil]
      rw [sel_map]
      congr 1
      apply List.map_congr_left
      intro x _
      rw [splits, ← List.length_flatten]; omega
    · rw [List.range_succ, List.map_append, List.flatten_append, ih.2, take_piece, List.flatten_append,
        List.map_append, idsFrom_append, sel_append _ _ _ _ (by rw [idsFrom_length, List.length_flatten])]
      congr 1
      simp only [List.map_cons, List.map_nil, List.flatten_cons, List.flatten_nil, List.append_nil]
      rw [idsFrom_shift (0 + _), sel_map]
      congr 1
      apply List.map_congr_left
      intro x _
      simp

theorem chunksSeveral_eq (F : List (List Bool)) (keep : Nat → Nat → Option Bool) (num part : Nat)
    (hk : KeepIs keep F 0 0) (hpart : 1 ≤ part) (hnum : 1 ≤ num) (hc : F.length ≤ num * part)
    (hp : (num - 1) * part ≤ F.length) :
    chunksSeveral (psum (F.map List.length)) F.flatten.length num part keep =
      some (sel F.flatten (List.range F.flatten.length), sel F.flatten (idsFrom 0 (F.map List.length))) := by
  have hle : ∀ i, i < num → i * part ≤ F.length := fun i hi =>
    le_trans (Nat.mul_le_mul_right _ (by omega)) hp
  have h1 : (List.range num).mapM (fun i => (psum (F.map List.length))[i * part]?) =
      some ((List.range num).map (fun i => splits F (i * part))) := by
    apply mapM_some_of
    · simp
    · intro i x hx
      obtain ⟨hx1, hx2⟩ := List.getElem?_eq_some_iff.mp hx
      simp only [List.getElem_range] at hx2
      subst hx2
      have hi : i < num := by simpa using hx1
      rw [psum_splits F _ (hle i hi)]
      simp [hi]
  unfold chunksSeveral
  rw [h1]
  simp only [Option.bind_eq_bind, Option.bind_some]
  have h2 : (List.range num).mapM (fun i =>
      ((List.range num).map (fun i => splits F (i * part)))[i]?.bind fun e0 =>
      (chunkEnd ((List.range num).map (fun i => splits F (i * part))) F.flatten.length num i).bind fun e1 =>
      (arangeL (psum (F.map List.length)) (i * part)
        (i * part + min ((psum (F.map List.length)).length - 1 - i * part) part + 1)).bind fun sp =>
      (chunkOne sp keep (i * part) e0 (e1 - e0)).bind fun c =>
      some (c.1.map (fun x => x + e0), c.2.map (fun x => x + i * part))) =
      some ((List.range num).map (fun i =>
        ((sel (piece F part i).flatten
          (List.range (piece F part i).flatten.length)).map (fun x => x + splits F (i * part)),
         (sel (piece F part i).flatten
        (idsFrom 0 ((piece F part i).map List.length))).map (fun x => x + min (i * part) F.length)))) := by
    apply mapM_some_of
    · simp
    · intro i x hx
      obtain ⟨hx1, hx2⟩ := List.getElem?_eq_some_iff.mp hx
      simp only [List.getElem_range] at hx2
      subst hx2
      have hi : i < num := by simpa using hx1
      have hli := hle i hi
      have e0 : ((List.range num).map (fun i => splits F (i * part)))[i]? = some (splits F (i * part)) := by
        simp [hi]
      have e1 : chunkEnd ((List.range num).map (fun i => splits F (i * part))) F.flatten.length num i =
          some (splits F ((i + 1) * part)) := by
        unfold chunkEnd
        split
        · next h => simp [h]
        · next h =>
          have : num = i + 1 := by omega
          subst this
          rw [splits, List.take_of_length_le hc, List.length_flatten]
      have e2 : splits F ((i + 1) * part) - splits F (i * part) = (piece F part i).flatten.length := by
        rw [show (i + 1) * part = i * part + part by ring, splits_piece F part i part le_rfl, splits,
          Nat.add_sub_cancel_left, splits, List.take_of_length_le (by rw [piece]; exact List.length_take_le _ _),
          List.length_flatten]
      have hd : ((psum (F.map List.length)).length - 1 - i * part) = F.length - i * part := by simp
      rw [hd, e0, e1]
      simp only [Option.bind_some]
      rw [e2]
      have e3 := arangeL_some (psum (F.map List.length)) (i * part)
        (i * part + min (F.length - i * part) part + 1) (by omega) (by simp; omega)
      rw [e3, Option.bind_some]
      have hpc : rowRange F (i * part) (i * part + min (F.length - i * part) part) = piece F part i := by
        unfold rowRange piece
        rw [Nat.add_sub_cancel_left]
        rcases Nat.le_total (F.length - i * part) part with h | h
        · rw [Nat.min_eq_left h, List.take_of_length_le (by simp), List.take_of_length_le (by simpa using h)]
        · rw [Nat.min_eq_right h]
      have e4 := psum_range (F.map List.length) (i * part) (i * part + min (F.length - i * part) part)
        (by omega) (by simp; omega)
      have e5 : rowRange (F.map List.length) (i * part) (i * part + min (F.length - i * part) part) =
          (piece F part i).map List.length := by
        rw [← hpc]; simp [rowRange, List.map_take, List.map_drop]
      rw [e5] at e4
      have e6 := chunkOne_eq _ keep (i * part) (splits F (i * part)) _ (piece F part i)
        (by
          rw [List.getElem?_take, if_pos (by omega), List.getElem?_drop, Nat.add_zero]
          exact psum_get _ _ (by simpa using hli)) e4 (by
          intro r row k b hr hb
          have hr' : F[i * part + r]? = some row ∧ r < part := by
            rw [piece, List.getElem?_take] at hr
            split at hr
            · next h => rw [List.getElem?_drop] at hr; exact ⟨hr, h⟩
            · simp at hr
          have := hk _ row k b hr'.1 hb
          rw [splits_piece F part i r (by omega)] at this
          rw [← this]; congr 1 <;> omega)
      rw [e6]
      simp [hi, hli]
  rw [h2]
  simp only [Option.bind_some, List.map_map]
  have h3 := pieces_flatten F part num
  rw [List.take_of_length_le hc] at h3
  rw [← h3.1, ← h3.2]
  rfl

/-- `GetNew2OldAndRowIds` gives the indexes of the kept elements in order and the rows they are in, for
every piece size for which the last piece starts inside the array. -/
theorem newToOldRows_eq (maxSize : Nat) (F : List (List Bool)) (keep : Nat → Nat → Option Bool)
    (hm : 0 < maxSize) (hk : KeepIs keep F 0 0)
    (hp : ((chunkPlan maxSize F.flatten.length F.length).1 - 1) *
      (chunkPlan maxSize F.flatten.length F.length).2 ≤ F.length) :
    newToOldRows maxSize (psum (F.map List.length)) F.flatten.length keep =
      some (sel F.flatten (List.range F.flatten.length), sel F.flatten (idsFrom 0 (F.map List.length))) := by
  unfold newToOldRows
  split
  · next h =>
    have h0 : F.flatten = [] := List.eq_nil_of_length_eq_zero h
    rw [h0]; simp [sel]
  · next h =>
    have hd : (psum (F.map List.length)).length - 1 = F.length := by simp
    rw [hd]
    have hR : 0 < F.length := by
      rcases F with _ | ⟨_, _⟩
      · simp at h
      · simp
    obtain ⟨c1, c2, c3⟩ := chunkPlan_cover maxSize F.flatten.length F.length hm (by omega) hR
    generalize chunkPlan maxSize F.flatten.length F.length = q at hp c1 c2 c3 ⊢
    obtain ⟨num, part⟩ := q
    simp only at hp c1 c2 c3 ⊢
    split
    · exact chunkOne_eq _ keep 0 0 0 F (psumFrom_head 0 _) (by simp) hk
    · exact chunksSeveral_eq F keep num part hk c2 c1 c3 hp

/-- Whenever the elements fit in one piece the condition on the pieces holds. -/
theorem newToOldRows_one (maxSize : Nat) (F : List (List Bool)) (keep : Nat → Nat → Option Bool)
    (hk : KeepIs keep F 0 0) (hm : F.flatten.length ≤ maxSize) :
    newToOldRows maxSize (psum (F.map List.length)) F.flatten.length keep =
      some (sel F.flatten (List.range F.flatten.length), sel F.flatten (idsFrom 0 (F.map List.length))) := by
  by_cases h0 : F.flatten.length = 0
  · unfold newToOldRows
    have h1 : F.flatten = [] := List.eq_nil_of_length_eq_zero h0
    rw [if_pos h0, h1]; simp [sel]
  · apply newToOldRows_eq maxSize F keep (by omega) hk
    have ha : (F.flatten.length + maxSize - 1) / maxSize = 1 :=
      Nat.div_eq_of_lt_le (by omega) (by omega)
    simp only [chunkPlan, ha]
    split <;> simp

/-- When the rows are at least the square of the number of pieces, the condition holds too. -/
theorem chunkPlan_fits (maxSize n R : Nat) (hm : 0 < maxSize) (hn : 0 < n)
    (h : ((n + maxSize - 1) / maxSize) * ((n + maxSize - 1) / maxSize) ≤ R) :
    ((chunkPlan maxSize n R).1 - 1) * (chunkPlan maxSize n R).2 ≤ R := by
  have ha : 1 ≤ (n + maxSize - 1) / maxSize := (Nat.one_le_div_iff hm).mpr (by omega)
  simp only [chunkPlan]
  set a := (n + maxSize - 1) / maxSize
  have h1 := Nat.div_mul_le_self (R + a - 1) a
  set p := (R + a - 1) / a
  have h3 : (a - 1) * p ≤ R := by
    have hp : a ≤ p := (Nat.le_div_iff_mul_le (by omega)).mpr (by omega)
    clear_value p a
    obtain ⟨b, rfl⟩ : ∃ b, a = b + 1 := ⟨a - 1, by omega⟩
    simp only [Nat.add_sub_cancel] at h1 ⊢
    have e1 : p * (b + 1) = b * p + p := by ring
    omega
  split
  · exact le_trans (Nat.mul_le_mul_right _ (by omega)) h3
  · exact h3

/-- When the last piece would start behind the last row, the code reads behind the end of the
row_splits, whatever the predicate is. -/
theorem newToOldRows_out_of_range (maxSize : Nat) (splits : List Nat) (n : Nat)
    (keep : Nat → Nat → Option Bool) (hn : n ≠ 0)
    (hp : splits.length ≤ ((chunkPlan maxSize n (splits.length - 1)).1 - 1) *
      (chunkPlan maxSize n (splits.length - 1)).2) (hs : splits ≠ []) :
    newToOldRows maxSize splits n keep = none := by
  have hl : 0 < splits.length := List.length_pos_of_ne_nil hs
  unfold newToOldRows
  rw [if_neg hn]
  generalize chunkPlan maxSize n (splits.length - 1) = q at hp ⊢
  obtain ⟨num, part⟩ := q
  simp only at hp ⊢
  have h1 : 1 ≤ num - 1 := by
    rcases Nat.eq_zero_or_pos (num - 1) with h | h
    · rw [h] at hp; omega
    · exact h
  rw [if_neg (by omega)]
  unfold chunksSeveral
  cases hm : (List.range num).mapM (fun i => splits[i * part]?) with
  | none => rfl
  | some st =>
    exfalso
    have h2 := (mapM_get hm).2 (num - 1) (num - 1) (by rw [List.getElem?_range (by omega)])
    have h3 := (mapM_get hm).1
    rw [List.getElem?_eq_none hp] at h2
    rw [List.getElem?_eq_none_iff, h3] at h2
    simp at h2
    omega

/-- A predicate that looks the element up satisfies `KeepIs`. -/
theorem keepIs_flat (F : List (List Bool)) : KeepIs (fun e _ => F.flatten[e]?) F 0 0 := by
  intro r row k b hr hb
  have hk := (List.getElem?_eq_some_iff.mp hb).1
  show F.flatten[splits F r + k + 0]? = _
  rw [Nat.add_zero, flatten_get F r row hr k hk, hb]

/-- Five elements in four rows, in pieces of about two elements: two rows for each piece. -/
example : chunkPlan 2 5 4 = (2, 2) ∧
    newToOldRows 2 [0, 2, 2, 3, 5] 5 (fun e r => some (e % 2 = 0 || r = 2)) =
      some ([0, 2, 4], [0, 2, 3]) := by decide

example : newToOldRows 2 (psum [2, 0, 1, 2]) 5
      (fun e _ => [[true, false], [], [true], [false, true]].flatten[e]?) =
    some ([0, 2, 4], [0, 2, 3]) :=
  newToOldRows_eq 2 [[true, false], [], [true], [false, true]] _ (by decide) (keepIs_flat _) (by decide)

/-- Ten rows and eight elements in pieces of one element: `num_arrays` is 8, there are two rows for each
piece, five pieces would be enough, but the loop has 7 and reads `row_splits[12]` of 11. -/
theorem newToOldRows_reads_behind_end (keep : Nat → Nat → Option Bool) :
    chunkPlan 1 8 10 = (7, 2) ∧ newToOldRows 1 [0, 1, 2, 3, 4, 5, 6, 7, 8, 8, 8] 8 keep = none :=
  ⟨by decide, newToOldRows_out_of_range 1 _ 8 keep (by decide) (by decide) (by decide)⟩

end Verif.Ragged
