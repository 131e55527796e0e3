import Verif.Fsa.Loss.Spec
import Verif.Fsa.Dense.Props

/-! # The layout of `DenseFsaVec` -/

namespace Verif.Fsa.Loss
open Verif.Ragged Verif.Util Verif.Fsa.Dn
variable {S : Type} [Zero S] [Bot S]

theorem segRange_eq (N T allow : Nat) (s : Seg) (h : SegOk N T allow s) :
    segRange N T allow s = some (s.seq.toNat, s.start.toNat, min (s.start.toNat + s.dur.toNat) T) := by
  obtain ⟨⟨h1, h2⟩, ⟨h3, h4⟩, h5, h6⟩ := h
  rw [segRange, if_pos ⟨h1, h2, h3, h4, h5, h6⟩]
  congr 3
  omega

theorem segRange_none (N T allow : Nat) (s : Seg) (h : ¬ SegOk N T allow s) : segRange N T allow s = none := by
  rw [segRange, if_neg]
  rintro ⟨h1, h2, h3, h4, h5, h6⟩
  exact h ⟨⟨h1, h2⟩, ⟨h3, h4⟩, h5, h6⟩

/-- The number of frames of a segment. -/
def segLen (T : Nat) (s : Seg) : Nat := min (s.start.toNat + s.dur.toNat) T - s.start.toNat

/-- The rows of a segment. -/
def segIdx (T : Nat) (s : Seg) : List Nat :=
  (List.range' s.start.toNat (segLen T s)).map (· + s.seq.toNat * T) ++ [0]

theorem segIdx_length (T : Nat) (s : Seg) : (segIdx T s).length = segLen T s + 1 := by simp [segIdx]

theorem segLoop_eq (N T allow : Nat) (segs : List Seg) (h : ∀ s ∈ segs, SegOk N T allow s) (cur : Nat)
    (idx last : List Nat) :
    segLoop N T allow segs (cur, idx, last) = some (cur + (segs.map (segIdx T)).flatten.length,
      idx ++ (segs.map (segIdx T)).flatten,
      last ++ (List.range segs.length).map (fun k => cur + splits (segs.map (segIdx T)) (k + 1) - 1)) := by
  induction segs generalizing cur idx last with
  | nil => simp [segLoop]
  | cons s ss ih =>
    have hs := segRange_eq N T allow s (h s (by simp))
    have e : min (s.start.toNat + s.dur.toNat) T - s.start.toNat = segLen T s := rfl
    simp only [segLoop, hs, Option.bind_eq_bind, Option.bind_some, e]
    rw [ih (fun x hx => h x (by simp [hx]))]
    have e2 : (List.range' s.start.toNat (segLen T s)).map (· + s.seq.toNat * T) ++ [0] = segIdx T s := rfl
    simp only [List.map_cons, List.flatten_cons, List.length_append, segIdx_length, List.append_assoc,
      List.length_cons, List.range_succ_eq_map, List.map_map, Option.some.injEq, Prod.mk.injEq]
    refine ⟨by omega, ?_, ?_⟩
    · rw [← e2]; simp
    · congr 1
      rw [List.singleton_append, List.cons.injEq]
      constructor
      · rw [splits_cons_succ, segIdx_length, splits_zero]; omega
      · apply List.map_congr_left
        intro k _
        simp only [Function.comp_apply]
        rw [splits_cons_succ _ _ (k + 1), segIdx_length]; omega

theorem segLoop_none (N T allow : Nat) (segs : List Seg) (s : Seg) (hs : s ∈ segs) (h : ¬ SegOk N T allow s)
    (st : Nat × List Nat × List Nat) : segLoop N T allow segs st = none := by
  induction segs generalizing st with
  | nil => simp at hs
  | cons x ss ih =>
    obtain ⟨cur, idx, last⟩ := st
    simp only [segLoop, Option.bind_eq_bind]
    rcases List.mem_cons.mp hs with rfl | hs
    · rw [segRange_none N T allow s h]; rfl
    · cases segRange N T allow x with
      | none => rfl
      | some r => exact ih hs _

theorem setRows_eq {α : Type} (x : α) (is : List Nat) (rows : List α) (h : ∀ i ∈ is, i < rows.length) :
    ∃ out, setRows x is rows = some out ∧ out.length = rows.length ∧
      ∀ k, k < rows.length → out[k]? = if k ∈ is then some x else rows[k]? := by
  induction is generalizing rows with
  | nil => exact ⟨rows, rfl, rfl, fun k _ => by simp⟩
  | cons i is ih =>
    have hi := h i (by simp)
    obtain ⟨out, h1, h2, h3⟩ := ih (rows.set i x) (fun j hj => by
      rw [List.length_set]; exact h j (by simp [hj]))
    rw [List.length_set] at h2
    refine ⟨out, by rw [setRows, if_pos hi, h1], h2, ?_⟩
    intro k hk
    rw [h3 k (by rw [List.length_set]; exact hk)]
    by_cases hm : k ∈ is
    · simp [hm]
    · by_cases hki : k = i
      · subst hki; simp [hk]
      · simp [hm, hki, List.getElem?_set, Ne.symm hki]

theorem uniform_splits {α : Type} (n : Nat) (L : List (List α)) (h : ∀ x ∈ L, x.length = n) (k : Nat)
    (hk : k ≤ L.length) : splits L k = k * n := by
  induction k with
  | zero => simp
  | succ k ih =>
    have hx := List.getElem?_eq_getElem (show k < L.length by omega)
    rw [splits_succ L k _ hx, ih (by omega), h _ (List.getElem_mem _), Nat.succ_mul]

section
variable (T C : Nat) (lp : List (List (List S))) (hlp : Shaped T C lp)
include hlp

theorem segFrames_length (allow : Nat) (s : Seg) (h : SegOk lp.length T allow s) :
    (segFrames lp s).length = segLen T s := by
  obtain ⟨⟨h1, h2⟩, ⟨h3, h4⟩, h5, h6⟩ := h
  have hq : s.seq.toNat < lp.length := by omega
  have e := hlp.frames _ (List.getElem_mem hq)
  unfold segFrames segLen
  rw [List.getD_eq_getElem?_getD, List.getElem?_eq_getElem hq, Option.getD_some, List.length_take,
    List.length_drop, e]
  omega

theorem segFrames_get (allow : Nat) (s : Seg) (h : SegOk lp.length T allow s) (t : Nat) (ht : t < segLen T s) :
    lp.flatten[s.start.toNat + t + s.seq.toNat * T]? = (segFrames lp s)[t]? := by
  obtain ⟨⟨h1, h2⟩, ⟨h3, h4⟩, h5, h6⟩ := h
  have hq : s.seq.toNat < lp.length := by omega
  have e := hlp.frames _ (List.getElem_mem hq)
  unfold segLen at ht
  have := flatten_get lp s.seq.toNat _ (List.getElem?_eq_getElem hq) (s.start.toNat + t) (by rw [e]; omega)
  rw [uniform_splits T lp hlp.frames _ hq.le] at this
  rw [Nat.add_comm (s.start.toNat + t), this]
  unfold segFrames
  rw [List.getD_eq_getElem?_getD, List.getElem?_eq_getElem hq, Option.getD_some, List.getElem?_take,
    if_pos (by omega), List.getElem?_drop]

/-- The layout: the constructor succeeds on a list of correct segments that is not empty, and holds the frames
of each segment. -/
theorem denseFsaVec_eq (segs : List Seg) (allow : Nat) (hne : segs ≠ [])
    (hs : ∀ s ∈ segs, SegOk lp.length T allow s) :
    ∃ b, denseFsaVec T C lp segs allow = some (b, segs.map (fun s => (segFrames lp s).length)) ∧
      b.cols = C + 1 ∧ Holds (segs.map (fun s => closed C (segFrames lp s))) b := by
  set I := segs.map (segIdx T) with hI
  set B := segs.map (fun s => closed C (segFrames lp s)) with hB
  have hlenS : ∀ s ∈ segs, (closed C (segFrames lp s)).length = (segIdx T s).length := by
    intro s hm
    rw [segIdx_length, closed, List.length_append, List.length_map, segFrames_length T C lp hlp allow s (hs s hm)]
    rfl
  have hmaplen : B.map List.length = I.map List.length := by
    rw [hB, hI, List.map_map, List.map_map]
    apply List.map_congr_left
    intro s hm
    exact hlenS s hm
  have hsplit : ∀ k, splits B k = splits I k := by
    intro k; unfold splits; rw [List.map_take, List.map_take, hmaplen]
  have hflen : B.flatten.length = I.flatten.length := by
    rw [List.length_flatten, List.length_flatten, hmaplen]
  have hIget : ∀ (k : Nat) (s : Seg), segs[k]? = some s → I[k]? = some (segIdx T s) := by
    intro k s h; rw [hI, List.getElem?_map, h]; rfl
  have hBget : ∀ (k : Nat) (s : Seg), segs[k]? = some s → B[k]? = some (closed C (segFrames lp s)) := by
    intro k s h; rw [hB, List.getElem?_map, h]; rfl
  have hIne : I.flatten ≠ [] := by
    obtain ⟨s, ss, rfl⟩ := List.exists_cons_of_ne_nil hne
    simp [hI, segIdx]
  -- the rows
  have hpos : 0 < lp.flatten.length := by
    obtain ⟨s, ss, rfl⟩ := List.exists_cons_of_ne_nil hne
    obtain ⟨⟨h1, h2⟩, ⟨h3, h4⟩, h5, h6⟩ := hs s (by simp)
    have hq : s.seq.toNat < lp.length := by omega
    have e := hlp.frames _ (List.getElem_mem hq)
    have := flatten_get lp s.seq.toNat _ (List.getElem?_eq_getElem hq) 0 (by rw [e]; omega)
    rw [List.getElem?_eq_getElem (l := lp[s.seq.toNat]) (by rw [e]; omega)] at this
    have := (List.getElem?_eq_some_iff.mp this).1
    omega
  have hat : ∀ j, j < I.flatten.length → ∃ (k : Nat) (s : Seg) (t : Nat), segs[k]? = some s ∧ t < segLen T s + 1 ∧
      j = splits I k + t ∧ I.flatten[j]? = some (if t < segLen T s then s.start.toNat + t + s.seq.toNat * T else 0) := by
    intro j hj
    obtain ⟨k, r, t, h1, h2, h3⟩ := flatten_pos I j hj
    have hk : k < segs.length := by
      have := (List.getElem?_eq_some_iff.mp h1).1; simpa [hI] using this
    have hsk := List.getElem?_eq_getElem hk
    rw [hIget k _ hsk] at h1
    obtain rfl := Option.some.inj h1
    have h2' := h2
    rw [segIdx_length] at h2
    refine ⟨k, _, t, hsk, h2, h3, ?_⟩
    rw [h3, flatten_get I k _ (hIget k _ hsk) t h2']
    unfold segIdx
    by_cases ht : t < segLen T segs[k]
    · rw [if_pos ht, List.getElem?_append_left (by simpa using ht)]
      simp [ht]
    · rw [if_neg ht, List.getElem?_append_right (by simp; omega)]
      have : t = segLen T segs[k] := by omega
      simp [this]
  obtain ⟨rows, hrows⟩ := mapM_exists (f := fun i => lp.flatten[i]?) (l := I.flatten) (by
    intro i hi
    obtain ⟨j, hj⟩ := List.getElem?_of_mem hi
    obtain ⟨k, s, t, h1, h2, h3, h4⟩ := hat j (List.getElem?_eq_some_iff.mp hj).1
    rw [h4] at hj
    obtain rfl := Option.some.inj hj
    by_cases ht : t < segLen T s
    · rw [if_pos ht, segFrames_get T C lp hlp allow s (hs s (List.mem_of_getElem? h1)) t ht]
      exact ⟨_, List.getElem?_eq_getElem (by
        rw [segFrames_length T C lp hlp allow s (hs s (List.mem_of_getElem? h1))]; exact ht)⟩
    · rw [if_neg ht]
      exact ⟨_, List.getElem?_eq_getElem hpos⟩)
  obtain ⟨hrl, hrg⟩ := mapM_get hrows
  have hlast : ∀ k, k < segs.length → splits I (k + 1) - 1 = splits I k + segLen T (segs.getD k ⟨0, 0, 0⟩) := by
    intro k hk
    have hsk := List.getElem?_eq_getElem hk
    rw [splits_succ I k _ (hIget k _ hsk), segIdx_length, List.getD_eq_getElem?_getD, hsk]
    simp only [Option.getD_some]; omega
  have hlastlt : ∀ k, k < segs.length → splits I (k + 1) - 1 < I.flatten.length := by
    intro k hk
    have hsk := List.getElem?_eq_getElem hk
    have := splits_le I (k + 1)
    rw [splits_succ I k _ (hIget k _ hsk), segIdx_length] at *
    omega
  obtain ⟨out, ho1, ho2, ho3⟩ := setRows_eq ((0 : S) :: List.replicate C ⊥)
    ((List.range segs.length).map (fun k => 0 + splits I (k + 1) - 1)) (rows.map (fun row => ⊥ :: row)) (by
      intro i hi
      obtain ⟨k, hk, rfl⟩ := List.mem_map.mp hi
      rw [List.length_map, hrl, Nat.zero_add]
      exact hlastlt k (List.mem_range.mp hk))
  rw [List.length_map, hrl] at ho2
  have hout : out = B.flatten := by
    apply List.ext_getElem?
    intro j
    by_cases hj : j < I.flatten.length
    · rw [ho3 j (by rw [List.length_map, hrl]; exact hj)]
      obtain ⟨k, s, t, h1, h2, h3, h4⟩ := hat j hj
      have hsm := hs s (List.mem_of_getElem? h1)
      have hfl := segFrames_length T C lp hlp allow s hsm
      have hkl := (List.getElem?_eq_some_iff.mp h1).1
      rw [h3, ← hsplit k, flatten_get B k _ (hBget k s h1) t (by
        rw [hlenS s (List.mem_of_getElem? h1), segIdx_length]; exact h2), hsplit k]
      unfold closed
      by_cases ht : t < segLen T s
      · rw [if_neg, List.getElem?_append_left (by rw [List.length_map, hfl]; exact ht), List.getElem?_map,
          List.getElem?_map, ← h3, hrg j _ h4, if_pos ht, segFrames_get T C lp hlp allow s hsm t ht]
        intro hm
        obtain ⟨k', hk', he⟩ := List.mem_map.mp hm
        have hk' := List.mem_range.mp hk'
        rw [Nat.zero_add, hlast k' hk'] at he
        have := flatten_pos_unique I (hIget k' _ (List.getElem?_eq_getElem hk')) (hIget k s h1)
          (k := segLen T (segs.getD k' ⟨0, 0, 0⟩)) (k' := t) (by
            rw [segIdx_length, List.getD_eq_getElem?_getD, List.getElem?_eq_getElem hk']
            simp only [Option.getD_some]; omega) (by rw [segIdx_length]; exact h2) he
        obtain ⟨rfl, h7⟩ := this
        rw [List.getD_eq_getElem?_getD, h1, Option.getD_some] at h7
        omega
      · have hte : t = segLen T s := by omega
        rw [if_pos, List.getElem?_append_right (by rw [List.length_map, hfl]; omega), List.length_map, hfl, hte,
          Nat.sub_self]
        · rfl
        · refine List.mem_map.mpr ⟨k, List.mem_range.mpr hkl, ?_⟩
          rw [Nat.zero_add, hlast k hkl, List.getD_eq_getElem?_getD, h1, Option.getD_some, hte]
    · rw [List.getElem?_eq_none (by omega), List.getElem?_eq_none (by omega)]
  have hsp : (0 :: ((List.range segs.length).map (fun k => 0 + splits I (k + 1) - 1)).map (· + 1)) =
      psum (B.map List.length) := by
    apply List.ext_getElem?
    intro k
    have hBl : B.length = segs.length := by rw [hB, List.length_map]
    by_cases hk : k ≤ segs.length
    · rw [psum_get _ _ (by rw [List.length_map]; omega), ← List.map_take]
      change _ = some (splits B k)
      rw [hsplit]
      cases k with
      | zero => simp
      | succ k =>
        rw [List.getElem?_cons_succ, List.map_map, List.getElem?_map, List.getElem?_range (by omega)]
        simp only [Option.map_some, Function.comp_apply, Nat.zero_add, Option.some.injEq]
        rw [splits_succ I k _ (hIget k _ (List.getElem?_eq_getElem (by omega))), segIdx_length]; omega
    · rw [List.getElem?_eq_none (by simp; omega), List.getElem?_eq_none (by simp; omega)]
  refine ⟨⟨psum (B.map List.length), C + 1, C + 1, B.flatten.flatten⟩, ?_, rfl, ⟨rfl, rfl, ?_, rfl⟩⟩
  · unfold denseFsaVec
    rw [segLoop_eq _ T allow segs hs]
    simp only [Option.bind_eq_bind, Option.bind_some, List.nil_append]
    rw [if_neg hIne, hrows]
    simp only [Option.bind_some]
    rw [ho1]
    simp only [Option.bind_some, hout, Option.some.injEq, Prod.mk.injEq]
    refine ⟨by rw [hsp], ?_⟩
    apply List.ext_getElem?
    intro k
    rw [hsp, List.getElem?_zipWith, List.getElem?_tail]
    have hBl : B.length = segs.length := by rw [hB, List.length_map]
    by_cases hk : k < segs.length
    · have hsk := List.getElem?_eq_getElem hk
      have hps : ∀ m, m ≤ segs.length → (psum (B.map List.length))[m]? = some (splits B m) := by
        intro m hm
        rw [psum_get _ _ (by rw [List.length_map]; omega), ← List.map_take]; rfl
      rw [hps _ (by omega), hps _ (by omega)]
      rw [hsplit, hsplit, splits_succ I k _ (hIget k _ hsk), segIdx_length, List.getElem?_map, hsk]
      simp only [Option.map_some, segFrames_length T C lp hlp allow _ (hs _ (List.getElem_mem hk)), Option.some.injEq]
      omega
    · rw [List.getElem?_eq_none (l := psum _) (i := k + 1) (by simp; omega), List.getElem?_eq_none (l := List.map _ _) (by simpa using hk)]
      try rfl
  · intro row hrow
    rw [hB, List.mem_flatten] at hrow
    obtain ⟨x, hx, hrow⟩ := hrow
    obtain ⟨s, hm, rfl⟩ := List.mem_map.mp hx
    unfold closed at hrow
    rcases List.mem_append.mp hrow with h | h
    · obtain ⟨r, hr, rfl⟩ := List.mem_map.mp h
      have h1 : r ∈ lp.getD s.seq.toNat [] := List.mem_of_mem_drop (List.mem_of_mem_take hr)
      rw [List.length_cons]
      congr 1
      rw [List.getD_eq_getElem?_getD] at h1
      cases hq : lp[s.seq.toNat]? with
      | none => rw [hq] at h1; simp at h1
      | some x => rw [hq] at h1; exact hlp.cols x (List.mem_of_getElem? hq) r h1
    · have : row = (0 : S) :: List.replicate C ⊥ := by simpa using h
      rw [this]; simp

end

/-- The constructor fails exactly if there is no segment or some segment is not correct. -/
theorem denseFsaVec_none_iff (T C : Nat) (lp : List (List (List S))) (hlp : Shaped T C lp) (segs : List Seg)
    (allow : Nat) :
    denseFsaVec T C lp segs allow = none ↔ segs = [] ∨ ∃ s ∈ segs, ¬ SegOk lp.length T allow s := by
  constructor
  · intro h
    by_contra hc
    push Not at hc
    obtain ⟨b, hb, -⟩ := denseFsaVec_eq T C lp hlp segs allow hc.1 hc.2
    rw [h] at hb; exact absurd hb (by simp)
  · rintro (rfl | ⟨s, hs, h⟩)
    · simp [denseFsaVec, segLoop]
    · unfold denseFsaVec
      rw [segLoop_none _ T allow segs s hs h]; rfl

end Verif.Fsa.Loss
