import Verif.Tensor.Model
import Mathlib.Data.List.Forall2
import Mathlib.Data.List.Nodup
import Mathlib.Algebra.BigOperators.Group.List.Basic
import Mathlib.Tactic.Ring
import Mathlib.Tactic.Linarith

/-! # Addresses of the elements of a tensor -/

namespace Verif.Tensor

/-- `idx` is a list of indexes into `dims`. -/
def InDims (idx dims : List Nat) : Prop := List.Forall₂ (· < ·) idx dims

/-- The offset of an element from the first one. -/
def dot : List Nat → List Int → Int
  | i :: is, s :: ss => i * s + dot is ss
  | _, _ => 0

/-- The element of a tensor at a list of indexes (tensor.h: `data[offset + sum of indexes times strides]`). -/
def elem {α : Type} (t : Tensor α) (idx : List Nat) : Option α := readAt t.data (t.offset + dot idx t.shape.strides)

/-- The position of an element in row-major order. -/
def rank : List Nat → List Nat → Nat
  | _ :: ds, i :: is => i * ds.prod + rank ds is
  | _, _ => 0

/-- All elements of the tensor are in its memory. -/
def Valid {α : Type} (t : Tensor α) : Prop :=
  t.shape.strides.length = t.shape.dims.length ∧ ∀ idx, InDims idx t.shape.dims → ∃ x, elem t idx = some x

theorem numElements_prod (dims : List Nat) : numElements dims = dims.prod := by
  unfold numElements
  rw [List.prod_eq_foldl]

theorem readAt_isSome {α : Type} (data : List α) (p : Int) : (∃ x, readAt data p = some x) ↔ 0 ≤ p ∧ p < data.length := by
  unfold readAt
  constructor
  · rintro ⟨x, hx⟩
    split at hx
    · next h =>
      have := (List.getElem?_eq_some_iff.1 hx).1
      omega
    · cases hx
  · rintro ⟨h1, h2⟩
    rw [if_pos h1]
    have : p.toNat < data.length := by omega
    exact ⟨_, List.getElem?_eq_getElem this⟩

theorem reachLoop_acc (dims : List Nat) (strides : List Int) (hp : ∀ d ∈ dims, 0 < d) : ∀ b e,
    reachLoop dims strides b e = (b + (reachLoop dims strides 0 0).1, e + (reachLoop dims strides 0 0).2) := by
  induction dims generalizing strides with
  | nil => intro b e; simp [reachLoop]
  | cons d ds ih =>
    intro b e
    cases strides with
    | nil => simp [reachLoop]
    | cons s ss =>
      have hd : d ≠ 0 := by have := hp d (by simp); omega
      have ih' := ih ss (fun x hx => hp x (by simp [hx]))
      simp only [reachLoop, if_neg hd]
      by_cases hs : s > 0
      · simp only [if_pos hs]
        rw [ih' b, ih' 0 (0 + _)]
        simp [add_assoc]
      · simp only [if_neg hs]
        rw [ih' _ e, ih' (0 + _) 0]
        simp [add_assoc]

/-- The reachable range contains every address, and its ends are attained. -/
theorem reachLoop_spec (dims : List Nat) (strides : List Int) (hp : ∀ d ∈ dims, 0 < d)
    (hl : strides.length = dims.length) :
    (∀ idx, InDims idx dims → (reachLoop dims strides 0 0).1 ≤ dot idx strides ∧
      dot idx strides ≤ (reachLoop dims strides 0 0).2) ∧
    (∃ idx, InDims idx dims ∧ dot idx strides = (reachLoop dims strides 0 0).1) ∧
    (∃ idx, InDims idx dims ∧ dot idx strides = (reachLoop dims strides 0 0).2) := by
  induction dims generalizing strides with
  | nil =>
    cases strides with
    | nil => exact ⟨fun idx h => by cases h; simp [dot, reachLoop], ⟨[], .nil, rfl⟩, ⟨[], .nil, rfl⟩⟩
    | cons s ss => simp at hl
  | cons d ds ih =>
    cases strides with
    | nil => simp at hl
    | cons s ss =>
      have hd0 : 0 < d := hp d (by simp)
      have hd : d ≠ 0 := by omega
      have hp' : ∀ x ∈ ds, 0 < x := fun x hx => hp x (by simp [hx])
      obtain ⟨h1, ⟨i1, hi1, e1⟩, ⟨i2, hi2, e2⟩⟩ := ih ss hp' (by simpa using hl)
      have hcast : ((d - 1 : Nat) : Int) = (d : Int) - 1 := by omega
      simp only [reachLoop, if_neg hd]
      by_cases hs : s > 0
      · simp only [if_pos hs]
        rw [reachLoop_acc ds ss hp' 0]
        simp only [zero_add]
        refine ⟨?_, ⟨0 :: i1, .cons hd0 hi1, by simp [dot, e1]⟩,
          ⟨(d - 1) :: i2, .cons (by omega) hi2, by simp only [dot, e2, hcast]⟩⟩
        intro idx hidx
        cases hidx with
        | cons ha hb =>
          rename_i a l
          have := h1 l hb
          simp only [dot]
          have h3 : (a : Int) * s ≤ ((d : Int) - 1) * s := mul_le_mul_of_nonneg_right (by omega) (by omega)
          have h4 : 0 ≤ (a : Int) * s := mul_nonneg (by omega) (by omega)
          omega
      · simp only [if_neg hs]
        rw [reachLoop_acc ds ss hp' _ 0]
        simp only [zero_add]
        refine ⟨?_, ⟨(d - 1) :: i1, .cons (by omega) hi1, by simp only [dot, e1, hcast]⟩,
          ⟨0 :: i2, .cons hd0 hi2, by simp [dot, e2]⟩⟩
        intro idx hidx
        cases hidx with
        | cons ha hb =>
          rename_i a l
          have := h1 l hb
          simp only [dot]
          have h3 : ((d : Int) - 1) * s ≤ (a : Int) * s := by nlinarith
          have h4 : (a : Int) * s ≤ 0 := by nlinarith
          omega

theorem inDims_pos {idx dims : List Nat} (h : InDims idx dims) : ∀ d ∈ dims, 0 < d := by
  induction h with
  | nil => simp
  | cons ha hb ih =>
    intro d hd
    rcases List.mem_cons.1 hd with rfl | hd
    · omega
    · exact ih d hd

theorem reach_spec (s : Shape) (hp : ∀ d ∈ s.dims, 0 < d) (hl : s.strides.length = s.dims.length) :
    (∀ idx, InDims idx s.dims → (reach s).1 ≤ dot idx s.strides ∧ dot idx s.strides < (reach s).2) ∧
    (∃ idx, InDims idx s.dims ∧ dot idx s.strides = (reach s).1) ∧
    (∃ idx, InDims idx s.dims ∧ dot idx s.strides = (reach s).2 - 1) := by
  obtain ⟨h1, ⟨i1, hi1, e1⟩, ⟨i2, hi2, e2⟩⟩ := reachLoop_spec s.dims s.strides hp hl
  have h : reach s = _ := reachLoop_acc s.dims s.strides hp 0 1
  rw [h]
  refine ⟨fun idx hidx => ?_, ⟨i1, hi1, by simp [e1]⟩, ⟨i2, hi2, by simp [e2]⟩⟩
  have := h1 idx hidx
  simp only
  omega

/-- The check of the constructor is that all elements are in the memory. -/
theorem check_iff {α : Type} (s : Shape) (data : List α) (off : Int) (hp : ∀ d ∈ s.dims, 0 < d)
    (hl : s.strides.length = s.dims.length) :
    (0 ≤ off + (reach s).1 ∧ off + (reach s).2 ≤ data.length) ↔ Valid (⟨s, off, data⟩ : Tensor α) := by
  obtain ⟨h1, ⟨i1, hi1, e1⟩, ⟨i2, hi2, e2⟩⟩ := reach_spec s hp hl
  constructor
  · rintro ⟨ha, hb⟩
    refine ⟨hl, fun idx hidx => (readAt_isSome _ _).2 ?_⟩
    have := h1 idx hidx
    simp only
    omega
  · rintro ⟨_, h⟩
    have a1 := (readAt_isSome _ _).1 (h i1 hi1)
    have a2 := (readAt_isSome _ _).1 (h i2 hi2)
    simp only at a1 a2
    omega

/-! ## Index and Flip -/

theorem dot_insertIdx (idx : List Nat) (strides : List Int) (axis : Nat) (i : Nat) (s : Int)
    (hs : strides[axis]? = some s) (hl : idx.length + 1 = strides.length) :
    dot (idx.insertIdx axis i) strides = i * s + dot idx (strides.eraseIdx axis) := by
  induction axis generalizing idx strides with
  | zero =>
    cases strides with
    | nil => simp at hs
    | cons a l => simp at hs; subst hs; simp [dot]
  | succ n ih =>
    cases strides with
    | nil => simp at hs
    | cons a l =>
      cases idx with
      | nil => simp at hl; subst hl; simp at hs
      | cons b m =>
        have := ih m l (by simpa using hs) (by simpa using hl)
        simp only [List.insertIdx_succ_cons, dot, List.eraseIdx_cons_succ, this]
        ring

theorem inDims_insertIdx (idx dims : List Nat) (axis i d : Nat) (hd : dims[axis]? = some d) (hi : i < d)
    (h : InDims idx (dims.eraseIdx axis)) : InDims (idx.insertIdx axis i) dims := by
  induction axis generalizing idx dims with
  | zero =>
    cases dims with
    | nil => simp at hd
    | cons a l => simp at hd; subst hd; simp at h ⊢; exact .cons hi h
  | succ n ih =>
    cases dims with
    | nil => simp at hd
    | cons a l =>
      simp only [List.eraseIdx_cons_succ] at h
      cases h with
      | cons ha hb => exact .cons ha (ih _ l (by simpa using hd) hb)

theorem dot_set (idx : List Nat) (strides : List Int) (axis a d : Nat) (s : Int) (hs : strides[axis]? = some s)
    (ha : idx[axis]? = some a) (had : a < d) :
    dot (idx.set axis (d - 1 - a)) strides = s * ((d : Int) - 1) + dot idx (strides.set axis (-s)) := by
  induction axis generalizing idx strides with
  | zero =>
    cases strides with
    | nil => simp at hs
    | cons b l =>
      cases idx with
      | nil => simp at ha
      | cons c m =>
        simp at hs ha
        subst hs; subst ha
        have : ((d - 1 - c : Nat) : Int) = (d : Int) - 1 - c := by omega
        simp only [List.set_cons_zero, dot, this]
        ring
  | succ n ih =>
    cases strides with
    | nil => simp at hs
    | cons b l =>
      cases idx with
      | nil => simp at ha
      | cons c m =>
        have := ih m l (by simpa using hs) (by simpa using ha)
        simp only [List.set_cons_succ, dot, this]
        ring

theorem inDims_set (idx dims : List Nat) (axis a d : Nat) (hd : dims[axis]? = some d) (ha : idx[axis]? = some a)
    (h : InDims idx dims) : a < d ∧ InDims (idx.set axis (d - 1 - a)) dims := by
  induction axis generalizing idx dims with
  | zero =>
    cases h with
    | nil => simp at hd
    | cons x y =>
      simp at hd ha
      subst hd; subst ha
      exact ⟨x, .cons (by omega) y⟩
  | succ n ih =>
    cases h with
    | nil => simp at hd
    | cons x y =>
      obtain ⟨h1, h2⟩ := ih _ _ (by simpa using hd) (by simpa using ha) y
      exact ⟨h1, .cons x h2⟩

/-! ## Row-major order -/

theorem rank_lt {idx dims : List Nat} (h : InDims idx dims) : rank dims idx < dims.prod := by
  induction h with
  | nil => simp [rank]
  | @cons a b l m ha hb ih =>
    simp only [rank, List.prod_cons]
    calc a * m.prod + rank m l < a * m.prod + m.prod := by omega
      _ = (a + 1) * m.prod := by ring
      _ ≤ b * m.prod := Nat.mul_le_mul_right _ (by omega)

theorem rank_inj {dims idx idx' : List Nat} (h : InDims idx dims) (h' : InDims idx' dims)
    (he : rank dims idx = rank dims idx') : idx = idx' := by
  induction h generalizing idx' with
  | nil => cases h'; rfl
  | @cons a b l m ha hb ih =>
    cases h' with
    | @cons a' _ l' _ ha' hb' =>
      simp only [rank] at he
      have r1 := rank_lt hb
      have r2 := rank_lt hb'
      have hpos : 0 < m.prod := by omega
      have hq : a = a' := by
        have e1 : (a * m.prod + rank m l) / m.prod = a := by
          rw [Nat.mul_comm, Nat.mul_add_div hpos, Nat.div_eq_of_lt r1, Nat.add_zero]
        have e2 : (a' * m.prod + rank m l') / m.prod = a' := by
          rw [Nat.mul_comm, Nat.mul_add_div hpos, Nat.div_eq_of_lt r2, Nat.add_zero]
        rw [← e1, ← e2, he]
      subst hq
      rw [ih hb' (by omega)]

theorem rank_surj (dims : List Nat) : ∀ k, k < dims.prod → ∃ idx, InDims idx dims ∧ rank dims idx = k := by
  induction dims with
  | nil => intro k hk; simp at hk; exact ⟨[], .nil, by simp [rank, hk]⟩
  | cons d ds ih =>
    intro k hk
    simp only [List.prod_cons] at hk
    have hpos : 0 < ds.prod := by
      rcases Nat.eq_zero_or_pos ds.prod with h | h
      · rw [h] at hk; simp at hk
      · exact h
    obtain ⟨l, hl, e⟩ := ih (k % ds.prod) (Nat.mod_lt _ hpos)
    refine ⟨k / ds.prod :: l, .cons ?_ hl, ?_⟩
    · exact Nat.div_lt_of_lt_mul (by rw [Nat.mul_comm]; exact hk)
    · simp only [rank, e]
      rw [Nat.mul_comm]; exact Nat.div_add_mod k ds.prod

theorem contigLoop_rank : ∀ (dims : List Nat) (strides : List Int) (z : Int), strides.length = dims.length →
    contigLoop dims strides = some z →
    z = dims.prod ∧ ∀ idx, InDims idx dims → dot idx strides = rank dims idx := by
  intro dims
  induction dims with
  | nil =>
    intro strides z hl h
    simp [contigLoop] at h
    refine ⟨by simp [← h], fun idx hidx => ?_⟩
    cases hidx
    cases strides <;> simp [dot, rank]
  | cons d ds ih =>
    intro strides z hl h
    cases strides with
    | nil => simp at hl
    | cons s ss =>
      simp only [contigLoop] at h
      cases hc : contigLoop ds ss with
      | none => rw [hc] at h; simp at h
      | some w =>
        obtain ⟨e, hr⟩ := ih ss w (by simpa using hl) hc
        rw [hc] at h
        simp only at h
        by_cases hd : d = 1
        · simp [hd] at h
          refine ⟨by rw [← h, e, hd]; simp, fun idx hidx => ?_⟩
          cases hidx with
          | cons ha hb =>
            rename_i a l
            have : a = 0 := by omega
            simp [dot, rank, this, hr l hb]
        · simp only [ne_eq, hd, not_false_eq_true, if_true] at h
          by_cases hs : s = w
          · simp [hs] at h
            refine ⟨by rw [← h, e]; simp [mul_comm], fun idx hidx => ?_⟩
            cases hidx with
            | cons ha hb =>
              rename_i a l
              simp only [dot, rank, hr l hb, hs, e]
              push_cast
              ring
          · simp [hs] at h

theorem inDims_zero (dims : List Nat) (hp : ∀ d ∈ dims, 0 < d) : InDims (dims.map (fun _ => 0)) dims := by
  induction dims with
  | nil => exact .nil
  | cons d ds ih => exact .cons (hp d (by simp)) (ih (fun x hx => hp x (by simp [hx])))

theorem rank_zero (dims : List Nat) : rank dims (dims.map (fun _ => 0)) = 0 := by
  induction dims with
  | nil => rfl
  | cons d ds ih => simp only [List.map_cons, rank, ih]; simp

theorem contigLoop_of_rank : ∀ (dims : List Nat) (strides : List Int), strides.length = dims.length →
    (∀ d ∈ dims, 0 < d) → (∀ idx, InDims idx dims → dot idx strides = rank dims idx) →
    contigLoop dims strides = some (dims.prod : Int) := by
  intro dims
  induction dims with
  | nil => intro strides hl _ _; cases strides <;> simp [contigLoop]
  | cons d ds ih =>
    intro strides hl hp h
    cases strides with
    | nil => simp at hl
    | cons s ss =>
      have hp' : ∀ x ∈ ds, 0 < x := fun x hx => hp x (by simp [hx])
      have hd := hp d (by simp)
      have := ih ss (by simpa using hl) hp' (fun l hl' => by
        have := h (0 :: l) (.cons hd hl')
        simpa [dot, rank] using this)
      simp only [contigLoop, this]
      by_cases h1 : d = 1
      · simp [h1]
      · have e := h (1 :: ds.map (fun _ => 0)) (.cons (by omega) (inDims_zero ds hp'))
        have e0 := h (0 :: ds.map (fun _ => 0)) (.cons hd (inDims_zero ds hp'))
        simp [dot, rank] at e e0
        have hs : s = (ds.prod : Int) := by omega
        simp [h1, hs, mul_comm]

theorem mkStrides_length (dims : List Nat) : (mkStrides dims).length = dims.length := by
  induction dims with
  | nil => rfl
  | cons d ds ih =>
    cases ds with
    | nil => rfl
    | cons e es =>
      simp only [mkStrides]
      cases h : mkStrides (e :: es) with
      | nil => rw [h] at ih; simp at ih
      | cons s ss => rw [h] at ih; simp at ih ⊢; omega

theorem mkStrides_cons (d : Nat) (ds : List Nat) : mkStrides (d :: ds) = (ds.prod : Int) :: mkStrides ds := by
  induction ds generalizing d with
  | nil => simp [mkStrides]
  | cons e es ih =>
    have := ih e
    simp only [mkStrides, this]
    simp [mul_comm]

theorem dot_mkStrides {idx dims : List Nat} (h : InDims idx dims) : dot idx (mkStrides dims) = rank dims idx := by
  induction h with
  | nil => simp [dot, rank]
  | @cons a b l m ha hb ih =>
    rw [mkStrides_cons]
    simp only [dot, rank, ih]
    push_cast
    ring

end Verif.Tensor
