import Verif.Tensor.Lemmas
import Mathlib.Data.List.Perm.Basic

/-! # Assignments of elements -/

namespace Verif.Tensor

/-- All lists of indexes. -/
def allIdx : List Nat → List (List Nat)
  | [] => [[]]
  | n :: ds => (List.range n).flatMap (fun i => (allIdx ds).map (i :: ·))

theorem mem_allIdx (dims idx : List Nat) : idx ∈ allIdx dims ↔ InDims idx dims := by
  induction dims generalizing idx with
  | nil => simp [allIdx, InDims]
  | cons d ds ih =>
    simp only [allIdx, List.mem_flatMap, List.mem_range, List.mem_map]
    constructor
    · rintro ⟨i, hi, l, hl, rfl⟩
      exact .cons hi ((ih l).1 hl)
    · intro h
      cases h with
      | cons ha hb => exact ⟨_, ha, _, (ih _).2 hb, rfl⟩

theorem allIdx_nodup (dims : List Nat) : (allIdx dims).Nodup := by
  induction dims with
  | nil => simp [allIdx]
  | cons d ds ih =>
    rw [allIdx, List.nodup_flatMap]
    refine ⟨fun i _ => ih.map (fun a b h => by simpa using h), ?_⟩
    refine List.nodup_range.imp ?_
    intro a b hab x hx hy
    obtain ⟨l, _, rfl⟩ := List.mem_map.1 hx
    obtain ⟨m, _, e⟩ := List.mem_map.1 hy
    simp at e
    exact hab e.1.symm

theorem copyPairs_allIdx (dims : List Nat) : ∀ (ds ss : List Int), ds.length = dims.length → ss.length = dims.length →
    ∀ d s : Int, copyPairs dims ds ss d s = (allIdx dims).map (fun idx => (d + dot idx ds, s + dot idx ss)) := by
  induction dims with
  | nil => intro ds ss h1 h2 d s; cases ds <;> cases ss <;> simp_all [copyPairs, allIdx, dot]
  | cons n dims ih =>
    intro ds ss h1 h2 d s
    cases ds with
    | nil => simp at h1
    | cons a ds =>
      cases ss with
      | nil => simp at h2
      | cons b ss =>
        cases dims with
        | nil =>
          cases ds with
          | cons _ _ => simp at h1
          | nil =>
            cases ss with
            | cons _ _ => simp at h2
            | nil =>
              simp only [copyPairs, allIdx, List.map_flatMap, List.map_cons, List.map_nil, dot, add_zero]
              rw [List.map_eq_flatMap]
        | cons m dims =>
          cases dims with
          | nil =>
            cases ds with
            | nil => simp at h1
            | cons a' ds =>
              cases ds with
              | cons _ _ => simp at h1
              | nil =>
                cases ss with
                | nil => simp at h2
                | cons b' ss =>
                  cases ss with
                  | cons _ _ => simp at h2
                  | nil =>
                    simp only [copyPairs, allIdx, List.map_flatMap, List.map_cons, List.map_nil, dot, add_zero]
                    simp only [List.map_eq_flatMap]
          | cons k dims =>
            have := ih ds ss (by simpa using h1) (by simpa using h2)
            rw [copyPairs]
            · simp only [this]
              rw [show allIdx (n :: m :: k :: dims) =
                (List.range n).flatMap (fun i => (allIdx (m :: k :: dims)).map (i :: ·)) from rfl, List.map_flatMap]
              simp only [List.map_map, Function.comp_def, dot, add_assoc]
            · simp
            · simp

theorem writeAt_some {α : Type} {data : List α} {p : Int} (x : α) (h : 0 ≤ p ∧ p < data.length) :
    writeAt data p x = some (data.set p.toNat x) := by
  unfold writeAt; rw [if_pos h]

/-- Assignments to different positions: each has its effect, and nothing else changes. -/
theorem assign_spec {α β : Type} (conv : α → β) (src : List α) (l : List (Int × Int)) (dst : List β)
    (hn : (l.map Prod.fst).Nodup) (hd : ∀ q ∈ l, 0 ≤ q.1 ∧ q.1 < dst.length)
    (hs : ∀ q ∈ l, ∃ x, readAt src q.2 = some x) :
    ∃ out, assign conv src l dst = some out ∧ out.length = dst.length ∧
      (∀ q ∈ l, readAt out q.1 = (readAt src q.2).map conv) ∧
      (∀ p, p ∉ l.map Prod.fst → readAt out p = readAt dst p) := by
  induction l generalizing dst with
  | nil => exact ⟨dst, rfl, rfl, by simp, fun _ _ => rfl⟩
  | cons q l ih =>
    obtain ⟨d, s⟩ := q
    simp only [List.map_cons, List.nodup_cons] at hn
    obtain ⟨x, hx⟩ := hs (d, s) (by simp)
    have hr := hd (d, s) (by simp)
    simp only at hx hr
    obtain ⟨out, h1, h2, h3, h4⟩ := ih (dst.set d.toNat (conv x)) hn.2
      (fun q hq => by rw [List.length_set]; exact hd q (by simp [hq])) (fun q hq => hs q (by simp [hq]))
    have hset : ∀ p, readAt (dst.set d.toNat (conv x)) p = if p = d then some (conv x) else readAt dst p := by
      intro p
      unfold readAt
      by_cases hp : 0 ≤ p
      · rw [if_pos hp, List.getElem?_set]
        by_cases he : p = d
        · subst he
          have : p.toNat < dst.length := by omega
          simp [this]
        · have : ¬ d.toNat = p.toNat := by omega
          simp [this, he, hp]
      · have : p ≠ d := by omega
        simp [hp, this]
    refine ⟨out, ?_, by simpa using h2, ?_, ?_⟩
    · simp only [assign, hx, Option.bind_eq_bind, Option.bind_some]
      rw [writeAt_some (conv x) hr]
      simpa using h1
    · intro q hq
      rcases List.mem_cons.1 hq with rfl | hq
      · simp only
        rw [h4 d hn.1, hset, if_pos rfl, hx]
        rfl
      · exact h3 q hq
    · intro p hp
      simp only [List.map_cons, List.mem_cons, not_or] at hp
      rw [h4 p hp.2, hset, if_neg hp.1]

end Verif.Tensor
