import Verif.Fsa.Lev.Props
import Mathlib.Data.List.Nodup
import Mathlib.Data.List.Range

/-!
# The default penalty does not give the edit distance of long sequences

With the default `ins_del_score = -0.501` (k2/python/k2/fsa_algo.py 1335) an insertion or deletion
costs 0.001 more than a substitution while the best path is searched.  When the best alignment
needs more than a thousand insertions and deletions this outweighs a whole edit.
-/

namespace Verif.Lev

theorem gaps_ge (l : List Op) :
    (refOf l).length ≤ (hypOf l).length + gaps l ∧ (hypOf l).length ≤ (refOf l).length + gaps l := by
  induction l with
  | nil => simp
  | cons o l ih => cases o <;> simp [Op.ref, Op.hyp, Op.gap] <;> omega

theorem gaps_le_edits (l : List Op) : gaps l ≤ edits l := by
  induction l with
  | nil => simp
  | cons o l ih => cases o <;> simp [Op.edit, Op.gap] <;> omega

theorem gaps_append (l l' : List Op) : gaps (l ++ l') = gaps l + gaps l' := by simp [gaps]
theorem edits_append (l l' : List Op) : edits (l ++ l') = edits l + edits l' := by simp [edits]

/-- If reference `A ++ Z` and hypothesis `Z ++ B` share only `Z`, an alignment that matches anything
needs all the insertions and deletions of the shift. -/
theorem shift_gaps (A Z B : List Int) (hn : A.length = B.length) (h1 : (A ++ Z).Nodup)
    (h2 : (Z ++ B).Nodup) (hA : ∀ x ∈ A, x ∉ Z ++ B) (hB : ∀ x ∈ B, x ∉ A ++ Z)
    (l : List Op) (hl : Aligns l (A ++ Z) (Z ++ B)) (x : Int) (hx : Op.mat x ∈ l) :
    2 * A.length ≤ gaps l := by
  obtain ⟨l1, l2, rfl⟩ := List.append_of_mem hx
  obtain ⟨hr, hh⟩ := hl
  have er : refOf (l1 ++ Op.mat x :: l2) = refOf l1 ++ x :: refOf l2 := by simp [refOf, Op.ref]
  have eh : hypOf (l1 ++ Op.mat x :: l2) = hypOf l1 ++ x :: hypOf l2 := by simp [hypOf, Op.hyp]
  rw [er] at hr
  rw [eh] at hh
  have hxr : x ∈ A ++ Z := by rw [← hr]; simp
  have hxh : x ∈ Z ++ B := by rw [← hh]; simp
  have hxZ : x ∈ Z := by
    rcases List.mem_append.mp hxr with h | h
    · exact absurd hxh (hA x h)
    · exact h
  obtain ⟨a, ha, rfl⟩ := List.mem_iff_getElem.mp hxZ
  have p1 : (A ++ Z)[(refOf l1).length]? = some Z[a] := by rw [← hr]; simp
  have p2 : (A ++ Z)[A.length + a]? = some Z[a] := by
    rw [List.getElem?_append_right (by omega)]
    simp [ha]
  have q1 : (Z ++ B)[(hypOf l1).length]? = some Z[a] := by rw [← hh]; simp
  have q2 : (Z ++ B)[a]? = some Z[a] := by
    rw [List.getElem?_append_left ha]; simp [ha]
  have e1 : A.length + a = (refOf l1).length :=
    (List.getElem?_inj (List.getElem?_eq_some_iff.mp p2).1 h1).mp (p2.trans p1.symm)
  have e2 : a = (hypOf l1).length :=
    (List.getElem?_inj (List.getElem?_eq_some_iff.mp q2).1 h2).mp (q2.trans q1.symm)
  have s1 := congrArg List.length hr
  have s2 := congrArg List.length hh
  simp only [List.length_append, List.length_cons] at s1 s2
  have g1 := gaps_ge l1
  have g2 := gaps_ge l2
  rw [gaps_append, gaps_cons]
  simp only [Op.gap]
  omega

theorem edits_no_match (l : List Op) (h : ∀ x, Op.mat x ∉ l) : (refOf l).length ≤ edits l := by
  induction l with
  | nil => simp
  | cons o l ih =>
    have ih := ih (fun x hx => h x (by simp [hx]))
    cases o with
    | mat x => exact absurd (by simp) (h x)
    | sub x y => simp [Op.ref, Op.edit]; omega
    | ins y => simp [Op.ref, Op.edit]; omega
    | del x => simp [Op.ref, Op.edit]; omega

theorem shift_distance (A Z B : List Int) :
    editDistance (A ++ Z) (Z ++ B) ≤ A.length + B.length := by
  have hz : ∀ Z : List Int, refOf (Z.map Op.mat) = Z ∧ hypOf (Z.map Op.mat) = Z ∧
      edits (Z.map Op.mat) = 0 := by
    intro Z
    induction Z with
    | nil => exact ⟨rfl, rfl, rfl⟩
    | cons z Z ih => simp [Op.ref, Op.hyp, Op.edit, ih]
  obtain ⟨z1, z2, z3⟩ := hz Z
  obtain ⟨⟨a1, a2⟩, a3⟩ := aligns_del A
  obtain ⟨⟨b1, b2⟩, b3⟩ := aligns_ins B
  have := editDistance_le (A.map Op.del ++ (Z.map Op.mat ++ B.map Op.ins))
  have er : refOf (A.map Op.del ++ (Z.map Op.mat ++ B.map Op.ins)) = A ++ Z := by
    unfold refOf at *
    rw [List.flatMap_append, List.flatMap_append, a1, z1, b1]; simp
  have eh : hypOf (A.map Op.del ++ (Z.map Op.mat ++ B.map Op.ins)) = Z ++ B := by
    unfold hypOf at *
    rw [List.flatMap_append, List.flatMap_append, a2, z2, b2]; simp
  rw [er, eh, edits_append, edits_append, a3, z3, b3] at this
  omega

/-- Substitute symbol by symbol. -/
theorem sub_alignment (xs ys : List Int) (h : xs.length = ys.length) :
    Aligns (List.zipWith Op.sub xs ys) xs ys ∧ edits (List.zipWith Op.sub xs ys) = xs.length ∧
      gaps (List.zipWith Op.sub xs ys) = 0 := by
  induction xs generalizing ys with
  | nil =>
    have : ys = [] := List.eq_nil_of_length_eq_zero (by simpa using h.symm)
    subst this
    exact ⟨⟨rfl, rfl⟩, rfl, rfl⟩
  | cons x xs ih =>
    cases ys with
    | nil => simp at h
    | cons y ys =>
      obtain ⟨⟨e1, e2⟩, e3, e4⟩ := ih ys (by simpa using h)
      refine ⟨⟨by simp [Op.ref, e1], by simp [Op.hyp, e2]⟩, ?_, ?_⟩
      · simp [Op.edit, e3]; omega
      · simp [Op.gap, e4]

end Verif.Lev

namespace Verif.Fsa.Lev
open Verif.Fsa Verif.Lev

/-- Symbols `b, b+1, ..., b+n-1`. -/
def block (b n : Nat) : List Int := (List.range' b n).map (fun k : Nat => (k : Int))

theorem mem_block (b n : Nat) (x : Int) : x ∈ block b n ↔ (b : Int) ≤ x ∧ x < b + n := by
  unfold block
  rw [List.mem_map]
  constructor
  · rintro ⟨k, hk, rfl⟩
    rw [List.mem_range'_1] at hk
    omega
  · rintro ⟨h1, h2⟩
    refine ⟨x.toNat, ?_, by omega⟩
    rw [List.mem_range'_1]; omega

theorem block_nodup (b n : Nat) : (block b n).Nodup :=
  List.Nodup.map (fun _ _ h => by simpa using h) List.nodup_range'

@[simp] theorem block_length (b n : Nat) : (block b n).length = n := by simp [block]

/-- Two sequences of 1201 symbols for which the best path under the default penalty reports 1201
although the edit distance is at most 1200. -/
theorem levenshtein_not_distance :
    ∃ (xs ys : List Int) (g h : Fsa Tag) (p q : List (Arc Tag)),
      levenshteinGraph (-501/1000) xs = some g ∧ levenshteinGraph (-501/1000) ys = some h ∧
      xs.length = 1201 ∧ ys.length = 1201 ∧
      Best g h p q ∧ adjusted p q = -1201 ∧ editDistance xs ys ≤ 1200 := by
  have hxs0 : (0 : Int) ∉ block 1 600 ++ block 1001 601 ∧ (-1 : Int) ∉ block 1 600 ++ block 1001 601 := by
    simp only [List.mem_append, mem_block]; omega
  have hys0 : (0 : Int) ∉ block 1001 601 ++ block 2001 600 ∧
      (-1 : Int) ∉ block 1001 601 ++ block 2001 600 := by
    simp only [List.mem_append, mem_block]; omega
  obtain ⟨g, hg⟩ := Option.isSome_iff_exists.mp ((levenshteinGraph_defined (-501/1000) _).mpr hxs0)
  obtain ⟨h, hh⟩ := Option.isSome_iff_exists.mp ((levenshteinGraph_defined (-501/1000) _).mpr hys0)
  obtain ⟨sa, sb, sc⟩ := sub_alignment (block 1 600 ++ block 1001 601) (block 1001 601 ++ block 2001 600)
    (by simp)
  obtain ⟨p, q, e1, e2, e3, e4⟩ := lattice_complete (-501/1000) _ _ g h hg hh _ sa
  have hlen : (block 1 600 ++ block 1001 601).length = 1201 := by simp
  rw [sb, hlen] at e3 e4
  rw [sc] at e3
  refine ⟨_, _, g, h, p, q, hg, hh, hlen, by simp, ⟨e1, ?_⟩, by rw [e4]; norm_num, ?_⟩
  · intro p' q' hp'
    obtain ⟨l, k, f1, _, _, f4, _⟩ := lattice_sound (-501/1000) _ _ g h hg hh p' q' hp'
    rw [f4, e3]
    have hk : (0 : ℚ) ≤ (k : ℚ) := Nat.cast_nonneg k
    have hgp : (0 : ℚ) ≤ (gaps l : ℚ) := Nat.cast_nonneg _
    by_cases hm : ∃ x, Op.mat x ∈ l
    · obtain ⟨x, hx⟩ := hm
      have hgap := shift_gaps (block 1 600) (block 1001 601) (block 2001 600) (by simp)
        (by
          rw [List.nodup_append]
          refine ⟨block_nodup _ _, block_nodup _ _, ?_⟩
          intro a ha b hb
          rw [mem_block] at ha hb; omega)
        (by
          rw [List.nodup_append]
          refine ⟨block_nodup _ _, block_nodup _ _, ?_⟩
          intro a ha b hb
          rw [mem_block] at ha hb; omega)
        (by
          intro a ha
          simp only [List.mem_append, mem_block] at ha ⊢; omega)
        (by
          intro a ha
          simp only [List.mem_append, mem_block] at ha ⊢; omega)
        l f1 x hx
      rw [block_length] at hgap
      have h1 : (1200 : ℚ) ≤ (gaps l : ℚ) := by exact_mod_cast hgap
      have h2 : (gaps l : ℚ) ≤ (edits l : ℚ) := by exact_mod_cast gaps_le_edits l
      push_cast
      linarith
    · have hed := edits_no_match l (fun x hx => hm ⟨x, hx⟩)
      rw [f1.1, hlen] at hed
      have h1 : (1201 : ℚ) ≤ (edits l : ℚ) := by exact_mod_cast hed
      push_cast
      linarith
  · have := shift_distance (block 1 600) (block 1001 601) (block 2001 600)
    simpa using this

/-! Concrete cases for the theorems of `Props.lean`. -/

example : (levenshteinGraph (-501/1000) [1, 2]).isSome := by decide
example : ((-1/2 : ℚ) - (-501/1000)) * (((([1, 2, 4] : List Int).length : ℕ) : ℚ) +
    ((([1, 3, 3, 2] : List Int).length : ℕ) : ℚ)) < 1 := by norm_num
example : Aligns [.mat 1, .sub 2 3, .sub 4 3, .ins 2] [1, 2, 4] [1, 3, 3, 2] := by
  constructor <;> rfl

end Verif.Fsa.Lev
