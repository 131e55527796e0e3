import Verif.Fsa.Ctc.BatchLemmas

/-! # `LinearFsas` for a batch -/

namespace Verif.Fsa.CtcB
open Verif.Ragged Verif.Util
variable {W : Type} [Zero W]

/-- The arcs of each state of the linear FSA of a transcript. -/
def linearRows (y : List Int) : List (List (Arc W)) :=
  (List.range (y.length + 1)).map (fun i => [linearArc y i]) ++ [[]]

theorem linearRows_length (y : List Int) : (linearRows (W := W) y).length = y.length + 2 := by simp [linearRows]

theorem linearRows_get (y : List Int) (q : Nat) :
    (linearRows (W := W) y)[q]? =
      if q < y.length + 1 then some [linearArc y q] else if q = y.length + 1 then some [] else none := by
  unfold linearRows
  by_cases h : q < y.length + 1
  · rw [if_pos h, List.getElem?_append_left (by simpa using h)]; simp [h]
  · rw [if_neg h, List.getElem?_append_right (by simp; omega)]
    by_cases h2 : q = y.length + 1
    · simp [h2]
    · rw [if_neg h2, List.getElem?_eq_none_iff]; simp; omega

theorem linearRows_flatten (y : List Int) :
    (linearRows (W := W) y).flatten = (List.range (y.length + 1)).map (linearArc y) := by
  simp only [linearRows, List.flatten_append, List.flatten_cons, List.flatten_nil, List.append_nil]
  rw [← List.flatMap_def]; exact List.map_eq_flatMap.symm

section
variable (Y : List (List Int))

def linAll : List (List (List (Arc W))) := Y.map linearRows

theorem linAll_get {r : Nat} {y : List Int} (h : Y[r]? = some y) :
    (linAll (W := W) Y)[r]? = some (linearRows y) := by simp [linAll, h]

theorem linOff (r : Nat) (h : r ≤ Y.length) : off (linAll (W := W) Y) r = splits Y r + 2 * r := by
  induction r with
  | zero => simp [off]
  | succ r ih =>
    have hy := List.getElem?_eq_getElem (show r < Y.length by omega)
    rw [off_succ _ r _ (linAll_get Y hy), splits_succ Y r _ hy, ih (by omega), linearRows_length]
    omega

theorem linRows_get (r : Nat) (y : List Int) (q : Nat) (h : Y[r]? = some y) (hq : q < y.length + 2) :
    (linAll (W := W) Y).flatten[off (linAll (W := W) Y) r + q]? = (linearRows y)[q]? :=
  state_at _ r q _ (linAll_get Y h) (by rw [linearRows_length]; exact hq)

/-- The position of the arcs of a state. -/
theorem linApos (r : Nat) (y : List Int) (q : Nat) (h : Y[r]? = some y) (hq : q ≤ y.length + 2) :
    apos (linAll (W := W) Y) (off (linAll (W := W) Y) r + q) = splits Y r + r + min q (y.length + 1) := by
  have hrow : ∀ (r : Nat) (y : List Int), Y[r]? = some y → ∀ (b : Nat),
      apos (linAll (W := W) Y) (off (linAll (W := W) Y) r) = b → ∀ q, q ≤ y.length + 2 →
      apos (linAll (W := W) Y) (off (linAll (W := W) Y) r + q) = b + min q (y.length + 1) := by
    intro r y h b hb q
    induction q with
    | zero => intro _; simpa using hb
    | succ q ih =>
      intro hq
      have hg := linRows_get (W := W) Y r y q h (by omega)
      rw [linearRows_get] at hg
      by_cases h1 : q < y.length + 1
      · rw [if_pos h1] at hg
        rw [← Nat.add_assoc, apos_succ _ _ _ hg, ih (by omega)]
        simp only [List.length_singleton]; omega
      · rw [if_neg h1, if_pos (by omega)] at hg
        rw [← Nat.add_assoc, apos_succ _ _ _ hg, ih (by omega)]
        simp only [List.length_nil]; omega
  have hbase : ∀ r, r ≤ Y.length → apos (linAll (W := W) Y) (off (linAll (W := W) Y) r) = splits Y r + r := by
    intro r
    induction r with
    | zero => intro _; simp [off, apos]
    | succ r ih =>
      intro hr
      have hy := List.getElem?_eq_getElem (show r < Y.length by omega)
      have := hrow r _ hy _ (ih (by omega)) (Y[r].length + 2) (le_refl _)
      rw [off_succ _ r _ (linAll_get Y hy), linearRows_length, this, splits_succ Y r _ hy]
      omega
  exact hrow r y h _ (hbase r (List.getElem?_eq_some_iff.mp h).1.le) q hq

theorem linStates_get (g : Nat) (h : g < (linAll (W := W) Y).flatten.length) :
    ∃ (r : Nat) (y : List Int) (q : Nat), Y[r]? = some y ∧ q < y.length + 2 ∧
      g = off (linAll (W := W) Y) r + q := by
  obtain ⟨r, f, q, h1, h2, h3⟩ := state_pos _ g h
  have hr : r < Y.length := by
    have := (List.getElem?_eq_some_iff.mp h1).1; simpa [linAll] using this
  have hy := List.getElem?_eq_getElem hr
  rw [linAll_get Y hy] at h1
  obtain rfl := Option.some.inj h1
  rw [linearRows_length] at h2
  exact ⟨r, _, q, hy, h2, h3⟩

theorem linearWrites_eq (r : Nat) (y : List Int) (q : Nat) (h : Y[r]? = some y) (hq : q < y.length + 2)
    (sp1 id1 : List Nat) (h1 : id1[splits Y r + 2 * r + q]? = some r) (h2 : sp1[r]? = some (splits Y r + 2 * r))
    (h3 : sp1[r + 1]? = some (splits Y r + 2 * r + y.length + 2)) :
    linearWrites (W := W) (psum (Y.map List.length)) Y.flatten sp1 id1 (splits Y r + 2 * r + q) =
      some (if q < y.length + 1 then ([(splits Y r + r + q, linearArc y q)],
          [(splits Y r + r + q, splits Y r + 2 * r + q)], [(splits Y r + 2 * r + q, splits Y r + r + q)])
        else ([], [], [(splits Y r + 2 * r + q + 1, splits Y r + r + q),
          (splits Y r + 2 * r + q, splits Y r + r + q)])) := by
  have e1 : splits Y r + 2 * r - r + q = splits Y r + r + q := by omega
  have e2 : splits Y r + 2 * r + y.length + 2 - (r + 1) = splits Y r + r + y.length + 1 := by omega
  simp only [linearWrites, h1, h2, h3, Option.bind_eq_bind, Option.bind_some, Nat.add_sub_cancel_left, e1, e2]
  by_cases hc : q < y.length + 1
  · rw [if_pos (by omega), if_pos hc]
    have : linearSym Y.flatten r (splits Y r + r + q) (splits Y r + r + y.length + 1) =
        some (linearArc (W := W) y q).label := by
      unfold linearSym
      by_cases hl : q < y.length
      · rw [if_pos (by omega), show splits Y r + r + q - r = splits Y r + q by omega,
          flatten_get Y r y h q hl, List.getElem?_eq_getElem hl]
        simp [linearArc, hl]
      · rw [if_neg (by omega)]; simp [linearArc, hl]
    rw [this]
    rfl
  · rw [if_neg (by omega), if_neg hc]

theorem linNum : Y.flatten.length + Y.length = (linAll (W := W) Y).flatten.flatten.length := by
  induction Y with
  | nil => simp [linAll]
  | cons y Y h =>
    have e := congrArg List.length (linearRows_flatten (W := W) y)
    rw [List.length_map, List.length_range] at e
    have e2 : (linAll (W := W) (y :: Y)).flatten.flatten = (linearRows y).flatten ++ (linAll Y).flatten.flatten := by
      simp [linAll]
    rw [e2, List.length_append, ← h, e, List.flatten_cons, List.length_append, List.length_cons]
    omega

/-- `LinearFsas` lays out the linear FSAs of the transcripts one after the other. -/
theorem linearBatch_eq :
    linearBatch (W := W) (psum (Y.map List.length)) Y.flatten = some (flat (linAll Y)) := by
  have hns : (List.range ((psum (Y.map List.length)).length - 1)).mapM (fun r => (do
      let b ← (psum (Y.map List.length))[r]?
      let e ← (psum (Y.map List.length))[r + 1]?
      some (e - b + 2))) = some ((linAll (W := W) Y).map List.length) := by
    apply mapM_some_of
    · simp [linAll]
    · intro i b hb
      have hi : i < Y.length := by
        have := (List.getElem?_eq_some_iff.mp hb).1; simpa using this
      rw [List.getElem?_range (by simpa using hi)] at hb
      obtain rfl := Option.some.inj hb
      have hy := List.getElem?_eq_getElem hi
      simp only [spl_get Y i (by omega), spl_succ Y hy, Option.bind_eq_bind, Option.bind_some,
        List.getElem?_map, linAll_get Y hy, Option.map_some, linearRows_length, Nat.add_sub_cancel_left]
  have hlen : ((linAll (W := W) Y).map List.length).sum = (linAll (W := W) Y).flatten.length := by
    rw [List.length_flatten]
  have hnum : Y.flatten.length + ((psum (Y.map List.length)).length - 1) =
      (linAll (W := W) Y).flatten.flatten.length := by
    rw [psum_length, List.length_map, Nat.add_sub_cancel]; exact linNum Y
  have hws : (List.range ((linAll (W := W) Y).map List.length).sum).mapM
      (linearWrites (W := W) (psum (Y.map List.length)) Y.flatten (psum ((linAll (W := W) Y).map List.length))
        (idsFrom 0 ((linAll (W := W) Y).map List.length))) =
      some ((List.range (linAll (W := W) Y).flatten.length).map (fun g =>
        (linearWrites (W := W) (psum (Y.map List.length)) Y.flatten (psum ((linAll (W := W) Y).map List.length))
        (idsFrom 0 ((linAll (W := W) Y).map List.length)) g).getD ([], [], []))) ∧
      ∀ (r : Nat) (y : List Int) (q : Nat), Y[r]? = some y → q < y.length + 2 →
        linearWrites (W := W) (psum (Y.map List.length)) Y.flatten (psum ((linAll (W := W) Y).map List.length))
          (idsFrom 0 ((linAll (W := W) Y).map List.length)) (off (linAll (W := W) Y) r + q) =
        some (if q < y.length + 1 then ([(splits Y r + r + q, linearArc y q)],
          [(splits Y r + r + q, splits Y r + 2 * r + q)], [(splits Y r + 2 * r + q, splits Y r + r + q)])
        else ([], [], [(splits Y r + 2 * r + q + 1, splits Y r + r + q),
          (splits Y r + 2 * r + q, splits Y r + r + q)])) := by
    have key : ∀ (r : Nat) (y : List Int) (q : Nat), Y[r]? = some y → q < y.length + 2 →
        linearWrites (W := W) (psum (Y.map List.length)) Y.flatten (psum ((linAll (W := W) Y).map List.length))
          (idsFrom 0 ((linAll (W := W) Y).map List.length)) (off (linAll (W := W) Y) r + q) =
        some (if q < y.length + 1 then ([(splits Y r + r + q, linearArc y q)],
          [(splits Y r + r + q, splits Y r + 2 * r + q)], [(splits Y r + 2 * r + q, splits Y r + r + q)])
        else ([], [], [(splits Y r + 2 * r + q + 1, splits Y r + r + q),
          (splits Y r + 2 * r + q, splits Y r + r + q)])) := by
      intro r y q hy hq
      have hr := (List.getElem?_eq_some_iff.mp hy).1
      rw [linOff Y r hr.le]
      apply linearWrites_eq Y r y q hy hq
      · rw [← linOff (W := W) Y r hr.le]
        refine ids_at _ r (y.length + 2) q ?_ hq
        rw [List.getElem?_map, linAll_get Y hy, Option.map_some, linearRows_length]
      · rw [← linOff (W := W) Y r hr.le]
        exact psum_get _ _ (by simpa [linAll] using hr.le)
      · have := flat_sp1_succ (linAll (W := W) Y) r _ (linAll_get Y hy)
        rw [linOff Y r hr.le, linearRows_length] at this
        rw [show splits Y r + 2 * r + y.length + 2 = splits Y r + 2 * r + (y.length + 2) by omega]
        exact this
    refine ⟨?_, key⟩
    rw [hlen]
    apply mapM_some_of
    · simp
    · intro i b hb
      have hi : i < (linAll (W := W) Y).flatten.length := by
        have := (List.getElem?_eq_some_iff.mp hb).1; rwa [List.length_range] at this
      rw [List.getElem?_range hi] at hb
      obtain rfl := Option.some.inj hb
      obtain ⟨r, y, q, h1, h2, h3⟩ := linStates_get Y i hi
      rw [List.getElem?_map, List.getElem?_range hi, h3]
      simp only [Option.map_some, key r y q h1 h2, Option.getD_some]
  obtain ⟨hws, key⟩ := hws
  unfold linearBatch
  rw [hns]
  simp only [Option.bind_eq_bind, Option.bind_some, rowSplitsToRowIds_psum]
  rw [hws, hnum]
  simp only [Option.bind_some]
  generalize hgen : (fun g => (linearWrites (W := W) (psum (Y.map List.length)) Y.flatten
    (psum ((linAll (W := W) Y).map List.length)) (idsFrom 0 ((linAll (W := W) Y).map List.length)) g).getD
      ([], [], [])) = w
  have kw : ∀ (r : Nat) (y : List Int) (q : Nat), Y[r]? = some y → q < y.length + 2 →
      w (off (linAll (W := W) Y) r + q) = if q < y.length + 1 then ([(splits Y r + r + q, linearArc y q)],
          [(splits Y r + r + q, splits Y r + 2 * r + q)], [(splits Y r + 2 * r + q, splits Y r + r + q)])
        else ([], [], [(splits Y r + 2 * r + q + 1, splits Y r + r + q),
          (splits Y r + 2 * r + q, splits Y r + r + q)]) := by
    intro r y q hy hq
    rw [← hgen]; simp only [key r y q hy hq, Option.getD_some]
  have hmem : ∀ {β : Type} (sel : List (Nat × Arc W) × List (Nat × Nat) × List (Nat × Nat) → List β) (x : β),
      x ∈ ((List.range (linAll (W := W) Y).flatten.length).map w).flatMap sel ↔
      ∃ (r : Nat) (y : List Int) (q : Nat), Y[r]? = some y ∧ q < y.length + 2 ∧
        x ∈ sel (w (off (linAll (W := W) Y) r + q)) := by
    intro β sel x
    simp only [List.mem_flatMap, List.mem_map, List.mem_range]
    constructor
    · rintro ⟨_, ⟨g, hg, rfl⟩, hx⟩
      obtain ⟨r, y, q, h1, h2, h3⟩ := linStates_get Y g hg
      exact ⟨r, y, q, h1, h2, h3 ▸ hx⟩
    · rintro ⟨r, y, q, h1, h2, hx⟩
      exact ⟨_, ⟨_, off_lt _ r q _ (linAll_get Y h1) (by rw [linearRows_length]; exact h2), rfl⟩, hx⟩
  have hap : ∀ (r : Nat) (y : List Int) (q : Nat), Y[r]? = some y → q < y.length + 1 →
      apos (linAll (W := W) Y) (off (linAll (W := W) Y) r + q) = splits Y r + r + q := by
    intro r y q hy hq
    rw [linApos Y r y q hy (by omega)]; omega
  have hrow : ∀ (r : Nat) (y : List Int) (q : Nat), Y[r]? = some y → q < y.length + 1 →
      (linAll (W := W) Y).flatten[off (linAll (W := W) Y) r + q]? = some [linearArc y q] := by
    intro r y q hy hq
    rw [linRows_get Y r y q hy (by omega), linearRows_get, if_pos hq]
  have hcover : ∀ j, j < (linAll (W := W) Y).flatten.flatten.length →
      ∃ (r : Nat) (y : List Int) (q : Nat), Y[r]? = some y ∧ q < y.length + 1 ∧ j = splits Y r + r + q := by
    intro j hj
    obtain ⟨g, row, k, h1, h2, h3⟩ := arc_pos2 _ j hj
    obtain ⟨r, y, q, k1, k2, k3⟩ := linStates_get Y g (List.getElem?_eq_some_iff.mp h1).1
    rw [k3, linRows_get Y r y q k1 k2, linearRows_get] at h1
    by_cases hq : q < y.length + 1
    · rw [if_pos hq] at h1
      obtain rfl := Option.some.inj h1
      have : k = 0 := by simpa using h2
      exact ⟨r, y, q, k1, hq, by rw [h3, k3, hap r y q k1 hq]; omega⟩
    · rw [if_neg hq, if_pos (by omega)] at h1
      obtain rfl := Option.some.inj h1
      simp at h2
  have s1 : scatter (linAll (W := W) Y).flatten.flatten.length
      (((List.range (linAll (W := W) Y).flatten.length).map w).flatMap (fun w => w.1)) =
      some (linAll (W := W) Y).flatten.flatten := by
    apply scatter_eq _ _ _ rfl
    · intro x hx
      obtain ⟨r, y, q, h1, h2, h3⟩ := (hmem _ x).mp hx
      rw [kw r y q h1 h2] at h3
      by_cases hq : q < y.length + 1
      · simp only [if_pos hq, List.mem_singleton] at h3
        subst h3
        have := flat_arc (linAll (W := W) Y) _ 0 _ (hrow r y q h1 hq) (by simp)
        rw [Nat.add_zero, hap r y q h1 hq] at this
        simpa using this
      · simp [if_neg hq] at h3
    · intro j hj
      obtain ⟨r, y, q, h1, h2, h3⟩ := hcover j hj
      refine ⟨(splits Y r + r + q, linearArc y q), (hmem _ _).mpr ⟨r, y, q, h1, by omega, ?_⟩, h3.symm⟩
      rw [kw r y q h1 (by omega), if_pos h2]; simp
  have s2 : scatter (linAll (W := W) Y).flatten.flatten.length
      (((List.range (linAll (W := W) Y).flatten.length).map w).flatMap (fun w => w.2.1)) =
      some (idsFrom 0 ((linAll (W := W) Y).flatten.map List.length)) := by
    apply scatter_eq
    · rw [idsFrom_length, List.length_flatten]
    · intro x hx
      obtain ⟨r, y, q, h1, h2, h3⟩ := (hmem _ x).mp hx
      rw [kw r y q h1 h2] at h3
      by_cases hq : q < y.length + 1
      · simp only [if_pos hq, List.mem_singleton] at h3
        subst h3
        have := flat_id2 (linAll (W := W) Y) _ 0 _ (hrow r y q h1 hq) (by simp)
        rw [Nat.add_zero, hap r y q h1 hq, linOff Y r (List.getElem?_eq_some_iff.mp h1).1.le] at this
        exact this
      · simp [if_neg hq] at h3
    · intro j hj
      obtain ⟨r, y, q, h1, h2, h3⟩ := hcover j hj
      refine ⟨(splits Y r + r + q, splits Y r + 2 * r + q), (hmem _ _).mpr ⟨r, y, q, h1, by omega, ?_⟩, h3.symm⟩
      rw [kw r y q h1 (by omega), if_pos h2]; simp
  have hsp : ∀ g, g ≤ (linAll (W := W) Y).flatten.length →
      (psum ((linAll (W := W) Y).flatten.map List.length))[g]? = some (apos (linAll (W := W) Y) g) :=
    fun g hg => flat_sp2 _ g hg
  have s3 : scatter (((linAll (W := W) Y).map List.length).sum + 1)
      (if ((linAll (W := W) Y).map List.length).sum = 0 then [(0, 0)] else
        ((List.range (linAll (W := W) Y).flatten.length).map w).flatMap (fun w => w.2.2)) =
      some (psum ((linAll (W := W) Y).flatten.map List.length)) := by
    rw [hlen]
    by_cases h0 : (linAll (W := W) Y).flatten.length = 0
    · have := List.eq_nil_of_length_eq_zero h0
      rw [this]; rfl
    · rw [if_neg h0]
      apply scatter_eq
      · rw [psum_length, List.length_map]
      · intro x hx
        obtain ⟨r, y, q, h1, h2, h3⟩ := (hmem _ x).mp hx
        have hlt := off_lt (linAll (W := W) Y) r q _ (linAll_get Y h1) (by rw [linearRows_length]; exact h2)
        have ho := linOff (W := W) Y r (List.getElem?_eq_some_iff.mp h1).1.le
        have ha := linApos (W := W) Y r y q h1 (by omega)
        have ha' := linApos (W := W) Y r y (q + 1) h1 (by omega)
        rw [kw r y q h1 h2] at h3
        by_cases hq : q < y.length + 1
        · simp only [if_pos hq, List.mem_singleton] at h3
          subst h3
          show (psum _)[splits Y r + 2 * r + q]? = some (splits Y r + r + q)
          rw [← ho, hsp _ hlt.le, ha]; congr 1; omega
        · simp only [if_neg hq, List.mem_cons, List.not_mem_nil, or_false] at h3
          rcases h3 with rfl | rfl
          · show (psum _)[splits Y r + 2 * r + q + 1]? = some (splits Y r + r + q)
            rw [← ho, hsp _ (by omega), Nat.add_assoc, ha']; congr 1; omega
          · show (psum _)[splits Y r + 2 * r + q]? = some (splits Y r + r + q)
            rw [← ho, hsp _ hlt.le, ha]; congr 1; omega
      · intro j hj
        by_cases hl : j < (linAll (W := W) Y).flatten.length
        · obtain ⟨r, y, q, h1, h2, h3⟩ := linStates_get Y j hl
          have ho := linOff (W := W) Y r (List.getElem?_eq_some_iff.mp h1).1.le
          refine ⟨(splits Y r + 2 * r + q, splits Y r + r + q), (hmem _ _).mpr ⟨r, y, q, h1, h2, ?_⟩, ?_⟩
          · rw [kw r y q h1 h2]
            by_cases hq : q < y.length + 1
            · rw [if_pos hq]; simp
            · rw [if_neg hq]; simp
          · show splits Y r + 2 * r + q = j
            omega
        · obtain ⟨r, y, q, h1, h2, h3⟩ := linStates_get (W := W) Y (j - 1) (by omega)
          have ho := linOff (W := W) Y r (List.getElem?_eq_some_iff.mp h1).1.le
          have hq : q = y.length + 1 := by
            by_contra hne
            have := off_lt (linAll (W := W) Y) r (q + 1) _ (linAll_get Y h1) (by rw [linearRows_length]; omega)
            omega
          refine ⟨(splits Y r + 2 * r + q + 1, splits Y r + r + q), (hmem _ _).mpr ⟨r, y, q, h1, h2, ?_⟩, ?_⟩
          · rw [kw r y q h1 h2, if_neg (by omega)]; simp
          · show splits Y r + 2 * r + q + 1 = j
            omega
  rw [s1]
  simp only [Option.bind_some]
  rw [s2]
  simp only [Option.bind_some]
  rw [s3]
  simp only [Option.bind_some, flat]

end

end Verif.Fsa.CtcB
