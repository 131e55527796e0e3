import Verif.Fsa.Device.Loop
import Verif.Fsa.TopSort.Batches
import Verif.Fsa.Dense.Invert
import Verif.Ragged.AxisProps
import Verif.Ragged.CatCore

/-!
# The states of all iterations by FSA
-/

namespace Verif.Fsa.Idv
open Verif.Ragged Verif.Util Verif.Fsa.Dn Verif.Fsa.Top

theorem range_mul {X : Type} (n K : Nat) (H : Nat → X) :
    (List.range (K * n)).map H = ((List.range n).map (fun f => (List.range K).map (fun t => H (f * K + t)))).flatten := by
  induction n with
  | zero => simp
  | succ n ih =>
    rw [Nat.mul_succ, List.range_add, List.map_append, ih, List.range_succ, List.map_append, List.flatten_append,
      List.map_map]
    simp [Nat.mul_comm, Function.comp_def]

/-- The states (numbers below `N`) of an FSA. -/
def grp (fk : Nat → Nat) (N f : Nat) : List Nat := (List.range N).filter (fun q => fk q == f)

theorem mem_grp {fk : Nat → Nat} {N f q : Nat} : q ∈ grp fk N f ↔ q < N ∧ fk q = f := by
  simp [grp]

theorem grp_nodup (fk : Nat → Nat) (N f : Nat) : (grp fk N f).Nodup := List.nodup_range.filter _

theorem grp_lt (fk : Nat → Nat) (N f : Nat) : (grp fk N f).Pairwise (· < ·) := List.pairwise_lt_range.filter _

/-- What is known about the iterations `it` and the FSAs `fk` of `N` states. -/
structure Nums (it fk : Nat → Nat) (N K n : Nat) : Prop where
  it_le : (List.range N).Pairwise (fun q r => it q ≤ it r)
  it_lt : ∀ q, q < N → it q < K
  fk_lt : ∀ q, q < N → fk q < n
  key_le : (List.range N).Pairwise (fun q r => it q * n + fk q ≤ it r * n + fk r)

variable {it fk : Nat → Nat} {N K n : Nat}

theorem Nums.key_lt (h : Nums it fk N K n) (q : Nat) (hq : q < N) : it q * n + fk q < K * n := by
  have h1 := h.it_lt q hq
  have h2 := h.fk_lt q hq
  have : (it q + 1) * n ≤ K * n := Nat.mul_le_mul_right _ h1
  rw [Nat.add_mul] at this
  omega

theorem Nums.splits (h : Nums it fk N K n) :
    rowIdsToRowSplits ((List.range N).map (fun q => it q * n + fk q)) (K * n) =
      some (psum ((rowsBy (fun q => it q * n + fk q) (K * n) (List.range N)).map List.length)) := by
  rw [rowsBy_ids _ (K * n) _ h.key_le (fun q hq => h.key_lt q (List.mem_range.mp hq))]
  have := rowIdsToRowSplits_idsFrom ((rowsBy (fun q => it q * n + fk q) (K * n) (List.range N)).map List.length)
  rwa [List.length_map, show (rowsBy (fun q => it q * n + fk q) (K * n) (List.range N)).length = K * n by
    simp [rowsBy]] at this

theorem Nums.rows (h : Nums it fk N K n) (t f : Nat) (hf : f < n) :
    (List.range N).filter (fun q => it q * n + fk q == t * n + f) = (grp fk N f).filter (fun q => it q == t) := by
  rw [grp, List.filter_filter]
  apply List.filter_congr
  intro q hq
  have h2 := h.fk_lt q (List.mem_range.mp hq)
  rw [Bool.eq_iff_iff, Bool.and_eq_true, beq_iff_eq, beq_iff_eq, beq_iff_eq]
  constructor
  · intro he
    have hm := congrArg (· % n) he
    have hd := congrArg (· / n) he
    simp only [Nat.mul_comm _ n, Nat.mul_add_mod, Nat.mod_eq_of_lt h2, Nat.mod_eq_of_lt hf] at hm
    simp only [Nat.mul_comm _ n, Nat.mul_add_div (show n > 0 by omega), Nat.div_eq_of_lt h2, Nat.div_eq_of_lt hf,
      Nat.add_zero] at hd
    exact ⟨hd, hm⟩
  · rintro ⟨h1, h2⟩
    rw [h1, h2]

theorem Nums.rows_grp (h : Nums it fk N K n) (f : Nat) : (rowsBy it K (grp fk N f)).flatten = grp fk N f := by
  apply rowsBy_flatten
  · exact h.it_le.filter _
  · intro q hq
    exact h.it_lt q (mem_grp.mp hq).1

/-- The index that the transposition uses. -/
def trIdx (K n : Nat) : List Int := (List.range (K * n)).map (fun i => ((i % K * n + i / K : Nat) : Int))

theorem trIdx_ok (K n : Nat) : ∀ i ∈ trIdx K n, -1 ≤ i ∧ i < ((K * n : Nat) : Int) := by
  intro i hi
  obtain ⟨k, hk, rfl⟩ := List.mem_map.mp hi
  rw [List.mem_range] at hk
  have hK : 0 < K := by
    rcases Nat.eq_zero_or_pos K with h | h
    · subst h; simp at hk
    · exact h
  have h1 := Nat.mod_lt k hK
  have h2 : k / K < n := Nat.div_lt_of_lt_mul hk
  have : (k % K + 1) * n ≤ K * n := Nat.mul_le_mul_right _ h1
  rw [Nat.add_mul] at this
  constructor
  · have := Int.natCast_nonneg (k % K * n + k / K)
    omega
  · have : k % K * n + k / K < K * n := by omega
    exact_mod_cast this

theorem Nums.picked (h : Nums it fk N K n) :
    pick (rowsBy (fun q => it q * n + fk q) (K * n) (List.range N)) (trIdx K n) =
      ((List.range n).map (fun f => rowsBy it K (grp fk N f))).flatten := by
  unfold pick trIdx
  rw [List.map_map, range_mul]
  congr 1
  apply List.map_congr_left
  intro f hf
  rw [rowsBy]
  apply List.map_congr_left
  intro t ht
  rw [List.mem_range] at hf ht
  simp only [Function.comp_apply]
  have e1 : (f * K + t) % K = t := by rw [Nat.mul_comm, Nat.mul_add_mod, Nat.mod_eq_of_lt ht]
  have e2 : (f * K + t) / K = f := by rw [Nat.mul_comm, Nat.mul_add_div (by omega), Nat.div_eq_of_lt ht, Nat.add_zero]
  rw [e1, e2, if_neg (by omega), Int.toNat_natCast, List.getElem?_map, List.getElem?_range (by
    have : (t + 1) * n ≤ K * n := Nat.mul_le_mul_right _ ht
    rw [Nat.add_mul] at this
    omega)]
  exact h.rows t f hf

/-- The states in the order of the output. -/
def ord (fk : Nat → Nat) (N n : Nat) : List Nat := ((List.range n).map (grp fk N)).flatten

theorem Nums.ord_eq (h : Nums it fk N K n) :
    (((List.range n).map (fun f => rowsBy it K (grp fk N f))).flatten).flatten = ord fk N n := by
  rw [List.flatten_flatten, List.map_map, ord]
  congr 1
  apply List.map_congr_left
  intro f _
  exact h.rows_grp f

theorem index_one (T : List (List Nat)) (idx : List Int) (h : ∀ i ∈ idx, -1 ≤ i ∧ i < T.length)
    (hv : T.flatten = List.range T.flatten.length) :
    indexAxis0 [psum (T.map List.length)] idx =
      some ([(psum ((pick T idx).map List.length), idsFrom 0 ((pick T idx).map List.length))], (pick T idx).flatten) := by
  obtain ⟨elems, h1, -⟩ := index_axis0 (α := Nat) 0 T idx h
  obtain ⟨r, h2⟩ := index_axis0_elems 0 T idx h hv
  rw [h1] at h2
  simp only [Option.some.injEq, Prod.mk.injEq] at h2
  rw [h2.2] at h1
  have h3 := fullLayers_succ (α := Nat) 0 (pick T idx)
  exact h1.trans (by rw [show fullLayers (0 + 1) (pick (α := Nest Nat 0) T idx) = _ from h3]; rfl)

theorem Nums.index (h : Nums it fk N K n) :
    indexAxis0 [psum ((rowsBy (fun q => it q * n + fk q) (K * n) (List.range N)).map List.length)] (trIdx K n) =
      some ([(psum ((((List.range n).map (fun f => rowsBy it K (grp fk N f))).flatten).map List.length),
        idsFrom 0 ((((List.range n).map (fun f => rowsBy it K (grp fk N f))).flatten).map List.length))], ord fk N n) := by
  have hfl := rowsBy_flatten (fun q => it q * n + fk q) (K * n) (List.range N) h.key_le
    (fun q hq => h.key_lt q (List.mem_range.mp hq))
  rw [index_one _ _ (by
    intro i hi
    have := trIdx_ok K n i hi
    simpa [rowsBy] using this) (by rw [hfl, List.length_range]), h.picked, h.ord_eq]

theorem Nums.ord_perm (h : Nums it fk N K n) : (ord fk N n).Perm (List.range N) := by
  rw [List.perm_ext_iff_of_nodup]
  · intro q
    rw [ord, List.mem_flatten, List.mem_range]
    constructor
    · rintro ⟨l, hl, hq⟩
      obtain ⟨f, -, rfl⟩ := List.mem_map.mp hl
      exact (mem_grp.mp hq).1
    · intro hq
      exact ⟨_, List.mem_map.mpr ⟨fk q, List.mem_range.mpr (h.fk_lt q hq), rfl⟩, mem_grp.mpr ⟨hq, rfl⟩⟩
  · rw [ord, List.nodup_flatten]
    refine ⟨?_, ?_⟩
    · intro l hl
      obtain ⟨f, -, rfl⟩ := List.mem_map.mp hl
      exact grp_nodup fk N f
    · rw [List.pairwise_map]
      refine List.nodup_range.imp ?_
      intro f g hne
      rw [List.disjoint_left]
      intro q h1 h2
      exact hne ((mem_grp.mp h1).2.symm.trans (mem_grp.mp h2).2)
  · exact List.nodup_range

/-- The shape of the output; `arow q` are the arcs that leave state `q`. -/
theorem Nums.shape (h : Nums it fk N K n) (arow : Nat → List Nat) :
    removeAxis (regularLayer n K ::
      [(psum ((((List.range n).map (fun f => rowsBy it K (grp fk N f))).flatten).map List.length),
        idsFrom 0 ((((List.range n).map (fun f => rowsBy it K (grp fk N f))).flatten).map List.length))] ++
      [(psum (((ord fk N n).map arow).map List.length), idsFrom 0 (((ord fk N n).map arow).map List.length))]) 1 =
    some [(psum (((List.range n).map (grp fk N)).map List.length), idsFrom 0 (((List.range n).map (grp fk N)).map List.length)),
      (psum (((ord fk N n).map arow).map List.length), idsFrom 0 (((ord fk N n).map arow).map List.length))] := by
  set Q := (List.range n).map (fun f => rowsBy it K (grp fk N f)) with hQ
  set M : List (List (List (List Nat))) := Q.map (fun l => l.map (fun r => r.map arow)) with hM
  have hr := removeAxis_middle (α := Nat) 1 0 M
  have i1 : M.map (Nest.join (α := Nat) (1 + 2) 0) = M := List.map_id' M
  have i2 : (M.map (Nest.map (β := List (Nest Nat 1)) List.flatten 0)).map (Nest.join (α := Nat) (1 + 1) 0) =
      M.map List.flatten := List.map_id' _
  rw [i1, i2] at hr
  have a1 := fullLayers_succ (α := Nat) 2 M
  have a2 := fullLayers_succ (α := Nat) 1 M.flatten
  have a3 := fullLayers_succ (α := Nat) 0 M.flatten.flatten
  have b1 := fullLayers_succ (α := Nat) 1 (M.map List.flatten)
  have b2 := fullLayers_succ (α := Nat) 0 (M.map List.flatten).flatten
  have z : ∀ l, fullLayers (α := Nat) 0 l = [] := fun l => rfl
  rw [z] at a3 b2
  have l1 : M.map List.length = List.replicate n K := by
    rw [hM, hQ, List.map_map, List.map_map, List.eq_replicate_iff]
    refine ⟨by simp, ?_⟩
    intro b hb
    obtain ⟨f, -, rfl⟩ := List.mem_map.mp hb
    simp [rowsBy]
  have l2 : M.flatten = Q.flatten.map (fun r => r.map arow) := by
    rw [hM, List.map_flatten]
  have l3 : M.flatten.flatten = (ord fk N n).map arow := by
    rw [l2, ← h.ord_eq, ← hQ]
    exact List.map_flatten.symm
  have l4 : M.flatten.map List.length = Q.flatten.map List.length := by
    rw [l2, List.map_map]
    apply List.map_congr_left
    intro r _
    simp
  have l5 : M.map List.flatten = (List.range n).map (fun f => (grp fk N f).map arow) := by
    rw [hM, hQ, List.map_map, List.map_map]
    apply List.map_congr_left
    intro f _
    simp only [Function.comp_apply]
    rw [← List.map_flatten, h.rows_grp]
  have l6 : (M.map List.flatten).flatten = (ord fk N n).map arow := by
    rw [l5, ord, List.map_flatten, List.map_map]
    rfl
  have l7 : (M.map List.flatten).map List.length = ((List.range n).map (grp fk N)).map List.length := by
    rw [l5, List.map_map, List.map_map]
    apply List.map_congr_left
    intro f _
    simp
  rw [a2, l1, l4] at a1
  rw [a3, l3] at a1
  rw [b2, l7, l6] at b1
  change removeAxis (fullLayers (α := Nat) (2 + 1) M) (0 + 1) =
    some (fullLayers (α := Nat) (1 + 1) (M.map List.flatten)) at hr
  rw [a1, b1] at hr
  rw [regularLayer_eq]
  exact hr

end Verif.Fsa.Idv
