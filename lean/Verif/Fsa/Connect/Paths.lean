import Verif.Fsa.Connect.Restrict
import Verif.Fsa.Connect.Passes

/-!
Paths of an FSA restricted to some of its states.
-/

namespace Verif.Fsa
open Verif.Ragged Verif.Util
variable {W X Y : Type}

/-- The positions of the kept arcs of one FSA. -/
def arcMapOf (k : List Bool) (f : List (List (Arc W))) : List Nat :=
  sel (arcFlagsOf k f).flatten (List.range f.flatten.length)

theorem arcFlagsOf_flatten (k : List Bool) (f : List (List (Arc W))) :
    (arcFlagsOf k f).flatten = f.flatten.map (arcKept k) := by
  simp [arcFlagsOf, List.map_flatten]

theorem arcMapOf_mem (k : List Bool) (f : List (List (Arc W))) (j : Nat) :
    j ∈ arcMapOf k f ↔ ∃ a, f.flatten[j]? = some a ∧ arcKept k a = true := by
  unfold arcMapOf
  have h := sel_range_mem (arcFlagsOf k f).flatten j
  rw [show (arcFlagsOf k f).flatten.length = f.flatten.length by rw [arcFlagsOf_flatten, List.length_map]] at h
  rw [h, arcFlagsOf_flatten, List.getElem?_map, Option.map_eq_some_iff]

theorem arcMapOf_sorted (k : List Bool) (f : List (List (Arc W))) : (arcMapOf k f).Pairwise (· < ·) :=
  List.Pairwise.sublist (sel_sublist _ _) List.pairwise_lt_range

theorem restrictFsa_flatten (k : List Bool) (f : List (List (Arc W))) (hl : k.length = f.length)
    (hf : RowsOk f) :
    (restrictFsa k f).flatten = sel (f.flatten.map (arcKept k)) (f.flatten.map (renArc k)) := by
  have hP : ∀ p ∈ [(k, f)], p.1.length = p.2.length := by simp [hl]
  have hT : VecOk ([(k, f)].map Prod.snd) := by
    intro g hg
    simp only [List.map_cons, List.map_nil, List.mem_singleton] at hg
    subst hg
    exact hf
  have h1 := newVec_flatten [(k, f)] hP
  have h2 := sel_flatten (([(k, f)] : List (List Bool × List (List (Arc W)))).map Prod.fst).flatten
    (allRows [(k, f)]) (by simp [allRows, hl]) (allRows_unkept [(k, f)] hP hT)
  rw [← h1, allRows_flatten] at h2
  simp only [newVec, List.map_cons, List.map_nil, List.flatten_cons, List.flatten_nil, List.append_nil,
    arcFlagsOf_flatten] at h2
  rw [h2, List.map_flatten (f := renArc k)]

theorem sel_pos (keep : List Bool) (l : List X) (n : Nat) (h : l.length = keep.length) (hn : n = keep.length)
    (i j : Nat) (hj : (sel keep (List.range n))[i]? = some j) : (sel keep l)[i]? = l[j]? := by
  subst hn
  have hlt := (List.getElem?_eq_some_iff.mp hj).1
  rw [sel_length _ _ (by simp)] at hlt
  obtain ⟨i', hk, rfl⟩ := rank_surj keep i hlt
  rw [sel_get _ _ _ (by simp) hk, List.getElem?_range (List.getElem?_eq_some_iff.mp hk).1] at hj
  obtain rfl := Option.some.inj hj
  exact sel_get _ _ _ h hk

/-- Arc `i` of the result is arc `arc_map[i]` with its states renumbered. -/
theorem restrict_arc (k : List Bool) (f : List (List (Arc W))) (hl : k.length = f.length) (hf : RowsOk f)
    (i j : Nat) (hj : (arcMapOf k f)[i]? = some j) :
    (restrictFsa k f).flatten[i]? = (f.flatten[j]?).map (renArc k) := by
  rw [restrictFsa_flatten k f hl hf, ← List.getElem?_map]
  unfold arcMapOf at hj
  rw [arcFlagsOf_flatten] at hj
  exact sel_pos _ _ _ (by rw [List.length_map, List.length_map]) (by rw [List.length_map]) i j hj

theorem arcMapOf_length (k : List Bool) (f : List (List (Arc W))) (hl : k.length = f.length) (hf : RowsOk f) :
    (arcMapOf k f).length = (restrictFsa k f).flatten.length := by
  rw [restrictFsa_flatten k f hl hf, arcMapOf, arcFlagsOf_flatten, sel_length_filter _ _
    (by rw [List.length_map, List.length_range]), sel_length_filter _ _ (by rw [List.length_map, List.length_map])]

theorem restrictFsa_length (k : List Bool) (f : List (List (Arc W))) (hl : k.length = f.length) :
    (restrictFsa k f).length = (k.filter id).length := by
  rw [restrictFsa, sel_length_filter _ _ (by rw [List.length_map]; exact hl)]

theorem rank_le (k : List Bool) (i : Nat) : rank k i ≤ (k.filter id).length := by
  unfold rank
  have : ∀ l : List Bool, (l.map Bool.toNat).sum = (l.filter id).length := by
    intro l; induction l with
    | nil => rfl
    | cons b l ih => cases b <;> simp [ih]; omega
  rw [this]
  exact ((List.take_sublist i k).filter id).length_le

theorem rank_mono (k : List Bool) (i j : Nat) (h : i ≤ j) : rank k i ≤ rank k j := by
  unfold rank
  have : ∀ l : List Bool, (l.map Bool.toNat).sum = (l.filter id).length := by
    intro l; induction l with
    | nil => rfl
    | cons b l ih => cases b <;> simp [ih]; omega
  rw [this, this]
  apply List.Sublist.length_le
  apply List.Sublist.filter
  have : k.take i = (k.take j).take i := by rw [List.take_take, Nat.min_eq_left h]
  rw [this]
  exact List.take_sublist _ _

theorem rank_strict (k : List Bool) (i j : Nat) (hi : k[i]? = some true) (h : i < j) : rank k i < rank k j := by
  have := rank_succ k i true hi
  have := rank_mono k (i + 1) j h
  simp only [Bool.toNat_true] at *
  omega

theorem rank_inj (k : List Bool) (i j : Nat) (hi : k[i]? = some true) (hj : k[j]? = some true)
    (h : rank k i = rank k j) : i = j := by
  rcases Nat.lt_trichotomy i j with h1 | h1 | h1
  · have := rank_strict k i j hi h1; omega
  · exact h1
  · have := rank_strict k j i hj h1; omega

theorem rank_surj' (k : List Bool) (j : Nat) (h : j < (k.filter id).length) :
    ∃ i, k[i]? = some true ∧ j = rank k i := by
  apply rank_surj
  have h1 := sel_length k (List.range k.length) (by simp)
  rw [sel_length_filter _ _ (by simp)] at h1
  omega

theorem chain_ren (k : List Bool) (p : List (Arc W)) (s t : Nat) (hs : k[s]? = some true) (ht : k[t]? = some true)
    (hp : ∀ a ∈ p, arcKept k a = true) :
    Chain (rank k s) (p.map (renArc k)) (rank k t) ↔ Chain s p t := by
  induction p generalizing s with
  | nil =>
    simp only [List.map_nil, chain_nil]
    exact ⟨rank_inj k s t hs ht, fun h => by rw [h]⟩
  | cons a p ih =>
    have ha := hp a (List.mem_cons_self ..)
    simp only [arcKept, Bool.and_eq_true, kept_iff] at ha
    simp only [List.map_cons, chain_cons]
    have := ih a.dst ha.2 (fun b hb => hp b (List.mem_cons_of_mem _ hb))
    rw [show (renArc k a).dst = rank k a.dst from rfl, this]
    exact and_congr_left (fun _ => ⟨rank_inj k _ _ ha.1 hs, fun h => by rw [← h]; rfl⟩)

/-- The paths of the restricted FSA between kept states are the paths of the FSA along kept arcs. -/
theorem ipath_restrict (k : List Bool) (f : List (List (Arc W))) (hl : k.length = f.length) (hf : RowsOk f)
    (s t : Nat) (hs : k[s]? = some true) (ht : k[t]? = some true) (js : List Nat) :
    (IPath f.flatten s js t ∧ ∀ j ∈ js, j ∈ arcMapOf k f) ↔
      ∃ is : List Nat, is.map (fun i => (arcMapOf k f)[i]?) = js.map some ∧
        IPath (restrictFsa k f).flatten (rank k s) is (rank k t) := by
  have key : ∀ (is js : List Nat) (p : List (Arc W)),
      is.map (fun i => (arcMapOf k f)[i]?) = js.map some →
      js.map (fun j => f.flatten[j]?) = p.map some →
      is.map (fun i => (restrictFsa k f).flatten[i]?) = (p.map (renArc k)).map some := by
    intro is
    induction is with
    | nil =>
      intro js p h1 h2
      cases js with
      | nil => cases p <;> simp_all
      | cons j js => simp at h1
    | cons i is ih =>
      intro js p h1 h2
      cases js with
      | nil => simp at h1
      | cons j js =>
        cases p with
        | nil => simp at h2
        | cons a p =>
          simp only [List.map_cons, List.cons.injEq] at h1 h2 ⊢
          exact ⟨by rw [restrict_arc k f hl hf i j h1.1, h2.1]; rfl, ih js p h1.2 h2.2⟩
  have keptp : ∀ (js : List Nat) (p : List (Arc W)), js.map (fun j => f.flatten[j]?) = p.map some →
      (∀ j ∈ js, j ∈ arcMapOf k f) → ∀ a ∈ p, arcKept k a = true := by
    intro js p h1 h2 a ha
    have : some a ∈ p.map some := List.mem_map.mpr ⟨a, ha, rfl⟩
    rw [← h1] at this
    obtain ⟨j, hj, hja⟩ := List.mem_map.mp this
    obtain ⟨b, hb, hbk⟩ := (arcMapOf_mem k f j).mp (h2 j hj)
    rw [hb] at hja
    rw [← Option.some.inj hja]; exact hbk
  constructor
  · rintro ⟨⟨p, hc, hp⟩, hk⟩
    have : ∀ js : List Nat, (∀ j ∈ js, j ∈ arcMapOf k f) →
        ∃ is : List Nat, is.map (fun i => (arcMapOf k f)[i]?) = js.map some := by
      intro js
      induction js with
      | nil => intro _; exact ⟨[], rfl⟩
      | cons j js ih =>
        intro h
        obtain ⟨is, his⟩ := ih (fun j hj => h j (List.mem_cons_of_mem _ hj))
        obtain ⟨i, hi⟩ := List.getElem?_of_mem (h j (List.mem_cons_self ..))
        exact ⟨i :: is, by simp [hi, his]⟩
    obtain ⟨is, his⟩ := this js hk
    exact ⟨is, his, p.map (renArc k), (chain_ren k p s t hs ht (keptp js p hp hk)).mpr hc, key is js p his hp⟩
  · rintro ⟨is, his, q, hc, hq⟩
    have hk : ∀ j ∈ js, j ∈ arcMapOf k f := by
      intro j hj
      have : some j ∈ js.map some := List.mem_map.mpr ⟨j, hj, rfl⟩
      rw [← his] at this
      obtain ⟨i, _, hi⟩ := List.mem_map.mp this
      exact List.mem_of_getElem? hi
    have : ∀ js : List Nat, (∀ j ∈ js, j ∈ arcMapOf k f) →
        ∃ p : List (Arc W), js.map (fun j => f.flatten[j]?) = p.map some := by
      intro js
      induction js with
      | nil => intro _; exact ⟨[], rfl⟩
      | cons j js ih =>
        intro h
        obtain ⟨p, hp⟩ := ih (fun j hj => h j (List.mem_cons_of_mem _ hj))
        obtain ⟨a, ha, _⟩ := (arcMapOf_mem k f j).mp (h j (List.mem_cons_self ..))
        exact ⟨a :: p, by simp [ha, hp]⟩
    obtain ⟨p, hp⟩ := this js hk
    have h1 := key is js p his hp
    rw [hq] at h1
    have h2 : q = p.map (renArc k) := List.map_inj_right (fun _ _ h => Option.some.inj h) |>.mp h1
    subst h2
    exact ⟨⟨p, (chain_ren k p s t hs ht (keptp js p hp hk)).mp hc, hp⟩, hk⟩

/-- The restricted FSA is again given by rows. -/
theorem restrict_rowsOk (k : List Bool) (f : List (List (Arc W))) (hl : k.length = f.length) (hf : RowsOk f) :
    RowsOk (restrictFsa k f) := by
  intro s' row' hs' a' ha'
  have hlt := (List.getElem?_eq_some_iff.mp hs').1
  rw [restrictFsa_length k f hl] at hlt
  obtain ⟨s, hs, rfl⟩ := rank_surj' k s' hlt
  rw [restrictFsa, sel_get _ _ _ (by rw [List.length_map, hl]) hs, List.getElem?_map, Option.map_eq_some_iff] at hs'
  obtain ⟨row, hrow, rfl⟩ := hs'
  obtain ⟨a, ha, rfl⟩ := List.mem_map.mp ha'
  obtain ⟨ha, hk⟩ := List.mem_filter.mp ha
  have hok := hf s row hrow a ha
  simp only [arcKept, Bool.and_eq_true, kept_iff] at hk
  refine ⟨by rw [← hok.1]; rfl, ?_⟩
  rw [restrictFsa_length k f hl]
  exact rank_lt k _ hk.2

/-! ## Useful states -/

/-- Which states lie on a path from the start to the final state. -/
noncomputable def usefulFlags (f : List (List (Arc W))) : List Bool :=
  List.zipWith (· && ·) (accFlags f) (coaccFlags f)

theorem usefulFlags_length (f : List (List (Arc W))) : (usefulFlags f).length = f.length := by
  simp [usefulFlags, accFlags, coaccFlags]

theorem usefulFlags_iff (f : List (List (Arc W))) (s : Nat) :
    (usefulFlags f)[s]? = some true ↔
      s < f.length ∧ (∃ p, Path f.flatten 0 p s) ∧ ∃ p, Path f.flatten s p (f.length - 1) := by
  unfold usefulFlags
  rw [List.getElem?_zipWith]
  by_cases h : s < f.length
  · simp [accFlags, coaccFlags, h]
  · rw [List.getElem?_eq_none (by simp [accFlags]; omega)]
    simp [h]

theorem path_useful (f : List (List (Arc W))) (hf : RowsOk f) (s t : Nat) (hs : s < f.length)
    (h0 : ∃ p, Path f.flatten 0 p s) (h1 : ∃ p, Path f.flatten t p (f.length - 1))
    (p : List (Arc W)) (hp : Path f.flatten s p t) :
    (usefulFlags f)[s]? = some true ∧ (usefulFlags f)[t]? = some true ∧
      ∀ a ∈ p, arcKept (usefulFlags f) a = true := by
  induction p generalizing s with
  | nil =>
    rw [path_nil] at hp
    subst hp
    have := (usefulFlags_iff f s).mpr ⟨hs, h0, h1⟩
    exact ⟨this, this, by simp⟩
  | cons a p ih =>
    have hfull := hp
    rw [path_cons] at hp
    obtain ⟨ha, rfl, hp⟩ := hp
    obtain ⟨row, hrow, har⟩ := mem_rows_arcs hf a ha
    have hok := hf a.src row hrow a har
    obtain ⟨p0, hp0⟩ := h0
    obtain ⟨h2, h3, h4⟩ := ih a.dst hok.2
      ⟨p0 ++ [a], (path_append _ _ _ _ _).mpr ⟨a.src, hp0, (path_cons _ _ _ _ _).mpr
        ⟨ha, rfl, (path_nil _ _ _).mpr rfl⟩⟩⟩ hp
    obtain ⟨p1, hp1⟩ := h1
    have h5 : (usefulFlags f)[a.src]? = some true :=
      (usefulFlags_iff f _).mpr ⟨hs, ⟨p0, hp0⟩, (a :: p) ++ p1, (path_append _ _ _ _ _).mpr ⟨t, hfull, hp1⟩⟩
    refine ⟨h5, h3, ?_⟩
    intro b hb
    rcases List.mem_cons.mp hb with rfl | hb
    · simp [arcKept, (kept_iff _ _).mpr h5, (kept_iff _ _).mpr h2]
    · exact h4 b hb

theorem ipath_mem (A : List (Arc W)) (p : List (Arc W)) (js : List Nat)
    (h : js.map (fun j => A[j]?) = p.map some) : ∀ a ∈ p, a ∈ A := by
  intro a ha
  have : some a ∈ p.map some := List.mem_map.mpr ⟨a, ha, rfl⟩
  rw [← h] at this
  obtain ⟨j, _, hj⟩ := List.mem_map.mp this
  exact List.mem_of_getElem? hj

/-- If some state is kept then so are the start and the final state. -/
theorem useful_ends (f : List (List (Arc W))) (s : Nat) (h : (usefulFlags f)[s]? = some true) :
    (usefulFlags f)[0]? = some true ∧ (usefulFlags f)[f.length - 1]? = some true ∧
      rank (usefulFlags f) (f.length - 1) = (restrictFsa (usefulFlags f) f).length - 1 := by
  obtain ⟨hs, ⟨p, hp⟩, q, hq⟩ := (usefulFlags_iff f s).mp h
  have hpq : Path f.flatten 0 (p ++ q) (f.length - 1) := (path_append _ _ _ _ _).mpr ⟨s, hp, hq⟩
  have h0 := (usefulFlags_iff f 0).mpr ⟨by omega, ⟨[], (path_nil _ _ _).mpr rfl⟩, p ++ q, hpq⟩
  have h1 := (usefulFlags_iff f (f.length - 1)).mpr ⟨by omega, ⟨p ++ q, hpq⟩, [], (path_nil _ _ _).mpr rfl⟩
  refine ⟨h0, h1, ?_⟩
  have hl := usefulFlags_length f
  rw [restrictFsa_length _ _ hl]
  have h2 := rank_succ (usefulFlags f) (f.length - 1) true h1
  rw [show f.length - 1 + 1 = (usefulFlags f).length by omega] at h2
  have h3 := sel_length (usefulFlags f) (List.range (usefulFlags f).length) (by simp)
  rw [sel_length_filter _ _ (by simp)] at h3
  simp only [Bool.toNat_true] at h2
  omega

end Verif.Fsa
