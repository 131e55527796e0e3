import Verif.Ragged.UnstackModel
import Verif.Ragged.IndexProps
import Verif.Ragged.CatZip
import Verif.Ragged.CatLemmas
import Verif.Util.MapM

/-! Helper lemmas for `UnstackProps.lean`: the outputs of `SelectAxis0` are those of `Index`. -/

namespace Verif.Ragged
open Verif.Util
variable {α X : Type}

/-- The layer of a list of lists. -/
def lay (R : List (List X)) : List Nat × List Nat :=
  (psum (R.map List.length), idsFrom 0 (R.map List.length))

/-- The number of elements of all ranges in the rows before `g`. -/
def base (JR : List (List (Nat × Nat))) (g : Nat) : Nat := (sizes (JR.take g).flatten).sum

theorem sizes_length (a : List (Nat × Nat)) : (sizes a).length = a.length := by
  rw [sizes, List.length_map]

theorem sizes_append (a b : List (Nat × Nat)) : sizes (a ++ b) = sizes a ++ sizes b := by simp [sizes]

theorem sizes_take (a : List (Nat × Nat)) (t : Nat) : sizes (a.take t) = (sizes a).take t := by
  simp [sizes, List.map_take]

theorem take_flatten_add (L : List (List X)) (g : Nat) (r : List X) (h : L[g]? = some r) (t : Nat)
    (ht : t ≤ r.length) : L.flatten.take (splits L g + t) = (L.take g).flatten ++ r.take t := by
  obtain ⟨hg, hr⟩ := List.getElem?_eq_some_iff.mp h
  have e : L.flatten = (L.take g).flatten ++ (r ++ (L.drop (g + 1)).flatten) := by
    conv_lhs => rw [← List.take_append_drop g L, List.drop_eq_getElem_cons hg, hr]
    simp
  have hl : (L.take g).flatten.length = splits L g := by rw [List.length_flatten]; rfl
  rw [e, List.take_append, List.take_of_length_le (by omega), ← hl, Nat.add_sub_cancel_left,
    List.take_append, show t - r.length = 0 by omega, List.take_zero, List.append_nil]

theorem splits_row_le (L : List (List X)) (g : Nat) (r : List X) (h : L[g]? = some r) :
    splits L g + r.length ≤ L.flatten.length := by
  rw [← splits_succ L g r h]; exact splits_le L _

theorem noff_get (JR : List (List (Nat × Nat))) (g : Nat) (jg : List (Nat × Nat))
    (h : JR[g]? = some jg) (t : Nat) (ht : t ≤ jg.length) :
    (psum (sizes JR.flatten))[splits JR g + t]? = some (base JR g + ((sizes jg).take t).sum) := by
  have := splits_row_le JR g jg h
  rw [psum_get _ _ (by rw [sizes_length]; omega), ← sizes_take, take_flatten_add JR g jg h t ht,
    sizes_append, List.sum_append, sizes_take]
  rfl

theorem base_succ (JR : List (List (Nat × Nat))) (g : Nat) (jg : List (Nat × Nat))
    (h : JR[g]? = some jg) : base JR (g + 1) = base JR g + (sizes jg).sum := by
  rw [base, List.take_add_one, h]
  simp [base, sizes_append]

theorem lay_splits (R : List (List X)) (g : Nat) (h : g ≤ R.length) : (lay R).1[g]? = some (splits R g) := by
  rw [lay, psum_get _ _ (by simpa using h), ← List.map_take]; rfl

theorem ids_row (ns : List Nat) (j n k : Nat) (h : ns[j]? = some n) (hk : k < n) :
    (idsFrom 0 ns)[(ns.take j).sum + k]? = some j := by
  have hj := (List.getElem?_eq_some_iff.mp h).1
  have := idsFrom_get 0 ns ((ns.take j).sum + k) j
  rw [Nat.zero_add] at this
  rw [this]
  refine ⟨hj, by omega, ?_⟩
  rw [List.take_add_one, h, List.sum_append]
  simpa using hk

theorem lay_ids (R : List (List X)) (g : Nat) (r : List X) (h : R[g]? = some r) (t : Nat)
    (ht : t < r.length) : (lay R).2[splits R g + t]? = some g := by
  have := ids_row (R.map List.length) g r.length t (by simp [h]) ht
  rwa [← List.map_take] at this

theorem selTot_eq (JR : List (List (Nat × Nat))) (g : Nat) (jg : List (Nat × Nat))
    (h : JR[g]? = some jg) : selTot (lay JR) g (psum (sizes JR.flatten)) = some (sizes jg).sum := by
  have hg := (List.getElem?_eq_some_iff.mp h).1
  have h1 := noff_get JR g jg h 0 (by omega)
  have h2 := noff_get JR g jg h jg.length (Nat.le_refl _)
  rw [Nat.add_zero] at h1
  unfold selTot
  rw [lay_splits JR g (by omega), lay_splits JR (g + 1) (by omega), splits_succ JR g jg h]
  simp only [Option.bind_eq_bind, Option.bind_some, h1, h2]
  rw [List.take_of_length_le (by simp [sizes])]
  simp

/-- Where position `i` of a kernel lies. -/
theorem sel_pos (JR : List (List (Nat × Nat))) (i : Nat) (hi : i < (sizes JR.flatten).sum) :
    ∃ g jg t p k, JR[g]? = some jg ∧ jg[t]? = some p ∧ k < p.2 - p.1 ∧
      i = base JR g + (((sizes jg).take t).sum + k) := by
  obtain ⟨j, k, n, h1, h2, h3, h4, h5⟩ := pos_split (sizes JR.flatten) i hi
  have hj : j < JR.flatten.length := by rwa [sizes_length] at h5
  obtain ⟨g, jg, t, hg, ht, rfl⟩ := flatten_pos JR j hj
  have hp : jg[t]? = some jg[t] := List.getElem?_eq_getElem ht
  have hf := flatten_get JR g jg hg t ht
  rw [hp] at hf
  refine ⟨g, jg, t, jg[t], k, hg, hp, ?_, ?_⟩
  · simp only [sizes, List.getElem?_map, hf, Option.map_some, Option.some.injEq] at h1
    omega
  · have e := noff_get JR g jg hg t (by omega)
    rw [psum_get _ _ (by omega)] at e
    have := Option.some.inj e
    omega

theorem sel_composed (JR : List (List (Nat × Nat))) (g : Nat) (jg : List (Nat × Nat)) (t : Nat)
    (p : Nat × Nat) (k : Nat) (hg : JR[g]? = some jg) (hp : jg[t]? = some p) (hk : k < p.2 - p.1) :
    (idsFrom 0 (sizes JR.flatten))[base JR g + (((sizes jg).take t).sum + k)]? =
      some (splits JR g + t) := by
  have ht := (List.getElem?_eq_some_iff.mp hp).1
  have hf := flatten_get JR g jg hg t ht
  rw [hp] at hf
  have := ids_row (sizes JR.flatten) (splits JR g + t) (p.2 - p.1) k (by rw [sizes, List.getElem?_map, hf]; rfl) hk
  have e := noff_get JR g jg hg t (by omega)
  have hle := splits_row_le JR g jg hg
  rw [psum_get _ _ (by rw [sizes_length]; omega)] at e
  rw [Option.some.inj e] at this
  rw [← this, Nat.add_assoc]

theorem sel_pos_lt (JR : List (List (Nat × Nat))) (g : Nat) (jg : List (Nat × Nat)) (t : Nat)
    (p : Nat × Nat) (k : Nat) (hg : JR[g]? = some jg) (hp : jg[t]? = some p) (hk : k < p.2 - p.1) :
    base JR g + (((sizes jg).take t).sum + k) < (sizes JR.flatten).sum := by
  have := (List.getElem?_eq_some_iff.mp (sel_composed JR g jg t p k hg hp hk)).1
  simpa using this

theorem selKernel_writes (JR : List (List (Nat × Nat))) (f : Nat → Nat → Nat → Option Nat)
    (hf : ∀ g jg t p k, JR[g]? = some jg → jg[t]? = some p → k < p.2 - p.1 →
      ∃ v, f (splits JR g + t) (splits JR g) k = some v) :
    ∃ ws, selKernel (lay JR) (psum (sizes JR.flatten)) (sizes JR.flatten).sum f = some ws ∧
      ∀ w, w ∈ ws ↔ ∃ g jg t p k v, JR[g]? = some jg ∧ jg[t]? = some p ∧ k < p.2 - p.1 ∧
        f (splits JR g + t) (splits JR g) k = some v ∧ w = (g, ((sizes jg).take t).sum + k, v) := by
  unfold selKernel
  simp only [rowSplitsToRowIds_psum, Option.bind_eq_bind, Option.bind_some]
  have step : ∀ g jg t p k v, JR[g]? = some jg → jg[t]? = some p → k < p.2 - p.1 →
      f (splits JR g + t) (splits JR g) k = some v →
      ((idsFrom 0 (sizes JR.flatten))[base JR g + (((sizes jg).take t).sum + k)]?.bind fun t' =>
        (lay JR).2[t']?.bind fun g' => (lay JR).1[g']?.bind fun b =>
        (psum (sizes JR.flatten))[b]?.bind fun beginBase =>
        (psum (sizes JR.flatten))[t']?.bind fun begin0 =>
        (f t' b (base JR g + (((sizes jg).take t).sum + k) - begin0)).bind fun v =>
        some (g', base JR g + (((sizes jg).take t).sum + k) - beginBase, v)) =
      some (g, ((sizes jg).take t).sum + k, v) := by
    intro g jg t p k v hg hp hk hv
    have ht := (List.getElem?_eq_some_iff.mp hp).1
    have hgl := (List.getElem?_eq_some_iff.mp hg).1
    have e0 := noff_get JR g jg hg 0 (by omega)
    rw [Nat.add_zero] at e0
    rw [sel_composed JR g jg t p k hg hp hk]
    simp only [Option.bind_some, lay_ids JR g jg hg t ht, lay_splits JR g (by omega), e0,
      noff_get JR g jg hg t (by omega)]
    rw [show base JR g + (((sizes jg).take t).sum + k) - (base JR g + ((sizes jg).take t).sum) = k by
      omega, hv]
    simp
  obtain ⟨ws, hws⟩ := mapM_exists (l := List.range (sizes JR.flatten).sum) (f := fun i =>
        (idsFrom 0 (sizes JR.flatten))[i]?.bind fun t' =>
        (lay JR).2[t']?.bind fun g' => (lay JR).1[g']?.bind fun b =>
        (psum (sizes JR.flatten))[b]?.bind fun beginBase =>
        (psum (sizes JR.flatten))[t']?.bind fun begin0 =>
        (f t' b (i - begin0)).bind fun v => some (g', i - beginBase, v)) (by
    intro i hi
    obtain ⟨g, jg, t, p, k, hg, hp, hk, rfl⟩ := sel_pos JR i (by simpa using hi)
    obtain ⟨v, hv⟩ := hf g jg t p k hg hp hk
    exact ⟨_, step g jg t p k v hg hp hk hv⟩)
  refine ⟨ws, hws, fun w => ?_⟩
  obtain ⟨hl, hget⟩ := mapM_get hws
  constructor
  · intro hw
    obtain ⟨i, hi⟩ := List.mem_iff_getElem?.mp hw
    have hil : i < (sizes JR.flatten).sum := by
      have := (List.getElem?_eq_some_iff.mp hi).1
      simpa [hl] using this
    have h1 := hget i i (List.getElem?_range hil)
    obtain ⟨g, jg, t, p, k, hg, hp, hk, rfl⟩ := sel_pos JR i hil
    obtain ⟨v, hv⟩ := hf g jg t p k hg hp hk
    rw [hi] at h1
    exact ⟨g, jg, t, p, k, v, hg, hp, hk, hv,
      Option.some.inj (h1.trans (step g jg t p k v hg hp hk hv))⟩
  · rintro ⟨g, jg, t, p, k, v, hg, hp, hk, hv, rfl⟩
    have h1 := hget _ _ (List.getElem?_range (sel_pos_lt JR g jg t p k hg hp hk))
    exact List.mem_of_getElem? (h1.trans (step g jg t p k v hg hp hk hv))

theorem mem_toOutput (g : Nat) (ws : List (Nat × Nat × Nat)) (x : Nat × Nat) :
    x ∈ toOutput g ws ↔ (g, x) ∈ ws := by
  unfold toOutput
  simp only [List.mem_map, List.mem_filter, beq_iff_eq]
  constructor
  · rintro ⟨⟨g', y⟩, ⟨h1, h2⟩, h3⟩
    simp only at h2 h3; subst h2; subst h3; exact h1
  · intro h; exact ⟨_, ⟨h, rfl⟩, rfl⟩

/-- The writes of a kernel to one output fill it. -/
theorem scatter_sel (JR : List (List (Nat × Nat))) (g : Nat) (jg : List (Nat × Nat))
    (hg : JR[g]? = some jg) (f : Nat → Nat → Nat → Option Nat) (ws : List (Nat × Nat × Nat))
    (hws : ∀ w, w ∈ ws ↔ ∃ g jg t p k v, JR[g]? = some jg ∧ jg[t]? = some p ∧ k < p.2 - p.1 ∧
        f (splits JR g + t) (splits JR g) k = some v ∧ w = (g, ((sizes jg).take t).sum + k, v))
    (out : List Nat) (hlen : out.length = (sizes jg).sum)
    (hv : ∀ t p k, jg[t]? = some p → k < p.2 - p.1 →
      ∃ v, f (splits JR g + t) (splits JR g) k = some v ∧ out[((sizes jg).take t).sum + k]? = some v) :
    scatter (sizes jg).sum (toOutput g ws) = some out := by
  apply scatter_eq _ _ _ hlen
  · intro w hw
    rw [mem_toOutput, hws] at hw
    obtain ⟨g', jg', t, p, k, v, h1, h2, h3, h4, h5⟩ := hw
    simp only [Prod.mk.injEq] at h5
    obtain ⟨rfl, h5⟩ := h5
    rw [hg] at h1
    obtain rfl := Option.some.inj h1
    obtain ⟨v', h6, h7⟩ := hv t p k h2 h3
    rw [h4] at h6
    obtain rfl := Option.some.inj h6
    rw [h5]; exact h7
  · intro j hj
    obtain ⟨t, k, n, h1, h2, h3, h4, h5⟩ := pos_split (sizes jg) j hj
    have htl : t < jg.length := by simpa [sizes] using h5
    have hp : jg[t]? = some jg[t] := List.getElem?_eq_getElem htl
    have hk : k < (jg[t]).2 - (jg[t]).1 := by
      simp only [sizes, List.getElem?_map, hp, Option.map_some, Option.some.injEq] at h1
      omega
    obtain ⟨v, h6, h7⟩ := hv t _ k hp hk
    exact ⟨(j, v), by
      rw [mem_toOutput, hws]
      exact ⟨g, jg, t, _, k, v, hg, hp, hk, h6, by rw [h4]⟩, rfl⟩

/-! ## What `Index` writes -/

theorem local_pos (jg : List (Nat × Nat)) (t : Nat) (p : Nat × Nat) (k : Nat) (hp : jg[t]? = some p)
    (hk : k < p.2 - p.1) : ((sizes jg).take t).sum + k < (sizes jg).sum ∧
      (idsFrom 0 (sizes jg))[((sizes jg).take t).sum + k]? = some t := by
  have h := ids_row (sizes jg) t (p.2 - p.1) k (by rw [sizes, List.getElem?_map, hp]; rfl) hk
  have := (List.getElem?_eq_some_iff.mp h).1
  exact ⟨by simpa using this, h⟩

theorem indexIds_get (oldIds : List Nat) (jobs jobs' : List (Nat × Nat)) (out : List Nat)
    (h : indexIds oldIds jobs jobs' = some out) :
    out.length = (sizes jobs').sum ∧ ∀ t p' k, jobs'[t]? = some p' → k < p'.2 - p'.1 →
      t ≤ jobs.length → ∀ p, jobs[t]? = some p →
      ∃ v, oldIds[p'.1 + k]? = some v ∧
        out[((sizes jobs').take t).sum + k]? = some (v + ((sizes jobs).take t).sum - p.1) := by
  unfold indexIds at h
  simp only [rowSplitsToRowIds_psum, Option.bind_eq_bind, Option.bind_some] at h
  obtain ⟨h1, h2⟩ := mapM_get h
  refine ⟨by simpa using h1, fun t p' k hp' hk ht p hp => ?_⟩
  obtain ⟨hlt, hid⟩ := local_pos jobs' t p' k hp' hk
  have htl := (List.getElem?_eq_some_iff.mp hp').1
  have h3 := h2 _ _ (List.getElem?_range hlt)
  have f1 := psum_get (sizes jobs') t (by rw [sizes_length]; omega)
  have f2 := psum_get (sizes jobs) t (by rw [sizes_length]; omega)
  simp only [hid, f1, f2, hp, hp', Option.bind_some, Nat.add_sub_cancel_left] at h3
  have hol : ((sizes jobs').take t).sum + k < out.length := by rw [h1]; simpa using hlt
  rw [List.getElem?_eq_getElem hol] at h3 ⊢
  cases hv : oldIds[p'.1 + k]? with
  | none => rw [hv] at h3; simp at h3
  | some v => rw [hv] at h3; exact ⟨v, rfl, by simpa using h3⟩

theorem indexSplits_get (rs : List Nat) (jobs jobs' : List (Nat × Nat)) (out : List Nat)
    (h : indexSplits rs jobs jobs' = some out) (hl : jobs'.length = jobs.length) :
    out.length = (sizes jobs).sum + 1 ∧ out[(sizes jobs).sum]? = some (sizes jobs').sum ∧
    ∀ t p k, jobs[t]? = some p → k < p.2 - p.1 → ∀ p', jobs'[t]? = some p' →
      ∃ v, rs[p.1 + k]? = some v ∧
        out[((sizes jobs).take t).sum + k]? = some (((sizes jobs').take t).sum + v - p'.1) := by
  unfold indexSplits at h
  simp only [rowSplitsToRowIds_psum, Option.bind_eq_bind, Option.bind_some] at h
  obtain ⟨h1, h2⟩ := mapM_get h
  refine ⟨by simpa using h1, ?_, fun t p k hp hk p' hp' => ?_⟩
  · have h3 := h2 _ _ (List.getElem?_range (show (sizes jobs).sum < (sizes jobs).sum + 1 by omega))
    rw [if_pos rfl, psum_get _ _ (by rw [sizes_length]; omega)] at h3
    rw [h3, List.take_of_length_le (by rw [sizes_length]; omega)]
  obtain ⟨hlt, hid⟩ := local_pos jobs t p k hp hk
  have htl := (List.getElem?_eq_some_iff.mp hp).1
  have h3 := h2 _ _ (List.getElem?_range (show _ < (sizes jobs).sum + 1 from Nat.lt_succ_of_lt hlt))
  have f1 := psum_get (sizes jobs) t (by rw [sizes_length]; omega)
  have f2 := psum_get (sizes jobs') t (by rw [sizes_length]; omega)
  rw [if_neg (by omega)] at h3
  simp only [hid, f1, f2, hp, hp', Option.bind_some, Nat.add_sub_cancel_left] at h3
  have hol : ((sizes jobs).take t).sum + k < out.length := by rw [h1]; simp; omega
  rw [List.getElem?_eq_getElem hol] at h3 ⊢
  cases hv : rs[p.1 + k]? with
  | none => rw [hv] at h3; simp at h3
  | some v => rw [hv] at h3; exact ⟨v, rfl, by simpa using h3⟩

theorem indexElems_get (jobs : List (Nat × Nat)) (out : List Nat) (h : indexElems jobs = some out) :
    out.length = (sizes jobs).sum ∧ ∀ t p k, jobs[t]? = some p → k < p.2 - p.1 →
      out[((sizes jobs).take t).sum + k]? = some (p.1 + k) := by
  unfold indexElems at h
  simp only [rowSplitsToRowIds_psum, Option.bind_eq_bind, Option.bind_some] at h
  obtain ⟨h1, h2⟩ := mapM_get h
  refine ⟨by simpa using h1, fun t p k hp hk => ?_⟩
  obtain ⟨hlt, hid⟩ := local_pos jobs t p k hp hk
  have htl := (List.getElem?_eq_some_iff.mp hp).1
  have h3 := h2 _ _ (List.getElem?_range hlt)
  have f1 := psum_get (sizes jobs) t (by rw [sizes_length]; omega)
  simp only [hid, f1, hp, Option.bind_some, Nat.add_sub_cancel_left] at h3
  exact h3

/-! ## The kernels of `SelectAxis0` do for each output what `Index` does -/

theorem elemJobs_flatten (T : List (List X)) (JR : List (List (Nat × Nat))) :
    elemJobs T JR.flatten = (JR.map (elemJobs T)).flatten := by
  simp only [elemJobs, List.map_flatten]
  rfl

theorem JobsIn.row {JR : List (List (Nat × Nat))} {n : Nat} (h : JobsIn JR.flatten n) {g : Nat}
    {jg : List (Nat × Nat)} (hg : JR[g]? = some jg) : JobsIn jg n :=
  fun p hp => h p (List.mem_flatten.mpr ⟨jg, List.mem_of_getElem? hg, hp⟩)

theorem lay_elemJobs (T : List (List X)) (JR : List (List (Nat × Nat))) :
    lay (JR.map (elemJobs T)) = lay JR := by
  have : (JR.map (elemJobs T)).map List.length = JR.map List.length := by
    rw [List.map_map]; apply List.map_congr_left; intro a _; simp [elemJobs]
  simp only [lay, this]

theorem splits_elemJobs (T : List (List X)) (JR : List (List (Nat × Nat))) (g : Nat) :
    splits (JR.map (elemJobs T)) g = splits JR g := by
  unfold splits
  rw [← List.map_take, List.map_map]
  congr 1
  apply List.map_congr_left; intro a _; simp [elemJobs]

theorem flatten_row (JR : List (List X)) (g : Nat) (jg : List X) (hg : JR[g]? = some jg) (t : Nat)
    (p : X) (hp : jg[t]? = some p) : JR.flatten[splits JR g + t]? = some p := by
  rw [flatten_get JR g jg hg t (List.getElem?_eq_some_iff.mp hp).1, hp]

theorem selIds_eq (T : List (List X)) (JR : List (List (Nat × Nat))) (h : JobsIn JR.flatten T.length)
    (g : Nat) (jg : List (Nat × Nat)) (hg : JR[g]? = some jg) :
    selIds (lay JR) g (idsFrom 0 (T.map List.length)) (psum (sizes JR.flatten)) JR.flatten
      (elemJobs T JR.flatten) =
    indexIds (idsFrom 0 (T.map List.length)) jg (elemJobs T jg) := by
  have key : ∀ g jg, JR[g]? = some jg → ∃ out,
      indexIds (idsFrom 0 (T.map List.length)) jg (elemJobs T jg) = some out :=
    fun g jg hg => ⟨_, indexIds_eq T jg (h.row hg)⟩
  rw [elemJobs_flatten]
  unfold selIds
  have hf : ∀ (g : Nat) (jg : List (Nat × Nat)) (out : List Nat), JR[g]? = some jg →
      indexIds (idsFrom 0 (T.map List.length)) jg (elemJobs T jg) = some out →
      ∀ t p' k, (elemJobs T jg)[t]? = some p' → k < p'.2 - p'.1 →
      ∃ v, ((psum (sizes JR.flatten))[splits JR g + t]?.bind fun newPrev =>
        (psum (sizes JR.flatten))[splits JR g]?.bind fun newPrevBase =>
        JR.flatten[splits JR g + t]?.bind fun jobP =>
        (JR.map (elemJobs T)).flatten[splits JR g + t]?.bind fun job =>
        (idsFrom 0 (T.map List.length))[job.1 + k]?.bind fun v =>
        some (v + newPrev - jobP.1 - newPrevBase)) = some v ∧
        out[((sizes (elemJobs T jg)).take t).sum + k]? = some v := by
    intro g jg out hg hout t p' k hp' hk
    have htl := (List.getElem?_eq_some_iff.mp hp').1
    have htl' : t < jg.length := by simpa [elemJobs] using htl
    have hp : jg[t]? = some jg[t] := List.getElem?_eq_getElem htl'
    obtain ⟨v, h1, h2⟩ := (indexIds_get _ _ _ _ hout).2 t p' k hp' hk (by omega) _ hp
    have hg' : (JR.map (elemJobs T))[g]? = some (elemJobs T jg) := by rw [List.getElem?_map, hg]; rfl
    have e0 := noff_get JR g jg hg 0 (by omega)
    rw [Nat.add_zero] at e0
    have e3 := flatten_row _ g _ hg' t p' hp'
    rw [splits_elemJobs] at e3
    simp only [noff_get JR g jg hg t (by omega), e0, flatten_row JR g jg hg t _ hp, e3, h1,
      Option.bind_some]
    refine ⟨_, rfl, ?_⟩
    rw [h2]
    congr 1
    simp only [List.take_zero, List.sum_nil, Nat.add_zero]
    omega
  have hw := selKernel_writes (JR.map (elemJobs T)) (fun t b k => do
    let newPrev ← (psum (sizes JR.flatten))[t]?
    let newPrevBase ← (psum (sizes JR.flatten))[b]?
    let jobP ← JR.flatten[t]?
    let job ← (JR.map (elemJobs T)).flatten[t]?
    let v ← (idsFrom 0 (T.map List.length))[job.1 + k]?
    some (v + newPrev - jobP.1 - newPrevBase)) (by
      intro g' jg' t p k hg' hp hk
      rw [List.getElem?_map] at hg'
      obtain ⟨j0, hj0, rfl⟩ := Option.map_eq_some_iff.mp hg'
      obtain ⟨out, hout⟩ := key g' j0 hj0
      obtain ⟨v, hv, _⟩ := hf g' j0 out hj0 hout t p k hp hk
      rw [splits_elemJobs]
      exact ⟨v, hv⟩)
  obtain ⟨ws, hws, hmem⟩ := hw
  have hg' : (JR.map (elemJobs T))[g]? = some (elemJobs T jg) := by rw [List.getElem?_map, hg]; rfl
  rw [← lay_elemJobs T JR, hws]
  simp only [Option.bind_eq_bind, Option.bind_some]
  rw [selTot_eq _ g _ hg', Option.bind_some]
  obtain ⟨out, hout⟩ := key g jg hg
  rw [hout]
  refine scatter_sel _ g _ hg' (fun t b k => do
    let newPrev ← (psum (sizes JR.flatten))[t]?
    let newPrevBase ← (psum (sizes JR.flatten))[b]?
    let jobP ← JR.flatten[t]?
    let job ← (JR.map (elemJobs T)).flatten[t]?
    let v ← (idsFrom 0 (T.map List.length))[job.1 + k]?
    some (v + newPrev - jobP.1 - newPrevBase)) ws hmem out (indexIds_get _ _ _ _ hout).1 ?_
  intro t p k hp hk
  rw [splits_elemJobs]
  exact hf g jg out hg hout t p k hp hk

theorem selSplits_eq (T : List (List X)) (JR : List (List (Nat × Nat))) (h : JobsIn JR.flatten T.length)
    (g : Nat) (jg : List (Nat × Nat)) (hg : JR[g]? = some jg) :
    selSplits (lay JR) g (psum (T.map List.length)) JR.flatten (elemJobs T JR.flatten) =
    indexSplits (psum (T.map List.length)) jg (elemJobs T jg) := by
  have key : ∀ g jg, JR[g]? = some jg → ∃ out,
      indexSplits (psum (T.map List.length)) jg (elemJobs T jg) = some out :=
    fun g jg hg => ⟨_, indexSplits_eq T jg (h.row hg)⟩
  have hlj : ∀ jg, (elemJobs T jg).length = jg.length := fun jg => by simp [elemJobs]
  have hE : ∀ g jg, JR[g]? = some jg → (JR.map (elemJobs T))[g]? = some (elemJobs T jg) :=
    fun g jg hg => by rw [List.getElem?_map, hg]; rfl
  rw [elemJobs_flatten]
  unfold selSplits
  have hf : ∀ (g : Nat) (jg : List (Nat × Nat)) (out : List Nat), JR[g]? = some jg →
      indexSplits (psum (T.map List.length)) jg (elemJobs T jg) = some out →
      ∀ t p k, jg[t]? = some p → k < p.2 - p.1 →
      ∃ v, ((psum (sizes (JR.map (elemJobs T)).flatten))[splits JR g + t]?.bind fun newNext =>
        (psum (sizes (JR.map (elemJobs T)).flatten))[splits JR g]?.bind fun newNextBase =>
        JR.flatten[splits JR g + t]?.bind fun job =>
        (JR.map (elemJobs T)).flatten[splits JR g + t]?.bind fun job' =>
        (psum (T.map List.length))[job.1 + k]?.bind fun v =>
        some (newNext + v - job'.1 - newNextBase)) = some v ∧
        out[((sizes jg).take t).sum + k]? = some v := by
    intro g jg out hg hout t p k hp hk
    have htl := (List.getElem?_eq_some_iff.mp hp).1
    have htl' : t < (elemJobs T jg).length := by rw [hlj]; exact htl
    have hp' : (elemJobs T jg)[t]? = some (elemJobs T jg)[t] := List.getElem?_eq_getElem htl'
    obtain ⟨v, h1, h2⟩ := (indexSplits_get _ _ _ _ hout (hlj jg)).2.2 t p k hp hk _ hp'
    have e0 := noff_get _ g _ (hE g jg hg) 0 (by omega)
    have e1 := noff_get _ g _ (hE g jg hg) t (by omega)
    have e3 := flatten_row _ g _ (hE g jg hg) t _ hp'
    rw [splits_elemJobs] at e0 e1 e3
    rw [Nat.add_zero] at e0
    simp only [e0, e1, flatten_row JR g jg hg t _ hp, e3, h1, Option.bind_some]
    refine ⟨_, rfl, ?_⟩
    rw [h2]
    congr 1
    simp only [List.take_zero, List.sum_nil, Nat.add_zero]
    omega
  obtain ⟨ws, hws, hmem⟩ := selKernel_writes JR (fun t b k => do
    let newNext ← (psum (sizes (JR.map (elemJobs T)).flatten))[t]?
    let newNextBase ← (psum (sizes (JR.map (elemJobs T)).flatten))[b]?
    let job ← JR.flatten[t]?
    let job' ← (JR.map (elemJobs T)).flatten[t]?
    let v ← (psum (T.map List.length))[job.1 + k]?
    some (newNext + v - job'.1 - newNextBase)) (by
      intro g' jg' t p k hg' hp hk
      obtain ⟨out, hout⟩ := key g' jg' hg'
      obtain ⟨v, hv, _⟩ := hf g' jg' out hg' hout t p k hp hk
      exact ⟨v, hv⟩)
  have hlast : ∀ g' jg', JR[g']? = some jg' →
      ((selTot (lay JR) g' (psum (sizes JR.flatten))).bind fun pos =>
        (selTot (lay JR) g' (psum (sizes (JR.map (elemJobs T)).flatten))).bind fun v =>
        some (g', pos, v)) = some (g', (sizes jg').sum, (sizes (elemJobs T jg')).sum) := by
    intro g' jg' hg'
    have := selTot_eq _ g' _ (hE g' jg' hg')
    rw [lay_elemJobs] at this
    rw [selTot_eq JR g' jg' hg', this]
    rfl
  have hll : (lay JR).1.length - 1 = JR.length := by simp [lay]
  obtain ⟨last, hl⟩ := mapM_exists (l := List.range ((lay JR).1.length - 1)) (f := fun g' =>
      (selTot (lay JR) g' (psum (sizes JR.flatten))).bind fun pos =>
        (selTot (lay JR) g' (psum (sizes (JR.map (elemJobs T)).flatten))).bind fun v =>
        some (g', pos, v)) (by
    intro g' hg'
    rw [hll, List.mem_range] at hg'
    exact ⟨_, hlast g' _ (List.getElem?_eq_getElem hg')⟩)
  obtain ⟨hl1, hl2⟩ := mapM_get hl
  simp only [Option.bind_eq_bind]
  rw [hl]
  simp only [Option.bind_some]
  simp only [Option.bind_eq_bind] at hws
  rw [hws]
  simp only [Option.bind_some]
  rw [selTot_eq _ g _ hg, Option.bind_some]
  obtain ⟨out, hout⟩ := key g jg hg
  rw [hout]
  obtain ⟨o1, o2, o3⟩ := indexSplits_get _ _ _ _ hout (hlj jg)
  have hgl := (List.getElem?_eq_some_iff.mp hg).1
  have hlg : (g, (sizes jg).sum, (sizes (elemJobs T jg)).sum) ∈ last := by
    have := hl2 g g (List.getElem?_range (by rw [hll]; exact hgl))
    exact List.mem_of_getElem? (this.trans (hlast g jg hg))
  apply scatter_eq _ _ _ o1
  · intro w hw
    rw [mem_toOutput, List.mem_append] at hw
    rcases hw with hw | hw
    · obtain ⟨i, hi⟩ := List.mem_iff_getElem?.mp hw
      have hil : i < JR.length := by
        have := (List.getElem?_eq_some_iff.mp hi).1
        rw [hl1, List.length_range, hll] at this; exact this
      have h3 := hl2 i i (List.getElem?_range (by rw [hll]; exact hil))
      have h4 := hi.symm.trans (h3.trans (hlast i _ (List.getElem?_eq_getElem hil)))
      simp only [Option.some.injEq, Prod.mk.injEq] at h4
      obtain ⟨rfl, h4⟩ := h4
      have h5 := (List.getElem?_eq_getElem hil).symm.trans hg
      rw [Option.some.inj h5] at h4
      rw [h4]; exact o2
    · rw [hmem] at hw
      obtain ⟨g', jg', t, p, k, v, h1, h2, h3, h4, h5⟩ := hw
      simp only [Prod.mk.injEq] at h5
      obtain ⟨rfl, h5⟩ := h5
      rw [hg] at h1
      obtain rfl := Option.some.inj h1
      obtain ⟨v', h6, h7⟩ := hf g jg out hg hout t p k h2 h3
      obtain rfl := Option.some.inj (h4.symm.trans h6)
      rw [h5]; exact h7
  · intro j hj
    by_cases hjl : j = (sizes jg).sum
    · exact ⟨(j, _), by rw [mem_toOutput, List.mem_append]; left; rw [hjl]; exact hlg, rfl⟩
    · obtain ⟨t, k, n, h1, h2, h3, h4, h5⟩ := pos_split (sizes jg) j (by omega)
      have htl : t < jg.length := by rwa [sizes_length] at h5
      have hp : jg[t]? = some jg[t] := List.getElem?_eq_getElem htl
      have hk : k < (jg[t]).2 - (jg[t]).1 := by
        simp only [sizes, List.getElem?_map, hp, Option.map_some, Option.some.injEq] at h1
        omega
      obtain ⟨v, h6, h7⟩ := hf g jg out hg hout t _ k hp hk
      exact ⟨(j, v), by
        rw [mem_toOutput, List.mem_append, hmem]
        exact Or.inr ⟨g, jg, t, _, k, v, hg, hp, hk, h6, by rw [h4]⟩, rfl⟩

theorem selElems_eq (n : Nat) (JR : List (List (Nat × Nat))) (h : JobsIn JR.flatten n)
    (g : Nat) (jg : List (Nat × Nat)) (hg : JR[g]? = some jg) :
    selElems (lay JR) g JR.flatten = indexElems jg := by
  unfold selElems
  obtain ⟨ws, hws, hmem⟩ := selKernel_writes JR (fun t _ k => do
    let job ← JR.flatten[t]?
    some (job.1 + k)) (by
      intro g' jg' t p k hg' hp hk
      simp only [flatten_row JR g' jg' hg' t p hp]
      exact ⟨_, rfl⟩)
  rw [hws]
  simp only [Option.bind_eq_bind, Option.bind_some]
  rw [selTot_eq _ g _ hg, Option.bind_some]
  have hout := indexElems_eq jg n (h.row hg)
  rw [hout]
  obtain ⟨o1, o2⟩ := indexElems_get _ _ hout
  refine scatter_sel _ g _ hg (fun t _ k => do
    let job ← JR.flatten[t]?
    some (job.1 + k)) ws hmem _ o1 ?_
  intro t p k hp hk
  simp only [flatten_row JR g jg hg t p hp]
  exact ⟨_, rfl, o2 t p k hp hk⟩

theorem selGo_eq (n : Nat) (T : List (Nest α n)) (JR : List (List (Nat × Nat)))
    (h : JobsIn JR.flatten T.length) (g : Nat) (jg : List (Nat × Nat)) (hg : JR[g]? = some jg) :
    selGo (lay JR) g (layersOf n T) JR.flatten = indexGo (layersOf n T) jg := by
  induction n generalizing JR jg with
  | zero =>
    simp only [layersOf, selGo, indexGo]
    rw [selElems_eq T.length JR h g jg hg]
  | succ n ih =>
    have key : ∀ T : List (List (Nest α n)), JobsIn JR.flatten T.length →
        selGo (lay JR) g (psum (T.map List.length) :: layersOf n T.flatten) JR.flatten =
          indexGo (psum (T.map List.length) :: layersOf n T.flatten) jg := by
      intro T h
      have hE : (JR.map (elemJobs T))[g]? = some (elemJobs T jg) := by rw [List.getElem?_map, hg]; rfl
      have h2 := ih T.flatten (JR.map (elemJobs T))
        (by rw [← elemJobs_flatten]; exact elemJobs_in T _ h) (elemJobs T jg) hE
      rw [lay_elemJobs, ← elemJobs_flatten] at h2
      simp only [selGo, indexGo, nextJobs_eq T _ h, nextJobs_eq T _ (h.row hg), psum_getLastD,
        rowSplitsToRowIds_psum, Option.bind_eq_bind, Option.bind_some, selSplits_eq T JR h g jg hg,
        selIds_eq T JR h g jg hg, h2]
    exact key T h

theorem selSplits1_eq (JR : List (List (Nat × Nat))) (g : Nat) (jg : List (Nat × Nat))
    (hg : JR[g]? = some jg) (hne : jg ≠ []) :
    selSplits1 (lay JR) g JR.flatten.length (psum (sizes JR.flatten)) = some (psum (sizes jg)) := by
  unfold selSplits1
  simp only [Option.bind_eq_bind]
  have step : ∀ g' jg' k, JR[g']? = some jg' → k < jg'.length →
      ((lay JR).2[splits JR g' + k]?.bind fun g1 => (lay JR).1[g1]?.bind fun b =>
        (psum (sizes JR.flatten))[splits JR g' + k]?.bind fun x =>
        (psum (sizes JR.flatten))[b]?.bind fun x0 =>
        (psum (sizes JR.flatten))[splits JR g' + k + 1]?.bind fun y =>
        some ((g1, splits JR g' + k - b, x - x0) ::
          if splits JR g' + k + 1 = JR.flatten.length ∨ (lay JR).2[splits JR g' + k + 1]? ≠ some g1
          then [(g1, splits JR g' + k - b + 1, y - x0)] else [])) =
      some ((g', k, ((sizes jg').take k).sum) ::
        if k + 1 = jg'.length then [(g', k + 1, (sizes jg').sum)] else []) := by
    intro g' jg' k hg' hk
    have hgl := (List.getElem?_eq_some_iff.mp hg').1
    have e0 := noff_get JR g' jg' hg' 0 (by omega)
    rw [Nat.add_zero] at e0
    have e2 := noff_get JR g' jg' hg' (k + 1) (by omega)
    rw [← Nat.add_assoc] at e2
    simp only [lay_ids JR g' jg' hg' k hk, lay_splits JR g' (by omega), e0, e2,
      noff_get JR g' jg' hg' k (by omega), Option.bind_some, List.take_zero, List.sum_nil,
      Nat.add_zero, Nat.add_sub_cancel_left]
    have hc : (splits JR g' + k + 1 = JR.flatten.length ∨
        (lay JR).2[splits JR g' + k + 1]? ≠ some g') ↔ k + 1 = jg'.length := by
      constructor
      · intro hh
        by_contra hlt
        have h1 := lay_ids JR g' jg' hg' (k + 1) (by omega)
        rw [← Nat.add_assoc] at h1
        rcases hh with hh | hh
        · have := splits_row_le JR g' jg' hg'; omega
        · exact hh h1
      · intro hh
        right
        intro hi
        have h1 := idsFrom_get 0 (JR.map List.length) (splits JR g' + k + 1) g'
        rw [Nat.zero_add] at h1
        have h2 := (h1.mp hi).2.2
        rw [← List.map_take] at h2
        have h3 := splits_succ JR g' jg' hg'
        unfold splits at h3 h2
        omega
    by_cases hh : k + 1 = jg'.length
    · have ht : (sizes jg').take (k + 1) = sizes jg' :=
        List.take_of_length_le (by rw [sizes_length]; omega)
      rw [if_pos (hc.mpr hh), if_pos hh, ht]
    · rw [if_neg (fun h => hh (hc.mp h)), if_neg hh]
  obtain ⟨ws, hws⟩ := mapM_exists (l := List.range JR.flatten.length) (f := fun t =>
      (lay JR).2[t]?.bind fun g1 => (lay JR).1[g1]?.bind fun b =>
        (psum (sizes JR.flatten))[t]?.bind fun x =>
        (psum (sizes JR.flatten))[b]?.bind fun x0 =>
        (psum (sizes JR.flatten))[t + 1]?.bind fun y =>
        some ((g1, t - b, x - x0) ::
          if t + 1 = JR.flatten.length ∨ (lay JR).2[t + 1]? ≠ some g1
          then [(g1, t - b + 1, y - x0)] else [])) (by
    intro t ht
    obtain ⟨g', jg', k, h1, h2, rfl⟩ := flatten_pos JR t (List.mem_range.mp ht)
    exact ⟨_, step g' jg' k h1 h2⟩)
  obtain ⟨hl, hget⟩ := mapM_get hws
  rw [hws, Option.bind_some]
  have hgl := (List.getElem?_eq_some_iff.mp hg).1
  have htot : selTot (lay JR) g (List.range (JR.flatten.length + 1)) = some jg.length := by
    have := splits_row_le JR g jg hg
    unfold selTot
    rw [lay_splits JR g (by omega), lay_splits JR (g + 1) (by omega), splits_succ JR g jg hg]
    simp only [Option.bind_eq_bind, Option.bind_some]
    rw [List.getElem?_range (by omega), List.getElem?_range (by omega)]
    simp
  rw [htot, Option.bind_some]
  have hmem : ∀ w, w ∈ ws.flatten ↔ ∃ g' jg' k, JR[g']? = some jg' ∧ k < jg'.length ∧
      (w = (g', k, ((sizes jg').take k).sum) ∨
        (k + 1 = jg'.length ∧ w = (g', k + 1, (sizes jg').sum))) := by
    intro w
    rw [List.mem_flatten]
    constructor
    · rintro ⟨l, hl1, hl2⟩
      obtain ⟨t, ht⟩ := List.mem_iff_getElem?.mp hl1
      have htl : t < JR.flatten.length := by
        have := (List.getElem?_eq_some_iff.mp ht).1
        rw [hl, List.length_range] at this; exact this
      have h1 := hget t t (List.getElem?_range htl)
      obtain ⟨g', jg', k, h2, h3, rfl⟩ := flatten_pos JR t htl
      obtain rfl := Option.some.inj (ht.symm.trans (h1.trans (step g' jg' k h2 h3)))
      refine ⟨g', jg', k, h2, h3, ?_⟩
      rcases List.mem_cons.mp hl2 with h4 | h4
      · exact Or.inl h4
      · split at h4
        · next hk => exact Or.inr ⟨hk, List.mem_singleton.mp h4⟩
        · simp at h4
    · rintro ⟨g', jg', k, h2, h3, h4⟩
      have hlt : splits JR g' + k < JR.flatten.length := by
        have := splits_row_le JR g' jg' h2; omega
      have h1 := (hget _ _ (List.getElem?_range hlt)).trans (step g' jg' k h2 h3)
      refine ⟨_, List.mem_of_getElem? h1, ?_⟩
      rcases h4 with rfl | ⟨hk, rfl⟩
      · exact List.mem_cons_self
      · rw [if_pos hk]; simp
  apply scatter_eq
  · simp [sizes]
  · intro w hw
    rw [mem_toOutput, hmem] at hw
    obtain ⟨g', jg', k, h1, h2, h3⟩ := hw
    rcases h3 with h3 | ⟨hk, h3⟩
    · simp only [Prod.mk.injEq] at h3
      obtain ⟨rfl, h3⟩ := h3
      rw [hg] at h1
      obtain rfl := Option.some.inj h1
      rw [h3, psum_get _ _ (by rw [sizes_length]; omega)]
    · simp only [Prod.mk.injEq] at h3
      obtain ⟨rfl, h3⟩ := h3
      rw [hg] at h1
      obtain rfl := Option.some.inj h1
      rw [h3, hk, psum_get _ _ (by rw [sizes_length]), List.take_of_length_le (by rw [sizes_length])]
  · intro j hj
    have hpos : 0 < jg.length := List.length_pos_of_ne_nil hne
    by_cases hjl : j < jg.length
    · exact ⟨(j, _), by rw [mem_toOutput, hmem]; exact ⟨g, jg, j, hg, hjl, Or.inl rfl⟩, rfl⟩
    · refine ⟨(jg.length - 1 + 1, (sizes jg).sum), ?_, by simp only; omega⟩
      rw [mem_toOutput, hmem]
      exact ⟨g, jg, jg.length - 1, hg, by omega, Or.inr ⟨by omega, rfl⟩⟩

theorem jobs0_flatten (R : List (List Int)) : jobs0 R.flatten = (R.map jobs0).flatten := by
  simp only [jobs0, List.map_flatten]
  rfl

theorem lay_jobs0 (R : List (List Int)) : lay (R.map jobs0) = lay R := by
  have : (R.map jobs0).map List.length = R.map List.length := by
    rw [List.map_map]; apply List.map_congr_left; intro a _; simp [jobs0]
  simp only [lay, this]

theorem splits_jobs0 (R : List (List Int)) (g : Nat) : splits (R.map jobs0) g = splits R g := by
  unfold splits
  rw [← List.map_take, List.map_map]
  congr 1
  apply List.map_congr_left; intro a _; simp [jobs0]

theorem selIds0_eq (T : List (List X)) (R : List (List Int))
    (h : ∀ i ∈ R.flatten, -1 ≤ i ∧ i < T.length) (g : Nat) (r : List Int) (hg : R[g]? = some r) :
    selIds (lay R) g (idsFrom 0 (T.map List.length)) (List.range (R.flatten.length + 1))
      (jobs0 R.flatten) (elemJobs T (jobs0 R.flatten)) =
    some (idsFrom 0 (sizes (elemJobs T (jobs0 r)))) := by
  have hin : ∀ (g : Nat) (r : List Int), R[g]? = some r → ∀ i ∈ r, -1 ≤ i ∧ i < T.length :=
    fun g r hg i hi => h i (List.mem_flatten.mpr ⟨r, List.mem_of_getElem? hg, hi⟩)
  have hE : ∀ (g : Nat) (r : List Int), R[g]? = some r →
      ((R.map jobs0).map (elemJobs T))[g]? = some (elemJobs T (jobs0 r)) :=
    fun g r hg => by rw [List.getElem?_map, List.getElem?_map, hg]; rfl
  rw [jobs0_flatten, elemJobs_flatten]
  unfold selIds
  have hf : ∀ (g : Nat) (r : List Int), R[g]? = some r →
      ∀ t p' k, (elemJobs T (jobs0 r))[t]? = some p' → k < p'.2 - p'.1 →
      ((List.range (R.flatten.length + 1))[splits R g + t]?.bind fun newPrev =>
        (List.range (R.flatten.length + 1))[splits R g]?.bind fun newPrevBase =>
        (R.map jobs0).flatten[splits R g + t]?.bind fun jobP =>
        ((R.map jobs0).map (elemJobs T)).flatten[splits R g + t]?.bind fun job =>
        (idsFrom 0 (T.map List.length))[job.1 + k]?.bind fun v =>
        some (v + newPrev - jobP.1 - newPrevBase)) = some t := by
    intro g r hg t p' k hp' hk
    have htl : t < r.length := by
      have := (List.getElem?_eq_some_iff.mp hp').1; simpa [elemJobs, jobs0] using this
    have hle := splits_row_le R g r hg
    have hi : r[t]? = some r[t] := List.getElem?_eq_getElem htl
    have hj : (jobs0 r)[t]? = some (if r[t] = -1 then (0, 0) else (r[t].toNat, r[t].toNat + 1)) := by
      rw [jobs0, List.getElem?_map, hi]; rfl
    have hg0 : (R.map jobs0)[g]? = some (jobs0 r) := by rw [List.getElem?_map, hg]; rfl
    have e1 := flatten_row _ g _ hg0 t _ hj
    have e2 := flatten_row _ g _ (hE g r hg) t _ hp'
    rw [splits_jobs0] at e1
    rw [splits_elemJobs, splits_jobs0] at e2
    rw [List.getElem?_range (by omega), List.getElem?_range (by omega)]
    simp only [Option.bind_some, e1, e2]
    have hr := hin g r hg r[t] (List.getElem_mem htl)
    have hp2 : p' = (((T.map List.length).take (if r[t] = -1 then (0, 0) else (r[t].toNat, r[t].toNat + 1)).1).sum,
        ((T.map List.length).take (if r[t] = -1 then (0, 0) else (r[t].toNat, r[t].toNat + 1)).2).sum) := by
      rw [elemJobs, List.getElem?_map, hj] at hp'
      exact (Option.some.inj hp').symm
    by_cases hm : r[t] = -1
    · rw [hp2, if_pos hm] at hk; simp at hk
    · rw [if_neg hm] at hp2 ⊢
      have hlt : r[t].toNat < T.length := by omega
      have hid := ids_row (T.map List.length) r[t].toNat T[r[t].toNat].length k
        (by rw [List.getElem?_map, List.getElem?_eq_getElem hlt]; rfl) (by
          rw [hp2] at hk
          simp only [List.take_add_one, List.getElem?_map, List.getElem?_eq_getElem hlt,
            Option.map_some, List.sum_append] at hk
          simp at hk
          omega)
      rw [hp2, hid]
      simp only [Option.bind_some, Option.some.injEq]
      omega
  obtain ⟨ws, hws, hmem⟩ := selKernel_writes ((R.map jobs0).map (elemJobs T)) (fun t b k => do
    let newPrev ← (List.range (R.flatten.length + 1))[t]?
    let newPrevBase ← (List.range (R.flatten.length + 1))[b]?
    let jobP ← (R.map jobs0).flatten[t]?
    let job ← ((R.map jobs0).map (elemJobs T)).flatten[t]?
    let v ← (idsFrom 0 (T.map List.length))[job.1 + k]?
    some (v + newPrev - jobP.1 - newPrevBase)) (by
      intro g' jg' t p k hg' hp hk
      rw [List.getElem?_map, List.getElem?_map] at hg'
      cases hr : R[g']? with
      | none => rw [hr] at hg'; simp at hg'
      | some r' =>
        rw [hr] at hg'
        obtain rfl := Option.some.inj hg'
        rw [splits_elemJobs, splits_jobs0]
        exact ⟨_, hf g' r' hr t p k hp hk⟩)
  rw [lay_elemJobs, lay_jobs0] at hws
  rw [hws]
  simp only [Option.bind_eq_bind, Option.bind_some]
  have htot := selTot_eq _ g _ (hE g r hg)
  rw [lay_elemJobs, lay_jobs0] at htot
  rw [htot, Option.bind_some]
  refine scatter_sel _ g _ (hE g r hg) (fun t b k => do
    let newPrev ← (List.range (R.flatten.length + 1))[t]?
    let newPrevBase ← (List.range (R.flatten.length + 1))[b]?
    let jobP ← (R.map jobs0).flatten[t]?
    let job ← ((R.map jobs0).map (elemJobs T)).flatten[t]?
    let v ← (idsFrom 0 (T.map List.length))[job.1 + k]?
    some (v + newPrev - jobP.1 - newPrevBase)) ws hmem _ (by simp) ?_
  intro t p k hp hk
  rw [splits_elemJobs, splits_jobs0]
  refine ⟨t, hf g r hg t p k hp hk, ?_⟩
  exact (local_pos _ t p k hp hk).2

/-- Every output of `SelectAxis0` is what `Index` returns for its row of the index array. -/
theorem select_axis0 (n : Nat) (T : List (Nest α (n + 1))) (R : List (List Int))
    (h : ∀ i ∈ R.flatten, -1 ≤ i ∧ i < T.length) (hne : ∀ r ∈ R, r ≠ []) :
    selectAxis0 (fullLayers (n + 1) T) (lay R) R.flatten =
      R.mapM (indexAxis0 (layersOf (n + 1) T)) := by
  unfold selectAxis0
  rw [← layersOf_full]
  have hll : (lay R).1.length - 1 = R.length := by simp [lay]
  have key : ∀ T : List (List (Nest α n)), (∀ i ∈ R.flatten, -1 ≤ i ∧ i < T.length) →
      ∀ g r, R[g]? = some r →
      selectOne (psum (T.map List.length) :: layersOf n T.flatten) (lay R) R.flatten g =
        indexAxis0 (psum (T.map List.length) :: layersOf n T.flatten) r := by
    intro T h g r hg
    obtain ⟨g1, _, _⟩ := selected_jobs0 T R.flatten h
    obtain ⟨r1, _, _⟩ := selected_jobs0 T r
      (fun i hi => h i (List.mem_flatten.mpr ⟨r, List.mem_of_getElem? hg, hi⟩))
    have hrne := hne r (List.mem_of_getElem? hg)
    have hE : ((R.map jobs0).map (elemJobs T))[g]? = some (elemJobs T (jobs0 r)) := by
      rw [List.getElem?_map, List.getElem?_map, hg]; rfl
    have hs := selSplits1_eq _ g _ hE (by
      intro h0
      apply hrne
      have : (elemJobs T (jobs0 r)).length = r.length := by simp [elemJobs, jobs0]
      rw [h0] at this
      exact List.eq_nil_of_length_eq_zero this.symm)
    have hgo := selGo_eq n T.flatten _ (by
      rw [← elemJobs_flatten, ← jobs0_flatten]; exact elemJobs_in T _ g1) g _ hE
    rw [lay_elemJobs, lay_jobs0, ← elemJobs_flatten, ← jobs0_flatten] at hs hgo
    have hl : (elemJobs T (jobs0 R.flatten)).length = R.flatten.length := by
      simp only [elemJobs, jobs0, List.length_map]
    rw [hl] at hs
    have hi := selIds0_eq T R h g r hg
    unfold indexAxis0
    rw [if_neg (by simpa using hrne)]
    simp only [selectOne, nextJobs_eq T _ g1, nextJobs_eq T _ r1, psum_getLastD,
      rowSplitsToRowIds_psum, Option.bind_eq_bind, Option.bind_some, hs, hi, hgo]
  rw [hll]
  have e : R.mapM (indexAxis0 (layersOf (n + 1) T)) =
      (List.range R.length).mapM (fun g => indexAxis0 (layersOf (n + 1) T) (R[g]?.getD [])) := by
    have hR : R = (List.range R.length).map (fun g => R[g]?.getD []) := ?_
    · conv_lhs => rw [hR]
      rw [List.mapM_map]
      rfl
    apply List.ext_getElem?
    intro i
    rw [List.getElem?_map]
    by_cases hi : i < R.length
    · rw [List.getElem?_range hi, List.getElem?_eq_getElem hi]; simp [List.getElem?_eq_getElem hi]
    · rw [List.getElem?_eq_none (by omega), List.getElem?_eq_none (by simpa using hi)]; rfl
  rw [e]
  apply mapM_congr_mem
  intro g hg
  have hg' : g < R.length := List.mem_range.mp hg
  have hr : R[g]? = some R[g] := List.getElem?_eq_getElem hg'
  rw [hr]
  exact key T h g _ hr

end Verif.Ragged
