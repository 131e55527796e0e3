import Verif.Fsa.Attr.Lemmas
import Mathlib.Algebra.Group.Int.Defs

/-! Attributes of the results of unary functions. -/

namespace Verif.Fsa.Att
open Verif.Fsa.Cac (Dict get put get_put get_mem get_none mem_put get_filter)
variable {S : Type}

/-! ## One attribute -/

theorem getFiller_some {c : Cast S} {o : Obj S} {name : String} {f : Num S}
    (h : getFiller c o name = some f) : f = fillerOf o name := by
  unfold getFiller at h
  unfold fillerOf
  split at h
  · rename_i hg; rw [hg]; exact (Option.some.inj h).symm
  · rename_i x hg
    rw [hg]
    split at h
    · simp at h
    · exact (Option.some.inj h).symm
  · simp at h

/-- `get_filler` raises exactly if the filler does not fit. -/
theorem getFiller_iff (c : Cast S) (o : Obj S) (name : String) (f : Num S) :
    getFiller c o name = some f ↔ FillerFits c o name ∧ f = fillerOf o name := by
  constructor
  · intro h
    refine ⟨?_, getFiller_some h⟩
    unfold getFiller at h
    unfold FillerFits
    split at h
    · rename_i hg; rw [hg]; trivial
    · rename_i x hg
      rw [hg]
      split at h
      · simp at h
      · rename_i hn
        rw [not_and] at hn
        cases x with
        | int z => intro hname; simpa [Num.isZero] using hn hname
        | flt x => intro hname; simpa [Num.isZero] using hn hname
    · simp at h
  · rintro ⟨h, rfl⟩
    unfold FillerFits at h
    unfold getFiller fillerOf
    split at h
    · rename_i hg; rw [hg]
    · rename_i z hg
      rw [hg]
      simp only
      rw [if_neg]
      rintro ⟨h1, h2⟩
      simp [Num.isZero, h h1] at h2
    · rename_i x hg
      rw [hg]
      simp only
      rw [if_neg]
      rintro ⟨h1, h2⟩
      simp [Num.isZero, h h1] at h2
    · exact h.elim

theorem carried_of {α : Type} {c : Cast S} {f : Num S} {idx : List Int} {l r : List α} {z : α}
    {x y : Val S} (g : α → Cell S) (hx : x.cells = l.map g) (hy : y.cells = r.map g) (hk : y.kind = x.kind)
    (hz : Fills c f x (g z)) (hlen : r.length = idx.length)
    (h : ∀ (j : Nat) (i : Int), idx[j]? = some i →
      (i = -1 → r[j]? = some z) ∧ (i ≠ -1 → 0 ≤ i ∧ i.toNat < l.length ∧ r[j]? = l[i.toNat]?)) :
    Carried c f idx x y := by
  refine ⟨hk, by rw [hy, List.length_map, hlen], ?_⟩
  intro j i hi
  obtain ⟨h1, h2⟩ := h j i hi
  refine ⟨fun he => ⟨g z, ?_, hz⟩, fun he => ?_⟩
  · rw [hy, List.getElem?_map, h1 he]; rfl
  · obtain ⟨a, b, e⟩ := h2 he
    refine ⟨a, by rw [hx, List.length_map]; exact b, ?_⟩
    rw [hy, hx, List.getElem?_map, List.getElem?_map, e]

theorem mapAttr_rows {c : Cast S} {src : Obj S} {idx : List Int} (n : String) (v v' : Val S)
    (h : mapAttr c src idx n v = some v') : v'.rows ≠ none := by
  cases v <;> simp only [mapAttr, Option.bind_eq_bind, Option.bind_eq_some_iff, Option.some.injEq] at h
  · obtain ⟨_, _, _, _, _, _, rfl⟩ := h; simp [Val.rows]
  · obtain ⟨_, _, _, _, rfl⟩ := h; simp [Val.rows]
  · obtain ⟨_, _, _, _, rfl⟩ := h; simp [Val.rows]
  · obtain ⟨_, _, _, _, rfl⟩ := h; simp [Val.rows]
  · obtain ⟨_, _, rfl⟩ := h; simp [Val.rows]
  · simp at h
  · simp at h

theorem mapAttr_carried {c : Cast S} {src : Obj S} {idx : List Int} {n : String} {v v' : Val S}
    (h : mapAttr c src idx n v = some v') (hr : v'.rows = some idx.length) :
    Carried c (fillerOf src n) idx v v' := by
  cases v <;> simp only [mapAttr, Option.bind_eq_bind, Option.bind_eq_some_iff, Option.some.injEq] at h
  · obtain ⟨f, hf, z, hz, l', hl, rfl⟩ := h
    rw [getFiller_some hf] at hz
    have hlen : l'.length = idx.length := by simpa [Val.rows] using hr
    exact carried_of Cell.i rfl rfl rfl ⟨z, rfl, hz⟩ hlen (indexSelect_some hl hlen)
  · obtain ⟨f, hf, l', hl, rfl⟩ := h
    rw [getFiller_some hf] at hl
    have hlen : l'.length = idx.length := by simpa [Val.rows] using hr
    exact carried_of Cell.f rfl rfl rfl rfl hlen (indexSelect_some hl hlen)
  · obtain ⟨f, hf, l', hl, rfl⟩ := h
    have hlen : l'.length = idx.length := by simpa [Val.rows] using hr
    exact carried_of Cell.is rfl rfl rfl rfl hlen (indexSelect_some hl hlen)
  · obtain ⟨f, hf, l', hl, rfl⟩ := h
    have hlen : l'.length = idx.length := by simpa [Val.rows] using hr
    exact carried_of Cell.fs rfl rfl rfl rfl hlen (indexSelect_some hl hlen)
  · obtain ⟨l', hl, rfl⟩ := h
    have := pickAll_some hl
    exact carried_of Cell.is rfl rfl rfl rfl this.1 this.2
  · simp at h
  · simp at h

/-- The filler can be used for the attribute. -/
def FillerOk (c : Cast S) (o : Obj S) (name : String) (v : Val S) : Prop :=
  match v with
  | .ragged _ => True
  | .int _ _ => FillerFits c o name ∧ (c.toInt ((fillerOf o name).toFloat c)).isSome
  | _ => FillerFits c o name

/-- Is it a ragged tensor? -/
def Val.isRagged : Val S → Bool
  | .ragged _ => true
  | _ => false

theorem mapAttr_total {c : Cast S} {src : Obj S} {idx : List Int} {n : String} {v : Val S} {m : Nat}
    (hr : v.rows = some m) (hidx : InRange m idx) (hne : m ≠ 0 ∨ idx = [] ∨ v.isRagged = true)
    (hf : FillerOk c src n v) : ∃ v', mapAttr c src idx n v = some v' ∧ v'.rows = some idx.length := by
  have key : ∀ {α : Type} (l : List α) (z : α), l.length = m → v.isRagged = false →
      ∃ r, indexSelect l idx z = some r ∧ r.length = idx.length := by
    intro α l z hl hv
    refine indexSelect_total (hl ▸ hidx) ?_
    rcases hne with h | h | h
    · left; intro he; rw [he] at hl; exact h hl.symm
    · exact Or.inr h
    · rw [hv] at h; simp at h
  cases v with
  | int w l =>
    obtain ⟨h1, h2⟩ := hf
    have h1 := (getFiller_iff c src n _).mpr ⟨h1, rfl⟩
    obtain ⟨z, h2⟩ := Option.isSome_iff_exists.1 h2
    obtain ⟨r, hr', hl⟩ := key l z (by simpa [Val.rows] using hr) rfl
    exact ⟨.int w r, by simp [mapAttr, h1, h2, hr'], by simp [Val.rows, hl]⟩
  | flt w l =>
    have h1 := (getFiller_iff c src n _).mpr ⟨hf, rfl⟩
    obtain ⟨r, hr', hl⟩ := key l (c.round w ((fillerOf src n).toFloat c)) (by simpa [Val.rows] using hr) rfl
    exact ⟨.flt w r, by simp [mapAttr, h1, hr'], by simp [Val.rows, hl]⟩
  | int2 w k l =>
    have h1 := (getFiller_iff c src n _).mpr ⟨hf, rfl⟩
    obtain ⟨r, hr', hl⟩ := key l (List.replicate k 0) (by simpa [Val.rows] using hr) rfl
    exact ⟨.int2 w k r, by simp [mapAttr, h1, hr'], by simp [Val.rows, hl]⟩
  | flt2 w k l =>
    have h1 := (getFiller_iff c src n _).mpr ⟨hf, rfl⟩
    obtain ⟨r, hr', hl⟩ := key l (List.replicate k (c.ofInt 0)) (by simpa [Val.rows] using hr) rfl
    exact ⟨.flt2 w k r, by simp [mapAttr, h1, hr'], by simp [Val.rows, hl]⟩
  | ragged l =>
    have hl : l.length = m := by simpa [Val.rows] using hr
    obtain ⟨r, hr'⟩ := pickAll_total (l := l) (z := []) (hl ▸ hidx)
    exact ⟨.ragged r, by simp [mapAttr, hr'], by simp [Val.rows, (pickAll_some hr').1]⟩
  | num x => simp [Val.rows] at hr
  | other x => simp [Val.rows] at hr

/-! ## Unary functions -/

/-- C43: if a unary function with one source arc per arc returns an FSA, every tensor attribute of the
source is carried along the arc map with its filler, every other attribute is copied, there are no further
attributes, the arcs are those given, and every tensor attribute has one value per arc.

What is missing to the full statement: arcs without a source get zeros in attributes with two axes, not the
filler (`Fills`, and `rows_ignore_filler`). -/
theorem unary_attributes_partial {c : Cast S} {src d : Obj S} (hsrc : Ok src) {labels : List Int}
    {scores : List S} (hs : scores.length = labels.length) {idx : List Int} (hidx : idx.length = labels.length)
    (h : unaryTensor c src (newObj labels scores) idx = some d) :
    Ok d ∧ d.labels = labels ∧ d.scores = scores ∧
      (∀ k v, k ≠ "labels" → k ≠ "scores" → get src.tensor k = some v →
        ∃ v', get d.tensor k = some v' ∧ Carried c (fillerOf src k) idx v v') ∧
      (∀ k, get src.tensor k = none → k ≠ "labels" → k ≠ "scores" → get d.tensor k = none) ∧
      (∀ k, k ≠ "labels_version" → get d.non k = get src.non k) := by
  unfold unaryTensor at h
  rw [Option.bind_eq_bind, Option.bind_eq_some_iff] at h
  obtain ⟨d1, h1, h2⟩ := h
  obtain ⟨a1, a2, a3, a4, a5⟩ := setAll_tensor (namedTensor_keys false hsrc) mapAttr_rows h1
  obtain ⟨b1, b2, b3, b4⟩ := setAll_non (namedNon_keys hsrc)
    (fun x hx => hsrc.nrows x (mem_namedNon hx).1) h2
  refine ⟨setAll_ok (setAll_ok (newObj_ok _ _ hs) h1) h2, b1.trans a1, ?_, ?_, ?_, ?_⟩
  · rw [get_namedTensor, if_neg (by simp)] at a5
    exact b2.trans a5
  · intro k v hk1 hk2 hv
    have hg : get (namedTensor false src) k = some v := by
      rw [get_namedTensor, if_pos ⟨hk1, Or.inr hk2⟩, hv]
    obtain ⟨v', w1, w2, _⟩ := a4 _ (get_mem hg)
    refine ⟨v', ?_, mapAttr_carried w1 (by rw [w2, hidx]; rfl)⟩
    rw [b3, a3 k, hg]
    exact w1
  · intro k hk h1 h2
    rw [b3, a3 k]
    have hg : get (namedTensor false src) k = none := by
      rw [get_namedTensor, if_pos ⟨h1, Or.inr h2⟩, hk]
    rw [hg]
    simp [newObj, get_cons, Ne.symm h1, Ne.symm h2, Cac.get]
  · intro k hk
    rw [b4 k, get_namedNon, if_pos hk, a2]
    cases get src.non k with
    | some v => rfl
    | none => simp [newObj, get_cons, Ne.symm hk, Cac.get]

/-- C43, the other half: the function returns, if the arc map is in range, the fillers fit and the source
has arcs. -/
theorem unary_returns {c : Cast S} {src : Obj S} (hsrc : Ok src) {labels : List Int}
    (scores : List S) {idx : List Int} (hidx : idx.length = labels.length)
    (hrange : InRange src.labels.length idx) (hne : src.labels ≠ [] ∨ labels = [])
    (hf : ∀ k v, k ≠ "labels" → k ≠ "scores" → get src.tensor k = some v → FillerOk c src k v) :
    ∃ d, unaryTensor c src (newObj labels scores) idx = some d := by
  obtain ⟨d1, h1⟩ := setAll_total (f := mapAttr c src idx) (l := namedTensor false src)
    (d0 := newObj labels scores) (fun x hx => by
      obtain ⟨m1, m2, m3⟩ := mem_namedTensor hx
      simp only [Bool.false_eq_true, false_or] at m3
      obtain ⟨v', w1, w2⟩ := mapAttr_total (hsrc.rows x m1) hrange (by
        rcases hne with h | h
        · left; intro h0; exact h (List.eq_nil_of_length_eq_zero h0)
        · right; left; rw [h] at hidx; exact List.eq_nil_of_length_eq_zero hidx)
        (hf x.1 x.2 m2 m3 (get_of_mem hsrc.tkeys m1))
      exact ⟨hsrc.names x m1, m2, v', w1, by rw [w2, hidx]; rfl, fun he => absurd he m3⟩)
  obtain ⟨d, h2⟩ := setAll_non_total (l := namedNon src) (d0 := d1)
    (fun x hx => ⟨hsrc.nnames x (mem_namedNon hx).1, hsrc.nrows x (mem_namedNon hx).1⟩)
  exact ⟨d, by unfold unaryTensor; rw [h1, Option.bind_eq_bind, Option.bind_some]; exact h2⟩

/-- C43, negated: if the source has no arcs but the result has (all of them without a source, as the
self-loops of `add_epsilon_self_loops`), a tensor attribute of the source makes the function raise. -/
theorem unary_no_arcs_raises {c : Cast S} {src : Obj S} (hsrc : Ok src) (hno : src.labels = [])
    {labels : List Int} (scores : List S) (hl : labels ≠ []) (idx : List Int) (k : String) (v : Val S)
    (h1 : k ≠ "labels") (h2 : k ≠ "scores") (hk : get src.tensor k = some v) (hv : v.isRagged = false) :
    unaryTensor c src (newObj labels scores) idx = none := by
  cases h : unaryTensor c src (newObj labels scores) idx with
  | none => rfl
  | some d =>
    exfalso
    unfold unaryTensor at h
    rw [Option.bind_eq_bind, Option.bind_eq_some_iff] at h
    obtain ⟨d1, h1', _⟩ := h
    obtain ⟨_, _, _, a4, _⟩ := setAll_tensor (namedTensor_keys false hsrc) mapAttr_rows h1'
    have hg : get (namedTensor false src) k = some v := by
      rw [get_namedTensor, if_pos ⟨h1, Or.inr h2⟩, hk]
    obtain ⟨v', w1, w2, _⟩ := a4 _ (get_mem hg)
    have hr := hsrc.rows _ (get_mem hk)
    rw [hno] at hr
    have hne : 0 < labels.length := List.length_pos_iff.2 hl
    have key : ∀ {α : Type} {l r : List α} {z : α}, l.length = 0 → indexSelect l idx z = some r → r = [] := by
      intro α l r z h0 hh
      unfold indexSelect at hh
      rw [if_pos (Or.inr h0)] at hh
      exact (Option.some.inj hh).symm
    have hlab : (newObj labels scores).labels.length = labels.length := rfl
    rw [hlab] at w2
    cases v <;> simp only [mapAttr, Option.bind_eq_bind, Option.bind_eq_some_iff, Option.some.injEq] at w1
    · obtain ⟨_, _, _, _, l', e, rfl⟩ := w1
      rw [key (by simpa [Val.rows] using hr) e] at w2
      simp [Val.rows] at w2; omega
    · obtain ⟨_, _, l', e, rfl⟩ := w1
      rw [key (by simpa [Val.rows] using hr) e] at w2
      simp [Val.rows] at w2; omega
    · obtain ⟨_, _, l', e, rfl⟩ := w1
      rw [key (by simpa [Val.rows] using hr) e] at w2
      simp [Val.rows] at w2; omega
    · obtain ⟨_, _, l', e, rfl⟩ := w1
      rw [key (by simpa [Val.rows] using hr) e] at w2
      simp [Val.rows] at w2; omega
    · simp [Val.isRagged] at hv
    · simp at w1
    · simp at w1

/-- C43, negated for attributes with two axes: whatever the filler is, an arc without a source gets a row of
zeros. -/
theorem rows_ignore_filler {c : Cast S} {src d : Obj S} (hsrc : Ok src) {labels : List Int}
    {scores : List S} (hs : scores.length = labels.length) {idx : List Int} (hidx : idx.length = labels.length)
    (h : unaryTensor c src (newObj labels scores) idx = some d) (k : String) (w : Bool) (cols : Nat)
    (l : List (List Int)) (hk : get src.tensor k = some (.int2 w cols l)) (h1 : k ≠ "labels") (h2 : k ≠ "scores")
    (j : Nat) (hj : idx[j]? = some (-1)) :
    ∃ l', get d.tensor k = some (.int2 w cols l') ∧ l'[j]? = some (List.replicate cols 0) := by
  obtain ⟨_, _, _, h3, _⟩ := unary_attributes_partial hsrc hs hidx h
  obtain ⟨v', e1, e2, _, e3⟩ := h3 k _ h1 h2 hk
  obtain ⟨z, z1, z2⟩ := (e3 j _ hj).1 rfl
  cases v' with
  | int2 w' cols' l' =>
    simp only [Val.kind, Val.int2.injEq, and_true] at e2
    obtain ⟨rfl, rfl⟩ := e2
    refine ⟨l', e1, ?_⟩
    unfold Fills at z2
    rw [z2] at z1
    simp only [Val.cells, List.getElem?_map, Option.map_eq_some_iff, Cell.is.injEq] at z1
    obtain ⟨a, a1, a2⟩ := z1
    rw [a1, a2]
  | int _ _ => simp [Val.kind] at e2
  | flt _ _ => simp [Val.kind] at e2
  | flt2 _ _ _ => simp [Val.kind] at e2
  | ragged _ => simp [Val.kind] at e2
  | num _ => simp [Val.kind] at e2
  | other _ => simp [Val.kind] at e2

/-- Every object that is made by the constructor and assignments is as it should be. -/
theorem reachable_ok (labels : List Int) (scores : List S) (h : scores.length = labels.length)
    (l : Dict (Val S)) {d : Obj S} (hd : setAll (fun _ v => some v) (newObj labels scores) l = some d) : Ok d :=
  setAll_ok (newObj_ok _ _ h) hd

/-! ## Unary functions with lists of source arcs -/

theorem pickAll_cons {α : Type} {l r : List α} {i : Int} {row : List Int} {z : α}
    (h : pickAll l (i :: row) z = some r) :
    ∃ a t, r = a :: t ∧ pickAll l row z = some t ∧
      (i = -1 ∧ a = z ∨ 0 ≤ i ∧ l[i.toNat]? = some a) := by
  unfold pickAll at h ⊢
  rw [List.mapM_cons] at h
  simp only [Option.bind_eq_bind, Option.bind_eq_some_iff, Option.pure_def, Option.some.injEq] at h
  obtain ⟨a, ha, t, ht, rfl⟩ := h
  refine ⟨a, t, rfl, ht, ?_⟩
  split at ha
  · rename_i he
    exact Or.inl ⟨he, (Option.some.inj ha).symm⟩
  · split at ha
    · rename_i h0
      exact Or.inr ⟨h0, ha⟩
    · simp at ha

theorem pickAll_sum [AddMonoid S] {l r : List S} {row : List Int} (h : pickAll l row 0 = some r) :
    r.sum = (present l row).sum := by
  induction row generalizing r with
  | nil =>
    have : r = [] := (Option.some.inj h).symm
    simp [this, present]
  | cons i row ih =>
    obtain ⟨a, t, rfl, ht, hi⟩ := pickAll_cons h
    rw [List.sum_cons, ih ht]
    rcases hi with ⟨rfl, rfl⟩ | ⟨h0, ha⟩
    · simp [present]
    · have : ¬ i < 0 := by omega
      simp [present, this, ha]

theorem pickAll_flatten {l r : List (List Int)} {row : List Int} (h : pickAll l row [] = some r) :
    r.flatten = (present l row).flatten := by
  induction row generalizing r with
  | nil =>
    have : r = [] := (Option.some.inj h).symm
    simp [this, present]
  | cons i row ih =>
    obtain ⟨a, t, rfl, ht, hi⟩ := pickAll_cons h
    rw [List.flatten_cons, ih ht]
    rcases hi with ⟨rfl, rfl⟩ | ⟨h0, ha⟩
    · simp [present]
    · have : ¬ i < 0 := by omega
      simp [present, this, ha]

theorem hideFinal_get {labels l : List Int} (hl : l.length = labels.length) (z : Int) (i : Nat) (a : Int)
    (h : (hideFinal labels z l)[i]? = some a) :
    ∃ v lab, l[i]? = some v ∧ labels[i]? = some lab ∧ a = if z ≠ -1 ∧ lab = -1 ∧ v = -1 then z else v := by
  unfold hideFinal at h
  split at h
  · rename_i hz
    have := (List.getElem?_eq_some_iff.1 h).1
    refine ⟨a, labels[i]'(by omega), h, List.getElem?_eq_getElem (by omega), ?_⟩
    rw [if_neg (by simp [hz])]
  · rename_i hz
    rw [List.getElem?_zipWith] at h
    cases h1 : labels[i]? with
    | none => rw [h1] at h; simp at h
    | some lab =>
      cases h2 : l[i]? with
      | none => rw [h1, h2] at h; simp at h
      | some v =>
        rw [h1, h2] at h
        refine ⟨v, lab, rfl, rfl, ?_⟩
        rw [← Option.some.inj h]
        simp [hz]

theorem pickAll_kept {labels l r : List Int} (hl : l.length = labels.length) (z : Int) {row : List Int}
    (h : pickAll (hideFinal labels z l) row z = some r) :
    (r.filter fun v => v != z) = row.filterMap (kept labels z l) := by
  induction row generalizing r with
  | nil =>
    have : r = [] := (Option.some.inj h).symm
    simp [this]
  | cons i row ih =>
    obtain ⟨a, t, rfl, ht, hi⟩ := pickAll_cons h
    rw [List.filter_cons, ih ht, List.filterMap_cons]
    rcases hi with ⟨rfl, rfl⟩ | ⟨h0, ha⟩
    · simp [kept]
    · have hneg : ¬ i < 0 := by omega
      obtain ⟨v, lab, h1, h2, h3⟩ := hideFinal_get hl z _ _ ha
      unfold kept
      rw [if_neg hneg, h1, h2, Option.filter_some]
      subst h3
      by_cases hz : z = -1
      · subst hz
        by_cases hv : v = -1 <;> simp [hv]
      · by_cases hv : lab = -1 ∧ v = -1
        · obtain ⟨rfl, rfl⟩ := hv
          simp [hz]
        · by_cases hvz : v = z
          · subst hvz; simp
          · have e : (if z ≠ -1 ∧ lab = -1 ∧ v = -1 then z else v) = v := if_neg fun hh => hv hh.2
            rw [e, if_pos (by simpa using hvz)]
            have : decide (v ≠ z ∧ ¬ (some lab = some (-1) ∧ v = -1)) = true := by
              rw [decide_eq_true_eq]
              exact ⟨hvz, fun hh => hv ⟨Option.some.inj hh.1, hh.2⟩⟩
            rw [this]
            rfl

theorem mapM_map {α β γ : Type} {g : α → Option β} {u : β → γ} {w : α → γ} {l : List α} {r : List β}
    (h : l.mapM g = some r) (hw : ∀ a b, g a = some b → u b = w a) : r.map u = l.map w := by
  obtain ⟨h1, h2⟩ := mapM_some h
  apply List.ext_getElem?
  intro j
  rw [List.getElem?_map, List.getElem?_map]
  cases ha : l[j]? with
  | none =>
    rw [List.getElem?_eq_none_iff] at ha
    rw [List.getElem?_eq_none (by omega)]
    rfl
  | some a =>
    obtain ⟨b, h3, h4⟩ := h2 j a ha
    rw [h4, Option.map_some, Option.map_some, hw a b h3]

theorem mapAttrRagged_rows [AddMonoid S] {c : Cast S} {src : Obj S} {arcMap : List (List Int)} {rf : Bool}
    (n : String) (v v' : Val S) (h : mapAttrRagged c src arcMap rf n v = some v') : v'.rows ≠ none := by
  unfold mapAttrRagged at h
  split at h
  · split at h
    · simp only [Option.bind_eq_bind, Option.bind_eq_some_iff, Option.some.injEq] at h
      obtain ⟨_, _, _, _, _, _, rfl⟩ := h; simp [Val.rows]
    · simp at h
  · simp only [Option.bind_eq_bind, Option.bind_eq_some_iff, Option.some.injEq] at h
    obtain ⟨_, _, rfl⟩ := h; simp [Val.rows]
  · simp only [Option.bind_eq_bind, Option.bind_eq_some_iff, Option.some.injEq] at h
    obtain ⟨_, _, rfl⟩ := h; simp [Val.rows]
  · simp at h

theorem mapAttrRagged_carried [AddMonoid S] {c : Cast S} {src : Obj S} {arcMap : List (List Int)} {rf : Bool}
    {n : String} {v v' : Val S} (hr : v.rows = some src.labels.length)
    (h : mapAttrRagged c src arcMap rf n v = some v') :
    CarriedRagged (fillerOf src n) src.labels arcMap v v' := by
  unfold mapAttrRagged at h
  split at h
  · split at h
    · simp only [Option.bind_eq_bind, Option.bind_eq_some_iff, Option.some.injEq] at h
      obtain ⟨f, hf, z, hz, r, hr', rfl⟩ := h
      rw [getFiller_some hf] at hz
      refine ⟨z, ?_, ?_⟩
      · cases hfo : fillerOf src n with
        | int y => rw [hfo] at hz; rw [← Option.some.inj hz]
        | flt y => rw [hfo] at hz; simp [Num.asInt] at hz
      · rw [mapM_map hr' (fun row s hs => pickAll_kept (by simpa [Val.rows] using hr) z hs)]
    · simp at h
  · simp only [Option.bind_eq_bind, Option.bind_eq_some_iff, Option.some.injEq] at h
    obtain ⟨r, hr', rfl⟩ := h
    unfold CarriedRagged
    rw [mapM_map hr' (fun row s hs => pickAll_sum hs)]
  · simp only [Option.bind_eq_bind, Option.bind_eq_some_iff, Option.some.injEq] at h
    obtain ⟨r, hr', rfl⟩ := h
    unfold CarriedRagged
    rw [mapM_map hr' (fun row s hs => pickAll_flatten hs)]
  · simp at h

/-- C43 for functions with a list of source arcs per arc (`remove_epsilon`, `determinize`): integer
attributes become the lists of the values of the source arcs without fillers, floating-point attributes are
added, ragged attributes are appended; other attributes are copied and there are no further attributes. -/
theorem unary_ragged_attributes [AddMonoid S] {c : Cast S} {src d : Obj S} (hsrc : Ok src) {labels : List Int}
    {scores : List S} (hs : scores.length = labels.length) {arcMap : List (List Int)} {rf : Bool}
    (h : unaryRagged c src (newObj labels scores) arcMap rf = some d) :
    Ok d ∧ d.labels = labels ∧ d.scores = scores ∧
      (∀ k v, k ≠ "labels" → k ≠ "scores" → get src.tensor k = some v →
        ∃ v', get d.tensor k = some v' ∧ CarriedRagged (fillerOf src k) src.labels arcMap v v') ∧
      (∀ k, get src.tensor k = none → k ≠ "labels" → k ≠ "scores" → get d.tensor k = none) ∧
      (∀ k, k ≠ "labels_version" → get d.non k = get src.non k) := by
  unfold unaryRagged at h
  rw [Option.bind_eq_bind, Option.bind_eq_some_iff] at h
  obtain ⟨d1, h1, h2⟩ := h
  obtain ⟨a1, a2, a3, a4, a5⟩ := setAll_tensor (namedTensor_keys false hsrc) mapAttrRagged_rows h1
  obtain ⟨b1, b2, b3, b4⟩ := setAll_non (namedNon_keys hsrc)
    (fun x hx => hsrc.nrows x (mem_namedNon hx).1) h2
  refine ⟨setAll_ok (setAll_ok (newObj_ok _ _ hs) h1) h2, b1.trans a1, ?_, ?_, ?_, ?_⟩
  · rw [get_namedTensor, if_neg (by simp)] at a5
    exact b2.trans a5
  · intro k v hk1 hk2 hv
    have hg : get (namedTensor false src) k = some v := by
      rw [get_namedTensor, if_pos ⟨hk1, Or.inr hk2⟩, hv]
    obtain ⟨v', w1, w2, _⟩ := a4 _ (get_mem hg)
    refine ⟨v', ?_, mapAttrRagged_carried (hsrc.rows _ (get_mem hv)) w1⟩
    rw [b3, a3 k, hg]
    exact w1
  · intro k hk h1 h2
    rw [b3, a3 k]
    have hg : get (namedTensor false src) k = none := by
      rw [get_namedTensor, if_pos ⟨h1, Or.inr h2⟩, hk]
    rw [hg]
    simp [newObj, get_cons, Ne.symm h1, Ne.symm h2, Cac.get]
  · intro k hk
    rw [b4 k, get_namedNon, if_pos hk, a2]
    cases get src.non k with
    | some v => rfl
    | none => simp [newObj, get_cons, Ne.symm hk, Cac.get]

/-- What `fsa_from_unary_function_ragged` supports: integers of 32 bits with an integer filler (if fillers
are removed), floating-point numbers, ragged tensors. -/
def Supported (c : Cast S) (src : Obj S) (rf : Bool) (name : String) : Val S → Prop
  | .int false _ => rf = true ∧ FillerFits c src name ∧ ∃ z, fillerOf src name = .int z
  | .flt _ _ => True
  | .ragged _ => True
  | _ => False

theorem mapAttrRagged_total [AddMonoid S] {c : Cast S} {src : Obj S} {arcMap : List (List Int)} {rf : Bool}
    {n : String} {v : Val S} (hr : v.rows = some src.labels.length)
    (hidx : ∀ row ∈ arcMap, InRange src.labels.length row) (hs : Supported c src rf n v) :
    ∃ v', mapAttrRagged c src arcMap rf n v = some v' ∧ v'.rows = some arcMap.length := by
  have key : ∀ {α : Type} (l : List α) (z : α), l.length = src.labels.length →
      ∃ r, (arcMap.mapM fun row => pickAll l row z) = some r ∧ r.length = arcMap.length := by
    intro α l z hl
    obtain ⟨r, hr⟩ := mapM_total (g := fun row => pickAll l row z) (l := arcMap) (fun row hrow => by
      obtain ⟨t, ht⟩ := pickAll_total (z := z) (hl ▸ hidx row hrow)
      rw [ht]; rfl)
    exact ⟨r, hr, (mapM_some hr).1⟩
  cases v with
  | int w l =>
    cases w with
    | true => exact absurd hs (by simp [Supported])
    | false =>
      obtain ⟨h1, h2, z, hz⟩ := hs
      have h2 := (getFiller_iff c src n _).mpr ⟨h2, hz.symm⟩
      have hl : l.length = src.labels.length := by simpa [Val.rows] using hr
      obtain ⟨r, e1, e2⟩ := key (hideFinal src.labels z l) z (by
        unfold hideFinal; split
        · exact hl
        · simp [hl])
      exact ⟨_, by simp [mapAttrRagged, h1, h2, Num.asInt, e1]; rfl, by simp [Val.rows, e2]⟩
  | flt w l =>
    obtain ⟨r, e1, e2⟩ := key l 0 (by simpa [Val.rows] using hr)
    exact ⟨_, by simp [mapAttrRagged, e1]; rfl, by simp [Val.rows, e2]⟩
  | ragged l =>
    obtain ⟨r, e1, e2⟩ := key l [] (by simpa [Val.rows] using hr)
    exact ⟨_, by simp [mapAttrRagged, e1]; rfl, by simp [Val.rows, e2]⟩
  | int2 _ _ _ => exact absurd hs (by simp [Supported])
  | flt2 _ _ _ => exact absurd hs (by simp [Supported])
  | num _ => exact absurd hs (by simp [Supported])
  | other _ => exact absurd hs (by simp [Supported])

/-- The function returns exactly if all attributes are supported (given an arc map in range). -/
theorem unary_ragged_returns_iff [AddMonoid S] {c : Cast S} {src : Obj S} (hsrc : Ok src) {labels : List Int}
    (scores : List S) {arcMap : List (List Int)} {rf : Bool} (hlen : arcMap.length = labels.length)
    (hidx : ∀ row ∈ arcMap, InRange src.labels.length row) :
    (∃ d, unaryRagged c src (newObj labels scores) arcMap rf = some d) ↔
      ∀ k v, k ≠ "labels" → k ≠ "scores" → get src.tensor k = some v → Supported c src rf k v := by
  constructor
  · rintro ⟨d, h⟩ k v h1 h2 hk
    unfold unaryRagged at h
    rw [Option.bind_eq_bind, Option.bind_eq_some_iff] at h
    obtain ⟨d1, h1', _⟩ := h
    obtain ⟨_, _, _, a4, _⟩ := setAll_tensor (namedTensor_keys false hsrc) mapAttrRagged_rows h1'
    have hg : get (namedTensor false src) k = some v := by
      rw [get_namedTensor, if_pos ⟨h1, Or.inr h2⟩, hk]
    obtain ⟨v', w1, _⟩ := a4 _ (get_mem hg)
    dsimp only at w1
    unfold mapAttrRagged at w1
    split at w1
    · split at w1
      · rename_i hrf
        simp only [Option.bind_eq_bind, Option.bind_eq_some_iff, Option.some.injEq] at w1
        obtain ⟨f, hf, z, hz, _⟩ := w1
        obtain ⟨hf1, hf2⟩ := (getFiller_iff c src k f).mp hf
        refine ⟨hrf, hf1, z, ?_⟩
        cases f with
        | int y => rw [← hf2, ← Option.some.inj hz]
        | flt y => simp [Num.asInt] at hz
      · simp at w1
    · trivial
    · trivial
    · simp at w1
  · intro hsup
    obtain ⟨d1, h1⟩ := setAll_total (f := mapAttrRagged c src arcMap rf) (l := namedTensor false src)
      (d0 := newObj labels scores) (fun x hx => by
        obtain ⟨m1, m2, m3⟩ := mem_namedTensor hx
        simp only [Bool.false_eq_true, false_or] at m3
        obtain ⟨v', w1, w2⟩ := mapAttrRagged_total (hsrc.rows x m1) hidx
          (hsup x.1 x.2 m2 m3 (get_of_mem hsrc.tkeys m1))
        exact ⟨hsrc.names x m1, m2, v', w1, by rw [w2, hlen]; rfl, fun he => absurd he m3⟩)
    obtain ⟨d, h2⟩ := setAll_non_total (l := namedNon src) (d0 := d1)
      (fun x hx => ⟨hsrc.nnames x (mem_namedNon hx).1, hsrc.nrows x (mem_namedNon hx).1⟩)
    exact ⟨d, by unfold unaryRagged; rw [h1, Option.bind_eq_bind, Option.bind_some]; exact h2⟩

/-! ## Concrete cases -/

/-- Floating-point numbers that are integers. -/
def intCast : Cast Int := ⟨fun z => z, some, fun _ x => x⟩

/-- An FSA with three arcs and attributes of all kinds. -/
def exSrc : Obj Int :=
  ⟨[5, 6, -1], [50, 60, 70],
    [("scores", .flt false [50, 60, 70]), ("labels", .int false [5, 6, -1]),
      ("aux_labels", .int false [1, 0, -1]), ("foo", .int false [10, 20, 30]), ("bar", .flt true [7, 8, 9]),
      ("two", .int2 true 2 [[1, 2], [3, 4], [5, 6]]), ("rag", .ragged [[1, 2], [], [3]])],
    [("labels_version", .num (.int 0)), ("foo_filler", .num (.int 99)), ("two_filler", .num (.int 4)),
      ("name", .other 3)]⟩

theorem exSrc_ok : Ok exSrc :=
  ⟨by decide, by decide, by decide, by decide, by decide, by decide, by decide, by decide⟩

example : unaryTensor intCast exSrc (newObj [6, 0, -1, 6] [1, 2, 3, 4]) [1, -1, 2, 1] = some
    ⟨[6, 0, -1, 6], [1, 2, 3, 4],
      [("scores", .flt false [1, 2, 3, 4]), ("labels", .int false [6, 0, -1, 6]),
        ("aux_labels", .int false [0, 0, -1, 0]), ("foo", .int false [20, 99, 30, 20]),
        ("bar", .flt true [8, 0, 9, 8]), ("two", .int2 true 2 [[3, 4], [0, 0], [5, 6], [3, 4]]),
        ("rag", .ragged [[], [], [3], []])],
      [("labels_version", .num (.int 0)), ("foo_filler", .num (.int 99)), ("two_filler", .num (.int 4)),
        ("name", .other 3)]⟩ := by decide +kernel

example : ∃ d, unaryTensor intCast exSrc (newObj [6, 0, -1, 6] [1, 2, 3, 4]) [1, -1, 2, 1] = some d :=
  unary_returns exSrc_ok _ rfl (by unfold InRange; decide) (Or.inl (by decide)) (by
    intro k v h1 h2 hk
    have hm := get_mem hk
    simp only [exSrc, List.mem_cons, Prod.mk.injEq, List.not_mem_nil, or_false] at hm
    rcases hm with ⟨rfl, rfl⟩ | ⟨rfl, rfl⟩ | ⟨rfl, rfl⟩ | ⟨rfl, rfl⟩ | ⟨rfl, rfl⟩ | ⟨rfl, rfl⟩ | ⟨rfl, rfl⟩
    · exact absurd rfl h2
    · exact absurd rfl h1
    · exact ⟨((getFiller_iff intCast exSrc _ _).mp (by decide : _ = some (.int 0))).1, by decide⟩
    · exact ⟨((getFiller_iff intCast exSrc _ _).mp (by decide : _ = some (.int 99))).1, by decide⟩
    · exact ((getFiller_iff intCast exSrc "bar" _).mp (by decide : _ = some (.int 0))).1
    · exact ((getFiller_iff intCast exSrc "two" _).mp (by decide : _ = some (.int 4))).1
    · trivial)

/-- The FSA without arcs and one attribute: adding self-loops raises. -/
example : unaryTensor intCast ⟨[], [], [("scores", .flt false []), ("labels", .int false []),
      ("foo", .int false [])], [("labels_version", .num (.int 0))]⟩ (newObj [0] [0]) [-1] = none :=
  unary_no_arcs_raises ⟨by decide, by decide, by decide, by decide, by decide, by decide, by decide, by decide⟩ rfl _
    (by decide) _ "foo" (.int false []) (by decide) (by decide) rfl rfl

/-- The same FSA as above without the attribute with two axes. -/
def exSrc2 : Obj Int := { exSrc with tensor := exSrc.tensor.filter fun x => x.1 != "two" }

theorem exSrc2_ok : Ok exSrc2 :=
  ⟨by decide, by decide, by decide, by decide, by decide, by decide, by decide, by decide⟩

example : unaryRagged intCast exSrc2 (newObj [6, 0, -1] [1, 2, 3]) [[0, 1], [], [1, -1, 2, 0]] true = some
    ⟨[6, 0, -1], [1, 2, 3],
      [("scores", .flt false [1, 2, 3]), ("labels", .int false [6, 0, -1]),
        ("aux_labels", .ragged [[1], [], [1]]), ("foo", .ragged [[10, 20], [], [20, 30, 10]]),
        ("bar", .flt true [15, 0, 24]), ("rag", .ragged [[1, 2], [], [3, 1, 2]])],
      [("labels_version", .num (.int 0)), ("foo_filler", .num (.int 99)), ("two_filler", .num (.int 4)),
        ("name", .other 3)]⟩ := by decide +kernel

/-- Attributes with two axes are refused. -/
example : ¬ ∃ d, unaryRagged intCast exSrc (newObj [6, 0, -1] [1, 2, 3]) [[0, 1], [], [1, 2, 0]] true = some d := by
  rw [unary_ragged_returns_iff exSrc_ok _ rfl (by unfold InRange; decide)]
  intro h
  exact h "two" _ (by decide) (by decide) (by rfl : get exSrc.tensor "two" = _)

end Verif.Fsa.Att
