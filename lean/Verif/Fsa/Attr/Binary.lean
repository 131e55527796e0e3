import Verif.Fsa.Attr.Props

/-! Attributes of the results of binary functions. -/

namespace Verif.Fsa.Att
open Verif.Fsa.Cac (Dict get put get_put get_mem get_none mem_put get_filter)
variable {S : Type}

theorem nodup_get_none {V : Type} {n : String} {v : V} {t : Dict V}
    (hk : (((n, v) :: t).map Prod.fst).Nodup) : get t n = none := by
  rw [List.map_cons, List.nodup_cons] at hk
  cases hg : get t n with
  | none => rfl
  | some w => exact absurd (List.mem_map.2 ⟨_, get_mem hg, rfl⟩) hk.1

theorem getAttr_tensor {o : Obj S} {k : String} {v : Val S} (h : get o.tensor k = some v) :
    getAttr o k = some v := by
  unfold getAttr; rw [h]; rfl

theorem hasAttr_false {known : String → Bool} {o : Obj S} {k : String} :
    hasAttr known o k = false ↔ known k = false ∧ get o.tensor k = none ∧ get o.non k = none := by
  unfold hasAttr getAttr
  cases known k <;> cases get o.tensor k <;> cases get o.non k <;> simp

theorem second_fold {known : String → Bool} {c : Cast S} {b : Obj S} {bm : List Int} {l : Dict (Val S)}
    (hk : (l.map Prod.fst).Nodup) {d0 d : Obj S} (hsc : hasAttr known d0 "scores" = true)
    (h : l.foldlM (addSecond known c b bm) d0 = some d) :
    d.labels = d0.labels ∧ d.non = d0.non ∧ d.scores = d0.scores ∧
      (∀ k, get d.tensor k = if hasAttr known d0 k then get d0.tensor k else
        match get l k with | some v => mapAttr c b bm k v | none => none) ∧
      (∀ x ∈ l, hasAttr known d0 x.1 = false → ∃ v, mapAttr c b bm x.1 x.2 = some v ∧
        v.rows = some d0.labels.length) := by
  induction l generalizing d0 with
  | nil =>
    obtain rfl := Option.some.inj h
    refine ⟨rfl, rfl, rfl, ?_, by simp⟩
    intro k
    split
    · rfl
    · rename_i hh
      have := (hasAttr_false.1 (by simpa using hh)).2.1
      rw [this]
      rfl
  | cons x t ih =>
    obtain ⟨n, v⟩ := x
    rw [List.foldlM_cons, Option.bind_eq_bind, Option.bind_eq_some_iff] at h
    obtain ⟨d1, h1, h2⟩ := h
    have hnt := nodup_get_none hk
    rw [List.map_cons, List.nodup_cons] at hk
    unfold addSecond at h1
    dsimp only at h1
    cases hh : hasAttr known d0 n with
    | true =>
      rw [hh, if_pos rfl] at h1
      obtain rfl := Option.some.inj h1
      obtain ⟨b1, b2, b3, b4, b5⟩ := ih hk.2 hsc h2
      refine ⟨b1, b2, b3, ?_, ?_⟩
      · intro k
        rw [b4 k, get_cons]
        by_cases hn : n = k
        · rw [← hn, hh]; simp
        · rw [if_neg hn]
      · intro x hx hx0
        rcases List.mem_cons.1 hx with rfl | hx
        · rw [hh] at hx0; simp at hx0
        · exact b5 x hx hx0
    | false =>
      rw [hh, if_neg (by simp), Option.bind_eq_bind, Option.bind_eq_some_iff] at h1
      obtain ⟨v', w1, w2⟩ := h1
      obtain ⟨m, hm⟩ := Option.ne_none_iff_exists'.1 (mapAttr_rows _ _ _ w1)
      obtain ⟨a1, a2, a3, a4, a5, a6, a7⟩ := setAttr_tensor hm w2
      have hns : n ≠ "scores" := by rintro rfl; rw [hh] at hsc; simp at hsc
      rw [if_neg hns] at a7
      have hother : ∀ k, k ≠ n → hasAttr known d1 k = hasAttr known d0 k := by
        intro k hkn
        unfold hasAttr getAttr
        rw [a6, a5, get_put, if_neg (Ne.symm hkn)]
      have hself : hasAttr known d1 n = true := by
        unfold hasAttr getAttr
        rw [a6, get_put, if_pos rfl]
        simp
      obtain ⟨b1, b2, b3, b4, b5⟩ := ih hk.2 (by rw [hother _ (Ne.symm hns)]; exact hsc) h2
      refine ⟨b1.trans a4, b2.trans a5, b3.trans a7, ?_, ?_⟩
      · intro k
        rw [b4 k, get_cons]
        by_cases hn : n = k
        · subst hn
          rw [if_pos hself, if_neg (by rw [hh]; simp), if_pos rfl, a6, get_put, if_pos rfl]
          exact w1.symm
        · rw [if_neg hn, hother k (Ne.symm hn), a6, get_put, if_neg hn]
      · intro x hx hx0
        rcases List.mem_cons.1 hx with rfl | hx'
        · exact ⟨v', w1, by rw [hm, a2]⟩
        · have hne : x.1 ≠ n := by
            rintro rfl
            exact hk.1 (List.mem_map.2 ⟨x, hx', rfl⟩)
          rw [← a4]
          exact b5 x hx' (by rw [hother _ hne]; exact hx0)

theorem other_fold {known : String → Bool} {l : Dict (Val S)} (hk : (l.map Prod.fst).Nodup)
    (hr : ∀ x ∈ l, x.2.rows = none) {d0 d : Obj S} (h : l.foldlM (addOther known) d0 = some d) :
    d.labels = d0.labels ∧ d.scores = d0.scores ∧ d.tensor = d0.tensor ∧
      ∀ k, get d.non k = if hasAttr known d0 k then get d0.non k else get l k := by
  induction l generalizing d0 with
  | nil =>
    obtain rfl := Option.some.inj h
    refine ⟨rfl, rfl, rfl, ?_⟩
    intro k
    split
    · rfl
    · rename_i hh
      exact (hasAttr_false.1 (by simpa using hh)).2.2
  | cons x t ih =>
    obtain ⟨n, v⟩ := x
    rw [List.foldlM_cons, Option.bind_eq_bind, Option.bind_eq_some_iff] at h
    obtain ⟨d1, h1, h2⟩ := h
    have hnt := nodup_get_none hk
    rw [List.map_cons, List.nodup_cons] at hk
    unfold addOther at h1
    dsimp only at h1
    cases hh : hasAttr known d0 n with
    | true =>
      rw [hh, if_pos rfl] at h1
      obtain rfl := Option.some.inj h1
      obtain ⟨b1, b2, b3, b4⟩ := ih hk.2 (fun y hy => hr y (List.mem_cons_of_mem _ hy)) h2
      refine ⟨b1, b2, b3, ?_⟩
      intro k
      rw [b4 k, get_cons]
      by_cases hn : n = k
      · rw [← hn, hh]; simp
      · rw [if_neg hn]
    | false =>
      rw [hh, if_neg (by simp)] at h1
      obtain ⟨_, rfl⟩ := setAttr_non (hr (n, v) List.mem_cons_self) h1
      obtain ⟨b1, b2, b3, b4⟩ := ih hk.2 (fun y hy => hr y (List.mem_cons_of_mem _ hy)) h2
      refine ⟨b1, b2, b3, ?_⟩
      intro k
      rw [b4 k, get_cons]
      by_cases hn : n = k
      · subst hn
        rw [if_neg (c := hasAttr known d0 n = true) (by rw [hh]; simp), if_pos (c := n = n) rfl]
        have : hasAttr known { d0 with non := put d0.non n v } n = true := by
          unfold hasAttr getAttr
          rw [get_put, if_pos rfl]
          cases get d0.tensor n <;> simp
        rw [if_pos this, get_put, if_pos rfl]
      · have : hasAttr known { d0 with non := put d0.non n v } k = hasAttr known d0 k := by
          unfold hasAttr getAttr
          rw [get_put, if_neg hn]
        rw [if_neg hn, this, get_put, if_neg hn]

theorem mapBoth_some [Add S] {c : Cast S} {f : Num S} {b : Obj S} {am bm : List Int} {name : String}
    {v v' : Val S} (h : mapBoth c f b am bm name v = some v') :
    ∃ x y z, v = .flt false x ∧ getAttr b name = some (.flt false y) ∧ v' = .flt false z ∧
      (z.length = am.length → z.length = bm.length → Added (c.round false (f.toFloat c)) am bm x y z) := by
  unfold mapBoth at h
  simp only [Option.bind_eq_bind, Option.bind_eq_some_iff] at h
  obtain ⟨x, hx, y, ⟨w, hw, hy⟩, x', hx', y', hy', h⟩ := h
  split at h
  · rename_i hl
    refine ⟨x, y, _, asF32_some hx, by rw [hw, asF32_some hy], (Option.some.inj h).symm, ?_⟩
    intro h1 h2
    refine ⟨h1, h2, ?_⟩
    rw [List.length_zipWith] at h1 h2
    intro j i k hi hk
    have e1 := indexSelect_some hx' (by omega) j i hi
    have e2 := indexSelect_some hy' (by omega) j k hk
    have hj := (List.getElem?_eq_some_iff.1 hi).1
    refine ⟨x'[j]'(by omega), y'[j]'(by omega), ?_, ?_, ?_⟩
    · refine ⟨fun he => ?_, fun he => ?_⟩
      · have := e1.1 he
        rw [List.getElem?_eq_getElem (by omega)] at this
        exact Option.some.inj this
      · obtain ⟨a1, a2, a3⟩ := e1.2 he
        exact ⟨a1, by rw [← a3, List.getElem?_eq_getElem (by omega)]⟩
    · refine ⟨fun he => ?_, fun he => ?_⟩
      · have := e2.1 he
        rw [List.getElem?_eq_getElem (by omega)] at this
        exact Option.some.inj this
      · obtain ⟨a1, a2, a3⟩ := e2.2 he
        exact ⟨a1, by rw [← a3, List.getElem?_eq_getElem (by omega)]⟩
    · rw [List.getElem?_zipWith, List.getElem?_eq_getElem (by omega), List.getElem?_eq_getElem (by omega)]
  · simp at h

theorem mapFirst_rows [Add S] {known : String → Bool} {c : Cast S} {a b : Obj S} {am bm : List Int}
    (n : String) (v v' : Val S) (h : mapFirst known c a b am bm n v = some v') : v'.rows ≠ none := by
  unfold mapFirst at h
  rw [Option.bind_eq_bind, Option.bind_eq_some_iff] at h
  obtain ⟨f, _, h⟩ := h
  split at h
  · obtain ⟨_, _, z, _, _, rfl, _⟩ := mapBoth_some h
    simp [Val.rows]
  · exact mapAttr_rows _ _ _ h

/-- C56: if a binary function returns an FSA, then: a tensor attribute of the first input alone is carried
along the first arc map; an attribute of both has type `float32` in both and is the sum of the two values,
with the filler of the first input on both sides; a tensor attribute of the second input alone is carried
along the second arc map; there are no other tensor attributes; the scores of the arcs are the sums of the
scores; other attributes are those of the first input, and those of the second whose names are new. -/
theorem binary_attributes [Add S] {known : String → Bool} {c : Cast S} {a b d : Obj S} (ha : Ok a) (hb : Ok b)
    {labels : List Int} {scores : List S} (hs : scores.length = labels.length) {am bm : List Int}
    (ham : am.length = labels.length) (hbm : bm.length = labels.length)
    (h : binaryTensor known c a b (newObj labels scores) am bm = some d) :
    d.labels = labels ∧
      (∀ k v, k ≠ "labels" → get a.tensor k = some v → hasAttr known b k = false →
        ∃ v', get d.tensor k = some v' ∧ Carried c (fillerOf a k) am v v') ∧
      (∀ k v, k ≠ "labels" → get a.tensor k = some v → hasAttr known b k = true →
        ∃ x y z, v = .flt false x ∧ getAttr b k = some (.flt false y) ∧ get d.tensor k = some (.flt false z) ∧
          Added (c.round false ((fillerOf a k).toFloat c)) am bm x y z) ∧
      (∀ k v, k ≠ "labels" → k ≠ "labels_version" → known k = false → get a.tensor k = none →
        get b.tensor k = some v → ∃ v', get d.tensor k = some v' ∧ Carried c (fillerOf b k) bm v v') ∧
      (∀ k, k ≠ "labels" → get a.tensor k = none → get b.tensor k = none → get d.tensor k = none) ∧
      Added (c.round false ((fillerOf a "scores").toFloat c)) am bm a.scores b.scores d.scores ∧
      (∀ k v, k ≠ "labels_version" → get a.non k = some v → get d.non k = some v) ∧
      (∀ k, k ≠ "labels_version" → known k = false → get a.non k = none → get d.tensor k = none →
        get d.non k = get b.non k) := by
  unfold binaryTensor at h
  simp only [Option.bind_eq_bind, Option.bind_eq_some_iff] at h
  obtain ⟨d1, h1, d2, h2, d3, h3, h4⟩ := h
  obtain ⟨a1, a2, a3, a4, a5⟩ := setAll_tensor (namedTensor_keys true ha) mapFirst_rows h1
  have hscA : get (namedTensor true a) "scores" = some (.flt false a.scores) := by
    rw [get_namedTensor, if_pos (by simp), ha.scores]
  have hscB : hasAttr known b "scores" = true := by
    unfold hasAttr; rw [getAttr_tensor hb.scores]; simp
  have hok1 : Ok d1 := setAll_ok (newObj_ok _ _ hs) h1
  have hsc1 : hasAttr known d1 "scores" = true := by
    unfold hasAttr; rw [getAttr_tensor hok1.scores]; simp
  obtain ⟨b1, b2, b3, b4, b5⟩ := second_fold (namedTensor_keys true hb) hsc1 h2
  obtain ⟨c1, c2, c3, c4⟩ := setAll_non (namedNon_keys ha)
    (fun x hx => ha.nrows x (mem_namedNon hx).1) h3
  obtain ⟨e1, e2, e3, e4⟩ := other_fold (namedNon_keys hb)
    (fun x hx => hb.nrows x (mem_namedNon hx).1) h4
  have hlab1 : d1.labels = labels := a1
  have htens : ∀ k, get d.tensor k = if hasAttr known d1 k then get d1.tensor k else
        match get (namedTensor true b) k with | some v => mapAttr c b bm k v | none => none := by
    intro k; rw [e3, c3]; exact b4 k
  have hA : ∀ k v, k ≠ "labels" → get a.tensor k = some v →
      ∃ v', mapFirst known c a b am bm k v = some v' ∧ v'.rows = some labels.length ∧
        get d.tensor k = some v' := by
    intro k v hk hv
    have hg : get (namedTensor true a) k = some v := by
      rw [get_namedTensor, if_pos (by simp [hk]), hv]
    obtain ⟨v', w1, w2, _⟩ := a4 _ (get_mem hg)
    have hd1 : get d1.tensor k = some v' := by rw [a3 k, hg]; exact w1
    refine ⟨v', w1, w2, ?_⟩
    rw [htens k, if_pos (by unfold hasAttr; rw [getAttr_tensor hd1]; simp), hd1]
  have hnone : ∀ k, k ≠ "labels" → get a.tensor k = none → get d1.tensor k = none := by
    intro k hk hv
    have hks : k ≠ "scores" := by rintro rfl; rw [ha.scores] at hv; simp at hv
    rw [a3 k, get_namedTensor, if_pos (by simp [hk]), hv]
    simp [newObj, get_cons, Ne.symm hk, Ne.symm hks, Cac.get]
  refine ⟨e1.trans (c1.trans (b1.trans a1)), ?_, ?_, ?_, ?_, ?_, ?_, ?_⟩
  · intro k v hk hv hb0
    obtain ⟨v', w1, w2, w3⟩ := hA k v hk hv
    refine ⟨v', w3, ?_⟩
    unfold mapFirst at w1
    rw [Option.bind_eq_bind, Option.bind_eq_some_iff] at w1
    obtain ⟨f, _, w1⟩ := w1
    rw [if_neg (by rw [hb0]; simp)] at w1
    exact mapAttr_carried w1 (by rw [w2, ham])
  · intro k v hk hv hb0
    obtain ⟨v', w1, w2, w3⟩ := hA k v hk hv
    unfold mapFirst at w1
    rw [Option.bind_eq_bind, Option.bind_eq_some_iff] at w1
    obtain ⟨f, hf, w1⟩ := w1
    rw [if_pos hb0] at w1
    obtain ⟨x, y, z, rfl, r2, rfl, r4⟩ := mapBoth_some w1
    have hl : z.length = labels.length := by simpa [Val.rows] using w2
    rw [getFiller_some hf] at r4
    exact ⟨x, y, z, rfl, r2, w3, r4 (hl.trans ham.symm) (hl.trans hbm.symm)⟩
  · intro k v hk hkv hkn hva hvb
    have hd1 : hasAttr known d1 k = false := by
      rw [hasAttr_false]
      refine ⟨hkn, hnone k hk hva, ?_⟩
      rw [a2]
      simp [newObj, get_cons, Ne.symm hkv, Cac.get]
    have hg : get (namedTensor true b) k = some v := by
      rw [get_namedTensor, if_pos (by simp [hk]), hvb]
    obtain ⟨v', w1, w2⟩ := b5 _ (get_mem hg) hd1
    refine ⟨v', ?_, mapAttr_carried w1 (by rw [w2, hlab1, hbm])⟩
    rw [htens k, if_neg (by rw [hd1]; simp), hg]
    exact w1
  · intro k hk hva hvb
    rw [htens k, get_namedTensor, if_pos (c := k ≠ "labels" ∧ _) (by simp [hk]), hvb]
    split
    · exact hnone k hk hva
    · rfl
  · obtain ⟨v', w1, w2, w3⟩ := hA "scores" _ (by decide) ha.scores
    rw [hscA] at a5
    dsimp only at a5
    rw [a5] at w1
    obtain rfl := Option.some.inj w1
    unfold mapFirst at a5
    rw [Option.bind_eq_bind, Option.bind_eq_some_iff] at a5
    obtain ⟨f, hf, a5⟩ := a5
    rw [if_pos hscB] at a5
    obtain ⟨x, y, z, r1, r2, r3, r4⟩ := mapBoth_some a5
    rw [getAttr_tensor hb.scores] at r2
    simp only [Option.some.injEq, Val.flt.injEq, true_and] at r1 r2 r3
    have hl : d1.scores.length = labels.length := by simpa [Val.rows] using w2
    rw [getFiller_some hf, ← r1, ← r2, ← r3] at r4
    rw [e2, c2, b3]
    exact r4 (hl.trans ham.symm) (hl.trans hbm.symm)
  · intro k v hk hv
    have hd3 : get d3.non k = some v := by
      rw [c4 k, get_namedNon, if_pos hk, hv]
    rw [e4 k, hd3]
    rw [if_pos (by
      unfold hasAttr getAttr
      rw [hd3]
      cases get d3.tensor k <;> simp)]
  · intro k hk hkn hva hdt
    have hd3 : get d3.non k = none := by
      rw [c4 k, get_namedNon, if_pos hk, hva, b2, a2]
      simp [newObj, get_cons, Ne.symm hk, Cac.get]
    rw [e4 k, if_neg, get_namedNon, if_pos hk]
    have : hasAttr known d3 k = false := by
      rw [hasAttr_false]
      exact ⟨hkn, by rw [← e3]; exact hdt, hd3⟩
    rw [this]
    simp

/-- C56, negated: two attributes with the same name that are not both of type `float32` are not discarded,
as the documentation says; the function raises. -/
theorem binary_same_name_raises [Add S] {known : String → Bool} {c : Cast S} {a b : Obj S} (ha : Ok a) (hb : Ok b)
    {labels : List Int} {scores : List S} (hs : scores.length = labels.length) {am bm : List Int}
    (ham : am.length = labels.length) (hbm : bm.length = labels.length) (k : String) (v w : Val S)
    (hk : k ≠ "labels") (hv : get a.tensor k = some v) (hw : get b.tensor k = some w)
    (hd : asF32 v = none ∨ asF32 w = none) :
    binaryTensor known c a b (newObj labels scores) am bm = none := by
  cases h : binaryTensor known c a b (newObj labels scores) am bm with
  | none => rfl
  | some d =>
    obtain ⟨_, _, h1, _⟩ := binary_attributes ha hb hs ham hbm h
    obtain ⟨x, y, z, rfl, e2, _⟩ := h1 k v hk hv (by unfold hasAttr; rw [getAttr_tensor hw]; simp)
    rw [getAttr_tensor hw] at e2
    rw [Option.some.inj e2] at hd
    rcases hd with hd | hd <;> simp [asF32] at hd

/-! ## Concrete cases -/

def exA : Obj Int :=
  ⟨[5, -1], [50, 60],
    [("scores", .flt false [50, 60]), ("labels", .int false [5, -1]), ("w", .flt false [1, 2]),
      ("ia", .int false [7, 8])],
    [("labels_version", .num (.int 0)), ("w_filler", .num (.int 100)), ("name", .other 3)]⟩

def exB : Obj Int :=
  ⟨[5, 6, -1], [1, 2, 3],
    [("scores", .flt false [1, 2, 3]), ("labels", .int false [5, 6, -1]), ("w", .flt false [10, 20, 30]),
      ("rb", .ragged [[1], [2, 3], []])],
    [("labels_version", .num (.int 0)), ("w_filler", .num (.int 1000)), ("name", .other 4), ("more", .other 5)]⟩

theorem exA_ok : Ok exA := ⟨by decide, by decide, by decide, by decide, by decide, by decide, by decide, by decide⟩
theorem exB_ok : Ok exB := ⟨by decide, by decide, by decide, by decide, by decide, by decide, by decide, by decide⟩

/-- The filler 1000 of the second input is not used. -/
example : binaryTensor (fun _ => false) intCast exA exB (newObj [5, 0, 0, -1] [0, 0, 0, 0]) [0, -1, 0, 1] [0, 1, -1, 2] =
    some ⟨[5, 0, 0, -1], [51, 2, 50, 63],
      [("scores", .flt false [51, 2, 50, 63]), ("labels", .int false [5, 0, 0, -1]),
        ("w", .flt false [11, 120, 101, 32]), ("ia", .int false [7, 0, 7, 8]),
        ("rb", .ragged [[1], [2, 3], [], []])],
      [("labels_version", .num (.int 0)), ("w_filler", .num (.int 100)), ("name", .other 3),
        ("more", .other 5)]⟩ := by decide +kernel

example : binaryTensor (fun _ => false) intCast exA exA (newObj [5, -1] [0, 0]) [0, 1] [0, 1] = none :=
  binary_same_name_raises (labels := [5, -1]) (scores := [0, 0]) exA_ok exA_ok rfl (am := [0, 1]) (bm := [0, 1])
    rfl rfl "ia" _ _ (by decide) rfl rfl (Or.inl rfl)

end Verif.Fsa.Att
