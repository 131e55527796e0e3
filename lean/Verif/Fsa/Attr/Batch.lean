import Verif.Fsa.Attr.Binary

/-! Attributes of the results of `create_fsa_vec`. -/

namespace Verif.Fsa.Att
open Verif.Fsa.Cac (Dict get put get_put get_mem get_none mem_put get_filter)
variable {S : Type}

theorem cat2_cells {x y z : Val S} (h : cat2 x y = some z) :
    z.cells = x.cells ++ y.cells ∧ z.kind = x.kind ∧ y.kind = x.kind ∧ z.rows ≠ none := by
  unfold cat2 at h
  split at h
  · split at h
    · rename_i hw; subst hw; obtain rfl := Option.some.inj h; simp [Val.cells, Val.kind, Val.rows]
    · simp at h
  · split at h
    · rename_i hw; subst hw; obtain rfl := Option.some.inj h; simp [Val.cells, Val.kind, Val.rows]
    · simp at h
  · split at h
    · rename_i hw; obtain ⟨rfl, rfl⟩ := hw; obtain rfl := Option.some.inj h; simp [Val.cells, Val.kind, Val.rows]
    · simp at h
  · split at h
    · rename_i hw; obtain ⟨rfl, rfl⟩ := hw; obtain rfl := Option.some.inj h; simp [Val.cells, Val.kind, Val.rows]
    · simp at h
  · obtain rfl := Option.some.inj h; simp [Val.cells, Val.kind, Val.rows]
  · simp at h

theorem catFold_cells {l : List (Val S)} {x z : Val S} (hx : x.rows ≠ none) (h : l.foldlM cat2 x = some z) :
    z.cells = x.cells ++ l.flatMap Val.cells ∧ z.kind = x.kind ∧ (∀ y ∈ l, y.kind = x.kind) ∧ z.rows ≠ none := by
  induction l generalizing x with
  | nil => obtain rfl := Option.some.inj h; simp [hx]
  | cons y t ih =>
    rw [List.foldlM_cons, Option.bind_eq_bind, Option.bind_eq_some_iff] at h
    obtain ⟨w, h1, h2⟩ := h
    obtain ⟨a1, a2, a3, a4⟩ := cat2_cells h1
    obtain ⟨b1, b2, b3, b4⟩ := ih a4 h2
    refine ⟨by rw [b1, a1]; simp, b2.trans a2, ?_, b4⟩
    intro u hu
    rcases List.mem_cons.1 hu with rfl | hu
    · exact a3
    · exact (b3 u hu).trans a2

theorem catVals_cells {l : List (Val S)} {z : Val S} (h : catVals l = some z) :
    z.cells = l.flatMap Val.cells ∧ (∀ y ∈ l, y.kind = z.kind) ∧ z.rows ≠ none := by
  cases l with
  | nil => simp [catVals] at h
  | cons x t =>
    change (if x.rows.isNone then none else t.foldlM cat2 x) = some z at h
    split at h
    · simp at h
    · rename_i hx
      obtain ⟨b1, b2, b3, b4⟩ := catFold_cells (by simpa using hx) h
      refine ⟨by rw [b1]; simp, ?_, b4⟩
      intro y hy
      rcases List.mem_cons.1 hy with rfl | hy
      · exact b2.symm
      · rw [b3 y hy, b2]

/-- The new value of the attribute `k`. -/
def catOf (fsas : List (Obj S)) (k : String) (_ : Val S) : Option (Val S) :=
  (fsas.mapM fun f => getAttr f k).bind catVals

theorem catAttr_fold (fsas : List (Obj S)) (d : Obj S) (l : Dict (Val S)) :
    l.foldlM (catAttr fsas) d = setAll (catOf fsas) d l := by
  unfold setAll
  congr 1
  funext d x
  unfold catAttr catOf
  cases fsas.mapM fun f => getAttr f x.1 <;> rfl

theorem catOf_rows {fsas : List (Obj S)} (k : String) (v v' : Val S) (h : catOf fsas k v = some v') :
    v'.rows ≠ none := by
  unfold catOf at h
  rw [Option.bind_eq_some_iff] at h
  obtain ⟨_, _, h⟩ := h
  exact (catVals_cells h).2.2

/-! ## Other attributes -/

/-- `k` is not the name of a tensor. -/
def NotTensor (fsas : List (Obj S)) (k : String) : Prop := ∀ f ∈ fsas, get f.tensor k = none

theorem getAttr_non {o : Obj S} {k : String} (h : get o.tensor k = none) : getAttr o k = get o.non k := by
  unfold getAttr; rw [h]; rfl

theorem copy_fold [DecidableEq S] {k : String} {l : List (Obj S)} {d0 d : Obj S} (hd : get d0.tensor k = none)
    (hl : ∀ f ∈ l, get f.tensor k = none ∧ ∀ x ∈ f.non, x.2.rows = none)
    (h : l.foldlM (copyNon k) d0 = some d) :
    d.labels = d0.labels ∧ d.scores = d0.scores ∧ d.tensor = d0.tensor ∧
      (∀ k', k' ≠ k → get d.non k' = get d0.non k') ∧
      (∀ v, get d0.non k = some v → get d.non k = some v) ∧
      (∀ f ∈ l, ∀ v, get f.non k = some v → notNone v = true → get d.non k = some v) ∧
      (∀ v, get d.non k = some v → get d0.non k = some v ∨ ∃ f ∈ l, get f.non k = some v) := by
  induction l generalizing d0 with
  | nil =>
    obtain rfl := Option.some.inj h
    exact ⟨rfl, rfl, rfl, fun _ _ => rfl, fun _ h => h, by simp, fun _ h => Or.inl h⟩
  | cons f t ih =>
    rw [List.foldlM_cons, Option.bind_eq_bind, Option.bind_eq_some_iff] at h
    obtain ⟨d1, h1, h2⟩ := h
    obtain ⟨f1, f2⟩ := hl f List.mem_cons_self
    have hl' := fun g hg => hl g (List.mem_cons_of_mem f hg)
    unfold copyNon at h1
    rw [getAttr_non f1, getAttr_non hd] at h1
    have same : d1 = d0 → (∀ v, get f.non k = some v → notNone v = true → get d0.non k = some v) →
        d.labels = d0.labels ∧ d.scores = d0.scores ∧ d.tensor = d0.tensor ∧
      (∀ k', k' ≠ k → get d.non k' = get d0.non k') ∧
      (∀ v, get d0.non k = some v → get d.non k = some v) ∧
      (∀ f' ∈ f :: t, ∀ v, get f'.non k = some v → notNone v = true → get d.non k = some v) ∧
      (∀ v, get d.non k = some v → get d0.non k = some v ∨ ∃ f' ∈ f :: t, get f'.non k = some v) := by
      rintro rfl hf
      obtain ⟨b1, b2, b3, b4, b5, b6, b7⟩ := ih hd hl' h2
      refine ⟨b1, b2, b3, b4, b5, ?_, ?_⟩
      · intro g hg v hv hn
        rcases List.mem_cons.1 hg with rfl | hg
        · exact b5 v (hf v hv hn)
        · exact b6 g hg v hv hn
      · intro v hv
        rcases b7 v hv with h | ⟨g, hg, h⟩
        · exact Or.inl h
        · exact Or.inr ⟨g, List.mem_cons_of_mem _ hg, h⟩
    cases hv : (get f.non k).filter notNone with
    | none =>
      rw [hv] at h1
      refine same (Option.some.inj h1).symm ?_
      intro v hfv hn
      rw [hfv, Option.filter_some, hn] at hv
      simp at hv
    | some v =>
      rw [hv] at h1
      rw [Option.filter_eq_some_iff] at hv
      cases hd0 : get d0.non k with
      | some w =>
        rw [hd0] at h1
        dsimp only at h1
        split at h1
        · rename_i hwv
          have := same (Option.some.inj h1).symm (by
            intro v' hv' _
            rw [hv.1] at hv'
            rw [hd0, hwv, hv'])
          rw [hd0] at this
          exact this
        · simp at h1
      | none =>
        rw [hd0] at h1
        dsimp only at h1
        obtain ⟨_, rfl⟩ := setAttr_non (f2 _ (get_mem hv.1)) h1
        obtain ⟨b1, b2, b3, b4, b5, b6, b7⟩ := ih (d0 := { d0 with non := put d0.non k v }) hd hl' h2
        have hput : get (put d0.non k v) k = some v := by rw [get_put, if_pos rfl]
        refine ⟨b1, b2, b3, ?_, by intro v' h'; simp at h', ?_, ?_⟩
        · intro k' hk'
          rw [b4 k' hk']
          dsimp only
          rw [get_put, if_neg (Ne.symm hk')]
        · intro g hg v' hv' hn
          rcases List.mem_cons.1 hg with rfl | hg
          · rw [hv.1] at hv'
            rw [← Option.some.inj hv']
            exact b5 v hput
          · exact b6 g hg v' hv' hn
        · intro v' hv'
          rcases b7 v' hv' with h | ⟨g, hg, h⟩
          · dsimp only at h
            rw [hput] at h
            right
            exact ⟨f, List.mem_cons_self, by rw [hv.1, ← Option.some.inj h]⟩
          · exact Or.inr ⟨g, List.mem_cons_of_mem _ hg, h⟩

theorem copies_fold [DecidableEq S] {fsas : List (Obj S)} (hn : ∀ f ∈ fsas, ∀ x ∈ f.non, x.2.rows = none)
    {names : List String} (hnames : ∀ k ∈ names, NotTensor fsas k) {d0 d : Obj S}
    (hd : ∀ k ∈ names, get d0.tensor k = none)
    (h : names.foldlM (fun d name => fsas.foldlM (copyNon name) d) d0 = some d) :
    d.labels = d0.labels ∧ d.scores = d0.scores ∧ d.tensor = d0.tensor ∧
      (∀ k v, get d0.non k = some v → get d.non k = some v) ∧
      (∀ k ∈ names, ∀ f ∈ fsas, ∀ v, get f.non k = some v → notNone v = true → get d.non k = some v) ∧
      (∀ k v, get d.non k = some v → get d0.non k = some v ∨ k ∈ names ∧ ∃ f ∈ fsas, get f.non k = some v) := by
  induction names generalizing d0 with
  | nil =>
    obtain rfl := Option.some.inj h
    exact ⟨rfl, rfl, rfl, fun _ _ h => h, by simp, fun _ _ h => Or.inl h⟩
  | cons n t ih =>
    rw [List.foldlM_cons, Option.bind_eq_bind, Option.bind_eq_some_iff] at h
    obtain ⟨d1, h1, h2⟩ := h
    obtain ⟨a1, a2, a3, a4, a5, a6, a7⟩ := copy_fold (hd n List.mem_cons_self)
      (fun f hf => ⟨hnames n List.mem_cons_self f hf, hn f hf⟩) h1
    obtain ⟨b1, b2, b3, b4, b5, b6⟩ := ih (fun k hk => hnames k (List.mem_cons_of_mem _ hk))
      (fun k hk => by rw [a3]; exact hd k (List.mem_cons_of_mem _ hk)) h2
    refine ⟨b1.trans a1, b2.trans a2, b3.trans a3, ?_, ?_, ?_⟩
    · intro k v hv
      apply b4
      by_cases hk : k = n
      · subst hk; exact a5 v hv
      · rw [a4 k hk]; exact hv
    · intro k hk f hf v hv hnn
      rcases List.mem_cons.1 hk with rfl | hk
      · exact b4 _ _ (a6 f hf v hv hnn)
      · exact b5 k hk f hf v hv hnn
    · intro k v hv
      rcases b6 k v hv with h | ⟨h, g⟩
      · by_cases hk : k = n
        · subst hk
          rcases a7 v h with h | h
          · exact Or.inl h
          · exact Or.inr ⟨List.mem_cons_self, h⟩
        · rw [a4 k hk] at h
          exact Or.inl h
      · exact Or.inr ⟨List.mem_cons_of_mem _ h, g⟩

theorem mapM_get {α β : Type} {g : α → Option β} {l : List α} {r : List β} (h : l.mapM g = some r) :
    ∀ a ∈ l, ∃ b, g a = some b ∧ b ∈ r := by
  intro a ha
  obtain ⟨j, hj⟩ := List.mem_iff_getElem?.1 ha
  obtain ⟨b, h1, h2⟩ := (mapM_some h).2 j a hj
  exact ⟨b, h1, List.mem_of_getElem? h2⟩

/-- C57: if `create_fsa_vec` returns: every tensor attribute of the *last* FSA exists in all FSAs with the
same type, and its value is the concatenation of the values; the scores of the arcs are the concatenation
of the scores; and, if no name is used for tensors and other values, the other attributes of the FSAs
(those that are not `None`) have equal values wherever they exist, and these are their values in the
result; no attribute is invented.

What is missing to the full statement: tensor attributes that the last FSA does not have are lost
(`vec_attribute_lost`). -/
theorem vec_attributes_partial [DecidableEq S] {fsas : List (Obj S)} (hok : ∀ f ∈ fsas, Ok f)
    {labels : List Int} {scores : List S} (hs : scores.length = labels.length) {last d : Obj S}
    (hlast : fsas.getLast? = some last) (hnt : ∀ k ∈ nonNames fsas, NotTensor fsas k)
    (h : createFsaVec fsas (newObj labels scores) = some d) :
    d.labels = labels ∧
      (∀ k v, k ≠ "labels" → get last.tensor k = some v → ∃ v' vals, get d.tensor k = some v' ∧
        v'.kind = v.kind ∧ fsas.mapM (fun f => getAttr f k) = some vals ∧ (∀ u ∈ vals, u.kind = v.kind) ∧
        v'.cells = vals.flatMap Val.cells) ∧
      d.scores = fsas.flatMap Obj.scores ∧
      (∀ k, k ≠ "labels_version" → ∀ f ∈ fsas, ∀ v, get f.non k = some v → notNone v = true →
        get d.non k = some v) ∧
      (∀ k v, k ≠ "labels_version" → get d.non k = some v → ∃ f ∈ fsas, get f.non k = some v) := by
  unfold createFsaVec at h
  rw [hlast] at h
  simp only [Option.bind_eq_bind, Option.bind_some, Option.bind_eq_some_iff] at h
  obtain ⟨d1, h1, h2⟩ := h
  have hlm : last ∈ fsas := List.mem_of_getLast? hlast
  have hol := hok last hlm
  rw [catAttr_fold] at h1
  obtain ⟨a1, a2, a3, a4, a5⟩ := setAll_tensor (namedTensor_keys true hol) catOf_rows h1
  have hmem : ∀ k, k ∈ (nonNames fsas).eraseDups ↔ k ∈ nonNames fsas := fun k => List.mem_eraseDups
  have hd1 : ∀ k ∈ (nonNames fsas).eraseDups, get d1.tensor k = none := by
    intro k hk
    have hk' := hnt k ((hmem k).1 hk)
    have hl := hk' last hlm
    rw [a3 k, get_namedTensor]
    have hks : k ≠ "scores" := by rintro rfl; rw [hol.scores] at hl; simp at hl
    have hkl : k ≠ "labels" := by
      rintro rfl; rw [hol.labels] at hl; simp at hl
    rw [if_pos (by simp [hkl]), hl]
    simp [newObj, get_cons, Ne.symm hks, Ne.symm hkl, Cac.get]
  obtain ⟨b1, b2, b3, b4, b5, b6⟩ := copies_fold (fun f hf => (hok f hf).nrows)
    (fun k hk => hnt k ((hmem k).1 hk)) hd1 h2
  have hT : ∀ k v, k ≠ "labels" → get last.tensor k = some v → ∃ v' vals, get d1.tensor k = some v' ∧
        v'.kind = v.kind ∧ fsas.mapM (fun f => getAttr f k) = some vals ∧ (∀ u ∈ vals, u.kind = v.kind) ∧
        v'.cells = vals.flatMap Val.cells := by
    intro k v hk hv
    have hg : get (namedTensor true last) k = some v := by
      rw [get_namedTensor, if_pos (by simp [hk]), hv]
    obtain ⟨v', w1, _⟩ := a4 _ (get_mem hg)
    have hd : get d1.tensor k = some v' := by rw [a3 k, hg]; exact w1
    unfold catOf at w1
    rw [Option.bind_eq_some_iff] at w1
    obtain ⟨vals, w1, w2⟩ := w1
    obtain ⟨c1, c2, _⟩ := catVals_cells w2
    obtain ⟨u, hu1, hu2⟩ := mapM_get w1 last hlm
    rw [getAttr_tensor hv] at hu1
    have hvk := c2 u hu2
    rw [← Option.some.inj hu1] at hvk
    exact ⟨v', vals, hd, hvk.symm, w1, fun u hu => by rw [c2 u hu, hvk], c1⟩
  refine ⟨b1.trans a1, ?_, ?_, ?_, ?_⟩
  · rw [b3]; exact hT
  · rw [b2]
    rw [show get (namedTensor true last) "scores" = some (.flt false last.scores) by
      rw [get_namedTensor, if_pos (by simp), hol.scores]] at a5
    dsimp only at a5
    unfold catOf at a5
    rw [Option.bind_eq_some_iff] at a5
    obtain ⟨vals, w1, w2⟩ := a5
    have hvals : vals.flatMap Val.cells = (fsas.flatMap Obj.scores).map Cell.f := by
      have e : vals.map Val.cells = fsas.map fun f => f.scores.map Cell.f := by
        apply List.ext_getElem?
        intro j
        obtain ⟨l1, l2⟩ := mapM_some w1
        rw [List.getElem?_map, List.getElem?_map]
        cases hj : fsas[j]? with
        | none =>
          rw [List.getElem?_eq_none_iff] at hj
          rw [List.getElem?_eq_none (by omega)]
          rfl
        | some f =>
          obtain ⟨u, u1, u2⟩ := l2 j f hj
          rw [getAttr_tensor (hok f (List.mem_of_getElem? hj)).scores] at u1
          rw [u2, ← Option.some.inj u1]
          rfl
      rw [List.flatMap_def, e, List.flatMap_def, List.map_flatten, List.map_map]
      rfl
    have hc := (catVals_cells w2).1
    rw [hvals] at hc
    exact List.map_inj_right (fun x y hxy => by simpa using hxy) |>.1 hc
  · intro k hk f hf v hv hnn
    refine b5 k ((hmem k).2 ?_) f hf v hv hnn
    unfold nonNames
    rw [List.mem_flatMap]
    exact ⟨f, hf, List.mem_map.2 ⟨(k, v), get_mem (by rw [get_namedNon, if_pos hk, hv]), rfl⟩⟩
  · intro k v hk hv
    rcases b6 k v hv with h | ⟨_, h⟩
    · rw [a2] at h
      simp [newObj, get_cons, Ne.symm hk, Cac.get] at h
    · exact h

/-- C57, negated: a tensor attribute that the last FSA does not have is lost, whatever the other FSAs
have. -/
theorem vec_attribute_lost [DecidableEq S] {fsas : List (Obj S)} (hok : ∀ f ∈ fsas, Ok f)
    {labels : List Int} {scores : List S} {last d : Obj S}
    (hlast : fsas.getLast? = some last) (hnt : ∀ k ∈ nonNames fsas, NotTensor fsas k)
    (h : createFsaVec fsas (newObj labels scores) = some d) (k : String) (hk : k ∉ nonNames fsas)
    (hkv : k ≠ "labels_version") (hl : get last.tensor k = none) : getAttr d k = none := by
  unfold createFsaVec at h
  rw [hlast] at h
  simp only [Option.bind_eq_bind, Option.bind_some, Option.bind_eq_some_iff] at h
  obtain ⟨d1, h1, h2⟩ := h
  have hlm : last ∈ fsas := List.mem_of_getLast? hlast
  have hol := hok last hlm
  rw [catAttr_fold] at h1
  obtain ⟨a1, a2, a3, a4, a5⟩ := setAll_tensor (namedTensor_keys true hol) catOf_rows h1
  have hnone : ∀ k, get last.tensor k = none → get d1.tensor k = none := by
    intro k hl
    rw [a3 k, get_namedTensor]
    have hks : k ≠ "scores" := by rintro rfl; rw [hol.scores] at hl; simp at hl
    have hkl : k ≠ "labels" := by rintro rfl; rw [hol.labels] at hl; simp at hl
    rw [if_pos (by simp [hkl]), hl]
    simp [newObj, get_cons, Ne.symm hks, Ne.symm hkl, Cac.get]
  obtain ⟨b1, b2, b3, b4, b5, b6⟩ := copies_fold (fun f hf => (hok f hf).nrows)
    (fun k hk => hnt k (List.mem_eraseDups.1 hk))
    (fun k hk => hnone k (hnt k (List.mem_eraseDups.1 hk) last hlm)) h2
  rw [getAttr_non (by rw [b3]; exact hnone k hl)]
  cases hg : get d.non k with
  | none => rfl
  | some v =>
    rcases b6 k v hg with h | ⟨h, _⟩
    · rw [a2] at h
      simp [newObj, get_cons, Ne.symm hkv, Cac.get] at h
    · exact absurd (List.mem_eraseDups.1 h) hk

/-- C57, the other way round: if the last FSA has a tensor attribute that another FSA does not have,
`create_fsa_vec` raises. -/
theorem vec_missing_raises [DecidableEq S] {fsas : List (Obj S)} (hok : ∀ f ∈ fsas, Ok f)
    {labels : List Int} {scores : List S} (hs : scores.length = labels.length) {last : Obj S}
    (hlast : fsas.getLast? = some last) (hnt : ∀ k ∈ nonNames fsas, NotTensor fsas k) (k : String) (v : Val S)
    (hk : k ≠ "labels") (hv : get last.tensor k = some v) (f : Obj S) (hf : f ∈ fsas) (hm : getAttr f k = none) :
    createFsaVec fsas (newObj labels scores) = none := by
  cases h : createFsaVec fsas (newObj labels scores) with
  | none => rfl
  | some d =>
    obtain ⟨_, h1, _⟩ := vec_attributes_partial hok hs hlast hnt h
    obtain ⟨_, vals, _, _, hvals, _⟩ := h1 k v hk hv
    obtain ⟨b, hb, _⟩ := mapM_get hvals f hf
    rw [hm] at hb
    simp at hb

/-! ## Concrete cases -/

def exV1 : Obj Int :=
  ⟨[5, -1], [50, 60],
    [("scores", .flt false [50, 60]), ("labels", .int false [5, -1]), ("w", .flt false [1, 2]),
      ("ia", .int false [7, 8])],
    [("labels_version", .num (.int 0)), ("w_filler", .num (.int 100)), ("name", .other 3)]⟩

def exV2 : Obj Int :=
  ⟨[-1], [1], [("scores", .flt false [1]), ("labels", .int false [-1]), ("w", .flt false [10])],
    [("labels_version", .num (.int 0)), ("name", .other 3), ("more", .other 5)]⟩

theorem exV_ok : ∀ f ∈ [exV1, exV2], Ok f := by
  intro f hf
  rcases List.mem_cons.1 hf with rfl | hf
  · exact ⟨by decide, by decide, by decide, by decide, by decide, by decide, by decide, by decide⟩
  · rw [List.mem_singleton] at hf
    subst hf
    exact ⟨by decide, by decide, by decide, by decide, by decide, by decide, by decide, by decide⟩

/-- The attribute `ia` is lost. -/
example : createFsaVec [exV1, exV2] (newObj [5, -1, -1] [50, 60, 1]) = some
    ⟨[5, -1, -1], [50, 60, 1],
      [("scores", .flt false [50, 60, 1]), ("labels", .int false [5, -1, -1]), ("w", .flt false [1, 2, 10])],
      [("labels_version", .num (.int 0)), ("w_filler", .num (.int 100)), ("name", .other 3),
        ("more", .other 5)]⟩ := by decide +kernel

example (d : Obj Int) (h : createFsaVec [exV1, exV2] (newObj [5, -1, -1] [50, 60, 1]) = some d) :
    getAttr d "ia" = none :=
  vec_attribute_lost exV_ok rfl (by unfold NotTensor; decide +kernel) h "ia" (by decide +kernel) (by decide) rfl

example : createFsaVec [exV2, exV1] (newObj [-1, 5, -1] [1, 50, 60]) = none :=
  vec_missing_raises (fun f hf => exV_ok f (by simp at hf ⊢; exact hf.symm)) rfl (last := exV1) rfl
    (by unfold NotTensor; decide +kernel) "ia" _ (by decide) rfl exV2 (by simp) rfl

end Verif.Fsa.Att
