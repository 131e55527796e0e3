import Verif.Fsa.Cache.Lemmas

/-! Attribute assignments and the invariant of one object. -/

namespace Verif.Fsa.Cac
variable {T S R : Type} {o : Ops T S R} {D : Bool → Prop} {keep : Prop}

abbrev lv : String := "labels_version"

/-- `fsa.labels` is the tensor made by the constructor. -/
def IsView (s : OS T S R) : Prop := get s.1.tensorAttr "labels" = some .labelsView

/-- What holds after every call, also after a call that raised. -/
structure Weak (o : Ops T S R) (D : Bool → Prop) (keep : Prop) (s : OS T S R) : Prop where
  coh : Coh o D keep s
  lvT : get s.1.tensorAttr lv = none
  lvN : IsView s → ∀ x, get s.1.nonTensor lv = some (.num x) → x ≤ s.1.ver
  num : ∀ x ∈ s.1.nonTensor, ∃ n, x.2 = Val.num n
  ten : ∀ x ∈ s.1.tensorAttr, ∀ n, x.2 ≠ Val.num n

/-- The cached properties are right, unless the version tells that the labels have changed. -/
def PropsOk (o : Ops T S R) (s : OS T S R) : Prop :=
  ∀ p, IsView s → get s.1.nonTensor lv = some (.num s.1.ver) → s.1.props = some p →
    p = o.basicProps s.2.topo s.2.labels

/-- The cached properties are right. -/
def PropsNew (o : Ops T S R) (s : OS T S R) : Prop :=
  ∀ p, s.1.props = some p → p = o.basicProps s.2.topo s.2.labels

theorem PropsNew.ok {s : OS T S R} (h : PropsNew o s) : PropsOk o s := fun p _ _ hp => h p hp

theorem fresh_labels (m : Mem T S) (l : List Int) (k : Key) : fresh o { m with labels := l } k = fresh o m k := by
  cases k <;> rfl

theorem coh_of_eq {s t : OS T S R} (h : Coh o D keep s) (hc : t.1.cache = s.1.cache)
    (ht : t.2.topo = s.2.topo) (hs : t.2.scores = s.2.scores) : Coh o D keep t := by
  have e : ∀ k, fresh o t.2 k = fresh o s.2 k := by
    intro k
    rw [← fresh_labels t.2 [] k, ← fresh_labels s.2 [] k, ht, hs]
  have e2 : ∀ d, freshEnt o t.2 d = freshEnt o s.2 d := by
    intro d
    unfold freshEnt freshFwd
    rw [ht, hs]
  refine ⟨?_, ?_, ?_, ?_⟩
  · intro k v hk hg
    rw [e]; rw [hc] at hg
    exact h.val k v hk hg
  · intro v hg
    rw [hc] at hg
    obtain ⟨d, h1, h2⟩ := h.ent v hg
    exact ⟨d, h1, by rw [e2]; exact h2⟩
  · intro hk d v hg
    rw [hc] at hg ⊢
    exact h.has hk d v hg
  · intro n v hg
    rw [hc] at hg
    exact h.names n v hg

theorem mem_put {V : Type} {d : Dict V} {k : String} {v : V} {x : String × V} (h : x ∈ put d k v) :
    x = (k, v) ∨ x ∈ d := by
  induction d with
  | nil => left; simpa [put] using h
  | cons y t ih =>
    obtain ⟨a, b⟩ := y
    unfold put at h
    by_cases ha : a = k
    · rw [if_pos ha] at h
      rcases List.mem_cons.1 h with h | h
      · exact Or.inl h
      · exact Or.inr (List.mem_cons_of_mem _ h)
    · rw [if_neg ha] at h
      rcases List.mem_cons.1 h with h | h
      · exact Or.inr (by rw [h]; exact List.mem_cons_self)
      · rcases ih h with h | h
        · exact Or.inl h
        · exact Or.inr (List.mem_cons_of_mem _ h)

/-! ### Primitive changes -/

theorem weak_props {s : OS T S R} (h : Weak o D keep s) (p : Option Nat) :
    Weak o D keep ({ s.1 with props := p }, s.2) := ⟨coh_of_eq h.coh rfl rfl rfl, h.lvT, h.lvN, h.num, h.ten⟩

theorem weak_labels {s : OS T S R} (h : Weak o D keep s) (l : List Int) :
    Weak o D keep (s.1, { s.2 with labels := l }) := ⟨coh_of_eq h.coh rfl rfl rfl, h.lvT, h.lvN, h.num, h.ten⟩

theorem view_put {s : OS T S R} {n : String} {v : Val S} (hv : n = "labels" → v ≠ .labelsView)
    (h : IsView (({ s.1 with tensorAttr := put s.1.tensorAttr n v }, s.2) : OS T S R)) : IsView s := by
  unfold IsView at h ⊢
  dsimp only at h
  rw [get_put] at h
  split at h
  · rename_i hn
    exact absurd (Option.some.inj h) (hv hn)
  · exact h

theorem weak_tensor {s : OS T S R} (h : Weak o D keep s) {n : String} (hn : n ≠ lv) (v : Val S)
    (hv : n = "labels" → v ≠ .labelsView) (ht : ∀ x, v ≠ .num x) :
    Weak o D keep ({ s.1 with tensorAttr := put s.1.tensorAttr n v }, s.2) :=
  ⟨coh_of_eq h.coh rfl rfl rfl, by dsimp only; rw [get_put, if_neg hn]; exact h.lvT,
    fun hview => h.lvN (view_put hv hview), h.num, by
    intro y hy
    rcases mem_put hy with rfl | hy
    · exact ht
    · exact h.ten y hy⟩

theorem view_del {s : OS T S R} {n : String}
    (h : IsView (({ s.1 with tensorAttr := del s.1.tensorAttr n }, s.2) : OS T S R)) : IsView s := by
  unfold IsView at h ⊢
  dsimp only at h
  rw [get_del] at h
  split at h
  · simp at h
  · exact h

theorem weak_tensor_del {s : OS T S R} (h : Weak o D keep s) (n : String) :
    Weak o D keep ({ s.1 with tensorAttr := del s.1.tensorAttr n }, s.2) :=
  ⟨coh_of_eq h.coh rfl rfl rfl, by
    dsimp only; rw [get_del]; split <;> first | rfl | exact h.lvT, fun hview => h.lvN (view_del hview), h.num,
    fun x hx => h.ten x (List.mem_filter.1 hx).1⟩

theorem weak_non {s : OS T S R} (h : Weak o D keep s) {n : String} (hn : n ≠ lv) (x : Nat) :
    Weak o D keep ({ s.1 with nonTensor := put s.1.nonTensor n (.num x) }, s.2) :=
  ⟨coh_of_eq h.coh rfl rfl rfl, h.lvT, by
    intro hview y hy; dsimp only at hy; rw [get_put, if_neg hn] at hy; exact h.lvN hview y hy, by
    intro y hy
    rcases mem_put hy with rfl | hy
    · exact ⟨x, rfl⟩
    · exact h.num y hy, h.ten⟩

theorem weak_version {s : OS T S R} (h : Weak o D keep s) {x : Nat} (hx : x ≤ s.1.ver) :
    Weak o D keep ({ s.1 with nonTensor := put s.1.nonTensor lv (.num x) }, s.2) :=
  ⟨coh_of_eq h.coh rfl rfl rfl, h.lvT, by
    dsimp only
    intro _ y hy
    rw [get_put, if_pos rfl] at hy
    injection Option.some.inj hy with e
    omega, by
    intro y hy
    rcases mem_put hy with rfl | hy
    · exact ⟨x, rfl⟩
    · exact h.num y hy, h.ten⟩

theorem coh_filter {s : OS T S R} (h : Coh o D keep s) (p : String → Bool)
    (hk : keep → ∀ d, p (Key.forward d false).name = true → p Key.enteringArcs.name = true) :
    Coh o D keep ({ s.1 with cache := s.1.cache.filter fun x => p x.1 }, s.2) := by
  refine ⟨?_, ?_, ?_, ?_⟩
  · intro k v hk hg
    dsimp only at hg ⊢
    rw [get_filter] at hg
    split at hg
    · exact h.val k v hk hg
    · simp at hg
  · intro v hg
    dsimp only at hg ⊢
    rw [get_filter] at hg
    split at hg
    · exact h.ent v hg
    · simp at hg
  · intro hkeep d v hg
    dsimp only at hg ⊢
    rw [get_filter] at hg ⊢
    split at hg
    · rename_i hp
      rw [if_pos (hk hkeep d hp)]
      exact h.has hkeep d v hg
    · simp at hg
  · intro n v hg
    dsimp only at hg
    rw [get_filter] at hg
    split at hg
    · exact h.names n v hg
    · simp at hg

theorem get_invalidate (cache : Dict R) (k : Key) :
    get (invalidate cache) k.name = if usesScores k then none else get cache k.name := by
  unfold invalidate
  rw [get_filter cache (fun n => !(scoreKey n || n == "entering_arcs")), dropped k (mem_allKeys k)]
  cases usesScores k <;> rfl

theorem fresh_scores (m : Mem T S) (l : List S) (k : Key) (hk : usesScores k = false) :
    fresh o { m with scores := l } k = fresh o m k := by
  cases k <;> first | rfl | simp [usesScores] at hk

/-- After an assignment of scores. -/
theorem coh_scores {s : OS T S R} (h : Coh o D keep s) (l : List S) :
    Coh o D keep ({ s.1 with cache := invalidate s.1.cache }, { s.2 with scores := l }) := by
  refine ⟨?_, ?_, ?_, ?_⟩
  · intro k v hk hg
    dsimp only at hg ⊢
    rw [get_invalidate] at hg
    split at hg
    · simp at hg
    · rename_i hu
      rw [fresh_scores _ _ _ (by simpa using hu)]
      exact h.val k v hk hg
  · intro v hg
    dsimp only at hg
    rw [get_invalidate, if_pos (by rfl)] at hg
    simp at hg
  · intro hkeep d v hg
    dsimp only at hg
    rw [get_invalidate, if_pos (by rfl)] at hg
    simp at hg
  · intro n v hg
    dsimp only at hg
    unfold invalidate at hg
    rw [get_filter s.1.cache (fun n => !(scoreKey n || n == "entering_arcs"))] at hg
    split at hg
    · exact h.names n v hg
    · simp at hg

theorem weak_scores {s : OS T S R} (h : Weak o D keep s) (l : List S) :
    Weak o D keep ({ s.1 with cache := invalidate s.1.cache }, { s.2 with scores := l }) :=
  ⟨coh_scores h.coh l, h.lvT, h.lvN, h.num, h.ten⟩

/-! ### `properties` -/

theorem labelsVersion_eq {s : OS T S R} {v : Nat} (h : labelsVersion s = some v) : v = s.1.ver := by
  unfold labelsVersion at h
  split at h
  · exact (Option.some.inj h).symm
  · simp at h

theorem version_view {s : OS T S R} (h : Weak o D keep s) {v : Nat} (hv : labelsVersion s = some v) :
    IsView s := by
  unfold labelsVersion at hv
  split at hv
  · rename_i ha
    unfold attr at ha
    unfold IsView
    cases hg : get s.1.tensorAttr "labels" with
    | some w => rw [hg] at ha; exact ha
    | none =>
      rw [hg] at ha
      obtain ⟨n, hn⟩ := h.num _ (get_mem ha)
      simp at hn
  · simp at hv

theorem view_version {s : OS T S R} (h : IsView s) : labelsVersion s = some s.1.ver := by
  unfold labelsVersion attr
  rw [h]
  rfl

theorem attr_lv {s : OS T S R} (h : Weak o D keep s) : attr s lv = get s.1.nonTensor lv := by
  unfold attr
  rw [h.lvT]
  rfl

/-- The getter changes only the properties and the version; what it returns is right if the cached
properties are. -/
theorem properties_run {s : OS T S R} (h : Weak o D keep s) :
    Weak o D keep (properties o s).2 ∧ (properties o s).2.2 = s.2 ∧
    (properties o s).2.1.tensorAttr = s.1.tensorAttr ∧
    (properties o s).2.1.cache = s.1.cache ∧ (properties o s).2.1.ver = s.1.ver ∧
    (PropsOk o s → PropsOk o (properties o s).2) ∧
    (s.1.props = none → PropsNew o (properties o s).2) ∧
    (∀ p, PropsOk o s → (properties o s).1 = some p → p = o.basicProps s.2.topo s.2.labels ∧
      PropsNew o (properties o s).2) ∧
    (∀ v, labelsVersion s = some v → s.1.props = none → o.basicProps s.2.topo s.2.labels % 2 = 1 →
      (properties o s).1.isSome) := by
  unfold properties
  rw [read_bind]
  cases hp : s.1.props with
  | some p =>
    dsimp only
    rw [ofOption_bind]
    have base : ∀ r : Option Nat, (r = none ∨ (r = some p ∧ IsView s ∧ get s.1.nonTensor lv = some (.num s.1.ver))) →
        Weak o D keep s ∧ s.2 = s.2 ∧ s.1.tensorAttr = s.1.tensorAttr ∧ s.1.cache = s.1.cache ∧
        s.1.ver = s.1.ver ∧ (PropsOk o s → PropsOk o s) ∧ (some p = none → PropsNew o s) ∧
        (∀ p', PropsOk o s → r = some p' → p' = o.basicProps s.2.topo s.2.labels ∧ PropsNew o s) ∧
        (∀ v, labelsVersion s = some v → some p = none → o.basicProps s.2.topo s.2.labels % 2 = 1 →
          r.isSome) := by
      intro r hr
      refine ⟨h, rfl, rfl, rfl, rfl, id, by simp, ?_, by simp⟩
      intro p' hok hr'
      rcases hr with hr | ⟨hr, hview, hv⟩
      · rw [hr] at hr'; simp at hr'
      · have e : p' = p := by rw [hr] at hr'; exact (Option.some.inj hr').symm
        rw [e]
        have hb := hok p hview hv hp
        refine ⟨hb, fun q hq => ?_⟩
        rw [hp] at hq
        rw [← Option.some.inj hq]
        exact hb
    cases hv : labelsVersion s with
    | none =>
      dsimp only
      have := base none (Or.inl rfl)
      rw [hv] at this
      exact this
    | some v =>
      dsimp only
      have hver := labelsVersion_eq hv
      rw [ofOption_bind]
      have hrest := base
      rw [hv] at hrest
      cases hx : numAttr s "labels_version" with
      | none => exact hrest none (Or.inl rfl)
      | some x =>
        dsimp only
        rw [check_bind]
        by_cases hne : x = v
        · rw [if_pos (by simpa using hne)]
          refine hrest (some p) (Or.inr ⟨rfl, version_view h hv, ?_⟩)
          unfold numAttr at hx
          have hl : attr s "labels_version" = get s.1.nonTensor lv := attr_lv h
          rw [hl] at hx
          split at hx
          · rename_i y hy
            rw [hy]
            have : y = x := Option.some.inj hx
            rw [this, hne, hver]
          · simp at hx
        · rw [if_neg (by simpa using hne)]
          exact hrest none (Or.inl rfl)
  | none =>
    dsimp only
    rw [ofOption_bind]
    cases hv : labelsVersion s with
    | none =>
      dsimp only
      exact ⟨h, rfl, rfl, rfl, rfl, id, fun _ p hq => by rw [hp] at hq; simp at hq,
        fun _ _ hq => by simp at hq, fun v hq => by simp at hq⟩
    | some v =>
      dsimp only
      have hver := labelsVersion_eq hv
      unfold setLabelsVersion
      rw [modify_bind, modify_bind]
      have hw : Weak o D keep ({ s.1 with
          nonTensor := put s.1.nonTensor lv (.num v)
          props := some (o.basicProps s.2.topo s.2.labels) }, s.2) :=
        weak_props (weak_version h (by omega)) _
      have hnew : PropsNew o (({ s.1 with
          nonTensor := put s.1.nonTensor lv (.num v)
          props := some (o.basicProps s.2.topo s.2.labels) }, s.2) : OS T S R) :=
        fun q hq => (Option.some.inj hq).symm
      rw [check_bind]
      by_cases ho : o.basicProps s.2.topo s.2.labels % 2 ≠ 1
      · rw [if_neg (by simpa using ho)]
        exact ⟨hw, rfl, rfl, rfl, rfl, fun _ => hnew.ok, fun _ => hnew, fun _ _ hq => by simp at hq,
          fun _ _ _ h1 => absurd h1 ho⟩
      · rw [if_pos (by simpa using ho)]
        refine ⟨hw, rfl, rfl, rfl, rfl, fun _ => hnew.ok, fun _ => hnew, ?_, fun _ _ _ _ => rfl⟩
        intro p _ hq
        rw [pure_run] at hq
        exact ⟨(Option.some.inj hq).symm, hnew⟩

/-! ### Assignments -/

/-- What a part of an assignment keeps: everything but the labels, the properties and the version. -/
structure LabelStep (s t : OS T S R) : Prop where
  topo : t.2.topo = s.2.topo
  scores : t.2.scores = s.2.scores
  tensorAttr : t.1.tensorAttr = s.1.tensorAttr
  ver : t.1.ver = s.1.ver
  cache : t.1.cache = s.1.cache

/-- `labels = value`: on success the properties are right, and the labels are still the view. -/
theorem setLabels_run {s : OS T S R} (h : Weak o D keep s) (v : Val S) :
    Weak o D keep (setLabels o v s).2 ∧ LabelStep s (setLabels o v s).2 ∧
    ((setLabels o v s).1.isSome → PropsNew o (setLabels o v s).2 ∧
      get s.1.tensorAttr "labels" = some .labelsView) := by
  have tail : ∀ t : OS T S R, Weak o D keep t → LabelStep s t →
      (∀ r : Option Unit × OS T S R, r = (fixFinal o >>= fun _ =>
        modify (fun s => ({ s.1 with props := none }, s.2)) >>= fun _ =>
        properties o >>= fun _ => pure ()) t →
      Weak o D keep r.2 ∧ LabelStep s r.2 ∧ (r.1.isSome → PropsNew o r.2)) := by
    intro t ht hst r hr
    rw [bind_run] at hr
    cases hf : fixFinal o t with
    | mk x t1 =>
      rw [hf] at hr
      have ht1 : Weak o D keep t1 ∧ LabelStep s t1 := by
        unfold fixFinal at hf
        dsimp only at hf
        obtain ⟨_, rfl⟩ := Prod.mk.inj hf
        exact ⟨weak_labels ht _, ⟨hst.topo, hst.scores, hst.tensorAttr, hst.ver, hst.cache⟩⟩
      cases x with
      | none =>
        subst hr
        exact ⟨ht1.1, ht1.2, fun h => by simp at h⟩
      | some _ =>
        dsimp only at hr
        rw [modify_bind, bind_run] at hr
        have hw := weak_props ht1.1 none
        obtain ⟨a1, a2, a3, a4, a5, _, a7, _⟩ := properties_run hw
        generalize hq : properties o ({ t1.1 with props := none }, t1.2) = q at hr a1 a2 a3 a4 a5 a7
        obtain ⟨x, t2⟩ := q
        have hls : LabelStep s t2 := ⟨by rw [a2]; exact ht1.2.topo, by rw [a2]; exact ht1.2.scores,
          a3.trans ht1.2.tensorAttr, a5.trans ht1.2.ver, a4.trans ht1.2.cache⟩
        cases x with
        | none =>
          subst hr
          exact ⟨a1, hls, fun h => by simp at h⟩
        | some _ =>
          subst hr
          exact ⟨a1, hls, fun _ => a7 rfl⟩
  have go : ∀ t : OS T S R, Weak o D keep t → LabelStep s t →
      (∀ r : Option Unit × OS T S R, r = (updateVersion >>= fun _ => fixFinal o >>= fun _ =>
        modify (fun s => ({ s.1 with props := none }, s.2)) >>= fun _ =>
        properties o >>= fun _ => pure ()) t →
      Weak o D keep r.2 ∧ LabelStep s r.2 ∧ (r.1.isSome → PropsNew o r.2 ∧
        get s.1.tensorAttr "labels" = some .labelsView)) := by
    intro t ht hst r hr
    rw [bind_run] at hr
    unfold updateVersion at hr
    split at hr
    · rename_i a t' hu
      split at hu
      · rename_i hview
        obtain ⟨_, rfl⟩ := Prod.mk.inj hu
        have hw := weak_version ht (x := t.1.ver) (Nat.le_refl _)
        obtain ⟨a1, a2, a3⟩ := tail _ hw ⟨hst.topo, hst.scores, hst.tensorAttr, hst.ver, hst.cache⟩ r hr
        exact ⟨a1, a2, fun h => ⟨a3 h, by rw [← hst.tensorAttr]; exact hview⟩⟩
      · simp at hu
    · rename_i t' hu
      split at hu
      · exact absurd (Prod.mk.inj hu).1 (by simp)
      · obtain ⟨_, rfl⟩ := Prod.mk.inj hu
        subst hr
        exact ⟨ht, hst, fun h => by simp at h⟩
  unfold setLabels
  rw [bind_run]
  cases v with
  | i32 l => exact go _ (weak_labels h l) ⟨rfl, rfl, rfl, rfl, rfl⟩ _ rfl
  | labelsView => exact go s h ⟨rfl, rfl, rfl, rfl, rfl⟩ _ rfl
  | _ => exact ⟨h, ⟨rfl, rfl, rfl, rfl, rfl⟩, fun h => by simp [writeLabels, raise] at h⟩

/-- Everything that the properties depend on is kept. -/
structure Same (s t : OS T S R) : Prop where
  topo : t.2.topo = s.2.topo
  labels : t.2.labels = s.2.labels
  ver : t.1.ver = s.1.ver
  props : t.1.props = s.1.props
  version : get t.1.nonTensor lv = get s.1.nonTensor lv
  view : IsView t → IsView s

theorem Same.refl (s : OS T S R) : Same s s := ⟨rfl, rfl, rfl, rfl, rfl, id⟩

theorem Same.trans {s t u : OS T S R} (h1 : Same s t) (h2 : Same t u) : Same s u :=
  ⟨h2.topo.trans h1.topo, h2.labels.trans h1.labels, h2.ver.trans h1.ver, h2.props.trans h1.props,
    h2.version.trans h1.version, fun h => h1.view (h2.view h)⟩

theorem Same.ok {s t : OS T S R} (h : Same s t) (hs : PropsOk o s) : PropsOk o t := by
  intro p h0 h1 h2
  rw [h.topo, h.labels]
  rw [h.version, h.ver] at h1
  rw [h.props] at h2
  exact hs p (h.view h0) h1 h2

theorem Same.new {s t : OS T S R} (h : Same s t) (hs : PropsNew o s) : PropsNew o t := by
  intro p h2
  rw [h.topo, h.labels]
  rw [h.props] at h2
  exact hs p h2

/-- `__setattr__`. -/
theorem setAttr_run {s : OS T S R} (h : Weak o D keep s) (n : String) (hn : n ≠ lv) (v : Val S) :
    Weak o D keep (setAttr o n v s).2 ∧ (setAttr o n v s).2.2.topo = s.2.topo ∧
    ((n = "labels" ∧ v.isTensor = true) ∨ Same s (setAttr o n v s).2) ∧
    (n = "labels" → v.isTensor = true → (setAttr o n v s).1.isSome →
      PropsNew o (setAttr o n v s).2 ∧ get (setAttr o n v s).2.1.tensorAttr "labels" = some .labelsView) ∧
    (n ≠ "scores" → (setAttr o n v s).2.2.scores = s.2.scores ∧
      (setAttr o n v s).2.1.cache = s.1.cache ∧
      get (setAttr o n v s).2.1.tensorAttr "scores" = get s.1.tensorAttr "scores") ∧
    (n = "scores" → (setAttr o n v s).1.isSome → (∀ a b, v ≠ .ragged a b) →
      (∀ x, v ≠ .num x) → ∃ w, get (setAttr o n v s).2.1.tensorAttr "scores" = some w ∧
        (w = .scoresView ∨ w = .f32 (setAttr o n v s).2.2.scores)) ∧
    (n = "scores" → (∃ x, v = .num x) → (setAttr o n v s).2.2.scores = s.2.scores ∧
      get (setAttr o n v s).2.1.tensorAttr "scores" = get s.1.tensorAttr "scores") := by
  unfold setAttr
  rw [check_bind]
  split
  swap
  · exact ⟨h, rfl, Or.inr (Same.refl s), fun _ _ h => by simp at h, fun _ => ⟨rfl, rfl, rfl⟩,
      fun _ h => by simp at h, fun _ _ => ⟨rfl, rfl⟩⟩
  have tensor : ∀ v : Val S, v.isTensor = true → ∀ r : Option Unit × OS T S R, r = setTensor o n v s →
      Weak o D keep r.2 ∧ r.2.2.topo = s.2.topo ∧
      ((n = "labels" ∧ v.isTensor = true) ∨ Same s r.2) ∧
      (n = "labels" → v.isTensor = true → r.1.isSome →
        PropsNew o r.2 ∧ get r.2.1.tensorAttr "labels" = some .labelsView) ∧
      (n ≠ "scores" → r.2.2.scores = s.2.scores ∧ r.2.1.cache = s.1.cache ∧
        get r.2.1.tensorAttr "scores" = get s.1.tensorAttr "scores") ∧
      (n = "scores" → r.1.isSome → (∀ a b, v ≠ .ragged a b) → (∀ x, v ≠ .num x) →
        ∃ w, get r.2.1.tensorAttr "scores" = some w ∧ (w = .scoresView ∨ w = .f32 r.2.2.scores)) ∧
      (n = "scores" → (∃ x, v = .num x) → r.2.2.scores = s.2.scores ∧
        get r.2.1.tensorAttr "scores" = get s.1.tensorAttr "scores") := by
    intro v ht r hr
    have hnum : ∀ x, v ≠ .num x := by intro x hx; rw [hx] at ht; simp [Val.isTensor] at ht
    unfold setTensor at hr
    rw [read_bind, check_bind] at hr
    split at hr
    swap
    · subst hr
      exact ⟨h, rfl, Or.inr (Same.refl s), fun _ _ h => by simp at h, fun _ => ⟨rfl, rfl, rfl⟩,
        fun _ h => by simp at h, fun _ _ => ⟨rfl, rfl⟩⟩
    by_cases hl : n = "labels"
    · rw [if_pos hl] at hr
      obtain ⟨a1, a2, a3⟩ := setLabels_run h v
      subst hr
      refine ⟨a1, a2.topo, Or.inl ⟨hl, ht⟩, fun _ _ hs => ⟨(a3 hs).1, ?_⟩,
        fun _ => ⟨a2.scores, a2.cache, by rw [a2.tensorAttr]⟩, fun e => ?_, fun e => ?_⟩
      · rw [a2.tensorAttr]; exact (a3 hs).2
      · rw [hl] at e; exact absurd e (by decide)
      · rw [hl] at e; exact absurd e (by decide)
    · rw [if_neg hl, modify_bind] at hr
      have hw := weak_tensor h hn v (fun e => absurd e hl) hnum
      have hvw := view_put (s := s) (v := v) (fun e : n = "labels" => absurd e hl)
      by_cases hsc : n = "scores"
      · rw [if_pos hsc] at hr
        have key : ∀ l : List S, Weak o D keep (({ s.1 with
            tensorAttr := put s.1.tensorAttr n v, cache := invalidate s.1.cache }, { s.2 with scores := l }) : OS T S R) :=
          fun l => weak_scores hw l
        have fail : ∀ r : Option Unit × OS T S R, r = (none, (({ s.1 with tensorAttr := put s.1.tensorAttr n v }, s.2) : OS T S R)) →
            Weak o D keep r.2 ∧ r.2.2.topo = s.2.topo ∧
            ((n = "labels" ∧ v.isTensor = true) ∨ Same s r.2) ∧
            (n = "labels" → v.isTensor = true → r.1.isSome →
              PropsNew o r.2 ∧ get r.2.1.tensorAttr "labels" = some .labelsView) ∧
            (n ≠ "scores" → r.2.2.scores = s.2.scores ∧ r.2.1.cache = s.1.cache ∧
              get r.2.1.tensorAttr "scores" = get s.1.tensorAttr "scores") ∧
            (n = "scores" → r.1.isSome → (∀ a b, v ≠ .ragged a b) → (∀ x, v ≠ .num x) →
              ∃ w, get r.2.1.tensorAttr "scores" = some w ∧ (w = .scoresView ∨ w = .f32 r.2.2.scores)) ∧
            (n = "scores" → (∃ x, v = .num x) → r.2.2.scores = s.2.scores ∧
              get r.2.1.tensorAttr "scores" = get s.1.tensorAttr "scores") := by
          rintro _ rfl
          exact ⟨hw, rfl, Or.inr ⟨rfl, rfl, rfl, rfl, rfl, hvw⟩, fun e => absurd e hl, fun e => absurd hsc e,
            fun _ e => by simp at e, fun _ ⟨x, e⟩ => absurd e (hnum x)⟩
        cases v with
        | f32 l =>
          rw [bind_run] at hr
          subst hr
          refine ⟨key l, rfl, Or.inr ⟨rfl, rfl, rfl, rfl, rfl, hvw⟩, fun e => absurd e hl,
            fun e => absurd hsc e, fun _ _ _ _ => ⟨.f32 l, ?_, Or.inr rfl⟩,
            fun _ ⟨x, e⟩ => absurd e (hnum x)⟩
          simp only [modify, writeScores, pure_run]
          rw [get_put, if_pos hsc]
        | scoresView =>
          rw [bind_run] at hr
          subst hr
          refine ⟨key s.2.scores, rfl, Or.inr ⟨rfl, rfl, rfl, rfl, rfl, hvw⟩, fun e => absurd e hl,
            fun e => absurd hsc e, fun _ _ _ _ => ⟨.scoresView, ?_, Or.inl rfl⟩,
            fun _ ⟨x, e⟩ => absurd e (hnum x)⟩
          simp only [modify, writeScores, pure_run]
          rw [get_put, if_pos hsc]
        | i32 l => exact fail r hr
        | other a b => exact fail r hr
        | labelsView => exact fail r hr
        | ragged a b => simp [Val.isTensor] at ht
        | num x => simp [Val.isTensor] at ht
      · rw [if_neg hsc, pure_run] at hr
        subst hr
        refine ⟨hw, rfl, Or.inr ⟨rfl, rfl, rfl, rfl, rfl, hvw⟩, fun e => absurd e hl,
          fun _ => ⟨rfl, rfl, ?_⟩, fun e => absurd e hsc, fun e => absurd e hsc⟩
        dsimp only
        rw [get_put, if_neg hsc]
  cases v with
  | num x =>
    dsimp only
    refine ⟨weak_non h hn x, rfl, Or.inr ⟨rfl, rfl, rfl, rfl, ?_, id⟩, fun _ e => by simp [Val.isTensor] at e,
      fun _ => ⟨rfl, rfl, rfl⟩, fun _ _ _ e => absurd rfl (e x), fun _ _ => ⟨rfl, rfl⟩⟩
    simp only [modify]
    rw [get_put, if_neg hn]
  | ragged a b =>
    dsimp only
    unfold setRagged
    rw [read_bind, check_bind]
    split
    swap
    · exact ⟨h, rfl, Or.inr (Same.refl s), fun _ _ h => by simp at h, fun _ => ⟨rfl, rfl, rfl⟩,
        fun _ h => by simp at h, fun _ ⟨x, e⟩ => by simp at e⟩
    · refine ⟨weak_tensor h hn _ (by simp) (by simp), rfl, Or.inr ⟨rfl, rfl, rfl, rfl, rfl, view_put (by simp)⟩,
        fun _ e => by simp [Val.isTensor] at e, fun hsc => ⟨rfl, rfl, ?_⟩,
        fun _ _ e => absurd rfl (e a b), fun _ ⟨x, e⟩ => by simp at e⟩
      simp only [modify]
      rw [get_put, if_neg hsc]
  | i32 l => exact tensor (.i32 l) rfl _ rfl
  | f32 l => exact tensor (.f32 l) rfl _ rfl
  | other a b => exact tensor (.other a b) rfl _ rfl
  | labelsView => exact tensor .labelsView rfl _ rfl
  | scoresView => exact tensor .scoresView rfl _ rfl

end Verif.Fsa.Cac
