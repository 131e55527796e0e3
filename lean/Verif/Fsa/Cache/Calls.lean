import Verif.Fsa.Cache.Object

/-! Every call keeps the invariant. -/

namespace Verif.Fsa.Cac
variable {T S R : Type} {o : Ops T S R} {D : Bool → Prop} {keep : Prop}

/-- The precision with which a query computes entering arcs. -/
def tropical (d : Bool) : Key → Option Bool
  | .enteringArcs => some d
  | .arcCdf d l | .forward d l | .tot d l | .arcPost d l => if l then none else some d
  | _ => none

/-- Calls that leave `labels_version` alone and obey `D` and `keep`. -/
def Clean (D : Bool → Prop) (keep : Prop) : Op S → Prop
  | .set n _ => n ≠ "labels_version"
  | .del n => n ≠ "labels_version" ∧ (keep → n ≠ "entering_arcs")
  | .query d k => ∀ d', tropical d k = some d' → D d'
  | .rename _ dst => dst = "labels" ∨ ¬ dst.toList <+: "labels_version".toList
  | .editScores _ => False
  | _ => True

/-- Calls that assign to `labels`. -/
def assignsLabels : Op S → Prop
  | .set n _ => n = "labels"
  | .rename _ dst => dst = "labels"
  | .invert => True
  | _ => False

/-- The queries, with the entering arcs. -/
theorem query_run {s : OS T S R} (h : Coh o D keep s) (d : Bool) (k : Key)
    (hD : ∀ d', tropical d k = some d' → D d') :
    Coh o D keep (query o d k s).2 ∧ Frame s (query o d k s).2 ∧
    (k ≠ .enteringArcs → (query o d k s).1 = fresh o s.2 k) ∧
    (k = .enteringArcs → ∀ v, (query o d k s).1 = some v → ∃ d', D d' ∧ freshEnt o s.2 d' = some v) ∧
    (k = .enteringArcs → keep → ∃ d', D d' ∧ (query o d k s).1 = freshEnt o s.2 d') := by
  have easy : ∀ (m : M (OS T S R) R), k ≠ .enteringArcs → Works o D keep m (fun m => fresh o m k) →
      Coh o D keep (m s).2 ∧ Frame s (m s).2 ∧
      (k ≠ .enteringArcs → (m s).1 = fresh o s.2 k) ∧
      (k = .enteringArcs → ∀ v, (m s).1 = some v → ∃ d', D d' ∧ freshEnt o s.2 d' = some v) ∧
      (k = .enteringArcs → keep → ∃ d', D d' ∧ (m s).1 = freshEnt o s.2 d') := by
    intro m hk hw
    obtain ⟨h1, h2, h3⟩ := hw s h
    exact ⟨h1, h2, fun _ => h3, fun e => absurd e hk, fun e => absurd e hk⟩
  cases k with
  | stateBatches => exact easy _ (by decide) works_stateBatches
  | destStates => exact easy _ (by decide) works_destStates
  | incomingArcs => exact easy _ (by decide) works_incomingArcs
  | enteringArcBatches => exact easy _ (by decide) works_enteringArcBatches
  | leavingArcBatches => exact easy _ (by decide) works_leavingArcBatches
  | arcCdf d l => exact easy _ (by simp) (works_arcCdf d l fun hl => hD d (by simp [tropical, hl]))
  | forward d l => exact easy _ (by simp) (works_forward d l fun hl => hD d (by simp [tropical, hl]))
  | tot d l => exact easy _ (by simp) (works_tot d l fun hl => hD d (by simp [tropical, hl]))
  | backward d l => exact easy _ (by simp) (works_backward d l)
  | arcPost d l => exact easy _ (by simp) (works_arcPost d l fun hl => hD d (by simp [tropical, hl]))
  | enteringArcs =>
    have hd : D d := hD d rfl
    simp only [query]
    unfold getEnteringArcs
    rw [read_bind]
    cases hg : get s.1.cache Key.enteringArcs.name with
    | some v =>
      obtain ⟨d', h1, h2⟩ := h.ent v hg
      exact ⟨h, Frame.refl s, fun e => absurd rfl e,
        fun _ w hw => ⟨d', h1, by rw [h2]; exact hw⟩, fun _ _ => ⟨d', h1, h2.symm⟩⟩
    | none =>
      dsimp only
      obtain ⟨h1, h2, h3⟩ := works_forward (keep := keep) d false (fun _ => hd) s h
      rw [bind_run]
      cases hc : getForwardScores o d false s with
      | mk r t =>
        rw [hc] at h1 h2 h3
        dsimp only at h1 h2 h3
        cases r with
        | none =>
          refine ⟨h1, h2, fun e => absurd rfl e, fun _ w hw => by simp at hw, fun _ _ => ⟨d, hd, ?_⟩⟩
          simp only [fresh] at h3
          unfold freshEnt
          cases hf : freshFwd o s.2 d false with
          | none => rfl
          | some x => rw [hf] at h3; simp at h3
        | some w =>
          dsimp only
          rw [read_bind]
          refine ⟨h1, h2, fun e => absurd rfl e, fun _ v hv => ?_, fun _ hk => ?_⟩
          · obtain ⟨d', a1, a2⟩ := h1.ent v hv
            exact ⟨d', a1, by rw [← h2.1]; exact a2⟩
          · have hs : ∃ v, get t.1.cache Key.enteringArcs.name = some v := by
              apply Option.isSome_iff_exists.1
              have hfw : ∃ v, get t.1.cache (Key.forward d false).name = some v := by
                -- the forward scores have been stored
                have := forward_stored (o := o) d false s
                rw [hc] at this
                exact this w rfl
              obtain ⟨v, hv⟩ := hfw
              exact h1.has hk d v hv
            obtain ⟨v, hv⟩ := hs
            obtain ⟨d', a1, a2⟩ := h1.ent v hv
            exact ⟨d', a1, by rw [← h2.1, a2]; exact hv⟩

/-! ### The other calls -/

/-- `fsa.scores` are the scores of the arcs. -/
def Sync (s : OS T S R) : Prop :=
  ∃ w, get s.1.tensorAttr "scores" = some w ∧ (w = .scoresView ∨ w = .f32 s.2.scores)

/-- Nothing happened to `fsa.scores`. -/
structure SameScores (s t : OS T S R) : Prop where
  scores : t.2.scores = s.2.scores
  attr : get t.1.tensorAttr "scores" = get s.1.tensorAttr "scores"

theorem SameScores.refl (s : OS T S R) : SameScores s s := ⟨rfl, rfl⟩
theorem SameScores.trans {s t u : OS T S R} (h1 : SameScores s t) (h2 : SameScores t u) : SameScores s u :=
  ⟨h2.scores.trans h1.scores, h2.attr.trans h1.attr⟩
theorem SameScores.sync {s t : OS T S R} (h : SameScores s t) (hs : Sync s) : Sync t := by
  obtain ⟨w, h1, h2⟩ := hs
  exact ⟨w, h.attr.trans h1, by rw [h.scores]; exact h2⟩

theorem delAttr_run {s : OS T S R} (h : Weak o D keep s) (n : String) (hn : n ≠ lv)
    (hk : keep → n ≠ "entering_arcs") :
    Weak o D keep (delAttr o n s).2 ∧ Same s (delAttr o n s).2 ∧ SameScores s (delAttr o n s).2 := by
  unfold delAttr
  rw [check_bind]
  split
  swap
  · exact ⟨h, Same.refl s, SameScores.refl s⟩
  rename_i hc
  have hsc : n ≠ "scores" := by
    simp only [Bool.and_eq_true, bne_iff_ne] at hc
    exact hc.2
  rw [read_bind]
  split
  · refine ⟨weak_tensor_del h n, ⟨rfl, rfl, rfl, rfl, rfl, view_del⟩, ⟨rfl, ?_⟩⟩
    simp only [modify]
    rw [get_del, if_neg (Ne.symm hsc)]
  · split
    · have e : ∀ k, k ≠ n → get (del s.1.nonTensor n) k = get s.1.nonTensor k := by
        intro k hk
        rw [get_del, if_neg hk]
      refine ⟨⟨coh_of_eq h.coh rfl rfl rfl, h.lvT, ?_, ?_, h.ten⟩, ⟨rfl, rfl, rfl, rfl, e _ (Ne.symm hn), id⟩, ⟨rfl, rfl⟩⟩
      · intro hv x hx
        simp only [modify] at hx
        rw [e _ (Ne.symm hn)] at hx
        exact h.lvN hv x hx
      · intro x hx
        exact h.num x (List.mem_filter.1 hx).1
    · split
      · refine ⟨⟨?_, h.lvT, h.lvN, h.num, h.ten⟩, ⟨rfl, rfl, rfl, rfl, rfl, id⟩, ⟨rfl, rfl⟩⟩
        refine coh_filter h.coh (fun x => decide (x ≠ n)) ?_
        intro hkeep d _
        exact decide_eq_true (Ne.symm (hk hkeep))
      · exact ⟨h, Same.refl s, SameScores.refl s⟩

theorem editLabels_run {s : OS T S R} (h : Weak o D keep s) (l : List Int) :
    Weak o D keep (editLabels l s).2 ∧ (editLabels l s).2.2.topo = s.2.topo ∧
    (PropsOk o s → PropsOk o (editLabels l s).2) ∧ SameScores s (editLabels l s).2 := by
  unfold editLabels
  rw [read_bind, check_bind]
  split
  swap
  · exact ⟨h, rfl, id, SameScores.refl s⟩
  rw [ofOption_bind]
  cases hv : labelsVersion s with
  | none => exact ⟨h, rfl, id, SameScores.refl s⟩
  | some v =>
    dsimp only
    have hview := version_view h hv
    refine ⟨⟨coh_of_eq h.coh rfl rfl rfl, h.lvT, ?_, h.num, h.ten⟩, rfl, ?_, ⟨rfl, rfl⟩⟩
    · intro _ x hx
      have := h.lvN hview x hx
      show x ≤ s.1.ver + 1
      omega
    · intro _ p _ hx _
      have := h.lvN hview (s.1.ver + 1) hx
      omega

/-! ### Renaming -/

theorem rename_mem {src dst : String} {d : Dict (Val S)} {x : String × Val S}
    (h : x ∈ (renameMoves src dst d).foldl renameStep (renameKeep src dst d)) : ∃ n, (n, x.2) ∈ d := by
  have go : ∀ (l : List (String × String × Val S)) (e : Dict (Val S)), (∀ y ∈ l, ∃ n, (n, y.2.2) ∈ d) →
      (∀ y ∈ e, ∃ n, (n, y.2) ∈ d) → ∀ y ∈ l.foldl renameStep e, ∃ n, (n, y.2) ∈ d := by
    intro l
    induction l with
    | nil => intro e _ he; exact he
    | cons a t ih =>
      intro e hl he
      refine ih _ (fun y hy => hl y (List.mem_cons_of_mem _ hy)) ?_
      intro y hy
      rcases mem_put (List.mem_filter.1 hy).1 with rfl | hy
      · exact hl a List.mem_cons_self
      · exact he y hy
  refine go _ _ ?_ ?_ x h
  · intro y hy
    obtain ⟨z, hz, rfl⟩ := List.mem_map.1 hy
    exact ⟨z.1, (List.mem_filter.1 hz).1⟩
  · intro y hy
    exact ⟨y.1, (List.mem_filter.1 hy).1⟩

theorem rename_lv {src dst : String} {d : Dict (Val S)} (hd : ¬ dst.toList <+: lv.toList) :
    get ((renameMoves src dst d).foldl renameStep (renameKeep src dst d)) lv = get d lv := by
  have go : ∀ (l : List (String × String × Val S)) (e : Dict (Val S)), (∀ y ∈ l, y.1 ≠ lv ∧ y.2.1 ≠ lv) →
      get (l.foldl renameStep e) lv = get e lv := by
    intro l
    induction l with
    | nil => intro e _; rfl
    | cons a t ih =>
      intro e hl
      rw [List.foldl_cons, ih _ (fun y hy => hl y (List.mem_cons_of_mem _ hy))]
      unfold renameStep
      obtain ⟨h1, h2⟩ := hl a List.mem_cons_self
      rw [get_del, if_neg (Ne.symm h1), get_put, if_neg h2]
  rw [go]
  · unfold renameKeep
    rw [get_filter d (fun x => (src.toList.isPrefixOf x.toList && x != "labels_version") ||
      !dst.toList.isPrefixOf x.toList), if_pos]
    have : dst.toList.isPrefixOf lv.toList = false := by
      rw [Bool.eq_false_iff]
      intro e
      exact hd (List.isPrefixOf_iff_prefix.1 e)
    rw [this]
    simp
  · intro y hy
    obtain ⟨z, hz, rfl⟩ := List.mem_map.1 hy
    have hz2 := (List.mem_filter.1 hz).2
    simp only [Bool.and_eq_true, bne_iff_ne] at hz2
    refine ⟨hz2.2, fun e => hd ?_⟩
    dsimp only at e
    rw [← e, String.toList_ofList]
    exact List.prefix_append _ _

theorem get_renameDel_view {src : String} {d : Dict (Val S)} (h : get (renameDel src d) "labels" = some .labelsView) :
    get d "labels" = some .labelsView := by
  unfold renameDel at h
  split at h
  · rw [get_del] at h
    split at h
    · simp at h
    · exact h
  · exact h

theorem get_renameDel_keep (src : String) (d : Dict (Val S)) :
    get (renameDel src d) "labels" = get d "labels" ∧ get (renameDel src d) "scores" = get d "scores" := by
  unfold renameDel
  split
  · rename_i h
    rw [get_del, get_del, if_neg (Ne.symm h.2), if_neg (Ne.symm h.1)]
    exact ⟨rfl, rfl⟩
  · exact ⟨rfl, rfl⟩

theorem rename_run {s : OS T S R} (h : Weak o D keep s) (src dst : String)
    (hd : dst = "labels" ∨ ¬ dst.toList <+: lv.toList) :
    Weak o D keep (rename o src dst s).2 ∧ (rename o src dst s).2.2.topo = s.2.topo ∧
    (dst ≠ "labels" → Same s (rename o src dst s).2) ∧
    (dst = "labels" → (rename o src dst s).1.isSome → PropsNew o (rename o src dst s).2) ∧
    (dst ≠ "scores" → SameScores s (rename o src dst s).2) := by
  have early : ∀ r : Option Unit × OS T S R, r = (none, s) →
      Weak o D keep r.2 ∧ r.2.2.topo = s.2.topo ∧ (dst ≠ "labels" → Same s r.2) ∧
      (dst = "labels" → r.1.isSome → PropsNew o r.2) ∧ (dst ≠ "scores" → SameScores s r.2) := by
    rintro _ rfl
    exact ⟨h, rfl, fun _ => Same.refl s, fun _ e => by simp at e, fun _ => SameScores.refl s⟩
  have hdl : dst ≠ lv := by
    rcases hd with rfl | hd
    · decide
    · rintro rfl
      exact hd (List.prefix_refl _)
  unfold rename
  rw [check_bind]
  split
  swap
  · exact early _ rfl
  rename_i hne
  have hne : src ≠ dst := by simpa using hne
  rw [read_bind, check_bind]
  split
  swap
  · exact early _ rfl
  rename_i hin
  rw [ofOption_bind]
  cases hv : attr s src with
  | none => exact early _ rfl
  | some v =>
    dsimp only
    generalize hw : (if src = "labels" then cloneVal s v else v) = w
    have hnn : dst = "labels" → ∀ x, w ≠ .num x := by
      intro hdst x hx
      have hs : src ≠ "labels" := fun e => hne (e.trans hdst.symm)
      rw [if_neg hs] at hw
      subst hw hx
      unfold attr at hv
      cases hg : get s.1.tensorAttr src with
      | none => rw [hg] at hin; simp [hs] at hin
      | some u =>
        rw [hg] at hv
        have e : u = .num x := by simpa using hv
        exact h.ten _ (get_mem hg) x e
    obtain ⟨a1, a2, a3, a4, a5, _, _⟩ := setAttr_run h dst hdl w
    rw [bind_run]
    -- a ragged value replaces the view
    have hrag : dst = "labels" → (∃ a b, w = .ragged a b) → (setAttr o dst w s).1.isSome →
        ¬ IsView (setAttr o dst w s).2 := by
      rintro hdst ⟨a, b, rfl⟩ hsome hview
      subst hdst
      unfold setAttr at hsome hview
      rw [check_bind, if_pos (by decide)] at hsome hview
      dsimp only at hsome hview
      unfold setRagged at hsome hview
      rw [read_bind, check_bind] at hsome hview
      split at hsome
      · rename_i hc
        rw [if_pos hc] at hview
        unfold IsView at hview
        simp only [modify] at hview
        rw [get_put, if_pos rfl] at hview
        simp at hview
      · simp at hsome
    cases hset : setAttr o dst w s with
    | mk r t =>
      rw [hset] at a1 a2 a3 a4 a5 hrag
      dsimp only at a1 a2 a3 a4 a5 hrag
      cases r with
      | none =>
        exact ⟨a1, a2, fun hl => (a3.resolve_left fun e => hl e.1), fun _ e => by simp at e,
          fun hsc => ⟨(a5 hsc).1, (a5 hsc).2.2⟩⟩
      | some u =>
        dsimp only
        rw [modify_bind, modify_bind]
        obtain ⟨k1, k2⟩ := get_renameDel_keep src t.1.tensorAttr
        generalize hN : (renameMoves src dst t.1.nonTensor).foldl renameStep (renameKeep src dst t.1.nonTensor) = N
        have hnum : ∀ x ∈ N, ∃ n, x.2 = Val.num n := by
          intro x hx
          rw [← hN] at hx
          obtain ⟨n, hn⟩ := rename_mem hx
          exact a1.num (n, x.2) hn
        have hlvT : get (renameDel src t.1.tensorAttr) lv = none := by
          unfold renameDel
          split
          · rw [get_del]; split <;> first | rfl | exact a1.lvT
          · exact a1.lvT
        have hten : ∀ x ∈ renameDel src t.1.tensorAttr, ∀ n, x.2 ≠ Val.num n := by
          unfold renameDel
          split
          · intro x hx
            exact a1.ten x (List.mem_filter.1 hx).1
          · exact a1.ten
        unfold renameVersion
        dsimp only
        by_cases hl : dst = "labels"
        · rw [if_pos hl]
          cases hlab : labelsVersion (({ t.1 with tensorAttr := renameDel src t.1.tensorAttr, nonTensor := N }, t.2) : OS T S R) with
          | none =>
            refine ⟨⟨coh_of_eq a1.coh rfl rfl rfl, hlvT, ?_, hnum, hten⟩, a2, fun e => absurd hl e,
              fun _ e => by simp at e, fun hsc => ⟨(a5 hsc).1, k2.trans (a5 hsc).2.2⟩⟩
            intro hview
            rw [view_version hview] at hlab
            simp at hlab
          | some x =>
            have hx := labelsVersion_eq hlab
            dsimp only at hx
            refine ⟨⟨coh_of_eq a1.coh rfl rfl rfl, hlvT, ?_, ?_, hten⟩, a2, fun e => absurd hl e, ?_,
              fun hsc => ⟨(a5 hsc).1, k2.trans (a5 hsc).2.2⟩⟩
            · intro _ y hy
              simp only [setLabelsVersion, modify] at hy ⊢
              rw [get_put, if_pos rfl] at hy
              injection Option.some.inj hy with e
              omega
            · intro y hy
              simp only [setLabelsVersion, modify] at hy
              rcases mem_put hy with rfl | hy
              · exact ⟨x, rfl⟩
              · exact hnum y hy
            · intro _ _
              have hview : IsView t := by
                unfold labelsVersion at hlab
                split at hlab
                · rename_i ha
                  unfold attr at ha
                  dsimp only at ha
                  rw [k1] at ha
                  unfold IsView
                  cases hg : get t.1.tensorAttr "labels" with
                  | some w => rw [hg] at ha; exact ha
                  | none =>
                    rw [hg] at ha
                    obtain ⟨n, hn⟩ := hnum _ (get_mem ha)
                    simp at hn
                · simp at hlab
              have hten : w.isTensor = true := by
                cases hwc : w with
                | num x => exact absurd hwc (hnn hl x)
                | ragged a b => exact absurd hview (hrag hl ⟨a, b, hwc⟩ rfl)
                | _ => rfl
              exact (a4 hl hten rfl).1
        · rw [if_neg hl]
          have hsame := a3.resolve_left fun e => hl e.1
          have hlvN : get N lv = get t.1.nonTensor lv := by
            rw [← hN]
            exact rename_lv (hd.resolve_left hl)
          refine ⟨⟨coh_of_eq a1.coh rfl rfl rfl, hlvT, ?_, hnum, hten⟩, a2, fun _ => hsame.trans
            ⟨rfl, rfl, rfl, rfl, hlvN, fun hv => get_renameDel_view hv⟩, fun e => absurd e hl,
            fun hsc => ⟨(a5 hsc).1, k2.trans (a5 hsc).2.2⟩⟩
          intro hview y hy
          dsimp only at hy
          rw [hlvN] at hy
          exact a1.lvN (get_renameDel_view hview) y hy

theorem invert_run {s : OS T S R} (h : Weak o D keep s) :
    Weak o D keep (invert o s).2 ∧ (invert o s).2.2.topo = s.2.topo ∧
    ((invert o s).1.isSome → PropsNew o (invert o s).2) ∧ SameScores s (invert o s).2 := by
  have early : ∀ t : OS T S R, Weak o D keep t → t.2.topo = s.2.topo → SameScores s t →
      ∀ r : Option Unit × OS T S R, r = (none, t) →
      Weak o D keep r.2 ∧ r.2.2.topo = s.2.topo ∧ (r.1.isSome → PropsNew o r.2) ∧ SameScores s r.2 := by
    rintro t h1 h2 h3 _ rfl
    exact ⟨h1, h2, fun e => by simp at e, h3⟩
  unfold invert
  rw [read_bind, ofOption_bind]
  cases attr s "aux_labels" with
  | none => exact early s h rfl (SameScores.refl s) _ rfl
  | some v =>
    dsimp only
    rw [check_bind]
    split
    swap
    · exact early s h rfl (SameScores.refl s) _ rfl
    rw [bind_run]
    obtain ⟨a1, a2, _, _, a5⟩ := rename_run h "labels" "__temp" (Or.inr (by decide))
    cases hr1 : rename o "labels" "__temp" s with
    | mk r1 s1 =>
      rw [hr1] at a1 a2 a5
      dsimp only at a1 a2 a5
      have e1 := a5 (by decide)
      cases r1 with
      | none => exact early s1 a1 a2 e1 _ rfl
      | some _ =>
        dsimp only
        rw [bind_run]
        obtain ⟨b1, b2, _, _, b5⟩ := rename_run a1 "aux_labels" "labels" (Or.inl rfl)
        cases hr2 : rename o "aux_labels" "labels" s1 with
        | mk r2 s2 =>
          rw [hr2] at b1 b2 b5
          dsimp only at b1 b2 b5
          have e2 := e1.trans (b5 (by decide))
          have t2 := b2.trans a2
          cases r2 with
          | none => exact early s2 b1 t2 e2 _ rfl
          | some _ =>
            dsimp only
            rw [bind_run]
            obtain ⟨c1, c2, _, _, c5⟩ := rename_run b1 "__temp" "aux_labels" (Or.inr (by decide))
            cases hr3 : rename o "__temp" "aux_labels" s2 with
            | mk r3 s3 =>
              rw [hr3] at c1 c2 c5
              dsimp only at c1 c2 c5
              have e3 := e2.trans (c5 (by decide))
              have t3 := c2.trans t2
              cases r3 with
              | none => exact early s3 c1 t3 e3 _ rfl
              | some _ =>
                dsimp only
                rw [bind_run]
                have hf : Weak o D keep (fixFinal o s3).2 ∧ (fixFinal o s3).2.2.topo = s.2.topo ∧
                    SameScores s (fixFinal o s3).2 :=
                  ⟨weak_labels c1 _, t3, e3.trans ⟨rfl, rfl⟩⟩
                cases hr4 : fixFinal o s3 with
                | mk r4 s4 =>
                  rw [hr4] at hf
                  obtain ⟨d1, d2, d3⟩ := hf
                  cases r4 with
                  | none => exact early s4 d1 d2 d3 _ rfl
                  | some _ =>
                    dsimp only
                    rw [modify_bind, bind_run]
                    obtain ⟨f1, f2, f3, _, _, _, f7, _⟩ := properties_run (weak_props d1 none)
                    generalize hq : properties o ({ s4.1 with props := none }, s4.2) = q at f1 f2 f3 f7
                    obtain ⟨x, s5⟩ := q
                    dsimp only at f1 f2 f3 f7
                    have e5 : SameScores s s5 := d3.trans ⟨by rw [f2], by rw [f3]⟩
                    have t5 : s5.2.topo = s.2.topo := by rw [f2]; exact d2
                    cases x with
                    | none => exact early s5 f1 t5 e5 _ rfl
                    | some _ => exact ⟨f1, t5, fun _ => f7 rfl, e5⟩

/-! ### All calls -/

/-- An assignment to `scores` raised or stored something else. -/
def ScoresFine (op : Op S) (r : Option (Res S R)) : Prop :=
  (∀ v, op = .set "scores" v → r.isSome ∧ ∀ a b, v ≠ .ragged a b) ∧ ∀ a, op ≠ .rename a "scores"

theorem bind_unit {σ : Type} (m : M σ Unit) (a : Res S R) (s : σ) :
    ((do m; pure a) : M σ (Res S R)) s = ((m s).1.map fun _ => a, (m s).2) := by
  rw [bind_run]
  cases m s with
  | mk r t => cases r <;> rfl

theorem run_keeps {s : OS T S R} (h : Weak o D keep s) (op : Op S) (hc : Clean D keep op) :
    Weak o D keep (run o op s).2 ∧ (run o op s).2.2.topo = s.2.topo ∧
    (PropsOk o s → (assignsLabels op → (run o op s).1.isSome) → PropsOk o (run o op s).2) ∧
    (Sync s → ScoresFine op (run o op s).1 → Sync (run o op s).2) := by
  cases op with
  | set n v =>
    obtain ⟨a1, a2, a3, a4, a5, a6, a7⟩ := setAttr_run h n hc v
    simp only [run, bind_unit, Option.isSome_map]
    refine ⟨a1, a2, fun hp hs => ?_, fun hsy hf => ?_⟩
    · rcases a3 with ⟨hl, hv⟩ | hsame
      · exact (a4 hl hv (hs hl)).1.ok
      · exact hsame.ok hp
    · by_cases hn : n = "scores"
      · subst hn
        obtain ⟨f1, f2⟩ := hf.1 v rfl
        cases hv : v with
        | num x =>
          obtain ⟨b1, b2⟩ := a7 rfl ⟨x, hv⟩
          rw [hv] at b1 b2
          exact SameScores.sync ⟨b1, b2⟩ hsy
        | _ =>
          rw [← hv]
          exact a6 rfl (by simpa using f1) f2 (by rw [hv]; simp)
      · exact SameScores.sync ⟨(a5 hn).1, (a5 hn).2.2⟩ hsy
  | del n =>
    obtain ⟨a1, a2, a3⟩ := delAttr_run h n hc.1 hc.2
    simp only [run, bind_unit]
    exact ⟨a1, a2.topo, fun hp _ => a2.ok hp, fun hs _ => a3.sync hs⟩
  | query d k =>
    obtain ⟨a1, a2, _⟩ := query_run h.coh d k hc
    have e : (run o (.query d k) s).2 = (query o d k s).2 := by
      simp only [run]
      rw [bind_run]
      cases query o d k s with
      | mk r t => cases r <;> rfl
    rw [e]
    obtain ⟨b1, b2, b3, b4, b5⟩ := a2
    have hv : IsView (query o d k s).2 → IsView s := by
      unfold IsView
      rw [b3]
      exact id
    refine ⟨⟨a1, by rw [b3]; exact h.lvT, fun hview => by rw [b4, b2]; exact h.lvN (hv hview), by rw [b4]; exact h.num,
      by rw [b3]; exact h.ten⟩, by rw [b1], fun hp _ => Same.ok ⟨by rw [b1], by rw [b1], b2, b5, by rw [b4], hv⟩ hp,
      fun hs _ => SameScores.sync ⟨by rw [b1], by rw [b3]⟩ hs⟩
  | props =>
    obtain ⟨a1, a2, a3, _, _, a6, _⟩ := properties_run h
    have e : (run o .props s).2 = (properties o s).2 := by
      simp only [run]
      rw [bind_run]
      cases properties o s with
      | mk r t => cases r <;> rfl
    rw [e]
    exact ⟨a1, by rw [a2], fun hp _ => a6 hp, fun hs _ => SameScores.sync ⟨by rw [a2], by rw [a3]⟩ hs⟩
  | attr n =>
    simp only [run]
    rw [read_bind]
    exact ⟨h, rfl, fun hp _ => hp, fun hs _ => hs⟩
  | edit l =>
    obtain ⟨a1, a2, a3, a4⟩ := editLabels_run h l
    simp only [run, bind_unit]
    exact ⟨a1, a2, fun hp _ => a3 hp, fun hs _ => a4.sync hs⟩
  | editScores l => exact hc.elim
  | rename a b =>
    obtain ⟨a1, a2, a3, a4, a5⟩ := rename_run h a b hc
    simp only [run, bind_unit, Option.isSome_map]
    refine ⟨a1, a2, fun hp hs => ?_, fun hs hf => ?_⟩
    · by_cases hb : b = "labels"
      · exact (a4 hb (hs hb)).ok
      · exact (a3 hb).ok hp
    · exact (a5 (fun e => hf.2 a (by rw [e]))).sync hs
  | invert =>
    obtain ⟨a1, a2, a3, a4⟩ := invert_run h
    simp only [run, bind_unit, Option.isSome_map]
    exact ⟨a1, a2, fun _ hs => (a3 (hs trivial)).ok, fun hs _ => a4.sync hs⟩

end Verif.Fsa.Cac
