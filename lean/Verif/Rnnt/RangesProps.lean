import Verif.Rnnt.RangesLemmas

/-!
# C44: pruning ranges always leave a complete alignment

`InR rows Tb t s`: symbol position `s` is kept at frame `t < Tb`.
`ReachReg` / `ReachMod` / `ReachCon`: the positions an alignment can reach if every joiner
output it uses lies inside the ranges, for the three RNN-T types (rnnt_loss.py 1228-1244:
a regular symbol stays on the frame; a modified one moves on; a constrained one moves on and
also uses the blank of the next context on the same frame).
-/

namespace Verif.Rnnt

/-! ## Specification -/

def InR (rows : List (List Int)) (Tb t : Nat) (s : Int) : Prop :=
  t < Tb ∧ ∃ row, rows[t]? = some row ∧ s ∈ row

inductive ReachReg (R : Nat → Int → Prop) : Int → Nat → Prop
  | start : ReachReg R 0 0
  | blank {s t} : ReachReg R s t → R t s → ReachReg R s (t + 1)
  | symbol {s t} : ReachReg R s t → R t s → ReachReg R (s + 1) t

inductive ReachMod (R : Nat → Int → Prop) : Int → Nat → Prop
  | start : ReachMod R 0 0
  | blank {s t} : ReachMod R s t → R t s → ReachMod R s (t + 1)
  | symbol {s t} : ReachMod R s t → R t s → ReachMod R (s + 1) (t + 1)

inductive ReachCon (R : Nat → Int → Prop) : Int → Nat → Prop
  | start : ReachCon R 0 0
  | blank {s t} : ReachCon R s t → R t s → ReachCon R s (t + 1)
  | symbol {s t} : ReachCon R s t → R t s → R t (s + 1) → ReachCon R (s + 1) (t + 1)

/-- The documented shape of the ranges of one sequence: `T` rows of `r` consecutive symbol
positions; the first starts at 0; starts never decrease and never grow by more than `step`;
all positions are within `0..S`. -/
def GoodRanges (rows : List (List Int)) (T S : Nat) (r step : Int) (s : Nat → Int) : Prop :=
  rows.length = T ∧
  (∀ t, t < T → rows[t]? = some ((List.range r.toNat).map fun (k : Nat) => s t + (k : Int))) ∧
  (0 < T → s 0 = 0) ∧
  (∀ t, t + 1 < T → s t ≤ s (t + 1) ∧ s (t + 1) ≤ s t + step) ∧
  (∀ t, t < T → 0 ≤ s t ∧ s t + (r - 1) ≤ S)

/-! ## Proofs -/

theorem initialSBegin_getD (T : Nat) (r : Int) (Sb Tb : Nat) (am : Nat → Int) (t : Nat)
    (h : t < T) : (initialSBegin T r Sb Tb am).getD t 0 =
      if (t : Int) < (Tb : Int) - 1 then am t else max ((Sb : Int) - r + 1) 0 := by
  simp [initialSBegin, h]

/-- One row of the batch, in full detail. -/
theorem row_spec (regular : Bool) (S T : Nat) (r : Int) (Sb Tb : Nat) (am : Nat → Int)
    (hr1 : 1 ≤ r) (hrS : r ≤ S + 1) (hSb : Sb ≤ S) (hTb : 1 ≤ Tb) (hT : Tb ≤ T)
    (ham : ∀ t, 0 ≤ am t) :
    let step := if regular then r else 2
    ∃ s : Nat → Int,
      GoodRanges ((adjustLowerBound (initialSBegin T r Sb Tb am) step).map
        fun s => (List.range r.toNat).map fun (k : Nat) => s + (k : Int)) T S r (step - 1) s ∧
      s (Tb - 1) = min ((step - 1) * ((Tb - 1 : Nat) : Int)) (max ((Sb : Int) - r + 1) 0) := by
  intro step
  have hlen : (initialSBegin T r Sb Tb am).length = T := by simp [initialSBegin]
  have hstep : 1 ≤ step := by simp only [step]; split <;> omega
  obtain ⟨m, z, hm, hz, hs⟩ := adjust_spec (initialSBegin T r Sb Tb am) step
  rw [hlen] at hm hz hs
  have hx : ∀ i, i < T → 0 ≤ (initialSBegin T r Sb Tb am).getD i 0 := by
    intro i hi
    rw [initialSBegin_getD _ _ _ _ _ _ hi]
    split
    · exact ham i
    · omega
  have hx' : ∀ i, Tb - 1 ≤ i → i < T →
      (initialSBegin T r Sb Tb am).getD i 0 = max ((Sb : Int) - r + 1) 0 := by
    intro i hi hiT
    rw [initialSBegin_getD _ _ _ _ _ _ hiT, if_neg (by omega)]
  refine ⟨fun t => (adjustLowerBound (initialSBegin T r Sb Tb am) step).getD t 0,
    ⟨by simp [adjust_length, hlen], ?_, ?_, ?_, ?_⟩, ?_⟩
  · intro t ht
    have ht' : t < (adjustLowerBound (initialSBegin T r Sb Tb am) step).length := by
      rw [adjust_length, hlen]; exact ht
    simp [List.getElem?_eq_getElem ht']
  · intro h0
    exact adj_zero hs hm hz hx h0
  · intro t ht
    exact adj_step hs hm hz hstep ht
  · intro t ht
    refine ⟨adj_nonneg hs hm hz hstep hx ht, ?_⟩
    have := adj_le hs hm hz hstep ht
    rw [hx' (T - 1) (by omega) (by omega)] at this
    simp only at this ⊢
    omega
  · exact adj_const hs hm hz hstep hx' (Nat.le_refl _) (by omega)

theorem mem_row {r a v : Int} :
    v ∈ ((List.range r.toNat).map fun (k : Nat) => a + (k : Int)) ↔ a ≤ v ∧ v < a + r := by
  simp only [List.mem_map, List.mem_range]
  constructor
  · rintro ⟨k, hk, rfl⟩; omega
  · rintro ⟨h1, h2⟩; exact ⟨(v - a).toNat, by omega, by omega⟩

theorem GoodRanges.inR {rows : List (List Int)} {T S : Nat} {r step : Int} {s : Nat → Int}
    (h : GoodRanges rows T S r step s) {Tb t : Nat} (hT : Tb ≤ T) (ht : t < Tb) {v : Int}
    (h1 : s t ≤ v) (h2 : v ≤ s t + (r - 1)) : InR rows Tb t v :=
  ⟨ht, _, h.2.1 t (by omega), mem_row.mpr ⟨h1, by omega⟩⟩

/-- Climb within a frame. -/
theorem reach_climb {R : Nat → Int → Prop} {t : Nat} (a : Int) (k : Nat)
    (h : ReachReg R a t) (hR : ∀ v, a ≤ v → v < a + k → R t v) : ReachReg R (a + k) t := by
  induction k with
  | zero => simpa using h
  | succ k ih =>
    have h1 := ih (fun v h1 h2 => hR v h1 (by omega))
    have := ReachReg.symbol h1 (hR (a + k) (by omega) (by omega))
    rw [show a + ((k + 1 : Nat) : Int) = a + (k : Int) + 1 by omega]
    exact this

/-- Frame by frame: reach `(s t, t)`, then climb to the start of the next frame. -/
theorem reg_alignment {rows : List (List Int)} {T S : Nat} {r : Int} {s : Nat → Int}
    (hg : GoodRanges rows T S r (r - 1) s) (h2r : 2 ≤ r) {Sb Tb : Nat} (hTb : 1 ≤ Tb)
    (hbT : Tb ≤ T) (hle : (Sb : Int) ≤ (r - 1) * Tb)
    (hlast : s (Tb - 1) = min ((r - 1) * ((Tb - 1 : Nat) : Int)) (max ((Sb : Int) - r + 1) 0)) :
    ReachReg (InR rows Tb) Sb Tb := by
  -- s (Tb - 1) is the padding value
  have hp : s (Tb - 1) = max ((Sb : Int) - r + 1) 0 := by
    rw [hlast]
    have e : (r - 1) * (Tb : Int) = (r - 1) * ((Tb - 1 : Nat) : Int) + (r - 1) := by
      rw [show (Tb : Int) = ((Tb - 1 : Nat) : Int) + 1 by omega, Int.mul_add, Int.mul_one]
    have hnn : 0 ≤ (r - 1) * ((Tb - 1 : Nat) : Int) := Int.mul_nonneg (by omega) (by omega)
    omega
  -- reach (s t, t)
  have hreach : ∀ t, t < Tb → ReachReg (InR rows Tb) (s t) t := by
    intro t
    induction t with
    | zero =>
      intro ht
      rw [hg.2.2.1 (by omega)]
      exact .start
    | succ t ih =>
      intro ht
      obtain ⟨h1, h2⟩ := hg.2.2.2.1 t (by omega)
      have hc := reach_climb (s t) (s (t + 1) - s t).toNat (ih (by omega))
        (fun v hv1 hv2 => hg.inR hbT (by omega : t < Tb) hv1 (by omega))
      rw [show s t + ((s (t + 1) - s t).toNat : Int) = s (t + 1) by omega] at hc
      exact .blank hc (hg.inR hbT (by omega : t < Tb) h1 h2)
  have hfin := hreach (Tb - 1) (by omega)
  have hc := reach_climb (s (Tb - 1)) ((Sb : Int) - s (Tb - 1)).toNat hfin
    (fun v hv1 hv2 => hg.inR hbT (by omega : Tb - 1 < Tb) hv1 (by omega))
  rw [show s (Tb - 1) + (((Sb : Int) - s (Tb - 1)).toNat : Int) = Sb by omega] at hc
  have := ReachReg.blank hc (hg.inR hbT (by omega : Tb - 1 < Tb) (by omega) (by omega))
  rw [show Tb - 1 + 1 = Tb by omega] at this
  exact this

/-- Main theorem, regular RNN-T. -/
theorem pruneRanges_regular (S T : Nat) (bd : List (Nat × Nat)) (sRange : Int)
    (am : Nat → Nat → Int) (out : List (List (List Int)))
    (h : pruneRanges true S T bd sRange am = .ok out)
    (hbd : ∀ b ∈ bd, b.1 ≤ S ∧ b.2 ≤ T) (ham : ∀ b t, 0 ≤ am b t) :
    out.length = bd.length ∧
    ∃ r : Int, 2 ≤ r ∧ r ≤ S + 1 ∧
    ∀ b (hb : b < bd.length), ∃ rows, out[b]? = some rows ∧
      (∃ s, GoodRanges rows T S r (r - 1) s) ∧
      ReachReg (InR rows bd[b].2) bd[b].1 bd[b].2 := by
  simp only [pruneRanges] at h
  cases hf : finalSRange true S bd sRange with
  | error e => simp [hf] at h
  | ok r =>
    simp only [hf, Except.ok.injEq] at h
    subst h
    obtain ⟨hrS, hrok, _, hreg⟩ := finalSRange_ok hf
    have h2r : 2 ≤ r := by simpa [sRangeOk] using hrok
    refine ⟨by simp, r, h2r, hrS, ?_⟩
    intro b hb
    have hmem : bd[b] ∈ bd := List.getElem_mem hb
    obtain ⟨hbS, hbT⟩ := hbd _ hmem
    obtain ⟨hb2, hle⟩ := hreg rfl _ hmem
    have hle := hle hbS
    obtain ⟨s, hg, hlast⟩ := row_spec true S T r bd[b].1 bd[b].2 (am b) (by omega) hrS hbS hb2
      hbT (ham b)
    simp only [if_true] at hg hlast
    refine ⟨_, by simp [List.getElem?_eq_getElem hb], ⟨s, hg⟩, ?_⟩
    exact reg_alignment hg h2r hb2 hbT hle hlast

/-- The alignment used for modified and constrained RNN-T. -/
theorem mod_alignment {rows : List (List Int)} {T S : Nat} {r : Int} {s : Nat → Int}
    (hg : GoodRanges rows T S r 1 s) (hr : 1 ≤ r) {Sb Tb : Nat} (hST : Sb ≤ Tb) (hTb : 1 ≤ Tb)
    (hT : Tb ≤ T) (hlast : s (Tb - 1) = min ((Tb - 1 : Nat) : Int) (max ((Sb : Int) - r + 1) 0)) :
    ∃ u : Nat → Int, u 0 = 0 ∧ u Tb = Sb ∧
      ∀ t, t < Tb → (s t ≤ u t ∧ u t ≤ s t + (r - 1)) ∧
        (u (t + 1) = u t ∨ (u (t + 1) = u t + 1 ∧ (2 ≤ r → u t + 1 ≤ s t + (r - 1)))) := by
  -- lower bound on s t from the step condition
  have hlow : ∀ k, k < Tb → s (Tb - 1) - (k : Int) ≤ s (Tb - 1 - k) := by
    intro k
    induction k with
    | zero => intro _; simp
    | succ k ih =>
      intro hk
      have h1 := ih (by omega)
      have h2 := (hg.2.2.2.1 (Tb - 1 - (k + 1)) (by omega)).2
      rw [show Tb - 1 - (k + 1) + 1 = Tb - 1 - k by omega] at h2
      omega
  have hlow' : ∀ t, t < Tb → s (Tb - 1) - ((Tb - 1 : Nat) : Int) + (t : Int) ≤ s t := by
    intro t ht
    have := hlow (Tb - 1 - t) (by omega)
    rw [show Tb - 1 - (Tb - 1 - t) = t by omega] at this
    omega
  refine ⟨fun t => if t < Tb then max (s t) ((Sb : Int) - Tb + t) else Sb, ?_, ?_, ?_⟩
  · have := hg.2.2.1 (by omega)
    simp only [show 0 < Tb by omega, if_true, this]
    omega
  · simp
  · intro t ht
    have hl := hlow' t ht
    have h0 := (hg.2.2.2.2 t (by omega)).1
    simp only [ht, if_true]
    refine ⟨by omega, ?_⟩
    by_cases ht1 : t + 1 < Tb
    · obtain ⟨h1, h2⟩ := hg.2.2.2.1 t (by omega)
      simp only [ht1, if_true]
      omega
    · have : t = Tb - 1 := by omega
      subst this
      simp only [ht1, if_false]
      omega

theorem mod_reach {rows : List (List Int)} {T S : Nat} {r : Int} {s : Nat → Int}
    (hg : GoodRanges rows T S r 1 s) (h1r : 1 ≤ r) {Sb Tb : Nat} (hST : Sb ≤ Tb) (hTb : 1 ≤ Tb)
    (hbT : Tb ≤ T) (hlast : s (Tb - 1) = min ((Tb - 1 : Nat) : Int) (max ((Sb : Int) - r + 1) 0)) :
    ReachMod (InR rows Tb) Sb Tb ∧ (2 ≤ r → ReachCon (InR rows Tb) Sb Tb) := by
  obtain ⟨u, hu0, huT, hu⟩ := mod_alignment hg h1r hST hTb hbT hlast
  constructor
  · have : ∀ t, t ≤ Tb → ReachMod (InR rows Tb) (u t) t := by
      intro t
      induction t with
      | zero => intro _; rw [hu0]; exact .start
      | succ t ih =>
        intro ht
        have h1 := ih (by omega)
        obtain ⟨⟨ha, hb⟩, hc⟩ := hu t (by omega)
        have hin := hg.inR hbT (by omega : t < Tb) ha hb
        rcases hc with hc | ⟨hc, _⟩
        · rw [hc]; exact .blank h1 hin
        · rw [hc]; exact .symbol h1 hin
    have := this Tb (Nat.le_refl _)
    rwa [huT] at this
  · intro h2
    have : ∀ t, t ≤ Tb → ReachCon (InR rows Tb) (u t) t := by
      intro t
      induction t with
      | zero => intro _; rw [hu0]; exact .start
      | succ t ih =>
        intro ht
        have h1 := ih (by omega)
        obtain ⟨⟨ha, hb⟩, hc⟩ := hu t (by omega)
        have hin := hg.inR hbT (by omega : t < Tb) ha hb
        rcases hc with hc | ⟨hc, hd⟩
        · rw [hc]; exact .blank h1 hin
        · rw [hc]
          exact .symbol h1 hin (hg.inR hbT (by omega : t < Tb) (by omega) (hd h2))
    have := this Tb (Nat.le_refl _)
    rwa [huT] at this

/-- Main theorem, modified RNN-T. -/
theorem pruneRanges_modified (S T : Nat) (bd : List (Nat × Nat)) (sRange : Int)
    (am : Nat → Nat → Int) (out : List (List (List Int)))
    (h : pruneRanges false S T bd sRange am = .ok out)
    (hbd : ∀ b ∈ bd, b.1 ≤ S ∧ 1 ≤ b.2 ∧ b.2 ≤ T) (ham : ∀ b t, 0 ≤ am b t) :
    out.length = bd.length ∧
    ∃ r : Int, 1 ≤ r ∧ r ≤ S + 1 ∧
    ∀ b (hb : b < bd.length), ∃ rows, out[b]? = some rows ∧
      (∃ s, GoodRanges rows T S r 1 s) ∧
      ReachMod (InR rows bd[b].2) bd[b].1 bd[b].2 ∧
      (2 ≤ r → ReachCon (InR rows bd[b].2) bd[b].1 bd[b].2) := by
  simp only [pruneRanges] at h
  cases hf : finalSRange false S bd sRange with
  | error e => simp [hf] at h
  | ok r =>
    simp only [hf, Except.ok.injEq] at h
    subst h
    obtain ⟨hrS, hrok, hmod, _⟩ := finalSRange_ok hf
    have h1r : 1 ≤ r := by simpa [sRangeOk] using hrok
    refine ⟨by simp, r, h1r, hrS, ?_⟩
    intro b hb
    have hmem : bd[b] ∈ bd := List.getElem_mem hb
    obtain ⟨hbS, hb2, hbT⟩ := hbd _ hmem
    have hST := hmod rfl _ hmem
    obtain ⟨s, hg, hlast⟩ := row_spec false S T r bd[b].1 bd[b].2 (am b) (by omega) hrS hbS hb2
      hbT (ham b)
    simp only [Bool.false_eq_true, if_false, show (2 : Int) - 1 = 1 by omega, Int.one_mul]
      at hg hlast
    refine ⟨_, by simp [List.getElem?_eq_getElem hb], ⟨s, hg⟩, ?_⟩
    exact mod_reach hg h1r hST hb2 hbT hlast

/-- A concrete case meeting the hypotheses (S=4, T=5; the arg-max jumps about). -/
example : pruneRanges true 4 5 [(4, 5), (2, 3)] 2 (fun _ t => [3, 0, 2, 1, 3].getD t 0) =
    .ok [[[0, 1], [0, 1], [1, 2], [2, 3], [3, 4]], [[0, 1], [0, 1], [1, 2], [1, 2], [1, 2]]] := by
  rfl

/-! ## When the function raises -/

/-- With usable lengths and at least one symbol the regular call never raises, whatever
`s_range` is. -/
theorem pruneRanges_regular_ok (S T : Nat) (bd : List (Nat × Nat)) (sRange : Int)
    (am : Nat → Nat → Int) (hS : 1 ≤ S) (hT : ∀ b ∈ bd, 1 ≤ b.2) (hne : ∃ b ∈ bd, 1 ≤ b.1) :
    ∃ out, pruneRanges true S T bd sRange am = .ok out := by
  obtain ⟨b, hb, hb1⟩ := hne
  have hz : ¬ (bd.any (fun b => b.2 = 0) = true) := by
    simp only [List.any_eq_true, decide_eq_true_eq, not_exists, not_and]
    intro c hc; have := hT c hc; omega
  have hmin : ∃ m, sRangeMin bd = some m ∧ 2 ≤ m := by
    simp only [sRangeMin, hz]
    cases hm : (bd.map fun b => ((b.1 : Int) - 1).tdiv b.2 + 2).max? with
    | none => rw [List.max?_eq_none_iff] at hm; simp at hm; subst hm; simp at hb
    | some m =>
      refine ⟨m, rfl, ?_⟩
      have := (List.max?_eq_some_iff.mp hm).2 _ (List.mem_map.mpr ⟨b, hb, rfl⟩)
      have h0 : 0 ≤ ((b.1 : Int) - 1).tdiv b.2 :=
        Int.tdiv_nonneg (by omega) (Int.natCast_nonneg _)
      omega
  obtain ⟨m, hm, hm2⟩ := hmin
  have hr : raiseSRange true bd sRange = some (if sRange < m then m else sRange) := by
    simp [raiseSRange, hm]
  have hok : sRangeOk true (capSRange S (if sRange < m then m else sRange)) = true := by
    simp only [sRangeOk, capSRange, if_true]
    apply decide_eq_true
    split <;> split <;> omega
  simp [pruneRanges, finalSRange, hr, hok]

/-- Disagreement: with no symbols at all (`S = 0`) the regular call always raises, although a
complete alignment (all blanks) exists. -/
theorem pruneRanges_regular_no_symbols (T : Nat) (bd : List (Nat × Nat)) (sRange : Int)
    (am : Nat → Nat → Int) (out : List (List (List Int))) :
    pruneRanges true 0 T bd sRange am ≠ .ok out := by
  intro h
  simp only [pruneRanges] at h
  cases hf : finalSRange true 0 bd sRange with
  | error e => simp [hf] at h
  | ok r =>
    obtain ⟨h1, h2, _⟩ := finalSRange_ok hf
    simp [sRangeOk] at h2
    omega

/-- Disagreement: the assertion admits `s_range = 1` for every non-regular type, but for the
constrained type no alignment with a symbol survives, because a symbol step also needs the
next context on the same frame. -/
theorem pruneRanges_constrained_one (S T : Nat) (bd : List (Nat × Nat)) (am : Nat → Nat → Int)
    (hS : 1 ≤ S) (out : List (List (List Int)))
    (h : pruneRanges false S T bd 1 am = .ok out) (b : Nat) (hb : b < bd.length)
    (rows : List (List Int)) (hrows : out[b]? = some rows) (s : Int) (t : Nat)
    (hreach : ReachCon (InR rows bd[b].2) s t) : s = 0 := by
  simp only [pruneRanges] at h
  cases hf : finalSRange false S bd 1 with
  | error e => simp [hf] at h
  | ok r =>
    have hr : r = 1 := by
      simp only [finalSRange] at hf
      split at hf
      · simp at hf
      · simp [raiseSRange, capSRange, sRangeOk, show ¬ ((S : Int) < 1) by omega] at hf
        exact hf.symm
    subst hr
    simp only [hf, Except.ok.injEq] at h
    subst h
    simp only [List.getElem?_mapIdx, List.getElem?_eq_getElem hb, Option.map_some,
      Option.some.injEq] at hrows
    subst hrows
    induction hreach with
    | start => rfl
    | blank _ _ ih => exact ih
    | symbol _ h1 h2 ih =>
      exfalso
      obtain ⟨_, row, hrow, hs⟩ := h1
      obtain ⟨_, row', hrow', hs'⟩ := h2
      rw [hrow] at hrow'
      obtain rfl := Option.some.inj hrow'
      rw [List.getElem?_map, Option.map_eq_some_iff] at hrow
      obtain ⟨a, _, rfl⟩ := hrow
      rw [mem_row] at hs hs'
      omega

example : ∃ out, pruneRanges false 2 3 [(2, 3)] 1 (fun _ _ => 0) = .ok out := ⟨_, rfl⟩

end Verif.Rnnt
