import Verif.Fsa.Dense.Output

/-!
# The arcs of the result of `IntersectDense`
-/

set_option linter.unusedSectionVars false

namespace Verif.Fsa.Dn
open Verif.Ragged Verif.Util Verif.Fsa.Sco Verif.Fsa.Best
variable {K : Type} [AddCommGroup K] [LinearOrder K] [IsOrderedAddMonoid K]

local notation "S" => WithBot K

/-- The shape that the kernels read. -/
def ansOf (P : List (Job S)) (T : Nat) (neg : S) : AnsShape :=
  ⟨psum ((KK P neg).map List.length), idsFrom 0 ((KK P neg).map List.length),
    psum ((KK P neg).flatten.map List.length), idsFrom 0 ((KK P neg).flatten.map List.length),
    (stList P neg).map (fun x => x.2.1), psum ((F3 P neg).map List.length), old2new (allFlags P T neg)⟩

theorem F3_length (P : List (Job S)) (neg : S) : (F3 P neg).length = (KK P neg).flatten.flatten.length :=
  nest3_length P neg _

theorem gnum_lt (P : List (Job S)) (neg : S) (r : Nat) (p : Job S) (hp : P[r]? = some p) (t s : Nat)
    (ht : t ≤ p.fr.length) (hs : s ∈ kept neg p t) : gnum P neg r p t s < (KK P neg).flatten.flatten.length := by
  have := (List.getElem?_eq_some_iff.mp (nest3_get P neg (fun _ _ _ _ => ()) r p hp t s ht hs)).1
  rwa [nest3_length] at this

theorem memScore (P : List (Job S)) (b : Dense S) (map : List Nat) (hP : InpOk P b map) (p : Job S) (hp : p ∈ P)
    (a : Arc S) (ha : a ∈ p.f.flatten) (t : Nat) (ht : t < p.fr.length) :
    b.mem[p.base + b.stride * t + (a.label + 1).toNat]? = some (labScore (p.fr.getD t []) a.label) := by
  have hl := (hP.labels p hp a ha).2.2
  have hrow := List.getElem?_eq_getElem ht
  have hlen := hP.cols p hp p.fr[t] (List.getElem_mem ht)
  have hx := List.getElem?_eq_getElem (l := p.fr[t]) (i := (a.label + 1).toNat) (by omega)
  rw [List.getD_eq_getElem?_getD, hrow, Option.getD_some, labScore, List.getD_eq_getElem?_getD,
    hx, Option.getD_some]
  exact hP.mem p hp t _ _ _ hrow hx

theorem ansArc_eq (P : List (Job S)) (b : Dense S) (map : List Nat) (hP : InpOk P b map) (d : DenseInit S)
    (hd : InitOk P d) (hT : ∀ p ∈ P, p.fr.length ≤ d.T) (neg : S) (r : Nat) (p : Job S) (hp : P[r]? = some p)
    (t s : Nat) (ht : t < p.fr.length) (hs : s ∈ kept neg p t) (row : List (Arc S)) (hrow : p.f[s]? = some row)
    (k : Nat) (a : Arc S) (ha : row[k]? = some a) :
    ∃ inc, ansArc (flat (fsasOf P)) b d.carcs d.infos d.T (allScores P d.T) (ansOf P d.T neg)
      (splits (F3 P neg) (gnum P neg r p t s) + k) (gnum P neg r p t s) =
      some ⟨r, t, ⟨p.fr.length, p.f.length, p.base, so P r, ao P r⟩, ao P r + (splits p.f s + k),
        ⟨a.src, a.dst, (a.label + 1).toNat, r, inc, a.score⟩, p.base + b.stride * t + (a.label + 1).toNat,
        useScore p.fr t a,
        rank (allFlags P d.T neg) ((d.T + 1) * so P r + (t + 1) * p.f.length + a.dst),
        rank (allFlags P d.T neg) ((d.T + 1) * so P r + (t + 1) * p.f.length + a.dst + 1),
        fwd p.f p.fr t s + useScore p.fr t a + bwd p.f p.fr (p.fr.length - (t + 1)) a.dst⟩ := by
  have hm := List.mem_of_getElem? hp
  have hrl := (List.getElem?_eq_some_iff.mp hp).1
  have hsl := (List.getElem?_eq_some_iff.mp hrow).1
  have hkl := (List.getElem?_eq_some_iff.mp ha).1
  have hTp := hT p hm
  obtain ⟨hsrc, hdst⟩ := hP.ok p hm s row hrow a (List.mem_of_getElem? ha)
  have hg := gnum_lt P neg r p hp t s (by omega) hs
  have hfl : p.f.flatten[splits p.f s + k]? = some a := by rw [flatten_get p.f s row hrow k hkl, ha]
  have e1 : (ansOf P d.T neg).sp3[gnum P neg r p t s]? = some (splits (F3 P neg) (gnum P neg r p t s)) :=
    psum_splits _ _ (by rw [F3_length]; omega)
  have e2 : (ansOf P d.T neg).id2[gnum P neg r p t s]? = some (off (KK P neg) r + t) := by
    change (idsFrom 0 _)[_]? = _
    rw [← id2_eq, stList, nest3_map, nest3_get P neg _ r p hp t s (by omega) hs]; rfl
  have e3 : (ansOf P d.T neg).id1[off (KK P neg) r + t]? = some r := by
    refine ids_at ((KK P neg).map List.length) r (p.fr.length + 1) t ?_ (by omega)
    rw [List.getElem?_map, KK_get P neg r p hp, Option.map_some, kstAll_length]
  have e4 : (ansOf P d.T neg).sp1[r]? = some (off (KK P neg) r) := psum_get _ r (by simp [KK]; omega)
  have e5 : (ansOf P d.T neg).state[gnum P neg r p t s]? = some (so P r + s) := by
    change ((stList P neg).map _)[_]? = _
    rw [stList, nest3_map, nest3_get P neg _ r p hp t s (by omega) hs]; rfl
  have e6 := infos_get P d hd r p hp
  have e7 := sp2_get P r p hp s (by omega)
  have e8 := hd.carcs r p _ a hp hfl
  have e9 := memScore P b map hP p hm a (List.mem_of_getElem? hfl) t ht
  have o : ∀ i, i ≤ (d.T + 1) * (fsasOf P).flatten.length →
      (ansOf P d.T neg).o2n[i]? = some (rank (allFlags P d.T neg) i) := by
    intro i hi
    exact old2new_get _ i (by rw [allFlags, allGrid_length]; exact hi)
  have hgl : ∀ t s, t ≤ d.T → s < p.f.length →
      (d.T + 1) * so P r + t * p.f.length + s < (d.T + 1) * (fsasOf P).flatten.length := by
    intro t s ht hs
    have h1 := allGrid_get P d.T (fun _ _ _ _ => ()) r p hp t s ht hs
    have h2 := (List.getElem?_eq_some_iff.mp h1).1
    rwa [allGrid_length] at h2
  have e10 := o _ (le_of_lt (hgl t s (by omega) hsl))
  rw [rank_flags P d.T neg hT r p hp t s (by omega) hs] at e10
  have e11 := o _ (le_of_lt (hgl (t + 1) a.dst (by omega) hdst))
  have e12 := o _ (hgl (t + 1) a.dst (by omega) hdst)
  rw [Nat.mul_comm (d.T + 1) (so P r)] at e10 e11 e12
  have e13 := (scoreAt_eq P hP.sorted d.T r p hp hTp t (by omega) s hsl).2
  have e14 := (scoreAt_eq P hP.sorted d.T r p hp hTp (p.fr.length - (t + 1)) (by omega) a.dst hdst).1
  refine ⟨2 * ao P r + p.f.flatten.length + (bk p.f).flatten.idxOf (splits p.f s + k), ?_⟩
  rw [Nat.mul_comm (d.T + 1) (so P r)]
  unfold ansArc
  simp only [e1, e2, e3, e4, e5, e6, e7, Option.bind_eq_bind, Option.bind_some, Nat.add_sub_cancel_left,
    Nat.add_assoc (ao P r) (splits p.f s) k, e8, e9, e10]
  rw [if_pos ⟨hsrc.symm, trivial, ht⟩]
  simp only [e11, e12, e13, e14, Option.bind_some]
  rfl

theorem dst_flag (P : List (Job S)) (T : Nat) (neg : S) (r : Nat) (p : Job S) (hp : P[r]? = some p) (t s : Nat)
    (ht : t ≤ p.fr.length) (hT : p.fr.length ≤ T) (hs : s < p.f.length) :
    rank (allFlags P T neg) ((T + 1) * so P r + t * p.f.length + s + 1) =
      rank (allFlags P T neg) ((T + 1) * so P r + t * p.f.length + s) +
        (stFlag p.f p.fr (cutOf p.f p.fr neg) t s).toNat := by
  rw [rank_succ _ _ (keepFlag neg p t s) (allGrid_get P T _ r p hp t s (by omega) hs)]
  simp [keepFlag, ht]

theorem fRow_get (P : List (Job S)) (neg : S) (r : Nat) (p : Job S) (hp : P[r]? = some p) (t s : Nat)
    (ht : t ≤ p.fr.length) (hs : s ∈ kept neg p t) (row : List Bool)
    (h : (F3 P neg)[gnum P neg r p t s]? = some row) (k : Nat) (b : Bool) (hb : row[k]? = some b) :
    t < p.fr.length ∧ ∃ arow a, p.f[s]? = some arow ∧ arow[k]? = some a ∧
      b = arcFlag p.f p.fr (cutOf p.f p.fr neg) t a := by
  rw [F3, nest3_get P neg _ r p hp t s ht hs] at h
  obtain rfl := Option.some.inj h
  simp only [fRow] at hb
  have hsl : s < p.f.length := ((mem_kst _ _ _ _ _).mp hs).1
  split at hb
  · next h' =>
    rw [List.getD_eq_getElem?_getD, List.getElem?_eq_getElem hsl, Option.getD_some, List.getElem?_map,
      Option.map_eq_some_iff] at hb
    obtain ⟨a, ha, rfl⟩ := hb
    exact ⟨h', p.f[s], a, List.getElem?_eq_getElem hsl, ha, rfl⟩
  · simp at hb

theorem keepArc_is (P : List (Job S)) (b : Dense S) (map : List Nat) (hP : InpOk P b map) (d : DenseInit S)
    (hd : InitOk P d) (hT : ∀ p ∈ P, p.fr.length ≤ d.T) (neg : S) :
    KeepIs (keepArc (flat (fsasOf P)) b d.carcs d.infos d.T (allScores P d.T) (P.map (fun p => cutOf p.f p.fr neg))
      (ansOf P d.T neg)) (F3 P neg) 0 0 := by
  intro st row k fl hst hb
  have hl := (List.getElem?_eq_some_iff.mp hst).1
  rw [F3_length] at hl
  obtain ⟨r, p, t, s, hp, ht, hs, rfl⟩ := gnum_surj P neg st hl
  obtain ⟨ht', arow, a, h1, h2, rfl⟩ := fRow_get P neg r p hp t s ht hs row hst k fl hb
  have hm := List.mem_of_getElem? hp
  obtain ⟨hsrc, hdst⟩ := hP.ok p hm s arow h1 a (List.mem_of_getElem? h2)
  obtain ⟨inc, h3⟩ := ansArc_eq P b map hP d hd hT neg r p hp t s ht' hs arow h1 k a h2
  have hc : (P.map (fun p => cutOf p.f p.fr neg))[r]? = some (cutOf p.f p.fr neg) := by
    rw [List.getElem?_map, hp]; rfl
  unfold keepArc
  simp only [Nat.add_zero, h3, Option.bind_eq_bind, Option.bind_some, hc]
  rw [dst_flag P d.T neg r p hp (t + 1) a.dst ht' (hT p hm) hdst, arcFlag, hsrc]
  congr 2
  cases stFlag p.f p.fr (cutOf p.f p.fr neg) (t + 1) a.dst <;> simp

theorem outArc_eq (P : List (Job S)) (b : Dense S) (map : List Nat) (hP : InpOk P b map) (d : DenseInit S)
    (hd : InitOk P d) (hT : ∀ p ∈ P, p.fr.length ≤ d.T) (neg : S) (r : Nat) (p : Job S) (hp : P[r]? = some p)
    (t s : Nat) (ht : t < p.fr.length) (hs : s ∈ kept neg p t) (row : List (Arc S)) (hrow : p.f[s]? = some row)
    (k : Nat) (a : Arc S) (ha : row[k]? = some a) (hf : arcFlag p.f p.fr (cutOf p.f p.fr neg) t a = true) :
    outArc (flat (fsasOf P)) b d.carcs d.infos d.T (allScores P d.T) (ansOf P d.T neg)
      (splits (F3 P neg) (gnum P neg r p t s) + k) (gnum P neg r p t s) =
      ((eRow P neg b.stride r p t s)[k]?) := by
  have hm := List.mem_of_getElem? hp
  have hrl := (List.getElem?_eq_some_iff.mp hp).1
  obtain ⟨hsrc, hdst⟩ := hP.ok p hm s row hrow a (List.mem_of_getElem? ha)
  obtain ⟨inc, h3⟩ := ansArc_eq P b map hP d hd hT neg r p hp t s ht hs row hrow k a ha
  have hfl : stFlag p.f p.fr (cutOf p.f p.fr neg) (t + 1) a.dst = true := by
    simp only [arcFlag, Bool.and_eq_true] at hf; exact hf.1
  have hdk : a.dst ∈ kept neg p (t + 1) := List.mem_filter.mpr ⟨by simpa using hdst, hfl⟩
  have e4 : (ansOf P d.T neg).sp1[r]? = some (off (KK P neg) r) := psum_get _ r (by simp [KK]; omega)
  have hofl : off (KK P neg) r ≤ (KK P neg).flatten.length := by
    have := (List.getElem?_eq_some_iff.mp (KK_state P neg r p hp 0 (by omega))).1; omega
  have e5 : (ansOf P d.T neg).sp2[off (KK P neg) r]? = some (ko P neg r) := by
    change (psum _)[_]? = _
    rw [psum_splits _ _ hofl, ko, ← apos_off, apos, ← splits_eq_take]
  have hlab := (hP.labels p hm a (List.mem_flatten.mpr ⟨row, List.mem_of_getElem? hrow, List.mem_of_getElem? ha⟩)).1
  unfold outArc
  simp only [h3, Option.bind_eq_bind, Option.bind_some, e4, e5]
  rw [dst_flag P d.T neg r p hp (t + 1) a.dst ht (hT p hm) hdst, hfl, if_pos (by simp),
    rank_flags P d.T neg hT r p hp (t + 1) a.dst ht hdk, eRow, if_pos ht, List.getElem?_map, List.getElem?_zipIdx,
    List.getD_eq_getElem?_getD, hrow, Option.getD_some, ha]
  simp only [Option.map_some, outEntry, gnum, Nat.add_sub_cancel_left]
  rw [show (((a.label + 1).toNat : Nat) : Int) - 1 = a.label by omega]

theorem outs_eq (P : List (Job S)) (b : Dense S) (map : List Nat) (hP : InpOk P b map) (d : DenseInit S)
    (hd : InitOk P d) (hT : ∀ p ∈ P, p.fr.length ≤ d.T) (neg : S) :
    ((sel (F3 P neg).flatten (List.range (F3 P neg).flatten.length)).zip
      (sel (F3 P neg).flatten (idsFrom 0 ((F3 P neg).map List.length)))).mapM
      (fun q => outArc (flat (fsasOf P)) b d.carcs d.infos d.T (allScores P d.T) (ansOf P d.T neg) q.1 q.2) =
      some (O3 P neg b.stride).flatten := by
  set F := (F3 P neg).flatten with hF
  have hidl : (idsFrom 0 ((F3 P neg).map List.length)).length = F.length := by
    rw [idsFrom_length, hF, List.length_flatten]
  have hEl : (E3 P neg b.stride).flatten.length = F.length := by
    rw [hF, List.length_flatten, List.length_flatten, eLens P neg b.stride]
  have hO : (O3 P neg b.stride).flatten = sel F (E3 P neg b.stride).flatten := by
    rw [hF, sel_flatten_rows _ _ (eLens P neg b.stride), sel_rows]
  rw [hO]
  apply mapM_some_of
  · rw [List.length_zip, sel_length _ _ hEl, sel_length _ _ hidl, sel_length _ (List.range _) (by simp), Nat.min_self]
  intro j q hq
  have hj : j < rank F F.length := by
    have := (List.getElem?_eq_some_iff.mp hq).1
    rw [List.length_zip, sel_length _ _ hidl, sel_length _ (List.range _) (by simp), Nat.min_self] at this
    exact this
  obtain ⟨i, hi, rfl⟩ := rank_surj F j hj
  have hil := (List.getElem?_eq_some_iff.mp hi).1
  rw [List.getElem?_zip_eq_some, sel_get _ _ _ (by simp) hi, sel_get _ _ _ hidl hi, List.getElem?_range hil] at hq
  obtain ⟨hq1, hq2⟩ := hq
  rw [sel_get _ _ _ hEl hi]
  obtain ⟨st, row, k, hr, hk, rfl⟩ := flatten_pos _ i hil
  rw [idsFrom_flat _ st row k hr hk] at hq2
  rw [hF, flatten_get _ st row hr k hk] at hi
  have hl := (List.getElem?_eq_some_iff.mp hr).1
  rw [F3_length] at hl
  obtain ⟨r, p, t, s, hp, ht, hs, rfl⟩ := gnum_surj P neg st hl
  obtain ⟨ht', arow, a, h1, h2, h3⟩ := fRow_get P neg r p hp t s ht hs row hr k true hi
  rw [← Option.some.inj hq1, ← Option.some.inj hq2,
    outArc_eq P b map hP d hd hT neg r p hp t s ht' hs arow h1 k a h2 h3.symm]
  have hE : (E3 P neg b.stride)[gnum P neg r p t s]? = some (eRow P neg b.stride r p t s) :=
    nest3_get P neg _ r p hp t s ht hs
  have hsp : splits (F3 P neg) = splits (E3 P neg b.stride) := by
    funext x; rw [splits_eq_take, splits_eq_take, eLens]
  have hkl := (List.getElem?_eq_some_iff.mp h2).1
  rw [hsp, flatten_get _ _ _ hE k]
  rw [eRow, if_pos ht', List.length_map, List.length_zipIdx, List.getD_eq_getElem?_getD, h1]
  exact hkl

end Verif.Fsa.Dn
