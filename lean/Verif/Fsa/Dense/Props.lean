import Verif.Fsa.Dense.Main

/-!
# Properties of `IntersectDense`

The statements are about FSAs `F`, each given by the arcs of each state, and sequences `B` of frames of a
network.  `Lattice` (Spec.lean) says what the intersection is.
-/

set_option linter.unusedSectionVars false

namespace Verif.Fsa.Dn
open Verif.Ragged Verif.Util Verif.Fsa.Sco Verif.Fsa.Best
variable {K : Type} [AddCommGroup K] [LinearOrder K] [IsOrderedAddMonoid K]

local notation "S" => WithBot K

/-- `b` holds the sequences `B`, sorted by decreasing length; a row may be followed by unused memory. -/
structure DenseOk (B : List (List (List S))) (b : Dense S) : Prop where
  splits : b.splits = psum (B.map List.length)
  sorted : (B.map List.length).Pairwise (· ≥ ·)
  cols : ∀ row ∈ B.flatten, row.length = b.cols
  mem : ∀ (i : Nat) (row : List S) (c : Nat) (x : S), B.flatten[i]? = some row → row[c]? = some x →
    b.mem[i * b.stride + c]? = some x

/-- The FSAs and the map are as the documentation demands, the labels have a column, and the numbers fit
into 16 bits. -/
structure ArgsOk (F : List (List (List (Arc S)))) (B : List (List (List S))) (b : Dense S) (map : List Nat) :
    Prop where
  pos : 0 < F.length
  ok : ∀ f ∈ F, RowsOk f
  labels : ∀ f ∈ F, ∀ a ∈ f.flatten, -1 ≤ a.label ∧ a.label + 1 < b.cols
  mapLen : map.length = F.length
  mapRange : ∀ u ∈ map, u < B.length
  mapMono : map.Pairwise (· ≤ ·)
  cols16 : b.cols ≤ 65536
  states16 : ∀ f ∈ F, f.length < 65536
  fsas16 : F.length ≤ 65536
  frames16 : ∀ fr ∈ B, fr.length < 65536

/-- The FSAs with their frames. -/
def jobs (F : List (List (List (Arc S)))) (B : List (List (List S))) (b : Dense S) (map : List Nat) :
    List (Job S) :=
  List.zipWith (fun f u => ⟨f, B.getD u [], splits B u * b.stride⟩) F map

/-- `neg'` is minus a beam that comes from decreasing the beam, each time for a limit that is exceeded. -/
inductive Narrowed (dec : S → Nat → Nat → S) : S → S → Prop
  | refl (neg : S) : Narrowed dec neg neg
  | step (neg neg' : S) (limit n : Nat) : limit < n → Narrowed dec (dec neg limit n) neg' → Narrowed dec neg neg'

/-- The result: the lattices for minus the beam `neg`, one after the other. -/
structure Lattices (F : List (List (List (Arc S)))) (B : List (List (List S))) (b : Dense S) (map : List Nat)
    (neg : S) (L : List (List (List (Arc S)) × List Nat × List Nat)) (res : FsaVec S × List Nat × List Nat) :
    Prop where
  length : L.length = F.length
  fsas : res.1 = flat (L.map Prod.fst)
  mapA : res.2.1 = (L.mapIdx (fun r x => x.2.1.map (splits (F.map List.flatten) r + ·))).flatten
  mapB : res.2.2 = (L.map (fun x => x.2.2)).flatten
  each : ∀ (r : Nat) (f : List (List (Arc S))) (u : Nat) (fr : List (List S))
    (x : List (List (Arc S)) × List Nat × List Nat), F[r]? = some f → map[r]? = some u → B[u]? = some fr →
    L[r]? = some x → Lattice f fr neg (splits B u * b.stride) b.stride x.1 x.2.1 x.2.2

section
variable (F : List (List (List (Arc (WithBot K))))) (B : List (List (List (WithBot K)))) (b : Dense (WithBot K))
  (map : List Nat)

theorem jobs_get (r : Nat) (f : List (List (Arc S))) (u : Nat) (hf : F[r]? = some f) (hu : map[r]? = some u) :
    (jobs F B b map)[r]? = some ⟨f, B.getD u [], splits B u * b.stride⟩ := by
  rw [jobs, List.getElem?_zipWith, hf, hu]

theorem jobs_length (h : map.length = F.length) : (jobs F B b map).length = F.length := by
  rw [jobs, List.length_zipWith, h, Nat.min_self]

theorem jobs_of (h : map.length = F.length) (r : Nat) (p : Job S) (hp : (jobs F B b map)[r]? = some p) :
    ∃ f u, F[r]? = some f ∧ map[r]? = some u ∧ p = ⟨f, B.getD u [], splits B u * b.stride⟩ := by
  have hr := (List.getElem?_eq_some_iff.mp hp).1
  rw [jobs_length F B b map h] at hr
  have h1 := List.getElem?_eq_getElem hr
  have h2 := List.getElem?_eq_getElem (show r < map.length by omega)
  rw [jobs_get F B b map r _ _ h1 h2] at hp
  exact ⟨_, _, h1, h2, (Option.some.inj hp).symm⟩

theorem jobs_fsas (h : map.length = F.length) : fsasOf (jobs F B b map) = F := by
  apply List.ext_getElem?
  intro r
  rw [fsasOf, List.getElem?_map]
  by_cases hr : r < F.length
  · rw [jobs_get F B b map r _ _ (List.getElem?_eq_getElem hr) (List.getElem?_eq_getElem (show r < map.length by omega)),
      List.getElem?_eq_getElem hr]; rfl
  · rw [List.getElem?_eq_none (by rw [jobs_length F B b map h]; omega), List.getElem?_eq_none (by omega)]; rfl

theorem diffs_psum (ns : List Nat) :
    (psum ns).zipWith (fun x y => y - x) (psum ns).tail = ns := by
  apply List.ext_getElem?
  intro i
  rw [List.getElem?_zipWith, List.getElem?_tail]
  by_cases hi : i < ns.length
  · rw [psum_get _ _ (by omega), psum_get _ _ (by omega), List.getElem?_eq_getElem hi,
      take_succ_sum ns i _ (List.getElem?_eq_getElem hi)]
    simp
  · have h0 : (psum ns)[i + 1]? = none := List.getElem?_eq_none (by rw [psum_length]; omega)
    rw [h0, List.getElem?_eq_none (l := ns) (by omega)]
    cases (psum ns)[i]? <;> rfl

theorem inp_ok (hB : DenseOk B b) (hA : ArgsOk F B b map) : InpOk (jobs F B b map) b map := by
  have hget := jobs_of F B b map hA.mapLen
  have hmem : ∀ p ∈ jobs F B b map, ∃ f u fr, f ∈ F ∧ u ∈ map ∧ B[u]? = some fr ∧
      p = ⟨f, fr, splits B u * b.stride⟩ := by
    intro p hp
    obtain ⟨r, hr⟩ := List.mem_iff_getElem?.mp hp
    obtain ⟨f, u, h1, h2, rfl⟩ := hget r p hr
    have hu := List.mem_of_getElem? h2
    have h3 := List.getElem?_eq_getElem (hA.mapRange u hu)
    refine ⟨f, u, B[u]'(hA.mapRange u hu), List.mem_of_getElem? h1, hu, h3, ?_⟩
    rw [List.getD_eq_getElem?_getD, h3]; rfl
  constructor
  · rw [jobs_length F B b map hA.mapLen]; exact hA.pos
  · intro p hp
    obtain ⟨f, u, fr, h1, h2, h3, rfl⟩ := hmem p hp
    exact hA.ok f h1
  · intro p hp
    obtain ⟨f, u, fr, h1, h2, h3, rfl⟩ := hmem p hp
    exact hA.states16 f h1
  · rw [jobs_length F B b map hA.mapLen]; exact hA.fsas16
  · intro p hp a ha
    obtain ⟨f, u, fr, h1, h2, h3, rfl⟩ := hmem p hp
    have h4 := hA.labels f h1 a ha
    have h5 := hA.cols16
    omega
  · intro p hp
    obtain ⟨f, u, fr, h1, h2, h3, rfl⟩ := hmem p hp
    exact hA.frames16 fr (List.mem_of_getElem? h3)
  · rw [jobs_length F B b map hA.mapLen]; exact hA.mapLen
  · intro r p hp
    obtain ⟨f, u, h1, h2, rfl⟩ := hget r p hp
    have hu := hA.mapRange u (List.mem_of_getElem? h2)
    have h3 := List.getElem?_eq_getElem hu
    refine ⟨u, splits B u, h2, ?_, ?_, rfl⟩
    · rw [hB.splits, psum_splits _ _ (by omega)]
    · rw [hB.splits, psum_splits _ _ (by omega), splits_succ B u _ h3, List.getD_eq_getElem?_getD, h3]; rfl
  · rw [hB.splits, diffs_psum]; exact hB.sorted
  · rw [List.pairwise_iff_getElem]
    intro i j hi hj hij
    rw [List.length_map] at hi hj
    obtain ⟨f, u, h1, h2, h3⟩ := hget i _ (List.getElem?_eq_getElem hi)
    obtain ⟨f', u', h1', h2', h3'⟩ := hget j _ (List.getElem?_eq_getElem hj)
    rw [List.getElem_map, List.getElem_map, h3, h3']
    have hu := hA.mapRange u (List.mem_of_getElem? h2)
    have hu' := hA.mapRange u' (List.mem_of_getElem? h2')
    rw [List.getD_eq_getElem?_getD, List.getD_eq_getElem?_getD, List.getElem?_eq_getElem hu,
      List.getElem?_eq_getElem hu', Option.getD_some, Option.getD_some]
    obtain ⟨w1, w2⟩ := List.getElem?_eq_some_iff.mp h2
    obtain ⟨w1', w2'⟩ := List.getElem?_eq_some_iff.mp h2'
    have hle : u ≤ u' := by rw [← w2, ← w2']; exact List.pairwise_iff_getElem.mp hA.mapMono i j w1 w1' hij
    rcases Nat.eq_or_lt_of_le hle with rfl | hlt
    · exact le_refl _
    · have := List.pairwise_iff_getElem.mp hB.sorted u u' (by simpa using hu) (by simpa using hu') hlt
      simpa using this
  · intro p hp row hrow
    obtain ⟨f, u, fr, h1, h2, h3, rfl⟩ := hmem p hp
    exact hB.cols row (List.mem_flatten.mpr ⟨fr, List.mem_of_getElem? h3, hrow⟩)
  · intro p hp t row c x ht hc
    obtain ⟨f, u, fr, h1, h2, h3, rfl⟩ := hmem p hp
    have h4 := flatten_get B u fr h3 t (List.getElem?_eq_some_iff.mp ht).1
    rw [ht] at h4
    have h5 := hB.mem _ row c x h4 hc
    rw [← h5]
    congr 2
    simp only
    ring

/-- The lattices for a beam. -/
def lats (P : List (Job S)) (neg : S) (stride : Nat) : List (List (List (Arc S)) × List Nat × List Nat) :=
  P.map (fun p => (latOf neg stride p, outMapA p.f p.fr (cutOf p.f p.fr neg) p.base stride,
    outMapB p.f p.fr (cutOf p.f p.fr neg) p.base stride))

theorem lats_ok (hA : ArgsOk F B b map) (neg : S) :
    Lattices F B b map neg (lats (jobs F B b map) neg b.stride)
      (flat ((jobs F B b map).map (latOf neg b.stride)), (mapAOf (jobs F B b map) neg b.stride).flatten,
        (mapBOf (jobs F B b map) neg b.stride).flatten) := by
  constructor
  · rw [lats, List.length_map, jobs_length F B b map hA.mapLen]
  · simp only [lats, List.map_map]; rfl
  · simp only [lats, mapAOf]
    congr 1
    apply List.ext_getElem?
    intro r
    rw [List.getElem?_mapIdx, List.getElem?_mapIdx, List.getElem?_map]
    cases (jobs F B b map)[r]? with
    | none => rfl
    | some p =>
      have e : ao (jobs F B b map) r = splits (F.map List.flatten) r := by
        have := jobs_fsas F B b map hA.mapLen
        conv_rhs => rw [← this, fsasOf, List.map_map]
        rfl
      simp only [Option.map_some, e]
  · simp only [lats, mapBOf, List.map_map]; rfl
  · intro r f u fr x h1 h2 h3 h4
    rw [lats, List.getElem?_map, jobs_get F B b map r f u h1 h2] at h4
    obtain rfl := Option.some.inj h4
    simp only [latOf]
    have e : B.getD u [] = fr := by rw [List.getD_eq_getElem?_getD, h3]; rfl
    rw [e]
    exact lattice f fr _ _ (hA.ok f (List.mem_of_getElem? h1)) neg

/-! ## The limits -/

theorem keptStates_eq (P : List (Job S)) (neg : S) (stride : Nat) :
    keptStates P neg = (P.map (latOf neg stride)).flatten.length := by
  rw [keptStates, List.length_flatten, List.map_flatten, List.sum_flatten, List.length_flatten, List.map_map, KK,
    List.map_map, List.map_map]
  congr 1
  apply List.map_congr_left
  intro p _
  simp only [Function.comp_apply, latOf, outFsa, List.length_map]
  rw [outRows_length, List.length_flatten]

theorem sum_le (l l' : List Nat) (h : l.length = l'.length)
    (hle : ∀ (i x y : Nat), l[i]? = some x → l'[i]? = some y → x ≤ y) : l.sum ≤ l'.sum := by
  induction l generalizing l' with
  | nil => simp
  | cons x l ih =>
    cases l' with
    | nil => simp at h
    | cons y l' =>
      have h1 := hle 0 x y rfl rfl
      have h2 := ih l' (by simpa using h) (fun i x y hx hy => hle (i + 1) x y hx hy)
      rw [List.sum_cons, List.sum_cons]; omega

theorem candidates_le (P : List (Job S)) (neg : S) : (F3 P neg).flatten.length ≤ keptArcs P neg := by
  have e : keptArcs P neg = ((nest3 P neg (fun _ p _ s => arcsOf p s)).flatten.flatten).sum := by
    rw [keptArcs, List.sum_flatten, List.map_flatten, List.sum_flatten, List.map_map]
    congr 1
    apply List.ext_getElem?
    intro r
    rw [List.getElem?_map, List.getElem?_map, nest3, List.getElem?_mapIdx]
    cases P[r]? with
    | none => rfl
    | some p => simp [Function.comp_def]
  rw [e, List.length_flatten, ← lens_eq, stList, nest3_map]
  refine sum_le _ _ (by rw [nest3_length, nest3_length]) ?_
  intro i x y hx hy
  have h1 := (List.getElem?_eq_some_iff.mp hx).1
  rw [nest3_length] at h1
  obtain ⟨r, p, t, s, hp, ht, hs, rfl⟩ := gnum_surj P neg i h1
  rw [nest3_get P neg _ r p hp t s ht hs] at hx hy
  rw [← Option.some.inj hx, ← Option.some.inj hy]
  simp only [stVal]
  split <;> omega

theorem latArcs_le (P : List (Job S)) (neg : S) (stride : Nat) :
    (P.map (latOf neg stride)).flatten.flatten.length ≤ keptArcs P neg := by
  refine le_trans ?_ (candidates_le P neg)
  have h := out_arcs P neg stride
  rw [← h, List.length_map, List.length_flatten, ← oLens P neg stride, List.length_flatten]
  refine sum_le _ _ (by simp) ?_
  intro i x y hx hy
  rw [List.getElem?_map, Option.map_eq_some_iff] at hx hy
  obtain ⟨row, h1, rfl⟩ := hx
  obtain ⟨row', h2, rfl⟩ := hy
  rw [h1] at h2
  obtain rfl := Option.some.inj h2
  exact List.length_filter_le _ _

theorem beamOf_spec (P : List (Job S)) (dec : S → Nat → Nat → S) (maxStates maxArcs fuel : Nat) (neg neg' : S)
    (h : beamOf P dec maxStates maxArcs fuel neg = some neg') :
    Narrowed dec neg neg' ∧ keptStates P neg' ≤ maxStates ∧ keptArcs P neg' ≤ maxArcs := by
  induction fuel generalizing neg with
  | zero => simp [beamOf] at h
  | succ fuel ih =>
    unfold beamOf at h
    split at h
    · next h1 =>
      obtain ⟨a, c⟩ := ih _ h
      exact ⟨.step _ _ _ _ h1 a, c⟩
    · split at h
      · next h1 =>
        obtain ⟨a, c⟩ := ih _ h
        exact ⟨.step _ _ _ _ h1 a, c⟩
      · next h1 h2 =>
        obtain rfl := Option.some.inj h
        exact ⟨.refl _, by omega, by omega⟩

theorem chunk_one (maxSize n R : Nat) (h : n ≤ maxSize) (hm : 0 < maxSize) :
    ((chunkPlan maxSize n R).1 - 1) * (chunkPlan maxSize n R).2 ≤ R := by
  have e : (n + maxSize - 1) / maxSize ≤ 1 := by
    have := Nat.div_lt_of_lt_mul (show n + maxSize - 1 < maxSize * 2 by omega); omega
  have e2 : (chunkPlan maxSize n R).1 ≤ 1 := by
    simp only [chunkPlan]
    set a := (n + maxSize - 1) / maxSize
    rcases Nat.eq_zero_or_pos a with h0 | h0
    · rw [h0]; simp
    · have ha : a = 1 := by omega
      rw [ha]
      split <;> simp
  rw [show (chunkPlan maxSize n R).1 - 1 = 0 by omega]; simp

/-! ## The theorems -/

/-- What the function returns is the lattice of each FSA, for a beam that is the given one unless a limit
is exceeded; the limits are respected. -/
theorem intersectDense_sound (dev : Dev) (debug : Bool) (fuel maxSize : Nat) (dec : S → Nat → Nat → S) (neg : S)
    (maxStates maxArcs : Nat) (res : FsaVec S × List Nat × List Nat) (hB : DenseOk B b) (hA : ArgsOk F B b map)
    (hneg : neg < 0) (hm : 0 < maxSize)
    (h : intersectDense dev debug fuel maxSize dec (flat F) b map neg maxStates maxArcs = some res) :
    ∃ neg' L, Narrowed dec neg neg' ∧ Lattices F B b map neg' L res ∧
      (L.map Prod.fst).flatten.length ≤ maxStates ∧ (L.map Prod.fst).flatten.flatten.length ≤ maxArcs := by
  have hI := inp_ok F B b map hB hA
  have heq := intersectDense_eq dev debug fuel maxSize dec (jobs F B b map) b map neg maxStates maxArcs hI hA.mapMono
    hneg hm
  rw [jobs_fsas F B b map hA.mapLen, h] at heq
  obtain ⟨neg', hn, hres⟩ := Option.bind_eq_some_iff.mp heq.symm
  split at hres
  on_goal 2 => exact absurd hres (by simp)
  replace hres := Option.some.inj hres
  obtain ⟨h1, h2, h3⟩ := beamOf_spec _ _ _ _ _ _ _ hn
  refine ⟨neg', lats (jobs F B b map) neg' b.stride, h1, ?_, ?_, ?_⟩
  · rw [← hres]; exact lats_ok F B b map hA neg'
  · rw [keptStates_eq _ _ b.stride] at h2
    simpa [lats, List.map_map, Function.comp_def] using h2
  · have := latArcs_le (jobs F B b map) neg' b.stride
    have e : (lats (jobs F B b map) neg' b.stride).map Prod.fst = (jobs F B b map).map (latOf neg' b.stride) := by
      simp only [lats, List.map_map]; rfl
    rw [e]; omega

/-- The numbers of states and arcs that the FSAs have at all times together. -/
def roomStates (F : List (List (List (Arc S)))) (B : List (List (List S))) (map : List Nat) : Nat :=
  (List.zipWith (fun f u => ((B.getD u []).length + 1) * f.length) F map).sum

def roomArcs (F : List (List (List (Arc S)))) (B : List (List (List S))) (map : List Nat) : Nat :=
  (List.zipWith (fun f u => ((B.getD u []).length + 1) * f.flatten.length) F map).sum

theorem kst_le (p : Job S) (neg : S) (t : Nat) : (kept neg p t).length ≤ p.f.length := by
  have := List.length_filter_le (stFlag p.f p.fr (cutOf p.f p.fr neg) t) (List.range p.f.length)
  simpa [kept, kst] using this

theorem sum_const_le (l : List Nat) (c : Nat) (h : ∀ x ∈ l, x ≤ c) : l.sum ≤ l.length * c := by
  induction l with
  | nil => simp
  | cons x l ih =>
    have h1 := h x (by simp)
    have h2 := ih (fun y hy => h y (by simp [hy]))
    rw [List.sum_cons, List.length_cons, Nat.succ_mul]; omega

theorem keptStates_le (neg : S) : keptStates (jobs F B b map) neg ≤ roomStates F B map := by
  rw [keptStates, List.length_flatten, List.map_flatten, List.sum_flatten, List.map_map, roomStates, KK,
    List.map_map, jobs, List.map_zipWith]
  refine sum_le _ _ (by simp) ?_
  intro i x y hx hy
  rw [List.getElem?_zipWith] at hx hy
  cases hF : F[i]? with
  | none => rw [hF] at hx; simp at hx
  | some f =>
    cases hu : map[i]? with
    | none => rw [hF, hu] at hx; simp at hx
    | some u =>
      rw [hF, hu] at hx hy
      simp only [Option.some.injEq] at hx hy
      rw [← hx, ← hy]
      simp only [Function.comp_apply]
      have h := sum_const_le ((kstAll f (B.getD u []) (cutOf f (B.getD u []) neg)).map List.length) f.length (by
        intro x hx
        obtain ⟨l, hl, rfl⟩ := List.mem_map.mp hx
        obtain ⟨t, -, rfl⟩ := List.mem_map.mp hl
        exact kst_le ⟨f, B.getD u [], 0⟩ neg t)
      rwa [List.length_map, kstAll_length] at h

theorem filter_sum_le {X : Type} (l : List X) (q : X → Bool) (g : X → Nat) :
    ((l.filter q).map g).sum ≤ (l.map g).sum := by
  induction l with
  | nil => simp
  | cons x l ih =>
    rw [List.filter_cons]
    split <;> simp only [List.map_cons, List.sum_cons] <;> omega

theorem kept_arcs_le (p : Job S) (neg : S) (t : Nat) : ((kept neg p t).map (arcsOf p)).sum ≤ p.f.flatten.length := by
  have h : ((List.range p.f.length).map (arcsOf p)).sum = p.f.flatten.length := by
    rw [List.length_flatten]
    congr 1
    apply List.ext_getElem?
    intro i
    rw [List.getElem?_map, List.getElem?_map]
    by_cases hi : i < p.f.length
    · rw [List.getElem?_range hi, List.getElem?_eq_getElem hi]
      simp [arcsOf, List.getD_eq_getElem?_getD, hi]
    · rw [List.getElem?_eq_none (by simp; omega), List.getElem?_eq_none (by omega)]; rfl
  rw [← h]
  exact filter_sum_le _ _ _

theorem keptArcs_le (neg : S) : keptArcs (jobs F B b map) neg ≤ roomArcs F B map := by
  rw [keptArcs, roomArcs, jobs, List.map_zipWith]
  refine sum_le _ _ (by simp) ?_
  intro i x y hx hy
  rw [List.getElem?_zipWith] at hx hy
  cases hF : F[i]? with
  | none => rw [hF] at hx; simp at hx
  | some f =>
    cases hu : map[i]? with
    | none => rw [hF, hu] at hx; simp at hx
    | some u =>
      rw [hF, hu] at hx hy
      simp only [Option.some.injEq] at hx hy
      rw [← hx, ← hy]
      have h := sum_const_le ((List.range ((B.getD u []).length + 1)).map
        (fun t => ((kept neg (⟨f, B.getD u [], splits B u * b.stride⟩ : Job S) t).map
          (arcsOf (⟨f, B.getD u [], splits B u * b.stride⟩ : Job S))).sum)) f.flatten.length (by
        intro x hx
        obtain ⟨t, -, rfl⟩ := List.mem_map.mp hx
        exact kept_arcs_le _ neg t)
      rwa [List.length_map, List.length_range] at h

/-- When all states and arcs fit into the limits the function succeeds, with the given beam. -/
theorem intersectDense_complete (dev : Dev) (debug : Bool) (fuel maxSize : Nat) (dec : S → Nat → Nat → S) (neg : S)
    (maxStates maxArcs : Nat) (hB : DenseOk B b) (hA : ArgsOk F B b map)
    (hneg : neg < 0) (hf : 0 < fuel) (hm : roomArcs F B map ≤ maxSize ∧ 0 < maxSize)
    (h1 : roomStates F B map ≤ maxStates) (h2 : roomArcs F B map ≤ maxArcs) :
    ∃ res L, intersectDense dev debug fuel maxSize dec (flat F) b map neg maxStates maxArcs = some res ∧
      Lattices F B b map neg L res := by
  have hI := inp_ok F B b map hB hA
  have k1 := keptStates_le F B b map
  have k2 := keptArcs_le F B b map
  have heq := intersectDense_eq dev debug fuel maxSize dec (jobs F B b map) b map neg maxStates maxArcs hI hA.mapMono
    hneg hm.2
  have hb : beamOf (jobs F B b map) dec maxStates maxArcs fuel neg = some neg := by
    obtain ⟨n, rfl⟩ := Nat.exists_eq_succ_of_ne_zero (show fuel ≠ 0 by omega)
    unfold beamOf
    have h3 := k1 neg
    have h4 := k2 neg
    rw [if_neg (by omega), if_neg (by omega)]
  have hp : PiecesFit (jobs F B b map) neg maxSize := by
    have h3 := candidates_le (jobs F B b map) neg
    have h4 := k2 neg
    exact chunk_one _ _ _ (by omega) hm.2
  rw [jobs_fsas F B b map hA.mapLen, hb, Option.bind_some, if_pos hp] at heq
  exact ⟨_, _, heq, lats_ok F B b map hA neg⟩

/-! ## A limit that is too small -/

theorem best_align (f : List (List (Arc S))) (fr : List (List S)) (neg : S) (hneg : neg < 0) (js : List Nat)
    (p : List (Arc S)) (h : IsAlign f fr js p) (hfin : alignScore p fr ≠ ⊥) (hf : RowsOk f) :
    ∃ js' p', IsAlign f fr js' p' ∧ InBeam f fr neg (alignScore p' fr) := by
  have h1 := align_le_fwd f fr js p h
  have hne : fwd f fr fr.length (f.length - 1) ≠ ⊥ := fun hc => hfin (le_bot_iff.mp (hc ▸ h1))
  obtain ⟨p', hp', hl, hs⟩ := fwd_attained f fr fr.length (f.length - 1) (le_refl _) hne
  obtain ⟨js', hjs'⟩ := path_index f.flatten p' hp'.2
  refine ⟨js', p', ⟨h.pos, hp'.1, hjs', hl⟩, ?_⟩
  intro js2 p2 h2
  rw [hs]
  refine lt_of_le_of_lt (add_le_add_left (align_le_fwd f fr js2 p2 h2) _) ?_
  obtain ⟨x, hx⟩ := WithBot.ne_bot_iff_exists.mp hne
  rw [← hx]
  cases neg with
  | bot => rw [WithBot.add_bot]; exact WithBot.bot_lt_coe x
  | coe y =>
    rw [← WithBot.coe_add, WithBot.coe_lt_coe]
    have : y < 0 := WithBot.coe_lt_coe.mp hneg
    exact add_lt_of_neg_right x this

theorem ipath_grows (A : List (Arc S)) (hA : ∀ a ∈ A, a.src < a.dst) (is : List Nat) (s e : Nat)
    (h : IPath A s is e) : s + is.length ≤ e := by
  induction is generalizing s with
  | nil =>
    obtain ⟨p, hc, hp⟩ := h
    cases p with
    | nil => have : s = e := hc
             simp; omega
    | cons a p => simp at hp
  | cons i is ih =>
    obtain ⟨p, hc, hp⟩ := h
    cases p with
    | nil => simp at hp
    | cons a p =>
      obtain ⟨h1, h2⟩ := hc
      simp only [List.map_cons, List.cons.injEq] at hp
      have := ih a.dst ⟨p, h2, hp.2⟩
      have h3 := hA a (List.mem_of_getElem? hp.1)
      rw [List.length_cons]; omega

/-- A lattice that has a path has a state for each time. -/
theorem lattice_states (f : List (List (Arc S))) (fr : List (List S)) (neg : S) (base stride : Nat)
    (g : List (List (Arc S))) (ma mb : List Nat) (hL : Lattice f fr neg base stride g ma mb) (js : List Nat)
    (p : List (Arc S)) (h : IsAlign f fr js p) (hb : InBeam f fr neg (alignScore p fr)) :
    fr.length + 1 ≤ g.length := by
  obtain ⟨is, ⟨h1, h2, h3⟩, -⟩ := hL.complete js p h hb
  have h4 := ipath_grows g.flatten hL.top is 0 (g.length - 1) h3
  have e1 := congrArg List.length h1
  have e2 := congrArg List.length h.arcs
  have e3 := h.len
  simp only [List.length_map] at e1 e2
  have : 0 < g.length := h2
  omega

/-- If some FSA has an alignment, and the limit on the states is not larger than its number of frames, the
loop that decreases the beam does not end: no number of rounds is enough.  (With floating-point numbers the
beam becomes so small that adding it to the best score does not change the score; then nothing is kept.) -/
theorem intersectDense_never_ends (dev : Dev) (debug : Bool) (fuel maxSize : Nat) (dec : S → Nat → Nat → S)
    (neg : S) (maxStates maxArcs : Nat) (hB : DenseOk B b) (hA : ArgsOk F B b map) (hneg : neg < 0)
    (hm : 0 < maxSize) (hdec : ∀ x limit n, x < 0 → dec x limit n < 0) (r : Nat) (f : List (List (Arc S)))
    (u : Nat) (fr : List (List S)) (h1 : F[r]? = some f) (h2 : map[r]? = some u) (h3 : B[u]? = some fr)
    (js : List Nat) (p : List (Arc S)) (h : IsAlign f fr js p) (hfin : alignScore p fr ≠ ⊥)
    (hlim : maxStates ≤ fr.length) :
    intersectDense dev debug fuel maxSize dec (flat F) b map neg maxStates maxArcs = none := by
  have hI := inp_ok F B b map hB hA
  have hbig : ∀ x : S, x < 0 → maxStates < keptStates (jobs F B b map) x := by
    intro x hx
    obtain ⟨js', p', h', hb'⟩ := best_align f fr x hx js p h hfin (hA.ok f (List.mem_of_getElem? h1))
    have hL := lattice f fr (splits B u * b.stride) b.stride (hA.ok f (List.mem_of_getElem? h1)) x
    have h4 := lattice_states f fr x _ _ _ _ _ hL js' p' h' hb'
    have h5 := jobs_get F B b map r f u h1 h2
    have e : B.getD u [] = fr := by rw [List.getD_eq_getElem?_getD, h3]; rfl
    rw [e] at h5
    rw [keptStates_eq _ _ b.stride]
    have h6 : ((jobs F B b map).map (latOf x b.stride))[r]? = some (outFsa f fr (cutOf f fr x)
        (splits B u * b.stride) b.stride) := by rw [List.getElem?_map, h5]; rfl
    have h7 := splits_succ _ r _ h6
    have h8 := splits_le ((jobs F B b map).map (latOf x b.stride)) (r + 1)
    omega
  have hnone : ∀ n x, x < 0 → beamOf (jobs F B b map) dec maxStates maxArcs n x = none := by
    intro n
    induction n with
    | zero => intro x _; rfl
    | succ n ih =>
      intro x hx
      unfold beamOf
      rw [if_pos (hbig x hx)]
      exact ih _ (hdec _ _ _ hx)
  have heq := intersectDense_eq dev debug fuel maxSize dec (jobs F B b map) b map neg maxStates maxArcs hI hA.mapMono
    hneg hm
  rw [jobs_fsas F B b map hA.mapLen, hnone _ _ hneg] at heq
  exact heq

end

end Verif.Fsa.Dn
