/-
Properties C22, C23, C25, C26: the b-positive and b-more-positive estimators.
-/
import Verif.Proofs.BPositive
import Verif.Props.BValueUtils
import Verif.Props.BValueMle

namespace SeismoStats.Props
open SeismoStats BValue
open Classical
noncomputable section

/-! ## Vocabulary -/

/-- `o` lists the positions `idx` in the order of time (as given if there are no times). -/
structure TimeOrdered (times : Option (List ℝ)) (idx o : List ℕ) : Prop where
  perm : o.Perm idx
  sorted : ∀ t, times = some t → o.Pairwise fun i j => t.getD i 0 ≤ t.getD j 0
  asGiven : times = none → o = idx

/-- Magnitude of the event at position `i` (selected events are never NaN). -/
def magOf (a : Args) (i : ℕ) : ℝ := (a.mags.getD i none).getD 0

/-- A difference rounded to the magnitude grid, if there is one. -/
def onGrid (δ x : ℝ) : ℝ := if 0 < δ then binTo δ x else x

/-- The pairs of consecutive entries of `o` whose magnitude grows by at least `thr`. -/
def growing (m : ℕ → ℝ) (thr : ℝ) (o : List ℕ) : List (ℕ × ℕ) :=
  (List.zip o o.tail).filter fun p => decide (thr ≤ m p.2 - m p.1)

/-- The cutoff for the differences: `dmc`, by default `delta_m`. -/
def cutoff (a : Args) : ℝ := a.dmc.getD a.δ

/-- Weight of the event at position `i`, one without weights. -/
def weightOf (a : Args) (i : ℕ) : ℝ := match a.weights with
  | none => 1
  | some w => w.getD i 0

/-- Differences with the weight of the later event. -/
def diffsOf (a : Args) (pairs : List (ℕ × ℕ)) : List (ℝ × ℝ) :=
  pairs.map fun p => (onGrid a.δ (magOf a p.2 - magOf a p.1), weightOf a p.2)

theorem timeOrdered (a : Args) : TimeOrdered a.times (usedIdx a) (timeOrder a) :=
  ⟨timeOrder_perm a, fun t h => timeOrder_sorted a t h, fun h => by unfold timeOrder; rw [h]⟩

/-! ## The estimator applied to pairs -/

theorem weightedMags_of_pairs (L : List (ℝ × ℝ)) (hw : Bool) (h1 : hw = false → ∀ q ∈ L, q.2 = 1) :
    weightedMags (L.map Prod.fst) (if hw then some (L.map Prod.snd) else none) = L := by
  cases hw with
  | true =>
    unfold weightedMags
    simp only [if_true, Option.getD_some]
    rw [← List.unzip_fst, ← List.unzip_snd]; exact List.zip_unzip L
  | false =>
    simp only [Bool.false_eq_true, if_false, wm_none, List.map_map]
    conv_rhs => rw [← List.map_id L]
    apply List.map_congr_left
    intro q hq
    have := h1 rfl q hq
    exact Prod.ext rfl this.symm

theorem mle_of_pairs (L : List (ℝ × ℝ)) (hw : Bool) (h1 : hw = false → ∀ q ∈ L, q.2 = 1) (mc δ : ℝ)
    (ht : Spec.total L ≠ 0) :
    mleEstimator (L.map Prod.fst) mc δ (if hw then some (L.map Prod.snd) else none) =
      .ok (betaToB (betaOf (Spec.wmean L - mc) δ)) := by
  have e := average_wm (L.map Prod.fst) (if hw then some (L.map Prod.snd) else none)
    (by intro w'; cases hw <;> simp; rintro rfl; simp)
    (by rw [weightedMags_of_pairs L hw h1]; exact ht) (fun m => m - mc)
  rw [weightedMags_of_pairs L hw h1] at e
  have e2 := wavg_shift ht (-mc)
  simp only [← sub_eq_add_neg] at e2
  rw [e2] at e
  unfold mleEstimator
  rw [e]
  rfl

theorem mle_zero (L : List (ℝ × ℝ)) (mc δ : ℝ) (ht : Spec.total L = 0) :
    mleEstimator (L.map Prod.fst) mc δ (some (L.map Prod.snd)) = .error .zeroDivision := by
  unfold mleEstimator average
  unfold Spec.total at ht
  simp only [ht, if_true]
  rfl

theorem mle_nil (mc δ : ℝ) : mleEstimator [] mc δ none = .ok .nan := by
  unfold mleEstimator average
  simp only [List.map_nil, if_true, bind, Except.bind, pure, Except.pure]
  split <;> rfl

/-- What the time-ordered estimators compute from differences with weights. -/
def pairResult (a : Args) (L : List (ℝ × ℝ)) : Py (Fl ℝ) :=
  mleEstimator (L.map Prod.fst) (cutoff a) a.δ (if a.weights.isSome then some (L.map Prod.snd) else none)

theorem pairResult_mle (a : Args) (L : List (ℝ × ℝ)) (h1 : a.weights = none → ∀ q ∈ L, q.2 = 1)
    (ht : 0 < Spec.total L) (hm : cutoff a < Spec.wmean L) :
    ∃ b, pairResult a L = .ok (.fin b) ∧ 0 < b ∧ ∀ β, 0 < β → β ≠ b * Real.log 10 →
      Spec.logLik (law (cutoff a) a.δ) L β < Spec.logLik (law (cutoff a) a.δ) L (b * Real.log 10) := by
  have hA : 0 < Spec.wmean L - cutoff a := by linarith
  refine ⟨betaVal (Spec.wmean L - cutoff a) a.δ / Real.log 10, ?_, div_pos (betaVal_pos hA) log10_pos, ?_⟩
  · unfold pairResult
    rw [mle_of_pairs L _ _ _ _ ht.ne', betaOf_pos hA]
    · rfl
    · intro h; apply h1; simpa using h
  · intro β hβ hne
    rw [div_mul_cancel₀ _ log10_pos.ne'] at hne ⊢
    rw [logLik_eq ht hβ, logLik_eq ht (betaVal_pos hA)]
    exact mul_lt_mul_of_pos_left (profile_max hA hβ hne) ht

/-! ## Attributes after a call -/

/-- Attributes after a successful call using the differences of `pairs`. -/
structure Uses (a : Args) (s' : State) (pairs : List (ℕ × ℕ)) : Prop where
  idx : s'.idx = some (pairs.map Prod.snd)
  mags : s'.mags = some ((diffsOf a pairs).map fun q => some q.1)
  weights : s'.weights = a.weights.map fun w => pairs.map fun p => w.getD p.2 0
  times : s'.times = a.times.map fun t => pairs.map fun p => t.getD p.2 0

theorem dmc_nonneg_of_ok {c : Cls} (hc : c = .positive ∨ c = .morePositive) {warn : Bool} {s s' : State}
    {a : Args} {r : Fl ℝ} (h : calculate c warn s a = (s', .ok r)) : 0 ≤ a.dmc.getD a.δ := by
  by_contra hd
  rw [not_le] at hd
  unfold calculate at h
  rcases hc with rfl | rfl <;> simp only [hd, if_true] at h <;> cases h

theorem times_of_ok {c : Cls} (hc : c = .positive ∨ c = .morePositive) {warn : Bool} {s s' : State}
    {a : Args} {r : Fl ℝ} (h : calculate c warn s a = (s', .ok r)) :
    ∃ t, gatherOpt a.times (usedIdx a) = .ok t := by
  have hv : Valid a := valid_of_ok (c := c) (warn := warn) (s := s) (r := r) (by rw [h])
  have hd := dmc_nonneg_of_ok hc h
  cases hg : gatherOpt a.times (usedIdx a) with
  | ok t => exact ⟨t, rfl⟩
  | error e =>
    exfalso
    have hi : selIdx a.mags a.mc a.δ = usedIdx a := rfl
    unfold calculate baseCalculate sanityChecks filterMagnitudes at h
    rcases hc with rfl | rfl <;>
    · simp only [not_lt.2 hd, if_false, Option.getD_some, hv.bin, hv.wts, hi, gatherOpt_weights hv, hg] at h
      cases h

theorem nums_order (a : Args) (o : List ℕ) :
    nums (some (o.map fun i => some (magAt a i))) = o.map (magAt a) := by
  rw [← nums_some (o.map (magAt a)), List.map_map]; rfl

theorem binDiffs_map {l : List (ℕ × ℕ)} {f : ℕ × ℕ → ℝ} {δ : ℝ} {d : List ℝ}
    (h : binDiffs (l.map f) δ = .ok d) : d = l.map fun p => onGrid δ (f p) := by
  unfold binDiffs binArr at h
  unfold onGrid
  split at h
  · split at h
    · cases h
    · simp only [Except.ok.injEq] at h
      rename_i h1 _
      subst h
      simp [h1, Function.comp_def]
  · simp only [Except.ok.injEq] at h
    rename_i h1
    subst h
    simp [h1]

/-- What `_estimate` of b-positive does. -/
theorem estimatePositive_used {s : State} {warn : Bool} {a : Args} (h : Valid a) {t : Option (List ℝ)}
    (ht : gatherOpt a.times (usedIdx a) = .ok t) (hd : s.dmc = some (cutoff a))
    (hδ : a.δ ≤ 0 ∨ 1 / 10 ^ 12 ≤ a.δ) :
    ∃ s', estimatePositive (usedState s warn a t) =
        (s', pairResult a (diffsOf a (growing (magOf a) (cutoff a - a.δ / 2) (timeOrder a)))) ∧
      Uses a s' (growing (magOf a) (cutoff a - a.δ / 2) (timeOrder a)) := by
  unfold estimatePositive
  rw [sortByTime_used h ht]
  simp only [nums_order, diff_map]
  have e1 : (usedState s warn a t).δ = some a.δ := rfl
  have e2 : (usedState s warn a t).dmc = some (cutoff a) := hd
  have hm : magAt a = magOf a := rfl
  simp only [e1, e2, Option.getD_some, hm, List.map_map]
  have hb : binDiffs ((List.zip (timeOrder a) (timeOrder a).tail).map fun p => magOf a p.2 - magOf a p.1)
      a.δ = .ok ((List.zip (timeOrder a) (timeOrder a).tail).map
        fun p => onGrid a.δ (magOf a p.2 - magOf a p.1)) := by
    unfold binDiffs binArr onGrid eps
    rcases hδ with hδ | hδ
    · simp [not_lt.2 hδ]
    · have : 0 < a.δ := lt_of_lt_of_le (by positivity) hδ
      simp only [this, if_true, List.map_map, Function.comp_def, not_lt.2 hδ, if_false]
  rw [hb]
  simp only []
  have kt : ∀ {β : Type} (f : ℕ → β) (o : List ℕ), (o.map f).tail = (List.zip o o.tail).map fun p => f p.2 := by
    intro β f o
    rw [← List.map_tail]
    conv_lhs => rw [← zip_tail_snd o]
    rw [List.map_map]; rfl
  have key : ∀ f : ℕ → ℝ, mask ((timeOrder a).map f).tail
      ((List.zip (timeOrder a) (timeOrder a).tail).map
        ((fun x => decide (cutoff a - a.δ / 2 ≤ x)) ∘ fun p => magOf a p.2 - magOf a p.1)) =
      (growing (magOf a) (cutoff a - a.δ / 2) (timeOrder a)).map fun p => f p.2 := by
    intro f
    rw [kt f (timeOrder a), mask_map]
    rfl
  have key1 : mask ((List.zip (timeOrder a) (timeOrder a).tail).map
        fun p => onGrid a.δ (magOf a p.2 - magOf a p.1))
      ((List.zip (timeOrder a) (timeOrder a).tail).map
        ((fun x => decide (cutoff a - a.δ / 2 ≤ x)) ∘ fun p => magOf a p.2 - magOf a p.1)) =
      (diffsOf a (growing (magOf a) (cutoff a - a.δ / 2) (timeOrder a))).map Prod.fst := by
    rw [mask_map]
    unfold diffsOf
    rw [List.map_map]
    rfl
  have key2 : mask (timeOrder a).tail
      ((List.zip (timeOrder a) (timeOrder a).tail).map
        ((fun x => decide (cutoff a - a.δ / 2 ≤ x)) ∘ fun p => magOf a p.2 - magOf a p.1)) =
      (growing (magOf a) (cutoff a - a.δ / 2) (timeOrder a)).map Prod.snd := by
    have := kt id (timeOrder a)
    rw [List.map_id] at this
    conv_lhs => lhs; rw [this]
    rw [mask_map]
    rfl
  have kw : (a.weights.map fun w => (timeOrder a).map fun i => w.getD i 0).map (fun l => mask l.tail
      ((List.zip (timeOrder a) (timeOrder a).tail).map
        ((fun x => decide (cutoff a - a.δ / 2 ≤ x)) ∘ fun p => magOf a p.2 - magOf a p.1))) =
      a.weights.map fun w => (growing (magOf a) (cutoff a - a.δ / 2) (timeOrder a)).map fun p => w.getD p.2 0 := by
    cases a.weights with
    | none => rfl
    | some w => simp only [Option.map_some, key]
  refine ⟨_, Prod.ext rfl ?_, ⟨?_, ?_, ?_, ?_⟩⟩
  · simp only [kw, key1, nums_some]
    unfold pairResult
    congr 1
    cases hw : a.weights with
    | none => rfl
    | some w => simp [diffsOf, weightOf, hw, Function.comp_def]
  · simp only [Option.map_some, key2]
  · simp only [key1, List.map_map]; rfl
  · exact kw
  · cases a.times with
    | none => rfl
    | some w => simp only [Option.map_some, key]

/-- `ranks` lists, by increasing first entry, the pairs `(i, j)` of ranks such that `j`
is the first later event larger by at least `thr`. -/
structure NextLarger (m : List ℝ) (thr : ℝ) (ranks : List (ℕ × ℕ)) : Prop where
  increasing : (ranks.map Prod.fst).Pairwise (· < ·)
  mem : ∀ i j, (i, j) ∈ ranks ↔ FirstLarger m thr i j

/-- The ranks paired by the model. -/
def ranksOf (m : List ℝ) (δ dmc : ℝ) : List (ℕ × ℕ) :=
  ((List.range m.length).filter fun i => decide ((findNextLarger m δ (some dmc)).getD i 0 ≠ 0)).map
    fun i => (i, (findNextLarger m δ (some dmc)).getD i 0)

theorem ranksOf_spec (m : List ℝ) (δ dmc : ℝ) : NextLarger m (dmc - δ / 2) (ranksOf m δ dmc) := by
  obtain ⟨hl, hf⟩ := C24_find_next_larger m δ (some dmc)
  simp only [Option.getD_some] at hf
  refine ⟨?_, fun i j => ?_⟩
  · unfold ranksOf
    rw [List.map_map]
    have : (Prod.fst ∘ fun i => (i, (findNextLarger m δ (some dmc)).getD i 0)) = id := rfl
    rw [this, List.map_id]
    exact List.Pairwise.filter _ List.pairwise_lt_range
  · unfold ranksOf
    simp only [List.mem_map, List.mem_filter, List.mem_range, decide_eq_true_eq, Prod.mk.injEq]
    constructor
    · rintro ⟨k, ⟨hk, h0⟩, rfl, rfl⟩
      have hk' : k < (findNextLarger m δ (some dmc)).length := by rw [hl]; exact hk
      rw [List.getD_eq_getElem _ _ hk'] at h0 ⊢
      exact (hf k hk').2 _ rfl h0
    · intro h
      obtain ⟨hij, ⟨x, y, h1, h2, h3⟩, h4⟩ := h
      have hi : i < m.length := (List.getElem?_eq_some_iff.1 h1).1
      have hi' : i < (findNextLarger m δ (some dmc)).length := by rw [hl]; exact hi
      obtain ⟨e1, e2⟩ := hf i hi'
      have hne : (findNextLarger m δ (some dmc))[i] ≠ 0 := by
        intro h0
        exact e1.1 h0 j ⟨hij, ⟨x, y, h1, h2, h3⟩, h4⟩
      obtain ⟨g1, ⟨x', y', g2, g3, g4⟩, g5⟩ := e2 _ rfl hne
      refine ⟨i, ⟨hi, by rwa [List.getD_eq_getElem _ _ hi']⟩, rfl, ?_⟩
      rw [List.getD_eq_getElem _ _ hi']
      rcases lt_trichotomy (findNextLarger m δ (some dmc))[i] j with hlt | heq | hgt
      · have := h4 _ g1 hlt x' y' g2 g3; linarith
      · exact heq
      · have := g5 j hij hgt x y h1 h2; linarith

/-- The pairs of positions belonging to pairs of ranks in the order `o`. -/
def atRanks (o : List ℕ) (ranks : List (ℕ × ℕ)) : List (ℕ × ℕ) :=
  ranks.map fun r => (o.getD r.1 0, o.getD r.2 0)

theorem firstLarger_lt {m : List ℝ} {thr : ℝ} {i j : ℕ} (h : FirstLarger m thr i j) :
    i < m.length ∧ j < m.length := by
  obtain ⟨-, ⟨x, y, h1, h2, -⟩, -⟩ := h
  exact ⟨(List.getElem?_eq_some_iff.1 h1).1, (List.getElem?_eq_some_iff.1 h2).1⟩

/-- What `_estimate` of b-more-positive does. -/
theorem estimateMorePositive_used {s : State} {warn : Bool} {a : Args} (h : Valid a)
    {t : Option (List ℝ)} (ht : gatherOpt a.times (usedIdx a) = .ok t) (hd : s.dmc = some (cutoff a))
    (hδ : 1 / 10 ^ 12 ≤ a.δ) :
    ∃ s', estimateMorePositive (usedState s warn a t) = (s', pairResult a (diffsOf a
        (atRanks (timeOrder a) (ranksOf ((timeOrder a).map (magOf a)) a.δ (cutoff a))))) ∧
      Uses a s' (atRanks (timeOrder a) (ranksOf ((timeOrder a).map (magOf a)) a.δ (cutoff a))) := by
  have hsort : ∃ x y, sortByTime (sortOriginals (usedState s warn a t)) =
      { sortByTime (usedState s warn a t) with origMags := x, origWeights := y } := by
    refine ⟨(sortOriginals (usedState s warn a t)).origMags,
      (sortOriginals (usedState s warn a t)).origWeights, ?_⟩
    generalize usedState s warn a t = u
    rcases u with ⟨m, mc, d, w, i, tt, dm, b, om, ow, wn⟩
    cases tt <;> rfl
  obtain ⟨x, y, hsort⟩ := hsort
  unfold estimateMorePositive
  rw [hsort, sortByTime_used h ht]
  simp only [nums_order]
  have e1 : (usedState s warn a t).δ = some a.δ := rfl
  have e2 : (usedState s warn a t).dmc = some (cutoff a) := hd
  have hm : magAt a = magOf a := rfl
  simp only [e1, e2, Option.getD_some, hm]
  set o := timeOrder a with ho
  set m := o.map (magOf a) with hmdef
  set nxt := findNextLarger m a.δ (some (cutoff a)) with hnxt
  have hl : nxt.length = m.length := (C24_find_next_larger m a.δ (some (cutoff a))).1
  have hnx : nxt = (List.range m.length).map fun i => nxt.getD i 0 := by
    rw [← hl]; exact (map_getD_range nxt 0).symm
  have hdz : List.zipWith (fun j x => m.getD j 0 - x) nxt m =
      (List.range m.length).map fun i => m.getD (nxt.getD i 0) 0 - m.getD i 0 := by
    apply List.ext_getElem
    · simp [hl]
    · intro i h1 h2
      have hi : i < m.length := by simpa using h2
      have hi' : i < nxt.length := by rw [hl]; exact hi
      simp only [List.getElem_zipWith, List.getElem_map, List.getElem_range,
        List.getD_eq_getElem _ _ hi, List.getD_eq_getElem _ _ hi']
  have hpos : 0 < a.δ := lt_of_lt_of_le (by positivity) hδ
  rw [hdz]
  have hb : binArr ((List.range m.length).map fun i => m.getD (nxt.getD i 0) 0 - m.getD i 0) a.δ =
      .ok ((List.range m.length).map fun i => onGrid a.δ (m.getD (nxt.getD i 0) 0 - m.getD i 0)) := by
    unfold binArr eps onGrid
    simp only [not_lt.2 hδ, if_false, hpos, if_true, List.map_map, Function.comp_def]
  rw [hb]
  simp only []
  have hhas : (nxt.map fun j => decide (j ≠ 0)) =
      (List.range m.length).map fun i => decide (nxt.getD i 0 ≠ 0) := by
    conv_lhs => rw [hnx]
    rw [List.map_map]; rfl
  rw [hhas]
  have hnm : mask nxt ((List.range m.length).map fun i => decide (nxt.getD i 0 ≠ 0)) =
      (ranksOf m a.δ (cutoff a)).map Prod.snd := by
    conv_lhs => lhs; rw [hnx]
    rw [mask_map]
    unfold ranksOf
    rw [List.map_map]
    rfl
  rw [hnm, mask_map]
  have hR := ranksOf_spec m a.δ (cutoff a)
  have hlt : ∀ r ∈ ranksOf m a.δ (cutoff a), r.1 < o.length ∧ r.2 < o.length := by
    intro r hr
    have := firstLarger_lt ((hR.mem r.1 r.2).1 hr)
    simpa [hmdef] using this
  have hmg : ∀ i, i < o.length → m.getD i 0 = magOf a (o.getD i 0) := by
    intro i hi
    have hi' : i < m.length := by rw [hmdef]; simpa using hi
    rw [List.getD_eq_getElem _ _ hi', List.getD_eq_getElem _ _ hi]
    simp [hmdef]
  have key1 : ((List.range m.length).filter fun i => decide (nxt.getD i 0 ≠ 0)).map
      (fun i => onGrid a.δ (m.getD (nxt.getD i 0) 0 - m.getD i 0)) =
      (diffsOf a (atRanks o (ranksOf m a.δ (cutoff a)))).map Prod.fst := by
    have : ((List.range m.length).filter fun i => decide (nxt.getD i 0 ≠ 0)).map
        (fun i => onGrid a.δ (m.getD (nxt.getD i 0) 0 - m.getD i 0)) =
        (ranksOf m a.δ (cutoff a)).map fun r => onGrid a.δ (m.getD r.2 0 - m.getD r.1 0) := by
      unfold ranksOf; rw [List.map_map]; rfl
    rw [this]
    unfold diffsOf atRanks
    rw [List.map_map, List.map_map]
    apply List.map_congr_left
    intro r hr
    rw [hmg _ (hlt r hr).1, hmg _ (hlt r hr).2]
    rfl
  have key : ∀ f : ℕ → ℝ, ((ranksOf m a.δ (cutoff a)).map Prod.snd).map (fun j => (o.map f).getD j 0) =
      (atRanks o (ranksOf m a.δ (cutoff a))).map fun p => f p.2 := by
    intro f
    unfold atRanks
    rw [List.map_map, List.map_map]
    apply List.map_congr_left
    intro r hr
    have h2 := (hlt r hr).2
    have h2' : r.2 < (o.map f).length := by simpa using h2
    simp only [Function.comp_apply]
    rw [List.getD_eq_getElem _ _ h2', List.getD_eq_getElem _ _ h2]
    simp
  have kw : (a.weights.map fun w => o.map fun i => w.getD i 0).map (fun l =>
        ((ranksOf m a.δ (cutoff a)).map Prod.snd).map fun j => l.getD j 0) =
      a.weights.map fun w => (atRanks o (ranksOf m a.δ (cutoff a))).map fun p => w.getD p.2 0 := by
    cases a.weights with
    | none => rfl
    | some w => simp only [Option.map_some, key]
  refine ⟨_, Prod.ext rfl ?_, ⟨?_, ?_, ?_, ?_⟩⟩
  · simp only [kw, key1, nums_some]
    unfold pairResult
    congr 1
    cases hw : a.weights with
    | none => rfl
    | some w => simp [diffsOf, weightOf, hw, Function.comp_def]
  · simp only [Option.map_some, atRanks, List.map_map, Function.comp_def]
  · simp only [key1, List.map_map]; rfl
  · exact kw
  · cases a.times with
    | none => rfl
    | some w => simp only [Option.map_some, key]

/-- The differences used by class `c`. -/
def pairsOf (c : Cls) (a : Args) : List (ℕ × ℕ) :=
  match c with
  | .positive => growing (magOf a) (cutoff a - a.δ / 2) (timeOrder a)
  | _ => atRanks (timeOrder a) (ranksOf ((timeOrder a).map (magOf a)) a.δ (cutoff a))

/-- The bin sizes with which the class can round differences. -/
def binnable (c : Cls) (δ : ℝ) : Prop :=
  match c with
  | .positive => δ ≤ 0 ∨ 1 / 10 ^ 12 ≤ δ
  | _ => 1 / 10 ^ 12 ≤ δ

theorem timeOrder_nil {a : Args} (h : usedIdx a = []) : timeOrder a = [] := by
  have := timeOrder_perm a
  rw [h] at this
  exact List.perm_nil.1 this

theorem pairsOf_nil {c : Cls} {a : Args} (h : usedIdx a = []) : pairsOf c a = [] := by
  unfold pairsOf
  rw [timeOrder_nil h]
  cases c <;> rfl

theorem used_nil_iff {a : Args} (hv : Valid a) : used a = [] ↔ usedIdx a = [] := by
  rw [← List.length_eq_zero_iff, ← List.length_eq_zero_iff, used_length hv]

theorem run_empty {c : Cls} (hc : c = .positive ∨ c = .morePositive) (warn : Bool) (s : State) (a : Args)
    (hv : Valid a) (hd : 0 ≤ cutoff a) (he : usedIdx a = []) :
    ∃ s', calculate c warn s a = (s', .ok .nan) ∧ Uses a s' [] := by
  have ht : gatherOpt a.times (usedIdx a) = .ok (a.times.map fun _ => []) := by
    rw [he]; cases a.times <;> rfl
  obtain ⟨w, hw⟩ := calculate_positive_valid hc warn s a hv hd _ ht
  rw [if_pos ((used_nil_iff hv).2 he)] at hw
  refine ⟨_, hw, ?_, ?_, ?_, ?_⟩
  · simp [usedState, he]
  · simp [usedState, (used_nil_iff hv).2 he, diffsOf]
  · simp [usedState, (used_nil_iff hv).2 he]
  · simp [usedState]

theorem run_nonempty {c : Cls} (hc : c = .positive ∨ c = .morePositive) (warn : Bool) (s : State)
    (a : Args) (hv : Valid a) (hd : 0 ≤ cutoff a) (hne : usedIdx a ≠ []) {t : Option (List ℝ)}
    (ht : gatherOpt a.times (usedIdx a) = .ok t) (hδ : binnable c a.δ) :
    ∃ s', calculate c warn s a = (s', pairResult a (diffsOf a (pairsOf c a))) ∧
      Uses a s' (pairsOf c a) := by
  obtain ⟨w, hw⟩ := calculate_positive_valid hc warn s a hv hd _ ht
  rw [if_neg (fun h => hne ((used_nil_iff hv).1 h))] at hw
  have hst : ∀ p : State × Py (Fl ℝ), Uses a p.1 (pairsOf c a) → Uses a (store p).1 (pairsOf c a) := by
    rintro ⟨p, _ | _⟩ h
    · exact h
    · exact ⟨h.idx, h.mags, h.weights, h.times⟩
  rw [hw]
  rcases hc with rfl | rfl
  · obtain ⟨s', e, u⟩ := estimatePositive_used (warn := warn) hv ht
      (s := { s with times := a.times, dmc := some (a.dmc.getD a.δ), warned := w }) rfl hδ
    refine ⟨(store (s', pairResult a (diffsOf a (pairsOf .positive a)))).1, Prod.ext ?_ ?_, hst _ u⟩
    · simp only [estimate]; rw [e]; rfl
    · rw [store_snd]; simp only [estimate]; rw [e]; rfl
  · obtain ⟨s', e, u⟩ := estimateMorePositive_used (warn := warn) hv ht
      (s := { s with times := a.times, dmc := some (a.dmc.getD a.δ), warned := w }) rfl hδ
    refine ⟨(store (s', pairResult a (diffsOf a (pairsOf .morePositive a)))).1, Prod.ext ?_ ?_, hst _ u⟩
    · simp only [estimate]; rw [e]; rfl
    · rw [store_snd]; simp only [estimate]; rw [e]; rfl

/-- A bin size below 1e-12 that is not zero (or not positive) cannot be used. -/
theorem run_tiny {c : Cls} (hc : c = .positive ∨ c = .morePositive) (warn : Bool) (s : State)
    (a : Args) (hv : Valid a) (hd : 0 ≤ cutoff a) (hne : usedIdx a ≠ []) {t : Option (List ℝ)}
    (ht : gatherOpt a.times (usedIdx a) = .ok t) (hδ : ¬ binnable c a.δ) :
    (calculate c warn s a).2 = .error .valueError := by
  obtain ⟨w, hw⟩ := calculate_positive_valid hc warn s a hv hd _ ht
  rw [if_neg (fun h => hne ((used_nil_iff hv).1 h))] at hw
  rw [hw, store_snd]
  generalize hu : usedState { s with times := a.times, dmc := some (a.dmc.getD a.δ), warned := w } warn a t = u
  have h1 : ∀ v : State, (sortByTime v).δ = v.δ := by
    intro v; unfold sortByTime; cases v.times <;> rfl
  have h2 : ∀ v : State, (sortOriginals v).δ = v.δ := by
    intro v; unfold sortOriginals; cases v.times <;> rfl
  have h3 : u.δ = some a.δ := by rw [← hu]; rfl
  rcases hc with rfl | rfl
  · simp only [binnable, not_or, not_le] at hδ
    unfold estimate
    simp only [estimatePositive, h1, h3, Option.getD_some, binDiffs, binArr, eps, hδ.1, hδ.2, if_true]
  · simp only [binnable, not_le] at hδ
    unfold estimate
    simp only [estimateMorePositive, h1, h2, h3, Option.getD_some, binArr, eps, hδ, if_true]

/-- Everything a successful call of a time-ordered estimator says. -/
theorem run_ok {c : Cls} (hc : c = .positive ∨ c = .morePositive) {warn : Bool} {s s' : State}
    {a : Args} {r : Fl ℝ} (h : calculate c warn s a = (s', .ok r)) :
    Uses a s' (pairsOf c a) ∧
      ((usedIdx a = [] ∧ r = .nan) ∨
        (usedIdx a ≠ [] ∧ binnable c a.δ ∧ pairResult a (diffsOf a (pairsOf c a)) = .ok r)) := by
  have hv : Valid a := valid_of_ok (c := c) (warn := warn) (s := s) (r := r) (by rw [h])
  have hd := dmc_nonneg_of_ok hc h
  obtain ⟨t, ht⟩ := times_of_ok hc h
  by_cases he : usedIdx a = []
  · obtain ⟨s'', e, u⟩ := run_empty hc warn s a hv hd he
    rw [e] at h
    simp only [Prod.mk.injEq, Except.ok.injEq] at h
    obtain ⟨rfl, rfl⟩ := h
    rw [pairsOf_nil he]
    exact ⟨u, Or.inl ⟨he, rfl⟩⟩
  · by_cases hδ : binnable c a.δ
    · obtain ⟨s'', e, u⟩ := run_nonempty hc warn s a hv hd he ht hδ
      rw [e] at h
      simp only [Prod.mk.injEq] at h
      obtain ⟨rfl, h⟩ := h
      exact ⟨u, Or.inr ⟨he, hδ, h⟩⟩
    · have := run_tiny hc warn s a hv hd he ht hδ
      rw [h] at this; cases this

theorem diffsOf_ones {a : Args} (h : a.weights = none) (l : List (ℕ × ℕ)) : ∀ q ∈ diffsOf a l, q.2 = 1 := by
  intro q hq
  unfold diffsOf at hq
  obtain ⟨p, -, rfl⟩ := List.mem_map.1 hq
  simp [weightOf, h]

/-! ## C22 -/

/-- C22: after a successful `calculate`, the used differences are those of time-consecutive
selected events that grow by at least `dmc - delta_m/2`, with `idx`, `weights` and
`times` of the later event. -/
theorem C22_differences {warn : Bool} {s s' : State} {a : Args} {r : Fl ℝ}
    (h : calculate .positive warn s a = (s', .ok r)) :
    ∃ idx o, Spec.Positions a.mags (a.mc - a.δ / 2) idx ∧ TimeOrdered a.times idx o ∧
      Uses a s' (growing (magOf a) (cutoff a - a.δ / 2) o) :=
  ⟨usedIdx a, timeOrder a, positions_usedIdx a, timeOrdered a, (run_ok (Or.inl rfl) h).1⟩

/-- C22: with distinct times the order `o` in `C22_differences` is determined. -/
theorem C22_order_unique {t : List ℝ} {idx o o' : List ℕ} (h : TimeOrdered (some t) idx o)
    (h' : TimeOrdered (some t) idx o') (hd : ∀ i ∈ idx, ∀ j ∈ idx, t.getD i 0 = t.getD j 0 → i = j) :
    o = o' := by
  have hp := h.perm.trans h'.perm.symm
  refine hp.eq_of_pairwise (le := fun i j => t.getD i 0 ≤ t.getD j 0) ?_ (h.sorted t rfl) (h'.sorted t rfl)
  intro i j hi hj h1 h2
  exact hd i (h.perm.mem_iff.1 hi) j (h'.perm.mem_iff.1 hj) (le_antisymm h1 h2)

/-- C22: magnitudes on a grid `x0 + k delta_m` (or any magnitudes if `delta_m = 0`): the
used values are the differences themselves. -/
theorem C22_grid_differences (a : Args) (x0 : ℝ) (l : List (ℕ × ℕ))
    (hg : a.δ = 0 ∨ (0 < a.δ ∧ ∀ p ∈ l, (∃ k : ℤ, magOf a p.1 = x0 + k * a.δ) ∧
      ∃ k : ℤ, magOf a p.2 = x0 + k * a.δ)) :
    (diffsOf a l).map Prod.fst = l.map fun p => magOf a p.2 - magOf a p.1 := by
  unfold diffsOf
  rw [List.map_map]
  apply List.map_congr_left
  intro p hp
  simp only [Function.comp_apply, onGrid]
  rcases hg with h0 | ⟨hpos, hg⟩
  · simp [h0]
  · rw [if_pos hpos]
    obtain ⟨⟨k, hk⟩, ⟨k', hk'⟩⟩ := hg p hp
    have : magOf a p.2 - magOf a p.1 = ((k' - k : ℤ) : ℝ) * a.δ := by rw [hk, hk']; push_cast; ring
    rw [this, binTo_int_mul hpos.ne']

theorem onGrid_ge {δ d : ℝ} (k : ℤ) (hd : d = k * δ ∨ δ = 0) (hδ : 0 ≤ δ) {x : ℝ}
    (h : d - δ / 2 ≤ x) : d ≤ onGrid δ x := by
  unfold onGrid
  rcases hδ.lt_or_eq with hpos | h0
  · rw [if_pos hpos]
    rcases hd with hd | hd
    · have h1 := binTo_mono hpos h
      refine le_trans ?_ h1
      rw [hd, show (k : ℝ) * δ - δ / 2 = -δ / 2 + k * δ by ring, binTo_add_int_mul hpos.ne']
      have : binTo δ (-δ / 2) = 0 := by
        unfold binTo
        have : roundToInt (-δ / 2 / δ) = 0 := by
          unfold roundToInt
          rw [show -δ / 2 / δ = -(1 / 2 : ℝ) by field_simp, Int.floor_eq_iff]
          constructor
          · have := eps_pos (K := ℝ); push_cast; linarith
          · have := eps_lt_half (K := ℝ); push_cast; linarith
        rw [this]; simp
      rw [this]; linarith
    · exact absurd hd hpos.ne'
  · rw [if_neg (by rw [← h0]; exact lt_irrefl _)]
    rw [← h0] at h; linarith

/-- C22: if `dmc` is a multiple of `delta_m` (in particular by default), or `delta_m = 0`,
every used difference is at least `dmc`; in any case the raw one is at least `dmc - delta_m/2`. -/
theorem C22_lower_bound (a : Args) (o : List ℕ) (hδ : 0 ≤ a.δ) (k : ℤ)
    (hd : cutoff a = k * a.δ ∨ a.δ = 0) :
    ∀ q ∈ diffsOf a (growing (magOf a) (cutoff a - a.δ / 2) o), cutoff a ≤ q.1 := by
  intro q hq
  unfold diffsOf growing at hq
  obtain ⟨p, hp, rfl⟩ := List.mem_map.1 hq
  have := (List.mem_filter.1 hp).2
  exact onGrid_ge k hd hδ (by simpa using this)

/-- C22: for a nonempty selection the result is the maximum likelihood estimate from
the used differences with cutoff `dmc`. -/
theorem C22_result_is_mle {warn : Bool} {s s' : State} {a : Args} {r : Fl ℝ}
    (h : calculate .positive warn s a = (s', .ok r)) :
    ∃ idx o, Spec.Positions a.mags (a.mc - a.δ / 2) idx ∧ TimeOrdered a.times idx o ∧
      ∀ L, L = diffsOf a (growing (magOf a) (cutoff a - a.δ / 2) o) → 0 < Spec.total L →
        cutoff a < Spec.wmean L →
        ∃ b, r = .fin b ∧ 0 < b ∧ ∀ β, 0 < β → β ≠ b * Real.log 10 →
          Spec.logLik (law (cutoff a) a.δ) L β < Spec.logLik (law (cutoff a) a.δ) L (b * Real.log 10) := by
  refine ⟨usedIdx a, timeOrder a, positions_usedIdx a, timeOrdered a, ?_⟩
  intro L hL ht hm
  rcases (run_ok (Or.inl rfl) h).2 with ⟨he, -⟩ | ⟨-, -, hr⟩
  · exfalso
    rw [hL, timeOrder_nil he] at ht
    simp [growing, diffsOf, Spec.total] at ht
  · have hL' : diffsOf a (pairsOf .positive a) = L := hL.symm
    rw [hL'] at hr
    obtain ⟨b, hb, h0, hmax⟩ := pairResult_mle a L
      (fun hw => by rw [hL]; exact diffsOf_ones hw _) ht hm
    rw [hb] at hr
    simp only [Except.ok.injEq] at hr
    exact ⟨b, hr.symm, h0, hmax⟩

/-- C22: `dmc < 0` raises ValueError, whatever the data and the history. -/
theorem C22_negative_dmc {c : Cls} (hc : c = .positive ∨ c = .morePositive) (warn : Bool) (s : State)
    (a : Args) (h : cutoff a < 0) : (calculate c warn s a).2 = .error .valueError := by
  unfold cutoff at h
  unfold calculate
  rcases hc with rfl | rfl <;> simp only [h, if_true]

/-- C22: accepted input with enough times and a usable bin size whose selected magnitudes never
grow by `dmc - delta_m/2`: without weights the result is NaN, with weights the call raises
ZeroDivisionError (a finding: the two should agree). -/
theorem C22_no_difference (warn : Bool) (s : State) (a : Args) (ha : Accepted a) (hd : 0 ≤ cutoff a)
    (hδ : a.δ = 0 ∨ 1 / 10 ^ 12 ≤ a.δ) (ht : ∀ t, a.times = some t → a.mags.length ≤ t.length)
    (hne : ∃ m, some m ∈ a.mags ∧ a.mc - a.δ / 2 ≤ m)
    (hno : ∀ idx o, Spec.Positions a.mags (a.mc - a.δ / 2) idx → TimeOrdered a.times idx o →
      growing (magOf a) (cutoff a - a.δ / 2) o = []) :
    (calculate .positive warn s a).2 =
      if a.weights.isSome then .error .zeroDivision else .ok .nan := by
  have hv := (accepted_iff a).1 ha
  have hn := hno _ _ (positions_usedIdx a) (timeOrdered a)
  have hg : ∃ t, gatherOpt a.times (usedIdx a) = .ok t := by
    cases hta : a.times with
    | none => exact ⟨none, rfl⟩
    | some t =>
      unfold gatherOpt
      simp only []
      rw [gather_ok t (usedIdx a) 0 (fun i hi => lt_of_lt_of_le (selIdx_lt hi) (ht t hta))]
      exact ⟨_, rfl⟩
  obtain ⟨t, hg⟩ := hg
  have hi : usedIdx a ≠ [] := by
    obtain ⟨m, h1, h2⟩ := hne
    obtain ⟨i, hi⟩ := List.getElem?_of_mem h1
    intro h0
    have := ((positions_usedIdx a).mem i).2 ⟨m, hi, h2⟩
    rw [h0] at this; cases this
  have hb : binnable .positive a.δ := by
    rcases hδ with h | h
    · exact Or.inl h.le
    · exact Or.inr h
  obtain ⟨s', e, -⟩ := run_nonempty (Or.inl rfl) warn s a hv hd hi hg hb
  rw [e]
  have : pairsOf .positive a = [] := hn
  rw [this]
  unfold pairResult diffsOf
  cases hw : a.weights with
  | none => simp only [Option.isSome_none, Bool.false_eq_true, if_false, List.map_nil]; exact mle_nil _ _
  | some w =>
    simp only [Option.isSome_some, if_true, List.map_nil]
    exact mle_zero [] _ _ rfl

/-! ## C25 -/

/-- C25: after a successful `calculate`, each selected event having a later one larger by at least
`dmc - delta_m/2` contributes the difference to the first such event, once, in time order, with
`idx`, `weights` and `times` of the later event. -/
theorem C25_pairs {warn : Bool} {s s' : State} {a : Args} {r : Fl ℝ}
    (h : calculate .morePositive warn s a = (s', .ok r)) :
    ∃ idx o ranks, Spec.Positions a.mags (a.mc - a.δ / 2) idx ∧ TimeOrdered a.times idx o ∧
      NextLarger (o.map (magOf a)) (cutoff a - a.δ / 2) ranks ∧ Uses a s' (atRanks o ranks) :=
  ⟨usedIdx a, timeOrder a, _, positions_usedIdx a, timeOrdered a, ranksOf_spec _ _ _,
    (run_ok (Or.inr rfl) h).1⟩

/-- C25: the ranks are determined by the magnitudes. -/
theorem C25_ranks_unique {m : List ℝ} {thr : ℝ} {r r' : List (ℕ × ℕ)} (h : NextLarger m thr r)
    (h' : NextLarger m thr r') : r = r' := by
  have p1 : r.Pairwise fun x y => x.1 < y.1 := by simpa [List.pairwise_map] using h.increasing
  have p2 : r'.Pairwise fun x y => x.1 < y.1 := by simpa [List.pairwise_map] using h'.increasing
  apply List.Perm.eq_of_pairwise (le := fun x y : ℕ × ℕ => x.1 < y.1)
    (fun a b _ _ h1 h2 => by omega) p1 p2
  rw [List.perm_ext_iff_of_nodup]
  · rintro ⟨i, j⟩; rw [h.mem, h'.mem]
  · exact p1.imp (fun h e => by rw [e] at h; omega)
  · exact p2.imp (fun h e => by rw [e] at h; omega)

/-- C25: every used raw difference is at least `dmc - delta_m/2`, and every used value at least
`dmc` if `dmc` is a multiple of `delta_m`. -/
theorem C25_lower_bound (a : Args) (o : List ℕ) (ranks : List (ℕ × ℕ)) (hδ : 0 ≤ a.δ) (k : ℤ)
    (hr : NextLarger (o.map (magOf a)) (cutoff a - a.δ / 2) ranks) :
    (∀ p ∈ atRanks o ranks, cutoff a - a.δ / 2 ≤ magOf a p.2 - magOf a p.1) ∧
      (cutoff a = k * a.δ ∨ a.δ = 0 → ∀ q ∈ diffsOf a (atRanks o ranks), cutoff a ≤ q.1) := by
  have h1 : ∀ p ∈ atRanks o ranks, cutoff a - a.δ / 2 ≤ magOf a p.2 - magOf a p.1 := by
    intro p hp
    unfold atRanks at hp
    obtain ⟨⟨i, j⟩, hij, rfl⟩ := List.mem_map.1 hp
    obtain ⟨-, ⟨x, y, hx, hy, hxy⟩, -⟩ := (hr.mem i j).1 hij
    rw [List.getElem?_map, Option.map_eq_some_iff] at hx hy
    obtain ⟨u, hu, rfl⟩ := hx
    obtain ⟨v, hv, rfl⟩ := hy
    simpa [List.getD_eq_getElem?_getD, hu, hv] using hxy
  refine ⟨h1, fun hd q hq => ?_⟩
  unfold diffsOf at hq
  obtain ⟨p, hp, rfl⟩ := List.mem_map.1 hq
  exact onGrid_ge k hd hδ (h1 p hp)

/-- C25: for a nonempty selection the result is the maximum likelihood estimate from the used
differences with cutoff `dmc`. -/
theorem C25_result_is_mle {warn : Bool} {s s' : State} {a : Args} {r : Fl ℝ}
    (h : calculate .morePositive warn s a = (s', .ok r)) :
    ∃ idx o ranks, Spec.Positions a.mags (a.mc - a.δ / 2) idx ∧ TimeOrdered a.times idx o ∧
      NextLarger (o.map (magOf a)) (cutoff a - a.δ / 2) ranks ∧
      ∀ L, L = diffsOf a (atRanks o ranks) → 0 < Spec.total L → cutoff a < Spec.wmean L →
        ∃ b, r = .fin b ∧ 0 < b ∧ ∀ β, 0 < β → β ≠ b * Real.log 10 →
          Spec.logLik (law (cutoff a) a.δ) L β < Spec.logLik (law (cutoff a) a.δ) L (b * Real.log 10) := by
  refine ⟨usedIdx a, timeOrder a, _, positions_usedIdx a, timeOrdered a,
    ranksOf_spec _ a.δ (cutoff a), ?_⟩
  intro L hL ht hm
  rcases (run_ok (Or.inr rfl) h).2 with ⟨he, -⟩ | ⟨-, -, hr⟩
  · exfalso
    have : pairsOf .morePositive a = [] := pairsOf_nil he
    have hL' : L = diffsOf a (pairsOf .morePositive a) := hL
    rw [hL', this] at ht
    simp [diffsOf, Spec.total] at ht
  · have hL' : diffsOf a (pairsOf .morePositive a) = L := hL.symm
    rw [hL'] at hr
    obtain ⟨b, hb, h0, hmax⟩ := pairResult_mle a L
      (fun hw => by rw [hL]; exact diffsOf_ones hw _) ht hm
    rw [hb] at hr
    simp only [Except.ok.injEq] at hr
    exact ⟨b, hr.symm, h0, hmax⟩

/-- A finding about C25: with `delta_m = 0` (continuous magnitudes, which the other estimators
accept) every accepted call with a non-empty selection and enough times raises ValueError. -/
theorem C25_continuous_magnitudes_raise (warn : Bool) (s : State) (a : Args) (ha : Accepted a)
    (hd : 0 ≤ cutoff a) (hδ : a.δ < 1 / 10 ^ 12) (ht : ∀ t, a.times = some t → a.mags.length ≤ t.length)
    (hne : ∃ m, some m ∈ a.mags ∧ a.mc - a.δ / 2 ≤ m) :
    (calculate .morePositive warn s a).2 = .error .valueError := by
  have hv := (accepted_iff a).1 ha
  have hg : ∃ t, gatherOpt a.times (usedIdx a) = .ok t := by
    cases hta : a.times with
    | none => exact ⟨none, rfl⟩
    | some t =>
      unfold gatherOpt
      simp only []
      rw [gather_ok t (usedIdx a) 0 (fun i hi => lt_of_lt_of_le (selIdx_lt hi) (ht t hta))]
      exact ⟨_, rfl⟩
  obtain ⟨t, hg⟩ := hg
  have hi : usedIdx a ≠ [] := by
    obtain ⟨m, h1, h2⟩ := hne
    obtain ⟨i, hi⟩ := List.getElem?_of_mem h1
    intro h0
    have := ((positions_usedIdx a).mem i).2 ⟨m, hi, h2⟩
    rw [h0] at this; cases this
  exact run_tiny (Or.inr rfl) warn s a hv hd hi hg (by simpa [binnable] using hδ)

end
end SeismoStats.Props
