/-
The differences between consecutive recorded magnitudes when events are missing: what is recorded may depend on the past.
-/
import Verif.Proofs.Adapted
import Verif.Proofs.Above
import Verif.Proofs.NextLaw
import Verif.Props.Consistency

namespace SeismoStats.Props
open SeismoStats SeismoStats.Simulate BValue MeasureTheory ProbabilityTheory Filter Topology
open Classical
noncomputable section

/-! ### The last recorded event -/

/-- One and the value of the last event before `k` that was seen, or zero if there is none. -/
def lastSeen (seen : ℕ → Prop) (v : ℕ → ℝ) : ℕ → ℝ × ℝ
  | 0 => (0, 0)
  | k + 1 => if seen k then (1, v k) else lastSeen seen v k

theorem lastSeen_cases (seen : ℕ → Prop) (v : ℕ → ℝ) (k : ℕ) :
    (lastSeen seen v k = (0, 0) ∧ ∀ j < k, ¬ seen j) ∨ ∃ j < k, seen j ∧ (∀ l, j < l → l < k → ¬ seen l) ∧ lastSeen seen v k = (1, v j) := by
  induction k with
  | zero => exact Or.inl ⟨rfl, fun j hj => absurd hj (Nat.not_lt_zero j)⟩
  | succ k ih =>
    by_cases h : seen k
    · refine Or.inr ⟨k, Nat.lt_succ_self k, h, fun l h1 h2 => absurd h2 (by omega), ?_⟩
      simp only [lastSeen, if_pos h]
    · simp only [lastSeen, if_neg h]
      rcases ih with ⟨e, hj⟩ | ⟨j, hj, hs, hl, e⟩
      · refine Or.inl ⟨e, fun j hj' => ?_⟩
        rcases Nat.lt_succ_iff_lt_or_eq.1 hj' with h1 | rfl
        exacts [hj j h1, h]
      · refine Or.inr ⟨j, by omega, hs, fun l h1 h2 => ?_, e⟩
        rcases Nat.lt_succ_iff_lt_or_eq.1 h2 with h3 | rfl
        exacts [hl l h1 h3, h]

theorem getLast_recorded (seen : ℕ → Prop) (v : ℕ → ℝ) (n : ℕ) :
    ((((List.range n).filter fun i => decide (seen i)).map v) = [] ∧ lastSeen seen v n = (0, 0)) ∨
      ∃ L x, (((List.range n).filter fun i => decide (seen i)).map v) = L ++ [x] ∧ lastSeen seen v n = (1, x) := by
  induction n with
  | zero => exact Or.inl ⟨rfl, rfl⟩
  | succ n ih =>
    rw [List.range_succ, List.filter_append, List.map_append]
    by_cases h : seen n
    · refine Or.inr ⟨((List.range n).filter fun i => decide (seen i)).map v, v n, ?_, ?_⟩
      · rw [List.filter_cons_of_pos (by simpa using h)]; rfl
      · simp only [lastSeen, if_pos h]
    · rw [List.filter_cons_of_neg (by simpa using h)]
      simp only [lastSeen, if_neg h, List.filter_nil, List.map_nil, List.append_nil]
      exact ih

theorem zip_tail_append (L : List ℝ) (x y : ℝ) : List.zip (L ++ [x] ++ [y]) (L ++ [x] ++ [y]).tail = List.zip (L ++ [x]) (L ++ [x]).tail ++ [(x, y)] := by
  induction L with
  | nil => rfl
  | cons a L ih =>
    cases L with
    | nil => rfl
    | cons b L =>
      simp only [List.cons_append, List.tail_cons, List.zip_cons_cons] at ih ⊢
      rw [ih]

/-- Sum over the growing pairs of consecutive seen events. -/
theorem pairs_sum (seen : ℕ → Prop) (X : ℕ → ℝ) (thr : ℝ) (f : ℝ → ℝ) (n : ℕ) :
    (((List.zip (((List.range n).filter fun i => decide (seen i)).map X) (((List.range n).filter fun i => decide (seen i)).map X).tail).filter
      fun p => decide (thr ≤ p.2 - p.1)).map fun p => f (p.2 - p.1)).sum =
      ∑ i ∈ Finset.range n, if seen i ∧ (lastSeen seen X i).1 = 1 ∧ thr ≤ X i - (lastSeen seen X i).2 then f (X i - (lastSeen seen X i).2) else 0 := by
  induction n with
  | zero => rfl
  | succ n ih =>
    rw [Finset.sum_range_succ, ← ih, List.range_succ, List.filter_append, List.map_append]
    by_cases h : seen n
    · rw [show List.filter (fun i => decide (seen i)) [n] = [n] from List.filter_cons_of_pos (by simpa using h)]
      rcases getLast_recorded seen X n with ⟨e1, e2⟩ | ⟨L, x, e1, e2⟩
      · rw [e1, e2, if_neg (by rintro ⟨-, h, -⟩; exact zero_ne_one h)]
        simp
      · rw [e1, e2, show List.map X [n] = [X n] from rfl, zip_tail_append, List.filter_append, List.map_append, List.sum_append]
        congr 1
        by_cases hx : thr ≤ X n - x
        · rw [if_pos ⟨h, rfl, hx⟩, List.filter_cons_of_pos (by simpa using hx)]; simp
        · rw [if_neg (fun q => hx q.2.2), List.filter_cons_of_neg (by simpa using hx)]; simp
    · rw [show List.filter (fun i => decide (seen i)) [n] = [] from List.filter_cons_of_neg (by simpa using h), if_neg (fun q => h q.1)]
      simp

/-! ### The estimate -/

theorem zip_tail_map {α β : Type} (f : α → β) (I : List α) : List.zip (I.map f) (I.map f).tail = (List.zip I I.tail).map (Prod.map f f) := by
  rw [← List.map_tail, List.zip_map]

/-- b-positive from the differences between consecutive magnitudes at or above mc. -/
theorem positive_list (L : List ℝ) (mc δ d : ℝ) (hd : 0 ≤ d) (hδ : δ = 0 ∨ 1 / 10 ^ 12 ≤ δ ∧ ∀ m ∈ L, ∃ z : ℤ, m = z * δ) (M : List ℝ)
    (hM : M = L.filter fun m => decide (mc - δ / 2 ≤ m)) (D : List (ℝ × ℝ)) (hD : D = (List.zip M M.tail).filter fun p => decide (d - δ / 2 ≤ p.2 - p.1)) (hne : D ≠ [])
    (hpos : 0 < (D.map fun p => p.2 - p.1 - d).sum / D.length) (warn : Bool) (s : State) :
    (calculate .positive warn s (callOf L mc δ (some d))).2 = .ok (.fin (betaVal ((D.map fun p => p.2 - p.1 - d).sum / D.length) δ / Real.log 10)) := by
  set a := callOf L mc δ (some d) with ha
  have hacc : Accepted a := accepted_all _ mc δ _ hδ
  set I := usedIdx a with hI
  have hmagI : ∀ i ∈ I, i < L.length ∧ magOf a i = L.getD i 0 := by
    intro i hi
    have hi' : i < L.length := by
      have := (List.mem_filter.1 hi).1
      rw [List.mem_range] at this
      simpa [ha, callOf] using this
    refine ⟨hi', ?_⟩
    unfold magOf
    rw [ha]
    unfold callOf
    simp only
    rw [List.getD_eq_getElem _ _ (by simpa using hi'), List.getD_eq_getElem _ _ hi']
    simp
  have hIM : I.map (magOf a) = M := by
    have e1 : I.map (magOf a) = I.map fun i => L.getD i 0 := List.map_congr_left fun i hi => (hmagI i hi).2
    rw [e1, hM, hI]
    unfold usedIdx selIdx
    rw [ha]
    unfold callOf
    simp only [List.length_map]
    have e2 : L = (List.range L.length).map fun i => L.getD i 0 := by
      apply List.ext_getElem
      · simp
      · intro i h1 h2
        simp [List.getD_eq_getElem?_getD, h1]
    conv_rhs => rw [e2, List.filter_map]
    congr 1
    apply List.filter_congr
    intro i hi
    rw [List.mem_range] at hi
    simp only [Function.comp_apply]
    rw [List.getD_eq_getElem _ _ (by simpa using hi), List.getD_eq_getElem _ _ hi]
    simp
  have hpairs : (pairsOf .positive a).map (Prod.map (magOf a) (magOf a)) = D := by
    change (growing (magOf a) (cutoff a - a.δ / 2) (timeOrder a)).map _ = D
    have e : timeOrder a = I := rfl
    unfold growing
    rw [e, hD, ← hIM, zip_tail_map, List.filter_map]
    rfl
  have hMgrid : δ = 0 ∨ 0 < δ ∧ ∀ m ∈ M, ∃ z : ℤ, m = z * δ := by
    rcases hδ with h | ⟨h1, h2⟩
    · exact Or.inl h
    · exact Or.inr ⟨lt_of_lt_of_le (by positivity) h1, fun m hm => h2 m (by rw [hM] at hm; exact (List.mem_filter.1 hm).1)⟩
  have hL : diffsOf a (pairsOf .positive a) = D.map fun p => (p.2 - p.1, (1 : ℝ)) := by
    rw [← hpairs]
    unfold diffsOf
    rw [List.map_map]
    apply List.map_congr_left
    intro p hp
    simp only [Function.comp_apply, Prod.map_fst, Prod.map_snd]
    refine Prod.ext ?_ rfl
    change onGrid δ _ = _
    unfold onGrid
    rcases hMgrid with h | ⟨h1, h2⟩
    · rw [if_neg (by rw [h]; exact lt_irrefl 0)]
    · have hq : Prod.map (magOf a) (magOf a) p ∈ D := by rw [← hpairs]; exact List.mem_map_of_mem hp
      rw [hD] at hq
      have hz := (List.mem_filter.1 hq).1
      obtain ⟨m1, m2⟩ := List.of_mem_zip (a := magOf a p.1) (b := magOf a p.2) hz
      obtain ⟨y, hy⟩ := h2 _ m1
      obtain ⟨z, hz⟩ := h2 _ (List.mem_of_mem_tail m2)
      rw [if_pos h1, hz, hy, ← sub_mul, ← Int.cast_sub]
      exact binTo_int_mul h1.ne' _
  have hDl : (0 : ℝ) < D.length := by exact_mod_cast List.length_pos_iff.2 hne
  have huse : I ≠ [] := by
    intro h
    rw [h] at hIM
    rw [← hIM] at hD
    exact hne (by rw [hD]; rfl)
  obtain ⟨s', e, -⟩ := run_nonempty (Or.inl rfl) warn s a ((accepted_iff a).1 hacc) hd huse (t := none) rfl
    (by rcases hδ with h | ⟨h, -⟩
        · exact Or.inl (le_of_eq h)
        · exact Or.inr h)
  rw [e]
  simp only
  have htot : Spec.total (diffsOf a (pairsOf .positive a)) = D.length := by
    unfold Spec.total
    rw [hL, List.map_map, show (Prod.snd ∘ fun p : ℝ × ℝ => (p.2 - p.1, (1 : ℝ))) = fun _ => (1 : ℝ) from rfl]
    simp
  have hmean : Spec.wmean (diffsOf a (pairsOf .positive a)) - cutoff a = (D.map fun p => p.2 - p.1 - d).sum / D.length := by
    have e2 : ((diffsOf a (pairsOf .positive a)).map Prod.snd).sum = D.length := htot
    unfold Spec.wmean
    rw [e2, show cutoff a = d from rfl, hL, List.map_map]
    have e3 : (D.map fun p => p.2 - p.1 - d).sum = (D.map fun p => p.2 - p.1).sum - D.length * d := by
      clear hD hne hpairs hpos hL hDl htot e2
      induction D with
      | nil => simp
      | cons q D ih => simp only [List.map_cons, List.sum_cons, ih, List.length_cons]; push_cast; ring
    rw [e3, show (D.map ((fun q : ℝ × ℝ => q.2 * q.1) ∘ fun p : ℝ × ℝ => (p.2 - p.1, (1 : ℝ)))) = D.map fun p => p.2 - p.1 from
      List.map_congr_left fun p _ => by simp]
    field_simp
  unfold pairResult
  rw [mle_of_pairs _ _ (fun _ => diffsOf_ones rfl _) _ _ (by rw [htot]; exact hDl.ne'), hmean]
  rw [show a.δ = δ from rfl, betaOf_pos hpos]
  rfl

/-! ### Enough large events -/

theorem sum_infinite {u : ℕ → ℝ} (hu : ∀ k, u k = 0 ∨ u k = 1) (h : ∀ N, ∃ k, N ≤ k ∧ u k = 1) : Tendsto (fun n => ∑ k ∈ Finset.range n, u k) atTop atTop := by
  have h0 : ∀ k, 0 ≤ u k := fun k => by rcases hu k with e | e <;> rw [e]; norm_num
  have hmono : Monotone fun n => ∑ k ∈ Finset.range n, u k :=
    monotone_nat_of_le_succ fun n => by rw [Finset.sum_range_succ]; linarith [h0 n]
  refine tendsto_atTop_atTop_of_monotone hmono fun b => ?_
  have : ∀ m : ℕ, ∃ n, (m : ℝ) ≤ ∑ k ∈ Finset.range n, u k := by
    intro m
    induction m with
    | zero => exact ⟨0, by simp⟩
    | succ m ih =>
      obtain ⟨n, hn⟩ := ih
      obtain ⟨k, hk, e⟩ := h n
      refine ⟨k + 1, ?_⟩
      have := hmono hk
      simp only at this
      rw [Finset.sum_range_succ, e]
      push_cast
      linarith
  obtain ⟨m, hm⟩ := exists_nat_ge b
  obtain ⟨n, hn⟩ := this m
  exact ⟨n, hm.trans hn⟩

theorem exists_of_infinite {u : ℕ → ℝ} (hu : ∀ k, u k = 0 ∨ u k = 1) (h : Tendsto (fun n => ∑ k ∈ Finset.range n, u k) atTop atTop) (N : ℕ) : ∃ k, N ≤ k ∧ u k = 1 := by
  by_contra hc
  push Not at hc
  have hz : ∀ k, N ≤ k → u k = 0 := fun k hk => (hu k).resolve_right (hc k hk)
  have hconst : ∀ j, ∑ k ∈ Finset.range (N + j), u k = ∑ k ∈ Finset.range N, u k := by
    intro j
    induction j with
    | zero => rfl
    | succ j ih => rw [← add_assoc, Finset.sum_range_succ, ih, hz _ (by omega), add_zero]
  obtain ⟨n, hn, h1⟩ := ((eventually_ge_atTop N).and (h.eventually (eventually_gt_atTop (∑ k ∈ Finset.range N, u k)))).exists
  obtain ⟨j, rfl⟩ := Nat.exists_eq_add_of_le hn
  rw [hconst j] at h1
  exact lt_irrefl _ h1

/-- The largest value so far. -/
def runMax (v : ℕ → ℝ) : ℕ → ℝ
  | 0 => v 0
  | k + 1 => max (runMax v k) (v (k + 1))

theorem le_runMax (v : ℕ → ℝ) {j k : ℕ} (h : j ≤ k) : v j ≤ runMax v k := by
  induction k with
  | zero => rw [Nat.le_zero.1 h]; exact le_rfl
  | succ k ih =>
    rcases Nat.le_succ_iff.1 h with h1 | rfl
    · exact (ih h1).trans (le_max_left _ _)
    · exact le_max_right _ _

theorem runMax_le (v : ℕ → ℝ) (k : ℕ) {c : ℝ} (h : ∀ j ≤ k, v j ≤ c) : runMax v k ≤ c := by
  induction k with
  | zero => exact h 0 le_rfl
  | succ k ih => exact max_le (ih fun j hj => h j (by omega)) (h (k + 1) le_rfl)

section Draws
variable {Ω : Type} [m0 : MeasurableSpace Ω] {P : Measure Ω} [IsProbabilityMeasure P] {ℱ : Filtration ℕ m0} {E : ℕ → Ω → ℝ}

omit [IsProbabilityMeasure P] in
theorem runMax_adapted (hE : ∀ i, Measurable[ℱ i] (E i)) (k : ℕ) : Measurable[ℱ k] fun ω => runMax (fun j => E j ω) k := by
  induction k with
  | zero => exact hE 0
  | succ k ih => exact (ih.mono (ℱ.mono (Nat.le_succ k)) le_rfl).max (hE (k + 1))

theorem reach_integral (c : ℝ) : ∫ y, (if c ≤ y then (1 : ℝ) else 0) ∂(expMeasure 1) = Real.exp (-max c 0) := by
  have e : (fun y : ℝ => if c ≤ y then (1 : ℝ) else 0) = (Set.Ici c).indicator 1 := by
    funext y
    by_cases h : c ≤ y
    · rw [if_pos h, Set.indicator_of_mem (Set.mem_Ici.2 h)]; rfl
    · rw [if_neg h, Set.indicator_of_notMem (fun h' => h (Set.mem_Ici.1 h'))]
  rw [e, integral_indicator_one measurableSet_Ici, measureReal_def, exp_Ici, ENNReal.toReal_ofReal (Real.exp_pos _).le]

/-- The probabilities of exceeding the largest value so far have an infinite sum. -/
theorem records_infinite (hE : ∀ i, Measurable[ℱ i] (E i)) (hind : ∀ i, Indep (MeasurableSpace.comap (E (i + 1)) inferInstance) (ℱ i) P) (hl : ∀ i, P.map (E i) = expMeasure 1) :
    ∀ᵐ ω ∂P, Tendsto (fun n => ∑ k ∈ Finset.range n, Real.exp (-max (runMax (fun j => E j ω) k) 0)) atTop atTop := by
  have hP : IsProbabilityMeasure (expMeasure 1) := isProbabilityMeasure_expMeasure one_pos
  have h1 : ∀ m : ℕ, ∀ᵐ ω ∂P, ∀ N, ∃ k, N ≤ k ∧ (m : ℝ) ≤ E (k + 1) ω := by
    intro m
    have hψ : ∀ q : Unit × ℝ, (if (m : ℝ) ≤ q.2 then (1 : ℝ) else 0) = 0 ∨ (if (m : ℝ) ≤ q.2 then (1 : ℝ) else 0) = 1 := fun q => by split_ifs <;> simp
    have h := used_infinite (μ := expMeasure 1) (S := fun _ _ => ()) hE hind hl (fun k => measurable_const) (ψ := fun q : Unit × ℝ => if (m : ℝ) ≤ q.2 then (1 : ℝ) else 0)
      (Measurable.ite (measurableSet_le measurable_const measurable_snd) measurable_const measurable_const) hψ
    filter_upwards [h] with ω h N
    simp only [reach_integral] at h
    have h2 := h.2 (by
      simp only [Finset.sum_const, Finset.card_range, nsmul_eq_mul]
      exact Tendsto.atTop_mul_const (Real.exp_pos _) tendsto_natCast_atTop_atTop)
    obtain ⟨k, hk, e⟩ := exists_of_infinite (u := fun k => if (m : ℝ) ≤ E (k + 1) ω then (1 : ℝ) else 0) (fun k => hψ ((), E (k + 1) ω)) h2 N
    refine ⟨k, hk, ?_⟩
    by_contra hc
    simp only [if_neg hc] at e
    exact zero_ne_one e
  have hψ : ∀ q : ℝ × ℝ, (if q.1 ≤ q.2 then (1 : ℝ) else 0) = 0 ∨ (if q.1 ≤ q.2 then (1 : ℝ) else 0) = 1 := fun q => by split_ifs <;> simp
  have h2 := used_infinite (μ := expMeasure 1) hE hind hl (runMax_adapted hE) (ψ := fun q : ℝ × ℝ => if q.1 ≤ q.2 then (1 : ℝ) else 0)
    (Measurable.ite (measurableSet_le measurable_fst measurable_snd) measurable_const measurable_const) hψ
  filter_upwards [ae_all_iff.2 h1, h2] with ω h1 h2
  simp only [reach_integral] at h2
  refine h2.1 (sum_infinite (fun k => hψ _) fun N => ?_)
  -- the first event after N at or above the maximum until N
  obtain ⟨m, hm⟩ := exists_nat_gt (runMax (fun j => E j ω) N)
  have hex : ∃ i, runMax (fun j => E j ω) N < E i ω := by
    obtain ⟨k, -, hk⟩ := h1 m 0
    exact ⟨k + 1, hm.trans_le hk⟩
  set i := Nat.find hex with hi
  have hi1 : runMax (fun j => E j ω) N < E i ω := Nat.find_spec hex
  have hi2 : ∀ j < i, E j ω ≤ runMax (fun j => E j ω) N := fun j hj => not_lt.1 (Nat.find_min hex hj)
  have hNi : N < i := by
    by_contra hc
    exact absurd (le_runMax (fun j => E j ω) (not_lt.1 hc)) (not_le.2 hi1)
  obtain ⟨k, hk⟩ : ∃ k, i = k + 1 := ⟨i - 1, by omega⟩
  refine ⟨k, by omega, ?_⟩
  rw [hk] at hi1 hi2
  exact if_pos ((runMax_le _ k fun j hj => hi2 j (by omega)).trans hi1.le)

omit [IsProbabilityMeasure P] in
theorem lastSeen_adapted (hE : ∀ i, Measurable[ℱ i] (E i)) {seen : ℕ → Ω → Prop} (hs : ∀ i, MeasurableSet[ℱ i] {ω | seen i ω}) (k : ℕ) :
    Measurable[ℱ k] fun ω => lastSeen (fun i => seen i ω) (fun i => E i ω) (k + 1) := by
  have step : ∀ k (m : MeasurableSpace Ω), ℱ k ≤ m → Measurable[m] (fun ω => lastSeen (fun i => seen i ω) (fun i => E i ω) k) →
      Measurable[m] fun ω => lastSeen (fun i => seen i ω) (fun i => E i ω) (k + 1) := by
    intro k m hm ih
    simp only [lastSeen]
    exact Measurable.ite (hm _ (hs k)) ((measurable_const).prodMk ((hE k).mono hm le_rfl)) ih
  induction k with
  | zero => exact step 0 _ le_rfl (by simp only [lastSeen]; exact measurable_const)
  | succ k ih => exact step (k + 1) _ le_rfl (ih.mono (ℱ.mono (Nat.le_succ k)) le_rfl)

/-- The differences used, in terms of the draws: their number grows without bound and the mean of a function of the excess converges to that of a fresh draw. -/
theorem detected_mean (hE : ∀ i, Measurable[ℱ i] (E i)) (hind : ∀ i, Indep (MeasurableSpace.comap (E (i + 1)) inferInstance) (ℱ i) P) (hl : ∀ i, P.map (E i) = expMeasure 1)
    {seen : ℕ → Ω → Prop} (hs : ∀ i, MeasurableSet[ℱ i] {ω | seen i ω}) (hsome : ∀ᵐ ω ∂P, ∃ i, seen i ω)
    {a F : ℝ → ℝ} (ha : Measurable a) (ha0 : ∀ e, 0 < e → 0 ≤ a e) {K : ℝ} (haK : ∀ e, 0 < e → a e ≤ e + K) (hF : Measurable F) {L : ℝ} (hL0 : 0 ≤ L)
    (hF0 : ∫ u, F u ∂(expMeasure 1) = 0) (hF2 : ∫⁻ u, ENNReal.ofReal (F u ^ 2) ∂(expMeasure 1) = ENNReal.ofReal L) :
    ∀ᵐ ω ∂P, Tendsto (fun n => ∑ k ∈ Finset.range n, if (lastSeen (fun i => seen i ω) (fun i => E i ω) (k + 1)).1 = 1 ∧ a (lastSeen (fun i => seen i ω) (fun i => E i ω) (k + 1)).2 ≤ E (k + 1) ω
        then (1 : ℝ) else 0) atTop atTop ∧
      Tendsto (fun n => (∑ k ∈ Finset.range n, if (lastSeen (fun i => seen i ω) (fun i => E i ω) (k + 1)).1 = 1 ∧ a (lastSeen (fun i => seen i ω) (fun i => E i ω) (k + 1)).2 ≤ E (k + 1) ω
          then F (E (k + 1) ω - a (lastSeen (fun i => seen i ω) (fun i => E i ω) (k + 1)).2) else 0) /
        ∑ k ∈ Finset.range n, if (lastSeen (fun i => seen i ω) (fun i => E i ω) (k + 1)).1 = 1 ∧ a (lastSeen (fun i => seen i ω) (fun i => E i ω) (k + 1)).2 ≤ E (k + 1) ω
          then (1 : ℝ) else 0) atTop (𝓝 0) := by
  have hP : IsProbabilityMeasure (expMeasure 1) := isProbabilityMeasure_expMeasure one_pos
  have hpos : ∀ᵐ ω ∂P, ∀ i, 0 < E i ω := by
    refine ae_all_iff.2 fun i => ?_
    have h := exp_ae_pos
    rw [← hl i] at h
    exact ae_of_ae_map ((hE i).mono (ℱ.le i) le_rfl).aemeasurable h
  set S : ℕ → Ω → ℝ × ℝ := fun k ω => lastSeen (fun i => seen i ω) (fun i => E i ω) (k + 1) with hSd
  have hS : ∀ k, Measurable[ℱ k] (S k) := lastSeen_adapted hE hs
  set ψ : (ℝ × ℝ) × ℝ → ℝ := fun q => if q.1.1 = 1 ∧ a q.1.2 ≤ q.2 then 1 else 0 with hψd
  set G : (ℝ × ℝ) × ℝ → ℝ := fun q => if q.1.1 = 1 ∧ a q.1.2 ≤ q.2 then F (q.2 - a q.1.2) else 0 with hGd
  have hset : MeasurableSet {q : (ℝ × ℝ) × ℝ | q.1.1 = 1 ∧ a q.1.2 ≤ q.2} :=
    (measurableSet_eq_fun (measurable_fst.comp measurable_fst) measurable_const).inter (measurableSet_le (ha.comp (measurable_snd.comp measurable_fst)) measurable_snd)
  have hψm : Measurable ψ := Measurable.ite hset measurable_const measurable_const
  have hGm : Measurable G := Measurable.ite hset (hF.comp (measurable_snd.sub (ha.comp (measurable_snd.comp measurable_fst)))) measurable_const
  have hψ : ∀ q, ψ q = 0 ∨ ψ q = 1 := fun q => by rw [hψd]; simp only; split_ifs <;> simp
  have hSpos : ∀ᵐ ω ∂P, ∀ k, (S k ω).1 = 1 → 0 < (S k ω).2 := by
    filter_upwards [hpos] with ω hpos k h
    rcases lastSeen_cases (fun i => seen i ω) (fun i => E i ω) (k + 1) with ⟨e, -⟩ | ⟨j, -, -, -, e⟩
    · simp only [hSd, e] at h; exact absurd h zero_ne_one
    · simp only [hSd, e]; exact hpos j
  have hψ1 : ∀ s : ℝ × ℝ, s.1 = 1 → ∀ y, ψ (s, y) = if a s.2 ≤ y then 1 else 0 := fun s h y => by simp only [hψd, h, true_and]
  have hG1 : ∀ s : ℝ × ℝ, s.1 = 1 → ∀ y, G (s, y) = excessOf a F (s.2, y) := fun s h y => by simp only [hGd, h, true_and, excessOf]
  have hψ0 : ∀ s : ℝ × ℝ, s.1 ≠ 1 → ∀ y, ψ (s, y) = 0 := fun s h y => by simp only [hψd, h, false_and, if_false]
  have hG0 : ∀ s : ℝ × ℝ, s.1 ≠ 1 → ∀ y, G (s, y) = 0 := fun s h y => by simp only [hGd, h, false_and, if_false]
  have k1 := used_mean (μ := expMeasure 1) hE hind hl hS hψm hGm hψ hL0
    (fun k => by
      filter_upwards [hSpos] with ω h
      by_cases hc : (S k ω).1 = 1
      · simp only [hG1 _ hc]
        exact excess_mean_zero hF hF0 (ha0 _ (h k hc))
      · simp only [hG0 _ hc, integral_zero])
    (fun k => by
      filter_upwards [hSpos] with ω h
      by_cases hc : (S k ω).1 = 1
      · simp only [hG1 _ hc, hψ1 _ hc, excess_sq]
        rw [excess_lintegral (hF.pow_const 2) hF2 (ha0 _ (h k hc))]
        have : ∫⁻ y, ENNReal.ofReal (if a (S k ω).2 ≤ y then 1 else 0) ∂(expMeasure 1) = ENNReal.ofReal (growP a (S k ω).2) := by
          rw [← ofReal_integral_eq_lintegral_ofReal, reach_integral]
          · rfl
          · refine Integrable.of_bound (Measurable.ite measurableSet_Ici measurable_const measurable_const).aestronglyMeasurable 1 (Eventually.of_forall fun y => ?_)
            split_ifs <;> simp
          · exact Eventually.of_forall fun y => by simp only [Pi.zero_apply]; split_ifs <;> norm_num
        rw [this, ENNReal.ofReal_mul hL0]
      · simp only [hG0 _ hc]; simp)
  have k2 := used_infinite (μ := expMeasure 1) hE hind hl hS hψm hψ
  filter_upwards [k1, k2, records_infinite hE hind hl, hsome, hpos] with ω k1 k2 k3 ⟨i0, hi0⟩ hpos
  have hinf : Tendsto (fun n => stepSum ψ S E n ω) atTop atTop := by
    refine k2.2 ?_
    have hlow : ∀ k, i0 ≤ k → Real.exp (-max K 0) * Real.exp (-max (runMax (fun j => E j ω) k) 0) ≤ ∫ y, ψ (S k ω, y) ∂(expMeasure 1) := by
      intro k hk
      rcases lastSeen_cases (fun i => seen i ω) (fun i => E i ω) (k + 1) with ⟨-, h⟩ | ⟨j, hj, -, -, e⟩
      · exact absurd hi0 (h i0 (by omega))
      · have hc : (S k ω).1 = 1 := by simp only [hSd, e]
        have h2 : (S k ω).2 = E j ω := by simp only [hSd, e]
        simp only [hψ1 _ hc]
        rw [reach_integral, h2, ← Real.exp_add]
        apply Real.exp_le_exp.2
        have b1 := haK _ (hpos j)
        have b2 := le_runMax (fun j => E j ω) (show j ≤ k by omega)
        have b3 := le_max_left K 0
        have b4 := le_max_left (runMax (fun j => E j ω) k) 0
        have b5 := le_max_right K 0
        have b6 := le_max_right (runMax (fun j => E j ω) k) 0
        have : max (a (E j ω)) 0 ≤ max K 0 + max (runMax (fun j => E j ω) k) 0 := max_le (by linarith) (by linarith)
        linarith
    have hnn : ∀ k, 0 ≤ ∫ y, ψ (S k ω, y) ∂(expMeasure 1) := fun k => integral_nonneg fun y => by
      change (0 : ℝ) ≤ ψ (S k ω, y)
      rcases hψ (S k ω, y) with h | h <;> rw [h]; norm_num
    set u : ℕ → ℝ := fun k => Real.exp (-max K 0) * Real.exp (-max (runMax (fun j => E j ω) k) 0) with hu
    have hu1 : Tendsto (fun n => ∑ k ∈ Finset.range n, u k) atTop atTop := by
      simp only [hu, ← Finset.mul_sum]
      exact Tendsto.const_mul_atTop (Real.exp_pos _) k3
    have hle : ∀ n, (∑ k ∈ Finset.range n, u k) - ∑ k ∈ Finset.range i0, u k ≤ ∑ k ∈ Finset.range n, ∫ y, ψ (S k ω, y) ∂(expMeasure 1) := by
      intro n
      induction n with
      | zero =>
        simp only [Finset.range_zero, Finset.sum_empty, zero_sub, Left.neg_nonpos_iff]
        exact Finset.sum_nonneg fun k _ => by rw [hu]; positivity
      | succ n ih =>
        rw [Finset.sum_range_succ, Finset.sum_range_succ]
        by_cases hn : i0 ≤ n
        · linarith [hlow n hn]
        · have : ∑ k ∈ Finset.range (n + 1), u k ≤ ∑ k ∈ Finset.range i0, u k :=
            Finset.sum_le_sum_of_subset_of_nonneg (Finset.range_mono (by omega)) fun k _ _ => by rw [hu]; positivity
          rw [Finset.sum_range_succ] at this
          have h3 : 0 ≤ ∑ k ∈ Finset.range n, ∫ y, ψ (S k ω, y) ∂(expMeasure 1) := Finset.sum_nonneg fun k _ => hnn k
          linarith [hnn n]
    exact tendsto_atTop_mono hle (tendsto_atTop_add_const_right _ _ hu1)
  exact ⟨hinf, k1 hinf⟩

end Draws

end
end SeismoStats.Props
