/-
Property C78: the bootstrap uncertainty of the b-more-positive estimator.
-/
import Verif.Props.BPositive
import Verif.Proofs.Py

namespace SeismoStats.Props
open SeismoStats BValue
open Classical
noncomputable section

theorem sortOriginals_used {s : State} {warn : Bool} {a : Args} (h : Valid a) {t : Option (List ℝ)}
    (ht : gatherOpt a.times (usedIdx a) = .ok t) :
    (sortOriginals (usedState s warn a t)).origMags = some ((timeOrder a).map (magOf a)) ∧
    ∀ w, a.weights = some w → (sortOriginals (usedState s warn a t)).origWeights = some ((timeOrder a).map fun i => w.getD i 0) := by
  have hm : (used a).map Prod.fst = (usedIdx a).map (magOf a) := by
    have h1 : ((used a).map fun q => some q.1) = (usedIdx a).map fun i => some (magAt a i) := by
      rw [← usedIdx_mags h]
      exact List.map_congr_left fun i hi => magAt_used hi
    have h2 := congrArg (List.map fun o : Option ℝ => o.getD 0) h1
    rw [List.map_map, List.map_map] at h2
    exact h2
  have hwt : ∀ w, a.weights = some w → (used a).map Prod.snd = (usedIdx a).map fun i => w.getD i 0 := by
    intro w hw
    have := usedIdx_weights' h
    rw [hw] at this
    simpa using this
  cases hta : a.times with
  | none =>
    rw [hta] at ht
    simp only [gatherOpt, Except.ok.injEq] at ht
    subst ht
    have ho : timeOrder a = usedIdx a := by unfold timeOrder; rw [hta]
    refine ⟨?_, fun w hw => ?_⟩
    · show some ((used a).map Prod.fst) = _
      rw [hm, ho]
    · show (if a.weights.isSome then some ((used a).map Prod.snd) else s.origWeights) = _
      rw [hw, Option.isSome_some, if_pos rfl, hwt w hw, ho]
  | some tm =>
    rw [hta] at ht
    simp only [gatherOpt] at ht
    cases hg : gather tm (usedIdx a) with
    | error e => rw [hg] at ht; cases ht
    | ok q =>
      rw [hg] at ht
      simp only [Except.map, Except.ok.injEq] at ht
      subst ht
      obtain ⟨hq, -⟩ := gather_eq 0 hg
      subst hq
      have ho : timeOrder a = take' (usedIdx a) (argsort ((usedIdx a).map fun i => tm.getD i 0)) := by
        unfold timeOrder; rw [hta]
      have hb : ∀ i ∈ argsort ((usedIdx a).map fun i => tm.getD i 0), i < (usedIdx a).length := by
        intro i hi
        simpa using argsort_lt hi
      refine ⟨?_, fun w hw => ?_⟩
      · show some (take' ((used a).map Prod.fst) _) = _
        rw [hm, take'_map _ _ _ hb, ← ho]
      · show (if (a.weights.map fun _ => (used a).map Prod.snd).isSome then (if a.weights.isSome then some ((used a).map Prod.snd) else s.origWeights).map _ else _) = _
        simp only [hw, Option.map_some, Option.isSome_some, if_true, Option.some.injEq]
        rw [hwt w hw, take'_map _ _ _ hb, ← ho]

/-- What the object keeps for the bootstrap. -/
theorem kept_after {warn : Bool} {s s' : State} {a : Args} {r : Fl ℝ} (h : calculate .morePositive warn s a = (s', .ok r)) :
    s'.origMags = some ((timeOrder a).map (magOf a)) ∧
    (∀ w, a.weights = some w → s'.origWeights = some ((timeOrder a).map fun i => w.getD i 0)) ∧
    s'.weights.isSome = a.weights.isSome ∧ s'.mc = some a.mc ∧ s'.δ = some a.δ ∧ s'.dmc = some (cutoff a) ∧ s'.b = some r := by
  have hv : Valid a := valid_of_ok (c := .morePositive) (warn := warn) (s := s) (r := r) (by rw [h])
  have hd := dmc_nonneg_of_ok (Or.inr rfl) h
  obtain ⟨t, ht⟩ := times_of_ok (Or.inr rfl) h
  have hwe : s'.weights.isSome = a.weights.isSome := by
    rw [(run_ok (Or.inr rfl) h).1.weights]; cases a.weights <;> rfl
  obtain ⟨w, hw⟩ := calculate_positive_valid (c := .morePositive) (Or.inr rfl) warn s a hv hd t ht
  rw [hw] at h
  generalize hu : ({ s with times := a.times, dmc := some (a.dmc.getD a.δ), warned := w } : State) = u at h
  have hudmc : u.dmc = some (cutoff a) := by rw [← hu]; rfl
  by_cases he : used a = []
  · rw [if_pos he] at h
    have hi : usedIdx a = [] := (used_nil_iff hv).1 he
    obtain ⟨rfl, h2⟩ := Prod.mk.inj h
    cases h2
    refine ⟨?_, ?_, hwe, rfl, rfl, hudmc, rfl⟩
    · show some ((used a).map Prod.fst) = _
      rw [he, timeOrder_nil hi]; rfl
    · intro w' hw'
      show (if a.weights.isSome then some ((used a).map Prod.snd) else _) = _
      rw [hw', Option.isSome_some, if_pos rfl, he, timeOrder_nil hi]; rfl
  · rw [if_neg he] at h
    obtain ⟨o1, o2⟩ := sortOriginals_used (s := u) (warn := warn) hv ht
    unfold estimate estimateMorePositive at h
    dsimp only at h
    have hsort : sortByTime (sortOriginals (usedState u warn a t)) =
        { sortByTime (usedState u warn a t) with origMags := (sortOriginals (usedState u warn a t)).origMags, origWeights := (sortOriginals (usedState u warn a t)).origWeights } := by
      generalize usedState u warn a t = v
      rcases v with ⟨m, mc, d, w, i, tt, dm, b, om, ow, wn⟩
      cases tt <;> rfl
    rw [hsort, sortByTime_used hv ht] at h
    dsimp only at h
    split at h
    · unfold store at h; cases h
    · unfold store at h
      split at h
      · cases h
      · rename_i s1 b1 heq
        obtain ⟨e1, e2⟩ := Prod.mk.inj heq
        obtain ⟨e3, e4⟩ := Prod.mk.inj h
        cases e4
        subst e3 e1
        exact ⟨o1, o2, hwe, rfl, rfl, hudmc, rfl⟩

/-- The arguments of one resample: the events `l` (positions in the arguments, repetitions allowed), in that order. -/
def resampleArgs (a : Args) (l : List ℕ) : Args :=
  { mags := l.map fun i => some (magOf a i), mc := a.mc, δ := a.δ, weights := a.weights.map fun w => l.map fun i => w.getD i 0, dmc := some (cutoff a) }

/-- A draw in the order of time. -/
def ordered (d : List ℕ) : List ℕ := d.insertionSort (· ≤ ·)

theorem mem_ordered {d : List ℕ} {i : ℕ} : i ∈ ordered d ↔ i ∈ d := List.mem_insertionSort _

theorem ordered_perm {d d' : List ℕ} (h : d.Perm d') : ordered d = ordered d' := by
  have : Std.Total (fun a b : ℕ => a ≤ b) := ⟨fun a b => le_total a b⟩
  have : IsTrans ℕ (fun a b : ℕ => a ≤ b) := ⟨fun a b c h1 h2 => le_trans h1 h2⟩
  apply List.Perm.eq_of_pairwise (le := fun a b : ℕ => a ≤ b) (fun a b _ _ h1 h2 => le_antisymm h1 h2)
    (List.pairwise_insertionSort _ _) (List.pairwise_insertionSort _ _)
  exact ((List.perm_insertionSort _ d).trans h).trans (List.perm_insertionSort _ d').symm

theorem take'_range {n : ℕ} {d : List ℕ} (h : ∀ i ∈ d, i < n) : take' (List.range n) d = d := by
  unfold take'
  conv_rhs => rw [← List.map_id d]
  apply List.map_congr_left
  intro i hi
  rw [List.getD_eq_getElem _ _ (by simpa using h i hi)]
  simp

theorem mapM_congr_mem {α β : Type} {f g : α → Py β} {l : List α} (h : ∀ a ∈ l, f a = g a) : l.mapM f = l.mapM g := by
  induction l with
  | nil => rfl
  | cons a l ih =>
    rw [List.mapM_cons, List.mapM_cons, h a (by simp), ih fun b hb => h b (by simp [hb])]

/-- C78: the uncertainty is `bootstrap_std` of the estimator itself over resamples of the events at or above the completeness magnitude,
in the order of time: each resample consists of the drawn events in the order of time, with their weights, and is estimated by a new
estimator with the same completeness magnitude, bin size and `dmc`. -/
theorem C78_resamples {warn : Bool} {s s' : State} {a : Args} {r : Fl ℝ} (h : calculate .morePositive warn s a = (s', .ok r)) :
    ∃ idx o, Spec.Positions a.mags (a.mc - a.δ / 2) idx ∧ TimeOrdered a.times idx o ∧
      ∀ ω : ℕ → List (List ℕ), (∀ d ∈ ω o.length, ∀ i ∈ d, i < o.length) →
        stdOf .morePositive ω s' =
          bootstrapStd o (fun l => (calculate .morePositive false State.init (resampleArgs a l)).2) ((ω o.length).map ordered) := by
  refine ⟨usedIdx a, timeOrder a, positions_usedIdx a, timeOrdered a, ?_⟩
  intro ω hω
  obtain ⟨k1, k2, k3, k4, k5, k6, k7⟩ := kept_after h
  have hlen : ((s'.origMags.getD []).length) = (timeOrder a).length := by rw [k1]; simp
  unfold stdOf
  simp only [k7]
  unfold stdBootstrap bootstrapStd
  rw [hlen, List.mapM_map]
  have hmap : ∀ d ∈ ω (timeOrder a).length, resampleB s' (take' (List.range (timeOrder a).length) d) =
      ((fun d => (calculate .morePositive false State.init (resampleArgs a (take' (timeOrder a) d))).2) ∘ ordered) d := by
    intro d hd
    rw [take'_range (hω d hd)]
    have hb : ∀ i ∈ ordered d, i < (timeOrder a).length := fun i hi => hω d hd i (mem_ordered.1 hi)
    unfold resampleB
    dsimp only [Function.comp]
    have e1 : (take' (s'.origMags.getD []) (d.insertionSort (· ≤ ·))).map some = (take' (timeOrder a) (ordered d)).map fun i => some (magOf a i) := by
      rw [k1, Option.getD_some]
      show (take' ((timeOrder a).map (magOf a)) (ordered d)).map some = _
      rw [take'_map _ _ _ hb, List.map_map]; rfl
    have e2 : (s'.weights.map fun _ => take' (s'.origWeights.getD []) (d.insertionSort (· ≤ ·))) = a.weights.map fun w => (take' (timeOrder a) (ordered d)).map fun i => w.getD i 0 := by
      cases haw : a.weights with
      | none =>
        rw [haw] at k3
        cases hsw : s'.weights with
        | none => rfl
        | some w => rw [hsw] at k3; cases k3
      | some w =>
        rw [haw] at k3
        cases hsw : s'.weights with
        | none => rw [hsw] at k3; cases k3
        | some w' =>
          simp only [Option.map_some, Option.some.injEq]
          rw [k2 w haw, Option.getD_some]
          exact take'_map _ _ _ hb
    rw [e1, e2, k4, k5, k6]
    rfl
  rw [mapM_congr_mem hmap]

/-- C78: the order in which the events of a resample are drawn is irrelevant. -/
theorem C78_draw_order {warn : Bool} {s s' : State} {a : Args} {r : Fl ℝ} (h : calculate .morePositive warn s a = (s', .ok r))
    (ω ω' : ℕ → List (List ℕ)) (hω : ∀ n, ∀ d ∈ ω n, ∀ i ∈ d, i < n) (hp : ∀ n, List.Forall₂ List.Perm (ω n) (ω' n)) :
    stdOf .morePositive ω s' = stdOf .morePositive ω' s' := by
  obtain ⟨idx, o, -, -, hs⟩ := C78_resamples h
  have hω' : ∀ n, ∀ d ∈ ω' n, ∀ i ∈ d, i < n := by
    intro n
    have h1 := hω n
    have h2 := hp n
    generalize ω n = A at h1 h2
    generalize ω' n = B at h2 ⊢
    induction h2 with
    | nil => intro d hd; cases hd
    | cons hp _ ih =>
      intro d hd i hi
      rcases List.mem_cons.1 hd with rfl | hd
      · exact h1 _ (by simp) i (hp.mem_iff.2 hi)
      · exact ih (fun d hd => h1 d (by simp [hd])) d hd i hi
  rw [hs ω (hω _), hs ω' (hω' _)]
  congr 1
  have h2 := hp o.length
  generalize ω o.length = A at h2
  generalize ω' o.length = B at h2
  induction h2 with
  | nil => rfl
  | cons hp _ ih => rw [List.map_cons, List.map_cons, ordered_perm hp, ih]

theorem mapM_error_of_mem {α β : Type} {f : α → Py β} {l : List α} {a : α} (ha : a ∈ l) {e : PyErr} (h : f a = .error e) : ∃ e', l.mapM f = .error e' := by
  cases hm : l.mapM f with
  | error e' => exact ⟨e', rfl⟩
  | ok r =>
    exfalso
    have := (mapM_ok_iff _ _ _).1 hm
    clear hm
    induction this with
    | nil => cases ha
    | cons hp _ ih =>
      rcases List.mem_cons.1 ha with rfl | ha
      · rw [h] at hp; cases hp
      · exact ih ha


/-- C25: accepted input with a usable bin size, in which no selected event has a later one larger by at least `dmc - delta_m/2`: without
weights the result is NaN, with weights the call raises ZeroDivisionError. -/
theorem C25_no_pair (warn : Bool) (s : State) (a : Args) (ha : Accepted a) (hd : 0 ≤ cutoff a) (hδ : 1 / 10 ^ 12 ≤ a.δ)
    (ht : ∀ t, a.times = some t → a.mags.length ≤ t.length) (hne : ∃ m, some m ∈ a.mags ∧ a.mc - a.δ / 2 ≤ m)
    (hno : ∀ idx o, Spec.Positions a.mags (a.mc - a.δ / 2) idx → TimeOrdered a.times idx o → NextLarger (o.map (magOf a)) (cutoff a - a.δ / 2) []) :
    (calculate .morePositive warn s a).2 = if a.weights.isSome then .error .zeroDivision else .ok .nan := by
  have hv := (accepted_iff a).1 ha
  have hn := hno _ _ (positions_usedIdx a) (timeOrdered a)
  have hg : ∃ t, gatherOpt a.times (usedIdx a) = .ok t := by
    cases hta : a.times with
    | none => exact ⟨none, rfl⟩
    | some t =>
      unfold gatherOpt
      simp only []
      rw [gather_ok t (usedIdx a) 0 (fun i hi => lt_of_lt_of_le (selIdx_lt hi) (ht t hta))]
      exact ⟨_, rfl⟩
  obtain ⟨t, hg⟩ := hg
  have hi : usedIdx a ≠ [] := by
    obtain ⟨m, h1, h2⟩ := hne
    obtain ⟨i, hi⟩ := List.getElem?_of_mem h1
    intro h0
    have := ((positions_usedIdx a).mem i).2 ⟨m, hi, h2⟩
    rw [h0] at this; cases this
  obtain ⟨s', e, -⟩ := run_nonempty (Or.inr rfl) warn s a hv hd hi hg hδ
  rw [e]
  have : pairsOf .morePositive a = [] := by
    unfold pairsOf
    dsimp only
    rw [C25_ranks_unique (ranksOf_spec _ _ _) hn]
    rfl
  rw [this]
  unfold pairResult diffsOf
  cases hw : a.weights with
  | none => simp only [Option.isSome_none, Bool.false_eq_true, if_false, List.map_nil]; exact mle_nil _ _
  | some w =>
    simp only [Option.isSome_some, if_true, List.map_nil]
    exact mle_zero [] _ _ rfl

/-- A resample that consists of one event has no pair. -/
theorem constant_resample {a : Args} (hδ : 1 / 10 ^ 12 ≤ a.δ) (hd : a.δ / 2 < cutoff a) (k n : ℕ) (hn : 0 < n) (hk : a.mc - a.δ / 2 ≤ magOf a k)
    (hw : ∀ w, a.weights = some w → 0 ≤ w.getD k 0) :
    (calculate .morePositive false State.init (resampleArgs a (List.replicate n k))).2 = if a.weights.isSome then .error .zeroDivision else .ok .nan := by
  have hδ0 : (0 : ℝ) < a.δ := lt_of_lt_of_le (by norm_num) hδ
  have hc : cutoff (resampleArgs a (List.replicate n k)) = cutoff a := rfl
  have hm : (resampleArgs a (List.replicate n k)).mags = List.replicate n (some (magOf a k)) := by
    unfold resampleArgs; simp
  have hws : (resampleArgs a (List.replicate n k)).weights.isSome = a.weights.isSome := by
    unfold resampleArgs; cases a.weights <;> rfl
  rw [← hws]
  apply C25_no_pair
  · refine ⟨Or.inr ?_, ?_⟩
    · have := C08_grid_accepted (K := ℝ) (List.replicate n (some 0)) (magOf a k) a.δ (1 / 10 ^ 15) hδ (by norm_num) ⟨0, by simp; omega⟩
      rw [hm]
      show binningTest _ a.δ _ _ = _
      simpa using this
    · intro w hw'
      unfold resampleArgs at hw' ⊢
      cases haw : a.weights with
      | none => rw [haw] at hw'; cases hw'
      | some w0 =>
        rw [haw] at hw'
        simp only [Option.map_some, Option.some.injEq] at hw'
        subst hw'
        refine ⟨by simp, ?_⟩
        intro x hx
        simp only [List.map_replicate] at hx
        rw [List.eq_of_mem_replicate hx]
        exact hw w0 haw
  · rw [hc]; linarith
  · exact hδ
  · intro t h; cases h
  · exact ⟨magOf a k, by rw [hm]; simp; omega, hk⟩
  · intro idx o hp ho
    refine ⟨List.Pairwise.nil, ?_⟩
    intro i j
    constructor
    · intro h; cases h
    · rintro ⟨-, ⟨x, y, h1, h2, h3⟩, -⟩
      exfalso
      have hall : ∀ q ∈ o.map (magOf (resampleArgs a (List.replicate n k))), q = magOf a k := by
        intro q hq
        obtain ⟨p, hp', rfl⟩ := List.mem_map.1 hq
        have hpi := (hp.mem p).1 (ho.perm.mem_iff.1 hp')
        obtain ⟨m, e1, -⟩ := hpi
        unfold magOf
        rw [hm] at e1 ⊢
        have := List.eq_of_mem_replicate (List.mem_of_getElem? e1)
        rw [List.getD_eq_getElem?_getD, e1, this]
        rfl
      have hx := hall x (List.mem_of_getElem? h1)
      have hy := hall y (List.mem_of_getElem? h2)
      have h4 : cutoff a - a.δ / 2 ≤ y - x := h3
      rw [hx, hy] at h4
      linarith

/-- C78 (defect): with weights, one resample without a pair makes reading the uncertainty fail although the b-value exists (without
weights such resamples are disregarded). A resample that consists of the same event throughout is one, unless `dmc` is at most half a bin. -/
theorem C78_weighted_defect {warn : Bool} {s s' : State} {a : Args} {r : Fl ℝ} (h : calculate .morePositive warn s a = (s', .ok r))
    (hw : a.weights.isSome) (hd : a.δ / 2 < cutoff a) (ω : ℕ → List (List ℕ)) (hω : ∀ n, ∀ d ∈ ω n, ∀ i ∈ d, i < n)
    (hbad : ∀ idx, Spec.Positions a.mags (a.mc - a.δ / 2) idx → ∃ k < idx.length, List.replicate idx.length k ∈ ω idx.length) :
    ∃ e, stdOf .morePositive ω s' = .error e := by
  obtain ⟨idx, o, h1, h2, h3⟩ := C78_resamples h
  obtain ⟨k, hk, hmem⟩ := hbad idx h1
  have hlen : o.length = idx.length := h2.perm.length_eq
  rw [h3 ω (hω _), hlen]
  have hidx : idx ≠ [] := by intro h0; rw [h0] at hk; cases hk
  have hused : usedIdx a ≠ [] := by
    intro h0
    obtain ⟨p, hp⟩ := List.exists_mem_of_ne_nil _ hidx
    have := ((positions_usedIdx a).mem p).2 ((h1.mem p).1 hp)
    rw [h0] at this; cases this
  have hδ : 1 / 10 ^ 12 ≤ a.δ := by
    rcases (run_ok (Or.inr rfl) h).2 with ⟨h0, -⟩ | ⟨-, h0, -⟩
    · exact absurd h0 hused
    · exact h0
  have hord : ordered (List.replicate idx.length k) = List.replicate idx.length k := by
    have := (List.perm_insertionSort (· ≤ ·) (List.replicate idx.length k))
    exact List.perm_replicate.1 this
  have hok : o.getD k default ∈ idx := by
    rw [← h2.perm.mem_iff, List.getD_eq_getElem _ _ (by omega)]
    exact List.getElem_mem _
  obtain ⟨m, e1, e2⟩ := (h1.mem _).1 hok
  have hmag : magOf a (o.getD k default) = m := by
    unfold magOf
    rw [List.getD_eq_getElem?_getD (l := a.mags), e1]; rfl
  have hv : Valid a := valid_of_ok (c := .morePositive) (warn := warn) (s := s) (r := r) (by rw [h])
  have hf : (calculate .morePositive false State.init (resampleArgs a (take' o (List.replicate idx.length k)))).2 = .error .zeroDivision := by
    have : take' o (List.replicate idx.length k) = List.replicate idx.length (o.getD k default) := by
      unfold take'; rw [List.map_replicate]
    rw [this, constant_resample hδ hd _ _ (by omega) (by rw [hmag]; exact e2), hw]
    · rfl
    · intro w haw
      have := hv.wts
      rw [haw] at this
      obtain ⟨-, hpos⟩ := checkWeights_ok.1 this
      rw [List.getD_eq_getElem?_getD]
      cases hg : w[o.getD k default]? with
      | none => simp
      | some v => exact hpos v (List.mem_of_getElem? hg)
  unfold bootstrapStd
  obtain ⟨e, he⟩ := mapM_error_of_mem (f := fun d => (calculate .morePositive false State.init (resampleArgs a (take' o d))).2)
    (List.mem_map.2 ⟨_, hmem, hord⟩) hf
  rw [he]
  exact ⟨e, rfl⟩

/-- C78: without an event at or above the completeness magnitude the b-value is NaN and reading its uncertainty is a ValueError. -/
theorem C78_no_events {warn : Bool} {s s' : State} {a : Args} {r : Fl ℝ} (h : calculate .morePositive warn s a = (s', .ok r))
    (hno : ∀ m, some m ∈ a.mags → m < a.mc - a.δ / 2) (ω : ℕ → List (List ℕ)) (hω : ∀ d ∈ ω 0, d = []) :
    stdOf .morePositive ω s' = .error .valueError := by
  obtain ⟨idx, o, h1, h2, h3⟩ := C78_resamples h
  have hidx : idx = [] := by
    by_contra h0
    obtain ⟨p, hp⟩ := List.exists_mem_of_ne_nil _ h0
    obtain ⟨m, e1, e2⟩ := (h1.mem p).1 hp
    have := hno m (List.mem_of_getElem? e1)
    linarith
  have ho : o = [] := by have := h2.perm; rw [hidx] at this; exact this.eq_nil
  subst ho
  rw [h3 ω (by intro d hd i hi; rw [hω d hd] at hi; cases hi)]
  have hd := dmc_nonneg_of_ok (Or.inr rfl) h
  have hnan : (calculate .morePositive false State.init (resampleArgs a [])).2 = .ok .nan := by
    have hv : Valid (resampleArgs a []) := by
      rw [← accepted_iff]
      refine ⟨Or.inl rfl, ?_⟩
      intro w hw
      unfold resampleArgs at hw
      cases haw : a.weights with
      | none => rw [haw] at hw; cases hw
      | some w0 =>
        rw [haw] at hw
        simp only [Option.map_some, Option.some.injEq] at hw
        subst hw
        exact ⟨rfl, fun x hx => by cases hx⟩
    obtain ⟨t, e, -⟩ := run_empty (c := .morePositive) (Or.inr rfl) false State.init (resampleArgs a []) hv hd rfl
    rw [e]
  have hall : ∀ d ∈ (ω ([] : List ℕ).length).map ordered, (fun d => (calculate .morePositive false State.init (resampleArgs a (take' [] d))).2) d = (fun _ => .ok (.nan : Fl ℝ)) d := by
    intro d hd
    obtain ⟨d', hd', rfl⟩ := List.mem_map.1 hd
    rw [hω d' hd']
    exact hnan
  unfold bootstrapStd
  rw [mapM_congr_mem hall, mapM_ok (fun _ => .ok (.nan : Fl ℝ)) (fun _ => .nan) _ (fun _ _ => rfl)]
  have he : (((ω ([] : List ℕ).length).map ordered).map fun _ => (Fl.nan : Fl ℝ)).filterMap Fl.val? = [] := by
    rw [List.filterMap_eq_nil_iff]
    intro x hx
    obtain ⟨_, -, rfl⟩ := List.mem_map.1 hx
    rfl
  simp only [bind, Except.bind, he]
  rfl

/-- Two weighted events, the second larger by two bins. -/
def demoM : Args := { mags := [some 1, some 3], mc := 1, δ := 1, weights := some [1, 1] }

theorem demoM_valid : Valid demoM := by
  rw [← accepted_iff]
  refine ⟨Or.inr ?_, ?_⟩
  · have := C08_grid_accepted (K := ℝ) [some 1, some 3] 0 1 (1 / 10 ^ 15) (by norm_num) (by norm_num) ⟨1, by simp⟩
    simpa [demoM] using this
  · intro w hw
    simp only [demoM, Option.some.injEq] at hw
    subst hw
    simp [demoM]

theorem demoM_idx : usedIdx demoM = [0, 1] := by
  have h1 : (1 : ℝ) - 1 / 2 ≤ 1 := by norm_num
  have h3 : (1 : ℝ) - 1 / 2 ≤ 3 := by norm_num
  norm_num [usedIdx, selIdx, demoM, List.range_succ, List.filter, h1, h3]

theorem demoM_pairs : pairsOf .morePositive demoM = [(0, 1)] := by
  unfold pairsOf
  have ho : timeOrder demoM = [0, 1] := by unfold timeOrder; exact demoM_idx
  have hm : (timeOrder demoM).map (magOf demoM) = [1, 3] := by rw [ho]; norm_num [magOf, demoM]
  have hN : NextLarger [1, 3] (1 - 1 / 2) [(0, 1)] := by
    refine ⟨List.pairwise_singleton _ _, ?_⟩
    intro i j
    constructor
    · intro h
      simp only [List.mem_singleton, Prod.mk.injEq] at h
      obtain ⟨rfl, rfl⟩ := h
      exact ⟨by norm_num, ⟨1, 3, rfl, rfl, by norm_num⟩, fun k h1 h2 => by omega⟩
    · intro h
      have h1 := (firstLarger_lt h).2
      have h2 := h.1
      simp only [List.length_cons, List.length_nil] at h1
      have : i = 0 ∧ j = 1 := by omega
      rw [this.1, this.2]; simp
  dsimp only
  have hc : cutoff demoM = 1 := rfl
  have hδ : demoM.δ = 1 := rfl
  rw [hm, hc, hδ, C25_ranks_unique (ranksOf_spec [1, 3] 1 1) hN, ho]
  rfl

/-- The hypotheses of `C78_weighted_defect` are met: the b-value of two weighted events is a number, and the resample that draws the first
one twice is a possible one. -/
example : ∃ s' r, calculate .morePositive true State.init demoM = (s', .ok r) ∧ demoM.weights.isSome ∧ demoM.δ / 2 < cutoff demoM ∧
    ∀ idx, Spec.Positions demoM.mags (demoM.mc - demoM.δ / 2) idx → ∃ k < idx.length, List.replicate idx.length k ∈ (fun n => [List.replicate n 0]) idx.length := by
  have hc : cutoff demoM = 1 := rfl
  obtain ⟨s', e, -⟩ := run_nonempty (Or.inr rfl) true State.init demoM demoM_valid (by rw [hc]; norm_num) (by rw [demoM_idx]; simp) (t := none) rfl
    (show (1 : ℝ) / 10 ^ 12 ≤ 1 by norm_num)
  rw [demoM_pairs] at e
  have hD : diffsOf demoM [(0, 1)] = [(2, 1)] := by
    have e1 : magOf demoM 1 - magOf demoM 0 = 2 := by norm_num [magOf, demoM]
    have e3 : demoM.δ = 1 := rfl
    have e4 : weightOf demoM 1 = 1 := by simp [weightOf, demoM]
    have e5 : onGrid 1 2 = 2 := by
      unfold onGrid
      rw [if_pos one_pos]
      have := binTo_int_mul (K := ℝ) one_ne_zero 2
      norm_num at this
      exact this
    simp [diffsOf, e1, e3, e4, e5]
  rw [hD] at e
  obtain ⟨b, hb, -⟩ := pairResult_mle demoM [(2, 1)] (by simp) (by norm_num [Spec.total]) (by rw [hc]; norm_num [Spec.wmean])
  rw [hb] at e
  refine ⟨s', _, e, rfl, ?_, ?_⟩
  · rw [hc]; norm_num [demoM]
  · intro idx hp
    refine ⟨0, ?_, by simp⟩
    have : 0 ∈ idx := (hp.mem 0).2 ⟨1, rfl, by norm_num [demoM]⟩
    exact List.length_pos_of_mem this

end
end SeismoStats.Props
