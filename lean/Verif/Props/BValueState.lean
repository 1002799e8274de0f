/-
Properties C11, C12, C17: which events an estimator uses, re-use of an estimator,
and the option 'warnings'.
-/
import Verif.Proofs.BValue
import Verif.Props.Binning

namespace SeismoStats.Props
open SeismoStats BValue
open Classical
noncomputable section

/-- The documented requirements on the input of `calculate`: magnitudes binned by
`delta_m` (according to `binning_test`), weights non-negative and as many as magnitudes. -/
structure Accepted (a : Args) : Prop where
  binned : a.mags = [] ∨ binningTest a.mags a.δ (1 / 10 ^ 15) false = .ok true
  weights : ∀ w, a.weights = some w → w.length = a.mags.length ∧ ∀ x ∈ w, 0 ≤ x

theorem checkBinning_ok (mags : List (Option ℝ)) (δ : ℝ) :
    checkBinning mags δ = .ok () ↔ mags = [] ∨ binningTest mags δ (1 / 10 ^ 15) false = .ok true := by
  unfold checkBinning
  have e : defaultTol ℝ = 1 / 10 ^ 15 := rfl
  rw [e]
  cases mags with
  | nil => simp
  | cons o r =>
    simp only [List.length_cons, Nat.succ_pos, if_true, reduceCtorEq, false_or]
    cases h : binningTest (o :: r) δ (1 / 10 ^ 15) false with
    | error e => simp
    | ok b => cases b <;> simp

theorem accepted_iff (a : Args) : Accepted a ↔ Valid a := by
  constructor
  · rintro ⟨h1, h2⟩
    refine ⟨(checkBinning_ok _ _).2 h1, ?_⟩
    cases hw : a.weights with
    | none => rfl
    | some w => exact checkWeights_ok.2 ⟨(h2 w hw).1.symm, (h2 w hw).2⟩
  · rintro ⟨h1, h2⟩
    refine ⟨(checkBinning_ok _ _).1 h1, fun w hw => ?_⟩
    rw [hw] at h2
    exact ⟨(checkWeights_ok.1 h2).1.symm, (checkWeights_ok.1 h2).2⟩

/-- Classic and Utsu objects have no times. -/
theorem reachable_times {c : Cls} (hc : c = .classic ∨ c = .utsu) {s : State} (h : Reachable c s) :
    s.times = none ∧ s.dmc = none := by
  induction h with
  | init => exact ⟨rfl, rfl⟩
  | @call s warn a _ ih =>
    have e : calculate c warn s a = baseCalculate c warn { s with warned := [] } a := by
      rcases hc with rfl | rfl <;> rfl
    by_cases hv : Valid a
    · rw [calculate_classic_valid hc warn s a hv ih.1]
      cases resultOf c a <;> exact ⟨rfl, ih.2⟩
    · rw [e]
      unfold baseCalculate sanityChecks
      simp only [Option.getD_some]
      cases h1 : checkBinning a.mags a.δ with
      | error e => exact ih
      | ok u =>
        cases h2 : checkWeights a.mags.length a.weights with
        | error e => exact ih
        | ok v => exact absurd ⟨h1, h2⟩ hv
  | @assign s x hx _ ih =>
    cases x <;> first
      | exact ih
      | (exfalso; unfold Assign.allowed at hx; rcases hc with rfl | rfl <;> simp at hx)

theorem valid_of_ok {c : Cls} {warn : Bool} {s : State} {a : Args} {r : Fl ℝ}
    (h : (calculate c warn s a).2 = .ok r) : Valid a := by
  by_contra hv
  cases c
  all_goals
    simp only [calculate] at h
    try split at h
    all_goals first
      | cases h; done
      | (obtain ⟨e, he, -⟩ := baseCalculate_invalid _ warn _ a hv
         rw [he] at h; cases h)

theorem positions_usedIdx (a : Args) : Spec.Positions a.mags (a.mc - a.δ / 2) (usedIdx a) := by
  unfold usedIdx selIdx
  refine ⟨List.Pairwise.filter _ List.pairwise_lt_range, fun i => ?_⟩
  rw [List.mem_filter, List.mem_range]
  constructor
  · rintro ⟨h1, h2⟩
    rw [List.getD_eq_getElem _ _ h1] at h2
    rw [List.getElem?_eq_getElem h1]
    cases h3 : a.mags[i] with
    | none => rw [h3] at h2; cases h2
    | some m => rw [h3] at h2; exact ⟨m, rfl, by simpa using h2⟩
  · rintro ⟨m, h1, h2⟩
    obtain ⟨h3, h4⟩ := List.getElem?_eq_some_iff.1 h1
    refine ⟨h3, ?_⟩
    rw [List.getD_eq_getElem _ _ h3, h4]
    simpa using h2

/-! ## C11 -/

/-- C11: after a successful `calculate` of a classic or Utsu estimator with any
history, `idx` are the positions of the magnitudes `≥ mc - delta_m/2`, and
`magnitudes`, `weights`, `n` are those of these events. -/
theorem C11_selection {c : Cls} (hc : c = .classic ∨ c = .utsu) {warn : Bool} {s s' : State}
    {a : Args} {r : Fl ℝ} (hs : Reachable c s) (h : calculate c warn s a = (s', .ok r)) :
    ∃ idx, s'.idx = some idx ∧ Spec.Positions a.mags (a.mc - a.δ / 2) idx ∧
      s'.mags = some (idx.map fun i => a.mags.getD i none) ∧
      s'.weights = a.weights.map (fun w => idx.map fun i => w.getD i 0) ∧
      s'.n = .ok idx.length ∧ s'.bValue = .ok r := by
  have hv : Valid a := valid_of_ok (c := c) (warn := warn) (s := s) (r := r) (by rw [h])
  rw [calculate_classic_valid hc warn s a hv (reachable_times hc hs).1] at h
  cases hr : resultOf c a with
  | error e => rw [hr] at h; cases h
  | ok b =>
    rw [hr] at h
    simp only [store, Prod.mk.injEq, Except.ok.injEq] at h
    obtain ⟨rfl, rfl⟩ := h
    refine ⟨usedIdx a, rfl, positions_usedIdx a, ?_, ?_, ?_, rfl⟩
    · rw [usedIdx_mags hv]; rfl
    · unfold usedState
      cases hw : a.weights with
      | none => rfl
      | some w =>
        have he : effW a = w := by unfold effW; rw [hw]; rfl
        have := usedIdx_weights hv
        rw [he] at this
        simp only [Option.map_some, this]
    · simp [State.n, usedState, used_length hv]

/-- The positions of `Spec.Positions` are determined. -/
theorem C11_positions_unique {mags : List (Option ℝ)} {thr : ℝ} {i j : List ℕ}
    (hi : Spec.Positions mags thr i) (hj : Spec.Positions mags thr j) : i = j := by
  apply List.Perm.eq_of_pairwise (le := (· < ·)) (fun a b _ _ h1 h2 => by omega)
    hi.increasing hj.increasing
  rw [List.perm_ext_iff_of_nodup]
  · intro a; rw [hi.mem, hj.mem]
  · exact hi.increasing.imp (fun h => Nat.ne_of_lt h)
  · exact hj.increasing.imp (fun h => Nat.ne_of_lt h)

/-- C11: with no event at or above `mc - delta_m/2` the result is NaN, for accepted
input of each of the four estimator classes (`dmc ≥ 0`). -/
theorem C11_empty_is_nan (c : Cls) (warn : Bool) {s : State} (hs : Reachable c s) (a : Args)
    (ha : Accepted a) (hd : 0 ≤ a.dmc.getD a.δ)
    (he : ∀ m, some m ∈ a.mags → m < a.mc - a.δ / 2) :
    ∃ s', calculate c warn s a = (s', .ok .nan) ∧ s'.bValue = .ok .nan ∧ s'.n = .ok 0 := by
  have hv := (accepted_iff a).1 ha
  have hi : usedIdx a = [] := by
    rw [List.eq_nil_iff_forall_not_mem]
    intro i hi
    obtain ⟨m, h1, h2⟩ := ((positions_usedIdx a).mem i).1 hi
    have := he m (List.mem_of_getElem? h1)
    linarith
  have hu : used a = [] := List.length_eq_zero_iff.1 (by rw [used_length hv, hi]; rfl)
  have key : ∀ s0 : State, ∃ s', baseCalculate c warn s0 a = (s', .ok .nan) ∧
      s'.bValue = .ok .nan ∧ s'.n = .ok 0 := by
    intro s0
    have hg : ∃ t, gatherOpt s0.times (usedIdx a) = .ok t := by
      rw [hi]; cases s0.times with
      | none => exact ⟨none, rfl⟩
      | some l => exact ⟨some [], rfl⟩
    obtain ⟨t, ht⟩ := hg
    rw [baseCalculate_valid c warn s0 a hv t ht, if_pos hu]
    refine ⟨_, rfl, rfl, ?_⟩
    simp [State.n, usedState, hu]
  unfold calculate
  cases c <;> simp only [not_lt.2 hd, if_false] <;> exact key _

/-- C11: weights of the wrong length raise IndexError (magnitudes being binned). -/
theorem C11_weights_length {c : Cls} (warn : Bool) (s : State) (a : Args) (w : List ℝ)
    (hd : 0 ≤ a.dmc.getD a.δ)
    (hb : a.mags = [] ∨ binningTest a.mags a.δ (1 / 10 ^ 15) false = .ok true)
    (hw : a.weights = some w) (hl : w.length ≠ a.mags.length) :
    (calculate c warn s a).2 = .error .indexError := by
  have h1 := (checkBinning_ok _ _).2 hb
  have h2 : checkWeights a.mags.length (some w) = .error .indexError := by
    unfold checkWeights; simp [Ne.symm hl]
  unfold calculate baseCalculate sanityChecks
  cases c <;> simp only [Option.getD_some, h1, hw, h2, not_lt.2 hd, if_false]

/-- C11: a negative weight raises ValueError. -/
theorem C11_weights_negative {c : Cls} (warn : Bool) (s : State) (a : Args) (w : List ℝ)
    (hw : a.weights = some w) (hl : w.length = a.mags.length) (hn : ∃ x ∈ w, x < 0) :
    (calculate c warn s a).2 = .error .valueError := by
  have h2 : checkWeights a.mags.length (some w) = .error .valueError := by
    unfold checkWeights
    have : (w.any fun x => decide (x < 0)) = true := by simpa using hn
    simp [hl, this]
  have h1 : checkBinning a.mags a.δ = .ok () ∨ checkBinning a.mags a.δ = .error .valueError := by
    unfold checkBinning
    split
    · rename_i hlen
      have hb : ∀ e, binningTest a.mags a.δ (defaultTol ℝ) false = .error e → e = .valueError := by
        intro e he
        by_cases hne : numbers a.mags = []
        · rw [C08_no_numbers_raises _ _ _ _ hne] at he; cases he; rfl
        · obtain ⟨m, hm⟩ := exists_amin hne
          rw [amin?_eq_some_iff] at hm
          rw [binningTest_eq _ _ _ _ m hm (by simp)] at he
          unfold binningTestCore binArr at he
          split at he
          · cases he
          · split at he
            · cases he; rfl
            · simp [bind, Except.bind, pure, Except.pure] at he
      cases hbt : binningTest a.mags a.δ (defaultTol ℝ) false with
      | error e => right; rw [hb e hbt]
      | ok b => cases b <;> simp
    · left; rfl
  unfold calculate baseCalculate sanityChecks
  cases c <;> simp only [Option.getD_some]
  case classic => rcases h1 with h1 | h1 <;> simp only [h1, hw, h2]
  case utsu => rcases h1 with h1 | h1 <;> simp only [h1, hw, h2]
  case positive => split; · rfl
                   · rcases h1 with h1 | h1 <;> simp only [h1, hw, h2]
  case morePositive => split; · rfl
                       · rcases h1 with h1 | h1 <;> simp only [h1, hw, h2]

/-- A finding about C11: a non-empty array in which every magnitude is NaN raises
ValueError (from `np.min` of an empty array), instead of giving NaN. -/
theorem C11_all_nan_raises (c : Cls) (warn : Bool) (s : State) (a : Args) (hne : a.mags ≠ [])
    (hn : ∀ o ∈ a.mags, o = none) : (calculate c warn s a).2 = .error .valueError := by
  have hnum : numbers a.mags = [] := by
    unfold numbers
    rw [List.filterMap_eq_nil_iff]
    intro o ho; rw [hn o ho]; rfl
  have h1 : checkBinning a.mags a.δ = .error .valueError := by
    unfold checkBinning
    rw [C08_no_numbers_raises _ _ _ _ hnum, if_pos (List.length_pos_iff.2 hne)]
  unfold calculate baseCalculate sanityChecks
  cases c <;> simp only [Option.getD_some, h1, ite_self]
  all_goals split <;> rfl

/-- Reference data: magnitudes 1, NaN, 2, 0 with `mc = 1`, `delta_m = 1`. -/
def demo : Args := { mags := [some 1, none, some 2, some 0], mc := 1, δ := 1 }

theorem demo_accepted : Accepted demo := by
  refine ⟨Or.inr ?_, fun w hw => by cases hw⟩
  have := C08_grid_accepted (K := ℝ) [some 1, none, some 2, some 0] 0 1 (1 / 10 ^ 15) (by norm_num)
    (by norm_num) ⟨1, by simp⟩
  simpa [demo] using this

theorem demo_used : used demo = [(1, 1), (2, 1)] := by
  have h0 : ¬ ((1 : ℝ) ≤ 2⁻¹) := by norm_num
  have h1 : (1 : ℝ) ≤ 2 + 2⁻¹ := by norm_num
  simp [used, demo, effW, Spec.selected, h0, h1]

/-- C11 on the reference data: events 0 and 2 are used, and the call succeeds. -/
example : ∃ s' r, calculate .classic true State.init demo = (s', .ok r) ∧
    s'.idx = some [0, 2] := by
  have hv := (accepted_iff _).1 demo_accepted
  rw [calculate_classic_valid (Or.inl rfl) true State.init demo hv rfl]
  have h : resultOf .classic demo = .ok (betaToB (betaOf (Spec.wmean (used demo) - 1) 1)) := by
    unfold resultOf closed zeroTotal
    rw [demo_used]; simp [demo]
  rw [h]
  refine ⟨_, _, rfl, ?_⟩
  have h0 : ¬ ((1 : ℝ) ≤ 2⁻¹) := by norm_num
  have h1 : (1 : ℝ) ≤ 2 + 2⁻¹ := by norm_num
  simp [usedState, usedIdx, selIdx, demo, List.range_succ, List.filter, h0, h1]

/-! ## C12 -/

/-- Weights retained for the bootstrap after `_estimate`, given those before. -/
def keptOrig (c : Cls) (s : State) (y : Option (List ℝ)) : Option (List ℝ) :=
  match c, s.times with
  | .morePositive, some t => if s.weights.isSome then y.map (take' · (argsort t)) else y
  | _, _ => y

theorem estimate_frame (c : Cls) (s : State) (x : Option (Fl ℝ)) (y : Option (List ℝ)) (z : List Warn) :
    estimate c { s with b := x, origWeights := y, warned := z } =
      ({ (estimate c s).1 with b := x, origWeights := keptOrig c s y, warned := z },
        (estimate c s).2) := by
  obtain ⟨mags, mc, δ, weights, idx, times, dmc, b, om, ow, wa⟩ := s
  cases c
  · rfl
  · rfl
  · cases times with
    | none =>
      simp only [estimate, estimatePositive, sortByTime, keptOrig]
      generalize (binDiffs _ _ : Py (List ℝ)) = u
      cases u <;> rfl
    | some t =>
      simp only [estimate, estimatePositive, sortByTime, keptOrig]
      generalize (binDiffs _ _ : Py (List ℝ)) = u
      cases u <;> rfl
  · cases times with
    | none =>
      simp only [estimate, estimateMorePositive, sortByTime, sortOriginals, keptOrig]
      generalize (binArr _ _ : Py (List ℝ)) = u
      cases u <;> rfl
    | some t =>
      simp only [estimate, estimateMorePositive, sortByTime, sortOriginals, keptOrig]
      generalize (binArr _ _ : Py (List ℝ)) = u
      cases u <;> rfl

/-- Any two states with the same times and dmc give the same outcome. -/
theorem base_frame (c : Cls) (warn warn' : Bool) (s s' : State) (a : Args) (ht : s.times = s'.times)
    (hd : s.dmc = s'.dmc) :
    (baseCalculate c warn s a).2 = (baseCalculate c warn' s' a).2 ∧
    (∀ r, (baseCalculate c warn s a).2 = .ok r →
      { (baseCalculate c warn s a).1 with origWeights := none, warned := [] } =
      { (baseCalculate c warn' s' a).1 with origWeights := none, warned := [] } ∧
      (a.weights.isSome →
        (baseCalculate c warn s a).1.origWeights = (baseCalculate c warn' s' a).1.origWeights)) := by
  by_cases hv : Valid a
  · cases hg : gatherOpt s.times (usedIdx a) with
    | ok t =>
      have hg' : gatherOpt s'.times (usedIdx a) = .ok t := ht ▸ hg
      rw [baseCalculate_valid c warn s a hv t hg, baseCalculate_valid c warn' s' a hv t hg']
      by_cases hu : used a = []
      · rw [if_pos hu, if_pos hu]
        refine ⟨rfl, fun r _ => ⟨?_, ?_⟩⟩
        · unfold usedState; simp only [hd]
        · intro hw; unfold usedState; simp only [hw, if_true]
      · rw [if_neg hu, if_neg hu]
        have e : usedState s warn a t = { usedState s' warn' a t with
            b := s.b
            origWeights := (usedState s warn a t).origWeights
            warned := (usedState s warn a t).warned } := by
          unfold usedState; simp only [hd]
        rw [e, estimate_frame]
        cases he : estimate c (usedState s' warn' a t) with
        | mk s1 r1 =>
          cases r1 with
          | error e => exact ⟨rfl, fun r hr => by cases hr⟩
          | ok b =>
            refine ⟨rfl, fun r _ => ⟨rfl, fun hw => ?_⟩⟩
            have e2 := estimate_frame c (usedState s' warn' a t) (usedState s' warn' a t).b
              (usedState s' warn' a t).origWeights (usedState s' warn' a t).warned
            have e3 : { usedState s' warn' a t with
              b := (usedState s' warn' a t).b
              origWeights := (usedState s' warn' a t).origWeights
              warned := (usedState s' warn' a t).warned } = usedState s' warn' a t := rfl
            rw [e3, he] at e2
            have e4 : s1.origWeights = keptOrig c (usedState s' warn' a t)
                (usedState s' warn' a t).origWeights := (by have := congrArg (fun p => p.1.origWeights) e2; exact this)
            show keptOrig c (usedState s' warn' a t) (usedState s warn a t).origWeights = s1.origWeights
            rw [e4]
            unfold usedState
            simp only [hw, if_true]
    | error e =>
      have hg' : gatherOpt s'.times (usedIdx a) = .error e := ht ▸ hg
      have key : ∀ (w : Bool) (s : State), gatherOpt s.times (usedIdx a) = .error e →
          (baseCalculate c w s a).2 = .error e := by
        intro w s hg
        have hi : selIdx a.mags a.mc a.δ = usedIdx a := rfl
        unfold baseCalculate sanityChecks filterMagnitudes
        simp only [Option.getD_some, hv.bin, hv.wts, hi, gatherOpt_weights hv, hg]
      rw [key warn s hg, key warn' s' hg']
      exact ⟨rfl, fun r hr => by cases hr⟩
  · have key : ∀ (w w' : Bool) (s s' : State),
        (baseCalculate c w s a).2 = (baseCalculate c w' s' a).2 := by
      intro w w' s s'
      unfold baseCalculate sanityChecks
      simp only [Option.getD_some]
      cases h1 : checkBinning a.mags a.δ with
      | error e => rfl
      | ok u =>
        cases h2 : checkWeights a.mags.length a.weights with
        | error e => rfl
        | ok v => exact absurd ⟨h1, h2⟩ hv
    refine ⟨key _ _ _ _, fun r hr => ?_⟩
    obtain ⟨e, he, -⟩ := baseCalculate_invalid c warn s a hv
    rw [he] at hr; cases hr

theorem calc_frame {c : Cls} (warn warn' : Bool) {s s' : State} (hs : Reachable c s)
    (hs' : Reachable c s') (a : Args) :
    (calculate c warn s a).2 = (calculate c warn' s' a).2 ∧
    (∀ r, (calculate c warn s a).2 = .ok r →
      { (calculate c warn s a).1 with origWeights := none, warned := [] } =
      { (calculate c warn' s' a).1 with origWeights := none, warned := [] } ∧
      (a.weights.isSome →
        (calculate c warn s a).1.origWeights = (calculate c warn' s' a).1.origWeights)) := by
  have h0 : c = .classic ∨ c = .utsu → s.times = s'.times ∧ s.dmc = s'.dmc := by
    intro hc
    rw [(reachable_times hc hs).1, (reachable_times hc hs').1, (reachable_times hc hs).2,
      (reachable_times hc hs').2]
    exact ⟨rfl, rfl⟩
  cases c
  · exact base_frame _ _ _ _ _ a (h0 (Or.inl rfl)).1 (h0 (Or.inl rfl)).2
  · exact base_frame _ _ _ _ _ a (h0 (Or.inr rfl)).1 (h0 (Or.inr rfl)).2
  all_goals
    simp only [calculate]
    split
    · exact ⟨rfl, fun r hr => by cases hr⟩
    · exact base_frame _ _ _ _ _ a rfl rfl

/-- C12: for every history of an estimator object, `calculate` returns what it
returns for a fresh object (value or exception), and after a successful call all
attributes are those of a fresh object. The only exception is the private copy of
weights kept for the bootstrap, which is read only if the last call had weights,
and then it agrees too. -/
theorem C12_no_memory {c : Cls} (warn : Bool) {s : State} (hs : Reachable c s) (a : Args) :
    (calculate c warn s a).2 = (calculate c warn State.init a).2 ∧
    (∀ r, (calculate c warn s a).2 = .ok r →
      { (calculate c warn s a).1 with origWeights := none, warned := [] } =
        { (calculate c warn State.init a).1 with origWeights := none, warned := [] } ∧
      (a.weights.isSome → (calculate c warn s a).1.origWeights =
        (calculate c warn State.init a).1.origWeights)) :=
  calc_frame warn warn hs .init a

theorem estimate_weights_none (c : Cls) (s : State) (h : s.weights = none) : (estimate c s).1.weights = none := by
  cases c
  · exact h
  · exact h
  · have h1 : (sortByTime s).weights = none := by
      unfold sortByTime; split
      · exact h
      · simp [h]
    simp only [estimate, estimatePositive]
    split
    · exact h1
    · simp only [h1, Option.map_none]
  · have h0 : (sortOriginals s).weights = none := by
      unfold sortOriginals; split <;> exact h
    have h1 : (sortByTime (sortOriginals s)).weights = none := by
      unfold sortByTime; split
      · exact h0
      · simp [h0]
    simp only [estimate, estimateMorePositive]
    split
    · exact h1
    · simp only [h1, Option.map_none]

theorem store_weights (x : State × Py (Fl ℝ)) : (store x).1.weights = x.1.weights := by
  obtain ⟨s, r⟩ := x
  cases r <;> rfl

theorem base_weights_none (c : Cls) (warn : Bool) (s : State) (a : Args) (h : a.weights = none) :
    (baseCalculate c warn s a).1.weights = none := by
  unfold baseCalculate
  simp only [h]
  have hs : ∀ t : State, (sanityChecks warn t).1.weights = t.weights := by
    intro t
    unfold sanityChecks
    dsimp only
    split <;> rfl
  have hf : ∀ t : State, t.weights = none → (filterMagnitudes warn t).1.weights = none := by
    intro t ht
    unfold filterMagnitudes
    simp only [ht, gatherOpt]
    split <;> rfl
  split
  · rename_i s1 e h1
    have := hs { s with mags := some a.mags, mc := some a.mc, δ := some a.δ, weights := none }
    rw [h1] at this; exact this
  · rename_i s1 h1
    have h2 := hs { s with mags := some a.mags, mc := some a.mc, δ := some a.δ, weights := none }
    rw [h1] at h2
    have h3 := hf s1 h2
    split
    · rename_i s2 e h4; rw [h4] at h3; exact h3
    · rename_i s2 h4
      rw [h4] at h3
      have h5 : s2.weights = none := h3
      simp only [h5]
      split
      · rfl
      · rw [store_weights]
        exact estimate_weights_none _ _ rfl

theorem weights_none (c : Cls) (warn : Bool) (s : State) (a : Args) {r : Fl ℝ} (h : a.weights = none)
    (hr : (calculate c warn s a).2 = .ok r) : (calculate c warn s a).1.weights = none := by
  cases c
  · exact base_weights_none _ _ _ _ h
  · exact base_weights_none _ _ _ _ h
  all_goals
    revert hr
    simp only [calculate]
    split
    · intro hr; cases hr
    · intro _; exact base_weights_none _ _ _ _ h

/-- C12: the values read after a successful call are those of a fresh object. -/
theorem C12_readings {c : Cls} (warn : Bool) {s : State} (hs : Reachable c s) (a : Args) {r : Fl ℝ}
    (hr : (calculate c warn s a).2 = .ok r) :
    let s' := (calculate c warn s a).1
    let f := (calculate c warn State.init a).1
    s'.bValue = .ok r ∧ s'.bValue = f.bValue ∧ s'.beta = f.beta ∧ s'.n = f.n ∧ (∀ ω, stdOf c ω s' = stdOf c ω f) ∧
      (∀ ω, stdBetaOf c ω s' = stdBetaOf c ω f) ∧ s'.mags = f.mags ∧ s'.weights = f.weights ∧ s'.idx = f.idx ∧
      s'.times = f.times ∧ s'.dmc = f.dmc ∧ s'.mc = f.mc ∧ s'.δ = f.δ := by
  intro s' f
  have h := ((C12_no_memory warn hs a).2 r hr).1
  have hb : s'.b = f.b := (by have := congrArg State.b h; exact this)
  have hm : s'.mags = f.mags := (by have := congrArg State.mags h; exact this)
  have hw : s'.weights = f.weights := (by have := congrArg State.weights h; exact this)
  have ho : s'.origMags = f.origMags := (by have := congrArg State.origMags h; exact this)
  have hmc : s'.mc = f.mc := (by have := congrArg State.mc h; exact this)
  have hδ : s'.δ = f.δ := (by have := congrArg State.δ h; exact this)
  have hdmc : s'.dmc = f.dmc := (by have := congrArg State.dmc h; exact this)
  have hwo : (s'.weights.map fun _ => s'.origWeights) = f.weights.map fun _ => f.origWeights := by
    cases haw : a.weights with
    | none => rw [weights_none c warn s a haw hr, weights_none c warn _ a haw ((C12_no_memory warn hs a).1 ▸ hr)]; rfl
    | some w => rw [hw, ((C12_no_memory warn hs a).2 r hr).2 (by rw [haw]; rfl)]
  have hstd : ∀ ω, stdOf c ω s' = stdOf c ω f := by
    intro ω
    have hres : ∀ idx, resampleB s' idx = resampleB f idx := by
      intro idx
      have e : ∀ t : State, (t.weights.map fun _ => take' (t.origWeights.getD []) (idx.insertionSort (· ≤ ·))) =
          (t.weights.map fun _ => t.origWeights).map fun o => take' (o.getD []) (idx.insertionSort (· ≤ ·)) := by
        intro t; cases t.weights <;> rfl
      simp only [resampleB, e, ho, hmc, hδ, hdmc, hwo]
    cases c
    case morePositive => simp only [stdOf, stdBootstrap, hb, ho, funext hres]
    all_goals · simp only [stdOf, State.std, hb, hm, hw]
  refine ⟨?_, ?_, ?_, ?_, ?_, ?_, hm, hw, (by have := congrArg State.idx h; exact this), (by have := congrArg State.times h; exact this),
    (by have := congrArg State.dmc h; exact this), (by have := congrArg State.mc h; exact this), (by have := congrArg State.δ h; exact this)⟩
  · have hbase : ∀ s0 : State, (baseCalculate c warn s0 a).2 = .ok r →
        (baseCalculate c warn s0 a).1.bValue = .ok r := by
      intro s0 h0
      have hv : Valid a := valid_of_ok hr
      cases hg : gatherOpt s0.times (usedIdx a) with
      | ok t =>
        rw [baseCalculate_valid c warn s0 a hv t hg] at h0 ⊢
        split at h0
        · rename_i hu
          rw [if_pos hu]
          cases h0; rfl
        · rename_i hu
          rw [if_neg hu]
          cases he : estimate c (usedState s0 warn a t) with
          | mk s1 r1 =>
            rw [he] at h0
            cases r1 with
            | error e => cases h0
            | ok b => cases h0; rfl
      | error e =>
        have hi : selIdx a.mags a.mc a.δ = usedIdx a := rfl
        unfold baseCalculate sanityChecks filterMagnitudes at h0
        simp only [Option.getD_some, hv.bin, hv.wts, hi, gatherOpt_weights hv, hg] at h0
        cases h0
    show (calculate c warn s a).1.bValue = .ok r
    cases c
    · exact hbase _ hr
    · exact hbase _ hr
    all_goals
      simp only [calculate] at hr ⊢
      split at hr
      · cases hr
      · rename_i hd
        rw [if_neg hd]
        exact hbase _ hr
  · unfold State.bValue; rw [hb]
  · unfold State.beta State.bValue; rw [hb]
  · unfold State.n; rw [hb, hm]
  · exact hstd
  · intro ω
    have := hstd ω
    cases c
    case morePositive => simp only [stdBetaOf, this]
    all_goals · simp only [stdBetaOf, State.stdBeta, hb, hm, hw]

/-- C12: before any `calculate` every reading raises AttributeError. -/
theorem C12_before_first_call :
    State.init.bValue = .error .attributeError ∧ State.init.beta = .error .attributeError ∧
    State.init.n = .error .attributeError ∧ (∀ c ω, stdOf c ω State.init = .error .attributeError) ∧
    ∀ c ω, stdBetaOf c ω State.init = .error .attributeError :=
  ⟨rfl, rfl, rfl, fun c _ => (by cases c <;> rfl), fun c _ => (by cases c <;> rfl)⟩

theorem base_failed_b {c : Cls} {warn : Bool} {s : State} {a : Args} {e : PyErr}
    (h : (baseCalculate c warn s a).2 = .error e) : (baseCalculate c warn s a).1.b = s.b := by
  by_cases hv : Valid a
  · cases hg : gatherOpt s.times (usedIdx a) with
    | ok t =>
      rw [baseCalculate_valid c warn s a hv t hg] at h ⊢
      split at h
      · cases h
      · rename_i hu
        rw [if_neg hu]
        have e2 := estimate_frame c (usedState s warn a t) (usedState s warn a t).b
          (usedState s warn a t).origWeights (usedState s warn a t).warned
        have e3 : { usedState s warn a t with
          b := (usedState s warn a t).b
          origWeights := (usedState s warn a t).origWeights
          warned := (usedState s warn a t).warned } = usedState s warn a t := rfl
        rw [e3] at e2
        have e4 : (estimate c (usedState s warn a t)).1.b = s.b := (by have := congrArg (fun p => p.1.b) e2; exact this)
        cases he : estimate c (usedState s warn a t) with
        | mk s1 r1 =>
          rw [he] at h e4
          cases r1 with
          | error e => exact e4
          | ok b => cases h
    | error e =>
      have hi : selIdx a.mags a.mc a.δ = usedIdx a := rfl
      unfold baseCalculate sanityChecks filterMagnitudes
      simp only [Option.getD_some, hv.bin, hv.wts, hi, gatherOpt_weights hv, hg]
  · obtain ⟨e, _, h2, _⟩ := baseCalculate_invalid c warn s a hv
    exact h2

/-- C12: a failed `calculate` leaves the reported b-value as it was. -/
theorem C12_failed_keeps_b (c : Cls) (warn : Bool) (s : State) (a : Args) (e : PyErr)
    (h : (calculate c warn s a).2 = .error e) :
    (calculate c warn s a).1.bValue = s.bValue := by
  have : (calculate c warn s a).1.b = s.b := by
    cases c
    · exact base_failed_b h
    · exact base_failed_b h
    all_goals
      simp only [calculate] at h ⊢
      split
      · rfl
      · rename_i hd
        rw [if_neg hd] at h
        exact base_failed_b h
  unfold State.bValue
  rw [this]

theorem run_reachable (c : Cls) (calls : List (Bool × Args)) : Reachable c (run c calls) := by
  induction calls using List.reverseRecOn with
  | nil => exact .init
  | append_singleton l x ih =>
    unfold run at ih ⊢
    rw [List.foldl_append]
    exact .call x.1 x.2 ih

/-- C12: whatever the sequence of calls, a b-value that can be read is what a fresh
object returns for the data of the last successful call. -/
theorem C12_reading_is_last_success (c : Cls) (calls : List (Bool × Args)) (b : Fl ℝ)
    (hb : (run c calls).bValue = .ok b) :
    ∃ pre warn a post, calls = pre ++ (warn, a) :: post ∧
      (calculate c warn State.init a).2 = .ok b ∧
      ∀ x ∈ post, ∃ e, (calculate c x.1 State.init x.2).2 = .error e := by
  induction calls using List.reverseRecOn with
  | nil => cases hb
  | append_singleton l x ih =>
    obtain ⟨warn, a⟩ := x
    have e : run c (l ++ [(warn, a)]) = (calculate c warn (run c l) a).1 := by
      unfold run; rw [List.foldl_append]; rfl
    rw [e] at hb
    have hs := run_reachable c l
    cases hr : (calculate c warn (run c l) a).2 with
    | error er =>
      rw [C12_failed_keeps_b c warn _ a er hr] at hb
      obtain ⟨pre, w, a', post, h1, h2, h3⟩ := ih hb
      refine ⟨pre, w, a', post ++ [(warn, a)], by rw [h1]; simp, h2, ?_⟩
      intro x hx
      rcases List.mem_append.1 hx with hx | hx
      · exact h3 x hx
      · rw [List.mem_singleton] at hx
        subst hx
        exact ⟨er, (C12_no_memory warn hs a).1 ▸ hr⟩
    | ok r =>
      have h1 := (C12_readings warn hs a hr).1
      rw [h1] at hb
      cases hb
      exact ⟨l, warn, a, [], rfl, (C12_no_memory warn hs a).1 ▸ hr, by simp⟩

/-- A finding about C12: after a call rejected by the input checks, the object mixes
two data sets: `b_value` is the old estimate while `magnitudes` and `n` are those of the rejected input. -/
theorem C12_failed_call_mixes_data {c : Cls} (hc : c = .classic ∨ c = .utsu) (warn : Bool)
    {s : State} {b : Fl ℝ} (hb : s.bValue = .ok b) (a : Args) (ha : ¬ Accepted a) :
    (calculate c warn s a).1.bValue = .ok b ∧ (calculate c warn s a).1.mags = some a.mags ∧
      (calculate c warn s a).1.n = .ok a.mags.length := by
  have e : calculate c warn s a = baseCalculate c warn { s with warned := [] } a := by
    rcases hc with rfl | rfl <;> rfl
  rw [e]
  obtain ⟨e, _, h2, h3⟩ := baseCalculate_invalid c warn { s with warned := [] } a
    (fun h => ha ((accepted_iff a).2 h))
  unfold State.bValue at hb ⊢
  unfold State.n
  rw [h2, h3]
  cases hsb : s.b with
  | none => rw [hsb] at hb; cases hb
  | some x => rw [hsb] at hb; exact ⟨hb, rfl, rfl⟩

/-- Such a history exists: valid data, then three magnitudes with one weight. -/
example : ∃ (a a' : Args) (r : Fl ℝ) (e : PyErr),
    (calculate .classic true State.init a).2 = .ok r ∧
    (calculate .classic true (calculate .classic true State.init a).1 a').2 = .error e := by
  refine ⟨{ mags := [], mc := 1, δ := 1 }, { mags := [], mc := 1, δ := 1, weights := some [1] },
    .nan, .indexError, ?_, ?_⟩
  · obtain ⟨s', h, _⟩ := C11_empty_is_nan .classic true .init { mags := [], mc := 1, δ := 1 }
      ⟨Or.inl rfl, fun w hw => by cases hw⟩ (by simp) (by simp)
    rw [h]
  · exact C11_weights_length true _ _ [1] (by simp) (Or.inl rfl) rfl (by simp)

/-! ## C17 -/

/-- C17: the option 'warnings' changes no result and no exception of the four b-value
estimators, for any history (the histories may use different settings). -/
theorem C17_b_result {c : Cls} {s : State} (hs : Reachable c s) (a : Args) :
    (calculate c true s a).2 = (calculate c false s a).2 :=
  (calc_frame true false hs hs a).1

/-- C17: nor any attribute, whether the call succeeds or fails. -/
theorem C17_b_attributes (c : Cls) (s : State) (a : Args) :
    { (calculate c true s a).1 with warned := [] } = { (calculate c false s a).1 with warned := [] } := by
  have base : ∀ s1 s2 : State, { s1 with warned := [] } = { s2 with warned := [] } →
      { (baseCalculate c true s1 a).1 with warned := [] } =
      { (baseCalculate c false s2 a).1 with warned := [] } := by
    intro s1 s2 h12
    have es : s2 = { s1 with warned := s2.warned } := by
      cases s1; cases s2; simp only [State.mk.injEq, and_true] at h12; simp [h12]
    have ht : s1.times = s2.times := by rw [es]
    by_cases hv : Valid a
    · cases hg : gatherOpt s1.times (usedIdx a) with
      | ok t =>
        rw [baseCalculate_valid c true s1 a hv t hg, baseCalculate_valid c false s2 a hv t (ht ▸ hg)]
        by_cases hu : used a = []
        · rw [if_pos hu, if_pos hu, es]; rfl
        · rw [if_neg hu, if_neg hu]
          have e : usedState s1 true a t = { usedState s2 false a t with
              b := (usedState s2 false a t).b
              origWeights := (usedState s2 false a t).origWeights
              warned := (usedState s1 true a t).warned } := by
            rw [es]; rfl
          have e2 := estimate_frame c (usedState s2 false a t) (usedState s2 false a t).b
            (usedState s2 false a t).origWeights (usedState s2 false a t).warned
          have e3 : { usedState s2 false a t with
            b := (usedState s2 false a t).b
            origWeights := (usedState s2 false a t).origWeights
            warned := (usedState s2 false a t).warned } = usedState s2 false a t := rfl
          rw [e3] at e2
          rw [e, estimate_frame]
          cases he : estimate c (usedState s2 false a t) with
          | mk x r =>
            rw [he] at e2
            have e4 : x.b = (usedState s2 false a t).b := (by have := congrArg (fun p => p.1.b) e2; exact this)
            have e5 : x.origWeights = keptOrig c (usedState s2 false a t)
              (usedState s2 false a t).origWeights := (by have := congrArg (fun p => p.1.origWeights) e2; exact this)
            cases r with
            | error e => simp only [store]; rw [← e4, ← e5]
            | ok b => simp only [store]; rw [← e5]
      | error e =>
        have hg' := ht ▸ hg
        have hi : selIdx a.mags a.mc a.δ = usedIdx a := rfl
        unfold baseCalculate sanityChecks filterMagnitudes
        simp only [Option.getD_some, hv.bin, hv.wts, hi, gatherOpt_weights hv, hg, hg']
        rw [es]
    · unfold baseCalculate sanityChecks
      simp only [Option.getD_some]
      cases h1 : checkBinning a.mags a.δ with
      | error e => simp only []; rw [es]
      | ok u =>
        cases h2 : checkWeights a.mags.length a.weights with
        | error e => simp only []; rw [es]
        | ok v => exact absurd ⟨h1, h2⟩ hv
  cases c
  · exact base _ _ rfl
  · exact base _ _ rfl
  all_goals
    simp only [calculate]
    split
    · rfl
    · exact base _ _ rfl

/-- C17: with the option off no warning is emitted. -/
theorem C17_b_silent (c : Cls) (s : State) (a : Args) : (calculate c false s a).1.warned = [] := by
  have sw : sanityWarnings false a.mags a.mc a.δ = [] := by
    unfold sanityWarnings; simp
  have base : ∀ s1 : State, s1.warned = [] → (baseCalculate c false s1 a).1.warned = [] := by
    intro s1 h1
    by_cases hv : Valid a
    · cases hg : gatherOpt s1.times (usedIdx a) with
      | ok t =>
        rw [baseCalculate_valid c false s1 a hv t hg]
        have hu0 : (usedState s1 false a t).warned = [] := by
          unfold usedState; simp [h1, sw]
        by_cases hu : used a = []
        · rw [if_pos hu]; exact hu0
        · rw [if_neg hu]
          have e2 := estimate_frame c (usedState s1 false a t) (usedState s1 false a t).b
            (usedState s1 false a t).origWeights (usedState s1 false a t).warned
          have e3 : { usedState s1 false a t with
            b := (usedState s1 false a t).b
            origWeights := (usedState s1 false a t).origWeights
            warned := (usedState s1 false a t).warned } = usedState s1 false a t := rfl
          rw [e3] at e2
          have e4 : (estimate c (usedState s1 false a t)).1.warned = [] := by
            rw [← hu0]; exact (by have := congrArg (fun p => p.1.warned) e2; exact this)
          cases he : estimate c (usedState s1 false a t) with
          | mk x r =>
            rw [he] at e4
            cases r <;> exact e4
      | error e =>
        have hi : selIdx a.mags a.mc a.δ = usedIdx a := rfl
        unfold baseCalculate sanityChecks filterMagnitudes
        simp only [Option.getD_some, hv.bin, hv.wts, hi, gatherOpt_weights hv, hg]
        simp [h1, sw]
    · unfold baseCalculate sanityChecks
      simp only [Option.getD_some]
      cases h1' : checkBinning a.mags a.δ with
      | error e => exact h1
      | ok u =>
        cases h2 : checkWeights a.mags.length a.weights with
        | error e => simp [h1, sw]
        | ok v => exact absurd ⟨h1', h2⟩ hv
  cases c
  · exact base _ rfl
  · exact base _ rfl
  all_goals
    simp only [calculate]
    split
    · rfl
    · exact base _ (by simp)

/-- The option does matter for the warnings: an empty selection warns. -/
example : (calculate .classic true State.init { mags := [], mc := 1, δ := 1 }).1.warned ≠ [] := by
  simp [calculate, baseCalculate, sanityChecks, checkBinning, sanityWarnings, checkWeights,
    filterMagnitudes, selIdx, gatherOpt, State.init]

end
end SeismoStats.Props
