/-
Properties C12 (with assignments in the history) and C85: the attributes of estimator objects.
-/
import Verif.Model.EstimatorAttrs
import Verif.Props.BMorePositiveStd
import Verif.Props.Partition
import Verif.Props.AValueState

namespace SeismoStats.Props
open SeismoStats SeismoStats.BValue
open Classical
noncomputable section

/-- The actions are possible for the class: `times` and `dmc` are assigned to positive estimators only. -/
def Possible (c : Cls) (l : List Step) : Prop := ∀ x, Step.assign x ∈ l → x.allowed c

theorem runSteps_append (c : Cls) (l : List Step) (x : Step) : runSteps c (l ++ [x]) = step c (runSteps c l) x := by
  unfold runSteps; rw [List.foldl_append]; rfl

theorem runSteps_reachable {c : Cls} {l : List Step} (h : Possible c l) : Reachable c (runSteps c l) := by
  induction l using List.reverseRecOn with
  | nil => exact .init
  | append_singleton l x ih =>
    have ih := ih fun y hy => h y (by simp [hy])
    rw [runSteps_append]
    cases x with
    | call warn a => exact .call warn a ih
    | assign x => exact .assign x (h x (by simp)) ih

/-- C12: for every history of calls and assignments, `calculate` returns what it returns for a new object, and after a successful call everything that can be
read from the object is what can be read from a new object after the same call: assigned attributes are overwritten. -/
theorem C12_assignments_forgotten (c : Cls) (l : List Step) (hl : Possible c l) (warn : Bool) (a : Args) :
    (calculate c warn (runSteps c l) a).2 = (calculate c warn State.init a).2 ∧
    ∀ r, (calculate c warn (runSteps c l) a).2 = .ok r →
      let s' := (calculate c warn (runSteps c l) a).1
      let f := (calculate c warn State.init a).1
      s'.bValue = .ok r ∧ s'.beta = f.beta ∧ s'.n = f.n ∧ (∀ ω, stdOf c ω s' = stdOf c ω f) ∧ (∀ ω, stdBetaOf c ω s' = stdBetaOf c ω f) ∧
        s'.mags = f.mags ∧ s'.weights = f.weights ∧ s'.idx = f.idx ∧ s'.times = f.times ∧ s'.dmc = f.dmc ∧ s'.mc = f.mc ∧ s'.δ = f.δ := by
  have hs := runSteps_reachable hl
  refine ⟨(C12_no_memory warn hs a).1, fun r hr => ?_⟩
  obtain ⟨h1, -, h2⟩ := C12_readings warn hs a hr
  exact ⟨h1, h2⟩

theorem assign_b (s : State) (x : Assign) : (x.apply s).b = s.b := by cases x <;> rfl

/-- C85: whatever the user assigned and called, a b-value that can be read is what a new object returns for the arguments of the last successful call. -/
theorem C85_reading_is_last_success (c : Cls) (l : List Step) (hl : Possible c l) (b : Fl ℝ) (hb : (runSteps c l).bValue = .ok b) :
    ∃ pre warn a post, l = pre ++ .call warn a :: post ∧ (calculate c warn State.init a).2 = .ok b ∧
      ∀ w x, Step.call w x ∈ post → ∃ e, (calculate c w State.init x).2 = .error e := by
  induction l using List.reverseRecOn with
  | nil => cases hb
  | append_singleton l x ih =>
    have hl' : Possible c l := fun y hy => hl y (by simp [hy])
    rw [runSteps_append] at hb
    cases x with
    | assign x =>
      have : (step c (runSteps c l) (.assign x)).bValue = (runSteps c l).bValue := by
        unfold State.bValue step; rw [assign_b]
      rw [this] at hb
      obtain ⟨pre, w, a, post, h1, h2, h3⟩ := ih hl' hb
      refine ⟨pre, w, a, post ++ [.assign x], by rw [h1]; simp, h2, ?_⟩
      intro w' x' hx
      rcases List.mem_append.1 hx with hx | hx
      · exact h3 w' x' hx
      · simp at hx
    | call warn a =>
      have hs := runSteps_reachable hl'
      cases hr : (calculate c warn (runSteps c l) a).2 with
      | error er =>
        have e : (step c (runSteps c l) (.call warn a)).bValue = (runSteps c l).bValue := C12_failed_keeps_b c warn _ a er hr
        rw [e] at hb
        obtain ⟨pre, w, a', post, h1, h2, h3⟩ := ih hl' hb
        refine ⟨pre, w, a', post ++ [.call warn a], by rw [h1]; simp, h2, ?_⟩
        intro w' x hx
        rcases List.mem_append.1 hx with hx | hx
        · exact h3 w' x hx
        · simp only [List.mem_singleton, Step.call.injEq] at hx
          obtain ⟨rfl, rfl⟩ := hx
          exact ⟨er, (C12_no_memory w' hs x).1 ▸ hr⟩
      | ok r =>
        have h1 := (C12_readings warn hs a hr).1
        have : (step c (runSteps c l) (.call warn a)).bValue = .ok r := h1
        rw [this] at hb
        cases hb
        exact ⟨l, warn, a, [], rfl, (C12_no_memory warn hs a).1 ▸ hr, by simp⟩

/-- C85: an assignment changes the attribute it names and no estimate: `b_value` and `beta` stay, `n` is the number of assigned magnitudes or stays, and what
can be read as `magnitudes`, `mc`, … is what was assigned, without a check of binning, completeness or length. -/
theorem C85_assignment (s : State) (x : Assign) :
    (x.apply s).bValue = s.bValue ∧ (x.apply s).beta = s.beta ∧
    (match x with
      | .magnitudes v => (x.apply s).mags = some v ∧ ((x.apply s).n = .ok v.length ∨ (x.apply s).n = .error .attributeError ∧ s.n = .error .attributeError)
      | .mc v => (x.apply s).mc = some v ∧ (x.apply s).n = s.n
      | .deltaM v => (x.apply s).δ = some v ∧ (x.apply s).n = s.n
      | .weights v => (x.apply s).weights = v ∧ (x.apply s).n = s.n
      | .idx v => (x.apply s).idx = v ∧ (x.apply s).n = s.n
      | .times v => (x.apply s).times = v ∧ (x.apply s).n = s.n
      | .dmc v => (x.apply s).dmc = some v ∧ (x.apply s).n = s.n) := by
  have hb : (x.apply s).bValue = s.bValue := by unfold State.bValue; rw [assign_b]
  refine ⟨hb, by unfold State.beta; rw [hb], ?_⟩
  cases x with
  | magnitudes v =>
    refine ⟨rfl, ?_⟩
    unfold State.n Assign.apply
    cases s.b with
    | none => right; exact ⟨rfl, rfl⟩
    | some b => left; rfl
  | mc v => exact ⟨rfl, rfl⟩
  | deltaM v => exact ⟨rfl, rfl⟩
  | weights v => exact ⟨rfl, rfl⟩
  | idx v => exact ⟨rfl, rfl⟩
  | times v => exact ⟨rfl, rfl⟩
  | dmc v => exact ⟨rfl, rfl⟩

/-- C85 (defect): `std` of the classic, Utsu and b-positive estimators after an assignment of magnitudes: the uncertainty formula with the b-value of the last
calculation and the spread and number of the assigned magnitudes - two data sets are mixed silently. -/
theorem C85_std_mixes_data {c : Cls} (hc : c ≠ .morePositive) (ω : ℕ → List (List ℕ)) (s : State) (b : Fl ℝ) (hb : s.bValue = .ok b) (v : List ℝ) :
    stdOf c ω ((Assign.magnitudes (v.map some)).apply s) = shiBolt v b s.weights false := by
  have hb' : s.b = some b := by
    unfold State.bValue at hb
    cases h : s.b with
    | none => rw [h] at hb; cases hb
    | some x => rw [h] at hb; cases hb; rfl
  have hn : nums (some (v.map some)) = v := by
    unfold nums
    rw [Option.getD_some, List.filterMap_map]
    simp
  cases c
  case morePositive => exact absurd rfl hc
  all_goals
    unfold stdOf State.std Assign.apply
    simp only [hb', hn]

/-- C85: `std` of the b-more-positive estimator does not look at assigned magnitudes, times or indices: it resamples the data of the last call. -/
theorem C85_more_positive_std (ω : ℕ → List (List ℕ)) (s : State) (v : List (Option ℝ)) (t : Option (List ℝ)) (i : Option (List ℕ)) :
    stdAssigned ω ((Assign.magnitudes v).apply s) = stdAssigned ω s ∧ stdAssigned ω ((Assign.times t).apply s) = stdAssigned ω s ∧
      stdAssigned ω ((Assign.idx i).apply s) = stdAssigned ω s := ⟨rfl, rfl, rfl⟩

/-- Without assignments the model of `std` is that of the other properties (C25, C78). -/
theorem C85_bootstrap_unassigned {warn : Bool} {s s' : State} {a : Args} {r : Fl ℝ} (h : calculate .morePositive warn s a = (s', .ok r))
    (ω : ℕ → List (List ℕ)) (hω : ∀ n, ∀ d ∈ ω n, ∀ i ∈ d, i < n) : stdAssigned ω s' = stdOf .morePositive ω s' := by
  obtain ⟨h1, h2, h3, -, -, -, hb⟩ := kept_after h
  unfold stdAssigned stdOf stdBootstrap
  rw [hb]
  dsimp only
  unfold bootstrapStd
  have : ((ω (s'.origMags.getD []).length).mapM fun d => resampleAssigned s' (take' (List.range (s'.origMags.getD []).length) d)) =
      (ω (s'.origMags.getD []).length).mapM fun d => resampleB s' (take' (List.range (s'.origMags.getD []).length) d) := by
    apply mapM_congr_mem
    intro d hd
    have hd' := hω _ d hd
    rw [take'_range hd']
    unfold resampleAssigned
    cases hw : s'.weights with
    | none => rfl
    | some w =>
      rw [hw] at h3
      obtain ⟨w0, hw0⟩ := Option.isSome_iff_exists.1 (by rw [← h3]; rfl : a.weights.isSome = true)
      rw [h2 w0 hw0]
      dsimp only
      rw [h1] at hd'
      simp only [Option.getD_some, List.length_map] at hd'
      obtain ⟨o, ho⟩ : ∃ o, gather ((timeOrder a).map fun i => w0.getD i 0) (d.insertionSort (· ≤ ·)) = .ok o := by
        refine ⟨(d.insertionSort (· ≤ ·)).map fun i => ((timeOrder a).map fun i => w0.getD i 0).getD i 0, ?_⟩
        apply gather_getD
        intro i hi
        rw [List.length_map]
        exact hd' i ((List.mem_insertionSort _).1 hi)
      rw [ho]
  rw [this]

theorem estimate_unweighted_orig (c : Cls) (s : State) (h : s.weights = none) : (estimate c s).1.origWeights = s.origWeights := by
  have e := estimate_frame c s s.b s.origWeights s.warned
  have e2 : ({ s with b := s.b, origWeights := s.origWeights, warned := s.warned } : State) = s := rfl
  rw [e2] at e
  have := congrArg (fun p => p.1.origWeights) e
  refine Eq.trans this ?_
  show keptOrig c s s.origWeights = s.origWeights
  unfold keptOrig
  split
  · rw [if_neg (by rw [h]; simp)]
  · rfl

/-- A call without weights leaves the kept weights of an earlier call. -/
theorem unweighted_keeps_orig (c : Cls) (warn : Bool) (s : State) (a : Args) {r : Fl ℝ} (h : (calculate c warn s a).2 = .ok r) (hw : a.weights = none) :
    (calculate c warn s a).1.origWeights = s.origWeights := by
  have hv : Valid a := valid_of_ok h
  have base : ∀ s0 : State, (baseCalculate c warn s0 a).2 = .ok r → (baseCalculate c warn s0 a).1.origWeights = s0.origWeights := by
    intro s0 h0
    cases hg : gatherOpt s0.times (usedIdx a) with
    | error e =>
      have hi : selIdx a.mags a.mc a.δ = usedIdx a := rfl
      unfold baseCalculate sanityChecks filterMagnitudes at h0
      simp only [Option.getD_some, hv.bin, hv.wts, hi, gatherOpt_weights hv, hg] at h0
      cases h0
    | ok t =>
      rw [baseCalculate_valid c warn s0 a hv t hg] at h0 ⊢
      have hu0 : (usedState s0 warn a t).origWeights = s0.origWeights := by unfold usedState; simp [hw]
      have hw0 : (usedState s0 warn a t).weights = none := by unfold usedState; simp [hw]
      split at h0
      · rename_i hu
        rw [if_pos hu]
        exact hu0
      · rename_i hu
        rw [if_neg hu]
        have e3 := estimate_unweighted_orig c (usedState s0 warn a t) hw0
        cases he : estimate c (usedState s0 warn a t) with
        | mk s1 r1 =>
          rw [he] at h0 e3
          cases r1 with
          | error e => cases h0
          | ok b => exact e3.trans hu0
  cases c
  · exact base _ h
  · exact base _ h
  all_goals
    simp only [calculate] at h ⊢
    split at h
    · cases h
    · rename_i hd
      rw [if_neg hd]
      exact base _ h

/-- C85 (defect): weights assigned to a b-more-positive estimator after a calculation without weights: `std` raises TypeError (`None` is indexed). -/
theorem C85_defect_assigned_weights_error (warn : Bool) (a : Args) (r : Fl ℝ) (h : (calculate .morePositive warn State.init a).2 = .ok r) (hw : a.weights = none)
    (v : List ℝ) (ω : ℕ → List (List ℕ)) (hω : ∀ n, ω n ≠ []) :
    stdAssigned ω ((Assign.weights (some v)).apply (calculate .morePositive warn State.init a).1) = .error .typeError := by
  have ho := unweighted_keeps_orig .morePositive warn State.init a h hw
  have hb := (C12_readings warn .init a h).1
  set s := (calculate .morePositive warn State.init a).1
  unfold State.bValue at hb
  cases hsb : s.b with
  | none => rw [hsb] at hb; cases hb
  | some b =>
    unfold stdAssigned
    have e1 : ((Assign.weights (some v)).apply s).b = some b := hsb
    rw [e1]
    dsimp only
    unfold bootstrapStd
    obtain ⟨d, l, hd⟩ := List.exists_cons_of_ne_nil (hω ((((Assign.weights (some v)).apply s).origMags.getD []).length))
    rw [hd, List.mapM_cons]
    have e2 : ∀ i, resampleAssigned ((Assign.weights (some v)).apply s) i = .error .typeError := by
      intro i
      unfold resampleAssigned
      have : ((Assign.weights (some v)).apply s).origWeights = none := ho
      rw [this]
      rfl
    rw [e2]
    rfl

/-- C85 (defect): calculation with data `a1` and weights, then with data `a2` without weights, then an assignment of weights: `std` resamples the magnitudes
of `a2` with the weights of `a1`; the assigned ones are not used at all. -/
theorem C85_defect_stale_weights (warn : Bool) {s s1 s2 : State} {a1 a2 : Args} {r1 r2 : Fl ℝ} (h1 : calculate .morePositive warn s a1 = (s1, .ok r1))
    (h2 : calculate .morePositive warn s1 a2 = (s2, .ok r2)) (w : List ℝ) (hw1 : a1.weights = some w) (hw2 : a2.weights = none) (v : List ℝ) (i : List ℕ)
    (hi : ∀ k ∈ i, k < (timeOrder a1).length) :
    resampleAssigned ((Assign.weights (some v)).apply s2) i =
      (calculate .morePositive false State.init
        { mags := (i.insertionSort (· ≤ ·)).map fun k => some (((timeOrder a2).map (magOf a2)).getD k 0), mc := a2.mc, δ := a2.δ, dmc := some (cutoff a2)
          weights := some ((i.insertionSort (· ≤ ·)).map fun k => ((timeOrder a1).map fun j => w.getD j 0).getD k 0) }).2 := by
  obtain ⟨-, k1, -⟩ := kept_after h1
  obtain ⟨m2, -, -, hmc, hδ, hd, -⟩ := kept_after h2
  have ho := unweighted_keeps_orig .morePositive warn s1 a2 (r := r2) (by rw [h2]) hw2
  rw [h2] at ho
  have ho2 : ((Assign.weights (some v)).apply s2).origWeights = some ((timeOrder a1).map fun j => w.getD j 0) := by
    show s2.origWeights = _
    rw [← k1 w hw1]
    exact ho
  unfold resampleAssigned
  rw [ho2]
  have hg := gather_getD ((timeOrder a1).map fun j => w.getD j 0) 0 (i.insertionSort (· ≤ ·)) (by
    intro k hk
    rw [List.length_map]
    exact hi k ((List.mem_insertionSort _).1 hk))
  show (match gather ((timeOrder a1).map fun j => w.getD j 0) (i.insertionSort (· ≤ ·)) with
    | .error e => (.error e : Py (Fl ℝ))
    | .ok _ => resampleB ((Assign.weights (some v)).apply s2) i) = _
  rw [hg]
  show resampleB ((Assign.weights (some v)).apply s2) i = _
  unfold resampleB
  dsimp only
  rw [ho2]
  have em : ((Assign.weights (some v)).apply s2).origMags = some ((timeOrder a2).map (magOf a2)) := m2
  have emc : ((Assign.weights (some v)).apply s2).mc = some a2.mc := hmc
  have eδ : ((Assign.weights (some v)).apply s2).δ = some a2.δ := hδ
  have ed : ((Assign.weights (some v)).apply s2).dmc = some (cutoff a2) := hd
  rw [em, emc, eδ, ed]
  simp only [Option.getD_some, take', List.map_map]
  rfl

/-- C85: the same for the a-value estimators: `a_value` stays when an attribute is assigned (also one that the result depends on, as `b_value`, `m_ref` or
`scaling_factor`), `n` is the number of assigned magnitudes. -/
theorem C85_a_assignment (s : AValue.State) (x : AValue.Assign) :
    (x.apply s).aValue = s.aValue ∧
    (match x with
      | .magnitudes v => (x.apply s).mags = some v ∧ ((x.apply s).n = .ok v.length ∨ (x.apply s).n = .error .attributeError ∧ s.n = .error .attributeError)
      | _ => (x.apply s).mags = s.mags ∧ (x.apply s).n = s.n) ∧
    (x.apply s).mc = (match x with | .mc v => some v | _ => s.mc) ∧ (x.apply s).δ = (match x with | .deltaM v => some v | _ => s.δ) ∧
    (x.apply s).scaling = (match x with | .scalingFactor v => v | _ => s.scaling) ∧ (x.apply s).mref = (match x with | .mRef v => v | _ => s.mref) ∧
    (x.apply s).b = (match x with | .bValue v => v | _ => s.b) ∧ (x.apply s).idx = (match x with | .idx v => v | _ => s.idx) ∧
    (x.apply s).times = (match x with | .times v => some v | _ => s.times) ∧ (x.apply s).dmc = (match x with | .dmc v => some v | _ => s.dmc) := by
  have ha : (x.apply s).a = s.a := by cases x <;> rfl
  refine ⟨by unfold AValue.State.aValue; rw [ha], ?_, ?_⟩
  · cases x with
    | magnitudes v =>
      refine ⟨rfl, ?_⟩
      unfold AValue.State.n AValue.Assign.apply
      cases s.a with
      | none => right; exact ⟨rfl, rfl⟩
      | some b => left; rfl
    | _ => exact ⟨rfl, rfl⟩
  · cases x <;> exact ⟨rfl, rfl, rfl, rfl, rfl, rfl, rfl, rfl⟩

theorem demo_runs (s : State) (w : Option (List ℝ)) (hw : w = none ∨ w = some [1, 1]) :
    ∃ s' b, calculate .morePositive true s { demoM with weights := w } = (s', .ok b) := by
  set a : Args := { demoM with weights := w } with ha
  have hc : cutoff a = 1 := rfl
  have hv : Valid a := by
    refine ⟨demoM_valid.bin, ?_⟩
    rcases hw with rfl | rfl
    · rfl
    · exact demoM_valid.wts
  have hi : usedIdx a = [0, 1] := demoM_idx
  obtain ⟨s', e, -⟩ := run_nonempty (Or.inr rfl) true s a hv (by rw [hc]; norm_num) (by rw [hi]; simp) (t := none) rfl
    (show (1 : ℝ) / 10 ^ 12 ≤ 1 by norm_num)
  have hp : pairsOf .morePositive a = [(0, 1)] := demoM_pairs
  rw [hp] at e
  have hD : diffsOf a [(0, 1)] = [(2, 1)] := by
    have e1 : magOf a 1 - magOf a 0 = 2 := by norm_num [magOf, ha, demoM]
    have e3 : a.δ = 1 := rfl
    have e4 : weightOf a 1 = 1 := by rcases hw with rfl | rfl <;> simp [weightOf, ha]
    have e5 : onGrid 1 2 = 2 := by
      unfold onGrid
      rw [if_pos one_pos]
      have := binTo_int_mul (K := ℝ) one_ne_zero 2
      norm_num at this
      exact this
    simp [diffsOf, e1, e3, e4, e5]
  rw [hD] at e
  obtain ⟨b, hb, -⟩ := pairResult_mle a [(2, 1)] (by simp) (by norm_num [Spec.total]) (by rw [hc]; norm_num [Spec.wmean])
  rw [hb] at e
  exact ⟨s', _, e⟩

/-- The hypotheses of the defects are met: two events with weights, then without. -/
example : ∃ s1 s2 r1 r2, calculate .morePositive true State.init { demoM with weights := some [1, 1] } = (s1, .ok r1) ∧
    calculate .morePositive true s1 { demoM with weights := none } = (s2, .ok r2) := by
  obtain ⟨s1, r1, h1⟩ := demo_runs State.init _ (Or.inr rfl)
  obtain ⟨s2, r2, h2⟩ := demo_runs s1 _ (Or.inl rfl)
  exact ⟨s1, s2, r1, r2, h1, h2⟩

/-- A possible history: a call, an assignment of magnitudes and of weights. -/
example : Possible .classic [.call true demoM, .assign (.magnitudes [some 2]), .assign (.weights none)] := by
  intro x hx
  simp at hx
  rcases hx with rfl | rfl <;> trivial

/-- C85: assignments cannot replace a calculation: as long as no call succeeded, `b_value`, `beta`, `n` and `std` raise AttributeError, whatever was assigned. -/
theorem C85_no_estimate (c : Cls) (l : List Step) (hl : Possible c l) (h : ∀ w a, Step.call w a ∈ l → ∃ e, (calculate c w State.init a).2 = .error e)
    (ω : ℕ → List (List ℕ)) :
    (runSteps c l).bValue = .error .attributeError ∧ (runSteps c l).beta = .error .attributeError ∧ (runSteps c l).n = .error .attributeError ∧
      (if c = .morePositive then stdAssigned ω (runSteps c l) else stdOf c ω (runSteps c l)) = .error .attributeError := by
  have hb : (runSteps c l).b = none := by
    cases hb : (runSteps c l).b with
    | none => rfl
    | some b =>
      obtain ⟨pre, w, a, post, h1, h2, -⟩ := C85_reading_is_last_success c l hl b (by unfold State.bValue; rw [hb])
      obtain ⟨e, he⟩ := h w a (by rw [h1]; simp)
      rw [h2] at he
      cases he
  have e : (runSteps c l).bValue = .error .attributeError := by unfold State.bValue; rw [hb]
  refine ⟨e, ?_, ?_, ?_⟩
  · unfold State.beta; rw [e]; rfl
  · unfold State.n; rw [hb]
  · by_cases hc : c = .morePositive
    · rw [if_pos hc]
      unfold stdAssigned
      rw [hb]
    · rw [if_neg hc]
      cases c
      case morePositive => exact absurd rfl hc
      all_goals
        unfold stdOf State.std
        rw [hb]

/-- Without a successful call: magnitudes, bin size and `mc` are assigned, nothing is calculated. -/
example : (runSteps .positive [.assign (.magnitudes [some 2, some 3]), .assign (.mc 1), .assign (.deltaM 1)]).bValue = .error .attributeError :=
  (C85_no_estimate .positive _ (by intro x hx; simp at hx; rcases hx with rfl | rfl | rfl <;> trivial) (by intro w a h; simp at h) fun _ => []).1

end
end SeismoStats.Props
