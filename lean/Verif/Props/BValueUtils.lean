/-
Properties C19, C20, C21, C24, C26, C27: conversions, Shi-Bolt, bootstrap, next larger
event, incompleteness filter, estimate_b.
-/
import Verif.Props.BValueWeights

namespace SeismoStats.Props
open SeismoStats BValue
open Classical
noncomputable section

theorem log10_pos : 0 < Real.log 10 := Real.log_pos (by norm_num)

/-! ## C19 -/

/-- C19: the two conversions are inverse to each other, also on NaN and infinities. -/
theorem C19_inverse (x : Fl ℝ) : betaToB (bToBeta x) = x ∧ bToBeta (betaToB x) = x := by
  have := log10_pos.ne'
  cases x <;> simp [betaToB, bToBeta, Fl.mapFin, this]

/-- C19: they are division and multiplication by `ln 10`. -/
theorem C19_values (x : ℝ) :
    betaToB (.fin x) = .fin (x / Real.log 10) ∧ bToBeta (.fin x) = .fin (x * Real.log 10) :=
  ⟨rfl, rfl⟩

/-- C19: `estimator.beta` is `ln 10` times `estimator.b_value`. -/
theorem C19_beta (s : State) (b : ℝ) (h : s.bValue = .ok (.fin b)) :
    s.beta = .ok (.fin (b * Real.log 10)) := by
  unfold State.beta; rw [h]; rfl

theorem shiBolt_beta (mags : List ℝ) (b : Fl ℝ) (w : Option (List ℝ)) :
    shiBolt mags (bToBeta b) w true =
      (shiBolt mags b w false).map (Fl.mapFin (· * Real.log 10)) := by
  have hl := log10_pos.ne'
  unfold shiBolt
  cases average mags w with
  | error e => rfl
  | ok mu =>
    cases mu with
    | fin mu =>
      simp only [bind, Except.bind]
      cases average (mags.map fun m => (m - mu) ^ 2) w with
      | error e => rfl
      | ok v =>
        cases v with
        | fin v =>
          simp only [pure, Except.pure, Except.map, if_true, Bool.false_eq_true, if_false]
          congr 1
          generalize Real.sqrt v = sd
          generalize lenMags mags w = n
          unfold Fl.sqrt shiBoltFormula
          by_cases hn : n - 1 < 0
          · simp only [hn, if_true]; cases b <;> rfl
          · simp only [hn, if_false]
            cases b with
            | nan => rfl
            | fin b =>
              simp only [bToBeta, Fl.mapFin, Fl.div]
              by_cases h0 : Real.sqrt (n - 1) = 0
              · simp only [h0, if_true]
                have e : Real.log 10 * (b * Real.log 10) ^ 2 * sd =
                  Real.log 10 ^ 2 * (Real.log 10 * b ^ 2 * sd) := by ring
                rw [e]
                have hp : 0 < Real.log 10 ^ 2 := by have := log10_pos; positivity
                by_cases hx : Real.log 10 * b ^ 2 * sd = 0
                · simp [hx]
                · simp only [mul_eq_zero, hp.ne', false_or, mul_pos_iff_of_pos_left hp]
                  have hx' := hx
                  simp only [mul_eq_zero] at hx'
                  simp only [hx', if_false]
                  by_cases h5 : 0 < Real.log 10 * b ^ 2 * sd
                  · simp only [h5, if_true]
                  · simp only [h5, if_false]
              · simp only [h0, if_false]
                congr 1
                field_simp
            | pinf => by_cases h6 : sd = 0 <;> simp [bToBeta, Fl.mapFin, h6]
            | ninf => by_cases h6 : sd = 0 <;> simp [bToBeta, Fl.mapFin, h6]
        | nan => rfl
        | pinf => rfl
        | ninf => rfl
    | nan => rfl
    | pinf => rfl
    | ninf => rfl

theorem base_std_beta (s : State) :
    s.stdBeta = s.std.map (Fl.mapFin (· * Real.log 10)) := by
  unfold State.stdBeta State.std
  cases s.b with
  | none => rfl
  | some b => exact shiBolt_beta _ _ _

/-- C19: `std_beta` is `ln 10` times `std`, for each class; for b-more-positive, where both are bootstrap
estimates, if the same samples are drawn. -/
theorem C19_std_beta (c : Cls) (ω : ℕ → List (List ℕ)) (s : State) :
    stdBetaOf c ω s = (stdOf c ω s).map (Fl.mapFin (· * Real.log 10)) := by
  cases c
  case morePositive => rfl
  all_goals exact base_std_beta s

/-- C19: `estimate_b(..., b_parameter='beta')` is `ln 10` times the result for 'b_value'. -/
theorem C19_estimate_b (c : Cls) (ω : ℕ → List (List ℕ)) (warn : Bool) (a : Args) :
    (∀ b, estimateB c ω warn a .bValue false false = .ok (.scalar b) →
      estimateB c ω warn a .beta false false = .ok (.scalar (b.mapFin (· * Real.log 10)))) ∧
    (∀ b sd, estimateB c ω warn a .bValue true false = .ok (.tuple [b, sd]) →
      estimateB c ω warn a .beta true false =
        .ok (.tuple [b.mapFin (· * Real.log 10), sd.mapFin (· * Real.log 10)])) := by
  unfold estimateB
  cases hc : calculate c warn State.init a with
  | mk s r =>
    cases r with
    | error e => exact ⟨fun b h => (by cases h), fun b sd h => (by cases h)⟩
    | ok r =>
      simp only [bind, Except.bind, pure, Except.pure, Bool.false_eq_true, if_false, if_true,
        State.beta, reduceCtorEq, C19_std_beta]
      constructor
      · intro b h
        cases hb : s.bValue with
        | error e => rw [hb] at h; cases h
        | ok b' => rw [hb] at h; cases h; rfl
      · intro b sd h
        cases hb : s.bValue with
        | error e => rw [hb] at h; cases h
        | ok b' =>
          rw [hb] at h
          cases hsd : stdOf c ω s with
          | error e => rw [hsd] at h; cases h
          | ok sd' => rw [hsd] at h; cases h; rfl

/-! ## C20 -/

/-- Magnitudes with the weights in effect. -/
def weightedMags (mags : List ℝ) (w : Option (List ℝ)) : List (ℝ × ℝ) :=
  List.zip mags (w.getD (mags.map fun _ => 1))

theorem wm_none (mags : List ℝ) : weightedMags mags none = mags.map fun m => (m, 1) := by
  unfold weightedMags
  simp only [Option.getD_none]
  induction mags with
  | nil => rfl
  | cons o r ih => rw [List.map_cons, List.zip_cons_cons, ih, List.map_cons]

theorem wm_fst (mags : List ℝ) (w : Option (List ℝ)) (h : ∀ w', w = some w' → w'.length = mags.length) :
    (weightedMags mags w).map Prod.fst = mags := by
  unfold weightedMags
  apply List.map_fst_zip
  cases w with
  | none => simp
  | some w => simp [h w rfl]

theorem wm_snd (mags : List ℝ) (w : List ℝ) (h : w.length = mags.length) :
    (weightedMags mags (some w)).map Prod.snd = w := by
  unfold weightedMags
  exact List.map_snd_zip (by simp [h])

theorem average_wm (mags : List ℝ) (w : Option (List ℝ))
    (h : ∀ w', w = some w' → w'.length = mags.length)
    (ht : Spec.total (weightedMags mags w) ≠ 0) (f : ℝ → ℝ) :
    average (mags.map f) w = .ok (.fin (wavg f (weightedMags mags w))) := by
  cases w with
  | none =>
    have hne : mags ≠ [] := by
      intro h0; apply ht; rw [h0]; simp [Spec.total, weightedMags]
    have : (mags.map f) ≠ [] := by simpa using hne
    unfold average wavg
    rw [wm_none]
    simp [hne, Function.comp_def]
  | some w =>
    have h1 := wm_fst mags (some w) h
    have h2 := wm_snd mags w (h w rfl)
    unfold Spec.total at ht
    rw [h2] at ht
    unfold average wavg
    simp only [ht, if_false]
    rw [h2]
    have e := zipWith_pairs (weightedMags mags (some w)) f
    have e2 : ((weightedMags mags (some w)).map fun p => f p.1) = mags.map f := by
      conv_rhs => rw [← h1]
      rw [List.map_map]
      rfl
    rw [e2, h2] at e
    rw [e]

theorem lenMags_eq (mags : List ℝ) (w : Option (List ℝ))
    (h : ∀ w', w = some w' → w'.length = mags.length) :
    lenMags mags w = Spec.total (weightedMags mags w) := by
  cases w with
  | none => rw [wm_none]; simp [Spec.total, lenMags, Function.comp_def]
  | some w => unfold Spec.total lenMags; rw [wm_snd mags w (h w rfl)]

/-- C20: with total weight (number of magnitudes) above 1 the result is
`ln(10) b² sd/√(n-1)` with the population standard deviation `sd`. -/
theorem C20_formula (mags : List ℝ) (b : ℝ) (w : Option (List ℝ))
    (h : ∀ w', w = some w' → w'.length = mags.length)
    (ht : 1 < Spec.total (weightedMags mags w)) :
    shiBolt mags (.fin b) w false = .ok (.fin (Real.log 10 * b ^ 2 *
      Real.sqrt (Spec.variance (weightedMags mags w)) /
      Real.sqrt (Spec.total (weightedMags mags w) - 1))) := by
  have ht0 : Spec.total (weightedMags mags w) ≠ 0 := by linarith
  have e1 := average_wm mags w h ht0 id
  rw [List.map_id] at e1
  unfold shiBolt
  rw [e1]
  simp only [bind, Except.bind]
  rw [average_wm mags w h ht0]
  simp only [pure, Except.pure, Bool.false_eq_true, if_false]
  rw [lenMags_eq mags w h]
  have hs : ¬ Spec.total (weightedMags mags w) - 1 < 0 := by linarith
  have hq : Real.sqrt (Spec.total (weightedMags mags w) - 1) ≠ 0 := by
    rw [Real.sqrt_ne_zero']; linarith
  simp only [Fl.sqrt, hs, if_false, shiBoltFormula, Fl.div, hq]
  rfl

/-- C20: the 'beta' variant drops the factor `ln(10)`. -/
theorem C20_formula_beta (mags : List ℝ) (b : ℝ) (w : Option (List ℝ))
    (h : ∀ w', w = some w' → w'.length = mags.length)
    (ht : 1 < Spec.total (weightedMags mags w)) :
    shiBolt mags (.fin b) w true = .ok (.fin (b ^ 2 *
      Real.sqrt (Spec.variance (weightedMags mags w)) /
      Real.sqrt (Spec.total (weightedMags mags w) - 1))) := by
  have hl := log10_pos.ne'
  have e := shiBolt_beta mags (.fin (b / Real.log 10)) w
  have hb : bToBeta (.fin (b / Real.log 10)) = .fin b := by
    simp [bToBeta, Fl.mapFin, hl]
  rw [hb, C20_formula mags _ w h ht] at e
  rw [e]
  simp only [Except.map, Fl.mapFin]
  congr 2
  field_simp

theorem variance_nonneg {l : List (ℝ × ℝ)} (hw : ∀ p ∈ l, 0 ≤ p.2) : 0 ≤ Spec.variance l := by
  unfold Spec.variance Spec.total
  apply div_nonneg
  · apply List.sum_nonneg
    intro x hx
    obtain ⟨p, hp, rfl⟩ := List.mem_map.1 hx
    exact mul_nonneg (hw p hp) (sq_nonneg _)
  · apply List.sum_nonneg
    intro x hx
    obtain ⟨p, hp, rfl⟩ := List.mem_map.1 hx
    exact hw p hp

theorem sum_zero_iff {l : List ℝ} (h : ∀ x ∈ l, 0 ≤ x) : l.sum = 0 ↔ ∀ x ∈ l, x = 0 := by
  induction l with
  | nil => simp
  | cons a r ih =>
    have ha := h a (by simp)
    have hr : 0 ≤ r.sum := List.sum_nonneg fun x hx => h x (by simp [hx])
    rw [List.sum_cons, add_eq_zero_iff_of_nonneg ha hr, ih fun x hx => h x (by simp [hx])]
    simp

theorem wmean_const {l : List (ℝ × ℝ)} (ht : Spec.total l ≠ 0) {m : ℝ}
    (h : ∀ p ∈ l, p.2 ≠ 0 → p.1 = m) : Spec.wmean l = m := by
  unfold Spec.wmean
  have : (l.map fun p => p.2 * p.1).sum = m * (l.map Prod.snd).sum := by
    clear ht
    induction l with
    | nil => simp
    | cons p r ih =>
      simp only [List.map_cons, List.sum_cons]
      rw [ih fun q hq => h q (by simp [hq])]
      by_cases hp : p.2 = 0
      · rw [hp]; ring
      · rw [h p (by simp) hp]; ring
  rw [this]
  unfold Spec.total at ht
  field_simp

theorem variance_zero_iff {l : List (ℝ × ℝ)} (hw : ∀ p ∈ l, 0 ≤ p.2) (ht : 0 < Spec.total l) :
    Spec.variance l = 0 ↔ ∀ p ∈ l, ∀ q ∈ l, p.2 ≠ 0 → q.2 ≠ 0 → p.1 = q.1 := by
  unfold Spec.variance
  rw [div_eq_zero_iff, or_iff_left ht.ne', sum_zero_iff]
  · constructor
    · intro h p hp q hq hp0 hq0
      have key : ∀ p ∈ l, p.2 ≠ 0 → p.1 = Spec.wmean l := by
        intro p hp hp0
        have := h _ (List.mem_map.2 ⟨p, hp, rfl⟩)
        rcases mul_eq_zero.1 this with h0 | h0
        · exact absurd h0 hp0
        · have := pow_eq_zero_iff (two_ne_zero) |>.1 h0; linarith
      rw [key p hp hp0, key q hq hq0]
    · intro h x hx
      obtain ⟨p, hp, rfl⟩ := List.mem_map.1 hx
      by_cases hp0 : p.2 = 0
      · simp [hp0]
      · have : Spec.wmean l = p.1 := wmean_const ht.ne' fun q hq hq0 => h q hq p hp hq0 hp0
        rw [this]; simp
  · intro x hx
    obtain ⟨p, hp, rfl⟩ := List.mem_map.1 hx
    exact mul_nonneg (hw p hp) (sq_nonneg _)

/-- C20: the value is non-negative, and zero iff `b = 0` or all magnitudes of non-zero weight
are equal. -/
theorem C20_nonneg_zero_iff (mags : List ℝ) (b : ℝ) (w : Option (List ℝ)) (v : ℝ)
    (h : ∀ w', w = some w' → w'.length = mags.length)
    (hw : ∀ p ∈ weightedMags mags w, 0 ≤ p.2)
    (ht : 1 < Spec.total (weightedMags mags w))
    (hv : shiBolt mags (.fin b) w false = .ok (.fin v)) :
    0 ≤ v ∧ (v = 0 ↔ b = 0 ∨ ∀ p ∈ weightedMags mags w, ∀ q ∈ weightedMags mags w,
      p.2 ≠ 0 → q.2 ≠ 0 → p.1 = q.1) := by
  rw [C20_formula mags b w h ht] at hv
  cases hv
  have hl := log10_pos
  have hq : Real.sqrt (Spec.total (weightedMags mags w) - 1) ≠ 0 := by
    rw [Real.sqrt_ne_zero']; linarith
  refine ⟨by positivity, ?_⟩
  rw [div_eq_zero_iff, or_iff_left hq, mul_eq_zero, mul_eq_zero, or_iff_right hl.ne',
    pow_eq_zero_iff two_ne_zero, Real.sqrt_eq_zero (variance_nonneg hw),
    variance_zero_iff hw (by linarith)]

/-- C20: shifting all magnitudes changes nothing, for every input. -/
theorem C20_shift (mags : List ℝ) (b : Fl ℝ) (w : Option (List ℝ)) (isBeta : Bool) (t : ℝ)
    (h : ∀ w', w = some w' → w'.length = mags.length) :
    shiBolt (mags.map (· + t)) b w isBeta = shiBolt mags b w isBeta := by
  have hm : weightedMags (mags.map (· + t)) w = (weightedMags mags w).map fun q => (q.1 + t, q.2) := by
    unfold weightedMags
    have : (mags.map (· + t)).map (fun _ => (1 : ℝ)) = mags.map fun _ => 1 := by
      simp [Function.comp_def]
    rw [this, List.zip_map_left]
    rfl
  have h' : ∀ w', w = some w' → w'.length = (mags.map (· + t)).length := by simpa using h
  have ht' : Spec.total (weightedMags (mags.map (· + t)) w) = Spec.total (weightedMags mags w) := by
    rw [hm]; exact total_map _ (· + t)
  have hlen : lenMags (mags.map (· + t)) w = lenMags mags w := by
    rw [lenMags_eq _ _ h', lenMags_eq _ _ h, ht']
  by_cases ht : Spec.total (weightedMags mags w) = 0
  · cases w with
    | none =>
      have : mags = [] := by
        rw [wm_none] at ht
        simp [Spec.total, Function.comp_def] at ht
        exact ht
      rw [this]; rfl
    | some w =>
      have h0 : w.sum = 0 := by
        unfold Spec.total at ht; rwa [wm_snd mags w (h w rfl)] at ht
      unfold shiBolt
      simp [average, h0, bind, Except.bind]
  · have e1 := average_wm mags w h ht id
    have e2 := average_wm (mags.map (· + t)) w h' (by rw [ht']; exact ht) id
    rw [List.map_id] at e1 e2
    have em : wavg id (weightedMags (mags.map (· + t)) w) = wavg id (weightedMags mags w) + t := by
      have a1 : ∀ l, wavg id l = Spec.wmean l := fun _ => rfl
      rw [a1, a1, hm, wmean_shift ht]
    unfold shiBolt
    rw [e1, e2]
    simp only [bind, Except.bind]
    have ed : ((mags.map (· + t)).map fun m => (m - wavg id (weightedMags (mags.map (· + t)) w)) ^ 2) =
        mags.map fun m => (m - wavg id (weightedMags mags w)) ^ 2 := by
      rw [List.map_map]
      apply List.map_congr_left
      intro m _
      simp only [Function.comp, em]; ring
    rw [ed, hlen]

/-- C20: the order of the events does not matter. -/
theorem C20_order (l l' : List (ℝ × ℝ)) (h : l.Perm l') (hw : Bool) (b : Fl ℝ) (isBeta : Bool) :
    shiBolt (l.map Prod.fst) b (if hw then some (l.map Prod.snd) else none) isBeta =
      shiBolt (l'.map Prod.fst) b (if hw then some (l'.map Prod.snd) else none) isBeta :=
  shiBolt_perm h hw b isBeta

/-- C20: with a total weight of at most 1 (fewer than two magnitudes) there is no finite value. -/
theorem C20_too_few (mags : List ℝ) (b : Fl ℝ) (w : Option (List ℝ)) (isBeta : Bool)
    (h : ∀ w', w = some w' → w'.length = mags.length)
    (ht : Spec.total (weightedMags mags w) ≤ 1) (v : ℝ) :
    shiBolt mags b w isBeta ≠ .ok (.fin v) := by
  intro hv
  rw [← lenMags_eq mags w h] at ht
  unfold shiBolt at hv
  cases h1 : average mags w with
  | error e => rw [h1] at hv; cases hv
  | ok mu =>
    rw [h1] at hv
    cases mu with
    | fin mu =>
      simp only [bind, Except.bind] at hv
      cases h2 : average (mags.map fun m => (m - mu) ^ 2) w with
      | error e => rw [h2] at hv; cases hv
      | ok u =>
        rw [h2] at hv
        cases u with
        | fin u =>
          simp only [pure, Except.pure, Except.ok.injEq] at hv
          have key : ∀ x, shiBoltFormula b (Real.sqrt u) (Fl.sqrt (lenMags mags w - 1)) ≠ .fin x := by
            intro x hx
            unfold Fl.sqrt at hx
            split at hx
            · cases b <;> cases hx
            · have h0 : lenMags mags w - 1 = 0 := by linarith
              rw [h0, Real.sqrt_zero] at hx
              cases b with
              | nan => cases hx
              | fin b =>
                simp only [shiBoltFormula, Fl.div, if_true] at hx
                split at hx
                · cases hx
                · split at hx <;> cases hx
              | pinf => simp only [shiBoltFormula] at hx; split at hx <;> cases hx
              | ninf => simp only [shiBoltFormula] at hx; split at hx <;> cases hx
          cases isBeta with
          | false => exact key v hv
          | true =>
            simp only [if_true] at hv
            cases hk : shiBoltFormula b (Real.sqrt u) (Fl.sqrt (lenMags mags w - 1)) with
            | fin x => exact key x hk
            | nan => rw [hk] at hv; cases hv
            | pinf => rw [hk] at hv; cases hv
            | ninf => rw [hk] at hv; cases hv
        | nan => cases hv
        | pinf => cases hv
        | ninf => cases hv
    | nan => cases hv
    | pinf => cases hv
    | ninf => cases hv

/-- C20 applies: magnitudes 1, 2 give total weight 2. -/
example : 1 < Spec.total (weightedMags [1, 2] none) ∧
    ∀ p ∈ weightedMags [1, 2] none, 0 ≤ p.2 := by
  rw [wm_none]
  refine ⟨by norm_num [Spec.total], ?_⟩
  intro p hp
  obtain ⟨_, _, rfl⟩ := List.mem_map.1 hp
  norm_num

/-! ## C21 -/

/-- Finite values among numpy numbers. -/
def finiteOnes (l : List (Fl ℝ)) : List ℝ := l.filterMap Fl.val?

theorem bootstrap_eq {α : Type} [Inhabited α] (sample : List α) (func : List α → Fl ℝ)
    (draws : List (List ℕ)) :
    bootstrapStd sample (fun l => .ok (func l)) draws =
      (let e := finiteOnes (draws.map fun d => func (take' sample d))
       if e.length = 0 then .error .valueError
       else .ok (match Fl.div ((e.map fun v => (v - e.sum / e.length) ^ 2).sum) ((e.length : ℝ) - 1) with
          | .fin v => Fl.sqrt v
          | o => o)) := by
  unfold bootstrapStd
  rw [mapM_ok (fun d => Except.ok (func (take' sample d))) (fun d => func (take' sample d)) draws
    (fun _ _ => rfl)]
  simp only [bind, Except.bind]
  unfold finiteOnes
  split <;> rfl

/-- C21: ValueError iff none of the bootstrap estimates is finite, for every random draw. -/
theorem C21_error_iff {α : Type} [Inhabited α] (sample : List α) (func : List α → Fl ℝ)
    (draws : List (List ℕ)) :
    bootstrapStd sample (fun l => .ok (func l)) draws = .error .valueError ↔
      finiteOnes (draws.map fun d => func (take' sample d)) = [] := by
  rw [bootstrap_eq]
  simp only []
  split
  · rename_i h; simp [List.length_eq_zero_iff.1 h]
  · rename_i h
    constructor
    · intro h'; cases h'
    · intro h'; exact absurd (by rw [h']; rfl) h

/-- C21: with at least two finite estimates the result is their sample standard
deviation (divisor `k-1`): `v ≥ 0` and `v² (k-1) = Σ (x - mean)²`. -/
theorem C21_value {α : Type} [Inhabited α] (sample : List α) (func : List α → Fl ℝ)
    (draws : List (List ℕ)) (e : List ℝ)
    (he : finiteOnes (draws.map fun d => func (take' sample d)) = e) (hk : 2 ≤ e.length) :
    ∃ v, bootstrapStd sample (fun l => .ok (func l)) draws = .ok (.fin v) ∧ 0 ≤ v ∧
      v ^ 2 * ((e.length : ℝ) - 1) = (e.map fun x => (x - e.sum / e.length) ^ 2).sum := by
  rw [bootstrap_eq]
  simp only [he]
  have h2 : (2 : ℝ) ≤ e.length := by exact_mod_cast hk
  have h0 : (e.length : ℝ) - 1 ≠ 0 := by linarith
  have hs : 0 ≤ (e.map fun x => (x - e.sum / e.length) ^ 2).sum := by
    apply List.sum_nonneg
    intro x hx
    obtain ⟨p, _, rfl⟩ := List.mem_map.1 hx
    exact sq_nonneg _
  have hq : 0 ≤ (e.map fun x => (x - e.sum / e.length) ^ 2).sum / ((e.length : ℝ) - 1) :=
    div_nonneg hs (by linarith)
  rw [if_neg (by omega)]
  simp only [Fl.div, h0, if_false, Fl.sqrt, not_lt.2 hq]
  refine ⟨_, rfl, Real.sqrt_nonneg _, ?_⟩
  rw [Real.sq_sqrt hq, div_mul_cancel₀ _ h0]

/-- C21: exactly one finite estimate gives NaN (0/0), not an error. -/
theorem C21_single {α : Type} [Inhabited α] (sample : List α) (func : List α → Fl ℝ)
    (draws : List (List ℕ)) (x : ℝ)
    (he : finiteOnes (draws.map fun d => func (take' sample d)) = [x]) :
    bootstrapStd sample (fun l => .ok (func l)) draws = .ok .nan := by
  rw [bootstrap_eq]
  simp [he, Fl.div]

/-- C21 is not vacuous: two draws with different estimates. -/
example : finiteOnes ([[0, 0], [0, 1]].map fun d => (fun l : List ℝ => Fl.fin l.sum) (take' [1, 2] d)) =
    [2, 3] := by
  norm_num [finiteOnes, take']
  rfl

/-! ## C24 -/

/-- `j` is the first position after `i` whose value exceeds that at `i` by at least `thr`. -/
def FirstLarger (m : List ℝ) (thr : ℝ) (i j : ℕ) : Prop :=
  i < j ∧ (∃ x y, m[i]? = some x ∧ m[j]? = some y ∧ thr ≤ y - x) ∧
    ∀ k, i < k → k < j → ∀ x y, m[i]? = some x → m[k]? = some y → y - x < thr

theorem nextFrom_spec (m : List ℝ) (thr x : ℝ) (fuel jj : ℕ) (hf : m.length < jj + fuel) :
    (nextFrom m thr x fuel jj = 0 ∧ (0 < jj → ∀ k, jj ≤ k → ∀ y, m[k]? = some y → y - x < thr)) ∨
    (jj ≤ nextFrom m thr x fuel jj ∧
      (∃ y, m[nextFrom m thr x fuel jj]? = some y ∧ thr ≤ y - x) ∧
      ∀ k, jj ≤ k → k < nextFrom m thr x fuel jj → ∀ y, m[k]? = some y → y - x < thr) := by
  induction fuel generalizing jj with
  | zero =>
    left
    refine ⟨rfl, fun _ k hk y hy => ?_⟩
    have := (List.getElem?_eq_some_iff.1 hy).1
    omega
  | succ n ih =>
    unfold nextFrom
    cases hj : m[jj]? with
    | none =>
      left
      refine ⟨rfl, fun _ k hk y hy => ?_⟩
      have := (List.getElem?_eq_some_iff.1 hy).1
      rw [List.getElem?_eq_none_iff] at hj
      omega
    | some y =>
      simp only []
      split
      · rename_i hy
        right
        exact ⟨le_refl _, ⟨y, hj, hy⟩, fun k hk hk' => absurd hk' (by omega)⟩
      · rename_i hy
        rcases ih (jj + 1) (by omega) with ⟨h1, h2⟩ | ⟨h1, h2, h3⟩
        · left
          refine ⟨h1, fun _ k hk z hz => ?_⟩
          rcases Nat.eq_or_lt_of_le hk with rfl | hk
          · rw [hj] at hz; cases hz; linarith
          · exact h2 (by omega) k hk z hz
        · right
          refine ⟨by omega, h2, fun k hk hk' z hz => ?_⟩
          rcases Nat.eq_or_lt_of_le hk with rfl | hk
          · rw [hj] at hz; cases hz; linarith
          · exact h3 k hk hk' z hz

/-- C24: `find_next_larger` returns, for every event, the position of the first later event
larger by at least `dmc - delta_m/2` (`dmc` defaults to `delta_m`), and 0 iff there is none. -/
theorem C24_find_next_larger (m : List ℝ) (δ : ℝ) (dmc : Option ℝ) :
    (findNextLarger m δ dmc).length = m.length ∧
    ∀ i (hi : i < (findNextLarger m δ dmc).length),
      ((findNextLarger m δ dmc)[i] = 0 ↔ ∀ j, ¬ FirstLarger m (dmc.getD δ - δ / 2) i j) ∧
      ∀ j, (findNextLarger m δ dmc)[i] = j → j ≠ 0 → FirstLarger m (dmc.getD δ - δ / 2) i j := by
  refine ⟨by simp [findNextLarger], fun i hi => ?_⟩
  have hi' : i < m.length := by simpa [findNextLarger] using hi
  have hx : m[i]? = some (m[i]) := List.getElem?_eq_getElem hi'
  have hval : (findNextLarger m δ dmc)[i] =
      if i + 1 < m.length then nextFrom m (dmc.getD δ - δ / 2) m[i] m.length (i + 1) else 0 := by
    simp [findNextLarger, hi']
  set thr := dmc.getD δ - δ / 2 with hthr
  have hnone : (∀ k, i < k → ∀ y, m[k]? = some y → y - m[i] < thr) → ∀ j, ¬ FirstLarger m thr i j := by
    rintro h j ⟨hij, ⟨x, y, h1, h2, h3⟩, _⟩
    rw [hx] at h1; cases h1
    have := h j hij y h2
    linarith
  by_cases hl : i + 1 < m.length
  · rw [if_pos hl] at hval
    rcases nextFrom_spec m thr m[i] m.length (i + 1) (by omega) with ⟨h1, h2⟩ | ⟨h1, ⟨y, h2, h3⟩, h4⟩
    · rw [h1] at hval
      refine ⟨⟨fun _ => hnone fun k hk y hy => h2 (by omega) k hk y hy, fun _ => hval⟩, ?_⟩
      intro j hj hj0
      rw [hval] at hj; exact absurd hj.symm hj0
    · have hf : FirstLarger m thr i (nextFrom m thr m[i] m.length (i + 1)) := by
        refine ⟨by omega, ⟨_, y, hx, h2, h3⟩, fun k hk hk' x z h5 h6 => ?_⟩
        rw [hx] at h5; cases h5
        exact h4 k hk hk' z h6
      refine ⟨⟨fun h0 => ?_, fun h => absurd hf (h _)⟩, ?_⟩
      · rw [hval] at h0; omega
      · intro j hj _
        rw [hval] at hj; rw [← hj]; exact hf
  · rw [if_neg hl] at hval
    refine ⟨⟨fun _ => hnone fun k hk y hy => ?_, fun _ => hval⟩, ?_⟩
    · have := (List.getElem?_eq_some_iff.1 hy).1; omega
    · intro j hj hj0
      rw [hval] at hj; exact absurd hj.symm hj0

/-- The docstring's example: `[10, 4, 3, 9]` gives `[0, 3, 3, 0]`. -/
example : findNextLarger [10, 4, 3, 9] 1 none = [0, 3, 3, 0] := by
  norm_num [findNextLarger, List.range_succ, nextFrom]

/-! ## C27 -/

/-- C27: after a successful calculation, `estimate_b` returns b, or (b, std), or (b, std, n), and for 'beta' the first two times
`ln 10`. -/
theorem C27_returns (c : Cls) (ω : ℕ → List (List ℕ)) (warn : Bool) (a : Args) (s : State) (r : Fl ℝ)
    (h : calculate c warn State.init a = (s, .ok r)) (n : ℕ) (sd : Fl ℝ) (hn : s.n = .ok n)
    (hsd : stdOf c ω s = .ok sd) :
    estimateB c ω warn a .bValue false false = .ok (.scalar r) ∧
    estimateB c ω warn a .bValue true false = .ok (.tuple [r, sd]) ∧
    estimateB c ω warn a .bValue true true = .ok (.tuple [r, sd, .fin n]) ∧
    estimateB c ω warn a .beta false false = .ok (.scalar (r.mapFin (· * Real.log 10))) ∧
    estimateB c ω warn a .beta true false = .ok (.tuple [r.mapFin (· * Real.log 10), sd.mapFin (· * Real.log 10)]) ∧
    estimateB c ω warn a .beta true true = .ok (.tuple [r.mapFin (· * Real.log 10), sd.mapFin (· * Real.log 10), .fin n]) := by
  have hb : s.bValue = .ok r := by
    have := (C12_readings (c := c) warn .init a (r := r) (by rw [h])).1
    simp only [h] at this
    exact this
  unfold estimateB
  simp [h, bind, Except.bind, pure, Except.pure, hb, hsd, hn, State.beta, C19_std_beta, Except.map]
  rfl

/-- C27: an unknown `b_parameter` raises ValueError. -/
theorem C27_unknown_parameter (c : Cls) (ω : ℕ → List (List ℕ)) (warn : Bool) (a : Args) (r : Fl ℝ) (rs rn : Bool)
    (h : (calculate c warn State.init a).2 = .ok r) :
    estimateB c ω warn a .other rs rn = .error .valueError := by
  unfold estimateB
  cases hc : calculate c warn State.init a with
  | mk s x =>
    rw [hc] at h
    simp only [] at h
    subst h
    rfl

/-- C27: an exception of `calculate` is the exception of `estimate_b`. -/
theorem C27_exceptions (c : Cls) (ω : ℕ → List (List ℕ)) (warn : Bool) (a : Args) (e : PyErr) (p : BParam) (rs rn : Bool)
    (h : (calculate c warn State.init a).2 = .error e) :
    estimateB c ω warn a p rs rn = .error e := by
  unfold estimateB
  cases hc : calculate c warn State.init a with
  | mk s x =>
    rw [hc] at h
    simp only [] at h
    subst h
    rfl

/-- A finding about C27: `return_n=True` without `return_std=True` always raises TypeError,
because line 117 of bvalue/__init__.py unpacks a float. -/
theorem C27_return_n_alone_raises (c : Cls) (ω : ℕ → List (List ℕ)) (warn : Bool) (a : Args) (r : Fl ℝ)
    (h : (calculate c warn State.init a).2 = .ok r) :
    estimateB c ω warn a .bValue false true = .error .typeError ∧
      estimateB c ω warn a .beta false true = .error .typeError := by
  have hb := (C12_readings (c := c) warn .init a h).1
  unfold estimateB
  cases hc : calculate c warn State.init a with
  | mk s x =>
    rw [hc] at h hb
    simp only [] at h hb
    subst h
    simp [bind, Except.bind, State.beta, hb, Except.map, throw, throwThe,
      MonadExceptOf.throw, pure, Except.pure]

end
end SeismoStats.Props
