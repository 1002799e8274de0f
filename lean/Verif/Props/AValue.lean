/-
Properties C28-C31, the a-value part of C17, and C70: a-value estimators.
-/
import Verif.Proofs.AValue

namespace SeismoStats.Props
open SeismoStats
open SeismoStats.AValue
open SeismoStats.BValue (checkBinning usedIdx timeOrder mem_timeOrder selIdx_mags above)
set_option linter.unusedSimpArgs false
open Classical
noncomputable section

/-- The magnitudes are binned by `delta_m` (according to `binning_test`) or there are none. -/
def Binned (x : Args) : Prop :=
  x.mags = [] ∨ binningTest x.mags x.δ (1 / 10 ^ 15) false = .ok true

/-- Number of magnitudes (not NaN) at or above `thr`. -/
def countAbove (mags : List (Option ℝ)) (thr : ℝ) : ℕ :=
  mags.countP fun o => match o with
    | some m => decide (thr ≤ m)
    | none => false

theorem used_length_count (x : Args) :
    (usedIdx (toB x)).length = countAbove x.mags (x.mc - x.δ / 2) := by
  have := congrArg List.length (selIdx_mags x.mags x.mc x.δ)
  rw [List.length_map] at this
  unfold countAbove
  rw [List.countP_eq_length_filter]
  exact this

/-- Only the counting part of the arguments: no reference magnitude, no scaling. -/
def plain (x : Args) : Args := { x with mref := none, scaling := none }

/-- As many times as magnitudes. -/
def TimesFit (c : AValue.Cls) (x : Args) : Prop := c = .classic ∨ x.mags.length ≤ x.times.length

/-- The parameters the class insists on: `dmc ≥ 0`, and a non-zero `b_value` for more-positive. -/
def ParamsOk (c : AValue.Cls) (x : Args) : Prop :=
  (c = .classic ∨ 0 ≤ x.dmc.getD x.δ) ∧ (c = .morePositive → ∃ b, x.b = some b ∧ b ≠ 0)

theorem precheck_ok {c : AValue.Cls} {x : Args} (h : ParamsOk c x) : precheck c x = .ok () := by
  unfold precheck
  obtain ⟨h1, h2⟩ := h
  cases c with
  | classic => rfl
  | positive =>
    rcases h1 with h1 | h1
    · cases h1
    · have : ¬ cutoff (toB x) < 0 := not_lt.2 h1
      simp only [this, if_false]
  | morePositive =>
    rcases h1 with h1 | h1
    · cases h1
    · have : ¬ cutoff (toB x) < 0 := not_lt.2 h1
      obtain ⟨b, hb, hb0⟩ := h2 rfl
      simp only [this, if_false, hb, Option.getD_some, hb0]

theorem timesCheck_ok {c : AValue.Cls} {x : Args} (h : TimesFit c x) : timesCheck c x = .ok () := by
  unfold timesCheck
  rcases h with rfl | h
  · rfl
  · have := BValue.gather_ok x.times (usedIdx (toB x)) 0
      (fun i hi => lt_of_lt_of_le (BValue.selIdx_lt hi) h)
    cases c
    · rfl
    all_goals simp only [this]; rfl

theorem result_nonempty {c : AValue.Cls} {x : Args} (hb : Binned x) (ht : TimesFit c x)
    (hp : ParamsOk c x) (hne : 0 < countAbove x.mags (x.mc - x.δ / 2)) :
    result c x = AValue.scaled x (raw c x) := by
  unfold result
  rw [precheck_ok hp, (checkBinning_ok _ _).2 hb, timesCheck_ok ht]
  have : usedIdx (toB x) ≠ [] := by
    intro h; rw [← used_length_count, h] at hne; exact absurd hne (lt_irrefl 0)
  simp only [bind, Except.bind, this, if_false]

theorem log10_fin {v : ℝ} (h : 0 < v) : Fl.log10 (.fin v) = .fin (Real.log v / Real.log 10) := by
  unfold Fl.log10 Fl.log
  simp only [h, if_true, Fl.mapFin]

theorem ten_pow_log10 {v : ℝ} (h : 0 < v) : (10 : ℝ) ^ (Real.log v / Real.log 10) = v := by
  rw [Real.rpow_def_of_pos (by norm_num), mul_div_cancel₀ _ log10_pos.ne', Real.exp_log h]

/-! ## C28 -/

/-- C28: without reference magnitude and scaling, the classic a-value of binned magnitudes is
`log10` of the number of events at or above `mc - delta_m/2`; this number is also `n`. -/
theorem C28_count (warn : Bool) (s : AValue.State) (x : Args) (hb : Binned x)
    (hne : 0 < countAbove x.mags (x.mc - x.δ / 2)) :
    ∃ a s', AValue.calculate .classic warn s (plain x) = (s', .ok (.fin a)) ∧
      (10 : ℝ) ^ a = countAbove x.mags (x.mc - x.δ / 2) ∧ s'.aValue = .ok (.fin a) ∧
      s'.n = .ok (countAbove x.mags (x.mc - x.δ / 2)) := by
  have hpos : (0 : ℝ) < countAbove x.mags (x.mc - x.δ / 2) := by exact_mod_cast hne
  have hraw : raw .classic (plain x) =
      .fin (Real.log (countAbove x.mags (x.mc - x.δ / 2)) / Real.log 10) := by
    unfold raw
    have : (usedIdx (toB (plain x))).length = countAbove x.mags (x.mc - x.δ / 2) := used_length_count _
    rw [this]
    exact log10_fin hpos
  have hu : usedIdx (toB (plain x)) ≠ [] := by
    intro h
    have := used_length_count (plain x)
    rw [h] at this
    have h2 : countAbove x.mags (x.mc - x.δ / 2) = 0 := this.symm
    omega
  have hcb : checkBinning (plain x).mags (plain x).δ = .ok () := (checkBinning_ok _ _).2 hb
  refine ⟨_, (AValue.calculate .classic warn s (plain x)).1, Prod.ext rfl ?_, ten_pow_log10 hpos, ?_, ?_⟩
  · rw [calculate_snd, result_nonempty (c := .classic) (x := plain x) hb (Or.inl rfl) ⟨Or.inl rfl, by simp⟩ hne, hraw]
    rfl
  all_goals
    unfold AValue.calculate
    simp only []
    rw [base_classic _ _ _ hcb, if_neg hu]
  · have : (estimate .classic warn (filt { s with warned := [] } warn (plain x) s.times)).2 =
        raw .classic (plain x) := by unfold estimate raw filt; simp
    unfold finish
    rw [this, hraw]
    rfl
  · unfold finish
    have : (usedIdx (toB (plain x))).length = countAbove x.mags (x.mc - x.δ / 2) := used_length_count _
    simp [AValue.State.n, referenceScaling, filt, plain, estimate, bind, Except.bind, pure, Except.pure]
    exact this

/-- C28 and C30, C31: no event at or above `mc - delta_m/2` gives NaN, for each class, any reference
magnitude and scaling. -/
theorem C28_empty (c : AValue.Cls) (warn : Bool) (s : AValue.State) (x : Args) (hb : Binned x)
    (hp : ParamsOk c x) (ht : TimesFit c x) (he : countAbove x.mags (x.mc - x.δ / 2) = 0) :
    (AValue.calculate c warn s x).2 = .ok .nan := by
  rw [calculate_snd]
  unfold result
  rw [precheck_ok hp, (checkBinning_ok _ _).2 hb, timesCheck_ok ht]
  have : usedIdx (toB x) = [] := List.length_eq_zero_iff.1 (by rw [used_length_count, he])
  simp only [bind, Except.bind, this, if_true]

theorem result_classic (x : Args) : result .classic x =
    (checkBinning x.mags x.δ >>= fun _ =>
      if countAbove x.mags (x.mc - x.δ / 2) = 0 then .ok .nan
      else AValue.scaled x (Fl.log10 (.fin (countAbove x.mags (x.mc - x.δ / 2) : ℝ)))) := by
  unfold result precheck timesCheck raw
  simp only [bind, Except.bind]
  cases checkBinning x.mags x.δ with
  | error e => rfl
  | ok u => simp only [← List.length_eq_zero_iff, used_length_count]

/-- C28: the order of the events does not matter, whatever the other arguments. -/
theorem C28_order (warn : Bool) (s : AValue.State) (x : Args) (m : List (Option ℝ)) (h : x.mags.Perm m) :
    (AValue.calculate .classic warn s { x with mags := m }).2 = (AValue.calculate .classic warn s x).2 := by
  rw [calculate_snd, calculate_snd, result_classic, result_classic]
  have h1 : checkBinning m x.δ = checkBinning x.mags x.δ := checkBinning_perm x.δ h.symm
  have h2 : countAbove m (x.mc - x.δ / 2) = countAbove x.mags (x.mc - x.δ / 2) := by
    unfold countAbove; exact (h.countP_eq _).symm
  have h3 : AValue.scaled { x with mags := m } = AValue.scaled x := rfl
  simp only [h1, h2, h3]

/-- C28: more events, the same or larger a-value (larger exactly if some new event counts). -/
theorem C28_monotone (warn : Bool) (s : AValue.State) (x : Args) (m : List (Option ℝ))
    (h : x.mags.Sublist m) (hb : Binned x) (hb' : Binned { x with mags := m })
    (hne : 0 < countAbove x.mags (x.mc - x.δ / 2)) :
    ∃ a a', (AValue.calculate .classic warn s (plain x)).2 = .ok (.fin a) ∧
      (AValue.calculate .classic warn s (plain { x with mags := m })).2 = .ok (.fin a') ∧ a ≤ a' ∧
      (a < a' ↔ countAbove x.mags (x.mc - x.δ / 2) < countAbove m (x.mc - x.δ / 2)) := by
  have hle : countAbove x.mags (x.mc - x.δ / 2) ≤ countAbove m (x.mc - x.δ / 2) := h.countP_le
  obtain ⟨a, s1, h1, h2, -⟩ := C28_count warn s x hb hne
  obtain ⟨a', s2, h3, h4, -⟩ := C28_count warn s { x with mags := m } hb' (lt_of_lt_of_le hne hle)
  refine ⟨a, a', by rw [h1], by rw [h3], ?_, ?_⟩
  · rw [← Real.rpow_le_rpow_left_iff (x := 10) (by norm_num), h2, h4]
    exact_mod_cast hle
  · rw [← Real.rpow_lt_rpow_left_iff (x := 10) (by norm_num), h2, h4]
    exact_mod_cast Iff.rfl

/-- Reference data: three events, two at or above `mc = 1`. -/
def demoA : Args := { mags := [some 1, none, some 2, some 0], mc := 1, δ := 1, times := [1, 2, 3, 4], b := some 1 }

theorem demoA_binned : Binned demoA := by
  right
  have := C08_grid_accepted (K := ℝ) [some 1, none, some 2, some 0] 0 1 (1 / 10 ^ 15) (by norm_num)
    (by norm_num) ⟨1, by simp⟩
  simpa [demoA] using this

example : Binned demoA ∧ countAbove demoA.mags (demoA.mc - demoA.δ / 2) = 2 ∧
    TimesFit .morePositive demoA ∧ ParamsOk .morePositive demoA := by
  refine ⟨demoA_binned, ?_, Or.inr (by simp [demoA]), Or.inr (by norm_num [demoA]), fun _ => ⟨1, rfl, by norm_num⟩⟩
  norm_num [countAbove, demoA, List.countP, List.countP.go]

/-! ## C29 -/

theorem precheck_congr {c : AValue.Cls} {x y : Args} (h1 : x.δ = y.δ) (h2 : x.dmc = y.dmc) (h3 : x.b = y.b) :
    precheck c x = precheck c y := by
  unfold precheck cutoff toB; simp only [h1, h2, h3]

/-- Two calls that differ only in reference magnitude and scaling. -/
structure SameData (x y : Args) : Prop where
  mags : x.mags = y.mags
  mc : x.mc = y.mc
  δ : x.δ = y.δ
  times : x.times = y.times
  dmc : x.dmc = y.dmc
  b : x.b = y.b

theorem toB_congr {x y : Args} (h : SameData x y) : toB x = toB y := by
  unfold toB; rw [h.mags, h.mc, h.δ, h.times, h.dmc]

theorem raw_congr {c : AValue.Cls} {x y : Args} (h : SameData x y) : raw c x = raw c y := by
  have e : ∀ i, tAt x i = tAt y i := fun i => by unfold tAt; rw [h.times]
  have e' : tAt x = tAt y := funext e
  unfold raw posRaw morRaw morWaits posPairs morRanks
  rw [toB_congr h, h.mc, h.δ, h.b, e']

theorem result_ref {c : AValue.Cls} {x y : Args} (h : SameData x y) (f : Fl ℝ → Fl ℝ)
    (hnan : f .nan = .nan)
    (hs : ∀ v, AValue.scaled x v = (AValue.scaled y v).map f) :
    result c x = (result c y).map f := by
  unfold result
  rw [precheck_congr h.δ h.dmc h.b, h.mags, h.δ]
  have ht : timesCheck c x = timesCheck c y := by
    unfold timesCheck; rw [toB_congr h, h.times]
  rw [ht, toB_congr h, raw_congr h]
  cases precheck c y with
  | error e => rfl
  | ok u =>
    cases checkBinning y.mags y.δ with
    | error e => rfl
    | ok v =>
      cases timesCheck c y with
      | error e => rfl
      | ok w =>
        simp only [bind, Except.bind]
        split
        · simp only [Except.map, hnan]
        · exact hs _

theorem sub_nan (y : Fl ℝ) : Fl.sub .nan y = .nan := rfl

/-- C29: asking for the reference magnitude `r` subtracts `b (r - mc)` from the value, for every
class, every input (exceptions included) and every history. -/
theorem C29_reference (c : AValue.Cls) (warn : Bool) (s : AValue.State) (x : Args) (b r : ℝ)
    (hb : x.b = some b) :
    (AValue.calculate c warn s { x with mref := some r, scaling := none }).2 =
      (AValue.calculate c warn s { x with mref := none, scaling := none }).2.map
        (fun a => a.sub (.fin (b * (r - x.mc)))) := by
  rw [calculate_snd, calculate_snd]
  apply result_ref (x := { x with mref := some r, scaling := none })
    (y := { x with mref := none, scaling := none }) ⟨rfl, rfl, rfl, rfl, rfl, rfl⟩
    (fun a => a.sub (.fin (b * (r - x.mc)))) (sub_nan _)
  intro v
  simp only [AValue.scaled, hb]
  rfl

/-- C29: dividing by a positive `scaling_factor` subtracts its `log10` (of whatever the value is). -/
theorem C29_scaling (c : AValue.Cls) (warn : Bool) (s : AValue.State) (x : Args) (f : ℝ) (hf : 0 < f) :
    (AValue.calculate c warn s { x with scaling := some f }).2 =
      (AValue.calculate c warn s { x with scaling := none }).2.map
        (fun a => a.sub (.fin (Real.log f / Real.log 10))) := by
  rw [calculate_snd, calculate_snd]
  apply result_ref (x := { x with scaling := some f })
    (y := { x with scaling := none }) ⟨rfl, rfl, rfl, rfl, rfl, rfl⟩
    (fun a => a.sub (.fin (Real.log f / Real.log 10))) (sub_nan _)
  intro v
  rw [← log10_fin hf]
  simp only [AValue.scaled]
  cases x.mref with
  | none => rfl
  | some r => cases x.b <;> rfl

theorem sub_sub_fin (v : Fl ℝ) (p q w : ℝ) (h : w = p + q) :
    v.sub (.fin w) = (v.sub (.fin p)).sub (.fin q) := by
  cases v <;> simp [Fl.sub, Fl.neg, Fl.add, h]
  ring

/-- C29: moving the reference from `r₁` to `r₂` subtracts `b (r₂ - r₁)`: two steps equal one. -/
theorem C29_two_steps (c : AValue.Cls) (warn : Bool) (s : AValue.State) (x : Args) (b r₁ r₂ : ℝ)
    (hb : x.b = some b) :
    (AValue.calculate c warn s { x with mref := some r₂, scaling := none }).2 =
      (AValue.calculate c warn s { x with mref := some r₁, scaling := none }).2.map
        (fun a => a.sub (.fin (b * (r₂ - r₁)))) := by
  rw [C29_reference c warn s x b r₂ hb, C29_reference c warn s x b r₁ hb]
  cases (AValue.calculate c warn s { x with mref := none, scaling := none }).2 with
  | error e => rfl
  | ok v =>
    simp only [Except.map]
    rw [sub_sub_fin v (b * (r₁ - x.mc)) (b * (r₂ - r₁))]
    ring

/-- C29: with reference `r` and scaling `f`, `10^a` is the Gutenberg-Richter rate at `r`:
`n/f * 10^(-b (r - mc))` (classic estimator). -/
theorem C29_rate (warn : Bool) (s : AValue.State) (x : Args) (b r f : ℝ) (hb : x.b = some b) (hf : 0 < f)
    (hr : x.mref = some r) (hs : x.scaling = some f) (hbin : Binned x)
    (hne : 0 < countAbove x.mags (x.mc - x.δ / 2)) :
    ∃ a, (AValue.calculate .classic warn s x).2 = .ok (.fin a) ∧
      (10 : ℝ) ^ a = countAbove x.mags (x.mc - x.δ / 2) / f * (10 : ℝ) ^ (-b * (r - x.mc)) := by
  have hpos : (0 : ℝ) < countAbove x.mags (x.mc - x.δ / 2) := by exact_mod_cast hne
  rw [calculate_snd, result_nonempty (c := .classic) hbin (Or.inl rfl) ⟨Or.inl rfl, by simp⟩ hne]
  have hraw : raw .classic x = .fin (Real.log (countAbove x.mags (x.mc - x.δ / 2)) / Real.log 10) := by
    unfold raw; rw [used_length_count]; exact log10_fin hpos
  rw [hraw]
  refine ⟨Real.log (countAbove x.mags (x.mc - x.δ / 2)) / Real.log 10 + -(b * (r - x.mc)) +
    -(Real.log f / Real.log 10), ?_, ?_⟩
  · simp only [AValue.scaled, hr, hb, hs, log10_fin hf]
    rfl
  · rw [Real.rpow_add (by norm_num), Real.rpow_add (by norm_num), Real.rpow_neg (by norm_num) (Real.log f / _),
      ten_pow_log10 hpos, ten_pow_log10 hf]
    rw [neg_mul]
    field_simp

/-- C29: a reference magnitude without `b_value` raises ValueError for a non-empty selection. -/
theorem C29_missing_b {c : AValue.Cls} (hc : c ≠ .morePositive) (warn : Bool) (s : AValue.State)
    (x : Args) (r : ℝ) (hb : x.b = none) (hr : x.mref = some r) (hbin : Binned x) (ht : TimesFit c x)
    (hp : ParamsOk c x) (hne : 0 < countAbove x.mags (x.mc - x.δ / 2)) :
    (AValue.calculate c warn s x).2 = .error .valueError := by
  rw [calculate_snd, result_nonempty hbin ht hp hne]
  simp only [AValue.scaled, hb, hr]
  rfl

/-- A finding about C29: after that exception the unscaled value, valid for `mc` and not for the
requested reference, is left behind as `a_value`. -/
theorem C29_missing_b_leaves_value (warn : Bool) (s : AValue.State) (x : Args) (r : ℝ) (hb : x.b = none)
    (hr : x.mref = some r) (hbin : Binned x) (hne : 0 < countAbove x.mags (x.mc - x.δ / 2)) :
    ∃ a, (AValue.calculate .classic warn s x).1.aValue = .ok (.fin a) ∧
      (10 : ℝ) ^ a = countAbove x.mags (x.mc - x.δ / 2) := by
  have hpos : (0 : ℝ) < countAbove x.mags (x.mc - x.δ / 2) := by exact_mod_cast hne
  have hu : usedIdx (toB x) ≠ [] := by
    intro h; rw [← used_length_count, h] at hne; exact absurd hne (lt_irrefl 0)
  refine ⟨_, ?_, ten_pow_log10 hpos⟩
  unfold AValue.calculate
  simp only []
  rw [base_classic _ _ _ ((checkBinning_ok _ _).2 hbin), if_neg hu]
  have h1 : (estimate .classic warn (filt { s with warned := [] } warn x s.times)).2 =
      .fin (Real.log (countAbove x.mags (x.mc - x.δ / 2)) / Real.log 10) := by
    unfold estimate filt
    simp only [Option.getD_some, List.length_map, used_length_count]
    exact log10_fin hpos
  unfold finish
  rw [h1]
  simp only [referenceScaling, estimate, filt, hr, hb]
  rfl

/-- A finding about C31: `b_value = 0` is treated like a missing one. -/
theorem C31_falsy_b (warn : Bool) (s : AValue.State) (x : Args) (h : x.b = none ∨ x.b = some 0) :
    (AValue.calculate .morePositive warn s x).2 = .error .valueError := by
  rw [calculate_snd]
  unfold result precheck
  rcases h with h | h <;> simp only [h, Option.getD_none, Option.getD_some, if_true] <;> rfl

/-! ## C17, a-value part, and C70 -/

/-- The object without the record of warnings. -/
def quiet (s : AValue.State) : AValue.State := { s with warned := [] }

theorem finish_quiet (p q : AValue.State × Fl ℝ) (h1 : quiet p.1 = quiet q.1) (h2 : p.2 = q.2) :
    (finish p).2 = (finish q).2 ∧ quiet (finish p).1 = quiet (finish q).1 := by
  obtain ⟨⟨m, mc, d, sc, mr, b, i, t, dm, a, w⟩, v⟩ := p
  obtain ⟨⟨m', mc', d', sc', mr', b', i', t', dm', a', w'⟩, v'⟩ := q
  simp only [quiet, AValue.State.mk.injEq, and_true] at h1
  obtain ⟨rfl, rfl, rfl, rfl, rfl, rfl, rfl, rfl, rfl, rfl⟩ := h1
  simp only at h2
  subst h2
  unfold finish referenceScaling
  simp only []
  cases mr with
  | none => exact ⟨rfl, rfl⟩
  | some r => cases b <;> exact ⟨rfl, rfl⟩

theorem estimate_quiet (c : AValue.Cls) (warn warn' : Bool) (s s' : AValue.State) (h : quiet s = quiet s') :
    quiet (estimate c warn s).1 = quiet (estimate c warn' s').1 ∧ (estimate c warn s).2 = (estimate c warn' s').2 := by
  obtain ⟨m, mc, d, sc, mr, b, i, t, dm, a, w⟩ := s
  obtain ⟨m', mc', d', sc', mr', b', i', t', dm', a', w'⟩ := s'
  simp only [quiet, AValue.State.mk.injEq, and_true] at h
  obtain ⟨rfl, rfl, rfl, rfl, rfl, rfl, rfl, rfl, rfl, rfl⟩ := h
  cases c with
  | classic => exact ⟨rfl, rfl⟩
  | positive =>
    unfold estimate estimatePositive AValue.sortByTime
    simp only []
    split <;> exact ⟨rfl, rfl⟩
  | morePositive =>
    unfold estimate estimateMorePositive AValue.sortByTime
    simp only []
    split <;> exact ⟨rfl, rfl⟩

theorem filter_quiet (c : AValue.Cls) (warn warn' : Bool) (s s' : AValue.State) (h : quiet s = quiet s') :
    quiet (AValue.filterMagnitudes c warn s).1 = quiet (AValue.filterMagnitudes c warn' s').1 ∧
      (AValue.filterMagnitudes c warn s).2 = (AValue.filterMagnitudes c warn' s').2 := by
  obtain ⟨m, mc, d, sc, mr, b, i, t, dm, a, w⟩ := s
  obtain ⟨m', mc', d', sc', mr', b', i', t', dm', a', w'⟩ := s'
  simp only [quiet, AValue.State.mk.injEq, and_true] at h
  obtain ⟨rfl, rfl, rfl, rfl, rfl, rfl, rfl, rfl, rfl, rfl⟩ := h
  unfold AValue.filterMagnitudes
  cases c
  · exact ⟨rfl, rfl⟩
  all_goals
    simp only []
    split <;> exact ⟨rfl, rfl⟩

theorem base_quiet (c : AValue.Cls) (warn warn' : Bool) (s s' : AValue.State) (x : Args)
    (h : quiet s = quiet s') :
    quiet (AValue.baseCalculate c warn s x).1 = quiet (AValue.baseCalculate c warn' s' x).1 ∧
      (AValue.baseCalculate c warn s x).2 = (AValue.baseCalculate c warn' s' x).2 := by
  unfold AValue.baseCalculate
  simp only []
  have hs : quiet { s with mags := some x.mags, mc := some x.mc, δ := some x.δ, scaling := x.scaling, mref := x.mref, b := x.b } = quiet { s' with mags := some x.mags, mc := some x.mc, δ := some x.δ, scaling := x.scaling, mref := x.mref, b := x.b } := by
    simp only [quiet, AValue.State.mk.injEq, and_true] at h ⊢
    simp [h]
  cases hb : checkBinning x.mags x.δ with
  | error e => exact ⟨hs, rfl⟩
  | ok u =>
    simp only []
    have hf := filter_quiet c warn warn'
      { s with mags := some x.mags, mc := some x.mc, δ := some x.δ, scaling := x.scaling, mref := x.mref, b := x.b, warned := s.warned ++ sanityWarn warn x.mags x.mc x.δ }
      { s' with mags := some x.mags, mc := some x.mc, δ := some x.δ, scaling := x.scaling, mref := x.mref, b := x.b, warned := s'.warned ++ sanityWarn warn' x.mags x.mc x.δ } hs
    revert hf
    generalize AValue.filterMagnitudes c warn _ = p
    generalize AValue.filterMagnitudes c warn' _ = q
    rcases p with ⟨p, ep | up⟩ <;> rcases q with ⟨q, eq | uq⟩ <;> rintro ⟨h1, h2⟩ <;> simp only at h1 h2
    · cases h2; exact ⟨h1, rfl⟩
    · cases h2
    · cases h2
    · simp only []
      have hm : p.mags = q.mags := by have := congrArg AValue.State.mags h1; exact this
      rw [hm]
      split
      · refine ⟨?_, rfl⟩
        simp only [quiet, AValue.State.mk.injEq, and_true] at h1 ⊢
        simp [h1]
      · obtain ⟨h3, h4⟩ := estimate_quiet c warn warn' p q h1
        have := finish_quiet _ _ h3 h4
        exact ⟨this.2, this.1⟩

theorem timed_quiet (c : AValue.Cls) (warn warn' : Bool) (s s' : AValue.State) (x : Args)
    (h : quiet s = quiet s') :
    quiet (timedCalculate c warn s x).1 = quiet (timedCalculate c warn' s' x).1 ∧
      (timedCalculate c warn s x).2 = (timedCalculate c warn' s' x).2 := by
  unfold timedCalculate
  simp only []
  split
  · refine ⟨?_, rfl⟩
    simp only [quiet, AValue.State.mk.injEq, and_true] at h ⊢
    simp [h]
  · apply base_quiet
    simp only [quiet, AValue.State.mk.injEq, and_true] at h ⊢
    simp [h]

/-- C17 for the a-value classes: the option 'warnings' changes neither the value or exception nor
any attribute, for every input and history. -/
theorem C17_a_result (c : AValue.Cls) (s : AValue.State) (x : Args) :
    (AValue.calculate c true s x).2 = (AValue.calculate c false s x).2 ∧
      quiet (AValue.calculate c true s x).1 = quiet (AValue.calculate c false s x).1 := by
  refine ⟨by rw [calculate_snd, calculate_snd], ?_⟩
  unfold AValue.calculate
  cases c with
  | classic => exact (base_quiet _ _ _ _ _ _ rfl).1
  | positive => exact (timed_quiet _ _ _ _ _ _ rfl).1
  | morePositive =>
    simp only []
    split
    · rfl
    · exact (timed_quiet _ _ _ _ _ _ rfl).1

/-- C70: the outcome of `calculate` depends on its arguments only, not on earlier calls. -/
theorem C70_no_memory (c : AValue.Cls) (warn : Bool) (s : AValue.State) (x : Args) :
    (AValue.calculate c warn s x).2 = (AValue.calculate c warn AValue.State.init x).2 := by
  rw [calculate_snd, calculate_snd]

end
end SeismoStats.Props
