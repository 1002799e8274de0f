/-
Properties C46 (`haversine`) and C45 (declustering windows).
-/
import Mathlib.Analysis.SpecialFunctions.Log.Base
import Verif.Model.Declustering
import Mathlib.Geometry.Euclidean.Angle.Unoriented.TriangleInequality
import Mathlib.Analysis.SpecialFunctions.Complex.LogDeriv
import Mathlib.Analysis.Complex.ExponentialBounds
import Mathlib.Analysis.InnerProductSpace.PiL2

namespace SeismoStats.Props
open SeismoStats SeismoStats.Decl
noncomputable section

/-! ## C46 -/

/-- The point of the unit sphere at a longitude and latitude in degrees. -/
def onSphere (lon lat : ℝ) : EuclideanSpace ℝ (Fin 3) :=
  !₂[Real.cos (lat * Real.pi / 180) * Real.cos (lon * Real.pi / 180),
    Real.cos (lat * Real.pi / 180) * Real.sin (lon * Real.pi / 180), Real.sin (lat * Real.pi / 180)]

theorem inner_onSphere (x y x' y' : ℝ) :
    inner ℝ (onSphere x y) (onSphere x' y') = 1 - 2 * aval x y x' y' := by
  simp only [PiLp.inner_apply, onSphere, Fin.sum_univ_three, RCLike.inner_apply, conj_trivial]
  simp only [PiLp.toLp_apply, Matrix.cons_val_zero, Matrix.cons_val_one, Matrix.cons_val]
  unfold aval
  have e : ∀ a : ℝ, a * Real.pi / 180 = rad a := fun a => by unfold rad; ring
  simp only [e]
  generalize rad x = a; generalize rad y = b; generalize rad x' = c; generalize rad y' = d
  have h1 : Real.sin ((b - d) / 2) ^ 2 = 1 / 2 - Real.cos (b - d) / 2 := by
    have := Real.cos_two_mul ((b - d) / 2)
    have h2 := Real.sin_sq_add_cos_sq ((b - d) / 2)
    rw [mul_div_cancel₀ _ (two_ne_zero)] at this
    linarith
  have h3 : Real.sin ((a - c) / 2) ^ 2 = 1 / 2 - Real.cos (a - c) / 2 := by
    have := Real.cos_two_mul ((a - c) / 2)
    have h2 := Real.sin_sq_add_cos_sq ((a - c) / 2)
    rw [mul_div_cancel₀ _ (two_ne_zero)] at this
    linarith
  rw [h1, h3, Real.cos_sub, Real.cos_sub]
  ring

theorem norm_onSphere (x y : ℝ) : ‖onSphere x y‖ = 1 := by
  have h := inner_onSphere x y x y
  rw [real_inner_self_eq_norm_sq] at h
  have : aval x y x y = 0 := by unfold aval; simp
  rw [this, mul_zero, sub_zero] at h
  nlinarith [norm_nonneg (onSphere x y)]

theorem aval_mem (x y x' y' : ℝ) : 0 ≤ aval x y x' y' ∧ aval x y x' y' ≤ 1 := by
  have h := inner_onSphere x y x' y'
  have := abs_real_inner_le_norm (onSphere x y) (onSphere x' y')
  rw [norm_onSphere, norm_onSphere, h, mul_one, abs_le] at this
  constructor <;> linarith [this.1, this.2]

/-- C46: the returned distance is the Earth radius times the angle between the two points, seen from the
centre: the great-circle distance. -/
theorem C46_great_circle (x y x' y' R : ℝ) :
    haversine x y x' y' R = R * InnerProductGeometry.angle (onSphere x y) (onSphere x' y') := by
  obtain ⟨h0, h1⟩ := aval_mem x y x' y'
  unfold haversine InnerProductGeometry.angle
  rw [norm_onSphere, norm_onSphere, inner_onSphere, mul_one, div_one]
  set a := aval x y x' y'
  have hs : 0 ≤ Real.sqrt (1 - a) := Real.sqrt_nonneg _
  have hn : ‖(⟨Real.sqrt (1 - a), Real.sqrt a⟩ : ℂ)‖ = 1 := by
    have : ‖(⟨Real.sqrt (1 - a), Real.sqrt a⟩ : ℂ)‖ ^ 2 = 1 := by
      rw [Complex.sq_norm, Complex.normSq_mk, Real.mul_self_sqrt (by linarith), Real.mul_self_sqrt h0]; ring
    nlinarith [norm_nonneg (⟨Real.sqrt (1 - a), Real.sqrt a⟩ : ℂ)]
  set t := Complex.arg ⟨Real.sqrt (1 - a), Real.sqrt a⟩ with ht
  have h00 : (⟨Real.sqrt (1 - a), Real.sqrt a⟩ : ℂ) ≠ 0 := by
    intro h; rw [h] at hn; simp at hn
  have hc : Real.cos t = Real.sqrt (1 - a) := by
    rw [ht, Complex.cos_arg h00, hn, div_one]
  have ht0 : 0 ≤ t := by rw [ht, Complex.arg_nonneg_iff]; exact Real.sqrt_nonneg _
  have ht1 : t ≤ Real.pi / 2 := by
    have := Complex.abs_arg_le_pi_div_two_iff.2 (show 0 ≤ (⟨Real.sqrt (1 - a), Real.sqrt a⟩ : ℂ).re from hs)
    exact (abs_le.1 this).2
  have : Real.arccos (1 - 2 * a) = 2 * t := by
    rw [show 1 - 2 * a = Real.cos (2 * t) by rw [Real.cos_two_mul, hc, Real.sq_sqrt (by linarith)]; ring]
    exact Real.arccos_cos (by linarith) (by linarith)
  rw [this]
  show 2 * R * t = R * (2 * t)
  ring

/-- C46: symmetry. -/
theorem C46_symmetric (x y x' y' R : ℝ) : haversine x y x' y' R = haversine x' y' x y R := by
  rw [C46_great_circle, C46_great_circle, InnerProductGeometry.angle_comm]

/-- C46: between 0 and half the circumference, for all real coordinates. -/
theorem C46_bounds (x y x' y' : ℝ) {R : ℝ} (hR : 0 ≤ R) :
    0 ≤ haversine x y x' y' R ∧ haversine x y x' y' R ≤ R * Real.pi := by
  rw [C46_great_circle]
  exact ⟨mul_nonneg hR (InnerProductGeometry.angle_nonneg _ _), mul_le_mul_of_nonneg_left (InnerProductGeometry.angle_le_pi _ _) hR⟩

/-- C46: zero exactly for the same point of the sphere. -/
theorem C46_zero_iff (x y x' y' : ℝ) {R : ℝ} (hR : 0 < R) :
    haversine x y x' y' R = 0 ↔ onSphere x y = onSphere x' y' := by
  rw [C46_great_circle, mul_eq_zero, or_iff_right hR.ne', InnerProductGeometry.angle_eq_zero_iff]
  constructor
  · rintro ⟨-, r, hr, h⟩
    have := norm_onSphere x' y'
    rw [h, norm_smul, norm_onSphere, mul_one, Real.norm_eq_abs, abs_of_pos hr] at this
    rw [h, this, one_smul]
  · intro h
    refine ⟨fun h0 => ?_, 1, one_pos, by rw [one_smul, h]⟩
    have := norm_onSphere x y
    rw [h0, norm_zero] at this
    exact zero_ne_one this

/-- C46: the triangle inequality. -/
theorem C46_triangle (x y x' y' x'' y'' : ℝ) {R : ℝ} (hR : 0 ≤ R) :
    haversine x y x'' y'' R ≤ haversine x y x' y' R + haversine x' y' x'' y'' R := by
  rw [C46_great_circle, C46_great_circle, C46_great_circle, ← mul_add]
  exact mul_le_mul_of_nonneg_left (InnerProductGeometry.angle_le_angle_add_angle _ _ _) hR

/-- C46: a full turn in longitude changes nothing. -/
theorem C46_date_line (x y x' y' R : ℝ) : haversine (x + 360) y x' y' R = haversine x y x' y' R := by
  rw [C46_great_circle, C46_great_circle]
  have : onSphere (x + 360) y = onSphere x y := by
    unfold onSphere
    have : (x + 360) * Real.pi / 180 = x * Real.pi / 180 + 2 * Real.pi := by ring
    rw [this, Real.cos_add_two_pi, Real.sin_add_two_pi]
  rw [this]

/-- The pole to the equator is a quarter of the circumference. -/
example (R : ℝ) : haversine 0 0 0 90 R = R * (Real.pi / 2) := by
  rw [C46_great_circle]
  congr 1
  rw [← InnerProductGeometry.inner_eq_zero_iff_angle_eq_pi_div_two]
  have : (90 : ℝ) * Real.pi / 180 = Real.pi / 2 := by ring
  simp [PiLp.inner_apply, onSphere, Fin.sum_univ_three, this]

/-! ## C45 -/

/-- The log of ten, bounded below. -/
theorem log_ten_gt : (228 / 100 : ℝ) < Real.log 10 := by
  have h2 := Real.log_two_gt_d9
  have : (33 : ℝ) * Real.log 2 < 10 * Real.log 10 := by
    rw [← Real.log_rpow (by norm_num), ← Real.log_rpow (by norm_num)]
    apply Real.log_lt_log (by positivity)
    norm_num
  linarith

/-- C45: windows are positive where defined, and defined for every magnitude of at least zero. -/
theorem C45_positive (k : Kind) (m : ℝ) :
    (∀ s, (window k none m).space = some s → 0 < s) ∧ (∀ t, (window k none m).time = some t → 0 < t) ∧
    (0 ≤ m → (window k none m).space ≠ none ∧ (window k none m).time ≠ none) := by
  have hs : ∀ x r, sqrt? x = some r → r = Real.sqrt x := by
    intro x r h; unfold sqrt? at h; split at h <;> cases h; rfl
  have hid : (cut none : ℝ → ℝ) = id := rfl
  cases k with
  | gardnerKnopoff =>
    simp only [window, calcWin, gkCalc, hid, Option.map_id, id]
    refine ⟨?_, ?_, fun _ => ⟨by simp, by simp⟩⟩
    · rintro s h; cases h; positivity
    · rintro s h; cases h; split <;> positivity
  | uhrhammer =>
    simp only [window, calcWin, uhrCalc, hid, Option.map_id, id]
    refine ⟨?_, ?_, fun _ => ⟨by simp, by simp⟩⟩
    · rintro s h; cases h; positivity
    · rintro s h; cases h; positivity
  | gruenthal =>
    simp only [window, calcWin, gruCalc, hid, Option.map_id, id]
    refine ⟨?_, ?_, fun hm => ⟨?_, ?_⟩⟩
    · intro s h
      rw [Option.map_eq_some_iff] at h
      obtain ⟨r, -, rfl⟩ := h
      positivity
    · intro t h
      split at h
      · cases h; positivity
      · rw [Option.map_eq_some_iff] at h
        obtain ⟨r, -, rfl⟩ := h
        positivity
    · unfold sqrt?; rw [if_neg (by linarith)]; simp
    · split
      · simp
      · unfold sqrt?; rw [if_neg (by linarith)]; simp

/-- C45: the space windows never shrink as the magnitude grows, and once defined stay defined. -/
theorem C45_space_monotone (k : Kind) (c : Option ℝ) {m m' s : ℝ} (h : m ≤ m') (hs : (window k c m).space = some s) :
    ∃ s', (window k c m').space = some s' ∧ s ≤ s' := by
  cases k with
  | gardnerKnopoff =>
    simp only [window, calcWin, gkCalc] at hs ⊢
    cases hs
    exact ⟨_, rfl, Real.rpow_le_rpow_of_exponent_le (by norm_num) (by linarith)⟩
  | uhrhammer =>
    simp only [window, calcWin, uhrCalc] at hs ⊢
    cases hs
    exact ⟨_, rfl, Real.exp_le_exp.2 (by linarith)⟩
  | gruenthal =>
    simp only [window, calcWin, gruCalc, sqrt?] at hs ⊢
    split at hs
    · cases hs
    · cases hs
      rw [if_neg (by linarith)]
      exact ⟨_, rfl, Real.exp_le_exp.2 (by have := Real.sqrt_le_sqrt (show 37 / 1000 + 102 / 100 * m ≤ 37 / 1000 + 102 / 100 * m' by linarith); linarith)⟩

theorem cut_mono (c : Option ℝ) {t t' : ℝ} (h : t ≤ t') : cut c t ≤ cut c t' := by
  unfold cut
  cases c with
  | none => exact h
  | some c =>
    simp only
    split
    · exact h
    · exact min_le_min_right _ (max_le_max_right _ h)

/-- C45: the time windows of Gruenthal and Uhrhammer never shrink as the magnitude grows, with any cutoff,
those of Gardner and Knopoff do not within each of the ranges below and above 6.5. -/
theorem C45_time_monotone (k : Kind) (c : Option ℝ) {m m' t : ℝ} (h : m ≤ m') (hk : k = .gardnerKnopoff → (m < 65 / 10 ↔ m' < 65 / 10))
    (ht : (window k c m).time = some t) : ∃ t', (window k c m').time = some t' ∧ t ≤ t' := by
  suffices hcalc : ∀ u, (calcWin k m).time = some u → ∃ u', (calcWin k m').time = some u' ∧ u ≤ u' by
    simp only [window] at ht ⊢
    rw [Option.map_eq_some_iff] at ht
    obtain ⟨u, hu, rfl⟩ := ht
    obtain ⟨u', hu', hle⟩ := hcalc u hu
    exact ⟨cut c u', by rw [hu']; rfl, cut_mono c hle⟩
  intro u hu
  cases k with
  | gardnerKnopoff =>
    simp only [calcWin, gkCalc] at hu ⊢
    cases hu
    refine ⟨_, rfl, ?_⟩
    have hk := hk rfl
    by_cases h1 : m < 65 / 10
    · rw [if_pos h1, if_pos (hk.1 h1)]
      exact Real.rpow_le_rpow_of_exponent_le (by norm_num) (by linarith)
    · rw [if_neg h1, if_neg (fun h2 => h1 (hk.2 h2))]
      exact Real.rpow_le_rpow_of_exponent_le (by norm_num) (by linarith)
  | uhrhammer =>
    simp only [calcWin, uhrCalc] at hu ⊢
    cases hu
    exact ⟨_, rfl, Real.exp_le_exp.2 (by linarith)⟩
  | gruenthal =>
    simp only [calcWin, gruCalc, sqrt?] at hu ⊢
    by_cases h1 : 65 / 10 ≤ m
    · rw [if_pos h1] at hu
      rw [if_pos (by linarith)]
      cases hu
      exact ⟨_, rfl, Real.rpow_le_rpow_of_exponent_le (by norm_num) (by linarith)⟩
    · rw [if_neg h1] at hu
      split at hu
      · cases hu
      · rename_i hm
        cases hu
        by_cases h2 : 65 / 10 ≤ m'
        · rw [if_pos h2]
          refine ⟨_, rfl, ?_⟩
          beta_reduce
          rw [abs_of_pos (Real.exp_pos _), Real.rpow_def_of_pos (by norm_num), Real.exp_le_exp]
          have hsq : Real.sqrt (62 / 100 + 1732 / 100 * m) ≤ 1064 / 100 := by
            rw [show (1064 / 100 : ℝ) = Real.sqrt ((1064 / 100) ^ 2) by rw [Real.sqrt_sq (by norm_num)]]
            apply Real.sqrt_le_sqrt
            push Not at h1
            norm_num; linarith
          have := log_ten_gt
          nlinarith
        · rw [if_neg h2, if_neg (by linarith)]
          refine ⟨_, rfl, ?_⟩
          beta_reduce
          rw [abs_of_pos (Real.exp_pos _), abs_of_pos (Real.exp_pos _), Real.exp_le_exp]
          have := Real.sqrt_le_sqrt (show 62 / 100 + 1732 / 100 * m ≤ 62 / 100 + 1732 / 100 * m' by linarith)
          linarith

/-- A finding about C45: the Gardner-Knopoff time window shrinks at magnitude 6.5. -/
theorem C45_gardner_knopoff_drop : ∃ t t', (window .gardnerKnopoff none (649 / 100)).time = some t ∧
    (window .gardnerKnopoff none (65 / 10)).time = some t' ∧ t' < t := by
  simp only [window, calcWin, gkCalc, Option.map_some, cut]
  refine ⟨_, _, rfl, rfl, ?_⟩
  rw [if_neg (by norm_num), if_pos (by norm_num)]
  exact Real.rpow_lt_rpow_of_exponent_lt (by norm_num) (by norm_num)

/-- C45: a positive cutoff caps every time window and leaves the shorter ones as they are. -/
theorem C45_cutoff (k : Kind) (m : ℝ) {c : ℝ} (hc : 0 < c) :
    (window k (some c) m).time = (window k none m).time.map (min · c) ∧
    (window k (some c) m).space = (window k none m).space := by
  refine ⟨?_, rfl⟩
  have hp := (C45_positive k m).2.1
  simp only [window] at hp ⊢
  cases h : (calcWin k m).time with
  | none => rfl
  | some t =>
    have := hp t (by rw [h]; rfl)
    simp only [Option.map_some, cut, if_neg hc.ne', max_eq_left this.le]

/-- A finding about C45: a cutoff of zero days is ignored. -/
theorem C45_cutoff_zero_ignored (k : Kind) (m : ℝ) : window k (some 0) m = window k none m := by
  have h : cut (some 0) = cut none := by funext t; simp [cut]
  simp only [window, h]

/-- A finding about C45: the Gruenthal windows are undefined (NaN) for magnitudes below -0.0363. -/
theorem C45_gruenthal_undefined {m : ℝ} (h : m < -(363 / 10000)) (c : Option ℝ) : window .gruenthal c m = ⟨none, none⟩ := by
  simp only [window, calcWin, gruCalc, sqrt?]
  rw [if_pos (by linarith), if_neg (by linarith), if_pos (by linarith)]
  rfl

/-- The windows of Gardner and Knopoff (1974) in logarithms, distance in km and time in days. -/
def IsGardnerKnopoff (m s t : ℝ) : Prop :=
  0 < s ∧ 0 < t ∧ Real.logb 10 s = 0.1238 * m + 0.983 ∧ (m < 6.5 → Real.logb 10 t = 0.5409 * m - 0.547) ∧ (6.5 ≤ m → Real.logb 10 t = 0.032 * m + 2.7389)

/-- The windows of Uhrhammer (1986). -/
def IsUhrhammer (m s t : ℝ) : Prop := 0 < s ∧ 0 < t ∧ Real.log s = -1.024 + 0.804 * m ∧ Real.log t = -2.87 + 1.235 * m

/-- The distance window of Gruenthal. -/
def IsGruenthalSpace (m s : ℝ) : Prop := 0 < s ∧ 1.77 ≤ Real.log s ∧ (Real.log s - 1.77) ^ 2 = 0.037 + 1.02 * m

/-- The time window of Gruenthal. -/
def IsGruenthalTime (m t : ℝ) : Prop :=
  0 < t ∧ (m < 6.5 → -3.95 ≤ Real.log t ∧ (Real.log t + 3.95) ^ 2 = 0.62 + 17.32 * m) ∧ (6.5 ≤ m → Real.logb 10 t = 2.8 + 0.024 * m)

theorem sqrt?_iff (x r : ℝ) : sqrt? x = some r ↔ 0 ≤ r ∧ r ^ 2 = x := by
  unfold sqrt?
  by_cases h : x < 0
  · rw [if_pos h]
    simp only [reduceCtorEq, false_iff, not_and]
    intro _ h2
    nlinarith [sq_nonneg r]
  · rw [if_neg h, Option.some.injEq]
    constructor
    · rintro rfl
      exact ⟨Real.sqrt_nonneg _, Real.sq_sqrt (not_lt.1 h)⟩
    · rintro ⟨h1, rfl⟩
      exact Real.sqrt_sq h1

/-- C45: the windows without a cutoff are those of the publications; the Gruenthal windows exist exactly where the formulas have a value. -/
theorem C45_formulas (m : ℝ) :
    (∃ s t, window .gardnerKnopoff none m = ⟨some s, some t⟩ ∧ IsGardnerKnopoff m s t) ∧
    (∃ s t, window .uhrhammer none m = ⟨some s, some t⟩ ∧ IsUhrhammer m s t) ∧
    (∀ s, (window .gruenthal none m).space = some s ↔ IsGruenthalSpace m s) ∧
    (∀ t, (window .gruenthal none m).time = some t ↔ IsGruenthalTime m t) := by
  have hlog : ∀ y : ℝ, Real.logb 10 ((10 : ℝ) ^ y) = y := fun y => Real.logb_rpow (by norm_num) (by norm_num)
  refine ⟨⟨_, _, rfl, ?_⟩, ⟨_, _, rfl, ?_⟩, fun s => ?_, fun t => ?_⟩
  · refine ⟨by positivity, ?_, ?_, fun h => ?_, fun h => ?_⟩
    · show 0 < ite _ _ _
      split <;> positivity
    · rw [hlog]; norm_num
    · show Real.logb 10 (ite _ _ _) = _
      rw [if_pos (by norm_num at h ⊢; linarith), hlog]; norm_num
    · show Real.logb 10 (ite _ _ _) = _
      rw [if_neg (by norm_num at h ⊢; linarith), hlog]; norm_num
  · refine ⟨by positivity, Real.exp_pos _, ?_, ?_⟩
    · rw [Real.log_exp]; norm_num
    · show Real.log (Real.exp _) = _
      rw [Real.log_exp]; norm_num
  · show (Option.map _ (sqrt? _)) = some s ↔ _
    rw [Option.map_eq_some_iff]
    constructor
    · rintro ⟨r, h1, rfl⟩
      obtain ⟨h2, h3⟩ := (sqrt?_iff _ _).1 h1
      refine ⟨Real.exp_pos _, ?_, ?_⟩
      · rw [Real.log_exp]; norm_num; linarith
      · rw [Real.log_exp, show (177 / 100 + r - 1.77 : ℝ) = r by norm_num, h3]; norm_num
    · rintro ⟨h1, h2, h3⟩
      refine ⟨Real.log s - 1.77, (sqrt?_iff _ _).2 ⟨by linarith, by rw [h3]; norm_num⟩, ?_⟩
      rw [show (177 / 100 + (Real.log s - 1.77) : ℝ) = Real.log s by norm_num, Real.exp_log h1]
  · show Option.map id (ite _ _ _) = some t ↔ _
    rw [Option.map_id, id]
    by_cases hm : 65 / 10 ≤ m
    · rw [if_pos hm, Option.some.injEq]
      constructor
      · rintro rfl
        refine ⟨by positivity, fun h => absurd h (by norm_num at hm ⊢; linarith), fun _ => ?_⟩
        rw [hlog]; norm_num
      · rintro ⟨h1, -, h2⟩
        have h3 := h2 (by norm_num at hm ⊢; linarith)
        rw [show (28 / 10 + 24 / 1000 * m : ℝ) = Real.logb 10 t by rw [h3]; norm_num, Real.rpow_logb (by norm_num) (by norm_num) h1]
    · rw [if_neg hm, Option.map_eq_some_iff]
      have hm' : m < 6.5 := by norm_num at hm ⊢; linarith
      constructor
      · rintro ⟨r, h1, rfl⟩
        obtain ⟨h2, h3⟩ := (sqrt?_iff _ _).1 h1
        rw [abs_of_pos (Real.exp_pos _)]
        refine ⟨Real.exp_pos _, fun _ => ⟨?_, ?_⟩, fun h => absurd h (not_le.2 hm')⟩
        · rw [Real.log_exp]; norm_num; linarith
        · rw [Real.log_exp, show (-(395 / 100) + r + 3.95 : ℝ) = r by norm_num, h3]; norm_num
      · rintro ⟨h1, h2, -⟩
        obtain ⟨h3, h4⟩ := h2 hm'
        refine ⟨Real.log t + 3.95, (sqrt?_iff _ _).2 ⟨by linarith, by rw [h4]; norm_num⟩, ?_⟩
        rw [show (-(395 / 100) + (Real.log t + 3.95) : ℝ) = Real.log t by norm_num, Real.exp_log h1, abs_of_pos h1]

/-- A case: the Gruenthal time window of magnitude 6.5 is `10^2.956` days. -/
example : (window .gruenthal none 6.5).time = some ((10 : ℝ) ^ (2.956 : ℝ)) :=
  ((C45_formulas 6.5).2.2.2 _).2 ⟨by positivity, fun h => absurd h (lt_irrefl _), fun _ => by
    rw [Real.logb_rpow (by norm_num) (by norm_num)]; norm_num⟩

end
end SeismoStats.Props
