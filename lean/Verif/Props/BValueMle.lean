/-
Properties C13-C16, C18: what the classic and Utsu estimates are.
-/
import Verif.Props.BValueState
import Mathlib.Analysis.SpecialFunctions.Log.Deriv

namespace SeismoStats.Props
open SeismoStats BValue
open Classical
noncomputable section

/-- The weights in effect: the given ones, or ones. -/
def weightsOf (a : Args) : List ℝ := a.weights.getD (a.mags.map fun _ => 1)

/-- The events (magnitude, weight) at or above `mc - delta_m/2`. -/
def eventsOf (a : Args) : List (ℝ × ℝ) := Spec.selected a.mags (weightsOf a) (a.mc - a.δ / 2)

theorem eventsOf_eq (a : Args) : eventsOf a = used a := rfl

/-- The law behind the classic estimator: exponential for `delta_m = 0`, its
discretisation to bins for `delta_m > 0`. -/
def law (mc δ : ℝ) (β m : ℝ) : ℝ := if 0 < δ then Spec.binMass β mc δ m else Spec.expDensity β mc m

theorem result_eq {c : Cls} (hc : c = .classic ∨ c = .utsu) (warn : Bool) {s : State}
    (hs : Reachable c s) {a : Args} (ha : Accepted a) :
    (calculate c warn s a).2 = resultOf c a := by
  rw [calculate_classic_valid hc warn s a ((accepted_iff a).1 ha) (reachable_times hc hs).1, store_snd]

theorem used_nonneg {a : Args} (ha : Accepted a) : ∀ q ∈ used a, 0 ≤ q.2 := by
  intro q hq
  unfold used Spec.selected at hq
  rw [List.mem_filterMap] at hq
  obtain ⟨p, hp, hq⟩ := hq
  have h1 : 0 ≤ p.2 := effW_nonneg ((accepted_iff a).1 ha) _ (List.of_mem_zip hp).2
  cases hp1 : p.1 with
  | none => simp [hp1] at hq
  | some m =>
    simp only [hp1] at hq
    split at hq
    · cases hq; exact h1
    · cases hq

theorem result_of_total {c : Cls} {a : Args} (ht : 0 < Spec.total (used a)) :
    resultOf c a = .ok (betaToB (match c with
      | .utsu => Fl.div 1 (Spec.wmean (used a) - a.mc + a.δ / 2)
      | _ => betaOf (Spec.wmean (used a) - a.mc) a.δ)) := by
  have hne : used a ≠ [] := by
    intro h; rw [h] at ht; simp [Spec.total] at ht
  have hz : ¬ zeroTotal a := fun h => ht.ne' h.2
  unfold resultOf closed
  rw [if_neg hne, if_neg hz]
  cases c <;> rfl

/-- The classic beta for mean excess `A > 0`. -/
def betaVal (A δ : ℝ) : ℝ := if 0 < δ then Real.log (1 + δ / A) / δ else 1 / A

theorem betaOf_pos {A δ : ℝ} (hA : 0 < A) : betaOf A δ = .fin (betaVal A δ) := by
  unfold betaOf betaVal
  split
  · rename_i hδ
    have : 0 < 1 + δ / A := by positivity
    simp only [Fl.div, hA.ne', if_false, Fl.mapFin, Fl.log, this, if_true]
    congr 1; ring
  · simp only [Fl.div, hA.ne', if_false]

theorem betaVal_pos {A δ : ℝ} (hA : 0 < A) : 0 < betaVal A δ := by
  unfold betaVal
  split
  · rename_i hδ
    have : 1 < 1 + δ / A := by have : 0 < δ / A := by positivity
                               linarith
    exact div_pos (Real.log_pos this) hδ
  · positivity

/-! ## C13 -/

theorem sum_affine (l : List (ℝ × ℝ)) (u v mc : ℝ) :
    (l.map fun p => p.2 * (u - v * (p.1 - mc))).sum =
      (l.map Prod.snd).sum * u - v * ((l.map fun p => p.2 * p.1).sum - mc * (l.map Prod.snd).sum) := by
  induction l with
  | nil => simp
  | cons p r ih => simp only [List.map_cons, List.sum_cons, ih]; ring

theorem logLik_eq {l : List (ℝ × ℝ)} (ht : 0 < Spec.total l) {mc δ β : ℝ} (hβ : 0 < β) :
    Spec.logLik (law mc δ) l β = Spec.total l *
      ((if 0 < δ then Real.log (1 - Real.exp (-β * δ)) else Real.log β) -
        β * (Spec.wmean l - mc)) := by
  have key : ∀ u, (l.map fun p => p.2 * (u - β * (p.1 - mc))).sum =
      Spec.total l * (u - β * (Spec.wmean l - mc)) := by
    intro u
    rw [sum_affine]
    unfold Spec.total at *
    unfold Spec.wmean
    field_simp
  unfold Spec.logLik law
  split
  · rename_i hδ
    rw [← key]
    congr 1
    apply List.map_congr_left
    intro p _
    have h1 : Spec.binMass β mc δ p.1 = Real.exp (-β * (p.1 - mc)) * (1 - Real.exp (-β * δ)) := by
      unfold Spec.binMass
      rw [mul_sub (Real.exp _), mul_one, ← Real.exp_add]
      congr 2 <;> ring_nf
    have h2 : 0 < 1 - Real.exp (-β * δ) := by
      have : Real.exp (-β * δ) < 1 := by
        rw [Real.exp_lt_one_iff]; nlinarith [mul_pos hβ hδ]
      linarith
    rw [h1, Real.log_mul (Real.exp_ne_zero _) h2.ne', Real.log_exp]
    ring
  · rw [← key]
    congr 1
    apply List.map_congr_left
    intro p _
    unfold Spec.expDensity
    rw [Real.log_mul hβ.ne' (Real.exp_ne_zero _), Real.log_exp]
    ring

/-- The profile of the log-likelihood has its strict maximum at `betaVal`. -/
theorem profile_max {A δ β : ℝ} (hA : 0 < A) (hβ : 0 < β) (hne : β ≠ betaVal A δ) :
    (if 0 < δ then Real.log (1 - Real.exp (-β * δ)) else Real.log β) - β * A <
      (if 0 < δ then Real.log (1 - Real.exp (-betaVal A δ * δ)) else Real.log (betaVal A δ)) -
        betaVal A δ * A := by
  by_cases hδ : 0 < δ
  · simp only [hδ, if_true]
    have hb : betaVal A δ = Real.log (1 + δ / A) / δ := by unfold betaVal; rw [if_pos hδ]
    have hp : 0 < 1 + δ / A := by positivity
    have hq0 : Real.exp (-betaVal A δ * δ) = A / (A + δ) := by
      rw [hb, neg_mul, div_mul_cancel₀ _ hδ.ne', Real.exp_neg, Real.exp_log hp]
      field_simp
    set q := Real.exp (-β * δ) with hq
    have hqpos : 0 < q := Real.exp_pos _
    have hq1 : q < 1 := by
      rw [hq, Real.exp_lt_one_iff]; nlinarith [mul_pos hβ hδ]
    have hqne : q ≠ A / (A + δ) := by
      intro h
      rw [← hq0, hq, Real.exp_eq_exp] at h
      apply hne
      have := mul_right_cancel₀ hδ.ne' h
      linarith
    have hq0' : 1 - A / (A + δ) = δ / (A + δ) := by field_simp; ring
    rw [hq0, hq0']
    -- β A = -(A/δ) log q
    have l1 : β * A = -(A / δ) * Real.log q := by
      rw [hq, Real.log_exp]; field_simp
    have l2 : betaVal A δ * A = -(A / δ) * Real.log (A / (A + δ)) := by
      rw [← hq0, Real.log_exp]; field_simp
    rw [l1, l2]
    have hs : 0 < A + δ := by positivity
    have hx : 0 < q / (A / (A + δ)) := by positivity
    have hy : 0 < (1 - q) / (δ / (A + δ)) := div_pos (by linarith) (by positivity)
    have hx1 : q / (A / (A + δ)) ≠ 1 := by
      intro h; apply hqne; rw [div_eq_one_iff_eq (by positivity)] at h; exact h
    have ineq1 := Real.log_lt_sub_one_of_pos hx hx1
    have ineq2 := Real.log_le_sub_one_of_pos hy
    rw [Real.log_div hqpos.ne' (by positivity)] at ineq1
    rw [Real.log_div (by linarith) (by positivity)] at ineq2
    have hr : 0 < A / δ := by positivity
    have m1 := mul_lt_mul_of_pos_left ineq1 hr
    have e : A / δ * (q / (A / (A + δ)) - 1) + ((1 - q) / (δ / (A + δ)) - 1) = 0 := by
      field_simp; ring
    linarith [m1, ineq2, e]
  · simp only [hδ, if_false]
    have hb : betaVal A δ = 1 / A := by unfold betaVal; rw [if_neg hδ]
    rw [hb] at hne ⊢
    have hx : 0 < β * A := by positivity
    have hx1 : β * A ≠ 1 := by
      intro h; apply hne; field_simp; linarith
    have := Real.log_lt_sub_one_of_pos hx hx1
    rw [Real.log_mul hβ.ne' hA.ne'] at this
    have e1 : Real.log (1 / A) = -Real.log A := by rw [one_div, Real.log_inv]
    have e2 : 1 / A * A = 1 := by field_simp
    rw [e1, e2]
    linarith

/-- C13: for accepted data of positive total weight and mean above `mc`,
`ClassicBValueEstimator.calculate` returns a finite `b > 0` such that
`beta = b ln 10` is the unique maximiser, over all `beta > 0`, of the weighted
log-likelihood of the selected magnitudes. -/
theorem C13_classic_is_mle (warn : Bool) {s : State} (hs : Reachable .classic s) (a : Args)
    (ha : Accepted a) (ht : 0 < Spec.total (eventsOf a)) (hm : a.mc < Spec.wmean (eventsOf a)) :
    ∃ b, (calculate .classic warn s a).2 = .ok (.fin b) ∧ 0 < b ∧
      ∀ β, 0 < β → β ≠ b * Real.log 10 →
        Spec.logLik (law a.mc a.δ) (eventsOf a) β <
          Spec.logLik (law a.mc a.δ) (eventsOf a) (b * Real.log 10) := by
  rw [eventsOf_eq] at *
  have hA : 0 < Spec.wmean (used a) - a.mc := by linarith
  have hl : 0 < Real.log 10 := Real.log_pos (by norm_num)
  refine ⟨betaVal (Spec.wmean (used a) - a.mc) a.δ / Real.log 10, ?_, ?_, ?_⟩
  · rw [result_eq (Or.inl rfl) warn hs ha, result_of_total ht]
    simp only [betaOf_pos hA]
    rfl
  · exact div_pos (betaVal_pos hA) hl
  · intro β hβ hne
    rw [div_mul_cancel₀ _ hl.ne'] at hne ⊢
    rw [logLik_eq ht hβ, logLik_eq ht (betaVal_pos hA)]
    exact mul_lt_mul_of_pos_left (profile_max hA hβ hne) ht

/-- The bin masses are a probability law: over the bins `mc, mc+δ, ...` the first
`n` masses sum to `1 - e^{-β n δ}`. -/
theorem C13_law_is_gutenberg_richter (β mc δ : ℝ) (n : ℕ) :
    ((List.range n).map fun (k : ℕ) => Spec.binMass β mc δ (mc + k * δ)).sum =
      1 - Real.exp (-β * (n * δ)) := by
  induction n with
  | zero => simp
  | succ n ih =>
    rw [List.range_succ, List.map_append, List.sum_append, ih]
    simp only [List.map_cons, List.map_nil, List.sum_cons, List.sum_nil, Spec.binMass]
    push_cast
    ring_nf

/-- C13 applies to the reference data. -/
example : Accepted demo ∧ 0 < Spec.total (eventsOf demo) ∧ demo.mc < Spec.wmean (eventsOf demo) := by
  refine ⟨demo_accepted, ?_, ?_⟩
  · rw [eventsOf_eq, demo_used]; norm_num [Spec.total]
  · rw [eventsOf_eq, demo_used]; norm_num [Spec.wmean, demo]

/-- The estimate for the reference data is `log10 3`. -/
example : (calculate .classic true State.init demo).2 = .ok (.fin (Real.log 3 / Real.log 10)) := by
  rw [result_eq (Or.inl rfl) true .init demo_accepted,
    result_of_total (by rw [demo_used]; norm_num [Spec.total])]
  have h : Spec.wmean (used demo) - demo.mc = 1 / 2 := by
    rw [demo_used]; norm_num [Spec.wmean, demo]
  simp only [h, betaOf_pos (show (0 : ℝ) < 1 / 2 by norm_num)]
  have : betaVal (1 / 2) demo.δ = Real.log 3 := by norm_num [betaVal, demo]
  rw [this]; rfl

/-! ## C14 -/

/-- Result of a classic or Utsu call for arbitrary input. -/
theorem result_all {c : Cls} (hc : c = .classic ∨ c = .utsu) (warn : Bool) {s : State}
    (hs : Reachable c s) (a : Args) :
    (calculate c warn s a).2 = (checkBinning a.mags a.δ >>= fun _ =>
      checkWeights a.mags.length a.weights >>= fun _ => resultOf c a) := by
  by_cases hv : Valid a
  · rw [calculate_classic_valid hc warn s a hv (reachable_times hc hs).1, store_snd, hv.bin, hv.wts]
    rfl
  · have e : calculate c warn s a = baseCalculate c warn { s with warned := [] } a := by
      rcases hc with rfl | rfl <;> rfl
    rw [e]
    unfold baseCalculate sanityChecks
    simp only [Option.getD_some]
    cases h1 : checkBinning a.mags a.δ with
    | error e => rfl
    | ok u =>
      cases h2 : checkWeights a.mags.length a.weights with
      | error e => rfl
      | ok v => exact absurd ⟨h1, h2⟩ hv

/-- All magnitudes and `mc` moved by `t`. -/
def shifted (a : Args) (t : ℝ) : Args :=
  { a with mags := a.mags.map (Option.map (· + t)), mc := a.mc + t }

/-- All magnitudes, `mc` and `delta_m` multiplied by `k`. -/
def scaled (a : Args) (k : ℝ) : Args :=
  { a with mags := a.mags.map (Option.map (· * k)), mc := a.mc * k, δ := a.δ * k }

theorem selected_map (mags : List (Option ℝ)) (w : List ℝ) (thr thr' : ℝ) (f : ℝ → ℝ)
    (h : ∀ m, thr' ≤ f m ↔ thr ≤ m) :
    Spec.selected (mags.map (Option.map f)) w thr' =
      (Spec.selected mags w thr).map fun q => (f q.1, q.2) := by
  unfold Spec.selected
  induction mags generalizing w with
  | nil => simp
  | cons o r ih =>
    cases w with
    | nil => simp
    | cons u v =>
      simp only [List.map_cons, List.zip_cons_cons, List.filterMap_cons]
      cases o with
      | none => simpa using ih v
      | some m =>
        simp only [Option.map_some, h]
        by_cases hm : thr ≤ m
        · simp only [hm, if_true, List.map_cons]; rw [ih v]
        · simp only [hm, if_false]; exact ih v

theorem effW_shifted (a : Args) (t : ℝ) : effW (shifted a t) = effW a := by
  unfold effW shifted
  cases a.weights with
  | none => simp [Function.comp_def]
  | some w => rfl

theorem effW_scaled (a : Args) (t : ℝ) : effW (scaled a t) = effW a := by
  unfold effW scaled
  cases a.weights with
  | none => simp [Function.comp_def]
  | some w => rfl

theorem used_shifted (a : Args) (t : ℝ) : used (shifted a t) = (used a).map fun q => (q.1 + t, q.2) := by
  unfold used
  rw [effW_shifted]
  exact selected_map _ _ _ _ (· + t) (fun m => by simp only [shifted]; constructor <;> intro h <;> linarith)

theorem used_scaled (a : Args) {k : ℝ} (hk : 0 < k) :
    used (scaled a k) = (used a).map fun q => (q.1 * k, q.2) := by
  unfold used
  rw [effW_scaled]
  refine selected_map _ _ _ _ (· * k) (fun m => ?_)
  simp only [scaled]
  have : a.mc * k - a.δ * k / 2 = (a.mc - a.δ / 2) * k := by ring
  rw [this]
  exact mul_le_mul_iff_of_pos_right hk

theorem total_map (l : List (ℝ × ℝ)) (f : ℝ → ℝ) :
    Spec.total (l.map fun q => (f q.1, q.2)) = Spec.total l := by
  unfold Spec.total; simp [Function.comp_def]

theorem wmean_shift {l : List (ℝ × ℝ)} (h : Spec.total l ≠ 0) (t : ℝ) :
    Spec.wmean (l.map fun q => (q.1 + t, q.2)) = Spec.wmean l + t := by
  rw [← wavg_shift h t]
  unfold Spec.wmean wavg
  simp [Function.comp_def]

theorem wmean_scale (l : List (ℝ × ℝ)) (k : ℝ) :
    Spec.wmean (l.map fun q => (q.1 * k, q.2)) = Spec.wmean l * k := by
  unfold Spec.wmean
  rw [div_mul_eq_mul_div]
  congr 1
  · induction l with
    | nil => simp
    | cons p r ih => simp only [List.map_cons, List.sum_cons, ih]; ring
  · simp [Function.comp_def]

theorem zeroTotal_congr {a a' : Args} (h1 : a.weights.isSome = a'.weights.isSome)
    (h2 : Spec.total (used a) = Spec.total (used a')) : zeroTotal a ↔ zeroTotal a' := by
  unfold zeroTotal; rw [h1, h2]

/-- C14: adding `t` to all magnitudes and to `mc` changes neither the value nor the
exception, for every input and every history. -/
theorem C14_shift_invariant {c : Cls} (hc : c = .classic ∨ c = .utsu) (warn : Bool) {s : State}
    (hs : Reachable c s) (a : Args) (t : ℝ) :
    (calculate c warn s (shifted a t)).2 = (calculate c warn s a).2 := by
  rw [result_all hc warn hs, result_all hc warn hs]
  have h1 : checkBinning (shifted a t).mags (shifted a t).δ = checkBinning a.mags a.δ := by
    unfold checkBinning shifted
    simp only [List.length_map, C08_shift_invariant]
  have h2 : checkWeights (shifted a t).mags.length (shifted a t).weights =
      checkWeights a.mags.length a.weights := by simp [shifted]
  have h3 : resultOf c (shifted a t) = resultOf c a := by
    unfold resultOf
    by_cases hu : used a = []
    · rw [if_pos hu, if_pos (by rw [used_shifted, hu]; rfl)]
    · rw [if_neg hu, if_neg (by rw [used_shifted]; simpa using hu)]
      have hz := zeroTotal_congr (a := shifted a t) (a' := a) rfl
        (by rw [used_shifted]; exact total_map _ (· + t))
      unfold closed
      by_cases h : zeroTotal a
      · rw [if_pos h, if_pos (hz.2 h)]
      · rw [if_neg h, if_neg (fun h' => h (hz.1 h'))]
        rw [used_shifted, wmean_shift (total_ne_zero hu h)]
        have e : Spec.wmean (used a) + t - (shifted a t).mc = Spec.wmean (used a) - a.mc := by
          simp only [shifted]; ring
        rw [e]; rfl
  rw [h1, h2, h3]

theorem fl_div_scale {k : ℝ} (hk : 0 < k) (A : ℝ) : Fl.div 1 (A * k) = (Fl.div 1 A).mapFin (· / k) := by
  unfold Fl.div
  by_cases h : A = 0
  · simp [h, Fl.mapFin]
  · simp only [mul_eq_zero, h, hk.ne', or_self, if_false, Fl.mapFin]
    congr 1; field_simp

theorem betaOf_scale {k : ℝ} (hk : 0 < k) (A δ : ℝ) :
    betaOf (A * k) (δ * k) = (betaOf A δ).mapFin (· / k) := by
  unfold betaOf
  by_cases hδ : 0 < δ
  · have hδk : 0 < δ * k := by positivity
    simp only [hδ, hδk, if_true]
    have e : Fl.div (δ * k) (A * k) = Fl.div δ A := by
      unfold Fl.div
      by_cases h : A = 0
      · simp [h, hδ.ne', hk.ne', hδ, hδk]
      · simp only [mul_eq_zero, h, hk.ne', or_self, if_false]
        congr 1; field_simp
    rw [e]
    cases (Fl.mapFin (fun x => 1 + x) (Fl.div δ A)).log with
    | fin x => simp only [Fl.mapFin]; congr 1; field_simp
    | nan => rfl
    | pinf => rfl
    | ninf => rfl
  · have hδk : ¬ 0 < δ * k := by
      intro h; exact hδ ((pos_iff_pos_of_mul_pos h).2 hk)
    simp only [hδ, hδk, if_false]
    exact fl_div_scale hk A

theorem betaToB_scale (k : ℝ) (x : Fl ℝ) :
    betaToB (x.mapFin (· / k)) = (betaToB x).mapFin (· / k) := by
  cases x <;> simp [betaToB, Fl.mapFin, div_right_comm]

/-- C14: multiplying magnitudes, `mc` and `delta_m` by `k > 0` divides the estimate
by `k`, whenever both inputs are accepted (the binning test has an absolute tolerance). -/
theorem C14_scale {c : Cls} (hc : c = .classic ∨ c = .utsu) (warn : Bool) {s : State}
    (hs : Reachable c s) (a : Args) (k : ℝ) (hk : 0 < k) (ha : Accepted a)
    (ha' : Accepted (scaled a k)) :
    (calculate c warn s (scaled a k)).2 =
      (calculate c warn s a).2.map (Fl.mapFin (· / k)) := by
  rw [result_eq hc warn hs ha, result_eq hc warn hs ha']
  unfold resultOf
  by_cases hu : used a = []
  · rw [if_pos hu, if_pos (by rw [used_scaled a hk, hu]; rfl)]; rfl
  · rw [if_neg hu, if_neg (by rw [used_scaled a hk]; simpa using hu)]
    have hz := zeroTotal_congr (a := scaled a k) (a' := a) rfl
      (by rw [used_scaled a hk]; exact total_map _ (· * k))
    unfold closed
    by_cases h : zeroTotal a
    · rw [if_pos h, if_pos (hz.2 h)]; rfl
    · rw [if_neg h, if_neg (fun h' => h (hz.1 h'))]
      rw [used_scaled a hk, wmean_scale]
      have e1 : Spec.wmean (used a) * k - (scaled a k).mc = (Spec.wmean (used a) - a.mc) * k := by
        simp only [scaled]; ring
      have e2 : Spec.wmean (used a) * k - (scaled a k).mc + (scaled a k).δ / 2 =
          (Spec.wmean (used a) - a.mc + a.δ / 2) * k := by
        simp only [scaled]; ring
      have e3 : (scaled a k).δ = a.δ * k := rfl
      rcases hc with rfl | rfl
      · simp only [e1, e3, betaOf_scale hk, betaToB_scale]; rfl
      · simp only [e2, fl_div_scale hk, betaToB_scale]; rfl

/-- The reference data scaled by 2 is accepted too. -/
example : Accepted demo ∧ Accepted (scaled demo 2) := by
  refine ⟨demo_accepted, Or.inr ?_, fun w hw => by cases hw⟩
  have := C08_grid_accepted (K := ℝ) [some 1, none, some 2, some 0] 0 2 (1 / 10 ^ 15) (by norm_num)
    (by norm_num) ⟨1, by simp⟩
  simpa [demo, scaled] using this

/-! ## C18 -/

/-- C18: for accepted data with `delta_m ≥ 0`, positive total weight and mean above `mc`,
both estimates are finite and positive, Utsu's is at most the classic one, and they agree for `delta_m = 0`. -/
theorem C18_utsu_le_classic (warn : Bool) {s s' : State} (hs : Reachable .classic s)
    (hs' : Reachable .utsu s') (a : Args) (ha : Accepted a) (hδ : 0 ≤ a.δ)
    (ht : 0 < Spec.total (eventsOf a)) (hm : a.mc < Spec.wmean (eventsOf a)) :
    ∃ b u, (calculate .classic warn s a).2 = .ok (.fin b) ∧
      (calculate .utsu warn s' a).2 = .ok (.fin u) ∧ 0 < u ∧ u ≤ b ∧ (a.δ = 0 → u = b) := by
  rw [eventsOf_eq] at *
  have hA : 0 < Spec.wmean (used a) - a.mc := by linarith
  set A := Spec.wmean (used a) - a.mc with hAdef
  have hl : 0 < Real.log 10 := Real.log_pos (by norm_num)
  have hA2 : 0 < A + a.δ / 2 := by linarith
  refine ⟨betaVal A a.δ / Real.log 10, 1 / (A + a.δ / 2) / Real.log 10, ?_, ?_, ?_, ?_, ?_⟩
  · rw [result_eq (Or.inl rfl) warn hs ha, result_of_total ht]
    simp only [← hAdef, betaOf_pos hA]
    rfl
  · rw [result_eq (Or.inr rfl) warn hs' ha, result_of_total ht]
    simp only [← hAdef, Fl.div, hA2.ne', if_false]
    rfl
  · positivity
  · apply div_le_div_of_nonneg_right _ hl.le
    unfold betaVal
    split
    · rename_i hp
      have := Real.le_log_one_add_of_nonneg (x := a.δ / A) (by positivity)
      rw [le_div_iff₀ hp]
      refine le_trans (le_of_eq ?_) this
      field_simp
      ring
    · have : a.δ = 0 := by linarith
      rw [this]; simp
  · intro h0
    unfold betaVal
    rw [h0]; simp

end
end SeismoStats.Props
