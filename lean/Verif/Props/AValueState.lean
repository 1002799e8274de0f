/-
Property C70, second part: what an a-value estimator object shows after a successful call.
-/
import Verif.Props.AValue

namespace SeismoStats.Props
open SeismoStats SeismoStats.AValue
open SeismoStats.BValue (checkBinning)
open Classical
noncomputable section

/-- The object with another stored value. -/
def setA (s : AValue.State) (a : Option (Fl ℝ)) : AValue.State := { s with a := a }

theorem estimate_setA (c : AValue.Cls) (warn : Bool) (s : AValue.State) (a : Option (Fl ℝ)) :
    estimate c warn (setA s a) = (setA (estimate c warn s).1 a, (estimate c warn s).2) := by
  cases c with
  | classic => rfl
  | positive =>
    unfold estimate estimatePositive AValue.sortByTime setA
    dsimp only
    split <;> rfl
  | morePositive =>
    unfold estimate estimateMorePositive AValue.sortByTime setA
    dsimp only
    split <;> rfl

theorem filter_setA (c : AValue.Cls) (warn : Bool) (s : AValue.State) (a : Option (Fl ℝ)) :
    AValue.filterMagnitudes c warn (setA s a) = (setA (AValue.filterMagnitudes c warn s).1 a, (AValue.filterMagnitudes c warn s).2) := by
  unfold AValue.filterMagnitudes setA
  dsimp only
  cases c with
  | classic => rfl
  | positive => dsimp only; split <;> rfl
  | morePositive => dsimp only; split <;> rfl

theorem base_ok (c : AValue.Cls) (warn : Bool) (s : AValue.State) (a : Option (Fl ℝ)) (x : Args) {r : Fl ℝ} {s' : AValue.State}
    (h : AValue.baseCalculate c warn s x = (s', .ok r)) : s'.a = some r ∧ AValue.baseCalculate c warn (setA s a) x = (s', .ok r) := by
  unfold AValue.baseCalculate at h ⊢
  dsimp only at h ⊢
  cases hb : checkBinning x.mags x.δ with
  | error e => rw [hb] at h; cases h
  | ok _ =>
    rw [hb] at h
    dsimp only at h ⊢
    generalize hS : ({ s with mags := some x.mags, mc := some x.mc, δ := some x.δ, scaling := x.scaling, mref := x.mref, b := x.b, warned := s.warned ++ sanityWarn warn x.mags x.mc x.δ } : AValue.State) = S at h
    have hS' : ({ setA s a with mags := some x.mags, mc := some x.mc, δ := some x.δ, scaling := x.scaling, mref := x.mref, b := x.b, warned := (setA s a).warned ++ sanityWarn warn x.mags x.mc x.δ } : AValue.State) = setA S a := by
      rw [← hS]; rfl
    rw [hS', filter_setA]
    cases hf : AValue.filterMagnitudes c warn S with
    | mk t q =>
      rw [hf] at h
      cases q with
      | error e => cases h
      | ok _ =>
        dsimp only at h ⊢
        have hm : (setA t a).mags = t.mags := rfl
        rw [hm]
        by_cases h0 : (t.mags.getD []).length = 0
        · rw [if_pos h0] at h ⊢
          cases h
          exact ⟨rfl, rfl⟩
        · rw [if_neg h0] at h ⊢
          rw [estimate_setA]
          unfold finish at h ⊢
          dsimp only at h ⊢
          have hr : ∀ v, referenceScaling { setA (estimate c warn t).1 a with a := some v } v = referenceScaling { (estimate c warn t).1 with a := some v } v := fun v => rfl
          rw [hr]
          cases hrs : referenceScaling { (estimate c warn t).1 with a := some (estimate c warn t).2 } (estimate c warn t).2 with
          | error e => rw [hrs] at h; cases h
          | ok v =>
            rw [hrs] at h
            dsimp only at h ⊢
            cases h
            exact ⟨rfl, rfl⟩

/-- The states an a-value estimator object can reach: any sequence of calls (failed ones included) and assignments. -/
inductive AReachable (c : AValue.Cls) : AValue.State → Prop
  | init : AReachable c AValue.State.init
  | call {s : AValue.State} (warn : Bool) (x : Args) : AReachable c s → AReachable c (AValue.calculate c warn s x).1
  | assign {s : AValue.State} (x : AValue.Assign) : x.allowed c → AReachable c s → AReachable c (x.apply s)

theorem classic_untimed {s : AValue.State} (h : AReachable .classic s) : s.times = none ∧ s.dmc = none := by
  induction h with
  | init => exact ⟨rfl, rfl⟩
  | call warn x _ ih =>
    unfold AValue.calculate AValue.baseCalculate
    dsimp only
    split
    · exact ih
    · unfold AValue.filterMagnitudes
      dsimp only
      split
      · exact ih
      · unfold finish estimate
        dsimp only
        split <;> exact ih
  | assign x hx _ ih =>
    cases x <;> first
      | exact ih
      | exact absurd rfl hx

/-- C70: after a successful call `a_value` is the returned value (scaled and moved to the reference magnitude), and the whole object
(value, number of events, magnitudes, times, indices, parameters) is the same as that of a new estimator after the same call. -/
theorem C70_readings {c : AValue.Cls} (warn : Bool) {s : AValue.State} (hs : AReachable c s) (x : Args) {r : Fl ℝ}
    (h : (AValue.calculate c warn s x).2 = .ok r) :
    (AValue.calculate c warn s x).1.aValue = .ok r ∧ AValue.calculate c warn s x = AValue.calculate c warn AValue.State.init x := by
  cases hk : AValue.calculate c warn s x with
  | mk s' v =>
    rw [hk] at h
    dsimp only at h
    subst h
    dsimp only
    have key : ∀ S : AValue.State, AValue.baseCalculate c warn S x = (s', .ok r) → ∀ a, s'.aValue = .ok r ∧ (s', .ok r) = AValue.baseCalculate c warn (setA S a) x := by
      intro S hS a
      obtain ⟨h1, h2⟩ := base_ok c warn S a x hS
      exact ⟨by unfold AValue.State.aValue; rw [h1], h2.symm⟩
    have hstart : ∀ S : AValue.State, AValue.baseCalculate c warn S x = (s', .ok r) → AValue.baseCalculate c warn { times := S.times, dmc := S.dmc, a := S.a, warned := S.warned } x = (s', .ok r) := by
      intro S hS
      unfold AValue.baseCalculate at hS ⊢
      dsimp only at hS ⊢
      cases hb : checkBinning x.mags x.δ with
      | error e => rw [hb] at hS; cases hS
      | ok _ => rw [hb] at hS; exact hS
    cases c with
    | classic =>
      obtain ⟨t1, t2⟩ := classic_untimed hs
      unfold AValue.calculate at hk ⊢
      dsimp only at hk ⊢
      replace hk := hstart _ hk
      dsimp only at hk
      rw [t1, t2] at hk
      exact key _ hk none
    | positive =>
      unfold AValue.calculate timedCalculate at hk ⊢
      dsimp only at hk ⊢
      split at hk
      · cases hk
      · rename_i hd
        rw [if_neg hd]
        replace hk := hstart _ hk
        exact key _ hk none
    | morePositive =>
      unfold AValue.calculate timedCalculate at hk ⊢
      dsimp only at hk ⊢
      split at hk
      · cases hk
      · rename_i hb
        rw [if_neg hb]
        split at hk
        · cases hk
        · rename_i hd
          rw [if_neg hd]
          replace hk := hstart _ hk
          exact key _ hk none

/-- C70: `estimate_a` is the value of `calculate` of a new estimator. -/
theorem C70_estimate_a (c : AValue.Cls) (warn : Bool) (x : Args) : estimateA c warn x = (AValue.calculate c warn AValue.State.init x).2 := by
  unfold estimateA
  dsimp only
  cases h : (AValue.calculate c warn AValue.State.init x).2 with
  | error e => rfl
  | ok r => exact (C70_readings warn .init x h).1

/-- The hypotheses are met: an object that was used with another argument. -/
example : ∃ r, (AValue.calculate .classic false (AValue.calculate .classic false AValue.State.init { mags := [], mc := 0, δ := 1 }).1 demoA).2 = .ok r ∧
    AReachable .classic (AValue.calculate .classic false AValue.State.init { mags := [], mc := 0, δ := 1 }).1 := by
  have h2 : 0 < countAbove demoA.mags (demoA.mc - demoA.δ / 2) := by norm_num [demoA, countAbove]
  obtain ⟨a, s', h, -⟩ := C28_count false (AValue.calculate .classic false AValue.State.init { mags := [], mc := 0, δ := 1 }).1 demoA demoA_binned h2
  exact ⟨.fin a, congrArg Prod.snd h, .call _ _ .init⟩

end
end SeismoStats.Props
