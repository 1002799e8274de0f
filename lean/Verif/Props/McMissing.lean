/-
C126: missing magnitudes in the searches for the completeness magnitude.
-/
import Verif.Model.McMissing
import Verif.Props.McStability

namespace SeismoStats
namespace Props
open EstimateMc

private theorem aboveM_eq (mags : List (Option ℝ)) (mc δ : ℝ) : aboveM mags mc δ = (above (mags.filterMap id) mc δ).map some := by
  unfold aboveM above
  induction mags with
  | nil => rfl
  | cons m mags ih =>
    cases m with
    | none => rw [List.filter_cons_of_neg (by simp [atLeast]), ih]; rfl
    | some v =>
      rw [List.filterMap_cons_some (f := id) (a := some v) (b := v) rfl]
      by_cases h : mc - δ / 2 ≤ v
      · rw [List.filter_cons_of_pos (by simpa [atLeast] using h), List.filter_cons_of_pos (by simpa using h), ih]; rfl
      · rw [List.filter_cons_of_neg (by simpa [atLeast] using h), List.filter_cons_of_neg (by simpa using h), ih]

private theorem known_map_some (l : List ℝ) : (l.map some).filterMap id = l := by
  rw [List.filterMap_map]
  exact List.filterMap_some

private theorem binningTest_known (mags : List (Option ℝ)) (δ tol : ℝ) (b : Bool) :
    binningTest mags δ tol b = binningTest ((mags.filterMap id).map some) δ tol b := by
  have hs : shiftToMin mags = shiftToMin ((mags.filterMap id).map some) := by
    unfold shiftToMin
    rw [known_map_some]
  unfold binningTest
  rw [hs]
  by_cases h : mags.length = 0
  · rw [if_pos h, if_pos]
    rw [List.length_eq_zero_iff] at h
    subst h
    rfl
  · rw [if_neg h]
    by_cases h2 : ((mags.filterMap id).map some).length = 0
    · rw [if_pos h2]
      rw [List.length_eq_zero_iff] at h2
      rw [h2]
      rfl
    · rw [if_neg h2]

/-- C126: `estimate_mc_ks` with the completeness magnitudes to test given ignores missing magnitudes. -/
theorem C126_ks_given (warn stop : Bool) (mags : List (Option ℝ)) (a : KsArgs) {l : List ℝ} (hl : a.mcs = some l) :
    mcKsM warn stop mags a = mcKs warn stop { a with mags := mags.filterMap id } := by
  have h1 : ksMcsM mags a = ksMcs { a with mags := mags.filterMap id } := by
    unfold ksMcsM ksMcs
    rw [hl]
  have h2 : ksChecksM warn mags a = ksChecks warn { a with mags := mags.filterMap id } := by
    funext mcs
    unfold ksChecksM ksChecks
    rw [binningTest_known]
  have h3 : ksOneM warn mags a = ksOne warn { a with mags := mags.filterMap id } := by
    funext s i mc
    unfold ksOneM ksOne bAtM bAt argsAt
    simp only [aboveM_eq, known_map_some]
    rfl
  unfold mcKsM mcKs
  rw [h1, h2, h3]

/-- C126, defect: with the default completeness magnitudes one missing magnitude makes it fail with a ValueError. -/
theorem C126_defect_ks (warn stop : Bool) {mags : List (Option ℝ)} (h : none ∈ mags) (a : KsArgs) (hm : a.mcs = none) :
    mcKsM warn stop mags a = .error .valueError := by
  have hne : mags ≠ [] := by rintro rfl; exact (nomatch h)
  unfold mcKsM ksMcsM npMin npMax
  rw [hm]
  dsimp only
  rw [if_neg hne, if_pos h, if_neg hne, if_pos h]
  rfl

/-- C126, defect: one missing magnitude makes `estimate_mc_b_stability` fail with a ValueError, whatever completeness magnitudes are to be tested. -/
theorem C126_defect_stability (warn stop : Bool) (c : BValue.Cls) (ω : ℕ → List (List ℕ)) {mags : List (Option ℝ)} (h : none ∈ mags) {δ : ℝ} (hδ : δ ≠ 0) (range : ℝ)
    (mcs : Option (List ℝ)) : mcStabilityM warn stop c ω mags δ range mcs = .error .valueError := by
  have hne : mags ≠ [] := by rintro rfl; exact (nomatch h)
  have hs : stabMcsM mags δ range mcs = .error .valueError := by
    unfold stabMcsM npMin npMax
    cases mcs with
    | none =>
      dsimp only
      rw [if_neg hne, if_pos h, if_neg hne, if_pos h]
      rfl
    | some l =>
      dsimp only
      rw [if_neg hne, if_pos h]
      change stabGiven range l none = _
      unfold stabGiven atMost
      rw [if_pos (by simp)]
  unfold mcStabilityM
  rw [if_neg hδ, hs]
  rfl

private theorem npMin_some {l : List ℝ} (h : l ≠ []) : npMin (l.map some) = .ok (amin? l) := by
  unfold npMin
  rw [if_neg (by simpa using h), if_neg (by simp), known_map_some]

private theorem npMax_some {l : List ℝ} (h : l ≠ []) : npMax (l.map some) = .ok (amax? l) := by
  unfold npMax
  rw [if_neg (by simpa using h), if_neg (by simp), known_map_some]

/-- C126: without missing magnitudes `estimate_mc_b_stability` is that of C38. -/
theorem C126_stability_complete (warn stop : Bool) (c : BValue.Cls) (ω : ℕ → List (List ℕ)) (mags : List ℝ) (δ range : ℝ) (mcs : Option (List ℝ)) :
    mcStabilityM warn stop c ω (mags.map some) δ range mcs = mcStability warn stop c ω mags δ range mcs := by
  by_cases hδ : δ = 0
  · unfold mcStabilityM mcStability
    rw [if_pos hδ, if_pos hδ]
  have hs : stabMcsM (mags.map some) δ range mcs = stabMcs mags δ range mcs := by
    unfold stabMcsM stabMcs
    by_cases h : mags = []
    · subst h
      cases mcs <;> rfl
    · rw [npMin_some h, npMax_some h]
      cases mcs with
      | none =>
        dsimp only
        cases amin? mags with
        | none => rfl
        | some lo =>
          cases amax? mags with
          | none => rfl
          | some hi =>
            change Except.bind (arangeM δ (some lo) (some hi)) _ = Except.bind (binArr (arange lo hi δ) δ) _
            rw [show arangeM δ (some lo) (some hi) = binArr (arange lo hi δ) δ from if_neg hδ]
            cases binArr (arange lo hi δ) δ with
            | error e => rfl
            | ok l =>
              change stabFirst _ l = _
              unfold stabFirst
              by_cases hk : l.length ≤ stabSteps range δ
              · rw [if_pos hk]; exact (if_pos hk).symm
              · rw [if_neg hk]; exact (if_neg hk).symm
      | some l =>
        cases hx : amax? mags with
        | none =>
          cases mags with
          | nil => exact absurd rfl h
          | cons m r => simp [amax?] at hx
        | some hi =>
          change stabGiven range l (some hi) = _
          unfold stabGiven atMost
          rfl
  unfold mcStabilityM mcStability
  rw [hs, known_map_some]

/-- C126: without missing magnitudes `estimate_mc_ks` is that of C36. -/
theorem C126_ks_complete (warn stop : Bool) (a : KsArgs) : mcKsM warn stop (a.mags.map some) a = mcKs warn stop a := by
  cases hm : a.mcs with
  | some l =>
    rw [C126_ks_given warn stop _ a hm, known_map_some]
  | none =>
    have h := C126_ks_given warn stop (a.mags.map some) { a with mcs := some [] } rfl
    have h1 : ksMcsM (a.mags.map some) a = ksMcs a := by
      unfold ksMcsM ksMcs
      rw [hm]
      dsimp only
      by_cases h : a.mags = []
      · rw [h]; rfl
      · rw [npMin_some h, npMax_some h]
        cases amin? a.mags with
        | none => rfl
        | some lo =>
          cases amax? a.mags with
          | none => rfl
          | some hi => rfl
    have h2 : ksChecksM warn (a.mags.map some) a = ksChecks warn a := rfl
    have h3 : ksOneM warn (a.mags.map some) a = ksOne warn a := by
      funext s i mc
      unfold ksOneM ksOne bAtM bAt argsAt
      simp only [aboveM_eq, known_map_some]
      rfl
    unfold mcKsM mcKs
    rw [h1, h2, h3]

/-- Three magnitudes, one of them missing: an array fails with the default completeness magnitudes and not with 1.0 given. -/
example (sims : ℕ → List (List ℝ)) :
    mcKsM true true [some 1, none, some 1.2] { mags := [], δ := 0.1, sims := sims } = .error .valueError ∧
      mcKsM true true [some 1, none, some 1.2] { mags := [], δ := 0.1, sims := sims, mcs := some [1] } =
        mcKs true true { mags := [1, 1.2], δ := 0.1, sims := sims, mcs := some [1] } :=
  ⟨C126_defect_ks true true (by simp) _ rfl, C126_ks_given true true [some 1, none, some 1.2] { mags := [], δ := 0.1, sims := sims, mcs := some [1] } rfl⟩

example (ω : ℕ → List (List ℕ)) : mcStabilityM true true .classic ω [some 1, none, some 2] 0.1 0.5 (some [1]) = .error .valueError :=
  C126_defect_stability true true .classic ω (by simp) (by norm_num) 0.5 (some [1])

end Props
end SeismoStats
