/-
C36, C38: too few given distributions; bins below the precision of the binning.
-/
import Verif.Props.McStability

namespace SeismoStats
namespace Props
open EstimateMc

/-- C36: if `ks_ds_list` is empty and there is a candidate, the call fails with an IndexError. -/
theorem C36_given_empty (stop : Bool) (a : KsArgs) {b : Fl ℝ} {mcs : List ℝ} (hb : a.bValue = some b) (hg : a.given = some [])
    (hm : ksMcs a = .ok mcs) (hne : mcs ≠ []) : mcKs false stop a = .error .indexError := by
  cases mcs with
  | nil => exact absurd rfl hne
  | cons mc r =>
    have hc : ksChecks false a (mc :: r) = .ok () := by
      unfold ksChecks
      rw [hb]
      rfl
    have h1 : ksOne false a BValue.State.init 0 mc = (BValue.State.init, .error .indexError) := by
      unfold ksOne bAt givenAt
      rw [hb, hg]
      rfl
    unfold mcKs
    rw [hm]
    change (ksChecks false a (mc :: r)).bind _ = _
    rw [hc]
    change (ksLoop (ksOne false a) a.pPass stop BValue.State.init 0 (mc :: r)).bind _ = _
    unfold ksLoop
    rw [h1]
    rfl

/-- C38: with bins narrower than 1e-12 no magnitude is ever returned. -/
theorem C38_tiny_bins {warn stop : Bool} {c : BValue.Cls} {ω : ℕ → List (List ℕ)} {mags : List ℝ} {δ range : ℝ} {mcs : Option (List ℝ)}
    {r : StabResult} (h : mcStability warn stop c ω mags δ range mcs = .ok r) (hδ : δ < 1 / 10 ^ 12) : r.best = none := by
  unfold mcStability at h
  by_cases h0 : δ = 0
  · rw [if_pos h0] at h
    exact (nomatch h)
  · rw [if_neg h0] at h
    cases h1 : stabMcs mags δ range mcs with
    | error e => rw [h1] at h; exact (nomatch h)
    | ok l =>
      rw [h1] at h
      change (stabChecks warn mags δ l).bind _ = _ at h
      cases h2 : stabChecks warn mags δ l with
      | error e => rw [h2] at h; exact (nomatch h)
      | ok u =>
        rw [h2] at h
        change (stabLoop (stabOne c ω warn mags δ range) stop BValue.State.init {} l).bind _ = _ at h
        cases h3 : stabLoop (stabOne c ω warn mags δ range) stop BValue.State.init {} l with
        | error e => rw [h3] at h; exact (nomatch h)
        | ok s =>
          rw [h3] at h
          change ((if (decide (δ < eps ℝ) && (s.best.map Prod.fst).isSome && (s.best.map Prod.fst) != some 0) = true then _ else _) : Py StabResult) = _ at h
          have he : δ < eps ℝ := by
            unfold eps
            exact hδ
          cases hbm : s.best.map Prod.fst with
          | none =>
            rw [hbm, if_neg (by simp)] at h
            injection h with h
            rw [← h]
            rfl
          | some m =>
            rw [hbm] at h
            by_cases hm0 : m = 0
            · subst hm0
              rw [if_neg (by simp)] at h
              injection h with h
              rw [← h]
              exact if_pos rfl
            · rw [if_pos (by simp [he, hm0])] at h
              exact (nomatch h)

private theorem amax_of_greatest {l : List ℝ} {m : ℝ} (h : IsGreatest {v | v ∈ l} m) : amax? l = some m :=
  (amax?_eq_some_iff _ _).2 h

/-- C35: with given distances, a sample whose largest magnitude is between half a bin and one and a half bins under `mc` leaves a single
bin and fails with a ValueError; below that there is no bin and it is an IndexError. -/
theorem C35_under_mc {mags : List ℝ} {mc δ top : ℝ} (hδ : 1 / 10 ^ 12 ≤ δ) (ht : IsGreatest {v | v ∈ mags} top) (h2 : top ≤ mc - δ / 2)
    (b : Fl ℝ) (ds : List (Fl ℝ)) (sims : List (List ℝ)) :
    ksTest false mags mc δ b (some ds) sims none = .error (if mc - 3 / 2 * δ < top then .valueError else .indexError) := by
  have h0 : 0 < δ := lt_of_lt_of_le (by norm_num) hδ
  have hlen : ∀ n : ℕ, ⌈(top + 3 / 2 * δ - mc) / δ⌉.toNat = n → ksBins mc top δ = .ok ((List.range n).map fun i : ℕ => binTo δ (mc + i * δ)) := by
    intro n hn
    unfold ksBins binArr arange
    rw [if_neg h0.ne', if_neg (by unfold eps; exact not_lt.2 hδ), hn, List.map_map]
    rfl
  have hcore : ∀ xb, ksBins mc top δ = .ok xb → ∀ e, (∀ d, ksDistance mags d xb mc δ (BValue.bToBeta b) = .error e ∨ d.length ≠ mags.length) →
      ksTest false mags mc δ b (some ds) sims none = .error e := by
    intro xb hxb e he
    have h1 : ksDistance mags (onesLike none mags) xb mc δ (BValue.bToBeta b) = .error e :=
      (he _).resolve_right (by unfold onesLike; simp)
    unfold ksTest ksGuard ksTestCore
    rw [if_neg (by simp)]
    dsimp only
    rw [amax_of_greatest ht]
    dsimp only
    rw [hxb]
    change (ksDistance mags (onesLike none mags) xb mc δ (BValue.bToBeta b)).bind _ = _
    rw [h1]
    rfl
  by_cases h3 : mc - 3 / 2 * δ < top
  · rw [if_pos h3]
    have hn : ⌈(top + 3 / 2 * δ - mc) / δ⌉.toNat = 1 := by
      have : ⌈(top + 3 / 2 * δ - mc) / δ⌉ = 1 := by
        rw [Int.ceil_eq_iff]
        constructor
        · rw [Int.cast_one, sub_self]
          exact div_pos (by linarith) h0
        · rw [Int.cast_one, div_le_one h0]
          linarith
      rw [this]; rfl
    refine hcore _ (hlen 1 hn) _ fun w => ?_
    by_cases hw : w.length = mags.length
    · left
      unfold ksDistance
      dsimp only
      rw [if_neg (by simpa using hw), if_neg (by simp)]
      rfl
    · exact .inr hw
  · rw [if_neg h3]
    have hn : ⌈(top + 3 / 2 * δ - mc) / δ⌉.toNat = 0 := by
      rw [Int.toNat_eq_zero, Int.ceil_le, Int.cast_zero]
      exact div_nonpos_of_nonpos_of_nonneg (by linarith) h0.le
    refine hcore _ (hlen 0 hn) _ fun w => ?_
    by_cases hw : w.length = mags.length
    · left
      unfold ksDistance
      dsimp only
      rw [if_neg (by simpa using hw), if_pos (by simp)]
    · exact .inr hw

/-- Magnitudes up to 0.9 with a completeness magnitude of 1.0. -/
example (ds : List (Fl ℝ)) : ksTest false [0.8, 0.9] 1 0.1 (.fin 1) (some ds) [] none = .error .valueError := by
  have ht : IsGreatest {v : ℝ | v ∈ ([0.8, 0.9] : List ℝ)} 0.9 := by
    refine ⟨by simp, fun v hv => ?_⟩
    simp only [List.mem_cons, List.not_mem_nil, or_false, Set.mem_setOf_eq] at hv
    rcases hv with rfl | rfl <;> norm_num
  rw [C35_under_mc (by norm_num) ht (by norm_num), if_pos (by norm_num)]

/-- One candidate and an empty list of distributions. -/
example (sims : ℕ → List (List ℝ)) :
    mcKs false true { mags := [1, 2], δ := 0.1, sims := sims, mcs := some [1], bValue := some (.fin 1), given := some [] } = .error .indexError :=
  C36_given_empty true _ rfl rfl (mcs := uniqueSorted [1]) rfl (by unfold uniqueSorted; simp)

end Props
end SeismoStats
