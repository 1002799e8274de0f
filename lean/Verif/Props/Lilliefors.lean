/-
Property C76 (`ks_test_gr_lilliefors` and the method `p_lilliefors` of the b-value estimators).
-/
import Verif.Model.Lilliefors
import Verif.Props.Dither
import Verif.Props.BMorePositiveStd

namespace SeismoStats.Props
open SeismoStats SeismoStats.BValue SeismoStats.Lilliefors
open SeismoStats.Simulate (Rng dither ditherBin simulateBinned toBeta binIf simulate truncated untruncated)
open Classical
noncomputable section

/-! ### specification -/

/-- What the test compares the magnitudes with: the completeness magnitude, or `dmc` for the estimators that use differences. -/
def testThreshold : Cls → Args → ℝ
  | .classic, a => a.mc
  | .utsu, a => a.mc
  | _, a => a.dmc.getD a.δ

/-- `x` are continuous versions of the binned values `m` measured from `T`: sorted by size, each lies in the bin of its value; the edge of the
bin of `T` becomes zero. -/
def Continuous (m : List ℝ) (T δ : ℝ) (x : List ℝ) : Prop :=
  ∃ sorted, sorted.Perm m ∧ sorted.Pairwise (· ≤ ·) ∧ List.Forall₂ (fun v y => v - T ≤ y ∧ y < v - T + δ) sorted x

/-- The test does not depend on the scale of the sample (it compares with an exponential distribution of the same mean). -/
def ScaleFree (lill : List ℝ → Py ℝ) : Prop := ∀ (k : ℝ) (x : List ℝ), 0 < k → lill (x.map fun v => k * v) = lill x

/-- The test does not depend on the order of the sample. -/
def OrderFree (lill : List ℝ → Py ℝ) : Prop := ∀ x y : List ℝ, x.Perm y → lill x = lill y

/-! ### lemmas -/

theorem ksTest_of_le {lill : List ℝ → Py ℝ} {mags : List ℝ} {mc : ℝ} (hne : mags ≠ []) (h : ∀ m ∈ mags, mc ≤ m) :
    ksTest lill mags mc = lill (mags.map fun x => x - mc) := by
  obtain ⟨m, hm⟩ := exists_amin hne
  have := (amin?_eq_some_iff _ _).1 hm
  unfold ksTest
  rw [hm]
  dsimp only
  rw [if_neg (not_lt.2 (h m this.1))]

theorem ksTest_below {lill : List ℝ → Py ℝ} {mags : List ℝ} {mc m : ℝ} (hm : m ∈ mags) (h : m < mc) : ksTest lill mags mc = .error .valueError := by
  obtain ⟨m0, hm0⟩ := exists_amin (List.ne_nil_of_mem hm)
  have := (amin?_eq_some_iff _ _).1 hm0
  unfold ksTest
  rw [hm0]
  dsimp only
  rw [if_pos (lt_of_le_of_lt (this.2 hm) h)]

theorem mle_ne_zero {mags : List ℝ} {mc δ : ℝ} {w : Option (List ℝ)} {b : ℝ} (h : mleEstimator mags mc δ w = .ok (.fin b)) : b ≠ 0 := by
  unfold mleEstimator at h
  simp only [bind, Except.bind, pure, Except.pure] at h
  cases ha : average (mags.map fun m => m - mc) w with
  | error e => rw [ha] at h; cases h
  | ok v =>
    rw [ha] at h
    simp only [Except.ok.injEq] at h
    by_cases hδ : 0 < δ
    · simp only [hδ, if_true] at h
      cases v with
      | fin v =>
        simp only [Fl.div] at h
        by_cases hv : v = 0
        · rw [if_pos hv, if_neg hδ.ne', if_pos hδ] at h
          simp [Fl.mapFin, Fl.log, betaToB] at h
        · rw [if_neg hv] at h
          simp only [Fl.mapFin, Fl.log] at h
          by_cases hp : 0 < 1 + δ / v
          · rw [if_pos hp] at h
            simp only [betaToB, Fl.mapFin, Fl.fin.injEq] at h
            rw [← h]
            have hne : 1 + δ / v ≠ 1 := by
              intro h1
              have : δ / v = 0 := by linarith
              rcases div_eq_zero_iff.1 this with h2 | h2
              · exact hδ.ne' h2
              · exact hv h2
            have hlog : Real.log (1 + δ / v) ≠ 0 := Real.log_ne_zero_of_pos_of_ne_one hp hne
            exact div_ne_zero (mul_ne_zero (one_div_ne_zero hδ.ne') hlog) log_ten_pos.ne'
          · rw [if_neg hp] at h
            by_cases h0 : 1 + δ / v = 0
            · rw [if_pos h0] at h; simp [betaToB, Fl.mapFin] at h
            · rw [if_neg h0] at h; simp [betaToB, Fl.mapFin] at h
      | nan => simp [Fl.mapFin, Fl.log, betaToB] at h
      | pinf => simp [Fl.mapFin, Fl.log, betaToB] at h
      | ninf => simp [Fl.mapFin, Fl.log, betaToB] at h
    · simp only [hδ, if_false] at h
      cases v with
      | fin v =>
        simp only [Fl.div] at h
        by_cases hv : v = 0
        · rw [if_pos hv] at h; simp [betaToB, Fl.mapFin] at h
        · rw [if_neg hv] at h
          simp only [betaToB, Fl.mapFin, Fl.fin.injEq] at h
          rw [← h]
          exact div_ne_zero (one_div_ne_zero hv) log_ten_pos.ne'
      | nan => simp [betaToB, Fl.mapFin] at h
      | pinf => simp [betaToB, Fl.mapFin] at h
      | ninf => simp [betaToB, Fl.mapFin] at h

theorem utsu_ne_zero {mags : List ℝ} {mc δ : ℝ} {w : Option (List ℝ)} {b : ℝ} (h : utsuEstimator mags mc δ w = .ok (.fin b)) : b ≠ 0 := by
  unfold utsuEstimator at h
  simp only [bind, Except.bind, pure, Except.pure] at h
  cases ha : average (mags.map fun m => m - mc + δ / 2) w with
  | error e => rw [ha] at h; cases h
  | ok v =>
    rw [ha] at h
    simp only [Except.ok.injEq] at h
    cases v with
    | fin v =>
      simp only [Fl.div] at h
      by_cases hv : v = 0
      · rw [if_pos hv] at h; simp [betaToB, Fl.mapFin] at h
      · rw [if_neg hv] at h
        simp only [betaToB, Fl.mapFin, Fl.fin.injEq] at h
        rw [← h]
        exact div_ne_zero (one_div_ne_zero hv) log_ten_pos.ne'
    | nan => simp [betaToB, Fl.mapFin] at h
    | pinf => simp [betaToB, Fl.mapFin] at h
    | ninf => simp [betaToB, Fl.mapFin] at h

theorem sortByTime_fields (s : State) : (sortByTime s).δ = s.δ ∧ (sortByTime s).mc = s.mc ∧ (sortByTime s).dmc = s.dmc := by
  unfold sortByTime; cases s.times <;> exact ⟨rfl, rfl, rfl⟩

theorem sortOriginals_fields (s : State) : (sortOriginals s).δ = s.δ ∧ (sortOriginals s).mc = s.mc ∧ (sortOriginals s).dmc = s.dmc := by
  unfold sortOriginals; cases s.times <;> exact ⟨rfl, rfl, rfl⟩

/-- `_estimate` does not change the parameters; a finite estimate is not zero. -/
theorem estimate_fields (c : Cls) (s : State) : (estimate c s).1.δ = s.δ ∧ (estimate c s).1.mc = s.mc ∧ (estimate c s).1.dmc = s.dmc ∧
    ∀ b, (estimate c s).2 = .ok (.fin b) → b ≠ 0 := by
  cases c with
  | classic => exact ⟨rfl, rfl, rfl, fun b hb => mle_ne_zero hb⟩
  | utsu => exact ⟨rfl, rfl, rfl, fun b hb => utsu_ne_zero hb⟩
  | positive =>
    obtain ⟨h1, h2, h3⟩ := sortByTime_fields s
    unfold estimate estimatePositive
    dsimp only
    split
    · exact ⟨h1, h2, h3, fun b hb => by cases hb⟩
    · exact ⟨h1, h2, h3, fun b hb => mle_ne_zero hb⟩
  | morePositive =>
    obtain ⟨h1, h2, h3⟩ := sortByTime_fields (sortOriginals s)
    obtain ⟨k1, k2, k3⟩ := sortOriginals_fields s
    unfold estimate estimateMorePositive
    dsimp only
    split
    · exact ⟨h1.trans k1, h2.trans k2, h3.trans k3, fun b hb => by cases hb⟩
    · exact ⟨h1.trans k1, h2.trans k2, h3.trans k3, fun b hb => mle_ne_zero hb⟩

/-- Parameters and estimate after a successful call. -/
theorem fields_after {c : Cls} {warn : Bool} {s s' : State} {a : Args} {r : Fl ℝ} (hs : Reachable c s) (h : calculate c warn s a = (s', .ok r)) :
    s'.b = some r ∧ s'.δ = some a.δ ∧ mcTemp s' = testThreshold c a ∧ ∀ b, r = .fin b → b ≠ 0 := by
  have hv : Valid a := valid_of_ok (c := c) (warn := warn) (s := s) (r := r) (by rw [h])
  have key : ∀ (u : State) (t : Option (List ℝ)) (d : Option ℝ), u.dmc = d → (d.orElse fun _ => some a.mc).getD 0 = testThreshold c a →
      (used a = [] → ({ usedState u warn a t with b := some .nan }, (.ok .nan : Py (Fl ℝ))) = (s', .ok r)) →
      (used a ≠ [] → store (estimate c (usedState u warn a t)) = (s', .ok r)) →
      s'.b = some r ∧ s'.δ = some a.δ ∧ mcTemp s' = testThreshold c a ∧ ∀ b, r = .fin b → b ≠ 0 := by
    intro u t d hd hT ha hb
    by_cases he : used a = []
    · have h := ha he
      cases h
      refine ⟨rfl, rfl, ?_, fun b hb => by cases hb⟩
      show (u.dmc.orElse fun _ => some a.mc).getD 0 = _
      rw [hd, hT]
    · have h := hb he
      obtain ⟨f1, f2, f3, f4⟩ := estimate_fields c (usedState u warn a t)
      generalize hq : estimate c (usedState u warn a t) = q at h f1 f2 f3 f4
      obtain ⟨q1, q2⟩ := q
      cases q2 with
      | error e => cases h
      | ok v =>
        cases h
        refine ⟨rfl, f1, ?_, fun b hb => f4 b (by rw [hb])⟩
        show (q1.dmc.orElse fun _ => q1.mc).getD 0 = _
        dsimp only at f3 f2
        rw [f3, f2]
        show (u.dmc.orElse fun _ => some a.mc).getD 0 = _
        rw [hd, hT]
  by_cases hc : c = .classic ∨ c = .utsu
  · obtain ⟨ht, hdm⟩ := reachable_times hc hs
    have e : calculate c warn s a = baseCalculate c warn { s with warned := [] } a := by
      rcases hc with rfl | rfl <;> rfl
    rw [e, baseCalculate_valid c warn _ a hv none (by simp only [ht]; rfl)] at h
    refine key { s with warned := [] } none none hdm ?_ (fun he => by rw [if_pos he] at h; exact h) (fun he => by rw [if_neg he] at h; exact h)
    rcases hc with rfl | rfl <;> rfl
  · have hc' : c = .positive ∨ c = .morePositive := by cases c <;> simp_all
    have hd := dmc_nonneg_of_ok hc' h
    obtain ⟨t, ht⟩ := times_of_ok hc' h
    obtain ⟨w, hw⟩ := calculate_positive_valid hc' warn s a hv hd t ht
    rw [hw] at h
    refine key _ _ (some (a.dmc.getD a.δ)) rfl ?_ (fun he => by rw [if_pos he] at h; exact h) (fun he => by rw [if_neg he] at h; exact h)
    rcases hc' with rfl | rfl <;> rfl

theorem pairsOf_ge {c : Cls} (hc : c = .positive ∨ c = .morePositive) (a : Args) : ∀ p ∈ pairsOf c a, cutoff a - a.δ / 2 ≤ magOf a p.2 - magOf a p.1 := by
  intro p hp
  rcases hc with rfl | rfl
  · unfold pairsOf growing at hp
    simpa using (List.mem_filter.1 hp).2
  · obtain ⟨i, j⟩ := p
    unfold pairsOf atRanks at hp
    obtain ⟨⟨i, j⟩, hij, he⟩ := List.mem_map.1 hp
    obtain ⟨-, ⟨x, y, hx, hy, hxy⟩, -⟩ := ((ranksOf_spec ((timeOrder a).map (magOf a)) a.δ (cutoff a)).mem i j).1 hij
    rw [List.getElem?_map, Option.map_eq_some_iff] at hx hy
    obtain ⟨u, hu, rfl⟩ := hx
    obtain ⟨v, hv, rfl⟩ := hy
    rw [← he]
    simpa [List.getD_eq_getElem?_getD, hu, hv] using hxy

/-- The magnitudes (differences) the object keeps are not below the threshold if they lie on one grid with it, or are continuous. -/
theorem kept_ge {c : Cls} {warn : Bool} {s s' : State} {a : Args} {r : Fl ℝ} (hs : Reachable c s) (h : calculate c warn s a = (s', .ok r)) {m : ℝ}
    (hm : m ∈ nums s'.mags) (hg : a.δ = 0 ∨ 0 < a.δ ∧ ∃ k : ℤ, m = testThreshold c a + k * a.δ) : testThreshold c a ≤ m := by
  have low : testThreshold c a - a.δ / 2 ≤ m ∧ c = .classic ∨ testThreshold c a - a.δ / 2 ≤ m ∧ c = .utsu → testThreshold c a ≤ m := by
    intro h0
    have h1 : testThreshold c a - a.δ / 2 ≤ m := by rcases h0 with h0 | h0 <;> exact h0.1
    rcases hg with hg | ⟨hp, k, hk⟩
    · rw [hg] at h1; linarith
    · have : (-1 : ℝ) < k := by
        by_contra hcon
        have : (k : ℝ) * a.δ ≤ -1 * a.δ := mul_le_mul_of_nonneg_right (not_lt.1 hcon) hp.le
        linarith
      have hk0 : 0 ≤ k := by
        have h3 : (-1 : ℤ) < k := by exact_mod_cast this
        omega
      have : 0 ≤ (k : ℝ) * a.δ := mul_nonneg (by exact_mod_cast hk0) hp.le
      linarith
  by_cases hc : c = .classic ∨ c = .utsu
  · obtain ⟨idx, -, hpos, hmags, -⟩ := C11_selection hc hs h
    have h1 : testThreshold c a = a.mc := by rcases hc with rfl | rfl <;> rfl
    have h2 : a.mc - a.δ / 2 ≤ m := by
      rw [hmags] at hm
      unfold nums at hm
      rw [Option.getD_some, List.mem_filterMap] at hm
      obtain ⟨o, ho, hom⟩ := hm
      obtain ⟨i, hi, rfl⟩ := List.mem_map.1 ho
      obtain ⟨m', h3, h4⟩ := (hpos.mem i).1 hi
      rw [List.getD_eq_getElem?_getD, h3] at hom
      simp only [Option.getD_some, id_eq, Option.some.injEq] at hom
      rw [← hom]; exact h4
    apply low
    rw [h1]
    rcases hc with hc | hc
    · exact Or.inl ⟨h2, hc⟩
    · exact Or.inr ⟨h2, hc⟩
  · have hc' : c = .positive ∨ c = .morePositive := by cases c <;> simp_all
    have hT : testThreshold c a = cutoff a := by rcases hc' with rfl | rfl <;> rfl
    have hu := (run_ok hc' h).1.mags
    rw [hu] at hm
    unfold nums at hm
    rw [Option.getD_some, List.mem_filterMap] at hm
    obtain ⟨o, ho, hom⟩ := hm
    obtain ⟨q, hq, rfl⟩ := List.mem_map.1 ho
    simp only [id_eq, Option.some.injEq] at hom
    unfold diffsOf at hq
    obtain ⟨p, hp, rfl⟩ := List.mem_map.1 hq
    have h1 := pairsOf_ge hc' a p hp
    dsimp only at hom
    rw [hT] at hg ⊢
    rw [← hom]
    rcases hg with hg | ⟨hpos, k, hk⟩
    · exact onGrid_ge 0 (Or.inr hg) hg.ge h1
    · have hb : m = roundToInt ((magOf a p.2 - magOf a p.1) / a.δ) * a.δ := by
        rw [← hom]; unfold onGrid; rw [if_pos hpos]; rfl
      refine onGrid_ge (roundToInt ((magOf a p.2 - magOf a p.1) / a.δ) - k) (Or.inl ?_) hpos.le h1
      push_cast
      linarith

theorem forall2_shift {l x : List ℝ} {T δ : ℝ} (h : List.Forall₂ (fun m y => m - δ / 2 ≤ y ∧ y < m + δ / 2) l x) :
    List.Forall₂ (fun v y => v - T ≤ y ∧ y < v - T + δ) l (x.map fun y => y - (T - δ / 2)) := by
  rw [List.forall₂_map_right_iff]
  exact h.imp fun a b hab => ⟨by linarith [hab.1], by linarith [hab.2]⟩

theorem forall2_mem_right {α β : Type} {R : α → β → Prop} {l : List α} {r : List β} (h : List.Forall₂ R l r) {y : β} (hy : y ∈ r) : ∃ x ∈ l, R x y := by
  induction h with
  | nil => cases hy
  | cons h1 _ ih =>
    rcases List.mem_cons.1 hy with rfl | hy
    · exact ⟨_, by simp, h1⟩
    · obtain ⟨x, hx, hR⟩ := ih hy
      exact ⟨x, by simp [hx], hR⟩

theorem sum_bounds {l : List ℝ} {lo hi : ℝ} (h : ∀ p ∈ l, lo ≤ p ∧ p ≤ hi) : lo * l.length ≤ l.sum ∧ l.sum ≤ hi * l.length := by
  induction l with
  | nil => simp
  | cons a l ih =>
    obtain ⟨h1, h2⟩ := ih fun p hp => h p (by simp [hp])
    obtain ⟨h3, h4⟩ := h a (by simp)
    rw [List.sum_cons, List.length_cons]
    push_cast
    constructor <;> linarith

/-! ## C76 -/

/-- C76: the test of continuous magnitudes is the test of statsmodels applied to the magnitudes minus `mc`; an empty array and a magnitude below `mc` are
ValueErrors. -/
theorem C76_test (lill : List ℝ → Py ℝ) (mags : List ℝ) (mc : ℝ) :
    ksTest lill [] mc = .error .valueError ∧ ((∃ m ∈ mags, m < mc) → ksTest lill mags mc = .error .valueError) ∧
    (mags ≠ [] → (∀ m ∈ mags, mc ≤ m) → ksTest lill mags mc = lill (mags.map fun m => m - mc)) :=
  ⟨rfl, fun ⟨_, h1, h2⟩ => ksTest_below h1 h2, fun h1 h2 => ksTest_of_le h1 h2⟩

/-- C76: the p-value does not change if all magnitudes and `mc` are shifted together. -/
theorem C76_shift (lill : List ℝ → Py ℝ) (mags : List ℝ) (mc t : ℝ) : ksTest lill (mags.map fun m => m + t) (mc + t) = ksTest lill mags mc := by
  by_cases hne : mags = []
  · subst hne; rfl
  by_cases h : ∃ m ∈ mags, m < mc
  · obtain ⟨m, h1, h2⟩ := h
    rw [ksTest_below h1 h2, ksTest_below (List.mem_map.2 ⟨m, h1, rfl⟩) (by linarith)]
  · have h' : ∀ m ∈ mags, mc ≤ m := fun m hm => not_lt.1 fun hlt => h ⟨m, hm, hlt⟩
    rw [ksTest_of_le hne h', ksTest_of_le (by simpa using hne) (by
      intro m hm
      obtain ⟨x, hx, rfl⟩ := List.mem_map.1 hm
      linarith [h' x hx]), List.map_map]
    congr 1
    apply List.map_congr_left
    intro x _
    simp only [Function.comp_apply]; ring

/-- C76: it does not depend on the b-value, that is on the scale of the magnitudes above `mc`, nor on the order of the magnitudes. -/
theorem C76_scale_order (lill : List ℝ → Py ℝ) (mags : List ℝ) (mc : ℝ) :
    (ScaleFree lill → ∀ k, 0 < k → ksTest lill (mags.map fun m => mc + k * (m - mc)) mc = ksTest lill mags mc) ∧
    (OrderFree lill → ∀ mags', mags.Perm mags' → ksTest lill mags mc = ksTest lill mags' mc) := by
  constructor
  · intro hl k hk
    by_cases hne : mags = []
    · subst hne; rfl
    by_cases h : ∃ m ∈ mags, m < mc
    · obtain ⟨m, h1, h2⟩ := h
      have : k * (m - mc) < 0 := mul_neg_of_pos_of_neg hk (by linarith)
      rw [ksTest_below h1 h2, ksTest_below (List.mem_map.2 ⟨m, h1, rfl⟩) (by linarith)]
    · have h' : ∀ m ∈ mags, mc ≤ m := fun m hm => not_lt.1 fun hlt => h ⟨m, hm, hlt⟩
      rw [ksTest_of_le hne h', ksTest_of_le (by simpa using hne) (by
        intro m hm
        obtain ⟨x, hx, rfl⟩ := List.mem_map.1 hm
        have : 0 ≤ k * (x - mc) := mul_nonneg hk.le (by linarith [h' x hx])
        linarith), List.map_map, ← hl k (mags.map fun x => x - mc) hk, List.map_map]
      congr 1
      apply List.map_congr_left
      intro x _
      simp only [Function.comp_apply]; ring
  · intro hl mags' hp
    by_cases hne : mags = []
    · subst hne
      rw [List.nil_perm.1 hp]
    have hne' : mags' ≠ [] := fun h => hne (by rw [h] at hp; exact List.perm_nil.1 hp)
    by_cases h : ∃ m ∈ mags, m < mc
    · obtain ⟨m, h1, h2⟩ := h
      rw [ksTest_below h1 h2, ksTest_below (hp.mem_iff.1 h1) h2]
    · have h' : ∀ m ∈ mags, mc ≤ m := fun m hm => not_lt.1 fun hlt => h ⟨m, hm, hlt⟩
      rw [ksTest_of_le hne h', ksTest_of_le hne' fun m hm => h' m (hp.mem_iff.2 hm)]
      exact hl _ _ (hp.map _)

/-- C76: before `calculate` there is no p-value. -/
theorem C76_not_estimated (lill : List ℝ → Py ℝ) (g : ℕ → ℕ → Rng) (n : ℕ) : pLilliefors lill g State.init n = .error .attributeError := rfl

/-- C76: continuous magnitudes (`delta_m = 0`), any history: the p-value is that of the used magnitudes (differences) measured from the threshold; no
magnitude is below it, and nothing is random. Without magnitudes it is a ValueError. -/
theorem C76_continuous (lill : List ℝ → Py ℝ) (g : ℕ → ℕ → Rng) (n : ℕ) {c : Cls} {warn : Bool} {s s' : State} {a : Args} {r : Fl ℝ}
    (hs : Reachable c s) (h : calculate c warn s a = (s', .ok r)) (hδ : a.δ = 0) :
    pLilliefors lill g s' n = if nums s'.mags = [] then .error .valueError
      else (lill ((nums s'.mags).map fun m => m - testThreshold c a)).map Fl.fin := by
  obtain ⟨h1, h2, h3, -⟩ := fields_after hs h
  unfold pLilliefors
  rw [h1, h2, h3]
  dsimp only
  rw [Option.getD_some, hδ, if_neg (lt_irrefl _)]
  by_cases hne : nums s'.mags = []
  · rw [if_pos hne, hne]; rfl
  · rw [if_neg hne, ksTest_of_le hne fun m hm => kept_ge hs h hm (Or.inl hδ)]

/-- One repetition on binned magnitudes. -/
theorem pOnce_ok {lill : List ℝ → Py ℝ} {g : ℕ → Rng} {c : Cls} {warn : Bool} {s s' : State} {a : Args} {b : ℝ} (hs : Reachable c s)
    (h : calculate c warn s a = (s', .ok (.fin b))) (hδ : 1 / 10 ^ 12 ≤ a.δ) (hgrid : ∀ m ∈ nums s'.mags, ∃ k : ℤ, m = testThreshold c a + k * a.δ)
    (htest : binningTest ((nums s'.mags).map some) a.δ (1 / 10 ^ 15) true = .ok true) (h0 : ∀ m ∈ nums s'.mags, m + a.δ / 2 ≠ 0) (hg : ∀ k, Proper (g k)) :
    ∃ x, Continuous (nums s'.mags) (testThreshold c a) a.δ x ∧ (∀ y ∈ x, 0 ≤ y) ∧ pOnce lill s' b g = lill x := by
  obtain ⟨h1, h2, h3, h4⟩ := fields_after hs h
  have hp : 0 < a.δ := lt_of_lt_of_le (by positivity) hδ
  obtain ⟨out, sorted, e1, e2, e3, e4⟩ := C60_dither (nums s'.mags) a.δ b (testThreshold c a) g hg hδ (h4 b rfl) hgrid htest h0
  have hlow : ∀ y ∈ out, testThreshold c a - a.δ / 2 ≤ y := by
    intro y hy
    obtain ⟨v, hv, hR⟩ := forall2_mem_right e4 hy
    have := kept_ge hs h (e2.mem_iff.1 hv) (Or.inr ⟨hp, hgrid v (e2.mem_iff.1 hv)⟩)
    linarith [hR.1]
  have hne : out ≠ [] := by
    rintro rfl
    cases e4
    have h5 : nums s'.mags = [] := List.nil_perm.1 e2
    rw [h5] at htest
    simp [binningTest] at htest
  refine ⟨out.map fun y => y - (testThreshold c a - a.δ / 2), ⟨sorted, e2, e3, forall2_shift e4⟩, ?_, ?_⟩
  · intro y hy
    obtain ⟨z, hz, rfl⟩ := List.mem_map.1 hy
    linarith [hlow z hz]
  · unfold pOnce
    rw [h2, h3, Option.getD_some]
    simp only [bind, Except.bind, e1]
    exact ksTest_of_le hne hlow

/-- C76: binned magnitudes on one grid with the threshold, any history and any draws: the result is the mean of the p-values of `n` continuous versions of
the used magnitudes (differences). -/
theorem C76_binned {lill : List ℝ → Py ℝ} {g : ℕ → ℕ → Rng} {n : ℕ} (hn : 0 < n) (hg : ∀ i k, Proper (g i k)) {c : Cls} {warn : Bool} {s s' : State}
    {a : Args} {b : ℝ} (hs : Reachable c s) (h : calculate c warn s a = (s', .ok (.fin b))) (hδ : 1 / 10 ^ 12 ≤ a.δ)
    (hgrid : ∀ m ∈ nums s'.mags, ∃ k : ℤ, m = testThreshold c a + k * a.δ)
    (htest : binningTest ((nums s'.mags).map some) a.δ (1 / 10 ^ 15) true = .ok true) (h0 : ∀ m ∈ nums s'.mags, m + a.δ / 2 ≠ 0)
    (hl : ∀ x, Continuous (nums s'.mags) (testThreshold c a) a.δ x → ∃ p, lill x = .ok p) :
    ∃ ps : List ℝ, ps.length = n ∧ pLilliefors lill g s' n = .ok (.fin (ps.sum / n)) ∧
      ∀ p ∈ ps, ∃ x, Continuous (nums s'.mags) (testThreshold c a) a.δ x ∧ (∀ y ∈ x, 0 ≤ y) ∧ lill x = .ok p := by
  obtain ⟨h1, h2, h3, h4⟩ := fields_after hs h
  have hp : 0 < a.δ := lt_of_lt_of_le (by positivity) hδ
  obtain ⟨ps, e1, e2⟩ := mapM_rel (R := fun (_ : ℕ) (p : ℝ) => ∃ x, Continuous (nums s'.mags) (testThreshold c a) a.δ x ∧ (∀ y ∈ x, 0 ≤ y) ∧ lill x = .ok p)
    (List.range n) (fun i => pOnce lill s' b (g i)) (by
      intro i _
      obtain ⟨x, k1, k2, k3⟩ := pOnce_ok (lill := lill) (g := g i) hs h hδ hgrid htest h0 (hg i)
      obtain ⟨p, hp⟩ := hl x k1
      exact ⟨p, by rw [k3, hp], x, k1, k2, hp⟩)
  have hlen : ps.length = n := by rw [← e2.length_eq, List.length_range]
  refine ⟨ps, hlen, ?_, fun p hp => ?_⟩
  · unfold pLilliefors
    rw [h1, h2]
    dsimp only
    rw [Option.getD_some, if_pos hp]
    unfold pValues
    simp only [bind, Except.bind, e1, pure, Except.pure, mean, Fl.div, hlen]
    rw [if_neg (by exact_mod_cast hn.ne')]
  · obtain ⟨_, _, hR⟩ := forall2_mem_right e2 hp
    exact hR

/-- C76: if the p-values of statsmodels lie between `lo` and `hi`, so does the result. -/
theorem C76_range {lill : List ℝ → Py ℝ} {g : ℕ → ℕ → Rng} {n : ℕ} (hn : 0 < n) {s : State} {p lo hi : ℝ} (h : pLilliefors lill g s n = .ok (.fin p))
    (hl : ∀ x q, lill x = .ok q → lo ≤ q ∧ q ≤ hi) : lo ≤ p ∧ p ≤ hi := by
  have key : ∀ mags mc q, ksTest lill mags mc = .ok q → lo ≤ q ∧ q ≤ hi := by
    intro mags mc q hq
    unfold ksTest at hq
    split at hq
    · cases hq
    · split at hq
      · cases hq
      · exact hl _ _ hq
  unfold pLilliefors at h
  cases hb : s.b with
  | none => rw [hb] at h; cases h
  | some b =>
    rw [hb] at h
    dsimp only at h
    by_cases hδ : 0 < s.δ.getD 0
    · rw [if_pos hδ] at h
      unfold pValues at h
      cases b with
      | fin b =>
        simp only [bind, Except.bind] at h
        cases hm : (List.range n).mapM fun i => pOnce lill s b (g i) with
        | error e => rw [hm] at h; cases h
        | ok ps =>
          rw [hm] at h
          have hf := (mapM_ok_iff _ _ _).1 hm
          have hlen : ps.length = n := by rw [← hf.length_eq, List.length_range]
          have hall : ∀ q ∈ ps, lo ≤ q ∧ q ≤ hi := by
            intro q hq
            obtain ⟨i, -, hi⟩ := forall2_mem_right hf hq
            unfold pOnce at hi
            simp only [bind, Except.bind] at hi
            split at hi
            · cases hi
            · exact key _ _ _ hi
          obtain ⟨b1, b2⟩ := sum_bounds hall
          simp only [pure, Except.pure, mean, Fl.div, hlen] at h
          have hn' : (0 : ℝ) < n := by exact_mod_cast hn
          rw [if_neg hn'.ne'] at h
          cases h
          rw [hlen] at b1 b2
          exact ⟨(le_div_iff₀ hn').2 b1, (div_le_iff₀ hn').2 b2⟩
      | nan => cases h
      | pinf => cases h
      | ninf => cases h
    · rw [if_neg hδ] at h
      cases hk : ksTest lill (nums s.mags) (mcTemp s) with
      | error e => rw [hk] at h; cases h
      | ok q =>
        rw [hk] at h
        cases h
        exact key _ _ _ hk

/-- C76 (defect): no repetitions: NaN, even if there is nothing to average over because the magnitudes could not be dithered. -/
theorem C76_no_repetition (lill : List ℝ → Py ℝ) (g : ℕ → ℕ → Rng) {c : Cls} {warn : Bool} {s s' : State} {a : Args} {r : Fl ℝ} (hs : Reachable c s)
    (h : calculate c warn s a = (s', .ok r)) (hδ : 0 < a.δ) : pLilliefors lill g s' 0 = .ok .nan := by
  obtain ⟨h1, h2, -, -⟩ := fields_after hs h
  unfold pLilliefors
  rw [h1, h2]
  dsimp only
  rw [Option.getD_some, if_pos hδ]
  unfold pValues
  cases r with
  | fin b =>
    show Except.ok (Fl.div (0 : ℝ) ((0 : ℕ) : ℝ)) = _
    simp [Fl.div]
  | nan => rfl
  | pinf => rfl
  | ninf => rfl

/-- If one repetition fails with a ValueError for all draws, so does the whole. -/
theorem pLilliefors_fails {lill : List ℝ → Py ℝ} {g : ℕ → ℕ → Rng} {n : ℕ} (hn : 0 < n) {c : Cls} {warn : Bool} {s s' : State} {a : Args} {b : ℝ}
    (hs : Reachable c s) (h : calculate c warn s a = (s', .ok (.fin b))) (hδ : 0 < a.δ) (hf : pOnce lill s' b (g 0) = .error .valueError) :
    pLilliefors lill g s' n = .error .valueError := by
  obtain ⟨h1, h2, -, -⟩ := fields_after hs h
  obtain ⟨m, rfl⟩ := Nat.exists_eq_succ_of_ne_zero hn.ne'
  unfold pLilliefors
  rw [h1, h2]
  dsimp only
  rw [Option.getD_some, if_pos hδ]
  unfold pValues
  dsimp only
  rw [List.range_succ_eq_map, List.mapM_cons, hf]
  rfl

/-- C76 (defect): magnitudes that `calculate` accepts but that also lie on a coarser decimal grid - all equal, or all whole numbers with bins of 0.1 - have
no p-value: a ValueError, whatever the draws. -/
theorem C76_coarse {lill : List ℝ → Py ℝ} {g : ℕ → ℕ → Rng} {n : ℕ} (hn : 0 < n) {c : Cls} {warn : Bool} {s s' : State} {a : Args} {b : ℝ}
    (hs : Reachable c s) (h : calculate c warn s a = (s', .ok (.fin b))) (j : ℤ) (hj : a.δ = (10 : ℝ) ^ j) (hδ : 1 / 10 ^ 12 ≤ a.δ) (o : ℝ)
    (hgrid : ∀ m ∈ nums s'.mags, ∃ k : ℤ, m = o + k * (10 * a.δ)) : pLilliefors lill g s' n = .error .valueError := by
  obtain ⟨h1, h2, h3, h4⟩ := fields_after hs h
  have hp : 0 < a.δ := lt_of_lt_of_le (by positivity) hδ
  refine pLilliefors_fails hn hs h hp ?_
  unfold pOnce
  rw [h2, Option.getD_some]
  have hd : dither (nums s'.mags) a.δ b (g 0) = .error .valueError := by
    by_cases hne : nums s'.mags = []
    · rw [hne]; exact (C60_rejected [] _ _ _).2
    apply (C60_rejected _ _ _ _).1
    obtain ⟨m0, hm0⟩ := exists_amin hne
    have hl := (amin?_eq_some_iff _ _).1 hm0
    have hnum : numbers ((nums s'.mags).map some) = nums s'.mags := by unfold numbers; simp [List.filterMap_map]
    rw [binningTest_eq _ a.δ (defaultTol ℝ) true m0 (by rw [hnum]; exact hl) (by rintro ⟨h, _⟩; exact hp.ne' h), hnum,
      binningTestCore_eq _ _ _ _ hδ (not_lt.2 (le_trans (by norm_num [defaultTol]) hδ))]
    congr 1
    have hall : ((nums s'.mags).map fun v => v - m0).all (fun v => decide (|binTo ((10 : ℝ) ^ (Int.log 10 a.δ + 1)) v - v| ≤ defaultTol ℝ + 1 / 10 ^ 16 * |v|)) = true := by
      rw [List.all_eq_true]
      intro v hv
      obtain ⟨x, hx, rfl⟩ := List.mem_map.1 hv
      have hlog : Int.log 10 a.δ = j := by
        rw [hj]
        exact_mod_cast Int.log_zpow (R := ℝ) (b := 10) (by norm_num) j
      have e10 : (10 : ℝ) ^ (Int.log 10 a.δ + 1) = 10 * a.δ := by
        rw [hlog, hj, zpow_add₀ (by norm_num), zpow_one]; ring
      obtain ⟨k, hk⟩ := hgrid x hx
      obtain ⟨k0, hk0⟩ := hgrid m0 hl.1
      have hxm : x - m0 = ((k - k0 : ℤ) : ℝ) * (10 * a.δ) := by rw [hk, hk0]; push_cast; ring
      rw [e10, hxm, binTo_int_mul (by positivity)]
      simp only [sub_self, abs_zero, decide_eq_true_eq]
      have : 0 ≤ defaultTol ℝ := by norm_num [defaultTol]
      positivity
    rw [hall]
    simp
  simp only [bind, Except.bind, hd]

/-- One bin with draws zero: all values at its lower edge. -/
theorem ditherBin_zero (b δ off c : ℝ) (n k : ℕ) (hb : 0 < b) :
    ditherBin b δ off (fun _ => ⟨fun _ => 0, fun _ => 0⟩) ((c, (n : ℝ)), k) = .ok (List.replicate n (c + off - δ / 2)) := by
  have hβ : 0 < b * Real.log 10 := mul_pos hb log_ten_pos
  unfold ditherBin simulateBinned toBeta
  simp only [bind, Except.bind, Int.floor_natCast, Int.toNat_natCast]
  by_cases h0 : c + off + δ / 2 = 0
  · have hs := simulate_untruncated n (fun _ => b * Real.log 10) (c + off - δ / 2 - 0 / 2) (some (c + off + δ / 2)) (Or.inr (by rw [h0]))
      ⟨fun _ => 0, fun _ => 0⟩ (fun _ _ => hβ)
    rw [hs]
    simp only [binIf, lt_irrefl, if_false, Except.ok.injEq]
    rw [List.eq_replicate_iff]
    refine ⟨by simp, ?_⟩
    intro x hx
    obtain ⟨i, -, rfl⟩ := List.mem_map.1 hx
    simp [untruncated]
  · have hs := simulate_truncated n (fun _ => b * Real.log 10) (c + off - δ / 2 - 0 / 2) (c + off + δ / 2) ⟨fun _ => 0, fun _ => 0⟩ (fun _ _ => hβ.ne') h0
    rw [hs]
    simp only [binIf, lt_irrefl, if_false, Except.ok.injEq]
    rw [List.eq_replicate_iff]
    refine ⟨by simp, ?_⟩
    intro x hx
    obtain ⟨i, -, rfl⟩ := List.mem_map.1 hx
    simp only [truncated, zero_mul, add_zero, sub_sub_cancel, Real.log_exp, zero_div, sub_zero]
    field_simp

/-- C76 (defect): if the threshold does not lie on the grid of the magnitudes, magnitudes just below it are used (`C11_selection`), and the test can fail
because a dithered magnitude lies below the threshold: there are draws for which it is a ValueError. -/
theorem C76_off_grid (lill : List ℝ → Py ℝ) {n : ℕ} (hn : 0 < n) {c : Cls} {warn : Bool} {s s' : State} {a : Args} {b : ℝ}
    (hs : Reachable c s) (h : calculate c warn s a = (s', .ok (.fin b))) (hb : 0 < b) (hδ : 1 / 10 ^ 12 ≤ a.δ) {o : ℝ}
    (hgrid : ∀ m ∈ nums s'.mags, ∃ k : ℤ, m = o + k * a.δ)
    (htest : binningTest ((nums s'.mags).map some) a.δ (1 / 10 ^ 15) true = .ok true) (hlow : ∃ m ∈ nums s'.mags, m < testThreshold c a) :
    ∃ g, (∀ i k, Proper (g i k)) ∧ pLilliefors lill g s' n = .error .valueError := by
  obtain ⟨h1, h2, h3, h4⟩ := fields_after hs h
  have hp : 0 < a.δ := lt_of_lt_of_le (by positivity) hδ
  obtain ⟨m, hm, hmT⟩ := hlow
  let z : ℕ → Rng := fun _ => ⟨fun _ => 0, fun _ => 0⟩
  refine ⟨fun _ => z, fun _ _ => ⟨fun _ => ⟨le_rfl, one_pos⟩, fun _ => le_rfl⟩, ?_⟩
  refine pLilliefors_fails hn hs h hp ?_
  obtain ⟨A, N, -, hall, heq⟩ := dither_eq (nums s'.mags) a.δ o hδ (List.ne_nil_of_mem hm) hgrid htest
  set off := o - binTo a.δ o with hoff
  obtain ⟨r, hr, hrel⟩ := mapM_rel (R := fun (p : (ℝ × ℝ) × ℕ) (l : List ℝ) => p.1.1 + off = m → m - a.δ / 2 ∈ l)
    (((grid A N a.δ).map fun c => (c, (((nums s'.mags).count (c + off) : ℕ) : ℝ))).zipIdx) (ditherBin b a.δ off z) (by
      rintro ⟨⟨c1, w⟩, k⟩ hmem
      have e1 := (List.mem_zipIdx hmem).2.2
      have e2 : (c1, w) ∈ (grid A N a.δ).map fun c => (c, (((nums s'.mags).count (c + off) : ℕ) : ℝ)) := by
        rw [e1]; exact List.getElem_mem _
      obtain ⟨c', _, hc'⟩ := List.mem_map.1 e2
      rw [Prod.mk.injEq] at hc'
      obtain ⟨rfl, rfl⟩ := hc'
      refine ⟨_, ditherBin_zero b a.δ off c' _ k hb, ?_⟩
      intro hcm
      dsimp only at hcm
      rw [hcm, List.mem_replicate]
      exact ⟨(List.count_pos_iff.2 hm).ne', rfl⟩)
  have hmem : m - a.δ / 2 ∈ r.flatten := by
    obtain ⟨c', hc1, hc2⟩ := List.mem_map.1 (hall m hm)
    obtain ⟨i, hi, hi2⟩ := List.getElem_of_mem (List.mem_map.2 ⟨c', hc1, rfl⟩ :
      (c', (((nums s'.mags).count (c' + off) : ℕ) : ℝ)) ∈ (grid A N a.δ).map fun c => (c, (((nums s'.mags).count (c + off) : ℕ) : ℝ)))
    rw [List.forall₂_iff_get] at hrel
    have hi' : i < r.length := by rw [← hrel.1, List.length_zipIdx]; exact hi
    have := hrel.2 i (by rw [List.length_zipIdx]; exact hi) hi' (by
      simp only [List.get_eq_getElem, List.getElem_zipIdx]
      rw [hi2]
      exact hc2)
    exact List.mem_flatten.2 ⟨_, List.get_mem _ _, this⟩
  unfold pOnce
  rw [h2, h3, Option.getD_some, heq]
  simp only [bind, Except.bind, hr, pure, Except.pure]
  exact ksTest_below hmem (by linarith)

/-! ### cases -/

theorem lf_test : binningTest (([1, 2] : List ℝ).map some) 1 (1 / 10 ^ 15) true = .ok true := by
  have hnum : numbers (([1, 2] : List ℝ).map some) = [1, 2] := by simp [numbers]
  rw [binningTest_eq _ 1 (1 / 10 ^ 15) true 1 (by
      rw [hnum]
      refine ⟨by simp, ?_⟩
      intro v hv
      simp only [List.mem_cons, List.not_mem_nil, or_false, Set.mem_setOf_eq] at hv
      rcases hv with rfl | rfl <;> norm_num) (by norm_num), hnum,
    binningTestCore_eq _ _ _ _ (by norm_num [eps]) (by norm_num)]
  congr 1
  have h1 : binTo (1 : ℝ) 1 = 1 := by have := binTo_int_mul (K := ℝ) (δ := 1) one_ne_zero 1; simpa using this
  have h10 : binTo ((10 : ℝ) ^ (Int.log 10 (1 : ℝ) + 1)) 1 = 0 := by
    rw [Int.log_one_right]
    have := binTo_eq_of_near (K := ℝ) (δ := 10) (by norm_num) 1 0 (by norm_num [eps]) (by norm_num [eps])
    simpa using this
  have e1 : (2 : ℝ) - 1 = 1 := by norm_num
  simp only [List.map_cons, List.map_nil, sub_self, e1, List.all_cons, List.all_nil, h1, h10, binTo_zero]
  norm_num

/-- The reference data with any completeness magnitude between 1 and 1.5: the events of magnitudes 1 and 2 are used, and the b-value is positive. -/
theorem lf_demo (mc : ℝ) (h1 : 1 ≤ mc) (h2 : mc < 3 / 2) :
    ∃ s' b, calculate .classic true State.init { demo with mc := mc } = (s', .ok (.fin b)) ∧ 0 < b ∧ nums s'.mags = [1, 2] := by
  have ha : Accepted { demo with mc := mc } := ⟨demo_accepted.binned, demo_accepted.weights⟩
  have hu : used { demo with mc := mc } = [(1, 1), (2, 1)] := by
    have e1 : mc ≤ 1 + 2⁻¹ := by linarith
    have e2 : mc ≤ 2 + 2⁻¹ := by linarith
    have e3 : ¬ mc ≤ 2⁻¹ := by linarith
    simp [used, demo, effW, Spec.selected, e1, e2, e3]
  obtain ⟨b, hb, hb0, -⟩ := C13_classic_is_mle true .init { demo with mc := mc } ha (by rw [eventsOf_eq, hu]; norm_num [Spec.total]) (by
    rw [eventsOf_eq, hu]
    show mc < _
    norm_num [Spec.wmean]
    linarith)
  have hc := calculate_classic_valid (Or.inl rfl) true State.init { demo with mc := mc } ((accepted_iff _).1 ha) rfl
  refine ⟨(calculate .classic true State.init { demo with mc := mc }).1, b, ?_, hb0, ?_⟩
  · rw [← hb]
  · rw [hc]
    have hr : resultOf .classic { demo with mc := mc } = .ok (.fin b) := by
      rw [hc, store_snd] at hb; exact hb
    rw [hr]
    show nums (some ((used { demo with mc := mc }).map fun q => some q.1)) = _
    rw [nums_used, hu]
    rfl

/-- C76 applies to the reference data. -/
example (lill : List ℝ → Py ℝ) (hl : ∀ x, ∃ p, lill x = .ok p) (g : ℕ → ℕ → Rng) (hg : ∀ i k, Proper (g i k)) :
    ∃ s' b p, calculate .classic true State.init demo = (s', .ok (.fin b)) ∧ pLilliefors lill g s' 100 = .ok (.fin p) := by
  obtain ⟨s', b, h, hb, hm⟩ := lf_demo 1 le_rfl (by norm_num)
  obtain ⟨ps, -, h2, -⟩ := C76_binned (lill := lill) (n := 100) (by norm_num) hg .init h (by norm_num [demo]) (by
    intro m hmem
    rw [hm] at hmem
    simp only [List.mem_cons, List.not_mem_nil, or_false] at hmem
    rcases hmem with rfl | rfl
    · exact ⟨0, by simp [testThreshold, demo]⟩
    · exact ⟨1, by norm_num [testThreshold, demo]⟩) (by rw [hm]; exact lf_test) (by
    intro m hmem
    rw [hm] at hmem
    simp only [List.mem_cons, List.not_mem_nil, or_false] at hmem
    rcases hmem with rfl | rfl <;> norm_num [demo]) (fun x _ => hl x)
  exact ⟨s', b, _, h, h2⟩

/-- The defect: with `mc = 1.25` instead, the test can fail. -/
example (lill : List ℝ → Py ℝ) :
    ∃ s' b, calculate .classic true State.init { demo with mc := 5 / 4 } = (s', .ok (.fin b)) ∧
      ∃ g, (∀ i k, Proper (g i k)) ∧ pLilliefors lill g s' 100 = .error .valueError := by
  obtain ⟨s', b, h, hb, hm⟩ := lf_demo (5 / 4) (by norm_num) (by norm_num)
  refine ⟨s', b, h, C76_off_grid lill (o := 1) (by norm_num) .init h hb (by norm_num [demo]) ?_ (by rw [hm]; exact lf_test) ?_⟩
  · intro m hmem
    rw [hm] at hmem
    simp only [List.mem_cons, List.not_mem_nil, or_false] at hmem
    rcases hmem with rfl | rfl
    · exact ⟨0, by simp⟩
    · exact ⟨1, by norm_num [demo]⟩
  · rw [hm]
    exact ⟨1, by simp, by norm_num [testThreshold]⟩

/-- The magnitudes 10 and 20 with bins of one: a b-value, but no p-value. -/
example (lill : List ℝ → Py ℝ) (g : ℕ → ℕ → Rng) :
    ∃ s' b, calculate .classic true State.init { mags := [some 10, some 20], mc := 10, δ := 1 } = (s', .ok (.fin b)) ∧
      pLilliefors lill g s' 100 = .error .valueError := by
  let a : Args := { mags := [some 10, some 20], mc := 10, δ := 1 }
  have ha : Accepted a := by
    refine ⟨Or.inr ?_, fun w hw => by cases hw⟩
    have := C08_grid_accepted (K := ℝ) [some 10, some 20] 0 1 (1 / 10 ^ 15) (by norm_num) (by norm_num) ⟨10, by simp⟩
    simpa [a] using this
  have hu : used a = [(10, 1), (20, 1)] := by
    have e1 : (10 : ℝ) ≤ 10 + 2⁻¹ := by norm_num
    have e2 : (10 : ℝ) ≤ 20 + 2⁻¹ := by norm_num
    simp [used, a, effW, Spec.selected, e1, e2]
  obtain ⟨b, hb, hb0, -⟩ := C13_classic_is_mle true .init a ha (by rw [eventsOf_eq, hu]; norm_num [Spec.total]) (by
    rw [eventsOf_eq, hu]
    norm_num [Spec.wmean, a])
  have hc := calculate_classic_valid (Or.inl rfl) true State.init a ((accepted_iff _).1 ha) rfl
  have hm : nums (calculate .classic true State.init a).1.mags = [10, 20] := by
    rw [hc]
    have hr : resultOf .classic a = .ok (.fin b) := by
      rw [hc, store_snd] at hb; exact hb
    rw [hr]
    show nums (some ((used a).map fun q => some q.1)) = _
    rw [nums_used, hu]
    rfl
  have he : calculate .classic true State.init a = ((calculate .classic true State.init a).1, .ok (.fin b)) := by rw [← hb]
  refine ⟨(calculate .classic true State.init a).1, b, he, C76_coarse (by norm_num) .init he 0 (by simp [a]) (by norm_num [a]) 0 ?_⟩
  intro m hmem
  rw [hm] at hmem
  simp only [List.mem_cons, List.not_mem_nil, or_false] at hmem
  rcases hmem with rfl | rfl
  · exact ⟨1, by norm_num [a]⟩
  · exact ⟨2, by norm_num [a]⟩

end
end SeismoStats.Props
