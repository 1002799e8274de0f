/-
Property C36: `estimate_mc_ks`.
-/
import Verif.Props.McKs
import Verif.Props.BValueState

namespace SeismoStats.Props
open SeismoStats SeismoStats.EstimateMc
open SeismoStats.BValue (State Reachable calculate)
set_option linter.unusedSimpArgs false
open Classical
noncomputable section

/-! ## Specification -/

/-- No magnitude of a pandas Series is at or above `mc - delta_m/2`, and warnings are on. -/
def EmptySeries (warn : Bool) (a : KsArgs) (mc : ℝ) : Prop := a.series = true ∧ warn = true ∧ ∀ m ∈ a.mags, m < mc - a.δ / 2

/-- The record of the test of `mc`, the `i`-th in the list: the b-value is the given one or that of a
fresh estimator on the events at or above `mc - delta_m/2`, and the KS test is that of these
events with the `i`-th given distances, if any (or there are no such events, and the p-value is 0). -/
def IsTestOf (warn : Bool) (a : KsArgs) (i : ℕ) (mc : ℝ) (t : Tested) : Prop :=
  t.mc = mc ∧
  (∀ b, a.bValue = some b → t.b = b) ∧
  (a.bValue = none → (calculate a.cls warn State.init
    { mags := (a.mags.filter fun m => decide (mc - a.δ / 2 ≤ m)).map some, mc := mc, δ := a.δ }).2 = .ok t.b) ∧
  ∃ g ds, (ksTest warn (a.mags.filter fun m => decide (mc - a.δ / 2 ≤ m)) mc a.δ t.b g (a.sims i) none = .ok (t.p, t.d, ds) ∨
      EmptySeries warn a mc ∧ t.p = .fin 0 ∧ t.d = .fin 1) ∧
    (a.given = none → g = none) ∧ (∀ l, a.given = some l → g = l[i]? ∧ i < l.length)

/-- The test is passed: the p-value is at least the threshold. -/
def Passed (a : KsArgs) (t : Tested) : Prop := ∃ q, t.p = .fin q ∧ a.pPass ≤ q

/-! ## The loop -/

/-- A turn of the loop with a fresh estimator. -/
def testAt (warn : Bool) (a : KsArgs) (i : ℕ) (mc : ℝ) : Py Tested := (ksOne warn a State.init i mc).2

theorem bAt_fresh (warn : Bool) (a : KsArgs) {s : State} (hs : Reachable a.cls s) (mc : ℝ) :
    Reachable a.cls (bAt warn a s mc).1 ∧ (bAt warn a s mc).2 = (bAt warn a State.init mc).2 := by
  unfold bAt
  cases a.bValue with
  | some b => exact ⟨hs, rfl⟩
  | none => exact ⟨.call warn _ hs, (calc_frame warn warn hs .init _).1⟩

theorem ksOne_fresh (warn : Bool) (a : KsArgs) {s : State} (hs : Reachable a.cls s) (i : ℕ) (mc : ℝ) :
    Reachable a.cls (ksOne warn a s i mc).1 ∧ (ksOne warn a s i mc).2 = testAt warn a i mc := by
  obtain ⟨h1, h2⟩ := bAt_fresh warn a hs mc
  exact ⟨h1, by unfold testAt ksOne; simp only [h2]⟩

/-- The loop with fresh estimators. -/
def freshLoop (test : ℕ → ℝ → Py Tested) (pPass : ℝ) (stop : Bool) : ℕ → List ℝ → Py (List Tested)
  | _, [] => .ok []
  | i, mc :: r =>
    match test i mc with
    | .error e => .error e
    | .ok t =>
      if passes pPass t && stop then .ok [t]
      else match freshLoop test pPass stop (i + 1) r with
        | .error e => .error e
        | .ok l => .ok (t :: l)

theorem ksLoop_fresh (warn : Bool) (a : KsArgs) (stop : Bool) (l : List ℝ) :
    ∀ (s : State), Reachable a.cls s → ∀ i, ksLoop (ksOne warn a) a.pPass stop s i l =
      freshLoop (testAt warn a) a.pPass stop i l := by
  induction l with
  | nil => intro s _ i; rfl
  | cons mc l ih =>
    intro s hs i
    obtain ⟨h1, h2⟩ := ksOne_fresh warn a hs i mc
    unfold ksLoop freshLoop
    cases hk : ksOne warn a s i mc with
    | mk s' r =>
      rw [hk] at h1 h2
      simp only at h1 h2
      subst h2
      cases testAt warn a i mc with
      | error e => rfl
      | ok t =>
        simp only
        rw [ih s' h1 (i + 1)]
        cases freshLoop (testAt warn a) a.pPass stop (i + 1) l <;> rfl

theorem ksTestOf_cases {warn : Bool} {a : KsArgs} {mc : ℝ} {b p d : Fl ℝ} {g : Option (List (Fl ℝ))} {sims : List (List ℝ)} {ds : List (Fl ℝ)}
    (h : ksTestOf a.series warn (above a.mags mc a.δ) mc a.δ b g sims none = .ok (p, d, ds)) :
    ksTest warn (above a.mags mc a.δ) mc a.δ b g sims none = .ok (p, d, ds) ∨ EmptySeries warn a mc ∧ p = .fin 0 ∧ d = .fin 1 := by
  unfold ksTestOf at h
  by_cases hc : a.series = true ∧ warn = true ∧ above a.mags mc a.δ = []
  · rw [if_pos hc] at h
    cases h
    refine Or.inr ⟨⟨hc.1, hc.2.1, fun m hm => ?_⟩, rfl, rfl⟩
    by_contra hn
    have : m ∈ above a.mags mc a.δ := List.mem_filter.2 ⟨hm, by simpa using hn⟩
    rw [hc.2.2] at this
    cases this
  · rw [if_neg hc] at h
    exact Or.inl h

theorem testAt_isTestOf {warn : Bool} {a : KsArgs} {i : ℕ} {mc : ℝ} {t : Tested} (h : testAt warn a i mc = .ok t) :
    IsTestOf warn a i mc t := by
  unfold testAt ksOne at h
  simp only [bind, Except.bind, pure, Except.pure] at h
  cases hb : (bAt warn a State.init mc).2 with
  | error e => rw [hb] at h; cases h
  | ok b =>
    rw [hb] at h; simp only at h
    cases hg : givenAt a i with
    | error e => rw [hg] at h; cases h
    | ok g =>
      rw [hg] at h; simp only at h
      cases ht : ksTestOf a.series warn (above a.mags mc a.δ) mc a.δ b g (a.sims i) none with
      | error e => rw [ht] at h; cases h
      | ok r =>
        obtain ⟨p, d, ds⟩ := r
        rw [ht] at h
        cases h
        refine ⟨rfl, ?_, ?_, g, ds, ksTestOf_cases ht, ?_, ?_⟩
        · intro b' hb'
          unfold bAt at hb
          rw [hb'] at hb
          cases hb; rfl
        · intro hn
          unfold bAt at hb
          rw [hn] at hb
          exact hb
        · intro hn
          unfold givenAt at hg
          rw [hn] at hg
          cases hg; rfl
        · intro l hl
          unfold givenAt at hg
          rw [hl] at hg
          simp only at hg
          cases hi : l[i]? with
          | none => rw [hi] at hg; cases hg
          | some d =>
            rw [hi] at hg
            cases hg
            exact ⟨rfl, (List.getElem?_eq_some_iff.1 hi).1⟩

theorem passes_iff {warn : Bool} {a : KsArgs} {i : ℕ} {mc : ℝ} {t : Tested} (h : IsTestOf warn a i mc t) :
    passes a.pPass t = true ↔ Passed a t := by
  obtain ⟨-, -, -, g, ds, ht, -⟩ := h
  have : ∃ q, t.p = .fin q := by
    rcases ht with ht | ⟨-, ht, -⟩
    · obtain ⟨q, hq, -⟩ := C35_p_value ht
      exact ⟨q, hq⟩
    · exact ⟨0, ht⟩
  obtain ⟨q, hq⟩ := this
  unfold passes Passed
  rw [hq]
  simp [Fl.ge]

theorem freshLoop_spec {test : ℕ → ℝ → Py Tested} {pPass : ℝ} {stop : Bool} :
    ∀ (l : List ℝ) (i : ℕ) (r : List Tested), freshLoop test pPass stop i l = .ok r →
      r.length ≤ l.length ∧
      (∀ (j : ℕ) (t : Tested), r[j]? = some t → ∃ mc, l[j]? = some mc ∧ test (i + j) mc = .ok t) ∧
      (r.length < l.length → stop = true ∧ ∃ t, r.getLast? = some t ∧ passes pPass t = true) ∧
      (stop = true → ∀ (j : ℕ) (t : Tested), j + 1 < r.length → r[j]? = some t → passes pPass t = false) := by
  intro l
  induction l with
  | nil =>
    intro i r h
    cases h
    simp
  | cons mc l ih =>
    intro i r h
    unfold freshLoop at h
    cases ht : test i mc with
    | error e => rw [ht] at h; cases h
    | ok t =>
      rw [ht] at h; simp only at h
      by_cases hp : (passes pPass t && stop) = true
      · rw [if_pos hp] at h
        cases h
        rw [Bool.and_eq_true] at hp
        refine ⟨by simp, ?_, fun _ => ⟨hp.2, t, rfl, hp.1⟩, ?_⟩
        · intro j t' hj
          cases j with
          | zero => simp at hj; subst hj; exact ⟨mc, rfl, ht⟩
          | succ j => simp at hj
        · intro _ j t' hj; simp at hj
      · rw [if_neg hp] at h
        cases hr : freshLoop test pPass stop (i + 1) l with
        | error e => rw [hr] at h; cases h
        | ok r' =>
          rw [hr] at h
          cases h
          obtain ⟨h1, h2, h3, h4⟩ := ih (i + 1) r' hr
          refine ⟨by simpa using h1, ?_, ?_, ?_⟩
          · intro j t' hj
            cases j with
            | zero => simp at hj; subst hj; exact ⟨mc, rfl, ht⟩
            | succ j =>
              rw [List.getElem?_cons_succ] at hj
              obtain ⟨mc', e1, e2⟩ := h2 j t' hj
              exact ⟨mc', by rw [List.getElem?_cons_succ]; exact e1, by rw [show i + (j + 1) = i + 1 + j by omega]; exact e2⟩
          · intro hlt
            obtain ⟨e1, t', e2, e3⟩ := h3 (by simpa using hlt)
            refine ⟨e1, t', ?_, e3⟩
            cases r' with
            | nil => cases e2
            | cons x r' => rw [List.getLast?_cons_cons]; exact e2
          · intro hs j t' hj hjt
            cases j with
            | zero =>
              simp at hjt; subst hjt
              rw [hs, Bool.and_true] at hp
              simpa using hp
            | succ j =>
              rw [List.getElem?_cons_succ] at hjt
              exact h4 hs j t' (by simpa using hj) hjt

theorem freshLoop_stop {test : ℕ → ℝ → Py Tested} {pPass : ℝ} :
    ∀ (l : List ℝ) (i : ℕ) (r : List Tested), freshLoop test pPass false i l = .ok r →
      ∃ r', freshLoop test pPass true i l = .ok r' ∧ r' <+: r ∧ r'.find? (passes pPass) = r.find? (passes pPass) := by
  intro l
  induction l with
  | nil => intro i r h; cases h; exact ⟨[], rfl, List.prefix_refl _, rfl⟩
  | cons mc l ih =>
    intro i r h
    unfold freshLoop at h ⊢
    cases ht : test i mc with
    | error e => rw [ht] at h; cases h
    | ok t =>
      rw [ht] at h
      simp only [Bool.and_false, Bool.false_eq_true, if_false, Bool.and_true] at h ⊢
      cases hr : freshLoop test pPass false (i + 1) l with
      | error e => rw [hr] at h; cases h
      | ok r0 =>
        rw [hr] at h
        cases h
        by_cases hp : passes pPass t = true
        · rw [if_pos hp]
          exact ⟨[t], rfl, ⟨r0, rfl⟩, by simp [hp]⟩
        · rw [if_neg hp]
          obtain ⟨r', e1, ⟨x, rfl⟩, e3⟩ := ih (i + 1) r0 hr
          rw [e1]
          refine ⟨t :: r', rfl, ⟨x, rfl⟩, ?_⟩
          rw [List.find?_cons_of_neg (by simpa using hp), List.find?_cons_of_neg (by simpa using hp), e3]

theorem mcKs_ok {warn stop : Bool} {a : KsArgs} {r : KsResult} (h : mcKs warn stop a = .ok r) :
    ∃ mcs, ksMcs a = .ok mcs ∧ ksChecks warn a mcs = .ok () ∧
      freshLoop (testAt warn a) a.pPass stop 0 mcs = .ok r.tested ∧
      r.best = (r.tested.find? (passes a.pPass)).map Tested.mc ∧
      r.bestB = (r.tested.find? (passes a.pPass)).map Tested.b := by
  unfold mcKs at h
  simp only [bind, Except.bind, pure, Except.pure] at h
  cases h1 : ksMcs a with
  | error e => rw [h1] at h; cases h
  | ok mcs =>
    rw [h1] at h; simp only at h
    cases h2 : ksChecks warn a mcs with
    | error e => rw [h2] at h; cases h
    | ok u =>
      rw [h2] at h; simp only at h
      rw [ksLoop_fresh warn a stop mcs _ .init 0] at h
      cases h3 : freshLoop (testAt warn a) a.pPass stop 0 mcs with
      | error e => rw [h3] at h; cases h
      | ok l =>
        rw [h3] at h
        cases h
        exact ⟨mcs, rfl, h2, h3, rfl, rfl⟩

/-! ## C36 -/

/-- C36: the tested mcs: with a list given, its distinct values in increasing order; by default the
values `binned minimum + k delta_m` with `minimum + k delta_m` below the maximum. -/
theorem C36_candidates {a : KsArgs} {mcs : List ℝ} (h : ksMcs a = .ok mcs) (hδ : a.mcs = none → 0 < a.δ) :
    mcs.Pairwise (· < ·) ∧ (∀ l, a.mcs = some l → ∀ m, m ∈ mcs ↔ m ∈ l) ∧
      (a.mcs = none → ∃ lo hi c, IsLeast {m | m ∈ a.mags} lo ∧ IsGreatest {m | m ∈ a.mags} hi ∧
        Spec.RoundsTo (1 / 10 ^ 12) a.δ lo c ∧
        ∀ m, m ∈ mcs ↔ ∃ k : ℕ, m = c + k * a.δ ∧ lo + k * a.δ < hi) := by
  unfold ksMcs at h
  cases hm : a.mcs with
  | some l =>
    rw [hm] at h
    cases h
    exact ⟨uniqueSorted_sorted _, by rintro l' hl; cases hl; exact mem_uniqueSorted l, by simp⟩
  | none =>
    have hp := hδ hm
    rw [hm] at h
    simp only at h
    cases hlo : amin? a.mags with
    | none => rw [hlo] at h; cases h
    | some lo =>
      cases hhi : amax? a.mags with
      | none => rw [hlo, hhi] at h; cases h
      | some hi =>
        rw [hlo, hhi] at h
        simp only [if_neg hp.ne'] at h
        unfold binArr at h
        split at h
        · cases h
        · rename_i he
          cases h
          have hmap : (arange lo hi a.δ).map (binTo a.δ) = (List.range ⌈(hi - lo) / a.δ⌉.toNat).map
              fun (i : ℕ) => binTo a.δ lo + i * a.δ := by
            unfold arange
            rw [List.map_map]
            apply List.map_congr_left
            intro i _
            have := binTo_add_int_mul hp.ne' lo (i : ℤ)
            push_cast at this
            exact this
          rw [hmap]
          refine ⟨?_, by simp, fun _ => ⟨lo, hi, binTo a.δ lo, (amin?_eq_some_iff _ _).1 hlo,
            (amax?_eq_some_iff _ _).1 hhi, ⟨⟨_, rfl⟩, ?_, ?_⟩, ?_⟩⟩
          · rw [List.pairwise_map]
            refine List.pairwise_lt_range.imp ?_
            intro i j hij
            have : (i : ℝ) < j := by exact_mod_cast hij
            nlinarith
          · have := binTo_le hp lo; unfold eps at this; linarith
          · have := lt_binTo hp lo; unfold eps at this; linarith
          · intro m
            rw [List.mem_map]
            constructor
            · rintro ⟨k, hk, rfl⟩
              rw [List.mem_range, Int.lt_toNat, Int.lt_ceil, lt_div_iff₀ hp] at hk
              push_cast at hk
              exact ⟨k, rfl, by linarith⟩
            · rintro ⟨k, rfl, hk⟩
              refine ⟨k, ?_, rfl⟩
              rw [List.mem_range, Int.lt_toNat, Int.lt_ceil, lt_div_iff₀ hp]
              push_cast; linarith

/-- C36: the record of the tests: entry `i` is the test of the `i`-th candidate with a fresh
estimator; all candidates are tested, except that with `stop_when_passed` the test stops after the
first one that passes. -/
theorem C36_tested {warn stop : Bool} {a : KsArgs} {r : KsResult} (h : mcKs warn stop a = .ok r) :
    ∃ mcs, ksMcs a = .ok mcs ∧ r.tested.length ≤ mcs.length ∧
      (∀ i t, r.tested[i]? = some t → ∃ mc, mcs[i]? = some mc ∧ IsTestOf warn a i mc t) ∧
      (stop = false → r.tested.length = mcs.length) ∧
      (stop = true → (∀ i t, i + 1 < r.tested.length → r.tested[i]? = some t → ¬ Passed a t) ∧
        (r.tested.length < mcs.length → ∃ t, r.tested.getLast? = some t ∧ Passed a t)) := by
  obtain ⟨mcs, h1, -, h3, -⟩ := mcKs_ok h
  obtain ⟨e1, e2, e3, e4⟩ := freshLoop_spec mcs 0 r.tested h3
  have ht : ∀ i t, r.tested[i]? = some t → ∃ mc, mcs[i]? = some mc ∧ IsTestOf warn a i mc t := by
    intro i t hit
    obtain ⟨mc, g1, g2⟩ := e2 i t hit
    rw [Nat.zero_add] at g2
    exact ⟨mc, g1, testAt_isTestOf g2⟩
  refine ⟨mcs, h1, e1, ht, ?_, ?_⟩
  · intro hs
    by_contra hne
    have := (e3 (by omega)).1
    rw [hs] at this; cases this
  · intro hs
    refine ⟨?_, ?_⟩
    · intro i t hi hit hp
      obtain ⟨mc, g1, g2⟩ := ht i t hit
      rw [← passes_iff g2, e4 hs i t hi hit] at hp
      cases hp
    · intro hlt
      obtain ⟨-, t, g1, g2⟩ := e3 hlt
      refine ⟨t, g1, ?_⟩
      rw [List.getLast?_eq_getElem?] at g1
      obtain ⟨mc, k1, k2⟩ := ht _ t g1
      exact (passes_iff k2).1 g2

/-- C36: a returned mc is the smallest candidate whose test is passed, returned with its b-value:
every smaller candidate has been tested and failed. -/
theorem C36_smallest {warn stop : Bool} {a : KsArgs} {r : KsResult} {m : ℝ} {mcs : List ℝ}
    (hδ : a.mcs = none → 0 < a.δ) (h : mcKs warn stop a = .ok r) (hc : ksMcs a = .ok mcs) (hb : r.best = some m) :
    (∃ i t, r.tested[i]? = some t ∧ mcs[i]? = some m ∧ IsTestOf warn a i m t ∧ Passed a t ∧ r.bestB = some t.b) ∧
    ∀ m' ∈ mcs, m' < m → ∃ i t, r.tested[i]? = some t ∧ IsTestOf warn a i m' t ∧ ¬ Passed a t := by
  obtain ⟨mcs', h1, -, h3, h4, h5⟩ := mcKs_ok h
  rw [hc] at h1; cases h1
  obtain ⟨mcs', h1', e1, e2, -⟩ := C36_tested h
  rw [hc] at h1'; cases h1'
  have hsort := (C36_candidates hc hδ).1
  rw [hb] at h4
  cases hf : r.tested.find? (passes a.pPass) with
  | none => rw [hf] at h4; cases h4
  | some t =>
    rw [hf] at h4 h5
    simp only [Option.map_some, Option.some.injEq] at h4 h5
    obtain ⟨hpt, i, hi, hit, hbef⟩ := List.find?_eq_some_iff_getElem.1 hf
    have hi' : r.tested[i]? = some t := by rw [List.getElem?_eq_getElem hi, hit]
    obtain ⟨mc, g1, g2⟩ := e2 i t hi'
    have hmc : mc = m := by rw [h4]; exact g2.1.symm
    subst hmc
    refine ⟨⟨i, t, hi', g1, g2, (passes_iff g2).1 hpt, h5⟩, ?_⟩
    intro m' hm' hlt
    obtain ⟨j, hj, hjm⟩ := List.mem_iff_getElem.1 hm'
    have hji : j < i := by
      by_contra hc'
      have hile : i < mcs.length := (List.getElem?_eq_some_iff.1 g1).1
      have hig : mcs[i] = mc := (List.getElem?_eq_some_iff.1 g1).2
      rcases Nat.lt_or_ge i j with hij | hij
      · have := List.pairwise_iff_getElem.1 hsort i j hile hj hij
        rw [hjm, hig] at this; linarith
      · have : i = j := by omega
        subst this
        rw [hjm] at hig; linarith
    have hjr : j < r.tested.length := by omega
    have hjt : r.tested[j]? = some r.tested[j] := List.getElem?_eq_getElem hjr
    obtain ⟨mc'', k1, k2⟩ := e2 j _ hjt
    have : mc'' = m' := by
      rw [List.getElem?_eq_getElem hj] at k1
      injection k1 with k1
      rw [← k1, hjm]
    subst this
    refine ⟨j, r.tested[j], hjt, k2, ?_⟩
    intro hp
    have := (passes_iff k2).2 hp
    have hn := hbef j hji
    rw [this] at hn; cases hn

/-- C36: None is returned exactly if all candidates have been tested and failed. -/
theorem C36_none {warn stop : Bool} {a : KsArgs} {r : KsResult} {mcs : List ℝ} (h : mcKs warn stop a = .ok r)
    (hc : ksMcs a = .ok mcs) : r.best = none ↔
      ∀ i m, mcs[i]? = some m → ∃ t, r.tested[i]? = some t ∧ IsTestOf warn a i m t ∧ ¬ Passed a t := by
  obtain ⟨mcs', h1, -, h3, h4, h5⟩ := mcKs_ok h
  rw [hc] at h1; cases h1
  obtain ⟨mcs', h1', e1, e2, e3, e4⟩ := C36_tested h
  rw [hc] at h1'; cases h1'
  rw [h4, Option.map_eq_none_iff, List.find?_eq_none]
  constructor
  · intro hno i m him
    have hil : i < mcs.length := (List.getElem?_eq_some_iff.1 him).1
    have hlen : r.tested.length = mcs.length := by
      cases stop with
      | false => exact e3 rfl
      | true =>
        by_contra hne
        obtain ⟨t, k1, k2⟩ := (e4 rfl).2 (by omega)
        rw [List.getLast?_eq_getElem?] at k1
        obtain ⟨mc, g1, g2⟩ := e2 _ t k1
        exact hno t (List.mem_of_getElem? k1) ((passes_iff g2).2 k2)
    have hir : i < r.tested.length := by omega
    have hit : r.tested[i]? = some r.tested[i] := List.getElem?_eq_getElem hir
    obtain ⟨mc, g1, g2⟩ := e2 i _ hit
    rw [him] at g1
    cases g1
    exact ⟨_, hit, g2, fun hp => hno _ (List.getElem_mem hir) ((passes_iff g2).2 hp)⟩
  · intro hall t ht hp
    obtain ⟨i, hi, hit⟩ := List.mem_iff_getElem.1 ht
    have hit' : r.tested[i]? = some t := by rw [List.getElem?_eq_getElem hi, hit]
    obtain ⟨mc, g1, g2⟩ := e2 i t hit'
    obtain ⟨t', k1, k2, k3⟩ := hall i mc g1
    rw [hit'] at k1
    cases k1
    exact k3 ((passes_iff g2).1 hp)

/-- C36: `stop_when_passed` changes how many mcs are tested, not the result. -/
theorem C36_stop {warn : Bool} {a : KsArgs} {r : KsResult} (h : mcKs warn false a = .ok r) :
    ∃ r', mcKs warn true a = .ok r' ∧ r'.best = r.best ∧ r'.bestB = r.bestB ∧ r'.tested <+: r.tested := by
  obtain ⟨mcs, h1, h2, h3, h4, h5⟩ := mcKs_ok h
  obtain ⟨l, e1, e2, e3⟩ := freshLoop_stop mcs 0 r.tested h3
  refine ⟨⟨(l.find? (passes a.pPass)).map Tested.mc, (l.find? (passes a.pPass)).map Tested.b, l⟩, ?_, ?_, ?_, e2⟩
  · unfold mcKs
    simp only [bind, Except.bind, h1, h2, pure, Except.pure]
    rw [ksLoop_fresh warn a true mcs _ .init 0, e1]
  · rw [h4, ← e3]
  · rw [h5, ← e3]

/-- C36: the order (and repetitions) of the given list of mcs make no difference, the given distances
being assigned to the increasing distinct values and not to the positions of the caller's list. -/
theorem C36_list_order (warn stop : Bool) (a : KsArgs) {l l' : List ℝ} (h : ∀ m, m ∈ l ↔ m ∈ l') :
    mcKs warn stop { a with mcs := some l } = mcKs warn stop { a with mcs := some l' } := by
  have hu : uniqueSorted l = uniqueSorted l' := by
    apply sorted_ext (uniqueSorted_sorted _) (uniqueSorted_sorted _)
    intro v; rw [mem_uniqueSorted, mem_uniqueSorted, h]
  unfold mcKs
  have : ksMcs { a with mcs := some l } = ksMcs { a with mcs := some l' } := by
    unfold ksMcs; simp only [hu]
  rw [this]
  rfl

theorem binningTest_total {l : List ℝ} (hne : l ≠ []) {δ : ℝ} (hδ : 1 / 10 ^ 12 ≤ δ) :
    ∃ b, binningTest (l.map some) δ (defaultTol ℝ) false = .ok b := by
  obtain ⟨m, hm⟩ := exists_amin hne
  have hm' := (amin?_eq_some_iff _ _).1 hm
  have hn : numbers (l.map some) = l := by unfold numbers; simp [List.filterMap_map]
  obtain ⟨b, hb, -⟩ := C08_verdict (l.map some) δ (defaultTol ℝ) m hδ
    (by unfold defaultTol; refine le_trans ?_ hδ; norm_num) (by rw [hn]; exact hm')
  exact ⟨b, hb⟩

/-- C36: the option 'warnings' makes no difference if each tested sample has two different values. -/
theorem C36_option (stop : Bool) (a : KsArgs) {mcs : List ℝ} (hδ : 1 / 10 ^ 12 ≤ a.δ) (hm : ksMcs a = .ok mcs)
    (hne : mcs ≠ []) (hmags : a.mags ≠ [])
    (hv : ∀ mc ∈ mcs, ∃ u ∈ a.mags, ∃ v ∈ a.mags, u ≠ v ∧ mc - a.δ / 2 ≤ u ∧ mc - a.δ / 2 ≤ v) :
    mcKs true stop a = mcKs false stop a := by
  have htest : ∀ i, ∀ mc ∈ mcs, testAt true a i mc = testAt false a i mc := by
    intro i mc hmc
    unfold testAt ksOne
    have hb : (bAt true a State.init mc).2 = (bAt false a State.init mc).2 := by
      unfold bAt
      cases a.bValue with
      | some b => rfl
      | none => exact (calc_frame true false .init .init _).1
    obtain ⟨u, hu, v, hv', huv, h1, h2⟩ := hv mc hmc
    have hk : ∀ b g, ksTestOf a.series true (above a.mags mc a.δ) mc a.δ b g (a.sims i) none =
        ksTestOf a.series false (above a.mags mc a.δ) mc a.δ b g (a.sims i) none := by
      intro b g
      have hu' : u ∈ above a.mags mc a.δ := List.mem_filter.2 ⟨hu, by simpa using h1⟩
      unfold ksTestOf
      rw [if_neg (by rintro ⟨-, -, h⟩; rw [h] at hu'; cases hu'), if_neg (by rintro ⟨-, h, -⟩; cases h)]
      apply C35_option
      exact ⟨u, List.mem_filter.2 ⟨hu, by simpa using h1⟩, v, List.mem_filter.2 ⟨hv', by simpa using h2⟩, huv⟩
    simp only [hb, hk]
  have hloop : ∀ (l : List ℝ) (i : ℕ), (∀ mc ∈ l, mc ∈ mcs) → freshLoop (testAt true a) a.pPass stop i l =
      freshLoop (testAt false a) a.pPass stop i l := by
    intro l
    induction l with
    | nil => intros; rfl
    | cons mc l ih =>
      intro i hl
      unfold freshLoop
      rw [htest i mc (hl mc (by simp)), ih (i + 1) (fun m hm => hl m (by simp [hm]))]
  have hchk : ksChecks true a mcs = ksChecks false a mcs := by
    obtain ⟨b1, hb1⟩ := binningTest_total hmags hδ
    obtain ⟨b2, hb2⟩ := binningTest_total hne hδ
    unfold ksChecks
    simp only [hb1, hb2, bind, Except.bind, pure, Except.pure, if_true, Bool.false_eq_true, if_false]
  unfold mcKs
  simp only [bind, Except.bind, hm, hchk]
  rw [ksLoop_fresh true a stop mcs _ .init 0, ksLoop_fresh false a stop mcs _ .init 0, hloop mcs 0 (fun _ h => h)]

/-- A finding about C36: for magnitudes that are all equal (the default list of mcs is then empty) the
call raises with warnings on and returns None with warnings off. -/
theorem C36_equal_magnitudes (stop : Bool) (a : KsArgs) {m : ℝ} (hδ : 1 / 10 ^ 12 ≤ a.δ) (hm : a.mcs = none)
    (hne : a.mags ≠ []) (hall : ∀ x ∈ a.mags, x = m) :
    mcKs true stop a = .error .valueError ∧ mcKs false stop a = .ok ⟨none, none, []⟩ := by
  have hp : 0 < a.δ := lt_of_lt_of_le (by positivity) hδ
  obtain ⟨lo, hlo⟩ := exists_amin hne
  obtain ⟨hi, hhi⟩ := exists_amax hne
  have h1 : lo = m := hall _ ((amin?_eq_some_iff _ _).1 hlo).1
  have h2 : hi = m := hall _ ((amax?_eq_some_iff _ _).1 hhi).1
  subst h1; subst h2
  have hmcs : ksMcs a = .ok [] := by
    unfold ksMcs
    rw [hm]
    simp only [hlo, hhi, if_neg hp.ne']
    unfold binArr
    rw [if_neg (not_lt.2 (by unfold eps; exact hδ))]
    simp [arange]
  have hbin : binningTest (a.mags.map some) a.δ (defaultTol ℝ) false = .ok true := by
    have := C08_grid_accepted (a.mags.map fun _ => some 0) hi a.δ (defaultTol ℝ) hδ (by unfold defaultTol; positivity)
      (by obtain ⟨x, l, hx⟩ := List.exists_cons_of_ne_nil hne
          exact ⟨0, by rw [hx]; simp⟩)
    rw [← this]
    congr 1
    rw [List.map_map]
    apply List.map_congr_left
    intro x hx
    simp [hall x hx]
  have hemp : binningTest (([] : List ℝ).map some) a.δ (defaultTol ℝ) false = .error .valueError := by
    unfold binningTest; simp
  constructor
  · unfold mcKs ksChecks
    simp only [bind, Except.bind, hmcs, hbin, hemp, pure, Except.pure, if_true, Bool.not_true, Bool.false_eq_true, if_false, ite_self]
  · unfold mcKs ksChecks
    simp only [bind, Except.bind, hmcs, hbin, pure, Except.pure, if_true, Bool.not_true, Bool.false_eq_true, if_false, ite_self]
    split <;> simp_all [ksLoop]

theorem ksTestOf_array (warn : Bool) (mags : List ℝ) (mc δ : ℝ) (b : Fl ℝ) (g : Option (List (Fl ℝ))) (sims : List (List ℝ)) (w : Option (List ℝ)) :
    ksTestOf false warn mags mc δ b g sims w = ksTest warn mags mc δ b g sims w := by
  unfold ksTestOf
  rw [if_neg (by rintro ⟨h, -⟩; cases h)]

/-- The hypotheses are met: known b-value, distances given, two candidates of which the first passes. -/
def demoKs : KsArgs := { mags := [1, 2, 2], δ := 1, mcs := some [2, 1], bValue := some (.fin 1), given := some [[.fin 1], [.fin 1]], sims := fun _ => [] }

example : ∃ r, mcKs false true demoKs = .ok r ∧ r.best = some 1 := by
  have hmcs : ksMcs demoKs = .ok [1, 2] := by
    unfold ksMcs demoKs
    simp only
    congr 1
    apply sorted_ext (uniqueSorted_sorted _) (by norm_num)
    intro v; rw [mem_uniqueSorted]; simp [or_comm]
  have habove : above [1, 2, 2] 1 1 = [(1 : ℝ), 2, 2] := by
    unfold above; norm_num [List.filter]
  obtain ⟨p, D, N, h1, h2, h3⟩ := C35_distance (warn := false) (mags := [1, 2, 2]) (a := 1) (δ := 1) (b := 1) (l := [.fin 1])
    (sims := []) (w := none) (by norm_num) (by simp) (by simp) (Or.inl rfl)
    (by intro v hv; simp at hv
        rcases hv with rfl | rfl | rfl
        · exact ⟨0, by norm_num⟩
        · exact ⟨1, by norm_num⟩) (by simp [effWeights]) (by norm_num [effWeights])
  obtain ⟨h4, h5⟩ := C35_distance_bounds one_pos (mul_pos one_pos (Real.log_pos (by norm_num)))
    (by intro u hu; simp [effWeights] at hu; rcases hu with rfl | rfl | rfl <;> norm_num) h3
  obtain ⟨q, rfl, -, -, hq⟩ := C35_p_value h1
  have hq1 : q = 1 := by
    rcases hq with ⟨h, -⟩ | ⟨h, -⟩
    · rw [h]; simp [Fl.ge, h5]
    · cases h
  subst hq1
  have ht : testAt false demoKs 0 1 = .ok ⟨1, .fin 1, .fin D, .fin 1⟩ := by
    unfold testAt ksOne bAt givenAt demoKs
    simp only [bind, Except.bind, pure, Except.pure, habove, List.getElem?_cons_zero, ksTestOf_array]
    norm_num at h1
    rw [h1]
  refine ⟨⟨some 1, some (.fin 1), [⟨1, .fin 1, .fin D, .fin 1⟩]⟩, ?_, rfl⟩
  unfold mcKs
  have hchk : ksChecks false demoKs [1, 2] = .ok () := by
    unfold ksChecks demoKs; simp [pure, Except.pure, bind, Except.bind]
  have hpass : passes demoKs.pPass ⟨1, .fin 1, .fin D, .fin 1⟩ = true := by
    unfold passes demoKs; norm_num [Fl.ge]
  simp only [bind, Except.bind, hmcs, hchk, pure, Except.pure]
  rw [ksLoop_fresh false demoKs true _ _ .init 0]
  unfold freshLoop
  rw [ht]
  simp [hpass]

end
end SeismoStats.Props
