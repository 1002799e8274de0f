/-
Property C81: comparisons with the completeness magnitude in double precision.
-/
import Verif.Props.DoubleBinning
import Verif.Model.BValue

namespace SeismoStats.Props
open SeismoStats SeismoStats.Spec.Double
open SeismoStats.Double (rnd rnd_err rnd_pos rnd_rnd)
open Classical
noncomputable section

theorem rnd_zero' : rnd 0 = 0 := Double.rnd_zero

theorem threshold_err {C D : ℝ} (hD : 0 < D) (hC : |C| ≤ 10 ^ 14 * D) : |Double.threshold (rnd C) (rnd D) - (C - D / 2)| ≤ D / 20 := by
  unfold Double.threshold Double.sub Double.div
  have h1 := rnd_lt_err hC
  have h2 := rnd_lt_err (le_of_eq (abs_of_pos hD))
  rw [Double.rnd_half, rnd_rnd]
  have t : ∀ p q : ℝ, |p| ≤ |p - q| + |q| := fun p q => by
    have := abs_add_le (p - q) q
    rwa [sub_add_cancel] at this
  have h3 : |rnd C - rnd D / 2| ≤ (10 ^ 14 + 1) * D := by
    have a := t (rnd C) C
    have b := t (rnd D) D
    have c := abs_sub_le (rnd C) 0 (rnd D / 2)
    rw [sub_zero, zero_sub, abs_neg, abs_div, abs_of_pos (by norm_num : (0 : ℝ) < 2)] at c
    rw [abs_of_pos hD] at b
    norm_num at *
    linarith
  have h4 := rnd_lt_err h3
  have e : rnd (rnd C - rnd D / 2) - (C - D / 2) = (rnd (rnd C - rnd D / 2) - (rnd C - rnd D / 2)) + ((rnd C - C) + (D - rnd D) / 2) := by ring
  rw [e]
  have f1 := abs_add_le (rnd (rnd C - rnd D / 2) - (rnd C - rnd D / 2)) ((rnd C - C) + (D - rnd D) / 2)
  have f2 := abs_add_le (rnd C - C) ((D - rnd D) / 2)
  rw [abs_div, abs_of_pos (by norm_num : (0 : ℝ) < 2), abs_sub_comm D] at f2
  norm_num at *
  linarith

/-- C81: magnitudes and completeness magnitude on a common grid `offset + k * D` (offset and bin size any decimal or other numbers, up to `10^14` bins from
zero), all replaced by their doubles: the comparison `magnitude >= mc - delta_m / 2` is exactly that of the positions on the grid. -/
theorem C81_threshold (O D : ℝ) (hD : 0 < D) (k c : ℤ) (hk : |O + k * D| ≤ 10 ^ 14 * D) (hc : |O + c * D| ≤ 10 ^ 14 * D) :
    Double.threshold (rnd (O + c * D)) (rnd D) ≤ rnd (O + k * D) ↔ c ≤ k := by
  have h1 := abs_le.1 (threshold_err hD hc)
  have h2 := abs_le.1 (rnd_lt_err hk)
  constructor
  · intro h
    by_contra hlt
    push Not at hlt
    have : (k : ℝ) + 1 ≤ c := by exact_mod_cast hlt
    have h3 : (k : ℝ) * D + D ≤ c * D := by nlinarith
    norm_num at *
    linarith [h1.1, h2.2]
  · intro h
    have : (c : ℝ) ≤ k := by exact_mod_cast h
    have h3 : (c : ℝ) * D ≤ k * D := mul_le_mul_of_nonneg_right this hD.le
    norm_num at *
    linarith [h1.2, h2.1]

/-- C81: magnitudes and `mc` that carry rounding noise (each within a tenth of a bin of its grid value, as `1.1 + 0.2` for 1.3): still exactly the events
at or above `mc`. -/
theorem C81_threshold_noise (O D : ℝ) (hD : 0 < D) (m mc : ℝ) (k c : ℤ) (hm : |m - (O + k * D)| ≤ D / 10) (hmc : |mc - (O + c * D)| ≤ D / 10)
    (hc : |O + c * D| ≤ 10 ^ 13 * D) : Double.threshold mc (rnd D) ≤ m ↔ c ≤ k := by
  have h2 := rnd_lt_err (le_of_eq (abs_of_pos hD))
  have h4 : |Double.threshold mc (rnd D) - (O + c * D - D / 2)| ≤ D / 10 + D / 10 := by
    unfold Double.threshold Double.sub Double.div
    rw [Double.rnd_half, rnd_rnd]
    have h1 : |mc - rnd D / 2 - (O + c * D - D / 2)| ≤ D / 10 + D * (6 / 10 ^ 17) := by
      have e : mc - rnd D / 2 - (O + c * D - D / 2) = (mc - (O + c * D)) - (rnd D - D) / 2 := by ring
      rw [e]
      have := abs_sub (mc - (O + c * D)) ((rnd D - D) / 2)
      rw [abs_div, abs_of_pos (by norm_num : (0 : ℝ) < 2)] at this
      linarith
    have h3 : |mc - rnd D / 2| ≤ (10 ^ 13 + 1) * D := by
      have a := abs_add_le (mc - rnd D / 2 - (O + c * D - D / 2)) (O + c * D - D / 2)
      rw [sub_add_cancel] at a
      have b := abs_sub (O + c * D) (D / 2)
      rw [abs_of_pos (by linarith : 0 < D / 2)] at b
      norm_num at *
      linarith
    have h5 := rnd_lt_err h3
    have h6 := abs_sub_le (rnd (mc - rnd D / 2)) (mc - rnd D / 2) (O + c * D - D / 2)
    norm_num at *
    linarith
  have h1 := abs_le.1 h4
  have h3 := abs_le.1 hm
  constructor
  · intro h
    by_contra hlt
    push Not at hlt
    have : (k : ℝ) + 1 ≤ c := by exact_mod_cast hlt
    have h5 : (k : ℝ) * D + D ≤ c * D := by nlinarith
    linarith [h1.1, h3.2]
  · intro h
    have : (c : ℝ) ≤ k := by exact_mod_cast h
    have h5 : (c : ℝ) * D ≤ k * D := mul_le_mul_of_nonneg_right this hD.le
    linarith [h1.2, h3.1]

/-- C81: so the estimators use exactly the events at or above `mc`, whatever the representation errors of the magnitudes, of `mc` and of the bin size. -/
theorem C81_selection (O D : ℝ) (hD : 0 < D) (ks : List (Option ℤ)) (c : ℤ) (hk : ∀ k, some k ∈ ks → |O + k * D| ≤ 10 ^ 14 * D)
    (hc : |O + c * D| ≤ 10 ^ 14 * D) :
    Double.selIdx (ks.map (Option.map fun k : ℤ => rnd (O + k * D))) (rnd (O + c * D)) (rnd D) =
      (List.range ks.length).filter fun i => match ks.getD i none with
        | some k => decide (c ≤ k)
        | none => false := by
  unfold Double.selIdx
  rw [List.length_map]
  apply List.filter_congr
  intro i hi
  rw [List.mem_range] at hi
  have e : (ks.map (Option.map fun k : ℤ => rnd (O + k * D))).getD i none = (ks.getD i none).map fun k : ℤ => rnd (O + k * D) := by
    rw [List.getD_eq_getElem _ _ (by simpa using hi), List.getD_eq_getElem _ _ hi, List.getElem_map]
  rw [e]
  have hm : ks.getD i none ∈ ks := by rw [List.getD_eq_getElem _ _ hi]; exact List.getElem_mem hi
  cases h : ks.getD i none with
  | none => rfl
  | some k =>
    rw [h] at hm
    simp only [Option.map_some]
    exact decide_eq_decide.2 (C81_threshold O D hD k c (hk k hm) hc)

/-- C81: and these are the positions that the model in exact arithmetic (C11) selects for the numbers on the grid. -/
theorem C81_exact_model (O D : ℝ) (hD : 0 < D) (ks : List (Option ℤ)) (c : ℤ) (hk : ∀ k, some k ∈ ks → |O + k * D| ≤ 10 ^ 14 * D)
    (hc : |O + c * D| ≤ 10 ^ 14 * D) :
    Double.selIdx (ks.map (Option.map fun k : ℤ => rnd (O + k * D))) (rnd (O + c * D)) (rnd D) =
      BValue.selIdx (ks.map (Option.map fun k : ℤ => O + k * D)) (O + c * D) D := by
  rw [C81_selection O D hD ks c hk hc]
  unfold BValue.selIdx
  rw [List.length_map]
  apply List.filter_congr
  intro i hi
  rw [List.mem_range] at hi
  have e : (ks.map (Option.map fun k : ℤ => O + k * D)).getD i none = (ks.getD i none).map fun k : ℤ => O + k * D := by
    rw [List.getD_eq_getElem _ _ (by simpa using hi), List.getD_eq_getElem _ _ hi, List.getElem_map]
  rw [e]
  cases h : ks.getD i none with
  | none => rfl
  | some k =>
    simp only [Option.map_some]
    apply decide_eq_decide.2
    constructor
    · intro h
      have : (c : ℝ) ≤ k := by exact_mod_cast h
      nlinarith [mul_le_mul_of_nonneg_right this hD.le]
    · intro h
      by_contra hlt
      push Not at hlt
      have : (k : ℝ) + 1 ≤ c := by exact_mod_cast hlt
      nlinarith [mul_le_mul_of_nonneg_right this hD.le]

/-- C81: with `delta_m = 0` the comparison is that of the doubles: a magnitude that is not smaller than `mc` is used, and one that is smaller only if both have the same double. -/
theorem C81_continuous (M C : ℝ) : (C ≤ M → Double.threshold (rnd C) 0 ≤ rnd M) ∧ (M < C → Double.threshold (rnd C) 0 ≤ rnd M → rnd M = rnd C) := by
  have e : Double.threshold (rnd C) 0 = rnd C := by
    unfold Double.threshold Double.sub Double.div
    rw [zero_div, rnd_zero', sub_zero, rnd_rnd]
  rw [e]
  exact ⟨fun h => Double.rnd_mono h, fun h1 h2 => le_antisymm (Double.rnd_mono h1.le) h2⟩

theorem diff_err {O D : ℝ} (hD : 0 < D) {k l : ℤ} (hk : |O + k * D| ≤ 10 ^ 13 * D) (hl : |O + l * D| ≤ 10 ^ 13 * D) :
    |Double.sub (rnd (O + l * D)) (rnd (O + k * D)) - (l - k) * D| ≤ D / 20 := by
  unfold Double.sub
  have h1 := rnd_lt_err hk
  have h2 := rnd_lt_err hl
  have t : ∀ p q : ℝ, |p| ≤ |p - q| + |q| := fun p q => by
    have := abs_add_le (p - q) q
    rwa [sub_add_cancel] at this
  have h3 : |rnd (O + l * D) - rnd (O + k * D)| ≤ 3 * 10 ^ 13 * D := by
    have a := t (rnd (O + l * D)) (O + l * D)
    have b := t (rnd (O + k * D)) (O + k * D)
    have c := abs_sub_le (rnd (O + l * D)) 0 (rnd (O + k * D))
    rw [sub_zero, zero_sub, abs_neg] at c
    norm_num at *
    linarith
  have h4 := rnd_lt_err h3
  set u := rnd (O + l * D)
  set v := rnd (O + k * D)
  have e : rnd (u - v) - (l - k) * D = (rnd (u - v) - (u - v)) + ((u - (O + l * D)) - (v - (O + k * D))) := by ring
  rw [e]
  have f1 := abs_add_le (rnd (u - v) - (u - v)) ((u - (O + l * D)) - (v - (O + k * D)))
  have f2 := abs_sub_le (u - (O + l * D)) 0 (v - (O + k * D))
  rw [sub_zero, zero_sub, abs_neg] at f2
  norm_num at *
  linarith

/-- C81: the same for the difference of two magnitudes and the cut-off `dmc` of the positive methods. -/
theorem C81_difference (O D : ℝ) (hD : 0 < D) (k l c : ℤ) (hk : |O + k * D| ≤ 10 ^ 13 * D) (hl : |O + l * D| ≤ 10 ^ 13 * D) (hc : |(c : ℝ)| ≤ 10 ^ 13) :
    Double.threshold (rnd (c * D)) (rnd D) ≤ Double.sub (rnd (O + l * D)) (rnd (O + k * D)) ↔ c ≤ l - k := by
  have hc' : |(c : ℝ) * D| ≤ 10 ^ 14 * D := by
    rw [abs_mul, abs_of_pos hD]
    apply mul_le_mul_of_nonneg_right _ hD.le
    linarith
  have h1 := abs_le.1 (threshold_err hD hc')
  have h2 := abs_le.1 (diff_err hD hk hl)
  constructor
  · intro h
    by_contra hlt
    push Not at hlt
    have : ((l - k : ℤ) : ℝ) + 1 ≤ c := by exact_mod_cast hlt
    push_cast at this
    have h3 : ((l : ℝ) - k) * D + D ≤ c * D := by nlinarith
    linarith [h1.1, h2.2]
  · intro h
    have : (c : ℝ) ≤ ((l - k : ℤ) : ℝ) := by exact_mod_cast h
    push_cast at this
    have h3 : (c : ℝ) * D ≤ (l - k) * D := mul_le_mul_of_nonneg_right this hD.le
    linarith [h1.2, h2.1]

/-- The differences of consecutive numbers that are at least `c`. -/
def gridDiffs (c : ℤ) : List ℤ → List ℤ
  | k :: l :: r => (if c ≤ l - k then [l - k] else []) ++ gridDiffs c (l :: r)
  | _ => []

/-- C81: the differences used by the b-positive method (their magnitudes) are the doubles of exactly the differences on the grid that are at least `dmc`. -/
theorem C81_positive_differences (O : ℝ) (j p : ℕ) (hj : 1 ≤ j) (ks : List ℤ) (c : ℤ) (hc : |(c : ℝ)| ≤ 10 ^ 13)
    (hO : ∀ k ∈ ks, |O + k * ((j : ℝ) / 10 ^ p)| ≤ 10 ^ 13 * ((j : ℝ) / 10 ^ p)) (hk : ∀ k ∈ ks, |(k : ℝ)| * j ≤ 10 ^ 13) :
    Double.positiveDiffs (rnd ((j : ℝ) / 10 ^ p)) p (rnd (c * ((j : ℝ) / 10 ^ p))) (ks.map fun k : ℤ => rnd (O + k * ((j : ℝ) / 10 ^ p))) =
      (gridDiffs c ks).map fun d : ℤ => rnd (d * ((j : ℝ) / 10 ^ p)) := by
  set D : ℝ := (j : ℝ) / 10 ^ p with hDd
  have hj' : (1 : ℝ) ≤ j := by exact_mod_cast hj
  have hD : 0 < D := by positivity
  induction ks with
  | nil => rfl
  | cons k r ih =>
    cases r with
    | nil => rfl
    | cons l r =>
      have ih' := ih (fun x hx => hk x (List.mem_cons_of_mem _ hx)) (fun x hx => hO x (List.mem_cons_of_mem _ hx))
      have hk1 := hO k (by simp)
      have hl1 := hO l (by simp)
      have hd := C81_difference O D hD k l c hk1 hl1 hc
      simp only [List.map_cons] at ih' ⊢
      unfold Double.positiveDiffs gridDiffs
      rw [ih', List.map_append]
      congr 1
      by_cases h : c ≤ l - k
      · rw [if_pos (hd.2 h), if_pos h]
        simp only [List.map_cons, List.map_nil]
        congr 1
        have hn := diff_err hD hk1 hl1
        apply binTo_near _ (l - k) j p hj
        · have a := hk k (by simp)
          have b := hk l (by simp)
          have t : |((l - k : ℤ) : ℝ)| ≤ |(l : ℝ)| + |(k : ℝ)| := by push_cast; exact abs_sub _ _
          calc |((l - k : ℤ) : ℝ)| * j ≤ (|(l : ℝ)| + |(k : ℝ)|) * j := mul_le_mul_of_nonneg_right t (by linarith)
            _ = |(l : ℝ)| * j + |(k : ℝ)| * j := by ring
            _ ≤ 10 ^ 14 := by linarith
        · rw [← hDd]
          push_cast
          linarith
      · rw [if_neg (fun hh => h (hd.1 hh)), if_neg h]
        rfl

/-- C81: `find_next_larger` gives the same positions as in exact arithmetic. -/
theorem C81_next_larger (O D : ℝ) (hD : 0 < D) (ks : List ℤ) (c : ℤ) (hc : |(c : ℝ)| ≤ 10 ^ 13) (hk : ∀ k ∈ ks, |O + k * D| ≤ 10 ^ 13 * D) :
    Double.findNextLarger (ks.map fun k : ℤ => rnd (O + k * D)) (rnd D) (rnd (c * D)) = BValue.findNextLarger (ks.map fun k : ℤ => O + k * D) D (some (c * D)) := by
  have hstep : ∀ k ∈ ks, ∀ fuel jj, Double.nextFrom (ks.map fun k : ℤ => rnd (O + k * D)) (Double.threshold (rnd (c * D)) (rnd D)) (rnd (O + k * D)) fuel jj =
      BValue.nextFrom (ks.map fun k : ℤ => O + k * D) (c * D - D / 2) (O + k * D) fuel jj := by
    intro k hkk fuel
    induction fuel with
    | zero => intro jj; rfl
    | succ n ih =>
      intro jj
      unfold Double.nextFrom BValue.nextFrom
      simp only [List.getElem?_map]
      cases h : ks[jj]? with
      | none => rfl
      | some l =>
        simp only [Option.map_some]
        have hl := List.mem_of_getElem? h
        have hd := C81_difference O D hD k l c (hk k hkk) (hk l hl) hc
        have he : c * D - D / 2 ≤ O + l * D - (O + k * D) ↔ c ≤ l - k := by
          constructor
          · intro h
            by_contra hlt
            push Not at hlt
            have : ((l - k : ℤ) : ℝ) + 1 ≤ c := by exact_mod_cast hlt
            push_cast at this
            nlinarith
          · intro h
            have : (c : ℝ) ≤ ((l - k : ℤ) : ℝ) := by exact_mod_cast h
            push_cast at this
            nlinarith [mul_le_mul_of_nonneg_right this hD.le]
        by_cases hcl : c ≤ l - k
        · rw [if_pos (hd.2 hcl), if_pos (he.2 hcl)]
        · rw [if_neg (fun hh => hcl (hd.1 hh)), if_neg (fun hh => hcl (he.1 hh))]
          exact ih _
  unfold Double.findNextLarger BValue.findNextLarger
  simp only [List.length_map, Option.getD_some]
  apply List.map_congr_left
  intro i hi
  rw [List.mem_range] at hi
  by_cases h : i + 1 < ks.length
  · rw [if_pos h, if_pos h]
    have e1 : (ks.map fun k : ℤ => rnd (O + k * D)).getD i 0 = rnd (O + ks[i] * D) := by
      rw [List.getD_eq_getElem _ _ (by simpa using hi), List.getElem_map]
    have e2 : (ks.map fun k : ℤ => O + k * D).getD i 0 = O + ks[i] * D := by
      rw [List.getD_eq_getElem _ _ (by simpa using hi), List.getElem_map]
    rw [e1, e2]
    exact hstep _ (List.getElem_mem hi) _ _
  · rw [if_neg h, if_neg h]

/-- C81 (limit of the property): a completeness magnitude halfway between two grid values. In exact arithmetic the lower one, `mc - delta_m / 2`, is used;
in double precision it depends on the digits: 0.5 is used with `mc = 0.55`, but 2.3 is not with `mc = 2.35` (bin size 0.1). -/
theorem C81_defect_half_bin :
    Double.selIdx [some (rnd (5 / 10))] (rnd (55 / 100)) (rnd (1 / 10)) = [0] ∧
      Double.selIdx [some (rnd (23 / 10))] (rnd (235 / 100)) (rnd (1 / 10)) = [] ∧
      BValue.selIdx [some (5 / 10)] (55 / 100) (1 / 10) = [0] ∧ BValue.selIdx [some (23 / 10)] (235 / 100) (1 / 10) = [0] := by
  have e1 : rnd (1 / 10) = 7205759403792794 * (2 : ℝ) ^ (-56 : ℤ) := by
    have := Double.rnd_eq_of (x := 1 / 10) 7205759403792794 (-56) (by norm_num) (by norm_num) (by norm_num [abs_lt])
    exact_mod_cast this
  have e5 : rnd (5 / 10) = 1 / 2 := by
    have := Double.rnd_exact (x := 5 / 10) 1 (-1) (by norm_num) (by norm_num)
    rw [this]; norm_num
  have e55 : rnd (55 / 100) = 4953959590107546 * (2 : ℝ) ^ (-53 : ℤ) := by
    have := Double.rnd_eq_of (x := 55 / 100) 4953959590107546 (-53) (by norm_num) (by norm_num) (by norm_num [abs_lt])
    exact_mod_cast this
  have e235 : rnd (235 / 100) = 5291729562160333 * (2 : ℝ) ^ (-51 : ℤ) := by
    have := Double.rnd_eq_of (x := 235 / 100) 5291729562160333 (-51) (by norm_num) (by norm_num) (by norm_num [abs_lt])
    exact_mod_cast this
  have e23 : rnd (23 / 10) = 5179139571476070 * (2 : ℝ) ^ (-51 : ℤ) := by
    have := Double.rnd_eq_of (x := 23 / 10) 5179139571476070 (-51) (by norm_num) (by norm_num) (by norm_num [abs_lt])
    exact_mod_cast this
  have t1 : Double.threshold (rnd (55 / 100)) (rnd (1 / 10)) ≤ rnd (5 / 10) := by
    unfold Double.threshold Double.sub Double.div
    rw [Double.rnd_half, rnd_rnd, e55, e1, e5]
    have := Double.rnd_eq_of (x := 4953959590107546 * (2 : ℝ) ^ (-53 : ℤ) - 7205759403792794 * (2 : ℝ) ^ (-56 : ℤ) / 2) 4503599627370496 (-53) (by norm_num)
      (by norm_num) (by norm_num [abs_lt])
    rw [this]
    norm_num
  have t2 : ¬ Double.threshold (rnd (235 / 100)) (rnd (1 / 10)) ≤ rnd (23 / 10) := by
    unfold Double.threshold Double.sub Double.div
    rw [Double.rnd_half, rnd_rnd, e235, e1, e23]
    have := Double.rnd_eq_of (x := 5291729562160333 * (2 : ℝ) ^ (-51 : ℤ) - 7205759403792794 * (2 : ℝ) ^ (-56 : ℤ) / 2) 5179139571476071 (-51) (by norm_num)
      (by norm_num) (by norm_num [abs_lt])
    rw [this]
    norm_num
  refine ⟨?_, ?_, ?_, ?_⟩
  · rw [one_div] at t1; simp [Double.selIdx, List.range_succ, t1]
  · rw [one_div, not_le] at t2; simp [Double.selIdx, List.range_succ, t2]
  · simp [BValue.selIdx, List.range_succ]; norm_num
  · simp [BValue.selIdx, List.range_succ]; norm_num

/-- Magnitudes 0.9 (below), 1.0, NaN, 5.3 with `mc = 1.0`, bin size 0.1. -/
example : Double.selIdx [some (rnd (0 + (9 : ℤ) * (1 / 10))), some (rnd (0 + (10 : ℤ) * (1 / 10))), none, some (rnd (0 + (53 : ℤ) * (1 / 10)))]
    (rnd (0 + (10 : ℤ) * (1 / 10))) (rnd (1 / 10)) = [1, 3] := by
  have h := C81_selection 0 (1 / 10) (by norm_num) [some 9, some 10, none, some 53] 10
    (by intro k hk; simp at hk; rcases hk with rfl | rfl | rfl <;> norm_num) (by norm_num)
  simp only [List.map_cons, List.map_nil, Option.map_some, Option.map_none] at h
  rw [h]
  decide

/-- Magnitudes 1.0, 1.3, 1.2, 1.4 with `dmc = 0.2`: the used differences are 0.3 and 0.2. -/
example : Double.positiveDiffs (rnd (((1 : ℕ) : ℝ) / 10 ^ 1)) 1 (rnd ((2 : ℤ) * (((1 : ℕ) : ℝ) / 10 ^ 1)))
      ([10, 13, 12, 14].map fun k : ℤ => rnd (0 + k * (((1 : ℕ) : ℝ) / 10 ^ 1))) =
    [3, 2].map fun d : ℤ => rnd (d * (((1 : ℕ) : ℝ) / 10 ^ 1)) := by
  have h := C81_positive_differences 0 1 1 (le_refl 1) [10, 13, 12, 14] 2 (by norm_num)
    (by intro k hk; simp at hk; rcases hk with rfl | rfl | rfl | rfl <;> norm_num)
    (by intro k hk; simp at hk; rcases hk with rfl | rfl | rfl | rfl <;> norm_num)
  rw [h]
  rfl

end
end SeismoStats.Props
