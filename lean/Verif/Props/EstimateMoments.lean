/-
Property C122: the mean and the variance of the b-value estimates of simulated magnitudes, for every number of magnitudes.
-/
import Verif.Proofs.WinMoments

namespace SeismoStats.Props
open SeismoStats SeismoStats.Simulate BValue MeasureTheory ProbabilityTheory Filter Topology SeismoStats.Blocks
open scoped BigOperators
open Classical
noncomputable section

variable {Ω : Type} [MeasurableSpace Ω] {P : Measure Ω} {g : Ω → Rng}

/-- `B` is the estimate of the class `c` of `n` magnitudes simulated with the b-value `b`, not binned, whatever the estimator was used for before. -/
def EstimateOf (P : Measure Ω) (g : Ω → Rng) (c : Cls) (b mc : ℝ) (n : ℕ) (B : Ω → ℝ) : Prop :=
  ∀ᵐ ω ∂P, ∃ mags, simulateBinned n (fun _ => b) mc 0 none .bValue (g ω) = .ok mags ∧
    ∀ warn s, Reachable c s → (calculate c warn s { mags := mags.map some, mc := mc, δ := 0 }).2 = .ok (.fin (B ω)) ∧
      (calculate c warn s { mags := mags.map some, mc := mc, δ := 0 }).1.bValue = .ok (.fin (B ω))

theorem estimate_win [IsProbabilityMeasure P] (hg : Spec.RandomDraws P g) {c : Cls} (hc : c = .classic ∨ c = .utsu) {b : ℝ} (hb : 0 < b) (mc : ℝ) {n : ℕ} (hn : 2 ≤ n) :
    EstimateOf P g c b mc n fun ω => win (winB b : (Fin n → ℝ) → ℝ) (fun i => (g ω).expo i) 0 := by
  filter_upwards [all_pos hg] with ω hpos
  have hβ : 0 < b * Real.log 10 := mul_pos hb log_ten_pos
  have hn0 : 0 < n := by omega
  refine ⟨_, simulate_continuous (g ω) n hb, ?_⟩
  intro warn s hs
  set ms := firstMags (fun i => mc + (g ω).expo i / (b * Real.log 10)) n with hms
  have hl : ms.length = n := by rw [hms]; simp [firstMags]
  have hall : ∀ m ∈ ms, mc < m := by
    intro m hm
    rw [hms] at hm
    obtain ⟨i, -, rfl⟩ := List.mem_map.1 hm
    have := div_pos (hpos i) hβ
    linarith
  have hsum : ms.sum = ∑ r ∈ Finset.range n, simMag g b mc ω (0 + 0 * n + r) := by
    rw [hms, firstMags_sum]
    simp [simMag]
  have hval : 1 / (ms.sum / ms.length - mc) / Real.log 10 = win (winB b : (Fin n → ℝ) → ℝ) (fun i => (g ω).expo i) 0 := by
    have h := windowB_eq (g := g) (mc := mc) hb ω hn0 0 0
    unfold windowB at h
    rw [hl, hsum, h]
    unfold win winB
    rw [Finset.sum_range]
    simp
  have hmean : mc < ms.sum / ms.length := by
    have hw : 0 < win (winB b : (Fin n → ℝ) → ℝ) (fun i => (g ω).expo i) 0 := by
      have := draws_sum_pos (g := g) hpos hn0 0
      unfold win winB
      positivity
    rw [← hval] at hw
    have h1 := (div_pos_iff_of_pos_right log_ten_pos).1 hw
    have := one_div_pos.1 h1
    linarith
  obtain ⟨s', sd, h1, h2, -⟩ := outcome_mean hc warn hs ms mc none (by omega) (fun m hm => (hall m hm).le) hmean
  rw [hval] at h1 h2
  unfold callOf at h1
  rw [h1]
  exact ⟨rfl, h2⟩

theorem estimate_ae [IsProbabilityMeasure P] (hg : Spec.RandomDraws P g) {c : Cls} (hc : c = .classic ∨ c = .utsu) {b : ℝ} (hb : 0 < b) {mc : ℝ} {n : ℕ} (hn : 2 ≤ n) {B : Ω → ℝ}
    (hB : EstimateOf P g c b mc n B) : B =ᵐ[P] fun ω => win (winB b : (Fin n → ℝ) → ℝ) (fun i => (g ω).expo i) 0 := by
  filter_upwards [hB, estimate_win hg hc hb mc hn] with ω h1 h2
  obtain ⟨m, m1, m2⟩ := h1
  obtain ⟨k, k1, k2⟩ := h2
  rw [m1] at k1
  injection k1 with k1
  subst k1
  have h3 := (m2 false State.init Reachable.init).1
  rw [(k2 false State.init Reachable.init).1] at h3
  injection h3 with h3
  injection h3 with h3
  exact h3.symm

/-- C122: the estimates are numbers: almost surely `n ≥ 2` simulated magnitudes have an estimate. -/
theorem C122_exists [IsProbabilityMeasure P] (hg : Spec.RandomDraws P g) {c : Cls} (hc : c = .classic ∨ c = .utsu) {b : ℝ} (hb : 0 < b) (mc : ℝ) {n : ℕ} (hn : 2 ≤ n) :
    ∃ B, EstimateOf P g c b mc n B := ⟨_, estimate_win hg hc hb mc hn⟩

/-- C122: on `n ≥ 2` magnitudes simulated with the b-value `b` (not binned), the classic and the Utsu estimates have the expectation `b n / (n - 1)`: on average they are too large,
by the factor `n / (n - 1)`. -/
theorem C122_mean [IsProbabilityMeasure P] (hg : Spec.RandomDraws P g) {c : Cls} (hc : c = .classic ∨ c = .utsu) {b : ℝ} (hb : 0 < b) {mc : ℝ} {n : ℕ} (hn : 2 ≤ n) {B : Ω → ℝ}
    (hB : EstimateOf P g c b mc n B) : Integrable B P ∧ ∫ ω, B ω ∂P = b * n / (n - 1) := by
  have h := estimate_ae hg hc hb hn hB
  obtain ⟨h1, h2⟩ := winB_mean hg hb hn 0
  exact ⟨h1.congr h.symm, (integral_congr_ae h).trans h2⟩

/-- C122: the bias is positive, whatever the number of magnitudes. -/
theorem C122_biased [IsProbabilityMeasure P] (hg : Spec.RandomDraws P g) {c : Cls} (hc : c = .classic ∨ c = .utsu) {b : ℝ} (hb : 0 < b) {mc : ℝ} {n : ℕ} (hn : 2 ≤ n) {B : Ω → ℝ}
    (hB : EstimateOf P g c b mc n B) : b < ∫ ω, B ω ∂P := by
  rw [(C122_mean hg hc hb hn hB).2]
  have hn2 : (2 : ℝ) ≤ n := by exact_mod_cast hn
  rw [lt_div_iff₀ (by linarith)]
  nlinarith

/-- C122: with `n ≥ 3` magnitudes the variance of the estimates is the squared expectation over `n - 2`. -/
theorem C122_variance [IsProbabilityMeasure P] (hg : Spec.RandomDraws P g) {c : Cls} (hc : c = .classic ∨ c = .utsu) {b : ℝ} (hb : 0 < b) {mc : ℝ} {n : ℕ} (hn : 3 ≤ n) {B : Ω → ℝ}
    (hB : EstimateOf P g c b mc n B) : MemLp B 2 P ∧ Var[B; P] = (b * n / (n - 1)) ^ 2 / (n - 2) := by
  have h := estimate_ae hg hc hb (by omega) hB
  exact ⟨(invSum_memLp hg hn b).ae_eq h.symm, (variance_congr h).trans (winB_var hg hb hn)⟩

/-- C122: with two magnitudes the estimates have no finite variance. -/
theorem C122_two [IsProbabilityMeasure P] (hg : Spec.RandomDraws P g) {c : Cls} (hc : c = .classic ∨ c = .utsu) {b : ℝ} (hb : 0 < b) {mc : ℝ} {B : Ω → ℝ}
    (hB : EstimateOf P g c b mc 2 B) : ¬ MemLp B 2 P :=
  fun h => winB_two hg hb (h.ae_eq (estimate_ae hg hc hb le_rfl hB))

/-- A case: with 50 magnitudes and `b = 1` the expectation is `50 / 49` and the variance `(50 / 49)² / 48`. -/
example : ∃ (Ω : Type) (_ : MeasurableSpace Ω) (P : Measure Ω) (g : Ω → Rng) (B : Ω → ℝ), Spec.RandomDraws P g ∧ EstimateOf P g .classic 1 2 50 B ∧ ∫ ω, B ω ∂P = 50 / 49 ∧ Var[B; P] = (50 / 49) ^ 2 / 48 := by
  obtain ⟨Ω, mΩ, P, hP, g, hg⟩ := randomDraws_exist
  obtain ⟨B, hB⟩ := C122_exists hg (c := .classic) (Or.inl rfl) one_pos 2 (n := 50) (by norm_num)
  refine ⟨Ω, mΩ, P, g, B, hg, hB, ?_, ?_⟩
  · rw [(C122_mean hg (Or.inl rfl) one_pos (by norm_num) hB).2]; norm_num
  · rw [(C122_variance hg (Or.inl rfl) one_pos (by norm_num) hB).2]; norm_num

end
end SeismoStats.Props
