/-
The mean of weighted waiting times to the next larger draw stays bounded (for C107): the waiting times of all draws form a stationary sequence.
-/
import Verif.Proofs.Maximal
import Verif.Props.AValueLaw
import Mathlib.MeasureTheory.Constructions.Polish.Basic

namespace SeismoStats.Props
open SeismoStats SeismoStats.Simulate MeasureTheory ProbabilityTheory Filter Topology
open SeismoStats.Maximal (orbitSum bounded)
open Classical
noncomputable section

variable {Ω : Type} [MeasurableSpace Ω] {P : Measure Ω} {g : Ω → Rng} {w : ℕ → Ω → ℝ} {τ : ℝ}

/-- The sequence without its first member. -/
def shiftSeq (v : ℕ → ℝ) : ℕ → ℝ := fun i => v (i + 1)

theorem shiftSeq_measurable : Measurable shiftSeq := measurable_pi_iff.2 fun i => measurable_pi_apply (i + 1)

theorem later_preserving [IsProbabilityMeasure P] {E : ℕ → Ω → ℝ} (hm : ∀ i, Measurable (E i)) (hi : iIndepFun E P) (hl : ∀ i, P.map (E i) = P.map (E 0)) :
    MeasurePreserving shiftSeq (P.map fun ω i => E i ω) (P.map fun ω i => E i ω) := by
  refine ⟨shiftSeq_measurable, ?_⟩
  have h1 := (iIndepFun_iff_map_fun_eq_infinitePi_map hm).1 hi
  have h2 := (iIndepFun_iff_map_fun_eq_infinitePi_map fun i => hm (i + 1)).1 (hi.precomp (g := fun i : ℕ => i + 1) (add_left_injective 1))
  rw [Measure.map_map shiftSeq_measurable (measurable_pi_iff.2 hm)]
  change P.map (fun ω i => E (i + 1) ω) = _
  rw [h1, h2]
  congr 1
  funext i
  rw [hl (i + 1), hl i]

theorem alive_shiftSeq (a : ℝ → ℝ) (v : ℕ → ℝ) (i j : ℕ) : alive a (shiftSeq v) i j = alive a v (i + 1) (j + 1) := by
  unfold alive shiftSeq
  have : (∀ l, i < l → l < j → v (l + 1) < a (v (i + 1))) ↔ ∀ l, i + 1 < l → l < j + 1 → v l < a (v (i + 1)) := by
    constructor
    · intro h l h1 h2
      obtain ⟨m, rfl⟩ : ∃ m, l = m + 1 := ⟨l - 1, by omega⟩
      exact h m (by omega) (by omega)
    · intro h l h1 h2
      exact h (l + 1) (by omega) (by omega)
  simp only [this]

/-- Weighted waiting time of the first draw. -/
def firstWait (a q : ℝ → ℝ) (x : (ℕ → ℝ) × (ℕ → ℝ)) : ENNReal := ∑' k : ℕ, ENNReal.ofReal (x.2 (k + 1)) * (ENNReal.ofReal (q (x.1 0)) * ENNReal.ofReal (alive a x.1 0 (0 + 1 + k)))

theorem firstWait_measurable {a q : ℝ → ℝ} (ha : Measurable a) (hq : Measurable q) : Measurable (firstWait a q) := by
  refine Measurable.tsum fun k => ?_
  have h1 : Measurable fun x : (ℕ → ℝ) × (ℕ → ℝ) => x.2 (k + 1) := (measurable_pi_apply _).comp measurable_snd
  have h2 : Measurable fun x : (ℕ → ℝ) × (ℕ → ℝ) => q (x.1 0) := hq.comp ((measurable_pi_apply _).comp measurable_fst)
  have h3 : Measurable fun x : (ℕ → ℝ) × (ℕ → ℝ) => alive a x.1 0 (0 + 1 + k) := (alive_measurable ha _ _).comp measurable_fst
  exact h1.ennreal_ofReal.mul (h2.ennreal_ofReal.mul h3.ennreal_ofReal)

def both (x : (ℕ → ℝ) × (ℕ → ℝ)) : (ℕ → ℝ) × (ℕ → ℝ) := (shiftSeq x.1, shiftSeq x.2)

theorem both_iterate (x : (ℕ → ℝ) × (ℕ → ℝ)) (i : ℕ) : (∀ k, (both^[i] x).2 k = x.2 (i + k)) ∧ (∀ k, (both^[i] x).1 k = x.1 (i + k)) ∧
    ∀ a k, alive a (both^[i] x).1 0 k = alive a x.1 i (i + k) := by
  induction i generalizing x with
  | zero => simp
  | succ i ih =>
    rw [Function.iterate_succ_apply]
    obtain ⟨h1, h2, h3⟩ := ih (both x)
    refine ⟨fun k => ?_, fun k => ?_, fun a k => ?_⟩
    · rw [h1]; unfold both shiftSeq; simp only; rw [show i + k + 1 = i + 1 + k by omega]
    · rw [h2]; unfold both shiftSeq; simp only; rw [show i + k + 1 = i + 1 + k by omega]
    · rw [h3]
      change alive a (shiftSeq x.1) i (i + k) = _
      rw [alive_shiftSeq]
      congr 1; omega

/-- Means of the weighted waiting times of the first draws are bounded. -/
theorem waits_bounded [IsProbabilityMeasure P] (h : Spec.RandomTimes P g w τ) {a q : ℝ → ℝ} (ha : Measurable a) (hq : Measurable q) (hq0 : ∀ e, 0 ≤ q e)
    (hfin : ∫⁻ e, ENNReal.ofReal (q e) * (ENNReal.ofReal (growP a e))⁻¹ ∂(expMeasure 1) ≠ ⊤) :
    ∀ᵐ ω ∂P, ∃ B : ℝ, ∀ n : ℕ, ∑ j ∈ Finset.range n, w j ω * ∑ i ∈ Finset.range j, alive a (g ω).expo i j * q ((g ω).expo i) ≤ B * n := by
  have hE : Measurable fun ω => (g ω).expo := measurable_pi_iff.2 h.draws.expo_measurable
  have hW : Measurable fun ω => fun i => w i ω := measurable_pi_iff.2 h.wait_measurable
  have hZ : Measurable fun ω => ((g ω).expo, fun i => w i ω) := hE.prodMk hW
  set μ := P.map (fun ω => ((g ω).expo, fun i => w i ω)) with hμ
  have hμP : IsProbabilityMeasure μ := Measure.isProbabilityMeasure_map hZ.aemeasurable
  have hprod : μ = (P.map fun ω => (g ω).expo).prod (P.map fun ω i => w i ω) :=
    (indepFun_iff_map_prod_eq_prod_map_map hE.aemeasurable hW.aemeasurable).1 h.independent
  have hlaw : ∀ i, P.map (fun ω => (g ω).expo i) = P.map (fun ω => (g ω).expo 0) := fun i => (h.draws.expo_law i).trans (h.draws.expo_law 0).symm
  have hT : MeasurePreserving both μ μ := by
    rw [hprod]
    have : IsProbabilityMeasure (P.map fun ω => (g ω).expo) := Measure.isProbabilityMeasure_map hE.aemeasurable
    have : IsProbabilityMeasure (P.map fun ω i => w i ω) := Measure.isProbabilityMeasure_map hW.aemeasurable
    exact (later_preserving h.draws.expo_measurable h.draws.expo_indep hlaw).prod (later_preserving h.wait_measurable h.wait_indep h.wait_law)
  have hFm := firstWait_measurable ha hq
  have hint : ∫⁻ x, firstWait a q x ∂μ ≠ ⊤ := by
    rw [hμ, lintegral_map hFm hZ]
    unfold firstWait
    simp only
    rw [lintegral_tsum]
    · have hterm : ∀ k : ℕ, ∫⁻ ω, ENNReal.ofReal (w (k + 1) ω) * (ENNReal.ofReal (q ((g ω).expo 0)) * ENNReal.ofReal (alive a (g ω).expo 0 (0 + 1 + k))) ∂P =
          ENNReal.ofReal τ * ∫⁻ e, ENNReal.ofReal (q e) * ENNReal.ofReal ((1 - growP a e) ^ k) ∂(expMeasure 1) := by
        intro k
        rw [← alive_lintegral h.draws ha 0 k (fun e => ENNReal.ofReal (q e)) hq.ennreal_ofReal]
        have m1 : Measurable fun u : ℕ → ℝ => ENNReal.ofReal (u (k + 1)) := (measurable_pi_apply _).ennreal_ofReal
        have m2 : Measurable fun v : ℕ → ℝ => ENNReal.ofReal (q (v 0)) * ENNReal.ofReal (alive a v 0 (0 + 1 + k)) :=
          (hq.comp (measurable_pi_apply 0)).ennreal_ofReal.mul (alive_measurable ha _ _).ennreal_ofReal
        have hi := (h.independent.comp m2 m1).symm
        have e := lintegral_mul_eq_lintegral_mul_lintegral_of_indepFun (m1.comp hW) (m2.comp hE) hi
        simp only [Pi.mul_apply, Function.comp_apply] at e
        rw [e]
        congr 1
        have hwi : Integrable (w (k + 1)) P := ((waits_of h).memLp' (k + 1)).integrable one_le_two
        rw [← ofReal_integral_eq_lintegral_ofReal hwi (by filter_upwards [waits_positive h] with ω hω using (hω _).le), ((waits_of h).identDistrib (k + 1)).integral_eq, h.wait_mean]
      simp only [hterm]
      rw [ENNReal.tsum_mul_left, ← lintegral_tsum]
      · have hsum : ∀ e, ∑' k : ℕ, ENNReal.ofReal (q e) * ENNReal.ofReal ((1 - growP a e) ^ k) = ENNReal.ofReal (q e) * (ENNReal.ofReal (growP a e))⁻¹ := by
          intro e
          rw [ENNReal.tsum_mul_left]
          congr 1
          have p1 := growP_le_one a e
          simp only [ENNReal.ofReal_pow (sub_nonneg.2 p1)]
          rw [ENNReal.tsum_geometric, ← ENNReal.ofReal_one, ← ENNReal.ofReal_sub _ (sub_nonneg.2 p1), sub_sub_cancel]
        simp only [hsum]
        exact ENNReal.mul_ne_top ENNReal.ofReal_ne_top hfin
      · intro k
        exact (hq.ennreal_ofReal.mul ((measurable_const.sub (growP_measurable ha)).pow_const k).ennreal_ofReal).aemeasurable
    · intro k
      exact ((h.wait_measurable (k + 1)).ennreal_ofReal.mul ((hq.comp (h.draws.expo_measurable 0)).ennreal_ofReal.mul ((alive_measurable ha _ _).comp hE).ennreal_ofReal)).aemeasurable
  have hb := bounded hT hFm.ennreal_toReal (integrable_toReal_of_lintegral_ne_top hFm.aemeasurable hint) fun x => ENNReal.toReal_nonneg
  have hlt : ∀ᵐ x ∂μ, ∀ i : ℕ, firstWait a q (both^[i] x) < ⊤ := by
    refine ae_all_iff.2 fun i => ?_
    exact (hT.iterate i).quasiMeasurePreserving.ae (ae_lt_top hFm hint)
  have hb' := ae_of_ae_map hZ.aemeasurable hb
  have hlt' := ae_of_ae_map hZ.aemeasurable hlt
  filter_upwards [hb', hlt', waits_positive h] with ω h1 h2 hpos
  obtain ⟨B, hB⟩ := h1
  refine ⟨B, fun n => le_trans ?_ (hB n)⟩
  unfold orbitSum
  set v := (g ω).expo with hv
  -- sum over the draws instead of the times
  have hswap : ∑ j ∈ Finset.range n, w j ω * ∑ i ∈ Finset.range j, alive a v i j * q (v i) =
      ∑ i ∈ Finset.range n, ∑ k ∈ Finset.range (n - 1 - i), w (i + (k + 1)) ω * (q (v i) * alive a v i (i + (0 + 1 + k))) := by
    simp only [Finset.mul_sum]
    rw [Finset.sum_sigma', Finset.sum_sigma']
    refine Finset.sum_bij' (fun p _ => ⟨p.2, p.1 - p.2 - 1⟩) (fun p _ => ⟨p.1 + (p.2 + 1), p.1⟩) ?_ ?_ ?_ ?_ ?_
    · rintro ⟨j, i⟩ hp
      simp only [Finset.mem_sigma, Finset.mem_range] at hp ⊢
      omega
    · rintro ⟨i, k⟩ hp
      simp only [Finset.mem_sigma, Finset.mem_range] at hp ⊢
      omega
    · rintro ⟨j, i⟩ hp
      simp only [Finset.mem_sigma, Finset.mem_range] at hp
      simp only [Sigma.mk.injEq, heq_eq_eq, and_true]
      omega
    · rintro ⟨i, k⟩ hp
      simp only [Sigma.mk.injEq, heq_eq_eq, true_and]
      omega
    · rintro ⟨j, i⟩ hp
      simp only [Finset.mem_sigma, Finset.mem_range] at hp
      simp only
      rw [show i + (j - i - 1 + 1) = j by omega, show i + (0 + 1 + (j - i - 1)) = j by omega]
      ring
  rw [hswap]
  refine Finset.sum_le_sum fun i _ => ?_
  obtain ⟨e1, e2, e3⟩ := both_iterate (v, fun i => w i ω) i
  have hnn : ∀ k, 0 ≤ w (i + (k + 1)) ω * (q (v i) * alive a v i (i + (0 + 1 + k))) := fun k => mul_nonneg (hpos _).le (mul_nonneg (hq0 _) (alive_nonneg _ _ _ _))
  have hF : firstWait a q (both^[i] (v, fun i => w i ω)) = ∑' k : ℕ, ENNReal.ofReal (w (i + (k + 1)) ω * (q (v i) * alive a v i (i + (0 + 1 + k)))) := by
    unfold firstWait
    refine tsum_congr fun k => ?_
    rw [e1, e2, e3, ENNReal.ofReal_mul (hpos _).le, ENNReal.ofReal_mul (hq0 _)]
    rfl
  have hle : ENNReal.ofReal (∑ k ∈ Finset.range (n - 1 - i), w (i + (k + 1)) ω * (q (v i) * alive a v i (i + (0 + 1 + k)))) ≤ firstWait a q (both^[i] (v, fun i => w i ω)) := by
    rw [ENNReal.ofReal_sum_of_nonneg fun k _ => hnn k, hF]
    exact ENNReal.sum_le_tsum _
  exact (ENNReal.ofReal_le_iff_le_toReal (h2 i).ne).1 hle

end
end SeismoStats.Props
