/-
Support for property C100: windows of independent draws are exchangeable, and two windows almost surely have different sums.
-/
import Verif.Proofs.Permute
import Verif.Proofs.Law
import Mathlib.Probability.Independence.Basic

namespace SeismoStats.Exchange
open MeasureTheory ProbabilityTheory
open SeismoStats.Permute
open scoped BigOperators
open Classical
noncomputable section

variable {Ω : Type} [MeasurableSpace Ω] {P : Measure Ω}

/-- The law of finitely many of the independent draws does not depend on which draws are taken. -/
theorem law_pick [IsProbabilityMeasure P] {e : ℕ → Ω → ℝ} (hm : ∀ i, Measurable (e i)) (hi : iIndepFun e P) {μ : Measure ℝ} (hl : ∀ i, P.map (e i) = μ)
    {ι : Type} [Fintype ι] {s : ι → ℕ} (hs : Function.Injective s) : P.map (fun ω p => e (s p) ω) = Measure.pi fun _ : ι => μ := by
  have h := hi.precomp hs
  rw [iIndepFun_iff_map_fun_eq_pi_map (fun i => (hm _).aemeasurable)] at h
  rw [h]
  congr 1
  funext i
  exact hl _

/-- A family whose law does not change when it is permuted: the mean of a bounded function of it is the mean of the average over all permutations. -/
theorem integral_avg [IsProbabilityMeasure P] {K : ℕ} {Y : Ω → Fin K → ℝ} (hY : Measurable Y)
    (hinv : ∀ σ : Equiv.Perm (Fin K), P.map (fun ω => Y ω ∘ σ) = P.map Y) {f : (Fin K → ℝ) → ℝ} (hf : Measurable f) (C : ℝ)
    (hb : ∀ᵐ ω ∂P, ∀ σ : Equiv.Perm (Fin K), |f (Y ω ∘ σ)| ≤ C) :
    ∫ ω, f (Y ω) ∂P = ∫ ω, avgPerm (fun σ : Equiv.Perm (Fin K) => f (Y ω ∘ σ)) ∂P := by
  have hmσ : ∀ σ : Equiv.Perm (Fin K), Measurable fun ω => Y ω ∘ σ := by
    intro σ
    rw [measurable_pi_iff]
    intro k
    exact (measurable_pi_apply (σ k)).comp hY
  have hint : ∀ σ : Equiv.Perm (Fin K), Integrable (fun ω => f (Y ω ∘ σ)) P := by
    intro σ
    refine Integrable.of_bound (hf.comp (hmσ σ)).aestronglyMeasurable C ?_
    filter_upwards [hb] with ω h
    exact h σ
  have heq : ∀ σ : Equiv.Perm (Fin K), ∫ ω, f (Y ω ∘ σ) ∂P = ∫ ω, f (Y ω) ∂P := by
    intro σ
    have h1 : ∫ ω, f (Y ω ∘ σ) ∂P = ∫ y, f y ∂(P.map fun ω => Y ω ∘ σ) := (integral_map (hmσ σ).aemeasurable hf.aestronglyMeasurable).symm
    have h2 : ∫ ω, f (Y ω) ∂P = ∫ y, f y ∂(P.map Y) := (integral_map hY.aemeasurable hf.aestronglyMeasurable).symm
    rw [h1, h2, hinv σ]
  unfold avgPerm
  rw [integral_div, integral_finsetSum _ fun σ _ => hint σ, Finset.sum_congr rfl fun σ _ => heq σ, Finset.sum_const, Finset.card_univ, nsmul_eq_mul]
  rw [mul_div_cancel_left₀]
  exact_mod_cast Fintype.card_ne_zero

/-- Two independent variables, one of them without atoms, are almost surely different. -/
theorem ae_ne [IsProbabilityMeasure P] {X Z : Ω → ℝ} (hX : Measurable X) (hZ : Measurable Z) (hi : IndepFun Z X P) {μ : Measure ℝ} [SFinite μ] [NullSingletonClass μ] (hl : P.map X = μ) :
    ∀ᵐ ω ∂P, X ω ≠ Z ω := by
  have h := (indepFun_iff_map_prod_eq_prod_map_map hZ.aemeasurable hX.aemeasurable).1 hi
  have hs : MeasurableSet {p : ℝ × ℝ | p.2 = p.1} := measurableSet_eq_fun measurable_snd measurable_fst
  have h0 : P.map (fun ω => (Z ω, X ω)) {p : ℝ × ℝ | p.2 = p.1} = 0 := by
    rw [h, hl, Measure.measure_prod_null hs]
    refine Filter.Eventually.of_forall fun z => ?_
    have : (Prod.mk z ⁻¹' {p : ℝ × ℝ | p.2 = p.1}) = {z} := by ext x; simp
    change μ (Prod.mk z ⁻¹' {p : ℝ × ℝ | p.2 = p.1}) = 0
    rw [this]
    exact measure_singleton z
  rw [Measure.map_apply (hZ.prodMk hX) hs] at h0
  rw [ae_iff]
  simpa using h0

/-- Two disjoint windows of `n` draws almost surely have different sums. -/
theorem windows_ne [IsProbabilityMeasure P] {e : ℕ → Ω → ℝ} (hm : ∀ i, Measurable (e i)) (hi : iIndepFun e P) {μ : Measure ℝ} [SFinite μ] [NullSingletonClass μ]
    (hl : ∀ i, P.map (e i) = μ) (off : ℕ) {n : ℕ} (hn : 0 < n) :
    ∀ᵐ ω ∂P, ∑ r ∈ Finset.range n, e (off + r) ω ≠ ∑ r ∈ Finset.range n, e (off + n + r) ω := by
  obtain ⟨m, rfl⟩ : ∃ m, n = m + 1 := ⟨n - 1, by omega⟩
  set T := Finset.Ico (off + 1) (off + 2 * (m + 1)) with hT
  have hdis : Disjoint T {off} := by
    rw [Finset.disjoint_singleton_right, hT, Finset.mem_Ico]; omega
  have h1 := hi.indepFun_finset T {off} hdis hm
  set ext : (T → ℝ) → ℕ → ℝ := fun z i => if h : i ∈ T then z ⟨i, h⟩ else 0 with hext
  have hem : ∀ i, Measurable fun z => ext z i := by
    intro i
    simp only [hext]
    by_cases h : i ∈ T
    · simp only [h, dif_pos]; exact measurable_pi_apply _
    · simp only [h, dif_neg, not_false_iff]; exact measurable_const
  set φ : (T → ℝ) → ℝ := fun z => (∑ r ∈ Finset.range (m + 1), ext z (off + (m + 1) + r)) - ∑ r ∈ Finset.range m, ext z (off + (r + 1)) with hφ
  have hφm : Measurable φ := (Finset.measurable_sum _ fun r _ => hem _).sub (Finset.measurable_sum _ fun r _ => hem _)
  have h2 := h1.comp hφm (measurable_pi_apply (⟨off, Finset.mem_singleton_self off⟩ : ({off} : Finset ℕ)))
  have h3 := ae_ne (X := e off) (Z := φ ∘ fun ω (i : T) => e i ω) (hm off) (hφm.comp (measurable_pi_iff.2 fun i => hm _)) h2 (hl off)
  filter_upwards [h3] with ω h hsum
  apply h
  have hval : ∀ i ∈ T, ext (fun i : T => e i ω) i = e i ω := by
    intro i hi
    simp only [hext]
    rw [dif_pos hi]
  change _ = (∑ r ∈ Finset.range (m + 1), ext (fun i : T => e i ω) (off + (m + 1) + r)) - ∑ r ∈ Finset.range m, ext (fun i : T => e i ω) (off + (r + 1))
  rw [Finset.sum_congr rfl fun r hr => hval _ (by rw [Finset.mem_range] at hr; rw [hT, Finset.mem_Ico]; omega),
    Finset.sum_congr rfl fun r hr => hval (off + (r + 1)) (by rw [Finset.mem_range] at hr; rw [hT, Finset.mem_Ico]; omega), ← hsum, Finset.sum_range_succ']
  simp

end
end SeismoStats.Exchange
