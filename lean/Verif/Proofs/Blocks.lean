/-
Support for property C120: functions of disjoint blocks of independent draws.
-/
import Verif.Props.MacLaw

namespace SeismoStats.Blocks
open MeasureTheory ProbabilityTheory Filter Topology SeismoStats.Exchange SeismoStats.Props
open scoped BigOperators
open Classical
noncomputable section

variable {Ω : Type} [MeasurableSpace Ω] {P : Measure Ω} [IsProbabilityMeasure P] {E : ℕ → Ω → ℝ} {μ : Measure ℝ}

theorem blocks_indep (hm : ∀ i, Measurable (E i)) (hi : iIndepFun E P) (a ℓ : ℕ) :
    iIndepFun (fun (j : ℕ) ω (r : Fin ℓ) => E (a + j * ℓ + r) ω) P := by
  have inj : Function.Injective fun p : (_ : ℕ) × Fin ℓ => a + p.1 * ℓ + p.2 := by
    rintro ⟨k, r⟩ ⟨k', r'⟩ h
    simp only at h
    have hr := r.2
    have hr' := r'.2
    have h' : k * ℓ + r = k' * ℓ + r' := by omega
    have hn : 0 < ℓ := by omega
    have h1 : (k * ℓ + r) / ℓ = k := by rw [Nat.add_comm, Nat.add_mul_div_right _ _ hn, Nat.div_eq_of_lt hr, Nat.zero_add]
    have h2 : (k' * ℓ + r') / ℓ = k' := by rw [Nat.add_comm, Nat.add_mul_div_right _ _ hn, Nat.div_eq_of_lt hr', Nat.zero_add]
    have e1 : k = k' := by rw [← h1, ← h2, h']
    subst e1
    have e3 : r = r' := Fin.ext (by omega)
    rw [e3]
  set X : ℕ → Fin ℓ → Ω → ℝ := fun j r => E (a + j * ℓ + r) with hX
  have mX : ∀ i j, Measurable (X i j) := fun i j => hm _
  have h1 : iIndepFun (fun (p : (_ : ℕ) × Fin ℓ) ω => X p.1 p.2 ω) P := hi.precomp inj
  have h2 : ∀ i, iIndepFun (X i) P := fun i => h1.precomp (g := fun r => (⟨i, r⟩ : (_ : ℕ) × Fin ℓ)) (by
    intro r r' h
    simpa using h)
  have : ∀ i j, IsProbabilityMeasure (P.map (X i j)) := fun i j => Measure.isProbabilityMeasure_map (mX i j).aemeasurable
  have hcur : (MeasurableEquiv.piCurry fun (_ : ℕ) (_ : Fin ℓ) => ℝ) ∘ (fun ω p => X p.1 p.2 ω) = fun ω i j => X i j ω := by
    ext; simp [Sigma.curry]
  rw [iIndepFun_iff_map_fun_eq_infinitePi_map (by fun_prop)]
  change P.map (fun ω i j => X i j ω) = _
  rw [← hcur, ← Measure.map_map (by fun_prop) (by fun_prop), (iIndepFun_iff_map_fun_eq_infinitePi_map (by fun_prop)).1 h1,
    Measure.infinitePi_map_piCurry (fun i j => P.map (X i j))]
  congr 1
  funext i
  exact ((iIndepFun_iff_map_fun_eq_infinitePi_map (by fun_prop)).1 (h2 i)).symm

variable (hm : ∀ i, Measurable (E i)) (hi : iIndepFun E P) (hl : ∀ i, P.map (E i) = μ)
include hm hi

/-- Blocks of consecutive draws have the same law. -/
theorem blocks_ident (hl : ∀ i, P.map (E i) = μ) {ℓ : ℕ} {F : (Fin ℓ → ℝ) → ℝ} (hF : Measurable F) (a a' : ℕ) :
    IdentDistrib (fun ω => F fun r => E (a + r) ω) (fun ω => F fun r => E (a' + r) ω) P P := by
  have key : ∀ a, P.map (fun ω (r : Fin ℓ) => E (a + r) ω) = Measure.pi fun _ : Fin ℓ => μ := by
    intro a
    exact law_pick hm hi hl (s := fun r : Fin ℓ => a + r) (by intro r r' h; exact Fin.ext (by simp only at h; omega))
  have m : ∀ a, Measurable fun ω (r : Fin ℓ) => E (a + r) ω := fun a => measurable_pi_iff.2 fun r => hm _
  exact IdentDistrib.comp ⟨(m a).aemeasurable, (m a').aemeasurable, (key a).trans (key a').symm⟩ hF

/-- The sequence of a function of consecutive blocks is independent. -/
theorem blocks_fun {ℓ : ℕ} {F : (Fin ℓ → ℝ) → ℝ} (hF : Measurable F) (a : ℕ) : iIndepFun (fun (j : ℕ) ω => F fun r => E (a + j * ℓ + r) ω) P :=
  (blocks_indep hm hi a ℓ).comp (fun _ => F) fun _ => hF

/-- The draws before a place are independent of those from it on. -/
theorem split_indep {a c d : ℕ} {F : (ℕ → ℝ) → ℝ} {G : (ℕ → ℝ) → ℝ} (hF : Measurable F) (hG : Measurable G)
    (hFd : ∀ x y : ℕ → ℝ, (∀ i, a ≤ i → i < c → x i = y i) → F x = F y) (hGd : ∀ x y : ℕ → ℝ, (∀ i, c ≤ i → i < d → x i = y i) → G x = G y) :
    IndepFun (fun ω => F fun i => E i ω) (fun ω => G fun i => E i ω) P := by
  have ext : ∀ T : Finset ℕ, Measurable fun (z : T → ℝ) (i : ℕ) => if h : i ∈ T then z ⟨i, h⟩ else 0 := by
    intro T
    refine measurable_pi_iff.2 fun i => ?_
    by_cases h : i ∈ T
    · simp only [h, dif_pos]; exact measurable_pi_apply _
    · simp only [h, dif_neg, not_false_iff]; exact measurable_const
  have h := (hi.indepFun_finset (Finset.Ico a c) (Finset.Ico c d) (by
    rw [Finset.disjoint_left]; intro i h1 h2; rw [Finset.mem_Ico] at h1 h2; omega) hm).comp (hF.comp (ext _)) (hG.comp (ext _))
  convert h using 1
  · funext ω
    exact hFd _ _ fun i h1 h2 => by dsimp only; rw [dif_pos (Finset.mem_Ico.2 ⟨h1, h2⟩)]
  · funext ω
    exact hGd _ _ fun i h1 h2 => by dsimp only; rw [dif_pos (Finset.mem_Ico.2 ⟨h1, h2⟩)]

end
end SeismoStats.Blocks
