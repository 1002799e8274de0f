/-
Property C33, continued: the zero of the Weichert objective exists, is unique, and is the only maximum of the likelihood.
-/
import Verif.Proofs.TiltedMean
import Verif.Props.Weichert

namespace SeismoStats.Props
open SeismoStats SeismoStats.Completeness
open Classical
noncomputable section

/-! ### Proof -/

/-- Exposure of a bin, by its number. -/
def rowWeight (E : List Row) (last : ℝ) (j : ℕ) : ℝ := (E[j]?.map fun r => last - r.start).getD 0

/-- Centre of a bin, by its number. -/
def rowMid (E : List Row) (δ : ℝ) (j : ℕ) : ℝ := (E[j]?.map (mid δ)).getD 0

theorem rowWeight_zero (E : List Row) (last : ℝ) : ∀ j, j ∉ Finset.range E.length → rowWeight E last j = 0 := by
  intro j hj
  rw [Finset.mem_range, not_lt] at hj
  unfold rowWeight
  rw [List.getElem?_eq_none hj]; rfl

theorem row_tilt (E : List Row) (last δ β : ℝ) (k : ℕ) : tilt (rowWeight E last) (rowMid E δ) k β = moment E last δ β k := by
  rw [tilt_finite _ (rowWeight_zero E last), moment_eq]
  induction E with
  | nil => simp
  | cons r E ih =>
    rw [List.length_cons, Finset.sum_range_succ', List.map_cons, List.sum_cons, ← ih, add_comm]
    rfl

theorem row_nonneg {E : List Row} {last : ℝ} (hw : ∀ r ∈ E, 0 < last - r.start) (j : ℕ) : 0 ≤ rowWeight E last j := by
  unfold rowWeight
  cases h : E[j]? with
  | none => exact le_rfl
  | some r => exact (hw r (List.mem_of_getElem? h)).le

theorem row_index {E : List Row} {r : Row} (hr : r ∈ E) (last δ : ℝ) : ∃ j, rowWeight E last j = last - r.start ∧ rowMid E δ j = mid δ r := by
  obtain ⟨j, hj⟩ := List.mem_iff_getElem?.1 hr
  exact ⟨j, by unfold rowWeight; rw [hj]; rfl, by unfold rowMid; rw [hj]; rfl⟩

/-- Mean of the bin centres, weighted by counts. -/
def countMean (E : List Row) (δ : ℝ) : ℝ := (E.map fun r => (r.num : ℝ) * mid δ r).sum / total E

theorem objective_zero_iff {E : List Row} {last δ β : ℝ} (hZ : 0 < moment E last δ β 0) :
    objective E last δ β = .fin 0 ↔ moment E last δ β 1 / moment E last δ β 0 = countMean E δ := by
  have e : Fl.div (moment E last δ β 1) (moment E last δ β 0) = .fin (moment E last δ β 1 / moment E last δ β 0) := by unfold Fl.div; rw [if_neg hZ.ne']
  have e1 : ∀ r : Row, r.edge + δ * (1 / 2) = mid δ r := fun r => by unfold mid; ring
  unfold objective
  simp only [e, e1]
  constructor
  · intro h
    injection h with h
    exact sub_eq_zero.1 (abs_eq_zero.1 h)
  · intro h
    rw [h]
    unfold countMean
    rw [sub_self, abs_zero]

theorem count_deviation (E : List Row) (δ : ℝ) (hN : 0 < total E) : (E.map fun r => (r.num : ℝ) * (mid δ r - countMean E δ)).sum = 0 := by
  have h : ∀ (F : List Row) (c : ℝ), (F.map fun r => (r.num : ℝ) * (mid δ r - c)).sum = (F.map fun r => (r.num : ℝ) * mid δ r).sum - ((F.map Row.num).sum : ℕ) * c := by
    intro F c
    induction F with
    | nil => simp
    | cons r F ih => simp only [List.map_cons, List.sum_cons, Nat.cast_add, ih]; ring
  have hNr : (total E : ℝ) ≠ 0 := by exact_mod_cast hN.ne'
  rw [h, countMean]
  change _ - (total E : ℝ) * _ = 0
  field_simp
  ring

theorem count_between {E : List Row} {δ : ℝ} (hn : ∀ r ∈ E, 0 < r.num) {r s : Row} (hr : r ∈ E) (hs : s ∈ E) (hne : r.edge ≠ s.edge) :
    (∃ p ∈ E, mid δ p < countMean E δ) ∧ ∃ q ∈ E, countMean E δ < mid δ q := by
  have hN : 0 < total E := by
    unfold total
    refine List.sum_pos _ (fun x hx => ?_) (by simp; rintro rfl; cases hr)
    obtain ⟨q, hq, rfl⟩ := List.mem_map.1 hx
    exact hn q hq
  have hz := count_deviation E δ hN
  set ρ := countMean E δ with hρ
  obtain ⟨l, hl, hlne⟩ : ∃ l ∈ E, mid δ l ≠ ρ := by
    by_cases h : mid δ r = ρ
    · refine ⟨s, hs, fun h' => hne ?_⟩
      have := h.trans h'.symm
      unfold mid at this
      linarith
    · exact ⟨r, hr, h⟩
  have hpos : ∀ q ∈ E, (0 : ℝ) < q.num := fun q hq => by exact_mod_cast hn q hq
  constructor
  · by_contra hcon
    push Not at hcon
    have h1 : ∀ x ∈ E.map (fun r => (r.num : ℝ) * (mid δ r - ρ)), 0 ≤ x := by
      intro x hx
      obtain ⟨q, hq, rfl⟩ := List.mem_map.1 hx
      exact mul_nonneg (hpos q hq).le (sub_nonneg.2 (hcon q hq))
    have h2 := (List.single_le_sum h1) _ (List.mem_map_of_mem hl)
    rw [hz] at h2
    have h3 : 0 < (l.num : ℝ) * (mid δ l - ρ) := mul_pos (hpos l hl) (sub_pos.2 (lt_of_le_of_ne (hcon l hl) hlne.symm))
    linarith
  · by_contra hcon
    push Not at hcon
    have h1 : ∀ x ∈ E.map (fun r => (r.num : ℝ) * (ρ - mid δ r)), 0 ≤ x := by
      intro x hx
      obtain ⟨q, hq, rfl⟩ := List.mem_map.1 hx
      exact mul_nonneg (hpos q hq).le (sub_nonneg.2 (hcon q hq))
    have h2 := (List.single_le_sum h1) _ (List.mem_map_of_mem hl)
    have e : (E.map fun r => (r.num : ℝ) * (ρ - mid δ r)).sum = -(E.map fun r => (r.num : ℝ) * (mid δ r - ρ)).sum := by
      clear h1 h2 hz hl hpos hr hs hn hN hcon hρ
      clear_value ρ
      induction E with
      | nil => simp
      | cons q E ih => simp only [List.map_cons, List.sum_cons, ih]; ring
    rw [e, hz] at h2
    have h3 : 0 < (l.num : ℝ) * (ρ - mid δ l) := mul_pos (hpos l hl) (sub_pos.2 (lt_of_le_of_ne (hcon l hl) hlne))
    linarith

theorem convex_strict {E : List Row} {last δ β β' ρ : ℝ} (hw : ∀ r ∈ E, 0 < last - r.start) (hM : moment E last δ β 1 = ρ * moment E last δ β 0) (hβ : β' ≠ β) {l : Row} (hl : l ∈ E)
    (hlne : mid δ l ≠ ρ) : moment E last δ β 0 * Real.exp (-(β' - β) * ρ) < moment E last δ β' 0 := by
  have e : moment E last δ β 0 * Real.exp (-(β' - β) * ρ) =
      (E.map fun r => (last - r.start) * (Real.exp (-(β' - β) * ρ) * (1 - (β' - β) * (mid δ r - ρ)) * Real.exp (-β * mid δ r))).sum := by
    have h : ∀ F : List Row, (F.map fun r => (last - r.start) * (Real.exp (-(β' - β) * ρ) * (1 - (β' - β) * (mid δ r - ρ)) * Real.exp (-β * mid δ r))).sum =
        Real.exp (-(β' - β) * ρ) * (moment F last δ β 0 - (β' - β) * (moment F last δ β 1 - ρ * moment F last δ β 0)) := by
      intro F
      simp only [moment_eq]
      induction F with
      | nil => simp
      | cons r F ih => simp only [List.map_cons, List.sum_cons, ih, pow_zero, pow_one, mul_one]; ring
    rw [h, hM, sub_self, mul_zero, sub_zero, mul_comm]
  have hx : ∀ r : Row, Real.exp (-β' * mid δ r) = Real.exp (-(β' - β) * ρ) * Real.exp (-(β' - β) * (mid δ r - ρ)) * Real.exp (-β * mid δ r) := fun r => by
    rw [← Real.exp_add, ← Real.exp_add]; congr 1; ring
  rw [e, moment_zero]
  refine List.sum_lt_sum _ _ (fun r hr => ?_) ⟨l, hl, ?_⟩
  · refine mul_le_mul_of_nonneg_left ?_ (hw r hr).le
    rw [hx]
    refine mul_le_mul_of_nonneg_right (mul_le_mul_of_nonneg_left ?_ (Real.exp_pos _).le) (Real.exp_pos _).le
    linarith [Real.add_one_le_exp (-(β' - β) * (mid δ r - ρ))]
  · refine mul_lt_mul_of_pos_left ?_ (hw l hl)
    rw [hx]
    refine mul_lt_mul_of_pos_right (mul_lt_mul_of_pos_left ?_ (Real.exp_pos _)) (Real.exp_pos _)
    have h0 : -(β' - β) * (mid δ l - ρ) ≠ 0 := mul_ne_zero (neg_ne_zero.2 (sub_ne_zero.2 hβ)) (sub_ne_zero.2 hlne)
    linarith [Real.add_one_lt_exp h0]

/-- C33: as soon as two bins contain events there is exactly one `β` at which the objective vanishes, and it is the only maximum of the likelihood of the counts. -/
theorem C33_unique_zero {E : List Row} {last δ : ℝ} (hw : ∀ r ∈ E, 0 < last - r.start) (hn : ∀ r ∈ E, 0 < r.num) {r s : Row} (hr : r ∈ E) (hs : s ∈ E) (hne : r.edge ≠ s.edge) :
    ∃ β, objective E last δ β = .fin 0 ∧ (∀ β', objective E last δ β' = .fin 0 → β' = β) ∧ ∀ β', β' ≠ β → binLik E last δ β' < binLik E last δ β := by
  have hE : E ≠ [] := by rintro rfl; cases hr
  have hZ : ∀ β, 0 < moment E last δ β 0 := fun β => moment_pos hE hw
  have hN : 0 < total E := by
    unfold total
    refine List.sum_pos _ (fun x hx => ?_) (by simpa using hE)
    obtain ⟨q, hq, rfl⟩ := List.mem_map.1 hx
    exact hn q hq
  obtain ⟨⟨p, hp, hpm⟩, q, hq, hqm⟩ := count_between (δ := δ) hn hr hs hne
  obtain ⟨a, ha, ha'⟩ := row_index hp last δ
  obtain ⟨c, hc, hc'⟩ := row_index hq last δ
  obtain ⟨β, hβ⟩ := tilt_exists (v := rowWeight E last) (Finset.range E.length) (rowWeight_zero E last) (row_nonneg hw) (rowMid E δ) (R := countMean E δ) (a := a) (b := c)
    (by rw [ha]; exact hw p hp) (by rw [hc]; exact hw q hq) (by rw [ha']; exact hpm) (by rw [hc']; exact hqm)
  have hβ0 : moment E last δ β 1 / moment E last δ β 0 = countMean E δ := by
    unfold tiltMean at hβ
    rwa [row_tilt, row_tilt] at hβ
  have h0 := (objective_zero_iff (hZ β)).2 hβ0
  have hM : moment E last δ β 1 = countMean E δ * moment E last δ β 0 := (div_eq_iff (hZ β).ne').1 hβ0
  have hlik : ∀ β', β' ≠ β → binLik E last δ β' < binLik E last δ β := by
    intro β' hne'
    have hc := convex_strict hw hM hne' hp hpm.ne
    rw [lik_eq E last δ β hw (hZ β), lik_eq E last δ β' hw (hZ β')]
    have hlog := Real.log_lt_log (mul_pos (hZ β) (Real.exp_pos _)) hc
    rw [Real.log_mul (hZ β).ne' (Real.exp_pos _).ne', Real.log_exp] at hlog
    have hNr : (0 : ℝ) < total E := by exact_mod_cast hN
    have hR : (E.map fun r => (r.num : ℝ) * mid δ r).sum = total E * countMean E δ := by unfold countMean; field_simp
    rw [hR]
    nlinarith
  refine ⟨β, h0, fun β' h0' => ?_, hlik⟩
  by_contra hne'
  exact absurd (C33_root_is_mle hE hN hw h0' β) (not_le.2 (hlik β' hne'))

/-- A case: three events in the lowest of two bins and one in the other; the zero is at `log 6 / δ`, where the exposure of the other bin is twice that of the lowest. -/
example : ∃ β, objective [⟨4, 1950, 3⟩, ⟨5, 1900, 1⟩] 2000 1 β = .fin 0 ∧ (∀ β', objective [⟨4, 1950, 3⟩, ⟨5, 1900, 1⟩] 2000 1 β' = .fin 0 → β' = β) ∧
    ∀ β', β' ≠ β → binLik [⟨4, 1950, 3⟩, ⟨5, 1900, 1⟩] 2000 1 β' < binLik [⟨4, 1950, 3⟩, ⟨5, 1900, 1⟩] 2000 1 β :=
  C33_unique_zero (r := ⟨4, 1950, 3⟩) (s := ⟨5, 1900, 1⟩) (by simp; norm_num) (by simp) (by simp) (by simp) (by norm_num)

end
end SeismoStats.Props
