/-
Property C59: simulated magnitudes.
-/
import Verif.Model.Simulate
import Verif.Proofs.Binning
import Mathlib.Tactic.Linarith
import Mathlib.Tactic.FieldSimp
import Mathlib.Tactic.Ring

namespace SeismoStats.Props
open SeismoStats SeismoStats.Simulate
open Classical

/-- What is under the logarithm. -/
theorem truncated_arg (β mc M u : ℝ) :
    1 - ((1 - Real.exp (-β * mc)) + u * ((1 - Real.exp (-β * M)) - (1 - Real.exp (-β * mc)))) = (1 - u) * Real.exp (-β * mc) + u * Real.exp (-β * M) := by
  ring

theorem truncated_exp (β mc M u : ℝ) (hβ : β ≠ 0) (h0 : 0 ≤ u) (h1 : u < 1) :
    Real.exp (-β * truncated β mc M u) = (1 - u) * Real.exp (-β * mc) + u * Real.exp (-β * M) := by
  have hpos : 0 < (1 - u) * Real.exp (-β * mc) + u * Real.exp (-β * M) := by
    have a1 := mul_pos (sub_pos.2 h1) (Real.exp_pos (-β * mc))
    have a2 := mul_nonneg h0 (Real.exp_pos (-β * M)).le
    linarith
  unfold truncated
  rw [truncated_arg]
  rw [show -β * (-(1 / β) * Real.log ((1 - u) * Real.exp (-β * mc) + u * Real.exp (-β * M))) = Real.log ((1 - u) * Real.exp (-β * mc) + u * Real.exp (-β * M)) by
    field_simp]
  exact Real.exp_log hpos

/-- Comparison of magnitudes by their exponentials. -/
theorem exp_lt_iff (β a b : ℝ) : Real.exp (-β * a) < Real.exp (-β * b) ↔ β * b < β * a := by
  rw [Real.exp_lt_exp]
  constructor <;> intro h <;> linarith

/-- C59: with a maximum above `mc` every simulated magnitude lies in `[mc, mag_max)`, and it is the quantile of its uniform draw: the truncated exponential
distribution function at the magnitude is the draw. -/
theorem truncated_range (β mc M u : ℝ) (hβ : β ≠ 0) (hM : mc < M) (h0 : 0 ≤ u) (h1 : u < 1) :
    mc ≤ truncated β mc M u ∧ truncated β mc M u < M ∧
      (1 - Real.exp (-β * (truncated β mc M u - mc))) / (1 - Real.exp (-β * (M - mc))) = u := by
  have hE := truncated_exp β mc M u hβ h0 h1
  set m := truncated β mc M u with hm
  have key : ∀ x, Real.exp (-β * (x - mc)) = Real.exp (-β * x) / Real.exp (-β * mc) := by
    intro x
    rw [← Real.exp_sub]
    congr 1; ring
  have hne : 1 - Real.exp (-β * (M - mc)) ≠ 0 := by
    intro h
    have : Real.exp (-β * (M - mc)) = 1 := by linarith
    rw [Real.exp_eq_one_iff] at this
    rcases mul_eq_zero.1 this with h | h
    · exact hβ (by linarith)
    · linarith
  have hcdf : (1 - Real.exp (-β * (m - mc))) / (1 - Real.exp (-β * (M - mc))) = u := by
    rw [div_eq_iff hne, key m, key M, hE]
    have := (Real.exp_pos (-β * mc)).ne'
    field_simp
    ring
  rcases lt_or_gt_of_ne hβ with hb | hb
  · have hlt : Real.exp (-β * mc) < Real.exp (-β * M) := by rw [exp_lt_iff]; nlinarith
    have a1 : Real.exp (-β * mc) ≤ Real.exp (-β * m) := by rw [hE]; nlinarith [mul_nonneg h0 (sub_nonneg.2 hlt.le)]
    have a2 : Real.exp (-β * m) < Real.exp (-β * M) := by rw [hE]; nlinarith [mul_pos (sub_pos.2 h1) (sub_pos.2 hlt)]
    refine ⟨?_, ?_, hcdf⟩
    · rw [Real.exp_le_exp] at a1; nlinarith
    · rw [exp_lt_iff] at a2; nlinarith
  · have hlt : Real.exp (-β * M) < Real.exp (-β * mc) := by rw [exp_lt_iff]; nlinarith
    have a1 : Real.exp (-β * m) ≤ Real.exp (-β * mc) := by rw [hE]; nlinarith [mul_nonneg h0 (sub_nonneg.2 hlt.le)]
    have a2 : Real.exp (-β * M) < Real.exp (-β * m) := by rw [hE]; nlinarith [mul_pos (sub_pos.2 h1) (sub_pos.2 hlt)]
    refine ⟨?_, ?_, hcdf⟩
    · rw [Real.exp_le_exp] at a1; nlinarith
    · rw [exp_lt_iff] at a2; nlinarith

/-- Specification: the draws a generator can make. -/
def Proper (g : Rng) : Prop := (∀ i, 0 ≤ g.uniform i ∧ g.uniform i < 1) ∧ ∀ i, 0 ≤ g.expo i

theorem simulate_truncated (n : ℕ) (β : ℕ → ℝ) (mc M : ℝ) (g : Rng) (hβ : ∀ i < n, β i ≠ 0) (hM0 : M ≠ 0) :
    simulate n β mc (some M) g = .ok ((List.range n).map fun i => truncated (β i) mc M (g.uniform i)) := by
  unfold simulate
  rw [if_neg (by rintro ⟨i, hi, h⟩; exact hβ i hi h)]
  simp [truthy, hM0]

theorem simulate_untruncated (n : ℕ) (β : ℕ → ℝ) (mc : ℝ) (o : Option ℝ) (ho : o = none ∨ o = some 0) (g : Rng) (hβ : ∀ i < n, 0 < β i) :
    simulate n β mc o g = .ok ((List.range n).map fun i => untruncated (β i) mc (g.expo i)) := by
  unfold simulate
  rw [if_neg (by rintro ⟨i, hi, h⟩; exact (hβ i hi).ne' h)]
  have : truthy o = none := by
    rcases ho with rfl | rfl <;> simp [truthy]
  rw [this]
  simp only
  rw [if_neg (by rintro ⟨i, hi, h⟩; exact absurd h (not_lt.2 (hβ i hi).le))]

/-- C59: with a maximum other than zero: `n` magnitudes in `[mc, mag_max)`, each the quantile of its draw. -/
theorem C59_truncated (n : ℕ) (β : ℕ → ℝ) (mc M : ℝ) (g : Rng) (hg : Proper g) (hβ : ∀ i < n, β i ≠ 0) (hM : mc < M) (hM0 : M ≠ 0) :
    ∃ mags, simulate n β mc (some M) g = .ok mags ∧ mags.length = n ∧
      ∀ (i : ℕ) (m : ℝ), mags[i]? = some m → mc ≤ m ∧ m < M ∧
        (1 - Real.exp (-β i * (m - mc))) / (1 - Real.exp (-β i * (M - mc))) = g.uniform i := by
  refine ⟨_, simulate_truncated n β mc M g hβ hM0, by simp, ?_⟩
  intro i m hm
  rw [List.getElem?_map, Option.map_eq_some_iff] at hm
  obtain ⟨j, hj, rfl⟩ := hm
  obtain ⟨hj1, hj2⟩ := List.getElem?_eq_some_iff.1 hj
  rw [List.length_range] at hj1
  rw [List.getElem_range] at hj2
  subst hj2
  exact truncated_range (β i) mc M (g.uniform i) (hβ i hj1) hM (hg.1 i).1 (hg.1 i).2

/-- C59: without maximum: `n` magnitudes at or above `mc`, exponential with rate `beta`. -/
theorem C59_untruncated (n : ℕ) (β : ℕ → ℝ) (mc : ℝ) (g : Rng) (hg : Proper g) (hβ : ∀ i < n, 0 < β i) :
    ∃ mags, simulate n β mc none g = .ok mags ∧ mags.length = n ∧
      ∀ (i : ℕ) (m : ℝ), mags[i]? = some m → mc ≤ m ∧ β i * (m - mc) = g.expo i := by
  refine ⟨_, simulate_untruncated n β mc none (Or.inl rfl) g hβ, by simp, ?_⟩
  intro i m hm
  rw [List.getElem?_map, Option.map_eq_some_iff] at hm
  obtain ⟨j, hj, rfl⟩ := hm
  obtain ⟨hj1, hj2⟩ := List.getElem?_eq_some_iff.1 hj
  rw [List.length_range] at hj1
  rw [List.getElem_range] at hj2
  subst hj2
  have hb := hβ i hj1
  unfold untruncated
  constructor
  · have := mul_nonneg (one_div_pos.2 hb).le (hg.2 i)
    linarith
  · have := hb.ne'
    field_simp
    ring

/-- C59: every magnitude in `[mc, mag_max)` is the result of some draw. -/
theorem C59_every_magnitude (β mc M m : ℝ) (hβ : β ≠ 0) (h1 : mc ≤ m) (h2 : m < M) :
    ∃ u, 0 ≤ u ∧ u < 1 ∧ truncated β mc M u = m := by
  have hM : mc < M := lt_of_le_of_lt h1 h2
  have hd : Real.exp (-β * mc) - Real.exp (-β * M) ≠ 0 := by
    intro h
    have : Real.exp (-β * mc) = Real.exp (-β * M) := by linarith
    rw [Real.exp_eq_exp] at this
    have : β * (M - mc) = 0 := by linarith
    rcases mul_eq_zero.1 this with h | h
    · exact hβ h
    · linarith
  have hin : 0 ≤ (Real.exp (-β * mc) - Real.exp (-β * m)) / (Real.exp (-β * mc) - Real.exp (-β * M)) ∧
      (Real.exp (-β * mc) - Real.exp (-β * m)) / (Real.exp (-β * mc) - Real.exp (-β * M)) < 1 := by
    rcases lt_or_gt_of_ne hβ with hb | hb
    · have a1 : Real.exp (-β * mc) ≤ Real.exp (-β * m) := by rw [Real.exp_le_exp]; nlinarith
      have a2 : Real.exp (-β * m) < Real.exp (-β * M) := by rw [exp_lt_iff]; nlinarith
      refine ⟨div_nonneg_of_nonpos (by linarith) (by linarith), ?_⟩
      rw [div_lt_one_of_neg (by linarith)]
      linarith
    · have a1 : Real.exp (-β * m) ≤ Real.exp (-β * mc) := by rw [Real.exp_le_exp]; nlinarith
      have a2 : Real.exp (-β * M) < Real.exp (-β * m) := by rw [exp_lt_iff]; nlinarith
      refine ⟨div_nonneg (by linarith) (by linarith), ?_⟩
      rw [div_lt_one (by linarith)]
      linarith
  refine ⟨_, hin.1, hin.2, ?_⟩
  have hE := truncated_exp β mc M _ hβ hin.1 hin.2
  have : Real.exp (-β * truncated β mc M ((Real.exp (-β * mc) - Real.exp (-β * m)) / (Real.exp (-β * mc) - Real.exp (-β * M)))) = Real.exp (-β * m) := by
    rw [hE]
    clear hE hin
    generalize Real.exp (-β * mc) = a at *
    generalize Real.exp (-β * M) = c at *
    generalize Real.exp (-β * m) = e at *
    field_simp
    ring
  rw [Real.exp_eq_exp] at this
  exact mul_left_cancel₀ (neg_ne_zero.2 hβ) this

/-- C59 (defect): a maximum of zero is ignored, so that magnitudes of any size are simulated. -/
theorem C59_defect_max_zero (n : ℕ) (β : ℕ → ℝ) (mc : ℝ) (hn : 0 < n) (hβ : ∀ i < n, 0 < β i) :
    (∀ g, simulate n β mc (some 0) g = simulate n β mc none g) ∧
    ∀ B, ∃ g mags, Proper g ∧ simulate n β mc (some 0) g = .ok mags ∧ ∃ m ∈ mags, B < m := by
  refine ⟨fun g => rfl.trans ?_, ?_⟩
  · rw [simulate_untruncated n β mc (some 0) (Or.inr rfl) g hβ, simulate_untruncated n β mc none (Or.inl rfl) g hβ]
  · intro B
    refine ⟨⟨fun _ => 0, fun _ => max 0 (β 0 * (B - mc + 1))⟩, _, ⟨fun i => ⟨le_rfl, one_pos⟩, fun i => le_max_left _ _⟩,
      simulate_untruncated n β mc (some 0) (Or.inr rfl) _ hβ, untruncated (β 0) mc (max 0 (β 0 * (B - mc + 1))), ?_, ?_⟩
    · exact List.mem_map.2 ⟨0, List.mem_range.2 hn, rfl⟩
    · have hb := hβ 0 hn
      unfold untruncated
      have h1 : β 0 * (B - mc + 1) ≤ max 0 (β 0 * (B - mc + 1)) := le_max_right _ _
      have h2 := mul_le_mul_of_nonneg_left h1 (one_div_pos.2 hb).le
      have h3 : 1 / β 0 * (β 0 * (B - mc + 1)) = B - mc + 1 := by
        have := hb.ne'
        field_simp
      linarith

/-- C59: errors. A negative rate without maximum, an unknown `b_parameter`. -/
theorem C59_errors (n : ℕ) (β : ℕ → ℝ) (mc δ : ℝ) (o : Option ℝ) (g : Rng) :
    ((∀ i < n, β i ≠ 0) → (∃ i < n, β i < 0) → simulate n β mc none g = .error .valueError) ∧
    simulateBinned n β mc δ o .other g = .error .valueError := by
  refine ⟨?_, rfl⟩
  intro h1 h2
  unfold simulate
  rw [if_neg (by rintro ⟨i, hi, h⟩; exact h1 i hi h)]
  simp only [truthy, Option.bind_none]
  rw [if_pos h2]

theorem simulateBinned_ok (n : ℕ) (b : ℕ → ℝ) (mc δ : ℝ) (o : Option ℝ) (g : Rng) (mags : List ℝ) (hδ : eps ℝ ≤ δ)
    (h : simulate n (fun i => b i * Real.log 10) (mc - δ / 2) o g = .ok mags) :
    simulateBinned n b mc δ o .bValue g = .ok (mags.map (binTo δ)) := by
  have hp : 0 < δ := lt_of_lt_of_le eps_pos hδ
  unfold simulateBinned toBeta
  simp only [bind, Except.bind]
  rw [h]
  simp only [binIf]
  rw [if_pos hp]
  unfold binArr
  rw [if_neg (not_lt.2 hδ)]

theorem log_ten_pos : 0 < Real.log 10 := Real.log_pos (by norm_num)

/-- C59: binned magnitudes are multiples of the bin width, not below `mc` if that is one, and not above the maximum if that is one. -/
theorem C59_binned (n : ℕ) (b : ℕ → ℝ) (k : ℤ) (δ : ℝ) (o : Option ℝ) (g : Rng) (hg : Proper g) (hδ : 1 / 10 ^ 12 ≤ δ) (hb : ∀ i < n, 0 < b i)
    (ho : ∀ M, o = some M → (k : ℝ) * δ ≤ M) :
    ∃ mags, simulateBinned n b (k * δ) δ o .bValue g = .ok mags ∧ mags.length = n ∧
      ∀ m ∈ mags, (∃ z : ℤ, m = z * δ) ∧ k * δ ≤ m ∧ ∀ K : ℤ, o = some (K * δ) → (K : ℝ) * δ ≠ 0 → m ≤ K * δ := by
  have hp : 0 < δ := lt_of_lt_of_le (by positivity) hδ
  have hβ : ∀ i < n, 0 < b i * Real.log 10 := fun i hi => mul_pos (hb i hi) log_ten_pos
  -- the magnitudes before binning
  obtain ⟨raw, hraw, hlen, hlow, hup⟩ : ∃ raw, simulate n (fun i => b i * Real.log 10) (k * δ - δ / 2) o g = .ok raw ∧ raw.length = n ∧
      (∀ m ∈ raw, k * δ - δ / 2 ≤ m) ∧ ∀ M, o = some M → M ≠ 0 → ∀ m ∈ raw, m ≤ M := by
    by_cases hc : o = none ∨ o = some 0
    · refine ⟨_, simulate_untruncated n _ _ o hc g hβ, by simp, ?_, ?_⟩
      · intro m hm
        obtain ⟨i, hi, rfl⟩ := List.mem_map.1 hm
        have := mul_nonneg (one_div_pos.2 (hβ i (List.mem_range.1 hi))).le (hg.2 i)
        unfold untruncated
        linarith
      · rintro M rfl hM0
        rcases hc with h | h
        · cases h
        · exact absurd (Option.some.inj h) hM0
    · obtain ⟨M, rfl⟩ : ∃ M, o = some M := by
        cases o with
        | none => exact absurd (Or.inl rfl) hc
        | some M => exact ⟨M, rfl⟩
      have hM0 : M ≠ 0 := fun h => hc (Or.inr (by rw [h]))
      have hkM := ho M rfl
      refine ⟨_, simulate_truncated n _ _ M g (fun i hi => (hβ i hi).ne') hM0, by simp, ?_, ?_⟩
      · intro m hm
        obtain ⟨i, hi, rfl⟩ := List.mem_map.1 hm
        exact (truncated_range _ _ M _ (hβ i (List.mem_range.1 hi)).ne' (by linarith) (hg.1 i).1 (hg.1 i).2).1
      · rintro M' h _ m hm
        cases h
        obtain ⟨i, hi, rfl⟩ := List.mem_map.1 hm
        exact (truncated_range _ _ M _ (hβ i (List.mem_range.1 hi)).ne' (by linarith) (hg.1 i).1 (hg.1 i).2).2.1.le
  refine ⟨_, simulateBinned_ok n b _ δ o g raw hδ hraw, by simpa using hlen, ?_⟩
  intro m hm
  obtain ⟨r, hr, rfl⟩ := List.mem_map.1 hm
  refine ⟨⟨_, rfl⟩, ?_, ?_⟩
  · have h1 : binTo δ (k * δ - δ / 2) ≤ binTo δ r := binTo_mono hp (hlow r hr)
    have h2 : binTo δ ((k : ℝ) * δ - δ / 2) = k * δ := by
      apply binTo_eq_of_near hp
      · have := mul_pos (eps_pos (K := ℝ)) hp; nlinarith
      · have := mul_lt_mul_of_pos_right (eps_lt_half (K := ℝ)) hp; nlinarith
    linarith
  · intro K hK hK0
    have := binTo_mono hp (hup _ hK hK0 r hr)
    rwa [binTo_int_mul hp.ne'] at this

/-- C59 (defect): if the maximum is not on the grid, binned magnitudes above it are simulated. -/
theorem C59_defect_binned_above_max (b mc δ M m : ℝ) (hb : 0 < b) (hδ : 1 / 10 ^ 12 ≤ δ) (hM0 : M ≠ 0) (h1 : mc - δ / 2 ≤ m) (h2 : m < M) (h3 : M < binTo δ m) :
    ∃ g v, Proper g ∧ simulateBinned 1 (fun _ => b) mc δ (some M) .bValue g = .ok [v] ∧ M < v := by
  have hβ : b * Real.log 10 ≠ 0 := (mul_pos hb log_ten_pos).ne'
  obtain ⟨u, hu0, hu1, he⟩ := C59_every_magnitude (b * Real.log 10) (mc - δ / 2) M m hβ h1 h2
  refine ⟨⟨fun _ => u, fun _ => 0⟩, binTo δ m, ⟨fun _ => ⟨hu0, hu1⟩, fun _ => le_rfl⟩, ?_, h3⟩
  rw [simulateBinned_ok 1 _ mc δ (some M) _ _ hδ (simulate_truncated 1 _ _ M _ (fun _ _ => hβ) hM0)]
  simp [he]

/-- A case: `mc = 1`, width 1, maximum 1.75: the magnitude 1.6 is binned to 2. -/
example : ∃ g v, Proper g ∧ simulateBinned 1 (fun _ => 1) 1 1 (some (7 / 4)) .bValue g = .ok [v] ∧ 7 / 4 < v := by
  refine C59_defect_binned_above_max 1 1 1 (7 / 4) (8 / 5) one_pos (by norm_num) (by norm_num) (by norm_num) (by norm_num) ?_
  have : binTo (1 : ℝ) (8 / 5) = ((2 : ℤ) : ℝ) * 1 := by
    apply binTo_eq_of_near one_pos
    · norm_num [eps]
    · norm_num [eps]
  rw [this]
  norm_num

/-- Draws that a generator can make. -/
example : Proper ⟨fun _ => 1 / 2, fun _ => 3⟩ := ⟨fun _ => ⟨by norm_num, by norm_num⟩, fun _ => by norm_num⟩

end SeismoStats.Props
