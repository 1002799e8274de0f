/-
The Weichert estimator for magnitudes on a grid: its moments are tilted sums over the bins that contain a complete event.
-/
import Verif.Proofs.TiltedMean
import Verif.Props.Weichert

namespace SeismoStats.Props
open SeismoStats SeismoStats.Completeness
open Classical
noncomputable section

/-- Left edge of the bin that contains the lowest grid point `X0`, for bins starting at `c0`. -/
def edge0 (c0 X0 δ : ℝ) : ℝ := c0 + (⌊(X0 - c0) / δ⌋ : ℝ) * δ

theorem edge0_bounds (c0 X0 : ℝ) {δ : ℝ} (hδ : 0 < δ) : edge0 c0 X0 δ ≤ X0 ∧ X0 < edge0 c0 X0 δ + δ := by
  unfold edge0
  have h1 := Int.floor_le ((X0 - c0) / δ)
  have h2 := Int.lt_floor_add_one ((X0 - c0) / δ)
  rw [le_div_iff₀ hδ] at h1
  rw [div_lt_iff₀ hδ] at h2
  constructor <;> linarith

theorem cut_grid {c0 X0 δ magMax : ℝ} (hδ : 0 < δ) {j : ℕ} (h0 : c0 ≤ spaced X0 δ j) (h1 : spaced X0 δ j + δ ≤ magMax) :
    cutLeft (arange c0 (magMax + 1 / 100) δ) (spaced X0 δ j) = .ok (spaced (edge0 c0 X0 δ) δ j) := by
  rw [cutLeft_arange _ _ _ _ _ hδ]
  obtain ⟨b1, b2⟩ := edge0_bounds c0 X0 hδ
  have hk : 0 ≤ ⌊(X0 - c0) / δ⌋ + j := by
    have : (0 : ℝ) ≤ (X0 - c0) / δ + j := by
      have e : (X0 - c0) / δ + j = (spaced X0 δ j - c0) / δ := by unfold spaced; field_simp; ring
      rw [e]; exact div_nonneg (sub_nonneg.2 h0) hδ.le
    rw [← Int.floor_add_natCast]
    exact Int.floor_nonneg.2 this
  obtain ⟨k, hk'⟩ := Int.eq_ofNat_of_zero_le hk
  have hkr : (k : ℝ) = ⌊(X0 - c0) / δ⌋ + j := by exact_mod_cast hk'.symm
  have hedge : spaced (edge0 c0 X0 δ) δ j = c0 + k * δ := by
    unfold spaced edge0; rw [hkr]; ring
  have g1 : spaced (edge0 c0 X0 δ) δ j ≤ spaced X0 δ j := by unfold spaced; linarith
  refine ⟨k, ?_, hedge, g1, ?_⟩
  · rw [Int.lt_toNat, Int.lt_ceil]
    push_cast
    rw [lt_div_iff₀ hδ]
    linarith
  · unfold spaced; linarith

theorem mapM_ok {α β : Type} (f : α → Py β) (h : α → β) {l : List α} (hl : ∀ a ∈ l, f a = .ok (h a)) : l.mapM f = .ok (l.map h) := by
  induction l with
  | nil => rfl
  | cons a l ih =>
    rw [List.mapM_cons, hl a (by simp), ih fun b hb => hl b (by simp [hb])]
    rfl

/-- Sums over the table of counts. -/
theorem groups_sum {js : List ℕ} {f : ℕ → ℝ × ℝ} (hf : Function.Injective f) (φ : Row → ℝ) :
    ((groups (js.map f)).map φ).sum = ∑ j ∈ js.toFinset, φ ⟨(f j).1, (f j).2, js.count j⟩ := by
  unfold groups
  rw [List.map_map, ((List.perm_insertionSort keyLe (js.map f).dedup).map _).sum_eq, List.dedup_map_of_injective hf, List.map_map, ← List.sum_toFinset _ (List.nodup_dedup js),
    show js.dedup.toFinset = js.toFinset by ext; simp]
  refine Finset.sum_congr rfl fun j _ => ?_
  simp only [Function.comp]
  congr 2
  convert List.count_map_of_injective js f hf j

variable {c0 X0 δ : ℝ}

theorem key_injective (hδ : 0 < δ) (s : ℕ → ℝ) : Function.Injective fun j : ℕ => (spaced (edge0 c0 X0 δ) δ j, s j) := by
  intro i j h
  have h1 : spaced (edge0 c0 X0 δ) δ i = spaced (edge0 c0 X0 δ) δ j := congrArg Prod.fst h
  unfold spaced at h1
  have : (i : ℝ) * δ = j * δ := by linarith
  exact_mod_cast mul_right_cancel₀ hδ.ne' this

/-- The table of counts of events on the grid. -/
def gridRows (c0 X0 δ : ℝ) (s : ℕ → ℝ) (js : List ℕ) : List Row := groups (js.map fun j => (spaced (edge0 c0 X0 δ) δ j, s j))

theorem completeEvents_grid {mags years : List ℝ} {table : List (ℝ × ℝ)} {magMax : ℝ} (hδ : 0 < δ) (ha : table.Pairwise fun r s => r.1 ≤ s.1) {s : ℕ → ℝ} {js : List ℕ}
    (hC : completeSpec mags years table = js.map fun j => (spaced X0 δ j, s j)) (h0 : ∀ j ∈ js, mcOf table 0 ≤ spaced X0 δ j) (h1 : ∀ j ∈ js, spaced X0 δ j + δ ≤ magMax) :
    completeEvents mags years table magMax δ = .ok (gridRows (mcOf table 0) X0 δ s js) := by
  unfold completeEvents gridRows
  rw [complete_eq ha, hC]
  have h := mapM_ok (l := js.map fun j => (spaced X0 δ j, s j))
    (fun p => (do let e ← cutLeft (arange (table.getD 0 (0, 0)).1 (magMax + 1 / 100) δ) p.1; pure (e, p.2) : Py (ℝ × ℝ)))
    (fun p => (p.1 - X0 + edge0 (mcOf table 0) X0 δ, p.2)) (by
      intro p hp
      obtain ⟨j, hj, rfl⟩ := List.mem_map.1 hp
      have := cut_grid (magMax := magMax) hδ (h0 j hj) (h1 j hj)
      unfold mcOf at this
      simp only [bind, Except.bind, this]
      unfold spaced mcOf
      simp only [pure, Except.pure]
      congr 2
      ring)
  simp only [bind, Except.bind] at h ⊢
  rw [h, List.map_map]
  simp only [pure, Except.pure]
  congr 2
  refine List.map_congr_left fun j _ => ?_
  simp only [Function.comp]
  congr 1
  unfold spaced; ring

/-- Exposure of the bins that contain an event. -/
def gridWeight (L : ℝ) (s : ℕ → ℝ) (js : List ℕ) (j : ℕ) : ℝ := if j ∈ js.toFinset then L - s j else 0

/-- Bin centres. -/
def gridMid (c0 X0 δ : ℝ) : ℕ → ℝ := spaced (edge0 c0 X0 δ + δ / 2) δ

theorem grid_moment (hδ : 0 < δ) (L β : ℝ) (s : ℕ → ℝ) (js : List ℕ) (k : ℕ) : moment (gridRows c0 X0 δ s js) L δ β k = tilt (gridWeight L s js) (gridMid c0 X0 δ) k β := by
  unfold moment gridRows
  rw [groups_sum (key_injective hδ s), tilt_finite (v := gridWeight L s js) js.toFinset (fun j hj => if_neg hj)]
  refine Finset.sum_congr rfl fun j hj => ?_
  unfold gridWeight gridMid
  rw [if_pos hj]
  have : spaced (edge0 c0 X0 δ) δ j + δ * (1 / 2) = spaced (edge0 c0 X0 δ + δ / 2) δ j := by unfold spaced; ring
  simp only [this]

theorem grid_total (s : ℕ → ℝ) (js : List ℕ) : total (gridRows c0 X0 δ s js) = js.length := by
  unfold total gridRows
  rw [groups_total, List.length_map]

/-- Mean of the centres of the bins of the events. -/
def gridMean (c0 X0 δ : ℝ) (js : List ℕ) : ℝ := (js.map (gridMid c0 X0 δ)).sum / js.length

theorem grid_objective (hδ : 0 < δ) (L β : ℝ) (s : ℕ → ℝ) (js : List ℕ) (hpos : 0 < tilt (gridWeight L s js) (gridMid c0 X0 δ) 0 β) :
    objective (gridRows c0 X0 δ s js) L δ β = .fin |tiltMean (gridWeight L s js) (gridMid c0 X0 δ) β - gridMean c0 X0 δ js| := by
  unfold objective
  rw [grid_moment hδ, grid_moment hδ, grid_total]
  have e : ((gridRows c0 X0 δ s js).map fun r => (r.num : ℝ) * (r.edge + δ * (1 / 2))).sum = (js.map (gridMid c0 X0 δ)).sum := by
    unfold gridRows
    rw [groups_sum (key_injective hδ s), Finset.sum_list_map_count]
    refine Finset.sum_congr rfl fun j _ => ?_
    unfold gridMid
    rw [nsmul_eq_mul]
    congr 1
    unfold spaced; ring
  rw [e]
  unfold Fl.div
  rw [if_neg hpos.ne']
  rfl

/-- The rate in terms of the tilted sums. -/
theorem grid_rate (hδ : 0 < δ) (L β : ℝ) (s : ℕ → ℝ) (js : List ℕ) (hpos : 0 < tilt (gridWeight L s js) (gridMid c0 X0 δ) 0 β) :
    weichertRate (gridRows c0 X0 δ s js) L δ β =
      .fin (js.length * (tilt (fun j => if j ∈ js.toFinset then 1 else 0) (gridMid c0 X0 δ) 0 β / tilt (gridWeight L s js) (gridMid c0 X0 δ) 0 β)) := by
  unfold weichertRate
  rw [grid_moment hδ, grid_total]
  have e : ((gridRows c0 X0 δ s js).map fun r => Real.exp (-β * (r.edge + δ * (1 / 2)))).sum = tilt (fun j => if j ∈ js.toFinset then 1 else 0) (gridMid c0 X0 δ) 0 β := by
    unfold gridRows
    rw [groups_sum (key_injective hδ s), tilt_finite (v := fun j => if j ∈ js.toFinset then (1 : ℝ) else 0) js.toFinset (fun j hj => if_neg hj)]
    refine Finset.sum_congr rfl fun j hj => ?_
    rw [if_pos hj]
    unfold gridMid
    rw [pow_zero, mul_one, one_mul]
    congr 2
    unfold spaced; ring
  rw [e]
  unfold Fl.div
  rw [if_neg hpos.ne']
  rfl

/-- The standard deviation in terms of the tilted sums. -/
theorem grid_std (hδ : 0 < δ) (L β : ℝ) (s : ℕ → ℝ) (js : List ℕ) (hjs : js ≠ []) (hpos : 0 < tilt (gridWeight L s js) (gridMid c0 X0 δ) 0 β)
    (hV : 0 < tilt (gridWeight L s js) (gridMid c0 X0 δ) 0 β * tilt (gridWeight L s js) (gridMid c0 X0 δ) 2 β - tilt (gridWeight L s js) (gridMid c0 X0 δ) 1 β ^ 2) :
    stdBeta (gridRows c0 X0 δ s js) L δ β = .fin (Real.sqrt (tilt (gridWeight L s js) (gridMid c0 X0 δ) 0 β ^ 2 / (tilt (gridWeight L s js) (gridMid c0 X0 δ) 0 β *
      tilt (gridWeight L s js) (gridMid c0 X0 δ) 2 β - tilt (gridWeight L s js) (gridMid c0 X0 δ) 1 β ^ 2) / js.length)) := by
  unfold stdBeta
  simp only [grid_moment hδ, grid_total]
  generalize tilt (gridWeight L s js) (gridMid c0 X0 δ) 0 β = a at *
  generalize tilt (gridWeight L s js) (gridMid c0 X0 δ) 1 β = b at *
  generalize tilt (gridWeight L s js) (gridMid c0 X0 δ) 2 β = c at *
  have hN : (0 : ℝ) < js.length := by exact_mod_cast List.length_pos_iff.2 hjs
  rw [Real.sqrt_sq hpos.le]
  unfold Fl.div
  rw [if_neg (by linarith : b ^ 2 - a * c ≠ 0)]
  unfold sqrtFl Fl.sqrt
  have e : -(1 / (js.length : ℝ)) * a ^ 2 / (b ^ 2 - a * c) = a ^ 2 / (a * c - b ^ 2) / js.length := by
    have h1 : b ^ 2 - a * c ≠ 0 := by linarith
    have h2 := hV.ne'
    rw [div_div, div_eq_div_iff h1 (mul_ne_zero h2 hN.ne')]
    field_simp
    ring
  simp only [e]
  rw [if_neg (not_lt.2 (by positivity))]

theorem mean_between {l : List ℝ} {p q : ℝ} (hp : p ∈ l) (hq : q ∈ l) (hne : p ≠ q) : (∃ y ∈ l, y < l.sum / l.length) ∧ ∃ y ∈ l, l.sum / l.length < y := by
  have hl : (0 : ℝ) < l.length := by exact_mod_cast List.length_pos_of_mem hp
  set m := l.sum / l.length with hm
  have e : ∀ c : ℝ, (l.map fun y => c * (y - m)).sum = 0 := by
    intro c
    rw [List.sum_map_mul_left]
    have : (l.map fun y => y - m).sum = l.sum - l.length * m := by
      clear hm hl hp hq
      generalize m = m'
      induction l with
      | nil => simp
      | cons y l ih => simp only [List.map_cons, List.sum_cons, ih, List.length_cons]; push_cast; ring
    rw [this, hm]
    field_simp
    ring
  have key : ∀ c : ℝ, c ≠ 0 → (∀ y ∈ l, 0 ≤ c * (y - m)) → ∀ y ∈ l, y = m := by
    intro c hc h y hy
    have h1 := List.single_le_sum (l := l.map fun y => c * (y - m)) (by simpa using h) _ (List.mem_map_of_mem hy)
    rw [e c] at h1
    have h2 := le_antisymm h1 (h y hy)
    rcases mul_eq_zero.1 h2 with h3 | h3
    · exact absurd h3 hc
    · linarith
  constructor
  · by_contra hc
    push Not at hc
    have := key 1 one_ne_zero fun y hy => by linarith [hc y hy]
    exact hne ((this p hp).trans (this q hq).symm)
  · by_contra hc
    push Not at hc
    have := key (-1) (by norm_num) fun y hy => by linarith [hc y hy]
    exact hne ((this p hp).trans (this q hq).symm)

theorem gridWeight_zero (L : ℝ) (s : ℕ → ℝ) (js : List ℕ) : ∀ j, j ∉ js.toFinset → gridWeight L s js j = 0 := fun _ hj => if_neg hj

theorem gridWeight_nonneg {L : ℝ} {s : ℕ → ℝ} {js : List ℕ} (hs : ∀ j ∈ js, s j < L) (j : ℕ) : 0 ≤ gridWeight L s js j := by
  unfold gridWeight
  split_ifs with h
  · exact (sub_pos.2 (hs j (List.mem_toFinset.1 h))).le
  · exact le_rfl

theorem gridWeight_pos {L : ℝ} {s : ℕ → ℝ} {js : List ℕ} (hs : ∀ j ∈ js, s j < L) {j : ℕ} (hj : j ∈ js) : 0 < gridWeight L s js j := by
  unfold gridWeight
  rw [if_pos (List.mem_toFinset.2 hj)]
  exact sub_pos.2 (hs j hj)

theorem gridMid_ne (hδ : 0 < δ) {i j : ℕ} (h : i ≠ j) : gridMid c0 X0 δ i ≠ gridMid c0 X0 δ j := by
  unfold gridMid spaced
  intro e
  have : (i : ℝ) * δ = j * δ := by linarith
  exact h (by exact_mod_cast mul_right_cancel₀ hδ.ne' this)

/-- The distance between expected and observed mean: continuous, strictly decreasing, with a zero as soon as two bins contain events. -/
theorem grid_root (hδ : 0 < δ) {L : ℝ} {s : ℕ → ℝ} {js : List ℕ} (hs : ∀ j ∈ js, s j < L) {p q : ℕ} (hp : p ∈ js) (hq : q ∈ js) (hne : p ≠ q) :
    Continuous (fun β => tiltMean (gridWeight L s js) (gridMid c0 X0 δ) β - gridMean c0 X0 δ js) ∧
    StrictAnti (fun β => tiltMean (gridWeight L s js) (gridMid c0 X0 δ) β - gridMean c0 X0 δ js) ∧
    ∃ β, tiltMean (gridWeight L s js) (gridMid c0 X0 δ) β - gridMean c0 X0 δ js = 0 := by
  have h0 := gridWeight_zero L s js
  have hv := gridWeight_nonneg hs
  have hT := fun β => finite_tiltable js.toFinset h0 (gridMid c0 X0 δ) β
  refine ⟨?_, ?_, ?_⟩
  · refine Continuous.sub ?_ continuous_const
    exact (tilt_finite_continuous _ h0 _ 1).div (tilt_finite_continuous _ h0 _ 0) fun β => (tilt_pos hv (hT β) (gridWeight_pos hs hp)).ne'
  · intro β β' hβ
    exact sub_lt_sub_right (tilt_anti hv hβ (hT β) (hT β') (gridWeight_pos hs hp) (gridWeight_pos hs hq) (gridMid_ne hδ hne)) _
  · obtain ⟨⟨y, hy, h1⟩, z, hz, h2⟩ := mean_between (l := js.map (gridMid c0 X0 δ)) (List.mem_map_of_mem hp) (List.mem_map_of_mem hq) (gridMid_ne hδ hne)
    obtain ⟨i, hi, rfl⟩ := List.mem_map.1 hy
    obtain ⟨i', hi', rfl⟩ := List.mem_map.1 hz
    rw [List.length_map] at h1 h2
    obtain ⟨β, hβ⟩ := tilt_exists js.toFinset h0 hv (gridMid c0 X0 δ) (gridWeight_pos hs hi) (gridWeight_pos hs hi') h1 h2
    exact ⟨β, sub_eq_zero.2 hβ⟩

/-- Strictly positive spread of the tilted weights. -/
theorem tilt_spread {v x : ℕ → ℝ} (hv : ∀ j, 0 ≤ v j) {β : ℝ} (h : Tiltable v x β) {i i' : ℕ} (hi : 0 < v i) (hi' : 0 < v i') (hx : x i ≠ x i') :
    0 < tilt v x 0 β * tilt v x 2 β - tilt v x 1 β ^ 2 := by
  have p := tilt_pos hv h hi
  set μ := tilt v x 1 β / tilt v x 0 β with hμ
  have hsum : HasSum (fun j => v j * (x j - μ) ^ 2 * Real.exp (-β * x j)) (tilt v x 2 β - 2 * μ * tilt v x 1 β + μ ^ 2 * tilt v x 0 β) := by
    have := ((h 2).hasSum.sub ((h 1).hasSum.mul_left (2 * μ))).add ((h 0).hasSum.mul_left (μ ^ 2))
    refine this.congr_fun fun j => ?_
    ring
  have hpos : 0 < tilt v x 2 β - 2 * μ * tilt v x 1 β + μ ^ 2 * tilt v x 0 β := by
    rw [← hsum.tsum_eq]
    obtain ⟨l, hl, hlx⟩ : ∃ l, 0 < v l ∧ x l ≠ μ := by
      by_cases h1 : x i = μ
      · exact ⟨i', hi', fun h2 => hx (h1.trans h2.symm)⟩
      · exact ⟨i, hi, h1⟩
    refine hsum.summable.tsum_pos (fun j => mul_nonneg (mul_nonneg (hv j) (sq_nonneg _)) (Real.exp_pos _).le) l ?_
    exact mul_pos (mul_pos hl (lt_of_le_of_ne (sq_nonneg _) (pow_ne_zero 2 (sub_ne_zero.2 hlx)).symm)) (Real.exp_pos _)
  have e : tilt v x 0 β * tilt v x 2 β - tilt v x 1 β ^ 2 = tilt v x 0 β * (tilt v x 2 β - 2 * μ * tilt v x 1 β + μ ^ 2 * tilt v x 0 β) := by
    rw [hμ]; field_simp; ring
  rw [e]
  exact mul_pos p hpos

end
end SeismoStats.Props
