/-
Property C94: the Kolmogorov-Smirnov test in double precision.
-/
import Verif.Proofs.DoubleKs
import Verif.Props.DoubleFmd
import Verif.Props.McKs
import Verif.Props.DoubleBValue

namespace SeismoStats.Props
open SeismoStats SeismoStats.EstimateMc
open SeismoStats.Double (rnd rnd_err rnd_pos rnd_rnd unit)
open Classical
noncomputable section

/-- The bound of the error of the KS distance for magnitudes at most `R` bins away from zero, `η` being the accuracy of numpy's functions. -/
def ksError (R η : ℝ) : ℝ := (6 * R + 18) * unit + 5 * η

theorem weightOf_grid (ks : List ℤ) {D : ℝ} (hD : 0 < D) (c : ℤ) (t : ℝ) (ht : t = c * D) :
    Spec.weightOf (ks.map fun k : ℤ => (k : ℝ) * D) (effWeights (ks.map fun k : ℤ => (k : ℝ) * D) none) (· ≤ t) = (ks.countP fun k => decide (k ≤ c) : ℕ) := by
  subst ht
  unfold Spec.weightOf effWeights
  have e : List.zip (ks.map fun k : ℤ => (k : ℝ) * D) ((ks.map fun k : ℤ => (k : ℝ) * D).map fun _ => (1 : ℝ)) = (ks.map fun k : ℤ => (k : ℝ) * D).map fun v => (v, 1) := by
    rw [List.map_prod_left_eq_zip]
  dsimp only
  rw [e, List.map_map, List.map_map]
  induction ks with
  | nil => simp
  | cons k r ih =>
    rw [List.map_cons, List.sum_cons, ih (by rw [List.map_prod_left_eq_zip]), List.countP_cons]
    simp only [Function.comp_apply]
    have : (k : ℝ) * D ≤ c * D ↔ k ≤ c := by
      rw [mul_le_mul_iff_left₀ hD]; exact_mod_cast Iff.rfl
    by_cases h : k ≤ c
    · rw [if_pos (this.2 h), if_pos (by simpa using h)]; push_cast; ring
    · rw [if_neg (fun hh => h (this.1 hh)), if_neg (by simpa using h)]; push_cast; ring

theorem cumsum_nat (l : List ℕ) (acc i : ℕ) (hi : i < (cumsumFrom acc l).length) : (cumsumFrom acc l)[i] = acc + (l.take (i + 1)).sum := by
  induction l generalizing acc i with
  | nil => simp [cumsumFrom] at hi
  | cons a l ih =>
    cases i with
    | zero => simp [cumsumFrom]
    | succ i =>
      simp only [cumsumFrom, List.getElem_cons_succ, List.take_succ_cons, List.sum_cons]
      rw [ih]; ring

theorem length_cumsum_nat (l : List ℕ) (acc : ℕ) : (cumsumFrom acc l).length = l.length := by
  induction l generalizing acc with
  | nil => rfl
  | cons a l ih => simp [cumsumFrom, ih]

/-- The histogram of grid values over the bins from `a` to `a + M`. -/
theorem histogram_double (ks : List ℤ) (a : ℤ) (M : ℕ) {D : ℝ} (hD : 0 < D) (hk : ∀ k ∈ ks, |(k : ℝ)| ≤ 10 ^ 6) (ha : |(a : ℝ)| ≤ 10 ^ 6)
    (hM : |((a + M : ℤ) : ℝ)| ≤ 10 ^ 6) :
    Double.histogram (ks.map fun k : ℤ => rnd (k * D))
        (((List.range (M + 2)).map fun i : ℕ => rnd (((a + i : ℤ) : ℝ) * D)).map fun e => Double.sub e (Double.div (rnd D) 2)) =
      .ok ((List.range (M + 1)).map fun i : ℕ => ks.count (a + i)) := by
  set edges := ((List.range (M + 2)).map fun i : ℕ => rnd (((a + i : ℤ) : ℝ) * D)).map fun e => Double.sub e (Double.div (rnd D) 2) with hed
  have hel : edges.length = M + 2 := by rw [hed]; simp
  have heg : ∀ i, i < M + 2 → edges.getD i 0 = Double.threshold (rnd (0 + ((a + i : ℤ) : ℝ) * D)) (rnd D) := by
    intro i hi'
    rw [List.getD_eq_getElem _ _ (by rw [hel]; exact hi')]
    simp only [hed, List.getElem_map, List.getElem_range, zero_add]
    rfl
  have hbound : ∀ k : ℤ, |(k : ℝ)| ≤ 10 ^ 7 → |(0 : ℝ) + k * D| ≤ 10 ^ 14 * D := by
    intro k hk'
    rw [zero_add, abs_mul, abs_of_pos hD]
    exact mul_le_mul_of_nonneg_right (by linarith) hD.le
  have hli : ∀ i, i < M + 2 → |((a + i : ℤ) : ℝ)| ≤ 10 ^ 7 := by
    intro i hi'
    have a1 : (i : ℝ) ≤ M + 1 := by exact_mod_cast Nat.le_of_lt_succ hi'
    have hi0 : (0 : ℝ) ≤ i := Nat.cast_nonneg i
    have p1 := abs_le.1 ha
    have p2 := abs_le.1 hM
    push_cast at p2 ⊢
    rw [abs_le]
    constructor <;> [linarith [p1.1]; linarith [p2.2]]
  have hcmp : ∀ i, i < M + 2 → ∀ k ∈ ks, (edges.getD i 0 ≤ rnd (k * D) ↔ a + i ≤ k) := by
    intro i hi' k hk'
    rw [heg i hi']
    have := C81_threshold 0 D hD k (a + i) (hbound k (by linarith [hk k hk'])) (hbound _ (hli i hi'))
    rw [zero_add ((k : ℝ) * D)] at this
    exact this
  have hneq : ∀ i, i < M + 2 → ∀ k ∈ ks, rnd (k * D) ≠ edges.getD i 0 := by
    intro i hi' k hk' he
    rw [heg i hi'] at he
    have h1 := abs_le.1 (threshold_err hD (hbound _ (hli i hi')))
    have h2 := abs_le.1 (grid_near hD (hk k hk'))
    rw [← he] at h1
    have h3 : ((a + i : ℤ) : ℝ) - 1 < k := by
      by_contra hc
      have := mul_le_mul_of_nonneg_right (not_lt.1 hc) hD.le
      linarith [h1.1, h2.2]
    have h4 : (k : ℝ) < ((a + i : ℤ) : ℝ) := by
      by_contra hc
      have := mul_le_mul_of_nonneg_right (not_lt.1 hc) hD.le
      linarith [h1.2, h2.1]
    have h5 : a + (i : ℤ) - 1 < k := by exact_mod_cast h3
    have h6 : k < a + (i : ℤ) := by exact_mod_cast h4
    omega
  have hmono : ∀ i, i + 1 < edges.length → edges.getD i 0 ≤ edges.getD (i + 1) 0 := by
    intro i hi'
    rw [hel] at hi'
    rw [heg i (by omega), heg (i + 1) hi']
    unfold Double.threshold Double.sub
    apply Double.rnd_mono
    apply sub_le_sub_right
    apply Double.rnd_mono
    push_cast
    nlinarith
  unfold Double.histogram
  rw [if_pos hmono, hel]
  congr 1
  apply List.map_congr_left
  intro i hi'
  rw [List.mem_range] at hi'
  rw [List.countP_map, List.count]
  apply List.countP_congr
  intro k hk'
  have c1 := hcmp i (by omega) k hk'
  have c2 := hcmp (i + 1) (by omega) k hk'
  have c3 := hneq (i + 1) (by omega) k hk'
  simp only [Function.comp_apply, Bool.and_eq_true, Bool.or_eq_true, decide_eq_true_eq, beq_iff_eq]
  rw [c1]
  constructor
  · rintro ⟨h1, h2 | ⟨h2, h3⟩⟩
    · have : ¬ (a + ((i + 1 : ℕ) : ℤ) ≤ k) := fun hh => absurd (c2.2 hh) (not_le.2 h2)
      push_cast at this
      omega
    · exact absurd h3 c3
  · intro h
    refine ⟨by omega, Or.inl ?_⟩
    by_contra hh
    have := c2.1 (not_lt.1 hh)
    push_cast at this
    omega

theorem grid_strict (a : ℤ) (M : ℕ) {D : ℝ} (hD : 0 < D) (ha : |(a : ℝ)| ≤ 10 ^ 6) (hM : |((a + M : ℤ) : ℝ)| ≤ 10 ^ 6) :
    ((List.range (M + 1)).map fun i : ℕ => rnd (((a + i : ℤ) : ℝ) * D)).Pairwise (· < ·) := by
  rw [List.pairwise_map]
  refine (List.pairwise_lt_range (n := M + 1)).imp_of_mem ?_
  intro i j hi hj hij
  rw [List.mem_range] at hi hj
  have hb : ∀ i : ℕ, i < M + 1 → |((a + i : ℤ) : ℝ)| ≤ 10 ^ 6 := by
    intro i hi
    have a1 : (i : ℝ) ≤ M := by exact_mod_cast Nat.le_of_lt_succ hi
    have hi0 : (0 : ℝ) ≤ i := Nat.cast_nonneg i
    have p1 := abs_le.1 ha
    have p2 := abs_le.1 hM
    push_cast at p2 ⊢
    rw [abs_le]
    constructor <;> [linarith [p1.1]; linarith [p2.2]]
  have h1 := abs_le.1 (grid_near hD (hb i hi))
  have h2 := abs_le.1 (grid_near hD (hb j hj))
  have h3 : ((a + i : ℤ) : ℝ) + 1 ≤ ((a + j : ℤ) : ℝ) := by exact_mod_cast (by omega : a + (i : ℤ) + 1 ≤ a + j)
  have := mul_le_mul_of_nonneg_right h3 hD.le
  linarith [h1.2, h2.1]

/-- The KS distance of grid values in double precision. -/
theorem ksDistance_double {N : Double.Np} {F : Double.NpKs} {h : ℕ → ℕ} {η : ℝ} (hN : Double.Accurate N h η) (hF : Double.AccurateKs F η) (hη : η ≤ 1 / 16)
    (ks : List ℤ) (a : ℤ) (M : ℕ) {D b R : ℝ} (hD : 0 < D) (hb : 0 < b) (hR1 : 1 ≤ R) (hR : R ≤ 10 ^ 6) (hk : ∀ k ∈ ks, a ≤ k ∧ |(k : ℝ)| ≤ 10 ^ 6)
    (ha : |(a : ℝ)| ≤ R) (hM : |((a + M : ℤ) : ℝ)| ≤ R) (hex : ∃ k ∈ ks, k ≤ a + M) :
    ∃ d' : ℝ, Double.ksDistance F (ks.map fun k : ℤ => rnd (k * D)) ((List.range (M + 2)).map fun i : ℕ => rnd (((a + i : ℤ) : ℝ) * D)) (rnd (a * D)) (rnd D)
        (Double.bToBeta N b) = .ok (.fin d') ∧
      ∀ d, IsKsDistance (ks.map fun k : ℤ => (k : ℝ) * D) (effWeights (ks.map fun k : ℤ => (k : ℝ) * D) none) (a * D) D (b * Real.log 10) (M + 1) d → |d' - d| ≤ ksError R η := by
  have ha6 := ha.trans hR
  have hM6 := hM.trans hR
  set cum : ℕ → ℕ := fun i => ks.countP fun k => decide (k ≤ a + i) with hcum
  have hcs : ∀ n : ℕ, ((List.range (n + 1)).map fun i : ℕ => ks.count (a + i)).sum = cum n := by
    intro n
    rw [count_sum]
    apply List.countP_congr
    intro k hk'
    have := (hk k hk').1
    simp only [decide_eq_true_eq]
    push_cast
    omega
  have hpos : cum M ≠ 0 := by
    obtain ⟨k, hk', hle⟩ := hex
    have : 0 < cum M := List.countP_pos_iff.2 ⟨k, hk', by simpa using hle⟩
    omega
  have hmonoC : ∀ i : ℕ, i < M + 1 → cum i ≤ cum M := by
    intro i hi
    apply List.countP_mono_left
    intro k _ hk'
    simp only [decide_eq_true_eq] at hk' ⊢
    omega
  set e' : ℕ → ℝ := fun i => abs (Double.sub (Double.div (cum i) (cum M)) (Double.cdfAt F (rnd (a * D)) (rnd D) (Double.bToBeta N b) (rnd (((a + i : ℤ) : ℝ) * D)))) with he'
  set e : ℕ → ℝ := fun i => abs ((cum i : ℝ) / cum M - (1 - Real.exp (-(b * Real.log 10) * ((i + 1) * D)))) with he
  have hclose : ∀ i : ℕ, i < M + 1 → |e' i - e i| ≤ ksError R η := by
    intro i hi
    have hai : |((a + i : ℤ) : ℝ)| ≤ R := by
      have a1 : (i : ℝ) ≤ M := by exact_mod_cast Nat.le_of_lt_succ hi
      have hi0 : (0 : ℝ) ≤ i := Nat.cast_nonneg i
      have p1 := abs_le.1 ha
      have p2 := abs_le.1 hM
      push_cast at p2 ⊢
      rw [abs_le]
      constructor <;> [linarith [p1.1]; linarith [p2.2]]
    have := Double.ksTerm_close hN hF hη hD hb hR1 (by linarith) (by omega : a ≤ a + i) hai ha (hmonoC i hi)
    have e1 : ((a + i : ℤ) : ℝ) + 1 - a = i + 1 := by push_cast; ring
    rw [e1] at this
    exact this
  have hlist : List.zipWith (fun a b => (Fl.mapFin (fun v => |Double.sub v b|) a)) (Double.fractions ((List.range (M + 1)).map fun i : ℕ => ks.count (a + i)))
      (((List.range (M + 1)).map fun i : ℕ => rnd (((a + i : ℤ) : ℝ) * D)).map (Double.cdfAt F (rnd (a * D)) (rnd D) (Double.bToBeta N b))) =
      ((List.range (M + 1)).map e').map Fl.fin := by
    apply List.ext_getElem
    · simp [Double.fractions, length_cumsum_nat]
    · intro i h1 h2
      have hi : i < M + 1 := by simpa using h2
      rw [List.getElem_zipWith]
      unfold Double.fractions
      simp only [List.getElem_map]
      rw [cumsum_nat, ← List.map_take, List.take_range, Nat.min_eq_left (by omega)]
      simp only [hcs, if_neg hpos, List.getElem_range, zero_add]
      rfl
  obtain ⟨d', h1, h2, h3⟩ := npMax_fin (l := (List.range (M + 1)).map e') (by simp)
  refine ⟨d', ?_, ?_⟩
  · unfold Double.ksDistance
    rw [if_neg (by simp), histogram_double ks a M hD (fun k hk' => (hk k hk').2) ha6 hM6]
    have hdl : ((List.range (M + 2)).map fun i : ℕ => rnd (((a + i : ℤ) : ℝ) * D)).dropLast = (List.range (M + 1)).map fun i : ℕ => rnd (((a + i : ℤ) : ℝ) * D) := by
      rw [List.range_succ, List.map_append, List.map_singleton, List.dropLast_concat]
    rw [hdl]
    unfold Double.cdfDiscreteExp
    rw [uniqueSorted_of_sorted (grid_strict a M hD ha6 hM6)]
    show Fl.npMax _ = _
    rw [← h1]
    congr 1
  · rintro d ⟨⟨i, hi, hd⟩, hub⟩
    have hw : ∀ n : ℕ, Spec.weightOf (ks.map fun k : ℤ => (k : ℝ) * D) (effWeights (ks.map fun k : ℤ => (k : ℝ) * D) none) (· ≤ (a : ℝ) * D + n * D) = cum n :=
      fun n => weightOf_grid ks hD (a + n) _ (by push_cast; ring)
    rw [Nat.add_sub_cancel, hw, hw] at hd
    obtain ⟨j, hj, hj'⟩ := List.mem_map.1 h2
    rw [List.mem_range] at hj
    have g1 : e j ≤ d := hub ⟨j, hj, by rw [Nat.add_sub_cancel, hw, hw]⟩
    have g2 : e' i ≤ d' := h3 (List.mem_map.2 ⟨i, List.mem_range.2 hi, rfl⟩)
    have c1 := abs_le.1 (hclose i hi)
    have c2 := abs_le.1 (hclose j hj)
    have hd2 : d = e i := hd
    rw [abs_le]
    constructor
    · linarith [c1.1]
    · linarith [c2.2]

theorem exists_ks (x w : List ℝ) (mc δ β : ℝ) (M : ℕ) : ∃ d, IsKsDistance x w mc δ β (M + 1) d := by
  obtain ⟨d, -, h2, h3⟩ := npMax_fin (l := (List.range (M + 1)).map fun k : ℕ => |Spec.weightOf x w (· ≤ mc + k * δ) /
    Spec.weightOf x w (· ≤ mc + (M + 1 - 1 : ℕ) * δ) - (1 - Real.exp (-β * ((k + 1) * δ)))|) (by simp)
  refine ⟨d, ?_, ?_⟩
  · obtain ⟨k, hk, he⟩ := List.mem_map.1 h2
    exact ⟨k, List.mem_range.1 hk, he.symm⟩
  · rintro e ⟨k, hk, rfl⟩
    exact h3 (List.mem_map.2 ⟨k, List.mem_range.2 hk, rfl⟩)

theorem ge_mono {x : Fl ℝ} {d e : ℝ} (h : d ≤ e) (hx : Fl.ge x (.fin e) = true) : Fl.ge x (.fin d) = true := by
  cases x with
  | fin v =>
    simp only [Fl.ge, decide_eq_true_eq] at hx ⊢
    linarith
  | _ => exact hx

/-- C94, distances given: magnitudes that are multiples of the bin size `j / 10^p` at or above the completeness magnitude `a j / 10^p`, at most `R` bins away
from zero, and a positive b-value. The test in double precision does not fail; its distance differs at most by `ksError R η` from the KS distance over the bins
from the completeness magnitude to the largest magnitude, which the test in exact arithmetic returns. The p-value is the fraction of the distances that are not
smaller, where only distances within this error of the exact one can be counted differently; if there is none, it is the exact p-value, rounded. -/
theorem C94_given {N : Double.Np} {F : Double.NpKs} {h : ℕ → ℕ} {η : ℝ} (hN : Double.Accurate N h η) (hF : Double.AccurateKs F η) (hη : η ≤ 1 / 16)
    (ks : List ℤ) (a hi : ℤ) (j p : ℕ) (hj : (10 : ℝ) ^ p ≤ j * 10 ^ 12) (hj7 : (j : ℝ) ≤ 10 ^ 7) {b R : ℝ} (hb : 0 < b) (hR1 : 1 ≤ R) (hR : R ≤ 10 ^ 6)
    (hk : ∀ k ∈ ks, a ≤ k ∧ |(k : ℝ)| ≤ R) (ha : |(a : ℝ)| ≤ R) (hhi : IsGreatest {k | k ∈ ks} hi) (warn : Bool)
    (hv : warn = false ∨ ∃ u ∈ ks, ∃ v ∈ ks, u ≠ v) (l : List (Fl ℝ)) (hl : l ≠ []) (sims sims' : List (List ℝ)) :
    ∃ d d' : ℝ, ∃ c c' : ℕ,
      ksTest warn (ks.map fun k : ℤ => (k : ℝ) * ((j : ℝ) / 10 ^ p)) (a * ((j : ℝ) / 10 ^ p)) ((j : ℝ) / 10 ^ p) (.fin b) (some l) sims none =
        .ok (.fin (c / l.length), .fin d, l) ∧
      Double.ksTest N F warn (ks.map fun k : ℤ => rnd (k * ((j : ℝ) / 10 ^ p))) (rnd (a * ((j : ℝ) / 10 ^ p))) (rnd ((j : ℝ) / 10 ^ p)) p b (some l) sims' =
        .ok (.fin (rnd (c' / l.length)), .fin d', l) ∧
      IsKsDistance (ks.map fun k : ℤ => (k : ℝ) * ((j : ℝ) / 10 ^ p)) (ks.map fun _ => 1) (a * ((j : ℝ) / 10 ^ p)) ((j : ℝ) / 10 ^ p) (b * Real.log 10)
        ((hi - a).toNat + 1) d ∧
      |d' - d| ≤ ksError R η ∧
      (l.countP fun x => Fl.ge x (.fin (d + ksError R η))) ≤ c' ∧ c' ≤ (l.countP fun x => Fl.ge x (.fin (d - ksError R η))) ∧
      ((∀ v, Fl.fin v ∈ l → ksError R η < |v - d|) → c' = c) := by
  have hj1 : 1 ≤ j := by
    rcases Nat.eq_zero_or_pos j with h | h
    · subst h; simp at hj; linarith [pow_pos (by norm_num : (0 : ℝ) < 10) p]
    · exact h
  have hj' : (1 : ℝ) ≤ j := by exact_mod_cast hj1
  have heps : ¬ rnd ((j : ℝ) / 10 ^ p) < Double.eps := by
    rw [not_lt]
    apply Double.rnd_mono
    rw [div_le_div_iff₀ (by positivity) (by positivity)]
    linarith
  have hδ12 : 1 / 10 ^ 12 ≤ (j : ℝ) / 10 ^ p := by
    rw [div_le_div_iff₀ (by positivity) (by positivity)]
    linarith
  have hbinned := fun t hn => arange_binned a t j p hj1 hj7 (ha.trans hR) hn
  set D : ℝ := (j : ℝ) / 10 ^ p with hDd
  have hD : 0 < D := by positivity
  have hδ := rnd_pos hD
  have hhi1 : hi ∈ ks := hhi.1
  have hle : a ≤ hi := (hk hi hhi1).1
  have hkne : ks ≠ [] := by rintro rfl; simp at hhi1
  set M := (hi - a).toNat with hMd
  have hMz : a + (M : ℤ) = hi := by omega
  have hMr : |((a + M : ℤ) : ℝ)| ≤ R := by rw [hMz]; exact (hk hi hhi1).2
  obtain ⟨d', hd', hclose⟩ := ksDistance_double hN hF hη ks a M hD hb hR1 hR (fun k hk' => ⟨(hk k hk').1, (hk k hk').2.trans hR⟩) ha hMr ⟨hi, hhi1, hMz.ge⟩
  -- exact
  have hinj : ∀ {x y : ℤ}, (x : ℝ) * D = y * D → x = y := fun h => by exact_mod_cast mul_right_cancel₀ hD.ne' h
  have htop : amax? (ks.map fun k : ℤ => (k : ℝ) * D) = some (hi * D) := by
    rw [amax?_eq_some_iff]
    refine ⟨List.mem_map.2 ⟨hi, hhi1, rfl⟩, ?_⟩
    intro x hx
    obtain ⟨k, hk', rfl⟩ := List.mem_map.1 hx
    exact mul_le_mul_of_nonneg_right (by exact_mod_cast hhi.2 hk') hD.le
  obtain ⟨n, hn1, hbins, hn⟩ := ksBins_grid a (top := hi * D) hδ12 (mul_le_mul_of_nonneg_right (by exact_mod_cast hle) hD.le)
  have hnM : n = M + 1 := by
    have h1 : M < n := by
      rw [hn]
      have : (a : ℝ) * D + M * D = hi * D := by rw [← hMz]; push_cast; ring
      linarith
    have h2 : ¬ (M + 1 < n) := by
      rw [hn]
      have : (a : ℝ) * D + (M + 1 : ℕ) * D = hi * D + D := by rw [← hMz]; push_cast; ring
      linarith
    omega
  subst hnM
  have hOn : OnBins ((a : ℝ) * D) D (ks.map fun k : ℤ => (k : ℝ) * D) := by
    intro v hv
    obtain ⟨k, hk', rfl⟩ := List.mem_map.1 hv
    refine ⟨(k - a).toNat, ?_⟩
    have h1 := (hk k hk').1
    have h2 : (((k - a).toNat : ℤ) : ℝ) = ((k - a : ℤ) : ℝ) := by congr 1; omega
    rw [Int.cast_natCast] at h2
    rw [h2]; push_cast; ring
  obtain ⟨d, hd, hKS⟩ := ksDistance_grid (β := b * Real.log 10) a (M + 1) (by omega) hD hOn
    (w := effWeights (ks.map fun k : ℤ => (k : ℝ) * D) none) (by simp [effWeights]) (weightOf_ones_pos ⟨hi * D, List.mem_map.2 ⟨hi, hhi1, rfl⟩, by
      rw [Nat.add_sub_cancel, ← hMz]; push_cast; linarith⟩)
  have herr := hclose d hKS
  have hab := abs_le.1 herr
  refine ⟨d, d', l.countP fun x => Fl.ge x (.fin d), l.countP fun x => Fl.ge x (.fin d'), ?_, ?_, ?_, herr, ?_, ?_, ?_⟩
  · unfold ksTest
    rw [ksGuard_false (by simpa using hkne) (hv.imp id (by
      rintro ⟨u, hu, v, hv, huv⟩
      exact ⟨u * D, List.mem_map.2 ⟨u, hu, rfl⟩, v * D, List.mem_map.2 ⟨v, hv, rfl⟩, fun h => huv (hinj h)⟩))]
    unfold ksTestCore
    simp only [bind, Except.bind, pure, Except.pure, htop, hbins, onesLike_eq, BValue.bToBeta, Fl.mapFin, hd]
    unfold pValue
    rw [if_neg hl]
  · have hrinj : ∀ {x y : ℤ}, x ∈ ks → y ∈ ks → rnd (x * D) = rnd (y * D) → x = y := by
      intro x y hx hy he
      have h1 := abs_le.1 (grid_near hD ((hk x hx).2.trans hR))
      have h2 := abs_le.1 (grid_near hD ((hk y hy).2.trans hR))
      rw [he] at h1
      have h3 : (x : ℝ) < y + 1 := by
        by_contra hc
        have := mul_le_mul_of_nonneg_right (not_lt.1 hc) hD.le
        linarith [h1.1, h2.2]
      have h4 : (y : ℝ) < x + 1 := by
        by_contra hc
        have := mul_le_mul_of_nonneg_right (not_lt.1 hc) hD.le
        linarith [h1.2, h2.1]
      have h5 : x < y + 1 := by exact_mod_cast h3
      have h6 : y < x + 1 := by exact_mod_cast h4
      omega
    unfold Double.ksTest
    rw [ksGuard_false (by simpa using hkne) (hv.imp id (by
      rintro ⟨u, hu, v, hv, huv⟩
      exact ⟨rnd (u * D), List.mem_map.2 ⟨u, hu, rfl⟩, rnd (v * D), List.mem_map.2 ⟨v, hv, rfl⟩, fun h => huv (hrinj hu hv h)⟩))]
    dsimp only
    unfold Double.ksGiven
    have htop' : amax? (ks.map fun k : ℤ => rnd ((k : ℝ) * D)) = some (rnd (hi * D)) := by
      rw [amax?_eq_some_iff]
      refine ⟨List.mem_map.2 ⟨hi, hhi1, rfl⟩, ?_⟩
      intro x hx
      obtain ⟨k, hk', rfl⟩ := List.mem_map.1 hx
      exact gridMono hD (hhi.2 hk')
    rw [htop']
    dsimp only
    have hlen := arangeLen_fmd hD a hi (ha.trans hR) ((hk hi hhi1).2.trans hR) hle
    have hxb : Double.ksBins (rnd (a * D)) (rnd (hi * D)) (rnd D) p = .ok ((List.range (M + 2)).map fun i : ℕ => rnd (((a + i : ℤ) : ℝ) * D)) := by
      unfold Double.ksBins
      rw [if_neg hδ.ne', if_neg heps, hbinned _ (by
        rw [hlen]
        intro i hi'
        have h1 : (i : ℝ) ≤ M + 1 := by exact_mod_cast Nat.le_of_lt_succ hi'
        have h2 : (M : ℝ) = hi - a := by
          have : (M : ℤ) = hi - a := by omega
          exact_mod_cast this
        have x2 := abs_le.1 ha
        have x3 := abs_le.1 (hk hi hhi1).2
        linarith [x2.1, x3.2]), hlen]
    rw [hxb]
    simp only [bind, Except.bind, pure, Except.pure, hd']
    unfold Double.pValue
    rw [if_neg hl]
    rfl
  · have : effWeights (ks.map fun k : ℤ => (k : ℝ) * D) none = ks.map fun _ => (1 : ℝ) := by
      show (ks.map fun k : ℤ => (k : ℝ) * D).map (fun _ => (1 : ℝ)) = _
      rw [List.map_map]; rfl
    rw [← this]
    exact hKS
  · apply List.countP_mono_left
    intro x _ hx
    exact ge_mono (by linarith [hab.2]) hx
  · apply List.countP_mono_left
    intro x _ hx
    exact ge_mono (by linarith [hab.1]) hx
  · intro hfar
    apply List.countP_congr
    intro x hx
    cases x with
    | fin v =>
      have := hfar v hx
      simp only [Fl.ge, decide_eq_true_eq]
      rcases lt_abs.1 this with h1 | h1
      · constructor <;> intro _ <;> linarith [hab.1, hab.2, abs_nonneg (d' - d)]
      · constructor <;> intro _ <;> linarith [hab.1, hab.2, abs_nonneg (d' - d)]
    | _ => exact Iff.rfl

theorem gridCount (ks : List ℤ) (D : ℝ) : effWeights (ks.map fun k : ℤ => (k : ℝ) * D) none = ks.map fun _ => (1 : ℝ) := by
  show (ks.map fun k : ℤ => (k : ℝ) * D).map (fun _ => (1 : ℝ)) = _
  rw [List.map_map]; rfl

/-- C94, distances simulated: sample and simulated samples on the grid, with `T` the distance of the largest magnitude considered from the completeness
magnitude. The test in double precision does not fail; all samples are compared on the same bins, which end at `mc + T` up to 3 % of a bin (C35: exactly), each
distance differs at most by the error from the KS distance over these bins, and the p-value is the fraction of the distances not smaller than the observed one,
rounded. -/
theorem C94_simulated {N : Double.Np} {F : Double.NpKs} {h : ℕ → ℕ} {η : ℝ} (hN : Double.Accurate N h η) (hF : Double.AccurateKs F η) (hη : η ≤ 1 / 10 ^ 10)
    (ks : List ℤ) (sims : List (List ℤ)) (a : ℤ) (j p : ℕ) (hj : (10 : ℝ) ^ p ≤ j * 10 ^ 12) (hj7 : (j : ℝ) ≤ 10 ^ 7) {b R T : ℝ} (hb : 0 < b) (hR : R ≤ 10 ^ 6)
    (hk : ∀ s ∈ ks :: sims, ∀ k ∈ s, a ≤ k ∧ |(k : ℝ)| ≤ 10 ^ 6) (hTd : T = Real.log ((ks.length * sims.length : ℕ) * 1000) / Real.log 10 / b)
    (ha : |(a : ℝ)| + T / ((j : ℝ) / 10 ^ p) + 2 ≤ R) (hlow : ∀ s ∈ ks :: sims, ∃ k ∈ s, (k : ℝ) * ((j : ℝ) / 10 ^ p) ≤ a * ((j : ℝ) / 10 ^ p) + T) (hs : sims ≠ [])
    (warn : Bool) (hv : warn = false ∨ ∃ u ∈ ks, ∃ v ∈ ks, u ≠ v) :
    ∃ (n : ℕ) (d d' : ℝ) (ds : List ℝ),
      Double.ksTest N F warn (ks.map fun k : ℤ => rnd (k * ((j : ℝ) / 10 ^ p))) (rnd (a * ((j : ℝ) / 10 ^ p))) (rnd ((j : ℝ) / 10 ^ p)) p b none
          (sims.map fun s => s.map fun k : ℤ => rnd (k * ((j : ℝ) / 10 ^ p))) =
        .ok (.fin (rnd ((ds.countP fun x => decide (d' ≤ x) : ℕ) / (sims.length : ℝ))), .fin d', ds.map .fin) ∧
      (∀ i : ℕ, a * ((j : ℝ) / 10 ^ p) + i * ((j : ℝ) / 10 ^ p) < a * ((j : ℝ) / 10 ^ p) + T + (1 / 2 - 3 / 100) * ((j : ℝ) / 10 ^ p) → i < n) ∧
      (∀ i : ℕ, i < n → a * ((j : ℝ) / 10 ^ p) + i * ((j : ℝ) / 10 ^ p) < a * ((j : ℝ) / 10 ^ p) + T + (1 / 2 + 3 / 100) * ((j : ℝ) / 10 ^ p)) ∧
      IsKsDistance (ks.map fun k : ℤ => (k : ℝ) * ((j : ℝ) / 10 ^ p)) (ks.map fun _ => 1) (a * ((j : ℝ) / 10 ^ p)) ((j : ℝ) / 10 ^ p) (b * Real.log 10) n d ∧
      |d' - d| ≤ ksError R η ∧
      List.Forall₂ (fun (s : List ℤ) (x' : ℝ) => ∃ x, IsKsDistance (s.map fun k : ℤ => (k : ℝ) * ((j : ℝ) / 10 ^ p)) (s.map fun _ => 1) (a * ((j : ℝ) / 10 ^ p))
        ((j : ℝ) / 10 ^ p) (b * Real.log 10) n x ∧ |x' - x| ≤ ksError R η) sims ds := by
  have hj1 : 1 ≤ j := by
    rcases Nat.eq_zero_or_pos j with h | h
    · subst h; simp at hj; linarith [pow_pos (by norm_num : (0 : ℝ) < 10) p]
    · exact h
  have hj' : (1 : ℝ) ≤ j := by exact_mod_cast hj1
  have heps : ¬ rnd ((j : ℝ) / 10 ^ p) < Double.eps := by
    rw [not_lt]
    apply Double.rnd_mono
    rw [div_le_div_iff₀ (by positivity) (by positivity)]
    linarith
  have hD : 0 < (j : ℝ) / 10 ^ p := by positivity
  have hkne : ks ≠ [] := by
    obtain ⟨k, hk', -⟩ := hlow ks (by simp)
    rintro rfl; simp at hk'
  have hnm : 1 ≤ ks.length * sims.length := Nat.mul_pos (List.length_pos_iff.2 hkne) (List.length_pos_iff.2 hs)
  have hT0 : 0 ≤ T := by
    have h1 : (1 : ℝ) ≤ (ks.length * sims.length : ℕ) := by exact_mod_cast hnm
    have h2 : 0 ≤ Real.log ((ks.length * sims.length : ℕ) * 1000) := Real.log_nonneg (by linarith)
    have h3 : 0 < Real.log 10 := Real.log_pos (by norm_num)
    rw [hTd]; positivity
  have hTD : 0 ≤ T / ((j : ℝ) / 10 ^ p) := div_nonneg hT0 hD.le
  have ha6 : |(a : ℝ)| ≤ 10 ^ 6 := by linarith
  have hbinned := fun t hn => arange_binned a t j p hj1 hj7 ha6 hn
  set D : ℝ := (j : ℝ) / 10 ^ p with hDd
  have hδ := rnd_pos hD
  have hT6 : T ≤ 10 ^ 6 * D := by
    rw [← div_le_iff₀ hD]; linarith [abs_nonneg (a : ℝ)]
  set top := Double.maxConsidered F b ks.length sims.length (rnd (a * D)) with htop
  have hmax : |top - (T + a * D)| ≤ D / 1000 := by
    rw [hTd]
    exact Double.maxConsidered_close hF hη hD hb hnm ha6 (by rw [← hTd]; exact hT6)
  have h3 : |rnd D - D| ≤ D * (12 / 10 ^ 17) := rnd_lt_err (le_of_eq (abs_of_pos hD))
  have h4 : |Double.mul (3 / 2) (rnd D) - 3 / 2 * D| ≤ 2 * D * (12 / 10 ^ 17) + 2 * D * (12 / 10 ^ 17) := by
    unfold Double.mul
    apply Double.rnd_close
    · rw [← mul_sub, abs_mul, abs_of_pos (by norm_num : (0 : ℝ) < 3 / 2)]
      linarith
    · rw [abs_of_pos (by positivity)]
      norm_num
      linarith
  have haD : |(a : ℝ) * D| ≤ 10 ^ 6 * D := by
    rw [abs_mul, abs_of_pos hD]
    exact mul_le_mul_of_nonneg_right ha6 hD.le
  have hBD : (T / D + a + 3 / 2) * D = T + a * D + 3 / 2 * D := by field_simp
  have h5 : |Double.add top (Double.mul (3 / 2) (rnd D)) - (T / D + a + 3 / 2) * D| ≤ D / 500 + 3 * 10 ^ 6 * D * (12 / 10 ^ 17) := by
    unfold Double.add
    rw [hBD]
    apply Double.rnd_close
    · have p1 := abs_le.1 hmax
      have p2 := abs_le.1 h4
      norm_num at p2
      rw [abs_le]
      constructor <;> linarith [p1.1, p1.2, p2.1, p2.2]
    · have p1 := abs_le.1 haD
      have : |T + a * D + 3 / 2 * D| ≤ 10 ^ 6 * D + 10 ^ 6 * D + 2 * D := by
        rw [abs_le]
        constructor <;> linarith [p1.1, p1.2]
      norm_num at this ⊢
      linarith
  have hq := Double.arange_quot (A := a) (B := T / D + a + 3 / 2) (s := rnd (a * D)) (t := Double.add top (Double.mul (3 / 2) (rnd D))) hD
    (by have := grid_near hD ha6; norm_num at this ⊢; linarith) (by norm_num at h5 ⊢; linarith)
    (by
      have e : T / D + a + 3 / 2 - a = T / D + 3 / 2 := by ring
      rw [e, abs_of_nonneg (by linarith)]
      linarith [abs_nonneg (a : ℝ)])
  have e : T / D + a + 3 / 2 - a = T / D + 3 / 2 := by ring
  rw [e] at hq
  have hlen : ∃ M : ℕ, Double.arangeLen (rnd (a * D)) (Double.add top (Double.mul (3 / 2) (rnd D))) (rnd D) = M + 2 ∧ (M : ℝ) < T / D + 53 / 100 ∧ T / D - 53 / 100 ≤ M := by
    unfold Double.arangeLen
    set q := Double.div (Double.sub (Double.add top (Double.mul (3 / 2) (rnd D))) (rnd (a * D))) (rnd D)
    have p := abs_le.1 hq
    have c1 := Int.ceil_lt_add_one q
    have c2 := Int.le_ceil q
    have c3 : (1 : ℝ) < ⌈q⌉ := by linarith [p.1]
    have c4 : (1 : ℤ) < ⌈q⌉ := by exact_mod_cast c3
    refine ⟨⌈q⌉.toNat - 2, by omega, ?_, ?_⟩
    · have : ((⌈q⌉.toNat - 2 : ℕ) : ℤ) = ⌈q⌉ - 2 := by omega
      have : ((⌈q⌉.toNat - 2 : ℕ) : ℝ) = ⌈q⌉ - 2 := by exact_mod_cast this
      rw [this]; linarith [p.2]
    · have : ((⌈q⌉.toNat - 2 : ℕ) : ℤ) = ⌈q⌉ - 2 := by omega
      have : ((⌈q⌉.toNat - 2 : ℕ) : ℝ) = ⌈q⌉ - 2 := by exact_mod_cast this
      rw [this]; linarith [p.1]
  obtain ⟨M, hlen, hM1, hM2⟩ := hlen
  have hR1 : 1 ≤ R := by linarith [abs_nonneg (a : ℝ)]
  have haR : |(a : ℝ)| ≤ R := by linarith
  have hMR : |((a + M : ℤ) : ℝ)| ≤ R := by
    push_cast
    have := abs_add_le (a : ℝ) M
    rw [abs_of_nonneg (Nat.cast_nonneg M : (0 : ℝ) ≤ M)] at this
    linarith
  have hdist : ∀ s ∈ ks :: sims, ∃ d' : ℝ, Double.ksDistance F (s.map fun k : ℤ => rnd (k * D)) ((List.range (M + 2)).map fun i : ℕ => rnd (((a + i : ℤ) : ℝ) * D))
      (rnd (a * D)) (rnd D) (Double.bToBeta N b) = .ok (.fin d') ∧
      ∃ d, IsKsDistance (s.map fun k : ℤ => (k : ℝ) * D) (s.map fun _ => 1) (a * D) D (b * Real.log 10) (M + 1) d ∧ |d' - d| ≤ ksError R η := by
    intro s hs'
    have hex : ∃ k ∈ s, k ≤ a + M := by
      obtain ⟨k, hk', hkl⟩ := hlow s hs'
      refine ⟨k, hk', ?_⟩
      have h1 : ((k : ℝ) - a) ≤ T / D := by rw [le_div_iff₀ hD]; linarith
      have h2 : (k : ℝ) < a + M + 1 := by linarith
      have h3 : k < a + M + 1 := by exact_mod_cast h2
      omega
    obtain ⟨d', h1, h2⟩ := ksDistance_double hN hF (hη.trans (by norm_num)) s a M hD hb hR1 hR (hk s hs') haR hMR hex
    obtain ⟨d, hd⟩ := exists_ks (s.map fun k : ℤ => (k : ℝ) * D) (effWeights (s.map fun k : ℤ => (k : ℝ) * D) none) (a * D) D (b * Real.log 10) M
    refine ⟨d', h1, d, ?_, h2 d hd⟩
    rw [← gridCount s D]
    exact hd
  choose! f hf using hdist
  obtain ⟨hf0, d, hd, hde⟩ := hf ks (by simp)
  refine ⟨M + 1, d, f ks, sims.map f, ?_, ?_, ?_, hd, hde, ?_⟩
  · have hrinj : ∀ {x y : ℤ}, x ∈ ks → y ∈ ks → rnd (x * D) = rnd (y * D) → x = y := by
      intro x y hx hy he
      have h1 := abs_le.1 (grid_near hD (hk ks (by simp) x hx).2)
      have h2 := abs_le.1 (grid_near hD (hk ks (by simp) y hy).2)
      rw [he] at h1
      have h3 : (x : ℝ) < y + 1 := by
        by_contra hc
        have := mul_le_mul_of_nonneg_right (not_lt.1 hc) hD.le
        linarith [h1.1, h2.2]
      have h4 : (y : ℝ) < x + 1 := by
        by_contra hc
        have := mul_le_mul_of_nonneg_right (not_lt.1 hc) hD.le
        linarith [h1.2, h2.1]
      have h5 : x < y + 1 := by exact_mod_cast h3
      have h6 : y < x + 1 := by exact_mod_cast h4
      omega
    unfold Double.ksTest
    rw [ksGuard_false (by simpa using hkne) (hv.imp id (by
      rintro ⟨u, hu, v, hv, huv⟩
      exact ⟨rnd (u * D), List.mem_map.2 ⟨u, hu, rfl⟩, rnd (v * D), List.mem_map.2 ⟨v, hv, rfl⟩, fun h => huv (hrinj hu hv h)⟩))]
    dsimp only
    unfold Double.ksSimulated
    rw [List.length_map, List.length_map, ← htop]
    have hxb : Double.ksBins (rnd (a * D)) top (rnd D) p = .ok ((List.range (M + 2)).map fun i : ℕ => rnd (((a + i : ℤ) : ℝ) * D)) := by
      unfold Double.ksBins
      rw [if_neg hδ.ne', if_neg heps, hbinned _ (by
        rw [hlen]
        intro i hi'
        have h1 : (i : ℝ) ≤ M + 1 := by exact_mod_cast Nat.le_of_lt_succ hi'
        linarith [abs_nonneg (a : ℝ)]), hlen]
    rw [hxb]
    have hmm : ((sims.map fun s => s.map fun k : ℤ => rnd (k * D)).mapM fun s => Double.ksDistance F s ((List.range (M + 2)).map fun i : ℕ => rnd (((a + i : ℤ) : ℝ) * D))
        (rnd (a * D)) (rnd D) (Double.bToBeta N b) : Py (List (Fl ℝ))) = .ok ((sims.map f).map Fl.fin) := by
      rw [mapM_ok_iff, List.map_map, List.forall₂_map_left_iff, List.forall₂_map_right_iff, List.forall₂_same]
      intro s hs'
      exact (hf s (by simp [hs'])).1
    simp only [bind, Except.bind, pure, Except.pure, hmm, hf0]
    unfold Double.pValue
    rw [if_neg (by simpa using hs)]
    have hcnt : ((sims.map f).map Fl.fin).countP (fun x => Fl.ge x (.fin (f ks))) = (sims.map f).countP fun x => decide (f ks ≤ x) := by
      rw [List.countP_map]
      rfl
    simp only [hcnt, List.length_map]
    rfl
  · intro i hi
    have h1 : ((i : ℝ)) < T / D + (1 / 2 - 3 / 100) := by
      rw [div_add' _ _ _ hD.ne', lt_div_iff₀ hD]
      linarith
    have h2 : (i : ℝ) < M + 1 := by linarith
    exact_mod_cast h2
  · intro i hi
    have h1 : (i : ℝ) ≤ M := by exact_mod_cast Nat.le_of_lt_succ hi
    have h2 : (i : ℝ) < T / D + (1 / 2 + 3 / 100) := by linarith
    rw [div_add' _ _ _ hD.ne', lt_div_iff₀ hD] at h2
    linarith
  · rw [List.forall₂_map_right_iff, List.forall₂_same]
    intro s hs'
    exact (hf s (by simp [hs'])).2

/-- C94: in practice (at most 1000 bins away from zero, numpy's functions accurate to `10^-15`) the error is below `10^-12`. -/
theorem C94_practice {R η : ℝ} (hR : R ≤ 1000) (hη : η ≤ 1 / 10 ^ 15) : ksError R η ≤ 1 / 10 ^ 12 := by
  unfold ksError unit
  norm_num at *
  linarith

/-- The exact functions meet the assumptions. -/
def exactKs : Double.NpKs where
  exp := Real.exp
  log10 := fun x => Real.log x / Real.log 10

theorem exactKs_accurate : Double.AccurateKs exactKs 0 := ⟨fun t _ => by simp [exactKs], fun x _ => by simp [exactKs]⟩

/-- Magnitudes 1.0, 1.1, 1.3, 1.0 with bin size 0.1 and `mc = 1.0`, b-value 1 and two given distances: the hypotheses of `C94_given` are met. -/
example : ∃ d d' : ℝ, ∃ c' : ℕ,
    Double.ksTest leftToRight exactKs true ([10, 11, 13, 10].map fun k : ℤ => rnd (k * (((1 : ℕ) : ℝ) / 10 ^ 1))) (rnd ((10 : ℤ) * (((1 : ℕ) : ℝ) / 10 ^ 1)))
      (rnd (((1 : ℕ) : ℝ) / 10 ^ 1)) 1 1 (some [.fin (1 / 10), .nan]) [] = .ok (.fin (rnd (c' / (2 : ℕ))), .fin d', [.fin (1 / 10), .nan]) ∧
    IsKsDistance ([10, 11, 13, 10].map fun k : ℤ => (k : ℝ) * (((1 : ℕ) : ℝ) / 10 ^ 1)) ([10, 11, 13, 10].map fun _ : ℤ => 1) ((10 : ℤ) * (((1 : ℕ) : ℝ) / 10 ^ 1))
      (((1 : ℕ) : ℝ) / 10 ^ 1) (1 * Real.log 10) ((13 - 10 : ℤ).toNat + 1) d ∧ |d' - d| ≤ 1 / 10 ^ 12 := by
  obtain ⟨d, d', c, c', -, h2, h3, h4, -⟩ := C94_given leftToRight_accurate exactKs_accurate (by norm_num) [10, 11, 13, 10] 10 13 1 1 (by norm_num) (by norm_num)
    (b := 1) (R := 13) (by norm_num) (by norm_num) (by norm_num) (by
      intro k hk
      simp at hk
      rcases hk with rfl | rfl | rfl | rfl <;> norm_num [abs_le]) (by norm_num [abs_le]) ⟨by simp, by
      intro k hk
      simp at hk
      omega⟩ true (Or.inr ⟨10, by simp, 11, by simp, by norm_num⟩) [.fin (1 / 10), .nan] (by simp) [] []
  exact ⟨d, d', c', h2, h3, h4.trans (C94_practice (by norm_num) (by norm_num))⟩

/-- The hypotheses of `C94_simulated` are met: one simulated sample 1.0, 1.2, 1.0, 1.1. -/
example : ∃ (n : ℕ) (d' : ℝ) (ds : List ℝ),
    Double.ksTest leftToRight exactKs true ([10, 11, 13, 10].map fun k : ℤ => rnd (k * (((1 : ℕ) : ℝ) / 10 ^ 1))) (rnd ((10 : ℤ) * (((1 : ℕ) : ℝ) / 10 ^ 1)))
      (rnd (((1 : ℕ) : ℝ) / 10 ^ 1)) 1 1 none ([[10, 12, 10, 11]].map fun s => s.map fun k : ℤ => rnd (k * (((1 : ℕ) : ℝ) / 10 ^ 1))) =
        .ok (.fin (rnd ((ds.countP fun x => decide (d' ≤ x) : ℕ) / ([[10, 12, 10, 11]] : List (List ℤ)).length)), .fin d', ds.map .fin) ∧ 30 < n := by
  have hl : (0 : ℝ) < Real.log 10 := Real.log_pos (by norm_num)
  have hlog : Real.log (4 * 1000) = Real.log 4 + 3 * Real.log 10 := by
    rw [Real.log_mul (by norm_num) (by norm_num), show (1000 : ℝ) = 10 ^ 3 by norm_num, Real.log_pow]
    norm_num
  have h4 : 0 ≤ Real.log 4 := Real.log_nonneg (by norm_num)
  have h5 : Real.log 4 ≤ Real.log 10 := Real.log_le_log (by norm_num) (by norm_num)
  have hT : Real.log (([10, 11, 13, 10] : List ℤ).length * ([[10, 12, 10, 11]] : List (List ℤ)).length * 1000) / Real.log 10 / 1 = Real.log 4 / Real.log 10 + 3 := by
    simp only [List.length_cons, List.length_nil]
    norm_num
    norm_num at hlog
    rw [hlog]
    field_simp
  have hT3 : 0 ≤ Real.log 4 / Real.log 10 := by positivity
  have hT4 : Real.log 4 / Real.log 10 ≤ 1 := by rw [div_le_one hl]; exact h5
  obtain ⟨n, d, d', ds, h1, h2, -⟩ := C94_simulated leftToRight_accurate exactKs_accurate (by norm_num) [10, 11, 13, 10] [[10, 12, 10, 11]] 10 1 1 (by norm_num)
    (by norm_num) (b := 1) (R := 100) (T := Real.log 4 / Real.log 10 + 3) (by norm_num) (by norm_num) (by
      intro s hs k hk
      simp at hs
      rcases hs with rfl | rfl <;> simp at hk
      · rcases hk with rfl | rfl | rfl | rfl <;> norm_num [abs_le]
      · rcases hk with rfl | rfl | rfl | rfl <;> norm_num [abs_le]) (by push_cast; exact hT.symm) (by
      rw [abs_of_nonneg (by norm_num)]
      norm_num
      linarith) (by
      intro s hs
      simp at hs
      rcases hs with rfl | rfl
      · exact ⟨10, by simp, by norm_num; linarith⟩
      · exact ⟨10, by simp, by norm_num; linarith⟩) (by simp) true (Or.inr ⟨10, by simp, 11, by simp, by norm_num⟩)
  refine ⟨n, d', ds, h1, h2 30 ?_⟩
  norm_num
  linarith

end
end SeismoStats.Props
