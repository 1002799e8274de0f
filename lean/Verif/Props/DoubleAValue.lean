/-
Property C116: a-values in double precision.
-/
import Verif.Proofs.DoubleAValue
import Verif.Proofs.AValue
import Verif.Props.DoublePositive

namespace SeismoStats.Props
open SeismoStats SeismoStats.Spec.Double
open SeismoStats.Spec (PyClose refSize volSize rateErr aErr)
open SeismoStats.BValue (usedIdx timeOrder timeOrder_perm timeOrder_sorted mask_map diff_map findNextLarger)
open SeismoStats.Double (rnd rnd_err rnd_pos rnd_rnd Near unit unit_pos NpA AccurateA FlClose rate_close near_rnd)
open Classical
noncomputable section

/-- First and last of a sorted list. -/
theorem span_facts {o : List ℕ} {t : ℕ → ℝ} (hs : o.Pairwise fun i j => t i ≤ t j) {i : ℕ} (hi : i ∈ o) :
    (o.map t).headD 0 ≤ t i ∧ t i ≤ (o.map t).getLastD 0 := by
  constructor
  · cases o with
    | nil => cases hi
    | cons a r =>
      rcases List.mem_cons.1 hi with rfl | h
      · exact le_rfl
      · exact (List.pairwise_cons.1 hs).1 i h
  · induction o generalizing i with
    | nil => cases hi
    | cons a r ih =>
      cases r with
      | nil =>
        rw [List.mem_singleton] at hi
        subst hi
        exact le_rfl
      | cons b r =>
        have h2 := (List.pairwise_cons.1 hs)
        have e : ((a :: b :: r).map t).getLastD 0 = ((b :: r).map t).getLastD 0 := by simp
        rw [e]
        rcases List.mem_cons.1 hi with rfl | h
        · exact (h2.1 b (by simp)).trans (ih h2.2 (by simp))
        · exact ih h2.2 h

theorem zip_tail_pairwise {o : List ℕ} {R : ℕ → ℕ → Prop} (hs : o.Pairwise R) : ∀ q ∈ List.zip o o.tail, R q.1 q.2 := by
  induction o with
  | nil => intro q hq; cases hq
  | cons a r ih =>
    intro q hq
    cases r with
    | nil => cases hq
    | cons b r =>
      have h2 := List.pairwise_cons.1 hs
      rcases List.mem_cons.1 hq with rfl | h
      · exact h2.1 b (by simp)
      · exact ih h2.2 q h

/-- The positive class: the same pairs are used, and the waiting times are nearly the same. -/
theorem aPositive_close {F : NpA} {η : ℝ} (hF : AccurateA F η) (hη0 : 0 ≤ η) (hη : η ≤ 1) {o : List ℕ} {t m' m : ℕ → ℝ} {d' δ' thr : ℝ} {n : ℕ}
    (hn : o.length ≤ n)
    (hd : ∀ i ∈ o, ∀ k ∈ o, Double.threshold d' δ' ≤ Double.sub (m' k) (m' i) ↔ thr ≤ m k - m i) (hs : o.Pairwise fun i j => t i ≤ t j) :
    FlClose (fun a => 2 * ((n + 4) * unit) + η * |a|) (Double.aPositive F (o.map m') (o.map t) d' δ')
      (if growing m thr o = [] then .nan else
        AValue.rate (growing m thr o).length ((growing m thr o).map fun p => t p.2 - t p.1) (AValue.span (o.map t))) := by
  have hu := unit_pos.le
  have hmem : ∀ q ∈ List.zip o o.tail, q.1 ∈ o ∧ q.2 ∈ o := fun q hq =>
    ⟨(List.of_mem_zip hq).1, List.mem_of_mem_tail (List.of_mem_zip hq).2⟩
  have hgrow : (List.zip o o.tail).filter (fun q => decide (Double.threshold d' δ' ≤ Double.sub (m' q.2) (m' q.1))) = growing m thr o := by
    unfold growing
    apply List.filter_congr
    intro q hq
    exact decide_eq_decide.2 (hd _ (hmem q hq).1 _ (hmem q hq).2)
  unfold Double.aPositive
  dsimp only
  rw [diff_double, diff_double, List.map_map, mask_map, AValue.count_map_true]
  simp only [Function.comp_def]
  rw [hgrow, List.length_map]
  by_cases hg : growing m thr o = []
  · rw [if_pos (by rw [hg]; rfl), if_pos hg]
    exact Or.inr ⟨rfl, fun b hb => nomatch hb⟩
  rw [if_neg (fun h => hg (List.length_eq_zero_iff.1 h)), if_neg hg]
  have hq : ∀ q ∈ growing m thr o, q ∈ List.zip o o.tail := fun q hq => List.mem_of_mem_filter hq
  have hle := zip_tail_pairwise hs
  have hlen : (growing m thr o).length ≤ n := by
    refine le_trans ?_ hn
    unfold growing
    refine (List.length_filter_le _ _).trans ?_
    simp
  have hne : o ≠ [] := by
    rintro rfl
    exact hg rfl
  have hT0 : 0 ≤ AValue.span (o.map t) := by
    obtain ⟨i, hi⟩ := List.exists_mem_of_ne_nil o hne
    have := span_facts hs hi
    unfold AValue.span
    linarith
  have h := rate_close (F := F) (η := η) (θ := unit) hF hη0 hη hu (n := (growing m thr o).length) (List.length_pos_iff.2 hg)
    (w' := (growing m thr o).map fun p => Double.sub (t p.2) (t p.1)) (w := (growing m thr o).map fun p => t p.2 - t p.1)
    (by simpa using hg) ?_ ?_ (T' := Double.spanA (o.map t)) (T := AValue.span (o.map t)) hT0 (near_rnd hT0) ?_
  · rcases h with ⟨a, b, e1, e2, e3⟩ | h
    · refine Or.inl ⟨a, b, e1, e2, e3.trans ?_⟩
      dsimp only
      rw [List.length_map]
      have : ((growing m thr o).length : ℝ) ≤ n := by exact_mod_cast hlen
      nlinarith
    · exact Or.inr h
  · rw [List.forall₂_map_left_iff, List.forall₂_map_right_iff]
    exact List.forall₂_same.2 fun q hqq => near_rnd (sub_nonneg.2 (hle q (hq q hqq)))
  · intro v hv
    obtain ⟨q, hqq, rfl⟩ := List.mem_map.1 hv
    exact sub_nonneg.2 (hle q (hq q hqq))
  · intro h0 v hv
    obtain ⟨q, hqq, rfl⟩ := List.mem_map.1 hv
    have h1 := span_facts hs (hmem q (hq q hqq)).1
    have h2 := span_facts hs (hmem q (hq q hqq)).2
    have h3 := hle q (hq q hqq)
    unfold AValue.span at h0
    linarith

theorem rnd_step {x y k S : ℝ} (hS : 0 ≤ S) (hk : 0 ≤ k) (hk10 : k ≤ 10) (hxy : |x - y| ≤ k * unit * S) (hy : |y| ≤ S) : |rnd x - y| ≤ (k + 3 / 2) * unit * S := by
  have hu : unit ≤ 1 / 10 ^ 15 := by unfold unit; norm_num
  have hu0 := unit_pos.le
  have h1 := Double.abs_rnd_sub x
  have h2 := abs_sub_abs_le_abs_sub x y
  have h3 := abs_sub_le (rnd x) x y
  have h4 : k * unit * S ≤ 1 / 2 * S := by
    have : k * unit ≤ 1 / 2 := by nlinarith
    nlinarith
  have h5 : unit * |x| ≤ unit * (3 / 2 * S) := mul_le_mul_of_nonneg_left (by linarith) hu0
  linarith

/-- The power of ten of the more-positive class. -/
theorem pow_near {F : NpA} {η : ℝ} (hF : AccurateA F η) (hη0 : 0 ≤ η) (hη : η ≤ 1 / 2) (b : ℝ) {m' m d' d c' c S : ℝ} (hm : |m' - m| ≤ unit * |m|)
    (hd : |d' - d| ≤ unit * |d|) (hc : |c' - c| ≤ unit * |c|) (hS : |m| + |d| + |c| ≤ S) :
    Near (2 * η + 21 * (|b| * S) * unit) (F.pow10 (Double.mul (-b) (Double.sub (Double.add m' d') c'))) ((10 : ℝ) ^ (-b * (m + d - c))) := by
  have hu : unit ≤ 1 / 10 ^ 15 := by unfold unit; norm_num
  have hu0 := unit_pos.le
  have am := abs_nonneg m
  have ad := abs_nonneg d
  have ac := abs_nonneg c
  have hS0 : 0 ≤ S := le_trans (by positivity) hS
  have g1 : |m' + d' - (m + d)| ≤ 1 * unit * S := by
    have e : m' + d' - (m + d) = (m' - m) + (d' - d) := by ring
    rw [e]
    have := abs_add_le (m' - m) (d' - d)
    have h3 : unit * (|m| + |d|) ≤ unit * S := mul_le_mul_of_nonneg_left (by linarith) hu0
    linarith
  have g2 : |m + d| ≤ S := (abs_add_le m d).trans (by linarith)
  have g3 := rnd_step hS0 (by norm_num) (by norm_num) g1 g2
  have g4 : |rnd (m' + d') - c' - (m + d - c)| ≤ (7 / 2) * unit * S := by
    have e : rnd (m' + d') - c' - (m + d - c) = (rnd (m' + d') - (m + d)) - (c' - c) := by ring
    rw [e]
    have := abs_sub (rnd (m' + d') - (m + d)) (c' - c)
    have h3 : unit * |c| ≤ unit * S := mul_le_mul_of_nonneg_left (by linarith) hu0
    linarith
  have g5 : |m + d - c| ≤ S := by
    have h1 := abs_sub (m + d) c
    have h2 := abs_add_le m d
    linarith
  have g6 := rnd_step hS0 (by norm_num) (by norm_num) g4 g5
  have hbS : 0 ≤ |b| * S := by positivity
  have g7 : |-b * rnd (rnd (m' + d') - c') - -b * (m + d - c)| ≤ (7 / 2 + 3 / 2) * unit * (|b| * S) := by
    rw [← mul_sub, abs_mul, abs_neg]
    have := mul_le_mul_of_nonneg_left g6 (abs_nonneg b)
    linarith
  have g8 : |-b * (m + d - c)| ≤ |b| * S := by
    rw [abs_mul, abs_neg]
    exact mul_le_mul_of_nonneg_left g5 (abs_nonneg b)
  have g9 := rnd_step hbS (by norm_num) (by norm_num) g7 g8
  change |Double.mul (-b) (Double.sub (Double.add m' d') c') - -b * (m + d - c)| ≤ _ at g9
  set e' := Double.mul (-b) (Double.sub (Double.add m' d') c') with he'
  set e := -b * (m + d - c) with he
  have g10 : |e' - e| ≤ 7 * (|b| * S) * unit := by
    refine g9.trans ?_
    nlinarith [mul_nonneg hu0 hbS]
  have h1 : Near (2 * η) (F.pow10 e') ((10 : ℝ) ^ e') := by
    refine Double.near_of_rel (by positivity) (hF.pow10 e') (by linarith) ?_
    nlinarith
  have hl10 : Real.log 10 ≤ 3 := by
    rw [Real.log_le_iff_le_exp (by norm_num)]
    have h2 : (2.7 : ℝ) ≤ Real.exp 1 := (by norm_num : (2.7 : ℝ) ≤ 2.7182818283).trans Real.exp_one_gt_d9.le
    have h3 : Real.exp 3 = Real.exp 1 * Real.exp 1 * Real.exp 1 := by
      rw [← Real.exp_add, ← Real.exp_add]; norm_num
    rw [h3]
    nlinarith [mul_le_mul h2 h2 (by norm_num) (by positivity)]
  have hl10p : 0 < Real.log 10 := Real.log_pos (by norm_num)
  have h2 : Near (21 * (|b| * S) * unit) ((10 : ℝ) ^ e') ((10 : ℝ) ^ e) := by
    have k : |Real.log 10 * e' - Real.log 10 * e| ≤ 21 * (|b| * S) * unit := by
      rw [← mul_sub, abs_mul, abs_of_pos hl10p]
      have := mul_le_mul hl10 g10 (abs_nonneg _) (by norm_num)
      linarith
    have k' := abs_le.1 k
    unfold Near
    rw [Real.rpow_def_of_pos (by norm_num), Real.rpow_def_of_pos (by norm_num), ← Real.exp_add, ← Real.exp_add]
    exact ⟨Real.exp_le_exp.2 (by linarith), Real.exp_le_exp.2 (by linarith)⟩
  exact h1.trans h2

theorem findNextLarger_same {o : List ℕ} {m' m : ℕ → ℝ} {d' δ' d δ : ℝ}
    (hd : ∀ i ∈ o, ∀ k ∈ o, Double.threshold d' δ' ≤ Double.sub (m' k) (m' i) ↔ d - δ / 2 ≤ m k - m i) :
    Double.findNextLarger (o.map m') δ' d' = findNextLarger (o.map m) δ (some d) := by
  have hstep : ∀ i ∈ o, ∀ fuel jj, Double.nextFrom (o.map m') (Double.threshold d' δ') (m' i) fuel jj =
      BValue.nextFrom (o.map m) (d - δ / 2) (m i) fuel jj := by
    intro i hi fuel
    induction fuel with
    | zero => intro jj; rfl
    | succ n ih =>
      intro jj
      unfold Double.nextFrom BValue.nextFrom
      simp only [List.getElem?_map]
      cases h : o[jj]? with
      | none => rfl
      | some l =>
        simp only [Option.map_some]
        have hl := List.mem_of_getElem? h
        have hdd := hd i hi l hl
        by_cases hcl : d - δ / 2 ≤ m l - m i
        · rw [if_pos (hdd.2 hcl), if_pos hcl]
        · rw [if_neg (fun hh => hcl (hdd.1 hh)), if_neg hcl]
          exact ih _
  unfold Double.findNextLarger findNextLarger
  simp only [List.length_map, Option.getD_some]
  apply List.map_congr_left
  intro i hi
  rw [List.mem_range] at hi
  by_cases h : i + 1 < o.length
  · rw [if_pos h, if_pos h]
    have e1 : (o.map m').getD i 0 = m' o[i] := by
      rw [List.getD_eq_getElem _ _ (by simpa using hi), List.getElem_map]
    have e2 : (o.map m).getD i 0 = m o[i] := by
      rw [List.getD_eq_getElem _ _ (by simpa using hi), List.getElem_map]
    rw [e1, e2]
    exact hstep _ (List.getElem_mem hi) _ _
  · rw [if_neg h, if_neg h]

/-- The waiting times of the more-positive class in exact arithmetic. -/
def moreWaits (o : List ℕ) (t m : ℕ → ℝ) (δ b d c : ℝ) : List ℝ :=
  (List.range o.length).map fun i =>
    (if (findNextLarger (o.map m) δ (some d)).getD i 0 = 0 then (o.map t).getLastD 0 - (o.map t).getD i 0
      else (o.map t).getD ((findNextLarger (o.map m) δ (some d)).getD i 0) 0 - (o.map t).getD i 0) *
      (10 : ℝ) ^ (-b * ((o.map m).getD i 0 + d - c))

/-- The more-positive class. -/
theorem aMorePositive_close {F : NpA} {η : ℝ} (hF : AccurateA F η) (hη0 : 0 ≤ η) (hη : η ≤ 1 / 2) {o : List ℕ} {t m' m : ℕ → ℝ} {b d' δ' d δ c' c S : ℝ} {n : ℕ}
    (hn : o.length ≤ n)
    (hd : ∀ i ∈ o, ∀ k ∈ o, Double.threshold d' δ' ≤ Double.sub (m' k) (m' i) ↔ d - δ / 2 ≤ m k - m i) (hs : o.Pairwise fun i j => t i ≤ t j)
    (hm : ∀ i ∈ o, |m' i - m i| ≤ unit * |m i|) (hdd : |d' - d| ≤ unit * |d|) (hcc : |c' - c| ≤ unit * |c|) (hS : ∀ i ∈ o, |m i| + |d| + |c| ≤ S) :
    FlClose (fun a => 2 * (2 * η + (n + 5 + 21 * (|b| * S)) * unit) + η * |a|) (Double.aMorePositive F (o.map m') (o.map t) b d' c' δ')
      (if ranksOf (o.map m) δ d = [] then .nan else
        AValue.rate (ranksOf (o.map m) δ d).length (moreWaits o t m δ b d c) (AValue.span (o.map t))) := by
  have hu := unit_pos.le
  unfold Double.aMorePositive moreWaits
  rw [findNextLarger_same hd]
  dsimp only
  set nxt := findNextLarger (o.map m) δ (some d) with hnxt
  have hfl := C24_find_next_larger (o.map m) δ (some d)
  rw [← hnxt] at hfl
  have hl : nxt.length = o.length := by rw [hfl.1, List.length_map]
  have hn' : nxt = (List.range o.length).map fun i => nxt.getD i 0 := by
    rw [← hl]; exact (BValue.map_getD_range nxt 0).symm
  have hranks : ranksOf (o.map m) δ d = ((List.range o.length).filter fun i => decide (nxt.getD i 0 ≠ 0)).map fun i => (i, nxt.getD i 0) := by
    unfold ranksOf
    rw [List.length_map]
  have hlenr : (mask nxt (nxt.map fun j => decide (j ≠ 0))).length = (ranksOf (o.map m) δ d).length := by
    have e : mask nxt (nxt.map fun j => decide (j ≠ 0)) = nxt.filter fun j => decide (j ≠ 0) := by
      have := mask_map nxt id (fun j => decide (j ≠ 0))
      simpa using this
    rw [e, hranks]
    conv_lhs => rw [hn']
    rw [List.filter_map, List.length_map, List.length_map]
    rfl
  have hz : nxt.count 0 = nxt.length ↔ ranksOf (o.map m) δ d = [] := by
    rw [← List.length_eq_zero_iff, ← hlenr]
    have e : mask nxt (nxt.map fun j => decide (j ≠ 0)) = nxt.filter fun j => decide (j ≠ 0) := by
      have := mask_map nxt id (fun j => decide (j ≠ 0))
      simpa using this
    rw [e, List.length_eq_zero_iff, List.filter_eq_nil_iff, List.count_eq_length]
    constructor
    · intro h a ha
      exact fun hh => of_decide_eq_true hh (h a ha).symm
    · intro h a ha
      by_contra hne
      exact h a ha (decide_eq_true fun h0 => hne h0.symm)
  by_cases hg : ranksOf (o.map m) δ d = []
  · rw [if_pos (hz.2 hg), if_pos hg]
    exact Or.inr ⟨rfl, fun b hb => nomatch hb⟩
  rw [if_neg (fun h => hg (hz.1 h)), if_neg hg, hlenr]
  have hne : o ≠ [] := by
    rintro rfl
    exact hg rfl
  have hT0 : 0 ≤ AValue.span (o.map t) := by
    obtain ⟨i, hi⟩ := List.exists_mem_of_ne_nil o hne
    have := span_facts hs hi
    unfold AValue.span
    linarith
  -- the waiting time of the i-th event
  have hget : ∀ (f : ℕ → ℝ) (i : ℕ) (hi : i < o.length), (o.map f).getD i 0 = f o[i] := by
    intro f i hi
    rw [List.getD_eq_getElem _ _ (by simpa using hi), List.getElem_map]
  have hjl : ∀ i, i < o.length → nxt.getD i 0 ≠ 0 → i < nxt.getD i 0 ∧ nxt.getD i 0 < o.length := by
    intro i hi hj
    have hi2 : i < nxt.length := by omega
    rw [List.getD_eq_getElem _ _ hi2] at hj ⊢
    have := (hfl.2 i hi2).2 _ rfl hj
    have h2 := firstLarger_lt this
    rw [List.length_map] at h2
    exact ⟨this.1, h2.2⟩
  let W : ℕ → ℝ := fun i => if nxt.getD i 0 = 0 then (o.map t).getLastD 0 - (o.map t).getD i 0 else (o.map t).getD (nxt.getD i 0) 0 - (o.map t).getD i 0
  let W' : ℕ → ℝ := fun i => if nxt.getD i 0 = 0 then Double.sub ((o.map t).getLastD 0) ((o.map t).getD i 0)
    else Double.sub ((o.map t).getD (nxt.getD i 0) 0) ((o.map t).getD i 0)
  have hWb : ∀ i, i < o.length → 0 ≤ W i ∧ W i ≤ AValue.span (o.map t) := by
    intro i hi
    have h1 := span_facts hs (List.getElem_mem hi)
    unfold AValue.span
    by_cases h0 : nxt.getD i 0 = 0
    · simp only [W, if_pos h0]
      rw [hget t i hi]
      exact ⟨by linarith, by linarith⟩
    · simp only [W, if_neg h0]
      obtain ⟨h2, h3⟩ := hjl i hi h0
      rw [hget t i hi, hget t _ h3]
      have h4 := span_facts hs (List.getElem_mem h3)
      have h5 := List.pairwise_iff_getElem.1 hs i (nxt.getD i 0) hi h3 h2
      exact ⟨by linarith, by linarith⟩
  have hWn : ∀ i, i < o.length → Near unit (W' i) (W i) := by
    intro i hi
    have h0 := (hWb i hi).1
    by_cases hj : nxt.getD i 0 = 0
    · simp only [W, W', if_pos hj] at h0 ⊢
      exact near_rnd h0
    · simp only [W, W', if_neg hj] at h0 ⊢
      exact near_rnd h0
  have hscale : Double.scaleWaitsA F (Double.waitsMoreA (o.map t) nxt) (o.map m') b d' c' =
      (List.range o.length).map fun i => Double.mul (W' i) (F.pow10 (Double.mul (-b) (Double.sub (Double.add ((o.map m').getD i 0) d') c'))) := by
    unfold Double.scaleWaitsA Double.waitsMoreA
    apply List.ext_getElem
    · simp [hl]
    · intro i h1 h2
      have hi : i < o.length := by simpa using h2
      have hi2 : i < nxt.length := by omega
      simp only [List.getElem_zipWith, List.getElem_map, List.getElem_range, W', hget t i hi, hget m' i hi, List.getD_eq_getElem _ _ hi2]
  rw [hscale]
  have h := rate_close (F := F) (η := η) (θ := 2 * η + (21 * (|b| * S) + 2) * unit) hF hη0 (by linarith) ?_ (n := (ranksOf (o.map m) δ d).length)
    (List.length_pos_iff.2 hg)
    (w' := (List.range o.length).map fun i => Double.mul (W' i) (F.pow10 (Double.mul (-b) (Double.sub (Double.add ((o.map m').getD i 0) d') c'))))
    (w := (List.range o.length).map fun i => W i * (10 : ℝ) ^ (-b * ((o.map m).getD i 0 + d - c)))
    (by simpa using hne) ?_ ?_ (T' := Double.spanA (o.map t)) (T := AValue.span (o.map t)) hT0 (near_rnd hT0) ?_
  · rcases h with ⟨a, b, e1, e2, e3⟩ | h
    · refine Or.inl ⟨a, b, e1, e2, e3.trans ?_⟩
      dsimp only
      rw [List.length_map, List.length_range]
      have : (o.length : ℝ) ≤ n := by exact_mod_cast hn
      nlinarith
    · exact Or.inr h
  · have hS0 : 0 ≤ S := by
      obtain ⟨i, hi⟩ := List.exists_mem_of_ne_nil o hne
      exact le_trans (by positivity) (hS i hi)
    positivity
  · rw [List.forall₂_map_left_iff, List.forall₂_map_right_iff]
    refine List.forall₂_same.2 fun i hi => ?_
    rw [List.mem_range] at hi
    rw [hget m' i hi, hget m i hi]
    have hmem := List.getElem_mem hi
    have hp := pow_near hF hη0 hη b (hm _ hmem) hdd hcc (hS _ hmem)
    have := ((hWn i hi).mul hp (hWb i hi).1 (by positivity)).rnd (mul_nonneg (hWb i hi).1 (by positivity))
    exact this.mono (mul_nonneg (hWb i hi).1 (by positivity)) (le_of_eq (by ring))
  · intro v hv
    obtain ⟨i, hi, rfl⟩ := List.mem_map.1 hv
    rw [List.mem_range] at hi
    exact mul_nonneg (hWb i hi).1 (by positivity)
  · intro h0 v hv
    obtain ⟨i, hi, rfl⟩ := List.mem_map.1 hv
    rw [List.mem_range] at hi
    have := hWb i hi
    rw [h0] at this
    rw [le_antisymm this.2 this.1, zero_mul]

/-- The result of the model in double precision, once the checks have passed. -/
theorem scaled_exact (x : AValue.Args) (v : Fl ℝ) :
    AValue.scaled x v = (Double.refExact x v).bind fun w => .ok (match x.scaling with
      | none => w
      | some f => w.sub (Fl.log10 (.fin f))) := by
  unfold AValue.scaled Double.refExact
  cases x.mref with
  | none => rfl
  | some r => cases x.b <;> rfl

/-- The scaling keeps the agreement. -/
theorem scaled_close {F : NpA} {θ η : ℝ} (hF : AccurateA F η) (hθ : 0 ≤ θ) (hη0 : 0 ≤ η) {x' x : AValue.Args} (h1 : x'.mref = x.mref) (h2 : x'.b = x.b)
    (h3 : x'.mc = rnd x.mc) (h4 : x'.scaling = x.scaling) {v' v : Fl ℝ} (h : FlClose (fun a => 2 * θ + η * |a|) v' v) :
    PyClose (aErr θ η (refSize x + volSize x)) ((Double.toReference x' v').bind fun a => .ok (Double.toVolume F x' a)) (AValue.scaled x v) := by
  rw [scaled_exact]
  rcases Double.toReference_close hθ hη0 h1 h2 h3 h with ⟨w', w, e1, e2, e3⟩ | ⟨e1, e2⟩
  · rw [e1, e2]
    rcases Double.toVolume_close hF hθ hη0 (Double.refSize_nonneg x) h4 e3 with ⟨a, b, f1, f2, f3⟩ | ⟨f1, f2⟩
    · refine Or.inl ⟨a, b, congrArg Except.ok f1, congrArg Except.ok f2, f3⟩
    · refine Or.inr ⟨congrArg Except.ok f1, fun b hb => f2 b ?_⟩
      injection hb
  · rw [e1, e2]
    exact Or.inr ⟨rfl, fun b hb => nomatch hb⟩

/-- The agreement of all three classes, from the agreement of the checks, of the selection and of the comparisons of magnitudes. -/
theorem a_agrees {F : NpA} {η : ℝ} (hF : AccurateA F η) (hη0 : 0 ≤ η) (hη : η ≤ 1 / 2) (c : AValue.Cls) (warn : Bool) (s : AValue.State) {x' x : AValue.Args}
    (places : ℕ) (m' m : ℕ → ℝ) {S : ℝ} (h1 : x'.mref = x.mref) (h2 : x'.b = x.b) (h3 : x'.mc = rnd x.mc) (h4 : x'.scaling = x.scaling) (h5 : x'.times = x.times)
    (hdn : x'.dmc.getD x'.δ < 0 ↔ x.dmc.getD x.δ < 0) (hde : |x'.dmc.getD x'.δ - x.dmc.getD x.δ| ≤ unit * |x.dmc.getD x.δ|)
    (hbin : Double.checkBinning x'.mags x'.δ places = BValue.checkBinning x.mags x.δ)
    (hsel : Double.selIdx x'.mags x'.mc x'.δ = usedIdx (AValue.toB x))
    (hm' : ∀ i ∈ usedIdx (AValue.toB x), x'.mags.getD i none = some (m' i)) (hm : ∀ i ∈ usedIdx (AValue.toB x), x.mags.getD i none = some (m i))
    (hmm : ∀ i ∈ usedIdx (AValue.toB x), |m' i - m i| ≤ unit * |m i|)
    (hS : ∀ i ∈ usedIdx (AValue.toB x), |m i| + |x.dmc.getD x.δ| + |x.mc| ≤ S)
    (hd : ∀ i ∈ usedIdx (AValue.toB x), ∀ k ∈ usedIdx (AValue.toB x),
      Double.threshold (x'.dmc.getD x'.δ) x'.δ ≤ Double.sub (m' k) (m' i) ↔ x.dmc.getD x.δ - x.δ / 2 ≤ m k - m i) :
    PyClose (aErr (rateErr c x.mags.length η (x.b.getD 0) S) η (refSize x + volSize x)) (Double.calculateA F c x' places) (AValue.calculate c warn s x).2 := by
  have hu := unit_pos.le
  rw [AValue.calculate_snd]
  unfold Double.calculateA AValue.result
  have hpre : Double.checkA c x' = AValue.precheck c x := by
    unfold Double.checkA AValue.precheck
    have hcut : x.dmc.getD x.δ = cutoff (AValue.toB x) := rfl
    rw [h2]
    cases c with
    | classic => rfl
    | positive =>
      dsimp only
      by_cases h : x.dmc.getD x.δ < 0
      · rw [if_pos (hdn.2 h), if_pos (hcut ▸ h)]
      · rw [if_neg (fun hh => h (hdn.1 hh)), if_neg (hcut ▸ h)]
    | morePositive =>
      dsimp only
      by_cases h0 : x.b.getD 0 = 0
      · rw [if_pos h0, if_pos h0]
      · rw [if_neg h0, if_neg h0]
        by_cases h : x.dmc.getD x.δ < 0
        · rw [if_pos (hdn.2 h), if_pos (hcut ▸ h)]
        · rw [if_neg (fun hh => h (hdn.1 hh)), if_neg (hcut ▸ h)]
  have htc : Double.checkTimes c x' (usedIdx (AValue.toB x)) = AValue.timesCheck c x := by
    unfold Double.checkTimes AValue.timesCheck
    rw [h5]
    cases c <;> rfl
  rw [hpre, hbin, hsel]
  dsimp only
  rw [htc]
  cases e1 : AValue.precheck c x with
  | error e => exact Or.inr ⟨rfl, fun b hb => nomatch hb⟩
  | ok u1 =>
    cases e2 : BValue.checkBinning x.mags x.δ with
    | error e => exact Or.inr ⟨rfl, fun b hb => nomatch hb⟩
    | ok u2 =>
      cases e3 : AValue.timesCheck c x with
      | error e => exact Or.inr ⟨rfl, fun b hb => nomatch hb⟩
      | ok u3 =>
        dsimp only [bind, Except.bind]
        by_cases he : usedIdx (AValue.toB x) = []
        · rw [if_pos he, if_pos he]
          exact Or.inr ⟨rfl, fun b hb => nomatch hb⟩
        rw [if_neg he, if_neg he]
        have hS0 : 0 ≤ S := by
          obtain ⟨i, hi⟩ := List.exists_mem_of_ne_nil _ he
          exact le_trans (by positivity) (hS i hi)
        refine scaled_close hF ?_ hη0 h1 h2 h3 h4 ?_
        · unfold rateErr
          cases c
          · exact le_rfl
          · exact mul_nonneg (by positivity) hu
          · exact add_nonneg (by positivity) (mul_nonneg (by positivity) hu)
        have horder : Double.timeOrder (some x.times) (usedIdx (AValue.toB x)) = timeOrder (AValue.toB x) := rfl
        have hperm := timeOrder_perm (AValue.toB x)
        have hin : ∀ i ∈ timeOrder (AValue.toB x), i ∈ usedIdx (AValue.toB x) := fun i hi => hperm.mem_iff.1 hi
        have hlen : (timeOrder (AValue.toB x)).length ≤ x.mags.length := by
          rw [hperm.length_eq]
          unfold usedIdx BValue.selIdx
          refine (List.length_filter_le _ _).trans ?_
          simp [AValue.toB]
        have hsort : (timeOrder (AValue.toB x)).Pairwise fun i j => AValue.tAt x i ≤ AValue.tAt x j :=
          timeOrder_sorted (AValue.toB x) x.times rfl
        have hms : ((timeOrder (AValue.toB x)).map fun i => x'.mags.getD i none).filterMap id = (timeOrder (AValue.toB x)).map m' := by
          rw [List.map_congr_left (fun i hi => hm' i (hin i hi)), show ((timeOrder (AValue.toB x)).map fun i => some (m' i)) =
            ((timeOrder (AValue.toB x)).map m').map some by rw [List.map_map]; rfl, filterMap_some_list]
        have hmag : ∀ i ∈ usedIdx (AValue.toB x), magOf (AValue.toB x) i = m i := by
          intro i hi
          unfold magOf
          have := hm i hi
          change (AValue.toB x).mags.getD i none = _ at this
          rw [this]
          rfl
        unfold Double.estimateA
        dsimp only
        rw [h5, h2, horder, hms]
        cases c with
        | classic =>
          dsimp only [AValue.raw]
          have hpos : (0 : ℝ) < (usedIdx (AValue.toB x)).length := by exact_mod_cast List.length_pos_iff.2 he
          left
          refine ⟨F.log10 (usedIdx (AValue.toB x)).length, Real.log (usedIdx (AValue.toB x)).length / Real.log 10, if_pos hpos, ?_, ?_⟩
          · simp only [Fl.log10, Fl.log, hpos, if_true, Fl.mapFin]
          · have := hF.log10 _ hpos
            simpa [rateErr] using this
        | positive =>
          dsimp only [AValue.raw]
          have h := aPositive_close hF hη0 (by linarith) (t := AValue.tAt x) (m' := m') (m := magOf (AValue.toB x)) (d' := x'.dmc.getD x'.δ) (δ' := x'.δ)
            (thr := x.dmc.getD x.δ - x.δ / 2) hlen
            (fun i hi k hk => by rw [hmag i (hin i hi), hmag k (hin k hk)]; exact hd i (hin i hi) k (hin k hk)) hsort
          exact h
        | morePositive =>
          dsimp only [AValue.raw]
          have h := aMorePositive_close hF hη0 hη (t := AValue.tAt x) (m' := m') (m := magOf (AValue.toB x)) (b := x.b.getD 0) (d' := x'.dmc.getD x'.δ)
            (δ' := x'.δ) (d := x.dmc.getD x.δ) (δ := x.δ) (c' := x'.mc) (c := x.mc) (S := S) hlen
            (fun i hi k hk => by rw [hmag i (hin i hi), hmag k (hin k hk)]; exact hd i (hin i hi) k (hin k hk)) hsort
            (fun i hi => by rw [hmag i (hin i hi)]; exact hmm i (hin i hi)) hde (by rw [h3]; exact Double.abs_rnd_sub _)
            (fun i hi => by rw [hmag i (hin i hi)]; exact hS i (hin i hi))
          exact h

/-- The arguments of a call with magnitudes on a decimal grid: bin size `j / 10 ^ p`, magnitudes `k` bins (`none` for NaN), `mc` is `c` bins, `dmc` (if given) `d`
bins. `f` is applied to all of these numbers: `id` gives the numbers themselves, `rnd` the doubles next to them. Times, `b_value`, `m_ref` and `scaling_factor` are
the same numbers in both. -/
def gridArgs (f : ℝ → ℝ) (ks : List (Option ℤ)) (j p : ℕ) (c : ℤ) (dmc : Option ℤ) (times : List ℝ) (b mref scaling : Option ℝ) : AValue.Args where
  mags := ks.map (Option.map fun k : ℤ => f (k * ((j : ℝ) / 10 ^ p)))
  mc := f (c * ((j : ℝ) / 10 ^ p))
  δ := f ((j : ℝ) / 10 ^ p)
  dmc := dmc.map fun d : ℤ => f (d * ((j : ℝ) / 10 ^ p))
  times := times
  b := b
  mref := mref
  scaling := scaling

theorem etaA_nonneg {F : NpA} {η : ℝ} (hF : AccurateA F η) : 0 ≤ η := by
  have := (abs_nonneg _).trans (hF.pow10 0)
  simpa using this

/-- C116: magnitudes up to 8 on a decimal grid. For the three classes the a-value computed in double precision agrees with the exact one: the same exception, NaN or
infinity, or a number with an error of at most `aErr`. -/
theorem C116_calculate {F : NpA} {η : ℝ} (hF : AccurateA F η) (hη : η ≤ 1 / 2) (cls : AValue.Cls) (ks : List (Option ℤ)) (j p : ℕ)
    (hj : (10 : ℝ) ^ p ≤ j * 10 ^ 12) (hp : p ≤ 12) (hk : ∀ k, some k ∈ ks → |(k : ℝ) * ((j : ℝ) / 10 ^ p)| ≤ 8) (c : ℤ) (dmc : Option ℤ)
    (hkR : ∀ k, some k ∈ ks → |(k : ℝ)| ≤ 10 ^ 12) (hc : |(c : ℝ)| ≤ 10 ^ 12) (hdmc : ∀ d, dmc = some d → |(d : ℝ)| ≤ 10 ^ 12)
    (times : List ℝ) (b mref scaling : Option ℝ) (warn : Bool) (s : AValue.State) (x : AValue.Args) (hx : x = gridArgs id ks j p c dmc times b mref scaling) :
    PyClose (aErr (rateErr cls ks.length η (b.getD 0) (8 + |x.dmc.getD x.δ| + |x.mc|)) η (refSize x + volSize x))
      (Double.calculateA F cls (gridArgs rnd ks j p c dmc times b mref scaling) p) (AValue.calculate cls warn s x).2 := by
  subst hx
  set x := gridArgs id ks j p c dmc times b mref scaling with hx
  set D : ℝ := (j : ℝ) / 10 ^ p with hDd
  have hP : (0 : ℝ) < 10 ^ p := by positivity
  have hj0 : (0 : ℝ) < j := by nlinarith
  have hD : 0 < D := by positivity
  set cd : ℤ := dmc.getD 1 with hcd
  have hcdR : |(cd : ℝ)| ≤ 10 ^ 12 := by
    rw [hcd]
    cases dmc with
    | none => norm_num
    | some d => exact hdmc d rfl
  have hcut : x.dmc.getD x.δ = cd * D := by
    show (dmc.map fun d : ℤ => (d : ℝ) * D).getD D = _
    rw [hcd]
    cases dmc with
    | none => simp
    | some d => rfl
  have hcutd : (gridArgs rnd ks j p c dmc times b mref scaling).dmc.getD (gridArgs rnd ks j p c dmc times b mref scaling).δ = rnd (cd * D) := by
    show (dmc.map fun d : ℤ => rnd (d * D)).getD (rnd D) = _
    rw [hcd]
    cases dmc with
    | none => simp
    | some d => rfl
  have hlen : x.mags.length = ks.length := by simp [hx, gridArgs]
  have hbin := checkBinning_same ks j p hj hp hk
  simp only [zero_add] at hbin
  have habs : ∀ k : ℤ, |(k : ℝ)| ≤ 10 ^ 12 → |0 + (k : ℝ) * D| ≤ 10 ^ 14 * D := by
    intro k hk
    rw [zero_add, abs_mul, abs_of_pos hD]
    exact mul_le_mul_of_nonneg_right (hk.trans (by norm_num)) hD.le
  have hsel := C81_exact_model 0 D hD ks c (fun k hkk => habs k (hkR k hkk)) (habs c hc)
  simp only [zero_add] at hsel
  have hsome : ∀ i ∈ usedIdx (AValue.toB x), ks.getD i none = some (posOf ks i) ∧ some (posOf ks i) ∈ ks := by
    intro i hi
    have h4 := BValue.magAt_used hi
    rw [show (AValue.toB x).mags.getD i none = (ks.getD i none).map fun k : ℤ => (k : ℝ) * D from getD_option_map ks _ i] at h4
    have hil : i < ks.length := by
      unfold usedIdx BValue.selIdx at hi
      have := (List.mem_filter.1 hi).1
      simpa [hx, gridArgs, AValue.toB] using this
    cases hk4 : ks.getD i none with
    | none => rw [hk4] at h4; cases h4
    | some k =>
      have : posOf ks i = k := by unfold posOf; rw [hk4]; rfl
      rw [this]
      refine ⟨rfl, ?_⟩
      rw [← hk4, List.getD_eq_getElem _ _ hil]
      exact List.getElem_mem hil
  have hG : GridData ks j p (10 ^ 12) (usedIdx (AValue.toB x)) :=
    ⟨hj, hp, by norm_num, le_rfl, fun i hi => hk _ (hsome i hi).2, fun i hi => hkR _ (hsome i hi).2⟩
  have := a_agrees hF (etaA_nonneg hF) hη cls warn s (x' := gridArgs rnd ks j p c dmc times b mref scaling) (x := x) p
    (fun i => rnd (posOf ks i * D)) (fun i => posOf ks i * D) (S := 8 + |x.dmc.getD x.δ| + |x.mc|) rfl rfl rfl rfl rfl
    (by rw [hcutd, hcut]; exact rnd_neg_iff _) (by rw [hcutd, hcut]; exact Double.abs_rnd_sub _) hbin hsel
    (by
      intro i hi
      show (ks.map (Option.map fun k : ℤ => rnd (k * D))).getD i none = _
      rw [getD_option_map, (hsome i hi).1]
      rfl)
    (by
      intro i hi
      show (ks.map (Option.map fun k : ℤ => (k : ℝ) * D)).getD i none = _
      rw [getD_option_map, (hsome i hi).1]
      rfl)
    (fun i hi => Double.abs_rnd_sub _)
    (by
      intro i hi
      have := hG.hk i hi
      linarith)
    (by
      intro i hi k hkk
      rw [hcutd, hcut]
      refine (hG.larger hi hkk hcdR).trans ?_
      show cd ≤ posOf ks k - posOf ks i ↔ cd * D - D / 2 ≤ posOf ks k * D - posOf ks i * D
      constructor
      · intro hh
        have : (cd : ℝ) ≤ posOf ks k - posOf ks i := by exact_mod_cast hh
        nlinarith [mul_le_mul_of_nonneg_right this hD.le]
      · intro hh
        by_contra hlt
        push Not at hlt
        have : ((posOf ks k - posOf ks i : ℤ) : ℝ) + 1 ≤ cd := by exact_mod_cast hlt
        push_cast at this
        nlinarith [mul_le_mul_of_nonneg_right this hD.le])
  rw [hlen] at this
  exact this

/-- C116 for continuous magnitudes (`delta_m = 0`, default cut-off): for all magnitudes up to `M` and any double `mc`. -/
theorem C116_continuous {F : NpA} {η : ℝ} (hF : AccurateA F η) (hη : η ≤ 1 / 2) (cls : AValue.Cls) (x : AValue.Args) (hδ : x.δ = 0) (hdmc : x.dmc = none)
    (hmc : IsDouble x.mc) {M : ℝ} (hM : ∀ m, some m ∈ x.mags → |m| ≤ M) (places : ℕ) (warn : Bool) (s : AValue.State) :
    PyClose (aErr (rateErr cls x.mags.length η (x.b.getD 0) (M + |x.mc|)) η (refSize x + volSize x)) (Double.calculateA F cls x places)
      (AValue.calculate cls warn s x).2 := by
  have hu := unit_pos.le
  have hr : rnd x.mc = x.mc := (C80_rounding x.mc).2.2 hmc
  have hthr : Double.threshold x.mc x.δ = x.mc := by
    unfold Double.threshold Double.sub
    rw [hδ, rnd_zero_div, sub_zero, hr]
  rw [hδ] at hthr
  have hthr0 : Double.threshold 0 0 = 0 := by
    unfold Double.threshold Double.sub
    rw [rnd_zero_div, sub_zero, rnd_zero']
  have hcut : x.dmc.getD x.δ = 0 := by rw [hdmc]; exact hδ
  have hsel : Double.selIdx x.mags x.mc x.δ = usedIdx (AValue.toB x) := by
    unfold Double.selIdx usedIdx BValue.selIdx
    simp only [hthr, AValue.toB, hδ, zero_div, sub_zero]
    rfl
  have hmag : ∀ i ∈ usedIdx (AValue.toB x), x.mags.getD i none = some (magOf (AValue.toB x) i) := fun i hi => BValue.magAt_used (a := AValue.toB x) hi
  refine a_agrees hF (etaA_nonneg hF) hη cls warn s (x' := x) (x := x) places (magOf (AValue.toB x)) (magOf (AValue.toB x)) rfl rfl hr.symm rfl rfl Iff.rfl
    (by simp; positivity) ?_ hsel hmag hmag (by intro i _; simp; positivity) ?_ ?_
  · rw [hδ]
    unfold Double.checkBinning BValue.checkBinning
    by_cases hl : 0 < x.mags.length
    · rw [if_pos hl, if_pos hl]
      have : Double.binningTest x.mags 0 places Double.tol0 none = binningTest x.mags 0 (defaultTol ℝ) false := by
        unfold Double.binningTest binningTest shiftToMin
        rw [if_neg (by omega)]
        dsimp only
        cases amin? (x.mags.filterMap id) with
        | none => rfl
        | some m =>
          have h1 : (0 : ℝ) < Double.tol0 := rnd_pos (by norm_num)
          have h2 : (0 : ℝ) < defaultTol ℝ := by unfold defaultTol; positivity
          dsimp only [bind, Except.bind]
          unfold Double.testShifted binningTestCore
          rw [if_pos h1, if_pos h2]
          simp
      rw [this]
      rfl
    · rw [if_neg hl, if_neg hl]
  · intro i hi
    rw [hcut, abs_zero, add_zero]
    have h1 := hmag i hi
    have hil : i < x.mags.length := by
      unfold usedIdx BValue.selIdx at hi
      have := (List.mem_filter.1 hi).1
      simpa [AValue.toB] using this
    rw [List.getD_eq_getElem _ _ hil] at h1
    have h2 := List.getElem_mem hil
    rw [h1] at h2
    linarith [hM _ h2]
  · intro i _ k _
    rw [hcut, hδ, hthr0, zero_div, sub_zero]
    unfold Double.sub
    have := rnd_neg_iff (magOf (AValue.toB x) k - magOf (AValue.toB x) i)
    constructor
    · intro h
      by_contra hn
      linarith [this.2 (not_le.1 hn)]
    · intro h
      by_contra hn
      linarith [this.1 (not_le.1 hn)]

theorem pyClose_mono {E E' : ℝ → ℝ} {x y : Py (Fl ℝ)} (h : PyClose E x y) (hE : ∀ a, E a ≤ E' a) : PyClose E' x y := by
  rcases h with ⟨a, b, h1, h2, h3⟩ | h
  · exact Or.inl ⟨a, b, h1, h2, h3.trans (hE b)⟩
  · exact Or.inr h

/-- C116 in practice: up to a million events; magnitudes, `mc`, `dmc` and `m_ref` between -8 and 8, the first three with at most two decimal places; a b-value up to 3;
a scaling factor between `10^-12` and `10^12`; numpy functions with relative error `10^-15`: the error is at most `10^-9 + 10^-14 |a|`. -/
theorem C116_practice {F : NpA} {η : ℝ} (hF : AccurateA F η) (hη : η ≤ 1 / 10 ^ 15) (cls : AValue.Cls) (ks : List (Option ℤ)) (hn : ks.length ≤ 10 ^ 6) (j p : ℕ)
    (hj : 1 ≤ j) (hp : p ≤ 2) (hk : ∀ k, some k ∈ ks → |(k : ℝ) * ((j : ℝ) / 10 ^ p)| ≤ 8) (c : ℤ) (hc : |(c : ℝ) * ((j : ℝ) / 10 ^ p)| ≤ 8)
    (dmc : Option ℤ) (hdmc : |((dmc.getD 1 : ℤ) : ℝ) * ((j : ℝ) / 10 ^ p)| ≤ 8) (times : List ℝ) (b mref scaling : Option ℝ) (hb : |b.getD 0| ≤ 3)
    (hr : ∀ r, mref = some r → |r| ≤ 8) (hf : ∀ f, scaling = some f → |Real.log f / Real.log 10| ≤ 12) (warn : Bool) (s : AValue.State) :
    PyClose (fun a => 1 / 10 ^ 9 + 1 / 10 ^ 14 * |a|) (Double.calculateA F cls (gridArgs rnd ks j p c dmc times b mref scaling) p)
      (AValue.calculate cls warn s (gridArgs id ks j p c dmc times b mref scaling)).2 := by
  have hη0 := etaA_nonneg hF
  have hj' : (1 : ℝ) ≤ j := by exact_mod_cast hj
  have hp' : (10 : ℝ) ^ p ≤ 100 := by
    calc (10 : ℝ) ^ p ≤ 10 ^ 2 := pow_le_pow_right₀ (by norm_num) hp
      _ = 100 := by norm_num
  have hP : (0 : ℝ) < 10 ^ p := by positivity
  have hbd : ∀ k : ℤ, |(k : ℝ) * ((j : ℝ) / 10 ^ p)| ≤ 8 → |(k : ℝ)| ≤ 10 ^ 12 := by
    intro k hk
    rw [abs_mul, abs_of_pos (by positivity : (0 : ℝ) < j / 10 ^ p), ← mul_div_assoc, div_le_iff₀ hP] at hk
    nlinarith [abs_nonneg (k : ℝ)]
  refine pyClose_mono (C116_calculate hF (hη.trans (by norm_num)) cls ks j p (by nlinarith) (by omega) hk c dmc (fun k hkk => hbd k (hk k hkk)) (hbd c hc)
    (fun d hd => hbd d (by rw [hd] at hdmc; exact hdmc)) times b mref scaling warn s _ rfl) fun a => ?_
  set x := gridArgs id ks j p c dmc times b mref scaling with hx
  have hcut : |x.dmc.getD x.δ| ≤ 8 := by
    have : x.dmc.getD x.δ = ((dmc.getD 1 : ℤ) : ℝ) * ((j : ℝ) / 10 ^ p) := by
      show (dmc.map fun d : ℤ => (d : ℝ) * ((j : ℝ) / 10 ^ p)).getD ((j : ℝ) / 10 ^ p) = _
      cases dmc with
      | none => simp
      | some d => rfl
    rw [this]; exact hdmc
  have hmc : |x.mc| ≤ 8 := hc
  have hn' : (ks.length : ℝ) ≤ 10 ^ 6 := by exact_mod_cast hn
  have hb0 := abs_nonneg (b.getD 0)
  have hrate : rateErr cls ks.length η (b.getD 0) (8 + |x.dmc.getD x.δ| + |x.mc|) ≤ 2 * η + (10 ^ 6 + 5 + 21 * (3 * 24)) * Spec.u := by
    have hu : 0 < Spec.u := unit_pos
    have h72 : |b.getD 0| * (8 + |x.dmc.getD x.δ| + |x.mc|) ≤ 3 * 24 :=
      mul_le_mul hb (by linarith) (by positivity) (by norm_num)
    unfold rateErr
    cases cls with
    | classic => positivity
    | positive => nlinarith
    | morePositive => nlinarith
  have href : refSize x ≤ 48 := by
    unfold refSize
    cases hm : x.mref with
    | none => norm_num
    | some r =>
      have : |r| ≤ 8 := hr r hm
      dsimp only
      calc |x.b.getD 0| * (|r| + |x.mc|) ≤ 3 * 16 := mul_le_mul hb (by linarith) (by positivity) (by norm_num)
        _ = 48 := by norm_num
  have hvol : volSize x ≤ 12 := by
    unfold volSize
    cases hm : x.scaling with
    | none => norm_num
    | some f => exact hf f hm
  have ha := abs_nonneg a
  unfold aErr
  have h1 : (4 * η + 8 * Spec.u) * (|a| + (refSize x + volSize x)) ≤ 1 / 10 ^ 14 * (|a| + 60) := by
    apply mul_le_mul _ (by linarith) _ (by norm_num)
    · unfold Spec.u; norm_num at *; linarith
    · have := Double.refSize_nonneg x
      have := Double.volSize_nonneg x
      positivity
  have h2 : 4 * (2 * η + (10 ^ 6 + 5 + 21 * (3 * 24)) * Spec.u) ≤ 5 / 10 ^ 10 := by
    unfold Spec.u; norm_num at *; linarith
  norm_num at *
  linarith

/-- Exact functions, to meet the hypotheses. -/
def exactA : NpA := ⟨fun x => Real.log x / Real.log 10, fun x => (10 : ℝ) ^ x⟩

theorem exactA_accurate : AccurateA exactA (1 / 10 ^ 15) := by
  constructor
  · intro x _
    simp only [exactA, sub_self, abs_zero]
    positivity
  · intro x
    simp only [exactA, sub_self, abs_zero]
    positivity

/-- Magnitudes 1.0, NaN, 1.3, 0.7, 1.2, 1.4 with bin size 0.1, `mc = 1.0`, default cut-off, times out of order, b-value 1, reference magnitude 0, ten years. -/
example : PyClose (fun a => 1 / 10 ^ 9 + 1 / 10 ^ 14 * |a|)
    (Double.calculateA exactA .morePositive (gridArgs rnd [some 10, none, some 13, some 7, some 12, some 14] 1 1 10 none [5, 0, 3, 2, 9, 4] (some 1) (some 0) (some 10)) 1)
    (AValue.calculate .morePositive true AValue.State.init
      (gridArgs id [some 10, none, some 13, some 7, some 12, some 14] 1 1 10 none [5, 0, 3, 2, 9, 4] (some 1) (some 0) (some 10))).2 := by
  have hk : ∀ k : ℤ, some k ∈ [some (10 : ℤ), none, some 13, some 7, some 12, some 14] → |(k : ℝ) * (((1 : ℕ) : ℝ) / 10 ^ 1)| ≤ 8 := by
    intro k hk
    simp at hk
    rcases hk with rfl | rfl | rfl | rfl | rfl <;> norm_num [abs_le]
  refine C116_practice exactA_accurate le_rfl .morePositive _ (by simp) 1 1 le_rfl (by norm_num) hk 10 (by norm_num) none (by norm_num) _ (some 1) (some 0) (some 10)
    (by norm_num) ?_ ?_ true _
  · intro r hr
    obtain rfl := Option.some.inj hr
    norm_num
  · intro f hf
    obtain rfl := Option.some.inj hf
    rw [div_self (Real.log_pos (by norm_num)).ne']
    norm_num

end

end SeismoStats.Props
