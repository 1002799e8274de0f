/-
Properties C63 (Gutenberg-Richter curve), C64 (dot sizes), C65 (cumulative counts), C66 (lists of the caller).
-/
import Verif.Model.PlotBasics
import Verif.Proofs.Binning
import Verif.Proofs.Py
import Mathlib.Tactic.NormNum
import Mathlib.Tactic.Linarith
import Mathlib.Tactic.Ring
import Mathlib.Tactic.FieldSimp

namespace SeismoStats.Props
open SeismoStats SeismoStats.PlotBasics
open Classical

/-! ### C63 -/

/-- C63: the curve has the value `n` at `mc` and is a tenth of its value `1 / b` magnitudes later. -/
theorem C63_curve (b mc n m : ℝ) :
    gutenbergRichter b mc n mc = n ∧ (b ≠ 0 → gutenbergRichter b mc n (m + 1 / b) = gutenbergRichter b mc n m / 10) := by
  constructor
  · simp [gutenbergRichter]
  · intro hb
    unfold gutenbergRichter
    have h10 : (0 : ℝ) < 10 := by norm_num
    have : -b * (m + 1 / b - mc) = -b * (m - mc) - 1 := by field_simp; ring
    rw [this, Real.rpow_sub h10, Real.rpow_one]
    ring

/-- C63: for a positive number of events the curve is positive, and decreasing for `b > 0`. -/
theorem C63_decreasing (b mc n m m' : ℝ) (hn : 0 < n) :
    0 < gutenbergRichter b mc n m ∧ (0 < b → m < m' → gutenbergRichter b mc n m' < gutenbergRichter b mc n m) := by
  unfold gutenbergRichter
  refine ⟨mul_pos hn (Real.rpow_pos_of_pos (by norm_num) _), ?_⟩
  intro hb hm
  apply mul_lt_mul_of_pos_left _ hn
  apply Real.rpow_lt_rpow_of_exponent_lt (by norm_num)
  nlinarith

/-- C63: the choice of the reference magnitude does not matter: from any of its points the curve is the same. -/
theorem C63_reference (b mc n m m' : ℝ) : gutenbergRichter b m' (gutenbergRichter b mc n m') m = gutenbergRichter b mc n m := by
  unfold gutenbergRichter
  rw [mul_assoc, ← Real.rpow_add (by norm_num)]
  congr 2
  ring

example : gutenbergRichter 1 2 1000 3 = 100 := by
  have h := (C63_curve 1 2 1000 2).2 one_ne_zero
  have h2 := (C63_curve 1 2 1000 2).1
  rw [h2] at h
  norm_num at h ⊢
  exact h

/-! ### C64 -/

theorem largestDot_gt (s l : ℝ) : s < largestDot s l := by
  unfold largestDot
  split
  · have h1 : s ≤ max s 2 := le_max_left _ _
    have h2 : 2 ≤ max s 2 := le_max_right _ _
    linarith
  · rename_i h
    exact not_le.1 h

theorem rescale_fin (lo hi p a b x : ℝ) (h : lo < hi) (hp : 0 < p) : rescale lo hi p a b x = .fin (((x - lo) / (hi - lo)) ^ p * (b - a) + a) := by
  unfold rescale Fl.div npPower
  rw [if_neg (by linarith : ¬ hi - lo = 0)]
  dsimp only
  rw [if_neg (by rintro ⟨_, h2⟩; linarith)]
  rfl

/-- Specification: the sizes of dots as numbers. -/
noncomputable def size (lo hi p a b x : ℝ) : ℝ := ((x - lo) / (hi - lo)) ^ p * (b - a) + a

theorem size_lt (lo hi p a b x y : ℝ) (h : lo < hi) (hp : 0 < p) (hab : a < b) (hx : lo ≤ x) (hxy : x < y) : size lo hi p a b x < size lo hi p a b y := by
  unfold size
  have h1 : 0 < hi - lo := by linarith
  have h2 : 0 ≤ (x - lo) / (hi - lo) := div_nonneg (by linarith) h1.le
  have h3 : (x - lo) / (hi - lo) < (y - lo) / (hi - lo) := (div_lt_div_iff_of_pos_right h1).2 (by linarith)
  have h4 := Real.rpow_lt_rpow h2 h3 hp
  nlinarith

theorem size_lo (lo hi p a b : ℝ) (hp : 0 < p) : size lo hi p a b lo = a := by
  unfold size
  rw [sub_self, zero_div, Real.zero_rpow hp.ne']
  ring

theorem size_hi (lo hi p a b : ℝ) (h : lo < hi) : size lo hi p a b hi = b := by
  unfold size
  rw [div_self (by linarith), Real.one_rpow]
  ring

/-- C64: for magnitudes that are not all equal and a positive power every dot has a size between the smallest and the largest one (the largest one being
replaced if it is not larger than the smallest), the smallest magnitude has the smallest dot, the largest the largest, and sizes grow with magnitude. -/
theorem C64_dot_size (mags : List ℝ) (lo hi smallest largest p : ℝ) (hlo : IsLeast {v | v ∈ mags} lo) (hhi : IsGreatest {v | v ∈ mags} hi) (hne : lo < hi)
    (hp : 0 < p) :
    ∃ (L : ℝ) (f : ℝ → ℝ), (smallest < largest → L = largest) ∧ smallest < L ∧ dotSize mags smallest largest p = .ok (mags.map fun m => .fin (f m)) ∧
      f lo = smallest ∧ f hi = L ∧ (∀ m ∈ mags, smallest ≤ f m ∧ f m ≤ L) ∧ ∀ m ∈ mags, ∀ m' ∈ mags, m < m' → f m < f m' := by
  have hL := largestDot_gt smallest largest
  have hmono : ∀ m ∈ mags, ∀ m' ∈ mags, m < m' → size lo hi p smallest (largestDot smallest largest) m < size lo hi p smallest (largestDot smallest largest) m' :=
    fun m hm m' hm' h => size_lt _ _ _ _ _ _ _ hne hp hL (hlo.2 hm) h
  refine ⟨largestDot smallest largest, size lo hi p smallest (largestDot smallest largest), ?_, hL, ?_, size_lo _ _ _ _ _ hp, size_hi _ _ _ _ _ hne, ?_, hmono⟩
  · intro h
    unfold largestDot
    rw [if_neg (not_le.2 h)]
  · unfold dotSize
    rw [(amin?_eq_some_iff _ _).2 hlo, (amax?_eq_some_iff _ _).2 hhi]
    dsimp only
    congr 1
    apply List.map_congr_left
    intro m hm
    rw [rescale_fin _ _ _ _ _ _ hne hp]
    rfl
  · intro m hm
    constructor
    · rcases (hlo.2 hm).eq_or_lt with rfl | h
      · rw [size_lo _ _ _ _ _ hp]
      · have := hmono lo hlo.1 m hm h
        rw [size_lo _ _ _ _ _ hp] at this
        exact this.le
    · rcases (hhi.2 hm).eq_or_lt with rfl | h
      · rw [size_hi _ _ _ _ _ hne]
      · have := hmono m hm hi hhi.1 h
        rw [size_hi _ _ _ _ _ hne] at this
        exact this.le

/-- C64: `reverse_dot_size` with the smallest and largest magnitude gives back the magnitudes of the dots. -/
theorem C64_reverse (mags : List ℝ) (lo hi smallest largest p : ℝ) (hlo : IsLeast {v | v ∈ mags} lo) (hhi : IsGreatest {v | v ∈ mags} hi) (hne : lo < hi)
    (hp : 0 < p) :
    ∃ sizes : List ℝ, dotSize mags smallest largest p = .ok (sizes.map .fin) ∧ reverseDotSize sizes lo hi p = .ok (mags.map .fin) := by
  set L := largestDot smallest largest with hLdef
  have hL : smallest < L := largestDot_gt smallest largest
  have hmono : ∀ m ∈ mags, ∀ m' ∈ mags, m ≤ m' → size lo hi p smallest L m ≤ size lo hi p smallest L m' := by
    intro m hm m' hm' h
    rcases h.eq_or_lt with rfl | h
    · exact le_rfl
    · exact (size_lt _ _ _ _ _ _ _ hne hp hL (hlo.2 hm) h).le
  refine ⟨mags.map (size lo hi p smallest L), ?_, ?_⟩
  · unfold dotSize
    rw [(amin?_eq_some_iff _ _).2 hlo, (amax?_eq_some_iff _ _).2 hhi]
    dsimp only
    rw [List.map_map]
    congr 1
    apply List.map_congr_left
    intro m hm
    rw [rescale_fin _ _ _ _ _ _ hne hp]
    rfl
  · unfold reverseDotSize
    rw [if_neg hp.ne']
    have h1 : amin? (mags.map (size lo hi p smallest L)) = some smallest := by
      rw [amin?_eq_some_iff]
      refine ⟨List.mem_map.2 ⟨lo, hlo.1, size_lo _ _ _ _ _ hp⟩, ?_⟩
      intro v hv
      obtain ⟨m, hm, rfl⟩ := List.mem_map.1 hv
      have := hmono lo hlo.1 m hm (hlo.2 hm)
      rwa [size_lo _ _ _ _ _ hp] at this
    have h2 : amax? (mags.map (size lo hi p smallest L)) = some L := by
      rw [amax?_eq_some_iff]
      refine ⟨List.mem_map.2 ⟨hi, hhi.1, size_hi _ _ _ _ _ hne⟩, ?_⟩
      intro v hv
      obtain ⟨m, hm, rfl⟩ := List.mem_map.1 hv
      have := hmono m hm hi hhi.1 (hhi.2 hm)
      rwa [size_hi _ _ _ _ _ hne] at this
    rw [h1, h2]
    dsimp only
    rw [List.map_map]
    congr 1
    apply List.map_congr_left
    intro m hm
    rw [Function.comp_apply, rescale_fin _ _ _ _ _ _ hL (one_div_pos.2 hp)]
    congr 1
    have hd : 0 < hi - lo := by linarith
    have e1 : (size lo hi p smallest L m - smallest) / (L - smallest) = ((m - lo) / (hi - lo)) ^ p := by
      unfold size
      have : L - smallest ≠ 0 := by linarith
      field_simp
      ring
    have hm0 : 0 ≤ (m - lo) / (hi - lo) := div_nonneg (by linarith [hlo.2 hm]) hd.le
    rw [e1, ← Real.rpow_mul hm0, mul_one_div_cancel hp.ne', Real.rpow_one]
    field_simp
    ring

/-- C64 (defect): if all magnitudes are equal no dot has a size; an empty array and a power of zero on the way back are ValueErrors. -/
theorem C64_defect_equal (n : ℕ) (m smallest largest p : ℝ) (hp : p ≠ 0) :
    dotSize (List.replicate (n + 1) m) smallest largest p = .ok (List.replicate (n + 1) .nan) ∧ dotSize [] smallest largest p = .error .valueError ∧
      ∀ sizes a b, reverseDotSize sizes a b 0 = .error .valueError := by
  refine ⟨?_, rfl, fun sizes a b => by simp [reverseDotSize]⟩
  have h1 : amin? (List.replicate (n + 1) m) = some m := by
    rw [amin?_eq_some_iff]
    exact ⟨by simp, fun v hv => by rw [List.eq_of_mem_replicate hv]⟩
  have h2 : amax? (List.replicate (n + 1) m) = some m := by
    rw [amax?_eq_some_iff]
    exact ⟨by simp, fun v hv => by rw [List.eq_of_mem_replicate hv]⟩
  unfold dotSize
  rw [h1, h2]
  dsimp only
  rw [List.map_replicate]
  congr 2
  unfold rescale Fl.div npPower
  simp [hp, Fl.mapFin]

/-- A case: the magnitudes 1, 2, 3 with sizes from 10 to 200, linear. -/
example : IsLeast {v | v ∈ ([1, 2, 3] : List ℝ)} 1 ∧ IsGreatest {v | v ∈ ([1, 2, 3] : List ℝ)} 3 := by
  constructor
  · refine ⟨by simp, fun v hv => ?_⟩
    simp only [Set.mem_ofPred_eq, List.mem_cons, List.not_mem_nil, or_false] at hv
    rcases hv with rfl | rfl | rfl <;> norm_num
  · refine ⟨by simp, fun v hv => ?_⟩
    simp only [Set.mem_ofPred_eq, List.mem_cons, List.not_mem_nil, or_false] at hv
    rcases hv with rfl | rfl | rfl <;> norm_num

/-! ### C65 -/

/-- Specification: the height of a step line (`where="post"`) at `t`: that of its last point at or before `t`. -/
noncomputable def heightAt (line : List (ℝ × ℝ)) (t : ℝ) : Option ℝ := ((line.filter fun p => decide (p.1 ≤ t)).getLast?).map Prod.snd

/-- Specification: the weight of the events of magnitude at least `m` that have happened by `t`. -/
noncomputable def happened (times mags weights : List ℝ) (m t : ℝ) : ℝ :=
  ((((times.zip weights).zip mags).filter fun p => decide (m ≤ p.2) && decide (p.1.1 ≤ t)).map fun p => p.1.2).sum

/-- Specification: the weight of all events of magnitude at least `m`. -/
noncomputable def totalAbove (times mags weights : List ℝ) (m : ℝ) : ℝ :=
  ((((times.zip weights).zip mags).filter fun p => decide (m ≤ p.2)).map fun p => p.1.2).sum

theorem getLast_cons_filter (x0 acc t : ℝ) (l : List (ℝ × ℝ)) (hl : l.Pairwise fun p q => p.1 ≤ q.1) :
    (((x0, acc) :: (((l.map Prod.fst).zip (cumsumFrom acc (l.map Prod.snd))).filter fun p => decide (p.1 ≤ t))).getLast?).map Prod.snd =
      some (acc + ((l.filter fun p => decide (p.1 ≤ t)).map Prod.snd).sum) := by
  induction l generalizing x0 acc with
  | nil => simp [cumsumFrom]
  | cons p l ih =>
    obtain ⟨a, w⟩ := p
    rw [List.pairwise_cons] at hl
    simp only [List.map_cons, cumsumFrom, List.zip_cons_cons]
    by_cases ha : a ≤ t
    · rw [List.filter_cons_of_pos (by simpa using ha), List.getLast?_cons_cons, ih a (acc + w) hl.2,
        List.filter_cons_of_pos (by simpa using ha)]
      simp [add_assoc]
    · have hlt : ∀ q ∈ l, ¬ q.1 ≤ t := by
        intro q hq
        have := hl.1 q hq
        simp only at this
        linarith
      have hnil : (l.filter fun p => decide (p.1 ≤ t)) = [] := by
        rw [List.filter_eq_nil_iff]
        intro q hq
        simpa using hlt q hq
      have hnil2 : ((l.map Prod.fst).zip (cumsumFrom (acc + w) (l.map Prod.snd))).filter (fun p => decide (p.1 ≤ t)) = [] := by
        rw [List.filter_eq_nil_iff]
        rintro ⟨u, v⟩ hq
        obtain ⟨q, hq', rfl⟩ := List.mem_map.1 (List.of_mem_zip hq).1
        simpa using hlt q hq'
      rw [List.filter_cons_of_neg (by simpa using ha), List.filter_cons_of_neg (by simpa using ha), hnil, hnil2]
      simp

theorem length_cumsumFrom' (acc : ℝ) (l : List ℝ) : (cumsumFrom acc l).length = l.length := by
  induction l generalizing acc with
  | nil => rfl
  | cons a l ih => simp [cumsumFrom, ih]

theorem cumsum_bounds (acc : ℝ) (l : List ℝ) (h : ∀ w ∈ l, 0 ≤ w) :
    (∀ v ∈ cumsumFrom acc l, acc ≤ v ∧ v ≤ acc + l.sum) ∧ (cumsumFrom acc l).Pairwise (· ≤ ·) ∧ 0 ≤ l.sum := by
  induction l generalizing acc with
  | nil => simp [cumsumFrom]
  | cons a l ih =>
    have ha := h a (by simp)
    obtain ⟨h1, h2, h3⟩ := ih (acc + a) fun w hw => h w (by simp [hw])
    refine ⟨?_, ?_, by rw [List.sum_cons]; linarith⟩
    · intro v hv
      rw [List.sum_cons]
      rcases List.mem_cons.1 hv with rfl | hv
      · constructor <;> linarith
      · have := h1 v hv
        constructor <;> linarith [this.1, this.2]
    · rw [cumsumFrom, List.pairwise_cons]
      exact ⟨fun v hv => (h1 v hv).1, h2⟩

theorem zip_pairwise (A B : List ℝ) (hA : A.Pairwise (· ≤ ·)) (hB : B.Pairwise (· ≤ ·)) : (A.zip B).Pairwise fun p q => p.1 ≤ q.1 ∧ p.2 ≤ q.2 := by
  induction A generalizing B with
  | nil => simp
  | cons a A ih =>
    cases B with
    | nil => simp
    | cons b B =>
      rw [List.pairwise_cons] at hA hB
      rw [List.zip_cons_cons, List.pairwise_cons]
      refine ⟨?_, ih B hA.2 hB.2⟩
      rintro ⟨u, v⟩ hq
      exact ⟨hA.1 u (List.of_mem_zip hq).1, hB.1 v (List.of_mem_zip hq).2⟩

theorem shown_sorted (times mags weights : List ℝ) (mc δ : ℝ) : (selected times mags weights mc δ).Pairwise fun p q => p.1 ≤ q.1 := by
  have : Std.Total (fun p q : ℝ × ℝ => p.1 ≤ q.1) := ⟨fun a b => le_total a.1 b.1⟩
  have : IsTrans (ℝ × ℝ) (fun p q : ℝ × ℝ => p.1 ≤ q.1) := ⟨fun a b c h1 h2 => le_trans h1 h2⟩
  unfold selected
  exact List.pairwise_insertionSort _ _

theorem shown_perm (times mags weights : List ℝ) (mc δ : ℝ) :
    (selected times mags weights mc δ).Perm ((((times.zip weights).zip mags).filter fun p => decide (mc - δ / 2 ≤ p.2)).map Prod.fst) := by
  unfold selected
  exact List.perm_insertionSort _ _

theorem shown_sum (times mags weights : List ℝ) (mc δ : ℝ) : ((selected times mags weights mc δ).map Prod.snd).sum = totalAbove times mags weights (mc - δ / 2) := by
  rw [((shown_perm times mags weights mc δ).map Prod.snd).sum_eq, List.map_map]
  rfl

theorem shown_happened (times mags weights : List ℝ) (mc δ t : ℝ) :
    (((selected times mags weights mc δ).filter fun p => decide (p.1 ≤ t)).map Prod.snd).sum = happened times mags weights (mc - δ / 2) t := by
  rw [(((shown_perm times mags weights mc δ).filter _).map Prod.snd).sum_eq, List.filter_map, List.filter_filter, List.map_map]
  unfold happened
  congr 2
  apply List.filter_congr
  intro p _
  simp [Bool.and_comm]

theorem shown_mem (times mags weights : List ℝ) (mc δ : ℝ) (p : ℝ × ℝ) (h : p ∈ selected times mags weights mc δ) : p.1 ∈ times ∧ p.2 ∈ weights := by
  rw [(shown_perm times mags weights mc δ).mem_iff] at h
  obtain ⟨q, hq, rfl⟩ := List.mem_map.1 h
  have := (List.of_mem_zip (List.mem_of_mem_filter hq)).1
  exact ⟨(List.of_mem_zip this).1, (List.of_mem_zip this).2⟩

/-- The line before normalisation. -/
theorem step_line_raw (first last : ℝ) (s : List (ℝ × ℝ)) :
    (first :: (s.map Prod.fst ++ [last])).zip (cumulative (s.map Prod.snd)) =
      (first, 0) :: ((s.map Prod.fst).zip (cumsumFrom 0 (s.map Prod.snd)) ++ [(last, (s.map Prod.snd).sum)]) := by
  unfold cumulative
  rw [List.zip_cons_cons, List.zip_append (by rw [length_cumsumFrom']; simp)]
  rfl

/-- Specification: `line` is the cumulative count of the events of magnitude at least `m`, divided by `c`: it starts at height 0 at the time of the first
event of the catalogue, has at every later time the height of the weight of the events so far, ends at the time of the last event of the catalogue,
and never falls. -/
structure IsCurve (times mags weights : List ℝ) (m first last c : ℝ) (line : List (ℝ × ℝ)) : Prop where
  start : line.head? = some (first, 0)
  stop : line.getLast? = some (last, totalAbove times mags weights m / c)
  height : ∀ t, first ≤ t → heightAt line t = some (happened times mags weights m t / c)
  before : ∀ t, t < first → heightAt line t = none
  rising : line.Pairwise fun p q => p.1 ≤ q.1 ∧ p.2 ≤ q.2

theorem isCurve_raw (times mags weights : List ℝ) (mc δ first last : ℝ) (hf : IsLeast {v | v ∈ times} first) (hl : IsGreatest {v | v ∈ times} last)
    (hw : ∀ w ∈ weights, 0 ≤ w) :
    IsCurve times mags weights (mc - δ / 2) first last 1
      ((first :: ((selected times mags weights mc δ).map Prod.fst ++ [last])).zip (cumulative ((selected times mags weights mc δ).map Prod.snd))) := by
  have hsort := shown_sorted times mags weights mc δ
  have hmem := shown_mem times mags weights mc δ
  have hsum := shown_sum times mags weights mc δ
  have hhap := shown_happened times mags weights mc δ
  generalize selected times mags weights mc δ = s at *
  have hw' : ∀ w ∈ s.map Prod.snd, 0 ≤ w := by
    intro w h
    obtain ⟨p, hp, rfl⟩ := List.mem_map.1 h
    exact hw _ (hmem p hp).2
  have htimes : (first :: (s.map Prod.fst ++ [last])).Pairwise (· ≤ ·) := by
    rw [List.pairwise_cons, List.pairwise_append]
    refine ⟨?_, List.pairwise_map.2 hsort, by simp, ?_⟩
    · intro a ha
      rcases List.mem_append.1 ha with ha | ha
      · obtain ⟨p, hp, rfl⟩ := List.mem_map.1 ha
        exact hf.2 (hmem p hp).1
      · rw [List.mem_singleton.1 ha]
        exact hf.2 hl.1
    · intro a ha b hb
      obtain ⟨p, hp, rfl⟩ := List.mem_map.1 ha
      rw [List.mem_singleton.1 hb]
      exact hl.2 (hmem p hp).1
  obtain ⟨c1, c2, c3⟩ := cumsum_bounds 0 (s.map Prod.snd) hw'
  have hvals : (cumulative (s.map Prod.snd)).Pairwise (· ≤ ·) := by
    unfold cumulative
    rw [List.pairwise_cons, List.pairwise_append]
    refine ⟨?_, c2, by simp, ?_⟩
    · intro a ha
      rcases List.mem_append.1 ha with ha | ha
      · exact (c1 a ha).1
      · rw [List.mem_singleton.1 ha]
        exact c3
    · intro a ha b hb
      rw [List.mem_singleton.1 hb]
      have := (c1 a ha).2
      linarith
  refine ⟨?_, ?_, ?_, ?_, zip_pairwise _ _ htimes hvals⟩
  · rw [step_line_raw]; rfl
  · rw [step_line_raw, ← List.cons_append, List.getLast?_append]
    simp [hsum]
  · intro t ht
    unfold heightAt
    rw [step_line_raw, ← List.cons_append, List.filter_append, List.filter_cons_of_pos (by simpa using ht), div_one, ← hhap t]
    by_cases hlt : last ≤ t
    · rw [List.filter_cons_of_pos (by simpa using hlt), List.filter_nil, List.getLast?_append]
      have hall : s.filter (fun p => decide (p.1 ≤ t)) = s := by
        rw [List.filter_eq_self]
        intro p hp
        have := hl.2 (hmem p hp).1
        simpa using le_trans this hlt
      rw [hall]
      simp
    · rw [List.filter_cons_of_neg (by simpa using hlt), List.filter_nil, List.append_nil, getLast_cons_filter first 0 t s hsort, zero_add]
  · intro t ht
    unfold heightAt
    have : ((first :: (s.map Prod.fst ++ [last])).zip (cumulative (s.map Prod.snd))).filter (fun p => decide (p.1 ≤ t)) = [] := by
      rw [List.filter_eq_nil_iff]
      rintro ⟨a, b⟩ hp
      have h1 := (List.of_mem_zip hp).1
      have : first ≤ a := by
        rcases List.mem_cons.1 h1 with rfl | h1
        · exact le_rfl
        · exact (List.pairwise_cons.1 htimes).1 a h1
      simp only [decide_eq_true_eq, not_le]
      linarith
    rw [this]
    rfl

theorem filter_map_snd (line : List (ℝ × ℝ)) (f : ℝ → ℝ) (t : ℝ) : heightAt (line.map (Prod.map id f)) t = (heightAt line t).map f := by
  unfold heightAt
  rw [List.filter_map, List.getLast?_map]
  simp only [Option.map_map]
  rfl

theorem isCurve_scale (times mags weights : List ℝ) (m first last c : ℝ) (hc : 0 < c) (line : List (ℝ × ℝ)) (h : IsCurve times mags weights m first last 1 line) :
    IsCurve times mags weights m first last c (line.map (Prod.map id fun v => v / c)) := by
  refine ⟨?_, ?_, ?_, ?_, ?_⟩
  · rw [List.head?_map, h.start]; simp
  · rw [List.getLast?_map, h.stop]; simp
  · intro t ht
    rw [filter_map_snd, h.height t ht]; simp
  · intro t ht
    rw [filter_map_snd, h.before t ht]; rfl
  · rw [List.pairwise_map]
    refine h.rising.imp ?_
    rintro p q ⟨h1, h2⟩
    exact ⟨h1, (div_le_div_iff_of_pos_right hc).2 h2⟩

theorem cumulative_sum_pos (w : List ℝ) (h : ∀ v ∈ w, 0 ≤ v) : (0 < (cumulative w).sum ↔ 0 < w.sum) := by
  obtain ⟨c1, c2, c3⟩ := cumsum_bounds 0 w h
  have hs : (cumulative w).sum = (cumsumFrom 0 w).sum + w.sum := by
    unfold cumulative
    simp
  have h0 : 0 ≤ (cumsumFrom 0 w).sum := List.sum_nonneg fun v hv => (c1 v hv).1
  constructor
  · intro hp
    rcases c3.eq_or_lt with hz | hz
    · exfalso
      have hz0 : ∀ v ∈ cumsumFrom 0 w, v = 0 := by
        intro v hv
        have := (c1 v hv)
        rw [← hz] at this
        linarith [this.1, this.2]
      have : (cumsumFrom 0 w).sum = 0 := List.sum_eq_zero hz0
      linarith
    · exact hz
  · intro hp
    linarith

/-- One line of `plot_cum_count`. -/
theorem cumLine_eq (times mags weights : List ℝ) (mc δ first last : ℝ) (normalize : Bool) (h1 : mags.length = times.length) (h2 : weights.length = times.length)
    (hf : IsLeast {v | v ∈ times} first) (hl : IsGreatest {v | v ∈ times} last) (hw : ∀ w ∈ weights, 0 ≤ w) :
    (0 < totalAbove times mags weights (mc - δ / 2) →
      ∃ line, cumLine times mags weights first last δ normalize mc = .ok (some line) ∧
        IsCurve times mags weights (mc - δ / 2) first last (if normalize then totalAbove times mags weights (mc - δ / 2) else 1) line) ∧
    (totalAbove times mags weights (mc - δ / 2) = 0 → cumLine times mags weights first last δ normalize mc = .ok none) := by
  have hsum := shown_sum times mags weights mc δ
  have hw' : ∀ w ∈ (selected times mags weights mc δ).map Prod.snd, 0 ≤ w := by
    intro w h
    obtain ⟨p, hp, rfl⟩ := List.mem_map.1 h
    exact hw _ (shown_mem _ _ _ _ _ p hp).2
  have hpos := cumulative_sum_pos _ hw'
  have hraw := isCurve_raw times mags weights mc δ first last hf hl hw
  constructor
  · intro htot
    unfold cumLine
    rw [if_neg (by simp [h1, h2])]
    dsimp only
    rw [if_pos (hpos.2 (by rw [hsum]; exact htot))]
    refine ⟨_, rfl, ?_⟩
    rw [hsum]
    cases normalize with
    | false => simpa [normalise] using hraw
    | true =>
      have := isCurve_scale _ _ _ _ _ _ _ htot _ hraw
      simp only [normalise, if_true]
      rw [List.zip_map_right]
      exact this
  · intro htot
    unfold cumLine
    rw [if_neg (by simp [h1, h2])]
    dsimp only
    rw [if_neg (by rw [hpos, hsum, htot]; exact lt_irrefl _)]

/-- C65: `plot_cum_count` with a list of completeness magnitudes draws for each of them, in order, the cumulative count of the events at or above it
(up to half a bin), normalised to one or not; for a magnitude that no weight lies above, nothing. -/
theorem C65_curves (times mags weights mcs : List ℝ) (δ : Option ℝ) (first last : ℝ) (normalize : Bool) (h1 : mags.length = times.length) (h2 : weights.length = times.length)
    (hf : IsLeast {v | v ∈ times} first) (hl : IsGreatest {v | v ∈ times} last) (hw : ∀ w ∈ weights, 0 ≤ w) :
    ∃ lines, plotCumCount times mags (some mcs) δ (some weights) normalize none = .ok lines ∧
      List.Forall₂ (fun mc o => (0 < totalAbove times mags weights (mc - δ.getD 0 / 2) → ∃ line, o = some line ∧
          IsCurve times mags weights (mc - δ.getD 0 / 2) first last (if normalize then totalAbove times mags weights (mc - δ.getD 0 / 2) else 1) line) ∧
        (totalAbove times mags weights (mc - δ.getD 0 / 2) = 0 → o = none)) mcs lines := by
  have key : ∀ mc, ∃ o, cumLine times mags weights first last (δ.getD 0) normalize mc = .ok o ∧
      (0 < totalAbove times mags weights (mc - δ.getD 0 / 2) → ∃ line, o = some line ∧
          IsCurve times mags weights (mc - δ.getD 0 / 2) first last (if normalize then totalAbove times mags weights (mc - δ.getD 0 / 2) else 1) line) ∧
      (totalAbove times mags weights (mc - δ.getD 0 / 2) = 0 → o = none) := by
    intro mc
    obtain ⟨k1, k2⟩ := cumLine_eq times mags weights mc (δ.getD 0) first last normalize h1 h2 hf hl hw
    by_cases h0 : totalAbove times mags weights (mc - δ.getD 0 / 2) = 0
    · exact ⟨none, k2 h0, fun h => absurd h0 h.ne', fun _ => rfl⟩
    · have hge : 0 ≤ totalAbove times mags weights (mc - δ.getD 0 / 2) := by
        apply List.sum_nonneg
        intro w hw2
        obtain ⟨p, hp, rfl⟩ := List.mem_map.1 hw2
        exact hw _ (List.of_mem_zip (List.of_mem_zip (List.mem_of_mem_filter hp)).1).2
      obtain ⟨line, hl1, hl2⟩ := k1 (lt_of_le_of_ne hge (Ne.symm h0))
      exact ⟨some line, hl1, fun _ => ⟨line, rfl, hl2⟩, fun h => absurd h h0⟩
  have hfold : plotCumCount times mags (some mcs) δ (some weights) normalize none = mcs.mapM (cumLine times mags weights first last (δ.getD 0) normalize) := by
    unfold plotCumCount
    rw [(amin?_eq_some_iff _ _).2 hf, (amax?_eq_some_iff _ _).2 hl]
    rfl
  rw [hfold]
  clear hfold
  induction mcs with
  | nil => exact ⟨[], rfl, .nil⟩
  | cons mc mcs ih =>
    obtain ⟨o, ho1, ho2⟩ := key mc
    obtain ⟨r, hr1, hr2⟩ := ih
    refine ⟨o :: r, ?_, .cons ho2 hr2⟩
    rw [List.mapM_cons, ho1, hr1]
    rfl

/-- C65: without completeness magnitude and weights the last height is 1, or the number of events: all events count. -/
theorem C65_all_events (times mags : List ℝ) (lo first last : ℝ) (normalize : Bool) (h1 : mags.length = times.length)
    (hf : IsLeast {v | v ∈ times} first) (hl : IsGreatest {v | v ∈ times} last) (hlo : IsLeast {v | v ∈ mags} lo) :
    ∃ line, plotCumCount times mags none none none normalize none = .ok [some line] ∧ line.getLast? = some (last, if normalize then 1 else (times.length : ℝ)) := by
  have hne : times ≠ [] := List.ne_nil_of_mem hf.1
  have htot : totalAbove times mags (times.map fun _ => 1) (lo - 0 / 2) = (times.length : ℝ) := by
    unfold totalAbove
    rw [List.filter_eq_self.2]
    · have : ((times.zip (times.map fun _ => (1 : ℝ))).zip mags).map (fun p => p.1.2) = times.map fun _ => 1 := by
        rw [show (fun p : (ℝ × ℝ) × ℝ => p.1.2) = Prod.snd ∘ Prod.fst from rfl, ← List.map_map, List.map_fst_zip (by simp; omega), List.map_snd_zip (by simp)]
      rw [this]
      simp
    · rintro ⟨p, m⟩ hp
      have := hlo.2 (List.of_mem_zip hp).2
      simp only [decide_eq_true_eq]
      linarith
  have hpos : (0 : ℝ) < times.length := by
    have : 0 < times.length := List.length_pos_of_ne_nil hne
    exact_mod_cast this
  obtain ⟨line, hl1, hl2⟩ := (cumLine_eq times mags (times.map fun _ => 1) lo 0 first last normalize h1 (by simp) hf hl (by simp)).1 (by rw [htot]; exact hpos)
  refine ⟨line, ?_, ?_⟩
  · unfold plotCumCount
    rw [(amin?_eq_some_iff _ _).2 hf, (amax?_eq_some_iff _ _).2 hl, (amin?_eq_some_iff _ _).2 hlo]
    simp only [bind, Except.bind, Option.getD_none]
    rw [List.mapM_cons, hl1]
    rfl
  · rw [hl2.stop, htot]
    cases normalize with
    | false => simp
    | true => simp [hpos.ne']

/-- C65: errors: no events, a list of colours of another length, arrays of different lengths. -/
theorem C65_errors (times mags mcs : List ℝ) (ws : Option (List ℝ)) (δ : Option ℝ) (normalize : Bool) (n : ℕ) (o : Option (List ℝ)) (c : Option ℕ) :
    plotCumCount [] mags o δ ws normalize c = .error .valueError ∧
    (n ≠ mcs.length → plotCumCount times mags (some mcs) δ ws normalize (some n) = .error .valueError) ∧
    (times ≠ [] → mcs ≠ [] → mags.length ≠ times.length → plotCumCount times mags (some mcs) δ ws normalize none = .error .indexError) := by
  refine ⟨rfl, ?_, ?_⟩
  · intro hn
    unfold plotCumCount
    cases amin? times with
    | none => rfl
    | some a =>
      cases amax? times with
      | none => rfl
      | some b =>
        simp only [bind, Except.bind]
        rw [if_pos hn]
  · intro ht hm hlen
    obtain ⟨a, ha⟩ := exists_amin ht
    obtain ⟨b, hb⟩ := exists_amax ht
    unfold plotCumCount
    rw [ha, hb]
    simp only [bind, Except.bind]
    cases mcs with
    | nil => exact absurd rfl hm
    | cons m mcs =>
      rw [List.mapM_cons]
      unfold cumLine
      rw [if_pos (Or.inl hlen)]
      rfl

/-- A case: three events, given out of order; two of magnitude at least 2. -/
example : totalAbove [3, 1, 2] [2, 1, 3] [1, 1, 1] (2 - 0 / 2) = 2 ∧ happened [3, 1, 2] [2, 1, 3] [1, 1, 1] (2 - 0 / 2) 2 = 1 := by
  constructor
  · unfold totalAbove
    simp [List.filter_cons]
    norm_num
  · unfold happened
    simp [List.filter_cons]
    norm_num

/-! ### C66 -/

/-- C66: with change times the line drawn goes through the given points and ends at the last event with the last completeness magnitude. -/
theorem C66_line (newYear : ℤ → ℝ) (times mags ts mcs : List ℝ) (last m : ℝ) (h1 : times.length = mags.length) (hl : IsGreatest {v | v ∈ times} last)
    (hts : ts ≠ []) (hlen : ts.length = mcs.length) (hm : mcs.getLast? = some m) :
    (plotMagsInTime newYear times mags { changeTimes := ts.map Tm.at, mcs := mcs }).2 = .ok (ts.zip mcs ++ [(last, m)]) := by
  unfold plotMagsInTime
  rw [if_neg (by simpa using h1), (amax?_eq_some_iff _ _).2 hl]
  cases ts with
  | nil => exact absurd rfl hts
  | cons t ts =>
    simp only [drawMc, List.map_cons, drawTimes, hm]
    rw [← List.map_cons, List.map_append, List.map_map]
    have : (t :: ts).map (coord ∘ Tm.at) = t :: ts := by
      have h : coord ∘ Tm.at = id := rfl
      rw [h, List.map_id]
    rw [this]
    unfold stepLine
    rw [if_pos (by simpa using hlen)]
    rw [List.map_cons, List.map_nil, List.zip_append hlen]
    rfl

/-- One call with change times extends both lists. -/
theorem plot_times_state (newYear : ℤ → ℝ) (times mags ts mcs : List ℝ) (last m : ℝ) (h1 : times.length = mags.length) (hl : IsGreatest {v | v ∈ times} last)
    (hts : ts ≠ []) (hm : mcs.getLast? = some m) :
    (plotMagsInTime newYear times mags { changeTimes := ts.map Tm.at, mcs := mcs }).1 = { changeTimes := (ts ++ [last]).map Tm.at, mcs := mcs ++ [m] } := by
  unfold plotMagsInTime
  rw [if_neg (by simpa using h1), (amax?_eq_some_iff _ _).2 hl]
  cases ts with
  | nil => exact absurd rfl hts
  | cons t ts => simp [drawMc, drawTimes, hm]

/-- C66 (defect): the function appends to the lists of the caller: after `k` calls both lists have `k` more entries, and the line of the next call has `k`
points more than the first one. -/
theorem C66_defect_lists_grow (newYear : ℤ → ℝ) (times mags ts mcs : List ℝ) (last m : ℝ) (h1 : times.length = mags.length) (hl : IsGreatest {v | v ∈ times} last)
    (hts : ts ≠ []) (hlen : ts.length = mcs.length) (hm : mcs.getLast? = some m) (k : ℕ) :
    (fun s => (plotMagsInTime newYear times mags s).1)^[k] { changeTimes := ts.map Tm.at, mcs := mcs } =
      { changeTimes := (ts ++ List.replicate k last).map Tm.at, mcs := mcs ++ List.replicate k m } ∧
    (plotMagsInTime newYear times mags ((fun s => (plotMagsInTime newYear times mags s).1)^[k] { changeTimes := ts.map Tm.at, mcs := mcs })).2 =
      .ok (ts.zip mcs ++ List.replicate (k + 1) (last, m)) := by
  have hlast : ∀ k, (mcs ++ List.replicate k m).getLast? = some m := by
    intro k
    rw [List.getLast?_append, hm]
    cases k with
    | zero => rfl
    | succ k => simp [List.getLast?_replicate]
  have hstate : ∀ k, (fun s => (plotMagsInTime newYear times mags s).1)^[k] { changeTimes := ts.map Tm.at, mcs := mcs } =
      { changeTimes := (ts ++ List.replicate k last).map Tm.at, mcs := mcs ++ List.replicate k m } := by
    intro k
    induction k with
    | zero => simp
    | succ k ih =>
      rw [Function.iterate_succ_apply', ih]
      rw [plot_times_state newYear times mags (ts ++ List.replicate k last) (mcs ++ List.replicate k m) last m h1 hl (by simp [hts]) (hlast k)]
      simp [List.replicate_succ', List.append_assoc]
  refine ⟨hstate k, ?_⟩
  rw [hstate k, C66_line newYear times mags (ts ++ List.replicate k last) (mcs ++ List.replicate k m) last m h1 hl (by simp [hts]) (by simp [hlen]) (hlast k)]
  rw [List.zip_append hlen, List.zip_replicate']
  simp [List.replicate_succ', List.append_assoc]

/-- C66 (defect): with years only the list of completeness magnitudes is extended, so that the first call succeeds and the second one, with the same
arguments, is a ValueError. -/
theorem C66_defect_years_second_call (newYear : ℤ → ℝ) (times mags mcs : List ℝ) (ys : List ℤ) (last m : ℝ) (h1 : times.length = mags.length)
    (hl : IsGreatest {v | v ∈ times} last) (hys : ys ≠ []) (hrange : ∀ y ∈ ys, 1 ≤ y ∧ y ≤ 9999) (hlen : ys.length = mcs.length) (hm : mcs.getLast? = some m) :
    ∃ s, plotMagsInTime newYear times mags { changeTimes := ys.map Tm.year, mcs := mcs } = (s, .ok ((ys.map newYear).zip mcs ++ [(last, m)])) ∧
      s = { changeTimes := ys.map Tm.year, mcs := mcs ++ [m] } ∧ (plotMagsInTime newYear times mags s).2 = .error .valueError := by
  have hmap : (ys.map Tm.year).mapM (toTime newYear) = .ok (ys.map newYear) := by
    clear hys hlen
    induction ys with
    | nil => rfl
    | cons y ys ih =>
      rw [List.map_cons, List.mapM_cons, ih fun z hz => hrange z (by simp [hz])]
      have hy : toTime newYear (Tm.year y) = .ok (newYear y) := if_pos (hrange y (by simp))
      rw [hy]
      rfl
  have key : ∀ (w : List ℝ) (v : ℝ), w.getLast? = some v → plotMagsInTime newYear times mags { changeTimes := ys.map Tm.year, mcs := w } =
      ({ changeTimes := ys.map Tm.year, mcs := w ++ [v] }, stepLine (ys.map newYear ++ [last]) (w ++ [v])) := by
    intro w v hw
    unfold plotMagsInTime
    rw [if_neg (by simpa using h1), (amax?_eq_some_iff _ _).2 hl]
    cases ys with
    | nil => exact absurd rfl hys
    | cons y ys =>
      dsimp only
      unfold drawMc
      simp only [List.map_cons]
      unfold drawYears
      simp only
      rw [← List.map_cons, hmap]
      simp only [hw]
      rfl
  refine ⟨_, ?_, rfl, ?_⟩
  · rw [key mcs m hm]
    unfold stepLine
    rw [if_pos (by simpa using hlen), List.zip_append (by simpa using hlen)]
    rfl
  · rw [key (mcs ++ [m]) m (by simp)]
    unfold stepLine
    rw [if_neg (by simp; omega)]

/-- A case: the years 2000 and 2005. -/
example (newYear : ℤ → ℝ) : ∃ s, (plotMagsInTime newYear [1, 2] [3, 4] { changeTimes := [2000, 2005].map Tm.year, mcs := [7 / 2, 3] }).1 = s ∧
    s.mcs = [7 / 2, 3, 3] ∧ (plotMagsInTime newYear [1, 2] [3, 4] s).2 = .error .valueError := by
  obtain ⟨s, h1, h2, h3⟩ := C66_defect_years_second_call newYear [1, 2] [3, 4] [7 / 2, 3] [2000, 2005] 2 3 rfl (by
    refine ⟨by simp, fun v hv => ?_⟩
    simp only [Set.mem_ofPred_eq, List.mem_cons, List.not_mem_nil, or_false] at hv
    rcases hv with rfl | rfl <;> norm_num) (by simp) (by simp) rfl rfl
  exact ⟨s, by rw [h1], by rw [h2]; rfl, h3⟩

/-! ### Further cases -/

/-- C64: with a power of zero all dots have the largest size, also if all magnitudes are equal. -/
theorem C64_zero_power (mags : List ℝ) (hne : mags ≠ []) (smallest largest : ℝ) :
    ∃ L : ℝ, (smallest < largest → L = largest) ∧ smallest < L ∧ dotSize mags smallest largest 0 = .ok (mags.map fun _ => .fin L) := by
  refine ⟨largestDot smallest largest, fun h => if_neg (by linarith), largestDot_gt smallest largest, ?_⟩
  unfold dotSize
  cases h1 : amin? mags with
  | none => exact absurd ((amin?_eq_none_iff _).1 h1) hne
  | some lo =>
    cases h2 : amax? mags with
    | none => exact absurd ((amax?_eq_none_iff _).1 h2) hne
    | some hi =>
      dsimp only
      congr 1
      apply List.map_congr_left
      intro m _
      unfold rescale
      have : npPower 0 (Fl.div (m - lo) (hi - lo)) = .fin 1 := by
        cases Fl.div (m - lo) (hi - lo) with
        | fin x => simp [npPower]
        | pinf => simp [npPower]
        | ninf => simp [npPower]
        | nan => simp [npPower]
      rw [this]
      simp [Fl.mapFin]

/-- C64 (defect): with a negative power the smallest magnitude has a dot of infinite size. -/
theorem C64_defect_negative_power (mags : List ℝ) (lo hi smallest largest p : ℝ) (hlo : IsLeast {v | v ∈ mags} lo) (hhi : IsGreatest {v | v ∈ mags} hi)
    (hne : lo < hi) (hp : p < 0) : ∃ f : ℝ → Fl ℝ, dotSize mags smallest largest p = .ok (mags.map f) ∧ f lo = .pinf ∧ ∀ m ∈ mags, m ≠ lo → ∃ x, f m = .fin x ∧ largest ≤ x := by
  refine ⟨rescale lo hi p smallest (largestDot smallest largest), ?_, ?_, ?_⟩
  · unfold dotSize
    rw [(amin?_eq_some_iff _ _).2 hlo, (amax?_eq_some_iff _ _).2 hhi]
  · unfold rescale Fl.div npPower
    have : hi - lo ≠ 0 := by linarith
    simp [this, hp, Fl.mapFin]
  · intro m hm hml
    have h1 : lo < m := lt_of_le_of_ne (hlo.2 hm) (Ne.symm hml)
    have h2 : m ≤ hi := hhi.2 hm
    have hd : 0 < hi - lo := by linarith
    have hx0 : 0 < (m - lo) / (hi - lo) := div_pos (by linarith) hd
    have hx1 : (m - lo) / (hi - lo) ≤ 1 := (div_le_one hd).2 (by linarith)
    refine ⟨((m - lo) / (hi - lo)) ^ p * (largestDot smallest largest - smallest) + smallest, ?_, ?_⟩
    · unfold rescale Fl.div
      rw [if_neg hd.ne']
      unfold npPower
      dsimp only
      rw [if_neg (fun h => hx0.ne' h.1)]
      rfl
    · have h3 : 1 ≤ ((m - lo) / (hi - lo)) ^ p := Real.one_le_rpow_of_pos_of_le_one_of_nonpos hx0 hx1 hp.le
      have h4 := largestDot_gt smallest largest
      have h5 : largest ≤ largestDot smallest largest := by
        by_cases h : largest ≤ smallest
        · linarith
        · unfold largestDot
          rw [if_neg h]
      nlinarith

/-- C66: without events, or with a different number of times and magnitudes, nothing is drawn (ValueError) and the lists of the caller stay as they are; without
change times or with a date after a year the lists stay as they are as well. -/
theorem C66_errors (newYear : ℤ → ℝ) (times mags : List ℝ) (s : PlotBasics.Lists) :
    (times.length ≠ mags.length ∨ times = [] → plotMagsInTime newYear times mags s = (s, .error .valueError)) ∧
    (times.length = mags.length → times ≠ [] → s.changeTimes = [] → plotMagsInTime newYear times mags s = (s, .error .indexError)) ∧
    (times.length = mags.length → times ≠ [] → ∀ (y : ℤ) (ys : List ℤ) (t : ℝ) (r : List Tm), (∀ z ∈ y :: ys, 1 ≤ z ∧ z ≤ 9999) →
      s.changeTimes = (y :: ys).map Tm.year ++ Tm.at t :: r → plotMagsInTime newYear times mags s = (s, .error .typeError)) ∧
    (times.length = mags.length → times ≠ [] → ∀ (y : ℤ) (ys : List ℤ), (∃ z ∈ y :: ys, ¬ (1 ≤ z ∧ z ≤ 9999)) →
      s.changeTimes = (y :: ys).map Tm.year → plotMagsInTime newYear times mags s = (s, .error .valueError)) := by
  have hlast : times ≠ [] → ∃ x, amax? times = some x := by
    intro h
    cases h2 : amax? times with
    | none => exact absurd ((amax?_eq_none_iff _).1 h2) h
    | some x => exact ⟨x, rfl⟩
  refine ⟨?_, ?_, ?_, ?_⟩
  · intro h
    unfold plotMagsInTime
    by_cases hl : times.length = mags.length
    · have h0 : times = [] := h.resolve_left (not_not.2 hl)
      subst h0
      rw [if_neg (not_not.2 hl)]
      rfl
    · rw [if_pos hl]
  · intro hl hne hc
    obtain ⟨x, hx⟩ := hlast hne
    unfold plotMagsInTime drawMc
    rw [if_neg (not_not.2 hl), hx, hc]
  · intro hl hne y ys t r hr hc
    obtain ⟨x, hx⟩ := hlast hne
    have hm : ∀ l : List ℤ, (∀ z ∈ l, 1 ≤ z ∧ z ≤ 9999) → (l.map Tm.year ++ Tm.at t :: r).mapM (toTime newYear) = .error .typeError := by
      intro l hl
      induction l with
      | nil => rfl
      | cons z l ih =>
        rw [List.map_cons, List.cons_append, List.mapM_cons, ih fun w hw => hl w (by simp [hw])]
        have : toTime newYear (Tm.year z) = .ok (newYear z) := if_pos (hl z (by simp))
        rw [this]
        rfl
    unfold plotMagsInTime drawMc
    rw [if_neg (not_not.2 hl), hx, hc]
    simp only [List.map_cons, List.cons_append]
    unfold drawYears
    rw [hc, hm (y :: ys) hr]
  · intro hl hne y ys hr hc
    obtain ⟨x, hx⟩ := hlast hne
    have hm : ∀ l : List ℤ, (∃ z ∈ l, ¬ (1 ≤ z ∧ z ≤ 9999)) → (l.map Tm.year).mapM (toTime newYear) = .error .valueError := by
      intro l hl
      induction l with
      | nil => obtain ⟨z, hz, _⟩ := hl; cases hz
      | cons z l ih =>
        rw [List.map_cons, List.mapM_cons]
        by_cases hz : 1 ≤ z ∧ z ≤ 9999
        · have : toTime newYear (Tm.year z) = .ok (newYear z) := if_pos hz
          rw [this, ih]
          · rfl
          · obtain ⟨w, hw, hw2⟩ := hl
            rcases List.mem_cons.1 hw with rfl | hw
            · exact absurd hz hw2
            · exact ⟨w, hw, hw2⟩
        · have : toTime newYear (Tm.year z) = .error .valueError := if_neg hz
          rw [this]
          rfl
    unfold plotMagsInTime drawMc
    rw [if_neg (not_not.2 hl), hx, hc]
    simp only [List.map_cons]
    unfold drawYears
    rw [hc, hm (y :: ys) hr]

/-- A case: a year and then a date. -/
example (newYear : ℤ → ℝ) : plotMagsInTime newYear [1, 2] [3, 4] { changeTimes := [.year 2000, .at 5], mcs := [3, 4] } =
    ({ changeTimes := [.year 2000, .at 5], mcs := [3, 4] }, .error .typeError) :=
  (C66_errors newYear [1, 2] [3, 4] _).2.2.1 rfl (by simp) 2000 [] 5 [] (by simp) rfl

end SeismoStats.Props
