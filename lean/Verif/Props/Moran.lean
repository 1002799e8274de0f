/-
Properties C39 (`est_morans_i`) and C40 (`transform_n`).
-/
import Verif.Model.BSignificant
import Mathlib.Algebra.BigOperators.Ring.Finset
import Mathlib.Algebra.Order.BigOperators.Group.Finset
import Mathlib.Algebra.BigOperators.Fin
import Mathlib.Tactic.Linarith
import Mathlib.Tactic.FieldSimp

namespace SeismoStats.Props
open SeismoStats SeismoStats.BSignificant
open scoped BigOperators
set_option linter.unusedSimpArgs false
open Classical
noncomputable section

/-! ## Specification of C39 -/

/-- A neighbour matrix as documented: one row and column per value, 0 or 1 off the diagonal, and
symmetric, upper triangular or lower triangular. The diagonal is zero, or it has a non-zero sum (it is
then ignored). -/
structure GoodMat (n : ℕ) (w : Mat) : Prop where
  rows : w.rows = n
  cols : w.cols = n
  diag : (∀ i < n, w.at_ i i = 0) ∨ ∑ i ∈ Finset.range n, w.at_ i i ≠ 0
  entries : ∀ i < n, ∀ j < n, i ≠ j → w.at_ i j = 0 ∨ w.at_ i j = 1
  form : (∀ i < n, ∀ j < n, w.at_ i j = w.at_ j i) ∨ (∀ i < n, ∀ j < n, j < i → w.at_ i j = 0) ∨
    (∀ i < n, ∀ j < n, i < j → w.at_ i j = 0)

/-- Two positions are neighbours: consecutive, or marked by one of the two entries of the matrix. -/
def Neighbour (w : Option Mat) (i j : ℕ) : Prop :=
  match w with
  | none => j = i + 1
  | some w => w.at_ i j = 1 ∨ w.at_ j i = 1

/-- The values: numbers or NaN. -/
def toFl (l : List (Option ℝ)) : List (Fl ℝ) :=
  l.map fun o => match o with
    | some v => .fin v
    | none => .nan

/-- The number at position `i` (0 if there is none, not used then). -/
def numAt (l : List (Option ℝ)) (i : ℕ) : ℝ := (l.getD i none).getD 0

/-- There is a number at position `i`. -/
def hasNum (l : List (Option ℝ)) (i : ℕ) : Prop := ∃ v, l[i]? = some (some v)

/-- The neighbouring pairs of numbers. -/
def neighbourPairs (l : List (Option ℝ)) (w : Option Mat) : Finset (ℕ × ℕ) :=
  (Finset.range l.length ×ˢ Finset.range l.length).filter fun p =>
    p.1 < p.2 ∧ Neighbour w p.1 p.2 ∧ hasNum l p.1 ∧ hasNum l p.2

/-- The mean: given, or the mean of the numbers. -/
def meanSpec (l : List (Option ℝ)) (mean : Option ℝ) : ℝ :=
  mean.getD ((l.filterMap id).sum / (l.filterMap id).length)

/-- The sum of squared deviations. -/
def sqDev (l : List (Option ℝ)) (mu : ℝ) : ℝ := ((l.filterMap id).map fun v => (v - mu) ^ 2).sum

/-! ## The matrix -/

theorem sumTriu_zero {n : ℕ} {w : ℕ → ℕ → ℝ} (h : ∀ i < n, ∀ j < n, i ≤ j → 0 ≤ w i j) :
    sumTriu n w = 0 ↔ ∀ i < n, ∀ j < n, i ≤ j → w i j = 0 := by
  unfold sumTriu
  have h1 : ∀ i ∈ Finset.range n, ∀ j ∈ Finset.range n, 0 ≤ if i ≤ j then w i j else 0 := by
    intro i hi j hj
    rw [Finset.mem_range] at hi hj
    split_ifs with hij
    · exact h i hi j hj hij
    · exact le_rfl
  rw [Finset.sum_eq_zero_iff_of_nonneg fun i hi => Finset.sum_nonneg (h1 i hi)]
  constructor
  · intro h2 i hi j hj hij
    have := (Finset.sum_eq_zero_iff_of_nonneg (h1 i (Finset.mem_range.2 hi))).1 (h2 i (Finset.mem_range.2 hi)) j (Finset.mem_range.2 hj)
    rwa [if_pos hij] at this
  · intro h2 i hi
    apply Finset.sum_eq_zero
    intro j hj
    rw [Finset.mem_range] at hi hj
    split_ifs with hij
    · exact h2 i hi j hj hij
    · rfl

theorem sumTril_eq (n : ℕ) (w : ℕ → ℕ → ℝ) : sumTril n w = sumTriu n fun i j => w j i := by
  unfold sumTril sumTriu
  rw [Finset.sum_comm]

theorem zo_nonneg {x : ℝ} (h : x = 0 ∨ x = 1) : 0 ≤ x := by rcases h with rfl | rfl <;> norm_num

/-- The canonical matrix: 1 above the diagonal for neighbours. -/
def canon (w : Option Mat) (i j : ℕ) : ℝ := if i < j ∧ Neighbour w i j then 1 else 0

theorem clearDiag_off {n : ℕ} {w : ℕ → ℕ → ℝ} {i j : ℕ} (h : i ≠ j) : clearDiag n w i j = w i j := by
  unfold clearDiag; split
  · rfl
  · simp only [if_neg h]

theorem neighbours_good {n : ℕ} {w : Mat} (h : GoodMat n w) :
    ∃ u, neighbours n (some w) = .ok u ∧ ∀ i < n, ∀ j < n, u i j = canon (some w) i j := by
  obtain ⟨h1, h2, h3, h4, h5⟩ := h
  set c := clearDiag n w.at_ with hc
  have hd : ∀ i < n, c i i = 0 := by
    intro i hi
    rw [hc]; unfold clearDiag
    split
    · rename_i h0
      rcases h3 with h3 | h3
      · exact h3 i hi
      · exact absurd h0 h3
    · simp
  have ho : ∀ i j, i ≠ j → c i j = w.at_ i j := fun i j hij => clearDiag_off hij
  have he : ∀ i < n, ∀ j < n, c i j = 0 ∨ c i j = 1 := by
    intro i hi j hj
    by_cases hij : i = j
    · subst hij; exact Or.inl (hd i hi)
    · rw [ho i j hij]; exact h4 i hi j hj hij
  have hU := sumTriu_zero (n := n) (w := c) fun i hi j hj _ => zo_nonneg (he i hi j hj)
  have hL := sumTriu_zero (n := n) (w := fun i j => c j i) fun i hi j hj _ => zo_nonneg (he j hj i hi)
  rw [← sumTril_eq] at hL
  have key : ∀ u, toUpper n c = .ok u → (∀ i < n, ∀ j < n, u i j = canon (some w) i j) →
      ∃ u, neighbours n (some w) = .ok u ∧ ∀ i < n, ∀ j < n, u i j = canon (some w) i j := by
    intro u hu hcan
    refine ⟨u, ?_, hcan⟩
    unfold neighbours
    simp only
    rw [if_neg (by rw [h1, h2]; simp), h1, ← hc, hu]
    have : checkEntries n u = .ok u := by
      unfold checkEntries
      rw [if_pos]
      intro i hi j hj
      rw [hcan i hi j hj]; unfold canon; split <;> simp
    simp [bind, Except.bind, this, pure, Except.pure]
  have z1 : (0 : ℝ) ≠ 1 := by norm_num
  rcases h5 with h5 | h5 | h5
  · -- symmetric
    have hs : ∀ i < n, ∀ j < n, c i j = c j i := by
      intro i hi j hj
      by_cases hij : i = j
      · rw [hij]
      · rw [ho i j hij, ho j i (Ne.symm hij)]; exact h5 i hi j hj
    have hcan : ∀ i < n, ∀ j < n, (if i ≤ j then c i j else 0) = canon (some w) i j := by
      intro i hi j hj
      unfold canon Neighbour
      dsimp only
      rcases lt_trichotomy i j with hij | hij | hij
      · rw [if_pos hij.le, ho i j hij.ne]
        have e2 := h5 j hj i hi
        rcases h4 i hi j hj hij.ne with e | e <;> simp [e, e2, hij, z1]
      · subst hij; simp [hd i hi]
      · simp [not_le.2 hij, hij.le, not_lt.2 hij.le]
    by_cases h0 : sumTril n c ≠ 0 ∧ sumTriu n c ≠ 0
    · refine key _ ?_ hcan
      unfold toUpper
      rw [if_pos h0, if_pos hs]
    · have hz : ∀ i < n, ∀ j < n, c i j = 0 := by
        intro i hi j hj
        rw [not_and_or, not_not, not_not, hL, hU] at h0
        rcases h0 with h0 | h0 <;> rcases le_total i j with hij | hij
        · rw [hs i hi j hj]; exact h0 i hi j hj hij
        · exact h0 j hj i hi hij
        · exact h0 i hi j hj hij
        · rw [hs i hi j hj]; exact h0 j hj i hi hij
      refine key (fun i j => c j i) ?_ ?_
      · unfold toUpper
        rw [if_neg h0, if_pos (hU.2 fun i hi j hj _ => hz i hi j hj)]
      · intro i hi j hj
        rw [← hcan i hi j hj, hz i hi j hj, hz j hj i hi]; simp
  · -- upper
    have hl : ∀ i < n, ∀ j < n, j ≤ i → c i j = 0 := by
      intro i hi j hj hij
      rcases hij.lt_or_eq with hij | hij
      · rw [ho i j hij.ne']; exact h5 i hi j hj hij
      · subst hij; exact hd _ hi
    have h0 : ¬ (sumTril n c ≠ 0 ∧ sumTriu n c ≠ 0) := by
      rw [not_and_or, not_not]; left; rw [hL]; intro i hi j hj hij; exact hl j hj i hi hij
    have hcan : ∀ i < n, ∀ j < n, c i j = canon (some w) i j := by
      intro i hi j hj
      unfold canon Neighbour
      dsimp only
      rcases lt_or_ge i j with hij | hij
      · rw [ho i j hij.ne]
        have e2 := h5 j hj i hi hij
        rcases h4 i hi j hj hij.ne with e | e <;> simp [e, e2, hij, z1]
      · rw [hl i hi j hj hij]; simp [not_lt.2 hij]
    by_cases hu : sumTriu n c = 0
    · refine key (fun i j => c j i) ?_ ?_
      · unfold toUpper; rw [if_neg h0, if_pos hu]
      · intro i hi j hj
        rw [← hcan i hi j hj]
        rw [hU] at hu
        rcases le_total i j with hij | hij
        · rw [hu i hi j hj hij, hl j hj i hi hij]
        · rw [hl i hi j hj hij, hu j hj i hi hij]
    · refine key c ?_ hcan
      unfold toUpper; rw [if_neg h0, if_neg hu]
  · -- lower
    have hu : ∀ i < n, ∀ j < n, i ≤ j → c i j = 0 := by
      intro i hi j hj hij
      rcases hij.lt_or_eq with hij | hij
      · rw [ho i j hij.ne]; exact h5 i hi j hj hij
      · subst hij; exact hd _ hi
    have h0 := hU.2 hu
    refine key (fun i j => c j i) ?_ ?_
    · unfold toUpper; rw [if_neg (by rw [h0]; simp), if_pos h0]
    · intro i hi j hj
      unfold canon Neighbour
      dsimp only
      rcases lt_or_ge i j with hij | hij
      · rw [ho j i hij.ne']
        have e2 := h5 i hi j hj hij
        rcases h4 j hj i hi hij.ne' with e | e <;> simp [e, e2, hij, z1]
      · rw [hu j hj i hi hij]; simp [not_lt.2 hij]

theorem neighbours_bad {n : ℕ} {w : Mat} {u : ℕ → ℕ → ℝ} (h : neighbours n (some w) = .ok u) : GoodMat n w := by
  unfold neighbours at h
  simp only at h
  split at h
  · cases h
  rename_i hrc
  rw [not_not] at hrc
  cases hu : toUpper w.rows (clearDiag w.rows w.at_) with
  | error e => rw [hu] at h; cases h
  | ok v =>
    rw [hu] at h
    simp only [bind, Except.bind] at h
    cases hv : checkEntries w.rows v with
    | error e => rw [hv] at h; cases h
    | ok v' =>
      rw [hv] at h
      simp only at h
      have hn : w.rows = n := by
        by_contra hne
        rw [if_pos hne] at h; cases h
      have hent : ∀ i < n, ∀ j < n, v i j = 0 ∨ v i j = 1 := by
        rw [hn] at hv
        unfold checkEntries at hv
        split at hv
        · assumption
        · cases hv
      rw [hn] at hu
      set c := clearDiag n w.at_ with hc
      have ho : ∀ i j, i ≠ j → c i j = w.at_ i j := fun i j hij => clearDiag_off hij
      -- entries and form of `c`
      have main : (∀ i < n, ∀ j < n, c i j = 0 ∨ c i j = 1) ∧
          ((∀ i < n, ∀ j < n, c i j = c j i) ∨ (∀ i < n, ∀ j < n, j < i → c i j = 0) ∨
            (∀ i < n, ∀ j < n, i < j → c i j = 0)) := by
        unfold toUpper at hu
        split at hu
        · split at hu
          · rename_i hs
            cases hu
            refine ⟨?_, Or.inl hs⟩
            intro i hi j hj
            rcases le_total i j with hij | hij
            · have := hent i hi j hj; simp only [if_pos hij] at this; exact this
            · have := hent j hj i hi; simp only [if_pos hij] at this; rw [hs i hi j hj]; exact this
          · cases hu
        · rename_i h0
          split at hu
          · rename_i hU
            cases hu
            have he : ∀ i < n, ∀ j < n, c i j = 0 ∨ c i j = 1 := fun i hi j hj => hent j hj i hi
            refine ⟨he, Or.inr (Or.inr ?_)⟩
            rw [sumTriu_zero fun i hi j hj _ => zo_nonneg (he i hi j hj)] at hU
            exact fun i hi j hj hij => hU i hi j hj hij.le
          · rename_i hU
            have hvc : c = v := Except.ok.inj hu
            rw [← hvc] at hent
            refine ⟨hent, Or.inr (Or.inl ?_)⟩
            have hL : sumTril n c = 0 := by
              by_contra hL; exact h0 ⟨hL, hU⟩
            rw [sumTril_eq, sumTriu_zero fun i hi j hj _ => zo_nonneg (hent j hj i hi)] at hL
            exact fun i hi j hj hij => hL j hj i hi hij.le
      obtain ⟨m1, m2⟩ := main
      refine ⟨hn, by rw [← hrc]; exact hn, ?_, ?_, ?_⟩
      · by_cases hs : ∑ i ∈ Finset.range n, w.at_ i i = 0
        · left
          have hcw : c = w.at_ := by rw [hc]; unfold clearDiag; rw [if_pos hs]
          rw [hcw] at m1
          rw [Finset.sum_eq_zero_iff_of_nonneg fun i hi => zo_nonneg (m1 i (Finset.mem_range.1 hi) i (Finset.mem_range.1 hi))] at hs
          exact fun i hi => hs i (Finset.mem_range.2 hi)
        · exact Or.inr hs
      · intro i hi j hj hij
        rw [← ho i j hij]; exact m1 i hi j hj
      · rcases m2 with m2 | m2 | m2
        · left
          intro i hi j hj
          by_cases hij : i = j
          · rw [hij]
          · rw [← ho i j hij, ← ho j i (Ne.symm hij)]; exact m2 i hi j hj
        · right; left
          intro i hi j hj hij
          rw [← ho i j hij.ne']; exact m2 i hi j hj hij
        · right; right
          intro i hi j hj hij
          rw [← ho i j hij.ne]; exact m2 i hi j hj hij

/-- The matrices accepted with `n` values. -/
def GoodW (n : ℕ) (w : Option Mat) : Prop := ∀ m, w = some m → GoodMat n m

theorem neighbours_ok {n : ℕ} {w : Option Mat} (h : GoodW n w) :
    ∃ u, neighbours n w = .ok u ∧ ∀ i < n, ∀ j < n, u i j = canon w i j := by
  cases w with
  | some m => exact neighbours_good (h m rfl)
  | none =>
    refine ⟨_, rfl, ?_⟩
    intro i _ j _
    unfold canon Neighbour
    by_cases hij : j = i + 1
    · subst hij; simp
    · simp [hij]

/-! ## The formula -/

theorem toFl_getD (l : List (Option ℝ)) (i : ℕ) : (toFl l).getD i .nan = match l.getD i none with
    | some v => Fl.fin v
    | none => .nan := by
  unfold toFl
  rw [List.getD_eq_getElem?_getD, List.getD_eq_getElem?_getD, List.getElem?_map]
  cases l[i]? <;> rfl

theorem hasNum_iff (l : List (Option ℝ)) (i : ℕ) : hasNum l i ↔ ∃ v, l.getD i none = some v := by
  unfold hasNum
  rw [List.getD_eq_getElem?_getD]
  cases h : l[i]? with
  | none => simp
  | some o => simp

theorem valid_toFl (l : List (Option ℝ)) (i : ℕ) : valid ((toFl l).getD i .nan) = decide (hasNum l i) := by
  rw [toFl_getD]
  have := hasNum_iff l i
  cases h : l.getD i none with
  | none => simp [valid, this]; rw [List.getD_eq_getElem?_getD] at h; simp [h]
  | some v => simp [valid, this]; rw [List.getD_eq_getElem?_getD] at h; simp [h]

theorem dev_toFl (l : List (Option ℝ)) (mu : ℝ) (i : ℕ) :
    dev (toFl l) mu i = if hasNum l i then numAt l i - mu else 0 := by
  unfold dev
  rw [toFl_getD]
  unfold numAt
  have := hasNum_iff l i
  cases h : l.getD i none with
  | none => rw [if_neg (by rw [this, h]; simp)]; rfl
  | some v => rw [if_pos (by rw [this, h]; simp)]; rfl

theorem finite_toFl (l : List (Option ℝ)) : finite (toFl l) = l.filterMap id := by
  unfold finite toFl
  rw [List.filterMap_map]
  congr 1
  funext o
  cases o <;> rfl

theorem count_toFl (l : List (Option ℝ)) : (toFl l).countP valid = (l.filterMap id).length := by
  unfold toFl
  induction l with
  | nil => rfl
  | cons o l ih => cases o <;> simp_all [valid, List.countP_cons]

theorem noInf_toFl (l : List (Option ℝ)) : (toFl l).any isInf = false := by
  unfold toFl
  induction l with
  | nil => rfl
  | cons o l ih => cases o <;> simp_all [isInf]

theorem sum_dev_sq (l : List (Option ℝ)) (mu : ℝ) :
    ∑ i ∈ Finset.range l.length, dev (toFl l) mu i * dev (toFl l) mu i = sqDev l mu := by
  unfold sqDev
  induction l with
  | nil => simp
  | cons o l ih =>
    rw [List.length_cons, Finset.sum_range_succ']
    have h1 : ∀ i, dev (toFl (o :: l)) mu (i + 1) = dev (toFl l) mu i := by
      intro i; unfold dev toFl; simp
    simp only [h1, ih]
    cases o with
    | none => simp [dev, toFl, Fl.val?]
    | some v => simp [dev, toFl, Fl.val?]; ring

theorem sum_pairs (l : List (Option ℝ)) (w : Option Mat) (f : ℕ → ℕ → ℝ) :
    ∑ i ∈ Finset.range l.length, ∑ j ∈ Finset.range l.length,
      (if hasNum l i ∧ hasNum l j then canon w i j else 0) * f i j = ∑ p ∈ neighbourPairs l w, f p.1 p.2 := by
  unfold neighbourPairs
  rw [Finset.sum_filter, Finset.sum_product]
  apply Finset.sum_congr rfl
  intro i _
  apply Finset.sum_congr rfl
  intro j _
  unfold canon
  by_cases h1 : hasNum l i ∧ hasNum l j
  · by_cases h2 : i < j ∧ Neighbour w i j
    · simp [h1, h2]
    · rw [if_pos h1, if_neg h2, if_neg (by tauto)]; simp
  · rw [if_neg h1, if_neg (by tauto)]; simp

theorem sum_zero_of_nonneg (l : List ℝ) (h : ∀ x ∈ l, 0 ≤ x) (h0 : l.sum = 0) : ∀ x ∈ l, x = 0 := by
  induction l with
  | nil => intro x hx; cases hx
  | cons a l ih =>
    have h1 := h a (by simp)
    have h2 : 0 ≤ l.sum := List.sum_nonneg fun x hx => h x (by simp [hx])
    rw [List.sum_cons] at h0
    intro x hx
    rcases List.mem_cons.1 hx with rfl | hx
    · linarith
    · exact ih (fun x hx => h x (by simp [hx])) (by linarith) x hx

/-- C39: the result for at least two values and an accepted matrix (or none): the number of numbers, the
number of neighbouring pairs of numbers, and the normalised product of deviations over these pairs,
NaN if there is no pair or no deviation. NaN values and their pairs are ignored. -/
theorem C39_formula {l : List (Option ℝ)} {w : Option Mat} (mean : Option ℝ) (hl : 2 ≤ l.length)
    (hw : GoodW l.length w) :
    ∃ ac, morans (toFl l) w mean = .ok ⟨ac, (l.filterMap id).length, (neighbourPairs l w).card⟩ ∧
      ac = if neighbourPairs l w = ∅ ∨ sqDev l (meanSpec l mean) = 0 then .nan else
        .fin ((((l.filterMap id).length : ℝ) - 1) / (neighbourPairs l w).card *
          (∑ p ∈ neighbourPairs l w, (numAt l p.1 - meanSpec l mean) * (numAt l p.2 - meanSpec l mean)) /
            sqDev l (meanSpec l mean)) := by
  obtain ⟨u, hu, hcan⟩ := neighbours_ok hw
  have hlen : (toFl l).length = l.length := by unfold toFl; simp
  have hmean : meanOf (toFl l) mean = meanSpec l mean := by
    unfold meanOf meanSpec; rw [finite_toFl]
  set mu := meanSpec l mean with hmu
  have hmask : ∀ i ∈ Finset.range l.length, ∀ j ∈ Finset.range l.length,
      maskPairs (toFl l) u i j = if hasNum l i ∧ hasNum l j then canon w i j else 0 := by
    intro i hi j hj
    unfold maskPairs
    rw [valid_toFl, valid_toFl, hcan i (Finset.mem_range.1 hi) j (Finset.mem_range.1 hj)]
    simp only [Bool.and_eq_true, decide_eq_true_eq]
  have hac : ∑ i ∈ Finset.range l.length, ∑ j ∈ Finset.range l.length,
      dev (toFl l) mu i * maskPairs (toFl l) u i j * dev (toFl l) mu j =
      ∑ p ∈ neighbourPairs l w, (numAt l p.1 - mu) * (numAt l p.2 - mu) := by
    rw [← sum_pairs l w fun i j => (numAt l i - mu) * (numAt l j - mu)]
    apply Finset.sum_congr rfl
    intro i hi
    apply Finset.sum_congr rfl
    intro j hj
    rw [hmask i hi j hj, dev_toFl, dev_toFl]
    by_cases h1 : hasNum l i <;> by_cases h2 : hasNum l j <;> simp [h1, h2]
    ring
  have hnp : ∑ i ∈ Finset.range l.length, ∑ j ∈ Finset.range l.length, maskPairs (toFl l) u i j =
      (neighbourPairs l w).card := by
    have := sum_pairs l w fun _ _ => 1
    simp only [mul_one, Finset.sum_const, nsmul_eq_mul] at this
    rw [← this]
    exact Finset.sum_congr rfl fun i hi => Finset.sum_congr rfl fun j hj => hmask i hi j hj
  refine ⟨_, ?_, rfl⟩
  unfold morans
  rw [if_neg (by rw [hlen]; omega), hlen, hu]
  simp only [bind, Except.bind, pure, Except.pure, hmean, hac, hnp, sum_dev_sq, count_toFl, noInf_toFl, Bool.false_eq_true, if_false]
  have : ratio (l.filterMap id).length (neighbourPairs l w).card
      (∑ p ∈ neighbourPairs l w, (numAt l p.1 - mu) * (numAt l p.2 - mu)) (sqDev l mu) =
      if neighbourPairs l w = ∅ ∨ sqDev l mu = 0 then .nan else
        .fin ((((l.filterMap id).length : ℝ) - 1) / (neighbourPairs l w).card *
          (∑ p ∈ neighbourPairs l w, (numAt l p.1 - mu) * (numAt l p.2 - mu)) / sqDev l mu) := by
    by_cases h0 : neighbourPairs l w = ∅
    · rw [if_pos (Or.inl h0)]
      unfold ratio
      rw [h0]
      simp only [Finset.card_empty, Nat.cast_zero, Fl.div, if_true]
      split_ifs <;> rfl
    · have hc : ((neighbourPairs l w).card : ℝ) ≠ 0 := by
        rw [Nat.cast_ne_zero]; exact fun h => h0 (Finset.card_eq_zero.1 h)
      by_cases h1 : sqDev l mu = 0
      · rw [if_pos (Or.inr h1)]
        have hall : ∀ v ∈ l.filterMap id, v = mu := by
          unfold sqDev at h1
          intro v hv
          have := sum_zero_of_nonneg ((l.filterMap id).map fun v => (v - mu) ^ 2)
            (by intro x hx; rw [List.mem_map] at hx; obtain ⟨v, -, rfl⟩ := hx; positivity) h1 ((v - mu) ^ 2)
            (List.mem_map.2 ⟨v, hv, rfl⟩)
          have := pow_eq_zero_iff (two_ne_zero) |>.1 this
          linarith
        have hz : ∑ p ∈ neighbourPairs l w, (numAt l p.1 - mu) * (numAt l p.2 - mu) = 0 := by
          apply Finset.sum_eq_zero
          intro p hp
          unfold neighbourPairs at hp
          rw [Finset.mem_filter] at hp
          obtain ⟨v, hv⟩ := hp.2.2.2.1
          have : numAt l p.1 = mu := by
            unfold numAt
            rw [List.getD_eq_getElem?_getD, hv]
            simp only [Option.getD_some]
            exact hall v (List.mem_filterMap.2 ⟨some v, List.mem_of_getElem? hv, rfl⟩)
          rw [this]; ring
        unfold ratio
        simp [Fl.div, hc, hz, h1]
      · rw [if_neg (by tauto)]
        unfold ratio
        simp [Fl.div, hc, h1]
  rw [this]

/-- C39: with infinite values among them the counts are the same and the autocorrelation is NaN. -/
theorem C39_infinite {x : List (Fl ℝ)} {w : Option Mat} (mean : Option ℝ) (hl : 2 ≤ x.length)
    (hw : GoodW x.length w) (hi : .pinf ∈ x ∨ .ninf ∈ x) :
    ∃ r, morans x w mean = .ok r ∧ r.ac = .nan := by
  obtain ⟨u, hu, -⟩ := neighbours_ok hw
  unfold morans
  rw [if_neg (by omega), hu]
  refine ⟨_, rfl, ?_⟩
  have : x.any isInf = true := by
    rw [List.any_eq_true]
    rcases hi with hi | hi
    · exact ⟨_, hi, rfl⟩
    · exact ⟨_, hi, rfl⟩
  simp only [this, if_true]

/-- C39: fewer than two values or any other matrix raise. -/
theorem C39_raises (x : List (Fl ℝ)) (w : Option Mat) (mean : Option ℝ) :
    (∃ r, morans x w mean = .ok r) ↔ 2 ≤ x.length ∧ GoodW x.length w := by
  constructor
  · rintro ⟨r, h⟩
    unfold morans at h
    split at h
    · cases h
    · rename_i hl
      refine ⟨by omega, ?_⟩
      rintro m rfl
      cases hn : neighbours x.length (some m) with
      | error e => rw [hn] at h; cases h
      | ok u => exact neighbours_bad hn
  · rintro ⟨hl, hw⟩
    obtain ⟨u, hu, -⟩ := neighbours_ok hw
    unfold morans
    rw [if_neg (by omega), hu]
    exact ⟨_, rfl⟩

/-- Changing unit and origin. -/
def affine (a b : ℝ) : Fl ℝ → Fl ℝ
  | .fin v => .fin (a * v + b)
  | .nan => .nan
  | .pinf => if 0 < a then .pinf else .ninf
  | .ninf => if 0 < a then .ninf else .pinf

theorem ratio_scale {n : ℕ} {np ac ac0 k : ℝ} (hk : k ≠ 0) : ratio n np (k * ac) (k * ac0) = ratio n np ac ac0 ∨
    ac0 = 0 := by
  by_cases h0 : ac0 = 0
  · exact Or.inr h0
  left
  unfold ratio
  cases Fl.div ((n : ℝ) - 1) np with
  | fin r =>
    simp only [Fl.div, if_neg h0, if_neg (mul_ne_zero hk h0)]
    congr 1
    rw [mul_left_comm, mul_div_mul_left _ _ hk]
  | _ => rfl

theorem valid_affine (a b : ℝ) (v : Fl ℝ) : valid (affine a b v) = valid v := by
  by_cases h : 0 < a <;> cases v <;> simp [affine, valid, h]

theorem isInf_affine (a b : ℝ) (v : Fl ℝ) : isInf (affine a b v) = isInf v := by
  by_cases h : 0 < a <;> cases v <;> simp [affine, isInf, h]

theorem getD_affine (a b : ℝ) (x : List (Fl ℝ)) (i : ℕ) : (x.map (affine a b)).getD i .nan = affine a b (x.getD i .nan) := by
  rw [List.getD_eq_getElem?_getD, List.getD_eq_getElem?_getD, List.getElem?_map]
  cases x[i]? <;> rfl

theorem exists_toFl {x : List (Fl ℝ)} (h : x.any isInf = false) : ∃ l, x = toFl l := by
  induction x with
  | nil => exact ⟨[], rfl⟩
  | cons v x ih =>
    rw [List.any_cons, Bool.or_eq_false_iff] at h
    obtain ⟨l, rfl⟩ := ih h.2
    cases v with
    | fin v => exact ⟨some v :: l, rfl⟩
    | nan => exact ⟨none :: l, rfl⟩
    | pinf => cases h.1
    | ninf => cases h.1

theorem finite_affine (a b : ℝ) (x : List (Fl ℝ)) : finite (x.map (affine a b)) = (finite x).map fun v => a * v + b := by
  unfold finite
  induction x with
  | nil => rfl
  | cons v x ih =>
    cases v with
    | fin v => simp [affine, Fl.val?, ih]
    | nan => exact ih
    | pinf => simp only [List.map_cons, affine]; split <;> exact ih
    | ninf => simp only [List.map_cons, affine]; split <;> exact ih

theorem sum_map_affine (a b : ℝ) (l : List ℝ) : (l.map fun v => a * v + b).sum = a * l.sum + l.length * b := by
  induction l with
  | nil => simp
  | cons v l ih => simp only [List.map_cons, List.sum_cons, ih, List.length_cons]; push_cast; ring

/-- C39: changing unit and origin of the values (and of the given mean) changes nothing, for all values,
matrices and exceptions. -/
theorem C39_affine (x : List (Fl ℝ)) (w : Option Mat) (mean : Option ℝ) {a : ℝ} (b : ℝ) (ha : a ≠ 0) :
    morans (x.map (affine a b)) w (mean.map fun m => a * m + b) = morans x w mean := by
  unfold morans
  rw [List.length_map]
  split
  · rfl
  rename_i hl
  cases hn : neighbours x.length w with
  | error e => rfl
  | ok u =>
    simp only [bind, Except.bind, pure, Except.pure]
    have hmask : maskPairs (x.map (affine a b)) u = maskPairs x u := by
      funext i j
      unfold maskPairs
      rw [getD_affine, getD_affine, valid_affine, valid_affine]
    have hcount : (x.map (affine a b)).countP valid = x.countP valid := by
      rw [List.countP_map]
      congr 1
      funext v
      exact valid_affine a b v
    have hinf : (x.map (affine a b)).any isInf = x.any isInf := by
      rw [List.any_map]
      congr 1
      funext v
      exact isInf_affine a b v
    rw [hmask, hcount, hinf]
    cases hi : x.any isInf with
    | true => rfl
    | false =>
      have hmean : finite x ≠ [] ∨ mean.isSome → meanOf (x.map (affine a b)) (mean.map fun m => a * m + b) = a * meanOf x mean + b := by
        intro h
        unfold meanOf
        cases mean with
        | some m => rfl
        | none =>
          simp only [Option.isSome_none, Bool.false_eq_true, or_false] at h
          have hne : ((finite x).length : ℝ) ≠ 0 := by
            rw [Nat.cast_ne_zero]; exact fun h0 => h (List.length_eq_zero_iff.1 h0)
          simp only [Option.map_none, Option.getD_none]
          rw [finite_affine, sum_map_affine, List.length_map]
          field_simp
      have hdev : ∀ i, dev (x.map (affine a b)) (meanOf (x.map (affine a b)) (mean.map fun m => a * m + b)) i =
          a * dev x (meanOf x mean) i := by
        intro i
        unfold dev
        rw [getD_affine]
        cases hv : x.getD i .nan with
        | fin v =>
          simp only [affine, Fl.val?]
          rw [hmean]
          · ring
          · left
            intro h0
            have : v ∈ finite x := by
              unfold finite
              rw [List.mem_filterMap]
              refine ⟨.fin v, ?_, rfl⟩
              rw [List.getD_eq_getElem?_getD] at hv
              cases hx : x[i]? with
              | none => rw [hx] at hv; cases hv
              | some y => rw [hx] at hv; simp at hv; subst hv; exact List.mem_of_getElem? hx
            rw [h0] at this; cases this
        | nan => simp [affine, Fl.val?]
        | pinf => by_cases h : 0 < a <;> simp [affine, Fl.val?, h]
        | ninf => by_cases h : 0 < a <;> simp [affine, Fl.val?, h]
      set d := dev x (meanOf x mean) with hd
      have e1 : ∑ i ∈ Finset.range x.length, ∑ j ∈ Finset.range x.length,
          dev (x.map (affine a b)) (meanOf (x.map (affine a b)) (mean.map fun m => a * m + b)) i * maskPairs x u i j *
            dev (x.map (affine a b)) (meanOf (x.map (affine a b)) (mean.map fun m => a * m + b)) j =
          a ^ 2 * ∑ i ∈ Finset.range x.length, ∑ j ∈ Finset.range x.length, d i * maskPairs x u i j * d j := by
        rw [Finset.mul_sum]
        apply Finset.sum_congr rfl; intro i _
        rw [Finset.mul_sum]
        apply Finset.sum_congr rfl; intro j _
        rw [hdev, hdev]; ring
      have e2 : ∑ i ∈ Finset.range x.length,
          dev (x.map (affine a b)) (meanOf (x.map (affine a b)) (mean.map fun m => a * m + b)) i *
            dev (x.map (affine a b)) (meanOf (x.map (affine a b)) (mean.map fun m => a * m + b)) i =
          a ^ 2 * ∑ i ∈ Finset.range x.length, d i * d i := by
        rw [Finset.mul_sum]
        apply Finset.sum_congr rfl; intro i _
        rw [hdev]; ring
      rw [e1, e2]
      rcases ratio_scale (n := x.countP valid) (np := ∑ i ∈ Finset.range x.length, ∑ j ∈ Finset.range x.length, maskPairs x u i j)
        (ac := ∑ i ∈ Finset.range x.length, ∑ j ∈ Finset.range x.length, d i * maskPairs x u i j * d j)
        (ac0 := ∑ i ∈ Finset.range x.length, d i * d i) (pow_ne_zero 2 ha) with h | h
      · rw [h]
      · have hz : ∀ i ∈ Finset.range x.length, d i = 0 := by
          intro i hi
          have := (Finset.sum_eq_zero_iff_of_nonneg fun i _ => mul_self_nonneg (d i)).1 h i hi
          exact mul_self_eq_zero.1 this
        have hac : ∑ i ∈ Finset.range x.length, ∑ j ∈ Finset.range x.length, d i * maskPairs x u i j * d j = 0 :=
          Finset.sum_eq_zero fun i hi => Finset.sum_eq_zero fun j _ => by rw [hz i hi]; ring
        rw [hac, h]; simp

/-- The transposed and the symmetric form of a matrix. -/
def Mat.transpose (w : Mat) : Mat := ⟨w.cols, w.rows, fun i j => w.at_ j i⟩

/-- The symmetric form. -/
def Mat.symm (w : Mat) : Mat := ⟨w.rows, w.cols, fun i j => w.at_ i j + w.at_ j i⟩

/-- C39: an upper triangular matrix, its transpose and the symmetric sum of both give the same result. -/
theorem C39_triangle (x : List (Fl ℝ)) (u : Mat) (mean : Option ℝ) (hr : u.rows = x.length) (hc : u.cols = x.length)
    (h01 : ∀ i < x.length, ∀ j < x.length, u.at_ i j = 0 ∨ u.at_ i j = 1)
    (hu : ∀ i < x.length, ∀ j < x.length, j ≤ i → u.at_ i j = 0) :
    morans x (some (Mat.transpose u)) mean = morans x (some u) mean ∧
    morans x (some (Mat.symm u)) mean = morans x (some u) mean := by
  have g0 : GoodMat x.length u := ⟨hr, hc, Or.inl fun i hi => hu i hi i hi le_rfl, fun i hi j hj _ => h01 i hi j hj,
    Or.inr (Or.inl fun i hi j hj hij => hu i hi j hj hij.le)⟩
  have g1 : GoodMat x.length (Mat.transpose u) := ⟨hc, hr, Or.inl fun i hi => hu i hi i hi le_rfl,
    fun i hi j hj _ => h01 j hj i hi, Or.inr (Or.inr fun i hi j hj hij => hu j hj i hi hij.le)⟩
  have g2 : GoodMat x.length (Mat.symm u) := by
    refine ⟨hr, hc, Or.inl fun i hi => ?_, fun i hi j hj hij => ?_, Or.inl fun i hi j hj => ?_⟩
    · simp [Mat.symm, hu i hi i hi le_rfl]
    · simp only [Mat.symm]
      rcases le_total i j with h | h
      · rw [hu j hj i hi h, add_zero]; exact h01 i hi j hj
      · rw [hu i hi j hj h, zero_add]; exact h01 j hj i hi
    · simp only [Mat.symm]; ring
  have z1 : (0 : ℝ) ≠ 1 := by norm_num
  have n1 : ∀ i < x.length, ∀ j < x.length, canon (some (Mat.transpose u)) i j = canon (some u) i j := by
    intro i hi j hj
    have : Neighbour (some (Mat.transpose u)) i j ↔ Neighbour (some u) i j := by
      simp only [Neighbour, Mat.transpose]; tauto
    simp only [canon, this]
  have n2 : ∀ i < x.length, ∀ j < x.length, canon (some (Mat.symm u)) i j = canon (some u) i j := by
    intro i hi j hj
    have : Neighbour (some (Mat.symm u)) i j ↔ Neighbour (some u) i j := by
      simp only [Neighbour, Mat.symm]
      rcases le_total i j with h | h
      · rw [hu j hj i hi h]; simp [z1]
      · rw [hu i hi j hj h]; simp [z1]
    simp only [canon, this]
  obtain ⟨v0, e0, k0⟩ := neighbours_good g0
  have same : ∀ w, GoodMat x.length w → (∀ i < x.length, ∀ j < x.length, canon (some w) i j = canon (some u) i j) →
      morans x (some w) mean = morans x (some u) mean := by
    intro w hw hcan
    obtain ⟨v, e, k⟩ := neighbours_good hw
    have hv : ∀ i ∈ Finset.range x.length, ∀ j ∈ Finset.range x.length, maskPairs x v i j = maskPairs x v0 i j := by
      intro i hi j hj
      rw [Finset.mem_range] at hi hj
      unfold maskPairs
      rw [k i hi j hj, k0 i hi j hj, hcan i hi j hj]
    unfold morans
    rw [e, e0]
    simp only [bind, Except.bind, pure, Except.pure]
    have s1 : ∀ f : ℕ → ℕ → ℝ → ℝ, ∑ i ∈ Finset.range x.length, ∑ j ∈ Finset.range x.length, f i j (maskPairs x v i j) =
        ∑ i ∈ Finset.range x.length, ∑ j ∈ Finset.range x.length, f i j (maskPairs x v0 i j) := fun f =>
      Finset.sum_congr rfl fun i hi => Finset.sum_congr rfl fun j hj => by rw [hv i hi j hj]
    rw [s1 fun i j t => t, s1 fun i j t => dev x (meanOf x mean) i * t * dev x (meanOf x mean) j]
  exact ⟨same _ g1 n1, same _ g2 n2⟩

/-- The example of the documentation: five values, two groups of neighbours, mean 3: 0.8 = 4/5. -/
def docMat : Mat := ⟨5, 5, fun i j => if i ≠ j ∧ ((i < 3 ∧ j < 3) ∨ (3 ≤ i ∧ 3 ≤ j)) then 1 else 0⟩

theorem docMat_good : GoodMat 5 docMat := by
  refine ⟨rfl, rfl, Or.inl fun i _ => by simp [docMat], fun i _ j _ _ => ?_, Or.inl fun i _ j _ => ?_⟩
  · simp only [docMat]; split <;> simp
  · simp only [docMat, ne_comm, and_comm]

/-- The hypotheses of the theorems above are met. -/
example : GoodW ([some 2, some 2, none, some 4, some 4] : List (Option ℝ)).length (some docMat) ∧
    (0, 1) ∈ neighbourPairs [some 2, some 2, none, some 4, some 4] (some docMat) ∧
    (1, 2) ∉ neighbourPairs [some 2, some 2, none, some 4, some 4] (some docMat) := by
  refine ⟨fun m hm => by cases hm; exact docMat_good, ?_, ?_⟩
  · simp [neighbourPairs, Neighbour, hasNum, docMat]
  · simp [neighbourPairs, hasNum]

/-! ## C40 -/

/-- C40: the transformation, for a positive true value and estimate and `0 < n1 <= n2`. -/
theorem C40_formula {b t n1 n2 : ℝ} (hb : 0 < b) (ht : 0 < t) (h1 : 0 < n1) (h2 : n1 ≤ n2) :
    ∃ v, transformN b t n1 n2 = .ok (.fin v) ∧ 0 < v ∧ 1 / v - 1 / t = Real.sqrt (n1 / n2) * (1 / b - 1 / t) := by
  have hn2 : 0 < n2 := lt_of_lt_of_le h1 h2
  have hs1 : Real.sqrt (n1 / n2) ≤ 1 := by
    rw [Real.sqrt_le_one]; exact (div_le_one hn2).2 h2
  have hs0 : 0 < Real.sqrt (n1 / n2) := Real.sqrt_pos.2 (div_pos h1 hn2)
  set s := Real.sqrt (n1 / n2) with hs
  have hq : 0 < t / b := div_pos ht hb
  have hden : 0 < 1 - s * (1 - t / b) := by nlinarith
  refine ⟨t / (1 - s * (1 - t / b)), ?_, div_pos ht hden, ?_⟩
  · unfold transformN
    rw [if_neg (not_lt.2 h2)]
    simp only [Fl.div, if_neg hb.ne', if_neg hn2.ne', ← hs, if_neg hden.ne']
  · field_simp
    ring

/-- C40: `n1 = n2` changes nothing. -/
theorem C40_same_n {b t n : ℝ} (hb : 0 < b) (ht : 0 < t) (hn : 0 < n) : transformN b t n n = .ok (.fin b) := by
  obtain ⟨v, h1, h2, h3⟩ := C40_formula hb ht hn le_rfl
  rw [h1, div_self hn.ne', Real.sqrt_one, one_mul] at *
  have : 1 / v = 1 / b := by linarith
  rw [one_div, one_div, inv_inj] at this
  rw [this]

/-- C40: the true value is a fixed point. -/
theorem C40_fixed_point {t n1 n2 : ℝ} (ht : 0 < t) (h1 : 0 < n1) (h2 : n1 ≤ n2) : transformN t t n1 n2 = .ok (.fin t) := by
  obtain ⟨v, h3, h4, h5⟩ := C40_formula ht ht h1 h2
  rw [h3]
  have : 1 / v = 1 / t := by rw [sub_self, mul_zero] at h5; linarith
  rw [one_div, one_div, inv_inj] at this
  rw [this]

/-- C40: two steps equal one. -/
theorem C40_compose {b t n1 n2 n3 v : ℝ} (hb : 0 < b) (ht : 0 < t) (h1 : 0 < n1) (h2 : n1 ≤ n2) (h3 : n2 ≤ n3)
    (hv : transformN b t n1 n2 = .ok (.fin v)) : transformN v t n2 n3 = transformN b t n1 n3 := by
  have hn2 : 0 < n2 := lt_of_lt_of_le h1 h2
  have hn3 : 0 < n3 := lt_of_lt_of_le hn2 h3
  obtain ⟨v', e1, e2, e3⟩ := C40_formula hb ht h1 h2
  rw [hv] at e1
  cases e1
  obtain ⟨x, f1, f2, f3⟩ := C40_formula e2 ht hn2 h3
  obtain ⟨y, g1, g2, g3⟩ := C40_formula hb ht h1 (h2.trans h3)
  rw [f1, g1]
  have hs : Real.sqrt (n2 / n3) * Real.sqrt (n1 / n2) = Real.sqrt (n1 / n3) := by
    rw [← Real.sqrt_mul (div_pos hn2 hn3).le]
    congr 1
    field_simp
  rw [e3, ← mul_assoc, hs, ← g3] at f3
  have : 1 / x = 1 / y := by linarith
  rw [one_div, one_div, inv_inj] at this
  rw [this]

/-- C40: strictly increasing in the estimate. -/
theorem C40_increasing {b b' t n1 n2 v v' : ℝ} (hb : 0 < b) (hbb : b < b') (ht : 0 < t) (h1 : 0 < n1) (h2 : n1 ≤ n2)
    (hv : transformN b t n1 n2 = .ok (.fin v)) (hv' : transformN b' t n1 n2 = .ok (.fin v')) : v < v' := by
  have hn2 : 0 < n2 := lt_of_lt_of_le h1 h2
  have hs0 : 0 < Real.sqrt (n1 / n2) := Real.sqrt_pos.2 (div_pos h1 hn2)
  obtain ⟨x, e1, e2, e3⟩ := C40_formula hb ht h1 h2
  obtain ⟨y, f1, f2, f3⟩ := C40_formula (hb.trans hbb) ht h1 h2
  rw [hv] at e1; cases e1
  rw [hv'] at f1; cases f1
  have h3 : 1 / b' < 1 / b := one_div_lt_one_div_of_lt hb hbb
  have h4 : 1 / v' < 1 / v := by nlinarith
  exact (one_div_lt_one_div f2 e2).1 h4

/-- C40: `n1 > n2` raises. -/
theorem C40_raises (b t : ℝ) {n1 n2 : ℝ} (h : n2 < n1) : transformN b t n1 n2 = .error .valueError := by
  unfold transformN; rw [if_pos h]

/-- The hypotheses are met. -/
example : transformN 2 1 1 4 = .ok (.fin (4 / 3)) := by
  have : Real.sqrt (1 / 4) = 1 / 2 := by rw [Real.sqrt_eq_iff_mul_self_eq] <;> norm_num
  unfold transformN
  norm_num [Fl.div, this]

end
end SeismoStats.Props
