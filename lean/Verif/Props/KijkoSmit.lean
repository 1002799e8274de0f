/-
Property C32: the Kijko-Smit estimator.
-/
import Verif.Model.Completeness
import Verif.Props.AValueRate

namespace SeismoStats.Props
open SeismoStats SeismoStats.Completeness
set_option linter.unusedSimpArgs false
open Classical
noncomputable section

/-! ## Specification -/

/-- The completeness period of the year `y`: the first row of the table whose year is not later. -/
def rowOf (table : List (ℝ × ℝ)) (y : ℝ) : Option ℕ := table.findIdx? fun r => decide (r.2 ≤ y)

/-- Completeness magnitude of row `i`. -/
def mcOf (table : List (ℝ × ℝ)) (i : ℕ) : ℝ := (table.getD i (0, 0)).1

/-- The event (magnitude, year) is complete in period `i`. -/
def CompleteIn (table : List (ℝ × ℝ)) (i : ℕ) (p : ℝ × ℝ) : Prop :=
  rowOf table p.2 = some i ∧ mcOf table i < p.1

/-- Excess of the magnitude over the completeness magnitude of the year, for complete events. -/
def excess (table : List (ℝ × ℝ)) (p : ℝ × ℝ) : Option ℝ :=
  match rowOf table p.2 with
  | some i => if mcOf table i < p.1 then some (p.1 - mcOf table i) else none
  | none => none

/-- The excesses of all complete events. -/
def excesses (mags years : List ℝ) (table : List (ℝ × ℝ)) : List ℝ :=
  (List.zip mags years).filterMap (excess table)

/-- Inputs that pass the assertions, with periods listed backwards in time. -/
structure KijkoInput (mags years : List ℝ) (table : List (ℝ × ℝ)) (δ : ℝ) : Prop where
  length : mags.length = years.length
  magnitudes : mags ≠ []
  ascending : table.Pairwise fun r s => r.1 ≤ s.1
  backwards : table.Pairwise fun r s => s.2 ≤ r.2
  rows : table ≠ []
  width : 0 < δ

/-- The end of the observation: `last_year` if it is given (and not 0), else the latest year. -/
def IsLastYear (last : Option ℝ) (years : List ℝ) (ly : ℝ) : Prop :=
  (∀ y, last = some y → y ≠ 0 → ly = y) ∧ ((last = none ∨ last = some 0) → IsGreatest {y | y ∈ years} ly)

/-- Inputs refused by an assertion. -/
def Refused (mags years : List ℝ) (table : List (ℝ × ℝ)) (δ : ℝ) (param : String) : Prop :=
  mags.length ≠ years.length ∨ ¬ (table.Pairwise fun r s => r.1 ≤ s.1) ∨ mags = [] ∨
    (table ≠ [] ∧ (δ < 0 ∨ (0 < δ ∧ param ≠ "b_value" ∧ param ≠ "beta")))

/-! ## Lemmas -/

theorem lastYear_spec (last : Option ℝ) {years : List ℝ} (h : years ≠ []) : IsLastYear last years (lastYear last years) := by
  obtain ⟨v, hv⟩ := exists_amax h
  have hg := (amax?_eq_some_iff _ _).1 hv
  unfold lastYear
  constructor
  · rintro y rfl hy
    simp only [hy, if_false]
  · rintro (rfl | rfl)
    · simp only [hv, Option.getD_some]; exact hg
    · simp only [if_true, hv, Option.getD_some]; exact hg

theorem ascending_of_pairwise {table : List (ℝ × ℝ)} (h : table.Pairwise fun r s => r.1 ≤ s.1) :
    ascending table = true := by
  unfold ascending
  rw [List.all_eq_true]
  intro d hd
  rw [BValue.diff_map] at hd
  obtain ⟨p, hp, rfl⟩ := List.mem_map.1 hd
  simp only [decide_eq_true_eq, sub_nonneg]
  have : ∀ (o : List (ℝ × ℝ)), o.Pairwise (fun r s => r.1 ≤ s.1) → ∀ p ∈ List.zip o o.tail, p.1.1 ≤ p.2.1 := by
    intro o ho
    induction o with
    | nil => intro p hp; cases hp
    | cons x r ih =>
      cases r with
      | nil => intro p hp; cases hp
      | cons y r =>
        intro p hp
        simp only [List.tail_cons, List.zip_cons_cons, List.mem_cons] at hp
        rcases hp with rfl | hp
        · exact (List.pairwise_cons.1 ho).1 _ (by simp)
        · exact ih (List.pairwise_cons.1 ho).2 _ hp
  exact this _ h _ hp

theorem pairwise_of_ascending {table : List (ℝ × ℝ)} (h : ascending table = true) :
    table.Pairwise fun r s => r.1 ≤ s.1 := by
  unfold ascending at h
  induction table with
  | nil => exact .nil
  | cons x r ih =>
    cases r with
    | nil => simp
    | cons y r =>
      have e : diff ((x :: y :: r).map Prod.fst) = (y.1 - x.1) :: diff ((y :: r).map Prod.fst) := rfl
      rw [e, List.all_cons, Bool.and_eq_true, decide_eq_true_eq, sub_nonneg] at h
      have hr := ih h.2
      refine List.pairwise_cons.2 ⟨fun s hs => ?_, hr⟩
      rcases List.mem_cons.1 hs with rfl | hs
      · exact h.1
      · exact h.1.trans ((List.pairwise_cons.1 hr).1 s hs)

theorem assertions_refused (mags years : List ℝ) (table : List (ℝ × ℝ)) (δ : ℝ) (param : String) :
    assertions mags years table δ param = .error .assertionError ↔ Refused mags years table δ param := by
  unfold assertions Refused
  by_cases h1 : mags.length ≠ years.length
  · simp [h1]
  · by_cases h2 : ascending table = true
    · have hp := pairwise_of_ascending h2
      rw [if_neg h1]
      simp only [h2, Bool.not_true, Bool.false_eq_true, if_false]
      by_cases h3 : mags = []
      · simp [h3]
      · by_cases h4 : table = []
        · simp [h3, h4] at h1 ⊢
          simpa using h1
        · by_cases h5 : δ = 0
          · simp [h3, h4, h5, hp, h1]
          · rw [if_neg h3, if_neg h4, if_neg h5]
            by_cases h6 : δ < 0
            · simp [h6, h4]
            · have h7 : 0 < δ := lt_of_le_of_ne (not_lt.1 h6) (Ne.symm h5)
              rw [if_neg h6]
              by_cases h8 : param = "b_value" ∨ param = "beta"
              · rw [if_pos h8]
                simp only [reduceCtorEq, false_iff]
                rintro (h | h | h | ⟨-, h | ⟨-, h, h'⟩⟩)
                · exact h1 h
                · exact h hp
                · exact h3 h
                · exact h6 h
                · rcases h8 with h8 | h8
                  · exact h h8
                  · exact h' h8
              · rw [if_neg h8]
                rw [not_or] at h8
                simp [h4, h7, h8]
    · have hp : ¬ table.Pairwise fun r s => r.1 ≤ s.1 := fun h => h2 (ascending_of_pairwise h)
      rw [if_neg h1]
      simp [h2, hp]

theorem assertions_ok {mags years : List ℝ} {table : List (ℝ × ℝ)} {δ : ℝ} (h : KijkoInput mags years table δ)
    {param : String} (hp : param = "b_value" ∨ param = "beta") : assertions mags years table δ param = .ok () := by
  unfold assertions
  simp only [h.length, h.magnitudes, h.rows, ascending_of_pairwise h.ascending, h.width.ne', not_lt.2 h.width.le,
    hp, ne_eq, not_true, if_false, if_true, Bool.not_true, Bool.false_eq_true]

theorem rowOf_insertion {table : List (ℝ × ℝ)} (h : table.Pairwise fun r s => s.2 ≤ r.2) (y : ℝ) (i : ℕ) :
    rowOf table y = some i ↔ (insertion table y = i ∧ i < table.length) := by
  unfold rowOf insertion
  induction table generalizing i with
  | nil => simp
  | cons r t ih =>
    obtain ⟨h1, h2⟩ := List.pairwise_cons.1 h
    rw [List.findIdx?_cons, List.countP_cons]
    by_cases hr : r.2 ≤ y
    · have h0 : List.countP (fun r => decide (-r.2 < -y)) t = 0 := by
        rw [List.countP_eq_zero]
        intro s hs
        have := h1 s hs
        simp; linarith
      simp only [hr, decide_true, if_true, h0]
      have hn : ¬ y < r.2 := not_lt.2 hr
      simp only [neg_lt_neg_iff, hn, decide_false, Bool.false_eq_true, if_false]
      simp
      omega
    · have hn : y < r.2 := not_le.1 hr
      simp only [hr, decide_false, Bool.false_eq_true, if_false, neg_lt_neg_iff, hn, decide_true, if_true,
        List.length_cons]
      rw [Option.map_eq_some_iff]
      constructor
      · rintro ⟨j, hj, rfl⟩
        have := (ih h2 j).1 hj
        simp only [neg_lt_neg_iff] at this
        omega
      · rintro ⟨e, hl⟩
        cases i with
        | zero => omega
        | succ j =>
          refine ⟨j, (ih h2 j).2 ⟨?_, by omega⟩, rfl⟩
          simp only [neg_lt_neg_iff]; omega

theorem sub_eq (mags years : List ℝ) (table : List (ℝ × ℝ)) (i : ℕ) : subCatalogue mags years table i =
    ((List.zip mags years).filter fun p => decide (insertion table p.2 = i) && decide (mcOf table i < p.1)).map
      Prod.fst := by
  unfold subCatalogue mcOf
  induction mags generalizing years with
  | nil => rfl
  | cons m mags ih =>
    cases years with
    | nil => rfl
    | cons y years =>
      have := ih years
      unfold mask at this ⊢
      simp only [List.zipWith_cons_cons, List.zip_cons_cons, List.filterMap_cons, List.filter_cons, this]
      by_cases hc : (decide (insertion table y = i) && decide ((table.getD i (0, 0)).1 < m)) = true
      · simp only [hc, if_true, List.map_cons]
      · simp only [hc, if_false]; rfl

theorem range_sum_single (L k : ℕ) (f : ℕ → ℝ) :
    ((List.range L).map fun i => if k = i then f i else 0).sum = if k < L then f k else 0 := by
  induction L with
  | zero => simp
  | succ L ih =>
    rw [List.range_succ, List.map_append, List.sum_append, ih]
    simp only [List.map_cons, List.map_nil, List.sum_cons, List.sum_nil, add_zero]
    by_cases h1 : k < L
    · have : k ≠ L := by omega
      have h2 : k < L + 1 := by omega
      simp [h1, this, h2]
    · by_cases h2 : k = L
      · subst h2; simp
      · have h3 : ¬ k < L + 1 := by omega
        simp [h1, h2, h3]

theorem sum_map_add' {α : Type} (l : List α) (f g : α → ℝ) :
    (l.map fun a => f a + g a).sum = (l.map f).sum + (l.map g).sum := by
  induction l with
  | nil => simp
  | cons a l ih => simp only [List.map_cons, List.sum_cons, ih]; ring

/-- Summing over the sub-catalogues is summing over the complete events. -/
theorem sum_over_rows {table : List (ℝ × ℝ)} (h : table.Pairwise fun r s => s.2 ≤ r.2) (P : List (ℝ × ℝ))
    (g : ℕ → ℝ × ℝ → ℝ) :
    ((List.range table.length).map fun i => ((P.filter fun p => decide (insertion table p.2 = i) &&
      decide (mcOf table i < p.1)).map (g i)).sum).sum =
    (P.map fun p => match rowOf table p.2 with
      | some i => if mcOf table i < p.1 then g i p else 0
      | none => 0).sum := by
  induction P with
  | nil => simp
  | cons p P ih =>
    rw [List.map_cons, List.sum_cons, ← ih]
    have e : ∀ i, (((p :: P).filter fun p => decide (insertion table p.2 = i) &&
        decide (mcOf table i < p.1)).map (g i)).sum =
        (if insertion table p.2 = i then (if mcOf table i < p.1 then g i p else 0) else 0) +
        ((P.filter fun p => decide (insertion table p.2 = i) && decide (mcOf table i < p.1)).map (g i)).sum := by
      intro i
      rw [List.filter_cons]
      by_cases h1 : insertion table p.2 = i <;> by_cases h2 : mcOf table i < p.1 <;> simp [h1, h2]
    simp only [e]
    rw [sum_map_add', range_sum_single _ _ (fun i => if mcOf table i < p.1 then g i p else 0)]
    congr 1
    cases hr : rowOf table p.2 with
    | none =>
      have : ¬ insertion table p.2 < table.length := by
        intro hl
        have := (rowOf_insertion h p.2 _).2 ⟨rfl, hl⟩
        rw [hr] at this; cases this
      simp [this]
    | some i =>
      obtain ⟨rfl, hl⟩ := (rowOf_insertion h p.2 i).1 hr
      simp [hl]

theorem length_excesses (mags years : List ℝ) {table : List (ℝ × ℝ)} (h : table.Pairwise fun r s => s.2 ≤ r.2) :
    (((List.range table.length).map (subCatalogue mags years table)).map List.length).sum =
      (excesses mags years table).length := by
  have key := sum_over_rows h (List.zip mags years) (fun _ _ => 1)
  have e1 : (((((List.range table.length).map (subCatalogue mags years table)).map List.length).sum : ℕ) : ℝ) =
      ((List.range table.length).map fun i => (((List.zip mags years).filter
        fun p => decide (insertion table p.2 = i) && decide (mcOf table i < p.1)).map fun _ => (1 : ℝ)).sum).sum := by
    rw [List.map_map]
    generalize List.range table.length = R
    induction R with
    | nil => simp
    | cons i R ih =>
      simp only [List.map_cons, List.sum_cons, Nat.cast_add, ih]
      congr 1
      simp only [Function.comp_apply, sub_eq, List.length_map]
      simp
  have e2 : ∀ P : List (ℝ × ℝ), ((P.filterMap (excess table)).length : ℝ) = (P.map fun p => match rowOf table p.2 with
      | some i => if mcOf table i < p.1 then (1 : ℝ) else 0
      | none => 0).sum := by
    intro P
    induction P with
    | nil => simp
    | cons p P ih =>
      rw [List.filterMap_cons, List.map_cons, List.sum_cons, ← ih]
      unfold excess
      cases rowOf table p.2 with
      | none => simp
      | some i => by_cases h2 : mcOf table i < p.1 <;> simp [h2, add_comm]
  have := (e1.trans key).trans (e2 _).symm
  exact_mod_cast this

theorem sum_excesses (mags years : List ℝ) {table : List (ℝ × ℝ)} (h : table.Pairwise fun r s => s.2 ≤ r.2) :
    ((List.range table.length).map fun i => (subCatalogue mags years table i).sum -
      (subCatalogue mags years table i).length * mcOf table i).sum = (excesses mags years table).sum := by
  have key := sum_over_rows h (List.zip mags years) (fun i p => p.1 - mcOf table i)
  have e1 : ∀ i, (subCatalogue mags years table i).sum - (subCatalogue mags years table i).length * mcOf table i =
      (((List.zip mags years).filter fun p => decide (insertion table p.2 = i) && decide (mcOf table i < p.1)).map
        fun p => p.1 - mcOf table i).sum := by
    intro i
    rw [sub_eq]
    generalize (List.filter _ _) = L
    induction L with
    | nil => simp
    | cons p L ih =>
      simp only [List.map_cons, List.sum_cons, List.length_cons, Nat.cast_add, Nat.cast_one] at ih ⊢
      rw [← ih]; ring
  have e2 : ∀ P : List (ℝ × ℝ), (P.filterMap (excess table)).sum = (P.map fun p => match rowOf table p.2 with
      | some i => if mcOf table i < p.1 then p.1 - mcOf table i else 0
      | none => 0).sum := by
    intro P
    induction P with
    | nil => simp
    | cons p P ih =>
      rw [List.filterMap_cons, List.map_cons, List.sum_cons, ← ih]
      unfold excess
      cases rowOf table p.2 with
      | none => simp
      | some i => by_cases h2 : mcOf table i < p.1 <;> simp [h2]
  simp only [e1]
  rw [key, ← e2]
  rfl

theorem sub_gt {mags years : List ℝ} {table : List (ℝ × ℝ)} {i : ℕ} {m : ℝ}
    (h : m ∈ subCatalogue mags years table i) : mcOf table i < m := by
  rw [sub_eq] at h
  obtain ⟨p, hp, rfl⟩ := List.mem_map.1 h
  have := (List.mem_filter.1 hp).2
  simp only [Bool.and_eq_true, decide_eq_true_eq] at this
  exact this.2

theorem sum_gt {l : List ℝ} {c : ℝ} (h : ∀ m ∈ l, c < m) (hne : l ≠ []) : (l.length : ℝ) * c < l.sum := by
  induction l with
  | nil => exact absurd rfl hne
  | cons a l ih =>
    simp only [List.length_cons, Nat.cast_add, Nat.cast_one, List.sum_cons]
    have h1 := h a (by simp)
    by_cases hl : l = []
    · subst hl; simp; linarith
    · have := ih (fun m hm => h m (by simp [hm])) hl
      linarith

theorem kijkoTerm_fin {n : ℕ} {sub : List ℝ} {c : ℝ} (hne : sub ≠ []) (h : ∀ m ∈ sub, c < m) :
    kijkoTerm n sub c = .fin ((sub.sum - sub.length * c) / n) := by
  have hl : (0 : ℝ) < sub.length := by exact_mod_cast List.length_pos_of_ne_nil hne
  have h1 := sum_gt h hne
  have h2 : 0 < sub.sum / sub.length - c := by
    rw [sub_pos, lt_div_iff₀ hl]; linarith
  unfold kijkoTerm
  rw [if_neg hne]
  have e1 : Fl.div 1 (sub.sum / sub.length - c) = .fin (1 / (sub.sum / sub.length - c)) := by
    unfold Fl.div; rw [if_neg h2.ne']
  rw [e1]
  have e2 : Fl.over ((sub.length : ℝ) / n) (.fin (1 / (sub.sum / sub.length - c))) =
      .fin ((sub.length : ℝ) / n / (1 / (sub.sum / sub.length - c))) := by
    simp only [Fl.over]; unfold Fl.div; rw [if_neg (one_div_pos.2 h2).ne']
  rw [e2]
  congr 1
  rw [div_div_eq_mul_div, div_one]
  field_simp

/-- Every completeness period has an event. -/
def EveryPeriod (mags years : List ℝ) (table : List (ℝ × ℝ)) : Prop :=
  ∀ i < table.length, ∃ p ∈ List.zip mags years, CompleteIn table i p

theorem sub_nonempty {mags years : List ℝ} {table : List (ℝ × ℝ)} (h : table.Pairwise fun r s => s.2 ≤ r.2)
    {i : ℕ} (hi : i < table.length) :
    subCatalogue mags years table i ≠ [] ↔ ∃ p ∈ List.zip mags years, CompleteIn table i p := by
  rw [sub_eq, ne_eq, List.map_eq_nil_iff, List.filter_eq_nil_iff]
  unfold CompleteIn
  simp only [Bool.and_eq_true, decide_eq_true_eq, not_forall, not_not, exists_prop, rowOf_insertion h]
  constructor
  · rintro ⟨p, hp, h1, h2⟩; exact ⟨p, hp, ⟨h1, hi⟩, h2⟩
  · rintro ⟨p, hp, ⟨h1, -⟩, h2⟩; exact ⟨p, hp, h1, h2⟩

theorem terms_eq (mags years : List ℝ) (table : List (ℝ × ℝ)) (n : ℕ) :
    List.zipWith (fun sub (r : ℝ × ℝ) => kijkoTerm n sub r.1)
      ((List.range table.length).map (subCatalogue mags years table)) table =
    (List.range table.length).map fun i => kijkoTerm n (subCatalogue mags years table i) (mcOf table i) := by
  apply List.ext_getElem
  · simp
  · intro i h1 h2
    have hi : i < table.length := by simpa using h2
    simp only [List.getElem_zipWith, List.getElem_map, List.getElem_range]
    unfold mcOf
    rw [List.getD_eq_getElem _ _ hi]

theorem foldl_nan_mem {l : List (Fl ℝ)} (h : .nan ∈ l) (acc : Fl ℝ) : l.foldl Fl.add acc = .nan := by
  induction l generalizing acc with
  | nil => cases h
  | cons y l ih =>
    rw [List.foldl_cons]
    rcases List.mem_cons.1 h with h | h
    · rw [← h]
      have : Fl.add acc .nan = .nan := by cases acc <;> rfl
      rw [this, foldl_add_nan]
    · exact ih h _

theorem excess_pos {table : List (ℝ × ℝ)} {p : ℝ × ℝ} {x : ℝ} (h : excess table p = some x) : 0 < x := by
  unfold excess at h
  split at h
  · split at h
    · cases h; linarith
    · cases h
  · cases h

theorem excesses_pos {mags years : List ℝ} {table : List (ℝ × ℝ)} : ∀ x ∈ excesses mags years table, 0 < x := by
  intro x hx
  obtain ⟨p, -, h⟩ := List.mem_filterMap.1 hx
  exact excess_pos h

theorem excesses_ne_nil {mags years : List ℝ} {table : List (ℝ × ℝ)} (hr : table ≠ [])
    (he : EveryPeriod mags years table) : excesses mags years table ≠ [] := by
  obtain ⟨p, hp, h1, h2⟩ := he 0 (List.length_pos_of_ne_nil hr)
  intro h
  have : p.1 - mcOf table 0 ∈ excesses mags years table := by
    unfold excesses
    rw [List.mem_filterMap]
    refine ⟨p, hp, ?_⟩
    unfold excess
    simp [h1, h2]
  rw [h] at this; cases this

theorem beta_eq {mags years : List ℝ} {table : List (ℝ × ℝ)} (h : table.Pairwise fun r s => s.2 ≤ r.2)
    (hr : table ≠ []) (he : EveryPeriod mags years table) {n : ℕ} (hn : n = (excesses mags years table).length) :
    Fl.over 1 (Fl.sum ((List.range table.length).map fun i =>
      kijkoTerm n (subCatalogue mags years table i) (mcOf table i))) =
      .fin (n / (excesses mags years table).sum) := by
  have hx := excesses_ne_nil hr he
  have hn0 : (0 : ℝ) < n := by
    rw [hn]; exact_mod_cast List.length_pos_of_ne_nil hx
  have hS : 0 < (excesses mags years table).sum := by
    have := sum_gt (c := 0) excesses_pos hx
    simpa using this
  have e : ((List.range table.length).map fun i => kijkoTerm n (subCatalogue mags years table i) (mcOf table i)) =
      (((List.range table.length).map fun i => ((subCatalogue mags years table i).sum -
      (subCatalogue mags years table i).length * mcOf table i)).map (· / (n : ℝ))).map Fl.fin := by
    rw [List.map_map, List.map_map]
    apply List.map_congr_left
    intro i hi
    exact kijkoTerm_fin ((sub_nonempty h (List.mem_range.1 hi)).2 (he i (List.mem_range.1 hi)))
      (fun m hm => sub_gt hm)
  unfold Fl.sum
  rw [e, foldl_add_fin, zero_add, sum_div_aux, sum_excesses mags years h]
  have : Fl.over 1 (.fin ((excesses mags years table).sum / n)) =
      .fin (1 / ((excesses mags years table).sum / n)) := by
    simp only [Fl.over]; unfold Fl.div; rw [if_neg (div_pos hS hn0).ne']
  rw [this, one_div_div]

/-! ## C32 -/

/-- C32: the result. With `S` the sum of the excesses of the `n` complete events over the completeness
magnitude of their year, `beta = n / S`, with standard deviation `beta / sqrt n`; the rate is that of
a Poisson process observed for `last - year` years above each completeness magnitude. -/
theorem C32_result {mags years : List ℝ} {table : List (ℝ × ℝ)} {δ : ℝ} (last : Option ℝ)
    (h : KijkoInput mags years table δ) (he : EveryPeriod mags years table) :
    ∃ (n : ℕ) (β T ly : ℝ), n = (excesses mags years table).length ∧ 0 < β ∧
      β = n / (excesses mags years table).sum ∧ IsLastYear last years ly ∧
      T = (table.map fun r => (ly - r.2) * Real.exp (-β * (r.1 - mcOf table 0))).sum ∧
      kijkoSmit mags years table last δ "b_value" = .ok (.fin (β / Real.log 10),
        .fin (β / Real.sqrt n / Real.log 10), Fl.div n T,
        ((Fl.div n T).log10).add (.fin (β / Real.log 10 * (mcOf table 0 + δ / 2)))) := by
  have hx := excesses_ne_nil h.rows he
  have hn : 0 < (excesses mags years table).length := List.length_pos_of_ne_nil hx
  have hS : 0 < (excesses mags years table).sum := by
    have := sum_gt (c := 0) excesses_pos hx
    simpa using this
  have hy : years ≠ [] := by
    rw [← List.length_pos_iff, ← h.length]; exact List.length_pos_iff.2 h.magnitudes
  refine ⟨_, _, _, lastYear last years, rfl, div_pos (by exact_mod_cast hn) hS, rfl, lastYear_spec last hy, rfl, ?_⟩
  unfold kijkoSmit
  rw [assertions_ok h (Or.inl rfl)]
  simp only [bind, Except.bind, pure, Except.pure, length_excesses mags years h.backwards, hn.ne', if_false, if_true,
    terms_eq, beta_eq h.backwards h.rows he rfl]
  unfold kijkoRate mcOf BValue.betaToB Fl.mapFin
  have e : ∀ x : ℝ, x * (1 / 2) = x / 2 := fun x => by ring
  simp only [e]

/-- C32: this `beta` is the unique maximum likelihood estimate: the complete events follow exponential
laws above the completeness magnitude of their year. -/
theorem C32_is_mle {mags years : List ℝ} {table : List (ℝ × ℝ)} {δ : ℝ} (last : Option ℝ)
    (h : KijkoInput mags years table δ) (he : EveryPeriod mags years table) :
    ∃ b sd rate a, kijkoSmit mags years table last δ "b_value" = .ok (.fin b, .fin sd, rate, a) ∧ 0 < b ∧
      sd = b / Real.sqrt (excesses mags years table).length ∧
      ∀ β, 0 < β → β ≠ b * Real.log 10 →
        ((excesses mags years table).map fun x => Real.log (Spec.expDensity β 0 x)).sum <
        ((excesses mags years table).map fun x => Real.log (Spec.expDensity (b * Real.log 10) 0 x)).sum := by
  obtain ⟨n, β, T, ly, hn, hβ, hβe, -, -, hr⟩ := C32_result last h he
  refine ⟨_, _, _, _, hr, div_pos hβ log10_pos, ?_, ?_⟩
  · rw [← hn]; ring
  · intro β' hβ' hne
    rw [div_mul_cancel₀ _ log10_pos.ne'] at hne ⊢
    have hx := excesses_ne_nil h.rows he
    set X := excesses mags years table with hX
    have hS : 0 < X.sum := by
      have := sum_gt (c := 0) (excesses_pos (mags := mags) (years := years) (table := table)) hx
      simpa using this
    have hl : ∀ γ, 0 < γ → (X.map fun x => Real.log (Spec.expDensity γ 0 x)).sum =
        X.length * Real.log γ - γ * X.sum := by
      intro γ hγ
      have : ∀ l : List ℝ, (l.map fun x => Real.log (Spec.expDensity γ 0 x)).sum =
          l.length * Real.log γ - γ * l.sum := by
        intro l
        induction l with
        | nil => simp
        | cons a l ih =>
          simp only [List.map_cons, List.sum_cons, List.length_cons, Nat.cast_add, Nat.cast_one, ih]
          unfold Spec.expDensity
          rw [Real.log_mul hγ.ne' (Real.exp_pos _).ne', Real.log_exp]
          ring
      exact this X
    rw [hl β' hβ', hl β hβ]
    have hn0 : (0 : ℝ) < X.length := by exact_mod_cast List.length_pos_of_ne_nil hx
    have hS' : X.sum = X.length / β := by
      rw [hβe, hn]; field_simp
    rw [hS']
    have hlt := Real.log_lt_sub_one_of_pos (x := β' / β) (div_pos hβ' hβ)
      (by intro h1; exact hne ((div_eq_one_iff_eq hβ.ne').1 h1))
    rw [Real.log_div hβ'.ne' hβ.ne'] at hlt
    have e1 : β' * (X.length / β) = X.length * (β' / β) := by ring
    have e2 : β * (X.length / β) = X.length := by field_simp
    rw [e1, e2]
    nlinarith

/-- A finding about C32: if there are complete events but one completeness period has none, all
results are NaN. -/
theorem C32_empty_period_nan {mags years : List ℝ} {table : List (ℝ × ℝ)} {δ : ℝ} (last : Option ℝ)
    (h : KijkoInput mags years table δ) (he : ¬ EveryPeriod mags years table)
    (hx : excesses mags years table ≠ []) :
    kijkoSmit mags years table last δ "b_value" = .ok (.nan, .nan, .nan, .nan) := by
  have hn : 0 < (excesses mags years table).length := List.length_pos_of_ne_nil hx
  unfold EveryPeriod at he
  simp only [not_forall] at he
  obtain ⟨i, hi, hne⟩ := he
  have hsub : subCatalogue mags years table i = [] := by
    by_contra h0
    exact hne ((sub_nonempty h.backwards hi).1 h0)
  unfold kijkoSmit
  rw [assertions_ok h (Or.inl rfl)]
  simp only [bind, Except.bind, pure, Except.pure, length_excesses mags years h.backwards, hn.ne', if_false, if_true,
    terms_eq]
  have : Fl.sum ((List.range table.length).map fun i => kijkoTerm (excesses mags years table).length
      (subCatalogue mags years table i) (mcOf table i)) = .nan := by
    unfold Fl.sum
    apply foldl_nan_mem
    rw [List.mem_map]
    refine ⟨i, List.mem_range.2 hi, ?_⟩
    unfold kijkoTerm
    rw [if_pos hsub]
  rw [this]
  rfl

/-- C32: without any complete event a ZeroDivisionError is raised. -/
theorem C32_no_event {mags years : List ℝ} {table : List (ℝ × ℝ)} {δ : ℝ} (last : Option ℝ)
    (h : KijkoInput mags years table δ) (hx : excesses mags years table = []) (param : String)
    (hp : param = "b_value" ∨ param = "beta") :
    kijkoSmit mags years table last δ param = .error .zeroDivision := by
  unfold kijkoSmit
  rw [assertions_ok h hp]
  simp only [bind, Except.bind, pure, Except.pure, length_excesses mags years h.backwards, hx, List.length_nil, if_true]
  rfl

/-- C32: the refused inputs are exactly those that break an assertion. -/
theorem C32_refused (mags years : List ℝ) (table : List (ℝ × ℝ)) (last : Option ℝ) (δ : ℝ) (param : String) :
    kijkoSmit mags years table last δ param = .error .assertionError ↔ Refused mags years table δ param := by
  rw [← assertions_refused]
  unfold kijkoSmit
  cases assertions mags years table δ param with
  | error e =>
    simp only [bind, Except.bind]
    constructor <;> intro h <;> (injection h with h; rw [h])
  | ok u =>
    simp only [bind, Except.bind, pure, Except.pure, throw, throwThe, MonadExceptOf.throw, reduceCtorEq, iff_false]
    split
    · simp
    · split <;> simp

example : Refused [1, 2] [1990] [(1, 1980)] (1 / 10) "b_value" := Or.inl (by simp)

/-- A finding about C32: `b_parameter = 'beta'` never returns; where 'b_value' returns a result, it
raises UnboundLocalError. -/
theorem C32_beta_unbound (mags years : List ℝ) (table : List (ℝ × ℝ)) (last : Option ℝ) (δ : ℝ) :
    (∃ e, kijkoSmit mags years table last δ "beta" = .error e) ∧
    ∀ r, kijkoSmit mags years table last δ "b_value" = .ok r →
      kijkoSmit mags years table last δ "beta" = .error .unboundLocal := by
  have ha : assertions mags years table δ "beta" = assertions mags years table δ "b_value" := by
    unfold assertions; simp
  unfold kijkoSmit
  rw [ha]
  simp only [bind, Except.bind, pure, Except.pure]
  cases assertions mags years table δ "b_value" with
  | error e => exact ⟨⟨e, rfl⟩, fun r hr => by cases hr⟩
  | ok u =>
    simp only []
    split
    · exact ⟨⟨_, rfl⟩, fun r hr => by cases hr⟩
    · exact ⟨⟨_, rfl⟩, fun r hr => rfl⟩

/-! ### Invariances -/

theorem diff_shift (l : List ℝ) (t : ℝ) : diff (l.map (· + t)) = diff l := by
  have := BValue.diff_map l (· + t)
  rw [this]
  have h2 := BValue.diff_map l id
  rw [List.map_id] at h2
  rw [h2]
  apply List.map_congr_left
  intro p _
  simp only [id]
  ring

theorem rows_shift (table : List (ℝ × ℝ)) (t : ℝ) {i : ℕ} (hi : i < table.length) :
    mcOf (table.map fun r => (r.1 + t, r.2)) i = mcOf table i + t := by
  unfold mcOf
  rw [List.getD_eq_getElem _ _ (by simpa using hi), List.getD_eq_getElem _ _ hi]
  simp

theorem kijkoTerm_shift (n : ℕ) (sub : List ℝ) (c t : ℝ) :
    kijkoTerm n (sub.map (· + t)) (c + t) = kijkoTerm n sub c := by
  unfold kijkoTerm
  simp only [List.map_eq_nil_iff, List.length_map]
  split
  · rfl
  · rename_i hne
    have hl : (sub.length : ℝ) ≠ 0 := by
      have := List.length_pos_of_ne_nil hne
      positivity
    have : (sub.map (· + t)).sum / sub.length - (c + t) = sub.sum / sub.length - c := by
      have e : ∀ l : List ℝ, (l.map (· + t)).sum = l.sum + l.length * t := by
        intro l
        induction l with
        | nil => simp
        | cons a l ih => simp only [List.map_cons, List.sum_cons, ih, List.length_cons, Nat.cast_add, Nat.cast_one]; ring
      rw [e, add_div, mul_div_cancel_left₀ _ hl]
      ring
    rw [this]

theorem sub_shift (mags years : List ℝ) (table : List (ℝ × ℝ)) (t : ℝ) {i : ℕ} (hi : i < table.length) :
    subCatalogue (mags.map (· + t)) years (table.map fun r => (r.1 + t, r.2)) i =
      (subCatalogue mags years table i).map (· + t) := by
  have hins : ∀ y, insertion (table.map fun r => (r.1 + t, r.2)) y = insertion table y := by
    intro y; unfold insertion; rw [List.countP_map]; rfl
  rw [sub_eq, sub_eq, List.zip_map_left, List.filter_map, List.map_map, List.map_map]
  have : ((fun p : ℝ × ℝ => decide (insertion (table.map fun r => (r.1 + t, r.2)) p.2 = i) &&
      decide (mcOf (table.map fun r => (r.1 + t, r.2)) i < p.1)) ∘ Prod.map (· + t) id) =
      fun p => decide (insertion table p.2 = i) && decide (mcOf table i < p.1) := by
    funext p
    simp only [Function.comp_apply, Prod.map_fst, Prod.map_snd, id, hins, rows_shift table t hi,
      add_lt_add_iff_right]
  rw [this]
  rfl

/-- C32: shifting all magnitudes and completeness magnitudes by `t` changes neither the b-value, its
deviation, the rate nor the exception; the a-value moves along the Gutenberg-Richter law. -/
theorem C32_shift (mags years : List ℝ) (table : List (ℝ × ℝ)) (last : Option ℝ) (δ t : ℝ) (param : String) :
    kijkoSmit (mags.map (· + t)) years (table.map fun r => (r.1 + t, r.2)) last δ param =
      (kijkoSmit mags years table last δ param).map fun r =>
        (r.1, r.2.1, r.2.2.1, r.2.2.2.add (match r.1 with | .fin b => .fin (b * t) | v => v)) := by
  have ha : assertions (mags.map (· + t)) years (table.map fun r => (r.1 + t, r.2)) δ param =
      assertions mags years table δ param := by
    unfold assertions ascending
    have : (table.map fun r => (r.1 + t, r.2)).map Prod.fst = (table.map Prod.fst).map (· + t) := by
      rw [List.map_map, List.map_map]; rfl
    rw [this, diff_shift]
    simp only [List.length_map, List.map_eq_nil_iff]
  have hsub : (List.range table.length).map (subCatalogue (mags.map (· + t)) years
      (table.map fun r => (r.1 + t, r.2))) = ((List.range table.length).map (subCatalogue mags years table)).map
        (List.map (· + t)) := by
    rw [List.map_map]
    apply List.map_congr_left
    intro i hi
    exact sub_shift mags years table t (List.mem_range.1 hi)
  have hlen : ((((List.range table.length).map (subCatalogue mags years table)).map (List.map (· + t))).map
      List.length).sum = (((List.range table.length).map (subCatalogue mags years table)).map List.length).sum := by
    rw [List.map_map]
    congr 1
    apply List.map_congr_left
    intro l _
    simp
  have hterm : ∀ n, List.zipWith (fun sub (r : ℝ × ℝ) => kijkoTerm n sub r.1)
      (((List.range table.length).map (subCatalogue mags years table)).map (List.map (· + t)))
      (table.map fun r => (r.1 + t, r.2)) =
      List.zipWith (fun sub (r : ℝ × ℝ) => kijkoTerm n sub r.1)
        ((List.range table.length).map (subCatalogue mags years table)) table := by
    intro n
    rw [List.zipWith_map]
    congr 1
    funext sub r
    exact kijkoTerm_shift n sub r.1 t
  unfold kijkoSmit
  rw [ha]
  simp only [bind, Except.bind, pure, Except.pure, List.length_map, hsub, hlen, hterm]
  cases assertions mags years table δ param with
  | error e => rfl
  | ok u =>
    simp only []
    split
    · rfl
    · rename_i hn
      generalize hβ : Fl.over 1 (Fl.sum (List.zipWith (fun sub (r : ℝ × ℝ) => kijkoTerm _ sub r.1)
        ((List.range table.length).map (subCatalogue mags years table)) table)) = β
      split
      · have htab : table ≠ [] := by
          rintro rfl
          exact hn rfl
        obtain ⟨r0, tb, htb⟩ := List.exists_cons_of_ne_nil htab
        simp only [Except.map]
        cases β with
        | fin b =>
          simp only [BValue.betaToB, Fl.mapFin]
          unfold kijkoRate
          have hc0 : ((table.map fun r => (r.1 + t, r.2)).getD 0 (0, 0)).1 = (table.getD 0 (0, 0)).1 + t := by
            rw [htb]; simp
          have hT : ((table.map fun r => (r.1 + t, r.2)).map fun r => (lastYear last years - r.2) *
              Real.exp (-b * (r.1 - (((table.map fun r => (r.1 + t, r.2)).getD 0 (0, 0)).1)))).sum =
              (table.map fun r => (lastYear last years - r.2) *
              Real.exp (-b * (r.1 - ((table.getD 0 (0, 0)).1)))).sum := by
            rw [hc0, List.map_map]
            congr 1
            apply List.map_congr_left
            intro r _
            simp only [Function.comp_apply]
            congr 3
            ring
          rw [hc0] at hT
          simp only [hc0, hT]
          refine congrArg Except.ok ?_
          refine Prod.ext rfl (Prod.ext rfl (Prod.ext rfl ?_))
          simp only []
          generalize Fl.log10 _ = v
          cases v <;> simp [Fl.add]
          ring
        | nan => rfl
        | pinf => rfl
        | ninf => rfl
      · rfl

theorem amax_perm {l l' : List ℝ} (h : l.Perm l') : amax? l = amax? l' := by
  cases l with
  | nil => rw [List.nil_perm.1 h]
  | cons a l =>
    cases l' with
    | nil => exact absurd h.symm (by simp)
    | cons b l' =>
      unfold amax?
      simp only [Option.some.injEq]
      have hg : ∀ (x : ℝ) (l : List ℝ), (l.foldl max x ∈ x :: l) ∧ ∀ y ∈ x :: l, y ≤ l.foldl max x := by
        intro x l
        induction l generalizing x with
        | nil => simp
        | cons c l ih =>
          obtain ⟨h1, h2⟩ := ih (max x c)
          simp only [List.foldl_cons]
          constructor
          · rcases List.mem_cons.1 h1 with h1 | h1
            · rw [h1]; rcases max_choice x c with h | h <;> simp [h]
            · simp [h1]
          · intro y hy
            have hm := h2 _ (List.mem_cons_self)
            rcases List.mem_cons.1 hy with rfl | hy
            · exact le_trans (le_max_left _ _) hm
            · rcases List.mem_cons.1 hy with rfl | hy
              · exact le_trans (le_max_right _ _) hm
              · exact h2 y (by simp [hy])
      obtain ⟨m1, u1⟩ := hg a l
      obtain ⟨m2, u2⟩ := hg b l'
      exact le_antisymm (u2 _ (h.mem_iff.1 m1)) (u1 _ (h.mem_iff.2 m2))

theorem sub_perm {P P' : List (ℝ × ℝ)} (h : P.Perm P') (table : List (ℝ × ℝ)) (i : ℕ) :
    (subCatalogue (P.map Prod.fst) (P.map Prod.snd) table i).Perm
      (subCatalogue (P'.map Prod.fst) (P'.map Prod.snd) table i) := by
  rw [sub_eq, sub_eq]
  have e : ∀ Q : List (ℝ × ℝ), List.zip (Q.map Prod.fst) (Q.map Prod.snd) = Q := by
    intro Q
    rw [← List.unzip_fst, ← List.unzip_snd]; exact List.zip_unzip Q
  rw [e, e]
  exact (h.filter _).map _

/-- C32: the order of the events does not matter. -/
theorem C32_order {P P' : List (ℝ × ℝ)} (h : P.Perm P') (table : List (ℝ × ℝ)) (last : Option ℝ) (δ : ℝ)
    (param : String) :
    kijkoSmit (P.map Prod.fst) (P.map Prod.snd) table last δ param =
      kijkoSmit (P'.map Prod.fst) (P'.map Prod.snd) table last δ param := by
  have ha : assertions (P.map Prod.fst) (P.map Prod.snd) table δ param =
      assertions (P'.map Prod.fst) (P'.map Prod.snd) table δ param := by
    unfold assertions
    have : P = [] ↔ P' = [] := by
      constructor
      · rintro rfl; exact List.nil_perm.1 h
      · rintro rfl; exact List.perm_nil.1 h
    simp only [List.length_map, List.map_eq_nil_iff, h.length_eq, this]
  have hl : lastYear last (P.map Prod.snd) = lastYear last (P'.map Prod.snd) := by
    unfold lastYear; rw [amax_perm (h.map _)]
  have hlen : (((List.range table.length).map (subCatalogue (P.map Prod.fst) (P.map Prod.snd) table)).map
      List.length) = (((List.range table.length).map (subCatalogue (P'.map Prod.fst) (P'.map Prod.snd) table)).map
      List.length) := by
    rw [List.map_map, List.map_map]
    apply List.map_congr_left
    intro i _
    exact (sub_perm h table i).length_eq
  have ht : ∀ n i, kijkoTerm n (subCatalogue (P.map Prod.fst) (P.map Prod.snd) table i) (mcOf table i) =
      kijkoTerm n (subCatalogue (P'.map Prod.fst) (P'.map Prod.snd) table i) (mcOf table i) := by
    intro n i
    have hp := sub_perm h table i
    unfold kijkoTerm
    have : subCatalogue (P.map Prod.fst) (P.map Prod.snd) table i = [] ↔
        subCatalogue (P'.map Prod.fst) (P'.map Prod.snd) table i = [] := by
      rw [← List.length_eq_zero_iff, ← List.length_eq_zero_iff, hp.length_eq]
    simp only [this, hp.length_eq, hp.sum_eq]
  unfold kijkoSmit
  rw [ha, hl]
  simp only [terms_eq, ht, hlen]

/-! ## The hypotheses are met -/

/-- Two periods, complete above 4 since 1980 and above 5 since 1920. -/
example : KijkoInput [4.5, 6, 4.5] [1990, 1930, 1930] [(4, 1980), (5, 1920)] 0.1 ∧
    EveryPeriod [4.5, 6, 4.5] [1990, 1930, 1930] [(4, 1980), (5, 1920)] ∧
    excesses [4.5, 6, 4.5] [1990, 1930, 1930] [(4, 1980), (5, 1920)] = [0.5, 1] := by
  refine ⟨⟨rfl, by simp, by norm_num, by norm_num, by simp, by norm_num⟩, ?_, ?_⟩
  · intro i hi
    have : i = 0 ∨ i = 1 := by simp at hi; omega
    rcases this with rfl | rfl
    · refine ⟨(4.5, 1990), by simp, ?_, ?_⟩
      · norm_num [rowOf, List.findIdx?_cons]
      · norm_num [mcOf]
    · refine ⟨(6, 1930), by simp, ?_, ?_⟩
      · norm_num [rowOf, List.findIdx?_cons]
      · norm_num [mcOf]
  · norm_num [excesses, excess, rowOf, List.findIdx?_cons, mcOf, List.filterMap]

end
end SeismoStats.Props
