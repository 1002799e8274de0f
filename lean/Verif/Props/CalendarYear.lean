/-
C125: calendar years of the events in the estimators with varying completeness.
-/
import Verif.Model.CalendarYear
import Verif.Props.CompletenessMissing
import Mathlib.Data.Int.Lemmas

namespace SeismoStats
namespace Props
open Completeness

/-- Leap years of the Gregorian calendar. -/
def LeapYear (y : ℤ) : Prop := 4 ∣ y ∧ (¬ 100 ∣ y ∨ 400 ∣ y)

instance (y : ℤ) : Decidable (LeapYear y) := by unfold LeapYear; infer_instance

/-- `J y` is the day, counted from 1970-01-01, on which the year `y` begins. -/
structure YearStarts (J : ℤ → ℤ) : Prop where
  epoch : J 1970 = 0
  next : ∀ y, J (y + 1) = J y + if LeapYear y then 366 else 365

/-- The closed form. -/
def jan1 (y : ℤ) : ℤ := 365 * (y - 1970) + (y - 1) / 4 - (y - 1) / 100 + (y - 1) / 400 - 477

private theorem jan1_next (y : ℤ) : jan1 (y + 1) = jan1 y + if LeapYear y then 366 else 365 := by
  unfold jan1 LeapYear
  split_ifs with h <;> omega

theorem yearStarts_jan1 : YearStarts jan1 := ⟨by decide, jan1_next⟩

private theorem yearStarts_eq {J : ℤ → ℤ} (h : YearStarts J) (y : ℤ) : J y = jan1 y := by
  induction y using Int.inductionOn' (b := 1970) with
  | zero => rw [h.epoch]; decide
  | succ k _ ih => rw [h.next, jan1_next, ih]
  | pred k _ ih =>
    have h1 := h.next (k - 1)
    have h2 := jan1_next (k - 1)
    rw [sub_add_cancel] at h1 h2
    omega

private theorem jan1_lt (y : ℤ) : jan1 y < jan1 (y + 1) := by
  rw [jan1_next]
  split_ifs <;> omega

private theorem jan1_mono {x y : ℤ} (h : x ≤ y) : jan1 x ≤ jan1 y := by
  unfold jan1
  omega

private theorem jan1_form (a c e f : ℤ) (hc : 0 ≤ c ∧ c ≤ 3) (he : 0 ≤ e ∧ e ≤ 24) (hf : 1 ≤ f ∧ f ≤ 4) :
    jan1 (2000 + 400 * a + 100 * c + 4 * e + f) = 10958 + 146097 * a + 36524 * c + 1461 * e + 365 * f := by
  have q4 : (2000 + 400 * a + 100 * c + 4 * e + f - 1) / 4 = 500 + 100 * a + 25 * c + e := by omega
  have q100 : (2000 + 400 * a + 100 * c + 4 * e + f - 1) / 100 = 20 + 4 * a + c := by omega
  have q400 : (2000 + 400 * a + 100 * c + 4 * e + f - 1) / 400 = 5 + a := by omega
  unfold jan1
  rw [q4, q100, q400]
  ring

private theorem yearOfDay_bounds (d : ℤ) : jan1 (yearOfDay d) ≤ d ∧ d < jan1 (yearOfDay d + 1) := by
  unfold yearOfDay
  dsimp only
  obtain ⟨a, ha⟩ : ∃ a, a = (d - (365 * 30 + 7)) / 146097 := ⟨_, rfl⟩
  obtain ⟨R, hR⟩ : ∃ R, R = (d - (365 * 30 + 7)) % 146097 := ⟨_, rfl⟩
  rw [← ha, ← hR]
  have h0 : d = 10957 + 146097 * a + R ∧ 0 ≤ R ∧ R < 146097 := by omega
  clear ha hR
  by_cases h1 : 366 ≤ R
  · rw [if_pos h1]
    obtain ⟨c, hc⟩ : ∃ c, c = (R - 1) / 36524 := ⟨_, rfl⟩
    obtain ⟨S, hS⟩ : ∃ S, S = (R - 1) % 36524 := ⟨_, rfl⟩
    rw [← hc, ← hS]
    have h2 : R = 1 + 36524 * c + S ∧ 0 ≤ S ∧ S < 36524 ∧ 0 ≤ c ∧ c ≤ 3 := by omega
    clear hc hS
    by_cases h3 : 365 ≤ S
    · rw [if_pos h3]
      obtain ⟨e, he⟩ : ∃ e, e = (S + 1) / 1461 := ⟨_, rfl⟩
      obtain ⟨T, hT⟩ : ∃ T, T = (S + 1) % 1461 := ⟨_, rfl⟩
      rw [← he, ← hT]
      have h4 : S + 1 = 1461 * e + T ∧ 0 ≤ T ∧ T < 1461 ∧ 0 ≤ e ∧ e ≤ 24 := by omega
      clear he hT
      by_cases h5 : 366 ≤ T
      · rw [if_pos h5]
        obtain ⟨f, hf⟩ : ∃ f, f = (T - 1) / 365 := ⟨_, rfl⟩
        have h6 : 365 * f ≤ T - 1 ∧ T - 1 < 365 * f + 365 ∧ 1 ≤ f ∧ f ≤ 3 ∨ f = 4 ∧ T = 1461 := by omega
        rw [← hf]
        have h7 : 365 * f ≤ T - 1 ∧ T - 1 < 365 * f + 365 ∧ 1 ≤ f ∧ f ≤ 3 := by omega
        have e1 := jan1_form a c e f ⟨by omega, by omega⟩ ⟨by omega, by omega⟩ ⟨by omega, by omega⟩
        have e2 := jan1_form a c e (f + 1) ⟨by omega, by omega⟩ ⟨by omega, by omega⟩ ⟨by omega, by omega⟩
        rw [show 400 * a + (100 * c + (4 * e + f)) + 2000 = 2000 + 400 * a + 100 * c + 4 * e + f by ring, e1,
          show 2000 + 400 * a + 100 * c + 4 * e + f + 1 = 2000 + 400 * a + 100 * c + 4 * e + (f + 1) by ring, e2]
        constructor <;> omega
      · rw [if_neg h5]
        have e1 := jan1_form a c (e - 1) 4 ⟨by omega, by omega⟩ ⟨by omega, by omega⟩ ⟨by omega, by omega⟩
        have e2 := jan1_form a c e 1 ⟨by omega, by omega⟩ ⟨by omega, by omega⟩ ⟨by omega, by omega⟩
        rw [show 400 * a + (100 * c + (4 * e + 0)) + 2000 + 1 = 2000 + 400 * a + 100 * c + 4 * e + 1 by ring, e2,
          show 400 * a + (100 * c + (4 * e + 0)) + 2000 = 2000 + 400 * a + 100 * c + 4 * (e - 1) + 4 by ring, e1]
        constructor <;> omega
    · rw [if_neg h3]
      have e1 := jan1_form a (c - 1) 24 4 ⟨by omega, by omega⟩ ⟨by omega, by omega⟩ ⟨by omega, by omega⟩
      have e2 := jan1_form a c 0 1 ⟨by omega, by omega⟩ ⟨by omega, by omega⟩ ⟨by omega, by omega⟩
      rw [show 400 * a + (100 * c + 0) + 2000 + 1 = 2000 + 400 * a + 100 * c + 4 * 0 + 1 by ring, e2,
        show 400 * a + (100 * c + 0) + 2000 = 2000 + 400 * a + 100 * (c - 1) + 4 * 24 + 4 by ring, e1]
      constructor <;> omega
  · rw [if_neg h1]
    have e1 := jan1_form (a - 1) 3 24 4 ⟨by omega, by omega⟩ ⟨by omega, by omega⟩ ⟨by omega, by omega⟩
    have e2 := jan1_form a 0 0 1 ⟨by omega, by omega⟩ ⟨by omega, by omega⟩ ⟨by omega, by omega⟩
    rw [show 400 * a + 0 + 2000 + 1 = 2000 + 400 * a + 100 * 0 + 4 * 0 + 1 by ring, e2,
      show 400 * a + 0 + 2000 = 2000 + 400 * (a - 1) + 100 * 3 + 4 * 24 + 4 by ring, e1]
    constructor <;> omega

private theorem le_year_day (d y : ℤ) : y ≤ yearOfDay d ↔ jan1 y ≤ d := by
  obtain ⟨h1, h2⟩ := yearOfDay_bounds d
  constructor
  · intro h
    exact (jan1_mono h).trans h1
  · intro h
    by_contra hc
    have := jan1_mono (show yearOfDay d + 1 ≤ y by omega)
    omega

/-- Nanoseconds of a day. -/
abbrev dayNs : ℤ := 24 * 60 * 60 * 10 ^ 9

private theorem le_yearOf {J : ℤ → ℤ} (hJ : YearStarts J) (t y : ℤ) : y ≤ yearOf t ↔ J y * dayNs ≤ t := by
  unfold yearOf dayNs
  rw [le_year_day, yearStarts_eq hJ]
  norm_num
  omega

/-- C125: the year of an event is the calendar year in which its time lies, before and after 1970: the year begins at or before the event and the next one after it. -/
theorem C125_year {J : ℤ → ℤ} (hJ : YearStarts J) (t y : ℤ) : yearOf t = y ↔ J y * dayNs ≤ t ∧ t < J (y + 1) * dayNs := by
  rw [← le_yearOf hJ, ← not_le, ← le_yearOf hJ]
  omega

private theorem le_yearOf_real {J : ℤ → ℤ} (hJ : YearStarts J) (t : ℤ) (s : ℝ) : s ≤ (yearOf t : ℝ) ↔ J ⌈s⌉ * dayNs ≤ t := by
  rw [← Int.ceil_le, le_yearOf hJ]

/-- Number of rows of the completeness table whose year, rounded up to a whole year, begins after the time. -/
noncomputable def rowsAfter (J : ℤ → ℤ) (table : List (ℝ × ℝ)) (t : ℤ) : ℕ := table.countP fun r => decide (t < J ⌈r.2⌉ * dayNs)

/-- C125, Kijko and Smit: an event is used for the row `i` of the completeness table if exactly `i` rows begin after its time (to the nanosecond, at midnight of 1
January; fractional years count from the next 1 January), and its magnitude is above that of the row. -/
theorem C125_kijko_smit {J : ℤ → ℤ} (hJ : YearStarts J) (mags : List ℝ) (times : List ℤ) (table : List (ℝ × ℝ)) (i : ℕ) :
    subCatalogue mags (times.map fun t => (yearOf t : ℝ)) table i =
      (List.zip mags times).filterMap fun p => if rowsAfter J table p.2 = i ∧ (table.getD i (0, 0)).1 < p.1 then some p.1 else none := by
  have hins : ∀ t : ℤ, insertion table (yearOf t : ℝ) = rowsAfter J table t := by
    intro t
    unfold insertion rowsAfter
    apply List.countP_congr
    intro r _
    simp only [decide_eq_true_eq, neg_lt_neg_iff]
    rw [← not_le, le_yearOf_real hJ, not_le]
  unfold subCatalogue mask
  induction mags generalizing times with
  | nil => rfl
  | cons m mags ih =>
    cases times with
    | nil => rfl
    | cons t times =>
      have ih' := ih times
      simp only [List.map_cons, List.zipWith_cons_cons, List.zip_cons_cons]
      by_cases h : rowsAfter J table t = i ∧ (table.getD i (0, 0)).1 < m
      · rw [List.filterMap_cons_some (b := m), List.filterMap_cons_some (b := m), ih']
        · exact if_pos h
        · refine if_pos ?_
          rw [hins, Bool.and_eq_true, decide_eq_true_eq, decide_eq_true_eq]
          exact h
      · rw [List.filterMap_cons_none, List.filterMap_cons_none, ih']
        · exact if_neg h
        · refine if_neg ?_
          rw [hins, Bool.and_eq_true, decide_eq_true_eq, decide_eq_true_eq]
          exact h

/-- C125, Weichert: an event is complete if its completeness year, rounded up to a whole year, begins at or before its time. -/
theorem C125_weichert {J : ℤ → ℤ} (hJ : YearStarts J) (mags : List ℝ) (times : List ℤ) (table : List (ℝ × ℝ)) :
    complete mags (times.map fun t => (yearOf t : ℝ)) table =
      (List.zip mags times).filterMap fun p =>
        if 0 < startYear table p.1 ∧ J ⌈startYear table p.1⌉ * dayNs ≤ p.2 then some (p.1, startYear table p.1) else none := by
  unfold complete
  rw [List.zip_map_right, List.filterMap_map]
  apply List.filterMap_congr
  intro p _
  simp only [Function.comp, Prod.map, id, sub_nonneg, le_yearOf_real hJ]

/-- C125, limit: with a fractional completeness year every event of that year is left out, also those after the fraction of the year: with 1990.1 an event on 31
December 1990 is not complete. -/
theorem C125_limit_fraction (m : ℝ) (hm : 3 < m) : complete [m] ([jan1 1991 * dayNs - 1].map fun t => (yearOf t : ℝ)) [(3, 1990.1)] = [] := by
  rw [C125_weichert yearStarts_jan1]
  have hs : startYear [(3, 1990.1)] m = 1990.1 := by
    unfold startYear
    rw [List.countP_cons_of_pos (by simpa using hm)]
    rfl
  rw [List.zip_cons_cons, List.filterMap_cons_none]
  · rfl
  · dsimp only
    rw [hs]
    refine if_neg ?_
    have : ⌈(1990.1 : ℝ)⌉ = 1991 := by
      rw [Int.ceil_eq_iff]
      norm_num
    rw [this]
    intro h
    have h2 := h.2
    omega

/-- The first nanosecond of 2000, a leap year, and the one before it. -/
example : yearOf (10957 * dayNs) = 2000 ∧ yearOf (10957 * dayNs - 1) = 1999 ∧ yearOf (-1) = 1969 := by
  refine ⟨(C125_year yearStarts_jan1 _ _).2 ?_, (C125_year yearStarts_jan1 _ _).2 ?_, (C125_year yearStarts_jan1 _ _).2 ?_⟩ <;> constructor <;> decide

/-- `kijkoSmitAt` and `weichertAt` ignore missing magnitudes as in C124. -/
theorem C125_missing {mags : List (Option ℝ)} {times : List ℤ} (hlen : mags.length = times.length)
    (hne : known mags (times.map fun t => (yearOf t : ℝ)) ≠ []) (table : List (ℝ × ℝ)) (last : Option ℝ)
    (hly : lastYear last (times.map fun t => (yearOf t : ℝ)) ≠ 0) (δ : ℝ) (param : String) :
    kijkoSmitAt mags times table last δ param =
      kijkoSmit ((known mags (times.map fun t => (yearOf t : ℝ))).map Prod.fst) ((known mags (times.map fun t => (yearOf t : ℝ))).map Prod.snd) table
        (some (lastYear last (times.map fun t => (yearOf t : ℝ)))) δ param :=
  C124_kijko_smit (by rw [List.length_map]; exact hlen) hne table last hly δ param

end Props
end SeismoStats
