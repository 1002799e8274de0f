/-
The conversion of times to calendar years in seismostats/analysis/bvalue/kijko_smit.py:91 and weichert.py:90,
`np.array(times).astype("datetime64[Y]").astype(int) + 1970`, and the two estimators called with times. Times are nanoseconds since 1970-01-01T00:00 (int64 of
numpy's datetime64[ns]; overflow of int64 is not modelled), not NaT.
-/
import Verif.Model.CompletenessMissing

namespace SeismoStats.Completeness
open SeismoStats

/-- numpy core/src/multiarray/datetime.c `days_to_yearsdays`: the year of a day counted from 1970-01-01. -/
def yearOfDay (day : ℤ) : ℤ :=
  let d0 := day - (365 * 30 + 7)
  let year := 400 * (d0 / 146097)
  let days := d0 % 146097
  let year := year +
    (if 366 ≤ days then
      let days1 := (days - 1) % 36524
      100 * ((days - 1) / 36524) +
        (if 365 ≤ days1 then
          let days2 := (days1 + 1) % 1461
          4 * ((days1 + 1) / 1461) + (if 366 ≤ days2 then (days2 - 1) / 365 else 0)
        else 0)
    else 0)
  year + 2000

/-- kijko_smit.py:91, weichert.py:90: the calendar year of a time in nanoseconds. -/
def yearOf (t : ℤ) : ℤ := yearOfDay (t / 86400000000000)

noncomputable section

/-- kijko_smit.py:10-145 `estimate_b_kijko_smit`, from the times on. -/
def kijkoSmitAt (mags : List (Option ℝ)) (times : List ℤ) (table : List (ℝ × ℝ)) (last : Option ℝ) (δ : ℝ) (param : String) :
    Py (Fl ℝ × Fl ℝ × Fl ℝ × Fl ℝ) :=
  kijkoSmitM mags (times.map fun t => (yearOf t : ℝ)) table last δ param

/-- weichert.py:12-215 `estimate_b_weichert`, from the times on. -/
def weichertAt (opt : (ℝ → Fl ℝ) → ℝ) (mags : List (Option ℝ)) (times : List ℤ) (table : List (ℝ × ℝ)) (magMax : ℝ)
    (last : Option ℝ) (δ : ℝ) (param : String) : Py (Fl ℝ × Fl ℝ × Fl ℝ × Fl ℝ × Fl ℝ) :=
  weichertM opt mags (times.map fun t => (yearOf t : ℝ)) table magMax last δ param

end
end SeismoStats.Completeness
