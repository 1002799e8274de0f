/-
Model of Catalog.to_openquake and Catalog.from_openquake (seismostats/catalogs/catalog.py:46-47, 304-434).

An openquake catalogue is its dictionary of columns (`Catalogue.make_from_dict` keeps the dictionary as it is). A time is
an integer number of nanoseconds. Floating point operations on seconds are rounded by a parameter `fl`. The calendar and the
range of times that pandas can store in nanoseconds are parameters. Simplification: in `from_openquake`, the columns for year,
month, day, hour and minute have to hold integers (otherwise TypeError).
-/
import Verif.Model.Catalog
import Mathlib.Algebra.Order.Floor.Ring
import Mathlib.Data.Real.Archimedean

namespace SeismoStats
namespace OpenQuake
open SeismoStats SeismoStats.Catalog
noncomputable section

/-- A cell of a column. -/
inductive Val where
  | int (n : ℤ) | real (x : ℝ) | nan | text (s : String) | time (t : ℤ) | nat

/-- Library functions. -/
structure Env where
  /-- rounding of a floating point result. -/
  fl : ℝ → ℝ
  /-- number of the day with a given date. -/
  days : ℤ → ℤ → ℤ → ℤ
  /-- date of a day. -/
  civil : ℤ → ℤ × ℤ × ℤ
  /-- the date exists and `datetime` accepts its year. -/
  validDate : ℤ → ℤ → ℤ → Bool
  /-- pandas can store the time in nanoseconds. -/
  inBounds : ℤ → Bool
  /-- `uuid.uuid4().hex` for a row. -/
  uuid : ℕ → String

/-- catalog.py:46-47 `_PD_TIME_COLS`. -/
def timeCols : List String := ["year", "month", "day", "hour", "minute", "second", "microsecond"]

/-- Date and time of day. -/
structure Stamp where
  year : ℤ
  month : ℤ
  day : ℤ
  hour : ℤ
  minute : ℤ
  second : ℤ
  micro : ℤ

/-- `time.dt.year` and so on. -/
def stamp (env : Env) (t : ℤ) : Stamp :=
  let d := env.civil (t / 86400000000000)
  let r := t % 86400000000000
  { year := d.1, month := d.2.1, day := d.2.2, hour := r / 3600000000000, minute := r % 3600000000000 / 60000000000,
    second := r % 60000000000 / 1000000000, micro := r % 1000000000 / 1000 }

/-- The time of a stamp. -/
def instant (env : Env) (s : Stamp) : ℤ :=
  env.days s.year s.month s.day * 86400000000000 + s.hour * 3600000000000 + s.minute * 60000000000 + s.second * 1000000000 + s.micro * 1000

/-! ### to_openquake -/

/-- One time unit of a cell of the time column; NaN for NaT; other values have no time units. -/
def unit (g : Stamp → Val) (env : Env) : Val → Py Val
  | .time t => .ok (g (stamp env t))
  | .nat => .ok .nan
  | _ => .error .attributeError

/-- catalog.py:433: `second + microsecond / 1e6`. -/
def floatSecond (env : Env) (s : Stamp) : ℝ := env.fl (s.second + env.fl (s.micro / 1000000))

/-- catalog.py:430-433: the columns for the time. -/
def units (env : Env) : List (String × (Stamp → Val)) :=
  [("year", fun s => .int s.year), ("month", fun s => .int s.month), ("day", fun s => .int s.day), ("hour", fun s => .int s.hour),
    ("minute", fun s => .int s.minute), ("second", fun s => .real (floatSecond env s)), ("microsecond", fun s => .int s.micro)]

/-- catalog.py:430-433: add the columns for the time. -/
def addUnits (env : Env) (time : List Val) : List (String × (Stamp → Val)) → Dict (List Val) → Py (Dict (List Val))
  | [], d => .ok d
  | p :: r, d =>
    match time.mapM (unit p.2 env) with
    | .error e => .error e
    | .ok v => addUnits env time r (d.set p.1 v)

/-- catalog.py:424-427: `eventID`. -/
def addEventId (env : Env) (n : ℕ) (d : Dict (List Val)) : Dict (List Val) :=
  if d.has "eventID" then d else d.set "eventID" ((List.range n).map fun i => .text (env.uuid i))

/-- catalog.py:382-434 `to_openquake`; an empty catalogue gives an empty openquake catalogue. -/
def toOpenquake (env : Env) (f : Frame Val) : Py (Dict (List Val)) :=
  if hasCols ["longitude", "latitude", "depth", "time", "magnitude"] f.cols then
    if f.rows = [] then .ok []
    else addUnits env (f.column "time") (units env) (addEventId env f.rows.length (f.cols.map fun c => (c, f.column c)))
  else .error .attributeError

/-! ### from_openquake -/

/-- catalog.py:367-369: a number of seconds; an integer can not be made of NaN. -/
def secondOf : Val → Py ℝ
  | .int n => .ok n
  | .real x => .ok x
  | .nan => .error .valueError
  | _ => .error .typeError

/-- numpy `round`: half to even. -/
def roundEven (x : ℝ) : ℤ :=
  if x - ⌊x⌋ < 1 / 2 then ⌊x⌋
  else if 1 / 2 < x - ⌊x⌋ then ⌊x⌋ + 1
  else if ⌊x⌋ % 2 = 0 then ⌊x⌋ else ⌊x⌋ + 1

/-- catalog.py:368-369: `((second % 1) * 1e6).round()`. -/
def microOf (env : Env) (x : ℝ) : ℤ := roundEven (env.fl ((x - ⌊x⌋) * 1000000))

/-- `astype(int)`: towards zero. -/
def truncate (x : ℝ) : ℤ := if 0 ≤ x then ⌊x⌋ else ⌈x⌉

/-- An integer. -/
def intOf : Val → Py ℤ
  | .int n => .ok n
  | _ => .error .typeError

/-- `d[k]`. -/
def column (d : Dict (List Val)) (k : String) : Py (List Val) :=
  match d.get? k with
  | some v => .ok v
  | none => .error .keyError

/-- A column of integers. -/
def ints (d : Dict (List Val)) (k : String) : Py (List ℤ) := do (← column d k).mapM intOf

/-- `cat[_PD_TIME_COLS]` as a list of stamps. -/
def stamps (d : Dict (List Val)) : Py (List Stamp) := do
  let y ← ints d "year"
  let mo ← ints d "month"
  let da ← ints d "day"
  let h ← ints d "hour"
  let mi ← ints d "minute"
  let s ← ints d "second"
  let us ← ints d "microsecond"
  pure ((y.zip (mo.zip (da.zip (h.zip (mi.zip (s.zip us)))))).map fun p => ⟨p.1, p.2.1, p.2.2.1, p.2.2.2.1, p.2.2.2.2.1, p.2.2.2.2.2.1, p.2.2.2.2.2.2⟩)

/-- `pd.to_datetime` of one row. -/
def fits (env : Env) (s : Stamp) : Bool := env.validDate s.year s.month s.day && env.inBounds (instant env s)

/-- A column with values that are not numbers. -/
def isObject (l : List Val) : Bool := l.any fun v => match v with
  | .text _ | .time _ | .nat => true
  | _ => false

/-- A column with floating point numbers. -/
def isFloat (l : List Val) : Bool := l.any fun v => match v with
  | .real _ | .nan => true
  | _ => false

/-- The values of a row as pandas passes them to `apply`: all become floats if every column is numeric and one holds floats. -/
def floatRows (d : Dict (List Val)) : Bool := !(d.any fun p => isObject p.2) && d.any fun p => isFloat p.2

/-- catalog.py:354-360 `datetime(year, month, day, hour, minute, second)`. -/
def pyDatetime (env : Env) (float : Bool) (s : Stamp) : Py ℤ :=
  if float then .error .typeError
  else if env.validDate s.year s.month s.day ∧ 0 ≤ s.hour ∧ s.hour < 24 ∧ 0 ≤ s.minute ∧ s.minute < 60 ∧ 0 ≤ s.second ∧ s.second < 60 then
    .ok (instant env { s with micro := 0 })
  else .error .valueError

/-- catalog.py:371-377: all times, or all times without their fraction of a second. -/
def times (env : Env) (float : Bool) (l : List Stamp) : Py (List ℤ) :=
  if l.all (fits env) then .ok (l.map (instant env)) else l.mapM (pyDatetime env float)

/-- catalog.py:378-379. -/
def dropTimes (keep : Bool) (d : Dict (List Val)) : Dict (List Val) :=
  if keep then d else d.filter fun p => !decide (p.1 ∈ timeCols)

/-- catalog.py:366-380: for the columns that are not empty. -/
def convert (env : Env) (keep : Bool) (cat : Dict (List Val)) : Py (Dict (List Val)) := do
  let sec ← (← column cat "second").mapM secondOf
  let cat := cat.set "microsecond" (sec.map fun x => .int (microOf env x))
  let cat := cat.set "second" (sec.map fun x => .int (truncate x))
  let l ← stamps cat
  let t ← times env (floatRows cat) l
  pure (dropTimes keep (cat.set "time" (t.map .time)))

/-- catalog.py:304-380 `from_openquake`; columns of different lengths are a ValueError of pandas. -/
def fromOpenquake (env : Env) (keep : Bool) (data : Dict (List Val)) : Py (Dict (List Val)) :=
  match data.filter fun p => !p.2.isEmpty with
  | [] => .ok []
  | p :: r => if r.all (fun q => decide (q.2.length = p.2.length)) then convert env keep (p :: r) else .error .valueError

end
end OpenQuake
end SeismoStats
