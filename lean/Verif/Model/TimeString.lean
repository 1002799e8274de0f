/-
Model of the parsing of times: utils/__init__.py:111-150 and the time column of the constructor, catalogs/catalog.py:186-192.

Strings are lists of characters. `datetime.strptime` and `pd.to_datetime(..., format='ISO8601')` are parameters. A time is an
integer number of nanoseconds.
-/
import Verif.Model.Base
import Mathlib.Data.List.SplitOn

namespace SeismoStats
namespace TimeString
open SeismoStats

/-- A cell of a time column: missing, a datetime (or Timestamp, which is one), or a string. -/
inductive Cell where
  | na | datetime (t : ℤ) | str (s : List Char)

/-- `s.split(c)[0]`. -/
def before (c : Char) (s : List Char) : List Char := s.takeWhile fun x => !decide (x = c)

/-- `y.zfill(4)`. -/
def zfill (y : List Char) : List Char :=
  match y with
  | '+' :: r => '+' :: (List.replicate (4 - y.length) '0' ++ r)
  | '-' :: r => '-' :: (List.replicate (4 - y.length) '0' ++ r)
  | y => List.replicate (4 - y.length) '0' ++ y

/-- utils/__init__.py:116-117. -/
def padHead (parts : List (List Char)) : List (List Char) :=
  match parts with
  | [] => []
  | y :: r => (if y.length < 4 then zfill y else y) :: r

/-- utils/__init__.py:111-120 `_pad_year`; a string with two or more 'T' can not be unpacked. -/
def padYear (s : List Char) : Py (List Char) :=
  if 'T' ∈ s then
    match s.splitOn 'T' with
    | [d, t] => .ok (List.intercalate ['-'] (padHead (d.splitOn '-')) ++ 'T' :: t)
    | _ => .error .valueError
  else .ok s

/-- Library functions. -/
structure Env where
  /-- `datetime.strptime(s, '%Y-%m-%dT%H:%M:%S')`. -/
  strptime : List Char → Py ℤ
  /-- `pd.to_datetime(column, format='ISO8601')`: for each cell the time in UTC and the offset, or NaT. -/
  iso : List Cell → Py (List (Option (ℤ × ℤ)))

/-- utils/__init__.py:123-150 `_robust_parse_datetime`. -/
def robustParse (env : Env) : Cell → Py (Option ℤ)
  | .na => .ok none
  | .datetime t => .ok (some t)
  | .str s => do
    let p ← padYear (before '.' (before 'Z' s))
    let t ← env.strptime p
    pure (some t)

/-- catalog.py:188-192: the time column; `tz_localize(None)` keeps the local time. -/
def timeColumn (env : Env) (col : List Cell) : Py (List (Option ℤ)) :=
  match env.iso col with
  | .ok l => .ok (l.map fun o => o.map fun p => p.1 + p.2)
  | .error .valueError => col.mapM (robustParse env)
  | .error e => .error e

end TimeString
end SeismoStats
