/-
seismostats/analysis/declustering/dec_gardner_knopoff.py (see Model/Declustering.lean) for catalogues in which times are missing: a time is `none` for NaT.
A difference with NaT is NaT, and comparisons with NaT are false.
-/
import Verif.Model.Declustering

namespace SeismoStats
namespace Decl
open SeismoStats
noncomputable section

/-- A row of the catalog, with its index label; the time may be missing. -/
structure EventM where
  label : ℕ
  time : Option ℝ
  mag : Option ℝ
  lon : Option ℝ
  lat : Option ℝ

instance : Inhabited EventM := ⟨⟨0, some 0, none, none, none⟩⟩

/-- distance_time_windows.py:45-60: windows of a row; none for a NaN magnitude. -/
def winOfM (win : ℝ → Win) (e : EventM) : Win :=
  match e.mag with
  | some m => win m
  | none => ⟨none, none⟩

/-- dec_gardner_knopoff.py:79-81: ascending time with NaT last, then by position (stable sort). -/
def timeLe (t u : Option ℝ) (i j : ℕ) : Prop :=
  match t, u with
  | some t, some u => t < u ∨ (t = u ∧ i ≤ j)
  | some _, none => True
  | none, some _ => False
  | none, none => i ≤ j

/-- dec_gardner_knopoff.py:79-81: descending magnitude (NaN last), ascending time. -/
def rankLeM (cat : List EventM) (i j : ℕ) : Prop :=
  match (cat.getD i default).mag, (cat.getD j default).mag with
  | some a, some b => b < a ∨ (a = b ∧ timeLe (cat.getD i default).time (cat.getD j default).time i j)
  | some _, none => True
  | none, some _ => False
  | none, none => timeLe (cat.getD i default).time (cat.getD j default).time i j

open Classical in
/-- dec_gardner_knopoff.py:79-81: positions in processing order. -/
def orderM (cat : List EventM) : List ℕ := (List.range cat.length).insertionSort (rankLeM cat)

/-- dec_gardner_knopoff.py:91-98: the difference of `f` and `e` within the time window. -/
def inTimeM (fs : ℝ) (tw : Option ℝ) (e f : EventM) : Prop :=
  match e.time, f.time with
  | some t, some u => inTime fs tw (⌊u⌋ - ⌊t⌋)
  | _, _ => False

/-- dec_gardner_knopoff.py:101-109: distance within the space window. -/
def inSpaceM (sw : Option ℝ) (e f : EventM) : Prop :=
  match sw, e.lon, e.lat, f.lon, f.lat with
  | some s, some x, some y, some x', some y' => haversine x y x' y' ≤ s
  | _, _, _, _, _ => False

/-- dec_gardner_knopoff.py:92-110: selected positions, as `sel`. -/
def selM (win : ℝ → Win) (fs : ℝ) (cat : List EventM) (s : State) (e : EventM) (i j : ℕ) : Prop :=
  s.ids j = 0 ∧
  inTimeM fs (winOfM win (cat.getD i default)).time (cat.getD i default) (cat.getD j default) ∧
  inSpaceM (winOfM win ((cat.find? fun f => f.label == i).getD default)).space (cat.getD j default) e

open Classical in
/-- dec_gardner_knopoff.py:112-115. -/
def assignM (win : ℝ → Win) (fs : ℝ) (cat : List EventM) (s : State) (e : EventM) (i : ℕ) : State where
  ids j := if selM win fs cat s e i j then s.next else s.ids j
  next := s.next + 1
  flags j := if j = i then true else if selM win fs cat s e i j then false else s.flags j

/-- dec_gardner_knopoff.py:83-115: the loop body for the row at position `p`. -/
def stepM (win : ℝ → Win) (fs : ℝ) (cat : List EventM) (s : State) (p : ℕ) : Py State :=
  let e := cat.getD p default
  if cat.length ≤ e.label then .error .indexError
  else if s.ids e.label ≠ 0 then .ok s
  else .ok (assignM win fs cat s e e.label)

/-- dec_gardner_knopoff.py:83-115: the loop. -/
def loopM (win : ℝ → Win) (fs : ℝ) (cat : List EventM) : State → List ℕ → Py State
  | s, [] => .ok s
  | s, p :: r =>
    match stepM win fs cat s p with
    | .error e => .error e
    | .ok s' => loopM win fs cat s' r

/-- dec_gardner_knopoff.py:41-118 `_decluster`, with the required columns present and distinct non-negative integer labels. -/
def declusterM (win : ℝ → Win) (fs : ℝ) (cat : List EventM) : Py (List Bool) := do
  let s ← loopM win fs cat ⟨fun _ => 0, 1, fun _ => true⟩ (orderM cat)
  pure ((List.range cat.length).map s.flags)

end
end Decl
end SeismoStats
