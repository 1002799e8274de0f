/-
C130: missing magnitudes in the plot of cumulative counts.
-/
import Verif.Model.CumCountMissing
import Verif.Proofs.Binning
import Mathlib.Tactic.NormNum

namespace SeismoStats
namespace Props
open PlotBasics
open Classical

/-- An event: time, magnitude (`none` if missing) and weight. -/
abbrev CountEvent := ℝ × Option ℝ × ℝ

/-- The events whose magnitude is known. -/
def knownEvents (l : List CountEvent) : List (ℝ × ℝ × ℝ) := l.filterMap fun e => e.2.1.map fun m => (e.1, m, e.2.2)

private theorem less_fold (a : ℝ) (r : List (Option ℝ)) :
    r.foldl (fun m x => if lessM x m then x else m) (some a) = some ((r.filterMap id).foldl min a) := by
  induction r generalizing a with
  | nil => rfl
  | cons x r ih =>
    rw [List.foldl_cons]
    cases x with
    | none => exact ih a
    | some x =>
      change _ = some ((r.filterMap id).foldl min (min a x))
      by_cases h : x < a
      · rw [if_pos (by simpa [lessM] using h), ih, min_eq_right h.le]
      · rw [if_neg (by simpa [lessM] using h), ih, min_eq_left (not_lt.1 h)]

private theorem less_none (r : List (Option ℝ)) : r.foldl (fun m x => if lessM x m then x else m) none = none := by
  induction r with
  | nil => rfl
  | cons x r ih => rw [List.foldl_cons, if_neg (by cases x <;> simp [lessM]), ih]

private theorem selectedM_known (l : List CountEvent) (mc δ : ℝ) :
    selectedM (l.map (·.1)) (l.map (·.2.1)) (l.map (·.2.2)) (some mc) δ =
      selected ((knownEvents l).map (·.1)) ((knownEvents l).map (·.2.1)) ((knownEvents l).map (·.2.2)) mc δ := by
  unfold selectedM selected
  congr 1
  induction l with
  | nil => rfl
  | cons e l ih =>
    obtain ⟨t, m, w⟩ := e
    cases m with
    | none =>
      have hk : knownEvents ((t, none, w) :: l) = knownEvents l := rfl
      rw [hk, ← ih]
      rfl
    | some m =>
      have hk : knownEvents ((t, some m, w) :: l) = (t, m, w) :: knownEvents l := rfl
      rw [hk]
      simp only [List.map_cons, List.zip_cons_cons]
      by_cases h : mc - δ / 2 ≤ m
      · rw [List.filter_cons_of_pos (by simpa [reaches] using h), List.filter_cons_of_pos (by simpa using h), List.map_cons, List.map_cons, ih]
      · rw [List.filter_cons_of_neg (by simpa [reaches] using h), List.filter_cons_of_neg (by simpa using h), ih]

private theorem cumLineM_known (l : List CountEvent) (first last δ : ℝ) (normalize : Bool) (mc : ℝ) :
    cumLineM (l.map (·.1)) (l.map (·.2.1)) (l.map (·.2.2)) first last δ normalize (some mc) =
      cumLine ((knownEvents l).map (·.1)) ((knownEvents l).map (·.2.1)) ((knownEvents l).map (·.2.2)) first last δ normalize mc := by
  unfold cumLineM cumLine
  rw [selectedM_known]
  simp only [List.length_map, ne_eq, not_true_eq_false, or_self, if_false]

private theorem mapM_some (f : Option ℝ → Py (Option (List (ℝ × ℝ)))) (g : ℝ → Py (Option (List (ℝ × ℝ)))) (h : ∀ m, f (some m) = g m) (l : List ℝ) :
    (l.map some).mapM f = l.mapM g := by
  induction l with
  | nil => rfl
  | cons a l ih => rw [List.map_cons, List.mapM_cons, List.mapM_cons, h, ih]

/-- C130: with completeness magnitudes given, the lines are those of the events with magnitude; the first and the last point of every line are at the first
and last time of all events. -/
theorem C130_given (l : List CountEvent) (hl : l ≠ []) (mcs : List ℝ) (δ : Option ℝ) (normalize : Bool) :
    ∃ first last, IsLeast {t | t ∈ l.map (·.1)} first ∧ IsGreatest {t | t ∈ l.map (·.1)} last ∧
      plotCumCountM (l.map (·.1)) (l.map (·.2.1)) (some mcs) δ (some (l.map (·.2.2))) normalize none =
        mcs.mapM (cumLine ((knownEvents l).map (·.1)) ((knownEvents l).map (·.2.1)) ((knownEvents l).map (·.2.2)) first last (δ.getD 0) normalize) := by
  obtain ⟨lo, h1⟩ := exists_amin (l := l.map (·.1)) (by simpa using hl)
  obtain ⟨hi, h2⟩ := exists_amax (l := l.map (·.1)) (by simpa using hl)
  refine ⟨lo, hi, (amin?_eq_some_iff _ _).1 h1, (amax?_eq_some_iff _ _).1 h2, ?_⟩
  unfold plotCumCountM
  rw [h1, h2]
  exact mapM_some _ _ (cumLineM_known l lo hi (δ.getD 0) normalize) mcs

private noncomputable def usualMcs (mags : List ℝ) : Option (List ℝ) → Py (List ℝ)
  | some l => .ok l
  | none => match amin? mags with
    | some m => .ok [m]
    | none => .error .valueError

private theorem cumPlot_eq (times mags : List ℝ) (ws mcs : Option (List ℝ)) (δ : Option ℝ) (normalize : Bool) (colors : Option ℕ) :
    plotCumCount times mags mcs δ ws normalize colors =
      match amin? times, amax? times with
      | some first, some last =>
        (usualMcs mags mcs).bind fun ms => (checkColors colors ms.length).bind fun _ =>
          ms.mapM (cumLine times mags (ws.getD (times.map fun _ => 1)) first last (δ.getD 0) normalize)
      | _, _ => .error .valueError := by
  unfold plotCumCount usualMcs checkColors
  cases amin? times with
  | none => rfl
  | some lo =>
    cases amax? times with
    | none => rfl
    | some hi =>
      cases mcs with
      | some l =>
        cases colors with
        | none => rfl
        | some n =>
          simp only [bind, Except.bind]
          by_cases h : n ≠ l.length
          · rw [if_pos h, if_pos h]
          · rw [if_neg h, if_neg h]
      | none =>
        cases amin? mags with
        | none => rfl
        | some m =>
          cases colors with
          | none => rfl
          | some n =>
            simp only [bind, Except.bind]
            by_cases h : n ≠ [m].length
            · rw [if_pos h, if_pos h]
            · rw [if_neg h, if_neg h]

private theorem lineMcs_known (l : List CountEvent) (mcs : Option (List ℝ)) (h : mcs = none → ∃ e r m, l = e :: r ∧ e.2.1 = some m) :
    ∃ ms, lineMcs (l.map (·.2.1)) mcs = .ok (ms.map some) ∧ usualMcs ((knownEvents l).map (·.2.1)) mcs = .ok ms := by
  cases mcs with
  | some ms => exact ⟨ms, rfl, rfl⟩
  | none =>
    obtain ⟨e, r, m, rfl, he⟩ := h rfl
    obtain ⟨t, m', w⟩ := e
    change m' = some m at he
    subst he
    have hk : (knownEvents r).map (·.2.1) = (r.map (·.2.1)).filterMap id := by
      clear h
      induction r with
      | nil => rfl
      | cons e r ih =>
        obtain ⟨t, m, w⟩ := e
        cases m with
        | none => exact ih
        | some m => exact congrArg (m :: ·) ih
    refine ⟨[((r.map (·.2.1)).filterMap id).foldl min m], ?_, ?_⟩
    · unfold lineMcs pyMinM
      rw [List.map_cons]
      dsimp only
      rw [less_fold]
      rfl
    · rw [← hk]
      rfl

/-- C130: if the events with magnitude span the time of all events, the plot is that of the events with magnitude alone, with all arguments; with the default
completeness magnitude as long as the first event has a magnitude. -/
theorem C130_same_span (l : List CountEvent) (mcs : Option (List ℝ)) (δ : Option ℝ) (normalize : Bool) (colors : Option ℕ)
    (h1 : ∀ t, IsLeast {t | t ∈ l.map (·.1)} t ↔ IsLeast {t | t ∈ (knownEvents l).map (·.1)} t)
    (h2 : ∀ t, IsGreatest {t | t ∈ l.map (·.1)} t ↔ IsGreatest {t | t ∈ (knownEvents l).map (·.1)} t)
    (hm : mcs = none → ∃ e r m, l = e :: r ∧ e.2.1 = some m) :
    plotCumCountM (l.map (·.1)) (l.map (·.2.1)) mcs δ (some (l.map (·.2.2))) normalize colors =
      plotCumCount ((knownEvents l).map (·.1)) ((knownEvents l).map (·.2.1)) mcs δ (some ((knownEvents l).map (·.2.2))) normalize colors := by
  have e1 : amin? (l.map (·.1)) = amin? ((knownEvents l).map (·.1)) := by
    ext t; rw [amin?_eq_some_iff, amin?_eq_some_iff]; exact h1 t
  have e2 : amax? (l.map (·.1)) = amax? ((knownEvents l).map (·.1)) := by
    ext t; rw [amax?_eq_some_iff, amax?_eq_some_iff]; exact h2 t
  obtain ⟨ms, k1, k2⟩ := lineMcs_known l mcs hm
  rw [cumPlot_eq]
  unfold plotCumCountM
  rw [e1, e2, k1, k2]
  cases amin? ((knownEvents l).map (·.1)) with
  | none => rfl
  | some lo =>
    cases amax? ((knownEvents l).map (·.1)) with
    | none => rfl
    | some hi =>
      simp only [Except.bind, List.length_map]
      cases checkColors colors ms.length with
      | error e => rfl
      | ok u => exact mapM_some _ _ (cumLineM_known l lo hi (δ.getD 0) normalize) ms

/-- The hypotheses of `C130_same_span` are met by three events of which the second has no magnitude, with the default completeness magnitude. -/
example : ∃ l : List CountEvent, (∃ e ∈ l, e.2.1 = none) ∧ knownEvents l = [(0, 1, 1), (2, 3, 1)] ∧
    (∀ t, IsLeast {t | t ∈ l.map (·.1)} t ↔ IsLeast {t | t ∈ (knownEvents l).map (·.1)} t) ∧
    (∀ t, IsGreatest {t | t ∈ l.map (·.1)} t ↔ IsGreatest {t | t ∈ (knownEvents l).map (·.1)} t) ∧ ∃ e r m, l = e :: r ∧ e.2.1 = some m := by
  refine ⟨[(0, some 1, 1), (1, none, 1), (2, some 3, 1)], by simp, rfl, ?_, ?_, (0, some 1, 1), _, 1, rfl, rfl⟩
  · intro t
    rw [← amin?_eq_some_iff, ← amin?_eq_some_iff]
    change some (min (min (0 : ℝ) 1) 2) = some t ↔ some (min (0 : ℝ) 2) = some t
    norm_num
  · intro t
    rw [← amax?_eq_some_iff, ← amax?_eq_some_iff]
    change some (max (max (0 : ℝ) 1) 2) = some t ↔ some (max (0 : ℝ) 2) = some t
    norm_num

/-- C130: without weights every event counts one. -/
theorem C130_unweighted (times : List ℝ) (mags : List (Option ℝ)) (mcs : Option (List ℝ)) (δ : Option ℝ) (normalize : Bool) (colors : Option ℕ) :
    plotCumCountM times mags mcs δ none normalize colors = plotCumCountM times mags mcs δ (some (times.map fun _ => 1)) normalize colors := rfl

/-- C130 (defect): with the default completeness magnitude nothing is drawn if the magnitude of the first event is missing, whatever the others are. -/
theorem C130_defect_first (e : CountEvent) (l : List CountEvent) (h : e.2.1 = none) (δ : Option ℝ) (normalize : Bool) :
    plotCumCountM ((e :: l).map (·.1)) ((e :: l).map (·.2.1)) none δ (some ((e :: l).map (·.2.2))) normalize none = .ok [none] := by
  have hsel : ∀ (k : List CountEvent) (d : ℝ), selectedM (k.map (·.1)) (k.map (·.2.1)) (k.map (·.2.2)) none d = [] := by
    intro k d
    unfold selectedM
    rw [List.filter_eq_nil_iff.2 (by intro p _; simp [reaches])]
    rfl
  have hm : lineMcs ((e :: l).map (·.2.1)) none = .ok [none] := by
    unfold lineMcs pyMinM
    rw [List.map_cons, h]
    change (Except.ok (List.foldl (fun m x => if lessM x m then x else m) none (l.map (·.2.1)))).bind _ = _
    rw [less_none]
    rfl
  obtain ⟨lo, h1⟩ := exists_amin (l := (e :: l).map (·.1)) (by simp)
  obtain ⟨hi, h2⟩ := exists_amax (l := (e :: l).map (·.1)) (by simp)
  unfold plotCumCountM
  rw [h1, h2, hm]
  simp only [Except.bind, checkColors, List.mapM_cons, List.mapM_nil, Option.getD_some]
  have hc : cumLineM ((e :: l).map (·.1)) ((e :: l).map (·.2.1)) ((e :: l).map (·.2.2)) lo hi (δ.getD 0) normalize none = .ok none := by
    unfold cumLineM
    rw [hsel]
    simp only [List.length_map, ne_eq, not_true_eq_false, or_self, if_false]
    rw [if_neg (by simp [cumulative, cumsumFrom])]
  rw [hc]
  rfl

/-- C130: without missing magnitudes the plot is that of C65, errors included. -/
theorem C130_complete (times mags : List ℝ) (mcs ws : Option (List ℝ)) (δ : Option ℝ) (normalize : Bool) (colors : Option ℕ) :
    plotCumCountM times (mags.map some) mcs δ ws normalize colors = plotCumCount times mags mcs δ ws normalize colors := by
  have hsel : ∀ (w : List ℝ) (mc d : ℝ), selectedM times (mags.map some) w (some mc) d = selected times mags w mc d := by
    intro w mc d
    unfold selectedM selected
    congr 1
    rw [List.zip_map_right, List.filter_map, List.map_map]
    rfl
  have hline : ∀ (w : List ℝ) (a b d : ℝ) (mc : ℝ), cumLineM times (mags.map some) w a b d normalize (some mc) = cumLine times mags w a b d normalize mc := by
    intro w a b d mc
    unfold cumLineM cumLine
    rw [hsel, List.length_map]
  rw [cumPlot_eq]
  unfold plotCumCountM
  cases amin? times with
  | none => rfl
  | some lo =>
    cases amax? times with
    | none => rfl
    | some hi =>
      dsimp only
      cases mcs with
      | some l =>
        simp only [lineMcs, usualMcs, Except.bind, List.length_map]
        cases checkColors colors l.length with
        | error e => rfl
        | ok u => exact mapM_some _ _ (hline _ lo hi _) l
      | none =>
        cases mags with
        | nil => rfl
        | cons m r =>
          have hk : lineMcs ((m :: r).map some) none = .ok ([r.foldl min m].map some) := by
            unfold lineMcs pyMinM
            rw [List.map_cons]
            dsimp only
            rw [less_fold, List.filterMap_map]
            simp [Except.bind]
          rw [hk]
          simp only [usualMcs, amin?, Except.bind, List.length_map]
          cases checkColors colors [r.foldl min m].length with
          | error e => rfl
          | ok u => exact mapM_some _ _ (hline _ lo hi _) _

end Props
end SeismoStats
