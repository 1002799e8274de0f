/-
C131: missing magnitudes in the frequency magnitude distributions.
-/
import Verif.Model.FmdMissing
import Verif.Model.PlotBasics
import Verif.Proofs.Binning
import Mathlib.Tactic.NormNum
import Mathlib.Data.Rat.Floor

namespace SeismoStats
namespace Props
open FmdMissing
variable {K : Type} [Field K] [LinearOrder K] [IsStrictOrderedRing K] [FloorRing K]

/-- The events with a magnitude, of pairs of magnitude and weight. -/
def measured (l : List (Option K × K)) : List (K × K) := l.filterMap fun e => e.1.map fun m => (m, e.2)

/-- The total weight of the events without a magnitude. -/
def missingWeight (l : List (Option K × K)) : K := ((l.filter fun e => e.1.isNone).map Prod.snd).sum

/-- C131 (limit): a single missing magnitude makes `get_fmd` fail with a ValueError, whatever the other arguments are. -/
theorem C131_limit_fmd (mags : List (Option K)) (h : none ∈ mags) (δ : K) (weights : Option (List K)) (pos : BinPos) :
    getFmdM mags δ weights pos = .error .valueError := by
  unfold getFmdM
  by_cases h1 : δ ≤ 0
  · rw [if_pos h1]
  · rw [if_neg h1]
    unfold binArrM
    by_cases h2 : δ < eps K
    · rw [if_pos h2]; rfl
    · rw [if_neg h2]
      have hn : (none : Option K) ∈ mags.map (Option.map (binTo δ)) := List.mem_map.2 ⟨none, h, rfl⟩
      have hx : ∀ f : List K → Option K, extremeM f (mags.map (Option.map (binTo δ))) = .ok none := by
        intro f
        unfold extremeM
        rw [if_neg (by intro h0; rw [h0] at hn; exact absurd hn List.not_mem_nil), if_pos hn]
      simp only [Except.bind, hx]
      rfl

/-- C131 (limit): likewise `get_cum_fmd` with a bin size other than zero. -/
theorem C131_limit_cum (mags : List (Option K)) (h : none ∈ mags) (δ : K) (hδ : δ ≠ 0) (weights : Option (List K)) (pos : BinPos) :
    getCumFmdM mags δ weights pos = .error .valueError := by
  unfold getCumFmdM
  rw [if_neg hδ, C131_limit_fmd mags h]
  rfl

private theorem cumsumFrom_shift (k : K) (l : List K) : cumsumFrom k l = (cumsumFrom 0 l).map (· + k) := by
  have key : ∀ (a : K), cumsumFrom (a + k) l = (cumsumFrom a l).map (· + k) := by
    induction l with
    | nil => intro a; rfl
    | cons x l ih =>
      intro a
      unfold cumsumFrom
      rw [List.map_cons, ← ih (a + x), add_right_comm]
  have := key 0
  rwa [zero_add] at this

private theorem revCumsum_append (l : List K) (k : K) : revCumsum (l ++ [k]) = (revCumsum l).map (· + k) ++ [k] := by
  unfold revCumsum
  rw [List.reverse_append, List.reverse_singleton, List.singleton_append]
  conv_lhs => unfold cumsumFrom
  rw [zero_add, cumsumFrom_shift, List.reverse_cons, List.map_reverse]

private theorem weight_some (l : List (Option K × K)) (b : K) :
    weightWhere (List.zip (l.map Prod.fst) (l.map Prod.snd)) (fun m => decide (m = some b)) =
      weightWhere (List.zip ((measured l).map Prod.fst) ((measured l).map Prod.snd)) (fun m => decide (m = b)) := by
  unfold weightWhere
  congr 1
  induction l with
  | nil => rfl
  | cons e l ih =>
    obtain ⟨m, w⟩ := e
    cases m with
    | none =>
      have hk : measured ((none, w) :: l) = measured l := rfl
      rw [hk, ← ih]
      rfl
    | some m =>
      have hk : measured ((some m, w) :: l) = (m, w) :: measured l := rfl
      rw [hk]
      simp only [List.map_cons, List.zip_cons_cons]
      by_cases h : m = b
      · rw [List.filter_cons_of_pos (by simpa using h), List.filter_cons_of_pos (by simpa using h), List.map_cons, List.map_cons, ih]
      · rw [List.filter_cons_of_neg (by simpa using h), List.filter_cons_of_neg (by simpa using h), ih]

private theorem weight_none (l : List (Option K × K)) :
    weightWhere (List.zip (l.map Prod.fst) (l.map Prod.snd)) (fun m => decide (m = none)) = missingWeight l := by
  unfold weightWhere missingWeight
  congr 1
  induction l with
  | nil => rfl
  | cons e l ih =>
    obtain ⟨m, w⟩ := e
    simp only [List.map_cons, List.zip_cons_cons]
    cases m with
    | none => rw [List.filter_cons_of_pos (by simp), List.filter_cons_of_pos (by simp), List.map_cons, List.map_cons, ih]
    | some m => rw [List.filter_cons_of_neg (by simp), List.filter_cons_of_neg (by simp), ih]

private theorem measured_fst (l : List (Option K × K)) : (l.map Prod.fst).filterMap id = (measured l).map Prod.fst := by
  induction l with
  | nil => rfl
  | cons e l ih =>
    obtain ⟨m, w⟩ := e
    cases m with
    | none => exact ih
    | some m => exact congrArg (m :: ·) ih

/-- C131 (defect): without binning (bin size zero) missing magnitudes are not rejected: `get_cum_fmd` returns NaN as an additional last magnitude, and every
cumulative count is too large by the total weight of the missing ones. -/
theorem C131_defect_cum_unbinned (l : List (Option K × K)) (h : ∃ e ∈ l, e.1 = none) (pos : BinPos) :
    ∃ bins counts, getCumFmd ((measured l).map Prod.fst) 0 (some ((measured l).map Prod.snd)) pos = .ok (bins, counts, (measured l).map Prod.fst) ∧
      getCumFmdM (l.map Prod.fst) 0 (some (l.map Prod.snd)) pos =
        .ok (bins.map some ++ [none], counts.map (· + missingWeight l) ++ [missingWeight l], l.map Prod.fst) := by
  refine ⟨uniqueSorted ((measured l).map Prod.fst), revCumsum ((uniqueSorted ((measured l).map Prod.fst)).map fun b =>
    weightWhere (List.zip ((measured l).map Prod.fst) ((measured l).map Prod.snd)) fun m => decide (m = b)), ?_, ?_⟩
  rotate_left
  · have hn : (none : Option K) ∈ l.map Prod.fst := by
      obtain ⟨e, he, h⟩ := h
      exact List.mem_map.2 ⟨e, he, h⟩
    unfold getCumFmdM distinctM
    rw [if_pos rfl, Option.getD_some, if_neg (by rw [List.length_map, List.length_map]; exact fun h => h rfl)]
    unfold uniqueM
    rw [if_pos hn, measured_fst, List.map_append, List.map_map, List.map_singleton, weight_none, revCumsum_append]
    congr 4
    congr 1
    refine congrArg revCumsum (List.map_congr_left fun b _ => ?_)
    exact weight_some l b
  · unfold getCumFmd
    rw [if_pos rfl, Option.getD_some]
    dsimp only
    rw [if_neg (by rw [List.length_map, List.length_map]; exact fun h => h rfl)]

/-- C131: without weights every event counts one. -/
theorem C131_unweighted (mags : List (Option K)) (pos : BinPos) :
    getCumFmdM mags 0 none pos = getCumFmdM mags 0 (some (mags.map fun _ => 1)) pos := by
  unfold getCumFmdM
  rw [if_pos rfl, if_pos rfl]
  rfl

private theorem fmd_complete (mags : List K) (δ : K) (weights : Option (List K)) (pos : BinPos) :
    getFmdM (mags.map some) δ weights pos = (getFmd mags δ weights pos).map fun r => (r.1, r.2.1, r.2.2.map some) := by
  have hid : ∀ x : List K, (x.map some).filterMap id = x := by
    intro x; rw [List.filterMap_map]; exact List.filterMap_some
  have hx : ∀ (f : List K → Option K) (x : List K), x ≠ [] → extremeM f (x.map some) = .ok (f x) := by
    intro f x h
    unfold extremeM
    rw [if_neg (by simpa using h), if_neg (by simp), hid]
  unfold getFmdM getFmd
  by_cases h1 : δ ≤ 0
  · rw [if_pos h1, if_pos h1]; rfl
  · rw [if_neg h1, if_neg h1]
    unfold binArrM
    by_cases h2 : δ < eps K
    · unfold binArr
      rw [if_pos h2, if_pos h2]; rfl
    · rw [if_neg h2]
      have hb : binArr mags δ = .ok (mags.map (binTo δ)) := by unfold binArr; rw [if_neg h2]
      have hm : (mags.map some).map (Option.map (binTo δ)) = (mags.map (binTo δ)).map some := by
        rw [List.map_map, List.map_map]; rfl
      rw [hb, hm]
      simp only [bind, Except.bind]
      by_cases h0 : mags = []
      · subst h0; rfl
      · have h0' : mags.map (binTo δ) ≠ [] := by simpa using h0
        rw [hx _ _ h0', hx _ _ h0']
        obtain ⟨lo, e1⟩ := exists_amin h0'
        obtain ⟨hi, e2⟩ := exists_amax h0'
        rw [e1, e2]
        dsimp only
        unfold binsM binArr
        rw [if_neg h2]
        dsimp only
        rw [if_neg h2]
        dsimp only
        unfold countsM
        have hw : weights.getD (((mags.map (binTo δ)).map some).map fun _ => (1 : K)) = weights.getD (mags.map fun _ => 1) := by
          rw [List.map_map, List.map_map]; rfl
        rw [hw, hid, List.length_map]
        by_cases h3 : (weights.getD (mags.map fun _ => 1)).length ≠ (mags.map (binTo δ)).length
        · rw [if_pos h3, if_pos h3]; rfl
        · rw [if_neg h3, if_neg h3]
          cases pos <;> rfl

/-- C131: without missing magnitudes `get_fmd` is that of C09, errors included. -/
theorem C131_fmd_complete (mags : List K) (δ : K) (weights : Option (List K)) (pos : BinPos) :
    getFmdM (mags.map some) δ weights pos = (getFmd mags δ weights pos).map fun r => (r.1, r.2.1, r.2.2.map some) := fmd_complete mags δ weights pos

/-- C131: without missing magnitudes `get_cum_fmd` is that of C10, errors included. -/
theorem C131_cum_complete (mags : List K) (δ : K) (weights : Option (List K)) (pos : BinPos) :
    getCumFmdM (mags.map some) δ weights pos = (getCumFmd mags δ weights pos).map fun r => (r.1.map some, r.2.1, r.2.2.map some) := by
  unfold getCumFmdM getCumFmd
  by_cases h : δ = 0
  · rw [if_pos h, if_pos h]
    unfold distinctM
    have hw : weights.getD ((mags.map some).map fun _ => (1 : K)) = weights.getD (mags.map fun _ => 1) := by
      rw [List.map_map]; rfl
    rw [hw, List.length_map]
    dsimp only
    by_cases h3 : (weights.getD (mags.map fun _ => 1)).length ≠ mags.length
    · rw [if_pos h3, if_pos h3]; rfl
    · rw [if_neg h3, if_neg h3]
      unfold uniqueM
      rw [if_neg (by simp), List.append_nil, List.filterMap_map, List.map_map]
      have hid : mags.filterMap (id ∘ some) = mags := List.filterMap_some
      rw [hid]
      have hc : ∀ (w : List K) (b : K), weightWhere (List.zip (mags.map some) w) (fun m => decide (m = some b)) =
          weightWhere (List.zip mags w) (fun m => decide (m = b)) := by
        intro w b
        unfold weightWhere
        rw [List.zip_map_left, List.filter_map, List.map_map]
        refine congrArg List.sum ?_
        have : (List.zip mags w).filter ((fun q => decide (q.1 = some b)) ∘ Prod.map some id) = (List.zip mags w).filter fun q => decide (q.1 = b) :=
          List.filter_congr fun q _ => by simp
        rw [this]
        rfl
      have hm : (uniqueSorted mags).map ((fun b => weightWhere (List.zip (mags.map some) (weights.getD (mags.map fun _ => 1))) fun m => decide (m = b)) ∘ some) =
          (uniqueSorted mags).map fun b => weightWhere (List.zip mags (weights.getD (mags.map fun _ => 1))) fun m => decide (m = b) :=
        List.map_congr_left fun b _ => hc _ b
      rw [hm]
      rfl
  · rw [if_neg h, if_neg h, fmd_complete]
    cases getFmd mags δ weights pos with
    | error e => rfl
    | ok r => rfl

/-- A case of `C131_defect_cum_unbinned` with two events with and one without magnitude: all counts are too large by one. -/
example : missingWeight [(some (1 : ℚ), 1), (none, 1), (some 2, 1)] = 1 ∧ measured [(some (1 : ℚ), 1), (none, 1), (some 2, 1)] = [(1, 1), (2, 1)] ∧
    ∃ e ∈ [(some (1 : ℚ), (1 : ℚ)), (none, 1), (some 2, 1)], e.1 = none := by
  refine ⟨?_, rfl, (none, 1), by simp, rfl⟩
  simp [missingWeight]

private theorem dropped_length {mags : List (Option ℝ)} (h : none ∈ mags) : (mags.filterMap id).length < mags.length := by
  induction mags with
  | nil => exact absurd h List.not_mem_nil
  | cons m mags ih =>
    cases m with
    | none =>
      change (mags.filterMap id).length < mags.length + 1
      exact Nat.lt_succ_of_le (List.length_filterMap_le _ _)
    | some m => exact Nat.succ_lt_succ (ih ((List.mem_cons.1 h).resolve_left (by simp)))

private theorem fmd_weights {x ws : List ℝ} (h : ws.length ≠ x.length) (δ : ℝ) (pos : BinPos) : getFmd x δ (some ws) pos = .error .valueError := by
  unfold getFmd
  by_cases h1 : δ ≤ 0
  · rw [if_pos h1]
  · rw [if_neg h1]
    unfold binArr
    by_cases h2 : δ < eps ℝ
    · rw [if_pos h2]; rfl
    · rw [if_neg h2]
      simp only [bind, Except.bind]
      cases amin? (x.map (binTo δ)) with
      | none => rfl
      | some lo =>
        cases amax? (x.map (binTo δ)) with
        | none => rfl
        | some hi =>
          dsimp only
          rw [if_neg h2]
          dsimp only
          rw [Option.getD_some, List.length_map, if_pos h]

/-- C131 (defect): the plots drop missing magnitudes but not their weights: with weights, one per event, a single missing magnitude makes `plot_fmd` and
`plot_cum_fmd` fail with a ValueError, whatever the other arguments are. -/
theorem C131_defect_plot_weights (mags : List (Option ℝ)) (h : none ∈ mags) (ws : List ℝ) (hw : ws.length = mags.length) (mc b : Option ℝ) (δ : Option ℝ)
    (pos : BinPos) :
    PlotBasics.plotFmd mags (δ.getD 0) (some ws) pos = .error .valueError ∧ PlotBasics.plotCumFmd mags mc δ (some ws) b pos = .error .valueError := by
  have hne : ws.length ≠ (mags.filterMap id).length := by
    have := dropped_length h
    omega
  refine ⟨?_, ?_⟩
  · unfold PlotBasics.plotFmd
    rw [fmd_weights hne]
    rfl
  · unfold PlotBasics.plotCumFmd getCumFmd
    by_cases h0 : δ.getD 0 = 0
    · rw [if_pos h0]
      dsimp only
      rw [Option.getD_some, if_pos hne]
      rfl
    · rw [if_neg h0, fmd_weights hne]
      rfl

/-- C131: without weights the plots are those of the events with a magnitude. -/
theorem C131_plots (mags : List (Option ℝ)) (mc b : Option ℝ) (δ : Option ℝ) (pos : BinPos) :
    PlotBasics.plotFmd mags (δ.getD 0) none pos = PlotBasics.plotFmd ((mags.filterMap id).map some) (δ.getD 0) none pos ∧
      PlotBasics.plotCumFmd mags mc δ none b pos = PlotBasics.plotCumFmd ((mags.filterMap id).map some) mc δ none b pos := by
  have hid : ((mags.filterMap id).map some).filterMap id = mags.filterMap id := by
    rw [List.filterMap_map]; exact List.filterMap_some
  unfold PlotBasics.plotFmd PlotBasics.plotCumFmd
  rw [hid]
  exact ⟨rfl, rfl⟩

/-- A case of `C131_defect_plot_weights`. -/
example : none ∈ [some (1 : ℝ), none] ∧ [(1 : ℝ), 1].length = [some (1 : ℝ), none].length := by simp

end Props
end SeismoStats
