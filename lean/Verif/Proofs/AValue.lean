/-
Lemmas on the a-value estimators.
-/
import Verif.Model.AValue
import Verif.Props.BPositiveOrder

namespace SeismoStats.AValue
open SeismoStats
open SeismoStats.BValue (checkBinning selIdx usedIdx timeOrder magAt nums take' findNextLarger timeOrder_perm
  gather_ok gather_eq take'_map argsort_lt mask_map zip_tail_snd diff_map magAt_used mem_timeOrder
  map_getD_range)
open SeismoStats.Props (magOf growing ranksOf ranksOf_spec firstLarger_lt cutoff NextLarger TimeOrdered
  timeOrdered timeOrder_nil)
set_option linter.unusedSimpArgs false
open Classical
noncomputable section

/-- The arguments as those of a b-value estimator with times. -/
def toB (x : Args) : BValue.Args :=
  { mags := x.mags, mc := x.mc, δ := x.δ, times := some x.times, dmc := x.dmc }

/-- Time of event `i`. -/
def tAt (x : Args) (i : ℕ) : ℝ := x.times.getD i 0

/-- The warnings of the filter stage. -/
def filtWarn (warn : Bool) (x : Args) : List Warn :=
  sanityWarn warn x.mags x.mc x.δ ++
    (if (usedIdx (toB x)).length = 0 then (if warn then [.noMagnitudes] else []) else [])

/-- The object after filtering. -/
def filt (s : State) (warn : Bool) (x : Args) (t : Option (List ℝ)) : State :=
  { s with
    mags := some ((usedIdx (toB x)).map fun i => some (magOf (toB x) i))
    mc := some x.mc
    δ := some x.δ
    scaling := x.scaling
    mref := x.mref
    b := x.b
    idx := some (usedIdx (toB x))
    times := t
    warned := s.warned ++ filtWarn warn x }

theorem used_mags (x : Args) : ((usedIdx (toB x)).map fun i => x.mags.getD i none) =
    (usedIdx (toB x)).map fun i => some (magOf (toB x) i) := by
  apply List.map_congr_left
  intro i hi
  exact magAt_used (a := toB x) hi

theorem base_classic (warn : Bool) (s : State) (x : Args) (hb : checkBinning x.mags x.δ = .ok ()) :
    baseCalculate .classic warn s x =
      if usedIdx (toB x) = [] then ({ filt s warn x s.times with a := some .nan }, .ok .nan)
      else finish (estimate .classic warn (filt s warn x s.times)) := by
  have hi : selIdx x.mags x.mc x.δ = usedIdx (toB x) := rfl
  have hlen : (usedIdx (toB x)).length = 0 ↔ usedIdx (toB x) = [] := List.length_eq_zero_iff
  unfold baseCalculate filterMagnitudes
  simp only [hb, Option.getD_some, hi, used_mags, List.length_map, hlen]
  unfold filt filtWarn
  simp only [List.append_assoc, hlen]

theorem base_timed {c : Cls} (hc : c ≠ .classic) (warn : Bool) (s : State) (x : Args)
    (hb : checkBinning x.mags x.δ = .ok ()) {t : List ℝ}
    (ht : gather (s.times.getD []) (usedIdx (toB x)) = .ok t) :
    baseCalculate c warn s x =
      if usedIdx (toB x) = [] then ({ filt s warn x (some t) with a := some .nan }, .ok .nan)
      else finish (estimate c warn (filt s warn x (some t))) := by
  have hi : selIdx x.mags x.mc x.δ = usedIdx (toB x) := rfl
  have hlen : (usedIdx (toB x)).length = 0 ↔ usedIdx (toB x) = [] := List.length_eq_zero_iff
  unfold baseCalculate filterMagnitudes
  cases c with
  | classic => exact absurd rfl hc
  | positive =>
    simp only [hb, Option.getD_some, hi, used_mags, List.length_map, hlen, ht]
    unfold filt filtWarn
    simp only [List.append_assoc, hlen]
  | morePositive =>
    simp only [hb, Option.getD_some, hi, used_mags, List.length_map, hlen, ht]
    unfold filt filtWarn
    simp only [List.append_assoc, hlen]

theorem base_gather_error {c : Cls} (hc : c ≠ .classic) (warn : Bool) (s : State) (x : Args)
    (hb : checkBinning x.mags x.δ = .ok ()) {e : PyErr}
    (ht : gather (s.times.getD []) (usedIdx (toB x)) = .error e) :
    (baseCalculate c warn s x).2 = .error e := by
  have hi : selIdx x.mags x.mc x.δ = usedIdx (toB x) := rfl
  unfold baseCalculate filterMagnitudes
  cases c with
  | classic => exact absurd rfl hc
  | positive => simp only [hb, Option.getD_some, hi, ht]
  | morePositive => simp only [hb, Option.getD_some, hi, ht]

theorem base_bin_error (c : Cls) (warn : Bool) (s : State) (x : Args) {e : PyErr}
    (hb : checkBinning x.mags x.δ = .error e) : (baseCalculate c warn s x).2 = .error e := by
  unfold baseCalculate
  simp only [hb]

/-- The object after sorting. -/
theorem sort_filt (s : State) (warn : Bool) (x : Args) {t : List ℝ}
    (ht : gather x.times (usedIdx (toB x)) = .ok t) :
    sortByTime (filt s warn x (some t)) = { filt s warn x (some t) with
      mags := some ((timeOrder (toB x)).map fun i => some (magOf (toB x) i))
      times := some ((timeOrder (toB x)).map (tAt x))
      idx := some (timeOrder (toB x)) } := by
  obtain ⟨hq, -⟩ := gather_eq 0 ht
  subst hq
  have ho : timeOrder (toB x) = take' (usedIdx (toB x)) (argsort ((usedIdx (toB x)).map (tAt x))) := rfl
  have hb : ∀ i ∈ argsort ((usedIdx (toB x)).map (tAt x)), i < (usedIdx (toB x)).length := by
    intro i hi
    simpa using argsort_lt hi
  unfold sortByTime filt
  simp only [Option.getD_some, Option.map_some]
  rw [show (fun i => x.times.getD i 0) = tAt x from rfl]
  rw [take'_map _ _ _ hb, take'_map _ _ _ hb, ← ho]

/-- The pairs used by the positive class. -/
def posPairs (x : Args) : List (ℕ × ℕ) :=
  growing (magOf (toB x)) (cutoff (toB x) - x.δ / 2) (timeOrder (toB x))

/-- The ranks paired by the more-positive class. -/
def morRanks (x : Args) : List (ℕ × ℕ) :=
  ranksOf ((timeOrder (toB x)).map (magOf (toB x))) x.δ (cutoff (toB x))

theorem nums_order (x : Args) (o : List ℕ) :
    nums (some (o.map fun i => some (magOf (toB x) i))) = o.map (magOf (toB x)) := by
  rw [← BValue.nums_some (o.map (magOf (toB x))), List.map_map]; rfl

theorem count_map_true {α : Type} (l : List α) (p : α → Bool) :
    (l.map p).count true = (l.filter p).length := by
  rw [List.count_eq_countP, List.countP_map, List.countP_eq_length_filter]
  congr 1
  apply List.filter_congr
  intro a _
  simp

theorem kt {β : Type} (f : ℕ → β) (o : List ℕ) : (o.map f).tail = (List.zip o o.tail).map fun p => f p.2 := by
  rw [← List.map_tail]
  conv_lhs => rw [← zip_tail_snd o]
  rw [List.map_map]; rfl

/-- What the positive class computes. -/
def posRaw (x : Args) : Fl ℝ :=
  if posPairs x = [] then .nan
  else rate (posPairs x).length ((posPairs x).map fun p => tAt x p.2 - tAt x p.1)
    (span ((timeOrder (toB x)).map (tAt x)))

theorem estimatePositive_filt (s : State) (warn : Bool) (x : Args) {t : List ℝ}
    (ht : gather x.times (usedIdx (toB x)) = .ok t) (hd : s.dmc = some (cutoff (toB x))) :
    estimatePositive warn (filt s warn x (some t)) =
      ({ filt s warn x (some t) with
          mags := some ((posPairs x).map fun p => some (magOf (toB x) p.2))
          idx := some ((posPairs x).map Prod.snd)
          times := if posPairs x = [] then some ((timeOrder (toB x)).map (tAt x))
            else some ((posPairs x).map fun p => tAt x p.2)
          warned := (filt s warn x (some t)).warned ++
            (if posPairs x = [] then (if warn then [.notEnough] else []) else []) }, posRaw x) := by
  unfold estimatePositive
  rw [sort_filt s warn x ht]
  have e1 : (filt s warn x (some t)).δ = some x.δ := rfl
  have e2 : (filt s warn x (some t)).dmc = some (cutoff (toB x)) := hd
  simp only [e1, e2, Option.getD_some, nums_order, diff_map, List.map_map, Option.map_some]
  set o := timeOrder (toB x) with ho
  have hp : posPairs x = (List.zip o o.tail).filter
      ((fun y => decide (cutoff (toB x) - x.δ / 2 ≤ y)) ∘ fun p => magOf (toB x) p.2 - magOf (toB x) p.1) := rfl
  have key : ∀ {β : Type} (f : ℕ → β), mask (o.map f).tail ((List.zip o o.tail).map
      ((fun y => decide (cutoff (toB x) - x.δ / 2 ≤ y)) ∘ fun p => magOf (toB x) p.2 - magOf (toB x) p.1)) =
      (posPairs x).map fun p => f p.2 := by
    intro β f
    rw [kt f o, mask_map, ← hp]
  have key0 := key (id : ℕ → ℕ)
  rw [List.map_id] at key0
  rw [mask_map, ← hp, key, key, key0]
  simp only [List.length_map, List.length_eq_zero_iff, count_map_true, ← hp]
  unfold posRaw
  split
  · rfl
  · simp only [List.append_nil]; rfl

/-- Waiting times of the more-positive class, scaled. -/
def morWaits (x : Args) : List ℝ :=
  (List.range (timeOrder (toB x)).length).map fun i =>
    (if (findNextLarger ((timeOrder (toB x)).map (magOf (toB x))) x.δ (some (cutoff (toB x)))).getD i 0 = 0
      then ((timeOrder (toB x)).map (tAt x)).getLastD 0 - ((timeOrder (toB x)).map (tAt x)).getD i 0
      else ((timeOrder (toB x)).map (tAt x)).getD
          ((findNextLarger ((timeOrder (toB x)).map (magOf (toB x))) x.δ (some (cutoff (toB x)))).getD i 0) 0 -
        ((timeOrder (toB x)).map (tAt x)).getD i 0) *
      (10 : ℝ) ^ (-(x.b.getD 0) * (((timeOrder (toB x)).map (magOf (toB x))).getD i 0 + cutoff (toB x) - x.mc))

/-- What the more-positive class computes. -/
def morRaw (x : Args) : Fl ℝ :=
  if morRanks x = [] then .nan
  else rate (morRanks x).length (morWaits x) (span ((timeOrder (toB x)).map (tAt x)))

theorem estimateMore_filt (s : State) (warn : Bool) (x : Args) {t : List ℝ}
    (ht : gather x.times (usedIdx (toB x)) = .ok t) (hd : s.dmc = some (cutoff (toB x))) :
    estimateMorePositive warn (filt s warn x (some t)) =
      ({ filt s warn x (some t) with
          mags := some ((morRanks x).map fun r => some (magOf (toB x) ((timeOrder (toB x)).getD r.2 0)))
          idx := some ((morRanks x).map fun r => (timeOrder (toB x)).getD r.2 0)
          times := some ((morRanks x).map fun r => tAt x ((timeOrder (toB x)).getD r.2 0))
          warned := (filt s warn x (some t)).warned ++
            (if morRanks x = [] then (if warn then [.notEnough] else []) else []) }, morRaw x) := by
  unfold estimateMorePositive
  rw [sort_filt s warn x ht]
  have e1 : (filt s warn x (some t)).δ = some x.δ := rfl
  have e2 : (filt s warn x (some t)).dmc = some (cutoff (toB x)) := hd
  have e3 : (filt s warn x (some t)).b = x.b := rfl
  have e4 : (filt s warn x (some t)).mc = some x.mc := rfl
  simp only [e1, e2, e3, e4, Option.getD_some, nums_order, Option.map_some]
  unfold morRaw morWaits morRanks
  set o := timeOrder (toB x) with ho
  set m := o.map (magOf (toB x)) with hm
  set nxt := findNextLarger m x.δ (some (cutoff (toB x))) with hnxt
  have hml : m.length = o.length := by rw [hm, List.length_map]
  have hl : nxt.length = m.length := (Props.C24_find_next_larger m x.δ (some (cutoff (toB x)))).1
  have hnx : nxt = (List.range m.length).map fun i => nxt.getD i 0 := by
    rw [← hl]; exact (map_getD_range nxt 0).symm
  have hnm : mask nxt (nxt.map fun j => decide (j ≠ 0)) = (ranksOf m x.δ (cutoff (toB x))).map Prod.snd := by
    have hhas : (nxt.map fun j => decide (j ≠ 0)) =
        (List.range m.length).map fun i => decide (nxt.getD i 0 ≠ 0) := by
      conv_lhs => rw [hnx]
      rw [List.map_map]; rfl
    rw [hhas]
    conv_lhs => lhs; rw [hnx]
    rw [mask_map]
    unfold ranksOf
    rw [List.map_map]
    rfl
  have hz : nxt.count 0 = nxt.length ↔ ranksOf m x.δ (cutoff (toB x)) = [] := by
    unfold ranksOf
    rw [List.map_eq_nil_iff, List.filter_eq_nil_iff, List.count_eq_length]
    simp only [← hnxt, decide_eq_true_eq, not_not, List.mem_range]
    constructor
    · intro h i hi
      rw [List.getD_eq_getElem _ _ (by rw [hl]; exact hi)]
      exact (h _ (List.getElem_mem _)).symm
    · intro h b hb
      obtain ⟨i, hi, rfl⟩ := List.getElem_of_mem hb
      have := h i (by rw [← hl]; exact hi)
      rw [List.getD_eq_getElem _ _ hi] at this
      exact this.symm
  have hR := ranksOf_spec m x.δ (cutoff (toB x))
  have hlt : ∀ r ∈ ranksOf m x.δ (cutoff (toB x)), r.2 < o.length := by
    intro r hr
    have := (firstLarger_lt ((hR.mem r.1 r.2).1 hr)).2
    rwa [hml] at this
  have key : ∀ {β : Type} (d : β) (f : ℕ → β), ((ranksOf m x.δ (cutoff (toB x))).map Prod.snd).map
      (fun j => (o.map f).getD j d) =
      (ranksOf m x.δ (cutoff (toB x))).map fun r => f (o.getD r.2 0) := by
    intro β d f
    rw [List.map_map]
    apply List.map_congr_left
    intro r hr
    have h2 := hlt r hr
    have h2' : r.2 < (o.map f).length := by simpa using h2
    simp only [Function.comp_apply]
    rw [List.getD_eq_getElem _ _ h2', List.getD_eq_getElem _ _ h2]
    simp
  have key0 := key (d := (0 : ℕ)) id
  rw [List.map_id] at key0
  by_cases h0 : ranksOf m x.δ (cutoff (toB x)) = []
  · rw [if_pos (hz.2 h0)]
    simp only [h0, if_true, List.map_nil]
  · rw [if_neg (fun h => h0 (hz.1 h))]
    simp only [h0, if_false, hnm, key, key0, List.append_nil, List.length_map]
    refine Prod.ext rfl ?_
    simp only []
    congr 1
    unfold scaleWaits waitsMore
    apply List.ext_getElem
    · simp [hl, hml]
    · intro i h1 h2
      have hi : i < o.length := by simpa using h2
      have hi2 : i < nxt.length := by rw [hl, hml]; exact hi
      have hi3 : i < m.length := by rw [hml]; exact hi
      have hi4 : i < (o.map (tAt x)).length := by simpa using hi
      simp only [List.getElem_zipWith, List.getElem_map, List.getElem_range]
      simp only [List.getD_eq_getElem _ _ hi2, List.getD_eq_getElem _ _ hi3, List.getD_eq_getElem _ _ hi4]
      simp

/-! ### results -/

/-- The value before scaling. -/
def raw (c : Cls) (x : Args) : Fl ℝ :=
  match c with
  | .classic => Fl.log10 (.fin ((usedIdx (toB x)).length : ℝ))
  | .positive => posRaw x
  | .morePositive => morRaw x

/-- `_reference_scaling` in terms of the arguments. -/
def scaled (x : Args) (v : Fl ℝ) : Py (Fl ℝ) := do
  let v ← match x.mref with
    | none => pure v
    | some r => match x.b with
      | none => throw .valueError
      | some b => pure (v.sub (.fin (b * (r - x.mc))))
  pure (match x.scaling with
    | none => v
    | some f => v.sub (Fl.log10 (.fin f)))

theorem finish_snd {p : State × Fl ℝ} {x : Args} (h1 : p.1.mref = x.mref) (h2 : p.1.b = x.b)
    (h3 : p.1.mc = some x.mc) (h4 : p.1.scaling = x.scaling) : (finish p).2 = scaled x p.2 := by
  unfold finish scaled referenceScaling
  simp only [h1, h2, h3, h4, Option.getD_some]
  cases x.mref with
  | none => rfl
  | some r => cases x.b <;> rfl

/-- The error checks of the class on its own arguments. -/
def precheck (c : Cls) (x : Args) : Py Unit :=
  match c with
  | .classic => .ok ()
  | .positive => if cutoff (toB x) < 0 then .error .valueError else .ok ()
  | .morePositive =>
    if x.b.getD 0 = 0 then .error .valueError
    else if cutoff (toB x) < 0 then .error .valueError else .ok ()

/-- Selecting the times. -/
def timesCheck (c : Cls) (x : Args) : Py Unit :=
  match c with
  | .classic => .ok ()
  | _ => (gather x.times (usedIdx (toB x))).map fun _ => ()

/-- The result for arbitrary input: it depends on the arguments only. -/
def result (c : Cls) (x : Args) : Py (Fl ℝ) :=
  precheck c x >>= fun _ => checkBinning x.mags x.δ >>= fun _ => timesCheck c x >>= fun _ =>
    if usedIdx (toB x) = [] then .ok .nan else scaled x (raw c x)

theorem finish_timed {c : Cls} (hc : c ≠ .classic) (s : State) (warn : Bool) (x : Args) {t : List ℝ}
    (ht : gather x.times (usedIdx (toB x)) = .ok t) (hd : s.dmc = some (cutoff (toB x))) :
    (finish (estimate c warn (filt s warn x (some t)))).2 = scaled x (raw c x) := by
  cases c with
  | classic => exact absurd rfl hc
  | positive =>
    unfold estimate
    simp only []
    rw [estimatePositive_filt s warn x ht hd]
    exact finish_snd rfl rfl rfl rfl
  | morePositive =>
    unfold estimate
    simp only []
    rw [estimateMore_filt s warn x ht hd]
    exact finish_snd rfl rfl rfl rfl

theorem timed_result {c : Cls} (hc : c ≠ .classic) (warn : Bool) (s : State) (x : Args)
    (hd : ¬ cutoff (toB x) < 0) : (timedCalculate c warn s x).2 =
      (checkBinning x.mags x.δ >>= fun _ => timesCheck c x >>= fun _ =>
        if usedIdx (toB x) = [] then .ok .nan else scaled x (raw c x)) := by
  have hd' : ¬ x.dmc.getD x.δ < 0 := hd
  unfold timedCalculate
  simp only [hd', if_false]
  cases hb : checkBinning x.mags x.δ with
  | error e => rw [base_bin_error _ _ _ _ hb]; rfl
  | ok u =>
    cases ht : gather x.times (usedIdx (toB x)) with
    | error e =>
      rw [base_gather_error hc _ _ _ hb (e := e) (by simpa using ht)]
      have : timesCheck c x = .error e := by
        unfold timesCheck; cases c
        · exact absurd rfl hc
        all_goals simp only [ht]; rfl
      rw [this]; rfl
    | ok t =>
      rw [base_timed hc _ _ _ hb (t := t) (by simpa using ht)]
      have : timesCheck c x = .ok () := by
        unfold timesCheck; cases c
        · exact absurd rfl hc
        all_goals simp only [ht]; rfl
      rw [this]
      simp only [bind, Except.bind]
      split
      · rfl
      · exact finish_timed hc _ warn x ht rfl

theorem calculate_snd (c : Cls) (warn : Bool) (s : State) (x : Args) :
    (calculate c warn s x).2 = result c x := by
  unfold calculate result precheck
  cases c with
  | classic =>
    simp only [bind, Except.bind]
    cases hb : checkBinning x.mags x.δ with
    | error e => simp only []; exact base_bin_error _ _ _ _ hb
    | ok u =>
      simp only []
      rw [base_classic _ _ _ hb]
      simp only [timesCheck]
      split
      · rfl
      · have : (estimate .classic warn (filt { s with warned := [] } warn x s.times)).2 = raw .classic x := by
          unfold estimate raw filt
          simp
        rw [← this]
        exact finish_snd rfl rfl rfl rfl
  | positive =>
    simp only []
    by_cases hd : cutoff (toB x) < 0
    · have hd' : x.dmc.getD x.δ < 0 := hd
      rw [if_pos hd]; unfold timedCalculate; simp only [hd', if_true]; rfl
    · rw [if_neg hd, timed_result (by simp) warn _ x hd]; rfl
  | morePositive =>
    simp only []
    by_cases h0 : x.b.getD 0 = 0
    · simp only [h0, if_true]; rfl
    · simp only [h0, if_false]
      by_cases hd : cutoff (toB x) < 0
      · have hd' : x.dmc.getD x.δ < 0 := hd
        rw [if_pos hd]; unfold timedCalculate; simp only [hd', if_true]; rfl
      · rw [if_neg hd, timed_result (by simp) warn _ x hd]; rfl

end
end SeismoStats.AValue
