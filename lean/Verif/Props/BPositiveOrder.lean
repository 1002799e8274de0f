/-
Properties C23 and C26: only the time order matters to b-positive; make_more_incomplete.
-/
import Verif.Props.BPositive
import Verif.Props.BValueWeights

namespace SeismoStats.Props
open SeismoStats BValue
set_option linter.unusedSimpArgs false
open Classical
noncomputable section

/-- Time of event `i`. -/
def timeOf (a : Args) (i : ℕ) : ℝ := (a.times.getD []).getD i 0

/-- The selected events (magnitude, weight, time) in the order of time. -/
def timeline (a : Args) : List (ℝ × ℝ × ℝ) :=
  (timeOrder a).map fun i => (magOf a i, weightOf a i, timeOf a i)

/-- The used differences (difference, weight, time of the later event) of a timeline. -/
def lineDiffs (c : Cls) (δ dmc : ℝ) (E : List (ℝ × ℝ × ℝ)) : List (ℝ × ℝ × ℝ) :=
  match c with
  | .positive => ((List.zip E E.tail).filter fun p => decide (dmc - δ / 2 ≤ p.2.1 - p.1.1)).map
      fun p => (onGrid δ (p.2.1 - p.1.1), p.2.2)
  | _ => (ranksOf (E.map Prod.fst) δ dmc).map fun r =>
      (onGrid δ ((E.getD r.2 (0, 0, 0)).1 - (E.getD r.1 (0, 0, 0)).1), (E.getD r.2 (0, 0, 0)).2)

theorem zip_map_tail {α β : Type} (o : List α) (f : α → β) :
    List.zip (o.map f) (o.map f).tail = (List.zip o o.tail).map fun p => (f p.1, f p.2) := by
  rw [← List.map_tail, List.zip_map]
  rfl

theorem pairs_timeline {c : Cls} (hc : c = .positive ∨ c = .morePositive) (a : Args) :
    (pairsOf c a).map (fun p => (onGrid a.δ (magOf a p.2 - magOf a p.1), weightOf a p.2, timeOf a p.2)) =
      lineDiffs c a.δ (cutoff a) (timeline a) := by
  rcases hc with rfl | rfl
  · unfold pairsOf lineDiffs timeline growing
    simp only [zip_map_tail, List.filter_map, List.map_map]
    rfl
  · unfold pairsOf lineDiffs timeline atRanks
    simp only [List.map_map]
    have e : (Prod.fst ∘ fun i => (magOf a i, weightOf a i, timeOf a i)) = magOf a := rfl
    rw [e]
    apply List.map_congr_left
    intro r hr
    have hlt := firstLarger_lt (((ranksOf_spec _ a.δ (cutoff a)).mem r.1 r.2).1 hr)
    simp only [List.length_map] at hlt
    simp [List.getD_eq_getElem?_getD, List.getElem?_eq_getElem hlt.1, List.getElem?_eq_getElem hlt.2]

theorem diffs_timeline {c : Cls} (hc : c = .positive ∨ c = .morePositive) (a : Args) :
    diffsOf a (pairsOf c a) = (lineDiffs c a.δ (cutoff a) (timeline a)).map fun q => (q.1, q.2.1) := by
  rw [← pairs_timeline hc]
  unfold diffsOf
  rw [List.map_map]
  rfl

/-- Result of a time-ordered estimator for arbitrary input. -/
def posResult (c : Cls) (a : Args) : Py (Fl ℝ) :=
  if usedIdx a = [] then .ok .nan
  else if binnable c a.δ then pairResult a (diffsOf a (pairsOf c a)) else .error .valueError

theorem posResult_all {c : Cls} (hc : c = .positive ∨ c = .morePositive) (warn : Bool) (s : State)
    (a : Args) : (calculate c warn s a).2 =
      if cutoff a < 0 then .error .valueError else
      (checkBinning a.mags a.δ >>= fun _ => checkWeights a.mags.length a.weights >>= fun _ =>
        gatherOpt a.times (usedIdx a) >>= fun _ => posResult c a) := by
  by_cases hd : cutoff a < 0
  · rw [if_pos hd]; exact C22_negative_dmc hc warn s a hd
  rw [if_neg hd]
  have hd' : 0 ≤ cutoff a := not_lt.1 hd
  by_cases hv : Valid a
  · rw [hv.bin, hv.wts]
    simp only [bind, Except.bind]
    cases hg : gatherOpt a.times (usedIdx a) with
    | error e =>
      have hi : selIdx a.mags a.mc a.δ = usedIdx a := rfl
      unfold cutoff at hd
      unfold calculate baseCalculate sanityChecks filterMagnitudes
      rcases hc with rfl | rfl <;>
      simp only [hd, if_false, Option.getD_some, hv.bin, hv.wts, hi, gatherOpt_weights hv, hg]
    | ok t =>
      simp only []
      unfold posResult
      by_cases he : usedIdx a = []
      · rw [if_pos he]
        obtain ⟨s', e, -⟩ := run_empty hc warn s a hv hd' he
        rw [e]
      · rw [if_neg he]
        by_cases hb : binnable c a.δ
        · rw [if_pos hb]
          obtain ⟨s', e, -⟩ := run_nonempty hc warn s a hv hd' he hg hb
          rw [e]
        · rw [if_neg hb]; exact run_tiny hc warn s a hv hd' he hg hb
  · unfold cutoff at hd
    unfold calculate baseCalculate sanityChecks
    cases h1 : checkBinning a.mags a.δ with
    | error e =>
      rcases hc with rfl | rfl <;> simp only [hd, if_false, Option.getD_some, h1] <;> rfl
    | ok u =>
      cases h2 : checkWeights a.mags.length a.weights with
      | error e =>
        rcases hc with rfl | rfl <;> simp only [hd, if_false, Option.getD_some, h1, h2] <;> rfl
      | ok v => exact absurd ⟨h1, h2⟩ hv

theorem timeline_nil {a : Args} : timeline a = [] ↔ usedIdx a = [] := by
  unfold timeline
  rw [List.map_eq_nil_iff]
  constructor
  · intro h
    have := timeOrder_perm a
    rw [h] at this
    exact List.nil_perm.1 this
  · exact timeOrder_nil

theorem posResult_congr {c : Cls} (hc : c = .positive ∨ c = .morePositive) {a a' : Args}
    (hδ : a.δ = a'.δ) (hd : cutoff a = cutoff a') (hw : a.weights.isSome = a'.weights.isSome)
    (hn : usedIdx a = [] ↔ usedIdx a' = [])
    (hE : (lineDiffs c a.δ (cutoff a) (timeline a)).map (fun q => (q.1, q.2.1)) =
      (lineDiffs c a'.δ (cutoff a') (timeline a')).map fun q => (q.1, q.2.1)) :
    posResult c a = posResult c a' := by
  unfold posResult
  rw [diffs_timeline hc, diffs_timeline hc, hE]
  simp only [hn, hδ, pairResult, hd, hw]

/-- The used differences of a successful call are those of the timeline. -/
theorem uses_timeline {c : Cls} (hc : c = .positive ∨ c = .morePositive) {warn : Bool} {s s' : State}
    {a : Args} {r : Fl ℝ} (h : calculate c warn s a = (s', .ok r)) :
    s'.mags = some ((lineDiffs c a.δ (cutoff a) (timeline a)).map fun q => some q.1) ∧
      s'.weights = (if a.weights.isSome then
        some ((lineDiffs c a.δ (cutoff a) (timeline a)).map fun q => q.2.1) else none) ∧
      s'.times = (if a.times.isSome then
        some ((lineDiffs c a.δ (cutoff a) (timeline a)).map fun q => q.2.2) else none) := by
  have u := (run_ok hc h).1
  rw [← pairs_timeline hc]
  refine ⟨?_, ?_, ?_⟩
  · rw [u.mags]; unfold diffsOf; rw [List.map_map, List.map_map]; rfl
  · rw [u.weights]
    cases hw : a.weights with
    | none => rfl
    | some w => simp [weightOf, hw, List.map_map, Function.comp_def]
  · rw [u.times]
    cases hw : a.times with
    | none => rfl
    | some w => simp [timeOf, hw, List.map_map, Function.comp_def]

/-! ## C23 -/

/-- Arguments made from a list of events (magnitude or NaN, weight, time). -/
def timed (l : List (Option ℝ × ℝ × ℝ)) (hw : Bool) (mc δ : ℝ) (dmc : Option ℝ) : Args :=
  { mags := l.map Prod.fst, mc := mc, δ := δ, weights := if hw then some (l.map fun e => e.2.1) else none, times := some (l.map fun e => e.2.2), dmc := dmc }

/-- The event as it enters the timeline. -/
def lineEvent (hw : Bool) (thr : ℝ) (e : Option ℝ × ℝ × ℝ) : Option (ℝ × ℝ × ℝ) :=
  match e.1 with
  | some m => if thr ≤ m then some (m, (if hw then e.2.1 else 1), e.2.2) else none
  | none => none

theorem filterMap_lineEvent (l : List (Option ℝ × ℝ × ℝ)) (hw : Bool) (thr : ℝ) :
    l.filterMap (lineEvent hw thr) = (l.filter fun e => above thr e.1).map
      fun e => (e.1.getD 0, (if hw then e.2.1 else 1), e.2.2) := by
  induction l with
  | nil => rfl
  | cons e r ih =>
    obtain ⟨o, w, t⟩ := e
    rw [List.filterMap_cons, List.filter_cons, ih]
    cases o with
    | none => rfl
    | some m => by_cases h : thr ≤ m <;> simp [lineEvent, above, h]

theorem used_timed (l : List (Option ℝ × ℝ × ℝ)) (hw : Bool) (mc δ : ℝ) (dmc : Option ℝ) :
    (usedIdx (timed l hw mc δ dmc)).map (fun i => (magOf (timed l hw mc δ dmc) i,
      weightOf (timed l hw mc δ dmc) i, timeOf (timed l hw mc δ dmc) i)) =
      l.filterMap (lineEvent hw (mc - δ / 2)) := by
  rw [filterMap_lineEvent]
  have h1 := range_filter_map l (none, 0, 0) (fun e => above (mc - δ / 2) e.1)
  rw [← h1, List.map_map]
  unfold usedIdx
  rw [selIdx_eq]
  have hl : (timed l hw mc δ dmc).mags.length = l.length := by simp [timed]
  have hp : ∀ i, (timed l hw mc δ dmc).mags.getD i none = (l.getD i (none, 0, 0)).1 := by
    intro i; simp only [timed, List.getD_eq_getElem?_getD, List.getElem?_map]
    cases l[i]? <;> rfl
  have hmc : (timed l hw mc δ dmc).mc = mc := rfl
  have hδ : (timed l hw mc δ dmc).δ = δ := rfl
  simp only [hl, hp, hmc, hδ]
  apply List.map_congr_left
  intro i hi
  have hi : i < l.length := List.mem_range.1 (List.mem_filter.1 hi).1
  have g1 : l.getD i (none, 0, 0) = l[i] := List.getD_eq_getElem _ _ hi
  have g2 : magOf (timed l hw mc δ dmc) i = (l[i]).1.getD 0 := by unfold magOf; rw [hp, g1]
  have g3 : weightOf (timed l hw mc δ dmc) i = if hw then (l[i]).2.1 else 1 := by
    unfold weightOf timed
    cases hw
    · rfl
    · simp [hi]
  have g4 : timeOf (timed l hw mc δ dmc) i = (l[i]).2.2 := by
    unfold timeOf timed
    simp [hi]
  rw [g2, g3, g4]
  simp only [Function.comp_apply, g1]

theorem timeline_perm (a : Args) : (timeline a).Perm
    ((usedIdx a).map fun i => (magOf a i, weightOf a i, timeOf a i)) := (timeOrder_perm a).map _

theorem timeline_sorted (a : Args) (h : a.times.isSome) :
    (timeline a).Pairwise fun x y => x.2.2 ≤ y.2.2 := by
  unfold timeline
  rw [List.pairwise_map]
  obtain ⟨t, ht⟩ := Option.isSome_iff_exists.1 h
  have := timeOrder_sorted a t ht
  refine this.imp ?_
  intro i j hij
  simpa [timeOf, ht] using hij

theorem timeline_timed {l l' : List (Option ℝ × ℝ × ℝ)} (hw : Bool) (mc δ : ℝ) (dmc : Option ℝ)
    (h : l.Perm l') (hd : (l.map fun e => e.2.2).Nodup) :
    timeline (timed l hw mc δ dmc) = timeline (timed l' hw mc δ dmc) := by
  have p1 := timeline_perm (timed l hw mc δ dmc)
  have p2 := timeline_perm (timed l' hw mc δ dmc)
  rw [used_timed] at p1 p2
  have p3 := h.filterMap (lineEvent hw (mc - δ / 2))
  refine List.Perm.eq_of_pairwise (le := fun x y : ℝ × ℝ × ℝ => x.2.2 ≤ y.2.2) ?_
    (timeline_sorted _ rfl) (timeline_sorted _ rfl) (p1.trans (p3.trans p2.symm))
  intro x y hx hy h1 h2
  have hx := p1.mem_iff.1 hx
  have hy := p3.mem_iff.2 (p2.mem_iff.1 hy)
  rw [filterMap_lineEvent] at hx hy
  obtain ⟨e, he, rfl⟩ := List.mem_map.1 hx
  obtain ⟨f, hf, rfl⟩ := List.mem_map.1 hy
  have : e = f := List.inj_on_of_nodup_map hd (List.mem_filter.1 he).1 (List.mem_filter.1 hf).1
    (le_antisymm h1 h2)
  rw [this]

theorem gather_timed (l : List (Option ℝ × ℝ × ℝ)) (hw : Bool) (mc δ : ℝ) (dmc : Option ℝ) :
    ∃ t, gatherOpt (timed l hw mc δ dmc).times (usedIdx (timed l hw mc δ dmc)) = .ok t := by
  have e := gather_ok (l.map fun e => e.2.2) (usedIdx (timed l hw mc δ dmc)) 0 (by
    intro i hi
    have := selIdx_lt hi
    simpa [timed] using this)
  have e2 : gatherOpt (timed l hw mc δ dmc).times (usedIdx (timed l hw mc δ dmc)) =
    Except.map some (gather (l.map fun e => e.2.2) (usedIdx (timed l hw mc δ dmc))) := rfl
  rw [e2, e]
  exact ⟨_, rfl⟩

/-- C23: permuting the events together with their (distinct) times changes neither the value nor the
exception of b-positive (and b-more-positive), nor the differences, weights and times
kept, for every history. -/
theorem C23_permutation {c : Cls} (hc : c = .positive ∨ c = .morePositive) (warn : Bool) (s : State)
    (l l' : List (Option ℝ × ℝ × ℝ)) (hw : Bool) (mc δ : ℝ) (dmc : Option ℝ) (h : l.Perm l')
    (hd : (l.map fun e => e.2.2).Nodup) :
    (calculate c warn s (timed l hw mc δ dmc)).2 = (calculate c warn s (timed l' hw mc δ dmc)).2 ∧
      ∀ r, (calculate c warn s (timed l hw mc δ dmc)).2 = .ok r →
        (calculate c warn s (timed l hw mc δ dmc)).1.mags = (calculate c warn s (timed l' hw mc δ dmc)).1.mags ∧
        (calculate c warn s (timed l hw mc δ dmc)).1.weights = (calculate c warn s (timed l' hw mc δ dmc)).1.weights ∧
        (calculate c warn s (timed l hw mc δ dmc)).1.times = (calculate c warn s (timed l' hw mc δ dmc)).1.times := by
  have hE := timeline_timed hw mc δ dmc h hd
  have hres : (calculate c warn s (timed l hw mc δ dmc)).2 = (calculate c warn s (timed l' hw mc δ dmc)).2 := by
    rw [posResult_all hc, posResult_all hc]
    have h1 : checkBinning (timed l hw mc δ dmc).mags (timed l hw mc δ dmc).δ =
        checkBinning (timed l' hw mc δ dmc).mags (timed l' hw mc δ dmc).δ :=
      checkBinning_perm δ (h.map _)
    have h2 : checkWeights (timed l hw mc δ dmc).mags.length (timed l hw mc δ dmc).weights =
        checkWeights (timed l' hw mc δ dmc).mags.length (timed l' hw mc δ dmc).weights := by
      simp only [timed, List.length_map, h.length_eq]
      cases hw
      · rfl
      · exact checkWeights_perm _ (h.map _)
    obtain ⟨t, h3⟩ := gather_timed l hw mc δ dmc
    obtain ⟨t', h4⟩ := gather_timed l' hw mc δ dmc
    have h5 : posResult c (timed l hw mc δ dmc) = posResult c (timed l' hw mc δ dmc) := by
      apply posResult_congr hc (a := timed l hw mc δ dmc) (a' := timed l' hw mc δ dmc) rfl rfl
      · cases hw <;> rfl
      · rw [← timeline_nil, ← timeline_nil, hE]
      · rw [hE]; rfl
    have h6 : cutoff (timed l hw mc δ dmc) = cutoff (timed l' hw mc δ dmc) := rfl
    rw [h1, h2, h3, h4, h5, h6]
    rfl
  refine ⟨hres, fun r hr => ?_⟩
  have u1 := uses_timeline hc (Prod.ext rfl hr : calculate c warn s (timed l hw mc δ dmc) = (_, .ok r))
  have u2 := uses_timeline hc
    (Prod.ext rfl (hres ▸ hr) : calculate c warn s (timed l' hw mc δ dmc) = (_, .ok r))
  rw [← hE] at u2
  have hws : (timed l hw mc δ dmc).weights.isSome = (timed l' hw mc δ dmc).weights.isSome := by
    cases hw <;> rfl
  refine ⟨u1.1.trans u2.1.symm, ?_, u1.2.2.trans u2.2.2.symm⟩
  rw [u1.2.1, u2.2.1, hws]
  rfl

/-- The time axis changed by `f`. -/
def retimed (a : Args) (f : ℝ → ℝ) : Args := { a with times := a.times.map (List.map f) }

theorem gather_map {α β : Type} (l : List α) (f : α → β) (idx : List ℕ) :
    gather (l.map f) idx = (gather l idx).map (List.map f) := by
  unfold gather
  induction idx with
  | nil => rfl
  | cons i idx ih =>
    rw [List.mapM_cons, List.mapM_cons, ih, List.getElem?_map]
    cases l[i]? with
    | none => rfl
    | some v =>
      simp only [Option.map_some, bind, Except.bind]
      cases (List.mapM _ idx : Py (List α)) <;> rfl

theorem timeOrder_retimed (a : Args) (f : ℝ → ℝ) {t : Option (List ℝ)}
    (hg : gatherOpt a.times (usedIdx a) = .ok t)
    (hf : ∀ ts, a.times = some ts → ∀ x ∈ ts, ∀ y ∈ ts, x < y → f x < f y) :
    timeOrder (retimed a f) = timeOrder a := by
  have hu : usedIdx (retimed a f) = usedIdx a := rfl
  cases hta : a.times with
  | none => unfold timeOrder retimed; simp only [hta, Option.map_none]; rfl
  | some ts =>
    rw [hta] at hg
    simp only [gatherOpt] at hg
    cases hgg : gather ts (usedIdx a) with
    | error e => rw [hgg] at hg; cases hg
    | ok q =>
      obtain ⟨-, hlt⟩ := gather_eq 0 hgg
      have hr : (retimed a f).times = some (ts.map f) := by simp [retimed, hta]
      unfold timeOrder
      rw [hr, hta]
      simp only [hu]
      congr 1
      unfold argsort
      simp only [List.length_map]
      apply insertionSort_congr
      intro x hx y hy
      have hx := List.mem_range.1 hx
      have hy := List.mem_range.1 hy
      have hx' := hlt _ (List.getElem_mem hx)
      have hy' := hlt _ (List.getElem_mem hy)
      have m1 : ts[(usedIdx a)[x]] ∈ ts := List.getElem_mem _
      have m2 : ts[(usedIdx a)[y]] ∈ ts := List.getElem_mem _
      simp only [List.getD_eq_getElem?_getD, List.getElem?_map, List.getElem?_eq_getElem hx,
        List.getElem?_eq_getElem hy, Option.map_some, Option.getD_some,
        List.getElem?_eq_getElem hx', List.getElem?_eq_getElem hy']
      constructor
      · intro h
        by_contra hlt
        have := hf ts hta _ m2 _ m1 (not_le.1 hlt)
        linarith
      · intro h
        rcases h.lt_or_eq with h | h
        · exact (hf ts hta _ m1 _ m2 h).le
        · rw [h]

/-- C23: a strictly increasing change of the time axis changes neither the value nor the
exception, nor the differences, weights and positions kept. -/
theorem C23_time_axis {c : Cls} (hc : c = .positive ∨ c = .morePositive) (warn : Bool) (s : State)
    (a : Args) (f : ℝ → ℝ) (hf : ∀ ts, a.times = some ts → ∀ x ∈ ts, ∀ y ∈ ts, x < y → f x < f y) :
    (calculate c warn s (retimed a f)).2 = (calculate c warn s a).2 ∧
      ∀ r, (calculate c warn s a).2 = .ok r →
        (calculate c warn s (retimed a f)).1.mags = (calculate c warn s a).1.mags ∧
        (calculate c warn s (retimed a f)).1.weights = (calculate c warn s a).1.weights ∧
        (calculate c warn s (retimed a f)).1.idx = (calculate c warn s a).1.idx := by
  have hu : usedIdx (retimed a f) = usedIdx a := rfl
  have hg' : gatherOpt (retimed a f).times (usedIdx (retimed a f)) =
      (gatherOpt a.times (usedIdx a)).map (Option.map (List.map f)) := by
    rw [hu]
    unfold retimed gatherOpt
    cases a.times with
    | none => rfl
    | some ts =>
      simp only [Option.map_some, gather_map]
      cases gather ts (usedIdx a) <;> rfl
  have hp : ∀ t, gatherOpt a.times (usedIdx a) = .ok t → pairsOf c (retimed a f) = pairsOf c a := by
    intro t hg
    unfold pairsOf
    rw [timeOrder_retimed a f hg hf]
    rfl
  have hres : (calculate c warn s (retimed a f)).2 = (calculate c warn s a).2 := by
    rw [posResult_all hc, posResult_all hc, hg']
    cases hg : gatherOpt a.times (usedIdx a) with
    | error e => rfl
    | ok t =>
      have : posResult c (retimed a f) = posResult c a := by
        unfold posResult
        rw [hp t hg]
        rfl
      rw [this]
      rfl
  refine ⟨hres, fun r hr => ?_⟩
  have e1 : calculate c warn s a = (_, .ok r) := Prod.ext rfl hr
  have e2 : calculate c warn s (retimed a f) = (_, .ok r) := Prod.ext rfl (hres.trans hr)
  obtain ⟨t, hg⟩ := times_of_ok hc e1
  have u1 := (run_ok hc e1).1
  have u2 := (run_ok hc e2).1
  rw [hp t hg] at u2
  exact ⟨u2.mags.trans u1.mags.symm, u2.weights.trans u1.weights.symm, u2.idx.trans u1.idx.symm⟩

theorem usedIdx_shifted (a : Args) (t : ℝ) : usedIdx (shifted a t) = usedIdx a := by
  unfold usedIdx
  rw [selIdx_eq, selIdx_eq]
  have hl : (shifted a t).mags.length = a.mags.length := by simp [shifted]
  rw [hl]
  congr 1
  funext i
  have : (shifted a t).mags.getD i none = (a.mags.getD i none).map (· + t) := by
    simp only [shifted, List.getD_eq_getElem?_getD, List.getElem?_map]
    cases a.mags[i]? <;> rfl
  rw [this]
  cases a.mags.getD i none with
  | none => rfl
  | some m =>
    simp only [Option.map_some, above, shifted]
    congr 1
    rw [eq_iff_iff]
    constructor <;> intro h <;> linarith

theorem timeOrder_shifted (a : Args) (t : ℝ) : timeOrder (shifted a t) = timeOrder a := by
  unfold timeOrder
  rw [usedIdx_shifted]
  rfl

theorem magOf_shifted {a : Args} (t : ℝ) {i : ℕ} (h : i ∈ usedIdx a) :
    magOf (shifted a t) i = magOf a i + t := by
  have h1 : a.mags.getD i none = some (magOf a i) := magAt_used h
  have h2 : (shifted a t).mags.getD i none = (a.mags.getD i none).map (· + t) := by
    simp only [shifted, List.getD_eq_getElem?_getD, List.getElem?_map]
    cases a.mags[i]? <;> rfl
  unfold magOf
  rw [h2]
  rw [h1]
  rfl

theorem firstLarger_shift (m : List ℝ) (t thr : ℝ) (i j : ℕ) :
    FirstLarger (m.map (· + t)) thr i j ↔ FirstLarger m thr i j := by
  unfold FirstLarger
  simp only [List.getElem?_map, Option.map_eq_some_iff]
  constructor
  · rintro ⟨h1, ⟨_, _, ⟨x, hx, rfl⟩, ⟨y, hy, rfl⟩, h2⟩, h3⟩
    refine ⟨h1, ⟨x, y, hx, hy, by linarith⟩, fun k hk hk' u v hu hv => ?_⟩
    have := h3 k hk hk' (u + t) (v + t) ⟨u, hu, rfl⟩ ⟨v, hv, rfl⟩
    linarith
  · rintro ⟨h1, ⟨x, y, hx, hy, h2⟩, h3⟩
    refine ⟨h1, ⟨_, _, ⟨x, hx, rfl⟩, ⟨y, hy, rfl⟩, by linarith⟩, ?_⟩
    rintro k hk hk' _ _ ⟨u, hu, rfl⟩ ⟨v, hv, rfl⟩
    have := h3 k hk hk' u v hu hv
    linarith

theorem ranksOf_shift (m : List ℝ) (t δ dmc : ℝ) :
    ranksOf (m.map (· + t)) δ dmc = ranksOf m δ dmc := by
  apply C25_ranks_unique (ranksOf_spec _ _ _)
  refine ⟨(ranksOf_spec m δ dmc).increasing, fun i j => ?_⟩
  rw [firstLarger_shift]
  exact (ranksOf_spec m δ dmc).mem i j

theorem pairs_shifted {c : Cls} (hc : c = .positive ∨ c = .morePositive) (a : Args) (t : ℝ) :
    pairsOf c (shifted a t) = pairsOf c a := by
  have hmap : (timeOrder a).map (magOf (shifted a t)) = ((timeOrder a).map (magOf a)).map (· + t) := by
    rw [List.map_map]
    apply List.map_congr_left
    intro i hi
    exact magOf_shifted t (mem_timeOrder.1 hi)
  have hcut : cutoff (shifted a t) = cutoff a := rfl
  have hδ : (shifted a t).δ = a.δ := rfl
  rcases hc with rfl | rfl
  · unfold pairsOf growing
    simp only [timeOrder_shifted, hcut, hδ]
    apply List.filter_congr
    intro p hp
    have h1 := List.of_mem_zip hp
    rw [magOf_shifted t (mem_timeOrder.1 h1.1),
      magOf_shifted t (mem_timeOrder.1 (List.mem_of_mem_tail h1.2))]
    congr 1
    rw [eq_iff_iff]
    constructor <;> intro h <;> linarith
  · unfold pairsOf
    simp only [timeOrder_shifted, hcut, hδ, hmap, ranksOf_shift]

theorem pairsOf_mem {c : Cls} (hc : c = .positive ∨ c = .morePositive) {a : Args} {p : ℕ × ℕ}
    (h : p ∈ pairsOf c a) : p.1 ∈ usedIdx a ∧ p.2 ∈ usedIdx a := by
  rcases hc with rfl | rfl
  · unfold pairsOf growing at h
    have h1 := List.of_mem_zip (List.mem_filter.1 h).1
    exact ⟨mem_timeOrder.1 h1.1, mem_timeOrder.1 (List.mem_of_mem_tail h1.2)⟩
  · unfold pairsOf atRanks at h
    obtain ⟨r, hr, rfl⟩ := List.mem_map.1 h
    have hlt := firstLarger_lt (((ranksOf_spec _ a.δ (cutoff a)).mem r.1 r.2).1 hr)
    simp only [List.length_map] at hlt
    simp only [List.getD_eq_getElem _ _ hlt.1, List.getD_eq_getElem _ _ hlt.2]
    exact ⟨mem_timeOrder.1 (List.getElem_mem _), mem_timeOrder.1 (List.getElem_mem _)⟩

theorem diffsOf_shifted {c : Cls} (hc : c = .positive ∨ c = .morePositive) (a : Args) (t : ℝ) :
    diffsOf (shifted a t) (pairsOf c a) = diffsOf a (pairsOf c a) := by
  unfold diffsOf
  apply List.map_congr_left
  intro p hp
  obtain ⟨h1, h2⟩ := pairsOf_mem hc hp
  rw [magOf_shifted t h1, magOf_shifted t h2]
  have : magOf a p.2 + t - (magOf a p.1 + t) = magOf a p.2 - magOf a p.1 := by ring
  rw [this]
  rfl

/-- C23: adding `t` to all magnitudes and to `mc` changes neither the value nor the exception, nor the
attributes kept. -/
theorem C23_shift {c : Cls} (hc : c = .positive ∨ c = .morePositive) (warn : Bool) (s : State)
    (a : Args) (t : ℝ) :
    (calculate c warn s (shifted a t)).2 = (calculate c warn s a).2 ∧
      ∀ r, (calculate c warn s a).2 = .ok r →
        (calculate c warn s (shifted a t)).1.mags = (calculate c warn s a).1.mags ∧
        (calculate c warn s (shifted a t)).1.weights = (calculate c warn s a).1.weights ∧
        (calculate c warn s (shifted a t)).1.times = (calculate c warn s a).1.times ∧
        (calculate c warn s (shifted a t)).1.idx = (calculate c warn s a).1.idx := by
  have hres : (calculate c warn s (shifted a t)).2 = (calculate c warn s a).2 := by
    rw [posResult_all hc, posResult_all hc]
    have h1 : checkBinning (shifted a t).mags (shifted a t).δ = checkBinning a.mags a.δ := by
      unfold checkBinning shifted
      simp only [List.length_map, C08_shift_invariant]
    have h2 : checkWeights (shifted a t).mags.length (shifted a t).weights =
        checkWeights a.mags.length a.weights := by simp [shifted]
    have h3 : gatherOpt (shifted a t).times (usedIdx (shifted a t)) = gatherOpt a.times (usedIdx a) := by
      rw [usedIdx_shifted]; rfl
    have h4 : posResult c (shifted a t) = posResult c a := by
      unfold posResult
      rw [usedIdx_shifted, pairs_shifted hc, diffsOf_shifted hc]
      rfl
    rw [h1, h2, h3, h4]
    rfl
  refine ⟨hres, fun r hr => ?_⟩
  have e1 : calculate c warn s a = (_, .ok r) := Prod.ext rfl hr
  have e2 : calculate c warn s (shifted a t) = (_, .ok r) := Prod.ext rfl (hres.trans hr)
  have u1 := (run_ok hc e1).1
  have u2 := (run_ok hc e2).1
  rw [pairs_shifted hc] at u2
  have hm := u2.mags
  rw [diffsOf_shifted hc] at hm
  exact ⟨hm.trans u1.mags.symm, u2.weights.trans u1.weights.symm, u2.times.trans u1.times.symm,
    u2.idx.trans u1.idx.symm⟩

/-! ## C26 -/

/-- Events with an earlier one less than `δt` before them that is strictly larger are hidden. -/
def Visible (ev : List (ℝ × ℝ)) (δt : ℝ) (k : ℕ) : Prop :=
  ∀ j, j < k → (ev.getD k (0, 0)).2 - (ev.getD j (0, 0)).2 < δt →
    (ev.getD j (0, 0)).1 ≤ (ev.getD k (0, 0)).1

theorem any_take {α : Type} (l : List α) (d : α) (k : ℕ) (hk : k ≤ l.length) (p q : α → Bool) :
    ((l.take k).filter p).any q = true ↔ ∃ j, j < k ∧ p (l.getD j d) = true ∧ q (l.getD j d) = true := by
  simp only [List.any_eq_true, List.mem_filter]
  constructor
  · rintro ⟨x, ⟨hx, hp⟩, hq⟩
    obtain ⟨j, hj, rfl⟩ := List.getElem_of_mem hx
    have hj' : j < k ∧ j < l.length := by simpa using hj
    rw [List.getElem_take] at hp hq
    exact ⟨j, hj'.1, by rwa [List.getD_eq_getElem _ _ hj'.2], by rwa [List.getD_eq_getElem _ _ hj'.2]⟩
  · rintro ⟨j, hj, hp, hq⟩
    have hj' : j < l.length := lt_of_lt_of_le hj hk
    rw [List.getD_eq_getElem _ _ hj'] at hp hq
    refine ⟨l[j], ⟨?_, hp⟩, hq⟩
    rw [List.mem_take_iff_getElem]
    exact ⟨j, by simp [hj, hj'], rfl⟩

/-- The events in the order of time. -/
def incEvents (mags times : List ℝ) : List (ℝ × ℝ) :=
  (argsort times).map fun i => (mags.getD i 0, times.getD i 0)

theorem incomplete_eq (mags times : List ℝ) (δt : ℝ) :
    makeMoreIncomplete mags times δt =
      (((List.range (incEvents mags times).length).filter fun k =>
          decide (Visible (incEvents mags times) δt k)).map fun k => (incEvents mags times).getD k (0, 0),
        (List.range (incEvents mags times).length).map fun k =>
          decide (Visible (incEvents mags times) δt k)) := by
  unfold makeMoreIncomplete
  simp only []
  rw [show ((argsort times).map fun i => (mags.getD i 0, times.getD i 0)) = incEvents mags times from rfl]
  generalize incEvents mags times = ev
  have hk : ((List.range ev.length).map fun ii => if ii = 0 then true else
      !(((ev.take ii).filter fun e => decide ((ev.getD ii (0, 0)).2 - e.2 < δt)).any
        fun e => decide ((ev.getD ii (0, 0)).1 < e.1))) =
      (List.range ev.length).map fun k => decide (Visible ev δt k) := by
    apply List.map_congr_left
    intro k hk
    have hk := List.mem_range.1 hk
    by_cases h0 : k = 0
    · subst h0
      have : Visible ev δt 0 := fun j hj => absurd hj (by omega)
      simp [this]
    · rw [if_neg h0, Bool.eq_iff_iff, Bool.not_eq_true', ← Bool.not_eq_true, any_take ev (0, 0) k hk.le,
        decide_eq_true_iff]
      unfold Visible
      simp only [decide_eq_true_eq, not_exists, not_and, not_lt]
  rw [hk]
  refine Prod.ext ?_ rfl
  simp only []
  conv_lhs => lhs; rw [← map_getD_range ev (0, 0)]
  rw [mask_map]

theorem incEvents_sorted (mags times : List ℝ) :
    (incEvents mags times).Pairwise fun e f => e.2 ≤ f.2 := by
  unfold incEvents
  rw [List.pairwise_map]
  exact argsort_sorted times

/-- C26: `make_more_incomplete` works on the events in the order of time; an event is kept iff no earlier
event less than `delta_t` before it is strictly larger, and the mask selects the returned events. -/
theorem C26_kept (mags times : List ℝ) (δt : ℝ) :
    ∃ o ev, TimeOrdered (some times) (List.range times.length) o ∧
      ev = o.map (fun i => (mags.getD i 0, times.getD i 0)) ∧
      (makeMoreIncomplete mags times δt).2.length = times.length ∧
      (∀ k, k < times.length →
        ((makeMoreIncomplete mags times δt).2[k]? = some true ↔ Visible ev δt k)) ∧
      (makeMoreIncomplete mags times δt).1 =
        ((List.range times.length).filter fun k => decide (Visible ev δt k)).map fun k => ev.getD k (0, 0) := by
  have hl : (incEvents mags times).length = times.length := by
    unfold incEvents; rw [List.length_map, argsort_length]
  refine ⟨argsort times, incEvents mags times, ⟨argsort_perm times, ?_, ?_⟩, rfl, ?_, ?_, ?_⟩
  · intro t h; cases h; exact argsort_sorted times
  · intro h; cases h
  · rw [incomplete_eq]; simp [hl]
  · intro k hk
    rw [incomplete_eq]
    simp [hl, hk]
  · rw [incomplete_eq, hl]

/-- C26: the first event is always kept. -/
theorem C26_first_kept (mags times : List ℝ) (δt : ℝ) (h : times ≠ []) :
    (makeMoreIncomplete mags times δt).2.head? = some true := by
  have hl : (incEvents mags times).length = times.length := by
    unfold incEvents; rw [List.length_map, argsort_length]
  rw [incomplete_eq, hl]
  cases times with
  | nil => exact absurd rfl h
  | cons t r =>
    have : Visible (incEvents mags (t :: r)) δt 0 := fun j hj => absurd hj (by omega)
    simp [List.range_succ_eq_map, this]

theorem pairwise_visible (mags times : List ℝ) (δt : ℝ) :
    (makeMoreIncomplete mags times δt).1.Pairwise fun e f => f.2 - e.2 < δt → e.1 ≤ f.1 := by
  rw [incomplete_eq]
  simp only []
  rw [List.pairwise_map]
  have := (List.pairwise_lt_range (n := (incEvents mags times).length)).filter
    fun k => decide (Visible (incEvents mags times) δt k)
  refine this.imp_of_mem ?_
  intro i j _ hj hij h
  have hv : Visible (incEvents mags times) δt j := by
    simpa using (List.mem_filter.1 hj).2
  exact hv i hij h

/-- C26: the returned events are in the order of time. -/
theorem C26_time_order (mags times : List ℝ) (δt : ℝ) :
    (makeMoreIncomplete mags times δt).1.Pairwise fun e f => e.2 ≤ f.2 := by
  rw [incomplete_eq]
  simp only []
  rw [List.pairwise_map]
  have h1 := (List.pairwise_lt_range (n := (incEvents mags times).length)).filter
    fun k => decide (Visible (incEvents mags times) δt k)
  refine h1.imp_of_mem ?_
  intro i j hi hj hij
  have hi := List.mem_range.1 (List.mem_filter.1 hi).1
  have hj := List.mem_range.1 (List.mem_filter.1 hj).1
  rw [List.getD_eq_getElem _ _ hi, List.getD_eq_getElem _ _ hj]
  exact List.pairwise_iff_getElem.1 (incEvents_sorted mags times) i j hi hj hij

theorem argsort_of_sorted (t : List ℝ) (h : t.Pairwise (· ≤ ·)) : argsort t = List.range t.length := by
  unfold argsort
  apply List.Pairwise.insertionSort_eq
  refine (List.pairwise_lt_range (n := t.length)).imp_of_mem ?_
  intro i j hi hj hij
  have hi := List.mem_range.1 hi
  have hj := List.mem_range.1 hj
  rw [List.getD_eq_getElem _ _ hi, List.getD_eq_getElem _ _ hj]
  exact List.pairwise_iff_getElem.1 h i j hi hj hij

/-- C26: applying it twice changes nothing: the second application keeps every event. -/
theorem C26_idempotent (mags times : List ℝ) (δt : ℝ) (r : List (ℝ × ℝ))
    (hr : (makeMoreIncomplete mags times δt).1 = r) :
    makeMoreIncomplete (r.map Prod.fst) (r.map Prod.snd) δt = (r, r.map fun _ => true) := by
  have h1 := pairwise_visible mags times δt
  have h2 := C26_time_order mags times δt
  rw [hr] at h1 h2
  have he : incEvents (r.map Prod.fst) (r.map Prod.snd) = r := by
    unfold incEvents
    rw [argsort_of_sorted _ (by rw [List.pairwise_map]; exact h2)]
    conv_rhs => rw [← map_getD_range r (0, 0)]
    rw [List.length_map]
    apply List.map_congr_left
    intro i hi
    have hi := List.mem_range.1 hi
    simp [List.getD_eq_getElem?_getD, hi]
  rw [incomplete_eq, he]
  have hv : ∀ k, k < r.length → Visible r δt k := by
    intro k hk j hj h
    have hj' : j < r.length := by omega
    rw [List.getD_eq_getElem _ _ hk, List.getD_eq_getElem _ _ hj'] at *
    exact List.pairwise_iff_getElem.1 h1 j k hj' hk hj h
  refine Prod.ext ?_ ?_
  · simp only []
    rw [List.filter_eq_self.2]
    · exact map_getD_range r (0, 0)
    · intro k hk; simpa using hv k (List.mem_range.1 hk)
  · simp only []
    apply List.ext_getElem
    · simp
    · intro k h3 h4
      have hk : k < r.length := by simpa using h4
      simp [hv k hk]

/-! ## The hypotheses are met -/

/-- Reference data: magnitudes 1, 3, 2, 4 at times 1, 2, 3, 4 with `mc = 1`, `delta_m = 1`. -/
def demoT : Args :=
  timed [(some 1, 1, 1), (some 3, 1, 2), (some 2, 1, 3), (some 4, 1, 4)] true 1 1 none

theorem demoT_valid : Valid demoT := by
  rw [← accepted_iff]
  refine ⟨Or.inr ?_, ?_⟩
  · have := C08_grid_accepted (K := ℝ) [some 1, some 3, some 2, some 4] 0 1 (1 / 10 ^ 15) (by norm_num)
      (by norm_num) ⟨1, by simp⟩
    simpa [demoT, timed] using this
  · intro w hw
    simp only [demoT, timed, if_true, List.map_cons, List.map_nil, Option.some.injEq] at hw
    subst hw
    simp [demoT, timed]

theorem demoT_idx : usedIdx demoT = [0, 1, 2, 3] := by
  have h1 : ∀ x : ℝ, 1 ≤ x → (1 : ℝ) - 1 / 2 ≤ x := by intro x h; linarith
  have h2 : (1 : ℝ) ≤ 3 + 1 / 2 := by norm_num
  have h3 : (1 : ℝ) ≤ 2 + 1 / 2 := by norm_num
  have h4 : (1 : ℝ) ≤ 4 + 1 / 2 := by norm_num
  norm_num [usedIdx, selIdx, demoT, timed, List.range_succ, List.filter, h2, h3, h4]

theorem demoT_order : timeOrder demoT = [0, 1, 2, 3] := by
  unfold timeOrder
  have : demoT.times = some [1, 2, 3, 4] := rfl
  rw [this, demoT_idx]
  simp only [List.map_cons, List.map_nil, List.getD_cons_zero, List.getD_cons_succ]
  rw [argsort_of_sorted]
  · rfl
  · norm_num

theorem demoT_cutoff : cutoff demoT = 1 := rfl

theorem demoT_pairs : pairsOf .positive demoT = [(0, 1), (2, 3)] := by
  unfold pairsOf growing
  simp only [demoT_order, demoT_cutoff]
  norm_num [List.filter, magOf, demoT, timed]

/-- C22, C23 on the reference data: a successful call with two used differences. -/
example : ∃ s' r, calculate .positive true State.init demoT = (s', .ok r) ∧ s'.idx = some [1, 3] ∧
    s'.mags = some [some 2, some 2] := by
  have hg : gatherOpt demoT.times (usedIdx demoT) = .ok (some [1, 2, 3, 4]) := by
    rw [demoT_idx]; rfl
  obtain ⟨s', e, u⟩ := run_nonempty (Or.inl rfl) true State.init demoT demoT_valid
    (by rw [demoT_cutoff]; norm_num) (by rw [demoT_idx]; simp) hg
    (Or.inr (by norm_num [demoT, timed]))
  rw [demoT_pairs] at e u
  have hb2 : onGrid 1 2 = 2 := by
    unfold onGrid
    rw [if_pos one_pos]
    have := binTo_int_mul (K := ℝ) one_ne_zero 2
    norm_num at this
    exact this
  have hD : diffsOf demoT [(0, 1), (2, 3)] = [(2, 1), (2, 1)] := by
    have e1 : magOf demoT 1 - magOf demoT 0 = 2 := by norm_num [magOf, demoT, timed]
    have e2 : magOf demoT 3 - magOf demoT 2 = 2 := by norm_num [magOf, demoT, timed]
    have e3 : demoT.δ = 1 := rfl
    simp only [diffsOf, List.map_cons, List.map_nil, e1, e2, e3, hb2]
    rfl
  rw [hD] at e
  obtain ⟨b, hb, -⟩ := pairResult_mle demoT [(2, 1), (2, 1)] (by simp)
    (by norm_num [Spec.total]) (by rw [demoT_cutoff]; norm_num [Spec.wmean])
  rw [hb] at e
  refine ⟨s', _, e, ?_, ?_⟩
  · rw [u.idx]; rfl
  · rw [u.mags, hD]; rfl

/-- The distinct times required by `C23_permutation` on the reference data. -/
example : (([(some 1, 1, 1), (some 3, 1, 2), (some 2, 1, 3), (some 4, 1, 4)] : List (Option ℝ × ℝ × ℝ)).map
    fun e => e.2.2).Nodup := by norm_num

/-- C25 on the reference data: the first event is paired with the second, the second and the
third with the fourth. -/
example : FirstLarger [1, 3, 2, 4] (1 - 1 / 2) 0 1 ∧ FirstLarger [1, 3, 2, 4] (1 - 1 / 2) 1 3 ∧
    FirstLarger [1, 3, 2, 4] (1 - 1 / 2) 2 3 := by
  refine ⟨⟨by norm_num, ⟨1, 3, rfl, rfl, by norm_num⟩, ?_⟩, ⟨by norm_num, ⟨3, 4, rfl, rfl, by norm_num⟩, ?_⟩,
    ⟨by norm_num, ⟨2, 4, rfl, rfl, by norm_num⟩, ?_⟩⟩
  · intro k h1 h2; omega
  · intro k h1 h2 x y hx hy
    have : k = 2 := by omega
    subst this
    simp at hx hy
    subst hx hy
    norm_num
  · intro k h1 h2; omega

/-- C26: of three events the smaller one shortly after a larger one is dropped. -/
example : (makeMoreIncomplete [3, 1, 2] [0, 1, 10] 5).2 = [true, false, true] := by
  have he : incEvents [3, 1, 2] [0, 1, 10] = [(3, 0), (1, 1), (2, 10)] := by
    unfold incEvents
    rw [argsort_of_sorted _ (by norm_num)]
    rfl
  rw [incomplete_eq, he]
  have v0 : Visible [(3, 0), (1, 1), (2, 10)] 5 0 := fun j hj => absurd hj (by omega)
  have v1 : ¬ Visible [(3, 0), (1, 1), (2, 10)] 5 1 := by
    intro h
    have := h 0 (by norm_num) (by norm_num)
    norm_num at this
  have v2 : Visible [(3, 0), (1, 1), (2, 10)] 5 2 := by
    intro j hj h
    interval_cases j <;> norm_num at h
  simp [List.range_succ, v0, v1, v2]

end
end SeismoStats.Props
