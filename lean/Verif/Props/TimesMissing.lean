/-
C129: missing times in the estimators that sort by time.
-/
import Verif.Model.TimesMissing
import Verif.Proofs.BPositive

namespace SeismoStats
namespace Props
open Classical
open BValue (Cls State Args)
noncomputable section

private theorem insertionSort_agree {α : Type} {r s : α → α → Prop} [DecidableRel r] [DecidableRel s] (l : List α) (h : ∀ a ∈ l, ∀ b ∈ l, (r a b ↔ s a b)) :
    l.insertionSort r = l.insertionSort s := by
  have := List.map_insertionSort (r := r) (s := s) id l (fun a ha b hb => h a ha b hb)
  simpa using this

private theorem argsort_far {l : List (Option ℝ)} {far : ℝ} (hf : ∀ t, some t ∈ l → t < far) : argsort (l.map fun t => t.getD far) = argsortM l := by
  unfold argsort argsortM
  rw [List.length_map]
  apply insertionSort_agree
  intro i hi j hj
  have hi := List.mem_range.1 hi
  have hj := List.mem_range.1 hj
  have ei : (l.map fun t => t.getD far).getD i 0 = (l[i]).getD far := by
    rw [List.getD_eq_getElem _ _ (by rw [List.length_map]; exact hi), List.getElem_map]
  have ej : (l.map fun t => t.getD far).getD j 0 = (l[j]).getD far := by
    rw [List.getD_eq_getElem _ _ (by rw [List.length_map]; exact hj), List.getElem_map]
  rw [ei, ej, List.getD_eq_getElem _ _ hi, List.getD_eq_getElem _ _ hj]
  have mi := List.getElem_mem hi
  have mj := List.getElem_mem hj
  cases h1 : l[i] with
  | none =>
    cases h2 : l[j] with
    | none => exact ⟨fun _ => trivial, fun _ => le_rfl⟩
    | some b =>
      rw [h2] at mj
      exact ⟨fun h => absurd (hf b mj) (not_lt.2 h), fun h => h.elim⟩
  | some a =>
    rw [h1] at mi
    cases h2 : l[j] with
    | none => exact ⟨fun _ => trivial, fun _ => (hf a mi).le⟩
    | some b => exact Iff.rfl

private theorem gather_cons {α : Type} (l : List α) (i : ℕ) (r : List ℕ) :
    gather l (i :: r) = match l[i]? with
      | none => .error .indexError
      | some v => (gather l r).map fun t => v :: t := by
  unfold gather
  rw [List.mapM_cons]
  cases l[i]? with
  | none => rfl
  | some v =>
    change (do let t ← gather l r; pure (v :: t)) = _
    change _ = (gather l r).map _
    cases gather l r <;> rfl

private theorem gather_map' {α β : Type} (f : α → β) (l : List α) (idx : List ℕ) : gather (l.map f) idx = (gather l idx).map (List.map f) := by
  induction idx with
  | nil => rfl
  | cons i r ih =>
    rw [gather_cons, gather_cons, ih, List.getElem?_map]
    cases l[i]? with
    | none => rfl
    | some v => cases gather l r <;> rfl

private theorem gather_mem' {α : Type} {l r : List α} {idx : List ℕ} (h : gather l idx = .ok r) : ∀ x ∈ r, x ∈ l := by
  induction idx generalizing r with
  | nil => cases h; intro x hx; cases hx
  | cons i k ih =>
    rw [gather_cons] at h
    cases e : l[i]? with
    | none => rw [e] at h; cases h
    | some v =>
      rw [e] at h
      dsimp only at h
      cases e2 : gather l k with
      | error e => rw [e2] at h; cases h
      | ok t =>
        rw [e2] at h
        cases h
        intro x hx
        rcases List.mem_cons.1 hx with rfl | hx
        · exact List.mem_of_getElem? e
        · exact ih e2 x hx

/-- The object and the result of a call, without the attribute `times`. -/
def withoutTimes (r : State × Py (Fl ℝ)) : State × Py (Fl ℝ) := ({ r.1 with times := none }, r.2)

private theorem store_withoutTimes (r : State × Py (Fl ℝ)) : withoutTimes (BValue.store r) = BValue.store (withoutTimes r) := by
  obtain ⟨s, r⟩ := r
  cases r <;> rfl

private theorem estimate_withoutTimes {c : Cls} (hc : c = .positive ∨ c = .morePositive) {s : State} {t : List ℝ} {u : List (Option ℝ)} (h : argsort t = argsortM u) :
    withoutTimes (BValue.estimate c { s with times := some t }) = withoutTimes (BValue.estimate c (BValue.sortByTimeM c { s with times := none } u)) := by
  rcases hc with rfl | rfl
  · change withoutTimes (BValue.estimatePositive _) = withoutTimes (BValue.estimatePositive _)
    unfold BValue.estimatePositive BValue.sortByTime BValue.sortByTimeM
    dsimp only
    rw [h, if_neg (by simp), if_neg (by simp)]
    cases BValue.binDiffs (diff (BValue.nums (s.mags.map fun x => BValue.take' x (argsortM u)))) (s.δ.getD 0) <;> rfl
  · change withoutTimes (BValue.estimateMorePositive _) = withoutTimes (BValue.estimateMorePositive _)
    unfold BValue.estimateMorePositive BValue.sortOriginals BValue.sortByTime BValue.sortByTimeM
    dsimp only
    rw [h, if_pos rfl, if_pos rfl]
    cases binArr (List.zipWith (fun j x => (BValue.nums (s.mags.map fun x => BValue.take' x (argsortM u))).getD j 0 - x)
      (BValue.findNextLarger (BValue.nums (s.mags.map fun x => BValue.take' x (argsortM u))) (s.δ.getD 0) (some (s.dmc.getD 0)))
      (BValue.nums (s.mags.map fun x => BValue.take' x (argsortM u)))) (s.δ.getD 0) <;> rfl

/-- The rest of `baseCalculate` after the filter. -/
private def afterFilter (c : Cls) (s : State) : State × Py (Fl ℝ) :=
  let s := { s with origMags := some (BValue.nums s.mags) }
  let s := match s.weights with
    | some w => { s with origWeights := some w }
    | none => s
  if (s.mags.getD []).length = 0 then
    ({ s with b := some .nan }, .ok .nan)
  else
    BValue.store (BValue.estimate c s)

private theorem baseCalculate_stages (c : Cls) (warn : Bool) (s : State) (a : Args) :
    BValue.baseCalculate c warn s a =
      match BValue.sanityChecks warn { s with mags := some a.mags, mc := some a.mc, δ := some a.δ, weights := a.weights } with
      | (s, .error e) => (s, .error e)
      | (s, .ok ()) =>
        match BValue.filterMagnitudes warn s with
        | (s, .error e) => (s, .error e)
        | (s, .ok ()) => afterFilter c s := by
  unfold BValue.baseCalculate afterFilter
  rfl

private theorem sanityChecks_times (warn : Bool) (s : State) (x : Option (List ℝ)) :
    BValue.sanityChecks warn { s with times := x } =
      ({ (BValue.sanityChecks warn s).1 with times := x }, (BValue.sanityChecks warn s).2) := by
  unfold BValue.sanityChecks
  dsimp only
  cases BValue.checkBinning (s.mags.getD []) (s.δ.getD 0) <;> rfl

private theorem sanityChecks_keep (warn : Bool) (s : State) : (BValue.sanityChecks warn s).1.times = s.times := by
  unfold BValue.sanityChecks
  dsimp only
  cases BValue.checkBinning (s.mags.getD []) (s.δ.getD 0) <;> rfl

private theorem filter_times (warn : Bool) (s : State) (T : List ℝ) (hs : s.times = none) :
    BValue.filterMagnitudes warn { s with times := some T } =
      match BValue.filterMagnitudes warn s with
      | (s, .error e) => ({ s with times := some T }, .error e)
      | (s, .ok ()) => match gather T (s.idx.getD []) with
        | .error e => ({ s with times := some T }, .error e)
        | .ok t => ({ s with times := some t }, .ok ()) := by
  unfold BValue.filterMagnitudes
  dsimp only
  rw [hs]
  cases BValue.gatherOpt s.weights (BValue.selIdx (s.mags.getD []) (s.mc.getD 0) (s.δ.getD 0)) with
  | error e => rfl
  | ok w =>
    dsimp only [BValue.gatherOpt, Option.getD_some]
    cases gather T (BValue.selIdx (s.mags.getD []) (s.mc.getD 0) (s.δ.getD 0)) <;> rfl

private theorem filter_keep (warn : Bool) (s : State) (hs : s.times = none) : (BValue.filterMagnitudes warn s).1.times = none := by
  unfold BValue.filterMagnitudes
  dsimp only
  rw [hs]
  cases BValue.gatherOpt s.weights (BValue.selIdx (s.mags.getD []) (s.mc.getD 0) (s.δ.getD 0)) <;> rfl

private theorem afterFilter_times {c : Cls} (hc : c = .positive ∨ c = .morePositive) {s : State} (hs : s.times = none) {t : List ℝ} {u : List (Option ℝ)}
    (h : argsort t = argsortM u) : withoutTimes (afterFilter c { s with times := some t }) = withoutTimes (BValue.afterFilterM c s u) := by
  unfold afterFilter BValue.afterFilterM
  obtain ⟨mags, mc, δ, weights, idx, times, dmc, b, om, ow, warned⟩ := s
  subst hs
  dsimp only
  cases weights with
  | none =>
    dsimp only
    by_cases hl : (mags.getD []).length = 0
    · rw [if_pos hl, if_pos hl]; rfl
    · rw [if_neg hl, if_neg hl, store_withoutTimes, store_withoutTimes]
      exact congrArg _ (estimate_withoutTimes hc (s := ⟨mags, mc, δ, none, idx, none, dmc, b, some (BValue.nums mags), ow, warned⟩) h)
  | some w =>
    dsimp only
    by_cases hl : (mags.getD []).length = 0
    · rw [if_pos hl, if_pos hl]; rfl
    · rw [if_neg hl, if_neg hl, store_withoutTimes, store_withoutTimes]
      exact congrArg _ (estimate_withoutTimes hc (s := ⟨mags, mc, δ, some w, idx, none, dmc, b, some (BValue.nums mags), some w, warned⟩) h)

private theorem baseCalculate_times {c : Cls} (hc : c = .positive ∨ c = .morePositive) (warn : Bool) (s : State) (hs : s.times = none) (a a' : Args)
    (times : List (Option ℝ)) {far : ℝ} (hf : ∀ t, some t ∈ times → t < far) (ha : a' = { a with times := some (times.map fun t => t.getD far) }) :
    withoutTimes (BValue.baseCalculateM c warn s a times) =
      withoutTimes (BValue.baseCalculate c warn { s with times := some (times.map fun t => t.getD far) } a') := by
  subst ha
  rw [baseCalculate_stages]
  unfold BValue.baseCalculateM
  have e := sanityChecks_times warn { s with mags := some a.mags, mc := some a.mc, δ := some a.δ, weights := a.weights } (some (times.map fun t => t.getD far))
  have k := sanityChecks_keep warn { s with mags := some a.mags, mc := some a.mc, δ := some a.δ, weights := a.weights }
  dsimp only at e k ⊢
  rw [e]
  generalize BValue.sanityChecks warn { s with mags := some a.mags, mc := some a.mc, δ := some a.δ, weights := a.weights } = p at k ⊢
  obtain ⟨s1, r1⟩ := p
  have k1 : s1.times = none := k.trans hs
  cases r1 with
  | error e => rfl
  | ok x =>
    dsimp only
    rw [filter_times warn s1 _ k1]
    have k2 := filter_keep warn s1 k1
    generalize BValue.filterMagnitudes warn s1 = q at k2 ⊢
    obtain ⟨s2, r2⟩ := q
    cases r2 with
    | error e => rfl
    | ok x =>
      dsimp only
      rw [gather_map']
      cases e : gather times (s2.idx.getD []) with
      | error e => rfl
      | ok t =>
        exact (afterFilter_times hc k2 (argsort_far fun x hx => hf x (gather_mem' e _ hx))).symm

/-- C129: in the two b-positive estimators an event without a time is treated as if its time was later than all known times: result and attributes
(other than `times`) are those with any such time in place of the missing ones. -/
theorem C129_b_last {c : Cls} (hc : c = .positive ∨ c = .morePositive) (warn : Bool) (s : State) (a : Args) (times : List (Option ℝ)) {far : ℝ}
    (hf : ∀ t, some t ∈ times → t < far) :
    withoutTimes (BValue.calculateM c warn s a times) = withoutTimes (BValue.calculate c warn s { a with times := some (times.map fun t => t.getD far) }) := by
  have e : BValue.calculate c warn s { a with times := some (times.map fun t => t.getD far) } =
      if a.dmc.getD a.δ < 0 then ({ s with warned := [], times := (some (times.map fun t => t.getD far)), dmc := (some (a.dmc.getD a.δ)) }, .error .valueError)
      else BValue.baseCalculate c warn { s with warned := [] ++ (if a.dmc.getD a.δ < a.δ && warn then [BValue.Warn.dmcSmall] else []), times := some (times.map fun t => t.getD far), dmc := some (a.dmc.getD a.δ) } { a with times := some (times.map fun t => t.getD far) } := by
    rcases hc with rfl | rfl <;> rfl
  rw [e]
  unfold BValue.calculateM
  dsimp only
  by_cases h : a.dmc.getD a.δ < 0
  · rw [if_pos h, if_pos h]; rfl
  · rw [if_neg h, if_neg h]
    exact baseCalculate_times hc warn _ rfl a _ times hf rfl

/-- C129: if no time is missing, the call is that of C22 and C25. -/
theorem C129_b_complete {c : Cls} (hc : c = .positive ∨ c = .morePositive) (warn : Bool) (s : State) (a : Args) (times : List ℝ) :
    withoutTimes (BValue.calculateM c warn s a (times.map some)) = withoutTimes (BValue.calculate c warn s { a with times := some times }) := by
  obtain ⟨far, hfar⟩ : ∃ far : ℝ, ∀ t ∈ times, t < far := by
    obtain ⟨u, hu⟩ := times.toFinset.exists_le
    exact ⟨u + 1, fun t ht => lt_of_le_of_lt (hu t (List.mem_toFinset.2 ht)) (lt_add_one u)⟩
  have e := C129_b_last hc warn s a (times.map some) (far := far) (fun t ht => by
    obtain ⟨x, hx, h⟩ := List.mem_map.1 ht
    injection h with h
    subst h
    exact hfar x hx)
  rw [List.map_map] at e
  have : (times.map ((fun t : Option ℝ => t.getD far) ∘ some)) = times := by
    conv_rhs => rw [← List.map_id times]
    rfl
  rwa [this] at e

/-! ### a-values -/

private theorem argsortM_perm (t : List (Option ℝ)) : (argsortM t).Perm (List.range t.length) := List.perm_insertionSort _ _

private theorem timeBefore_total (a b : Option ℝ) : timeBefore a b ∨ timeBefore b a := by
  cases a <;> cases b
  · exact Or.inl trivial
  · exact Or.inr trivial
  · exact Or.inl trivial
  · exact le_total _ _

private theorem timeBefore_trans {a b c : Option ℝ} (h : timeBefore a b) (k : timeBefore b c) : timeBefore a c := by
  cases a <;> cases b <;> cases c <;> first | trivial | exact h.elim | exact k.elim | exact le_trans h k

private theorem sorted_times (t : List (Option ℝ)) : (BValue.take' t (argsortM t)).Pairwise timeBefore := by
  have h : (argsortM t).Pairwise fun i j => timeBefore (t.getD i none) (t.getD j none) := by
    letI : Std.Total (fun i j : ℕ => timeBefore (t.getD i none) (t.getD j none)) := ⟨fun a b => timeBefore_total _ _⟩
    letI : IsTrans ℕ (fun i j : ℕ => timeBefore (t.getD i none) (t.getD j none)) := ⟨fun a b c h k => timeBefore_trans h k⟩
    exact List.pairwise_insertionSort _ _
  unfold BValue.take'
  rw [List.pairwise_map]
  exact h

private theorem mem_sorted {t : List (Option ℝ)} {x : Option ℝ} (h : x ∈ t) : x ∈ BValue.take' t (argsortM t) := by
  obtain ⟨i, hi, rfl⟩ := List.mem_iff_getElem.1 h
  unfold BValue.take'
  exact List.mem_map.2 ⟨i, (argsortM_perm t).mem_iff.2 (List.mem_range.2 hi), List.getD_eq_getElem _ _ hi⟩

private theorem last_none {l : List (Option ℝ)} (h : l.Pairwise timeBefore) (hn : none ∈ l) : l.getLastD none = none := by
  rcases List.eq_nil_or_concat l with rfl | ⟨r, x, rfl⟩
  · rfl
  · rw [List.concat_eq_append] at *
    rw [List.getLastD_concat]
    rcases List.mem_append.1 hn with hn | hn
    · have := (List.pairwise_append.1 h).2.2 none hn x (List.mem_singleton.2 rfl)
      cases x with
      | none => rfl
      | some a => exact this.elim
    · exact (List.mem_singleton.1 hn).symm

private theorem sum_nan (l : List (Fl ℝ)) : l.foldl Fl.add .nan = .nan := by
  induction l with
  | nil => rfl
  | cons a l ih => exact ih

private theorem rateM_none (n : ℕ) {waits : List (Option ℝ)} (h : waits ≠ []) : AValue.rateM n waits none = .nan := by
  obtain ⟨w, r, rfl⟩ := List.exists_cons_of_ne_nil h
  have e : Fl.sum ((w :: r).map fun w => AValue.divM w none) = .nan := by
    have d : AValue.divM w none = .nan := by cases w <;> rfl
    change (r.map _).foldl Fl.add (Fl.add (.fin 0) (AValue.divM w none)) = _
    rw [d]
    exact sum_nan _
  unfold AValue.rateM
  rw [e]
  rfl

private theorem span_none {t : List (Option ℝ)} (h : none ∈ t) : AValue.spanM (BValue.take' t (argsortM t)) = none := by
  unfold AValue.spanM
  rw [last_none (sorted_times t) (mem_sorted h)]
  rfl

private theorem positiveM_nan (warn : Bool) (s : AValue.State) {t : List (Option ℝ)} (h : none ∈ t) : (AValue.positiveM warn s t).2 = .nan := by
  unfold AValue.positiveM
  dsimp only
  split
  · rfl
  · rename_i hl
    dsimp only
    rw [span_none h]
    exact rateM_none _ (fun e => hl (List.length_eq_zero_iff.2 e))

private theorem morePositiveM_nan (warn : Bool) (s : AValue.State) {t : List (Option ℝ)} (h : none ∈ t) : (AValue.morePositiveM warn s t).2 = .nan := by
  unfold AValue.morePositiveM
  dsimp only
  split
  · rfl
  · rename_i hl
    dsimp only
    rw [span_none h]
    apply rateM_none
    intro e
    have ht : BValue.take' t (argsortM t) ≠ [] := List.ne_nil_of_mem (mem_sorted h)
    unfold AValue.scaleWaitsM AValue.waitsMoreM at e
    rw [List.zipWith_eq_nil_iff, List.zipWith_eq_nil_iff] at e
    have hm : ∀ m : List ℝ, ∀ δ d, m = [] → BValue.findNextLarger m δ d = [] := by rintro m δ d rfl; rfl
    rcases e with (e | e) | e
    · exact hl (by rw [e]; rfl)
    · exact ht e
    · exact hl (by rw [hm _ _ _ e]; rfl)

private theorem gather_mem_of {α : Type} {l r : List α} {idx : List ℕ} (h : gather l idx = .ok r) {i : ℕ} (hi : i ∈ idx) {v : α} (hv : l[i]? = some v) : v ∈ r := by
  induction idx generalizing r with
  | nil => cases hi
  | cons j k ih =>
    rw [gather_cons] at h
    cases e : l[j]? with
    | none => rw [e] at h; cases h
    | some x =>
      rw [e] at h
      dsimp only at h
      cases e2 : gather l k with
      | error e => rw [e2] at h; cases h
      | ok t =>
        rw [e2] at h
        cases h
        rcases List.mem_cons.1 hi with rfl | hi
        · rw [hv] at e; injection e with e; subst e; exact List.mem_cons_self
        · exact List.mem_cons_of_mem _ (ih e2 hi)

private theorem finish_nan {p : AValue.State × Fl ℝ} (h : p.2 = .nan) {v : Fl ℝ} (hv : (AValue.finish p).2 = .ok v) : v = .nan := by
  unfold AValue.finish AValue.referenceScaling at hv
  obtain ⟨s, a⟩ := p
  dsimp only at h hv
  subst h
  cases h1 : s.mref with
  | none =>
    rw [h1] at hv
    cases h2 : s.scaling with
    | none => rw [h2] at hv; cases hv; rfl
    | some f => rw [h2] at hv; cases hv; rfl
  | some r =>
    rw [h1] at hv
    cases h3 : s.b with
    | none => rw [h3] at hv; cases hv
    | some b =>
      rw [h3] at hv
      cases h2 : s.scaling with
      | none => rw [h2] at hv; cases hv; rfl
      | some f => rw [h2] at hv; cases hv; rfl

/-- C129 (Limit): the a-positive and the a-more-positive value are NaN if a single event at or above the completeness magnitude has no time. -/
theorem C129_a_nan {c : AValue.Cls} {warn : Bool} {s : AValue.State} {x : AValue.Args} {times : List (Option ℝ)} {v : Fl ℝ}
    (h : (AValue.calculateM c warn s x times).2 = .ok v) {i : ℕ} {m : ℝ} (hi : x.mags[i]? = some (some m)) (hm : x.mc - x.δ / 2 ≤ m) (ht : times[i]? = some none) :
    v = .nan := by
  unfold AValue.calculateM at h
  dsimp only at h
  split at h
  · cases h
  · split at h
    · cases h
    · unfold AValue.baseCalculateM at h
      dsimp only at h
      split at h
      · cases h
      · unfold AValue.filterMagnitudes at h
        dsimp only [Option.getD_some] at h
        cases e : gather times (BValue.selIdx x.mags x.mc x.δ) with
        | error e1 => rw [e] at h; cases h
        | ok t =>
          rw [e] at h
          dsimp only at h
          have hs : i ∈ BValue.selIdx x.mags x.mc x.δ := by
            unfold BValue.selIdx
            rw [List.mem_filter]
            refine ⟨List.mem_range.2 (List.getElem?_eq_some_iff.1 hi).1, ?_⟩
            rw [List.getD_eq_getElem?_getD, hi]
            exact decide_eq_true hm
          have hn : none ∈ t := gather_mem_of e hs ht
          split at h
          · cases h; rfl
          · refine finish_nan ?_ h
            split
            · exact morePositiveM_nan _ _ hn
            · exact positiveM_nan _ _ hn

private theorem argsortM_some (t : List ℝ) : argsortM (t.map some) = argsort t := by
  obtain ⟨far, hfar⟩ : ∃ far : ℝ, ∀ x ∈ t, x < far := by
    obtain ⟨u, hu⟩ := t.toFinset.exists_le
    exact ⟨u + 1, fun x ht => lt_of_le_of_lt (hu x (List.mem_toFinset.2 ht)) (lt_add_one u)⟩
  rw [← argsort_far (l := t.map some) (far := far) (fun x hx => by
    obtain ⟨y, hy, h⟩ := List.mem_map.1 hx
    injection h with h
    subst h
    exact hfar y hy), List.map_map]
  congr 1
  conv_rhs => rw [← List.map_id t]
  rfl

private theorem sorted_some (t : List ℝ) : BValue.take' (t.map some) (argsortM (t.map some)) = (BValue.take' t (argsort t)).map some := by
  rw [argsortM_some]
  exact BValue.take'_map t some _ fun i hi => BValue.argsort_lt hi

private theorem mask_some {α : Type} (l : List α) (m : List Bool) : mask (l.map some) m = (mask l m).map some := by
  induction l generalizing m with
  | nil => rfl
  | cons a l ih =>
    cases m with
    | nil => rfl
    | cons b m =>
      have ih := ih m
      unfold mask at ih ⊢
      cases b
      · exact ih
      · exact congrArg (some a :: ·) ih

private theorem diff_some (t : List ℝ) : List.zipWith (fun a b => AValue.minusM b a) (t.map some) (t.map some).tail = (diff t).map some := by
  unfold diff
  rw [← List.map_tail, List.zipWith_map, List.map_zipWith]
  rfl

private theorem rate_some (n : ℕ) (w : List ℝ) (total : ℝ) : AValue.rateM n (w.map some) (some total) = AValue.rate n w total := by
  unfold AValue.rateM AValue.rate
  rw [List.map_map]
  rfl

private theorem span_some {t : List ℝ} (h : t ≠ []) : AValue.spanM (t.map some) = some (AValue.span t) := by
  obtain ⟨a, r, rfl⟩ := List.exists_cons_of_ne_nil h
  unfold AValue.spanM AValue.span
  rw [List.getLastD_eq_getLast?, List.getLastD_eq_getLast?, List.getLast?_map]
  cases e : (a :: r).getLast? with
  | none => cases (List.getLast?_eq_none_iff.1 e)
  | some x => rfl

private theorem waitsMore_some (t : List ℝ) (nxt : List ℕ) (h : ∀ j ∈ nxt, j < t.length) :
    AValue.waitsMoreM (t.map some) nxt = (AValue.waitsMore t nxt).map some := by
  unfold AValue.waitsMoreM AValue.waitsMore
  apply List.ext_getElem
  · simp
  · intro i hi hj
    simp only [List.getElem_zipWith, List.getElem_map]
    have hn : i < nxt.length := by simp at hi; omega
    have hl : (t.map some).getLastD none = some (t.getLastD 0) := by
      have ht : t ≠ [] := by rintro rfl; simp at hi
      rw [List.getLastD_eq_getLast?, List.getLastD_eq_getLast?, List.getLast?_map]
      cases e : t.getLast? with
      | none => exact absurd (List.getLast?_eq_none_iff.1 e) ht
      | some x => rfl
    have hb := h _ (List.getElem_mem hn)
    have ht : i < t.length := by simp at hi; omega
    have hj : (t.map some).getD nxt[i] none = some (t.getD nxt[i] 0) := by
      rw [List.getD_eq_getElem _ _ (by rw [List.length_map]; exact hb), List.getD_eq_getElem _ _ hb, List.getElem_map]
    by_cases h0 : nxt[i] = 0
    · rw [if_pos h0, if_pos h0]
      exact (congrArg (fun z => AValue.minusM z (some t[i])) hl).trans rfl
    · rw [if_neg h0, if_neg h0]
      exact (congrArg (fun z => AValue.minusM z (some t[i])) hj).trans rfl

private theorem scale_some (w m : List ℝ) (b dmc mc : ℝ) : AValue.scaleWaitsM (w.map some) m b dmc mc = (AValue.scaleWaits w m b dmc mc).map some := by
  unfold AValue.scaleWaitsM AValue.scaleWaits
  rw [List.zipWith_map_left, List.map_zipWith]
  rfl

private theorem rate_nil (n : ℕ) (x : Option ℝ) (y : ℝ) : AValue.rateM n [] x = AValue.rate n [] y := rfl

/-- The object and the result of a call, without the attribute `times`. -/
def withoutTimesA {α : Type} (r : AValue.State × α) : AValue.State × α := ({ r.1 with times := none }, r.2)

private theorem positive_some (warn : Bool) (s : AValue.State) (t : List ℝ) :
    withoutTimesA (AValue.positiveM warn s (t.map some)) = withoutTimesA (AValue.estimatePositive warn { s with times := some t }) := by
  unfold AValue.positiveM AValue.estimatePositive AValue.sortByTimeM AValue.sortByTime
  dsimp only [Option.getD_some]
  rw [sorted_some, diff_some, mask_some, List.length_map, argsortM_some]
  split
  · rfl
  · rename_i hl
    have ht : BValue.take' t (argsort t) ≠ [] := by
      intro e
      apply hl
      rw [e]
      rfl
    rw [span_some ht, rate_some]
    rfl

private theorem next_lt (m : List ℝ) (thr x : ℝ) (hm : 0 < m.length) : ∀ fuel jj, BValue.nextFrom m thr x fuel jj < m.length := by
  intro fuel
  induction fuel with
  | zero => intro jj; exact hm
  | succ n ih =>
    intro jj
    unfold BValue.nextFrom
    cases e : m[jj]? with
    | none => exact hm
    | some y =>
      dsimp only
      split
      · exact (List.getElem?_eq_some_iff.1 e).1
      · exact ih _

private theorem findNext_lt {m : List ℝ} {δ : ℝ} {d : Option ℝ} : ∀ j ∈ BValue.findNextLarger m δ d, j < m.length := by
  intro j hj
  unfold BValue.findNextLarger at hj
  obtain ⟨i, hi, rfl⟩ := List.mem_map.1 hj
  have hi := List.mem_range.1 hi
  split
  · exact next_lt _ _ _ (by omega) _ _
  · omega

private theorem more_some (warn : Bool) (s : AValue.State) (t : List ℝ)
    (hl : (BValue.nums (s.mags.map fun l => BValue.take' l (argsort t))).length = t.length) :
    withoutTimesA (AValue.morePositiveM warn s (t.map some)) = withoutTimesA (AValue.estimateMorePositive warn { s with times := some t }) := by
  unfold AValue.morePositiveM AValue.estimateMorePositive AValue.sortByTimeM AValue.sortByTime
  dsimp only [Option.getD_some]
  rw [sorted_some, argsortM_some]
  have hlen : (BValue.take' t (argsort t)).length = t.length := by
    unfold BValue.take'
    rw [List.length_map, BValue.argsort_length]
  split
  · rfl
  · rename_i hne
    rw [waitsMore_some _ _ (by rw [hlen, ← hl]; exact findNext_lt), scale_some]
    have ht : BValue.take' t (argsort t) ≠ [] := by
      intro e
      apply hne
      rw [e] at hlen
      have : (BValue.nums (s.mags.map fun l => BValue.take' l (argsort t))) = [] := List.length_eq_zero_iff.1 (hl.trans hlen.symm)
      rw [this]
      rfl
    rw [span_some ht, rate_some]
    rfl

private theorem finish_times (p q : AValue.State × Fl ℝ) (h : withoutTimesA p = withoutTimesA q) :
    withoutTimesA (AValue.finish p) = withoutTimesA (AValue.finish q) := by
  have hs : ∀ r : AValue.State × Fl ℝ, withoutTimesA (AValue.finish r) = withoutTimesA (AValue.finish (withoutTimesA r)) := by
    rintro ⟨s, a⟩
    unfold withoutTimesA AValue.finish AValue.referenceScaling
    dsimp only
    cases s.mref with
    | none => rfl
    | some r => cases s.b <;> rfl
  rw [hs p, h, ← hs q]

private theorem selected_known {mags : List (Option ℝ)} {mc δ : ℝ} {i : ℕ} (h : i ∈ BValue.selIdx mags mc δ) :
    ∃ m, mags[i]? = some (some m) ∧ mc - δ / 2 ≤ m := by
  unfold BValue.selIdx at h
  obtain ⟨h1, h2⟩ := List.mem_filter.1 h
  have h1 := List.mem_range.1 h1
  rw [List.getD_eq_getElem _ _ h1] at h2
  cases e : mags[i] with
  | none => rw [e] at h2; cases h2
  | some m =>
    rw [e] at h2
    exact ⟨m, by rw [List.getElem?_eq_getElem h1, e], of_decide_eq_true h2⟩

private theorem gather_src {α : Type} {l r : List α} {idx : List ℕ} (h : gather l idx = .ok r) : r.length = idx.length ∧ ∀ x ∈ r, ∃ i ∈ idx, l[i]? = some x := by
  induction idx generalizing r with
  | nil => cases h; exact ⟨rfl, fun x hx => by cases hx⟩
  | cons j k ih =>
    rw [gather_cons] at h
    cases e : l[j]? with
    | none => rw [e] at h; cases h
    | some v =>
      rw [e] at h
      dsimp only at h
      cases e2 : gather l k with
      | error e => rw [e2] at h; cases h
      | ok t =>
        rw [e2] at h
        cases h
        obtain ⟨i1, i2⟩ := ih e2
        refine ⟨congrArg (· + 1) i1, fun x hx => ?_⟩
        rcases List.mem_cons.1 hx with rfl | hx
        · exact ⟨j, List.mem_cons_self, e⟩
        · obtain ⟨i, hi, hx⟩ := i2 x hx
          exact ⟨i, List.mem_cons_of_mem _ hi, hx⟩

private theorem known_of {l : List (Option ℝ)} (d : ℝ) (h : none ∉ l) : (l.map fun t => t.getD d).map some = l := by
  rw [List.map_map]
  conv_rhs => rw [← List.map_id l]
  apply List.map_congr_left
  intro x hx
  cases x with
  | none => exact absurd hx h
  | some a => rfl

private theorem nums_known {l : List (Option ℝ)} (h : none ∉ l) : (BValue.nums (some l)).length = l.length := by
  conv_lhs => rw [← known_of 0 h, BValue.nums_some]
  rw [List.length_map]

/-- C129: times that are missing at events that are not used (below the completeness magnitude, or without magnitude) have no effect on the two a-values: result
and attributes (other than `times`) are those with any times in place of the missing ones. -/
theorem C129_a_used {c : AValue.Cls} (hc : c = .positive ∨ c = .morePositive) (warn : Bool) (s : AValue.State) (x : AValue.Args) (times : List (Option ℝ)) (d : ℝ)
    (h : ∀ (i : ℕ) (m : ℝ), x.mags[i]? = some (some m) → x.mc - x.δ / 2 ≤ m → times[i]? ≠ some none) :
    withoutTimesA (AValue.calculateM c warn s x times) = withoutTimesA (AValue.calculate c warn s { x with times := times.map fun t => t.getD d }) := by
  have base : ∀ s : AValue.State, withoutTimesA (AValue.baseCalculateM c warn { s with times := none } x times) =
      withoutTimesA (AValue.baseCalculate c warn { s with times := some (times.map fun t => t.getD d) } { x with times := times.map fun t => t.getD d }) := by
    intro s
    unfold AValue.baseCalculateM AValue.baseCalculate
    dsimp only
    cases BValue.checkBinning x.mags x.δ with
    | error e => rfl
    | ok _ =>
      cases e : gather times (BValue.selIdx x.mags x.mc x.δ) with
      | error e1 =>
        rcases hc with rfl | rfl
        all_goals
          unfold AValue.filterMagnitudes
          dsimp only [Option.getD_some]
          rw [gather_map', e]
          rfl
      | ok t =>
        obtain ⟨l1, l2⟩ := gather_src e
        have hn : none ∉ t := by
          intro hx
          obtain ⟨i, hi, hx⟩ := l2 none hx
          obtain ⟨m, hm, hle⟩ := selected_known hi
          exact h i m hm hle hx
        have ek := known_of d hn
        have e2 : gather (times.map fun t => t.getD d) (BValue.selIdx x.mags x.mc x.δ) = .ok (t.map fun t => t.getD d) := by rw [gather_map', e]; rfl
        generalize (t.map fun t => t.getD d) = u at ek e2
        subst ek
        rw [List.length_map] at l1
        have hlen : (BValue.nums (some (BValue.take' ((BValue.selIdx x.mags x.mc x.δ).map fun i => x.mags.getD i none) (argsort u)))).length = u.length := by
          rw [nums_known, BValue.take', List.length_map, BValue.argsort_length]
          intro hx
          unfold BValue.take' at hx
          obtain ⟨j, hj, hx⟩ := List.mem_map.1 hx
          have hj := BValue.argsort_lt hj
          rw [List.getD_eq_getElem _ _ (by rw [List.length_map, ← l1]; exact hj), List.getElem_map] at hx
          obtain ⟨m, hm, -⟩ := selected_known (List.getElem_mem (l := BValue.selIdx x.mags x.mc x.δ) (n := j) (by rw [← l1]; exact hj))
          rw [List.getD_eq_getElem?_getD, hm] at hx
          cases hx
        rcases hc with rfl | rfl
        all_goals
          unfold AValue.filterMagnitudes
          dsimp only [Option.getD_some]
          rw [e, e2]
          dsimp only [Option.getD_some]
          by_cases h0 : ((BValue.selIdx x.mags x.mc x.δ).map fun i => x.mags.getD i none).length = 0
          · rw [if_pos h0, if_pos h0]
            rfl
          · rw [if_neg h0, if_neg h0]
            refine finish_times _ _ ?_
            first
            | rw [if_pos rfl]
              exact more_some warn _ u hlen
            | rw [if_neg (by simp)]
              exact positive_some warn _ u
  unfold AValue.calculateM
  dsimp only
  rcases hc with rfl | rfl
  · rw [if_neg (by simp)]
    change _ = withoutTimesA (AValue.timedCalculate _ _ _ _)
    unfold AValue.timedCalculate
    dsimp only
    by_cases hd : x.dmc.getD x.δ < 0
    · rw [if_pos hd, if_pos hd]; rfl
    · rw [if_neg hd, if_neg hd]
      exact base ⟨s.mags, s.mc, s.δ, s.scaling, s.mref, s.b, s.idx, none, some (x.dmc.getD x.δ), s.a, _⟩
  · unfold AValue.calculate
    dsimp only
    by_cases hb : x.b.getD 0 = 0
    · rw [if_pos ⟨rfl, hb⟩, if_pos hb]; rfl
    · rw [if_neg (fun h => hb h.2), if_neg hb]
      unfold AValue.timedCalculate
      dsimp only
      by_cases hd : x.dmc.getD x.δ < 0
      · rw [if_pos hd, if_pos hd]; rfl
      · rw [if_neg hd, if_neg hd]
        exact base ⟨s.mags, s.mc, s.δ, s.scaling, s.mref, s.b, s.idx, none, some (x.dmc.getD x.δ), s.a, _⟩

/-- Three times, one of them missing. -/
example : ∀ t : ℝ, some t ∈ [some 1, none, some 2] → t < 3 := by
  intro t h
  simp at h
  rcases h with rfl | rfl <;> norm_num

private theorem check_zero (mags : List (Option ℝ)) (m : ℝ) (h : some m ∈ mags) : BValue.checkBinning mags 0 = .ok () := by
  have hy : mags.filterMap id ≠ [] := List.ne_nil_of_mem (List.mem_filterMap.2 ⟨some m, h, rfl⟩)
  obtain ⟨lo, hlo⟩ := exists_amin hy
  have e : binningTest mags 0 (defaultTol ℝ) false = .ok true := by
    have e0 : shiftToMin mags = .ok ((mags.filterMap id).map fun v => v - lo) := by
      unfold shiftToMin
      dsimp only
      rw [hlo]
    unfold binningTest
    rw [if_neg (fun h0 => List.ne_nil_of_mem h (List.length_eq_zero_iff.1 h0)), e0]
    change (if (decide ((0 : ℝ) = 0) && false) = true then binningTestZero ((mags.filterMap id).map fun v => v - lo) (defaultTol ℝ)
      else binningTestCore ((mags.filterMap id).map fun v => v - lo) 0 (defaultTol ℝ) false) = _
    rw [if_neg (by simp)]
    unfold binningTestCore
    rw [if_pos (by unfold defaultTol; norm_num)]
  unfold BValue.checkBinning
  rw [if_pos (List.length_pos_of_mem h), e]
  rfl

private theorem finish_returns (p : AValue.State × Fl ℝ) (h : p.1.mref = none) (h2 : p.1.scaling = none) : ∃ v, (AValue.finish p).2 = .ok v := by
  obtain ⟨s, a⟩ := p
  unfold AValue.finish AValue.referenceScaling
  dsimp only at h h2 ⊢
  rw [h, h2]
  exact ⟨_, rfl⟩

private theorem positiveM_keep (warn : Bool) (s : AValue.State) (t : List (Option ℝ)) :
    (AValue.positiveM warn s t).1.mref = s.mref ∧ (AValue.positiveM warn s t).1.scaling = s.scaling := by
  unfold AValue.positiveM
  dsimp only
  split <;> exact ⟨rfl, rfl⟩

private theorem store_result (s : State) (r : Py (Fl ℝ)) : (BValue.store (s, r)).2 = r := by cases r <;> rfl

private theorem two_timed (s : State) (h1 : s.times = none) (h2 : s.δ = some 0) (h3 : s.dmc = some 0) (h4 : s.weights = none) (h5 : BValue.nums s.mags = [1, 2]) :
    ∃ b : ℝ, (BValue.store (BValue.estimate .positive s)).2 = .ok (.fin b) := by
  change ∃ b : ℝ, (BValue.store (BValue.estimatePositive s)).2 = .ok (.fin b)
  have e1 : BValue.sortByTime s = s := by unfold BValue.sortByTime; rw [h1]
  unfold BValue.estimatePositive
  dsimp only
  rw [e1, h2, h3, h4, h5]
  have e2 : BValue.binDiffs (diff [1, 2]) ((some (0 : ℝ)).getD 0) = .ok [2 - 1] := by
    unfold BValue.binDiffs
    rw [if_neg (by simp)]
    rfl
  rw [e2]
  dsimp only
  rw [store_result, BValue.nums_some]
  have e3 : mask [(2 : ℝ) - 1] ((diff [1, 2]).map fun x => decide ((some (0 : ℝ)).getD 0 - (some (0 : ℝ)).getD 0 / 2 ≤ x)) = [1] := by
    norm_num [mask, diff]
    rfl
  rw [e3]
  refine ⟨1 / Real.log 10, ?_⟩
  unfold BValue.mleEstimator average
  simp [BValue.betaToB, Fl.div, Fl.mapFin, bind, Except.bind, pure, Except.pure]

/-- Two events above the completeness magnitude, the second one without a time: the call returns, and it returns NaN. -/
example : ∃ v, (AValue.calculateM .positive false AValue.State.init { mags := [some 1, some 2], mc := 0, δ := 0 } [some 5, none]).2 = .ok v ∧ v = .nan := by
  have hs : BValue.selIdx [some 1, some 2] 0 0 = [0, 1] := by
    unfold BValue.selIdx
    simp [List.range_succ]
  have e : ∃ v, (AValue.calculateM .positive false AValue.State.init { mags := [some 1, some 2], mc := 0, δ := 0 } [some 5, none]).2 = .ok v := by
    unfold AValue.calculateM
    dsimp only
    rw [if_neg (by simp), if_neg (by simp)]
    unfold AValue.baseCalculateM
    dsimp only
    rw [check_zero _ 1 (by simp)]
    dsimp only
    unfold AValue.filterMagnitudes
    dsimp only [Option.getD_some]
    have eg : gather [some 5, (none : Option ℝ)] [0, 1] = .ok [some 5, none] := rfl
    rw [hs, eg]
    dsimp only
    rw [if_neg (by simp), if_neg (by simp)]
    exact finish_returns _ (positiveM_keep _ _ _).1 (positiveM_keep _ _ _).2
  obtain ⟨v, e⟩ := e
  exact ⟨v, e, C129_a_nan (i := 1) (m := 2) e rfl (by norm_num) rfl⟩

/-- C129 (Limit): the difference to an event without a time counts in the b-positive estimate: with two events, the second one larger and without a time, the estimate
is that of their difference, not NaN as with the first event alone. -/
theorem C129_b_limit : ∃ b : ℝ, (BValue.calculateM .positive false BValue.State.init { mags := [some 1, some 2], mc := 0, δ := 0 } [some 5, none]).2 = .ok (.fin b) := by
  have hs : BValue.selIdx [some 1, some 2] 0 0 = [0, 1] := by
    unfold BValue.selIdx
    simp [List.range_succ]
  have ha : argsortM [some 5, none] = [0, 1] := by
    unfold argsortM
    simp [List.range_succ, timeBefore]
  unfold BValue.calculateM
  dsimp only
  rw [if_neg (by simp)]
  unfold BValue.baseCalculateM BValue.sanityChecks
  dsimp only [Option.getD_some]
  rw [check_zero _ 1 (by simp)]
  dsimp only [BValue.checkWeights]
  unfold BValue.filterMagnitudes
  dsimp only [Option.getD_some, BValue.gatherOpt, BValue.State.init]
  rw [hs]
  have eg : gather [some 5, (none : Option ℝ)] [0, 1] = .ok [some 5, none] := rfl
  rw [eg]
  dsimp only
  unfold BValue.afterFilterM BValue.sortByTimeM
  dsimp only
  rw [ha, if_neg (by simp)]
  exact two_timed _ rfl rfl rfl rfl rfl

end
end Props
end SeismoStats
