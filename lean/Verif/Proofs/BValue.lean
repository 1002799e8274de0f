import Verif.Model.BValue
import Verif.Spec.BValue
import Verif.Proofs.Binning

namespace SeismoStats.BValue
open SeismoStats
set_option linter.unusedSimpArgs false
open Classical
noncomputable section

/-! ### fancy indexing -/

theorem mapM_ok {α β : Type} (f : α → Py β) (g : α → β) (l : List α)
    (h : ∀ a ∈ l, f a = .ok (g a)) : l.mapM f = .ok (l.map g) := by
  induction l with
  | nil => rfl
  | cons a r ih =>
    rw [List.mapM_cons, h a (by simp), ih (fun b hb => h b (by simp [hb]))]
    rfl

theorem gather_ok {α : Type} (a : List α) (idx : List ℕ) (d : α) (h : ∀ i ∈ idx, i < a.length) :
    gather a idx = .ok (idx.map fun i => a.getD i d) := by
  unfold gather
  apply mapM_ok
  intro i hi
  have := h i hi
  simp [List.getElem?_eq_getElem this, List.getD_eq_getElem _ _ this]

theorem range_filter_map {α : Type*} (l : List α) (d : α) (p : α → Bool) :
    ((List.range l.length).filter fun i => p (l.getD i d)).map (fun i => l.getD i d) =
      l.filter p := by
  induction l with
  | nil => rfl
  | cons a r ih =>
    rw [List.length_cons, List.range_succ_eq_map, List.filter_cons, List.filter_map]
    have e : ((fun i => p ((a :: r).getD i d)) ∘ Nat.succ) = fun i => p (r.getD i d) := by
      funext i; simp
    have e2 : ∀ l : List ℕ, (l.map Nat.succ).map (fun i => (a :: r).getD i d) =
        l.map fun i => r.getD i d := by
      intro l; simp [List.map_map, Function.comp_def]
    rw [e]
    by_cases hp : p a
    · simp only [List.getD_cons_zero, hp, if_true, List.map_cons, e2, ih, List.filter_cons]
    · simp only [List.getD_cons_zero, hp, List.filter_cons, if_false, e2, ih, Bool.false_eq_true]

/-- The selection predicate of `_filter_magnitudes`. -/
def above (thr : ℝ) : Option ℝ → Bool
  | some m => decide (thr ≤ m)
  | none => false

theorem selIdx_eq (mags : List (Option ℝ)) (mc δ : ℝ) :
    selIdx mags mc δ = (List.range mags.length).filter fun i => above (mc - δ / 2) (mags.getD i none) := by
  unfold selIdx
  congr 1

theorem selIdx_lt {mags : List (Option ℝ)} {mc δ : ℝ} {i : ℕ} (h : i ∈ selIdx mags mc δ) :
    i < mags.length := by
  rw [selIdx_eq] at h
  exact List.mem_range.1 (List.mem_filter.1 h).1

theorem selIdx_mags (mags : List (Option ℝ)) (mc δ : ℝ) :
    (selIdx mags mc δ).map (fun i => mags.getD i none) = mags.filter (above (mc - δ / 2)) := by
  rw [selIdx_eq]; exact range_filter_map mags none _

theorem getD_zip {α β : Type*} (a : List α) (b : List β) (x : α) (y : β) (h : a.length = b.length)
    (i : ℕ) : (List.zip a b).getD i (x, y) = (a.getD i x, b.getD i y) := by
  induction a generalizing b i with
  | nil =>
    have : b = [] := List.length_eq_zero_iff.1 (by simpa using h.symm)
    subst this; simp
  | cons u r ih =>
    cases b with
    | nil => simp at h
    | cons v s =>
      cases i with
      | zero => simp
      | succ i => simpa using ih s (by simpa using h) i

theorem selIdx_zip (mags : List (Option ℝ)) (w : List ℝ) (mc δ : ℝ) (h : mags.length = w.length) :
    (selIdx mags mc δ).map (fun i => (mags.getD i none, w.getD i 0)) =
      (List.zip mags w).filter fun p => above (mc - δ / 2) p.1 := by
  have := range_filter_map (List.zip mags w) (none, 0) (fun p => above (mc - δ / 2) p.1)
  rw [← this, selIdx_eq]
  simp only [getD_zip mags w none 0 h, List.length_zip, ← h, min_self]

/-- Number form of a filtered pair list. -/
theorem filter_above_eq_selected (mags : List (Option ℝ)) (w : List ℝ) (thr : ℝ) :
    ((List.zip mags w).filter fun p => above thr p.1) =
      (Spec.selected mags w thr).map fun q => (some q.1, q.2) := by
  unfold Spec.selected
  induction List.zip mags w with
  | nil => rfl
  | cons p r ih =>
    obtain ⟨o, u⟩ := p
    rw [List.filter_cons, List.filterMap_cons, ih]
    cases o with
    | none => simp [above]
    | some m =>
      by_cases hm : thr ≤ m
      · simp [above, hm]
      · simp [above, hm]

/-- Weights in effect: ones if none are given. -/
def effW (a : Args) : List ℝ := a.weights.getD (a.mags.map fun _ => 1)

/-- The events used by a call. -/
def used (a : Args) : List (ℝ × ℝ) := Spec.selected a.mags (effW a) (a.mc - a.δ / 2)

/-- The input passes the sanity checks. -/
structure Valid (a : Args) : Prop where
  bin : checkBinning a.mags a.δ = .ok ()
  wts : checkWeights a.mags.length a.weights = .ok ()

theorem checkWeights_ok {n : ℕ} {w : List ℝ} :
    checkWeights n (some w) = .ok () ↔ n = w.length ∧ ∀ x ∈ w, 0 ≤ x := by
  unfold checkWeights
  by_cases hl : n = w.length
  · by_cases hn : (w.any fun x => decide (x < 0)) = true
    · simp only [hl, ne_eq, not_true_eq_false, if_false, hn, if_true, true_and]
      constructor
      · intro h; cases h
      · intro h
        simp only [List.any_eq_true, decide_eq_true_eq] at hn
        obtain ⟨x, hx, hx'⟩ := hn
        exact absurd (h x hx) (not_le.2 hx')
    · simp only [hl, ne_eq, not_true_eq_false, if_false, hn, true_and, Bool.false_eq_true]
      simp only [List.any_eq_true, decide_eq_true_eq, not_exists, not_and, not_lt] at hn
      exact ⟨fun _ => hn, fun _ => trivial⟩
  · simp [hl]

theorem effW_length {a : Args} (h : Valid a) : a.mags.length = (effW a).length := by
  unfold effW
  cases hw : a.weights with
  | none => simp
  | some w => exact (checkWeights_ok.1 (hw ▸ h.wts)).1

theorem effW_nonneg {a : Args} (h : Valid a) : ∀ x ∈ effW a, 0 ≤ x := by
  unfold effW
  cases hw : a.weights with
  | none => simp
  | some w => exact (checkWeights_ok.1 (hw ▸ h.wts)).2

/-- The positions of the used events. -/
def usedIdx (a : Args) : List ℕ := selIdx a.mags a.mc a.δ

theorem usedIdx_pairs {a : Args} (h : Valid a) :
    (usedIdx a).map (fun i => (a.mags.getD i none, (effW a).getD i 0)) =
      (used a).map fun q => (some q.1, q.2) := by
  unfold usedIdx used
  rw [selIdx_zip _ _ _ _ (effW_length h), filter_above_eq_selected]

theorem usedIdx_mags {a : Args} (h : Valid a) :
    (usedIdx a).map (fun i => a.mags.getD i none) = (used a).map fun q => some q.1 := by
  have := congrArg (List.map Prod.fst) (usedIdx_pairs h)
  simpa [Function.comp_def] using this

theorem usedIdx_weights {a : Args} (h : Valid a) :
    (usedIdx a).map (fun i => (effW a).getD i 0) = (used a).map Prod.snd := by
  have := congrArg (List.map Prod.snd) (usedIdx_pairs h)
  simpa [Function.comp_def] using this

theorem used_length {a : Args} (h : Valid a) : (used a).length = (usedIdx a).length := by
  have := congrArg List.length (usedIdx_pairs h)
  simpa using this.symm

theorem nums_some (l : List ℝ) : nums (some (l.map some)) = l := by
  unfold nums
  simp [List.filterMap_map, Function.comp_def]

/-- Attributes after a classic or Utsu call that passed the checks, apart from `b`. -/
def usedState (s : State) (warn : Bool) (a : Args) (t : Option (List ℝ)) : State :=
  { s with
    mags := some ((used a).map fun q => some q.1)
    mc := some a.mc
    δ := some a.δ
    weights := a.weights.map fun _ => (used a).map Prod.snd
    idx := some (usedIdx a)
    times := t
    origMags := some ((used a).map Prod.fst)
    origWeights := if a.weights.isSome then some ((used a).map Prod.snd) else s.origWeights
    warned := s.warned ++ sanityWarnings warn a.mags a.mc a.δ ++
      (if (usedIdx a).length = 0 then (if warn then [.noMagnitudes] else []) else []) }

theorem gatherOpt_weights {a : Args} (h : Valid a) :
    gatherOpt a.weights (usedIdx a) = .ok (a.weights.map fun _ => (used a).map Prod.snd) := by
  rcases hw : a.weights with _ | w
  · rfl
  · have hl := effW_length h
    have he : effW a = w := by unfold effW; rw [hw]; rfl
    rw [← usedIdx_weights h, he]
    rw [he] at hl
    unfold gatherOpt
    simp only []
    rw [gather_ok w (usedIdx a) 0 (fun i hi => hl ▸ selIdx_lt hi)]
    rfl

theorem baseCalculate_valid (c : Cls) (warn : Bool) (s : State) (a : Args) (h : Valid a)
    (t : Option (List ℝ)) (ht : gatherOpt s.times (usedIdx a) = .ok t) :
    baseCalculate c warn s a =
      if used a = [] then ({ usedState s warn a t with b := some .nan }, .ok .nan)
      else store (estimate c (usedState s warn a t)) := by
  have hi : selIdx a.mags a.mc a.δ = usedIdx a := rfl
  have hlen : (used a).length = 0 ↔ used a = [] := List.length_eq_zero_iff
  unfold baseCalculate sanityChecks filterMagnitudes
  simp only [Option.getD_some, h.bin, h.wts, hi, gatherOpt_weights h, usedIdx_mags h, ht]
  have e : nums (some ((used a).map fun q => some q.1)) = (used a).map Prod.fst := by
    rw [← nums_some ((used a).map Prod.fst), List.map_map]; rfl
  rw [e]
  unfold usedState
  cases hw : a.weights with
  | none =>
    simp only [Option.map_none, Option.getD_some, List.length_map, hlen, Option.isSome_none,
      Bool.false_eq_true, if_false]
  | some w =>
    simp only [Option.map_some, Option.getD_some, List.length_map, hlen, Option.isSome_some,
      if_true]

theorem baseCalculate_invalid (c : Cls) (warn : Bool) (s : State) (a : Args) (h : ¬ Valid a) :
    ∃ e, (baseCalculate c warn s a).2 = .error e ∧ (baseCalculate c warn s a).1.b = s.b ∧
      (baseCalculate c warn s a).1.mags = some a.mags := by
  unfold baseCalculate sanityChecks
  simp only [Option.getD_some]
  cases h1 : checkBinning a.mags a.δ with
  | error e => exact ⟨e, rfl, rfl, rfl⟩
  | ok u =>
    cases h2 : checkWeights a.mags.length a.weights with
    | error e => exact ⟨e, rfl, rfl, rfl⟩
    | ok v => exact absurd ⟨h1, h2⟩ h

/-! ### averages -/

/-- Weights are given and sum to zero over the used events. -/
def zeroTotal (a : Args) : Prop := a.weights.isSome = true ∧ Spec.total (used a) = 0

theorem selected_ones (mags : List (Option ℝ)) (thr : ℝ) :
    ∀ q ∈ Spec.selected mags (mags.map fun _ => 1) thr, q.2 = 1 := by
  unfold Spec.selected
  intro q hq
  rw [List.mem_filterMap] at hq
  obtain ⟨p, hp, hq⟩ := hq
  have h1 : p.2 = 1 := by
    have := List.mem_map.1 (List.of_mem_zip hp).2
    obtain ⟨_, _, h⟩ := this
    exact h.symm
  cases hp1 : p.1 with
  | none => simp [hp1] at hq
  | some m =>
    simp only [hp1] at hq
    split at hq
    · cases hq; exact h1
    · cases hq

theorem sum_ones {l : List (ℝ × ℝ)} (h : ∀ q ∈ l, q.2 = 1) : (l.map Prod.snd).sum = l.length := by
  induction l with
  | nil => simp
  | cons p r ih =>
    simp only [List.map_cons, List.sum_cons, List.length_cons, Nat.cast_add, Nat.cast_one]
    rw [ih (fun q hq => h q (by simp [hq])), h p (by simp)]; ring

theorem sum_mul_ones {l : List (ℝ × ℝ)} (h : ∀ q ∈ l, q.2 = 1) (f : ℝ → ℝ) :
    (l.map fun p => p.2 * f p.1).sum = (l.map fun p => f p.1).sum := by
  congr 1
  apply List.map_congr_left
  intro p hp
  rw [h p hp, one_mul]

theorem zipWith_pairs (l : List (ℝ × ℝ)) (f : ℝ → ℝ) :
    List.zipWith (· * ·) (l.map fun p => f p.1) (l.map Prod.snd) = l.map fun p => p.2 * f p.1 := by
  induction l with
  | nil => rfl
  | cons p r ih => simp only [List.map_cons, List.zipWith_cons_cons, ih]; rw [mul_comm]

/-- Weighted average of `f(magnitude)`. -/
def wavg (f : ℝ → ℝ) (l : List (ℝ × ℝ)) : ℝ :=
  (l.map fun p => p.2 * f p.1).sum / (l.map Prod.snd).sum

theorem average_used {a : Args} (hne : used a ≠ []) (hz : ¬ zeroTotal a) (f : ℝ → ℝ) :
    average ((used a).map fun p => f p.1) (a.weights.map fun _ => (used a).map Prod.snd) =
      .ok (.fin (wavg f (used a))) := by
  unfold average wavg
  cases hw : a.weights with
  | none =>
    have h1 : ∀ q ∈ used a, q.2 = 1 := by
      unfold used effW; rw [hw]; exact selected_ones _ _
    have : ((used a).map fun p => f p.1) ≠ [] := by simpa using hne
    simp only [Option.map_none, this, if_false, List.length_map, sum_ones h1, sum_mul_ones h1]
  | some w =>
    have : ((used a).map Prod.snd).sum ≠ 0 := by
      intro h; exact hz ⟨by simp [hw], h⟩
    simp only [Option.map_some, this, if_false, zipWith_pairs]

theorem average_zero {a : Args} (hz : zeroTotal a) (f : ℝ → ℝ) :
    average ((used a).map fun p => f p.1) (a.weights.map fun _ => (used a).map Prod.snd) =
      .error .zeroDivision := by
  unfold average
  obtain ⟨h1, h2⟩ := hz
  unfold Spec.total at h2
  cases hw : a.weights with
  | none => simp [hw] at h1
  | some w => simp only [Option.map_some, h2, if_true]

theorem total_ne_zero {a : Args} (hne : used a ≠ []) (hz : ¬ zeroTotal a) :
    Spec.total (used a) ≠ 0 := by
  intro h
  cases hw : a.weights with
  | none =>
    have h1 : ∀ q ∈ used a, q.2 = 1 := by
      unfold used effW; rw [hw]; exact selected_ones _ _
    unfold Spec.total at h
    rw [sum_ones h1] at h
    exact hne (List.length_eq_zero_iff.1 (by exact_mod_cast h))
  | some w => exact hz ⟨by simp [hw], h⟩

theorem wavg_shift {l : List (ℝ × ℝ)} (h : Spec.total l ≠ 0) (c : ℝ) :
    wavg (fun m => m + c) l = Spec.wmean l + c := by
  unfold wavg Spec.wmean
  unfold Spec.total at h
  rw [div_add' _ _ _ h]
  congr 1
  clear h
  induction l with
  | nil => simp
  | cons p r ih => simp only [List.map_cons, List.sum_cons, ih]; ring

/-- `np.log(1 + δ/A)/δ` or `1/A`. -/
def betaOf (A δ : ℝ) : Fl ℝ :=
  if 0 < δ then (((Fl.div δ A).mapFin (1 + ·)).log).mapFin (1 / δ * ·) else Fl.div 1 A

/-- The estimate of the classic and the Utsu class for non-empty data. -/
def closed (c : Cls) (a : Args) : Py (Fl ℝ) :=
  if zeroTotal a then .error .zeroDivision
  else match c with
    | .utsu => .ok (betaToB (Fl.div 1 (Spec.wmean (used a) - a.mc + a.δ / 2)))
    | _ => .ok (betaToB (betaOf (Spec.wmean (used a) - a.mc) a.δ))

theorem nums_used (a : Args) : nums (some ((used a).map fun q => some q.1)) = (used a).map Prod.fst := by
  rw [← nums_some ((used a).map Prod.fst), List.map_map]; rfl

theorem estimate_used {c : Cls} (hc : c = .classic ∨ c = .utsu) (s : State) (warn : Bool) (a : Args)
    (t : Option (List ℝ)) (hne : used a ≠ []) :
    estimate c (usedState s warn a t) = (usedState s warn a t, closed c a) := by
  unfold closed
  rcases hc with rfl | rfl
  · unfold estimate mleEstimator usedState
    simp only [Option.getD_some, nums_used, List.map_map]
    have e1 := fun hz => average_zero (a := a) hz (fun m => m - a.mc)
    have e2 := fun hz => average_used (a := a) hne hz (fun m => m - a.mc)
    simp only [Function.comp_def]
    by_cases hz : zeroTotal a
    · rw [e1 hz, if_pos hz]; rfl
    · rw [e2 hz, if_neg hz]
      have := wavg_shift (total_ne_zero hne hz) (-a.mc)
      simp only [← sub_eq_add_neg] at this
      rw [this]
      rfl
  · unfold estimate utsuEstimator usedState
    simp only [Option.getD_some, nums_used, List.map_map]
    have e1 := fun hz => average_zero (a := a) hz (fun m => m - a.mc + a.δ / 2)
    have e2 := fun hz => average_used (a := a) hne hz (fun m => m - a.mc + a.δ / 2)
    simp only [Function.comp_def]
    by_cases hz : zeroTotal a
    · rw [e1 hz, if_pos hz]; rfl
    · rw [e2 hz, if_neg hz]
      have := wavg_shift (total_ne_zero hne hz) (-a.mc + a.δ / 2)
      simp only [← add_assoc, ← sub_eq_add_neg] at this
      rw [this]
      rfl

/-- Result of a classic or Utsu call on valid data. -/
def resultOf (c : Cls) (a : Args) : Py (Fl ℝ) :=
  if used a = [] then .ok .nan else closed c a

theorem calculate_classic_valid {c : Cls} (hc : c = .classic ∨ c = .utsu) (warn : Bool) (s : State)
    (a : Args) (h : Valid a) (ht : s.times = none) :
    calculate c warn s a = store (usedState { s with warned := [] } warn a none, resultOf c a) := by
  have e : calculate c warn s a = baseCalculate c warn { s with warned := [] } a := by
    rcases hc with rfl | rfl <;> rfl
  rw [e, baseCalculate_valid c warn _ a h none (by simp only [ht]; rfl)]
  unfold resultOf
  split
  · rfl
  · rename_i hne
    rw [estimate_used hc _ _ _ _ hne]

theorem store_snd (p : State × Py (Fl ℝ)) : (store p).2 = p.2 := by
  obtain ⟨s, _ | _⟩ := p <;> rfl

end
end SeismoStats.BValue
