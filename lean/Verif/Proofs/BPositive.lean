/-
Lemmas on sorting, masking and differences for the time-ordered estimators.
-/
import Verif.Proofs.BValue

namespace SeismoStats.BValue
open SeismoStats
set_option linter.unusedSimpArgs false
open Classical
noncomputable section

/-! ### numpy lemmas -/

theorem argsort_perm (t : List ℝ) : (argsort t).Perm (List.range t.length) :=
  List.perm_insertionSort _ _

theorem argsort_sorted (t : List ℝ) :
    (argsort t).Pairwise fun i j => t.getD i 0 ≤ t.getD j 0 := by
  letI : Std.Total (fun i j : ℕ => t.getD i 0 ≤ t.getD j 0) := ⟨fun a b => le_total _ _⟩
  letI : IsTrans ℕ (fun i j : ℕ => t.getD i 0 ≤ t.getD j 0) := ⟨fun a b c => le_trans⟩
  exact List.pairwise_insertionSort _ _

theorem argsort_lt {t : List ℝ} {i : ℕ} (h : i ∈ argsort t) : i < t.length :=
  List.mem_range.1 ((argsort_perm t).mem_iff.1 h)

theorem argsort_length (t : List ℝ) : (argsort t).length = t.length := by
  rw [(argsort_perm t).length_eq, List.length_range]

theorem map_getD_range {α : Type*} (l : List α) (d : α) :
    (List.range l.length).map (fun i => l.getD i d) = l := by
  have := range_filter_map l d (fun _ => true)
  simpa using this

theorem take'_map {α β : Type} [Inhabited α] [Inhabited β] (l : List α) (f : α → β) (o : List ℕ)
    (h : ∀ i ∈ o, i < l.length) : take' (l.map f) o = (take' l o).map f := by
  unfold take'
  rw [List.map_map]
  apply List.map_congr_left
  intro i hi
  have := h i hi
  simp [List.getD_eq_getElem?_getD, List.getElem?_eq_getElem this]

theorem take'_perm {α : Type} [Inhabited α] (l : List α) {o : List ℕ}
    (h : o.Perm (List.range l.length)) : (take' l o).Perm l := by
  unfold take'
  have := h.map fun i => l.getD i default
  rwa [map_getD_range] at this

theorem mask_map {α β : Type} (l : List α) (f : α → β) (p : α → Bool) :
    mask (l.map f) (l.map p) = (l.filter p).map f := by
  unfold mask
  induction l with
  | nil => rfl
  | cons a r ih =>
    simp only [List.map_cons, List.zip_cons_cons, List.filterMap_cons, List.filter_cons]
    cases h : p a <;> simpa [h] using ih

theorem zip_tail_snd {α : Type} (o : List α) : (List.zip o o.tail).map Prod.snd = o.tail := by
  rw [List.map_snd_zip]
  simp

theorem diff_map {α : Type} (o : List α) (m : α → ℝ) :
    diff (o.map m) = (List.zip o o.tail).map fun p => m p.2 - m p.1 := by
  unfold diff
  rw [← List.map_tail]
  generalize o.tail = r
  induction o generalizing r with
  | nil => simp
  | cons a o ih =>
    cases r with
    | nil => simp
    | cons b r => simp only [List.map_cons, List.zipWith_cons_cons, List.zip_cons_cons, ih]

theorem gather_eq {α : Type} {l : List α} {idx : List ℕ} {r : List α} (d : α)
    (h : gather l idx = .ok r) : r = idx.map (fun i => l.getD i d) ∧ ∀ i ∈ idx, i < l.length := by
  unfold gather at h
  induction idx generalizing r with
  | nil =>
    simp only [List.mapM_nil, pure, Except.pure, Except.ok.injEq] at h
    subst h; simp
  | cons i idx ih =>
    rw [List.mapM_cons] at h
    cases hi : l[i]? with
    | none => rw [hi] at h; cases h
    | some v =>
      rw [hi] at h
      simp only [bind, Except.bind] at h
      split at h
      · cases h
      · rename_i q hq
        simp only [pure, Except.pure, Except.ok.injEq] at h
        obtain ⟨h1, h2⟩ := ih hq
        obtain ⟨hlt, hv⟩ := List.getElem?_eq_some_iff.1 hi
        subst h
        refine ⟨?_, ?_⟩
        · rw [h1, List.map_cons, List.getD_eq_getElem _ _ hlt, hv]
        · intro j hj
          rcases List.mem_cons.1 hj with rfl | hj
          · exact hlt
          · exact h2 j hj

theorem gather_error {α : Type} {l : List α} {idx : List ℕ} {i : ℕ} (hi : i ∈ idx)
    (h : l.length ≤ i) : gather l idx = .error .indexError := by
  unfold gather
  induction idx with
  | nil => cases hi
  | cons j idx ih =>
    rw [List.mapM_cons]
    cases hj : l[j]? with
    | none => rfl
    | some v =>
      rcases List.mem_cons.1 hi with rfl | hi'
      · rw [List.getElem?_eq_none h] at hj; cases hj
      · simp only [bind, Except.bind]
        rw [ih hi']

theorem insertionSort_congr {α : Type} (r r' : α → α → Prop) [DecidableRel r] [DecidableRel r']
    (l : List α) (h : ∀ x ∈ l, ∀ y ∈ l, r x y ↔ r' x y) : l.insertionSort r = l.insertionSort r' := by
  have ho : ∀ (a : α) (q : List α), (∀ y ∈ q, r a y ↔ r' a y) →
      q.orderedInsert r a = q.orderedInsert r' a := by
    intro a q
    induction q with
    | nil => intro _; rfl
    | cons b q ih =>
      intro hq
      simp only [List.orderedInsert]
      rw [ih (fun y hy => hq y (by simp [hy]))]
      simp only [hq b (by simp)]
  induction l with
  | nil => rfl
  | cons a q ih =>
    simp only [List.insertionSort_cons]
    rw [ih (fun x hx y hy => h x (by simp [hx]) y (by simp [hy]))]
    apply ho
    intro y hy
    have : y ∈ q := (List.perm_insertionSort r' q).mem_iff.1 hy
    exact h a (by simp) y (by simp [this])

/-! ### the time order of a call -/

/-- Magnitude of event `i`. -/
def magAt (a : Args) (i : ℕ) : ℝ := (a.mags.getD i none).getD 0

theorem magAt_used {a : Args} {i : ℕ} (h : i ∈ usedIdx a) : a.mags.getD i none = some (magAt a i) := by
  unfold usedIdx at h
  rw [selIdx_eq, List.mem_filter] at h
  unfold magAt
  cases hm : a.mags.getD i none with
  | none => rw [hm] at h; simp [above] at h
  | some m => rfl

/-- The used events in the order of time (as given without times). -/
def timeOrder (a : Args) : List ℕ :=
  match a.times with
  | none => usedIdx a
  | some t => take' (usedIdx a) (argsort ((usedIdx a).map fun i => t.getD i 0))

theorem timeOrder_perm (a : Args) : (timeOrder a).Perm (usedIdx a) := by
  unfold timeOrder
  cases a.times with
  | none => exact List.Perm.refl _
  | some t =>
    apply take'_perm
    have := argsort_perm ((usedIdx a).map fun i => t.getD i 0)
    simpa using this

theorem timeOrder_sorted (a : Args) (t : List ℝ) (h : a.times = some t) :
    (timeOrder a).Pairwise fun i j => t.getD i 0 ≤ t.getD j 0 := by
  unfold timeOrder
  rw [h]
  simp only []
  unfold take'
  rw [List.pairwise_map]
  have h1 := argsort_sorted ((usedIdx a).map fun i => t.getD i 0)
  refine List.Pairwise.imp_of_mem ?_ h1
  intro i j hi hj hij
  have hi' := argsort_lt hi
  have hj' := argsort_lt hj
  simp only [List.length_map] at hi' hj'
  simpa [List.getD_eq_getElem?_getD, List.getElem?_eq_getElem hi', List.getElem?_eq_getElem hj'] using hij

theorem mem_timeOrder {a : Args} {i : ℕ} : i ∈ timeOrder a ↔ i ∈ usedIdx a :=
  (timeOrder_perm a).mem_iff

theorem usedIdx_weights' {a : Args} (h : Valid a) :
    (a.weights.map fun _ => (used a).map Prod.snd) =
      a.weights.map fun w => (usedIdx a).map fun i => w.getD i 0 := by
  rw [← usedIdx_weights h]
  cases hw : a.weights with
  | none => rfl
  | some w => simp [effW, hw]

/-- State of a time-ordered estimator after sorting. -/
theorem sortByTime_used {s : State} {warn : Bool} {a : Args} (h : Valid a) {t : Option (List ℝ)}
    (ht : gatherOpt a.times (usedIdx a) = .ok t) :
    sortByTime (usedState s warn a t) = { usedState s warn a t with
      mags := some ((timeOrder a).map fun i => some (magAt a i))
      weights := a.weights.map fun w => (timeOrder a).map fun i => w.getD i 0
      idx := some (timeOrder a)
      times := a.times.map fun t => (timeOrder a).map fun i => t.getD i 0 } := by
  have hm : ((used a).map fun q => some q.1) = (usedIdx a).map fun i => some (magAt a i) := by
    rw [← usedIdx_mags h]
    apply List.map_congr_left
    intro i hi
    exact magAt_used hi
  cases hta : a.times with
  | none =>
    rw [hta] at ht
    simp only [gatherOpt, Except.ok.injEq] at ht
    subst ht
    have ho : timeOrder a = usedIdx a := by unfold timeOrder; rw [hta]
    unfold sortByTime usedState
    simp only [Option.map_none, ho, hm, usedIdx_weights' h]
  | some tm =>
    rw [hta] at ht
    simp only [gatherOpt] at ht
    cases hg : gather tm (usedIdx a) with
    | error e => rw [hg] at ht; cases ht
    | ok q =>
      rw [hg] at ht
      simp only [Except.map, Except.ok.injEq] at ht
      subst ht
      obtain ⟨hq, -⟩ := gather_eq 0 hg
      subst hq
      have ho : timeOrder a = take' (usedIdx a) (argsort ((usedIdx a).map fun i => tm.getD i 0)) := by
        unfold timeOrder; rw [hta]
      have hb : ∀ i ∈ argsort ((usedIdx a).map fun i => tm.getD i 0), i < (usedIdx a).length := by
        intro i hi
        simpa using argsort_lt hi
      unfold sortByTime usedState
      simp only [Option.map_some, hm, usedIdx_weights' h, Option.map_map]
      rw [take'_map _ _ _ hb, take'_map _ _ _ hb, ← ho]
      congr 1
      cases hw : a.weights with
      | none => rfl
      | some w =>
        simp only [Option.map_some, Function.comp_apply]
        rw [take'_map _ _ _ hb, ← ho]

/-- The two classes with times start from the given times. -/
theorem calculate_positive_valid {c : Cls} (hc : c = .positive ∨ c = .morePositive) (warn : Bool)
    (s : State) (a : Args) (h : Valid a) (hd : 0 ≤ a.dmc.getD a.δ) (t : Option (List ℝ))
    (ht : gatherOpt a.times (usedIdx a) = .ok t) :
    ∃ w, calculate c warn s a =
      if used a = [] then
        ({ usedState { s with times := a.times, dmc := some (a.dmc.getD a.δ), warned := w } warn a t
            with b := some .nan }, .ok .nan)
      else store (estimate c
        (usedState { s with times := a.times, dmc := some (a.dmc.getD a.δ), warned := w } warn a t)) := by
  refine ⟨[] ++ (if decide (a.dmc.getD a.δ < a.δ) && warn then [Warn.dmcSmall] else []), ?_⟩
  have key := baseCalculate_valid c warn { s with times := a.times, dmc := some (a.dmc.getD a.δ), warned := [] ++ (if decide (a.dmc.getD a.δ < a.δ) && warn then [Warn.dmcSmall] else []) } a h t ht
  rw [← key]
  unfold calculate
  rcases hc with rfl | rfl <;> simp only [not_lt.2 hd, if_false]

end
end SeismoStats.BValue
