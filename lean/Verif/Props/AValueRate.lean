/-
Properties C30 and C31: a-positive and a-more-positive.
-/
import Verif.Props.AValue

namespace SeismoStats.Props
open SeismoStats
open SeismoStats.AValue (Args toB tAt filt posPairs morRanks posRaw morRaw morWaits raw result calculate_snd
  rate span timesCheck precheck finish timedCalculate estimatePositive_filt estimateMore_filt estimate
  base_timed base_gather_error base_bin_error)
open SeismoStats.BValue (checkBinning usedIdx timeOrder selIdx_lt timeOrder_perm timeOrder_sorted gatherOpt
  findNextLarger)
set_option linter.unusedSimpArgs false
open Classical
noncomputable section

/-! ## The rate -/

/-- `r` is the a-value of `n` events during the observed part `waited / total` of the catalog. -/
structure IsRate (n : ℕ) (total waited : ℝ) (r : Fl ℝ) : Prop where
  total_nonneg : 0 ≤ total
  waited_nonneg : 0 ≤ waited
  total_pos : 0 < waited → 0 < total
  rate : 0 < waited → ∃ a, r = .fin a ∧ (10 : ℝ) ^ a = n / (waited / total)
  no_wait : waited = 0 → 0 < total → r = .pinf
  no_time : total = 0 → r = .nan

theorem foldl_add_fin (l : List ℝ) (x : ℝ) :
    (l.map Fl.fin).foldl Fl.add (.fin x) = .fin (x + l.sum) := by
  induction l generalizing x with
  | nil => simp
  | cons y l ih =>
    simp only [List.map_cons, List.foldl_cons, List.sum_cons]
    rw [show Fl.add (.fin x) (.fin y) = .fin (x + y) from rfl, ih]
    congr 1; ring

theorem foldl_add_nan (l : List (Fl ℝ)) : l.foldl Fl.add .nan = .nan := by
  induction l with
  | nil => rfl
  | cons y l ih => simpa [Fl.add] using ih

theorem sum_div_aux (w : List ℝ) (T : ℝ) : (w.map (· / T)).sum = w.sum / T := by
  induction w with
  | nil => simp
  | cons y w ih => simp only [List.map_cons, List.sum_cons]; rw [ih, add_div]

theorem flsum_div (w : List ℝ) {T : ℝ} (hT : T ≠ 0) :
    Fl.sum (w.map fun x => Fl.div x T) = .fin (w.sum / T) := by
  have e : (w.map fun x => Fl.div x T) = (w.map (· / T)).map Fl.fin := by
    rw [List.map_map]
    apply List.map_congr_left
    intro x _
    simp only [Function.comp_apply]
    unfold Fl.div
    simp [hT]
  unfold Fl.sum
  rw [e, foldl_add_fin]
  congr 1
  rw [zero_add, sum_div_aux]

theorem rate_isRate {n : ℕ} (hn : 0 < n) (w : List ℝ) (T : ℝ) (hw : w ≠ []) (h0 : ∀ x ∈ w, 0 ≤ x)
    (hT : 0 ≤ T) (hz : T = 0 → ∀ x ∈ w, x = 0) : IsRate n T w.sum (rate n w T) := by
  have hs : 0 ≤ w.sum := List.sum_nonneg h0
  have htp : 0 < w.sum → 0 < T := by
    intro h
    rcases hT.lt_or_eq with h1 | h1
    · exact h1
    · have : w.sum = 0 := List.sum_eq_zero (fun x hx => hz h1.symm x hx)
      linarith
  have hn' : (0 : ℝ) < n := by exact_mod_cast hn
  refine ⟨hT, hs, htp, ?_, ?_, ?_⟩
  · intro h
    have hT' := htp h
    unfold rate
    rw [flsum_div w hT'.ne']
    have hq : 0 < w.sum / T := div_pos h hT'
    have : Fl.over n (.fin (w.sum / T)) = .fin (n / (w.sum / T)) := by
      simp only [Fl.over]
      unfold Fl.div
      simp [hq.ne']
    rw [this, log10_fin (div_pos hn' hq)]
    exact ⟨_, rfl, ten_pow_log10 (div_pos hn' hq)⟩
  · intro h hT'
    unfold rate
    rw [flsum_div w hT'.ne', h, zero_div]
    have : Fl.over n (.fin 0) = .pinf := by
      simp only [Fl.over]
      unfold Fl.div
      simp [hn', hn'.ne']
    rw [this]
    rfl
  · intro h
    unfold rate
    obtain ⟨x, w, rfl⟩ := List.exists_cons_of_ne_nil hw
    have hx := hz h x (by simp)
    subst hx h
    have : Fl.div (0 : ℝ) 0 = .nan := by unfold Fl.div; simp
    unfold Fl.sum
    simp only [List.map_cons, List.foldl_cons, this]
    have : Fl.add (.fin 0) .nan = .nan := rfl
    rw [this, foldl_add_nan]
    rfl

theorem rate_scale (n : ℕ) (w : List ℝ) (T k : ℝ) (hk : 0 < k) :
    rate n (w.map (k * ·)) (k * T) = rate n w T := by
  unfold rate
  congr 2
  congr 1
  rw [List.map_map]
  apply List.map_congr_left
  intro x _
  simp only [Function.comp_apply]
  unfold Fl.div
  have h0 : k * T = 0 ↔ T = 0 := by simp [hk.ne']
  have h1 : k * x < 0 ↔ x < 0 := by simp [mul_neg_iff, hk, hk.le, not_lt.2 hk.le]
  have h2 : 0 < k * x ↔ 0 < x := by simp [mul_pos_iff, hk, not_lt.2 hk.le]
  have h3 : k * x = 0 ↔ x = 0 := by simp [hk.ne']
  have h4 : k * x / (k * T) = x / T := mul_div_mul_left _ _ hk.ne'
  simp only [h0, h1, h2, h3, h4]

/-! ## The attributes and the value -/

/-- Time between the first and the last selected event. -/
def duration (t : ℕ → ℝ) (o : List ℕ) : ℝ := t (o.getLastD 0) - t (o.headD 0)

theorem span_map (t : ℕ → ℝ) (o : List ℕ) (h : o ≠ []) : span (o.map t) = duration t o := by
  unfold span duration
  obtain ⟨x, r, rfl⟩ := List.exists_cons_of_ne_nil h
  congr 1
  rw [List.getLastD_eq_getLast?, List.getLastD_eq_getLast?, List.getLast?_map]
  rw [List.getLast?_eq_some_getLast h]
  rfl

theorem pairwise_le_last {t : ℕ → ℝ} {o : List ℕ} (h : o.Pairwise fun i j => t i ≤ t j) {i : ℕ} (hi : i ∈ o) :
    t i ≤ t (o.getLastD 0) := by
  induction o with
  | nil => cases hi
  | cons x r ih =>
    obtain ⟨h1, h2⟩ := List.pairwise_cons.1 h
    cases r with
    | nil => simp at hi; simp [hi]
    | cons y r =>
      have e : (x :: y :: r).getLastD 0 = (y :: r).getLastD 0 := by simp
      rw [e]
      rcases List.mem_cons.1 hi with rfl | hi
      · exact h1 _ (by rw [List.getLastD_eq_getLast?, List.getLast?_eq_some_getLast (by simp)]; exact List.getLast_mem _)
      · exact ih h2 hi

theorem pairwise_head_le {t : ℕ → ℝ} {o : List ℕ} (h : o.Pairwise fun i j => t i ≤ t j) {i : ℕ} (hi : i ∈ o) :
    t (o.headD 0) ≤ t i := by
  cases o with
  | nil => cases hi
  | cons x r =>
    rcases List.mem_cons.1 hi with rfl | hi
    · exact le_refl _
    · exact (List.pairwise_cons.1 h).1 _ hi

theorem zip_tail_mem {o : List ℕ} {p : ℕ × ℕ} (h : p ∈ List.zip o o.tail) : p.1 ∈ o ∧ p.2 ∈ o := by
  refine ⟨(List.of_mem_zip h).1, List.mem_of_mem_tail (List.of_mem_zip h).2⟩

theorem zip_tail_rel {o : List ℕ} {R : ℕ → ℕ → Prop} (h : o.Pairwise R) {p : ℕ × ℕ}
    (hp : p ∈ List.zip o o.tail) : R p.1 p.2 := by
  induction o with
  | nil => cases hp
  | cons x r ih =>
    cases r with
    | nil => cases hp
    | cons y r =>
      simp only [List.tail_cons, List.zip_cons_cons, List.mem_cons] at hp
      rcases hp with rfl | hp
      · exact (List.pairwise_cons.1 h).1 _ (by simp)
      · exact ih (List.pairwise_cons.1 h).2 hp

theorem order_sorted (x : Args) : (timeOrder (toB x)).Pairwise fun i j => tAt x i ≤ tAt x j :=
  timeOrder_sorted (toB x) x.times rfl

theorem posRaw_rate (x : Args) (h : posPairs x ≠ []) :
    IsRate (posPairs x).length (duration (tAt x) (timeOrder (toB x)))
      ((posPairs x).map fun p => tAt x p.2 - tAt x p.1).sum (posRaw x) := by
  have ho : timeOrder (toB x) ≠ [] := by
    intro h0; apply h; unfold posPairs growing; rw [h0]; rfl
  unfold posRaw
  rw [if_neg h, span_map _ _ ho]
  have hz : ∀ p ∈ posPairs x, p ∈ List.zip (timeOrder (toB x)) (timeOrder (toB x)).tail :=
    fun p hp => (List.mem_filter.1 hp).1
  have hs := order_sorted x
  have hle : ∀ p ∈ posPairs x, tAt x p.1 ≤ tAt x p.2 := fun p hp => zip_tail_rel hs (hz p hp)
  obtain ⟨p0, hp0⟩ := List.exists_mem_of_ne_nil _ h
  apply rate_isRate (List.length_pos_of_ne_nil h) _ _ (by simpa using h)
  · intro v hv
    obtain ⟨p, hp, rfl⟩ := List.mem_map.1 hv
    have := hle p hp; linarith
  · have m := zip_tail_mem (hz p0 hp0)
    have h1 := pairwise_le_last hs m.1
    have h2 := pairwise_head_le hs m.1
    unfold duration; linarith
  · intro h0 v hv
    obtain ⟨p, hp, rfl⟩ := List.mem_map.1 hv
    have m := zip_tail_mem (hz p hp)
    have h1 := pairwise_le_last hs m.2
    have h2 := pairwise_head_le hs m.1
    have h3 := hle p hp
    unfold duration at h0
    linarith

/-- Waiting time of the event at rank `i` of `o` until its partner, or until the last event if
it has none. -/
def waitOf (t : ℕ → ℝ) (o : List ℕ) (ranks : List (ℕ × ℕ)) (i : ℕ) : ℝ :=
  match ranks.lookup i with
  | some j => t (o.getD j 0) - t (o.getD i 0)
  | none => t (o.getLastD 0) - t (o.getD i 0)

/-- The fraction of time `10^(-b (m + dmc - mc))` of the more-positive estimator. -/
def damp (b dmc mc m : ℝ) : ℝ := (10 : ℝ) ^ (-b * (m + dmc - mc))

theorem lookup_of_mem {R : List (ℕ × ℕ)} (h : (R.map Prod.fst).Pairwise (· < ·)) {i j : ℕ} (hm : (i, j) ∈ R) :
    R.lookup i = some j := by
  induction R with
  | nil => cases hm
  | cons p R ih =>
    obtain ⟨a, c⟩ := p
    simp only [List.map_cons, List.pairwise_cons] at h
    rcases List.mem_cons.1 hm with h1 | h1
    · cases h1; simp
    · have : a < i := h.1 i (List.mem_map.2 ⟨_, h1, rfl⟩)
      rw [List.lookup_cons]
      have hne : (i == a) = false := by simp; omega
      rw [hne]
      exact ih h.2 h1

theorem lookup_none {R : List (ℕ × ℕ)} {i : ℕ} (h : ∀ j, (i, j) ∉ R) : R.lookup i = none := by
  induction R with
  | nil => rfl
  | cons p R ih =>
    obtain ⟨a, c⟩ := p
    rw [List.lookup_cons]
    have hne : (i == a) = false := by
      simp only [beq_eq_false_iff_ne]
      rintro rfl
      exact h c (by simp)
    rw [hne]
    exact ih (fun j hj => h j (by simp [hj]))

theorem morWaits_eq (x : Args) : morWaits x = (List.range (timeOrder (toB x)).length).map fun i =>
    waitOf (tAt x) (timeOrder (toB x)) (morRanks x) i *
      damp (x.b.getD 0) (x.dmc.getD x.δ) x.mc (magOf (toB x) ((timeOrder (toB x)).getD i 0)) := by
  unfold morWaits damp
  apply List.map_congr_left
  intro i hi
  have hi := List.mem_range.1 hi
  have hcut : cutoff (toB x) = x.dmc.getD x.δ := rfl
  set o := timeOrder (toB x) with ho
  have hone : o ≠ [] := by rintro h; rw [h] at hi; exact absurd hi (by simp)
  have g : ∀ {j : ℕ}, j < o.length → (o.map (tAt x)).getD j 0 = tAt x (o.getD j 0) := by
    intro j hj
    rw [List.getD_eq_getElem _ _ (by simpa using hj), List.getD_eq_getElem _ _ hj]; simp
  have g' : (o.map (magOf (toB x))).getD i 0 = magOf (toB x) (o.getD i 0) := by
    rw [List.getD_eq_getElem _ _ (by simpa using hi), List.getD_eq_getElem _ _ hi]; simp
  have gl : (o.map (tAt x)).getLastD 0 = tAt x (o.getLastD 0) := by
    rw [List.getLastD_eq_getLast?, List.getLastD_eq_getLast?, List.getLast?_map,
      List.getLast?_eq_some_getLast hone]; rfl
  rw [g', g hi, gl, ← hcut]
  congr 1
  have hR : morRanks x = ranksOf (o.map (magOf (toB x))) x.δ (cutoff (toB x)) := rfl
  have hS := ranksOf_spec (o.map (magOf (toB x))) x.δ (cutoff (toB x))
  rw [← hR] at hS
  set nx := findNextLarger (o.map (magOf (toB x))) x.δ (some (cutoff (toB x))) with hnx
  have hmem : ∀ j, (i, j) ∈ morRanks x ↔ (nx.getD i 0 ≠ 0 ∧ j = nx.getD i 0) := by
    intro j
    rw [hR]
    unfold ranksOf
    simp only [List.mem_map, List.mem_filter, List.mem_range, decide_eq_true_eq, Prod.mk.injEq, List.length_map]
    constructor
    · rintro ⟨k, ⟨hk, h0⟩, rfl, rfl⟩; exact ⟨h0, rfl⟩
    · rintro ⟨h0, rfl⟩; exact ⟨i, ⟨hi, h0⟩, rfl, rfl⟩
  unfold waitOf
  by_cases h0 : nx.getD i 0 = 0
  · rw [lookup_none (fun j hj => ((hmem j).1 hj).1 h0), if_pos h0]
  · have hm := (hmem (nx.getD i 0)).2 ⟨h0, rfl⟩
    rw [lookup_of_mem hS.increasing hm, if_neg h0]
    have := (firstLarger_lt ((hS.mem _ _).1 hm)).2
    rw [List.length_map] at this
    simp only [g this]

theorem damp_pos (b dmc mc m : ℝ) : 0 < damp b dmc mc m := Real.rpow_pos_of_pos (by norm_num) _

theorem sorted_getD {t : ℕ → ℝ} {o : List ℕ} (h : o.Pairwise fun i j => t i ≤ t j) {i j : ℕ} (hij : i < j)
    (hj : j < o.length) : t (o.getD i 0) ≤ t (o.getD j 0) := by
  have hi : i < o.length := lt_trans hij hj
  rw [List.getD_eq_getElem _ _ hi, List.getD_eq_getElem _ _ hj]
  exact List.pairwise_iff_getElem.1 h i j hi hj hij

theorem getD_mem {o : List ℕ} {i : ℕ} (hi : i < o.length) : o.getD i 0 ∈ o := by
  rw [List.getD_eq_getElem _ _ hi]; exact List.getElem_mem _

theorem morRanks_lt {x : Args} {i j : ℕ} (h : (i, j) ∈ morRanks x) :
    i < j ∧ j < (timeOrder (toB x)).length := by
  have := ((ranksOf_spec _ x.δ (cutoff (toB x))).mem i j).1 h
  have h2 := firstLarger_lt this
  rw [List.length_map] at h2
  exact ⟨this.1, h2.2⟩

theorem lookup_mem {R : List (ℕ × ℕ)} {i j : ℕ} (h : R.lookup i = some j) : (i, j) ∈ R := by
  induction R with
  | nil => cases h
  | cons p R ih =>
    obtain ⟨a, c⟩ := p
    rw [List.lookup_cons] at h
    by_cases hi : i = a
    · subst hi; simp at h; subst h; simp
    · have hne : (i == a) = false := by simp [hi]
      rw [hne] at h
      exact List.mem_cons_of_mem _ (ih h)

theorem waitOf_bounds (x : Args) {i : ℕ} (hi : i < (timeOrder (toB x)).length) :
    0 ≤ waitOf (tAt x) (timeOrder (toB x)) (morRanks x) i ∧
      waitOf (tAt x) (timeOrder (toB x)) (morRanks x) i ≤ duration (tAt x) (timeOrder (toB x)) := by
  have hs := order_sorted x
  have h1 := pairwise_head_le hs (getD_mem hi)
  have h2 := pairwise_le_last hs (getD_mem hi)
  unfold waitOf duration
  cases hl : (morRanks x).lookup i with
  | none => simp only []; constructor <;> linarith
  | some j =>
    obtain ⟨hij, hj⟩ := morRanks_lt (lookup_mem hl)
    have h3 := sorted_getD hs hij hj
    have h4 := pairwise_le_last hs (getD_mem hj)
    simp only []; constructor <;> linarith

theorem morRaw_rate (x : Args) (h : morRanks x ≠ []) :
    IsRate (morRanks x).length (duration (tAt x) (timeOrder (toB x)))
      ((List.range (timeOrder (toB x)).length).map fun i =>
        waitOf (tAt x) (timeOrder (toB x)) (morRanks x) i *
        damp (x.b.getD 0) (x.dmc.getD x.δ) x.mc (magOf (toB x) ((timeOrder (toB x)).getD i 0))).sum (morRaw x) := by
  obtain ⟨⟨i0, j0⟩, hp0⟩ := List.exists_mem_of_ne_nil _ h
  have hl := morRanks_lt hp0
  have ho : timeOrder (toB x) ≠ [] := by
    intro h0; rw [h0] at hl; exact absurd hl.2 (by simp)
  unfold morRaw
  rw [if_neg h, span_map _ _ ho, morWaits_eq]
  apply rate_isRate (List.length_pos_of_ne_nil h)
  · simpa using ho
  · intro v hv
    obtain ⟨i, hi, rfl⟩ := List.mem_map.1 hv
    exact mul_nonneg (waitOf_bounds x (List.mem_range.1 hi)).1 (damp_pos _ _ _ _).le
  · have := waitOf_bounds x (lt_trans hl.1 hl.2)
    linarith
  · intro h0 v hv
    obtain ⟨i, hi, rfl⟩ := List.mem_map.1 hv
    have := waitOf_bounds x (List.mem_range.1 hi)
    have h1 : waitOf (tAt x) (timeOrder (toB x)) (morRanks x) i = 0 := by linarith
    rw [h1, zero_mul]

/-! ### state -/

theorem finish_keeps (p : AValue.State × Fl ℝ) : (finish p).1.mags = p.1.mags ∧ (finish p).1.idx = p.1.idx ∧
    (finish p).1.times = p.1.times := by
  unfold finish
  simp only []
  split <;> exact ⟨rfl, rfl, rfl⟩

/-- The state after a successful call with a non-empty selection. -/
theorem timed_state {c : AValue.Cls} (hc : c ≠ .classic) {warn : Bool} {s s' : AValue.State} {x : Args} {r : Fl ℝ}
    (h : AValue.calculate c warn s x = (s', .ok r)) :
    ∃ (s0 : AValue.State) (t : List ℝ), gather x.times (usedIdx (toB x)) = .ok t ∧
      s0.dmc = some (cutoff (toB x)) ∧
      (usedIdx (toB x) = [] → s'.mags = some [] ∧ s'.idx = some [] ∧ s'.times = some []) ∧
      (usedIdx (toB x) ≠ [] →
        s'.mags = (estimate c warn (filt s0 warn x (some t))).1.mags ∧
        s'.idx = (estimate c warn (filt s0 warn x (some t))).1.idx ∧
        s'.times = (estimate c warn (filt s0 warn x (some t))).1.times) := by
  have key : ∀ s : AValue.State, timedCalculate c warn s x = (s', .ok r) →
      ∃ (s0 : AValue.State) (t : List ℝ), gather x.times (usedIdx (toB x)) = .ok t ∧
      s0.dmc = some (cutoff (toB x)) ∧
      (usedIdx (toB x) = [] → s'.mags = some [] ∧ s'.idx = some [] ∧ s'.times = some []) ∧
      (usedIdx (toB x) ≠ [] →
        s'.mags = (estimate c warn (filt s0 warn x (some t))).1.mags ∧
        s'.idx = (estimate c warn (filt s0 warn x (some t))).1.idx ∧
        s'.times = (estimate c warn (filt s0 warn x (some t))).1.times) := by
    intro s h
    unfold timedCalculate at h
    simp only [] at h
    split at h
    · cases h
    · cases hb : checkBinning x.mags x.δ with
      | error e =>
        have := congrArg Prod.snd h
        rw [base_bin_error _ _ _ _ hb] at this
        cases this
      | ok u =>
        cases ht : gather x.times (usedIdx (toB x)) with
        | error e =>
          have := congrArg Prod.snd h
          rw [base_gather_error hc _ _ _ hb (e := e) (by simpa using ht)] at this
          cases this
        | ok t =>
          rw [base_timed hc _ _ _ hb (t := t) (by simpa using ht)] at h
          refine ⟨{ s with times := some x.times, dmc := some (x.dmc.getD x.δ), warned := s.warned ++ (if x.dmc.getD x.δ < x.δ && warn then [.dmcSmall] else []) }, t, rfl, rfl, ?_, ?_⟩
          rotate_left
          · intro hne
            rw [if_neg hne] at h
            have e := congrArg Prod.fst h
            simp only at e
            rw [← e]
            exact finish_keeps _
          · intro he
            rw [if_pos he] at h
            have e := congrArg Prod.fst h
            simp only at e
            have ht' : t = [] := by
              obtain ⟨hq, -⟩ := BValue.gather_eq 0 ht
              rw [hq, he]; rfl
            rw [← e]
            unfold filt
            simp [he, ht']
  unfold AValue.calculate at h
  cases c with
  | classic => exact absurd rfl hc
  | positive => exact key _ h
  | morePositive =>
    simp only [] at h
    split at h
    · cases h
    · exact key _ h

theorem raw_of_ok {c : AValue.Cls} {warn : Bool} {s s' : AValue.State} {x : Args} {r : Fl ℝ}
    (h : AValue.calculate c warn s x = (s', .ok r)) (h1 : x.mref = none) (h2 : x.scaling = none) :
    (usedIdx (toB x) = [] → r = .nan) ∧ (usedIdx (toB x) ≠ [] → r = raw c x) := by
  have e := congrArg Prod.snd h
  rw [calculate_snd] at e
  simp only at e
  unfold result at e
  cases hp : precheck c x with
  | error _ => rw [hp] at e; cases e
  | ok _ =>
    cases hb : checkBinning x.mags x.δ with
    | error _ => rw [hp, hb] at e; cases e
    | ok _ =>
      cases ht : timesCheck c x with
      | error _ => rw [hp, hb, ht] at e; cases e
      | ok _ =>
        rw [hp, hb, ht] at e
        simp only [bind, Except.bind] at e
        constructor
        · intro h0; rw [if_pos h0] at e; cases e; rfl
        · intro h0
          rw [if_neg h0] at e
          unfold AValue.scaled at e
          simp only [h1, h2] at e
          cases e; rfl

/-! ## C30 -/

/-- C30: after a successful call, with `K` the pairs of time-consecutive selected events growing by at
least `dmc - delta_m/2`: `idx`, `magnitudes` (and `times`, if there is a pair) belong to the later
events. Without reference and scaling, the value is the rate of `K` events in the time waited. -/
theorem C30_rate {warn : Bool} {s s' : AValue.State} {x : Args} {r : Fl ℝ}
    (h : AValue.calculate .positive warn s x = (s', .ok r)) :
    ∃ idx o K, Spec.Positions x.mags (x.mc - x.δ / 2) idx ∧ TimeOrdered (some x.times) idx o ∧
      K = growing (magOf (toB x)) (x.dmc.getD x.δ - x.δ / 2) o ∧
      s'.idx = some (K.map Prod.snd) ∧ s'.mags = some (K.map fun p => x.mags.getD p.2 none) ∧
      (K ≠ [] → s'.times = some (K.map fun p => x.times.getD p.2 0)) ∧
      (x.mref = none → x.scaling = none → (K = [] → r = .nan) ∧
        (K ≠ [] → IsRate K.length (duration (fun i => x.times.getD i 0) o)
          (K.map fun p => x.times.getD p.2 0 - x.times.getD p.1 0).sum r)) := by
  refine ⟨usedIdx (toB x), timeOrder (toB x), posPairs x, positions_usedIdx (toB x), timeOrdered (toB x), rfl, ?_⟩
  obtain ⟨s0, t, ht, hd, he, hne⟩ := timed_state (by simp) h
  have hr := raw_of_ok h
  have hmag : ∀ p ∈ posPairs x, some (magOf (toB x) p.2) = x.mags.getD p.2 none := by
    intro p hp
    have := (zip_tail_mem (List.mem_filter.1 hp).1).2
    exact (BValue.magAt_used (a := toB x) ((timeOrder_perm (toB x)).mem_iff.1 this)).symm
  by_cases hu : usedIdx (toB x) = []
  · have hK : posPairs x = [] := by
      unfold posPairs; rw [timeOrder_nil hu]; rfl
    obtain ⟨e1, e2, e3⟩ := he hu
    rw [hK]
    exact ⟨e2, e1, fun h => absurd rfl h, fun h1 h2 => ⟨fun _ => (hr h1 h2).1 hu, fun h => absurd rfl h⟩⟩
  · obtain ⟨e1, e2, e3⟩ := hne hu
    have hE := estimatePositive_filt s0 warn x ht hd
    have hE' : estimate .positive warn (filt s0 warn x (some t)) = _ := hE
    rw [hE'] at e1 e2 e3
    refine ⟨e2, ?_, ?_, ?_⟩
    · rw [e1]; exact congrArg some (List.map_congr_left hmag)
    · intro hK
      simp only [hK, if_false] at e3
      exact e3
    · intro h1 h2
      have : r = posRaw x := (hr h1 h2).2 hu
      rw [this]
      refine ⟨fun hK => ?_, fun hK => posRaw_rate x hK⟩
      unfold posRaw; rw [if_pos hK]

theorem growing_sum_le (t m : ℕ → ℝ) (thr : ℝ) (o : List ℕ) (h : o.Pairwise fun i j => t i ≤ t j)
    (hne : o ≠ []) : ((growing m thr o).map fun p => t p.2 - t p.1).sum ≤ duration t o := by
  unfold growing duration
  induction o with
  | nil => exact absurd rfl hne
  | cons a r ih =>
    cases r with
    | nil => simp
    | cons c r =>
      obtain ⟨h1, h2⟩ := List.pairwise_cons.1 h
      have := ih h2 (by simp)
      have hac : t a ≤ t c := h1 c (by simp)
      have e : (a :: c :: r).getLastD 0 = (c :: r).getLastD 0 := by simp
      simp only [List.tail_cons, List.zip_cons_cons, List.filter_cons, List.headD_cons] at this ⊢
      rw [e]
      split
      · simp only [List.map_cons, List.sum_cons]; linarith
      · linarith

/-- C30: the estimated number `10^a` is at least `n`, the number of used pairs: the time waited is part
of the duration. -/
theorem C30_at_least_pairs {warn : Bool} {s s' : AValue.State} {x : Args} {a : ℝ}
    (h : AValue.calculate .positive warn s x = (s', .ok (.fin a))) (h1 : x.mref = none) (h2 : x.scaling = none) :
    ∃ n : ℕ, s'.n = .ok n ∧ (n : ℝ) ≤ (10 : ℝ) ^ a := by
  have ha : s'.a.isSome = true := by
    have e := congrArg Prod.fst h
    have e2 := congrArg Prod.snd h
    have : ∀ p : AValue.State × Fl ℝ, (∃ v, (finish p).2 = .ok v) → (finish p).1.a.isSome = true := by
      intro p hv
      unfold finish
      simp only []
      split <;> rfl
    simp only at e e2
    rw [← e]
    unfold AValue.calculate timedCalculate AValue.baseCalculate
    unfold AValue.calculate timedCalculate AValue.baseCalculate at e2
    simp only [] at e2 ⊢
    split
    · rename_i hd; rw [if_pos hd] at e2; cases e2
    · rename_i hd
      rw [if_neg hd] at e2
      revert e2
      split
      · intro e2; cases e2
      · split
        · intro e2; cases e2
        · intro e2
          split
          · rfl
          · rename_i hx
            rw [if_neg hx] at e2
            exact this _ ⟨_, e2⟩
  obtain ⟨idx, o, K, hp, ho, hK, e1, e2, e3, e4⟩ := C30_rate h
  obtain ⟨q1, q2⟩ := e4 h1 h2
  obtain ⟨v, hv⟩ := Option.isSome_iff_exists.1 ha
  refine ⟨K.length, ?_, ?_⟩
  · unfold AValue.State.n
    rw [hv, e2]
    simp
  · have hKne : K ≠ [] := by
      intro h0; cases q1 h0
    have hr := q2 hKne
    have hone : o ≠ [] := by rintro rfl; apply hKne; rw [hK]; rfl
    have hle := growing_sum_le (fun i => x.times.getD i 0) (magOf (toB x)) (x.dmc.getD x.δ - x.δ / 2) o
      (ho.sorted _ rfl) hone
    rw [← hK] at hle
    rcases hr.waited_nonneg.lt_or_eq with hw | hw
    · obtain ⟨a', ha', hpow⟩ := hr.rate hw
      cases ha'
      rw [hpow]
      have hT := hr.total_pos hw
      rw [le_div_iff₀ (div_pos hw hT)]
      have : (K.map fun p => x.times.getD p.2 0 - x.times.getD p.1 0).sum /
          duration (fun i => x.times.getD i 0) o ≤ 1 := (div_le_one hT).2 hle
      have hn : (0 : ℝ) ≤ K.length := Nat.cast_nonneg _
      nlinarith
    · rcases hr.total_nonneg.lt_or_eq with hT | hT
      · cases hr.no_wait hw.symm hT
      · cases hr.no_time hT.symm

/-! ## C31 -/

/-- C31: after a successful call, `ranks` being the next-larger pairs (as for b-more-positive):
`idx`, `magnitudes`, `times` belong to the later events. Without reference and scaling the value is
the rate of pairs in the time waited, each waiting time (until the end for an event without partner)
being damped by `10^(-b (m + dmc - mc))`. -/
theorem C31_rate {warn : Bool} {s s' : AValue.State} {x : Args} {r : Fl ℝ}
    (h : AValue.calculate .morePositive warn s x = (s', .ok r)) :
    ∃ b idx o ranks, x.b = some b ∧ b ≠ 0 ∧
      Spec.Positions x.mags (x.mc - x.δ / 2) idx ∧ TimeOrdered (some x.times) idx o ∧
      NextLarger (o.map (magOf (toB x))) (x.dmc.getD x.δ - x.δ / 2) ranks ∧
      s'.idx = some (ranks.map fun r => o.getD r.2 0) ∧
      s'.mags = some (ranks.map fun r => x.mags.getD (o.getD r.2 0) none) ∧
      s'.times = some (ranks.map fun r => x.times.getD (o.getD r.2 0) 0) ∧
      (x.mref = none → x.scaling = none → (ranks = [] → r = .nan) ∧
        (ranks ≠ [] → IsRate ranks.length (duration (fun i => x.times.getD i 0) o)
          ((List.range o.length).map fun i => waitOf (fun i => x.times.getD i 0) o ranks i *
            damp b (x.dmc.getD x.δ) x.mc (magOf (toB x) (o.getD i 0))).sum r)) := by
  have hb : ∃ b, x.b = some b ∧ b ≠ 0 := by
    have e := congrArg Prod.snd h
    rw [calculate_snd] at e
    unfold result precheck at e
    simp only [] at e
    by_cases h0 : x.b.getD 0 = 0
    · rw [if_pos h0] at e; cases e
    · cases hx : x.b with
      | none => rw [hx] at h0; exact absurd rfl h0
      | some b => rw [hx] at h0; exact ⟨b, rfl, h0⟩
  obtain ⟨b, hb, hb0⟩ := hb
  refine ⟨b, usedIdx (toB x), timeOrder (toB x), morRanks x, hb, hb0, positions_usedIdx (toB x),
    timeOrdered (toB x), ranksOf_spec _ _ _, ?_⟩
  obtain ⟨s0, t, ht, hd, he, hne⟩ := timed_state (by simp) h
  have hr := raw_of_ok h
  by_cases hu : usedIdx (toB x) = []
  · have hK : morRanks x = [] := by
      unfold morRanks; rw [timeOrder_nil hu]; rfl
    obtain ⟨e1, e2, e3⟩ := he hu
    rw [hK]
    exact ⟨e2, e1, e3, fun h1 h2 => ⟨fun _ => (hr h1 h2).1 hu, fun h => absurd rfl h⟩⟩
  · obtain ⟨e1, e2, e3⟩ := hne hu
    have hE := estimateMore_filt s0 warn x ht hd
    have hE' : estimate .morePositive warn (filt s0 warn x (some t)) = _ := hE
    rw [hE'] at e1 e2 e3
    refine ⟨e2, ?_, e3, ?_⟩
    · rw [e1]
      refine congrArg some (List.map_congr_left ?_)
      intro p hp
      have := (morRanks_lt (i := p.1) (j := p.2) hp).2
      exact (BValue.magAt_used (a := toB x) ((timeOrder_perm (toB x)).mem_iff.1 (getD_mem this))).symm
    · intro h1 h2
      have : r = morRaw x := (hr h1 h2).2 hu
      rw [this]
      refine ⟨fun hK => ?_, fun hK => ?_⟩
      · unfold morRaw; rw [if_pos hK]
      · have := morRaw_rate x hK
        rw [hb] at this
        exact this

/-! ## Invariances -/

/-- The value as a function of the timeline. -/
def lineRaw (c : AValue.Cls) (b mc δ dmc : ℝ) (E : List (ℝ × ℝ × ℝ)) : Fl ℝ :=
  match c with
  | .classic => Fl.log10 (.fin (E.length : ℝ))
  | .positive =>
    if ((List.zip E E.tail).filter fun p => decide (dmc - δ / 2 ≤ p.2.1 - p.1.1)) = [] then .nan
    else rate ((List.zip E E.tail).filter fun p => decide (dmc - δ / 2 ≤ p.2.1 - p.1.1)).length
      (((List.zip E E.tail).filter fun p => decide (dmc - δ / 2 ≤ p.2.1 - p.1.1)).map
        fun p => p.2.2.2 - p.1.2.2) (span (E.map fun e => e.2.2))
  | .morePositive =>
    if ranksOf (E.map Prod.fst) δ dmc = [] then .nan
    else rate (ranksOf (E.map Prod.fst) δ dmc).length
      ((List.range E.length).map fun i =>
        (if (findNextLarger (E.map Prod.fst) δ (some dmc)).getD i 0 = 0
          then (E.map fun e => e.2.2).getLastD 0 - (E.map fun e => e.2.2).getD i 0
          else (E.map fun e => e.2.2).getD ((findNextLarger (E.map Prod.fst) δ (some dmc)).getD i 0) 0 -
            (E.map fun e => e.2.2).getD i 0) *
        (10 : ℝ) ^ (-b * ((E.map Prod.fst).getD i 0 + dmc - mc))) (span (E.map fun e => e.2.2))

theorem raw_line (c : AValue.Cls) (x : Args) :
    raw c x = lineRaw c (x.b.getD 0) x.mc x.δ (x.dmc.getD x.δ) (timeline (toB x)) := by
  have h1 : (timeline (toB x)).map Prod.fst = (timeOrder (toB x)).map (magOf (toB x)) := by
    unfold timeline; rw [List.map_map]; rfl
  have h2 : ((timeline (toB x)).map fun e => e.2.2) = (timeOrder (toB x)).map (tAt x) := by
    unfold timeline; rw [List.map_map]; rfl
  have h3 : (timeline (toB x)).length = (timeOrder (toB x)).length := by
    unfold timeline; rw [List.length_map]
  unfold raw lineRaw
  cases c with
  | classic =>
    simp only [h3, (timeOrder_perm (toB x)).length_eq]
  | positive =>
    simp only [h2]
    unfold posRaw
    have : ((List.zip (timeline (toB x)) (timeline (toB x)).tail).filter
        fun p => decide (x.dmc.getD x.δ - x.δ / 2 ≤ p.2.1 - p.1.1)) =
        (posPairs x).map fun p => ((magOf (toB x) p.1, weightOf (toB x) p.1, timeOf (toB x) p.1),
          (magOf (toB x) p.2, weightOf (toB x) p.2, timeOf (toB x) p.2)) := by
      unfold timeline posPairs growing
      rw [zip_map_tail, List.filter_map]
      rfl
    rw [this]
    simp only [List.map_eq_nil_iff, List.length_map, List.map_map]
    rfl
  | morePositive =>
    simp only [h1, h2, h3]
    rfl

theorem result_line {c : AValue.Cls} {x y : Args} (hp : precheck c x = precheck c y)
    (hb : checkBinning x.mags x.δ = checkBinning y.mags y.δ) (ht : timesCheck c x = timesCheck c y)
    (hs : ∀ v, AValue.scaled x v = AValue.scaled y v) (hu : usedIdx (toB x) = [] ↔ usedIdx (toB y) = [])
    (hr : timesCheck c x = .ok () → raw c x = raw c y) : result c x = result c y := by
  unfold result
  rw [hp, hb, ht]
  cases precheck c y with
  | error e => rfl
  | ok u =>
    cases checkBinning y.mags y.δ with
    | error e => rfl
    | ok v =>
      cases ht' : timesCheck c y with
      | error e => rfl
      | ok w =>
        simp only [bind, Except.bind]
        by_cases h0 : usedIdx (toB x) = []
        · rw [if_pos h0, if_pos (hu.1 h0)]
        · rw [if_neg h0, if_neg (fun h => h0 (hu.2 h)), hs, hr (ht.trans ht')]

/-- The arguments with the events of `l` (magnitude or NaN, time). -/
def onEvents (x : Args) (l : List (Option ℝ × ℝ)) : Args :=
  { x with mags := l.map Prod.fst, times := l.map Prod.snd }

theorem toB_onEvents (x : Args) (l : List (Option ℝ × ℝ)) :
    toB (onEvents x l) = timed (l.map fun e => (e.1, 0, e.2)) false x.mc x.δ x.dmc := by
  unfold toB onEvents timed
  simp [Function.comp_def]

/-- See `C30_permutation`. -/
theorem a_permutation (c : AValue.Cls) (warn : Bool) (s : AValue.State) (x : Args)
    (l l' : List (Option ℝ × ℝ)) (h : l.Perm l') (hd : (l.map Prod.snd).Nodup) :
    (AValue.calculate c warn s (onEvents x l)).2 = (AValue.calculate c warn s (onEvents x l')).2 := by
  rw [calculate_snd, calculate_snd]
  have hE : timeline (toB (onEvents x l)) = timeline (toB (onEvents x l')) := by
    rw [toB_onEvents, toB_onEvents]
    apply timeline_timed _ _ _ _ (h.map _)
    simpa [Function.comp_def] using hd
  have hfit : ∀ l, timesCheck c (onEvents x l) = .ok () :=
    fun l => timesCheck_ok (Or.inr (by simp [onEvents]))
  apply result_line
  · exact precheck_congr rfl rfl rfl
  · exact checkBinning_perm x.δ (h.map _)
  · rw [hfit, hfit]
  · intro v; rfl
  · rw [← timeline_nil, ← timeline_nil, hE]
  · intro _
    rw [raw_line, raw_line, hE]
    rfl

/-- The arguments with the time axis changed by `f`. -/
def reTime (x : Args) (f : ℝ → ℝ) : Args := { x with times := x.times.map f }

theorem zipWith_congr' {α β γ : Type} {f g : α → β → γ} (l : List α) (r : List β)
    (h : ∀ a ∈ l, ∀ b ∈ r, f a b = g a b) : List.zipWith f l r = List.zipWith g l r := by
  induction l generalizing r with
  | nil => rfl
  | cons a l ih =>
    cases r with
    | nil => rfl
    | cons b r =>
      simp only [List.zipWith_cons_cons]
      rw [h a (by simp) b (by simp), ih r (fun a ha b hb => h a (by simp [ha]) b (by simp [hb]))]

theorem span_affine (t : List ℝ) (k d : ℝ) (h : t ≠ []) : span (t.map fun x => k * x + d) = k * span t := by
  obtain ⟨x, r, rfl⟩ := List.exists_cons_of_ne_nil h
  unfold span
  rw [List.getLastD_eq_getLast?, List.getLastD_eq_getLast?, List.getLast?_map,
    List.getLast?_eq_some_getLast h]
  simp only [Option.map_some, Option.getD_some, List.map_cons, List.headD_cons]
  ring

theorem lineRaw_affine (c : AValue.Cls) (b mc δ dmc k d : ℝ) (hk : 0 < k) (E : List (ℝ × ℝ × ℝ)) :
    lineRaw c b mc δ dmc (E.map fun e => (e.1, e.2.1, k * e.2.2 + d)) = lineRaw c b mc δ dmc E := by
  have hm : ((E.map fun e => (e.1, e.2.1, k * e.2.2 + d)).map Prod.fst) = E.map Prod.fst := by
    rw [List.map_map]; rfl
  have ht : ((E.map fun e => (e.1, e.2.1, k * e.2.2 + d)).map fun e => e.2.2) =
      (E.map fun e => e.2.2).map fun x => k * x + d := by
    rw [List.map_map, List.map_map]; rfl
  unfold lineRaw
  cases c with
  | classic => simp only [List.length_map]
  | positive =>
    have ht' : ((E.map fun e => (e.1, e.2.1, k * e.2.2 + d)).map fun e => e.2.2) =
        E.map fun e => k * e.2.2 + d := by rw [List.map_map]; rfl
    simp only [ht', zip_map_tail, List.filter_map, List.map_eq_nil_iff, List.length_map]
    have : ((fun p : (ℝ × ℝ × ℝ) × (ℝ × ℝ × ℝ) => decide (dmc - δ / 2 ≤ p.2.1 - p.1.1)) ∘
        fun p : (ℝ × ℝ × ℝ) × (ℝ × ℝ × ℝ) => ((p.1.1, p.1.2.1, k * p.1.2.2 + d), (p.2.1, p.2.2.1, k * p.2.2.2 + d))) =
        fun p : (ℝ × ℝ × ℝ) × (ℝ × ℝ × ℝ) => decide (dmc - δ / 2 ≤ p.2.1 - p.1.1) := rfl
    rw [this]
    split
    · rfl
    · rename_i hne
      have hE : E ≠ [] := by rintro rfl; exact hne rfl
      have hsp : span (E.map fun e => k * e.2.2 + d) = k * span (E.map fun e => e.2.2) := by
        rw [← span_affine _ _ _ (by simpa using hE), List.map_map]; rfl
      rw [hsp, ← rate_scale _ _ (span _) k hk, List.map_map, List.map_map]
      congr 1
      apply List.map_congr_left
      intro p _
      simp only [Function.comp_apply]
      ring
  | morePositive =>
    simp only [hm, ht, List.length_map]
    split
    · rfl
    · rename_i hne
      have hE : E ≠ [] := by rintro rfl; exact hne rfl
      have hlen : (findNextLarger (E.map Prod.fst) δ (some dmc)).length = E.length := by
        rw [(C24_find_next_larger _ δ (some dmc)).1, List.length_map]
      rw [span_affine _ _ _ (by simpa using hE), ← rate_scale _ _ (span _) k hk]
      congr 1
      conv_rhs => rw [List.map_map]
      apply List.map_congr_left
      intro i hi
      have hi : i < E.length := List.mem_range.1 hi
      simp only [Function.comp_apply]
      have g : ∀ {j : ℕ}, j < E.length → ((E.map fun e => e.2.2).map fun x => k * x + d).getD j 0 =
          k * (E.map fun e => e.2.2).getD j 0 + d := by
        intro j hj
        rw [List.getD_eq_getElem _ _ (by simpa using hj), List.getD_eq_getElem _ _ (by simpa using hj)]
        simp
      have gl : ((E.map fun e => e.2.2).map fun x => k * x + d).getLastD 0 =
          k * (E.map fun e => e.2.2).getLastD 0 + d := by
        rw [List.getLastD_eq_getLast?, List.getLastD_eq_getLast?, List.getLast?_map,
          List.getLast?_eq_some_getLast (by simpa using hE)]
        rfl
      rw [g hi, gl]
      split
      · ring
      · rename_i h0
        have hj : (findNextLarger (E.map Prod.fst) δ (some dmc)).getD i 0 < E.length := by
          have hi' : i < (findNextLarger (E.map Prod.fst) δ (some dmc)).length := by rw [hlen]; exact hi
          rw [List.getD_eq_getElem _ _ hi'] at h0 ⊢
          have := firstLarger_lt ((C24_find_next_larger (E.map Prod.fst) δ (some dmc)).2 i hi' |>.2 _ rfl h0)
          simpa using this.2
        rw [g hj]
        ring

/-- See `C30_time_axis`. -/
theorem a_time_axis (c : AValue.Cls) (warn : Bool) (s : AValue.State) (x : Args) (k d : ℝ) (hk : 0 < k) :
    (AValue.calculate c warn s (reTime x fun t => k * t + d)).2 = (AValue.calculate c warn s x).2 := by
  rw [calculate_snd, calculate_snd]
  have hB : toB (reTime x fun t => k * t + d) = retimed (toB x) fun t => k * t + d := rfl
  have hu : usedIdx (toB (reTime x fun t => k * t + d)) = usedIdx (toB x) := rfl
  have hg : timesCheck c (reTime x fun t => k * t + d) = timesCheck c x := by
    unfold timesCheck
    cases c with
    | classic => rfl
    | positive =>
      simp only [hu]
      rw [show (reTime x fun t => k * t + d).times = x.times.map fun t => k * t + d from rfl, gather_map]
      cases gather x.times (usedIdx (toB x)) <;> rfl
    | morePositive =>
      simp only [hu]
      rw [show (reTime x fun t => k * t + d).times = x.times.map fun t => k * t + d from rfl, gather_map]
      cases gather x.times (usedIdx (toB x)) <;> rfl
  apply result_line
  · exact precheck_congr rfl rfl rfl
  · rfl
  · exact hg
  · intro v; rfl
  · rw [hu]
  · intro hok
    cases hc : c with
    | classic => rfl
    | _ =>
      rw [← hc]
      rw [raw_line, raw_line, ← lineRaw_affine c _ _ _ _ k d hk (timeline (toB x))]
      have hok' : timesCheck c x = .ok () := hg ▸ hok
      have hgo : ∃ t, gather x.times (usedIdx (toB x)) = .ok t := by
        unfold timesCheck at hok'
        rw [hc] at hok'
        simp only [] at hok'
        cases hgg : gather x.times (usedIdx (toB x)) with
        | error e => rw [hgg] at hok'; cases hok'
        | ok t => exact ⟨t, rfl⟩
      obtain ⟨t, ht⟩ := hgo
      have hgo : gatherOpt (toB x).times (usedIdx (toB x)) = .ok (some t) := by
        change (gather x.times (usedIdx (toB x))).map some = _
        rw [ht]; rfl
      have hE : timeline (toB (reTime x fun t => k * t + d)) =
          (timeline (toB x)).map fun e => (e.1, e.2.1, k * e.2.2 + d) := by
        unfold timeline
        rw [hB, timeOrder_retimed (toB x) _ hgo, List.map_map]
        · apply List.map_congr_left
          intro i hi
          have hi' : i < x.times.length := (BValue.gather_eq 0 ht).2 i ((timeOrder_perm _).mem_iff.1 hi)
          simp only [Function.comp_apply]
          have e1 : timeOf (retimed (toB x) fun t => k * t + d) i = k * timeOf (toB x) i + d := by
            unfold timeOf retimed toB
            simp [hi']
          rw [e1]
          rfl
        · intro ts _ y _ z _ hyz
          have := mul_lt_mul_of_pos_left hyz hk
          linarith
      rw [hE]
      rfl

/-- C30: permuting the events together with their (distinct) times changes neither value nor
exception, for every reference, scaling and history. -/
theorem C30_permutation (warn : Bool) (s : AValue.State) (x : Args) (l l' : List (Option ℝ × ℝ))
    (h : l.Perm l') (hd : (l.map Prod.snd).Nodup) :
    (AValue.calculate .positive warn s (onEvents x l)).2 =
      (AValue.calculate .positive warn s (onEvents x l')).2 := a_permutation _ warn s x l l' h hd

/-- C31: the same for a-more-positive. -/
theorem C31_permutation (warn : Bool) (s : AValue.State) (x : Args) (l l' : List (Option ℝ × ℝ))
    (h : l.Perm l') (hd : (l.map Prod.snd).Nodup) :
    (AValue.calculate .morePositive warn s (onEvents x l)).2 =
      (AValue.calculate .morePositive warn s (onEvents x l')).2 := a_permutation _ warn s x l l' h hd

/-- C30: changing the unit of time (`k`) or its origin (`d`) changes neither value nor exception, for
every reference, scaling and history. -/
theorem C30_time_axis (warn : Bool) (s : AValue.State) (x : Args) (k d : ℝ) (hk : 0 < k) :
    (AValue.calculate .positive warn s (reTime x fun t => k * t + d)).2 =
      (AValue.calculate .positive warn s x).2 := a_time_axis _ warn s x k d hk

/-- C31: the same for a-more-positive. -/
theorem C31_time_axis (warn : Bool) (s : AValue.State) (x : Args) (k d : ℝ) (hk : 0 < k) :
    (AValue.calculate .morePositive warn s (reTime x fun t => k * t + d)).2 =
      (AValue.calculate .morePositive warn s x).2 := a_time_axis _ warn s x k d hk

/-- A finding about C30: without a used pair, `times` keeps the times of all selected events while
`magnitudes` and `idx` are empty. -/
theorem C30_stale_times {warn : Bool} {s s' : AValue.State} {x : Args} {r : Fl ℝ}
    (h : AValue.calculate .positive warn s x = (s', .ok r)) (hu : 0 < countAbove x.mags (x.mc - x.δ / 2))
    (hi : s'.idx = some []) : ∃ t, s'.times = some t ∧ t.length = countAbove x.mags (x.mc - x.δ / 2) := by
  obtain ⟨s0, t, ht, hd, he, hne⟩ := timed_state (by simp) h
  have hu' : usedIdx (toB x) ≠ [] := by
    intro h; rw [← used_length_count, h] at hu; exact absurd hu (lt_irrefl 0)
  obtain ⟨e1, e2, e3⟩ := hne hu'
  have hE' : estimate .positive warn (filt s0 warn x (some t)) = _ := estimatePositive_filt s0 warn x ht hd
  rw [hE'] at e2 e3
  have hK : posPairs x = [] := by
    rw [e2] at hi
    simpa using hi
  simp only [hK, if_true] at e3
  refine ⟨_, e3, ?_⟩
  rw [List.length_map, (timeOrder_perm (toB x)).length_eq, used_length_count]

/-! ## The hypotheses are met -/

theorem demoA_idx : usedIdx (toB demoA) = [0, 2] := by
  have h3 : (1 : ℝ) ≤ 2 + 1 / 2 := by norm_num
  norm_num [usedIdx, BValue.selIdx, toB, demoA, List.range_succ, List.filter, h3]

theorem demoA_order : timeOrder (toB demoA) = [0, 2] := by
  unfold timeOrder
  have : (toB demoA).times = some [1, 2, 3, 4] := rfl
  rw [this, demoA_idx]
  simp only [List.map_cons, List.map_nil, List.getD_cons_zero, List.getD_cons_succ]
  rw [argsort_of_sorted]
  · rfl
  · norm_num

theorem demoA_ok (c : AValue.Cls) (warn : Bool) (s : AValue.State) :
    ∃ s' r, AValue.calculate c warn s demoA = (s', .ok r) := by
  refine ⟨(AValue.calculate c warn s demoA).1, raw c demoA, Prod.ext rfl ?_⟩
  rw [calculate_snd, result_nonempty demoA_binned (Or.inr (by simp [demoA]))
    ⟨Or.inr (by norm_num [demoA]), fun _ => ⟨1, rfl, by norm_num⟩⟩
    (by rw [← used_length_count, demoA_idx]; norm_num)]
  rfl

/-- C30 on the reference data: both classes succeed from every history, and the pair used is that of
the two selected events. -/
example (warn : Bool) (s : AValue.State) : (∃ s' r, AValue.calculate .positive warn s demoA = (s', .ok r)) ∧
    (∃ s' r, AValue.calculate .morePositive warn s demoA = (s', .ok r)) ∧ posPairs demoA = [(0, 2)] ∧
    ((posPairs demoA).map fun p => tAt demoA p.2 - tAt demoA p.1).sum = 2 := by
  have h : posPairs demoA = [(0, 2)] := by
    unfold posPairs growing
    rw [demoA_order]
    have e : cutoff (toB demoA) = 1 := rfl
    rw [e]
    norm_num [List.filter, magOf, demoA, toB]
  refine ⟨demoA_ok _ _ _, demoA_ok _ _ _, h, ?_⟩
  rw [h]
  norm_num [tAt, demoA]

/-- C31 on the reference data: the first event waits for the second. -/
example : FirstLarger [1, 2] (1 - 1 / 2) 0 1 :=
  ⟨by norm_num, ⟨1, 2, rfl, rfl, by norm_num⟩, fun k h1 h2 => absurd h1 (by omega)⟩

end
end SeismoStats.Props
