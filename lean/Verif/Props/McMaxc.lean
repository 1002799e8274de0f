/-
Property C37: `estimate_mc_maxc`.
-/
import Verif.Model.EstimateMc
import Verif.Props.Fmd

namespace SeismoStats.Props
open SeismoStats SeismoStats.EstimateMc
set_option linter.unusedSimpArgs false
open Classical
noncomputable section

/-- Number of magnitudes whose rounded value is `v`. -/
def countAt (mags : List (Option ℝ)) (δ v : ℝ) : ℕ :=
  (mags.filterMap id).countP fun m => decide (Spec.RoundsTo (1 / 10 ^ 12) δ m v)

/-- `c` is the lowest of the fullest bins. -/
def IsFullest (mags : List (Option ℝ)) (δ c : ℝ) : Prop :=
  (∃ k : ℤ, c = k * δ) ∧ ∀ k : ℤ, countAt mags δ (k * δ) ≤ countAt mags δ c ∧
    (k * δ < c → countAt mags δ (k * δ) < countAt mags δ c)

theorem argmax_spec (l : List ℝ) (h : l ≠ []) : argmax l < l.length ∧
    (∀ j < l.length, l.getD j 0 ≤ l.getD (argmax l) 0) ∧ ∀ j < argmax l, l.getD j 0 < l.getD (argmax l) 0 := by
  have key : ∀ n, n ≤ l.length → 0 < n →
      let b := (List.range n).foldl (fun best i => if l.getD best 0 < l.getD i 0 then i else best) 0
      b < n ∧ (∀ j < n, l.getD j 0 ≤ l.getD b 0) ∧ ∀ j < b, l.getD j 0 < l.getD b 0 := by
    intro n
    induction n with
    | zero => intro _ h; omega
    | succ n ih =>
      intro hn _
      simp only [List.range_succ, List.foldl_append, List.foldl_cons, List.foldl_nil]
      cases n with
      | zero => simp
      | succ n =>
        obtain ⟨h1, h2, h3⟩ := ih (by omega) (by omega)
        set b := (List.range (n + 1)).foldl (fun best i => if l.getD best 0 < l.getD i 0 then i else best) 0
        split
        · rename_i hlt
          refine ⟨by omega, ?_, ?_⟩
          · intro j hj
            rcases Nat.lt_succ_iff_lt_or_eq.1 hj with hj | rfl
            · exact (h2 j hj).trans hlt.le
            · exact le_refl _
          · intro j hj
            exact lt_of_le_of_lt (h2 j hj) hlt
        · rename_i hge
          refine ⟨by omega, ?_, h3⟩
          intro j hj
          rcases Nat.lt_succ_iff_lt_or_eq.1 hj with hj | rfl
          · exact h2 j hj
          · exact not_lt.1 hge
  exact key l.length (le_refl _) (List.length_pos_iff.2 h)

theorem weightWhere_ones (x : List ℝ) (y : List ℝ) (p : ℝ → Bool) (h : y.length = x.length) :
    weightWhere (List.zip x (y.map fun _ => (1 : ℝ))) p = (x.countP p : ℕ) := by
  induction x generalizing y with
  | nil => simp [weightWhere]
  | cons a x ih =>
    cases y with
    | nil => simp at h
    | cons b y =>
      rw [List.map_cons, List.zip_cons_cons, weightWhere_cons, ih y (by simpa using h), List.countP_cons]
      simp only
      split <;> simp [*, add_comm]

theorem roundsTo_binTo {δ : ℝ} (hp : 0 < δ) (m v : ℝ) : Spec.RoundsTo (1 / 10 ^ 12) δ m v ↔ binTo δ m = v := by
  have hr : Spec.RoundsTo (1 / 10 ^ 12) δ m (binTo δ m) := ⟨⟨_, rfl⟩, by
    have := binTo_le hp m; unfold eps at this; linarith, by
    have := lt_binTo hp m; unfold eps at this; linarith⟩
  constructor
  · intro h; exact C05_rounding_unique hp hr h
  · rintro rfl; exact hr

theorem countAt_eq {δ : ℝ} (hp : 0 < δ) (mags : List (Option ℝ)) (v : ℝ) :
    countAt mags δ v = ((mags.filterMap id).map (binTo δ)).countP fun m => decide (m = v) := by
  unfold countAt
  rw [List.countP_map]
  apply List.countP_congr
  intro m _
  simp only [decide_eq_true_eq, Function.comp, roundsTo_binTo hp]

/-- C37: for a bin size of at least 1e-12 and at least one number, the result is the lowest of the
fullest bins plus the correction; NaN entries do not matter. -/
theorem C37_maxc {mags : List (Option ℝ)} {δ : ℝ} (corr : ℝ) (hδ : 1 / 10 ^ 12 ≤ δ) (hne : ∃ m, some m ∈ mags) :
    ∃ c, mcMaxc mags δ corr = .ok (c + corr, corr) ∧ IsFullest mags δ c := by
  have hp : 0 < δ := lt_of_lt_of_le (by positivity) hδ
  set x := mags.filterMap id with hx
  have hxne : x ≠ [] := by
    obtain ⟨m, hm⟩ := hne
    intro h0
    have : m ∈ x := by rw [hx, List.mem_filterMap]; exact ⟨some m, hm, rfl⟩
    rw [h0] at this; cases this
  obtain ⟨a, n, hn, hlo, hhi, heq⟩ := getFmd_eq x δ none .center (by unfold eps; exact hδ) hxne (by simp)
  simp only [Option.getD_none] at heq
  set counts := (grid a n δ).map fun c => weightWhere (List.zip (x.map (binTo δ)) (x.map fun _ => (1 : ℝ))) fun v => decide (v = c)
    with hcounts
  have hcne : counts ≠ [] := by
    intro h
    have := congrArg List.length h
    rw [hcounts, List.length_map, grid_length] at this
    simp at this; omega
  obtain ⟨h1, h2, h3⟩ := argmax_spec counts hcne
  set i := argmax counts with hi
  have hlen : counts.length = n := by rw [hcounts, List.length_map, grid_length]
  have hget : ∀ j < n, counts.getD j 0 = (countAt mags δ (((a + j : ℤ) : ℝ) * δ) : ℕ) := by
    intro j hj
    have hj' : j < counts.length := by omega
    rw [List.getD_eq_getElem _ _ hj']
    simp only [hcounts, List.getElem_map]
    rw [grid_getElem _ _ _ _ hj, weightWhere_ones _ _ _ (by simp), countAt_eq hp]
  have hin : i < n := by omega
  refine ⟨((a + i : ℤ) : ℝ) * δ, ?_, ⟨_, rfl⟩, ?_⟩
  · unfold mcMaxc
    rw [← hx, heq]
    simp only [bind, Except.bind, pure, Except.pure]
    rw [← hi, List.getD_eq_getElem _ _ (by rw [grid_length]; exact hin), grid_getElem _ _ _ _ hin]
  · have hpos : 0 < countAt mags δ (((a + i : ℤ) : ℝ) * δ) := by
      have h0 := h2 0 (by omega)
      rw [hget 0 (by omega), hget i hin] at h0
      have h0' : countAt mags δ (((a + (0 : ℕ) : ℤ) : ℝ) * δ) ≤ countAt mags δ (((a + i : ℤ) : ℝ) * δ) := by exact_mod_cast h0
      refine lt_of_lt_of_le ?_ h0'
      rw [countAt_eq hp, List.countP_pos_iff]
      exact ⟨_, hlo.1, by simp⟩
    intro k
    by_cases hk : a ≤ k ∧ k < a + n
    · obtain ⟨j, rfl⟩ : ∃ j : ℕ, k = a + j := ⟨(k - a).toNat, by omega⟩
      have hj : j < n := by omega
      constructor
      · have := h2 j (by omega)
        rw [hget j hj, hget i hin] at this
        exact_mod_cast this
      · intro hlt
        have hji : j < i := by
          have := lt_of_mul_lt_mul_right hlt hp.le
          have : a + (j : ℤ) < a + i := by exact_mod_cast this
          omega
        have := h3 j hji
        rw [hget j hj, hget i hin] at this
        exact_mod_cast this
    · have h0 : countAt mags δ ((k : ℝ) * δ) = 0 := by
        rw [countAt_eq hp, List.countP_eq_zero]
        intro v hv hvk
        rw [decide_eq_true_eq] at hvk
        apply hk
        have g1 := hlo.2 hv
        have g2 := hhi.2 hv
        rw [hvk] at g1 g2
        have g1' := le_of_mul_le_mul_right g1 hp
        have g2' := le_of_mul_le_mul_right g2 hp
        have g1'' : a ≤ k := by exact_mod_cast g1'
        have g2'' : k ≤ a + n - 1 := by exact_mod_cast g2'
        omega
      rw [h0]
      exact ⟨Nat.zero_le _, fun _ => hpos⟩

theorem IsFullest.unique {mags : List (Option ℝ)} {δ c d : ℝ} (hc : IsFullest mags δ c) (hd : IsFullest mags δ d) :
    c = d := by
  obtain ⟨⟨k, rfl⟩, h1⟩ := hc
  obtain ⟨⟨j, rfl⟩, h2⟩ := hd
  rcases lt_trichotomy ((k : ℝ) * δ) (j * δ) with h | h | h
  · have := (h2 k).2 h
    have := (h1 j).1
    omega
  · exact h
  · have := (h1 j).2 h
    have := (h2 k).1
    omega

/-- C37: the result does not depend on the order of the magnitudes, nor on NaN entries. -/
theorem C37_order_and_nan {mags mags' : List (Option ℝ)} {δ : ℝ} (corr : ℝ) (hδ : 1 / 10 ^ 12 ≤ δ)
    (hne : ∃ m, some m ∈ mags) (h : (mags.filterMap id).Perm (mags'.filterMap id)) :
    mcMaxc mags δ corr = mcMaxc mags' δ corr := by
  obtain ⟨c, h1, h2⟩ := C37_maxc corr hδ hne
  have hne' : ∃ m, some m ∈ mags' := by
    obtain ⟨m, hm⟩ := hne
    have h3 : m ∈ mags.filterMap id := List.mem_filterMap.2 ⟨some m, hm, rfl⟩
    obtain ⟨o, ho, hom⟩ := List.mem_filterMap.1 (h.mem_iff.1 h3)
    exact ⟨m, by rw [← show o = some m from hom]; exact ho⟩
  obtain ⟨d, h3, h4⟩ := C37_maxc corr hδ hne'
  have : IsFullest mags δ d := by
    have hcount : ∀ v, countAt mags δ v = countAt mags' δ v := fun v => h.countP_eq _
    obtain ⟨hk, hr⟩ := h4
    exact ⟨hk, fun k => by rw [hcount, hcount]; exact hr k⟩
  rw [h1, h3, h2.unique this]

/-- C37: without a number (or with a non-positive bin size) the call raises ValueError. -/
theorem C37_raises {mags : List (Option ℝ)} {δ : ℝ} (corr : ℝ) (h : (∀ o ∈ mags, o = none) ∨ δ ≤ 0) :
    mcMaxc mags δ corr = .error .valueError := by
  have : getFmd (mags.filterMap id) δ none .center = .error .valueError := by
    unfold getFmd
    split
    · rfl
    · rename_i hδ
      rcases h with h | h
      · have h0 : mags.filterMap id = [] := by
          rw [List.filterMap_eq_nil_iff]
          intro o ho; rw [h o ho]; rfl
        rw [h0]
        unfold binArr
        split <;> rfl
      · exact absurd h hδ
  unfold mcMaxc
  rw [this]
  rfl

/-- Five events, two of them in the fullest bin; one is NaN. -/
example : mcMaxc [some 1, none, some 3, some 2, some 3, some 2] 1 (1 / 5) = .ok (2 + 1 / 5, 1 / 5) := by
  obtain ⟨c, h1, h2⟩ := C37_maxc (mags := [some 1, none, some 3, some 2, some 3, some 2]) (δ := 1) (1 / 5) (by norm_num) ⟨1, by simp⟩
  have hcnt : ∀ v : ℝ, countAt [some 1, none, some 3, some 2, some 3, some 2] 1 v =
      [(1 : ℝ), 3, 2, 3, 2].countP fun m => decide (m = v) := by
    intro v
    rw [countAt_eq one_pos]
    have h1 := binTo_int_mul (one_ne_zero (α := ℝ)) 1
    have h2 := binTo_int_mul (one_ne_zero (α := ℝ)) 2
    have h3 := binTo_int_mul (one_ne_zero (α := ℝ)) 3
    push_cast at h1 h2 h3
    rw [mul_one] at h1 h2 h3
    simp [List.filterMap, h1, h2, h3]
  have h3 : IsFullest [some 1, none, some 3, some 2, some 3, some 2] 1 2 := by
    refine ⟨⟨2, by norm_num⟩, fun k => ?_⟩
    rw [hcnt, hcnt]
    have h5 : [(1 : ℝ), 3, 2, 3, 2].countP (fun m => decide (m = 2)) = 2 := by norm_num [List.countP_cons]
    rw [h5]
    have e : ∀ j : ℤ, ((j : ℝ) = k * 1) ↔ j = k := by intro j; rw [mul_one]; exact Int.cast_inj
    have e1 := e 1; have e2 := e 2; have e3 := e 3
    push_cast at e1 e2 e3
    simp only [List.countP_cons, List.countP_nil, decide_eq_true_eq, e1, e2, e3]
    have hlt : ((k : ℝ) * 1 < 2) ↔ k < 2 := by rw [mul_one]; exact_mod_cast Iff.rfl
    rw [hlt]
    split_ifs <;> omega
  rw [h1, h2.unique h3]

end
end SeismoStats.Props
