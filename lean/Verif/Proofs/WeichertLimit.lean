/-
The limit of the Weichert estimates along a sequence of catalogues with magnitudes on a grid.
-/
import Verif.Proofs.WeichertGrid
import Verif.Proofs.SinceMean
import Verif.Props.AboveLaw

namespace SeismoStats.Props
open SeismoStats SeismoStats.Completeness SeismoStats.Simulate Filter Topology
open Classical
noncomputable section

/-- An optimiser that finds the zero of every continuous, strictly decreasing function that has one, given its absolute value, up to a value of at most `ε`. -/
def FindsRoot (opt : (ℝ → Fl ℝ) → ℝ) (ε : ℝ) : Prop := ∀ h : ℝ → ℝ, Continuous h → StrictAnti h → (∃ β, h β = 0) → |h (opt fun β => .fin |h β|)| ≤ ε

/-- Completeness year of a grid magnitude (-1 without one). -/
def startAt (table : List (ℝ × ℝ)) (X0 δ : ℝ) (j : ℕ) : ℝ := (since table (spaced X0 δ j)).getD (-1)

/-- The event `i` is complete. -/
def usedAt (table : List (ℝ × ℝ)) (X0 δ : ℝ) (K : ℕ → ℕ) (Y : ℕ → ℝ) (i : ℕ) : Prop := 0 < startAt table X0 δ (K i) ∧ startAt table X0 δ (K i) ≤ Y i

/-- Bins of the complete events among the first `n`. -/
def usedBins (table : List (ℝ × ℝ)) (X0 δ : ℝ) (K : ℕ → ℕ) (Y : ℕ → ℝ) (n : ℕ) : List ℕ := ((List.range n).filter fun i => decide (usedAt table X0 δ K Y i)).map K

variable {table : List (ℝ × ℝ)} {X0 δ : ℝ} {K : ℕ → ℕ} {Y : ℕ → ℝ}

theorem completeSpec_grid (n : ℕ) : completeSpec (firstMags (fun i => spaced X0 δ (K i)) n) ((List.range n).map Y) table =
    (usedBins table X0 δ K Y n).map fun j => (spaced X0 δ j, startAt table X0 δ j) := by
  unfold completeSpec firstMags usedBins
  rw [List.zip_map', List.filterMap_map, List.map_map]
  induction n with
  | zero => rfl
  | succ n ih =>
    rw [List.range_succ, List.filterMap_append, List.filter_append, List.map_append, ih]
    congr 1
    have hs : usedAt table X0 δ K Y n ↔ ∃ t, since table (spaced X0 δ (K n)) = some t ∧ 0 < t ∧ t ≤ Y n := by
      unfold usedAt startAt
      cases since table (spaced X0 δ (K n)) with
      | none => simp
      | some t => simp
    by_cases h : usedAt table X0 δ K Y n
    · obtain ⟨t, h1, h2, h3⟩ := hs.1 h
      simp [h, h1, h2, h3, startAt]
    · have : ¬ ∃ t, since table (spaced X0 δ (K n)) = some t ∧ 0 < t ∧ t ≤ Y n := fun hc => h (hs.2 hc)
      cases hc : since table (spaced X0 δ (K n)) with
      | none => simp [h, hc]
      | some t =>
        have h4 : ¬ (0 < t ∧ t ≤ Y n) := fun h4 => this ⟨t, hc, h4⟩
        simp [h, hc, h4]


theorem used_pos {n j : ℕ} (h : j ∈ usedBins table X0 δ K Y n) : 0 < startAt table X0 δ j := by
  unfold usedBins at h
  obtain ⟨i, hi, rfl⟩ := List.mem_map.1 h
  exact (of_decide_eq_true (List.mem_filter.1 hi).2).1

theorem start_mem {j : ℕ} (h : 0 < startAt table X0 δ j) : ∃ r ∈ table, r.1 < spaced X0 δ j ∧ startAt table X0 δ j = r.2 := by
  unfold startAt at h ⊢
  cases hc : since table (spaced X0 δ j) with
  | none => rw [hc] at h; simp at h; linarith
  | some t =>
    unfold since at hc
    rw [Option.map_eq_some_iff] at hc
    obtain ⟨r, h1, h2⟩ := hc
    have h3 := List.mem_filter.1 (List.mem_of_getLast? h1)
    exact ⟨r, h3.1, of_decide_eq_true h3.2, by simp [h2]⟩

theorem start_of_above {j : ℕ} (hpos : ∀ r ∈ table, 0 < r.2) {r : ℝ × ℝ} (hr : r ∈ table) (h : r.1 < spaced X0 δ j) : 0 < startAt table X0 δ j := by
  unfold startAt since
  have h1 : r ∈ table.filter fun r => decide (r.1 < spaced X0 δ j) := List.mem_filter.2 ⟨hr, decide_eq_true h⟩
  cases hc : (table.filter fun r => decide (r.1 < spaced X0 δ j)).getLast? with
  | none => rw [List.getLast?_eq_none_iff] at hc; rw [hc] at h1; cases h1
  | some t =>
    have h3 := List.mem_filter.1 (List.mem_of_getLast? hc)
    simpa using hpos t h3.1

/-- Exposure of a grid magnitude, for a function `u` of the completeness year. -/
def exposureAt (table : List (ℝ × ℝ)) (X0 δ : ℝ) (u : ℝ → ℝ) (j : ℕ) : ℝ := if 0 < startAt table X0 δ j then u (startAt table X0 δ j) else 0

theorem mcOf_le (hasc : table.Pairwise fun r s => r.1 ≤ s.1) {r : ℝ × ℝ} (hr : r ∈ table) : mcOf table 0 ≤ r.1 := by
  unfold mcOf
  cases table with
  | nil => cases hr
  | cons t l =>
    rcases List.mem_cons.1 hr with rfl | h
    · simp
    · simpa using (List.pairwise_cons.1 hasc).1 r h

theorem weichert_grid {opt : (ℝ → Fl ℝ) → ℝ} {mags years : List ℝ} {magMax L : ℝ} {last : Option ℝ} (hi : WeichertInput mags years table δ) {js : List ℕ}
    (hC : completeSpec mags years table = js.map fun j => (spaced X0 δ j, startAt table X0 δ j)) (h0 : ∀ j ∈ js, 0 < startAt table X0 δ j)
    (h1 : ∀ m ∈ mags, m + δ ≤ magMax) (hL : ∀ r ∈ table, r.2 < L) (hlast : lastYear last years = L) {p q : ℕ} (hp : p ∈ js) (hq : q ∈ js) (hne : p ≠ q)
    {w : ℕ → ℝ} (hw : w = gridWeight L (startAt table X0 δ) js) {mid : ℕ → ℝ} (hmid : mid = gridMid (mcOf table 0) X0 δ) {γ : ℝ}
    (hγ : γ = opt fun β => .fin |tiltMean w mid β - gridMean (mcOf table 0) X0 δ js|) :
    weichert opt mags years table magMax last δ "b_value" = .ok (.fin (γ / Real.log 10),
      .fin (Real.sqrt (tilt w mid 0 γ ^ 2 / (tilt w mid 0 γ * tilt w mid 2 γ - tilt w mid 1 γ ^ 2) / js.length) / Real.log 10),
      .fin (js.length * (tilt (fun j => if j ∈ js.toFinset then 1 else 0) mid 0 γ / tilt w mid 0 γ)),
      .fin (js.length * (tilt (fun j => if j ∈ js.toFinset then 1 else 0) mid 0 γ / tilt w mid 0 γ) / Real.sqrt js.length),
      .fin (Real.log (js.length * (tilt (fun j => if j ∈ js.toFinset then 1 else 0) mid 0 γ / tilt w mid 0 γ)) / Real.log 10 +
        γ / Real.log 10 * spaced (edge0 (mcOf table 0) X0 δ) δ (js.foldr min p))) := by
  subst hw hmid
  have hδ := hi.width
  have hs : ∀ j ∈ js, startAt table X0 δ j < L := fun j hj => by
    obtain ⟨r, hr, -, e⟩ := start_mem (h0 j hj)
    rw [e]; exact hL r hr
  have hmem : ∀ j ∈ js, spaced X0 δ j ∈ mags := by
    intro j hj
    have : (spaced X0 δ j, startAt table X0 δ j) ∈ completeSpec mags years table := by rw [hC]; exact List.mem_map_of_mem hj
    unfold completeSpec at this
    obtain ⟨⟨m, y⟩, h2, h3⟩ := List.mem_filterMap.1 this
    have h4 := (List.of_mem_zip h2).1
    simp only at h3
    split at h3
    · split_ifs at h3
      injection h3 with h3
      have h5 : m = spaced X0 δ j := congrArg Prod.fst h3
      rw [← h5]; exact h4
    · cases h3
  have hE := completeEvents_grid (magMax := magMax) hδ hi.ascending hC
    (fun j hj => by
      obtain ⟨r, hr, h2, -⟩ := start_mem (h0 j hj)
      exact (mcOf_le hi.ascending hr).trans h2.le)
    (fun j hj => h1 _ (hmem j hj))
  have hne' : js ≠ [] := List.ne_nil_of_mem hp
  have hw0 := gridWeight_nonneg hs
  have hT := fun β => finite_tiltable js.toFinset (gridWeight_zero L (startAt table X0 δ) js) (gridMid (mcOf table 0) X0 δ) β
  have hpos : ∀ β, 0 < tilt (gridWeight L (startAt table X0 δ) js) (gridMid (mcOf table 0) X0 δ) 0 β := fun β => tilt_pos hw0 (hT β) (gridWeight_pos hs hp)
  have hV := tilt_spread hw0 (hT γ) (gridWeight_pos hs hp) (gridWeight_pos hs hq) (gridMid_ne (c0 := mcOf table 0) (X0 := X0) hδ hne)
  have hobj : objective (gridRows (mcOf table 0) X0 δ (startAt table X0 δ) js) L δ =
      fun β => .fin |tiltMean (gridWeight L (startAt table X0 δ) js) (gridMid (mcOf table 0) X0 δ) β - gridMean (mcOf table 0) X0 δ js| :=
    funext fun β => grid_objective hδ L β _ js (hpos β)
  have hone : 0 < tilt (fun j => if j ∈ js.toFinset then 1 else 0) (gridMid (mcOf table 0) X0 δ) 0 γ :=
    tilt_pos (fun j => by split_ifs <;> norm_num) (finite_tiltable js.toFinset (fun j hj => if_neg hj) _ _) (i := p) (by simp [hp])
  have hN : (0 : ℝ) < js.length := by exact_mod_cast List.length_pos_of_mem hp
  unfold weichert
  rw [w_assertions_ok hi (Or.inl rfl), hlast]
  simp only [Bind.bind, Except.bind]
  rw [hE]
  simp only []
  rw [hobj, ← hγ]
  have hB := completeEvents_binned hi.width hi.ascending hE
  have hmin : ∀ r ∈ gridRows (mcOf table 0) X0 δ (startAt table X0 δ) js, ∃ j ∈ js, r.edge = spaced (edge0 (mcOf table 0) X0 δ) δ j := by
    intro r hr
    unfold gridRows groups at hr
    obtain ⟨k, hk, rfl⟩ := List.mem_map.1 hr
    rw [List.mem_insertionSort, List.mem_dedup] at hk
    obtain ⟨j, hj, rfl⟩ := List.mem_map.1 hk
    exact ⟨j, hj, rfl⟩
  have hmin' : ∀ j ∈ js, ∃ r ∈ gridRows (mcOf table 0) X0 δ (startAt table X0 δ) js, r.edge = spaced (edge0 (mcOf table 0) X0 δ) δ j := by
    intro j hj
    unfold gridRows groups
    refine ⟨_, List.mem_map_of_mem (a := (spaced (edge0 (mcOf table 0) X0 δ) δ j, startAt table X0 δ j)) ?_, rfl⟩
    rw [List.mem_insertionSort, List.mem_dedup]
    exact List.mem_map.2 ⟨j, hj, rfl⟩
  have hfold : js.foldr min p ∈ js ∧ ∀ j ∈ js, js.foldr min p ≤ j := by
    have key : ∀ l : List ℕ, (l.foldr min p = p ∨ l.foldr min p ∈ l) ∧ ∀ j ∈ l, l.foldr min p ≤ j := by
      intro l
      induction l with
      | nil => simp
      | cons a l ih =>
        rw [List.foldr_cons]
        refine ⟨?_, fun j hj => ?_⟩
        · rcases min_choice a (l.foldr min p) with h | h
          · right; rw [h]; simp
          · rw [h]
            rcases ih.1 with h2 | h2
            · exact Or.inl h2
            · right; simp [h2]
        · rcases List.mem_cons.1 hj with rfl | hj
          · exact min_le_left _ _
          · exact (min_le_right _ _).trans (ih.2 j hj)
    refine ⟨?_, (key js).2⟩
    rcases (key js).1 with h | h
    · rw [h]; exact hp
    · exact h
  have hmono : ∀ {i j : ℕ}, i ≤ j → spaced (edge0 (mcOf table 0) X0 δ) δ i ≤ spaced (edge0 (mcOf table 0) X0 δ) δ j := by
    intro i j h
    unfold spaced
    have : (i : ℝ) ≤ j := by exact_mod_cast h
    have := mul_le_mul_of_nonneg_right this hδ.le
    linarith
  have hrate := grid_rate (c0 := mcOf table 0) hδ L γ (startAt table X0 δ) js (hpos γ)
  have hstd := grid_std (c0 := mcOf table 0) hδ L γ (startAt table X0 δ) js hne' (hpos γ) hV
  have htot := grid_total (c0 := mcOf table 0) (X0 := X0) (δ := δ) (startAt table X0 δ) js
  generalize hEE : gridRows (mcOf table 0) X0 δ (startAt table X0 δ) js = E at *
  cases E with
  | nil =>
    obtain ⟨r, hr, -⟩ := hmin' p hp
    cases hr
  | cons r E =>
    simp only [if_true]
    rw [hrate, hstd, htot]
    have hedge : r.edge = spaced (edge0 (mcOf table 0) X0 δ) δ (js.foldr min p) := by
      obtain ⟨j, hj, e⟩ := hmin r (by simp)
      refine le_antisymm ?_ (by rw [e]; exact hmono (hfold.2 j hj))
      obtain ⟨r', hr', e'⟩ := hmin' _ hfold.1
      rw [← e']
      rcases List.mem_cons.1 hr' with rfl | h
      · exact le_rfl
      · exact (List.pairwise_cons.1 hB.sorted).1 r' h
    rw [hedge]
    have hr0 : 0 < (js.length : ℝ) * (tilt (fun j => if j ∈ js.toFinset then 1 else 0) (gridMid (mcOf table 0) X0 δ) 0 γ /
        tilt (gridWeight L (startAt table X0 δ) js) (gridMid (mcOf table 0) X0 δ) 0 γ) := mul_pos hN (div_pos hone (hpos γ))
    unfold Fl.log10 Fl.log
    simp only [hr0, if_true]
    rfl

theorem exposure_nonneg {u : ℝ → ℝ} (hu : ∀ r ∈ table, 0 < u r.2) (j : ℕ) : 0 ≤ exposureAt table X0 δ u j := by
  unfold exposureAt
  split_ifs with h
  · obtain ⟨r, hr, -, e⟩ := start_mem h
    rw [e]; exact (hu r hr).le
  · exact le_rfl

theorem exposure_pos {u : ℝ → ℝ} (hu : ∀ r ∈ table, 0 < u r.2) (j : ℕ) : 0 < exposureAt table X0 δ u j ↔ 0 < startAt table X0 δ j := by
  unfold exposureAt
  split_ifs with h
  · obtain ⟨r, hr, -, e⟩ := start_mem h
    rw [e]; exact ⟨fun _ => by rw [← e]; exact h, fun _ => hu r hr⟩
  · exact ⟨fun h' => absurd h' (lt_irrefl _), fun h' => absurd h' h⟩

theorem exposure_bounded (table : List (ℝ × ℝ)) (X0 δ : ℝ) (u : ℝ → ℝ) : ∃ W, ∀ j, exposureAt table X0 δ u j ≤ W := by
  refine ⟨(table.map fun r => |u r.2|).sum, fun j => ?_⟩
  have h0 : ∀ y ∈ table.map fun r => |u r.2|, 0 ≤ y := by
    intro y hy
    obtain ⟨r, -, rfl⟩ := List.mem_map.1 hy
    exact abs_nonneg _
  unfold exposureAt
  split_ifs with h
  · obtain ⟨r, hr, -, e⟩ := start_mem h
    rw [e]
    exact (le_abs_self _).trans (List.single_le_sum h0 _ (List.mem_map_of_mem hr))
  · exact List.sum_nonneg h0

theorem foldr_min {l : List ℕ} {p m : ℕ} (hp : m ≤ p) (hl : ∀ j ∈ l, m ≤ j) (hm : m ∈ l) : l.foldr min p = m := by
  have h1 : ∀ l : List ℕ, (∀ j ∈ l, m ≤ j) → m ≤ l.foldr min p := by
    intro l hl
    induction l with
    | nil => exact hp
    | cons a l ih => exact le_min (hl a (by simp)) (ih fun j hj => hl j (by simp [hj]))
  have h2 : ∀ (l : List ℕ) (j : ℕ), j ∈ l → l.foldr min p ≤ j := by
    intro l
    induction l with
    | nil => intro j hj; cases hj
    | cons a l ih =>
      intro j hj
      rcases List.mem_cons.1 hj with rfl | hj
      · exact min_le_left _ _
      · exact (min_le_right _ _).trans (ih j hj)
  exact le_antisymm (h2 l m hm) (h1 l hl)

/-- Along a sequence of catalogues on a grid in which every complete bin is seen eventually and the mean of the complete magnitudes converges to the mean the model predicts
for `β'`, the estimates converge to `β'`. -/
theorem weichert_limit (hδ : 0 < δ) (hrows : table ≠ []) (hasc : table.Pairwise fun r s => r.1 ≤ s.1) {L β' : ℝ} (hL : ∀ r ∈ table, r.2 < L)
    {last : Option ℝ} (hlast : ∀ᶠ n in atTop, lastYear last ((List.range n).map Y) = L) (hβ' : 0 < β')
    (hocc : ∀ j, 0 < startAt table X0 δ j → ∀ᶠ n in atTop, j ∈ usedBins table X0 δ K Y n) {i i' : ℕ} (hi : 0 < startAt table X0 δ i) (hi' : 0 < startAt table X0 δ i') (hne : i ≠ i')
    {l0 : ℝ} (hl0 : 0 < l0) (hN : Tendsto (fun n => ((usedBins table X0 δ K Y n).length : ℝ) / n) atTop (𝓝 l0))
    {W : ℕ → ℝ} (hW : W = exposureAt table X0 δ fun t => L - t) {mid : ℕ → ℝ} (hmid : mid = gridMid (mcOf table 0) X0 δ)
    (hR : Tendsto (fun n => gridMean (mcOf table 0) X0 δ (usedBins table X0 δ K Y n)) atTop (𝓝 (tiltMean W mid β')))
    {opt : ℕ → (ℝ → Fl ℝ) → ℝ} {ε : ℕ → ℝ} (hε : Tendsto ε atTop (𝓝 0)) (hopt : ∀ n, FindsRoot (opt n) (ε n)) (magMax : ℕ → ℝ) :
    ∃ est sd rate av : ℕ → ℝ,
      (∀ᶠ n in atTop, (∀ m ∈ firstMags (fun i => spaced X0 δ (K i)) n, m + δ ≤ magMax n) → ∃ sdRate,
        weichert (opt n) (firstMags (fun i => spaced X0 δ (K i)) n) ((List.range n).map Y) table (magMax n) last δ "b_value" =
          .ok (.fin (est n), .fin (sd n), .fin (rate n), sdRate, .fin (av n))) ∧
      Tendsto est atTop (𝓝 (β' / Real.log 10)) ∧ Tendsto sd atTop (𝓝 0) ∧
      Tendsto (fun n => rate n / n) atTop (𝓝 (l0 * (tilt (fun j => if 0 < startAt table X0 δ j then 1 else 0) mid 0 β' / tilt W mid 0 β'))) ∧
      ∀ jm, 0 < startAt table X0 δ jm → (∀ j < jm, ¬ 0 < startAt table X0 δ j) →
        Tendsto (fun n => av n - Real.log (rate n) / Real.log 10) atTop (𝓝 (β' / Real.log 10 * spaced (edge0 (mcOf table 0) X0 δ) δ jm)) := by
  set s := startAt table X0 δ with hs
  set js : ℕ → List ℕ := usedBins table X0 δ K Y with hjs
  set c0 := mcOf table 0 with hc0
  have hu : ∀ r ∈ table, 0 < (fun t => L - t) r.2 := fun r hr => sub_pos.2 (hL r hr)
  have hWn : ∀ j, 0 ≤ W j := by rw [hW]; exact exposure_nonneg hu
  have hWp : ∀ j, 0 < W j ↔ 0 < s j := by rw [hW]; exact exposure_pos hu
  obtain ⟨Wm, hWm⟩ := exposure_bounded table X0 δ fun t => L - t
  rw [← hW] at hWm
  have hgw : ∀ n, gridWeight L s (js n) = fun j => if j ∈ (js n).toFinset then W j else 0 := by
    intro n
    funext j
    unfold gridWeight
    by_cases h : j ∈ (js n).toFinset
    · rw [if_pos h, if_pos h, hW]
      unfold exposureAt
      rw [if_pos (used_pos (List.mem_toFinset.1 h))]
    · rw [if_neg h, if_neg h]
  set x := spaced (edge0 c0 X0 δ + δ / 2) δ with hx
  have hmx : mid = x := hmid
  set γ : ℕ → ℝ := fun n => opt n fun β => .fin |tiltMean (gridWeight L s (js n)) mid β - gridMean c0 X0 δ (js n)| with hγ
  have hboth : ∀ᶠ n in atTop, i ∈ js n ∧ i' ∈ js n := (hocc i hi).and (hocc i' hi')
  have hclose : ∀ᶠ n in atTop, |tiltMean (gridWeight L s (js n)) mid (γ n) - gridMean c0 X0 δ (js n)| ≤ ε n := by
    filter_upwards [hboth] with n ⟨h1, h2⟩
    have hsL : ∀ j ∈ js n, s j < L := fun j hj => by
      obtain ⟨r, hr, -, e⟩ := start_mem (used_pos hj)
      rw [hs, e]; exact hL r hr
    obtain ⟨r1, r2, r3⟩ := grid_root (c0 := c0) (X0 := X0) hδ hsL h1 h2 hne
    have := hopt n _ r1 r2 r3
    rw [← hmid] at this
    exact this
  have hmean : Tendsto (fun n => tiltMean (gridWeight L s (js n)) mid (γ n)) atTop (𝓝 (tiltMean W mid β')) := by
    have h1 : Tendsto (fun n => tiltMean (gridWeight L s (js n)) mid (γ n) - gridMean c0 X0 δ (js n)) atTop (𝓝 0) :=
      squeeze_zero_norm' (by filter_upwards [hclose] with n hn; rw [Real.norm_eq_abs]; exact hn) hε
    have := h1.add hR
    rw [zero_add] at this
    refine this.congr fun n => ?_
    ring
  have hA : ∀ j, 0 < W j → ∀ᶠ n in atTop, j ∈ (js n).toFinset := fun j hj => by
    filter_upwards [hocc j ((hWp j).1 hj)] with n hn
    exact List.mem_toFinset.2 hn
  have hlim : Tendsto γ atTop (𝓝 β') := by
    refine tilt_solution (A := fun n => (js n).toFinset) hδ hβ' hWn hWm hA ((hWp i).2 hi) ((hWp i').2 hi') hne (x0 := edge0 c0 X0 δ + δ / 2) ?_
    simp only [hgw, hmx] at hmean
    exact hmean
  have hind : ∀ (v : ℕ → ℝ), (∀ j, 0 ≤ v j) → (∀ j, 0 < v j ↔ 0 < s j) → ∀ j, Tendsto (fun n => if j ∈ (js n).toFinset then v j else 0) atTop (𝓝 (v j)) := by
    intro v h0 hp j
    rcases (h0 j).lt_or_eq with h | h
    · refine tendsto_const_nhds.congr' ?_
      filter_upwards [hocc j ((hp j).1 h)] with n hn
      rw [if_pos (List.mem_toFinset.2 hn)]
    · refine tendsto_const_nhds.congr fun n => ?_
      split_ifs
      exacts [rfl, h.symm]
  have htilt : ∀ k, Tendsto (fun n => tilt (gridWeight L s (js n)) mid k (γ n)) atTop (𝓝 (tilt W mid k β')) := by
    intro k
    simp only [hgw, hmx]
    refine tilt_tendsto (W := Wm) hδ hβ' (fun n j => ?_) (hind W hWn hWp) hlim k
    split_ifs
    · rw [abs_of_nonneg (hWn j)]; exact hWm j
    · rw [abs_zero]; exact (hWn j).trans (hWm j)
  set v1 : ℕ → ℝ := fun j => if 0 < s j then 1 else 0 with hv1
  have hone : Tendsto (fun n => tilt (fun j => if j ∈ (js n).toFinset then 1 else 0) mid 0 (γ n)) atTop (𝓝 (tilt v1 mid 0 β')) := by
    rw [hmx]
    have e : ∀ n, (fun j => if j ∈ (js n).toFinset then (1 : ℝ) else 0) = fun j => if j ∈ (js n).toFinset then v1 j else 0 := by
      intro n
      funext j
      by_cases h : j ∈ (js n).toFinset
      · have : 0 < s j := used_pos (List.mem_toFinset.1 h)
        simp only [hv1]
        rw [if_pos h, if_pos h, if_pos this]
      · rw [if_neg h, if_neg h]
    simp only [e]
    refine tilt_tendsto (W := 1) hδ hβ' (fun n j => ?_) (hind v1 (fun j => by simp only [hv1]; split_ifs <;> norm_num) fun j => ?_) hlim 0
    · simp only [hv1]; split_ifs <;> simp
    · simp only [hv1]; split_ifs with h <;> simp [h]
  have hT := spaced_tiltable (x0 := edge0 c0 X0 δ + δ / 2) (v := W) (W := Wm) hδ hβ' fun j => by rw [abs_of_nonneg (hWn j)]; exact hWm j
  rw [← hx, ← hmx] at hT
  have hp0 : 0 < tilt W mid 0 β' := tilt_pos hWn hT ((hWp i).2 hi)
  have hmne : mid i ≠ mid i' := by rw [hmid]; exact gridMid_ne hδ hne
  have hV := tilt_spread hWn hT ((hWp i).2 hi) ((hWp i').2 hi') hmne
  have hNinf : Tendsto (fun n => ((js n).length : ℝ)) atTop atTop := by
    have h1 : Tendsto (fun n : ℕ => ((js n).length : ℝ) / n * n) atTop atTop := hN.pos_mul_atTop hl0 tendsto_natCast_atTop_atTop
    refine h1.congr' ?_
    filter_upwards [eventually_gt_atTop 0] with n hn
    have : (n : ℝ) ≠ 0 := by exact_mod_cast hn.ne'
    field_simp
  set m : ℕ → ℕ → ℝ := fun k n => tilt (gridWeight L s (js n)) mid k (γ n) with hm
  set r : ℕ → ℝ := fun n => (js n).length * (tilt (fun j => if j ∈ (js n).toFinset then 1 else 0) mid 0 (γ n) / tilt (gridWeight L s (js n)) mid 0 (γ n)) with hr
  refine ⟨fun n => γ n / Real.log 10, fun n => Real.sqrt (m 0 n ^ 2 / (m 0 n * m 2 n - m 1 n ^ 2) / (js n).length) / Real.log 10, r,
    fun n => Real.log (r n) / Real.log 10 + γ n / Real.log 10 * spaced (edge0 c0 X0 δ) δ ((js n).foldr min i), ?_, hlim.div_const _, ?_, ?_, ?_⟩
  · filter_upwards [hboth, hlast, eventually_gt_atTop 0] with n ⟨h1, h2⟩ h3 hn hmax
    have hin : WeichertInput (firstMags (fun i => spaced X0 δ (K i)) n) ((List.range n).map Y) table δ :=
      ⟨by simp [firstMags], by unfold firstMags; simp [hn.ne'], hasc, hrows, hδ⟩
    exact ⟨_, weichert_grid (opt := opt n) (w := gridWeight L s (js n)) (mid := mid) (γ := γ n) hin (completeSpec_grid n) (fun j hj => used_pos hj) hmax hL h3 h1 h2 hne rfl hmid rfl⟩
  · have h1 := (((htilt 0).pow 2).div (((htilt 0).mul (htilt 2)).sub ((htilt 1).pow 2)) hV.ne').div_atTop hNinf
    have h2 := (Real.continuous_sqrt.tendsto _).comp h1
    rw [Real.sqrt_zero] at h2
    have h3 := h2.div_const (Real.log 10)
    rw [zero_div] at h3
    exact h3
  · have h1 := hN.mul (hone.div (htilt 0) hp0.ne')
    refine h1.congr fun n => ?_
    simp only [Pi.div_apply]
    ring
  · intro jm hjm hlow
    have h1 := (hlim.div_const (Real.log 10)).mul_const (spaced (edge0 c0 X0 δ) δ jm)
    refine h1.congr' ?_
    filter_upwards [hocc jm hjm] with n hn
    have hall : ∀ j, 0 < s j → jm ≤ j := fun j hj => by
      by_contra hc
      exact hlow j (not_le.1 hc) hj
    have hf : (js n).foldr min i = jm := foldr_min (hall i hi) (fun j hj => hall j (used_pos hj)) hn
    rw [hf]
    ring

end
end SeismoStats.Props
