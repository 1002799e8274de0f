/-
Property C71: what `plot_cum_fmd` and `plot_fmd` draw.
-/
import Verif.Props.Fmd
import Verif.Props.PlotBasics
import Mathlib.Data.Real.Archimedean

namespace SeismoStats.Props
open SeismoStats SeismoStats.PlotBasics
open Classical
noncomputable section

/-- The magnitude a drawn position stands for: the centre of the bin. -/
def centreOf (pos : BinPos) (δ x : ℝ) : ℝ := if pos = .left then x + δ / 2 else x

/-- The binned magnitudes: without a bin size the magnitudes themselves. -/
def FmdBinned (δ : ℝ) (mags mb : List ℝ) : Prop :=
  (δ = 0 ∧ mb = mags) ∨ (1 / 10 ^ 12 ≤ δ ∧ List.Forall₂ (Spec.RoundsTo (1 / 10 ^ 12) δ) mags mb)

theorem FmdBinned.length {δ : ℝ} {mags mb : List ℝ} (h : FmdBinned δ mags mb) : mb.length = mags.length := by
  rcases h with ⟨-, rfl⟩ | ⟨-, h⟩
  · rfl
  · exact h.length_eq.symm

/-- Bins and counts of the cumulative distribution. -/
structure Shape (pos : BinPos) (δ : ℝ) (mb w bins cc : List ℝ) : Prop where
  length : cc.length = bins.length
  ne : bins ≠ []
  sorted : bins.Pairwise (· < ·)
  all : ∀ v ∈ mb, ∃ x ∈ bins, v = centreOf pos δ x
  top : ∃ x ∈ bins, IsGreatest {v | v ∈ mb} (centreOf pos δ x)
  bound : ∀ x ∈ bins, ∃ v ∈ mb, centreOf pos δ x ≤ v
  count : ∀ i (h : i < bins.length) (h' : i < cc.length), cc[i] = Spec.weightOf mb w (centreOf pos δ bins[i] ≤ ·)

theorem cumFmd_shape (mags : List ℝ) (δ : ℝ) (weights : Option (List ℝ)) (pos : BinPos) (hδ : δ = 0 ∨ 1 / 10 ^ 12 ≤ δ) (hne : mags ≠ [])
    (hpos : pos ≠ .other) (hw : (effWeights mags weights).length = mags.length) :
    ∃ bins cc mb, getCumFmd mags δ weights pos = .ok (bins, cc, mb) ∧ FmdBinned δ mags mb ∧ Shape pos δ mb (effWeights mags weights) bins cc := by
  rcases hδ with rfl | hδ
  · obtain ⟨bins, cc, h1, h2, h3, h4, h5⟩ := C10_unbinned mags weights pos hw
    have hc : ∀ x, centreOf pos 0 x = x := by intro x; unfold centreOf; split <;> simp
    have hnb : bins ≠ [] := by
      obtain ⟨m, hm⟩ := List.exists_mem_of_ne_nil _ hne
      exact List.ne_nil_of_mem ((h3 m).2 hm)
    refine ⟨bins, cc, mags, h1, Or.inl ⟨rfl, rfl⟩, h4, hnb, h2, ?_, ?_, ?_, ?_⟩
    · intro v hv; exact ⟨v, (h3 v).2 hv, (hc v).symm⟩
    · obtain ⟨hi, hhi⟩ := exists_amax hne
      have := (amax?_eq_some_iff _ _).1 hhi
      refine ⟨hi, (h3 hi).2 this.1, ?_⟩
      rw [hc]; exact this
    · intro x hx; exact ⟨x, (h3 x).1 hx, (hc x).le⟩
    · intro i h h'; rw [h5 i h h']; simp only [hc]
  · have hp : 0 < δ := lt_of_lt_of_le (by positivity) hδ
    obtain ⟨bins, counts, mb, cc, g1, g2, g3, g4⟩ := C10_get_cum_fmd mags δ weights pos hδ hne hpos hw
    obtain ⟨bins', counts', mb', g1', g5, g6, -⟩ := C09_get_fmd mags δ weights pos hδ hne hpos hw
    rw [g1] at g1'
    cases g1'
    set cen := (if pos = .left then bins.map (fun b => b + δ / 2) else bins) with hcen
    have hcm : cen = bins.map (centreOf pos δ) := by
      rw [hcen]; unfold centreOf
      split
      · rfl
      · simp
    have hlen : cen.length = bins.length := by rw [hcm, List.length_map]
    have hget : ∀ i (h : i < cen.length), cen[i] = centreOf pos δ (bins[i]'(hlen ▸ h)) := by
      intro i h; simp only [hcm, List.getElem_map]
    have hcl : 0 < cen.length := List.length_pos_iff.2 g6.nonempty
    have hlin : ∀ i (h : i < cen.length), cen[i] = cen[0] + i * δ := by
      intro i
      induction i with
      | zero => intro h; simp
      | succ i ih =>
        intro h
        rw [g6.step i h, ih (by omega)]; push_cast; ring
    refine ⟨bins, cc, mb, g2, Or.inr ⟨hδ, g5⟩, g3, ?_, ?_, ?_, ?_, ?_, ?_⟩
    · rw [← List.length_pos_iff]; omega
    · rw [List.pairwise_iff_getElem]
      intro i j hi hj hij
      have e1 := hget i (hlen ▸ hi)
      have e2 := hget j (hlen ▸ hj)
      have e3 := hlin i (hlen ▸ hi)
      have e4 := hlin j (hlen ▸ hj)
      have : (i : ℝ) < j := by exact_mod_cast hij
      have hlt : cen[i]'(hlen ▸ hi) < cen[j]'(hlen ▸ hj) := by rw [e3, e4]; nlinarith
      rw [e1, e2] at hlt
      unfold centreOf at hlt
      split at hlt <;> linarith
    · intro v hv
      obtain ⟨k0, hk0⟩ := g6.multiple _ (List.getElem_mem hcl)
      obtain ⟨u, -, ⟨⟨k, hk⟩, -, -⟩⟩ := forall₂_mem_right g5 v hv
      have hge := (g6.first hcl).2 hv
      have hle := (g6.last (by omega)).2 hv
      have elast := hlin (cen.length - 1) (by omega)
      rw [elast, hk0] at hle
      rw [hk0] at hge
      have h1 : k0 ≤ k := by
        rw [hk] at hge
        have := le_of_mul_le_mul_right hge hp
        exact_mod_cast this
      have h2 : k ≤ k0 + ((cen.length - 1 : ℕ) : ℤ) := by
        have : (k : ℝ) * δ ≤ ((k0 + ((cen.length - 1 : ℕ) : ℤ) : ℤ) : ℝ) * δ := by
          rw [hk] at hle; push_cast; push_cast at hle; linarith
        have := le_of_mul_le_mul_right this hp
        exact_mod_cast this
      have hi : (k - k0).toNat < cen.length := by omega
      refine ⟨bins[(k - k0).toNat]'(hlen ▸ hi), List.getElem_mem _, ?_⟩
      rw [← hget _ hi, hlin _ hi, hk0, hk]
      have : (((k - k0).toNat : ℕ) : ℝ) = (k : ℝ) - k0 := by
        have h0 : (((k - k0).toNat : ℕ) : ℤ) = k - k0 := by omega
        exact_mod_cast congrArg (fun z : ℤ => (z : ℝ)) h0
      rw [this]; ring
    · have hi : cen.length - 1 < cen.length := by omega
      refine ⟨bins[cen.length - 1]'(hlen ▸ hi), List.getElem_mem _, ?_⟩
      rw [← hget _ hi]; exact g6.last hi
    · intro x hx
      obtain ⟨i, hi, rfl⟩ := List.mem_iff_getElem.1 hx
      refine ⟨_, (g6.last (by omega)).1, ?_⟩
      have hi' : i < cen.length := by omega
      rw [← hget i hi', hlin i hi', hlin (cen.length - 1) (by omega)]
      have : (i : ℝ) ≤ ((cen.length - 1 : ℕ) : ℝ) := by exact_mod_cast (by omega)
      nlinarith
    · intro i h h'
      rw [g4 i h h']
      unfold centreOf
      rfl

theorem weightOf_ones (mb mags : List ℝ) (h : mb.length = mags.length) (p : ℝ → Prop) [DecidablePred p] :
    Spec.weightOf mb (mags.map fun _ => 1) p = (mb.filter fun v => decide (p v)).length := by
  unfold Spec.weightOf
  induction mb generalizing mags with
  | nil => simp
  | cons v mb ih =>
    cases mags with
    | nil => simp at h
    | cons m mags =>
      have := ih mags (by simpa using h)
      simp only [List.map_cons, List.zip_cons_cons, List.sum_cons]
      rw [this, List.filter_cons]
      by_cases hv : p v
      · simp [hv]; ring
      · simp [hv]

/-- C71: the points of `plot_cum_fmd` are, for every bin, the weight of the events (without NaN) at or above it. -/
theorem C71_cumulative_points (mags : List (Option ℝ)) (mc δ : Option ℝ) (weights : Option (List ℝ)) (pos : BinPos) (hδ : δ.getD 0 = 0 ∨ 1 / 10 ^ 12 ≤ δ.getD 0)
    (hne : mags.filterMap id ≠ []) (hpos : pos ≠ .other) (hw : (effWeights (mags.filterMap id) weights).length = (mags.filterMap id).length) :
    ∃ d mb, plotCumFmd mags mc δ weights none pos = .ok d ∧ d.line = none ∧ FmdBinned (δ.getD 0) (mags.filterMap id) mb ∧
      (d.scatter.map Prod.fst).Pairwise (· < ·) ∧ (∀ v ∈ mb, ∃ p ∈ d.scatter, v = centreOf pos (δ.getD 0) p.1) ∧
      ∀ p ∈ d.scatter, p.2 = Spec.weightOf mb (effWeights (mags.filterMap id) weights) (centreOf pos (δ.getD 0) p.1 ≤ ·) := by
  obtain ⟨bins, cc, mb, h1, h2, h3⟩ := cumFmd_shape _ _ weights pos hδ hne hpos hw
  refine ⟨⟨bins.zip cc, none⟩, mb, ?_, rfl, h2, ?_, ?_, ?_⟩
  · unfold plotCumFmd; rw [h1]; rfl
  · dsimp only
    rw [List.map_fst_zip (by rw [h3.length])]
    exact h3.sorted
  · intro v hv
    obtain ⟨x, hx, e⟩ := h3.all v hv
    obtain ⟨i, hi, rfl⟩ := List.mem_iff_getElem.1 hx
    have hi' : i < cc.length := by rw [h3.length]; exact hi
    refine ⟨(bins[i], cc[i]), ?_, e⟩
    rw [List.mem_iff_getElem]
    exact ⟨i, by simp [List.length_zip, hi, hi'], by simp⟩
  · intro p hp
    obtain ⟨i, hi, rfl⟩ := List.mem_iff_getElem.1 hp
    dsimp only at hi
    rw [List.length_zip] at hi
    simp only [List.getElem_zip]
    exact h3.count i (by omega) (by omega)

/-- The positions of the line: those of the data whose bin is at or above `m` (up to half a bin). -/
def lineXs (pos : BinPos) (δ m : ℝ) (scatter : List (ℝ × ℝ)) : List ℝ :=
  (scatter.map Prod.fst).filter fun x => decide (m - δ / 2 ≤ centreOf pos δ x)

theorem line_core (mags : List ℝ) (δ : ℝ) (weights : Option (List ℝ)) (pos : BinPos) (mb bins cc : List ℝ) (b m : ℝ) (hpos : pos ≠ .other)
    (hs : Shape pos δ mb (effWeights mags weights) bins cc) (hm : ∃ v ∈ mb, m - δ / 2 ≤ v) :
    ∃ x0 ∈ bins, (∀ v ∈ mb, m - δ / 2 ≤ v ↔ centreOf pos δ x0 ≤ v) ∧
      grLine bins mb δ pos (some m) b = .ok ((lineXs pos δ m (bins.zip cc)).map fun x => (x, ((mb.filter fun v => decide (m - δ / 2 ≤ v)).length : ℝ) * (10 : ℝ) ^ (-b * (x - x0)))) ∧
      (lineXs pos δ m (bins.zip cc)).head? = some x0 := by
  have hx : (bins.filter fun v => decide (shiftMc pos δ m - δ / 2 ≤ v)) = lineXs pos δ m (bins.zip cc) := by
    unfold lineXs
    rw [List.map_fst_zip (by rw [hs.length])]
    apply List.filter_congr
    intro x _
    rw [Bool.eq_iff_iff, decide_eq_true_eq, decide_eq_true_eq]
    unfold shiftMc centreOf
    cases pos with
    | left => simp only [if_true]; constructor <;> intro h <;> linarith
    | center => simp
    | other => exact absurd rfl hpos
  have hsort : (lineXs pos δ m (bins.zip cc)).Pairwise (· < ·) := by
    rw [← hx]; exact hs.sorted.sublist List.filter_sublist
  have hne : lineXs pos δ m (bins.zip cc) ≠ [] := by
    obtain ⟨v, hv, hle⟩ := hm
    obtain ⟨x, hxm, hg⟩ := hs.top
    have : x ∈ lineXs pos δ m (bins.zip cc) := by
      unfold lineXs
      rw [List.map_fst_zip (by rw [hs.length]), List.mem_filter, decide_eq_true_eq]
      exact ⟨hxm, hle.trans (hg.2 hv)⟩
    exact List.ne_nil_of_mem this
  obtain ⟨x0, r, hr⟩ := List.exists_cons_of_ne_nil hne
  have hx0 : x0 ∈ lineXs pos δ m (bins.zip cc) := by rw [hr]; simp
  have hx0' := hx0
  unfold lineXs at hx0'
  rw [List.map_fst_zip (by rw [hs.length]), List.mem_filter, decide_eq_true_eq] at hx0'
  have hmin : amin? (lineXs pos δ m (bins.zip cc)) = some x0 := by
    rw [amin?_eq_some_iff]
    refine ⟨hx0, ?_⟩
    intro y hy
    rw [hr] at hy hsort
    rcases List.mem_cons.1 hy with rfl | hy
    · exact le_rfl
    · exact ((List.pairwise_cons.1 hsort).1 y hy).le
  refine ⟨x0, hx0'.1, ?_, ?_, by rw [hr]; rfl⟩
  · intro v hv
    obtain ⟨x, hxm, rfl⟩ := hs.all v hv
    constructor
    · intro hle
      have hxl : x ∈ lineXs pos δ m (bins.zip cc) := by
        unfold lineXs
        rw [List.map_fst_zip (by rw [hs.length]), List.mem_filter, decide_eq_true_eq]
        exact ⟨hxm, hle⟩
      have := ((amin?_eq_some_iff _ _).1 hmin).2 hxl
      unfold centreOf; split <;> linarith
    · intro hle; exact hx0'.2.trans hle
  · unfold grLine lineMc
    simp only [bind, Except.bind, pure, Except.pure, hx, hmin]
    rfl

/-- C71: without weights the Gutenberg-Richter line starts on the data - at the first bin at or above the completeness magnitude (the
smallest magnitude if none is given) and at its cumulative count -, covers exactly the bins from there on, and falls by the factor `10 ^ (-b Δm)`. -/
theorem C71_line_starts_on_data (mags : List (Option ℝ)) (mc δ : Option ℝ) (b : ℝ) (pos : BinPos) (hδ : δ.getD 0 = 0 ∨ 1 / 10 ^ 12 ≤ δ.getD 0)
    (hpos : pos ≠ .other) (m : ℝ) (mb : List ℝ) (hmb : ∃ bins cc, getCumFmd (mags.filterMap id) (δ.getD 0) none pos = .ok (bins, cc, mb))
    (hmc : mc = some m ∨ mc = none ∧ IsLeast {v | v ∈ mb} m) (hm : ∃ v ∈ mb, m - δ.getD 0 / 2 ≤ v) :
    ∃ d l p, plotCumFmd mags mc δ none (some b) pos = .ok d ∧ d.line = some l ∧ l.head? = some p ∧ p ∈ d.scatter ∧
      l.map Prod.fst = lineXs pos (δ.getD 0) m d.scatter ∧ ∀ q ∈ l, q.2 = p.2 * (10 : ℝ) ^ (-b * (q.1 - p.1)) := by
  obtain ⟨bins, cc, h1⟩ := hmb
  have hne : mags.filterMap id ≠ [] := by
    intro h0
    rw [h0] at h1
    unfold getCumFmd at h1
    split at h1
    · simp at h1
      obtain ⟨-, -, rfl⟩ := h1
      obtain ⟨v, hv, -⟩ := hm
      cases hv
    · have hδ' : ¬ δ.getD 0 ≤ 0 := by
        rcases hδ with h | h
        · contradiction
        · have : (0 : ℝ) < 1 / 10 ^ 12 := by positivity
          linarith
      unfold getFmd at h1
      rw [if_neg hδ'] at h1
      unfold binArr at h1
      split at h1
      · cases h1
      · simp [bind, Except.bind, pure, Except.pure, amin?] at h1
  obtain ⟨bins', cc', mb', h1', hb, hs⟩ := cumFmd_shape _ _ none pos hδ hne hpos (by simp [effWeights])
  rw [h1] at h1'
  cases h1'
  obtain ⟨x0, hx0, hiff, hl, hhead⟩ := line_core (mags.filterMap id) (δ.getD 0) none pos mb bins cc b m hpos hs hm
  obtain ⟨i, hi, rfl⟩ := List.mem_iff_getElem.1 hx0
  have hi' : i < cc.length := by rw [hs.length]; exact hi
  have hcount : cc[i] = ((mb.filter fun v => decide (m - δ.getD 0 / 2 ≤ v)).length : ℝ) := by
    rw [hs.count i hi hi']
    unfold effWeights
    rw [weightOf_ones _ _ hb.length]
    congr 2
    apply List.filter_congr
    intro v hv
    rw [Bool.eq_iff_iff, decide_eq_true_eq, decide_eq_true_eq, hiff v hv]
  have hline : grLine bins mb (δ.getD 0) pos mc b = grLine bins mb (δ.getD 0) pos (some m) b := by
    rcases hmc with rfl | ⟨rfl, hleast⟩
    · rfl
    · unfold grLine lineMc
      rw [(amin?_eq_some_iff _ _).2 hleast]
  refine ⟨⟨bins.zip cc, some ((lineXs pos (δ.getD 0) m (bins.zip cc)).map fun x => (x, ((mb.filter fun v => decide (m - δ.getD 0 / 2 ≤ v)).length : ℝ) * (10 : ℝ) ^ (-b * (x - bins[i]))))⟩, ((lineXs pos (δ.getD 0) m (bins.zip cc)).map fun x => (x, ((mb.filter fun v => decide (m - δ.getD 0 / 2 ≤ v)).length : ℝ) * (10 : ℝ) ^ (-b * (x - bins[i])))), (bins[i], cc[i]), ?_, rfl, ?_, ?_, ?_, ?_⟩
  · unfold plotCumFmd
    simp only [h1, bind, Except.bind, hline, hl, pure, Except.pure]
  · rw [List.head?_map, hhead]
    simp [hcount]
  · rw [List.mem_iff_getElem]
    exact ⟨i, by simp [List.length_zip, hi, hi'], by simp⟩
  · simp [List.map_map, Function.comp_def]
  · intro q hq
    obtain ⟨x, -, rfl⟩ := List.mem_map.1 hq
    simp only [hcount]

/-- C71: a completeness magnitude above all (binned) magnitudes by more than half a bin is a ValueError. -/
theorem C71_mc_above (mags : List (Option ℝ)) (δ : Option ℝ) (weights : Option (List ℝ)) (b m : ℝ) (pos : BinPos) (hδ : δ.getD 0 = 0 ∨ 1 / 10 ^ 12 ≤ δ.getD 0)
    (hne : mags.filterMap id ≠ []) (hpos : pos ≠ .other) (hw : (effWeights (mags.filterMap id) weights).length = (mags.filterMap id).length)
    (mb : List ℝ) (hmb : ∃ bins cc, getCumFmd (mags.filterMap id) (δ.getD 0) weights pos = .ok (bins, cc, mb)) (hm : ∀ v ∈ mb, v < m - δ.getD 0 / 2) :
    plotCumFmd mags (some m) δ weights (some b) pos = .error .valueError := by
  obtain ⟨bins, cc, h1⟩ := hmb
  obtain ⟨bins', cc', mb', h1', hb, hs⟩ := cumFmd_shape _ _ weights pos hδ hne hpos hw
  rw [h1] at h1'
  cases h1'
  have hx : (bins.filter fun v => decide (shiftMc pos (δ.getD 0) m - δ.getD 0 / 2 ≤ v)) = [] := by
    rw [List.filter_eq_nil_iff]
    intro x hx
    rw [decide_eq_true_eq]
    obtain ⟨v, hv, hle⟩ := hs.bound x hx
    have := hm v hv
    unfold shiftMc
    unfold centreOf at hle
    cases pos with
    | left => simp only [if_true] at hle ⊢; linarith
    | center => simp at hle ⊢; linarith
    | other => exact absurd rfl hpos
  unfold plotCumFmd
  simp only [h1, bind, Except.bind]
  unfold grLine lineMc
  simp only [bind, Except.bind, hx]
  rfl

/-- C71 (defect): with weights the line starts at the number of events, not at their weight. -/
theorem C71_defect_weights (mags : List (Option ℝ)) (δ : Option ℝ) (w : List ℝ) (b m : ℝ) (pos : BinPos) (hδ : δ.getD 0 = 0 ∨ 1 / 10 ^ 12 ≤ δ.getD 0)
    (hne : mags.filterMap id ≠ []) (hpos : pos ≠ .other) (hw : w.length = (mags.filterMap id).length)
    (mb : List ℝ) (hmb : ∃ bins cc, getCumFmd (mags.filterMap id) (δ.getD 0) (some w) pos = .ok (bins, cc, mb)) (hm : ∃ v ∈ mb, m - δ.getD 0 / 2 ≤ v) :
    ∃ d l x y y', plotCumFmd mags (some m) δ (some w) (some b) pos = .ok d ∧ d.line = some l ∧ l.head? = some (x, y) ∧ (x, y') ∈ d.scatter ∧
      y = (mb.filter fun v => decide (m - δ.getD 0 / 2 ≤ v)).length ∧ y' = Spec.weightOf mb w (m - δ.getD 0 / 2 ≤ ·) := by
  obtain ⟨bins, cc, h1⟩ := hmb
  obtain ⟨bins', cc', mb', h1', hb, hs⟩ := cumFmd_shape _ _ (some w) pos hδ hne hpos hw
  rw [h1] at h1'
  cases h1'
  obtain ⟨x0, hx0, hiff, hl, hhead⟩ := line_core (mags.filterMap id) (δ.getD 0) (some w) pos mb bins cc b m hpos hs hm
  obtain ⟨i, hi, rfl⟩ := List.mem_iff_getElem.1 hx0
  have hi' : i < cc.length := by rw [hs.length]; exact hi
  refine ⟨⟨bins.zip cc, some ((lineXs pos (δ.getD 0) m (bins.zip cc)).map fun x => (x, ((mb.filter fun v => decide (m - δ.getD 0 / 2 ≤ v)).length : ℝ) * (10 : ℝ) ^ (-b * (x - bins[i]))))⟩, ((lineXs pos (δ.getD 0) m (bins.zip cc)).map fun x => (x, ((mb.filter fun v => decide (m - δ.getD 0 / 2 ≤ v)).length : ℝ) * (10 : ℝ) ^ (-b * (x - bins[i])))), bins[i], _, cc[i], ?_, rfl, ?_, ?_, rfl, ?_⟩
  · unfold plotCumFmd
    simp only [h1, bind, Except.bind, hl, pure, Except.pure]
  · rw [List.head?_map, hhead]
    simp
  · rw [List.mem_iff_getElem]
    exact ⟨i, by simp [List.length_zip, hi, hi'], by simp⟩
  · rw [hs.count i hi hi']
    unfold effWeights Spec.weightOf
    congr 1
    apply List.map_congr_left
    rintro ⟨v, u⟩ hq
    have := hiff v (List.of_mem_zip hq).1
    by_cases h : m - δ.getD 0 / 2 ≤ v
    · simp [h, this.1 h]
    · rw [if_neg h, if_neg (fun h' => h (this.2 h'))]

/-- C71 (defect): if a magnitude is missing, weights for all events are a ValueError (the missing magnitude is dropped, its weight is not). -/
theorem C71_defect_nan_weights (mags : List (Option ℝ)) (mc δ : Option ℝ) (w : List ℝ) (b : Option ℝ) (pos : BinPos) (hδ : δ.getD 0 = 0 ∨ 1 / 10 ^ 12 ≤ δ.getD 0)
    (hw : w.length = mags.length) (hnan : none ∈ mags) (fmdBin : ℝ) (hf : 1 / 10 ^ 12 ≤ fmdBin) :
    plotCumFmd mags mc δ (some w) b pos = .error .valueError ∧ plotFmd mags fmdBin (some w) pos = .error .valueError := by
  have hlt : (mags.filterMap id).length < mags.length := by
    rw [List.length_filterMap_eq_countP, List.countP_lt_length_iff]
    exact ⟨none, hnan, by simp⟩
  have hfmd : ∀ d : ℝ, 1 / 10 ^ 12 ≤ d → getFmd (mags.filterMap id) d (some w) pos = .error .valueError := by
    intro d hd
    have hp : 0 < d := lt_of_lt_of_le (by positivity) hd
    unfold getFmd
    rw [if_neg (not_le.2 hp)]
    have hb : ∀ l : List ℝ, binArr l d = .ok (l.map (binTo d)) := by
      intro l; unfold binArr; rw [if_neg (not_lt.2 (by unfold eps; exact hd))]
    simp only [hb, bind, Except.bind, pure, Except.pure, Option.getD_some, List.length_map]
    split
    · rw [if_pos (by omega)]
    · rfl
  constructor
  · unfold plotCumFmd
    have : getCumFmd (mags.filterMap id) (δ.getD 0) (some w) pos = .error .valueError := by
      unfold getCumFmd
      rcases hδ with h0 | h0
      · rw [if_pos h0]
        simp only [Option.getD_some]
        rw [if_pos (by omega)]
      · have hp : 0 < δ.getD 0 := lt_of_lt_of_le (by positivity) h0
        rw [if_neg hp.ne', hfmd _ h0]
        rfl
    rw [this]
    rfl
  · unfold plotFmd
    rw [hfmd _ hf]
    rfl

/-- C71: the points of `plot_fmd`: the bins are consecutive and every bin has the weight of its events. -/
theorem C71_fmd_points (mags : List (Option ℝ)) (δ : ℝ) (weights : Option (List ℝ)) (pos : BinPos) (hδ : 1 / 10 ^ 12 ≤ δ)
    (hne : mags.filterMap id ≠ []) (hpos : pos ≠ .other) (hw : (effWeights (mags.filterMap id) weights).length = (mags.filterMap id).length) :
    ∃ l mb, plotFmd mags δ weights pos = .ok l ∧ FmdBinned δ (mags.filterMap id) mb ∧
      Spec.IsFmd δ mb (effWeights (mags.filterMap id) weights) (l.map fun p => centreOf pos δ p.1) (l.map Prod.snd) ∧
      (l.map Prod.snd).sum = (effWeights (mags.filterMap id) weights).sum := by
  obtain ⟨bins, counts, mb, h1, h2, h3, h4⟩ := C09_get_fmd _ δ weights pos hδ hne hpos hw
  have hcen : (if pos = .left then bins.map (fun b => b + δ / 2) else bins) = bins.map (centreOf pos δ) := by
    unfold centreOf
    split
    · rfl
    · simp
  rw [hcen] at h3
  have hl : counts.length = bins.length := by rw [h3.length, List.length_map]
  refine ⟨bins.zip counts, mb, ?_, Or.inr ⟨hδ, h2⟩, ?_, ?_⟩
  · unfold plotFmd; rw [h1]; rfl
  · have e1 : ((bins.zip counts).map fun p => centreOf pos δ p.1) = bins.map (centreOf pos δ) := by
      rw [show (fun p : ℝ × ℝ => centreOf pos δ p.1) = centreOf pos δ ∘ Prod.fst from rfl, ← List.map_map, List.map_fst_zip (by omega)]
    rw [e1, List.map_snd_zip (by omega)]
    exact h3
  · rw [List.map_snd_zip (by omega)]; exact h4

/-- The hypotheses are met: two events with a missing magnitude between them, without binning. -/
example : ∃ bins cc mb, getCumFmd ([some 1, none, some 2].filterMap id) ((none : Option ℝ).getD 0) none .center = .ok (bins, cc, mb) ∧
    ∃ v ∈ mb, (2 : ℝ) - (none : Option ℝ).getD 0 / 2 ≤ v := by
  obtain ⟨bins, cc, h, -⟩ := C10_unbinned (K := ℝ) [1, 2] none .center (by simp [effWeights])
  exact ⟨bins, cc, [1, 2], h, 2, by simp, by simp⟩

end
end SeismoStats.Props
