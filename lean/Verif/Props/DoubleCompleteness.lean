/-
C123: the sub-catalogues of Kijko & Smit and the bins of Weichert in double precision.
-/
import Verif.Proofs.DoubleCompleteness
import Verif.Props.Weichert

namespace SeismoStats
namespace Props
noncomputable section
open Classical
open Double (rnd)
open Completeness (Row)

/-! ### Selection by the completeness table -/

/-- Start year for a magnitude given as a number of steps, the completeness magnitudes lying half a step above `t`. -/
private def startOf (ts : List (ℤ × ℝ)) (k : ℤ) : ℝ :=
  let i := ts.countP fun t => decide (t.1 < k)
  if i = 0 then -1 else (ts.getD (i - 1) (0, 0)).2

private def completeK (ts : List (ℤ × ℝ)) (ks : List ℤ) (years : List ℝ) : List (ℤ × ℝ) :=
  (List.zip ks years).filterMap fun p => if 0 < startOf ts p.1 ∧ 0 ≤ p.2 - startOf ts p.1 then some (p.1, startOf ts p.1) else none

private theorem startYear_map (ts : List (ℤ × ℝ)) (c : ℤ → ℝ) (k : ℤ) (m : ℝ) (h : ∀ t ∈ ts, c t.1 < m ↔ t.1 < k) :
    Completeness.startYear (ts.map fun t => (c t.1, t.2)) m = startOf ts k := by
  have hc : (ts.map fun t => (c t.1, t.2)).countP (fun r => decide (r.1 < m)) = ts.countP fun t => decide (t.1 < k) := by
    rw [List.countP_map]
    apply List.countP_congr
    intro t ht
    simp only [Function.comp, decide_eq_true_eq]
    exact h t ht
  unfold Completeness.startYear startOf
  rw [hc]
  dsimp only
  by_cases h0 : ts.countP (fun t => decide (t.1 < k)) = 0
  · rw [if_pos h0, if_pos h0]
  · rw [if_neg h0, if_neg h0]
    have hlt : ts.countP (fun t => decide (t.1 < k)) - 1 < ts.length := by
      have := List.countP_le_length (p := fun t : ℤ × ℝ => decide (t.1 < k)) (l := ts)
      omega
    rw [List.getD_eq_getElem _ _ (by rw [List.length_map]; exact hlt), List.getD_eq_getElem _ _ hlt, List.getElem_map]

private theorem complete_map (ts : List (ℤ × ℝ)) (ks : List ℤ) (years : List ℝ) (c f : ℤ → ℝ) (h : ∀ k ∈ ks, ∀ t ∈ ts, c t.1 < f k ↔ t.1 < k) :
    Completeness.complete (ks.map f) years (ts.map fun t => (c t.1, t.2)) = (completeK ts ks years).map fun q => (f q.1, q.2) := by
  unfold Completeness.complete completeK
  rw [List.zip_map_left, List.filterMap_map, List.map_filterMap]
  apply List.filterMap_congr
  intro p hp
  have hk : p.1 ∈ ks := (List.of_mem_zip (show (p.1, p.2) ∈ List.zip ks years from hp)).1
  simp only [Function.comp, Prod.map, id]
  rw [startYear_map ts c p.1 (f p.1) (h p.1 hk)]
  by_cases hc : 0 < startOf ts p.1 ∧ 0 ≤ p.2 - startOf ts p.1
  · rw [if_pos hc, if_pos hc]; rfl
  · rw [if_neg hc, if_neg hc]; rfl

private theorem completeK_mem {ts : List (ℤ × ℝ)} {ks : List ℤ} {years : List ℝ} {q : ℤ × ℝ} (h : q ∈ completeK ts ks years) :
    q.1 ∈ ks ∧ ∃ t ∈ ts, t.1 < q.1 := by
  unfold completeK at h
  obtain ⟨p, hp, e⟩ := List.mem_filterMap.1 h
  have hk : p.1 ∈ ks := (List.of_mem_zip (show (p.1, p.2) ∈ List.zip ks years from hp)).1
  by_cases hc : 0 < startOf ts p.1 ∧ 0 ≤ p.2 - startOf ts p.1
  · rw [if_pos hc] at e
    obtain rfl := Option.some.inj e
    refine ⟨hk, ?_⟩
    by_contra hn
    have : ts.countP (fun t => decide (t.1 < p.1)) = 0 := by
      rw [List.countP_eq_zero]
      intro t ht
      simp only [decide_eq_true_eq]
      exact fun hlt => hn ⟨t, ht, hlt⟩
    have h1 := hc.1
    unfold startOf at h1
    dsimp only at h1
    rw [if_pos this] at h1
    norm_num at h1
  · rw [if_neg hc] at e
    exact (nomatch e)

private theorem mapM_map {α β γ : Type} (C : List α) (F : α → β) (G : β → Py γ) (H : α → γ) (h : ∀ q ∈ C, G (F q) = .ok (H q)) :
    (C.map F).mapM G = .ok (C.map H) := by
  rw [mapM_ok_iff]
  induction C with
  | nil => exact List.Forall₂.nil
  | cons a l ih =>
    exact List.Forall₂.cons (h a List.mem_cons_self) (ih fun q hq => h q (List.mem_cons_of_mem _ hq))

/-! ### Edges and labels -/

private theorem halfEq (t : ℤ) (D : ℝ) : ((t : ℝ) + 1 / 2) * D = (((2 * t + 1 : ℤ) : ℝ)) / 2 * D := by push_cast; ring
private theorem gridEq (k : ℤ) (D : ℝ) : (k : ℝ) * D = (((2 * k : ℤ) : ℝ)) / 2 * D := by push_cast; ring

private theorem half_lt_grid {D : ℝ} (hD : 0 < D) {t k : ℤ} (ht : |t| ≤ 10 ^ 6) (hk : |k| ≤ 10 ^ 6) :
    rnd (((t : ℝ) + 1 / 2) * D) < rnd ((k : ℝ) * D) ↔ t < k := by
  rw [abs_le] at ht hk
  rw [halfEq, gridEq, Double.half_lt hD (abs_le.2 ⟨by omega, by omega⟩) (abs_le.2 ⟨by omega, by omega⟩)]
  omega

private theorem half_lt_grid' {D : ℝ} (hD : 0 < D) {t k : ℤ} : ((t : ℝ) + 1 / 2) * D < (k : ℝ) * D ↔ t < k := by
  rw [mul_lt_mul_iff_left₀ hD]
  constructor
  · intro h
    by_contra hc
    have : (k : ℝ) ≤ t := by exact_mod_cast not_lt.1 hc
    linarith
  · intro h
    have : (t : ℝ) + 1 ≤ k := by exact_mod_cast h
    linarith

/-- The label found for the magnitude of `k` steps with edges from half a step above `a` to half a step above `K`. -/
private theorem label_found {j : ℕ} (hj : 1 ≤ j) (hj30 : j ≤ 30) {a K k : ℤ} (ha : |a| ≤ 1000) (hK : K ≤ a + 1000) (hak : a < k) (hkK : k ≤ K) :
    Double.cutLabel (Double.arange (rnd (((a : ℝ) + 1 / 2) * ((j : ℝ) / 100))) (Double.add (rnd (((K : ℝ) + 1 / 2) * ((j : ℝ) / 100))) (rnd (1 / 100)))
      (rnd ((j : ℝ) / 100))) (rnd ((k : ℝ) * ((j : ℝ) / 100))) = .ok (rnd (((k : ℝ) - 1 / 2) * ((j : ℝ) / 100))) := by
  set D : ℝ := (j : ℝ) / 100 with hDd
  have hj' : (1 : ℝ) ≤ j := by exact_mod_cast hj
  have hj3 : (j : ℝ) ≤ 30 := by exact_mod_cast hj30
  have hD : 0 < D := by positivity
  rw [abs_le] at ha
  set s := rnd (((a : ℝ) + 1 / 2) * D) with hs
  set t := Double.add (rnd (((K : ℝ) + 1 / 2) * D)) (rnd (1 / 100)) with ht
  have haR : |(a : ℝ)| ≤ 1000 := by
    rw [abs_le]
    exact ⟨by exact_mod_cast ha.1, by exact_mod_cast ha.2⟩
  have hA : |(a : ℝ) + 1 / 2| ≤ 2 * 10 ^ 3 := by
    have := abs_le.1 haR
    rw [abs_le]
    constructor <;> linarith [this.1, this.2]
  have hs' : |s - ((a : ℝ) + 1 / 2) * D| ≤ D / 10 ^ 9 := by
    rw [hs, halfEq]
    exact Double.half_near hD (abs_le.2 ⟨by omega, by omega⟩)
  have hKa : (a : ℝ) + 1 ≤ K := by exact_mod_cast (by omega : a + 1 ≤ K)
  have hKa2 : (K : ℝ) ≤ a + 1000 := by exact_mod_cast hK
  have hJD : (1 : ℝ) / 100 = 1 / j * D := by rw [hDd]; field_simp
  have hij : (1 : ℝ) / j ≤ 1 := by rw [div_le_one (by linarith)]; exact hj'
  have hij2 : (1 : ℝ) / 30 ≤ 1 / j := one_div_le_one_div_of_le (by linarith) hj3
  have ht' : |t - ((K : ℝ) + 1 / 2 + 1 / j) * D| ≤ D / 100 := by
    have h1 : |rnd (((K : ℝ) + 1 / 2) * D) - ((K : ℝ) + 1 / 2) * D| ≤ D / 10 ^ 9 := by
      rw [halfEq]
      exact Double.half_near hD (abs_le.2 ⟨by omega, by omega⟩)
    have h2 : |rnd (1 / 100) - 1 / 100| ≤ D / 10 ^ 9 := by
      have h : |(1 / 100 : ℝ)| ≤ D := by
        rw [abs_of_pos (by norm_num), hJD]
        calc 1 / (j : ℝ) * D ≤ 1 * D := mul_le_mul_of_nonneg_right hij hD.le
          _ = D := one_mul D
      have := rnd_lt_err h
      norm_num at this ⊢
      linarith
    have h3 : |rnd (((K : ℝ) + 1 / 2) * D) + rnd (1 / 100) - ((K : ℝ) + 1 / 2 + 1 / j) * D| ≤ D / 10 ^ 9 + D / 10 ^ 9 := by
      rw [add_mul _ (1 / (j : ℝ)), ← hJD]
      have e : rnd (((K : ℝ) + 1 / 2) * D) + rnd (1 / 100) - (((K : ℝ) + 1 / 2) * D + 1 / 100)
        = (rnd (((K : ℝ) + 1 / 2) * D) - ((K : ℝ) + 1 / 2) * D) + (rnd (1 / 100) - 1 / 100) := by ring
      rw [e]
      exact (abs_add_le _ _).trans (add_le_add h1 h2)
    have h4 : |((K : ℝ) + 1 / 2 + 1 / j) * D| ≤ 3000 * D := by
      rw [abs_mul, abs_of_pos hD]
      apply mul_le_mul_of_nonneg_right _ hD.le
      have := abs_le.1 haR
      rw [abs_le]
      constructor <;> linarith [this.1, this.2]
    have := Double.rnd_close (c := 3001 * D) h3 (by linarith)
    change |rnd _ - _| ≤ _
    norm_num at this ⊢
    linarith
  have hq := Double.arange_quot hD (A := (a : ℝ) + 1 / 2) (B := (K : ℝ) + 1 / 2 + 1 / j) (hs'.trans (by norm_num; linarith)) ht'
    (by rw [abs_le]; constructor <;> linarith)
  rw [abs_le] at hq
  set n := Double.arangeLen s t (rnd D) with hn
  have hn1 : (K - a).toNat + 1 ≤ n := by
    have : K - a < ⌈Double.div (Double.sub t s) (rnd D)⌉ := by
      rw [Int.lt_ceil]
      push_cast
      linarith [hq.1]
    unfold Double.arangeLen at hn
    omega
  have hn2 : n ≤ 1002 := by
    have : ⌈Double.div (Double.sub t s) (rnd D)⌉ ≤ 1002 := by
      rw [Int.ceil_le]
      push_cast
      linarith [hq.2]
    unfold Double.arangeLen at hn
    omega
  set E : ℕ → ℝ := fun i : ℕ => if i = 0 then s else if i = 1 then Double.add s (rnd D) else Double.add s (Double.mul i (Double.sub (Double.add s (rnd D)) s)) with hE
  have hEn : ∀ i, i < n → |E i - ((a : ℝ) + 1 / 2 + i) * D| ≤ D * (3 / 10 ^ 6) := fun i hi =>
    Double.arange_fine hD hs' hA i (by
      have : (i : ℝ) ≤ 1002 := by exact_mod_cast (hi.le.trans hn2)
      linarith)
  have hkn : |rnd ((k : ℝ) * D) - (k : ℝ) * D| ≤ D / 10 ^ 9 := by
    rw [gridEq]
    exact Double.half_near hD (abs_le.2 ⟨by omega, by omega⟩)
  have hcmp : ∀ i, i < n → (E i ≤ rnd ((k : ℝ) * D) ↔ i < (k - a).toNat) := by
    intro i hi
    have h1 := abs_le.1 (hEn i hi)
    have h2 := abs_le.1 hkn
    norm_num at h1 h2
    constructor
    · intro h
      by_contra hc
      have : (k : ℝ) ≤ a + i := by exact_mod_cast (by omega : k ≤ a + i)
      have := mul_le_mul_of_nonneg_right this hD.le
      nlinarith [h1.1, h2.2]
    · intro h
      have : (a : ℝ) + i + 1 ≤ k := by exact_mod_cast (by omega : a + i + 1 ≤ k)
      have := mul_le_mul_of_nonneg_right this hD.le
      nlinarith [h1.2, h2.1]
  have hlab : ∀ i, i < n → Double.roundFrac 3 (E i) = rnd (((2 * (a + i) + 1 : ℤ) : ℝ) / 2 * D) := by
    intro i hi
    have hi' : (i : ℤ) < 1002 := by omega
    have hi0 : (0 : ℤ) ≤ i := Int.natCast_nonneg i
    have e : ((2 * (a + i) + 1 : ℤ) : ℝ) / 2 * D = ((5 * (j : ℤ) * (2 * (a + i) + 1) : ℤ) : ℝ) / 1000 := by
      rw [hDd]; push_cast; ring
    rw [e]
    apply Double.roundFrac_eq
    · rw [← e]
      have h1 := hEn i hi
      have e2 : ((a : ℝ) + 1 / 2 + i) * D = ((2 * (a + i) + 1 : ℤ) : ℝ) / 2 * D := by push_cast; ring
      rw [e2] at h1
      refine h1.trans ?_
      have : D ≤ 3 / 10 := by rw [hDd]; linarith
      linarith
    · rw [abs_mul, abs_mul]
      have h1 : |2 * (a + (i : ℤ)) + 1| ≤ 5000 := abs_le.2 ⟨by omega, by omega⟩
      have h2 : |(j : ℤ)| ≤ 30 := abs_le.2 ⟨by omega, by omega⟩
      have := mul_le_mul h2 h1 (abs_nonneg _) (by norm_num)
      have h5 : |(5 : ℤ)| = 5 := rfl
      rw [h5]
      nlinarith
    · rw [abs_mul, abs_mul]
      have h1 : 1 ≤ |2 * (a + (i : ℤ)) + 1| := Int.one_le_abs (by omega)
      have h2 : 1 ≤ |(j : ℤ)| := Int.one_le_abs (by omega)
      have := mul_le_mul h2 h1 (by norm_num) (abs_nonneg _)
      have h5 : |(5 : ℤ)| = 5 := rfl
      rw [h5]
      nlinarith
  have hedges : Double.arange s t (rnd D) = (List.range n).map E := rfl
  have hmapped : ((List.range n).map E).map (Double.roundFrac 3) = (List.range n).map fun i : ℕ => rnd (((2 * (a + i) + 1 : ℤ) : ℝ) / 2 * D) := by
    rw [List.map_map]
    apply List.map_congr_left
    intro i hi
    exact hlab i (List.mem_range.1 hi)
  have hprec : Double.inferPrecision ((List.range n).map E) = 3 := by
    have hnd : (((List.range n).map E).map (Double.roundFrac 3)).Nodup := by
      rw [hmapped]
      apply List.Nodup.map_on _ List.nodup_range
      intro x hx y hy hxy
      rw [List.mem_range] at hx hy
      rcases lt_trichotomy x y with h | h | h
      · have := (Double.half_lt hD (u := 2 * (a + x) + 1) (v := 2 * (a + y) + 1) (abs_le.2 ⟨by omega, by omega⟩) (abs_le.2 ⟨by omega, by omega⟩)).2 (by omega)
        rw [hxy] at this
        exact absurd this (lt_irrefl _)
      · exact h
      · have := (Double.half_lt hD (u := 2 * (a + y) + 1) (v := 2 * (a + x) + 1) (abs_le.2 ⟨by omega, by omega⟩) (abs_le.2 ⟨by omega, by omega⟩)).2 (by omega)
        rw [hxy] at this
        exact absurd this (lt_irrefl _)
    unfold Double.inferPrecision
    rw [List.range'_succ, List.find?_cons_of_pos (by exact decide_eq_true hnd)]
    rfl
  have hcount : ((List.range n).map E).countP (fun e => decide (e ≤ rnd ((k : ℝ) * D))) = (k - a).toNat := by
    rw [List.countP_map]
    have : (List.range n).countP ((fun e => decide (e ≤ rnd ((k : ℝ) * D))) ∘ E) = (List.range n).countP fun i => decide (i < (k - a).toNat) := by
      apply List.countP_congr
      intro i hi
      simp only [Function.comp, decide_eq_true_eq]
      exact hcmp i (List.mem_range.1 hi)
    rw [this, Double.countP_range_lt]
    omega
  rw [hedges]
  unfold Double.cutLabel Double.labels
  rw [hcount, hprec, hmapped]
  dsimp only
  rw [if_neg (by rw [List.length_map, List.length_range]; omega)]
  have hlt : (k - a).toNat - 1 < n := by omega
  rw [List.getD_eq_getElem _ _ (by rw [List.length_map, List.length_range]; exact hlt), List.getElem_map, List.getElem_range]
  congr 2
  have : ((((k - a).toNat - 1 : ℕ) : ℤ)) = k - a - 1 := by omega
  rw [this]
  push_cast
  ring

/-- C123, Weichert: with magnitudes on a grid of step 0.01 to 0.3, completeness magnitudes half-way between grid values, the first of them the lowest, and the largest
magnitude half a step above the last bin, the table of complete events per bin and start year computed with doubles is that of exact arithmetic: the same counts
and years, every left edge the double nearest to the exact one. -/
theorem C123_bins (j : ℕ) (hj : 1 ≤ j) (hj30 : j ≤ 30) (a : ℤ) (y : ℝ) (rest : List (ℤ × ℝ)) (ks : List ℤ) (years : List ℝ) (K : ℤ) (ha : |a| ≤ 1000)
    (hrest : ∀ t ∈ rest, a ≤ t.1 ∧ t.1 ≤ 10 ^ 6) (hks : ∀ k ∈ ks, -10 ^ 6 ≤ k ∧ k ≤ K) (hK : K ≤ a + 1000) :
    ∃ E : List Row,
      Completeness.completeEvents (ks.map fun k : ℤ => (k : ℝ) * ((j : ℝ) / 100)) years
        (((a, y) :: rest).map fun t => (((t.1 : ℝ) + 1 / 2) * ((j : ℝ) / 100), t.2)) (((K : ℝ) + 1 / 2) * ((j : ℝ) / 100)) ((j : ℝ) / 100) = .ok E ∧
      Double.completeEvents (ks.map fun k : ℤ => rnd ((k : ℝ) * ((j : ℝ) / 100))) years
        (((a, y) :: rest).map fun t => (rnd (((t.1 : ℝ) + 1 / 2) * ((j : ℝ) / 100)), t.2)) (rnd (((K : ℝ) + 1 / 2) * ((j : ℝ) / 100))) (rnd ((j : ℝ) / 100))
          = .ok (E.map fun r => { r with edge := rnd r.edge }) := by
  have hj' : (1 : ℝ) ≤ j := by exact_mod_cast hj
  set D : ℝ := (j : ℝ) / 100 with hDd
  have hD : 0 < D := by positivity
  have ha' := abs_le.1 ha
  have hts : ∀ t ∈ (a, y) :: rest, a ≤ t.1 ∧ t.1 ≤ 10 ^ 6 := by
    intro t ht
    rcases List.mem_cons.1 ht with rfl | h
    · exact ⟨le_rfl, by dsimp only; omega⟩
    · exact hrest t h
  set ts := (a, y) :: rest with hts'
  set C := completeK ts ks years with hC
  have hCm : ∀ q ∈ C, a < q.1 ∧ q.1 ≤ K := by
    intro q hq
    obtain ⟨h1, t, ht, hlt⟩ := completeK_mem hq
    exact ⟨lt_of_le_of_lt (hts t ht).1 hlt, (hks _ h1).2⟩
  have hex : Completeness.complete (ks.map fun k : ℤ => (k : ℝ) * D) years (ts.map fun t => (((t.1 : ℝ) + 1 / 2) * D, t.2))
      = C.map fun q => ((q.1 : ℝ) * D, q.2) :=
    complete_map ts ks years (fun t => ((t : ℝ) + 1 / 2) * D) (fun k => (k : ℝ) * D) fun k _ t _ => half_lt_grid' hD
  have hdo : Completeness.complete (ks.map fun k : ℤ => rnd ((k : ℝ) * D)) years (ts.map fun t => (rnd (((t.1 : ℝ) + 1 / 2) * D), t.2))
      = C.map fun q => (rnd ((q.1 : ℝ) * D), q.2) := by
    refine complete_map ts ks years (fun t => rnd (((t : ℝ) + 1 / 2) * D)) (fun k => rnd ((k : ℝ) * D)) fun k hk t ht => ?_
    have h1 := hks k hk
    have h2 := hts t ht
    exact half_lt_grid hD (abs_le.2 ⟨by omega, by omega⟩) (abs_le.2 ⟨by omega, by omega⟩)
  refine ⟨Completeness.groups (C.map fun q => (((q.1 : ℝ) - 1 / 2) * D, q.2)), ?_, ?_⟩
  · unfold Completeness.completeEvents
    rw [hex]
    dsimp only
    rw [mapM_map C _ _ (fun q => (((q.1 : ℝ) - 1 / 2) * D, q.2))]
    · rfl
    · intro q hq
      obtain ⟨h1, h2⟩ := hCm q hq
      have hcut : Completeness.cutLeft (arange ((ts.map fun t => (((t.1 : ℝ) + 1 / 2) * D, t.2)).getD 0 (0, 0)).1 (((K : ℝ) + 1 / 2) * D + 1 / 100) D)
          ((q.1 : ℝ) * D) = .ok (((q.1 : ℝ) - 1 / 2) * D) := by
        change Completeness.cutLeft (arange (((a : ℝ) + 1 / 2) * D) _ D) _ = _
        rw [cutLeft_arange _ _ _ _ _ hD]
        have hq1 : (((q.1 - a - 1).toNat : ℕ) : ℤ) = q.1 - a - 1 := by omega
        have hq2 : (((q.1 - a - 1).toNat : ℕ) : ℝ) = (q.1 : ℝ) - a - 1 := by
          have : (((q.1 - a - 1).toNat : ℤ) : ℝ) = ((q.1 - a - 1 : ℤ) : ℝ) := by rw [hq1]
          push_cast at this
          exact this
        refine ⟨(q.1 - a - 1).toNat, ?_, ?_, ?_, ?_⟩
        · have : K - a < ⌈(((K : ℝ) + 1 / 2) * D + 1 / 100 - ((a : ℝ) + 1 / 2) * D) / D⌉ := by
            rw [Int.lt_ceil, lt_div_iff₀ hD]
            push_cast
            nlinarith
          omega
        · rw [hq2]; ring
        · nlinarith
        · nlinarith
      simp only [hcut]
      rfl
  · unfold Double.completeEvents
    rw [hdo]
    dsimp only
    rw [mapM_map C _ _ (fun q => (rnd (((q.1 : ℝ) - 1 / 2) * D), q.2))]
    · change Except.ok _ = _
      congr 1
      rw [← Double.groups_map]
      · rw [List.map_map]; rfl
      · intro p hp q hq
        obtain ⟨p', hp', rfl⟩ := List.mem_map.1 hp
        obtain ⟨q', hq', rfl⟩ := List.mem_map.1 hq
        have h1 := hCm p' hp'
        have h2 := hCm q' hq'
        have e : ∀ x : ℤ, ((x : ℝ) - 1 / 2) * D = (((2 * x - 1 : ℤ) : ℝ)) / 2 * D := fun x => by push_cast; ring
        dsimp only
        rw [e, e, Double.half_lt hD (abs_le.2 ⟨by omega, by omega⟩) (abs_le.2 ⟨by omega, by omega⟩), mul_lt_mul_iff_left₀ hD,
          div_lt_div_iff_of_pos_right (two_pos : (0 : ℝ) < 2), Int.cast_lt]
    · intro q hq
      obtain ⟨h1, h2⟩ := hCm q hq
      have hcut := label_found hj hj30 ha hK h1 h2
      change (Double.cutLabel (Double.arange (rnd (((a : ℝ) + 1 / 2) * D)) _ _) _ >>= _) = _
      rw [hcut]
      rfl

/-! ### Kijko and Smit -/

private theorem mask_zipWith (ks : List ℤ) (years : List ℝ) (g : ℤ → ℝ) (φ ψ : ℝ → ℝ → Bool) (h : ∀ k ∈ ks, ∀ y, φ (rnd (g k)) y = ψ (g k) y) :
    mask (ks.map fun k => rnd (g k)) (List.zipWith φ (ks.map fun k => rnd (g k)) years) = (mask (ks.map g) (List.zipWith ψ (ks.map g) years)).map rnd := by
  induction ks generalizing years with
  | nil => rfl
  | cons k ks ih =>
    cases years with
    | nil => rfl
    | cons y years =>
      have ih' := ih years fun k hk => h k (List.mem_cons_of_mem _ hk)
      have h0 := h k List.mem_cons_self y
      unfold mask at ih' ⊢
      simp only [List.map_cons, List.zipWith_cons_cons, List.zip_cons_cons]
      rw [h0]
      cases ψ (g k) y
      · simpa using ih'
      · simpa using ih'

/-- C123, Kijko and Smit: with magnitudes on a grid and completeness magnitudes on it or half-way between its values, every sub-catalogue selected with doubles
consists of the doubles of the magnitudes selected in exact arithmetic. -/
theorem C123_sub_catalogues (D : ℝ) (hD : 0 < D) (ks : List ℤ) (years : List ℝ) (ts : List (ℤ × ℝ)) (hks : ∀ k ∈ ks, |k| ≤ 10 ^ 6)
    (hts : ∀ t ∈ ts, |t.1| ≤ 2 * 10 ^ 6) (i : ℕ) (hi : i < ts.length) :
    Completeness.subCatalogue (ks.map fun k : ℤ => rnd ((k : ℝ) * D)) years (ts.map fun t => (rnd ((t.1 : ℝ) / 2 * D), t.2)) i =
      (Completeness.subCatalogue (ks.map fun k : ℤ => (k : ℝ) * D) years (ts.map fun t => ((t.1 : ℝ) / 2 * D, t.2)) i).map rnd := by
  have hins : ∀ y, Completeness.insertion (ts.map fun t => (rnd ((t.1 : ℝ) / 2 * D), t.2)) y
      = Completeness.insertion (ts.map fun t => ((t.1 : ℝ) / 2 * D, t.2)) y := by
    intro y
    unfold Completeness.insertion
    rw [List.countP_map, List.countP_map]
    rfl
  unfold Completeness.subCatalogue
  refine mask_zipWith ks years (fun k => (k : ℝ) * D) _ _ fun k hk y => ?_
  rw [hins]
  congr 1
  rw [List.getD_eq_getElem _ _ (by rw [List.length_map]; exact hi), List.getD_eq_getElem _ _ (by rw [List.length_map]; exact hi), List.getElem_map, List.getElem_map]
  dsimp only
  have h1 := abs_le.1 (hks k hk)
  have h2 := abs_le.1 (hts _ (List.getElem_mem hi))
  rw [decide_eq_decide, gridEq, Double.half_lt hD (abs_le.2 ⟨by omega, by omega⟩) (abs_le.2 ⟨by omega, by omega⟩), mul_lt_mul_iff_left₀ hD,
    div_lt_div_iff_of_pos_right (two_pos : (0 : ℝ) < 2), Int.cast_lt]

/-! ### Concrete cases -/

/-- Magnitudes 3.0, 3.1, 3.1, 4.0 and 2.5 in steps of 0.1, completeness magnitudes 2.95 since 1990 and 3.45 since 1950. -/
example : ∃ E : List Row,
    Completeness.completeEvents ([30, 31, 31, 40, 25].map fun k : ℤ => (k : ℝ) * (((10 : ℕ) : ℝ) / 100)) [2000, 1995, 1980, 1960, 2001]
      ([(29, 1990), (34, 1950)].map fun t : ℤ × ℝ => (((t.1 : ℝ) + 1 / 2) * (((10 : ℕ) : ℝ) / 100), t.2)) ((((40 : ℤ) : ℝ) + 1 / 2) * (((10 : ℕ) : ℝ) / 100))
      (((10 : ℕ) : ℝ) / 100) = .ok E ∧
    Double.completeEvents ([30, 31, 31, 40, 25].map fun k : ℤ => rnd ((k : ℝ) * (((10 : ℕ) : ℝ) / 100))) [2000, 1995, 1980, 1960, 2001]
      ([(29, 1990), (34, 1950)].map fun t : ℤ × ℝ => (rnd (((t.1 : ℝ) + 1 / 2) * (((10 : ℕ) : ℝ) / 100)), t.2))
      (rnd ((((40 : ℤ) : ℝ) + 1 / 2) * (((10 : ℕ) : ℝ) / 100))) (rnd (((10 : ℕ) : ℝ) / 100)) = .ok (E.map fun r => { r with edge := rnd r.edge }) :=
  C123_bins 10 (by norm_num) (by norm_num) 29 1990 [(34, 1950)] [30, 31, 31, 40, 25] [2000, 1995, 1980, 1960, 2001] 40 (by norm_num)
    (by simp) (by simp) (by norm_num)

/-- A sub-catalogue that is not empty: magnitudes 3.0 and 3.1 with completeness magnitude 3.0. -/
example : Completeness.subCatalogue ([30, 31].map fun k : ℤ => rnd ((k : ℝ) * (1 / 10))) [2000, 1995]
    ([(60, 1990)].map fun t : ℤ × ℝ => (rnd ((t.1 : ℝ) / 2 * (1 / 10)), t.2)) 0 = [rnd (31 / 10)] := by
  rw [C123_sub_catalogues (1 / 10) (by norm_num) [30, 31] [2000, 1995] [(60, 1990)] (by simp) (by simp) 0 (by norm_num)]
  unfold Completeness.subCatalogue Completeness.insertion mask
  norm_num [List.filterMap_cons]

/-- C123, defect: with the completeness magnitude 3.0, on the magnitudes' grid, an event of magnitude 3.3 is counted in the bin that starts at 3.2, because the edge
3.3 that `arange` computes is 3.3000000000000003; in exact arithmetic it is counted in the bin that starts at 3.3. -/
theorem C123_defect_edge :
    Completeness.completeEvents [33 / 10] [2000] [(3, 1990)] (7 / 2) (1 / 10) = .ok [⟨33 / 10, 1990, 1⟩] ∧
      Double.completeEvents [rnd (33 / 10)] [2000] [(3, 1990)] (7 / 2) (rnd (1 / 10)) = .ok [⟨rnd (32 / 10), 1990, 1⟩] := by
  have hgroups : ∀ e : ℝ, Completeness.groups [(e, 1990)] = [⟨e, 1990, 1⟩] := fun e => by
    unfold Completeness.groups
    simp
  have hcomp : ∀ m : ℝ, 3 < m → Completeness.complete [m] [2000] [(3, 1990)] = [(m, 1990)] := fun m hm => by
    have hst : Completeness.startYear [(3, 1990)] m = 1990 := by
      unfold Completeness.startYear
      rw [List.countP_cons_of_pos (by simpa using hm)]
      rfl
    unfold Completeness.complete
    rw [List.zip_cons_cons, List.filterMap_cons, hst]
    norm_num
  have e1 : rnd (1 / 10) = 7205759403792794 * (2 : ℝ) ^ (-56 : ℤ) := by
    have := Double.rnd_eq_of (x := 1 / 10) 7205759403792794 (-56) (by norm_num) (by norm_num) (by norm_num [abs_lt])
    exact_mod_cast this
  have e33 : rnd (33 / 10) = 7430939385161318 * (2 : ℝ) ^ (-51 : ℤ) := by
    have := Double.rnd_eq_of (x := 33 / 10) 7430939385161318 (-51) (by norm_num) (by norm_num) (by norm_num [abs_lt])
    exact_mod_cast this
  constructor
  · unfold Completeness.completeEvents
    rw [hcomp _ (by norm_num)]
    have hcut : Completeness.cutLeft (arange (([(3, 1990)] : List (ℝ × ℝ)).getD 0 (0, 0)).1 (7 / 2 + 1 / 100) (1 / 10)) (33 / 10) = .ok (33 / 10) := by
      change Completeness.cutLeft (arange 3 _ _) _ = _
      rw [cutLeft_arange _ _ _ _ _ (by norm_num)]
      refine ⟨3, ?_, by norm_num, by norm_num, by norm_num⟩
      have : (4 : ℤ) < ⌈((7 : ℝ) / 2 + 1 / 100 - 3) / (1 / 10)⌉ := by
        rw [Int.lt_ceil]; norm_num
      omega
    dsimp only
    rw [List.mapM_cons, List.mapM_nil, hcut]
    change Except.ok _ = _
    rw [hgroups]
  · have h3 : (3 : ℝ) < rnd (33 / 10) := by rw [e33]; norm_num
    unfold Double.completeEvents
    rw [hcomp _ h3]
    have hcut : Double.cutLabel (Double.arange (([(3, 1990)] : List (ℝ × ℝ)).getD 0 (0, 0)).1 (Double.add (7 / 2) (rnd (1 / 100))) (rnd (1 / 10)))
        (rnd (33 / 10)) = .ok (rnd (32 / 10)) := by
      change Double.cutLabel (Double.arange 3 _ _) _ = _
      set D : ℝ := 1 / 10 with hDd
      have hD : 0 < D := by norm_num [hDd]
      set t := Double.add (7 / 2) (rnd (1 / 100)) with ht
      have hs' : |(3 : ℝ) - 30 * D| ≤ D / 10 ^ 9 := by norm_num [hDd]
      have ht' : |t - (351 / 10) * D| ≤ D / 100 := by
        have h2 := rnd_lt_err (x := 1 / 100) (e := 1) (by norm_num [abs_le])
        have h3 : |7 / 2 + rnd (1 / 100) - (351 / 10) * D| ≤ 1 * (12 / 10 ^ 17) := by
          have e : 7 / 2 + rnd (1 / 100) - (351 / 10) * D = rnd (1 / 100) - 1 / 100 := by rw [hDd]; ring
          rw [e]; exact h2
        have := Double.rnd_close (c := 4) h3 (by rw [hDd, abs_of_pos (by norm_num)]; norm_num)
        change |rnd _ - _| ≤ _
        refine this.trans ?_
        norm_num [hDd]
      have hq := Double.arange_quot hD (A := 30) (B := 351 / 10) (hs'.trans (by norm_num [hDd])) ht' (by norm_num [abs_le])
      rw [abs_le] at hq
      have hn : Double.arangeLen 3 t (rnd D) = 6 := by
        have : ⌈Double.div (Double.sub t 3) (rnd D)⌉ = 6 := by
          rw [Int.ceil_eq_iff]
          push_cast
          constructor <;> linarith [hq.1, hq.2]
        unfold Double.arangeLen
        rw [this]
        rfl
      set E : ℕ → ℝ := fun i : ℕ => if i = 0 then 3 else if i = 1 then Double.add 3 (rnd D) else Double.add 3 (Double.mul i (Double.sub (Double.add 3 (rnd D)) 3)) with hE
      have hEn : ∀ i, i < 6 → |E i - (30 + i) * D| ≤ D * (3 / 10 ^ 6) := fun i hi =>
        Double.arange_fine hD hs' (by norm_num [abs_le]) i (by
          have : (i : ℝ) ≤ 6 := by exact_mod_cast hi.le
          linarith)
      have hE3 : rnd (33 / 10) < E 3 := by
        have d1 : Double.add 3 (rnd D) = 6980579422424269 * (2 : ℝ) ^ (-51 : ℤ) := by
          unfold Double.add
          rw [e1]
          have := Double.rnd_eq_of (x := 3 + 7205759403792794 * (2 : ℝ) ^ (-56 : ℤ)) 6980579422424269 (-51) (by norm_num) (by norm_num) (by norm_num [abs_lt])
          exact_mod_cast this
        have d2 : Double.sub (Double.add 3 (rnd D)) 3 = 7205759403792800 * (2 : ℝ) ^ (-56 : ℤ) := by
          unfold Double.sub
          rw [d1]
          have := Double.rnd_eq_of (x := 6980579422424269 * (2 : ℝ) ^ (-51 : ℤ) - 3) 7205759403792800 (-56) (by norm_num) (by norm_num) (by norm_num [abs_lt])
          exact_mod_cast this
        have d3 : Double.mul 3 (7205759403792800 * (2 : ℝ) ^ (-56 : ℤ)) = 5404319552844600 * (2 : ℝ) ^ (-54 : ℤ) := by
          unfold Double.mul
          have := Double.rnd_eq_of (x := 3 * (7205759403792800 * (2 : ℝ) ^ (-56 : ℤ))) 5404319552844600 (-54) (by norm_num) (by norm_num) (by norm_num [abs_lt])
          exact_mod_cast this
        have d4 : Double.add 3 (5404319552844600 * (2 : ℝ) ^ (-54 : ℤ)) = 7430939385161319 * (2 : ℝ) ^ (-51 : ℤ) := by
          unfold Double.add
          have := Double.rnd_eq_of (x := 3 + 5404319552844600 * (2 : ℝ) ^ (-54 : ℤ)) 7430939385161319 (-51) (by norm_num) (by norm_num) (by norm_num [abs_lt])
          exact_mod_cast this
        have : E 3 = 7430939385161319 * (2 : ℝ) ^ (-51 : ℤ) := by
          change Double.add 3 (Double.mul ((3 : ℕ) : ℝ) (Double.sub (Double.add 3 (rnd D)) 3)) = _
          rw [d2, Nat.cast_ofNat, d3, d4]
        rw [this, e33]
        norm_num
      have hcmp : ∀ i, i < 6 → (E i ≤ rnd (33 / 10) ↔ i < 3) := by
        intro i hi
        have h1 := abs_le.1 (hEn i hi)
        constructor
        · intro h
          by_contra hc
          rcases Nat.lt_or_ge 3 i with h4 | h4
          · have : (4 : ℝ) ≤ i := by exact_mod_cast h4
            rw [e33] at h
            norm_num [hDd] at h h1
            linarith [h1.1]
          · have : i = 3 := by omega
            subst this
            linarith
        · intro h
          have : (i : ℝ) ≤ 2 := by exact_mod_cast (by omega : i ≤ 2)
          rw [e33]
          norm_num [hDd] at h1 ⊢
          linarith [h1.2]
      have hmapped : ((List.range 6).map E).map (Double.roundFrac 3) = (List.range 6).map fun i : ℕ => rnd (((2 * (30 + i) : ℤ) : ℝ) / 2 * D) := by
        rw [List.map_map]
        apply List.map_congr_left
        intro i hi
        have hi' := List.mem_range.1 hi
        have e : ((2 * (30 + i) : ℤ) : ℝ) / 2 * D = ((100 * (30 + i) : ℤ) : ℝ) / 1000 := by rw [hDd]; push_cast; ring
        rw [e]
        apply Double.roundFrac_eq
        · rw [← e]
          have h1 := hEn i hi'
          have e2 : (30 + (i : ℝ)) * D = ((2 * (30 + i) : ℤ) : ℝ) / 2 * D := by push_cast; ring
          rw [e2] at h1
          refine h1.trans ?_
          norm_num [hDd]
        · rw [abs_le]; constructor <;> omega
        · rw [le_abs]; left; omega
      have hprec : Double.inferPrecision ((List.range 6).map E) = 3 := by
        have hnd : (((List.range 6).map E).map (Double.roundFrac 3)).Nodup := by
          rw [hmapped]
          apply List.Nodup.map_on _ List.nodup_range
          intro x hx y hy hxy
          rw [List.mem_range] at hx hy
          rcases lt_trichotomy x y with h | h | h
          · have := (Double.half_lt hD (u := 2 * (30 + x)) (v := 2 * (30 + y)) (abs_le.2 ⟨by omega, by omega⟩) (abs_le.2 ⟨by omega, by omega⟩)).2 (by omega)
            rw [hxy] at this
            exact absurd this (lt_irrefl _)
          · exact h
          · have := (Double.half_lt hD (u := 2 * (30 + y)) (v := 2 * (30 + x)) (abs_le.2 ⟨by omega, by omega⟩) (abs_le.2 ⟨by omega, by omega⟩)).2 (by omega)
            rw [hxy] at this
            exact absurd this (lt_irrefl _)
        unfold Double.inferPrecision
        rw [List.range'_succ, List.find?_cons_of_pos (by exact decide_eq_true hnd)]
        rfl
      have hcount : ((List.range 6).map E).countP (fun e => decide (e ≤ rnd (33 / 10))) = 3 := by
        rw [List.countP_map]
        have : (List.range 6).countP ((fun e => decide (e ≤ rnd (33 / 10))) ∘ E) = (List.range 6).countP fun i => decide (i < 3) := by
          apply List.countP_congr
          intro i hi
          simp only [Function.comp, decide_eq_true_eq]
          exact hcmp i (List.mem_range.1 hi)
        rw [this, Double.countP_range_lt]
        rfl
      have hedges : Double.arange 3 t (rnd D) = (List.range 6).map E := by
        unfold Double.arange
        rw [hn]
      rw [hedges]
      unfold Double.cutLabel Double.labels
      rw [hcount, hprec, hmapped]
      dsimp only
      rw [if_neg (by rw [List.length_map, List.length_range]; omega)]
      rw [List.getD_eq_getElem _ _ (by rw [List.length_map, List.length_range]; norm_num), List.getElem_map, List.getElem_range]
      congr 2
      rw [hDd]
      norm_num
    dsimp only
    rw [List.mapM_cons, List.mapM_nil, hcut]
    change Except.ok _ = _
    rw [hgroups]

end
end Props
end SeismoStats
