/-
Property C92: b-positive and b-more-positive in double precision.
-/
import Verif.Model.DoublePositive
import Verif.Props.DoubleBValue

namespace SeismoStats.Props
open SeismoStats SeismoStats.Spec.Double SeismoStats.BValue
open SeismoStats.Double (rnd rnd_err rnd_pos rnd_rnd Near unit unit_pos Accurate)
open Classical
noncomputable section

/-- Result of a call of one of the two classes for arbitrary input. -/
theorem positive_all {c : Cls} (hc : c = .positive ∨ c = .morePositive) (warn : Bool) (s : State) (a : Args) (hδ : 1 / 10 ^ 12 ≤ a.δ) :
    (calculate c warn s a).2 = if cutoff a < 0 then .error .valueError else
      (checkBinning a.mags a.δ >>= fun _ => checkWeights a.mags.length a.weights >>= fun _ => gatherOpt a.times (usedIdx a) >>= fun _ =>
        if usedIdx a = [] then .ok .nan else pairResult a (diffsOf a (pairsOf c a))) := by
  by_cases hd : cutoff a < 0
  · rw [if_pos hd]
    unfold cutoff at hd
    unfold calculate
    rcases hc with rfl | rfl <;> simp only [hd, if_true]
  rw [if_neg hd]
  have hd' : 0 ≤ cutoff a := not_lt.1 hd
  have hbn : binnable c a.δ := by
    rcases hc with rfl | rfl
    · exact Or.inr hδ
    · exact hδ
  have e : ∃ w, calculate c warn s a = baseCalculate c warn { s with times := a.times, dmc := some (a.dmc.getD a.δ), warned := w } a := by
    unfold cutoff at hd
    unfold calculate
    rcases hc with rfl | rfl <;> exact ⟨_, by simp only [hd, if_false]; rfl⟩
  by_cases hv : Valid a
  · rw [hv.bin, hv.wts]
    dsimp only [bind, Except.bind]
    cases ht : gatherOpt a.times (usedIdx a) with
    | ok t =>
      dsimp only
      by_cases he : usedIdx a = []
      · rw [if_pos he]
        obtain ⟨s', h1, -⟩ := run_empty hc warn s a hv hd' he
        rw [h1]
      · rw [if_neg he]
        obtain ⟨s', h1, -⟩ := run_nonempty hc warn s a hv hd' he ht hbn
        rw [h1]
    | error er =>
      dsimp only
      obtain ⟨w, e⟩ := e
      rw [e]
      unfold baseCalculate sanityChecks
      simp only [Option.getD_some]
      rw [hv.bin]
      dsimp only
      rw [hv.wts]
      dsimp only
      unfold filterMagnitudes
      simp only [Option.getD_some]
      have hwt : ∃ x, gatherOpt a.weights (usedIdx a) = .ok x := by
        cases hw : a.weights with
        | none => exact ⟨_, rfl⟩
        | some l =>
          have hl := hv.wts
          rw [hw] at hl
          have hl := (checkWeights_ok.1 hl).1
          refine ⟨some ((usedIdx a).map fun i => l.getD i 0), ?_⟩
          have : gather l (usedIdx a) = .ok ((usedIdx a).map fun i => l.getD i 0) := by
            unfold gather
            have hlt : ∀ i ∈ usedIdx a, i < l.length := by
              intro i hi
              unfold usedIdx BValue.selIdx at hi
              rw [List.mem_filter, List.mem_range] at hi
              omega
            generalize usedIdx a = q at hlt
            induction q with
            | nil => rfl
            | cons i r ih =>
              rw [List.mapM_cons, List.getElem?_eq_getElem (hlt i (by simp)), ih fun j hj => hlt j (by simp [hj])]
              dsimp only [bind, Except.bind, pure, Except.pure]
              rw [List.map_cons, List.getD_eq_getElem _ _ (hlt i (by simp))]
          show (gather l (usedIdx a)).map some = _
          rw [this]
          rfl
      obtain ⟨x, hx⟩ := hwt
      have hx' : gatherOpt a.weights (BValue.selIdx a.mags a.mc a.δ) = .ok x := hx
      have ht' : gatherOpt a.times (BValue.selIdx a.mags a.mc a.δ) = .error er := ht
      rw [hx']
      dsimp only
      rw [ht']
  · obtain ⟨w, e⟩ := e
    rw [e]
    unfold baseCalculate sanityChecks
    simp only [Option.getD_some]
    cases h1 : checkBinning a.mags a.δ with
    | error e => rfl
    | ok u =>
      cases h2 : checkWeights a.mags.length a.weights with
      | error e => rfl
      | ok v => exact absurd ⟨h1, h2⟩ hv

/-- The position on the grid of event `i`. -/
def posOf (ks : List (Option ℤ)) (i : ℕ) : ℤ := (ks.getD i none).getD 0

theorem onGrid_multiple {δ : ℝ} (hδ : 0 < δ) (k : ℤ) : onGrid δ (k * δ) = k * δ := by
  unfold onGrid
  rw [if_pos hδ]
  exact binTo_int_mul hδ.ne' k

/-- The agreement of the mle for differences, also if there is none. -/
theorem mleAll_agrees {N : Double.Np} {h : ℕ → ℕ} {η : ℝ} (hN : Accurate N h η) (hη : η ≤ 1 / 16) {D R : ℝ} (hD : 0 < D) (hR1 : 1 ≤ R) (hR : R ≤ 10 ^ 13)
    (ks : List ℤ) {H : ℕ} (hH : h ks.length ≤ H) (hH2 : H ≤ 10 ^ 13) (c : ℤ) (hck : ∀ k ∈ ks, c ≤ k) (hk : ∀ k ∈ ks, |(k : ℝ)| ≤ R)
    (hc : |(c : ℝ)| ≤ R) (w : Option (List ℝ)) (hw : ∀ l, w = some l → l.length = ks.length ∧ ∀ v ∈ l, 0 ≤ v) :
    Agrees (bError R H η) (Double.mleAll N (ks.map fun k : ℤ => rnd (k * D)) (rnd (c * D)) (rnd D) w) (mleEstimator (ks.map fun k : ℤ => (k : ℝ) * D) (c * D) D w) := by
  unfold Double.mleAll
  by_cases hne : ks = []
  · subst hne
    simp only [List.map_nil, if_true]
    cases w with
    | none => rw [mle_nil]; exact Or.inr ⟨rfl, fun b hb => nomatch hb⟩
    | some l =>
      have : l = [] := List.length_eq_zero_iff.1 (hw l rfl).1
      subst this
      have := mle_zero [] (c * D) D rfl
      simp only [List.map_nil] at this
      rw [this]
      exact Or.inr ⟨rfl, fun b hb => nomatch hb⟩
  · rw [if_neg (by simpa using hne)]
    have habs : ∀ k : ℤ, |(k : ℝ)| ≤ R → |0 + (k : ℝ) * D| ≤ R * D := by
      intro k hk
      rw [zero_add, abs_mul, abs_of_pos hD]
      exact mul_le_mul_of_nonneg_right hk hD.le
    have := mle_agrees hN hη hD hR1 hR ks hne hH hH2 c (O := 0) hck (fun k hkk => habs k (hk k hkk)) (habs c hc) w hw
    simpa only [zero_add] using this

theorem diff_double {α : Type} (o : List α) (m : α → ℝ) : Double.diff (o.map m) = (List.zip o o.tail).map fun p => Double.sub (m p.2) (m p.1) := by
  unfold Double.diff
  rw [← List.map_tail]
  generalize o.tail = r
  induction o generalizing r with
  | nil => simp
  | cons a o ih =>
    cases r with
    | nil => simp
    | cons b r => simp [ih r]

theorem tail_map_zip {β : Type} (f : ℕ → β) (o : List ℕ) : (o.map f).tail = (List.zip o o.tail).map fun p => f p.2 := by
  rw [← List.map_tail]
  conv_lhs => rw [← zip_tail_snd o]
  rw [List.map_map]; rfl

/-- The grid data of a call. -/
structure GridData (ks : List (Option ℤ)) (j p : ℕ) (R : ℝ) (o : List ℕ) : Prop where
  hj : (10 : ℝ) ^ p ≤ j * 10 ^ 12
  hp : p ≤ 12
  hR1 : 1 ≤ R
  hR : R ≤ 10 ^ 12
  hk : ∀ i ∈ o, |(posOf ks i : ℝ) * ((j : ℝ) / 10 ^ p)| ≤ 8
  hkR : ∀ i ∈ o, |(posOf ks i : ℝ)| ≤ R

theorem GridData.D_pos {ks : List (Option ℤ)} {j p : ℕ} {R : ℝ} {o : List ℕ} (h : GridData ks j p R o) : (0 : ℝ) < (j : ℝ) / 10 ^ p := by
  have := h.hj
  have h1 : (0 : ℝ) < 10 ^ p := by positivity
  have : (0 : ℝ) < j := by nlinarith
  positivity

theorem GridData.eps_le {ks : List (Option ℤ)} {j p : ℕ} {R : ℝ} {o : List ℕ} (h : GridData ks j p R o) : Double.eps ≤ rnd ((j : ℝ) / 10 ^ p) := by
  apply Double.rnd_mono
  rw [div_le_div_iff₀ (by positivity) (by positivity)]
  have := h.hj
  linarith

/-- A difference in double precision, after binning. -/
theorem GridData.binned {ks : List (Option ℤ)} {j p : ℕ} {R : ℝ} {o : List ℕ} (h : GridData ks j p R o) {x y : ℕ} (hx : x ∈ o) (hy : y ∈ o) :
    Double.binTo (rnd ((j : ℝ) / 10 ^ p)) p (Double.sub (rnd (posOf ks y * ((j : ℝ) / 10 ^ p))) (rnd (posOf ks x * ((j : ℝ) / 10 ^ p)))) =
      rnd ((posOf ks y - posOf ks x : ℤ) * ((j : ℝ) / 10 ^ p)) := by
  have hD := h.D_pos
  have hP : (0 : ℝ) < 10 ^ p := by positivity
  have hP2 : (10 : ℝ) ^ p ≤ 10 ^ 12 := pow_le_pow_right₀ (by norm_num) h.hp
  have hj0 : (0 : ℝ) < j := by
    have := mul_pos hD hP
    rwa [div_mul_cancel₀ _ hP.ne'] at this
  have hj1 : 1 ≤ j := by exact_mod_cast hj0
  have ab : ∀ i ∈ o, |0 + (posOf ks i : ℝ) * ((j : ℝ) / 10 ^ p)| ≤ 10 ^ 13 * ((j : ℝ) / 10 ^ p) := by
    intro i hi
    rw [zero_add, abs_mul, abs_of_pos hD]
    exact mul_le_mul_of_nonneg_right ((h.hkR i hi).trans (h.hR.trans (by norm_num))) hD.le
  have hn := diff_err hD (ab x hx) (ab y hy)
  simp only [zero_add] at hn
  apply binTo_near _ (posOf ks y - posOf ks x) j p hj1
  · have bj : ∀ i ∈ o, |(posOf ks i : ℝ)| * j ≤ 8 * 10 ^ 12 := by
      intro i hi
      have := h.hk i hi
      rw [abs_mul, abs_of_pos hD, ← mul_div_assoc, div_le_iff₀ hP] at this
      nlinarith
    have t : |((posOf ks y - posOf ks x : ℤ) : ℝ)| ≤ |(posOf ks y : ℝ)| + |(posOf ks x : ℝ)| := by push_cast; exact abs_sub _ _
    have a := bj x hx
    have b := bj y hy
    calc |((posOf ks y - posOf ks x : ℤ) : ℝ)| * j ≤ (|(posOf ks y : ℝ)| + |(posOf ks x : ℝ)|) * j := mul_le_mul_of_nonneg_right t hj0.le
      _ = |(posOf ks y : ℝ)| * j + |(posOf ks x : ℝ)| * j := by ring
      _ ≤ 10 ^ 14 := by linarith
  · push_cast
    linarith

/-- The comparison of a difference with the cut-off. -/
theorem GridData.larger {ks : List (Option ℤ)} {j p : ℕ} {R : ℝ} {o : List ℕ} (h : GridData ks j p R o) {x y : ℕ} (hx : x ∈ o) (hy : y ∈ o) {c : ℤ}
    (hc : |(c : ℝ)| ≤ R) :
    (Double.threshold (rnd (c * ((j : ℝ) / 10 ^ p))) (rnd ((j : ℝ) / 10 ^ p)) ≤
      Double.sub (rnd (posOf ks y * ((j : ℝ) / 10 ^ p))) (rnd (posOf ks x * ((j : ℝ) / 10 ^ p)))) ↔ c ≤ posOf ks y - posOf ks x := by
  have hD := h.D_pos
  have ab : ∀ i ∈ o, |0 + (posOf ks i : ℝ) * ((j : ℝ) / 10 ^ p)| ≤ 10 ^ 13 * ((j : ℝ) / 10 ^ p) := by
    intro i hi
    rw [zero_add, abs_mul, abs_of_pos hD]
    exact mul_le_mul_of_nonneg_right ((h.hkR i hi).trans (h.hR.trans (by norm_num))) hD.le
  have := C81_difference 0 _ hD _ _ c (ab x hx) (ab y hy) (hc.trans (h.hR.trans (by norm_num)))
  simpa only [zero_add] using this

/-- The differences used by b-positive. -/
theorem positive_double {ks : List (Option ℤ)} {j p : ℕ} {R : ℝ} {o : List ℕ} (h : GridData ks j p R o) (N : Double.Np) {c : ℤ} (hc : |(c : ℝ)| ≤ R)
    (w : Option (List ℝ)) (mag : ℕ → ℝ) (hm : ∀ i, mag i = posOf ks i * ((j : ℝ) / 10 ^ p)) :
    Double.estimatePositive N (o.map fun i => rnd (posOf ks i * ((j : ℝ) / 10 ^ p))) (rnd (c * ((j : ℝ) / 10 ^ p))) (rnd ((j : ℝ) / 10 ^ p)) p
        (w.map fun l => o.map fun i => l.getD i 0) =
      Double.mleAll N (((growing mag (c * ((j : ℝ) / 10 ^ p) - (j : ℝ) / 10 ^ p / 2) o).map fun q => posOf ks q.2 - posOf ks q.1).map
          fun k : ℤ => rnd (k * ((j : ℝ) / 10 ^ p))) (rnd (c * ((j : ℝ) / 10 ^ p))) (rnd ((j : ℝ) / 10 ^ p))
        (w.map fun l => (growing mag (c * ((j : ℝ) / 10 ^ p) - (j : ℝ) / 10 ^ p / 2) o).map fun q => l.getD q.2 0) := by
  have hD := h.D_pos
  have hmem : ∀ q ∈ List.zip o o.tail, q.1 ∈ o ∧ q.2 ∈ o := fun q hq =>
    ⟨(List.of_mem_zip hq).1, List.mem_of_mem_tail (List.of_mem_zip hq).2⟩
  have hfil : ∀ q ∈ List.zip o o.tail,
      (decide (Double.threshold (rnd (c * ((j : ℝ) / 10 ^ p))) (rnd ((j : ℝ) / 10 ^ p)) ≤
        Double.sub (rnd (posOf ks q.2 * ((j : ℝ) / 10 ^ p))) (rnd (posOf ks q.1 * ((j : ℝ) / 10 ^ p)))) : Bool) =
      decide (c * ((j : ℝ) / 10 ^ p) - (j : ℝ) / 10 ^ p / 2 ≤ mag q.2 - mag q.1) := by
    intro q hq
    apply decide_eq_decide.2
    rw [h.larger (hmem q hq).1 (hmem q hq).2 hc, hm, hm]
    set D := (j : ℝ) / 10 ^ p
    constructor
    · intro hh
      have : (c : ℝ) ≤ posOf ks q.2 - posOf ks q.1 := by exact_mod_cast hh
      nlinarith [mul_le_mul_of_nonneg_right this hD.le]
    · intro hh
      by_contra hlt
      push Not at hlt
      have : ((posOf ks q.2 - posOf ks q.1 : ℤ) : ℝ) + 1 ≤ c := by exact_mod_cast hlt
      push_cast at this
      nlinarith [mul_le_mul_of_nonneg_right this hD.le]
  have hgrow : (List.zip o o.tail).filter (fun q => decide (Double.threshold (rnd (c * ((j : ℝ) / 10 ^ p))) (rnd ((j : ℝ) / 10 ^ p)) ≤
        Double.sub (rnd (posOf ks q.2 * ((j : ℝ) / 10 ^ p))) (rnd (posOf ks q.1 * ((j : ℝ) / 10 ^ p))))) =
      growing mag (c * ((j : ℝ) / 10 ^ p) - (j : ℝ) / 10 ^ p / 2) o := by
    unfold growing
    exact List.filter_congr hfil
  unfold Double.estimatePositive
  rw [if_neg (not_lt.2 h.eps_le)]
  dsimp only
  rw [diff_double, List.map_map, List.map_map]
  have e1 : mask ((List.zip o o.tail).map (Double.binTo (rnd ((j : ℝ) / 10 ^ p)) p ∘ fun q : ℕ × ℕ =>
        Double.sub (rnd (posOf ks q.2 * ((j : ℝ) / 10 ^ p))) (rnd (posOf ks q.1 * ((j : ℝ) / 10 ^ p)))))
      ((List.zip o o.tail).map ((fun d => decide (Double.threshold (rnd (c * ((j : ℝ) / 10 ^ p))) (rnd ((j : ℝ) / 10 ^ p)) ≤ d)) ∘ fun q : ℕ × ℕ =>
        Double.sub (rnd (posOf ks q.2 * ((j : ℝ) / 10 ^ p))) (rnd (posOf ks q.1 * ((j : ℝ) / 10 ^ p))))) =
      ((growing mag (c * ((j : ℝ) / 10 ^ p) - (j : ℝ) / 10 ^ p / 2) o).map fun q => posOf ks q.2 - posOf ks q.1).map
          fun k : ℤ => rnd (k * ((j : ℝ) / 10 ^ p)) := by
    rw [mask_map]
    have := hgrow
    simp only [Function.comp_def] at this ⊢
    rw [this, List.map_map]
    apply List.map_congr_left
    intro q hq
    have hq' := hmem q (List.mem_of_mem_filter hq)
    exact h.binned hq'.1 hq'.2
  rw [e1]
  congr 1
  cases w with
  | none => rfl
  | some l =>
    simp only [Option.map_some, Option.some.injEq]
    rw [tail_map_zip, mask_map]
    have := hgrow
    simp only [Function.comp_def] at this ⊢
    rw [this]

/-- The differences used by b-more-positive. -/
theorem morePositive_double {ks : List (Option ℤ)} {j p : ℕ} {R : ℝ} {o : List ℕ} (h : GridData ks j p R o) (N : Double.Np) {c : ℤ} (hc : |(c : ℝ)| ≤ R)
    (w : Option (List ℝ)) (mag : ℕ → ℝ) (hm : ∀ i, mag i = posOf ks i * ((j : ℝ) / 10 ^ p)) :
    Double.estimateMorePositive N (o.map fun i => rnd (posOf ks i * ((j : ℝ) / 10 ^ p))) (rnd (c * ((j : ℝ) / 10 ^ p))) (rnd ((j : ℝ) / 10 ^ p)) p
        (w.map fun l => o.map fun i => l.getD i 0) =
      Double.mleAll N (((atRanks o (ranksOf (o.map mag) ((j : ℝ) / 10 ^ p) (c * ((j : ℝ) / 10 ^ p)))).map fun q => posOf ks q.2 - posOf ks q.1).map
          fun k : ℤ => rnd (k * ((j : ℝ) / 10 ^ p))) (rnd (c * ((j : ℝ) / 10 ^ p))) (rnd ((j : ℝ) / 10 ^ p))
        (w.map fun l => (atRanks o (ranksOf (o.map mag) ((j : ℝ) / 10 ^ p) (c * ((j : ℝ) / 10 ^ p)))).map fun q => l.getD q.2 0) := by
  have hD := h.D_pos
  have ab : ∀ k ∈ o.map (posOf ks), |0 + (k : ℝ) * ((j : ℝ) / 10 ^ p)| ≤ 10 ^ 13 * ((j : ℝ) / 10 ^ p) := by
    intro k hk
    obtain ⟨i, hi, rfl⟩ := List.mem_map.1 hk
    rw [zero_add, abs_mul, abs_of_pos hD]
    exact mul_le_mul_of_nonneg_right ((h.hkR i hi).trans (h.hR.trans (by norm_num))) hD.le
  have hnx := C81_next_larger 0 _ hD (o.map (posOf ks)) c (hc.trans (h.hR.trans (by norm_num))) ab
  simp only [zero_add, List.map_map] at hnx
  have hmm : o.map ((fun k : ℤ => (k : ℝ) * ((j : ℝ) / 10 ^ p)) ∘ posOf ks) = o.map mag := by
    apply List.map_congr_left
    intro i _
    exact (hm i).symm
  rw [hmm] at hnx
  set D := (j : ℝ) / 10 ^ p with hDd
  set m := o.map mag with hmdef
  set md := o.map fun i => rnd (posOf ks i * D) with hmd
  have hmd' : o.map ((fun k : ℤ => rnd (k * D)) ∘ posOf ks) = md := rfl
  rw [hmd'] at hnx
  unfold Double.estimateMorePositive
  rw [if_neg (not_lt.2 h.eps_le), hnx]
  dsimp only
  set nxt := findNextLarger m D (some (c * D)) with hnxt
  have hml : m.length = o.length := by simp [hmdef]
  have hmdl : md.length = o.length := by simp [hmd]
  have hl : nxt.length = o.length := by rw [← hml]; exact (C24_find_next_larger m D (some (c * D))).1
  have hn : nxt = (List.range o.length).map fun i => nxt.getD i 0 := by
    rw [← hl]; exact (map_getD_range nxt 0).symm
  have hdz : List.zipWith (fun jj x => Double.sub (md.getD jj 0) x) nxt md =
      (List.range o.length).map fun i => Double.sub (md.getD (nxt.getD i 0) 0) (md.getD i 0) := by
    apply List.ext_getElem
    · simp [hl, hmdl]
    · intro i h1 h2
      have hi : i < o.length := by simpa using h2
      simp only [List.getElem_zipWith, List.getElem_map, List.getElem_range,
        List.getD_eq_getElem _ _ (show i < md.length by omega), List.getD_eq_getElem _ _ (show i < nxt.length by omega)]
  have hhas : (nxt.map fun jj => decide (jj ≠ 0)) = (List.range o.length).map fun i => decide (nxt.getD i 0 ≠ 0) := by
    conv_lhs => rw [hn]
    rw [List.map_map]; rfl
  have hranks : ranksOf m D (c * D) = ((List.range o.length).filter fun i => decide (nxt.getD i 0 ≠ 0)).map fun i => (i, nxt.getD i 0) := by
    unfold ranksOf
    rw [hml]
  have hR := ranksOf_spec m D (c * D)
  have hlt : ∀ r ∈ ranksOf m D (c * D), r.1 < o.length ∧ r.2 < o.length := by
    intro r hr
    have := firstLarger_lt ((hR.mem r.1 r.2).1 hr)
    rwa [hml] at this
  have hget : ∀ i, i < o.length → md.getD i 0 = rnd (posOf ks (o.getD i 0) * D) ∧ o.getD i 0 ∈ o := by
    intro i hi
    rw [List.getD_eq_getElem _ _ (show i < md.length by omega), List.getD_eq_getElem _ _ hi]
    refine ⟨by simp [hmd], List.getElem_mem hi⟩
  rw [hdz, hhas, List.map_map]
  have e1 : mask ((List.range o.length).map (Double.binTo (rnd D) p ∘ fun i => Double.sub (md.getD (nxt.getD i 0) 0) (md.getD i 0)))
      ((List.range o.length).map fun i => decide (nxt.getD i 0 ≠ 0)) =
      ((atRanks o (ranksOf m D (c * D))).map fun q => posOf ks q.2 - posOf ks q.1).map fun k : ℤ => rnd (k * D) := by
    rw [mask_map]
    have e : ((List.range o.length).filter fun i => decide (nxt.getD i 0 ≠ 0)).map
        (Double.binTo (rnd D) p ∘ fun i => Double.sub (md.getD (nxt.getD i 0) 0) (md.getD i 0)) =
        (ranksOf m D (c * D)).map fun r => Double.binTo (rnd D) p (Double.sub (md.getD r.2 0) (md.getD r.1 0)) := by
      rw [hranks, List.map_map]; rfl
    rw [e]
    unfold atRanks
    rw [List.map_map, List.map_map]
    apply List.map_congr_left
    intro r hr
    have h1 := hget _ (hlt r hr).1
    have h2 := hget _ (hlt r hr).2
    rw [h1.1, h2.1]
    exact h.binned h1.2 h2.2
  rw [e1]
  congr 1
  cases w with
  | none => rfl
  | some l =>
    simp only [Option.map_some, Option.some.injEq]
    have hnm : mask nxt ((List.range o.length).map fun i => decide (nxt.getD i 0 ≠ 0)) = (ranksOf m D (c * D)).map Prod.snd := by
      conv_lhs => lhs; rw [hn]
      rw [mask_map, hranks, List.map_map]
      rfl
    rw [hnm]
    unfold atRanks
    rw [List.map_map, List.map_map]
    apply List.map_congr_left
    intro r hr
    have h2 := (hlt r hr).2
    simp only [Function.comp_apply]
    rw [List.getD_eq_getElem _ _ (show r.2 < (o.map fun i => l.getD i 0).length by simpa using h2), List.getD_eq_getElem _ _ h2]
    simp

theorem rnd_neg_iff (x : ℝ) : rnd x < 0 ↔ x < 0 := by
  constructor
  · intro h
    by_contra hn
    have := Double.rnd_mono (not_lt.1 hn)
    rw [rnd_zero'] at this
    linarith
  · intro h
    have := rnd_pos (neg_pos.2 h)
    rw [Double.rnd_neg] at this
    linarith

/-- The pairs whose differences are used: how many, which events, and how large. -/
theorem pairs_facts {cls : Cls} (hcls : cls = .positive ∨ cls = .morePositive) (a : Args) :
    (pairsOf cls a).length ≤ (timeOrder a).length ∧
      ∀ q ∈ pairsOf cls a, q.1 ∈ timeOrder a ∧ q.2 ∈ timeOrder a ∧ cutoff a - a.δ / 2 ≤ magOf a q.2 - magOf a q.1 := by
  rcases hcls with rfl | rfl
  · constructor
    · refine (List.length_filter_le _ _).trans ?_
      simp
    · intro q hq
      obtain ⟨h1, h2⟩ := List.mem_filter.1 hq
      exact ⟨(List.of_mem_zip h1).1, List.mem_of_mem_tail (List.of_mem_zip h1).2, by simpa using h2⟩
  · have hR := ranksOf_spec ((timeOrder a).map (magOf a)) a.δ (cutoff a)
    constructor
    · show (atRanks _ _).length ≤ _
      unfold atRanks ranksOf
      rw [List.length_map, List.length_map]
      refine (List.length_filter_le _ _).trans ?_
      simp
    · intro q hq
      obtain ⟨r, hr, rfl⟩ := List.mem_map.1 hq
      have hf := (hR.mem r.1 r.2).1 hr
      have hlt := firstLarger_lt hf
      rw [List.length_map] at hlt
      obtain ⟨-, ⟨x, y, hx, hy, hxy⟩, -⟩ := hf
      rw [List.getElem?_map, List.getElem?_eq_getElem hlt.1] at hx
      rw [List.getElem?_map, List.getElem?_eq_getElem hlt.2] at hy
      simp only [Option.map_some, Option.some.injEq] at hx hy
      dsimp only
      rw [List.getD_eq_getElem _ _ hlt.1, List.getD_eq_getElem _ _ hlt.2]
      exact ⟨List.getElem_mem _, List.getElem_mem _, by rw [hx, hy]; exact hxy⟩

/-- C92: magnitudes as in C91, in any order of any times, any cut-off `dmc` on the grid (or none), any weights: the estimates of b-positive and
b-more-positive computed in double precision agree with the exact ones up to the relative error `bError (2 R) H η`, and are the same exception, infinity or
NaN where these are. -/
theorem C92_calculate {cls : Cls} (hcls : cls = .positive ∨ cls = .morePositive) {N : Double.Np} {h : ℕ → ℕ} {η : ℝ} (hN : Accurate N h η) (hη : η ≤ 1 / 16)
    (ks : List (Option ℤ)) (j p : ℕ) (hj : (10 : ℝ) ^ p ≤ j * 10 ^ 12) (hp : p ≤ 12) (hk : ∀ k, some k ∈ ks → |(k : ℝ) * ((j : ℝ) / 10 ^ p)| ≤ 8) (c : ℤ)
    (dmc : Option ℤ) {R : ℝ} (hR1 : 1 ≤ R) (hR : R ≤ 10 ^ 12) (hkR : ∀ k, some k ∈ ks → |(k : ℝ)| ≤ R) (hc : |(c : ℝ)| ≤ R)
    (hdmc : ∀ d, dmc = some d → |(d : ℝ)| ≤ R) {H : ℕ} (hH : ∀ n ≤ ks.length, h n ≤ H) (hH2 : H ≤ 10 ^ 13) (times w : Option (List ℝ)) (warn : Bool) (s : State) :
    Agrees (bError (2 * R) H η)
      (Double.calculatePositive N cls (ks.map (Option.map fun k : ℤ => rnd (k * ((j : ℝ) / 10 ^ p)))) (rnd (c * ((j : ℝ) / 10 ^ p))) (rnd ((j : ℝ) / 10 ^ p)) p times
        (dmc.map fun d : ℤ => rnd (d * ((j : ℝ) / 10 ^ p))) w)
      (BValue.calculate cls warn s { mags := ks.map (Option.map fun k : ℤ => (k : ℝ) * ((j : ℝ) / 10 ^ p)), mc := c * ((j : ℝ) / 10 ^ p), δ := (j : ℝ) / 10 ^ p,
                                     weights := w, times := times, dmc := dmc.map fun d : ℤ => (d : ℝ) * ((j : ℝ) / 10 ^ p) }).2 := by
  set D : ℝ := (j : ℝ) / 10 ^ p with hDd
  set a : Args := { mags := ks.map (Option.map fun k : ℤ => (k : ℝ) * D), mc := c * D, δ := D, weights := w, times := times,
                    dmc := dmc.map fun d : ℤ => (d : ℝ) * D } with ha
  have hP : (0 : ℝ) < 10 ^ p := by positivity
  have hj0 : (0 : ℝ) < j := by nlinarith
  have hD : 0 < D := by positivity
  have hD12 : 1 / 10 ^ 12 ≤ D := by
    rw [hDd, div_le_div_iff₀ (by positivity) (by positivity)]
    linarith
  set cd : ℤ := dmc.getD 1 with hcd
  have hcdR : |(cd : ℝ)| ≤ R := by
    rw [hcd]
    cases dmc with
    | none => simpa using hR1
    | some d => exact hdmc d rfl
  have hcut : cutoff a = cd * D := by
    unfold cutoff
    rw [hcd]
    show (dmc.map fun d : ℤ => (d : ℝ) * D).getD D = _
    cases dmc with
    | none => simp
    | some d => rfl
  have hcutd : (dmc.map fun d : ℤ => rnd (d * D)).getD (rnd D) = rnd (cd * D) := by
    rw [hcd]
    cases dmc with
    | none => simp
    | some d => rfl
  rw [positive_all hcls warn s a hD12, hcut]
  unfold Double.calculatePositive
  rw [hcutd]
  by_cases hneg : (cd : ℝ) * D < 0
  · rw [if_pos hneg, if_pos ((rnd_neg_iff _).2 hneg)]
    exact Or.inr ⟨rfl, fun b hb => nomatch hb⟩
  rw [if_neg hneg, if_neg (fun hh => hneg ((rnd_neg_iff _).1 hh))]
  have hbin := checkBinning_same ks j p hj hp hk
  simp only [zero_add] at hbin
  rw [hbin]
  have hlen : (ks.map (Option.map fun k : ℤ => rnd (k * D))).length = a.mags.length := by simp [ha]
  rw [hlen]
  have habs : ∀ k : ℤ, |(k : ℝ)| ≤ R → |0 + (k : ℝ) * D| ≤ 10 ^ 14 * D := by
    intro k hk
    rw [zero_add, abs_mul, abs_of_pos hD]
    exact mul_le_mul_of_nonneg_right (hk.trans (hR.trans (by norm_num))) hD.le
  have hsel := C81_exact_model 0 D hD ks c (fun k hkk => habs k (hkR k hkk)) (habs c hc)
  simp only [zero_add] at hsel
  have hidx : BValue.selIdx (ks.map (Option.map fun k : ℤ => (k : ℝ) * D)) (c * D) D = usedIdx a := rfl
  rw [hsel, hidx]
  cases h1 : BValue.checkBinning a.mags a.δ with
  | error e => exact Or.inr ⟨rfl, fun b hb => nomatch hb⟩
  | ok u =>
    cases h2 : BValue.checkWeights a.mags.length a.weights with
    | error e => exact Or.inr ⟨rfl, fun b hb => nomatch hb⟩
    | ok v =>
      dsimp only [bind, Except.bind]
      cases h3 : gatherOpt a.times (usedIdx a) with
      | error e => exact Or.inr ⟨rfl, fun b hb => nomatch hb⟩
      | ok t =>
        have hv : Valid a := ⟨h1, h2⟩
        dsimp only
        by_cases he : usedIdx a = []
        · rw [if_pos he, if_pos he]
          exact Or.inr ⟨rfl, fun b hb => nomatch hb⟩
        · rw [if_neg he, if_neg he]
          have horder : Double.timeOrder times (usedIdx a) = timeOrder a := rfl
          rw [horder]
          have hsome : ∀ i ∈ timeOrder a, ks.getD i none = some (posOf ks i) ∧ some (posOf ks i) ∈ ks := by
            intro i hi
            have hi' := (timeOrder_perm a).mem_iff.1 hi
            have h4 := magAt_used hi'
            rw [show a.mags.getD i none = (ks.getD i none).map fun k : ℤ => (k : ℝ) * D from getD_option_map ks _ i] at h4
            have hil : i < ks.length := by
              unfold usedIdx BValue.selIdx at hi'
              have := (List.mem_filter.1 hi').1
              simpa [ha] using this
            cases hk4 : ks.getD i none with
            | none => rw [hk4] at h4; cases h4
            | some k =>
              have : posOf ks i = k := by unfold posOf; rw [hk4]; rfl
              rw [this]
              refine ⟨rfl, ?_⟩
              rw [← hk4, List.getD_eq_getElem _ _ hil]
              exact List.getElem_mem hil
          have hmag : ∀ i, magOf a i = posOf ks i * D := by
            intro i
            unfold magOf posOf
            rw [show a.mags.getD i none = (ks.getD i none).map fun k : ℤ => (k : ℝ) * D from getD_option_map ks _ i]
            cases ks.getD i none <;> simp
          have hG : GridData ks j p R (timeOrder a) :=
            ⟨hj, hp, hR1, hR, fun i hi => hk _ (hsome i hi).2, fun i hi => hkR _ (hsome i hi).2⟩
          have hms : ((timeOrder a).map fun i => (ks.map (Option.map fun k : ℤ => rnd (k * D))).getD i none).filterMap id =
              (timeOrder a).map fun i => rnd (posOf ks i * D) := by
            rw [select_map]
            have : ((timeOrder a).map fun i => ks.getD i none) = ((timeOrder a).map (posOf ks)).map some := by
              rw [List.map_map]
              exact List.map_congr_left fun i hi => (hsome i hi).1
            rw [this, filterMap_some_list, List.map_map]
            rfl
          have hest : Double.estimateOrdered N cls (ks.map (Option.map fun k : ℤ => rnd (k * D))) (rnd (cd * D)) (rnd D) p w (timeOrder a) =
              Double.mleAll N (((pairsOf cls a).map fun q => posOf ks q.2 - posOf ks q.1).map fun k : ℤ => rnd (k * D)) (rnd (cd * D)) (rnd D)
                (w.map fun l => (pairsOf cls a).map fun q => l.getD q.2 0) := by
            unfold Double.estimateOrdered
            dsimp only
            rw [hms]
            rcases hcls with rfl | rfl
            · have := positive_double hG N hcdR w (magOf a) hmag
              rw [this]
              unfold pairsOf
              rw [hcut]
            · have := morePositive_double hG N hcdR w (magOf a) hmag
              rw [this]
              unfold pairsOf
              rw [hcut]
          rw [hest]
          have hpf := pairs_facts hcls a
          have hexact : pairResult a (diffsOf a (pairsOf cls a)) =
              mleEstimator (((pairsOf cls a).map fun q => posOf ks q.2 - posOf ks q.1).map fun k : ℤ => (k : ℝ) * D) (cd * D) D
                (w.map fun l => (pairsOf cls a).map fun q => l.getD q.2 0) := by
            unfold pairResult
            rw [hcut]
            congr 1
            · unfold diffsOf
              rw [List.map_map, List.map_map]
              apply List.map_congr_left
              intro q _
              simp only [Function.comp]
              rw [hmag, hmag, show (posOf ks q.2 : ℝ) * D - posOf ks q.1 * D = ((posOf ks q.2 - posOf ks q.1 : ℤ) : ℝ) * D by push_cast; ring]
              exact onGrid_multiple hD _
            · show (if w.isSome then _ else _) = _
              cases hw : w with
              | none => rfl
              | some l => simp [diffsOf, weightOf, ha, hw, Function.comp_def]
          rw [hexact]
          have hordlen : (timeOrder a).length ≤ ks.length := by
            rw [(timeOrder_perm a).length_eq]
            unfold usedIdx BValue.selIdx
            refine (List.length_filter_le _ _).trans ?_
            simp [ha]
          have hmemR : ∀ i ∈ timeOrder a, |(posOf ks i : ℝ)| ≤ R := hG.hkR
          refine mleAll_agrees hN hη hD (by linarith) (by linarith) _ (hH _ (by rw [List.length_map]; exact hpf.1.trans hordlen)) hH2 cd ?_ ?_ (by linarith) _ ?_
          · intro k hkk
            obtain ⟨q, hq, rfl⟩ := List.mem_map.1 hkk
            have h5 := (hpf.2 q hq).2.2
            rw [hcut, hmag, hmag] at h5
            by_contra hlt
            push Not at hlt
            have : ((posOf ks q.2 - posOf ks q.1 : ℤ) : ℝ) + 1 ≤ cd := by exact_mod_cast hlt
            push_cast at this
            have h6 : cd * D - D / 2 ≤ posOf ks q.2 * D - posOf ks q.1 * D := h5
            nlinarith [mul_le_mul_of_nonneg_right this hD.le]
          · intro k hkk
            obtain ⟨q, hq, rfl⟩ := List.mem_map.1 hkk
            have h6 := hmemR _ (hpf.2 q hq).1
            have h7 := hmemR _ (hpf.2 q hq).2.1
            push_cast
            have := abs_sub (posOf ks q.2 : ℝ) (posOf ks q.1)
            linarith
          · intro l hl
            cases w with
            | none => cases hl
            | some w =>
              have hww := checkWeights_ok.1 h2
              obtain rfl := Option.some.inj hl
              refine ⟨by simp, ?_⟩
              intro x hx
              obtain ⟨q, -, rfl⟩ := List.mem_map.1 hx
              rw [List.getD_eq_getElem?_getD]
              cases hi : w[q.2]? with
              | none => simp
              | some v => simpa using hww.2 v (List.mem_of_getElem? hi)

/-- C92 in practice, as `C91_practice`: relative error at most `2 * 10^-12`. -/
theorem C92_practice {cls : Cls} (hcls : cls = .positive ∨ cls = .morePositive) {N : Double.Np} {h : ℕ → ℕ} {η : ℝ} (hN : Accurate N h η) (hη : η ≤ 1 / 10 ^ 15)
    (ks : List (Option ℤ)) (j p : ℕ) (hj : 1 ≤ j) (hp : p ≤ 2) (hk : ∀ k, some k ∈ ks → |(k : ℝ) * ((j : ℝ) / 10 ^ p)| ≤ 8) (c : ℤ)
    (hc : |(c : ℝ) * ((j : ℝ) / 10 ^ p)| ≤ 8) (dmc : Option ℤ) (hdmc : ∀ d, dmc = some d → |(d : ℝ) * ((j : ℝ) / 10 ^ p)| ≤ 8)
    (hH : ∀ n ≤ ks.length, h n ≤ 100) (times w : Option (List ℝ)) (warn : Bool) (s : State) :
    Agrees (2 / 10 ^ 12)
      (Double.calculatePositive N cls (ks.map (Option.map fun k : ℤ => rnd (k * ((j : ℝ) / 10 ^ p)))) (rnd (c * ((j : ℝ) / 10 ^ p))) (rnd ((j : ℝ) / 10 ^ p)) p times
        (dmc.map fun d : ℤ => rnd (d * ((j : ℝ) / 10 ^ p))) w)
      (BValue.calculate cls warn s { mags := ks.map (Option.map fun k : ℤ => (k : ℝ) * ((j : ℝ) / 10 ^ p)), mc := c * ((j : ℝ) / 10 ^ p), δ := (j : ℝ) / 10 ^ p,
                                     weights := w, times := times, dmc := dmc.map fun d : ℤ => (d : ℝ) * ((j : ℝ) / 10 ^ p) }).2 := by
  have hj' : (1 : ℝ) ≤ j := by exact_mod_cast hj
  have hp' : (10 : ℝ) ^ p ≤ 100 := by
    calc (10 : ℝ) ^ p ≤ 10 ^ 2 := pow_le_pow_right₀ (by norm_num) hp
      _ = 100 := by norm_num
  have hP : (0 : ℝ) < 10 ^ p := by positivity
  have hb : ∀ k : ℤ, |(k : ℝ) * ((j : ℝ) / 10 ^ p)| ≤ 8 → |(k : ℝ)| ≤ 800 := by
    intro k hk
    rw [abs_mul, abs_of_pos (by positivity : (0 : ℝ) < j / 10 ^ p), ← mul_div_assoc, div_le_iff₀ hP] at hk
    nlinarith [abs_nonneg (k : ℝ)]
  refine (C92_calculate hcls hN (hη.trans (by norm_num)) ks j p ?_ (by omega) hk c dmc (R := 800) (by norm_num) (by norm_num) (fun k hkk => hb k (hk k hkk)) (hb c hc)
    (fun d hd => hb d (hdmc d hd)) (H := 100) hH (by norm_num) times w warn s).mono ?_
  · nlinarith
  · unfold bError
    norm_num at *
    linarith

/-- Magnitudes 1.0, NaN, 1.3, 0.7, 1.2, 1.4 with bin size 0.1, `mc = 1.0`, default cut-off and times out of order, computed from left to right. -/
example : Agrees (2 / 10 ^ 12)
    (Double.calculatePositive leftToRight .positive ([some 10, none, some 13, some 7, some 12, some 14].map (Option.map fun k : ℤ => rnd (k * (((1 : ℕ) : ℝ) / 10 ^ 1))))
      (rnd ((10 : ℤ) * (((1 : ℕ) : ℝ) / 10 ^ 1))) (rnd (((1 : ℕ) : ℝ) / 10 ^ 1)) 1 (some [5, 0, 3, 2, 9, 4]) ((none : Option ℤ).map fun d : ℤ => rnd (d * (((1 : ℕ) : ℝ) / 10 ^ 1)))
      none)
    (BValue.calculate .positive true State.init
      { mags := [some 10, none, some 13, some 7, some 12, some 14].map (Option.map fun k : ℤ => (k : ℝ) * (((1 : ℕ) : ℝ) / 10 ^ 1)),
        mc := (10 : ℤ) * (((1 : ℕ) : ℝ) / 10 ^ 1), δ := ((1 : ℕ) : ℝ) / 10 ^ 1, weights := none, times := some [5, 0, 3, 2, 9, 4],
        dmc := (none : Option ℤ).map fun d : ℤ => (d : ℝ) * (((1 : ℕ) : ℝ) / 10 ^ 1) }).2 := by
  have hk : ∀ k : ℤ, some k ∈ [some (10 : ℤ), none, some 13, some 7, some 12, some 14] → |(k : ℝ) * (((1 : ℕ) : ℝ) / 10 ^ 1)| ≤ 8 := by
    intro k hk
    simp at hk
    rcases hk with rfl | rfl | rfl | rfl | rfl <;> norm_num [abs_le]
  exact C92_practice (Or.inl rfl) leftToRight_accurate (by norm_num) _ 1 1 (le_refl 1) (by norm_num) hk 10 (by norm_num) none (fun d hd => nomatch hd)
    (by intro n hn; simp at hn ⊢; omega) _ none true State.init

end
end SeismoStats.Props
