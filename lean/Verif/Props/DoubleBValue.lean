/-
Property C91: the b-value in double precision.
-/
import Verif.Proofs.DoubleBValue
import Verif.Props.DoubleTest
import Verif.Props.BValueMle
import Verif.Props.BPositive

namespace SeismoStats.Props
open SeismoStats SeismoStats.Spec.Double SeismoStats.BValue
open SeismoStats.Double (rnd rnd_err rnd_pos rnd_rnd Near unit unit_pos near_zero near_average near_excess near_bin near_ln near_log_p Accurate)
open Classical
noncomputable section

/-- A computed result agrees with the exact one up to the relative error `ε`: both are numbers with this error, the exact one positive, or both are the same
exception, infinity or NaN. -/
def Agrees (ε : ℝ) (x y : Py (Fl ℝ)) : Prop :=
  (∃ a b, x = .ok (.fin a) ∧ y = .ok (.fin b) ∧ 0 < b ∧ |a - b| ≤ ε * b) ∨ (x = y ∧ ∀ b, y ≠ .ok (.fin b))

/-- The relative error of the estimates: `R` is the largest magnitude in bins, `H` the number of additions on top of each other in a sum, `η` the relative
error of the logarithm. -/
def bError (R : ℝ) (H : ℕ) (η : ℝ) : ℝ := (9 * R + 4 * H + 22) * (12 / 10 ^ 17) + 8 * η

theorem agrees_of_near {θ ε a b : ℝ} (hb : 0 < b) (h0 : 0 ≤ θ) (h1 : θ ≤ 1) (h : Near θ a b) (hε : 2 * θ ≤ ε) : Agrees ε (.ok (.fin a)) (.ok (.fin b)) := by
  left
  refine ⟨a, b, rfl, rfl, hb, (h.abs hb.le h0 h1).trans (mul_le_mul_of_nonneg_right hε hb.le)⟩

theorem eta_nonneg {N : Double.Np} {h : ℕ → ℕ} {η : ℝ} (hN : Accurate N h η) : 0 ≤ η := by
  have e := hN.ln 10 (by norm_num)
  have hl : 0 < Real.log 10 := Real.log_pos (by norm_num)
  rw [abs_of_pos hl] at e
  by_contra hn
  have := mul_neg_of_neg_of_pos (not_le.1 hn) hl
  linarith [abs_nonneg (N.ln 10 - Real.log 10)]

theorem mle_forms (mags : List ℝ) (mc δ : ℝ) (w : Option (List ℝ)) (A : ℝ) (h : average (mags.map fun m => m - mc) w = .ok (.fin A)) :
    mleEstimator mags mc δ w = .ok (BValue.betaToB (BValue.betaOf A δ)) := by
  unfold mleEstimator
  rw [h]
  rfl

theorem utsu_forms (mags : List ℝ) (mc δ : ℝ) (w : Option (List ℝ)) (A : ℝ) (h : average (mags.map fun m => m - mc + δ / 2) w = .ok (.fin A)) :
    utsuEstimator mags mc δ w = .ok (BValue.betaToB (Fl.div 1 A)) := by
  unfold utsuEstimator
  rw [h]
  rfl

theorem betaOf_zero {D : ℝ} (hD : 0 ≤ D) : BValue.betaOf 0 D = .pinf := by
  unfold BValue.betaOf Fl.div
  by_cases h : 0 < D
  · rw [if_pos h, if_pos rfl, if_neg h.ne', if_pos h]
    rfl
  · rw [if_neg h, if_pos rfl, if_neg one_ne_zero, if_pos one_pos]

/-- The classic estimator applied to magnitudes at or above `mc`, all on a grid, each replaced by its double. -/
theorem mle_agrees {N : Double.Np} {h : ℕ → ℕ} {η : ℝ} (hN : Accurate N h η) (hη : η ≤ 1 / 16) {O D R : ℝ} (hD : 0 < D) (hR1 : 1 ≤ R) (hR : R ≤ 10 ^ 13)
    (ks : List ℤ) (hne : ks ≠ []) {H : ℕ} (hH : h ks.length ≤ H) (hH2 : H ≤ 10 ^ 13) (c : ℤ) (hck : ∀ k ∈ ks, c ≤ k) (hk : ∀ k ∈ ks, |O + k * D| ≤ R * D)
    (hc : |O + c * D| ≤ R * D) (w : Option (List ℝ)) (hw : ∀ l, w = some l → l.length = ks.length ∧ ∀ v ∈ l, 0 ≤ v) :
    Agrees (bError R H η) (Double.mle N (ks.map fun k : ℤ => rnd (O + k * D)) (rnd (O + c * D)) (rnd D) w)
      (mleEstimator (ks.map fun k : ℤ => O + k * D) (O + c * D) D w) := by
  have hη0 := eta_nonneg hN
  have hu := unit_pos.le
  have hH0 : (0 : ℝ) ≤ H := Nat.cast_nonneg _
  have hH3 : (H : ℝ) ≤ 10 ^ 13 := by exact_mod_cast hH2
  have hrel : List.Forall₂ (Near ((2 * R + 1) * unit)) ((ks.map fun k : ℤ => rnd (O + k * D)).map fun m => Double.sub m (rnd (O + c * D)))
      ((ks.map fun k : ℤ => O + k * D).map fun m => m - (O + c * D)) := by
    rw [List.map_map, List.map_map, List.forall₂_map_left_iff, List.forall₂_map_right_iff]
    refine List.forall₂_same.2 fun k hkk => ?_
    have e : ((fun m : ℝ => m - (O + c * D)) ∘ fun k : ℤ => O + k * D) k = (k - c) * D := by simp only [Function.comp]; ring
    rw [e]
    exact near_excess hD hR (hck k hkk) (hk k hkk) hc
  have hy0 : ∀ v ∈ (ks.map fun k : ℤ => O + k * D).map fun m => m - (O + c * D), 0 ≤ v := by
    intro v hv
    simp only [List.map_map, List.mem_map, Function.comp] at hv
    obtain ⟨k, hkk, rfl⟩ := hv
    have : (c : ℝ) ≤ k := by exact_mod_cast hck k hkk
    nlinarith [mul_le_mul_of_nonneg_right this hD.le]
  have hyR : ∀ v ∈ (ks.map fun k : ℤ => O + k * D).map fun m => m - (O + c * D), v ≤ 2 * R * D := by
    intro v hv
    simp only [List.map_map, List.mem_map, Function.comp] at hv
    obtain ⟨k, hkk, rfl⟩ := hv
    have a := abs_le.1 (hk k hkk)
    have b := abs_le.1 hc
    linarith
  rcases near_average hN (H := H) (by simpa using hne) (by simpa using hH) hy0 hrel (by simpa using hw) with ⟨h1, h2⟩ | ⟨A', A, h1, h2, hA0, hA, -, hAM⟩
  · right
    unfold Double.mle mleEstimator
    rw [h1, h2]
    exact ⟨rfl, fun b hb => nomatch hb⟩
  have hAR := hAM _ hyR
  rw [mle_forms _ _ _ _ _ h2]
  unfold Double.mle
  rw [h1]
  dsimp only [bind, Except.bind, pure, Except.pure]
  have hδ' : 0 < rnd D := rnd_pos hD
  unfold Double.betaOf
  rw [if_pos hδ']
  rcases hA0.eq_or_lt with h0 | hApos
  · rw [← h0] at hA ⊢
    rw [if_pos (near_zero.1 hA)]
    right
    rw [betaOf_zero hD.le]
    exact ⟨rfl, fun b hb => nomatch hb⟩
  · rw [if_neg (hA.pos hApos).ne', betaOf_pos hApos]
    have hθ : (2 * R + 1) * unit + (2 * H + 2) * unit = (2 * R + 2 * H + 3) * unit := by ring
    rw [hθ] at hA
    have hθ0 : 0 ≤ (2 * R + 2 * H + 3) * unit := mul_nonneg (by linarith) hu
    have hθ1 : (2 * R + 2 * H + 3) * unit ≤ 1 / 20 := by unfold unit; linarith
    obtain ⟨hp, hln⟩ := near_log_p hN hη hD hApos hR hR1 hAR hθ0 hθ1 hA
    have hq : 0 < D / A := div_pos hD hApos
    have hL : 0 < Real.log (1 + D / A) := Real.log_pos (by linarith)
    have hl10 : 0 < Real.log 10 := Real.log_pos (by norm_num)
    unfold Double.lnFl
    rw [if_pos (by linarith)]
    set v := N.ln (Double.add 1 (Double.div (rnd D) A'))
    have hb : betaVal A D / Real.log 10 = 1 / D * Real.log (1 + D / A) / Real.log 10 := by
      unfold betaVal
      rw [if_pos hD]
      ring
    have e1 : Near (2 * unit) (Double.div 1 (rnd D)) (1 / D) := by
      have := ((Near.refl (le_refl 0) zero_le_one).div (near_bin hD) zero_le_one hD).rnd (one_div_pos.2 hD).le
      exact this.mono (one_div_pos.2 hD).le (by linarith)
    have e2 := (e1.mul hln (one_div_pos.2 hD).le hL.le).rnd (mul_pos (one_div_pos.2 hD) hL).le
    have e3 := (e2.div (near_ln hN hη (show (1 : ℝ) < 10 by norm_num)) (mul_pos (one_div_pos.2 hD) hL).le hl10).rnd
      (div_pos (mul_pos (one_div_pos.2 hD) hL) hl10).le
    have hbp : 0 < 1 / D * Real.log (1 + D / A) / Real.log 10 := div_pos (mul_pos (one_div_pos.2 hD) hL) hl10
    show Agrees _ (.ok (.fin (Double.div (Double.mul (Double.div 1 (rnd D)) v) (N.ln 10)))) (.ok (.fin (betaVal A D / Real.log 10)))
    rw [hb]
    refine agrees_of_near (θ := (9 / 2 * R + 2 * H + 11) * unit + 4 * η) hbp ?_ ?_ (e3.mono hbp.le ?_) ?_
    · have : 0 ≤ (9 / 2 * R + 2 * H + 11) * unit := mul_nonneg (by linarith) hu
      linarith
    · have : (9 / 2 * R + 2 * H + 11) * unit ≤ 1 / 20 := by unfold unit; linarith
      linarith
    · linarith
    · unfold bError unit
      linarith

/-- The Utsu estimator. -/
theorem utsu_agrees {N : Double.Np} {h : ℕ → ℕ} {η : ℝ} (hN : Accurate N h η) (hη : η ≤ 1 / 16) {O D R : ℝ} (hD : 0 < D) (hR1 : 1 ≤ R) (hR : R ≤ 10 ^ 13)
    (ks : List ℤ) (hne : ks ≠ []) {H : ℕ} (hH : h ks.length ≤ H) (hH2 : H ≤ 10 ^ 13) (c : ℤ) (hck : ∀ k ∈ ks, c ≤ k) (hk : ∀ k ∈ ks, |O + k * D| ≤ R * D)
    (hc : |O + c * D| ≤ R * D) (w : Option (List ℝ)) (hw : ∀ l, w = some l → l.length = ks.length ∧ ∀ v ∈ l, 0 ≤ v) :
    Agrees (bError R H η) (Double.utsu N (ks.map fun k : ℤ => rnd (O + k * D)) (rnd (O + c * D)) (rnd D) w)
      (utsuEstimator (ks.map fun k : ℤ => O + k * D) (O + c * D) D w) := by
  have hη0 := eta_nonneg hN
  have hu := unit_pos.le
  have hH0 : (0 : ℝ) ≤ H := Nat.cast_nonneg _
  have hH3 : (H : ℝ) ≤ 10 ^ 13 := by exact_mod_cast hH2
  have hRu : unit ≤ R * unit := by nlinarith
  have hhalf : Near (2 * unit) (Double.div (rnd D) 2) (D / 2) := by
    have := ((near_bin hD).div (Near.refl (le_refl 0) zero_le_two) hD.le two_pos).rnd (half_pos hD).le
    exact this.mono (half_pos hD).le (by linarith)
  have hrel : List.Forall₂ (Near ((2 * R + 2) * unit))
      ((ks.map fun k : ℤ => rnd (O + k * D)).map fun m => Double.add (Double.sub m (rnd (O + c * D))) (Double.div (rnd D) 2))
      ((ks.map fun k : ℤ => O + k * D).map fun m => m - (O + c * D) + D / 2) := by
    rw [List.map_map, List.map_map, List.forall₂_map_left_iff, List.forall₂_map_right_iff]
    refine List.forall₂_same.2 fun k hkk => ?_
    have e : ((fun m : ℝ => m - (O + c * D) + D / 2) ∘ fun k : ℤ => O + k * D) k = (k - c) * D + D / 2 := by simp only [Function.comp]; ring
    rw [e]
    have hkc : 0 ≤ ((k : ℝ) - c) * D := by
      have : (c : ℝ) ≤ k := by exact_mod_cast hck k hkk
      nlinarith [mul_le_mul_of_nonneg_right this hD.le]
    have e1 := near_excess hD hR (hck k hkk) (hk k hkk) hc
    have e2 := (e1.add (hhalf.mono (half_pos hD).le (θ' := (2 * R + 1) * unit) (by linarith))).rnd (by linarith)
    exact e2.mono (by linarith) (by linarith)
  have hyD : ∀ v ∈ (ks.map fun k : ℤ => O + k * D).map fun m => m - (O + c * D) + D / 2, D / 2 ≤ v := by
    intro v hv
    simp only [List.map_map, List.mem_map, Function.comp] at hv
    obtain ⟨k, hkk, rfl⟩ := hv
    have : (c : ℝ) ≤ k := by exact_mod_cast hck k hkk
    nlinarith [mul_le_mul_of_nonneg_right this hD.le]
  have hy0 : ∀ v ∈ (ks.map fun k : ℤ => O + k * D).map fun m => m - (O + c * D) + D / 2, 0 ≤ v := fun v hv => (half_pos hD).le.trans (hyD v hv)
  rcases near_average hN (H := H) (by simpa using hne) (by simpa using hH) hy0 hrel (by simpa using hw) with ⟨h1, h2⟩ | ⟨A', A, h1, h2, hA0, hA, hAm, -⟩
  · right
    unfold Double.utsu utsuEstimator
    rw [h1, h2]
    exact ⟨rfl, fun b hb => nomatch hb⟩
  have hApos : 0 < A := (half_pos hD).trans_le (hAm _ hyD)
  rw [utsu_forms _ _ _ _ _ h2]
  unfold Double.utsu
  rw [h1]
  dsimp only [bind, Except.bind, pure, Except.pure]
  rw [if_neg (hA.pos hApos).ne']
  have hl10 : 0 < Real.log 10 := Real.log_pos (by norm_num)
  have e2 := ((Near.refl (le_refl 0) zero_le_one).div hA zero_le_one hApos).rnd (one_div_pos.2 hApos).le
  have hbp : 0 < 1 / A / Real.log 10 := div_pos (one_div_pos.2 hApos) hl10
  have e3 := (e2.div (near_ln hN hη (show (1 : ℝ) < 10 by norm_num)) (one_div_pos.2 hApos).le hl10).rnd hbp.le
  unfold Fl.div
  rw [if_neg hApos.ne']
  show Agrees _ (.ok (.fin (Double.div (Double.div 1 A') (N.ln 10)))) (.ok (.fin (1 / A / Real.log 10)))
  refine agrees_of_near (θ := (9 / 2 * R + 2 * H + 11) * unit + 4 * η) hbp ?_ ?_ (e3.mono hbp.le ?_) ?_
  · have : 0 ≤ (9 / 2 * R + 2 * H + 11) * unit := mul_nonneg (by linarith) hu
    linarith
  · have : (9 / 2 * R + 2 * H + 11) * unit ≤ 1 / 20 := by unfold unit; linarith
    linarith
  · linarith
  · unfold bError unit
    linarith

/-- The exact estimator of either class. -/
def exactEst (cls : Cls) (mags : List ℝ) (mc δ : ℝ) (w : Option (List ℝ)) : Py (Fl ℝ) :=
  match cls with
  | .utsu => utsuEstimator mags mc δ w
  | _ => mleEstimator mags mc δ w

/-- Either class. -/
theorem estimate_agrees {cls : Cls} (hcls : cls = .classic ∨ cls = .utsu) {N : Double.Np} {h : ℕ → ℕ} {η : ℝ} (hN : Accurate N h η) (hη : η ≤ 1 / 16) {O D R : ℝ}
    (hD : 0 < D) (hR1 : 1 ≤ R) (hR : R ≤ 10 ^ 13) (ks : List ℤ) (hne : ks ≠ []) {H : ℕ} (hH : h ks.length ≤ H) (hH2 : H ≤ 10 ^ 13) (c : ℤ)
    (hck : ∀ k ∈ ks, c ≤ k) (hk : ∀ k ∈ ks, |O + k * D| ≤ R * D) (hc : |O + c * D| ≤ R * D) (w : Option (List ℝ))
    (hw : ∀ l, w = some l → l.length = ks.length ∧ ∀ v ∈ l, 0 ≤ v) :
    Agrees (bError R H η) (Double.estimate N cls (ks.map fun k : ℤ => rnd (O + k * D)) (rnd (O + c * D)) (rnd D) w)
      (exactEst cls (ks.map fun k : ℤ => O + k * D) (O + c * D) D w) := by
  rcases hcls with rfl | rfl
  · exact mle_agrees hN hη hD hR1 hR ks hne hH hH2 c hck hk hc w hw
  · exact utsu_agrees hN hη hD hR1 hR ks hne hH hH2 c hck hk hc w hw

/-- The exact result for valid data. -/
theorem resultOf_estimate {cls : Cls} (hcls : cls = .classic ∨ cls = .utsu) (a : Args) (hne : used a ≠ []) :
    resultOf cls a = exactEst cls ((used a).map Prod.fst) a.mc a.δ (a.weights.map fun _ => (used a).map Prod.snd) := by
  have e := congrArg Prod.snd (estimate_used hcls State.init true a none hne)
  unfold resultOf
  rw [if_neg hne, ← show _ = closed cls a from e]
  rcases hcls with rfl | rfl
  · show mleEstimator (nums (some ((used a).map fun q => some q.1))) _ _ _ = _
    rw [nums_used]; rfl
  · show utsuEstimator (nums (some ((used a).map fun q => some q.1))) _ _ _ = _
    rw [nums_used]; rfl

theorem filterMap_some_list {α : Type} (l : List α) : (l.map some).filterMap id = l := by
  induction l with
  | nil => rfl
  | cons a r ih => simpa using ih

theorem getD_option_map {α β : Type} (l : List (Option α)) (f : α → β) (i : ℕ) : (l.map (Option.map f)).getD i none = (l.getD i none).map f := by
  simp only [List.getD_eq_getElem?_getD, List.getElem?_map]
  cases l[i]? <;> rfl

theorem select_map {α β : Type} (l : List (Option α)) (f : α → β) (idx : List ℕ) :
    (idx.map fun i => (l.map (Option.map f)).getD i none).filterMap id = ((idx.map fun i => l.getD i none).filterMap id).map f := by
  simp only [getD_option_map]
  induction idx with
  | nil => rfl
  | cons i r ih =>
    simp only [List.map_cons]
    cases l.getD i none with
    | none => simpa using ih
    | some v => simpa using ih

/-- The two runs after the binning check gave the same answer. -/
theorem calc_agrees {cls : Cls} (hcls : cls = .classic ∨ cls = .utsu) {N : Double.Np} {h : ℕ → ℕ} {η : ℝ} (hN : Accurate N h η) (hη : η ≤ 1 / 16) {O D R : ℝ}
    (hD : 0 < D) (hR1 : 1 ≤ R) (hR : R ≤ 10 ^ 13) (ks : List (Option ℤ)) {H : ℕ} (hH : ∀ n ≤ ks.length, h n ≤ H) (hH2 : H ≤ 10 ^ 13) (c : ℤ)
    (hk : ∀ k, some k ∈ ks → |O + k * D| ≤ R * D) (hc : |O + c * D| ≤ R * D) (w : Option (List ℝ)) (places : ℕ) (warn : Bool) {s : State} (hs : Reachable cls s)
    (hbin : Double.checkBinning (ks.map (Option.map fun k : ℤ => rnd (O + k * D))) (rnd D) places =
      BValue.checkBinning (ks.map (Option.map fun k : ℤ => O + k * D)) D) :
    Agrees (bError R H η) (Double.calculate N cls (ks.map (Option.map fun k : ℤ => rnd (O + k * D))) (rnd (O + c * D)) (rnd D) places w)
      (BValue.calculate cls warn s { mags := ks.map (Option.map fun k : ℤ => O + k * D), mc := O + c * D, δ := D, weights := w }).2 := by
  set a : Args := { mags := ks.map (Option.map fun k : ℤ => O + k * D), mc := O + c * D, δ := D, weights := w } with ha
  have hR14 : ∀ {x : ℝ}, |x| ≤ R * D → |x| ≤ 10 ^ 14 * D := fun {x} hx => hx.trans (mul_le_mul_of_nonneg_right (by linarith) hD.le)
  rw [result_all hcls warn hs a]
  unfold Double.calculate
  rw [hbin]
  have hlen : (ks.map (Option.map fun k : ℤ => rnd (O + k * D))).length = a.mags.length := by simp [ha]
  rw [hlen]
  cases h1 : BValue.checkBinning a.mags a.δ with
  | error e => exact Or.inr ⟨rfl, fun b hb => nomatch hb⟩
  | ok u =>
    cases h2 : BValue.checkWeights a.mags.length a.weights with
    | error e => exact Or.inr ⟨rfl, fun b hb => nomatch hb⟩
    | ok v =>
      have hv : Valid a := ⟨h1, h2⟩
      dsimp only [bind, Except.bind]
      rw [C81_exact_model O D hD ks c (fun k hkk => hR14 (hk k hkk)) (hR14 hc)]
      have hidx : BValue.selIdx (ks.map (Option.map fun k : ℤ => O + k * D)) (O + c * D) D = usedIdx a := rfl
      rw [hidx]
      unfold Double.estimateSel
      by_cases he : usedIdx a = []
      · rw [if_pos he]
        unfold resultOf
        rw [if_pos ((used_nil_iff hv).2 he)]
        exact Or.inr ⟨rfl, fun b hb => nomatch hb⟩
      · rw [if_neg he]
        have hne : used a ≠ [] := fun h => he ((used_nil_iff hv).1 h)
        rw [resultOf_estimate hcls a hne, usedIdx_weights' hv]
        set K : List ℤ := ((usedIdx a).map fun i => ks.getD i none).filterMap id with hK
        have e1 : (used a).map Prod.fst = K.map fun k : ℤ => O + k * D := by
          rw [hK, ← select_map]
          have := congrArg (List.filterMap id) (usedIdx_mags hv)
          rw [show (used a).map (fun q : ℝ × ℝ => some q.1) = ((used a).map Prod.fst).map some by rw [List.map_map]; rfl] at this
          rw [← filterMap_some_list ((used a).map Prod.fst), ← this]
        have hlenK : K.length = (usedIdx a).length := by
          have := congrArg List.length e1
          simp only [List.length_map] at this
          rw [← this, used_length hv]
        have hmem : ∀ k ∈ K, some k ∈ ks ∧ c ≤ k := by
          intro k hkK
          rw [hK, List.mem_filterMap] at hkK
          obtain ⟨o, ho, hok⟩ := hkK
          rw [List.mem_map] at ho
          obtain ⟨i, hi, rfl⟩ := ho
          rw [id_eq] at hok
          have hsel := C81_selection O D hD ks c (fun k hkk => hR14 (hk k hkk)) (hR14 hc)
          rw [C81_exact_model O D hD ks c (fun k hkk => hR14 (hk k hkk)) (hR14 hc), hidx] at hsel
          rw [hsel, List.mem_filter, List.mem_range] at hi
          rw [hok] at hi
          refine ⟨?_, by simpa using hi.2⟩
          rw [← hok, List.getD_eq_getElem _ _ hi.1]
          exact List.getElem_mem hi.1
        rw [e1, select_map ks (fun k : ℤ => rnd (O + k * D))]
        have hKne : K ≠ [] := by
          intro h0
          rw [h0] at hlenK
          exact he (List.length_eq_zero_iff.1 hlenK.symm)
        have hidxlen : (usedIdx a).length ≤ ks.length := by
          unfold usedIdx BValue.selIdx
          refine (List.length_filter_le _ _).trans ?_
          simp [ha]
        refine estimate_agrees hcls hN hη hD hR1 hR K hKne (hH _ (by omega)) hH2 c (fun k hkk => (hmem k hkk).2) (fun k hkk => hk k (hmem k hkk).1) hc _ ?_
        intro l hl
        cases w with
        | none => cases hl
        | some w =>
          have hww := checkWeights_ok.1 h2
          obtain rfl := Option.some.inj hl
          refine ⟨by rw [List.length_map, hlenK], ?_⟩
          intro x hx
          rw [List.mem_map] at hx
          obtain ⟨i, -, rfl⟩ := hx
          rw [List.getD_eq_getElem?_getD]
          cases hi : w[i]? with
          | none => simp
          | some v => simpa using hww.2 v (List.mem_of_getElem? hi)

theorem checkBinning_same (ks : List (Option ℤ)) (j p : ℕ) (hj : (10 : ℝ) ^ p ≤ j * 10 ^ 12) (hp : p ≤ 12) (hk : ∀ k, some k ∈ ks → |(k : ℝ) * ((j : ℝ) / 10 ^ p)| ≤ 8) :
    Double.checkBinning (ks.map (Option.map fun k : ℤ => rnd (0 + k * ((j : ℝ) / 10 ^ p)))) (rnd ((j : ℝ) / 10 ^ p)) p =
      BValue.checkBinning (ks.map (Option.map fun k : ℤ => 0 + k * ((j : ℝ) / 10 ^ p))) ((j : ℝ) / 10 ^ p) := by
  set D : ℝ := (j : ℝ) / 10 ^ p with hDd
  by_cases hne : ∃ k, some k ∈ ks
  · have hD12 : 1 / 10 ^ 12 ≤ D := by
      rw [hDd, div_le_div_iff₀ (by positivity) (by positivity)]
      linarith
    have e1 := C84_accepts ks hne j p hj hp hk
    have e2 := C08_grid_accepted ks 0 D (1 / 10 ^ 15) hD12 (by positivity) hne
    rw [(checkBinning_ok _ _).2 (Or.inr e2)]
    unfold Double.checkBinning
    simp only [zero_add, List.length_map]
    rw [e1]
    have : 0 < ks.length := by
      obtain ⟨k, hk⟩ := hne
      exact List.length_pos_of_mem hk
    rw [if_pos this]
    rfl
  · have hnone : ∀ f : ℤ → ℝ, (ks.map (Option.map f)).filterMap id = [] := by
      intro f
      rw [List.filterMap_eq_nil_iff]
      intro o ho
      rw [List.mem_map] at ho
      obtain ⟨o', ho', rfl⟩ := ho
      cases o' with
      | none => rfl
      | some k => exact absurd ⟨k, ho'⟩ hne
    unfold Double.checkBinning BValue.checkBinning
    simp only [List.length_map]
    by_cases hl : 0 < ks.length
    · rw [if_pos hl, if_pos hl]
      have d1 : Double.binningTest (ks.map (Option.map fun k : ℤ => rnd (0 + k * D))) (rnd D) p Double.tol0 none = .error .valueError := by
        unfold Double.binningTest
        rw [hnone]
        rfl
      have d2 : binningTest (ks.map (Option.map fun k : ℤ => 0 + k * D)) D (defaultTol ℝ) false = .error .valueError := by
        unfold binningTest shiftToMin
        rw [hnone, if_neg (by rw [List.length_map]; omega)]
        rfl
      rw [d1, d2]
    · rw [if_neg hl, if_neg hl]

/-- C91: magnitudes that are the doubles of multiples of the bin size `j / 10^p` of at most 8 (`none`: NaN), `mc` the double of a multiple of it, any weights: the
estimate of the classic and of the Utsu class computed in double precision agrees with the one in exact arithmetic up to the relative error `bError`, and is
the same exception, infinity or NaN where that one is. No assumption on the number of events; any order of summation with at most `H` additions on
top of each other, any logarithm with relative error `η`. -/
theorem C91_calculate {cls : Cls} (hcls : cls = .classic ∨ cls = .utsu) {N : Double.Np} {h : ℕ → ℕ} {η : ℝ} (hN : Accurate N h η) (hη : η ≤ 1 / 16)
    (ks : List (Option ℤ)) (j p : ℕ) (hj : (10 : ℝ) ^ p ≤ j * 10 ^ 12) (hp : p ≤ 12) (hk : ∀ k, some k ∈ ks → |(k : ℝ) * ((j : ℝ) / 10 ^ p)| ≤ 8) (c : ℤ) {R : ℝ}
    (hR1 : 1 ≤ R) (hR : R ≤ 10 ^ 13) (hkR : ∀ k, some k ∈ ks → |(k : ℝ)| ≤ R) (hc : |(c : ℝ)| ≤ R) {H : ℕ} (hH : ∀ n ≤ ks.length, h n ≤ H) (hH2 : H ≤ 10 ^ 13)
    (w : Option (List ℝ)) (warn : Bool) {s : State} (hs : Reachable cls s) :
    Agrees (bError R H η)
      (Double.calculate N cls (ks.map (Option.map fun k : ℤ => rnd (k * ((j : ℝ) / 10 ^ p)))) (rnd (c * ((j : ℝ) / 10 ^ p))) (rnd ((j : ℝ) / 10 ^ p)) p w)
      (BValue.calculate cls warn s { mags := ks.map (Option.map fun k : ℤ => (k : ℝ) * ((j : ℝ) / 10 ^ p)), mc := c * ((j : ℝ) / 10 ^ p), δ := (j : ℝ) / 10 ^ p,
                                     weights := w }).2 := by
  have hj0 : (0 : ℝ) < j := by
    rcases Nat.eq_zero_or_pos j with h0 | h0
    · subst h0; simp at hj; linarith [pow_pos (by norm_num : (0 : ℝ) < 10) p]
    · exact_mod_cast h0
  have hD : (0 : ℝ) < (j : ℝ) / 10 ^ p := by positivity
  have habs : ∀ k : ℤ, |(k : ℝ)| ≤ R → |0 + (k : ℝ) * ((j : ℝ) / 10 ^ p)| ≤ R * ((j : ℝ) / 10 ^ p) := by
    intro k hk
    rw [zero_add, abs_mul, abs_of_pos hD]
    exact mul_le_mul_of_nonneg_right hk hD.le
  have := calc_agrees hcls hN hη hD hR1 hR ks hH hH2 c (O := 0) (fun k hkk => habs k (hkR k hkk)) (habs c hc) w p warn hs
    (checkBinning_same ks j p hj hp hk)
  simpa only [zero_add] using this

theorem Agrees.mono {ε ε' : ℝ} {x y : Py (Fl ℝ)} (h : Agrees ε x y) (hε : ε ≤ ε') : Agrees ε' x y := by
  rcases h with ⟨a, b, h1, h2, h3, h4⟩ | h
  · exact Or.inl ⟨a, b, h1, h2, h3, h4.trans (mul_le_mul_of_nonneg_right hε h3.le)⟩
  · exact Or.inr h

/-- C91 in practice: magnitudes and `mc` between -8 and 8 with at most two decimal places, sums with at most 100 additions on top of each other (as in
numpy's pairwise summation), a logarithm with relative error `10^-15`: relative error at most `10^-12`. -/
theorem C91_practice {cls : Cls} (hcls : cls = .classic ∨ cls = .utsu) {N : Double.Np} {h : ℕ → ℕ} {η : ℝ} (hN : Accurate N h η) (hη : η ≤ 1 / 10 ^ 15)
    (ks : List (Option ℤ)) (j p : ℕ) (hj : 1 ≤ j) (hp : p ≤ 2) (hk : ∀ k, some k ∈ ks → |(k : ℝ) * ((j : ℝ) / 10 ^ p)| ≤ 8) (c : ℤ)
    (hc : |(c : ℝ) * ((j : ℝ) / 10 ^ p)| ≤ 8) (hH : ∀ n ≤ ks.length, h n ≤ 100) (w : Option (List ℝ)) (warn : Bool) {s : State} (hs : Reachable cls s) :
    Agrees (1 / 10 ^ 12)
      (Double.calculate N cls (ks.map (Option.map fun k : ℤ => rnd (k * ((j : ℝ) / 10 ^ p)))) (rnd (c * ((j : ℝ) / 10 ^ p))) (rnd ((j : ℝ) / 10 ^ p)) p w)
      (BValue.calculate cls warn s { mags := ks.map (Option.map fun k : ℤ => (k : ℝ) * ((j : ℝ) / 10 ^ p)), mc := c * ((j : ℝ) / 10 ^ p), δ := (j : ℝ) / 10 ^ p,
                                     weights := w }).2 := by
  have hj' : (1 : ℝ) ≤ j := by exact_mod_cast hj
  have hp' : (10 : ℝ) ^ p ≤ 100 := by
    calc (10 : ℝ) ^ p ≤ 10 ^ 2 := pow_le_pow_right₀ (by norm_num) hp
      _ = 100 := by norm_num
  have hP : (0 : ℝ) < 10 ^ p := by positivity
  have hb : ∀ k : ℤ, |(k : ℝ) * ((j : ℝ) / 10 ^ p)| ≤ 8 → |(k : ℝ)| ≤ 800 := by
    intro k hk
    rw [abs_mul, abs_of_pos (by positivity : (0 : ℝ) < j / 10 ^ p), ← mul_div_assoc, div_le_iff₀ hP] at hk
    nlinarith [abs_nonneg (k : ℝ)]
  refine (C91_calculate hcls hN (hη.trans (by norm_num)) ks j p ?_ (by omega) hk c (R := 800) (by norm_num) (by norm_num) (fun k hkk => hb k (hk k hkk)) (hb c hc)
    (H := 100) hH (by norm_num) w warn hs).mono ?_
  · nlinarith
  · unfold bError
    norm_num at *
    linarith

theorem rnd_zero_div : Double.div 0 2 = 0 := by
  unfold Double.div
  rw [zero_div, rnd_zero']

/-- Continuous magnitudes: the estimators on any numbers at or above `mc`. -/
theorem zero_agrees {cls : Cls} (hcls : cls = .classic ∨ cls = .utsu) {N : Double.Np} {h : ℕ → ℕ} {η : ℝ} (hN : Accurate N h η) (hη : η ≤ 1 / 16) (ms : List ℝ)
    (hne : ms ≠ []) {H : ℕ} (hH : h ms.length ≤ H) (hH2 : H ≤ 10 ^ 13) (mc : ℝ) (hm : ∀ m ∈ ms, mc ≤ m) (w : Option (List ℝ))
    (hw : ∀ l, w = some l → l.length = ms.length ∧ ∀ v ∈ l, 0 ≤ v) :
    Agrees (bError 1 H η) (Double.estimate N cls ms mc 0 w) (exactEst cls ms mc 0 w) := by
  have hη0 := eta_nonneg hN
  have hu := unit_pos.le
  have hH0 : (0 : ℝ) ≤ H := Nat.cast_nonneg _
  have hH3 : (H : ℝ) ≤ 10 ^ 13 := by exact_mod_cast hH2
  have hrel : List.Forall₂ (Near unit) (ms.map fun m => Double.sub m mc) (ms.map fun m => m - mc) := by
    rw [List.forall₂_map_left_iff, List.forall₂_map_right_iff]
    exact List.forall₂_same.2 fun m hmm => Double.near_rnd (sub_nonneg.2 (hm m hmm))
  have hy0 : ∀ v ∈ ms.map fun m => m - mc, 0 ≤ v := by
    intro v hv
    obtain ⟨m, hmm, rfl⟩ := List.mem_map.1 hv
    exact sub_nonneg.2 (hm m hmm)
  have e1 : Double.estimate N cls ms mc 0 w = (Double.average N (ms.map fun m => Double.sub m mc) w).bind fun A =>
      .ok (Double.betaToB N (if A = 0 then .pinf else .fin (Double.div 1 A))) := by
    rcases hcls with rfl | rfl
    · unfold Double.estimate Double.mle Double.betaOf
      simp only [lt_irrefl, if_false]
      rfl
    · unfold Double.estimate Double.utsu
      simp only [rnd_zero_div]
      have : (fun m => Double.add (Double.sub m mc) 0) = fun m => Double.sub m mc := by
        funext m
        unfold Double.add Double.sub
        rw [add_zero, rnd_rnd]
      simp only [this]
      rfl
  have e2 : exactEst cls ms mc 0 w = (average (ms.map fun m => m - mc) w).bind fun A =>
      .ok (BValue.betaToB (match A with
        | .fin v => Fl.div 1 v
        | o => o)) := by
    rcases hcls with rfl | rfl
    · unfold exactEst mleEstimator
      simp only [lt_irrefl, if_false]
      rfl
    · unfold exactEst utsuEstimator
      simp only [zero_div, add_zero]
      rfl
  rw [e1, e2]
  rcases near_average hN (H := H) (by simpa using hne) (by simpa using hH) hy0 hrel (by simpa using hw) with ⟨h1, h2⟩ | ⟨A', A, h1, h2, hA0, hA, -, -⟩
  · rw [h1, h2]
    exact Or.inr ⟨rfl, fun b hb => nomatch hb⟩
  rw [h1, h2]
  dsimp only [Except.bind]
  unfold Fl.div
  rcases hA0.eq_or_lt with h0 | hApos
  · rw [← h0] at hA ⊢
    rw [if_pos (near_zero.1 hA), if_pos rfl, if_neg one_ne_zero, if_pos one_pos]
    exact Or.inr ⟨rfl, fun b hb => nomatch hb⟩
  · rw [if_neg (hA.pos hApos).ne', if_neg hApos.ne']
    have hl10 : 0 < Real.log 10 := Real.log_pos (by norm_num)
    have e2 := ((Near.refl (le_refl 0) zero_le_one).div hA zero_le_one hApos).rnd (one_div_pos.2 hApos).le
    have hbp : 0 < 1 / A / Real.log 10 := div_pos (one_div_pos.2 hApos) hl10
    have e3 := (e2.div (near_ln hN hη (show (1 : ℝ) < 10 by norm_num)) (one_div_pos.2 hApos).le hl10).rnd hbp.le
    show Agrees _ (.ok (.fin (Double.div (Double.div 1 A') (N.ln 10)))) (.ok (.fin (1 / A / Real.log 10)))
    refine agrees_of_near (θ := (9 / 2 * 1 + 2 * H + 11) * unit + 4 * η) hbp ?_ ?_ (e3.mono hbp.le ?_) ?_
    · have : 0 ≤ (9 / 2 * 1 + 2 * (H : ℝ) + 11) * unit := mul_nonneg (by linarith) hu
      linarith
    · have : (9 / 2 * 1 + 2 * (H : ℝ) + 11) * unit ≤ 1 / 20 := by unfold unit; linarith
      linarith
    · linarith
    · unfold bError unit
      linarith

/-- C91 for continuous magnitudes (`delta_m = 0`): for all magnitudes, any double `mc` and any weights, the estimate computed in double precision agrees with
the exact estimate from the same magnitudes. -/
theorem C91_continuous {cls : Cls} (hcls : cls = .classic ∨ cls = .utsu) {N : Double.Np} {h : ℕ → ℕ} {η : ℝ} (hN : Accurate N h η) (hη : η ≤ 1 / 16)
    (mags : List (Option ℝ)) (mc : ℝ) (hmc : IsDouble mc) (places : ℕ) {H : ℕ} (hH : ∀ n ≤ mags.length, h n ≤ H) (hH2 : H ≤ 10 ^ 13)
    (w : Option (List ℝ)) (warn : Bool) {s : State} (hs : Reachable cls s) :
    Agrees (bError 1 H η) (Double.calculate N cls mags mc 0 places w) (BValue.calculate cls warn s { mags := mags, mc := mc, δ := 0, weights := w }).2 := by
  set a : Args := { mags := mags, mc := mc, δ := 0, weights := w } with ha
  have hthr : Double.threshold mc 0 = mc := by
    unfold Double.threshold Double.sub
    rw [rnd_zero_div, sub_zero]
    exact (C80_rounding mc).2.2 hmc
  have hsel : Double.selIdx mags mc 0 = usedIdx a := by
    unfold Double.selIdx usedIdx BValue.selIdx
    simp only [hthr, ha, zero_div, sub_zero]
    rfl
  have hbin : Double.checkBinning mags 0 places = BValue.checkBinning a.mags a.δ := by
    unfold Double.checkBinning BValue.checkBinning
    show _ = if 0 < mags.length then _ else _
    by_cases hl : 0 < mags.length
    · rw [if_pos hl, if_pos hl]
      have : Double.binningTest mags 0 places Double.tol0 none = binningTest mags 0 (defaultTol ℝ) false := by
        unfold Double.binningTest binningTest shiftToMin
        rw [if_neg (by omega)]
        dsimp only
        cases amin? (mags.filterMap id) with
        | none => rfl
        | some m =>
          have h1 : (0 : ℝ) < Double.tol0 := rnd_pos (by norm_num)
          have h2 : (0 : ℝ) < defaultTol ℝ := by unfold defaultTol; positivity
          dsimp only [bind, Except.bind]
          unfold Double.testShifted binningTestCore
          rw [if_pos h1, if_pos h2]
          simp
      rw [this]
      rfl
    · rw [if_neg hl, if_neg hl]
  rw [result_all hcls warn hs a]
  unfold Double.calculate
  rw [hbin, hsel]
  cases h1 : BValue.checkBinning a.mags a.δ with
  | error e => exact Or.inr ⟨rfl, fun b hb => nomatch hb⟩
  | ok u =>
    cases h2 : BValue.checkWeights a.mags.length a.weights with
    | error e => exact Or.inr ⟨rfl, fun b hb => nomatch hb⟩
    | ok v =>
      have hv : Valid a := ⟨h1, h2⟩
      dsimp only [bind, Except.bind]
      unfold Double.estimateSel
      by_cases he : usedIdx a = []
      · rw [if_pos he]
        unfold resultOf
        rw [if_pos ((used_nil_iff hv).2 he)]
        exact Or.inr ⟨rfl, fun b hb => nomatch hb⟩
      · rw [if_neg he]
        have hne : used a ≠ [] := fun h => he ((used_nil_iff hv).1 h)
        rw [resultOf_estimate hcls a hne, usedIdx_weights' hv]
        have e1 : ((usedIdx a).map fun i => mags.getD i none).filterMap id = (used a).map Prod.fst := by
          have := congrArg (List.filterMap id) (usedIdx_mags hv)
          rw [show (used a).map (fun q : ℝ × ℝ => some q.1) = ((used a).map Prod.fst).map some by rw [List.map_map]; rfl, filterMap_some_list] at this
          exact this
        rw [e1]
        have hlen : ((used a).map Prod.fst).length = (usedIdx a).length := by rw [List.length_map, used_length hv]
        have hidxlen : (usedIdx a).length ≤ mags.length := by
          unfold usedIdx BValue.selIdx
          refine (List.length_filter_le _ _).trans ?_
          simp [ha]
        refine zero_agrees hcls hN hη _ (by simpa using hne) (hH _ (by rw [hlen]; exact hidxlen)) hH2 mc ?_ _ ?_
        · intro m hm
          rw [← e1, List.mem_filterMap] at hm
          obtain ⟨o, ho, hom⟩ := hm
          obtain ⟨i, hi, rfl⟩ := List.mem_map.1 ho
          rw [id_eq] at hom
          unfold usedIdx BValue.selIdx at hi
          rw [List.mem_filter] at hi
          have h3 := hi.2
          rw [show a.mags.getD i none = some m from hom] at h3
          have h4 : mc - 0 / 2 ≤ m := by simpa [ha] using h3
          linarith
        · intro l hl
          cases w with
          | none => cases hl
          | some w =>
            have hww := checkWeights_ok.1 h2
            obtain rfl := Option.some.inj hl
            refine ⟨by rw [List.length_map, hlen], ?_⟩
            intro x hx
            rw [List.mem_map] at hx
            obtain ⟨i, -, rfl⟩ := hx
            rw [List.getD_eq_getElem?_getD]
            cases hi : w[i]? with
            | none => simp
            | some v => simpa using hww.2 v (List.mem_of_getElem? hi)

/-- Summation from left to right and the exact logarithm meet the assumptions. -/
def leftToRight : Double.Np where
  sum := fun x => match x with
    | [] => 0
    | a :: r => r.foldl Double.add a
  ln := Real.log

theorem leftToRight_accurate : Accurate leftToRight (fun n => n) 0 := by
  constructor
  · intro x hx
    have key : ∀ (r : List ℝ) (t : Double.SumTree), ∃ t' : Double.SumTree, t'.leaves = t.leaves ++ r ∧ t'.depth = t.depth + r.length ∧
        r.foldl Double.add t.value = t'.value := by
      intro r
      induction r with
      | nil => intro t; exact ⟨t, by simp, by simp, rfl⟩
      | cons b r ih =>
        intro t
        obtain ⟨t', h1, h2, h3⟩ := ih (.node t (.leaf b))
        refine ⟨t', ?_, ?_, h3⟩
        · rw [h1]; simp [Double.SumTree.leaves]
        · rw [h2]; simp [Double.SumTree.depth]; omega
    cases x with
    | nil => exact absurd rfl hx
    | cons a r =>
      obtain ⟨t', h1, h2, h3⟩ := key r (.leaf a)
      refine ⟨t', ?_, ?_, h3⟩
      · rw [h1]; exact List.Perm.refl _
      · rw [h2]; simp [Double.SumTree.depth]
  · intro x _
    simp [leftToRight]

/-- The arguments of the example. -/
def demo91 : Args where
  mags := [some (10 : ℤ), some 13, none, some 8, some 15].map (Option.map fun k : ℤ => (k : ℝ) * (((1 : ℕ) : ℝ) / 10 ^ 1))
  mc := ((10 : ℤ) : ℝ) * (((1 : ℕ) : ℝ) / 10 ^ 1)
  δ := ((1 : ℕ) : ℝ) / 10 ^ 1

/-- Magnitudes 1.0, 1.3, NaN, 0.8, 1.5 with bin size 0.1 and `mc = 1.0`, computed from left to right: within `10^-12` of `log(11/8) / (0.1 * log 10)`. -/
example : ∃ b, Double.calculate leftToRight .classic ([some 10, some 13, none, some 8, some 15].map (Option.map fun k : ℤ => rnd (k * (((1 : ℕ) : ℝ) / 10 ^ 1))))
      (rnd ((10 : ℤ) * (((1 : ℕ) : ℝ) / 10 ^ 1))) (rnd (((1 : ℕ) : ℝ) / 10 ^ 1)) 1 none = .ok (.fin b) ∧
    |b - Real.log (11 / 8) / (1 / 10) / Real.log 10| ≤ 1 / 10 ^ 12 * (Real.log (11 / 8) / (1 / 10) / Real.log 10) := by
  have hk : ∀ k : ℤ, some k ∈ [some (10 : ℤ), some 13, none, some 8, some 15] → |(k : ℝ) * (((1 : ℕ) : ℝ) / 10 ^ 1)| ≤ 8 := by
    intro k hk
    simp at hk
    rcases hk with rfl | rfl | rfl | rfl <;> norm_num [abs_le]
  have h := C91_practice (cls := .classic) (Or.inl rfl) leftToRight_accurate (by norm_num) [some 10, some 13, none, some 8, some 15] 1 1 (le_refl 1) (by norm_num)
    hk 10 (by norm_num) (by intro n hn; simp at hn ⊢; omega) none true (s := State.init) .init
  replace h : Agrees (1 / 10 ^ 12) (Double.calculate leftToRight .classic ([some 10, some 13, none, some 8, some 15].map
      (Option.map fun k : ℤ => rnd (k * (((1 : ℕ) : ℝ) / 10 ^ 1)))) (rnd ((10 : ℤ) * (((1 : ℕ) : ℝ) / 10 ^ 1))) (rnd (((1 : ℕ) : ℝ) / 10 ^ 1)) 1 none)
      (calculate .classic true State.init demo91).2 := h
  have hacc : Accepted demo91 := by
    refine ⟨Or.inr ?_, fun w hw => nomatch hw⟩
    have := C08_grid_accepted (K := ℝ) [some (10 : ℤ), some 13, none, some 8, some 15] 0 (((1 : ℕ) : ℝ) / 10 ^ 1) (1 / 10 ^ 15) (by norm_num) (by norm_num) ⟨10, by simp⟩
    simp only [zero_add] at this
    exact this
  have hused : used demo91 = [(1, 1), (13 / 10, 1), (15 / 10, 1)] := by
    unfold used effW Spec.selected demo91
    simp only [List.map_cons, List.map_nil, Option.map_some, Option.map_none, Option.getD_none, List.zip_cons_cons, List.zip_nil_left, List.filterMap_cons,
      List.filterMap_nil]
    norm_num
  rw [result_eq (Or.inl rfl) true .init hacc, result_of_total (by rw [hused]; norm_num [Spec.total])] at h
  rw [hused] at h
  have hA : Spec.wmean [((1 : ℝ), (1 : ℝ)), (13 / 10, 1), (15 / 10, 1)] - demo91.mc = 4 / 15 := by norm_num [Spec.wmean, demo91]
  dsimp only at h
  rw [hA, betaOf_pos (by norm_num)] at h
  have hb : betaVal (4 / 15) demo91.δ / Real.log 10 = Real.log (11 / 8) / (1 / 10) / Real.log 10 := by
    unfold betaVal demo91
    norm_num
  rcases h with ⟨x, y, h1, h2, -, h4⟩ | ⟨-, h2⟩
  · have hy : y = betaVal (4 / 15) demo91.δ / Real.log 10 := by
      have := Except.ok.inj h2
      exact (Fl.fin.inj this).symm
    rw [hy, hb] at h4
    exact ⟨x, h1, h4⟩
  · exact absurd rfl (h2 _)

end
end SeismoStats.Props
