/-
Error analysis for the a-value estimators in double precision (Model/DoubleAValue.lean).
-/
import Verif.Model.DoubleAValue
import Verif.Proofs.Near
import Verif.Spec.AError
import Mathlib.Analysis.SpecialFunctions.Pow.Real

namespace SeismoStats
namespace Double
open Spec (PyClose refSize volSize aErr)
open Classical
noncomputable section

theorem near_zero_iff {θ a b : ℝ} (h : Near θ a b) (hb : 0 ≤ b) : a = 0 ↔ b = 0 := by
  constructor
  · intro ha
    by_contra hn
    have := h.pos (lt_of_le_of_ne hb (Ne.symm hn))
    linarith
  · rintro rfl
    have h1 := h.1
    have h2 := h.2
    simp only [zero_mul] at h1 h2
    linarith

theorem abs_rnd_sub (x : ℝ) : |rnd x - x| ≤ unit * |x| := by
  refine (rnd_err x).trans ?_
  unfold unit
  rw [div_eq_mul_inv, mul_comm]
  apply mul_le_mul_of_nonneg_right _ (abs_nonneg x)
  norm_num

/-- Adding up from left to right. -/
theorem near_fold {θ : ℝ} (l' l : List ℝ) (h : List.Forall₂ (Near θ) l' l) (hl : ∀ v ∈ l, 0 ≤ v) :
    ∀ (acc' acc φ : ℝ), θ ≤ φ → 0 ≤ acc → Near φ acc' acc →
      Near (φ + l.length * unit) (l'.foldl (fun a x => rnd (a + x)) acc') (acc + l.sum) := by
  induction h with
  | nil =>
    intro acc' acc φ _ _ h
    simpa using h
  | @cons x' x r' r hx hr ih =>
    intro acc' acc φ hφ h0 hacc
    have hx0 : 0 ≤ x := hl x (by simp)
    have h1 : Near φ x' x := hx.mono hx0 hφ
    have h2 : Near (φ + unit) (rnd (acc' + x')) (acc + x) := (hacc.add h1).rnd (by linarith)
    have h3 := ih (fun v hv => hl v (by simp [hv])) _ _ (φ + unit) (by linarith [unit_pos]) (by linarith) h2
    have e : φ + unit + r.length * unit = φ + ((x :: r).length : ℝ) * unit := by
      rw [List.length_cons]; push_cast; ring
    rw [e] at h3
    rw [List.foldl_cons, List.sum_cons, ← add_assoc]
    exact h3

/-- The sum of finite numbers. -/
theorem sumFl_fin (l : List ℝ) : sumFl (l.map .fin) = .fin (l.foldl (fun a x => rnd (a + x)) 0) := by
  unfold sumFl
  generalize (0 : ℝ) = a
  induction l generalizing a with
  | nil => rfl
  | cons x r ih => exact ih _

/-- The exact sum of finite numbers. -/
theorem sum_fin (l : List ℝ) : Fl.sum (l.map .fin) = .fin l.sum := by
  unfold Fl.sum
  have : ∀ a : ℝ, (l.map Fl.fin).foldl Fl.add (.fin a) = .fin (a + l.sum) := by
    induction l with
    | nil => intro a; simp
    | cons x r ih =>
      intro a
      rw [List.map_cons, List.foldl_cons, List.sum_cons, ← add_assoc]
      exact ih _
  rw [this 0, zero_add]

theorem fold_nan (l : List ℝ) : ((l.map fun _ => Fl.nan (K := ℝ)).foldl (fun a x => rndFl (a.add x)) .nan : Fl ℝ) = .nan := by
  induction l with
  | nil => rfl
  | cons x r ih => exact ih

theorem fold_nan' (l : List ℝ) : ((l.map fun _ => Fl.nan (K := ℝ)).foldl Fl.add .nan : Fl ℝ) = .nan := by
  induction l with
  | nil => rfl
  | cons x r ih => exact ih

/-- Two results agree: two finite numbers with a difference of at most `E b`, or the same special value. -/
def FlClose (E : ℝ → ℝ) (x y : Fl ℝ) : Prop :=
  (∃ a b, x = .fin a ∧ y = .fin b ∧ |a - b| ≤ E b) ∨ (x = y ∧ ∀ b, y ≠ .fin b)

/-- The logarithm of nearly the same number. -/
theorem log10_near {F : NpA} {η θ q' q : ℝ} (hF : AccurateA F η) (hη0 : 0 ≤ η) (hη : η ≤ 1) (hθ : 0 ≤ θ) (hq : 0 < q) (h : Near θ q' q) :
    |F.log10 q' - Real.log q / Real.log 10| ≤ 2 * θ + η * |Real.log q / Real.log 10| := by
  have hq' := h.pos hq
  have hl10 : 1 < Real.log 10 := by
    rw [Real.lt_log_iff_exp_lt (by norm_num)]
    exact Real.exp_one_lt_d9.trans (by norm_num)
  have h1 : |Real.log q' - Real.log q| ≤ θ := by
    rw [abs_le]
    constructor
    · have := Real.log_le_log (by positivity) h.1
      rw [Real.log_mul hq.ne' (Real.exp_pos _).ne', Real.log_exp] at this
      linarith
    · have := Real.log_le_log hq' h.2
      rw [Real.log_mul hq.ne' (Real.exp_pos _).ne', Real.log_exp] at this
      linarith
  have h2 : |Real.log q' / Real.log 10 - Real.log q / Real.log 10| ≤ θ := by
    rw [← sub_div, abs_div, abs_of_pos (by linarith : 0 < Real.log 10), div_le_iff₀ (by linarith)]
    nlinarith
  have h3 := hF.log10 q' hq'
  have h4 : |Real.log q' / Real.log 10| ≤ |Real.log q / Real.log 10| + θ := by
    have := abs_sub_abs_le_abs_sub (Real.log q' / Real.log 10) (Real.log q / Real.log 10)
    linarith
  have h5 := abs_sub_le (F.log10 q') (Real.log q' / Real.log 10) (Real.log q / Real.log 10)
  have h6 : η * |Real.log q' / Real.log 10| ≤ η * |Real.log q / Real.log 10| + θ := by
    have := mul_le_mul_of_nonneg_left h4 hη0
    nlinarith
  linarith

/-- The rate: `log10(n / sum(waits / total))`. -/
theorem rate_close {F : NpA} {η θ : ℝ} (hF : AccurateA F η) (hη0 : 0 ≤ η) (hη : η ≤ 1) (hθ : 0 ≤ θ) {n : ℕ} (hn : 0 < n) {w' w : List ℝ} (hne : w ≠ [])
    (h : List.Forall₂ (Near θ) w' w) (hw : ∀ v ∈ w, 0 ≤ v) {T' T : ℝ} (hT0 : 0 ≤ T) (hT : Near unit T' T) (hz : T = 0 → ∀ v ∈ w, v = 0) :
    FlClose (fun a => 2 * (θ + (w.length + 3) * unit) + η * |a|) (rateA F n w' T') (AValue.rate n w T) := by
  have hu := unit_pos.le
  have hnr : (0 : ℝ) < n := by exact_mod_cast hn
  have hlen := h.length_eq
  unfold rateA AValue.rate
  rcases hT0.eq_or_lt with h0 | hTpos
  · -- all times are the same
    have hT'0 : T' = 0 := (near_zero_iff hT hT0).2 h0.symm
    have hz' := hz h0.symm
    have e1 : (w.map fun v => Fl.div v T) = w.map fun _ => .nan := by
      apply List.map_congr_left
      intro v hv
      unfold Fl.div
      rw [if_pos h0.symm, if_pos (hz' v hv)]
    have e2 : (w'.map fun v => rndFl (Fl.div v T')) = w'.map fun _ => .nan := by
      apply List.map_congr_left
      intro v hv
      have hv0 : v = 0 := by
        obtain ⟨i, hi, rfl⟩ := List.getElem_of_mem hv
        have hi2 : i < w.length := by omega
        have h3 := h.get hi hi2
        have h4 : w[i] = 0 := hz' _ (List.getElem_mem hi2)
        simp only [List.get_eq_getElem] at h3
        exact (near_zero_iff h3 h4.ge).2 h4
      unfold Fl.div
      rw [if_pos hT'0, if_pos hv0]
      rfl
    rw [e1, e2]
    right
    have s1 : Fl.sum (w.map fun _ => Fl.nan) = .nan := by
      cases w with
      | nil => exact absurd rfl hne
      | cons x r => exact fold_nan' r
    have s2 : sumFl (w'.map fun _ => Fl.nan) = .nan := by
      cases w' with
      | nil => exact absurd (List.length_eq_zero_iff.1 (by simpa using hlen.symm)) hne
      | cons x r => exact fold_nan r
    rw [s1, s2]
    exact ⟨rfl, fun b hb => nomatch hb⟩
  · have hT'pos := hT.pos hTpos
    have e1 : (w.map fun v => Fl.div v T) = (w.map fun v => v / T).map .fin := by
      rw [List.map_map]
      apply List.map_congr_left
      intro v _
      unfold Fl.div
      rw [if_neg hTpos.ne']
      rfl
    have e2 : (w'.map fun v => rndFl (Fl.div v T')) = (w'.map fun v => rnd (v / T')).map .fin := by
      rw [List.map_map]
      apply List.map_congr_left
      intro v _
      unfold Fl.div
      rw [if_neg hT'pos.ne']
      rfl
    rw [e1, e2, sum_fin, sumFl_fin]
    have hr : List.Forall₂ (Near (θ + 2 * unit)) (w'.map fun v => rnd (v / T')) (w.map fun v => v / T) := by
      rw [List.forall₂_map_left_iff, List.forall₂_map_right_iff]
      have hh : ∀ {a b : List ℝ}, List.Forall₂ (Near θ) a b → (∀ v ∈ b, 0 ≤ v) → List.Forall₂ (fun c d => Near (θ + 2 * unit) (rnd (c / T')) (d / T)) a b := by
        intro a b hab
        induction hab with
        | nil => intro _; exact List.Forall₂.nil
        | @cons x y r s hx hr ih =>
          intro hp
          refine List.Forall₂.cons ?_ (ih fun v hv => hp v (by simp [hv]))
          have hy : 0 ≤ y := hp y (by simp)
          have := (hx.div hT hy hTpos).rnd (by positivity)
          convert this using 1
          ring
      exact hh h hw
    have hw0 : ∀ v ∈ w.map fun v => v / T, 0 ≤ v := by
      intro v hv
      obtain ⟨x, hx, rfl⟩ := List.mem_map.1 hv
      exact div_nonneg (hw x hx) hT0
    have hs := near_fold _ _ hr hw0 0 0 (θ + 2 * unit) le_rfl le_rfl (Near.refl (by linarith) le_rfl)
    rw [zero_add, List.length_map] at hs
    set S := (w.map fun v => v / T).sum with hS
    set S' := (w'.map fun v => rnd (v / T')).foldl (fun a x => rnd (a + x)) 0 with hS'
    have hS0 : 0 ≤ S := List.sum_nonneg hw0
    unfold Fl.over Fl.div
    rcases hS0.eq_or_lt with hz0 | hSpos
    · have : S' = 0 := (near_zero_iff hs hS0).2 hz0.symm
      rw [this, ← hz0]
      simp only [if_true, if_neg hnr.ne', if_pos hnr]
      exact Or.inr ⟨rfl, fun b hb => nomatch hb⟩
    · have hS'pos := hs.pos hSpos
      simp only [if_neg hSpos.ne', if_neg hS'pos.ne']
      have hq : 0 < n / S := div_pos hnr hSpos
      have hq2 := ((Near.refl (le_refl 0) hnr.le).div hs hnr.le hSpos).rnd hq.le
      have hq2' : Near (θ + (w.length + 3) * unit) (rnd (n / S')) (n / S) := by
        convert hq2 using 1
        ring
      have hq' := hq2'.pos hq
      left
      refine ⟨F.log10 (rnd (n / S')), Real.log (n / S) / Real.log 10, ?_, ?_, ?_⟩
      · show log10Fl F (.fin (rnd (n / S'))) = _
        exact if_pos hq'
      · simp only [Fl.log10, Fl.log, hq, if_true, Fl.mapFin]
      · exact log10_near hF hη0 hη (by positivity) hq hq2'

theorem refSize_nonneg (x : AValue.Args) : 0 ≤ refSize x := by
  unfold refSize
  split
  · exact le_rfl
  · positivity

theorem volSize_nonneg (x : AValue.Args) : 0 ≤ volSize x := by
  unfold volSize
  split
  · exact le_rfl
  · positivity

/-- The correction for the reference magnitude in double precision. -/
theorem ref_term (b r mc : ℝ) : |mul b (sub r (rnd mc)) - b * (r - mc)| ≤ 5 * unit * (|b| * (|r| + |mc|)) := by
  unfold mul sub
  have hu : unit ≤ 1 / 10 ^ 15 := by unfold unit; norm_num
  have hu0 := unit_pos.le
  have hr := abs_nonneg r
  have hm := abs_nonneg mc
  have h1 := abs_rnd_sub mc
  have h2 : |rnd (r - rnd mc) - (r - rnd mc)| ≤ unit * (|r| + |mc| + unit * |mc|) := by
    refine (abs_rnd_sub _).trans (mul_le_mul_of_nonneg_left ?_ hu0)
    have := abs_sub r (rnd mc)
    have h3 := abs_sub_abs_le_abs_sub (rnd mc) mc
    linarith
  have h3 : |rnd (r - rnd mc) - (r - mc)| ≤ unit * (|r| + |mc| + unit * |mc|) + unit * |mc| := by
    have e : rnd (r - rnd mc) - (r - mc) = (rnd (r - rnd mc) - (r - rnd mc)) - (rnd mc - mc) := by ring
    rw [e]
    have := abs_sub (rnd (r - rnd mc) - (r - rnd mc)) (rnd mc - mc)
    linarith
  have h4 : |rnd (r - rnd mc) - (r - mc)| ≤ 3 * unit * (|r| + |mc|) := by
    have : unit * (unit * |mc|) ≤ unit * |mc| := by
      apply mul_le_mul_of_nonneg_left _ hu0
      nlinarith
    nlinarith
  set q := rnd (r - rnd mc) with hq
  have h5 : |q| ≤ (1 + 3 * unit) * (|r| + |mc|) := by
    have := abs_sub_abs_le_abs_sub q (r - mc)
    have h6 := abs_sub r mc
    nlinarith
  have h7 : |b * q - b * (r - mc)| ≤ |b| * (3 * unit * (|r| + |mc|)) := by
    rw [← mul_sub, abs_mul]
    exact mul_le_mul_of_nonneg_left h4 (abs_nonneg b)
  have h8 : |rnd (b * q) - b * q| ≤ unit * (|b| * ((1 + 3 * unit) * (|r| + |mc|))) := by
    refine (abs_rnd_sub _).trans (mul_le_mul_of_nonneg_left ?_ hu0)
    rw [abs_mul]
    exact mul_le_mul_of_nonneg_left h5 (abs_nonneg b)
  have h9 := abs_sub_le (rnd (b * q)) (b * q) (b * (r - mc))
  have h10 : 0 ≤ |b| * (|r| + |mc|) := by positivity
  have h11 : unit * (|b| * ((1 + 3 * unit) * (|r| + |mc|))) ≤ 2 * unit * (|b| * (|r| + |mc|)) := by
    have : unit * (|b| * ((1 + 3 * unit) * (|r| + |mc|))) = unit * (1 + 3 * unit) * (|b| * (|r| + |mc|)) := by ring
    rw [this]
    apply mul_le_mul_of_nonneg_right _ h10
    nlinarith
  nlinarith

theorem step_ref {ε a' a t' t P : ℝ} (hε : 0 ≤ ε) (h : |a' - a| ≤ ε) (ht : |t' - t| ≤ 5 * unit * P) (hP : 0 ≤ P) :
    |rnd (a' - t') - (a - t)| ≤ 101 / 100 * ε + 6 * unit * P + unit * |a - t| := by
  have hu : unit ≤ 1 / 10 ^ 15 := by unfold unit; norm_num
  have hu0 := unit_pos.le
  have h1 : |(a' - t') - (a - t)| ≤ ε + 5 * unit * P := by
    have e : (a' - t') - (a - t) = (a' - a) - (t' - t) := by ring
    rw [e]
    have := abs_sub (a' - a) (t' - t)
    linarith
  have h2 := abs_rnd_sub (a' - t')
  have h3 := abs_sub_abs_le_abs_sub (a' - t') (a - t)
  have h4 : unit * |a' - t'| ≤ unit * (|a - t| + (ε + 5 * unit * P)) := mul_le_mul_of_nonneg_left (by linarith) hu0
  have h5 := abs_sub_le (rnd (a' - t')) (a' - t') (a - t)
  have h6 : unit * ε ≤ 1 / 100 * ε := mul_le_mul_of_nonneg_right (by linarith) hε
  have h7 : unit * (5 * unit * P) ≤ unit * P := by
    apply mul_le_mul_of_nonneg_left _ hu0
    nlinarith
  nlinarith

theorem aErr_unit (θ η size a : ℝ) : aErr θ η size a = 4 * θ + (4 * η + 8 * unit) * (|a| + size) := rfl

theorem FlClose.to_nonfin {E : ℝ → ℝ} {v : Fl ℝ} (h : ∀ b, v ≠ .fin b) : FlClose E v v := Or.inr ⟨rfl, h⟩

/-- The reference scaling in exact arithmetic. -/
def refExact (x : AValue.Args) (v : Fl ℝ) : Py (Fl ℝ) :=
  match x.mref with
  | none => .ok v
  | some r => match x.b with
    | none => .error .valueError
    | some b => .ok (v.sub (.fin (b * (r - x.mc))))

/-- The first half of the scaling: to the reference magnitude. -/
theorem toReference_close {θ η : ℝ} (hθ : 0 ≤ θ) (hη0 : 0 ≤ η) {x' x : AValue.Args} (h1 : x'.mref = x.mref) (h2 : x'.b = x.b) (h3 : x'.mc = rnd x.mc)
    {v' v : Fl ℝ} (h : FlClose (fun a => 2 * θ + η * |a|) v' v) :
    (∃ w' w, toReference x' v' = .ok w' ∧
      refExact x v = .ok w ∧
      FlClose (fun a => 3 * θ + (2 * η + 6 * unit) * (|a| + refSize x)) w' w) ∨
    (toReference x' v' = .error .valueError ∧
      refExact x v = .error .valueError) := by
  have hu0 := unit_pos.le
  have hP := refSize_nonneg x
  unfold toReference refExact
  rw [h1, h2, h3]
  unfold refSize at hP ⊢
  cases hr : x.mref with
  | none =>
    left
    refine ⟨v', v, rfl, rfl, ?_⟩
    rcases h with ⟨a, b, e1, e2, e3⟩ | h
    · refine Or.inl ⟨a, b, e1, e2, e3.trans ?_⟩
      have := abs_nonneg b
      dsimp only
      nlinarith [mul_nonneg hη0 this, mul_nonneg hu0 this]
    · exact Or.inr h
  | some r =>
    rw [hr] at hP
    cases hb : x.b with
    | none => right; exact ⟨rfl, rfl⟩
    | some b =>
      rw [hb] at hP
      left
      dsimp only [Option.getD_some] at hP ⊢
      refine ⟨_, _, rfl, rfl, ?_⟩
      rcases h with ⟨a', a, e1, e2, e3⟩ | ⟨e, hn⟩
      · subst e1 e2
        left
        refine ⟨rnd (a' - mul b (sub r (rnd x.mc))), a - b * (r - x.mc), ?_, ?_, ?_⟩
        · show Fl.fin (rnd (a' + -(mul b (sub r (rnd x.mc))))) = _
          rw [← sub_eq_add_neg]
        · show Fl.fin (a + -(b * (r - x.mc))) = _
          rw [← sub_eq_add_neg]
        · set P := |b| * (|r| + |x.mc|) with hPd
          have hε : 0 ≤ 2 * θ + η * |a| := by positivity
          have h4 := step_ref hε e3 (ref_term b r x.mc) hP
          refine h4.trans ?_
          set a1 := a - b * (r - x.mc) with ha1
          have h5 : |a| ≤ |a1| + P := by
            have e : a = a1 + b * (r - x.mc) := by rw [ha1]; ring
            have h6 := abs_add_le a1 (b * (r - x.mc))
            rw [← e] at h6
            have h7 : |b * (r - x.mc)| ≤ P := by
              rw [abs_mul]
              exact mul_le_mul_of_nonneg_left (abs_sub _ _) (abs_nonneg b)
            linarith
          have h6 := mul_le_mul_of_nonneg_left h5 hη0
          have h7 := abs_nonneg a1
          have h8 := mul_nonneg hη0 (add_nonneg h7 hP)
          nlinarith [mul_nonneg hu0 h7]
      · subst e
        right
        cases v' with
        | fin y => exact absurd rfl (hn y)
        | nan => exact ⟨rfl, fun b hb => nomatch hb⟩
        | pinf => exact ⟨rfl, fun b hb => nomatch hb⟩
        | ninf => exact ⟨rfl, fun b hb => nomatch hb⟩

/-- The second half: to the reference time or volume. -/
theorem toVolume_close {F : NpA} {θ η P : ℝ} (hF : AccurateA F η) (hθ : 0 ≤ θ) (hη0 : 0 ≤ η) (hP : 0 ≤ P) {x' x : AValue.Args}
    (h1 : x'.scaling = x.scaling) {v' v : Fl ℝ} (h : FlClose (fun a => 3 * θ + (2 * η + 6 * unit) * (|a| + P)) v' v) :
    FlClose (aErr θ η (P + volSize x)) (toVolume F x' v') (match x.scaling with
      | none => v
      | some f => v.sub (Fl.log10 (.fin f))) := by
  have hu : unit ≤ 1 / 10 ^ 15 := by unfold unit; norm_num
  have hu0 := unit_pos.le
  have hL := volSize_nonneg x
  unfold toVolume
  rw [h1]
  unfold volSize at hL ⊢
  cases hs : x.scaling with
  | none =>
    dsimp only
    rcases h with ⟨a, b, e1, e2, e3⟩ | h
    · refine Or.inl ⟨a, b, e1, e2, e3.trans ?_⟩
      have := abs_nonneg b
      rw [aErr_unit]
      have h5 : 0 ≤ |b| + P := by linarith
      nlinarith [mul_nonneg hη0 h5, mul_nonneg hu0 h5]
    · exact Or.inr h
  | some f =>
    rw [hs] at hL
    dsimp only at hL ⊢
    by_cases hf : 0 < f
    · have e1 : log10Fl F (.fin f) = .fin (F.log10 f) := if_pos hf
      have e2 : Fl.log10 (.fin f) = .fin (Real.log f / Real.log 10) := by simp only [Fl.log10, Fl.log, hf, if_true, Fl.mapFin]
      rw [e1, e2]
      set l := Real.log f / Real.log 10 with hl
      have hfl := hF.log10 f hf
      rw [← hl] at hfl
      rcases h with ⟨a', a, e1, e2, e3⟩ | ⟨e, hn⟩
      · subst e1 e2
        left
        refine ⟨rnd (a' - F.log10 f), a - l, ?_, ?_, ?_⟩
        · show Fl.fin (rnd (a' + -(F.log10 f))) = _
          rw [← sub_eq_add_neg]
        · show Fl.fin (a + -l) = _
          rw [← sub_eq_add_neg]
        · set a2 := a - l with ha2
          have h5 : |a| ≤ |a2| + |l| := by
            have e : a = a2 + l := by rw [ha2]; ring
            have h6 := abs_add_le a2 l
            rwa [← e] at h6
          have h7 := abs_nonneg a2
          set Q := |a2| + (P + |l|) with hQ
          have hQ0 : 0 ≤ Q := by rw [hQ]; linarith
          have e4 : |a' - a| ≤ 3 * θ + (2 * η + 6 * unit) * Q := by
            refine e3.trans ?_
            have : (2 * η + 6 * unit) * (|a| + P) ≤ (2 * η + 6 * unit) * Q :=
              mul_le_mul_of_nonneg_left (by rw [hQ]; linarith) (by linarith)
            linarith
          have h8 : |(a' - F.log10 f) - a2| ≤ 3 * θ + (3 * η + 6 * unit) * Q := by
            have e : (a' - F.log10 f) - a2 = (a' - a) - (F.log10 f - l) := by rw [ha2]; ring
            rw [e]
            have := abs_sub (a' - a) (F.log10 f - l)
            have h9 : η * |l| ≤ η * Q := mul_le_mul_of_nonneg_left (by rw [hQ]; linarith) hη0
            linarith
          have h9 := abs_rnd_sub (a' - F.log10 f)
          have h10 := abs_sub_abs_le_abs_sub (a' - F.log10 f) a2
          have h11 := abs_sub_le (rnd (a' - F.log10 f)) (a' - F.log10 f) a2
          have h12 : unit * |a' - F.log10 f| ≤ unit * (|a2| + (3 * θ + (3 * η + 6 * unit) * Q)) := mul_le_mul_of_nonneg_left (by linarith) hu0
          have h13 : unit * (3 * θ + (3 * η + 6 * unit) * Q) ≤ 1 / 10 ^ 15 * (3 * θ + (3 * η + 6 * unit) * Q) :=
            mul_le_mul_of_nonneg_right hu (by positivity)
          have h14 : unit * |a2| ≤ unit * Q := mul_le_mul_of_nonneg_left (by rw [hQ]; linarith) hu0
          have h15 := mul_nonneg hη0 hQ0
          have h16 := mul_nonneg hu0 hQ0
          rw [aErr_unit]
          rw [← hQ]
          nlinarith
      · subst e
        right
        cases v' with
        | fin y => exact absurd rfl (hn y)
        | nan => exact ⟨rfl, fun b hb => nomatch hb⟩
        | pinf => exact ⟨rfl, fun b hb => nomatch hb⟩
        | ninf => exact ⟨rfl, fun b hb => nomatch hb⟩
    · right
      by_cases h0 : f = 0
      · subst h0
        have e1 : log10Fl F (.fin 0) = .ninf := by simp [log10Fl]
        have e2 : Fl.log10 (.fin 0) = .ninf := by simp [Fl.log10, Fl.log, Fl.mapFin]
        rw [e1, e2]
        rcases h with ⟨a', a, e1, e2, e3⟩ | ⟨e, hn⟩
        · subst e1 e2
          exact ⟨rfl, fun b hb => nomatch hb⟩
        · subst e
          cases v' with
          | fin y => exact absurd rfl (hn y)
          | nan => exact ⟨rfl, fun b hb => nomatch hb⟩
          | pinf => exact ⟨rfl, fun b hb => nomatch hb⟩
          | ninf => exact ⟨rfl, fun b hb => nomatch hb⟩
      · have e1 : log10Fl F (.fin f) = .nan := by simp [log10Fl, hf, h0]
        have e2 : Fl.log10 (.fin f) = .nan := by simp [Fl.log10, Fl.log, Fl.mapFin, hf, h0]
        rw [e1, e2]
        rcases h with ⟨a', a, e1, e2, e3⟩ | ⟨e, hn⟩
        · subst e1 e2
          exact ⟨rfl, fun b hb => nomatch hb⟩
        · subst e
          cases v' with
          | fin y => exact absurd rfl (hn y)
          | nan => exact ⟨rfl, fun b hb => nomatch hb⟩
          | pinf => exact ⟨rfl, fun b hb => nomatch hb⟩
          | ninf => exact ⟨rfl, fun b hb => nomatch hb⟩

end
end Double
end SeismoStats
