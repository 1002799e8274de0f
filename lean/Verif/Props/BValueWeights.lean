/-
Properties C15, C16: weights as multiplicities, independence of the event order.
-/
import Verif.Props.BValueMle

namespace SeismoStats.Props
open SeismoStats BValue
open Classical
noncomputable section

/-! ## C15 -/

theorem selected_scaleW (mags : List (Option ℝ)) (w : List ℝ) (thr k : ℝ) :
    Spec.selected mags (w.map (· * k)) thr =
      (Spec.selected mags w thr).map fun q => (q.1, q.2 * k) := by
  unfold Spec.selected
  induction mags generalizing w with
  | nil => simp
  | cons o r ih =>
    cases w with
    | nil => simp
    | cons u v =>
      simp only [List.map_cons, List.zip_cons_cons, List.filterMap_cons]
      cases o with
      | none => simpa using ih v
      | some m =>
        by_cases hm : thr ≤ m
        · simp only [hm, if_true, List.map_cons]; rw [ih v]
        · simp only [hm, if_false]; exact ih v

theorem total_scaleW (l : List (ℝ × ℝ)) (k : ℝ) :
    Spec.total (l.map fun q => (q.1, q.2 * k)) = Spec.total l * k := by
  unfold Spec.total
  induction l with
  | nil => simp
  | cons p r ih => simp only [List.map_cons, List.sum_cons, ih]; ring

theorem wmean_scaleW (l : List (ℝ × ℝ)) {k : ℝ} (hk : k ≠ 0) :
    Spec.wmean (l.map fun q => (q.1, q.2 * k)) = Spec.wmean l := by
  have h := total_scaleW l k
  unfold Spec.total at h
  unfold Spec.wmean
  rw [h]
  have : ((l.map fun q => (q.1, q.2 * k)).map fun p => p.2 * p.1).sum =
      (l.map fun p => p.2 * p.1).sum * k := by
    clear h
    induction l with
    | nil => simp
    | cons p r ih => simp only [List.map_cons, List.sum_cons, ih]; ring
  rw [this]
  exact mul_div_mul_right _ _ hk

theorem closed_congr {c : Cls} {a a' : Args} (h0 : zeroTotal a ↔ zeroTotal a')
    (h1 : Spec.wmean (used a) = Spec.wmean (used a')) (h2 : a.mc = a'.mc) (h3 : a.δ = a'.δ) :
    closed c a = closed c a' := by
  unfold closed
  by_cases h : zeroTotal a
  · rw [if_pos h, if_pos (h0.1 h)]
  · rw [if_neg h, if_neg (fun h' => h (h0.2 h')), h1, h2, h3]

/-- C15: multiplying all weights by `k > 0` changes nothing, for every input. -/
theorem C15_scale_weights {c : Cls} (hc : c = .classic ∨ c = .utsu) (warn : Bool) {s : State}
    (hs : Reachable c s) (a : Args) (w : List ℝ) (k : ℝ) (hk : 0 < k) :
    (calculate c warn s { a with weights := some (w.map (· * k)) }).2 =
      (calculate c warn s { a with weights := some w }).2 := by
  rw [result_all hc warn hs, result_all hc warn hs]
  have hw : checkWeights a.mags.length (some (w.map (· * k))) =
      checkWeights a.mags.length (some w) := by
    unfold checkWeights
    simp only [List.length_map, List.any_map]
    have : ((fun x => decide (x < 0)) ∘ fun x => x * k) = fun x : ℝ => decide (x < 0) := by
      funext x
      simp only [Function.comp, decide_eq_decide]
      exact ⟨fun h => by nlinarith, fun h => by nlinarith⟩
    rw [this]
  have hu : used { a with weights := some (w.map (· * k)) } =
      (used { a with weights := some w }).map fun q => (q.1, q.2 * k) := by
    unfold used effW
    exact selected_scaleW _ _ _ _
  have hr : resultOf c { a with weights := some (w.map (· * k)) } =
      resultOf c { a with weights := some w } := by
    unfold resultOf
    by_cases h : used { a with weights := some w } = []
    · rw [if_pos h, if_pos (by rw [hu, h]; rfl)]
    · rw [if_neg h, if_neg (by rw [hu]; simpa using h)]
      refine closed_congr ?_ (by rw [hu]; exact wmean_scaleW _ hk.ne') rfl rfl
      unfold zeroTotal
      rw [hu, total_scaleW]
      simp [hk.ne']
  simp only [hw, hr]

/-- C15: equal positive weights give the unweighted result. -/
theorem C15_equal_weights {c : Cls} (hc : c = .classic ∨ c = .utsu) (warn : Bool) {s : State}
    (hs : Reachable c s) (a : Args) (k : ℝ) (hk : 0 < k) :
    (calculate c warn s { a with weights := some (a.mags.map fun _ => k) }).2 =
      (calculate c warn s { a with weights := none }).2 := by
  have h := C15_scale_weights hc warn hs a (a.mags.map fun _ => 1) k hk
  have e : (a.mags.map fun _ => (1 : ℝ)).map (· * k) = a.mags.map fun _ => k := by
    simp [Function.comp_def]
  rw [e] at h
  rw [h, result_all hc warn hs, result_all hc warn hs]
  have hw : checkWeights a.mags.length (some (a.mags.map fun _ => (1 : ℝ))) = .ok () := by
    rw [checkWeights_ok]; simp
  have hw' : checkWeights a.mags.length none = .ok () := rfl
  have hu : used { a with weights := some (a.mags.map fun _ => 1) } =
      used { a with weights := none } := rfl
  have hr : resultOf c { a with weights := some (a.mags.map fun _ => 1) } =
      resultOf c { a with weights := none } := by
    unfold resultOf
    by_cases h : used { a with weights := none } = []
    · rw [if_pos h, if_pos (by rw [hu, h])]
    · rw [if_neg h, if_neg (by rw [hu]; exact h)]
      refine closed_congr ?_ (by rw [hu]) rfl rfl
      constructor
      · rintro ⟨_, h2⟩
        rw [hu] at h2
        exact absurd h2 (total_ne_zero h (fun hz => by simp [zeroTotal] at hz))
      · rintro ⟨h1, _⟩; simp at h1
  simp only [hw, hw', hr]

/-- Each magnitude repeated as often as its integer weight says. -/
def copies (l : List (Option ℝ × ℕ)) : List (Option ℝ) :=
  l.flatMap fun p => List.replicate p.2 p.1

/-- If both results are values, equal weighted means give equal results. -/
theorem ok_congr {c : Cls} {a a' : Args} {r r' : Fl ℝ} (h2 : a.mc = a'.mc)
    (h3 : a.δ = a'.δ) (hr : resultOf c a = .ok r) (hr' : resultOf c a' = .ok r')
    (ht : Spec.total (used a) = Spec.total (used a'))
    (h1 : Spec.wmean (used a) = Spec.wmean (used a')) : r = r' := by
  have key : ∀ {a : Args} {r : Fl ℝ}, resultOf c a = .ok r →
      (Spec.total (used a) = 0 → used a = []) := by
    intro a r hr h0
    by_contra hne
    by_cases hz : zeroTotal a
    · unfold resultOf closed at hr
      rw [if_neg hne, if_pos hz] at hr; cases hr
    · exact total_ne_zero hne hz h0
  have z : ∀ a : Args, used a = [] → Spec.total (used a) = 0 := by
    intro a h; rw [h]; rfl
  by_cases hu : used a = []
  · have hu' : used a' = [] := key hr' (by rw [← ht]; exact z a hu)
    unfold resultOf at hr hr'
    rw [if_pos hu] at hr; rw [if_pos hu'] at hr'
    cases hr; cases hr'; rfl
  · have hu' : used a' ≠ [] := fun h => hu (key hr (by rw [ht]; exact z a' h))
    have hz : ¬ zeroTotal a := fun h => hu (key hr h.2)
    have hz' : ¬ zeroTotal a' := fun h => hu' (key hr' h.2)
    unfold resultOf at hr hr'
    rw [if_neg hu] at hr; rw [if_neg hu'] at hr'
    have := closed_congr (c := c) (a := a) (a' := a') (by tauto) h1 h2 h3
    rw [this, hr'] at hr
    cases hr; rfl

theorem ok_result {c : Cls} (hc : c = .classic ∨ c = .utsu) {warn : Bool} {s : State}
    (hs : Reachable c s) {a : Args} {r : Fl ℝ} (h : (calculate c warn s a).2 = .ok r) :
    resultOf c a = .ok r := by
  have hv := valid_of_ok h
  rw [result_eq hc warn hs ((accepted_iff a).2 hv)] at h
  exact h

theorem selected_append (m m' : List (Option ℝ)) (w w' : List ℝ) (h : m.length = w.length) (thr : ℝ) :
    Spec.selected (m ++ m') (w ++ w') thr = Spec.selected m w thr ++ Spec.selected m' w' thr := by
  unfold Spec.selected
  rw [List.zip_append h, List.filterMap_append]

theorem sums_copies (l : List (Option ℝ × ℕ)) (thr : ℝ) (f : ℝ → ℝ) :
    ((Spec.selected (copies l) ((copies l).map fun _ => 1) thr).map fun p => p.2 * f p.1).sum =
      ((Spec.selected (l.map Prod.fst) (l.map fun p => (p.2 : ℝ)) thr).map fun p => p.2 * f p.1).sum := by
  induction l with
  | nil => simp [copies, Spec.selected]
  | cons p r ih =>
    obtain ⟨o, k⟩ := p
    have e : copies ((o, k) :: r) = List.replicate k o ++ copies r := rfl
    rw [e, List.map_append, selected_append _ _ _ _ (by simp), List.map_append, List.sum_append, ih]
    have e2 : Spec.selected (((o, k) :: r).map Prod.fst) (((o, k) :: r).map fun p => (p.2 : ℝ)) thr =
        Spec.selected [o] [(k : ℝ)] thr ++
          Spec.selected (r.map Prod.fst) (r.map fun p => (p.2 : ℝ)) thr := by
      rw [← selected_append _ _ _ _ (by simp)]; rfl
    rw [e2, List.map_append, List.sum_append]
    congr 1
    clear ih e e2
    cases o with
    | none =>
      have : ∀ k : ℕ, Spec.selected (List.replicate k none)
          ((List.replicate k (none : Option ℝ)).map fun _ => 1) thr = [] := by
        intro k
        induction k with
        | zero => rfl
        | succ k ih =>
          rw [List.replicate_succ]
          simpa [Spec.selected] using ih
      rw [this]; simp [Spec.selected]
    | some m =>
      by_cases hm : thr ≤ m
      · have : ∀ k : ℕ, Spec.selected (List.replicate k (some m))
            ((List.replicate k (some m)).map fun _ => 1) thr = List.replicate k (m, 1) := by
          intro k
          induction k with
          | zero => rfl
          | succ k ih =>
            rw [List.replicate_succ, List.replicate_succ, ← ih]
            simp [Spec.selected, hm]
        rw [this]
        simp [Spec.selected, hm]
      · have : ∀ k : ℕ, Spec.selected (List.replicate k (some m))
            ((List.replicate k (some m)).map fun _ => 1) thr = [] := by
          intro k
          induction k with
          | zero => rfl
          | succ k ih =>
            rw [List.replicate_succ]
            simpa [Spec.selected, hm] using ih
        rw [this]; simp [Spec.selected, hm]

theorem total_eq_sum (l : List (ℝ × ℝ)) : Spec.total l = (l.map fun p => p.2 * (fun _ => 1) p.1).sum := by
  unfold Spec.total; congr 1
  apply List.map_congr_left; intro p _; simp

/-- A call with events `(magnitude or NaN, weight)`. -/
def weighted (l : List (Option ℝ × ℝ)) (mc δ : ℝ) : Args :=
  { mags := l.map Prod.fst, mc := mc, δ := δ, weights := some (l.map Prod.snd) }

/-- A call without weights. -/
def unweighted (mags : List (Option ℝ)) (mc δ : ℝ) : Args := { mags := mags, mc := mc, δ := δ }

/-- C15: integer weights count copies: if the weighted call and the unweighted call on
the repeated magnitudes both return a value, it is the same. -/
theorem C15_integer_weights {c : Cls} (hc : c = .classic ∨ c = .utsu) (warn : Bool) {s : State}
    (hs : Reachable c s) (l : List (Option ℝ × ℕ)) (mc δ : ℝ) (r r' : Fl ℝ)
    (h : (calculate c warn s (weighted (l.map fun p => (p.1, (p.2 : ℝ))) mc δ)).2 = .ok r)
    (h' : (calculate c warn s (unweighted (copies l) mc δ)).2 = .ok r') : r = r' := by
  have key := sums_copies l (mc - δ / 2)
  have t1 : used (weighted (l.map fun p => (p.1, (p.2 : ℝ))) mc δ) =
      Spec.selected (l.map Prod.fst) (l.map fun p => (p.2 : ℝ)) (mc - δ / 2) := by
    simp [used, effW, weighted, Function.comp_def]
  have t2 : used (unweighted (copies l) mc δ) =
      Spec.selected (copies l) ((copies l).map fun _ => 1) (mc - δ / 2) := rfl
  have e := key (fun _ => 1)
  have e' := key id
  rw [← total_eq_sum, ← total_eq_sum] at e
  refine ok_congr (a := weighted (l.map fun p => (p.1, (p.2 : ℝ))) mc δ)
    (a' := unweighted (copies l) mc δ) rfl rfl (ok_result hc hs h) (ok_result hc hs h') ?_ ?_
  · rw [t1, t2, e]
  · unfold Spec.wmean
    unfold Spec.total at e
    simp only [id_eq] at e'
    rw [t1, t2, e, e']

theorem sums_nonzero (l : List (Option ℝ × ℝ)) (thr : ℝ) (f : ℝ → ℝ) :
    ((Spec.selected ((l.filter fun p => decide (p.2 ≠ 0)).map Prod.fst)
      ((l.filter fun p => decide (p.2 ≠ 0)).map Prod.snd) thr).map fun p => p.2 * f p.1).sum =
      ((Spec.selected (l.map Prod.fst) (l.map Prod.snd) thr).map fun p => p.2 * f p.1).sum := by
  induction l with
  | nil => simp
  | cons p r ih =>
    obtain ⟨o, u⟩ := p
    have e2 : Spec.selected (((o, u) :: r).map Prod.fst) (((o, u) :: r).map Prod.snd) thr =
        Spec.selected [o] [u] thr ++ Spec.selected (r.map Prod.fst) (r.map Prod.snd) thr := by
      rw [← selected_append _ _ _ _ (by simp)]; rfl
    rw [e2, List.map_append, List.sum_append, ← ih]
    by_cases hu : u = 0
    · rw [List.filter_cons_of_neg (by simp [hu])]
      have : ((Spec.selected [o] [u] thr).map fun p => p.2 * f p.1).sum = 0 := by
        cases o with
        | none => simp [Spec.selected]
        | some m => by_cases hm : thr ≤ m <;> simp [Spec.selected, hm, hu]
      rw [this, zero_add]
    · rw [List.filter_cons_of_pos (by simp [hu])]
      rw [show ∀ x : List (Option ℝ × ℝ), Spec.selected (((o, u) :: x).map Prod.fst)
        (((o, u) :: x).map Prod.snd) thr =
        Spec.selected [o] [u] thr ++ Spec.selected (x.map Prod.fst) (x.map Prod.snd) thr from
        fun x => by rw [← selected_append _ _ _ _ (by simp)]; rfl]
      rw [List.map_append, List.sum_append]

/-- C15: an event of weight 0 counts as absent: if the call with and the call without the
zero-weight events both return a value, it is the same. -/
theorem C15_zero_weights {c : Cls} (hc : c = .classic ∨ c = .utsu) (warn : Bool) {s : State}
    (hs : Reachable c s) (l : List (Option ℝ × ℝ)) (mc δ : ℝ) (r r' : Fl ℝ)
    (h : (calculate c warn s (weighted l mc δ)).2 = .ok r)
    (h' : (calculate c warn s (weighted (l.filter fun p => decide (p.2 ≠ 0)) mc δ)).2 = .ok r') :
    r = r' := by
  have key := sums_nonzero l (mc - δ / 2)
  have t : ∀ l, used (weighted l mc δ) =
      Spec.selected (l.map Prod.fst) (l.map Prod.snd) (mc - δ / 2) := fun _ => rfl
  have e := key (fun _ => 1)
  have e' := key id
  rw [← total_eq_sum, ← total_eq_sum] at e
  refine ok_congr (a := weighted l mc δ)
    (a' := weighted (l.filter fun p => decide (p.2 ≠ 0)) mc δ) rfl rfl (ok_result hc hs h)
    (ok_result hc hs h') ?_ ?_
  · rw [t, t, e]
  · unfold Spec.wmean
    unfold Spec.total at e
    simp only [id_eq] at e'
    rw [t, t, e, e']

/-- Both hypotheses of `C15_integer_weights` are met by magnitudes 1, 2 with weights 2, 1. -/
example : ∃ r r', (calculate .classic true State.init
      (weighted ([(some 1, 2), (some 2, 1)] : List (Option ℝ × ℝ)) 1 1)).2 = .ok r ∧
    (calculate .classic true State.init (unweighted (copies [(some 1, 2), (some 2, 1)]) 1 1)).2 =
      .ok r' := by
  have a1 : Accepted (weighted ([(some 1, 2), (some 2, 1)] : List (Option ℝ × ℝ)) 1 1) := by
    refine ⟨Or.inr ?_, fun w hw => by cases hw; norm_num [weighted]⟩
    have := C08_grid_accepted (K := ℝ) [some 1, some 2] 0 1 (1 / 10 ^ 15) (by norm_num)
      (by norm_num) ⟨1, by simp⟩
    simpa [weighted] using this
  have a2 : Accepted (unweighted (copies [(some 1, 2), (some 2, 1)]) 1 1) := by
    refine ⟨Or.inr ?_, fun w hw => by cases hw⟩
    have := C08_grid_accepted (K := ℝ) [some 1, some 1, some 2] 0 1 (1 / 10 ^ 15) (by norm_num)
      (by norm_num) ⟨1, by simp⟩
    simpa [unweighted, copies] using this
  have h1 : (1 : ℝ) ≤ 2 + 2⁻¹ := by norm_num
  refine ⟨_, _, (result_eq (Or.inl rfl) true .init a1).trans (result_of_total ?_),
    (result_eq (Or.inl rfl) true .init a2).trans (result_of_total ?_)⟩
  · simp [used, effW, weighted, Spec.selected, Spec.total, h1]; norm_num
  · simp [used, effW, unweighted, copies, Spec.selected, Spec.total, h1]; norm_num

/-! ## C16 -/

theorem selected_perm {m m' : List (Option ℝ)} {w w' : List ℝ} (thr : ℝ)
    (h : (List.zip m w).Perm (List.zip m' w')) :
    (Spec.selected m w thr).Perm (Spec.selected m' w' thr) := h.filterMap _

theorem total_perm {l l' : List (ℝ × ℝ)} (h : l.Perm l') : Spec.total l = Spec.total l' :=
  (h.map _).sum_eq

theorem wmean_perm {l l' : List (ℝ × ℝ)} (h : l.Perm l') : Spec.wmean l = Spec.wmean l' := by
  unfold Spec.wmean
  rw [(h.map _).sum_eq, (h.map Prod.snd).sum_eq]

theorem average_perm {l l' : List (ℝ × ℝ)} (h : l.Perm l') (hw : Bool) (f : ℝ → ℝ) :
    average (l.map fun p => f p.1) (if hw then some (l.map Prod.snd) else none) =
      average (l'.map fun p => f p.1) (if hw then some (l'.map Prod.snd) else none) := by
  cases hw with
  | true =>
    simp only [if_true, average, zipWith_pairs]
    rw [(h.map Prod.snd).sum_eq, (h.map (fun p : ℝ × ℝ => p.2 * f p.1)).sum_eq]
  | false =>
    simp only [average, Bool.false_eq_true, if_false]
    rw [(h.map (fun p : ℝ × ℝ => f p.1)).sum_eq, List.length_map, List.length_map, h.length_eq]
    have : (l.map fun p => f p.1) = [] ↔ (l'.map fun p => f p.1) = [] := by
      rw [List.map_eq_nil_iff, List.map_eq_nil_iff]
      exact ⟨fun e => List.nil_perm.1 (e ▸ h), fun e => List.perm_nil.1 (e ▸ h)⟩
    simp only [this]

theorem shiBolt_perm {l l' : List (ℝ × ℝ)} (h : l.Perm l') (hw : Bool) (b : Fl ℝ) (isBeta : Bool) :
    shiBolt (l.map Prod.fst) b (if hw then some (l.map Prod.snd) else none) isBeta =
      shiBolt (l'.map Prod.fst) b (if hw then some (l'.map Prod.snd) else none) isBeta := by
  unfold shiBolt
  have e1 := average_perm h hw id
  simp only [id_eq] at e1
  have e1' : ∀ l : List (ℝ × ℝ), l.map (fun p => p.1) = l.map Prod.fst := fun _ => rfl
  rw [e1', e1'] at e1
  rw [e1]
  congr 1
  funext mu
  cases mu with
  | fin mu =>
    have e2 := average_perm h hw (fun m => (m - mu) ^ 2)
    simp only [List.map_map, Function.comp_def]
    rw [e2]
    congr 1
    funext v
    cases v with
    | fin v =>
      have e3 : lenMags (l.map Prod.fst) (if hw then some (l.map Prod.snd) else none) =
          lenMags (l'.map Prod.fst) (if hw then some (l'.map Prod.snd) else none) := by
        cases hw with
        | true => simp only [if_true, lenMags, (h.map Prod.snd).sum_eq]
        | false => simp only [Bool.false_eq_true, if_false, lenMags, List.length_map, h.length_eq]
      simp only [e3]
    | nan => rfl
    | pinf => rfl
    | ninf => rfl
  | nan => rfl
  | pinf => rfl
  | ninf => rfl

theorem checkBinning_perm {m m' : List (Option ℝ)} (δ : ℝ) (h : m.Perm m') :
    checkBinning m δ = checkBinning m' δ := by
  have hn : (numbers m).Perm (numbers m') := h.filterMap _
  unfold checkBinning
  rw [h.length_eq]
  by_cases hne : numbers m = []
  · have hne' : numbers m' = [] := List.nil_perm.1 (hne ▸ hn)
    rw [C08_no_numbers_raises _ _ _ _ hne, C08_no_numbers_raises _ _ _ _ hne']
  · rw [C08_order_and_nan_independent m m' δ _ false (by simp) hn hne]

theorem checkWeights_perm (n : ℕ) {w w' : List ℝ} (h : w.Perm w') :
    checkWeights n (some w) = checkWeights n (some w') := by
  unfold checkWeights
  simp only [h.length_eq]
  have : (w.any fun x => decide (x < 0)) = (w'.any fun x => decide (x < 0)) := by
    rw [Bool.eq_iff_iff, List.any_eq_true, List.any_eq_true]
    simp only [h.mem_iff]
  rw [this]

/-- The conclusion of C16: same outcome, and after success the same readings. -/
def SameOutcome (c : Cls) (warn : Bool) (s : State) (a a' : Args) : Prop :=
  (calculate c warn s a).2 = (calculate c warn s a').2 ∧
  ∀ r, (calculate c warn s a).2 = .ok r →
    let t := (calculate c warn s a).1
    let t' := (calculate c warn s a').1
    t.bValue = t'.bValue ∧ t.beta = t'.beta ∧ t.n = t'.n ∧ (∀ ω, stdOf c ω t = stdOf c ω t') ∧ ∀ ω, stdBetaOf c ω t = stdBetaOf c ω t'

theorem sameOutcome_of_perm {c : Cls} (hc : c = .classic ∨ c = .utsu) (warn : Bool) {s : State}
    (hs : Reachable c s) {a a' : Args} (hm : a.mags.Perm a'.mags)
    (h1 : checkWeights a.mags.length a.weights = checkWeights a'.mags.length a'.weights)
    (h2 : a.mc = a'.mc) (h3 : a.δ = a'.δ) (h4 : a.weights.isSome = a'.weights.isSome)
    (hu : (used a).Perm (used a')) : SameOutcome c warn s a a' := by
  have hr : resultOf c a = resultOf c a' := by
    unfold resultOf
    have he : used a = [] ↔ used a' = [] :=
      ⟨fun e => List.nil_perm.1 (e ▸ hu), fun e => List.perm_nil.1 (e ▸ hu)⟩
    by_cases h : used a = []
    · rw [if_pos h, if_pos (he.1 h)]
    · rw [if_neg h, if_neg (fun h' => h (he.2 h'))]
      exact closed_congr (zeroTotal_congr h4 (total_perm hu)) (wmean_perm hu) h2 h3
  have hres : (calculate c warn s a).2 = (calculate c warn s a').2 := by
    rw [result_all hc warn hs, result_all hc warn hs, checkBinning_perm _ hm, h1, hr, h3]
  refine ⟨hres, fun r hok => ?_⟩
  have hv := valid_of_ok hok
  have hv' := valid_of_ok (hres ▸ hok)
  have ht := (reachable_times hc hs).1
  have e1 := calculate_classic_valid hc warn s a hv ht
  have e2 := calculate_classic_valid hc warn s a' hv' ht
  have hra := ok_result hc hs hok
  rw [hra] at e1
  rw [← hr, hra] at e2
  rw [e1, e2]
  have hw : ∀ a : Args, (a.weights.map fun _ => (used a).map Prod.snd) =
      if a.weights.isSome then some ((used a).map Prod.snd) else none := by
    intro a; cases a.weights <;> rfl
  have key : ∀ b isBeta, shiBolt (nums (some ((used a).map fun q => some q.1))) b
      (a.weights.map fun _ => (used a).map Prod.snd) isBeta =
      shiBolt (nums (some ((used a').map fun q => some q.1))) b
      (a'.weights.map fun _ => (used a').map Prod.snd) isBeta := by
    intro b isBeta
    rw [nums_used, nums_used, hw, hw, ← h4]
    exact shiBolt_perm hu _ b isBeta
  refine ⟨rfl, rfl, ?_, ?_, ?_⟩
  · simp [State.n, store, usedState, hu.length_eq]
  · intro ω
    rcases hc with rfl | rfl
    all_goals
      simp only [stdOf, State.std, store, usedState]
      exact key r false
  · intro ω
    rcases hc with rfl | rfl
    all_goals
      simp only [stdBetaOf, State.stdBeta, store, usedState]
      exact key _ true

/-- C16: permuting the events together with their weights changes neither the value
or exception, nor `b_value`, `beta`, `n`, `std`, `std_beta` read afterwards. -/
theorem C16_weighted {c : Cls} (hc : c = .classic ∨ c = .utsu) (warn : Bool) {s : State}
    (hs : Reachable c s) (l l' : List (Option ℝ × ℝ)) (mc δ : ℝ) (h : l.Perm l') :
    SameOutcome c warn s (weighted l mc δ) (weighted l' mc δ) := by
  refine sameOutcome_of_perm hc warn hs (h.map _) ?_ rfl rfl rfl ?_
  · simp only [weighted, List.length_map, h.length_eq]
    exact checkWeights_perm _ (h.map _)
  · apply selected_perm
    have z : ∀ l : List (Option ℝ × ℝ), List.zip (l.map Prod.fst) (l.map Prod.snd) = l := by
      intro l; rw [← List.unzip_fst, ← List.unzip_snd]; exact List.zip_unzip l
    show (List.zip (l.map Prod.fst) (l.map Prod.snd)).Perm (List.zip (l'.map Prod.fst) (l'.map Prod.snd))
    rw [z, z]; exact h

/-- C16 without weights. -/
theorem C16_unweighted {c : Cls} (hc : c = .classic ∨ c = .utsu) (warn : Bool) {s : State}
    (hs : Reachable c s) (m m' : List (Option ℝ)) (mc δ : ℝ) (h : m.Perm m') :
    SameOutcome c warn s (unweighted m mc δ) (unweighted m' mc δ) := by
  refine sameOutcome_of_perm hc warn hs h rfl rfl rfl rfl ?_
  apply selected_perm
  have z : ∀ m : List (Option ℝ), List.zip m (m.map fun _ => (1 : ℝ)) = m.map fun x => (x, 1) := by
    intro m
    induction m with
    | nil => rfl
    | cons o r ih => rw [List.map_cons, List.zip_cons_cons, ih, List.map_cons]
  show (List.zip m (m.map fun _ => (1 : ℝ))).Perm (List.zip m' (m'.map fun _ => (1 : ℝ)))
  rw [z, z]; exact h.map _

/-- The conclusion of C16 is about calls that succeed: the reference data in two orders. -/
example : ∃ r, (calculate .classic true State.init demo).2 = .ok r ∧
    (calculate .classic true State.init
      (unweighted [some 2, some 0, none, some 1] 1 1)).2 = .ok r := by
  have h := (C16_unweighted (Or.inl rfl) true .init [some 1, none, some 2, some 0]
    [some 2, some 0, none, some 1] 1 1 (by
      have p1 : ([some 1, none, some 2, some 0] : List (Option ℝ)).Perm
          [some 2, some 0, some 1, none] := List.perm_append_comm (l₁ := [some 1, none])
      have p2 : ([some 1, none] : List (Option ℝ)).Perm [none, some 1] := List.Perm.swap _ _ _
      exact p1.trans ((p2.cons _).cons _))).1
  have hd : unweighted [some 1, none, some 2, some 0] 1 1 = demo := rfl
  rw [hd] at h
  have hd : (calculate .classic true State.init demo).2 = .ok _ :=
    (result_eq (Or.inl rfl) true .init demo_accepted).trans (result_of_total
      (by rw [demo_used]; norm_num [Spec.total]))
  exact ⟨_, hd, h ▸ hd⟩

end
end SeismoStats.Props
