/-
Property C33: the Weichert estimator.
-/
import Verif.Props.KijkoSmit
import Verif.Proofs.Py

namespace SeismoStats.Props
open SeismoStats SeismoStats.Completeness
set_option linter.unusedSimpArgs false
open Classical
noncomputable section

/-! ## Specification -/

/-- Completeness year of a magnitude: the year of the last row whose magnitude is smaller. -/
def since (table : List (ℝ × ℝ)) (m : ℝ) : Option ℝ :=
  ((table.filter fun r => decide (r.1 < m)).getLast?).map Prod.snd

/-- The complete events, as (magnitude, completeness year): those not before the completeness year
(which must be positive) of their magnitude. -/
def completeSpec (mags years : List ℝ) (table : List (ℝ × ℝ)) : List (ℝ × ℝ) :=
  (List.zip mags years).filterMap fun p =>
    match since table p.1 with
    | some s => if 0 < s ∧ s ≤ p.2 then some (p.1, s) else none
    | none => none

/-- `E` is the table of counts of the events `C` in the bins `[c0 + k δ, c0 + (k+1) δ)`. -/
structure IsBinned (c0 δ : ℝ) (C : List (ℝ × ℝ)) (E : List Row) : Prop where
  grid : ∀ r ∈ E, ∃ k : ℕ, r.edge = c0 + k * δ
  count : ∀ r ∈ E, r.num = C.countP fun p => decide (r.edge ≤ p.1 ∧ p.1 < r.edge + δ ∧ p.2 = r.start)
  occupied : ∀ r ∈ E, 0 < r.num
  all : (E.map Row.num).sum = C.length
  distinct : (E.map fun r => (r.edge, r.start)).Nodup
  sorted : E.Pairwise fun r s => r.edge ≤ s.edge

/-- Bin centre. -/
def mid (δ : ℝ) (r : Row) : ℝ := r.edge + δ / 2

/-- Probability of bin `r` given an event: proportional to exposure times `exp(-β mid)`. -/
def binProb (E : List Row) (last δ β : ℝ) (r : Row) : ℝ :=
  (last - r.start) * Real.exp (-β * mid δ r) / (E.map fun r => (last - r.start) * Real.exp (-β * mid δ r)).sum

/-- Log-likelihood of `β` given the counts. -/
def binLik (E : List Row) (last δ β : ℝ) : ℝ :=
  (E.map fun r => (r.num : ℝ) * Real.log (binProb E last δ β r)).sum

/-- Inputs that pass the assertions. -/
structure WeichertInput (mags years : List ℝ) (table : List (ℝ × ℝ)) (δ : ℝ) : Prop where
  length : mags.length = years.length
  magnitudes : mags ≠ []
  ascending : table.Pairwise fun r s => r.1 ≤ s.1
  rows : table ≠ []
  width : 0 < δ

theorem w_assertions_ok {mags years : List ℝ} {table : List (ℝ × ℝ)} {δ : ℝ}
    (h : WeichertInput mags years table δ) {param : String} (hp : param = "b_value" ∨ param = "beta") :
    assertions mags years table δ param = .ok () := by
  unfold assertions
  simp only [h.length, h.magnitudes, h.rows, ascending_of_pairwise h.ascending, h.width.ne', not_lt.2 h.width.le,
    hp, ne_eq, not_true, if_false, if_true, Bool.not_true, Bool.false_eq_true]

/-! ## The complete events -/

theorem ascending_filter {table : List (ℝ × ℝ)} (h : table.Pairwise fun r s => r.1 ≤ s.1) (m : ℝ) :
    (table.filter fun r => decide (r.1 < m)) = table.take (table.countP fun r => decide (r.1 < m)) := by
  induction table with
  | nil => rfl
  | cons r t ih =>
    obtain ⟨h1, h2⟩ := List.pairwise_cons.1 h
    rw [List.filter_cons, List.countP_cons]
    by_cases hr : r.1 < m
    · simp only [hr, decide_true, if_true, List.take_succ_cons]
      rw [ih h2]
    · have h0 : List.countP (fun r => decide (r.1 < m)) t = 0 := by
        rw [List.countP_eq_zero]
        intro s hs
        have := h1 s hs
        simp; linarith
      have hf : (t.filter fun r => decide (r.1 < m)) = [] := by
        rw [ih h2, h0]; rfl
      simp [hr, h0, hf]

theorem startYear_since {table : List (ℝ × ℝ)} (h : table.Pairwise fun r s => r.1 ≤ s.1) (m : ℝ) :
    startYear table m = (since table m).getD (-1) := by
  unfold startYear since
  rw [ascending_filter h]
  simp only []
  set i := table.countP fun r => decide (r.1 < m) with hi
  have hle : i ≤ table.length := List.countP_le_length
  by_cases h0 : i = 0
  · rw [if_pos h0, h0]; rfl
  · rw [if_neg h0]
    have hlt : i - 1 < table.length := by omega
    rw [List.getLast?_eq_getElem?, List.length_take, Nat.min_eq_left hle, List.getElem?_take,
      if_pos (by omega), List.getElem?_eq_getElem hlt, List.getD_eq_getElem _ _ hlt]
    rfl

theorem complete_eq {table : List (ℝ × ℝ)} (h : table.Pairwise fun r s => r.1 ≤ s.1) (mags years : List ℝ) :
    complete mags years table = completeSpec mags years table := by
  unfold complete completeSpec
  apply List.filterMap_congr
  intro p _
  simp only [startYear_since h, sub_nonneg]
  cases since table p.1 with
  | none => simp
  | some s => simp

theorem cutLeft_range' (c δ : ℝ) (n s : ℕ) (m : ℝ) (e : ℝ) (hδ : 0 < δ) :
    cutLeft ((List.range' s n).map fun (k : ℕ) => c + (k : ℝ) * δ) m = .ok e ↔
      ∃ k : ℕ, s ≤ k ∧ k + 1 < s + n ∧ e = c + k * δ ∧ e ≤ m ∧ m < e + δ := by
  induction n generalizing s with
  | zero =>
    simp [cutLeft]
    intro k h1 h2; omega
  | succ n ih =>
    cases n with
    | zero =>
      simp [cutLeft]
      intro k h1 h2; omega
    | succ n =>
      have hr : (List.range' s (n + 1 + 1)).map (fun (k : ℕ) => c + (k : ℝ) * δ) = (c + (s : ℝ) * δ) ::
          (c + ((s + 1 : ℕ) : ℝ) * δ) :: (List.range' (s + 1 + 1) n).map fun (k : ℕ) => c + (k : ℝ) * δ := by
        simp [List.range'_succ]
      have hr2 : (c + ((s + 1 : ℕ) : ℝ) * δ) :: (List.range' (s + 1 + 1) n).map (fun (k : ℕ) => c + (k : ℝ) * δ) =
          (List.range' (s + 1) (n + 1)).map fun (k : ℕ) => c + (k : ℝ) * δ := by
        simp [List.range'_succ]
      rw [hr]
      unfold cutLeft
      rw [hr2]
      have e1 : c + ((s + 1 : ℕ) : ℝ) * δ = c + s * δ + δ := by push_cast; ring
      rw [e1]
      by_cases hc : c + (s : ℝ) * δ ≤ m ∧ m < c + s * δ + δ
      · rw [if_pos hc]
        constructor
        · intro h; cases h; exact ⟨s, le_refl _, by omega, rfl, hc⟩
        · rintro ⟨k, h1, h2, rfl, h4, h5⟩
          have : k = s := by
            by_contra hne
            have : s + 1 ≤ k := by omega
            have : ((s + 1 : ℕ) : ℝ) ≤ k := by exact_mod_cast this
            push_cast at this
            have := mul_le_mul_of_nonneg_right this hδ.le
            linarith [hc.2]
          rw [this]
      · rw [if_neg hc, ih (s + 1)]
        constructor
        · rintro ⟨k, h1, h2, h3⟩; exact ⟨k, by omega, by omega, h3⟩
        · rintro ⟨k, h1, h2, rfl, h4, h5⟩
          refine ⟨k, ?_, by omega, rfl, h4, h5⟩
          by_contra hlt
          have : k = s := by omega
          subst this
          exact hc ⟨h4, h5⟩

theorem cutLeft_arange (c stop δ : ℝ) (m e : ℝ) (hδ : 0 < δ) :
    cutLeft (arange c stop δ) m = .ok e ↔
      ∃ k : ℕ, k + 1 < ⌈(stop - c) / δ⌉.toNat ∧ e = c + k * δ ∧ e ≤ m ∧ m < e + δ := by
  unfold arange
  rw [List.range_eq_range', cutLeft_range' _ _ _ _ _ _ hδ]
  simp

theorem keyLe_total : Std.Total keyLe := ⟨by
  intro a b
  unfold keyLe
  rcases lt_trichotomy a.1 b.1 with h | h | h
  · exact Or.inl (Or.inl h)
  · rcases le_total a.2 b.2 with h2 | h2
    · exact Or.inl (Or.inr ⟨h, h2⟩)
    · exact Or.inr (Or.inr ⟨h.symm, h2⟩)
  · exact Or.inr (Or.inl h)⟩

theorem keyLe_trans : IsTrans (ℝ × ℝ) keyLe := ⟨by
  intro a b c h1 h2
  unfold keyLe at *
  rcases h1 with h1 | ⟨h1, h1'⟩ <;> rcases h2 with h2 | ⟨h2, h2'⟩
  · exact Or.inl (h1.trans h2)
  · exact Or.inl (h2 ▸ h1)
  · exact Or.inl (h1 ▸ h2)
  · exact Or.inr ⟨h1.trans h2, h1'.trans h2'⟩⟩

theorem groups_total (keys : List (ℝ × ℝ)) : ((groups keys).map Row.num).sum = keys.length := by
  unfold groups
  rw [List.map_map]
  have hp := (List.perm_insertionSort keyLe keys.dedup).map (Row.num ∘ fun k : ℝ × ℝ => (⟨k.1, k.2, keys.count k⟩ : Row))
  rw [hp.sum_eq]
  convert List.sum_map_count_dedup_eq_length keys
  · rfl
  · simp only [Function.comp]; congr!

theorem completeEvents_binned {mags years : List ℝ} {table : List (ℝ × ℝ)} {magMax δ : ℝ} {E : List Row}
    (hδ : 0 < δ) (ha : table.Pairwise fun r s => r.1 ≤ s.1)
    (h : completeEvents mags years table magMax δ = .ok E) :
    IsBinned (mcOf table 0) δ (completeSpec mags years table) E := by
  unfold completeEvents at h
  simp only [bind, Except.bind] at h
  rw [complete_eq ha] at h
  set C := completeSpec mags years table with hC
  cases hm : (C.mapM fun p => (do let e ← cutLeft (arange (table.getD 0 (0, 0)).1 (magMax + 1 / 100) δ) p.1
                                  pure (e, p.2)) : Py (List (ℝ × ℝ))) with
  | error e => simp only [bind, Except.bind] at hm; rw [hm] at h; cases h
  | ok keys =>
    have hm' := hm
    simp only [bind, Except.bind] at hm'
    rw [hm'] at h
    cases h
    have hF0 := (mapM_ok_iff _ _ _).1 hm
    have hF : List.Forall₂ (fun p q => (∃ k : ℕ, q.1 = mcOf table 0 + k * δ) ∧ q.1 ≤ p.1 ∧ p.1 < q.1 + δ ∧ q.2 = p.2)
        C keys := by
      refine hF0.imp ?_
      intro p q hq
      cases hc : cutLeft (arange (table.getD 0 (0, 0)).1 (magMax + 1 / 100) δ) p.1 with
      | error e => rw [hc] at hq; cases hq
      | ok e =>
        rw [hc] at hq
        cases hq
        obtain ⟨k, -, h2, h3, h4⟩ := (cutLeft_arange _ _ _ _ _ hδ).1 hc
        exact ⟨⟨k, h2⟩, h3, h4, rfl⟩
    clear hF0
    have hmem : ∀ r, r ∈ groups keys ↔ (r.edge, r.start) ∈ keys ∧ r.num = keys.count (r.edge, r.start) := by
      intro r
      unfold groups
      rw [List.mem_map]
      constructor
      · rintro ⟨k, hk, rfl⟩
        rw [List.mem_insertionSort, List.mem_dedup] at hk
        exact ⟨hk, rfl⟩
      · rintro ⟨h1, h2⟩
        refine ⟨(r.edge, r.start), by rw [List.mem_insertionSort, List.mem_dedup]; exact h1, ?_⟩
        rw [← h2]
    have hgrid : ∀ q ∈ keys, ∃ k : ℕ, q.1 = mcOf table 0 + k * δ := by
      intro q hq
      clear hmem hm hm'
      generalize C = C' at hF
      induction hF with
      | nil => cases hq
      | cons h1 h2 ih =>
        rcases List.mem_cons.1 hq with rfl | hq
        · exact h1.1
        · exact ih hq
    refine ⟨fun r hr => hgrid _ ((hmem r).1 hr).1, ?_, ?_, ?_, ?_, ?_⟩
    · intro r hr
      obtain ⟨h1, h2⟩ := (hmem r).1 hr
      rw [h2]
      obtain ⟨k0, hk0⟩ := hgrid _ h1
      simp only at hk0
      rw [hk0]
      clear hmem hm hm' h1 h2 hgrid hr
      generalize C = C' at hF
      induction hF with
      | nil => rfl
      | @cons p q l₁ l₂ h1 h2 ih =>
        rw [List.count_cons, List.countP_cons, ih]
        congr 1
        obtain ⟨⟨k, hk⟩, h3, h4, h5⟩ := h1
        have : (q == (mcOf table 0 + (k0 : ℝ) * δ, r.start)) = true ↔
            (decide (mcOf table 0 + k0 * δ ≤ p.1 ∧ p.1 < mcOf table 0 + k0 * δ + δ ∧ p.2 = r.start)) = true := by
          rw [beq_iff_eq, decide_eq_true_eq]
          constructor
          · rintro rfl; exact ⟨h3, h4, h5.symm⟩
          · rintro ⟨g1, g2, g3⟩
            refine Prod.ext ?_ (h5.trans g3)
            rw [hk]
            rw [hk] at h3 h4
            have a1 : (k : ℝ) * δ < (k0 + 1) * δ := by linarith
            have a2 : (k0 : ℝ) * δ < (k + 1) * δ := by linarith
            have b1 := lt_of_mul_lt_mul_right a1 hδ.le
            have b2 := lt_of_mul_lt_mul_right a2 hδ.le
            have c1 : k < k0 + 1 := by exact_mod_cast b1
            have c2 : k0 < k + 1 := by exact_mod_cast b2
            have : k = k0 := by omega
            rw [this]
        simp only [this]
    · intro r hr
      obtain ⟨h1, h2⟩ := (hmem r).1 hr
      rw [h2]
      exact List.count_pos_iff.2 h1
    · rw [groups_total]; exact hF.length_eq.symm
    · unfold groups
      rw [List.map_map]
      have : ((fun r : Row => (r.edge, r.start)) ∘ fun k : ℝ × ℝ => (⟨k.1, k.2, keys.count k⟩ : Row)) = id := rfl
      rw [this, List.map_id]
      exact (List.perm_insertionSort keyLe keys.dedup).nodup_iff.2 (List.nodup_dedup keys)
    · unfold groups
      rw [List.pairwise_map]
      haveI := keyLe_total
      haveI := keyLe_trans
      have hs := List.pairwise_insertionSort keyLe keys.dedup
      refine hs.imp ?_
      intro a b hab
      rcases hab with h | h
      · exact h.le
      · exact h.1.le

/-! ## C33 -/

theorem moment_eq (E : List Row) (last δ β : ℝ) (k : ℕ) : moment E last δ β k =
    (E.map fun r => (last - r.start) * mid δ r ^ k * Real.exp (-β * mid δ r)).sum := by
  unfold moment mid
  have e : δ * (1 / 2) = δ / 2 := by ring
  rw [e]

theorem moment_zero (E : List Row) (last δ β : ℝ) : moment E last δ β 0 =
    (E.map fun r => (last - r.start) * Real.exp (-β * mid δ r)).sum := by
  rw [moment_eq]; simp

/-- C33: a returned result is computed from the complete events, each counted in exactly one bin; the
beta is what the optimiser returns for the distance between expected and observed mean magnitude. -/
theorem C33_result {opt : (ℝ → Fl ℝ) → ℝ} {mags years : List ℝ} {table : List (ℝ × ℝ)} {magMax δ : ℝ}
    {last : Option ℝ} {b sd rate sdRate a : Fl ℝ} (hi : WeichertInput mags years table δ)
    (h : weichert opt mags years table magMax last δ "b_value" = .ok (b, sd, rate, sdRate, a)) :
    ∃ E β ly, IsBinned (mcOf table 0) δ (completeSpec mags years table) E ∧ E ≠ [] ∧ IsLastYear last years ly ∧
      β = opt (objective E ly δ) ∧ b = .fin (β / Real.log 10) ∧
      rate = (Fl.div ((E.map fun r => Real.exp (-β * mid δ r)).sum)
        ((E.map fun r => (ly - r.start) * Real.exp (-β * mid δ r)).sum)).scalePos
          ((completeSpec mags years table).length : ℝ) ∧
      sdRate = rate.mapFin (· / Real.sqrt (completeSpec mags years table).length) ∧
      sd = (stdBeta E ly δ β).mapFin (· / Real.log 10) ∧
      ∃ e0, (∃ r ∈ E, r.edge = e0) ∧ (∀ r ∈ E, e0 ≤ r.edge) ∧
        a = rate.log10.add (.fin (β / Real.log 10 * e0)) := by
  unfold weichert at h
  rw [w_assertions_ok hi (Or.inl rfl)] at h
  simp only [bind, Except.bind] at h
  cases hE : completeEvents mags years table magMax δ with
  | error e => rw [hE] at h; cases h
  | ok E =>
    rw [hE] at h
    simp only [] at h
    have hB := completeEvents_binned hi.width hi.ascending hE
    cases E with
    | nil => cases h
    | cons r0 E =>
      simp only [if_true] at h
      have hN : total (r0 :: E) = (completeSpec mags years table).length := hB.all
      injection h with h
      simp only [Prod.mk.injEq] at h
      obtain ⟨rfl, rfl, rfl, rfl, rfl⟩ := h
      have hy : years ≠ [] := by
        rw [← List.length_pos_iff, ← hi.length]; exact List.length_pos_iff.2 hi.magnitudes
      refine ⟨r0 :: E, _, lastYear last years, hB, by simp, lastYear_spec last hy, rfl, rfl, ?_, ?_, rfl, r0.edge, ⟨r0, by simp, rfl⟩, ?_, rfl⟩
      · unfold weichertRate
        rw [hN, moment_zero]
        have e : ∀ r : Row, r.edge + δ * (1 / 2) = mid δ r := fun r => by unfold mid; ring
        simp only [e]
      · rw [← hN]
      · intro r hr
        rcases List.mem_cons.1 hr with rfl | hr
        · exact le_refl _
        · exact (List.pairwise_cons.1 hB.sorted).1 r hr

theorem cutLeft_err (l : List ℝ) (m : ℝ) {e : PyErr} (h : cutLeft l m = .error e) : e = .attributeError := by
  induction l with
  | nil => cases h; rfl
  | cons a l ih =>
    cases l with
    | nil => cases h; rfl
    | cons b r =>
      unfold cutLeft at h
      split at h
      · cases h
      · exact ih h

theorem mapM_err_mem {α β : Type} {f : α → Py β} {l : List α} {e : PyErr} (h : l.mapM f = .error e) : ∃ a ∈ l, f a = .error e := by
  induction l with
  | nil => cases h
  | cons a l ih =>
    rw [List.mapM_cons] at h
    cases ha : f a with
    | error e' => rw [ha] at h; cases h; exact ⟨a, by simp, ha⟩
    | ok v =>
      rw [ha] at h
      cases hl : l.mapM f with
      | error e' =>
        rw [hl] at h; cases h
        obtain ⟨x, hx, hxe⟩ := ih hl
        exact ⟨x, by simp [hx], hxe⟩
      | ok r => rw [hl] at h; cases h

/-- C33: the refused inputs are exactly those that break an assertion. -/
theorem C33_refused (opt : (ℝ → Fl ℝ) → ℝ) (mags years : List ℝ) (table : List (ℝ × ℝ)) (magMax : ℝ) (last : Option ℝ)
    (δ : ℝ) (param : String) :
    weichert opt mags years table magMax last δ param = .error .assertionError ↔ Refused mags years table δ param := by
  rw [← assertions_refused]
  unfold weichert
  cases assertions mags years table δ param with
  | error e =>
    simp only [bind, Except.bind]
    constructor <;> intro h <;> (injection h with h; rw [h])
  | ok u =>
    simp only [bind, Except.bind, reduceCtorEq, iff_false]
    intro h
    cases hE : completeEvents mags years table magMax δ with
    | error e =>
      rw [hE] at h
      injection h with h
      subst h
      unfold completeEvents at hE
      simp only [bind, Except.bind] at hE
      split at hE
      · rename_i e he
        obtain ⟨p, -, hp⟩ := mapM_err_mem he
        injection hE with hE
        subst hE
        split at hp
        · rename_i e' he'
          have := cutLeft_err _ _ he'
          subst this
          cases hp
        · cases hp
      · cases hE
    | ok E =>
      rw [hE] at h
      cases E with
      | nil => cases h
      | cons r E =>
        simp only at h
        split at h <;> cases h

theorem lik_eq (E : List Row) (last δ β : ℝ) (hw : ∀ r ∈ E, 0 < last - r.start) (hZ : 0 < moment E last δ β 0) :
    binLik E last δ β = (E.map fun r => (r.num : ℝ) * Real.log (last - r.start)).sum -
      β * (E.map fun r => (r.num : ℝ) * mid δ r).sum - total E * Real.log (moment E last δ β 0) := by
  unfold binLik binProb total
  rw [← moment_zero]
  generalize moment E last δ β 0 = Z at hZ
  have : ∀ F : List Row, (∀ r ∈ F, 0 < last - r.start) →
      (F.map fun r => (r.num : ℝ) * Real.log ((last - r.start) * Real.exp (-β * mid δ r) / Z)).sum =
      (F.map fun r => (r.num : ℝ) * Real.log (last - r.start)).sum -
      β * (F.map fun r => (r.num : ℝ) * mid δ r).sum - ((F.map Row.num).sum : ℕ) * Real.log Z := by
    intro F hF
    induction F with
    | nil => simp
    | cons r F ih =>
      have h1 := hF r (by simp)
      simp only [List.map_cons, List.sum_cons, Nat.cast_add]
      rw [ih (fun s hs => hF s (by simp [hs])), Real.log_div (by positivity) hZ.ne',
        Real.log_mul h1.ne' (Real.exp_pos _).ne', Real.log_exp]
      ring
  exact this E hw

theorem moment_pos {E : List Row} {last δ β : ℝ} (hne : E ≠ []) (hw : ∀ r ∈ E, 0 < last - r.start) :
    0 < moment E last δ β 0 := by
  rw [moment_zero]
  apply List.sum_pos
  · intro x hx
    obtain ⟨r, hr, rfl⟩ := List.mem_map.1 hx
    exact mul_pos (hw r hr) (Real.exp_pos _)
  · simpa using hne

/-- C33: a `beta` at which the objective vanishes maximises the likelihood of the counts. -/
theorem C33_root_is_mle {E : List Row} {last δ β : ℝ} (hne : E ≠ []) (hN : 0 < total E)
    (hw : ∀ r ∈ E, 0 < last - r.start) (h0 : objective E last δ β = .fin 0) (β' : ℝ) :
    binLik E last δ β' ≤ binLik E last δ β := by
  have hZ := moment_pos (β := β) (δ := δ) hne hw
  have hZ' := moment_pos (β := β') (δ := δ) hne hw
  rw [lik_eq E last δ β hw hZ, lik_eq E last δ β' hw hZ']
  have hNr : (0 : ℝ) < total E := by exact_mod_cast hN
  set R := (E.map fun r => (r.num : ℝ) * mid δ r).sum with hR
  -- the mean
  have hmean : moment E last δ β 1 / moment E last δ β 0 = R / total E := by
    unfold objective at h0
    have e : Fl.div (moment E last δ β 1) (moment E last δ β 0) =
        .fin (moment E last δ β 1 / moment E last δ β 0) := by unfold Fl.div; rw [if_neg hZ.ne']
    simp only [e] at h0
    injection h0 with h0
    rw [abs_eq_zero, sub_eq_zero] at h0
    rw [h0]
    have e : ∀ r : Row, r.edge + δ * (1 / 2) = mid δ r := fun r => by unfold mid; ring
    simp only [e]
    rfl
  set ρ := R / total E with hρ
  have hRN : R = total E * ρ := by rw [hρ]; field_simp
  have hM1 : moment E last δ β 1 = ρ * moment E last δ β 0 := by
    rw [← hmean]; field_simp
  -- convexity
  have hconv : moment E last δ β 0 * Real.exp (-(β' - β) * ρ) ≤ moment E last δ β' 0 := by
    have key : ∀ F : List Row, (∀ r ∈ F, 0 < last - r.start) →
        Real.exp (-(β' - β) * ρ) * (moment F last δ β 0 -
          (β' - β) * (moment F last δ β 1 - ρ * moment F last δ β 0)) ≤ moment F last δ β' 0 := by
      intro F hF
      simp only [moment_eq]
      induction F with
      | nil => simp
      | cons r F ih =>
        have h1 := hF r (by simp)
        have hi := ih (fun s hs => hF s (by simp [hs]))
        simp only [List.map_cons, List.sum_cons, pow_zero, pow_one, mul_one] at hi ⊢
        have hx : Real.exp (-(β' - β) * ρ) * (1 - (β' - β) * (mid δ r - ρ)) * Real.exp (-β * mid δ r) ≤
            Real.exp (-β' * mid δ r) := by
          have h2 : Real.exp (-β' * mid δ r) = Real.exp (-(β' - β) * ρ) * Real.exp (-(β' - β) * (mid δ r - ρ)) *
              Real.exp (-β * mid δ r) := by
            rw [← Real.exp_add, ← Real.exp_add]; congr 1; ring
          rw [h2]
          apply mul_le_mul_of_nonneg_right _ (Real.exp_pos _).le
          apply mul_le_mul_of_nonneg_left _ (Real.exp_pos _).le
          have := Real.add_one_le_exp (-(β' - β) * (mid δ r - ρ))
          linarith
        have := mul_le_mul_of_nonneg_left hx h1.le
        nlinarith [this, hi]
    have := key E hw
    rw [hM1, sub_self, mul_zero, sub_zero] at this
    linarith
  have hlog := Real.log_le_log (mul_pos hZ (Real.exp_pos _)) hconv
  rw [Real.log_mul hZ.ne' (Real.exp_pos _).ne', Real.log_exp] at hlog
  rw [hRN]
  nlinarith

theorem spread_pos {E : List Row} {last δ β : ℝ} (hw : ∀ r ∈ E, 0 ≤ last - r.start) {r s : Row} (hr : r ∈ E)
    (hs : s ∈ E) (hrw : 0 < last - r.start) (hsw : 0 < last - s.start) (hne : r.edge ≠ s.edge) :
    0 < moment E last δ β 0 ∧
      moment E last δ β 1 ^ 2 < moment E last δ β 0 * moment E last δ β 2 := by
  have hM0 : 0 < moment E last δ β 0 := by
    rw [moment_zero]
    have hle : (last - r.start) * Real.exp (-β * mid δ r) ≤
        (E.map fun r => (last - r.start) * Real.exp (-β * mid δ r)).sum := by
      apply List.single_le_sum
      · intro x hx
        obtain ⟨q, hq, rfl⟩ := List.mem_map.1 hx
        exact mul_nonneg (hw q hq) (Real.exp_pos _).le
      · exact List.mem_map.2 ⟨r, hr, rfl⟩
    exact lt_of_lt_of_le (mul_pos hrw (Real.exp_pos _)) hle
  refine ⟨hM0, ?_⟩
  set μ := moment E last δ β 1 / moment E last δ β 0 with hμ
  have hdev : (E.map fun r => (last - r.start) * Real.exp (-β * mid δ r) * (mid δ r - μ) ^ 2).sum =
      moment E last δ β 2 - 2 * μ * moment E last δ β 1 + μ ^ 2 * moment E last δ β 0 := by
    simp only [moment_eq]
    generalize μ = ν
    clear hμ hM0 hr hs hw
    induction E with
    | nil => simp
    | cons q E ih =>
      simp only [List.map_cons, List.sum_cons, pow_zero, pow_one, mul_one] at ih ⊢
      rw [ih]; ring
  have hpos : 0 < (E.map fun r => (last - r.start) * Real.exp (-β * mid δ r) * (mid δ r - μ) ^ 2).sum := by
    have hnn : ∀ x ∈ (E.map fun r => (last - r.start) * Real.exp (-β * mid δ r) * (mid δ r - μ) ^ 2), 0 ≤ x := by
      intro x hx
      obtain ⟨q, hq, rfl⟩ := List.mem_map.1 hx
      exact mul_nonneg (mul_nonneg (hw q hq) (Real.exp_pos _).le) (sq_nonneg _)
    have hor : mid δ r ≠ μ ∨ mid δ s ≠ μ := by
      by_contra hc
      rw [not_or, not_not, not_not] at hc
      apply hne
      have : mid δ r = mid δ s := hc.1.trans hc.2.symm
      unfold mid at this
      linarith
    rcases hor with h | h
    · refine lt_of_lt_of_le ?_ (List.single_le_sum hnn _ (List.mem_map.2 ⟨r, hr, rfl⟩))
      exact mul_pos (mul_pos hrw (Real.exp_pos _)) (by positivity [sub_ne_zero.2 h])
    · refine lt_of_lt_of_le ?_ (List.single_le_sum hnn _ (List.mem_map.2 ⟨s, hs, rfl⟩))
      exact mul_pos (mul_pos hsw (Real.exp_pos _)) (by positivity [sub_ne_zero.2 h])
  rw [hdev] at hpos
  have h1 : moment E last δ β 1 = μ * moment E last δ β 0 := by rw [hμ]; field_simp
  rw [h1] at hpos ⊢
  nlinarith

/-- C33: the standard deviation of beta is a positive number as soon as two different bins have been
observed, no bin having a negative exposure. -/
theorem C33_std_positive {E : List Row} {last δ β : ℝ} (hN : 0 < total E) (hw : ∀ r ∈ E, 0 ≤ last - r.start)
    {r s : Row} (hr : r ∈ E) (hs : s ∈ E) (hrw : 0 < last - r.start) (hsw : 0 < last - s.start)
    (hne : r.edge ≠ s.edge) :
    ∃ σ, stdBeta E last δ β = .fin σ ∧ 0 < σ ∧
      σ ^ 2 = moment E last δ β 0 ^ 2 / (total E *
        (moment E last δ β 0 * moment E last δ β 2 - moment E last δ β 1 ^ 2)) := by
  obtain ⟨h0, h1⟩ := spread_pos (δ := δ) (β := β) hw hr hs hrw hsw hne
  have hNr : (0 : ℝ) < total E := by exact_mod_cast hN
  have hd : moment E last δ β 1 ^ 2 - moment E last δ β 0 * moment E last δ β 2 < 0 := by linarith
  have hv : 0 < -(1 / (total E : ℝ)) * moment E last δ β 0 ^ 2 /
      (moment E last δ β 1 ^ 2 - moment E last δ β 0 * moment E last δ β 2) := by
    apply div_pos_of_neg_of_neg _ hd
    have : 0 < 1 / (total E : ℝ) * moment E last δ β 0 ^ 2 := by positivity
    linarith
  refine ⟨Real.sqrt (-(1 / (total E : ℝ)) * moment E last δ β 0 ^ 2 /
      (moment E last δ β 1 ^ 2 - moment E last δ β 0 * moment E last δ β 2)), ?_, Real.sqrt_pos.2 hv, ?_⟩
  · unfold stdBeta
    simp only [Real.sqrt_sq h0.le]
    have : Fl.div (-(1 / (total E : ℝ)) * moment E last δ β 0 ^ 2)
        (moment E last δ β 1 ^ 2 - moment E last δ β 0 * moment E last δ β 2) =
        .fin (-(1 / (total E : ℝ)) * moment E last δ β 0 ^ 2 /
          (moment E last δ β 1 ^ 2 - moment E last δ β 0 * moment E last δ β 2)) := by
      unfold Fl.div; rw [if_neg hd.ne]
    rw [this]
    simp only [sqrtFl, Fl.sqrt]
    rw [if_neg (not_lt.2 hv.le)]
  · rw [Real.sq_sqrt hv.le]
    have hd' : moment E last δ β 0 * moment E last δ β 2 - moment E last δ β 1 ^ 2 ≠ 0 := by linarith
    have hd'' : moment E last δ β 1 ^ 2 - moment E last δ β 0 * moment E last δ β 2 ≠ 0 := hd.ne
    field_simp
    ring

/-- C33: with the default `last_year` no complete event has a negative exposure. -/
theorem C33_exposure {mags years : List ℝ} {table : List (ℝ × ℝ)} {δ : ℝ} {E : List Row}
    (hB : IsBinned (mcOf table 0) δ (completeSpec mags years table) E) {ly : ℝ}
    (hl : IsLastYear none years ly) : ∀ r ∈ E, 0 < r.start ∧ 0 ≤ ly - r.start := by
  intro r hr
  have h1 := hB.occupied r hr
  rw [hB.count r hr, List.countP_pos_iff] at h1
  obtain ⟨p, hp, hq⟩ := h1
  obtain ⟨-, -, hq⟩ := of_decide_eq_true hq
  unfold completeSpec at hp
  obtain ⟨ev, hev, he⟩ := List.mem_filterMap.1 hp
  have hmax : ∀ y ∈ years, y ≤ ly := fun y hy => (hl.2 (Or.inl rfl)).2 hy
  split at he
  · split at he
    · rename_i s hs hc
      cases he
      simp only at hq
      rw [← hq]
      have := hmax _ (List.of_mem_zip hev).2
      exact ⟨hc.1, by linarith [hc.2]⟩
    · cases he
  · cases he

/-- A finding about C33: with all complete events in one magnitude bin the deviation is NaN. -/
theorem C33_single_bin_nan {E : List Row} {last δ β e0 : ℝ} (hN : 0 < total E)
    (hw : ∀ r ∈ E, 0 < last - r.start) (he : ∀ r ∈ E, r.edge = e0) : stdBeta E last δ β = .nan := by
  have hne : E ≠ [] := by rintro rfl; exact absurd hN (by simp [total])
  have h0 := moment_pos (β := β) (δ := δ) hne hw
  have hk : ∀ k, moment E last δ β k = (e0 + δ / 2) ^ k * moment E last δ β 0 := by
    intro k
    simp only [moment_eq]
    clear hN hw hne h0
    induction E with
    | nil => simp
    | cons r E ih =>
      have h1 := he r (by simp)
      have h2 := ih (fun s hs => he s (by simp [hs]))
      simp only [List.map_cons, List.sum_cons, pow_zero, mul_one] at h2 ⊢
      rw [h2]
      unfold mid
      rw [h1]
      ring
  have hNr : (0 : ℝ) < total E := by exact_mod_cast hN
  unfold stdBeta
  simp only [Real.sqrt_sq h0.le]
  rw [hk 1, hk 2]
  have hz : ((e0 + δ / 2) ^ 1 * moment E last δ β 0) ^ 2 -
      moment E last δ β 0 * ((e0 + δ / 2) ^ 2 * moment E last δ β 0) = 0 := by ring
  rw [hz]
  have hneg : -(1 / (total E : ℝ)) * moment E last δ β 0 ^ 2 < 0 := by
    have : 0 < 1 / (total E : ℝ) * moment E last δ β 0 ^ 2 := by positivity
    linarith
  have : Fl.div (-(1 / (total E : ℝ)) * moment E last δ β 0 ^ 2) 0 = .ninf := by
    unfold Fl.div; rw [if_pos rfl, if_neg hneg.ne, if_neg (not_lt.2 hneg.le)]
  rw [this]
  rfl

/-- A finding about C33: a complete event at or above the last bin edge (the largest grid point below
`mag_max + 0.01`) raises AttributeError. -/
theorem C33_above_last_bin (opt : (ℝ → Fl ℝ) → ℝ) {mags years : List ℝ} {table : List (ℝ × ℝ)} {magMax δ : ℝ}
    (last : Option ℝ) {param : String} (hp : param = "b_value" ∨ param = "beta")
    (hi : WeichertInput mags years table δ) {p : ℝ × ℝ} (hc : p ∈ completeSpec mags years table)
    (hm : magMax + 1 / 100 ≤ p.1) :
    weichert opt mags years table magMax last δ param = .error .attributeError := by
  have herr : ∀ (l : List ℝ) (m : ℝ) (e : PyErr), cutLeft l m = .error e → e = .attributeError := by
    intro l
    induction l with
    | nil => intro m e h; unfold cutLeft at h; cases h; rfl
    | cons a l ih =>
      intro m e h
      cases l with
      | nil => unfold cutLeft at h; cases h; rfl
      | cons b l =>
        unfold cutLeft at h
        split at h
        · cases h
        · exact ih m e h
  unfold weichert
  rw [w_assertions_ok hi hp]
  simp only [bind, Except.bind]
  have : completeEvents mags years table magMax δ = .error .attributeError := by
    unfold completeEvents
    simp only [bind, Except.bind]
    rw [complete_eq hi.ascending]
    have hno : ∀ e, cutLeft (arange (table.getD 0 (0, 0)).1 (magMax + 1 / 100) δ) p.1 ≠ .ok e := by
      intro e h
      obtain ⟨k, h1, h2, h3, h4⟩ := (cutLeft_arange _ _ _ _ _ hi.width).1 h
      rw [Int.lt_toNat, Int.lt_ceil, lt_div_iff₀ hi.width] at h1
      push_cast at h1
      rw [h2] at h4
      linarith
    generalize completeSpec mags years table = C at hc
    have : ∀ l : List (ℝ × ℝ), p ∈ l → ((l.mapM fun p => (do { let e ← cutLeft (arange (table.getD 0 (0, 0)).1 (magMax + 1 / 100) δ) p.1; pure (e, p.2) })) : Py (List (ℝ × ℝ))) = .error .attributeError := by
      intro l hl
      induction l with
      | nil => cases hl
      | cons q l ih =>
        rw [List.mapM_cons]
        cases hq : cutLeft (arange (table.getD 0 (0, 0)).1 (magMax + 1 / 100) δ) q.1 with
        | error e => rw [herr _ _ _ hq]; rfl
        | ok e =>
          rcases List.mem_cons.1 hl with rfl | hl
          · exact absurd hq (hno e)
          · simp only [bind, Except.bind, pure, Except.pure]
            have := ih hl
            simp only [bind, Except.bind, pure, Except.pure] at this
            rw [this]
    have := this C hc
    simp only [bind, Except.bind] at this
    rw [this]
  rw [this]

/-- A finding about C33: `b_parameter = 'beta'` never returns. -/
theorem C33_beta_unbound (opt : (ℝ → Fl ℝ) → ℝ) (mags years : List ℝ) (table : List (ℝ × ℝ)) (magMax δ : ℝ)
    (last : Option ℝ) : (∃ e, weichert opt mags years table magMax last δ "beta" = .error e) ∧
    ∀ r, weichert opt mags years table magMax last δ "b_value" = .ok r →
      weichert opt mags years table magMax last δ "beta" = .error .unboundLocal := by
  have ha : assertions mags years table δ "beta" = assertions mags years table δ "b_value" := by
    unfold assertions; simp
  unfold weichert
  rw [ha]
  simp only [bind, Except.bind, pure, Except.pure]
  cases assertions mags years table δ "b_value" with
  | error e => exact ⟨⟨e, rfl⟩, fun r hr => by cases hr⟩
  | ok u =>
    simp only []
    cases completeEvents mags years table magMax δ with
    | error e => exact ⟨⟨e, rfl⟩, fun r hr => by cases hr⟩
    | ok E =>
      simp only []
      cases E with
      | nil => exact ⟨⟨_, rfl⟩, fun r hr => by cases hr⟩
      | cons r E => exact ⟨⟨_, rfl⟩, fun r hr => rfl⟩

/-! ## The hypotheses are met -/

/-- Two events in different bins: input accepted, both complete. -/
theorem demoW_input : WeichertInput [4.5, 5.5] [1990, 1930] [(4, 1980), (5, 1920)] 1 :=
  ⟨rfl, by simp, by norm_num, by simp, by norm_num⟩

theorem demoW_complete : completeSpec [4.5, 5.5] [1990, 1930] [(4, 1980), (5, 1920)] = [(4.5, 1980), (5.5, 1920)] := by
  norm_num [completeSpec, since, List.filter, List.filterMap]

/-- A result is returned, whatever the optimiser does. -/
example (opt : (ℝ → Fl ℝ) → ℝ) :
    ∃ r, weichert opt [4.5, 5.5] [1990, 1930] [(4, 1980), (5, 1920)] 7 none 1 "b_value" = .ok r := by
  have hE : ∃ E, completeEvents [4.5, 5.5] [1990, 1930] [(4, 1980), (5, 1920)] 7 1 = .ok E := by
    unfold completeEvents
    simp only [bind, Except.bind]
    rw [complete_eq demoW_input.ascending, demoW_complete]
    have c1 : cutLeft (arange (4 : ℝ) (7 + 1 / 100) 1) 4.5 = .ok 4 := by
      rw [cutLeft_arange _ _ _ _ _ one_pos]
      refine ⟨0, ?_, by norm_num, by norm_num, by norm_num⟩
      rw [Int.lt_toNat, Int.lt_ceil]; norm_num
    have c2 : cutLeft (arange (4 : ℝ) (7 + 1 / 100) 1) 5.5 = .ok 5 := by
      rw [cutLeft_arange _ _ _ _ _ one_pos]
      refine ⟨1, ?_, by norm_num, by norm_num, by norm_num⟩
      rw [Int.lt_toNat, Int.lt_ceil]; norm_num
    simp only [List.getD_cons_zero, List.mapM_cons, List.mapM_nil, c1, c2, bind, Except.bind, pure, Except.pure]
    exact ⟨_, rfl⟩
  obtain ⟨E, hE⟩ := hE
  have hB := completeEvents_binned demoW_input.width demoW_input.ascending hE
  have hne : E ≠ [] := by
    rintro rfl
    have := hB.all
    rw [demoW_complete] at this
    simp at this
  obtain ⟨r, E', rfl⟩ := List.exists_cons_of_ne_nil hne
  unfold weichert
  rw [w_assertions_ok demoW_input (Or.inl rfl)]
  simp only [bind, Except.bind, hE, if_true]
  exact ⟨_, rfl⟩

/-- Counts with different centres and positive exposure, at which the objective vanishes. -/
example : ∃ E : List Row, E ≠ [] ∧ 0 < total E ∧ (∀ r ∈ E, 0 < (2000 : ℝ) - r.start) ∧
    objective E 2000 1 0 = .fin 0 ∧ ∃ r ∈ E, ∃ s ∈ E, r.edge ≠ s.edge := by
  refine ⟨[⟨4, 1990, 1⟩, ⟨5, 1990, 1⟩], by simp, by simp [total], ?_, ?_, ⟨4, 1990, 1⟩, by simp, ⟨5, 1990, 1⟩,
    by simp, by norm_num⟩
  · intro r hr
    simp at hr
    rcases hr with rfl | rfl <;> norm_num
  · unfold objective moment Fl.div total
    norm_num

end
end SeismoStats.Props
