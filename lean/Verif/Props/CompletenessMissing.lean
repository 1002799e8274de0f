/-
C124: missing magnitudes in the estimators with varying completeness.
-/
import Verif.Model.CompletenessMissing
import Verif.Props.Weichert

namespace SeismoStats
namespace Props
noncomputable section
open Completeness

/-- The events that have a magnitude, with their years. -/
def known (mags : List (Option ℝ)) (years : List ℝ) : List (ℝ × ℝ) :=
  (List.zip mags years).filterMap fun p => p.1.map fun m => (m, p.2)

private theorem known_none (mags : List (Option ℝ)) (years : List ℝ) (y : ℝ) : known (none :: mags) (y :: years) = known mags years := rfl
private theorem known_some (mags : List (Option ℝ)) (years : List ℝ) (m y : ℝ) : known (some m :: mags) (y :: years) = (m, y) :: known mags years := rfl

private theorem sub_known (mags : List (Option ℝ)) (years : List ℝ) (table : List (ℝ × ℝ)) (i : ℕ) :
    subCatalogueM mags years table i = subCatalogue ((known mags years).map Prod.fst) ((known mags years).map Prod.snd) table i := by
  unfold subCatalogueM subCatalogue
  induction mags generalizing years with
  | nil => rfl
  | cons m mags ih =>
    cases years with
    | nil => rfl
    | cons y years =>
      have ih' := ih years
      unfold mask at ih' ⊢
      simp only [List.zipWith_cons_cons, List.zip_cons_cons]
      cases m with
      | none =>
        rw [known_none, ← ih']
        have : (decide (insertion table y = i) && above (table.getD i (0, 0)).1 none) = false := by simp [above]
        rw [this, List.filterMap_cons_none (by rfl)]
      | some v =>
        rw [known_some]
        simp only [List.map_cons, List.zipWith_cons_cons, List.zip_cons_cons]
        rw [show above (table.getD i (0, 0)).1 (some v) = decide ((table.getD i (0, 0)).1 < v) from rfl]
        cases h : (decide (insertion table y = i) && decide ((table.getD i (0, 0)).1 < v))
        · rw [List.filterMap_cons_none (by rfl), List.filterMap_cons_none (by rfl), ih']
        · rw [List.filterMap_cons_some (b := some v) (by rfl), List.filterMap_cons_some (b := v) (by rfl), List.filterMap_cons_some (b := v) (by rfl), ih']

private theorem assertions_known {mags : List (Option ℝ)} {years : List ℝ} (table : List (ℝ × ℝ)) (δ : ℝ) (param : String) (hlen : mags.length = years.length)
    (hne : known mags years ≠ []) :
    assertionsM mags years table δ param = assertions ((known mags years).map Prod.fst) ((known mags years).map Prod.snd) table δ param := by
  have h1 : mags ≠ [] := by rintro rfl; exact hne rfl
  unfold assertionsM assertions
  have h2 : (known mags years).map Prod.fst ≠ [] := by rwa [ne_eq, List.map_eq_nil_iff]
  rw [if_neg (not_not.2 hlen), if_neg (not_not.2 (by rw [List.length_map, List.length_map])), if_neg h1, if_neg h2]

/-- C124, Kijko and Smit: events without a magnitude are ignored, except that the default last year is that of all events. -/
theorem C124_kijko_smit {mags : List (Option ℝ)} {years : List ℝ} (hlen : mags.length = years.length) (hne : known mags years ≠ []) (table : List (ℝ × ℝ))
    (last : Option ℝ) (hly : lastYear last years ≠ 0) (δ : ℝ) (param : String) :
    kijkoSmitM mags years table last δ param =
      kijkoSmit ((known mags years).map Prod.fst) ((known mags years).map Prod.snd) table (some (lastYear last years)) δ param := by
  have hl : lastYear (some (lastYear last years)) ((known mags years).map Prod.snd) = lastYear last years := by
    change (if lastYear last years = 0 then _ else lastYear last years) = _
    rw [if_neg hly]
  have hs : subCatalogueM mags years table = subCatalogue ((known mags years).map Prod.fst) ((known mags years).map Prod.snd) table :=
    funext fun i => sub_known mags years table i
  unfold kijkoSmitM kijkoSmit
  rw [assertions_known table δ param hlen hne, hl, hs]
  rfl

private theorem complete_known (mags : List (Option ℝ)) (years : List ℝ) (table : List (ℝ × ℝ))
    (h : ∀ y, (none, y) ∈ List.zip mags years → (table.getLastD (0, -1)).2 ≤ 0 ∨ y < (table.getLastD (0, -1)).2) :
    completeM mags years table = (complete ((known mags years).map Prod.fst) ((known mags years).map Prod.snd) table).map fun p => (some p.1, p.2) := by
  unfold completeM complete
  induction mags generalizing years with
  | nil => rfl
  | cons m mags ih =>
    cases years with
    | nil => rfl
    | cons y years =>
      have ih' := ih years fun z hz => h z (by rw [List.zip_cons_cons]; exact List.mem_cons_of_mem _ hz)
      cases m with
      | none =>
        rw [known_none, ← ih', List.zip_cons_cons, List.filterMap_cons_none]
        have h1 := h y (by rw [List.zip_cons_cons]; exact List.mem_cons_self)
        dsimp only [startYearM]
        rw [if_neg]
        rintro ⟨h2, h3⟩
        rcases h1 with h1 | h1 <;> linarith
      | some v =>
        rw [known_some]
        simp only [List.map_cons, List.zip_cons_cons]
        by_cases hc : 0 < startYear table v ∧ 0 ≤ y - startYear table v
        · rw [List.filterMap_cons_some (b := (some v, startYear table v)) (by exact if_pos hc),
            List.filterMap_cons_some (b := (v, startYear table v)) (by exact if_pos hc), ih', List.map_cons]
        · rw [List.filterMap_cons_none (by exact if_neg hc), List.filterMap_cons_none (by exact if_neg hc), ih']

private theorem mapM_map' {α β γ : Type} (l : List α) (F : α → β) (G : β → Py γ) : (l.map F).mapM G = l.mapM fun a => G (F a) := by
  induction l with
  | nil => rfl
  | cons a l ih => rw [List.map_cons, List.mapM_cons, List.mapM_cons, ih]

/-- C124, Weichert: events without a magnitude that are older than the last row of the completeness table are ignored, except that the default last year is that of
all events. -/
theorem C124_weichert_ignored (opt : (ℝ → Fl ℝ) → ℝ) {mags : List (Option ℝ)} {years : List ℝ} (hlen : mags.length = years.length) (hne : known mags years ≠ [])
    (table : List (ℝ × ℝ)) (h : ∀ y, (none, y) ∈ List.zip mags years → (table.getLastD (0, -1)).2 ≤ 0 ∨ y < (table.getLastD (0, -1)).2) (magMax : ℝ)
    (last : Option ℝ) (hly : lastYear last years ≠ 0) (δ : ℝ) (param : String) :
    weichertM opt mags years table magMax last δ param =
      weichert opt ((known mags years).map Prod.fst) ((known mags years).map Prod.snd) table magMax (some (lastYear last years)) δ param := by
  have hl : lastYear (some (lastYear last years)) ((known mags years).map Prod.snd) = lastYear last years := by
    change (if lastYear last years = 0 then _ else lastYear last years) = _
    rw [if_neg hly]
  have hE : completeEventsM mags years table magMax δ = completeEvents ((known mags years).map Prod.fst) ((known mags years).map Prod.snd) table magMax δ := by
    unfold completeEventsM completeEvents
    rw [complete_known mags years table h]
    dsimp only
    rw [mapM_map']
    rfl
  unfold weichertM weichert
  rw [assertions_known table δ param hlen hne, hl, hE]
  rfl

private theorem mapM_ok_mem {α β : Type} {f : α → Py β} {l : List α} {r : List β} (h : l.mapM f = .ok r) {a : α} (ha : a ∈ l) : ∃ b, f a = .ok b := by
  rw [mapM_ok_iff] at h
  induction h with
  | nil => exact (nomatch ha)
  | cons h1 _ ih =>
    rcases List.mem_cons.1 ha with rfl | ha
    · exact ⟨_, h1⟩
    · exact ih ha

/-- C124, defect of Weichert: one event without a magnitude in or after the year of the last row of the completeness table makes the function fail with an
AttributeError. -/
theorem C124_defect_weichert (opt : (ℝ → Fl ℝ) → ℝ) {mags : List (Option ℝ)} {years : List ℝ} (hlen : mags.length = years.length) (table : List (ℝ × ℝ)) (m s : ℝ)
    (hasc : ascending (table ++ [(m, s)]) = true) (hs : 0 < s) {y : ℝ} (hy : (none, y) ∈ List.zip mags years) (hys : s ≤ y) (magMax : ℝ) (last : Option ℝ) {δ : ℝ}
    (hδ : 0 < δ) {param : String} (hp : param = "b_value" ∨ param = "beta") :
    weichertM opt mags years (table ++ [(m, s)]) magMax last δ param = .error .attributeError := by
  have hne : mags ≠ [] := by rintro rfl; exact (nomatch hy)
  have ha : assertionsM mags years (table ++ [(m, s)]) δ param = .ok () := by
    unfold assertionsM
    rw [if_neg (not_not.2 hlen), hasc, if_neg (by decide), if_neg hne, if_neg (by simp), if_neg hδ.ne', if_neg (not_lt.2 hδ.le), if_pos hp]
  have hst : startYearM (table ++ [(m, s)]) none = s := by
    unfold startYearM
    rw [List.getLastD_concat]
  have hmem : ((none, s) : Option ℝ × ℝ) ∈ completeM mags years (table ++ [(m, s)]) := by
    unfold completeM
    rw [List.mem_filterMap]
    refine ⟨(none, y), hy, ?_⟩
    dsimp only
    rw [hst, if_pos ⟨hs, sub_nonneg.2 hys⟩]
  have hE : completeEventsM mags years (table ++ [(m, s)]) magMax δ = .error .attributeError := by
    unfold completeEventsM
    dsimp only
    set f : Option ℝ × ℝ → Py (ℝ × ℝ) := fun p => do
      let e ← cutLeftM (arange ((table ++ [(m, s)]).getD 0 (0, 0)).1 (magMax + 1 / 100) δ) p.1
      pure (e, p.2) with hf
    have herr : ∀ p e, f p = .error e → e = .attributeError := by
      intro p e he
      rw [hf] at he
      dsimp only at he
      cases hc : cutLeftM (arange ((table ++ [(m, s)]).getD 0 (0, 0)).1 (magMax + 1 / 100) δ) p.1 with
      | ok v => rw [hc] at he; exact (nomatch he)
      | error e' =>
        rw [hc] at he
        injection he with he
        subst he
        unfold cutLeftM at hc
        split at hc
        · exact cutLeft_err _ _ hc
        · injection hc with hc; exact hc.symm
    cases hm : (completeM mags years (table ++ [(m, s)])).mapM f with
    | error e =>
      obtain ⟨p, -, hp⟩ := mapM_err_mem hm
      rw [herr p e hp]
      rfl
    | ok r =>
      obtain ⟨b, hb⟩ := mapM_ok_mem hm hmem
      exact (nomatch hb)
  unfold weichertM
  rw [ha, hE]
  rfl

/-- Three events, the second without a magnitude, completeness magnitudes 2.95 since 1990 and 3.95 since 1950: Kijko and Smit ignore the second. -/
example : kijkoSmitM [some 3.1, none, some 4.2] [2001, 2005, 1960] [(2.95, 1990), (3.95, 1950)] none 0.1 "b_value" =
    kijkoSmit [3.1, 4.2] [2001, 1960] [(2.95, 1990), (3.95, 1950)] (some 2005) 0.1 "b_value" := by
  have hl : lastYear none [2001, 2005, 1960] = 2005 := by
    norm_num [lastYear, amax?]
  have := C124_kijko_smit (mags := [some 3.1, none, some 4.2]) (years := [2001, 2005, 1960]) rfl (by simp [known]) [(2.95, 1990), (3.95, 1950)] none
    (by rw [hl]; norm_num) 0.1 "b_value"
  rw [hl] at this
  exact this

/-- The same events: Weichert fails. -/
example (opt : (ℝ → Fl ℝ) → ℝ) : weichertM opt [some 3.1, none, some 4.2] [2001, 2005, 1960] [(2.95, 1990), (3.95, 1950)] 5.05 none 0.1 "b_value"
    = .error .attributeError :=
  C124_defect_weichert opt (mags := [some 3.1, none, some 4.2]) (years := [2001, 2005, 1960]) rfl [(2.95, 1990)] 3.95 1950
    (by norm_num [ascending, diff]) (by norm_num) (y := 2005) (by simp) (by norm_num) 5.05 none (by norm_num) (Or.inl rfl)

/-- An event of 1940 without a magnitude does no harm. -/
example (opt : (ℝ → Fl ℝ) → ℝ) : weichertM opt [some 3.1, none, some 4.2] [2001, 1940, 1960] [(2.95, 1990), (3.95, 1950)] 5.05 (some 2010) 0.1 "b_value" =
    weichert opt [3.1, 4.2] [2001, 1960] [(2.95, 1990), (3.95, 1950)] 5.05 (some 2010) 0.1 "b_value" := by
  have hl : lastYear (some 2010) [2001, 1940, 1960] = 2010 := by norm_num [lastYear]
  have := C124_weichert_ignored opt (mags := [some 3.1, none, some 4.2]) (years := [2001, 1940, 1960]) rfl (by simp [known]) [(2.95, 1990), (3.95, 1950)]
    (by intro y hy; right; simp at hy; subst hy; norm_num) 5.05 (some 2010) (by rw [hl]; norm_num) 0.1 "b_value"
  rw [hl] at this
  exact this

end
end Props
end SeismoStats
