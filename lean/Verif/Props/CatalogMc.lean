/-
Property C108: what `Catalog.estimate_mc_maxc`, `estimate_mc_ks` and `estimate_mc_b_stability` compute from the rows of a catalogue, and how
`estimate_b` and `estimate_a` go on from there.
-/
import Verif.Model.CatalogMc
import Verif.Props.CatalogEstimates
import Verif.Props.McMaxc
import Verif.Props.McKsLoop
import Verif.Props.McStability

namespace SeismoStats.Props
open SeismoStats SeismoStats.Catalog SeismoStats.CatalogEstimates SeismoStats.CatalogMc SeismoStats.EstimateMc
open Classical
noncomputable section

/-! ### Specification -/

/-- The magnitudes of the rows that have one, in the order of the rows. -/
def numbersIn (f : Frame (Val ℝ)) : List ℝ := (f.rows.map magIn).filterMap id

/-- The b-value of the KS search: the argument, else the one stored in the catalogue (`none`: it is estimated). -/
def KnownB (arg stored b : Option (Fl ℝ)) : Prop := (arg.isSome → b = arg) ∧ (arg = none → b = stored)

/-- The call of the function `estimate_mc_ks` on the rows: a Series with the magnitudes. -/
def ksArgsOf (f : Frame (Val ℝ)) (δ : ℝ) (b : Option (Fl ℝ)) (o : KsOptions) : KsArgs :=
  { mags := numbersIn f, δ := δ, mcs := o.mcs, pPass := o.pPass, bValue := b, cls := o.cls, given := o.given, sims := o.sims, series := true }

/-- A candidate of the KS search: one of the list, by default the bins from the smallest magnitude up to, not including, the largest. -/
def KsCandidate (nums : List ℝ) (δ : ℝ) (mcs : Option (List ℝ)) (m : ℝ) : Prop :=
  (∀ l, mcs = some l → m ∈ l) ∧
  (mcs = none → ∃ (lo hi c : ℝ) (k : ℕ), IsLeast {v | v ∈ nums} lo ∧ IsGreatest {v | v ∈ nums} hi ∧ Spec.RoundsTo (1 / 10 ^ 12) δ lo c ∧
    m = c + k * δ ∧ lo + k * δ < hi)

/-- Only the number `mc` has changed. -/
def OnlyMc (c c' : Ct) (mc : Option (Fl ℝ)) : Prop := c' = { c with mc := mc }

/-! ### Reading the rows -/

theorem seriesMags_column (f : Frame (Val ℝ)) : seriesMags (f.column "magnitude") = numbersIn f := by
  unfold seriesMags numbersIn
  rw [mags_column]

theorem estimateMaxc_eq (c : Ct) (hm : "magnitude" ∈ c.frame.cols) (fmdBin corr : ℝ) :
    estimateMaxc c fmdBin corr = match mcMaxc (c.frame.rows.map magIn) fmdBin corr with
      | .error e => (c, .error e)
      | .ok r => ({ c with mc := some (.fin r.1) }, .ok (some (.fin r.1), r.2)) := by
  unfold estimateMaxc estimateMcMaxc
  rw [C57_runs _ _ _ _ _ (by simpa using hm)]
  unfold maxcOf
  rw [mags_column]
  cases mcMaxc (c.frame.rows.map magIn) fmdBin corr <;> rfl

theorem estimateKs_eq (warn : Bool) (c : Ct) (hm : "magnitude" ∈ c.frame.cols) (δArg : Option ℝ) (δ : ℝ) (h2 : Stands δArg c.deltaM δ)
    (bArg b : Option (Fl ℝ)) (hb : KnownB bArg c.bValue b) (o : KsOptions) :
    estimateKs warn c δArg bArg o = match mcKs warn o.stop (ksArgsOf c.frame δ b o) with
      | .error e => (c, .error e)
      | .ok r => ({ c with mc := r.best.map .fin }, .ok (r.best.map .fin, r)) := by
  have hor : bArg.or c.bValue = b := by
    cases bArg with
    | none => exact (hb.2 rfl).symm
    | some x => exact (hb.1 rfl).symm
  unfold estimateKs estimateMcKs
  rw [C57_runs _ _ _ _ _ (by simpa using hm)]
  unfold ksCall
  rw [(resolve_ok _ _ _).2 h2, hor]
  unfold ksOf
  simp only [bind, Except.bind]
  rw [seriesMags_column]
  unfold ksArgsOf
  cases mcKs warn o.stop { mags := numbersIn c.frame, δ := δ, mcs := o.mcs, pPass := o.pPass, bValue := b, cls := o.cls, given := o.given, sims := o.sims, series := true } <;> rfl

theorem estimateStability_eq (warn : Bool) (c : Ct) (hm : "magnitude" ∈ c.frame.cols) (δArg : Option ℝ) (δ : ℝ) (h2 : Stands δArg c.deltaM δ)
    (o : StabOptions) :
    estimateStability warn c δArg o = match mcStability warn o.stop o.cls o.ω (numbersIn c.frame) δ o.range o.mcs with
      | .error e => (c, .error e)
      | .ok r => ({ c with mc := r.best.map .fin }, .ok (r.best.map .fin, r)) := by
  unfold estimateStability estimateMcStability
  rw [C57_runs _ _ _ _ _ (by simpa using hm)]
  unfold stabilityCall
  rw [(resolve_ok _ _ _).2 h2]
  unfold stabilityOf
  simp only [bind, Except.bind]
  rw [seriesMags_column]
  cases mcStability warn o.stop o.cls o.ω (numbersIn c.frame) δ o.range o.mcs <;> rfl

/-! ## C108: the three methods -/

/-- C108: `estimate_mc_maxc` stores and returns the lowest of the fullest magnitude bins of the rows plus the correction (0.2 by default); nothing else
is changed. Without a magnitude it is a ValueError, and nothing is changed. -/
theorem C108_maxc (c : Ct) (hm : "magnitude" ∈ c.frame.cols) (fmdBin corr : ℝ) :
    (1 / 10 ^ 12 ≤ fmdBin → numbersIn c.frame ≠ [] → ∃ v, IsFullest (c.frame.rows.map magIn) fmdBin v ∧
      estimateMaxc c fmdBin corr = ({ c with mc := some (.fin (v + corr)) }, .ok (some (.fin (v + corr)), corr)) ∧
      estimateMaxc c fmdBin = estimateMaxc c fmdBin (2 / 10)) ∧
    (numbersIn c.frame = [] ∨ fmdBin ≤ 0 → estimateMaxc c fmdBin corr = (c, .error .valueError)) := by
  constructor
  · intro hδ hne
    obtain ⟨v, h1, h2⟩ := C37_maxc (mags := c.frame.rows.map magIn) corr hδ (by
      obtain ⟨m, hm⟩ := List.exists_mem_of_ne_nil _ hne
      obtain ⟨o, ho, e⟩ := List.mem_filterMap.1 hm
      exact ⟨m, by rw [← show o = some m from e]; exact ho⟩)
    refine ⟨v, h2, ?_, ?_⟩
    · rw [estimateMaxc_eq c hm, h1]
    · norm_num
  · intro h
    rw [estimateMaxc_eq c hm, C37_raises corr (h.imp_left fun h => ?_)]
    intro o ho
    by_contra hn
    obtain ⟨m, rfl⟩ := Option.ne_none_iff_exists'.1 hn
    have : m ∈ numbersIn c.frame := List.mem_filterMap.2 ⟨some m, ho, rfl⟩
    rw [h] at this
    cases this

theorem candidate_iff {a : KsArgs} {mcs : List ℝ} (h : ksMcs a = .ok mcs) (hδ : a.mcs = none → 0 < a.δ) (m : ℝ) :
    m ∈ mcs ↔ KsCandidate a.mags a.δ a.mcs m := by
  obtain ⟨-, h1, h2⟩ := C36_candidates h hδ
  unfold KsCandidate
  cases hm : a.mcs with
  | some l =>
    rw [h1 l hm m]
    constructor
    · intro h
      refine ⟨?_, fun e => ?_⟩
      · rintro l' e
        cases e
        exact h
      · cases e
    · intro h
      exact h.1 l rfl
  | none =>
    obtain ⟨lo, hi, c, g1, g2, g3, g4⟩ := h2 hm
    rw [g4]
    constructor
    · rintro ⟨k, e1, e2⟩
      exact ⟨fun l' e => (nomatch e), fun _ => ⟨lo, hi, c, k, g1, g2, g3, e1, e2⟩⟩
    · rintro ⟨-, h⟩
      obtain ⟨lo', hi', c', k, k1, k2, k3, e1, e2⟩ := h rfl
      have hp := hδ hm
      rw [roundsTo_binTo hp] at g3 k3
      rw [k1.unique g1] at k3 e2
      rw [k2.unique g2] at e2
      exact ⟨k, by rw [e1, ← k3, ← g3], e2⟩

/-- C108: `estimate_mc_ks` stores and returns the smallest candidate whose KS test on the rows is passed, or None if there is none; nothing else is
changed. The b-value is the one of the call, else the stored one, else it is estimated from the rows at or above the candidate. -/
theorem C108_ks (warn : Bool) (c c' : Ct) (hm : "magnitude" ∈ c.frame.cols) (δArg : Option ℝ) (δ : ℝ) (h2 : Stands δArg c.deltaM δ)
    (bArg b : Option (Fl ℝ)) (hb : KnownB bArg c.bValue b) (o : KsOptions) (hδ : o.mcs = none → 0 < δ) (m : Option (Fl ℝ)) (r : KsResult)
    (h : estimateKs warn c δArg bArg o = (c', .ok (m, r))) :
    OnlyMc c c' m ∧
    ((m = none ∧ r.bestB = none ∧ ∀ v, KsCandidate (numbersIn c.frame) δ o.mcs v →
        ∃ i t, r.tested[i]? = some t ∧ IsTestOf warn (ksArgsOf c.frame δ b o) i v t ∧ ¬ Passed (ksArgsOf c.frame δ b o) t) ∨
      ∃ v t i, m = some (.fin v) ∧ KsCandidate (numbersIn c.frame) δ o.mcs v ∧ r.tested[i]? = some t ∧
        IsTestOf warn (ksArgsOf c.frame δ b o) i v t ∧ Passed (ksArgsOf c.frame δ b o) t ∧ r.bestB = some t.b ∧
        ∀ v', KsCandidate (numbersIn c.frame) δ o.mcs v' → v' < v →
          ∃ j t', r.tested[j]? = some t' ∧ IsTestOf warn (ksArgsOf c.frame δ b o) j v' t' ∧ ¬ Passed (ksArgsOf c.frame δ b o) t') := by
  rw [estimateKs_eq warn c hm δArg δ h2 bArg b hb o] at h
  cases hk : mcKs warn o.stop (ksArgsOf c.frame δ b o) with
  | error e => rw [hk] at h; cases h
  | ok r' =>
    rw [hk] at h
    cases h
    obtain ⟨mcs, h1, -⟩ := mcKs_ok hk
    have hcand := fun v => candidate_iff h1 hδ v
    refine ⟨rfl, ?_⟩
    cases hbest : r.best with
    | none =>
      refine Or.inl ⟨rfl, ?_, fun v hv => ?_⟩
      · obtain ⟨-, -, -, -, e1, e2⟩ := mcKs_ok hk
        rw [e1, Option.map_eq_none_iff] at hbest
        rw [e2, hbest]; rfl
      · obtain ⟨i, hi⟩ := List.mem_iff_getElem?.1 ((hcand v).2 hv)
        obtain ⟨t, k⟩ := (C36_none hk h1).1 hbest i v hi
        exact ⟨i, t, k⟩
    | some v =>
      obtain ⟨⟨i, t, k1, k2, k3, k4, k5⟩, k6⟩ := C36_smallest hδ hk h1 hbest
      exact Or.inr ⟨v, t, i, rfl, (hcand v).1 (List.mem_iff_getElem?.2 ⟨i, k2⟩), k1, k3, k4, k5, fun v' hv' hlt => k6 v' ((hcand v').2 hv') hlt⟩

/-- C108: `estimate_mc_b_stability` stores and returns the result of the function on the rows (C38) and changes nothing else: the first stable candidate,
rounded to bins (None if it is 0), with `stop_when_passed`; None if the first difference is a number and no candidate is stable. -/
theorem C108_stability (warn : Bool) (c c' : Ct) (hm : "magnitude" ∈ c.frame.cols) (δArg : Option ℝ) (δ : ℝ) (h2 : Stands δArg c.deltaM δ)
    (o : StabOptions) (hδ : 0 < δ) (m : Option (Fl ℝ)) (r : StabResult) (h : estimateStability warn c δArg o = (c', .ok (m, r))) :
    OnlyMc c c' m ∧ m = r.best.map .fin ∧
    (∀ (i : ℕ) (mc : ℝ) (b d : Fl ℝ), r.tested[i]? = some (mc, b, d) → IsStabTest o.cls o.ω warn (numbersIn c.frame) δ o.range mc b d) ∧
    ((∀ mc b d, r.tested[0]? = some (mc, b, d) → d ≠ .nan) →
      (m = none ∧ ∀ t ∈ r.tested, ¬ Stable t.2.2) ∨
      ∃ (i : ℕ) (mc : ℝ) (b : Fl ℝ) (x : ℝ), r.tested[i]? = some (mc, b, Fl.fin x) ∧ x ≤ 1 ∧ r.bestB = some b ∧ Reported δ mc r.best ∧
        ∀ (j : ℕ) (mc' : ℝ) (b' : Fl ℝ) (y : ℝ), r.tested[j]? = some (mc', b', Fl.fin y) → x ≤ y ∧ (i < j → x < y)) := by
  rw [estimateStability_eq warn c hm δArg δ h2 o] at h
  cases hk : mcStability warn o.stop o.cls o.ω (numbersIn c.frame) δ o.range o.mcs with
  | error e => rw [hk] at h; cases h
  | ok r' =>
    rw [hk] at h
    cases h
    obtain ⟨l, -, -, e2, -⟩ := C38_tested hδ hk
    refine ⟨rfl, rfl, fun i mc b d hi => (e2 i mc b d hi).2, fun hf => ?_⟩
    rcases C38_most_stable hδ hk hf with ⟨g1, -, g2⟩ | h
    · exact Or.inl ⟨by rw [g1]; rfl, g2⟩
    · exact Or.inr h

/-- C108: a search that raises leaves the catalogue as it was. -/
theorem C108_failed (warn : Bool) (c : Ct) (fmdBin corr : ℝ) (δArg : Option ℝ) (bArg : Option (Fl ℝ)) (o : KsOptions) (o' : StabOptions) (e : PyErr) :
    ((estimateMaxc c fmdBin corr).2 = .error e → (estimateMaxc c fmdBin corr).1 = c) ∧
    ((estimateKs warn c δArg bArg o).2 = .error e → (estimateKs warn c δArg bArg o).1 = c) ∧
    ((estimateStability warn c δArg o').2 = .error e → (estimateStability warn c δArg o').1 = c) := by
  refine ⟨?_, ?_, ?_⟩
  · unfold estimateMaxc estimateMcMaxc requireCols
    split
    · dsimp only
      cases maxcOf fmdBin corr (c.frame.column "magnitude") with
      | error e => intro _; rfl
      | ok r => intro h; cases h
    · intro _; rfl
  · unfold estimateKs estimateMcKs requireCols
    split
    · dsimp only
      cases ksCall c δArg bArg (ksOf warn o) with
      | error e => intro _; rfl
      | ok r => intro h; cases h
    · intro _; rfl
  · unfold estimateStability estimateMcStability requireCols
    split
    · dsimp only
      cases stabilityCall c δArg (stabilityOf warn o') with
      | error e => intro _; rfl
      | ok r => intro h; cases h
    · intro _; rfl

/-! ## C108: which columns and rows count -/

/-- C108: only the magnitudes count: two catalogues with the same magnitudes in the rows that have one and the same stored values give the same stored mc and
the same result, whatever the other columns (times and weights included), for every b-value class. -/
theorem C108_other_columns (warn : Bool) (c c' : Ct) (hm : "magnitude" ∈ c.frame.cols) (hm' : "magnitude" ∈ c'.frame.cols)
    (hn : numbersIn c.frame = numbersIn c'.frame) (h1 : c'.deltaM = c.deltaM) (h2 : c'.bValue = c.bValue) (δArg : Option ℝ) (δ : ℝ)
    (hδ : Stands δArg c.deltaM δ) (bArg : Option (Fl ℝ)) (o : KsOptions) (o' : StabOptions) :
    (estimateKs warn c δArg bArg o).2 = (estimateKs warn c' δArg bArg o).2 ∧
    ((estimateKs warn c δArg bArg o).2.toOption.isSome → (estimateKs warn c δArg bArg o).1.mc = (estimateKs warn c' δArg bArg o).1.mc) ∧
    (estimateStability warn c δArg o').2 = (estimateStability warn c' δArg o').2 ∧
    ((estimateStability warn c δArg o').2.toOption.isSome → (estimateStability warn c δArg o').1.mc = (estimateStability warn c' δArg o').1.mc) := by
  have hb : KnownB bArg c.bValue (bArg.or c.bValue) := by
    constructor
    · intro h; cases bArg <;> simp_all
    · rintro rfl; rfl
  have hδ' : Stands δArg c'.deltaM δ := by rw [h1]; exact hδ
  have hb' : KnownB bArg c'.bValue (bArg.or c.bValue) := by rw [h2]; exact hb
  have e : ∀ b, ksArgsOf c'.frame δ b o = ksArgsOf c.frame δ b o := by
    intro b; unfold ksArgsOf; rw [hn]
  rw [estimateKs_eq warn c hm δArg δ hδ bArg _ hb o, estimateKs_eq warn c' hm' δArg δ hδ' bArg _ hb' o, e,
    estimateStability_eq warn c hm δArg δ hδ o', estimateStability_eq warn c' hm' δArg δ hδ' o', hn]
  refine ⟨?_, ?_, ?_, ?_⟩
  · cases mcKs warn o.stop (ksArgsOf c.frame δ (bArg.or c.bValue) o) <;> rfl
  · cases mcKs warn o.stop (ksArgsOf c.frame δ (bArg.or c.bValue) o) with
    | error e => intro h; cases h
    | ok r => intro _; rfl
  · cases mcStability warn o'.stop o'.cls o'.ω (numbersIn c'.frame) δ o'.range o'.mcs <;> rfl
  · cases mcStability warn o'.stop o'.cls o'.ω (numbersIn c'.frame) δ o'.range o'.mcs with
    | error e => intro h; cases h
    | ok r => intro _; rfl

end
end SeismoStats.Props
