/-
Property C108, second part: order of the rows, and how `estimate_b` and `estimate_a` go on after a search for mc.
-/
import Verif.Props.CatalogMc

namespace SeismoStats.Props
open SeismoStats SeismoStats.Catalog SeismoStats.CatalogEstimates SeismoStats.CatalogMc SeismoStats.EstimateMc
open SeismoStats.BValue (State Reachable calculate stdOf)
open Classical
noncomputable section

/-! ### Order of the magnitudes -/

theorem numbers_some (l : List ℝ) : numbers (l.map some) = l := by
  unfold numbers; simp [List.filterMap_map]

theorem binningTest_order {x y : List ℝ} (h : x.Perm y) (δ : ℝ) :
    binningTest (x.map some) δ (defaultTol ℝ) false = binningTest (y.map some) δ (defaultTol ℝ) false := by
  by_cases hne : x = []
  · subst hne
    rw [List.nil_perm.1 h]
  · exact C08_order_and_nan_independent _ _ δ _ false (by simp) (by rw [numbers_some, numbers_some]; exact h) (by rw [numbers_some]; exact hne)

theorem above_perm {x y : List ℝ} (h : x.Perm y) (mc δ : ℝ) : (above x mc δ).Perm (above y mc δ) := h.filter _

theorem callAt_same {cls : BValue.Cls} (hc : cls = .classic ∨ cls = .utsu) (warn : Bool) {x y : List ℝ} (h : x.Perm y) (mc δ : ℝ) :
    SameOutcome cls warn State.init (argsAt x mc δ) (argsAt y mc δ) :=
  C16_unweighted hc warn .init _ _ mc δ ((above_perm h mc δ).map some)

theorem ksTestOf_perm {x y : List ℝ} (h : x.Perm y) (series warn : Bool) (mc δ : ℝ) (b : Fl ℝ) (g : Option (List (Fl ℝ))) (sims : List (List ℝ)) :
    ksTestOf series warn x mc δ b g sims none = ksTestOf series warn y mc δ b g sims none := by
  unfold ksTestOf
  have e : x = [] ↔ y = [] := ⟨fun e => List.nil_perm.1 (e ▸ h), fun e => List.perm_nil.1 (e ▸ h)⟩
  rw [C35_order h]
  exact if_congr (by rw [e]) rfl rfl

theorem freshLoop_congr {f g : ℕ → ℝ → Py Tested} (h : ∀ i m, f i m = g i m) (p : ℝ) (stop : Bool) (l : List ℝ) (i : ℕ) :
    freshLoop f p stop i l = freshLoop g p stop i l := by
  have : f = g := by funext i m; exact h i m
  rw [this]

theorem mcKs_perm (warn stop : Bool) (a : KsArgs) {y : List ℝ} (h : a.mags.Perm y) (hc : a.bValue ≠ none ∨ a.cls = .classic ∨ a.cls = .utsu) :
    mcKs warn stop a = mcKs warn stop { a with mags := y } := by
  have h1 : ksMcs { a with mags := y } = ksMcs a := by
    unfold ksMcs
    rw [amin?_perm h, amax?_perm h]
  have h2 : ∀ l, ksChecks warn { a with mags := y } l = ksChecks warn a l := by
    intro l
    unfold ksChecks
    rw [binningTest_order h]
  have h3 : ∀ i m, testAt warn { a with mags := y } i m = testAt warn a i m := by
    intro i m
    unfold testAt ksOne
    have e : (bAt warn { a with mags := y } State.init m).2 = (bAt warn a State.init m).2 := by
      unfold bAt
      cases hb : a.bValue with
      | some b => rfl
      | none => exact ((callAt_same (hc.resolve_left (by rw [hb]; simp)) warn h m a.δ).1).symm
    have e2 : ∀ b g, ksTestOf a.series warn (above y m a.δ) m a.δ b g (a.sims i) none = ksTestOf a.series warn (above a.mags m a.δ) m a.δ b g (a.sims i) none :=
      fun b g => (ksTestOf_perm (above_perm h m a.δ) a.series warn m a.δ b g (a.sims i)).symm
    simp only [e, e2]
    rfl
  unfold mcKs
  rw [h1]
  cases ksMcs a with
  | error e => rfl
  | ok l =>
    simp only [bind, Except.bind]
    rw [h2, ksLoop_fresh warn a stop l _ .init 0, ksLoop_fresh warn { a with mags := y } stop l _ .init 0, freshLoop_congr h3]

/-- The test of one candidate in closed form. -/
theorem stabAt_eq (cls : BValue.Cls) (ω : ℕ → List (List ℕ)) (warn : Bool) (mags : List ℝ) (δ range mc : ℝ) :
    stabAt cls ω warn mags δ range mc =
      match (calculate cls warn State.init (argsAt mags mc δ)).2, stdOf cls ω (calculate cls warn State.init (argsAt mags mc δ)).1,
        ((window mags δ range mc).mapM fun x => (calculate cls warn State.init (argsAt mags x δ)).2) with
      | .error e, _, _ => .error e
      | .ok _, .error e, _ => .error e
      | .ok _, .ok _, .error e => .error e
      | .ok b, .ok sd, .ok bs => .ok (b, diffB bs (stabSteps range δ) b sd) := by
  have hr : Reachable cls (calculate cls warn State.init (argsAt mags mc δ)).1 := .call warn _ .init
  obtain ⟨-, h4⟩ := windowBs_fresh cls warn mags δ (window mags δ range mc) _ hr
  change _ = (window mags δ range mc).mapM fun x => (calculate cls warn State.init (argsAt mags x δ)).2 at h4
  rw [← h4]
  unfold stabAt stabOne
  cases hk : calculate cls warn State.init (argsAt mags mc δ) with
  | mk s v =>
    cases v with
    | error e => rfl
    | ok b =>
      dsimp only
      cases stdOf cls ω s with
      | error e => rfl
      | ok sd =>
        dsimp only
        cases windowBs cls warn mags δ s (window mags δ range mc) with
        | mk s' v' => cases v' <;> rfl

theorem mcStability_perm {cls : BValue.Cls} (hc : cls = .classic ∨ cls = .utsu) (ω : ℕ → List (List ℕ)) (warn stop : Bool) {x y : List ℝ} (h : x.Perm y)
    (δ range : ℝ) (mcs : Option (List ℝ)) : mcStability warn stop cls ω x δ range mcs = mcStability warn stop cls ω y δ range mcs := by
  have h1 : stabMcs x δ range mcs = stabMcs y δ range mcs := by
    unfold stabMcs
    rw [amin?_perm h, amax?_perm h]
  have h2 : ∀ l, stabChecks warn x δ l = stabChecks warn y δ l := by
    intro l
    unfold stabChecks
    rw [binningTest_order h]
  have h3 : stabAt cls ω warn x δ range = stabAt cls ω warn y δ range := by
    funext mc
    rw [stabAt_eq, stabAt_eq]
    have hw : window x δ range mc = window y δ range mc := by
      unfold window
      rw [amax?_perm h]
    have hm : ((window y δ range mc).mapM fun v => (calculate cls warn State.init (argsAt x v δ)).2) =
        (window y δ range mc).mapM fun v => (calculate cls warn State.init (argsAt y v δ)).2 := by
      congr 1
      funext v
      exact (callAt_same hc warn h v δ).1
    obtain ⟨k1, k2⟩ := callAt_same hc warn h mc δ
    rw [hw, hm, ← k1]
    cases hv : (calculate cls warn State.init (argsAt x mc δ)).2 with
    | error e => rfl
    | ok b => rw [(k2 b hv).2.2.2.1 ω]
  unfold mcStability
  split
  · rfl
  · rw [h1]
    cases stabMcs y δ range mcs with
    | error e => rfl
    | ok l =>
      simp only [bind, Except.bind]
      rw [h2, stabLoop_fresh cls warn x δ range stop l _ .init, stabLoop_fresh cls warn y δ range stop l _ .init, h3]

/-- C108: neither the order of the rows nor rows without a magnitude matter: any catalogue with the same stored values and the same numbers as magnitudes, in
any order, gives the same result; for the KS search if the b-value is known or the class is the classic or Utsu one, for the stability search with
these classes. -/
theorem C108_row_order (warn : Bool) (c c' : Ct) (hm : "magnitude" ∈ c.frame.cols) (hm' : "magnitude" ∈ c'.frame.cols)
    (hn : (numbersIn c.frame).Perm (numbersIn c'.frame)) (h1 : c'.deltaM = c.deltaM) (h2 : c'.bValue = c.bValue) :
    (∀ fmdBin corr, 1 / 10 ^ 12 ≤ fmdBin → (estimateMaxc c fmdBin corr).2 = (estimateMaxc c' fmdBin corr).2) ∧
    (∀ δArg bArg o, bArg ≠ none ∨ c.bValue ≠ none ∨ o.cls = .classic ∨ o.cls = .utsu →
      (estimateKs warn c δArg bArg o).2 = (estimateKs warn c' δArg bArg o).2) ∧
    ∀ δArg o, o.cls = .classic ∨ o.cls = .utsu → (estimateStability warn c δArg o).2 = (estimateStability warn c' δArg o).2 := by
  have hstands : ∀ δArg : Option ℝ, (∃ δ, Stands δArg c.deltaM δ) ∨ (δArg = none ∧ c.deltaM = none) := by
    intro δArg
    cases δArg with
    | some d => exact Or.inl ⟨d, Or.inl rfl⟩
    | none =>
      cases hd : c.deltaM with
      | none => exact Or.inr ⟨rfl, rfl⟩
      | some d => exact Or.inl ⟨d, Or.inr ⟨rfl, rfl⟩⟩
  refine ⟨?_, ?_, ?_⟩
  · intro fmdBin corr hδ
    rw [estimateMaxc_eq c hm, estimateMaxc_eq c' hm']
    have e : mcMaxc (c.frame.rows.map magIn) fmdBin corr = mcMaxc (c'.frame.rows.map magIn) fmdBin corr := by
      by_cases hne : ∃ m, some m ∈ c.frame.rows.map magIn
      · exact C37_order_and_nan corr hδ hne hn
      · have h0 : ∀ o ∈ c.frame.rows.map magIn, o = none := by
          intro o ho
          by_contra hno
          obtain ⟨m, rfl⟩ := Option.ne_none_iff_exists'.1 hno
          exact hne ⟨m, ho⟩
        have e0 : numbersIn c.frame = [] := by
          unfold numbersIn
          rw [List.filterMap_eq_nil_iff]
          exact h0
        have e1 : numbersIn c'.frame = [] := List.nil_perm.1 (e0 ▸ hn)
        rw [C37_raises corr (Or.inl h0), C37_raises corr (Or.inl ?_)]
        unfold numbersIn at e1
        rw [List.filterMap_eq_nil_iff] at e1
        exact e1
    rw [e]
    cases mcMaxc (c'.frame.rows.map magIn) fmdBin corr <;> rfl
  · intro δArg bArg o hc
    rcases hstands δArg with ⟨δ, hδ⟩ | ⟨rfl, hd⟩
    · have hb : KnownB bArg c.bValue (bArg.or c.bValue) := by
        constructor
        · intro h; cases bArg <;> simp_all
        · rintro rfl; rfl
      rw [estimateKs_eq warn c hm δArg δ hδ bArg _ hb o, estimateKs_eq warn c' hm' δArg δ (by rw [h1]; exact hδ) bArg _ (by rw [h2]; exact hb) o]
      have e : mcKs warn o.stop (ksArgsOf c.frame δ (bArg.or c.bValue) o) = mcKs warn o.stop (ksArgsOf c'.frame δ (bArg.or c.bValue) o) := by
        refine mcKs_perm warn o.stop (ksArgsOf c.frame δ (bArg.or c.bValue) o) (y := numbersIn c'.frame) hn ?_
        rcases hc with h | h | h
        · left
          change bArg.or c.bValue ≠ none
          cases bArg with
          | none => exact absurd rfl h
          | some x => simp
        · left
          change bArg.or c.bValue ≠ none
          cases bArg with
          | none => simpa using h
          | some x => simp
        · exact Or.inr h
      rw [e]
      cases mcKs warn o.stop (ksArgsOf c'.frame δ (bArg.or c.bValue) o) <;> rfl
    · unfold estimateKs estimateMcKs
      rw [C57_runs _ _ _ _ _ (by simpa using hm), C57_runs _ _ _ _ _ (by simpa using hm')]
      unfold ksCall
      rw [h1, hd]
      rfl
  · intro δArg o hc
    rcases hstands δArg with ⟨δ, hδ⟩ | ⟨rfl, hd⟩
    · rw [estimateStability_eq warn c hm δArg δ hδ o, estimateStability_eq warn c' hm' δArg δ (by rw [h1]; exact hδ) o, mcStability_perm hc o.ω warn o.stop hn]
      cases mcStability warn o.stop o.cls o.ω (numbersIn c'.frame) δ o.range o.mcs <;> rfl
    · unfold estimateStability estimateMcStability
      rw [C57_runs _ _ _ _ _ (by simpa using hm), C57_runs _ _ _ _ _ (by simpa using hm')]
      unfold stabilityCall
      rw [h1, hd]
      rfl

/-! ### b-values after the search -/

/-- The events used do not change if those below mc and the rows without a magnitude are dropped before. -/
theorem selected_above (l : List (Option ℝ)) (mc δ : ℝ) :
    Spec.selected ((above (l.filterMap id) mc δ).map some) (((above (l.filterMap id) mc δ).map some).map fun _ => 1) (mc - δ / 2) =
      Spec.selected l (l.map fun _ => 1) (mc - δ / 2) := by
  induction l with
  | nil => rfl
  | cons o l ih =>
    cases o with
    | none =>
      rw [List.filterMap_cons_none rfl, ih]
      rfl
    | some m =>
      rw [show List.filterMap id (some m :: l) = m :: List.filterMap id l from rfl]
      unfold above at ih ⊢
      by_cases h : mc - δ / 2 ≤ m
      · rw [List.filter_cons_of_pos (by simpa using h)]
        unfold Spec.selected at ih ⊢
        simp only [List.map_cons, List.zip_cons_cons, List.filterMap_cons, if_pos h] at ih ⊢
        rw [ih]
      · rw [List.filter_cons_of_neg (by simpa using h), ih]
        unfold Spec.selected
        simp only [List.map_cons, List.zip_cons_cons, List.filterMap_cons, if_neg h]

theorem above_same_b {cls : BValue.Cls} (hc : cls = .classic ∨ cls = .utsu) (warn : Bool) (l : List (Option ℝ)) (mc δ : ℝ) {b : Fl ℝ}
    (hb : binningTest ((l.filterMap id).map some) δ (defaultTol ℝ) false = .ok true)
    (h : (calculate cls warn State.init (argsAt (l.filterMap id) mc δ)).2 = .ok b) :
    (calculate cls warn State.init { mags := l, mc := mc, δ := δ }).2 = .ok b := by
  have hne : l.filterMap id ≠ [] := by
    intro h0
    rw [h0] at hb
    unfold binningTest at hb
    simp at hb
  have hbin : BValue.checkBinning l δ = .ok () := by
    rw [checkBinning_ok]
    right
    change binningTest l δ (defaultTol ℝ) false = .ok true
    rw [← hb]
    exact C08_order_and_nan_independent _ _ δ _ false (by simp) (by rw [numbers_some]; exact List.Perm.refl _) hne
  rw [result_all hc warn .init] at h ⊢
  have hr : BValue.resultOf cls { mags := l, mc := mc, δ := δ } = BValue.resultOf cls (argsAt (l.filterMap id) mc δ) := by
    have hu : BValue.used { mags := l, mc := mc, δ := δ } = BValue.used (argsAt (l.filterMap id) mc δ) := (selected_above l mc δ).symm
    unfold BValue.resultOf
    rw [hu]
    split
    · rfl
    · exact closed_congr (zeroTotal_congr rfl (by rw [hu])) (by rw [hu]) rfl rfl
  cases h1 : BValue.checkBinning (argsAt (l.filterMap id) mc δ).mags (argsAt (l.filterMap id) mc δ).δ with
  | error e => rw [h1] at h; cases h
  | ok u =>
    rw [h1] at h
    change BValue.checkBinning l δ >>= _ = _
    rw [hbin]
    change BValue.resultOf cls { mags := l, mc := mc, δ := δ } = _
    rw [hr]
    exact h

/-- If the search has estimated the b-value `b` at `v` and stored `v`, `estimate_b` finds the same b-value. -/
theorem after_search (warn : Bool) (c c' : Ct) (hf : Ordinary c.frame) (hw : "weight" ∉ c.frame.cols) (δArg : Option ℝ) (δ : ℝ)
    (h2 : Stands δArg c.deltaM δ) {cls : BValue.Cls} (hc : cls = .classic ∨ cls = .utsu) (v : ℝ) (h1 : OnlyMc c c' (some (.fin v))) (b : Fl ℝ)
    (hbin : binningTest ((numbersIn c.frame).map some) δ (defaultTol ℝ) false = .ok true)
    (hb1 : (calculate cls warn State.init (argsAt (numbersIn c.frame) v δ)).2 = .ok b) :
    (estimateB c' none δArg none (bMethod cls warn) []).2.bind State.bValue = .ok b ∧
      (estimateB c' none δArg none (bMethod cls warn) []).1 = { c' with bValue := some b } := by
  have hb2 := above_same_b hc warn (c.frame.rows.map magIn) v δ hbin hb1
  have hfr : c'.frame = c.frame := by rw [h1]
  have hargs : bArgsOf cls c'.frame v δ none none = { mags := c.frame.rows.map magIn, mc := v, δ := δ } := by
    unfold bArgsOf weightsFrom
    rw [hfr, if_neg hw, if_neg (by rcases hc with h | h <;> rw [h] <;> rintro (h | h) <;> cases h)]
  have hst : Stands (none : Option (Fl ℝ)) c'.mc (.fin v) := Or.inr ⟨rfl, by rw [h1]⟩
  have hst2 : Stands δArg c'.deltaM δ := by rw [h1]; exact h2
  have key := C89_estimate_b cls warn c' (by rw [hfr]; exact hf) none δArg v δ hst hst2 none none (Or.inr rfl)
  obtain ⟨-, key2⟩ := estimate_b_result cls warn c' (by rw [hfr]; exact hf) none δArg v δ hst hst2 none none (Or.inr rfl)
  rw [hargs] at key key2
  refine ⟨by rw [← hb2]; exact key2, ?_⟩
  change (estimateB c' none δArg (givenWeights none) (bMethod cls warn) (givenDmc none)).1 = _
  rw [key]
  cases hk : calculate cls warn State.init { mags := c.frame.rows.map magIn, mc := v, δ := δ } with
  | mk s x =>
    rw [hk] at hb2
    change x = _ at hb2
    rw [hb2]

/-- C108: after a KS search that estimates b-values (classic or Utsu class) and finds an mc, `estimate_b()` with the same class finds exactly the b-value
that the search has reported as the best one, if the catalogue has no column of weights. -/
theorem C108_same_b (warn : Bool) (c c' : Ct) (hf : Ordinary c.frame) (hw : "weight" ∉ c.frame.cols) (δArg : Option ℝ) (δ : ℝ)
    (h2 : Stands δArg c.deltaM δ) (hb : c.bValue = none) (o : KsOptions) (hc : o.cls = .classic ∨ o.cls = .utsu) (hδ : o.mcs = none → 0 < δ)
    (v : ℝ) (r : KsResult) (h : estimateKs warn c δArg none o = (c', .ok (some (.fin v), r))) :
    ∃ b, r.bestB = some b ∧ (estimateB c' none δArg none (bMethod o.cls warn) []).2.bind State.bValue = .ok b ∧
      (estimateB c' none δArg none (bMethod o.cls warn) []).1 = { c' with bValue := some b } := by
  obtain ⟨h1, h3⟩ := C108_ks warn c c' hf.magnitude δArg δ h2 none none ⟨fun h => (by cases h), fun _ => hb.symm⟩ o hδ _ r h
  rcases h3 with ⟨h3, -⟩ | ⟨v', t, i, e, -, -, ht, -, hbest, -⟩
  · cases h3
  · cases e
    have hbin : binningTest ((numbersIn c.frame).map some) δ (defaultTol ℝ) false = .ok true := by
      rw [estimateKs_eq warn c hf.magnitude δArg δ h2 none none ⟨fun h => (by cases h), fun _ => hb.symm⟩ o] at h
      cases hk : mcKs warn o.stop (ksArgsOf c.frame δ none o) with
      | error e => rw [hk] at h; cases h
      | ok r' =>
        obtain ⟨l, -, hchk, -⟩ := mcKs_ok hk
        unfold ksChecks at hchk
        rw [if_pos (show (ksArgsOf c.frame δ none o).bValue = none from rfl)] at hchk
        change (do let ok ← binningTest ((numbersIn c.frame).map some) δ (defaultTol ℝ) false; _) = _ at hchk
        cases hk2 : binningTest ((numbersIn c.frame).map some) δ (defaultTol ℝ) false with
        | error e => rw [hk2] at hchk; cases hchk
        | ok u =>
          cases u with
          | true => rfl
          | false => rw [hk2] at hchk; cases hchk
    exact ⟨t.b, hbest, after_search warn c c' hf hw δArg δ h2 hc v h1 t.b hbin (ht.2.2.1 rfl)⟩

/-- C108: the same after a stability search with the default candidates. -/
theorem C108_same_b_stability (warn : Bool) (c c' : Ct) (hf : Ordinary c.frame) (hw : "weight" ∉ c.frame.cols) (δArg : Option ℝ) (δ : ℝ)
    (h2 : Stands δArg c.deltaM δ) (o : StabOptions) (hc : o.cls = .classic ∨ o.cls = .utsu) (hδ : 0 < δ) (hmcs : o.mcs = none)
    (v : ℝ) (r : StabResult) (h : estimateStability warn c δArg o = (c', .ok (some (.fin v), r))) :
    ∃ b, r.bestB = some b ∧ (estimateB c' none δArg none (bMethod o.cls warn) []).2.bind State.bValue = .ok b ∧
      (estimateB c' none δArg none (bMethod o.cls warn) []).1 = { c' with bValue := some b } := by
  rw [estimateStability_eq warn c hf.magnitude δArg δ h2 o] at h
  cases hk : mcStability warn o.stop o.cls o.ω (numbersIn c.frame) δ o.range o.mcs with
  | error e => rw [hk] at h; cases h
  | ok r' =>
    rw [hk] at h
    injection h with e1 e2
    injection e2 with e2
    injection e2 with e2 e3
    subst e3
    have hbest : r'.best = some v := by
      cases hb : r'.best with
      | none => rw [hb] at e2; cases e2
      | some x => rw [hb] at e2; injection e2 with e2; injection e2 with e2; rw [e2]
    obtain ⟨l, R, g1, -, g2, g3, g4, g5⟩ := mcStability_ok hk
    obtain ⟨-, -, hnan⟩ := freshStab_spec l {} R g2
    have hfirst : ∀ mc b d, r'.tested[0]? = some (mc, b, d) → d ≠ .nan := by
      rintro mc b d ht rfl
      have := hnan ⟨_, by rw [List.head?_eq_getElem?, ← g3]; exact ht, rfl⟩ rfl
      rw [g4, this] at hbest
      cases hbest
    obtain ⟨l', g1', -, ht, -⟩ := C38_tested hδ hk
    rcases C38_most_stable hδ hk hfirst with ⟨k1, -⟩ | ⟨i, mc, b, x, k1, -, k2, k3, -⟩
    · rw [k1] at hbest; cases hbest
    · obtain ⟨hl, sd, win, bs, n, hb1, -⟩ := ht i mc b _ k1
      have hmc : binTo δ mc = mc := by
        have hmem : mc ∈ l' := List.mem_iff_getElem?.2 ⟨i, hl⟩
        unfold stabMcs at g1'
        rw [hmcs] at g1'
        dsimp only at g1'
        split at g1'
        · rename_i lo hi _ _
          cases hB : binArr (arange lo hi δ) δ with
          | error e => rw [hB] at g1'; cases g1'
          | ok ll =>
            rw [hB] at g1'
            simp only [bind, Except.bind, pure, Except.pure] at g1'
            split at g1'
            · cases g1'
            · injection g1' with e
              have hm2 : mc ∈ ll := by
                rw [← e] at hmem
                unfold sliceTo at hmem
                split at hmem <;> exact List.mem_of_mem_take hmem
              unfold binArr at hB
              split at hB
              · cases hB
              · injection hB with e'
                rw [← e', List.mem_map] at hm2
                obtain ⟨y, -, rfl⟩ := hm2
                exact binTo_idem hδ.ne' y
        · cases g1'
      have hv : v = mc := by
        by_cases h0 : mc = 0
        · rw [k3.1 h0] at hbest; cases hbest
        · obtain ⟨y, y1, y2⟩ := k3.2 h0
          rw [y1] at hbest
          injection hbest with e
          rw [roundsTo_binTo hδ, hmc] at y2
          rw [← e, y2]
      have hbin : binningTest ((numbersIn c.frame).map some) δ (defaultTol ℝ) false = .ok true := by
        unfold mcStability at hk
        rw [if_neg hδ.ne', g1] at hk
        simp only [bind, Except.bind] at hk
        unfold stabChecks at hk
        cases hk2 : binningTest ((numbersIn c.frame).map some) δ (defaultTol ℝ) false with
        | error e => rw [hk2] at hk; cases hk
        | ok u =>
          cases u with
          | true => rfl
          | false => rw [hk2] at hk; cases hk
      refine ⟨b, k2, after_search warn c c' hf hw δArg δ h2 hc v ?_ b hbin (by rw [hv]; exact hb1)⟩
      unfold OnlyMc
      rw [← e1, hbest]
      rfl

/-- C108: after a search that has found nothing (or an mc of 0 in the stability search) the catalogue has no mc: `estimate_b` and `estimate_a` without an mc are
ValueErrors and change nothing, whatever mc the catalogue had before. -/
theorem C108_none {A R R' : Type} (c : Ct) (hm : "magnitude" ∈ c.frame.cols) (hn : c.mc = none) (δArg : Option ℝ) (w : Option (Arg (Val ℝ) A))
    (m : BMethod (Val ℝ) (Fl ℝ) ℝ A R) (m' : AMethod (Val ℝ) (Fl ℝ) ℝ A R') (kw : Dict (Arg (Val ℝ) A)) (sc mr b : Option (Fl ℝ)) :
    estimateB c none δArg w m kw = (c, .error .valueError) ∧ estimateA c none δArg sc mr b m' kw = (c, .error .valueError) := by
  constructor
  · unfold estimateB
    rw [C57_runs _ _ _ _ _ (by simpa using hm)]
    unfold bCall
    rw [hn]
    rfl
  · unfold estimateA
    rw [C57_runs _ _ _ _ _ (by simpa using hm)]
    unfold aCall
    rw [hn]
    rfl

/-- C108: after a search that has found the number `v`, `estimate_b` and `estimate_a` without an mc do on the rows what they do with `mc=v` on the catalogue
before the search. -/
theorem C108_then {A R R' : Type} (c c' : Ct) (hm : "magnitude" ∈ c.frame.cols) (v : ℝ) (h : OnlyMc c c' (some (.fin v))) (δArg : Option ℝ)
    (w : Option (Arg (Val ℝ) A)) (m : BMethod (Val ℝ) (Fl ℝ) ℝ A R) (m' : AMethod (Val ℝ) (Fl ℝ) ℝ A R') (kw : Dict (Arg (Val ℝ) A)) (sc mr b : Option (Fl ℝ)) :
    (estimateB c' none δArg w m kw).2 = (estimateB c (some (.fin v)) δArg w m kw).2 ∧
    (estimateA c' none δArg sc mr b m' kw).2 = (estimateA c (some (.fin v)) δArg sc mr b m' kw).2 := by
  unfold OnlyMc at h
  subst h
  constructor
  · unfold estimateB
    rw [C57_runs _ _ _ _ _ (by simpa using hm), C57_runs _ _ _ _ _ (by simpa using hm)]
    change (match bCall c (some (.fin v)) δArg w m kw with | .error e => _ | .ok r => _ : Ct × Py R).2 = _
    dsimp only
    cases bCall c (some (.fin v)) δArg w m kw <;> rfl
  · unfold estimateA
    rw [C57_runs _ _ _ _ _ (by simpa using hm), C57_runs _ _ _ _ _ (by simpa using hm)]
    change (match aCall c (some (.fin v)) δArg sc mr b m' kw with | .error e => _ | .ok r => _ : Ct × Py R').2 = _
    dsimp only
    cases aCall c (some (.fin v)) δArg sc mr b m' kw <;> rfl

/-! ### Defects -/

/-- C108 (defect): a NaN as stored b-value (`estimate_b` on too few events leaves one) counts as a known b-value: with warnings off the KS search
with simulated distances raises ValueError for every list of candidates instead of estimating b-values. -/
theorem C108_defect_nan_b (c : Ct) (hm : "magnitude" ∈ c.frame.cols) (δArg : Option ℝ) (δ : ℝ) (h2 : Stands δArg c.deltaM δ)
    (hb : c.bValue = some .nan) (o : KsOptions) (hg : o.given = none) (l : List ℝ) (hl : o.mcs = some l) (hne : l ≠ []) :
    estimateKs false c δArg none o = (c, .error .valueError) := by
  rw [estimateKs_eq false c hm δArg δ h2 none (some .nan) ⟨fun h => (by cases h), fun _ => hb.symm⟩ o]
  have key : mcKs false o.stop (ksArgsOf c.frame δ (some .nan) o) = .error .valueError := by
    unfold mcKs
    have h1 : ksMcs (ksArgsOf c.frame δ (some .nan) o) = .ok (uniqueSorted l) := by
      unfold ksMcs ksArgsOf
      dsimp only
      rw [hl]
    have h3 : ksChecks false (ksArgsOf c.frame δ (some .nan) o) (uniqueSorted l) = .ok () := by
      unfold ksChecks ksArgsOf
      simp [pure, Except.pure]
    rw [h1]
    simp only [bind, Except.bind]
    rw [h3]
    cases hs : uniqueSorted l with
    | nil =>
      obtain ⟨v, hv⟩ := List.exists_mem_of_ne_nil l hne
      rw [← mem_uniqueSorted, hs] at hv
      cases hv
    | cons m r =>
      have ht : (ksOne false (ksArgsOf c.frame δ (some .nan) o) State.init 0 m).2 = .error .valueError := by
        unfold ksOne bAt givenAt ksArgsOf
        dsimp only
        rw [hg]
        rfl
      unfold ksLoop
      cases hk : ksOne false (ksArgsOf c.frame δ (some .nan) o) State.init 0 m with
      | mk s v =>
        rw [hk] at ht
        change v = _ at ht
        rw [ht]
  rw [key]

/-- C108 (defect): with warnings on, a candidate above all magnitudes is a failed test (p-value 0) if the magnitudes are a column of a catalogue, but the
same call of the function with an array raises ValueError. -/
theorem C108_series_empty (nums : List ℝ) (δ mc : ℝ) (b : Fl ℝ) (o : KsOptions) (hmc : ∀ m ∈ nums, m < mc - δ / 2) (hg : o.given = none) (i : ℕ)
    (a : KsArgs) (ha : a = { mags := nums, δ := δ, mcs := o.mcs, pPass := o.pPass, bValue := some b, cls := o.cls, given := o.given, sims := o.sims }) :
    (ksOne true { a with series := true } State.init i mc).2 = .ok ⟨mc, b, .fin 1, .fin 0⟩ ∧ (ksOne true a State.init i mc).2 = .error .valueError := by
  have he : above nums mc δ = [] := by
    unfold above
    rw [List.filter_eq_nil_iff]
    intro m hm
    have := hmc m hm
    simp only [decide_eq_true_eq, not_le]
    exact this
  subst ha
  constructor
  · unfold ksOne bAt givenAt
    dsimp only
    rw [hg, he]
    simp only [bind, Except.bind]
    unfold ksTestOf
    rw [if_pos ⟨rfl, rfl, rfl⟩]
    rfl
  · unfold ksOne bAt givenAt
    dsimp only
    rw [hg, he]
    simp only [bind, Except.bind]
    unfold ksTestOf
    rw [if_neg (by simp)]
    unfold ksTest ksGuard
    simp

/-! ### A catalogue that meets the hypotheses -/

/-- Four events, one without a magnitude, and no weights. -/
def noWeights : Ct :=
  { frame := { cols := ["magnitude", "time"], rows := [quakeRow (.num 2) 4 2, quakeRow (.num 1) 3 1, quakeRow .na 2 1, quakeRow (.num 0) 1 5] },
    mc := some (.fin 0), deltaM := some 1 }

theorem noWeights_ordinary : Ordinary noWeights.frame := by
  refine ⟨by decide, fun _ r hr => ?_, fun _ r hr => ?_, by decide, by decide⟩
  · simp only [noWeights, List.mem_cons, List.not_mem_nil, or_false] at hr
    rcases hr with rfl | rfl | rfl | rfl <;> exact ⟨_, quakeRow_weight _ _ _⟩
  · simp only [noWeights, List.mem_cons, List.not_mem_nil, or_false] at hr
    rcases hr with rfl | rfl | rfl | rfl <;> exact ⟨_, quakeRow_time _ _ _⟩

theorem noWeights_numbers : numbersIn noWeights.frame = [2, 1, 0] := rfl

def oneCandidate : KsOptions := { mcs := some [1], given := some [[.fin 1]], sims := fun _ => [] }

/-- The search estimates b from the two events at or above the candidate 1, passes, and `estimate_b` then finds the same b-value. -/
example : ∃ c' r b, estimateKs false noWeights none none oneCandidate = (c', .ok (some (.fin 1), r)) ∧ r.bestB = some b ∧
    (estimateB c' none none none (bMethod .classic false) []).1 = { c' with bValue := some b } := by
  have habove : above [2, 1, 0] 1 1 = [(2 : ℝ), 1] := by
    unfold above; norm_num [List.filter]
  have hmcs : ksMcs (ksArgsOf noWeights.frame 1 none oneCandidate) = .ok [1] := by
    unfold ksMcs ksArgsOf oneCandidate
    simp only
    congr 1
  have hbin : binningTest ([(2 : ℝ), 1, 0].map some) 1 (defaultTol ℝ) false = .ok true := by
    rw [← quakes_binned]
    exact C08_order_and_nan_independent _ _ 1 _ false (by simp) (by rw [numbers_some, quakes_mags]; exact List.Perm.refl _) (by rw [numbers_some]; simp)
  have hacc : Accepted (argsAt [2, 1, 0] 1 1) := by
    refine ⟨Or.inr ?_, fun w h => (by cases h)⟩
    change binningTest ((above [2, 1, 0] 1 1).map some) 1 _ false = _
    rw [habove]
    have := C08_grid_accepted (K := ℝ) [some 2, some 1] 0 1 (1 / 10 ^ 15) (by norm_num) (by norm_num) ⟨2, by simp⟩
    simpa using this
  have hsel : eventsOf (argsAt [2, 1, 0] 1 1) = [(2, 1), (1, 1)] := by
    unfold argsAt
    rw [habove]
    change Spec.selected [some 2, some 1] [1, 1] (1 - 1 / 2) = _
    have h0 : (1 : ℝ) ≤ 1 + 2⁻¹ := by norm_num
    have h1 : (1 : ℝ) ≤ 2 + 2⁻¹ := by norm_num
    simp [Spec.selected, h0, h1]
  obtain ⟨b, hb, hb0, -⟩ := C13_classic_is_mle false (.init : Reachable .classic State.init) (argsAt [2, 1, 0] 1 1) hacc
    (by rw [hsel]; norm_num [Spec.total]) (by rw [hsel]; norm_num [Spec.wmean, argsAt])
  obtain ⟨p, D, N, h1, h2, h3⟩ := C35_distance (warn := false) (mags := [2, 1]) (a := 1) (δ := 1) (b := b) (l := [.fin 1])
    (sims := []) (w := none) (by norm_num) (by simp) (by simp) (Or.inl rfl)
    (by intro v hv; simp at hv
        rcases hv with rfl | rfl
        · exact ⟨1, by norm_num⟩
        · exact ⟨0, by norm_num⟩) (by simp [effWeights]) (by norm_num [effWeights])
  obtain ⟨h4, h5⟩ := C35_distance_bounds one_pos (mul_pos hb0 (Real.log_pos (by norm_num)))
    (by intro u hu; simp [effWeights] at hu; rcases hu with rfl | rfl <;> norm_num) h3
  obtain ⟨q, rfl, -, -, hq⟩ := C35_p_value h1
  have hq1 : q = 1 := by
    rcases hq with ⟨h, -⟩ | ⟨h, -⟩
    · rw [h]; simp [Fl.ge, h5]
    · cases h
  subst hq1
  have ht : testAt false (ksArgsOf noWeights.frame 1 none oneCandidate) 0 1 = .ok ⟨1, .fin b, .fin D, .fin 1⟩ := by
    unfold testAt ksOne bAt givenAt ksArgsOf oneCandidate
    rw [noWeights_numbers]
    dsimp only
    rw [hb]
    simp only [bind, Except.bind, pure, Except.pure, habove, List.getElem?_cons_zero]
    norm_num at h1
    unfold ksTestOf
    rw [if_neg (by simp), h1]
  have hks : mcKs false true (ksArgsOf noWeights.frame 1 none oneCandidate) = .ok ⟨some 1, some (.fin b), [⟨1, .fin b, .fin D, .fin 1⟩]⟩ := by
    unfold mcKs
    have hchk : ksChecks false (ksArgsOf noWeights.frame 1 none oneCandidate) [1] = .ok () := by
      unfold ksChecks ksArgsOf
      rw [noWeights_numbers]
      dsimp only
      rw [hbin]
      simp [pure, Except.pure, bind, Except.bind]
    have hpass : passes (ksArgsOf noWeights.frame 1 none oneCandidate).pPass ⟨1, .fin b, .fin D, .fin 1⟩ = true := by
      unfold passes ksArgsOf oneCandidate; norm_num [Fl.ge]
    simp only [bind, Except.bind, hmcs, hchk, pure, Except.pure]
    rw [ksLoop_fresh false _ true _ _ .init 0]
    unfold freshLoop
    rw [ht]
    simp [hpass]
  have hs : estimateKs false noWeights none none oneCandidate =
      ({ noWeights with mc := some (.fin 1) }, .ok (some (.fin 1), ⟨some 1, some (.fin b), [⟨1, .fin b, .fin D, .fin 1⟩]⟩)) := by
    rw [estimateKs_eq false noWeights noWeights_ordinary.magnitude none 1 (Or.inr ⟨rfl, rfl⟩) none none ⟨fun h => (by cases h), fun _ => rfl⟩ oneCandidate,
      show oneCandidate.stop = true from rfl, hks]
    rfl
  obtain ⟨b', k1, -, k3⟩ := C108_same_b false noWeights _ noWeights_ordinary (by decide) none 1 (Or.inr ⟨rfl, rfl⟩) rfl oneCandidate (Or.inl rfl)
    (fun h => by cases h) 1 _ hs
  exact ⟨_, _, b', hs, k1, k3⟩

end
end SeismoStats.Props
