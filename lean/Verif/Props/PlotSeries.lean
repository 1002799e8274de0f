/-
Properties C73 (`plot_mc_vs_b`) and C74 (`plot_b_series_constant_nm`).
-/
import Verif.Model.PlotStatistical
import Verif.Props.Partition

namespace SeismoStats.Props
open SeismoStats SeismoStats.PlotStatistical
open SeismoStats.BValue (State Reachable calculate stdOf)
open SeismoStats.BSignificant (Mc)
open Classical
noncomputable section

/-! ## C73 -/

/-- b-value and deviation of a new estimator. -/
def freshB (c : BValue.Cls) (ω : ℕ → List (List ℕ)) (warn : Bool) (x : BValue.Args) : Py (Fl ℝ × Fl ℝ) := do
  let _ ← (calculate c warn State.init x).2
  let b ← (calculate c warn State.init x).1.bValue
  let sd ← stdOf c ω (calculate c warn State.init x).1
  pure (b, sd)

theorem freshB_ok {c : BValue.Cls} {ω : ℕ → List (List ℕ)} {warn : Bool} {x : BValue.Args} {p : Fl ℝ × Fl ℝ} (h : freshB c ω warn x = .ok p) :
    ∃ s, calculate c warn State.init x = (s, .ok p.1) ∧ stdOf c ω s = .ok p.2 := by
  unfold freshB at h
  cases hk : calculate c warn State.init x with
  | mk s r =>
    cases r with
    | error e => rw [hk] at h; cases h
    | ok v =>
      have hb := (C12_readings (c := c) warn .init x (r := v) (by rw [hk])).1
      rw [hk] at h hb
      simp only [bind, Except.bind, pure, Except.pure] at h
      simp only at hb
      rw [hb] at h
      simp only at h
      cases hsd : stdOf c ω s with
      | error e => rw [hsd] at h; cases h
      | ok sd => rw [hsd] at h; cases h; exact ⟨s, rfl, hsd⟩

theorem mcLoop_fresh (c : BValue.Cls) (ω : ℕ → List (List ℕ)) (warn : Bool) (mags : List (Option ℝ)) (δ : ℝ) (dmc : Option ℝ) (mcs : List ℝ) :
    ∀ s : State, Reachable c s → mcLoop c ω warn mags δ dmc s mcs = mcs.mapM fun mc => freshB c ω warn { mags := mags, mc := mc, δ := δ, dmc := dmc } := by
  induction mcs with
  | nil => intro s _; rfl
  | cons mc r ih =>
    intro s hs
    rw [List.mapM_cons]
    generalize hT : List.mapM (fun mc => freshB c ω warn { mags := mags, mc := mc, δ := δ, dmc := dmc }) r = T at ih ⊢
    unfold mcLoop freshB
    set x : BValue.Args := { mags := mags, mc := mc, δ := δ, dmc := dmc } with hx
    have h1 := (C12_no_memory warn hs x).1
    have h2 := fun v => C12_readings warn hs x (r := v)
    have h3 : Reachable c (calculate c warn s x).1 := .call warn _ hs
    cases hk : calculate c warn s x with
    | mk s' v =>
      rw [hk] at h1 h2 h3
      simp only at h1 h2 h3
      rw [← h1]
      cases v with
      | error e => rfl
      | ok v =>
        obtain ⟨-, g1, -, -, g2, -⟩ := h2 v rfl
        simp only [bind, Except.bind, pure, Except.pure]
        rw [← g1, ← g2 ω]
        cases s'.bValue with
        | error e => rfl
        | ok b =>
          simp only
          cases stdOf c ω s' with
          | error e => rfl
          | ok sd =>
            simp only
            rw [ih s' h3]

/-- C73: at every completeness magnitude, in the given order, the drawn value is that of a new estimator for all the magnitudes, and the
band reaches `k` deviations below and above it, `k` being the quantile of `(1 + confidence) / 2`. -/
theorem C73_values (ppf : ℝ → ℝ) (c : BValue.Cls) (ω : ℕ → List (List ℕ)) (warn : Bool) (mags : List (Option ℝ)) (mcs : List ℝ) (δ : ℝ) (dmc : Option ℝ) (conf : ℝ)
    {l : List McPoint} (h : plotMcVsB ppf c ω warn mags mcs δ dmc conf = .ok l) :
    List.Forall₂ (fun mc p => p.mc = mc ∧ ∃ s b sd, calculate c warn State.init { mags := mags, mc := mc, δ := δ, dmc := dmc } = (s, .ok b) ∧
      stdOf c ω s = .ok sd ∧ p.b = b ∧
      ∀ x y : ℝ, b = .fin x → sd = .fin y → p.lower = .fin (x - ppf ((1 + conf) / 2) * y) ∧ p.upper = .fin (x + ppf ((1 + conf) / 2) * y)) mcs l := by
  unfold plotMcVsB at h
  rw [mcLoop_fresh c ω warn mags δ dmc mcs _ .init] at h
  cases hm : mcs.mapM fun mc => freshB c ω warn { mags := mags, mc := mc, δ := δ, dmc := dmc } with
  | error e => rw [hm] at h; cases h
  | ok ps =>
    rw [hm] at h
    cases h
    have hF := (mapM_ok_iff _ _ _).1 hm
    clear hm
    induction hF with
    | nil => exact .nil
    | cons hp _ ih =>
      refine .cons ⟨rfl, ?_⟩ ih
      obtain ⟨s, h1, h2⟩ := freshB_ok hp
      refine ⟨s, _, _, h1, h2, rfl, ?_⟩
      intro x y hx hy
      dsimp only
      rw [hx, hy]
      simp only [bandEnd]
      refine ⟨?_, by simp⟩
      congr 1; ring

/-- C73: for an increasing quantile function that is 0 at one half, a band for a confidence of at least 0 contains the curve, and a higher
confidence gives a band that contains the other one. -/
theorem C73_band (ppf : ℝ → ℝ) (hm : Monotone ppf) (h0 : ppf (1 / 2) = 0) (conf conf' x y : ℝ) (hy : 0 ≤ y) (hc : 0 ≤ conf) (hcc : conf ≤ conf') :
    ∃ lo hi lo' hi', bandEnd (.fin x) (-ppf ((1 + conf) / 2)) (.fin y) = .fin lo ∧ bandEnd (.fin x) (ppf ((1 + conf) / 2)) (.fin y) = .fin hi ∧
      bandEnd (.fin x) (-ppf ((1 + conf') / 2)) (.fin y) = .fin lo' ∧ bandEnd (.fin x) (ppf ((1 + conf') / 2)) (.fin y) = .fin hi' ∧
      lo' ≤ lo ∧ lo ≤ x ∧ x ≤ hi ∧ hi ≤ hi' := by
  have h1 : 0 ≤ ppf ((1 + conf) / 2) := by rw [← h0]; exact hm (by linarith)
  have h2 : ppf ((1 + conf) / 2) ≤ ppf ((1 + conf') / 2) := hm (by linarith)
  refine ⟨_, _, _, _, rfl, rfl, rfl, rfl, ?_, ?_, ?_, ?_⟩ <;> nlinarith

/-- The hypotheses are met: no completeness magnitudes give an empty plot, and the identity shifted by one half is an increasing function
that is 0 at one half. -/
example : plotMcVsB (fun q => q - 1 / 2) .classic (fun _ => []) false [some 1] [] 1 none 0 = .ok [] ∧ Monotone (fun q : ℝ => q - 1 / 2) := by
  refine ⟨rfl, ?_⟩
  intro a b h
  simp only; linarith

/-! ## C74 -/

theorem windowStep_fresh (c : BValue.Cls) (ω : ℕ → List (List ℕ)) (warn : Bool) (δ : ℝ) (dmc : Option ℝ) (minNum : ℝ) {s : State} (hs : Reachable c s) (w : List Ev) :
    Reachable c (windowStep c ω warn δ dmc minNum s w).1 ∧ (windowStep c ω warn δ dmc minNum s w).2 = (windowStep c ω warn δ dmc minNum State.init w).2 := by
  unfold windowStep
  dsimp only
  cases amax? ((w.insertionSort fun p q => p.time ≤ q.time).map Ev.mc) with
  | none => exact ⟨hs, rfl⟩
  | some mc =>
    dsimp only
    set x : BValue.Args := { mags := (w.insertionSort fun p q => p.time ≤ q.time).map Ev.mag, mc := mc, δ := δ, dmc := dmc } with hx
    have h1 := (C12_no_memory warn hs x).1
    have h2 := fun v => C12_readings warn hs x (r := v)
    have h3 : Reachable c (calculate c warn s x).1 := .call warn _ hs
    cases hk : calculate c warn s x with
    | mk s' v =>
      cases hk0 : calculate c warn State.init x with
      | mk s0 v0 =>
        rw [hk] at h3
        rw [hk, hk0] at h1 h2
        simp only at h1 h2 h3
        subst h1
        cases v with
        | error e => exact ⟨h3, rfl⟩
        | ok v =>
          obtain ⟨-, g1, -, g3, g2, -⟩ := h2 v rfl
          refine ⟨h3, ?_⟩
          simp only [g1, g2, g3]

theorem seriesLoop_spec (c : BValue.Cls) (ω : ℕ → List (List ℕ)) (warn : Bool) (δ : ℝ) (dmc : Option ℝ) (minNum : ℝ) (evs : List Ev) (nm start : ℕ) (idx : List ℕ) :
    ∀ (s : State) (acc l : List (Fl ℝ × Fl ℝ)), Reachable c s → idx.Nodup →
      seriesLoop (windowStep c ω warn δ dmc minNum) evs nm start s acc idx = .ok l →
      l.length = acc.length ∧
      (∀ ii ∈ idx, ∃ v, (windowStep c ω warn δ dmc minNum State.init ((evs.drop ii).take nm)).2 = .ok v ∧ (start + ii < acc.length → l[start + ii]? = some v)) ∧
      ∀ k, (∀ ii ∈ idx, k ≠ start + ii) → l[k]? = acc[k]? := by
  induction idx with
  | nil =>
    intro s acc l _ _ h
    cases h
    refine ⟨rfl, ?_, fun k _ => rfl⟩
    intro ii hi
    simp at hi
  | cons ii r ih =>
    intro s acc l hs hn h
    unfold seriesLoop at h
    obtain ⟨h1, h2⟩ := windowStep_fresh c ω warn δ dmc minNum hs ((evs.drop ii).take nm)
    cases hk : windowStep c ω warn δ dmc minNum s ((evs.drop ii).take nm) with
    | mk s' v =>
      rw [hk] at h h1 h2
      simp only at h1 h2
      cases v with
      | error e => cases h
      | ok v =>
        simp only at h
        obtain ⟨hi, hr⟩ := List.nodup_cons.1 hn
        obtain ⟨g1, g2, g3⟩ := ih s' _ l h1 hr h
        rw [List.length_set] at g1
        refine ⟨g1, ?_, ?_⟩
        · intro jj hj
          rcases List.mem_cons.1 hj with rfl | hj
          · refine ⟨v, h2.symm, fun hlt => ?_⟩
            rw [g3 (start + jj) (fun kk hkk e => hi (by have : jj = kk := by omega
                                                        rw [this]; exact hkk))]
            rw [List.getElem?_set_self hlt]
          · obtain ⟨v', e1, e2⟩ := g2 jj hj
            refine ⟨v', e1, fun hlt => e2 (by rw [List.length_set]; exact hlt)⟩
        · intro k hk'
          rw [g3 k (fun jj hj => hk' jj (by simp [hj])), List.getElem?_set_ne]
          exact fun e => hk' ii (by simp) e.symm

/-- `v` is the value of one window: the b-value and the deviation of a new estimator for the magnitudes of the window in the order of
their times, with the largest completeness magnitude of the window; NaN if fewer than `min_num` events are used. -/
def IsWindowValue (a : SeriesArgs) (ω : ℕ → List (List ℕ)) (warn : Bool) (w : List Ev) (v : Fl ℝ × Fl ℝ) : Prop :=
  ∃ (w' : List Ev) (mc : ℝ) (s : State) (b : Fl ℝ) (n : ℕ), w'.Perm w ∧ w'.Pairwise (fun p q => p.time ≤ q.time) ∧ IsGreatest {y | ∃ e ∈ w, y = e.mc} mc ∧
    calculate a.method warn State.init { mags := w'.map Ev.mag, mc := mc, δ := a.δ, dmc := a.dmc } = (s, .ok b) ∧ s.n = .ok n ∧
    ((n : ℝ) < a.minNum → v = (.nan, .nan)) ∧ (a.minNum ≤ n → v.1 = b ∧ stdOf a.method ω s = .ok v.2)

theorem sort_time (w : List Ev) : (w.insertionSort fun p q => p.time ≤ q.time).Pairwise fun p q => p.time ≤ q.time := by
  have : Std.Total (fun p q : Ev => p.time ≤ q.time) := ⟨fun p q => le_total _ _⟩
  have : IsTrans Ev (fun p q : Ev => p.time ≤ q.time) := ⟨fun p q r h1 h2 => le_trans h1 h2⟩
  exact List.pairwise_insertionSort _ _

theorem sort_x (w : List Ev) : (w.insertionSort fun p q => p.x ≤ q.x).Pairwise fun p q => p.x ≤ q.x := by
  have : Std.Total (fun p q : Ev => p.x ≤ q.x) := ⟨fun p q => le_total _ _⟩
  have : IsTrans Ev (fun p q : Ev => p.x ≤ q.x) := ⟨fun p q r h1 h2 => le_trans h1 h2⟩
  exact List.pairwise_insertionSort _ _

theorem windowStep_value {a : SeriesArgs} {ω : ℕ → List (List ℕ)} {warn : Bool} {w : List Ev} {v : Fl ℝ × Fl ℝ}
    (h : (windowStep a.method ω warn a.δ a.dmc a.minNum State.init w).2 = .ok v) : IsWindowValue a ω warn w v := by
  unfold windowStep at h
  dsimp only at h
  have hp : (w.insertionSort fun p q => p.time ≤ q.time).Perm w := List.perm_insertionSort _ _
  cases hm : amax? ((w.insertionSort fun p q => p.time ≤ q.time).map Ev.mc) with
  | none => rw [hm] at h; cases h
  | some mc =>
    rw [hm] at h
    dsimp only at h
    have hg := (amax?_eq_some_iff _ _).1 hm
    cases hk : calculate a.method warn State.init { mags := (w.insertionSort fun p q => p.time ≤ q.time).map Ev.mag, mc := mc, δ := a.δ, dmc := a.dmc } with
    | mk s r =>
      rw [hk] at h
      cases r with
      | error e => cases h
      | ok b =>
        simp only at h
        have hb := (C12_readings (c := a.method) warn .init _ (r := b) (by rw [hk])).1
        rw [hk] at hb
        simp only at hb
        cases hn : s.n with
        | error e => rw [hn] at h; cases h
        | ok n =>
          rw [hn] at h
          simp only [bind, Except.bind, pure, Except.pure] at h
          refine ⟨_, mc, s, b, n, hp, sort_time w, ?_, hk, hn, ?_, ?_⟩
          · constructor
            · obtain ⟨e, he, h1⟩ := List.mem_map.1 hg.1
              exact ⟨e, hp.mem_iff.1 he, h1.symm⟩
            · rintro y ⟨e, he, rfl⟩
              exact hg.2 (List.mem_map.2 ⟨e, hp.mem_iff.2 he, rfl⟩)
          · intro hlt
            rw [if_pos hlt] at h
            cases h; rfl
          · intro hle
            rw [if_neg (not_lt.2 hle), hb] at h
            simp only at h
            cases hsd : stdOf a.method ω s with
            | error e => rw [hsd] at h; cases h
            | ok sd => rw [hsd] at h; cases h; exact ⟨rfl, rfl⟩

/-- Where the value of a window is drawn: at its first, its middle or its last event. -/
def placeOf : Technique → ℕ → ℕ
  | .left, _ => 0
  | .midpoint, nm => nm / 2
  | .right, nm => nm - 1
  | .other, _ => 0

theorem start_ok {t : Technique} {nm k : ℕ} (h : t.start nm = .ok k) : k = placeOf t nm ∧ t ≠ .other := by
  cases t <;> cases h <;> exact ⟨rfl, by simp⟩

theorem placeOf_lt (t : Technique) {nm : ℕ} (h : 0 < nm) : placeOf t nm < nm := by
  cases t <;> simp only [placeOf] <;> omega

theorem seriesOf_spec {ω : ℕ → List (List ℕ)} {warn : Bool} {a : SeriesArgs} {evs : List Ev} {r : Series} {start : ℕ} (hs : start < a.nm)
    (h : seriesOf ω warn a start evs = .ok r) :
    r.x = evs.map Ev.x ∧ r.values.length = evs.length ∧
      (∀ ii, ii + a.nm ≤ evs.length → ∃ v, (windowStep a.method ω warn a.δ a.dmc a.minNum State.init ((evs.drop ii).take a.nm)).2 = .ok v ∧ r.values[start + ii]? = some v) ∧
      ∀ k, k < evs.length → (k < start ∨ evs.length < k - start + a.nm) → r.values[k]? = some (.nan, .nan) := by
  unfold seriesOf at h
  cases hl : seriesLoop (windowStep a.method ω warn a.δ a.dmc a.minNum) evs a.nm start State.init (evs.map fun _ => (.nan, .nan)) (List.range (evs.length + 1 - a.nm)) with
  | error e => rw [hl] at h; cases h
  | ok l =>
    rw [hl] at h
    cases h
    obtain ⟨g1, g2, g3⟩ := seriesLoop_spec a.method ω warn a.δ a.dmc a.minNum evs a.nm start _ _ _ l .init List.nodup_range hl
    rw [List.length_map] at g1 g2
    refine ⟨rfl, g1, ?_, ?_⟩
    · intro ii hii
      obtain ⟨v, e1, e2⟩ := g2 ii (by rw [List.mem_range]; omega)
      exact ⟨v, e1, e2 (by omega)⟩
    · intro k hk hout
      dsimp only
      rw [g3 k, List.getElem?_map, List.getElem?_eq_getElem hk]
      · rfl
      · intro ii hii e
        rw [List.mem_range] at hii
        omega

/-- The events of the arguments: entry `i` of the arrays; without `x_variable` the position is the index. -/
def eventAt (a : SeriesArgs) (i : ℕ) : Ev :=
  { mag := a.mags.getD i none, time := a.times.getD i 0
    mc := match a.mc with | .one m => m | .many l => l.getD i 0
    x := match a.x with | none => (i : ℝ) | some x => x.getD i 0 }

/-- The events at or above their completeness magnitude (up to half a bin), in the order of `x_variable` (or as given). -/
def IsOrdered (a : SeriesArgs) (evs : List Ev) : Prop :=
  ∃ order : List ℕ, order.Perm (List.range a.mags.length) ∧
    (a.x = none → order = List.range a.mags.length) ∧
    (a.x ≠ none → (order.map fun i => (eventAt a i).x).Pairwise (· ≤ ·)) ∧
    evs = (order.map (eventAt a)).filter fun e => decide (∃ m, e.mag = some m ∧ e.mc - a.δ / 2 ≤ m)

theorem series_complete_eq (δ : ℝ) : complete δ = fun e => decide (∃ m, e.mag = some m ∧ e.mc - δ / 2 ≤ m) := by
  funext e
  unfold complete
  cases he : e.mag with
  | none => simp
  | some m => simp

theorem perm_of_map_perm {α β : Type} (f : α → β) {l : List β} {r : List α} (h : l.Perm (r.map f)) : ∃ r' : List α, r'.Perm r ∧ l = r'.map f := by
  have hF : List.Forall₂ (fun b a => b = f a) (r.map f) r := by
    clear h
    induction r with
    | nil => exact .nil
    | cons a r ih => exact .cons rfl ih
  obtain ⟨w, h1, h2⟩ := List.perm_comp_forall₂ h hF
  refine ⟨w, h2, ?_⟩
  clear h2 h hF
  induction h1 with
  | nil => rfl
  | cons e _ ih => rw [List.map_cons, e, ih]

theorem series_events_eq (mags : List (Option ℝ)) (times mcs xs : List ℝ) (h1 : times.length = mags.length) (h2 : mcs.length = mags.length) (h3 : xs.length = mags.length) :
    events mags times mcs xs = (List.range mags.length).map fun i => { mag := mags.getD i none, time := times.getD i 0, mc := mcs.getD i 0, x := xs.getD i 0 } := by
  unfold events
  apply List.ext_getElem
  · simp [h1, h2, h3]
  · intro i hi hi'
    rw [List.length_map, List.length_range] at hi'
    simp only [List.getElem_zipWith, List.getElem_zip, List.getElem_map, List.getElem_range]
    rw [List.getD_eq_getElem _ _ hi', List.getD_eq_getElem _ _ (by omega), List.getD_eq_getElem _ _ (by omega), List.getD_eq_getElem _ _ (by omega)]

theorem prepare_ordered {a : SeriesArgs} {evs : List Ev} (ht : a.mags.length = a.times.length) (h : prepare a.mags a.times a.mc a.x = .ok evs) :
    IsOrdered a (evs.filter (complete a.δ)) := by
  unfold prepare at h
  dsimp only at h
  have hmc : ∀ i < a.mags.length, ∀ n, a.mags.length ≤ n → ((mcArray a.mc a.mags.length).take n).getD i 0 = match a.mc with | .one m => m | .many l => l.getD i 0 := by
    intro i hi n hn
    unfold mcArray
    cases a.mc with
    | one m =>
      simp only
      rw [List.take_of_length_le (by simpa using hn), List.getD_replicate _ hi]
    | many l =>
      simp only
      rw [List.getD_eq_getElem?_getD, List.getElem?_take, if_pos (by omega), ← List.getD_eq_getElem?_getD]
  cases hx : a.x with
  | none =>
    rw [hx] at h
    simp only at h
    split at h
    · cases h
    · rename_i hl
      rw [not_not] at hl
      cases h
      refine ⟨List.range a.mags.length, List.Perm.refl _, fun _ => rfl, fun h0 => absurd hx h0, ?_⟩
      rw [series_events_eq _ _ _ _ ht.symm hl (by simp), series_complete_eq]
      congr 1
      apply List.map_congr_left
      intro i hi
      rw [List.mem_range] at hi
      unfold eventAt
      have := hmc i hi (mcArray a.mc a.mags.length).length (by omega)
      rw [List.take_length] at this
      rw [hx, this]
      simp only [Ev.mk.injEq, true_and]
      rw [List.getD_eq_getElem _ _ (by simpa using hi)]
      simp
  | some x =>
    rw [hx] at h
    simp only at h
    split at h
    · cases h
    · rename_i hxl
      rw [not_not] at hxl
      split at h
      · cases h
      · rename_i hl
        cases h
        have he : events a.mags a.times ((mcArray a.mc a.mags.length).take a.mags.length) x = (List.range a.mags.length).map (eventAt a) := by
          rw [series_events_eq _ _ _ _ ht.symm (by simp; omega) hxl]
          apply List.map_congr_left
          intro i hi
          rw [List.mem_range] at hi
          unfold eventAt
          rw [hmc i hi _ le_rfl, hx]
        have hp : ((events a.mags a.times ((mcArray a.mc a.mags.length).take a.mags.length) x).insertionSort fun p q => p.x ≤ q.x).Perm ((List.range a.mags.length).map (eventAt a)) := by
          rw [he]; exact List.perm_insertionSort _ _
        obtain ⟨order, h1, h2⟩ := perm_of_map_perm _ hp
        refine ⟨order, h1, ?_, fun _ => ?_, by rw [h2, series_complete_eq]⟩
        · intro h0; rw [hx] at h0; cases h0
        have := sort_x (events a.mags a.times ((mcArray a.mc a.mags.length).take a.mags.length) x)
        rw [h2, List.pairwise_map] at this
        rw [List.pairwise_map]
        exact this

theorem plotSeries_ok {ω : ℕ → List (List ℕ)} {warn : Bool} {a : SeriesArgs} {r : Series} (h : plotSeries ω warn a = .ok r) :
    a.minNum ≤ a.nm ∧ a.times.length = a.mags.length ∧ a.technique ≠ .other ∧
    ∃ evs, prepare a.mags a.times a.mc a.x = .ok evs ∧ seriesOf ω warn a (placeOf a.technique a.nm) (evs.filter (complete a.δ)) = .ok r := by
  unfold plotSeries at h
  split at h
  · cases h
  · rename_i h1
    split at h
    · cases h
    · rename_i h2
      rw [not_not] at h2
      cases hp : prepare a.mags a.times a.mc a.x with
      | error e => rw [hp] at h; cases h
      | ok evs =>
        rw [hp] at h
        simp only [bind, Except.bind] at h
        cases hs : a.technique.start a.nm with
        | error e => rw [hs] at h; cases h
        | ok k =>
          rw [hs] at h
          obtain ⟨rfl, h3⟩ := start_ok hs
          exact ⟨not_lt.1 h1, h2.symm, h3, evs, rfl, h⟩

/-- C74: the events are taken in the order of `x_variable` (as given without it), those below their completeness magnitude left out; the
value of every window of `n_m` consecutive events is drawn at its first, middle or last event, and nothing (NaN) elsewhere. -/
theorem C74_values {ω : ℕ → List (List ℕ)} {warn : Bool} {a : SeriesArgs} {r : Series} (hn : 0 < a.nm) (h : plotSeries ω warn a = .ok r) :
    ∃ evs, IsOrdered a evs ∧ r.x = evs.map Ev.x ∧ r.values.length = evs.length ∧
      (∀ ii, ii + a.nm ≤ evs.length → ∃ v, r.values[placeOf a.technique a.nm + ii]? = some v ∧ IsWindowValue a ω warn ((evs.drop ii).take a.nm) v) ∧
      ∀ k, k < evs.length → (k < placeOf a.technique a.nm ∨ evs.length < k - placeOf a.technique a.nm + a.nm) → r.values[k]? = some (.nan, .nan) := by
  obtain ⟨-, h1, h2, evs, h3, h4⟩ := plotSeries_ok h
  obtain ⟨g1, g2, g3, g4⟩ := seriesOf_spec (placeOf_lt _ hn) h4
  refine ⟨_, prepare_ordered h1.symm h3, g1, g2, ?_, g4⟩
  intro ii hii
  obtain ⟨v, e1, e2⟩ := g3 ii hii
  exact ⟨v, e2, windowStep_value e1⟩

theorem series_prefix {ω : ℕ → List (List ℕ)} {warn : Bool} {a a' : SeriesArgs} {evs more : List Ev} {r r' : Series} (hn : 0 < a.nm) (hnm : a'.nm = a.nm)
    (hm : a'.method = a.method) (hδ : a'.δ = a.δ) (hd : a'.dmc = a.dmc) (hmin : a'.minNum = a.minNum)
    (h : seriesOf ω warn a (a.nm - 1) evs = .ok r) (h' : seriesOf ω warn a' (a.nm - 1) (evs ++ more) = .ok r') :
    r.x <+: r'.x ∧ r.values <+: r'.values := by
  obtain ⟨g1, g2, g3, g4⟩ := seriesOf_spec (by omega) h
  obtain ⟨k1, k2, k3, k4⟩ := seriesOf_spec (by omega) h'
  constructor
  · rw [g1, k1, List.map_append]; exact List.prefix_append _ _
  · rw [List.length_append] at k2 k3 k4
    rw [List.prefix_iff_eq_take]
    apply List.ext_getElem?
    intro k
    rw [List.getElem?_take, g2]
    by_cases hk : k < evs.length
    · rw [if_pos hk]
      by_cases hs : k < a.nm - 1
      · rw [g4 k hk (Or.inl hs), k4 k (by omega) (Or.inl hs)]
      · obtain ⟨v, e1, e2⟩ := g3 (k - (a.nm - 1)) (by omega)
        obtain ⟨v', e3, e4⟩ := k3 (k - (a.nm - 1)) (by omega)
        have hw : ((evs ++ more).drop (k - (a.nm - 1))).take a'.nm = (evs.drop (k - (a.nm - 1))).take a.nm := by
          rw [hnm, List.drop_append_of_le_length (by omega), List.take_append_of_le_length (by rw [List.length_drop]; omega)]
        rw [hw, hm, hδ, hd, hmin, e1] at e3
        cases e3
        have : a.nm - 1 + (k - (a.nm - 1)) = k := by omega
        rw [this] at e2 e4
        rw [e2, e4]
    · rw [if_neg hk, List.getElem?_eq_none (by omega)]

theorem events_append (m m2 : List (Option ℝ)) (t t2 c c2 x x2 : List ℝ) (h1 : t.length = m.length) (h2 : c.length = m.length) (h3 : x.length = m.length) :
    events (m ++ m2) (t ++ t2) (c ++ c2) (x ++ x2) = events m t c x ++ events m2 t2 c2 x2 := by
  unfold events
  rw [List.zip_append h1.symm, List.zip_append (by omega), List.zipWith_append (by simp [h1, h2, h3])]

theorem orderedInsert_append {α : Type} (r : α → α → Prop) [DecidableRel r] (a : α) (p q : List α) (h : ∀ b ∈ q, r a b) :
    List.orderedInsert r a (p ++ q) = List.orderedInsert r a p ++ q := by
  induction p with
  | nil =>
    cases q with
    | nil => rfl
    | cons b q => simp only [List.nil_append, List.orderedInsert]; rw [if_pos (h b (by simp))]; rfl
  | cons b p ih =>
    simp only [List.cons_append, List.orderedInsert]
    split
    · rfl
    · rw [ih]; rfl

theorem insertionSort_append {α : Type} (r : α → α → Prop) [DecidableRel r] (p q : List α) (h : ∀ a ∈ p, ∀ b ∈ q, r a b) :
    List.insertionSort r (p ++ q) = List.insertionSort r p ++ List.insertionSort r q := by
  induction p with
  | nil => rfl
  | cons a p ih =>
    show List.orderedInsert r a (List.insertionSort r (p ++ q)) = List.orderedInsert r a (List.insertionSort r p) ++ List.insertionSort r q
    rw [ih (fun x hx b hb => h x (by simp [hx]) b hb)]
    apply orderedInsert_append
    intro b hb
    exact h a (by simp) b ((List.mem_insertionSort r).1 hb)

theorem prepare_none {m : List (Option ℝ)} {t mcs : List ℝ} {evs : List Ev} (h : prepare m t (.many mcs) none = .ok evs) :
    mcs.length = m.length ∧ evs = events m t mcs ((List.range m.length).map fun i : ℕ => (i : ℝ)) := by
  unfold prepare at h
  dsimp only at h
  by_cases hl : (mcArray (.many mcs) m.length).length = m.length
  · rw [if_neg (not_not.2 hl)] at h
    cases h
    exact ⟨hl, rfl⟩
  · rw [if_pos hl] at h; cases h

theorem prepare_some {m : List (Option ℝ)} {t mcs x : List ℝ} {evs : List Ev} (h : prepare m t (.many mcs) (some x) = .ok evs) :
    x.length = m.length ∧ m.length ≤ mcs.length ∧ evs = (events m t (mcs.take m.length) x).insertionSort fun p q => p.x ≤ q.x := by
  unfold prepare at h
  dsimp only at h
  by_cases hx : x.length = m.length
  · rw [if_neg (not_not.2 hx)] at h
    by_cases hl : (mcArray (.many mcs) m.length).length < m.length
    · rw [if_pos hl] at h; cases h
    · rw [if_neg hl] at h
      cases h
      exact ⟨hx, not_lt.1 hl, rfl⟩
  · rw [if_pos hx] at h; cases h

/-- C74: with the technique 'right' later events do not change what is drawn for earlier ones, if the events are given in their order. -/
theorem C74_right_uses_no_later_event {ω : ℕ → List (List ℕ)} {warn : Bool} {a : SeriesArgs} {r r' : Series} (hn : 0 < a.nm) (ht : a.technique = .right) (hx : a.x = none)
    (mcs : List ℝ) (hmc : a.mc = .many mcs) (m2 : List (Option ℝ)) (t2 c2 : List ℝ) (h2 : t2.length = m2.length) (h3 : c2.length = m2.length)
    (h : plotSeries ω warn a = .ok r) (h' : plotSeries ω warn { a with mags := a.mags ++ m2, times := a.times ++ t2, mc := .many (mcs ++ c2) } = .ok r') :
    r.x <+: r'.x ∧ r.values <+: r'.values := by
  obtain ⟨-, l1, -, evs, e1, e2⟩ := plotSeries_ok h
  obtain ⟨-, l2, -, evs', e1', e2'⟩ := plotSeries_ok h'
  dsimp only at e1' e2' l2
  rw [hx, hmc] at e1
  rw [hx] at e1'
  obtain ⟨hl, rfl⟩ := prepare_none e1
  obtain ⟨-, rfl⟩ := prepare_none e1'
  rw [List.length_append, List.range_add, List.map_append, events_append _ _ _ _ _ _ _ _ l1 hl (by simp), List.filter_append, ht] at e2'
  rw [ht] at e2
  exact series_prefix hn rfl rfl rfl rfl rfl e2 e2'

theorem events_x (m : List (Option ℝ)) (t c x : List ℝ) : ∀ e ∈ events m t c x, e.x ∈ x := by
  intro e he
  unfold events at he
  obtain ⟨i, hi, rfl⟩ := List.mem_iff_getElem.1 he
  simp only [List.getElem_zipWith, List.getElem_zip]
  exact List.getElem_mem _

/-- C74: the same along `x_variable`: events further on do not change what is drawn before them. -/
theorem C74_right_uses_no_later_event_x {ω : ℕ → List (List ℕ)} {warn : Bool} {a : SeriesArgs} {r r' : Series} (hn : 0 < a.nm) (ht : a.technique = .right)
    (x : List ℝ) (hx : a.x = some x) (mcs : List ℝ) (hmc : a.mc = .many mcs) (hl : mcs.length = a.mags.length) (m2 : List (Option ℝ)) (t2 c2 x2 : List ℝ)
    (h2 : t2.length = m2.length) (h3 : c2.length = m2.length) (hlater : ∀ u ∈ x, ∀ v ∈ x2, u ≤ v)
    (h : plotSeries ω warn a = .ok r)
    (h' : plotSeries ω warn { a with mags := a.mags ++ m2, times := a.times ++ t2, mc := .many (mcs ++ c2), x := some (x ++ x2) } = .ok r') :
    r.x <+: r'.x ∧ r.values <+: r'.values := by
  obtain ⟨-, l1, -, evs, e1, e2⟩ := plotSeries_ok h
  obtain ⟨-, l2, -, evs', e1', e2'⟩ := plotSeries_ok h'
  dsimp only at e1' e2' l2
  rw [hx, hmc] at e1
  obtain ⟨hxl, -, rfl⟩ := prepare_some e1
  obtain ⟨-, -, rfl⟩ := prepare_some e1'
  rw [List.take_of_length_le (by rw [List.length_append, List.length_append]; omega), events_append _ _ _ _ _ _ _ _ l1 hl hxl,
    insertionSort_append _ _ _ (fun p hp q hq => hlater _ (events_x _ _ _ _ p hp) _ (events_x _ _ _ _ q hq)), List.filter_append, ht] at e2'
  rw [List.take_of_length_le (by omega), ht] at e2
  exact series_prefix hn rfl rfl rfl rfl rfl e2 e2'

/-- The arguments for a list of events. -/
def argsOf (a : SeriesArgs) (E : List Ev) : SeriesArgs :=
  { a with mags := E.map Ev.mag, times := E.map Ev.time, mc := .many (E.map Ev.mc), x := some (E.map Ev.x) }

theorem events_map (E : List Ev) : events (E.map Ev.mag) (E.map Ev.time) (E.map Ev.mc) (E.map Ev.x) = E := by
  unfold events
  induction E with
  | nil => rfl
  | cons e E ih => simp only [List.map_cons, List.zip_cons_cons, List.zipWith_cons_cons, ih]

/-- C74: with `x_variable` the order in which the events are given is irrelevant, if its values are distinct. -/
theorem C74_permutation (ω : ℕ → List (List ℕ)) (warn : Bool) (a : SeriesArgs) {E E' : List Ev} (h : E.Perm E') (hd : (E.map Ev.x).Nodup) :
    plotSeries ω warn (argsOf a E) = plotSeries ω warn (argsOf a E') := by
  have hs : (E.insertionSort fun p q => p.x ≤ q.x) = E'.insertionSort fun p q => p.x ≤ q.x := by
    apply List.Perm.eq_of_pairwise (le := fun p q : Ev => p.x ≤ q.x) _ (sort_x E) (sort_x E')
    · exact ((List.perm_insertionSort _ E).trans h).trans (List.perm_insertionSort _ E').symm
    · intro p q hp hq h1 h2
      have hp' : p ∈ E := (List.mem_insertionSort _).1 hp
      have hq' : q ∈ E := h.mem_iff.2 ((List.mem_insertionSort _).1 hq)
      exact List.inj_on_of_nodup_map hd hp' hq' (le_antisymm h1 h2)
  have hprep : ∀ E : List Ev, prepare (E.map Ev.mag) (E.map Ev.time) (.many (E.map Ev.mc)) (some (E.map Ev.x)) = .ok (E.insertionSort fun p q => p.x ≤ q.x) := by
    intro E
    unfold prepare
    simp only [mcArray, List.length_map, ne_eq, not_true, if_false, lt_irrefl]
    rw [List.take_of_length_le (by simp), events_map]
  unfold plotSeries argsOf
  simp only [List.length_map, hprep, hs, ne_eq, not_true, if_false]
  rfl

/-- C74: `n_m` below `min_num` is a ValueError, arrays of different lengths an IndexError, an unknown technique a ValueError. -/
theorem C74_errors (ω : ℕ → List (List ℕ)) (warn : Bool) (a : SeriesArgs) :
    ((a.nm : ℝ) < a.minNum → plotSeries ω warn a = .error .valueError) ∧
    (a.minNum ≤ a.nm → a.times.length ≠ a.mags.length → plotSeries ω warn a = .error .indexError) ∧
    (a.minNum ≤ a.nm → a.times.length = a.mags.length → (∃ x, a.x = some x ∧ x.length ≠ a.mags.length) → plotSeries ω warn a = .error .indexError) ∧
    (a.minNum ≤ a.nm → a.times.length = a.mags.length → (∃ m, a.mc = .one m) → a.x = none → a.technique = .other → plotSeries ω warn a = .error .valueError) := by
  refine ⟨?_, ?_, ?_, ?_⟩
  · intro h; unfold plotSeries; rw [if_pos h]
  · intro h h1; unfold plotSeries; rw [if_neg (not_lt.2 h), if_pos (Ne.symm h1)]
  · rintro h h1 ⟨x, hx, hl⟩
    unfold plotSeries
    rw [if_neg (not_lt.2 h), if_neg (not_not.2 h1.symm)]
    unfold prepare
    simp only [hx, hl, ne_eq, not_false_iff, if_true]
    rfl
  · rintro h h1 ⟨m, hm⟩ hx ht
    unfold plotSeries
    rw [if_neg (not_lt.2 h), if_neg (not_not.2 h1.symm)]
    unfold prepare
    simp only [hx, hm, mcArray, List.length_replicate, ne_eq, not_true, if_false, ht, Technique.start, bind, Except.bind]

/-- C74: fewer than `n_m` events at or above the completeness magnitude give an empty curve, not an error. -/
theorem C74_few_events {ω : ℕ → List (List ℕ)} {warn : Bool} {a : SeriesArgs} {evs : List Ev} (h1 : a.minNum ≤ a.nm) (h2 : a.times.length = a.mags.length)
    (h3 : a.technique ≠ .other) (hx : ∀ x, a.x = some x → x.length = a.mags.length) (hmc : ∀ l, a.mc = .many l → l.length = a.mags.length)
    (ho : IsOrdered a evs) (hl : evs.length < a.nm) :
    ∃ r, plotSeries ω warn a = .ok r ∧ r.values.length = evs.length ∧ ∀ v ∈ r.values, v = (.nan, .nan) := by
  have hmcl : (mcArray a.mc a.mags.length).length = a.mags.length := by
    unfold mcArray
    cases h : a.mc with
    | one m => simp
    | many l => exact hmc l h
  obtain ⟨evs', h4⟩ : ∃ evs', prepare a.mags a.times a.mc a.x = .ok evs' := by
    unfold prepare
    dsimp only
    cases h : a.x with
    | none => dsimp only; rw [if_neg (not_not.2 hmcl)]; exact ⟨_, rfl⟩
    | some x => dsimp only; rw [if_neg (not_not.2 (hx x h)), if_neg (by rw [hmcl]; exact lt_irrefl _)]; exact ⟨_, rfl⟩
  have hlen : (evs'.filter (complete a.δ)).length = evs.length := by
    obtain ⟨o1, p1, -, -, e1⟩ := prepare_ordered h2.symm h4
    obtain ⟨o2, p2, -, -, e2⟩ := ho
    rw [e1, e2]
    exact (((p1.trans p2.symm).map (eventAt a)).filter _).length_eq
  have h5 : (evs'.filter (complete a.δ)).length < a.nm := by rw [hlen]; exact hl
  revert h5 hlen h4
  generalize evs' = evs'
  intro h4 hlen h5
  have hst : ∃ k, a.technique.start a.nm = .ok k := by
    cases ht : a.technique with
    | other => exact absurd ht h3
    | left => exact ⟨_, rfl⟩
    | midpoint => exact ⟨_, rfl⟩
    | right => exact ⟨_, rfl⟩
  obtain ⟨k, hk⟩ := hst
  have h0 : (evs'.filter (complete a.δ)).length + 1 - a.nm = 0 := by omega
  refine ⟨⟨(evs'.filter (complete a.δ)).map Ev.x, (evs'.filter (complete a.δ)).map fun _ => (.nan, .nan)⟩, ?_, by simpa using hlen, ?_⟩
  · unfold plotSeries
    rw [if_neg (not_lt.2 h1), if_neg (not_not.2 h2.symm)]
    simp only [h4, hk, bind, Except.bind, seriesOf, h0, List.range_zero, seriesLoop, pure, Except.pure]
  · intro v hv
    obtain ⟨e, -, rfl⟩ := List.mem_map.1 hv
    rfl

/-- The hypotheses are met: two events, windows of two, the classic estimator. -/
example : ∃ r, plotSeries (fun _ => []) false { mags := [some 1, some 2], δ := 1, mc := .one 1, times := [0, 1], nm := 2 } = .ok r ∧ r.values.length = 2 := by
  have hA : Accepted { mags := [some 1, some 2], mc := 1, δ := 1 } := by
    refine ⟨Or.inr ?_, fun w hw => by cases hw⟩
    have := C08_grid_accepted (K := ℝ) [some 1, some 2] 0 1 (1 / 10 ^ 15) (by norm_num) (by norm_num) ⟨1, by simp⟩
    simpa using this
  have hk := BValue.calculate_classic_valid (Or.inl rfl) false BValue.State.init _ ((accepted_iff _).1 hA) rfl
  have hu : BValue.used { mags := [some 1, some 2], mc := 1, δ := 1 } = [((1 : ℝ), (1 : ℝ)), (2, 1)] := by
    have h1 : (1 : ℝ) ≤ 2 + 2⁻¹ := by norm_num
    simp [BValue.used, BValue.effW, Spec.selected, h1]
  have hr := result_of_total (c := .classic) (a := { mags := [some 1, some 2], mc := 1, δ := 1 }) (by rw [hu]; norm_num [Spec.total])
  rw [hr] at hk
  have hev : (events [some 1, some 2] [0, 1] [1, 1] [(0 : ℝ), 1]) = [⟨some 1, 0, 1, 0⟩, ⟨some 2, 1, 1, 1⟩] := rfl
  have hc1 : complete 1 ⟨some 1, 0, 1, 0⟩ = true := by simp [complete]
  have hc2 : complete 1 ⟨some 2, 1, 1, 1⟩ = true := by simp [complete]; norm_num
  have hnorm : BValue.nums (some ([((1 : ℝ), (1 : ℝ)), (2, 1)].map fun q => some q.1)) = [1, 2] := by simp [BValue.nums]
  have hstep : ∃ v, (windowStep .classic (fun _ => []) false 1 none 2 State.init [⟨some 1, 0, 1, 0⟩, ⟨some 2, 1, 1, 1⟩]).2 = .ok v := by
    have hs : (([⟨some 1, 0, 1, 0⟩, ⟨some 2, 1, 1, 1⟩] : List Ev).insertionSort fun p q => p.time ≤ q.time) = [⟨some 1, 0, 1, 0⟩, ⟨some 2, 1, 1, 1⟩] := by
      simp [List.insertionSort, List.orderedInsert]
    have hm : amax? [(1 : ℝ), 1] = some 1 := by
      rw [amax?_eq_some_iff]
      refine ⟨by simp, ?_⟩
      intro v hv
      simp at hv
      rw [hv]
    unfold windowStep
    simp only [hs, List.map_cons, List.map_nil, hm]
    rw [hk]
    simp only [BValue.store, BValue.usedState, hu, BValue.State.bValue, BValue.stdOf, BValue.State.std, BValue.State.n, hnorm]
    simp [BValue.shiBolt, average, bind, Except.bind, pure, Except.pure]
  obtain ⟨v, hv⟩ := hstep
  refine ⟨⟨[0, 1], [(.nan, .nan), v]⟩, ?_, rfl⟩
  unfold plotSeries
  rw [if_neg (by norm_num), if_neg (by simp)]
  have hp : prepare [some 1, some 2] [0, 1] (.one 1) none = .ok [⟨some 1, 0, 1, 0⟩, ⟨some 2, 1, 1, 1⟩] := by
    simp [prepare, mcArray, List.range_succ, events, List.replicate]
  simp only [hp, bind, Except.bind, Technique.start, List.filter_cons, hc1, hc2, if_true, List.filter_nil, seriesOf, pure, Except.pure, List.length_cons, List.length_nil]
  have hrange : List.range (0 + 1 + 1 + 1 - 2) = [0] := rfl
  rw [hrange]
  unfold seriesLoop
  simp only [List.drop_zero, List.take_succ_cons, List.take_zero, List.take_nil]
  cases hws : windowStep .classic (fun _ => []) false 1 none 2 State.init [⟨some 1, 0, 1, 0⟩, ⟨some 2, 1, 1, 1⟩] with
  | mk s' q =>
    rw [hws] at hv
    simp only at hv
    subst hv
    simp [seriesLoop]

end
end SeismoStats.Props
