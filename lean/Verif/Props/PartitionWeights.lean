/-
Property C43 (`values_from_partitioning`) and C42 (`b_significant_1D`) with the keyword `weights`.
-/
import Verif.Props.BSignificant
import Verif.Proofs.WeightedMean

namespace SeismoStats.Props
open SeismoStats SeismoStats.BSignificant
open SeismoStats.Simulate
open SeismoStats.BValue (Reachable argsort_perm argsort_sorted argsort_lt argsort_length)
open Classical
noncomputable section

/-- C43 (limit): the one list of weights is used for every part, so a call that returns has as many weights as every part that is not empty has events. -/
theorem C43_limit_weights_length {warn : Bool} {m : Method} {mags : List (List (Option ℝ))} {times : List (List ℝ)} {mc : Mc} {δ : ℝ}
    {scaling : Option (List ℝ)} {kw : Kw} {l : List Part} {w : List ℝ} (hw : kw.weights = some w)
    (h : valuesFromPartitioning warn m mags times mc δ scaling kw = .ok l) :
    ∀ (i : ℕ) (ms : List (Option ℝ)) (ts : List ℝ), mags[i]? = some ms → times[i]? = some ts → ms ≠ [] → ts.length = w.length := by
  intro i ms ts h1 h2 hne
  obtain ⟨-, hl, hp⟩ := C43_part_by_part h
  have hi : i < mags.length := (List.getElem?_eq_some_iff.1 h1).1
  rcases hp i ms ts (l[i]'(by omega)) h1 h2 (List.getElem?_eq_getElem _) with ⟨h0, -⟩ | ⟨-, order, hperm, -, -, h3⟩
  · exact absurd h0 hne
  · cases m with
    | a c =>
      have := h3.1
      cases c <;> simp [Accepts, hw] at this
    | b c =>
      obtain ⟨-, s, v, hk, -⟩ := h3
      have hv := (accepted_iff _).2 (valid_of_ok (c := c) (by rw [hk]))
      have := (hv.weights w hw).1
      rw [this, List.length_map, hperm.length_eq, List.length_range]

/-- C42 (limit): with `weights`, `b_significant_1D` returns only if it has fewer than three windows' worth of events (and then NaN) or one weight per position in a window;
a list with one weight per event of the catalogue is an error. -/
theorem C42_limit_weights {Φ : ℝ → ℝ} {warn : Bool} {a : BSignificant.Args} {r : BSignificant.Result} {w : List ℝ} (hw : a.kw.weights = some w)
    (h : bSignificant Φ warn a = .ok r) : r = ⟨.nan, .nan, .nan, .nan⟩ ∨ w.length = a.nm ∧ w.length < a.mags.length := by
  obtain ⟨-, hn, -, -, order, -, h1, h2⟩ := C42_windows h
  by_cases hs : (selectedEvents a order).length < 3 * a.nm
  · exact Or.inl (h1 hs)
  · right
    rw [not_lt] at hs
    obtain ⟨res, hl, hoff, -⟩ := h2 hs
    obtain ⟨parts, hpl, hp, -⟩ := hoff 0 (res[0]'(by omega)) (List.getElem?_eq_getElem _)
    have h0 : 0 < parts.length := by
      rw [hpl]
      exact Nat.div_pos (by omega) hn
    obtain ⟨top, -, hip⟩ := hp 0 parts[0] (List.getElem?_eq_getElem _)
    have hlen : ((selectedEvents a order).drop (0 + 0 * a.nm)).take a.nm ≠ [] ∧ (((selectedEvents a order).drop (0 + 0 * a.nm)).take a.nm).length = a.nm := by
      have : (((selectedEvents a order).drop (0 + 0 * a.nm)).take a.nm).length = a.nm := by
        rw [List.length_take, List.length_drop]; omega
      refine ⟨fun h => ?_, this⟩
      rw [h] at this
      simp at this
      omega
    have hN : (selectedEvents a order).length ≤ a.mags.length := by
      unfold selectedEvents
      exact (List.length_filterMap_le _ _).trans (by rw [List.length_range])
    have hwn : w.length = a.nm := by
      rcases hip with ⟨h0, -⟩ | ⟨-, ord, hperm, -, -, h3⟩
      · exact absurd (List.map_eq_nil_iff.1 h0) hlen.1
      · revert h3
        cases a.method with
        | a c =>
          intro h3
          have := h3.1
          cases c <;> simp [Accepts, hw] at this
        | b c =>
          rintro ⟨-, s, v, hk, -⟩
          have hv := (accepted_iff _).2 (valid_of_ok (c := c) (by rw [hk]))
          have := (hv.weights w hw).1
          rw [this, List.length_map, hperm.length_eq, List.length_range, List.length_map, hlen.2]
    exact ⟨hwn, by omega⟩

/-! ### weights do not follow their events -/

/-- The estimate on two events with weights. -/
theorem two_events {x y : ℝ} (hx : 1 < x) (hy : 1 < y) (u v : ℝ) (hu : 0 ≤ u) (hv : 0 ≤ v) (huv : u + v = 2) :
    ∃ sd, (partB .classic (fun _ => []) false BValue.State.init { mags := [some x, some y], mc := 1, δ := 0, weights := some [u, v] }).2 =
      .ok ⟨.fin (1 / ((u * (x - 1) + v * (y - 1)) / 2) / Real.log 10), sd, 2⟩ := by
  have hlow : ∀ i : ℕ, (1 : ℝ) - 0 / 2 ≤ (fun i : ℕ => if i = 0 then x else y) i := by intro i; dsimp only; split <;> linarith
  have hw : ∀ i : ℕ, 0 ≤ (fun i : ℕ => if i = 0 then u else v) i := by intro i; dsimp only; split <;> assumption
  have hT : ∑ i ∈ Finset.range 2, (fun i : ℕ => if i = 0 then u else v) i = 2 := by simp [Finset.sum_range_succ, huv]
  have hS : ∑ i ∈ Finset.range 2, (fun i : ℕ => if i = 0 then u else v) i * ((fun i : ℕ => if i = 0 then x else y) i - 1) = u * (x - 1) + v * (y - 1) := by
    simp [Finset.sum_range_succ]
  have h := calculate_weighted (c := .classic) (Or.inl rfl) false .init (fun i : ℕ => if i = 0 then x else y) (fun i : ℕ => if i = 0 then u else v) 2 1 0
    hlow (Or.inl rfl) hw (by rw [hT]; norm_num)
  rw [hT, hS] at h
  have hne : (u * (x - 1) + v * (y - 1)) / 2 ≠ 0 := by
    have h1 := mul_nonneg hu (sub_nonneg.2 hx.le)
    have h2 := mul_nonneg hv (sub_nonneg.2 hy.le)
    rcases hu.eq_or_lt with h0 | h0
    · have : 0 < v := by linarith
      have := mul_pos this (sub_pos.2 hy)
      intro h; linarith
    · have := mul_pos h0 (sub_pos.2 hx)
      intro h; linarith
  have e : BValue.betaToB (BValue.betaOf ((u * (x - 1) + v * (y - 1)) / 2) 0) = .fin (1 / ((u * (x - 1) + v * (y - 1)) / 2) / Real.log 10) := by
    unfold BValue.betaOf
    rw [if_neg (lt_irrefl _)]
    unfold Fl.div
    rw [if_neg hne]
    rfl
  change _ = Except.ok (BValue.betaToB (BValue.betaOf _ 0)) at h
  rw [e] at h
  have hsd := std_weighted (c := .classic) (Or.inl rfl) false .init (fun i : ℕ => if i = 0 then x else y) (fun i : ℕ => if i = 0 then u else v) 2 1 0
    hlow (Or.inl rfl) hw (by rw [hT]; norm_num) h
  have hcall : weightedCall (fun i : ℕ => if i = 0 then x else y) (fun i : ℕ => if i = 0 then u else v) 2 1 0 =
      { mags := [some x, some y], mc := 1, δ := 0, weights := some [u, v] } := rfl
  have hused := used_weighted (fun i : ℕ => if i = 0 then x else y) (fun i : ℕ => if i = 0 then u else v) 2 1 0 hlow
  rw [hcall] at h hsd hused
  have h1 := (C12_readings (c := .classic) false .init _ h).1
  have hv := (accepted_iff _).1 (accepted_weighted (fun i : ℕ => if i = 0 then x else y) (fun i : ℕ => if i = 0 then u else v) 2 1 0 (Or.inl rfl) hw)
  have e1 := BValue.calculate_classic_valid (c := .classic) (Or.inl rfl) false BValue.State.init _ hv rfl
  rw [hcall] at e1 hv
  rw [ok_result (Or.inl rfl) .init h] at e1
  have hn : (BValue.calculate .classic false BValue.State.init { mags := [some x, some y], mc := 1, δ := 0, weights := some [u, v] }).1.n = .ok 2 := by
    rw [e1]
    simp only [BValue.State.n, BValue.store, BValue.usedState, Option.getD_some]
    rw [hused]
    rfl
  have hex : ∃ sd, (BValue.calculate .classic false BValue.State.init { mags := [some x, some y], mc := 1, δ := 0, weights := some [u, v] }).1.std = .ok sd := ⟨_, hsd⟩
  clear hsd
  obtain ⟨sd, hsd⟩ := hex
  refine ⟨sd, ?_⟩
  unfold partB
  generalize hq : BValue.calculate .classic false BValue.State.init { mags := [some x, some y], mc := 1, δ := 0, weights := some [u, v] } = q at *
  obtain ⟨s', r⟩ := q
  dsimp only at h h1 hsd hn ⊢
  subst h
  dsimp only
  change (do let v ← s'.bValue; let sd ← s'.std; let n ← s'.n; pure (⟨v, sd, n⟩ : Part)) = _
  rw [h1, hsd, hn]
  rfl

/-- One part of two events. -/
theorem two_part {ms : List ℝ} {ts w : List ℝ} {r : Part} (hne : ms ≠ []) {x y : ℝ} (g1 : gather (ms.map some) (argsort ts) = .ok [some x, some y])
    {ts' : List ℝ} (g2 : gather ts (argsort ts) = .ok ts')
    (h : (partB .classic (fun _ => []) false BValue.State.init { mags := [some x, some y], mc := 1, δ := 0, weights := some w }).2 = .ok r) :
    valuesFromPartitioning false (.b .classic) [ms.map some] [ts] (.one 1) 0 none { weights := some w } = .ok [r] := by
  have h1 : partAlone (.b .classic) false 0 { weights := some w } ⟨ms.map some, ts, 1, .ok 1⟩ = .ok r := by
    unfold partAlone partStep
    dsimp only
    rw [if_neg (by simpa using hne), g1, g2]
    unfold partOne
    dsimp only [Method.new]
    rw [if_pos (show Kw.fits { weights := some w } (.b .classic) = true from rfl)]
    exact h
  rw [values_eq rfl (mcs := [1]) rfl]
  change ([⟨ms.map some, ts, 1, .ok 1⟩] : List PartIn).mapM _ = _
  rw [List.mapM_cons, h1]
  rfl

/-- C43 (defect): the weights are used by position in the time order and do not follow their events: the same two events with the same two weights, given in another order,
have another estimate. -/
theorem C43_defect_weights_by_position : ∃ (ms ms' : List ℝ) (ts ts' w w' : List ℝ) (p p' : Part),
    (List.zip ms (List.zip ts w)).Perm (List.zip ms' (List.zip ts' w')) ∧ ts.Nodup ∧ ms.length = ts.length ∧ ts.length = w.length ∧ ms'.length = ts'.length ∧ ts'.length = w'.length ∧
    valuesFromPartitioning false (.b .classic) [ms.map some] [ts] (.one 1) 0 none { weights := some w } = .ok [p] ∧
    valuesFromPartitioning false (.b .classic) [ms'.map some] [ts'] (.one 1) 0 none { weights := some w' } = .ok [p'] ∧ p.value ≠ p'.value := by
  obtain ⟨sd, h⟩ := two_events (x := 3) (y := 2) (by norm_num) (by norm_num) 2 0 (by norm_num) (by norm_num) (by norm_num)
  obtain ⟨sd', h'⟩ := two_events (x := 3) (y := 2) (by norm_num) (by norm_num) 0 2 (by norm_num) (by norm_num) (by norm_num)
  have a1 : argsort [1, 0] = [1, 0] := by
    simp [argsort, List.range_succ, List.insertionSort]
  have a2 : argsort [0, 1] = [0, 1] := by
    simp [argsort, List.range_succ, List.insertionSort]
  refine ⟨[2, 3], [3, 2], [1, 0], [0, 1], [2, 0], [0, 2], _, _, List.Perm.swap _ _ _, by simp, rfl, rfl, rfl, rfl,
    two_part (by simp) (by rw [a1]; rfl) (by rw [a1]; rfl) h, two_part (by simp) (by rw [a2]; rfl) (by rw [a2]; rfl) h', ?_⟩
  intro he
  injection he with he
  have hl : Real.log 10 ≠ 0 := (Real.log_pos (by norm_num)).ne'
  rw [div_left_inj' hl] at he
  norm_num at he

/-- Two parts of two events with two weights meet the hypotheses of `C43_limit_weights_length`. -/
example : ∃ l, valuesFromPartitioning false (.b .classic) [[some 2, some 3]] [[1, 0]] (.one 1) 0 none { weights := some [2, 0] } = .ok l := by
  obtain ⟨sd, h⟩ := two_events (x := 3) (y := 2) (by norm_num) (by norm_num) 2 0 (by norm_num) (by norm_num) (by norm_num)
  have a1 : argsort [1, 0] = [1, 0] := by
    simp [argsort, List.range_succ, List.insertionSort]
  exact ⟨_, two_part (ms := [2, 3]) (by simp) (by rw [a1]; rfl) (by rw [a1]; rfl) h⟩

/-- Fewer than three windows of events meet the hypotheses of `C42_limit_weights`. -/
example (Φ : ℝ → ℝ) : bSignificant Φ false { mags := [some 2, some 3], mc := .one 1, δ := 0, times := [0, 1], nm := 2, kw := { weights := some [1, 1] } } = .ok ⟨.nan, .nan, .nan, .nan⟩ := by
  simp [bSignificant, orderBy, Mc.perEvent, keep, mask, Bind.bind, Except.bind, pure, Except.pure]

end
end SeismoStats.Props
