/-
Property C118: the a-more-positive value is consistent although events are missing.
-/
import Verif.Proofs.TimedDetected
import Verif.Props.DetectedMore
import Verif.Props.AValueLaw

namespace SeismoStats.Props
open SeismoStats SeismoStats.Simulate BValue AValue MeasureTheory ProbabilityTheory Filter Topology
open Classical
noncomputable section

variable {Ω : Type} [m0 : MeasurableSpace Ω] {P : Measure Ω} {g : Ω → Rng} {w : ℕ → Ω → ℝ} {τ : ℝ}

/-! ### Specification -/

/-- What is known at each event: its magnitude and its time; the next magnitude and the next waiting time are independent of all that is known. -/
structure KnownTimes (P : Measure Ω) (g : Ω → Rng) (w : ℕ → Ω → ℝ) (ℱ : Filtration ℕ m0) : Prop extends KnownSoFar P g ℱ where
  wait : ∀ i, Measurable[ℱ i] (w i)
  nextWait : ∀ i, Indep (MeasurableSpace.comap (w (i + 1)) inferInstance) (ℱ i) P

/-- Times of the recorded ones of the first `n` events. -/
def recordedTimes (t : ℕ → ℝ) (n : ℕ) (seen : ℕ → Prop) : List ℝ := ((List.range n).filter fun i => decide (seen i)).map t

/-- Time from the first to the last recorded event at or above `thr`. -/
def recordedDuration (mags : List ℝ) (t : ℕ → ℝ) (seen : ℕ → Prop) (thr : ℝ) : ℝ :=
  let l := ((List.range mags.length).filter fun i => decide (seenAbove seen (fun i => mags.getD i 0) thr i)).map t
  l.getLastD 0 - l.headD 0

/-- For almost every sequence of random draws and waiting times: from some size on, the a-more-positive value of the recorded ones of `n` simulated events (with their times, `mc'`,
the b-value of the simulation, reference magnitude `r`, and the duration of the record above `mc'` in units of `u` as scaling factor) is a number, and `10^a` converges to `rate`. -/
def RateRecorded (P : Measure Ω) (g : Ω → Rng) (w : ℕ → Ω → ℝ) (b mc δ mc' : ℝ) (dmc : Option ℝ) (r u : ℝ) (seen : ℕ → Ω → Prop) (rate : ℝ) : Prop :=
  ∀ᵐ ω ∂P, ∃ est : ℕ → ℝ,
    (∀ᶠ n in atTop, ∃ mags, simulateBinned n (fun _ => b) mc δ none .bValue (g ω) = .ok mags ∧
      ∀ warn s, (AValue.calculate .morePositive warn s
        { mags := (recorded mags fun i => seen i ω).map some, mc := mc', δ := δ, times := recordedTimes (Spec.eventTime w ω) n fun i => seen i ω, b := some b, dmc := dmc, mref := some r,
          scaling := some (recordedDuration mags (Spec.eventTime w ω) (fun i => seen i ω) (mc' - δ / 2) / u) }).2 = .ok (.fin (est n))) ∧
    Tendsto (fun n : ℕ => (10 : ℝ) ^ est n) atTop (𝓝 rate)

/-! ### The record as a sequence of its own -/

/-- Number of events up to the `m`-th recorded one. -/
def upTo (p : ℕ → Prop) : ℕ → ℕ
  | 0 => 0
  | m + 1 => Nat.nth p m + 1

/-- Time between a recorded event and the recorded one before it. -/
def gapOf (p : ℕ → Prop) (w : ℕ → ℝ) (q : ℕ) : ℝ := ∑ k ∈ Finset.Ico (upTo p q) (upTo p (q + 1)), w k

section Sequence
variable {p : ℕ → Prop} (hp : {i | p i}.Infinite)
include hp

theorem upTo_mono : StrictMono (upTo p) := by
  refine strictMono_nat_of_lt_succ fun m => ?_
  cases m with
  | zero => simp [upTo]
  | succ m =>
    have := Nat.nth_strictMono (p := p) hp (show m < m + 1 by omega)
    simp only [upTo]
    omega

theorem count_upTo (m : ℕ) : Nat.count p (upTo p m) = m := by
  cases m with
  | zero => simp [upTo]
  | succ m =>
    simp only [upTo]
    rw [Nat.count_succ, Nat.count_nth_of_infinite hp, if_pos (Nat.nth_mem_of_infinite hp m)]

theorem count_block {q k : ℕ} (h1 : upTo p q ≤ k) (h2 : k < upTo p (q + 1)) : Nat.count p k = q := by
  have a1 := Nat.count_monotone p h1
  have a2 : Nat.count p k ≤ Nat.count p (Nat.nth p q) := Nat.count_monotone p (by simp only [upTo] at h2; omega)
  rw [count_upTo hp] at a1
  rw [Nat.count_nth_of_infinite hp] at a2
  omega

theorem gap_sum (f : ℕ → ℝ) (m : ℕ) : ∑ q ∈ Finset.range m, gapOf p f q = ∑ k ∈ Finset.range (upTo p m), f k := by
  induction m with
  | zero => simp [upTo]
  | succ m ih =>
    rw [Finset.sum_range_succ, ih, gapOf, Finset.range_eq_Ico, Finset.range_eq_Ico]
    exact Finset.sum_Ico_consecutive _ (Nat.zero_le _) ((upTo_mono hp).monotone (Nat.le_succ _))

theorem gap_pos {f : ℕ → ℝ} (hf : ∀ i, 0 < f i) (q : ℕ) : 0 < gapOf p f q :=
  Finset.sum_pos (fun i _ => hf i) (Finset.nonempty_Ico.2 (upTo_mono hp (Nat.lt_succ_self q)))

theorem still_nth {X : ℕ → ℝ} {thr : ℝ} (hc : ClosedNext X thr p) {i q k : ℕ} (h1 : upTo p q ≤ k) (h2 : k < upTo p (q + 1)) :
    stillWaiting (fun q => X (Nat.nth p q)) thr i q ↔ stillWaiting X thr (Nat.nth p i) k := by
  have hmono : StrictMono (Nat.nth p) := Nat.nth_strictMono hp
  constructor
  · intro h l l1 l2
    by_contra hcon
    have hex : ∃ l, Nat.nth p i < l ∧ thr ≤ X l - X (Nat.nth p i) := ⟨l, l1, not_lt.1 hcon⟩
    set m := Nat.find hex with hm
    obtain ⟨m1, m2⟩ := Nat.find_spec hex
    have hml : m ≤ l := Nat.find_min' hex ⟨l1, not_lt.1 hcon⟩
    have hnext : NextIdx X thr (Nat.nth p i) m := by
      refine ⟨m1, m2, fun k k1 k2 => ?_⟩
      by_contra hk
      exact Nat.find_min hex k2 ⟨k1, not_lt.1 hk⟩
    have hpm := hc _ _ (Nat.nth_mem_of_infinite hp i) hnext
    have hq : Nat.nth p (Nat.count p m) = m := Nat.nth_count hpm
    have a1 : i < Nat.count p m := hmono.lt_iff_lt.1 (by rw [hq]; exact m1)
    have a2 : Nat.count p m < q := by
      rw [← count_block hp h1 h2]
      exact Nat.count_strict_mono hpm (lt_of_le_of_lt hml l2)
    have := h _ a1 a2
    dsimp only at this
    rw [hq] at this
    exact absurd m2 (not_le.2 this)
  · intro h l l1 l2
    refine h _ (hmono l1) (lt_of_lt_of_le ?_ h1)
    obtain ⟨q', rfl⟩ : ∃ q', q = q' + 1 := ⟨q - 1, by omega⟩
    have := hmono.monotone (show l ≤ q' by omega)
    simp only [upTo]
    omega

/-- The waiting times of the record in terms of all events. -/
theorem waitedMore_nth {X : ℕ → ℝ} {thr : ℝ} (hc : ClosedNext X thr p) (f D : ℕ → ℝ) (m : ℕ) :
    waitedMore (fun q => X (Nat.nth p q)) (gapOf p f) (fun q => D (Nat.nth p q)) thr m =
      ∑ k ∈ Finset.range (upTo p m), f k * ∑ i ∈ Finset.range k, if p i then (if stillWaiting X thr i k then 1 else 0) * D i else 0 := by
  unfold waitedMore
  rw [← gap_sum hp]
  refine Finset.sum_congr rfl fun q _ => ?_
  unfold gapOf
  rw [Finset.sum_mul]
  refine Finset.sum_congr rfl fun k hk => ?_
  obtain ⟨k1, k2⟩ := Finset.mem_Ico.1 hk
  congr 1
  rw [← sum_nth (p := p) (fun i => (if stillWaiting X thr i k then 1 else 0) * D i) k, count_block hp k1 k2]
  refine Finset.sum_congr rfl fun i _ => ?_
  congr 1
  exact if_congr (still_nth hp hc k1 k2) rfl rfl

end Sequence

/-! ### The value of the record -/

theorem timeline_filter {l l' : List (Option ℝ × ℝ × ℝ)} (hw : Bool) (mc δ : ℝ) (dmc : Option ℝ)
    (h : l.filterMap (lineEvent hw (mc - δ / 2)) = l'.filterMap (lineEvent hw (mc - δ / 2))) (hd : (l.map fun e => e.2.2).Nodup) :
    timeline (timed l hw mc δ dmc) = timeline (timed l' hw mc δ dmc) := by
  have p1 := timeline_perm (timed l hw mc δ dmc)
  have p2 := timeline_perm (timed l' hw mc δ dmc)
  rw [used_timed] at p1 p2
  rw [← h] at p2
  refine List.Perm.eq_of_pairwise (le := fun x y : ℝ × ℝ × ℝ => x.2.2 ≤ y.2.2) ?_
    (timeline_sorted _ rfl) (timeline_sorted _ rfl) (p1.trans p2.symm)
  intro x y hx hy h1 h2
  have hx := p1.mem_iff.1 hx
  have hy := p2.mem_iff.1 hy
  rw [filterMap_lineEvent] at hx hy
  obtain ⟨e, he, rfl⟩ := List.mem_map.1 hx
  obtain ⟨f, hf, rfl⟩ := List.mem_map.1 hy
  have : e = f := List.inj_on_of_nodup_map hd (List.mem_filter.1 he).1 (List.mem_filter.1 hf).1
    (le_antisymm h1 h2)
  rw [this]

/-- The call on the recorded events. -/
def recordCall (X t : ℕ → ℝ) (seen : ℕ → Prop) (mc δ d b : ℝ) (mref scaling : Option ℝ) (n : ℕ) : AValue.Args :=
  { mags := (recorded (firstMags X n) seen).map some, mc := mc, δ := δ, times := recordedTimes t n seen, b := some b, dmc := some d, mref := mref, scaling := scaling }

theorem recorded_map (X : ℕ → ℝ) (n : ℕ) (seen : ℕ → Prop) : recorded (firstMags X n) seen = ((List.range n).filter fun i => decide (seen i)).map X := by
  unfold recorded
  rw [firstMags_length]
  apply List.map_congr_left
  intro i hi
  have hi' : i < n := List.mem_range.1 (List.mem_filter.1 hi).1
  unfold firstMags
  simp [List.getD_eq_getElem?_getD, hi']

theorem toB_record (X t : ℕ → ℝ) (seen : ℕ → Prop) (mc δ d b : ℝ) (mref scaling : Option ℝ) (n : ℕ) : toB (recordCall X t seen mc δ d b mref scaling n) =
    timed (((List.range n).filter fun i => decide (seen i)).map fun i => (some (X i), 0, t i)) false mc δ (some d) := by
  unfold toB recordCall timed recordedTimes
  simp only [recorded_map, List.map_map]
  rfl

theorem toB_timedCall (X t : ℕ → ℝ) (mc δ d b : ℝ) (n : ℕ) : toB (timedCall X t mc δ d b n) =
    timed ((List.range n).map fun i => (some (X i), 0, t i)) false mc δ (some d) := by
  unfold toB timedCall timed firstMags
  simp only [List.map_map]
  rfl

theorem record_line (X t : ℕ → ℝ) (seen : ℕ → Prop) (thr : ℝ) (n : ℕ) :
    (((List.range n).filter fun i => decide (seen i)).map fun i => (some (X i), (0 : ℝ), t i)).filterMap (lineEvent false thr) =
      ((List.range n).filter fun i => decide (seenAbove seen X thr i)).map fun i => (X i, 1, t i) := by
  rw [filterMap_lineEvent, List.filter_map, List.filter_filter, List.map_map]
  congr 1
  apply List.filter_congr
  intro i _
  simp only [Function.comp_apply, above, seenAbove]
  by_cases h1 : seen i <;> by_cases h2 : thr ≤ X i <;> simp [h1, h2]

theorem raw_record (c : AValue.Cls) (X t : ℕ → ℝ) (ht : StrictMono t) (seen : ℕ → Prop) (mc δ d b : ℝ) (mref scaling : Option ℝ) (n : ℕ) :
    raw c (recordCall X t seen mc δ d b mref scaling n) =
      raw c (timedCall (fun q => X (Nat.nth (seenAbove seen X (mc - δ / 2)) q)) (fun q => t (Nat.nth (seenAbove seen X (mc - δ / 2)) q)) mc δ d b
        (Nat.count (seenAbove seen X (mc - δ / 2)) n)) := by
  set p := seenAbove seen X (mc - δ / 2) with hp
  rw [raw_line, raw_line]
  have e : timeline (toB (recordCall X t seen mc δ d b mref scaling n)) = timeline (toB (timedCall (fun q => X (Nat.nth p q)) (fun q => t (Nat.nth p q)) mc δ d b (Nat.count p n))) := by
    rw [toB_record, toB_timedCall]
    refine timeline_filter _ _ _ _ ?_ ?_
    · rw [record_line]
      have e2 : ((List.range (Nat.count p n)).map fun q => (some (X (Nat.nth p q)), (0 : ℝ), t (Nat.nth p q))) =
          ((List.range n).filter fun i => decide (p i)).map fun i => (some (X i), (0 : ℝ), t i) := by
        rw [filter_nth, List.map_map]; rfl
      rw [e2, record_line]
      congr 1
      apply List.filter_congr
      intro i _
      have : seenAbove p X (mc - δ / 2) i ↔ p i := ⟨fun h => h.1, fun h => ⟨h, h.2⟩⟩
      exact decide_eq_decide.2 this.symm
    · rw [List.map_map]
      exact (List.nodup_range.filter _).map ht.injective
  rw [e]
  rfl

/-- The result of the call on the recorded events. -/
theorem result_record {X t : ℕ → ℝ} {seen : ℕ → Prop} {mc δ d b : ℝ} (hδ : δ = 0 ∨ 1 / 10 ^ 12 ≤ δ ∧ ∀ i, ∃ z : ℤ, X i = z * δ)
    (hd : 0 ≤ d) (hb : b ≠ 0) {n : ℕ} (hn : 0 < Nat.count (seenAbove seen X (mc - δ / 2)) n) {v f : ℝ} (hf : 0 < f) (r : ℝ)
    (hv : raw .morePositive (recordCall X t seen mc δ d b (some r) (some f) n) = .fin v) (warn : Bool) (s : AValue.State) :
    (AValue.calculate .morePositive warn s (recordCall X t seen mc δ d b (some r) (some f) n)).2 = .ok (.fin (v - b * (r - mc) - Real.log f / Real.log 10)) := by
  have hacc : Accepted (callOf (recorded (firstMags X n) seen) mc δ (some d)) := accepted_all _ mc δ _ (by
    rcases hδ with h | ⟨h1, h2⟩
    · exact Or.inl h
    · exact Or.inr ⟨h1, fun m hm => by obtain ⟨i, rfl⟩ := mem_recorded hm; exact h2 i⟩)
  set x : AValue.Args := recordCall X t seen mc δ d b (some r) (some f) n with hx
  have hcount : 0 < countAbove x.mags (x.mc - x.δ / 2) := by
    have e := congrArg List.length (used_timed (((List.range n).filter fun i => decide (seen i)).map fun i => (some (X i), 0, t i)) false mc δ (some d))
    rw [record_line, List.length_map, List.length_map, ← toB_record X t seen mc δ d b (some r) (some f) n, filter_nth, List.length_map, List.length_range] at e
    rw [← used_length_count, e]
    exact hn
  rw [calculate_snd, result_nonempty (c := .morePositive) (x := x) ((checkBinning_ok _ _).1 ((accepted_iff _).1 hacc).1)
    (Or.inr (by simp [hx, recordCall, recorded_map, recordedTimes])) ⟨Or.inr hd, fun _ => ⟨b, rfl, hb⟩⟩ hcount]
  rw [hv]
  have : AValue.scaled x (.fin v) = .ok ((Fl.sub (.fin v) (.fin (b * (r - mc)))).sub (Fl.log10 (.fin f))) := rfl
  rw [this, log10_fin hf]
  congr 2

theorem duration_record (X t : ℕ → ℝ) (seen : ℕ → Prop) (thr : ℝ) {n m : ℕ} (hm : Nat.count (seenAbove seen X thr) n = m + 1) :
    recordedDuration (firstMags X n) t seen thr = t (Nat.nth (seenAbove seen X thr) m) - t (Nat.nth (seenAbove seen X thr) 0) := by
  unfold recordedDuration
  have e : ((List.range (firstMags X n).length).filter fun i => decide (seenAbove seen (fun i => (firstMags X n).getD i 0) thr i)) =
      (List.range n).filter fun i => decide (seenAbove seen X thr i) := by
    rw [firstMags_length]
    apply List.filter_congr
    intro i hi
    have hi' : i < n := List.mem_range.1 hi
    have : (firstMags X n).getD i 0 = X i := by
      unfold firstMags
      simp [List.getD_eq_getElem?_getD, hi']
    exact decide_eq_decide.2 (by unfold seenAbove; dsimp only; rw [this])
  rw [e, filter_nth, hm]
  dsimp only
  rw [List.map_map]
  congr 1
  · rw [List.range_succ]; simp
  · rw [List.range_succ_eq_map]; simp

/-! ## C118 -/

section Main
variable {b mc δ d κ mc' : ℝ} {ℱ : Filtration ℕ m0} {seen : ℕ → Ω → Prop}

theorem more_recorded [IsProbabilityMeasure P] (h : Spec.RandomTimes P g w τ) (hkn : KnownTimes P g w ℱ) {a Q : ℝ → ℝ} (hS : TimedScheme b mc δ d a κ fun v i => Q (v i))
    (hQm : Measurable Q) (hge : ∀ v : ℕ → ℝ, ∀ i j, d - δ / 2 ≤ Q (v j) - Q (v i) ↔ Q (v i) + d ≤ Q (v j)) (hd : 0 ≤ d)
    (hb : b ≠ 0) (hκ : 0 < κ) (ha : Measurable a) (ha0 : ∀ e, 0 < e → 0 ≤ a e) {K : ℝ} (hK : 0 ≤ K) (haK : ∀ e, 0 < e → a e ≤ e + K)
    (hdet : DetectionNext P g ℱ b mc δ mc' d seen) (r u : ℝ) (hu : 0 < u) :
    RateRecorded P g w b mc δ mc' (some d) r u seen (κ⁻¹ * (u / τ) * (10 : ℝ) ^ (-b * (r - mc))) := by
  have hg := h.draws
  have hτ := mean_positive h
  set thr := mc' - δ / 2 with hthr
  set rr : ℕ → Ω → ℝ := fun i ω => if seen i ω ∧ thr ≤ Q ((g ω).expo i) then 1 else 0 with hr
  have hsm : ∀ i, MeasurableSet[ℱ i] {ω | seen i ω ∧ thr ≤ Q ((g ω).expo i)} := fun i =>
    (hdet.known i).inter (measurableSet_le measurable_const (hQm.comp (hkn.draw i)))
  have hrm : ∀ i, Measurable[ℱ i] (rr i) := fun i => Measurable.ite (hsm i) measurable_const measurable_const
  have hr01 : ∀ i ω, rr i ω = 0 ∨ rr i ω = 1 := by
    intro i ω
    rw [hr]
    simp only
    split_ifs
    exacts [Or.inr rfl, Or.inl rfl]
  have hlaw1 := selCount_gap hg hkn.draw hkn.next hrm hr01 ha ha0 hK haK
  have hlaw2 := selWait_gap hg hkn.draw hrm hr01 ha hK haK (waits_of h) hkn.wait hkn.nextWait
  have hall := (weight_law hg ha ha0 hK haK).mono fun ω hω => hω.1
  filter_upwards [hlaw1, hlaw2, hall, all_pos hg, waits_positive h, hdet.share, hdet.next] with ω hlaw1 hlaw2 hall hpos hwpos hshare hnext
  set v := (g ω).expo with hv
  set X : ℕ → ℝ := fun i => Q (v i) with hX
  set t := Spec.eventTime w ω with ht
  have htm : StrictMono t := eventTime_strictMono hwpos
  have hsim : ∀ n, simulateBinned n (fun _ => b) mc δ none .bValue (g ω) = .ok (firstMags X n) := hS.sim (g ω)
  set p : ℕ → Prop := seenAbove (fun i => seen i ω) X thr with hpd
  have hgrow : ∀ i j, d - δ / 2 ≤ X j - X i ↔ a (v i) ≤ v j := hS.grows v hpos
  have hclosed : ClosedNext X (d - δ / 2) p := by
    rintro i j ⟨s1, s2⟩ ⟨n1, n2, n3⟩
    have n2' : X i + d ≤ X j := (hge v i j).1 n2
    have s2' : thr ≤ X i := s2
    refine ⟨?_, by change thr ≤ X j; linarith⟩
    refine hnext (j + 1) _ (hsim _) i j (X i) (X j) n1 (firstMags_get.2 ⟨by omega, rfl⟩) (firstMags_get.2 ⟨by omega, rfl⟩) s1 s2 n2' ?_
    intro l m'' l1 l2 e
    obtain ⟨-, rfl⟩ := firstMags_get.1 e
    by_contra hc
    exact absurd ((hge v i l).2 (not_lt.1 hc)) (not_le.2 (n3 l l1 l2))
  have hrp : ∀ i, rr i ω = if p i then 1 else 0 := fun i => if_congr Iff.rfl rfl rfl
  have hcount : ∀ n, ((Nat.count p n : ℕ) : ℝ) = ∑ i ∈ Finset.range n, rr i ω := by
    intro n
    have := sum_nth (p := p) (fun _ => (1 : ℝ)) n
    simp only [Finset.sum_const, Finset.card_range, nsmul_eq_mul, mul_one] at this
    rw [this]
    exact Finset.sum_congr rfl fun i _ => (hrp i).symm
  have hlist : ∀ n, firstMags (fun q => X (Nat.nth p q)) (Nat.count p n) = (recorded (firstMags X n) fun i => seen i ω).filter fun m => decide (thr ≤ m) := by
    intro n
    rw [recorded_filter', filter_nth, List.map_map]
    rfl
  obtain ⟨ρ, hρ, hsh⟩ := hshare
  have hdense : ∀ᶠ n : ℕ in atTop, ρ * n ≤ ∑ i ∈ Finset.range n, rr i ω := by
    filter_upwards [hsh] with n hn
    have h := hn _ (hsim n)
    rw [← hlist, firstMags_length] at h
    rwa [hcount] at h
  have hcnt : Tendsto (fun n => Nat.count p n) atTop atTop := by
    have h1 : Tendsto (fun n : ℕ => ρ * (n : ℝ)) atTop atTop := tendsto_natCast_atTop_atTop.const_mul_atTop hρ
    have h2 : Tendsto (fun n : ℕ => ((Nat.count p n : ℕ) : ℝ)) atTop atTop := by
      refine tendsto_atTop_mono' _ ?_ h1
      filter_upwards [hdense] with n hn
      rwa [hcount]
    exact tendsto_natCast_atTop_iff.1 h2
  have hinf : {i | p i}.Infinite := by
    intro hfin
    have hb : ∀ n, Nat.count p n ≤ hfin.toFinset.card := by
      intro n
      rw [Nat.count_eq_card_filter_range]
      refine Finset.card_le_card fun i hi => ?_
      rw [Set.Finite.mem_toFinset]
      exact (Finset.mem_filter.1 hi).2
    obtain ⟨n, hn⟩ := (hcnt.eventually (eventually_gt_atTop hfin.toFinset.card)).exists
    exact absurd (hb n) (not_le.2 hn)
  have halive : ∀ i j, alive a v i j = if stillWaiting X (d - δ / 2) i j then 1 else 0 := by
    intro i j
    unfold alive
    refine if_congr ⟨fun H l l1 l2 => ?_, fun H l l1 l2 => ?_⟩ rfl rfl
    · by_contra hc
      exact absurd ((hgrow i l).1 (not_lt.1 hc)) (not_le.2 (H l l1 l2))
    · by_contra hc
      exact absurd ((hgrow i l).2 (not_lt.1 hc)) (not_le.2 (H l l1 l2))
  -- counts
  have hsum : ∀ m, selSum a (fun _ => 1) (upTo p m) (fun i => rr i ω) v = nextPairSum (fun q => X (Nat.nth p q)) (d - δ / 2) (fun _ _ => 1) m := by
    intro m
    have e := nextPairSum_nth hinf hclosed (fun _ _ => 1) (upTo p m)
    rw [count_upTo hinf] at e
    rw [e]
    unfold selSum selStep
    refine Finset.sum_congr rfl fun j _ => Finset.sum_congr rfl fun i hi => ?_
    have hij := Finset.mem_range.1 hi
    simp only [hrp]
    by_cases hpi : p i
    swap
    · rw [if_neg hpi, zero_mul, if_neg (fun h => hpi h.1)]
    rw [if_pos hpi, one_mul, halive]
    unfold excessOf
    by_cases c2 : stillWaiting X (d - δ / 2) i j
    · rw [if_pos c2, one_mul]
      by_cases c1 : a (v i) ≤ v j
      · rw [if_pos c1, if_pos ⟨hpi, hij, (hgrow i j).2 c1, c2⟩]
      · rw [if_neg c1, if_neg]
        rintro ⟨-, -, h, -⟩
        exact c1 ((hgrow i j).1 h)
    · rw [if_neg c2, zero_mul, if_neg]
      rintro ⟨-, -, -, h⟩
      exact c2 h
  -- waiting times
  set B : ℝ := (10 : ℝ) ^ (b * (mc' - mc)) with hB
  have hB0 : 0 < B := Real.rpow_pos_of_pos (by norm_num) _
  have hdamp : ∀ i, damp b d mc' (X i) = κ * B * growP a (v i) := by
    intro i
    have h1 : damp b d mc (X i) = κ * growP a (v i) := hS.damped v hpos i
    have h2 : damp b d mc' (X i) = damp b d mc (X i) * B := by
      unfold damp
      rw [hB, ← Real.rpow_add (by norm_num)]
      congr 1
      ring
    rw [h2, h1]; ring
  have hwait : ∀ m, waitedMore (fun q => X (Nat.nth p q)) (gapOf p fun k => w k ω) (fun q => damp b d mc' (X (Nat.nth p q))) (d - δ / 2) m =
      κ * B * ∑ k ∈ Finset.range (upTo p m), w k ω * selWeight a k (fun i => rr i ω) v := by
    intro m
    rw [waitedMore_nth hinf hclosed _ (fun i => damp b d mc' (X i)), Finset.mul_sum]
    refine Finset.sum_congr rfl fun k _ => ?_
    unfold selWeight
    rw [mul_left_comm (κ * B)]
    congr 1
    rw [Finset.mul_sum]
    refine Finset.sum_congr rfl fun i _ => ?_
    dsimp only
    rw [hrp, halive, hdamp]
    by_cases hpi : p i
    · rw [if_pos hpi, if_pos hpi]; ring
    · rw [if_neg hpi, if_neg hpi]; ring
  obtain ⟨q1, q2⟩ := selWait_ratio (a := a) (τ := τ) (r := fun i => rr i ω) (v := v) (w := fun k => w k ω) (fun i => hr01 i ω) hρ hdense hall hlaw1 hlaw2
  have hup : Tendsto (fun n => upTo p (Nat.count p n)) atTop atTop := (upTo_mono hinf).tendsto_atTop.comp hcnt
  set C : ℕ → ℝ := fun N => selSum a (fun _ => 1) N (fun i => rr i ω) v with hC
  set W : ℕ → ℝ := fun N => ∑ k ∈ Finset.range N, w k ω * selWeight a k (fun i => rr i ω) v with hW
  have htime : ∀ i, (∑ k ∈ Finset.range (i + 1), gapOf p (fun k => w k ω) k) = t (Nat.nth p i) := by
    intro i
    rw [gap_sum hinf]
    rfl
  set T : ℕ → ℝ := fun m => t (Nat.nth p (m - 1)) - t (Nat.nth p 0) with hT
  refine ⟨fun n => Real.log (C (upTo p (Nat.count p n)) / (κ * B * W (upTo p (Nat.count p n)) / T (Nat.count p n))) / Real.log 10 - b * (r - mc') -
    Real.log (T (Nat.count p n) / u) / Real.log 10, ?_, ?_⟩
  · filter_upwards [hup.eventually q1, hcnt.eventually (eventually_gt_atTop 1)] with n h1 h2
    refine ⟨_, hsim n, fun warn s => ?_⟩
    obtain ⟨m, hm⟩ : ∃ m, Nat.count p n = m + 1 := ⟨Nat.count p n - 1, by omega⟩
    have hTpos : 0 < T (Nat.count p n) := sub_pos.2 (htm (Nat.nth_strictMono hinf (by omega)))
    have hdur : recordedDuration (firstMags X n) t (fun i => seen i ω) thr = T (Nat.count p n) := by
      rw [duration_record X t (fun i => seen i ω) thr hm, hm]
      rfl
    rw [hdur]
    refine result_record (hS.grid.imp id fun e => ⟨e.1, fun i => e.2 v i⟩) hd hb (by change 0 < Nat.count p n; omega) (div_pos hTpos hu) r ?_ warn s
    rw [raw_record .morePositive X t htm]
    change raw .morePositive (timedCall (fun q => X (Nat.nth p q)) (fun q => t (Nat.nth p q)) mc' δ d b (Nat.count p n)) = _
    have e := morePositive_timed (X := fun q => X (Nat.nth p q)) (w := gapOf p fun k => w k ω) (mc := mc') (δ := δ) (d := d) (b := b) (n := Nat.count p n)
      (fun q => (Nat.nth_mem_of_infinite hinf q).2) (gap_pos hinf hwpos) (by rw [← hsum]; exact h1)
    simp only [htime] at e
    rw [e, ← hsum, hwait]
    have hT' : (∑ k ∈ Finset.range (Nat.count p n), gapOf p (fun k => w k ω) k) - gapOf p (fun k => w k ω) 0 = T (Nat.count p n) := by
      have e0 := htime 0
      have e1 : gapOf p (fun k => w k ω) 0 = t (Nat.nth p 0) := by
        rw [← e0, zero_add]
        exact (Finset.sum_range_one (gapOf p fun k => w k ω)).symm
      rw [e1, hm, htime]
      rfl
    rw [hT']
  · have hlim : Tendsto (fun n => (κ * B)⁻¹ * u * (10 : ℝ) ^ (-b * (r - mc')) / (W (upTo p (Nat.count p n)) / C (upTo p (Nat.count p n)))) atTop
        (𝓝 ((κ * B)⁻¹ * u * (10 : ℝ) ^ (-b * (r - mc')) / τ)) := (tendsto_const_nhds).div (q2.comp hup) hτ.ne'
    have hval : (κ * B)⁻¹ * u * (10 : ℝ) ^ (-b * (r - mc')) / τ = κ⁻¹ * (u / τ) * (10 : ℝ) ^ (-b * (r - mc)) := by
      have : (10 : ℝ) ^ (-b * (r - mc')) = (10 : ℝ) ^ (-b * (r - mc)) * B := by
        rw [hB, ← Real.rpow_add (by norm_num)]
        congr 1
        ring
      rw [this]
      have := hB0.ne'; have := hκ.ne'; have := hτ.ne'
      field_simp
    rw [hval] at hlim
    refine hlim.congr' ?_
    filter_upwards [hup.eventually q1, hcnt.eventually (eventually_gt_atTop 1), (q2.comp hup).eventually (lt_mem_nhds hτ)] with n h1 h2 h3
    have hTpos : 0 < T (Nat.count p n) := sub_pos.2 (htm (Nat.nth_strictMono hinf (by omega)))
    have h1' : 0 < C (upTo p (Nat.count p n)) := h1
    have hWpos : 0 < W (upTo p (Nat.count p n)) := by
      have h3' : 0 < W (upTo p (Nat.count p n)) / C (upTo p (Nat.count p n)) := h3
      exact (div_pos_iff_of_pos_right h1').1 h3'
    generalize C (upTo p (Nat.count p n)) = c at *
    generalize W (upTo p (Nat.count p n)) = w' at *
    generalize T (Nat.count p n) = T' at *
    have hκB : 0 < κ * B := by positivity
    rw [Real.rpow_sub (by norm_num), Real.rpow_sub (by norm_num), ten_pow_log10 (by positivity), ten_pow_log10 (by positivity), neg_mul, Real.rpow_neg (by norm_num)]
    have hp : (10 : ℝ) ^ (b * (r - mc')) ≠ 0 := (Real.rpow_pos_of_pos (by norm_num) _).ne'
    have := h1'.ne'; have := hWpos.ne'; have := hTpos.ne'; have := hκB.ne'; have := hu.ne'
    field_simp

/-- C118: the a-more-positive value of the recorded events, computed with the b-value of the simulation, gives the true rate, however the events are missed, as long as the first
event that is at least `dmc` larger than a recorded one is recorded. Magnitudes that are not binned, any `dmc`, any `mc'`. -/
theorem C118_more_positive [IsProbabilityMeasure P] (h : Spec.RandomTimes P g w τ) (hkn : KnownTimes P g w ℱ) (hb : 0 < b) (hd : 0 ≤ d) (hdet : DetectionNext P g ℱ b mc 0 mc' d seen)
    (r u : ℝ) (hu : 0 < u) : RateRecorded P g w b mc 0 mc' (some d) r u seen (u / τ * (10 : ℝ) ^ (-b * (r - mc))) := by
  have hβ := mul_nonneg (mul_nonneg hb.le log_ten_pos.le) hd
  have h1 := more_recorded h hkn (Q := fun e => mc + e / (b * Real.log 10)) (timed_continuous mc hb hd) (by fun_prop)
    (fun v i j => by rw [zero_div, sub_zero]; constructor <;> intro h <;> linarith) hd hb.ne' one_pos (by fun_prop) (fun e he => by linarith) (K := b * Real.log 10 * d) hβ
    (fun e _ => le_rfl) hdet r u hu
  simpa only [inv_one, one_mul] using h1

/-- C118 (limit): with binned magnitudes, `mc` on the grid and `dmc` a positive multiple of the bin width, the rate is too large by the factor `10^(b delta_m / 10^12)`, as without
missing events. -/
theorem C118_binned [IsProbabilityMeasure P] (h : Spec.RandomTimes P g w τ) (hkn : KnownTimes P g w ℱ) (z : ℤ) (k : ℕ) (hb : 0 < b) (hδ : 1 / 10 ^ 12 ≤ δ) (hk : 1 ≤ k)
    (hdet : DetectionNext P g ℱ b (z * δ) δ mc' (k * δ) seen) (r u : ℝ) (hu : 0 < u) :
    RateRecorded P g w b (z * δ) δ mc' (some (k * δ)) r u seen ((10 : ℝ) ^ (b * δ / 10 ^ 12) * (u / τ) * (10 : ℝ) ^ (-b * (r - z * δ))) := by
  have hp : 0 < δ := lt_of_lt_of_le (by positivity) hδ
  have hx : 0 < b * Real.log 10 * δ := mul_pos (mul_pos hb log_ten_pos) hp
  have hS := timed_binned z k hb hδ hk
  have hthK := binned_le hx k
  have hQm : Measurable fun e : ℝ => ((z + ⌊e / (b * Real.log 10 * δ) + 1 / 10 ^ 12⌋ : ℤ) : ℝ) * δ := by
    have h1 : Measurable fun z : ℤ => (z : ℝ) := measurable_from_top
    have h2 : Measurable fun e : ℝ => ⌊e / (b * Real.log 10 * δ) + 1 / 10 ^ 12⌋ := Int.measurable_floor.comp (by fun_prop)
    exact (h1.comp (h2.const_add z)).mul_const δ
  have h1 := more_recorded h hkn (Q := fun e => ((z + ⌊e / (b * Real.log 10 * δ) + 1 / 10 ^ 12⌋ : ℤ) : ℝ) * δ) hS hQm
    (fun v i j => by
      generalize z + ⌊v j / (b * Real.log 10 * δ) + 1 / 10 ^ 12⌋ = y
      generalize z + ⌊v i / (b * Real.log 10 * δ) + 1 / 10 ^ 12⌋ = x
      have e1 : k * δ - δ / 2 ≤ (y : ℝ) * δ - x * δ ↔ (x : ℝ) + k - 1 / 2 ≤ y := by
        rw [show k * δ - δ / 2 = ((k : ℝ) - 1 / 2) * δ by ring, show (y : ℝ) * δ - x * δ = (y - x) * δ by ring, mul_le_mul_iff_left₀ hp]
        constructor <;> intro h <;> linarith
      have e2 : (x : ℝ) * δ + k * δ ≤ y * δ ↔ (x : ℝ) + k ≤ y := by
        rw [← add_mul, mul_le_mul_iff_left₀ hp]
      rw [e1, e2]
      constructor
      · intro h
        have h2 : (((x + k - 1 : ℤ)) : ℝ) < y := by push_cast; linarith
        have h3 : x + k - 1 < y := by exact_mod_cast h2
        have h4 : x + k ≤ y := by omega
        exact_mod_cast h4
      · intro h; linarith)
    (by positivity) hb.ne' (Real.rpow_pos_of_pos (by norm_num) _) (binned_measurable (δ := δ) k).1 (fun e he => binned_nonneg hx hk he) (K := b * Real.log 10 * δ * k) (by positivity) hthK
    hdet r u hu
  have e : ((10 : ℝ) ^ (-(b * δ / 10 ^ 12)))⁻¹ = (10 : ℝ) ^ (b * δ / 10 ^ 12) := by rw [← Real.rpow_neg (by norm_num), neg_neg]
  rwa [e] at h1

/-- C118: the same with the default cutoff, one bin. -/
theorem C118_default [IsProbabilityMeasure P] (h : Spec.RandomTimes P g w τ) (hkn : KnownTimes P g w ℱ) (z : ℤ) (hb : 0 < b) (hδ : 1 / 10 ^ 12 ≤ δ)
    (hdet : DetectionNext P g ℱ b (z * δ) δ mc' δ seen) (r u : ℝ) (hu : 0 < u) :
    RateRecorded P g w b (z * δ) δ mc' none r u seen ((10 : ℝ) ^ (b * δ / 10 ^ 12) * (u / τ) * (10 : ℝ) ^ (-b * (r - z * δ))) := by
  have h := C118_binned (mc' := mc') (seen := seen) h hkn z 1 hb hδ le_rfl (by rwa [Nat.cast_one, one_mul]) r u hu
  rw [Nat.cast_one, one_mul] at h
  exact h

/-! ### The hypotheses are met -/

theorem pairs_indep (h : Spec.RandomTimes P g w τ) : iIndepFun (fun i ω => ((g ω).expo i, w i ω)) P := by
  set π : ℕ → Set (Set Ω) := fun i => {s | ∃ t ∈ Set.image2 (fun A B : Set ℝ => A ×ˢ B) {A | MeasurableSet A} {B | MeasurableSet B}, (fun ω => ((g ω).expo i, w i ω)) ⁻¹' t = s} with hπ
  refine iIndepSets.iIndep (fun i => ?_) π (fun i => isPiSystem_prod.comap _) (fun i => ?_) ?_
  · exact ((h.draws.expo_measurable i).prodMk (h.wait_measurable i)).comap_le
  · rw [← generateFrom_prod, MeasurableSpace.comap_generateFrom]
    rfl
  · rw [iIndepSets_iff]
    intro S f hf
    have hf' : ∀ i, ∃ A B : Set ℝ, i ∈ S → MeasurableSet A ∧ MeasurableSet B ∧ f i = (fun ω => (g ω).expo i) ⁻¹' A ∩ w i ⁻¹' B := by
      intro i
      by_cases hi : i ∈ S
      · obtain ⟨t, ⟨A, hA, B, hB, rfl⟩, e⟩ := hf i hi
        exact ⟨A, B, fun _ => ⟨hA, hB, e.symm⟩⟩
      · exact ⟨∅, ∅, fun h => absurd h hi⟩
    choose A B hAB using hf'
    have e1 : (⋂ i ∈ S, f i) = (fun ω => (g ω).expo) ⁻¹' (⋂ i ∈ S, {v | v i ∈ A i}) ∩ (fun ω i => w i ω) ⁻¹' (⋂ i ∈ S, {v | v i ∈ B i}) := by
      ext ω
      simp only [Set.mem_iInter, Set.mem_inter_iff, Set.mem_preimage, Set.mem_ofPred_eq]
      constructor
      · intro H
        have H' : ∀ i ∈ S, (g ω).expo i ∈ A i ∧ w i ω ∈ B i := fun i hi => by
          have := H i hi
          rw [(hAB i hi).2.2] at this
          exact this
        exact ⟨fun i hi => (H' i hi).1, fun i hi => (H' i hi).2⟩
      · intro H i hi
        rw [(hAB i hi).2.2]
        exact ⟨H.1 i hi, H.2 i hi⟩
    have mA : MeasurableSet (⋂ i ∈ S, {v : ℕ → ℝ | v i ∈ A i}) := Finset.measurableSet_biInter _ fun i hi => measurable_pi_apply i (hAB i hi).1
    have mB : MeasurableSet (⋂ i ∈ S, {v : ℕ → ℝ | v i ∈ B i}) := Finset.measurableSet_biInter _ fun i hi => measurable_pi_apply i (hAB i hi).2.1
    rw [e1, h.independent.measure_inter_preimage_eq_mul _ _ mA mB]
    have e2 : (fun ω => (g ω).expo) ⁻¹' (⋂ i ∈ S, {v | v i ∈ A i}) = ⋂ i ∈ S, (fun ω => (g ω).expo i) ⁻¹' (A i) := by ext ω; simp
    have e3 : (fun ω i => w i ω) ⁻¹' (⋂ i ∈ S, {v | v i ∈ B i}) = ⋂ i ∈ S, (w i) ⁻¹' (B i) := by ext ω; simp
    rw [e2, e3, h.draws.expo_indep.measure_inter_preimage_eq_mul S (fun i hi => (hAB i hi).1), h.wait_indep.measure_inter_preimage_eq_mul S (fun i hi => (hAB i hi).2.1),
      ← Finset.prod_mul_distrib]
    refine Finset.prod_congr rfl fun i hi => ?_
    rw [(hAB i hi).2.2]
    have hind : IndepFun (fun ω => (g ω).expo i) (w i) P := h.independent.comp (measurable_pi_apply i) (measurable_pi_apply i)
    exact (hind.measure_inter_preimage_eq_mul _ _ (hAB i hi).1 (hAB i hi).2.1).symm

/-- The information given by the magnitudes and the times. -/
theorem knownTimes_exists (h : Spec.RandomTimes P g w τ) : ∃ ℱ : Filtration ℕ m0, KnownTimes P g w ℱ := by
  have hsm : ∀ i, StronglyMeasurable fun ω => ((g ω).expo i, w i ω) := fun i => ((h.draws.expo_measurable i).prodMk (h.wait_measurable i)).stronglyMeasurable
  have had : ∀ i, Measurable[Filtration.natural (fun i ω => ((g ω).expo i, w i ω)) hsm i] fun ω => ((g ω).expo i, w i ω) := fun i =>
    (Filtration.stronglyAdapted_natural hsm i).measurable
  have hind := fun i : ℕ => iIndepFun.indep_comap_natural_of_lt hsm (pairs_indep h) (Nat.lt_succ_self i)
  refine ⟨Filtration.natural (fun i ω => ((g ω).expo i, w i ω)) hsm, ⟨fun i => (had i).fst, fun i => ?_⟩, fun i => (had i).snd, fun i => ?_⟩
  · refine indep_of_indep_of_le_left (hind i) ?_
    exact (measurable_fst.comp (comap_measurable fun ω => ((g ω).expo (i + 1), w (i + 1) ω))).comap_le
  · refine indep_of_indep_of_le_left (hind i) ?_
    exact (measurable_snd.comp (comap_measurable fun ω => ((g ω).expo (i + 1), w (i + 1) ω))).comap_le

/-- Recorded after a dead time: events less than `s` after the one before are missing unless they are not smaller than it. -/
def AfterDead (b mc δ s : ℝ) (g : Ω → Rng) (w : ℕ → Ω → ℝ) (i : ℕ) (ω : Ω) : Prop := s ≤ w i ω ∨ NotHidden b mc δ g i ω

/-- C118: if the events within a dead time after the event before are missing unless they are not smaller, the rate is still found. -/
theorem C118_dead_time [IsProbabilityMeasure P] (h : Spec.RandomTimes P g w τ) (s : ℝ) (z : ℤ) (k : ℕ) (hb : 0 < b) (hδ : 1 / 10 ^ 12 ≤ δ) (hk : 1 ≤ k) (r u : ℝ) (hu : 0 < u) :
    RateRecorded P g w b (z * δ) δ (z * δ) (some (k * δ)) r u (AfterDead b (z * δ) δ s g w) ((10 : ℝ) ^ (b * δ / 10 ^ 12) * (u / τ) * (10 : ℝ) ^ (-b * (r - z * δ))) := by
  obtain ⟨ℱ, hkn⟩ := knownTimes_exists h
  refine C118_binned h hkn z k hb hδ hk (C112_not_smaller h.draws hkn.toKnownSoFar z k hb hδ hk (fun i => ?_) (Eventually.of_forall fun _ _ h => Or.inr h)) r u hu
  exact (measurableSet_le measurable_const (hkn.wait i)).union (notHidden_known hkn.toKnownSoFar z hb hδ i)

end Main

/-- A case: bins of 0.1 above 2.0 with `b = 1` at the times of a Poisson process of rate 1, with a dead time of 0.5 after every event. -/
example : ∃ (Ω : Type) (_ : MeasurableSpace Ω) (P : Measure Ω) (g : Ω → Rng) (w : ℕ → Ω → ℝ), Spec.RandomTimes P g w 1 ∧
    RateRecorded P g w 1 ((20 : ℤ) * (1 / 10)) (1 / 10) ((20 : ℤ) * (1 / 10)) (some ((1 : ℕ) * (1 / 10))) 3 365 (AfterDead 1 ((20 : ℤ) * (1 / 10)) (1 / 10) (1 / 2) g w)
      ((10 : ℝ) ^ ((1 : ℝ) * (1 / 10) / 10 ^ 12) * (365 / 1) * (10 : ℝ) ^ (-1 * (3 - (20 : ℤ) * (1 / 10)) : ℝ)) := by
  obtain ⟨Ω, mΩ, P, hP, g, w, -, h⟩ := randomTimes_exist
  exact ⟨Ω, mΩ, P, g, w, h, C118_dead_time h (1 / 2) 20 1 one_pos (by norm_num) le_rfl 3 365 (by norm_num)⟩

end
end SeismoStats.Props
