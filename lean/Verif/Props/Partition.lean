/-
Properties C41 (`cut_constant_idx`) and C43 (`values_from_partitioning`).
-/
import Verif.Model.BSignificant
import Verif.Props.AValueRate
import Verif.Props.BValueWeights
import Verif.Proofs.Py

namespace SeismoStats.Props
open SeismoStats SeismoStats.BSignificant
open SeismoStats.BValue (Reachable argsort_perm argsort_sorted argsort_lt argsort_length)
set_option linter.unusedSimpArgs false
open Classical
noncomputable section

/-! ## C41 -/

/-- Consecutive pieces of `n` elements, the last one possibly shorter. -/
def chunks {α : Type} (l : List α) (n : ℕ) : List (List α) :=
  (List.range ((l.length + n - 1) / n)).map fun k => (l.drop (k * n)).take n

theorem arange_count {d n k : ℕ} (hn : 0 < n) : k < (d + n - 1) / n ↔ k * n < d := by
  rw [Nat.lt_iff_add_one_le, Nat.le_div_iff_mul_le hn, Nat.add_mul, one_mul]
  omega

theorem split_chunks {α : Type} (l : List α) (n : ℕ) : ∀ m a : ℕ, l.length ≤ a + (m + 1) * n →
    splitAt l a ((List.range m).map fun k => a + (k + 1) * n) =
      (List.range (m + 1)).map fun k => (l.drop (a + k * n)).take n := by
  intro m
  induction m with
  | zero =>
    intro a h
    simp only [List.range_zero, List.map_nil, splitAt, zero_add, List.range_one, List.map_cons, zero_mul, add_zero]
    rw [List.take_of_length_le]
    rw [List.length_drop]; omega
  | succ m ih =>
    intro a h
    rw [List.range_succ_eq_map, List.map_cons, List.map_map]
    simp only [splitAt]
    have e := ih (a + n) (by rw [Nat.add_mul (m + 1) 1 n] at h; omega)
    have e2 : ((List.range m).map ((fun k => a + (k + 1) * n) ∘ Nat.succ)) =
        (List.range m).map fun k => a + n + (k + 1) * n := by
      apply List.map_congr_left
      intro k _
      simp only [Function.comp, Nat.succ_eq_add_one]; ring
    have e3 : a + (0 + 1) * n = a + n := by ring
    rw [e2, e3, e, List.range_succ_eq_map (n := m + 1), List.map_cons, List.map_map]
    congr 1
    · simp
    · apply List.map_congr_left
      intro k _
      simp only [Function.comp, Nat.succ_eq_add_one]
      congr 2; ring

theorem split_arange {α : Type} (l : List α) {n a : ℕ} (hn : 0 < n) (ha : a < l.length) :
    splitAt l a (arangeNat a l.length n).tail = chunks (l.drop a) n := by
  unfold arangeNat chunks
  rw [List.length_drop]
  set c := (l.length - a + n - 1) / n with hc
  obtain ⟨m, hm⟩ : ∃ m, c = m + 1 := by
    have : 0 < c := by rw [hc, arange_count hn]; omega
    exact ⟨c - 1, by omega⟩
  have h1 : ¬ (m + 1 < c) := by omega
  rw [hc, arange_count hn] at h1
  rw [hm, List.range_succ_eq_map, List.map_cons, List.tail_cons, List.map_map]
  have := split_chunks l n m a (by omega)
  rw [← List.range_succ_eq_map]
  have e : ((List.range m).map ((fun k => a + k * n) ∘ Nat.succ)) = (List.range m).map fun k => a + (k + 1) * n := by
    apply List.map_congr_left; intro k _; rfl
  rw [e, this]
  apply List.map_congr_left
  intro k _
  rw [List.drop_drop]

theorem split_cuts {α : Type} (l : List α) {n off : ℕ} (ho : off < n) :
    splitAt l 0 (cuts l.length n off) =
      if l.length ≤ off then [l] else if off = 0 then chunks l n else l.take off :: chunks (l.drop off) n := by
  have hn : 0 < n := by omega
  unfold cuts
  by_cases h : l.length ≤ off
  · rw [if_pos h]
    have : arangeNat off l.length n = [] := by
      unfold arangeNat
      have : l.length - off + n - 1 = n - 1 := by omega
      rw [this, Nat.div_eq_of_lt (by omega)]; rfl
    rw [this]
    simp [splitAt]
  · rw [if_neg h]
    by_cases h0 : off = 0
    · subst h0
      simp only [if_true]
      rw [split_arange l hn (by omega), List.drop_zero]
    · simp only [if_neg h0]
      have hne : arangeNat off l.length n = off :: (arangeNat off l.length n).tail := by
        unfold arangeNat
        obtain ⟨m, hm⟩ : ∃ m, (l.length - off + n - 1) / n = m + 1 := by
          have : 0 < (l.length - off + n - 1) / n := by rw [arange_count hn]; omega
          exact ⟨_, (Nat.succ_pred_eq_of_pos this).symm⟩
        rw [hm, List.range_succ_eq_map]
        simp
      rw [hne]
      simp only [splitAt, List.drop_zero, Nat.sub_zero, List.tail_cons]
      rw [split_arange l hn (by omega)]

theorem chunks_flatten {α : Type} {n : ℕ} (hn : 0 < n) : ∀ (k : ℕ) (l : List α), l.length = k → (chunks l n).flatten = l := by
  intro k
  induction k using Nat.strong_induction_on with
  | _ k ih =>
    intro l hl
    by_cases h0 : l = []
    · subst h0
      unfold chunks
      have : ([] : List α).length + n - 1 = n - 1 := by simp
      rw [this, Nat.div_eq_of_lt (by omega)]; rfl
    · have hlen := List.length_pos_iff.2 h0
      unfold chunks
      obtain ⟨m, hm⟩ : ∃ m, (l.length + n - 1) / n = m + 1 := by
        have : 0 < (l.length + n - 1) / n := by rw [arange_count hn]; omega
        exact ⟨_, (Nat.succ_pred_eq_of_pos this).symm⟩
      rw [hm, List.range_succ_eq_map, List.map_cons, List.map_map, List.flatten_cons]
      have hm2 : ((l.drop n).length + n - 1) / n = m := by
        apply le_antisymm
        · by_contra hcon
          rw [not_le, arange_count hn, List.length_drop] at hcon
          have : ¬ (m + 1 < (l.length + n - 1) / n) := by omega
          rw [arange_count hn, Nat.add_mul] at this
          omega
        · by_contra hcon
          rw [not_le] at hcon
          have h1 : m < (l.length + n - 1) / n := by omega
          rw [arange_count hn] at h1
          have h2 : ¬ ((l.drop n).length + n - 1) / n < ((l.drop n).length + n - 1) / n := lt_irrefl _
          rw [arange_count hn, List.length_drop] at h2
          have h3 : (((l.length - n) + n - 1) / n + 1) * n ≤ m * n := by
            apply Nat.mul_le_mul_right
            rw [List.length_drop] at hcon
            omega
          rw [Nat.add_mul, one_mul] at h3
          omega
      have e := ih (l.drop n).length (by rw [List.length_drop]; omega) (l.drop n) rfl
      unfold chunks at e
      rw [hm2] at e
      have e2 : (List.range m).map ((fun k => (l.drop (k * n)).take n) ∘ Nat.succ) =
          (List.range m).map fun k => ((l.drop n).drop (k * n)).take n := by
        apply List.map_congr_left
        intro k _
        simp only [Function.comp, Nat.succ_eq_add_one, List.drop_drop]
        congr 2; ring
      rw [e2, e]
      simp

/-- C41: for `offset < n` the pieces, in order, make up the input; all pieces but the first and the last
have `n` elements, the first has `offset` (`n` for offset 0), the last at most `n`; no piece is empty
(except for the empty input); the indices are the positions where the second, third, ... piece starts. -/
theorem C41_pieces {α : Type} (l : List α) {n off : ℕ} (ho : off < n) :
    ∃ idx pieces, cutConstant l n off = .ok (idx, pieces) ∧ pieces.flatten = l ∧ pieces.length = idx.length + 1 ∧
      (∀ k, idx[k]? = if (if off = 0 then n else off) + k * n < l.length then some ((if off = 0 then n else off) + k * n) else none) ∧
      pieces[0]? = some (l.take (if off = 0 then n else off)) ∧
      (∀ k i, idx[k]? = some i → pieces[k + 1]? = some ((l.drop i).take n)) := by
  have hn : 0 < n := by omega
  refine ⟨cuts l.length n off, splitAt l 0 (cuts l.length n off), by unfold cutConstant; rw [if_neg (by omega)], ?_⟩
  have hidx : ∀ k, (cuts l.length n off)[k]? = if (if off = 0 then n else off) + k * n < l.length then
      some ((if off = 0 then n else off) + k * n) else none := by
    intro k
    unfold cuts arangeNat
    by_cases h0 : off = 0
    · subst h0
      simp only [if_true]
      rw [List.getElem?_tail, List.getElem?_map]
      by_cases hk : n + k * n < l.length
      · rw [if_pos hk, List.getElem?_range]
        · simp; ring
        · rw [arange_count hn, Nat.add_mul]; omega
      · rw [if_neg hk, List.getElem?_eq_none]
        · rfl
        · rw [List.length_range]
          by_contra hcon
          rw [not_le, arange_count hn, Nat.add_mul] at hcon
          omega
    · simp only [if_neg h0]
      rw [List.getElem?_map]
      by_cases hk : off + k * n < l.length
      · rw [if_pos hk, List.getElem?_range]
        · simp
        · rw [arange_count hn]; omega
      · rw [if_neg hk, List.getElem?_eq_none]
        · rfl
        · rw [List.length_range]
          by_contra hcon
          rw [not_le, arange_count hn] at hcon
          omega
  have hlen : ∀ (l : List α) (a : ℕ) (c : List ℕ), (splitAt l a c).length = c.length + 1 := by
    intro l a c
    induction c generalizing a with
    | nil => rfl
    | cons x c ih => simp [splitAt, ih]
  refine ⟨?_, hlen _ _ _, hidx, ?_, ?_⟩
  · rw [split_cuts l ho]
    split_ifs
    · simp
    · exact chunks_flatten hn _ l rfl
    · rw [List.flatten_cons, chunks_flatten hn _ _ rfl, List.take_append_drop]
  · rw [split_cuts l ho]
    split_ifs with h1 h2 h2
    · subst h2
      have : l = [] := List.length_eq_zero_iff.1 (by omega)
      simp [this]
    · rw [List.take_of_length_le h1]; rfl
    · unfold chunks
      rw [List.getElem?_map, List.getElem?_range]
      · simp
      · rw [arange_count hn]; omega
    · rfl
  · intro k i hi
    rw [hidx k] at hi
    rw [split_cuts l ho]
    split_ifs at hi with h3 h4 h4
    · cases hi
      subst h3
      rw [if_neg (by omega), if_pos rfl]
      unfold chunks
      rw [List.getElem?_map, List.getElem?_range]
      · simp only [Option.map_some]
        congr 3; ring
      · rw [arange_count hn, Nat.add_mul]; omega
    · cases hi
      rw [if_neg (by omega), if_neg h3, List.getElem?_cons_succ]
      unfold chunks
      rw [List.getElem?_map, List.getElem?_range]
      · simp [List.drop_drop]
      · rw [arange_count hn, List.length_drop]; omega

/-- C41: an offset of `n` or more raises. -/
theorem C41_raises {α : Type} (l : List α) {n off : ℕ} (h : n ≤ off) : cutConstant l n off = .error .valueError := by
  unfold cutConstant; rw [if_pos h]

/-- The hypotheses are met. -/
example : cutConstant [1, 2, 3, 4, 5, 6, 7] 3 1 = .ok ([1, 4], [[1], [2, 3, 4], [5, 6, 7]]) := by
  rfl

/-! ## C43 -/

/-- The keywords are those of the class: `m_ref` and `b_value` are known to the a-value classes only (a-more-positive needs `b_value`), `dmc` to the
positive classes only, `weights` to the b-value classes only. -/
def Accepts (m : Method) (kw : Kw) : Prop :=
  match m with
  | .b .classic | .b .utsu => kw.dmc = none ∧ kw.mref = none ∧ kw.b = none
  | .b _ => kw.mref = none ∧ kw.b = none
  | .a .classic => kw.dmc = none ∧ kw.weights = none
  | .a .positive => kw.weights = none
  | .a .morePositive => kw.b ≠ none ∧ kw.weights = none

theorem fits_iff (m : Method) (kw : Kw) : kw.fits m = true ↔ Accepts m kw := by
  rcases m with c | c <;> cases c <;> simp [Kw.fits, Accepts, and_assoc, Option.isSome_iff_ne_none]

/-- `r` is what a fresh estimator gives for the events of one part: the events are taken in the order
of their times; value, deviation and number of events used are those read from the estimator
(the a-value classes have no deviation). An empty part gives NaN, NaN, 0. -/
def IsPart (m : Method) (warn : Bool) (δ : ℝ) (kw : Kw) (mags : List (Option ℝ)) (times : List ℝ) (mc f : ℝ) (r : Part) : Prop :=
  (mags = [] ∧ r = ⟨.nan, .nan, 0⟩) ∨
  (mags ≠ [] ∧ ∃ order : List ℕ, order.Perm (List.range times.length) ∧
    (order.map fun i => times.getD i 0).Pairwise (· ≤ ·) ∧ (∀ i ∈ order, i < mags.length) ∧
    match m with
    | .b c => Accepts m kw ∧ ∃ s v, BValue.calculate c warn BValue.State.init { mags := order.map fun i => mags.getD i none, mc := mc, δ := δ, dmc := kw.dmc, weights := kw.weights } = (s, .ok v) ∧
        r.value = v ∧ BValue.stdOf c kw.draws s = .ok r.std ∧ s.n = .ok r.n
    | .a c => Accepts m kw ∧ ∃ s v, AValue.calculate c warn AValue.State.init { mags := order.map fun i => mags.getD i none, mc := mc, δ := δ, times := order.map fun i => times.getD i 0, scaling := some f, mref := kw.mref, b := kw.b, dmc := kw.dmc } = (s, .ok v) ∧
        r.value = v ∧ r.std = .nan ∧ s.n = .ok r.n)

/-- The completeness magnitude of part `i`. -/
def mcAt (mc : Mc) (i : ℕ) : ℝ :=
  match mc with
  | .one m => m
  | .many l => l.getD i 0

/-- The scaling factor of part `i`. -/
def scaleOf (scaling : Option (List ℝ)) (i : ℕ) : ℝ :=
  match scaling with
  | none => 1
  | some l => l.getD i 0

/-! ### the a-value readings do not depend on the history -/

theorem finish_state {p : AValue.State × Fl ℝ} {v : Fl ℝ} (h : (AValue.finish p).2 = .ok v) :
    (AValue.finish p).1.a = some v ∧ (AValue.finish p).1.mags = p.1.mags := by
  unfold AValue.finish at h ⊢
  simp only at h ⊢
  split at h
  · cases h
  · rename_i a ha
    cases h
    exact ⟨rfl, rfl⟩

/-- The magnitudes kept. -/
def keptMags (c : AValue.Cls) (x : AValue.Args) : List (Option ℝ) :=
  if BValue.usedIdx (AValue.toB x) = [] then [] else
  match c with
  | .classic => (BValue.usedIdx (AValue.toB x)).map fun i => some (magOf (AValue.toB x) i)
  | .positive => (AValue.posPairs x).map fun p => some (magOf (AValue.toB x) p.2)
  | .morePositive => (AValue.morRanks x).map fun r => some (magOf (AValue.toB x) ((BValue.timeOrder (AValue.toB x)).getD r.2 0))

theorem timed_kept {c : AValue.Cls} (hc : c ≠ .classic) (warn : Bool) (s : AValue.State) (x : AValue.Args) {v : Fl ℝ}
    (h : (AValue.timedCalculate c warn s x).2 = .ok v) :
    (AValue.timedCalculate c warn s x).1.a = some v ∧ (AValue.timedCalculate c warn s x).1.mags = some (keptMags c x) := by
  unfold AValue.timedCalculate at h ⊢
  simp only at h ⊢
  split at h
  · cases h
  · rename_i hd
    rw [if_neg hd]
    cases hb : BValue.checkBinning x.mags x.δ with
    | error e => rw [AValue.base_bin_error _ _ _ _ hb] at h; cases h
    | ok u =>
      cases ht : gather x.times (BValue.usedIdx (AValue.toB x)) with
      | error e => rw [AValue.base_gather_error hc _ _ _ hb (e := e) (by simpa using ht)] at h; cases h
      | ok t =>
        rw [AValue.base_timed hc _ _ _ hb (t := t) (by simpa using ht)] at h ⊢
        unfold keptMags
        split at h
        · rename_i h0
          rw [if_pos h0, if_pos h0]
          cases h
          refine ⟨rfl, ?_⟩
          simp [AValue.filt, h0]
        · rename_i h0
          rw [if_neg h0, if_neg h0]
          obtain ⟨h1, h2⟩ := finish_state h
          refine ⟨h1, ?_⟩
          rw [h2]
          cases c with
          | classic => exact absurd rfl hc
          | positive =>
            unfold AValue.estimate
            simp only []
            rw [AValue.estimatePositive_filt _ warn x ht rfl]
          | morePositive =>
            unfold AValue.estimate
            simp only []
            rw [AValue.estimateMore_filt _ warn x ht rfl]

theorem a_state (c : AValue.Cls) (warn : Bool) (s : AValue.State) (x : AValue.Args) {v : Fl ℝ}
    (h : (AValue.calculate c warn s x).2 = .ok v) :
    (AValue.calculate c warn s x).1.a = some v ∧ (AValue.calculate c warn s x).1.mags = some (keptMags c x) := by
  unfold AValue.calculate at h ⊢
  cases c with
  | classic =>
    simp only at h ⊢
    cases hb : BValue.checkBinning x.mags x.δ with
    | error e => rw [AValue.base_bin_error _ _ _ _ hb] at h; cases h
    | ok u =>
      rw [AValue.base_classic _ _ _ hb] at h ⊢
      unfold keptMags
      split at h
      · rename_i h0
        rw [if_pos h0, if_pos h0]
        cases h
        refine ⟨rfl, ?_⟩
        simp [AValue.filt, h0]
      · rename_i h0
        rw [if_neg h0, if_neg h0]
        obtain ⟨h1, h2⟩ := finish_state h
        exact ⟨h1, by rw [h2]; rfl⟩
  | positive => exact timed_kept (by simp) warn _ x h
  | morePositive =>
    simp only at h ⊢
    split at h
    · cases h
    · rename_i h0
      rw [if_neg h0]
      exact timed_kept (by simp) warn _ x h

theorem partA_snd (c : AValue.Cls) (warn : Bool) (s : AValue.State) (x : AValue.Args) :
    (partA c warn s x).2 = (AValue.calculate c warn s x).2.map fun v => ⟨v, .nan, (keptMags c x).length⟩ := by
  unfold partA
  have h := fun v => a_state c warn s x (v := v)
  cases hk : AValue.calculate c warn s x with
  | mk s' r =>
    rw [hk] at h
    cases r with
    | error e => rfl
    | ok v =>
      obtain ⟨h1, h2⟩ := h v rfl
      simp only at h1 h2
      simp only [AValue.State.aValue, AValue.State.n, h1, h2, Except.map, bind, Except.bind, pure, Except.pure, Option.getD_some]

theorem partA_fresh (c : AValue.Cls) (warn : Bool) (s : AValue.State) (x : AValue.Args) :
    (partA c warn s x).2 = (partA c warn AValue.State.init x).2 := by
  rw [partA_snd, partA_snd, C70_no_memory]

theorem partB_fresh (c : BValue.Cls) (ω : ℕ → List (List ℕ)) (warn : Bool) {s : BValue.State} (hs : Reachable c s) (x : BValue.Args) :
    (partB c ω warn s x).2 = (partB c ω warn BValue.State.init x).2 := by
  have h := (C12_no_memory warn hs x).1
  have h2 := fun r => C12_readings warn hs x (r := r)
  unfold partB
  cases hk : BValue.calculate c warn s x with
  | mk s' r =>
    cases hk0 : BValue.calculate c warn BValue.State.init x with
    | mk s0 r0 =>
      rw [hk, hk0] at h h2
      simp only at h h2
      subst h
      cases r with
      | error e => rfl
      | ok v =>
        obtain ⟨-, g1, -, g2, g3, -⟩ := h2 v rfl
        simp only [g1, g2, g3]

/-- The estimator object has been used by this method only. -/
def EstOk (m : Method) (e : Est) : Prop :=
  match m, e with
  | .b c, .b s => Reachable c s
  | .a _, .a _ => True
  | _, _ => False

theorem partOne_fresh (m : Method) (warn : Bool) {e : Est} (he : EstOk m e) (mags : List (Option ℝ)) (times : List ℝ) (mc δ : ℝ)
    (sc : Py ℝ) (kw : Kw) :
    EstOk m (partOne m warn e mags times mc δ sc kw).1 ∧
      (partOne m warn e mags times mc δ sc kw).2 = (partOne m warn m.new mags times mc δ sc kw).2 := by
  cases m with
  | b c =>
    cases e with
    | a s => exact he.elim
    | b s =>
      unfold partOne
      dsimp only [Method.new]
      by_cases hf : kw.fits (.b c)
      swap
      · rw [if_neg hf, if_neg hf]; exact ⟨he, rfl⟩
      rw [if_pos hf, if_pos hf]
      refine ⟨?_, partB_fresh c kw.draws warn he _⟩
      show Reachable c _
      have : (partB c kw.draws warn s { mags := mags, mc := mc, δ := δ, dmc := kw.dmc, weights := kw.weights }).1 =
          (BValue.calculate c warn s { mags := mags, mc := mc, δ := δ, dmc := kw.dmc, weights := kw.weights }).1 := by
        unfold partB; split <;> simp_all
      rw [this]
      exact .call warn _ he
  | a c =>
    cases e with
    | b s => exact he.elim
    | a s =>
      cases sc with
      | error err => exact ⟨trivial, rfl⟩
      | ok f =>
        unfold partOne
        dsimp only [Method.new]
        by_cases hf : kw.fits (.a c)
        · rw [if_pos hf, if_pos hf]; exact ⟨trivial, partA_fresh c warn s _⟩
        · rw [if_neg hf, if_neg hf]; exact ⟨trivial, rfl⟩

theorem partStep_fresh (m : Method) (warn : Bool) {e : Est} (he : EstOk m e) (mags : List (Option ℝ)) (times : List ℝ) (mc δ : ℝ)
    (sc : Py ℝ) (kw : Kw) :
    EstOk m (partStep m warn e mags times mc δ sc kw).1 ∧
      (partStep m warn e mags times mc δ sc kw).2 = (partStep m warn m.new mags times mc δ sc kw).2 := by
  unfold partStep
  split
  · exact ⟨he, rfl⟩
  · split
    · exact partOne_fresh m warn he _ _ _ _ _ _
    · exact ⟨he, rfl⟩

/-- One part with a fresh estimator. -/
def partAlone (m : Method) (warn : Bool) (δ : ℝ) (kw : Kw) (p : PartIn) : Py Part :=
  (partStep m warn m.new p.mags p.times p.mc δ p.scaling kw).2

theorem partLoop_fresh (m : Method) (warn : Bool) (δ : ℝ) (kw : Kw) (ps : List PartIn) :
    ∀ e, EstOk m e → partLoop m warn δ kw e ps = ps.mapM (partAlone m warn δ kw) := by
  induction ps with
  | nil => intros; rfl
  | cons p ps ih =>
    intro e he
    obtain ⟨h1, h2⟩ := partStep_fresh m warn he p.mags p.times p.mc δ p.scaling kw
    rw [List.mapM_cons]
    unfold partLoop partAlone
    rw [← h2]
    cases hk : partStep m warn e p.mags p.times p.mc δ p.scaling kw with
    | mk e' r =>
      rw [hk] at h1
      cases r with
      | error err => rfl
      | ok v =>
        simp only [bind, Except.bind, pure, Except.pure]
        rw [ih e' h1]
        unfold partAlone
        cases List.mapM (fun p : PartIn => (partStep m warn m.new p.mags p.times p.mc δ p.scaling kw).2) ps <;> rfl

theorem new_ok (m : Method) : EstOk m m.new := by
  cases m
  · exact .init
  · trivial

theorem gather_getD {α : Type} (l : List α) (d : α) (idx : List ℕ) (h : ∀ i ∈ idx, i < l.length) :
    gather l idx = .ok (idx.map fun i => l.getD i d) := by
  unfold gather
  rw [mapM_ok_iff]
  induction idx with
  | nil => exact .nil
  | cons i idx ih =>
    refine .cons ?_ (ih fun j hj => h j (by simp [hj]))
    have := h i (by simp)
    rw [List.getElem?_eq_getElem this]
    simp only [List.getD_eq_getElem _ _ this]

theorem gather_ok_lt {α : Type} {l r : List α} {idx : List ℕ} (h : gather l idx = .ok r) : ∀ i ∈ idx, i < l.length := by
  unfold gather at h
  rw [mapM_ok_iff] at h
  induction h with
  | nil => intro i hi; cases hi
  | cons h1 h2 ih =>
    intro i hi
    rcases List.mem_cons.1 hi with rfl | hi
    · by_contra hcon
      rw [List.getElem?_eq_none (by omega)] at h1
      cases h1
    · exact ih i hi

theorem partAlone_isPart {m : Method} {warn : Bool} {δ : ℝ} {kw : Kw} {mags : List (Option ℝ)} {times : List ℝ} {mc : ℝ}
    {sc : Py ℝ} {f : ℝ} {r : Part} (hf : ∀ v, sc = .ok v → v = f)
    (h : partAlone m warn δ kw ⟨mags, times, mc, sc⟩ = .ok r) : IsPart m warn δ kw mags times mc f r := by
  unfold partAlone partStep at h
  simp only at h
  split at h
  · rename_i h0
    cases h
    exact Or.inl ⟨List.length_eq_zero_iff.1 h0, rfl⟩
  · rename_i h0
    right
    refine ⟨fun h1 => h0 (by rw [h1]; rfl), argsort times, argsort_perm times, ?_, ?_⟩
    · rw [List.pairwise_map]; exact argsort_sorted times
    · cases hg : gather mags (argsort times) with
      | error e => rw [hg] at h; cases h
      | ok ms =>
        have hlt := gather_ok_lt hg
        refine ⟨hlt, ?_⟩
        have hm := gather_getD mags none _ hlt
        have ht := gather_getD times 0 (argsort times) fun i hi => argsort_lt hi
        rw [hg] at hm
        rw [hg, ht] at h
        have hms := Except.ok.inj hm
        subst hms
        simp only at h
        unfold partOne at h
        cases m with
        | b c =>
          simp only [Method.new] at h
          dsimp only
          by_cases hfits : kw.fits (.b c)
          swap
          · rw [if_neg hfits] at h; cases h
          rw [if_pos hfits] at h
          refine ⟨(fits_iff _ _).1 hfits, ?_⟩
          unfold partB at h
          split at h
          · cases h
          · rename_i s v hk
            refine ⟨s, v, hk, ?_⟩
            have hb : s.b = some v := by
              have := (C12_readings (c := c) warn .init { mags := (argsort times).map fun i => mags.getD i none, mc := mc, δ := δ, dmc := kw.dmc, weights := kw.weights } (r := v) (by rw [hk])).1
              rw [hk] at this
              unfold BValue.State.bValue at this
              split at this
              · cases this
              · rename_i b hb; cases this; exact hb
            have hbv : s.bValue = .ok v := by unfold BValue.State.bValue; rw [hb]
            simp only [hbv, bind, Except.bind, pure, Except.pure] at h
            cases hsd : BValue.stdOf c kw.draws s with
            | error e => rw [hsd] at h; cases h
            | ok sd =>
              cases hn : s.n with
              | error e => rw [hsd, hn] at h; cases h
              | ok n =>
                rw [hsd, hn] at h
                cases h
                exact ⟨rfl, rfl, rfl⟩
        | a c =>
          simp only [Method.new] at h
          dsimp only
          cases hsc : sc with
          | error e => rw [hsc] at h; cases h
          | ok f' =>
            have := hf f' hsc
            subst this
            rw [hsc] at h
            simp only at h
            by_cases hfits : kw.fits (.a c)
            swap
            · rw [if_neg hfits] at h; cases h
            rw [if_pos hfits] at h
            refine ⟨(fits_iff _ _).1 hfits, ?_⟩
            unfold partA at h
            split at h
            · cases h
            · rename_i s v hk
              refine ⟨s, v, hk, ?_⟩
              have ha := (a_state c warn AValue.State.init _ (v := v) (by rw [hk])).1
              rw [hk] at ha
              simp only at ha
              simp only [AValue.State.aValue, ha, bind, Except.bind, pure, Except.pure] at h
              cases hn : s.n with
              | error e => rw [hn] at h; cases h
              | ok n => rw [hn] at h; cases h; exact ⟨rfl, rfl, rfl⟩

theorem values_eq {warn : Bool} {m : Method} {mags : List (List (Option ℝ))} {times : List (List ℝ)} {mc : Mc} {δ : ℝ}
    {scaling : Option (List ℝ)} {kw : Kw} (hl : mags.length = times.length) {mcs : List ℝ} (hm : mc.expand mags.length = .ok mcs) :
    valuesFromPartitioning warn m mags times mc δ scaling kw = (partIns mags times mcs scaling).mapM (partAlone m warn δ kw) := by
  unfold valuesFromPartitioning
  rw [if_neg (by rw [hl]; simp), hm]
  exact partLoop_fresh m warn δ kw _ _ (new_ok m)

theorem expand_spec {mc : Mc} {n : ℕ} {mcs : List ℝ} (h : mc.expand n = .ok mcs) :
    mcs.length = n ∧ ∀ i < n, mcs.getD i 0 = mcAt mc i := by
  unfold Mc.expand at h
  cases mc with
  | one v =>
    cases h
    refine ⟨by simp, fun i hi => ?_⟩
    rw [List.getD_eq_getElem _ _ (by simpa using hi)]
    simp [mcAt]
  | many l =>
    simp only at h
    split at h
    · cases h
    · rename_i hn; cases h
      exact ⟨by omega, fun i _ => rfl⟩

/-- C43: one result per part, each that of a fresh estimator on that part alone, with its times and its mc. -/
theorem C43_part_by_part {warn : Bool} {m : Method} {mags : List (List (Option ℝ))} {times : List (List ℝ)} {mc : Mc} {δ : ℝ}
    {scaling : Option (List ℝ)} {kw : Kw} {l : List Part}
    (h : valuesFromPartitioning warn m mags times mc δ scaling kw = .ok l) :
    times.length = mags.length ∧ l.length = mags.length ∧
      ∀ (i : ℕ) (ms : List (Option ℝ)) (ts : List ℝ) (r : Part), mags[i]? = some ms → times[i]? = some ts → l[i]? = some r →
        IsPart m warn δ kw ms ts (mcAt mc i) (scaleOf scaling i) r := by
  have hl : mags.length = times.length := by
    by_contra hcon
    unfold valuesFromPartitioning at h
    rw [if_pos hcon] at h; cases h
  cases hm : mc.expand mags.length with
  | error e =>
    unfold valuesFromPartitioning at h
    rw [if_neg (by rw [hl]; simp), hm] at h
    cases h
  | ok mcs =>
    rw [values_eq hl hm, mapM_ok_iff] at h
    obtain ⟨-, hmc⟩ := expand_spec hm
    have hlen := h.length_eq
    have hlen2 : (partIns mags times mcs scaling).length = mags.length := by unfold partIns; simp
    refine ⟨hl.symm, by omega, ?_⟩
    intro i ms ts r h1 h2 h3
    have hi : i < mags.length := (List.getElem?_eq_some_iff.1 h1).1
    have hp : (partIns mags times mcs scaling)[i]? = some ⟨ms, ts, mcAt mc i, scalingAt scaling i⟩ := by
      unfold partIns
      rw [List.getElem?_map, List.getElem?_range hi]
      simp only [Option.map_some]
      rw [hmc i hi, List.getD_eq_getElem?_getD, List.getD_eq_getElem?_getD, h1, h2]
      rfl
    have hr := List.forall₂_iff_get.1 h
    have hi1 : i < (partIns mags times mcs scaling).length := by omega
    have hi2 : i < l.length := (List.getElem?_eq_some_iff.1 h3).1
    have e := hr.2 i hi1 hi2
    simp only [List.get_eq_getElem] at e
    rw [(List.getElem?_eq_some_iff.1 hp).2, (List.getElem?_eq_some_iff.1 h3).2] at e
    refine partAlone_isPart ?_ e
    intro v hv
    unfold scalingAt at hv
    unfold scaleOf
    cases scaling with
    | none => cases hv; rfl
    | some f =>
      simp only at hv ⊢
      rw [List.getD_eq_getElem?_getD]
      cases hfi : f[i]? with
      | some v' => rw [hfi] at hv; cases hv; rfl
      | none => rw [hfi] at hv; cases hv

/-- C43: keywords that the estimator class does not know (or a missing `b_value` for a-more-positive) are an error as soon as there is an event. -/
theorem C43_keywords {warn : Bool} {m : Method} {mags : List (List (Option ℝ))} {times : List (List ℝ)} {mc : Mc} {δ : ℝ}
    {scaling : Option (List ℝ)} {kw : Kw} {l : List Part}
    (h : valuesFromPartitioning warn m mags times mc δ scaling kw = .ok l) (hne : ∃ ms ∈ mags, ms ≠ []) : Accepts m kw := by
  obtain ⟨ms, hms, hne⟩ := hne
  obtain ⟨i, hi, rfl⟩ := List.mem_iff_getElem.1 hms
  obtain ⟨ht, hl, h2⟩ := C43_part_by_part h
  have := h2 i mags[i] (times[i]'(by omega)) (l[i]'(by omega)) (List.getElem?_eq_getElem _) (List.getElem?_eq_getElem _) (List.getElem?_eq_getElem _)
  rcases this with ⟨h0, -⟩ | ⟨-, _o, -, -, -, h3⟩
  · exact absurd h0 hne
  · cases m with
    | b c => exact h3.1
    | a c => exact h3.1

/-- C43: for the classic and the Utsu estimator without weights the order within a part is irrelevant: the entry is the
estimate on the part's magnitudes as given. -/
theorem C43_order_free {warn : Bool} {c : BValue.Cls} (hc : c = .classic ∨ c = .utsu) {δ : ℝ} {kw : Kw} (hkw : kw.weights = none) {ms : List (Option ℝ)}
    {ts : List ℝ} {mc f : ℝ} {r : Part} (hl : ts.length = ms.length) (hne : ms ≠ [])
    (h : IsPart (.b c) warn δ kw ms ts mc f r) :
    ∃ s, BValue.calculate c warn BValue.State.init { mags := ms, mc := mc, δ := δ } = (s, .ok r.value) ∧
      BValue.stdOf c kw.draws s = .ok r.std ∧ s.n = .ok r.n := by
  rcases h with ⟨h0, -⟩ | ⟨-, order, hp, -, hlt, -, s, v, hk, hv, hsd, hn⟩
  · exact absurd h0 hne
  subst hv
  have hp' : (order.map fun i => ms.getD i none).Perm ms := by
    rw [hl] at hp
    have := hp.map fun i => ms.getD i none
    rwa [BValue.map_getD_range] at this
  have hdmc : ∀ (l : List (Option ℝ)) (d : Option ℝ), BValue.calculate c warn BValue.State.init { mags := l, mc := mc, δ := δ, dmc := d } =
      BValue.calculate c warn BValue.State.init { mags := l, mc := mc, δ := δ } := by
    intro l d
    rcases hc with rfl | rfl <;> rfl
  rw [hkw, hdmc] at hk
  have hS := C16_unweighted hc warn .init _ _ mc δ hp'
  unfold SameOutcome unweighted at hS
  obtain ⟨h1, h2⟩ := hS
  rw [hk] at h1 h2
  simp only at h1 h2
  obtain ⟨-, -, g3, g4, -⟩ := h2 _ rfl
  refine ⟨_, Prod.ext rfl h1.symm, ?_, ?_⟩
  · rw [← hsd, g4]
  · rw [← hn, g3]

theorem mapM_append' {α β : Type} (f : α → Py β) (l l' : List α) :
    (l ++ l').mapM f = do { let a ← l.mapM f; let b ← l'.mapM f; pure (a ++ b) } := by
  rw [List.mapM_append]

/-- C43: parts do not influence each other: the values of a concatenated list of parts are the values of the
first list followed by those of the second, and an exception is that of the first failing list. -/
theorem C43_independent (warn : Bool) (m : Method) (m1 m2 : List (List (Option ℝ))) (t1 t2 : List (List ℝ)) (c1 c2 : List ℝ)
    (δ : ℝ) (kw : Kw) (h1 : t1.length = m1.length) (h2 : t2.length = m2.length) (h3 : c1.length = m1.length) (h4 : c2.length = m2.length) :
    valuesFromPartitioning warn m (m1 ++ m2) (t1 ++ t2) (.many (c1 ++ c2)) δ none kw =
      do { let a ← valuesFromPartitioning warn m m1 t1 (.many c1) δ none kw
           let b ← valuesFromPartitioning warn m m2 t2 (.many c2) δ none kw
           pure (a ++ b) } := by
  have e1 : (Mc.many c1).expand m1.length = .ok c1 := by unfold Mc.expand; simp [h3]
  have e2 : (Mc.many c2).expand m2.length = .ok c2 := by unfold Mc.expand; simp [h4]
  have e3 : (Mc.many (c1 ++ c2)).expand (m1 ++ m2).length = .ok (c1 ++ c2) := by unfold Mc.expand; simp [h3, h4]
  rw [values_eq (by simp [h1, h2]) e3, values_eq h1.symm e1, values_eq h2.symm e2]
  have : partIns (m1 ++ m2) (t1 ++ t2) (c1 ++ c2) none = partIns m1 t1 c1 none ++ partIns m2 t2 c2 none := by
    unfold partIns
    rw [List.length_append, List.range_add, List.map_append, List.map_map]
    congr 1
    · apply List.map_congr_left
      intro i hi
      rw [List.mem_range] at hi
      simp only [List.getD_eq_getElem?_getD]
      rw [List.getElem?_append_left hi, List.getElem?_append_left (by omega), List.getElem?_append_left (by omega)]
    · apply List.map_congr_left
      intro i hi
      simp only [Function.comp, List.getD_eq_getElem?_getD]
      rw [List.getElem?_append_right (by omega), List.getElem?_append_right (by omega), List.getElem?_append_right (by omega), h1, h3]
      simp [scalingAt]
  rw [this, List.mapM_append]

/-- C43: lists of different length raise. -/
theorem C43_raises (warn : Bool) (m : Method) (mags : List (List (Option ℝ))) (times : List (List ℝ)) (mc : Mc) (δ : ℝ)
    (scaling : Option (List ℝ)) (kw : Kw) (h : times.length ≠ mags.length ∨ ∃ l, mc = .many l ∧ l.length ≠ mags.length) :
    valuesFromPartitioning warn m mags times mc δ scaling kw = .error .indexError := by
  unfold valuesFromPartitioning
  by_cases hl : mags.length = times.length
  · rw [if_neg (by rw [hl]; simp)]
    rcases h with h | ⟨l, rfl, h⟩
    · exact absurd hl.symm h
    · unfold Mc.expand
      simp only
      rw [if_pos (Ne.symm h)]; rfl
  · rw [if_pos hl]

/-- A finding about C43: if a part has fewer times than magnitudes, the surplus magnitudes are dropped
without notice. -/
theorem C43_surplus_dropped (warn : Bool) (m : Method) (ms : List (Option ℝ)) (ts : List ℝ) (mc δ : ℝ) (kw : Kw)
    (h0 : ts ≠ []) (h : ts.length < ms.length) :
    valuesFromPartitioning warn m [ms] [ts] (.one mc) δ none kw =
      valuesFromPartitioning warn m [ms.take ts.length] [ts] (.one mc) δ none kw := by
  have e : ∀ l : List (Option ℝ), valuesFromPartitioning warn m [l] [ts] (.one mc) δ none kw =
      [⟨l, ts, mc, .ok 1⟩].mapM (partAlone m warn δ kw) := by
    intro l
    rw [values_eq (mcs := [mc]) rfl rfl]
    rfl
  rw [e, e, List.mapM_cons, List.mapM_cons]
  have hlen : 0 < ts.length := List.length_pos_iff.2 h0
  have : partAlone m warn δ kw ⟨ms, ts, mc, .ok 1⟩ = partAlone m warn δ kw ⟨ms.take ts.length, ts, mc, .ok 1⟩ := by
    unfold partAlone partStep
    simp only
    rw [if_neg (by omega), if_neg (by rw [List.length_take]; omega)]
    rw [gather_getD ms none _ fun i hi => (argsort_lt hi).trans h,
      gather_getD (ms.take ts.length) none _ fun i hi => by rw [List.length_take]; have := argsort_lt hi; omega]
    have : ((argsort ts).map fun i => (ms.take ts.length).getD i none) = (argsort ts).map fun i => ms.getD i none := by
      apply List.map_congr_left
      intro i hi
      have := argsort_lt hi
      rw [List.getD_eq_getElem?_getD, List.getD_eq_getElem?_getD, List.getElem?_take, if_pos this]
    rw [this]
  rw [this]

theorem mapM_same {α β : Type} {f g : α → Py β} {l : List α} (h : ∀ x ∈ l, f x = g x) : l.mapM f = l.mapM g := by
  induction l with
  | nil => rfl
  | cons x l ih => rw [List.mapM_cons, List.mapM_cons, h x (by simp), ih fun y hy => h y (by simp [hy])]

/-- The exception of a list of computations which all succeed or fail in the same way. -/
theorem mapM_error_same {α β : Type} {f : α → Py β} {e : PyErr} {l : List α} (h : ∀ x ∈ l, (∃ v, f x = .ok v) ∨ f x = .error e) (hx : ∃ x ∈ l, f x = .error e) :
    l.mapM f = .error e := by
  induction l with
  | nil => obtain ⟨x, hx, -⟩ := hx; cases hx
  | cons x l ih =>
    rw [List.mapM_cons]
    rcases h x (by simp) with ⟨v, hv⟩ | hv
    · rw [hv]
      obtain ⟨y, hy, hye⟩ := hx
      have : l.mapM f = .error e := by
        refine ih (fun z hz => h z (by simp [hz])) ⟨y, ?_, hye⟩
        rcases List.mem_cons.1 hy with rfl | hy
        · rw [hv] at hye; cases hye
        · exact hy
      simp only [bind, Except.bind]
      rw [this]
    · rw [hv]
      rfl

/-- C43: for an a-value method every part with an event needs its scaling factor (if any are given): where the call would work with more factors, it raises. -/
theorem C43_scaling_missing {warn : Bool} {c : AValue.Cls} {mags : List (List (Option ℝ))} {times : List (List ℝ)} {mc : Mc} {δ : ℝ} {kw : Kw} {f extra : List ℝ} {l : List Part}
    (h : valuesFromPartitioning warn (.a c) mags times mc δ (some (f ++ extra)) kw = .ok l) {i : ℕ} (hi : f.length ≤ i) {ms : List (Option ℝ)} (hm : mags[i]? = some ms)
    (hne : ms ≠ []) : valuesFromPartitioning warn (.a c) mags times mc δ (some f) kw = .error .indexError := by
  have hl : mags.length = times.length := (C43_part_by_part h).1.symm
  cases hx : mc.expand mags.length with
  | error e =>
    unfold valuesFromPartitioning at h
    rw [if_neg (by rw [hl]; simp), hx] at h
    cases h
  | ok mcs =>
    rw [values_eq hl hx] at h ⊢
    have hok := (mapM_ok_iff _ _ _).1 h
    have each : ∀ k < mags.length, ∃ v, partAlone (.a c) warn δ kw ⟨mags.getD k [], times.getD k [], mcs.getD k 0, scalingAt (some (f ++ extra)) k⟩ = .ok v := by
      intro k hk
      have hr := List.forall₂_iff_get.1 hok
      have hk1 : k < (partIns mags times mcs (some (f ++ extra))).length := by unfold partIns; simpa using hk
      have hv := hr.2 k hk1 (by rw [← hr.1]; exact hk1)
      refine ⟨_, Eq.trans ?_ hv⟩
      simp [partIns]
    have short : ∀ k < mags.length, f.length ≤ k → mags.getD k [] ≠ [] →
        partAlone (.a c) warn δ kw ⟨mags.getD k [], times.getD k [], mcs.getD k 0, scalingAt (some f) k⟩ = .error .indexError := by
      intro k hk hf hn
      obtain ⟨v, hv⟩ := each k hk
      have hs : scalingAt (some f) k = .error .indexError := by
        unfold scalingAt
        simp only
        rw [List.getElem?_eq_none hf]
      rw [hs]
      unfold partAlone partStep at hv ⊢
      dsimp only at hv ⊢
      have hn' : ¬(mags.getD k []).length = 0 := fun e => hn (List.length_eq_zero_iff.1 e)
      rw [if_neg hn'] at hv ⊢
      split
      · rfl
      · rfl
    have hi' : i < mags.length := (List.getElem?_eq_some_iff.1 hm).1
    have hg : mags.getD i [] = ms := by rw [List.getD_eq_getElem?_getD, hm]; rfl
    refine mapM_error_same (fun p hp => ?_) ⟨_, List.mem_map.2 ⟨i, List.mem_range.2 hi', rfl⟩, short i hi' hi (by rw [hg]; exact hne)⟩
    obtain ⟨k, hk, rfl⟩ := List.mem_map.1 hp
    rw [List.mem_range] at hk
    by_cases hf : f.length ≤ k
    · by_cases hn : mags.getD k [] = []
      · refine .inl ⟨⟨.nan, .nan, 0⟩, ?_⟩
        unfold partAlone partStep
        dsimp only
        rw [if_pos (by rw [hn]; rfl)]
      · exact .inr (short k hk hf hn)
    · refine .inl ?_
      have e : scalingAt (some f) k = scalingAt (some (f ++ extra)) k := by
        unfold scalingAt
        simp only
        rw [List.getElem?_append_left (by omega)]
      rw [e]
      exact each k hk

/-- C43: scaling factors beyond the number of parts are not looked at, none is the factor one for every part, and a b-value method does not look at them at all. -/
theorem C43_scaling_unused (warn : Bool) (m : Method) (mags : List (List (Option ℝ))) (times : List (List ℝ)) (mc : Mc) (δ : ℝ) (kw : Kw) :
    (∀ f extra : List ℝ, mags.length ≤ f.length →
        valuesFromPartitioning warn m mags times mc δ (some (f ++ extra)) kw = valuesFromPartitioning warn m mags times mc δ (some f) kw) ∧
      valuesFromPartitioning warn m mags times mc δ (some (List.replicate mags.length 1)) kw = valuesFromPartitioning warn m mags times mc δ none kw ∧
      ∀ (c : BValue.Cls) (f g : Option (List ℝ)), m = .b c → valuesFromPartitioning warn m mags times mc δ f kw = valuesFromPartitioning warn m mags times mc δ g kw := by
  have key : ∀ f g : Option (List ℝ), (∀ mcs k, k < mags.length → partAlone m warn δ kw ⟨mags.getD k [], times.getD k [], mcs, scalingAt f k⟩ =
      partAlone m warn δ kw ⟨mags.getD k [], times.getD k [], mcs, scalingAt g k⟩) →
      valuesFromPartitioning warn m mags times mc δ f kw = valuesFromPartitioning warn m mags times mc δ g kw := by
    intro f g hfg
    by_cases hl : mags.length = times.length
    · cases hx : mc.expand mags.length with
      | error e =>
        unfold valuesFromPartitioning
        rw [hx]
        rfl
      | ok mcs =>
        rw [values_eq hl hx, values_eq hl hx]
        unfold partIns
        rw [List.mapM_map, List.mapM_map]
        refine mapM_same fun k hk => ?_
        exact hfg _ k (List.mem_range.1 hk)
    · unfold valuesFromPartitioning
      rw [if_pos hl, if_pos hl]
  refine ⟨fun f extra hf => key _ _ fun mcs k hk => ?_, key _ _ fun mcs k hk => ?_, fun c f g hm => key _ _ fun mcs k hk => ?_⟩
  · have : scalingAt (some (f ++ extra)) k = scalingAt (some f) k := by
      unfold scalingAt
      simp only
      rw [List.getElem?_append_left (by omega)]
    rw [this]
  · have : scalingAt (some (List.replicate mags.length 1)) k = scalingAt none k := by
      unfold scalingAt
      simp only
      rw [List.getElem?_replicate, if_pos hk]
    rw [this]
  · subst hm
    rfl

/-- The hypotheses are met: two parts, one empty. -/
example : ∃ l, valuesFromPartitioning false (.b .classic) [[some 1, some 2], []] [[0, 1], []] (.one 1) 1 none {} = .ok l ∧ l.length = 2 := by
  have hacc : ∃ v sd n, partAlone (.b .classic) false 1 {} ⟨[some 1, some 2], [0, 1], 1, .ok 1⟩ = .ok ⟨v, sd, n⟩ := by
    have hs : argsort [(0 : ℝ), 1] = [0, 1] := by
      unfold argsort
      simp [List.range_succ, List.insertionSort, List.orderedInsert]
    unfold partAlone partStep
    have hf : Kw.fits {} (.b .classic) = true := rfl
    simp only [hs, Method.new, partOne, partB, hf, if_true]
    rw [gather_getD _ none _ (by simp), gather_getD _ 0 _ (by simp)]
    have hA : Accepted { mags := [some 1, some 2], mc := 1, δ := 1 } := by
      refine ⟨Or.inr ?_, fun w hw => by cases hw⟩
      have := C08_grid_accepted (K := ℝ) [some 1, some 2] 0 1 (1 / 10 ^ 15) (by norm_num) (by norm_num) ⟨1, by simp⟩
      simpa using this
    have hk := BValue.calculate_classic_valid (Or.inl rfl) false BValue.State.init _ ((accepted_iff _).1 hA) rfl
    have hu : BValue.used { mags := [some 1, some 2], mc := 1, δ := 1 } = [((1 : ℝ), (1 : ℝ)), (2, 1)] := by
      have h1 : (1 : ℝ) ≤ 2 + 2⁻¹ := by norm_num
      simp [BValue.used, BValue.effW, Spec.selected, h1]
    have hr := result_of_total (c := .classic) (a := { mags := [some 1, some 2], mc := 1, δ := 1 }) (by rw [hu]; norm_num [Spec.total])
    rw [hr] at hk
    have e : ([0, 1] : List ℕ).map (fun i => ([some 1, some 2] : List (Option ℝ)).getD i none) = [some 1, some 2] := rfl
    simp only [e, List.length_cons, List.length_nil]
    rw [hk]
    have hn : BValue.nums (some ([((1 : ℝ), (1 : ℝ)), (2, 1)].map fun q => some q.1)) = [1, 2] := by simp [BValue.nums]
    simp only [BValue.store, BValue.usedState, hu, BValue.State.bValue, BValue.stdOf, BValue.State.std, BValue.State.n, hn]
    simp [BValue.shiBolt, average, bind, Except.bind, pure, Except.pure]
  obtain ⟨v, sd, n, hacc⟩ := hacc
  refine ⟨[⟨v, sd, n⟩, ⟨.nan, .nan, 0⟩], ?_, rfl⟩
  rw [values_eq (mcs := [1, 1]) rfl rfl]
  have : partIns [[some 1, some 2], []] [[0, 1], []] [(1 : ℝ), 1] none = [⟨[some 1, some 2], [0, 1], 1, .ok 1⟩, ⟨[], [], 1, .ok 1⟩] := rfl
  rw [this, List.mapM_cons, hacc, List.mapM_cons]
  rfl

/-- The hypotheses of `C43_scaling_missing` are met: two parts with one event each. -/
example : ∃ l, valuesFromPartitioning false (.a .classic) [[some 1], [some 1]] [[0], [0]] (.one 1) 1 (some ([2] ++ [3])) {} = .ok l := by
  have one : ∀ f : ℝ, ∃ v, partAlone (.a .classic) false 1 {} ⟨[some 1], [0], 1, .ok f⟩ = .ok v := by
    intro f
    have hs : argsort [(0 : ℝ)] = [0] := by
      unfold argsort
      simp [List.range_succ, List.insertionSort, List.orderedInsert]
    unfold partAlone partStep
    have hf : Kw.fits {} (.a .classic) = true := rfl
    simp only [hs, Method.new, partOne, hf, if_true]
    rw [gather_getD _ none _ (by simp), gather_getD _ 0 _ (by simp)]
    have hb : BValue.checkBinning [some (1 : ℝ)] 1 = .ok () := by
      have := C08_grid_accepted (K := ℝ) [some 1] 0 1 (1 / 10 ^ 15) (by norm_num) (by norm_num) ⟨1, by simp⟩
      unfold BValue.checkBinning
      have e : binningTest [some (1 : ℝ)] 1 (defaultTol ℝ) false = .ok true := by
        rw [← this]
        norm_num [defaultTol]
      rw [e]
      rfl
    change ∃ v, (partA .classic false AValue.State.init { mags := [some 1], mc := 1, δ := 1, times := [0], scaling := some f }).2 = .ok v
    rw [partA_snd]
    have hr : ∃ v, (AValue.calculate .classic false AValue.State.init { mags := [some 1], mc := 1, δ := 1, times := [0], scaling := some f }).2 = .ok v := by
      have hx := AValue.base_classic false { AValue.State.init with warned := [] } { mags := [some 1], mc := 1, δ := 1, times := [0], scaling := some f } hb
      unfold AValue.calculate
      dsimp only at hx ⊢
      rw [hx]
      split
      · exact ⟨_, rfl⟩
      · exact ⟨_, rfl⟩
    obtain ⟨v, hv⟩ := hr
    rw [hv]
    exact ⟨_, rfl⟩
  obtain ⟨v, hv⟩ := one 2
  obtain ⟨w, hw⟩ := one 3
  refine ⟨[v, w], ?_⟩
  rw [values_eq (mcs := [1, 1]) rfl rfl]
  have : partIns [[some 1], [some 1]] [[0], [0]] [(1 : ℝ), 1] (some ([2] ++ [3])) = [⟨[some 1], [0], 1, .ok 2⟩, ⟨[some 1], [0], 1, .ok 3⟩] := rfl
  rw [this, List.mapM_cons, hv, List.mapM_cons, hw]
  rfl

end
end SeismoStats.Props
