/-
Support for property C100: the outcome of `b_significant_1D` on magnitudes above `mc`, written out, and its series under permutations.
-/
import Verif.Props.MoranPermute
import Verif.Props.BSignificant
import Verif.Props.Coverage

namespace SeismoStats.Props
open SeismoStats SeismoStats.Simulate BValue MeasureTheory ProbabilityTheory Filter Topology
open SeismoStats.BSignificant (Part PartIn Method Kw OffsetRes morans offsetOne offsetAc dropSmall Mc bSignificant keep significant nanmean macOf pOf Moran partStep partOne partB orderBy)
open SeismoStats.Permute
open scoped BigOperators
open Classical
noncomputable section

/-! ### one window -/

theorem outcome_mean {c : Cls} (hc : c = .classic ∨ c = .utsu) (warn : Bool) {s : State} (hs : Reachable c s) (ms : List ℝ) (mc : ℝ) (dmc : Option ℝ)
    (hlen : 2 ≤ ms.length) (hall : ∀ m ∈ ms, mc ≤ m) (hmean : mc < ms.sum / ms.length) :
    ∃ s' sd, calculate c warn s (callOf ms mc 0 dmc) = (s', .ok (.fin (1 / (ms.sum / ms.length - mc) / Real.log 10))) ∧
      s'.bValue = .ok (.fin (1 / (ms.sum / ms.length - mc) / Real.log 10)) ∧ (∀ ω, stdOf c ω s' = .ok sd) ∧ s'.n = .ok ms.length := by
  have hne : ms ≠ [] := by rintro rfl; simp at hlen
  have hall' : ∀ m ∈ ms, mc - 0 / 2 ≤ m := by intro m hm; rw [zero_div, sub_zero]; exact hall m hm
  have hA : 0 < ms.sum / ms.length - mc := by linarith
  have hres : (calculate c warn s (callOf ms mc 0 dmc)).2 = .ok (.fin (1 / (ms.sum / ms.length - mc) / Real.log 10)) := by
    rw [calculate_all hc warn hs _ mc 0 dmc hne hall' (Or.inl rfl)]
    rcases hc with rfl | rfl
    · simp only
      rw [betaOf_pos hA]
      unfold betaVal betaToB Fl.mapFin
      rw [if_neg (lt_irrefl 0)]
    · simp only
      rw [zero_div, add_zero]
      unfold Fl.div betaToB
      rw [if_neg hA.ne']
      unfold Fl.mapFin
      simp only
  obtain ⟨sd, hstd⟩ : ∃ sd, (calculate c warn s (callOf ms mc 0 dmc)).1.std = .ok sd := ⟨_, std_all hc warn hs ms mc 0 dmc hlen hall' (Or.inl rfl) hres⟩
  have hv := (accepted_iff _).1 (accepted_all ms mc 0 dmc (Or.inl rfl))
  have e1 := calculate_classic_valid hc warn s _ hv (reachable_times hc hs).1
  rw [ok_result hc hs hres] at e1
  refine ⟨(calculate c warn s (callOf ms mc 0 dmc)).1, sd, Prod.ext rfl hres, ?_, ?_, ?_⟩
  · rw [e1]; rfl
  · intro ω
    have : stdOf c ω (calculate c warn s (callOf ms mc 0 dmc)).1 = (calculate c warn s (callOf ms mc 0 dmc)).1.std := by
      rcases hc with rfl | rfl <;> rfl
    rw [this, hstd]
  · rw [e1]
    simp only [State.n, store, usedState, Option.getD_some, List.length_map]
    rw [used_all ms mc 0 dmc hall', List.length_map]

theorem part_window {c : Cls} (hc : c = .classic ∨ c = .utsu) (warn : Bool) {kw : Kw} (hkw : kw.fits (.b c) = true) (hkww : kw.weights = none) (ms ts : List ℝ) (mc : ℝ) (hl : ts.length = ms.length)
    (hlen : 2 ≤ ms.length) (hall : ∀ m ∈ ms, mc ≤ m) (hmean : mc < ms.sum / ms.length) :
    ∃ sd, partAlone (.b c) warn 0 kw ⟨ms.map some, ts, mc, .ok 1⟩ = .ok ⟨.fin (1 / (ms.sum / ms.length - mc) / Real.log 10), sd, ms.length⟩ := by
  set ms' := (argsort ts).map fun i => ms.getD i 0 with hms
  have hlt : ∀ i ∈ argsort ts, i < ms.length := by
    intro i hi
    rw [← hl]
    exact argsort_lt hi
  have hperm : ms'.Perm ms := by
    have := (argsort_perm ts).map fun i => ms.getD i 0
    rwa [hl, map_getD_range] at this
  have g1 : gather (ms.map some) (argsort ts) = .ok (ms'.map some) := by
    rw [gather_getD (ms.map some) none _ (by simpa using hlt), hms, List.map_map]
    congr 1
    apply List.map_congr_left
    intro i hi
    have := hlt i hi
    simp [List.getD_eq_getElem?_getD, this]
  have g2 : gather ts (argsort ts) = .ok ((argsort ts).map fun i => ts.getD i 0) := gather_getD ts 0 _ (by rw [hl]; exact hlt)
  have hl' : ms'.length = ms.length := hperm.length_eq
  have hs' : ms'.sum = ms.sum := hperm.sum_eq
  obtain ⟨s', sd, h1, h2, h3, h4⟩ := outcome_mean hc warn (s := State.init) .init ms' mc kw.dmc (by rw [hl']; exact hlen) (fun m hm => hall m (hperm.mem_iff.1 hm))
    (by rw [hs', hl']; exact hmean)
  rw [hs', hl'] at h1 h2
  rw [hl'] at h4
  refine ⟨sd, ?_⟩
  unfold partAlone partStep
  dsimp only
  rw [if_neg (by rw [List.length_map]; omega), g1, g2]
  unfold partOne
  dsimp only [Method.new]
  rw [if_pos hkw, hkww]
  change (partB c kw.draws warn State.init (callOf ms' mc 0 kw.dmc)).2 = _
  unfold partB
  rw [h1]
  dsimp only
  rw [h2, h3, h4]
  rfl

/-! ### one offset -/

/-- Moran's I of the series `y 0, ..., y (K-1)`. -/
def seriesI (y : ℕ → ℝ) (K : ℕ) : ℝ :=
  (∑ i ∈ Finset.range (K - 1), (y i - (∑ j ∈ Finset.range K, y j) / K) * (y (i + 1) - (∑ j ∈ Finset.range K, y j) / K)) /
    ∑ i ∈ Finset.range K, (y i - (∑ j ∈ Finset.range K, y j) / K) ^ 2

theorem morans_series {y : ℕ → ℝ} {K : ℕ} (hK : 2 ≤ K) (hne : ∃ i < K, ∃ j < K, y i ≠ y j) :
    morans ((List.range K).map fun k => .fin (y k)) none none = .ok ⟨.fin (seriesI y K), K, ((K - 1 : ℕ) : ℝ)⟩ := by
  set x := (List.range K).map y with hx
  have e0 : ((List.range K).map fun k => (Fl.fin (y k) : Fl ℝ)) = toFl (x.map some) := by
    unfold toFl; rw [hx, List.map_map, List.map_map]; rfl
  have hxl : x.length = K := by simp [hx]
  have hf := filterMap_some x
  have hs : x.sum = ∑ j ∈ Finset.range K, y j := firstMags_sum y K
  have hm : meanSpec (x.map some) none = (∑ j ∈ Finset.range K, y j) / K := by unfold meanSpec; rw [hf, hxl, hs]; rfl
  set m := (∑ j ∈ Finset.range K, y j) / K with hmd
  have hq : sqDev (x.map some) m = ∑ i ∈ Finset.range K, (y i - m) ^ 2 := by
    unfold sqDev
    rw [hf, hx, List.map_map]
    exact firstMags_sum (fun i => (y i - m) ^ 2) K
  have hq0 : sqDev (x.map some) m ≠ 0 := by
    rw [hq]
    intro h0
    rw [Finset.sum_eq_zero_iff_of_nonneg fun i _ => sq_nonneg _] at h0
    obtain ⟨i, hi, j, hj, hij⟩ := hne
    have h1 := pow_eq_zero_iff two_ne_zero |>.1 (h0 i (Finset.mem_range.2 hi))
    have h2 := pow_eq_zero_iff two_ne_zero |>.1 (h0 j (Finset.mem_range.2 hj))
    exact hij (by linarith)
  have hnz : neighbourPairs (x.map some) none ≠ ∅ := by
    intro h
    have := chain_card x
    rw [h, Finset.card_empty] at this
    omega
  obtain ⟨ac, h1, h2⟩ := C39_formula (l := x.map some) (w := none) none (by simpa [hxl] using hK) (by intro m hm; cases hm)
  rw [if_neg (fun h => h.elim hnz (by rw [hm]; exact hq0)), hm, hf, hxl, chain_card, hxl, hq] at h2
  rw [e0, h1, hf, hxl, chain_card, hxl, h2]
  congr 3
  unfold seriesI
  rw [← hmd, chain_pairs, hxl, Finset.sum_image fun a _ b _ h => chain_inj h]
  have hk1 : ((K - 1 : ℕ) : ℝ) = K - 1 := by rw [Nat.cast_sub (by omega)]; simp
  have hk0 : (K : ℝ) - 1 ≠ 0 := by have : (2 : ℝ) ≤ K := by exact_mod_cast hK
                                   intro h; linarith
  rw [hk1, div_self hk0, one_mul]
  congr 1
  apply Finset.sum_congr rfl
  intro i hi
  rw [Finset.mem_range] at hi
  have en : ∀ j < K, numAt (x.map some) j = y j := by
    intro j hj
    unfold numAt
    rw [hx]
    simp [List.getD_eq_getElem?_getD, hj]
  rw [en i (by omega), en (i + 1) (by omega)]

theorem window_get {α : Type} (f : ℕ → α) (N a n : ℕ) (h : a + n ≤ N) :
    (((List.range N).map f).drop a).take n = (List.range n).map fun r => f (a + r) := by
  apply List.ext_getElem
  · simp; omega
  · intro i h1 h2
    simp

/-- The b-value of the `k`-th window at an offset. -/
def windowB (X : ℕ → ℝ) (mc : ℝ) (n off k : ℕ) : ℝ := 1 / ((∑ r ∈ Finset.range n, X (off + k * n + r)) / n - mc) / Real.log 10

theorem offset_value {c : Cls} (hc : c = .classic ∨ c = .utsu) (warn : Bool) {kw : Kw} (hkw : kw.fits (.b c) = true) (hkww : kw.weights = none) (X : ℕ → ℝ) (t : ℕ → ℝ) (mc : ℝ) {N n minNum off : ℕ} (hX : ∀ i, mc < X i)
    (hn : 2 ≤ n) (hmin : minNum ≤ n) (hN : 4 * n ≤ N) (ho : off < n)
    (hne : ∃ i < (N - off) / n, ∃ j < (N - off) / n, windowB X mc n off i ≠ windowB X mc n off j) :
    offsetOne warn (.b c) kw 0 n minNum ((List.range N).map fun i => some (X i)) ((List.range N).map t) ((List.range N).map fun _ => mc) off =
      .ok ⟨.fin (seriesI (windowB X mc n off) ((N - off) / n)), .fin ((N - off) / n : ℕ), .fin (((N - off) / n - 1 : ℕ) : ℝ)⟩ := by
  set K := (N - off) / n with hK
  have hK3 : 3 ≤ K := by rw [hK, Nat.le_div_iff_mul_le (by omega)]; omega
  set sel : List Ev := (List.range N).map fun i => ⟨X i, t i, mc⟩ with hsel
  have hsl : sel.length = N := by simp [hsel]
  obtain ⟨top, htop, he⟩ := offsetOne_eq warn (.b c) kw 0 (n := n) (minNum := minNum) sel ho (by rw [hsl]; omega)
  have m1 : (sel.map fun e => some e.mag) = (List.range N).map fun i => some (X i) := by rw [hsel, List.map_map]; rfl
  have m2 : sel.map Ev.time = (List.range N).map t := by rw [hsel, List.map_map]; rfl
  have m3 : sel.map Ev.mc = (List.range N).map fun _ => mc := by rw [hsel, List.map_map]; rfl
  rw [m1, m2, m3] at he
  rw [he]
  have hw : windows sel n off = (List.range K).map fun k => (List.range n).map fun r => (⟨X (off + k * n + r), t (off + k * n + r), mc⟩ : Ev) := by
    unfold windows
    rw [hsl]
    apply List.map_congr_left
    intro k hk
    rw [List.mem_range] at hk
    rw [hsel]
    apply window_get
    have : (k + 1) * n ≤ N - off := by
      have := Nat.mul_le_mul_right n (show k + 1 ≤ K by omega)
      exact this.trans (by rw [hK]; exact Nat.div_mul_le_self _ _)
    rw [Nat.add_mul, one_mul] at this
    omega
  have htm : ∀ k, top ((List.range n).map fun r => (⟨X (off + k * n + r), t (off + k * n + r), mc⟩ : Ev)) = mc := by
    intro k
    have := (htop ((List.range n).map fun r => (⟨X (off + k * n + r), t (off + k * n + r), mc⟩ : Ev)) (by
      intro h; have := congrArg List.length h; simp at this; omega)).1
    obtain ⟨e, he, h⟩ := this
    rw [List.mem_map] at he
    obtain ⟨r, -, rfl⟩ := he
    exact h.symm
  have hpart : ∀ k, ∃ sd, partAlone (.b c) warn 0 kw (⟨((List.range n).map fun r => (⟨X (off + k * n + r), t (off + k * n + r), mc⟩ : Ev)).map fun e => some e.mag,
      ((List.range n).map fun r => (⟨X (off + k * n + r), t (off + k * n + r), mc⟩ : Ev)).map Ev.time,
      top ((List.range n).map fun r => (⟨X (off + k * n + r), t (off + k * n + r), mc⟩ : Ev)), .ok 1⟩ : PartIn) = .ok ⟨.fin (windowB X mc n off k), sd, n⟩ := by
    intro k
    rw [htm k, List.map_map, List.map_map]
    have hn0 : (0 : ℝ) < n := by exact_mod_cast (by omega : 0 < n)
    have hsum : ((List.range n).map fun r => X (off + k * n + r)).sum = ∑ r ∈ Finset.range n, X (off + k * n + r) := firstMags_sum (fun r => X (off + k * n + r)) n
    obtain ⟨sd, h⟩ := part_window hc warn hkw hkww ((List.range n).map fun r => X (off + k * n + r)) ((List.range n).map fun r => t (off + k * n + r)) mc (by simp) (by simpa using hn)
      (by intro m hm; rw [List.mem_map] at hm; obtain ⟨r, -, rfl⟩ := hm; exact (hX _).le)
      (by
        rw [hsum, List.length_map, List.length_range, lt_div_iff₀ hn0]
        have : ∑ r ∈ Finset.range n, mc < ∑ r ∈ Finset.range n, X (off + k * n + r) :=
          Finset.sum_lt_sum_of_nonempty ⟨0, Finset.mem_range.2 (by omega)⟩ fun r _ => hX _
        rw [Finset.sum_const, Finset.card_range, nsmul_eq_mul] at this
        linarith)
    rw [hsum, List.length_map, List.length_range, List.map_map] at h
    exact ⟨sd, h⟩
  choose sd hsd using hpart
  rw [hw, List.map_map, List.mapM_map, mapM_ok_map _ (fun k => (⟨.fin (windowB X mc n off k), sd k, n⟩ : Part)) _ (fun k _ => by exact hsd k)]
  change offsetAc minNum _ = _
  unfold offsetAc
  have hc1 : ((List.range K).map fun k => (⟨.fin (windowB X mc n off k), sd k, n⟩ : Part)).countP (fun p => decide (minNum ≤ p.n)) = K := by
    rw [List.countP_map, List.countP_eq_length.2]
    · simp
    · intro k _; simpa using hmin
  rw [hc1, if_neg (by omega), List.map_map]
  have e2 : (List.range K).map (dropSmall minNum ∘ fun k => (⟨.fin (windowB X mc n off k), sd k, n⟩ : Part)) = (List.range K).map fun k => (.fin (windowB X mc n off k) : Fl ℝ) := by
    apply List.map_congr_left
    intro k _
    simp only [Function.comp, dropSmall]
    rw [if_neg (by omega)]
  rw [e2, morans_series (by omega) hne]
  rfl

/-! ### all offsets -/

theorem sum_windows {N n : ℕ} (hn : 0 < n) (hN : n ≤ N) : ∑ off ∈ Finset.range n, (N - off) / n = N + 1 - n := by
  obtain ⟨K, r, hr, rfl⟩ : ∃ K r, r < n ∧ N = (K + 1) * n + r := by
    refine ⟨N / n - 1, N % n, Nat.mod_lt _ hn, ?_⟩
    have h1 : 1 ≤ N / n := (Nat.one_le_div_iff hn).2 hN
    rw [Nat.sub_add_cancel h1, Nat.div_add_mod']
  have h : ∀ off ∈ Finset.range n, ((K + 1) * n + r - off) / n = K + if off ≤ r then 1 else 0 := by
    intro off ho
    rw [Finset.mem_range] at ho
    split_ifs with h
    · rw [show (K + 1) * n + r - off = (r - off) + n * (K + 1) by rw [Nat.mul_comm]; omega, Nat.add_mul_div_left _ _ hn, Nat.div_eq_of_lt (by omega)]; omega
    · rw [show (K + 1) * n + r - off = (n + r - off) + n * K by rw [Nat.add_mul, one_mul, Nat.mul_comm]; omega, Nat.add_mul_div_left _ _ hn, Nat.div_eq_of_lt (by omega)]; omega
  rw [Finset.sum_congr rfl h, Finset.sum_add_distrib, Finset.sum_const, Finset.card_range, smul_eq_mul, ← Finset.sum_filter, Finset.sum_const, smul_eq_mul, mul_one]
  have : (Finset.range n).filter (fun off => off ≤ r) = Finset.range (r + 1) := by
    ext i; simp only [Finset.mem_filter, Finset.mem_range]; omega
  rw [this, Finset.card_range]
  rw [Nat.add_mul, one_mul, Nat.mul_comm]
  omega

theorem mask_replicate {α : Type} (l : List α) : mask l (List.replicate l.length true) = l := by
  induction l with
  | nil => rfl
  | cons a l ih =>
    rw [List.length_cons, List.replicate_succ]
    unfold mask at *
    rw [List.zip_cons_cons, List.filterMap_cons_some (by rfl), ih]

/-- The call. -/
def sigArgs (c : Cls) (mags times : List ℝ) (mc : ℝ) (nm minNum : ℕ) (conservative : Bool) (kw : Kw) : BSignificant.Args :=
  { mags := mags.map some, mc := .one mc, δ := 0, times := times, nm := nm, minNum := minNum, method := .b c, conservative := conservative, kw := kw }

theorem nanmean_fin (f : ℕ → ℝ) {n : ℕ} (hn : 0 < n) : nanmean ((List.range n).map fun i => .fin (f i)) = .fin ((∑ i ∈ Finset.range n, f i) / n) := by
  unfold nanmean
  have h1 : ((List.range n).map fun i => (.fin (f i) : Fl ℝ)).any BSignificant.isInf = false := by
    rw [List.any_eq_false]
    intro x hx
    rw [List.mem_map] at hx
    obtain ⟨i, -, rfl⟩ := hx
    simp [BSignificant.isInf]
  have h2 : BSignificant.finite ((List.range n).map fun i => (.fin (f i) : Fl ℝ)) = (List.range n).map f := by
    unfold BSignificant.finite
    rw [List.filterMap_map]
    exact congrFun List.filterMap_eq_map _
  rw [h1, h2]
  simp only [Bool.false_eq_true, if_false, List.length_map, List.length_range]
  rw [show ((List.range n).map f).sum = _ from firstMags_sum f n]
  unfold Fl.div
  rw [if_neg (by exact_mod_cast hn.ne')]

theorem significant_full {c : Cls} (hc : c = .classic ∨ c = .utsu) (Φ : ℝ → ℝ) (warn conservative : Bool) {kw : Kw} (hkw : kw.fits (.b c) = true) (hkww : kw.weights = none) (X : ℕ → ℝ) (times : List ℝ) (mc : ℝ) {N n minNum : ℕ}
    (hX : ∀ i, mc < X i) (hn : 2 ≤ n) (hmin : minNum ≤ n) (hN : 4 * n ≤ N) (ht : times.length = N)
    (hne : ∀ off < n, ∃ i < (N - off) / n, ∃ j < (N - off) / n, windowB X mc n off i ≠ windowB X mc n off j) :
    bSignificant Φ warn (sigArgs c (firstMags X N) times mc n minNum conservative kw) =
      .ok ⟨.fin (1 - Φ (((∑ off ∈ Finset.range n, seriesI (windowB X mc n off) ((N - off) / n)) / n - -1 / ((N + 1 - n : ℕ) / n : ℝ)) /
          ((((N + 1 - n : ℕ) / n : ℝ) - 1 - 2) / ((((N + 1 - n : ℕ) / n : ℝ) - 1) * Real.sqrt (((N + 1 - n : ℕ) / n : ℝ) - 1)) * if conservative then 1 else 81 / 100))),
        .fin ((∑ off ∈ Finset.range n, seriesI (windowB X mc n off) ((N - off) / n)) / n), .fin (-1 / ((N + 1 - n : ℕ) / n : ℝ)),
        .fin ((((N + 1 - n : ℕ) / n : ℝ) - 1 - 2) / ((((N + 1 - n : ℕ) / n : ℝ) - 1) * Real.sqrt (((N + 1 - n : ℕ) / n : ℝ) - 1)) * if conservative then 1 else 81 / 100)⟩ := by
  have hn0 : (0 : ℝ) < n := by exact_mod_cast (by omega : 0 < n)
  have hml : (firstMags X N).length = N := firstMags_length X N
  unfold bSignificant
  rw [if_neg (by simp [sigArgs, hml, ht]), if_neg (by simp [sigArgs]; omega)]
  have ho : orderBy (sigArgs c (firstMags X N) times mc n minNum conservative kw).x (sigArgs c (firstMags X N) times mc n minNum conservative kw).mags
      (sigArgs c (firstMags X N) times mc n minNum conservative kw).times = .ok ((firstMags X N).map some, times) := rfl
  rw [ho]
  have e1 : (sigArgs c (firstMags X N) times mc n minNum conservative kw).mc.perEvent ((firstMags X N).map some).length = (List.range N).map fun _ => mc := by
    change List.replicate _ mc = _
    rw [List.length_map, hml]
    simp
  have e2 : keep ((firstMags X N).map some) ((List.range N).map fun _ => mc) (sigArgs c (firstMags X N) times mc n minNum conservative kw).δ = List.replicate N true := by
    unfold keep firstMags
    rw [List.map_map, List.zipWith_map, List.zipWith_self]
    rw [List.eq_replicate_iff]
    refine ⟨by simp, ?_⟩
    intro v hv
    rw [List.mem_map] at hv
    obtain ⟨i, -, rfl⟩ := hv
    have := hX i
    change decide (mc - 0 / 2 ≤ X i) = true
    rw [decide_eq_true_iff]
    linarith
  have k1 : mask ((firstMags X N).map some) (List.replicate N true) = (firstMags X N).map some := by
    have := mask_replicate ((firstMags X N).map some)
    rwa [List.length_map, hml] at this
  have k2 : mask times (List.replicate N true) = times := by have := mask_replicate times; rwa [ht] at this
  have k3 : mask ((List.range N).map fun _ => mc) (List.replicate N true) = (List.range N).map fun _ => mc := by
    have := mask_replicate ((List.range N).map fun _ => mc); rwa [List.length_map, List.length_range] at this
  simp only [Bind.bind, Except.bind]
  rw [e1, e2, k1, k2, k3, if_neg (by simp [hml])]
  rw [if_neg (show ¬ (sigArgs c (firstMags X N) times mc n minNum conservative kw).nm = 0 by simp only [sigArgs]; omega)]
  rw [if_neg (show ¬ ((firstMags X N).map some).length < 3 * (sigArgs c (firstMags X N) times mc n minNum conservative kw).nm by simp only [sigArgs, List.length_map, hml]; omega)]
  unfold significant
  have htm : times = (List.range N).map fun i => times.getD i 0 := by rw [← ht]; exact (map_getD_range times 0).symm
  have hoff : ((List.range (sigArgs c (firstMags X N) times mc n minNum conservative kw).nm).mapM
      (offsetOne warn (sigArgs c (firstMags X N) times mc n minNum conservative kw).method (sigArgs c (firstMags X N) times mc n minNum conservative kw).kw
        (sigArgs c (firstMags X N) times mc n minNum conservative kw).δ (sigArgs c (firstMags X N) times mc n minNum conservative kw).nm
        (sigArgs c (firstMags X N) times mc n minNum conservative kw).minNum ((firstMags X N).map some) times ((List.range N).map fun _ => mc)) : Py (List OffsetRes)) =
      .ok ((List.range n).map fun off => (⟨.fin (seriesI (windowB X mc n off) ((N - off) / n)), .fin ((N - off) / n : ℕ), .fin (((N - off) / n - 1 : ℕ) : ℝ)⟩ : OffsetRes)) := by
    apply mapM_ok_map
    intro off ho
    have ho' : off < n := List.mem_range.1 ho
    have := offset_value hc warn hkw hkww X (fun i => times.getD i 0) mc hX hn hmin hN ho' (hne off ho')
    rw [← htm] at this
    have e : (firstMags X N).map some = (List.range N).map fun i => some (X i) := by unfold firstMags; rw [List.map_map]; rfl
    rw [e]
    exact this
  rw [hoff]
  simp only [Bind.bind, Except.bind, pure, Except.pure]
  have hn' : 0 < n := by omega
  have hW := sum_windows hn' (show n ≤ N by omega)
  have hK1 : ∀ off ∈ Finset.range n, 1 ≤ (N - off) / n := by
    intro off ho
    rw [Finset.mem_range] at ho
    rw [Nat.le_div_iff_mul_le hn']; omega
  have s1 : (∑ off ∈ Finset.range n, (((N - off) / n : ℕ) : ℝ)) / n = (N + 1 - n : ℕ) / n := by rw [← hW]; push_cast; rfl
  have s2 : (∑ off ∈ Finset.range n, (((N - off) / n - 1 : ℕ) : ℝ)) / n = (N + 1 - n : ℕ) / n - 1 := by
    rw [← s1, Finset.sum_congr rfl fun off ho => Nat.cast_sub (hK1 off ho), Finset.sum_sub_distrib]
    simp only [Nat.cast_one, Finset.sum_const, Finset.card_range, nsmul_eq_mul, mul_one]
    field_simp
  have hbig : (3 : ℝ) < (N + 1 - n : ℕ) / n := by
    rw [lt_div_iff₀ hn0]
    exact_mod_cast (by omega : 3 * n < N + 1 - n)
  have hmac : macOf ((List.range n).map fun off => (⟨.fin (seriesI (windowB X mc n off) ((N - off) / n)), .fin ((N - off) / n : ℕ), .fin (((N - off) / n - 1 : ℕ) : ℝ)⟩ : OffsetRes)) =
      (.fin ((∑ off ∈ Finset.range n, seriesI (windowB X mc n off) ((N - off) / n)) / n), .fin (-1 / ((N + 1 - n : ℕ) / n : ℝ)),
        .fin ((((N + 1 - n : ℕ) / n : ℝ) - 1 - 2) / ((((N + 1 - n : ℕ) / n : ℝ) - 1) * Real.sqrt (((N + 1 - n : ℕ) / n : ℝ) - 1)))) := by
    unfold macOf
    rw [List.map_map, List.map_map, List.map_map]
    have z1 : nanmean ((List.range n).map (OffsetRes.np ∘ fun off => (⟨.fin (seriesI (windowB X mc n off) ((N - off) / n)), .fin ((N - off) / n : ℕ), .fin (((N - off) / n - 1 : ℕ) : ℝ)⟩ : OffsetRes))) = _ :=
      nanmean_fin (fun off => (((N - off) / n - 1 : ℕ) : ℝ)) hn'
    have z2 : nanmean ((List.range n).map (OffsetRes.n ∘ fun off => (⟨.fin (seriesI (windowB X mc n off) ((N - off) / n)), .fin ((N - off) / n : ℕ), .fin (((N - off) / n - 1 : ℕ) : ℝ)⟩ : OffsetRes))) = _ :=
      nanmean_fin (fun off => (((N - off) / n : ℕ) : ℝ)) hn'
    have z3 : nanmean ((List.range n).map (OffsetRes.ac ∘ fun off => (⟨.fin (seriesI (windowB X mc n off) ((N - off) / n)), .fin ((N - off) / n : ℕ), .fin (((N - off) / n - 1 : ℕ) : ℝ)⟩ : OffsetRes))) = _ :=
      nanmean_fin (fun off => seriesI (windowB X mc n off) ((N - off) / n)) hn'
    rw [z1, z2, z3, s1, s2]
    dsimp only
    rw [if_pos (by linarith)]
    unfold Fl.div
    rw [if_neg (by intro h; linarith)]
  rw [hmac]
  have hcons : (sigArgs c (firstMags X N) times mc n minNum conservative kw).conservative = conservative := rfl
  rw [hcons]
  cases conservative
  · simp only [Bool.false_eq_true, if_false, Fl.mapFin]
    rfl
  · simp only [if_true, mul_one]
    rfl

theorem significant_value {c : Cls} (hc : c = .classic ∨ c = .utsu) (Φ : ℝ → ℝ) (warn conservative : Bool) {kw : Kw} (hkw : kw.fits (.b c) = true) (hkww : kw.weights = none) (X : ℕ → ℝ) (times : List ℝ) (mc : ℝ) {N n minNum : ℕ}
    (hX : ∀ i, mc < X i) (hn : 2 ≤ n) (hmin : minNum ≤ n) (hN : 4 * n ≤ N) (ht : times.length = N)
    (hne : ∀ off < n, ∃ i < (N - off) / n, ∃ j < (N - off) / n, windowB X mc n off i ≠ windowB X mc n off j) :
    ∃ p, bSignificant Φ warn (sigArgs c (firstMags X N) times mc n minNum conservative kw) =
      .ok ⟨p, .fin ((∑ off ∈ Finset.range n, seriesI (windowB X mc n off) ((N - off) / n)) / n), .fin (-1 / ((N + 1 - n : ℕ) / n : ℝ)),
        .fin ((((N + 1 - n : ℕ) / n : ℝ) - 1 - 2) / ((((N + 1 - n : ℕ) / n : ℝ) - 1) * Real.sqrt (((N + 1 - n : ℕ) / n : ℝ) - 1)) * if conservative then 1 else 81 / 100)⟩ :=
  ⟨_, significant_full hc Φ warn conservative hkw hkww X times mc hX hn hmin hN ht hne⟩

/-! ### permuted series -/

/-- A finite series continued by zeros. -/
def padZero {K : ℕ} (y : Fin K → ℝ) (i : ℕ) : ℝ := if h : i < K then y ⟨i, h⟩ else 0

theorem range_padZero {K : ℕ} (y : Fin K → ℝ) : (List.range K).map (padZero y) = List.ofFn y := by
  apply List.ext_getElem
  · simp
  · intro i h1 h2
    have : i < K := by simpa using h1
    simp [padZero, this]

theorem range_padZero_fl {K : ℕ} (y : Fin K → ℝ) :
    ((List.range K).map fun k => (.fin (padZero y k) : Fl ℝ)) = toFl ((List.ofFn y).map some) := by
  rw [← range_padZero y]
  unfold toFl
  rw [List.map_map, List.map_map]; rfl

/-- All places of a list without NaN. -/
def allPlaces {K : ℕ} (y : Fin K → ℝ) : Place ((List.ofFn y).map some) ≃ Fin K where
  toFun v := ⟨v.1.1, by have := v.1.2; simpa using this⟩
  invFun i := ⟨⟨i.1, by simp⟩, by simp⟩
  left_inv v := rfl
  right_inv i := rfl

theorem arrangedBy_ofFn {K : ℕ} (y : Fin K → ℝ) (σ : Equiv.Perm (Place ((List.ofFn y).map some))) :
    arrangedBy ((List.ofFn y).map some) σ = (List.ofFn (y ∘ (allPlaces y).permCongr σ)).map some := by
  apply List.ext_getElem?
  intro i
  by_cases hi : i < K
  · rw [arrangedBy_get _ σ i (by simpa using hi), dif_pos (by simp)]
    rw [List.getElem?_map, List.getElem?_ofFn, dif_pos hi]
    simp only [Option.map_some, Function.comp]
    unfold atPlace
    simp only [Fin.getElem_fin, List.getElem_map, List.getElem_ofFn, Option.get_some]
    rfl
  · rw [List.getElem?_eq_none (by rw [arrangedBy_length]; simpa using hi), List.getElem?_eq_none (by simpa using hi)]

theorem series_permutations {K : ℕ} (y : Fin K → ℝ) (hK : 3 ≤ K) (hne : ∃ i j, y i ≠ y j) :
    avgPerm (fun σ : Equiv.Perm (Fin K) => seriesI (padZero (y ∘ σ)) K) = -1 / K ∧
      avgPerm (fun σ : Equiv.Perm (Fin K) => (seriesI (padZero (y ∘ σ)) K - -1 / K) ^ 2) ≤ ((K : ℝ) - 2) / (K * (K - 1)) := by
  have hlen : (List.ofFn y).length = K := List.length_ofFn
  obtain ⟨i, j, hij⟩ := hne
  obtain ⟨ac, h1, h2, -, h4, -⟩ := C100_series (x := List.ofFn y) (by rw [hlen]; exact hK)
    ⟨y i, by rw [List.mem_ofFn]; exact ⟨i, rfl⟩, y j, by rw [List.mem_ofFn]; exact ⟨j, rfl⟩, hij⟩
  rw [hlen] at h2 h4
  simp only [hlen] at h1
  have key : ∀ σ, seriesI (padZero (y ∘ (allPlaces y).permCongr σ)) K = ac σ := by
    intro σ
    have e := h1 σ
    rw [arrangedBy_ofFn] at e
    have m := morans_series (y := padZero (y ∘ (allPlaces y).permCongr σ)) (K := K) (by omega)
      ⟨_, ((allPlaces y).permCongr σ).symm i |>.2, _, ((allPlaces y).permCongr σ).symm j |>.2, by
        unfold padZero
        rw [dif_pos (((allPlaces y).permCongr σ).symm i).2, dif_pos (((allPlaces y).permCongr σ).symm j).2]
        simpa using hij⟩
    have e2 : ((List.range K).map fun k => (.fin (padZero (y ∘ (allPlaces y).permCongr σ) k) : Fl ℝ)) = toFl ((List.ofFn (y ∘ (allPlaces y).permCongr σ)).map some) := by
      exact range_padZero_fl _
    rw [e2, e] at m
    injection m with m
    injection m with m
    injection m with m
    exact m.symm
  have sw : ∀ f : Equiv.Perm (Fin K) → ℝ, avgPerm f = avgPerm fun σ => f ((allPlaces y).permCongr σ) := by
    intro f
    unfold avgPerm
    rw [Fintype.card_congr (allPlaces y).permCongr]
    congr 1
    exact (Fintype.sum_equiv (allPlaces y).permCongr _ _ fun σ => rfl).symm
  rw [sw, sw]
  simp only [key]
  exact ⟨h2, h4⟩

end
end SeismoStats.Props
