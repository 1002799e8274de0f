/-
Properties C75 (`plot_b_significant_1D`) and C77 (`_adjust_color_brightness`).
-/
import Verif.Model.PlotStatistical
import Verif.Props.BSignificant
import Mathlib.Algebra.Order.Floor.Semifield

namespace SeismoStats.Props
open SeismoStats SeismoStats.PlotStatistical
open SeismoStats.BSignificant (Mc bSignificant keep significant Result orderBy)
open SeismoStats.BValue (argsort_perm argsort_sorted argsort_lt argsort_length map_getD_range mask_map)
open Classical
noncomputable section

/-! ### specification -/

/-- The `mc` argument as `b_significant_1D` understands it. -/
def mcOfArg : McArg → Option Mc
  | .one m => some (.one m)
  | .array l => some (.many l)
  | .list _ => none

/-- The call of `b_significant_1D` with the same arguments and one `n_m`. -/
def sigCall (a : SigArgs) (mc : Mc) (nm : ℕ) : BSignificant.Args :=
  { mags := a.mags, mc := mc, δ := a.δ, times := a.times, nm := nm, minNum := a.minNum, method := a.method, x := a.x, conservative := a.conservative, kw := a.kw }

/-- All four numbers NaN. -/
def nanResult : Result := ⟨.nan, .nan, .nan, .nan⟩

/-- The p-value is a number below the threshold. -/
def Significant (thr : ℝ) (p : SigPoint) : Prop := ∃ v, p.res.p = .fin v ∧ v < thr

/-! ### selecting twice -/

theorem mask_true {α : Type} (l : List α) (m : List Bool) (h : m = l.map fun _ => true) : mask l m = l := by
  subst h
  have := mask_map l id (fun _ => true)
  simpa using this

/-- All selected events are complete. -/
def AllComplete (δ : ℝ) (sel : List Ev) : Prop := ∀ e ∈ sel, e.mc - δ / 2 ≤ e.mag

theorem selected_complete (a : BSignificant.Args) (order : List ℕ) : AllComplete a.δ (selectedEvents a order) := by
  intro e he
  unfold selectedEvents at he
  obtain ⟨k, -, hk⟩ := List.mem_filterMap.1 he
  unfold pick at hk
  split at hk
  · split at hk
    · rename_i h
      cases hk
      exact h
    · cases hk
  · cases hk

theorem keep_complete {δ : ℝ} {sel : List Ev} (h : AllComplete δ sel) :
    keep (sel.map fun e => some e.mag) (sel.map Ev.mc) δ = sel.map fun _ => true := by
  unfold keep
  rw [List.zipWith_map, List.zipWith_self]
  apply List.map_congr_left
  intro e he
  simp [h e he]

/-- The result from the selected events on. -/
def core (Φ : ℝ → ℝ) (warn : Bool) (a : BSignificant.Args) (sel : List Ev) : Py Result :=
  if a.nm < a.minNum then .error .valueError
  else if a.nm = 0 then .error .zeroDivision
  else if sel.length < 3 * a.nm then .ok nanResult
  else significant Φ warn a (sel.map fun e => some e.mag) (sel.map Ev.time) (sel.map Ev.mc)

theorem order_exists {x : Option (List ℝ)} {mags : List (Option ℝ)} {times : List ℝ} (hl : mags.length = times.length)
    (hx : ∀ v, x = some v → v.length = mags.length) :
    ∃ m t, orderBy x mags times = .ok (m, t) := by
  unfold orderBy
  cases x with
  | none => exact ⟨_, _, rfl⟩
  | some v =>
    simp only
    rw [if_neg (by rw [hx v rfl]; simp)]
    exact ⟨_, _, rfl⟩

theorem bSignificant_core (Φ : ℝ → ℝ) (warn : Bool) (a : BSignificant.Args) {m : List (Option ℝ)} {t : List ℝ} {order : List ℕ}
    (hl : a.mags.length = a.times.length) (hmc : mcLength a) (ho : orderBy a.x a.mags a.times = .ok (m, t))
    (hm : m = (List.range a.mags.length).map (fun k => a.mags.getD (order.getD k 0) none))
    (ht : t = (List.range a.mags.length).map fun k => a.times.getD (order.getD k 0) 0) :
    bSignificant Φ warn a = core Φ warn a (selectedEvents a order) := by
  have hc : (a.mc.perEvent a.mags.length).length = a.mags.length := by
    unfold mcLength at hmc
    unfold Mc.perEvent
    cases h : a.mc with
    | one v => simp
    | many l => rw [h] at hmc; exact hmc
  have hml : m.length = a.mags.length := by rw [hm]; simp
  unfold bSignificant core
  rw [if_neg (by rw [hl]; simp)]
  by_cases h1 : a.nm < a.minNum
  · rw [if_pos h1, if_pos h1]
  rw [if_neg h1, if_neg h1, ho]
  simp only [bind, Except.bind, hml]
  rw [if_neg (by rw [hc]; simp)]
  simp only [pure, Except.pure]
  by_cases h0 : a.nm = 0
  · rw [if_pos h0, if_pos h0]; rfl
  rw [if_neg h0, if_neg h0]
  obtain ⟨k1, k2, k3⟩ := selection_eq a order
  rw [← hm] at k1 k2 k3
  rw [← ht] at k2
  rw [perEvent_eq hc, k1, k2, k3, List.length_map]
  rfl

/-- Selected events are selected again. -/
theorem bSignificant_again (Φ : ℝ → ℝ) (warn : Bool) (a : BSignificant.Args) {sel : List Ev} (h : AllComplete a.δ sel) :
    bSignificant Φ warn { mags := sel.map fun e => some e.mag, mc := .many (sel.map Ev.mc), δ := a.δ, times := sel.map Ev.time, nm := a.nm, minNum := a.minNum, method := a.method, conservative := a.conservative, kw := a.kw } =
      core Φ warn a sel := by
  unfold bSignificant core
  simp only [List.length_map, ne_eq, not_true, if_false]
  by_cases h1 : a.nm < a.minNum
  · rw [if_pos h1, if_pos h1]
  rw [if_neg h1, if_neg h1]
  simp only [orderBy, bind, Except.bind, pure, Except.pure, Mc.perEvent, List.length_map, not_true, if_false]
  by_cases h0 : a.nm = 0
  · rw [if_pos h0, if_pos h0]; rfl
  rw [if_neg h0, if_neg h0]
  have e1 : mask (sel.map fun e => some e.mag) (sel.map fun _ => true) = sel.map fun e => some e.mag := mask_true _ _ (by simp)
  have e2 : mask (sel.map Ev.time) (sel.map fun _ => true) = sel.map Ev.time := mask_true _ _ (by simp)
  have e3 : mask (sel.map Ev.mc) (sel.map fun _ => true) = sel.map Ev.mc := mask_true _ _ (by simp)
  simp only [keep_complete h, e1, e2, e3, List.length_map]
  rfl

/-! ### the prepared arrays -/

theorem gather_eq {l : List ℝ} {idx : List ℕ} (h : ∀ i ∈ idx, i < l.length) : gather l idx = .ok (idx.map fun i => l.getD i 0) := by
  exact gather_getD _ 0 _ h

theorem sigOrder_eq (a : SigArgs) (hl : a.times.length = a.mags.length) {m : List (Option ℝ)} {t : List ℝ} (h : sigOrder a = .ok (m, t)) :
    orderBy a.x a.mags a.times = .ok (m, t) := by
  unfold sigOrder at h
  unfold orderBy
  cases hx : a.x with
  | none => rw [hx] at h; exact h
  | some x =>
    rw [hx] at h
    simp only at h ⊢
    by_cases hxl : x.length = a.mags.length
    · rw [if_neg (by rw [hxl]; simp)] at h ⊢
      rw [gather_eq (fun i hi => by rw [hl, ← hxl]; exact argsort_lt hi)] at h
      simp only [bind, Except.bind, pure, Except.pure] at h
      exact h
    · rw [if_pos hxl] at h; cases h

theorem order_sig (a : SigArgs) (hl : a.times.length = a.mags.length) {m : List (Option ℝ)} {t : List ℝ} (h : orderBy a.x a.mags a.times = .ok (m, t)) :
    sigOrder a = .ok (m, t) := by
  unfold orderBy at h
  unfold sigOrder
  cases hx : a.x with
  | none => rw [hx] at h; exact h
  | some x =>
    rw [hx] at h
    simp only at h ⊢
    by_cases hxl : x.length = a.mags.length
    · rw [if_neg (by rw [hxl]; simp)] at h ⊢
      rw [gather_eq (fun i hi => by rw [hl, ← hxl]; exact argsort_lt hi)]
      simp only [bind, Except.bind, pure, Except.pure]
      exact h
    · rw [if_pos hxl] at h; cases h

/-- Arguments for which the arrays can be prepared. -/
structure SigInput (a : SigArgs) (mc : Mc) : Prop where
  times : a.times.length = a.mags.length
  mcArg : mcOfArg a.mc = some mc
  mcLen : ∀ l, mc = Mc.many l → l.length = a.mags.length
  x : ∀ v, a.x = some v → v.length = a.mags.length

theorem sigInput_of_ok {Φ : ℝ → ℝ} {warn : Bool} {a : SigArgs} {r : List SigPoint × List ℕ} (ht : a.times.length = a.mags.length)
    (h : plotSignificant Φ warn a = .ok r) : ∃ mc, SigInput a mc := by
  unfold plotSignificant at h
  cases ho : sigOrder a with
  | error e => rw [ho] at h; cases h
  | ok mt =>
    rw [ho] at h
    cases hmc : a.mc.toArray a.mags.length with
    | error e => rw [hmc] at h; cases h
    | ok mcs =>
      rw [hmc] at h
      simp only [bind, Except.bind] at h
      have hx : ∀ v, a.x = some v → v.length = a.mags.length := by
        intro v hv
        by_contra hne
        unfold sigOrder at ho
        rw [hv] at ho
        simp only at ho
        rw [if_pos hne] at ho
        cases ho
      obtain ⟨m, t⟩ := mt
      have ho' := sigOrder_eq a ht ho
      obtain ⟨order, -, hm, -⟩ := orderBy_spec ht.symm ho'
      have hml : m.length = a.mags.length := by rw [hm]; simp
      cases hs : sigSelect a.δ m t mcs with
      | error e => rw [hs] at h; cases h
      | ok sel =>
        unfold sigSelect at hs
        by_cases hlen : mcs.length ≠ m.length
        · rw [if_pos hlen] at hs; cases hs
        · rw [not_not] at hlen
          cases hc : a.mc with
          | one v => exact ⟨.one v, ht, by rw [hc]; rfl, (fun l hl => by cases hl), hx⟩
          | array l =>
            refine ⟨.many l, ht, by rw [hc]; rfl, fun l' hl => ?_, hx⟩
            cases hl
            rw [hc] at hmc
            cases hmc
            rw [hlen, hml]
          | list l => rw [hc] at hmc; cases hmc

/-- One point. -/
def pointOf (Φ : ℝ → ℝ) (warn : Bool) (a : SigArgs) (mc : Mc) (N nm : ℕ) : Py SigPoint :=
  if nm = 0 ∧ (a.nms.map Prod.snd).getD false = true then .error .zeroDivision
  else if N < 15 * nm then .ok ⟨nm, nanResult⟩
  else (bSignificant Φ warn (sigCall a mc nm)).map fun r => ⟨nm, r⟩

theorem plot_eq (Φ : ℝ → ℝ) (warn : Bool) {a : SigArgs} {mc : Mc} (hi : SigInput a mc) :
    ∃ order, IsOrder a.x a.mags.length order ∧
      plotSignificant Φ warn a = (do
        let nms ← chooseNms a (selectedEvents (sigCall a mc 0) order).length
        let l ← nms.mapM (pointOf Φ warn a mc (selectedEvents (sigCall a mc 0) order).length)
        let red ← markAll a.pThreshold ((a.nms.map Prod.snd).getD false) l
        pure (l, red)) := by
  obtain ⟨m, t, ho⟩ := order_exists hi.times.symm hi.x
  obtain ⟨order, hord, hm, ht⟩ := orderBy_spec hi.times.symm ho
  refine ⟨order, hord, ?_⟩
  have hml : m.length = a.mags.length := by rw [hm]; simp
  have htl : t.length = a.mags.length := by rw [ht]; simp
  have hmcl : ∀ nm, mcLength (sigCall a mc nm) := by
    intro nm
    unfold mcLength sigCall
    cases h : mc with
    | one v => trivial
    | many l => exact hi.mcLen l h
  have hc : (mc.perEvent a.mags.length).length = a.mags.length := by
    unfold Mc.perEvent
    cases h : mc with
    | one v => simp
    | many l => exact hi.mcLen l h
  have harr : a.mc.toArray a.mags.length = .ok (mc.perEvent a.mags.length) := by
    have := hi.mcArg
    unfold mcOfArg at this
    unfold McArg.toArray
    cases h : a.mc with
    | one v => rw [h] at this; cases this; rfl
    | array l => rw [h] at this; cases this; rfl
    | list l => rw [h] at this; cases this
  set sel := selectedEvents (sigCall a mc 0) order with hsel
  have hs : sigSelect a.δ m t (mc.perEvent a.mags.length) = .ok (sel.map (fun e => some e.mag), sel.map Ev.time, sel.map Ev.mc) := by
    unfold sigSelect
    rw [if_neg (by rw [hc, hml]; simp), if_neg (by rw [htl, hml]; simp)]
    obtain ⟨k1, k2, k3⟩ := selection_eq (sigCall a mc 0) order
    have hpe : mc.perEvent a.mags.length = (List.range a.mags.length).map (mcAt mc) := perEvent_eq (a := sigCall a mc 0) hc
    rw [hpe, hm, ht]
    exact congrArg Except.ok (Prod.ext k1 (Prod.ext k2 k3))
  unfold plotSignificant
  rw [order_sig a hi.times ho, harr]
  simp only [bind, Except.bind]
  rw [hs]
  simp only [List.length_map]
  have hone : ∀ nm, sigOne Φ warn a (sel.map fun e => some e.mag) (sel.map Ev.time) (sel.map Ev.mc) nm = pointOf Φ warn a mc sel.length nm := by
    intro nm
    unfold sigOne pointOf
    rw [List.length_map]
    by_cases h0 : nm = 0 ∧ (a.nms.map Prod.snd).getD false = true
    · rw [if_pos h0, if_pos h0]
    rw [if_neg h0, if_neg h0]
    by_cases h1 : sel.length < 15 * nm
    · rw [if_pos h1, if_pos h1]; rfl
    rw [if_neg h1, if_neg h1]
    have e1 := bSignificant_again Φ warn (sigCall a mc nm) (sel := sel) (selected_complete (sigCall a mc 0) order)
    have e2 := bSignificant_core Φ warn (sigCall a mc nm) hi.times.symm (hmcl nm) ho hm ht
    have e3 : selectedEvents (sigCall a mc nm) order = sel := rfl
    rw [e3] at e2
    rw [e2, ← e1]
    cases hr : bSignificant Φ warn { mags := sel.map fun e => some e.mag, mc := .many (sel.map Ev.mc), δ := (sigCall a mc nm).δ, times := sel.map Ev.time, nm := (sigCall a mc nm).nm, minNum := (sigCall a mc nm).minNum, method := (sigCall a mc nm).method, conservative := (sigCall a mc nm).conservative, kw := (sigCall a mc nm).kw } with
    | error e =>
      have hr' : bSignificant Φ warn { mags := sel.map fun e => some e.mag, mc := .many (sel.map Ev.mc), δ := a.δ, times := sel.map Ev.time, nm := nm, minNum := a.minNum, method := a.method, conservative := a.conservative, kw := a.kw } = .error e := hr
      rw [hr']; rfl
    | ok r =>
      have hr' : bSignificant Φ warn { mags := sel.map fun e => some e.mag, mc := .many (sel.map Ev.mc), δ := a.δ, times := sel.map Ev.time, nm := nm, minNum := a.minNum, method := a.method, conservative := a.conservative, kw := a.kw } = .ok r := hr
      rw [hr']; rfl
  have : sigOne Φ warn a (sel.map fun e => some e.mag) (sel.map Ev.time) (sel.map Ev.mc) = pointOf Φ warn a mc sel.length := funext hone
  rw [this]

/-! ### marks -/

theorem pOf_fin_or_nan (Φ : ℝ → ℝ) (x m s : Fl ℝ) : BSignificant.pOf Φ x m s = .nan ∨ ∃ v, BSignificant.pOf Φ x m s = .fin v := by
  unfold BSignificant.pOf
  split
  · exact Or.inr ⟨_, rfl⟩
  · exact Or.inl rfl

theorem bSignificant_p {Φ : ℝ → ℝ} {warn : Bool} {a : BSignificant.Args} {r : Result} (h : bSignificant Φ warn a = .ok r) :
    r.p = .nan ∨ ∃ v, r.p = .fin v := by
  obtain ⟨-, -, -, -, order, -, h1, h2⟩ := C42_windows h
  by_cases h3 : (selectedEvents a order).length < 3 * a.nm
  · rw [h1 h3]; exact Or.inl rfl
  · obtain ⟨res, -, -, hres⟩ := h2 (by omega)
    rcases hres with ⟨np, -, -, -, n, -, -, -, -, hp⟩ | ⟨-, rfl⟩
    · cases hm : r.mac <;> rw [hm] at hp
      · exact Or.inr ⟨_, hp⟩
      all_goals exact Or.inl hp
    · exact Or.inl rfl

theorem pointOf_spec {Φ : ℝ → ℝ} {warn : Bool} {a : SigArgs} {mc : Mc} {N nm : ℕ} {p : SigPoint} (h : pointOf Φ warn a mc N nm = .ok p) :
    p.nm = nm ∧ (N < 15 * nm → p.res = nanResult) ∧ (15 * nm ≤ N → bSignificant Φ warn (sigCall a mc nm) = .ok p.res) ∧
    (p.res.p = .nan ∨ ∃ v, p.res.p = .fin v) := by
  unfold pointOf at h
  split at h
  · cases h
  split at h
  · rename_i h1
    cases h
    exact ⟨rfl, fun _ => rfl, fun h => absurd h (by omega), Or.inl rfl⟩
  · rename_i h1
    cases hr : bSignificant Φ warn (sigCall a mc nm) with
    | error e => rw [hr] at h; cases h
    | ok r =>
      rw [hr] at h
      cases h
      exact ⟨rfl, fun h => absurd h h1, fun _ => rfl, bSignificant_p hr⟩

theorem marked_iff {thr : ℝ} {p : SigPoint} (h : p.res.p = .nan ∨ ∃ v, p.res.p = .fin v) : marked thr p = true ↔ Significant thr p := by
  unfold marked Significant
  rcases h with h | ⟨v, h⟩
  · rw [h]; simp
  · rw [h]; simp

/-! ### the default values -/

theorem mem_defaultNms {N v : ℕ} : v ∈ defaultNms N ↔ ∃ i : ℕ, i < 10 ∧ v = ⌊(15 : ℝ) + i * (((N : ℝ) / 15 - 15) / 9)⌋₊ := by
  unfold defaultNms
  rw [List.mem_dedup, List.mem_insertionSort, List.mem_map]
  constructor
  · rintro ⟨i, hi, rfl⟩; exact ⟨i, List.mem_range.1 hi, rfl⟩
  · rintro ⟨i, hi, rfl⟩; exact ⟨i, List.mem_range.2 hi, rfl⟩

theorem defaultNms_sorted (N : ℕ) : (defaultNms N).Pairwise (· < ·) := by
  unfold defaultNms
  have h1 : ((((List.range 10).map fun i : ℕ => ⌊(15 : ℝ) + i * (((N : ℝ) / 15 - 15) / 9)⌋₊).insertionSort (· ≤ ·)).dedup).Pairwise (· ≤ ·) :=
    (List.pairwise_insertionSort _ _).sublist (List.dedup_sublist _)
  have h2 := List.nodup_dedup (((List.range 10).map fun i : ℕ => ⌊(15 : ℝ) + i * (((N : ℝ) / 15 - 15) / 9)⌋₊).insertionSort (· ≤ ·))
  exact (h1.and h2).imp fun h => lt_of_le_of_ne h.1 h.2

theorem defaultNms_length (N : ℕ) : (defaultNms N).length ≤ 10 := by
  unfold defaultNms
  refine (List.dedup_sublist _).length_le.trans ?_
  rw [List.length_insertionSort]; simp

theorem defaultNms_ends (N : ℕ) : 15 ∈ defaultNms N ∧ N / 15 ∈ defaultNms N := by
  constructor
  · rw [mem_defaultNms]
    refine ⟨0, by norm_num, ?_⟩
    have : (15 : ℝ) + ((0 : ℕ) : ℝ) * (((N : ℝ) / 15 - 15) / 9) = ((15 : ℕ) : ℝ) := by push_cast; ring
    rw [this, Nat.floor_natCast]
  · rw [mem_defaultNms]
    refine ⟨9, by norm_num, ?_⟩
    have : (15 : ℝ) + ((9 : ℕ) : ℝ) * (((N : ℝ) / 15 - 15) / 9) = (N : ℝ) / ((15 : ℕ) : ℝ) := by push_cast; ring
    rw [this, Nat.floor_div_eq_div]

theorem defaultNms_between {N v : ℕ} (h : v ∈ defaultNms N) : min 15 (N / 15) ≤ v ∧ v ≤ max 15 (N / 15) := by
  rw [mem_defaultNms] at h
  obtain ⟨i, hi, rfl⟩ := h
  have hi0 : (0 : ℝ) ≤ i := Nat.cast_nonneg i
  have hi9 : (i : ℝ) ≤ 9 := by exact_mod_cast Nat.lt_succ_iff.1 hi
  have hq : ((N / 15 : ℕ) : ℝ) ≤ (N : ℝ) / 15 := by
    have := @Nat.cast_div_le ℝ _ _ _ N 15
    simpa using this
  have hq2 : (N : ℝ) / 15 < ((N / 15 : ℕ) : ℝ) + 1 := by
    rw [div_lt_iff₀ (by norm_num)]
    have : N < (N / 15 + 1) * 15 := by omega
    exact_mod_cast this
  rcases le_total (15 : ℝ) ((N : ℝ) / 15) with h | h
  · have h15 : 15 ≤ N / 15 := by
      have : (15 : ℝ) < ((N / 15 : ℕ) : ℝ) + 1 := lt_of_le_of_lt h hq2
      have : 15 < N / 15 + 1 := by exact_mod_cast this
      omega
    have hd : 0 ≤ ((N : ℝ) / 15 - 15) / 9 := by linarith
    rw [min_eq_left h15, max_eq_right h15]
    constructor
    · apply Nat.le_floor
      push_cast
      nlinarith
    · rw [← Nat.lt_succ_iff, Nat.floor_lt (by nlinarith)]
      push_cast
      have : (i : ℝ) * (((N : ℝ) / 15 - 15) / 9) ≤ 9 * (((N : ℝ) / 15 - 15) / 9) := mul_le_mul_of_nonneg_right hi9 hd
      linarith
  · have h15 : N / 15 ≤ 15 := by
      have : ((N / 15 : ℕ) : ℝ) ≤ 15 := hq.trans h
      exact_mod_cast this
    have hd : ((N : ℝ) / 15 - 15) / 9 ≤ 0 := by linarith
    have hlow : (N : ℝ) / 15 ≤ 15 + i * (((N : ℝ) / 15 - 15) / 9) := by nlinarith
    rw [min_eq_right h15, max_eq_left h15]
    constructor
    · apply Nat.le_floor
      exact hq.trans hlow
    · have : 0 ≤ (N : ℝ) / 15 := by positivity
      rw [← Nat.lt_succ_iff, Nat.floor_lt (by linarith)]
      push_cast
      nlinarith

/-! ## C75 -/

/-- C75: where the plot is drawn, there is one point for each `n_m`: NaN if there are fewer than fifteen times `n_m` complete events,
else the result of `b_significant_1D` for the same data; marked are exactly those with a p-value below the threshold. -/
theorem C75_points {Φ : ℝ → ℝ} {warn : Bool} {a : SigArgs} {l : List SigPoint} {red : List ℕ} (ht : a.times.length = a.mags.length)
    (h : plotSignificant Φ warn a = .ok (l, red)) :
    ∃ mc order, mcOfArg a.mc = some mc ∧ IsOrder a.x a.mags.length order ∧
      (∀ p ∈ l,
        ((selectedEvents (sigCall a mc 0) order).length < 15 * p.nm → p.res = ⟨.nan, .nan, .nan, .nan⟩) ∧
        (15 * p.nm ≤ (selectedEvents (sigCall a mc 0) order).length → bSignificant Φ warn (sigCall a mc p.nm) = .ok p.res)) ∧
      (∀ nms isList, a.nms = some (nms, isList) → l.map SigPoint.nm = nms) ∧
      (a.nms = none → 15 * a.minNum < (selectedEvents (sigCall a mc 0) order).length ∧
        l.map SigPoint.nm = defaultNms (selectedEvents (sigCall a mc 0) order).length) ∧
      red = (l.filter fun p => decide (Significant a.pThreshold p)).map SigPoint.nm := by
  obtain ⟨mc, hi⟩ := sigInput_of_ok ht h
  obtain ⟨order, hord, he⟩ := plot_eq Φ warn hi
  refine ⟨mc, order, hi.mcArg, hord, ?_⟩
  rw [he] at h
  set N := (selectedEvents (sigCall a mc 0) order).length
  cases hn : chooseNms a N with
  | error e => rw [hn] at h; cases h
  | ok nms =>
    rw [hn] at h
    simp only [bind, Except.bind] at h
    cases hl : nms.mapM (pointOf Φ warn a mc N) with
    | error e => rw [hl] at h; cases h
    | ok l' =>
      rw [hl] at h
      simp only at h
      cases hr : markAll a.pThreshold ((a.nms.map Prod.snd).getD false) l' with
      | error e => rw [hr] at h; cases h
      | ok red' =>
        rw [hr] at h
        cases h
        rw [mapM_ok_iff] at hl
        have hpt : ∀ p ∈ l, ∃ nm, pointOf Φ warn a mc N nm = .ok p := by
          intro p hp
          obtain ⟨i, hi⟩ := List.getElem?_of_mem hp
          obtain ⟨j1, j2⟩ := List.getElem?_eq_some_iff.1 hi
          have g := (List.forall₂_iff_get.1 hl).2 i (by rw [hl.length_eq]; exact j1) j1
          rw [List.get_eq_getElem, List.get_eq_getElem, j2] at g
          exact ⟨_, g⟩
        have hmap : l.map SigPoint.nm = nms := by
          clear hr hpt hn
          induction hl with
          | nil => rfl
          | cons h1 h2 ih => rw [List.map_cons, ih, (pointOf_spec h1).1]
        refine ⟨?_, ?_, ?_, ?_⟩
        · intro p hp
          obtain ⟨nm, hnm⟩ := hpt p hp
          obtain ⟨e, h1, h2, -⟩ := pointOf_spec hnm
          rw [e]
          exact ⟨h1, h2⟩
        · intro nms' b hb
          unfold chooseNms at hn
          rw [hb] at hn
          cases hn
          exact hmap
        · intro hb
          unfold chooseNms at hn
          rw [hb] at hn
          simp only at hn
          split at hn
          · rename_i hlt
            cases hn
            rw [lt_div_iff₀ (by norm_num)] at hlt
            refine ⟨?_, hmap⟩
            have : a.minNum * 15 < N := by exact_mod_cast hlt
            omega
          · cases hn
        · have hf : l.filter (marked a.pThreshold) = l.filter fun p => decide (Significant a.pThreshold p) := by
            apply List.filter_congr
            intro p hp
            obtain ⟨nm, hnm⟩ := hpt p hp
            have := marked_iff (thr := a.pThreshold) (pointOf_spec hnm).2.2.2
            by_cases hs : Significant a.pThreshold p
            · rw [this.2 hs]; simp [hs]
            · have : marked a.pThreshold p = false := by
                cases hm : marked a.pThreshold p with
                | true => exact absurd (this.1 hm) hs
                | false => rfl
              rw [this]; simp [hs]
          rw [← hf]
          unfold markAll at hr
          by_cases ha : l.any (marked a.pThreshold) = true
          · rw [if_pos ha] at hr
            split at hr
            · cases hr
            · cases hr; rfl
          · rw [if_neg ha] at hr
            cases hr
            rw [List.any_eq_true] at ha
            push Not at ha
            rw [List.filter_eq_nil_iff.2 (fun p hp => ha p hp)]
            rfl

/-- C75: conversely the plot is drawn if every test it needs returns. -/
theorem C75_returns {Φ : ℝ → ℝ} {warn : Bool} {a : SigArgs} {mc : Mc} (hi : SigInput a mc) :
    ∃ order, IsOrder a.x a.mags.length order ∧
      ((∀ nms isList, a.nms = some (nms, isList) → isList = false ∧ ∀ nm ∈ nms, 15 * nm ≤ (selectedEvents (sigCall a mc 0) order).length →
          ∃ r, bSignificant Φ warn (sigCall a mc nm) = .ok r) →
        (a.nms = none → 15 * a.minNum < (selectedEvents (sigCall a mc 0) order).length ∧
          ∀ nm ∈ defaultNms (selectedEvents (sigCall a mc 0) order).length, 15 * nm ≤ (selectedEvents (sigCall a mc 0) order).length →
            ∃ r, bSignificant Φ warn (sigCall a mc nm) = .ok r) →
        ∃ l red, plotSignificant Φ warn a = .ok (l, red)) := by
  obtain ⟨order, hord, he⟩ := plot_eq Φ warn hi
  refine ⟨order, hord, fun h1 h2 => ?_⟩
  rw [he]
  set N := (selectedEvents (sigCall a mc 0) order).length
  have hlist : (a.nms.map Prod.snd).getD false = false := by
    cases hn : a.nms with
    | none => rfl
    | some q => exact (h1 q.1 q.2 hn).1
  have key : ∃ nms, chooseNms a N = .ok nms ∧ ∀ nm ∈ nms, 15 * nm ≤ N → ∃ r, bSignificant Φ warn (sigCall a mc nm) = .ok r := by
    unfold chooseNms
    cases hn : a.nms with
    | none =>
      obtain ⟨h3, h4⟩ := h2 hn
      refine ⟨defaultNms N, ?_, h4⟩
      simp only
      rw [if_pos]
      rw [lt_div_iff₀ (by norm_num)]
      have : a.minNum * 15 < N := by omega
      exact_mod_cast this
    | some q => exact ⟨q.1, rfl, (h1 q.1 q.2 hn).2⟩
  obtain ⟨nms, hn, hall⟩ := key
  rw [hn]
  simp only [bind, Except.bind]
  have hl : ∃ l, nms.mapM (pointOf Φ warn a mc N) = .ok l := by
    clear hn
    induction nms with
    | nil => exact ⟨[], rfl⟩
    | cons nm nms ih =>
      obtain ⟨l, hl⟩ := ih fun v hv => hall v (by simp [hv])
      have hp : ∃ p, pointOf Φ warn a mc N nm = .ok p := by
        unfold pointOf
        rw [if_neg (by rw [hlist]; simp)]
        by_cases h15 : N < 15 * nm
        · rw [if_pos h15]; exact ⟨_, rfl⟩
        · rw [if_neg h15]
          obtain ⟨r, hr⟩ := hall nm (by simp) (by omega)
          rw [hr]; exact ⟨_, rfl⟩
      obtain ⟨p, hp⟩ := hp
      exact ⟨p :: l, by rw [List.mapM_cons, hp, hl]; rfl⟩
  obtain ⟨l, hl⟩ := hl
  rw [hl, hlist]
  simp only
  unfold markAll
  by_cases ha : l.any (marked a.pThreshold) = true
  · rw [if_pos ha]; exact ⟨_, _, rfl⟩
  · rw [if_neg ha]; exact ⟨_, _, rfl⟩

/-- C75: with too few events for the default `n_m` the plot is refused. -/
theorem C75_too_few {Φ : ℝ → ℝ} {warn : Bool} {a : SigArgs} {mc : Mc} (hi : SigInput a mc) (hn : a.nms = none) :
    ∃ order, IsOrder a.x a.mags.length order ∧
      ((selectedEvents (sigCall a mc 0) order).length ≤ 15 * a.minNum → plotSignificant Φ warn a = .error .valueError) := by
  obtain ⟨order, hord, he⟩ := plot_eq Φ warn hi
  refine ⟨order, hord, fun h => ?_⟩
  rw [he]
  unfold chooseNms
  rw [hn]
  simp only
  rw [if_neg]
  · rfl
  · rw [lt_div_iff₀ (by norm_num)]
    have : ¬ a.minNum * 15 < (selectedEvents (sigCall a mc 0) order).length := by omega
    exact_mod_cast this

/-- C75: the default `n_m` for `N` events: at most ten, increasing, from 15 to `N / 15` (or back) with both ends; from 225 events on all of
them are tested, below that 15 is not. -/
theorem C75_default (N : ℕ) :
    (defaultNms N).length ≤ 10 ∧ (defaultNms N).Pairwise (· < ·) ∧ 15 ∈ defaultNms N ∧ N / 15 ∈ defaultNms N ∧
    (∀ v ∈ defaultNms N, min 15 (N / 15) ≤ v ∧ v ≤ max 15 (N / 15)) ∧
    (225 ≤ N → ∀ v ∈ defaultNms N, 15 * v ≤ N) ∧ (N < 225 → ∃ v ∈ defaultNms N, N < 15 * v) := by
  refine ⟨defaultNms_length N, defaultNms_sorted N, (defaultNms_ends N).1, (defaultNms_ends N).2, fun v hv => defaultNms_between hv, ?_, fun h => ⟨15, (defaultNms_ends N).1, by omega⟩⟩
  intro h v hv
  have := (defaultNms_between hv).2
  have h15 : 15 ≤ N / 15 := by omega
  rw [max_eq_right h15] at this
  omega

/-- A finding about C75: completeness magnitudes given as a list are a TypeError. -/
theorem C75_list_mc (Φ : ℝ → ℝ) (warn : Bool) (a : SigArgs) (l : List ℝ) (hx : a.x = none) (hmc : a.mc = .list l) :
    plotSignificant Φ warn a = .error .typeError := by
  unfold plotSignificant sigOrder McArg.toArray
  rw [hx, hmc]
  rfl

/-- A finding about C75: with `n_ms` as a list, a plot with a significant value is a TypeError, although the same plot with an array is
drawn. -/
theorem C75_list_nms {Φ : ℝ → ℝ} {warn : Bool} {a : SigArgs} {nms : List ℕ} {l : List SigPoint} {red : List ℕ}
    (h : plotSignificant Φ warn { a with nms := some (nms, false) } = .ok (l, red)) (hr : red ≠ []) (h0 : 0 ∉ nms) :
    plotSignificant Φ warn { a with nms := some (nms, true) } = .error .typeError := by
  unfold plotSignificant at h ⊢
  have e1 : sigOrder { a with nms := some (nms, false) } = sigOrder { a with nms := some (nms, true) } := rfl
  rw [e1] at h
  cases ho : sigOrder { a with nms := some (nms, true) } with
  | error e => rw [ho] at h; cases h
  | ok mt =>
    rw [ho] at h
    simp only [bind, Except.bind] at h ⊢
    cases hc : a.mc.toArray a.mags.length with
    | error e => rw [hc] at h; cases h
    | ok mcs =>
      rw [hc] at h
      simp only at h ⊢
      cases hs : sigSelect a.δ mt.1 mt.2 mcs with
      | error e => rw [hs] at h; cases h
      | ok sel =>
        rw [hs] at h
        simp only [chooseNms] at h ⊢
        have e2 : nms.mapM (sigOne Φ warn { a with nms := some (nms, true) } sel.1 sel.2.1 sel.2.2) =
            nms.mapM (sigOne Φ warn { a with nms := some (nms, false) } sel.1 sel.2.1 sel.2.2) := by
          have : ∀ nm ∈ nms, sigOne Φ warn { a with nms := some (nms, true) } sel.1 sel.2.1 sel.2.2 nm =
              sigOne Φ warn { a with nms := some (nms, false) } sel.1 sel.2.1 sel.2.2 nm := by
            intro nm hnm
            have hne : nm ≠ 0 := fun h => h0 (h ▸ hnm)
            unfold sigOne
            have k : ∀ q : Prop, ¬ (nm = 0 ∧ q) := fun q h => hne h.1
            rw [if_neg (k _), if_neg (k _)]
          clear h e1
          revert this
          generalize sigOne Φ warn { a with nms := some (nms, true) } sel.1 sel.2.1 sel.2.2 = f
          generalize sigOne Φ warn { a with nms := some (nms, false) } sel.1 sel.2.1 sel.2.2 = g
          clear ho h0
          intro hfg
          induction nms with
          | nil => rfl
          | cons x r ih => rw [List.mapM_cons, List.mapM_cons, hfg x (by simp), ih fun y hy => hfg y (by simp [hy])]
        rw [e2]
        cases hl : nms.mapM (sigOne Φ warn { a with nms := some (nms, false) } sel.1 sel.2.1 sel.2.2) with
        | error e => rw [hl] at h; cases h
        | ok l' =>
          rw [hl] at h
          simp only [Option.map_some, Option.getD_some, markAll] at h ⊢
          by_cases ha : l'.any (marked a.pThreshold) = true
          · rw [if_pos ha]
            rfl
          · rw [if_neg ha] at h
            cases h
            exact absurd rfl hr

/-- C75: giving `x_variable` is the same as sorting magnitudes and times by it beforehand, with `mc` as it is: an array of completeness
magnitudes is not reordered with the events. -/
theorem C75_x_variable (Φ : ℝ → ℝ) (warn : Bool) (a : SigArgs) (x : List ℝ) (hx : x.length = a.mags.length)
    (ht : a.times.length = a.mags.length) :
    plotSignificant Φ warn { a with x := some x } =
      plotSignificant Φ warn { a with x := none, mags := (argsort x).map (fun i => a.mags.getD i none), times := (argsort x).map fun i => a.times.getD i 0 } := by
  have hlen : (argsort x).length = a.mags.length := by rw [argsort_length, hx]
  have e : sigOrder { a with x := some x } = .ok ((argsort x).map (fun i => a.mags.getD i none), (argsort x).map fun i => a.times.getD i 0) := by
    unfold sigOrder
    simp only
    rw [if_neg (by rw [hx]; simp), gather_eq (fun i hi => by rw [ht, ← hx]; exact argsort_lt hi)]
    rfl
  unfold plotSignificant
  rw [e]
  have e2 : sigOrder { a with x := none, mags := (argsort x).map (fun i => a.mags.getD i none), times := (argsort x).map fun i => a.times.getD i 0 } =
      .ok ((argsort x).map (fun i => a.mags.getD i none), (argsort x).map fun i => a.times.getD i 0) := rfl
  rw [e2]
  simp only [bind, Except.bind, List.length_map, hlen]
  rfl

/-- C75: a value is marked if it lies above the one-sided limit. So every value above the drawn (two-sided) band is marked, but also values
inside it, between the one-sided and the two-sided limit; values below the band are never marked. -/
theorem C75_band {Φ ppf : ℝ → ℝ} (hΦ : StrictMono Φ) (hΦ0 : Φ 0 = 1 / 2) (hppf : ∀ q, 0 < q → q < 1 → Φ (ppf q) = q) {thr : ℝ} (h0 : 0 < thr) (h1 : thr ≤ 1 / 2)
    {p : SigPoint} {mac mu sd : ℝ} (hsd : 0 < sd) (hp : p.res = ⟨.fin (1 - Φ ((mac - mu) / sd)), .fin mac, .fin mu, .fin sd⟩) :
    ∃ lower upper, sigBand ppf thr p = (.fin lower, .fin upper) ∧ lower ≤ mu ∧ mu ≤ upper ∧
      (Significant thr p ↔ mu + ppf (1 - thr) * sd < mac) ∧ mu + ppf (1 - thr) * sd < upper ∧
      (upper < mac → Significant thr p) ∧ (mac < lower → ¬ Significant thr p) := by
  have hk := hppf (1 - thr / 2) (by linarith) (by linarith)
  have hk1 := hppf (1 - thr) (by linarith) (by linarith)
  have hk0 : 0 < ppf (1 - thr / 2) := by
    rw [← hΦ.lt_iff_lt, hΦ0, hk]; linarith
  have hk10 : 0 ≤ ppf (1 - thr) := by
    rw [← hΦ.le_iff_le, hΦ0, hk1]; linarith
  have hlt : ppf (1 - thr) < ppf (1 - thr / 2) := by
    rw [← hΦ.lt_iff_lt, hk, hk1]; linarith
  have hsig : Significant thr p ↔ mu + ppf (1 - thr) * sd < mac := by
    unfold Significant
    rw [hp]
    have : (∃ v, (Fl.fin (1 - Φ ((mac - mu) / sd)) : Fl ℝ) = .fin v ∧ v < thr) ↔ 1 - Φ ((mac - mu) / sd) < thr := by
      constructor
      · rintro ⟨v, hv, h⟩; cases hv; exact h
      · intro h; exact ⟨_, rfl, h⟩
    rw [this]
    have e : 1 - Φ ((mac - mu) / sd) < thr ↔ Φ (ppf (1 - thr)) < Φ ((mac - mu) / sd) := by
      rw [hk1]; constructor <;> intro h <;> linarith
    rw [e, hΦ.lt_iff_lt, lt_div_iff₀ hsd]
    constructor <;> intro h <;> linarith
  refine ⟨mu + -ppf (1 - thr / 2) * sd, mu + ppf (1 - thr / 2) * sd, ?_, ?_, ?_, hsig, ?_, ?_, ?_⟩
  · unfold sigBand bandEnd
    rw [hp]
  · have := mul_pos hk0 hsd; linarith
  · have := mul_pos hk0 hsd; linarith
  · have := mul_lt_mul_of_pos_right hlt hsd; linarith
  · intro h
    rw [hsig]
    have := mul_lt_mul_of_pos_right hlt hsd; linarith
  · intro h hs
    rw [hsig] at hs
    have := mul_pos hk0 hsd
    have := mul_nonneg hk10 hsd.le
    linarith

/-! ### a concrete plot -/

/-- A single magnitude 1 or 2 above `mc = 0`. -/
theorem single_value {m : ℝ} (hm : m = 1 ∨ m = 2) (t : ℝ) :
    ∃ p : BSignificant.Part, partAlone (.b .classic) false 1 {} ⟨[some m], [t], 0, .ok 1⟩ = .ok p ∧ p.n = 1 ∧ p.value = .fin (Real.log (1 + 1 / m) / Real.log 10) := by
  have hs : argsort [t] = [0] := by
    unfold argsort
    simp [List.range_succ, List.insertionSort, List.orderedInsert]
  have hm0 : 0 < m := by rcases hm with rfl | rfl <;> norm_num
  unfold partAlone BSignificant.partStep
  have hf : BSignificant.Kw.fits {} (.b .classic) = true := rfl
  simp only [hs, BSignificant.Method.new, BSignificant.partOne, BSignificant.partB, hf, if_true]
  rw [gather_getD _ none _ (by simp), gather_getD _ 0 _ (by simp)]
  have hA : Accepted { mags := [some m], mc := 0, δ := 1 } := by
    refine ⟨Or.inr ?_, fun w hw => by cases hw⟩
    have := C08_grid_accepted (K := ℝ) [some 0] m 1 (1 / 10 ^ 15) (by norm_num) (by norm_num) ⟨0, by simp⟩
    simpa using this
  have hk := BValue.calculate_classic_valid (Or.inl rfl) false BValue.State.init _ ((accepted_iff _).1 hA) rfl
  have hle : (0 : ℝ) - 1 / 2 ≤ m := by linarith
  have hle' : -(1 / 2 : ℝ) ≤ m := by linarith
  have hle2 : -(2 : ℝ)⁻¹ ≤ m := by linarith
  have hu : BValue.used { mags := [some m], mc := 0, δ := 1 } = [(m, (1 : ℝ))] := by
    simp [BValue.used, BValue.effW, Spec.selected, hle, hle', hle2]
  have hr := result_of_total (c := .classic) (a := { mags := [some m], mc := 0, δ := 1 }) (by rw [hu]; norm_num [Spec.total])
  rw [hr] at hk
  have e : ([0] : List ℕ).map (fun i => ([some m] : List (Option ℝ)).getD i none) = [some m] := rfl
  simp only [e, List.length_cons, List.length_nil]
  rw [hk]
  have hn : BValue.nums (some ([(m, (1 : ℝ))].map fun q => some q.1)) = [m] := by simp [BValue.nums]
  have hw : Spec.wmean [(m, (1 : ℝ))] = m := by simp [Spec.wmean, Spec.total]
  have hb : BValue.betaOf (m - 0) 1 = .fin (Real.log (1 + 1 / m)) := by
    rw [sub_zero, betaOf_pos hm0]
    simp [betaVal]
  simp only [BValue.store, BValue.usedState, hu, BValue.State.bValue, BValue.stdOf, BValue.State.std, BValue.State.n, hn, hw, hb]
  simp [BValue.shiBolt, average, bind, Except.bind, pure, Except.pure, BValue.betaToB, Fl.mapFin]

/-- Fifteen complete events, the first of magnitude 2, the others of magnitude 1. -/
def demoSel : List Ev := ⟨2, 0, 0⟩ :: List.replicate 14 ⟨1, 0, 0⟩

/-- The plot of these events with an `n_m` of one. -/
def demoSig (isList : Bool) : SigArgs :=
  { mags := some 2 :: List.replicate 14 (some 1), mc := .one 0, δ := 1, times := List.replicate 15 0, nms := some ([1], isList), minNum := 1 }

theorem demo_select : selectedEvents (sigCall (demoSig false) (.one 0) 1) (List.range 15) = demoSel := by
  have e : (List.range 15) = [0, 1, 2, 3, 4, 5, 6, 7, 8, 9, 10, 11, 12, 13, 14] := rfl
  have h : (-1 / 2 : ℝ) ≤ 1 := by norm_num
  have h' : (-1 / 2 : ℝ) ≤ 2 := by norm_num
  unfold selectedEvents
  rw [show (sigCall (demoSig false) (.one 0) 1).mags.length = 15 from rfl, e]
  simp only [List.filterMap_cons, List.filterMap_nil, pick, sigCall, demoSig, mcAt, List.replicate, List.getD_cons_zero, List.getD_cons_succ]
  norm_num [demoSel, List.replicate]

/-- The first b-value differs from the others; the autocorrelation is a number. -/
theorem demo_moran {u v : ℝ} (h : u ≠ v) : ∃ (x : ℝ) (np : ℕ), 3 ≤ np ∧
    BSignificant.morans (.fin u :: List.replicate 14 (.fin v)) none none = .ok ⟨.fin x, 15, np⟩ := by
  set l : List (Option ℝ) := some u :: List.replicate 14 (some v) with hl
  obtain ⟨ac, hm, hac⟩ := C39_formula (l := l) (w := none) none (by rw [hl]; simp) (fun m hm => by cases hm)
  have e : toFl l = .fin u :: List.replicate 14 (.fin v) := by simp [toFl, hl]
  have hlen : (l.filterMap id).length = 15 := by simp [hl, List.replicate]
  have hcard : 3 ≤ (neighbourPairs l none).card := by
    have hsub : ({(0, 1), (1, 2), (2, 3)} : Finset (ℕ × ℕ)) ⊆ neighbourPairs l none := by
      intro p hp
      simp only [Finset.mem_insert, Finset.mem_singleton] at hp
      unfold neighbourPairs
      rw [Finset.mem_filter, Finset.mem_product, Finset.mem_range, Finset.mem_range]
      rcases hp with rfl | rfl | rfl <;> simp [hl, Neighbour, hasNum, List.replicate]
    have := Finset.card_le_card hsub
    simpa using this
  have hne : neighbourPairs l none ≠ ∅ := by
    intro h0; rw [h0] at hcard; simp at hcard
  have hsq : sqDev l (meanSpec l none) ≠ 0 := by
    unfold sqDev
    generalize meanSpec l none = mu
    have : (l.filterMap id) = u :: List.replicate 14 v := by simp [hl, List.replicate]
    rw [this, List.map_cons, List.sum_cons, List.map_replicate, List.sum_replicate]
    intro h0
    have h1 := sq_nonneg (u - mu)
    have h2 := sq_nonneg (v - mu)
    have h3 : (u - mu) ^ 2 = 0 := by rw [nsmul_eq_mul] at h0; push_cast at h0; linarith
    have h4 : (v - mu) ^ 2 = 0 := by rw [nsmul_eq_mul] at h0; push_cast at h0; linarith
    rw [pow_eq_zero_iff two_ne_zero] at h3 h4
    exact h (by linarith)
  rw [if_neg (by rw [not_or]; exact ⟨hne, hsq⟩)] at hac
  rw [e, hlen, hac] at hm
  exact ⟨_, _, hcard, hm⟩

theorem demo_significant (Φ : ℝ → ℝ) : ∃ z mac mu sd, bSignificant Φ false (sigCall (demoSig false) (.one 0) 1) = .ok ⟨.fin (1 - Φ z), .fin mac, .fin mu, .fin sd⟩ := by
  have hsel := demo_select
  have hcore := bSignificant_core Φ false (sigCall (demoSig false) (.one 0) 1) (order := List.range 15) rfl trivial rfl
    (by rfl) (by rfl)
  rw [hsel] at hcore
  obtain ⟨p2, h2, n2, v2⟩ := single_value (m := 2) (Or.inr rfl) 0
  obtain ⟨p1, h1, n1, v1⟩ := single_value (m := 1) (Or.inl rfl) 0
  have hne : Real.log (1 + 1 / 2) / Real.log 10 ≠ Real.log (1 + 1 / 1) / Real.log 10 := by
    have h10 : 0 < Real.log 10 := Real.log_pos (by norm_num)
    have : Real.log (1 + 1 / 2) < Real.log (1 + 1 / 1) := Real.log_lt_log (by norm_num) (by norm_num)
    exact (div_lt_div_of_pos_right this h10).ne
  obtain ⟨x, np, hnp, hmor⟩ := demo_moran hne
  obtain ⟨top, ht, hoff⟩ := offsetOne_eq false (.b .classic) {} 1 (n := 1) (minNum := 1) (off := 0) demoSel (by norm_num) (by simp [demoSel])
  have htop : ∀ e : Ev, top [e] = e.mc := by
    intro e
    obtain ⟨⟨e', he', h⟩, -⟩ := ht [e] (by simp)
    rw [List.mem_singleton] at he'
    rw [← h, he']
  have hw : windows demoSel 1 0 = [⟨2, 0, 0⟩] :: List.replicate 14 [⟨1, 0, 0⟩] := rfl
  have hone : BSignificant.offsetOne false (.b .classic) {} 1 1 1 (demoSel.map fun e => some e.mag) (demoSel.map Ev.time) (demoSel.map Ev.mc) 0 =
      .ok ⟨.fin x, .fin ((15 : ℕ) : ℝ), .fin ((np : ℕ) : ℝ)⟩ := by
    rw [hoff, hw]
    have hmap : ((([⟨2, 0, 0⟩] :: List.replicate 14 [⟨1, 0, 0⟩]) : List (List Ev)).map fun w => (⟨w.map fun e => some e.mag, w.map Ev.time, top w, .ok 1⟩ : BSignificant.PartIn)).mapM (partAlone (.b .classic) false 1 {}) =
        .ok (p2 :: List.replicate 14 p1) := by
      rw [mapM_ok_iff]
      simp only [List.map_cons, List.map_nil, List.map_replicate, htop]
      refine .cons h2 ?_
      rw [List.forall₂_iff_get]
      refine ⟨by simp, fun i hi hj => ?_⟩
      rw [List.get_eq_getElem, List.get_eq_getElem, List.getElem_replicate, List.getElem_replicate]
      exact h1
    rw [hmap]
    simp only [bind, Except.bind]
    unfold BSignificant.offsetAc
    rw [if_neg (by simp [List.replicate, n1, n2])]
    have : (p2 :: List.replicate 14 p1).map (BSignificant.dropSmall 1) = .fin (Real.log (1 + 1 / 2) / Real.log 10) :: List.replicate 14 (.fin (Real.log (1 + 1 / 1) / Real.log 10)) := by
      simp only [List.map_cons, List.map_replicate, BSignificant.dropSmall, n1, n2, v1, v2, lt_irrefl, if_false]
    rw [this, hmor]
    rfl
  rw [hcore]
  unfold core
  rw [if_neg (by simp [sigCall, demoSig]), if_neg (by simp [sigCall]), if_neg (by simp [sigCall, demoSel])]
  unfold significant
  have hr : (List.range (sigCall (demoSig false) (.one 0) 1).nm) = [0] := rfl
  rw [hr]
  have hone' : BSignificant.offsetOne false (sigCall (demoSig false) (.one 0) 1).method (sigCall (demoSig false) (.one 0) 1).kw (sigCall (demoSig false) (.one 0) 1).δ (sigCall (demoSig false) (.one 0) 1).nm (sigCall (demoSig false) (.one 0) 1).minNum (demoSel.map fun e => some e.mag) (demoSel.map Ev.time) (demoSel.map Ev.mc) 0 =
      .ok ⟨.fin x, .fin ((15 : ℕ) : ℝ), .fin ((np : ℕ) : ℝ)⟩ := hone
  simp only [List.mapM_cons, List.mapM_nil, hone', bind, Except.bind, pure, Except.pure]
  have hnp' : (2 : ℝ) < (np : ℝ) := by exact_mod_cast (by omega : 2 < np)
  have hmac : BSignificant.macOf [⟨.fin x, .fin ((15 : ℕ) : ℝ), .fin ((np : ℕ) : ℝ)⟩] = (.fin x, .fin (-1 / 15), .fin (((np : ℝ) - 2) / ((np : ℝ) * Real.sqrt np))) := by
    unfold BSignificant.macOf BSignificant.nanmean BSignificant.finite
    simp [BSignificant.isInf, Fl.val?, Fl.div, hnp']
  rw [hmac]
  have hcons : (sigCall (demoSig false) (.one 0) 1).conservative = true := rfl
  rw [hcons]
  exact ⟨_, _, _, _, rfl⟩

/-- The hypotheses of C75 are met: this plot is drawn, and for a distribution function that makes its p-value small its point is marked. -/
theorem demo_plot : ∃ p, plotSignificant (fun _ => 1) false (demoSig false) = .ok ([p], [1]) ∧ p.nm = 1 ∧ p.res.p = .fin (1 - 1) := by
  obtain ⟨z, mac, mu, sd, hb⟩ := demo_significant fun _ => 1
  have hi : SigInput (demoSig false) (.one 0) := ⟨rfl, rfl, (fun l hl => by cases hl), fun v hv => by cases hv⟩
  obtain ⟨order, hord, he⟩ := plot_eq (fun _ => 1) false hi
  have ho : order = List.range 15 := hord.2
  subst ho
  have hN : (selectedEvents (sigCall (demoSig false) (.one 0) 0) (List.range 15)).length = 15 := by
    have : selectedEvents (sigCall (demoSig false) (.one 0) 0) (List.range 15) = selectedEvents (sigCall (demoSig false) (.one 0) 1) (List.range 15) := rfl
    rw [this, demo_select]; rfl
  rw [hN] at he
  have hp : pointOf (fun _ => 1) false (demoSig false) (.one 0) 15 1 = .ok ⟨1, ⟨.fin (1 - 1), .fin mac, .fin mu, .fin sd⟩⟩ := by
    unfold pointOf
    rw [if_neg (by simp), if_neg (by simp), hb]
    rfl
  refine ⟨⟨1, ⟨.fin (1 - 1), .fin mac, .fin mu, .fin sd⟩⟩, ?_, rfl, rfl⟩
  rw [he]
  have hc : chooseNms (demoSig false) 15 = .ok [1] := rfl
  rw [hc]
  simp only [bind, Except.bind, List.mapM_cons, List.mapM_nil, hp, pure, Except.pure]
  have hmk : marked (demoSig false).pThreshold ⟨1, ⟨.fin (1 - 1), .fin mac, .fin mu, .fin sd⟩⟩ = true := by
    simp [marked, demoSig]
  unfold markAll
  simp only [List.any_cons, hmk, List.any_nil, Bool.or_false, if_true, List.filter_cons, List.filter_nil]
  rfl

/-- The plot of `demo_plot` fails if its `n_ms` is a list. -/
example : plotSignificant (fun _ => 1) false (demoSig true) = .error .typeError := by
  obtain ⟨p, hp, -⟩ := demo_plot
  exact C75_list_nms (a := demoSig false) (nms := [1]) hp (by simp) (by simp)

/-! ## C77 -/

/-- C77: brightness one leaves a channel as it is; below one it moves towards white, above towards black, in proportion; the result is a
channel again. -/
theorem C77_channel {c f : ℝ} (h0 : 0 ≤ c) (h1 : c ≤ 1) (hf : 0 ≤ f) :
    (0 ≤ adjustChannel f c ∧ adjustChannel f c ≤ 1) ∧ adjustChannel 1 c = c ∧
    (f < 1 → 1 - adjustChannel f c = f * (1 - c) ∧ c ≤ adjustChannel f c) ∧
    (1 ≤ f → f * adjustChannel f c = c ∧ adjustChannel f c ≤ c) := by
  unfold adjustChannel
  refine ⟨?_, by rw [if_neg (lt_irrefl _), div_one], ?_, ?_⟩
  · split
    · constructor <;> nlinarith
    · rename_i h
      have hf1 : 1 ≤ f := not_lt.1 h
      exact ⟨div_nonneg h0 hf, (div_le_one (by linarith)).2 (by linarith)⟩
  · intro h
    rw [if_pos h]
    constructor
    · ring
    · nlinarith
  · intro h
    rw [if_neg (not_lt.2 h)]
    constructor
    · field_simp
    · rw [div_le_iff₀ (by linarith)]; nlinarith

/-- C77: brighter colours keep the order of their channels. -/
theorem C77_order {c d f : ℝ} (h : c ≤ d) (hf : 0 ≤ f) : adjustChannel f c ≤ adjustChannel f d := by
  unfold adjustChannel
  split
  · nlinarith
  · rename_i h1
    exact div_le_div_of_nonneg_right h (by linarith)

/-- C77: a negative factor leaves the range of a channel (matplotlib then refuses the colour). -/
theorem C77_negative {c f : ℝ} (h1 : c < 1) (hf : f < 0) : 1 < adjustChannel f c := by
  unfold adjustChannel
  rw [if_pos (by linarith)]
  nlinarith

example : adjustChannel (7 / 10) 0 = 3 / 10 := by unfold adjustChannel; norm_num

end
end SeismoStats.Props
