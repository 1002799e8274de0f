/-
Property C42 (`b_significant_1D`).
-/
import Verif.Props.Partition
import Verif.Props.Moran

namespace SeismoStats.Props
open SeismoStats SeismoStats.BSignificant
open SeismoStats.BValue (argsort_perm argsort_sorted argsort_lt argsort_length map_getD_range mask_map)
set_option linter.unusedSimpArgs false
open Classical
noncomputable section

/-! ### specification -/

/-- The full windows of `n` consecutive elements starting at `off`, `off + n`, ... -/
def windows {α : Type} (l : List α) (n off : ℕ) : List (List α) :=
  (List.range ((l.length - off) / n)).map fun k => (l.drop (off + k * n)).take n

/-- A selected event. -/
structure Ev where
  mag : ℝ
  time : ℝ
  mc : ℝ

/-- `order` lists the events by `x_variable`, or as given. -/
def IsOrder (x : Option (List ℝ)) (n : ℕ) (order : List ℕ) : Prop :=
  order.Perm (List.range n) ∧
    match x with
    | none => order = List.range n
    | some x => x.length = n ∧ (order.map fun i => x.getD i 0).Pairwise (· ≤ ·)

/-- The `k`-th event in the order, if it reaches the `k`-th completeness magnitude (minus half a bin). -/
def pick (a : BSignificant.Args) (order : List ℕ) (k : ℕ) : Option Ev :=
  match a.mags.getD (order.getD k 0) none with
  | some m => if mcAt a.mc k - a.δ / 2 ≤ m then some ⟨m, a.times.getD (order.getD k 0) 0, mcAt a.mc k⟩ else none
  | none => none

/-- The selected events. -/
def selectedEvents (a : BSignificant.Args) (order : List ℕ) : List Ev :=
  (List.range a.mags.length).filterMap (pick a order)

/-- What one offset contributes. -/
def IsOffset (a : BSignificant.Args) (warn : Bool) (sel : List Ev) (off : ℕ) (o : OffsetRes) : Prop :=
  ∃ parts : List Part, parts.length = (sel.length - off) / a.nm ∧
    (∀ (k : ℕ) (p : Part), parts[k]? = some p →
      ∃ top, IsGreatest {c | ∃ e ∈ (sel.drop (off + k * a.nm)).take a.nm, e.mc = c} top ∧
        IsPart a.method warn a.δ a.kw (((sel.drop (off + k * a.nm)).take a.nm).map fun e => some e.mag)
          (((sel.drop (off + k * a.nm)).take a.nm).map Ev.time) top 1 p) ∧
    ((parts.filter fun p => a.minNum ≤ p.n).length < 3 → o = ⟨.nan, .nan, .nan⟩) ∧
    (3 ≤ (parts.filter fun p => a.minNum ≤ p.n).length →
      ∃ r, morans (parts.map fun p => if a.minNum ≤ p.n then p.value else .nan) none none = .ok r ∧
        o = ⟨r.ac, .fin r.n, .fin r.np⟩)

/-- Mean of the numbers in a list; NaN if there are none. -/
def avg (l : List (Fl ℝ)) : Fl ℝ :=
  if l.filterMap Fl.val? = [] then .nan else .fin ((l.filterMap Fl.val?).sum / (l.filterMap Fl.val?).length)

/-! ### windows -/

theorem windows_length {α : Type} (l : List α) (n off : ℕ) : (windows l n off).length = (l.length - off) / n := by
  unfold windows; simp

theorem windows_drop {α : Type} (l : List α) (n off : ℕ) : windows (l.drop off) n 0 = windows l n off := by
  unfold windows
  simp only [List.length_drop, Nat.sub_zero, zero_add, List.drop_drop]

theorem windows_map {α β : Type} (f : α → β) (l : List α) (n off : ℕ) :
    windows (l.map f) n off = (windows l n off).map (List.map f) := by
  unfold windows
  simp [List.map_drop, List.map_take]

/-- Number of pieces. -/
theorem ceil_div {d n : ℕ} (hn : 0 < n) (hd : 0 < d) : (d + n - 1) / n = d / n + if d % n = 0 then 0 else 1 := by
  have h := Nat.div_add_mod d n
  set q := d / n
  set r := d % n
  have hr : r < n := Nat.mod_lt _ hn
  split
  · rename_i h0
    have : d + n - 1 = (n - 1) + n * q := by omega
    rw [this, Nat.add_mul_div_left _ _ hn, Nat.div_eq_of_lt (by omega)]; omega
  · have : d + n - 1 = (r - 1) + n * (q + 1) := by rw [Nat.mul_add]; omega
    rw [this, Nat.add_mul_div_left _ _ hn, Nat.div_eq_of_lt (by omega)]; omega

theorem chunks_eq {α : Type} (l : List α) {n : ℕ} (hn : 0 < n) (hl : 0 < l.length) :
    chunks l n = windows l n 0 ++ if l.length % n = 0 then [] else [l.drop (l.length / n * n)] := by
  unfold chunks windows
  rw [ceil_div hn hl, Nat.sub_zero]
  split
  · simp
  · rename_i h
    rw [List.range_succ, List.map_append]
    simp only [zero_add, List.map_cons, List.map_nil]
    congr 2
    rw [List.take_of_length_le]
    rw [List.length_drop]
    have := Nat.div_add_mod l.length n
    have := Nat.mod_lt l.length hn
    rw [Nat.mul_comm]; omega

theorem window_length {α : Type} (l : List α) {n off k : ℕ} (hn : 0 < n) (h : k < (l.length - off) / n) :
    ((l.drop (off + k * n)).take n).length = n := by
  rw [List.length_take, List.length_drop]
  rw [Nat.lt_iff_add_one_le, Nat.le_div_iff_mul_le hn, Nat.add_mul, one_mul] at h
  omega

theorem getLastD_append_ne {α : Type} (p l : List α) (d : α) (h : l ≠ []) : (p ++ l).getLastD d = l.getLastD d := by
  rw [List.getLastD_eq_getLast?, List.getLastD_eq_getLast?, List.getLast?_append_of_ne_nil p h]

theorem dropLast_append_ne {α : Type} (p l : List α) (h : l ≠ []) : (p ++ l).dropLast = p ++ l.dropLast :=
  List.dropLast_append_of_ne_nil h

theorem popLast_chunks {α β : Type} (p : List (List α)) (q : List (List β)) (x : List α) (l : List β) {n : ℕ} (hn : 0 < n)
    (hx : x.length = l.length) (hl : n ≤ l.length) :
    popLast (p ++ chunks x n) (q ++ chunks l n) n = q ++ windows l n 0 := by
  unfold popLast
  rw [chunks_eq x hn (by omega), chunks_eq l hn (by omega), hx]
  by_cases h : l.length % n = 0
  · rw [if_pos h, if_pos h, List.append_nil, List.append_nil, if_neg]
    have hc : 0 < l.length / n := Nat.div_pos hl hn
    have hne : windows x n 0 ≠ [] := by
      rw [← List.length_pos_iff, windows_length, Nat.sub_zero, hx]; exact hc
    rw [getLastD_append_ne _ _ _ hne]
    unfold windows
    obtain ⟨c, hcc⟩ : ∃ c, (x.length - 0) / n = c + 1 := ⟨l.length / n - 1, by rw [Nat.sub_zero, hx]; omega⟩
    rw [hcc, List.range_succ, List.map_append]
    rw [getLastD_append_ne _ _ _ (by simp)]
    simp only [List.map_cons, List.map_nil, List.getLastD_cons, List.getLastD_nil]
    rw [window_length x hn (by omega)]
    simp
  · rw [if_neg h, if_neg h, if_pos]
    · rw [← List.append_assoc, List.dropLast_concat]
    · rw [← List.append_assoc, getLastD_append_ne _ _ _ (by simp)]
      simp only [List.getLastD_cons, List.getLastD_nil, List.length_drop]
      have := Nat.div_add_mod l.length n
      have := Nat.mod_lt l.length hn
      rw [Nat.mul_comm]; omega

theorem head_windows {α : Type} (l : List α) {n : ℕ} (hn : 0 < n) (hl : n ≤ l.length) : ((windows l n 0).headD []).length = n := by
  have hc : 0 < l.length / n := Nat.div_pos hl hn
  unfold windows
  obtain ⟨c, hcc⟩ : ∃ c, (l.length - 0) / n = c + 1 := ⟨l.length / n - 1, by rw [Nat.sub_zero]; omega⟩
  rw [hcc, List.range_succ_eq_map]
  simp only [List.map_cons, List.headD_cons]
  exact window_length l hn (by omega)

/-- After removing the incomplete pieces at both ends, the full windows are left. -/
theorem popEdges_windows {α β : Type} (x : List α) (l : List β) {n off : ℕ} (hx : x.length = l.length) (ho : off < n)
    (hl : 2 * n ≤ l.length) :
    popEdges (splitAt x 0 (cuts x.length n off)) (splitAt l 0 (cuts x.length n off)) n = windows l n off := by
  have hn : 0 < n := by omega
  have e2 := split_cuts l ho
  have e3 := split_cuts x ho
  rw [← hx, if_neg (by omega)] at e2
  rw [if_neg (by omega)] at e3
  unfold popEdges popFirst
  rw [e2, e3]
  by_cases h0 : off = 0
  · subst h0
    rw [if_pos rfl, if_pos rfl]
    have k1 := popLast_chunks [] [] x x hn rfl (by omega)
    have k2 := popLast_chunks [] [] x l hn hx (by omega)
    simp only [List.nil_append] at k1 k2
    rw [k1, k2, if_neg]
    rw [head_windows x hn (by omega)]; omega
  · rw [if_neg h0, if_neg h0]
    have k1 := popLast_chunks [x.take off] [x.take off] (x.drop off) (x.drop off) hn rfl (by rw [List.length_drop]; omega)
    have k2 := popLast_chunks [x.take off] [l.take off] (x.drop off) (l.drop off) hn (by rw [List.length_drop, List.length_drop, hx])
      (by rw [List.length_drop]; omega)
    simp only [List.singleton_append] at k1 k2
    rw [k1, k2, if_pos]
    · rw [List.tail_cons, windows_drop]
    · simp only [List.headD_cons, List.length_take]; omega

theorem popEdges_map {α β γ : Type} (x : List (List α)) (l : List β) (f : β → γ) (n : ℕ) :
    popEdges x (l.map f) n = (popEdges x l n).map f := by
  unfold popEdges popFirst popLast
  split <;> split <;> simp [List.map_dropLast, List.map_tail]

/-- C42: every window of `n` consecutive events is used by exactly one offset. -/
theorem C42_every_window_once {N n s : ℕ} (hn : 0 < n) (hs : s + n ≤ N) :
    ∃! p : ℕ × ℕ, p.1 < n ∧ p.2 < (N - p.1) / n ∧ p.1 + p.2 * n = s := by
  have h := Nat.div_add_mod s n
  have hr : s % n < n := Nat.mod_lt _ hn
  refine ⟨(s % n, s / n), ⟨hr, ?_, by rw [Nat.mul_comm] at h; simp only; omega⟩, ?_⟩
  · simp only
    rw [Nat.lt_iff_add_one_le, Nat.le_div_iff_mul_le hn, Nat.add_mul, one_mul, Nat.mul_comm]
    omega
  · rintro ⟨a, b⟩ ⟨h1, -, h3⟩
    simp only at h1 h3
    have e1 : s % n = a := by rw [← h3, Nat.add_mul_mod_self_right, Nat.mod_eq_of_lt h1]
    have e2 : s / n = b := by rw [← h3, Nat.add_mul_div_right _ _ hn, Nat.div_eq_of_lt h1, zero_add]
    rw [e1, e2]

/-! ### one offset -/

theorem splitAt_map {α β : Type} (f : α → β) (l : List α) (idx : List ℕ) : ∀ a, splitAt (l.map f) a idx = (splitAt l a idx).map (List.map f) := by
  induction idx with
  | nil => intro a; simp [splitAt, List.map_drop]
  | cons c r ih => intro a; simp [splitAt, List.map_drop, List.map_take, ih]

theorem mapM_ok_map {α β : Type} (f : α → Py β) (g : α → β) (l : List α) (h : ∀ x ∈ l, f x = .ok (g x)) :
    l.mapM f = .ok (l.map g) := by
  rw [mapM_ok_iff]
  induction l with
  | nil => exact .nil
  | cons a r ih => exact .cons (h a (by simp)) (ih fun x hx => h x (by simp [hx]))

theorem split_nonempty {α : Type} (l : List α) {n off : ℕ} (ho : off < n) (hl : n ≤ l.length) :
    ∀ p ∈ splitAt l 0 (cuts l.length n off), p ≠ [] := by
  have hn : 0 < n := by omega
  have hch : ∀ l' : List α, ∀ p ∈ chunks l' n, p ≠ [] := by
    intro l' p hp
    unfold chunks at hp
    rw [List.mem_map] at hp
    obtain ⟨k, hk, rfl⟩ := hp
    rw [List.mem_range, arange_count hn] at hk
    rw [← List.length_pos_iff, List.length_take, List.length_drop]
    omega
  rw [split_cuts l ho, if_neg (by omega)]
  split
  · exact hch l
  · rename_i h0
    intro p hp
    rcases List.mem_cons.1 hp with rfl | hp
    · rw [← List.length_pos_iff, List.length_take]; omega
    · exact hch _ p hp

theorem offsetOne_eq (warn : Bool) (m : Method) (kw : Kw) (δ : ℝ) {n minNum off : ℕ} (sel : List Ev) (ho : off < n)
    (hl : 2 * n ≤ sel.length) :
    ∃ top : List Ev → ℝ, (∀ w ≠ [], IsGreatest {c | ∃ e ∈ w, e.mc = c} (top w)) ∧
    offsetOne warn m kw δ n minNum (sel.map fun e => some e.mag) (sel.map Ev.time) (sel.map Ev.mc) off =
      (do let parts ← ((windows sel n off).map fun w => (⟨w.map fun e => some e.mag, w.map Ev.time, top w, .ok 1⟩ : PartIn)).mapM (partAlone m warn δ kw)
          offsetAc minNum parts) := by
  have hn : 0 < n := by omega
  let top : List Ev → ℝ := fun w => (amax? (w.map Ev.mc)).getD 0
  have htop : ∀ w ≠ [], maxOf (w.map Ev.mc) = .ok (top w) ∧ IsGreatest {c | ∃ e ∈ w, e.mc = c} (top w) := by
    intro w hw
    obtain ⟨v, hv⟩ := exists_amax (l := w.map Ev.mc) (by simpa using hw)
    have e : top w = v := by show (amax? _).getD 0 = v; rw [hv]; rfl
    refine ⟨by unfold maxOf; rw [hv, e], ?_⟩
    rw [e]
    rw [amax?_eq_some_iff] at hv
    simpa [List.mem_map] using hv
  refine ⟨top, fun w hw => (htop w hw).2, ?_⟩
  unfold offsetOne cutConstant
  rw [if_neg (by omega)]
  simp only [bind, Except.bind, List.length_map]
  set idx := cuts sel.length n off with hidx
  have e1 : (splitAt (sel.map Ev.mc) 0 idx).mapM maxOf = .ok ((splitAt sel 0 idx).map top) := by
    rw [splitAt_map, List.mapM_map]
    apply mapM_ok_map
    intro w hw
    exact (htop w (split_nonempty sel ho (by omega) w hw)).1
  rw [e1]
  simp only
  have E : ∀ {β : Type} (l : List β), l.length = sel.length →
      popEdges (splitAt (sel.map fun e => some e.mag) 0 idx) (splitAt l 0 idx) n = windows l n off := by
    intro β l h
    have := popEdges_windows (sel.map fun e => some e.mag) l (n := n) (off := off) (by simp [h]) ho (by omega)
    rw [List.length_map] at this
    exact this
  rw [popEdges_map, E _ (by simp), E _ (by simp), E _ rfl, windows_map, windows_map]
  rw [values_eq (mcs := (windows sel n off).map top) (by simp) (by unfold Mc.expand; simp)]
  have : partIns ((windows sel n off).map (List.map fun e => some e.mag)) ((windows sel n off).map (List.map Ev.time))
      ((windows sel n off).map top) none =
      (windows sel n off).map fun w => (⟨w.map fun e => some e.mag, w.map Ev.time, top w, .ok 1⟩ : PartIn) := by
    unfold partIns scalingAt
    apply List.ext_getElem
    · simp
    · intro i h1 h2
      simp at h1 h2
      simp [h1, List.getD_eq_getElem?_getD]
  rw [this]

/-- The counts agree. -/
theorem countP_filter_length {α : Type} (l : List α) (p : α → Bool) : l.countP p = (l.filter p).length :=
  List.countP_eq_length_filter

theorem offset_spec {warn : Bool} {a : BSignificant.Args} {off : ℕ} {sel : List Ev} (ho : off < a.nm)
    (hl : 2 * a.nm ≤ sel.length) {o : OffsetRes}
    (h : offsetOne warn a.method a.kw a.δ a.nm a.minNum (sel.map fun e => some e.mag) (sel.map Ev.time) (sel.map Ev.mc) off = .ok o) :
    IsOffset a warn sel off o := by
  obtain ⟨top, htop, he⟩ := offsetOne_eq warn a.method a.kw a.δ (minNum := a.minNum) sel ho hl
  have hn : 0 < a.nm := by omega
  rw [he] at h
  cases hp : (((windows sel a.nm off).map fun w => (⟨w.map fun e => some e.mag, w.map Ev.time, top w, .ok 1⟩ : PartIn)).mapM
      (partAlone a.method warn a.δ a.kw) : Py (List Part)) with
  | error e => rw [hp] at h; cases h
  | ok parts =>
    rw [hp] at h
    simp only [bind, Except.bind] at h
    rw [mapM_ok_iff, List.forall₂_map_left_iff] at hp
    have hlen := hp.length_eq
    rw [windows_length] at hlen
    refine ⟨parts, hlen.symm, ?_, ?_, ?_⟩
    · intro k p hk
      have hk2 : k < (sel.length - off) / a.nm := by rw [hlen]; exact (List.getElem?_eq_some_iff.1 hk).1
      have hw : (windows sel a.nm off)[k]? = some ((sel.drop (off + k * a.nm)).take a.nm) := by
        unfold windows
        rw [List.getElem?_map, List.getElem?_range hk2]; rfl
      set w := (sel.drop (off + k * a.nm)).take a.nm with hwd
      have hwl : w.length = a.nm := window_length sel hn hk2
      have := List.forall₂_iff_get.1 hp
      obtain ⟨i1, i2⟩ := List.getElem?_eq_some_iff.1 hw
      obtain ⟨j1, j2⟩ := List.getElem?_eq_some_iff.1 hk
      have g := this.2 k i1 j1
      rw [List.get_eq_getElem, List.get_eq_getElem, i2, j2] at g
      refine ⟨top w, htop w ?_, partAlone_isPart (fun v hv => by cases hv; rfl) g⟩
      intro h0
      rw [h0] at hwl
      simp at hwl; omega
    · intro h3
      unfold offsetAc at h
      rw [countP_filter_length, if_pos h3] at h
      cases h; rfl
    · intro h3
      unfold offsetAc at h
      rw [countP_filter_length, if_neg (by omega)] at h
      have e : parts.map (dropSmall a.minNum) = parts.map fun p => if a.minNum ≤ p.n then p.value else .nan := by
        apply List.map_congr_left
        intro p _
        unfold dropSmall
        by_cases h : p.n < a.minNum
        · rw [if_pos h, if_neg (by omega)]
        · rw [if_neg h, if_pos (by omega)]
      rw [e] at h
      cases hm : morans (parts.map fun p => if a.minNum ≤ p.n then p.value else .nan) none none with
      | error e => rw [hm] at h; cases h
      | ok r =>
        rw [hm] at h
        cases h
        exact ⟨r, rfl, rfl⟩

/-! ### the average of the offsets -/

theorem ratio_not_inf (n : ℕ) (np ac ac0 : ℝ) (h : ac0 = 0 → ac = 0) : isInf (ratio n np ac ac0) = false := by
  unfold ratio
  split
  · rename_i r _
    unfold Fl.div
    split
    · rename_i h0
      rw [h h0, mul_zero, if_pos rfl]; rfl
    · rfl
  · rfl

theorem morans_not_inf {x : List (Fl ℝ)} {w : Option Mat} {mean : Option ℝ} {r : Moran} (h : morans x w mean = .ok r) :
    isInf r.ac = false := by
  unfold morans at h
  split at h
  · cases h
  cases hn : neighbours x.length w with
  | error e => rw [hn] at h; cases h
  | ok u =>
    rw [hn] at h
    cases h
    simp only
    split
    · rfl
    · apply ratio_not_inf
      intro h0
      have hz : ∀ i ∈ Finset.range x.length, dev x (meanOf x mean) i = 0 := by
        have := (Finset.sum_eq_zero_iff_of_nonneg (fun i _ => mul_self_nonneg (dev x (meanOf x mean) i))).1 h0
        intro i hi
        exact mul_self_eq_zero.1 (this i hi)
      apply Finset.sum_eq_zero
      intro i hi
      apply Finset.sum_eq_zero
      intro j _
      rw [hz i hi]; ring

theorem nanmean_avg {l : List (Fl ℝ)} (h : ∀ v ∈ l, isInf v = false) : nanmean l = avg l := by
  unfold nanmean avg finite
  have : l.any isInf = false := by
    rw [List.any_eq_false]
    intro v hv; rw [h v hv]; simp
  rw [this]
  simp only [Bool.false_eq_true, if_false]
  unfold Fl.div
  by_cases h0 : l.filterMap Fl.val? = []
  · rw [h0]; simp
  · rw [if_neg h0, if_neg]
    have := List.length_pos_iff.2 h0
    exact_mod_cast this.ne'

theorem isOffset_not_inf {a : BSignificant.Args} {warn : Bool} {sel : List Ev} {off : ℕ} {o : OffsetRes}
    (h : IsOffset a warn sel off o) : isInf o.ac = false ∧ isInf o.n = false ∧ isInf o.np = false := by
  obtain ⟨parts, -, -, h1, h2⟩ := h
  by_cases h3 : (parts.filter fun p => a.minNum ≤ p.n).length < 3
  · rw [h1 h3]; exact ⟨rfl, rfl, rfl⟩
  · obtain ⟨r, hr, rfl⟩ := h2 (by omega)
    exact ⟨morans_not_inf hr, rfl, rfl⟩

/-- The four returned numbers from the values at the offsets. -/
def IsResult (Φ : ℝ → ℝ) (a : BSignificant.Args) (res : List OffsetRes) (r : BSignificant.Result) : Prop :=
  ((∃ np, avg (res.map OffsetRes.np) = .fin np ∧ 2 < np ∧
      r.mac = avg (res.map OffsetRes.ac) ∧
      (∃ n, avg (res.map OffsetRes.n) = .fin n ∧ 0 < n ∧ r.mu = .fin (-1 / n) ∧
        r.std = .fin ((np - 2) / (np * Real.sqrt np) * if a.conservative then 1 else 81 / 100) ∧
        r.p = match r.mac with
          | .fin x => .fin (1 - Φ ((x + 1 / n) / ((np - 2) / (np * Real.sqrt np) * if a.conservative then 1 else 81 / 100)))
          | _ => .nan)) ∨
    ((∀ np, avg (res.map OffsetRes.np) = .fin np → np ≤ 2) ∧ r = ⟨.nan, .nan, .nan, .nan⟩))

theorem np_zero {x : List (Fl ℝ)} {r : Moran} (h : morans x none none = .ok r) (h0 : r.n = 0) : r.np = 0 := by
  unfold morans at h
  split at h
  · cases h
  cases hn : neighbours x.length none with
  | error e => rw [hn] at h; cases h
  | ok u =>
    rw [hn] at h
    cases h
    simp only at h0 ⊢
    apply Finset.sum_eq_zero
    intro i hi
    apply Finset.sum_eq_zero
    intro j _
    rw [List.countP_eq_zero] at h0
    unfold maskPairs
    rw [Finset.mem_range] at hi
    have : valid (x.getD i .nan) = false := by
      have := h0 (x.getD i .nan) (by rw [List.getD_eq_getElem?_getD, List.getElem?_eq_getElem hi]; exact List.getElem_mem hi)
      simpa using this
    rw [this]; rfl

/-- Each offset gives three NaN, or two numbers. -/
def Tame (o : OffsetRes) : Prop :=
  (o.n = .nan ∧ o.np = .nan) ∨ ∃ m v : ℝ, o.n = .fin m ∧ o.np = .fin v ∧ 0 ≤ m ∧ (m = 0 → v = 0)

theorem isOffset_tame {a : BSignificant.Args} {warn : Bool} {sel : List Ev} {off : ℕ} {o : OffsetRes}
    (h : IsOffset a warn sel off o) : Tame o := by
  obtain ⟨parts, -, -, h1, h2⟩ := h
  by_cases h3 : (parts.filter fun p => a.minNum ≤ p.n).length < 3
  · rw [h1 h3]; exact Or.inl ⟨rfl, rfl⟩
  · obtain ⟨r, hr, rfl⟩ := h2 (by omega)
    refine Or.inr ⟨r.n, r.np, rfl, rfl, Nat.cast_nonneg _, fun h => np_zero hr (by exact_mod_cast h)⟩

theorem tame_sums (res : List OffsetRes) (h : ∀ o ∈ res, Tame o) :
    ((res.map OffsetRes.n).filterMap Fl.val?).length = ((res.map OffsetRes.np).filterMap Fl.val?).length ∧
    0 ≤ ((res.map OffsetRes.n).filterMap Fl.val?).sum ∧
    (((res.map OffsetRes.n).filterMap Fl.val?).sum = 0 → ((res.map OffsetRes.np).filterMap Fl.val?).sum = 0) := by
  induction res with
  | nil => simp
  | cons o res ih =>
    obtain ⟨i1, i2, i3⟩ := ih fun o ho => h o (by simp [ho])
    rcases h o (by simp) with ⟨h1, h2⟩ | ⟨m, v, h1, h2, h3, h4⟩
    · simp only [List.map_cons, h1, h2, List.filterMap_cons, Fl.val?]
      exact ⟨i1, i2, i3⟩
    · simp only [List.map_cons, h1, h2, List.filterMap_cons, Fl.val?, List.length_cons, List.sum_cons]
      refine ⟨by rw [i1], by linarith, fun h => ?_⟩
      have : m = 0 := by linarith
      rw [h4 this, i3 (by linarith), add_zero]

theorem macOf_spec {res : List OffsetRes} (Φ : ℝ → ℝ) (a : BSignificant.Args)
    (hi : ∀ o ∈ res, isInf o.ac = false ∧ isInf o.n = false ∧ isInf o.np = false) (ht : ∀ o ∈ res, Tame o) :
    IsResult Φ a res
      ⟨pOf Φ (macOf res).1 (macOf res).2.1 (if a.conservative then (macOf res).2.2 else (macOf res).2.2.mapFin (· * (81 / 100))),
        (macOf res).1, (macOf res).2.1, if a.conservative then (macOf res).2.2 else (macOf res).2.2.mapFin (· * (81 / 100))⟩ := by
  have e1 : nanmean (res.map OffsetRes.np) = avg (res.map OffsetRes.np) := nanmean_avg (by
    intro v hv; rw [List.mem_map] at hv; obtain ⟨o, ho, rfl⟩ := hv; exact (hi o ho).2.2)
  have e2 : nanmean (res.map OffsetRes.n) = avg (res.map OffsetRes.n) := nanmean_avg (by
    intro v hv; rw [List.mem_map] at hv; obtain ⟨o, ho, rfl⟩ := hv; exact (hi o ho).2.1)
  have e3 : nanmean (res.map OffsetRes.ac) = avg (res.map OffsetRes.ac) := nanmean_avg (by
    intro v hv; rw [List.mem_map] at hv; obtain ⟨o, ho, rfl⟩ := hv; exact (hi o ho).1)
  obtain ⟨s1, s2, s3⟩ := tame_sums res ht
  unfold macOf
  rw [e1]
  by_cases hz : (res.map OffsetRes.np).filterMap Fl.val? = []
  · have : avg (res.map OffsetRes.np) = .nan := by unfold avg; rw [if_pos hz]
    rw [this]
    refine Or.inr ⟨fun np hnp => (by rw [this] at hnp; cases hnp), ?_⟩
    simp [pOf, Fl.mapFin]
  · set np := ((res.map OffsetRes.np).filterMap Fl.val?).sum / ((res.map OffsetRes.np).filterMap Fl.val?).length with hnp
    have hav : avg (res.map OffsetRes.np) = .fin np := by unfold avg; rw [if_neg hz]
    rw [hav]
    by_cases h2 : 2 < np
    · simp only [h2, if_true]
      have hlen : (0 : ℝ) < ((res.map OffsetRes.np).filterMap Fl.val?).length := by
        exact_mod_cast List.length_pos_iff.2 hz
      have hz' : (res.map OffsetRes.n).filterMap Fl.val? ≠ [] := by
        rw [← List.length_pos_iff, s1]; exact List.length_pos_iff.2 hz
      have hsum : 0 < ((res.map OffsetRes.n).filterMap Fl.val?).sum := by
        rcases s2.lt_or_eq with h | h
        · exact h
        · rw [hnp, s3 h.symm, zero_div] at h2; linarith
      set n := ((res.map OffsetRes.n).filterMap Fl.val?).sum / ((res.map OffsetRes.n).filterMap Fl.val?).length with hn
      have hnpos : 0 < n := by rw [hn, s1]; exact div_pos hsum hlen
      have hav2 : avg (res.map OffsetRes.n) = .fin n := by unfold avg; rw [if_neg hz']
      have hd : Fl.div (-1) n = .fin (-1 / n) := by unfold Fl.div; rw [if_neg hnpos.ne']
      refine Or.inl ⟨np, hav, h2, ?_, n, hav2, hnpos, ?_, ?_, ?_⟩
      · simp only [e3]
      · simp only [e2, hav2, hd]
      · cases a.conservative <;> simp [Fl.mapFin]
      · simp only [e2, e3, hav2, hd]
        have hx : ∀ x, x - -1 / n = x + 1 / n := fun x => by ring
        cases avg (res.map OffsetRes.ac) <;> cases a.conservative <;>
          simp only [Bool.false_eq_true, if_false, if_true, Fl.mapFin, pOf, mul_one, Fl.fin.injEq, hx]
    · simp only [h2, if_false]
      refine Or.inr ⟨fun q hq => by rw [hav] at hq; cases hq; exact not_lt.1 h2, ?_⟩
      simp [pOf, Fl.mapFin]

/-! ### selection -/

/-- The number of events and of completeness magnitudes agree. -/
def mcLength (a : BSignificant.Args) : Prop :=
  match a.mc with
  | .one _ => True
  | .many l => l.length = a.mags.length

theorem perEvent_eq {a : BSignificant.Args} {n : ℕ} (h : (a.mc.perEvent n).length = n) :
    a.mc.perEvent n = (List.range n).map (mcAt a.mc) := by
  unfold Mc.perEvent mcAt at *
  cases hm : a.mc with
  | one m => simp [hm]
  | many l =>
    rw [hm] at h
    simp only at h ⊢
    rw [← h]
    exact (map_getD_range l 0).symm

theorem orderBy_spec {x : Option (List ℝ)} {mags : List (Option ℝ)} {times : List ℝ} {m : List (Option ℝ)} {t : List ℝ}
    (hl : mags.length = times.length) (h : orderBy x mags times = .ok (m, t)) :
    ∃ order, IsOrder x mags.length order ∧ m = (List.range mags.length).map (fun k => mags.getD (order.getD k 0) none) ∧
      t = (List.range mags.length).map fun k => times.getD (order.getD k 0) 0 := by
  unfold orderBy at h
  cases x with
  | none =>
    cases h
    refine ⟨List.range mags.length, ⟨List.Perm.refl _, rfl⟩, ?_, ?_⟩
    · conv_lhs => rw [← map_getD_range mags none]
      apply List.map_congr_left
      intro k hk
      rw [List.mem_range] at hk
      simp [List.getD_eq_getElem?_getD, hk]
    · conv_lhs => rw [← map_getD_range times 0, ← hl]
      apply List.map_congr_left
      intro k hk
      rw [List.mem_range] at hk
      simp [List.getD_eq_getElem?_getD, hk]
  | some x =>
    simp only at h
    split at h
    · cases h
    · rename_i hx
      rw [not_not] at hx
      cases h
      have hlen : (argsort x).length = mags.length := by rw [argsort_length, hx]
      have hmap : ∀ {α : Type} (f : ℕ → α), (argsort x).map f = (List.range mags.length).map fun k => f ((argsort x).getD k 0) := by
        intro α f
        conv_lhs => rw [← map_getD_range (argsort x) 0, hlen, List.map_map]
        rfl
      refine ⟨argsort x, ⟨by rw [← hx]; exact argsort_perm x, hx, ?_⟩, ?_, ?_⟩
      · have := argsort_sorted x
        rw [List.pairwise_map]; exact this
      · exact hmap _
      · exact hmap _

theorem selection_eq (a : BSignificant.Args) (order : List ℕ) :
    let m := (List.range a.mags.length).map fun k => a.mags.getD (order.getD k 0) none
    let t := (List.range a.mags.length).map fun k => a.times.getD (order.getD k 0) 0
    let c := (List.range a.mags.length).map (mcAt a.mc)
    mask m (keep m c a.δ) = (selectedEvents a order).map (fun e => some e.mag) ∧
    mask t (keep m c a.δ) = (selectedEvents a order).map Ev.time ∧
    mask c (keep m c a.δ) = (selectedEvents a order).map Ev.mc := by
  intro m t c
  have hk : keep m c a.δ = (List.range a.mags.length).map fun k => (pick a order k).isSome := by
    unfold keep
    rw [List.zipWith_map]
    rw [List.zipWith_self]
    apply List.map_congr_left
    intro k _
    unfold pick
    cases a.mags.getD (order.getD k 0) none with
    | none => rfl
    | some v => by_cases h : mcAt a.mc k - a.δ / 2 ≤ v <;> simp [h]
  rw [hk]
  have key : ∀ {α : Type} (f : ℕ → α) (g : Ev → α), (∀ k e, pick a order k = some e → f k = g e) →
      mask ((List.range a.mags.length).map f) ((List.range a.mags.length).map fun k => (pick a order k).isSome) =
        (selectedEvents a order).map g := by
    intro α f g hfg
    rw [mask_map]
    unfold selectedEvents
    induction List.range a.mags.length with
    | nil => rfl
    | cons k l ih =>
      cases hp : pick a order k with
      | none => simp [hp, ih]
      | some e => simp [hp, ih, hfg k e hp]
  refine ⟨key _ _ ?_, key _ _ ?_, key _ _ ?_⟩
  all_goals
    intro k e he
    unfold pick at he
    cases hm : a.mags.getD (order.getD k 0) none with
    | none => rw [hm] at he; cases he
    | some v =>
      rw [hm] at he
      simp only at he
      split at he
      · cases he; rfl
      · cases he

/-! ## C42 -/

/-- C42: a call that returns has selected the events at or above completeness in the order of `x_variable`;
with fewer than three times `n_m` of them it returns NaN; otherwise the values are those of the `n_m`
offsets, each using exactly the full windows of `n_m` consecutive selected events, and are averaged over
the offsets. -/
theorem C42_windows {Φ : ℝ → ℝ} {warn : Bool} {a : BSignificant.Args} {r : BSignificant.Result} (h : bSignificant Φ warn a = .ok r) :
    a.times.length = a.mags.length ∧ 0 < a.nm ∧ a.minNum ≤ a.nm ∧ mcLength a ∧
    ∃ order, IsOrder a.x a.mags.length order ∧
      ((selectedEvents a order).length < 3 * a.nm → r = ⟨.nan, .nan, .nan, .nan⟩) ∧
      (3 * a.nm ≤ (selectedEvents a order).length →
        ∃ res : List OffsetRes, res.length = a.nm ∧
          (∀ (off : ℕ) (o : OffsetRes), res[off]? = some o → IsOffset a warn (selectedEvents a order) off o) ∧
          IsResult Φ a res r) := by
  unfold bSignificant at h
  split at h
  · cases h
  rename_i hl
  rw [not_not] at hl
  split at h
  · cases h
  rename_i hmin
  cases ho : orderBy a.x a.mags a.times with
  | error e => rw [ho] at h; cases h
  | ok p =>
    obtain ⟨m, t⟩ := p
    rw [ho] at h
    obtain ⟨order, hord, hm, ht⟩ := orderBy_spec hl ho
    have hml : m.length = a.mags.length := by rw [hm]; simp
    simp only [bind, Except.bind, hml] at h
    by_cases hc : (a.mc.perEvent a.mags.length).length = a.mags.length
    swap
    · rw [if_pos hc] at h; cases h
    rw [if_neg (by rw [hc]; simp)] at h
    simp only [pure, Except.pure] at h
    by_cases h0 : a.nm = 0
    · rw [if_pos h0] at h; cases h
    rw [if_neg h0] at h
    have hpe := perEvent_eq hc
    rw [hpe] at h
    obtain ⟨k1, k2, k3⟩ := selection_eq a order
    rw [← hm] at k1 k2 k3
    rw [← ht] at k2
    rw [k1, k2, k3, List.length_map] at h
    refine ⟨hl.symm, Nat.pos_of_ne_zero h0, by omega, ?_, order, hord, ?_, ?_⟩
    · unfold mcLength
      unfold Mc.perEvent at hc
      cases hmc : a.mc with
      | one v => trivial
      | many l => rw [hmc] at hc; exact hc
    · intro h3
      rw [if_pos h3] at h
      cases h; rfl
    · intro h3
      rw [if_neg (by omega)] at h
      unfold significant at h
      simp only [bind, Except.bind] at h
      split at h
      · cases h
      rename_i res hres
      cases h
      rw [mapM_ok_iff] at hres
      have hlen := hres.length_eq
      rw [List.length_range] at hlen
      have hoff : ∀ (off : ℕ) (o : OffsetRes), res[off]? = some o → IsOffset a warn (selectedEvents a order) off o := by
        intro off o hoo
        obtain ⟨j1, j2⟩ := List.getElem?_eq_some_iff.1 hoo
        have g := (List.forall₂_iff_get.1 hres).2 off (by rw [List.length_range]; omega) j1
        rw [List.get_eq_getElem, List.get_eq_getElem, List.getElem_range, j2] at g
        exact offset_spec (by omega) (by omega) g
      refine ⟨res, hlen.symm, hoff, ?_⟩
      apply macOf_spec
      · intro o hoo
        obtain ⟨i, hi⟩ := List.getElem?_of_mem hoo
        exact isOffset_not_inf (hoff i o hi)
      · intro o hoo
        obtain ⟨i, hi⟩ := List.getElem?_of_mem hoo
        exact isOffset_tame (hoff i o hi)

/-- C42: the p-value is a probability, and with a p-value all numbers are finite and the deviation is
positive. -/
theorem C42_p_value {Φ : ℝ → ℝ} (hΦ : ∀ x, 0 ≤ Φ x ∧ Φ x ≤ 1) {warn : Bool} {a : BSignificant.Args} {r : BSignificant.Result}
    (h : bSignificant Φ warn a = .ok r) :
    r.p = .nan ∨ ∃ p mac mu sd, r = ⟨.fin p, .fin mac, .fin mu, .fin sd⟩ ∧ 0 ≤ p ∧ p ≤ 1 ∧ 0 < sd ∧ mu < 0 := by
  obtain ⟨-, -, -, -, order, -, h1, h2⟩ := C42_windows h
  by_cases h3 : (selectedEvents a order).length < 3 * a.nm
  · rw [h1 h3]; exact Or.inl rfl
  · obtain ⟨res, -, -, hres⟩ := h2 (by omega)
    rcases hres with ⟨np, -, hnp, hmac, n, -, hn, hmu, hstd, hp⟩ | ⟨-, rfl⟩
    · have hnp0 : 0 < np := by linarith
      cases hm : r.mac with
      | fin x =>
        rw [hm] at hp
        right
        simp only at hp
        refine ⟨_, x, -1 / n, (np - 2) / (np * Real.sqrt np) * if a.conservative then 1 else 81 / 100,
          (show r = ⟨r.p, r.mac, r.mu, r.std⟩ from rfl).trans (by rw [hp, hm, hmu, hstd]), ?_, ?_, ?_, ?_⟩
        · exact sub_nonneg.2 (hΦ _).2
        · exact sub_le_self _ (hΦ _).1
        · apply mul_pos
          · exact div_pos (by linarith) (mul_pos hnp0 (Real.sqrt_pos.2 hnp0))
          · split <;> norm_num
        · exact div_neg_of_neg_of_pos (by norm_num) hn
      | nan => rw [hm] at hp; exact Or.inl hp
      | pinf => rw [hm] at hp; exact Or.inl hp
      | ninf => rw [hm] at hp; exact Or.inl hp
    · exact Or.inl rfl

/-- C42: giving `x_variable` is the same as sorting magnitudes and times by it beforehand, with `mc` as it
is. So one completeness magnitude for all events is treated rightly; a list of them is not reordered with
the events. -/
theorem C42_x_variable (Φ : ℝ → ℝ) (warn : Bool) (a : BSignificant.Args) (x : List ℝ) (hx : x.length = a.mags.length)
    (ht : a.times.length = a.mags.length) :
    bSignificant Φ warn { a with x := some x } =
      bSignificant Φ warn { a with x := none, mags := (argsort x).map (fun i => a.mags.getD i none), times := (argsort x).map fun i => a.times.getD i 0 } := by
  have hlen : (argsort x).length = a.mags.length := by rw [argsort_length, hx]
  unfold bSignificant
  simp only [List.length_map, hlen, ht, ne_eq, not_true, if_false]
  have : orderBy (some x) a.mags a.times = .ok ((argsort x).map (fun i => a.mags.getD i none), (argsort x).map fun i => a.times.getD i 0) := by
    unfold orderBy
    simp only
    rw [if_neg (by rw [hx]; simp)]
    rfl
  rw [this]
  rfl

/-! ### examples and the finding -/

/-- One magnitude alone can be estimated. -/
theorem single_part (v t : ℝ) : ∃ p, partAlone (.b .classic) false 1 {} ⟨[some v], [t], v, .ok 1⟩ = .ok p ∧ p.n = 1 := by
  have hs : argsort [t] = [0] := by
    unfold argsort
    simp [List.range_succ, List.insertionSort, List.orderedInsert]
  unfold partAlone partStep
  have hf : Kw.fits {} (.b .classic) = true := rfl
  simp only [hs, Method.new, partOne, partB, hf, if_true]
  rw [gather_getD _ none _ (by simp), gather_getD _ 0 _ (by simp)]
  have hA : Accepted { mags := [some v], mc := v, δ := 1 } := by
    refine ⟨Or.inr ?_, fun w hw => by cases hw⟩
    have := C08_grid_accepted (K := ℝ) [some 0] v 1 (1 / 10 ^ 15) (by norm_num) (by norm_num) ⟨0, by simp⟩
    simpa using this
  have hk := BValue.calculate_classic_valid (Or.inl rfl) false BValue.State.init _ ((accepted_iff _).1 hA) rfl
  have hu : BValue.used { mags := [some v], mc := v, δ := 1 } = [(v, (1 : ℝ))] := by
    simp [BValue.used, BValue.effW, Spec.selected]
  have hr := result_of_total (c := .classic) (a := { mags := [some v], mc := v, δ := 1 }) (by rw [hu]; norm_num [Spec.total])
  rw [hr] at hk
  have e : ([0] : List ℕ).map (fun i => ([some v] : List (Option ℝ)).getD i none) = [some v] := rfl
  simp only [e, List.length_cons, List.length_nil]
  rw [hk]
  have hn : BValue.nums (some ([(v, (1 : ℝ))].map fun q => some q.1)) = [v] := by simp [BValue.nums]
  simp only [BValue.store, BValue.usedState, hu, BValue.State.bValue, BValue.stdOf, BValue.State.std, BValue.State.n, hn]
  simp [BValue.shiBolt, average, bind, Except.bind, pure, Except.pure]

/-- The hypotheses of C42 are met by a call that goes through the windows: three events, windows of one. -/
example (Φ : ℝ → ℝ) : ∃ r, bSignificant Φ false { mags := [some 1, some 2, some 3], mc := .many [1, 2, 3], δ := 1, times := [0, 1, 2], nm := 1, minNum := 1 } = .ok r ∧
    ∃ order, IsOrder none 3 order ∧ 3 ≤ (selectedEvents { mags := [some 1, some 2, some 3], mc := .many [1, 2, 3], δ := 1, times := [0, 1, 2], nm := 1, minNum := 1 } order).length := by
  obtain ⟨p1, h1, g1⟩ := single_part 1 0
  obtain ⟨p2, h2, g2⟩ := single_part 2 1
  obtain ⟨p3, h3, g3⟩ := single_part 3 2
  have hsel : selectedEvents { mags := [some 1, some 2, some 3], mc := .many [1, 2, 3], δ := 1, times := [0, 1, 2], nm := 1, minNum := 1 } [0, 1, 2] =
      [⟨1, 0, 1⟩, ⟨2, 1, 2⟩, ⟨3, 2, 3⟩] := by
    simp [selectedEvents, pick, mcAt, List.range_succ]
  set a : BSignificant.Args := { mags := [some 1, some 2, some 3], mc := .many [1, 2, 3], δ := 1, times := [0, 1, 2], nm := 1, minNum := 1 } with ha
  have hw : windows [(⟨1, 0, 1⟩ : Ev), ⟨2, 1, 2⟩, ⟨3, 2, 3⟩] 1 0 = [[⟨1, 0, 1⟩], [⟨2, 1, 2⟩], [⟨3, 2, 3⟩]] := rfl
  obtain ⟨top, ht, hoff⟩ := offsetOne_eq false (.b .classic) {} 1 (n := 1) (minNum := 1) (off := 0)
    [(⟨1, 0, 1⟩ : Ev), ⟨2, 1, 2⟩, ⟨3, 2, 3⟩] (by norm_num) (by norm_num)
  have htop : ∀ e : Ev, top [e] = e.mc := by
    intro e
    obtain ⟨⟨e', he', h⟩, -⟩ := ht [e] (by simp)
    rw [List.mem_singleton] at he'
    rw [← h, he']
  obtain ⟨rm, hrm⟩ := (C39_raises ([p1, p2, p3].map (dropSmall 1)) none none).2 ⟨by simp, fun m hm => by cases hm⟩
  have hone : ∃ o, offsetOne false (.b .classic) {} 1 1 1 [some 1, some 2, some 3] [0, 1, 2] [1, 2, 3] 0 = .ok o := by
    refine ⟨⟨rm.ac, .fin rm.n, .fin rm.np⟩, ?_⟩
    refine Eq.trans hoff ?_
    rw [hw]
    simp only [List.map_cons, List.map_nil, htop, List.mapM_cons, List.mapM_nil, h1, h2, h3, bind, Except.bind, pure, Except.pure]
    unfold offsetAc
    rw [if_neg (by simp [g1, g2, g3]), hrm]
    rfl
  obtain ⟨o, ho⟩ := hone
  have hres : ∃ r, bSignificant Φ false a = .ok r := by
    unfold bSignificant
    have hk : keep [some 1, some 2, some 3] [1, 2, 3] 1 = [true, true, true] := by simp [keep]
    rw [ha]
    simp only [orderBy, Mc.perEvent, bind, Except.bind, pure, Except.pure, List.length_cons, List.length_nil, hk]
    simp only [mask, List.zip_cons_cons, List.zip_nil_left, List.filterMap_cons, List.filterMap_nil, if_true, List.length_cons, List.length_nil]
    norm_num
    unfold significant
    simp only [List.range_succ, List.range_zero, List.nil_append, List.mapM_cons, List.mapM_nil, ho, bind, Except.bind, pure, Except.pure]
    exact ⟨_, rfl⟩
  obtain ⟨r, hr⟩ := hres
  exact ⟨r, hr, [0, 1, 2], ⟨by simp [List.range_succ], by simp [List.range_succ]⟩, by rw [hsel]; simp⟩

/-- A finding about C42: with `x_variable` given, a list `mc` keeps its order while the events are
reordered. Here sorting events and `mc` by hand beforehand selects all three events (and the estimate then
raises, as no b-value is given), with `x_variable` only two are selected and the result is NaN. -/
theorem C42_mc_not_reordered (Φ : ℝ → ℝ) :
    bSignificant Φ false { mags := [some 3, some 2, some 1], mc := .many [3, 2, 1], δ := 0, times := [0, 1, 2], nm := 1, minNum := 1, method := .a .morePositive, x := some [2, 1, 0] } = .ok ⟨.nan, .nan, .nan, .nan⟩ ∧
    ∀ r, bSignificant Φ false { mags := [some 1, some 2, some 3], mc := .many [1, 2, 3], δ := 0, times := [2, 1, 0], nm := 1, minNum := 1, method := .a .morePositive } ≠ .ok r := by
  constructor
  · have hs : argsort [(2 : ℝ), 1, 0] = [2, 1, 0] := by
      unfold argsort
      have h10 : ¬ ((1 : ℝ) ≤ 0) := by norm_num
      simp [List.range_succ, List.insertionSort, List.orderedInsert, h10]
    have hk : keep [some 1, some 2, some 3] [3, 2, 1] 0 = [false, true, true] := by
      simp [keep]
    unfold bSignificant
    simp [orderBy, hs, BValue.take', Mc.perEvent, bind, Except.bind, pure, Except.pure, hk, mask]
  · intro r h
    obtain ⟨-, -, -, -, order, hord, -, h2⟩ := C42_windows h
    have ho : order = [0, 1, 2] := hord.2
    subst ho
    have hsel : selectedEvents { mags := [some 1, some 2, some 3], mc := .many [1, 2, 3], δ := 0, times := [2, 1, 0], nm := 1, minNum := 1, method := .a .morePositive } [0, 1, 2] =
        [⟨1, 2, 1⟩, ⟨2, 1, 2⟩, ⟨3, 0, 3⟩] := by
      simp [selectedEvents, pick, mcAt, List.range_succ]
    rw [hsel] at h2
    obtain ⟨res, hlen, hres, -⟩ := h2 (by simp)
    simp only at hlen
    obtain ⟨o, rfl⟩ := List.length_eq_one_iff.1 hlen
    obtain ⟨parts, hpl, hp, -⟩ := hres 0 o rfl
    have hpl' : parts.length = 3 := hpl
    obtain ⟨top, -, hp0⟩ := hp 0 parts[0] (List.getElem?_eq_getElem _)
    rcases hp0 with ⟨h0, -⟩ | ⟨-, o', -, -, -, -, s, v, hc, -⟩
    · simp at h0
    · obtain ⟨b, -, -, -, hb, -⟩ := C31_rate hc
      cases hb

end
end SeismoStats.Props
