/-
Property C55: cells of rate grids.
-/
import Verif.Proofs.RateGrid
import Verif.Proofs.Py
import Verif.Props.BSignificant
import Mathlib.Tactic.FinCases

namespace SeismoStats.Props
open SeismoStats
open SeismoStats.RateGrid (Grid Row bounds boundCols requiredCols construct addTimeIndex relabel uniqueInverse setTimes renumber reindex
  withTimes finalize widen commonNames stack pdConcat level minTime maxTime later)
open SeismoStats.Catalog (Val hasCols)
open Classical

/-- Specification: `ids` are numbers of the rows with bounds `b`. Rows with the same complete bounds have the same number, the numbers
are in the order of the bounds, and are 0, 1, ... without gaps. -/
structure Numbering (b : List (List (WithTop ℝ))) (ids : List ℕ) : Prop where
  length : ids.length = b.length
  same : ∀ i j, i < b.length → j < b.length → b.getD i [] = b.getD j [] → ⊤ ∉ b.getD i [] → ids.getD i 0 = ids.getD j 0
  order : ∀ i j, i < b.length → j < b.length → b.getD i [] < b.getD j [] → ids.getD i 0 < ids.getD j 0
  noGap : ∀ i k, i < b.length → k ≤ ids.getD i 0 → ∃ j < b.length, ids.getD j 0 = k

theorem numbering_unique (b : List (List (WithTop ℝ))) : Numbering b (uniqueInverse b) where
  length := RateGrid.uniqueInverse_length b
  same i j hi hj h hc := (RateGrid.uniqueInverse_eq b i j hi hj).2 (Or.inr ⟨h, by rw [← h]; exact hc⟩)
  order i j hi hj h := RateGrid.uniqueInverse_lt b i j hi hj h
  noGap i k hi hk := RateGrid.uniqueInverse_onto b i hi k hk

/-- The label of the cell is the last one. -/
def relabelLast (r : Row) (id : ℕ) : Row := { r with idx := r.idx.dropLast ++ [((id : ℤ) : WithTop ℤ)] }

/-- Rows with new numbers. -/
noncomputable def newRows (rows : List Row) : List Row := List.zipWith relabelLast rows (uniqueInverse (rows.map bounds))

theorem map_zipWith_left {α β γ δ : Type} (f : α → β → γ) (g : γ → δ) (h : α → δ) (hg : ∀ a b, g (f a b) = h a) (l : List α) (m : List β)
    (hl : m.length = l.length) : (List.zipWith f l m).map g = l.map h := by
  induction l generalizing m with
  | nil => simp
  | cons a l ih =>
    cases m with
    | nil => simp at hl
    | cons b m => simp [hg, ih m (by simpa using hl)]

theorem newRows_map {δ : Type} (rows : List Row) (g : Row → δ) (h : ∀ r k, g (relabelLast r k) = g r) :
    (newRows rows).map g = rows.map g :=
  map_zipWith_left _ _ _ h _ _ (by rw [RateGrid.uniqueInverse_length, List.length_map])

theorem bounds_relabelLast (r : Row) (k : ℕ) : bounds (relabelLast r k) = bounds r := rfl

theorem eraseIdx_last {α : Type} (l : List α) (n : ℕ) (h : l.length = n + 1) : l.eraseIdx n = l.dropLast := by
  induction l generalizing n with
  | nil => simp at h
  | cons a l ih =>
    cases n with
    | zero =>
      have : l = [] := by simpa using h
      subst this; rfl
    | succ n =>
      cases l with
      | nil => simp at h
      | cons b l => simp [ih n (by simpa using h)]

/-- The constructor on a grid whose last level is `cell_id`. -/
theorem construct_ok (g : Grid) (T : List (Option String)) (hn : g.names = T ++ [some "cell_id"]) (hT : some "cell_id" ∉ T) (hT0 : T ≠ [])
    (hidx : ∀ r ∈ g.rows, r.idx.length = T.length + 1) (hcols : hasCols requiredCols g.cols = true) (hnum : boundCols.all g.number = true) :
    construct g = .ok (setTimes { names := g.names, cols := g.cols.filter (fun c => !decide (c = "cell")), number := g.number, rows := newRows g.rows, name := none, starttime := ⊤, endtime := ⊤ }) := by
  have h1 : 1 < g.names.length := by
    rw [hn, List.length_append]
    have := List.length_pos_iff.2 hT0
    simp; omega
  have hm : some "cell_id" ∈ g.names := by rw [hn]; simp
  have hp : g.names.idxOf (some "cell_id") = T.length := by
    rw [hn, List.idxOf_append_of_notMem hT]; simp
  have hrows : List.zipWith (relabel T.length) g.rows (uniqueInverse (g.rows.map bounds)) = newRows g.rows := by
    unfold newRows
    generalize uniqueInverse (g.rows.map bounds) = ids
    generalize g.rows = rows at hidx ⊢
    induction rows generalizing ids with
    | nil => rfl
    | cons r l ih =>
      cases ids with
      | nil => rfl
      | cons k ids =>
        rw [List.zipWith_cons_cons, List.zipWith_cons_cons, ih ids (fun r hr => hidx r (List.mem_cons_of_mem _ hr))]
        congr 1
        have := hidx r List.mem_cons_self
        simp only [relabel, relabelLast]
        congr 2
        exact eraseIdx_last _ _ this
  have hnames : g.names.eraseIdx T.length ++ [some "cell_id"] = g.names := by
    rw [hn, List.eraseIdx_append_of_length_le (by omega)]
    simp
  unfold construct
  dsimp only
  rw [if_pos h1]
  unfold reindex
  rw [if_pos hcols]
  unfold renumber
  dsimp only
  rw [if_pos hm, if_pos hnum, hp, hrows, hnames]

/-- The grid with new numbers. -/
noncomputable def renumbered (g : Grid) : Grid := { g with
    name := none, starttime := ⊤, endtime := ⊤
    names := g.names.eraseIdx (g.names.idxOf (some "cell_id")) ++ [some "cell_id"]
    cols := g.cols.filter fun c => !decide (c = "cell")
    rows := List.zipWith (relabel (g.names.idxOf (some "cell_id"))) g.rows (uniqueInverse (g.rows.map bounds)) }

/-- C55: in the constructor of a grid with cells and times in its index every row gets a number of its cell as last label; everything
else is kept (a column called `cell` is lost). -/
theorem C55_cell_numbers (g : Grid) (hlev : 1 < g.names.length) (hcell : some "cell_id" ∈ g.names) (hcols : hasCols requiredCols g.cols = true)
    (hnum : boundCols.all g.number = true) :
    ∃ (h : Grid) (ids : List ℕ), construct g = .ok h ∧ Numbering (g.rows.map bounds) ids ∧
      h.rows.map Row.cells = g.rows.map Row.cells ∧
      h.rows.map Row.idx = List.zipWith (fun (r : Row) (k : ℕ) => r.idx.eraseIdx (g.names.idxOf (some "cell_id")) ++ [((k : ℤ) : WithTop ℤ)]) g.rows ids ∧
      h.names = g.names.eraseIdx (g.names.idxOf (some "cell_id")) ++ [some "cell_id"] ∧
      h.cols = g.cols.filter (fun c => !decide (c = "cell")) := by
  have key : ∀ x : Grid, (setTimes x).rows = x.rows ∧ (setTimes x).names = x.names ∧ (setTimes x).cols = x.cols := by
    intro x
    unfold setTimes
    split <;> exact ⟨rfl, rfl, rfl⟩
  refine ⟨setTimes (renumbered g), uniqueInverse (g.rows.map bounds), ?_, numbering_unique _, ?_⟩
  · unfold construct
    dsimp only
    rw [if_pos hlev]
    unfold reindex
    rw [if_pos hcols]
    unfold renumber
    dsimp only
    rw [if_pos hcell, if_pos hnum]
    rfl
  · obtain ⟨e1, e2, e3⟩ := key (renumbered g)
    rw [e1, e2, e3]
    unfold renumbered
    dsimp only
    refine ⟨?_, ?_, rfl, rfl⟩
    · exact map_zipWith_left (relabel (g.names.idxOf (some "cell_id"))) Row.cells Row.cells (fun _ _ => rfl) g.rows (uniqueInverse (g.rows.map bounds)) (by rw [RateGrid.uniqueInverse_length, List.length_map])
    · rw [List.map_zipWith]
      rfl

/-- C55: data without the required columns (or without more than one index level) are accepted: rows, columns and index stay as they are. -/
theorem C55_incomplete_data (g : Grid) (h : hasCols requiredCols g.cols = false ∨ g.names.length ≤ 1) :
    ∃ h, construct g = .ok h ∧ h.rows = g.rows ∧ h.names = g.names ∧ h.cols = g.cols := by
  refine ⟨{ g with name := none, starttime := ⊤, endtime := ⊤ }, ?_, rfl, rfl, rfl⟩
  unfold construct
  dsimp only
  split
  · rename_i hl
    rcases h with h | h
    · unfold reindex
      rw [if_neg (by simp [h])]
    · omega
  · rfl

/-- C55: two rows of the same grid have the same number iff they have the same bounds, if no bound is missing. -/
theorem C55_same_cell_iff (b : List (List (WithTop ℝ))) (ids : List ℕ) (h : Numbering b ids) (hc : ∀ x ∈ b, ⊤ ∉ x) (i j : ℕ)
    (hi : i < b.length) (hj : j < b.length) : ids.getD i 0 = ids.getD j 0 ↔ b.getD i [] = b.getD j [] := by
  have hm : ∀ i < b.length, ⊤ ∉ b.getD i [] := by
    intro i hi
    rw [List.getD_eq_getElem _ _ hi]
    exact hc _ (List.getElem_mem hi)
  constructor
  · intro e
    rcases lt_trichotomy (b.getD i []) (b.getD j []) with h1 | h1 | h1
    · have := h.order i j hi hj h1; omega
    · exact h1
    · have := h.order j i hj hi h1; omega
  · intro e
    exact h.same i j hi hj e (hm i hi)

/-- C55 (defect): two rows with the same bounds, one of them missing, get different numbers, although `equal_nan=True` is asked for. -/
theorem C55_defect_missing_bound (g : Grid) (hlev : 1 < g.names.length) (hcell : some "cell_id" ∈ g.names) (hcols : hasCols requiredCols g.cols = true)
    (hnum : boundCols.all g.number = true) (i j : ℕ) (hij : i < j) (hj : j < g.rows.length) (r : Row) (hr : g.rows[j]? = some r) (hm : ⊤ ∈ bounds r) :
    ∃ h, construct g = .ok h ∧ (h.rows.map fun r => r.idx.getLast?)[i]? ≠ (h.rows.map fun r => r.idx.getLast?)[j]? := by
  have key : ∀ x : Grid, (setTimes x).rows = x.rows := by
    intro x
    unfold setTimes
    split <;> rfl
  refine ⟨setTimes (renumbered g), ?_, ?_⟩
  · unfold construct
    dsimp only
    rw [if_pos hlev]
    unfold reindex
    rw [if_pos hcols]
    unfold renumber
    dsimp only
    rw [if_pos hcell, if_pos hnum]
    rfl
  · rw [key]
    have hl : (uniqueInverse (g.rows.map bounds)).length = g.rows.length := by rw [RateGrid.uniqueInverse_length, List.length_map]
    have hlast : ∀ k, k < g.rows.length → ((List.zipWith (relabel (g.names.idxOf (some "cell_id"))) g.rows (uniqueInverse (g.rows.map bounds))).map fun r => r.idx.getLast?)[k]? = some (some ((((uniqueInverse (g.rows.map bounds)).getD k 0 : ℕ) : ℤ) : WithTop ℤ)) := by
      intro k hk
      rw [List.getElem?_map, List.getElem?_zipWith, List.getElem?_eq_getElem hk, List.getElem?_eq_getElem (by rw [hl]; exact hk)]
      rw [List.getD_eq_getElem _ _ (by rw [hl]; exact hk)]
      simp [relabel]
    change ((renumbered g).rows.map fun r => r.idx.getLast?)[i]? ≠ _
    unfold renumbered
    dsimp only
    rw [hlast i (by omega), hlast j hj]
    intro e
    have e' : (uniqueInverse (g.rows.map bounds)).getD i 0 = (uniqueInverse (g.rows.map bounds)).getD j 0 := by
      simpa using e
    rcases (RateGrid.uniqueInverse_eq _ i j (by rw [List.length_map]; omega) (by rw [List.length_map]; exact hj)).1 e' with h | h
    · omega
    · apply h.2
      rw [List.getD_eq_getElem?_getD, List.getElem?_map, hr]
      exact hm

/-- C55 (defect): making a new object of some of the rows (as selecting rows does) numbers the cells anew: a cell does not keep its number. -/
theorem C55_defect_selection_renumbers (g : Grid) (hlev : 1 < g.names.length) (hcell : some "cell_id" ∈ g.names) (hcols : hasCols requiredCols g.cols = true)
    (hnum : boundCols.all g.number = true) (r : Row) :
    ∃ h, construct { g with rows := [r] } = .ok h ∧ h.rows.map (fun r => r.idx.getLast?) = [some 0] := by
  obtain ⟨h, ids, h1, h2, _, h4, _⟩ := C55_cell_numbers { g with rows := [r] } hlev hcell hcols hnum
  refine ⟨h, h1, ?_⟩
  have hl := h2.length
  obtain ⟨k, rfl⟩ : ∃ k, ids = [k] := List.length_eq_one_iff.1 (by simpa using hl)
  have hk : k = 0 := by
    obtain ⟨j, hj, e⟩ := h2.noGap 0 0 (by simp) (by simp)
    have : j = 0 := by simp at hj; omega
    subst this
    simpa using e
  subst hk
  have : h.rows.map (fun r => r.idx.getLast?) = (h.rows.map Row.idx).map List.getLast? := by simp
  rw [this, h4]
  simp

/-! ### Concatenation -/

/-- The grids with rows, row by row. -/
def allRows (l : List Grid) : List (Grid × Row) := l.flatMap fun g => g.rows.map fun r => (g, r)

/-- The times put in front of the index. -/
def times (e : Bool) (g : Grid) : List (WithTop ℤ) := if e then [g.starttime, g.endtime] else [g.starttime]

/-- Level names made by `add_time_index`. -/
def timeNames (e : Bool) : List (Option String) := if e then [some "starttime", some "endtime"] else [some "starttime"]

theorem times_length (e : Bool) (g : Grid) : (times e g).length = (timeNames e).length := by cases e <;> rfl

/-- The grid made by `add_time_index`. -/
noncomputable def part (e : Bool) (g : Grid) : Grid :=
  { names := timeNames e ++ [some "cell_id"], cols := g.cols.filter (fun c => !decide (c = "cell")), number := g.number, rows := newRows (g.rows.map fun r => { r with idx := times e g ++ r.idx }), name := g.name, starttime := g.starttime, endtime := g.endtime }

theorem finalize_setTimes (g x : Grid) : finalize g (setTimes x) = finalize g x := by
  unfold setTimes
  split <;> rfl

theorem addTimeIndex_ok (e : Bool) (g : Grid) (hlev : g.names.length = 1) (hidx : ∀ r ∈ g.rows, r.idx.length = 1)
    (hcols : hasCols requiredCols g.cols = true) (hnum : boundCols.all g.number = true) (hs : g.starttime ≠ ⊤) (he : e = true → g.endtime ≠ ⊤) :
    addTimeIndex e g = .ok (part e g) := by
  unfold addTimeIndex
  rw [if_pos hcols, if_neg hs, if_neg (fun h => he h.2 h.1)]
  rw [construct_ok (withTimes g e) (timeNames e) (by unfold withTimes timeNames; rw [if_pos hlev]) (by cases e <;> simp [timeNames])
    (by cases e <;> simp [timeNames]) ?_ hcols hnum]
  · simp only [Except.map]
    rw [finalize_setTimes]
    unfold withTimes finalize part
    rw [if_pos hlev]
    rfl
  · intro r hr
    unfold withTimes at hr
    obtain ⟨q, hq, rfl⟩ := List.mem_map.1 hr
    have := hidx q hq
    dsimp only
    rw [List.length_append, this]
    cases e <;> rfl

theorem hasCols_mem (req cols : List String) (h : hasCols req cols = true) (c : String) (hc : c ∈ req) : c ∈ cols := by
  unfold hasCols at h
  simpa using List.all_eq_true.1 h c hc

theorem hasCols_filter (cols : List String) (h : hasCols requiredCols cols = true) :
    hasCols requiredCols (cols.filter fun c => !decide (c = "cell")) = true := by
  unfold hasCols
  rw [List.all_eq_true]
  intro c hc
  have hne : c ≠ "cell" := by
    intro e
    subst e
    simp [requiredCols, boundCols] at hc
  simp [hasCols_mem _ _ h c hc, hne]

theorem boundCols_required (c : String) (h : c ∈ boundCols) : c ∈ requiredCols := List.mem_append_left _ h

theorem zipIdx_map_fst {α : Type} (l : List α) : l.zipIdx.map Prod.fst = l := by simp

theorem commonNames_eq (l : List Grid) (N : List (Option String)) (h0 : l ≠ []) (h : ∀ g ∈ l, g.names = N) : commonNames l = N := by
  cases l with
  | nil => exact absurd rfl h0
  | cons g r =>
    have hg := h g List.mem_cons_self
    unfold commonNames
    dsimp only
    rw [hg]
    have : N.zipIdx.map (fun p => if r.all (fun h => decide (h.names.getD p.2 none = p.1)) then p.1 else none) = N.zipIdx.map Prod.fst := by
      apply List.map_congr_left
      intro p hp
      rw [if_pos]
      rw [List.all_eq_true]
      intro x hx
      rw [h x (List.mem_cons_of_mem _ hx)]
      obtain ⟨_, h2, h3⟩ := List.mem_zipIdx hp
      simp only [Nat.zero_add, Nat.sub_zero] at h2 h3
      rw [List.getD_eq_getElem _ _ h2, h3]
      simp
    rw [this, zipIdx_map_fst]

theorem mem_dedup_cols (l : List Grid) (c : String) : c ∈ (l.flatMap Grid.cols).reverse.dedup.reverse ↔ ∃ g ∈ l, c ∈ g.cols := by
  rw [List.mem_reverse, List.mem_dedup, List.mem_reverse, List.mem_flatMap]

theorem bounds_widen (cols : List String) (h : hasCols requiredCols cols = true) (r : Row) : bounds (widen cols r) = bounds r := by
  unfold bounds
  apply List.map_congr_left
  intro c hc
  unfold widen
  dsimp only
  rw [if_pos (hasCols_mem _ _ h c (boundCols_required c hc))]

theorem setTimes_frame (x : Grid) : (setTimes x).rows = x.rows ∧ (setTimes x).names = x.names ∧ (setTimes x).cols = x.cols ∧ (setTimes x).number = x.number := by
  unfold setTimes
  split <;> exact ⟨rfl, rfl, rfl, rfl⟩

theorem newRows_idx_length (n : ℕ) (rows : List Row) (h : ∀ r ∈ rows, r.idx.length = n + 1) : ∀ r ∈ newRows rows, r.idx.length = n + 1 := by
  have e : (newRows rows).map (fun r => r.idx.dropLast.length) = rows.map (fun r => r.idx.dropLast.length) :=
    newRows_map rows _ (fun r k => by simp [relabelLast])
  intro r hr
  obtain ⟨i, hi, rfl⟩ := List.getElem_of_mem hr
  unfold newRows at hi ⊢
  rw [List.getElem_zipWith]
  rw [List.length_zipWith] at hi
  have := h _ (List.getElem_mem (l := rows) (n := i) (by omega))
  simp [relabelLast, this]

/-- Numbering once more changes nothing. -/
theorem newRows_newRows (rows : List Row) : newRows (newRows rows) = newRows rows := by
  have hb : (newRows rows).map bounds = rows.map bounds := newRows_map rows bounds bounds_relabelLast
  unfold newRows at hb ⊢
  rw [hb]
  generalize uniqueInverse (rows.map bounds) = ids
  clear hb
  induction rows generalizing ids with
  | nil => rfl
  | cons r l ih =>
    cases ids with
    | nil => rfl
    | cons k ids =>
      simp only [List.zipWith_cons_cons, ih]
      simp [relabelLast]

/-- `cls(pd.concat(...))` of grids with the same levels, the last of them the cell. -/
theorem pdConcat_ok (l : List Grid) (T : List (Option String)) (h0 : l ≠ []) (hT : some "cell_id" ∉ T) (hT0 : T ≠ [])
    (hn : ∀ g ∈ l, g.names = T ++ [some "cell_id"]) (hidx : ∀ g ∈ l, ∀ r ∈ g.rows, r.idx.length = T.length + 1)
    (hcols : ∀ g ∈ l, hasCols requiredCols g.cols = true) (hnum : ∀ g ∈ l, boundCols.all g.number = true) :
    pdConcat l = .ok (setTimes { names := T ++ [some "cell_id"], cols := (stack l).cols.filter (fun c => !decide (c = "cell")), number := (stack l).number, rows := newRows (l.flatMap fun g => g.rows.map (widen g.cols)), name := none, starttime := ⊤, endtime := ⊤ }) := by
  have hN : (stack l).names = T ++ [some "cell_id"] := commonNames_eq l _ h0 hn
  have hR : ∀ r ∈ (stack l).rows, r.idx.length = T.length + 1 := by
    intro r hr
    obtain ⟨g, hg, h1⟩ := List.mem_flatMap.1 hr
    obtain ⟨q, hq, rfl⟩ := List.mem_map.1 h1
    exact hidx g hg q hq
  have hC : hasCols requiredCols (stack l).cols = true := by
    unfold hasCols
    rw [List.all_eq_true]
    intro c hc
    obtain ⟨g, hg⟩ := List.exists_mem_of_ne_nil l h0
    have : c ∈ (stack l).cols := (mem_dedup_cols l c).2 ⟨g, hg, hasCols_mem _ _ (hcols g hg) c hc⟩
    simpa using this
  have hM : boundCols.all (stack l).number = true := by
    rw [List.all_eq_true]
    intro c hc
    change (l.all fun g => !decide (c ∈ g.cols) || g.number c) = true
    rw [List.all_eq_true]
    intro g hg
    rw [List.all_eq_true.1 (hnum g hg) c hc]
    simp
  unfold pdConcat
  rw [if_neg h0, construct_ok (stack l) T hN hT hT0 hR hC hM]
  simp only [Except.bind]
  obtain ⟨e1, e2, e3, e4⟩ := setTimes_frame { names := (stack l).names, cols := (stack l).cols.filter (fun c => !decide (c = "cell")), number := (stack l).number, rows := newRows (stack l).rows, name := none, starttime := ⊤, endtime := ⊤ }
  rw [construct_ok _ T (by rw [e2]; exact hN) hT hT0 (by rw [e1]; exact newRows_idx_length _ _ hR) (by rw [e3]; exact hasCols_filter _ hC) (by rw [e4]; exact hM)]
  rw [e1, e2, e3, e4]
  dsimp only
  rw [newRows_newRows, hN, List.filter_filter]
  simp only [Bool.and_self]
  rfl

/-- Earliest time. -/
theorem minTime_spec (l : List (WithTop ℤ)) : (∀ t ∈ l, minTime l ≤ t) ∧ (l ≠ [] → minTime l ∈ l) := by
  induction l with
  | nil => simp
  | cons a l ih =>
    change (∀ t ∈ a :: l, min a (minTime l) ≤ t) ∧ (_ → min a (minTime l) ∈ a :: l)
    constructor
    · intro t ht
      rcases List.mem_cons.1 ht with rfl | h
      · exact min_le_left _ _
      · exact (min_le_right _ _).trans (ih.1 t h)
    · intro _
      rcases le_total a (minTime l) with h | h
      · rw [min_eq_left h]; exact List.mem_cons_self
      · rw [min_eq_right h]
        by_cases hl : l = []
        · subst hl
          have : (⊤ : WithTop ℤ) ≤ a := h
          rw [top_le_iff.1 this]
          exact List.mem_cons_self
        · exact List.mem_cons_of_mem _ (ih.2 hl)

/-- Latest time, if none is missing. -/
theorem maxTime_spec (l : List (WithTop ℤ)) (h : ∀ t ∈ l, t ≠ ⊤) : (∀ t ∈ l, t ≤ maxTime l) ∧ (l ≠ [] → maxTime l ∈ l) := by
  induction l with
  | nil => simp
  | cons a l ih =>
    have ih := ih fun t ht => h t (List.mem_cons_of_mem _ ht)
    have ha := h a List.mem_cons_self
    change (∀ t ∈ a :: l, t ≤ later a (maxTime l)) ∧ (_ → later a (maxTime l) ∈ a :: l)
    by_cases hl : l = []
    · subst hl
      have : later a (maxTime []) = a := by
        unfold later
        rw [if_neg ha]
        exact if_pos rfl
      rw [this]
      simp
    · have hm : maxTime l ≠ ⊤ := h _ (List.mem_cons_of_mem _ (ih.2 hl))
      have : later a (maxTime l) = max a (maxTime l) := by
        unfold later
        rw [if_neg ha, if_neg hm]
      rw [this]
      constructor
      · intro t ht
        rcases List.mem_cons.1 ht with rfl | h
        · exact le_max_left _ _
        · exact (ih.1 t h).trans (le_max_right _ _)
      · intro _
        rcases le_total a (maxTime l) with h | h
        · rw [max_eq_right h]; exact List.mem_cons_of_mem _ (ih.2 hl)
        · rw [max_eq_left h]; exact List.mem_cons_self

/-- C55: `concat` of grids without times in the index. All rows are there, in order, with their cells; each row is labelled with the start
(and end, if all grids have one) of its grid and a number of its cell that counts over all grids. -/
theorem C55_concat (l : List Grid) (h0 : l ≠ []) (hlev : ∀ g ∈ l, g.names.length = 1) (hidx : ∀ g ∈ l, ∀ r ∈ g.rows, r.idx.length = 1)
    (hcols : ∀ g ∈ l, hasCols requiredCols g.cols = true) (hnum : ∀ g ∈ l, boundCols.all g.number = true) (hs : ∀ g ∈ l, g.starttime ≠ ⊤) :
    ∃ (h : Grid) (e : Bool) (ids : List ℕ), RateGrid.concat l = .ok h ∧ (e = true ↔ ∀ g ∈ l, g.endtime ≠ ⊤) ∧
      Numbering ((allRows l).map fun p => bounds p.2) ids ∧
      h.names = (if e then [some "starttime", some "endtime", some "cell_id"] else [some "starttime", some "cell_id"]) ∧
      h.rows.map Row.idx = List.zipWith (fun (p : Grid × Row) (k : ℕ) => if e then [p.1.starttime, p.1.endtime, ((k : ℤ) : WithTop ℤ)] else [p.1.starttime, ((k : ℤ) : WithTop ℤ)]) (allRows l) ids ∧
      List.Forall₂ (fun (p : Grid × Row) (r : Row) => ∀ c, c ≠ "cell" → (c ∈ p.1.cols → r.cells c = p.2.cells c) ∧ (c ∉ p.1.cols → r.cells c = .na)) (allRows l) h.rows ∧
      (∀ c, c ∈ h.cols ↔ c ≠ "cell" ∧ ∃ g ∈ l, c ∈ g.cols) ∧
      (∀ p ∈ allRows l, h.starttime ≤ p.1.starttime ∧ (if e then p.1.endtime else p.1.starttime) ≤ h.endtime) ∧
      (allRows l ≠ [] → (∃ p ∈ allRows l, h.starttime = p.1.starttime) ∧ ∃ p ∈ allRows l, h.endtime = if e then p.1.endtime else p.1.starttime) := by
  obtain ⟨e, he⟩ : ∃ e, (l.all fun g => !decide (g.endtime = ⊤)) = e := ⟨_, rfl⟩
  have hee : e = true ↔ ∀ g ∈ l, g.endtime ≠ ⊤ := by
    rw [← he, List.all_eq_true]
    simp
  have hparts : l.mapM (addTimeIndex e) = .ok (l.map (part e)) := by
    apply mapM_ok_map
    intro g hg
    exact addTimeIndex_ok e g (hlev g hg) (hidx g hg) (hcols g hg) (hnum g hg) (hs g hg) (fun h => hee.1 h g hg)
  have hc := pdConcat_ok (l.map (part e)) (timeNames e) (by simpa using h0) (by cases e <;> simp [timeNames]) (by cases e <;> simp [timeNames])
    (by intro g hg; obtain ⟨q, _, rfl⟩ := List.mem_map.1 hg; rfl)
    (by
      intro g hg
      obtain ⟨q, hq, rfl⟩ := List.mem_map.1 hg
      apply newRows_idx_length
      intro r hr
      obtain ⟨s, hs', rfl⟩ := List.mem_map.1 hr
      dsimp only
      rw [List.length_append, hidx q hq s hs', times_length])
    (by intro g hg; obtain ⟨q, hq, rfl⟩ := List.mem_map.1 hg; exact hasCols_filter _ (hcols q hq))
    (by intro g hg; obtain ⟨q, hq, rfl⟩ := List.mem_map.1 hg; exact hnum q hq)
  -- the rows before the last numbering
  obtain ⟨R, hR⟩ : ∃ R, ((l.map (part e)).flatMap fun g => g.rows.map (widen g.cols)) = R := ⟨_, rfl⟩
  have hRflat : ∀ {δ : Type} (f : Row → δ), (∀ r k, f (relabelLast r k) = f r) →
      R.map f = (allRows l).map fun p => f (widen (p.1.cols.filter fun c => !decide (c = "cell")) { p.2 with idx := times e p.1 ++ p.2.idx }) := by
    intro δ f hf
    rw [← hR]
    unfold allRows
    clear hR hc hparts he hee h0 hlev hidx hcols hnum hs
    induction l with
    | nil => rfl
    | cons g l ih =>
      rw [List.map_cons, List.flatMap_cons, List.flatMap_cons, List.map_append, List.map_append, ih]
      congr 1
      unfold part
      dsimp only
      rw [List.map_map, newRows_map _ (f ∘ widen _) (fun r k => hf (widen _ r) k), List.map_map, List.map_map]
      rfl
  have hdrop : ∀ r ∈ allRows l, r.2.idx.length = 1 := by
    intro p hp
    obtain ⟨g, hg, h1⟩ := List.mem_flatMap.1 hp
    obtain ⟨q, hq, rfl⟩ := List.mem_map.1 h1
    exact hidx g hg q hq
  have hgrid : ∀ p ∈ allRows l, p.1 ∈ l := by
    intro p hp
    obtain ⟨g, hg, h1⟩ := List.mem_flatMap.1 hp
    obtain ⟨q, hq, rfl⟩ := List.mem_map.1 h1
    exact hg
  have hRdrop : R.map (fun r => r.idx.dropLast) = (allRows l).map fun p => times e p.1 := by
    rw [hRflat _ (fun r k => by simp [relabelLast])]
    apply List.map_congr_left
    intro p hp
    obtain ⟨x, hx⟩ := List.length_eq_one_iff.1 (hdrop p hp)
    simp only [widen, hx]
    simp
  have hRb : R.map bounds = (allRows l).map fun p => bounds p.2 := by
    rw [hRflat _ bounds_relabelLast]
    apply List.map_congr_left
    intro p hp
    rw [bounds_widen _ (hasCols_filter _ (hcols p.1 (hgrid p hp)))]
    rfl
  obtain ⟨X, hX⟩ : ∃ X : Grid, { names := timeNames e ++ [some "cell_id"], cols := (stack (l.map (part e))).cols.filter (fun c => !decide (c = "cell")), number := (stack (l.map (part e))).number, rows := newRows R, name := none, starttime := ⊤, endtime := ⊤ } = X := ⟨_, rfl⟩
  rw [hR, hX] at hc
  have hrowsX : X.rows = newRows R := by rw [← hX]
  have hnamesX : X.names = timeNames e ++ [some "cell_id"] := by rw [← hX]
  obtain ⟨e1, e2, e3, e4⟩ := setTimes_frame X
  have hI : X.rows.map Row.idx = List.zipWith (fun (p : Grid × Row) (k : ℕ) => times e p.1 ++ [((k : ℤ) : WithTop ℤ)]) (allRows l) (uniqueInverse (R.map bounds)) := by
    rw [hrowsX]
    unfold newRows
    rw [List.map_zipWith]
    change List.zipWith (fun r (k : ℕ) => r.idx.dropLast ++ [((k : ℤ) : WithTop ℤ)]) R _ = _
    have hz := List.zipWith_map_left (l₁ := R) (l₂ := uniqueInverse (R.map bounds)) (f := fun r : Row => r.idx.dropLast) (g := fun (d : List (WithTop ℤ)) (k : ℕ) => d ++ [((k : ℤ) : WithTop ℤ)])
    rw [← hz, hRdrop, List.zipWith_map_left]
  have hlenids : (uniqueInverse (R.map bounds)).length = (allRows l).length := by
    rw [RateGrid.uniqueInverse_length, hRb, List.length_map]
  have hstart : level X.names X.rows "starttime" = (allRows l).map fun p => p.1.starttime := by
    unfold level
    have : (X.rows.map fun r => r.idx.getD (X.names.idxOf (some "starttime")) ⊤) = (X.rows.map Row.idx).map fun i => i.getD 0 ⊤ := by
      rw [List.map_map, hnamesX]
      apply List.map_congr_left
      intro r _
      cases e <;> simp [timeNames, List.idxOf_cons]
    rw [this, hI]
    exact map_zipWith_left _ _ _ (fun p k => by cases e <;> rfl) _ _ hlenids
  have hsX : some "starttime" ∈ X.names := by rw [hnamesX]; cases e <;> simp [timeNames]
  refine ⟨setTimes X, e, uniqueInverse (R.map bounds), ?_, hee, ?_, ?_, ?_, ?_, ?_, ?_⟩
  · unfold RateGrid.concat
    rw [if_pos (by rw [List.all_eq_true]; intro g hg; simpa using hlev g hg), he, hparts]
    exact hc
  · rw [hRb]
    exact numbering_unique _
  · rw [e2, hnamesX]
    cases e <;> rfl
  · rw [e1, hI]
    congr 1
    funext p k
    cases e <;> rfl
  · rw [e1, hrowsX]
    have : ∀ S : List Row, S.map Row.cells = R.map Row.cells → List.Forall₂ (fun (p : Grid × Row) (r : Row) => ∀ c, c ≠ "cell" → (c ∈ p.1.cols → r.cells c = p.2.cells c) ∧ (c ∉ p.1.cols → r.cells c = .na)) (allRows l) S := by
      intro S hS
      rw [hRflat Row.cells (fun _ _ => rfl)] at hS
      clear hdrop hgrid hRdrop hRb hI hlenids hstart
      generalize allRows l = A at hS
      clear hRflat
      induction A generalizing S with
      | nil =>
        cases S with
        | nil => exact .nil
        | cons _ _ => simp at hS
      | cons p A ih =>
        cases S with
        | nil => simp at hS
        | cons r S =>
          rw [List.map_cons, List.map_cons, List.cons.injEq] at hS
          refine .cons ?_ (ih S hS.2)
          intro c hc
          rw [hS.1]
          unfold widen
          dsimp only
          constructor
          · intro h
            rw [if_pos (by simp [h, hc])]
          · intro h
            rw [if_neg (by simp [h])]
    exact this _ (newRows_map R Row.cells (fun _ _ => rfl))
  · intro c
    rw [e3, ← hX]
    dsimp only
    rw [List.mem_filter]
    have : c ∈ (stack (l.map (part e))).cols ↔ ∃ g ∈ l.map (part e), c ∈ g.cols := mem_dedup_cols _ c
    rw [this]
    constructor
    · rintro ⟨⟨g, hg, h1⟩, h2⟩
      obtain ⟨q, hq, rfl⟩ := List.mem_map.1 hg
      exact ⟨by simpa using h2, q, hq, (List.mem_filter.1 h1).1⟩
    · rintro ⟨h1, g, hg, h2⟩
      exact ⟨⟨part e g, List.mem_map_of_mem hg, List.mem_filter.2 ⟨h2, by simpa using h1⟩⟩, by simpa using h1⟩
  · have hS : (setTimes X).starttime = minTime ((allRows l).map fun p => p.1.starttime) := by
      unfold setTimes
      rw [if_pos hsX]
      dsimp only
      rw [hstart]
    have hE : (setTimes X).endtime = maxTime ((allRows l).map fun p => if e then p.1.endtime else p.1.starttime) := by
      unfold setTimes
      rw [if_pos hsX]
      dsimp only
      rw [hstart]
      cases e with
      | false => 
        rw [if_neg (by rw [hnamesX]; simp [timeNames])]
        rfl
      | true =>
        rw [if_pos (by rw [hnamesX]; simp [timeNames])]
        congr 1
        unfold level
        have : (X.rows.map fun r => r.idx.getD (X.names.idxOf (some "endtime")) ⊤) = (X.rows.map Row.idx).map fun i => i.getD 1 ⊤ := by
          rw [List.map_map, hnamesX]
          apply List.map_congr_left
          intro r _
          simp [timeNames, List.idxOf_cons]
        rw [this, hI]
        exact map_zipWith_left _ _ _ (fun p k => by simp [times]) _ _ hlenids
    have hfin : ∀ t ∈ (allRows l).map (fun p => if e then p.1.endtime else p.1.starttime), t ≠ ⊤ := by
      intro t ht
      obtain ⟨p, hp, rfl⟩ := List.mem_map.1 ht
      cases hb : e with
      | false => simpa using hs _ (hgrid p hp)
      | true => simpa using hee.1 hb _ (hgrid p hp)
    have m1 := minTime_spec ((allRows l).map fun p => p.1.starttime)
    have m2 := maxTime_spec _ hfin
    rw [hS, hE]
    refine ⟨fun p hp => ⟨m1.1 _ (List.mem_map_of_mem hp), m2.1 _ (List.mem_map_of_mem (f := fun p : Grid × Row => if e then p.1.endtime else p.1.starttime) hp)⟩, ?_⟩
    intro hne
    obtain ⟨p, hp, h1⟩ := List.mem_map.1 (m1.2 (by simpa using hne))
    obtain ⟨q, hq, h2⟩ := List.mem_map.1 (m2.2 (by simpa using hne))
    exact ⟨⟨p, hp, h1.symm⟩, q, hq, h2.symm⟩

/-- C55: grids with different numbers of index levels, more than three, or no grids are a ValueError. -/
theorem C55_concat_levels (l : List Grid) (h : (∀ n, (∀ g ∈ l, g.names.length = n) → l ≠ [] → 3 < n ∨ n = 0) ∨ l = []) :
    RateGrid.concat l = .error .valueError := by
  by_cases h0 : l = []
  · subst h0
    rfl
  · have h := h.resolve_right h0
    have aux : ∀ n, 1 ≤ n → n ≤ 3 → (l.all fun g => decide (g.names.length = n)) = false := by
      intro n hn1 hn3
      by_contra hc
      have hc : (l.all fun g => decide (g.names.length = n)) = true := by simpa using hc
      have : ∀ g ∈ l, g.names.length = n := by
        intro g hg
        simpa using List.all_eq_true.1 hc g hg
      rcases h n this h0 with h | h <;> omega
    unfold RateGrid.concat
    rw [aux 1 (by omega) (by omega), aux 2 (by omega) (by omega), aux 3 (by omega) (by omega)]
    rfl

/-- C55: a grid without start time, or without the required columns, can not be concatenated. -/
theorem C55_concat_attribute (g : Grid) (l : List Grid) (hlev : ∀ x ∈ g :: l, x.names.length = 1)
    (h : g.starttime = ⊤ ∨ ∃ c ∈ requiredCols, c ∉ g.cols) : RateGrid.concat (g :: l) = .error .attributeError := by
  unfold RateGrid.concat
  rw [if_pos (by rw [List.all_eq_true]; intro x hx; simpa using hlev x hx)]
  have : ∀ e, addTimeIndex e g = .error .attributeError := by
    intro e
    unfold addTimeIndex
    by_cases hc : hasCols requiredCols g.cols = true
    · rw [if_pos hc]
      rcases h with h | ⟨c, h1, h2⟩
      · rw [if_pos h]
      · exact absurd (hasCols_mem _ _ hc c h1) h2
    · rw [if_neg hc]
  rw [List.mapM_cons, this]
  rfl

/-- A row of numbers. -/
def numberRow (i : ℤ) (x : ℝ) : Row := { idx := [(i : WithTop ℤ)], cells := fun c => if c = "longitude_min" then .num x else .num 1 }

/-- A grid of two cells and a start time. -/
def sampleGrid (t : ℤ) : Grid :=
  { names := [none], cols := requiredCols, number := fun _ => true, rows := [numberRow 0 7, numberRow 1 5], name := none, starttime := t, endtime := ⊤ }

/-- Two grids without end meet the hypotheses; the result has four rows. -/
example : ∃ h, RateGrid.concat [sampleGrid 3, sampleGrid 8] = .ok h ∧ h.rows.length = 4 ∧ h.starttime = 3 ∧ h.endtime = 8 := by
  obtain ⟨h, e, ids, h1, h2, h3, _, _, h6, _, h8, h9⟩ := C55_concat [sampleGrid 3, sampleGrid 8] (by simp)
    (by intro g hg; simp only [List.mem_cons, List.not_mem_nil, or_false] at hg; rcases hg with rfl | rfl <;> rfl)
    (by
      intro g hg r hr
      simp only [List.mem_cons, List.not_mem_nil, or_false] at hg
      rcases hg with rfl | rfl <;> simp only [sampleGrid, List.mem_cons, List.not_mem_nil, or_false] at hr <;> rcases hr with rfl | rfl <;> rfl)
    (by intro g hg; simp only [List.mem_cons, List.not_mem_nil, or_false] at hg; rcases hg with rfl | rfl <;> exact List.all_eq_true.2 fun x hx => decide_eq_true hx)
    (by intro g hg; simp only [List.mem_cons, List.not_mem_nil, or_false] at hg; rcases hg with rfl | rfl <;> simp [sampleGrid])
    (by intro g hg; simp only [List.mem_cons, List.not_mem_nil, or_false] at hg; rcases hg with rfl | rfl <;> simp [sampleGrid])
  have he : e = false := by
    cases e with
    | false => rfl
    | true => exact absurd rfl (h2.1 rfl (sampleGrid 3) List.mem_cons_self)
  subst he
  have a1 := (h8 (sampleGrid 3, numberRow 0 7) (by simp [allRows, sampleGrid])).1
  have a2 := (h8 (sampleGrid 8, numberRow 0 7) (by simp [allRows, sampleGrid])).2
  obtain ⟨⟨p, hp, e1⟩, q, hq, e2⟩ := h9 (by simp [allRows, sampleGrid])
  have hsp : ∀ p ∈ allRows [sampleGrid 3, sampleGrid 8], p.1.starttime = 3 ∨ p.1.starttime = 8 := by
    intro p hp
    simp only [allRows, sampleGrid, List.flatMap_cons, List.flatMap_nil, List.map_cons, List.map_nil, List.append_nil, List.cons_append, List.nil_append,
      List.mem_cons, List.not_mem_nil, or_false] at hp
    rcases hp with rfl | rfl | rfl | rfl <;> simp
  refine ⟨h, h1, ?_, ?_, ?_⟩
  · rw [← h6.length_eq]
    rfl
  · rcases hsp p hp with e | e
    · rw [e1, e]
    · rw [e1, e] at a1
      exact absurd a1 (by norm_num [sampleGrid]; decide)
  · rcases hsp q hq with e | e
    · simp only [Bool.false_eq_true, if_false] at a2 e2
      rw [e2, e] at a2
      exact absurd a2 (by simp only [sampleGrid]; decide)
    · simp only [Bool.false_eq_true, if_false] at e2
      rw [e2, e]

/-- C55: `concat` of grids that carry their times in the index already (starttime, or starttime and endtime, before the cell). All rows are there, in
order, with their cells and times; the cells are numbered anew over all grids. -/
theorem C55_concat_timed (l : List Grid) (e : Bool) (h0 : l ≠ [])
    (hn : ∀ g ∈ l, g.names = if e then [some "starttime", some "endtime", some "cell_id"] else [some "starttime", some "cell_id"])
    (hidx : ∀ g ∈ l, ∀ r ∈ g.rows, r.idx.length = g.names.length) (hcols : ∀ g ∈ l, hasCols requiredCols g.cols = true)
    (hnum : ∀ g ∈ l, boundCols.all g.number = true) (ht : ∀ g ∈ l, ∀ r ∈ g.rows, ∀ t ∈ r.idx, t ≠ ⊤) :
    ∃ (h : Grid) (ids : List ℕ), RateGrid.concat l = .ok h ∧ Numbering ((allRows l).map fun p => bounds p.2) ids ∧
      h.names = (if e then [some "starttime", some "endtime", some "cell_id"] else [some "starttime", some "cell_id"]) ∧
      h.rows.map Row.idx = List.zipWith (fun (p : Grid × Row) (k : ℕ) => p.2.idx.dropLast ++ [((k : ℤ) : WithTop ℤ)]) (allRows l) ids ∧
      List.Forall₂ (fun (p : Grid × Row) (r : Row) => ∀ c, (c ∈ p.1.cols → r.cells c = p.2.cells c) ∧ (c ∉ p.1.cols → r.cells c = .na)) (allRows l) h.rows ∧
      (∀ c, c ∈ h.cols ↔ c ≠ "cell" ∧ ∃ g ∈ l, c ∈ g.cols) ∧
      (∀ p ∈ allRows l, h.starttime ≤ p.2.idx.getD 0 ⊤ ∧ p.2.idx.getD (if e then 1 else 0) ⊤ ≤ h.endtime) ∧
      (allRows l ≠ [] → (∃ p ∈ allRows l, h.starttime = p.2.idx.getD 0 ⊤) ∧ ∃ p ∈ allRows l, h.endtime = p.2.idx.getD (if e then 1 else 0) ⊤) := by
  have hn' : ∀ g ∈ l, g.names = timeNames e ++ [some "cell_id"] := by
    intro g hg
    rw [hn g hg]
    cases e <;> rfl
  have hlen : ∀ g ∈ l, g.names.length = if e then 3 else 2 := by
    intro g hg
    rw [hn g hg]
    cases e <;> rfl
  have hcc : RateGrid.concat l = pdConcat l := by
    obtain ⟨g, hg⟩ := List.exists_mem_of_ne_nil l h0
    unfold RateGrid.concat
    rw [if_neg, if_pos]
    · rw [Bool.or_eq_true, List.all_eq_true, List.all_eq_true]
      cases e with
      | false => left; intro g hg; simpa using hlen g hg
      | true => right; intro g hg; simpa using hlen g hg
    · intro hc
      have := List.all_eq_true.1 hc g hg
      rw [hlen g hg] at this
      cases e <;> simp at this
  have hidx' : ∀ g ∈ l, ∀ r ∈ g.rows, r.idx.length = (timeNames e).length + 1 := by
    intro g hg r hr
    rw [hidx g hg r hr, hlen g hg]
    cases e <;> rfl
  have hc := pdConcat_ok l (timeNames e) h0 (by cases e <;> simp [timeNames]) (by cases e <;> simp [timeNames]) hn' hidx' hcols hnum
  obtain ⟨R, hR⟩ : ∃ R, (l.flatMap fun g => g.rows.map (widen g.cols)) = R := ⟨_, rfl⟩
  have hRA : R = (allRows l).map fun p => widen p.1.cols p.2 := by
    rw [← hR]
    unfold allRows
    rw [List.map_flatMap]
    congr 1
    funext g
    rw [List.map_map]
    rfl
  have hin : ∀ p ∈ allRows l, p.1 ∈ l ∧ p.2 ∈ p.1.rows := by
    intro p hp
    obtain ⟨g, hg, h1⟩ := List.mem_flatMap.1 hp
    obtain ⟨q, hq, rfl⟩ := List.mem_map.1 h1
    exact ⟨hg, hq⟩
  have hRb : R.map bounds = (allRows l).map fun p => bounds p.2 := by
    rw [hRA, List.map_map]
    apply List.map_congr_left
    intro p hp
    exact bounds_widen _ (hcols p.1 (hin p hp).1) p.2
  obtain ⟨X, hX⟩ : ∃ X : Grid, { names := timeNames e ++ [some "cell_id"], cols := (stack l).cols.filter (fun c => !decide (c = "cell")), number := (stack l).number, rows := newRows R, name := none, starttime := ⊤, endtime := ⊤ } = X := ⟨_, rfl⟩
  rw [hR, hX] at hc
  have hrowsX : X.rows = newRows R := by rw [← hX]
  have hnamesX : X.names = timeNames e ++ [some "cell_id"] := by rw [← hX]
  obtain ⟨e1, e2, e3, e4⟩ := setTimes_frame X
  have hI : X.rows.map Row.idx = List.zipWith (fun (p : Grid × Row) (k : ℕ) => p.2.idx.dropLast ++ [((k : ℤ) : WithTop ℤ)]) (allRows l) (uniqueInverse (R.map bounds)) := by
    rw [hrowsX]
    unfold newRows
    rw [List.map_zipWith]
    change List.zipWith (fun r (k : ℕ) => r.idx.dropLast ++ [((k : ℤ) : WithTop ℤ)]) R _ = _
    generalize uniqueInverse (R.map bounds) = ids
    rw [hRA, List.zipWith_map_left]
    rfl
  have hlenids : (uniqueInverse (R.map bounds)).length = (allRows l).length := by
    rw [RateGrid.uniqueInverse_length, hRb, List.length_map]
  have hlev : ∀ (n : String) (i : ℕ), X.names.idxOf (some n) = i → i < (timeNames e).length → level X.names X.rows n = (allRows l).map fun p => p.2.idx.getD i ⊤ := by
    intro n i hi hb
    unfold level
    have : (X.rows.map fun r => r.idx.getD (X.names.idxOf (some n)) ⊤) = (X.rows.map Row.idx).map fun j => j.getD i ⊤ := by
      rw [List.map_map, hi]
      rfl
    rw [this, hI]
    have hstep : ∀ (A : List (Grid × Row)) (ids : List ℕ), ids.length = A.length → (∀ p ∈ A, p.2.idx.length = (timeNames e).length + 1) →
        (List.zipWith (fun (p : Grid × Row) (k : ℕ) => p.2.idx.dropLast ++ [((k : ℤ) : WithTop ℤ)]) A ids).map (fun j => j.getD i ⊤) = A.map fun p => p.2.idx.getD i ⊤ := by
      intro A
      induction A with
      | nil => intro ids _ _; rfl
      | cons p A ih =>
        intro ids hl hA
        cases ids with
        | nil => simp at hl
        | cons k ids =>
          rw [List.zipWith_cons_cons, List.map_cons, List.map_cons, ih ids (by simpa using hl) (fun q hq => hA q (List.mem_cons_of_mem _ hq))]
          congr 1
          have hp := hA p List.mem_cons_self
          rw [List.getD_append _ _ _ _ (by rw [List.length_dropLast, hp]; omega), List.getD_eq_getElem?_getD, List.getD_eq_getElem?_getD, List.getElem?_dropLast, if_pos (by omega)]
    exact hstep _ _ hlenids (fun p hp => hidx' _ (hin p hp).1 _ (hin p hp).2)
  have hsX : some "starttime" ∈ X.names := by rw [hnamesX]; cases e <;> simp [timeNames]
  have hS : (setTimes X).starttime = minTime ((allRows l).map fun p => p.2.idx.getD 0 ⊤) := by
    unfold setTimes
    rw [if_pos hsX]
    dsimp only
    rw [hlev "starttime" 0 (by rw [hnamesX]; cases e <;> simp [timeNames]) (by cases e <;> simp [timeNames])]
  have hE : (setTimes X).endtime = maxTime ((allRows l).map fun p => p.2.idx.getD (if e then 1 else 0) ⊤) := by
    unfold setTimes
    rw [if_pos hsX]
    dsimp only
    cases e with
    | false =>
      rw [if_neg (by rw [hnamesX]; simp [timeNames]), hlev "starttime" 0 (by rw [hnamesX]; simp [timeNames]) (by simp [timeNames])]
      rfl
    | true =>
      rw [if_pos (by rw [hnamesX]; simp [timeNames]), hlev "endtime" 1 (by rw [hnamesX]; simp [timeNames]) (by simp [timeNames])]
      rfl
  have hget : ∀ p ∈ allRows l, p.2.idx.getD (if e then 1 else 0) ⊤ ≠ ⊤ := by
    intro p hp
    have hl := hidx' _ (hin p hp).1 _ (hin p hp).2
    have hb : (if e then 1 else 0) < p.2.idx.length := by rw [hl]; cases e <;> simp [timeNames]
    rw [List.getD_eq_getElem _ _ hb]
    exact ht _ (hin p hp).1 _ (hin p hp).2 _ (List.getElem_mem hb)
  have m1 := minTime_spec ((allRows l).map fun p => p.2.idx.getD 0 ⊤)
  have m2 := maxTime_spec ((allRows l).map fun p => p.2.idx.getD (if e then 1 else 0) ⊤) (by
    intro t ht'
    obtain ⟨p, hp, rfl⟩ := List.mem_map.1 ht'
    exact hget p hp)
  refine ⟨setTimes X, uniqueInverse (R.map bounds), hcc.trans hc, ?_, ?_, ?_, ?_, ?_, ?_, ?_⟩
  · rw [hRb]
    exact numbering_unique _
  · rw [e2, hnamesX]
    cases e <;> rfl
  · rw [e1, hI]
  · rw [e1, hrowsX]
    have : ∀ (A : List (Grid × Row)) (S : List Row), S.map Row.cells = A.map (fun p => (widen p.1.cols p.2).cells) →
        List.Forall₂ (fun (p : Grid × Row) (r : Row) => ∀ c, (c ∈ p.1.cols → r.cells c = p.2.cells c) ∧ (c ∉ p.1.cols → r.cells c = .na)) A S := by
      intro A
      induction A with
      | nil =>
        intro S hS
        cases S with
        | nil => exact .nil
        | cons _ _ => simp at hS
      | cons p A ih =>
        intro S hS
        cases S with
        | nil => simp at hS
        | cons r S =>
          rw [List.map_cons, List.map_cons, List.cons.injEq] at hS
          refine .cons ?_ (ih S hS.2)
          intro c
          rw [hS.1]
          unfold widen
          dsimp only
          exact ⟨fun h => if_pos h, fun h => if_neg h⟩
    apply this
    rw [newRows_map R Row.cells (fun _ _ => rfl), hRA, List.map_map]
    rfl
  · intro c
    rw [e3, ← hX]
    dsimp only
    rw [List.mem_filter]
    have : c ∈ (stack l).cols ↔ ∃ g ∈ l, c ∈ g.cols := mem_dedup_cols _ c
    rw [this]
    constructor
    · rintro ⟨h1, h2⟩
      exact ⟨by simpa using h2, h1⟩
    · rintro ⟨h1, h2⟩
      exact ⟨h2, by simpa using h1⟩
  · intro p hp
    rw [hS, hE]
    exact ⟨m1.1 _ (List.mem_map_of_mem hp), m2.1 _ (List.mem_map_of_mem hp)⟩
  · intro hne
    rw [hS, hE]
    obtain ⟨p, hp, h1⟩ := List.mem_map.1 (m1.2 (by simpa using hne))
    obtain ⟨q, hq, h2⟩ := List.mem_map.1 (m2.2 (by simpa using hne))
    exact ⟨⟨p, hp, h1.symm⟩, q, hq, h2.symm⟩

/-- A grid of two cells with start and end in the index. -/
def timedGrid (t u : ℤ) : Grid :=
  { names := [some "starttime", some "endtime", some "cell_id"], cols := requiredCols, number := fun _ => true,
    rows := [{ numberRow 0 7 with idx := [(t : WithTop ℤ), (u : WithTop ℤ), 0] }, { numberRow 1 5 with idx := [(t : WithTop ℤ), (u : WithTop ℤ), 1] }], name := none, starttime := t, endtime := u }

/-- Two grids with times meet the hypotheses; the result has four rows, from the first start to the last end. -/
example : ∃ h, RateGrid.concat [timedGrid 3 4, timedGrid 8 9] = .ok h ∧ h.rows.length = 4 ∧ h.starttime = 3 ∧ h.endtime = 9 := by
  obtain ⟨h, ids, h1, _, _, _, h5, _, h7, h8⟩ := C55_concat_timed [timedGrid 3 4, timedGrid 8 9] true (by simp)
    (by intro g hg; simp only [List.mem_cons, List.not_mem_nil, or_false] at hg; rcases hg with rfl | rfl <;> rfl)
    (by
      intro g hg r hr
      simp only [List.mem_cons, List.not_mem_nil, or_false] at hg
      rcases hg with rfl | rfl <;> (simp only [timedGrid, List.mem_cons, List.not_mem_nil, or_false] at hr; rcases hr with rfl | rfl <;> rfl))
    (by intro g hg; simp only [List.mem_cons, List.not_mem_nil, or_false] at hg; rcases hg with rfl | rfl <;> (unfold timedGrid hasCols; rw [List.all_eq_true]; intro x hx; exact decide_eq_true hx))
    (by intro g hg; simp only [List.mem_cons, List.not_mem_nil, or_false] at hg; rcases hg with rfl | rfl <;> (simp [timedGrid]))
    (by
      intro g hg r hr t ht
      simp only [List.mem_cons, List.not_mem_nil, or_false] at hg
      rcases hg with rfl | rfl <;> (simp only [timedGrid, List.mem_cons, List.not_mem_nil, or_false] at hr; rcases hr with rfl | rfl <;> (simp only [List.mem_cons, List.not_mem_nil, or_false] at ht; rcases ht with rfl | rfl | rfl <;> exact WithTop.coe_ne_top)))
  have hA : allRows [timedGrid 3 4, timedGrid 8 9] ≠ [] := by simp [allRows, timedGrid]
  refine ⟨h, h1, by rw [← h5.length_eq]; rfl, ?_, ?_⟩
  · apply le_antisymm
    · exact (h7 (timedGrid 3 4, { numberRow 0 7 with idx := [3, 4, 0] }) (by unfold allRows timedGrid; simp)).1
    · obtain ⟨⟨p, hp, e⟩, _⟩ := h8 hA
      rw [e]
      simp only [allRows, timedGrid, List.flatMap_cons, List.flatMap_nil, List.append_nil, List.map_cons, List.map_nil, List.cons_append, List.nil_append, List.mem_cons, List.not_mem_nil, or_false] at hp
      rcases hp with rfl | rfl | rfl | rfl <;> simp <;> decide
  · apply le_antisymm
    · obtain ⟨_, p, hp, e⟩ := h8 hA
      rw [e]
      simp only [allRows, timedGrid, List.flatMap_cons, List.flatMap_nil, List.append_nil, List.map_cons, List.map_nil, List.cons_append, List.nil_append, List.mem_cons, List.not_mem_nil, or_false] at hp
      rcases hp with rfl | rfl | rfl | rfl <;> simp <;> decide
    · exact (h7 (timedGrid 8 9, { numberRow 0 7 with idx := [8, 9, 0] }) (by unfold allRows timedGrid; simp)).2

end SeismoStats.Props
