/-
C93: the classes of rate grids and `strip`.
-/
import Verif.Model.RateGridClass
import Verif.Props.RateGrid

namespace SeismoStats.Props.GridClass
open SeismoStats SeismoStats.Props SeismoStats.RateGrid
open SeismoStats.Catalog (Val hasCols requireCols)
open Classical

/-! ### Specification -/

/-- All nine columns of a rate grid are there. -/
def Complete (cols : List String) : Prop :=
  "longitude_min" ∈ cols ∧ "longitude_max" ∈ cols ∧ "latitude_min" ∈ cols ∧ "latitude_max" ∈ cols ∧ "depth_min" ∈ cols ∧ "depth_max" ∈ cols ∧
    "a" ∈ cols ∧ "b" ∈ cols ∧ "mc" ∈ cols

/-- The class that fits the columns. -/
def Fits (k : GCls) (cols : List String) : Prop :=
  match k with
  | .plain => ¬ Complete cols
  | .grid => Complete cols ∧ "grid_id" ∉ cols
  | .forecast => Complete cols ∧ "grid_id" ∈ cols

/-- Same content: the cells of every row, and the same columns up to one called `cell` (which the renumbering of cells uses). -/
def SameContent (g h : Grid) : Prop :=
  h.rows.map Row.cells = g.rows.map Row.cells ∧ (h.cols = g.cols ∨ h.cols = g.cols.filter fun c => !decide (c = "cell")) ∧ (g.names.length ≤ 1 → h.rows = g.rows ∧ h.names = g.names ∧ h.cols = g.cols)

/-- Name and times. -/
def SameAttrs (g h : Grid) : Prop := h.name = g.name ∧ h.starttime = g.starttime ∧ h.endtime = g.endtime

/-- An index that the constructor can renumber: no level of cells, or the bounds are columns of numbers. -/
def Renumberable (g : Grid) : Prop := g.names.length ≤ 1 ∨ some "cell_id" ∉ g.names ∨ boundCols.all g.number = true

/-! ### Lemmas -/

theorem hasCols_iff (req cols : List String) : hasCols req cols = true ↔ ∀ c ∈ req, c ∈ cols := by
  unfold hasCols
  simp

theorem complete_iff (cols : List String) : hasCols requiredCols cols = true ↔ Complete cols := by
  rw [hasCols_iff]
  unfold requiredCols boundCols Complete
  simp

theorem classOf_fits (cols : List String) : Fits (classOf cols) cols := by
  unfold classOf
  by_cases h : hasCols requiredCols cols = true
  · by_cases h2 : hasCols ["grid_id"] cols = true
    · rw [if_neg (by simp [h]), if_neg (by simp [h2])]
      exact ⟨(complete_iff cols).1 h, by simpa [hasCols_iff] using h2⟩
    · rw [if_neg (by simp [h]), if_pos (by simpa using h2)]
      exact ⟨(complete_iff cols).1 h, by simpa [hasCols_iff] using h2⟩
  · rw [if_pos (by simpa using h)]
    exact fun hc => h ((complete_iff cols).2 hc)

theorem fits_unique {k l : GCls} {cols : List String} (h1 : Fits k cols) (h2 : Fits l cols) : k = l := by
  cases k <;> cases l <;> simp_all [Fits]

theorem fits_congr {k : GCls} {c d : List String} (h : ∀ x, x ≠ "cell" → (x ∈ c ↔ x ∈ d)) : Fits k c ↔ Fits k d := by
  have hc : Complete c ↔ Complete d := by
    unfold Complete
    rw [h _ (by decide), h _ (by decide), h _ (by decide), h _ (by decide), h _ (by decide), h _ (by decide), h _ (by decide), h _ (by decide), h _ (by decide)]
  have hg : "grid_id" ∈ c ↔ "grid_id" ∈ d := h _ (by decide)
  cases k <;> simp [Fits, hc, hg]

theorem same_cols {g h : Grid} (hs : SameContent g h) : ∀ c, c ≠ "cell" → (c ∈ h.cols ↔ c ∈ g.cols) := by
  intro c hc
  rcases hs.2.1 with h1 | h1 <;> rw [h1]
  simp [hc]

theorem setTimes_content (x : Grid) : (setTimes x).rows = x.rows ∧ (setTimes x).names = x.names ∧ (setTimes x).cols = x.cols := by
  unfold setTimes
  split <;> exact ⟨rfl, rfl, rfl⟩

theorem construct_content (g : Grid) (hr : Renumberable g) : ∃ h, construct g = .ok h ∧ SameContent g h := by
  by_cases hlev : 1 < g.names.length
  · by_cases hcols : hasCols requiredCols g.cols = true
    · by_cases hcell : some "cell_id" ∈ g.names
      · have hnum : boundCols.all g.number = true := by
          rcases hr with h | h | h
          · omega
          · exact absurd hcell h
          · exact h
        obtain ⟨h, ids, h1, -, h3, -, -, h6⟩ := C55_cell_numbers g hlev hcell hcols hnum
        exact ⟨h, h1, h3, Or.inr h6, fun hh => absurd hh (by omega)⟩
      · refine ⟨setTimes (bare g), ?_, ?_⟩
        · unfold construct
          dsimp only
          rw [if_pos hlev]
          unfold reindex
          rw [if_pos hcols]
          unfold renumber
          dsimp only
          rw [if_neg hcell]
          rfl
        · obtain ⟨e1, e2, e3⟩ := setTimes_content (bare g)
          refine ⟨by rw [e1]; rfl, Or.inl (by rw [e3]; rfl), fun hh => absurd hh (by omega)⟩
    · obtain ⟨h, h1, h2, h3, h4⟩ := C55_incomplete_data g (Or.inl (by simpa using hcols))
      exact ⟨h, h1, by rw [h2], Or.inl h4, fun _ => ⟨h2, h3, h4⟩⟩
  · obtain ⟨h, h1, h2, h3, h4⟩ := C55_incomplete_data g (Or.inr (by omega))
    exact ⟨h, h1, by rw [h2], Or.inl h4, fun _ => ⟨h2, h3, h4⟩⟩

theorem construct_only (g h : Grid) (hc : construct g = .ok h) : SameContent g h := by
  by_cases hr : Renumberable g
  · obtain ⟨h', h1, h2⟩ := construct_content g hr
    rw [hc] at h1
    exact Except.ok.inj h1 ▸ h2
  · unfold Renumberable at hr
    push Not at hr
    obtain ⟨hlev, hcell, hnum⟩ := hr
    by_cases hcols : hasCols requiredCols g.cols = true
    · exfalso
      unfold construct at hc
      dsimp only at hc
      rw [if_pos hlev] at hc
      unfold reindex at hc
      rw [if_pos hcols] at hc
      unfold renumber at hc
      dsimp only at hc
      rw [if_pos hcell, if_neg hnum] at hc
      cases hc
    · obtain ⟨h', h1, h2, h3, h4⟩ := C55_incomplete_data g (Or.inl (by simpa using hcols))
      rw [hc] at h1
      obtain rfl := Except.ok.inj h1
      exact ⟨by rw [h2], Or.inl h4, fun _ => ⟨h2, h3, h4⟩⟩

/-! ### The class and the attributes of a result -/

theorem fallback_ok {g : Grid} {n : GObj} (h : fallback g = .ok n) :
    Fits n.cls g.cols ∧ SameContent g n.grid ∧ n.required = n.cls.required ∧ n.nGrids = none := by
  unfold fallback at h
  cases hc : construct g with
  | error e => rw [hc] at h; cases h
  | ok x =>
    rw [hc] at h
    dsimp only at h
    have hs := construct_only g x hc
    have hf : Fits (classOf x.cols) g.cols := (fits_congr (same_cols hs)).1 (classOf_fits x.cols)
    cases hk : classOf x.cols with
    | plain =>
      rw [hk] at h hf
      obtain rfl := Except.ok.inj h
      exact ⟨hf, ⟨rfl, Or.inl rfl, fun _ => ⟨rfl, rfl, rfl⟩⟩, rfl, rfl⟩
    | grid =>
      rw [hk] at h hf
      unfold newOf at h
      rw [hc] at h
      obtain rfl := Except.ok.inj h
      exact ⟨hf, hs, rfl, rfl⟩
    | forecast =>
      rw [hk] at h hf
      unfold newOf at h
      rw [hc] at h
      obtain rfl := Except.ok.inj h
      exact ⟨hf, hs, rfl, rfl⟩

theorem finalizeObj_facts (n o : GObj) :
    (finalizeObj n o).cls = n.cls ∧ (finalizeObj n o).grid.rows = n.grid.rows ∧ (finalizeObj n o).grid.cols = n.grid.cols ∧
      (finalizeObj n o).grid.names = n.grid.names ∧
      (n.cls ≠ .plain → o.cls ≠ .plain → SameAttrs o.grid (finalizeObj n o).grid ∧ (finalizeObj n o).required = o.required) ∧
      (finalizeObj n o).nGrids = if n.cls = .forecast ∧ o.cls = .forecast then o.nGrids else n.nGrids := by
  unfold finalizeObj
  cases h1 : n.cls <;> cases h2 : o.cls <;> simp [h1, finalize, SameAttrs]

theorem operation_ok {f : Grid → Grid} {o n : GObj} (h : operation f o = .ok n) (ho : o.cls ≠ .plain) :
    ∃ m, fallback (f o.grid) = .ok m ∧ n = finalizeObj m o := by
  have : constructorOf o (f o.grid) = fallback (f o.grid) := by
    unfold constructorOf
    cases hc : o.cls <;> first | exact absurd hc ho | rfl
  unfold operation at h
  rw [this] at h
  cases hf : fallback (f o.grid) with
  | error e => rw [hf] at h; cases h
  | ok m =>
    rw [hf] at h
    exact ⟨m, rfl, (Except.ok.inj h).symm⟩

/-- C93: a frame operation on a rate grid gives an object of the class that fits its columns; the cells are those of the content; name, times and the columns
that `strip` keeps are taken over if it still is a rate grid; `n_grids` only if both are forecasts. -/
theorem C93_operation (f : Grid → Grid) (o n : GObj) (ho : o.cls ≠ .plain) (h : operation f o = .ok n) :
    Fits n.cls (f o.grid).cols ∧ SameContent (f o.grid) n.grid ∧
      (n.cls ≠ .plain → SameAttrs o.grid n.grid ∧ n.required = o.required) ∧
      n.nGrids = (if n.cls = .forecast ∧ o.cls = .forecast then o.nGrids else none) := by
  obtain ⟨m, h1, rfl⟩ := operation_ok h ho
  obtain ⟨f1, f2, f3, f4, f5, f6⟩ := finalizeObj_facts m o
  obtain ⟨m1, m2, m3, m4⟩ := fallback_ok h1
  rw [f1]
  refine ⟨m1, ⟨by rw [f2]; exact m2.1, by rw [f3]; exact m2.2.1, by rw [f2, f3, f4]; exact m2.2.2⟩, fun hp => f5 hp ho, ?_⟩
  rw [f6, m4]

/-- C93: an operation raises only if the constructor has to renumber cells whose bounds are not numbers. -/
theorem C93_operation_succeeds (f : Grid → Grid) (o : GObj) (hr : Renumberable (f o.grid)) : ∃ n, operation f o = .ok n := by
  have hfb : ∃ m, fallback (f o.grid) = .ok m := by
    obtain ⟨x, h1, -⟩ := construct_content (f o.grid) hr
    unfold fallback
    rw [h1]
    dsimp only
    cases classOf x.cols with
    | plain => exact ⟨_, rfl⟩
    | grid => unfold newOf; rw [h1]; exact ⟨_, rfl⟩
    | forecast => unfold newOf; rw [h1]; exact ⟨_, rfl⟩
  obtain ⟨m, hm⟩ := hfb
  unfold operation constructorOf
  cases o.cls with
  | plain => exact ⟨_, rfl⟩
  | grid => dsimp only; rw [hm]; exact ⟨_, rfl⟩
  | forecast => dsimp only; rw [hm]; exact ⟨_, rfl⟩

/-- A plain frame stays plain. -/
theorem operation_plain (f : Grid → Grid) (o n : GObj) (ho : o.cls = .plain) (h : operation f o = .ok n) : n.cls = .plain := by
  unfold operation constructorOf at h
  rw [ho] at h
  have := Except.ok.inj h
  rw [← this]
  rfl

/-- C93: after any number of operations on a rate grid, a result that is a rate grid still has the name, the times and the columns for `strip` of the first
object, and its `n_grids` or none. -/
theorem C93_history (fs : List (Grid → Grid)) (o n : GObj) (h : operations fs o = .ok n) (hn : n.cls ≠ .plain) :
    SameAttrs o.grid n.grid ∧ n.required = o.required ∧ (n.nGrids = o.nGrids ∨ n.nGrids = none) ∧ o.cls ≠ .plain := by
  induction fs generalizing o with
  | nil =>
    obtain rfl := Except.ok.inj h
    exact ⟨⟨rfl, rfl, rfl⟩, rfl, Or.inl rfl, hn⟩
  | cons f r ih =>
    unfold operations at h
    cases hm : operation f o with
    | error e => rw [hm] at h; cases h
    | ok m =>
      rw [hm] at h
      obtain ⟨⟨a1, a2, a3⟩, a4, a5, a6⟩ := ih m h
      have ho : o.cls ≠ .plain := fun hp => a6 (operation_plain f o m hp hm)
      obtain ⟨-, -, b3, b4⟩ := C93_operation f o m ho hm
      obtain ⟨⟨c1, c2, c3⟩, c4⟩ := b3 a6
      refine ⟨⟨a1.trans c1, a2.trans c2, a3.trans c3⟩, a4.trans c4, ?_, ho⟩
      rcases a5 with a5 | a5
      · rw [a5, b4]
        split
        · exact Or.inl rfl
        · exact Or.inr rfl
      · exact Or.inr a5

/-! ### strip -/

/-- The object keeps the columns of a rate grid, or also `grid_id`. -/
def Keeps (o : GObj) : Prop := o.required = requiredCols ∨ o.required = requiredCols ++ ["grid_id"]

theorem not_required_cell : "cell" ∉ requiredCols ++ ["grid_id"] := by decide

/-- The content that `strip` leaves. -/
def Stripped (o n : GObj) : Prop :=
  (∀ c, c ∈ n.grid.cols ↔ c ∈ o.grid.cols ∧ c ∈ o.required) ∧ n.grid.rows.map Row.cells = o.grid.rows.map Row.cells ∧ SameAttrs o.grid n.grid ∧
    n.required = o.required ∧ (o.grid.names.length ≤ 1 → n.grid.rows = o.grid.rows ∧ n.grid.cols = o.grid.cols.filter fun c => decide (c ∈ o.required))

theorem stripped_of {o : GObj} (hk : Keeps o) {n : Grid} (hs : SameContent (dropCols (fun c => !decide (c ∈ o.required)) o.grid) n) :
    (∀ c, c ∈ n.cols ↔ c ∈ o.grid.cols ∧ c ∈ o.required) ∧ n.rows.map Row.cells = o.grid.rows.map Row.cells ∧
      (o.grid.names.length ≤ 1 → n.rows = o.grid.rows ∧ n.cols = o.grid.cols.filter fun c => decide (c ∈ o.required)) := by
  have hcell : "cell" ∉ o.required := by
    rcases hk with h | h <;> rw [h] <;> decide
  have hcols : (dropCols (fun c => !decide (c ∈ o.required)) o.grid).cols = o.grid.cols.filter fun c => decide (c ∈ o.required) := by
    unfold dropCols
    simp
  refine ⟨fun c => ?_, hs.1, fun hl => ?_⟩
  · by_cases hc : c = "cell"
    · subst hc
      rcases hs.2.1 with h1 | h1 <;> rw [h1, hcols] <;> simp [hcell]
    · rw [same_cols hs c hc, hcols]
      simp
  · obtain ⟨h1, -, h3⟩ := hs.2.2 hl
    exact ⟨h1, h3.trans hcols⟩

theorem callStrip_rate (o : GObj) (inplace : Bool) (ho : o.cls ≠ .plain) : callStrip o inplace = RateGrid.strip o inplace := by
  unfold callStrip
  cases h : o.cls <;> first | exact absurd h ho | rfl

theorem effective_nil (req : List String) : Catalog.effective req [] = req := by
  unfold Catalog.effective
  simp

theorem renumberable_drop (p : String → Bool) (g : Grid) (h : Renumberable g) : Renumberable (dropCols p g) := h

/-- C93: `strip` of a complete rate grid gives a new object with the columns that the object keeps, all cells, name and times; it is a forecast exactly if
`grid_id` is kept. The object itself does not change. -/
theorem C93_strip (o : GObj) (ho : o.cls ≠ .plain) (hk : Keeps o) (hc : Complete o.grid.cols) (hr : Renumberable o.grid) :
    ∃ n, callStrip o false = (o, .ok (some n)) ∧ Stripped o n ∧
      n.cls = (if "grid_id" ∈ o.grid.cols ∧ "grid_id" ∈ o.required then .forecast else .grid) ∧
      n.nGrids = (if n.cls = .forecast ∧ o.cls = .forecast then o.nGrids else none) := by
  obtain ⟨n, hn⟩ := C93_operation_succeeds (dropCols fun c => !decide (c ∈ o.required)) o (renumberable_drop _ _ hr)
  obtain ⟨h1, h2, h3, h4⟩ := C93_operation _ o n ho hn
  obtain ⟨s1, s2, s3⟩ := stripped_of hk h2
  have hcls : n.cls = (if "grid_id" ∈ o.grid.cols ∧ "grid_id" ∈ o.required then .forecast else .grid) := by
    refine fits_unique h1 ?_
    have hreq : ∀ c ∈ requiredCols, c ∈ o.required := by
      intro c hc
      rcases hk with h | h <;> rw [h] <;> simp [hc]
    have hcomp : Complete (dropCols (fun c => !decide (c ∈ o.required)) o.grid).cols := by
      rw [← complete_iff, hasCols_iff]
      intro c hcr
      have := (hasCols_iff _ _).1 ((complete_iff _).2 hc) c hcr
      unfold dropCols
      simp [this, hreq c hcr]
    have hg : "grid_id" ∈ (dropCols (fun c => !decide (c ∈ o.required)) o.grid).cols ↔ "grid_id" ∈ o.grid.cols ∧ "grid_id" ∈ o.required := by
      unfold dropCols
      simp
    split
    · rename_i hh
      exact ⟨hcomp, hg.2 hh⟩
    · rename_i hh
      exact ⟨hcomp, fun hx => hh (hg.1 hx)⟩
  refine ⟨n, ?_, ?_, hcls, h4⟩
  · rw [callStrip_rate o _ ho]
    unfold RateGrid.strip requireCols
    rw [effective_nil, if_pos ((complete_iff _).2 hc)]
    dsimp only
    rw [if_neg (by simp), hn]
    rfl
  · have hp : n.cls ≠ .plain := by
      rw [hcls]
      split <;> simp
    exact ⟨s1, s2, (h3 hp).1, (h3 hp).2, s3⟩

/-- C93: in place the object loses the other columns and keeps everything else, also its class. -/
theorem C93_strip_inplace (o : GObj) (ho : o.cls ≠ .plain) (hk : Keeps o) (hc : Complete o.grid.cols) (hr : Renumberable o.grid) :
    ∃ n, callStrip o true = (n, .ok none) ∧ Stripped o n ∧ n.cls = o.cls ∧ n.nGrids = o.nGrids := by
  obtain ⟨n, hn⟩ := C93_operation_succeeds (dropCols fun c => !decide (c ∈ o.required)) o (renumberable_drop _ _ hr)
  obtain ⟨h1, h2, h3, h4⟩ := C93_operation _ o n ho hn
  obtain ⟨s1, s2, s3⟩ := stripped_of hk h2
  refine ⟨{ o with grid := finalize o.grid n.grid }, ?_, ⟨s1, s2, ⟨rfl, rfl, rfl⟩, rfl, s3⟩, rfl, rfl⟩
  rw [callStrip_rate o _ ho]
  unfold RateGrid.strip requireCols
  rw [effective_nil, if_pos ((complete_iff _).2 hc)]
  dsimp only
  rw [if_pos rfl]
  unfold dropInplace
  rw [hn]
  rfl

/-- C93: without all nine columns, and on a plain frame, `strip` raises an AttributeError and changes nothing. -/
theorem C93_strip_refused (o : GObj) (inplace : Bool) (hc : o.cls = .plain ∨ ¬ Complete o.grid.cols) : callStrip o inplace = (o, .error .attributeError) := by
  unfold callStrip
  rcases hc with hc | hc
  · rw [hc]
  have h : RateGrid.strip o inplace = (o, .error .attributeError) := by
    unfold RateGrid.strip requireCols
    rw [effective_nil, if_neg fun h => hc ((complete_iff _).1 h)]
  cases o.cls <;> first | rfl | exact h

/-- C93: an object of a class that is made by calling the class keeps its own columns: `strip` of a `ForecastGRRateGrid` leaves a `ForecastGRRateGrid` with
`grid_id`, `strip` of a `GRRateGrid` a `GRRateGrid` without. -/
theorem C93_strip_new (k : GCls) (hk : k ≠ .plain) (g : Grid) (o : GObj) (h : newOf k g = .ok o) (hc : Complete g.cols) (hf : k = .forecast → "grid_id" ∈ g.cols)
    (hr : Renumberable o.grid) : ∃ n, callStrip o false = (o, .ok (some n)) ∧ n.cls = k ∧
      ∀ c, c ∈ n.grid.cols ↔ c ∈ g.cols ∧ (c ∈ requiredCols ∨ (k = .forecast ∧ c = "grid_id")) := by
  have hcon : ∃ x, construct g = .ok x ∧ o = { cls := k, grid := x, required := k.required, nGrids := none } := by
    unfold newOf at h
    cases hx : construct g with
    | error e => rw [hx] at h; cases k <;> first | exact absurd rfl hk | cases h
    | ok x =>
      rw [hx] at h
      cases k <;> first | exact absurd rfl hk | exact ⟨x, rfl, (Except.ok.inj h).symm⟩
  obtain ⟨x, hx, rfl⟩ := hcon
  have hs := same_cols (construct_only g x hx)
  have hkeep : Keeps { cls := k, grid := x, required := k.required, nGrids := none } := by
    cases k with
    | plain => exact absurd rfl hk
    | grid => exact Or.inl rfl
    | forecast => exact Or.inr rfl
  have hcomp : Complete x.cols := by
    rw [← complete_iff, hasCols_iff]
    intro c hcr
    rw [hs c (by rintro rfl; exact absurd hcr (by decide))]
    exact (hasCols_iff _ _).1 ((complete_iff _).2 hc) c hcr
  obtain ⟨n, h1, h2, h3, -⟩ := C93_strip _ hk hkeep hcomp hr
  refine ⟨n, h1, ?_, fun c => ?_⟩
  · rw [h3]
    cases k with
    | plain => exact absurd rfl hk
    | grid => rw [if_neg (by rintro ⟨-, hh⟩; exact absurd hh (by show "grid_id" ∉ requiredCols; decide))]
    | forecast => rw [if_pos ⟨(hs _ (by decide)).2 (hf rfl), by show "grid_id" ∈ requiredCols ++ ["grid_id"]; simp⟩]
  · rw [h2.1 c]
    by_cases hcc : c = "cell"
    · subst hcc
      constructor
      · rintro ⟨-, hh⟩
        exfalso
        revert hh
        cases k with
        | plain => exact absurd rfl hk
        | grid => show "cell" ∈ requiredCols → False; decide
        | forecast => show "cell" ∈ requiredCols ++ ["grid_id"] → False; decide
      · rintro ⟨-, hh | hh⟩
        · exact absurd hh (by decide)
        · exact absurd hh.2 (by decide)
    · show c ∈ x.cols ∧ c ∈ k.required ↔ _
      rw [hs c hcc]
      cases k with
      | plain => exact absurd rfl hk
      | grid => simp [GCls.required]
      | forecast => simp [GCls.required]

/-- C93: assigning a column gives it the values, one for each row, and changes nothing else: the class, the attributes, the other columns and the index stay. -/
theorem C93_assign (c : String) (v : List (Val ℝ)) (o : GObj) (hv : v.length = o.grid.rows.length) :
    (assign c v o).cls = o.cls ∧ (assign c v o).required = o.required ∧ (assign c v o).nGrids = o.nGrids ∧ SameAttrs o.grid (assign c v o).grid ∧
      (assign c v o).grid.names = o.grid.names ∧ (∀ k, k ∈ (assign c v o).grid.cols ↔ k = c ∨ k ∈ o.grid.cols) ∧
      (assign c v o).grid.rows.map (fun r => r.cells c) = v ∧
      (∀ k, k ≠ c → (assign c v o).grid.rows.map (fun r => r.cells k) = o.grid.rows.map fun r => r.cells k) ∧
      (assign c v o).grid.rows.map (fun r => r.idx) = o.grid.rows.map fun r => r.idx := by
  refine ⟨rfl, rfl, rfl, ⟨rfl, rfl, rfl⟩, rfl, fun k => ?_, ?_, fun k hk => ?_, ?_⟩
  · show (k ∈ if c ∈ o.grid.cols then o.grid.cols else o.grid.cols ++ [c]) ↔ _
    split
    · constructor
      · exact Or.inr
      · rintro (rfl | h) <;> assumption
    · rw [List.mem_append, List.mem_singleton, or_comm]
  all_goals
    unfold assign
    dsimp only
    generalize o.grid.rows = rows at hv ⊢
    induction rows generalizing v with
    | nil => first | rfl | (cases v with | nil => rfl | cons x v => cases hv)
    | cons r rows ih =>
      cases v with
      | nil => cases hv
      | cons x v =>
        have := ih v (Nat.succ.inj hv)
        simp only [List.zipWith_cons_cons, List.map_cons, this, if_true]
        first | done | rw [if_neg hk]

/-- C93, defect: a copy of a `GRRateGrid` to which `grid_id` was added is a `ForecastGRRateGrid`, but its `strip` removes `grid_id` and gives a `GRRateGrid`: the
columns to keep were copied with the attributes. -/
theorem C93_defect_grid_id_stripped (o : GObj) (ho : o.cls = .grid) (hreq : o.required = requiredCols) (hc : Complete o.grid.cols) (hlev : o.grid.names.length ≤ 1)
    (ids : List (Val ℝ)) :
    ∃ m n, operation id (assign "grid_id" ids o) = .ok m ∧ m.cls = .forecast ∧ callStrip m false = (m, .ok (some n)) ∧ n.cls = .grid ∧ "grid_id" ∉ n.grid.cols := by
  have hp : (assign "grid_id" ids o).cls ≠ .plain := by
    show o.cls ≠ .plain
    rw [ho]
    simp
  have hcols : ∀ c, c ∈ (assign "grid_id" ids o).grid.cols ↔ c ∈ o.grid.cols ∨ c = "grid_id" := by
    intro c
    unfold assign
    dsimp only
    split
    · constructor
      · exact Or.inl
      · rintro (h | rfl)
        · exact h
        · assumption
    · simp
  have hr : Renumberable (id (assign "grid_id" ids o).grid) := Or.inl hlev
  obtain ⟨m, hm⟩ := C93_operation_succeeds id (assign "grid_id" ids o) hr
  obtain ⟨h1, h2, h3, -⟩ := C93_operation id _ m hp hm
  have hcomp : Complete (assign "grid_id" ids o).grid.cols := by
    rw [← complete_iff, hasCols_iff]
    intro c hcr
    rw [hcols]
    exact Or.inl ((hasCols_iff _ _).1 ((complete_iff _).2 hc) c hcr)
  have hcls : m.cls = .forecast := fits_unique h1 ⟨hcomp, (hcols _).2 (Or.inr rfl)⟩
  have hmp : m.cls ≠ .plain := by rw [hcls]; simp
  have hmr : m.required = requiredCols := (h3 hmp).2.trans hreq
  obtain ⟨e1, e2, e3⟩ := h2.2.2 hlev
  have hmc : Complete m.grid.cols := by rw [e3]; exact hcomp
  have hml : m.grid.names.length ≤ 1 := by rw [e2]; exact hlev
  obtain ⟨n, n1, n2, n3, -⟩ := C93_strip m hmp (Or.inl hmr) hmc (Or.inl hml)
  have hg : "grid_id" ∉ m.required := by rw [hmr]; decide
  refine ⟨m, n, hm, hcls, n1, ?_, fun hh => hg ((n2.1 _).1 hh).2⟩
  rw [n3, if_neg fun hh => hg hh.2]

/-- C93, defect: `n_grids` is lost when `grid_id` is removed and added again. -/
theorem C93_defect_n_grids (o : GObj) (ho : o.cls = .forecast) (hc : Complete o.grid.cols) (hlev : o.grid.names.length ≤ 1) (ids : List (Val ℝ)) :
    ∃ m n, operation (dropCols fun c => decide (c = "grid_id")) o = .ok m ∧ m.cls = .grid ∧ operation id (assign "grid_id" ids m) = .ok n ∧ n.cls = .forecast ∧
      n.nGrids = none := by
  obtain ⟨m, hm⟩ := C93_operation_succeeds (dropCols fun c => decide (c = "grid_id")) o (Or.inl hlev)
  obtain ⟨h1, h2, h3, h4⟩ := C93_operation _ o m (by rw [ho]; simp) hm
  have hcomp : Complete (dropCols (fun c => decide (c = "grid_id")) o.grid).cols := by
    rw [← complete_iff, hasCols_iff]
    intro c hcr
    have h := (hasCols_iff _ _).1 ((complete_iff _).2 hc) c hcr
    have hne : c ≠ "grid_id" := by rintro rfl; exact absurd hcr (by decide)
    unfold dropCols
    simp [h, hne]
  have hcls : m.cls = .grid := fits_unique h1 ⟨hcomp, by unfold dropCols; simp⟩
  obtain ⟨e1, e2, e3⟩ := h2.2.2 hlev
  have hl : m.grid.names.length ≤ 1 := by rw [e2]; exact hlev
  have hcols : ∀ c, c ∈ (assign "grid_id" ids m).grid.cols ↔ c ∈ m.grid.cols ∨ c = "grid_id" := by
    intro c
    unfold assign
    dsimp only
    split
    · constructor
      · exact Or.inl
      · rintro (h | rfl)
        · exact h
        · assumption
    · simp
  obtain ⟨n, hn⟩ := C93_operation_succeeds id (assign "grid_id" ids m) (Or.inl hl)
  obtain ⟨g1, -, -, g4⟩ := C93_operation id _ n (by show m.cls ≠ .plain; rw [hcls]; simp) hn
  have hcomp2 : Complete (assign "grid_id" ids m).grid.cols := by
    rw [← complete_iff, hasCols_iff]
    intro c hcr
    rw [hcols, e3]
    exact Or.inl ((hasCols_iff _ _).1 ((complete_iff _).2 hcomp) c hcr)
  have hncls : n.cls = .forecast := fits_unique g1 ⟨hcomp2, (hcols _).2 (Or.inr rfl)⟩
  refine ⟨m, n, hm, hcls, hn, hncls, ?_⟩
  rw [g4, if_neg]
  rintro ⟨-, hh⟩
  have : m.cls = .forecast := hh
  rw [hcls] at this
  cases this

/-! ### Examples -/

/-- One cell with an additional column. -/
def oneCell (extra : List String) : Grid :=
  { names := [none], cols := requiredCols ++ extra, number := fun _ => true, rows := [{ idx := [0], cells := fun _ => .num 1 }], name := some "grid", starttime := 5, endtime := 7 }

example : Complete (oneCell ["number_events", "grid_id"]).cols ∧ Renumberable (oneCell ["number_events", "grid_id"]) :=
  ⟨by unfold Complete oneCell; decide, Or.inl (by simp [oneCell])⟩

/-- A forecast loses `number_events` and keeps `grid_id`, in the new object as in place. -/
example : ∃ n, callStrip { cls := .forecast, grid := oneCell ["number_events", "grid_id"], required := requiredCols ++ ["grid_id"], nGrids := some 4 } false =
      ({ cls := .forecast, grid := oneCell ["number_events", "grid_id"], required := requiredCols ++ ["grid_id"], nGrids := some 4 }, .ok (some n)) ∧
    n.cls = .forecast ∧ n.nGrids = some 4 ∧ n.grid.cols = requiredCols ++ ["grid_id"] ∧ n.grid.name = some "grid" := by
  obtain ⟨n, h1, h2, h3, h4⟩ := C93_strip { cls := .forecast, grid := oneCell ["number_events", "grid_id"], required := requiredCols ++ ["grid_id"], nGrids := some 4 }
    (by simp) (Or.inr rfl) (by unfold Complete oneCell; decide) (Or.inl (by simp [oneCell]))
  have hcls : n.cls = .forecast := by
    rw [h3, if_pos ⟨by unfold oneCell; decide, by decide⟩]
  refine ⟨n, h1, hcls, ?_, ?_, h2.2.2.1.1⟩
  · rw [h4, if_pos ⟨hcls, rfl⟩]
  · rw [(h2.2.2.2.2 (by simp [oneCell])).2]
    unfold oneCell
    decide

/-- The hypotheses of the defects are met. -/
example : ∃ m n, operation id (assign "grid_id" [.num 0] { cls := .grid, grid := oneCell [], required := requiredCols, nGrids := none }) = .ok m ∧ m.cls = .forecast ∧
    callStrip m false = (m, .ok (some n)) ∧ n.cls = .grid ∧ "grid_id" ∉ n.grid.cols :=
  C93_defect_grid_id_stripped _ rfl rfl (by unfold Complete oneCell; decide) (by simp [oneCell]) _

/-- Two operations, then the attributes are still there. -/
example : ∃ n, operations [fun g => { g with rows := [] }, id] { cls := .grid, grid := oneCell ["x"], required := requiredCols, nGrids := none } = .ok n ∧
    n.cls = .grid ∧ n.grid.name = some "grid" ∧ n.grid.starttime = 5 := by
  obtain ⟨m, hm⟩ := C93_operation_succeeds (fun g => { g with rows := [] }) { cls := .grid, grid := oneCell ["x"], required := requiredCols, nGrids := none }
    (Or.inl (by simp [oneCell]))
  obtain ⟨a1, a2, a3, -⟩ := C93_operation _ _ m (by simp) hm
  have hc : Complete (oneCell ["x"]).cols := by unfold Complete oneCell; decide
  have hcls : m.cls = .grid := fits_unique a1 ⟨hc, by unfold oneCell; decide⟩
  obtain ⟨-, e2, e3⟩ := a2.2.2 (by simp [oneCell])
  obtain ⟨n, hn⟩ := C93_operation_succeeds id m (Or.inl (by rw [id, e2]; simp [oneCell]))
  obtain ⟨b1, -, -, -⟩ := C93_operation _ m n (by rw [hcls]; simp) hn
  have hcls2 : n.cls = .grid := fits_unique b1 (by rw [id, e3]; exact ⟨hc, by unfold oneCell; decide⟩)
  have hh : operations [fun g => { g with rows := [] }, id] { cls := .grid, grid := oneCell ["x"], required := requiredCols, nGrids := none } = .ok n := by
    unfold operations
    rw [hm]
    show (operations [id] m) = _
    unfold operations
    rw [hn]
    rfl
  obtain ⟨⟨k1, k2, -⟩, -, -, -⟩ := C93_history _ _ n hh (by rw [hcls2]; simp)
  exact ⟨n, hh, hcls2, k1, k2⟩

end SeismoStats.Props.GridClass
