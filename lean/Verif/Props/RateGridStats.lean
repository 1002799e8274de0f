/-
Property C56: statistics of rate grids.
-/
import Verif.Props.RateGrid

namespace SeismoStats.Props
open SeismoStats
open SeismoStats.RateGrid (Grid Row Agg Entry Stats bound bounds boundCols requiredCols construct metricCols liveCols addStat aggDict groupKeys aggRow outCols
  calculateStatistics setTimes reindex)
open SeismoStats.Catalog (Val hasCols)
open Classical

/-- Specification: a column with at least one value. -/
def Live (g : Grid) (c : String) : Prop := c ∈ g.cols ∧ ∃ r ∈ g.rows, r.cells c ≠ .na

theorem present_iff (v : Val ℝ) : RateGrid.present v = true ↔ v ≠ .na := by
  cases v <;> simp [RateGrid.present]

theorem mem_liveCols (g : Grid) (c : String) : c ∈ liveCols g ↔ Live g c := by
  unfold liveCols Live
  rw [List.mem_filter, List.any_eq_true]
  simp only [present_iff]

/-- Specification: the values of column `c` in the rows with key `k`. -/
noncomputable def valuesOf {α : Type} (key : Row → List (WithTop α)) (g : Grid) (k : List (WithTop α)) (c : String) : List (Val ℝ) :=
  (g.rows.filter fun r => decide (key r = k)).map fun r => r.cells c

/-- Specification: the columns that get further statistics. -/
def Metric (m : String) : Prop := m = "number_events" ∨ m = "b" ∨ m = "mc" ∨ m = "a" ∨ m = "alpha"

theorem metric_iff (m : String) : m ∈ metricCols ↔ Metric m := by simp [metricCols, Metric]

/-- Specification: name of the column with a further statistic. -/
def statName (m suffix : String) : String := m ++ "_" ++ suffix

/-- Specification: a row of the result for the rows with key `k`. -/
structure StatRow {α : Type} (key : Row → List (WithTop α)) (g : Grid) (agg : Agg) (extra : Dict Agg) (k : List (WithTop α)) (row : String → Val ℝ) : Prop where
  main : ∀ c, Live g c → g.number c = true → row c = agg (valuesOf key g k c)
  stat : ∀ suffix f m, (suffix, f) ∈ extra → Metric m → Live g m → ¬ Live g (statName m suffix) → row (statName m suffix) = f (valuesOf key g k m)

/-- Specification: columns of the result. -/
def StatCols (g : Grid) (extra : Dict Agg) (cols : List String) : Prop :=
  ∀ c, c ∈ cols ↔ c ≠ "grid_id" ∧ ((Live g c ∧ g.number c = true) ∨
    ∃ suffix f m, (suffix, f) ∈ extra ∧ Metric m ∧ Live g m ∧ c = statName m suffix ∧ ¬ Live g c)

/-- Specification: the keys of the result, each once and in order: those without missing part that some row has. -/
structure Keys {α : Type} [LinearOrder α] (key : Row → List (WithTop α)) (g : Grid) (ks : List (List (WithTop α))) : Prop where
  once : ks.Nodup
  sorted : ks.Pairwise (· ≤ ·)
  mem : ∀ k, k ∈ ks ↔ ⊤ ∉ k ∧ ∃ r ∈ g.rows, key r = k

theorem groupKeys_spec {α : Type} [LinearOrder α] (key : Row → List (WithTop α)) (g : Grid) : Keys key g (groupKeys (g.rows.map key)) where
  once := ((List.perm_insertionSort _ _).nodup_iff).2 (List.nodup_dedup _)
  sorted := List.pairwise_insertionSort _ _
  mem k := by
    unfold groupKeys
    rw [(List.perm_insertionSort _ _).mem_iff, List.mem_dedup, List.mem_filter, List.mem_map]
    simp only [Bool.not_eq_true', decide_eq_false_iff_not]
    exact and_comm

/-! ### The entries -/

theorem statName_inj (m m' s s' : String) (hm : m ∈ metricCols) (hm' : m' ∈ metricCols) (h : statName m s = statName m' s') : m = m' ∧ s = s' := by
  have h1 : m.toList ++ '_' :: s.toList = m'.toList ++ '_' :: s'.toList := by
    have := congrArg String.toList h
    simpa [statName] using this
  simp only [metricCols, List.mem_cons, List.not_mem_nil, or_false] at hm hm'
  have hs : ∀ a : String, a.toList ++ '_' :: s.toList = a.toList ++ '_' :: s'.toList → s = s' := by
    intro a ha
    have := List.append_cancel_left ha
    exact String.ext (List.cons.inj this).2
  rcases hm with rfl | rfl | rfl | rfl | rfl <;> rcases hm' with rfl | rfl | rfl | rfl | rfl <;>
    first
      | exact ⟨rfl, hs _ h1⟩
      | (exfalso; revert h1; simp)

/-- Adding statistics one by one. -/
def addTriple (s : List String × List Entry) (t : (String × Agg) × String) : List String × List Entry := addStat t.1.1 t.1.2 s t.2

/-- The new entries. -/
def tripleEntry (t : (String × Agg) × String) : Entry := ⟨statName t.2 t.1.1, t.2, t.1.2⟩

theorem fold_addTriple (L : List ((String × Agg) × String)) (hL : (L.map fun t => statName t.2 t.1.1).Nodup) (s : List String × List Entry) :
    (L.foldl addTriple s).2 = s.2 ++ (L.filter fun t => !decide (statName t.2 t.1.1 ∈ s.1)).map tripleEntry := by
  induction L generalizing s with
  | nil => simp
  | cons t L ih =>
    rw [List.map_cons, List.nodup_cons] at hL
    rw [List.foldl_cons, ih hL.2]
    unfold addTriple addStat
    by_cases h : t.2 ++ "_" ++ t.1.1 ∈ s.1
    · rw [if_pos h, List.filter_cons, if_neg]
      simp only [Bool.not_eq_true', decide_eq_false_iff_not, not_not]
      exact h
    · rw [if_neg h, List.filter_cons, if_pos (by simp only [Bool.not_eq_true', decide_eq_false_iff_not]; exact h)]
      have hf : (L.filter fun u => !decide (statName u.2 u.1.1 ∈ s.1 ++ [t.2 ++ "_" ++ t.1.1])) = L.filter fun u => !decide (statName u.2 u.1.1 ∈ s.1) := by
        apply List.filter_congr
        intro u hu
        have hne : statName u.2 u.1.1 ≠ statName t.2 t.1.1 := by
          intro e
          exact hL.1 (e ▸ List.mem_map_of_mem (f := fun t : (String × Agg) × String => statName t.2 t.1.1) hu)
        have : (statName u.2 u.1.1 ∈ s.1 ++ [t.2 ++ "_" ++ t.1.1]) ↔ statName u.2 u.1.1 ∈ s.1 := by
          rw [List.mem_append, List.mem_singleton]
          exact or_iff_left hne
        simp only [this]
      dsimp only
      rw [hf, List.map_cons, List.append_assoc]
      rfl

/-- The triples for all statistics. -/
def triples (ms : List String) (extra : Dict Agg) : List ((String × Agg) × String) := extra.flatMap fun p => ms.map fun m => (p, m)

theorem mem_triples (ms : List String) (extra : Dict Agg) (t : (String × Agg) × String) : t ∈ triples ms extra ↔ t.1 ∈ extra ∧ t.2 ∈ ms := by
  unfold triples
  rw [List.mem_flatMap]
  constructor
  · rintro ⟨p, hp, h⟩
    obtain ⟨m, hm, rfl⟩ := List.mem_map.1 h
    exact ⟨hp, hm⟩
  · rintro ⟨h1, h2⟩
    exact ⟨t.1, h1, List.mem_map.2 ⟨t.2, h2, rfl⟩⟩

theorem triples_nodup (ms : List String) (hms : ms.Nodup) (hsub : ∀ m ∈ ms, m ∈ metricCols) (extra : Dict Agg) (hw : Dict.WF extra) :
    ((triples ms extra).map fun t => statName t.2 t.1.1).Nodup := by
  induction extra with
  | nil => exact List.nodup_nil
  | cons p extra ih =>
    unfold Dict.WF at hw
    rw [List.map_cons, List.nodup_cons] at hw
    have : triples ms (p :: extra) = (ms.map fun m => (p, m)) ++ triples ms extra := by
      unfold triples
      rw [List.flatMap_cons]
    rw [this, List.map_append, List.nodup_append]
    refine ⟨?_, ih hw.2, ?_⟩
    · rw [List.map_map]
      refine List.Nodup.map_on ?_ hms
      intro a ha b hb hab
      exact (statName_inj a b _ _ (hsub a ha) (hsub b hb) hab).1
    · intro a ha b hb hab
      rw [List.map_map] at ha
      obtain ⟨m, hm, rfl⟩ := List.mem_map.1 ha
      obtain ⟨t, ht, rfl⟩ := List.mem_map.1 hb
      rw [mem_triples] at ht
      have := (statName_inj m t.2 p.1 t.1.1 (hsub m hm) (hsub _ ht.2) hab).2
      exact hw.1 (this ▸ List.mem_map_of_mem ht.1)

/-- All entries. -/
theorem aggDict_eq (g : Grid) (agg : Agg) (extra : Dict Agg) (hw : Dict.WF extra) :
    aggDict g agg extra = ((g.cols.filter g.number).map fun c => ⟨c, c, agg⟩) ++
      ((triples (metricCols.filter fun c => decide (c ∈ g.cols)) extra).filter fun t => !decide (statName t.2 t.1.1 ∈ g.cols)).map tripleEntry := by
  have hms : (metricCols.filter fun c => decide (c ∈ g.cols)).Nodup := List.Nodup.filter _ (by decide)
  have hn := triples_nodup _ hms (fun m hm => (List.mem_filter.1 hm).1) extra hw
  have := fold_addTriple _ hn (g.cols, (g.cols.filter g.number).map fun c => ⟨c, c, agg⟩)
  rw [← this]
  unfold aggDict triples
  rw [List.foldl_flatMap]
  congr 2
  funext s p
  rw [List.foldl_map]
  rfl

theorem find_unique (l : List Entry) (e : Entry) (he : e ∈ l) (hu : ∀ x ∈ l, x.out = e.out → x = e) : l.find? (fun x => decide (x.out = e.out)) = some e := by
  cases h : l.find? (fun x => decide (x.out = e.out)) with
  | none =>
    have := List.find?_eq_none.1 h e he
    simp at this
  | some x =>
    have h1 := List.mem_of_find?_eq_some h
    have h2 := List.find?_some h
    simp only [decide_eq_true_eq] at h2
    rw [hu x h1 h2]

theorem mem_aggDict (g : Grid) (agg : Agg) (extra : Dict Agg) (hw : Dict.WF extra) (x : Entry) :
    x ∈ aggDict g agg extra ↔ (x = ⟨x.out, x.out, agg⟩ ∧ x.out ∈ g.cols ∧ g.number x.out = true) ∨
      (∃ suffix, (suffix, x.fn) ∈ extra ∧ x.src ∈ metricCols ∧ x.src ∈ g.cols ∧ x.out = statName x.src suffix ∧ x.out ∉ g.cols) := by
  rw [aggDict_eq g agg extra hw, List.mem_append, List.mem_map, List.mem_map]
  constructor
  · rintro (⟨c, hc, rfl⟩ | ⟨t, ht, rfl⟩)
    · rw [List.mem_filter] at hc
      exact Or.inl ⟨rfl, hc⟩
    · rw [List.mem_filter, mem_triples, List.mem_filter] at ht
      have a1 : t.2 ∈ g.cols := by simpa using ht.1.2.2
      have a2 : statName t.2 t.1.1 ∉ g.cols := by simpa using ht.2
      exact Or.inr ⟨t.1.1, ht.1.1, ht.1.2.1, a1, rfl, a2⟩
  · rintro (⟨h1, h2, h3⟩ | ⟨suffix, h1, h2, h3, h4, h5⟩)
    · exact Or.inl ⟨x.out, List.mem_filter.2 ⟨h2, h3⟩, h1.symm⟩
    · refine Or.inr ⟨((suffix, x.fn), x.src), ?_, ?_⟩
      · rw [List.mem_filter, mem_triples, List.mem_filter]
        exact ⟨⟨h1, h2, by simpa using h3⟩, by rw [h4] at h5; simpa using h5⟩
      · unfold tripleEntry
        rw [← h4]

theorem dict_unique (extra : Dict Agg) (hw : Dict.WF extra) (k : String) (v w : Agg) (h1 : (k, v) ∈ extra) (h2 : (k, w) ∈ extra) : v = w := by
  induction extra with
  | nil => simp at h1
  | cons p extra ih =>
    unfold Dict.WF at hw
    rw [List.map_cons, List.nodup_cons] at hw
    rcases List.mem_cons.1 h1 with e1 | e1 <;> rcases List.mem_cons.1 h2 with e2 | e2
    · rw [← e1] at e2; exact (Prod.mk.inj e2).2.symm
    · exact absurd (List.mem_map_of_mem (f := Prod.fst) e2) (by rw [← e1] at hw; exact hw.1)
    · exact absurd (List.mem_map_of_mem (f := Prod.fst) e1) (by rw [← e2] at hw; exact hw.1)
    · exact ih hw.2 e1 e2

theorem group_map {α : Type} [LinearOrder α] (key : Row → List (WithTop α)) (g : Grid) (k : List (WithTop α)) (c : String) :
    (RateGrid.group key g.rows k).map (fun r => r.cells c) = valuesOf key g k c := by
  unfold RateGrid.group valuesOf
  congr 1
  apply List.filter_congr
  intro r _
  rw [decide_eq_decide]

theorem aggRow_spec {α : Type} [LinearOrder α] (key : Row → List (WithTop α)) (g h : Grid) (hr : h.rows = g.rows) (hn : h.number = g.number) (hc : ∀ c, c ∈ h.cols ↔ Live g c)
    (agg : Agg) (extra : Dict Agg) (hw : Dict.WF extra) (k : List (WithTop α)) :
    StatRow key g agg extra k (aggRow (aggDict h agg extra) (RateGrid.group key h.rows k)) where
  main c hl hnum := by
    have he : (⟨c, c, agg⟩ : Entry) ∈ aggDict h agg extra := (mem_aggDict h agg extra hw _).2 (Or.inl ⟨rfl, (hc c).2 hl, by rw [hn]; exact hnum⟩)
    have hf := find_unique _ _ he (by
      intro x hx hxo
      rcases (mem_aggDict h agg extra hw x).1 hx with h1 | ⟨s, _, _, _, _, h5⟩
      · rw [h1.1, hxo]
      · rw [hxo] at h5
        exact absurd ((hc c).2 hl) h5)
    unfold aggRow
    dsimp only at hf
    rw [hf, hr]
    dsimp only
    rw [group_map]
  stat suffix f m hx hm hl hnl := by
    rw [← metric_iff] at hm
    have hno : statName m suffix ∉ h.cols := fun h1 => hnl ((hc _).1 h1)
    have he : (⟨statName m suffix, m, f⟩ : Entry) ∈ aggDict h agg extra :=
      (mem_aggDict h agg extra hw _).2 (Or.inr ⟨suffix, hx, hm, (hc m).2 hl, rfl, hno⟩)
    have hf := find_unique _ _ he (by
      intro x hx' hxo
      rcases (mem_aggDict h agg extra hw x).1 hx' with h1 | ⟨s, h1, h2, h3, h4, h5⟩
      · rw [hxo] at h1
        exact absurd h1.2.1 hno
      · dsimp only at hxo
        rw [hxo] at h4
        obtain ⟨e1, e2⟩ := statName_inj m x.src suffix s hm h2 h4
        subst e2
        have := dict_unique extra hw suffix _ _ h1 hx
        cases x
        simp_all)
    unfold aggRow
    dsimp only at hf
    rw [hf, hr]
    dsimp only
    rw [group_map]

theorem outCols_spec (g h : Grid) (hn : h.number = g.number) (hc : ∀ c, c ∈ h.cols ↔ Live g c) (agg : Agg) (extra : Dict Agg) (hw : Dict.WF extra) :
    StatCols g extra (outCols (aggDict h agg extra)) := by
  intro c
  unfold outCols
  rw [List.mem_filter, List.mem_map]
  simp only [Bool.not_eq_true', decide_eq_false_iff_not]
  constructor
  · rintro ⟨⟨x, hx, rfl⟩, h2⟩
    refine ⟨h2, ?_⟩
    rcases (mem_aggDict h agg extra hw x).1 hx with h1 | ⟨s, h1, h2, h3, h4, h5⟩
    · exact Or.inl ⟨(hc _).1 h1.2.1, by rw [← hn]; exact h1.2.2⟩
    · exact Or.inr ⟨s, x.fn, x.src, h1, (metric_iff _).1 h2, (hc _).1 h3, h4, fun hl => h5 ((hc _).2 hl)⟩
  · rintro ⟨h1, h2⟩
    refine ⟨?_, h1⟩
    rcases h2 with ⟨h2, h3⟩ | ⟨s, f, m, h2, h3, h4, h5, h6⟩
    · exact ⟨⟨c, c, agg⟩, (mem_aggDict h agg extra hw _).2 (Or.inl ⟨rfl, (hc c).2 h2, by rw [hn]; exact h3⟩), rfl⟩
    · exact ⟨⟨c, m, f⟩, (mem_aggDict h agg extra hw _).2 (Or.inr ⟨s, h2, (metric_iff _).2 h3, (hc m).2 h4, h5, fun h => h6 ((hc c).1 h)⟩), rfl⟩

/-! ### The properties -/

theorem construct_plain (g : Grid) (h : g.names.length = 1) : construct g = .ok { g with name := none, starttime := ⊤, endtime := ⊤ } := by
  unfold construct
  dsimp only
  rw [if_neg (by omega)]

/-- C56: without times in the index the result has exactly one row per cell (bounds without missing value), in the order of the bounds and
numbered 0, 1, ...; it is computed from exactly the rows of that cell. -/
theorem C56_one_row_per_cell (g : Grid) (agg : Agg) (extra : Dict Agg) (hw : Dict.WF extra) (hlev : g.names.length = 1)
    (hb : ∀ c ∈ boundCols, Live g c ∧ g.number c = true) :
    ∃ (s : Stats) (cells : List (List (WithTop ℝ))), calculateStatistics g agg extra = .ok s ∧ Keys bounds g cells ∧
      List.Forall₂ (StatRow bounds g agg extra) cells s.rows ∧ StatCols g extra s.cols ∧
      s.index = (List.range cells.length).map fun i : ℕ => [((i : ℤ) : WithTop ℤ)] := by
  obtain ⟨h, hh⟩ : ∃ h : Grid, { g with name := none, starttime := ⊤, endtime := ⊤, cols := liveCols g } = h := ⟨_, rfl⟩
  have e1 : h.rows = g.rows := by rw [← hh]
  have e2 : h.number = g.number := by rw [← hh]
  have e3 : h.cols = liveCols g := by rw [← hh]
  have e4 : h.names = g.names := by rw [← hh]
  have hc : ∀ c, c ∈ h.cols ↔ Live g c := by intro c; rw [e3]; exact mem_liveCols g c
  have hne : aggDict h agg extra ≠ [] := by
    intro hnil
    have : (⟨"depth_min", "depth_min", agg⟩ : Entry) ∈ aggDict h agg extra :=
      (mem_aggDict h agg extra hw _).2 (Or.inl ⟨rfl, (hc _).2 (hb _ (by simp [boundCols])).1, by rw [e2]; exact (hb _ (by simp [boundCols])).2⟩)
    rw [hnil] at this
    simp at this
  refine ⟨{ index := (List.range (groupKeys (h.rows.map bounds)).length).map fun i : ℕ => [((i : ℤ) : WithTop ℤ)]
            cols := outCols (aggDict h agg extra)
            rows := (groupKeys (h.rows.map bounds)).map fun k => aggRow (aggDict h agg extra) (RateGrid.group bounds h.rows k) }, groupKeys (g.rows.map bounds), ?_, groupKeys_spec bounds g, ?_⟩
  · unfold calculateStatistics
    have e5 := construct_plain { g with name := none, starttime := ⊤, endtime := ⊤, cols := liveCols g } hlev
    dsimp only at e5
    rw [hh] at e5
    rw [construct_plain g hlev]
    simp only [Except.bind]
    have : liveCols { g with name := none, starttime := ⊤, endtime := ⊤ } = liveCols g := rfl
    rw [this, hh, e5]
    simp only
    unfold RateGrid.aggregate
    rw [e4, if_pos hlev, if_pos, if_neg hne]
    rw [List.all_eq_true]
    intro c hcb
    simpa using (hc c).2 (hb c hcb).1
  · refine ⟨?_, outCols_spec g h e2 hc agg extra hw, ?_⟩
    · dsimp only
      rw [e1]
      rw [List.forall₂_map_right_iff]
      apply List.forall₂_same.2
      intro k _
      have := aggRow_spec bounds g h e1 e2 hc agg extra hw k
      rwa [e1] at this
    · rw [e1]

/-- Values of a cell: its bounds are the same numbers in all its rows. -/
theorem valuesOf_bound (g : Grid) (k : List (WithTop ℝ)) (hk : ⊤ ∉ k) (hex : ∃ r ∈ g.rows, bounds r = k) (i : ℕ) (c : String) (hc : boundCols[i]? = some c) :
    ∃ (x : ℝ), k[i]? = some (x : WithTop ℝ) ∧
      valuesOf bounds g k c = List.replicate (g.rows.countP fun r => decide (bounds r = k)) (.num x) := by
  have hbk : ∀ r : Row, bounds r = k → k[i]? = some (bound (r.cells c)) := by
    intro r hr
    rw [← hr]
    unfold bounds
    rw [List.getElem?_map, hc]
    rfl
  obtain ⟨r, hr, hrk⟩ := hex
  have h1 := hbk r hrk
  obtain ⟨x, hx⟩ : ∃ x : ℝ, bound (r.cells c) = (x : WithTop ℝ) := by
    cases hv : bound (r.cells c) with
    | top => rw [hv] at h1; exact absurd (List.mem_of_getElem? h1) hk
    | coe x => exact ⟨x, rfl⟩
  rw [hx] at h1
  refine ⟨x, h1, ?_⟩
  unfold valuesOf
  rw [List.eq_replicate_iff]
  constructor
  · rw [List.length_map, List.countP_eq_length_filter]
  · intro v hv
    obtain ⟨q, hq, rfl⟩ := List.mem_map.1 hv
    rw [List.mem_filter] at hq
    have h2 := hbk q (by simpa using hq.2)
    rw [h1] at h2
    have h3 : bound (q.cells c) = (x : WithTop ℝ) := (Option.some.inj h2).symm
    cases hv : q.cells c with
    | num y =>
      rw [hv] at h3
      simp only [bound] at h3
      rw [WithTop.coe_inj.1 h3]
    | na => rw [hv] at h3; simp [bound] at h3
    | str s => rw [hv] at h3; simp [bound] at h3
    | time t => rw [hv] at h3; simp [bound] at h3

/-- C56: an aggregation that gives back a constant (such as a mean or a maximum) keeps the bounds: the result says which cell a row is for. -/
theorem C56_bounds_kept (g : Grid) (agg : Agg) (extra : Dict Agg) (hagg : ∀ n (x : ℝ), agg (List.replicate (n + 1) (.num x)) = .num x)
    (hb : ∀ c ∈ boundCols, Live g c ∧ g.number c = true) (k : List (WithTop ℝ)) (hk : ⊤ ∉ k) (hex : ∃ r ∈ g.rows, bounds r = k)
    (row : String → Val ℝ) (hrow : StatRow bounds g agg extra k row) : boundCols.map (fun c => bound (row c)) = k := by
  have hpos : 0 < g.rows.countP fun r => decide (bounds r = k) := by
    rw [List.countP_pos_iff]
    obtain ⟨r, hr, h⟩ := hex
    exact ⟨r, hr, by simpa using h⟩
  have hlen : k.length = 6 := by
    obtain ⟨r, _, rfl⟩ := hex
    rfl
  apply List.ext_getElem?
  intro i
  rw [List.getElem?_map]
  cases hc : boundCols[i]? with
  | none =>
    rw [List.getElem?_eq_none_iff] at hc
    have : 6 ≤ i := hc
    rw [List.getElem?_eq_none (by omega)]
    rfl
  | some c =>
    obtain ⟨x, h1, h2⟩ := valuesOf_bound g k hk hex i c hc
    have hcb := List.mem_of_getElem? hc
    rw [h1, Option.map_some, hrow.main c (hb c hcb).1 (hb c hcb).2, h2]
    obtain ⟨n, hn⟩ : ∃ n, (g.rows.countP fun r => decide (bounds r = k)) = n + 1 := ⟨_, (Nat.sub_add_cancel hpos).symm⟩
    rw [hn, hagg]
    rfl

/-- A sum of numbers. -/
def sumAgg : Agg := fun l => .num (l.map fun v => match v with | .num x => x | _ => 0).sum

/-- C56 (defect): the function is applied to the bounds as well; with a sum the bounds of the result are those of the cell times the number of its
rows, so that the result does not say which cell a row is for. -/
theorem C56_defect_bounds_aggregated (g : Grid) (extra : Dict Agg) (hb : ∀ c ∈ boundCols, Live g c ∧ g.number c = true) (k : List (WithTop ℝ)) (hk : ⊤ ∉ k)
    (hex : ∃ r ∈ g.rows, bounds r = k) (row : String → Val ℝ) (hrow : StatRow bounds g sumAgg extra k row) (i : ℕ) (c : String) (hc : boundCols[i]? = some c) :
    ∃ x : ℝ, k[i]? = some (x : WithTop ℝ) ∧ row c = .num ((g.rows.countP fun r => decide (bounds r = k)) * x) := by
  obtain ⟨x, h1, h2⟩ := valuesOf_bound g k hk hex i c hc
  have hcb := List.mem_of_getElem? hc
  refine ⟨x, h1, ?_⟩
  rw [hrow.main c (hb c hcb).1 (hb c hcb).2, h2]
  simp [sumAgg]

/-- C56 (defect): if a bound is missing in all rows (say, a grid without depths), or there are no rows, the statistics raise KeyError. -/
theorem C56_defect_no_depth (g : Grid) (agg : Agg) (extra : Dict Agg) (hlev : g.names.length = 1) (c : String) (hc : c ∈ boundCols)
    (hna : ∀ r ∈ g.rows, r.cells c = .na) : calculateStatistics g agg extra = .error .keyError := by
  obtain ⟨h, hh⟩ : ∃ h : Grid, { g with name := none, starttime := ⊤, endtime := ⊤, cols := liveCols g } = h := ⟨_, rfl⟩
  have e3 : h.cols = liveCols g := by rw [← hh]
  have e4 : h.names = g.names := by rw [← hh]
  have e5 := construct_plain { g with name := none, starttime := ⊤, endtime := ⊤, cols := liveCols g } hlev
  dsimp only at e5
  rw [hh] at e5
  unfold calculateStatistics
  rw [construct_plain g hlev]
  simp only [Except.bind]
  have : liveCols { g with name := none, starttime := ⊤, endtime := ⊤ } = liveCols g := rfl
  rw [this, hh, e5]
  simp only
  unfold RateGrid.aggregate
  rw [e4, if_pos hlev, if_neg]
  intro hall
  have h1 : c ∈ h.cols := by simpa using List.all_eq_true.1 hall c hc
  rw [e3, mem_liveCols] at h1
  obtain ⟨r, hr, hne⟩ := h1.2
  exact hne (hna r hr)

/-- C56 (defect): a row with a missing bound counts in no row of the result. -/
theorem C56_defect_row_dropped (g : Grid) (cells : List (List (WithTop ℝ))) (hk : Keys bounds g cells) (r : Row) (hm : ⊤ ∈ bounds r) : bounds r ∉ cells := by
  intro h
  exact ((hk.mem _).1 h).1 hm

/-- C56: with times and cells in the index the result has exactly one row per label, computed from exactly the rows with that label. -/
theorem C56_one_row_per_label (g : Grid) (T : List (Option String)) (agg : Agg) (extra : Dict Agg) (hw : Dict.WF extra) (hn : g.names = T ++ [some "cell_id"])
    (hT : some "cell_id" ∉ T) (hT0 : T ≠ []) (hidx : ∀ r ∈ g.rows, r.idx.length = T.length + 1) (hcols : hasCols requiredCols g.cols = true)
    (hnum : boundCols.all g.number = true) (c : String) (hc : Live g c) (hcn : g.number c = true) (hcc : c ≠ "cell") :
    ∃ (h : Grid) (s : Stats), construct g = .ok h ∧ calculateStatistics g agg extra = .ok s ∧ Keys Row.idx h s.index ∧
      List.Forall₂ (StatRow Row.idx h agg extra) s.index s.rows ∧ StatCols h extra s.cols := by
  have h1 := construct_ok g T hn hT hT0 hidx hcols hnum
  obtain ⟨X, hX⟩ : ∃ X : Grid, setTimes { names := g.names, cols := g.cols.filter (fun c => !decide (c = "cell")), number := g.number, rows := newRows g.rows, name := none, starttime := ⊤, endtime := ⊤ } = X := ⟨_, rfl⟩
  obtain ⟨e1, e2, e3, e4⟩ := setTimes_frame { names := g.names, cols := g.cols.filter (fun c => !decide (c = "cell")), number := g.number, rows := newRows g.rows, name := none, starttime := ⊤, endtime := ⊤ }
  rw [hX] at h1 e1 e2 e3 e4
  dsimp only at e1 e2 e3 e4
  have hcell : "cell" ∉ liveCols X := by
    rw [mem_liveCols]
    rintro ⟨h, _⟩
    rw [e3] at h
    simp at h
  -- the second new object
  obtain ⟨Y, hY, y1, y2, y3, y4⟩ : ∃ Y : Grid, construct { X with cols := liveCols X } = .ok Y ∧ Y.rows = X.rows ∧ Y.names = X.names ∧ Y.number = X.number ∧ Y.cols = liveCols X := by
    by_cases hl : hasCols requiredCols (liveCols X) = true
    · have h2 := construct_ok { X with cols := liveCols X } T (by rw [← hn]; exact e2) hT hT0 (by rw [e1]; exact newRows_idx_length _ _ hidx) hl (by rw [e4]; exact hnum)
      refine ⟨_, h2, ?_⟩
      obtain ⟨f1, f2, f3, f4⟩ := setTimes_frame { names := X.names, cols := (liveCols X).filter (fun c => !decide (c = "cell")), number := X.number, rows := newRows X.rows, name := none, starttime := ⊤, endtime := ⊤ }
      rw [f1, f2, f3, f4]
      refine ⟨?_, rfl, rfl, ?_⟩
      · dsimp only
        rw [e1, newRows_newRows]
      · apply List.filter_eq_self.2
        intro a ha
        simp only [Bool.not_eq_true', decide_eq_false_iff_not]
        intro e
        exact hcell (e ▸ ha)
    · refine ⟨{ X with name := none, starttime := ⊤, endtime := ⊤, cols := liveCols X }, ?_, rfl, rfl, rfl, rfl⟩
      unfold construct
      dsimp only
      have h1 : 1 < X.names.length := by
        rw [e2, hn, List.length_append]
        have := List.length_pos_iff.2 hT0
        simp; omega
      rw [if_pos h1]
      unfold reindex
      dsimp only
      rw [if_neg hl]
  have hYc : ∀ c, c ∈ Y.cols ↔ Live X c := by intro c; rw [y4]; exact mem_liveCols X c
  have hlive : Live X c := by
    refine ⟨by rw [e3]; simp [hc.1, hcc], ?_⟩
    obtain ⟨r, hr, hne⟩ := hc.2
    have hm : X.rows.map (fun r => r.cells c) = g.rows.map (fun r => r.cells c) := by rw [e1]; exact newRows_map _ _ (fun _ _ => rfl)
    have : r.cells c ∈ X.rows.map (fun r => r.cells c) := by rw [hm]; exact List.mem_map_of_mem hr
    obtain ⟨q, hq, e⟩ := List.mem_map.1 this
    exact ⟨q, hq, by rw [e]; exact hne⟩
  have hne : aggDict Y agg extra ≠ [] := by
    intro hnil
    have : (⟨c, c, agg⟩ : Entry) ∈ aggDict Y agg extra :=
      (mem_aggDict Y agg extra hw _).2 (Or.inl ⟨rfl, (hYc _).2 hlive, by rw [y3, e4]; exact hcn⟩)
    rw [hnil] at this
    simp at this
  refine ⟨X, { index := groupKeys (Y.rows.map Row.idx)
               cols := outCols (aggDict Y agg extra)
               rows := (groupKeys (Y.rows.map Row.idx)).map fun k => aggRow (aggDict Y agg extra) (RateGrid.group Row.idx Y.rows k) }, h1, ?_, ?_, ?_, ?_⟩
  · unfold calculateStatistics
    rw [h1]
    simp only [Except.bind]
    rw [hY]
    simp only
    unfold RateGrid.aggregate
    rw [if_neg, if_neg hne]
    rw [y2, e2, hn, List.length_append]
    have := List.length_pos_iff.2 hT0
    simp; omega
  · dsimp only
    rw [y1]
    exact groupKeys_spec Row.idx X
  · dsimp only
    rw [List.forall₂_map_right_iff]
    apply List.forall₂_same.2
    intro k _
    exact aggRow_spec Row.idx X Y y1 y3 hYc agg extra hw k
  · exact outCols_spec X Y y3 hYc agg extra hw

/-- The sample grid meets the hypotheses: two cells, two rows. -/
example : ∃ s, calculateStatistics (sampleGrid 3) sumAgg [("n", sumAgg)] = .ok s ∧ s.rows.length = 2 := by
  have hb : ∀ c ∈ boundCols, Live (sampleGrid 3) c ∧ (sampleGrid 3).number c = true := by
    intro c hc
    refine ⟨⟨boundCols_required c hc, numberRow 0 7, by simp [sampleGrid], ?_⟩, rfl⟩
    unfold numberRow
    dsimp only
    split <;> simp
  obtain ⟨s, cells, h1, h2, h3, _⟩ := C56_one_row_per_cell (sampleGrid 3) sumAgg [("n", sumAgg)] (by simp [Dict.WF]) rfl hb
  refine ⟨s, h1, ?_⟩
  rw [← h3.length_eq]
  have hx : ∀ i x, bounds (numberRow i x) = [(x : WithTop ℝ), ((1 : ℝ) : WithTop ℝ), ((1 : ℝ) : WithTop ℝ), ((1 : ℝ) : WithTop ℝ), ((1 : ℝ) : WithTop ℝ), ((1 : ℝ) : WithTop ℝ)] := by
    intro i x
    simp [bounds, boundCols, numberRow, bound]
  have hp : cells.Perm [bounds (numberRow 0 7), bounds (numberRow 1 5)] := by
    rw [List.perm_ext_iff_of_nodup h2.once]
    · intro k
      rw [h2.mem]
      constructor
      · rintro ⟨_, r, hr, rfl⟩
        simp only [sampleGrid, List.mem_cons, List.not_mem_nil, or_false] at hr
        rcases hr with rfl | rfl <;> simp
      · intro hk
        simp only [List.mem_cons, List.not_mem_nil, or_false] at hk
        rcases hk with rfl | rfl
        · exact ⟨by rw [hx]; simp, numberRow 0 7, by simp [sampleGrid], rfl⟩
        · exact ⟨by rw [hx]; simp, numberRow 1 5, by simp [sampleGrid], rfl⟩
    · rw [hx, hx]
      simp
  rw [hp.length_eq]
  rfl

/-- C56: if the cells have bounds that are no numbers (strings, say) and no other column holds numbers or one of the metrics, there is nothing to
aggregate: ValueError. -/
theorem C56_no_numbers (g : Grid) (agg : Agg) (extra : Dict Agg) (hw : Dict.WF extra) (hlev : g.names.length = 1) (hb : ∀ c ∈ boundCols, Live g c)
    (hn : ∀ c, Live g c → g.number c = false ∧ ¬ Metric c) : calculateStatistics g agg extra = .error .valueError := by
  have hnil : aggDict { g with name := none, starttime := ⊤, endtime := ⊤, cols := liveCols g } agg extra = [] := by
    apply List.eq_nil_iff_forall_not_mem.2
    intro x hx
    rw [mem_aggDict _ _ _ hw] at hx
    rcases hx with ⟨_, h1, h2⟩ | ⟨s, _, h1, h2, _⟩
    · rw [(hn _ ((mem_liveCols g _).1 h1)).1] at h2
      cases h2
    · exact (hn _ ((mem_liveCols g _).1 h2)).2 ((metric_iff _).1 h1)
  have e5 := construct_plain { g with name := none, starttime := ⊤, endtime := ⊤, cols := liveCols g } hlev
  unfold calculateStatistics
  rw [construct_plain g hlev]
  change (construct { g with name := none, starttime := ⊤, endtime := ⊤, cols := liveCols g }).bind _ = _
  rw [e5]
  change RateGrid.aggregate { g with name := none, starttime := ⊤, endtime := ⊤, cols := liveCols g } agg extra = _
  unfold RateGrid.aggregate
  rw [if_pos hlev, if_pos, if_pos hnil]
  rw [List.all_eq_true]
  intro c hc
  exact decide_eq_true ((mem_liveCols g c).2 (hb c hc))

/-- C56: with times in the index and no value in any column (no rows, say) there is nothing to aggregate: ValueError. -/
theorem C56_no_values (g : Grid) (T : List (Option String)) (agg : Agg) (extra : Dict Agg) (hw : Dict.WF extra) (hn : g.names = T ++ [some "cell_id"])
    (hT : some "cell_id" ∉ T) (hT0 : T ≠ []) (hidx : ∀ r ∈ g.rows, r.idx.length = T.length + 1) (hcols : hasCols requiredCols g.cols = true)
    (hnum : boundCols.all g.number = true) (hna : ∀ r ∈ g.rows, ∀ c ∈ g.cols, r.cells c = .na) :
    calculateStatistics g agg extra = .error .valueError := by
  have h1 := construct_ok g T hn hT hT0 hidx hcols hnum
  obtain ⟨X, hX⟩ : ∃ X : Grid, setTimes { names := g.names, cols := g.cols.filter (fun c => !decide (c = "cell")), number := g.number, rows := newRows g.rows, name := none, starttime := ⊤, endtime := ⊤ } = X := ⟨_, rfl⟩
  obtain ⟨e1, e2, e3, e4⟩ := setTimes_frame { names := g.names, cols := g.cols.filter (fun c => !decide (c = "cell")), number := g.number, rows := newRows g.rows, name := none, starttime := ⊤, endtime := ⊤ }
  rw [hX] at h1 e1 e2 e3 e4
  dsimp only at e1 e2 e3 e4
  have hlive : liveCols X = [] := by
    apply List.eq_nil_iff_forall_not_mem.2
    intro c hc
    rw [mem_liveCols] at hc
    obtain ⟨hc, r, hr, hne⟩ := hc
    rw [e3, List.mem_filter] at hc
    have hm : X.rows.map (fun r => r.cells c) = g.rows.map (fun r => r.cells c) := by rw [e1]; exact newRows_map _ _ (fun _ _ => rfl)
    have : r.cells c ∈ g.rows.map (fun r => r.cells c) := by rw [← hm]; exact List.mem_map_of_mem hr
    obtain ⟨q, hq, e⟩ := List.mem_map.1 this
    exact hne (by rw [← e]; exact hna q hq c hc.1)
  have hlen : 1 < X.names.length := by
    rw [e2, hn, List.length_append]
    have := List.length_pos_iff.2 hT0
    simp; omega
  have h2 : construct { X with cols := liveCols X } = .ok { X with name := none, starttime := ⊤, endtime := ⊤, cols := liveCols X } := by
    unfold construct
    dsimp only
    rw [if_pos hlen]
    unfold reindex
    dsimp only
    rw [if_neg (by rw [hlive]; simp [hasCols, requiredCols, boundCols])]
  unfold calculateStatistics
  rw [h1]
  change (construct { X with cols := liveCols X }).bind _ = _
  rw [h2]
  change RateGrid.aggregate { X with name := none, starttime := ⊤, endtime := ⊤, cols := liveCols X } agg extra = _
  unfold RateGrid.aggregate
  rw [if_neg (by change ¬ X.names.length = 1; omega), if_pos]
  apply List.eq_nil_iff_forall_not_mem.2
  intro x hx
  rw [mem_aggDict _ _ _ hw] at hx
  dsimp only at hx
  rw [hlive] at hx
  rcases hx with ⟨_, h1, _⟩ | ⟨s, _, _, h2, _⟩
  · simp at h1
  · simp at h2

/-- A grid from which all rows have been dropped meets the hypotheses. -/
example : calculateStatistics { timedGrid 3 4 with rows := [] } sumAgg [("n", sumAgg)] = .error .valueError :=
  C56_no_values _ [some "starttime", some "endtime"] _ _ (by simp [Dict.WF]) rfl (by simp) (by simp) (by simp) (by unfold timedGrid hasCols; rw [List.all_eq_true]; intro x hx; exact decide_eq_true hx) (by simp [timedGrid]) (by simp)

/-- A grid with bounds as text meets the hypotheses. -/
example : calculateStatistics { sampleGrid 3 with number := fun _ => false, cols := boundCols } sumAgg [] = .error .valueError := by
  apply C56_no_numbers _ _ _ (by simp [Dict.WF]) rfl
  · intro c hc
    refine ⟨?_, numberRow 0 7, by simp [sampleGrid], ?_⟩
    · exact hc
    · unfold numberRow
      dsimp only
      split <;> simp
  · intro c hc
    refine ⟨rfl, ?_⟩
    have h := hc.1
    simp only [boundCols, List.mem_cons, List.not_mem_nil, or_false] at h
    unfold Metric
    rcases h with rfl | rfl | rfl | rfl | rfl | rfl <;> decide

end SeismoStats.Props
