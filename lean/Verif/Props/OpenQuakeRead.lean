/-
Property C53: reading any openquake catalogue (one that does not come from `to_openquake`).
-/
import Verif.Props.OpenQuake

namespace SeismoStats.Props
open SeismoStats SeismoStats.OpenQuake
open Classical

/-! ### Specification -/

/-- A number of seconds as hmtk stores it: a whole number, or the nearest floating point number to a number of microseconds. -/
def SecondsAre (env : OpenQuake.Env) (s : Stamp) (v : Val) : Prop :=
  (v = .int s.second ∧ s.micro = 0) ∨ v = .real (env.fl (s.second + s.micro / 1000000))

/-- The openquake catalogue `data` holds the events with the dates and times `l`. -/
structure HoldsTimes (env : OpenQuake.Env) (data : Dict (List Val)) (l : List Stamp) : Prop where
  wf : Dict.WF data
  notEmpty : l ≠ []
  lengths : ∀ p ∈ data, p.2 = [] ∨ p.2.length = l.length
  year : data.get? "year" = some (l.map fun s => .int s.year)
  month : data.get? "month" = some (l.map fun s => .int s.month)
  day : data.get? "day" = some (l.map fun s => .int s.day)
  hour : data.get? "hour" = some (l.map fun s => .int s.hour)
  minute : data.get? "minute" = some (l.map fun s => .int s.minute)
  second : ∃ vs, data.get? "second" = some vs ∧ List.Forall₂ (SecondsAre env) l vs
  range : ∀ s ∈ l, 0 ≤ s.second ∧ s.second < 60 ∧ 0 ≤ s.micro ∧ s.micro < 1000000

/-- Nanoseconds of a date and time. -/
def nanoseconds (env : OpenQuake.Env) (s : Stamp) : ℤ :=
  ((((env.days s.year s.month s.day * 24 + s.hour) * 60 + s.minute) * 60 + s.second) * 1000000 + s.micro) * 1000

/-- The catalogue `cat` read from `data` with the times `out`. -/
structure ReadAs (keep : Bool) (data : Dict (List Val)) (l : List Stamp) (out : List ℤ) (cat : Dict (List Val)) : Prop where
  time : cat.get? "time" = some (out.map .time)
  columns : ∀ c v, c ≠ "time" → c ∉ timeCols → (cat.get? c = some v ↔ data.get? c = some v ∧ v ≠ [])
  dropped : keep = false → ∀ c ∈ timeCols, cat.get? c = none
  kept : keep = true → (∀ c ∈ ["year", "month", "day", "hour", "minute"], cat.get? c = data.get? c) ∧
    cat.get? "second" = some (l.map fun s => .int s.second) ∧ cat.get? "microsecond" = some (l.map fun s => .int s.micro)

/-- A cell with a floating point number. -/
def FloatCell (v : Val) : Prop := v = .nan ∨ ∃ x, v = .real x

/-- A cell that is no number. -/
def ObjectCell (v : Val) : Prop := v = .nat ∨ (∃ t, v = .time t) ∨ ∃ s, v = .text s

/-! ### Proofs -/

theorem instant_nano (env : OpenQuake.Env) (s : Stamp) : instant env s = nanoseconds env s := by
  unfold instant nanoseconds
  ring

theorem seconds_rounded (env : OpenQuake.Env) (h : GoodFloat env.fl) (s us : ℤ) (hs0 : 0 ≤ s) (hs : s < 60) (hu0 : 0 ≤ us) (hu : us < 1000000) :
    truncate (env.fl (s + us / 1000000)) = s ∧ microOf env (env.fl (s + us / 1000000)) = us := by
  have hsR : (0 : ℝ) ≤ s := by exact_mod_cast hs0
  have hsR2 : (s : ℝ) ≤ 59 := by
    have : s ≤ 59 := by omega
    exact_mod_cast this
  have huR : (0 : ℝ) ≤ us := by exact_mod_cast hu0
  have huR2 : (us : ℝ) ≤ 999999 := by
    have : us ≤ 999999 := by omega
    exact_mod_cast this
  have hpow : (2 : ℝ) ^ 53 = 9007199254740992 := by norm_num
  have hus : (us : ℝ) / 1000000 ≤ 1 := by rw [div_le_one (by norm_num)]; linarith
  have hus0 : (0 : ℝ) ≤ us / 1000000 := by positivity
  set b := env.fl (s + us / 1000000) with hb
  have h2 : |b - (s + us / 1000000)| ≤ 62 / 9007199254740992 := by
    have := h.error (s + us / 1000000)
    rw [hpow] at this
    refine this.trans ?_
    rw [div_le_div_iff_of_pos_right (by norm_num), abs_le]
    constructor <;> linarith
  have h2' := abs_le.1 h2
  have hfloor : ⌊b⌋ = s := by
    by_cases hz : us = 0
    · have hbs : b = s := by
        rw [hb, hz]
        simpa using h.exact s hs0 hs
      rw [hbs, Int.floor_intCast]
    · have hge : (1 : ℝ) ≤ us := by
        have : 1 ≤ us := by omega
        exact_mod_cast this
      rw [Int.floor_eq_iff]
      have g1 : (1 : ℝ) / 1000000 ≤ us / 1000000 := by
        rw [div_le_div_iff_of_pos_right (by norm_num)]; exact hge
      have g2 : (us : ℝ) / 1000000 ≤ 999999 / 1000000 := by
        rw [div_le_div_iff_of_pos_right (by norm_num)]; exact huR2
      constructor
      · linarith [h2'.1]
      · linarith [h2'.2]
  have hb0 : 0 ≤ b := by
    have := Int.floor_le b
    rw [hfloor] at this
    linarith
  refine ⟨?_, ?_⟩
  · unfold truncate
    rw [if_pos hb0, hfloor]
  · unfold microOf
    apply roundEven_near
    rw [hfloor]
    have h3 := h.error ((b - s) * 1000000)
    rw [hpow] at h3
    have hb1 : |(b - s) * 1000000| ≤ 1000001 := by
      rw [abs_le]
      constructor
      · linarith [h2'.1]
      · linarith [h2'.2]
    have h4 : |env.fl ((b - s) * 1000000) - (b - s) * 1000000| ≤ 1000001 / 9007199254740992 :=
      h3.trans (by rw [div_le_div_iff_of_pos_right (by norm_num)]; exact hb1)
    have h4' := abs_le.1 h4
    have hmul : (us : ℝ) = us / 1000000 * 1000000 := by field_simp
    rw [abs_lt]
    constructor
    · linarith [h2'.1, h4'.1]
    · linarith [h2'.2, h4'.2]

theorem secondsAre_ok (env : OpenQuake.Env) (h : GoodFloat env.fl) (s : Stamp) (v : Val) (hv : SecondsAre env s v)
    (hr : 0 ≤ s.second ∧ s.second < 60 ∧ 0 ≤ s.micro ∧ s.micro < 1000000) :
    ∃ x, secondOf v = .ok x ∧ truncate x = s.second ∧ microOf env x = s.micro := by
  obtain ⟨a, b, c, d⟩ := hr
  rcases hv with ⟨rfl, h0⟩ | rfl
  · refine ⟨s.second, rfl, ?_⟩
    have := seconds_rounded env h s.second s.micro a b c d
    rw [h0, Int.cast_zero, zero_div, add_zero, h.exact _ a b] at this
    rw [h0]
    exact this
  · exact ⟨_, rfl, seconds_rounded env h _ _ a b c d⟩

theorem value_of_mem {V : Type} (d : Dict V) (h : Dict.WF d) (p : String × V) (hp : p ∈ d) : d.get? p.1 = some p.2 := by
  induction d with
  | nil => cases hp
  | cons q d ih =>
    have hq := (List.nodup_cons.1 h)
    rcases List.mem_cons.1 hp with rfl | hp
    · simp [Dict.get?]
    · have hne : q.1 ≠ p.1 := fun e => hq.1 (by rw [e]; exact List.mem_map_of_mem hp)
      simp only [Dict.get?, hne, if_false]
      exact ih hq.2 hp

theorem mem_of_value {V : Type} (d : Dict V) (k : String) (v : V) (h : d.get? k = some v) : (k, v) ∈ d := by
  induction d with
  | nil => cases h
  | cons p d ih =>
    by_cases hp : p.1 = k
    · simp only [Dict.get?, hp, if_true, Option.some.injEq] at h
      rw [← h, ← hp]
      simp
    · simp only [Dict.get?, hp, if_false] at h
      simp [ih h]

theorem set_wf {V : Type} (d : Dict V) (k : String) (v : V) (h : Dict.WF d) : Dict.WF (d.set k v) := by
  induction d with
  | nil => simp [Dict.set, Dict.WF]
  | cons p d ih =>
    have hq := (List.nodup_cons.1 h)
    simp only [Dict.set]
    split
    · rename_i e
      unfold Dict.WF
      rw [List.map_cons, ← e]
      exact h
    · rename_i e
      unfold Dict.WF
      rw [List.map_cons, List.nodup_cons]
      refine ⟨?_, ih hq.2⟩
      intro hm
      have := (Dict.get?_eq_none_iff (Dict.set d k v) p.1).not.2 (not_not.2 hm)
      rw [Dict.get?_set, if_neg (fun e' => e e'.symm)] at this
      exact this ((Dict.get?_eq_none_iff d p.1).2 hq.1)

theorem nonempty_get (data : Dict (List Val)) (hw : Dict.WF data) (c : String) (v : List Val) :
    Dict.get? (data.filter fun p => !p.2.isEmpty) c = some v ↔ data.get? c = some v ∧ v ≠ [] := by
  have hw' : Dict.WF (data.filter fun p => !p.2.isEmpty) := hw.sublist (List.filter_sublist.map _)
  constructor
  · intro h
    have := mem_of_value _ _ _ h
    rw [List.mem_filter] at this
    refine ⟨value_of_mem data hw (c, v) this.1, ?_⟩
    rintro rfl
    simp at this
  · rintro ⟨h1, h2⟩
    refine value_of_mem _ hw' (c, v) (List.mem_filter.2 ⟨mem_of_value _ _ _ h1, ?_⟩)
    simp [h2]

/-- The columns read, with whole seconds and microseconds. -/
noncomputable def readColumns (data : Dict (List Val)) (l : List Stamp) : Dict (List Val) :=
  Dict.set (Dict.set (data.filter fun p => !p.2.isEmpty) "microsecond" (l.map fun s => .int s.micro)) "second" (l.map fun s => .int s.second)

theorem forall2_mapM {α β γ : Type} (R : α → β → Prop) (F : β → Py γ) (Q : α → γ → Prop) (l : List α) (vs : List β) (h : List.Forall₂ R l vs)
    (hF : ∀ a ∈ l, ∀ b, R a b → ∃ c, F b = .ok c ∧ Q a c) : ∃ cs, (vs.mapM F : Py (List γ)) = .ok cs ∧ List.Forall₂ Q l cs := by
  induction h with
  | nil => exact ⟨[], rfl, .nil⟩
  | @cons a b l vs hab _ ih =>
    obtain ⟨c, h1, h2⟩ := hF a (by simp) b hab
    obtain ⟨cs, h3, h4⟩ := ih fun a ha => hF a (by simp [ha])
    refine ⟨c :: cs, ?_, .cons h2 h4⟩
    rw [List.mapM_cons, h1, h3]
    rfl

theorem seconds_columns (env : OpenQuake.Env) (hfl : GoodFloat env.fl) (l : List Stamp) (vs : List Val) (h : List.Forall₂ (SecondsAre env) l vs)
    (hr : ∀ s ∈ l, 0 ≤ s.second ∧ s.second < 60 ∧ 0 ≤ s.micro ∧ s.micro < 1000000) :
    ∃ xs, (vs.mapM secondOf : Py (List ℝ)) = .ok xs ∧ (xs.map fun x => Val.int (microOf env x)) = l.map (fun s => .int s.micro) ∧
      (xs.map fun x => Val.int (truncate x)) = l.map fun s => .int s.second := by
  obtain ⟨xs, h1, h2⟩ := forall2_mapM (SecondsAre env) secondOf (fun s x => truncate x = s.second ∧ microOf env x = s.micro) l vs h
    (fun s hs v hv => secondsAre_ok env hfl s v hv (hr s hs))
  refine ⟨xs, h1, ?_⟩
  clear h1 h hr
  induction h2 with
  | nil => simp
  | cons h _ ih => simp [h.1, h.2, ih.1, ih.2]

theorem ints_map (d : Dict (List Val)) (k : String) (l : List Stamp) (g : Stamp → ℤ) (h : d.get? k = some (l.map fun s => .int (g s))) :
    ints d k = .ok (l.map g) := by
  unfold ints column
  rw [h]
  exact mapM_pure l _ _ g fun _ _ => rfl

theorem readColumns_get (data : Dict (List Val)) (l : List Stamp) (c : String) : (readColumns data l).get? c =
    if "second" = c then some (l.map fun s => .int s.second) else if "microsecond" = c then some (l.map fun s => .int s.micro)
    else Dict.get? (data.filter fun p => !p.2.isEmpty) c := by
  unfold readColumns
  rw [Dict.get?_set, Dict.get?_set]

theorem map_ne_nil {α β : Type} (l : List α) (g : α → β) (h : l ≠ []) : l.map g ≠ [] := by simpa using h

theorem stamps_read (env : OpenQuake.Env) (data : Dict (List Val)) (l : List Stamp) (h : HoldsTimes env data l) : stamps (readColumns data l) = .ok l := by
  have hu : ∀ (k : String) (g : Stamp → ℤ), "second" ≠ k → "microsecond" ≠ k → data.get? k = some (l.map fun s => .int (g s)) →
      ints (readColumns data l) k = .ok (l.map g) := by
    intro k g h1 h2 h3
    apply ints_map
    rw [readColumns_get, if_neg h1, if_neg h2, nonempty_get data h.wf]
    exact ⟨h3, map_ne_nil _ _ h.notEmpty⟩
  unfold stamps
  rw [hu "year" Stamp.year (by decide) (by decide) h.year, hu "month" Stamp.month (by decide) (by decide) h.month,
    hu "day" Stamp.day (by decide) (by decide) h.day, hu "hour" Stamp.hour (by decide) (by decide) h.hour,
    hu "minute" Stamp.minute (by decide) (by decide) h.minute, ints_map (readColumns data l) "second" l Stamp.second (by rw [readColumns_get, if_pos rfl]),
    ints_map (readColumns data l) "microsecond" l Stamp.micro (by rw [readColumns_get, if_neg (by decide), if_pos rfl])]
  simp only [bind, Except.bind, pure, Except.pure, zip_map_map, List.map_map]
  congr 1
  exact (List.map_congr_left fun _ _ => rfl).trans (List.map_id l)

theorem fromOpenquake_cons (env : OpenQuake.Env) (keep : Bool) (data : Dict (List Val)) (n : ℕ) (hl : ∀ p ∈ data, p.2 = [] ∨ p.2.length = n)
    (hne : (data.filter fun p => !p.2.isEmpty) ≠ []) : fromOpenquake env keep data = convert env keep (data.filter fun p => !p.2.isEmpty) := by
  have hlen : ∀ p ∈ data.filter (fun p => !p.2.isEmpty), p.2.length = n := by
    intro p hp
    rw [List.mem_filter] at hp
    rcases hl p hp.1 with h | h
    · rw [h] at hp
      simp at hp
    · exact h
  unfold fromOpenquake
  obtain ⟨p, r, hpr⟩ := List.exists_cons_of_ne_nil hne
  rw [hpr] at hlen ⊢
  dsimp only
  rw [if_pos]
  rw [List.all_eq_true]
  intro q hq
  rw [decide_eq_true_eq, hlen q (by simp [hq]), hlen p (by simp)]

theorem read_eq (env : OpenQuake.Env) (hfl : GoodFloat env.fl) (keep : Bool) (data : Dict (List Val)) (l : List Stamp) (h : HoldsTimes env data l) :
    fromOpenquake env keep data = (times env (floatRows (readColumns data l)) l).bind fun t => .ok (dropTimes keep ((readColumns data l).set "time" (t.map .time))) := by
  obtain ⟨vs, hv1, hv2⟩ := h.second
  have hvne : vs ≠ [] := by
    intro h0
    apply h.notEmpty
    rw [h0] at hv2
    cases hv2
    rfl
  have hsec := (nonempty_get data h.wf "second" vs).2 ⟨hv1, hvne⟩
  obtain ⟨xs, h1, h2, h3⟩ := seconds_columns env hfl l vs hv2 h.range
  rw [fromOpenquake_cons env keep data l.length h.lengths (by intro h0; rw [h0] at hsec; cases hsec)]
  unfold convert
  have hc : column (data.filter fun p => !p.2.isEmpty) "second" = .ok vs := by
    unfold column
    rw [hsec]
  simp only [hc, bind, Except.bind, h1, h2, h3]
  have e : Dict.set (Dict.set (data.filter fun p => !p.2.isEmpty) "microsecond" (l.map fun s => .int s.micro)) "second" (l.map fun s => .int s.second) =
    readColumns data l := rfl
  rw [e, stamps_read env data l h]
  rfl

theorem readAs_of (env : OpenQuake.Env) (keep : Bool) (data : Dict (List Val)) (l : List Stamp) (h : HoldsTimes env data l) (out : List ℤ) :
    ReadAs keep data l out (dropTimes keep ((readColumns data l).set "time" (out.map .time))) := by
  have hget : ∀ c, Dict.get? (dropTimes keep ((readColumns data l).set "time" (out.map .time))) c =
      if keep = false ∧ c ∈ timeCols then none else Dict.get? ((readColumns data l).set "time" (out.map .time)) c := by
    intro c
    unfold dropTimes
    cases keep with
    | true => simp
    | false =>
      rw [if_neg (by simp), get_filter _ (fun k => !decide (k ∈ timeCols))]
      by_cases hc : c ∈ timeCols <;> simp [hc]
  constructor
  · rw [hget, if_neg (fun h => absurd h.2 (by decide)), Dict.get?_set, if_pos rfl]
  · intro c v hc hu
    have h1 : "second" ≠ c := fun e => hu (e ▸ by decide)
    have h2 : "microsecond" ≠ c := fun e => hu (e ▸ by decide)
    rw [hget, if_neg (fun h => hu h.2), Dict.get?_set, if_neg (Ne.symm hc), readColumns_get, if_neg h1, if_neg h2]
    exact nonempty_get data h.wf c v
  · intro hk c hc
    rw [hget, if_pos ⟨hk, hc⟩]
  · intro hk
    have hg : ∀ c, Dict.get? (dropTimes keep ((readColumns data l).set "time" (out.map .time))) c =
        Dict.get? ((readColumns data l).set "time" (out.map .time)) c := by
      intro c
      rw [hget, if_neg]
      rintro ⟨h, _⟩
      rw [hk] at h
      cases h
    refine ⟨?_, ?_, ?_⟩
    · intro c hc
      have hu : ∀ (k : String) (g : Stamp → ℤ), "second" ≠ k → "microsecond" ≠ k → "time" ≠ k → data.get? k = some (l.map fun s => .int (g s)) →
          Dict.get? (dropTimes keep ((readColumns data l).set "time" (out.map .time))) k = data.get? k := by
        intro k g h1 h2 h3 h4
        rw [hg, Dict.get?_set, if_neg h3, readColumns_get, if_neg h1, if_neg h2, h4, nonempty_get data h.wf]
        exact ⟨h4, map_ne_nil _ _ h.notEmpty⟩
      simp only [List.mem_cons, List.not_mem_nil, or_false] at hc
      rcases hc with rfl | rfl | rfl | rfl | rfl
      · exact hu _ _ (by decide) (by decide) (by decide) h.year
      · exact hu _ _ (by decide) (by decide) (by decide) h.month
      · exact hu _ _ (by decide) (by decide) (by decide) h.day
      · exact hu _ _ (by decide) (by decide) (by decide) h.hour
      · exact hu _ _ (by decide) (by decide) (by decide) h.minute
    · rw [hg, Dict.get?_set, if_neg (by decide), readColumns_get, if_pos rfl]
    · rw [hg, Dict.get?_set, if_neg (by decide), readColumns_get, if_neg (by decide), if_pos rfl]

/-- C53: an openquake catalogue with dates and times that pandas can store becomes a catalogue with exactly these times (to the microsecond) and the
columns that are not empty. -/
theorem C53_read (env : OpenQuake.Env) (hfl : GoodFloat env.fl) (keep : Bool) (data : Dict (List Val)) (l : List Stamp) (h : HoldsTimes env data l)
    (hvalid : ∀ s ∈ l, env.validDate s.year s.month s.day = true) (hin : ∀ s ∈ l, env.inBounds (nanoseconds env s) = true) :
    ∃ cat, fromOpenquake env keep data = .ok cat ∧ ReadAs keep data l (l.map (nanoseconds env)) cat := by
  refine ⟨_, ?_, readAs_of env keep data l h _⟩
  rw [read_eq env hfl keep data l h]
  unfold times
  rw [if_pos]
  · have : l.map (instant env) = l.map (nanoseconds env) := List.map_congr_left fun s _ => instant_nano env s
    rw [this]
    rfl
  · rw [List.all_eq_true]
    intro s hs
    unfold fits
    rw [instant_nano, hin s hs, hvalid s hs]
    rfl

theorem isObject_iff (v : List Val) : isObject v = true ↔ ∃ x ∈ v, ObjectCell x := by
  unfold isObject
  rw [List.any_eq_true]
  constructor
  · rintro ⟨x, hx, h⟩
    refine ⟨x, hx, ?_⟩
    cases x with
    | text s => exact Or.inr (Or.inr ⟨s, rfl⟩)
    | time t => exact Or.inr (Or.inl ⟨t, rfl⟩)
    | nat => exact Or.inl rfl
    | int _ => cases h
    | real _ => cases h
    | nan => cases h
  · rintro ⟨x, hx, h⟩
    refine ⟨x, hx, ?_⟩
    rcases h with rfl | ⟨t, rfl⟩ | ⟨s, rfl⟩ <;> rfl

theorem isFloat_iff (v : List Val) : isFloat v = true ↔ ∃ x ∈ v, FloatCell x := by
  unfold isFloat
  rw [List.any_eq_true]
  constructor
  · rintro ⟨x, hx, h⟩
    refine ⟨x, hx, ?_⟩
    cases x with
    | text s => cases h
    | time t => cases h
    | nat => cases h
    | int _ => cases h
    | real x => exact Or.inr ⟨x, rfl⟩
    | nan => exact Or.inl rfl
  · rintro ⟨x, hx, h⟩
    refine ⟨x, hx, ?_⟩
    rcases h with rfl | ⟨t, rfl⟩ <;> rfl

theorem readColumns_any (data : Dict (List Val)) (l : List Stamp) (hw : Dict.WF data) (P : Val → Prop) (q : List Val → Bool)
    (hq : ∀ v, q v = true ↔ ∃ x ∈ v, P x) (hint : ∀ n, ¬ P (.int n)) :
    ((readColumns data l).any fun p => q p.2) = true ↔ ∃ c v, c ≠ "second" ∧ c ≠ "microsecond" ∧ data.get? c = some v ∧ ∃ x ∈ v, P x := by
  have hw' : Dict.WF (data.filter fun p => !p.2.isEmpty) := hw.sublist (List.filter_sublist.map _)
  have hwr : Dict.WF (readColumns data l) := set_wf _ _ _ (set_wf _ _ _ hw')
  rw [List.any_eq_true]
  constructor
  · rintro ⟨p, hp, h⟩
    have hg := value_of_mem _ hwr p hp
    rw [readColumns_get] at hg
    obtain ⟨x, hx, hPx⟩ := (hq _).1 h
    split at hg
    · rw [Option.some.injEq] at hg
      rw [← hg] at hx
      obtain ⟨s, _, rfl⟩ := List.mem_map.1 hx
      exact absurd hPx (hint _)
    · split at hg
      · rw [Option.some.injEq] at hg
        rw [← hg] at hx
        obtain ⟨s, _, rfl⟩ := List.mem_map.1 hx
        exact absurd hPx (hint _)
      · rename_i h1 h2
        exact ⟨p.1, p.2, fun e => h1 e.symm, fun e => h2 e.symm, ((nonempty_get data hw _ _).1 hg).1, x, hx, hPx⟩
  · rintro ⟨c, v, h1, h2, h3, x, hx, hP⟩
    refine ⟨(c, v), mem_of_value _ _ _ ?_, (hq v).2 ⟨x, hx, hP⟩⟩
    rw [readColumns_get, if_neg h1.symm, if_neg h2.symm, nonempty_get data hw]
    exact ⟨h3, List.ne_nil_of_mem hx⟩

theorem not_fit (env : OpenQuake.Env) (l : List Stamp) (hout : ∃ s ∈ l, env.inBounds (nanoseconds env s) = false) : ¬ (l.all (fits env) = true) := by
  rw [List.all_eq_true]
  intro h
  obtain ⟨s, hs, hb⟩ := hout
  have := h s hs
  unfold fits at this
  rw [instant_nano, hb, Bool.and_false] at this
  cases this

/-- C53, defect: if one time can not be stored in nanoseconds, all events lose their fraction of a second — this is for catalogues with a
column of text (or other non-numbers), or without floating point numbers (apart from the seconds). -/
theorem C53_defect_read_out_of_bounds (env : OpenQuake.Env) (hfl : GoodFloat env.fl) (keep : Bool) (data : Dict (List Val)) (l : List Stamp)
    (h : HoldsTimes env data l) (hvalid : ∀ s ∈ l, env.validDate s.year s.month s.day = true ∧ 0 ≤ s.hour ∧ s.hour < 24 ∧ 0 ≤ s.minute ∧ s.minute < 60)
    (hout : ∃ s ∈ l, env.inBounds (nanoseconds env s) = false)
    (hobj : (∃ c v, c ≠ "second" ∧ c ≠ "microsecond" ∧ data.get? c = some v ∧ ∃ x ∈ v, ObjectCell x) ∨
      ∀ c v, c ≠ "second" → c ≠ "microsecond" → data.get? c = some v → ∀ x ∈ v, ¬ FloatCell x) :
    ∃ cat, fromOpenquake env keep data = .ok cat ∧ ReadAs keep data l (l.map fun s => nanoseconds env { s with micro := 0 }) cat := by
  refine ⟨_, ?_, readAs_of env keep data l h _⟩
  rw [read_eq env hfl keep data l h]
  have hf : floatRows (readColumns data l) = false := by
    unfold floatRows
    rw [Bool.and_eq_false_iff, Bool.not_eq_false']
    rcases hobj with ho | hn
    · left
      exact (readColumns_any data l h.wf ObjectCell isObject isObject_iff (by intro n; simp [ObjectCell])).2 ho
    · right
      rw [Bool.eq_false_iff]
      intro hc
      obtain ⟨c, v, h1, h2, h3, x, hx, hP⟩ := (readColumns_any data l h.wf FloatCell isFloat isFloat_iff (by intro n; simp [FloatCell])).1 hc
      exact hn c v h1 h2 h3 x hx hP
  have ht : times env (floatRows (readColumns data l)) l = .ok (l.map fun s => nanoseconds env { s with micro := 0 }) := by
    unfold times
    rw [if_neg (not_fit env l hout), hf]
    have := mapM_pure l id (pyDatetime env false) (fun s => nanoseconds env { s with micro := 0 }) (by
      intro s hs
      obtain ⟨a, b, c, d, e⟩ := hvalid s hs
      obtain ⟨f, g, _, _⟩ := h.range s hs
      unfold pyDatetime
      rw [if_neg (by simp)]
      simp only [id]
      rw [if_pos ⟨a, b, c, d, e, f, g⟩, instant_nano])
    rwa [List.map_id] at this
  rw [ht]
  rfl

/-- C53, defect: an openquake catalogue of numbers only, some of them with a decimal point (apart from the seconds), with a time that can not be stored
in nanoseconds, can not be read (TypeError): the function that reads the dates is given floating point numbers. -/
theorem C53_defect_read_numbers (env : OpenQuake.Env) (hfl : GoodFloat env.fl) (keep : Bool) (data : Dict (List Val)) (l : List Stamp)
    (h : HoldsTimes env data l) (hout : ∃ s ∈ l, env.inBounds (nanoseconds env s) = false)
    (hnum : ∀ c v, c ≠ "second" → c ≠ "microsecond" → data.get? c = some v → ∀ x ∈ v, ¬ ObjectCell x)
    (hfloat : ∃ c v, c ≠ "second" ∧ c ≠ "microsecond" ∧ data.get? c = some v ∧ ∃ x ∈ v, FloatCell x) :
    fromOpenquake env keep data = .error .typeError := by
  rw [read_eq env hfl keep data l h]
  have hf : floatRows (readColumns data l) = true := by
    unfold floatRows
    rw [Bool.and_eq_true, Bool.not_eq_true', Bool.eq_false_iff]
    refine ⟨?_, (readColumns_any data l h.wf FloatCell isFloat isFloat_iff (by intro n; simp [FloatCell])).2 hfloat⟩
    intro hc
    obtain ⟨c, v, h1, h2, h3, x, hx, hP⟩ := (readColumns_any data l h.wf ObjectCell isObject isObject_iff (by intro n; simp [ObjectCell])).1 hc
    exact hnum c v h1 h2 h3 x hx hP
  unfold times
  rw [if_neg (not_fit env l hout), hf]
  obtain ⟨s, r, hl⟩ := List.exists_cons_of_ne_nil h.notEmpty
  rw [hl, List.mapM_cons]
  rfl

/-- C53: an openquake catalogue with events whose columns for the date and time are as they should be, but for some that are absent or empty, is
refused with KeyError. -/
theorem C53_missing_unit (env : OpenQuake.Env) (hfl : GoodFloat env.fl) (keep : Bool) (data : Dict (List Val)) (l : List Stamp) (hw : Dict.WF data)
    (hlen : ∀ p ∈ data, p.2 = [] ∨ p.2.length = l.length) (hsome : ∃ p ∈ data, p.2 ≠ [])
    (hunits : ∀ u ∈ ([("year", Stamp.year), ("month", Stamp.month), ("day", Stamp.day), ("hour", Stamp.hour), ("minute", Stamp.minute)] : List (String × (Stamp → ℤ))),
      data.get? u.1 = some (l.map fun s => .int (u.2 s)) ∨ data.get? u.1 = some [] ∨ data.get? u.1 = none)
    (hsec : (∃ vs, data.get? "second" = some vs ∧ List.Forall₂ (SecondsAre env) l vs) ∨ data.get? "second" = some [] ∨ data.get? "second" = none)
    (hr : ∀ s ∈ l, 0 ≤ s.second ∧ s.second < 60 ∧ 0 ≤ s.micro ∧ s.micro < 1000000)
    (hmiss : ∃ c ∈ ["year", "month", "day", "hour", "minute", "second"], data.get? c = some [] ∨ data.get? c = none) :
    fromOpenquake env keep data = .error .keyError := by
  have hl : l ≠ [] := by
    obtain ⟨p, hp, hne⟩ := hsome
    rintro rfl
    rcases hlen p hp with h | h
    · exact hne h
    · exact hne (List.length_eq_zero_iff.1 h)
  have hnil : (data.filter fun p => !p.2.isEmpty) ≠ [] := by
    obtain ⟨p, hp, hne⟩ := hsome
    exact List.ne_nil_of_mem (List.mem_filter.2 ⟨hp, by simp [hne]⟩)
  have hnone : ∀ c, (data.get? c = some [] ∨ data.get? c = none) → Dict.get? (data.filter fun p => !p.2.isEmpty) c = none := by
    intro c hc
    rw [Option.eq_none_iff_forall_ne_some]
    intro v hv
    rw [nonempty_get data hw] at hv
    rcases hc with h | h
    · rw [h, Option.some.injEq] at hv
      exact hv.2 hv.1.symm
    · rw [h] at hv
      cases hv.1
  rw [fromOpenquake_cons env keep data l.length hlen hnil]
  unfold convert
  by_cases hs : data.get? "second" = some [] ∨ data.get? "second" = none
  · have hc : column (data.filter fun p => !p.2.isEmpty) "second" = .error .keyError := by
      unfold column
      rw [hnone _ hs]
    rw [hc]
    rfl
  · obtain ⟨vs, hv1, hv2⟩ := hsec.resolve_right hs
    have hvne : vs ≠ [] := by
      intro h0
      apply hl
      rw [h0] at hv2
      cases hv2
      rfl
    have hg := (nonempty_get data hw "second" vs).2 ⟨hv1, hvne⟩
    obtain ⟨xs, h1, h2, h3⟩ := seconds_columns env hfl l vs hv2 hr
    have hc : column (data.filter fun p => !p.2.isEmpty) "second" = .ok vs := by
      unfold column
      rw [hg]
    simp only [hc, bind, Except.bind, h1, h2, h3]
    have e : Dict.set (Dict.set (data.filter fun p => !p.2.isEmpty) "microsecond" (l.map fun s => .int s.micro)) "second" (l.map fun s => .int s.second) =
      readColumns data l := rfl
    rw [e]
    have hu : ∀ (k : String) (g : Stamp → ℤ), "second" ≠ k → "microsecond" ≠ k →
        (data.get? k = some (l.map fun s => .int (g s)) ∨ data.get? k = some [] ∨ data.get? k = none) →
        ints (readColumns data l) k = .ok (l.map g) ∨ ints (readColumns data l) k = .error .keyError := by
      intro k g k1 k2 hk
      rcases hk with hk | hk
      · left
        apply ints_map
        rw [readColumns_get, if_neg k1, if_neg k2, nonempty_get data hw]
        exact ⟨hk, map_ne_nil _ _ hl⟩
      · right
        unfold ints column
        rw [readColumns_get, if_neg k1, if_neg k2, hnone _ hk]
        rfl
    have hm : ∀ (k : String), "second" ≠ k → "microsecond" ≠ k → (data.get? k = some [] ∨ data.get? k = none) → ints (readColumns data l) k = .error .keyError := by
      intro k k1 k2 hk
      unfold ints column
      rw [readColumns_get, if_neg k1, if_neg k2, hnone _ hk]
      rfl
    have u1 := hu "year" Stamp.year (by decide) (by decide) (hunits ("year", Stamp.year) (by simp))
    have u2 := hu "month" Stamp.month (by decide) (by decide) (hunits ("month", Stamp.month) (by simp))
    have u3 := hu "day" Stamp.day (by decide) (by decide) (hunits ("day", Stamp.day) (by simp))
    have u4 := hu "hour" Stamp.hour (by decide) (by decide) (hunits ("hour", Stamp.hour) (by simp))
    have u5 := hu "minute" Stamp.minute (by decide) (by decide) (hunits ("minute", Stamp.minute) (by simp))
    have hst : stamps (readColumns data l) = .error .keyError := by
      unfold stamps
      obtain ⟨c, hc, hx⟩ := hmiss
      rcases u1 with u1 | u1 <;> [skip; (rw [u1]; rfl)]
      rcases u2 with u2 | u2 <;> [skip; (rw [u1, u2]; rfl)]
      rcases u3 with u3 | u3 <;> [skip; (rw [u1, u2, u3]; rfl)]
      rcases u4 with u4 | u4 <;> [skip; (rw [u1, u2, u3, u4]; rfl)]
      rcases u5 with u5 | u5 <;> [skip; (rw [u1, u2, u3, u4, u5]; rfl)]
      exfalso
      simp only [List.mem_cons, List.not_mem_nil, or_false] at hc
      rcases hc with rfl | rfl | rfl | rfl | rfl | rfl
      · rw [hm _ (by decide) (by decide) hx] at u1; cases u1
      · rw [hm _ (by decide) (by decide) hx] at u2; cases u2
      · rw [hm _ (by decide) (by decide) hx] at u3; cases u3
      · rw [hm _ (by decide) (by decide) hx] at u4; cases u4
      · rw [hm _ (by decide) (by decide) hx] at u5; cases u5
      · exact hs hx
    rw [hst]

/-- Two events, one at 13.1234 s and one at 15 s, as hmtk stores them (with an empty column). -/
noncomputable def hmtkData (y : ℤ) : Dict (List Val) :=
  [("longitude", [.real 42.35, .real 1.35]), ("depth", [.real 5.5, .nan]), ("flag", []), ("year", [.int 10, .int y]), ("month", [.int 1, .int 4]), ("day", [.int 1, .int 7]),
    ("hour", [.int 5, .int 7]), ("minute", [.int 5, .int 7]), ("second", [.real (13 + 123400 / 1000000), .int 15])]

/-- Dates and times of the two events. -/
def hmtkTimes (y : ℤ) : List Stamp := [⟨10, 1, 1, 5, 5, 13, 123400⟩, ⟨y, 4, 7, 7, 7, 15, 0⟩]

theorem hmtk_holds (y : ℤ) : HoldsTimes oqEnv (hmtkData y) (hmtkTimes y) where
  wf := by simp [Dict.WF, hmtkData]
  notEmpty := by simp [hmtkTimes]
  lengths := by simp [hmtkData, hmtkTimes]
  year := by simp [hmtkData, hmtkTimes, Dict.get?]
  month := by simp [hmtkData, hmtkTimes, Dict.get?]
  day := by simp [hmtkData, hmtkTimes, Dict.get?]
  hour := by simp [hmtkData, hmtkTimes, Dict.get?]
  minute := by simp [hmtkData, hmtkTimes, Dict.get?]
  second := by
    refine ⟨[.real (13 + 123400 / 1000000), .int 15], by simp [hmtkData, Dict.get?], .cons (Or.inr ?_) (.cons (Or.inl ⟨rfl, rfl⟩) .nil)⟩
    simp [oqEnv]
  range := by
    intro s hs
    simp only [hmtkTimes, List.mem_cons, List.not_mem_nil, or_false] at hs
    rcases hs with rfl | rfl <;> norm_num

/-- The hypotheses of `C53_read` are met by the first year, those of `C53_defect_read_numbers` by the second. -/
example : (∀ s ∈ hmtkTimes 11, oqEnv.validDate s.year s.month s.day = true ∧ oqEnv.inBounds (nanoseconds oqEnv s) = true) ∧
    (∃ s ∈ hmtkTimes 200, oqEnv.inBounds (nanoseconds oqEnv s) = false) ∧
    (∃ c v, c ≠ "second" ∧ c ≠ "microsecond" ∧ (hmtkData 200).get? c = some v ∧ ∃ x ∈ v, FloatCell x) := by
  refine ⟨?_, ⟨⟨200, 4, 7, 7, 7, 15, 0⟩, by simp [hmtkTimes], by decide⟩, "depth", [.real 5.5, .nan], by decide, by decide, by simp [hmtkData, Dict.get?], .nan, by simp, Or.inl rfl⟩
  intro s hs
  simp only [hmtkTimes, List.mem_cons, List.not_mem_nil, or_false] at hs
  rcases hs with rfl | rfl <;> exact ⟨rfl, by decide⟩

end SeismoStats.Props
