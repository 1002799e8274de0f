/-
Property C53: conversion to openquake and back.
-/
import Verif.Model.OpenQuake
import Verif.Props.CatalogColumns
import Mathlib.Tactic.Linarith
import Mathlib.Tactic.NormNum
import Mathlib.Tactic.Ring
import Mathlib.Tactic.FinCases

namespace SeismoStats.Props
open SeismoStats SeismoStats.OpenQuake
open SeismoStats.Catalog (Frame hasCols)
open Classical

/-! ### Specification -/

/-- Floating point arithmetic: results have a relative error of at most `2⁻⁵³`, and small integers are exact. -/
structure GoodFloat (fl : ℝ → ℝ) : Prop where
  error : ∀ x, |fl x - x| ≤ |x| / 2 ^ 53
  exact : ∀ n : ℤ, 0 ≤ n → n < 60 → fl n = n

/-- The time `t` (in nanoseconds) without what is below a microsecond. -/
def toMicro (t : ℤ) : ℤ := t - t % 1000

/-- The time `t` (in nanoseconds) without what is below a second. -/
def toSecond (t : ℤ) : ℤ := t - t % 1000000000

/-! ### Arithmetic -/

theorem roundEven_near (x : ℝ) (n : ℤ) (h : |x - n| < 1 / 2) : roundEven x = n := by
  rw [abs_lt] at h
  by_cases hx : (n : ℝ) ≤ x
  · have hf : ⌊x⌋ = n := by
      rw [Int.floor_eq_iff]
      exact ⟨hx, by linarith [h.2]⟩
    unfold roundEven
    rw [hf, if_pos h.2]
  · have hf : ⌊x⌋ = n - 1 := by
      rw [Int.floor_eq_iff]
      push_cast
      push Not at hx
      exact ⟨by linarith [h.1], by linarith⟩
    unfold roundEven
    have h1 : x - ((n - 1 : ℤ) : ℝ) > 1 / 2 := by push_cast; linarith [h.1]
    rw [hf, if_neg (by linarith), if_pos h1]
    ring

theorem seconds_exact (env : OpenQuake.Env) (h : GoodFloat env.fl) (s us : ℤ) (hs0 : 0 ≤ s) (hs : s < 60) (hu0 : 0 ≤ us) (hu : us < 1000000) :
    truncate (env.fl (s + env.fl (us / 1000000))) = s ∧ microOf env (env.fl (s + env.fl (us / 1000000))) = us := by
  have hsR : (0 : ℝ) ≤ s := by exact_mod_cast hs0
  have hsR2 : (s : ℝ) ≤ 59 := by
    have : s ≤ 59 := by omega
    exact_mod_cast this
  have huR : (0 : ℝ) ≤ us := by exact_mod_cast hu0
  have huR2 : (us : ℝ) ≤ 999999 := by
    have : us ≤ 999999 := by omega
    exact_mod_cast this
  have hpow : (2 : ℝ) ^ 53 = 9007199254740992 := by norm_num
  set a := env.fl (us / 1000000) with ha
  set b := env.fl (s + a) with hb
  have h1 : |a - us / 1000000| ≤ 1 / 9007199254740992 := by
    have := h.error (us / 1000000)
    rw [abs_of_nonneg (by positivity : (0 : ℝ) ≤ us / 1000000), hpow] at this
    refine this.trans ?_
    rw [div_le_div_iff_of_pos_right (by norm_num)]
    rw [div_le_one (by norm_num)]
    linarith
  have h1' := abs_le.1 h1
  have hus : (us : ℝ) / 1000000 ≤ 1 := by rw [div_le_one (by norm_num)]; linarith
  have hus0 : (0 : ℝ) ≤ us / 1000000 := by positivity
  have h2 : |b - (s + a)| ≤ 62 / 9007199254740992 := by
    have := h.error (s + a)
    rw [hpow] at this
    refine this.trans ?_
    rw [div_le_div_iff_of_pos_right (by norm_num), abs_le]
    constructor
    · linarith [h1'.1]
    · linarith [h1'.2]
  have h2' := abs_le.1 h2
  have hfloor : ⌊b⌋ = s := by
    by_cases hz : us = 0
    · have ha0 : a = 0 := by
        rw [ha, hz]
        simpa using h.exact 0 (by norm_num) (by norm_num)
      have hbs : b = s := by
        rw [hb, ha0, add_zero]
        exact h.exact s hs0 hs
      rw [hbs, Int.floor_intCast]
    · have hge : (1 : ℝ) ≤ us := by
        have : 1 ≤ us := by omega
        exact_mod_cast this
      rw [Int.floor_eq_iff]
      have g1 : (1 : ℝ) / 1000000 ≤ us / 1000000 := by
        rw [div_le_div_iff_of_pos_right (by norm_num)]; exact hge
      have g2 : (us : ℝ) / 1000000 ≤ 999999 / 1000000 := by
        rw [div_le_div_iff_of_pos_right (by norm_num)]; exact huR2
      constructor
      · linarith [h1'.1, h2'.1]
      · linarith [h1'.2, h2'.2]
  have hb0 : 0 ≤ b := by
    have := Int.floor_le b
    rw [hfloor] at this
    linarith
  refine ⟨?_, ?_⟩
  · unfold truncate
    rw [if_pos hb0, hfloor]
  · unfold microOf
    apply roundEven_near
    rw [hfloor]
    have h3 := h.error ((b - s) * 1000000)
    rw [hpow] at h3
    have hb1 : |(b - s) * 1000000| ≤ 1000001 := by
      rw [abs_le]
      constructor
      · linarith [h1'.1, h2'.1]
      · linarith [h1'.2, h2'.2]
    have h4 : |env.fl ((b - s) * 1000000) - (b - s) * 1000000| ≤ 1000001 / 9007199254740992 :=
      h3.trans (by rw [div_le_div_iff_of_pos_right (by norm_num)]; exact hb1)
    have h4' := abs_le.1 h4
    have hmul : (us : ℝ) = us / 1000000 * 1000000 := by field_simp
    rw [abs_lt]
    constructor
    · linarith [h1'.1, h2'.1, h4'.1]
    · linarith [h1'.2, h2'.2, h4'.2]

/-! ### Dictionaries -/

theorem get_filter {V : Type} (d : Dict V) (q : String → Bool) (k : String) :
    Dict.get? (d.filter fun p => q p.1) k = if q k = true then Dict.get? d k else none := by
  induction d with
  | nil => simp [Dict.get?]
  | cons p d ih =>
    by_cases hq : q p.1 = true
    · rw [List.filter_cons_of_pos (p := fun p : String × V => q p.1) hq]
      by_cases hp : p.1 = k
      · subst hp; simp [Dict.get?, hq]
      · simp only [Dict.get?, hp, if_false, ih]
    · rw [List.filter_cons_of_neg (p := fun p : String × V => q p.1) hq, ih]
      by_cases hp : p.1 = k
      · subst hp; simp [hq]
      · simp only [Dict.get?, hp, if_false]

theorem set_all {V : Type} (P : V → Prop) (d : Dict V) (k : String) (v : V) (hd : ∀ p ∈ d, P p.2) (hv : P v) : ∀ p ∈ d.set k v, P p.2 := by
  induction d with
  | nil =>
    intro p hp
    simp only [Dict.set, List.mem_singleton] at hp
    subst hp
    exact hv
  | cons q d ih =>
    intro p hp
    simp only [Dict.set] at hp
    split at hp
    · rcases List.mem_cons.1 hp with rfl | hp
      · exact hv
      · exact hd p (by simp [hp])
    · rcases List.mem_cons.1 hp with rfl | hp
      · exact hd _ (by simp)
      · exact ih (fun p hp => hd p (by simp [hp])) p hp

theorem columns_get (f : Frame Val) (c : String) :
    Dict.get? (f.cols.map fun c => (c, f.column c)) c = if c ∈ f.cols then some (f.column c) else none := by
  induction f.cols with
  | nil => simp [Dict.get?]
  | cons k l ih =>
    rw [List.map_cons]
    by_cases h : k = c
    · subst h; simp [Dict.get?]
    · simp only [Dict.get?, h, if_false, ih, List.mem_cons, Ne.symm h, false_or]

/-! ### The converted catalogue -/

theorem mapM_pure {α β γ : Type} (l : List α) (g : α → β) (F : β → Py γ) (h : α → γ) (hF : ∀ a ∈ l, F (g a) = .ok (h a)) :
    ((l.map g).mapM F : Py (List γ)) = .ok (l.map h) := by
  induction l with
  | nil => rfl
  | cons a l ih =>
    rw [List.map_cons, List.mapM_cons, ih fun b hb => hF b (by simp [hb]), hF a (by simp)]
    rfl

theorem addUnits_ok (env : OpenQuake.Env) (ts : List ℤ) (us : List (String × (Stamp → Val))) (d : Dict (List Val)) :
    addUnits env (ts.map .time) us d = .ok (us.foldl (fun d p => d.set p.1 (ts.map fun t => p.2 (stamp env t))) d) := by
  induction us generalizing d with
  | nil => rfl
  | cons p us ih =>
    have hm : ((ts.map Val.time).mapM (unit p.2 env) : Py (List Val)) = .ok (ts.map fun t => p.2 (stamp env t)) :=
      mapM_pure ts _ _ _ fun _ _ => rfl
    rw [addUnits, hm]
    exact ih _

/-- The columns of the openquake catalogue. -/
noncomputable def oqData (env : OpenQuake.Env) (f : Frame Val) (ts : List ℤ) : Dict (List Val) :=
  (units env).foldl (fun d p => d.set p.1 (ts.map fun t => p.2 (stamp env t))) (addEventId env f.rows.length (f.cols.map fun c => (c, f.column c)))

theorem oqData_get (env : OpenQuake.Env) (f : Frame Val) (ts : List ℤ) (c : String) :
    Dict.get? (oqData env f ts) c =
      match (units env).find? fun p => decide (p.1 = c) with
      | some p => some (ts.map fun t => p.2 (stamp env t))
      | none => if c ∈ f.cols then some (f.column c)
        else if c = "eventID" then some ((List.range f.rows.length).map fun i => .text (env.uuid i)) else none := by
  have hbase : Dict.get? (addEventId env f.rows.length (f.cols.map fun c => (c, f.column c))) c =
      if c ∈ f.cols then some (f.column c)
        else if c = "eventID" then some ((List.range f.rows.length).map fun i => .text (env.uuid i)) else none := by
    unfold addEventId Dict.has
    rw [columns_get]
    by_cases he : "eventID" ∈ f.cols
    · rw [if_pos (by simp [he]), columns_get]
      by_cases hc : c ∈ f.cols
      · simp [hc]
      · have : c ≠ "eventID" := fun e => hc (e ▸ he)
        simp [hc, this]
    · rw [if_neg (by simp [he]), Dict.get?_set, columns_get]
      by_cases hc : c = "eventID"
      · subst hc; simp [he]
      · simp [hc, Ne.symm hc]
  unfold oqData
  simp only [units, List.foldl_cons, List.foldl_nil, Dict.get?_set, hbase, List.find?_cons, List.find?_nil]
  by_cases h1 : "microsecond" = c
  · subst h1; simp
  by_cases h2 : "second" = c
  · subst h2; simp
  by_cases h3 : "minute" = c
  · subst h3; simp
  by_cases h4 : "hour" = c
  · subst h4; simp
  by_cases h5 : "day" = c
  · subst h5; simp
  by_cases h6 : "month" = c
  · subst h6; simp
  by_cases h7 : "year" = c
  · subst h7; simp
  simp [h1, h2, h3, h4, h5, h6, h7]

theorem oqData_length (env : OpenQuake.Env) (f : Frame Val) (ts : List ℤ) (hl : ts.length = f.rows.length) :
    ∀ p ∈ oqData env f ts, p.2.length = f.rows.length := by
  unfold oqData
  have h0 : ∀ p ∈ addEventId env f.rows.length (f.cols.map fun c => (c, f.column c)), p.2.length = f.rows.length := by
    have h1 : ∀ p ∈ f.cols.map (fun c => (c, f.column c)), p.2.length = f.rows.length := by
      intro p hp
      obtain ⟨c, _, rfl⟩ := List.mem_map.1 hp
      simp [Frame.column]
    unfold addEventId
    split
    · exact h1
    · exact set_all (fun v : List Val => v.length = f.rows.length) _ _ _ h1 (by simp)
  generalize units env = us
  generalize addEventId env f.rows.length (f.cols.map fun c => (c, f.column c)) = d at h0
  induction us generalizing d with
  | nil => exact h0
  | cons p us ih =>
    rw [List.foldl_cons]
    exact ih _ (set_all (fun v : List Val => v.length = f.rows.length) _ _ _ h0 (by simp [hl]))

theorem stamp_range (env : OpenQuake.Env) (t : ℤ) :
    0 ≤ (stamp env t).second ∧ (stamp env t).second < 60 ∧ 0 ≤ (stamp env t).micro ∧ (stamp env t).micro < 1000000 ∧
      0 ≤ (stamp env t).hour ∧ (stamp env t).hour < 24 ∧ 0 ≤ (stamp env t).minute ∧ (stamp env t).minute < 60 := by
  unfold stamp
  dsimp only
  refine ⟨?_, ?_, ?_, ?_, ?_, ?_, ?_, ?_⟩ <;> omega

theorem instant_stamp (env : OpenQuake.Env) (hcal : ∀ n, env.days (env.civil n).1 (env.civil n).2.1 (env.civil n).2.2 = n) (t : ℤ) :
    instant env (stamp env t) = toMicro t ∧ instant env { stamp env t with micro := 0 } = toSecond t := by
  unfold instant stamp toMicro toSecond
  dsimp only
  rw [hcal]
  constructor <;> omega

/-- The columns after the conversion of the seconds. -/
noncomputable def withSeconds (env : OpenQuake.Env) (f : Frame Val) (ts : List ℤ) : Dict (List Val) :=
  ((oqData env f ts).set "microsecond" (ts.map fun t => .int (stamp env t).micro)).set "second" (ts.map fun t => .int (stamp env t).second)

theorem withSeconds_unit (env : OpenQuake.Env) (f : Frame Val) (ts : List ℤ) :
    ints (withSeconds env f ts) "year" = .ok (ts.map fun t => (stamp env t).year) ∧
    ints (withSeconds env f ts) "month" = .ok (ts.map fun t => (stamp env t).month) ∧
    ints (withSeconds env f ts) "day" = .ok (ts.map fun t => (stamp env t).day) ∧
    ints (withSeconds env f ts) "hour" = .ok (ts.map fun t => (stamp env t).hour) ∧
    ints (withSeconds env f ts) "minute" = .ok (ts.map fun t => (stamp env t).minute) ∧
    ints (withSeconds env f ts) "second" = .ok (ts.map fun t => (stamp env t).second) ∧
    ints (withSeconds env f ts) "microsecond" = .ok (ts.map fun t => (stamp env t).micro) := by
  have key : ∀ (c : String) (g : Stamp → ℤ), Dict.get? (withSeconds env f ts) c = some (ts.map fun t => .int (g (stamp env t))) →
      ints (withSeconds env f ts) c = .ok (ts.map fun t => g (stamp env t)) := by
    intro c g h
    unfold ints column
    rw [h]
    exact mapM_pure ts _ _ _ fun _ _ => rfl
  refine ⟨key _ (·.year) ?_, key _ (·.month) ?_, key _ (·.day) ?_, key _ (·.hour) ?_, key _ (·.minute) ?_, key _ (·.second) ?_, key _ (·.micro) ?_⟩ <;>
    simp [withSeconds, Dict.get?_set, oqData_get, units]

theorem zip_map_map {α β γ : Type} (l : List α) (g : α → β) (h : α → γ) : (l.map g).zip (l.map h) = l.map fun a => (g a, h a) := by
  induction l with
  | nil => rfl
  | cons a l ih => simp [ih]

theorem stamps_ok (env : OpenQuake.Env) (f : Frame Val) (ts : List ℤ) : stamps (withSeconds env f ts) = .ok (ts.map (stamp env)) := by
  obtain ⟨h1, h2, h3, h4, h5, h6, h7⟩ := withSeconds_unit env f ts
  unfold stamps
  rw [h1, h2, h3, h4, h5, h6, h7]
  simp only [bind, Except.bind, pure, Except.pure, zip_map_map, List.map_map]
  rfl

theorem withSeconds_object (env : OpenQuake.Env) (f : Frame Val) (ts : List ℤ) (hts : f.column "time" = ts.map .time) (hne : ts ≠ [])
    (htime : "time" ∈ f.cols) : floatRows (withSeconds env f ts) = false := by
  have hget : Dict.get? (withSeconds env f ts) "time" = some (ts.map .time) := by
    simp [withSeconds, Dict.get?_set, oqData_get, units, htime, hts]
  have hmem : ("time", ts.map Val.time) ∈ withSeconds env f ts := by
    generalize withSeconds env f ts = d at hget
    induction d with
    | nil => cases hget
    | cons p d ih =>
      by_cases hp : p.1 = "time"
      · simp only [Dict.get?, hp, if_true, Option.some.injEq] at hget
        rw [← hget, ← hp]
        simp
      · simp only [Dict.get?, hp, if_false] at hget
        simp [ih hget]
  unfold floatRows
  rw [Bool.and_eq_false_iff]
  left
  rw [Bool.not_eq_false', List.any_eq_true]
  refine ⟨_, hmem, ?_⟩
  unfold isObject
  rw [List.any_eq_true]
  obtain ⟨t, l, rfl⟩ := List.exists_cons_of_ne_nil hne
  exact ⟨.time t, by simp, rfl⟩

theorem convert_ok (env : OpenQuake.Env) (hfl : GoodFloat env.fl) (f : Frame Val) (ts : List ℤ) (keep : Bool) (hts : f.column "time" = ts.map .time)
    (hne : ts ≠ []) (htime : "time" ∈ f.cols) (out : List ℤ) (hout : times env false (ts.map (stamp env)) = .ok out) :
    fromOpenquake env keep (oqData env f ts) = .ok (dropTimes keep ((withSeconds env f ts).set "time" (out.map .time))) := by
  have hlen : ts.length = f.rows.length := by
    have := congrArg List.length hts
    simpa [Frame.column] using this.symm
  have hl := oqData_length env f ts hlen
  have hpos : 0 < f.rows.length := by
    rw [← hlen]
    exact List.length_pos_of_ne_nil hne
  have hfil : (oqData env f ts).filter (fun p => !p.2.isEmpty) = oqData env f ts := by
    rw [List.filter_eq_self]
    intro p hp
    rw [Bool.not_eq_true', List.isEmpty_eq_false_iff]
    intro h0
    have := hl p hp
    rw [h0] at this
    simp at this
    omega
  have hconv : convert env keep (oqData env f ts) = .ok (dropTimes keep ((withSeconds env f ts).set "time" (out.map .time))) := by
    unfold convert
    have hc : column (oqData env f ts) "second" = .ok (ts.map fun t => .real (floatSecond env (stamp env t))) := by
      unfold column
      rw [oqData_get]
      simp [units]
    have hs : ((ts.map fun t => Val.real (floatSecond env (stamp env t))).mapM secondOf : Py (List ℝ)) =
        .ok (ts.map fun t => floatSecond env (stamp env t)) := mapM_pure ts _ _ _ fun _ _ => rfl
    have hex : ∀ t, truncate (floatSecond env (stamp env t)) = (stamp env t).second ∧ microOf env (floatSecond env (stamp env t)) = (stamp env t).micro := by
      intro t
      obtain ⟨a, b, c, d, _⟩ := stamp_range env t
      exact seconds_exact env hfl _ _ a b c d
    simp only [hc, bind, Except.bind, hs, List.map_map, Function.comp_def, (hex _).1, (hex _).2]
    have e : ((oqData env f ts).set "microsecond" (ts.map fun t => .int (stamp env t).micro)).set "second" (ts.map fun t => .int (stamp env t).second) =
      withSeconds env f ts := rfl
    rw [e, stamps_ok, withSeconds_object env f ts hts hne htime]
    simp only [hout, pure, Except.pure]
  unfold fromOpenquake
  rw [hfil]
  have hnn : oqData env f ts ≠ [] := by
    intro h0
    have := oqData_get env f ts "second"
    rw [h0] at this
    simp [Dict.get?, units] at this
  obtain ⟨p, r, hpr⟩ := List.exists_cons_of_ne_nil hnn
  rw [hpr] at hl hconv ⊢
  dsimp only
  rw [if_pos, hconv]
  rw [List.all_eq_true]
  intro q hq
  rw [decide_eq_true_eq, hl q (by simp [hq]), hl p (by simp)]

/-- What a catalogue keeps of the original one: `out` are its times. -/
structure Kept (env : OpenQuake.Env) (keep : Bool) (f : Frame Val) (ts out : List ℤ) (cat : Dict (List Val)) : Prop where
  time : cat.get? "time" = some (out.map .time)
  columns : ∀ c ∈ f.cols, c ≠ "time" → c ∉ timeCols → cat.get? c = some (f.column c)
  eventID : "eventID" ∉ f.cols → cat.get? "eventID" = some ((List.range f.rows.length).map fun i => .text (env.uuid i))
  noMore : ∀ c, c ∉ f.cols → c ≠ "eventID" → c ∉ timeCols → cat.get? c = none
  dropped : keep = false → ∀ c ∈ timeCols, cat.get? c = none
  units : keep = true →
    cat.get? "year" = some (ts.map fun t => .int (env.civil (t / 86400000000000)).1) ∧
    cat.get? "month" = some (ts.map fun t => .int (env.civil (t / 86400000000000)).2.1) ∧
    cat.get? "day" = some (ts.map fun t => .int (env.civil (t / 86400000000000)).2.2) ∧
    cat.get? "hour" = some (ts.map fun t => .int (t / 3600000000000 % 24)) ∧
    cat.get? "minute" = some (ts.map fun t => .int (t / 60000000000 % 60)) ∧
    cat.get? "second" = some (ts.map fun t => .int (t / 1000000000 % 60)) ∧
    cat.get? "microsecond" = some (ts.map fun t => .int (t / 1000 % 1000000))

theorem kept_of (env : OpenQuake.Env) (keep : Bool) (f : Frame Val) (ts out : List ℤ) (htime : "time" ∈ f.cols) :
    Kept env keep f ts out (dropTimes keep ((withSeconds env f ts).set "time" (out.map .time))) := by
  have hget : ∀ c, Dict.get? (dropTimes keep ((withSeconds env f ts).set "time" (out.map .time))) c =
      if keep = false ∧ c ∈ timeCols then none else Dict.get? ((withSeconds env f ts).set "time" (out.map .time)) c := by
    intro c
    unfold dropTimes
    cases keep with
    | true => simp
    | false =>
      rw [if_neg (by simp), get_filter _ (fun k => !decide (k ∈ timeCols))]
      by_cases hc : c ∈ timeCols <;> simp [hc]
  have hfind : ∀ c, c ∉ timeCols → ((OpenQuake.units env).find? fun p => decide (p.1 = c)) = none := by
    intro c hc
    rw [List.find?_eq_none]
    intro p hp hd
    rw [decide_eq_true_eq] at hd
    apply hc
    have : (OpenQuake.units env).map Prod.fst = timeCols := rfl
    rw [← this, ← hd]
    exact List.mem_map_of_mem (f := Prod.fst) hp
  have hother : ∀ c, c ∉ timeCols → c ≠ "time" → Dict.get? (dropTimes keep ((withSeconds env f ts).set "time" (out.map .time))) c =
      if c ∈ f.cols then some (f.column c)
        else if c = "eventID" then some ((List.range f.rows.length).map fun i => .text (env.uuid i)) else none := by
    intro c hc ht
    have h1 : "second" ≠ c := fun e => hc (e ▸ by decide)
    have h2 : "microsecond" ≠ c := fun e => hc (e ▸ by decide)
    rw [hget, if_neg (fun h => hc h.2), Dict.get?_set, if_neg (Ne.symm ht), withSeconds, Dict.get?_set, if_neg h1, Dict.get?_set, if_neg h2,
      oqData_get, hfind c hc]
  constructor
  · rw [hget, if_neg (fun h => absurd h.2 (by decide)), Dict.get?_set, if_pos rfl]
  · intro c hc ht hu
    rw [hother c hu ht, if_pos hc]
  · intro h
    rw [hother "eventID" (by decide) (by decide), if_neg h, if_pos rfl]
  · intro c hc he hu
    have ht : c ≠ "time" := fun e => hc (e ▸ htime)
    rw [hother c hu ht, if_neg hc, if_neg he]
  · intro hk c hc
    rw [hget, if_pos ⟨hk, hc⟩]
  · intro hk
    have hg : ∀ c, Dict.get? (dropTimes keep ((withSeconds env f ts).set "time" (out.map .time))) c =
        Dict.get? ((withSeconds env f ts).set "time" (out.map .time)) c := by
      intro c
      rw [hget, if_neg]
      rintro ⟨h, _⟩
      rw [hk] at h
      cases h
    have h1 : ∀ t, (stamp env t).hour = t / 3600000000000 % 24 := by intro t; unfold stamp; dsimp only; omega
    have h2 : ∀ t, (stamp env t).minute = t / 60000000000 % 60 := by intro t; unfold stamp; dsimp only; omega
    have h3 : ∀ t, (stamp env t).second = t / 1000000000 % 60 := by intro t; unfold stamp; dsimp only; omega
    have h4 : ∀ t, (stamp env t).micro = t / 1000 % 1000000 := by intro t; unfold stamp; dsimp only; omega
    simp only [hg, ← h1, ← h2, ← h3, ← h4]
    refine ⟨?_, ?_, ?_, ?_, ?_, ?_, ?_⟩ <;> simp [withSeconds, Dict.get?_set, oqData_get, OpenQuake.units] <;> intros <;> rfl

theorem to_ok (env : OpenQuake.Env) (f : Frame Val) (ts : List ℤ)
    (hcols : ∀ c ∈ ["longitude", "latitude", "depth", "time", "magnitude"], c ∈ f.cols) (hts : f.column "time" = ts.map .time) (hne : ts ≠ []) :
    toOpenquake env f = .ok (oqData env f ts) := by
  unfold toOpenquake
  rw [if_pos ((hasCols_iff _ _).2 hcols), if_neg, hts, addUnits_ok]
  · rfl
  · intro h
    apply hne
    have := congrArg List.length hts
    rw [Frame.column, h] at this
    simpa using this.symm

/-- C53: converting to openquake and back keeps every column of every event; times are kept to the microsecond if pandas can store
all of them in nanoseconds. -/
theorem C53_round_trip (env : OpenQuake.Env) (hfl : GoodFloat env.fl)
    (hcal : ∀ n, env.days (env.civil n).1 (env.civil n).2.1 (env.civil n).2.2 = n) (f : Frame Val) (ts : List ℤ) (keep : Bool)
    (hcols : ∀ c ∈ ["longitude", "latitude", "depth", "time", "magnitude"], c ∈ f.cols) (hts : f.column "time" = ts.map .time) (hne : ts ≠ [])
    (hvalid : ∀ t ∈ ts, env.validDate (env.civil (t / 86400000000000)).1 (env.civil (t / 86400000000000)).2.1 (env.civil (t / 86400000000000)).2.2 = true)
    (hin : ∀ t ∈ ts, env.inBounds (toMicro t) = true) :
    ∃ oq cat, toOpenquake env f = .ok oq ∧ fromOpenquake env keep oq = .ok cat ∧ Kept env keep f ts (ts.map toMicro) cat := by
  have htime := hcols "time" (by simp)
  refine ⟨oqData env f ts, _, to_ok env f ts hcols hts hne, convert_ok env hfl f ts keep hts hne htime (ts.map toMicro) ?_, kept_of env keep f ts _ htime⟩
  unfold times
  rw [if_pos, List.map_map]
  · congr 1
    apply List.map_congr_left
    intro t _
    exact (instant_stamp env hcal t).1
  · rw [List.all_eq_true]
    intro s hs
    obtain ⟨t, ht, rfl⟩ := List.mem_map.1 hs
    unfold fits
    rw [(instant_stamp env hcal t).1, hin t ht, Bool.and_true]
    exact hvalid t ht

/-- C53, defect: if one time can not be stored in nanoseconds, every event of the catalogue loses its fraction of a second. -/
theorem C53_defect_out_of_bounds (env : OpenQuake.Env) (hfl : GoodFloat env.fl)
    (hcal : ∀ n, env.days (env.civil n).1 (env.civil n).2.1 (env.civil n).2.2 = n) (f : Frame Val) (ts : List ℤ) (keep : Bool)
    (hcols : ∀ c ∈ ["longitude", "latitude", "depth", "time", "magnitude"], c ∈ f.cols) (hts : f.column "time" = ts.map .time)
    (hvalid : ∀ t ∈ ts, env.validDate (env.civil (t / 86400000000000)).1 (env.civil (t / 86400000000000)).2.1 (env.civil (t / 86400000000000)).2.2 = true)
    (hout : ∃ t ∈ ts, env.inBounds (toMicro t) = false) :
    ∃ oq cat, toOpenquake env f = .ok oq ∧ fromOpenquake env keep oq = .ok cat ∧ Kept env keep f ts (ts.map toSecond) cat := by
  have htime := hcols "time" (by simp)
  obtain ⟨t0, ht0, hb⟩ := hout
  have hne : ts ≠ [] := List.ne_nil_of_mem ht0
  refine ⟨oqData env f ts, _, to_ok env f ts hcols hts hne, convert_ok env hfl f ts keep hts hne htime (ts.map toSecond) ?_, kept_of env keep f ts _ htime⟩
  unfold times
  rw [if_neg]
  · apply mapM_pure
    intro t ht
    unfold pyDatetime
    obtain ⟨a, b, _, _, c, d, e, g⟩ := stamp_range env t
    rw [if_neg (by simp), if_pos ⟨hvalid t ht, c, d, e, g, a, b⟩, (instant_stamp env hcal t).2]
  · rw [List.all_eq_true]
    intro h
    have := h (stamp env t0) (List.mem_map_of_mem ht0)
    unfold fits at this
    rw [(instant_stamp env hcal t0).1, hb, Bool.and_false] at this
    cases this

/-- C53: an empty catalogue becomes an empty catalogue without columns; without its columns a catalogue can not be converted. -/
theorem C53_empty (env : OpenQuake.Env) (f : Frame Val) (keep : Bool) :
    ((∀ c ∈ ["longitude", "latitude", "depth", "time", "magnitude"], c ∈ f.cols) → f.rows = [] →
      toOpenquake env f = .ok [] ∧ fromOpenquake env keep [] = .ok []) ∧
    ((∃ c ∈ ["longitude", "latitude", "depth", "time", "magnitude"], c ∉ f.cols) → toOpenquake env f = .error .attributeError) := by
  constructor
  · intro hcols h
    unfold toOpenquake
    rw [if_pos ((hasCols_iff _ _).2 hcols), if_pos h]
    exact ⟨rfl, rfl⟩
  · rintro ⟨c, hc, hn⟩
    unfold toOpenquake
    rw [if_neg]
    rw [hasCols_iff]
    exact fun h => hn (h c hc)

/-- C53, defect: an openquake catalogue of numbers only, with a time that can not be stored in nanoseconds, can not be read (TypeError). -/
theorem C53_defect_numbers (env : OpenQuake.Env) (lon : ℝ) (y : ℤ) (h : env.inBounds (instant env ⟨y, 1, 1, 0, 0, 0, 0⟩) = false) (h0 : env.fl 0 = 0) (keep : Bool) :
    fromOpenquake env keep [("longitude", [.real lon]), ("year", [.int y]), ("month", [.int 1]), ("day", [.int 1]), ("hour", [.int 0]),
      ("minute", [.int 0]), ("second", [.int 0])] = .error .typeError := by
  have hm : microOf env 0 = 0 := by
    unfold microOf
    simp only [Int.floor_zero, Int.cast_zero, sub_zero, zero_mul, h0]
    exact roundEven_near 0 0 (by norm_num)
  have ht : truncate 0 = 0 := by
    unfold truncate
    simp
  simp [fromOpenquake, convert, column, Dict.get?, Dict.set, List.mapM_cons, List.mapM_nil, secondOf, bind, Except.bind, pure, Except.pure, hm, ht, stamps, ints,
    intOf, times, fits, h, floatRows, isObject, isFloat, pyDatetime]

theorem mapM_error {α β : Type} (l : List α) (F : α → Py β) (e : PyErr) (h : ∀ a ∈ l, (∃ b, F a = .ok b) ∨ F a = .error e) (hx : ∃ a ∈ l, F a = .error e) :
    (l.mapM F : Py (List β)) = .error e := by
  induction l with
  | nil => obtain ⟨a, ha, _⟩ := hx; cases ha
  | cons a l ih =>
    rw [List.mapM_cons]
    rcases h a (by simp) with ⟨b, hb⟩ | hb
    · rw [hb]
      obtain ⟨x, hxm, hxe⟩ := hx
      rcases List.mem_cons.1 hxm with rfl | hxm
      · rw [hb] at hxe; cases hxe
      · rw [show (Except.ok b >>= fun r => (do let __do_lift ← List.mapM F l; pure (r :: __do_lift)) : Py (List β)) =
          (do let __do_lift ← List.mapM F l; pure (b :: __do_lift)) from rfl, ih (fun a ha => h a (by simp [ha])) ⟨x, hxm, hxe⟩]
        rfl
    · rw [hb]
      rfl

/-- C53, what is refused: a catalogue without one of the five columns, or — if it has events — with a cell in the time column
that is neither a time nor a missing time, can not be converted (AttributeError). -/
theorem C53_refused (env : OpenQuake.Env) (f : Frame Val) :
    ((∃ c ∈ ["longitude", "latitude", "depth", "time", "magnitude"], c ∉ f.cols) → toOpenquake env f = .error .attributeError) ∧
    (f.rows ≠ [] → (∃ v ∈ f.column "time", v ≠ .nat ∧ ∀ t, v ≠ .time t) → toOpenquake env f = .error .attributeError) := by
  have h1 : (∃ c ∈ ["longitude", "latitude", "depth", "time", "magnitude"], c ∉ f.cols) → toOpenquake env f = .error .attributeError := by
    rintro ⟨c, hc, hn⟩
    unfold toOpenquake
    rw [if_neg]
    intro hh
    unfold hasCols at hh
    rw [List.all_eq_true] at hh
    exact hn (by simpa using hh c hc)
  refine ⟨h1, ?_⟩
  rintro hr ⟨v, hv, hnat, ht⟩
  by_cases hc : hasCols ["longitude", "latitude", "depth", "time", "magnitude"] f.cols
  · unfold toOpenquake
    rw [if_pos hc, if_neg hr]
    unfold OpenQuake.units addUnits
    rw [mapM_error (f.column "time") _ .attributeError _ ⟨v, hv, ?_⟩]
    · intro a _
      cases a <;> first | (left; exact ⟨_, rfl⟩) | (right; rfl)
    · cases v <;> first | rfl | exact absurd rfl hnat | exact absurd rfl (ht _)
  · unfold toOpenquake
    rw [if_neg hc]

/-- C53, defect: a catalogue with a missing time is converted to openquake, but not back (ValueError). -/
theorem C53_defect_missing_time (env : OpenQuake.Env) (f : Frame Val) (keep : Bool)
    (hcols : ∀ c ∈ ["longitude", "latitude", "depth", "time", "magnitude"], c ∈ f.cols)
    (htimes : ∀ v ∈ f.column "time", v = .nat ∨ ∃ t, v = .time t) (hnat : .nat ∈ f.column "time") :
    ∃ oq, toOpenquake env f = .ok oq ∧ fromOpenquake env keep oq = .error .valueError := by
  let u : (Stamp → Val) → Val → Val := fun g v => match v with
    | .time t => g (stamp env t)
    | _ => .nan
  have hm : ∀ g : Stamp → Val, ((f.column "time").mapM (unit g env) : Py (List Val)) = .ok ((f.column "time").map (u g)) := by
    intro g
    have := mapM_pure (f.column "time") id (unit g env) (u g) (by
      intro v hv
      rcases htimes v hv with rfl | ⟨t, rfl⟩ <;> rfl)
    simpa using this
  have hadd : ∀ us d, addUnits env (f.column "time") us d = .ok (us.foldl (fun d p => d.set p.1 ((f.column "time").map (u p.2))) d) := by
    intro us
    induction us with
    | nil => exact fun d => rfl
    | cons p us ih =>
      intro d
      rw [addUnits, hm]
      exact ih _
  have hrows : f.rows ≠ [] := by
    intro h
    rw [Frame.column, h] at hnat
    cases hnat
  let D := (OpenQuake.units env).foldl (fun d p => d.set p.1 ((f.column "time").map (u p.2))) (addEventId env f.rows.length (f.cols.map fun c => (c, f.column c)))
  have hto : toOpenquake env f = .ok D := by
    unfold toOpenquake
    rw [if_pos ((hasCols_iff _ _).2 hcols), if_neg hrows, hadd]
  have hsec : Dict.get? D "second" = some ((f.column "time").map (u fun s => .real (floatSecond env s))) := by
    simp [D, OpenQuake.units, Dict.get?_set]
  have hlen : ∀ p ∈ D, p.2.length = f.rows.length := by
    have h0 : ∀ p ∈ addEventId env f.rows.length (f.cols.map fun c => (c, f.column c)), p.2.length = f.rows.length := by
      have h1 : ∀ p ∈ f.cols.map (fun c => (c, f.column c)), p.2.length = f.rows.length := by
        intro p hp
        obtain ⟨c, _, rfl⟩ := List.mem_map.1 hp
        simp [Frame.column]
      unfold addEventId
      split
      · exact h1
      · exact set_all (fun v : List Val => v.length = f.rows.length) _ _ _ h1 (by simp)
    have : ∀ (us : List (String × (Stamp → Val))) (d : Dict (List Val)), (∀ p ∈ d, p.2.length = f.rows.length) →
        ∀ p ∈ us.foldl (fun d p => d.set p.1 ((f.column "time").map (u p.2))) d, p.2.length = f.rows.length := by
      intro us
      induction us with
      | nil => exact fun d h => h
      | cons p us ih =>
        intro d h
        rw [List.foldl_cons]
        exact ih _ (set_all (fun v : List Val => v.length = f.rows.length) _ _ _ h (by simp [Frame.column]))
    exact this _ _ h0
  refine ⟨D, hto, ?_⟩
  have hfil : D.filter (fun p => !p.2.isEmpty) = D := by
    rw [List.filter_eq_self]
    intro p hp
    rw [Bool.not_eq_true', List.isEmpty_eq_false_iff]
    intro h0
    have := hlen p hp
    rw [h0] at this
    exact hrows (List.length_eq_zero_iff.1 this.symm)
  have hconv : convert env keep D = .error .valueError := by
    unfold convert column
    rw [hsec]
    have hmm : (((f.column "time").map (u fun s => .real (floatSecond env s))).mapM secondOf : Py (List ℝ)) = .error .valueError := by
      apply mapM_error
      · intro a ha
        obtain ⟨v, hv, rfl⟩ := List.mem_map.1 ha
        rcases htimes v hv with rfl | ⟨t, rfl⟩
        · exact Or.inr rfl
        · exact Or.inl ⟨_, rfl⟩
      · exact ⟨.nan, List.mem_map.2 ⟨.nat, hnat, rfl⟩, rfl⟩
    simp only [bind, Except.bind, hmm]
  unfold fromOpenquake
  rw [hfil]
  have hnn : D ≠ [] := by
    intro h0
    rw [h0] at hsec
    cases hsec
  obtain ⟨p, r, hpr⟩ := List.exists_cons_of_ne_nil hnn
  rw [hpr] at hlen hconv ⊢
  dsimp only
  rw [if_pos, hconv]
  rw [List.all_eq_true]
  intro q hq
  rw [decide_eq_true_eq, hlen q (by simp [hq]), hlen p (by simp)]

/-- An environment: days are their own dates; times up to 10^15 ns are in bounds. -/
def oqEnv : OpenQuake.Env := ⟨id, fun y _ _ => y, fun n => (n, 1, 1), fun _ _ _ => true, fun t => decide (t < 1000000000000000), fun i => toString i⟩

/-- A catalogue with one event. -/
def oqCat : Frame Val := ⟨["longitude", "latitude", "depth", "time", "magnitude"], [fun c => if c = "time" then .time 86401123456789 else .int 3]⟩

/-- The hypotheses are met; the fraction of the time is not zero. -/
example : GoodFloat oqEnv.fl ∧ (∀ n, oqEnv.days (oqEnv.civil n).1 (oqEnv.civil n).2.1 (oqEnv.civil n).2.2 = n) ∧
    (∀ c ∈ ["longitude", "latitude", "depth", "time", "magnitude"], c ∈ oqCat.cols) ∧ oqCat.column "time" = [86401123456789].map .time ∧
    (∀ t ∈ [86401123456789], oqEnv.inBounds (toMicro t) = true) ∧ toMicro 86401123456789 = 86401123456000 := by
  refine ⟨⟨fun x => ?_, fun n _ _ => rfl⟩, fun n => rfl, by decide, ?_, by decide, by decide⟩
  · simp only [oqEnv, id, sub_self, abs_zero]
    positivity
  · simp [oqCat, Frame.column]

/-- Both kinds of refused catalogues: one without depth, and one with a text in place of the time. -/
example : (∃ c ∈ ["longitude", "latitude", "depth", "time", "magnitude"], c ∉ (oqCat.drop fun c => c == "depth").cols) ∧
    (oqCat.update "time" fun _ => .text "1970-01-02").rows ≠ [] ∧
    ∃ v ∈ (oqCat.update "time" fun _ => .text "1970-01-02").column "time", v ≠ .nat ∧ ∀ t, v ≠ .time t := by
  refine ⟨⟨"depth", by decide, by simp [Frame.drop]⟩, by simp [Frame.update, oqCat], .text "1970-01-02", ?_, by simp, by simp⟩
  simp [Frame.column, Frame.update, oqCat]

end SeismoStats.Props
