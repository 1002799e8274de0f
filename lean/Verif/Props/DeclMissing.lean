/-
C127: declustering with missing times.
-/
import Verif.Model.DeclMissing
import Verif.Props.Declustering
import Mathlib.Tactic.IntervalCases

namespace SeismoStats
namespace Props
open Decl

/-- The row with a time put in. -/
def withTime (e : EventM) (t : ℝ) : Event := ⟨e.label, t, e.mag, e.lon, e.lat⟩

/-- The rows that have a time, with labels reset. -/
def timedRows (cat : List EventM) : List Event :=
  (cat.filterMap fun e => e.time.map (withTime e)).mapIdx fun i e => { e with label := i }

/-- A missing time as a time after all others, far from everything. -/
private def fill (T : ℝ) (e : EventM) : Event :=
  match e.time with
  | some t => withTime e t
  | none => ⟨e.label, T, e.mag, none, none⟩

private theorem fill_default (T : ℝ) : fill T default = default := rfl

private theorem getD_fill (T : ℝ) (cat : List EventM) (i : ℕ) : (cat.map (fill T)).getD i default = fill T (cat.getD i default) := by
  rw [List.getD_eq_getElem?_getD, List.getD_eq_getElem?_getD, List.getElem?_map]
  cases cat[i]? <;> rfl

private theorem fill_mag (T : ℝ) (e : EventM) : (fill T e).mag = e.mag := by unfold fill withTime; cases e.time <;> rfl
private theorem fill_label (T : ℝ) (e : EventM) : (fill T e).label = e.label := by unfold fill withTime; cases e.time <;> rfl

private theorem winOf_fill (win : ℝ → Win) (T : ℝ) (e : EventM) : winOf win (fill T e) = winOfM win e := by
  unfold winOf winOfM
  rw [fill_mag]
  rfl

private theorem timeLe_fill {T : ℝ} {e f : EventM} (he : ∀ t, e.time = some t → t < T) (hf : ∀ t, f.time = some t → t < T) (i j : ℕ) :
    timeLe e.time f.time i j ↔ ((fill T e).time < (fill T f).time ∨ ((fill T e).time = (fill T f).time ∧ i ≤ j)) := by
  unfold fill timeLe withTime
  cases h1 : e.time with
  | none =>
    cases h2 : f.time with
    | none => simp
    | some u =>
      have := hf u h2
      simp only [false_iff, not_or, not_lt, not_and]
      exact ⟨this.le, fun h => absurd h this.ne'⟩
  | some t =>
    cases h2 : f.time with
    | none => simp [he t h1]
    | some u => simp

private theorem rank_fill {T : ℝ} {cat : List EventM} (hT : ∀ i t, (cat.getD i default).time = some t → t < T) :
    rankLeM cat = rankLe (cat.map (fill T)) := by
  funext i j
  unfold rankLeM rankLe
  rw [getD_fill, getD_fill, fill_mag, fill_mag]
  have h := timeLe_fill (hT i) (hT j) i j
  cases (cat.getD i default).mag with
  | none =>
    cases (cat.getD j default).mag with
    | none => exact propext h
    | some b => rfl
  | some a =>
    cases (cat.getD j default).mag with
    | none => rfl
    | some b => exact propext (or_congr_right (and_congr_right fun _ => h))

private theorem order_fill {T : ℝ} {cat : List EventM} (hT : ∀ i t, (cat.getD i default).time = some t → t < T) :
    orderM cat = order (cat.map (fill T)) := by
  unfold orderM order
  rw [rank_fill hT, List.length_map]

private theorem find_fill (T : ℝ) (cat : List EventM) (i : ℕ) :
    ((cat.map (fill T)).find? fun f => f.label == i).getD default = fill T ((cat.find? fun f => f.label == i).getD default) := by
  rw [List.find?_map]
  have : ((fun f : Event => f.label == i) ∘ fill T) = fun f => f.label == i := by
    funext e
    simp only [Function.comp, fill_label]
  rw [this]
  cases cat.find? fun f => f.label == i <;> rfl

private theorem sel_fill (win : ℝ → Win) (fs T : ℝ) (cat : List EventM) (s : State) {i : ℕ} (j : ℕ) :
    selM win fs cat s (cat.getD i default) i j ↔ sel win fs (cat.map (fill T)) s (fill T (cat.getD i default)) i j := by
  unfold selM sel
  rw [getD_fill, getD_fill, winOf_fill, find_fill, winOf_fill]
  generalize cat.getD i default = m
  generalize cat.getD j default = f
  generalize (winOfM win ((cat.find? fun f => f.label == i).getD default)).space = w
  refine and_congr_right fun _ => ?_
  unfold inTimeM
  cases hm : m.time with
  | none =>
    simp only [false_and, false_iff, not_and]
    intro _ h
    unfold inSpace fill at h
    rw [hm] at h
    simp only at h
    split at h
    · rename_i h1 h2 h3 h4
      exact nomatch ‹none = some _›
    · exact h
  | some t =>
    cases hf : f.time with
    | none =>
      simp only [false_and, false_iff, not_and]
      intro _ h
      unfold inSpace fill at h
      rw [hf] at h
      simp only at h
    | some u =>
      unfold fill
      rw [hm, hf]
      exact Iff.rfl

/-- The index labels are the positions. -/
def PlainIndex (cat : List EventM) : Prop := ∀ i < cat.length, (cat.getD i default).label = i

private theorem decluster_fill {win : ℝ → Win} {fs T : ℝ} {cat : List EventM} (hT : ∀ i t, (cat.getD i default).time = some t → t < T) (hd : PlainIndex cat) :
    declusterM win fs cat = decluster win fs (cat.map (fill T)) := by
  have hs : ∀ s, ∀ p < cat.length, stepM win fs cat s p = step win fs (cat.map (fill T)) s p := by
    intro s p hp
    unfold stepM step
    dsimp only
    rw [getD_fill, fill_label, List.length_map, hd p hp]
    have ha : assignM win fs cat s (cat.getD p default) p = assign win fs (cat.map (fill T)) s (fill T (cat.getD p default)) p := by
      unfold assignM assign
      classical
      congr 1
      · funext j
        exact if_congr (sel_fill win fs T cat s j) rfl rfl
      · funext j
        exact if_congr Iff.rfl rfl (if_congr (sel_fill win fs T cat s j) rfl rfl)
    rw [ha]
  have hl : ∀ l : List ℕ, (∀ p ∈ l, p < cat.length) → ∀ s, loopM win fs cat s l = loop win fs (cat.map (fill T)) s l := by
    intro l
    induction l with
    | nil => intro _ s; rfl
    | cons p r ih =>
      intro hp s
      unfold loopM loop
      rw [hs s p (hp p (by simp))]
      cases step win fs (cat.map (fill T)) s p with
      | error e => rfl
      | ok s' => exact ih (fun q hq => hp q (by simp [hq])) s'
  unfold declusterM decluster
  rw [order_fill hT, hl _ _ _, List.length_map]
  intro p hp
  have := (order_perm (cat.map (fill T))).mem_iff.1 hp
  simpa using this

private theorem bound_exists (cat : List EventM) : ∃ T : ℝ, ∀ i t, (cat.getD i default).time = some t → t < T := by
  have h : ∃ T : ℝ, 0 < T ∧ ∀ e ∈ cat, ∀ t, e.time = some t → t < T := by
    induction cat with
    | nil => exact ⟨1, one_pos, by simp⟩
    | cons e r ih =>
      obtain ⟨T, h0, h⟩ := ih
      refine ⟨max T ((e.time.getD 0) + 1), lt_max_of_lt_left h0, fun f hf t ht => ?_⟩
      rcases List.mem_cons.1 hf with rfl | hf
      · rw [ht]; exact lt_max_of_lt_right (by simp)
      · exact lt_max_of_lt_left (h f hf t ht)
  obtain ⟨T, h0, h⟩ := h
  refine ⟨T, fun i t ht => ?_⟩
  rw [List.getD_eq_getElem?_getD] at ht
  cases hc : cat[i]? with
  | none =>
    rw [hc] at ht
    injection ht with ht
    rwa [← ht]
  | some e =>
    rw [hc] at ht
    exact h e (List.mem_of_getElem? hc) t ht

private theorem positions {α β : Type} (g : α → Option β) (l : List α) : ∃ q : ℕ → ℕ, StrictMono q ∧
    (∀ (i : ℕ) (b : β), (l.filterMap g)[i]? = some b → ∃ a, l[q i]? = some a ∧ g a = some b) ∧
    ∀ (m : ℕ) (a : α) (b : β), l[m]? = some a → g a = some b → ∃ i, q i = m ∧ (l.filterMap g)[i]? = some b := by
  induction l with
  | nil => exact ⟨id, strictMono_id, by simp, by simp⟩
  | cons a l ih =>
    obtain ⟨q, hq, h1, h2⟩ := ih
    cases hg : g a with
    | none =>
      refine ⟨fun i => q i + 1, fun i j hij => Nat.succ_lt_succ (hq hij), ?_, ?_⟩
      · intro i b hb
        rw [List.filterMap_cons_none hg] at hb
        simpa using h1 i b hb
      · intro m c b hm hc
        rw [List.filterMap_cons_none hg]
        cases m with
        | zero =>
          simp only [List.getElem?_cons_zero, Option.some.injEq] at hm
          rw [← hm, hg] at hc
          exact (nomatch hc)
        | succ m =>
          obtain ⟨i, hi, h⟩ := h2 m c b (by simpa using hm) hc
          exact ⟨i, by simp [hi], h⟩
    | some b0 =>
      refine ⟨fun i => match i with
        | 0 => 0
        | i + 1 => q i + 1, ?_, ?_, ?_⟩
      · apply strictMono_nat_of_lt_succ
        intro i
        cases i with
        | zero => simp
        | succ i => simpa using hq (Nat.lt_succ_self i)
      · intro i b hb
        rw [List.filterMap_cons_some hg] at hb
        cases i with
        | zero => exact ⟨a, rfl, by simpa [hg] using hb⟩
        | succ i => simpa using h1 i b (by simpa using hb)
      · intro m c b hm hc
        rw [List.filterMap_cons_some hg]
        cases m with
        | zero =>
          simp only [List.getElem?_cons_zero, Option.some.injEq] at hm
          rw [← hm, hg] at hc
          exact ⟨0, rfl, by simpa using hc⟩
        | succ m =>
          obtain ⟨i, hi, h⟩ := h2 m c b (by simpa using hm) hc
          exact ⟨i + 1, by simp [hi], by simpa using h⟩

private theorem near_fill_none {win : ℝ → Win} {fs T : ℝ} {m f : EventM} (h : Near win fs (fill T m) (fill T f)) :
    (∃ t, m.time = some t) ∧ ∃ u, f.time = some u := by
  obtain ⟨x, w, s, -, -, -, -, -, a, b, c, d, ha, hb, hc, hd, -⟩ := h
  constructor
  · cases hm : m.time with
    | none => unfold fill at hc; rw [hm] at hc; exact (nomatch hc)
    | some t => exact ⟨t, rfl⟩
  · cases hf : f.time with
    | none => unfold fill at ha; rw [hf] at ha; exact (nomatch ha)
    | some t => exact ⟨t, rfl⟩

/-- C127: an event without a time is a mainshock, and the flags of the other events are those of the catalogue without it. -/
theorem C127_missing_times {win : ℝ → Win} (hw : WindowOk win) {fs : ℝ} (hf : 0 ≤ fs) {cat : List EventM} (hd : PlainIndex cat) :
    ∃ flags, declusterM win fs cat = .ok flags ∧ flags.length = cat.length ∧
      (∀ (j : ℕ) (e : EventM), cat[j]? = some e → e.time = none → flags[j]? = some true) ∧
      decluster win fs (timedRows cat) = .ok ((List.zip cat flags).filterMap fun p => p.1.time.map fun _ => p.2) := by
  obtain ⟨T, hT⟩ := bound_exists cat
  rw [decluster_fill hT hd]
  have hd' : DefaultIndex (cat.map (fill T)) := by
    intro i hi
    rw [getD_fill, fill_label]
    exact hd i (by simpa using hi)
  obtain ⟨flags, e1, hlen, hi⟩ := C44_declustering hw hf hd'
  rw [List.length_map] at hlen hi
  refine ⟨flags, e1, hlen, ?_, ?_⟩
  · intro j e hj ht
    have hjl : j < cat.length := (List.getElem?_eq_some_iff.1 hj).1
    refine (hi j hjl).2 fun m hm hb hfm hn => ?_
    rw [getD_fill, getD_fill] at hn
    obtain ⟨-, u, hu⟩ := near_fill_none hn
    rw [List.getD_eq_getElem?_getD, hj] at hu
    exact (nomatch (ht.symm.trans hu))
  · obtain ⟨q, hq, h1, h2⟩ := positions (fun p : EventM × Bool => p.1.time.map fun t => (withTime p.1 t, p.2)) (List.zip cat flags)
    set Z := (List.zip cat flags).filterMap (fun p : EventM × Bool => p.1.time.map fun t => (withTime p.1 t, p.2)) with hZ
    have hfst : (cat.filterMap fun e => e.time.map (withTime e)) = Z.map Prod.fst := by
      rw [hZ, List.map_filterMap]
      conv_lhs => rw [← List.map_fst_zip (l₁ := cat) (l₂ := flags) hlen.ge, List.filterMap_map]
      congr 1
      funext p
      simp only [Function.comp, Option.map_map]
      rfl
    have hsnd : ((List.zip cat flags).filterMap fun p => p.1.time.map fun _ => p.2) = Z.map Prod.snd := by
      rw [hZ, List.map_filterMap]
      congr 1
      funext p
      simp only [Option.map_map]
      rfl
    rw [hsnd]
    have hlZ : (timedRows cat).length = Z.length := by
      unfold timedRows
      rw [List.length_mapIdx, hfst, List.length_map]
    have hpos : ∀ i < Z.length, ∃ e b t, cat[q i]? = some e ∧ flags[q i]? = some b ∧ e.time = some t ∧ (Z.map Prod.snd)[i]? = some b ∧
        (timedRows cat).getD i default = { withTime e t with label := i } := by
      intro i hi
      obtain ⟨⟨e, b⟩, ha, hb⟩ := h1 i _ (List.getElem?_eq_getElem hi)
      obtain ⟨hc, hc'⟩ := List.getElem?_zip_eq_some.1 ha
      cases ht : e.time with
      | none => simp only [ht, Option.map_none] at hb; exact (nomatch hb)
      | some t =>
        simp only [ht, Option.map_some, Option.some.injEq] at hb
        refine ⟨e, b, t, hc, hc', ht, ?_, ?_⟩
        · rw [List.getElem?_map, List.getElem?_eq_getElem hi, ← hb]
          rfl
        · unfold timedRows
          rw [hfst, List.getD_eq_getElem?_getD, List.getElem?_mapIdx, List.getElem?_map, List.getElem?_eq_getElem hi, ← hb]
          rfl
    have hd2 : DefaultIndex (timedRows cat) := by
      intro i hi
      obtain ⟨e, b, t, -, -, -, -, h⟩ := hpos i (hlZ ▸ hi)
      rw [h]
    have hfill : ∀ (i : ℕ) (e : EventM) (t : ℝ), cat[q i]? = some e → e.time = some t → (cat.map (fill T)).getD (q i) default = withTime e t := by
      intro i e t he ht
      rw [getD_fill, List.getD_eq_getElem?_getD, he]
      unfold fill
      simp only [Option.getD_some, ht]
    obtain ⟨g, eg, hg⟩ := C44_declustering hw hf hd2
    rw [eg]
    congr 1
    refine C44_unique hg ⟨by rw [List.length_map, hlZ], fun j hj => ?_⟩
    obtain ⟨ej, bj, tj, j1, j2, j3, j4, j5⟩ := hpos j (hlZ ▸ hj)
    have hjl : q j < cat.length := (List.getElem?_eq_some_iff.1 j1).1
    have key : ∀ m < Z.length, (Before (timedRows cat) m j ↔ Before (cat.map (fill T)) (q m) (q j)) ∧
        (Near win fs ((timedRows cat).getD m default) ((timedRows cat).getD j default) ↔
          Near win fs ((cat.map (fill T)).getD (q m) default) ((cat.map (fill T)).getD (q j) default)) ∧ (Z.map Prod.snd)[m]? = flags[q m]? := by
      intro m hm
      obtain ⟨em, bm, tm, m1, m2, m3, m4, m5⟩ := hpos m hm
      unfold Before
      rw [m5, j5, hfill m em tm m1 m3, hfill j ej tj j1 j3, hq.lt_iff_lt, m4, m2]
      exact ⟨Iff.rfl, Iff.rfl, rfl⟩
    rw [j4, ← j2, hi (q j) hjl]
    constructor
    · intro h m hm hb hf' hn
      have hm' : m < Z.length := hlZ ▸ hm
      obtain ⟨k1, k2, k3⟩ := key m hm'
      obtain ⟨em, bm, tm, m1, -⟩ := hpos m hm'
      exact h (q m) (List.getElem?_eq_some_iff.1 m1).1 (k1.1 hb) (k3 ▸ hf') (k2.1 hn)
    · intro h m hm hb hf' hn
      have hn' := hn
      rw [getD_fill, getD_fill] at hn'
      obtain ⟨⟨t, ht⟩, -⟩ := near_fill_none hn'
      have hz : (List.zip cat flags)[m]? = some (cat.getD m default, true) := by
        rw [List.getElem?_zip_eq_some]
        refine ⟨?_, hf'⟩
        rw [List.getD_eq_getElem?_getD, List.getElem?_eq_getElem hm]
        rfl
      obtain ⟨i, hqi, hzi⟩ := h2 m _ (withTime (cat.getD m default) t, true) hz (by simp only [ht, Option.map_some])
      have hil : i < Z.length := (List.getElem?_eq_some_iff.1 hzi).1
      obtain ⟨k1, k2, k3⟩ := key i hil
      subst hqi
      exact h i (hlZ ▸ hil) (k1.2 hb) (k3.trans hf') (k2.2 hn)

/-- A row whose time is known. -/
def asTimed (e : Event) : EventM := ⟨e.label, some e.time, e.mag, e.lon, e.lat⟩

/-- C127: without missing times it is the declustering of C44. -/
theorem C127_complete (win : ℝ → Win) (fs : ℝ) {cat : List Event} (hd : DefaultIndex cat) :
    declusterM win fs (cat.map asTimed) = decluster win fs cat := by
  obtain ⟨T, hT⟩ := bound_exists (cat.map asTimed)
  have hp : PlainIndex (cat.map asTimed) := by
    intro i hi
    rw [List.length_map] at hi
    have h := hd i hi
    rw [List.getD_eq_getElem?_getD, List.getElem?_eq_getElem hi] at h
    rw [List.getD_eq_getElem?_getD, List.getElem?_map, List.getElem?_eq_getElem hi]
    exact h
  rw [decluster_fill hT hp, List.map_map]
  have : (fill T ∘ asTimed) = id := rfl
  rw [this, List.map_id]

/-- Two events at the same place and time and a third one without a time: only the smaller one of the first two is removed. -/
example : ∃ flags, declusterM (window .uhrhammer none) 1 [⟨0, some 0, some 5, some 0, some 0⟩, ⟨1, some 0, some 3, some 0, some 0⟩, ⟨2, none, some 3, some 0, some 0⟩] = .ok flags ∧
    flags[2]? = some true := by
  obtain ⟨flags, h1, -, h2, -⟩ := C127_missing_times (win := window .uhrhammer none) (C44_window_ok .uhrhammer none (by simp)) (fs := 1) zero_le_one
    (cat := [⟨0, some 0, some 5, some 0, some 0⟩, ⟨1, some 0, some 3, some 0, some 0⟩, ⟨2, none, some 3, some 0, some 0⟩])
    (by intro i hi; simp only [List.length_cons, List.length_nil] at hi; interval_cases i <;> rfl)
  exact ⟨flags, h1, h2 2 _ rfl rfl⟩

end Props
end SeismoStats
