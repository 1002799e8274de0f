/-
Property C44 (Gardner-Knopoff declustering).
-/
import Verif.Props.Haversine

namespace SeismoStats.Props
open SeismoStats SeismoStats.Decl
set_option linter.unusedSimpArgs false
open Classical
noncomputable section

/-! ### specification -/

/-- Event `i` comes before event `j`: larger magnitude, then earlier, then earlier in the catalog; events
without a magnitude come last. -/
def Before (cat : List Event) (i j : ℕ) : Prop :=
  let a := cat.getD i default
  let b := cat.getD j default
  (∃ x, a.mag = some x ∧ (b.mag = none ∨ ∃ y, b.mag = some y ∧ y < x)) ∨
    (a.mag = b.mag ∧ (a.time < b.time ∨ (a.time = b.time ∧ i < j)))

/-- Event `f` lies in the windows of event `m`: at most `w` days (of which the fraction `fs` before) and
`s` kilometres away. Times are compared in whole seconds. -/
def Near (win : ℝ → Win) (fs : ℝ) (m f : Event) : Prop :=
  ∃ x w s, m.mag = some x ∧ (win x).time = some w ∧ (win x).space = some s ∧
    -(fs * w * 86400) ≤ (⌊f.time⌋ - ⌊m.time⌋ : ℤ) ∧ ((⌊f.time⌋ - ⌊m.time⌋ : ℤ) : ℝ) ≤ w * 86400 ∧
    ∃ a b c d, f.lon = some a ∧ f.lat = some b ∧ m.lon = some c ∧ m.lat = some d ∧ haversine a b c d ≤ s

/-- The flags of a declustering: an event is a mainshock exactly if it lies in the windows of no mainshock
before it. -/
def IsDeclustering (win : ℝ → Win) (fs : ℝ) (cat : List Event) (flags : List Bool) : Prop :=
  flags.length = cat.length ∧ ∀ j < cat.length,
    (flags[j]? = some true ↔ ∀ m < cat.length, Before cat m j → flags[m]? = some true →
      ¬ Near win fs (cat.getD m default) (cat.getD j default))

/-- The index labels are the positions. -/
def DefaultIndex (cat : List Event) : Prop := ∀ i < cat.length, (cat.getD i default).label = i

/-- Windows are not negative, and a magnitude above one with windows has windows. -/
structure WindowOk (win : ℝ → Win) : Prop where
  time_nonneg : ∀ m w, (win m).time = some w → 0 ≤ w
  space_nonneg : ∀ m s, (win m).space = some s → 0 ≤ s
  time_up : ∀ m m' w, m ≤ m' → (win m).time = some w → ∃ w', (win m').time = some w'
  space_up : ∀ m m' s, m ≤ m' → (win m).space = some s → ∃ s', (win m').space = some s'

/-! ### order -/

theorem before_irrefl (cat : List Event) (i : ℕ) : ¬ Before cat i i := by
  unfold Before
  rintro (⟨x, h1, h2⟩ | ⟨-, h⟩)
  · rcases h2 with h2 | ⟨y, h2, h3⟩
    · rw [h1] at h2; cases h2
    · rw [h1] at h2; cases h2; exact lt_irrefl _ h3
  · rcases h with h | ⟨-, h⟩
    · exact lt_irrefl _ h
    · exact lt_irrefl _ h

theorem rankLe_iff (cat : List Event) (i j : ℕ) : rankLe cat i j ↔ i = j ∨ Before cat i j := by
  unfold rankLe Before
  simp only
  constructor
  · intro h
    split at h
    · rename_i a b ha hb
      rcases h with h | ⟨h1, h2 | ⟨h2, h3⟩⟩
      · exact Or.inr (Or.inl ⟨a, ha, Or.inr ⟨b, hb, h⟩⟩)
      · exact Or.inr (Or.inr ⟨by rw [ha, hb, h1], Or.inl h2⟩)
      · rcases h3.lt_or_eq with h3 | h3
        · exact Or.inr (Or.inr ⟨by rw [ha, hb, h1], Or.inr ⟨h2, h3⟩⟩)
        · exact Or.inl h3
    · rename_i a ha hb
      exact Or.inr (Or.inl ⟨a, ha, Or.inl hb⟩)
    · cases h
    · rename_i ha hb
      rcases h with h2 | ⟨h2, h3⟩
      · exact Or.inr (Or.inr ⟨by rw [ha, hb], Or.inl h2⟩)
      · rcases h3.lt_or_eq with h3 | h3
        · exact Or.inr (Or.inr ⟨by rw [ha, hb], Or.inr ⟨h2, h3⟩⟩)
        · exact Or.inl h3
  · rintro (rfl | ⟨x, h1, h2⟩ | ⟨h1, h2⟩)
    · cases (cat.getD i default).mag <;> simp
    · rw [h1]
      rcases h2 with h2 | ⟨y, h2, h3⟩
      · rw [h2]; trivial
      · rw [h2]; exact Or.inl h3
    · rw [h1]
      cases (cat.getD j default).mag with
      | none => exact h2.imp id fun h => ⟨h.1, h.2.le⟩
      | some y => exact Or.inr ⟨rfl, h2.imp id fun h => ⟨h.1, h.2.le⟩⟩

theorem before_trans {cat : List Event} {i j k : ℕ} (h : Before cat i j) (h' : Before cat j k) : Before cat i k := by
  unfold Before at *
  simp only at *
  rcases h with ⟨x, h1, h2⟩ | ⟨h1, h2⟩
  · rcases h' with ⟨y, g1, g2⟩ | ⟨g1, g2⟩
    · rcases h2 with h2 | ⟨y', h2, h3⟩
      · rw [h2] at g1; cases g1
      · rw [h2] at g1; cases g1
        refine Or.inl ⟨x, h1, g2.imp id ?_⟩
        rintro ⟨z, g3, g4⟩
        exact ⟨z, g3, g4.trans h3⟩
    · rw [g1] at h2
      exact Or.inl ⟨x, h1, h2⟩
  · rcases h' with ⟨y, g1, g2⟩ | ⟨g1, g2⟩
    · rw [← h1] at g1
      exact Or.inl ⟨y, g1, g2⟩
    · refine Or.inr ⟨h1.trans g1, ?_⟩
      rcases h2 with h2 | ⟨h2, h3⟩
      · rcases g2 with g2 | ⟨g2, g3⟩
        · exact Or.inl (h2.trans g2)
        · rw [g2] at h2; exact Or.inl h2
      · rcases g2 with g2 | ⟨g2, g3⟩
        · rw [← h2] at g2; exact Or.inl g2
        · exact Or.inr ⟨h2.trans g2, h3.trans g3⟩

theorem before_total (cat : List Event) {i j : ℕ} (h : i ≠ j) : Before cat i j ∨ Before cat j i := by
  unfold Before
  simp only
  cases ha : (cat.getD i default).mag with
  | none =>
    cases hb : (cat.getD j default).mag with
    | none =>
      rcases lt_trichotomy (cat.getD i default).time (cat.getD j default).time with h1 | h1 | h1
      · exact Or.inl (Or.inr ⟨rfl, Or.inl h1⟩)
      · rcases lt_or_gt_of_ne h with h2 | h2
        · exact Or.inl (Or.inr ⟨rfl, Or.inr ⟨h1, h2⟩⟩)
        · exact Or.inr (Or.inr ⟨rfl, Or.inr ⟨h1.symm, h2⟩⟩)
      · exact Or.inr (Or.inr ⟨rfl, Or.inl h1⟩)
    | some b => exact Or.inr (Or.inl ⟨b, rfl, Or.inl rfl⟩)
  | some a =>
    cases hb : (cat.getD j default).mag with
    | none => exact Or.inl (Or.inl ⟨a, rfl, Or.inl rfl⟩)
    | some b =>
      rcases lt_trichotomy a b with h1 | h1 | h1
      · exact Or.inr (Or.inl ⟨b, rfl, Or.inr ⟨a, rfl, h1⟩⟩)
      · subst h1
        rcases lt_trichotomy (cat.getD i default).time (cat.getD j default).time with h1 | h1 | h1
        · exact Or.inl (Or.inr ⟨rfl, Or.inl h1⟩)
        · rcases lt_or_gt_of_ne h with h2 | h2
          · exact Or.inl (Or.inr ⟨rfl, Or.inr ⟨h1, h2⟩⟩)
          · exact Or.inr (Or.inr ⟨rfl, Or.inr ⟨h1.symm, h2⟩⟩)
        · exact Or.inr (Or.inr ⟨rfl, Or.inl h1⟩)
      · exact Or.inl (Or.inl ⟨a, rfl, Or.inr ⟨b, rfl, h1⟩⟩)

theorem order_perm (cat : List Event) : (order cat).Perm (List.range cat.length) := List.perm_insertionSort _ _

theorem order_pairwise (cat : List Event) : (order cat).Pairwise (Before cat) := by
  have h1 : (order cat).Pairwise (rankLe cat) := by
    let _ : Std.Total (rankLe cat) := ⟨fun a b => by
      rw [rankLe_iff, rankLe_iff]
      by_cases h : a = b
      · exact Or.inl (Or.inl h)
      · exact (before_total cat h).imp Or.inr Or.inr⟩
    let _ : IsTrans ℕ (rankLe cat) := ⟨fun a b c h1 h2 => by
      rw [rankLe_iff] at *
      rcases h1 with rfl | h1
      · exact h2
      · rcases h2 with rfl | h2
        · exact Or.inr h1
        · exact Or.inr (before_trans h1 h2)⟩
    exact List.pairwise_insertionSort _ _
  have h2 : (order cat).Nodup := (order_perm cat).nodup_iff.2 List.nodup_range
  have h3 := h1.and h2
  refine h3.imp ?_
  rintro a b ⟨h, hne⟩
  rw [rankLe_iff] at h
  exact h.resolve_left hne

/-! ### the loop -/

/-- Position of a label with the default index. -/
theorem find_label {cat : List Event} (h : DefaultIndex cat) {i : ℕ} (hi : i < cat.length) :
    (cat.find? fun f => f.label == i).getD default = cat.getD i default := by
  have e : cat.find? (fun f => f.label == i) = some (cat.getD i default) := by
    rw [List.find?_eq_some_iff_getElem]
    have hg : cat.getD i default = cat[i] := by rw [List.getD_eq_getElem?_getD, List.getElem?_eq_getElem hi]; rfl
    refine ⟨by simpa using h i hi, i, hi, hg.symm, fun j hj => ?_⟩
    have := h j (by omega)
    rw [List.getD_eq_getElem?_getD, List.getElem?_eq_getElem (by omega)] at this
    simp only [Option.getD_some] at this
    rw [this]
    simp; omega
  rw [e]; rfl

theorem sel_iff {win : ℝ → Win} {fs : ℝ} {cat : List Event} (h : DefaultIndex cat) (s : Decl.State) {i : ℕ} (hi : i < cat.length) (j : ℕ) :
    sel win fs cat s (cat.getD i default) i j ↔ s.ids j = 0 ∧ Near win fs (cat.getD i default) (cat.getD j default) := by
  unfold sel
  rw [find_label h hi]
  refine and_congr_right fun _ => ?_
  generalize cat.getD i default = m
  generalize cat.getD j default = f
  unfold inTime inSpace winOf Near
  constructor
  · rintro ⟨h1, h2⟩
    cases hm : m.mag with
    | none => rw [hm] at h1; cases h1
    | some x =>
      rw [hm] at h1 h2
      simp only at h1 h2
      split at h1
      · rename_i w hw
        split at h2
        · rename_i s a b c d hs ha hb hc hd
          exact ⟨x, w, s, rfl, hw, hs, by have := h1.1; linarith, h1.2, a, b, c, d, ha, hb, hc, hd, h2⟩
        · cases h2
      · cases h1
  · rintro ⟨x, w, s, h1, h2, h3, h4, h5, a, b, c, d, ha, hb, hc, hd, h6⟩
    simp only [h1, h2, h3, ha, hb, hc, hd]
    exact ⟨⟨by linarith, h5⟩, h6⟩

theorem self_near {win : ℝ → Win} {fs : ℝ} (hw : WindowOk win) (hf : 0 ≤ fs) {m f p : Event} (hp : Near win fs p f)
    (hm : m = f) {x : ℝ} (hx : m.mag = some x) (hle : ∀ y, p.mag = some y → y ≤ x) : Near win fs m m := by
  subst hm
  obtain ⟨y, w, s, h1, h2, h3, -, -, a, b, c, d, ha, hb, -, -, -⟩ := hp
  obtain ⟨w', hw'⟩ := hw.time_up y x w (hle y h1) h2
  obtain ⟨s', hs'⟩ := hw.space_up y x s (hle y h1) h3
  have h0 := hw.time_nonneg _ _ hw'
  refine ⟨x, w', s', hx, hw', hs', ?_, ?_, a, b, a, b, ha, hb, ha, hb, ?_⟩
  · simp only [sub_self, Int.cast_zero]
    have := mul_nonneg hf h0
    nlinarith
  · simp only [sub_self, Int.cast_zero]; nlinarith
  · have : haversine a b a b = 0 := (C46_zero_iff a b a b (by norm_num)).2 rfl
    rw [this]; exact hw.space_nonneg _ _ hs'

/-- After the processed events `P`, with mainshocks `F`. -/
structure Inv (win : ℝ → Win) (fs : ℝ) (cat : List Event) (P F : List ℕ) (s : Decl.State) : Prop where
  next : 0 < s.next
  sub : ∀ m ∈ F, m ∈ P
  ids : ∀ j, s.ids j ≠ 0 ↔ ∃ m ∈ F, Near win fs (cat.getD m default) (cat.getD j default)
  main : ∀ p ∈ P, p ∈ F ↔ ∀ m ∈ F, Before cat m p → ¬ Near win fs (cat.getD m default) (cat.getD p default)
  flags : ∀ j, s.flags j = true ↔ j ∈ F ∨ s.ids j = 0

theorem inv_loop {win : ℝ → Win} {fs : ℝ} (hw : WindowOk win) (hf : 0 ≤ fs) {cat : List Event} (hd : DefaultIndex cat) (R : List ℕ) :
    ∀ (P F : List ℕ) (s : Decl.State), (P ++ R).Pairwise (Before cat) → (∀ i ∈ R, i < cat.length) → Inv win fs cat P F s →
      ∃ s' F', loop win fs cat s R = .ok s' ∧ Inv win fs cat (P ++ R) F' s' := by
  induction R with
  | nil =>
    intro P F s _ _ hi
    exact ⟨s, F, rfl, by rw [List.append_nil]; exact hi⟩
  | cons p R ih =>
    intro P F s hpw hlt hi
    have hp : p < cat.length := hlt p (by simp)
    have hb : ∀ m ∈ P, Before cat m p := by
      intro m hm
      rw [List.pairwise_append] at hpw
      exact hpw.2.2 m hm p (by simp)
    have key : ∃ s1 F1, step win fs cat s p = .ok s1 ∧ Inv win fs cat (P ++ [p]) F1 s1 := by
      unfold step
      simp only
      rw [hd p hp, if_neg (by omega)]
      by_cases h0 : s.ids p = 0
      · rw [if_neg (by simpa using h0)]
        refine ⟨_, p :: F, rfl, ?_⟩
        have hno : ∀ m ∈ F, ¬ Near win fs (cat.getD m default) (cat.getD p default) := by
          intro m hm hn
          exact (hi.ids p).2 ⟨m, hm, hn⟩ h0
        have hids : ∀ j, (assign win fs cat s (cat.getD p default) p).ids j ≠ 0 ↔
            s.ids j ≠ 0 ∨ Near win fs (cat.getD p default) (cat.getD j default) := by
          intro j
          unfold assign
          simp only
          rw [sel_iff hd s hp]
          split
          · rename_i h
            have := hi.next
            constructor
            · intro _; exact Or.inr h.2
            · intro _; omega
          · rename_i h
            constructor
            · exact Or.inl
            · rintro (h1 | h1)
              · exact h1
              · intro h2; exact h ⟨h2, h1⟩
        refine ⟨Nat.succ_pos _, ?_, ?_, ?_, ?_⟩
        · intro m hm
          rcases List.mem_cons.1 hm with rfl | hm
          · simp
          · exact List.mem_append_left _ (hi.sub m hm)
        · intro j
          rw [hids, hi.ids]
          constructor
          · rintro (⟨m, hm, h⟩ | h)
            · exact ⟨m, List.mem_cons_of_mem _ hm, h⟩
            · exact ⟨p, by simp, h⟩
          · rintro ⟨m, hm, h⟩
            rcases List.mem_cons.1 hm with rfl | hm
            · exact Or.inr h
            · exact Or.inl ⟨m, hm, h⟩
        · intro q hq
          rcases List.mem_append.1 hq with hqP | hq
          · have hqp : q ≠ p := fun e => before_irrefl cat p (by have := hb q hqP; rwa [e] at this)
            rw [List.mem_cons, or_iff_right hqp, hi.main q hqP]
            constructor
            · intro h m hm hbm
              rcases List.mem_cons.1 hm with rfl | hm
              · exact absurd (before_trans hbm (hb q hqP)) (before_irrefl cat _)
              · exact h m hm hbm
            · intro h m hm hbm
              exact h m (List.mem_cons_of_mem _ hm) hbm
          · rw [List.mem_singleton] at hq
            subst hq
            refine ⟨fun _ m hm hbm => ?_, fun _ => by simp⟩
            rcases List.mem_cons.1 hm with rfl | hm
            · exact absurd hbm (before_irrefl cat _)
            · exact hno m hm
        · intro j
          by_cases hj : j = p
          · subst hj
            simp [assign]
          · have e : (assign win fs cat s (cat.getD p default) p).flags j =
                if s.ids j = 0 ∧ Near win fs (cat.getD p default) (cat.getD j default) then false else s.flags j := by
              unfold assign
              simp only [if_neg hj, sel_iff hd s hp]
            rw [e, List.mem_cons, or_iff_right hj]
            by_cases hs : s.ids j = 0 ∧ Near win fs (cat.getD p default) (cat.getD j default)
            · rw [if_pos hs]
              have h1 : (assign win fs cat s (cat.getD p default) p).ids j ≠ 0 := (hids j).2 (Or.inr hs.2)
              have h2 : j ∉ F := by
                intro hjF
                have hbj := hb j (hi.sub j hjF)
                have hself : Near win fs (cat.getD j default) (cat.getD j default) := by
                  obtain ⟨y, w, sp, g1, -⟩ := hs.2
                  unfold Before at hbj
                  simp only at hbj
                  obtain ⟨x, hx, hle⟩ : ∃ x, (cat.getD j default).mag = some x ∧ y ≤ x := by
                    rcases hbj with ⟨x, hx, h | ⟨z, h, h3⟩⟩ | ⟨h, -⟩
                    · rw [g1] at h; cases h
                    · rw [g1] at h; cases h; exact ⟨x, hx, h3.le⟩
                    · exact ⟨y, by rw [h, g1], le_rfl⟩
                  refine self_near hw hf hs.2 rfl hx ?_
                  intro y' hy'; rw [g1] at hy'; cases hy'; exact hle
                exact (hi.ids j).2 ⟨j, hjF, hself⟩ hs.1
              exact ⟨fun h => (by cases h), fun h => (h.elim h2 h1).elim⟩
            · rw [if_neg hs, hi.flags j]
              have h1 : (assign win fs cat s (cat.getD p default) p).ids j = 0 ↔ s.ids j = 0 := by
                rw [← not_iff_not]
                show (assign win fs cat s (cat.getD p default) p).ids j ≠ 0 ↔ s.ids j ≠ 0
                rw [hids]
                constructor
                · rintro (h | h)
                  · exact h
                  · intro h2; exact hs ⟨h2, h⟩
                · exact Or.inl
              rw [h1]
      · rw [if_pos h0]
        refine ⟨s, F, rfl, hi.next, fun m hm => List.mem_append_left _ (hi.sub m hm), hi.ids, ?_, hi.flags⟩
        intro q hq
        rcases List.mem_append.1 hq with hq | hq
        · exact hi.main q hq
        · rw [List.mem_singleton] at hq
          subst hq
          obtain ⟨m, hm, hn⟩ := (hi.ids q).1 h0
          constructor
          · intro hqF
            exact absurd (hb q (hi.sub q hqF)) (before_irrefl cat _)
          · intro h
            exact absurd hn (h m hm (hb m (hi.sub m hm)))
    obtain ⟨s1, F1, e1, hi1⟩ := key
    obtain ⟨s2, F2, e2, hi2⟩ := ih (P ++ [p]) F1 s1 (by simpa using hpw) (fun i hi => hlt i (by simp [hi])) hi1
    refine ⟨s2, F2, ?_, by simpa using hi2⟩
    rw [loop, e1]
    exact e2

/-! ## C44 -/

/-- C44: the result is a declustering: an event is flagged as mainshock exactly if it lies in the windows
of no mainshock that is larger (or equal and earlier). -/
theorem C44_declustering {win : ℝ → Win} (hw : WindowOk win) {fs : ℝ} (hf : 0 ≤ fs) {cat : List Event} (hd : DefaultIndex cat) :
    ∃ flags, decluster win fs cat = .ok flags ∧ IsDeclustering win fs cat flags := by
  have hmem : ∀ i, i ∈ order cat ↔ i < cat.length := by
    intro i; rw [(order_perm cat).mem_iff, List.mem_range]
  obtain ⟨s, F, e, hi⟩ := inv_loop hw hf hd (order cat) [] [] ⟨fun _ => 0, 1, fun _ => true⟩
    (by simpa using order_pairwise cat) (fun i hi => (hmem i).1 hi)
    ⟨one_pos, by simp, by simp, by simp, by simp⟩
  rw [List.nil_append] at hi
  refine ⟨(List.range cat.length).map s.flags, by unfold decluster; rw [e]; rfl, by simp, ?_⟩
  have hfl : ∀ j < cat.length, (((List.range cat.length).map s.flags)[j]? = some true ↔ j ∈ F) := by
    intro j hj
    rw [List.getElem?_map, List.getElem?_range hj]
    simp only [Option.map_some, Option.some.injEq]
    rw [hi.flags j]
    refine ⟨?_, Or.inl⟩
    rintro (h | h)
    · exact h
    · rw [hi.main j ((hmem j).2 hj)]
      intro m hm _ hn
      exact (hi.ids j).2 ⟨m, hm, hn⟩ h
  intro j hj
  rw [hfl j hj, hi.main j ((hmem j).2 hj)]
  constructor
  · intro h m hm hb hmf
    exact h m ((hfl m hm).1 hmf) hb
  · intro h m hm hb
    have hml := (hmem m).1 (hi.sub m hm)
    exact h m hml hb ((hfl m hml).2 hm)

/-- Induction over the events in order of rank. -/
theorem rank_induction {cat : List Event} {P : ℕ → Prop}
    (h : ∀ j < cat.length, (∀ m < cat.length, Before cat m j → P m) → P j) : ∀ j < cat.length, P j := by
  have wf : WellFounded fun i j : Fin cat.length => Before cat i j := by
    have : IsTrans (Fin cat.length) fun i j => Before cat i j := ⟨fun _ _ _ => before_trans⟩
    have : Std.Irrefl fun i j : Fin cat.length => Before cat i j := ⟨fun i => before_irrefl cat i⟩
    exact Finite.wellFounded_of_trans_of_irrefl _
  intro j hj
  have : ∀ i : Fin cat.length, P i := by
    intro i
    induction i using wf.induction with
    | _ i ih => exact h i i.2 fun m hm hb => ih ⟨m, hm⟩ hb
  exact this ⟨j, hj⟩

/-- C44: the rule determines the flags. -/
theorem C44_unique {win : ℝ → Win} {fs : ℝ} {cat : List Event} {f g : List Bool} (hf : IsDeclustering win fs cat f)
    (hg : IsDeclustering win fs cat g) : f = g := by
  have key : ∀ j < cat.length, (f[j]? = some true ↔ g[j]? = some true) := by
    apply rank_induction
    intro j hj ih
    rw [hf.2 j hj, hg.2 j hj]
    constructor
    · intro h m hm hb hgm
      exact h m hm hb ((ih m hm hb).2 hgm)
    · intro h m hm hb hfm
      exact h m hm hb ((ih m hm hb).1 hfm)
  apply List.ext_getElem
  · rw [hf.1, hg.1]
  · intro j h1 h2
    have := key j (by rw [← hf.1]; exact h1)
    rw [List.getElem?_eq_getElem h1, List.getElem?_eq_getElem h2] at this
    simp only [Option.some.injEq] at this
    cases h3 : f[j] <;> cases h4 : g[j] <;> simp_all

/-- C44: every event belongs to one cluster with one mainshock: the first mainshock in whose windows it
lies, or itself. A mainshock is its own; every other event is preceded by its mainshock (a larger event,
or one equally large and not later) and lies in its windows. -/
theorem C44_clusters {win : ℝ → Win} (hw : WindowOk win) {fs : ℝ} (hf : 0 ≤ fs) {cat : List Event} (hd : DefaultIndex cat) :
    ∃ (flags : List Bool) (main : ℕ → ℕ), decluster win fs cat = .ok flags ∧
      ∀ j < cat.length, main j < cat.length ∧ main (main j) = main j ∧ (flags[j]? = some true ↔ main j = j) ∧
        (main j ≠ j → Before cat (main j) j ∧ Near win fs (cat.getD (main j) default) (cat.getD j default)) ∧
        (∀ m < cat.length, main m = m → Before cat m (main j) → ¬ Near win fs (cat.getD m default) (cat.getD j default)) := by
  obtain ⟨flags, e, hlen, hi⟩ := C44_declustering hw hf hd
  have hex : ∀ j < cat.length, ∃ m < cat.length, flags[m]? = some true ∧ (flags[j]? = some true ↔ m = j) ∧
      (m ≠ j → Before cat m j ∧ Near win fs (cat.getD m default) (cat.getD j default)) ∧
      (∀ q < cat.length, flags[q]? = some true → Before cat q m → ¬ Near win fs (cat.getD q default) (cat.getD j default)) := by
    intro j hj
    by_cases hfj : flags[j]? = some true
    · refine ⟨j, hj, hfj, ⟨fun _ => rfl, fun _ => hfj⟩, fun h => absurd rfl h, ?_⟩
      intro q hq hfq hb
      exact (hi j hj).1 hfj q hq hb hfq
    · have h1 := (not_congr (hi j hj)).1 hfj
      push Not at h1
      obtain ⟨m0, hm0, hb0, hf0, hn0⟩ := h1
      -- the first one
      let C : ℕ → Prop := fun m => m < cat.length ∧ Before cat m j ∧ flags[m]? = some true ∧ Near win fs (cat.getD m default) (cat.getD j default)
      have hmin : ∃ m, C m ∧ ∀ q, C q → ¬ Before cat q m := by
        by_contra hno
        push Not at hno
        have : ∀ m < cat.length, ¬ C m := by
          apply rank_induction
          intro m hm ih hc
          obtain ⟨q, hq, hb⟩ := hno m hc
          exact ih q hq.1 hb hq
        exact this m0 hm0 ⟨hm0, hb0, hf0, hn0⟩
      obtain ⟨m, ⟨hm1, hm2, hm3, hm4⟩, hm5⟩ := hmin
      refine ⟨m, hm1, hm3, ⟨fun h => absurd h hfj, fun h => by rw [h] at hm3; exact hm3⟩, fun _ => ⟨hm2, hm4⟩, ?_⟩
      intro q hq hfq hb hn
      exact hm5 q ⟨hq, before_trans hb hm2, hfq, hn⟩ hb
  let main : ℕ → ℕ := fun j => if h : j < cat.length then (hex j h).choose else j
  have hmain : ∀ j < cat.length, main j < cat.length ∧ flags[main j]? = some true ∧ (flags[j]? = some true ↔ main j = j) ∧
      (main j ≠ j → Before cat (main j) j ∧ Near win fs (cat.getD (main j) default) (cat.getD j default)) ∧
      (∀ q < cat.length, flags[q]? = some true → Before cat q (main j) → ¬ Near win fs (cat.getD q default) (cat.getD j default)) := by
    intro j hj
    have : main j = (hex j hj).choose := by simp only [main]; rw [dif_pos hj]
    rw [this]
    exact (hex j hj).choose_spec
  refine ⟨flags, main, e, fun j hj => ?_⟩
  obtain ⟨h1, h2, h3, h4, h5⟩ := hmain j hj
  refine ⟨h1, (hmain _ h1).2.2.1.1 h2, h3, h4, ?_⟩
  intro m hm hmm
  exact h5 m hm ((hmain m hm).2.2.1.2 hmm)

/-- The windows of the package satisfy the hypothesis, with no cutoff or any positive one. -/
theorem C44_window_ok (k : Kind) (c : Option ℝ) (hc : ∀ x, c = some x → 0 ≤ x) : WindowOk (window k c) := by
  have hcalc : ∀ m t, (calcWin k m).time = some t → 0 < t := by
    intro m t h
    exact (C45_positive k m).2.1 t (by simp only [window, h]; rfl)
  have hup : ∀ m m' w, m ≤ m' → (calcWin k m).time = some w → ∃ w', (calcWin k m').time = some w' := by
    intro m m' w h hw
    cases k with
    | gardnerKnopoff => exact ⟨_, rfl⟩
    | uhrhammer => exact ⟨_, rfl⟩
    | gruenthal =>
      obtain ⟨w', h1, -⟩ := C45_time_monotone .gruenthal none h (by simp) (t := w) (by simp only [window, hw]; rfl)
      simp only [window] at h1
      rw [Option.map_eq_some_iff] at h1
      obtain ⟨u, hu, -⟩ := h1
      exact ⟨u, hu⟩
  constructor
  · intro m w h
    simp only [window] at h
    rw [Option.map_eq_some_iff] at h
    obtain ⟨t, ht, rfl⟩ := h
    have := hcalc m t ht
    unfold cut
    cases c with
    | none => exact this.le
    | some c =>
      simp only
      split
      · exact this.le
      · exact le_min (le_max_right _ _) (hc c rfl)
  · intro m s h
    exact ((C45_positive k m).1 s h).le
  · intro m m' w h hw
    simp only [window] at hw ⊢
    rw [Option.map_eq_some_iff] at hw
    obtain ⟨t, ht, -⟩ := hw
    obtain ⟨w', hw'⟩ := hup m m' t h ht
    exact ⟨_, by rw [hw']; rfl⟩
  · intro m m' s h hs
    obtain ⟨s', h1, -⟩ := C45_space_monotone k c h hs
    exact ⟨s', h1⟩

/-- The rows with the flag set, with labels reset. -/
def mainshocks (cat : List Event) (flags : List Bool) : List Event :=
  (((List.zip cat flags).filter Prod.snd).map Prod.fst).mapIdx fun i e => { e with label := i }

theorem kept_positions {α : Type} (l : List α) : ∀ (f : List Bool), f.length = l.length →
    ∃ q : ℕ → ℕ, StrictMono q ∧
      ∀ (i : ℕ) (e : α), (((List.zip l f).filter Prod.snd).map Prod.fst)[i]? = some e → f[q i]? = some true ∧ l[q i]? = some e := by
  induction l with
  | nil => intro f _; exact ⟨id, strictMono_id, by simp⟩
  | cons a l ih =>
    intro f hf
    cases f with
    | nil => simp at hf
    | cons b f =>
      obtain ⟨q, hq, h⟩ := ih f (by simpa using hf)
      cases b with
      | false =>
        refine ⟨fun i => q i + 1, fun i j hij => Nat.succ_lt_succ (hq hij), ?_⟩
        intro i e he
        simp only [List.zip_cons_cons, List.filter_cons, Bool.false_eq_true, if_false] at he
        simpa using h i e he
      | true =>
        refine ⟨fun i => match i with
          | 0 => 0
          | i + 1 => q i + 1, ?_, ?_⟩
        · apply strictMono_nat_of_lt_succ
          intro i
          cases i with
          | zero => simp
          | succ i => simpa using hq (Nat.lt_succ_self i)
        · intro i e he
          simp only [List.zip_cons_cons, List.filter_cons, if_true, List.map_cons] at he
          cases i with
          | zero => simpa using he
          | succ i => simpa using h i e (by simpa using he)

/-- C44: declustering the mainshocks again (index reset) keeps all of them. -/
theorem C44_idempotent {win : ℝ → Win} (hw : WindowOk win) {fs : ℝ} (hf : 0 ≤ fs) {cat : List Event} (hd : DefaultIndex cat)
    {flags : List Bool} (h : decluster win fs cat = .ok flags) :
    decluster win fs (mainshocks cat flags) = .ok (List.replicate (mainshocks cat flags).length true) := by
  obtain ⟨f, e, hlen, hi⟩ := C44_declustering hw hf hd
  rw [e] at h
  have h : f = flags := by injection h
  subst h
  obtain ⟨q, hq, hkept⟩ := kept_positions cat f hlen
  set c' := mainshocks cat f with hc'
  have hpos : ∀ i < c'.length, f[q i]? = some true ∧ q i < cat.length ∧ c'.getD i default = { cat.getD (q i) default with label := i } := by
    intro i hil
    have hlen' : i < (((List.zip cat f).filter Prod.snd).map Prod.fst).length := by
      rw [hc'] at hil; unfold mainshocks at hil; rwa [List.length_mapIdx] at hil
    obtain ⟨h1, h2⟩ := hkept i _ (List.getElem?_eq_getElem hlen')
    have hlt := (List.getElem?_eq_some_iff.1 h2).1
    refine ⟨h1, hlt, ?_⟩
    rw [List.getD_eq_getElem?_getD, List.getD_eq_getElem?_getD, h2, hc']
    unfold mainshocks
    rw [List.getElem?_mapIdx, List.getElem?_eq_getElem hlen']
    rfl
  have hd' : DefaultIndex c' := by
    intro i hi
    rw [(hpos i hi).2.2]
  obtain ⟨g, eg, hg⟩ := C44_declustering hw hf hd'
  rw [eg]
  congr 1
  apply C44_unique hg
  refine ⟨by simp, fun j hj => ?_⟩
  rw [List.getElem?_replicate, if_pos hj]
  refine ⟨fun _ m hm hb _ hn => ?_, fun _ => rfl⟩
  obtain ⟨j1, j2, j3⟩ := hpos j hj
  obtain ⟨m1, m2, m3⟩ := hpos m hm
  have hb' : Before cat (q m) (q j) := by
    unfold Before at hb ⊢
    rw [j3, m3] at hb
    simp only at hb ⊢
    refine hb.imp id ?_
    rintro ⟨h1, h2⟩
    refine ⟨h1, h2.imp id ?_⟩
    rintro ⟨h3, h4⟩
    exact ⟨h3, hq h4⟩
  rw [j3, m3] at hn
  exact (hi (q j) j2).1 j1 (q m) m2 hb' m1 hn

/-- Rows rearranged by `σ`, labels reset. -/
def rearrange (cat : List Event) (σ : Equiv.Perm (Fin cat.length)) : List Event :=
  List.ofFn fun i : Fin cat.length => { cat.get (σ i) with label := i }

/-- C44: if no two rows agree in magnitude and time, the flag of an event does not depend on the order of
the rows. -/
theorem C44_row_order {win : ℝ → Win} (hw : WindowOk win) {fs : ℝ} (hf : 0 ≤ fs) {cat : List Event} (hd : DefaultIndex cat)
    (hdist : ∀ i j : Fin cat.length, (cat.get i).mag = (cat.get j).mag → (cat.get i).time = (cat.get j).time → i = j)
    (σ : Equiv.Perm (Fin cat.length)) :
    ∃ flags flags', decluster win fs cat = .ok flags ∧ decluster win fs (rearrange cat σ) = .ok flags' ∧
      ∀ i : Fin cat.length, flags'[(i : ℕ)]? = flags[(σ i : ℕ)]? := by
  have hlen' : (rearrange cat σ).length = cat.length := by unfold rearrange; simp
  have hat : ∀ i : Fin cat.length, (rearrange cat σ).getD i default = { cat.getD (σ i) default with label := i } := by
    intro i
    rw [List.getD_eq_getElem?_getD, List.getD_eq_getElem?_getD, List.getElem?_eq_getElem (by rw [hlen']; exact i.2),
      List.getElem?_eq_getElem (σ i).2]
    unfold rearrange
    simp
  have hd' : DefaultIndex (rearrange cat σ) := by
    intro i hi
    rw [hlen'] at hi
    rw [hat ⟨i, hi⟩]
  obtain ⟨f, e, hl, hi⟩ := C44_declustering hw hf hd
  obtain ⟨g, e', hg⟩ := C44_declustering hw hf hd'
  refine ⟨f, g, e, e', ?_⟩
  have hget : ∀ i : Fin cat.length, cat.getD i default = cat.get i := by
    intro i
    rw [List.getD_eq_getElem?_getD, List.getElem?_eq_getElem i.2]; rfl
  have hbefore : ∀ i j : Fin cat.length, Before (rearrange cat σ) i j ↔ Before cat (σ i) (σ j) := by
    intro i j
    unfold Before
    rw [hat, hat]
    simp only
    refine or_congr Iff.rfl (and_congr_right fun hm => or_congr Iff.rfl (and_congr_right fun ht => ?_))
    rw [hget, hget] at hm ht
    have := σ.injective (hdist _ _ hm ht)
    subst this
    simp
  have hnear : ∀ i j : Fin cat.length, Near win fs ((rearrange cat σ).getD i default) ((rearrange cat σ).getD j default) ↔
      Near win fs (cat.getD (σ i) default) (cat.getD (σ j) default) := by
    intro i j
    rw [hat, hat]; rfl
  have hcand : IsDeclustering win fs (rearrange cat σ) (List.ofFn fun i : Fin cat.length => f[(σ i : ℕ)]'(by rw [hl]; exact (σ i).2)) := by
    have hf' : ∀ i : Fin cat.length, (List.ofFn fun i : Fin cat.length => f[(σ i : ℕ)]'(by rw [hl]; exact (σ i).2))[(i : ℕ)]? = f[(σ i : ℕ)]? := by
      intro i
      rw [List.getElem?_eq_getElem (by simp), List.getElem?_eq_getElem (by rw [hl]; exact (σ i).2)]
      simp
    refine ⟨by rw [hlen']; simp, ?_⟩
    rw [hlen']
    intro j hj
    rw [hf' ⟨j, hj⟩, hi _ (σ ⟨j, hj⟩).2]
    constructor
    · intro h m hm hb hfm
      rw [hf' ⟨m, hm⟩] at hfm
      have := h (σ ⟨m, hm⟩) (σ ⟨m, hm⟩).2 ((hbefore ⟨m, hm⟩ ⟨j, hj⟩).1 hb) hfm
      exact fun hn => this ((hnear ⟨m, hm⟩ ⟨j, hj⟩).1 hn)
    · intro h m hm hb hfm hn
      obtain ⟨m', hm'⟩ := σ.surjective ⟨m, hm⟩
      have hv : (σ m' : ℕ) = m := by rw [hm']
      refine h m' m'.2 ((hbefore m' ⟨j, hj⟩).2 (by rw [hv]; exact hb)) (by rw [hf' m', hv]; exact hfm) ((hnear m' ⟨j, hj⟩).2 (by rw [hv]; exact hn))
  have := C44_unique hg hcand
  intro i
  rw [this, List.getElem?_eq_getElem (by simp), List.getElem?_eq_getElem (by rw [hl]; exact (σ i).2)]
  simp

/-- C44: an index label that is not a position raises. -/
theorem C44_label_out_of_range (win : ℝ → Win) (fs : ℝ) {cat : List Event} {p : ℕ} (hp : p < cat.length)
    (h : cat.length ≤ (cat.getD p default).label) : decluster win fs cat = .error .indexError := by
  have key : ∀ (R : List ℕ) (s : Decl.State), p ∈ R → loop win fs cat s R = .error .indexError := by
    intro R
    induction R with
    | nil => intro s h; cases h
    | cons r R ih =>
      intro s hmem
      rw [loop]
      cases hs : step win fs cat s r with
      | error e =>
        unfold step at hs
        simp only at hs
        split at hs
        · cases hs; rfl
        · split at hs <;> cases hs
      | ok s' =>
        rcases List.mem_cons.1 hmem with rfl | hm
        · unfold step at hs
          simp only at hs
          rw [if_pos h] at hs
          cases hs
        · exact ih s' hm
  unfold decluster
  rw [key (order cat) _ ((order_perm cat).mem_iff.2 (List.mem_range.2 hp))]
  rfl

/-- The order of the two events of the following examples. -/
theorem order_two (a b : Event) {x y : ℝ} (ha : a.mag = some x) (hb : b.mag = some y) (h : y < x) : order [a, b] = [0, 1] := by
  unfold order
  have : rankLe [a, b] 0 1 := by simp [rankLe, ha, hb, h]
  simp [List.range_succ, List.insertionSort, List.orderedInsert, this]

/-- A finding about C44: index labels are used as positions. Two simultaneous events at one place, of
magnitudes 5 and 3, with index 1, 0: the smaller one is flagged as the mainshock of the larger one, for all
windows of the package. -/
theorem C44_labels_as_positions (k : Kind) :
    decluster (window k none) 1 [⟨1, 0, some 5, some 0, some 0⟩, ⟨0, 0, some 3, some 0, some 0⟩] = .ok [false, true] ∧
    decluster (window k none) 1 [⟨0, 0, some 5, some 0, some 0⟩, ⟨1, 0, some 3, some 0, some 0⟩] = .ok [true, false] := by
  have hpos := fun m => C45_positive k m
  obtain ⟨s5, hs5⟩ := Option.ne_none_iff_exists'.1 ((hpos 5).2.2 (by norm_num)).1
  obtain ⟨t5, ht5⟩ := Option.ne_none_iff_exists'.1 ((hpos 5).2.2 (by norm_num)).2
  obtain ⟨t3, ht3⟩ := Option.ne_none_iff_exists'.1 ((hpos 3).2.2 (by norm_num)).2
  have p1 := (hpos 5).1 _ hs5
  have p2 := (hpos 5).2.1 _ ht5
  have p3 := (hpos 3).2.1 _ ht3
  have hz : haversine 0 0 0 0 = 0 := (C46_zero_iff 0 0 0 0 (by norm_num)).2 rfl
  constructor
  · unfold decluster
    rw [order_two _ _ rfl rfl (show (3 : ℝ) < 5 by norm_num)]
    simp [loop, step, assign, sel, inTime, inSpace, winOf, hs5, ht3, hz, p1.le, p3.le, bind, Except.bind, pure, Except.pure, List.range_succ]
  · unfold decluster
    rw [order_two _ _ rfl rfl (show (3 : ℝ) < 5 by norm_num)]
    simp [loop, step, assign, sel, inTime, inSpace, winOf, hs5, ht5, hz, p1.le, p2.le, bind, Except.bind, pure, Except.pure, List.range_succ]

/-- The hypotheses are met: the Gardner-Knopoff windows and two events far apart in time. -/
example : DefaultIndex [⟨0, 0, some 5, some 0, some 0⟩, ⟨1, 0, some 3, some 0, some 0⟩] ∧ WindowOk (window .gardnerKnopoff (some 10)) := by
  refine ⟨?_, C44_window_ok _ _ (by rintro x h; cases h; norm_num)⟩
  intro i hi
  simp at hi
  interval_cases i <;> rfl

end
end SeismoStats.Props
