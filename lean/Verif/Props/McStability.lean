/-
Property C38: `estimate_mc_b_stability`.
-/
import Verif.Props.McKsLoop
import Verif.Props.AValueRate

namespace SeismoStats.Props
open SeismoStats SeismoStats.EstimateMc
open SeismoStats.BValue (State Reachable calculate stdOf)
set_option linter.unusedSimpArgs false
open Classical
noncomputable section

/-! ## Specification -/

/-- The estimator call on the events at or above `mc - delta_m/2`. -/
def callAt (mags : List ℝ) (mc δ : ℝ) : BValue.Args :=
  { mags := (mags.filter fun m => decide (mc - δ / 2 ≤ m)).map some, mc := mc, δ := δ }

/-- `b` and `d` are the b-value at `mc` and the difference to the average over the stability range in
units of the deviation: the cut-offs are `mc + k delta_m` with `k delta_m < range` that do not
exceed the largest magnitude, each b-value is that of a fresh estimator, and the sum is
divided by the number of `k` with `k delta_m < range`. -/
def IsStabTest (c : BValue.Cls) (ω : ℕ → List (List ℕ)) (warn : Bool) (mags : List ℝ) (δ range mc : ℝ) (b d : Fl ℝ) : Prop :=
  ∃ (sd : Fl ℝ) (win : List ℝ) (bs : List (Fl ℝ)) (n : ℕ),
    (calculate c warn State.init (callAt mags mc δ)).2 = .ok b ∧
    stdOf c ω (calculate c warn State.init (callAt mags mc δ)).1 = .ok sd ∧
    win.Pairwise (· < ·) ∧
    (∀ x, x ∈ win ↔ ∃ k : ℕ, x = mc + k * δ ∧ k * δ < range ∧ ∃ m ∈ mags, x ≤ m) ∧
    List.Forall₂ (fun x b' => (calculate c warn State.init (callAt mags x δ)).2 = .ok b') win bs ∧
    (∀ k : ℕ, k < n ↔ k * δ < range) ∧
    d = Fl.quot (Fl.abs (Fl.sub ((Fl.sum bs).overNat n) b)) sd

/-- The criterion. -/
def Stable (d : Fl ℝ) : Prop := ∃ x : ℝ, d = .fin x ∧ x ≤ 1

/-- What the caller gets for the best mc `m`: `m` rounded to the bin size, but None if it is 0. -/
def Reported (δ m : ℝ) (o : Option ℝ) : Prop :=
  (m = 0 → o = none) ∧ (m ≠ 0 → ∃ y, o = some y ∧ Spec.RoundsTo (1 / 10 ^ 12) δ m y)

variable {ω : ℕ → List (List ℕ)}

/-! ## Fresh estimators -/

theorem windowBs_fresh (c : BValue.Cls) (warn : Bool) (mags : List ℝ) (δ : ℝ) (l : List ℝ) :
    ∀ s : State, Reachable c s → Reachable c (windowBs c warn mags δ s l).1 ∧
      (windowBs c warn mags δ s l).2 = l.mapM fun x => (calculate c warn State.init (callAt mags x δ)).2 := by
  induction l with
  | nil => intro s hs; exact ⟨hs, rfl⟩
  | cons x l ih =>
    intro s hs
    have h1 := (calc_frame warn warn hs .init (argsAt mags x δ)).1
    have h2 : Reachable c (calculate c warn s (argsAt mags x δ)).1 := .call warn _ hs
    rw [List.mapM_cons]
    unfold windowBs
    have hc : callAt mags x δ = argsAt mags x δ := rfl
    rw [hc]
    cases hk : calculate c warn s (argsAt mags x δ) with
    | mk s' r =>
      rw [hk] at h1 h2
      simp only at h1 h2
      rw [← h1]
      cases r with
      | error e => exact ⟨h2, rfl⟩
      | ok b =>
        obtain ⟨h3, h4⟩ := ih s' h2
        simp only
        cases hw : windowBs c warn mags δ s' l with
        | mk s'' r' =>
          rw [hw] at h3 h4
          simp only at h3 h4
          simp only [bind, Except.bind, pure, Except.pure]
          rw [← h4]
          cases r' with
          | error e => exact ⟨h3, rfl⟩
          | ok l' => exact ⟨h3, rfl⟩

/-- The test with a fresh estimator. -/
def stabAt (c : BValue.Cls) (ω : ℕ → List (List ℕ)) (warn : Bool) (mags : List ℝ) (δ range mc : ℝ) : Py (Fl ℝ × Fl ℝ) :=
  (stabOne c ω warn mags δ range State.init mc).2

theorem stabOne_fresh (c : BValue.Cls) (warn : Bool) (mags : List ℝ) (δ range mc : ℝ) {s : State}
    (hs : Reachable c s) : Reachable c (stabOne c ω warn mags δ range s mc).1 ∧
      (stabOne c ω warn mags δ range s mc).2 = stabAt c ω warn mags δ range mc := by
  have key : ∀ s : State, Reachable c s → Reachable c (stabOne c ω warn mags δ range s mc).1 ∧
      (stabOne c ω warn mags δ range s mc).2 = (do
        let b ← (calculate c warn State.init (argsAt mags mc δ)).2
        let sd ← stdOf c ω (calculate c warn State.init (argsAt mags mc δ)).1
        let bs ← (window mags δ range mc).mapM fun x => (calculate c warn State.init (callAt mags x δ)).2
        pure (b, diffB bs (stabSteps range δ) b sd)) := by
    intro s hs
    have h1 := (calc_frame warn warn hs .init (argsAt mags mc δ)).1
    have h2 : Reachable c (calculate c warn s (argsAt mags mc δ)).1 := .call warn _ hs
    unfold stabOne
    cases hr : (calculate c warn s (argsAt mags mc δ)).2 with
    | error e =>
      have : calculate c warn s (argsAt mags mc δ) = ((calculate c warn s (argsAt mags mc δ)).1, .error e) := by
        rw [← hr]
      rw [this]
      rw [← h1, hr]
      exact ⟨h2, rfl⟩
    | ok b =>
      have hstd := (C12_readings warn hs (argsAt mags mc δ) hr).2.2.2.2.1 ω
      have : calculate c warn s (argsAt mags mc δ) = ((calculate c warn s (argsAt mags mc δ)).1, .ok b) := by
        rw [← hr]
      rw [this]
      rw [← h1, hr]
      simp only [bind, Except.bind, pure, Except.pure]
      rw [← hstd]
      cases hsd : stdOf c ω (calculate c warn s (argsAt mags mc δ)).1 with
      | error e => exact ⟨h2, rfl⟩
      | ok sd =>
        simp only
        obtain ⟨h3, h4⟩ := windowBs_fresh c warn mags δ (window mags δ range mc) _ h2
        cases hw : windowBs c warn mags δ (calculate c warn s (argsAt mags mc δ)).1 (window mags δ range mc) with
        | mk s'' r' =>
          rw [hw] at h3 h4
          simp only at h3 h4
          rw [← h4]
          cases r' with
          | error e => exact ⟨h3, rfl⟩
          | ok bs => exact ⟨h3, rfl⟩
  obtain ⟨h1, h2⟩ := key s hs
  obtain ⟨-, h3⟩ := key State.init .init
  exact ⟨h1, by unfold stabAt; rw [h2, h3]⟩

theorem arange_mem (a b δ x : ℝ) (hδ : 0 < δ) : x ∈ arange a b δ ↔ ∃ k : ℕ, x = a + k * δ ∧ a + k * δ < b := by
  unfold arange
  rw [List.mem_map]
  constructor
  · rintro ⟨k, hk, rfl⟩
    rw [List.mem_range, Int.lt_toNat, Int.lt_ceil, lt_div_iff₀ hδ] at hk
    push_cast at hk
    exact ⟨k, rfl, by linarith⟩
  · rintro ⟨k, rfl, hk⟩
    refine ⟨k, ?_, rfl⟩
    rw [List.mem_range, Int.lt_toNat, Int.lt_ceil, lt_div_iff₀ hδ]
    push_cast; linarith

theorem arange_sorted (a b : ℝ) {δ : ℝ} (hδ : 0 < δ) : (arange a b δ).Pairwise (· < ·) := by
  unfold arange
  rw [List.pairwise_map]
  refine List.pairwise_lt_range.imp ?_
  intro i j hij
  have : (i : ℝ) < j := by exact_mod_cast hij
  nlinarith

theorem stabAt_isStabTest {c : BValue.Cls} {warn : Bool} {mags : List ℝ} {δ range mc : ℝ} {b d : Fl ℝ} (hδ : 0 < δ)
    (hne : mags ≠ []) (h : stabAt c ω warn mags δ range mc = .ok (b, d)) : IsStabTest c ω warn mags δ range mc b d := by
  unfold stabAt stabOne at h
  cases hr : calculate c warn State.init (argsAt mags mc δ) with
  | mk s r =>
    rw [hr] at h
    cases r with
    | error e => cases h
    | ok b' =>
      simp only at h
      cases hsd : stdOf c ω s with
      | error e => rw [hsd] at h; cases h
      | ok sd =>
        rw [hsd] at h
        simp only at h
        have hreach : Reachable c s := by
          have : Reachable c (calculate c warn State.init (argsAt mags mc δ)).1 := .call warn _ .init
          rw [hr] at this; exact this
        obtain ⟨-, h4⟩ := windowBs_fresh c warn mags δ (window mags δ range mc) s hreach
        cases hw : windowBs c warn mags δ s (window mags δ range mc) with
        | mk s'' r' =>
          rw [hw] at h h4
          simp only at h h4
          cases r' with
          | error e => cases h
          | ok bs =>
            cases h
            have hF := (mapM_ok_iff _ _ _).1 h4.symm
            refine ⟨sd, window mags δ range mc, bs, stabSteps range δ, ?_, ?_, ?_, ?_, hF, ?_, rfl⟩
            · show (calculate c warn State.init (argsAt mags mc δ)).2 = .ok b
              rw [hr]
            · show stdOf c ω (calculate c warn State.init (argsAt mags mc δ)).1 = .ok sd
              rw [hr]; exact hsd
            · exact (arange_sorted _ _ hδ).sublist List.filter_sublist
            · intro x
              unfold window
              obtain ⟨hi, hhi⟩ := exists_amax hne
              obtain ⟨g1, g2⟩ := (amax?_eq_some_iff _ _).1 hhi
              rw [List.mem_filter, arange_mem _ _ _ _ hδ, hhi, decide_eq_true_eq, Option.getD_some]
              constructor
              · rintro ⟨⟨k, hk, hlt⟩, hle⟩
                exact ⟨k, hk, by linarith, hi, g1, hle⟩
              · rintro ⟨k, hk, hlt, m, hm, hle⟩
                exact ⟨⟨k, hk, by linarith⟩, hle.trans (g2 hm)⟩
            · intro k
              unfold stabSteps arange
              rw [List.length_map, List.length_range, Int.lt_toNat, Int.lt_ceil, lt_div_iff₀ hδ]
              push_cast
              rw [sub_zero]

/-- The loop with fresh estimators. -/
def freshStab (test : ℝ → Py (Fl ℝ × Fl ℝ)) (stop : Bool) : Stab → List ℝ → Py Stab
  | acc, [] => .ok acc
  | acc, mc :: r =>
    match test mc with
    | .error e => .error e
    | .ok (b, d) =>
      if Fl.ge (.fin 1) d && stop then .ok (acc.record mc b d)
      else freshStab test stop (acc.record mc b d) r

theorem stabLoop_fresh (c : BValue.Cls) (warn : Bool) (mags : List ℝ) (δ range : ℝ) (stop : Bool) (l : List ℝ) :
    ∀ (s : State), Reachable c s → ∀ acc, stabLoop (stabOne c ω warn mags δ range) stop s acc l =
      freshStab (stabAt c ω warn mags δ range) stop acc l := by
  induction l with
  | nil => intros; rfl
  | cons mc l ih =>
    intro s hs acc
    obtain ⟨h1, h2⟩ := stabOne_fresh c warn mags δ range mc hs
    unfold stabLoop freshStab
    cases hk : stabOne c ω warn mags δ range s mc with
    | mk s' r =>
      rw [hk] at h1 h2
      simp only at h1 h2
      subst h2
      cases stabAt c ω warn mags δ range mc with
      | error e => rfl
      | ok t =>
        obtain ⟨b, d⟩ := t
        simp only
        rw [ih s' h1]

/-! ## The comparison of differences -/

theorem ge_refl {x : Fl ℝ} (h : x ≠ .nan) : Fl.ge x x = true := by
  cases x <;> simp_all [Fl.ge]

theorem lt_iff {x y : Fl ℝ} (hx : x ≠ .nan) (hy : y ≠ .nan) : Fl.lt x y = true ↔ Fl.ge x y = false := by
  cases x <;> cases y <;> simp_all [Fl.lt]

theorem ge_of_lt {x y : Fl ℝ} (h : Fl.lt x y = true) : Fl.ge y x = true ∧ Fl.ge x y = false ∧ x ≠ .nan ∧ y ≠ .nan := by
  cases x <;> cases y <;> simp_all [Fl.lt, Fl.ge]
  linarith

theorem ge_trans' {x y z : Fl ℝ} (h1 : Fl.ge x y = true) (h2 : Fl.ge y z = true) : Fl.ge x z = true := by
  cases x <;> cases y <;> cases z <;> simp_all [Fl.ge]
  linarith

theorem ge_total {x y : Fl ℝ} (hx : x ≠ .nan) (hy : y ≠ .nan) : Fl.ge x y = true ∨ Fl.ge y x = true := by
  cases x <;> cases y <;> simp_all [Fl.ge]
  exact le_total _ _

theorem ge_nan_left {x y : Fl ℝ} (h : Fl.ge x y = true) : x ≠ .nan ∧ y ≠ .nan := by
  cases x <;> cases y <;> simp_all [Fl.ge]

theorem pyMin_append (l : List (Fl ℝ)) (d : Fl ℝ) (h : l ≠ []) :
    Fl.pyMin (l ++ [d]) = if Fl.lt d (Fl.pyMin l) then d else Fl.pyMin l := by
  cases l with
  | nil => exact absurd rfl h
  | cons a l =>
    simp only [Fl.pyMin, List.cons_append, List.foldl_append, List.foldl_cons, List.foldl_nil]
    split <;> simp_all

theorem pyMin_spec (a : Fl ℝ) (l : List (Fl ℝ)) (ha : a ≠ .nan) :
    Fl.pyMin (a :: l) ≠ .nan ∧ Fl.pyMin (a :: l) ∈ a :: l ∧
      ∀ x ∈ a :: l, x ≠ .nan → Fl.ge x (Fl.pyMin (a :: l)) = true := by
  induction l using List.reverseRecOn with
  | nil =>
    refine ⟨ha, by simp [Fl.pyMin], ?_⟩
    intro x hx hn
    rw [List.mem_singleton] at hx
    subst hx
    exact ge_refl hn
  | append_singleton l d ih =>
    obtain ⟨h1, h2, h3⟩ := ih
    rw [← List.cons_append, pyMin_append _ _ (by simp)]
    by_cases hlt : Fl.lt d (Fl.pyMin (a :: l)) = true
    · rw [if_pos hlt]
      obtain ⟨g1, g2, g3, g4⟩ := ge_of_lt hlt
      refine ⟨g3, by simp, ?_⟩
      intro x hx hn
      rcases List.mem_append.1 hx with hx | hx
      · exact ge_trans' (h3 x hx hn) g1
      · rw [List.mem_singleton] at hx; subst hx; exact ge_refl hn
    · rw [if_neg hlt]
      refine ⟨h1, by simp only [List.mem_append]; exact Or.inl h2, ?_⟩
      intro x hx hn
      rcases List.mem_append.1 hx with hx | hx
      · exact h3 x hx hn
      · rw [List.mem_singleton] at hx; subst hx
        by_contra hc
        exact hlt ((lt_iff hn h1).2 (by simpa using hc))

theorem pyMin_nan (l : List (Fl ℝ)) : Fl.pyMin (.nan :: l) = .nan := by
  unfold Fl.pyMin
  simp only
  induction l with
  | nil => rfl
  | cons x l ih =>
    rw [List.foldl_cons]
    have : Fl.lt x .nan = false := by cases x <;> rfl
    simp only [this, Bool.false_eq_true, if_false]
    exact ih

/-- The state of the search: no stable mc so far, or the best is the last of the most stable ones. -/
def BestOf (tested : List (ℝ × Fl ℝ × Fl ℝ)) (best : Option (ℝ × Fl ℝ)) : Prop :=
  (best = none ∧ ∀ t ∈ tested, Fl.ge (.fin 1) t.2.2 = false) ∨
  ∃ i mc b d, tested[i]? = some (mc, b, d) ∧ best = some (mc, b) ∧ Fl.ge (.fin 1) d = true ∧
    ∀ (j : ℕ) (t : ℝ × Fl ℝ × Fl ℝ), tested[j]? = some t → t.2.2 ≠ .nan →
      Fl.ge t.2.2 d = true ∧ (i < j → Fl.ge d t.2.2 = false)

theorem record_bestOf {acc : Stab} {mc : ℝ} {b d : Fl ℝ} (h : BestOf acc.tested acc.best)
    (hfirst : ∀ t, (acc.record mc b d).tested.head? = some t → t.2.2 ≠ .nan) :
    BestOf (acc.record mc b d).tested (acc.record mc b d).best := by
  have ht : (acc.record mc b d).tested = acc.tested ++ [(mc, b, d)] := rfl
  have hb : (acc.record mc b d).best = if Fl.ge (.fin 1) d && Fl.eq d (Fl.pyMin ((acc.tested ++ [(mc, b, d)]).map fun t => t.2.2)) then
      some (mc, b) else acc.best := rfl
  rw [ht] at hfirst
  rw [ht, hb]
  -- the minimum
  obtain ⟨a, l, hal⟩ := List.exists_cons_of_ne_nil (l := (acc.tested ++ [(mc, b, d)]).map fun t => t.2.2) (by simp)
  have ha : a ≠ .nan := by
    obtain ⟨t, l', htl⟩ := List.exists_cons_of_ne_nil (l := acc.tested ++ [(mc, b, d)]) (by simp)
    rw [htl] at hal hfirst
    rw [List.map_cons] at hal
    injection hal with hal _
    rw [← hal]
    exact hfirst t rfl
  obtain ⟨m1, m2, m3⟩ := pyMin_spec a l ha
  rw [← hal] at m1 m2 m3
  set M := Fl.pyMin ((acc.tested ++ [(mc, b, d)]).map fun t => t.2.2) with hM
  have hmem : ∀ (j : ℕ) (t : ℝ × Fl ℝ × Fl ℝ), (acc.tested ++ [(mc, b, d)])[j]? = some t → t.2.2 ≠ .nan → Fl.ge t.2.2 M = true :=
    fun j t hj hn => m3 _ (List.mem_map.2 ⟨t, List.mem_of_getElem? hj, rfl⟩) hn
  by_cases hcond : (Fl.ge (.fin 1) d && Fl.eq d M) = true
  · rw [if_pos hcond]
    rw [Bool.and_eq_true] at hcond
    obtain ⟨c1, c2⟩ := hcond
    unfold Fl.eq at c2
    rw [Bool.and_eq_true] at c2
    refine Or.inr ⟨acc.tested.length, mc, b, d, by simp, rfl, c1, ?_⟩
    intro j t hj hn
    refine ⟨ge_trans' (hmem j t hj hn) c2.2, ?_⟩
    intro hlt
    have := (List.getElem?_eq_some_iff.1 hj).1
    simp at this; omega
  · rw [if_neg hcond]
    -- the new difference is NaN, above 1, or above the minimum
    have hnew : d = .nan ∨ Fl.ge (.fin 1) d = false ∨ Fl.ge M d = false := by
      by_contra hc
      rw [not_or, not_or] at hc
      obtain ⟨c1, c2, c3⟩ := hc
      apply hcond
      have c2' : Fl.ge (.fin 1) d = true := by simpa using c2
      have c3' : Fl.ge M d = true := by simpa using c3
      have c4 : Fl.ge d M = true := m3 d (by simp) c1
      rw [Bool.and_eq_true]
      exact ⟨c2', by unfold Fl.eq; rw [c4, c3']; rfl⟩
    rcases h with ⟨h1, h2⟩ | ⟨i, mc0, b0, d0, h1, h2, h3, h4⟩
    · refine Or.inl ⟨h1, ?_⟩
      intro t htm
      rcases List.mem_append.1 htm with htm | htm
      · exact h2 t htm
      · rw [List.mem_singleton] at htm
        subst htm
        simp only
        rcases hnew with hd | hd | hd
        · subst hd; rfl
        · exact hd
        · -- the minimum is an earlier one, above 1
          by_contra hc
          have hc' : Fl.ge (.fin 1) d = true := by simpa using hc
          obtain ⟨t, htm, hte⟩ := List.mem_map.1 m2
          rcases List.mem_append.1 htm with htm | htm
          · have hdn := (ge_nan_left hc').2
            have g : Fl.ge d M = true := m3 d (by simp) hdn
            have := ge_trans' hc' g
            rw [← hte, h2 t htm] at this
            cases this
          · rw [List.mem_singleton] at htm
            rw [htm] at hte
            simp only at hte
            rw [hte, ge_refl m1] at hd
            cases hd
    · have hi : i < acc.tested.length := (List.getElem?_eq_some_iff.1 h1).1
      refine Or.inr ⟨i, mc0, b0, d0, by rw [List.getElem?_append_left hi]; exact h1, h2, h3, ?_⟩
      intro j t hj hn
      rcases Nat.lt_or_ge j acc.tested.length with hjl | hjl
      · rw [List.getElem?_append_left hjl] at hj
        exact h4 j t hj hn
      · have hjl' : j = acc.tested.length := by
          have := (List.getElem?_eq_some_iff.1 hj).1
          simp at this; omega
        subst hjl'
        simp at hj
        subst hj
        simp only at hn ⊢
        -- d0 < d
        have key : Fl.ge d0 d = false := by
          by_contra hc
          have hc' : Fl.ge d0 d = true := by simpa using hc
          rcases hnew with hd | hd | hd
          · exact hn hd
          · rw [ge_trans' h3 hc'] at hd; cases hd
          · -- M is a difference of an earlier mc or d itself, so M ≥ d0 ≥ d
            obtain ⟨t, htm, hte⟩ := List.mem_map.1 m2
            rcases List.mem_append.1 htm with htm | htm
            · obtain ⟨k, hk⟩ := List.mem_iff_getElem?.1 htm
              have := (h4 k t hk (by rw [hte]; exact m1)).1
              rw [hte] at this
              rw [ge_trans' this hc'] at hd
              cases hd
            · rw [List.mem_singleton] at htm
              rw [htm] at hte
              simp only at hte
              rw [hte, ge_refl m1] at hd
              cases hd
        refine ⟨?_, fun _ => key⟩
        rcases ge_total hn (ge_nan_left h3).2 with g | g
        · exact g
        · rw [key] at g; cases g

theorem freshStab_spec {test : ℝ → Py (Fl ℝ × Fl ℝ)} {stop : Bool} :
    ∀ (l : List ℝ) (acc r : Stab), freshStab test stop acc l = .ok r →
      (∃ new, r.tested = acc.tested ++ new ∧ new.length ≤ l.length ∧
        (∀ (j : ℕ) (t : ℝ × Fl ℝ × Fl ℝ), new[j]? = some t → l[j]? = some t.1 ∧ test t.1 = .ok t.2) ∧
        (new.length < l.length → stop = true ∧ ∃ t, new.getLast? = some t ∧ Fl.ge (.fin 1) t.2.2 = true) ∧
        (stop = true → ∀ (j : ℕ) (t : ℝ × Fl ℝ × Fl ℝ), j + 1 < new.length → new[j]? = some t →
          Fl.ge (.fin 1) t.2.2 = false)) ∧
      ((∀ t, r.tested.head? = some t → t.2.2 ≠ .nan) → BestOf acc.tested acc.best → BestOf r.tested r.best) ∧
      ((∃ t, r.tested.head? = some t ∧ t.2.2 = .nan) → acc.best = none → r.best = none) := by
  intro l
  induction l with
  | nil =>
    intro acc r h
    cases h
    exact ⟨⟨[], by simp, by simp, by simp, by simp, by simp⟩, fun _ h => h, fun _ h => h⟩
  | cons mc l ih =>
    intro acc r h
    unfold freshStab at h
    cases ht : test mc with
    | error e => rw [ht] at h; cases h
    | ok bd =>
      obtain ⟨b, d⟩ := bd
      rw [ht] at h; simp only at h
      have hnan : ∀ (rest : List (ℝ × Fl ℝ × Fl ℝ)), (∃ t, (acc.tested ++ [(mc, b, d)] ++ rest).head? = some t ∧ t.2.2 = .nan) →
          acc.best = none → (acc.record mc b d).best = none := by
        intro rest htn hb
        have he : (acc.record mc b d).best = if Fl.ge (.fin 1) d && Fl.eq d (Fl.pyMin ((acc.tested ++ [(mc, b, d)]).map fun t => t.2.2)) then
          some (mc, b) else acc.best := rfl
        have : Fl.pyMin ((acc.tested ++ [(mc, b, d)]).map fun t => t.2.2) = .nan := by
          obtain ⟨t, h1, h2⟩ := htn
          obtain ⟨t', l', htl⟩ := List.exists_cons_of_ne_nil (l := acc.tested ++ [(mc, b, d)]) (by simp)
          rw [htl] at h1 ⊢
          rw [List.cons_append, List.head?_cons] at h1
          cases h1
          rw [List.map_cons, h2]
          exact pyMin_nan _
        rw [he, this]
        have : Fl.eq d .nan = false := by cases d <;> rfl
        rw [this, Bool.and_false]
        simp only [Bool.false_eq_true, if_false]
        exact hb
      by_cases hp : (Fl.ge (.fin 1) d && stop) = true
      · rw [if_pos hp] at h
        cases h
        rw [Bool.and_eq_true] at hp
        refine ⟨⟨[(mc, b, d)], rfl, by simp, ?_, fun _ => ⟨hp.2, _, rfl, hp.1⟩, ?_⟩, ?_, ?_⟩
        · intro j t hj
          cases j with
          | zero => simp at hj; subst hj; exact ⟨rfl, ht⟩
          | succ j => simp at hj
        · intro _ j t hj; simp at hj
        · intro hf hB; exact record_bestOf hB hf
        · intro hf hB
          exact hnan [] (by rw [List.append_nil]; exact hf) hB
      · rw [if_neg hp] at h
        obtain ⟨⟨new, e1, e2, e3, e4, e5⟩, e6, e7⟩ := ih _ r h
        have e1' : r.tested = acc.tested ++ ((mc, b, d) :: new) := by
          rw [e1]
          show acc.tested ++ [(mc, b, d)] ++ new = _
          simp
        refine ⟨⟨(mc, b, d) :: new, e1', by simpa using e2, ?_, ?_, ?_⟩, ?_, ?_⟩
        · intro j t hj
          cases j with
          | zero => simp at hj; subst hj; exact ⟨rfl, ht⟩
          | succ j =>
            rw [List.getElem?_cons_succ] at hj ⊢
            exact e3 j t hj
        · intro hlt
          obtain ⟨g1, t, g2, g3⟩ := e4 (by simpa using hlt)
          refine ⟨g1, t, ?_, g3⟩
          cases new with
          | nil => cases g2
          | cons x new => rw [List.getLast?_cons_cons]; exact g2
        · intro hs j t hj hjt
          cases j with
          | zero =>
            simp at hjt; subst hjt
            rw [hs, Bool.and_true] at hp
            simpa using hp
          | succ j =>
            rw [List.getElem?_cons_succ] at hjt
            exact e5 hs j t (by simpa using hj) hjt
        · intro hf hB
          apply e6 hf
          apply record_bestOf hB
          intro t htt
          apply hf t
          rw [e1]
          have hne : (acc.record mc b d).tested ≠ [] := by
            show acc.tested ++ [(mc, b, d)] ≠ []
            simp
          obtain ⟨x, y, hxy⟩ := List.exists_cons_of_ne_nil hne
          rw [hxy] at htt ⊢
          exact htt
        · intro hf hB
          apply e7 hf
          refine hnan new ?_ hB
          have : acc.tested ++ [(mc, b, d)] ++ new = r.tested := by rw [e1']; simp
          rw [this]; exact hf

theorem stab_not_ninf {c : BValue.Cls} {warn : Bool} {mags : List ℝ} {δ range mc : ℝ} {b d : Fl ℝ}
    (h : IsStabTest c ω warn mags δ range mc b d) : d ≠ .ninf := by
  obtain ⟨sd, win, bs, n, -, -, -, -, -, -, rfl⟩ := h
  generalize Fl.sub ((Fl.sum bs).overNat n) b = x
  cases x <;> cases sd <;> simp [Fl.abs, Fl.quot, Fl.div]
  split_ifs <;> simp_all

theorem ge_one_iff {d : Fl ℝ} (h : d ≠ .ninf) : Fl.ge (.fin 1) d = true ↔ Stable d := by
  unfold Stable
  cases d <;> simp_all [Fl.ge]

theorem mcStability_ok {warn stop : Bool} {c : BValue.Cls} {mags : List ℝ} {δ range : ℝ} {mcs : Option (List ℝ)}
    {r : StabResult} (h : mcStability warn stop c ω mags δ range mcs = .ok r) :
    ∃ l R, stabMcs mags δ range mcs = .ok l ∧ mags ≠ [] ∧
      freshStab (stabAt c ω warn mags δ range) stop {} l = .ok R ∧
      r.tested = R.tested ∧ r.best = stabBest δ (R.best.map Prod.fst) ∧ r.bestB = R.best.map Prod.snd := by
  unfold mcStability at h
  split at h
  · cases h
  · simp only [bind, Except.bind, pure, Except.pure] at h
    cases h1 : stabMcs mags δ range mcs with
    | error e => rw [h1] at h; cases h
    | ok l =>
      rw [h1] at h; simp only at h
      cases h2 : stabChecks warn mags δ l with
      | error e => rw [h2] at h; cases h
      | ok u =>
        rw [h2] at h; simp only at h
        rw [stabLoop_fresh c warn mags δ range stop l _ .init] at h
        cases h3 : freshStab (stabAt c ω warn mags δ range) stop {} l with
        | error e => rw [h3] at h; cases h
        | ok R =>
          rw [h3] at h
          simp only at h
          split at h
          · cases h
          · cases h
            refine ⟨l, R, rfl, ?_, h3, rfl, rfl, rfl⟩
            rintro rfl
            unfold stabMcs at h1
            cases mcs <;> simp [amin?, amax?] at h1

/-! ## C38 -/

/-- C38: the record: entry `i` is the test of the `i`-th candidate with fresh estimators; all
candidates are tested, except that with `stop_when_passed` the search ends at the first stable one. -/
theorem C38_tested {warn stop : Bool} {c : BValue.Cls} {mags : List ℝ} {δ range : ℝ} {mcs : Option (List ℝ)}
    {r : StabResult} (hδ : 0 < δ) (h : mcStability warn stop c ω mags δ range mcs = .ok r) :
    ∃ l : List ℝ, stabMcs mags δ range mcs = .ok l ∧ r.tested.length ≤ l.length ∧
      (∀ (i : ℕ) (mc : ℝ) (b d : Fl ℝ), r.tested[i]? = some (mc, b, d) → l[i]? = some mc ∧ IsStabTest c ω warn mags δ range mc b d) ∧
      (stop = false → r.tested.length = l.length) ∧
      (stop = true → (∀ (i : ℕ) (mc : ℝ) (b d : Fl ℝ), i + 1 < r.tested.length → r.tested[i]? = some (mc, b, d) → ¬ Stable d) ∧
        (r.tested.length < l.length → ∃ mc b d, r.tested.getLast? = some (mc, b, d) ∧ Stable d)) := by
  obtain ⟨l, R, h1, hne, h2, h3, -, -⟩ := mcStability_ok h
  obtain ⟨⟨new, e1, e2, e3, e4, e5⟩, -, -⟩ := freshStab_spec l {} R h2
  have hR : r.tested = new := by rw [h3, e1]; rfl
  rw [hR]
  have ht : ∀ (i : ℕ) (mc : ℝ) (b d : Fl ℝ), new[i]? = some (mc, b, d) → l[i]? = some mc ∧ IsStabTest c ω warn mags δ range mc b d := by
    intro i mc b d hi
    obtain ⟨g1, g2⟩ := e3 i _ hi
    exact ⟨g1, stabAt_isStabTest hδ hne g2⟩
  refine ⟨l, h1, e2, ht, ?_, ?_⟩
  · intro hs
    by_contra hne
    have := (e4 (by omega)).1
    rw [hs] at this; cases this
  · intro hs
    refine ⟨?_, ?_⟩
    · intro i mc b d hi hit hst
      have := e5 hs i _ hi hit
      rw [(ge_one_iff (stab_not_ninf (ht i mc b d hit).2)).2 hst] at this
      cases this
    · intro hlt
      obtain ⟨-, ⟨mc, b, d⟩, g1, g2⟩ := e4 hlt
      refine ⟨mc, b, d, g1, ?_⟩
      rw [List.getLast?_eq_getElem?] at g1
      exact (ge_one_iff (stab_not_ninf (ht _ mc b d g1).2)).1 g2

theorem stabBest_reported {δ : ℝ} (hδ : 0 < δ) (m : ℝ) : Reported δ m (stabBest δ (some m)) := by
  unfold Reported stabBest
  simp only
  constructor
  · intro h; rw [if_pos h]
  · intro h
    rw [if_neg h]
    exact ⟨_, rfl, ⟨_, rfl⟩, by have := binTo_le hδ m; unfold eps at this; linarith, by
      have := lt_binTo hδ m; unfold eps at this; linarith⟩

/-- C38: if the first difference is a number, the result is the most stable mc (the last one in the
tested order if several are equally stable) with its b-value; None if no tested mc is stable. -/
theorem C38_most_stable {warn stop : Bool} {c : BValue.Cls} {mags : List ℝ} {δ range : ℝ} {mcs : Option (List ℝ)}
    {r : StabResult} (hδ : 0 < δ) (h : mcStability warn stop c ω mags δ range mcs = .ok r)
    (hf : ∀ mc b d, r.tested[0]? = some (mc, b, d) → d ≠ .nan) :
    (r.best = none ∧ r.bestB = none ∧ ∀ t ∈ r.tested, ¬ Stable t.2.2) ∨
    ∃ (i : ℕ) (mc : ℝ) (b : Fl ℝ) (x : ℝ), r.tested[i]? = some (mc, b, Fl.fin x) ∧ x ≤ 1 ∧ r.bestB = some b ∧ Reported δ mc r.best ∧
      ∀ (j : ℕ) (mc' : ℝ) (b' : Fl ℝ) (y : ℝ), r.tested[j]? = some (mc', b', Fl.fin y) → x ≤ y ∧ (i < j → x < y) := by
  obtain ⟨l, R, h1, hne, h2, h3, h4, h5⟩ := mcStability_ok h
  obtain ⟨l', h1', e1, e2, -⟩ := C38_tested hδ h
  obtain ⟨-, hB, -⟩ := freshStab_spec l {} R h2
  have hf' : ∀ t, R.tested.head? = some t → t.2.2 ≠ .nan := by
    rintro ⟨mc, b, d⟩ ht
    rw [← h3, List.head?_eq_getElem?] at ht
    exact hf mc b d ht
  have hB' := hB hf' (Or.inl ⟨rfl, by intro t ht; cases ht⟩)
  rw [← h3] at hB'
  rcases hB' with ⟨g1, g2⟩ | ⟨i, mc, b, d, g1, g2, g3, g4⟩
  · refine Or.inl ⟨by rw [h4, g1]; rfl, by rw [h5, g1]; rfl, ?_⟩
    rintro ⟨mc, b, d⟩ ht hst
    obtain ⟨i, hi⟩ := List.mem_iff_getElem?.1 ht
    have := g2 _ ht
    rw [(ge_one_iff (stab_not_ninf (e2 i mc b d hi).2)).2 hst] at this
    cases this
  · obtain ⟨x, rfl, hx⟩ := (ge_one_iff (stab_not_ninf (e2 i mc b d g1).2)).1 g3
    refine Or.inr ⟨i, mc, b, x, g1, hx, by rw [h5, g2]; rfl, ?_, ?_⟩
    · rw [h4, g2]
      exact stabBest_reported hδ mc
    · intro j mc' b' y hj
      obtain ⟨k1, k2⟩ := g4 j _ hj (by simp)
      simp only [Fl.ge] at k1 k2
      refine ⟨by simpa using k1, fun hij => ?_⟩
      have := k2 hij
      simpa using this

/-- C38: with `stop_when_passed` the result is the first stable candidate in the tested order. -/
theorem C38_first_stable {warn : Bool} {c : BValue.Cls} {mags : List ℝ} {δ range : ℝ} {mcs : Option (List ℝ)}
    {r : StabResult} (hδ : 0 < δ) (h : mcStability warn true c ω mags δ range mcs = .ok r)
    (hf : ∀ mc b d, r.tested[0]? = some (mc, b, d) → d ≠ .nan) (hst : ∃ t ∈ r.tested, Stable t.2.2) :
    ∃ (l : List ℝ) (i : ℕ) (mc : ℝ) (b d : Fl ℝ), stabMcs mags δ range mcs = .ok l ∧ l[i]? = some mc ∧ r.tested[i]? = some (mc, b, d) ∧ Stable d ∧
      r.bestB = some b ∧ Reported δ mc r.best ∧
      ∀ j < i, ∃ (mc' : ℝ) (b' d' : Fl ℝ), r.tested[j]? = some (mc', b', d') ∧ ¬ Stable d' := by
  obtain ⟨l, h1, e1, e2, -, e4⟩ := C38_tested hδ h
  obtain ⟨k1, k2⟩ := e4 rfl
  rcases C38_most_stable hδ h hf with ⟨-, -, hno⟩ | ⟨i, mc, b, x, g1, g2, g3, g4, -⟩
  · obtain ⟨t, ht, hs⟩ := hst
    exact absurd hs (hno t ht)
  · refine ⟨l, i, mc, b, .fin x, h1, (e2 i mc b _ g1).1, g1, ⟨x, rfl, g2⟩, g3, g4, ?_⟩
    intro j hj
    have hi : i < r.tested.length := (List.getElem?_eq_some_iff.1 g1).1
    have hj' : j < r.tested.length := by omega
    obtain ⟨⟨mc', b', d'⟩, htj⟩ : ∃ t, r.tested[j]? = some t := ⟨_, List.getElem?_eq_getElem hj'⟩
    exact ⟨mc', b', d', htj, k1 j mc' b' d' (by omega) htj⟩

/-- A finding about C38: if the difference of the first tested mc is NaN (for instance because only one
event is left there), the result is None whatever the other mcs give. -/
theorem C38_nan_first {warn stop : Bool} {c : BValue.Cls} {mags : List ℝ} {δ range : ℝ} {mcs : Option (List ℝ)}
    {r : StabResult} {mc : ℝ} {b : Fl ℝ} (h : mcStability warn stop c ω mags δ range mcs = .ok r)
    (hf : r.tested[0]? = some (mc, b, .nan)) : r.best = none ∧ r.bestB = none := by
  obtain ⟨l, R, h1, hne, h2, h3, h4, h5⟩ := mcStability_ok h
  obtain ⟨-, -, hN⟩ := freshStab_spec l {} R h2
  have : R.best = none := hN ⟨(mc, b, .nan), by rw [← h3, List.head?_eq_getElem?]; exact hf, rfl⟩ rfl
  rw [h4, h5, this]
  exact ⟨rfl, rfl⟩

/-- C38: the difference, when everything is finite: `|average - b| / std`. -/
theorem C38_difference {bs : List ℝ} {n : ℕ} {b sd : ℝ} (hn : 0 < n) (hs : 0 < sd) :
    Fl.quot (Fl.abs (Fl.sub ((Fl.sum (bs.map .fin)).overNat n) (.fin b))) (.fin sd) = .fin (|bs.sum / n - b| / sd) := by
  have hn' : (n : ℝ) ≠ 0 := by exact_mod_cast hn.ne'
  unfold Fl.sum
  rw [foldl_add_fin, zero_add]
  simp only [Fl.overNat, Fl.div, if_neg hn', Fl.sub, Fl.neg, Fl.add, Fl.abs, Fl.quot, if_neg hs.ne', sub_eq_add_neg]

/-- C38: the candidates given by the caller: those for which the whole stability range lies below the
largest magnitude, in the order given. -/
theorem C38_candidates {mags l l' : List ℝ} {δ range : ℝ} (h : stabMcs mags δ range (some l) = .ok l') :
    l'.Sublist l ∧ l' ≠ [] ∧ ∀ mc, mc ∈ l' ↔ mc ∈ l ∧ ∃ m ∈ mags, mc + range ≤ m := by
  unfold stabMcs at h
  simp only at h
  cases hm : amax? mags with
  | none => rw [hm] at h; cases h
  | some hi =>
    rw [hm] at h
    simp only at h
    split at h
    · cases h
    · rename_i hl
      cases h
      obtain ⟨g1, g2⟩ := (amax?_eq_some_iff _ _).1 hm
      refine ⟨List.filter_sublist, by intro h0; rw [h0] at hl; simp at hl, ?_⟩
      intro mc
      rw [List.mem_filter, decide_eq_true_eq]
      constructor
      · rintro ⟨k1, k2⟩; exact ⟨k1, hi, g1, k2⟩
      · rintro ⟨k1, m, hm, k2⟩; exact ⟨k1, k2.trans (g2 hm)⟩

/-- C38: the default candidates, for a stability range of more than one bin: the binned magnitudes
from the minimum on, without the last `steps - 1` ones. -/
theorem C38_default_candidates {mags l : List ℝ} {δ range lo hi : ℝ} (hδ : 1 / 10 ^ 12 ≤ δ) (hr : δ < range)
    (hlo : IsLeast {m | m ∈ mags} lo) (hhi : IsGreatest {m | m ∈ mags} hi)
    (h : stabMcs mags δ range none = .ok l) :
    ∃ c, Spec.RoundsTo (1 / 10 ^ 12) δ lo c ∧ ∀ k : ℕ, l[k]? =
      if k + ⌈range / δ⌉.toNat < ⌈(hi - lo) / δ⌉.toNat + 1 then some (c + k * δ) else none := by
  have hp : 0 < δ := lt_of_lt_of_le (by positivity) hδ
  refine ⟨binTo δ lo, (⟨⟨_, rfl⟩, by have := binTo_le hp lo; unfold eps at this; linarith, by
    have := lt_binTo hp lo; unfold eps at this; linarith⟩), ?_⟩
  unfold stabMcs at h
  simp only [(amin?_eq_some_iff _ _).2 hlo, (amax?_eq_some_iff _ _).2 hhi] at h
  unfold binArr at h
  rw [if_neg (not_lt.2 (by unfold eps; exact hδ))] at h
  simp only [bind, Except.bind, pure, Except.pure] at h
  have hmap : (arange lo hi δ).map (binTo δ) = (List.range ⌈(hi - lo) / δ⌉.toNat).map
      fun (i : ℕ) => binTo δ lo + i * δ := by
    unfold arange
    rw [List.map_map]
    apply List.map_congr_left
    intro i _
    have := binTo_add_int_mul hp.ne' lo (i : ℤ)
    push_cast at this
    exact this
  rw [hmap] at h
  have hst : stabSteps range δ = ⌈range / δ⌉.toNat := by unfold stabSteps arange; simp
  have hs2 : 2 ≤ ⌈range / δ⌉.toNat := by
    have : (1 : ℤ) < ⌈range / δ⌉ := by
      rw [Int.lt_ceil, lt_div_iff₀ hp]; push_cast; linarith
    omega
  split at h
  · cases h
  · rename_i hlen
    cases h
    rw [List.length_map, List.length_range] at hlen
    rw [hst] at hlen ⊢
    intro k
    unfold sliceTo
    rw [if_neg (by omega), List.length_map, List.length_range, List.getElem?_take]
    by_cases hk : k + ⌈range / δ⌉.toNat < ⌈(hi - lo) / δ⌉.toNat + 1
    · rw [if_pos (by omega), if_pos hk, List.getElem?_map, List.getElem?_range (by omega)]
      rfl
    · rw [if_neg (by omega), if_neg hk]

/-- A finding about C38: with a stability range of at most one bin the default list of candidates is
empty: the call raises with warnings on and returns None with warnings off, whatever the
(correctly binned) magnitudes. -/
theorem C38_one_step {stop : Bool} {c : BValue.Cls} {mags : List ℝ} {δ range : ℝ} (hδ : 1 / 10 ^ 12 ≤ δ)
    (h0 : 0 < range) (hr : range ≤ δ) (hs : ∃ m ∈ mags, ∃ m' ∈ mags, δ < m' - m)
    (hb : binningTest (mags.map some) δ (1 / 10 ^ 15) false = .ok true) :
    mcStability true stop c ω mags δ range none = .error .valueError ∧
    mcStability false stop c ω mags δ range none = .ok ⟨none, none, []⟩ := by
  have hp : 0 < δ := lt_of_lt_of_le (by positivity) hδ
  obtain ⟨m, hm, m', hm', hd⟩ := hs
  have hne : mags ≠ [] := List.ne_nil_of_mem hm
  obtain ⟨lo, hlo⟩ := exists_amin hne
  obtain ⟨hi, hhi⟩ := exists_amax hne
  have g1 := ((amin?_eq_some_iff _ _).1 hlo).2 hm
  have g2 := ((amax?_eq_some_iff _ _).1 hhi).2 hm'
  have hst : stabSteps range δ = 1 := by
    unfold stabSteps arange
    rw [List.length_map, List.length_range, sub_zero]
    have : ⌈range / δ⌉ = 1 := by
      rw [Int.ceil_eq_iff]
      constructor
      · push_cast; rw [sub_self]; positivity
      · push_cast; rw [div_le_one hp]; exact hr
    rw [this]; rfl
  have hl : stabMcs mags δ range none = .ok [] := by
    unfold stabMcs
    simp only [hlo, hhi]
    unfold binArr
    rw [if_neg (not_lt.2 (by unfold eps; exact hδ)), hst]
    simp only [bind, Except.bind, pure, Except.pure]
    have : ¬ ((arange lo hi δ).map (binTo δ)).length ≤ 1 := by
      unfold arange
      rw [List.length_map, List.length_map, List.length_range]
      have : (1 : ℤ) < ⌈(hi - lo) / δ⌉ := by
        rw [Int.lt_ceil, lt_div_iff₀ hp]; push_cast; linarith
      omega
    rw [if_neg this]
    simp [sliceTo]
  have hemp : binningTest (([] : List ℝ).map some) δ (defaultTol ℝ) false = .error .valueError := by
    unfold binningTest; simp
  have hb' : binningTest (mags.map some) δ (defaultTol ℝ) false = .ok true := hb
  constructor
  · unfold mcStability stabChecks
    rw [if_neg hp.ne']
    simp only [bind, Except.bind, hl, hb', hemp, pure, Except.pure, if_true, Bool.not_true, Bool.false_eq_true, if_false]
  · unfold mcStability stabChecks
    rw [if_neg hp.ne']
    simp [bind, Except.bind, hl, hb', pure, Except.pure, stabLoop, stabBest]

/-! ### The call returns -/

theorem binningTest_number {x : List (Option ℝ)} {δ : ℝ} {m : ℝ} (hδ : 1 / 10 ^ 12 ≤ δ) (h : some m ∈ x) :
    ∃ v, binningTest x δ (defaultTol ℝ) false = .ok v := by
  unfold binningTest
  rw [if_neg (by intro h0; rw [List.length_eq_zero_iff.1 h0] at h; cases h)]
  unfold shiftToMin
  have hm : m ∈ x.filterMap id := List.mem_filterMap.2 ⟨some m, h, rfl⟩
  obtain ⟨a, r, ha⟩ := List.exists_cons_of_ne_nil (List.ne_nil_of_mem hm)
  rw [ha]
  simp only [amin?, bind, Except.bind, Bool.and_false, Bool.false_eq_true, if_false]
  unfold binningTestCore
  split
  · exact ⟨_, rfl⟩
  · unfold binArr
    rw [if_neg (not_lt.2 (by unfold eps; exact hδ))]
    simp only [bind, Except.bind, Bool.and_false, Bool.false_eq_true, if_false, pure, Except.pure]
    exact ⟨_, rfl⟩

theorem calc_returns {warn : Bool} {c : BValue.Cls} (hc : c = .classic ∨ c = .utsu) {mags : List ℝ} {δ : ℝ}
    (hδ : 1 / 10 ^ 12 ≤ δ) (hg : ∃ o, ∀ m ∈ mags, ∃ k : ℤ, m = o + k * δ) (mc : ℝ) :
    ∃ b sd, (calculate c warn State.init (callAt mags mc δ)).2 = .ok b ∧
      stdOf c ω (calculate c warn State.init (callAt mags mc δ)).1 = .ok sd := by
  have hacc : Accepted (callAt mags mc δ) := by
    refine ⟨?_, fun w hw => by cases hw⟩
    by_cases hne : (callAt mags mc δ).mags = []
    · exact Or.inl hne
    · right
      obtain ⟨o, hg⟩ := hg
      choose! f hf using hg
      set l := mags.filter fun m => decide (mc - δ / 2 ≤ m) with hl
      have hm : (callAt mags mc δ).mags = (l.map fun m => some (f m)).map (Option.map fun (k : ℤ) => o + (k : ℝ) * δ) := by
        show l.map some = _
        rw [List.map_map]
        apply List.map_congr_left
        intro m hm
        simp only [Function.comp, Option.map_some]
        rw [← hf m (List.mem_of_mem_filter hm)]
      rw [hm]
      apply C08_grid_accepted _ _ _ _ hδ (by positivity)
      obtain ⟨m, hm⟩ := List.exists_mem_of_ne_nil l (by
        intro h0; apply hne; show l.map some = []; rw [h0]; rfl)
      exact ⟨f m, List.mem_map.2 ⟨m, hm, rfl⟩⟩
  have e := BValue.calculate_classic_valid hc warn State.init _ ((accepted_iff _).1 hacc) rfl
  have hstd : ∀ (b : Fl ℝ) (l : List ℝ), ∃ sd, BValue.shiBolt l b none false = .ok sd := by
    intro b l
    unfold BValue.shiBolt average
    by_cases h0 : l = []
    · simp [h0, bind, Except.bind, pure, Except.pure]
    · simp [h0, bind, Except.bind, pure, Except.pure]
  have hb : ∃ b, BValue.resultOf c (callAt mags mc δ) = .ok b := by
    by_cases h0 : BValue.used (callAt mags mc δ) = []
    · unfold BValue.resultOf; rw [if_pos h0]; exact ⟨_, rfl⟩
    · have ht : 0 < Spec.total (BValue.used (callAt mags mc δ)) := by
        have h1 : ∀ q ∈ BValue.used (callAt mags mc δ), q.2 = 1 := BValue.selected_ones _ _
        unfold Spec.total
        rw [List.map_congr_left h1]
        have := List.length_pos_iff.2 h0
        simp
        exact this
      exact ⟨_, result_of_total ht⟩
  obtain ⟨b, hb⟩ := hb
  rw [e, hb]
  obtain ⟨sd, hsd⟩ := hstd b (BValue.nums (BValue.usedState { State.init with warned := [] } warn (callAt mags mc δ) none).mags)
  refine ⟨b, sd, rfl, ?_⟩
  rcases hc with rfl | rfl <;> exact hsd

/-- C38: on binned magnitudes the call returns whenever there is a candidate (and without warnings also if there is none). -/
theorem C38_returns {warn stop : Bool} {c : BValue.Cls} (hc : c = .classic ∨ c = .utsu) {mags l : List ℝ} {δ range : ℝ}
    {mcs : Option (List ℝ)} (hδ : 1 / 10 ^ 12 ≤ δ) (hg : ∃ o, ∀ m ∈ mags, ∃ k : ℤ, m = o + k * δ)
    (hl : stabMcs mags δ range mcs = .ok l) (hw : warn = true → l ≠ []) :
    ∃ r, mcStability warn stop c ω mags δ range mcs = .ok r := by
  have hp : 0 < δ := lt_of_lt_of_le (by positivity) hδ
  have hne : mags ≠ [] := by
    rintro rfl
    unfold stabMcs at hl
    cases mcs <;> simp [amin?, amax?] at hl
  have hone : ∀ mc, ∃ t, stabAt c ω warn mags δ range mc = .ok t := by
    intro mc
    unfold stabAt stabOne
    have hca : argsAt mags mc δ = callAt mags mc δ := rfl
    rw [hca]
    obtain ⟨b, sd, h1, h2⟩ := calc_returns (ω := ω) hc hδ hg mc
    have hR : Reachable c (calculate c warn State.init (callAt mags mc δ)).1 := .call warn _ .init
    cases hk : calculate c warn State.init (callAt mags mc δ) with
    | mk s' r' =>
      rw [hk] at h1 h2 hR
      simp only at h1 h2 hR
      subst h1
      simp only [h2]
      obtain ⟨-, h3⟩ := windowBs_fresh c warn mags δ (window mags δ range mc) s' hR
      have h4 : ∃ bs, (window mags δ range mc).mapM (fun x => (calculate c warn State.init (callAt mags x δ)).2) = .ok bs := by
        generalize window mags δ range mc = w
        induction w with
        | nil => exact ⟨[], rfl⟩
        | cons x w ih =>
          obtain ⟨bs, ih⟩ := ih
          obtain ⟨b', -, h5, -⟩ := calc_returns (ω := ω) hc hδ hg x
          rw [List.mapM_cons, h5, ih]
          exact ⟨_, rfl⟩
      obtain ⟨bs, h4⟩ := h4
      rw [h4] at h3
      cases hw : windowBs c warn mags δ s' (window mags δ range mc) with
      | mk s'' r'' =>
        rw [hw] at h3
        simp only at h3
        subst h3
        exact ⟨_, rfl⟩
  have hloop : ∀ (l : List ℝ) (acc : Stab), ∃ R, freshStab (stabAt c ω warn mags δ range) stop acc l = .ok R := by
    intro l
    induction l with
    | nil => intro acc; exact ⟨acc, rfl⟩
    | cons mc l ih =>
      intro acc
      obtain ⟨⟨b, d⟩, ht⟩ := hone mc
      unfold freshStab
      rw [ht]
      simp only
      split
      · exact ⟨_, rfl⟩
      · exact ih _
  have hbin : binningTest (mags.map some) δ (defaultTol ℝ) false = .ok true := by
    obtain ⟨o, hg⟩ := hg
    choose! f hf using hg
    have hm : mags.map some = (mags.map fun m => some (f m)).map (Option.map fun (k : ℤ) => o + (k : ℝ) * δ) := by
      rw [List.map_map]
      apply List.map_congr_left
      intro m hm
      simp only [Function.comp, Option.map_some]
      rw [← hf m hm]
    rw [hm]
    apply C08_grid_accepted _ _ _ _ hδ (by unfold defaultTol; positivity)
    obtain ⟨m, hm⟩ := List.exists_mem_of_ne_nil mags hne
    exact ⟨f m, List.mem_map.2 ⟨m, hm, rfl⟩⟩
  obtain ⟨R, hR⟩ := hloop l {}
  have hchk : stabChecks warn mags δ l = .ok () := by
    unfold stabChecks
    simp only [bind, Except.bind, hbin, pure, Except.pure, Bool.not_true, Bool.false_eq_true, if_false]
    cases warn with
    | false => rfl
    | true =>
      obtain ⟨x, hx⟩ := List.exists_mem_of_ne_nil l (hw rfl)
      obtain ⟨v, hv⟩ := binningTest_number (x := l.map some) (δ := δ) hδ (List.mem_map.2 ⟨x, hx, rfl⟩)
      simp only [if_true, hv]
  unfold mcStability
  rw [if_neg hp.ne']
  simp only [bind, Except.bind, hl, hchk, pure, Except.pure]
  rw [stabLoop_fresh c warn mags δ range stop l _ .init, hR]
  simp only
  rw [if_neg (by
    have : ¬ (δ < eps ℝ) := not_lt.2 (by unfold eps; exact hδ)
    simp [this])]
  exact ⟨_, rfl⟩

/-- The hypotheses are met: three magnitudes, one candidate. -/
example : ∃ r, mcStability true true .classic ω [1, 2, 3] 1 2 (some [1]) = .ok r ∧ r.tested.length = 1 := by
  have hl : stabMcs [1, 2, 3] 1 2 (some [1]) = .ok [(1 : ℝ)] := by
    have hm : amax? [(1 : ℝ), 2, 3] = some 3 := by
      rw [amax?_eq_some_iff]
      refine ⟨by simp, ?_⟩
      intro v hv
      simp at hv
      rcases hv with rfl | rfl | rfl <;> norm_num
    unfold stabMcs
    simp only [hm]
    norm_num [List.filter]
  obtain ⟨r, hr⟩ := C38_returns (warn := true) (c := .classic) (stop := true) (Or.inl rfl) (mags := [1, 2, 3]) (δ := 1) (range := 2)
    (mcs := some [1]) (by norm_num) ⟨0, by
      intro m hm
      simp at hm
      rcases hm with rfl | rfl | rfl
      · exact ⟨1, by norm_num⟩
      · exact ⟨2, by norm_num⟩
      · exact ⟨3, by norm_num⟩⟩ hl (by simp)
  refine ⟨r, hr, ?_⟩
  obtain ⟨l, h1, h2, -, -, h3⟩ := C38_tested one_pos hr
  rw [hl] at h1
  cases h1
  obtain ⟨-, h3⟩ := h3 rfl
  rcases Nat.lt_or_ge r.tested.length 1 with h | h
  · obtain ⟨mc, b, d, h4, -⟩ := h3 (by simpa using h)
    have : r.tested = [] := List.length_eq_zero_iff.1 (by omega)
    rw [this] at h4; cases h4
  · simp at h2; omega

end
end SeismoStats.Props
