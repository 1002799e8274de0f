/-
C132: missing magnitudes in the test for a variation of the b-value.
-/
import Verif.Props.BSignificant

namespace SeismoStats
namespace Props
open BSignificant
open Classical

/-- An event with its magnitude (`none` if missing), its time and a number of its own: its completeness magnitude or its place along the dimension of interest. -/
abbrev PlacedEvent := Option ℝ × ℝ × ℝ

/-- The events with a magnitude. -/
def withMagnitude (l : List PlacedEvent) : List PlacedEvent := l.filter fun e => e.1.isSome

private noncomputable def kept (δ : ℝ) (c : PlacedEvent → ℝ) (e : PlacedEvent) : Bool := match e.1 with
  | some m => decide (c e - δ / 2 ≤ m)
  | none => false

private theorem mask_kept {α : Type} (l : List PlacedEvent) (g : PlacedEvent → α) (c : PlacedEvent → ℝ) (δ : ℝ) :
    mask (l.map g) (keep (l.map (·.1)) (l.map c) δ) = (l.filter (kept δ c)).map g := by
  induction l with
  | nil => rfl
  | cons e l ih =>
    have h1 : keep ((e :: l).map (·.1)) ((e :: l).map c) δ = kept δ c e :: keep (l.map (·.1)) (l.map c) δ := rfl
    rw [h1]
    unfold mask at ih ⊢
    rw [List.map_cons, List.zip_cons_cons]
    by_cases h : kept δ c e = true
    · rw [List.filter_cons_of_pos h, List.map_cons, ← ih, List.filterMap_cons_some]
      rw [if_pos h]
    · rw [List.filter_cons_of_neg h, ← ih, List.filterMap_cons_none]
      rw [if_neg h]

private theorem kept_withMagnitude (l : List PlacedEvent) (c : PlacedEvent → ℝ) (δ : ℝ) : (withMagnitude l).filter (kept δ c) = l.filter (kept δ c) := by
  unfold withMagnitude
  rw [List.filter_filter]
  refine List.filter_congr fun e _ => ?_
  obtain ⟨m, t, x⟩ := e
  cases m with
  | none => rfl
  | some m => exact Bool.and_true _

private theorem ordered_eq (Φ : ℝ → ℝ) (warn : Bool) (a : BSignificant.Args) (l : List PlacedEvent) (c : PlacedEvent → ℝ) (mc : Mc)
    (hmc : mc.perEvent l.length = l.map c) :
    bSignificant Φ warn { a with mags := l.map (·.1), times := l.map (·.2.1), mc := mc, x := none } =
      if a.nm < a.minNum then .error .valueError
      else if a.nm = 0 then .error .zeroDivision
      else if (l.filter (kept a.δ c)).length < 3 * a.nm then .ok ⟨.nan, .nan, .nan, .nan⟩
      else significant Φ warn { a with mags := [], times := [], mc := .one 0, x := none } ((l.filter (kept a.δ c)).map (·.1)) ((l.filter (kept a.δ c)).map (·.2.1)) ((l.filter (kept a.δ c)).map c) := by
  unfold bSignificant
  dsimp only
  rw [if_neg (by rw [List.length_map, List.length_map]; exact fun h => h rfl)]
  by_cases h1 : a.nm < a.minNum
  · rw [if_pos h1, if_pos h1]
  · rw [if_neg h1, if_neg h1]
    simp only [orderBy, bind, Except.bind, List.length_map, hmc, ne_eq, not_true_eq_false, if_false]
    by_cases h2 : a.nm = 0
    · rw [if_pos h2, if_pos h2]; rfl
    · rw [if_neg h2, if_neg h2]
      simp only [pure, Except.pure, mask_kept, List.length_map]
      by_cases h3 : (l.filter (kept a.δ c)).length < 3 * a.nm
      · rw [if_pos h3, if_pos h3]
      · rw [if_neg h3, if_neg h3]
        rfl

/-- C132: with one completeness magnitude per event and the events in the given order, `b_significant_1D` returns, errors included, what it returns for the events
with a magnitude alone. -/
theorem C132_per_event (Φ : ℝ → ℝ) (warn : Bool) (a : BSignificant.Args) (l : List PlacedEvent) :
    bSignificant Φ warn { a with mags := l.map (·.1), times := l.map (·.2.1), mc := .many (l.map (·.2.2)), x := none } =
      bSignificant Φ warn { a with mags := (withMagnitude l).map (·.1), times := (withMagnitude l).map (·.2.1), mc := .many ((withMagnitude l).map (·.2.2)), x := none } := by
  rw [ordered_eq Φ warn a l (·.2.2) _ rfl, ordered_eq Φ warn a (withMagnitude l) (·.2.2) _ rfl, kept_withMagnitude]

private theorem one_eq (Φ : ℝ → ℝ) (warn : Bool) (a : BSignificant.Args) (l : List PlacedEvent) (mc : ℝ) :
    bSignificant Φ warn { a with mags := l.map (·.1), times := l.map (·.2.1), mc := .one mc, x := none } =
      bSignificant Φ warn { a with mags := (withMagnitude l).map (·.1), times := (withMagnitude l).map (·.2.1), mc := .one mc, x := none } := by
  rw [ordered_eq Φ warn a l (fun _ => mc) _ (by rw [List.map_const']; rfl), ordered_eq Φ warn a (withMagnitude l) (fun _ => mc) _ (by rw [List.map_const']; rfl),
    kept_withMagnitude]

/-- C132: with one completeness magnitude for all events, in the given order. -/
theorem C132_one (Φ : ℝ → ℝ) (warn : Bool) (a : BSignificant.Args) (l : List PlacedEvent) (mc : ℝ) :
    bSignificant Φ warn { a with mags := l.map (·.1), times := l.map (·.2.1), mc := .one mc, x := none } =
      bSignificant Φ warn { a with mags := (withMagnitude l).map (·.1), times := (withMagnitude l).map (·.2.1), mc := .one mc, x := none } :=
  one_eq Φ warn a l mc

private def placed (p q : PlacedEvent) : Prop := p.2.2 ≤ q.2.2

private theorem insert_filter (p : PlacedEvent → Bool) (e : PlacedEvent) (l : List PlacedEvent) (hl : l.Pairwise placed) :
    (l.orderedInsert placed e).filter p = if p e then (l.filter p).orderedInsert placed e else l.filter p := by
  induction l with
  | nil =>
    by_cases h : p e <;> simp [h]
  | cons b l ih =>
    have hb := (List.pairwise_cons.1 hl)
    rw [List.orderedInsert_cons]
    by_cases h1 : placed e b
    · rw [if_pos h1]
      by_cases h : p e
      · rw [if_pos h, List.filter_cons_of_pos h]
        have hall : ∀ c ∈ (b :: l).filter p, placed e c := by
          intro c hc
          rcases List.mem_cons.1 (List.mem_filter.1 hc).1 with rfl | hc
          · exact h1
          · exact le_trans h1 (hb.1 c hc)
        cases hf : (b :: l).filter p with
        | nil => rfl
        | cons c r => rw [List.orderedInsert_cons, if_pos (hall c (by rw [hf]; exact List.mem_cons_self))]
      · rw [if_neg h, List.filter_cons_of_neg h]
    · rw [if_neg h1]
      by_cases hp : p b
      · rw [List.filter_cons_of_pos hp, List.filter_cons_of_pos hp, ih hb.2]
        by_cases h : p e
        · rw [if_pos h, if_pos h, List.orderedInsert_cons, if_neg h1]
        · rw [if_neg h, if_neg h]
      · rw [List.filter_cons_of_neg hp, List.filter_cons_of_neg hp, ih hb.2]

private theorem sort_filter (p : PlacedEvent → Bool) (l : List PlacedEvent) : (l.insertionSort placed).filter p = (l.filter p).insertionSort placed := by
  letI : Std.Total placed := ⟨fun a b => le_total a.2.2 b.2.2⟩
  letI : IsTrans PlacedEvent placed := ⟨fun a b c h k => le_trans h k⟩
  induction l with
  | nil => rfl
  | cons e l ih =>
    rw [List.insertionSort_cons, insert_filter p e _ (List.pairwise_insertionSort placed l), ih]
    by_cases h : p e
    · rw [if_pos h, List.filter_cons_of_pos h, List.insertionSort_cons]
    · rw [if_neg h, List.filter_cons_of_neg h]

private theorem argsort_events {α : Type} (l : List PlacedEvent) (g : PlacedEvent → α) (d : α) :
    (argsort (l.map (·.2.2))).map (fun i => (l.map g).getD i d) = (l.insertionSort placed).map g := by
  have hz : ∀ i ∈ List.range l.length, ∀ j ∈ List.range l.length,
      ((l.map (·.2.2)).getD i 0 ≤ (l.map (·.2.2)).getD j 0 ↔ placed (l.getD i (none, 0, 0)) (l.getD j (none, 0, 0))) := by
    intro i hi j hj
    have hi := List.mem_range.1 hi
    have hj := List.mem_range.1 hj
    unfold placed
    rw [List.getD_eq_getElem _ _ (by simpa using hi), List.getD_eq_getElem _ _ (by simpa using hj), List.getD_eq_getElem _ _ hi, List.getD_eq_getElem _ _ hj,
      List.getElem_map, List.getElem_map]
  have h1 : (argsort (l.map (·.2.2))).map (fun i => l.getD i (none, 0, 0)) = l.insertionSort placed := by
    unfold argsort
    rw [List.length_map, List.map_insertionSort _ placed _ _ hz, BValue.map_getD_range]
  rw [← h1, List.map_map]
  refine List.map_congr_left fun i hi => ?_
  have hi : i < l.length := by
    have := BValue.argsort_lt hi
    rwa [List.length_map] at this
  change _ = g (l.getD i (none, 0, 0))
  rw [List.getD_eq_getElem _ _ (by simpa using hi), List.getD_eq_getElem _ _ hi, List.getElem_map]

private theorem placed_eq (Φ : ℝ → ℝ) (warn : Bool) (a : BSignificant.Args) (l : List PlacedEvent) (mc : ℝ) :
    bSignificant Φ warn { a with mags := l.map (·.1), times := l.map (·.2.1), mc := .one mc, x := some (l.map (·.2.2)) } =
      bSignificant Φ warn { a with mags := (l.insertionSort placed).map (·.1), times := (l.insertionSort placed).map (·.2.1), mc := .one mc, x := none } := by
  have h := C42_x_variable Φ warn { a with mags := l.map (·.1), times := l.map (·.2.1), mc := .one mc, x := none } (l.map (·.2.2)) (by simp) (by simp)
  rw [argsort_events l (·.1) none, argsort_events l (·.2.1) 0] at h
  exact h

/-- C132: with one completeness magnitude for all events, in the order of `x_variable`. -/
theorem C132_placed (Φ : ℝ → ℝ) (warn : Bool) (a : BSignificant.Args) (l : List PlacedEvent) (mc : ℝ) :
    bSignificant Φ warn { a with mags := l.map (·.1), times := l.map (·.2.1), mc := .one mc, x := some (l.map (·.2.2)) } =
      bSignificant Φ warn { a with mags := (withMagnitude l).map (·.1), times := (withMagnitude l).map (·.2.1), mc := .one mc, x := some ((withMagnitude l).map (·.2.2)) } := by
  rw [placed_eq, placed_eq, one_eq]
  unfold withMagnitude
  rw [sort_filter]

/-- A catalogue of three events of which one is dropped. -/
example : withMagnitude [(some 1, 0, 2), (none, 1, 0), (some 2, 2, 1)] = [(some 1, 0, 2), (some 2, 2, 1)] := by simp [withMagnitude]

end Props
end SeismoStats
