/-
Property C60: dithering binned magnitudes.
-/
import Verif.Props.Simulate
import Verif.Props.Binning
import Verif.Proofs.Fmd
import Verif.Proofs.Py

namespace SeismoStats.Props
open SeismoStats SeismoStats.Simulate

theorem sum_map_ite_nat {α : Type} [DecidableEq α] (c : List α) (hc : c.Nodup) (v : α) (n : ℕ) :
    (c.map fun b => if v = b then n else 0).sum = if v ∈ c then n else 0 := by
  induction c with
  | nil => simp
  | cons b r ih =>
    obtain ⟨h1, h2⟩ := List.nodup_cons.1 hc
    rw [List.map_cons, List.sum_cons, ih h2]
    by_cases hv : v = b
    · subst hv; simp [h1]
    · simp [hv]

/-- Collecting equal values group by group is a rearrangement. -/
theorem groups_perm {α : Type} [DecidableEq α] (l cs : List α) (hcs : cs.Nodup) (hall : ∀ m ∈ l, m ∈ cs) :
    ((cs.map fun c => List.replicate (l.count c) c).flatten).Perm l := by
  rw [List.perm_iff_count]
  intro x
  rw [List.count_flatten, List.map_map]
  have : (cs.map (List.count x ∘ fun c => List.replicate (l.count c) c)) = cs.map fun b => if x = b then l.count x else 0 := by
    apply List.map_congr_left
    intro b _
    simp only [Function.comp_apply, List.count_replicate]
    by_cases h : x = b
    · subst h; simp
    · rw [if_neg h, if_neg (by simpa using fun h' => h h'.symm)]
  rw [this, sum_map_ite_nat cs hcs]
  split
  · rfl
  · rename_i h
    exact (List.count_eq_zero.2 fun hx => h (hall x hx)).symm

theorem groups_sorted {α : Type} [DecidableEq α] [LinearOrder α] (l cs : List α) (hcs : cs.Pairwise (· < ·)) :
    ((cs.map fun c => List.replicate (l.count c) c).flatten).Pairwise (· ≤ ·) := by
  rw [List.pairwise_flatten]
  constructor
  · intro r hr
    obtain ⟨c, _, rfl⟩ := List.mem_map.1 hr
    exact List.pairwise_replicate.2 (Or.inr le_rfl)
  · rw [List.pairwise_map]
    refine hcs.imp ?_
    intro a b hab x hx y hy
    rw [List.eq_of_mem_replicate hx, List.eq_of_mem_replicate hy]
    exact hab.le

/-- Without weights a bin holds the number of its events. -/
theorem weightWhere_ones_map (l : List ℝ) (f : ℝ → ℝ) (p : ℝ → Bool) :
    weightWhere (List.zip (l.map f) (l.map fun _ => (1 : ℝ))) p = (((l.map f).countP p : ℕ) : ℝ) := by
  induction l with
  | nil => simp [weightWhere]
  | cons a l ih =>
    rw [List.map_cons, List.map_cons, List.zip_cons_cons, weightWhere_cons, ih, List.countP_cons]
    by_cases h : p (f a)
    · simp [h, add_comm]
    · simp [h]

theorem mapM_rel {α γ : Type} {R : α → γ → Prop} (l : List α) (G : α → Py γ) (h : ∀ a ∈ l, ∃ c, G a = .ok c ∧ R a c) :
    ∃ r, l.mapM G = .ok r ∧ List.Forall₂ R l r := by
  induction l with
  | nil => exact ⟨[], rfl, .nil⟩
  | cons a l ih =>
    obtain ⟨c, h1, h2⟩ := h a (by simp)
    obtain ⟨r, h3, h4⟩ := ih fun x hx => h x (by simp [hx])
    refine ⟨c :: r, ?_, .cons h2 h4⟩
    rw [List.mapM_cons, h1, h3]
    rfl

/-- One bin: the wanted number of magnitudes, all in the bin. -/
theorem ditherBin_ok (b δ off c : ℝ) (n k : ℕ) (g : ℕ → Rng) (hg : ∀ k, Proper (g k)) (hδ : 0 < δ) (hb : b ≠ 0) (h0 : n ≠ 0 → c + off + δ / 2 ≠ 0) :
    ∃ r, ditherBin b δ off g ((c, (n : ℝ)), k) = .ok r ∧ r.length = n ∧ ∀ x ∈ r, c + off - δ / 2 ≤ x ∧ x < c + off + δ / 2 := by
  have hβ : b * Real.log 10 ≠ 0 := mul_ne_zero hb log_ten_pos.ne'
  have key : ∀ r, simulate n (fun _ => b * Real.log 10) (c + off - δ / 2 - 0 / 2) (some (c + off + δ / 2)) (g k) = .ok r →
      ditherBin b δ off g ((c, (n : ℝ)), k) = .ok r := by
    intro r hr
    unfold ditherBin simulateBinned toBeta
    simp only [bind, Except.bind, Int.floor_natCast, Int.toNat_natCast]
    rw [hr]
    simp [binIf]
  by_cases hn : n = 0
  · subst hn
    refine ⟨[], key [] ?_, rfl, by simp⟩
    unfold simulate
    rw [if_neg (by rintro ⟨i, hi, _⟩; omega)]
    cases h : truthy (some (c + off + δ / 2)) with
    | none => simp
    | some M => simp
  · have hs := simulate_truncated n (fun _ => b * Real.log 10) (c + off - δ / 2 - 0 / 2) (c + off + δ / 2) (g k) (fun _ _ => hβ) (h0 hn)
    refine ⟨_, key _ hs, by simp, ?_⟩
    intro x hx
    obtain ⟨i, hi, rfl⟩ := List.mem_map.1 hx
    have := truncated_range (b * Real.log 10) (c + off - δ / 2 - 0 / 2) (c + off + δ / 2) ((g k).uniform i) hβ (by linarith) ((hg k).1 i).1 ((hg k).1 i).2
    exact ⟨by linarith [this.1], this.2.1⟩

theorem zip_map_self {α β : Type} (l : List α) (f : α → β) : l.zip (l.map f) = l.map fun a => (a, f a) := by
  induction l with
  | nil => rfl
  | cons a l ih => simp [ih]

/-- What `dither_magnitudes` does to magnitudes on a grid: the bins and their events. -/
theorem dither_eq (mags : List ℝ) (δ o : ℝ) (hδ : 1 / 10 ^ 12 ≤ δ) (hne : mags ≠ [])
    (hgrid : ∀ m ∈ mags, ∃ k : ℤ, m = o + k * δ) (htest : binningTest (mags.map some) δ (defaultTol ℝ) true = .ok true) :
    ∃ (a : ℤ) (n : ℕ), (∃ m ∈ mags, m = a * δ + (o - binTo δ o)) ∧ (∀ m ∈ mags, m ∈ (grid a n δ).map fun c => c + (o - binTo δ o)) ∧
      ∀ b g, dither mags δ b g = (do
        let l ← (((grid a n δ).map fun c => (c, ((mags.count (c + (o - binTo δ o)) : ℕ) : ℝ))).zipIdx).mapM (ditherBin b δ (o - binTo δ o) g)
        pure l.flatten) := by
  have hp : 0 < δ := lt_of_lt_of_le (by positivity) hδ
  have hoff : ∀ m ∈ mags, m - binTo δ m = o - binTo δ o := by
    intro m hm
    obtain ⟨k, rfl⟩ := hgrid m hm
    rw [binTo_add_int_mul hp.ne']
    ring
  obtain ⟨a, n, hn, hlow, hhigh, hf⟩ := getFmd_eq mags δ none .center hδ hne (by simp)
  obtain ⟨m0, hm0⟩ := exists_amin hne
  have hm0' := (amin?_eq_some_iff _ _).1 hm0
  have hmb : amin? (mags.map (binTo δ)) = some (binTo δ m0) := by
    rw [amin?_eq_some_iff]
    refine ⟨List.mem_map.2 ⟨m0, hm0'.1, rfl⟩, ?_⟩
    intro v hv
    obtain ⟨m, hm, rfl⟩ := List.mem_map.1 hv
    exact binTo_mono hp (hm0'.2 hm)
  refine ⟨a, n, ?_, ?_, ?_⟩
  · obtain ⟨m, hm, h⟩ := List.mem_map.1 hlow.1
    exact ⟨m, hm, by have := hoff m hm; rw [h] at this; linarith⟩
  · intro m hm
    obtain ⟨k, hk⟩ := exists_int_of_mem_binned (List.mem_map.2 ⟨m, hm, rfl⟩ : binTo δ m ∈ mags.map (binTo δ))
    have h1 : a ≤ k := by
      have := hlow.2 (List.mem_map.2 ⟨m, hm, rfl⟩ : binTo δ m ∈ mags.map (binTo δ))
      rw [hk] at this
      exact_mod_cast le_of_mul_le_mul_right this hp
    have h2 : k < a + n := by
      have := hhigh.2 (List.mem_map.2 ⟨m, hm, rfl⟩ : binTo δ m ∈ mags.map (binTo δ))
      rw [hk] at this
      have h3 : k ≤ a + n - 1 := by exact_mod_cast le_of_mul_le_mul_right this hp
      omega
    refine List.mem_map.2 ⟨_, mem_grid a n δ k h1 h2, ?_⟩
    rw [← hk, ← hoff m hm]
    ring
  · intro b g
    unfold dither
    rw [htest]
    simp only [bind, Except.bind, if_true]
    rw [hf]
    simp only [hm0, hmb, Option.getD_none]
    rw [hoff m0 hm0'.1]
    have hzip : (grid a n δ).zip ((grid a n δ).map fun c => weightWhere (List.zip (mags.map (binTo δ)) (mags.map fun _ => (1 : ℝ))) fun v => decide (v = c)) =
        (grid a n δ).map fun c => (c, ((mags.count (c + (o - binTo δ o)) : ℕ) : ℝ)) := by
      rw [zip_map_self]
      apply List.map_congr_left
      intro c _
      rw [weightWhere_ones_map]
      congr 2
      rw [List.countP_map, List.count]
      apply List.countP_congr
      intro m hm
      simp only [Function.comp_apply, decide_eq_true_eq, beq_iff_eq]
      have := hoff m hm
      constructor <;> intro h <;> linarith
    rw [hzip]

/-- C60: magnitudes that pass the binning test and lie on a grid are spread inside their bins: the `i`-th smallest of the given magnitudes `m` is replaced
by the `i`-th returned number, which lies in `[m - delta_m / 2, m + delta_m / 2)`. No magnitude may have its upper bin edge at zero (see the defect below). -/
theorem C60_dither (mags : List ℝ) (δ b o : ℝ) (g : ℕ → Rng) (hg : ∀ k, Proper (g k)) (hδ : 1 / 10 ^ 12 ≤ δ) (hb : b ≠ 0)
    (hgrid : ∀ m ∈ mags, ∃ k : ℤ, m = o + k * δ) (htest : binningTest (mags.map some) δ (defaultTol ℝ) true = .ok true)
    (h0 : ∀ m ∈ mags, m + δ / 2 ≠ 0) :
    ∃ out sorted, dither mags δ b g = .ok out ∧ sorted.Perm mags ∧ sorted.Pairwise (· ≤ ·) ∧
      List.Forall₂ (fun m x => m - δ / 2 ≤ x ∧ x < m + δ / 2) sorted out := by
  have hp : 0 < δ := lt_of_lt_of_le (by positivity) hδ
  have hne : mags ≠ [] := by
    rintro rfl
    simp [binningTest] at htest
  obtain ⟨a, n, -, hall, heq⟩ := dither_eq mags δ o hδ hne hgrid htest
  set off := o - binTo δ o with hoff
  have hcs : ((grid a n δ).map fun c => c + off).Pairwise (· < ·) := by
    rw [List.pairwise_map]
    exact (grid_sorted a n hp).imp fun h => by linarith
  obtain ⟨r, hr, hrel⟩ := mapM_rel (R := fun (p : (ℝ × ℝ) × ℕ) (l : List ℝ) =>
      List.Forall₂ (fun m x => m - δ / 2 ≤ x ∧ x < m + δ / 2) (List.replicate (mags.count (p.1.1 + off)) (p.1.1 + off)) l)
    (((grid a n δ).map fun c => (c, ((mags.count (c + off) : ℕ) : ℝ))).zipIdx) (ditherBin b δ off g) (by
      rintro ⟨⟨c, w⟩, k⟩ hmem
      have h1 := (List.mem_zipIdx hmem).2.2
      have h2 : (c, w) ∈ (grid a n δ).map fun c => (c, ((mags.count (c + off) : ℕ) : ℝ)) := by
        rw [h1]; exact List.getElem_mem _
      obtain ⟨c', _, hc'⟩ := List.mem_map.1 h2
      rw [Prod.mk.injEq] at hc'
      obtain ⟨rfl, rfl⟩ := hc'
      obtain ⟨l, hl1, hl2, hl3⟩ := ditherBin_ok b δ off c' (mags.count (c' + off)) k g hg hp hb (by
        intro hc
        exact h0 _ (List.count_pos_iff.1 (Nat.pos_of_ne_zero hc)))
      refine ⟨l, hl1, ?_⟩
      rw [List.forall₂_iff_get]
      refine ⟨by simp [hl2], ?_⟩
      intro i h3 h4
      simp only [List.get_eq_getElem, List.getElem_replicate]
      exact hl3 _ (List.getElem_mem _))
  refine ⟨r.flatten, (((grid a n δ).map fun c => c + off).map fun c => List.replicate (mags.count c) c).flatten, ?_, ?_, ?_, ?_⟩
  · rw [heq, hr]; rfl
  · exact groups_perm mags _ (hcs.imp fun h => h.ne) hall
  · exact groups_sorted mags _ hcs
  · apply List.rel_flatten
    have hmap : ((grid a n δ).map fun c => c + off).map (fun c => List.replicate (mags.count c) c) =
        (((grid a n δ).map fun c => (c, ((mags.count (c + off) : ℕ) : ℝ))).zipIdx).map fun p => List.replicate (mags.count (p.1.1 + off)) (p.1.1 + off) := by
      rw [show (fun p : (ℝ × ℝ) × ℕ => List.replicate (mags.count (p.1.1 + off)) (p.1.1 + off)) =
        (fun q : ℝ × ℝ => List.replicate (mags.count (q.1 + off)) (q.1 + off)) ∘ Prod.fst from rfl, ← List.map_map, List.zipIdx_map_fst, List.map_map, List.map_map]
      rfl
    rw [hmap, List.forall₂_map_left_iff]
    exact hrel

/-- C60: magnitudes that do not pass the binning test are rejected, so is an empty array. -/
theorem C60_rejected (mags : List ℝ) (δ b : ℝ) (g : ℕ → Rng) :
    (binningTest (mags.map some) δ (defaultTol ℝ) true = .ok false → dither mags δ b g = .error .valueError) ∧
    dither [] δ b g = .error .valueError := by
  constructor
  · intro h
    unfold dither
    rw [h]
    rfl
  · rfl

/-- C60 (defect): a catalogue whose magnitudes are all equal, as one of a single event, is said not to be binned. -/
theorem C60_defect_equal_magnitudes (n : ℕ) (m δ b : ℝ) (g : ℕ → Rng) (hδ : 1 / 10 ^ 12 ≤ δ) :
    dither (List.replicate (n + 1) m) δ b g = .error .valueError := by
  have hp : 0 < δ := lt_of_lt_of_le (by positivity) hδ
  apply (C60_rejected _ δ b g).1
  have hnum : numbers ((List.replicate (n + 1) m).map some) = List.replicate (n + 1) m := by
    unfold numbers; simp [List.filterMap_map]
  rw [binningTest_eq _ δ (defaultTol ℝ) true m (by
      rw [hnum]
      refine ⟨by simp, ?_⟩
      intro v hv
      rw [List.eq_of_mem_replicate hv]) (by rintro ⟨h, _⟩; exact hp.ne' h), hnum,
    binningTestCore_eq _ _ _ _ hδ (not_lt.2 (le_trans (by norm_num [defaultTol]) hδ))]
  congr 1
  have : ∀ d : ℝ, ((List.replicate (n + 1) m).map fun v => v - m).all (fun v => decide (|binTo d v - v| ≤ defaultTol ℝ + 1 / 10 ^ 16 * |v|)) = true := by
    intro d
    rw [List.all_eq_true]
    intro v hv
    obtain ⟨x, hx, rfl⟩ := List.mem_map.1 hv
    rw [List.eq_of_mem_replicate hx, sub_self, binTo_zero]
    simp [defaultTol]
  rw [this, this]
  rfl

/-- C60 (defect): the result follows the bins, not the events: whenever a smaller magnitude comes later, the first returned value lies below the bin of
the first event. -/
theorem C60_defect_order (m : ℝ) (rest : List ℝ) (δ b o : ℝ) (g : ℕ → Rng) (hg : ∀ k, Proper (g k)) (hδ : 1 / 10 ^ 12 ≤ δ) (hb : b ≠ 0)
    (hgrid : ∀ x ∈ m :: rest, ∃ k : ℤ, x = o + k * δ) (htest : binningTest ((m :: rest).map some) δ (defaultTol ℝ) true = .ok true)
    (h0 : ∀ x ∈ m :: rest, x + δ / 2 ≠ 0) (hlater : ∃ m' ∈ rest, m' < m) :
    ∃ x out, dither (m :: rest) δ b g = .ok (x :: out) ∧ x < m - δ / 2 := by
  have hp : 0 < δ := lt_of_lt_of_le (by positivity) hδ
  obtain ⟨out, sorted, h1, h2, h3, h4⟩ := C60_dither (m :: rest) δ b o g hg hδ hb hgrid htest h0
  obtain ⟨m', hm', hlt⟩ := hlater
  cases h4 with
  | nil => exact absurd h2.length_eq (by simp)
  | @cons s x ss xs hx _ =>
    refine ⟨x, xs, h1, ?_⟩
    have hs : s ≤ m' := by
      have hmem : m' ∈ s :: ss := h2.mem_iff.2 (by simp [hm'])
      rcases List.mem_cons.1 hmem with rfl | h
      · exact le_rfl
      · exact (List.pairwise_cons.1 h3).1 m' h
    obtain ⟨k, hk⟩ := hgrid m (by simp)
    obtain ⟨j, hj⟩ := hgrid m' (by simp [hm'])
    have hjk : j + 1 ≤ k := by
      have : (j : ℝ) * δ < k * δ := by linarith
      have := lt_of_mul_lt_mul_right this hp.le
      have : j < k := by exact_mod_cast this
      omega
    have : ((j : ℝ) + 1) * δ ≤ k * δ := mul_le_mul_of_nonneg_right (by exact_mod_cast hjk) hp.le
    linarith [hx.2]

/-- C60 (defect): if the upper edge of the bin of a magnitude is zero, the value drawn for it has no upper bound. -/
theorem C60_defect_edge_zero (mags : List ℝ) (c δ b o : ℝ) (hδ : 1 / 10 ^ 12 ≤ δ) (hb : 0 < b)
    (hgrid : ∀ m ∈ mags, ∃ k : ℤ, m = o + k * δ) (htest : binningTest (mags.map some) δ (defaultTol ℝ) true = .ok true)
    (hc : c ∈ mags) (hc0 : c + δ / 2 = 0) (B : ℝ) :
    ∃ g out, (∀ k, Proper (g k)) ∧ dither mags δ b g = .ok out ∧ ∃ x ∈ out, B < x := by
  have hp : 0 < δ := lt_of_lt_of_le (by positivity) hδ
  have hβ : 0 < b * Real.log 10 := mul_pos hb log_ten_pos
  let e : ℝ := max 0 (b * Real.log 10 * (B - (c - δ / 2) + 1))
  let g : ℕ → Rng := fun _ => ⟨fun _ => 0, fun _ => e⟩
  have hg : ∀ k, Proper (g k) := fun k => ⟨fun _ => ⟨le_rfl, one_pos⟩, fun _ => le_max_left _ _⟩
  obtain ⟨a, n, -, hall, heq⟩ := dither_eq mags δ o hδ (List.ne_nil_of_mem hc) hgrid htest
  set off := o - binTo δ o with hoff
  obtain ⟨r, hr, hrel⟩ := mapM_rel (R := fun (p : (ℝ × ℝ) × ℕ) (l : List ℝ) => p.1.1 + off = c → ∃ x ∈ l, B < x)
    (((grid a n δ).map fun c => (c, ((mags.count (c + off) : ℕ) : ℝ))).zipIdx) (ditherBin b δ off g) (by
      rintro ⟨⟨c1, w⟩, k⟩ hmem
      have h1 := (List.mem_zipIdx hmem).2.2
      have h2 : (c1, w) ∈ (grid a n δ).map fun c => (c, ((mags.count (c + off) : ℕ) : ℝ)) := by
        rw [h1]; exact List.getElem_mem _
      obtain ⟨c', _, hc'⟩ := List.mem_map.1 h2
      rw [Prod.mk.injEq] at hc'
      obtain ⟨rfl, rfl⟩ := hc'
      by_cases hcc : c' + off = c
      · have hs := simulate_untruncated (mags.count (c' + off)) (fun _ => b * Real.log 10) (c' + off - δ / 2 - 0 / 2) (some (c' + off + δ / 2))
          (Or.inr (by rw [hcc, hc0])) (g k) (fun _ _ => hβ)
        refine ⟨(List.range (mags.count (c' + off))).map fun i => untruncated (b * Real.log 10) (c' + off - δ / 2 - 0 / 2) ((g k).expo i), ?_, ?_⟩
        · unfold ditherBin simulateBinned toBeta
          simp only [bind, Except.bind, Int.floor_natCast, Int.toNat_natCast]
          rw [hs]
          simp only [binIf, lt_irrefl, if_false]
        · intro _
          refine ⟨_, List.mem_map.2 ⟨0, List.mem_range.2 (List.count_pos_iff.2 (by rw [hcc]; exact hc)), rfl⟩, ?_⟩
          unfold untruncated
          rw [hcc]
          have h1 : b * Real.log 10 * (B - (c - δ / 2) + 1) ≤ e := le_max_right _ _
          have h2 := mul_le_mul_of_nonneg_left h1 (one_div_pos.2 hβ).le
          have h3 : 1 / (b * Real.log 10) * (b * Real.log 10 * (B - (c - δ / 2) + 1)) = B - (c - δ / 2) + 1 := by
            have := hβ.ne'
            rw [← mul_assoc, one_div, inv_mul_cancel₀ this, one_mul]
          show B < 1 / (b * Real.log 10) * e + _
          linarith
      · by_cases hz : c' + off + δ / 2 = 0
        · exact absurd (by linarith) hcc
        · obtain ⟨l, hl1, _, _⟩ := ditherBin_ok b δ off c' (mags.count (c' + off)) k g hg hp hb.ne' (fun _ => hz)
          exact ⟨l, hl1, fun h => absurd h hcc⟩)
  refine ⟨g, r.flatten, hg, by rw [heq, hr]; rfl, ?_⟩
  obtain ⟨c', hc1, hc2⟩ := List.mem_map.1 (hall c hc)
  obtain ⟨i, hi, hi2⟩ := List.getElem_of_mem (List.mem_map.2 ⟨c', hc1, rfl⟩ :
    (c', ((mags.count (c' + off) : ℕ) : ℝ)) ∈ (grid a n δ).map fun c => (c, ((mags.count (c + off) : ℕ) : ℝ)))
  rw [List.forall₂_iff_get] at hrel
  have hi' : i < r.length := by rw [← hrel.1, List.length_zipIdx]; exact hi
  have := hrel.2 i (by rw [List.length_zipIdx]; exact hi) hi' (by
    simp only [List.get_eq_getElem, List.getElem_zipIdx]
    rw [hi2]
    exact hc2)
  obtain ⟨x, hx, hB⟩ := this
  exact ⟨x, List.mem_flatten.2 ⟨_, List.get_mem _ _, hx⟩, hB⟩

/-- A catalogue of two magnitudes `o + 1` and `o` with bins of width one passes the binning test. -/
theorem dither_sample (o : ℝ) : binningTest (([o + 1, o] : List ℝ).map some) 1 (defaultTol ℝ) true = .ok true := by
  have hnum : numbers (([o + 1, o] : List ℝ).map some) = [o + 1, o] := by simp [numbers]
  rw [binningTest_eq _ 1 (defaultTol ℝ) true o (by
      rw [hnum]
      refine ⟨by simp, ?_⟩
      intro v hv
      simp only [List.mem_cons, List.not_mem_nil, or_false, Set.mem_setOf_eq] at hv
      rcases hv with rfl | rfl <;> norm_num) (by norm_num), hnum,
    binningTestCore_eq _ _ _ _ (by norm_num [eps]) (by norm_num [defaultTol])]
  congr 1
  have h1 : binTo (1 : ℝ) 1 = 1 := by have := binTo_int_mul (K := ℝ) (δ := 1) one_ne_zero 1; simpa using this
  have h10 : binTo ((10 : ℝ) ^ (Int.log 10 (1 : ℝ) + 1)) 1 = 0 := by
    rw [Int.log_one_right]
    have := binTo_eq_of_near (K := ℝ) (δ := 10) (by norm_num) 1 0 (by norm_num [eps]) (by norm_num [eps])
    simpa using this
  have e1 : o + 1 - o = 1 := by ring
  simp only [List.map_cons, List.map_nil, sub_self, e1, List.all_cons, List.all_nil, h1, h10, binTo_zero]
  norm_num [defaultTol]

theorem dither_sample_grid (o : ℝ) : ∀ m ∈ ([o + 1, o] : List ℝ), ∃ k : ℤ, m = o + k * 1 := by
  intro m hm
  simp only [List.mem_cons, List.not_mem_nil, or_false] at hm
  rcases hm with rfl | rfl
  · exact ⟨1, by norm_num⟩
  · exact ⟨0, by norm_num⟩

/-- A case: the magnitudes 1.25 and 0.25 with width 1. -/
example (g : ℕ → Rng) (hg : ∀ k, Proper (g k)) : ∃ x y, dither [1 / 4 + 1, 1 / 4] 1 1 g = .ok [x, y] ∧ (-1 / 4 ≤ x ∧ x < 3 / 4) ∧ 3 / 4 ≤ y ∧ y < 7 / 4 := by
  obtain ⟨out, sorted, h1, h2, h3, h4⟩ := C60_dither [1 / 4 + 1, 1 / 4] 1 1 (1 / 4) g hg (by norm_num) one_ne_zero (dither_sample_grid _) (dither_sample _) (by
    intro m hm
    simp only [List.mem_cons, List.not_mem_nil, or_false] at hm
    rcases hm with rfl | rfl <;> norm_num)
  have hs : sorted = [1 / 4, 1 / 4 + 1] :=
    (h2.trans (List.Perm.swap _ _ _)).eq_of_pairwise' h3 (by simp)
  subst hs
  cases h4 with
  | cons ha ht =>
    cases ht with
    | cons hb ht =>
      cases ht
      exact ⟨_, _, h1, ⟨by linarith [ha.1], by linarith [ha.2]⟩, by linarith [hb.1], by linarith [hb.2]⟩

/-- A case of lost order: the first value returned for `[1.25, 0.25]` is below 0.75. -/
example (g : ℕ → Rng) (hg : ∀ k, Proper (g k)) : ∃ x out, dither [1 / 4 + 1, 1 / 4] 1 1 g = .ok (x :: out) ∧ x < 1 / 4 + 1 - 1 / 2 :=
  C60_defect_order (1 / 4 + 1) [1 / 4] 1 1 (1 / 4) g hg (by norm_num) one_ne_zero (dither_sample_grid _) (dither_sample _) (by
    intro m hm
    simp only [List.mem_cons, List.not_mem_nil, or_false] at hm
    rcases hm with rfl | rfl <;> norm_num) ⟨1 / 4, by simp, by norm_num⟩

/-- A case of the defect at zero: the magnitude -1/2 gets a value above 100. -/
example : ∃ g out, (∀ k, Proper (g k)) ∧ dither [-1 / 2 + 1, -1 / 2] 1 1 g = .ok out ∧ ∃ x ∈ out, 100 < x :=
  C60_defect_edge_zero [-1 / 2 + 1, -1 / 2] (-1 / 2) 1 1 (-1 / 2) (by norm_num) one_pos (dither_sample_grid _) (dither_sample _) (by simp) (by norm_num) 100

end SeismoStats.Props
