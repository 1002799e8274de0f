/-
Lemmas for Props/DoubleCompleteness: the half grid in double precision, the edges of `arange`, their labels, and relabelling of groups.
-/
import Verif.Model.DoubleCompleteness
import Verif.Proofs.DoubleFmd
import Verif.Props.DoubleFmd
import Verif.Proofs.Py
import Mathlib.Tactic.FieldSimp

namespace SeismoStats
namespace Double
noncomputable section
open Classical

theorem half_near {D : ℝ} (hD : 0 < D) {u : ℤ} (hu : |u| ≤ 4 * 10 ^ 6) : |rnd ((u : ℝ) / 2 * D) - (u : ℝ) / 2 * D| ≤ D / 10 ^ 9 := by
  have hu' : |(u : ℝ)| ≤ 4 * 10 ^ 6 := by exact_mod_cast hu
  have h : |(u : ℝ) / 2 * D| ≤ 2 * 10 ^ 6 * D := by
    rw [abs_mul, abs_of_pos hD, abs_div, abs_of_pos (two_pos : (0 : ℝ) < 2)]
    exact mul_le_mul_of_nonneg_right (by linarith) hD.le
  have := Props.rnd_lt_err h
  norm_num at this ⊢
  linarith

theorem half_lt {D : ℝ} (hD : 0 < D) {u v : ℤ} (hu : |u| ≤ 4 * 10 ^ 6) (hv : |v| ≤ 4 * 10 ^ 6) :
    rnd ((u : ℝ) / 2 * D) < rnd ((v : ℝ) / 2 * D) ↔ u < v := by
  constructor
  · intro h
    by_contra hc
    have hc' : (v : ℝ) ≤ u := by exact_mod_cast not_lt.1 hc
    have := rnd_mono (mul_le_mul_of_nonneg_right (div_le_div_of_nonneg_right hc' (two_pos : (0 : ℝ) < 2).le) hD.le)
    linarith
  · intro h
    have h' : (u : ℝ) + 1 ≤ v := by exact_mod_cast h
    have h1 := abs_le.1 (half_near hD hu)
    have h2 := abs_le.1 (half_near hD hv)
    have h3 := mul_le_mul_of_nonneg_right h' hD.le
    norm_num at h1 h2
    nlinarith [h1.2, h2.1]

/-- The entries of `arange`, more precisely than `arange_val`. -/
theorem arange_fine {D A s : ℝ} (hD : 0 < D) (hs : |s - A * D| ≤ D / 10 ^ 9) (hA : |A| ≤ 2 * 10 ^ 3) (i : ℕ) (hi : (i : ℝ) ≤ 1100) :
    |(if i = 0 then s else if i = 1 then add s (rnd D) else add s (mul i (sub (add s (rnd D)) s))) - (A + i) * D| ≤ D * (3 / 10 ^ 6) := by
  have hAD : |A * D| ≤ 2 * 10 ^ 3 * D := by
    rw [abs_mul, abs_of_pos hD]
    exact mul_le_mul_of_nonneg_right hA hD.le
  have hd : |rnd D - D| ≤ D * (12 / 10 ^ 17) := by
    have := rnd_close (x := D) (X := D) (c := D) (ε := 0) (by simp) (by rw [abs_of_pos hD]; linarith)
    linarith
  have hA1 : |(A + 1) * D| ≤ (2 * 10 ^ 3 + 1) * D := by
    have := abs_add_le (A * D) D
    rw [abs_of_pos hD] at this
    rw [add_mul, one_mul, add_mul, one_mul]
    linarith
  have h1 : |add s (rnd D) - (A + 1) * D| ≤ (D / 10 ^ 9 + D * (12 / 10 ^ 17)) + (2 * 10 ^ 3 + 2) * D * (12 / 10 ^ 17) := by
    apply rnd_close
    · have e : s + rnd D - (A + 1) * D = (s - A * D) + (rnd D - D) := by ring
      rw [e]
      have := abs_add_le (s - A * D) (rnd D - D)
      linarith
    · norm_num at hA1 ⊢
      linarith
  by_cases h0 : i = 0
  · rw [if_pos h0, h0]
    norm_num at hs ⊢
    linarith
  · rw [if_neg h0]
    by_cases hi1 : i = 1
    · rw [if_pos hi1, hi1]
      norm_num at h1 ⊢
      linarith
    · rw [if_neg hi1]
      set u := add s (rnd D)
      have h1' : |u - (A + 1) * D| ≤ D * (12 / 10 ^ 10) := by
        norm_num at h1 ⊢
        linarith
      have h2 : |sub u s - D| ≤ D * (22 / 10 ^ 10) + 2 * D * (12 / 10 ^ 17) := by
        apply rnd_close
        · have e : u - s - D = (u - (A + 1) * D) - (s - A * D) := by ring
          rw [e]
          have := abs_sub (u - (A + 1) * D) (s - A * D)
          norm_num at this h1' hs ⊢
          linarith
        · rw [abs_of_pos hD]
          norm_num
          linarith
      set d := sub u s
      have hi0 : (0 : ℝ) ≤ i := Nat.cast_nonneg i
      have h2' : |d - D| ≤ D * (23 / 10 ^ 10) := by
        norm_num at h2 ⊢
        linarith
      have h3 : |(i : ℝ) * d - i * D| ≤ D * (253 / 10 ^ 8) := by
        rw [← mul_sub, abs_mul, abs_of_nonneg hi0]
        calc (i : ℝ) * |d - D| ≤ 1100 * (D * (23 / 10 ^ 10)) := mul_le_mul hi h2' (abs_nonneg _) (by norm_num)
          _ = D * (253 / 10 ^ 8) := by ring
      have hiD : |(i : ℝ) * D| ≤ 1100 * D := by
        rw [abs_mul, abs_of_pos hD, abs_of_nonneg hi0]
        exact mul_le_mul_of_nonneg_right hi hD.le
      have h4 : |mul i d - i * D| ≤ D * (253 / 10 ^ 8) + 1101 * D * (12 / 10 ^ 17) := by
        apply rnd_close h3
        norm_num at hiD ⊢
        linarith
      set v := mul i d
      have h4' : |v - i * D| ≤ D * (254 / 10 ^ 8) := by
        norm_num at h4 ⊢
        linarith
      have h5 : |add s v - (A + i) * D| ≤ (D / 10 ^ 9 + D * (254 / 10 ^ 8)) + 4000 * D * (12 / 10 ^ 17) := by
        apply rnd_close
        · have e : s + v - (A + i) * D = (s - A * D) + (v - i * D) := by ring
          rw [e]
          have := abs_add_le (s - A * D) (v - i * D)
          linarith
        · have := abs_add_le (A * D) (i * D)
          rw [← add_mul] at this
          norm_num at this hAD hiD ⊢
          linarith
      norm_num at h5 ⊢
      linarith

theorem rne_eq {t : ℝ} (N : ℤ) (h : |t - N| < 1 / 2) : rne t = N := by
  have h1 := abs_lt.1 h
  have h2 := abs_le.1 (rne_near t)
  have a1 : (rne t : ℝ) < N + 1 := by linarith [h1.2, h2.1]
  have a2 : (N : ℝ) < rne t + 1 := by linarith [h1.1, h2.2]
  have b1 : rne t < N + 1 := by exact_mod_cast a1
  have b2 : N < rne t + 1 := by exact_mod_cast a2
  omega

theorem around_eq {x : ℝ} {N : ℤ} {d : ℕ} (hx : |x - N / 1000| ≤ 9 / 10 ^ 7) (hN : |N| ≤ 10 ^ 7) (h3 : 3 ≤ d) (h5 : d ≤ 5) :
    around x d = rnd (N / 1000) := by
  obtain ⟨e, rfl⟩ := Nat.exists_eq_add_of_le h3
  have he : e ≤ 2 := by omega
  have hp : (10 : ℝ) ^ (3 + e) = 1000 * 10 ^ e := by rw [pow_add]; norm_num
  have h10 : (10 : ℝ) ^ e ≤ 100 := by
    calc (10 : ℝ) ^ e ≤ 10 ^ 2 := pow_le_pow_right₀ (by norm_num) he
      _ = 100 := by norm_num
  have h1 : (0 : ℝ) < 10 ^ e := by positivity
  have hN' : |(N : ℝ)| ≤ 10 ^ 7 := by exact_mod_cast hN
  have ha : |x * 10 ^ (3 + e) - (N * 10 ^ e : ℝ)| ≤ 9 / 100 := by
    rw [hp]
    have e1 : x * (1000 * 10 ^ e) - (N * 10 ^ e : ℝ) = (x - N / 1000) * (1000 * 10 ^ e) := by ring
    rw [e1, abs_mul, abs_of_pos (by positivity : (0 : ℝ) < 1000 * 10 ^ e)]
    have := mul_le_mul hx (by linarith : (1000 : ℝ) * 10 ^ e ≤ 10 ^ 5) (by positivity) (by norm_num)
    norm_num at this ⊢
    linarith
  have hb : |(N * 10 ^ e : ℝ)| ≤ 10 ^ 9 := by
    rw [abs_mul, abs_of_pos h1]
    have := mul_le_mul hN' h10 h1.le (by norm_num)
    norm_num at this ⊢
    linarith
  have hc : |mul x (10 ^ (3 + e)) - (N * 10 ^ e : ℝ)| ≤ 9 / 100 + (10 ^ 9 + 1) * (12 / 10 ^ 17) := rnd_close ha (by linarith)
  have hr : rne (mul x (10 ^ (3 + e))) = N * 10 ^ e := by
    apply rne_eq
    push_cast
    refine lt_of_le_of_lt hc ?_
    norm_num
  unfold around div
  rw [hr, hp]
  congr 1
  push_cast
  field_simp

theorem roundFrac_eq {x : ℝ} {N : ℤ} (hx : |x - N / 1000| ≤ 9 / 10 ^ 7) (hN : |N| ≤ 10 ^ 7) (h5 : 5 ≤ |N|) :
    roundFrac 3 x = rnd (N / 1000) := by
  have h5' : (5 : ℝ) ≤ |(N : ℝ)| := by exact_mod_cast h5
  have hlow : 1 / 1000 ≤ |x| := by
    have h1 := abs_sub_abs_le_abs_sub ((N : ℝ) / 1000) x
    rw [abs_sub_comm] at h1
    rw [abs_div, abs_of_pos (by norm_num : (0 : ℝ) < 1000)] at h1
    norm_num at hx
    linarith
  have hx0 : x ≠ 0 := by
    rintro rfl
    rw [abs_zero] at hlow
    norm_num at hlow
  have hpos := abs_pos.2 hx0
  unfold roundFrac
  rw [if_neg hx0]
  by_cases h1 : |x| < 1
  · rw [if_pos h1]
    have a1 : (-3 : ℤ) ≤ Int.log 10 |x| := by
      rw [← Int.zpow_le_iff_le_log (by norm_num) hpos]
      norm_num
      norm_num at hlow
      exact hlow
    have a2 : Int.log 10 |x| < 0 := by
      rw [← Int.lt_zpow_iff_log_lt (by norm_num) hpos]
      simpa using h1
    apply around_eq hx hN <;> omega
  · rw [if_neg h1]
    exact around_eq hx hN le_rfl (by norm_num)

theorem countP_range_lt (n c : ℕ) : (List.range n).countP (fun i => decide (i < c)) = min n c := by
  induction n with
  | zero => simp
  | succ n ih =>
    rw [List.range_succ, List.countP_append, ih]
    by_cases h : n < c
    · simp [h]; omega
    · simp [h]; omega

/-! ### Relabelling groups -/

theorem dedup_map_on {α β : Type} [DecidableEq α] [DecidableEq β] (f : α → β) (l : List α) (h : ∀ a ∈ l, ∀ b ∈ l, f a = f b → a = b) :
    (l.map f).dedup = l.dedup.map f := by
  induction l with
  | nil => simp
  | cons a l ih =>
    have ih' := ih fun x hx y hy => h x (List.mem_cons_of_mem _ hx) y (List.mem_cons_of_mem _ hy)
    by_cases ha : a ∈ l
    · rw [List.dedup_cons_of_mem ha, List.map_cons, List.dedup_cons_of_mem (List.mem_map_of_mem ha), ih']
    · have : f a ∉ l.map f := by
        intro hm
        obtain ⟨b, hb, e⟩ := List.mem_map.1 hm
        have := h b (List.mem_cons_of_mem _ hb) a List.mem_cons_self e
        exact ha (this ▸ hb)
      rw [List.dedup_cons_of_notMem ha, List.map_cons, List.dedup_cons_of_notMem this, ih', List.map_cons]

theorem count_map_on {α β : Type} [BEq α] [LawfulBEq α] [BEq β] [LawfulBEq β] (f : α → β) (l : List α) (a : α) (h : ∀ b ∈ l, f b = f a → b = a) :
    (l.map f).count (f a) = l.count a := by
  unfold List.count
  rw [List.countP_map]
  apply List.countP_congr
  intro b hb
  simp only [Function.comp, beq_iff_eq]
  exact ⟨h b hb, fun e => e ▸ rfl⟩

theorem groups_map (keys : List (ℝ × ℝ)) (f : ℝ → ℝ) (h : ∀ a ∈ keys, ∀ b ∈ keys, f a.1 < f b.1 ↔ a.1 < b.1) :
    Completeness.groups (keys.map fun k => (f k.1, k.2)) = (Completeness.groups keys).map fun r => { r with edge := f r.edge } := by
  set F : ℝ × ℝ → ℝ × ℝ := fun k => (f k.1, k.2) with hF
  have heq : ∀ a ∈ keys, ∀ b ∈ keys, f a.1 = f b.1 → a.1 = b.1 := fun a ha b hb e => by
    rcases lt_trichotomy a.1 b.1 with h1 | h1 | h1
    · exact absurd ((h a ha b hb).2 h1) (by rw [e]; exact lt_irrefl _)
    · exact h1
    · exact absurd ((h b hb a ha).2 h1) (by rw [e]; exact lt_irrefl _)
  have hinj : ∀ a ∈ keys, ∀ b ∈ keys, F a = F b → a = b := fun a ha b hb e => by
    have e1 : (F a).1 = (F b).1 := congrArg Prod.fst e
    have e2 : (F a).2 = (F b).2 := congrArg Prod.snd e
    exact Prod.ext (heq a ha b hb e1) e2
  unfold Completeness.groups
  rw [dedup_map_on F keys hinj]
  rw [← List.map_insertionSort (r := Completeness.keyLe) (s := Completeness.keyLe) F]
  · rw [List.map_map, List.map_map]
    apply List.map_congr_left
    intro k hk
    have hk' : k ∈ keys := by
      rw [List.mem_insertionSort] at hk
      exact List.mem_dedup.1 hk
    change Completeness.Row.mk (f k.1) k.2 _ = Completeness.Row.mk (f k.1) k.2 _
    congr 1
    exact count_map_on F keys k fun b hb e => hinj b hb k hk' e
  · intro a ha b hb
    have ha' := List.mem_dedup.1 ha
    have hb' := List.mem_dedup.1 hb
    unfold Completeness.keyLe
    simp only [hF]
    rw [h a ha' b hb']
    constructor
    · rintro (h1 | ⟨h1, h2⟩)
      · exact Or.inl h1
      · exact Or.inr ⟨by rw [h1], h2⟩
    · rintro (h1 | ⟨h1, h2⟩)
      · exact Or.inl h1
      · exact Or.inr ⟨heq a ha' b hb' h1, h2⟩

end
end Double
end SeismoStats
