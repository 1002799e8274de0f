import Verif.Model.Client
import Mathlib.Tactic.Ring
import Mathlib.Tactic.Linarith
import Mathlib.Tactic.Push
import Mathlib.Data.Nat.Log

namespace SeismoStats.Client
variable {E : Type*}

theorem exists_iff (s : Server E) (o : ℕ) :
    existsWithOffset s 1 (o + 1) = true ↔ o < s.events.length := by
  unfold existsWithOffset Server.answer
  simp [List.take_eq_nil_iff, List.drop_eq_nil_iff]

theorem doubling_eq (s : Server E) (bs : ℕ) (j : ℕ) : ∀ (chunk : ℕ),
    (∀ i < j, chunk * 2 ^ i * bs < s.events.length) →
    ¬ (chunk * 2 ^ j * bs < s.events.length) →
    ∀ fuel, j < fuel → doubling s bs fuel chunk = some (chunk * 2 ^ j, j + 1) := by
  induction j with
  | zero =>
    intro chunk _ h2 fuel hf
    obtain ⟨f, rfl⟩ : ∃ f, fuel = f + 1 := ⟨fuel - 1, by omega⟩
    have : existsWithOffset s 1 (chunk * bs + 1) = false := by
      rw [Bool.eq_false_iff, Ne, exists_iff]; simpa using h2
    simp [doubling, this]
  | succ j ih =>
    intro chunk h1 h2 fuel hf
    obtain ⟨f, rfl⟩ : ∃ f, fuel = f + 1 := ⟨fuel - 1, by omega⟩
    have : existsWithOffset s 1 (chunk * bs + 1) = true := by
      rw [exists_iff]; simpa using h1 0 (by omega)
    have := ih (chunk * 2) (fun i hi => by
      have := h1 (i + 1) (by omega)
      rwa [pow_succ', ← mul_assoc chunk] at this) (by
        rwa [pow_succ', ← mul_assoc chunk] at h2) f (by omega)
    simp [doubling, *]; ring

theorem doubling_zero (s : Server E) (h : s.events ≠ []) (fuel : ℕ) : ∀ chunk,
    doubling s 0 fuel chunk = none := by
  induction fuel with
  | zero => intro _; rfl
  | succ f ih =>
    intro chunk
    have : existsWithOffset s 1 (chunk * 0 + 1) = true := by
      rw [exists_iff]; simpa [List.length_pos_iff] using h
    simp only [doubling, this, if_true, ih]; rfl

/-- Index of the last non-empty batch. -/
theorem bisect_eq (s : Server E) (bs : ℕ) (hbs : 1 ≤ bs) (p : ℕ) :
    ∀ (low high : ℤ) (last fuel : ℕ), 0 ≤ low → high - low + 1 < 2 ^ p → p < fuel →
    (((s.events.length - 1) / bs : ℕ) : ℤ) ≤ high ∨ (s.events.length = 0) →
    (s.events.length = 0 → last = 0) →
    (low ≤ (((s.events.length - 1) / bs : ℕ) : ℤ) ∨ s.events.length = 0 ∨
      last = (s.events.length - 1) / bs) →
    ∃ q ≤ p, bisect s bs fuel low high last = some ((s.events.length - 1) / bs, q) := by
  induction p with
  | zero =>
    intro low high last fuel h0 hs hf hh hz hl
    obtain ⟨f, rfl⟩ : ∃ f, fuel = f + 1 := ⟨fuel - 1, by omega⟩
    refine ⟨0, le_rfl, ?_⟩
    have : ¬ low ≤ high := by simp at hs; omega
    simp only [bisect, this, if_false, Option.some.injEq, Prod.mk.injEq, and_true]
    rcases Nat.eq_zero_or_pos s.events.length with hN | hN
    · simp [hz hN, hN]
    · omega
  | succ p ih =>
    intro low high last fuel h0 hs hf hh hz hl
    obtain ⟨f, rfl⟩ : ∃ f, fuel = f + 1 := ⟨fuel - 1, by omega⟩
    by_cases hle : low ≤ high
    · have hmid0 : 0 ≤ (low + high) / 2 := by omega
      have hmidl : low ≤ (low + high) / 2 := by omega
      have hmidh : (low + high) / 2 ≤ high := by omega
      have hpow : (2 : ℤ) ^ (p + 1) = 2 * 2 ^ p := by ring
      rw [hpow] at hs
      have hvalid : existsWithOffset s 1 (((low + high) / 2).toNat * bs + 1) = true ↔
          ((low + high) / 2) ≤ (((s.events.length - 1) / bs : ℕ) : ℤ) ∧ 0 < s.events.length := by
        rw [exists_iff]
        constructor
        · intro h
          refine ⟨?_, by omega⟩
          have : ((low + high) / 2).toNat ≤ (s.events.length - 1) / bs := by
            rw [Nat.le_div_iff_mul_le (by omega)]; omega
          omega
        · rintro ⟨h, hN⟩
          have : ((low + high) / 2).toNat ≤ (s.events.length - 1) / bs := by omega
          rw [Nat.le_div_iff_mul_le (by omega)] at this
          omega
      by_cases hv : existsWithOffset s 1 (((low + high) / 2).toNat * bs + 1) = true
      · have hv' := hvalid.1 hv
        obtain ⟨q, hq, he⟩ := ih ((low + high) / 2 + 1) high ((low + high) / 2).toNat f
          (by omega) (by omega) (by omega) hh (by omega) (by omega)
        exact ⟨q + 1, by omega, by simp [bisect, hle, hv, he]⟩
      · have hv' : ¬ _ := fun h => hv (hvalid.2 h)
        obtain ⟨q, hq, he⟩ := ih low ((low + high) / 2 - 1) last f
          (by omega) (by omega) (by omega) (by omega) hz hl
        exact ⟨q + 1, by omega, by simp [bisect, hle, hv, he]⟩
    · refine ⟨0, by omega, ?_⟩
      simp only [bisect, hle, if_false, Option.some.injEq, Prod.mk.injEq, and_true]
      rcases Nat.eq_zero_or_pos s.events.length with hN | hN
      · simp [hz hN, hN]
      · omega

theorem getBatchCount_eq (s : Server E) (bs : ℕ) (hbs : 1 ≤ bs) (fuel : ℕ)
    (hf : Nat.clog 2 ((s.events.length + bs - 1) / bs) + 2 < fuel) :
    ∃ q ≤ 2 * Nat.clog 2 ((s.events.length + bs - 1) / bs) + 3,
      getBatchCount s bs fuel = some ((s.events.length - 1) / bs + 1, q) := by
  set c := (s.events.length + bs - 1) / bs with hc
  set k := Nat.clog 2 c with hk
  have hle : c ≤ 2 ^ k := Nat.le_pow_clog (by norm_num) c
  have hcN : ∀ m, ¬ (m * bs < s.events.length) ↔ c ≤ m := by
    intro m
    rw [hc]
    constructor
    · intro h
      apply Nat.le_of_lt_succ
      rw [Nat.div_lt_iff_lt_mul (by omega), Nat.succ_mul]; omega
    · intro h
      have := Nat.lt_succ_of_le h
      rw [Nat.div_lt_iff_lt_mul (by omega), Nat.succ_mul] at this; omega
  have hd := doubling_eq s bs k 1 (fun i hi => by
      have : 2 ^ i < c := by
        rw [hk] at hi
        exact (Nat.lt_clog_iff_pow_lt (by norm_num)).1 hi
      by_contra h
      rw [one_mul, hcN] at h; omega) (by rw [one_mul, hcN]; exact hle) fuel (by omega)
  rw [one_mul] at hd
  have hT : (s.events.length - 1) / bs ≤ 2 ^ k := by
    by_contra h
    push Not at h
    have h2 : (s.events.length - 1) / bs * bs ≤ s.events.length - 1 := Nat.div_mul_le_self _ _
    have h3 := (hcN (2 ^ k)).2 hle
    have : 2 ^ k * bs < (s.events.length - 1) / bs * bs := Nat.mul_lt_mul_of_pos_right h (by omega)
    omega
  have hlow : s.events.length = 0 ∨ 2 ^ k / 2 ≤ (s.events.length - 1) / bs := by
    rcases Nat.eq_zero_or_pos s.events.length with h | h
    · exact Or.inl h
    · right
      rcases Nat.eq_zero_or_pos k with h0 | h0
      · simp [h0]
      · have : 2 ^ k / 2 = 2 ^ (k - 1) := by
          obtain ⟨j, hj⟩ : ∃ j, k = j + 1 := ⟨k - 1, by omega⟩
          rw [hj]; simp [pow_succ]
        rw [this, Nat.le_div_iff_mul_le (by omega)]
        have h1 : 2 ^ (k - 1) < c := (Nat.lt_clog_iff_pow_lt (by norm_num)).1 (by omega)
        by_contra hcon
        have := (hcN (2 ^ (k - 1))).1 (by omega)
        omega
  obtain ⟨q, hq, he⟩ := bisect_eq s bs hbs (k + 2) ((2 ^ k / 2 : ℕ) : ℤ) ((2 ^ k : ℕ) : ℤ) 0 fuel
    (by positivity) (by
      have h1 : (0 : ℤ) ≤ ((2 ^ k / 2 : ℕ) : ℤ) := by positivity
      have h2 : (1 : ℤ) ≤ 2 ^ k := one_le_pow₀ (by norm_num)
      have h3 : (2 : ℤ) ^ (k + 2) = 4 * 2 ^ k := by ring
      push_cast at *
      omega) (by omega) (Or.inl (by exact_mod_cast hT)) (fun _ => rfl)
      (by rcases hlow with h | h
          · exact Or.inr (Or.inl h)
          · exact Or.inl (by exact_mod_cast h))
  refine ⟨k + 1 + q, by omega, ?_⟩
  simp only [getBatchCount, hd, he]

theorem flatten_slices (l : List E) (bs : ℕ) (count : ℕ) (h : l.length ≤ count * bs) :
    ((batchParams bs count).map fun p => (Server.mk l).answer p.1 p.2).flatten = l := by
  have key : ∀ count, ((batchParams bs count).map
      fun p => (Server.mk l).answer p.1 p.2).flatten = l.take (count * bs) := by
    intro count
    induction count with
    | zero => simp [batchParams]
    | succ n ih =>
      rw [batchParams] at *
      rw [List.range_succ, List.map_append, List.map_append, List.flatten_append, ih]
      simp only [Server.answer, List.map_cons, List.map_nil, List.flatten_cons, List.flatten_nil,
        List.append_nil, Nat.succ_mul, Nat.add_sub_cancel_left]
      rw [← List.take_add]
  rw [key, List.take_of_length_le h]

end SeismoStats.Client
