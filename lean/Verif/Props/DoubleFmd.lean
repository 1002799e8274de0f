/-
Property C82: frequency magnitude distribution and maximum curvature in double precision.
-/
import Verif.Props.DoubleSelect
import Verif.Proofs.DoubleFmd
import Verif.Props.Fmd
import Verif.Props.McMaxc

namespace SeismoStats.Props
open SeismoStats SeismoStats.Spec.Double
open SeismoStats.Double (rnd rnd_err rnd_pos rnd_rnd)
open Classical
noncomputable section

theorem grid_near {D : ℝ} (hD : 0 < D) {k : ℤ} (hk : |(k : ℝ)| ≤ 10 ^ 6) : |rnd (k * D) - k * D| ≤ D / 10 ^ 9 := by
  have h : |(k : ℝ) * D| ≤ 10 ^ 6 * D := by
    rw [abs_mul, abs_of_pos hD]
    exact mul_le_mul_of_nonneg_right hk hD.le
  have := rnd_lt_err h
  norm_num at this ⊢
  linarith

/-- `arange` from a grid value with the grid's step, binned. -/
theorem arange_binned (a : ℤ) (t : ℝ) (j p : ℕ) (hj : 1 ≤ j) (hj7 : (j : ℝ) ≤ 10 ^ 7) (ha : |(a : ℝ)| ≤ 10 ^ 6)
    (hn : ∀ i : ℕ, i < Double.arangeLen (rnd (a * ((j : ℝ) / 10 ^ p))) t (rnd ((j : ℝ) / 10 ^ p)) → (i : ℝ) ≤ 4 * 10 ^ 6) :
    (Double.arange (rnd (a * ((j : ℝ) / 10 ^ p))) t (rnd ((j : ℝ) / 10 ^ p))).map (Double.binTo (rnd ((j : ℝ) / 10 ^ p)) p) =
      (List.range (Double.arangeLen (rnd (a * ((j : ℝ) / 10 ^ p))) t (rnd ((j : ℝ) / 10 ^ p)))).map
        fun i : ℕ => rnd (((a + i : ℤ) : ℝ) * ((j : ℝ) / 10 ^ p)) := by
  set D : ℝ := (j : ℝ) / 10 ^ p with hDd
  have hj' : (1 : ℝ) ≤ j := by exact_mod_cast hj
  have hD : 0 < D := by positivity
  unfold Double.arange
  rw [List.map_map]
  apply List.map_congr_left
  intro i hi
  rw [List.mem_range] at hi
  have hi' := hn i hi
  have hv := Double.arange_val hD (grid_near hD ha) ha i hi'
  rw [Function.comp_apply]
  apply binTo_near _ (a + i) j p hj
  · have hi0 : (0 : ℝ) ≤ i := Nat.cast_nonneg i
    have : |((a + i : ℤ) : ℝ)| ≤ 5 * 10 ^ 6 := by
      push_cast
      have := abs_add_le (a : ℝ) i
      rw [abs_of_nonneg hi0] at this
      linarith
    calc |((a + i : ℤ) : ℝ)| * j ≤ 5 * 10 ^ 6 * 10 ^ 7 := mul_le_mul this hj7 (by linarith) (by norm_num)
      _ ≤ 10 ^ 14 := by norm_num
  · rw [← hDd]
    push_cast
    linarith

/-- The number of entries of `arange` from the smallest to the largest grid value plus one and a half bins. -/
theorem arangeLen_fmd {D : ℝ} (hD : 0 < D) (a b : ℤ) (ha : |(a : ℝ)| ≤ 10 ^ 6) (hb : |(b : ℝ)| ≤ 10 ^ 6) (hab : a ≤ b) :
    Double.arangeLen (rnd (a * D)) (Double.add (rnd (b * D)) (Double.mul (3 / 2) (rnd D))) (rnd D) = (b - a).toNat + 2 := by
  have h1 := grid_near hD ha
  have h2 := grid_near hD hb
  have h3 : |rnd D - D| ≤ D * (12 / 10 ^ 17) := rnd_lt_err (le_of_eq (abs_of_pos hD))
  have h4 : |Double.mul (3 / 2) (rnd D) - 3 / 2 * D| ≤ 2 * D * (12 / 10 ^ 17) + 2 * D * (12 / 10 ^ 17) := by
    unfold Double.mul
    apply Double.rnd_close
    · rw [← mul_sub, abs_mul, abs_of_pos (by norm_num : (0 : ℝ) < 3 / 2)]
      linarith
    · rw [abs_of_pos (by positivity)]
      norm_num
      linarith
  have hbD : |(b : ℝ) * D| ≤ 10 ^ 6 * D := by
    rw [abs_mul, abs_of_pos hD]
    exact mul_le_mul_of_nonneg_right hb hD.le
  have h5 : |Double.add (rnd (b * D)) (Double.mul (3 / 2) (rnd D)) - (b + 3 / 2) * D| ≤ D / 500 + (10 ^ 6 + 2) * D * (12 / 10 ^ 17) := by
    unfold Double.add
    apply Double.rnd_close
    · have e : rnd (b * D) + Double.mul (3 / 2) (rnd D) - (b + 3 / 2) * D = (rnd (b * D) - b * D) + (Double.mul (3 / 2) (rnd D) - 3 / 2 * D) := by ring
      rw [e]
      have := abs_add_le (rnd (b * D) - b * D) (Double.mul (3 / 2) (rnd D) - 3 / 2 * D)
      norm_num at this h2 h4 ⊢
      linarith
    · have := abs_add_le ((b : ℝ) * D) (3 / 2 * D)
      rw [← add_mul, abs_of_pos (by positivity : 0 < 3 / 2 * D)] at this
      norm_num at this hbD ⊢
      linarith
  have hq := Double.arange_quot (A := a) (B := b + 3 / 2) (s := rnd (a * D)) (t := Double.add (rnd (b * D)) (Double.mul (3 / 2) (rnd D))) hD
    (by norm_num at h1 ⊢; linarith) (by norm_num at h5 ⊢; linarith)
    (by
      have e : (b : ℝ) + 3 / 2 - a = (b - a) + 3 / 2 := by ring
      rw [e]
      have x1 := abs_add_le ((b : ℝ) - a) (3 / 2)
      have x2 := abs_sub (b : ℝ) a
      rw [abs_of_pos (by norm_num : (0 : ℝ) < 3 / 2)] at x1
      linarith)
  unfold Double.arangeLen
  rw [Double.ceil_of_near (b - a + 1) (1 / 2) (by
    have e : (((b - a + 1 : ℤ) : ℝ) + 1 / 2) = b + 3 / 2 - a := by push_cast; ring
    rw [e]; exact hq) (by norm_num) (by norm_num)]
  omega

theorem gridMono {D : ℝ} (hD : 0 < D) {k l : ℤ} (h : k ≤ l) : rnd (k * D) ≤ rnd (l * D) :=
  Double.rnd_mono (mul_le_mul_of_nonneg_right (by exact_mod_cast h) hD.le)

/-- `get_fmd` for magnitudes whose binned values are the doubles of grid values. -/
theorem fmd_core (mags : List ℝ) (ks : List ℤ) (j p : ℕ) (hj : (10 : ℝ) ^ p ≤ j * 10 ^ 12) (hj7 : (j : ℝ) ≤ 10 ^ 7)
    (hmb : mags.map (Double.binTo (rnd ((j : ℝ) / 10 ^ p)) p) = ks.map fun k : ℤ => rnd (k * ((j : ℝ) / 10 ^ p)))
    (hk : ∀ k ∈ ks, |(k : ℝ)| ≤ 10 ^ 6) (lo hi : ℤ) (hlo : IsLeast {k | k ∈ ks} lo) (hhi : IsGreatest {k | k ∈ ks} hi) (pos : BinPos) :
    Double.getFmd mags (rnd ((j : ℝ) / 10 ^ p)) p pos =
      match pos with
      | .other => .error .assertionError
      | .left => .ok ((List.range ((hi - lo).toNat + 1)).map (fun i : ℕ => Double.threshold (rnd ((lo + i : ℤ) * ((j : ℝ) / 10 ^ p))) (rnd ((j : ℝ) / 10 ^ p))),
          (List.range ((hi - lo).toNat + 1)).map (fun i : ℕ => ks.count (lo + i)), ks.map fun k : ℤ => rnd (k * ((j : ℝ) / 10 ^ p)))
      | .center => .ok ((List.range ((hi - lo).toNat + 1)).map (fun i : ℕ => rnd ((lo + i : ℤ) * ((j : ℝ) / 10 ^ p))),
          (List.range ((hi - lo).toNat + 1)).map (fun i : ℕ => ks.count (lo + i)), ks.map fun k : ℤ => rnd (k * ((j : ℝ) / 10 ^ p))) := by
  have hj1 : 1 ≤ j := by
    rcases Nat.eq_zero_or_pos j with h | h
    · subst h; simp at hj; linarith [pow_pos (by norm_num : (0 : ℝ) < 10) p]
    · exact h
  have hj' : (1 : ℝ) ≤ j := by exact_mod_cast hj1
  have heps : ¬ rnd ((j : ℝ) / 10 ^ p) < Double.eps := by
    rw [not_lt]
    apply Double.rnd_mono
    rw [div_le_div_iff₀ (by positivity) (by positivity)]
    linarith
  set D : ℝ := (j : ℝ) / 10 ^ p with hDd
  have hD : 0 < D := by positivity
  have hδ := rnd_pos hD
  have hlo6 := hk lo hlo.1
  have hhi6 := hk hi hhi.1
  have hle : lo ≤ hi := hlo.2 hhi.1
  have e1 : amin? (ks.map fun k : ℤ => rnd (k * D)) = some (rnd (lo * D)) := by
    rw [amin?_eq_some_iff]
    refine ⟨List.mem_map.2 ⟨lo, hlo.1, rfl⟩, ?_⟩
    intro x hx
    obtain ⟨k, hk', rfl⟩ := List.mem_map.1 hx
    exact gridMono hD (hlo.2 hk')
  have e2 : amax? (ks.map fun k : ℤ => rnd (k * D)) = some (rnd (hi * D)) := by
    rw [amax?_eq_some_iff]
    refine ⟨List.mem_map.2 ⟨hi, hhi.1, rfl⟩, ?_⟩
    intro x hx
    obtain ⟨k, hk', rfl⟩ := List.mem_map.1 hx
    exact gridMono hD (hhi.2 hk')
  have hlen := arangeLen_fmd hD lo hi hlo6 hhi6 hle
  set n := (hi - lo).toNat with hn
  have hn2 : (n : ℤ) = hi - lo := by omega
  have hn6 : (n : ℝ) ≤ 2 * 10 ^ 6 := by
    have e : (n : ℝ) = hi - lo := by exact_mod_cast hn2
    have x2 := abs_le.1 hlo6
    have x3 := abs_le.1 hhi6
    rw [e]; linarith [x2.1, x3.2]
  have hxb := arange_binned lo (Double.add (rnd (hi * D)) (Double.mul (3 / 2) (rnd D))) j p hj1 hj7 hlo6 (by
    rw [← hDd, hlen]
    intro i hi'
    have : (i : ℝ) ≤ n + 1 := by exact_mod_cast Nat.le_of_lt_succ hi'
    linarith)
  rw [← hDd, hlen] at hxb
  -- the edges
  set xb := (List.range (n + 2)).map fun i : ℕ => rnd (((lo + i : ℤ) : ℝ) * D) with hxbd
  set edges := xb.map fun e => Double.sub e (Double.div (rnd D) 2) with hed
  have hel : edges.length = n + 2 := by rw [hed, hxbd]; simp
  have heg : ∀ i, i < n + 2 → edges.getD i 0 = Double.threshold (rnd (0 + ((lo + i : ℤ) : ℝ) * D)) (rnd D) := by
    intro i hi'
    rw [List.getD_eq_getElem _ _ (by rw [hel]; exact hi')]
    simp only [hed, hxbd, List.getElem_map, List.getElem_range, zero_add]
    rfl
  have hbound : ∀ k : ℤ, |(k : ℝ)| ≤ 10 ^ 7 → |(0 : ℝ) + k * D| ≤ 10 ^ 14 * D := by
    intro k hk'
    rw [zero_add, abs_mul, abs_of_pos hD]
    exact mul_le_mul_of_nonneg_right (by linarith) hD.le
  have hli : ∀ i, i < n + 2 → |((lo + i : ℤ) : ℝ)| ≤ 10 ^ 7 := by
    intro i hi'
    have a1 : (i : ℝ) ≤ n + 1 := by exact_mod_cast Nat.le_of_lt_succ hi'
    have hi0 : (0 : ℝ) ≤ i := Nat.cast_nonneg i
    push_cast
    have := abs_add_le (lo : ℝ) i
    rw [abs_of_nonneg hi0] at this
    linarith
  have hcmp : ∀ i, i < n + 2 → ∀ k ∈ ks, (edges.getD i 0 ≤ rnd (k * D) ↔ lo + i ≤ k) := by
    intro i hi' k hk'
    rw [heg i hi']
    have := C81_threshold 0 D hD k (lo + i) (hbound k (by linarith [hk k hk'])) (hbound _ (hli i hi'))
    rw [zero_add ((k : ℝ) * D)] at this
    exact this
  have hmono : ∀ i, i + 1 < edges.length → edges.getD i 0 ≤ edges.getD (i + 1) 0 := by
    intro i hi'
    rw [hel] at hi'
    rw [heg i (by omega), heg (i + 1) hi']
    unfold Double.threshold Double.sub
    apply Double.rnd_mono
    apply sub_le_sub_right
    apply Double.rnd_mono
    push_cast
    nlinarith
  have hhist : Double.histogram (ks.map fun k : ℤ => rnd (k * D)) edges = .ok ((List.range (n + 1)).map fun i : ℕ => ks.count (lo + i)) := by
    unfold Double.histogram
    rw [if_pos hmono, hel]
    congr 1
    apply List.map_congr_left
    intro i hi'
    rw [List.mem_range] at hi'
    rw [List.countP_map, List.count]
    apply List.countP_congr
    intro k hk'
    have c1 := hcmp i (by omega) k hk'
    have c2 := hcmp (i + 1) (by omega) k hk'
    have hkhi : k ≤ hi := hhi.2 hk'
    simp only [Function.comp_apply, Bool.and_eq_true, Bool.or_eq_true, decide_eq_true_eq, beq_iff_eq]
    rw [c1]
    constructor
    · rintro ⟨h1, h2 | ⟨h2, h3⟩⟩
      · have : ¬ (lo + ((i + 1 : ℕ) : ℤ) ≤ k) := fun hh => absurd (c2.2 hh) (not_le.2 h2)
        push_cast at this
        omega
      · have : lo + ((i + 1 : ℕ) : ℤ) ≤ k := c2.1 (le_of_eq h3.symm)
        push_cast at this
        omega
    · intro h
      refine ⟨by omega, Or.inl ?_⟩
      by_contra hh
      have := c2.1 (not_lt.1 hh)
      push_cast at this
      omega
  have hdl : xb.dropLast = (List.range (n + 1)).map fun i : ℕ => rnd (((lo + i : ℤ) : ℝ) * D) := by
    rw [hxbd, List.range_succ, List.map_append, List.map_singleton, List.dropLast_concat]
  unfold Double.getFmd
  rw [if_neg (not_le.2 hδ), if_neg heps]
  dsimp only
  rw [hmb, e1, e2]
  dsimp only
  rw [hxb]
  rw [← hed, hhist]
  cases pos with
  | other => rfl
  | left =>
    show Except.ok _ = Except.ok _
    rw [hdl, List.map_map]
    rfl
  | center =>
    show Except.ok _ = Except.ok _
    rw [hdl]

/-- C82: decimal magnitudes `a / 10^(p + s)`, at most 1000 bins away from zero, and bin size `j / 10^p`: the bins of `get_fmd` are all multiples of the bin
size from the smallest to the largest binned magnitude (as doubles), without a gap or an extra bin, and the count of each is the exact number of magnitudes
rounded to it. -/
theorem C82_fmd (l : List ℤ) (s j p : ℕ) (hj : (10 : ℝ) ^ p ≤ j * 10 ^ 12) (hj7 : (j : ℝ) ≤ 10 ^ 7) (hs : j * 10 ^ s ≤ 10 ^ 10)
    (hr : ∀ a ∈ l, |a| ≤ 1000 * (j * 10 ^ s : ℕ)) (near : ℤ → ℤ) (hn : ∀ a ∈ l, HalfUp a (j * 10 ^ s : ℕ) (near a))
    (lo hi : ℤ) (hlo : IsLeast {k | k ∈ l.map near} lo) (hhi : IsGreatest {k | k ∈ l.map near} hi) :
    Double.getFmd (l.map fun a : ℤ => rnd ((a : ℝ) / 10 ^ (p + s))) (rnd ((j : ℝ) / 10 ^ p)) p .center =
      .ok ((List.range ((hi - lo).toNat + 1)).map (fun i : ℕ => rnd ((lo + i : ℤ) * ((j : ℝ) / 10 ^ p))),
        (List.range ((hi - lo).toNat + 1)).map (fun i : ℕ => (l.map near).count (lo + i)), (l.map near).map fun k : ℤ => rnd (k * ((j : ℝ) / 10 ^ p))) := by
  have hj1 : 1 ≤ j := by
    rcases Nat.eq_zero_or_pos j with h | h
    · subst h; simp at hj; linarith [pow_pos (by norm_num : (0 : ℝ) < 10) p]
    · exact h
  have hw1 : 1 ≤ j * 10 ^ s := Nat.mul_pos hj1 (by positivity)
  refine fmd_core _ (l.map near) j p hj hj7 ?_ ?_ lo hi hlo hhi .center
  · rw [List.map_map, List.map_map]
    apply List.map_congr_left
    intro a ha
    exact binTo_decimal a s j p hj1 hs (hr a ha) (near a) (hn a ha)
  · intro k hk
    obtain ⟨a, ha, rfl⟩ := List.mem_map.1 hk
    have h1 := abs_le.1 (hr a ha)
    obtain ⟨h2, h3⟩ := hn a ha
    have hw : (1 : ℤ) ≤ ((j * 10 ^ s : ℕ) : ℤ) := by exact_mod_cast hw1
    set w : ℤ := ((j * 10 ^ s : ℕ) : ℤ)
    have : |near a| ≤ 10 ^ 6 := by
      rw [abs_le]
      constructor
      · by_contra hc
        push Not at hc
        nlinarith [h1.1]
      · by_contra hc
        push Not at hc
        nlinarith [h1.2]
    exact_mod_cast this

/-- C82: the same for magnitudes that carry rounding noise (each within 0.4 bins of its grid value, as dithered or computed ones), up to a million bins away
from zero, with the bins given by their centers or left edges. -/
theorem C82_fmd_noise (mags : List ℝ) (ks : List ℤ) (j p : ℕ) (hj : (10 : ℝ) ^ p ≤ j * 10 ^ 12) (hj7 : (j : ℝ) ≤ 10 ^ 7)
    (hm : List.Forall₂ (fun (m : ℝ) (k : ℤ) => |m - k * ((j : ℝ) / 10 ^ p)| ≤ 2 / 5 * ((j : ℝ) / 10 ^ p)) mags ks)
    (hk : ∀ k ∈ ks, |(k : ℝ)| ≤ 10 ^ 6) (lo hi : ℤ) (hlo : IsLeast {k | k ∈ ks} lo) (hhi : IsGreatest {k | k ∈ ks} hi) :
    ∃ left, Double.getFmd mags (rnd ((j : ℝ) / 10 ^ p)) p .center =
        .ok ((List.range ((hi - lo).toNat + 1)).map (fun i : ℕ => rnd ((lo + i : ℤ) * ((j : ℝ) / 10 ^ p))),
          (List.range ((hi - lo).toNat + 1)).map (fun i : ℕ => ks.count (lo + i)), ks.map fun k : ℤ => rnd (k * ((j : ℝ) / 10 ^ p))) ∧
      Double.getFmd mags (rnd ((j : ℝ) / 10 ^ p)) p .left =
        .ok (left, (List.range ((hi - lo).toNat + 1)).map (fun i : ℕ => ks.count (lo + i)), ks.map fun k : ℤ => rnd (k * ((j : ℝ) / 10 ^ p))) ∧
      List.Forall₂ (fun (e : ℝ) (i : ℕ) => |e - (lo + i - 1 / 2) * ((j : ℝ) / 10 ^ p)| ≤ ((j : ℝ) / 10 ^ p) / 20) left (List.range ((hi - lo).toNat + 1)) := by
  have hj1 : 1 ≤ j := by
    rcases Nat.eq_zero_or_pos j with h | h
    · subst h; simp at hj; linarith [pow_pos (by norm_num : (0 : ℝ) < 10) p]
    · exact h
  have hj' : (1 : ℝ) ≤ j := by exact_mod_cast hj1
  have hmb : mags.map (Double.binTo (rnd ((j : ℝ) / 10 ^ p)) p) = ks.map fun k : ℤ => rnd (k * ((j : ℝ) / 10 ^ p)) := by
    clear hlo hhi
    induction hm with
    | nil => rfl
    | @cons m k ms kr h _ ih =>
      rw [List.map_cons, List.map_cons, ih fun x hx => hk x (List.mem_cons_of_mem _ hx)]
      congr 1
      refine binTo_near m k j p hj1 ?_ h
      calc |(k : ℝ)| * j ≤ 10 ^ 6 * 10 ^ 7 := mul_le_mul (hk k (by simp)) hj7 (by linarith) (by norm_num)
        _ ≤ 10 ^ 14 := by norm_num
  refine ⟨(List.range ((hi - lo).toNat + 1)).map (fun i : ℕ => Double.threshold (rnd ((lo + i : ℤ) * ((j : ℝ) / 10 ^ p))) (rnd ((j : ℝ) / 10 ^ p))),
    fmd_core mags ks j p hj hj7 hmb hk lo hi hlo hhi .center, fmd_core mags ks j p hj hj7 hmb hk lo hi hlo hhi .left, ?_⟩
  set D : ℝ := (j : ℝ) / 10 ^ p with hDd
  have hD : 0 < D := by positivity
  rw [List.forall₂_map_left_iff]
  rw [List.forall₂_same]
  intro i hi'
  rw [List.mem_range] at hi'
  have hle : lo ≤ hi := hlo.2 hhi.1
  have hb : |((lo + i : ℤ) : ℝ)| ≤ 10 ^ 6 := by
    have a := abs_le.1 (hk lo hlo.1)
    have b := abs_le.1 (hk hi hhi.1)
    have c1 : (lo : ℝ) ≤ ((lo + i : ℤ) : ℝ) := by exact_mod_cast (by omega : lo ≤ lo + i)
    have c2 : ((lo + i : ℤ) : ℝ) ≤ hi := by exact_mod_cast (by omega : lo + (i : ℤ) ≤ hi)
    rw [abs_le]
    constructor <;> [linarith [a.1]; linarith [b.2]]
  have := threshold_err (C := ((lo + i : ℤ) : ℝ) * D) hD (by
    rw [abs_mul, abs_of_pos hD]
    exact mul_le_mul_of_nonneg_right (by linarith) hD.le)
  have e : ((lo : ℝ) + i - 1 / 2) * D = ((lo + i : ℤ) : ℝ) * D - D / 2 := by push_cast; ring
  rw [e]
  exact this

/-- C82: the model in exact arithmetic (C09) gives, for the decimal numbers, the same counts, and the decimal bins and binned magnitudes whose doubles these are. -/
theorem C82_exact_model (l : List ℤ) (hne : l ≠ []) (s j p : ℕ) (hj : (10 : ℝ) ^ p ≤ j * 10 ^ 12) (hj7 : (j : ℝ) ≤ 10 ^ 7) (hs : j * 10 ^ s ≤ 10 ^ 10)
    (hr : ∀ a ∈ l, |a| ≤ 1000 * (j * 10 ^ s : ℕ)) :
    ∃ bins mb : List ℝ, ∃ counts : List ℕ,
      SeismoStats.getFmd (l.map fun a : ℤ => (a : ℝ) / 10 ^ (p + s)) ((j : ℝ) / 10 ^ p) none .center = .ok (bins, counts.map fun c : ℕ => (c : ℝ), mb) ∧
      Double.getFmd (l.map fun a : ℤ => rnd ((a : ℝ) / 10 ^ (p + s))) (rnd ((j : ℝ) / 10 ^ p)) p .center = .ok (bins.map rnd, counts, mb.map rnd) := by
  have hj1 : 1 ≤ j := by
    rcases Nat.eq_zero_or_pos j with h | h
    · subst h; simp at hj; linarith [pow_pos (by norm_num : (0 : ℝ) < 10) p]
    · exact h
  have hj' : (1 : ℝ) ≤ j := by exact_mod_cast hj1
  have hw1 : 1 ≤ j * 10 ^ s := Nat.mul_pos hj1 (by positivity)
  have hnear : ∀ a : ℤ, ∃ k, HalfUp a (j * 10 ^ s : ℕ) k := fun a => (C80_half_up_unique a (j * 10 ^ s : ℕ) (by exact_mod_cast hw1)).exists
  choose near hn using hnear
  set D : ℝ := (j : ℝ) / 10 ^ p with hDd
  have hD : 0 < D := by positivity
  have hinj : ∀ x y : ℤ, (x : ℝ) * D = y * D → x = y := fun x y h => by exact_mod_cast mul_right_cancel₀ hD.ne' h
  have hmb : (l.map fun a : ℤ => (a : ℝ) / 10 ^ (p + s)).map (SeismoStats.binTo D) = (l.map near).map fun k : ℤ => (k : ℝ) * D := by
    rw [List.map_map, List.map_map]
    apply List.map_congr_left
    intro a _
    exact exact_binTo a s j p hj1 hs (near a) (hn a)
  obtain ⟨lo, n, hn1, hlo, hhi, heq⟩ := getFmd_eq (l.map fun a : ℤ => (a : ℝ) / 10 ^ (p + s)) D none .center (by
    unfold SeismoStats.eps
    rw [hDd, div_le_div_iff₀ (by positivity) (by positivity)]
    linarith) (by simpa using hne) (by simp)
  rw [hmb] at hlo hhi heq
  have hlo' : IsLeast {k | k ∈ l.map near} lo := by
    refine ⟨?_, fun k hk => ?_⟩
    · obtain ⟨k, hk, e⟩ := List.mem_map.1 hlo.1
      rw [← hinj _ _ e]; exact hk
    · have : (lo : ℝ) * D ≤ k * D := hlo.2 (List.mem_map.2 ⟨k, hk, rfl⟩)
      exact_mod_cast le_of_mul_le_mul_right this hD
  have hhi' : IsGreatest {k | k ∈ l.map near} (lo + n - 1) := by
    refine ⟨?_, fun k hk => ?_⟩
    · obtain ⟨k, hk, e⟩ := List.mem_map.1 hhi.1
      rw [← hinj _ _ e]; exact hk
    · have : (k : ℝ) * D ≤ ((lo + n - 1 : ℤ) : ℝ) * D := hhi.2 (List.mem_map.2 ⟨k, hk, rfl⟩)
      exact_mod_cast le_of_mul_le_mul_right this hD
  have hd := C82_fmd l s j p hj hj7 hs hr near (fun a _ => hn a) lo (lo + n - 1) hlo' hhi'
  have hN : (lo + n - 1 - lo).toNat + 1 = n := by omega
  rw [← hDd, hN] at hd
  refine ⟨grid lo n D, (l.map near).map fun k : ℤ => (k : ℝ) * D, (List.range n).map fun i : ℕ => (l.map near).count (lo + i), ?_, ?_⟩
  · rw [heq]
    dsimp only
    congr 3
    simp only [grid, List.map_map]
    apply List.map_congr_left
    intro i _
    simp only [Function.comp_apply, Option.getD_none]
    have hwo := weightWhere_ones (l.map fun a : ℤ => ((near a : ℤ) : ℝ) * D) (l.map fun a : ℤ => (a : ℝ)) (fun v => decide (v = ((lo + i : ℤ) : ℝ) * D)) (by simp)
    rw [List.map_map] at hwo
    refine Eq.trans hwo ?_
    rw [List.countP_map, List.count, List.countP_map]
    congr 1
    apply List.countP_congr
    intro k _
    simp only [Function.comp_apply, decide_eq_true_eq, beq_iff_eq]
    constructor
    · intro h
      apply hinj
      rw [h]
    · intro h
      rw [h]
  · rw [hd]
    simp only [grid, List.map_map]
    rfl

theorem cumsumFrom_concat (x : List ℕ) (a acc : ℕ) : cumsumFrom acc (x ++ [a]) = cumsumFrom acc x ++ [acc + x.sum + a] := by
  induction x generalizing acc with
  | nil => simp [cumsumFrom]
  | cons y r ih => simp [cumsumFrom, ih, add_assoc]

theorem count_sum (ks : List ℤ) (lo : ℤ) (n : ℕ) :
    ((List.range n).map fun i : ℕ => ks.count (lo + i)).sum = ks.countP fun k => decide (lo ≤ k ∧ k < lo + n) := by
  induction n with
  | zero =>
    simp only [List.range_zero, List.map_nil, List.sum_nil]
    symm
    rw [List.countP_eq_zero]
    intro k _
    simp
  | succ n ih =>
    rw [List.range_succ, List.map_append, List.sum_append, ih]
    simp only [List.map_cons, List.map_nil, List.sum_cons, List.sum_nil, add_zero]
    clear ih
    induction ks with
    | nil => simp
    | cons k r ih =>
      rw [List.count_cons, List.countP_cons, List.countP_cons]
      have : ((if decide (lo ≤ k ∧ k < lo + n) = true then 1 else 0) + (if (k == lo + n) = true then 1 else 0) : ℕ) =
          if decide (lo ≤ k ∧ k < lo + ((n + 1 : ℕ) : ℤ)) = true then 1 else 0 := by
        push_cast
        by_cases h1 : lo ≤ k ∧ k < lo + n
        · have h2 : k ≠ lo + n := by omega
          have h3 : lo ≤ k ∧ k < lo + (n + 1) := by omega
          simp [h1, h2, h3]
        · by_cases h2 : k = lo + n
          · have h3 : lo ≤ k ∧ k < lo + (n + 1) := by omega
            rw [if_neg (by simpa using h1), if_pos (by simpa using h2), if_pos (by simpa using h3)]
          · have h3 : ¬ (lo ≤ k ∧ k < lo + (n + 1)) := by omega
            rw [if_neg (by simpa using h1), if_neg (by simpa using h2), if_neg (by simpa using h3)]
      omega

theorem revCum_count (ks : List ℤ) (lo : ℤ) (n : ℕ) :
    (cumsumFrom 0 ((List.range n).map fun i : ℕ => ks.count (lo + i)).reverse).reverse =
      (List.range n).map fun i : ℕ => ks.countP fun k => decide (lo + i ≤ k ∧ k < lo + n) := by
  induction n generalizing lo with
  | zero => rfl
  | succ n ih =>
    have e : ∀ f : ℕ → ℕ, (List.range (n + 1)).map f = f 0 :: (List.range n).map fun i => f (i + 1) := by
      intro f; rw [List.range_succ_eq_map, List.map_cons, List.map_map]; rfl
    rw [e, e, List.reverse_cons, cumsumFrom_concat, List.reverse_append, List.sum_reverse]
    have h1 := ih (lo + 1)
    have e2 : ∀ i : ℕ, lo + 1 + (i : ℤ) = lo + ((i + 1 : ℕ) : ℤ) := by intro i; push_cast; ring
    simp only [e2] at h1
    rw [h1, List.reverse_singleton, List.singleton_append]
    congr 1
    · have h2 := count_sum ks lo (n + 1)
      rw [e, List.sum_cons] at h2
      simp only [Nat.cast_zero, add_zero, zero_add] at h2 ⊢
      rw [add_comm]
      exact h2

/-- C82: `get_cum_fmd`: the cumulative count of a bin is the exact number of magnitudes rounded to it or a larger one. -/
theorem C82_cumulative (l : List ℤ) (s j p : ℕ) (hj : (10 : ℝ) ^ p ≤ j * 10 ^ 12) (hj7 : (j : ℝ) ≤ 10 ^ 7) (hs : j * 10 ^ s ≤ 10 ^ 10)
    (hr : ∀ a ∈ l, |a| ≤ 1000 * (j * 10 ^ s : ℕ)) (near : ℤ → ℤ) (hn : ∀ a ∈ l, HalfUp a (j * 10 ^ s : ℕ) (near a))
    (lo hi : ℤ) (hlo : IsLeast {k | k ∈ l.map near} lo) (hhi : IsGreatest {k | k ∈ l.map near} hi) :
    Double.getCumFmd (l.map fun a : ℤ => rnd ((a : ℝ) / 10 ^ (p + s))) (rnd ((j : ℝ) / 10 ^ p)) p .center =
      .ok ((List.range ((hi - lo).toNat + 1)).map (fun i : ℕ => rnd ((lo + i : ℤ) * ((j : ℝ) / 10 ^ p))),
        (List.range ((hi - lo).toNat + 1)).map (fun i : ℕ => (l.map near).countP fun k => decide (lo + i ≤ k)),
        (l.map near).map fun k : ℤ => rnd (k * ((j : ℝ) / 10 ^ p))) := by
  unfold Double.getCumFmd
  rw [C82_fmd l s j p hj hj7 hs hr near hn lo hi hlo hhi]
  show Except.ok _ = Except.ok _
  congr 3
  rw [revCum_count]
  apply List.map_congr_left
  intro i hi'
  apply List.countP_congr
  intro k hk
  have h1 := hhi.2 hk
  have h2 : lo ≤ hi := hlo.2 hhi.1
  simp only [decide_eq_true_eq]
  omega

/-- C82: `estimate_mc_maxc` (NaN ignored): the fullest bin, of several the lowest, plus the correction. -/
theorem C82_maxc (l : List (Option ℤ)) (s j p : ℕ) (hne : ∃ a, some a ∈ l) (hj : (10 : ℝ) ^ p ≤ j * 10 ^ 12) (hj7 : (j : ℝ) ≤ 10 ^ 7) (hs : j * 10 ^ s ≤ 10 ^ 10)
    (hr : ∀ a, some a ∈ l → |a| ≤ 1000 * (j * 10 ^ s : ℕ)) (near : ℤ → ℤ) (hn : ∀ a, some a ∈ l → HalfUp a (j * 10 ^ s : ℕ) (near a)) (corr : ℝ) :
    ∃ k ∈ (l.filterMap id).map near, (∀ k', ((l.filterMap id).map near).count k' ≤ ((l.filterMap id).map near).count k) ∧
      (∀ k' < k, ((l.filterMap id).map near).count k' < ((l.filterMap id).map near).count k) ∧
      Double.mcMaxc (l.map (Option.map fun a : ℤ => rnd ((a : ℝ) / 10 ^ (p + s)))) (rnd ((j : ℝ) / 10 ^ p)) p corr =
        .ok (Double.add (rnd (k * ((j : ℝ) / 10 ^ p))) corr) := by
  have hmem : ∀ a, a ∈ l.filterMap id → some a ∈ l := by
    intro a ha
    obtain ⟨o, ho, h⟩ := List.mem_filterMap.1 ha
    simp only [id] at h
    rw [← h]; exact ho
  have hfm : (l.map (Option.map fun a : ℤ => rnd ((a : ℝ) / 10 ^ (p + s)))).filterMap id = (l.filterMap id).map fun a : ℤ => rnd ((a : ℝ) / 10 ^ (p + s)) := by
    rw [List.filterMap_map]
    clear hne hr hn hmem
    induction l with
    | nil => rfl
    | cons o r ih =>
      cases o <;> simpa [List.filterMap_cons] using ih
  obtain ⟨a0, ha0⟩ := hne
  set ks := (l.filterMap id).map near with hks
  have hk0 : near a0 ∈ ks := List.mem_map.2 ⟨a0, List.mem_filterMap.2 ⟨some a0, ha0, rfl⟩, rfl⟩
  have hfne : ks.toFinset.Nonempty := ⟨near a0, by simpa using hk0⟩
  have hlo : IsLeast {k | k ∈ ks} (ks.toFinset.min' hfne) := by
    have h := ks.toFinset.isLeast_min' hfne
    simpa using h
  have hhi : IsGreatest {k | k ∈ ks} (ks.toFinset.max' hfne) := by
    have h := ks.toFinset.isGreatest_max' hfne
    simpa using h
  set lo := ks.toFinset.min' hfne
  set hi := ks.toFinset.max' hfne
  have hle : lo ≤ hi := hlo.2 hhi.1
  have hf := C82_fmd (l.filterMap id) s j p hj hj7 hs (fun a ha => hr a (hmem a ha)) near (fun a ha => hn a (hmem a ha)) lo hi hlo hhi
  set n := (hi - lo).toNat + 1 with hnd
  set counts := (List.range n).map (fun i : ℕ => ks.count (lo + i)) with hcd
  set D : ℝ := (j : ℝ) / 10 ^ p
  -- the fullest bin
  have hcl : counts.length = n := by rw [hcd]; simp
  have hex : ∃ c ∈ counts, (counts.all fun d => decide (d ≤ c)) = true := by
    have hcne : counts.toFinset.Nonempty := ⟨ks.count (lo + (0 : ℕ)), by
      rw [List.mem_toFinset, hcd]; exact List.mem_map.2 ⟨0, by rw [List.mem_range]; omega, rfl⟩⟩
    refine ⟨counts.toFinset.max' hcne, by simpa using counts.toFinset.max'_mem hcne, ?_⟩
    rw [List.all_eq_true]
    intro d hd
    simp only [decide_eq_true_eq]
    exact Finset.le_max' _ _ (by simpa using hd)
  set t := Double.argmaxNat counts with ht
  have htl : t < counts.length := List.findIdx_lt_length_of_exists hex
  have hmax := List.findIdx_getElem (w := htl)
  rw [List.all_eq_true] at hmax
  have hct : counts[t] = ks.count (lo + t) := by simp [hcd]
  have hall : ∀ k', ks.count k' ≤ ks.count (lo + t) := by
    intro k'
    by_cases hk' : k' ∈ ks
    · have h1 := hlo.2 hk'
      have h2 := hhi.2 hk'
      have hm : ks.count k' ∈ counts := by
        rw [hcd]
        refine List.mem_map.2 ⟨(k' - lo).toNat, by rw [List.mem_range]; omega, ?_⟩
        congr 1
        omega
      have := hmax _ hm
      rw [decide_eq_true_eq] at this
      rw [← hct]
      exact this
    · rw [List.count_eq_zero_of_not_mem hk']; exact Nat.zero_le _
  have hpos : 0 < ks.count (lo + t) := lt_of_lt_of_le (List.count_pos_iff.2 hk0) (hall (near a0))
  refine ⟨lo + t, List.count_pos_iff.1 hpos, hall, ?_, ?_⟩
  · intro k' hk'
    rcases (hall k').lt_or_eq with h | h
    · exact h
    · exfalso
      have hin : k' ∈ ks := List.count_pos_iff.1 (by rw [h]; exact hpos)
      have h1 := hlo.2 hin
      have hi1 : (k' - lo).toNat < t := by omega
      have hnot := List.not_of_lt_findIdx (p := fun c => counts.all fun d => decide (d ≤ c)) (xs := counts) hi1
      apply absurd hnot
      rw [Bool.not_eq_false, List.all_eq_true]
      intro d hd
      rw [decide_eq_true_eq]
      have e1 : counts[(k' - lo).toNat]'(by omega) = ks.count k' := by
        simp only [hcd, List.getElem_map, List.getElem_range]
        congr 1
        omega
      rw [e1, h, ← hct]
      have := hmax d hd
      rw [decide_eq_true_eq] at this
      exact this
  · unfold Double.mcMaxc
    rw [hfm, hf]
    show Except.ok _ = Except.ok _
    congr 2
    rw [List.getD_eq_getElem _ _ (by rw [List.length_map, List.length_range, ← hcl]; exact htl)]
    simp only [List.getElem_map, List.getElem_range]
    rfl

/-- C82: the completeness magnitude found (fullest bin `k`, correction of `c` bins) is in general not the double of a decimal number, but an estimator given
this `mc` uses exactly the events in bin `k + c` and above. -/
theorem C82_maxc_selection (D : ℝ) (hD : 0 < D) (k c : ℤ) (hk : |(k : ℝ)| ≤ 10 ^ 6) (hc : |(c : ℝ)| ≤ 10 ^ 6) (ks : List (Option ℤ))
    (hks : ∀ x, some x ∈ ks → |(x : ℝ)| ≤ 10 ^ 6) :
    Double.selIdx (ks.map (Option.map fun x : ℤ => rnd (x * D))) (Double.add (rnd (k * D)) (rnd (c * D))) (rnd D) =
      (List.range ks.length).filter fun i => match ks.getD i none with
        | some x => decide (k + c ≤ x)
        | none => false := by
  have h1 := grid_near hD hk
  have h2 := grid_near hD hc
  have hb : |((k + c : ℤ) : ℝ) * D| ≤ 2 * 10 ^ 6 * D := by
    rw [abs_mul, abs_of_pos hD]
    apply mul_le_mul_of_nonneg_right _ hD.le
    push_cast
    have := abs_add_le (k : ℝ) c
    linarith
  have h3 : |Double.add (rnd (k * D)) (rnd (c * D)) - ((k + c : ℤ) : ℝ) * D| ≤ D / 10 := by
    have e : rnd (k * D) + rnd (c * D) - ((k + c : ℤ) : ℝ) * D = (rnd (k * D) - k * D) + (rnd (c * D) - c * D) := by push_cast; ring
    have h4 := abs_add_le (rnd (k * D) - k * D) (rnd (c * D) - c * D)
    rw [← e] at h4
    have h5 := Double.rnd_close (x := rnd (k * D) + rnd (c * D)) (X := ((k + c : ℤ) : ℝ) * D) (ε := D / 1000) (c := (2 * 10 ^ 6 + 1) * D)
      (by norm_num at h1 h2 h4 ⊢; linarith) (by norm_num at hb ⊢; linarith)
    unfold Double.add
    norm_num at h5 ⊢
    linarith
  unfold Double.selIdx
  rw [List.length_map]
  apply List.filter_congr
  intro i hi
  rw [List.mem_range] at hi
  have e : (ks.map (Option.map fun x : ℤ => rnd (x * D))).getD i none = (ks.getD i none).map fun x : ℤ => rnd (x * D) := by
    rw [List.getD_eq_getElem _ _ (by simpa using hi), List.getD_eq_getElem _ _ hi, List.getElem_map]
  rw [e]
  have hm : ks.getD i none ∈ ks := by rw [List.getD_eq_getElem _ _ hi]; exact List.getElem_mem hi
  cases h : ks.getD i none with
  | none => rfl
  | some x =>
    rw [h] at hm
    simp only [Option.map_some]
    apply decide_eq_decide.2
    apply C81_threshold_noise 0 D hD _ _ x (k + c)
    · have := grid_near hD (hks x hm)
      rw [zero_add]
      norm_num at this ⊢
      linarith
    · rw [zero_add]; exact h3
    · rw [zero_add]
      norm_num at hb ⊢
      linarith

/-- Magnitudes 1.04, 1.06, 1.1, 1.25, bins of 0.1: bins 1.0 to 1.3 (1.25 goes up), counts 1, 2, 0, 1. -/
example : Double.getFmd ([104, 106, 110, 125].map fun a : ℤ => rnd ((a : ℝ) / 10 ^ (1 + 1))) (rnd (((1 : ℕ) : ℝ) / 10 ^ 1)) 1 .center =
    .ok ((List.range 4).map (fun i : ℕ => rnd ((10 + i : ℤ) * (((1 : ℕ) : ℝ) / 10 ^ 1))), [1, 2, 0, 1],
      [10, 11, 11, 13].map fun k : ℤ => rnd (k * (((1 : ℕ) : ℝ) / 10 ^ 1))) := by
  have h := C82_fmd [104, 106, 110, 125] 1 1 1 (by norm_num) (by norm_num) (by norm_num)
    (by intro a ha; simp at ha; rcases ha with rfl | rfl | rfl | rfl <;> norm_num)
    (fun a => (2 * a + 10) / 20) (by intro a ha; simp at ha; rcases ha with rfl | rfl | rfl | rfl <;> (unfold HalfUp; norm_num))
    10 13 (by
      constructor
      · simp
      · intro k hk
        simp at hk
        omega) (by
      constructor
      · simp
      · intro k hk
        simp at hk
        omega)
  exact h

end
end SeismoStats.Props
