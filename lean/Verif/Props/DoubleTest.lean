/-
Property C84: the test of the binning in double precision.
-/
import Verif.Props.DoubleSelect
import Verif.Proofs.DoubleTest

namespace SeismoStats.Props
open SeismoStats SeismoStats.Spec.Double
open SeismoStats.Double (rnd rnd_err rnd_pos rnd_rnd)
open Classical
noncomputable section

theorem rnd_lower {x : ℝ} (h : 0 ≤ x) : x * (1 - 12 / 10 ^ 17) ≤ rnd x ∧ rnd x ≤ x * (1 + 12 / 10 ^ 17) := by
  have := abs_le.1 (rnd_lt_err (le_of_eq (abs_of_nonneg h)))
  constructor <;> linarith [this.1, this.2]

/-- The tolerance is about `1e-15 + 1e-16 * |z|`. -/
theorem tol_bounds (z : ℝ) : (1 / 10 ^ 15 + |z| / 10 ^ 16) * (1 - 5 / 10 ^ 16) ≤ Double.add Double.tol0 (Double.mul (rnd (1 / 10 ^ 16)) |z|) ∧
    Double.add Double.tol0 (Double.mul (rnd (1 / 10 ^ 16)) |z|) ≤ (1 / 10 ^ 15 + |z| / 10 ^ 16) * (1 + 5 / 10 ^ 16) := by
  have hz := abs_nonneg z
  obtain ⟨a1, a2⟩ : 1 / 10 ^ 15 * (1 - 12 / 10 ^ 17) ≤ Double.tol0 ∧ Double.tol0 ≤ 1 / 10 ^ 15 * (1 + 12 / 10 ^ 17) := rnd_lower (by norm_num)
  obtain ⟨b1, b2⟩ := rnd_lower (x := 1 / 10 ^ 16) (by norm_num)
  set r := rnd (1 / 10 ^ 16)
  have hr0 : 0 ≤ r := le_trans (by norm_num) b1
  obtain ⟨c1, c2⟩ : r * |z| * (1 - 12 / 10 ^ 17) ≤ Double.mul r |z| ∧ Double.mul r |z| ≤ r * |z| * (1 + 12 / 10 ^ 17) := rnd_lower (mul_nonneg hr0 hz)
  have m1 := mul_le_mul_of_nonneg_right b1 hz
  have m2 := mul_le_mul_of_nonneg_right b2 hz
  have hm : 0 ≤ Double.mul r |z| := le_trans (mul_nonneg (mul_nonneg hr0 hz) (by norm_num)) c1
  have ht : 0 ≤ Double.tol0 := le_trans (by norm_num) a1
  obtain ⟨d1, d2⟩ : (Double.tol0 + Double.mul r |z|) * (1 - 12 / 10 ^ 17) ≤ Double.add Double.tol0 (Double.mul r |z|) ∧
      Double.add Double.tol0 (Double.mul r |z|) ≤ (Double.tol0 + Double.mul r |z|) * (1 + 12 / 10 ^ 17) := rnd_lower (by linarith)
  set t := Double.mul r |z|
  set y := |z|
  set ry := r * y
  constructor
  · refine le_trans ?_ d1
    norm_num at a1 c1 m1 ⊢
    linarith
  · refine le_trans d2 ?_
    norm_num at a2 c2 m2 ⊢
    linarith

/-- A multiple of `10 ^ -p`, `p ≤ 12`, is equal to or at least `1e-12` away from each whole number. -/
theorem decimal_sep (n : ℤ) (p : ℕ) (hp : p ≤ 12) (e : ℤ) :
    (n : ℝ) / 10 ^ p = e ∨ (n : ℝ) / 10 ^ p ≤ e - 1 / 10 ^ 12 ∨ e + 1 / 10 ^ 12 ≤ (n : ℝ) / 10 ^ p := by
  have hP : (0 : ℝ) < 10 ^ p := by positivity
  have hP12 : (10 : ℝ) ^ p ≤ 10 ^ 12 := pow_le_pow_right₀ (by norm_num) hp
  have h1 : (1 : ℝ) / 10 ^ 12 ≤ 1 / 10 ^ p := one_div_le_one_div_of_le hP hP12
  rcases lt_trichotomy n (e * 10 ^ p) with h | h | h
  · right; left
    have h2 : n + 1 ≤ e * 10 ^ p := by omega
    have h3 : (n : ℝ) + 1 ≤ e * 10 ^ p := by exact_mod_cast h2
    have h4 : ((n : ℝ) + 1) / 10 ^ p ≤ e := by rw [div_le_iff₀ hP]; exact h3
    rw [add_div] at h4
    linarith
  · left
    rw [div_eq_iff hP.ne']
    exact_mod_cast h
  · right; right
    have h2 : e * 10 ^ p + 1 ≤ n := by omega
    have h3 : (e : ℝ) * 10 ^ p + 1 ≤ n := by exact_mod_cast h2
    have h4 : (e : ℝ) ≤ (n - 1) / 10 ^ p := by rw [le_div_iff₀ hP]; linarith
    rw [sub_div] at h4
    linarith

/-- C84: magnitudes that are the doubles of decimal multiples of the bin size `j / 10^p` (NaN: `none`) and at most 8: `binning_test` with the default
tolerance accepts them, whatever their rounding errors. So the estimators do not reject correctly binned magnitudes of at most 8. -/
theorem C84_accepts (ks : List (Option ℤ)) (hne : ∃ k, some k ∈ ks) (j p : ℕ) (hj : (10 : ℝ) ^ p ≤ j * 10 ^ 12) (hp : p ≤ 12)
    (hk : ∀ k, some k ∈ ks → |(k : ℝ) * ((j : ℝ) / 10 ^ p)| ≤ 8) :
    Double.binningTest (ks.map (Option.map fun k : ℤ => rnd (k * ((j : ℝ) / 10 ^ p)))) (rnd ((j : ℝ) / 10 ^ p)) p Double.tol0 none = .ok true := by
  have hj1 : 1 ≤ j := by
    rcases Nat.eq_zero_or_pos j with h | h
    · subst h; simp at hj; linarith [pow_pos (by norm_num : (0 : ℝ) < 10) p]
    · exact h
  have hj' : (1 : ℝ) ≤ j := by exact_mod_cast hj1
  have heps : Double.eps ≤ rnd ((j : ℝ) / 10 ^ p) := by
    apply Double.rnd_mono
    rw [div_le_div_iff₀ (by positivity) (by positivity)]
    linarith
  set D : ℝ := (j : ℝ) / 10 ^ p with hDd
  have hD : 0 < D := by positivity
  set δ := rnd D
  set g : ℤ → ℝ := fun k => rnd (k * D) with hg
  have hfm : (ks.map (Option.map g)).filterMap id = (ks.filterMap id).map g := by
    rw [List.filterMap_map]
    clear hne hk
    induction ks with
    | nil => rfl
    | cons o r ih => cases o <;> simpa [List.filterMap_cons] using ih
  set l := ks.filterMap id with hl
  have hmem : ∀ k ∈ l, some k ∈ ks := by
    intro k hk'
    obtain ⟨o, ho, h⟩ := List.mem_filterMap.1 hk'
    simp only [id] at h
    rw [← h]; exact ho
  obtain ⟨k0, hk0⟩ := hne
  have hl0 : k0 ∈ l := List.mem_filterMap.2 ⟨some k0, hk0, rfl⟩
  have hfne : l.toFinset.Nonempty := ⟨k0, by simpa using hl0⟩
  have hlo : IsLeast {k | k ∈ l} (l.toFinset.min' hfne) := by
    have h := l.toFinset.isLeast_min' hfne
    simpa using h
  set lo := l.toFinset.min' hfne
  have hmin : amin? (l.map g) = some (g lo) := by
    rw [amin?_eq_some_iff]
    refine ⟨List.mem_map.2 ⟨lo, hlo.1, rfl⟩, ?_⟩
    intro x hx
    obtain ⟨k, hk', rfl⟩ := List.mem_map.1 hx
    exact Double.rnd_mono (mul_le_mul_of_nonneg_right (by exact_mod_cast hlo.2 hk') hD.le)
  have htol : Double.tol0 ≤ Double.eps := Double.rnd_mono (by norm_num)
  unfold Double.binningTest
  rw [hfm, hmin]
  dsimp only
  unfold Double.testShifted
  rw [if_neg (not_lt.2 (htol.trans heps))]
  unfold Double.equalsBinned
  rw [if_neg (not_lt.2 heps)]
  have hall : ((l.map g).map fun v => Double.sub v (g lo)).all (fun v => Double.isClose Double.tol0 (Double.binTo δ p v) v) = true := by
    rw [List.map_map, List.all_eq_true]
    intro v hv
    obtain ⟨k, hk', rfl⟩ := List.mem_map.1 hv
    simp only [Function.comp_apply]
    have hM := hk k (hmem k hk')
    have hN := hk lo (hmem lo hlo.1)
    have hle : lo ≤ k := hlo.2 hk'
    have hNM : (lo : ℝ) * D ≤ k * D := mul_le_mul_of_nonneg_right (by exact_mod_cast hle) hD.le
    have hZ : (k : ℝ) * D - lo * D = ((k - lo : ℤ) : ℝ) * D := by push_cast; ring
    have hZ0 : 0 ≤ (k : ℝ) * D - lo * D := by linarith
    have hZn : (k : ℝ) * D - lo * D = (((k - lo) * j : ℤ) : ℝ) / 10 ^ p := by rw [hZ, hDd]; push_cast; ring
    have hM' := abs_le.1 hM
    have hN' := abs_le.1 hN
    have herr := Double.test_err hM hN hNM (by
      intro e he
      simp only [List.mem_cons, List.not_mem_nil, or_false] at he
      rw [hZn]
      rcases he with rfl | rfl | rfl
      · exact_mod_cast decimal_sep ((k - lo) * j) p hp 2
      · exact_mod_cast decimal_sep ((k - lo) * j) p hp 4
      · exact_mod_cast decimal_sep ((k - lo) * j) p hp 8)
    -- the binned value
    set z := Double.sub (g k) (g lo) with hz
    set Z := (k : ℝ) * D - lo * D with hZd
    have hzZ : |z - Z| ≤ 5 / 10 ^ 15 := by
      have h1 := rnd_lt_err hM
      have h2 := rnd_lt_err hN
      have h3 : |g k - g lo - Z| ≤ 2 / 10 ^ 15 := by
        have e : g k - g lo - Z = (rnd (k * D) - k * D) - (rnd (lo * D) - lo * D) := by rw [hg, hZd]; ring
        rw [e]
        have := abs_sub (rnd (k * D) - k * D) (rnd (lo * D) - lo * D)
        norm_num at this h1 h2 ⊢
        linarith
      have h4 := Double.rnd_close (c := 17) h3 (by rw [abs_of_nonneg hZ0]; norm_num; linarith [hM'.2, hN'.1])
      have e : z = rnd (g k - g lo) := rfl
      rw [e]
      norm_num at h4 ⊢
      linarith
    have hDmin : 1 / 10 ^ 12 ≤ D := by
      rw [hDd, div_le_div_iff₀ (by positivity) (by positivity)]
      linarith
    have hb : Double.binTo δ p z = rnd Z := by
      have hkl : |((k - lo : ℤ) : ℝ)| * j ≤ 10 ^ 14 := by
        have e1 : |((k - lo : ℤ) : ℝ)| * D ≤ 16 := by
          rw [← abs_of_pos hD, ← abs_mul, ← hZ, abs_of_nonneg hZ0]
          linarith [hM'.2, hN'.1]
        have hP : (0 : ℝ) < 10 ^ p := by positivity
        have hP12 : (10 : ℝ) ^ p ≤ 10 ^ 12 := pow_le_pow_right₀ (by norm_num) hp
        have e2 : |((k - lo : ℤ) : ℝ)| * j = |((k - lo : ℤ) : ℝ)| * D * 10 ^ p := by rw [hDd]; field_simp
        rw [e2]
        calc |((k - lo : ℤ) : ℝ)| * D * 10 ^ p ≤ 16 * 10 ^ 12 := mul_le_mul e1 hP12 hP.le (by norm_num)
          _ ≤ 10 ^ 14 := by norm_num
      have := binTo_near z (k - lo) j p hj1 hkl (by
        rw [← hDd, ← hZ]
        norm_num at hzZ hDmin ⊢
        linarith)
      rw [hZ]
      exact this
    rw [hb]
    unfold Double.isClose
    rw [decide_eq_true_eq]
    refine le_trans ?_ (tol_bounds z).1
    have hbz : |rnd Z - z| ≤ 9999 / 10 ^ 19 + Z / 10 ^ 16 * (999 / 1000) := herr
    have h1 : |Double.sub (rnd Z) z| ≤ |rnd Z - z| * (1 + 12 / 10 ^ 17) := by
      unfold Double.sub
      have h2 := rnd_lt_err (le_refl |rnd Z - z|)
      have h3 := abs_add_le (rnd (rnd Z - z) - (rnd Z - z)) (rnd Z - z)
      rw [sub_add_cancel] at h3
      linarith
    have hza : Z - 5 / 10 ^ 15 ≤ |z| := by
      have := (abs_le.1 hzZ).1
      linarith [le_abs_self z]
    have hbb := mul_le_mul_of_nonneg_right hbz (by norm_num : (0 : ℝ) ≤ 1 + 12 / 10 ^ 17)
    norm_num at *
    linarith
  rw [show (((l.map g).map fun v => Double.sub v (g lo)).all (fun v => Double.isClose Double.tol0 (Double.binTo δ p v) v)) = true from hall]
  rfl

/-- C84: numbers of at most 10 (NaN: `none`) of which one is, counted from the smallest, further than `2e-14` from every multiple of the bin size (0.000…01 to
10): the test fails, with and without `check_larger_binning`. -/
theorem C84_rejects (x : List (Option ℝ)) (j p : ℕ) (hj : (10 : ℝ) ^ p ≤ j * 10 ^ 12) (hp : p ≤ 11) (hj2 : (j : ℝ) ≤ 10 * 10 ^ p)
    (hx : ∀ v, some v ∈ x → |v| ≤ 10) (lo v : ℝ) (hlo : some lo ∈ x) (hmin : ∀ w, some w ∈ x → lo ≤ w) (hv : some v ∈ x)
    (hoff : ∀ K : ℤ, 2 / 10 ^ 14 ≤ |v - lo - K * ((j : ℝ) / 10 ^ p)|) (larger : Option (ℝ × ℕ)) :
    Double.binningTest x (rnd ((j : ℝ) / 10 ^ p)) p Double.tol0 larger = .ok false := by
  have hj1 : 1 ≤ j := by
    rcases Nat.eq_zero_or_pos j with h | h
    · subst h; simp at hj; linarith [pow_pos (by norm_num : (0 : ℝ) < 10) p]
    · exact h
  have heps : Double.eps ≤ rnd ((j : ℝ) / 10 ^ p) := by
    apply Double.rnd_mono
    rw [div_le_div_iff₀ (by positivity) (by positivity)]
    linarith
  have hmem : ∀ w, w ∈ x.filterMap id ↔ some w ∈ x := by
    intro w
    rw [List.mem_filterMap]
    constructor
    · rintro ⟨o, ho, h⟩
      simp only [id] at h
      rw [← h]; exact ho
    · intro h; exact ⟨some w, h, rfl⟩
  have hm : amin? (x.filterMap id) = some lo := by
    rw [amin?_eq_some_iff]
    exact ⟨(hmem lo).2 hlo, fun w hw => hmin w ((hmem w).1 hw)⟩
  have htol : Double.tol0 ≤ Double.eps := Double.rnd_mono (by norm_num)
  unfold Double.binningTest
  rw [hm]
  dsimp only
  unfold Double.testShifted
  rw [if_neg (not_lt.2 (htol.trans heps))]
  unfold Double.equalsBinned
  rw [if_neg (not_lt.2 heps)]
  have hbad : (((x.filterMap id).map fun v => Double.sub v lo).all fun v => Double.isClose Double.tol0 (Double.binTo (rnd ((j : ℝ) / 10 ^ p)) p v) v) = false := by
    rw [List.all_eq_false]
    refine ⟨Double.sub v lo, List.mem_map.2 ⟨v, (hmem v).2 hv, rfl⟩, ?_⟩
    unfold Double.isClose
    rw [decide_eq_true_eq, not_le]
    have hV := hx v hv
    have hL := hx lo hlo
    have hd : |v - lo| ≤ 20 := (abs_sub v lo).trans (by linarith)
    have e1 := rnd_lt_err hd
    set z := Double.sub v lo with hz
    have e1' : |z - (v - lo)| ≤ 20 * (12 / 10 ^ 17) := e1
    have hzb : |z| ≤ 21 := by
      have := abs_add_le (z - (v - lo)) (v - lo)
      rw [sub_add_cancel] at this
      norm_num at e1' ⊢
      linarith
    have hP : (0 : ℝ) < 10 ^ p := by positivity
    have hP11 : (10 : ℝ) ^ p ≤ 10 ^ 11 := pow_le_pow_right₀ (by norm_num) hp
    obtain ⟨K, hb, -, hK⟩ := binTo_form z j p hj1 (hj2.trans ((mul_le_mul_of_nonneg_left hP11 (by norm_num)).trans (by norm_num))) (by
      calc |z| * 10 ^ p ≤ 21 * 10 ^ 11 := mul_le_mul hzb hP11 hP.le (by norm_num)
        _ ≤ 10 ^ 13 := by norm_num)
    rw [hb]
    have hj' : (1 : ℝ) ≤ j := by exact_mod_cast hj1
    set D : ℝ := (j : ℝ) / 10 ^ p with hDd
    have hD : 0 < D := by positivity
    have hD10 : D ≤ 10 := by rw [hDd, div_le_iff₀ hP]; exact hj2
    have hKD : |(K : ℝ) * D| ≤ 51 := by
      rw [abs_mul, abs_of_pos hD]
      have h1 := mul_le_mul_of_nonneg_right hK hD.le
      rw [add_mul, abs_div, abs_of_pos hD, div_mul_cancel₀ _ hD.ne'] at h1
      linarith
    have e2 := rnd_lt_err hKD
    have hK2 := hoff K
    have h3 : |v - lo - K * D| ≤ |z - (v - lo)| + |rnd (K * D) - K * D| + |rnd (K * D) - z| := by
      have e : v - lo - K * D = (rnd (K * D) - K * D) - (z - (v - lo)) - (rnd (K * D) - z) := by ring
      rw [e]
      have a := abs_sub ((rnd (K * D) - K * D) - (z - (v - lo))) (rnd (K * D) - z)
      have b := abs_sub (rnd (K * D) - K * D) (z - (v - lo))
      linarith
    set u := rnd (K * D) - z with hu
    have h4 : |u| ≤ |Double.sub (rnd (K * D)) z| + |u| * (12 / 10 ^ 17) := by
      have h2 := rnd_lt_err (le_refl |u|)
      have h5 : |u| ≤ |rnd u| + |rnd u - u| := by
        have := abs_sub (rnd u) (rnd u - u)
        rwa [sub_sub_cancel] at this
      have e : Double.sub (rnd (K * D)) z = rnd u := rfl
      rw [e]
      linarith
    refine lt_of_le_of_lt (tol_bounds z).2 ?_
    norm_num at e1' hzb e2 hK2 h3 h4 ⊢
    linarith
  rw [hbad]
  cases larger <;> rfl

theorem rnd_7_4 : rnd (74 / 10) = 8331659310635418 * (2 : ℝ) ^ (-50 : ℤ) := by
  have := Double.rnd_eq_of (x := 74 / 10) 8331659310635418 (-50) (by norm_num) (by norm_num) (by norm_num [abs_lt])
  exact_mod_cast this

theorem rnd_8_2 : rnd (82 / 10) = 4616189618054758 * (2 : ℝ) ^ (-49 : ℤ) := by
  have := Double.rnd_eq_of (x := 82 / 10) 4616189618054758 (-49) (by norm_num) (by norm_num) (by norm_num [abs_lt])
  exact_mod_cast this

theorem rnd_0_8 : rnd (8 / 10) = 7205759403792794 * (2 : ℝ) ^ (-53 : ℤ) := by
  have := Double.rnd_eq_of (x := 8 / 10) 7205759403792794 (-53) (by norm_num) (by norm_num) (by norm_num [abs_lt])
  exact_mod_cast this

/-- C84 (defect): the bound of 8 in `C84_accepts` cannot be dropped: the magnitudes 7.4 and 8.2, binned to 0.1, are rejected, since the double of 8.2 is
further from 8.2 than the tolerance allows. -/
theorem C84_defect_rejects_binned (larger : Option (ℝ × ℕ)) :
    Double.binningTest [some (rnd (74 / 10)), some (rnd (82 / 10))] (rnd (1 / 10 ^ 1)) 1 Double.tol0 larger = .ok false := by
  have hle : rnd (74 / 10) ≤ rnd (82 / 10) := Double.rnd_mono (by norm_num)
  have heps : Double.eps ≤ rnd (1 / 10 ^ 1) := Double.rnd_mono (by norm_num)
  have htol : Double.tol0 ≤ Double.eps := Double.rnd_mono (by norm_num)
  have hm : amin? [rnd (74 / 10), rnd (82 / 10)] = some (rnd (74 / 10)) := by
    rw [amin?_eq_some_iff]
    refine ⟨by simp, ?_⟩
    intro w hw
    simp only [List.mem_cons, List.not_mem_nil, or_false, Set.mem_setOf_eq] at hw
    rcases hw with rfl | rfl
    · exact le_refl _
    · exact hle
  have hz : Double.sub (rnd (82 / 10)) (rnd (74 / 10)) = 7205759403792784 * (2 : ℝ) ^ (-53 : ℤ) := by
    unfold Double.sub
    rw [rnd_7_4, rnd_8_2]
    have e : (4616189618054758 * (2 : ℝ) ^ (-49 : ℤ) - 8331659310635418 * (2 : ℝ) ^ (-50 : ℤ)) = ((7205759403792784 : ℤ) : ℝ) * 2 ^ (-53 : ℤ) := by norm_num
    rw [e]
    have := Double.rnd_exact (x := ((7205759403792784 : ℤ) : ℝ) * 2 ^ (-53 : ℤ)) 7205759403792784 (-53) (by norm_num) rfl
    rw [this]
    norm_num
  have hb : Double.binTo (rnd (1 / 10 ^ 1)) 1 (Double.sub (rnd (82 / 10)) (rnd (74 / 10))) = rnd (8 / 10) := by
    have := binTo_near (Double.sub (rnd (82 / 10)) (rnd (74 / 10))) 8 1 1 (by norm_num) (by norm_num) (by rw [hz]; norm_num [abs_le])
    norm_num at this ⊢
    exact this
  unfold Double.binningTest
  have hfm : ([some (rnd (74 / 10)), some (rnd (82 / 10))] : List (Option ℝ)).filterMap id = [rnd (74 / 10), rnd (82 / 10)] := rfl
  rw [hfm, hm]
  dsimp only
  unfold Double.testShifted
  rw [if_neg (not_lt.2 (htol.trans heps))]
  unfold Double.equalsBinned
  rw [if_neg (not_lt.2 heps)]
  have hbad : (([rnd (74 / 10), rnd (82 / 10)].map fun v => Double.sub v (rnd (74 / 10))).all fun v =>
      Double.isClose Double.tol0 (Double.binTo (rnd (1 / 10 ^ 1)) 1 v) v) = false := by
    rw [List.all_eq_false]
    refine ⟨Double.sub (rnd (82 / 10)) (rnd (74 / 10)), by simp, ?_⟩
    unfold Double.isClose
    rw [decide_eq_true_eq, not_le, hb, hz, rnd_0_8]
    have hs : Double.sub (7205759403792794 * (2 : ℝ) ^ (-53 : ℤ)) (7205759403792784 * (2 : ℝ) ^ (-53 : ℤ)) = 10 * (2 : ℝ) ^ (-53 : ℤ) := by
      unfold Double.sub
      have e : (7205759403792794 * (2 : ℝ) ^ (-53 : ℤ) - 7205759403792784 * (2 : ℝ) ^ (-53 : ℤ)) = ((10 : ℤ) : ℝ) * 2 ^ (-53 : ℤ) := by norm_num
      rw [e]
      have := Double.rnd_exact (x := ((10 : ℤ) : ℝ) * 2 ^ (-53 : ℤ)) 10 (-53) (by norm_num) rfl
      rw [this]
      norm_num
    rw [hs]
    refine lt_of_le_of_lt (tol_bounds _).2 ?_
    have hz0 : |(7205759403792784 : ℝ) * (2 : ℝ) ^ (-53 : ℤ)| = 7205759403792784 / 9007199254740992 := by
      rw [abs_of_nonneg (mul_nonneg (by norm_num) (zpow_pos (by norm_num) _).le)]
      norm_num
    have h10 : |(10 : ℝ) * (2 : ℝ) ^ (-53 : ℤ)| = 10 / 9007199254740992 := by
      rw [abs_of_nonneg (mul_nonneg (by norm_num) (zpow_pos (by norm_num) _).le)]
      norm_num
    rw [hz0, h10]
    norm_num
  rw [hbad]
  cases larger <;> rfl

/-- The magnitudes 0.3, 2.7, 7.9 and NaN are accepted for a bin size of 0.1. -/
example : Double.binningTest [some (rnd (3 * (1 / 10 ^ 1))), none, some (rnd (27 * (1 / 10 ^ 1))), some (rnd (79 * (1 / 10 ^ 1)))]
    (rnd (1 / 10 ^ 1)) 1 Double.tol0 none = .ok true := by
  have h := C84_accepts [some 3, none, some 27, some 79] ⟨3, by simp⟩ 1 1 (by norm_num) (by norm_num)
    (by intro k hk; simp at hk; rcases hk with rfl | rfl | rfl <;> norm_num [abs_le])
  simpa using h

/-- Halves are not multiples of 0.3. -/
example : Double.binningTest [some 1, some (3 / 2), none] (rnd (3 / 10 ^ 1)) 1 Double.tol0 none = .ok false := by
  have h := C84_rejects [some 1, some (3 / 2), none] 3 1 (by norm_num) (by norm_num) (by norm_num)
    (by intro v hv; simp at hv; rcases hv with rfl | rfl <;> norm_num [abs_le]) 1 (3 / 2) (by simp)
    (by intro v hv; simp at hv; rcases hv with rfl | rfl <;> norm_num) (by simp)
    (by
      intro K
      have : (5 - 3 * K : ℤ) ≤ -1 ∨ 1 ≤ (5 - 3 * K : ℤ) := by omega
      rcases this with h | h
      · have h' : (5 : ℝ) - 3 * K ≤ -1 := by exact_mod_cast h
        rw [le_abs]; right; push_cast; norm_num; linarith
      · have h' : (1 : ℝ) ≤ 5 - 3 * K := by exact_mod_cast h
        rw [le_abs]; left; push_cast; norm_num; linarith) none
  exact_mod_cast h

/-- C84: a bin size below the tolerance: always accepted, whatever the numbers are (if there is one that is not NaN). -/
theorem C84_tiny (x : List (Option ℝ)) (h : ∃ v, some v ∈ x) (δ tol : ℝ) (hδ : δ < tol) (p : ℕ) (larger : Option (ℝ × ℕ)) :
    Double.binningTest x δ p tol larger = .ok true := by
  obtain ⟨v, hv⟩ := h
  have hm : v ∈ x.filterMap id := List.mem_filterMap.2 ⟨some v, hv, rfl⟩
  unfold Double.binningTest
  cases e : amin? (x.filterMap id) with
  | none =>
    rw [amin?_eq_none_iff] at e
    rw [e] at hm
    cases hm
  | some m =>
    dsimp only
    unfold Double.testShifted
    rw [if_pos hδ]

/-- The test with the larger bin size follows from the two tests without. -/
theorem binningTest_larger {x : List (Option ℝ)} {δ δ2 tol : ℝ} {p p2 : ℕ} {b : Bool} (hδ : tol ≤ δ) (hδ2 : tol ≤ δ2)
    (h1 : Double.binningTest x δ p tol none = .ok true) (h2 : Double.binningTest x δ2 p2 tol none = .ok b) :
    Double.binningTest x δ p tol (some (δ2, p2)) = .ok !b := by
  unfold Double.binningTest at *
  cases e : amin? (x.filterMap id) with
  | none => rw [e] at h1; cases h1
  | some m =>
    rw [e] at h1 h2
    dsimp only at *
    unfold Double.testShifted at *
    rw [if_neg (not_lt.2 hδ)] at h1 ⊢
    rw [if_neg (not_lt.2 hδ2)] at h2
    cases e1 : Double.equalsBinned ((x.filterMap id).map fun v => Double.sub v m) δ p tol with
    | error er => rw [e1] at h1; cases h1
    | ok t1 =>
      cases e2 : Double.equalsBinned ((x.filterMap id).map fun v => Double.sub v m) δ2 p2 tol with
      | error er => rw [e2] at h2; cases h2
      | ok t2 =>
        rw [e1] at h1
        rw [e2] at h2
        cases t1 with
        | false => cases h1
        | true =>
          have : t2 = b := by cases t2 <;> cases b <;> first | rfl | cases h2
          subst this
          exact (congrArg (fun z : Py Bool => z.bind fun t => pure !t) e2)

/-- C84: `check_larger_binning` with a bin size of `10 ^ -p` and the doubles of multiples of it (at most 8): the test fails if all are multiples of the ten times
larger bin size, and succeeds if two of them do not differ by a multiple of the larger bin size. -/
theorem C84_larger (ks : List (Option ℤ)) (hne : ∃ k, some k ∈ ks) (q : ℕ) (hq : q ≤ 10) (hk : ∀ k, some k ∈ ks → |(k : ℝ) / 10 ^ (q + 1)| ≤ 8) :
    ((∀ k, some k ∈ ks → 10 ∣ k) →
      Double.binningTest (ks.map (Option.map fun k : ℤ => rnd (k / 10 ^ (q + 1)))) (rnd (1 / 10 ^ (q + 1))) (q + 1) Double.tol0 (some (rnd (1 / 10 ^ q), q)) = .ok false) ∧
    ((∃ k l, some k ∈ ks ∧ some l ∈ ks ∧ ¬ 10 ∣ k - l) →
      Double.binningTest (ks.map (Option.map fun k : ℤ => rnd (k / 10 ^ (q + 1)))) (rnd (1 / 10 ^ (q + 1))) (q + 1) Double.tol0 (some (rnd (1 / 10 ^ q), q)) = .ok true) := by
  have hP : (0 : ℝ) < 10 ^ q := by positivity
  have hP1 : (0 : ℝ) < 10 ^ (q + 1) := by positivity
  have hP11 : (10 : ℝ) ^ (q + 1) ≤ 10 ^ 11 := pow_le_pow_right₀ (by norm_num) (by omega)
  have hPs : (10 : ℝ) ^ (q + 1) = 10 ^ q * 10 := pow_succ _ _
  have t1 : Double.tol0 ≤ rnd (1 / 10 ^ (q + 1)) := by
    apply Double.rnd_mono
    rw [one_div, one_div, inv_le_inv₀ (by norm_num) hP1]
    linarith
  have t2 : Double.tol0 ≤ rnd (1 / 10 ^ q) := by
    apply Double.rnd_mono
    rw [one_div, one_div, inv_le_inv₀ (by norm_num) hP]
    linarith
  have a1 : Double.binningTest (ks.map (Option.map fun k : ℤ => rnd (k / 10 ^ (q + 1)))) (rnd (1 / 10 ^ (q + 1))) (q + 1) Double.tol0 none = .ok true := by
    have := C84_accepts ks hne 1 (q + 1) (by push_cast; linarith) (by omega) (by intro k h; have := hk k h; rw [Nat.cast_one, mul_one_div]; exact this)
    simp only [Nat.cast_one, mul_one_div] at this
    exact this
  constructor
  · intro h10
    have a2 : Double.binningTest (ks.map (Option.map fun k : ℤ => rnd (k / 10 ^ (q + 1)))) (rnd (1 / 10 ^ q)) q Double.tol0 none = .ok true := by
      have e : ∀ k : ℤ, 10 ∣ k → ((k / 10 : ℤ) : ℝ) / 10 ^ q = (k : ℝ) / 10 ^ (q + 1) := by
        rintro k ⟨m, rfl⟩
        rw [Int.mul_ediv_cancel_left _ (by norm_num), hPs]
        push_cast
        field_simp
      have := C84_accepts (ks.map (Option.map fun k => k / 10)) (by obtain ⟨k, h⟩ := hne; exact ⟨k / 10, List.mem_map.2 ⟨_, h, rfl⟩⟩) 1 q (by push_cast; linarith) (by omega) (by
        intro k h
        obtain ⟨o, ho, hh⟩ := List.mem_map.1 h
        cases o with
        | none => cases hh
        | some k' =>
          cases hh
          rw [Nat.cast_one, mul_one_div, e k' (h10 k' ho)]
          exact hk k' ho)
      rw [List.map_map] at this
      simp only [Nat.cast_one, mul_one_div] at this
      rw [← this]
      congr 1
      apply List.map_congr_left
      intro o ho
      cases o with
      | none => rfl
      | some k => simp only [Function.comp_apply, Option.map_some]; rw [e k (h10 k ho)]
    exact binningTest_larger t1 t2 a1 a2
  · rintro ⟨k1, k2, m1, m2, hd⟩
    have a2 : Double.binningTest (ks.map (Option.map fun k : ℤ => rnd (k / 10 ^ (q + 1)))) (rnd (1 / 10 ^ q)) q Double.tol0 none = .ok false := by
      obtain ⟨lo, hlo, hmin⟩ : ∃ lo, some lo ∈ ks ∧ ∀ k, some k ∈ ks → lo ≤ k := by
        have hfne : (ks.filterMap id).toFinset.Nonempty := ⟨k1, by simpa using m1⟩
        have h := (ks.filterMap id).toFinset.isLeast_min' hfne
        refine ⟨(ks.filterMap id).toFinset.min' hfne, by simpa using h.1, fun k hk => h.2 (by simpa using hk)⟩
      obtain ⟨k, hk1, hk2⟩ : ∃ k, some k ∈ ks ∧ ¬ 10 ∣ k - lo := by
        by_cases h : 10 ∣ k1 - lo
        · exact ⟨k2, m2, by omega⟩
        · exact ⟨k1, m1, h⟩
      have hb : ∀ k, some k ∈ ks → |rnd (k / 10 ^ (q + 1)) - k / 10 ^ (q + 1)| ≤ 8 * (12 / 10 ^ 17) := fun k h => rnd_lt_err (hk k h)
      have := C84_rejects (ks.map (Option.map fun k : ℤ => rnd (k / 10 ^ (q + 1)))) 1 q (by push_cast; linarith) (by omega) (by push_cast; linarith [one_le_pow₀ (a := (10 : ℝ)) (n := q) (by norm_num)])
        (by
          intro v hv
          obtain ⟨o, ho, hh⟩ := List.mem_map.1 hv
          cases o with
          | none => cases hh
          | some k' =>
            cases hh
            have b1 := hb k' ho
            have b2 := hk k' ho
            have := abs_add_le (rnd (k' / 10 ^ (q + 1)) - k' / 10 ^ (q + 1)) (k' / 10 ^ (q + 1))
            rw [sub_add_cancel] at this
            norm_num at b1 this ⊢
            linarith)
        (rnd (lo / 10 ^ (q + 1))) (rnd (k / 10 ^ (q + 1))) (List.mem_map.2 ⟨_, hlo, rfl⟩)
        (by
          intro v hv
          obtain ⟨o, ho, hh⟩ := List.mem_map.1 hv
          cases o with
          | none => cases hh
          | some k' =>
            cases hh
            apply Double.rnd_mono
            rw [div_le_div_iff_of_pos_right hP1]
            exact_mod_cast hmin k' ho)
        (List.mem_map.2 ⟨_, hk1, rfl⟩)
        (by
          intro K
          have b1 := hb k hk1
          have b2 := hb lo hlo
          have hz : (1 : ℝ) / 10 ^ (q + 1) ≤ |(k : ℝ) / 10 ^ (q + 1) - lo / 10 ^ (q + 1) - K * ((1 : ℕ) / 10 ^ q)| := by
            have e : (k : ℝ) / 10 ^ (q + 1) - lo / 10 ^ (q + 1) - K * ((1 : ℕ) / 10 ^ q) = ((k - lo - 10 * K : ℤ) : ℝ) / 10 ^ (q + 1) := by
              rw [hPs]; push_cast; field_simp
            rw [e, abs_div, abs_of_pos hP1, div_le_div_iff_of_pos_right hP1]
            have : k - lo - 10 * K ≠ 0 := by omega
            exact_mod_cast Int.one_le_abs this
          have hz2 : (1 : ℝ) / 10 ^ 11 ≤ 1 / 10 ^ (q + 1) := one_div_le_one_div_of_le hP1 hP11
          have e : (k : ℝ) / 10 ^ (q + 1) - lo / 10 ^ (q + 1) - K * ((1 : ℕ) / 10 ^ q) =
            (rnd (k / 10 ^ (q + 1)) - rnd (lo / 10 ^ (q + 1)) - K * ((1 : ℕ) / 10 ^ q)) - (rnd (k / 10 ^ (q + 1)) - k / 10 ^ (q + 1)) + (rnd (lo / 10 ^ (q + 1)) - lo / 10 ^ (q + 1)) := by ring
          have c1 := abs_add_le ((rnd (k / 10 ^ (q + 1)) - rnd (lo / 10 ^ (q + 1)) - K * ((1 : ℕ) / 10 ^ q)) - (rnd (k / 10 ^ (q + 1)) - k / 10 ^ (q + 1))) (rnd (lo / 10 ^ (q + 1)) - lo / 10 ^ (q + 1))
          have c2 := abs_sub (rnd (k / 10 ^ (q + 1)) - rnd (lo / 10 ^ (q + 1)) - K * ((1 : ℕ) / 10 ^ q)) (rnd (k / 10 ^ (q + 1)) - k / 10 ^ (q + 1))
          rw [← e] at c1
          norm_num at b1 b2 hz2 ⊢
          norm_num at hz c1 c2
          linarith)
        none
      simpa using this
    exact binningTest_larger t1 t2 a1 a2

/-- A bin size of 1e-16 is always accepted. -/
example : Double.binningTest [none, some 3] (1 / 10 ^ 16) 16 (1 / 10 ^ 15) none = .ok true := C84_tiny _ ⟨3, by simp⟩ _ _ (by norm_num) _ _

/-- Whole numbers with bin size 0.1 fail the test with `check_larger_binning`, 0.2 and 0.4 do not. -/
example : Double.binningTest [some (rnd ((10 : ℤ) / 10 ^ (0 + 1))), none, some (rnd ((30 : ℤ) / 10 ^ (0 + 1)))] (rnd (1 / 10 ^ (0 + 1))) (0 + 1) Double.tol0
      (some (rnd (1 / 10 ^ 0), 0)) = .ok false ∧
    Double.binningTest [some (rnd ((2 : ℤ) / 10 ^ (0 + 1))), some (rnd ((4 : ℤ) / 10 ^ (0 + 1)))] (rnd (1 / 10 ^ (0 + 1))) (0 + 1) Double.tol0
      (some (rnd (1 / 10 ^ 0), 0)) = .ok true :=
  ⟨(C84_larger [some 10, none, some 30] ⟨10, by simp⟩ 0 (by norm_num) (by intro k hk; simp at hk; rcases hk with rfl | rfl <;> norm_num [abs_le])).1
      (by intro k hk; simp at hk; rcases hk with rfl | rfl <;> norm_num),
    (C84_larger [some 2, some 4] ⟨2, by simp⟩ 0 (by norm_num) (by intro k hk; simp at hk; rcases hk with rfl | rfl <;> norm_num [abs_le])).2
      ⟨2, 4, by simp, by simp, by norm_num⟩⟩

end
/-- C84: without numbers, or with a bin width below 10⁻¹² but not below the tolerance, the test is refused (ValueError). -/
theorem C84_refused (x : List (Option ℝ)) (δ tol : ℝ) (p : ℕ) (larger : Option (ℝ × ℕ)) (h : (∀ v, some v ∉ x) ∨ tol ≤ δ ∧ δ < rnd (1 / 10 ^ 12)) :
    Double.binningTest x δ p tol larger = .error .valueError := by
  unfold Double.binningTest
  cases e : amin? (x.filterMap id) with
  | none => rfl
  | some m =>
    have hm := ((amin?_eq_some_iff _ _).1 e).1
    rcases h with h | ⟨h1, h2⟩
    · obtain ⟨o, ho, rfl⟩ := List.mem_filterMap.1 hm
      exact absurd ho (h _)
    · dsimp only
      unfold Double.testShifted
      rw [if_neg (not_lt.2 h1)]
      unfold Double.equalsBinned
      rw [if_pos (show δ < Double.eps from h2)]
      rfl

/-- A bin width of 10⁻¹³ with the default tolerance is refused. -/
example : Double.binningTest [some 1, none] (rnd (1 / 10 ^ 13)) 13 (rnd (1 / 10 ^ 15)) none = .error .valueError :=
  C84_refused _ _ _ _ _ (Or.inr ⟨Double.rnd_mono (by norm_num), by
    have a := abs_le.1 (Double.rnd_err (1 / 10 ^ 13))
    have b := abs_le.1 (Double.rnd_err (1 / 10 ^ 12))
    rw [abs_of_pos (by positivity)] at a b
    norm_num at a b ⊢
    linarith [a.2, b.1]⟩)

end SeismoStats.Props
