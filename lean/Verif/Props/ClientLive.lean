/-
Property C104: the batched download from a service that changes or fails between requests.
-/
import Verif.Model.ClientLive
import Verif.Proofs.Client

namespace SeismoStats.Props
open SeismoStats SeismoStats.Client

variable {E : Type}

/-- A download from `s` with batches of `bs` events ends, and returns `r`. -/
def Returns (s : Live E) (bs : ℕ) (r : List E) : Prop := ∃ fuel₀, ∀ fuel ≥ fuel₀, downloadAt s bs fuel = some r

theorem probe_iff (s : Live E) (t o : ℕ) : s.probe t 1 (o + 1) = true ↔ s.probeFails t = false ∧ o < (s.events t).length := by
  unfold Live.probe
  rw [Bool.and_eq_true, Bool.not_eq_true', exists_iff]

theorem doublingAt_mono (s : Live E) (bs : ℕ) {fuel t chunk : ℕ} {r : ℕ × ℕ} (h : doublingAt s bs fuel t chunk = some r) : doublingAt s bs (fuel + 1) t chunk = some r := by
  induction fuel generalizing t chunk with
  | zero => simp [doublingAt] at h
  | succ f ih =>
    unfold doublingAt at h ⊢
    by_cases hp : s.probe t 1 (chunk * bs + 1) = true
    · rw [if_pos hp] at h ⊢; exact ih h
    · rw [if_neg hp] at h ⊢; exact h

theorem bisectAt_mono (s : Live E) (bs : ℕ) {fuel t : ℕ} {low high : ℤ} {last : ℕ} {r : ℕ × ℕ} (h : bisectAt s bs fuel t low high last = some r) :
    bisectAt s bs (fuel + 1) t low high last = some r := by
  induction fuel generalizing t low high last with
  | zero => simp [bisectAt] at h
  | succ f ih =>
    unfold bisectAt at h ⊢
    by_cases hl : low ≤ high
    · rw [if_pos hl] at h ⊢
      dsimp only at h ⊢
      by_cases hp : s.probe t 1 (((low + high) / 2).toNat * bs + 1) = true
      · rw [if_pos hp] at h ⊢; exact ih h
      · rw [if_neg hp] at h ⊢; exact ih h
    · rw [if_neg hl] at h ⊢; exact h

theorem batchCountAt_some {s : Live E} {bs fuel : ℕ} {c : ℕ × ℕ} (h : batchCountAt s bs fuel = some c) :
    ∃ chunk t last, doublingAt s bs fuel 0 1 = some (chunk, t) ∧ bisectAt s bs fuel t ((chunk / 2 : ℕ) : ℤ) (chunk : ℤ) 0 = some (last, c.2) ∧ c.1 = last + 1 := by
  unfold batchCountAt at h
  cases h1 : doublingAt s bs fuel 0 1 with
  | none => rw [h1] at h; simp at h
  | some d =>
    obtain ⟨chunk, t⟩ := d
    rw [h1] at h
    dsimp only at h
    cases h2 : bisectAt s bs fuel t ((chunk / 2 : ℕ) : ℤ) (chunk : ℤ) 0 with
    | none => rw [h2] at h; simp at h
    | some l =>
      obtain ⟨last, t'⟩ := l
      rw [h2] at h
      dsimp only at h
      injection h with h
      subst h
      exact ⟨chunk, t, last, rfl, h2, rfl⟩

theorem batchCountAt_mono (s : Live E) (bs : ℕ) {fuel : ℕ} {c : ℕ × ℕ} (h : batchCountAt s bs fuel = some c) : ∀ fuel' ≥ fuel, batchCountAt s bs fuel' = some c := by
  intro fuel' hf
  induction fuel', hf using Nat.le_induction with
  | base => exact h
  | succ n _ ih =>
    obtain ⟨chunk, t, last, h1, h2, h3⟩ := batchCountAt_some ih
    unfold batchCountAt
    rw [doublingAt_mono s bs h1]
    dsimp only
    rw [bisectAt_mono s bs h2]
    dsimp only
    rw [← h3]

theorem returns_of (s : Live E) (bs : ℕ) {fuel : ℕ} {r : List E} (h : downloadAt s bs fuel = some r) : Returns s bs r := by
  refine ⟨fuel, fun fuel' hf => ?_⟩
  unfold downloadAt at h ⊢
  cases hc : batchCountAt s bs fuel with
  | none => rw [hc] at h; simp at h
  | some c => rw [batchCountAt_mono s bs hc fuel' hf]; rw [hc] at h; exact h

/-- The result of a download is determined. -/
theorem returns_unique {s : Live E} {bs : ℕ} {r r' : List E} (h : Returns s bs r) (h' : Returns s bs r') : r = r' := by
  obtain ⟨f, hf⟩ := h
  obtain ⟨f', hf'⟩ := h'
  have h1 := hf (max f f') (le_max_left _ _)
  rw [hf' (max f f') (le_max_right _ _)] at h1
  exact (Option.some.inj h1).symm

/-- What a finished download has done: `n` batches after `T` probes. -/
theorem returns_pages {s : Live E} {bs : ℕ} {r : List E} (h : Returns s bs r) :
    ∃ fuel c, batchCountAt s bs fuel = some c ∧ r = ((List.range c.1).map fun i => s.page (c.2 + i) bs (1 + i * bs)).flatten := by
  obtain ⟨f, hf⟩ := h
  have h := hf f le_rfl
  unfold downloadAt at h
  cases hc : batchCountAt s bs f with
  | none => rw [hc] at h; simp at h
  | some c =>
    refine ⟨f, c, hc, ?_⟩
    rw [hc] at h
    simp only [Option.map_some, Option.some.injEq] at h
    rw [← h]
    congr 1
    unfold batchParams
    apply List.ext_getElem
    · simp
    · intro i h1 h2
      simp

theorem doubling_ends (s : Live E) (bs N : ℕ) (hbs : 1 ≤ bs) (hN : ∀ t, (s.events t).length ≤ N) : ∀ (k t chunk : ℕ), N ≤ chunk + k → 1 ≤ chunk →
    ∃ r, doublingAt s bs (k + 1) t chunk = some r := by
  intro k
  induction k with
  | zero =>
    intro t chunk h h1
    refine ⟨(chunk, t + 1), ?_⟩
    unfold doublingAt
    rw [if_neg]
    rw [probe_iff]
    rintro ⟨-, h2⟩
    have := hN t
    nlinarith [Nat.le_mul_of_pos_right chunk hbs]
  | succ k ih =>
    intro t chunk h h1
    unfold doublingAt
    by_cases hp : s.probe t 1 (chunk * bs + 1) = true
    · rw [if_pos hp]
      exact ih _ _ (by omega) (by omega)
    · rw [if_neg hp]
      exact ⟨_, rfl⟩

theorem bisect_ends (s : Live E) (bs : ℕ) : ∀ (k t : ℕ) (low high : ℤ) (last : ℕ), high - low < k → ∃ r, bisectAt s bs (k + 1) t low high last = some r := by
  intro k
  induction k with
  | zero =>
    intro t low high last h
    unfold bisectAt
    rw [if_neg (by push_cast at h; omega)]
    exact ⟨_, rfl⟩
  | succ k ih =>
    intro t low high last h
    unfold bisectAt
    by_cases hl : low ≤ high
    · rw [if_pos hl]
      dsimp only
      push_cast at h
      split_ifs
      · exact ih _ _ _ _ (by omega)
      · exact ih _ _ _ _ (by omega)
    · rw [if_neg hl]
      exact ⟨_, rfl⟩

theorem doublingAt_mono' (s : Live E) (bs : ℕ) {fuel t chunk : ℕ} {r : ℕ × ℕ} (h : doublingAt s bs fuel t chunk = some r) : ∀ fuel' ≥ fuel, doublingAt s bs fuel' t chunk = some r := by
  intro fuel' hf
  induction fuel', hf using Nat.le_induction with
  | base => exact h
  | succ n _ ih => exact doublingAt_mono s bs ih

theorem bisectAt_mono' (s : Live E) (bs : ℕ) {fuel t : ℕ} {low high : ℤ} {last : ℕ} {r : ℕ × ℕ} (h : bisectAt s bs fuel t low high last = some r) :
    ∀ fuel' ≥ fuel, bisectAt s bs fuel' t low high last = some r := by
  intro fuel' hf
  induction fuel', hf using Nat.le_induction with
  | base => exact h
  | succ n _ ih => exact bisectAt_mono s bs ih

/-- C104: for every schedule of changes and failures the download ends, if the number of events stays bounded. -/
theorem C104_terminates (s : Live E) (bs N : ℕ) (hbs : 1 ≤ bs) (hN : ∀ t, (s.events t).length ≤ N) : ∃ r, Returns s bs r := by
  obtain ⟨⟨chunk, t⟩, h1⟩ := doubling_ends s bs N hbs hN N 0 1 (by omega) le_rfl
  obtain ⟨⟨last, t'⟩, h2⟩ := bisect_ends s bs (chunk + 1) t ((chunk / 2 : ℕ) : ℤ) chunk 0 (by push_cast; omega)
  have h1' := doublingAt_mono' s bs h1 (N + chunk + 3) (by omega)
  have h2' := bisectAt_mono' s bs h2 (N + chunk + 3) (by omega)
  have hc : batchCountAt s bs (N + chunk + 3) = some (last + 1, t') := by
    unfold batchCountAt
    rw [h1']
    dsimp only
    rw [h2']
  exact ⟨_, returns_of s bs (fuel := N + chunk + 3) (by unfold downloadAt; rw [hc]; rfl)⟩

/-- The last chunk was seen by a probe, or is the first one. -/
theorem bisect_seen (s : Live E) (bs : ℕ) {fuel t : ℕ} {low high : ℤ} {last : ℕ} {r : ℕ × ℕ} (h : bisectAt s bs fuel t low high last = some r) :
    t ≤ r.2 ∧ (r.1 = last ∨ ∃ t' < r.2, r.1 * bs < (s.events t').length) := by
  induction fuel generalizing t low high last with
  | zero => simp [bisectAt] at h
  | succ f ih =>
    unfold bisectAt at h
    by_cases hl : low ≤ high
    · rw [if_pos hl] at h
      dsimp only at h
      by_cases hp : s.probe t 1 (((low + high) / 2).toNat * bs + 1) = true
      · rw [if_pos hp] at h
        obtain ⟨h1, h2⟩ := ih h
        refine ⟨by omega, ?_⟩
        rcases h2 with h2 | h2
        · exact Or.inr ⟨t, by omega, by rw [h2]; exact ((probe_iff s t _).1 hp).2⟩
        · exact Or.inr h2
      · rw [if_neg hp] at h
        obtain ⟨h1, h2⟩ := ih h
        exact ⟨by omega, h2⟩
    · rw [if_neg hl] at h
      injection h with h
      subst h
      exact ⟨le_rfl, Or.inl rfl⟩

/-- The pages of a list that does not change. -/
theorem flatten_pages (l : List E) (bs n : ℕ) : ((List.range n).map fun i => Server.answer ⟨l⟩ bs (1 + i * bs)).flatten = l.take (n * bs) := by
  induction n with
  | zero => simp
  | succ n ih =>
    rw [List.range_succ, List.map_append, List.flatten_append, ih]
    simp only [List.map_cons, List.map_nil, List.flatten_cons, List.flatten_nil, List.append_nil]
    unfold Server.answer
    simp only [Nat.add_sub_cancel_left]
    rw [Nat.succ_mul, List.take_add]

theorem sublist_pages (l : List E) (bs : ℕ) (keep : ℕ → Bool) (n : ℕ) :
    (((List.range n).map fun i => if keep i then [] else Server.answer ⟨l⟩ bs (1 + i * bs)).flatten).Sublist (l.take (n * bs)) := by
  rw [← flatten_pages]
  induction n with
  | zero => simp
  | succ n ih =>
    rw [List.range_succ, List.map_append, List.flatten_append, List.map_append, List.flatten_append]
    apply List.Sublist.append ih
    simp only [List.map_cons, List.map_nil, List.flatten_cons, List.flatten_nil, List.append_nil]
    split_ifs
    · exact List.nil_sublist _
    · exact List.Sublist.refl _

/-- C104: whatever requests fail, the result is made of events of the service, in its order, each at most once. -/
theorem C104_failures_lose_only (s : Live E) (bs : ℕ) (l : List E) (hl : ∀ t, s.events t = l) {r : List E} (h : Returns s bs r) : r.Sublist l := by
  obtain ⟨fuel, c, -, rfl⟩ := returns_pages h
  unfold Live.page
  simp only [hl]
  exact (sublist_pages l bs (fun i => s.pageFails (c.2 + i)) c.1).trans (List.take_sublist _ _)

/-- C104: if only probes fail, the result is a beginning of the list, made of whole batches or all of it. -/
theorem C104_probe_failures (s : Live E) (bs : ℕ) (l : List E) (hl : ∀ t, s.events t = l) (hp : ∀ t, s.pageFails t = false) {r : List E} (h : Returns s bs r) :
    ∃ n ≥ 1, r = l.take (n * bs) := by
  obtain ⟨fuel, c, hc, rfl⟩ := returns_pages h
  obtain ⟨chunk, t, last, h1, h2, h3⟩ := batchCountAt_some hc
  refine ⟨c.1, by omega, ?_⟩
  unfold Live.page
  simp only [hl, hp]
  exact flatten_pages l bs c.1

/-! ### A service that only gets new events at the end -/

theorem prefix_of_le {s : Live E} (hg : ∀ t, s.events t <+: s.events (t + 1)) {t t' : ℕ} (h : t ≤ t') : s.events t <+: s.events t' := by
  induction t', h using Nat.le_induction with
  | base => exact List.prefix_rfl
  | succ n _ ih => exact ih.trans (hg n)

theorem doubling_seen (s : Live E) (bs : ℕ) (hp : ∀ t, s.probeFails t = false) {fuel t chunk : ℕ} {r : ℕ × ℕ} (h : doublingAt s bs fuel t chunk = some r) :
    t < r.2 ∧ (s.events (r.2 - 1)).length ≤ r.1 * bs ∧ (r.1 = chunk ∨ ∃ t' < r.2 - 1, r.1 / 2 * bs < (s.events t').length) := by
  induction fuel generalizing t chunk with
  | zero => simp [doublingAt] at h
  | succ f ih =>
    unfold doublingAt at h
    by_cases hpr : s.probe t 1 (chunk * bs + 1) = true
    · rw [if_pos hpr] at h
      obtain ⟨h1, h2, h3⟩ := ih h
      refine ⟨by omega, h2, Or.inr ?_⟩
      rcases h3 with h3 | h3
      · refine ⟨t, by omega, ?_⟩
        rw [h3, Nat.mul_div_cancel _ (by norm_num)]
        exact ((probe_iff s t _).1 hpr).2
      · exact h3
    · rw [if_neg hpr] at h
      injection h with h
      subst h
      refine ⟨Nat.lt_succ_self t, ?_, Or.inl rfl⟩
      rw [probe_iff] at hpr
      by_contra hc
      exact hpr ⟨hp t, by simpa using hc⟩

theorem bisect_grow (s : Live E) (bs : ℕ) (hp : ∀ t, s.probeFails t = false) (hg : ∀ t, s.events t <+: s.events (t + 1)) {fuel t : ℕ} {low high : ℤ} {last : ℕ} {r : ℕ × ℕ}
    (h : bisectAt s bs fuel t low high last = some r) (h0 : 0 ≤ low) (hlh : low ≤ high + 1) {t0 : ℕ} (ht0 : t0 < t) (hA : (s.events t0).length ≤ (high + 1).toNat * bs)
    (hB : (last : ℤ) + 1 = low ∨ (∃ t1 ≤ t0, low.toNat * bs < (s.events t1).length) ∨ low = 0) : ∃ t0 < r.2, (s.events t0).length ≤ (r.1 + 1) * bs := by
  induction fuel generalizing t low high last t0 with
  | zero => simp [bisectAt] at h
  | succ f ih =>
    unfold bisectAt at h
    by_cases hl : low ≤ high
    · rw [if_pos hl] at h
      dsimp only at h
      by_cases hpr : s.probe t 1 (((low + high) / 2).toNat * bs + 1) = true
      · rw [if_pos hpr] at h
        exact ih h (by omega) (by omega) (show t0 < t + 1 by omega) hA (Or.inl (by omega))
      · rw [if_neg hpr] at h
        rw [probe_iff] at hpr
        have h3 : (s.events t).length ≤ ((low + high) / 2).toNat * bs := by
          by_contra hc
          exact hpr ⟨hp t, by simpa using hc⟩
        refine ih h h0 (by omega) (Nat.lt_succ_self t) (by rwa [sub_add_cancel]) ?_
        rcases hB with hB | ⟨t1, h4, h5⟩ | hB
        · exact Or.inl hB
        · exact Or.inr (Or.inl ⟨t1, by omega, h5⟩)
        · exact Or.inr (Or.inr hB)
    · rw [if_neg hl] at h
      injection h with h
      subst h
      have he : high + 1 = low := by omega
      rw [he] at hA
      refine ⟨t0, ht0, ?_⟩
      rcases hB with hB | ⟨t1, h4, h5⟩ | hB
      · have : low.toNat = last + 1 := by omega
        rwa [this] at hA
      · have := (prefix_of_le hg h4).length_le
        omega
      · rw [hB] at hA
        simp only [Int.toNat_zero, zero_mul] at hA
        omega

theorem take_of_prefix {l l' : List E} (h : l <+: l') {k : ℕ} (hk : k ≤ l.length) : l'.take k = l.take k := by
  obtain ⟨c, rfl⟩ := h
  rw [List.take_append_of_le_length hk]

/-- C104: if new events come only at the end of the list and no request fails, the result is the beginning of the list of the service, in its order and without gaps,
and has every event that was there when the download began. -/
theorem C104_growing (s : Live E) (bs : ℕ) (hp : ∀ t, s.probeFails t = false) (hq : ∀ t, s.pageFails t = false) (hg : ∀ t, s.events t <+: s.events (t + 1)) {r : List E}
    (h : Returns s bs r) : s.events 0 <+: r ∧ ∃ t, r <+: s.events t := by
  obtain ⟨fuel, c, hc, rfl⟩ := returns_pages h
  obtain ⟨chunk, t, last, h1, h2, h3⟩ := batchCountAt_some hc
  obtain ⟨d1, d2, d3⟩ := doubling_seen s bs hp h1
  simp only at d1 d2 d3
  obtain ⟨t0, g1, g2⟩ := bisect_grow s bs hp hg h2 (by positivity) (by push_cast; omega) (t0 := t - 1) (by omega)
    (d2.trans (Nat.mul_le_mul_right bs (by omega))) (by
      rcases d3 with d3 | ⟨t', d4, d5⟩
      · right; right; rw [d3]; rfl
      · right; left
        exact ⟨t', by omega, by rw [Int.toNat_natCast]; exact d5⟩)
  simp only at g1 g2
  obtain ⟨-, b2⟩ := bisect_seen s bs h2
  simp only at b2
  rw [h3]
  set T := c.2 with hT
  have hsee : last * bs ≤ (s.events T).length := by
    rcases b2 with b2 | ⟨t', b3, b4⟩
    · rw [b2]; omega
    · exact b4.le.trans (prefix_of_le hg b3.le).length_le
  have hpage : ∀ i ≤ last, s.page (T + i) bs (1 + i * bs) = Server.answer ⟨s.events (T + last)⟩ bs (1 + i * bs) := by
    intro i hi
    unfold Live.page
    rw [hq]
    simp only [Bool.false_eq_true, if_false]
    rcases Nat.lt_or_eq_of_le hi with hlt | rfl
    · unfold Server.answer
      simp only [Nat.add_sub_cancel_left]
      have e1 : (i * bs + bs) ≤ (s.events T).length := by
        have : (i + 1) * bs ≤ last * bs := Nat.mul_le_mul_right bs hlt
        rw [Nat.succ_mul] at this
        omega
      rw [List.take_drop, List.take_drop, take_of_prefix (prefix_of_le hg (Nat.le_add_right T i)) (by omega), take_of_prefix (prefix_of_le hg (Nat.le_add_right T last)) (by omega)]
    · rfl
  have hr : ((List.range (last + 1)).map fun i => s.page (T + i) bs (1 + i * bs)).flatten = (s.events (T + last)).take ((last + 1) * bs) := by
    rw [← flatten_pages]
    congr 1
    apply List.map_congr_left
    intro i hi
    exact hpage i (by have := List.mem_range.1 hi; omega)
  rw [hr]
  refine ⟨?_, T + last, List.take_prefix _ _⟩
  have e1 : s.events t0 <+: (s.events (T + last)).take ((last + 1) * bs) := by
    obtain ⟨c, hc⟩ := prefix_of_le hg (show t0 ≤ T + last by omega)
    rw [← hc, List.take_append, List.take_of_length_le g2]
    exact List.prefix_append _ _
  exact (prefix_of_le hg (Nat.zero_le t0)).trans e1

/-! ### The steady service of C01 -/

theorem doublingAt_steady (s : Live E) (l : List E) (hl : ∀ t, s.events t = l) (hp : ∀ t, s.probeFails t = false) (bs fuel t chunk : ℕ) :
    doublingAt s bs fuel t chunk = (doubling ⟨l⟩ bs fuel chunk).map fun r => (r.1, t + r.2) := by
  induction fuel generalizing t chunk with
  | zero => rfl
  | succ f ih =>
    unfold doublingAt doubling Live.probe
    rw [hl, hp]
    simp only [Bool.not_false, Bool.true_and]
    split_ifs
    · rw [ih, Option.map_map]
      congr 1
      funext r
      simp only [Function.comp_apply, Prod.mk.injEq, true_and]
      omega
    · rfl

theorem bisectAt_steady (s : Live E) (l : List E) (hl : ∀ t, s.events t = l) (hp : ∀ t, s.probeFails t = false) (bs fuel t : ℕ) (low high : ℤ) (last : ℕ) :
    bisectAt s bs fuel t low high last = (bisect ⟨l⟩ bs fuel low high last).map fun r => (r.1, t + r.2) := by
  induction fuel generalizing t low high last with
  | zero => rfl
  | succ f ih =>
    unfold bisectAt bisect Live.probe
    rw [hl, hp]
    simp only [Bool.not_false, Bool.true_and]
    split_ifs
    · rw [ih, Option.map_map]
      congr 1
      funext r
      simp only [Function.comp_apply, Prod.mk.injEq, true_and]
      omega
    · rw [ih, Option.map_map]
      congr 1
      funext r
      simp only [Function.comp_apply, Prod.mk.injEq, true_and]
      omega
    · rfl

/-- C104: without changes and failures this is the download of C01. -/
theorem C104_steady (s : Live E) (l : List E) (hl : ∀ t, s.events t = l) (hp : ∀ t, s.probeFails t = false) (hq : ∀ t, s.pageFails t = false) (bs fuel : ℕ) :
    downloadAt s bs fuel = getEventsBatched ⟨l⟩ bs fuel := by
  have hc : batchCountAt s bs fuel = getBatchCount ⟨l⟩ bs fuel := by
    unfold batchCountAt getBatchCount
    rw [doublingAt_steady s l hl hp]
    cases doubling ⟨l⟩ bs fuel 1 with
    | none => rfl
    | some d =>
      simp only [Option.map_some]
      rw [bisectAt_steady s l hl hp]
      cases bisect ⟨l⟩ bs fuel ((d.1 / 2 : ℕ) : ℤ) d.1 0 with
      | none => rfl
      | some b => simp only [Option.map_some, Option.some.injEq, Prod.mk.injEq, true_and]; omega
  unfold downloadAt getEventsBatched
  rw [hc]
  congr 1
  funext c
  congr 1
  unfold Live.page
  simp only [hl, hq, Bool.false_eq_true, if_false]
  apply List.ext_getElem
  · simp
  · intro i h1 h2
    simp

/-! ### What goes wrong -/

/-- A list that does not change, and one probe that fails. -/
def oneProbeFails (l : List E) (t : ℕ) : Live E := { events := fun _ => l, probeFails := fun i => decide (i = t), pageFails := fun _ => false }

theorem returns_count {s : Live E} {bs fuel n T : ℕ} (h : batchCountAt s bs fuel = some (n, T)) :
    Returns s bs ((List.range n).map fun i => s.page (T + i) bs (1 + i * bs)).flatten := by
  obtain ⟨r, hr⟩ : ∃ r, downloadAt s bs fuel = some r := by unfold downloadAt; rw [h]; exact ⟨_, rfl⟩
  have h1 := returns_of s bs hr
  obtain ⟨f, c, h2, rfl⟩ := returns_pages h1
  have : c = (n, T) := by
    have e1 := batchCountAt_mono s bs h (max f fuel) (le_max_right _ _)
    have e2 := batchCountAt_mono s bs h2 (max f fuel) (le_max_left _ _)
    rw [e1] at e2
    exact (Option.some.inj e2).symm
  rw [this] at h1
  exact h1

/-- C104 (defect): if the very first probe fails, at most two batches are downloaded, without any sign of it. -/
theorem C104_first_probe_fails (l : List E) (bs : ℕ) (hl : bs < l.length) : Returns (oneProbeFails l 0) bs (l.take (2 * bs)) := by
  have p0 : (oneProbeFails l 0).probe 0 1 (bs + 1) = false := by rw [← Bool.not_eq_true, probe_iff]; simp [oneProbeFails]
  have p1 : (oneProbeFails l 0).probe 1 1 1 = true := (probe_iff _ 1 0).2 (by simp [oneProbeFails]; omega)
  have p2 : (oneProbeFails l 0).probe 2 1 (bs + 1) = true := by rw [probe_iff]; simp [oneProbeFails]; omega
  have hc : batchCountAt (oneProbeFails l 0) bs 5 = some (2, 3) := by
    have hd : doublingAt (oneProbeFails l 0) bs 5 0 1 = some (1, 1) := by simp [doublingAt, p0]
    have hb : bisectAt (oneProbeFails l 0) bs 5 1 0 1 0 = some (1, 3) := by simp [bisectAt, p1, p2]
    unfold batchCountAt
    rw [hd]
    dsimp only
    rw [show (((1 / 2 : ℕ) : ℤ)) = 0 from rfl, show ((1 : ℕ) : ℤ) = 1 from rfl, hb]
  have h := returns_count hc
  have e : ∀ i, (oneProbeFails l 0).page (3 + i) bs (1 + i * bs) = Server.answer ⟨l⟩ bs (1 + i * bs) := fun i => rfl
  simp only [e, flatten_pages] at h
  exact h

/-- C104 (defect): one probe failing in the bisection can leave the first batch only. -/
theorem C104_one_batch_left (l : List E) (bs : ℕ) (h1 : 2 * bs < l.length) (h2 : l.length ≤ 3 * bs) : Returns (oneProbeFails l 4) bs (l.take bs) := by
  have p0 : (oneProbeFails l 4).probe 0 1 (bs + 1) = true := by rw [probe_iff]; simp [oneProbeFails]; omega
  have p1 : (oneProbeFails l 4).probe 1 1 (2 * bs + 1) = true := by rw [probe_iff]; simp [oneProbeFails]; omega
  have p2 : (oneProbeFails l 4).probe 2 1 (4 * bs + 1) = false := by rw [← Bool.not_eq_true, probe_iff]; simp [oneProbeFails]; omega
  have p3 : (oneProbeFails l 4).probe 3 1 (3 * bs + 1) = false := by rw [← Bool.not_eq_true, probe_iff]; simp [oneProbeFails]; omega
  have p4 : (oneProbeFails l 4).probe 4 1 (2 * bs + 1) = false := by rw [← Bool.not_eq_true, probe_iff]; simp [oneProbeFails]
  have hc : batchCountAt (oneProbeFails l 4) bs 6 = some (1, 5) := by
    have hd : doublingAt (oneProbeFails l 4) bs 6 0 1 = some (4, 3) := by simp [doublingAt, p0, p1, p2]
    have hb : bisectAt (oneProbeFails l 4) bs 6 3 2 4 0 = some (0, 5) := by simp [bisectAt, p3, p4]
    unfold batchCountAt
    rw [hd]
    dsimp only
    rw [show (((4 / 2 : ℕ) : ℤ)) = 2 from rfl, show ((4 : ℕ) : ℤ) = 4 from rfl, hb]
  have h := returns_count hc
  have e : ∀ i, (oneProbeFails l 4).page (5 + i) bs (1 + i * bs) = Server.answer ⟨l⟩ bs (1 + i * bs) := fun i => rfl
  simp only [e, flatten_pages, one_mul] at h
  exact h

/-- A service without failures whose list changes once, before the request number `t`. -/
def changesOnce (l l' : List E) (t : ℕ) : Live E := { events := fun i => if i < t then l else l', probeFails := fun _ => false, pageFails := fun _ => false }

theorem changes_count (l l' : List E) (bs : ℕ) (h1 : bs < l.length) (h2 : l.length ≤ 2 * bs) : batchCountAt (changesOnce l l' 5) bs 5 = some (2, 4) := by
  have p0 : (changesOnce l l' 5).probe 0 1 (bs + 1) = true := by rw [probe_iff]; simp [changesOnce]; omega
  have p1 : (changesOnce l l' 5).probe 1 1 (2 * bs + 1) = false := by rw [← Bool.not_eq_true, probe_iff]; simp [changesOnce]; omega
  have p2 : (changesOnce l l' 5).probe 2 1 (bs + 1) = true := by rw [probe_iff]; simp [changesOnce]; omega
  have p3 : (changesOnce l l' 5).probe 3 1 (2 * bs + 1) = false := by rw [← Bool.not_eq_true, probe_iff]; simp [changesOnce]; omega
  have hd : doublingAt (changesOnce l l' 5) bs 5 0 1 = some (2, 2) := by simp [doublingAt, p0, p1]
  have hb : bisectAt (changesOnce l l' 5) bs 5 2 1 2 0 = some (1, 4) := by simp [bisectAt, p2, p3]
  unfold batchCountAt
  rw [hd]
  dsimp only
  rw [show (((2 / 2 : ℕ) : ℤ)) = 1 from rfl, show ((2 : ℕ) : ℤ) = 2 from rfl, hb]

/-- C104 (defect): an event that appears at the beginning of the list (as new events do in the usual order of the services, latest first) between two batches makes the
last event of the first batch come twice. -/
theorem C104_event_twice (l : List E) (e : E) (bs : ℕ) (h1 : bs < l.length) (h2 : l.length < 2 * bs) : Returns (changesOnce l (e :: l) 5) bs (l.take bs ++ l.drop (bs - 1)) := by
  have h := returns_count (changes_count l (e :: l) bs h1 h2.le)
  have e0 : (changesOnce l (e :: l) 5).page (4 + 0) bs (1 + 0 * bs) = l.take bs := by simp [Live.page, changesOnce, Server.answer]
  have e1 : (changesOnce l (e :: l) 5).page (4 + 1) bs (1 + 1 * bs) = l.drop (bs - 1) := by
    obtain ⟨k, rfl⟩ : ∃ k, bs = k + 1 := ⟨bs - 1, by omega⟩
    have hlen : (l.drop k).length ≤ k + 1 := by rw [List.length_drop]; omega
    simp [Live.page, changesOnce, Server.answer, List.take_of_length_le hlen]
  have e2 : (List.range 2) = [0, 1] := rfl
  rw [e2, List.map_cons, List.map_cons, List.map_nil, e0, e1] at h
  simpa using h

/-- C104 (defect): an event that is withdrawn from the first batch between two batches makes an event in the middle of the list missing. -/
theorem C104_event_missing (l : List E) (e : E) (bs : ℕ) (h1 : bs ≤ l.length) (h2 : l.length < 2 * bs) (hbs : 1 ≤ bs) :
    Returns (changesOnce (e :: l) l 5) bs (e :: (l.take (bs - 1) ++ l.drop bs)) := by
  have h := returns_count (changes_count (e :: l) l bs (by simp; omega) (by simp; omega))
  obtain ⟨k, rfl⟩ : ∃ k, bs = k + 1 := ⟨bs - 1, by omega⟩
  have e0 : (changesOnce (e :: l) l 5).page (4 + 0) (k + 1) (1 + 0 * (k + 1)) = e :: l.take k := by simp [Live.page, changesOnce, Server.answer]
  have e1 : (changesOnce (e :: l) l 5).page (4 + 1) (k + 1) (1 + 1 * (k + 1)) = l.drop (k + 1) := by
    have hlen : (l.drop (k + 1)).length ≤ k + 1 := by rw [List.length_drop]; omega
    simp [Live.page, changesOnce, Server.answer, List.take_of_length_le hlen]
  have e2 : (List.range 2) = [0, 1] := rfl
  rw [e2, List.map_cons, List.map_cons, List.map_nil, e0, e1] at h
  simpa using h

/-- A case: five events, batches of two; the fifth probe fails. -/
example : downloadAt (oneProbeFails [10, 20, 30, 40, 50] 4) 2 20 = some [10, 20] := by decide

/-- A case of a growing list: four events at the beginning, ten at the end. -/
example : downloadAt ({ events := fun t => List.range (min (4 + t) 10), probeFails := fun _ => false, pageFails := fun _ => false } : Live ℕ) 3 20 = some (List.range 9) := by decide

/-- The hypotheses of C104_event_twice: batches of two of three events. -/
example : Returns (changesOnce [1, 2, 3] [0, 1, 2, 3] 5) 2 [1, 2, 2, 3] := C104_event_twice [1, 2, 3] 0 2 (by decide) (by decide)

end SeismoStats.Props
