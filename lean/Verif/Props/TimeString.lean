/-
Property C67: time strings.
-/
import Verif.Model.TimeString
import Verif.Props.OpenQuake
import Verif.Proofs.Py
import Mathlib.Tactic.IntervalCases

namespace SeismoStats.Props
open SeismoStats SeismoStats.TimeString
open Classical

theorem before_append (c : Char) (a b : List Char) (ha : c ∉ a) : before c (a ++ c :: b) = a := by
  unfold before
  rw [List.takeWhile_append_of_pos]
  · simp
  · intro x hx
    have : x ≠ c := fun e => ha (e ▸ hx)
    simp [this]

theorem before_self (c : Char) (a : List Char) (ha : c ∉ a) : before c a = a := by
  unfold before
  have : (a ++ []).takeWhile (fun x => !decide (x = c)) = a ++ [].takeWhile (fun x => !decide (x = c)) := by
    apply List.takeWhile_append_of_pos
    intro x hx
    have : x ≠ c := fun e => ha (e ▸ hx)
    simp [this]
  simpa using this

theorem splitOn_two (c : Char) (a b : List Char) (ha : c ∉ a) (hb : c ∉ b) : (a ++ c :: b).splitOn c = [a, b] := by
  have h1 : ∀ l : List Char, c ∉ l → ∀ x ∈ l, (x == c) = false := by
    intro l hl x hx
    rw [beq_eq_false_iff_ne]
    exact fun e => hl (e ▸ hx)
  have : (a ++ c :: b).splitOn c = a :: b.splitOn c := List.splitOnP_append_cons_of_forall_mem (h1 a ha) c (by simp) b
  rw [this]
  have : b.splitOn c = [b] := List.splitOnP_eq_singleton (h1 b hb)
  rw [this]

theorem splitOn_cons (c : Char) (a b : List Char) (ha : c ∉ a) : (a ++ c :: b).splitOn c = a :: b.splitOn c := by
  refine List.splitOnP_append_cons_of_forall_mem ?_ c (by simp) b
  intro x hx
  rw [beq_eq_false_iff_ne]
  exact fun e => ha (e ▸ hx)

/-- The year `y` with leading zeros. -/
def fourDigits (y : List Char) : List Char := List.replicate (4 - y.length) '0' ++ y

theorem fourDigits_eq (y : List Char) (h : y.head? ≠ some '+') (h2 : '-' ∉ y) : (if y.length < 4 then zfill y else y) = fourDigits y := by
  unfold fourDigits
  split
  · unfold zfill
    split
    · simp at h
    · simp at h2
    · rfl
  · rename_i hl
    have : 4 - y.length = 0 := by omega
    rw [this]
    rfl

theorem padYear_eq (y a b : List Char) (h : y.head? ≠ some '+') (h2 : '-' ∉ y) (hT : 'T' ∉ y) (ha : 'T' ∉ a) (hb : 'T' ∉ b) :
    padYear (y ++ '-' :: a ++ 'T' :: b) = .ok (fourDigits y ++ '-' :: a ++ 'T' :: b) := by
  unfold padYear
  rw [if_pos (by simp), splitOn_two 'T' (y ++ '-' :: a) b (by simp [hT, ha]) hb]
  dsimp only
  rw [splitOn_cons '-' y a h2]
  unfold padHead
  dsimp only
  rw [fourDigits_eq y h h2]
  have : List.intercalate ['-'] (fourDigits y :: a.splitOn '-') = fourDigits y ++ '-' :: a := by
    have h3 : List.intercalate ['-'] (a.splitOn '-') = a := List.intercalate_splitOn '-'
    cases hs : a.splitOn '-' with
    | nil => exact absurd hs (List.splitOn_ne_nil '-' a)
    | cons x r =>
      rw [hs] at h3
      rw [← h3]
      simp [List.intercalate]
  rw [this]

/-- C67: a time string is read as the time denoted by its date, with the year filled up with zeros to four digits, and its time of
day up to the seconds; what follows a decimal point or a `Z` is ignored. `y` is the year, `a` the rest of the date, `b` the time of day. -/
theorem C67_denotes (env : TimeString.Env) (y a b tail : List Char) (hsign : y.head? ≠ some '+') (hminus : '-' ∉ y)
    (hT : 'T' ∉ y ∧ 'T' ∉ a ∧ 'T' ∉ b) (hZ : 'Z' ∉ y ∧ 'Z' ∉ a ∧ 'Z' ∉ b) (hdot : '.' ∉ y ∧ '.' ∉ a ∧ '.' ∉ b)
    (htail : tail = [] ∨ tail.head? = some '.' ∨ tail.head? = some 'Z') :
    robustParse env (.str (y ++ '-' :: a ++ 'T' :: b ++ tail)) = (env.strptime (fourDigits y ++ '-' :: a ++ 'T' :: b)).map some := by
  have hz : 'Z' ∉ y ++ '-' :: a ++ 'T' :: b := by simp [hZ.1, hZ.2.1, hZ.2.2]
  have hd : '.' ∉ y ++ '-' :: a ++ 'T' :: b := by simp [hdot.1, hdot.2.1, hdot.2.2]
  have hcut : before '.' (before 'Z' (y ++ '-' :: a ++ 'T' :: b ++ tail)) = y ++ '-' :: a ++ 'T' :: b := by
    rcases htail with rfl | ht | ht
    · rw [List.append_nil, before_self _ _ hz, before_self _ _ hd]
    · obtain ⟨r, rfl⟩ : ∃ r, tail = '.' :: r := by
        cases tail with
        | nil => cases ht
        | cons x r => simp at ht; exact ⟨r, by rw [ht]⟩
      by_cases hr : 'Z' ∈ r
      · obtain ⟨p, q, hp, hpq⟩ : ∃ p q, 'Z' ∉ p ∧ r = p ++ 'Z' :: q := by
          obtain ⟨p, q, h1, h2⟩ := List.eq_append_cons_of_mem hr
          exact ⟨p, q, h2, h1⟩
        rw [hpq]
        have e : y ++ '-' :: a ++ 'T' :: b ++ '.' :: (p ++ 'Z' :: q) = (y ++ '-' :: a ++ 'T' :: b ++ '.' :: p) ++ 'Z' :: q := by simp
        rw [e, before_append _ _ _ (by simp [hp, hZ.1, hZ.2.1, hZ.2.2]), before_append _ _ _ hd]
      · rw [before_self 'Z' _ (by simp [hr, hZ.1, hZ.2.1, hZ.2.2]), before_append _ _ _ hd]
    · obtain ⟨r, rfl⟩ : ∃ r, tail = 'Z' :: r := by
        cases tail with
        | nil => cases ht
        | cons x r => simp at ht; exact ⟨r, by rw [ht]⟩
      rw [before_append _ _ _ hz, before_self _ _ hd]
  simp only [robustParse]
  rw [hcut, padYear_eq y a b hsign hminus hT.1 hT.2.1 hT.2.2]
  simp only [bind, Except.bind]
  cases env.strptime (fourDigits y ++ '-' :: a ++ 'T' :: b) <;> rfl

theorem splitOn_length (c : Char) (l : List Char) : (l.splitOn c).length = l.count c + 1 := by
  induction l with
  | nil => rfl
  | cons x l ih =>
    by_cases h : x = c
    · subst h
      have : (x :: l).splitOn x = [] :: l.splitOn x := splitOn_cons x [] l (by simp)
      rw [this]
      simp [ih]
    · have hx : (x :: l).splitOn c = (l.splitOn c).modifyHead (List.cons x) := by
        rw [List.splitOn_cons_eq_if_modifyHead, if_neg (by simpa using h)]
      rw [hx, List.length_modifyHead, ih, List.count_cons_of_ne h]

/-- C67: only a string with exactly one `T` is changed; two or more are an error. Padding is done once. -/
theorem C67_pad_year (s : List Char) :
    ('T' ∉ s → padYear s = .ok s) ∧ (2 ≤ s.count 'T' → padYear s = .error .valueError) ∧
    (s.count 'T' = 1 → ∃ p, padYear s = .ok p) ∧
    ∀ y a b, y.head? ≠ some '+' → '-' ∉ y → 'T' ∉ y → 'T' ∉ a → 'T' ∉ b → s = y ++ '-' :: a ++ 'T' :: b →
      ∃ p, padYear s = .ok p ∧ padYear p = .ok p := by
  refine ⟨?_, ?_, ?_, ?_⟩
  · intro h
    unfold padYear
    rw [if_neg h]
  · intro h
    have hm : 'T' ∈ s := List.count_pos_iff.1 (by omega)
    have hl := splitOn_length 'T' s
    unfold padYear
    rw [if_pos hm]
    split
    · rename_i d t heq
      rw [heq] at hl
      simp at hl
      omega
    · rfl
  · intro h
    have hm : 'T' ∈ s := List.count_pos_iff.1 (by omega)
    have hl := splitOn_length 'T' s
    unfold padYear
    rw [if_pos hm]
    split
    · exact ⟨_, rfl⟩
    · rename_i hne
      exfalso
      rw [h] at hl
      match hs : s.splitOn 'T', hl with
      | [d, t], _ => exact hne d t hs
  · rintro y a b h1 h2 h3 h4 h5 rfl
    refine ⟨_, padYear_eq y a b h1 h2 h3 h4 h5, ?_⟩
    have hf : fourDigits (fourDigits y) = fourDigits y := by
      unfold fourDigits
      rw [List.length_append, List.length_replicate]
      have : 4 - (4 - y.length + y.length) = 0 := by omega
      rw [this]
      rfl
    have hh : (fourDigits y).head? ≠ some '+' := by
      unfold fourDigits
      cases hk : 4 - y.length with
      | zero => simpa using h1
      | succ k => simp [List.replicate_succ]
    have hn : ∀ c, c ≠ '0' → c ∉ y → c ∉ fourDigits y := by
      intro c hc hy hm
      unfold fourDigits at hm
      rcases List.mem_append.1 hm with hm | hm
      · exact hc (List.eq_of_mem_replicate hm)
      · exact hy hm
    have := padYear_eq (fourDigits y) a b hh (hn _ (by decide) h2) (hn _ (by decide) h3) h4 h5
    rw [hf] at this
    exact this

/-! ### Dates -/

/-- Two digits. -/
def two (n : ℕ) : List Char := [Nat.digitChar (n / 10), Nat.digitChar (n % 10)]

/-- `-MM-DD` without the first hyphen, and `HH:MM:SS`. -/
def restOfDate (mo d : ℕ) : List Char := two mo ++ '-' :: two d

/-- `HH:MM:SS`. -/
def timeOfDay (h mi s : ℕ) : List Char := two h ++ ':' :: two mi ++ ':' :: two s

/-- The decimal digits of a year. -/
def digits (n : ℕ) : List Char := Nat.toDigits 10 n

theorem digitChar_plain (n : ℕ) (h : n < 10) : ∀ c ∈ ['T', 'Z', '.', '-', '+', ':'], Nat.digitChar n ≠ c := by
  interval_cases n <;> decide

theorem two_plain (n : ℕ) (h : n < 100) : ∀ c ∈ ['T', 'Z', '.', '-', '+', ':'], c ∉ two n := by
  intro c hc hm
  simp only [two, List.mem_cons, List.not_mem_nil, or_false] at hm
  rcases hm with rfl | rfl
  · exact digitChar_plain (n / 10) (by omega) _ hc rfl
  · exact digitChar_plain (n % 10) (by omega) _ hc rfl

theorem digits_plain (n : ℕ) : ∀ c ∈ ['T', 'Z', '.', '-', '+', ':'], c ∉ digits n := by
  intro c hc hm
  have := Nat.isDigit_of_mem_toDigits (by norm_num) (by norm_num) hm
  revert hc this
  simp only [List.mem_cons, List.not_mem_nil, or_false]
  rintro (rfl | rfl | rfl | rfl | rfl | rfl) <;> decide

/-- C67: if `strptime` reads the dates of the years 1 to 9999 in their standard form with four digits, then every such date is read,
with or without leading zeros in the year, whatever fraction of a second or time zone follows a point or `Z`. -/
theorem C67_every_year (env : TimeString.Env) (inst : ℕ → ℕ → ℕ → ℕ → ℕ → ℕ → ℤ) (valid : ℕ → ℕ → ℕ → Prop)
    (hstd : ∀ y mo d h mi s, 1 ≤ y → y ≤ 9999 → valid y mo d → h < 24 → mi < 60 → s < 60 →
      env.strptime (fourDigits (digits y) ++ '-' :: restOfDate mo d ++ 'T' :: timeOfDay h mi s) = .ok (inst y mo d h mi s))
    (y mo d h mi s : ℕ) (hy : 1 ≤ y) (hy' : y ≤ 9999) (hv : valid y mo d) (hmo : mo < 100) (hd : d < 100) (hh : h < 24) (hmi : mi < 60) (hs : s < 60)
    (k : ℕ) (hk : k ≤ 4 - (digits y).length) (tail : List Char) (htail : tail = [] ∨ tail.head? = some '.' ∨ tail.head? = some 'Z') :
    robustParse env (.str (List.replicate k '0' ++ digits y ++ '-' :: restOfDate mo d ++ 'T' :: timeOfDay h mi s ++ tail)) =
      .ok (some (inst y mo d h mi s)) := by
  have p1 : ∀ c ∈ ['T', 'Z', '.', '-', '+', ':'], c ∉ List.replicate k '0' ++ digits y := by
    intro c hc hm
    rcases List.mem_append.1 hm with hm | hm
    · have := List.eq_of_mem_replicate hm
      subst this
      revert hc
      decide
    · exact digits_plain y c hc hm
  have p2 : ∀ c ∈ ['T', 'Z', '.'], c ∉ restOfDate mo d := by
    intro c hc hm
    have hc' : c ∈ ['T', 'Z', '.', '-', '+', ':'] := by
      simp only [List.mem_cons, List.not_mem_nil, or_false] at hc ⊢
      tauto
    unfold restOfDate at hm
    rcases List.mem_append.1 hm with hm | hm
    · exact two_plain mo hmo c hc' hm
    · rcases List.mem_cons.1 hm with rfl | hm
      · revert hc; decide
      · exact two_plain d hd c hc' hm
  have p3 : ∀ c ∈ ['T', 'Z', '.'], c ∉ timeOfDay h mi s := by
    intro c hc hm
    have hc' : c ∈ ['T', 'Z', '.', '-', '+', ':'] := by
      simp only [List.mem_cons, List.not_mem_nil, or_false] at hc ⊢
      tauto
    unfold timeOfDay at hm
    rcases List.mem_append.1 hm with hm | hm
    · rcases List.mem_append.1 hm with hm | hm
      · exact two_plain h (by omega) c hc' hm
      · rcases List.mem_cons.1 hm with rfl | hm
        · revert hc; decide
        · exact two_plain mi (by omega) c hc' hm
    · rcases List.mem_cons.1 hm with rfl | hm
      · revert hc; decide
      · exact two_plain s (by omega) c hc' hm
  have hsign : (List.replicate k '0' ++ digits y).head? ≠ some '+' := by
    intro h
    have := List.mem_of_head? h
    exact p1 '+' (by decide) this
  rw [C67_denotes env (List.replicate k '0' ++ digits y) (restOfDate mo d) (timeOfDay h mi s) tail hsign (p1 _ (by decide))
    ⟨p1 _ (by decide), p2 _ (by decide), p3 _ (by decide)⟩ ⟨p1 _ (by decide), p2 _ (by decide), p3 _ (by decide)⟩
    ⟨p1 _ (by decide), p2 _ (by decide), p3 _ (by decide)⟩ htail]
  have e : fourDigits (List.replicate k '0' ++ digits y) = fourDigits (digits y) := by
    unfold fourDigits
    rw [← List.append_assoc, List.replicate_append_replicate]
    congr 2
    simp
    omega
  rw [e, hstd y mo d h mi s hy hy' hv hh hmi hs]
  rfl

/-- C67, defect: an offset after the fraction of a second is ignored without an error. -/
theorem C67_defect_offset_ignored (env : TimeString.Env) (y a b frac off : List Char) (hsign : y.head? ≠ some '+') (hminus : '-' ∉ y)
    (hT : 'T' ∉ y ∧ 'T' ∉ a ∧ 'T' ∉ b) (hZ : 'Z' ∉ y ∧ 'Z' ∉ a ∧ 'Z' ∉ b) (hdot : '.' ∉ y ∧ '.' ∉ a ∧ '.' ∉ b) :
    robustParse env (.str (y ++ '-' :: a ++ 'T' :: b ++ '.' :: (frac ++ '+' :: off))) = robustParse env (.str (y ++ '-' :: a ++ 'T' :: b)) := by
  have h1 := C67_denotes env y a b ('.' :: (frac ++ '+' :: off)) hsign hminus hT hZ hdot (Or.inr (Or.inl rfl))
  have h2 := C67_denotes env y a b [] hsign hminus hT hZ hdot (Or.inl rfl)
  rw [h1, ← h2, List.append_nil]

/-- C67: the time column of a catalogue. Missing times stay missing and datetimes are kept. If pandas can read the column, a time
with an offset is stored as its local time, that is with the offset added to the instant it denotes (a defect); if pandas can not
read it (ValueError), every string of the column is read without its fraction of a second (a defect), and
any other exception is passed on. -/
theorem C67_column (env : TimeString.Env) (col : List TimeString.Cell) :
    (∀ l, env.iso col = .ok l → timeColumn env col = .ok (l.map fun o => o.map fun p => p.1 + p.2)) ∧
    (∀ out, env.iso col = .error .valueError → (timeColumn env col = .ok out ↔
      List.Forall₂ (fun c o => robustParse env c = .ok o) col out)) ∧
    (∀ e, env.iso col = .error e → e ≠ .valueError → timeColumn env col = .error e) ∧
    robustParse env .na = .ok none ∧ ∀ t, robustParse env (.datetime t) = .ok (some t) := by
  refine ⟨?_, ?_, ?_, rfl, fun _ => rfl⟩
  · intro l hl
    unfold timeColumn
    rw [hl]
  · intro out h
    unfold timeColumn
    rw [h]
    exact mapM_ok_iff _ _ _
  · intro e h hne
    unfold timeColumn
    rw [h]
    cases e <;> first | rfl | exact absurd rfl hne

/-- A year below 1000 with a fraction, a zone and an offset. -/
example (env : TimeString.Env) : robustParse env (.str "95-01-02T03:04:05.678+02:00Z".toList) = (env.strptime "0095-01-02T03:04:05".toList).map some :=
  C67_denotes env "95".toList "01-02".toList "03:04:05".toList ".678+02:00Z".toList (by decide) (by decide) (by decide) (by decide) (by decide)
    (by decide)

end SeismoStats.Props
