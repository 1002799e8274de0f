/-
Property C86, continued: the ways in which characters can be written in a document that is read.
-/
import Verif.Proofs.XmlText
import Mathlib.Data.Nat.Digits.Defs
import Mathlib.Tactic.IntervalCases
import Mathlib.Tactic.Ring

namespace SeismoStats.Props
open SeismoStats Parser XmlText

/-! ### Specification -/

/-- The digits of a number in a base up to sixteen, after some zeros. -/
def digitsOf (base zeros n : ℕ) : List Char := List.replicate zeros '0' ++ (Nat.digits base n).reverse.map Nat.digitChar

/-- A character that may occur in an XML 1.0 document. -/
def XmlChar (c : Char) : Prop := (32 ≤ c.toNat ∨ c = '\t' ∨ c = '\n' ∨ c = '\r') ∧ c.toNat ≠ 65534 ∧ c.toNat ≠ 65535

/-- The ways to write a character: itself (except `&`, `<`, `>` and a carriage return), one of the five names, its number in decimal or in hexadecimal (each digit in lower
or upper case). -/
inductive Writes : Char → List Char → Prop
  | itself (c : Char) (h : XmlChar c) (h1 : c ≠ '&') (h2 : c ≠ '<') (h3 : c ≠ '>') (h4 : c ≠ '\r') : Writes c [c]
  | amp : Writes '&' ['&', 'a', 'm', 'p', ';']
  | lt : Writes '<' ['&', 'l', 't', ';']
  | gt : Writes '>' ['&', 'g', 't', ';']
  | quot : Writes '"' ['&', 'q', 'u', 'o', 't', ';']
  | apos : Writes '\'' ['&', 'a', 'p', 'o', 's', ';']
  | decimal (c : Char) (z : ℕ) (h : XmlChar c) : Writes c ('&' :: '#' :: digitsOf 10 z c.toNat ++ [';'])
  | hex (c : Char) (z : ℕ) (w : List Char) (h : XmlChar c) (hw : List.Forall₂ (fun x y => x = y ∨ x = y.toUpper) w (digitsOf 16 z c.toNat)) :
      Writes c ('&' :: '#' :: 'x' :: w ++ [';'])

/-- The references that mean nothing: an unknown name, no digits, a character that is no digit, the number of no character or of one that is not allowed. -/
inductive WrongRef : List Char → Prop
  | name (r : List Char) (h : r.head? ≠ some '#')
      (h5 : r ≠ ['a', 'm', 'p'] ∧ r ≠ ['l', 't'] ∧ r ≠ ['g', 't'] ∧ r ≠ ['q', 'u', 'o', 't'] ∧ r ≠ ['a', 'p', 'o', 's']) : WrongRef r
  | empty : WrongRef ['#']
  | emptyHex : WrongRef ['#', 'x']
  | digit (r : List Char) (x : Char) (h : r.head? ≠ some 'x') (hx : x ∈ r) (hd : x ∉ ['0', '1', '2', '3', '4', '5', '6', '7', '8', '9']) : WrongRef ('#' :: r)
  | digitHex (r : List Char) (x : Char) (hx : x ∈ r)
      (hd : x ∉ ['0', '1', '2', '3', '4', '5', '6', '7', '8', '9', 'a', 'b', 'c', 'd', 'e', 'f', 'A', 'B', 'C', 'D', 'E', 'F']) : WrongRef ('#' :: 'x' :: r)
  | illegal (n z : ℕ) (h : ∀ c : Char, c.toNat = n → ¬XmlChar c) : WrongRef ('#' :: digitsOf 10 z n)
  | illegalHex (n z : ℕ) (h : ∀ c : Char, c.toNat = n → ¬XmlChar c) : WrongRef ('#' :: 'x' :: digitsOf 16 z n)

/-! ### Proofs -/

theorem isLegal_iff (c : Char) : isLegal c = true ↔ XmlChar c := by
  unfold isLegal XmlChar
  have h9 : c = '\t' ↔ c.toNat = 9 := ⟨fun h => by rw [h]; rfl, fun h => Char.toNat_inj.1 h⟩
  have h10 : c = '\n' ↔ c.toNat = 10 := ⟨fun h => by rw [h]; rfl, fun h => Char.toNat_inj.1 h⟩
  have h13 : c = '\r' ↔ c.toNat = 13 := ⟨fun h => by rw [h]; rfl, fun h => Char.toNat_inj.1 h⟩
  rw [h9, h10, h13]
  simp [and_assoc, or_assoc]

theorem digit_char {d : ℕ} (h : d < 16) : digit (Nat.digitChar d) = some d ∧ digit (Nat.digitChar d).toUpper = some d := by
  interval_cases d <;> decide

/-- One more digit. -/
def addDigit (base : ℕ) (o : Option ℕ) (c : Char) : Option ℕ :=
  match o, digit c with
  | some n, some d => if d < base then some (n * base + d) else none
  | _, _ => none

theorem number_fold (base : ℕ) (s : List Char) (h : s ≠ []) : number base s = s.foldl (addDigit base) (some 0) := by
  unfold number
  rw [if_neg h]
  rfl

theorem fold_zeros (base z : ℕ) (hb : 0 < base) (f : Char → Char) (hf : digit (f '0') = some 0) : ((List.replicate z '0').map f).foldl (addDigit base) (some 0) = some 0 := by
  induction z with
  | zero => rfl
  | succ z ih =>
    rw [List.replicate_succ, List.map_cons, List.foldl_cons]
    have : addDigit base (some 0) (f '0') = some 0 := by
      unfold addDigit
      rw [hf]
      simp [hb]
    rw [this, ih]

theorem fold_digits (base : ℕ) (f : Char → Char) (ds : List ℕ) (hd : ∀ d ∈ ds, d < base) (hf : ∀ d < base, digit (f (Nat.digitChar d)) = some d) :
    ((ds.reverse.map Nat.digitChar).map f).foldl (addDigit base) (some 0) = some (Nat.ofDigits base ds) := by
  induction ds with
  | nil => rfl
  | cons d ds ih =>
    rw [List.reverse_cons, List.map_append, List.map_append, List.foldl_append, ih fun x hx => hd x (by simp [hx])]
    simp only [List.map_cons, List.map_nil, List.foldl_cons, List.foldl_nil]
    unfold addDigit
    rw [hf d (hd d (by simp))]
    simp only [hd d (by simp), if_true]
    rw [Nat.ofDigits_cons]
    congr 1
    ring

theorem number_zero_or {base : ℕ} (hb : 1 < base) (hb' : base ≤ 16) (z n : ℕ) : number base (digitsOf base z n) = some n ∨ digitsOf base z n = [] := by
  by_cases hne : digitsOf base z n = []
  · exact .inr hne
  refine .inl ?_
  rw [number_fold _ _ hne]
  unfold digitsOf
  have h0 := fold_zeros base z (by omega) id (by decide)
  have h1 := fold_digits base id (Nat.digits base n) (fun d hd => Nat.digits_lt_base hb hd) fun d hd => (digit_char (by omega)).1
  rw [List.map_id] at h0 h1
  rw [List.foldl_append, h0, h1, Nat.ofDigits_digits]

theorem number_digits {base : ℕ} (hb : 1 < base) (hb' : base ≤ 16) (z n : ℕ) (hn : n ≠ 0) : number base (digitsOf base z n) = some n := by
  refine (number_zero_or hb hb' z n).resolve_right ?_
  unfold digitsOf
  simp [Nat.digits_eq_nil_iff_eq_zero, hn]

theorem fold_congr {base : ℕ} {s t : List Char} (h : List.Forall₂ (fun x y => digit x = digit y) s t) (o : Option ℕ) : s.foldl (addDigit base) o = t.foldl (addDigit base) o := by
  induction h generalizing o with
  | nil => rfl
  | cons h _ ih =>
    rw [List.foldl_cons, List.foldl_cons]
    have : ∀ x y : Char, digit x = digit y → addDigit base o x = addDigit base o y := by
      intro x y e
      unfold addDigit
      rw [e]
    rw [this _ _ h, ih]

theorem number_congr {base : ℕ} {s t : List Char} (h : List.Forall₂ (fun x y => digit x = digit y) s t) : number base s = number base t := by
  by_cases hs : s = []
  · subst hs
    cases h
    rfl
  · have ht : t ≠ [] := by
      rintro rfl
      cases h
      exact hs rfl
    rw [number_fold _ _ hs, number_fold _ _ ht, fold_congr h]

theorem fold_none (base : ℕ) (s : List Char) : s.foldl (addDigit base) none = none := by
  induction s with
  | nil => rfl
  | cons c s ih => exact ih

theorem number_wrong {base : ℕ} {s : List Char} {x : Char} (hx : x ∈ s) (hd : ∀ d, digit x = some d → ¬d < base) : number base s = none := by
  have hs : s ≠ [] := List.ne_nil_of_mem hx
  rw [number_fold _ _ hs]
  obtain ⟨a, b, rfl⟩ := List.append_of_mem hx
  rw [List.foldl_append, List.foldl_cons]
  have : ∀ o, addDigit base o x = none := by
    intro o
    unfold addDigit
    cases o with
    | none => rfl
    | some n =>
      cases h : digit x with
      | none => rfl
      | some d => exact if_neg (hd d h)
  rw [this, fold_none]

theorem charOf_legal {c : Char} (h : XmlChar c) : charOf (some c.toNat) = some c := by
  unfold charOf
  simp only
  rw [if_pos ⟨c.valid, by rw [Char.ofNat_toNat]; exact (isLegal_iff c).2 h⟩, Char.ofNat_toNat]

theorem xmlChar_ne_zero {c : Char} (h : XmlChar c) : c.toNat ≠ 0 := by
  rcases h.1 with h | h | h | h
  · omega
  all_goals (rw [h]; decide)

theorem digit_nameChar {d : ℕ} (h : d < 16) : isNameChar (Nat.digitChar d) = true ∧ Nat.digitChar d ≠ ';' ∧ Nat.digitChar d ≠ 'x' ∧ isNameChar (Nat.digitChar d).toUpper = true ∧
    (Nat.digitChar d).toUpper ≠ ';' := by
  interval_cases d <;> decide

theorem digitsOf_mem {base z n : ℕ} (hb : 1 < base) {c : Char} (h : c ∈ digitsOf base z n) : ∃ d < base, c = Nat.digitChar d := by
  unfold digitsOf at h
  rcases List.mem_append.1 h with h | h
  · exact ⟨0, by omega, List.eq_of_mem_replicate h⟩
  · obtain ⟨d, hd, rfl⟩ := List.mem_map.1 h
    exact ⟨d, Nat.digits_lt_base hb (List.mem_reverse.1 hd), rfl⟩

/-- A reference in character data. -/
theorem feed_ref (r acc r0 : List Char) (st : List String) (d : Bool) (calls : List Sax) (hr : ∀ c ∈ r, (isNameChar c || c == '#') = true ∧ c ≠ ';') {x : Char}
    (hx : refChar (r0 ++ r) = some x) : (L.mk (.ref acc r0) st d calls).feed (r ++ [';']) = L.mk (.text (acc ++ [x])) st d calls := by
  induction r generalizing r0 with
  | nil =>
    rw [List.append_nil] at hx
    rw [List.nil_append, feed_cons, feed_nil]
    unfold L.step
    simp only [if_true]
    rw [hx]
  | cons c r ih =>
    rw [List.cons_append, feed_cons]
    have hc := hr c (by simp)
    have : (L.mk (.ref acc r0) st d calls).step c = L.mk (.ref acc (r0 ++ [c])) st d calls := by
      unfold L.step
      simp only
      rw [if_neg hc.2, if_pos hc.1]
    rw [this]
    exact ih _ (fun y hy => hr y (by simp [hy])) (by simpa using hx)

/-- A reference in the value of an attribute. -/
theorem feed_valueRef (r v r0 : List Char) (t : Tag) (a : List Char) (q : Char) (st : List String) (d : Bool) (calls : List Sax)
    (hr : ∀ c ∈ r, (isNameChar c || c == '#') = true ∧ c ≠ ';') {x : Char} (hx : refChar (r0 ++ r) = some x) :
    (L.mk (.valueRef t a q v r0) st d calls).feed (r ++ [';']) = L.mk (.value t a q (v ++ [x])) st d calls := by
  induction r generalizing r0 with
  | nil =>
    rw [List.append_nil] at hx
    rw [List.nil_append, feed_cons, feed_nil]
    unfold L.step
    simp only [if_true]
    rw [hx]
  | cons c r ih =>
    rw [List.cons_append, feed_cons]
    have hc := hr c (by simp)
    have : (L.mk (.valueRef t a q v r0) st d calls).step c = L.mk (.valueRef t a q v (r0 ++ [c])) st d calls := by
      unfold L.step
      simp only
      rw [if_neg hc.2, if_pos hc.1]
    rw [this]
    exact ih _ (fun y hy => hr y (by simp [hy])) (by simpa using hx)

theorem refChar_decimal {s : List Char} (h : s.head? ≠ some 'x') : refChar ('#' :: s) = charOf (number 10 s) := by
  unfold refChar
  split <;> simp_all

theorem forall₂_mem {α β : Type} {R : α → β → Prop} {s : List α} {t : List β} (h : List.Forall₂ R s t) {x : α} (hx : x ∈ s) : ∃ y ∈ t, R x y := by
  induction h with
  | nil => cases hx
  | cons h _ ih =>
    rcases List.mem_cons.1 hx with rfl | hx
    · exact ⟨_, List.mem_cons_self .., h⟩
    · obtain ⟨y, hy, r⟩ := ih hx
      exact ⟨y, List.mem_cons_of_mem _ hy, r⟩

/-- Every way of writing a character is the character itself or a reference to it. -/
theorem writes_cases {c : Char} {s : List Char} (h : Writes c s) :
    (s = [c] ∧ XmlChar c ∧ c ≠ '&' ∧ c ≠ '<') ∨ ∃ r, s = '&' :: (r ++ [';']) ∧ (∀ x ∈ r, (isNameChar x || x == '#') = true ∧ x ≠ ';') ∧ refChar r = some c := by
  cases h with
  | itself _ h h1 h2 => exact .inl ⟨rfl, h, h1, h2⟩
  | amp => exact .inr ⟨['a', 'm', 'p'], rfl, by decide, rfl⟩
  | lt => exact .inr ⟨['l', 't'], rfl, by decide, rfl⟩
  | gt => exact .inr ⟨['g', 't'], rfl, by decide, rfl⟩
  | quot => exact .inr ⟨['q', 'u', 'o', 't'], rfl, by decide, rfl⟩
  | apos => exact .inr ⟨['a', 'p', 'o', 's'], rfl, by decide, rfl⟩
  | decimal _ z h =>
    refine .inr ⟨'#' :: digitsOf 10 z c.toNat, rfl, ?_, ?_⟩
    · intro x hx
      rcases List.mem_cons.1 hx with rfl | hx
      · decide
      · obtain ⟨d, hd, rfl⟩ := digitsOf_mem (by norm_num) hx
        obtain ⟨h1, h2, -⟩ := digit_nameChar (d := d) (by omega)
        exact ⟨by rw [h1]; rfl, h2⟩
    · rw [refChar_decimal fun hx => ?_, number_digits (by norm_num) (by norm_num) z c.toNat (xmlChar_ne_zero h), charOf_legal h]
      obtain ⟨d, hd, e⟩ := digitsOf_mem (base := 10) (by norm_num) (List.mem_of_mem_head? hx)
      exact (digit_nameChar (by omega)).2.2.1 e.symm
  | hex _ z w h hw =>
    refine .inr ⟨'#' :: 'x' :: w, rfl, ?_, ?_⟩
    · intro x hx
      rcases List.mem_cons.1 hx with rfl | hx
      · decide
      rcases List.mem_cons.1 hx with rfl | hx
      · decide
      · obtain ⟨y, hy, e⟩ := forall₂_mem hw hx
        obtain ⟨d, hd, rfl⟩ := digitsOf_mem (by norm_num) hy
        obtain ⟨h1, h2, -, h3, h4⟩ := digit_nameChar (d := d) hd
        rcases e with rfl | rfl
        · exact ⟨by rw [h1]; rfl, h2⟩
        · exact ⟨by rw [h3]; rfl, h4⟩
    · change charOf (number 16 w) = _
      have hc : List.Forall₂ (fun x y => digit x = digit y) w (digitsOf 16 z c.toNat) := by
        have hm : ∀ y ∈ digitsOf 16 z c.toNat, digit y.toUpper = digit y := by
          intro y hy
          obtain ⟨d, hd, rfl⟩ := digitsOf_mem (by norm_num) hy
          rw [(digit_char hd).1, (digit_char hd).2]
        generalize digitsOf 16 z c.toNat = t at hw hm
        induction hw with
        | nil => exact .nil
        | cons e _ ih =>
          refine .cons ?_ (ih fun y hy => hm y (List.mem_cons_of_mem _ hy))
          rcases e with rfl | rfl
          · rfl
          · exact hm _ (List.mem_cons_self ..)
      rw [number_congr hc, number_digits (by norm_num) (by norm_num) z c.toNat (xmlChar_ne_zero h), charOf_legal h]

theorem feed_writes {c : Char} {s : List Char} (h : Writes c s) (acc : List Char) (st : List String) (hst : st ≠ []) (d : Bool) (calls : List Sax) :
    (L.mk (.text acc) st d calls).feed s = L.mk (.text (acc ++ [c])) st d calls := by
  rcases writes_cases h with ⟨rfl, h1, h2, h3⟩ | ⟨r, rfl, h1, h2⟩
  · rw [feed_cons, feed_nil]
    unfold L.step
    dsimp only
    unfold L.inText
    rw [if_neg h3, if_neg hst, if_neg h2, if_pos ((isLegal_iff c).2 h1)]
  · rw [feed_cons]
    have : (L.mk (.text acc) st d calls).step '&' = L.mk (.ref acc []) st d calls := by
      simp [L.step, L.inText, hst]
    rw [this]
    exact feed_ref r acc [] st d calls h1 h2

theorem feed_writes_all {s : List Char} {ws : List (List Char)} (h : List.Forall₂ Writes s ws) (acc : List Char) (st : List String) (hst : st ≠ []) (d : Bool) (calls : List Sax) :
    (L.mk (.text acc) st d calls).feed ws.flatten = L.mk (.text (acc ++ s)) st d calls := by
  induction h generalizing acc with
  | nil => simp [feed_nil]
  | cons h _ ih =>
    rw [List.flatten_cons, feed_append, feed_writes h acc st hst d calls, ih]
    simp

theorem isWs_toNat {c : Char} (h : isWs c = true) : c = ' ' ∨ c = '\t' ∨ c = '\n' ∨ c = '\r' := by
  unfold isWs at h
  simp only [Bool.or_eq_true, beq_iff_eq] at h
  tauto

theorem feed_value_writes {c : Char} {s : List Char} (h : Writes c s) (hw : s ≠ ['\t'] ∧ s ≠ ['\n'] ∧ s ≠ ['\r']) (hq : s ≠ ['"']) (t : Tag) (a v : List Char) (st : List String)
    (d : Bool) (calls : List Sax) : (L.mk (.value t a '"' v) st d calls).feed s = L.mk (.value t a '"' (v ++ [c])) st d calls := by
  rcases writes_cases h with ⟨rfl, h1, h2, h3⟩ | ⟨r, rfl, h1, h2⟩
  · rw [feed_cons, feed_nil]
    unfold L.step
    dsimp only
    unfold L.inValue
    rw [if_neg (fun e => hq (by rw [e])), if_neg h3, if_neg h2]
    by_cases hs : isWs c = true
    · rw [if_pos hs]
      rcases isWs_toNat hs with rfl | rfl | rfl | rfl
      · rfl
      · exact absurd rfl hw.1
      · exact absurd rfl hw.2.1
      · exact absurd rfl hw.2.2
    · rw [if_neg hs, if_pos ((isLegal_iff c).2 h1)]
  · rw [feed_cons]
    have : (L.mk (.value t a '"' v) st d calls).step '&' = L.mk (.valueRef t a '"' v []) st d calls := by
      simp [L.step, L.inValue]
    rw [this]
    exact feed_valueRef r v [] t a '"' st d calls h1 h2

theorem feed_value_writes_all {s : List Char} {ws : List (List Char)} (h : List.Forall₂ Writes s ws) (hw : ∀ w ∈ ws, w ≠ ['\t'] ∧ w ≠ ['\n'] ∧ w ≠ ['\r'] ∧ w ≠ ['"']) (t : Tag)
    (a v : List Char) (st : List String) (d : Bool) (calls : List Sax) :
    (L.mk (.value t a '"' v) st d calls).feed ws.flatten = L.mk (.value t a '"' (v ++ s)) st d calls := by
  induction h generalizing v with
  | nil => simp [feed_nil]
  | cons h _ ih =>
    have h1 := hw _ (List.mem_cons_self ..)
    rw [List.flatten_cons, feed_append, feed_value_writes h ⟨h1.1, h1.2.1, h1.2.2.1⟩ h1.2.2.2, ih fun w hw' => hw w (List.mem_cons_of_mem _ hw')]
    simp

/-- C86: an element whose content and identifier are written with references (as a writer that escapes does) is read with exactly the characters that were meant,
whatever characters they are and however each of them is written. -/
theorem C86_references (s i : List Char) (ws wi : List (List Char)) (h : List.Forall₂ Writes s ws) (hi : List.Forall₂ Writes i wi)
    (hw : ∀ w ∈ wi, w ≠ ['\t'] ∧ w ≠ ['\n'] ∧ w ≠ ['\r'] ∧ w ≠ ['"']) :
    let l := lex ["<text publicID=\"".toList ++ wi.flatten ++ "\">".toList ++ ws.flatten ++ "</text>".toList]
    l.ending = .complete ∧ l.calls = .start "text" (some (String.ofList i)) :: charsCall s ++ [.stop "text"] := by
  have e1 : (L.mk (.text []) [] false []).feed "<text publicID=\"".toList = L.mk (.value ⟨"text".toList, []⟩ "publicID".toList '"' []) [] false [] := rfl
  have e2 : (L.mk (.value ⟨"text".toList, []⟩ "publicID".toList '"' i) [] false []).feed "\">".toList = L.mk (.text []) ["text"] false [.start "text" (some (String.ofList i))] := by
    rfl
  have e3 : (L.mk (.text s) ["text"] false [.start "text" (some (String.ofList i))]).feed "</text>".toList =
      L.mk (.text []) [] true ([.start "text" (some (String.ofList i))] ++ charsCall s ++ [.stop "text"]) := by
    rfl
  have key : (L.mk (.text []) [] false []).feed ("<text publicID=\"".toList ++ wi.flatten ++ "\">".toList ++ ws.flatten ++ "</text>".toList) =
      L.mk (.text []) [] true ([.start "text" (some (String.ofList i))] ++ charsCall s ++ [.stop "text"]) := by
    rw [feed_append, feed_append, feed_append, feed_append, e1, feed_value_writes_all hi hw, List.nil_append, e2, feed_writes_all h [] _ (by simp), List.nil_append, e3]
  intro l
  have hl : l = L.mk (.text []) [] true ([.start "text" (some (String.ofList i))] ++ charsCall s ++ [.stop "text"]) := by
    change ((L.mk (.text []) [] false []).feed _).flush = _
    rw [key]
    simp [L.flush, charsCall]
  rw [hl]
  exact ⟨rfl, rfl⟩

theorem wrong_refChar {r : List Char} (h : WrongRef r) : refChar r = none := by
  have dig : ∀ (x : Char) (d : ℕ), digit x = some d → x ∉ ['0', '1', '2', '3', '4', '5', '6', '7', '8', '9'] → 10 ≤ d := by
    intro x d hd hx
    by_contra hlt
    refine hx ?_
    have hn : x.toNat = d + 48 := by
      unfold digit at hd
      dsimp only at hd
      split_ifs at hd <;> simp at hd <;> omega
    have hx' : x = Char.ofNat (d + 48) := by rw [← hn, Char.ofNat_toNat]
    rw [hx']
    push Not at hlt
    interval_cases d <;> decide
  have digHex : ∀ (x : Char) (d : ℕ), digit x = some d → x ∈ ['0', '1', '2', '3', '4', '5', '6', '7', '8', '9', 'a', 'b', 'c', 'd', 'e', 'f', 'A', 'B', 'C', 'D', 'E', 'F'] := by
    intro x d hd
    have hn : (48 ≤ x.toNat ∧ x.toNat ≤ 57) ∨ (97 ≤ x.toNat ∧ x.toNat ≤ 102) ∨ (65 ≤ x.toNat ∧ x.toNat ≤ 70) := by
      unfold digit at hd
      dsimp only at hd
      split_ifs at hd <;> tauto
    have hx' : x = Char.ofNat x.toNat := by rw [Char.ofNat_toNat]
    rw [hx']
    generalize x.toNat = n at hn
    rcases hn with ⟨h1, h2⟩ | ⟨h1, h2⟩ | ⟨h1, h2⟩ <;> interval_cases n <;> decide
  have ill : ∀ n : ℕ, (∀ c : Char, c.toNat = n → ¬XmlChar c) → charOf (some n) = none := by
    intro n h
    unfold charOf
    dsimp only
    rw [if_neg]
    rintro ⟨h1, h2⟩
    exact h _ (by unfold Char.ofNat; rw [dif_pos h1]; rfl) ((isLegal_iff _).1 h2)
  cases h with
  | name _ h h5 =>
    unfold refChar
    split <;> simp_all
  | empty => rfl
  | emptyHex => rfl
  | digit s x h hx hd =>
    rw [refChar_decimal h, number_wrong hx fun d e => not_lt.2 (dig x d e hd)]
    rfl
  | digitHex s x hx hd =>
    change charOf (number 16 s) = none
    rw [number_wrong hx fun d e => absurd (digHex x d e) hd]
    rfl
  | illegal n z h =>
    rw [refChar_decimal fun hx => ?_]
    · rcases number_zero_or (base := 10) (by norm_num) (by norm_num) z n with e | e
      · rw [e, ill n h]
      · rw [e]
        rfl
    · obtain ⟨d, hd, e⟩ := digitsOf_mem (base := 10) (by norm_num) (List.mem_of_mem_head? hx)
      exact (digit_nameChar (by omega)).2.2.1 e.symm
  | illegalHex n z h =>
    change charOf (number 16 (digitsOf 16 z n)) = none
    rcases number_zero_or (base := 16) (by norm_num) (by norm_num) z n with e | e
    · rw [e, ill n h]
    · rw [e]
      rfl

theorem feed_bad (st : List String) (d : Bool) (calls : List Sax) (s : List Char) : (L.mk .bad st d calls).feed s = L.mk .bad st d calls := by
  induction s with
  | nil => rfl
  | cons c s ih =>
    rw [feed_cons]
    exact ih

theorem feed_wrong (r acc r0 : List Char) (st : List String) (d : Bool) (calls : List Sax) (hr : ';' ∉ r) (hx : refChar (r0 ++ r) = none) :
    (L.mk (.ref acc r0) st d calls).feed (r ++ [';']) = L.mk .bad st d calls := by
  induction r generalizing r0 with
  | nil =>
    rw [List.append_nil] at hx
    rw [List.nil_append, feed_cons, feed_nil]
    unfold L.step
    simp only [if_true]
    rw [hx]
    rfl
  | cons c r ih =>
    rw [List.cons_append, feed_cons]
    have hc : c ≠ ';' := fun e => hr (by simp [e])
    by_cases hn : (isNameChar c || c == '#') = true
    · have : (L.mk (.ref acc r0) st d calls).step c = L.mk (.ref acc (r0 ++ [c])) st d calls := by
        unfold L.step
        simp only
        rw [if_neg hc, if_pos hn]
      rw [this]
      exact ih _ (fun h => hr (by simp [h])) (by simpa using hx)
    · have : (L.mk (.ref acc r0) st d calls).step c = L.mk .bad st d calls := by
        unfold L.step
        simp only
        rw [if_neg hc, if_neg hn]
        rfl
      rw [this, feed_bad]

/-- C86: a reference that is none of these (an unknown name, a number without digits, with wrong digits or of a character that is not allowed) is an error, whatever
follows. -/
theorem C86_wrong_reference (r : List Char) (hr : WrongRef r) (hd : ';' ∉ r) (s : List Char) : (lex ["<text>&".toList ++ (r ++ [';']) ++ s]).ending = .other := by
  have e1 : (L.mk (.text []) [] false []).feed "<text>&".toList = L.mk (.ref [] []) ["text"] false [.start "text" none] := rfl
  change ((L.mk (.text []) [] false []).feed _).flush.ending = _
  rw [feed_append, feed_append, e1, feed_wrong r [] [] _ _ _ hd (wrong_refChar hr), feed_bad]
  rfl

/-- C86: an attribute that is given twice is an error, whatever follows. -/
theorem C86_duplicate_attribute (v w : List Char) (hv : ∀ c ∈ v, XmlChar c ∧ c ≠ '&' ∧ c ≠ '<' ∧ c ≠ '"') (hw : ∀ c ∈ w, XmlChar c ∧ c ≠ '&' ∧ c ≠ '<' ∧ c ≠ '"') (s : List Char) :
    (lex ["<text publicID=\"".toList ++ v ++ "\" publicID=\"".toList ++ w ++ "\"".toList ++ s]).ending = .other := by
  have val : ∀ (u : List Char), (∀ c ∈ u, XmlChar c ∧ c ≠ '&' ∧ c ≠ '<' ∧ c ≠ '"') → ∀ t x, ∃ u', (L.mk (.value t "publicID".toList '"' x) [] false []).feed u = L.mk (.value t "publicID".toList '"' u') [] false [] := by
    intro u
    induction u with
    | nil => exact fun _ t x => ⟨x, rfl⟩
    | cons c u ih =>
      intro h t x
      obtain ⟨h1, h2, h3, h4⟩ := h c (by simp)
      rw [feed_cons]
      by_cases hs : isWs c = true
      · have : (L.mk (.value t "publicID".toList '"' x) [] false []).step c = L.mk (.value t "publicID".toList '"' (x ++ [' '])) [] false [] := by
          unfold L.step
          dsimp only
          unfold L.inValue
          rw [if_neg h4, if_neg h3, if_neg h2, if_pos hs]
        rw [this]
        exact ih (fun y hy => h y (by simp [hy])) t _
      · have : (L.mk (.value t "publicID".toList '"' x) [] false []).step c = L.mk (.value t "publicID".toList '"' (x ++ [c])) [] false [] := by
          unfold L.step
          dsimp only
          unfold L.inValue
          rw [if_neg h4, if_neg h3, if_neg h2, if_neg hs, if_pos ((isLegal_iff c).2 h1)]
        rw [this]
        exact ih (fun y hy => h y (by simp [hy])) t _
  have e1 : (L.mk (.text []) [] false []).feed "<text publicID=\"".toList = L.mk (.value ⟨"text".toList, []⟩ "publicID".toList '"' []) [] false [] := rfl
  obtain ⟨v', hv'⟩ := val v hv ⟨"text".toList, []⟩ []
  have e2 : (L.mk (.value ⟨"text".toList, []⟩ "publicID".toList '"' v') [] false []).feed "\" publicID=\"".toList =
      L.mk (.value ⟨"text".toList, [("publicID".toList, v')]⟩ "publicID".toList '"' []) [] false [] := rfl
  obtain ⟨w', hw'⟩ := val w hw ⟨"text".toList, [("publicID".toList, v')]⟩ []
  have e3 : (L.mk (.value ⟨"text".toList, [("publicID".toList, v')]⟩ "publicID".toList '"' w') [] false []).feed "\"".toList = L.mk .bad [] false [] := rfl
  change ((L.mk (.text []) [] false []).feed _).flush.ending = _
  rw [feed_append, feed_append, feed_append, feed_append, feed_append, e1, hv', e2, hw', e3, feed_bad]
  rfl

/-! ### Examples -/

/-- An e with acute accent, written in hexadecimal with a zero and mixed case. -/
example : Writes 'é' "&#x0E9;".toList :=
  .hex 'é' 1 ['0', 'E', '9'] ⟨.inl (by decide), by decide, by decide⟩ (.cons (.inl rfl) (.cons (.inr (by decide)) (.cons (.inl (by decide)) .nil)))

example : Writes '<' "&#60;".toList := .decimal '<' 0 ⟨.inl (by decide), by decide, by decide⟩

example : WrongRef "nbsp".toList := .name _ (by decide) (by decide)

example : WrongRef "#x1G".toList := .digitHex _ 'G' (by decide) (by decide)

/-- Zero is the number of no character that is allowed. -/
example : WrongRef "#0".toList := .illegal 0 1 fun c h => by
  rw [Char.toNat_inj.1 (show c.toNat = (Char.ofNat 0).toNat from h)]
  rintro ⟨h | h | h | h, -⟩
  · exact absurd h (by decide)
  all_goals exact absurd h (by decide)

end SeismoStats.Props
