/-
Lemmas about the reader of XML text (Model/XmlText.lean).
-/
import Verif.Spec.XmlText
import Verif.Model.QuakemlText

namespace SeismoStats.XmlText
open SeismoStats SeismoStats.Parser SeismoStats.QuakemlText

/-- Reading without the end of a buffer. -/
def L.feed (l : L) (s : List Char) : L := s.foldl L.step l

theorem feed_nil (l : L) : l.feed [] = l := rfl
theorem feed_cons (l : L) (c : Char) (s : List Char) : l.feed (c :: s) = (l.step c).feed s := rfl
theorem feed_append (l : L) (s t : List Char) : l.feed (s ++ t) = (l.feed s).feed t := List.foldl_append ..

/-- A character of character data: plain or a new line. -/
def TextChar (c : Char) : Prop := Plain c ∨ c = '\n'

/-- A name. -/
def IsName (s : List Char) : Prop := ∃ c r, s = c :: r ∧ isNameStart c = true ∧ ∀ d ∈ r, isNameChar d = true

/-- A call whose text is read as this call. -/
def OkCall : Sax → Prop
  | .start tag id => IsName tag.toList ∧ ∀ v, id = some v → ∀ c ∈ v.toList, Plain c
  | .stop tag => IsName tag.toList
  | .chars s => ∀ c ∈ s, TextChar c

theorem legal_of_plain {c : Char} (h : Plain c) : isLegal c = true := by
  obtain ⟨h1, _, _, _, _, h2, h3⟩ := h
  simp [isLegal, h1, h2, h3]

theorem legal_of_text {c : Char} (h : TextChar c) : isLegal c = true := by
  rcases h with h | rfl
  · exact legal_of_plain h
  · decide

theorem text_ne {c : Char} (h : TextChar c) : c ≠ '<' ∧ c ≠ '&' := by
  rcases h with h | rfl
  · exact ⟨h.2.1, h.2.2.2.1⟩
  · decide

theorem feed_text (s acc : List Char) (st : List String) (d : Bool) (calls : List Sax) (hst : st ≠ []) (hs : ∀ c ∈ s, TextChar c) :
    (L.mk (.text acc) st d calls).feed s = L.mk (.text (acc ++ s)) st d calls := by
  induction s generalizing acc with
  | nil => simp [feed_nil]
  | cons c s ih =>
    have hc := hs c (by simp)
    rw [feed_cons]
    have : (L.mk (.text acc) st d calls).step c = L.mk (.text (acc ++ [c])) st d calls := by
      unfold L.step
      dsimp only
      unfold L.inText
      rw [if_neg (text_ne hc).1, if_neg hst, if_neg (text_ne hc).2, if_pos (legal_of_text hc)]
    rw [this, ih _ fun x hx => hs x (by simp [hx])]
    simp

theorem feed_name (s n : List Char) (st : List String) (d : Bool) (calls : List Sax) (hs : ∀ c ∈ s, isNameChar c = true) :
    (L.mk (.name n) st d calls).feed s = L.mk (.name (n ++ s)) st d calls := by
  induction s generalizing n with
  | nil => simp [feed_nil]
  | cons c s ih =>
    rw [feed_cons]
    have : (L.mk (.name n) st d calls).step c = L.mk (.name (n ++ [c])) st d calls := by
      unfold L.step
      dsimp only
      rw [if_pos (hs c (by simp))]
    rw [this, ih _ fun x hx => hs x (by simp [hx])]
    simp

theorem feed_closeName (s n : List Char) (st : List String) (d : Bool) (calls : List Sax) (hs : ∀ c ∈ s, isNameChar c = true) :
    (L.mk (.closeName n) st d calls).feed s = L.mk (.closeName (n ++ s)) st d calls := by
  induction s generalizing n with
  | nil => simp [feed_nil]
  | cons c s ih =>
    rw [feed_cons]
    have : (L.mk (.closeName n) st d calls).step c = L.mk (.closeName (n ++ [c])) st d calls := by
      unfold L.step
      dsimp only
      rw [if_pos (hs c (by simp))]
    rw [this, ih _ fun x hx => hs x (by simp [hx])]
    simp

theorem feed_value (s v : List Char) (t : Tag) (a : List Char) (st : List String) (d : Bool) (calls : List Sax) (hs : ∀ c ∈ s, Plain c) :
    (L.mk (.value t a '"' v) st d calls).feed s = L.mk (.value t a '"' (v ++ s)) st d calls := by
  induction s generalizing v with
  | nil => simp [feed_nil]
  | cons c s ih =>
    rw [feed_cons]
    have hc := hs c (by simp)
    obtain ⟨h32, h1, _, h2, h3, _⟩ := id hc
    have : (L.mk (.value t a '"' v) st d calls).step c = L.mk (.value t a '"' (v ++ [c])) st d calls := by
      unfold L.step
      dsimp only
      unfold L.inValue
      rw [if_neg h3, if_neg h1, if_neg h2]
      by_cases hw : isWs c = true
      · rw [if_pos hw]
        have : c = ' ' := by
          unfold isWs at hw
          simp only [Bool.or_eq_true, beq_iff_eq] at hw
          rcases hw with ((rfl | rfl) | rfl) | rfl
          · rfl
          · exact absurd h32 (by decide)
          · exact absurd h32 (by decide)
          · exact absurd h32 (by decide)
        rw [this]
      · rw [if_neg hw, if_pos (legal_of_plain hc)]
    rw [this, ih _ fun x hx => hs x (by simp [hx])]
    simp

/-- The start of an attribute publicID. -/
theorem feed_publicID (n : List Char) (st : List String) (d : Bool) (calls : List Sax) :
    (L.mk (.name n) st d calls).feed " publicID=\"".toList = L.mk (.value ⟨n, []⟩ "publicID".toList '"' []) st d calls := by
  have h : " publicID=\"".toList = [' ', 'p', 'u', 'b', 'l', 'i', 'c', 'I', 'D', '=', '"'] := by decide
  have h2 : "publicID".toList = ['p', 'u', 'b', 'l', 'i', 'c', 'I', 'D'] := by decide
  rw [h, h2]
  rfl

theorem inSpace_gt (l : L) (t : Tag) : l.inSpace t '>' = l.opened t := rfl

theorem step_name_gt (n : List Char) (st : List String) (d : Bool) (calls : List Sax) :
    (L.mk (.name n) st d calls).step '>' = (L.mk (.name n) st d calls).opened ⟨n, []⟩ := rfl

theorem feed_start (acc : List Char) (st : List String) (calls : List Sax) (tag : String) (id : Option String)
    (h : OkCall (.start tag id)) :
    (L.mk (.text acc) st false calls).feed (showSax (.start tag id)) =
      L.mk (.text []) (tag :: st) false (calls ++ charsCall acc ++ [.start tag id]) := by
  obtain ⟨⟨c, r, hn, hc, hr⟩, hid⟩ := h
  have htag : String.ofList (c :: r) = tag := by rw [← hn]; exact String.ofList_toList
  unfold showSax
  dsimp only
  rw [hn, List.cons_append, List.cons_append, List.cons_append, feed_cons, List.cons_append, feed_cons, feed_append, feed_append]
  have h1 : (L.mk (.text acc) st false calls).step '<' = L.mk .lt st false (calls ++ charsCall acc) := rfl
  have h2 : (L.mk .lt st false (calls ++ charsCall acc)).step c = L.mk (.name [c]) st false (calls ++ charsCall acc) := by
    unfold L.step
    dsimp only
    have e1 : c ≠ '/' := by rintro rfl; exact absurd hc (by decide)
    have e2 : c ≠ '?' := by rintro rfl; exact absurd hc (by decide)
    rw [if_neg e1, if_neg e2, if_pos hc]
  rw [h1, h2, feed_name _ _ _ _ _ hr, List.singleton_append]
  cases id with
  | none =>
    rw [show idText none = [] from rfl, feed_nil, feed_cons, feed_nil, step_name_gt]
    unfold L.opened
    rw [htag]
    simp
  | some v =>
    rw [show idText (some v) = " publicID=\"".toList ++ v.toList ++ ['"'] from rfl, feed_append, feed_append, feed_publicID, feed_value _ _ _ _ _ _ _ (hid v rfl)]
    simp only [feed_cons, feed_nil, List.nil_append]
    have h3 : (L.mk (.value ⟨c :: r, []⟩ "publicID".toList '"' v.toList) st false (calls ++ charsCall acc)).step '"' =
        L.mk (.valueEnd ⟨c :: r, [("publicID".toList, v.toList)]⟩) st false (calls ++ charsCall acc) := rfl
    rw [h3]
    have h4 : (L.mk (.valueEnd ⟨c :: r, [("publicID".toList, v.toList)]⟩) st false (calls ++ charsCall acc)).step '>' =
        (L.mk (.valueEnd ⟨c :: r, [("publicID".toList, v.toList)]⟩) st false (calls ++ charsCall acc)).opened ⟨c :: r, [("publicID".toList, v.toList)]⟩ := rfl
    rw [h4]
    unfold L.opened
    rw [htag]
    simp

theorem feed_stop (acc : List Char) (st : List String) (calls : List Sax) (tag : String) (h : IsName tag.toList) :
    (L.mk (.text acc) (tag :: st) false calls).feed (showSax (.stop tag)) =
      L.mk (.text []) st (decide (st = [])) (calls ++ charsCall acc ++ [.stop tag]) := by
  obtain ⟨c, r, hn, hc, hr⟩ := h
  have htag : String.ofList (c :: r) = tag := by rw [← hn]; exact String.ofList_toList
  unfold showSax
  dsimp only
  rw [hn, List.cons_append, List.cons_append, List.cons_append, feed_cons, feed_cons, feed_cons, feed_append]
  have h1 : (L.mk (.text acc) (tag :: st) false calls).step '<' = L.mk .lt (tag :: st) false (calls ++ charsCall acc) := rfl
  have h2 : (L.mk .lt (tag :: st) false (calls ++ charsCall acc)).step '/' = L.mk .close (tag :: st) false (calls ++ charsCall acc) := rfl
  have h3 : (L.mk .close (tag :: st) false (calls ++ charsCall acc)).step c = L.mk (.closeName [c]) (tag :: st) false (calls ++ charsCall acc) := by
    unfold L.step
    dsimp only
    rw [if_pos hc]
  rw [h1, h2, h3, feed_closeName _ _ _ _ _ hr, feed_cons, feed_nil, List.singleton_append]
  have h4 : (L.mk (.closeName (c :: r)) (tag :: st) false (calls ++ charsCall acc)).step '>' =
      (L.mk (.closeName (c :: r)) (tag :: st) false (calls ++ charsCall acc)).closed (c :: r) := rfl
  rw [h4]
  unfold L.closed
  dsimp only
  rw [if_pos htag.symm]

/-! ### Sequences of calls -/

/-- The open elements after the calls (those opened by the calls only); none if an end tag does not fit. -/
def nest : List String → List Sax → Option (List String)
  | st, [] => some st
  | st, .start tag _ :: r => nest (tag :: st) r
  | st, .chars _ :: r => nest st r
  | [], .stop _ :: _ => none
  | t :: st, .stop tag :: r => if t = tag then nest st r else none

theorem nest_append (a b : List Sax) (st : List String) : nest st (a ++ b) = (nest st a).bind fun s => nest s b := by
  induction a generalizing st with
  | nil => rfl
  | cons x a ih =>
    cases x with
    | start tag id => exact ih _
    | chars s => exact ih _
    | stop tag =>
      cases st with
      | nil => rfl
      | cons t st =>
        rw [List.cons_append, nest, nest]
        split
        · exact ih _
        · rfl

/-- The calls that the reader makes for the text of calls: character data that is not separated by a tag is joined. The second component has not yet
been delivered. -/
def merge : List Char → List Sax → List Sax × List Char
  | acc, [] => ([], acc)
  | acc, .chars s :: r => merge (acc ++ s) r
  | acc, x :: r => (charsCall acc ++ x :: (merge [] r).1, (merge [] r).2)

theorem feed_calls (calls : List Sax) (hok : ∀ x ∈ calls, OkCall x) (acc : List Char) (rel base : List String) (hb : base ≠ []) (out : List Sax) (rel' : List String)
    (hn : nest rel calls = some rel') :
    (L.mk (.text acc) (rel ++ base) false out).feed (showCalls calls) =
      L.mk (.text (merge acc calls).2) (rel' ++ base) false (out ++ (merge acc calls).1) := by
  induction calls generalizing acc rel out with
  | nil =>
    cases hn
    simp [showCalls, feed_nil, merge]
  | cons x r ih =>
    have hx := hok x (by simp)
    have ih := ih fun y hy => hok y (by simp [hy])
    have e : showCalls (x :: r) = showSax x ++ showCalls r := by simp [showCalls]
    rw [e, feed_append]
    cases x with
    | start tag id =>
      rw [feed_start _ _ _ _ _ hx, ← List.cons_append, ih [] (tag :: rel) _ hn]
      simp [merge]
    | chars s =>
      rw [show showSax (.chars s) = s from rfl, feed_text _ _ _ _ _ (by simp [hb]) hx, ih _ _ _ hn]
      simp [merge]
    | stop tag =>
      cases rel with
      | nil => cases hn
      | cons t rel =>
        unfold nest at hn
        split at hn
        · rename_i ht
          subst ht
          rw [List.cons_append, feed_stop _ _ _ _ hx]
          have : decide (rel ++ base = []) = false := by simp [hb]
          rw [this, ih _ _ _ hn]
          simp [merge]
        · cases hn

/-! ### Buffers -/

/-- Character data one character at a time. -/
def explode : List Sax → List Sax
  | [] => []
  | .chars s :: r => s.map (fun c => .chars [c]) ++ explode r
  | x :: r => x :: explode r

theorem explode_append (a b : List Sax) : explode (a ++ b) = explode a ++ explode b := by
  induction a with
  | nil => rfl
  | cons x a ih => cases x <;> simp [explode, ih]

theorem explode_charsCall (acc : List Char) : explode (charsCall acc) = acc.map fun c => Sax.chars [c] := by
  unfold charsCall
  split
  · rename_i h; subst h; rfl
  · simp [explode]

/-- What has not been delivered yet. -/
def Mode.pending : Mode → List Char
  | .text acc => acc
  | .ref acc _ => acc
  | _ => []

/-- The mode without what has not been delivered. -/
def Mode.core : Mode → Mode
  | .text _ => .text []
  | .ref _ r => .ref [] r
  | m => m

/-- All calls, including what has not been delivered, one character at a time. -/
def L.flat (l : L) : List Sax := explode (l.calls ++ charsCall l.mode.pending)

/-- The same up to the delivery of character data, or both not well-formed. -/
def Same (l l' : L) : Prop :=
  (l.mode = .bad ∧ l'.mode = .bad) ∨ (l.mode.core = l'.mode.core ∧ l.stack = l'.stack ∧ l.done = l'.done ∧ l.flat = l'.flat)

theorem flat_eq (l : L) : l.flat = explode l.calls ++ l.mode.pending.map fun c => Sax.chars [c] := by
  unfold L.flat
  rw [explode_append, explode_charsCall]

theorem same_flush {l l' : L} (h : Same l l') : Same l.flush l' := by
  rcases h with ⟨h, h'⟩ | ⟨h1, h2, h3, h4⟩
  · refine .inl ⟨?_, h'⟩
    unfold L.flush
    rw [h]
    exact h
  · right
    rw [← h1, ← h2, ← h3, ← h4]
    cases l with
    | mk m st d calls =>
      cases m <;> simp [L.flush, Mode.core, flat_eq, Mode.pending, explode_append, explode_charsCall]

/-- A step only appends calls, which do not depend on the earlier ones. -/
theorem step_calls (m : Mode) (st : List String) (d : Bool) (calls : List Sax) (c : Char) :
    (L.mk m st d calls).step c =
      { (L.mk m st d []).step c with calls := calls ++ ((L.mk m st d []).step c).calls } := by
  cases m <;> simp only [L.step, L.inText, L.inSpace, L.inValue, L.opened, L.closed, L.fail] <;>
    (try cases st) <;> (repeat' split) <;> simp_all

theorem step_bad {l : L} (h : l.mode = .bad) (c : Char) : l.step c = l := by
  unfold L.step
  rw [h]

theorem same_step {l l' : L} (h : Same l l') (c : Char) : Same (l.step c) (l'.step c) := by
  rcases h with ⟨h, h'⟩ | ⟨h1, h2, h3, h4⟩
  · rw [step_bad h, step_bad h']
    exact .inl ⟨h, h'⟩
  obtain ⟨m, st, d, calls⟩ := l
  obtain ⟨m', st', d', calls'⟩ := l'
  dsimp only at h1 h2 h3
  subst h2
  subst h3
  rw [flat_eq, flat_eq] at h4
  dsimp only at h4
  have other : m.pending = [] → m = m' → Same ((L.mk m st d calls).step c) ((L.mk m' st d calls').step c) := by
    intro hp hm
    subst hm
    right
    rw [hp] at h4
    simp only [List.map_nil, List.append_nil] at h4
    rw [step_calls m st d calls, step_calls m st d calls']
    refine ⟨rfl, rfl, rfl, ?_⟩
    rw [flat_eq, flat_eq]
    dsimp only
    rw [explode_append, explode_append, h4]
  cases m with
  | text acc =>
    cases m' with
    | text acc' =>
      simp only [Mode.pending] at h4
      unfold L.step
      dsimp only
      unfold L.inText
      split
      · exact .inr ⟨rfl, rfl, rfl, by simp [flat_eq, explode_append, explode_charsCall, Mode.pending, h4]⟩
      · split
        · split
          · exact .inr ⟨rfl, rfl, rfl, by simp [flat_eq, Mode.pending, h4]⟩
          · exact .inl ⟨rfl, rfl⟩
        · split
          · exact .inr ⟨rfl, rfl, rfl, by simp [flat_eq, Mode.pending, h4]⟩
          · split
            · refine .inr ⟨rfl, rfl, rfl, ?_⟩
              simp only [flat_eq, Mode.pending, List.map_append, ← List.append_assoc, h4]
            · exact .inl ⟨rfl, rfl⟩
    | _ => cases h1
  | ref acc r =>
    cases m' with
    | ref acc' r' =>
      simp only [Mode.core, Mode.ref.injEq, true_and] at h1
      subst h1
      simp only [Mode.pending] at h4
      unfold L.step
      dsimp only
      split
      · split
        · refine .inr ⟨rfl, rfl, rfl, ?_⟩
          simp only [flat_eq, Mode.pending, List.map_append, ← List.append_assoc, h4]
        · exact .inl ⟨rfl, rfl⟩
      · split
        · exact .inr ⟨rfl, rfl, rfl, by simp [flat_eq, Mode.pending, h4]⟩
        · exact .inl ⟨rfl, rfl⟩
    | _ => cases h1
  | _ => exact other rfl (by cases m' <;> simp_all [Mode.core])

theorem same_feed {l l' : L} (h : Same l l') (s : List Char) : Same (l.feed s) (l'.feed s) := by
  induction s generalizing l l' with
  | nil => exact h
  | cons c s ih => exact ih (same_step h c)

theorem same_refl (l : L) : Same l l := .inr ⟨rfl, rfl, rfl, rfl⟩

theorem same_buffers (bufs : List (List Char)) (l l' : L) (h : Same l l') : Same (bufs.foldl L.buffer l) (l'.feed bufs.flatten) := by
  induction bufs generalizing l l' with
  | nil => exact h
  | cons b bufs ih =>
    rw [List.foldl_cons, List.flatten_cons, feed_append]
    exact ih _ _ (same_flush (same_feed h b))

theorem same_ending {l l' : L} (h : Same l l') : l.ending = l'.ending := by
  unfold L.ending
  rcases h with ⟨h, h'⟩ | ⟨h1, h2, h3, _⟩
  · rw [h, h']
  · rw [h3]
    cases h : l.mode <;> cases h' : l'.mode <;> rw [h, h'] at h1 <;> first | rfl | cases h1

/-- Cutting the text into buffers changes neither the ending nor the calls, up to the division of character data. -/
theorem lex_same (bufs : List (List Char)) : Same (lex bufs) ((L.mk (.text []) [] false []).feed bufs.flatten) :=
  same_buffers bufs _ _ (same_refl _)

end SeismoStats.XmlText
