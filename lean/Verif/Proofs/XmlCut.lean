/-
Beginnings of documents: what the reader and the handler make of a text that ends early.
-/
import Verif.Proofs.XmlDoc

namespace SeismoStats.XmlText
open SeismoStats SeismoStats.Parser SeismoStats.QuakemlText SeismoStats.Spec.Parser SeismoStats.Props

theorem prefix_split {α : Type} {p a b : List α} (h : p <+: a ++ b) : p <+: a ∨ ∃ q, p = a ++ q ∧ q <+: b := by
  rcases le_total p.length a.length with hl | hl
  · exact .inl (List.prefix_of_prefix_length_le h (List.prefix_append a b) hl)
  · obtain ⟨q, rfl⟩ := List.prefix_of_prefix_length_le (List.prefix_append a b) h hl
    exact .inr ⟨q, rfl, (List.prefix_append_right_inj a).1 h⟩

theorem explode_chars (s : List Char) (l : List Sax) : explode (.chars s :: l) = s.map (fun c => Sax.chars [c]) ++ explode l := rfl
theorem explode_start (t : String) (id : Option String) (l : List Sax) : explode (.start t id :: l) = .start t id :: explode l := rfl
theorem explode_stop (t : String) (l : List Sax) : explode (.stop t :: l) = .stop t :: explode l := rfl

/-! ### In a tag? -/

/-- Does a text end within a tag? -/
def tagScan : Bool → List Char → Bool
  | b, [] => b
  | b, c :: r => tagScan (if c = '<' then true else if c = '>' then false else b) r

theorem tagScan_append (b : Bool) (s t : List Char) : tagScan b (s ++ t) = tagScan (tagScan b s) t := by
  induction s generalizing b with
  | nil => rfl
  | cons c s ih => exact ih _

theorem tagScan_plain (b : Bool) (s : List Char) (h : '<' ∉ s) (h' : '>' ∉ s) : tagScan b s = b := by
  induction s with
  | nil => rfl
  | cons c s ih =>
    simp only [List.mem_cons, not_or] at h h'
    rw [tagScan, if_neg (fun e => h.1 e.symm), if_neg (fun e => h'.1 e.symm)]
    exact ih h.2 h'.2

theorem tagScan_true (b : Bool) (s : List Char) (h' : '>' ∉ s) (h : b = true) : tagScan b s = true := by
  induction s generalizing b with
  | nil => exact h
  | cons c s ih =>
    simp only [List.mem_cons, not_or] at h'
    rw [tagScan, if_neg (c := c = '>') (fun e => h'.1 e.symm)]
    apply ih _ h'.2
    split
    · rfl
    · exact h

theorem inTag_iff (p : List Char) : InTag p ↔ tagScan false p = true := by
  constructor
  · rintro ⟨a, b, rfl, h⟩
    rw [tagScan_append, tagScan, if_pos rfl]
    exact tagScan_true _ _ h rfl
  · have key : ∀ (p : List Char) (b : Bool), tagScan b p = true → (b = true ∧ '>' ∉ p) ∨ InTag p := by
      intro p
      induction p with
      | nil => intro b h; exact .inl ⟨h, by simp⟩
      | cons c p ih =>
        intro b h
        rw [tagScan] at h
        rcases ih _ h with ⟨h1, h2⟩ | ⟨x, y, h1, h2⟩
        · by_cases hc : c = '<'
          · subst hc
            exact .inr ⟨[], p, rfl, h2⟩
          · rw [if_neg hc] at h1
            by_cases hg : c = '>'
            · rw [if_pos hg] at h1; cases h1
            · rw [if_neg hg] at h1
              refine .inl ⟨h1, ?_⟩
              simp only [List.mem_cons, not_or]
              exact ⟨fun e => hg e.symm, h2⟩
        · exact .inr ⟨c :: x, y, by rw [h1]; rfl, h2⟩
    intro h
    rcases key p false h with ⟨h1, _⟩ | h
    · cases h1
    · exact h

theorem name_ne {s : List Char} (h : IsName s) : '<' ∉ s ∧ '>' ∉ s := by
  obtain ⟨c, r, rfl, h1, h2⟩ := h
  have a1 : isNameStart '<' = false := by decide
  have a2 : isNameStart '>' = false := by decide
  have a3 : isNameChar '<' = false := by decide
  have a4 : isNameChar '>' = false := by decide
  constructor <;> intro hm <;> rcases List.mem_cons.1 hm with e | hm
  · rw [← e, a1] at h1; cases h1
  · have := h2 _ hm; rw [a3] at this; cases this
  · rw [← e, a2] at h1; cases h1
  · have := h2 _ hm; rw [a4] at this; cases this

theorem text_no_markup {s : List Char} (h : ∀ c ∈ s, TextChar c) : '<' ∉ s ∧ '>' ∉ s := by
  constructor <;> intro hm <;> rcases h _ hm with hp | hp
  · exact hp.2.1 rfl
  · cases hp
  · exact hp.2.2.1 rfl
  · cases hp

/-- The text of a tag: `<`, no markup, `>`. -/
theorem tag_form {y : Sax} (h : OkCall y) (hy : ∀ s, y ≠ .chars s) : ∃ b, showSax y = '<' :: (b ++ ['>']) ∧ '<' ∉ b ∧ '>' ∉ b := by
  cases y with
  | chars s => exact absurd rfl (hy s)
  | stop tag =>
    obtain ⟨h1, h2⟩ := name_ne h
    refine ⟨'/' :: tag.toList, by simp [showSax], ?_, ?_⟩
    · simp only [List.mem_cons, not_or]; exact ⟨by decide, h1⟩
    · simp only [List.mem_cons, not_or]; exact ⟨by decide, h2⟩
  | start tag id =>
    obtain ⟨h1, h2⟩ := name_ne h.1
    refine ⟨tag.toList ++ QuakemlText.idText id, by simp [showSax], ?_⟩
    cases id with
    | none =>
      have e : QuakemlText.idText none = [] := rfl
      rw [e, List.append_nil]
      exact ⟨h1, h2⟩
    | some v =>
      obtain ⟨v1, v2⟩ := text_no_markup (s := v.toList) (fun c hc => .inl (h.2 v rfl c hc))
      have e1 : '<' ∉ " publicID=\"".toList := by decide
      have e2 : '>' ∉ " publicID=\"".toList := by decide
      have e : QuakemlText.idText (some v) = " publicID=\"".toList ++ v.toList ++ ['"'] := rfl
      have d1 : '<' ≠ '"' := by decide
      have d2 : '>' ≠ '"' := by decide
      rw [e]
      generalize " publicID=\"".toList = w at e1 e2
      constructor <;> intro hm <;> simp only [List.mem_append, List.mem_singleton] at hm <;> tauto

theorem tagScan_call {y : Sax} (h : OkCall y) : tagScan false (showSax y) = false := by
  by_cases hy : ∃ s, y = .chars s
  · obtain ⟨s, rfl⟩ := hy
    obtain ⟨h1, h2⟩ := text_no_markup (s := s) h
    exact tagScan_plain _ _ h1 h2
  · obtain ⟨b, hb, h1, h2⟩ := tag_form h (fun s e => hy ⟨s, e⟩)
    rw [hb, tagScan, if_pos rfl, tagScan_append, tagScan_plain _ _ h1 h2]
    rfl

theorem tagScan_calls {R : List Sax} (h : ∀ x ∈ R, OkCall x) : tagScan false (showCalls R) = false := by
  induction R with
  | nil => rfl
  | cons x R ih =>
    show tagScan false (showSax x ++ showCalls R) = false
    rw [tagScan_append, tagScan_call (h x (by simp))]
    exact ih fun y hy => h y (by simp [hy])

/-! ### The header -/

/-- Is the reader between tags? -/
def L.isText (l : L) : Bool :=
  match l.mode with
  | .text _ => true
  | _ => false

/-- The reader is within a tag exactly where the text is. -/
def agree : L → Bool → List Char → Bool
  | l, b, [] => l.isText == !b
  | l, b, c :: r => (l.isText == !b) && agree (l.step c) (if c = '<' then true else if c = '>' then false else b) r

theorem agree_prefix (s : List Char) (l : L) (b : Bool) (h : agree l b s = true) (p : List Char) (hp : p <+: s) : (l.feed p).isText = !tagScan b p := by
  induction s generalizing l b p with
  | nil =>
    rw [List.prefix_nil] at hp
    subst hp
    exact eq_of_beq h
  | cons c s ih =>
    rw [agree, Bool.and_eq_true] at h
    cases p with
    | nil => exact eq_of_beq h.1
    | cons d p =>
      rw [List.cons_prefix_cons] at hp
      obtain ⟨rfl, hp⟩ := hp
      exact ih _ _ h.2 p hp

set_option maxRecDepth 100000 in
theorem header_agree : agree init false header = true := by rfl

set_option maxRecDepth 100000 in
theorem header_scan : tagScan false header = false := by rfl

theorem calls_step (l : L) (c : Char) : l.calls <+: (l.step c).calls := by
  obtain ⟨m, st, d, calls⟩ := l
  rw [step_calls]
  exact List.prefix_append _ _

theorem calls_feed (s : List Char) (l : L) : l.calls <+: (l.feed s).calls := by
  induction s generalizing l with
  | nil => exact List.prefix_refl _
  | cons c s ih => exact (calls_step l c).trans (ih _)

theorem outside_explode (l : List Sax) (h : ∀ x ∈ explode l, Outside x) : ∀ x ∈ l, Outside x := by
  induction l with
  | nil => simp
  | cons y l ih =>
    intro x hx
    cases y with
    | chars s =>
      rcases List.mem_cons.1 hx with rfl | hx
      · trivial
      · exact ih (fun z hz => h z (by rw [explode_chars]; simp [hz])) x hx
    | start t id =>
      rcases List.mem_cons.1 hx with rfl | hx
      · exact h _ (by rw [explode_start]; simp)
      · exact ih (fun z hz => h z (by rw [explode_start]; simp [hz])) x hx
    | stop t =>
      rcases List.mem_cons.1 hx with rfl | hx
      · exact h _ (by rw [explode_stop]; simp)
      · exact ih (fun z hz => h z (by rw [explode_stop]; simp [hz])) x hx

theorem explode_outside (l : List Sax) (h : ∀ x ∈ l, Outside x) : ∀ x ∈ explode l, Outside x := by
  induction l with
  | nil => simp [explode]
  | cons y l ih =>
    have ih' := ih fun z hz => h z (by simp [hz])
    intro x hx
    cases y with
    | chars s =>
      rw [explode_chars] at hx
      rcases List.mem_append.1 hx with hx | hx
      · obtain ⟨c, _, rfl⟩ := List.mem_map.1 hx
        trivial
      · exact ih' x hx
    | start t id =>
      rw [explode_start] at hx
      rcases List.mem_cons.1 hx with rfl | hx
      · exact h _ (by simp)
      · exact ih' x hx
    | stop t =>
      rw [explode_stop] at hx
      rcases List.mem_cons.1 hx with rfl | hx
      · exact h _ (by simp)
      · exact ih' x hx

/-- Calls for a part of the header. -/
theorem header_outside (bufs : List (List Char)) (h : bufs.flatten <+: header) : ∀ x ∈ (lex bufs).calls, Outside x := by
  apply outside_explode
  have hfeed : (init.feed bufs.flatten).calls <+: (init.feed header).calls := by
    obtain ⟨t, ht⟩ := h
    rw [← ht, feed_append]
    exact calls_feed _ _
  rw [header_feed] at hfeed
  have hout : ∀ x ∈ (init.feed bufs.flatten).calls, Outside x := by
    intro x hx
    have := hfeed.subset hx
    simp only [List.mem_cons, List.not_mem_nil, or_false] at this
    rcases this with rfl | rfl | rfl
    · exact ⟨by decide, by decide, by decide⟩
    · trivial
    · exact ⟨by decide, by decide, by decide⟩
  rcases lex_same bufs with ⟨_, h'⟩ | ⟨_, _, _, h4⟩
  · exfalso
    obtain ⟨t, ht⟩ := h
    have h1 : ((init.feed bufs.flatten).feed t).mode = .bad := bad_feed h' t
    rw [← feed_append, ht, header_feed] at h1
    cases h1
  · have h5 : (lex bufs).flat = (init.feed bufs.flatten).flat := h4
    have h6 : (lex bufs).flat = explode (lex bufs).calls := by
      unfold L.flat
      rw [lex_pending, explode_append]
      exact List.append_nil _
    rw [← h6, h5]
    unfold L.flat
    apply explode_outside
    intro x hx
    rcases List.mem_append.1 hx with hx | hx
    · exact hout x hx
    · unfold charsCall at hx
      split at hx
      · cases hx
      · rw [List.mem_singleton] at hx
        subst hx
        trivial

/-! ### Pieces -/

theorem prefix_pieces (R : List Sax) (p : List Char) (h : p <+: showCalls R) (hne : p ≠ showCalls R) :
    ∃ R1 y R2 x, R = R1 ++ y :: R2 ∧ p = showCalls R1 ++ x ∧ x <+: showSax y ∧ x ≠ showSax y := by
  induction R generalizing p with
  | nil =>
    exact absurd (List.prefix_nil.1 h) hne
  | cons y R ih =>
    have e : showCalls (y :: R) = showSax y ++ showCalls R := rfl
    rw [e] at h hne
    by_cases hx : p <+: showSax y ∧ p ≠ showSax y
    · exact ⟨[], y, R, p, rfl, rfl, hx.1, hx.2⟩
    · obtain ⟨q, rfl, hq⟩ : ∃ q, p = showSax y ++ q ∧ q <+: showCalls R := by
        rcases prefix_split h with h | h
        · have : p = showSax y := by
            by_contra hc
            exact hx ⟨h, hc⟩
          exact ⟨[], by rw [this, List.append_nil], List.nil_prefix⟩
        · exact h
      obtain ⟨R1, y', R2, x, h1, h2, h3, h4⟩ := ih q hq (fun hc => hne (by rw [hc]))
      exact ⟨y :: R1, y', R2, x, by rw [h1]; rfl, by rw [h2]; simp [showCalls], h3, h4⟩

/-- The reader after a proper beginning of a document that is longer than the header. -/
theorem cut_feed {St : Type} {σ : Scan St} {l : List Event} (h : ∀ e ∈ l, Nice σ e.calls) (R1 R2 : List Sax) (y : Sax) (hR : innerCalls l = R1 ++ y :: R2) (x : List Char)
    (hx : x <+: showSax y) (hxy : x ≠ showSax y) :
    (InTag (header ++ showCalls R1 ++ x) ∧ (init.feed (header ++ showCalls R1 ++ x)).mode.inTag) ∨
    (¬ InTag (header ++ showCalls R1 ++ x) ∧ (init.feed (header ++ showCalls R1 ++ x)).mode = .text (merge [] (headCalls ++ R1 ++ [.chars x])).2 ∧
      (init.feed (header ++ showCalls R1 ++ x)).calls = (merge [] (headCalls ++ R1 ++ [.chars x])).1 ∧ (y = .chars x ∨ x = [] ∨ ∃ r, y = .chars (x ++ r))) := by
  have hok := inner_ok h
  rw [hR] at hok
  have hR1 : ∀ z ∈ R1, OkCall z := fun z hz => hok z (by simp [hz])
  have hy : OkCall y := hok y (by simp)
  obtain ⟨R3, hR3⟩ : ∃ R3, R1 ++ R3 = mid l := by
    rw [inner_mid] at hR
    rcases List.append_eq_append_iff.1 hR with ⟨a, h1, h2⟩ | ⟨a, h1, h2⟩
    · refine ⟨[], ?_⟩
      cases a with
      | nil => rw [h1]; simp
      | cons b a =>
        have := congrArg List.length h2
        simp at this
    · exact ⟨a, h1.symm⟩
  obtain ⟨st, hn, hf⟩ := prefix_feed h R1 R3 hR3
  have hscan : tagScan false (header ++ showCalls R1) = false := by
    rw [tagScan_append]
    have : tagScan false header = false := header_scan
    rw [this, tagScan_calls hR1]
  have hm : merge [] (headCalls ++ R1 ++ [.chars x]) = ((merge [] (headCalls ++ R1)).1, (merge [] (headCalls ++ R1)).2 ++ x) := by
    rw [merge_append (headCalls ++ R1)]
    simp [merge]
  have text : (∀ c ∈ x, TextChar c) → ¬ InTag (header ++ showCalls R1 ++ x) ∧ (init.feed (header ++ showCalls R1 ++ x)).mode = .text (merge [] (headCalls ++ R1 ++ [.chars x])).2 ∧
      (init.feed (header ++ showCalls R1 ++ x)).calls = (merge [] (headCalls ++ R1 ++ [.chars x])).1 := by
    intro hx
    obtain ⟨h1, h2⟩ := text_no_markup hx
    refine ⟨?_, ?_⟩
    · rw [inTag_iff, tagScan_append, hscan, tagScan_plain _ _ h1 h2]
      simp
    · rw [feed_append, hf, feed_text x _ _ _ _ (by simp) hx, hm]
      exact ⟨rfl, rfl⟩
  by_cases hc : ∃ s, y = .chars s
  · obtain ⟨s, rfl⟩ := hc
    right
    obtain ⟨r, hr⟩ := hx
    have hs : s = x ++ r := hr.symm
    obtain ⟨t1, t2, t3⟩ := text fun c hc => hy c (by rw [hs]; simp [hc])
    exact ⟨t1, t2, t3, .inr (.inr ⟨r, by rw [hs]⟩)⟩
  · by_cases hx0 : x = []
    · right
      obtain ⟨t1, t2, t3⟩ := text (by rw [hx0]; simp)
      exact ⟨t1, t2, t3, .inr (.inl hx0)⟩
    · left
      obtain ⟨b, hb, b1, b2⟩ := tag_form hy (fun s e => hc ⟨s, e⟩)
      obtain ⟨r, hr⟩ := hx
      cases x with
      | nil => exact absurd rfl hx0
      | cons c x =>
        have hc' : c = '<' ∧ x ++ r = b ++ ['>'] := by
          rw [hb, List.cons_append] at hr
          simpa using hr
        obtain ⟨rfl, hr2⟩ := hc'
        have hgt : '>' ∉ x := by
          rcases List.append_eq_append_iff.1 hr2 with ⟨a, h1, h2⟩ | ⟨a, h1, h2⟩
          · rw [h1] at b2
            intro hm
            exact b2 (by simp [hm])
          · cases a with
            | nil =>
              rw [h1, List.append_nil]
              exact b2
            | cons d a =>
              exfalso
              have hl := congrArg List.length h2
              simp only [List.length_cons, List.length_nil, List.length_append] at hl
              have : a = [] ∧ r = [] := by
                constructor <;> apply List.length_eq_zero_iff.1 <;> omega
              apply hxy
              rw [← hr, this.2, List.append_nil]
        refine ⟨⟨header ++ showCalls R1, x, rfl, hgt⟩, ?_⟩
        rw [feed_append, hf]
        refine tag_prefix _ _ _ _ _ _ r hr.symm (by rw [hb]; rfl) (by simp) (by simp [hgt]) ?_
        cases y with
        | chars s => exact absurd ⟨s, rfl⟩ hc
        | start t id =>
          rw [feed_start _ _ _ _ _ hy]
          simp
        | stop t =>
          -- the innermost open element is closed
          have hn2 : ∃ st', st ++ ["q:quakeml"] = t :: st' := by
            have h2 := (mid_ok h).2
            rw [← hR3, nest_append, hn] at h2
            rw [inner_mid, ← hR3, List.append_assoc, List.append_cancel_left_eq] at hR
            cases R3 with
            | nil =>
              simp only [List.nil_append, List.cons.injEq] at hR
              have e1 : t = "q:quakeml" := by
                have := hR.1
                cases this
                rfl
              have e2 : st = [] := by
                simpa [nest] using h2
              exact ⟨[], by rw [e1, e2]; rfl⟩
            | cons z R3 =>
              simp only [List.cons_append, List.cons.injEq] at hR
              obtain ⟨rfl, -⟩ := hR
              simp only [Option.bind_some] at h2
              cases st with
              | nil => simp [nest] at h2
              | cons s0 st =>
                by_cases e : s0 = t
                · exact ⟨st ++ ["q:quakeml"], by rw [e]; rfl⟩
                · simp [nest, e] at h2
          obtain ⟨st', hst'⟩ := hn2
          rw [hst', feed_stop _ _ _ _ hy]
          simp

end SeismoStats.XmlText
