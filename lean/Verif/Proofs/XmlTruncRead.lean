/-
Reading of documents and of their beginnings (for C86 and C87).
-/
import Verif.Proofs.XmlTrunc
import Verif.Props.Quakeml

set_option linter.constructorNameAsVariable false

namespace SeismoStats.XmlText
open SeismoStats SeismoStats.Parser SeismoStats.QuakemlText SeismoStats.Spec.Parser SeismoStats.Props

/-! ### Occurrences of a word -/

theorem occ_le (w s t : List Char) : occurrences w s ≤ occurrences w (s ++ t) := by
  induction s with
  | nil => exact Nat.zero_le _
  | cons c s ih =>
    rw [List.cons_append, occurrences, occurrences]
    by_cases h : w <+: c :: s
    · have h' : w <+: c :: (s ++ t) := h.trans ⟨t, rfl⟩
      rw [if_pos h, if_pos h']
      omega
    · rw [if_neg h]
      omega

theorem tagScan_mono (s : List Char) (h : tagScan false s = true) : tagScan true s = true := by
  induction s with
  | nil => cases h
  | cons c s ih =>
    rw [tagScan] at h ⊢
    by_cases h1 : c = '<'
    · rw [if_pos h1] at h ⊢; exact h
    · by_cases h2 : c = '>'
      · rw [if_neg h1, if_pos h2] at h ⊢; exact h
      · rw [if_neg h1, if_neg h2] at h ⊢
        exact ih h

theorem eventEnd_eq : eventEnd = '<' :: ("/event".toList ++ ['>']) := by decide

/-- A word of a tag is found up to the first `>`. -/
theorem split_gt {a b s t : List Char} (ha : '>' ∉ a) (hb : '>' ∉ b) (h : a ++ '>' :: s = b ++ '>' :: t) : a = b ∧ s = t := by
  induction a generalizing b with
  | nil =>
    cases b with
    | nil => simpa using h
    | cons c b =>
      simp only [List.nil_append, List.cons_append, List.cons.injEq] at h
      exact absurd (by rw [h.1]; simp) hb
  | cons c a ih =>
    cases b with
    | nil =>
      simp only [List.nil_append, List.cons_append, List.cons.injEq] at h
      exact absurd (by rw [h.1]; simp) ha
    | cons d b =>
      simp only [List.cons_append, List.cons.injEq] at h
      simp only [List.mem_cons, not_or] at ha hb
      obtain ⟨h1, h2⟩ := ih ha.2 hb.2 h.2
      exact ⟨by rw [h.1, h1], h2⟩

theorem prefix_tag (b t : List Char) (hb : '>' ∉ b) : eventEnd <+: '<' :: (b ++ '>' :: t) ↔ b = "/event".toList := by
  rw [eventEnd_eq, List.cons_prefix_cons]
  have he : '>' ∉ "/event".toList := by decide
  constructor
  · rintro ⟨-, q, hq⟩
    rw [List.append_assoc] at hq
    exact (split_gt he hb hq).1.symm
  · rintro rfl
    exact ⟨rfl, t, by simp⟩

theorem exists_first_gt {r : List Char} (h : '>' ∈ r) : ∃ b t, r = b ++ '>' :: t ∧ '>' ∉ b := by
  induction r with
  | nil => cases h
  | cons c r ih =>
    by_cases hc : c = '>'
    · exact ⟨[], r, by rw [hc]; rfl, by simp⟩
    · obtain ⟨b, t, h1, h2⟩ := ih ((List.mem_cons.1 h).resolve_left fun e => hc e.symm)
      refine ⟨c :: b, t, by rw [h1]; rfl, ?_⟩
      simp only [List.mem_cons, not_or]
      exact ⟨fun e => hc e.symm, h2⟩

theorem occ_append (s t : List Char) (h : tagScan false s = false) : occurrences eventEnd (s ++ t) = occurrences eventEnd s + occurrences eventEnd t := by
  induction s with
  | nil => simp [occurrences]
  | cons c s ih =>
    rw [tagScan] at h
    rw [List.cons_append, occurrences, occurrences]
    by_cases hc : c = '<'
    · rw [if_pos hc] at h
      have hs : tagScan false s = false := by
        cases e : tagScan false s with
        | false => rfl
        | true => rw [tagScan_mono s e] at h; cases h
      have hgt : '>' ∈ s := by
        by_contra hn
        rw [tagScan_true true s hn rfl] at h
        cases h
      obtain ⟨b, u, rfl, hb⟩ := exists_first_gt hgt
      have e1 : (eventEnd <+: c :: (b ++ '>' :: u ++ t)) ↔ eventEnd <+: c :: (b ++ '>' :: u) := by
        rw [hc, List.append_assoc, List.cons_append, prefix_tag b _ hb, prefix_tag b _ hb]
      rw [ih hs]
      by_cases hp : eventEnd <+: c :: (b ++ '>' :: u)
      · rw [if_pos hp, if_pos (e1.2 hp)]
        omega
      · rw [if_neg hp, if_neg (fun hq => hp (e1.1 hq))]
        omega
    · rw [if_neg hc, ite_self] at h
      have hn : ∀ r, ¬ eventEnd <+: c :: r := by
        intro r hr
        rw [eventEnd_eq, List.cons_prefix_cons] at hr
        exact hc hr.1.symm
      rw [if_neg (hn _), if_neg (hn _), ih h]
      omega

theorem occ_no (s : List Char) (h : '<' ∉ s ∨ '>' ∉ s) : occurrences eventEnd s = 0 := by
  induction s with
  | nil => rfl
  | cons c s ih =>
    simp only [List.mem_cons, not_or] at h
    rw [occurrences, if_neg, ih (h.imp And.right And.right)]
    intro hp
    have hsub := hp.subset
    rcases h with h | h
    · have : '<' ∈ c :: s := hsub (by decide)
      rcases List.mem_cons.1 this with e | e
      · exact h.1 e
      · exact h.2 e
    · have : '>' ∈ c :: s := hsub (by decide)
      rcases List.mem_cons.1 this with e | e
      · exact h.1 e
      · exact h.2 e

theorem occ_call {y : Sax} (h : OkCall y) : occurrences eventEnd (showSax y) = if isEnd y then 1 else 0 := by
  by_cases hy : ∃ s, y = .chars s
  · obtain ⟨s, rfl⟩ := hy
    rw [if_neg (by simp [isEnd])]
    exact occ_no _ (.inl (text_no_markup (s := s) h).1)
  · obtain ⟨b, hb, h1, h2⟩ := tag_form h (fun s e => hy ⟨s, e⟩)
    rw [hb, occurrences, occ_no (b ++ ['>']) (.inl (by simp [h1])), Nat.add_zero]
    have hiff : (eventEnd <+: '<' :: (b ++ ['>'])) ↔ isEnd y = true := by
      rw [prefix_tag b [] h2]
      cases y with
      | chars s => exact absurd ⟨s, rfl⟩ hy
      | stop tag =>
        have e : b = '/' :: tag.toList := by
          have : '<' :: '/' :: tag.toList ++ ['>'] = '<' :: (b ++ ['>']) := hb
          simp only [List.cons_append, List.cons.injEq, true_and] at this
          have := List.append_cancel_right (as := '/' :: tag.toList) (cs := b) (bs := ['>']) this
          exact this.symm
        have e2 : "/event".toList = '/' :: "event".toList := by decide
        rw [e, e2]
        simp only [List.cons.injEq, true_and, isEnd, decide_eq_true_eq]
        exact String.toList_inj
      | start tag id =>
        have e : b = tag.toList ++ QuakemlText.idText id := by
          have : '<' :: tag.toList ++ QuakemlText.idText id ++ ['>'] = '<' :: (b ++ ['>']) := hb
          rw [List.cons_append, List.cons_append, List.cons.injEq] at this
          exact (List.append_cancel_right this.2).symm
        simp only [isEnd, Bool.false_eq_true, iff_false]
        rw [e]
        obtain ⟨c, r, hc, hn, _⟩ := h.1
        rw [hc]
        intro hx
        have e2 : "/event".toList = '/' :: "event".toList := by decide
        rw [e2, List.cons_append, List.cons.injEq] at hx
        rw [hx.1] at hn
        revert hn
        decide
    by_cases hp : eventEnd <+: '<' :: (b ++ ['>'])
    · rw [if_pos hp, if_pos (hiff.1 hp)]
    · rw [if_neg hp, if_neg (fun hq => hp (hiff.2 hq))]

theorem occ_calls {R : List Sax} (h : ∀ x ∈ R, OkCall x) (t : List Char) : occurrences eventEnd (showCalls R ++ t) = R.countP isEnd + occurrences eventEnd t := by
  induction R with
  | nil => simp [showCalls]
  | cons x R ih =>
    have e : showCalls (x :: R) = showSax x ++ showCalls R := rfl
    have hx := h x (by simp)
    rw [e, List.append_assoc, occ_append _ _ (tagScan_call hx), ih fun y hy => h y (by simp [hy]), occ_call hx, List.countP_cons]
    omega

set_option maxRecDepth 100000 in
theorem occ_header : occurrences eventEnd header = 0 := by decide

/-! ### Delivery -/

/-- A scan that accepts the beginnings of what it accepts. -/
structure Closed {St : Type} (σ : Scan St) : Prop where
  nil : ∀ st, (σ.next st []).isSome
  cut : ∀ st x r, (σ.next st (x ++ r)).isSome → (σ.next st x).isSome

theorem closed_oneWord : Closed oneWord where
  nil := fun st => by
    have key : ∀ x : List Char, (∀ c ∈ x, Blank c) → oneWord.next st x = some st := fun x hb => if_pos hb
    have : oneWord.next st [] = some st := key [] (by simp)
    rw [this]; rfl
  cut := fun st x r h => by
    by_cases hb : ∀ c ∈ x, Blank c
    · have : oneWord.next st x = some st := if_pos hb
      rw [this]; rfl
    · have hb' : ¬ ∀ c ∈ x ++ r, Blank c := fun hc => hb fun c hx => hc c (by simp [hx])
      have e1 : oneWord.next st x = if st then none else some true := if_neg hb
      have e2 : oneWord.next st (x ++ r) = if st then none else some true := if_neg hb'
      rw [e1, ← e2]
      exact h

theorem closed_noGap : Closed noGap where
  nil := fun st => rfl
  cut := fun st x r h => by
    have e : noGap.next st (x ++ r) = (noGap.next st x).bind fun w => noGap.next w r := nexts_append st x r
    rw [e] at h
    cases h' : noGap.next st x with
    | none => rw [h'] at h; cases h
    | some w => rfl

theorem scan_prefix {St : Type} {σ : Scan St} (hc : Closed σ) (R1 : List Sax) (y : Sax) (R2 : List Sax) (x : List Char) {n : St}
    (h : scanAll σ σ.init (R1 ++ y :: R2) = some n) (hx : x = [] ∨ ∃ r, y = .chars (x ++ r)) : ∃ m, scanAll σ σ.init (R1 ++ [.chars x]) = some m := by
  rw [scanAll_append] at h ⊢
  cases e : scanAll σ σ.init R1 with
  | none => rw [e] at h; cases h
  | some st =>
    rw [e] at h
    simp only [Option.bind_some, scanAll] at h ⊢
    have : (σ.next st x).isSome := by
      rcases hx with rfl | ⟨r, rfl⟩
      · exact hc.nil st
      · apply hc.cut st x r
        rw [scanAll] at h
        cases e2 : σ.next st (x ++ r) with
        | none => rw [e2] at h; cases h
        | some s => rfl
    cases e3 : σ.next st x with
    | none => rw [e3] at this; cases this
    | some s => exact ⟨s, rfl⟩

/-- How the buffers may be chosen for texts of a kind. -/
def Ways {St : Type} (σ : Scan St) (bufs : List (List Char)) : Prop :=
  Closed σ ∧ ∀ Y n, scanAll σ σ.init Y = some n → Deliver bufs Y

theorem ways_oneWord {bufs : List (List Char)} (h : bufs.length ≤ 1) : Ways oneWord bufs := ⟨closed_oneWord, fun _ n hn => .inl ⟨h, n, hn⟩⟩

theorem ways_noGap (bufs : List (List Char)) : Ways noGap bufs := ⟨closed_noGap, fun _ n hn => .inr ⟨n, hn⟩⟩

theorem all_scan {St : Type} {σ : Scan St} {l : List Event} (h : ∀ e ∈ l, Nice σ e.calls) : scanAll σ σ.init (allCalls l) = some σ.init := by
  have hb := (nice_blocks h).scan
  unfold allCalls innerCalls headCalls footCalls
  rw [scanAll_append]
  have e1 : scanAll σ σ.init [.start "q:quakeml" none, .chars (nl 4), .start "eventParameters" (some "smi:org.gfz-potsdam.de/geofon/EventParameters"), .chars sep] = some σ.init := by
    simp only [scanAll, σ.blank _ (nl_blank 4), σ.blank _ sep_blank, Option.bind_some]
  rw [e1, Option.bind_some, scanAll_append, hb, Option.bind_some]
  simp only [scanAll, σ.blank _ (nl_blank 0), σ.blank _ sep_blank, Option.bind_some]

/-! ### Whole documents -/

/-- The parts of a document. -/
def docParts (l : List Event) : List Part :=
  headCalls.map .other ++ (l.map fun e => [Part.other (.chars sep), .event e, .other (.chars sep)]).flatten ++ footCalls.map .other

theorem docParts_calls (l : List Event) : docCalls (docParts l) = allCalls l := by
  unfold docCalls docParts allCalls innerCalls
  rw [List.map_append, List.map_append, List.flatten_append, List.flatten_append, List.append_assoc]
  congr 2
  rw [List.map_flatten, List.map_map]
  induction l with
  | nil => rfl
  | cons e l ih =>
    rw [List.map_cons, List.flatten_cons, List.flatten_append, ih, List.map_cons, List.flatten_cons]
    congr 1

theorem docParts_events (l : List Event) : docEvents (docParts l) = l := by
  have h1 : ∀ xs : List Sax, docEvents (xs.map Part.other) = [] := by
    intro xs
    induction xs with
    | nil => rfl
    | cons x xs ih => exact ih
  unfold docParts
  rw [docEvents_append, docEvents_append, h1, h1, List.nil_append, List.append_nil]
  induction l with
  | nil => rfl
  | cons e l ih =>
    rw [List.map_cons, List.flatten_cons, docEvents_append, ih]
    rfl

theorem head_outside : ∀ x ∈ headCalls, Outside x := by
  intro x hx
  simp only [headCalls, List.mem_cons, List.not_mem_nil, or_false] at hx
  rcases hx with rfl | rfl | rfl | rfl
  · exact ⟨by decide, by decide, by decide⟩
  · trivial
  · exact ⟨by decide, by decide, by decide⟩
  · trivial

theorem foot_outside : ∀ x ∈ footCalls, Outside x := by
  intro x hx
  simp only [footCalls, List.mem_cons, List.not_mem_nil, or_false] at hx
  rcases hx with rfl | rfl | rfl | rfl
  · trivial
  · exact ⟨by decide, by decide, by decide⟩
  · trivial
  · exact ⟨by decide, by decide, by decide⟩

theorem docParts_ok (l : List Event) (h : ∀ e ∈ l, e.Plain) : ∀ p ∈ docParts l, p.Ok := by
  intro p hp
  unfold docParts at hp
  simp only [List.mem_append, List.mem_map, List.mem_flatten] at hp
  rcases hp with (⟨x, hx, rfl⟩ | ⟨q, ⟨e, he, rfl⟩, hp⟩) | ⟨x, hx, rfl⟩
  · exact head_outside x hx
  · simp only [List.mem_cons, List.not_mem_nil, or_false] at hp
    rcases hp with rfl | rfl | rfl
    · trivial
    · exact h e he
    · trivial
  · exact foot_outside x hx

set_option maxRecDepth 100000 in
theorem header_length : header.length ≠ 0 := by decide

/-- Reading of a whole document. -/
theorem read_doc {St : Type} {σ : Scan St} (env : Env) (all quality : Bool) {l : List Event} (h : ∀ e ∈ l, Nice σ e.calls) (hp : ∀ e ∈ l, e.Plain)
    (bufs : List (List Char)) (hb : bufs.flatten = docText l) (hw : Ways σ bufs) :
    readFile env all quality bufs = l.mapM (recOf env all quality) ∧ readString env all quality bufs = l.mapM (recOf env all quality) := by
  obtain ⟨h1, h2⟩ := doc_feed h
  have hend : (lex bufs).ending = .complete := by
    rw [lex_ending, hb, h1]
    rfl
  have hrun : run env all quality {} (lex bufs).calls = (l.mapM (recOf env all quality)).map fun c => { catalog := c } := by
    rw [run_lex env all quality bufs (allCalls l) (by rw [hb, h1, h2]) (by rw [hb, h1]) (hw.2 _ _ (all_scan h)), ← docParts_calls]
    have := run_doc env all quality (docParts l) (docParts_ok l hp) []
    rw [docParts_events] at this
    exact this
  have hne : bufs.flatten ≠ [] := by
    rw [hb, docText_eq]
    intro hc
    have := congrArg List.length hc
    rw [List.length_append] at this
    have hh := header_length
    rw [List.length_nil] at this
    omega
  unfold readFile readString parseFile parseString
  rw [hend, hrun, if_neg hne]
  cases l.mapM (recOf env all quality) with
  | error e => exact ⟨rfl, rfl⟩
  | ok c => exact ⟨rfl, rfl⟩

/-! ### Beginnings -/

theorem inTag_ending {l : L} (h : l.mode.inTag) : l.ending = .other := by
  unfold L.ending
  cases e : l.mode <;> (rw [e] at h) <;> first | rfl | exact absurd h (by simp [Mode.inTag])

theorem text_ending {l : L} {acc : List Char} (h : l.mode = .text acc) (hd : l.done = false) : l.ending = .noElement := by
  unfold L.ending
  rw [h, hd]
  rfl

theorem proper_prefix {α : Type} {p D : List α} {c : α} (h : p <+: D ++ [c]) (hne : p ≠ D ++ [c]) : p <+: D := by
  rcases prefix_split h with h | ⟨q, rfl, hq⟩
  · exact h
  · cases q with
    | nil => rw [List.append_nil]
    | cons d q =>
      exfalso
      rw [List.cons_prefix_cons, List.prefix_nil] at hq
      exact hne (by rw [hq.1, hq.2])

/-- Reading of a proper beginning of a document. -/
theorem read_trunc {St : Type} {σ : Scan St} (env : Env) (all quality : Bool) {l : List Event} (h : ∀ e ∈ l, Nice σ e.calls) (hp : ∀ e ∈ l, e.Plain)
    (recs : List Rec) (hr : l.mapM (recOf env all quality) = .ok recs)
    (bufs : List (List Char)) (hb : bufs.flatten <+: docText l) (hne : bufs.flatten ≠ docText l) (hw : Ways σ bufs) :
    (InTag bufs.flatten → ∃ x, readFile env all quality bufs = .error x) ∧
    (¬ InTag bufs.flatten → readFile env all quality bufs = .ok (recs.take (occurrences eventEnd bufs.flatten))) ∧
    (bufs.flatten ≠ [] → ∃ x, readString env all quality bufs = .error x) := by
  have hdone : (init.feed bufs.flatten).done = false := by
    obtain ⟨D, hD, hd⟩ := doc_last h
    rw [hD] at hb hne
    obtain ⟨t, ht⟩ := proper_prefix hb hne
    rw [← ht] at hd
    exact not_done hd
  have hstr : (lex bufs).ending ≠ .complete → bufs.flatten ≠ [] → ∃ x, readString env all quality bufs = .error x := by
    intro he hn
    unfold readString parseString
    rw [if_neg hn]
    cases run env all quality {} (lex bufs).calls with
    | error e => exact ⟨e, rfl⟩
    | ok g =>
      cases e : (lex bufs).ending with
      | complete => exact absurd e he
      | noElement => exact ⟨_, rfl⟩
      | other => exact ⟨_, rfl⟩
  have hother : (lex bufs).ending = .other → ∃ x, readFile env all quality bufs = .error x := by
    intro he
    unfold readFile
    rw [he]
    exact (C47_malformed env all quality _).1
  have hinn : ∀ acc, (init.feed bufs.flatten).mode = .text acc → (lex bufs).ending = .noElement := by
    intro acc hm
    rw [lex_ending]
    exact text_ending hm hdone
  have hok : ∀ g : H, (lex bufs).ending = .noElement → run env all quality {} (lex bufs).calls = .ok g → readFile env all quality bufs = .ok g.catalog := by
    intro g he hg
    unfold readFile parseFile
    rw [he, hg]
  rw [docText_eq] at hb hne
  rcases prefix_split hb with hh | ⟨q, hq, hqp⟩
  · -- within the header
    have hag := agree_prefix header init false header_agree _ hh
    by_cases hin : InTag bufs.flatten
    · have hin' := (inTag_iff _).1 hin
      rw [hin'] at hag
      have hend : (lex bufs).ending = .other := by
        rw [lex_ending]
        unfold L.isText at hag
        unfold L.ending
        cases e : (init.feed bufs.flatten).mode <;> rw [e] at hag <;> first | rfl | cases hag
      exact ⟨fun _ => hother hend, fun hc => absurd hin hc, hstr (by rw [hend]; simp)⟩
    · have hin' : tagScan false bufs.flatten = false := by
        cases e : tagScan false bufs.flatten with
        | false => rfl
        | true => exact absurd ((inTag_iff _).2 e) hin
      rw [hin'] at hag
      have hend : (lex bufs).ending = .noElement := by
        unfold L.isText at hag
        cases e : (init.feed bufs.flatten).mode with
        | text acc => exact hinn acc e
        | _ => rw [e] at hag; cases hag
      refine ⟨fun hc => absurd hc hin, fun _ => ?_, hstr (by rw [hend]; simp)⟩
      have hocc : occurrences eventEnd bufs.flatten = 0 := by
        obtain ⟨t, ht⟩ := hh
        have := occ_le eventEnd bufs.flatten t
        rw [ht, occ_header] at this
        omega
      rw [hocc, List.take_zero]
      exact hok { catalog := [] } hend (run_outsides env all quality _ (header_outside bufs hh) [])
  · -- behind the header
    have hqne : q ≠ showCalls (innerCalls l) := by
      intro hc
      exact hne (by rw [hq, hc])
    obtain ⟨R1, y, R2, x, hR, hqx, hx, hxy⟩ := prefix_pieces _ q hqp hqne
    have hflat : bufs.flatten = header ++ showCalls R1 ++ x := by rw [hq, hqx, List.append_assoc]
    have hR1ok : ∀ z ∈ R1, OkCall z := fun z hz => inner_ok h z (by rw [hR]; simp [hz])
    rcases cut_feed h R1 R2 y hR x hx hxy with ⟨hin, hm⟩ | ⟨hin, hm, hcalls, hform⟩
    · rw [← hflat] at hin hm
      have hend : (lex bufs).ending = .other := by
        rw [lex_ending]
        exact inTag_ending hm
      exact ⟨fun _ => hother hend, fun hc => absurd hin hc, hstr (by rw [hend]; simp)⟩
    · rw [← hflat] at hin hm hcalls
      have hend := hinn _ hm
      refine ⟨fun hc => absurd hc hin, fun _ => ?_, hstr (by rw [hend]; simp)⟩
      have hx2 : x = [] ∨ ∃ r, y = .chars (x ++ r) := by
        rcases hform with rfl | h1 | h1
        · exact .inr ⟨[], by rw [List.append_nil]⟩
        · exact .inl h1
        · exact .inr h1
      have hall : allCalls l = (headCalls ++ R1) ++ y :: R2 := by
        unfold allCalls
        rw [hR, List.append_assoc]
      have hs := all_scan h
      rw [hall] at hs
      obtain ⟨m, hm2⟩ := scan_prefix hw.1 _ y R2 x hs hx2
      have hrun := run_lex env all quality bufs (headCalls ++ R1 ++ [.chars x]) hm hcalls (hw.2 _ _ hm2) {}
      obtain ⟨k, g, hk, hg, hcat, -⟩ := trunc_run env all quality l hp recs hr [] R1 ⟨y :: R2, hR.symm⟩ x
      have hhead : run env all quality {} (headCalls ++ R1 ++ [.chars x]) = .ok g := by
        rw [List.append_assoc, run_append]
        have : run env all quality {} headCalls = .ok { catalog := [] } := run_outsides env all quality _ head_outside []
        rw [this]
        exact hg
      rw [hok g hend (hrun.trans hhead), hcat, List.nil_append]
      have hlen : recs.length = l.length := by
        have := (mapM_ok_iff (recOf env all quality) l recs).1 hr
        exact this.length_eq.symm
      have hcount := run_count env all quality _ _ _ hg
      rw [hcat] at hcount
      simp only [List.nil_append, List.length_take, List.countP_append, List.countP_cons, List.countP_nil] at hcount
      have hk2 : k = occurrences eventEnd bufs.flatten := by
        rw [hflat, List.append_assoc, occ_append _ _ header_scan, occ_header, occ_calls hR1ok]
        have hx0 : occurrences eventEnd x = 0 := by
          rcases hx2 with rfl | ⟨r, rfl⟩
          · rfl
          · apply occ_no
            left
            have hyok : OkCall (.chars (x ++ r)) := inner_ok h _ (by rw [hR]; simp)
            have := (text_no_markup (s := x ++ r) hyok).1
            intro hc
            exact this (by simp [hc])
        have he : isEnd (Sax.chars x) = false := rfl
        rw [he] at hcount
        simp at hcount
        omega
      rw [hk2]

end SeismoStats.XmlText
