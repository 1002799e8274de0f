/-
Properties C86 and C87: the text that to_quakeml writes, read back whole and in part.
-/
import Verif.Proofs.QuakemlGap
import Verif.Props.Download

namespace SeismoStats.Props
open SeismoStats SeismoStats.Catalog SeismoStats.Quakeml SeismoStats.Spec.Parser SeismoStats.XmlText
open Classical

/-- All texts of a catalogue that are written satisfy `P`. -/
structure Texts (P : String → Prop) (env : Quakeml.Env) (ag au : String) (f : Frame Cell) (T : List String) : Prop where
  agency : P ag
  author : P au
  uuid : ∀ c i, P (env.uuid c i)
  strftime : ∀ s, P (env.strftime s)
  toInt : ∀ s, P (env.toInt s)
  types : ∀ t ∈ T, P t
  cells : ∀ p ∈ kept f, ∀ c ∈ f.cols, ∀ s, p.1 c = .val s → P s

/-- The text is read in one piece; or all texts are single words. -/
def Buffers (env : Quakeml.Env) (ag au : String) (f : Frame Cell) (T : List String) (bufs : List (List Char)) : Prop :=
  (bufs.length ≤ 1 ∧ Texts PlainText env ag au f T) ∨ Texts PlainWord env ag au f T

theorem fine_of_texts {St : Type} {σ : Scan St} {P : String → Prop} (hP : ∀ s, P s → Fine σ s) {env : Quakeml.Env} {ag au : String} {f : Frame Cell} {T : List String}
    (h : Texts P env ag au f T) : FineFrame σ env ag au f T :=
  ⟨hP _ h.agency, hP _ h.author, fun c i => hP _ (h.uuid c i), fun s => hP _ (h.strftime s), fun s => hP _ (h.toInt s), fun t ht => hP _ (h.types t ht),
    fun p hp c hc s hs => hP _ (h.cells p hp c hc s hs)⟩

theorem fine_word {s : String} (h : PlainWord s) : Fine noGap s := fine_noGap h.1 (h.2 _ (strip_trimmed _))

theorem texts_mono {P Q : String → Prop} (hPQ : ∀ s, P s → Q s) {env : Quakeml.Env} {ag au : String} {f : Frame Cell} {T : List String}
    (h : Texts P env ag au f T) : Texts Q env ag au f T :=
  ⟨hPQ _ h.agency, hPQ _ h.author, fun c i => hPQ _ (h.uuid c i), fun s => hPQ _ (h.strftime s), fun s => hPQ _ (h.toInt s), fun t ht => hPQ _ (h.types t ht),
    fun p hp c hc s hs => hPQ _ (h.cells p hp c hc s hs)⟩

/-- There is a scan for the buffers. -/
theorem buffers_scan {env : Quakeml.Env} {ag au : String} {f : Frame Cell} {T : List String} (hstd : Standard f.cols T) {bufs : List (List Char)}
    (h : Buffers env ag au f T bufs) : ∃ (St : Type) (σ : Scan St), Ways σ bufs ∧ ∀ e ∈ (kept f).map (textOf env ag au f), Nice σ e.calls := by
  rcases h with ⟨hl, h⟩ | h
  · refine ⟨Bool, oneWord, ways_oneWord hl, ?_⟩
    intro e he
    obtain ⟨p, hp, rfl⟩ := List.mem_map.1 he
    exact nice_row fixed_oneWord (fine_of_texts (fun s hs => fine_oneWord hs) h) hstd p hp
  · refine ⟨Word, noGap, ways_noGap bufs, ?_⟩
    intro e he
    obtain ⟨p, hp, rfl⟩ := List.mem_map.1 he
    exact nice_row fixed_noGap (fine_of_texts (fun s hs => fine_word hs) h) hstd p hp

theorem texts_tree_plain (env : Quakeml.Env) (ag au : String) (f : Frame Cell) : ∀ e ∈ (kept f).map (textOf env ag au f), e.Plain := by
  intro e he
  obtain ⟨p, _, rfl⟩ := List.mem_map.1 he
  exact text_tree_plain _ _ _ _ _

theorem text_ok {env : Quakeml.Env} {ag au : String} {f : Frame Cell} {text : List Char} (h : QuakemlText.toQuakeml env ag au f = .ok text) :
    text = QuakemlText.docText ((kept f).map (textOf env ag au f)) := by
  unfold QuakemlText.toQuakeml at h
  split at h
  · rw [← text_events_eq]
    exact (Except.ok.inj h).symm
  · cases h

theorem rows_back (env : Quakeml.Env) (penv : Parser.Env) (hperm : ∀ l, (penv.setOrder l).Perm l) (all quality : Bool) (ag au : String)
    (f : Frame Cell) (T : List String) (hcol : "magnitude_type" ∈ f.cols) (hstd : Standard f.cols T) (hneat : ∀ t ∈ T, Neat t)
    (ps : List ((String → Cell) × ℕ)) (hread : ∀ p ∈ ps, Readable env f T p.2 p.1) :
    ∃ recs, (ps.map (textOf env ag au f)).mapM (recOf penv all quality) = .ok recs ∧
      List.Forall₂ (fun p x => Back env all quality f T p.2 p.1 x) ps recs := by
  apply mapM_forall₂ ps (textOf env ag au f) (recOf penv all quality)
  intro p hp
  obtain ⟨t1, t2, t3⟩ := textOf_texts env ag au f p
  apply row_back env penv hperm all quality ag au f T hstd hneat hcol p.2 p.1 (hread p hp)
  · rw [← t1]
    exact Parser.dictOf_holds _
  · rw [← t2]
    exact List.forall₂_map_left_iff.2 (List.forall₂_same.2 fun x _ => Parser.dictOf_holds x)
  · rw [← t3]
    exact List.forall₂_map_left_iff.2 (List.forall₂_same.2 fun x _ => Parser.dictOf_holds x)

/-- C86: the text that is written is read, from a file or as a string, without an exception, and gives one record for each row with coordinates and time, in
their order, with the contents of the row. The texts are free of markup; and the text is read in one piece, or none of the texts has white space in it. -/
theorem C86_round_trip (env : Quakeml.Env) (penv : Parser.Env) (hperm : ∀ l, (penv.setOrder l).Perm l) (all quality : Bool) (ag au : String)
    (f : Frame Cell) (T : List String)
    (hcols : ∀ c ∈ ["longitude", "latitude", "depth", "time", "magnitude", "magnitude_type"], c ∈ f.cols)
    (hstd : Standard f.cols T) (hneat : ∀ t ∈ T, Neat t) (hread : ∀ p ∈ kept f, Readable env f T p.2 p.1) :
    ∃ text, QuakemlText.toQuakeml env ag au f = .ok text ∧
      ∀ bufs, bufs.flatten = text → Buffers env ag au f T bufs →
        ∃ recs, readFile penv all quality bufs = .ok recs ∧ readString penv all quality bufs = .ok recs ∧
          List.Forall₂ (fun p x => Back env all quality f T p.2 p.1 x) (kept f) recs := by
  refine ⟨_, if_pos ((hasCols_iff catalogColumns _).2 hcols), ?_⟩
  intro bufs hb hbuf
  rw [text_events_eq] at hb
  obtain ⟨St, σ, hw, hn⟩ := buffers_scan hstd hbuf
  obtain ⟨h1, h2⟩ := read_doc penv all quality hn (texts_tree_plain env ag au f) bufs hb hw
  obtain ⟨recs, h3, h4⟩ := rows_back env penv hperm all quality ag au f T (hcols _ (by simp)) hstd hneat (kept f) hread
  exact ⟨recs, h1.trans h3, h2.trans h3, h4⟩

theorem explode_count (l : List Parser.Sax) : (explode l).countP Parser.isEnd = l.countP Parser.isEnd := by
  induction l with
  | nil => rfl
  | cons x l ih =>
    cases x with
    | chars s =>
      rw [explode_chars, List.countP_append, ih, List.countP_cons]
      have : (s.map fun c => Parser.Sax.chars [c]).countP Parser.isEnd = 0 := by
        rw [List.countP_eq_zero]
        intro y hy
        obtain ⟨c, _, rfl⟩ := List.mem_map.1 hy
        simp [Parser.isEnd]
      simp [this, Parser.isEnd]
    | start t id => rw [explode_start, List.countP_cons, List.countP_cons, ih]
    | stop t => rw [explode_stop, List.countP_cons, List.countP_cons, ih]

/-- C86: the text declares its encoding and the namespaces of QuakeML 1.2 before anything else. -/
theorem C86_declared {env : Quakeml.Env} {ag au : String} {f : Frame Cell} {text : List Char} (h : QuakemlText.toQuakeml env ag au f = .ok text) :
    ("<?xml version=\"1.0\" encoding=\"UTF-8\"?>\n<q:quakeml xmlns=\"http://quakeml.org/xmlns/bed/1.2\" xmlns:q=\"http://quakeml.org/xmlns/quakeml/1.2\">\n" : String).toList <+: text := by
  obtain ⟨r, e⟩ : ∃ r, text = QuakemlText.header ++ r := by
    unfold QuakemlText.toQuakeml at h
    split at h
    · injection h with h
      exact ⟨_, by rw [← h, QuakemlText.docText, List.append_assoc]⟩
    · cases h
  rw [e]
  refine List.IsPrefix.trans ?_ (List.prefix_append _ _)
  unfold QuakemlText.header
  rw [String.toList_append]
  exact List.prefix_append _ _

/-- C86: for any text, the number of records does not depend on the buffers in which it is read. -/
theorem C86_same_number (penv : Parser.Env) (all quality : Bool) (bufs bufs' : List (List Char)) (h : bufs.flatten = bufs'.flatten) (recs recs' : List Parser.Rec)
    (h1 : readFile penv all quality bufs = .ok recs) (h2 : readFile penv all quality bufs' = .ok recs') : recs.length = recs'.length := by
  have hcount : ∀ (b : List (List Char)) r, readFile penv all quality b = .ok r → r.length = (XmlText.init.feed b.flatten).flat.countP Parser.isEnd := by
    intro b r hr
    have h3 := C47_one_record_per_event penv all quality _ _ _ hr
    rw [h3, ← explode_count]
    rcases lex_same b with ⟨hbad, _⟩ | ⟨_, _, _, h4⟩
    · exfalso
      have hend : (lex b).ending = .other := by
        unfold L.ending
        rw [hbad]
      unfold readFile at hr
      rw [hend] at hr
      obtain ⟨x, hx⟩ := (C47_malformed penv all quality (lex b).calls).1
      rw [hx] at hr
      cases hr
    · have h5 : (lex b).flat = (XmlText.init.feed b.flatten).flat := h4
      have h6 : (lex b).flat = explode (lex b).calls := by
        unfold L.flat
        rw [lex_pending, explode_append]
        exact List.append_nil _
      rw [← h6, h5]
  rw [hcount bufs recs h1, hcount bufs' recs' h2, h]

/-- C87: any proper beginning of the text that is written, at the level of characters. From a file: an exception if it ends within a tag; otherwise exactly
the first records of the whole text, as many as events have been closed. As a string: an exception, unless it is empty. -/
theorem C87_truncated (env : Quakeml.Env) (penv : Parser.Env) (all quality : Bool) (ag au : String) (f : Frame Cell) (T : List String) (hstd : Standard f.cols T)
    (text : List Char) (ht : QuakemlText.toQuakeml env ag au f = .ok text) (recs : List Parser.Rec) (hfull : readFile penv all quality [text] = .ok recs)
    (bufs : List (List Char)) (hp : bufs.flatten <+: text) (hne : bufs.flatten ≠ text) (hbuf : Buffers env ag au f T bufs) :
    (InTag bufs.flatten → ∃ x, readFile penv all quality bufs = .error x) ∧
    (¬ InTag bufs.flatten → readFile penv all quality bufs = .ok (recs.take (occurrences "</event>".toList bufs.flatten))) ∧
    (bufs.flatten ≠ [] → ∃ x, readString penv all quality bufs = .error x) ∧
    (bufs.flatten = [] → readString penv all quality bufs = .ok []) := by
  have htext := text_ok ht
  have hfullb : Buffers env ag au f T [text] := by
    rcases hbuf with ⟨_, h⟩ | h
    · exact .inl ⟨by simp, h⟩
    · exact .inr h
  obtain ⟨St', σ', hw', hn'⟩ := buffers_scan hstd hfullb
  have hr := (read_doc penv all quality hn' (texts_tree_plain env ag au f) [text] (by simpa using htext) hw').1
  rw [hfull] at hr
  obtain ⟨St, σ, hw, hn⟩ := buffers_scan hstd hbuf
  rw [htext] at hp hne
  obtain ⟨h1, h2, h3⟩ := read_trunc penv all quality hn (texts_tree_plain env ag au f) recs hr.symm bufs hp hne hw
  refine ⟨h1, h2, h3, ?_⟩
  intro h0
  unfold readString
  rw [if_pos h0]


/-! ### Markup in a value -/

/-- Two characters that no document may have outside of tags. -/
def Broken (d c : Char) : Prop :=
  (d = '&' ∧ c ≠ ';' ∧ c ≠ '#' ∧ isNameChar c = false) ∨ (d = '<' ∧ c ≠ '/' ∧ c ≠ '?' ∧ isNameStart c = false)

theorem broken_feed (acc : List Char) (st : List String) (hst : st ≠ []) (dn : Bool) (out : List Parser.Sax) (d c : Char) (h : Broken d c) (r : List Char) :
    ((L.mk (.text acc) st dn out).feed (d :: c :: r)).mode = .bad := by
  rw [feed_cons, feed_cons]
  apply bad_feed
  rcases h with ⟨rfl, h1, h2, h3⟩ | ⟨rfl, h1, h2, h3⟩
  · have e1 : (L.mk (.text acc) st dn out).step '&' = L.mk (.ref acc []) st dn out := by
      simp [L.step, L.inText, hst]
    rw [e1]
    simp [L.step, h1, h2, h3, L.fail]
  · have e1 : (L.mk (.text acc) st dn out).step '<' = L.mk .lt st dn (out ++ charsCall acc) := by
      simp [L.step, L.inText]
    rw [e1]
    simp [L.step, h1, h2, h3, L.fail]

/-- C86, defect: values are not escaped. With an agency such as `R & D` or `a < b`, nothing that is written can be read. -/
theorem C86_defect_unescaped (env : Quakeml.Env) (penv : Parser.Env) (all quality : Bool) (ag au : String) (f : Frame Cell) (text : List Char)
    (ht : QuakemlText.toQuakeml env ag au f = .ok text) (p : (String → Cell) × ℕ) (ps : List ((String → Cell) × ℕ)) (hk : kept f = p :: ps)
    (hid : PlainText (plainText (entry env f p.2 p.1 "eventID"))) (a b : List Char) (d c : Char) (hag : ag.toList = a ++ d :: c :: b) (ha : ∀ x ∈ a, Plain x)
    (hdc : Broken d c) (bufs : List (List Char)) (hb : bufs.flatten = text) :
    (∃ x, readFile penv all quality bufs = .error x) ∧ ∃ x, readString penv all quality bufs = .error x := by
  have htext := text_ok ht
  rw [hk, List.map_cons] at htext
  let R : List Parser.Sax := [.chars QuakemlText.sep, .start "event" (some (show1 (entry env f p.2 p.1 "eventID"))), .chars (QuakemlText.nl 12), .start "creationInfo" none,
    .chars (QuakemlText.nl 16), .start "agencyID" none]
  have hform : ∃ r, text = QuakemlText.header ++ (QuakemlText.showCalls R ++ (a ++ (d :: c :: r))) := by
    rw [htext, docText_eq]
    have e : ∃ r, innerCalls (textOf env ag au f p :: ps.map (textOf env ag au f)) = R ++ .chars ag.toList :: r := by
      obtain ⟨t, ht⟩ : ∃ t, (Item.plain (.text (QuakemlText.nl 12) (QuakemlText.creationInfo 12 ag au (.text (QuakemlText.nl2 12) .nil)))).calls =
          [.chars (QuakemlText.nl 12), .start "creationInfo" none, .chars (QuakemlText.nl 16), .start "agencyID" none] ++ .chars ag.toList :: t := ⟨_, rfl⟩
      obtain ⟨t2, ht2⟩ : ∃ t2, (textOf env ag au f p).items =
          Item.plain (.text (QuakemlText.nl 12) (QuakemlText.creationInfo 12 ag au (.text (QuakemlText.nl2 12) .nil))) :: t2 := ⟨_, rfl⟩
      have hid' : (textOf env ag au f p).id = some (show1 (entry env f p.2 p.1 "eventID")) := rfl
      refine ⟨t ++ itemsCalls t2 ++ [.stop "event"] ++ [.chars QuakemlText.sep] ++ innerCalls (ps.map (textOf env ag au f)), ?_⟩
      unfold innerCalls block Event.calls
      rw [List.map_cons, List.flatten_cons, hid', ht2]
      unfold itemsCalls
      rw [List.map_cons, List.flatten_cons, ht]
      simp [R]
    obtain ⟨r, hr⟩ := e
    refine ⟨b ++ QuakemlText.showCalls r, ?_⟩
    rw [hr, showCalls_append]
    have : QuakemlText.showCalls (.chars ag.toList :: r) = ag.toList ++ QuakemlText.showCalls r := rfl
    rw [this, hag]
    simp
  obtain ⟨r, hr⟩ := hform
  have hbad : (XmlText.init.feed text).mode = .bad := by
    have hR : ∀ x ∈ R, OkCall x := by
      intro x hx
      simp only [R, List.mem_cons, List.not_mem_nil, or_false] at hx
      rcases hx with rfl | rfl | rfl | rfl | rfl | rfl
      · exact sep_text
      · refine ⟨isName_of (by decide), ?_⟩
        rintro v ⟨⟩
        rw [show1_plainText]
        exact hid
      · exact nl_text _
      · exact ⟨isName_of (by decide), by simp⟩
      · exact nl_text _
      · exact ⟨isName_of (by decide), by simp⟩
    rw [hr, feed_append, header_feed, feed_append,
      show (["eventParameters", "q:quakeml"] : List String) = [] ++ ["eventParameters", "q:quakeml"] from rfl,
      feed_calls R hR _ [] _ (by simp) _ ["agencyID", "creationInfo", "event"] rfl, feed_append, feed_text a _ _ _ _ (by simp) (fun x hx => .inl (ha x hx))]
    exact broken_feed _ _ (by simp) _ _ d c hdc r
  have hend : (lex bufs).ending = .other := by
    rw [lex_ending, hb]
    unfold L.ending
    rw [hbad]
  obtain ⟨h1, h2⟩ := C47_malformed penv all quality (lex bufs).calls
  constructor
  · unfold readFile
    rw [hend]
    exact h1
  · unfold readString
    rw [if_neg, hend]
    · exact h2
    · rw [hb, hr]
      intro hc
      have := congrArg List.length hc
      rw [List.length_append] at this
      have hh := header_length
      rw [List.length_nil] at this
      omega

/-! ### White space at the end of a buffer -/

/-- C86, defect: the text of a value is stripped in each buffer. A value of several words (`quarry blast`) that happens to be cut by the end of a buffer is read
without the white space there (`quarryblast`); every other value is read as before. -/
theorem C86_defect_gap (env : Quakeml.Env) (penv : Parser.Env) (hperm : ∀ l, (penv.setOrder l).Perm l) (all quality : Bool) (ag au : String)
    (f : Frame Cell) (T : List String)
    (hcols : ∀ c ∈ ["longitude", "latitude", "depth", "time", "magnitude", "magnitude_type"], c ∈ f.cols)
    (hstd : Standard f.cols T) (hneat : ∀ t ∈ T, Neat t) (hread : ∀ p ∈ kept f, Readable env f T p.2 p.1) (htexts : Texts PlainText env ag au f T)
    (htype : "event_type" ∈ f.cols) (p : (String → Cell) × ℕ) (ps qs : List ((String → Cell) × ℕ)) (hk : kept f = ps ++ p :: qs)
    (u v a b : List Char) (hp : p.1 "event_type" = .val (String.ofList (u ++ v))) (hu : Trimmed u a) (hv : Trimmed v b) (ha : a ≠ []) (hb : b ≠ []) :
    ∃ text, QuakemlText.toQuakeml env ag au f = .ok text ∧ ∃ b1 b2, b1 ++ b2 = text ∧
      ∃ recs x recs', readFile penv all quality [b1, b2] = .ok (recs ++ x :: recs') ∧
        List.Forall₂ (fun p x => Back env all quality f T p.2 p.1 x) ps recs ∧
        Back env all quality f T p.2 (Function.update p.1 "event_type" (.val (String.ofList (a ++ b)))) x ∧
        x.get? "event_type" = some (some (String.ofList (a ++ b))) ∧
        List.Forall₂ (fun p x => Back env all quality f T p.2 p.1 x) qs recs' := by
  have ea : Parser.strip u = a := by
    obtain ⟨s, t, rfl, h1, h2, h3, h4⟩ := hu
    exact strip_eq_of h1 h2 h3 h4
  have eb : Parser.strip v = b := by
    obtain ⟨s, t, rfl, h1, h2, h3, h4⟩ := hv
    exact strip_eq_of h1 h2 h3 h4
  subst ea eb
  refine ⟨_, if_pos ((hasCols_iff catalogColumns _).2 hcols), ?_⟩
  rw [text_events_eq, hk, List.map_append, List.map_cons]
  have hn : ∀ e ∈ (kept f).map (textOf env ag au f), Nice oneWord e.calls := by
    intro e he
    obtain ⟨q, hq, rfl⟩ := List.mem_map.1 he
    exact nice_row fixed_oneWord (fine_of_texts (fun s hs => fine_oneWord hs) htexts) hstd q hq
  have hpl := texts_tree_plain env ag au f
  rw [hk, List.map_append, List.map_cons] at hn hpl
  obtain ⟨X, Z, hXZ⟩ := withType_calls env ag au (entry env f p.2 p.1) (secMags (keys f.cols) (withIds env f p.2 p.1))
  have hty : (show1 (entry env f p.2 p.1 "event_type")).toList = u ++ v := by
    rw [entry_col env f p.2 p.1 _ htype, hp]
    simp [show1]
  have he : (textOf env ag au f p).calls = X ++ .chars (u ++ v) :: .stop "type" :: Z := by
    unfold textOf
    rw [tree_withType, hXZ, hty]
    simp [Forest.calls]
  obtain ⟨b1, b2, hbb, hrd⟩ := read_cut penv all quality hn
    (e' := XmlText.withType env ag au (entry env f p.2 p.1) (secMags (keys f.cols) (withIds env f p.2 p.1)) (.text u (.text v .nil)))
    (by
      intro d hd
      rcases List.mem_append.1 hd with hd | hd
      · exact hpl d (List.mem_append_left _ hd)
      · rcases List.mem_cons.1 hd with rfl | hd
        · exact XmlText.withType_plain _ _ _ _ _ _ (by trivial)
        · exact hpl d (List.mem_append_right _ (List.mem_cons_of_mem _ hd))) X Z u v "type" he (by rw [hXZ]; simp [Forest.calls])
  refine ⟨b1, b2, hbb, ?_⟩
  have hmt := hcols "magnitude_type" (by simp)
  have hin : ∀ q ∈ ps ++ p :: qs, Readable env f T q.2 q.1 := by rw [← hk]; exact hread
  obtain ⟨r1, h1, h1'⟩ := rows_back env penv hperm all quality ag au f T hmt hstd hneat ps fun q hq => hin q (by simp [hq])
  obtain ⟨r2, h2, h2'⟩ := rows_back env penv hperm all quality ag au f T hmt hstd hneat qs fun q hq => hin q (by simp [hq])
  obtain ⟨c1, c2, c3⟩ := cut_holds env ag au f p.1 p.2 htype u v ha hb
  have hr : Readable env f T p.2 (Function.update p.1 "event_type" (.val (String.ofList (Parser.strip u ++ Parser.strip v)))) := by
    have h0 := hin p (by simp)
    have hne : ∀ c, c ≠ "event_type" → Function.update p.1 "event_type" (Cell.val (String.ofList (Parser.strip u ++ Parser.strip v))) c = p.1 c :=
      fun c hc => Function.update_of_ne hc _ _
    have hen : ∀ c, c ≠ "event_type" → entry env f p.2 (Function.update p.1 "event_type" (Cell.val (String.ofList (Parser.strip u ++ Parser.strip v)))) c =
        entry env f p.2 p.1 c := by
      intro c hc
      rw [entry_update env f p.2 p.1 htype, Function.update_of_ne hc]
    refine ⟨?_, ?_, ?_, ?_⟩
    · rw [hen _ (by decide)]; exact h0.origin
    · rw [hen _ (by decide)]; exact h0.magnitude
    · rw [hne _ (by decide)]; exact h0.type
    · intro t ht
      rw [hen _ (by decide), hne]
      · exact h0.others t ht
      · intro hc
        have := congrArg (fun s : String => s.toList.take 1) hc
        simp only [String.toList_append] at this
        exact absurd this (by simp)
  obtain ⟨x, hx, hx'⟩ := row_back env penv hperm all quality ag au f T hstd hneat hmt p.2 _ hr _ _ _ c1 c2 c3
  refine ⟨r1, x, r2, ?_, h1', hx', ?_, h2'⟩
  · rw [hrd, mapM_append_py, h1]
    have hx2 : recOf penv all quality (XmlText.withType env ag au (entry env f p.2 p.1) (secMags (keys f.cols) (withIds env f p.2 p.1)) (.text u (.text v .nil))) = .ok x := hx
    rw [List.mapM_cons, hx2, h2]
    rfl
  · rw [hx'.type, entry_col _ _ _ _ _ htype, Function.update_self]
    unfold Quakeml.read plainText
    simp only [String.toList_ofList, strip_join ha hb]
    simp [ha]

/-! ### A catalogue -/

/-- A row with an event type of the given text. -/
def textRow (t : String) : String → Cell := fun c =>
  if c = "magnitude_type" then .val "ML" else if c = "event_type" then .val t else if c = "depth" then .nan else if c = "magnitude_Mw" then .val "2.3" else .val "1.5"

/-- The columns. -/
def textCols : List String := ["longitude", "latitude", "depth", "time", "magnitude", "magnitude_type", "magnitude_Mw", "event_type"]

/-- A catalogue with two rows; the second has no time. -/
def textCat (t : String) : Frame Cell :=
  { cols := textCols
    rows := [textRow t, fun c => if c = "time" then .nan else .val "1"] }

/-- Identifiers and formats. -/
def textEnv : Quakeml.Env := ⟨fun c _ => if c = "magnitudeID" then "m" else if c = "originID" then "o" else "e", fun _ => "2020-01-01T00:00:00.000000Z", fun _ => "7"⟩

theorem textCat_kept (t : String) : kept (textCat t) = [(textRow t, 0)] := by
  unfold kept textCat textRow
  simp [List.zipIdx, Located]

theorem textCat_hyps (t : String) : (∀ c ∈ ["longitude", "latitude", "depth", "time", "magnitude", "magnitude_type"], c ∈ (textCat t).cols) ∧
    Standard (textCat t).cols ["Mw"] ∧ (∀ s ∈ ["Mw"], Neat s) ∧ (∀ p ∈ kept (textCat t), Readable textEnv (textCat t) ["Mw"] p.2 p.1) := by
  have hcs : (textCat t).cols = textCols := rfl
  refine ⟨by rw [hcs]; decide, ⟨?_, by rw [hcs]; decide⟩, ?_, ?_⟩
  · intro s hs
    rw [List.mem_singleton] at hs
    subst hs
    exact ⟨by decide, by decide, by decide, by decide, by decide⟩
  · intro s hs
    rw [List.mem_singleton] at hs
    subst hs
    unfold Neat
    decide
  · intro p hp
    rw [textCat_kept, List.mem_singleton] at hp
    subst hp
    have ho : entry textEnv (textCat t) 0 (textRow t) "originID" = some (.val "o") := by
      unfold entry
      rw [hcs, if_neg (by decide), if_pos (by decide)]
      rfl
    have hm : entry textEnv (textCat t) 0 (textRow t) "magnitudeID" = some (.val "m") := by
      unfold entry
      rw [hcs, if_neg (by decide), if_pos (by decide)]
      rfl
    refine ⟨?_, ?_, ⟨"ML", by simp [textRow], by unfold Neat; decide, by unfold PlainType; decide⟩, ?_⟩
    · rw [ho]
      unfold Neat
      decide
    · rw [hm]
      unfold Neat
      decide
    · intro s hs
      rw [List.mem_singleton] at hs
      subst hs
      rw [hm]
      simp [textRow, plainText]

theorem textCat_texts (P : String → Prop) (h : ∀ s ∈ ["ETH", "SED", "m", "o", "e", "2020-01-01T00:00:00.000000Z", "7", "Mw", "ML", "2.3", "1.5"], P s)
    (t : String) (ht : P t) : Texts P textEnv "ETH" "SED" (textCat t) ["Mw"] := by
  refine ⟨h _ (by simp), h _ (by simp), ?_, fun _ => h "2020-01-01T00:00:00.000000Z" (by simp), fun _ => h "7" (by simp), ?_, ?_⟩
  · intro c i
    unfold textEnv
    dsimp only
    split_ifs
    · exact h _ (by simp)
    · exact h _ (by simp)
    · exact h _ (by simp)
  · intro s hs
    rw [List.mem_singleton] at hs
    subst hs
    exact h _ (by simp)
  · intro p hp c _ s hs
    rw [textCat_kept, List.mem_singleton] at hp
    subst hp
    unfold textRow at hs
    dsimp only at hs
    split_ifs at hs <;> (cases hs; first | exact ht | exact h _ (by simp))

theorem plainWord_of {s : String} (h : (∀ c ∈ s.toList, XmlText.Plain c) ∧ ∀ c ∈ Parser.strip s.toList, ¬ Blank c) : PlainWord s := by
  refine ⟨h.1, ?_⟩
  rintro t ⟨a, b, e, h1, h2, h3, h4⟩
  have := strip_eq_of h1 h2 h3 h4
  rw [e] at h
  rw [← this]
  exact h.2

/-- The hypotheses of C86 and C87 are met: the event type is one word, and the text may be read in any buffers. -/
example (bufs : List (List Char)) : Buffers textEnv "ETH" "SED" (textCat "earthquake") ["Mw"] bufs := by
  refine .inr (textCat_texts _ ?_ _ (plainWord_of (by decide)))
  intro s hs
  simp only [List.mem_cons, List.not_mem_nil, or_false] at hs
  rcases hs with rfl | rfl | rfl | rfl | rfl | rfl | rfl | rfl | rfl | rfl | rfl <;> exact plainWord_of (by decide)

theorem quarry_texts : Texts PlainText textEnv "ETH" "SED" (textCat "quarry blast") ["Mw"] := by
  refine textCat_texts _ ?_ _ (show ∀ c ∈ "quarry blast".toList, XmlText.Plain c by decide)
  intro s hs
  simp only [List.mem_cons, List.not_mem_nil, or_false] at hs
  rcases hs with rfl | rfl | rfl | rfl | rfl | rfl | rfl | rfl | rfl | rfl | rfl <;> exact fun c hc => by revert c; decide

/-- With two words, the text may be read in one piece. -/
example (text : List Char) : Buffers textEnv "ETH" "SED" (textCat "quarry blast") ["Mw"] [text] := .inl ⟨by simp, quarry_texts⟩

/-- In two pieces the blank may be lost: the event type of the record is `quarryblast`. -/
example (penv : Parser.Env) (hperm : ∀ l, (penv.setOrder l).Perm l) : ∃ text b1 b2 x, QuakemlText.toQuakeml textEnv "ETH" "SED" (textCat "quarry blast") = .ok text ∧
    b1 ++ b2 = text ∧ readFile penv false false [b1, b2] = .ok [x] ∧ x.get? "event_type" = some (some "quarryblast") := by
  obtain ⟨h1, h2, h3, h4⟩ := textCat_hyps "quarry blast"
  obtain ⟨text, ht, b1, b2, hb, recs, x, recs', hr, hf, hx, hx', hf'⟩ := C86_defect_gap textEnv penv hperm false false "ETH" "SED" (textCat "quarry blast") ["Mw"] h1 h2 h3
    h4 quarry_texts (by decide) (textRow "quarry blast", 0) [] [] (textCat_kept _) "quarry ".toList "blast".toList "quarry".toList "blast".toList
    (by simp [textRow]) ⟨[], [' '], by decide, by simp, by simp [Blank, Parser.isSpace], by decide, by decide⟩ ⟨[], [], by decide, by simp, by simp, by decide, by decide⟩
    (by decide) (by decide)
  cases hf
  cases hf'
  exact ⟨text, b1, b2, x, ht, hb, hr, hx'⟩

/-- A text that cannot be read: the agency `R & D`. -/
example (penv : Parser.Env) : ∃ text, QuakemlText.toQuakeml textEnv "R & D" "SED" (textCat "earthquake") = .ok text ∧ ∃ x, readFile penv false false [text] = .error x := by
  refine ⟨_, if_pos ((hasCols_iff catalogColumns _).2 (textCat_hyps _).1), ?_⟩
  refine (C86_defect_unescaped textEnv penv false false "R & D" "SED" (textCat "earthquake") _ (if_pos ((hasCols_iff catalogColumns _).2 (textCat_hyps _).1)) _ _
    (textCat_kept _) ?_ ['R', ' '] ['D'] '&' ' ' (by decide) (by decide) (.inl (by decide)) _ (by simp)).1
  have : entry textEnv (textCat "earthquake") 0 (textRow "earthquake") "eventID" = some (.val "e") := by
    unfold entry
    rw [if_neg (by decide), if_pos (by decide)]
    rfl
  rw [this]
  exact fun c hc => by revert c; decide

end SeismoStats.Props
