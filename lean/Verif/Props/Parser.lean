/-
Property C47: parsing of QuakeML documents, event by event.
-/
import Verif.Proofs.Parser
import Verif.Proofs.ParserSelect
import Verif.Spec.Parser
import Mathlib.Data.List.Forall2
import Mathlib.Data.List.TakeWhile

namespace SeismoStats.Props
open SeismoStats SeismoStats.Parser SeismoStats.Spec.Parser

/-- C47: whatever comes before, the end of an event element resets the handler: the records of a stream are
those of the part up to the end of an event, followed by those of the rest parsed on its own. This holds for
arbitrary streams, well formed or not; the first exception is the result. -/
theorem C47_isolated (env : Env) (all quality : Bool) (xs ys : List Sax) (e : Ending) :
    parseFile env all quality (xs ++ .stop "event" :: ys) e =
      (do
        let a ← parseFile env all quality (xs ++ [.stop "event"]) .complete
        let b ← parseFile env all quality ys e
        pure (a ++ b)) := by
  have hsplit : xs ++ .stop "event" :: ys = (xs ++ [.stop "event"]) ++ ys := by simp
  simp only [parseFile, hsplit]
  rw [run_append]
  cases h1 : run env all quality {} (xs ++ [.stop "event"]) with
  | error x => rfl
  | ok h =>
    have hc := run_event_end env all quality _ _ _ h1
    have hp : h = pushRecs h.catalog {} := by rw [hc]; simp [pushRecs]
    dsimp only
    conv_lhs => rw [hp, run_push]
    cases run env all quality {} ys with
    | error x => rfl
    | ok g => cases e <;> rfl

/-- C47: one record for every end of an event element, for arbitrary streams. -/
theorem C47_one_record_per_event (env : Env) (all quality : Bool) (xs : List Sax) (e : Ending) (r : List Rec)
    (h : parseFile env all quality xs e = .ok r) : r.length = xs.countP isEnd := by
  unfold parseFile at h
  cases h1 : run env all quality {} xs with
  | error x => rw [h1] at h; cases h
  | ok g =>
    rw [h1] at h
    have := run_count env all quality _ _ _ h1
    cases e <;> cases h <;> simpa using this

theorem run_outside (env : Env) (all quality : Bool) (c : List Rec) (x : Sax) (hx : Outside x) :
    step env all quality { catalog := c } x = .ok { catalog := c } := by
  cases x with
  | start tag id => obtain ⟨h1, h2, h3⟩ := hx; simp [step, startElement, h1, h2, h3]
  | stop tag => obtain ⟨h1, h2, h3⟩ := hx; simp [step, endElement, h1, h2, h3, shorten]
  | chars s => simp [step, characters]

theorem run_doc (env : Env) (all quality : Bool) (doc : List Part) (hd : ∀ p ∈ doc, p.Ok) (c : List Rec) :
    run env all quality { catalog := c } (docCalls doc) =
      ((docEvents doc).mapM fun e => parseToDict env (dictOf e.own) (e.origins.map dictOf) (e.magnitudes.map dictOf) all quality).map
        fun l => { catalog := c ++ l } := by
  induction doc generalizing c with
  | nil => simp [docCalls, docEvents, run, Except.map, pure, Except.pure]
  | cons p r ih =>
    have hr : ∀ q ∈ r, q.Ok := fun q hq => hd q (by simp [hq])
    have hsplit : docCalls (p :: r) = p.calls ++ docCalls r := by simp [docCalls]
    rw [hsplit, run_append]
    cases p with
    | other x =>
      have h1 : run env all quality { catalog := c } (Part.other x).calls = .ok { catalog := c } := by
        simp only [Part.calls, run, run_outside env all quality c x (hd (.other x) (by simp))]
      rw [h1]
      exact ih hr c
    | event e =>
      rw [Part.calls, run_event env all quality e (hd (.event e) (by simp)), docEvents, List.mapM_cons]
      cases parseToDict env (dictOf e.own) (e.origins.map dictOf) (e.magnitudes.map dictOf) all quality with
      | error x => rfl
      | ok rec =>
        dsimp only
        rw [ih hr]
        simp only [bind, Except.bind]
        generalize (List.mapM _ (docEvents r) : Py (List Rec)) = q
        cases q with
        | error x => rfl
        | ok l => simp [Except.map, pure, Except.pure]

/-- C47: the records of a document are those of its events, in order. A record is made of dictionaries which
hold the texts of this event (and of each of its origins and magnitudes): under each name the texts found
there, without surrounding white space and joined, and the publicID. Everything outside of events is ignored. -/
theorem C47_document : ∃ (own : Event → Elem) (origins magnitudes : Event → List Elem),
    (∀ e, Holds (own e) e.own ∧ List.Forall₂ Holds (origins e) e.origins ∧
      List.Forall₂ Holds (magnitudes e) e.magnitudes) ∧
    ∀ (env : Env) (all quality : Bool) (doc : List Part), (∀ p ∈ doc, p.Ok) →
      parseFile env all quality (docCalls doc) .complete =
        (docEvents doc).mapM fun e => parseToDict env (own e) (origins e) (magnitudes e) all quality := by
  refine ⟨fun e => dictOf e.own, fun e => e.origins.map dictOf, fun e => e.magnitudes.map dictOf, fun e => ?_, ?_⟩
  · refine ⟨dictOf_holds _, ?_, ?_⟩
    all_goals
      apply List.forall₂_map_left_iff.2
      exact List.forall₂_same.2 fun x _ => dictOf_holds x
  · intro env all quality doc hd
    have := run_doc env all quality doc hd []
    simp only [parseFile, this]
    generalize (List.mapM _ (docEvents doc) : Py (List Rec)) = q
    cases q with
    | error x => rfl
    | ok l => rfl

theorem run_prefix_ok (env : Env) (all quality : Bool) (h : H) (xs ys : List Sax) (g : H)
    (hr : run env all quality h (xs ++ ys) = .ok g) : ∃ g', run env all quality h xs = .ok g' := by
  rw [run_append] at hr
  cases h1 : run env all quality h xs with
  | error e => rw [h1] at hr; cases hr
  | ok g' => exact ⟨g', rfl⟩

theorem run_catalog (env : Env) (all quality : Bool) (h g : H) (xs : List Sax) (hx : ∀ x ∈ xs, isEnd x = false)
    (hc : h.catalog = c) (hr : run env all quality h xs = .ok g) : g.catalog = c := by
  induction xs generalizing h with
  | nil => cases hr; exact hc
  | cons x r ih =>
    simp only [run] at hr
    cases hs : step env all quality h x with
    | error e => rw [hs] at hr; cases hr
    | ok h1 =>
      rw [hs] at hr
      refine ih h1 (fun y hy => hx y (by simp [hy])) ?_ hr
      have hx1 := hx x (by simp)
      cases x with
      | start tag id =>
        have key : ∀ (g : H) , setId g id = .ok h1 → h1.catalog = g.catalog := by
          intro g hg
          cases id with
          | none => cases hg; rfl
          | some v => exact setter_catalog _ _ _ _ hg
        simp only [step, startElement] at hs
        split at hs
        · rw [key _ hs, ← hc]
        split at hs
        · rw [key _ hs, ← hc]
        split at hs
        · rw [key _ hs, ← hc]
        split at hs <;> cases hs <;> exact hc
      | stop tag =>
        have ht : tag ≠ "event" := by simpa [isEnd] using hx1
        have hsh : ∀ g : H, (shorten g tag).catalog = g.catalog := by
          intro g; unfold shorten; split <;> rfl
        simp only [step, endElement, ht, if_false] at hs
        split at hs <;> cases hs <;> rw [hsh] <;> exact hc
      | chars s =>
        simp only [step, characters] at hs
        split at hs
        · rw [setter_catalog _ _ _ _ hs, hc]
        · cases hs; exact hc

theorem forest_no_end (f : Forest) (hf : f.Plain) : ∀ x ∈ f.calls, isEnd x = false := by
  induction f with
  | nil => simp [Forest.calls]
  | text s r ih => simpa [Forest.calls, isEnd] using ih hf
  | elem tag id k r ihk ihr =>
    obtain ⟨h1, h2, h3, h4, h5, h6⟩ := hf
    intro x hx
    simp only [Forest.calls, List.mem_cons, List.mem_append] at hx
    rcases hx with rfl | hx | rfl | hx
    · rfl
    · exact ihk h5 x hx
    · simp [isEnd, h1]
    · exact ihr h6 x hx

theorem item_no_end (i : Item) (hi : i.Plain) : ∀ x ∈ i.calls, isEnd x = false := by
  cases i with
  | plain f => exact forest_no_end f hi
  | origin id f =>
    intro x hx
    simp only [Item.calls, List.mem_cons, List.mem_append, List.not_mem_nil, or_false] at hx
    rcases hx with rfl | hx | rfl
    · rfl
    · exact forest_no_end f hi x hx
    · rfl
  | magnitude id f =>
    intro x hx
    simp only [Item.calls, List.mem_cons, List.mem_append, List.not_mem_nil, or_false] at hx
    rcases hx with rfl | hx | rfl
    · rfl
    · exact forest_no_end f hi x hx
    · rfl

/-- C47: a document that is malformed otherwise is never returned in part: the call raises, whatever has been read before. -/
theorem C47_malformed (env : Env) (all quality : Bool) (xs : List Sax) :
    (∃ x, parseFile env all quality xs .other = .error x) ∧ ∃ x, parseString env all quality xs .other = .error x := by
  unfold parseFile parseString
  cases run env all quality {} xs with
  | error x => exact ⟨⟨x, rfl⟩, x, rfl⟩
  | ok h => exact ⟨⟨_, rfl⟩, _, rfl⟩

/-- C47: a file that is cut off inside an event gives the records of the events before it; the string
version raises. -/
theorem C47_truncated (env : Env) (all quality : Bool) (doc : List Part) (hd : ∀ p ∈ doc, p.Ok) (e : Event)
    (he : e.Plain) (ys : List Sax) (hy : ys <+: .start "event" e.id :: itemsCalls e.items) :
    parseFile env all quality (docCalls doc ++ ys) .noElement = parseFile env all quality (docCalls doc) .complete ∧
    ∃ x, parseString env all quality (docCalls doc ++ ys) .noElement = .error x := by
  obtain ⟨zs, hz⟩ := hy
  constructor
  · simp only [parseFile]
    rw [run_append]
    have h0 := run_doc env all quality doc hd []
    cases h1 : run env all quality {} (docCalls doc) with
    | error x => rfl
    | ok g =>
      dsimp only
      have hg : g = { catalog := g.catalog } := by
        have h1' : run env all quality { catalog := [] } (docCalls doc) = .ok g := h1
        rw [h1'] at h0
        revert h0
        generalize (List.mapM _ (docEvents doc) : Py (List Rec)) = q
        cases q with
        | error x => intro h; cases h
        | ok l => intro h; cases h; rfl
      have hopen := run_event_open env all quality e g.catalog e.items he
      rw [← hz] at hopen
      obtain ⟨g', hg'⟩ := run_prefix_ok _ _ _ _ _ _ _ hopen
      have hrun : run env all quality g ys = .ok g' := by rw [hg]; exact hg'
      rw [hrun]
      dsimp only
      rw [run_catalog env all quality g g' ys ?_ rfl hrun]
      intro x hx
      have : x ∈ Sax.start "event" e.id :: itemsCalls e.items := by rw [← hz]; simp [hx]
      rcases List.mem_cons.1 this with rfl | h
      · rfl
      · simp only [itemsCalls, List.mem_flatten, List.mem_map] at h
        obtain ⟨l, ⟨i, hi, rfl⟩, hxl⟩ := h
        exact item_no_end i (he i hi) x hxl
  · simp only [parseString]
    cases run env all quality {} (docCalls doc ++ ys) with
    | error x => exact ⟨x, rfl⟩
    | ok g => exact ⟨_, rfl⟩

/-! ### Chunks of text -/

theorem dropWhile_all {p : Char → Bool} {l r : List Char} (h : ∀ c ∈ l, p c = true) :
    (l ++ r).dropWhile p = r.dropWhile p := by
  induction l with
  | nil => rfl
  | cons a l ih =>
    rw [List.cons_append, List.dropWhile_cons_of_pos (h a (by simp))]
    exact ih fun c hc => h c (by simp [hc])

theorem dropWhile_append_not_all {p : Char → Bool} {l r : List Char} (h : ¬ ∀ c ∈ l, p c = true) :
    (l ++ r).dropWhile p = l.dropWhile p ++ r := by
  induction l with
  | nil => simp at h
  | cons a l ih =>
    by_cases ha : p a = true
    · rw [List.cons_append, List.dropWhile_cons_of_pos ha, List.dropWhile_cons_of_pos ha]
      apply ih
      intro hc; apply h
      intro c hcm
      rcases List.mem_cons.1 hcm with rfl | h'
      · exact ha
      · exact hc c h'
    · rw [List.cons_append, List.dropWhile_cons_of_neg ha, List.dropWhile_cons_of_neg ha, List.cons_append]

theorem dropWhile_head {p : Char → Bool} {l : List Char} (h : ∀ c, l.head? = some c → p c = false) :
    l.dropWhile p = l := by
  cases l with
  | nil => rfl
  | cons a l => rw [List.dropWhile_cons_of_neg]; simp [h a rfl]

theorem strip_blank {s : List Char} (h : ∀ c ∈ s, Blank c) : strip s = [] := by
  have := dropWhile_all (p := isSpace) (r := []) h
  rw [List.append_nil] at this
  simp [strip, this]

theorem strip_eq_of {a t b : List Char} (ha : ∀ c ∈ a, Blank c) (hb : ∀ c ∈ b, Blank c)
    (h1 : ∀ c, t.head? = some c → ¬ Blank c) (h2 : ∀ c, t.getLast? = some c → ¬ Blank c) :
    strip (a ++ t ++ b) = t := by
  cases ht : t with
  | nil =>
    rw [List.append_nil]
    apply strip_blank
    intro c hc
    rcases List.mem_append.1 hc with h | h
    · exact ha c h
    · exact hb c h
  | cons x r =>
    rw [← ht]
    have e1 : (a ++ t ++ b).dropWhile isSpace = t ++ b := by
      rw [List.append_assoc, dropWhile_all ha]
      apply dropWhile_head
      intro c hc
      rw [ht] at hc h1
      simp only [List.cons_append, List.head?_cons, Option.some.injEq] at hc
      have := h1 c (by simp [hc])
      simpa [Blank] using this
    have e2 : (t ++ b).reverse.dropWhile isSpace = t.reverse := by
      rw [List.reverse_append, dropWhile_all (by intro c hc; exact hb c (List.mem_reverse.1 hc))]
      apply dropWhile_head
      intro c hc
      rw [List.head?_reverse] at hc
      simpa [Blank] using h2 c hc
    rw [strip, e1, e2, List.reverse_reverse]

theorem strip_trimmed (s : List Char) : Trimmed s (strip s) := by
  refine ⟨s.takeWhile isSpace, ((s.dropWhile isSpace).reverse.takeWhile isSpace).reverse, ?_, ?_, ?_, ?_, ?_⟩
  · have h1 := List.takeWhile_append_dropWhile (p := isSpace) (l := s)
    have h2 := congrArg List.reverse
      (List.takeWhile_append_dropWhile (p := isSpace) (l := (s.dropWhile isSpace).reverse))
    rw [List.reverse_append, List.reverse_reverse] at h2
    rw [List.append_assoc, strip, h2, h1]
  · intro c hc; exact List.mem_takeWhile_imp hc
  · intro c hc; rw [List.mem_reverse] at hc; exact List.mem_takeWhile_imp hc
  · intro c hc
    have hpre : strip s <+: s.dropWhile isSpace := by
      rw [strip, ← List.reverse_suffix, List.reverse_reverse]
      exact List.dropWhile_suffix _
    obtain ⟨z, hz⟩ := hpre
    cases hst : strip s with
    | nil => rw [hst] at hc; simp at hc
    | cons x r =>
      rw [hst] at hc hz
      simp only [List.head?_cons, Option.some.injEq] at hc
      subst hc
      have hne : s.dropWhile isSpace ≠ [] := by rw [← hz]; simp
      have := List.head_dropWhile_not isSpace hne
      have hx : (s.dropWhile isSpace).head hne = x := by
        have : (s.dropWhile isSpace).head? = some x := by rw [← hz]; simp
        exact (List.head_eq_iff_head?_eq_some hne).2 this
      rw [hx] at this
      simpa [Blank] using this
  · intro c hc
    rw [strip, List.getLast?_reverse] at hc
    have hne : (s.dropWhile isSpace).reverse.dropWhile isSpace ≠ [] := by intro h; rw [h] at hc; simp at hc
    have h := List.head_dropWhile_not isSpace hne
    rw [(List.head_eq_iff_head?_eq_some hne).2 hc] at h
    simpa [Blank] using h

/-- The characters Python counts as white space. -/
def pythonSpaces : List ℕ :=
  [0x09, 0x0A, 0x0B, 0x0C, 0x0D, 0x1C, 0x1D, 0x1E, 0x1F, 0x20, 0x85, 0xA0, 0x1680, 0x2000, 0x2001, 0x2002, 0x2003, 0x2004, 0x2005, 0x2006, 0x2007, 0x2008, 0x2009,
    0x200A, 0x2028, 0x2029, 0x202F, 0x205F, 0x3000]

/-- C47: white space is what Python's `str.strip` removes. -/
theorem C47_white_space (c : Char) : Blank c ↔ c.toNat ∈ pythonSpaces := by
  simp only [Blank, isSpace, pythonSpaces, List.mem_cons, List.not_mem_nil, or_false, Bool.or_eq_true, Bool.and_eq_true, decide_eq_true_eq, beq_iff_eq]
  omega

example : Blank '\u3000' ∧ ¬ Blank 'a' := by
  rw [C47_white_space, C47_white_space]
  decide

/-- C47: the text under a name is stripped of surrounding white space and nothing else; the result is unique. -/
theorem C47_text_is_trimmed (s t : List Char) : strip s = t ↔ Trimmed s t := by
  constructor
  · rintro rfl; exact strip_trimmed s
  · rintro ⟨a, b, rfl, ha, hb, h1, h2⟩; exact strip_eq_of ha hb h1 h2

/-- A split of a text that does not change what is read: one part is blank, or there is no white space at
the cut. -/
def GoodCut (s t : List Char) : Prop :=
  (∀ c ∈ s, Blank c) ∨ (∀ c ∈ t, Blank c) ∨
    ((∀ c, s.getLast? = some c → ¬ Blank c) ∧ ∀ c, t.head? = some c → ¬ Blank c)

theorem chunk_join (path s t : List Char) (h : GoodCut s t) (d : Elem) :
    (chunkTexts path s ++ chunkTexts path t).foldl addText d = (chunkTexts path (s ++ t)).foldl addText d := by
  have hdrop : ∀ u : List Char, (∀ c ∈ u, Blank c) → chunkTexts path u = [] := by
    intro u hu; simp [chunkTexts, strip_blank hu]
  by_cases hs : ∀ c ∈ s, Blank c
  · have : strip (s ++ t) = strip t := by
      simp only [strip, dropWhile_all hs]
    rw [hdrop s hs]
    simp [chunkTexts, this]
  by_cases ht : ∀ c ∈ t, Blank c
  · have : strip (s ++ t) = strip s := by
      obtain ⟨a, b, e, ha, hb, h1, h2⟩ := strip_trimmed s
      conv_lhs => rw [e]
      rw [List.append_assoc]
      apply strip_eq_of ha ?_ h1 h2
      intro c hc
      rcases List.mem_append.1 hc with h | h
      · exact hb c h
      · exact ht c h
    rw [hdrop t ht]
    simp [chunkTexts, this]
  rcases h with h | h | ⟨hl, hh⟩
  · exact absurd h hs
  · exact absurd h ht
  obtain ⟨a, b, e, ha, hb, h1, h2⟩ := strip_trimmed s
  obtain ⟨a', b', e', ha', hb', h1', h2'⟩ := strip_trimmed t
  have hs1 : strip s ≠ [] := by
    intro hc; rw [hc, List.append_nil] at e
    apply hs
    rw [e]
    intro c hcm
    rcases List.mem_append.1 hcm with h | h
    · exact ha c h
    · exact hb c h
  have ht1 : strip t ≠ [] := by
    intro hc; rw [hc, List.append_nil] at e'
    apply ht
    rw [e']
    intro c hcm
    rcases List.mem_append.1 hcm with h | h
    · exact ha' c h
    · exact hb' c h
  have hbn : b = [] := by
    rcases List.eq_nil_or_concat b with h | ⟨b0, x, h⟩
    · exact h
    · exfalso
      rw [List.concat_eq_append] at h
      apply hl x
      · rw [e, h]; simp
      · exact hb x (by rw [h]; simp)
  have han : a' = [] := by
    cases a' with
    | nil => rfl
    | cons x r =>
      exfalso
      apply hh x
      · rw [e']; simp
      · exact ha' x (by simp)
  have key : strip (s ++ t) = strip s ++ strip t := by
    conv_lhs => rw [e, e', hbn, han]
    rw [List.append_nil, List.nil_append,
      show a ++ strip s ++ (strip t ++ b') = a ++ (strip s ++ strip t) ++ b' by simp [List.append_assoc]]
    apply strip_eq_of ha hb'
    · intro c hc
      rw [List.head?_append_of_ne_nil _ hs1] at hc
      exact h1 c hc
    · intro c hc
      rw [List.getLast?_append_of_ne_nil _ ht1] at hc
      exact h2' c hc
  have hne : strip s ++ strip t ≠ [] := by simp [hs1]
  simp only [chunkTexts, hs1, ht1, hne, if_false, key]
  simp only [List.cons_append, List.nil_append, List.foldl_cons, List.foldl_nil, addText, Dict.get?_set, if_true,
    Option.getD_some, String.ofList_append]
  have hset : ∀ (d : Elem) (k v w : String), (Dict.set (Dict.set d k v) k w) = Dict.set d k w := by
    intro d k v w
    induction d with
    | nil => simp [Dict.set]
    | cons p r ih =>
      obtain ⟨k', v'⟩ := p
      by_cases hk : k' = k <;> simp [Dict.set, hk, ih]
  rw [hset, String.append_assoc]

/-- A good cut does not change what the handler does, in any state. -/
theorem run_cut (env : Env) (all quality : Bool) (s t : List Char) (h : GoodCut s t) (g : H) :
    run env all quality g [.chars s, .chars t] = run env all quality g [.chars (s ++ t)] := by
  have hw : ∀ l : List Elem, onLast l (chunkTexts g.location s ++ chunkTexts g.location t) =
      onLast l (chunkTexts g.location (s ++ t)) := by
    intro l
    unfold onLast
    cases l.getLast? with
    | none => rfl
    | some d => simp only [chunk_join _ _ _ h]
  by_cases hr : Ready g
  · simp only [run, step]
    rw [characters_eq g s hr, characters_eq g (s ++ t) hr]
    dsimp only
    rw [characters_eq _ t (writeTexts_ready _ _ hr)]
    dsimp only
    rw [writeTexts_location, ← writeTexts_append]
    obtain ⟨c, ev, o, m, p, l⟩ := g
    cases p <;> simp only [writeTexts, hw]
  · -- no dictionary to write to: nothing is written, or an exception is raised
    by_cases hpar : g.parent = .none
    · simp [run, step, characters, hpar]
    · have hset : ∀ v, setter g v [] = .error .indexError := by
        intro v
        obtain ⟨c, ev, o, m, p, l⟩ := g
        cases p <;> simp only [Ready, ne_eq, not_not] at hr hpar <;> simp_all [setter, updLast]
      have hall : ∀ u : List Char, characters g u = if strip u = [] then .ok g else .error .indexError := by
        intro u
        unfold characters
        by_cases hu : strip u = [] <;> simp [hu, hpar, hset]
      have hb : strip (s ++ t) = [] ↔ strip s = [] ∧ strip t = [] := by
        have hnil : ∀ u : List Char, strip u = [] ↔ ∀ c ∈ u, Blank c := by
          intro u
          refine ⟨fun hu => ?_, strip_blank⟩
          obtain ⟨a, b, e, ha, hb, _, _⟩ := strip_trimmed u
          rw [hu, List.append_nil] at e
          intro c hc
          rw [e] at hc
          rcases List.mem_append.1 hc with h | h
          · exact ha c h
          · exact hb c h
        simp only [hnil, List.mem_append]
        constructor
        · intro hh; exact ⟨fun c hc => hh c (Or.inl hc), fun c hc => hh c (Or.inr hc)⟩
        · rintro ⟨p1, p2⟩ c (hc | hc)
          · exact p1 c hc
          · exact p2 c hc
      simp only [run, step, hall]
      by_cases h1 : strip s = []
      · by_cases h2 : strip t = []
        · simp [h1, h2, hb.2 ⟨h1, h2⟩, hall]
        · have h3 : strip (s ++ t) ≠ [] := fun hc => h2 (hb.1 hc).2
          simp [h1, h2, h3, hall]
      · have h3 : strip (s ++ t) ≠ [] := fun hc => h1 (hb.1 hc).1
        simp [h1, h3]

/-- C47: the XML parser may deliver a text in several chunks: a good cut anywhere in any stream (also an
ill-formed one) does not change the result, exceptions included. -/
theorem C47_chunks (env : Env) (all quality : Bool) (xs ys : List Sax) (s t : List Char) (h : GoodCut s t)
    (e : Ending) :
    parseFile env all quality (xs ++ .chars s :: .chars t :: ys) e =
      parseFile env all quality (xs ++ .chars (s ++ t) :: ys) e := by
  have hx : xs ++ .chars s :: .chars t :: ys = xs ++ ([.chars s, .chars t] ++ ys) := by simp
  have hy : xs ++ .chars (s ++ t) :: ys = xs ++ ([.chars (s ++ t)] ++ ys) := by simp
  have key := run_cut env all quality s t h
  have : run env all quality {} (xs ++ .chars s :: .chars t :: ys) =
      run env all quality {} (xs ++ .chars (s ++ t) :: ys) := by
    rw [hx, hy, run_append, run_append]
    cases run env all quality {} xs with
    | error x => rfl
    | ok g =>
      dsimp only
      rw [run_append, run_append, key]
  simp only [parseFile, this]

/-- An event with a type, whose text comes in two chunks. -/
def typed (id : String) (s t : List Char) : Event :=
  { id := some id, items := [.plain (.elem "type" none (.text s (.text t .nil)) .nil)] }

theorem typed_plain (id : String) (s t : List Char) : (typed id s t).Plain := by
  intro i hi
  simp only [typed, List.mem_singleton] at hi
  subst hi
  simp [Item.Plain, Forest.Plain]

theorem typed_record (env : Env) (all quality : Bool) (id : String) (s t : List Char) (hs : strip s ≠ []) :
    ∃ r, parseFile env all quality (typed id s t).calls .complete = .ok [r] ∧
      r.get? "event_type" = some (some (String.ofList (strip s ++ strip t))) := by
  have h := run_event env all quality (typed id s t) (typed_plain id s t) []
  have ho : (typed id s t).origins = [] := by simp [typed, Event.origins, Item.originTexts]
  have hm : (typed id s t).magnitudes = [] := by simp [typed, Event.magnitudes, Item.magnitudeTexts]
  have htype : Dict.get? (dictOf (typed id s t).own) "type" = some (String.ofList (strip s ++ strip t)) := by
    rw [dictOf_holds]
    by_cases ht : strip t = []
    · simp [typed, Event.own, idText, Item.eventTexts, Forest.texts, hs, ht, textAt]
    · simp [typed, Event.own, idText, Item.eventTexts, Forest.texts, hs, ht, textAt]
  rw [ho, hm] at h
  have hp : ∃ r, parseToDict env (dictOf (typed id s t).own) [] [] all quality = .ok r ∧
      r.get? "event_type" = some (some (String.ofList (strip s ++ strip t))) := by
    simp only [parseToDict, selectOrigin, findById, filterPy, selectMagnitude, prefType, secondaries, List.length_nil,
      ne_eq, not_true_eq_false, false_and, if_false, extractSecondary, bind, Except.bind, pure, Except.pure, orDummy]
    refine ⟨_, rfl, ?_⟩
    rw [record_get _ _ _ _ _ WF_nil]
    have h1 : Dict.get? (extractMagnitude dummyMagnitude) "event_type" = none :=
      extract_other _ _ _ _ (by decide)
    have h2 : Dict.get? (extractOrigin dummyOrigin quality) "event_type" = none := by
      unfold extractOrigin
      cases quality
      · exact extract_other _ _ _ _ (by decide)
      · exact (extract_other _ _ _ _ (by decide)).trans (extract_other _ _ _ _ (by decide))
    rw [h1, h2]
    simp [Dict.get?, eventParams, eventMappings, htype]
  obtain ⟨r, h1, h2⟩ := hp
  refine ⟨r, ?_, h2⟩
  have h' : run env all quality {} (typed id s t).calls = .ok { catalog := [r] } := by
    have h3 : run env all quality { catalog := [] } (typed id s t).calls = _ := h
    rw [List.map_nil, h1] at h3
    exact h3
  simp [parseFile, h']

/-- C47, defect: white space at a cut inside a text is lost: the event type read from a text cut at white
space differs from the one read from the same text in one chunk. -/
theorem C47_defect_cut_at_space (env : Env) (all quality : Bool) (id : String) (s t : List Char)
    (hs : ∃ c ∈ s, ¬ Blank c) (ht : ∃ c ∈ t, ¬ Blank c) (h : ¬ GoodCut s t) :
    ∃ r r' : Rec, parseFile env all quality (typed id s t).calls .complete = .ok [r] ∧
      parseFile env all quality (typed id (s ++ t) []).calls .complete = .ok [r'] ∧
      r.get? "event_type" ≠ r'.get? "event_type" := by
  obtain ⟨a, b, e, ha, hb, h1, h2⟩ := strip_trimmed s
  obtain ⟨a', b', e', ha', hb', h1', h2'⟩ := strip_trimmed t
  have hs1 : strip s ≠ [] := by
    intro hc; rw [hc, List.append_nil] at e
    obtain ⟨c, hcm, hcb⟩ := hs
    rw [e] at hcm
    rcases List.mem_append.1 hcm with h | h
    · exact hcb (ha c h)
    · exact hcb (hb c h)
  have ht1 : strip t ≠ [] := by
    intro hc; rw [hc, List.append_nil] at e'
    obtain ⟨c, hcm, hcb⟩ := ht
    rw [e'] at hcm
    rcases List.mem_append.1 hcm with h | h
    · exact hcb (ha' c h)
    · exact hcb (hb' c h)
  have key : strip (s ++ t) = strip s ++ (b ++ a') ++ strip t := by
    conv_lhs => rw [e, e']
    rw [show a ++ strip s ++ b ++ (a' ++ strip t ++ b') = a ++ (strip s ++ (b ++ a') ++ strip t) ++ b' by
      simp [List.append_assoc]]
    apply strip_eq_of ha hb'
    · intro c hc
      rw [List.append_assoc, List.head?_append_of_ne_nil _ hs1] at hc
      exact h1 c hc
    · intro c hc
      rw [List.getLast?_append_of_ne_nil _ ht1] at hc
      exact h2' c hc
  have hne : b ++ a' ≠ [] := by
    intro hc
    obtain ⟨hb0, ha0⟩ := List.append_eq_nil_iff.1 hc
    apply h
    right; right
    constructor
    · intro c hc
      rw [e, hb0, List.append_nil, List.getLast?_append_of_ne_nil _ hs1] at hc
      exact h2 c hc
    · intro c hc
      rw [e', ha0, List.nil_append, List.head?_append_of_ne_nil _ ht1] at hc
      exact h1' c hc
  obtain ⟨r, hr, hr'⟩ := typed_record env all quality id s t hs1
  obtain ⟨q, hq, hq'⟩ := typed_record env all quality id (s ++ t) [] (by rw [key]; simp [hs1])
  refine ⟨r, q, hr, hq, ?_⟩
  rw [hr', hq', key]
  intro hc
  have hc' : strip s ++ strip t = strip s ++ (b ++ a') ++ strip t := by
    have hnil : strip [] = [] := strip_blank (by simp)
    rw [hnil, List.append_nil] at hc
    have := Option.some.inj (Option.some.inj hc)
    exact String.ofList_injective this
  have := congrArg List.length hc'
  simp only [List.length_append] at this
  have hl : (b ++ a').length ≠ 0 := by simpa using hne
  rw [List.length_append] at hl
  omega

/-- The hypotheses are met: "not " and "reported". -/
example : (∃ c ∈ "not ".toList, ¬ Blank c) ∧ (∃ c ∈ "reported".toList, ¬ Blank c) ∧
    ¬ GoodCut "not ".toList "reported".toList := by
  refine ⟨⟨'n', by simp, by simp [Blank, isSpace]⟩, ⟨'r', by simp, by simp [Blank, isSpace]⟩, ?_⟩
  rintro (h | h | ⟨h, _⟩)
  · have := h 'n' (by simp)
    simp [Blank, isSpace] at this
  · have := h 'r' (by simp)
    simp [Blank, isSpace] at this
  · exact h ' ' (by simp) (by simp [Blank, isSpace])

/-- Good cuts: "earth" and "quake", "earthquake" and a blank. -/
example : GoodCut "earth".toList "quake".toList ∧ GoodCut "earthquake".toList "\n ".toList := by
  constructor
  · right; right
    simp [Blank, isSpace]
  · right; left
    simp [Blank, isSpace]

/-- A document with two events, a preferred magnitude and text outside of the events: `C47_document`,
`C47_isolated` and `C47_truncated` apply to it. -/
example : (∀ p ∈ [Part.other (.start "quakeml" none), .other (.chars "\n".toList),
      .event { id := some "e1", items := [.plain (.elem "preferredMagnitudeID" none (.text "m1".toList .nil) .nil),
        .magnitude (some "m1") (.elem "mag" none (.elem "value" none (.text " 2.".toList (.text "5".toList .nil)) .nil)
          (.elem "type" none (.text "ML".toList .nil) .nil))] },
      .event (typed "e2" "quarry ".toList "blast".toList), .other (.stop "quakeml")], p.Ok) ∧
    ∃ (e : Event), e.magnitudes.map (fun l => textAt l "magnitudemagvalue") = [some "2.5"] := by
  refine ⟨?_, ?_⟩
  · intro p hp
    simp only [List.mem_cons, List.not_mem_nil, or_false] at hp
    rcases hp with rfl | rfl | rfl | rfl | rfl
    · simp [Part.Ok, Outside]
    · simp [Part.Ok, Outside]
    · simp [Part.Ok, Event.Plain, Item.Plain, Forest.Plain]
    · exact typed_plain _ _ _
    · simp [Part.Ok, Outside]
  · refine ⟨{ id := none, items := [.magnitude (some "m1") (.elem "mag" none (.elem "value" none (.text " 2.".toList (.text "5".toList .nil)) .nil) .nil)] }, ?_⟩
    decide

end SeismoStats.Props
