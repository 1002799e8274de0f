/-
Reading of whole documents and of their initial parts at the level of characters (Model/XmlText.lean, Model/QuakemlText.lean).
-/
import Verif.Proofs.XmlRead

namespace SeismoStats.XmlText
open SeismoStats SeismoStats.Parser SeismoStats.QuakemlText SeismoStats.Spec.Parser SeismoStats.Props

/-- The reader at the beginning. -/
def init : L := L.mk (.text []) [] false []

theorem lex_pending (bufs : List (List Char)) : (lex bufs).mode.pending = [] := by
  unfold lex
  induction bufs using List.reverseRecOn with
  | nil => rfl
  | append_singleton bufs b _ =>
    rw [List.foldl_append]
    show (L.flush _).mode.pending = []
    unfold L.flush
    split <;> try rfl
    rename_i h1 h2
    cases h : (List.foldl L.step (List.foldl L.buffer {} bufs) b).mode <;> simp_all [Mode.pending]

/-- Character data is delivered in one piece, or no word has white space in it. -/
def Deliver (bufs : List (List Char)) (Y : List Sax) : Prop :=
  (bufs.length ≤ 1 ∧ ∃ n, scanAll oneWord false Y = some n) ∨ ∃ w, scanAll noGap .before Y = some w

theorem run_nil_chars (env : Env) (all quality : Bool) (g : H) (r : List Sax) : run env all quality g (.chars [] :: r) = run env all quality g r := by
  rw [← run_charsCall]
  rfl

/-- What the handler makes of a text, in buffers. -/
theorem run_lex (env : Env) (all quality : Bool) (bufs : List (List Char)) (Y : List Sax) (h1 : (init.feed bufs.flatten).mode = .text (merge [] Y).2)
    (h2 : (init.feed bufs.flatten).calls = (merge [] Y).1) (hd : Deliver bufs Y) (g : H) :
    run env all quality g (lex bufs).calls = run env all quality g Y := by
  rcases hd with ⟨hl, n, hn⟩ | ⟨w, hw⟩
  · have e : (lex bufs).calls = (merge [] Y).1 ++ charsCall (merge [] Y).2 := by
      match bufs, hl with
      | [], _ =>
        have h3 : (merge [] Y).2 = [] := by
          have : Mode.text [] = Mode.text (merge [] Y).2 := h1
          cases e : (merge [] Y).2 with
          | nil => rfl
          | cons a b => rw [e] at this; cases this
        rw [h3]
        have h2' : [] = (merge [] Y).1 := h2
        rw [← h2']
        rfl
      | [b], _ =>
        rw [List.flatten_singleton] at h1 h2
        show ((init.feed b).flush).calls = _
        unfold L.flush
        rw [h1]
        dsimp only
        rw [h2]
    rw [e, run_merge env all quality Y [] false (by simp) hn, run_nil_chars]
  · apply run_of_explode env all quality _ _ _ hw
    have hs := lex_same bufs
    rcases hs with ⟨_, h'⟩ | ⟨_, _, _, h4⟩
    · have : (init.feed bufs.flatten).mode = .bad := h'
      rw [h1] at this
      cases this
    · have h5 : (lex bufs).flat = (init.feed bufs.flatten).flat := h4
      unfold L.flat at h5
      rw [lex_pending, h1, h2] at h5
      rw [explode_append] at h5
      have : explode (charsCall []) = [] := rfl
      rw [this, List.append_nil] at h5
      rw [h5]
      exact (explode_merge Y []).trans (by simp)

theorem lex_ending (bufs : List (List Char)) : (lex bufs).ending = (init.feed bufs.flatten).ending := same_ending (lex_same bufs)

/-! ### Tags -/

/-- Within a tag or a processing instruction. -/
def Mode.inTag : Mode → Prop
  | .text _ => False
  | .ref _ _ => False
  | .bad => False
  | _ => True

theorem tag_step (l : L) (c : Char) (h : l.mode.inTag) (hc : c ≠ '>') : ((l.step c).mode.inTag ∧ (l.step c).calls = l.calls ∧ (l.step c).stack = l.stack) ∨ (l.step c).mode = .bad := by
  obtain ⟨m, st, d, calls⟩ := l
  cases m <;> simp only [Mode.inTag] at h <;> simp only [L.step, L.inSpace, L.inValue, L.fail, hc, if_false] <;>
    (repeat' split) <;> simp_all [Mode.inTag]

theorem bad_feed {l : L} (h : l.mode = .bad) (s : List Char) : (l.feed s).mode = .bad := by
  induction s generalizing l with
  | nil => exact h
  | cons c s ih => rw [feed_cons, step_bad h]; exact ih h

theorem tag_feed (s : List Char) (l : L) (h : l.mode.inTag) (hs : '>' ∉ s) : ((l.feed s).mode.inTag ∧ (l.feed s).calls = l.calls ∧ (l.feed s).stack = l.stack) ∨ (l.feed s).mode = .bad := by
  induction s generalizing l with
  | nil => exact .inl ⟨h, rfl, rfl⟩
  | cons c s ih =>
    rw [List.mem_cons, not_or] at hs
    rw [feed_cons]
    rcases tag_step l c h (fun e => hs.1 e.symm) with ⟨h1, h2, h3⟩ | hb
    · rcases ih _ h1 hs.2 with ⟨g1, g2, g3⟩ | hb
      · exact .inl ⟨g1, g2.trans h2, g3.trans h3⟩
      · exact .inr hb
    · exact .inr (bad_feed hb s)

/-- A proper beginning of a tag. -/
theorem tag_prefix (acc : List Char) (st : List String) (d : Bool) (calls : List Sax) (x y r : List Char) (hx : y = x ++ r) (hy : y.head? = some '<') (hx0 : x ≠ [])
    (hgt : '>' ∉ x) (hok : ((L.mk (.text acc) st d calls).feed y).mode ≠ .bad) :
    ((L.mk (.text acc) st d calls).feed x).mode.inTag := by
  cases x with
  | nil => exact absurd rfl hx0
  | cons c x =>
    subst hx
    simp only [List.cons_append, List.head?_cons, Option.some.injEq] at hy
    subst hy
    rw [List.cons_append, feed_cons] at hok
    rw [feed_cons]
    have h1 : ((L.mk (.text acc) st d calls).step '<').mode.inTag := by
      simp [L.step, L.inText, Mode.inTag]
    rcases tag_feed x _ h1 (fun h => hgt (by simp [h])) with ⟨g, -, -⟩ | hb
    · exact g
    · exfalso
      apply hok
      rw [feed_append]
      exact bad_feed hb r

/-! ### `done` -/

/-- The root is closed only if no element is open, and stays closed. -/
def Inv (l l' : L) : Prop := (l'.done = true → l'.stack = []) ∧ (l.done = true → l'.done = true)

theorem inv_same {l l' : L} (h : l.done = true → l.stack = []) (h1 : l'.done = l.done) (h2 : l'.stack = l.stack) : Inv l l' := by
  unfold Inv
  rw [h1, h2]
  exact ⟨h, id⟩

theorem inv_opened (l : L) (t : Tag) (h : l.done = true → l.stack = []) : Inv l (l.opened t) := by
  unfold L.opened
  split
  · exact inv_same h rfl rfl
  · rename_i hd
    exact ⟨fun h => absurd h hd, fun h => h⟩

theorem inv_closed (l : L) (n : List Char) (h : l.done = true → l.stack = []) : Inv l (l.closed n) := by
  unfold L.closed
  split
  · exact inv_same h rfl rfl
  · rename_i t r hs
    split
    · refine ⟨fun h => of_decide_eq_true h, fun hd => ?_⟩
      rw [h hd] at hs
      cases hs
    · exact inv_same h rfl rfl

theorem inv_trans {a b c : L} (h1 : Inv a b) (h2 : Inv b c) : Inv a c := ⟨h2.1, fun h => h2.2 (h1.2 h)⟩

theorem inv_space (l : L) (t : Tag) (c : Char) (h : l.done = true → l.stack = []) : Inv l (l.inSpace t c) := by
  unfold L.inSpace
  repeat' split
  all_goals first | exact inv_same h rfl rfl | exact inv_opened l t h

theorem done_step (l : L) (c : Char) (h : l.done = true → l.stack = []) : Inv l (l.step c) := by
  unfold L.step L.inText L.inValue
  repeat' split
  all_goals first
    | exact inv_same h rfl rfl
    | exact inv_opened l _ h
    | exact inv_closed l _ h
    | exact inv_space l _ c h
    | exact inv_trans (inv_opened l _ h) (inv_closed _ _ (inv_opened l _ h).1)

theorem done_feed (s : List Char) (l : L) (h : l.done = true → l.stack = []) : ((l.feed s).done = true → (l.feed s).stack = []) ∧ (l.done = true → (l.feed s).done = true) := by
  induction s generalizing l with
  | nil => exact ⟨h, id⟩
  | cons c s ih =>
    rw [feed_cons]
    have h1 := done_step l c h
    have h2 := ih _ h1.1
    exact ⟨h2.1, fun hd => h2.2 (h1.2 hd)⟩

/-- The root is closed in no proper beginning of a text after which it is still open. -/
theorem not_done {s t : List Char} (h : ((init.feed (s ++ t))).done = false) : (init.feed s).done = false := by
  have h1 := (done_feed s init (by intro h; cases h)).1
  have h2 := (done_feed t (init.feed s) h1).2
  rw [feed_append] at h
  cases hd : (init.feed s).done with
  | false => rfl
  | true => rw [h2 hd] at h; cases h

/-! ### The document -/

/-- The calls before the events. -/
def headCalls : List Sax :=
  [.start "q:quakeml" none, .chars (nl 4), .start "eventParameters" (some "smi:org.gfz-potsdam.de/geofon/EventParameters"), .chars sep]

/-- The calls of an event with the white space around it. -/
def block (e : Event) : List Sax := .chars sep :: (e.calls ++ [.chars sep])

/-- The calls after the events. -/
def footCalls : List Sax := [.chars sep, .stop "eventParameters", .chars (nl 0), .stop "q:quakeml"]

/-- The calls after the root element has begun. -/
def innerCalls (l : List Event) : List Sax := (l.map block).flatten ++ footCalls

/-- All calls. -/
def allCalls (l : List Event) : List Sax := headCalls ++ innerCalls l

theorem showCalls_append (a b : List Sax) : showCalls (a ++ b) = showCalls a ++ showCalls b := by
  unfold showCalls
  rw [List.map_append, List.flatten_append]

theorem showCalls_flatten (l : List (List Sax)) : showCalls l.flatten = (l.map showCalls).flatten := by
  induction l with
  | nil => rfl
  | cons a l ih => rw [List.flatten_cons, showCalls_append, ih]; rfl

theorem footer_eq : footer = showCalls footCalls := by decide

theorem docText_eq (l : List Event) : docText l = header ++ showCalls (innerCalls l) := by
  unfold docText innerCalls
  rw [showCalls_append, ← footer_eq, showCalls_flatten, List.map_map, List.append_assoc]
  congr 3
  apply List.map_congr_left
  intro e _
  simp only [Function.comp_apply, block]
  show _ = showCalls ([.chars sep] ++ (e.calls ++ [.chars sep]))
  rw [showCalls_append, showCalls_append]
  simp [showCalls, showSax]

set_option maxRecDepth 100000 in
theorem header_feed : init.feed header =
    L.mk (.text sep) ["eventParameters", "q:quakeml"] false [.start "q:quakeml" none, .chars (nl 4), .start "eventParameters" (some "smi:org.gfz-potsdam.de/geofon/EventParameters")] := by
  rfl

theorem merge_head (R : List Sax) : merge [] (headCalls ++ R) =
    ([.start "q:quakeml" none, .chars (nl 4), .start "eventParameters" (some "smi:org.gfz-potsdam.de/geofon/EventParameters")] ++ (merge sep R).1, (merge sep R).2) := rfl

/-- All but the last call. -/
def mid (l : List Event) : List Sax := (l.map block).flatten ++ [.chars sep, .stop "eventParameters", .chars (nl 0)]

theorem inner_mid (l : List Event) : innerCalls l = mid l ++ [.stop "q:quakeml"] := by
  unfold innerCalls mid footCalls
  rw [List.append_assoc]
  rfl

/-- The text of a call, checked. -/
def isNameB : List Char → Bool
  | [] => false
  | c :: r => isNameStart c && r.all isNameChar

theorem isName_of {s : List Char} (h : isNameB s = true) : IsName s := by
  cases s with
  | nil => cases h
  | cons c r =>
    rw [isNameB, Bool.and_eq_true, List.all_eq_true] at h
    exact ⟨c, r, rfl, h.1, h.2⟩

theorem sep_text : ∀ c ∈ sep, TextChar c := by
  intro c hc
  simp only [sep, nl, List.mem_cons, List.mem_replicate] at hc
  rcases hc with rfl | rfl | ⟨_, rfl⟩
  · left; unfold Plain; decide
  · right; rfl
  · left; unfold Plain; decide

theorem sep_blank : ∀ c ∈ sep, Blank c := by
  intro c hc
  simp only [sep, nl, List.mem_cons, List.mem_replicate] at hc
  rcases hc with rfl | rfl | ⟨_, rfl⟩ <;> (unfold Blank; decide)

theorem nl_text (n : ℕ) : ∀ c ∈ nl n, TextChar c := by
  intro c hc
  simp only [nl, List.mem_cons, List.mem_replicate] at hc
  rcases hc with rfl | ⟨_, rfl⟩
  · right; rfl
  · left; unfold Plain; decide

theorem nl_blank (n : ℕ) : ∀ c ∈ nl n, Blank c := by
  intro c hc
  simp only [nl, List.mem_cons, List.mem_replicate] at hc
  rcases hc with rfl | ⟨_, rfl⟩ <;> (unfold Blank; decide)

theorem nice_block {St : Type} {σ : Scan St} {e : Event} (h : Nice σ e.calls) : Nice σ (block e) :=
  nice_append (a := [.chars sep]) (nice_ws sep_text sep_blank) (nice_append h (nice_ws sep_text sep_blank))

theorem nice_blocks {St : Type} {σ : Scan St} {l : List Event} (h : ∀ e ∈ l, Nice σ e.calls) : Nice σ (l.map block).flatten := by
  apply nice_flatten
  intro a ha
  obtain ⟨e, he, rfl⟩ := List.mem_map.1 ha
  exact nice_block (h e he)

theorem mid_ok {St : Type} {σ : Scan St} {l : List Event} (h : ∀ e ∈ l, Nice σ e.calls) :
    (∀ x ∈ mid l, OkCall x) ∧ nest ["eventParameters"] (mid l) = some [] := by
  have hb := nice_blocks h
  constructor
  · intro x hx
    rcases List.mem_append.1 hx with hx | hx
    · exact hb.ok x hx
    · simp only [List.mem_cons, List.not_mem_nil, or_false] at hx
      rcases hx with rfl | rfl | rfl
      · exact sep_text
      · exact isName_of (by decide)
      · exact nl_text 0
  · unfold mid
    rw [nest_append, hb.nested]
    rfl

theorem inner_ok {St : Type} {σ : Scan St} {l : List Event} (h : ∀ e ∈ l, Nice σ e.calls) : ∀ x ∈ innerCalls l, OkCall x := by
  intro x hx
  rw [inner_mid] at hx
  rcases List.mem_append.1 hx with hx | hx
  · exact (mid_ok h).1 x hx
  · rw [List.mem_singleton] at hx
    subst hx
    exact isName_of (by decide)

/-- The reader after the header and some of the following calls. -/
theorem prefix_feed {St : Type} {σ : Scan St} {l : List Event} (h : ∀ e ∈ l, Nice σ e.calls) (R1 R2 : List Sax) (hR : R1 ++ R2 = mid l) :
    ∃ st, nest ["eventParameters"] R1 = some st ∧ init.feed (header ++ showCalls R1) =
      L.mk (.text (merge [] (headCalls ++ R1)).2) (st ++ ["q:quakeml"]) false (merge [] (headCalls ++ R1)).1 := by
  obtain ⟨h1, h2⟩ := mid_ok h
  rw [← hR, nest_append] at h2
  cases hn : nest ["eventParameters"] R1 with
  | none => rw [hn] at h2; cases h2
  | some st =>
    refine ⟨st, rfl, ?_⟩
    rw [feed_append, header_feed, merge_head]
    exact feed_calls R1 (fun x hx => h1 x (by rw [← hR]; simp [hx])) sep ["eventParameters"] ["q:quakeml"] (by simp) _ st hn

/-- The reader after a document. -/
theorem doc_feed {St : Type} {σ : Scan St} {l : List Event} (h : ∀ e ∈ l, Nice σ e.calls) :
    init.feed (docText l) = L.mk (.text []) [] true (merge [] (allCalls l)).1 ∧ (merge [] (allCalls l)).2 = [] := by
  obtain ⟨st, h1, h2⟩ := prefix_feed h (mid l) [] (List.append_nil _)
  rw [(mid_ok h).2] at h1
  cases h1
  have e : allCalls l = (headCalls ++ mid l) ++ [.stop "q:quakeml"] := by unfold allCalls; rw [inner_mid, List.append_assoc]
  rw [docText_eq, inner_mid, showCalls_append, ← List.append_assoc, feed_append, h2, e, merge_append (headCalls ++ mid l)]
  constructor
  · have := feed_stop (merge [] (headCalls ++ mid l)).2 [] (merge [] (headCalls ++ mid l)).1 "q:quakeml" (isName_of (by decide))
    have e2 : showCalls [.stop "q:quakeml"] = showSax (.stop "q:quakeml") := by simp [showCalls]
    rw [e2]
    rw [List.nil_append]
    rw [this]
    simp [merge]
  · rfl

/-- The last character of a document closes the root. -/
theorem doc_last {St : Type} {σ : Scan St} {l : List Event} (h : ∀ e ∈ l, Nice σ e.calls) :
    ∃ D, docText l = D ++ ['>'] ∧ (init.feed D).done = false := by
  obtain ⟨st, h1, h2⟩ := prefix_feed h (mid l) [] (List.append_nil _)
  rw [(mid_ok h).2] at h1
  cases h1
  refine ⟨header ++ showCalls (mid l) ++ "</q:quakeml".toList, ?_, ?_⟩
  · rw [docText_eq, inner_mid, showCalls_append]
    have e2 : showCalls [.stop "q:quakeml"] = "</q:quakeml".toList ++ ['>'] := by decide
    rw [e2]
    simp only [List.append_assoc]
  · rw [feed_append, h2]
    rfl

end SeismoStats.XmlText
