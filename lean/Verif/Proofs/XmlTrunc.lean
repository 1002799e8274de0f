/-
The handler on the calls of the beginning of a document.
-/
import Verif.Proofs.XmlCut

namespace SeismoStats.XmlText
open SeismoStats SeismoStats.Parser SeismoStats.QuakemlText SeismoStats.Spec.Parser SeismoStats.Props

/-! ### The handler does not raise within an event -/

/-- Within an event. -/
structure Sane (h : H) : Prop where
  event : h.event ≠ []
  origin : h.parent = .origin → h.origin ≠ []
  magnitude : h.parent = .magnitude → h.magnitude ≠ []

theorem updLast_ok {l : List Elem} (hl : l ≠ []) {f : Elem → Py Elem} (hf : ∀ d, l.getLast? = some d → ∃ d', f d = .ok d') :
    ∃ l', updLast l f = .ok l' ∧ l' ≠ [] := by
  unfold updLast
  cases e : l.getLast? with
  | none => rw [List.getLast?_eq_none_iff] at e; exact absurd e hl
  | some d =>
    obtain ⟨d', hd⟩ := hf d e
    dsimp only
    rw [hd]
    exact ⟨_, rfl, by simp⟩

theorem setVal_chars (d : Elem) (loc : List Char) (v : String) : ∃ d', setVal d loc [] v = .ok d' := by
  unfold setVal
  rw [List.append_nil]
  split
  · rename_i h
    unfold Dict.has at h
    cases e : Dict.get? d (String.ofList loc) with
    | none => rw [e] at h; cases h
    | some old => exact ⟨_, rfl⟩
  · exact ⟨_, rfl⟩

theorem sane_setter {h : H} (hs : Sane h) (hp : h.parent ≠ .none) (v : String) (add : List Char)
    (hf : ∀ d, (∃ l : List Elem, (l = h.event ∧ h.parent = .event ∨ l = h.origin ∧ h.parent = .origin ∨ l = h.magnitude ∧ h.parent = .magnitude) ∧ l.getLast? = some d) →
      ∃ d', setVal d h.location add v = .ok d') : ∃ g, setter h v add = .ok g ∧ Sane g := by
  unfold setter
  cases e : h.parent with
  | none => exact absurd e hp
  | event =>
    obtain ⟨l, h1, h2⟩ := updLast_ok hs.event (f := fun d => setVal d h.location add v) (fun d hd => hf d ⟨_, .inl ⟨rfl, e⟩, hd⟩)
    dsimp only
    rw [h1]
    exact ⟨_, rfl, h2, fun hc => (by cases hc), fun hc => (by cases hc)⟩
  | origin =>
    obtain ⟨l, h1, h2⟩ := updLast_ok (hs.origin e) (f := fun d => setVal d h.location add v) (fun d hd => hf d ⟨_, .inr (.inl ⟨rfl, e⟩), hd⟩)
    dsimp only
    rw [h1]
    exact ⟨_, rfl, hs.event, fun _ => h2, fun hc => (by cases hc)⟩
  | magnitude =>
    obtain ⟨l, h1, h2⟩ := updLast_ok (hs.magnitude e) (f := fun d => setVal d h.location add v) (fun d hd => hf d ⟨_, .inr (.inr ⟨rfl, e⟩), hd⟩)
    dsimp only
    rw [h1]
    exact ⟨_, rfl, hs.event, fun hc => (by cases hc), fun _ => h2⟩

theorem setVal_empty (loc add : List Char) (v : String) : ∃ d', setVal ([] : Elem) loc add v = .ok d' := by
  unfold setVal
  have : Dict.has ([] : Elem) (String.ofList loc) = false := rfl
  rw [this]
  exact ⟨_, rfl⟩

theorem sane_setId {h : H} (hs : Sane h) (hp : h.parent ≠ .none) (id : Option String)
    (hl : ∀ l : List Elem, (l = h.event ∧ h.parent = .event ∨ l = h.origin ∧ h.parent = .origin ∨ l = h.magnitude ∧ h.parent = .magnitude) → l.getLast? = some []) :
    ∃ g, setId h id = .ok g ∧ Sane g := by
  unfold setId
  cases id with
  | none => exact ⟨h, rfl, hs⟩
  | some v =>
    apply sane_setter hs hp
    rintro d ⟨l, h1, h2⟩
    rw [hl l h1] at h2
    cases h2
    exact setVal_empty _ _ _

theorem sane_start {h : H} (tag : String) (id : Option String) (hs : Sane h ∨ tag = "event") : ∃ g, startElement h tag id = .ok g ∧ Sane g := by
  unfold startElement
  by_cases h1 : tag = "event"
  · rw [if_pos h1]
    apply sane_setId
    · exact ⟨by simp, fun hc => by simp at hc, fun hc => by simp at hc⟩
    · simp
    · rintro l (⟨rfl, _⟩ | ⟨_, hc⟩ | ⟨_, hc⟩)
      · simp
      · cases hc
      · cases hc
  · have hs : Sane h := hs.resolve_right h1
    rw [if_neg h1]
    by_cases h2 : tag = "origin"
    · rw [if_pos h2]
      apply sane_setId
      · exact ⟨hs.event, fun _ => by simp, fun hc => by simp at hc⟩
      · simp
      · rintro l (⟨_, hc⟩ | ⟨rfl, _⟩ | ⟨_, hc⟩)
        · cases hc
        · simp
        · cases hc
    · rw [if_neg h2]
      by_cases h3 : tag = "magnitude"
      · rw [if_pos h3]
        apply sane_setId
        · exact ⟨hs.event, fun hc => by simp at hc, fun _ => by simp⟩
        · simp
        · rintro l (⟨_, hc⟩ | ⟨_, hc⟩ | ⟨rfl, _⟩)
          · cases hc
          · cases hc
          · simp
      · rw [if_neg h3]
        by_cases h4 : h.parent ≠ .none
        · rw [if_pos h4]
          exact ⟨_, rfl, hs.event, hs.origin, hs.magnitude⟩
        · rw [if_neg h4]
          exact ⟨_, rfl, hs⟩

theorem sane_shorten {h : H} (hs : Sane h) (tag : String) : Sane (shorten h tag) := by
  unfold shorten
  split
  · exact ⟨hs.event, hs.origin, hs.magnitude⟩
  · exact hs

theorem sane_step (env : Env) (all quality : Bool) {h : H} (hs : Sane h) (x : Sax) (hx : isEnd x = false) : ∃ g, step env all quality h x = .ok g ∧ Sane g := by
  cases x with
  | start tag id => exact sane_start tag id (.inl hs)
  | stop tag =>
    have h1 : tag ≠ "event" := by simpa [isEnd] using hx
    unfold step endElement
    dsimp only
    rw [if_neg h1]
    by_cases h2 : tag = "origin" ∨ tag = "magnitude"
    · rw [if_pos h2]
      exact ⟨_, rfl, sane_shorten (h := { h with parent := .event }) ⟨hs.event, fun hc => (by cases hc), fun hc => (by cases hc)⟩ tag⟩
    · rw [if_neg h2]
      exact ⟨_, rfl, sane_shorten hs tag⟩
  | chars s =>
    unfold step characters
    dsimp only
    by_cases hc : strip s ≠ [] ∧ h.parent ≠ .none
    · rw [if_pos hc]
      exact sane_setter hs hc.2 _ _ fun d _ => setVal_chars _ _ _
    · rw [if_neg hc]
      exact ⟨_, rfl, hs⟩

theorem sane_run (env : Env) (all quality : Bool) (xs : List Sax) (hx : ∀ x ∈ xs, isEnd x = false) {h : H} (hs : Sane h) :
    ∃ g, run env all quality h xs = .ok g := by
  induction xs generalizing h with
  | nil => exact ⟨h, rfl⟩
  | cons x xs ih =>
    obtain ⟨g, h1, h2⟩ := sane_step env all quality hs x (hx x (by simp))
    rw [run, h1]
    exact ih (fun y hy => hx y (by simp [hy])) h2

theorem run_outsides (env : Env) (all quality : Bool) (xs : List Sax) (hx : ∀ x ∈ xs, Outside x) (c : List Rec) :
    run env all quality { catalog := c } xs = .ok { catalog := c } := by
  induction xs with
  | nil => rfl
  | cons x xs ih =>
    rw [run, run_outside env all quality c x (hx x (by simp))]
    exact ih fun y hy => hx y (by simp [hy])

/-! ### Beginnings of documents -/

/-- The record of an event. -/
noncomputable def recOf (env : Env) (all quality : Bool) (e : Event) : Py Rec :=
  parseToDict env (dictOf e.own) (e.origins.map dictOf) (e.magnitudes.map dictOf) all quality

/-- The calls up to the end of the event `e` after the events `l`. -/
def upTo (l : List Event) (e : Event) : List Sax := (l.map block).flatten ++ .chars sep :: e.calls

theorem upTo_cons (a : Event) (l : List Event) (e : Event) : upTo (a :: l) e = block a ++ upTo l e := by
  unfold upTo
  rw [List.map_cons, List.flatten_cons, List.append_assoc]

theorem items_no_end (e : Event) (he : e.Plain) : ∀ x ∈ itemsCalls e.items, isEnd x = false := by
  intro x hx
  unfold itemsCalls at hx
  obtain ⟨l, hl, hx⟩ := List.mem_flatten.1 hx
  obtain ⟨i, hi, rfl⟩ := List.mem_map.1 hl
  exact item_no_end i (he i hi) x hx

theorem run_block (env : Env) (all quality : Bool) (e : Event) (he : e.Plain) (c : List Rec) (r : Rec) (hr : recOf env all quality e = .ok r) (xs : List Sax) :
    run env all quality { catalog := c } (block e ++ xs) = run env all quality { catalog := c ++ [r] } xs := by
  have h1 : run env all quality { catalog := c } (block e) = .ok { catalog := c ++ [r] } := by
    unfold block
    rw [run, run_outside env all quality c (.chars sep) trivial]
    dsimp only
    rw [run_append, run_event env all quality e he]
    unfold recOf at hr
    rw [hr]
    exact run_outsides env all quality _ (by simp [Outside]) _
  rw [run_append, h1]

/-- The handler on the calls of a beginning of a document, with some last characters. -/
theorem trunc_run (env : Env) (all quality : Bool) (es : List Event) (hp : ∀ e ∈ es, e.Plain) (recs : List Rec) (hr : es.mapM (recOf env all quality) = .ok recs)
    (c : List Rec) (R1 : List Sax) (hR : R1 <+: innerCalls es) (x : List Char) :
    ∃ k g, k ≤ es.length ∧ run env all quality { catalog := c } (R1 ++ [.chars x]) = .ok g ∧ g.catalog = c ++ recs.take k ∧
      ∀ j e, es[j]? = some e → (upTo (es.take j) e <+: R1 ↔ j < k) := by
  induction es generalizing c R1 recs with
  | nil =>
    refine ⟨0, _, le_refl _, run_outsides env all quality _ ?_ c, by simp, by simp⟩
    intro y hy
    rcases List.mem_append.1 hy with hy | hy
    · have := hR.subset hy
      unfold innerCalls footCalls at this
      simp only [List.map_nil, List.flatten_nil, List.nil_append, List.mem_cons, List.not_mem_nil, or_false] at this
      rcases this with rfl | rfl | rfl | rfl
      · trivial
      · exact ⟨by decide, by decide, by decide⟩
      · trivial
      · exact ⟨by decide, by decide, by decide⟩
    · rw [List.mem_singleton] at hy
      subst hy
      trivial
  | cons e es ih =>
    have he := hp e (by simp)
    obtain ⟨r, recs', hr1, hr2, rfl⟩ : ∃ r recs', recOf env all quality e = .ok r ∧ es.mapM (recOf env all quality) = .ok recs' ∧ recs = r :: recs' := by
      rw [List.mapM_cons] at hr
      cases e1 : recOf env all quality e with
      | error er => rw [e1] at hr; cases hr
      | ok r =>
        cases e2 : es.mapM (recOf env all quality) with
        | error er => rw [e1, e2] at hr; cases hr
        | ok recs' =>
          rw [e1, e2] at hr
          cases hr
          exact ⟨r, recs', rfl, rfl, rfl⟩
    have hin : innerCalls (e :: es) = block e ++ innerCalls es := by
      unfold innerCalls
      rw [List.map_cons, List.flatten_cons, List.append_assoc]
    rw [hin] at hR
    rcases prefix_split hR with hR | ⟨Q, rfl, hQ⟩
    · -- within the first event
      have hlong : ∀ j a, (e :: es)[j + 1]? = some a → ¬ upTo ((e :: es).take (j + 1)) a <+: R1 := by
        intro j a _ hc
        have h1 := hc.length_le.trans hR.length_le
        rw [List.take_succ_cons, upTo_cons] at h1
        simp only [List.length_append, upTo, List.length_cons] at h1
        omega
      have hb : block e = (.chars sep :: .start "event" e.id :: itemsCalls e.items) ++ [.stop "event", .chars sep] := by
        unfold block Event.calls
        simp
      have hu0 : ∀ a, (e :: es)[0]? = some a → upTo ((e :: es).take 0) a = .chars sep :: e.calls := by
        intro a ha
        cases ha
        rfl
      have hcl : (Sax.chars sep :: e.calls) = (.chars sep :: .start "event" e.id :: itemsCalls e.items) ++ [.stop "event"] := by
        unfold Event.calls
        simp
      have open' : R1 <+: (.chars sep :: .start "event" e.id :: itemsCalls e.items) →
          ∃ k g, k ≤ (e :: es).length ∧ run env all quality { catalog := c } (R1 ++ [.chars x]) = .ok g ∧ g.catalog = c ++ (r :: recs').take k ∧
            ∀ j a, (e :: es)[j]? = some a → (upTo ((e :: es).take j) a <+: R1 ↔ j < k) := by
        intro hA
        obtain ⟨g, hg⟩ : ∃ g, run env all quality { catalog := c } (R1 ++ [.chars x]) = .ok g := by
          cases R1 with
          | nil => exact ⟨_, run_outsides env all quality _ (by simp [Outside]) c⟩
          | cons a R1 =>
            rw [List.cons_prefix_cons] at hA
            obtain ⟨rfl, hA⟩ := hA
            rw [List.cons_append, run, run_outside env all quality c (.chars sep) trivial]
            dsimp only
            cases R1 with
            | nil => exact ⟨_, run_outsides env all quality _ (by simp [Outside]) c⟩
            | cons b R1 =>
              rw [List.cons_prefix_cons] at hA
              obtain ⟨rfl, hA⟩ := hA
              obtain ⟨g, h1, h2⟩ := sane_start (h := { catalog := c }) "event" e.id (.inr rfl)
              rw [List.cons_append, run]
              have : step env all quality { catalog := c } (.start "event" e.id) = .ok g := h1
              rw [this]
              apply sane_run env all quality _ _ h2
              intro y hy
              rcases List.mem_append.1 hy with hy | hy
              · exact items_no_end e he y (hA.subset hy)
              · rw [List.mem_singleton] at hy
                subst hy
                rfl
        refine ⟨0, g, Nat.zero_le _, hg, ?_, ?_⟩
        · rw [List.take_zero, List.append_nil]
          apply run_catalog env all quality { catalog := c } g _ _ rfl hg
          intro y hy
          rcases List.mem_append.1 hy with hy | hy
          · have := hA.subset hy
            rcases List.mem_cons.1 this with rfl | this
            · rfl
            · rcases List.mem_cons.1 this with rfl | this
              · rfl
              · exact items_no_end e he y this
          · rw [List.mem_singleton] at hy
            subst hy
            rfl
        · intro j a ha
          simp only [Nat.not_lt_zero, iff_false]
          cases j with
          | succ j => exact hlong j a ha
          | zero =>
            rw [hu0 a ha, hcl]
            intro hc
            have := hc.length_le.trans hA.length_le
            simp at this
      have closed' : ∀ Q, R1 = (.chars sep :: e.calls) ++ Q → (∀ y ∈ Q, Outside y) →
          ∃ k g, k ≤ (e :: es).length ∧ run env all quality { catalog := c } (R1 ++ [.chars x]) = .ok g ∧ g.catalog = c ++ (r :: recs').take k ∧
            ∀ j a, (e :: es)[j]? = some a → (upTo ((e :: es).take j) a <+: R1 ↔ j < k) := by
        intro Q hQ hout
        refine ⟨1, { catalog := c ++ [r] }, by simp, ?_, by simp, ?_⟩
        · rw [hQ, List.append_assoc, List.cons_append, run, run_outside env all quality c (.chars sep) trivial]
          dsimp only
          rw [run_append, run_event env all quality e he]
          unfold recOf at hr1
          rw [hr1]
          apply run_outsides
          intro y hy
          rcases List.mem_append.1 hy with hy | hy
          · exact hout y hy
          · rw [List.mem_singleton] at hy
            subst hy
            trivial
        · intro j a ha
          cases j with
          | succ j =>
            constructor
            · intro hc; exact absurd hc (hlong j a ha)
            · intro hc; omega
          | zero =>
            rw [hu0 a ha, hQ]
            exact ⟨fun _ => Nat.one_pos, fun _ => List.prefix_append _ _⟩
      rw [hb] at hR
      rcases prefix_split hR with hA | ⟨Q, hQ1, hQ⟩
      · exact open' hA
      · cases Q with
        | nil =>
          apply open'
          rw [hQ1, List.append_nil]
        | cons q Q =>
          rw [List.cons_prefix_cons] at hQ
          obtain ⟨rfl, hQ⟩ := hQ
          apply closed' Q
          · rw [hQ1, hcl, List.append_assoc]
            rfl
          · intro y hy
            have := hQ.subset hy
            rw [List.mem_singleton] at this
            subst this
            trivial
    · -- after the first event
      obtain ⟨k, g, h1, h2, h3, h4⟩ := ih (fun a ha => hp a (by simp [ha])) recs' hr2 (c ++ [r]) Q hQ
      refine ⟨k + 1, g, by simpa using h1, ?_, ?_, ?_⟩
      · rw [List.append_assoc, run_block env all quality e he c r hr1]
        exact h2
      · rw [h3]
        simp
      · intro j a ha
        cases j with
        | zero =>
          cases ha
          refine ⟨fun _ => Nat.succ_pos k, fun _ => ?_⟩
          refine ⟨[.chars sep] ++ Q, ?_⟩
          show (.chars sep :: e.calls) ++ _ = _
          unfold block
          simp
        | succ j =>
          have := h4 j a ha
          rw [List.take_succ_cons, upTo_cons, List.prefix_append_right_inj, this]
          omega

end SeismoStats.XmlText
