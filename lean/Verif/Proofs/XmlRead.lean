/-
From the text of a document to what the handler makes of it: joining and cutting of character data (Model/XmlText.lean, Model/Parser.lean).
-/
import Verif.Proofs.XmlText
import Verif.Props.Parser

namespace SeismoStats.XmlText
open SeismoStats SeismoStats.Parser SeismoStats.QuakemlText SeismoStats.Spec.Parser SeismoStats.Props

/-! ### Scanners of character data between tags -/

/-- A condition on the character data between two tags, checked from left to right. -/
structure Scan (St : Type) where
  init : St
  next : St → List Char → Option St
  blank : ∀ s, (∀ c ∈ s, Blank c) → next init s = some init

/-- The condition on all calls. -/
def scanAll {St : Type} (σ : Scan St) : St → List Sax → Option St
  | st, [] => some st
  | st, .chars s :: r => (σ.next st s).bind fun st' => scanAll σ st' r
  | _, .start _ _ :: r => scanAll σ σ.init r
  | _, .stop _ :: r => scanAll σ σ.init r

theorem scanAll_append {St : Type} (σ : Scan St) (a b : List Sax) (st : St) : scanAll σ st (a ++ b) = (scanAll σ st a).bind fun s => scanAll σ s b := by
  induction a generalizing st with
  | nil => rfl
  | cons x a ih =>
    cases x with
    | start tag id => exact ih _
    | stop tag => exact ih _
    | chars s =>
      rw [List.cons_append, scanAll, scanAll]
      cases σ.next st s with
      | none => rfl
      | some st' => exact ih st'

/-- Calls whose text is read back, which are properly nested and satisfy the condition. -/
structure Nice {St : Type} (σ : Scan St) (l : List Sax) : Prop where
  ok : ∀ x ∈ l, OkCall x
  nested : ∀ st, nest st l = some st
  scan : scanAll σ σ.init l = some σ.init

theorem nice_nil {St : Type} (σ : Scan St) : Nice σ [] := ⟨by simp, fun _ => rfl, rfl⟩

theorem nice_append {St : Type} {σ : Scan St} {a b : List Sax} (ha : Nice σ a) (hb : Nice σ b) : Nice σ (a ++ b) := by
  refine ⟨?_, ?_, ?_⟩
  · intro x hx
    rcases List.mem_append.1 hx with h | h
    · exact ha.ok x h
    · exact hb.ok x h
  · intro st
    rw [nest_append, ha.nested]
    exact hb.nested st
  · rw [scanAll_append, ha.scan]
    exact hb.scan

theorem nice_flatten {St : Type} {σ : Scan St} {l : List (List Sax)} (h : ∀ a ∈ l, Nice σ a) : Nice σ l.flatten := by
  induction l with
  | nil => exact nice_nil σ
  | cons a l ih => exact nice_append (h a (by simp)) (ih fun b hb => h b (by simp [hb]))

/-- White space. -/
theorem nice_ws {St : Type} {σ : Scan St} {s : List Char} (h1 : ∀ c ∈ s, TextChar c) (h2 : ∀ c ∈ s, Blank c) : Nice σ [.chars s] := by
  refine ⟨?_, fun _ => rfl, ?_⟩
  · intro x hx
    rw [List.mem_singleton] at hx
    subst hx
    exact h1
  · rw [scanAll, σ.blank s h2]
    rfl

theorem nice_wrap' {St : Type} {σ : Scan St} {l : List Sax} {tag : String} {id : Option String} (ht : IsName tag.toList) (hid : ∀ v, id = some v → ∀ c ∈ v.toList, Plain c)
    (hok : ∀ x ∈ l, OkCall x) (hn : ∀ st, nest st l = some st) {n : St} (hs : scanAll σ σ.init l = some n) :
    Nice σ (.start tag id :: (l ++ [.stop tag])) := by
  refine ⟨?_, ?_, ?_⟩
  · intro x hx
    rcases List.mem_cons.1 hx with rfl | hx
    · exact ⟨ht, hid⟩
    · rcases List.mem_append.1 hx with h | h
      · exact hok x h
      · rw [List.mem_singleton] at h
        subst h
        exact ht
  · intro st
    rw [nest, nest_append, hn]
    simp [nest]
  · rw [scanAll, scanAll_append, hs]
    rfl

/-- An element. -/
theorem nice_wrap {St : Type} {σ : Scan St} {l : List Sax} {tag : String} {id : Option String} (ht : IsName tag.toList) (hid : ∀ v, id = some v → ∀ c ∈ v.toList, Plain c)
    (h : Nice σ l) : Nice σ (.start tag id :: (l ++ [.stop tag])) := nice_wrap' ht hid h.ok h.nested h.scan

/-- An element with a value. -/
theorem nice_value {St : Type} {σ : Scan St} {s : List Char} {tag : String} (ht : IsName tag.toList) (hs : ∀ c ∈ s, Plain c) {n : St} (hn : σ.next σ.init s = some n) :
    Nice σ [.start tag none, .chars s, .stop tag] := by
  refine nice_wrap' (l := [.chars s]) ht (by simp) ?_ (fun _ => rfl) (n := n) ?_
  · intro x hx
    rw [List.mem_singleton] at hx
    subst hx
    exact fun c hc => .inl (hs c hc)
  · rw [scanAll, hn]
    rfl

/-! ### Joining -/

theorem merge_append (a b : List Sax) (acc : List Char) :
    merge acc (a ++ b) = ((merge acc a).1 ++ (merge (merge acc a).2 b).1, (merge (merge acc a).2 b).2) := by
  induction a generalizing acc with
  | nil => rfl
  | cons x a ih =>
    cases x with
    | chars s => exact ih _
    | start tag id => simp [merge, ih]
    | stop tag => simp [merge, ih]

theorem explode_merge (l : List Sax) (acc : List Char) :
    explode ((merge acc l).1 ++ charsCall (merge acc l).2) = acc.map (fun c => Sax.chars [c]) ++ explode l := by
  induction l generalizing acc with
  | nil => simp [merge, explode_charsCall, explode]
  | cons x l ih =>
    cases x with
    | chars s =>
      rw [merge, ih]
      simp [explode]
    | start tag id =>
      have := ih []
      simp only [merge, explode_append, explode_charsCall, explode, List.append_assoc, List.cons_append] at this ⊢
      rw [this]
      simp
    | stop tag =>
      have := ih []
      simp only [merge, explode_append, explode_charsCall, explode, List.append_assoc, List.cons_append] at this ⊢
      rw [this]
      simp

/-- At most one piece of character data between two tags is not blank. -/
noncomputable def oneWord : Scan Bool where
  init := false
  next := fun st s => by classical exact if ∀ c ∈ s, Blank c then some st else if st then none else some true
  blank := fun s h => if_pos h

theorem run_two (env : Env) (all quality : Bool) (s t : List Char) (h : GoodCut s t) (g : H) (r : List Sax) :
    run env all quality g (.chars s :: .chars t :: r) = run env all quality g (.chars (s ++ t) :: r) := by
  have := run_cut env all quality s t h g
  rw [show Sax.chars s :: .chars t :: r = [.chars s, .chars t] ++ r from rfl, show Sax.chars (s ++ t) :: r = [.chars (s ++ t)] ++ r from rfl,
    run_append, run_append, this]

theorem run_charsCall (env : Env) (all quality : Bool) (acc : List Char) (g : H) (r : List Sax) :
    run env all quality g (charsCall acc ++ r) = run env all quality g (.chars acc :: r) := by
  unfold charsCall
  split
  · rename_i h
    subst h
    have e : characters g [] = .ok g := by
      unfold characters
      rw [if_neg]
      simp [strip_blank (s := [])]
    simp [run, step, e]
  · rfl

theorem run_cons_congr (env : Env) (all quality : Bool) (x : Sax) {a b : List Sax} (h : ∀ g, run env all quality g a = run env all quality g b) (g : H) :
    run env all quality g (x :: a) = run env all quality g (x :: b) := by
  rw [run, run]
  cases step env all quality g x with
  | error e => rfl
  | ok g' => exact h g'

/-- The handler does the same for joined character data, if at most one piece between two tags is not blank. -/
theorem run_merge (env : Env) (all quality : Bool) (l : List Sax) (acc : List Char) (st : Bool) (hst : st = false → ∀ c ∈ acc, Blank c)
    {n : Bool} (h : scanAll oneWord st l = some n) (g : H) :
    run env all quality g ((merge acc l).1 ++ charsCall (merge acc l).2) = run env all quality g (.chars acc :: l) := by
  induction l generalizing acc st g with
  | nil =>
    rw [merge, List.nil_append]
    have := run_charsCall env all quality acc g []
    rw [List.append_nil] at this
    exact this
  | cons x l ih =>
    have tag : ∀ x : Sax, scanAll oneWord false l = some n →
        run env all quality g (charsCall acc ++ x :: (merge [] l).1 ++ charsCall (merge [] l).2) = run env all quality g (.chars acc :: x :: l) := by
      intro x h
      rw [List.append_assoc, run_charsCall]
      apply run_cons_congr
      intro g
      rw [List.cons_append]
      apply run_cons_congr
      intro g
      rw [ih [] false (by simp) h]
      have := run_charsCall env all quality [] g l
      rw [← this]
      rfl
    cases x with
    | start t id => exact tag (.start t id) h
    | stop t => exact tag (.stop t) h
    | chars s =>
      rw [merge]
      rw [scanAll] at h
      by_cases hs : ∀ c ∈ s, Blank c
      · have e : oneWord.next st s = some st := if_pos hs
        rw [e] at h
        rw [ih (acc ++ s) st ?_ h, run_two _ _ _ _ _ (.inr (.inl hs))]
        intro hf c hc
        rcases List.mem_append.1 hc with hc | hc
        · exact hst hf c hc
        · exact hs c hc
      · cases st with
        | true =>
          have e : oneWord.next true s = none := (if_neg hs).trans (if_pos rfl)
          rw [e] at h
          cases h
        | false =>
          have e : oneWord.next false s = some true := (if_neg hs).trans (if_neg (by simp))
          rw [e] at h
          rw [ih (acc ++ s) true (by simp) h, run_two _ _ _ _ _ (.inl (hst rfl))]

/-! ### Cutting -/

/-- Where a scan of characters is: before the first, in, after the only word. -/
inductive Word where
  | before | inside | after

/-- One character. -/
noncomputable def Word.next (w : Word) (c : Char) : Option Word := by
  classical exact match w with
  | .before => some (if Blank c then .before else .inside)
  | .inside => some (if Blank c then .after else .inside)
  | .after => if Blank c then some .after else none

/-- Several characters. -/
noncomputable def Word.nexts : Word → List Char → Option Word
  | w, [] => some w
  | w, c :: r => (w.next c).bind fun w' => w'.nexts r

theorem nexts_append (w : Word) (s t : List Char) : w.nexts (s ++ t) = (w.nexts s).bind fun w' => w'.nexts t := by
  induction s generalizing w with
  | nil => rfl
  | cons c s ih =>
    rw [List.cons_append, Word.nexts, Word.nexts]
    cases w.next c with
    | none => rfl
    | some w' => exact ih w'

theorem nexts_blank (w : Word) (hw : w ≠ .inside) (s : List Char) (h : ∀ c ∈ s, Blank c) : w.nexts s = some w := by
  induction s with
  | nil => rfl
  | cons c s ih =>
    rw [Word.nexts]
    have : w.next c = some w := by
      cases w with
      | before => simp [Word.next, h c (by simp)]
      | inside => exact absurd rfl hw
      | after => simp [Word.next, h c (by simp)]
    rw [this]
    exact ih fun d hd => h d (by simp [hd])

/-- The character data between two tags is one word without white space in it, with white space around. -/
noncomputable def noGap : Scan Word where
  init := .before
  next := Word.nexts
  blank := fun s h => nexts_blank _ (by simp) s h

theorem nexts_after (s : List Char) {w : Word} (h : Word.after.nexts s = some w) : ∀ c ∈ s, Blank c := by
  induction s with
  | nil => simp
  | cons c s ih =>
    rw [Word.nexts] at h
    by_cases hc : Blank c
    · have e : Word.after.next c = some .after := by simp [Word.next, hc]
      rw [e] at h
      intro d hd
      rcases List.mem_cons.1 hd with rfl | hd
      · exact hc
      · exact ih h d hd
    · have e : Word.after.next c = none := by simp [Word.next, hc]
      rw [e] at h
      cases h

theorem nexts_to_before (s : List Char) (w : Word) (h : w.nexts s = some .before) : w = .before ∧ ∀ c ∈ s, Blank c := by
  induction s generalizing w with
  | nil => cases h; simp
  | cons c s ih =>
    rw [Word.nexts] at h
    cases e : w.next c with
    | none => rw [e] at h; cases h
    | some w' =>
      rw [e] at h
      obtain ⟨rfl, h2⟩ := ih w' h
      cases w with
      | before =>
        by_cases hc : Blank c
        · refine ⟨rfl, ?_⟩
          intro d hd
          rcases List.mem_cons.1 hd with rfl | hd
          · exact hc
          · exact h2 d hd
        · simp [Word.next, hc] at e
      | inside => by_cases hc : Blank c <;> simp [Word.next, hc] at e
      | after => by_cases hc : Blank c <;> simp [Word.next, hc] at e

theorem nexts_to_inside (s : List Char) (w : Word) (h : w.nexts s = some .inside) : ∀ c, s.getLast? = some c → ¬ Blank c := by
  intro c hc
  obtain ⟨t, rfl⟩ := List.getLast?_eq_some_iff.1 hc
  rw [nexts_append] at h
  cases e : w.nexts t with
  | none => rw [e] at h; cases h
  | some w' =>
    rw [e] at h
    simp only [Option.bind_some, Word.nexts] at h
    intro hb
    cases w' <;> simp [Word.next, hb] at h

theorem goodCut_of_nexts (w : Word) (s t : List Char) {w2 : Word} (h : w.nexts (s ++ t) = some w2) : GoodCut s t := by
  rw [nexts_append] at h
  cases e : w.nexts s with
  | none => rw [e] at h; cases h
  | some w' =>
    rw [e] at h
    simp only [Option.bind_some] at h
    cases w' with
    | before => exact .inl (nexts_to_before _ _ e).2
    | after => exact .inr (.inl (nexts_after _ h))
    | inside =>
      cases t with
      | nil => exact .inr (.inl (by simp))
      | cons c t =>
        by_cases hc : Blank c
        · right; left
          rw [Word.nexts] at h
          have e' : Word.inside.next c = some .after := by simp [Word.next, hc]
          rw [e'] at h
          intro d hd
          rcases List.mem_cons.1 hd with rfl | hd
          · exact hc
          · exact nexts_after _ h d hd
        · right; right
          refine ⟨nexts_to_inside _ _ e, ?_⟩
          intro d hd
          cases hd
          exact hc

theorem run_chars_explode (env : Env) (all quality : Bool) (w : Word) (s : List Char) {w2 : Word} (h : w.nexts s = some w2) (r : List Sax) (g : H) :
    run env all quality g (.chars s :: r) = run env all quality g (s.map (fun c => Sax.chars [c]) ++ r) := by
  induction s generalizing w g with
  | nil => rw [← run_charsCall]; rfl
  | cons c s ih =>
    have hg : GoodCut [c] s := goodCut_of_nexts w [c] s h
    have e := run_two env all quality [c] s hg g r
    rw [List.singleton_append] at e
    rw [← e, List.map_cons, List.cons_append]
    apply run_cons_congr
    intro g
    rw [Word.nexts] at h
    cases e' : w.next c with
    | none => rw [e'] at h; cases h
    | some w' =>
      rw [e'] at h
      exact ih w' h g

theorem run_explode (env : Env) (all quality : Bool) (l : List Sax) (w : Word) {w2 : Word} (h : scanAll noGap w l = some w2) (g : H) :
    run env all quality g l = run env all quality g (explode l) := by
  induction l generalizing w g with
  | nil => rfl
  | cons x l ih =>
    cases x with
    | start t id =>
      apply run_cons_congr
      exact ih .before h
    | stop t =>
      apply run_cons_congr
      exact ih .before h
    | chars s =>
      rw [scanAll] at h
      have e : noGap.next w s = w.nexts s := rfl
      rw [e] at h
      cases e' : w.nexts s with
      | none => rw [e'] at h; cases h
      | some w' =>
        rw [e'] at h
        rw [run_chars_explode env all quality w s e', explode, run_append, run_append]
        cases run env all quality g (s.map fun c => Sax.chars [c]) with
        | error e => rfl
        | ok g' => exact ih w' h g'

theorem scan_explode (l : List Sax) (w : Word) : scanAll noGap w (explode l) = scanAll noGap w l := by
  induction l generalizing w with
  | nil => rfl
  | cons x l ih =>
    cases x with
    | start t id => exact ih _
    | stop t => exact ih _
    | chars s =>
      rw [explode, scanAll_append, scanAll]
      have : scanAll noGap w (s.map fun c => Sax.chars [c]) = noGap.next w s := by
        have e : noGap.next = Word.nexts := rfl
        rw [e]
        induction s generalizing w with
        | nil => rfl
        | cons c s ih =>
          rw [List.map_cons, scanAll, Word.nexts, e, Word.nexts]
          cases w.next c with
          | none => rfl
          | some w' => exact ih w'
      rw [this]
      cases noGap.next w s with
      | none => rfl
      | some w' => exact ih w'

/-- The handler does the same for calls that differ in the division of character data only, if no word has white space in it. -/
theorem run_of_explode (env : Env) (all quality : Bool) (a b : List Sax) (h : explode a = explode b) {w : Word} (hs : scanAll noGap .before b = some w) (g : H) :
    run env all quality g a = run env all quality g b := by
  rw [run_explode env all quality b .before hs, ← h]
  apply run_explode env all quality a .before (w2 := w)
  rw [← scan_explode, h, scan_explode]
  exact hs

end SeismoStats.XmlText
