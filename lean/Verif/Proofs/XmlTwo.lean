import Verif.Proofs.QuakemlText
namespace SeismoStats.XmlText
open SeismoStats SeismoStats.Parser SeismoStats.QuakemlText SeismoStats.Spec.Parser SeismoStats.Props

/-! ### A buffer that ends within a text -/

theorem run_congr_append (env : Env) (all quality : Bool) {a a' b b' : List Sax} (h1 : ∀ g, run env all quality g a = run env all quality g a')
    (h2 : ∀ g, run env all quality g b = run env all quality g b') (g : H) : run env all quality g (a ++ b) = run env all quality g (a' ++ b') := by
  rw [run_append, run_append, h1]
  cases run env all quality g a' with
  | error e => rfl
  | ok g' => exact h2 g'

theorem lex_one (b : List Char) : lex [b] = (init.feed b).flush := rfl

theorem lex_two (a b : List Char) : lex [a, b] = ((lex [a]).feed b).flush := rfl

/-- The text of a document in two buffers, the first of which ends between `u` and `v`: the two are read as two texts. -/
theorem read_two (env : Env) (all quality : Bool) {l : List Event} (h : ∀ e ∈ l, Nice oneWord e.calls) (X Z : List Sax) (u v : List Char) (t : String)
    (hmid : mid l = X ++ .chars (u ++ v) :: .stop t :: Z) :
    ∃ b1 b2, b1 ++ b2 = docText l ∧ (lex [b1, b2]).ending = .complete ∧
      ∀ g, run env all quality g (lex [b1, b2]).calls = run env all quality g (headCalls ++ (X ++ .chars u :: .chars v :: .stop t :: Z) ++ [.stop "q:quakeml"]) := by
  have hok := (mid_ok h).1
  have huv : OkCall (.chars (u ++ v)) := hok _ (by rw [hmid]; simp)
  have hu : ∀ c ∈ u, TextChar c := fun c hc => huv c (by simp [hc])
  have hv : ∀ c ∈ v, TextChar c := fun c hc => huv c (by simp [hc])
  have hYok : ∀ x ∈ Sax.chars v :: .stop t :: Z, OkCall x := by
    intro x hx
    rcases List.mem_cons.1 hx with rfl | hx
    · exact hv
    · exact hok x (by rw [hmid]; simp [List.mem_cons.1 hx])
  obtain ⟨st, hn, hf⟩ := prefix_feed h X _ hmid.symm
  have hnest : nest st (Sax.chars v :: .stop t :: Z) = some [] := by
    have h2 := (mid_ok h).2
    rw [hmid, nest_append, hn] at h2
    exact h2
  refine ⟨header ++ showCalls X ++ u, showCalls (.chars v :: .stop t :: Z) ++ showSax (.stop "q:quakeml"), ?_, ?_⟩
  · rw [docText_eq, inner_mid, hmid, showCalls_append, showCalls_append]
    simp [showCalls, showSax]
  have hlex1 : (lex [header ++ showCalls X ++ u]) = L.mk (.text []) (st ++ ["q:quakeml"]) false
      ((merge [] (headCalls ++ X ++ [.chars u])).1 ++ charsCall (merge [] (headCalls ++ X ++ [.chars u])).2) := by
    rw [lex_one, feed_append, hf, feed_text u _ _ _ _ (by simp) hu, merge_append (headCalls ++ X)]
    simp [L.flush, merge]
  have hlex : lex [header ++ showCalls X ++ u, showCalls (.chars v :: .stop t :: Z) ++ showSax (.stop "q:quakeml")] =
      ((lex [header ++ showCalls X ++ u]).feed (showCalls (.chars v :: .stop t :: Z) ++ showSax (.stop "q:quakeml"))).flush := lex_two _ _
  have hfeed := feed_calls _ hYok [] st ["q:quakeml"] (by simp)
    ((merge [] (headCalls ++ X ++ [.chars u])).1 ++ charsCall (merge [] (headCalls ++ X ++ [.chars u])).2) [] hnest
  have hstop := feed_stop (merge [] (Sax.chars v :: .stop t :: Z)).2 []
    ((merge [] (headCalls ++ X ++ [.chars u])).1 ++ charsCall (merge [] (headCalls ++ X ++ [.chars u])).2 ++ (merge [] (Sax.chars v :: .stop t :: Z)).1)
    "q:quakeml" (isName_of (by decide))
  rw [hlex, hlex1, feed_append, hfeed, List.nil_append, hstop]
  refine ⟨rfl, ?_⟩
  intro g
  have hcalls : (merge [] ((Sax.chars v :: .stop t :: Z) ++ [.stop "q:quakeml"])).1 =
      (merge [] (Sax.chars v :: .stop t :: Z)).1 ++ (charsCall (merge [] (Sax.chars v :: .stop t :: Z)).2 ++ [.stop "q:quakeml"]) := by
    rw [merge_append (Sax.chars v :: .stop t :: Z)]
    simp [merge]
  have hlast : (merge [] ((Sax.chars v :: .stop t :: Z) ++ [.stop "q:quakeml"])).2 = [] := by
    rw [merge_append (Sax.chars v :: .stop t :: Z)]
    rfl
  have hscan := all_scan h
  have hall : allCalls l = (headCalls ++ X) ++ .chars (u ++ v) :: (.stop t :: Z ++ [.stop "q:quakeml"]) := by
    unfold allCalls
    rw [inner_mid, hmid]
    simp
  rw [hall] at hscan
  obtain ⟨m, hm⟩ := scan_prefix closed_oneWord (headCalls ++ X) (.chars (u ++ v)) _ u hscan (.inr ⟨v, rfl⟩)
  have hscan2 : ∃ n, scanAll oneWord false ((Sax.chars v :: .stop t :: Z) ++ [.stop "q:quakeml"]) = some n := by
    rw [scanAll_append] at hscan
    cases e : scanAll oneWord oneWord.init (headCalls ++ X) with
    | none => rw [e] at hscan; cases hscan
    | some s =>
      rw [e, Option.bind_some, scanAll] at hscan
      cases e2 : oneWord.next s (u ++ v) with
      | none => rw [e2] at hscan; cases hscan
      | some s2 =>
        rw [e2, Option.bind_some] at hscan
        have hv' : ∃ s3, oneWord.next false v = some s3 := by
          by_cases hb : ∀ c ∈ v, Blank c
          · exact ⟨false, oneWord.blank v hb⟩
          · exact ⟨true, (if_neg hb).trans (if_neg (by simp))⟩
        obtain ⟨s3, hs3⟩ := hv'
        refine ⟨oneWord.init, ?_⟩
        rw [List.cons_append, scanAll, hs3, Option.bind_some]
        exact hscan
  obtain ⟨n, hn2⟩ := hscan2
  have r1 : ∀ g, run env all quality g ((merge [] (headCalls ++ X ++ [.chars u])).1 ++ charsCall (merge [] (headCalls ++ X ++ [.chars u])).2) =
      run env all quality g (headCalls ++ X ++ [.chars u]) := by
    intro g
    rw [run_merge env all quality _ [] false (by simp) hm, run_nil_chars]
  have r2 : ∀ g, run env all quality g ((merge [] ((Sax.chars v :: .stop t :: Z) ++ [.stop "q:quakeml"])).1) =
      run env all quality g ((Sax.chars v :: .stop t :: Z) ++ [.stop "q:quakeml"]) := by
    intro g
    have := run_merge env all quality _ [] false (by simp) hn2 g
    rw [hlast] at this
    have e : charsCall [] = [] := rfl
    rw [e, List.append_nil, run_nil_chars] at this
    exact this
  have key := run_congr_append env all quality r1 r2 g
  rw [hcalls] at key
  have e3 : headCalls ++ (X ++ .chars u :: .chars v :: .stop t :: Z) ++ [.stop "q:quakeml"] =
      headCalls ++ X ++ [.chars u] ++ ((Sax.chars v :: .stop t :: Z) ++ [.stop "q:quakeml"]) := by simp
  rw [e3, ← key]
  simp [L.flush, charsCall]

end SeismoStats.XmlText
