/-
Lemmas for C52: names of secondary magnitude columns, the dictionary of secondary magnitudes, texts of trees.
-/
import Verif.Model.Quakeml
import Verif.Proofs.ParserSelect
import Mathlib.Data.List.Infix
import Mathlib.Tactic.FinCases

namespace SeismoStats
namespace Quakeml
open SeismoStats SeismoStats.Catalog SeismoStats.Spec.Parser
open Classical

/-- What follows the type in the name of a secondary magnitude column. -/
def suffixes : List String :=
  ["", "_uncertainty", "_lowerUncertainty", "_upperUncertainty", "_confidenceLevel", "_magnitudeID"]

/-- The name of a magnitude type that `to_quakeml` can handle. -/
structure GoodType (t : String) : Prop where
  nonempty : t ≠ ""
  underscore : '_' ∉ t.toList
  start : ∀ w ∈ ["uncertainty", "lowerUncertainty", "upperUncertainty", "confidenceLevel", "type"], ¬ w.toList <+: t.toList
  stop : ¬ "magnitude".toList <:+ t.toList
  short : ∀ w ∈ ["uncertainty", "lowerUncertainty", "upperUncertainty", "confidenceLevel", "magnitudeID"], ¬ t.toList <+: w.toList

theorem splitOnP_first' {α : Type} (p : α → Bool) (xs : List α) (h : ∀ x ∈ xs, p x = false) (sep : α) (hs : p sep = true) (as : List α) :
    (xs ++ sep :: as).splitOnP p = xs :: as.splitOnP p := List.splitOnP_first h _ hs as

theorem suffix_form {s : String} (h : s ∈ suffixes) : s = "" ∨ ∃ w ∈ ["uncertainty", "lowerUncertainty", "upperUncertainty", "confidenceLevel", "magnitudeID"],
    s.toList = '_' :: w.toList ∧ '_' ∉ w.toList := by
  fin_cases h
  · exact Or.inl rfl
  · exact Or.inr ⟨"uncertainty", by simp, by decide, by decide⟩
  · exact Or.inr ⟨"lowerUncertainty", by simp, by decide, by decide⟩
  · exact Or.inr ⟨"upperUncertainty", by simp, by decide, by decide⟩
  · exact Or.inr ⟨"confidenceLevel", by simp, by decide, by decide⟩
  · exact Or.inr ⟨"magnitudeID", by simp, by decide, by decide⟩

theorem column_toList (t s : String) : ("magnitude_" ++ t ++ s).toList = "magnitude".toList ++ '_' :: (t.toList ++ s.toList) := by
  rw [String.toList_append, String.toList_append, List.append_assoc]
  rfl

theorem keyType_column {t s : String} (ht : '_' ∉ t.toList) (hs : s ∈ suffixes) : keyType ("magnitude_" ++ t ++ s) = t := by
  unfold keyType
  rw [column_toList]
  have h1 : ("magnitude".toList ++ '_' :: (t.toList ++ s.toList)).splitOn '_' = "magnitude".toList :: (t.toList ++ s.toList).splitOn '_' :=
    splitOnP_first' _ _ (by decide) _ (by decide) _
  rw [h1]
  have hp : ∀ x ∈ t.toList, (x == '_') = false := by
    intro x hx
    rw [beq_eq_false_iff_ne]
    exact fun hc => ht (hc ▸ hx)
  have h2 : ((t.toList ++ s.toList).splitOn '_')[0]? = some t.toList := by
    rcases suffix_form hs with rfl | ⟨w, _, hw, _⟩
    · have : (t.toList ++ "".toList) = t.toList := by simp
      rw [this]
      have : t.toList.splitOn '_' = [t.toList] := List.splitOnP_eq_singleton hp
      rw [this]
      rfl
    · rw [hw]
      have : (t.toList ++ '_' :: w.toList).splitOn '_' = t.toList :: w.toList.splitOn '_' :=
        splitOnP_first' _ _ hp _ (by decide) _
      rw [this]
      rfl
  rw [List.getElem?_cons_succ, h2]
  simp

theorem removeGo_plain (p xs ys : List Char) (h : '_' ∉ xs) : removeGo ('_' :: p) 0 (xs ++ ys) = xs ++ removeGo ('_' :: p) 0 ys := by
  induction xs with
  | nil => rfl
  | cons x r ih =>
    rw [List.mem_cons, not_or] at h
    rw [List.cons_append, removeGo, if_neg, ih h.2, List.cons_append]
    rintro ⟨q, hq⟩
    rw [List.cons_append] at hq
    exact h.1 (List.cons.inj hq).1

theorem removeGo_skip (p xs ys : List Char) : removeGo p xs.length (xs ++ ys) = removeGo p 0 ys := by
  induction xs with
  | nil => rfl
  | cons x r ih => exact ih

theorem removeGo_match (p ys : List Char) : removeGo ('_' :: p) 0 ('_' :: (p ++ ys)) = removeGo ('_' :: p) 0 ys := by
  rw [removeGo, if_pos ⟨ys, by simp⟩]
  exact removeGo_skip _ p ys

theorem keyName_column {t s : String} (ht : GoodType t) (hs : s ∈ suffixes) : keyName ("magnitude_" ++ t ++ s) t = "magnitude" ++ s := by
  unfold keyName
  rw [column_toList, removeGo_plain _ _ _ (by decide), removeGo_match]
  apply String.toList_inj.1
  rw [String.toList_ofList, String.toList_append]
  congr 1
  rcases suffix_form hs with rfl | ⟨w, hw, h1, h2⟩
  · rfl
  · rw [h1, removeGo, if_neg]
    · have := removeGo_plain t.toList w.toList [] h2
      rw [List.append_nil] at this
      rw [this]
      simp [removeGo]
    · rintro ⟨q, hq⟩
      rw [List.cons_append] at hq
      exact ht.short w hw ⟨q, (List.cons.inj hq).2⟩

/-- An occurrence of `a_b` in `c_d` (no `_` in `a` and `c`): at the underscore or behind it. -/
theorem infix_at (a b c d : List Char) (ha : '_' ∉ a) (hc : '_' ∉ c) (h : (a ++ '_' :: b) <:+: (c ++ '_' :: d)) :
    (a <:+ c ∧ b <+: d) ∨ (a ++ '_' :: b) <:+: d := by
  obtain ⟨l, l', h⟩ := h
  have h' : (l ++ a) ++ ('_' :: (b ++ l')) = c ++ '_' :: d := by rw [← h]; simp
  rcases List.append_eq_append_iff.1 h' with ⟨m, h1, h2⟩ | ⟨m, h1, h2⟩
  · cases m with
    | nil =>
      simp only [List.nil_append, List.cons.injEq, true_and] at h2
      left
      exact ⟨⟨l, by simpa using h1.symm⟩, ⟨l', h2⟩⟩
    | cons x m =>
      exfalso
      rw [List.cons_append, List.cons.injEq] at h2
      apply hc
      rw [h1, ← h2.1]
      simp
  · cases m with
    | nil =>
      simp only [List.nil_append, List.cons.injEq, true_and] at h2
      left
      exact ⟨⟨l, by simpa using h1⟩, ⟨l', h2.symm⟩⟩
    | cons x m =>
      rw [List.cons_append, List.cons.injEq] at h2
      right
      -- l ++ a = c ++ '_' :: m, so a is a suffix of m
      rw [← h2.1] at h1
      have h3 : l ++ a = (c ++ ['_']) ++ m := by rw [h1]; simp
      rcases List.append_eq_append_iff.1 h3 with ⟨q, h4, h5⟩ | ⟨q, h4, h5⟩
      · cases q using List.reverseRecOn with
        | nil =>
          refine ⟨[], l', ?_⟩
          rw [h2.2, ← List.nil_append m, ← h5]
          simp
        | append_singleton q x _ =>
          exfalso
          have hx : x = '_' := by
            have := congrArg List.getLast? h4
            simpa using this.symm
          apply ha
          rw [h5, hx]
          simp
      · refine ⟨q, l', ?_⟩
        rw [h2.2, h5]
        simp

theorem not_infix_of_not_mem (a b d : List Char) (hd : '_' ∉ d) : ¬ (a ++ '_' :: b) <:+: d := by
  rintro ⟨l, l', h⟩
  apply hd
  rw [← h]
  simp

theorem isKey_column {t s : String} (ht : GoodType t) (hs : s ∈ suffixes) : isKey ("magnitude_" ++ t ++ s) = true := by
  unfold isKey
  rw [Bool.and_eq_true, Bool.not_eq_true']
  constructor
  · unfold contains
    rw [decide_eq_true_eq]
    refine ⟨[], t.toList ++ s.toList, ?_⟩
    rw [column_toList]
    rfl
  · rw [List.any_eq_false]
    intro v hv
    have hv' : ∃ w ∈ ["uncertainty", "lowerUncertainty", "upperUncertainty", "confidenceLevel", "type"],
        ("magnitude" ++ v).toList = "magnitude".toList ++ '_' :: w.toList ∧ '_' ∉ w.toList := by
      fin_cases hv
      · exact ⟨"uncertainty", by simp, by decide, by decide⟩
      · exact ⟨"lowerUncertainty", by simp, by decide, by decide⟩
      · exact ⟨"upperUncertainty", by simp, by decide, by decide⟩
      · exact ⟨"confidenceLevel", by simp, by decide, by decide⟩
      · exact ⟨"type", by simp, by decide, by decide⟩
    obtain ⟨w, hw, e, hwu⟩ := hv'
    unfold contains
    rw [decide_eq_true_eq, e, column_toList]
    intro hinf
    have hsuf : ∀ d, '_' ∉ w.toList → w.toList <+: t.toList ++ d → (d = [] ∨ ∃ x, d = '_' :: x) → w.toList <+: t.toList := by
      intro d _ hp hd
      rcases hd with rfl | ⟨x, rfl⟩
      · simpa using hp
      · obtain ⟨q, hq⟩ := hp
        rcases List.append_eq_append_iff.1 hq with ⟨m, h1, _⟩ | ⟨m, h1, h2⟩
        · exact ⟨m, h1.symm⟩
        · cases m with
          | nil => exact ⟨[], by simpa using h1⟩
          | cons y m =>
            exfalso
            rw [List.cons_append, List.cons.injEq] at h2
            apply hwu
            rw [h1, ← h2.1]
            simp
    rcases infix_at _ _ _ _ (by decide) (by decide) hinf with ⟨_, h⟩ | h
    · apply ht.start w hw
      apply hsuf _ hwu h
      rcases suffix_form hs with rfl | ⟨w', _, h1, _⟩
      · exact Or.inl rfl
      · exact Or.inr ⟨_, h1⟩
    · rcases suffix_form hs with rfl | ⟨w', hw', h1, h2⟩
      · apply not_infix_of_not_mem _ _ _ _ h
        simpa using ht.underscore
      · rw [h1] at h
        rcases infix_at _ _ _ _ (by decide) ht.underscore h with ⟨h, _⟩ | h
        · exact ht.stop h
        · exact not_infix_of_not_mem _ _ _ h2 h

/-! ### The dictionary of secondary magnitudes -/

/-- Entry of a nested dictionary. -/
def look (d : Dict (Dict Cell)) (t k : String) : Option Cell := (d.get? t).bind fun e => e.get? k

theorem look_setIn (d : Dict (Dict Cell)) (t k t' k' : String) (v : Cell) :
    look (setIn d t k v) t' k' = if t = t' ∧ k = k' then some v else look d t' k' := by
  unfold look setIn
  rw [Dict.get?_set]
  by_cases h : t = t'
  · subst h
    rw [if_pos rfl]
    simp only [Option.bind_some, Dict.get?_set, true_and]
    by_cases hk : k = k'
    · simp [hk]
    · rw [if_neg hk, if_neg hk]
      cases d.get? t <;> rfl
  · rw [if_neg h, if_neg (fun hc => h hc.1)]

theorem look_fold (ks : List String) (r : String → Cell) (d : Dict (Dict Cell)) (t k : String) :
    look (ks.foldl (fun d mag => if written r mag then setIn d (keyType mag) (keyName mag (keyType mag)) (r mag) else d) d) t k =
      ((ks.filter fun m => decide (written r m = true ∧ keyType m = t ∧ keyName m (keyType m) = k)).getLast?.map r).or (look d t k) := by
  induction ks generalizing d with
  | nil => simp
  | cons m ks ih =>
    rw [List.foldl_cons, ih]
    by_cases h : written r m = true ∧ keyType m = t ∧ keyName m (keyType m) = k
    · rw [List.filter_cons_of_pos (by simpa using h), if_pos h.1, look_setIn, if_pos h.2, List.getLast?_cons]
      cases (ks.filter fun m => decide (written r m = true ∧ keyType m = t ∧ keyName m (keyType m) = k)).getLast? <;> simp
    · rw [List.filter_cons_of_neg (by simpa using h)]
      by_cases hw : written r m = true
      · rw [if_pos hw, look_setIn, if_neg (fun hc => h ⟨hw, hc⟩)]
      · rw [if_neg hw]

theorem get_fold (ks : List String) (r : String → Cell) (d : Dict (Dict Cell)) (t : String) :
    ((ks.foldl (fun d mag => if written r mag then setIn d (keyType mag) (keyName mag (keyType mag)) (r mag) else d) d).get? t).isSome =
      ((d.get? t).isSome || ks.any fun m => decide (written r m = true ∧ keyType m = t)) := by
  induction ks generalizing d with
  | nil => simp
  | cons m ks ih =>
    rw [List.foldl_cons, ih, List.any_cons]
    by_cases hw : written r m = true
    · rw [if_pos hw]
      unfold setIn
      rw [Dict.get?_set]
      by_cases ht : keyType m = t
      · simp [hw, ht]
      · simp [ht]
    · simp [hw]

theorem set_WF {V : Type} (d : Dict V) (k : String) (v : V) (h : Dict.WF d) : Dict.WF (d.set k v) := Dict.WF_set d k v h

theorem secMags_WF (ks : List String) (r : String → Cell) : Dict.WF (secMags ks r) := by
  unfold secMags
  have : ∀ d : Dict (Dict Cell), Dict.WF d →
      Dict.WF (ks.foldl (fun d mag => if written r mag then setIn d (keyType mag) (keyName mag (keyType mag)) (r mag) else d) d) := by
    induction ks with
    | nil => exact fun d h => h
    | cons m ks ih =>
      intro d h
      rw [List.foldl_cons]
      apply ih
      split
      · exact set_WF _ _ _ h
      · exact h
  exact this [] List.nodup_nil

/-- Every column with a secondary magnitude is named after a type of the list `T`. -/
def Standard (cols T : List String) : Prop :=
  (∀ t ∈ T, GoodType t) ∧
  ∀ c ∈ cols, "magnitude_".toList <:+: c.toList →
    c ∈ ["magnitude_type", "magnitude_uncertainty", "magnitude_lowerUncertainty", "magnitude_upperUncertainty", "magnitude_confidenceLevel"] ∨
    ∃ t ∈ T, ∃ s ∈ suffixes, c = "magnitude_" ++ t ++ s

theorem mem_keys (cols T : List String) (h : Standard cols T) (c : String) :
    c ∈ keys cols ↔ c ∈ cols ∧ ∃ t ∈ T, ∃ s ∈ suffixes, c = "magnitude_" ++ t ++ s := by
  unfold keys
  rw [List.mem_filter]
  constructor
  · rintro ⟨h1, h2⟩
    refine ⟨h1, ?_⟩
    have hin : "magnitude_".toList <:+: c.toList := by
      unfold isKey contains at h2
      rw [Bool.and_eq_true, decide_eq_true_eq] at h2
      exact h2.1
    rcases h.2 c h1 hin with hm | hm
    · exfalso
      have : ∀ c ∈ ["magnitude_type", "magnitude_uncertainty", "magnitude_lowerUncertainty", "magnitude_upperUncertainty", "magnitude_confidenceLevel"],
          isKey c = false := by decide
      rw [this c hm] at h2
      cases h2
    · exact hm
  · rintro ⟨h1, t, ht, s, hs, rfl⟩
    exact ⟨h1, isKey_column (h.1 t ht) hs⟩

theorem look_secMags (cols T : List String) (h : Standard cols T) (r : String → Cell) (t s : String) (ht : t ∈ T) (hs : s ∈ suffixes) :
    look (secMags (keys cols) r) t ("magnitude" ++ s) =
      if "magnitude_" ++ t ++ s ∈ cols ∧ written r ("magnitude_" ++ t ++ s) = true then some (r ("magnitude_" ++ t ++ s)) else none := by
  unfold secMags
  rw [look_fold]
  have hnil : look ([] : Dict (Dict Cell)) t ("magnitude" ++ s) = none := rfl
  rw [hnil, Option.or_none]
  have hall : ∀ m ∈ (keys cols).filter fun m => decide (written r m = true ∧ keyType m = t ∧ keyName m (keyType m) = "magnitude" ++ s),
      m = "magnitude_" ++ t ++ s := by
    intro m hm
    rw [List.mem_filter, decide_eq_true_eq, mem_keys cols T h] at hm
    obtain ⟨⟨_, t', ht', s', hs', rfl⟩, _, h1, h2⟩ := hm
    rw [keyType_column (h.1 t' ht').underscore hs'] at h1 h2
    rw [keyName_column (h.1 t' ht') hs'] at h2
    subst h1
    have : s' = s := by
      apply String.toList_inj.1
      have := congrArg String.toList h2
      rw [String.toList_append, String.toList_append] at this
      exact List.append_cancel_left this
    rw [this]
  by_cases hc : "magnitude_" ++ t ++ s ∈ cols ∧ written r ("magnitude_" ++ t ++ s) = true
  · rw [if_pos hc]
    have hmem : "magnitude_" ++ t ++ s ∈ (keys cols).filter fun m => decide (written r m = true ∧ keyType m = t ∧ keyName m (keyType m) = "magnitude" ++ s) := by
      rw [List.mem_filter, decide_eq_true_eq, mem_keys cols T h, keyType_column (h.1 t ht).underscore hs, keyName_column (h.1 t ht) hs]
      exact ⟨⟨hc.1, t, ht, s, hs, rfl⟩, hc.2, rfl, rfl⟩
    generalize (keys cols).filter _ = l at hall hmem
    cases hg : l.getLast? with
    | none => rw [List.getLast?_eq_none_iff] at hg; subst hg; cases hmem
    | some m =>
      rw [hall m (List.mem_of_getLast? hg)]
      rfl
  · rw [if_neg hc]
    have : (keys cols).filter (fun m => decide (written r m = true ∧ keyType m = t ∧ keyName m (keyType m) = "magnitude" ++ s)) = [] := by
      rw [List.filter_eq_nil_iff]
      intro m hm hp
      have e := hall m (List.mem_filter.2 ⟨hm, hp⟩)
      rw [decide_eq_true_eq] at hp
      rw [e] at hm hp
      exact hc ⟨((mem_keys cols T h _).1 hm).1, hp.1⟩
    rw [this]
    rfl

theorem mem_secMags (cols T : List String) (h : Standard cols T) (r : String → Cell) (t : String) :
    (∃ e, (secMags (keys cols) r).get? t = some e) ↔
      t ∈ T ∧ ∃ s ∈ suffixes, "magnitude_" ++ t ++ s ∈ cols ∧ written r ("magnitude_" ++ t ++ s) = true := by
  rw [← Option.isSome_iff_exists]
  unfold secMags
  rw [get_fold]
  simp only [Dict.get?, Option.isSome_none, Bool.false_or, List.any_eq_true, decide_eq_true_eq]
  constructor
  · rintro ⟨m, hm, hw, rfl⟩
    obtain ⟨hc, t, ht, s, hs, rfl⟩ := (mem_keys cols T h m).1 hm
    rw [keyType_column (h.1 t ht).underscore hs]
    exact ⟨ht, s, hs, hc, hw⟩
  · rintro ⟨ht, s, hs, hc, hw⟩
    exact ⟨_, (mem_keys cols T h _).2 ⟨hc, t, ht, s, hs, rfl⟩, hw, keyType_column (h.1 t ht).underscore hs⟩

/-! ### Texts -/

/-- What a reader gets of a text: without surrounding white space, nothing if it is blank. -/
def read (s : String) : Option String := if Parser.strip s.toList = [] then none else some (String.ofList (Parser.strip s.toList))

/-- A list of texts under given names. -/
def flat (l : List (String × Option String)) : List (List Char × List Char) :=
  l.flatMap fun p => match p.2 with
    | none => []
    | some v => [(p.1.toList, v.toList)]

theorem textAt_flat (l : List (String × Option String)) (hn : (l.map Prod.fst).Nodup) (k : String) (v : Option String)
    (h : (k, v) ∈ l) : textAt (flat l) k = v := by
  have key : ∀ l : List (String × Option String), (l.map Prod.fst).Nodup → (k, v) ∈ l →
      (flat l).filter (fun p => decide (p.1 = k.toList)) = match v with
        | none => []
        | some v => [(k.toList, v.toList)] := by
    intro l
    induction l with
    | nil => intro _ h; cases h
    | cons p l ih =>
      intro hn h
      rw [List.map_cons, List.nodup_cons] at hn
      have hne : ∀ q ∈ l, q.1 = k → p.1 ≠ k := by
        intro q hq e1 e2
        exact hn.1 (e2 ▸ e1 ▸ List.mem_map_of_mem (f := Prod.fst) hq)
      unfold flat
      rw [List.flatMap_cons, List.filter_append]
      rcases List.mem_cons.1 h with rfl | h
      · have hrest : (flat l).filter (fun p => decide (p.1 = k.toList)) = [] := by
          rw [List.filter_eq_nil_iff]
          intro q hq hk
          rw [decide_eq_true_eq] at hk
          unfold flat at hq
          rw [List.mem_flatMap] at hq
          obtain ⟨⟨a, b⟩, hx, hq⟩ := hq
          cases b with
          | none => cases hq
          | some b =>
            rw [List.mem_singleton.1 hq] at hk
            exact hne _ hx (String.toList_inj.1 hk) rfl
        unfold flat at hrest
        rw [hrest]
        cases v <;> simp
      · have := ih hn.2 h
        unfold flat at this
        rw [this]
        have : ((match p.2 with
          | none => []
          | some v => [(p.1.toList, v.toList)]) : List (List Char × List Char)).filter (fun p => decide (p.1 = k.toList)) = [] := by
          cases p.2 with
          | none => rfl
          | some w =>
            have : ¬ p.1.toList = k.toList := fun e => hne _ h rfl (String.toList_inj.1 e)
            simp [this]
        rw [this]
        rfl
  have hf := key l hn h
  unfold textAt
  have hany : (flat l).any (fun p => decide (p.1 = k.toList)) = true ↔ (flat l).filter (fun p => decide (p.1 = k.toList)) ≠ [] := by
    rw [List.any_eq_true, ne_eq, List.filter_eq_nil_iff]
    push Not
    rfl
  by_cases ha : (flat l).any (fun p => decide (p.1 = k.toList)) = true
  · rw [if_pos ha, hf]
    have := hany.1 ha
    rw [hf] at this
    cases v with
    | none => exact absurd rfl this
    | some v => simp
  · rw [if_neg ha]
    have : (flat l).filter (fun p => decide (p.1 = k.toList)) = [] := by
      by_contra hc
      exact ha (hany.2 hc)
    rw [hf] at this
    cases v with
    | none => rfl
    | some v => cases this

theorem textAt_absent (l : List (String × Option String)) (k : String) (h : k ∉ l.map Prod.fst) : textAt (flat l) k = none := by
  unfold textAt
  rw [if_neg]
  rw [List.any_eq_true]
  rintro ⟨q, hq, hk⟩
  rw [decide_eq_true_eq] at hk
  unfold flat at hq
  rw [List.mem_flatMap] at hq
  obtain ⟨⟨a, b⟩, hx, hq⟩ := hq
  cases b with
  | none => cases hq
  | some b =>
    rw [List.mem_singleton.1 hq] at hk
    exact h (List.mem_map.2 ⟨_, hx, String.toList_inj.1 hk⟩)

theorem flat_append (a b : List (String × Option String)) : flat (a ++ b) = flat a ++ flat b := by
  unfold flat
  rw [List.flatMap_append]

theorem texts_textElem (tag s : String) (rest : Forest) (path : String) :
    (textElem tag s rest).texts path.toList = flat [(path ++ tag, read s)] ++ rest.texts path.toList := by
  unfold textElem read flat
  simp only [Forest.texts, List.append_nil, List.flatMap_cons, List.flatMap_nil, String.toList_append]
  by_cases h : Parser.strip s.toList = []
  · simp [h]
  · simp [h]

theorem texts_optElem (tag : String) (s : Option String) (rest : Forest) (path : String) :
    (optElem tag s rest).texts path.toList = flat [(path ++ tag, s.bind read)] ++ rest.texts path.toList := by
  unfold optElem
  cases s with
  | none => simp [flat]
  | some s => exact texts_textElem tag s rest path

theorem texts_elem (tag : String) (id : Option String) (k rest : Forest) (path : String) :
    (Forest.elem tag id k rest).texts path.toList = k.texts (path ++ tag).toList ++ rest.texts path.toList := by
  simp [Forest.texts, String.toList_append]

theorem texts_nil (path : List Char) : Forest.nil.texts path = flat [] := rfl

theorem idText_flat (path : String) (id : Option String) : idText path.toList id = flat [(path ++ "publicID", id)] := by
  unfold idText flat
  cases id <;> simp [String.toList_append]

end Quakeml
end SeismoStats
