/-
The text of a catalogue as a document that the reader accepts (for C86 and C87).
-/
import Verif.Proofs.XmlTruncRead

namespace SeismoStats.XmlText
open SeismoStats SeismoStats.Catalog SeismoStats.Parser SeismoStats.Quakeml SeismoStats.Spec.Parser SeismoStats.Props
open Classical

/-! ### White space is not read -/

theorem texts_ws (s : List Char) (h : ∀ c ∈ s, Blank c) (r : Forest) (path : List Char) : (Forest.text s r).texts path = r.texts path := by
  rw [Forest.texts, strip_blank h]
  rfl

theorem texts_nl (n : ℕ) (r : Forest) (path : List Char) : (Forest.text (QuakemlText.nl n) r).texts path = r.texts path :=
  texts_ws _ (nl_blank n) r path

theorem nl2_blank (n : ℕ) : ∀ c ∈ QuakemlText.nl2 n, Blank c := by
  intro c hc
  rcases List.mem_cons.1 hc with rfl | hc
  · unfold Blank; decide
  · exact nl_blank n c hc

theorem nl2_text (n : ℕ) : ∀ c ∈ QuakemlText.nl2 n, TextChar c := by
  intro c hc
  rcases List.mem_cons.1 hc with rfl | hc
  · right; rfl
  · exact nl_text n c hc

theorem texts_nl2 (n : ℕ) (r : Forest) (path : List Char) : (Forest.text (QuakemlText.nl2 n) r).texts path = r.texts path :=
  texts_ws _ (nl2_blank n) r path

theorem mag_texts (ag au id : String) (value unc : Option String) (type oid : String) :
    (QuakemlText.magnitudeItem ag au id value unc type oid).magnitudeTexts = (Quakeml.magnitudeItem ag au id value unc type oid).magnitudeTexts := by
  rw [magnitude_texts]
  unfold QuakemlText.magnitudeItem QuakemlText.creationInfo QuakemlText.realElem magEntries
  dsimp only [Item.magnitudeTexts]
  rw [idText_flat]
  simp only [texts_nl, texts_elem, texts_textElem, texts_optElem, texts_nil, ← flat_append]
  rfl

theorem orig_texts (env : Quakeml.Env) (ag au : String) (g : String → Option Cell) :
    (QuakemlText.originItem env ag au g).originTexts = (Quakeml.originItem env ag au g).originTexts := by
  rw [origin_texts]
  unfold QuakemlText.originItem QuakemlText.creationInfo QuakemlText.realElem QuakemlText.quality originEntries
  dsimp only [Item.originTexts]
  rw [idText_flat]
  simp only [texts_nl, texts_elem, texts_textElem, texts_optElem, texts_nil, ← flat_append]
  rfl

theorem text_origins (env : Quakeml.Env) (ag au : String) (g : String → Option Cell) (sec : Dict (Dict Cell)) :
    (QuakemlText.eventTree env ag au g sec).origins = (Quakeml.eventTree env ag au g sec).origins := by
  rw [tree_origins, ← origin_texts, ← orig_texts]
  unfold QuakemlText.eventTree Event.origins
  simp only [List.map_append, List.flatten_append, List.map_cons, List.map_nil, List.map_flatten, List.map_map]
  have h1 : (sec.map ((fun x => (x.map Item.originTexts).flatten) ∘ QuakemlText.secondaryItems ag au (show1 (g "originID")))).flatten = [] := by
    rw [List.flatten_eq_nil_iff]
    intro l hl
    obtain ⟨p, _, rfl⟩ := List.mem_map.1 hl
    rfl
  have h2 : (sec.map (List.map Item.originTexts ∘ QuakemlText.secondaryItems ag au (show1 (g "originID")))).flatten.flatten = [] := by
    rw [List.flatten_eq_nil_iff]
    intro l hl
    obtain ⟨p, hp, hl⟩ := List.mem_flatten.1 hl
    obtain ⟨q, _, rfl⟩ := List.mem_map.1 hp
    simp only [Function.comp, QuakemlText.secondaryItems, List.map_cons, List.map_nil, List.mem_cons, List.not_mem_nil, or_false] at hl
    rcases hl with rfl | rfl | rfl <;> rfl
  rw [h2]
  simp [Item.originTexts, QuakemlText.magnitudeItem]

theorem text_magnitudes (env : Quakeml.Env) (ag au : String) (g : String → Option Cell) (sec : Dict (Dict Cell)) :
    (QuakemlText.eventTree env ag au g sec).magnitudes = (Quakeml.eventTree env ag au g sec).magnitudes := by
  unfold QuakemlText.eventTree Quakeml.eventTree Event.magnitudes
  simp only [List.map_append, List.flatten_append, List.map_cons, List.map_nil, List.map_flatten, List.map_map]
  have h2 : (sec.map (List.map Item.magnitudeTexts ∘ QuakemlText.secondaryItems ag au (show1 (g "originID")))).flatten.flatten =
      (sec.map (Item.magnitudeTexts ∘ Quakeml.secondaryItem ag au (show1 (g "originID")))).flatten := by
    induction sec with
    | nil => rfl
    | cons p sec ih =>
      rw [List.map_cons, List.flatten_cons, List.flatten_append, ih, List.map_cons, List.flatten_cons]
      congr 1
  rw [h2, mag_texts]
  rfl

theorem text_own (env : Quakeml.Env) (ag au : String) (g : String → Option Cell) (sec : Dict (Dict Cell)) :
    (QuakemlText.eventTree env ag au g sec).own = (Quakeml.eventTree env ag au g sec).own := by
  rw [tree_own]
  unfold QuakemlText.eventTree Event.own
  simp only [List.map_append, List.flatten_append, List.map_cons, List.map_nil, List.map_flatten, List.map_map]
  have h2 : (sec.map (List.map Item.eventTexts ∘ QuakemlText.secondaryItems ag au (show1 (g "originID")))).flatten.flatten = [] := by
    rw [List.flatten_eq_nil_iff]
    intro l hl
    obtain ⟨p, hp, hl⟩ := List.mem_flatten.1 hl
    obtain ⟨q, _, rfl⟩ := List.mem_map.1 hp
    simp only [Function.comp, QuakemlText.secondaryItems, List.map_cons, List.map_nil, List.mem_cons, List.not_mem_nil, or_false] at hl
    rcases hl with rfl | rfl | rfl
    · exact texts_nl _ _ _
    · rfl
    · exact texts_nl _ _ _
  rw [h2]
  have e : idText [] (some (show1 (g "eventID"))) = idText "".toList (some (show1 (g "eventID"))) := rfl
  have e2 : ∀ F : Forest, (Item.plain F).eventTexts = F.texts "".toList := fun _ => rfl
  rw [e, idText_flat, e2, e2, e2]
  unfold QuakemlText.creationInfo ownEntries
  simp only [texts_nl, texts_nl2, texts_elem, texts_textElem, texts_nil, ← flat_append, QuakemlText.magnitudeItem, QuakemlText.originItem, Item.eventTexts,
    List.flatten_cons, List.flatten_nil, List.nil_append, List.append_nil]
  rfl

theorem text_plain' (s : List Char) (r : Forest) (h : r.Plain) : (Forest.text s r).Plain := h

theorem creation_plain (k : ℕ) (ag au : String) (rest : Forest) (h : rest.Plain) : (QuakemlText.creationInfo k ag au rest).Plain :=
  elem_plain _ _ _ _ (by decide) (text_plain' _ _ (textElem_plain _ _ _ (by decide) (text_plain' _ _ (textElem_plain _ _ _ (by decide) trivial)))) h

theorem real_plain (tag : String) (v u : Option String) (rest : Forest) (ht : tag ≠ "event" ∧ tag ≠ "origin" ∧ tag ≠ "magnitude" ∧ tag.toList ≠ [])
    (h : rest.Plain) : (QuakemlText.realElem tag v u rest).Plain :=
  elem_plain _ _ _ _ ht (text_plain' _ _ (optElem_plain _ _ _ (by decide) (optElem_plain _ _ _ (by decide) trivial))) h

theorem mag_plain (ag au id : String) (value unc : Option String) (type oid : String) : (QuakemlText.magnitudeItem ag au id value unc type oid).Plain :=
  text_plain' (QuakemlText.nl 16) _ (creation_plain _ _ _ _ (text_plain' _ _ (real_plain _ _ _ _ (by decide)
    (text_plain' _ _ (textElem_plain _ _ _ (by decide) (text_plain' _ _ (textElem_plain _ _ _ (by decide) trivial)))))))

theorem text_tree_plain (env : Quakeml.Env) (ag au : String) (g : String → Option Cell) (sec : Dict (Dict Cell)) :
    (QuakemlText.eventTree env ag au g sec).Plain := by
  intro i hi
  unfold QuakemlText.eventTree at hi
  simp only [List.mem_append, List.mem_cons, List.not_mem_nil, or_false, List.mem_flatten, List.mem_map] at hi
  rcases hi with (((rfl | rfl | rfl) | ⟨l, ⟨p, _, rfl⟩, hi⟩) | (rfl | rfl | rfl))
  · exact text_plain' (QuakemlText.nl 12) _ (creation_plain _ _ _ _ trivial)
  · exact mag_plain _ _ _ _ _ _ _
  · trivial
  · simp only [QuakemlText.secondaryItems, List.mem_cons, List.not_mem_nil, or_false] at hi
    rcases hi with rfl | rfl | rfl
    · trivial
    · exact mag_plain _ _ _ _ _ _ _
    · trivial
  · trivial
  · refine text_plain' (QuakemlText.nl 16) _ (elem_plain _ none _ _ (by decide) (text_plain' _ _ (textElem_plain _ _ _ (by decide) trivial)) (text_plain' _ _ ?_))
    refine real_plain _ _ _ _ (by decide) (text_plain' _ _ (real_plain _ _ _ _ (by decide) (text_plain' _ _ (textElem_plain _ _ _ (by decide)
      (text_plain' _ _ (creation_plain _ _ _ _ (text_plain' _ _ (real_plain _ _ _ _ (by decide) (text_plain' _ _ ?_)))))))))
    refine elem_plain _ none _ _ (by decide) (text_plain' _ _ ?_) trivial
    repeat (refine optElem_plain _ _ _ (by decide) ?_)
    trivial
  · exact text_plain' (QuakemlText.nl2 12) _ (textElem_plain _ _ _ (by decide) (text_plain' _ _ (textElem_plain _ _ _ (by decide)
      (text_plain' _ _ (textElem_plain _ _ _ (by decide) trivial)))))

/-! ### The calls of the template -/

/-- A text that is written and read back: only plain characters, and delivered in a way that `σ` accepts. -/
def Fine {St : Type} (σ : Scan St) (s : String) : Prop := (∀ c ∈ s.toList, Plain c) ∧ (σ.next σ.init s.toList).isSome

theorem nice_text {St : Type} {σ : Scan St} {s : List Char} {r : Forest} (h1 : ∀ c ∈ s, TextChar c) (h2 : ∀ c ∈ s, Blank c) (h : Nice σ r.calls) :
    Nice σ (Forest.text s r).calls := nice_append (a := [.chars s]) (nice_ws h1 h2) h

theorem nice_nl {St : Type} {σ : Scan St} (n : ℕ) {r : Forest} (h : Nice σ r.calls) : Nice σ (Forest.text (QuakemlText.nl n) r).calls :=
  nice_text (nl_text n) (nl_blank n) h

theorem nice_nl2 {St : Type} {σ : Scan St} (n : ℕ) {r : Forest} (h : Nice σ r.calls) : Nice σ (Forest.text (QuakemlText.nl2 n) r).calls :=
  nice_text (nl2_text n) (nl2_blank n) h

theorem nice_elem {St : Type} {σ : Scan St} {tag : String} (ht : isNameB tag.toList = true) {k r : Forest} (hk : Nice σ k.calls) (h : Nice σ r.calls) :
    Nice σ (Forest.elem tag none k r).calls := by
  have e : (Forest.elem tag none k r).calls = (.start tag none :: (k.calls ++ [.stop tag])) ++ r.calls := by
    simp [Forest.calls]
  rw [e]
  exact nice_append (nice_wrap (isName_of ht) (by simp) hk) h

theorem nice_textElem {St : Type} {σ : Scan St} {tag s : String} (ht : isNameB tag.toList = true) (hs : Fine σ s) {r : Forest} (h : Nice σ r.calls) :
    Nice σ (textElem tag s r).calls := by
  have e : (textElem tag s r).calls = [.start tag none, .chars s.toList, .stop tag] ++ r.calls := by
    simp [textElem, Forest.calls]
  rw [e]
  obtain ⟨n, hn⟩ := Option.isSome_iff_exists.1 hs.2
  exact nice_append (nice_value (isName_of ht) hs.1 hn) h

theorem nice_optElem {St : Type} {σ : Scan St} {tag : String} {s : Option String} (ht : isNameB tag.toList = true) (hs : ∀ v, s = some v → Fine σ v) {r : Forest}
    (h : Nice σ r.calls) : Nice σ (optElem tag s r).calls := by
  cases s with
  | none => exact h
  | some v => exact nice_textElem ht (hs v rfl) h

theorem nice_creation {St : Type} {σ : Scan St} (k : ℕ) {ag au : String} (h1 : Fine σ ag) (h2 : Fine σ au) {r : Forest} (h : Nice σ r.calls) :
    Nice σ (QuakemlText.creationInfo k ag au r).calls :=
  nice_elem (by decide) (nice_nl _ (nice_textElem (by decide) h1 (nice_nl _ (nice_textElem (by decide) h2 (nice_nl _ (nice_nil σ)))))) h

theorem nice_real {St : Type} {σ : Scan St} {tag : String} (ht : isNameB tag.toList = true) {v u : Option String} (hv : ∀ s, v = some s → Fine σ s)
    (hu : ∀ s, u = some s → Fine σ s) {r : Forest} (h : Nice σ r.calls) : Nice σ (QuakemlText.realElem tag v u r).calls :=
  nice_elem ht (nice_nl _ (nice_optElem (by decide) hv (nice_optElem (by decide) hu (nice_nil σ)))) h

theorem nice_magnitude {St : Type} {σ : Scan St} {ag au id type oid : String} {v u : Option String} (h1 : Fine σ ag) (h2 : Fine σ au) (hid : Fine σ id)
    (hv : ∀ s, v = some s → Fine σ s) (hu : ∀ s, u = some s → Fine σ s) (ht : Fine σ type) (ho : Fine σ oid) :
    Nice σ (QuakemlText.magnitudeItem ag au id v u type oid).calls := by
  apply nice_wrap (isName_of (by decide)) (by rintro v ⟨⟩; exact hid.1)
  exact nice_nl _ (nice_creation _ h1 h2 (nice_nl _ (nice_real (by decide) hv hu (nice_nl _ (nice_textElem (by decide) ht
    (nice_nl _ (nice_textElem (by decide) ho (nice_nl _ (nice_nil σ)))))))))

/-- An entry whose text is fine. -/
def FineCell {St : Type} (σ : Scan St) (o : Option Cell) : Prop := ∀ s, o = some (.val s) → Fine σ s

/-- The fixed texts. -/
structure Fixed {St : Type} (σ : Scan St) : Prop where
  empty : Fine σ ""
  nan : Fine σ "nan"
  none : Fine σ "None"
  zero : Fine σ "0"

theorem fine_show1 {St : Type} {σ : Scan St} (hf : Fixed σ) {o : Option Cell} (h : FineCell σ o) : Fine σ (show1 o) := by
  match o with
  | .none => exact hf.empty
  | some .nan => exact hf.nan
  | some .none => exact hf.none
  | some (.val s) => exact h s rfl

theorem fine_shown {St : Type} {σ : Scan St} (hf : Fixed σ) {o : Option Cell} (h : FineCell σ o) : ∀ s, shown o = some s → Fine σ s := by
  intro s hs
  match o with
  | .none => cases hs
  | some .nan => cases hs
  | some .none => cases hs; exact hf.none
  | some (.val v) =>
    simp only [shown, Option.some.injEq] at hs
    rw [← hs]
    exact h v rfl

theorem fine_shownInt {St : Type} {σ : Scan St} (hf : Fixed σ) (env : Quakeml.Env) (hi : ∀ s, Fine σ (env.toInt s)) {o : Option Cell} :
    ∀ s, shownInt env o = some s → Fine σ s := by
  intro s hs
  match o with
  | .none => cases hs
  | some .nan => cases hs
  | some .none => cases hs; exact hf.zero
  | some (.val v) =>
    simp only [shownInt, Option.some.injEq] at hs
    rw [← hs]
    exact hi v

theorem nice_quality {St : Type} {σ : Scan St} (hf : Fixed σ) (env : Quakeml.Env) (hi : ∀ s, Fine σ (env.toInt s)) {g : String → Option Cell} (hg : ∀ c, FineCell σ (g c))
    {r : Forest} (h : Nice σ r.calls) : Nice σ (QuakemlText.quality env g r).calls := by
  refine nice_elem (by decide) (nice_nl _ ?_) h
  iterate 5 refine nice_optElem (by decide) (fine_shownInt hf env hi) ?_
  iterate 6 refine nice_optElem (by decide) (fine_shown hf (hg _)) ?_
  exact nice_nil σ

theorem nice_origin {St : Type} {σ : Scan St} (hf : Fixed σ) (env : Quakeml.Env) (hi : ∀ s, Fine σ (env.toInt s)) (ht : ∀ s, Fine σ (env.strftime s)) {ag au : String}
    (h1 : Fine σ ag) (h2 : Fine σ au) {g : String → Option Cell} (hg : ∀ c, FineCell σ (g c)) : Nice σ (QuakemlText.originItem env ag au g).calls := by
  apply nice_wrap (isName_of (by decide)) (by rintro v ⟨⟩; exact (fine_show1 hf (hg _)).1)
  refine nice_nl _ (nice_elem (by decide) (nice_nl _ (nice_textElem (by decide) (ht _) (nice_nl _ (nice_nil σ)))) ?_)
  refine nice_nl _ (nice_real (by decide) (fine_shown hf (hg _)) (fine_shown hf (hg _)) ?_)
  refine nice_nl _ (nice_real (by decide) (fine_shown hf (hg _)) (fine_shown hf (hg _)) ?_)
  refine nice_nl _ (nice_textElem (by decide) (fine_show1 hf (hg _)) ?_)
  refine nice_nl _ (nice_creation _ h1 h2 ?_)
  refine nice_nl _ (nice_real (by decide) (fine_shown hf (hg _)) (fine_shown hf (hg _)) ?_)
  exact nice_nl _ (nice_quality hf env hi hg (nice_nl _ (nice_nil σ)))

theorem nice_event {St : Type} {σ : Scan St} (hf : Fixed σ) (env : Quakeml.Env) (hi : ∀ s, Fine σ (env.toInt s)) (ht : ∀ s, Fine σ (env.strftime s)) {ag au : String}
    (h1 : Fine σ ag) (h2 : Fine σ au) {g : String → Option Cell} (hg : ∀ c, FineCell σ (g c)) {sec : Dict (Dict Cell)}
    (hs : ∀ p ∈ sec, Fine σ p.1 ∧ ∀ k, FineCell σ (p.2.get? k)) : Nice σ (QuakemlText.eventTree env ag au g sec).calls := by
  apply nice_wrap (isName_of (by decide))
  · rintro v ⟨⟩
    exact (fine_show1 hf (hg _)).1
  · unfold itemsCalls
    apply nice_flatten
    intro a ha
    obtain ⟨i, hi', rfl⟩ := List.mem_map.1 ha
    unfold QuakemlText.eventTree at hi'
    simp only [List.mem_append, List.mem_cons, List.not_mem_nil, or_false, List.mem_flatten, List.mem_map] at hi'
    rcases hi' with (((rfl | rfl | rfl) | ⟨l, ⟨p, hp, rfl⟩, hi'⟩) | (rfl | rfl | rfl))
    · exact nice_nl _ (nice_creation _ h1 h2 (nice_nl2 _ (nice_nil σ)))
    · exact nice_magnitude h1 h2 (fine_show1 hf (hg _)) (fine_shown hf (hg _)) (fine_shown hf (hg _)) (fine_show1 hf (hg _)) (fine_show1 hf (hg _))
    · exact nice_nl2 _ (nice_nil σ)
    · obtain ⟨s1, s2⟩ := hs p hp
      simp only [QuakemlText.secondaryItems, List.mem_cons, List.not_mem_nil, or_false] at hi'
      rcases hi' with rfl | rfl | rfl
      · exact nice_nl _ (nice_nil σ)
      · exact nice_magnitude h1 h2 (fine_show1 hf (s2 _)) (fine_shown hf (s2 _)) (fine_shown hf (s2 _)) s1 (fine_show1 hf (hg _))
      · exact nice_nl _ (nice_nil σ)
    · exact nice_nl2 _ (nice_nil σ)
    · exact nice_origin hf env hi ht h1 h2 hg
    · exact nice_nl2 _ (nice_textElem (by decide) (fine_show1 hf (hg _)) (nice_nl _ (nice_textElem (by decide) (fine_show1 hf (hg _))
        (nice_nl _ (nice_textElem (by decide) (fine_show1 hf (hg _)) (nice_nl2 _ (nice_nil σ)))))))

/-! ### The two scans -/

theorem fine_oneWord {s : String} (h : ∀ c ∈ s.toList, Plain c) : Fine oneWord s := by
  refine ⟨h, ?_⟩
  by_cases hb : ∀ c ∈ s.toList, Blank c
  · rw [oneWord.blank _ hb]
    rfl
  · have : oneWord.next oneWord.init s.toList = some true := (if_neg hb).trans (if_neg (by simp [oneWord]))
    rw [this]
    rfl

theorem nexts_inside (s : List Char) (h : ∀ c ∈ s, ¬ Blank c) : Word.inside.nexts s = some .inside := by
  induction s with
  | nil => rfl
  | cons c s ih =>
    have e : Word.inside.next c = some .inside := by simp [Word.next, h c (by simp)]
    rw [Word.nexts, e]
    exact ih fun d hd => h d (by simp [hd])

theorem nexts_inside_blank (s : List Char) (h : ∀ c ∈ s, Blank c) : (Word.inside.nexts s).isSome := by
  cases s with
  | nil => rfl
  | cons c s =>
    have e : Word.inside.next c = some .after := by simp [Word.next, h c (by simp)]
    rw [Word.nexts, e, Option.bind_some, nexts_blank _ (by simp) s fun d hd => h d (by simp [hd])]
    rfl

theorem fine_noGap {s : String} (h : ∀ c ∈ s.toList, Plain c) (hg : ∀ c ∈ strip s.toList, ¬ Blank c) : Fine noGap s := by
  refine ⟨h, ?_⟩
  show (Word.before.nexts s.toList).isSome
  obtain ⟨a, b, hs, ha, hb, -, -⟩ := strip_trimmed s.toList
  rw [hs, List.append_assoc, nexts_append, nexts_blank _ (by simp) a ha, Option.bind_some, nexts_append]
  cases e : strip s.toList with
  | nil =>
    rw [Word.nexts, Option.bind_some, nexts_blank _ (by simp) b hb]
    rfl
  | cons c t =>
    rw [e] at hg
    have e1 : Word.before.next c = some .inside := by simp [Word.next, hg c (by simp)]
    rw [Word.nexts, e1, Option.bind_some, nexts_inside t fun d hd => hg d (by simp [hd])]
    exact nexts_inside_blank b hb

instance (c : Char) : Decidable (Plain c) := by unfold Plain; infer_instance

theorem fixed_oneWord : Fixed oneWord :=
  ⟨fine_oneWord (by decide), fine_oneWord (by decide), fine_oneWord (by decide), fine_oneWord (by decide)⟩

instance (c : Char) : Decidable (Blank c) := by unfold Blank; infer_instance

theorem fixed_noGap : Fixed noGap :=
  ⟨fine_noGap (by decide) (by decide), fine_noGap (by decide) (by decide), fine_noGap (by decide) (by decide), fine_noGap (by decide) (by decide)⟩

/-! ### The frame -/

/-- The event that is written for a row. -/
noncomputable def textOf (env : Quakeml.Env) (ag au : String) (f : Frame Cell) (p : (String → Cell) × ℕ) : Event :=
  QuakemlText.eventTree env ag au (entry env f p.2 p.1) (secMags (keys f.cols) (withIds env f p.2 p.1))

theorem text_events_eq (env : Quakeml.Env) (ag au : String) (f : Frame Cell) : QuakemlText.events env ag au f = (kept f).map (textOf env ag au f) := by
  unfold QuakemlText.events kept
  dsimp only
  rw [createIds_rows]
  have hc : ∀ i r, complete (withIds env f i r) = decide (Located r) := by
    intro i r
    rw [Bool.eq_iff_iff, complete_iff, withIds_located, decide_eq_true_eq]
  have := filter_mapIdx f.rows (withIds env f) complete (fun r => decide (Located r)) hc 0
  simp only [Nat.add_zero] at this
  rw [this, List.map_map]
  apply List.map_congr_left
  intro p _
  simp only [Function.comp, textOf, cell_entry]

theorem textOf_texts (env : Quakeml.Env) (ag au : String) (f : Frame Cell) (p : (String → Cell) × ℕ) :
    (textOf env ag au f p).own = (treeOf env ag au f p).own ∧ (textOf env ag au f p).origins = (treeOf env ag au f p).origins ∧
      (textOf env ag au f p).magnitudes = (treeOf env ag au f p).magnitudes :=
  ⟨text_own _ _ _ _ _, text_origins _ _ _ _ _, text_magnitudes _ _ _ _ _⟩

theorem look_cell (ks : List String) (r : String → Cell) (t k : String) (v : Cell) (h : look (secMags ks r) t k = some v) : ∃ m ∈ ks, v = r m := by
  unfold secMags at h
  rw [look_fold] at h
  have hnil : look ([] : Dict (Dict Cell)) t k = none := rfl
  rw [hnil, Option.or_none] at h
  obtain ⟨m, hm, rfl⟩ := Option.map_eq_some_iff.1 h
  exact ⟨m, (List.mem_filter.1 (List.mem_of_getLast? hm)).1, rfl⟩

/-- All texts of a catalogue are fine. -/
structure FineFrame {St : Type} (σ : Scan St) (env : Quakeml.Env) (ag au : String) (f : Frame Cell) (T : List String) : Prop where
  agency : Fine σ ag
  author : Fine σ au
  uuid : ∀ c i, Fine σ (env.uuid c i)
  strftime : ∀ s, Fine σ (env.strftime s)
  toInt : ∀ s, Fine σ (env.toInt s)
  types : ∀ t ∈ T, Fine σ t
  cells : ∀ p ∈ kept f, ∀ c ∈ f.cols, ∀ s, p.1 c = .val s → Fine σ s

theorem nice_row {St : Type} {σ : Scan St} (hf : Fixed σ) {env : Quakeml.Env} {ag au : String} {f : Frame Cell} {T : List String} (h : FineFrame σ env ag au f T)
    (hstd : Standard f.cols T) (p : (String → Cell) × ℕ) (hp : p ∈ kept f) : Nice σ (textOf env ag au f p).calls := by
  unfold textOf
  apply nice_event hf env h.toInt h.strftime h.agency h.author
  · intro c s hs
    unfold entry at hs
    split at hs
    · rename_i hc
      simp only [Option.some.injEq] at hs
      exact h.cells p hp c hc s hs
    · split at hs
      · simp only [Option.some.injEq, Cell.val.injEq] at hs
        rw [← hs]
        exact h.uuid _ _
      · cases hs
  · intro q hq
    have hget := get_of_mem (secMags_WF _ _) hq
    constructor
    · exact h.types _ ((mem_secMags f.cols T hstd _ _).1 ⟨_, hget⟩).1
    · intro k s hs
      have hl : look (secMags (keys f.cols) (withIds env f p.2 p.1)) q.1 k = some (.val s) := by
        unfold look
        rw [hget]
        exact hs
      obtain ⟨m, hm, e⟩ := look_cell _ _ _ _ _ hl
      unfold withIds at e
      split at e
      · cases e
        exact h.uuid _ _
      · exact h.cells p hp m (List.mem_of_mem_filter hm) s e.symm

end SeismoStats.XmlText
