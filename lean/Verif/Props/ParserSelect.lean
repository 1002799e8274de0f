/-
Property C48: which origin and which magnitudes a record carries.
-/
import Verif.Proofs.ParserSelect
import Verif.Props.Parser
import Verif.Proofs.Py
import Mathlib.Data.List.Dedup
import Mathlib.Data.List.Nodup
import Mathlib.Tactic.Linarith
import Mathlib.Tactic.Convert

namespace SeismoStats.Props
open SeismoStats SeismoStats.Parser SeismoStats.Spec.Parser
open Classical

theorem item_ok {V : Type} (d : Dict V) (k : String) (v : V) : item d k = .ok v ↔ Dict.get? d k = some v := by
  unfold item
  cases Dict.get? d k with
  | none => simp
  | some w => simp

theorem findById_some (key : String) (id : Option String) (l : List Elem) (m : Elem)
    (h : findById key id l = .ok (some m)) : m ∈ l ∧ ∃ v, Dict.get? m key = some v ∧ id = some v := by
  induction l with
  | nil => simp [findById] at h
  | cons x r ih =>
    simp only [findById] at h
    cases hx : item x key with
    | error e => rw [hx] at h; cases h
    | ok v =>
      rw [hx] at h
      dsimp only at h
      split at h
      · rename_i hv
        cases h
        exact ⟨by simp, v, (item_ok _ _ _).1 hx, hv⟩
      · obtain ⟨h1, h2⟩ := ih h
        exact ⟨by simp [h1], h2⟩

theorem findById_none (key : String) (id : Option String) (l : List Elem)
    (h : findById key id l = .ok none) : ∀ m ∈ l, ∃ v, Dict.get? m key = some v ∧ id ≠ some v := by
  induction l with
  | nil => simp
  | cons x r ih =>
    simp only [findById] at h
    cases hx : item x key with
    | error e => rw [hx] at h; cases h
    | ok v =>
      rw [hx] at h
      dsimp only at h
      split at h
      · cases h
      · rename_i hv
        intro m hm
        rcases List.mem_cons.1 hm with rfl | hm'
        · exact ⟨v, (item_ok _ _ _).1 hx, hv⟩
        · exact ih h m hm'

theorem filterPy_ok {α : Type} (p : α → Py Bool) (l r : List α) (h : filterPy p l = .ok r) :
    (∀ a ∈ l, ∃ b, p a = .ok b) ∧ r = l.filter fun a => decide (p a = .ok true) := by
  induction l generalizing r with
  | nil => cases h; simp
  | cons a l ih =>
    simp only [filterPy] at h
    cases hp : p a with
    | error e => rw [hp] at h; cases h
    | ok b =>
      rw [hp] at h
      dsimp only at h
      cases hf : filterPy p l with
      | error e => rw [hf] at h; cases h
      | ok l' =>
        rw [hf] at h
        dsimp only at h
        obtain ⟨h1, h2⟩ := ih l' hf
        refine ⟨?_, ?_⟩
        · intro x hx
          rcases List.mem_cons.1 hx with rfl | hx'
          · exact ⟨b, hp⟩
          · exact h1 x hx'
        · cases h
          cases b
          · simp [hp, h2]
          · simp [hp, h2]

/-- The type of a magnitude. -/
def typeOf (m : Elem) : Option String := Dict.get? m "magnitudetype"

/-- The id of a magnitude. -/
def idOf (m : Elem) : Option String := Dict.get? m "magnitudepublicID"

/-- `p` is the magnitude whose id the event names as preferred, if there is one. -/
def IsPreferred (event : Elem) (mags : List Elem) (p : Option Elem) : Prop :=
  match p with
  | some m => m ∈ mags ∧ idOf m = Dict.get? event "preferredMagnitudeID"
  | none => ∀ m ∈ mags, idOf m ≠ Dict.get? event "preferredMagnitudeID"

theorem keepMag_true (id t : Option String) (m : Elem) (h : ∃ b, keepMag id t m = .ok b) :
    (∃ v, typeOf m = some v) ∧ (keepMag id t m = .ok true ↔ (t ≠ typeOf m ∨ (id = idOf m))) := by
  unfold keepMag at h ⊢
  unfold typeOf idOf
  cases h1 : item m "magnitudetype" with
  | error e => rw [h1] at h; obtain ⟨b, hb⟩ := h; cases hb
  | ok v =>
    rw [h1] at h
    have hv := (item_ok _ _ _).1 h1
    rw [hv]
    dsimp only at h ⊢
    refine ⟨⟨v, rfl⟩, ?_⟩
    by_cases ht : t = some v
    · rw [if_neg (by simpa using ht)] at h ⊢
      cases h2 : item m "magnitudepublicID" with
      | error e => rw [h2] at h; obtain ⟨b, hb⟩ := h; cases hb
      | ok w =>
        rw [(item_ok _ _ _).1 h2]
        dsimp only
        constructor
        · intro hh
          right
          simpa using Except.ok.inj hh
        · rintro (hh | hh)
          · exact absurd ht hh
          · simp [hh]
    · rw [if_pos ht]
      simp [ht]

theorem prefType_some (m : Elem) (t : Option String) (h : prefType (some m) = .ok t) : t = typeOf m ∧ ∃ v, t = some v := by
  unfold prefType at h
  dsimp only at h
  cases h1 : item m "magnitudetype" with
  | error e => rw [h1] at h; cases h
  | ok v =>
    rw [h1] at h
    cases h
    exact ⟨((item_ok _ _ _).1 h1).symm, v, rfl⟩

/-- What the selection of the preferred magnitude returns. -/
theorem selectMagnitude_ok (mags : List Elem) (id : Option String) (p : Option Elem) (l : List Elem)
    (h : selectMagnitude mags id = .ok (p, l)) :
    (match p with
      | some m => m ∈ mags ∧ id = idOf m ∧ (∃ v, id = some v) ∧
        l = mags.filter (fun x => decide (typeOf m ≠ typeOf x ∨ id = idOf x))
      | none => (∀ m ∈ mags, ∃ v, idOf m = some v ∧ id ≠ some v) ∧ l = mags) ∧
    ∀ m ∈ mags, ∃ v, typeOf m = some v := by
  unfold selectMagnitude at h
  cases h1 : findById "magnitudepublicID" id mags with
  | error e => rw [h1] at h; cases h
  | ok q =>
    rw [h1] at h
    dsimp only at h
    cases h2 : prefType q with
    | error e => rw [h2] at h; cases h
    | ok t =>
      rw [h2] at h
      dsimp only at h
      cases h3 : filterPy (keepMag id t) mags with
      | error e => rw [h3] at h; cases h
      | ok l' =>
        rw [h3] at h
        cases h
        obtain ⟨h4, h5⟩ := filterPy_ok _ _ _ h3
        refine ⟨?_, fun m hm => (keepMag_true id t m (h4 m hm)).1⟩
        cases p with
        | none =>
          refine ⟨findById_none _ _ _ h1, ?_⟩
          cases h2
          rw [h5]
          rw [List.filter_eq_self]
          intro m hm
          obtain ⟨⟨v, hv⟩, hk⟩ := keepMag_true id none m (h4 m hm)
          rw [decide_eq_true_eq]
          exact hk.2 (Or.inl (by rw [hv]; simp))
        | some m =>
          obtain ⟨h6, v, h7, h8⟩ := findById_some _ _ _ _ h1
          refine ⟨h6, by rw [h8]; exact h7.symm, ⟨v, h8⟩, ?_⟩
          rw [h5]
          apply List.filter_congr
          intro x hx
          rw [(prefType_some m t h2).1.symm]
          exact decide_eq_decide.2 (keepMag_true id t x (h4 x hx)).2

theorem filter_unique {α β : Type} (f : α → β) (l : List α) (m : α) (hm : m ∈ l) (hn : (l.map f).Nodup) :
    l.filter (fun x => decide (f x = f m)) = [m] := by
  induction l with
  | nil => simp at hm
  | cons a l ih =>
    rw [List.map_cons, List.nodup_cons] at hn
    rcases List.mem_cons.1 hm with rfl | hm'
    · rw [List.filter_cons_of_pos (by simp)]
      congr 1
      rw [List.filter_eq_nil_iff]
      intro x hx hc
      apply hn.1
      rw [decide_eq_true_eq] at hc
      rw [← hc]
      exact List.mem_map.2 ⟨x, hx, rfl⟩
    · rw [List.filter_cons_of_neg, ih hm' hn.2]
      rw [decide_eq_true_eq]
      intro hc
      apply hn.1
      rw [hc]
      exact List.mem_map.2 ⟨m, hm', rfl⟩

/-! ### The latest magnitude -/

theorem keyLt_trans {a b c : ℝ × ℝ} (h1 : keyLt a b) (h2 : keyLt b c) : keyLt a c := by
  unfold keyLt at *
  rcases h1 with h1 | ⟨h1, h1'⟩ <;> rcases h2 with h2 | ⟨h2, h2'⟩
  · left; linarith
  · left; linarith
  · left; linarith
  · right; exact ⟨by linarith, by linarith⟩

theorem keyLt_of_not {a b c : ℝ × ℝ} (h1 : ¬ keyLt b a) (h2 : keyLt b c) : keyLt a c := by
  unfold keyLt at *
  push Not at h1
  obtain ⟨h1, h1'⟩ := h1
  rcases h2 with h2 | ⟨h2, h2'⟩
  · left; linarith
  · rcases h1.lt_or_eq with h | h
    · left; linarith
    · right; exact ⟨by linarith, by have := h1' h.symm; linarith⟩

theorem not_keyLt_trans {a b c : ℝ × ℝ} (h1 : ¬ keyLt a b) (h2 : ¬ keyLt b c) : ¬ keyLt a c := by
  intro h
  by_cases hba : keyLt b a
  · exact h2 (keyLt_trans hba h)
  · exact h2 (keyLt_of_not h1 h)

/-- The first element with the largest key. -/
theorem firstMax_spec (b : Elem × ℝ × ℝ) (l : List (Elem × ℝ × ℝ)) :
    ∃ pre post, b :: l = pre ++ firstMax b l :: post ∧ (∀ x ∈ pre, keyLt x.2 (firstMax b l).2) ∧
      ∀ x ∈ post, ¬ keyLt (firstMax b l).2 x.2 := by
  suffices H : ∀ (l : List (Elem × ℝ × ℝ)) (b : Elem × ℝ × ℝ) (before after : List (Elem × ℝ × ℝ)),
      (∀ x ∈ before, keyLt x.2 b.2) → (∀ x ∈ after, ¬ keyLt b.2 x.2) →
      ∃ pre post, before ++ b :: after ++ l = pre ++ firstMax b l :: post ∧
        (∀ x ∈ pre, keyLt x.2 (firstMax b l).2) ∧ ∀ x ∈ post, ¬ keyLt (firstMax b l).2 x.2 by
    obtain ⟨pre, post, h1, h2, h3⟩ := H l b [] [] (by simp) (by simp)
    exact ⟨pre, post, by simpa using h1, h2, h3⟩
  intro l
  induction l with
  | nil => intro b before after h1 h2; exact ⟨before, after, by simp [firstMax], h1, h2⟩
  | cons m r ih =>
    intro b before after h1 h2
    rw [firstMax]
    by_cases hk : keyLt b.2 m.2
    · rw [if_pos hk]
      obtain ⟨pre, post, e, h3, h4⟩ := ih m (before ++ b :: after) [] (by
        intro x hx
        rcases List.mem_append.1 hx with hx | hx
        · exact keyLt_trans (h1 x hx) hk
        · rcases List.mem_cons.1 hx with rfl | hx
          · exact hk
          · exact keyLt_of_not (h2 x hx) hk) (by simp)
      exact ⟨pre, post, by simpa using e, h3, h4⟩
    · rw [if_neg hk]
      obtain ⟨pre, post, e, h3, h4⟩ := ih b before (after ++ [m]) h1 (by
        intro x hx
        rcases List.mem_append.1 hx with hx | hx
        · exact h2 x hx
        · rw [List.mem_singleton] at hx; subst hx; exact hk)
      exact ⟨pre, post, by simpa using e, h3, h4⟩

theorem keyPart_rank (l : List Elem) (f : String → Py ℝ) (k : String) (m : Elem) (v : ℝ) (_hm : m ∈ l)
    (h : keyPart (l.all fun x => Dict.has x k) f k m = .ok v) : v = rank l f k m := by
  unfold keyPart at h
  unfold rank
  by_cases hp : ∀ x ∈ l, (Dict.get? x k).isSome
  · have hall : (l.all fun x => Dict.has x k) = true := by
      rw [List.all_eq_true]; exact hp
    rw [if_pos hp]
    rw [hall, if_pos rfl] at h
    cases hi : item m k with
    | error e => rw [hi] at h; cases h
    | ok w =>
      rw [hi] at h
      rw [(item_ok _ _ _).1 hi]
      dsimp only at h ⊢
      rw [h]; rfl
  · have hall : (l.all fun x => Dict.has x k) = false := by
      rw [Bool.eq_false_iff]; intro hc; rw [List.all_eq_true] at hc; exact hp hc
    rw [if_neg hp]
    rw [hall] at h
    simp only [Bool.false_eq_true, if_false] at h
    exact (Except.ok.inj h).symm

theorem sortKey_rank (env : Env) (l : List Elem) (m : Elem) (hm : m ∈ l) (v : ℝ × ℝ)
    (h : sortKey env (l.all fun x => Dict.has x "magnitudecreationInfoversion")
      (l.all fun x => Dict.has x "magnitudecreationInfocreationTime") m = .ok v) :
    v = (rank l env.float "magnitudecreationInfoversion" m, rank l env.date "magnitudecreationInfocreationTime" m) := by
  unfold sortKey at h
  cases h1 : keyPart (l.all fun x => Dict.has x "magnitudecreationInfoversion") env.float "magnitudecreationInfoversion" m with
  | error e => rw [h1] at h; cases h
  | ok a =>
    rw [h1] at h
    dsimp only at h
    cases h2 : keyPart (l.all fun x => Dict.has x "magnitudecreationInfocreationTime") env.date "magnitudecreationInfocreationTime" m with
    | error e => rw [h2] at h; cases h
    | ok b =>
      rw [h2] at h
      cases h
      rw [keyPart_rank _ _ _ _ _ hm h1, keyPart_rank _ _ _ _ _ hm h2]

theorem forall₂_zip_mem {α β : Type} {R : α → β → Prop} {l : List α} {r : List β} (h : List.Forall₂ R l r) :
    ∀ x ∈ List.zip l r, x.1 ∈ l ∧ R x.1 x.2 := by
  induction h with
  | nil => simp
  | cons h1 h2 ih =>
    intro x hx
    rw [List.zip_cons_cons] at hx
    rcases List.mem_cons.1 hx with rfl | hx
    · exact ⟨by simp, h1⟩
    · exact ⟨by simp [(ih x hx).1], (ih x hx).2⟩

theorem forall₂_zip_fst {α β : Type} {R : α → β → Prop} {l : List α} {r : List β} (h : List.Forall₂ R l r) :
    (List.zip l r).map Prod.fst = l := by
  induction h with
  | nil => rfl
  | cons h1 h2 ih => simp [ih]

theorem latest_spec (env : Env) (l sel : List Elem) (h : latest env l = .ok sel) :
    ∃ m, sel = [m] ∧ Latest env l m := by
  unfold latest at h
  match l, h with
  | [], h => cases h
  | [m], h =>
    cases h
    exact ⟨m, rfl, [], [], rfl, by simp, by simp⟩
  | m :: m' :: r, h =>
    dsimp only at h
    generalize hl : m :: m' :: r = l at h
    have hkeys : ∀ (keys : List (ℝ × ℝ)), (l.mapM (sortKey env (l.all fun x => Dict.has x "magnitudecreationInfoversion")
        (l.all fun x => Dict.has x "magnitudecreationInfocreationTime")) : Py (List (ℝ × ℝ))) = .ok keys →
        (List.zip l keys).map Prod.fst = l ∧ ∀ x ∈ List.zip l keys, x.2 =
          (rank l env.float "magnitudecreationInfoversion" x.1, rank l env.date "magnitudecreationInfocreationTime" x.1) := by
      intro keys hk
      have hf := (mapM_ok_iff _ _ _).1 hk
      refine ⟨forall₂_zip_fst hf, fun x hx => ?_⟩
      obtain ⟨h1, h2⟩ := forall₂_zip_mem hf x hx
      exact sortKey_rank env l x.1 h1 x.2 h2
    cases hk : (l.mapM (sortKey env (l.all fun x => Dict.has x "magnitudecreationInfoversion")
        (l.all fun x => Dict.has x "magnitudecreationInfocreationTime")) : Py (List (ℝ × ℝ))) with
    | error e => rw [hk] at h; cases h
    | ok keys =>
      rw [hk] at h
      dsimp only at h
      obtain ⟨hz1, hz2⟩ := hkeys keys hk
      cases hz : List.zip l keys with
      | nil => rw [hz] at h; cases h
      | cons b r' =>
        rw [hz] at h hz1 hz2
        cases h
        obtain ⟨pre, post, e, h1, h2⟩ := firstMax_spec b r'
        have hmem : firstMax b r' ∈ b :: r' := by rw [e]; simp
        refine ⟨_, rfl, pre.map Prod.fst, post.map Prod.fst, ?_, ?_, ?_⟩
        · rw [← hz1, e]; simp
        · intro x hx
          obtain ⟨y, hy, rfl⟩ := List.mem_map.1 hx
          have hy' : y ∈ b :: r' := by rw [e]; simp [hy]
          have := h1 y hy
          rw [hz2 y hy', hz2 _ hmem] at this
          exact this
        · intro x hx
          obtain ⟨y, hy, rfl⟩ := List.mem_map.1 hx
          have hy' : y ∈ b :: r' := by rw [e]; simp [hy]
          have := h2 y hy
          rw [hz2 y hy', hz2 _ hmem] at this
          exact this

/-- The magnitudes of a type. -/
def withType (l : List Elem) (t : String) : List Elem := l.filter fun m => decide (typeOf m = some t)

theorem ofType_eq (l : List Elem) (t : String) : ofType l t = withType l t := by
  unfold ofType withType
  apply List.filter_congr
  intro m _
  unfold typeOf
  exact decide_eq_decide.2 Iff.rfl

theorem selectSecondary_spec (env : Env) (hperm : ∀ l, (env.setOrder l).Perm l) (l sel : List Elem)
    (h : selectSecondary env l = .ok sel) (t : String) :
    (withType l t = [] → withType sel t = []) ∧
    (withType l t ≠ [] → ∃ m, withType sel t = [m] ∧ Latest env (withType l t) m) ∧ ∀ m ∈ sel, m ∈ l := by
  unfold selectSecondary at h
  cases hts : (l.mapM (fun m => item m "magnitudetype") : Py (List String)) with
  | error e => rw [hts] at h; cases h
  | ok ts =>
    rw [hts] at h
    dsimp only at h
    have hf := (mapM_ok_iff _ _ _).1 hts
    have htypes : l.map typeOf = ts.map some := by
      clear h hts
      induction hf with
      | nil => rfl
      | cons h1 _ ih => simp only [List.map_cons, ih, typeOf, (item_ok _ _ _).1 h1]
    split at h
    · rename_i hlen
      cases h
      refine ⟨id, fun hne => ?_, fun m hm => hm⟩
      have hnd : ts.Nodup := by
        have h1 : ts.length = l.length := hf.length_eq.symm
        rw [← h1] at hlen
        have h2 := (List.dedup_sublist ts).eq_of_length hlen
        rw [← h2]
        exact List.nodup_dedup ts
      have hnd' : (l.map typeOf).Nodup := by
        rw [htypes]
        exact hnd.map (Option.some_injective _)
      obtain ⟨m, r, hmr⟩ := List.exists_cons_of_ne_nil hne
      have hm : m ∈ withType l t := by rw [hmr]; simp
      unfold withType at hm
      rw [List.mem_filter, decide_eq_true_eq] at hm
      have : withType l t = [m] := by
        unfold withType
        rw [← hm.2]
        convert filter_unique typeOf l m hm.1 hnd'
      refine ⟨m, this, ?_⟩
      rw [this]
      exact ⟨[], [], rfl, by simp, by simp⟩
    · cases hm : ((env.setOrder ts.dedup).mapM (fun t => latest env (ofType l t)) : Py (List (List Elem))) with
      | error e => rw [hm] at h; cases h
      | ok ll =>
        rw [hm] at h
        cases h
        have hf2 := (mapM_ok_iff _ _ _).1 hm
        have hnd : (env.setOrder ts.dedup).Nodup := (hperm _).nodup_iff.2 (List.nodup_dedup ts)
        have hmemt : ∀ u, u ∈ env.setOrder ts.dedup ↔ u ∈ ts := by
          intro u; rw [(hperm _).mem_iff, List.mem_dedup]
        have hin : ∀ u, u ∈ ts ↔ withType l u ≠ [] := by
          intro u
          rw [List.ne_nil_iff_exists_cons]
          have : u ∈ ts ↔ some u ∈ l.map typeOf := by
            rw [htypes]; simp
          rw [this]
          constructor
          · intro hu
            obtain ⟨m, hm1, hm2⟩ := List.mem_map.1 hu
            have : m ∈ withType l u := by
              unfold withType; rw [List.mem_filter]; exact ⟨hm1, by simpa using hm2⟩
            obtain ⟨a, b, hab⟩ := List.exists_cons_of_ne_nil (List.ne_nil_of_mem this)
            exact ⟨a, b, hab⟩
          · rintro ⟨a, b, hab⟩
            have : a ∈ withType l u := by rw [hab]; simp
            unfold withType at this
            rw [List.mem_filter, decide_eq_true_eq] at this
            exact List.mem_map.2 ⟨a, this.1, this.2⟩
        clear hm hmemt hts htypes hf
        have key : ∀ (us : List String) (ll : List (List Elem)), us.Nodup →
            List.Forall₂ (fun t a => latest env (ofType l t) = .ok a) us ll →
            (t ∉ us → withType ll.flatten t = []) ∧
            (t ∈ us → ∃ m, withType ll.flatten t = [m] ∧ Latest env (withType l t) m) ∧ ∀ m ∈ ll.flatten, m ∈ l := by
          intro us ll hus hfor
          induction hfor with
          | nil => simp [withType]
          | @cons u a us' ll' h1 h2 ih =>
            rw [List.nodup_cons] at hus
            obtain ⟨ih1, ih2, ih3⟩ := ih hus.2
            obtain ⟨m, rfl, hlat⟩ := latest_spec env _ _ h1
            rw [ofType_eq] at hlat
            have hmu : m ∈ withType l u := by
              obtain ⟨pre, post, e, _, _⟩ := hlat
              rw [e]; simp
            have hmu' := hmu
            unfold withType at hmu
            rw [List.mem_filter, decide_eq_true_eq] at hmu
            have hsplit : withType (([m] :: ll').flatten) t = (if u = t then [m] else []) ++ withType ll'.flatten t := by
              unfold withType
              rw [List.flatten_cons, List.filter_append]
              congr 1
              by_cases hut : u = t
              · rw [if_pos hut, List.filter_cons_of_pos (by rw [decide_eq_true_eq, hmu.2, hut])]; rfl
              · rw [if_neg hut, List.filter_cons_of_neg]; · rfl
                rw [decide_eq_true_eq, hmu.2]; simpa using hut
            rw [hsplit]
            refine ⟨?_, ?_, ?_⟩
            · intro ht
              rw [List.mem_cons, not_or] at ht
              rw [if_neg (fun hc => ht.1 hc.symm), ih1 ht.2]; rfl
            · intro ht
              by_cases hut : u = t
              · subst hut
                rw [if_pos rfl, ih1 hus.1]
                exact ⟨m, rfl, hlat⟩
              · rw [if_neg hut]
                rcases List.mem_cons.1 ht with h | h
                · exact absurd h.symm hut
                · exact ih2 h
            · intro x hx
              rw [List.flatten_cons, List.mem_append] at hx
              rcases hx with hx | hx
              · rw [List.mem_singleton] at hx; subst hx; exact hmu.1
              · exact ih3 x hx
        obtain ⟨k1, k2, k3⟩ := key _ _ hnd hf2
        refine ⟨?_, ?_, k3⟩
        · intro hnil
          apply k1
          rw [(hperm _).mem_iff, List.mem_dedup, hin]
          exact fun hc => hc hnil
        · intro hne
          apply k2
          rw [(hperm _).mem_iff, List.mem_dedup, hin]
          exact hne

/-! ### Names of columns -/

theorem suffix_form (t c k : String) (h : (c, k) ∈ secondaryColumns t) :
    ∃ suf : List Char, c.toList = "magnitude_".toList ++ t.toList ++ suf ∧ (suf = [] ∨ suf.head? = some '_') := by
  simp only [secondaryColumns, List.mem_cons, Prod.mk.injEq, List.not_mem_nil, or_false] at h
  rcases h with ⟨rfl, _⟩ | ⟨rfl, _⟩ | ⟨rfl, _⟩ | ⟨rfl, _⟩ | ⟨rfl, _⟩ | ⟨rfl, _⟩
  · exact ⟨[], by simp, Or.inl rfl⟩
  all_goals refine ⟨_, by rw [String.toList_append, String.toList_append], Or.inr (by simp)⟩

theorem type_of_column (t c k : String) (ht : '_' ∉ t.toList) (h : (c, k) ∈ secondaryColumns t) :
    c.toList.take 10 = "magnitude_".toList ∧ t.toList = (c.toList.drop 10).takeWhile (fun x => decide (x ≠ '_')) := by
  obtain ⟨suf, h1, h2⟩ := suffix_form t c k h
  have hlen : "magnitude_".toList.length = 10 := by decide
  rw [h1, List.append_assoc]
  refine ⟨?_, ?_⟩
  · rw [← hlen, List.take_left']; rfl
  · rw [← hlen, List.drop_left']; swap
    · rfl
    rw [List.takeWhile_append_of_pos]
    · rcases h2 with rfl | h2
      · simp
      · cases suf with
        | nil => simp at h2
        | cons x r =>
          simp only [List.head?_cons, Option.some.injEq] at h2
          subst h2
          simp
    · intro x hx
      rw [decide_eq_true_eq]
      rintro rfl
      exact ht hx

theorem column_inj (t t' c k k' : String) (ht : '_' ∉ t.toList) (ht' : '_' ∉ t'.toList)
    (h : (c, k) ∈ secondaryColumns t) (h' : (c, k') ∈ secondaryColumns t') : t = t' := by
  have h1 := (type_of_column t c k ht h).2
  have h2 := (type_of_column t' c k' ht' h').2
  exact String.toList_injective (h1.trans h2.symm)

theorem secondaryMappings_eq (t : String) : (secondaryMappings t).map (fun p => (p.2, p.1)) = secondaryColumns t := by
  simp [secondaryMappings, realvalue, realValues, secondaryColumns]

theorem secondary_targets_nodup (t : String) : ((secondaryMappings t).map Prod.snd).Nodup := by
  have hinj : ∀ a b : String, "magnitude_" ++ t ++ a = "magnitude_" ++ t ++ b → a = b := by
    intro a b hab
    have := congrArg String.toList hab
    rw [String.toList_append, String.toList_append (s := "magnitude_" ++ t) (t := b)] at this
    exact String.toList_injective (List.append_cancel_left this)
  have : (secondaryMappings t).map Prod.snd =
      ["", "_uncertainty", "_lowerUncertainty", "_upperUncertainty", "_confidenceLevel", "_magnitudeID"].map
        (fun a => "magnitude_" ++ t ++ a) := by
    simp [secondaryMappings, realvalue, realValues]
  rw [this]
  exact List.Nodup.map (fun a b h => hinj a b h) (by decide)

theorem mem_swap {maps cols : List (String × String)} (h : maps.map (fun p => (p.2, p.1)) = cols) (c k : String) :
    (c, k) ∈ cols ↔ (k, c) ∈ maps := by
  rw [← h, List.mem_map]
  constructor
  · rintro ⟨⟨a, b⟩, h1, h2⟩
    simp only [Prod.mk.injEq] at h2
    rw [h2.1, h2.2] at h1
    exact h1
  · intro h1; exact ⟨_, h1, rfl⟩

theorem targets_swap {maps cols : List (String × String)} (h : maps.map (fun p => (p.2, p.1)) = cols) :
    maps.map Prod.snd = cols.map Prod.fst := by
  rw [← h, List.map_map]; rfl

theorem extractSecondary_get (l : List Elem) (out r : Rec) (h : extractSecondary l out = .ok r) (c : String) :
    ((∀ m ∈ l, ∀ t, typeOf m = some t → ∀ k, (c, k) ∉ secondaryColumns t) → Dict.get? r c = Dict.get? out c) ∧
    ∀ t k, (c, k) ∈ secondaryColumns t → '_' ∉ t.toList → (∀ m ∈ l, ∀ u, typeOf m = some u → '_' ∉ u.toList) →
      (withType l t = [] → Dict.get? r c = Dict.get? out c) ∧
      ∀ m, withType l t = [m] → Dict.get? r c = ((Dict.get? m k).map some).or (Dict.get? out c) := by
  induction l generalizing out with
  | nil =>
    cases h
    exact ⟨fun _ => rfl, fun t k _ _ _ => ⟨fun _ => rfl, fun m hm => by simp [withType] at hm⟩⟩
  | cons x l ih =>
    simp only [extractSecondary] at h
    cases hx : item x "magnitudetype" with
    | error e => rw [hx] at h; cases h
    | ok u =>
      rw [hx] at h
      dsimp only at h
      have hxt : typeOf x = some u := (item_ok _ _ _).1 hx
      obtain ⟨ih1, ih2⟩ := ih _ h
      have hother : (∀ k, (c, k) ∉ secondaryColumns u) →
          Dict.get? (extract (secondaryMappings u) (lift x) out) c = Dict.get? out c := by
        intro hc
        apply extract_other
        rw [targets_swap (secondaryMappings_eq u)]
        intro hcm
        obtain ⟨⟨a, b⟩, h1, h2⟩ := List.mem_map.1 hcm
        simp only at h2
        subst h2
        exact hc b h1
      refine ⟨?_, ?_⟩
      · intro hall
        rw [ih1 (fun m hm => hall m (by simp [hm])), hother (hall x (by simp) u hxt)]
      · intro t k hck ht htypes
        obtain ⟨ih3, ih4⟩ := ih2 t k hck ht (fun m hm => htypes m (by simp [hm]))
        by_cases hut : u = t
        · subst hut
          have hw : withType (x :: l) u = x :: withType l u := by
            unfold withType
            rw [List.filter_cons_of_pos (by simpa using hxt)]
          rw [hw]
          refine ⟨by simp, ?_⟩
          intro m hm
          obtain ⟨rfl, hnil⟩ := List.cons.inj hm
          rw [ih3 hnil, extract_get _ _ _ (secondary_targets_nodup u) k c ((mem_swap (secondaryMappings_eq u) c k).1 hck),
            lift_get]
        · have hw : withType (x :: l) t = withType l t := by
            unfold withType
            rw [List.filter_cons_of_neg]
            rw [decide_eq_true_eq, hxt]
            simpa using hut
          have hnc : ∀ k, (c, k) ∉ secondaryColumns u := by
            intro k' hk'
            exact hut (column_inj u t c k' k (htypes x (by simp) u hxt) ht hk' hck)
          rw [hw, ← hother hnc]
          exact ⟨ih3, ih4⟩

/-! ### The record -/

theorem parse_ok (env : Env) (event : Elem) (origins mags : List Elem) (all quality : Bool) (r : Rec)
    (h : parseToDict env event origins mags all quality = .ok r) :
    ∃ po os pm l sl sec, selectOrigin origins (Dict.get? event "preferredOriginID") = .ok (po, os) ∧
      selectMagnitude mags (Dict.get? event "preferredMagnitudeID") = .ok (pm, l) ∧
      secondaries env l all = .ok sl ∧ extractSecondary sl [] = .ok sec ∧
      ∀ c, Dict.get? r c = (Dict.get? sec c).or ((Dict.get? (extractMagnitude (orDummy dummyMagnitude pm)) c).or
        ((Dict.get? (extractOrigin (orDummy dummyOrigin po) quality) c).or (Dict.get? (eventParams event) c))) := by
  unfold parseToDict at h
  cases h1 : selectOrigin origins (Dict.get? event "preferredOriginID") with
  | error e => rw [h1] at h; cases h
  | ok q1 =>
    obtain ⟨po, os⟩ := q1
    rw [h1] at h
    simp only [bind, Except.bind] at h
    cases h2 : selectMagnitude mags (Dict.get? event "preferredMagnitudeID") with
    | error e => rw [h2] at h; cases h
    | ok q2 =>
      obtain ⟨pm, l⟩ := q2
      rw [h2] at h
      dsimp only at h
      cases h3 : secondaries env l all with
      | error e => rw [h3] at h; cases h
      | ok sl =>
        rw [h3] at h
        dsimp only at h
        cases h4 : extractSecondary sl [] with
        | error e => rw [h4] at h; cases h
        | ok sec =>
          rw [h4] at h
          cases h
          exact ⟨po, os, pm, l, sl, sec, rfl, rfl, h3, h4, record_get _ _ _ _ _ (extractSecondary_WF _ _ _ WF_nil h4)⟩

/-- At most one magnitude has the id that the event names as preferred. -/
def OnlyOne (event : Elem) (mags : List Elem) : Prop :=
  (mags.filter fun m => decide (idOf m = Dict.get? event "preferredMagnitudeID")).length ≤ 1

theorem onlyOne_filter (event : Elem) (mags : List Elem) (h : OnlyOne event mags) (m : Elem) (hm : m ∈ mags)
    (hid : idOf m = Dict.get? event "preferredMagnitudeID") : mags.filter (fun x => decide (idOf x = idOf m)) = [m] := by
  unfold OnlyOne at h
  rw [← hid] at h
  have hmem : m ∈ mags.filter fun x => decide (idOf x = idOf m) := by simp [List.mem_filter, hm]
  generalize mags.filter (fun x => decide (idOf x = idOf m)) = l at h hmem
  match l, h, hmem with
  | [], _, hm => cases hm
  | [a], _, hm => rw [List.mem_singleton.1 hm]
  | a :: b :: r, h, _ => simp at h

theorem onlyOne_inj (event : Elem) (mags : List Elem) (h : OnlyOne event mags) (m x : Elem) (hm : m ∈ mags) (hx : x ∈ mags)
    (hid : idOf m = Dict.get? event "preferredMagnitudeID") (he : idOf x = idOf m) : x = m := by
  have : x ∈ mags.filter fun x => decide (idOf x = idOf m) := by simp [List.mem_filter, hx, he]
  rw [onlyOne_filter event mags h m hm hid] at this
  exact List.mem_singleton.1 this

theorem preferred_unique (event : Elem) (mags l : List Elem) (p q : Option Elem) (hids : OnlyOne event mags)
    (hp : IsPreferred event mags p)
    (h : selectMagnitude mags (Dict.get? event "preferredMagnitudeID") = .ok (q, l)) : q = p := by
  obtain ⟨h1, _⟩ := selectMagnitude_ok _ _ _ _ h
  cases q with
  | none =>
    cases p with
    | none => rfl
    | some m =>
      obtain ⟨v, hv, hne⟩ := h1.1 m hp.1
      rw [hp.2] at hv
      exact absurd hv hne
  | some m' =>
    obtain ⟨h2, h3, h4, _⟩ := h1
    cases p with
    | none => exact absurd h3.symm (hp m' h2)
    | some m =>
      congr 1
      have : idOf m' = idOf m := by rw [← h3, hp.2]
      exact onlyOne_inj event mags hids m m' hp.1 h2 hp.2 this

theorem secondaries_sub (env : Env) (hperm : ∀ l, (env.setOrder l).Perm l) (l sl : List Elem) (all : Bool)
    (h : secondaries env l all = .ok sl) : (∀ m ∈ sl, m ∈ l) ∧ (all = false → sl = []) := by
  unfold secondaries at h
  split at h
  · rename_i hc
    exact ⟨(selectSecondary_spec env hperm l sl h "").2.2, fun hf => by rw [hf] at hc; simp at hc⟩
  · cases h
    exact ⟨by simp, fun _ => rfl⟩

theorem selected_sub (mags : List Elem) (id : Option String) (p : Option Elem) (l : List Elem)
    (h : selectMagnitude mags id = .ok (p, l)) : ∀ m ∈ l, m ∈ mags := by
  obtain ⟨h1, _⟩ := selectMagnitude_ok _ _ _ _ h
  intro m hm
  cases p with
  | none => rw [h1.2] at hm; exact hm
  | some x => rw [h1.2.2.2] at hm; exact (List.mem_filter.1 hm).1

/-- A column name that no secondary magnitude can have. -/
theorem not_secondary (c : String) (t : String) (ht : PlainType t)
    (hc : c.toList.take 10 ≠ "magnitude_".toList ∨ c = "magnitude_type" ∨ c = "magnitude_uncertainty" ∨
      c = "magnitude_lowerUncertainty" ∨ c = "magnitude_upperUncertainty" ∨ c = "magnitude_confidenceLevel") (k : String) :
    (c, k) ∉ secondaryColumns t := by
  intro h
  obtain ⟨h0, h1, h2, h3, h4, h5⟩ := ht
  obtain ⟨h6, h7⟩ := type_of_column t c k h0 h
  have key : ∀ u : String, (c.toList.drop 10).takeWhile (fun x => decide (x ≠ '_')) = u.toList → t = u := by
    intro u hu
    rw [← h7] at hu
    exact String.toList_injective hu
  rcases hc with hc | rfl | rfl | rfl | rfl | rfl
  · exact hc h6
  · exact h1 (key "type" (by decide))
  · exact h2 (key "uncertainty" (by decide))
  · exact h3 (key "lowerUncertainty" (by decide))
  · exact h4 (key "upperUncertainty" (by decide))
  · exact h5 (key "confidenceLevel" (by decide))

theorem magnitude_not_secondary : ∀ p ∈ magnitudeColumns, p.1.toList.take 10 ≠ "magnitude_".toList ∨
    p.1 = "magnitude_type" ∨ p.1 = "magnitude_uncertainty" ∨
      p.1 = "magnitude_lowerUncertainty" ∨ p.1 = "magnitude_upperUncertainty" ∨ p.1 = "magnitude_confidenceLevel" := by
  decide

theorem secondary_lookup_none (env : Env) (hperm : ∀ l, (env.setOrder l).Perm l) (mags : List Elem)
    (id : Option String) (all : Bool) (pm : Option Elem) (l sl : List Elem) (sec : Rec)
    (hplain : all = true → ∀ m ∈ mags, ∀ t, typeOf m = some t → PlainType t)
    (h2 : selectMagnitude mags id = .ok (pm, l)) (h3 : secondaries env l all = .ok sl)
    (h4 : extractSecondary sl [] = .ok sec) (c : String)
    (hc : c.toList.take 10 ≠ "magnitude_".toList ∨ c = "magnitude_type" ∨ c = "magnitude_uncertainty" ∨
      c = "magnitude_lowerUncertainty" ∨ c = "magnitude_upperUncertainty" ∨ c = "magnitude_confidenceLevel") :
    Dict.get? sec c = none := by
  obtain ⟨hs1, hs2⟩ := secondaries_sub env hperm _ _ _ h3
  refine ((extractSecondary_get sl [] sec h4 c).1 ?_).trans rfl
  intro m hm t ht k
  cases all with
  | false => rw [hs2 rfl] at hm; simp at hm
  | true => exact not_secondary c t (hplain rfl m (selected_sub _ _ _ _ h2 m (hs1 m hm)) t ht) hc k

/-- C48: the magnitude columns of a record are those of the preferred magnitude: each is present exactly if
the magnitude has this entry. Without a preferred magnitude the magnitude and its type are None and the other
columns are absent. -/
theorem C48_preferred_magnitude (env : Env) (hperm : ∀ l, (env.setOrder l).Perm l) (event : Elem)
    (origins mags : List Elem) (all quality : Bool) (r : Rec) (hids : OnlyOne event mags)
    (hplain : all = true → ∀ m ∈ mags, ∀ t, typeOf m = some t → PlainType t)
    (h : parseToDict env event origins mags all quality = .ok r) (p : Option Elem) (hp : IsPreferred event mags p) :
    ∀ c k, (c, k) ∈ magnitudeColumns → r.get? c =
      (match p with
        | some m => (m.get? k).map some
        | none => if c = "magnitude" ∨ c = "magnitude_type" then some none else none) := by
  obtain ⟨po, os, pm, l, sl, sec, h1, h2, h3, h4, h5⟩ := parse_ok _ _ _ _ _ _ _ h
  have hpm := preferred_unique event mags l p pm hids hp h2
  subst hpm
  intro c k hck
  rw [h5 c, secondary_lookup_none env hperm mags _ all pm l sl sec hplain h2 h3 h4 c (magnitude_not_secondary _ hck),
    Option.none_or]
  have hmap : (k, c) ∈ magnitudeMappings := (mem_swap magnitudeMappings_eq c k).1 hck
  have hor : Dict.get? (extractOrigin (orDummy dummyOrigin po) quality) c = none := by
    have n1 : ∀ p ∈ magnitudeColumns, p.1 ∉ originMappings.map Prod.snd ∧ p.1 ∉ qualityMappings.map Prod.snd := by decide
    unfold extractOrigin
    cases quality
    · exact extract_other _ _ _ _ (n1 _ hck).1
    · exact (extract_other _ _ _ _ (n1 _ hck).2).trans (extract_other _ _ _ _ (n1 _ hck).1)
  have hev : Dict.get? (eventParams event) c = none := by
    have n2 : ∀ p ∈ magnitudeColumns, "eventID" ≠ p.1 ∧ "event_type" ≠ p.1 := by decide
    have := n2 _ hck
    simp only at this
    simp [eventParams, eventMappings, Dict.get?, this]
  have hmag : Dict.get? (extractMagnitude (orDummy dummyMagnitude pm)) c = Dict.get? (orDummy dummyMagnitude pm) k := by
    unfold extractMagnitude
    rw [extract_get magnitudeMappings _ _ (by decide) k c hmap]
    simp [Dict.get?]
  rw [hor, hev, hmag, Option.or_none, Option.or_none]
  cases pm with
  | some m => simp only [orDummy, lift_get]
  | none =>
    have n3 : ∀ p ∈ magnitudeColumns, Dict.get? dummyMagnitude p.2 =
        if p.1 = "magnitude" ∨ p.1 = "magnitude_type" then some none else none := by decide
    exact n3 _ hck

/-- `p` is the origin the event names as preferred, if there is one. -/
def IsPreferredOrigin (event : Elem) (origins : List Elem) (p : Option Elem) : Prop :=
  match p with
  | some o => o ∈ origins ∧ Dict.get? o "originpublicID" = Dict.get? event "preferredOriginID"
  | none => ∀ o ∈ origins, Dict.get? o "originpublicID" ≠ Dict.get? event "preferredOriginID"

/-- C48: the origin columns are those of the preferred origin (with the quality columns if they are asked
for); without one, time, coordinates and evaluation mode are None and the others absent. The event's id and
type are the event's own, None if it has none. -/
theorem C48_preferred_origin (env : Env) (hperm : ∀ l, (env.setOrder l).Perm l) (event : Elem)
    (origins mags : List Elem) (all quality : Bool) (r : Rec)
    (hids : (origins.map fun o => Dict.get? o "originpublicID").Nodup)
    (hplain : all = true → ∀ m ∈ mags, ∀ t, typeOf m = some t → PlainType t)
    (h : parseToDict env event origins mags all quality = .ok r) (p : Option Elem)
    (hp : IsPreferredOrigin event origins p) :
    (∀ c k, (c, k) ∈ originColumns → r.get? c =
      (match p with
        | some o => (o.get? k).map some
        | none => if c ∈ ["time", "latitude", "longitude", "depth", "evaluationmode"] then some none else none)) ∧
    (∀ c k, (c, k) ∈ qualityColumns → r.get? c =
      (match p with
        | some o => if quality = true then (o.get? k).map some else none
        | none => none)) ∧
    r.get? "eventID" = some (event.get? "publicID") ∧ r.get? "event_type" = some (event.get? "type") := by
  obtain ⟨po, os, pm, l, sl, sec, h1, h2, h3, h4, h5⟩ := parse_ok _ _ _ _ _ _ _ h
  have hpo : po = p := by
    unfold selectOrigin at h1
    cases hf : findById "originpublicID" (Dict.get? event "preferredOriginID") origins with
    | error e => rw [hf] at h1; cases h1
    | ok q =>
      rw [hf] at h1
      dsimp only at h1
      cases hf2 : filterPy (otherOrigin (Dict.get? event "preferredOriginID")) origins with
      | error e => rw [hf2] at h1; cases h1
      | ok l' =>
        rw [hf2] at h1
        cases h1
        cases po with
        | none =>
          cases p with
          | none => rfl
          | some o =>
            obtain ⟨v, hv, hne⟩ := findById_none _ _ _ hf o hp.1
            rw [hp.2] at hv
            exact absurd hv hne
        | some o' =>
          obtain ⟨h6, v, h7, h8⟩ := findById_some _ _ _ _ hf
          cases p with
          | none => exact absurd (h7.trans h8.symm) (hp o' h6)
          | some o =>
            congr 1
            exact List.inj_on_of_nodup_map hids h6 hp.1 ((h7.trans h8.symm).trans hp.2.symm)
  subst hpo
  have hsec : ∀ c : String, c.toList.take 10 ≠ "magnitude_".toList → Dict.get? sec c = none := fun c hc =>
    secondary_lookup_none env hperm mags _ all pm l sl sec hplain h2 h3 h4 c (Or.inl hc)
  have hmag : ∀ c : String, c ∉ magnitudeMappings.map Prod.snd →
      Dict.get? (extractMagnitude (orDummy dummyMagnitude pm)) c = none := fun c hc => extract_other _ _ _ _ hc
  have hev : ∀ c : String, "eventID" ≠ c → "event_type" ≠ c → Dict.get? (eventParams event) c = none := by
    intro c h1 h2
    simp [eventParams, eventMappings, Dict.get?, h1, h2]
  refine ⟨?_, ?_, ?_, ?_⟩
  · intro c k hck
    have n1 : ∀ p ∈ originColumns, p.1.toList.take 10 ≠ "magnitude_".toList ∧ p.1 ∉ magnitudeMappings.map Prod.snd ∧
        "eventID" ≠ p.1 ∧ "event_type" ≠ p.1 ∧ p.1 ∉ qualityMappings.map Prod.snd := by decide
    obtain ⟨m1, m2, m3, m4, m5⟩ := n1 _ hck
    rw [h5 c, hsec c m1, hmag c m2, hev c m3 m4, Option.none_or, Option.none_or, Option.or_none]
    have hmap : (k, c) ∈ originMappings := (mem_swap originMappings_eq c k).1 hck
    have hor : Dict.get? (extractOrigin (orDummy dummyOrigin po) quality) c = Dict.get? (orDummy dummyOrigin po) k := by
      unfold extractOrigin
      have hb : Dict.get? (extract originMappings (orDummy dummyOrigin po) []) c = Dict.get? (orDummy dummyOrigin po) k := by
        rw [extract_get originMappings _ _ (by decide) k c hmap]
        simp [Dict.get?]
      cases quality
      · exact hb
      · exact (extract_other _ _ _ _ m5).trans hb
    rw [hor]
    cases po with
    | some o => simp only [orDummy, lift_get]
    | none =>
      have n3 : ∀ p ∈ originColumns, Dict.get? dummyOrigin p.2 =
          if p.1 ∈ ["time", "latitude", "longitude", "depth", "evaluationmode"] then some none else none := by decide
      exact n3 _ hck
  · intro c k hck
    have n1 : ∀ p ∈ qualityColumns, p.1.toList.take 10 ≠ "magnitude_".toList ∧ p.1 ∉ magnitudeMappings.map Prod.snd ∧
        "eventID" ≠ p.1 ∧ "event_type" ≠ p.1 ∧ p.1 ∉ originMappings.map Prod.snd := by decide
    obtain ⟨m1, m2, m3, m4, m5⟩ := n1 _ hck
    rw [h5 c, hsec c m1, hmag c m2, hev c m3 m4, Option.none_or, Option.none_or, Option.or_none]
    have hmap : (k, c) ∈ qualityMappings := (mem_swap qualityMappings_eq c k).1 hck
    have hbase : Dict.get? (extract originMappings (orDummy dummyOrigin po) []) c = none := extract_other _ _ _ _ m5
    unfold extractOrigin
    cases quality
    · simp only [Bool.false_eq_true, if_false]
      rw [hbase]
      cases po <;> rfl
    · simp only [if_true]
      rw [extract_get qualityMappings _ _ (by decide) k c hmap, hbase, Option.or_none]
      cases po with
      | some o => simp only [orDummy, lift_get]
      | none =>
        have n3 : ∀ p ∈ qualityColumns, Dict.get? dummyOrigin p.2 = none := by decide
        exact n3 _ hck
  all_goals
    rw [h5, hsec _ (by decide), hmag _ (by decide)]
    have hor : ∀ c, c ∉ originMappings.map Prod.snd → c ∉ qualityMappings.map Prod.snd →
        Dict.get? (extractOrigin (orDummy dummyOrigin po) quality) c = none := by
      intro c c1 c2
      unfold extractOrigin
      cases quality
      · exact extract_other _ _ _ _ c1
      · exact (extract_other _ _ _ _ c2).trans (extract_other _ _ _ _ c1)
    rw [hor _ (by decide) (by decide)]
    simp [eventParams, eventMappings, Dict.get?]

/-- C48: secondary columns. Without include_all_magnitudes there is none. With it, the columns of a type `t`
are absent if no magnitude has this type; those of the preferred type show the preferred magnitude; those of
another type show the latest magnitude of this type (highest version, then latest creation time, then the
first listed; a criterion counts only if all magnitudes of the type have it). This holds for every order in
which Python goes through the set of types. -/
theorem C48_secondary (env : Env) (hperm : ∀ l, (env.setOrder l).Perm l) (event : Elem)
    (origins mags : List Elem) (all quality : Bool) (r : Rec) (hids : OnlyOne event mags)
    (hplain : ∀ m ∈ mags, ∀ t, typeOf m = some t → PlainType t)
    (h : parseToDict env event origins mags all quality = .ok r) (p : Option Elem) (hp : IsPreferred event mags p)
    (t : String) (ht : PlainType t) :
    (all = false → ∀ c k, (c, k) ∈ secondaryColumns t → r.get? c = none) ∧
    (all = true → withType mags t = [] → ∀ c k, (c, k) ∈ secondaryColumns t → r.get? c = none) ∧
    (all = true → ∀ m, p = some m → typeOf m = some t →
      ∀ c k, (c, k) ∈ secondaryColumns t → r.get? c = (m.get? k).map some) ∧
    (all = true → withType mags t ≠ [] → (∀ m, p = some m → typeOf m ≠ some t) →
      ∃ m, Latest env (withType mags t) m ∧
        ∀ c k, (c, k) ∈ secondaryColumns t → r.get? c = (m.get? k).map some) := by
  obtain ⟨po, os, pm, l, sl, sec, h1, h2, h3, h4, h5⟩ := parse_ok _ _ _ _ _ _ _ h
  have hpm := preferred_unique event mags l p pm hids hp h2
  subst hpm
  have hsub := selected_sub _ _ _ _ h2
  obtain ⟨hs1, hs2⟩ := secondaries_sub env hperm _ _ _ h3
  obtain ⟨hsel, htypes⟩ := selectMagnitude_ok _ _ _ _ h2
  -- a secondary column is only written by secondary magnitudes
  have hrec : ∀ c k, (c, k) ∈ secondaryColumns t → Dict.get? r c = Dict.get? sec c := by
    intro c k hck
    have hc10 := (type_of_column t c k ht.1 hck).1
    rw [h5 c]
    have n1 : ∀ c' ∈ magnitudeMappings.map Prod.snd, c'.toList.take 10 ≠ "magnitude_".toList ∨ c' = "magnitude_type" ∨
        c' = "magnitude_uncertainty" ∨ c' = "magnitude_lowerUncertainty" ∨ c' = "magnitude_upperUncertainty" ∨
        c' = "magnitude_confidenceLevel" := by decide
    have hm : Dict.get? (extractMagnitude (orDummy dummyMagnitude pm)) c = none :=
      extract_other _ _ _ _ fun hcm => not_secondary c t ht (n1 c hcm) k hck
    have n2 : ∀ c' ∈ originMappings.map Prod.snd ++ qualityMappings.map Prod.snd,
        c'.toList.take 10 ≠ "magnitude_".toList := by decide
    have ho : Dict.get? (extractOrigin (orDummy dummyOrigin po) quality) c = none := by
      have c1 : c ∉ originMappings.map Prod.snd := fun hc => n2 c (List.mem_append_left _ hc) hc10
      have c2 : c ∉ qualityMappings.map Prod.snd := fun hc => n2 c (List.mem_append_right _ hc) hc10
      unfold extractOrigin
      cases quality
      · exact extract_other _ _ _ _ c1
      · exact (extract_other _ _ _ _ c2).trans (extract_other _ _ _ _ c1)
    have he : Dict.get? (eventParams event) c = none := by
      have e1 : "eventID" ≠ c := by rintro rfl; revert hc10; decide
      have e2 : "event_type" ≠ c := by rintro rfl; revert hc10; decide
      simp [eventParams, eventMappings, Dict.get?, e1, e2]
    rw [hm, ho, he]
    simp
  have hpl : ∀ m ∈ sl, ∀ u, typeOf m = some u → '_' ∉ u.toList := fun m hm u hu =>
    (hplain m (hsub m (hs1 m hm)) u hu).1
  have hlook : ∀ c k, (c, k) ∈ secondaryColumns t →
      (withType sl t = [] → Dict.get? r c = none) ∧ ∀ m, withType sl t = [m] → Dict.get? r c = (Dict.get? m k).map some := by
    intro c k hck
    obtain ⟨q1, q2⟩ := (extractSecondary_get sl [] sec h4 c).2 t k hck ht.1 hpl
    rw [hrec c k hck]
    refine ⟨fun hn => (q1 hn).trans rfl, fun m hm => ?_⟩
    rw [q2 m hm]
    simp [Dict.get?]
  -- the selection among those kept
  have hsl : all = true → (withType l t = [] → withType sl t = []) ∧
      (withType l t ≠ [] → ∃ m, withType sl t = [m] ∧ Latest env (withType l t) m) := by
    intro hall
    unfold secondaries at h3
    split at h3
    · have := selectSecondary_spec env hperm l sl h3 t
      exact ⟨this.1, this.2.1⟩
    · rename_i hc
      cases h3
      have hl : l = [] := by
        by_contra hne
        exact hc ⟨by simpa using hne, hall⟩
      subst hl
      refine ⟨fun _ => rfl, fun hne => absurd rfl hne⟩
  refine ⟨?_, ?_, ?_, ?_⟩
  · intro hall c k hck
    apply (hlook c k hck).1
    rw [hs2 hall]; rfl
  · intro hall hnil c k hck
    apply (hlook c k hck).1
    apply (hsl hall).1
    unfold withType at hnil ⊢
    rw [List.filter_eq_nil_iff] at hnil ⊢
    exact fun m hm => hnil m (hsub m hm)
  · intro hall m hm htm c k hck
    subst hm
    obtain ⟨g1, g2, g3, g4⟩ := hsel
    have hw : withType l t = [m] := by
      have hu := onlyOne_filter event mags hids m g1 hp.2
      unfold withType
      rw [g4, List.filter_filter]
      rw [← hu]
      apply List.filter_congr
      intro x hx
      rw [htm, g2]
      rw [Bool.eq_iff_iff]
      simp only [Bool.and_eq_true, decide_eq_true_eq]
      constructor
      · rintro ⟨a1, a2 | a2⟩
        · exact absurd a1.symm a2
        · exact a2.symm
      · intro a1
        have : x = m := onlyOne_inj event mags hids m x g1 hx hp.2 a1
        subst this
        exact ⟨htm, Or.inr rfl⟩
    obtain ⟨m', hm', hlat⟩ := (hsl hall).2 (by rw [hw]; simp)
    rw [hw] at hlat
    obtain ⟨pre, post, e, _, _⟩ := hlat
    have hmm : m' = m := by
      cases pre with
      | nil => exact (List.cons.inj e).1.symm
      | cons a b => have := congrArg List.length e; simp at this
    subst hmm
    exact (hlook c k hck).2 m' hm'
  · intro hall hne hnp
    have hw : withType l t = withType mags t := by
      cases pm with
      | none => rw [hsel.2]
      | some m =>
        obtain ⟨g1, g2, g3, g4⟩ := hsel
        unfold withType
        rw [g4, List.filter_filter]
        apply List.filter_congr
        intro x hx
        rw [Bool.eq_iff_iff]
        simp only [Bool.and_eq_true, decide_eq_true_eq]
        constructor
        · exact fun a => a.1
        · intro a
          refine ⟨a, Or.inl ?_⟩
          rw [a]
          exact hnp m rfl
    rw [← hw] at hne ⊢
    obtain ⟨m', hm', hlat⟩ := (hsl hall).2 hne
    exact ⟨m', hlat, fun c k hck => (hlook c k hck).2 m' hm'⟩

/-! ### Exceptions -/

theorem findById_total (key : String) (id : Option String) (l : List Elem) (h : ∀ m ∈ l, ∃ v, Dict.get? m key = some v) :
    ∃ p, findById key id l = .ok p ∧ ∀ m, p = some m → m ∈ l := by
  induction l with
  | nil => exact ⟨none, rfl, by simp⟩
  | cons m r ih =>
    obtain ⟨v, hv⟩ := h m (by simp)
    simp only [findById, (item_ok _ _ _).2 hv]
    by_cases hid : id = some v
    · exact ⟨some m, by simp [hid], by simp⟩
    · obtain ⟨p, h1, h2⟩ := ih fun x hx => h x (by simp [hx])
      exact ⟨p, by simp [hid, h1], fun x hx => by simp [h2 x hx]⟩

theorem filterPy_total {α : Type} (p : α → Py Bool) (l : List α) (h : ∀ a ∈ l, ∃ b, p a = .ok b) :
    ∃ r, filterPy p l = .ok r := by
  induction l with
  | nil => exact ⟨[], rfl⟩
  | cons a r ih =>
    obtain ⟨b, hb⟩ := h a (by simp)
    obtain ⟨l', hl⟩ := ih fun x hx => h x (by simp [hx])
    simp only [filterPy, hb, hl]
    exact ⟨_, rfl⟩

theorem mapM_total {α β : Type} (f : α → Py β) (l : List α) (h : ∀ a ∈ l, ∃ b, f a = .ok b) :
    ∃ r : List β, l.mapM f = .ok r := by
  induction l with
  | nil => exact ⟨[], rfl⟩
  | cons a r ih =>
    obtain ⟨b, hb⟩ := h a (by simp)
    obtain ⟨l', hl⟩ := ih fun x hx => h x (by simp [hx])
    rw [List.mapM_cons, hb]
    simp only [bind, Except.bind, hl]
    exact ⟨_, rfl⟩

theorem forall₂_from_right {α β : Type} {R : α → β → Prop} {l : List α} {r : List β} (h : List.Forall₂ R l r) (b : β)
    (hb : b ∈ r) : ∃ a ∈ l, R a b := by
  induction h with
  | nil => simp at hb
  | cons h1 h2 ih =>
    rcases List.mem_cons.1 hb with rfl | hb
    · exact ⟨_, by simp, h1⟩
    · obtain ⟨a, ha, hab⟩ := ih hb
      exact ⟨a, by simp [ha], hab⟩

theorem forall₂_from_left {α β : Type} {R : α → β → Prop} {l : List α} {r : List β} (h : List.Forall₂ R l r) (a : α)
    (ha : a ∈ l) : ∃ b, R a b := by
  induction h with
  | nil => simp at ha
  | cons h1 h2 ih =>
    rcases List.mem_cons.1 ha with rfl | ha
    · exact ⟨_, h1⟩
    · exact ih ha

theorem latest_total (env : Env) (l : List Elem) (hne : l ≠ [])
    (hf : ∀ m ∈ l, ∀ v, Dict.get? m "magnitudecreationInfoversion" = some v → ∃ x, env.float v = .ok x)
    (hd : ∀ m ∈ l, ∀ v, Dict.get? m "magnitudecreationInfocreationTime" = some v → ∃ x, env.date v = .ok x) :
    ∃ s, latest env l = .ok s := by
  match l, hne with
  | [m], _ => exact ⟨[m], rfl⟩
  | m :: m' :: r, _ =>
    unfold latest
    dsimp only
    generalize hl : m :: m' :: r = l at hf hd
    have part : ∀ (f : String → Py ℝ) (k : String), (∀ m ∈ l, ∀ v, Dict.get? m k = some v → ∃ x, f v = .ok x) →
        ∀ m ∈ l, ∃ x, keyPart (l.all fun x => Dict.has x k) f k m = .ok x := by
      intro f k hfk m hm
      unfold keyPart
      by_cases hall : (l.all fun x => Dict.has x k) = true
      · rw [if_pos hall]
        have := (List.all_eq_true.1 hall) m hm
        unfold Dict.has at this
        obtain ⟨v, hv⟩ := Option.isSome_iff_exists.1 this
        rw [(item_ok _ _ _).2 hv]
        exact hfk m hm v hv
      · rw [if_neg hall]; exact ⟨0, rfl⟩
    obtain ⟨keys, hk⟩ := mapM_total (sortKey env (l.all fun x => Dict.has x "magnitudecreationInfoversion")
        (l.all fun x => Dict.has x "magnitudecreationInfocreationTime")) l (by
      intro a ha
      obtain ⟨x, hx⟩ := part env.float _ hf a ha
      obtain ⟨y, hy⟩ := part env.date _ hd a ha
      exact ⟨(x, y), by simp only [sortKey, hx, hy]⟩)
    rw [hk]
    dsimp only
    have hlen := ((mapM_ok_iff _ _ _).1 hk).length_eq
    cases keys with
    | nil => rw [← hl] at hlen; simp at hlen
    | cons a b => rw [← hl]; exact ⟨_, rfl⟩

/-- C48: an event is read without an exception if its origins have ids, its magnitudes ids and types, and
versions and creation times are readable. -/
theorem C48_no_exception (env : Env) (hperm : ∀ l, (env.setOrder l).Perm l) (event : Elem)
    (origins mags : List Elem) (all quality : Bool)
    (ho : ∀ o ∈ origins, ∃ v, Dict.get? o "originpublicID" = some v)
    (hi : ∀ m ∈ mags, ∃ v, idOf m = some v) (ht : ∀ m ∈ mags, ∃ v, typeOf m = some v)
    (hf : ∀ m ∈ mags, ∀ v, Dict.get? m "magnitudecreationInfoversion" = some v → ∃ x, env.float v = .ok x)
    (hd : ∀ m ∈ mags, ∀ v, Dict.get? m "magnitudecreationInfocreationTime" = some v → ∃ x, env.date v = .ok x) :
    ∃ r, parseToDict env event origins mags all quality = .ok r := by
  obtain ⟨po, hpo, _⟩ := findById_total "originpublicID" (Dict.get? event "preferredOriginID") origins ho
  obtain ⟨os, hos⟩ := filterPy_total (otherOrigin (Dict.get? event "preferredOriginID")) origins (by
    intro o hom
    obtain ⟨v, hv⟩ := ho o hom
    simp only [otherOrigin, (item_ok _ _ _).2 hv]
    exact ⟨_, rfl⟩)
  obtain ⟨pm, hpm, hpmem⟩ := findById_total "magnitudepublicID" (Dict.get? event "preferredMagnitudeID") mags hi
  obtain ⟨t, htt⟩ : ∃ t, prefType pm = .ok t := by
    cases pm with
    | none => exact ⟨none, rfl⟩
    | some m =>
      obtain ⟨v, hv⟩ := ht m (hpmem m rfl)
      exact ⟨some v, by simp only [prefType, (item_ok _ _ _).2 hv]⟩
  obtain ⟨l, hl⟩ := filterPy_total (keepMag (Dict.get? event "preferredMagnitudeID") t) mags (by
    intro m hm
    obtain ⟨v, hv⟩ := ht m hm
    obtain ⟨w, hw⟩ := hi m hm
    simp only [keepMag, (item_ok _ _ _).2 hv, (item_ok _ _ _).2 hw]
    split <;> exact ⟨_, rfl⟩)
  have hsel : selectMagnitude mags (Dict.get? event "preferredMagnitudeID") = .ok (pm, l) := by
    simp only [selectMagnitude, hpm, htt, hl]
  have hsub := selected_sub _ _ _ _ hsel
  obtain ⟨sl, hsl⟩ : ∃ sl, secondaries env l all = .ok sl := by
    unfold secondaries
    split
    · obtain ⟨ts, hts⟩ := mapM_total (fun m => item m "magnitudetype") l (by
        intro m hm
        obtain ⟨v, hv⟩ := ht m (hsub m hm)
        exact ⟨v, (item_ok _ _ _).2 hv⟩)
      simp only [selectSecondary, hts]
      split
      · exact ⟨l, rfl⟩
      · obtain ⟨ll, hll⟩ := mapM_total (fun t => latest env (ofType l t)) (env.setOrder ts.dedup) (by
          intro u hu
          rw [(hperm _).mem_iff, List.mem_dedup] at hu
          have hf2 := (mapM_ok_iff _ _ _).1 hts
          have hne : ofType l u ≠ [] := by
            have : ∃ m ∈ l, item m "magnitudetype" = .ok u := forall₂_from_right hf2 u hu
            obtain ⟨m, hm, hm2⟩ := this
            apply List.ne_nil_of_mem (a := m)
            rw [ofType, List.mem_filter]
            exact ⟨hm, by simpa using (item_ok _ _ _).1 hm2⟩
          refine latest_total env _ hne ?_ ?_
          · exact fun m hm => hf m (hsub m (List.mem_filter.1 hm).1)
          · exact fun m hm => hd m (hsub m (List.mem_filter.1 hm).1))
        simp only [hll]
        exact ⟨_, rfl⟩
    · exact ⟨[], rfl⟩
  have hslsub := (secondaries_sub env hperm _ _ _ hsl).1
  have hext : ∀ (sl : List Elem) (out : Rec), (∀ m ∈ sl, m ∈ mags) → ∃ sec, extractSecondary sl out = .ok sec := by
    intro sl
    induction sl with
    | nil => intro out _; exact ⟨out, rfl⟩
    | cons m r ih =>
      intro out hm
      obtain ⟨v, hv⟩ := ht m (hm m (by simp))
      simp only [extractSecondary, (item_ok _ _ _).2 hv]
      exact ih _ fun x hx => hm x (by simp [hx])
  obtain ⟨sec, hsec⟩ := hext sl [] fun m hm => hsub m (hslsub m hm)
  simp only [parseToDict, selectOrigin, hpo, hos, hsel, hsl, hsec, bind, Except.bind, pure, Except.pure]
  exact ⟨_, rfl⟩

/-- C48: a magnitude without a type or an origin without an id makes the event unreadable. With C47 no
record at all is returned then. -/
theorem C48_missing_type_raises (env : Env) (event : Elem) (origins mags : List Elem) (all quality : Bool)
    (h : (∃ m ∈ mags, typeOf m = none) ∨ ∃ o ∈ origins, Dict.get? o "originpublicID" = none) :
    ∃ e, parseToDict env event origins mags all quality = .error e := by
  cases hp : parseToDict env event origins mags all quality with
  | error e => exact ⟨e, rfl⟩
  | ok r =>
    exfalso
    obtain ⟨po, os, pm, l, sl, sec, h1, h2, h3, h4, h5⟩ := parse_ok _ _ _ _ _ _ _ hp
    rcases h with ⟨m, hm, hmt⟩ | ⟨o, ho, hoi⟩
    · obtain ⟨v, hv⟩ := (selectMagnitude_ok _ _ _ _ h2).2 m hm
      rw [hmt] at hv; cases hv
    · unfold selectOrigin at h1
      cases hf : findById "originpublicID" (Dict.get? event "preferredOriginID") origins with
      | error e => rw [hf] at h1; cases h1
      | ok q =>
        rw [hf] at h1
        dsimp only at h1
        cases hf2 : filterPy (otherOrigin (Dict.get? event "preferredOriginID")) origins with
        | error e => rw [hf2] at h1; cases h1
        | ok l' =>
          obtain ⟨b, hb⟩ := (filterPy_ok _ _ _ hf2).1 o ho
          have : item o "originpublicID" = .error .keyError := by simp [item, hoi]
          rw [otherOrigin, this] at hb
          cases hb

/-- C47, defect: one event with a magnitude that has no type makes the whole document unreadable: also the
events before it are lost. -/
theorem C47_defect_one_bad_event (env : Env) (all quality : Bool) (doc : List Part) (hd : ∀ p ∈ doc, p.Ok)
    (e : Event) (he : e ∈ docEvents doc) (hm : ∃ l ∈ e.magnitudes, textAt l "magnitudetype" = none) :
    ∃ x, parseFile env all quality (docCalls doc) .complete = .error x := by
  obtain ⟨own, os, ms, h1, h2⟩ := C47_document
  rw [h2 env all quality doc hd]
  cases h : ((docEvents doc).mapM fun e => parseToDict env (own e) (os e) (ms e) all quality : Py (List Rec)) with
  | error x => exact ⟨x, rfl⟩
  | ok l =>
    exfalso
    have hf := (mapM_ok_iff _ _ _).1 h
    have hex : ∃ r, parseToDict env (own e) (os e) (ms e) all quality = .ok r := by
      obtain ⟨r, hr⟩ := forall₂_from_left hf e he
      exact ⟨r, hr⟩
    obtain ⟨r, hr⟩ := hex
    obtain ⟨t, ht, htn⟩ := hm
    obtain ⟨m, hmm, hmh⟩ := forall₂_from_right (h1 e).2.2 t ht
    obtain ⟨x, hx⟩ := C48_missing_type_raises env (own e) (os e) (ms e) all quality
      (Or.inl ⟨m, hmm, (hmh "magnitudetype").trans htn⟩)
    rw [hr] at hx
    cases hx

/-- C48, defect: a magnitude whose type is called `type` overwrites the type of the preferred magnitude. -/
theorem C48_defect_type_overwritten (env : Env) :
    ∃ r, parseToDict env [("preferredMagnitudeID", "m1")] []
      [[("magnitudepublicID", "m1"), ("magnitudetype", "ML"), ("magnitudemagvalue", "2.5")],
        [("magnitudepublicID", "m2"), ("magnitudetype", "type"), ("magnitudemagvalue", "3.1")]] true false = .ok r ∧
      r.get? "magnitude" = some (some "2.5") ∧ r.get? "magnitude_type" = some (some "3.1") := by
  refine ⟨_, rfl, ?_, ?_⟩ <;> decide

/-- C48, defect: two types, one called like an uncertainty of the other: the value of the second is shown as
the uncertainty of the first. -/
theorem C48_defect_underscore (env : Env) :
    ∃ r, parseToDict env [] []
      [[("magnitudepublicID", "m1"), ("magnitudetype", "ML"), ("magnitudemagvalue", "2.5"), ("magnitudemaguncertainty", "0.1")],
        [("magnitudepublicID", "m2"), ("magnitudetype", "ML_uncertainty"), ("magnitudemagvalue", "3.1")]] true false = .ok r ∧
      r.get? "magnitude_ML_uncertainty" = some (some "3.1") := by
  refine ⟨_, rfl, ?_⟩; decide

/-- Three magnitudes: a preferred one and two of another type, the second with a higher version. -/
def sampleMags : List Elem :=
  [[("magnitudepublicID", "m1"), ("magnitudetype", "Mw"), ("magnitudemagvalue", "2.5")],
    [("magnitudepublicID", "m2"), ("magnitudetype", "ML"), ("magnitudemagvalue", "2.1"), ("magnitudecreationInfoversion", "1")],
    [("magnitudepublicID", "m3"), ("magnitudetype", "ML"), ("magnitudemagvalue", "2.2"), ("magnitudecreationInfoversion", "2")]]

/-- An environment that reads the versions "1" and "2". -/
def sampleEnv : Env := ⟨fun s => if s = "1" then .ok 1 else if s = "2" then .ok 2 else .error .valueError, fun _ => .error .valueError, id⟩

/-- The hypotheses of the theorems are met, and the third magnitude is the latest of its type. -/
example : (∀ l, (sampleEnv.setOrder l).Perm l) ∧ (sampleMags.map idOf).Nodup ∧
    (∀ m ∈ sampleMags, ∀ t, typeOf m = some t → PlainType t) ∧
    (∃ m, IsPreferred [("preferredMagnitudeID", "m1")] sampleMags (some m)) ∧
    (∃ r, parseToDict sampleEnv [("preferredMagnitudeID", "m1")] [] sampleMags true true = .ok r) ∧
    ∃ m, withType sampleMags "ML" = m ∧ m.length = 2 := by
  refine ⟨fun l => List.Perm.refl l, by decide, ?_, ?_, ?_, ?_⟩
  · intro m hm t ht
    simp only [sampleMags, List.mem_cons, List.not_mem_nil, or_false] at hm
    rcases hm with rfl | rfl | rfl
    all_goals
      simp [typeOf, Dict.get?] at ht
      subst ht
      simp [PlainType]
  · exact ⟨_, List.mem_cons_self, by decide⟩
  · apply C48_no_exception
    · exact fun l => List.Perm.refl l
    · simp
    · intro m hm
      simp only [sampleMags, List.mem_cons, List.not_mem_nil, or_false] at hm
      rcases hm with rfl | rfl | rfl <;> simp [idOf, Dict.get?]
    · intro m hm
      simp only [sampleMags, List.mem_cons, List.not_mem_nil, or_false] at hm
      rcases hm with rfl | rfl | rfl <;> simp [typeOf, Dict.get?]
    · intro m hm v hv
      simp only [sampleMags, List.mem_cons, List.not_mem_nil, or_false] at hm
      rcases hm with rfl | rfl | rfl <;> simp [Dict.get?] at hv <;> subst hv <;> simp [sampleEnv]
    · intro m hm v hv
      simp only [sampleMags, List.mem_cons, List.not_mem_nil, or_false] at hm
      rcases hm with rfl | rfl | rfl <;> simp [Dict.get?] at hv
  · refine ⟨_, rfl, ?_⟩
    simp [withType, sampleMags, typeOf, Dict.get?]

end SeismoStats.Props
