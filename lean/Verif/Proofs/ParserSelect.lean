/-
Lemmas for C48: the columns of a record.
-/
import Verif.Model.Parser
import Verif.Spec.Parser
import Verif.Proofs.Py

namespace SeismoStats
open SeismoStats SeismoStats.Spec.Parser

theorem Dict.set_keys {V : Type} (d : Dict V) (k : String) (v : V) :
    (Dict.set d k v).map Prod.fst = if k ∈ d.map Prod.fst then d.map Prod.fst else d.map Prod.fst ++ [k] := by
  induction d with
  | nil => simp [Dict.set]
  | cons p r ih =>
    obtain ⟨a, b⟩ := p
    by_cases h : a = k
    · simp [Dict.set, h]
    · have h' : ¬ k = a := fun hc => h hc.symm
      simp only [Dict.set, h, if_false, List.map_cons, ih, List.mem_cons, h', false_or]
      split <;> simp

theorem Dict.WF_set {V : Type} (d : Dict V) (k : String) (v : V) (h : Dict.WF d) : Dict.WF (Dict.set d k v) := by
  unfold Dict.WF at *
  rw [Dict.set_keys]
  split
  · exact h
  · rename_i hk
    rw [List.nodup_append]
    refine ⟨h, by simp, ?_⟩
    intro a ha b hb hab
    rw [List.mem_singleton] at hb
    subst hb; subst hab
    exact hk ha

namespace Parser

theorem extract_cons (p : String × String) (maps : List (String × String)) (d out : Rec) :
    extract (p :: maps) d out = extract maps d (match Dict.get? d p.1 with | some v => Dict.set out p.2 v | none => out) := rfl

theorem extract_WF (maps : List (String × String)) (d out : Rec) (h : Dict.WF out) : Dict.WF (extract maps d out) := by
  induction maps generalizing out with
  | nil => exact h
  | cons p r ih =>
    rw [extract_cons]
    apply ih
    cases Dict.get? d p.1 with
    | none => exact h
    | some v => exact Dict.WF_set _ _ _ h

theorem extract_other (maps : List (String × String)) (d out : Rec) (c : String) (h : c ∉ maps.map Prod.snd) :
    Dict.get? (extract maps d out) c = Dict.get? out c := by
  induction maps generalizing out with
  | nil => rfl
  | cons p r ih =>
    simp only [List.map_cons, List.mem_cons, not_or] at h
    rw [extract_cons, ih _ h.2]
    cases Dict.get? d p.1 with
    | none => rfl
    | some v =>
      have : p.2 ≠ c := fun hc => h.1 hc.symm
      simp [Dict.get?_set, this]

theorem extract_get (maps : List (String × String)) (d out : Rec) (hn : (maps.map Prod.snd).Nodup) (k c : String)
    (hc : (k, c) ∈ maps) : Dict.get? (extract maps d out) c = (Dict.get? d k).or (Dict.get? out c) := by
  induction maps generalizing out with
  | nil => simp at hc
  | cons p r ih =>
    rw [List.map_cons, List.nodup_cons] at hn
    rw [extract_cons]
    rcases List.mem_cons.1 hc with rfl | hc'
    · rw [extract_other _ _ _ _ hn.1]
      cases Dict.get? d k with
      | none => simp
      | some v => simp [Dict.get?_set]
    · rw [ih _ hn.2 hc']
      cases Dict.get? d p.1 with
      | none => rfl
      | some v =>
        have : p.2 ≠ c := by
          intro hcc
          apply hn.1
          rw [hcc]
          exact List.mem_map.2 ⟨_, hc', rfl⟩
        simp [Dict.get?_set, this]

theorem lift_get (m : Elem) (k : String) : Dict.get? (lift m) k = (Dict.get? m k).map some := by
  induction m with
  | nil => rfl
  | cons p r ih =>
    obtain ⟨a, b⟩ := p
    by_cases h : a = k
    · simp [lift, Dict.get?, h]
    · have ih' : Dict.get? (lift r) k = _ := ih
      simp only [lift] at ih'
      simp [lift, Dict.get?, h, ih']

theorem WF_nil {V : Type} : Dict.WF ([] : Dict V) := by simp [Dict.WF]

theorem extractOrigin_WF (o : Rec) (q : Bool) : Dict.WF (extractOrigin o q) := by
  unfold extractOrigin
  cases q
  · exact extract_WF _ _ _ WF_nil
  · exact extract_WF _ _ _ (extract_WF _ _ _ WF_nil)

theorem extractSecondary_WF (l : List Elem) (out r : Rec) (h : Dict.WF out) (hr : extractSecondary l out = .ok r) :
    Dict.WF r := by
  induction l generalizing out with
  | nil => cases hr; exact h
  | cons m l ih =>
    simp only [extractSecondary] at hr
    cases ht : item m "magnitudetype" with
    | error e => rw [ht] at hr; cases hr
    | ok t => rw [ht] at hr; exact ih _ (extract_WF _ _ _ h) hr

/-- The record: where a column is looked up. -/
theorem record_get (ev o m : Rec) (sec : Rec) (q : Bool) (hs : Dict.WF sec) (c : String) :
    Dict.get? (((Dict.update ev (extractOrigin o q)).update (extractMagnitude m)).update sec) c =
      (Dict.get? sec c).or ((Dict.get? (extractMagnitude m) c).or ((Dict.get? (extractOrigin o q) c).or (Dict.get? ev c))) := by
  rw [Dict.get?_update _ _ hs, Dict.get?_update _ (extractMagnitude m) (extract_WF _ _ _ WF_nil), Dict.get?_update _ _ (extractOrigin_WF _ _)]

theorem magnitudeMappings_eq : magnitudeMappings.map (fun p => (p.2, p.1)) = magnitudeColumns := by decide

theorem originMappings_eq : originMappings.map (fun p => (p.2, p.1)) = originColumns := by decide

theorem qualityMappings_eq : qualityMappings.map (fun p => (p.2, p.1)) = qualityColumns := by decide

end Parser
end SeismoStats
