/-
Properties C50 (bin_magnitudes), C51 (where the arguments of the estimation methods come from), C69 (columns as
arguments).
-/
import Verif.Model.Catalog
import Verif.Props.Binning
import Verif.Props.CatalogColumns

namespace SeismoStats.Props
open SeismoStats SeismoStats.Catalog
open Classical

/-! ### C50 -/

section
variable {K : Type} [Field K] [LinearOrder K] [IsStrictOrderedRing K] [FloorRing K]

/-- Specification of a binned catalogue: `c'` is `c` with every magnitude rounded to a multiple of `δ` (as in C05),
no entry or row lost or added, everything else unchanged, and `δ` recorded. Entries that are no numbers
become missing. -/
structure BinnedCat (c c' : Cat (Val K) K Dec) (δ : Dec) : Prop where
  cols : c'.frame.cols = c.frame.cols
  rows : c'.frame.rows.length = c.frame.rows.length
  other : ∀ k, k ≠ "magnitude" → c'.frame.column k = c.frame.column k
  number : ∀ (i : ℕ) (x : K), (c.frame.column "magnitude")[i]? = some (Val.num x) →
    ∃ y, (c'.frame.column "magnitude")[i]? = some (Val.num y) ∧ Spec.RoundsTo (1 / 10 ^ 12) (δ.val K) x y
  missing : ∀ (i : ℕ) (v : Val K), (c.frame.column "magnitude")[i]? = some v → (∀ x, v ≠ Val.num x) →
    (c'.frame.column "magnitude")[i]? = some Val.na
  recorded : c'.deltaM = some δ
  attrs : c'.mc = c.mc ∧ c'.bValue = c.bValue ∧ c'.aValue = c.aValue

theorem setColumn_length {V : Type} (c : String) (rows : List (String → V)) (vals : List V) (h : vals.length = rows.length) :
    (setColumn c rows vals).length = rows.length := by
  simp [setColumn, h]

theorem setColumn_other {V : Type} (c k : String) (hk : k ≠ c) (rows : List (String → V)) (vals : List V) (h : vals.length = rows.length) :
    (setColumn c rows vals).map (fun r => r k) = rows.map fun r => r k := by
  induction rows generalizing vals with
  | nil => cases vals <;> rfl
  | cons r rs ih =>
    cases vals with
    | nil => simp at h
    | cons v vs =>
      simp only [setColumn, List.zipWith_cons_cons, List.map_cons, if_neg hk, List.cons.injEq, true_and]
      exact ih vs (by simpa using h)

theorem setColumn_self {V : Type} (c : String) (rows : List (String → V)) (vals : List V) (h : vals.length = rows.length) :
    (setColumn c rows vals).map (fun r => r c) = vals := by
  induction rows generalizing vals with
  | nil => cases vals <;> simp_all [setColumn]
  | cons r rs ih =>
    cases vals with
    | nil => simp at h
    | cons v vs =>
      simp only [setColumn, List.zipWith_cons_cons, List.map_cons, if_true, List.cons.injEq, true_and]
      exact ih vs (by simpa using h)

theorem setColumn_id {V : Type} (c : String) (rows : List (String → V)) (vals : List V) (h : vals = rows.map fun r => r c) :
    setColumn c rows vals = rows := by
  induction rows generalizing vals with
  | nil => simp [setColumn]
  | cons r rs ih =>
    cases vals with
    | nil => simp at h
    | cons v vs =>
      simp only [List.map_cons, List.cons.injEq] at h
      simp only [setColumn, List.zipWith_cons_cons, List.cons.injEq]
      refine ⟨?_, ih vs h.2⟩
      funext k
      split
      · subst_vars; exact h.1
      · rfl

theorem binned_spec (c : Cat (Val K) K Dec) (δ : Dec) (h : 1 / 10 ^ 12 ≤ δ.val K) :
    ∃ c', binned c δ = .ok c' ∧ BinnedCat c c' δ := by
  obtain ⟨y, hy, hl, hn, hs⟩ := C05_bin_to_precision ((c.frame.column "magnitude").map toNum) δ h
  have hlen : (y.map (ofNum (K := K))).length = c.frame.rows.length := by simp [hl, Frame.column]
  refine ⟨{ c with frame := { c.frame with rows := setColumn "magnitude" c.frame.rows (y.map ofNum) }, deltaM := some δ },
    by unfold binned; rw [hy], ⟨rfl, setColumn_length _ _ _ hlen, fun k hk => setColumn_other _ _ hk _ _ hlen, ?_, ?_, rfl, rfl, rfl, rfl⟩⟩
  · intro i x hx
    obtain ⟨u, hu, hr⟩ := hs i x (by rw [List.getElem?_map, hx]; rfl)
    refine ⟨u, ?_, hr⟩
    rw [show Frame.column { c.frame with rows := setColumn "magnitude" c.frame.rows (y.map ofNum) } "magnitude" = y.map ofNum from
      setColumn_self "magnitude" c.frame.rows _ hlen, List.getElem?_map, hu]
    rfl
  · intro i v hv hnum
    have := hn i (by
      rw [List.getElem?_map, hv]
      cases v with
      | num x => exact absurd rfl (hnum x)
      | na => rfl
      | str s => rfl
      | time t => rfl)
    rw [show Frame.column { c.frame with rows := setColumn "magnitude" c.frame.rows (y.map ofNum) } "magnitude" = y.map ofNum from
      setColumn_self "magnitude" c.frame.rows _ hlen, List.getElem?_map, this]
    rfl

theorem binned_small (c : Cat (Val K) K Dec) (δ : Dec) (h : δ.val K < 1 / 10 ^ 12) : binned c δ = .error .valueError := by
  unfold binned
  rw [C05_small_bin_raises _ _ h]

/-- The bin size that is used: the argument, otherwise the attribute. -/
def BinSize (c : Cat (Val K) K Dec) (arg : Option Dec) (δ : Dec) : Prop := arg = some δ ∨ arg = none ∧ c.deltaM = some δ

theorem binMagnitudes_eq (c : Cat (Val K) K Dec) (arg : Option Dec) (δ : Dec) (inplace : Bool)
    (hm : "magnitude" ∈ c.frame.cols) (hδ : BinSize c arg δ) : binMagnitudes c arg inplace = binWith c δ inplace := by
  unfold binMagnitudes
  rw [C57_runs _ _ _ _ _ (by simpa using hm)]
  rcases hδ with rfl | ⟨rfl, hd⟩
  · rfl
  · simp only [hd]

/-- C50: in place the catalogue becomes the binned one, and nothing is returned. -/
theorem C50_inplace (c : Cat (Val K) K Dec) (arg : Option Dec) (δ : Dec) (hm : "magnitude" ∈ c.frame.cols)
    (hδ : BinSize c arg δ) (h : 1 / 10 ^ 12 ≤ δ.val K) :
    ∃ c', binMagnitudes c arg true = (c', .ok none) ∧ BinnedCat c c' δ := by
  obtain ⟨c', h1, h2⟩ := binned_spec c δ h
  exact ⟨c', by rw [binMagnitudes_eq c arg δ true hm hδ, binWith, h1]; rfl, h2⟩

/-- C50: otherwise the catalogue is not changed and the binned one is returned. -/
theorem C50_copy (c : Cat (Val K) K Dec) (arg : Option Dec) (δ : Dec) (hm : "magnitude" ∈ c.frame.cols)
    (hδ : BinSize c arg δ) (h : 1 / 10 ^ 12 ≤ δ.val K) :
    ∃ c', binMagnitudes c arg false = (c, .ok (some c')) ∧ BinnedCat c c' δ := by
  obtain ⟨c', h1, h2⟩ := binned_spec c δ h
  exact ⟨c', by rw [binMagnitudes_eq c arg δ false hm hδ, binWith, h1]; rfl, h2⟩

/-- C50: without a bin size (argument or attribute) or with one below 1e-12 a ValueError is raised, without a
`magnitude` column an AttributeError; the catalogue is not changed. -/
theorem C50_errors (c : Cat (Val K) K Dec) (arg : Option Dec) (inplace : Bool) :
    ("magnitude" ∉ c.frame.cols → binMagnitudes c arg inplace = (c, .error .attributeError)) ∧
    ("magnitude" ∈ c.frame.cols → arg = none → c.deltaM = none → binMagnitudes c arg inplace = (c, .error .valueError)) ∧
    (∀ δ, "magnitude" ∈ c.frame.cols → BinSize c arg δ → δ.val K < 1 / 10 ^ 12 →
      binMagnitudes c arg inplace = (c, .error .valueError)) := by
  refine ⟨fun h => C57_raises _ _ _ _ _ "magnitude" (by simp) (by simp) h, fun h ha hd => ?_, fun δ h hδ hs => ?_⟩
  · unfold binMagnitudes
    rw [C57_runs _ _ _ _ _ (by simpa using h), ha]
    simp only [hd]
  · rw [binMagnitudes_eq c arg δ inplace h hδ, binWith, binned_small c δ hs]

/-- C50: binning again, with the recorded bin size or the same argument, changes nothing. -/
theorem C50_idempotent (c c' : Cat (Val K) K Dec) (arg : Option Dec) (δ : Dec) (hm : "magnitude" ∈ c.frame.cols)
    (hδ : BinSize c arg δ) (h : 1 / 10 ^ 12 ≤ δ.val K) (hc : binMagnitudes c arg true = (c', .ok none)) :
    binMagnitudes c' arg true = (c', .ok none) ∧ binMagnitudes c' none true = (c', .ok none) := by
  obtain ⟨y, hy, hl, hn, hs⟩ := C05_bin_to_precision ((c.frame.column "magnitude").map toNum) δ h
  have hlen : (y.map (ofNum (K := K))).length = c.frame.rows.length := by simp [hl, Frame.column]
  have hb : binned c δ = .ok { c with frame := { c.frame with rows := setColumn "magnitude" c.frame.rows (y.map ofNum) }, deltaM := some δ } := by
    unfold binned
    rw [hy]
  rw [binMagnitudes_eq c arg δ true hm hδ, binWith, hb] at hc
  simp only [if_true, Prod.mk.injEq, and_true] at hc
  have hcol : c'.frame.column "magnitude" = y.map ofNum := by
    rw [← hc]
    exact setColumn_self "magnitude" c.frame.rows _ hlen
  have hto : (c'.frame.column "magnitude").map toNum = y := by
    rw [hcol, List.map_map]
    conv_rhs => rw [← List.map_id y]
    apply List.map_congr_left
    intro o _
    cases o <;> rfl
  have hid := C06_idempotent ((c.frame.column "magnitude").map toNum) δ h
  rw [hy] at hid
  have hy2 : binToPrecision y δ = .ok y := hid
  have hb2 : binned c' δ = .ok c' := by
    unfold binned
    rw [hto, hy2]
    simp only [Except.ok.injEq]
    rw [setColumn_id "magnitude" c'.frame.rows (y.map ofNum) hcol.symm]
    rw [← hc]
  have hm' : "magnitude" ∈ c'.frame.cols := by rw [← hc]; exact hm
  have hd : c'.deltaM = some δ := by rw [← hc]
  constructor
  · rw [binMagnitudes_eq c' arg δ true hm' (by
      rcases hδ with ha | ⟨ha, _⟩
      · exact Or.inl ha
      · exact Or.inr ⟨ha, hd⟩), binWith, hb2]
    rfl
  · rw [binMagnitudes_eq c' none δ true hm' (Or.inr ⟨rfl, hd⟩), binWith, hb2]
    rfl

end

/-- A catalogue of two events with bin size 0.1. -/
def sampleCat : Cat (Val ℚ) ℚ Dec :=
  { frame := { cols := ["magnitude", "depth", "weight"], rows := [fun k => if k = "magnitude" then .num (5 / 4) else .num 7, fun _ => .na] }
    deltaM := some ⟨1, -1⟩, mc := some 1 }

example : BinSize sampleCat none ⟨1, -1⟩ ∧ "magnitude" ∈ sampleCat.frame.cols ∧ (1 : ℚ) / 10 ^ 12 ≤ (Dec.mk 1 (-1)).val ℚ :=
  ⟨Or.inr ⟨rfl, rfl⟩, by simp [sampleCat], by norm_num [Dec.val]⟩

/-! ### C69 -/

section
variable {V A K D R I : Type}

/-- The column that an argument `a` of an estimator is filled from: the column of that name, otherwise the column
named by its singular (without a final s). -/
def ColumnFor (cols : List String) (a c : String) : Prop :=
  c = a ∧ a ∈ cols ∨ a ∉ cols ∧ c ∈ cols ∧ a = c ++ "s"

theorem singular_spec (a : String) : (∃ b, a = b ++ "s" ∧ singular a = b) ∨ (singular a = a ∧ ∀ b, a ≠ b ++ "s") := by
  unfold singular
  by_cases h : a.toList.getLast? = some 's'
  · rw [if_pos h]
    left
    refine ⟨_, ?_, rfl⟩
    apply String.toList_inj.1
    rw [String.toList_append, String.toList_ofList]
    exact (List.dropLast_append_getLast? 's' (by rw [h]; simp)).symm
  · rw [if_neg h]
    right
    refine ⟨rfl, ?_⟩
    rintro b rfl
    apply h
    rw [String.toList_append]
    simp

theorem foldl_set_get (cols : List String) (col : String → List V) (l : List (String × String)) (d : Dict (List V)) (a : String) :
    Dict.get? (l.foldl (fun d p => if p.2 ∈ cols then d.set p.1 (col p.2) else d) d) a =
      ((l.filter fun p => decide (p.1 = a ∧ p.2 ∈ cols)).getLast?.map fun p => col p.2).or (Dict.get? d a) := by
  induction l generalizing d with
  | nil => simp
  | cons p r ih =>
    rw [List.foldl_cons, ih]
    by_cases h : p.1 = a ∧ p.2 ∈ cols
    · rw [if_pos h.2, List.filter_cons_of_pos (by simpa using h), Dict.get?_set, if_pos h.1, List.getLast?_cons]
      cases (r.filter fun p => decide (p.1 = a ∧ p.2 ∈ cols)).getLast? <;> simp
    · rw [List.filter_cons_of_neg (by simpa using h)]
      by_cases h2 : p.2 ∈ cols
      · rw [if_pos h2, Dict.get?_set, if_neg (fun e => h ⟨e, h2⟩)]
      · rw [if_neg h2]

theorem filter_pairs (l : List String) (g : String → String) (cols : List String) (a : String) :
    ((List.zip l (l.map g)).filter fun p => decide (p.1 = a ∧ p.2 ∈ cols)) =
      if g a ∈ cols then List.replicate (l.count a) (a, g a) else [] := by
  induction l with
  | nil => simp
  | cons x r ih =>
    rw [List.map_cons, List.zip_cons_cons]
    by_cases h : x = a
    · subst h
      by_cases hg : g x ∈ cols
      · rw [List.filter_cons_of_pos (by simpa using hg), ih, if_pos hg, if_pos hg, List.count_cons_self, List.replicate_succ]
      · rw [List.filter_cons_of_neg (by simpa using hg), ih, if_neg hg, if_neg hg]
    · rw [List.filter_cons_of_neg (by simp [h]), ih, List.count_cons_of_ne h]

theorem getLast?_replicate_pos {α : Type} (n : ℕ) (x : α) (h : 0 < n) : (List.replicate n x).getLast? = some x := by
  cases n with
  | zero => omega
  | succ n => simp [List.getLast?_replicate]

/-- The value that an additional argument gets from the frame. -/
theorem checkCols_get (sig ref : List String) (f : Frame V) (a : String) :
    Dict.get? (checkCols sig ref f) a =
      if a ∈ sig ∧ a ∉ ref then
        (if a ∈ f.cols then some (f.column a) else if singular a ∈ f.cols then some (f.column (singular a)) else none)
      else none := by
  unfold checkCols
  rw [foldl_set_get]
  generalize he : (sig.filter fun n => !decide (n ∈ ref)) = extra
  have hmem : a ∈ extra ↔ a ∈ sig ∧ a ∉ ref := by
    rw [← he, List.mem_filter]
    simp
  have hz : List.zip (extra ++ extra) (extra.map singular ++ extra) =
      List.zip extra (extra.map singular) ++ List.zip extra (extra.map id) := by
    rw [List.map_id, List.zip_append (by simp)]
  rw [hz, List.filter_append, filter_pairs, filter_pairs]
  by_cases h : a ∈ extra
  · rw [if_pos (hmem.1 h)]
    have hc : 0 < extra.count a := List.count_pos_iff.2 h
    by_cases h1 : a ∈ f.cols
    · rw [if_pos (show id a ∈ f.cols from h1), if_pos h1, List.getLast?_append, getLast?_replicate_pos _ _ hc]
      simp
    · rw [if_neg (show ¬ id a ∈ f.cols from h1), if_neg h1, List.append_nil]
      by_cases h2 : singular a ∈ f.cols
      · rw [if_pos h2, if_pos h2, getLast?_replicate_pos _ _ hc]
        simp
      · rw [if_neg h2, if_neg h2]
        simp [Dict.get?]
  · rw [if_neg (fun e => h (hmem.2 e))]
    have hc : extra.count a = 0 := List.count_eq_zero.2 h
    rw [hc]
    simp [Dict.get?]

/-- C69: an argument of the estimator that the base class does not have gets the column of its name, otherwise
the column named by its singular; every other name, and an argument without such a column, gets nothing. -/
theorem C69_column_lookup (sig ref : List String) (f : Frame V) (a : String) :
    (∀ c, a ∈ sig → a ∉ ref → ColumnFor f.cols a c → Dict.get? (checkCols sig ref f) a = some (f.column c)) ∧
    (a ∈ sig → a ∉ ref → (∀ c, ¬ ColumnFor f.cols a c) → Dict.get? (checkCols sig ref f) a = none) ∧
    (a ∉ sig ∨ a ∈ ref → Dict.get? (checkCols sig ref f) a = none) := by
  rw [checkCols_get]
  refine ⟨fun c h1 h2 hc => ?_, fun h1 h2 hc => ?_, fun h => ?_⟩
  · rw [if_pos ⟨h1, h2⟩]
    rcases hc with ⟨rfl, hc⟩ | ⟨hn, hc, ha⟩
    · rw [if_pos hc]
    · rw [if_neg hn]
      rcases singular_spec a with ⟨b, hb, hs⟩ | ⟨_, hs⟩
      · have hbc : b = c := by
          have := congrArg String.toList (hb.symm.trans ha)
          rw [String.toList_append, String.toList_append] at this
          exact String.toList_inj.1 (List.append_cancel_right this)
        rw [hs, hbc, if_pos hc]
      · exact absurd ha (hs c)
  · rw [if_pos ⟨h1, h2⟩]
    have hn : a ∉ f.cols := fun h => hc a (Or.inl ⟨rfl, h⟩)
    rw [if_neg hn]
    rcases singular_spec a with ⟨b, hb, hs⟩ | ⟨hs, _⟩
    · rw [hs, if_neg (fun h => hc b (Or.inr ⟨hn, h, hb⟩))]
    · rw [hs, if_neg hn]
  · rw [if_neg]
    rintro ⟨h1, h2⟩
    rcases h with h | h
    · exact h h1
    · exact h2 h

theorem get_map_snd {B C : Type} (d : Dict B) (g : B → C) (k : String) :
    Dict.get? (d.map fun p => (p.1, g p.2)) k = (Dict.get? d k).map g := by
  induction d with
  | nil => rfl
  | cons p r ih =>
    simp only [List.map_cons, Dict.get?]
    split
    · rfl
    · exact ih

/-- C69 and C51: the keyword arguments of the estimator are those of the caller; only the others are filled from
columns. -/
theorem C69_caller_wins (sig ref : List String) (f : Frame V) (kwargs : Dict (Arg V A)) (hk : Dict.WF kwargs) (a : String) :
    Dict.get? (allKwargs sig ref f kwargs) a =
      match Dict.get? kwargs a with
      | some v => some v
      | none => (Dict.get? (checkCols sig ref f) a).map Arg.column := by
  unfold allKwargs
  rw [Dict.get?_update _ _ hk, get_map_snd]
  cases Dict.get? kwargs a <;> simp

example : ColumnFor ["magnitude", "time"] "times" "time" := Or.inr ⟨by decide, by decide, by decide⟩

example : ColumnFor ["times", "time"] "times" "times" := Or.inl ⟨rfl, by decide⟩

example : Dict.get? (checkCols ["self", "magnitudes", "times", "mc"] bRef ({ cols := ["magnitude", "time"], rows := [fun k => k.length] } : Frame ℕ)) "times" = some [4] := by
  decide

/-! ### C51 -/

/-- What an argument stands for: the value given, otherwise the attribute. -/
def Stands {T : Type} (arg attr : Option T) (x : T) : Prop := arg = some x ∨ arg = none ∧ attr = some x

theorem resolve_ok {T : Type} (arg attr : Option T) (x : T) : resolve arg attr = .ok x ↔ Stands arg attr x := by
  unfold Stands
  cases arg <;> cases attr <;> simp [resolve]

theorem resolve_none {T : Type} : resolve (none : Option T) none = .error .valueError := rfl

/-- Weights that are used: none if the estimator has no weights; otherwise the argument, otherwise the column
`weight`, otherwise none. -/
def WeightsUsed (supported : Bool) (arg : Option (Arg V A)) (f : Frame V) (w : Option (Arg V A)) : Prop :=
  supported = false ∧ w = none ∨
  supported = true ∧ arg.isSome ∧ w = arg ∨
  supported = true ∧ arg = none ∧ "weight" ∈ f.cols ∧ w = some (.column (f.column "weight")) ∨
  supported = true ∧ arg = none ∧ "weight" ∉ f.cols ∧ w = none

theorem chooseWeights_spec (s : Bool) (arg : Option (Arg V A)) (f : Frame V) : WeightsUsed s arg f (chooseWeights s arg f) := by
  unfold WeightsUsed chooseWeights
  cases s
  · simp
  · cases arg
    · by_cases h : "weight" ∈ f.cols <;> simp [h]
    · simp

/-- Keyword arguments that are used: those of the caller, the others from columns (C69). -/
def KwargsUsed (sig ref : List String) (f : Frame V) (kwargs used : Dict (Arg V A)) : Prop :=
  ∀ a, match Dict.get? kwargs a with
    | some v => Dict.get? used a = some v
    | none =>
      (∀ c, a ∈ sig → a ∉ ref → ColumnFor f.cols a c → Dict.get? used a = some (.column (f.column c))) ∧
      (a ∉ sig ∨ a ∈ ref ∨ (∀ c, ¬ ColumnFor f.cols a c) → Dict.get? used a = none)

theorem allKwargs_spec (sig ref : List String) (f : Frame V) (kwargs : Dict (Arg V A)) (hk : Dict.WF kwargs) :
    KwargsUsed sig ref f kwargs (allKwargs sig ref f kwargs) := by
  intro a
  have h := C69_caller_wins sig ref f kwargs hk a
  cases hg : Dict.get? kwargs a with
  | some v => rw [hg] at h; exact h
  | none =>
    rw [hg] at h
    dsimp only at h ⊢
    obtain ⟨h1, h2, h3⟩ := C69_column_lookup sig ref f a
    refine ⟨fun c ha hr hc => by rw [h, h1 c ha hr hc]; rfl, fun hh => ?_⟩
    rw [h]
    by_cases hs : a ∉ sig ∨ a ∈ ref
    · rw [h3 hs]; rfl
    · push Not at hs
      rcases hh with hh | hh | hh
      · exact absurd hs.1 hh
      · exact absurd hh hs.2
      · rw [h2 hs.1 hs.2 hh]; rfl

/-- C51: `estimate_b` runs the estimator on the magnitudes with mc and delta_m from the argument or the
attribute, the weights and keyword arguments as specified, stores its b-value and changes nothing else; if the
estimator raises, nothing at all is changed. -/
theorem C51_estimate_b (c : Cat V K D) (mcArg : Option K) (δArg : Option D) (wArg : Option (Arg V A)) (m : BMethod V K D A R)
    (kwargs : Dict (Arg V A)) (hk : Dict.WF kwargs) (hm : "magnitude" ∈ c.frame.cols) (mc : K) (δ : D)
    (h1 : Stands mcArg c.mc mc) (h2 : Stands δArg c.deltaM δ) :
    ∃ w used, WeightsUsed m.weightsSupported wArg c.frame w ∧ KwargsUsed m.sig bRef c.frame kwargs used ∧
      estimateB c mcArg δArg wArg m kwargs =
        match m.call (c.frame.column "magnitude") mc δ w used with
        | .error e => (c, .error e)
        | .ok r => ({ c with bValue := m.bValue r }, .ok r) := by
  refine ⟨_, _, chooseWeights_spec _ _ _, allKwargs_spec _ _ _ kwargs hk, ?_⟩
  unfold estimateB
  rw [C57_runs _ _ _ _ _ (by simpa using hm)]
  unfold bCall
  rw [(resolve_ok _ _ _).2 h1, (resolve_ok _ _ _).2 h2]
  rfl

/-- C51: the same for `estimate_a`; the reference magnitude, scaling factor and b-value are always those given in
the call, never those of the catalogue. -/
theorem C51_estimate_a (c : Cat V K D) (mcArg : Option K) (δArg : Option D) (scaling mRef b : Option K) (m : AMethod V K D A R)
    (kwargs : Dict (Arg V A)) (hk : Dict.WF kwargs) (hm : "magnitude" ∈ c.frame.cols) (mc : K) (δ : D)
    (h1 : Stands mcArg c.mc mc) (h2 : Stands δArg c.deltaM δ) :
    ∃ used, KwargsUsed m.sig aRef c.frame kwargs used ∧
      estimateA c mcArg δArg scaling mRef b m kwargs =
        match m.call (c.frame.column "magnitude") mc δ scaling mRef b used with
        | .error e => (c, .error e)
        | .ok r => ({ c with aValue := m.aValue r }, .ok r) := by
  refine ⟨_, allKwargs_spec _ _ _ kwargs hk, ?_⟩
  unfold estimateA
  rw [C57_runs _ _ _ _ _ (by simpa using hm)]
  unfold aCall
  rw [(resolve_ok _ _ _).2 h1, (resolve_ok _ _ _).2 h2]
  rfl

/-- C51: without a completeness magnitude or a bin size (argument or attribute) both methods raise a ValueError,
without a `magnitude` column an AttributeError; the catalogue is not changed and the estimator is not called. -/
theorem C51_missing (c : Cat V K D) (mcArg : Option K) (δArg : Option D) (wArg : Option (Arg V A)) (scaling mRef b : Option K)
    (m : BMethod V K D A R) (m' : AMethod V K D A R) (kwargs : Dict (Arg V A)) :
    ("magnitude" ∉ c.frame.cols → estimateB c mcArg δArg wArg m kwargs = (c, .error .attributeError) ∧
      estimateA c mcArg δArg scaling mRef b m' kwargs = (c, .error .attributeError)) ∧
    ("magnitude" ∈ c.frame.cols → (mcArg = none ∧ c.mc = none ∨ δArg = none ∧ c.deltaM = none) →
      estimateB c mcArg δArg wArg m kwargs = (c, .error .valueError) ∧
      estimateA c mcArg δArg scaling mRef b m' kwargs = (c, .error .valueError)) := by
  refine ⟨fun h => ⟨C57_raises _ _ _ _ _ "magnitude" (by simp) (by simp) h,
    C57_raises _ _ _ _ _ "magnitude" (by simp) (by simp) h⟩, fun h hn => ?_⟩
  have hb : bCall c mcArg δArg wArg m kwargs = .error .valueError ∧ aCall c mcArg δArg scaling mRef b m' kwargs = .error .valueError := by
    unfold bCall aCall
    rcases hn with ⟨h1, h2⟩ | ⟨h1, h2⟩
    · rw [h1, h2, resolve_none]
      exact ⟨rfl, rfl⟩
    · rw [h1, h2, resolve_none]
      cases mcArg with
      | some x => exact ⟨rfl, rfl⟩
      | none =>
        cases hc : c.mc with
        | some x => exact ⟨rfl, rfl⟩
        | none => exact ⟨rfl, rfl⟩
  unfold estimateB estimateA
  rw [C57_runs _ _ _ _ _ (by simpa using h), C57_runs _ _ _ _ _ (by simpa using h)]
  rw [hb.1, hb.2]
  exact ⟨rfl, rfl⟩

/-- C51, for every history: whatever sequence of b- and a-value estimates (successful or not) is run on a
catalogue, its content, mc and delta_m stay as they were. -/
theorem C51_history (c : Cat V K D) (calls : List (Cat V K D → Cat V K D))
    (h : ∀ g ∈ calls,
      (∃ mc δ w, ∃ m : BMethod V K D A R, ∃ kw, g = fun c => (estimateB c mc δ w m kw).1) ∨
      (∃ mc δ s r b, ∃ m : AMethod V K D A R, ∃ kw, g = fun c => (estimateA c mc δ s r b m kw).1)) :
    (calls.foldl (fun c g => g c) c).frame = c.frame ∧ (calls.foldl (fun c g => g c) c).mc = c.mc ∧
      (calls.foldl (fun c g => g c) c).deltaM = c.deltaM := by
  induction calls generalizing c with
  | nil => exact ⟨rfl, rfl, rfl⟩
  | cons g r ih =>
    have key : (g c).frame = c.frame ∧ (g c).mc = c.mc ∧ (g c).deltaM = c.deltaM := by
      rcases h g (by simp) with ⟨mc, δ, w, m, kw, rfl⟩ | ⟨mc, δ, s, rr, b, m, kw, rfl⟩
      · simp only [estimateB, requireCols]
        split
        · cases bCall c mc δ w m kw <;> exact ⟨rfl, rfl, rfl⟩
        · exact ⟨rfl, rfl, rfl⟩
      · simp only [estimateA, requireCols]
        split
        · cases aCall c mc δ s rr b m kw <;> exact ⟨rfl, rfl, rfl⟩
        · exact ⟨rfl, rfl, rfl⟩
    obtain ⟨h1, h2, h3⟩ := ih (g c) fun g' hg' => h g' (List.mem_cons_of_mem _ hg')
    rw [List.foldl_cons]
    exact ⟨h1.trans key.1, h2.trans key.2.1, h3.trans key.2.2⟩

/-- C51: the completeness methods store their result as mc and change nothing else; a failing call changes
nothing. delta_m comes from the argument or the attribute; the b-value of the KS test from the argument, else
from the catalogue, else it is estimated. -/
theorem C51_estimate_mc (c : Cat V K D) (δArg : Option D) (bArg : Option K) (f : List V → Py (Option K × I))
    (fs : List V → D → Py (Option K × I)) (fk : List V → D → Option K → Py (Option K × I))
    (hm : "magnitude" ∈ c.frame.cols) (δ : D) (h2 : Stands δArg c.deltaM δ) :
    (estimateMcMaxc c f = match f (c.frame.column "magnitude") with
      | .error e => (c, .error e)
      | .ok r => ({ c with mc := r.1 }, .ok r)) ∧
    (estimateMcStability c δArg fs = match fs (c.frame.column "magnitude") δ with
      | .error e => (c, .error e)
      | .ok r => ({ c with mc := r.1 }, .ok r)) ∧
    (∃ b, (bArg.isSome → b = bArg) ∧ (bArg = none → b = c.bValue) ∧
      estimateMcKs c δArg bArg fk = match fk (c.frame.column "magnitude") δ b with
      | .error e => (c, .error e)
      | .ok r => ({ c with mc := r.1 }, .ok r)) := by
  refine ⟨?_, ?_, bArg.or c.bValue, ?_, ?_, ?_⟩
  · unfold estimateMcMaxc
    rw [C57_runs _ _ _ _ _ (by simpa using hm)]
    rfl
  · unfold estimateMcStability
    rw [C57_runs _ _ _ _ _ (by simpa using hm)]
    unfold stabilityCall
    rw [(resolve_ok _ _ _).2 h2]
    rfl
  · intro hs
    cases bArg <;> simp_all
  · rintro rfl
    rfl
  · unfold estimateMcKs
    rw [C57_runs _ _ _ _ _ (by simpa using hm)]
    unfold ksCall
    rw [(resolve_ok _ _ _).2 h2]
    rfl

/-- C51, finding: if a completeness search finds nothing, the mc that the catalogue had is overwritten by None. -/
theorem C51_mc_lost (c : Cat V K D) (f : List V → Py (Option K × I)) (i : I) (hm : "magnitude" ∈ c.frame.cols)
    (hf : f (c.frame.column "magnitude") = .ok (none, i)) :
    (estimateMcMaxc c f).1 = { c with mc := none } := by
  unfold estimateMcMaxc
  rw [C57_runs _ _ _ _ _ (by simpa using hm)]
  rw [hf]

/-- C51, finding: once the catalogue has a b-value, the KS search can not be made to estimate b-values: the call
without a b-value is the call with the stored one. -/
theorem C51_ks_uses_stored_b (c : Cat V K D) (δArg : Option D) (b : K) (f : List V → D → Option K → Py (Option K × I))
    (hb : c.bValue = some b) : estimateMcKs c δArg none f = estimateMcKs c δArg (some b) f := by
  unfold estimateMcKs ksCall
  rw [requireCols, requireCols]
  split
  · rw [hb]; rfl
  · rfl

/-- C51, finding: weights given to an estimator that does not support them are dropped without an error. -/
theorem C51_unsupported_weights_dropped (c : Cat V K D) (mc : Option K) (δ : Option D) (w : Option (Arg V A)) (m : BMethod V K D A R)
    (kwargs : Dict (Arg V A)) (h : m.weightsSupported = false) :
    estimateB c mc δ w m kwargs = estimateB c mc δ none m kwargs := by
  unfold estimateB bCall chooseWeights
  rw [h]
  rfl

example : Stands (none : Option ℚ) sampleCat.mc 1 ∧ Stands none sampleCat.deltaM ⟨1, -1⟩ := ⟨Or.inr ⟨rfl, rfl⟩, Or.inr ⟨rfl, rfl⟩⟩

example : WeightsUsed (A := ℕ) true none sampleCat.frame (some (.column (sampleCat.frame.column "weight"))) :=
  Or.inr (Or.inr (Or.inl ⟨rfl, rfl, by decide, rfl⟩))

end

end SeismoStats.Props
