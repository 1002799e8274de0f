/-
Specification for C86 and C87: plain texts, texts that end within a tag, occurrences of a word.
-/
import Verif.Spec.Parser

namespace SeismoStats.XmlText
open SeismoStats SeismoStats.Spec.Parser

/-- A character of a value: printable, no markup. -/
def Plain (c : Char) : Prop := 32 ≤ c.toNat ∧ c ≠ '<' ∧ c ≠ '>' ∧ c ≠ '&' ∧ c ≠ '"' ∧ c.toNat ≠ 65534 ∧ c.toNat ≠ 65535

/-- A text of plain characters. -/
def PlainText (s : String) : Prop := ∀ c ∈ s.toList, Plain c

/-- A text of plain characters, and without white space between two other characters. -/
def PlainWord (s : String) : Prop := PlainText s ∧ ∀ t, Trimmed s.toList t → ∀ c ∈ t, ¬ Blank c

/-- The text ends within a tag: there is no `>` after the last `<`. -/
def InTag (p : List Char) : Prop := ∃ a b, p = a ++ '<' :: b ∧ '>' ∉ b

/-- How often a word occurs in a text. -/
def occurrences (w : List Char) : List Char → ℕ
  | [] => 0
  | c :: r => (if w <+: c :: r then 1 else 0) + occurrences w r

/-- The end tag of an event. -/
def eventEnd : List Char := "</event>".toList

end SeismoStats.XmlText
