/-
Model of the reading of QuakeML at the level of characters: `xml.sax` with the expat reader as it is used by seismostats/io/parser.py:282-356. The text is
handed over in buffers (`xml.sax.expatreader` reads 65516 bytes at a time). Character data between two tags is delivered in one call unless a buffer
ends within it. Subset of XML: elements, attributes, character data, predefined and character references, processing instructions. Comments, CDATA
sections and document types are not modelled (an error here), names are checked for ASCII only, `]]>` in character data is accepted. pyexpat also
delivers character data of more than 8192 characters in several calls (not modelled; with single words any division gives the same record).
-/
import Verif.Model.Parser

namespace SeismoStats
namespace XmlText
open SeismoStats SeismoStats.Parser

/-- White space of XML. -/
def isWs (c : Char) : Bool := c == ' ' || c == '\n' || c == '\t' || c == '\r'

/-- The first character of a name. -/
def isNameStart (c : Char) : Bool :=
  let n := c.toNat
  (97 ≤ n && n ≤ 122) || (65 ≤ n && n ≤ 90) || n == 95 || n == 58 || 128 ≤ n

/-- A character of a name. -/
def isNameChar (c : Char) : Bool :=
  let n := c.toNat
  isNameStart c || (48 ≤ n && n ≤ 57) || n == 45 || n == 46

/-- A character that may occur in a document. -/
def isLegal (c : Char) : Bool :=
  let n := c.toNat
  (32 ≤ n || n == 9 || n == 10 || n == 13) && n != 65534 && n != 65535

/-- Value of a digit. -/
def digit (c : Char) : Option ℕ :=
  let n := c.toNat
  if 48 ≤ n ∧ n ≤ 57 then some (n - 48) else if 97 ≤ n ∧ n ≤ 102 then some (n - 87) else if 65 ≤ n ∧ n ≤ 70 then some (n - 55) else none

/-- A number in the given base; no digits or a wrong digit: none. -/
def number (base : ℕ) (s : List Char) : Option ℕ :=
  if s = [] then none
  else s.foldl (fun o c => match o, digit c with
    | some n, some d => if d < base then some (n * base + d) else none
    | _, _ => none) (some 0)

/-- The character with a number, if it may occur in a document. -/
def charOf (n : Option ℕ) : Option Char :=
  match n with
  | some n => if n.isValidChar ∧ isLegal (Char.ofNat n) = true then some (Char.ofNat n) else none
  | none => none

/-- The character of a reference `&r;`. -/
def refChar (r : List Char) : Option Char :=
  match r with
  | ['a', 'm', 'p'] => some '&'
  | ['l', 't'] => some '<'
  | ['g', 't'] => some '>'
  | ['q', 'u', 'o', 't'] => some '"'
  | ['a', 'p', 'o', 's'] => some '\''
  | '#' :: 'x' :: s => charOf (number 16 s)
  | '#' :: s => charOf (number 10 s)
  | _ => none

/-- A start tag that has been read in part: name and attributes. -/
structure Tag where
  name : List Char
  attrs : List (List Char × List Char) := []

/-- Where the reader is. -/
inductive Mode where
  /-- character data, `acc` has not been delivered -/
  | text (acc : List Char)
  /-- within a reference in character data -/
  | ref (acc r : List Char)
  /-- after `<` -/
  | lt
  /-- within a processing instruction; after its `?` -/
  | pi | piEnd
  /-- within the name of a start tag -/
  | name (n : List Char)
  /-- white space within a start tag -/
  | space (t : Tag)
  /-- name of an attribute; after it; after `=` -/
  | attr (t : Tag) (a : List Char)
  | attrEnd (t : Tag) (a : List Char)
  | eq (t : Tag) (a : List Char)
  /-- value of an attribute within the quotes `q`; a reference in it -/
  | value (t : Tag) (a : List Char) (q : Char) (v : List Char)
  | valueRef (t : Tag) (a : List Char) (q : Char) (v r : List Char)
  /-- after the value -/
  | valueEnd (t : Tag)
  /-- after the `/` of an empty element -/
  | slash (t : Tag)
  /-- after `</`; name of an end tag; white space after it -/
  | close
  | closeName (n : List Char)
  | closeEnd (n : List Char)
  /-- not well-formed -/
  | bad

/-- The reader: open elements (the innermost first), has the root been closed, calls of the content handler so far. -/
structure L where
  mode : Mode := .text []
  stack : List String := []
  done : Bool := false
  calls : List Sax := []

/-- The calls for character data (none for no characters). -/
def charsCall (acc : List Char) : List Sax := if acc = [] then [] else [.chars acc]

/-- Not well-formed. -/
def L.fail (l : L) : L := { l with mode := .bad }

/-- A start tag has been read: the attribute publicID is the only one that the handler looks at. A second root is an error. -/
def L.opened (l : L) (t : Tag) : L :=
  if l.done then l.fail
  else { l with mode := .text [], stack := String.ofList t.name :: l.stack,
                calls := l.calls ++ [.start (String.ofList t.name) (((t.attrs.find? fun p => decide (p.1 = "publicID".toList)).map Prod.snd).map String.ofList)] }

/-- An end tag has been read. -/
def L.closed (l : L) (n : List Char) : L :=
  match l.stack with
  | [] => l.fail
  | t :: r => if t = String.ofList n then { mode := .text [], stack := r, done := decide (r = []), calls := l.calls ++ [.stop t] } else l.fail

/-- A character in character data. Outside of the root only white space is allowed, and it is not delivered. -/
def L.inText (l : L) (acc : List Char) (c : Char) : L :=
  if c = '<' then { l with mode := .lt, calls := l.calls ++ charsCall acc }
  else if l.stack = [] then (if isWs c then l else l.fail)
  else if c = '&' then { l with mode := .ref acc [] }
  else if isLegal c then { l with mode := .text (acc ++ [c]) }
  else l.fail

/-- A character within a start tag where an attribute may begin (after white space). -/
def L.inSpace (l : L) (t : Tag) (c : Char) : L :=
  if isWs c then { l with mode := .space t }
  else if c = '>' then l.opened t
  else if c = '/' then { l with mode := .slash t }
  else if isNameStart c then { l with mode := .attr t [c] }
  else l.fail

/-- A character within the value of an attribute; white space becomes a blank. A name that occurs twice is an error. -/
def L.inValue (l : L) (t : Tag) (a : List Char) (q : Char) (v : List Char) (c : Char) : L :=
  if c = q then
    if t.attrs.any fun p => decide (p.1 = a) then l.fail else { l with mode := .valueEnd { t with attrs := t.attrs ++ [(a, v)] } }
  else if c = '<' then l.fail
  else if c = '&' then { l with mode := .valueRef t a q v [] }
  else if isWs c then { l with mode := .value t a q (v ++ [' ']) }
  else if isLegal c then { l with mode := .value t a q (v ++ [c]) }
  else l.fail

/-- One character. -/
def L.step (l : L) (c : Char) : L :=
  match l.mode with
  | .bad => l
  | .text acc => l.inText acc c
  | .ref acc r =>
    if c = ';' then match refChar r with
      | some d => { l with mode := .text (acc ++ [d]) }
      | none => l.fail
    else if isNameChar c || c == '#' then { l with mode := .ref acc (r ++ [c]) } else l.fail
  | .lt =>
    if c = '/' then { l with mode := .close }
    else if c = '?' then { l with mode := .pi }
    else if isNameStart c then { l with mode := .name [c] }
    else l.fail
  | .pi => if c = '?' then { l with mode := .piEnd } else l
  | .piEnd => if c = '>' then { l with mode := .text [] } else if c = '?' then l else { l with mode := .pi }
  | .name n => if isNameChar c then { l with mode := .name (n ++ [c]) } else l.inSpace ⟨n, []⟩ c
  | .space t => l.inSpace t c
  | .attr t a =>
    if isNameChar c then { l with mode := .attr t (a ++ [c]) }
    else if isWs c then { l with mode := .attrEnd t a }
    else if c = '=' then { l with mode := .eq t a }
    else l.fail
  | .attrEnd t a => if isWs c then l else if c = '=' then { l with mode := .eq t a } else l.fail
  | .eq t a => if isWs c then l else if c = '"' ∨ c = '\'' then { l with mode := .value t a c [] } else l.fail
  | .value t a q v => l.inValue t a q v c
  | .valueRef t a q v r =>
    if c = ';' then match refChar r with
      | some d => { l with mode := .value t a q (v ++ [d]) }
      | none => l.fail
    else if isNameChar c || c == '#' then { l with mode := .valueRef t a q v (r ++ [c]) } else l.fail
  | .valueEnd t => if isNameStart c then l.fail else l.inSpace t c
  | .slash t => if c = '>' then (l.opened t).closed t.name else l.fail
  | .close => if isNameStart c then { l with mode := .closeName [c] } else l.fail
  | .closeName n =>
    if isNameChar c then { l with mode := .closeName (n ++ [c]) }
    else if isWs c then { l with mode := .closeEnd n }
    else if c = '>' then l.closed n
    else l.fail
  | .closeEnd n => if isWs c then l else if c = '>' then l.closed n else l.fail

/-- The end of a buffer: character data that has been read is delivered. -/
def L.flush (l : L) : L :=
  match l.mode with
  | .text acc => { l with mode := .text [], calls := l.calls ++ charsCall acc }
  | .ref acc r => { l with mode := .ref [] r, calls := l.calls ++ charsCall acc }
  | _ => l

/-- One buffer. -/
def L.buffer (l : L) (b : List Char) : L := (b.foldl L.step l).flush

/-- A text in buffers. -/
def lex (bufs : List (List Char)) : L := bufs.foldl L.buffer {}

/-- How the document ends: regularly; without its root or before the end of the root ("no element found"); within a tag or a reference ("unclosed
token") or not well-formed. -/
def L.ending (l : L) : Ending :=
  match l.mode with
  | .text _ => if l.done then .complete else .noElement
  | _ => .other

noncomputable section

/-- parser.py:282-305 `parse_quakeml_file` (and 331-356 `parse_quakeml_response`) for a file with the given content. -/
def readFile (env : Env) (all quality : Bool) (bufs : List (List Char)) : Py (List Rec) :=
  parseFile env all quality (lex bufs).calls (lex bufs).ending

/-- parser.py:308-328 `parse_quakeml`: the empty string has no events. -/
def readString (env : Env) (all quality : Bool) (bufs : List (List Char)) : Py (List Rec) :=
  if bufs.flatten = [] then .ok [] else parseString env all quality (lex bufs).calls (lex bufs).ending

end
end XmlText
end SeismoStats
