/-!
# Model of writing and reading XML files

`scripts/parse_tools/xml_tools.py` (PrettyElementTree.write, read_xml_file) and the parts of Python's
`xml.etree.ElementTree` that they call (tostring and parse, as far as files written by tostring are concerned: no
comments, processing instructions or CDATA sections, attribute values in double quotes).  The normalisation of line
ends on reading is not modelled.  An error is `none`.
-/
namespace Ccpp.XF

/-- Notation: text. -/
abbrev Str := List Char

/-- An element with its tag, attributes, text, sub-elements and the text after it (xml.etree.ElementTree.Element),
used at xml_tools.py:251-256 -/
inductive Elem where
  | mk (tag : Str) (attrs : List (Str × Str)) (text : Str) (kids : List Elem) (tail : Str)

/-- ASCII characters removed by str.strip (Python library), xml_tools.py:293, 332.  Other characters do not occur in the
serialised text. -/
def isBlank (c : Char) : Bool :=
  c == ' ' || (9 ≤ c.toNat && c.toNat ≤ 13) || (28 ≤ c.toNat && c.toNat ≤ 31)

/-- str.strip (Python library), xml_tools.py:293, 332 -/
def strip (s : Str) : Str := ((s.dropWhile isBlank).reverse.dropWhile isBlank).reverse

/-! ## xml.etree.ElementTree.tostring -/

/-- Escaped character of a text (_escape_cdata and the encoding us-ascii of the Python library), xml_tools.py:283-287 -/
def escText (c : Char) : Str :=
  if c = '&' then "&amp;".toList
  else if c = '<' then "&lt;".toList
  else if c = '>' then "&gt;".toList
  else if 128 ≤ c.toNat then '&' :: '#' :: Nat.toDigits 10 c.toNat ++ [';']
  else [c]

/-- Escaped character of an attribute value (_escape_attrib of the Python library), xml_tools.py:283-287 -/
def escAttr (c : Char) : Str :=
  if c = '"' then "&quot;".toList
  else if c = '\r' then "&#13;".toList
  else if c = '\n' then "&#10;".toList
  else if c = '\t' then "&#09;".toList
  else escText c

/-- A serialised attribute (_serialize_xml of the Python library), xml_tools.py:283-287 -/
def attrText (a : Str × Str) : Str := ' ' :: a.1 ++ '=' :: '"' :: a.2.flatMap escAttr ++ ['"']

/-- Tag and attributes, xml_tools.py:283-287 -/
def headText (tag : Str) (attrs : List (Str × Str)) : Str := tag ++ attrs.flatMap attrText

mutual
/-- _serialize_xml of the Python library with short_empty_elements, xml_tools.py:283-287 -/
def toString : Elem → Str
  | .mk tag attrs text kids tail =>
    (if text = [] ∧ kids.isEmpty = true then '<' :: headText tag attrs ++ " />".toList
     else '<' :: headText tag attrs ++ '>' :: text.flatMap escText ++ toStrings kids ++ '<' :: '/' :: tag ++ ['>']) ++
    tail.flatMap escText
/-- The sub-elements, xml_tools.py:283-287 -/
def toStrings : List Elem → Str
  | [] => []
  | e :: es => toString e ++ toStrings es
end

/-! ## PrettyElementTree.write -/

/-- Not an angle bracket, xml_tools.py:23-25 -/
def notAngle (c : Char) : Bool := c != '<' && c != '>'

/-- beg_tag_re.match: the match and the rest, xml_tools.py:23.  With backtracking there are two cases: the last character
before the closing bracket is an angle bracket itself, or the last one of the run. -/
def begTag : Str → Option (Str × Str)
  | '<' :: c :: r =>
    if c = '/' then none else
    match r.dropWhile notAngle with
    | x :: '>' :: rest => some ('<' :: c :: r.takeWhile notAngle ++ [x, '>'], rest)
    | '>' :: rest =>
      match (r.takeWhile notAngle).getLast? with
      | some l => if l ≠ '/' then some ('<' :: c :: r.takeWhile notAngle ++ ['>'], rest) else none
      | none => none
    | _ => none
  | _ => none

/-- Neither angle bracket nor slash, xml_tools.py:24-25 -/
def plain (c : Char) : Bool := notAngle c && c != '/'

/-- end_tag_re.match, xml_tools.py:24 -/
def endTag : Str → Option (Str × Str)
  | '<' :: '/' :: r =>
    match r.takeWhile plain, r.dropWhile plain with
    | c :: cs, '>' :: rest => some ('<' :: '/' :: c :: cs ++ ['>'], rest)
    | _, _ => none
  | _ => none

/-- simple_tag_re.match, xml_tools.py:25 -/
def simpleTag : Str → Option (Str × Str)
  | '<' :: c :: r =>
    if c = '/' then none else
    match r.takeWhile plain, r.dropWhile plain with
    | x :: xs, '/' :: '>' :: rest => some ('<' :: c :: x :: xs ++ "/>".toList, rest)
    | _, _ => none
  | _ => none

/-- The indentation, xml_tools.py:21, 258-260 -/
def indent (n : Nat) : Str := (List.replicate n [' ', ' ']).flatten

/-- The loop of PrettyElementTree.write, xml_tools.py:294-337: the text written for the rest of the input.  The first
argument bounds the number of iterations (each one consumes a character).  The indentation never becomes negative for
the output of tostring. -/
def prettyLoop : Nat → Nat → Bool → Str → Option Str
  | _, _, _, [] => some []
  | 0, _, _, _ :: _ => none
  | fuel + 1, ind, lastText, s =>
    match begTag s with
    | some (o, r) =>
      match r with
      | [] => none
      | c :: _ =>
        (prettyLoop fuel (ind + 1) false r).map (indent ind ++ o ++ (if c ≠ '<' then [] else ['\n']) ++ ·)
    | none =>
      match endTag s with
      | some (o, r) =>
        (prettyLoop fuel (ind - 1) false r).map ((if lastText then [] else indent (ind - 1)) ++ o ++ ['\n'] ++ ·)
      | none =>
        match simpleTag s with
        | some (o, r) => (prettyLoop fuel ind false r).map (indent ind ++ o ++ ['\n'] ++ ·)
        | none =>
          match s.takeWhile (· != '<') with
          | [] => none
          | t => (prettyLoop fuel ind true (s.dropWhile (· != '<'))).map (strip t ++ ·)

/-- PrettyElementTree.write: the text of the file, xml_tools.py:279-338 -/
def write (e : Elem) : Option Str :=
  prettyLoop (strip (toString e)).length 0 false (strip (toString e))

/-! ## xml.etree.ElementTree.parse -/

/-- The text is cut into tags and characters (XML, as used at xml_tools.py:233). -/
inductive Tok where
  | tag (s : Str)
  | chr (c : Char)
  deriving DecidableEq

/-- Cutting into tags and characters, xml_tools.py:233.  The first argument is the text of the current tag. -/
def lex : Option Str → Str → Option (List Tok)
  | none, [] => some []
  | some _, [] => none
  | none, c :: s => if c = '<' then lex (some []) s else (lex none s).map (.chr c :: ·)
  | some t, c :: s =>
    if c = '<' then none else if c = '>' then (lex none s).map (.tag t :: ·) else lex (some (t ++ [c])) s

/-- The characters of entities and character references (XML, as used at xml_tools.py:233) -/
def entity (n : Str) : Option Char :=
  if n = "amp".toList then some '&'
  else if n = "lt".toList then some '<'
  else if n = "gt".toList then some '>'
  else if n = "quot".toList then some '"'
  else if n = "apos".toList then some '\''
  else match n with
    | '#' :: d :: ds => if (d :: ds).all Char.isDigit then some (Char.ofNat (Nat.ofDigitChars 10 (d :: ds) 0)) else none
    | _ => none

/-- Replacement of entities and character references (XML, as used at xml_tools.py:233).  The first argument is the name
of the current entity. -/
def unesc : Option Str → Str → Option Str
  | none, [] => some []
  | some _, [] => none
  | none, c :: s => if c = '&' then unesc (some []) s else (unesc none s).map (c :: ·)
  | some n, c :: s =>
    if c = ';' then (entity n).bind fun x => (unesc none s).map (x :: ·) else unesc (some (n ++ [c])) s

/-- Where the reading of attributes is. -/
inductive AttrState where
  | between
  | name (n : Str)
  | equals (n : Str)
  | value (n v : Str)

/-- Reading of the attributes of a tag (XML, as used at xml_tools.py:233) -/
def readAttrs : AttrState → Str → Option (List (Str × Str))
  | .between, [] => some []
  | _, [] => none
  | .between, c :: s => if isBlank c then readAttrs .between s else readAttrs (.name [c]) s
  | .name n, c :: s => if c = '=' then readAttrs (.equals n) s else readAttrs (.name (n ++ [c])) s
  | .equals n, c :: s => if c = '"' then readAttrs (.value n []) s else none
  | .value n v, c :: s =>
    if c = '"' then (unesc none v).bind fun v' => (readAttrs .between s).map ((n, v') :: ·)
    else readAttrs (.value n (v ++ [c])) s

/-- Tag and attributes of a start tag (XML, as used at xml_tools.py:233) -/
def readHead (m : Str) : Option (Str × List (Str × Str)) :=
  let tag := m.takeWhile fun c => !isBlank c
  if tag = [] then none else (readAttrs .between (m.dropWhile fun c => !isBlank c)).map (tag, ·)

/-- An element that is being read: tag, attributes, text and sub-elements, last one first (xml_tools.py:233). -/
structure Frame where
  tag : Str
  attrs : List (Str × Str)
  text : Str
  kids : List Elem

/-- The text after an element grows (XML, as used at xml_tools.py:233). -/
def Elem.addTail : Elem → Char → Elem
  | .mk tag attrs text kids tail, c => .mk tag attrs text kids (tail ++ [c])

/-- A character is added to the text of the element or to the text after its last sub-element (XML, as used at
xml_tools.py:233). -/
def Frame.addChar (f : Frame) (c : Char) : Frame :=
  match f.kids with
  | [] => { f with text := f.text ++ [c] }
  | k :: ks => { f with kids := k.addTail c :: ks }

mutual
/-- Entities in texts are replaced (XML, as used at xml_tools.py:233). -/
def decode : Elem → Option Elem
  | .mk tag attrs text kids tail =>
    (unesc none text).bind fun text' => (decodes kids).bind fun kids' => (unesc none tail).map fun tail' =>
      .mk tag attrs text' kids' tail'
/-- The sub-elements, xml_tools.py:233. -/
def decodes : List Elem → Option (List Elem)
  | [] => some []
  | e :: es => (decode e).bind fun e' => (decodes es).map (e' :: ·)
end

/-- The elements are put together (XML, as used at xml_tools.py:233): the open elements, innermost first; the last one
stands for the document. -/
def build : List Frame → List Tok → Option (List Elem)
  | [d], [] => if d.text.all isBlank then some d.kids.reverse else none
  | _, [] => none
  | [], _ :: _ => none
  | f :: fs, .chr c :: ts => build (f.addChar c :: fs) ts
  | f :: fs, .tag ('/' :: n) :: ts =>
    match fs with
    | [] => none
    | g :: gs =>
      if n = f.tag then build ({ g with kids := .mk f.tag f.attrs f.text f.kids.reverse [] :: g.kids } :: gs) ts else none
  | f :: fs, .tag m :: ts =>
    if m.getLast? = some '/' then
      (readHead m.dropLast).bind fun h => build ({ f with kids := .mk h.1 h.2 [] [] [] :: f.kids } :: fs) ts
    else (readHead m).bind fun h => build (⟨h.1, h.2, [], []⟩ :: f :: fs) ts

/-- read_xml_file: the root of the file, xml_tools.py:225-247.  There is one root, and only blanks before and after it. -/
def read (s : Str) : Option Elem :=
  (lex none s).bind fun ts =>
    match build [⟨[], [], [], []⟩] ts with
    | some [.mk tag attrs text kids tail] =>
      if tail.all isBlank then decode (.mk tag attrs text kids []) else none
    | _ => none

end Ccpp.XF
