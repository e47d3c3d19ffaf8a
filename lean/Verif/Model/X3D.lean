import Verif.Model.ProtoText
/-
The grammar of /repo/vrml/vrml200x/parser.py:12-80 (the "classic VRML" encoding of X3D), production by production, and
reading a file with it: `VRMLParser.buildProcessor` (parser.py:82-87) hands the parse tree to the same
`vrml.vrml97.parseprocessor.ParseProcessor`, whose `header` ignores the header (parseprocessor.py:60-61).

The productions `importStatement`, `exportStatement` and `asClause` (parser.py:28-30) are not reachable from `vrmlFile`
and are left out.
-/
namespace Verif.X3D
open Verif.Peg Verif.Grammar Verif.TextOut Verif.Lin

variable {F : Type}

/-- The productions: those also named in the VRML97 grammar (`vector` does not exist here), and the new ones of the
header. -/
inductive NT2
  | old (n : NT)
  | headerStatement | headerComment | profileStatement | profileName | newLine | componentStatement | componentNameId
  | componentSupportLevel | metaStatement | metakey | metavalue
deriving DecidableEq, Repr

abbrev E2 := Exp NT2

/-- Expressions of the VRML97 grammar, with the production names of this one. -/
def lift : Exp NT → E2
  | .eps => .eps
  | .lit s => .lit s
  | .cls p => .cls p
  | .seq a b => .seq (lift a) (lift b)
  | .alt a b => .alt (lift a) (lift b)
  | .star a => .star (lift a)
  | .nt n => .nt (.old n)
  | .silent n => .silent (.old n)
  | .cut a => .cut (lift a)
  | .eof => .eof

/-- `ts` -/
def ws2 : E2 := .silent (.old .ts)
def nl2 : E2 := .silent .newLine
/-- a literal -/
def lit2 (s : List Char) : E2 := .lit s

/-- `-newLine`: a character at which no `newLine` starts. -/
def notEol (c : Char) : Bool := !(c == '\r' || c == '\n')

/-- `('USE',ts,USE,ts)` -/
def use2 : E2 := .seqs [lit2 ['U', 'S', 'E'], ws2, .nt (.old .use), ws2]

/-- elements of a bracketed field, parser.py:67; there is no `vector` -/
def fieldItem2 : E2 := .alts [.nt (.old .sfNumber), .nt (.old .sfBool), .nt (.old .sfString), use2, .nt (.old .script), .nt (.old .node)]

/-- The productions, parser.py:13-79.  The productions whose text is that of the VRML97 grammar (checked line by line
against /repo/vrml/vrml97/parser.py:21-60) are taken from there. -/
def gram2 : NT2 → E2
  | .old .header => .seqs [.nt .headerStatement, .nt .profileStatement, .star (.nt .componentStatement), .star (.nt .metaStatement)] -- 13
  | .headerStatement => .alt
      (.seqs [lit2 ['#', 'X', '3', 'D'], ws2, .nt (.old .sfNumber), ws2, lit2 ['u', 't', 'f', '8'], ws2, .opt (.nt .headerComment), nl2])
      (.seqs [lit2 ['#'], .opt (.nt .headerComment), nl2])                                                        -- 14
  | .headerComment => .plus (.cls notEol)                                                                          -- 15
  | .profileStatement => .seqs [lit2 ['P', 'R', 'O', 'F', 'I', 'L', 'E'], ws2, .nt .profileName, nl2]              -- 16
  | .profileName => .nt (.old .name)                                                                               -- 17
  | .newLine => .alts [lit2 ['\r', '\n'], lit2 ['\r'], lit2 ['\n']]                                                -- 18
  | .componentStatement => .seqs [lit2 ['C', 'O', 'M', 'P', 'O', 'N', 'E', 'N', 'T'], ws2, .nt .componentNameId, ws2, lit2 [':'], ws2,
      .nt .componentSupportLevel]                                                                                  -- 20
  | .componentNameId => .nt (.old .name)                                                                           -- 21
  | .componentSupportLevel => .nt (.old .sfNumber)                                                                 -- 22
  | .metaStatement => .seqs [lit2 ['M', 'E', 'T', 'A'], ws2, .nt .metakey, ws2, .nt .metavalue]                    -- 24
  | .metakey => .nt (.old .sfString)                                                                               -- 25
  | .metavalue => .nt (.old .sfString)                                                                             -- 26
  | .old .fieldExposure => .alts [lit2 ['i', 'n', 'p', 'u', 't', 'O', 'u', 't', 'p', 'u', 't'],
      lit2 ['i', 'n', 'i', 't', 'i', 'a', 'l', 'i', 'z', 'e', 'O', 'n', 'l', 'y'],
      lit2 ['f', 'i', 'e', 'l', 'd'], lit2 ['e', 'x', 'p', 'o', 's', 'e', 'd', 'F', 'i', 'e', 'l', 'd']]            -- 40
  | .old .eventDirection => .alts [lit2 ['i', 'n', 'p', 'u', 't', 'O', 'n', 'l', 'y'],
      lit2 ['o', 'u', 't', 'p', 'u', 't', 'O', 'n', 'l', 'y'],
      lit2 ['e', 'v', 'e', 'n', 't', 'I', 'n'], lit2 ['e', 'v', 'e', 'n', 't', 'O', 'u', 't']]                      -- 45
  | .old .field => .alt (.seqs [lit2 ['['], ws2, .star (.seq fieldItem2 ws2), .cut (lit2 [']']), ws2])
      (.plus (.seq (.alts [.nt (.old .sfNumber), .nt (.old .sfBool), .nt (.old .sfNull), .nt (.old .sfString), use2,
        .nt (.old .script), .nt (.old .node)]) ws2))                                                               -- 67
  | .old .vector => .cls (fun _ => false)                                                                          -- no such production
  | .old n => lift (gram n)

/-- The production names, as the processor sees them. -/
def NT2.back : NT2 → NT
  | .old n => n
  | _ => .header

mutual
/-- The parse tree with its production names, as the processor sees it. -/
def back : Tree NT2 → Tree NT
  | .node n m ts => .node n.back m (backs ts)
def backs : List (Tree NT2) → List (Tree NT)
  | [] => []
  | t :: ts => back t :: backs ts
end

/-- `buildParser().parse(text)` with the grammar of vrml200x: the parse tree of the whole text, processed by the
ParseProcessor of VRML97, gives `f`. -/
def ReadsX3D (base : Text → Option (Class F)) (fl : Floats F) (text : Text) (f : FSt F) : Prop :=
  ∃ hdr sm kids eof m,
    Der gram2 (gram2 (.old .vrmlFile)) text (.ok [hdr, .node (.old .vrmlScene) sm kids, eof] m []) ∧
    readItems base fl (backs kids) ⟨[], ⟨Scene.empty, 0⟩⟩ = some f

end Verif.X3D
