import Verif.Model.Peg
/-
The VRML97 grammar of /repo/vrml/vrml97/parser.py:19-61, production by production.
Character classes are those of the text of the grammar: `\000-\020` is octal (code points 0 to 16),
`\011-\015` are tab, newline, vertical tab, form feed and carriage return, `\134` is the backslash.
-/
namespace Verif.Grammar
open Verif.Peg

/-- productions -/
inductive NT
  | header | vrmlFile | rootItem | vrmlScene | proto | fieldDecl | fieldExposure | dataType | eventDecl
  | eventDirection | externProto | extFieldDecl | extProtoURL | route | node | script | scriptEventDecl
  | scriptFieldDecl | sfNull | use | is | nodegi | attr | field | vector | name | sfNumber | sfBool
  | sfString | charNoDblQuote | simpleBackslash | escapedChar | ts | eof
deriving DecidableEq, Repr

/-- `[ \011-\015,]` -/
def isBlank (c : Char) : Bool := c == ' ' || c == ',' || (9 ≤ c.toNat && c.toNat ≤ 13)
/-- the class excluded after the first character of a name, ``][{}\000-\020"'#,.\\ `` -/
def isNameBad (c : Char) : Bool :=
  c == ']' || c == '[' || c == '{' || c == '}' || c.toNat ≤ 16 || c == '"' || c == '\'' || c == '#'
    || c == ',' || c == '.' || c == '\\' || c == ' '
def isDigit (c : Char) : Bool := 48 ≤ c.toNat && c.toNat ≤ 57
/-- `-[][0-9{}\000-\020"'#,.\\ ]` -/
def isNameStart (c : Char) : Bool := !isNameBad c && !isDigit c
/-- `-[][{}\000-\020"'#,.\\ ]` -/
def isNameRest (c : Char) : Bool := !isNameBad c
/-- `[-+]` -/
def isSign (c : Char) : Bool := c == '-' || c == '+'
/-- `[0-9A-Fa-f]` -/
def isHex (c : Char) : Bool :=
  isDigit c || (65 ≤ c.toNat && c.toNat ≤ 70) || (97 ≤ c.toNat && c.toNat ≤ 102)
/-- `[0-9.]` -/
def isDigDot (c : Char) : Bool := isDigit c || c == '.'
/-- `[-+0-9.]` -/
def isExpChar (c : Char) : Bool := isSign c || isDigDot c
/-- `-[\134"]` -/
def isPlain (c : Char) : Bool := !(c == '\\' || c == '"')
/-- `-'\012'`, `-[\n]` -/
def notNl (c : Char) : Bool := !(c == '\n')

abbrev E := Exp NT
open Lean in
/-- a literal `'...'` of the grammar, written out as a list of characters -/
macro "kw" s:str : term => do
  let cs := s.getString.toList.toArray.map (fun c => (Syntax.mkCharLit c))
  `((Exp.lit [$cs,*] : E))
/-- `ts` -/
def ws : E := .silent .ts
/-- sequence whose elements after the `!` raise on failure -/
def afterCut (l : List E) : List E := l.map Exp.cut

/-- `('USE',ts,USE,ts)` -/
def useGroup : E := .seqs [kw "USE", ws, .nt .use, ws]

/-- `('IS', ts,!, IS,ts)` -/
def isGroupCut : E := .seqs ([kw "IS", ws] ++ afterCut [.nt .is, ws])

/-- `('IS', ts, IS,ts)` (line 49, without a cut) -/
def isGroup : E := .seqs [kw "IS", ws, .nt .is, ws]

/-- `('DEF',ts,!,name,ts)?` -/
def defGroup : E := .opt (.seqs ([kw "DEF", ws] ++ afterCut [.nt .name, ws]))

/-- elements of a bracketed field -/
def fieldItem : E := .alts [.nt .vector, .nt .sfNumber, .nt .sfBool, .nt .sfString, useGroup, .nt .script, .nt .node]
/-- elements of an unbracketed field -/
def fieldItem1 : E := .alts [.nt .sfNumber, .nt .sfBool, .nt .sfNull, .nt .sfString, useGroup, .nt .script, .nt .node]

/-- the productions, parser.py:20-60 -/
def gram : NT → E
  | .header => .star (.cls notNl)                                                              -- 20
  | .vrmlFile => .seqs ([.nt .header, .nt .vrmlScene] ++ afterCut [.nt .eof])                    -- 21
  | .rootItem => .seqs [ws, .alts [.nt .proto, .nt .externProto, .nt .route, useGroup, .nt .script, .nt .node], ws] -- 22
  | .vrmlScene => .star (.nt .rootItem)                                                        -- 23
  | .proto => .seqs ([kw "PROTO", ws] ++ afterCut [.nt .nodegi, ws, kw "[", ws,
      .star (.alt (.nt .fieldDecl) (.nt .eventDecl)), kw "]", ws, kw "{", ws, .nt .vrmlScene, ws, kw "}", ws]) -- 25
  | .fieldDecl => .seqs ([.nt .fieldExposure, ws] ++ afterCut [.nt .dataType, ws, .nt .name, ws, .nt .field, ws]) -- 26
  | .fieldExposure => .alt (kw "field") (kw "exposedField")                                    -- 27
  | .dataType => .seq (.opt (.alt (kw "SF") (kw "MF"))) (.nt .name)                             -- 28
  | .eventDecl => .seqs ([.nt .eventDirection, ws] ++ afterCut [.nt .dataType, ws, .nt .name, ws]) -- 29
  | .eventDirection => .alt (kw "eventIn") (kw "eventOut")                                     -- 30
  | .externProto => .seqs ([kw "EXTERNPROTO", ws] ++ afterCut [.nt .nodegi, ws, kw "[", ws,
      .star (.alt (.nt .extFieldDecl) (.nt .eventDecl)), kw "]", ws, .nt .extProtoURL])        -- 31
  | .extFieldDecl => .seqs ([.nt .fieldExposure, ws] ++ afterCut [.nt .dataType, ws, .nt .name, ws]) -- 32
  | .extProtoURL => .seqs [.opt (kw "["), .star (.seq ws (.nt .sfString)), ws, .opt (kw "]"), ws] -- 33
  | .route => .seqs ([kw "ROUTE", ws] ++ afterCut [.nt .name, kw ".", .nt .name, ws, kw "TO", ws, .nt .name, kw ".", .nt .name, ws]) -- 35
  | .node => .seqs ([defGroup, .nt .nodegi, ws, kw "{", ws, .star (.alts [.nt .proto, .nt .externProto, .nt .route, .nt .attr]), ws]
      ++ afterCut [kw "}", ws])                                                                -- 37
  | .script => .seqs ([defGroup, kw "Script", ws] ++ afterCut [kw "{", ws,
      .star (.alts [.nt .scriptFieldDecl, .nt .scriptEventDecl, .nt .proto, .nt .externProto, .nt .route, .nt .attr]), ws, kw "}", ws]) -- 39
  | .scriptEventDecl => .seqs ([.nt .eventDirection, ws] ++ afterCut [.nt .dataType, ws, .nt .name, ws, .opt isGroupCut]) -- 40
  | .scriptFieldDecl => .seqs ([.nt .fieldExposure, ws] ++ afterCut [.nt .dataType, ws, .nt .name, ws, .alt isGroupCut (.nt .field), ws]) -- 41
  | .sfNull => .seq (kw "NULL") ws                                                             -- 43
  | .use => .nt .name                                                                          -- 46
  | .is => .nt .name                                                                           -- 47
  | .nodegi => .nt .name                                                                       -- 48
  | .attr => .seqs [.nt .name, ws, .alt isGroup (.nt .field), ws]                              -- 49
  | .field => .alt (.seqs [kw "[", ws, .star (.seq fieldItem ws), .cut (kw "]"), ws])
      (.plus (.seq fieldItem1 ws))                                                             -- 50
  | .vector => .seqs [kw "[", ws, .star (.seq (.alt (.nt .vector) (.nt .sfNumber)) ws), kw "]"] -- 52
  | .name => .seq (.cls isNameStart) (.star (.cls isNameRest))                                 -- 53
  | .sfNumber => .seq (.star (.cls isSign)) (.alt
      (.seqs [kw "0", .cls (fun c => c == 'x' || c == 'X'), .plus (.cls isHex)])
      (.seq (.plus (.cls isDigDot)) (.opt (.seq (.cls (fun c => c == 'e' || c == 'E')) (.plus (.cls isExpChar)))))) -- 54
  | .sfBool => .alt (kw "TRUE") (kw "FALSE")                                                   -- 55
  | .sfString => .seqs [kw "\"", .star (.alts [.nt .charNoDblQuote, .nt .escapedChar, .nt .simpleBackslash]), .cut (kw "\"")] -- 56
  | .charNoDblQuote => .plus (.cls isPlain)                                                    -- 57
  | .simpleBackslash => kw "\\"                                                                -- 58
  | .escapedChar => .alt (kw "\\\"") (kw "\\\\")                                               -- 59
  | .ts => .star (.alt (.plus (.cls isBlank)) (.plus (.seqs [kw "#", .star (.cls notNl), kw "\n"]))) -- 60
  | .eof => .eof                                                                               -- simpleparse.common EOF

end Verif.Grammar
