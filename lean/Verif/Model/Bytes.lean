/-
Texts and bytes: /repo/vrml/_bytes.py:46-84 on Python 3.  A text is a list of code points (a Python `str` may contain
surrogates), bytes are numbers below 256.  Only the encoding `utf-8`, the default, is modelled; the codec is Python's strict
one (RFC 3629): shortest form, no surrogates, nothing above U+10FFFF.
-/
namespace Verif.Bytes

/-- `c.encode('utf-8')` for one character; `none` is UnicodeEncodeError (surrogates). -/
def enc (c : Nat) : Option (List Nat) :=
  if c < 0x80 then some [c]
  else if c < 0x800 then some [0xC0 + c / 64, 0x80 + c % 64]
  else if c < 0x10000 then
    if 0xD800 ≤ c ∧ c < 0xE000 then none
    else some [0xE0 + c / 4096, 0x80 + c / 64 % 64, 0x80 + c % 64]
  else if c < 0x110000 then some [0xF0 + c / 262144, 0x80 + c / 4096 % 64, 0x80 + c / 64 % 64, 0x80 + c % 64]
  else none

/-- `s.encode('utf-8')` -/
def encode : List Nat → Option (List Nat)
  | [] => some []
  | c :: s => match enc c, encode s with
    | some b, some bs => some (b ++ bs)
    | _, _ => none

/-- a continuation byte -/
def cont (b : Nat) : Bool := 0x80 ≤ b && b < 0xC0

/-- One character of `b.decode('utf-8')`: the character and the number of bytes; `none` is UnicodeDecodeError. -/
def dec : List Nat → Option (Nat × Nat)
  | [] => none
  | a :: bs =>
    if a < 0x80 then some (a, 1)
    else if a < 0xC2 then none
    else if a < 0xE0 then
      match bs with
      | b :: _ => if cont b then some ((a - 0xC0) * 64 + (b - 0x80), 2) else none
      | _ => none
    else if a < 0xF0 then
      match bs with
      | b :: c :: _ =>
        if cont b && cont c && !(a == 0xE0 && b < 0xA0) && !(a == 0xED && 0xA0 ≤ b) then
          some ((a - 0xE0) * 4096 + (b - 0x80) * 64 + (c - 0x80), 3)
        else none
      | _ => none
    else if a < 0xF5 then
      match bs with
      | b :: c :: d :: _ =>
        if cont b && cont c && cont d && !(a == 0xF0 && b < 0x90) && !(a == 0xF4 && 0x90 ≤ b) then
          some ((a - 0xF0) * 262144 + (b - 0x80) * 4096 + (c - 0x80) * 64 + (d - 0x80), 4)
        else none
      | _ => none
    else none

/-- `b.decode('utf-8')`; the first argument bounds the number of characters (the length is enough). -/
def decodeN : Nat → List Nat → Option (List Nat)
  | _, [] => some []
  | 0, _ :: _ => none
  | n + 1, a :: bs => match dec (a :: bs) with
    | none => none
    | some (c, k) => match decodeN n ((a :: bs).drop k) with
      | none => none
      | some s => some (c :: s)

/-- `b.decode('utf-8')` -/
def decode (b : List Nat) : Option (List Nat) := decodeN b.length b

/-- `b.decode('latin-1')`: every byte is a character. -/
def latin1 (b : List Nat) : List Nat := b

/-- A Python value; of other objects only `str(x)` matters. -/
inductive Val where
  | str (s : List Nat)
  | bytes (b : List Nat)
  | other (str : List Nat)

/-- _bytes.py:51-59 as_8_bit; `none` is UnicodeEncodeError. -/
def as8bit : Val → Option (List Nat)
  | .str s => encode s
  | .bytes b => some b
  | .other s => encode s

/-- _bytes.py:60-67 as_str; `none` is UnicodeDecodeError. -/
def asStr : Val → Option (List Nat)
  | .str s => some s
  | .bytes b => decode b
  | .other s => some s

/-- _bytes.py:74-84 as_unicode; never raises. -/
def asUnicode : Val → List Nat
  | .str s => s
  | .bytes b => match decode b with
    | some s => s
    | none => latin1 b
  | .other s => s

end Verif.Bytes
