import Verif.Model.Vars
/-!
# CSS tokens, variable values and their text

`bevy_flair_css_parser/src/vars.rs` (`parse_var_tokens`), `bevy_flair_style/src/vars.rs` and `to_css.rs` (`ToCss`).

The tokenizer is the third-party crate `cssparser`; it is modelled here after CSS Syntax Level 3, section 4 (with the
changes of that crate: white space and comments are dropped between tokens).  Numbers: `Num` is the type of values; how a
numeric lexeme is read (`f64` arithmetic, then `f32`) and how an `f32` is printed (Rust's `Display`) are the fields of
`NumText`.  The `has_sign` and `int_value` flags of numeric tokens are not modelled.
-/
namespace Flair.CssToken
open Flair.Vars

/-- A `str` -/
abbrev Text := List Char

/-- Reading and printing of numbers -/
structure NumText (Num : Type) where
  /-- the value of a numeric lexeme -/
  read : Text → Num
  /-- the `unit_value` of a percentage with this lexeme: a hundredth -/
  readPct : Text → Num
  /-- `write!("{value}")` -/
  «show» : Num → Text
  /-- `write!("{}", value * 100.0)` -/
  showPct : Num → Text

/-- White space of CSS -/
def isWs (c : Char) : Bool := c == ' ' || c == '\t' || c == '\n' || c == '\r' || c == '\x0c'

/-- New lines of CSS -/
def isNl (c : Char) : Bool := c == '\n' || c == '\r' || c == '\x0c'

/-- Digits -/
def isDigit (c : Char) : Bool := decide ('0' ≤ c) && decide (c ≤ '9')

/-- ident-start code points: letters, `_`, non-ASCII, and NUL, which stands for U+FFFD -/
def isNameStart (c : Char) : Bool :=
  (decide ('a' ≤ c) && decide (c ≤ 'z')) || (decide ('A' ≤ c) && decide (c ≤ 'Z')) || c == '_' || c == '\x00' ||
    decide (128 ≤ c.toNat)

/-- ident code points -/
def isName (c : Char) : Bool := isNameStart c || isDigit c || c == '-'

/-- NUL is read as U+FFFD -/
def fixNul (c : Char) : Char := if c = '\x00' then '\uFFFD' else c

/-- The text starts with a new line -/
def nlHead : Text → Bool
  | c :: _ => isNl c
  | [] => false

/-- The same after a first `-` -/
def startsIdent2 : Text → Bool
  | [] => false
  | d :: ds => isNameStart d || d == '-' || (d == '\\' && !nlHead ds)

/-- "check if three code points would start an ident sequence" -/
def startsIdent : Text → Bool
  | [] => false
  | c :: cs => if c = '-' then startsIdent2 cs else isNameStart c || (c == '\\' && !nlHead cs)

/-- Hexadecimal digits and their value -/
def hexVal (c : Char) : Option Nat :=
  if isDigit c then some (c.toNat - 48)
  else if 'a' ≤ c ∧ c ≤ 'f' then some (c.toNat - 87)
  else if 'A' ≤ c ∧ c ≤ 'F' then some (c.toNat - 55)
  else none

/-- Up to `n` more hexadecimal digits -/
def hexDigits : Nat → Nat → Text → Nat × Text
  | 0, v, s => (v, s)
  | _ + 1, v, [] => (v, [])
  | n + 1, v, c :: cs =>
    match hexVal c with
    | some d => hexDigits n (v * 16 + d) cs
    | none => (v, c :: cs)

/-- One white space after a hexadecimal escape -/
def dropWs1 : Text → Text
  | [] => []
  | c :: cs => if isWs c then cs else c :: cs

/-- "consume an escaped code point", after the backslash -/
def escape : Text → Char × Text
  | [] => ('\uFFFD', [])
  | c :: cs =>
    match hexVal c with
    | some d =>
      ((if (hexDigits 5 d cs).1 = 0 then '\uFFFD' else Char.ofNat (hexDigits 5 d cs).1), dropWs1 (hexDigits 5 d cs).2)
    | none => (fixNul c, cs)

/-- "consume an ident sequence" (the first argument bounds the number of characters) -/
def name : Nat → Text → Text × Text
  | 0, s => ([], s)
  | _ + 1, [] => ([], [])
  | n + 1, c :: cs =>
    if isName c then (fixNul c :: (name n cs).1, (name n cs).2)
    else if c = '\\' && !nlHead cs then ((escape cs).1 :: (name n (escape cs).2).1, (name n (escape cs).2).2)
    else ([], c :: cs)

/-- "consume a string token", after the quote: `none` is a bad string -/
def str (q : Char) : Nat → Text → Option Text × Text
  | 0, s => (some [], s)
  | _ + 1, [] => (some [], [])
  | n + 1, c :: cs =>
    if c = q then (some [], cs)
    else if isNl c then (none, c :: cs)
    else if c = '\\' then
      if cs = [] then (some [], [])
      else if nlHead cs then str q n cs.tail
      else ((str q n (escape cs).2).1.map ((escape cs).1 :: ·), (str q n (escape cs).2).2)
    else ((str q n cs).1.map (fixNul c :: ·), (str q n cs).2)

/-- An optional sign -/
def sign : Text → Text × Text
  | [] => ([], [])
  | c :: cs => if c = '+' ∨ c = '-' then ([c], cs) else ([], c :: cs)

/-- A point and at least one digit -/
def fraction : Text → Text × Text
  | '.' :: d :: ds => if isDigit d then ('.' :: d :: ds.takeWhile isDigit, ds.dropWhile isDigit) else ([], '.' :: d :: ds)
  | s => ([], s)

/-- `e`, an optional sign and at least one digit -/
def exponent : Text → Text × Text
  | [] => ([], [])
  | c :: cs =>
    if c = 'e' ∨ c = 'E' then
      match (sign cs).2 with
      | d :: ds =>
        if isDigit d then (c :: (sign cs).1 ++ d :: ds.takeWhile isDigit, ds.dropWhile isDigit) else ([], c :: cs)
      | [] => ([], c :: cs)
    else ([], c :: cs)

/-- "consume a number": the lexeme and the rest -/
def lexeme (s : Text) : Text × Text :=
  let (a, s) := sign s
  let b := s.takeWhile isDigit
  let s := s.dropWhile isDigit
  let (c, s) := fraction s
  let (d, s) := exponent s
  (a ++ b ++ c ++ d, s)

/-- "check if three code points would start a number" -/
def startsNumber (s : Text) : Bool :=
  match (sign s).2 with
  | '.' :: d :: _ => isDigit d
  | d :: _ => isDigit d
  | [] => false

/-- Tokens.  `other` stands for all those `parse_var_token` rejects: at-keywords, unquoted urls, bad strings and urls, other
brackets, match operators, `<!--`, `-->`. -/
inductive CTok (Num : Type) where
  | ident (t : Text)
  | hash (t : Text)
  | string (t : Text)
  | delim (c : Char)
  | number (x : Num)
  | percentage (x : Num)
  | dimension (x : Num) (unit : Text)
  | colon | semicolon | comma
  | function (t : Text)
  | closeParen
  | other
deriving DecidableEq

/-- ASCII lower case -/
def lower (c : Char) : Char := if 'A' ≤ c ∧ c ≤ 'Z' then Char.ofNat (c.toNat + 32) else c

/-- `eq_ignore_ascii_case` with a lower case word -/
def eqCi (t : Text) (w : String) : Bool := t.map lower == w.toList

/-- After `url(`: a quote follows the white space -/
def quoteAhead (s : Text) : Bool :=
  match s.dropWhile isWs with
  | c :: _ => c == '"' || c == '\''
  | [] => false

variable {Num : Type}

/-- "consume an ident-like token" -/
def identLike (s : Text) : CTok Num × Text :=
  match (name s.length s).2 with
  | [] => (.ident (name s.length s).1, [])
  | c :: r =>
    if c = '(' then
      if eqCi (name s.length s).1 "url" && !quoteAhead r then (.other, (r.dropWhile (· != ')')).tail)
      else (.function (name s.length s).1, r)
    else (.ident (name s.length s).1, c :: r)

/-- "consume a numeric token" -/
def numeric (N : NumText Num) (s : Text) : CTok Num × Text :=
  if startsIdent (lexeme s).2 then
    (.dimension (N.read (lexeme s).1) (name (lexeme s).2.length (lexeme s).2).1,
      (name (lexeme s).2.length (lexeme s).2).2)
  else
    match (lexeme s).2 with
    | [] => (.number (N.read (lexeme s).1), [])
    | c :: r => if c = '%' then (.percentage (N.readPct (lexeme s).1), r) else (.number (N.read (lexeme s).1), c :: r)

/-- The result of a string -/
def strTok (p : Option Text × Text) : CTok Num × Text :=
  match p.1 with
  | some t => (.string t, p.2)
  | none => (.other, p.2)

/-- "consume a token": `c` is neither white space nor the start of a comment -/
def token (N : NumText Num) (c : Char) (cs : Text) : CTok Num × Text :=
  if c = '"' ∨ c = '\'' then strTok (str c cs.length cs)
  else if c = '#' then
    if startsIdent cs || (cs.head?.map isName).getD false then
      (.hash (name cs.length cs).1, (name cs.length cs).2)
    else (.delim '#', cs)
  else if c = ')' then (.closeParen, cs)
  else if c = ',' then (.comma, cs)
  else if c = ':' then (.colon, cs)
  else if c = ';' then (.semicolon, cs)
  else if c = '(' ∨ c = '[' ∨ c = ']' ∨ c = '{' ∨ c = '}' then (.other, cs)
  else if startsNumber (c :: cs) then numeric N (c :: cs)
  else if c = '-' ∧ cs.take 2 = ['-', '>'] then (.other, cs.drop 2)
  else if c = '<' ∧ cs.take 3 = ['!', '-', '-'] then (.other, cs.drop 3)
  else if c = '@' then if startsIdent cs then (.other, (name cs.length cs).2) else (.delim '@', cs)
  else if (c = '$' ∨ c = '*' ∨ c = '^' ∨ c = '|' ∨ c = '~') ∧ cs.head? = some '=' then (.other, cs.tail)
  else if startsIdent (c :: cs) then identLike (c :: cs)
  else (.delim c, cs)

/-- To the end of a comment -/
def dropComment : Text → Text
  | '*' :: '/' :: r => r
  | _ :: r => dropComment r
  | [] => []

/-- All tokens (the first argument bounds the number of characters) -/
def lexAll (N : NumText Num) : Nat → Text → List (CTok Num)
  | 0, _ => []
  | _ + 1, [] => []
  | n + 1, c :: cs =>
    if isWs c then lexAll N n cs
    else if c = '/' ∧ cs.head? = some '*' then lexAll N n (dropComment cs.tail)
    else (token N c cs).1 :: lexAll N n (token N c cs).2

/-- The tokens of a text -/
def lex (N : NumText Num) (s : Text) : List (CTok Num) := lexAll N s.length s

/-! ## Variable values -/

/-- `VarToken` (vars.rs:15-52) -/
inductive VarToken (Num : Type) where
  | ident (t : Text)
  | hash (t : Text)
  | string (t : Text)
  | delim (c : Char)
  | number (x : Num)
  | percentage (x : Num)
  | dimension (x : Num) (unit : Text)
  | function (t : Text)
  | endFunction
deriving DecidableEq

/-- `parse_var_token` (css_parser vars.rs:24-50) -/
def varToken : CTok Num → Option (VarToken Num)
  | .ident t => some (.ident t)
  | .hash t => some (.hash t)
  | .string t => some (.string t)
  | .delim c => some (.delim c)
  | .number x => some (.number x)
  | .percentage x => some (.percentage x)
  | .dimension x u => some (.dimension x u)
  | .colon => some (.delim ':')
  | .semicolon => some (.delim ';')
  | .comma => some (.delim ',')
  | .function t => some (.function t)
  | .closeParen => none
  | .other => none

/-- `parse_important` succeeds here -/
def importantAhead : List (CTok Num) → Bool
  | .delim '!' :: .ident t :: _ => eqCi t "important"
  | _ => false

/-- `parse_var_fn` (6-22), after `var(`: the name without the two dashes, and what follows the closing parenthesis (the
end of the text closes it too) -/
def varFn : List (CTok Num) → Option (Text × List (CTok Num))
  | [.ident t] => if t.take 2 = ['-', '-'] ∧ 3 ≤ t.length then some (t.drop 2, []) else none
  | .ident t :: .closeParen :: r => if t.take 2 = ['-', '-'] ∧ 3 ≤ t.length then some (t.drop 2, r) else none
  | _ => none

/-- `parse_var_tokens` (63-89) on a whole value, `none` when a part of it is left over (its callers then report an error;
inside a function the nested block is not exhausted, so the function as a whole is left over).  The second argument counts
the functions still open; the end of the text closes them.  (The first bounds the number of tokens.) -/
def parseTokens : Nat → Nat → List (CTok Num) → Option (VarTokens Text (VarToken Num))
  | 0, _, _ => none
  | _ + 1, depth, [] => some (List.replicate depth (.token .endFunction))
  | n + 1, depth, t :: ts =>
    if importantAhead (t :: ts) then none
    else
      match t with
      | .closeParen =>
        match depth with
        | 0 => none
        | d + 1 => (parseTokens n d ts).map (.token .endFunction :: ·)
      | .function f =>
        if eqCi f "var" then (varFn ts).bind fun p => (parseTokens n depth p.2).map (.var p.1 :: ·)
        else (parseTokens n (depth + 1) ts).map (.token (.function f) :: ·)
      | t => (varToken t).bind fun v => (parseTokens n depth ts).map (.token v :: ·)

/-- `parse_var_tokens` on a text -/
def parseVarTokens (N : NumText Num) (s : Text) : Option (VarTokens Text (VarToken Num)) :=
  parseTokens ((lex N s).length + 1) 0 (lex N s)

/-- `ToCss for VarToken` (vars.rs:55-77) -/
def tokenText (N : NumText Num) : VarToken Num → Text
  | .ident t => t
  | .hash t => '#' :: t
  | .string t => '"' :: t ++ ['"']
  | .delim c => [c]
  | .number x => N.show x
  | .percentage x => N.showPct x ++ ['%']
  | .dimension x u => N.show x ++ u
  | .function t => t ++ ['(']
  | .endFunction => [')']

/-- `ToCss for &[T]` (to_css.rs:20-30): a space between two tokens -/
def toCss (N : NumText Num) : List (VarToken Num) → Text
  | [] => []
  | [t] => tokenText N t
  | t :: t' :: ts => tokenText N t ++ ' ' :: toCss N (t' :: ts)

end Flair.CssToken
