import Verif.Spec.Token

/-!
# Model: `tokenize_raw`, `src/preprocess.c:1202-1810`

`m` is the rest of the text from `at` on. Past its end the memory is zero (the file is padded with zero bytes,
`src/preprocess.c:2655-2684`, and a pasted string is zero-terminated, `src/std.c:1380`). Lines and columns are natural
numbers. The commits of memory for the tokens are not modelled; `C05_tokens_fit` is about their amount.
-/
namespace Verif.Tokenize
open Verif.Spec.Token (Kind)

/-- `at[i]`. -/
def at' (m : List Nat) (i : Nat) : Nat := m.getD i 0

/-- `u8_is_whitespace`, `src/std.c:959-961`. -/
def isWhitespace (c : Nat) : Bool := c == 11 || c == 9 || c == 12 || c == 32
/-- `u8_is_number`, `src/std.c:971-973`. -/
def isNumber (c : Nat) : Bool := decide (57 ≥ c) && decide (c ≥ 48)
/-- `u8_is_hex_number`, `src/std.c:975-977`. -/
def isHexNumber (c : Nat) : Bool := isNumber c || (decide (102 ≥ c ||| 32) && decide (c ||| 32 ≥ 97))
/-- `u8_is_valid_in_c_ident`, `src/preprocess.c:387-418`; written as the comment at its end. -/
def isIdent (c : Nat) : Bool :=
  (decide (97 ≤ c) && decide (c ≤ 122)) || (decide (65 ≤ c) && decide (c ≤ 90)) || c == 95 || isNumber c || c == 36 ||
    (decide (128 ≤ c) && decide (c ≤ 255))

def numberOrQuote (c : Nat) : Bool := isNumber c || c == 39
def hexOrQuote (c : Nat) : Bool := isHexNumber c || c == 39

/-- `while(p(*at)) at++` from index `i`; `p` is false for zero. -/
def eat (p : Nat → Bool) (m : List Nat) (i : Nat) : Nat := i + ((m.drop i).takeWhile p).length

/-- `if(*at == '-' || *at == '+') at++`. -/
def eatSign (m : List Nat) (i : Nat) : Nat := if at' m i = 45 ∨ at' m i = 43 then i + 1 else i

/-- `src/preprocess.c:1712-1733` and 1747-1769. -/
def numbers (m : List Nat) (i : Nat) (kind : Kind) : Kind × Nat :=
  let i := eat numberOrQuote m i
  let (kind, i) := if at' m i = 46 then (Kind.floatLiteral, eat numberOrQuote m (i + 1)) else (kind, i)
  let (kind, i) := if at' m i ||| 32 = 101 then (Kind.floatLiteral, eat numberOrQuote m (eatSign m (i + 1))) else (kind, i)
  (kind, eat isIdent m i)

/-- `src/preprocess.c:1653-1687`, from after the `0x`. -/
def hexNumbers (m : List Nat) : Kind × Nat :=
  let i := eat hexOrQuote m 2
  if at' m i = 46 then
    let i := eat hexOrQuote m (i + 1)
    let i := if at' m i ||| 32 = 112 then eatSign m (i + 1) else i
    (.floatHexLiteral, eat isIdent m i)
  else if at' m i ||| 32 = 112 then
    (.floatHexLiteral, eat isIdent m (eatSign m (i + 1)))
  else (.hexLiteral, eat isIdent m i)

/-- The result of the loop in a block comment, `src/preprocess.c:1506-1516`, from some position: how far it goes, the
newlines, the index of the last one, whether the end of the comment was found. -/
structure Comment where
  length : Nat
  lines : Nat
  last : Option Nat
  found : Bool
deriving DecidableEq, Repr

def Comment.after (newline : Bool) (r : Comment) : Comment :=
  { length := r.length + 1, lines := r.lines + (if newline then 1 else 0),
    last := match r.last with
      | some i => some (i + 1)
      | none => if newline then some 0 else none
    found := r.found }

def blockComment : List Nat → Comment
  | [] => ⟨0, 0, none, false⟩
  | c :: m =>
    if c = 0 then ⟨0, 0, none, false⟩
    else if at' m 0 = 47 ∧ c = 42 then ⟨0, 0, none, true⟩
    else (blockComment m).after (c == 10)

/-- The loops in string and character literals, `src/preprocess.c:1556-1575` and 1595-1613: how far they go (including
the end quote), the newlines counted (`src/preprocess.c:1599, 1601`), and `no_end`. -/
def quoted (quote : Nat) : List Nat → Nat × Nat × Bool
  | [] => (0, 0, true)
  | [c] =>
    if c = 92 then (2, 0, true)
    else if c = quote then (1, 0, false)
    else if c = 0 ∨ c = 10 then (0, 0, true)
    else (1, 0, true)
  | c :: d :: m =>
    if c = 92 then
      if d = 13 ∧ at' m 0 = 10 then
        let r := quoted quote m.tail
        (r.1 + 3, r.2.1 + 1, r.2.2)
      else
        let r := quoted quote m
        (r.1 + 2, r.2.1 + (if d = 10 then 1 else 0), r.2.2)
    else if c = quote then (1, 0, false)
    else if c = 0 ∨ c = 10 then (0, 0, true)
    else
      let r := quoted quote (d :: m)
      (r.1 + 1, r.2)
termination_by m => m.length
decreasing_by
  all_goals simp only [List.length_cons, List.length_tail]
  all_goals omega

/-- One token: its kind, its size, the position after it, whether an error is reported for it. -/
structure Token where
  kind : Kind
  size : Nat
  line : Nat
  column : Nat
  error : Bool := false
  /-- `string_hash`, set for identifiers only. -/
  hash : Nat := 0
deriving DecidableEq, Repr

/-- `string_literal_case` after a prefix of `n` bytes. -/
def stringLiteral (line column : Nat) (m : List Nat) (n : Nat) : Token :=
  let r := quoted 34 (m.drop (n + 1))
  { kind := .stringLiteral, size := n + 1 + r.1, line := line + r.2.1, column := column + (n + 1 + r.1), error := r.2.2 }

/-- `character_literal_case` after a prefix of `n` bytes. -/
def characterLiteral (line column : Nat) (m : List Nat) (n : Nat) : Token :=
  let r := quoted 39 (m.drop (n + 1))
  { kind := .characterLiteral, size := n + 1 + r.1, line := line, column := column + (n + 1 + r.1), error := r.2.2 }

/-- `next_token__internal(type, at - start)`. -/
def plain (line column : Nat) (kind : Kind) (size : Nat) : Token :=
  { kind := kind, size := size, line := line, column := column + size }

/-- `identifier_case`, `src/preprocess.c:1778-1788`. -/
def identifier (line column : Nat) (m : List Nat) : Token :=
  let n := eat isIdent m 1
  { plain line column .identifier n with
    hash := ((m.drop 1).take (n - 1)).foldl (fun h c => (h * 2 ^ 5 % 2 ^ 64 + h + c) % 2 ^ 64)
      ((5381 * 2 ^ 5 + 5381 + at' m 0) % 2 ^ 64) }

/-- `case '\\'`, `src/preprocess.c:1307-1330`. -/
def backslash (line column : Nat) (m : List Nat) : Token :=
  let i := eat isWhitespace m 1
  if at' m i = 10 then
    let i := if at' m (i + 1) = 13 then i + 2 else i + 1
    { kind := .whitespace, size := i, line := line + 1, column := 1 }
  else if at' m i = 13 then
    let i := if at' m (i + 1) = 10 then i + 2 else i + 1
    { kind := .whitespace, size := i, line := line + 1, column := 1 }
  else plain line column .whitespace i

/-- `case '/'` followed by `*`, `src/preprocess.c:1502-1527`. `last_newline` is an index from the start of the token: it is
`2 - column` if there is no newline in the comment. -/
def commentToken (line column : Nat) (m : List Nat) : Token :=
  let r := blockComment (m.drop 2)
  let size := 2 + r.length + 2
  { kind := .comment, size := size, line := line + r.lines,
    column := match r.last with
      | some i => size - (2 + i)
      | none => size + column - 2
    error := !r.found }

/-- Bytes reported as invalid, `src/preprocess.c:1283-1290`. -/
def isInvalid (c : Nat) : Bool :=
  decide (c ≤ 8) || (decide (14 ≤ c) && decide (c ≤ 31)) || c == 127

/-- `case '0'`, `src/preprocess.c:1652-1741`. -/
def zero (line column : Nat) (m : List Nat) : Token :=
  let p := fun (r : Kind × Nat) => plain line column r.1 r.2
  if at' m 1 ||| 32 = 120 then p (hexNumbers m)
  else if at' m 1 ||| 32 = 98 then p (.binaryLiteral, eat isIdent m (eat (fun c => c == 48 || c == 49 || c == 39) m 2))
  else if at' m 1 ||| 32 = 111 then
    p (.octalLiteral, eat isIdent m (eat (fun c => (decide (48 ≤ c) && decide (c ≤ 55)) || c == 39) m 2))
  else if 48 ≤ at' m 1 ∧ at' m 1 ≤ 57 then p (numbers m 1 .octalLiteral)
  else p (numbers m 0 .base10Literal)

/-- The `switch(*at)`, `src/preprocess.c:1282-1792`, for a text that is not empty. -/
def scan (line column : Nat) (m : List Nat) : Token :=
  let t := plain line column
  let a := at' m
  match a 0 with
  | 92 => backslash line column m
  | 11 | 9 | 12 | 32 => t .whitespace (eat isWhitespace m 1)
  | 10 => { kind := .newline, size := if a 1 = 13 then 2 else 1, line := line + 1, column := 1 }
  | 13 => { kind := .newline, size := if a 1 = 10 then 2 else 1, line := line + 1, column := 1 }
  | 64 => t .atSign 1
  | 96 => t .backtick 1
  | 35 => if a 1 = 35 then t .hashhash 2 else t .hash 1
  | 61 => if a 1 = 61 then t .logicalEquals 2 else t .equals 1
  | 40 => t .openParen 1
  | 41 => t .closedParen 1
  | 123 => t .openCurly 1
  | 125 => t .closedCurly 1
  | 91 => t .openIndex 1
  | 93 => t .closedIndex 1
  | 59 => t .semicolon 1
  | 58 => t .colon 1
  | 44 => t .comma 1
  | 46 =>
    if a 1 = 46 ∧ a 2 = 46 then t .dotdotdot 3
    else if isNumber (a 1) then
      let r := numbers m 0 .base10Literal
      t r.1 r.2
    else t .dot 1
  | 62 =>
    if a 1 = 62 then
      if a 2 = 61 then t .rightShiftEquals 3 else t .rightShift 2
    else if a 1 = 61 then t .biggerEquals 2
    else t .bigger 1
  | 60 =>
    if a 1 = 60 then
      if a 2 = 61 then t .leftShiftEquals 3 else t .leftShift 2
    else if a 1 = 61 then t .smallerEquals 2
    else t .smaller 1
  | 126 => t .bitwiseNot 1
  | 33 => if a 1 = 61 then t .logicalUnequals 2 else t .logicalNot 1
  | 63 => t .questionMark 1
  | 43 => if a 1 = 43 then t .increment 2 else if a 1 = 61 then t .plusEquals 2 else t .plus 1
  | 45 =>
    if a 1 = 45 then t .decrement 2
    else if a 1 = 62 then t .arrow 2
    else if a 1 = 61 then t .minusEquals 2
    else t .minus 1
  | 38 => if a 1 = 38 then t .logicalAnd 2 else if a 1 = 61 then t .andEquals 2 else t .and 1
  | 124 => if a 1 = 124 then t .logicalOr 2 else if a 1 = 61 then t .orEquals 2 else t .or 1
  | 94 => if a 1 = 61 then t .xorEquals 2 else t .xor 1
  | 42 => if a 1 = 61 then t .timesEquals 2 else t .times 1
  | 47 =>
    if a 1 = 42 then commentToken line column m
    else if a 1 = 47 then t .comment (eat (fun c => c != 0 && c != 10) m 2)
    else if a 1 = 61 then t .divEquals 2
    else t .slash 1
  | 37 => if a 1 = 61 then t .modEquals 2 else t .mod 1
  | 39 => characterLiteral line column m 0
  | 34 => stringLiteral line column m 0
  | 76 | 85 =>
    if a 1 = 34 then stringLiteral line column m 1
    else if a 1 = 39 then characterLiteral line column m 1
    else identifier line column m
  | 117 =>
    if a 1 = 34 then stringLiteral line column m 1
    else if a 1 = 39 then characterLiteral line column m 1
    else if a 1 = 56 ∧ a 2 = 34 then stringLiteral line column m 2
    else identifier line column m
  | 48 => zero line column m
  | 49 | 50 | 51 | 52 | 53 | 54 | 55 | 56 | 57 =>
    let r := numbers m 0 .base10Literal
    t r.1 r.2
  | c =>
    if isInvalid c then { t .invalid 1 with error := true }
    else identifier line column m

/-- A token of the output: `line`, `column`, `data` and `size` as the spelling. -/
structure Out where
  kind : Kind
  line : Nat
  column : Nat
  spelling : List Nat
  error : Bool
  hash : Nat
deriving DecidableEq, Repr

/-- The loop, `src/preprocess.c:1249-1798`; a token may end beyond the text, where memory is zero. -/
def loop : Nat → Nat → Nat → List Nat → List Out
  | 0, _, _, _ => []
  | _ + 1, _, _, [] => []
  | fuel + 1, line, column, m =>
    let t := scan line column m
    { kind := t.kind, line := line, column := column,
      spelling := m.take t.size ++ List.replicate (t.size - m.length) 0, error := t.error, hash := t.hash } ::
      loop fuel t.line t.column (m.drop t.size)

/-- `tokenize_raw`: the loop runs at most once per byte, which `C05_lossless` shows. -/
def tokenize (text : List Nat) : List Out := loop text.length 1 1 text

/-- The text of a file given to it, `src/preprocess.c:2693-2704`, without a byte order mark. -/
def fileText (file : List Nat) : List Nat := file ++ [10, 10]

end Verif.Tokenize
