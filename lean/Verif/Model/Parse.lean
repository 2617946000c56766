import Verif.Basic

/-! Model of the parts of the parser library `nom` 7.1 that `src/file/bmsh.rs` and `src/file/bbnd.rs` use (imports at src/file/bmsh.rs:34, 82, 123, 138-141,
159-167 and src/file/bbnd.rs:11-20). The library is not in /repo: its behaviour is modelled here from its documentation.

A text is a list of characters. A parser gives a value and the remaining text, or ends in one of three ways: a recoverable error (`Err::Error`, after which `alt` and
the list parsers try something else), a failure (`Err::Failure`) that is passed on, or a panic of the code called by `map`. -/

namespace Bugi
namespace Parse

/-- Texts. -/
abbrev Txt := List Char

/-- How a parser ends without a value (src/file/bmsh.rs:10, `IResult`; the panics are those of src/file/bmsh.rs:202, 219, 239, 250, 261 and src/file/bbnd.rs:132, 158). -/
inductive PErr
  | error
  | failure
  | panic
  deriving DecidableEq, Repr

/-- Parsers (src/file/bmsh.rs:10, `IResult`). -/
abbrev Parser (α : Type) := Txt → Except PErr (α × Txt)

variable {α β : Type}

/-- `tag` (src/file/bmsh.rs:34) and `char` (src/file/bbnd.rs:15). -/
def tag : Txt → Parser Unit
  | [], s => .ok ((), s)
  | _ :: _, [] => .error .error
  | c :: t, d :: s => if c = d then tag t s else .error .error

/-- One or more characters of a class: `digit1`, `alphanumeric1` (src/file/bmsh.rs:162). -/
def many1 (p : Char → Bool) : Parser Txt := fun s => if s.takeWhile p = [] then .error .error else .ok (s.takeWhile p, s.dropWhile p)

/-- `alphanumeric1` (src/file/bmsh.rs:162); letters and digits are those of ASCII. -/
def alphanumeric : Parser Txt := many1 Char.isAlphanum

/-- Characters that end a line (src/file/bmsh.rs:162, `not_line_ending`). -/
def isEol (c : Char) : Bool := decide (c = '\n' ∨ c = '\r')

/-- `not_line_ending` (src/file/bmsh.rs:162). -/
def notLineEnding : Parser Txt := fun s =>
  match s.dropWhile (fun c => !isEol c) with
  | [] => .ok (s.takeWhile (fun c => !isEol c), [])
  | '\n' :: r => .ok (s.takeWhile (fun c => !isEol c), '\n' :: r)
  | '\r' :: '\n' :: r => .ok (s.takeWhile (fun c => !isEol c), '\r' :: '\n' :: r)
  | _ => .error .error

/-- The number that a list of digits stands for (src/file/bmsh.rs:39, `u64`). -/
def digitsVal (d : Txt) : Nat := d.foldl (fun v c => v * 10 + (c.toNat - '0'.toNat)) 0

/-- `character::complete::u64` with `bound = 2 ^ 64`, `u8` with `bound = 256` (src/file/bmsh.rs:39, 182). The library checks every step for overflow; since the values
only grow, this is a check of the last. -/
def uint (bound : Nat) : Parser Nat := fun s => do
  let d ← many1 Char.isDigit s
  if digitsVal d.1 < bound then .ok (digitsVal d.1, d.2) else .error .error

/-- `u64` (src/file/bmsh.rs:39). -/
def u64 : Parser Nat := uint (2 ^ 64)

/-- `opt(alt((char('+'), char('-'))))` in the library's `recognize_float` (src/file/bmsh.rs:165). -/
def optSign : Txt → Txt × Txt
  | '+' :: s => (['+'], s)
  | '-' :: s => (['-'], s)
  | s => ([], s)

/-- Digits with an optional fraction, or a fraction only, in the library's `recognize_float` (src/file/bmsh.rs:165). -/
def mantissa (s : Txt) : Option (Txt × Txt) :=
  if s.takeWhile Char.isDigit ≠ [] then
    match s.dropWhile Char.isDigit with
    | '.' :: r => some (s.takeWhile Char.isDigit ++ '.' :: r.takeWhile Char.isDigit, r.dropWhile Char.isDigit)
    | r => some (s.takeWhile Char.isDigit, r)
  else match s with
    | '.' :: r => if r.takeWhile Char.isDigit ≠ [] then some ('.' :: r.takeWhile Char.isDigit, r.dropWhile Char.isDigit) else none
    | _ => none

/-- The optional exponent in the library's `recognize_float` (src/file/bmsh.rs:165); an `e` must be followed by digits (`cut`). -/
def exponent : Parser Txt
  | [] => .ok ([], [])
  | c :: s =>
    if c = 'e' ∨ c = 'E' then
      if (optSign s).2.takeWhile Char.isDigit ≠ [] then
        .ok (c :: ((optSign s).1 ++ (optSign s).2.takeWhile Char.isDigit), (optSign s).2.dropWhile Char.isDigit)
      else .error .failure
    else .ok ([], c :: s)

/-- `tag_no_case` in the library's `recognize_float_or_exceptions` (src/file/bmsh.rs:165). -/
def noCase : Txt → Parser Txt
  | [], s => .ok ([], s)
  | _ :: _, [] => .error .error
  | c :: t, d :: s => if c = d.toLower then do
      let r ← noCase t s
      .ok (d :: r.1, r.2)
    else .error .error

/-- `alt` (src/file/bmsh.rs:160). -/
def alt (p q : Parser α) : Parser α := fun s =>
  match p s with
  | .error .error => q s
  | r => r

/-- The library's `recognize_float` (src/file/bmsh.rs:165). -/
def floatText : Parser Txt := fun s =>
  match mantissa (optSign s).2 with
  | none => .error .error
  | some m => do
    let e ← exponent m.2
    .ok ((optSign s).1 ++ m.1 ++ e.1, e.2)

/-- The library's `recognize_float_or_exceptions` (src/file/bmsh.rs:165). The last alternative is never reached. -/
def numberText : Parser Txt := alt floatText (alt (noCase "nan".toList) (alt (noCase "inf".toList) (noCase "infinity".toList)))

/-- `double` (src/file/bmsh.rs:165); `rd` is the standard library's conversion of a text to a number. -/
def double (rd : Txt → Option α) : Parser α := fun s => do
  let r ← numberText s
  match rd r.1 with
  | some x => .ok (x, r.2)
  | none => .error .error

/-- `map` (src/file/bmsh.rs:163). -/
def pmap (f : α → β) (p : Parser α) : Parser β := fun s => do
  let r ← p s
  .ok (f r.1, r.2)

/-- `map` with a function that may panic (src/file/bmsh.rs:199-205, `expect`). -/
def pmapO (f : α → Option β) (p : Parser α) : Parser β := fun s => do
  let r ← p s
  match f r.1 with
  | some y => .ok (y, r.2)
  | none => .error .panic

/-- `preceded` (src/file/bmsh.rs:166). -/
def preceded (a : Parser Unit) (p : Parser α) : Parser α := fun s => do
  let r ← a s
  p r.2

/-- `terminated` (src/file/bmsh.rs:140). -/
def terminated (p : Parser α) (b : Parser Unit) : Parser α := fun s => do
  let r ← p s
  let e ← b r.2
  .ok (r.1, e.2)

/-- `delimited` (src/file/bmsh.rs:34). -/
def delimited (a : Parser Unit) (p : Parser α) (b : Parser Unit) : Parser α := preceded a (terminated p b)

/-- `tuple` of two parsers (src/file/bmsh.rs:166). -/
def both (p : Parser α) (q : Parser β) : Parser (α × β) := fun s => do
  let r ← p s
  let e ← q r.2
  .ok ((r.1, e.1), e.2)

/-- The loop of `separated_list0` (src/file/bmsh.rs:164). Every round uses up at least one character, so that the length of the text is enough fuel. -/
def sepMore (sep : Parser Unit) (f : Parser α) : Nat → Parser (List α)
  | 0, s => .ok ([], s)
  | n + 1, s =>
    match sep s with
    | .error .error => .ok ([], s)
    | .error e => .error e
    | .ok r =>
      if r.2.length = s.length then .error .error
      else match f r.2 with
        | .error .error => .ok ([], s)
        | .error e => .error e
        | .ok x => do
          let y ← sepMore sep f n x.2
          .ok (x.1 :: y.1, y.2)

/-- `separated_list1` (src/file/bbnd.rs:17). -/
def sepList1 (sep : Parser Unit) (f : Parser α) : Parser (List α) := fun s => do
  let x ← f s
  let y ← sepMore sep f s.length x.2
  .ok (x.1 :: y.1, y.2)

/-- `separated_list0` (src/file/bmsh.rs:164). -/
def sepList0 (sep : Parser Unit) (f : Parser α) : Parser (List α) := fun s =>
  match sepList1 sep f s with
  | .error .error => match f s with
    | .error .error => .ok ([], s)
    | _ => .error .error
  | r => r

/-- `map_err` to a recoverable error (src/file/bmsh.rs:57-59). -/
def soft (r : Except PErr (α × Txt)) : Except PErr (α × Txt) :=
  match r with
  | .error .failure => .error .error
  | r => r

/-- The result of a parser for the caller (src/file/mod.rs:85-89, src/file/bbnd.rs:189-190): errors and failures become a `FileError`. -/
def lift {γ : Type} (r : Except PErr γ) : Res γ :=
  match r with
  | .ok x => .ok x
  | .error .panic => .error .panic
  | .error _ => .error .err

/-- Decimal printing of a number (`{}` of an integer, src/file/bmsh.rs:303). -/
def natText (n : Nat) : Txt :=
  if n < 10 then [Char.ofNat ('0'.toNat + n)] else natText (n / 10) ++ [Char.ofNat ('0'.toNat + n % 10)]

end Parse

/-- Printing and reading of floating point numbers by the standard library: `rd` is `str::parse::<f64>` (src/element/constraint.rs:47 and inside `double`), `fix n` is
`{:.n}` (src/file/bmsh.rs:305, src/element/strain.rs:127-128, where the width 3 never pads) and `shw` is `{}` (src/element/constraint.rs:66). -/
structure Text (K : Type) where
  rd : Parse.Txt → Option K
  fix : Nat → K → Parse.Txt
  shw : K → Parse.Txt

end Bugi
