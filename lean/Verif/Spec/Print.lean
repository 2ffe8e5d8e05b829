/-!
# Specification: printing values

Functions declared with `__declspec(printlike)` take `{}` in their format string: the compiler replaces it by what `printf` needs for the type of the argument, and passes the
parts of structures and arrays one by one.
-/
namespace Verif.Spec.Print

/-- What is not a structure, union or array. `pointer true` points to `char`. -/
inductive Scalar
  | integer (signed : Bool) (size : Nat)
  | float
  | double
  | pointer (toChar : Bool)
  | enum
deriving DecidableEq, Repr

mutual
/-- Types. -/
inductive Ty
  | scalar (s : Scalar)
  | struct (members : Mems)
  | union (members : Mems)
  | array (element : Ty) (n : Nat)
/-- Members of structures and unions as they are declared: structures and unions in them can be without name. -/
inductive Mems
  | nil
  | cons (name : Option (List Char)) (offset : Nat) (type : Ty) (rest : Mems)
end

/-- A step from an object to a part of it. -/
inductive Step
  | member (name : Option (List Char)) (offset : Nat)
  | index (i : Nat)
deriving DecidableEq, Repr

/-- A scalar in an object. -/
structure Leaf where
  path : List Step
  scalar : Scalar
deriving DecidableEq, Repr

def under (p : List Step) (l : List Leaf) : List Leaf := l.map (fun x => ⟨p ++ x.path, x.scalar⟩)

mutual
/-- The scalars in an object, in their order: all members, all elements; of a union the first member. -/
def leaves : Ty → List Leaf
  | .scalar s => [⟨[], s⟩]
  | .struct ms => ofAll ms
  | .union ms => ofFirst ms
  | .array e n => (List.range n).flatMap (fun i => under [.index i] (leaves e))
def ofAll : Mems → List Leaf
  | .nil => []
  | .cons name o t rest => under [.member name o] (leaves t) ++ ofAll rest
def ofFirst : Mems → List Leaf
  | .nil => []
  | .cons name o t _ => under [.member name o] (leaves t)
end

mutual
/-- Without empty parts: C has no empty structures and arrays. -/
def Filled : Ty → Prop
  | .scalar _ => True
  | .struct ms => ms ≠ .nil ∧ AllFilled ms
  | .union ms => ms ≠ .nil ∧ AllFilled ms
  | .array e n => 0 < n ∧ Filled e
def AllFilled : Mems → Prop
  | .nil => True
  | .cons _ _ t rest => Filled t ∧ AllFilled rest
end

/-! What `printf` reads (C11 7.21.6.1) -/

/-- How arguments are passed. -/
inductive Class
  | int
  | longLong
  | double
  | pointer
deriving DecidableEq, Repr

inductive State
  | text
  | conversion (l : Nat)

/-- The arguments that `printf` reads for a format string, and the letters of the conversions; `l` is how often the letter `l` came in a conversion. -/
def reads : State → List Char → List (Class × Char)
  | _, [] => []
  | .text, c :: rest => if c = '%' then reads (.conversion 0) rest else reads .text rest
  | .conversion l, c :: rest =>
    if c = '%' then reads .text rest
    else if c = '*' then (.int, c) :: reads (.conversion l) rest
    else if c = 'l' then reads (.conversion (l + 1)) rest
    else if c ∈ ['d', 'i', 'u', 'o', 'x', 'X', 'c'] then (if 2 ≤ l then .longLong else .int, c) :: reads .text rest
    else if c ∈ ['f', 'F', 'e', 'E', 'g', 'G', 'a', 'A'] then (.double, c) :: reads .text rest
    else if c ∈ ['s', 'p'] then (.pointer, c) :: reads .text rest
    else reads (.conversion l) rest

/-- How a scalar is passed, after the promotions (6.5.2.2): small integers are `int`, `float` is `double`. -/
def passed : Scalar → Class
  | .integer _ size => if size = 8 then .longLong else .int
  | .float => .double
  | .double => .double
  | .pointer _ => .pointer
  | .enum => .int

/-- The letter for a scalar: the last of the given letters that says how to print integers decides; otherwise signed numbers are decimal, unsigned ones hexadecimal. Small integers are
signed after the promotions. -/
def letter (given : List Char) : Scalar → Char
  | .integer signed size =>
    let signed := signed || decide (size < 4)
    match (given.filter (fun c => decide (c ∈ ['n', 'x', 'u', 'd', 'o']))).getLast? with
    | none => if signed then 'd' else 'x'
    | some c => if c = 'n' then (if signed then 'd' else 'u') else c
  | .float => 'f'
  | .double => 'f'
  | .pointer toChar => if toChar ∧ 's' ∈ given then 's' else 'p'
  | .enum => 'd'

/-! The text -/

/-- How a part is written; `anonymous` is what is written for members without name. -/
def stepText (anonymous : List Char) : Step → List Char
  | .member name _ => '.' :: name.getD anonymous
  | .index i => '[' :: (Nat.toDigits 10 i ++ [']'])

def item (anonymous : List Char) (conversion : Scalar → List Char) (l : Leaf) : List Char :=
  l.path.flatMap (stepText anonymous) ++ " = ".toList ++ conversion l.scalar

/-- In one line: separated by commas. Otherwise: one line for each. -/
def items (anonymous : List Char) (conversion : Scalar → List Char) (lines : Bool) (l : List Leaf) : List Char :=
  if lines then l.flatMap (fun x => "    ".toList ++ item anonymous conversion x ++ ",\n".toList)
  else (", ".toList).intercalate (l.map (item anonymous conversion))

end Verif.Spec.Print
