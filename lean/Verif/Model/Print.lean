import Verif.Spec.Print

/-!
# Model: arguments of printlike functions

`printlike__infer_format_string_and_arguments_for_argument` and `get_pretty_print_string_for_type` (/repo/src/parse.c 3091–3371), and the lists of members that they go through
(/repo/src/parse.c 8176–8208).

Simplifications: an argument is the path of `IR_member` and `IR_array_subscript` to it. Bit-fields are integers of their base type, as they are after
`maybe_insert_cast_from_special_int_to_int`. The name of the type is given.
-/
namespace Verif.Model.Print
open Verif.Spec.Print (Scalar Ty Mems Step Leaf)

/-! Members -/

/-- `struct compound_member` (/repo/src/ast.c 690–705). -/
structure Member where
  name : Option (List Char)
  offset : Nat
  type : Ty
  increment : Nat

mutual
/-- The members of a structure or union type; other types have none. -/
def nested : Ty → List Member
  | .struct ms => registered ms
  | .union ms => registered ms
  | .scalar _ => []
  | .array _ _ => []
/-- The loop over member declarations (/repo/src/parse.c 8176–8208): a member without name comes first itself, then all of its members. -/
def registered : Mems → List Member
  | .nil => []
  | .cons (some name) offset type rest => ⟨some name, offset, type, 1⟩ :: registered rest
  | .cons none offset type rest =>
    let inner := nested type
    let isUnion := match type with | .union _ => true | _ => false
    ⟨none, offset, type, inner.length + 1⟩ ::
      (inner.zipIdx.map (fun (m, i) => { m with offset := offset + m.offset, increment := if isUnion then inner.length - i else 1 }) ++ registered rest)
end

/-! The walk -/

/-- `struct stack_node` (/repo/src/parse.c 3223–3232). -/
structure Node where
  type : Ty
  at_ : Nat

/-- The step of a node on the way to the argument (/repo/src/parse.c 3290–3319). -/
def step (node : Node) : List Step :=
  match node.type with
  | .struct ms | .union ms =>
    match (registered ms)[node.at_]? with
    | some m => [.member m.name m.offset]
    | none => []
  | .array _ _ => [.index node.at_]
  | .scalar _ => []

/-- All steps: the loop starts with the last node of the stack. -/
def path : List Node → List Step
  | [] => []
  | node :: rest => path rest ++ step node

/-- The loop to the next scalar (/repo/src/parse.c 3340–3364). -/
def advance : List Node → List Node
  | [] => []
  | node :: rest =>
    match node.type with
    | .struct ms =>
      let increment := match (registered ms)[node.at_]? with | some m => m.increment | none => 0
      if node.at_ + increment < (registered ms).length then { node with at_ := node.at_ + increment } :: rest else advance rest
    | .union _ => advance rest
    | .array _ n => if node.at_ + 1 < n then { node with at_ := node.at_ + 1 } :: rest else advance rest
    | .scalar _ => advance rest

/-- The loops over the stack (/repo/src/parse.c 3239–3371). The loop that goes "as deep as we can" pushes nodes until there is a scalar; then there is an argument, and
the walk advances. For every argument there is whether the stack is empty after it (3366). The first argument bounds the steps; there is no result if it is too small, or if a
member is read that does not exist. -/
def run : Nat → List Node → List (Leaf × Bool) → Option (List (Leaf × Bool))
  | 0, _, _ => none
  | _ + 1, [], out => some out
  | n + 1, node :: rest, out =>
    match node.type with
    | .struct ms | .union ms =>
      match (registered ms)[node.at_]? with
      | some m => run n (⟨m.type, 0⟩ :: node :: rest) out
      | none => none
    | .array e _ => run n (⟨e, 0⟩ :: node :: rest) out
    | .scalar s => run n (advance rest) (out ++ [(⟨path rest, s⟩, (advance rest).isEmpty)])

/-! The format string -/

/-- `maybe_insert_implicit_nodes_for_varargs_argument` (/repo/src/parse.c 3087–3106). -/
def promote : Scalar → Scalar
  | .integer signed size => if size < 4 then .integer true 4 else .integer signed size
  | .float => .double
  | s => s

/-- `get_pretty_print_string_for_type` (/repo/src/parse.c 3109–3173). -/
def conversion (width precision specifiers : List Char) : Scalar → List Char
  | .enum => "enum(%d)".toList
  | .pointer toChar =>
    if toChar ∧ specifiers.any (· == 's') then '%' :: (width ++ (if precision = [] then [] else ['.']) ++ precision ++ ['s']) else "%p".toList
  | .integer signed size =>
    let modifier := if size = 8 then "ll".toList else []
    let specifier := specifiers.foldl (fun t c =>
      if c = 'n' then (if signed then 'd' else 'u') else if c = 'x' then 'x' else if c = 'u' then 'u' else if c = 'd' then 'd' else if c = 'o' then 'o' else t)
      (if signed then 'd' else 'x')
    let pre := if specifier = 'x' then "0x".toList else if specifier = 'o' then "0o".toList else []
    pre ++ '%' :: (width ++ (if precision = [] then [] else ['.']) ++ precision ++ modifier ++ [specifier])
  | .float => '%' :: (width ++ (if precision = [] then [] else ['.']) ++ precision ++ "ff".toList)
  | .double => '%' :: (width ++ (if precision = [] then [] else ['.']) ++ precision ++ "f".toList)

/-- `get_pretty_print_string_for_type` after the promotions. -/
def promoted (width precision specifiers : List Char) (s : Scalar) : List Char := conversion width precision specifiers (promote s)

/-- What a step adds to the format string (/repo/src/parse.c 3299–3300, 3313–3314); `invalid` is the text of `globals.invalid_identifier_token`. -/
def stepText (invalid : List Char) : Step → List Char
  | .member name _ => '.' :: name.getD invalid
  | .index i => '[' :: (Nat.toDigits 10 i ++ [']'])

/-- What an argument adds to the format string (/repo/src/parse.c 3283–3285, 3327–3332, 3366–3370). -/
def piece (invalid width precision specifiers : List Char) (lines : Bool) (x : Leaf × Bool) : List Char :=
  (if lines then "    ".toList else []) ++ x.1.path.flatMap (stepText invalid) ++ " = ".toList ++ promoted width precision specifiers x.1.scalar ++
    (if x.2 then (if lines then ",\n".toList else []) else (if lines then ",\n".toList else ", ".toList))

/-- Arrays are pointers for the letter `s` (/repo/src/parse.c 3180–3196). -/
def decay (specifiers : List Char) : Ty → Ty
  | .array e n =>
    if specifiers.any (· == 's') then
      match e with
      | .scalar s => .scalar (.pointer (decide (s = .integer true 1)))
      | _ => .scalar (.pointer false)
    else .array e n
  | t => t

/-- `printlike__infer_format_string_and_arguments_for_argument` (/repo/src/parse.c 3176–3389): what is added to the format string, and the arguments. `name` is what is between the
parentheses: `struct s`, `union u`, or the type of the array. -/
def infer (fuel : Nat) (invalid name flags width precision specifiers : List Char) (type : Ty) : Option (List Char × List Leaf) :=
  match decay specifiers type with
  | .scalar s => some (promoted width precision specifiers s, [⟨[], s⟩])
  | type =>
    let lines := flags.any (· == '#')
    (run fuel [⟨type, 0⟩] []).map (fun out =>
      ('(' :: (name ++ (if lines then "){\n".toList else "){".toList) ++ out.flatMap (piece invalid width precision specifiers lines) ++ ['}']), out.map (·.1)))

end Verif.Model.Print
