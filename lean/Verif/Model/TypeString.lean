import Verif.Spec.Declarator

/-!
# Model: the names of types in messages, `push_type_string` (`src/main.c:1049-1180`)

The string is a list of tokens; `string_list_prefix` and `string_list_postfix` add to its ends. The names of integer, float, structure,
union and enumeration types are one token, `spec`. Bit-fields and types that are not known yet are left out.
-/

namespace Verif.TypeString

open Verif.Spec.Declarator

/-- `if(list->amount_of_strings)`: parentheses around what is there, `src/main.c:1122-1125` and `1141-1144`. -/
def wrap : List Tok → List Tok
  | [] => []
  | l => .lparen :: (l ++ [.rparen])

mutual
/-- `push_type_string__inner`, `src/main.c:1051-1162`. -/
def inner : List Tok → Ty → List Tok
  | l, .base b => .spec b :: l
  | l, .ptr t => inner (.star :: l) t
  | l, .func r ps _ => inner (wrap l ++ (.lparen :: (arguments ps ++ [.rparen]))) r
  | l, .array n t => inner (wrap l ++ [.lbrack, .size (n.getD 0), .rbrack]) t

/-- The loop over the arguments, `src/main.c:1128-1133`. -/
def arguments : Tys → List Tok
  | .nil => []
  | .cons t .nil => inner [] t
  | .cons t (.cons t' rest) => inner [] t ++ .comma :: arguments (.cons t' rest)
end

/-- `push_type_string`, `src/main.c:1166-1180`. -/
def typeString (t : Ty) : List Tok := inner [] t

end Verif.TypeString
