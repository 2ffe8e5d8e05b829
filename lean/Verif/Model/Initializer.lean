import Verif.Spec.Initializer

/-!
# Model: `parse_initializer_list` (`src/parse.c:2039-2674`) and the members of a type (`src/parse.c:8165-8212`)

The types and the initializers are the ones of the specification; the model works on them with the
stack of designator nodes. `same` is `types_are_equal`; nothing is assumed about it. `#embed` is left out.
The conversion of an expression to the type of a scalar (and its errors) is
left out. Offsets and indices are natural numbers. `none` is an error, which is reported.
-/
namespace Verif.Initializer
open Verif.Spec.Initializer

/-- `struct compound_member`, `src/ast.c:685-698`. -/
structure Entry where
  /-- `none` is `globals.invalid_identifier_token` -/
  name : Option Nat
  offset : Nat
  type : Ty
  increment : Nat

/-- The members that are copied from an anonymous structure or union, `src/parse.c:8193-8207`. -/
def copied (offset : Nat) (isUnion : Bool) (nested : List Entry) : List Entry :=
  nested.mapIdx fun i e => { name := e.name, offset := offset + e.offset, type := e.type, increment := if isUnion then nested.length - i else 1 }

mutual
/-- The list of members built by the parser, `src/parse.c:8176-8210`: an anonymous structure or union is
followed by the members in it. -/
def entries : Members → List Entry
  | .nil => []
  | .cons (some n) o t rest => ⟨some n, o, t, 1⟩ :: entries rest
  | .cons none o t rest => ⟨none, o, t, (nested t).length + 1⟩ :: (copied o (isUnion t) (nested t) ++ entries rest)
/-- `nested_compound->members`. -/
def nested : Ty → List Entry
  | .struct _ _ ms => entries ms
  | .union _ _ ms => entries ms
  | _ => []
/-- `nested_compound->base.kind == AST_union`. -/
def isUnion : Ty → Bool
  | .union _ _ _ => true
  | _ => false
end

/-- `struct designator_node`, `src/parse.c:2039-2047`; `at` is `member_at` or `array_at`. -/
structure Node where
  type : Ty
  offset : Nat
  idx : Nat

/-- `get_current_object_type_for_designator_node`, `src/parse.c:2049-2060`. `none` is an index past the
members; for an empty structure an error was reported before (`src/parse.c:2138-2151`). -/
def currentType (n : Node) : Option Ty :=
  match n.type with
  | .array _ e => some e
  | .flex e => some e
  | .struct _ _ ms => (entries ms)[n.idx]?.map (·.type)
  | .union _ _ ms => (entries ms)[n.idx]?.map (·.type)
  | .scalar _ _ => none

/-- A string literal for an array with elements of its width, `src/parse.c:2527-2535`. -/
def stringMatches : Item → Ty → Bool
  | .str _ _ w, .array _ e => e.size == w
  | .str _ _ w, .flex e => e.size == w
  | _, _ => false

/-- The check for the size of the string, `src/parse.c:2537-2543`. -/
def stringFits : Item → Ty → Bool
  | .str _ n _, .array m _ => !(m < n - 1)
  | _, _ => true

/-- `types_are_equal(expression.resolved_type, current_object_type)`, `src/parse.c:2553`. A string literal
of the same type is handled before. -/
def typeMatches (same : Ty → Ty → Bool) : Item → Ty → Bool
  | .expr _ ty, t => same ty t
  | _, _ => false

/-- The size counted for a string that initializes an array of unknown size, `src/parse.c:2502` and `2538`. -/
def stringTrailing : Item → Ty → Nat
  | .str _ n w, .flex _ => n * w
  | _, _ => 0

/-- The loop that goes into the first part of the current object, `src/parse.c:2525-2601`. All new nodes have
the offset of the current object. The result is the write and the new stack. -/
def descend (same : Ty → Ty → Bool) (i : Item) (off : Nat) : Ty → List Node → Option (Write × List Node)
  | .scalar id s, st => some (⟨off, .scalar id s, i.value⟩, st)
  | .array n e, st =>
    if stringMatches i (.array n e) = true then
      if stringFits i (.array n e) = true then some (⟨off, .array n e, i.value⟩, st) else none
    else if typeMatches same i (.array n e) = true then some (⟨off, .array n e, i.value⟩, st)
    else descend same i off e (⟨.array n e, off, 0⟩ :: st)
  | .flex e, st =>
    if stringMatches i (.flex e) = true then some (⟨off, .flex e, i.value⟩, st)
    else if typeMatches same i (.flex e) = true then some (⟨off, .flex e, i.value⟩, st)
    else descend same i off e (⟨.flex e, off, 0⟩ :: st)
  | .struct id s .nil, st => if typeMatches same i (.struct id s .nil) = true then some (⟨off, .struct id s .nil, i.value⟩, st) else none
  | .struct id s (.cons a o t r), st =>
    if typeMatches same i (.struct id s (.cons a o t r)) = true then some (⟨off, .struct id s (.cons a o t r), i.value⟩, st)
    else descend same i off t (⟨.struct id s (.cons a o t r), off, 0⟩ :: st)
  | .union id s .nil, st => if typeMatches same i (.union id s .nil) = true then some (⟨off, .union id s .nil, i.value⟩, st) else none
  | .union id s (.cons a o t r), st =>
    if typeMatches same i (.union id s (.cons a o t r)) = true then some (⟨off, .union id s (.cons a o t r), i.value⟩, st)
    else descend same i off t (⟨.union id s (.cons a o t r), off, 0⟩ :: st)

/-- The loop that goes to the next object, `src/parse.c:2606-2657`. `tr` is `trailing_initializer_size`. -/
def advance (atEnd : Bool) : List Node → Nat → List Node × Nat
  | [], tr => ([], tr)
  | n :: st, tr => match n.type with
    | .struct _ _ ms => match (entries ms)[n.idx]? with
      | none => advance atEnd st tr
      | some m =>
        match (entries ms)[n.idx + m.increment]? with
        | none => advance atEnd st tr
        | some m' => if atEnd then advance atEnd st tr else (⟨n.type, n.offset + m'.offset - m.offset, n.idx + m.increment⟩ :: st, tr)
    | .array c e => if !atEnd && n.idx + 1 < c then (⟨n.type, n.offset + e.size, n.idx + 1⟩ :: st, tr) else advance atEnd st tr
    | .flex e => (⟨n.type, n.offset + e.size, n.idx + 1⟩ :: st, Nat.max tr ((n.idx + 1) * e.size))
    | _ => advance atEnd st tr

/-- `find_member_in_compound`, `src/parse.c:1347-1357`: the index and the member. -/
def find (name : Nat) : List Entry → Option (Nat × Entry)
  | [] => none
  | e :: es => if e.name = some name then some (0, e) else (find name es).map fun x => (x.1 + 1, x.2)

/-- One designator, `src/parse.c:2214-2372`: the new index of the node, the offset and the type of the designated object. -/
def pick : Desig → Ty → Nat → Option (Nat × Nat × Ty)
  | .member name, .struct _ _ ms, off => (find name (entries ms)).map fun x => (x.1, off + x.2.offset, x.2.type)
  | .member name, .union _ _ ms, off => (find name (entries ms)).map fun x => (x.1, off + x.2.offset, x.2.type)
  | .index i, .array n e, off => if i < n then some (i, off + i * e.size, e) else none
  | .index i, .flex e, off => some (i, off + i * e.size, e)
  | _, _, _ => none

/-- The loop over designators, `src/parse.c:2214-2383`. The node on top, at the end, is popped; its type is the one of the current
object of the node below it (`designate_spec`). -/
def designate : List Desig → Ty → Nat → List Node → Option (List Node)
  | [], _, _, st => some st
  | d :: ds, t, off, st => match pick d t off with
    | none => none
    | some (k, off', t') => designate ds t' off' (⟨t, off', k⟩ :: st)

/-- Does an initializer follow? -/
def initializerFollows : Items → Bool
  | .cons _ _ => true
  | _ => false

/-- `at_end`, `src/parse.c:2604`: the closing brace follows directly. -/
def atEnd : Items → Bool
  | .close c => !c
  | _ => false

/-- The special case for a string in braces, `src/parse.c:2479-2498`. -/
def special (n : Node) (i : Item) : Bool := n.idx == 0 && stringMatches i n.type

/-- What is initialized: a scalar (`src/parse.c:2067-2115`), or an aggregate with a stack of nodes. -/
inductive Mode
  | scalar (t : Ty) (off : Nat)
  | aggregate (t : Ty) (base : Nat) (stack : List Node) (trailing : Nat)

/-- The start of `parse_initializer_list`, `src/parse.c:2062-2176`. -/
def start (t : Ty) (off : Nat) : Mode := if t.isScalar = true then .scalar t off else .aggregate t off [⟨t, off, 0⟩] 0

/-- `parse_initializer_list`, `src/parse.c:2062-2674`. The result are the writes and the trailing size. -/
def parse (same : Ty → Ty → Bool) : Mode → Items → Option (List Write × Nat)
  | .scalar t off, .close _ => some ([⟨off, t, 0⟩], 0)
  | .scalar t off, .cons (.braces is) (.close false) => parse same (.scalar t off) is
  | .scalar _ _, .cons (.braces _) _ => none
  | .scalar t off, .cons i (.close _) => some ([⟨off, t, i.value⟩], 0)
  | .scalar _ _, .cons _ _ => none
  | .scalar _ _, .desig _ _ _ => none
  | .aggregate _ _ _ tr, .close _ => some ([], tr)
  | .aggregate t base _ tr, .desig d ds rest =>
    if initializerFollows rest = true then
      match designate (d :: ds) t base [] with
      | none => none
      | some st => parse same (.aggregate t base st tr) rest
    else none
  | .aggregate _ _ [] _, .cons _ _ => none
  | .aggregate t₀ base (n :: st) tr, .cons (.braces is) rest =>
    match currentType n with
    | none => none
    | some t => match parse same (start t n.offset) is with
      | none => none
      | some (ws, tr') =>
        let r := advance (atEnd rest) (n :: st) (Nat.max tr tr')
        (parse same (.aggregate t₀ base r.1 r.2) rest).map fun x => (ws ++ x.1, x.2)
  | .aggregate t₀ base (n :: st) tr, .cons i rest =>
    match currentType n with
    | none => none
    | some t =>
      if special n i = true then
        if stringFits i n.type = true then
          let off := match st with
            | [] => base
            | m :: _ => m.offset
          (parse same (.aggregate t₀ base st (Nat.max tr (stringTrailing i n.type))) rest).map fun x => (⟨off, n.type, i.value⟩ :: x.1, x.2)
        else none
      else match descend same i n.offset t (n :: st) with
        | none => none
        | some (w, st') =>
          let r := advance (atEnd rest) st' (Nat.max tr (stringTrailing i w.type))
          (parse same (.aggregate t₀ base r.1 r.2) rest).map fun x => (w :: x.1, x.2)

/-- An initializer list for an object of type `t` at offset `off`. -/
def initList (same : Ty → Ty → Bool) (t : Ty) (off : Nat) (is : Items) : Option (List Write × Nat) := parse same (start t off) is

end Verif.Initializer
