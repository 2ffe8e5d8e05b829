/-!
# Specification: the contents of initialized objects with static storage duration (C11 6.6, 6.7.9)

An object with static storage duration starts out as its initializer says. The parts of it that have
no initializer are zero. If two initializers are for the same part, the later one counts; an initializer
for an array or a structure counts for all of it, including the elements it does not mention (C11 6.7.9 paragraphs 19
and 21). Where the objects of a program are is known only once the program is loaded, so what an
address constant means depends on these addresses.
-/
namespace Verif.Spec.StaticInit

/-- Something that has an address: a variable, function or compound literal, or an occurrence of a string literal.
`fixed` is false for declarations the address of which is no constant: variables on the stack,
variables of a thread and variables imported from a library. -/
inductive Source
  | declaration (id : Nat) (fixed : Bool)
  | string (id : Nat) (text : List Nat)
  deriving DecidableEq

mutual
/-- Lvalues. -/
inductive LExpr
  | object (s : Source)
  /-- `e.m`, where `m` is at an offset. -/
  | member (e : LExpr) (offset : Nat)
  /-- `e[i]`, where `e` is an array with elements of a size. -/
  | index (e : LExpr) (i : VExpr) (size : Nat)
/-- Values of pointers and of integers of 64 bits, as the bytes they consist of. -/
inductive VExpr
  /-- An integer constant. -/
  | int (v : Nat)
  /-- An integer constant converted to a pointer. -/
  | ptr (v : Nat)
  /-- `&e`. -/
  | addr (e : LExpr)
  /-- `e`, where `e` is an array or a function. -/
  | decay (e : LExpr)
  /-- `a + b`; an index that is added to a pointer is multiplied by the size of what it points to already. -/
  | add (a b : VExpr)
  /-- `a - b`. -/
  | sub (a b : VExpr)
end

/-- Where everything is once the program is loaded. -/
abbrev Addresses := Source → Nat

mutual
/-- The address of an lvalue. -/
def addressOf (at_ : Addresses) : LExpr → Nat
  | .object s => at_ s
  | .member e o => addressOf at_ e + o
  | .index e i n => addressOf at_ e + valueOf at_ i * n
/-- The value of an expression. -/
def valueOf (at_ : Addresses) : VExpr → Nat
  | .int v => v % 2 ^ 64
  | .ptr v => v % 2 ^ 64
  | .addr e => addressOf at_ e % 2 ^ 64
  | .decay e => addressOf at_ e % 2 ^ 64
  | .add a b => (valueOf at_ a + valueOf at_ b) % 2 ^ 64
  | .sub a b => (valueOf at_ a + (2 ^ 64 - valueOf at_ b)) % 2 ^ 64
end

mutual
/-- The object an lvalue is part of, if its address is a constant. -/
def objectOf : LExpr → Option Source
  | .object (.declaration id fixed) => if fixed then some (.declaration id fixed) else none
  | .object (.string id text) => some (.string id text)
  | .member e _ => objectOf e
  | .index e i _ => if baseOf i = some none then objectOf e else none
/-- Is the expression a constant (`some`)? If so: is it an address constant, an address in an object plus or minus a
number (`some (some s)`), or an arithmetic constant (`some none`)? -/
def baseOf : VExpr → Option (Option Source)
  | .int _ => some none
  | .ptr _ => some none
  | .addr e => match objectOf e with | some s => some (some s) | none => none
  | .decay e => match objectOf e with | some s => some (some s) | none => none
  | .add a b => match baseOf a, baseOf b with
    | some x, some none => some x
    | some none, some y => some y
    | _, _ => none
  | .sub a b => match baseOf a, baseOf b with
    | some x, some none => some x
    | some (some s), some (some t) => if s = t then some none else none
    | _, _ => none
end

mutual
/-- What an object is initialized with. -/
inductive Item
  /-- A pointer or an integer of `size` bytes gets a value. -/
  | value (e : VExpr) (size : Nat)
  /-- A floating point number gets the bytes of a constant. -/
  | float (bs : List Nat)
  /-- Characters get the contents of a file (`#embed`). -/
  | file (bs : List Nat)
  /-- An array of `size` bytes gets the characters of a string literal, each has `elem` bytes. -/
  | text (id : Nat) (bs : List Nat) (elem size : Nat)
  /-- An object of `size` bytes gets a list in braces, or (`literal`) a compound literal of its type. -/
  | list (literal : Bool) (id : Nat) (items : Items) (size : Nat)
/-- Initializers with the offsets of the parts they are for. -/
inductive Items
  | nil
  | cons (offset : Nat) (i : Item) (rest : Items)
end

/-- What is said about `length` bytes of the object. -/
inductive What
  /-- They are zero, unless something else is said about them afterwards. -/
  | clear
  /-- They are the value of an expression. -/
  | value (e : VExpr)
  /-- They are these bytes. -/
  | bytes (bs : List Nat)
  /-- They are these characters and zeros after them. -/
  | text (bs : List Nat)

/-- What is said about `length` bytes of the object from `offset` on. -/
structure Part where
  offset : Nat
  length : Nat
  what : What

mutual
/-- What an initializer says about the object, in order. -/
def partsOf (base : Nat) : Item → List Part
  | .value e n => [⟨base, n, .value e⟩]
  | .float bs => [⟨base, bs.length, .bytes bs⟩]
  | .file bs => [⟨base, bs.length, .bytes bs⟩]
  | .text _ bs _ n => [⟨base, n, .text bs⟩]
  | .list _ _ is n => ⟨base, n, .clear⟩ :: partsOfList base is
/-- What a list of initializers says. -/
def partsOfList (base : Nat) : Items → List Part
  | .nil => []
  | .cons o i rest => partsOf (base + o) i ++ partsOfList base rest
end

/-- Byte `k` of what is said. -/
def What.byte (at_ : Addresses) : What → Nat → Nat
  | .clear, _ => 0
  | .value e, k => valueOf at_ e / 256 ^ k % 256
  | .bytes bs, k => bs.getD k 0
  | .text bs, k => bs.getD k 0

/-- Byte `i` of the object: the last one that says something about it counts, otherwise it is zero. -/
def image (at_ : Addresses) (parts : List Part) (i : Nat) : Nat :=
  parts.foldl (fun old p => if p.offset ≤ i ∧ i < p.offset + p.length then p.what.byte at_ (i - p.offset) else old) 0

/-- Do two parts have a byte in common? -/
def Part.overlaps (p q : Part) : Prop := p.offset < q.offset + q.length ∧ q.offset < p.offset + p.length

/-- Is it an address constant? -/
def Part.isAddress (p : Part) : Prop := match p.what with
  | .value e => ∃ s, baseOf e = some (some s)
  | _ => False

/-- Does it only say that the bytes are zero? -/
def Part.isClear (p : Part) : Prop := match p.what with
  | .clear => True
  | _ => False

/-- Does it say about bytes that are not mentioned that they are zero? -/
def Part.pads (p : Part) : Prop := match p.what with
  | .clear => True
  | .text bs => bs.length < p.length
  | _ => False

/-- The overriding that is harmless: `q` is for a part of what `p` is for, later, but `p` is no address constant, and if `q` says that
there are zeros, then `p` says nothing else. -/
def Harmless (p q : Part) : Prop := p.overlaps q → ¬ p.isAddress ∧ (q.pads → p.isClear)

mutual
/-- All indices are integer constants (after folding). -/
def LExpr.plainIndices : LExpr → Prop
  | .object _ => True
  | .member e _ => e.plainIndices
  | .index e i _ => e.plainIndices ∧ ∃ v, i = .int v
def VExpr.plainIndices : VExpr → Prop
  | .int _ => True
  | .ptr _ => True
  | .addr e => e.plainIndices
  | .decay e => e.plainIndices
  | .add a b => a.plainIndices ∧ b.plainIndices
  | .sub a b => a.plainIndices ∧ b.plainIndices
end

/-- The part gets a constant it has room for. -/
def Part.constant (p : Part) : Prop := match p.what with
  | .clear => True
  | .value e => e.plainIndices ∧ (baseOf e = some none ∨ ∃ s, baseOf e = some (some s) ∧ p.length = 8)
  | .bytes bs => bs.length = p.length
  | .text bs => bs.length ≤ p.length

/-- If the part gets an address in a string literal, then it is the address of its first character. -/
def Part.wholeString (p : Part) : Prop := match p.what with
  | .value e => ∀ id t, baseOf e = some (some (.string id t)) → ∀ at_, valueOf at_ e = at_ (.string id t) % 2 ^ 64
  | _ => True

end Verif.Spec.StaticInit
