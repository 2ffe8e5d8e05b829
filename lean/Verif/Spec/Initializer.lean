/-!
# Specification: initializer lists of C (C11 6.7.9)

An initializer is an expression, a string literal or a list in braces. A list in braces initializes
the parts of an object in order. A part that is itself an aggregate takes either a list in braces,
or an expression of its own type, or as many initializers of the surrounding list as it has parts.
Designators select a part of the object of the surrounding braces; the initializers after it are for the
parts after this one.
-/
namespace Verif.Spec.Initializer

mutual
/-- Types of objects. -/
inductive Ty
  /-- A type that is not an aggregate; `id` tells types (and bit-fields) apart. -/
  | scalar (id size : Nat)
  | array (n : Nat) (elem : Ty)
  /-- An array of unknown size. -/
  | flex (elem : Ty)
  | struct (id size : Nat) (members : Members)
  | union (id size : Nat) (members : Members)
/-- Members in the order of their declarations; the ones without a name are structures or unions. Unnamed
bit-fields are not members. -/
inductive Members
  | nil
  | cons (name : Option Nat) (offset : Nat) (type : Ty) (rest : Members)
end

/-- The size of a type; an array of unknown size has none. -/
def Ty.size : Ty → Nat
  | .scalar _ s => s
  | .array n e => n * e.size
  | .flex _ => 0
  | .struct _ s _ => s
  | .union _ s _ => s

/-- Is the type a scalar? -/
def Ty.isScalar : Ty → Bool
  | .scalar _ _ => true
  | _ => false

/-- A designator: `.x` or `[3]`. -/
inductive Desig
  | member (name : Nat)
  | index (i : Nat)
  deriving DecidableEq

mutual
/-- An initializer. -/
inductive Item
  /-- An expression `v` of the given type. -/
  | expr (v : Nat) (type : Ty)
  /-- A string literal `v` with `n` elements of `width` bytes, including the terminating zero. -/
  | str (v n width : Nat)
  /-- A list in braces. -/
  | braces (list : Items)
/-- What is between braces. -/
inductive Items
  /-- The closing brace; is there a comma before it? -/
  | close (comma : Bool)
  | cons (i : Item) (rest : Items)
  /-- Designators and `=`, before an initializer. -/
  | desig (d : Desig) (ds : List Desig) (rest : Items)
end

/-- The object of type `type` at `offset` gets the value `v`. -/
structure Write where
  offset : Nat
  type : Ty
  v : Nat

/-- The parts of an object, in order. -/
inductive Parts
  | nil
  | cons (offset : Nat) (type : Ty) (rest : Parts)
  /-- The elements of an array of unknown size. -/
  | forever (offset : Nat) (type : Ty)

/-- `n` elements of an array. -/
def elements (offset : Nat) (e : Ty) : Nat → Parts
  | 0 => .nil
  | n + 1 => .cons offset e (elements (offset + e.size) e n)

/-- The members of a structure. -/
def members (base : Nat) : Members → Parts
  | .nil => .nil
  | .cons _ o t rest => .cons (base + o) t (members base rest)

/-- The parts of an object that are initialized; only the first member of a union is. -/
def parts : Ty → Nat → Parts
  | .scalar _ _, _ => .nil
  | .array n e, off => elements off e n
  | .flex e, off => .forever off e
  | .struct _ _ ms, off => members off ms
  | .union _ _ .nil, _ => .nil
  | .union _ _ (.cons _ o t _), off => .cons (off + o) t .nil

/-- One list of parts after another. -/
def app : Parts → Parts → Parts
  | .nil, q => q
  | .cons o t p, q => .cons o t (app p q)
  | .forever o t, _ => .forever o t

mutual
/-- The member with a name in an object at `base`: its offset, its type and the parts of the object after it. -/
def member (name base : Nat) : Ty → Option (Nat × Ty × Parts)
  | .struct _ _ ms => inStruct name base ms
  | .union _ _ ms => inUnion name base ms
  | _ => none
/-- The members of a member without a name count as members. -/
def inStruct (name base : Nat) : Members → Option (Nat × Ty × Parts)
  | .nil => none
  | .cons (some m) o t rest => if m = name then some (base + o, t, members base rest) else inStruct name base rest
  | .cons none o t rest => match member name (base + o) t with
    | some (off, t', ps) => some (off, t', app ps (members base rest))
    | none => inStruct name base rest
/-- After a member of a union there is nothing. -/
def inUnion (name base : Nat) : Members → Option (Nat × Ty × Parts)
  | .nil => none
  | .cons (some m) o t rest => if m = name then some (base + o, t, .nil) else inUnion name base rest
  | .cons none o t rest => match member name (base + o) t with
    | some r => some r
    | none => inUnion name base rest
end

/-- What a designator selects in an object: the offset, the type and the parts after it. -/
def selectOne : Desig → Ty → Nat → Option (Nat × Ty × Parts)
  | .member name, t, off => member name off t
  | .index i, .array n e, off => if i < n then some (off + i * e.size, e, elements (off + (i + 1) * e.size) e (n - i - 1)) else none
  | .index i, .flex e, off => some (off + i * e.size, e, .forever (off + (i + 1) * e.size) e)
  | .index _, _, _ => none

/-- What a list of designators selects. -/
def select : List Desig → Ty → Nat → Option (Nat × Ty × Parts)
  | [], t, off => some (off, t, .nil)
  | d :: ds, t, off => match selectOne d t off with
    | none => none
    | some (o, t', ps) => match select ds t' o with
      | none => none
      | some (o', t'', ps') => some (o', t'', app ps' ps)

/-- Can a string of `n` elements initialize an array of `m` elements? There needs not be room for the zero. -/
def StringFits (n m : Nat) : Prop := n ≤ m + 1

/-- The initializer has the type of the whole object: an expression of the same type (`same` decides
that), or a string literal for an array of characters. -/
def Whole (same : Ty → Ty → Bool) : Item → Ty → Prop
  | .expr _ ty, t => same ty t = true
  | .str _ _ w, .array _ (.scalar _ s) => s = w
  | .str _ _ w, .flex (.scalar _ s) => s = w
  | _, _ => False

/-- There is room for the initializer. -/
def Room : Item → Ty → Prop
  | .str _ n _, .array m _ => StringFits n m
  | _, _ => True

/-- The value of an initializer. -/
def Item.value : Item → Nat
  | .expr v _ => v
  | .str v _ _ => v
  | .braces _ => 0

/-- Is it a list in braces? -/
def Item.isBraces : Item → Bool
  | .braces _ => true
  | _ => false

/-- Is the initializer a string literal for the array `t`? -/
def StringFor (same : Ty → Ty → Bool) : Item → Ty → Prop
  | .str v n w, t => Whole same (.str v n w) t
  | _, _ => False

mutual
/-- A part takes initializers from the front of a list. -/
inductive Takes (same : Ty → Ty → Bool) : Ty → Nat → Items → List Write → Items → Prop
  /-- A scalar takes one initializer. -/
  | scalar {id s off : Nat} {i : Item} {rest : Items} : i.isBraces = false → Takes same (.scalar id s) off (.cons i rest) [⟨off, .scalar id s, i.value⟩] rest
  /-- An initializer of the type of the part is for the whole part. -/
  | whole {t : Ty} {off : Nat} {i : Item} {rest : Items} : Whole same i t → Room i t → Takes same t off (.cons i rest) [⟨off, t, i.value⟩] rest
  /-- A list in braces is for this part. -/
  | braces {t : Ty} {off : Nat} {is rest : Items} {ws : List Write} : Braced same t off is ws → Takes same t off (.cons (.braces is) rest) ws rest
  /-- Otherwise an aggregate takes as many initializers as it has parts. -/
  | elided {t : Ty} {off : Nat} {i : Item} {rest rest' : Items} {ws : List Write} : i.isBraces = false → t.isScalar = false → ¬ Whole same i t → parts t off ≠ .nil →
      Fill same (parts t off) (.cons i rest) ws rest' → Takes same t off (.cons i rest) ws rest'
/-- Parts are filled until there are no more parts or no more initializers without designators. -/
inductive Fill (same : Ty → Ty → Bool) : Parts → Items → List Write → Items → Prop
  | noItems {ps : Parts} {c : Bool} : Fill same ps (.close c) [] (.close c)
  | noParts {is : Items} : Fill same .nil is [] is
  | designator {ps : Parts} {d : Desig} {ds : List Desig} {rest : Items} : Fill same ps (.desig d ds rest) [] (.desig d ds rest)
  | part {off : Nat} {t : Ty} {ps : Parts} {i : Item} {rest rest' rest'' : Items} {ws ws' : List Write} :
      Takes same t off (.cons i rest) ws rest' → Fill same ps rest' ws' rest'' → Fill same (.cons off t ps) (.cons i rest) (ws ++ ws') rest''
  | element {off : Nat} {t : Ty} {i : Item} {rest rest' rest'' : Items} {ws ws' : List Write} :
      Takes same t off (.cons i rest) ws rest' → Fill same (.forever (off + t.size) t) rest' ws' rest'' → Fill same (.forever off t) (.cons i rest) (ws ++ ws') rest''
/-- A list in braces initializes an object. -/
inductive Braced (same : Ty → Ty → Bool) : Ty → Nat → Items → List Write → Prop
  /-- The parts of an aggregate are filled and what is left over has designators. -/
  | aggregate {t : Ty} {off : Nat} {is rest : Items} {ws ws' : List Write} : t.isScalar = false → (∀ i rest, is = .cons i rest → ¬ StringFor same i t) →
      Fill same (parts t off) is ws rest → Designated same t off rest ws' → Braced same t off is (ws ++ ws')
  /-- A string in braces. As an extension designators may follow. -/
  | string {t : Ty} {off : Nat} {i : Item} {rest : Items} {ws : List Write} : StringFor same i t → Room i t → Designated same t off rest ws →
      Braced same t off (.cons i rest) (⟨off, t, i.value⟩ :: ws)
  /-- A scalar in braces. -/
  | scalar {id s off : Nat} {i : Item} {c : Bool} : i.isBraces = false → Braced same (.scalar id s) off (.cons i (.close c)) [⟨off, .scalar id s, i.value⟩]
  /-- A scalar in more than one pair of braces. -/
  | nested {id s off : Nat} {is : Items} {ws : List Write} : Braced same (.scalar id s) off is ws → Braced same (.scalar id s) off (.cons (.braces is) (.close false)) ws
  /-- Empty braces are zero. -/
  | zero {id s off : Nat} {c : Bool} : Braced same (.scalar id s) off (.close c) [⟨off, .scalar id s, 0⟩]
/-- A list that is over or begins with designators; they are for parts of the object of type `t` at `off`. -/
inductive Designated (same : Ty → Ty → Bool) : Ty → Nat → Items → List Write → Prop
  | close {t : Ty} {off : Nat} {c : Bool} : Designated same t off (.close c) []
  /-- The selected object is filled, and the parts after it. -/
  | next {t : Ty} {off : Nat} {d : Desig} {ds : List Desig} {i : Item} {rest rest' : Items} {o : Nat} {t' : Ty} {ps : Parts} {ws ws' : List Write} :
      select (d :: ds) t off = some (o, t', ps) → Fill same (.cons o t' ps) (.cons i rest) ws rest' → Designated same t off rest' ws' →
      Designated same t off (.desig d ds (.cons i rest)) (ws ++ ws')
end

mutual
/-- The scalars inside an object, in order; only the first member of a union counts. -/
def leaves : Ty → Nat → List (Nat × Ty)
  | .scalar id s, off => [(off, .scalar id s)]
  | .array n e, off => (List.range n).flatMap fun i => leaves e (off + i * e.size)
  | .flex _, _ => []
  | .struct _ _ ms, off => leavesOf ms off
  | .union _ _ .nil, _ => []
  | .union _ _ (.cons _ o t _), off => leaves t (off + o)
/-- The scalars inside members. -/
def leavesOf : Members → Nat → List (Nat × Ty)
  | .nil, _ => []
  | .cons _ o t rest, off => leaves t (off + o) ++ leavesOf rest off
end

mutual
/-- The layout of a type is possible: the members are inside and the first one is at the start; arrays
have elements. -/
def Ty.Good : Ty → Prop
  | .scalar _ _ => True
  | .array n e => 0 < n ∧ e.Good
  | .flex e => e.Good
  | .struct _ s ms => ms.Good s ∧ ms.startsAtZero
  | .union _ s ms => ms.Good s ∧ ms.startsAtZero
/-- The members are inside of `s` bytes. -/
def Members.Good : Members → Nat → Prop
  | .nil, _ => True
  | .cons _ o t rest, s => o + t.size ≤ s ∧ t.Good ∧ rest.Good s
/-- The first member is at the start. -/
def Members.startsAtZero : Members → Prop
  | .nil => True
  | .cons _ o _ _ => o = 0
end

mutual
/-- There is no array of unknown size. -/
def Ty.Fixed : Ty → Prop
  | .scalar _ _ => True
  | .array _ e => e.Fixed
  | .flex _ => False
  | .struct _ _ ms => ms.Fixed
  | .union _ _ ms => ms.Fixed
/-- There is no array of unknown size in members. -/
def Members.Fixed : Members → Prop
  | .nil => True
  | .cons _ _ t rest => t.Fixed ∧ rest.Fixed
end

/-- What can be used in a list. -/
inductive Use
  /-- A string literal with elements of `w` bytes. -/
  | string (w : Nat)
  /-- A designator. -/
  | designator
  /-- A string literal after designators that end with `[0]`. -/
  | first (w : Nat)

/-- All members have names. -/
def Members.Named : Members → Prop
  | .nil => True
  | .cons a _ _ rest => a ≠ none ∧ rest.Named

/-- All members of the structure or union have names. -/
def Ty.Named : Ty → Prop
  | .struct _ _ ms => ms.Named
  | .union _ _ ms => ms.Named
  | _ => True

/-- The elements of an array suit the use of strings: they are no aggregates of the width of a string, and they do not have
the width of a string after `[0]`. -/
def ElementSuits (u : Use) (e : Ty) : Prop :=
  match u with
  | .string w => e.size = w → e.isScalar = true
  | .designator => True
  | .first w => e.size ≠ w

mutual
/-- For strings, all arrays suit. For designators, unnamed members are only in structures, and have no unnamed members. -/
def Ty.Suits (u : Use) : Ty → Prop
  | .scalar _ _ => True
  | .array _ e => ElementSuits u e ∧ e.Suits u
  | .flex e => ElementSuits u e ∧ e.Suits u
  | .struct _ _ ms => ms.Suits u
  | .union _ _ ms => (u = .designator → ms.Named) ∧ ms.Suits u
/-- The same for members. -/
def Members.Suits (u : Use) : Members → Prop
  | .nil => True
  | .cons a _ t rest => (u = .designator → a = none → t.Named) ∧ t.Suits u ∧ rest.Suits u
end

/-- The width of the elements of a string literal at the front. -/
def Items.width : Items → Option Nat
  | .cons (.str _ _ w) _ => some w
  | _ => none

mutual
/-- The property `p` holds of everything that is used. -/
def Item.Uses (p : Use → Prop) : Item → Prop
  | .expr _ _ => True
  | .str _ _ w => p (.string w)
  | .braces is => is.Uses p
/-- The property `p` holds of everything that is used. -/
def Items.Uses (p : Use → Prop) : Items → Prop
  | .close _ => True
  | .cons i rest => i.Uses p ∧ rest.Uses p
  | .desig d ds rest => p .designator ∧ (∀ w, (d :: ds).getLast? = some (.index 0) → rest.width = some w → p (.first w)) ∧ rest.Uses p
end

mutual
/-- Every structure and union has a member. -/
def Ty.Full : Ty → Prop
  | .scalar _ _ => True
  | .array _ e => e.Full
  | .flex e => e.Full
  | .struct _ _ ms => ms ≠ .nil ∧ ms.Full
  | .union _ _ ms => ms ≠ .nil ∧ ms.Full
/-- The same for the types of members. -/
def Members.Full : Members → Prop
  | .nil => True
  | .cons _ _ t rest => t.Full ∧ rest.Full
end

/-- There is no comma before the closing brace. -/
def Items.NoComma : Items → Prop
  | .close c => c = false
  | .cons _ rest => rest.NoComma
  | .desig _ _ rest => rest.NoComma

/-- There are no designators, except in nested braces. -/
def Items.NoDesignators : Items → Prop
  | .close _ => True
  | .cons _ rest => rest.NoDesignators
  | .desig _ _ _ => False

/-- Every initializer is a list in braces, with at most one designator. -/
def Items.AllBraced : Items → Prop
  | .close _ => True
  | .cons i rest => i.isBraces = true ∧ rest.AllBraced
  | .desig _ ds rest => ds = [] ∧ rest.AllBraced

/-- The values `vs` are written to the objects `os`, one after the other. -/
def writes (os : List (Nat × Ty)) (vs : List Nat) : List Write := List.zipWith (fun o v => ⟨o.1, o.2, v⟩) os vs

/-- A list of expressions of scalar types. -/
def flat (scalar : Ty) : List Nat → Bool → Items
  | [], c => .close c
  | v :: vs, c => .cons (.expr v scalar) (flat scalar vs c)

end Verif.Spec.Initializer
