import Verif.Spec.Image

/-!
# Specification: object files

What a linker for Windows reads in an object file (COFF format), and what it makes of it. The file starts with a header of 20 bytes, followed by the table of
sections. The header says where the table of symbols is; the table of long names follows it. Every section has a list of relocations: places in the section
to which the address of a symbol is added, in one of several ways.
-/
namespace Verif.Spec.Object
open Verif.Spec.Image (byte number)

def machine (file : List Nat) : Nat := number (byte file) 2 0
def sectionCount (file : List Nat) : Nat := number (byte file) 2 2
def symbolTable (file : List Nat) : Nat := number (byte file) 4 8
def symbolCount (file : List Nat) : Nat := number (byte file) 4 12

/-- An entry of the table of sections. -/
structure Section where
  name : List Nat
  size : Nat
  pointer : Nat
  relocations : Nat
  count : Nat
  flags : Nat
deriving DecidableEq

/-- The bytes up to the first zero. -/
def untilZero (bytes : List Nat) : List Nat := bytes.takeWhile (fun b => decide (b ≠ 0))

/-- The section with a number; the first one has the number one. -/
def sectionAt (file : List Nat) (n : Nat) : Section :=
  let a := 20 + number (byte file) 2 16 + 40 * (n - 1)
  ⟨untilZero ((file.drop a).take 8), number (byte file) 4 (a + 16), number (byte file) 4 (a + 20), number (byte file) 4 (a + 24), number (byte file) 2 (a + 32),
    number (byte file) 4 (a + 36)⟩

def Section.uninitialized (s : Section) : Bool := s.flags / 0x80 % 2 = 1
def Section.executable (s : Section) : Bool := s.flags / 0x20000000 % 2 = 1
def Section.readable (s : Section) : Bool := s.flags / 0x40000000 % 2 = 1
def Section.writable (s : Section) : Bool := s.flags / 0x80000000 % 2 = 1
/-- Of the sections of all objects that define the same symbol, any one is taken. -/
def Section.comdat (s : Section) : Bool := s.flags / 0x1000 % 2 = 1
/-- The alignment of the section. -/
def Section.alignment (s : Section) : Nat := 2 ^ (s.flags / 0x100000 % 16 - 1)

/-- A symbol. Section zero: another object defines it, or, if there is a value, it is an object of that size without initial value. Class 2: other objects
see the symbol, class 3: they do not. -/
structure Symbol where
  name : List Nat
  value : Nat
  section_ : Nat
  type : Nat
  cls : Nat
  auxiliary : Nat
deriving DecidableEq

/-- The symbol with a number. Names of more than eight bytes are in the table of long names. -/
def symbolAt (file : List Nat) (k : Nat) : Symbol :=
  let a := symbolTable file + 18 * k
  ⟨if number (byte file) 4 a = 0 then untilZero (file.drop (symbolTable file + 18 * symbolCount file + number (byte file) 4 (a + 4)))
      else untilZero ((file.drop a).take 8),
    number (byte file) 4 (a + 8), number (byte file) 2 (a + 12), number (byte file) 2 (a + 14), byte file (a + 16), byte file (a + 17)⟩

/-- The symbol of a section: no other object sees it, and the record after it has the size of the section and how one of several is selected: 2 if any may be
taken, 0 if there is nothing to select. -/
def SectionSymbol (file : List Nat) (k n : Nat) : Prop :=
  k + 1 < symbolCount file ∧ symbolAt file k = ⟨(sectionAt file n).name, 0, n, 0, 3, 1⟩ ∧
  number (byte file) 4 (symbolTable file + 18 * (k + 1)) = (sectionAt file n).size ∧
  byte file (symbolTable file + 18 * (k + 1) + 14) = if (sectionAt file n).comdat then 2 else 0

structure Relocation where
  offset : Nat
  symbol : Nat
  kind : Nat
deriving DecidableEq

def relocationAt (file : List Nat) (a : Nat) : Relocation := ⟨number (byte file) 4 a, number (byte file) 4 (a + 4), number (byte file) 2 (a + 8)⟩

/-- The relocations of a section. If there are too many for the 16 bits in the table of sections, the first one has their number. -/
def relocations (file : List Nat) (n : Nat) : List Relocation :=
  let s := sectionAt file n
  if s.count = 0xffff ∧ s.flags / 0x1000000 % 2 = 1 then
    (List.range (number (byte file) 4 s.relocations - 1)).map (fun i => relocationAt file (s.relocations + 10 * (i + 1)))
  else (List.range s.count).map (fun i => relocationAt file (s.relocations + 10 * i))

/-- What the linker decides. -/
structure Link where
  /-- the address of a section of the object -/
  base : Nat → Nat
  /-- the start of the section of the image that it becomes a part of -/
  start : Nat → Nat
  /-- the number of the section of the image -/
  index : Nat → Nat
  /-- the address of what has a name that other objects see -/
  external : List Nat → Nat
  /-- the start of the section of the image it is in, and its number -/
  externalStart : List Nat → Nat
  externalIndex : List Nat → Nat
  /-- the address of the image -/
  image : Nat

/-- The linker puts sections to aligned addresses. -/
def Link.Aligned (l : Link) (file : List Nat) : Prop := ∀ n, 1 ≤ n → n ≤ sectionCount file → l.base n % (sectionAt file n).alignment = 0

/-- The address of a symbol. -/
def address (file : List Nat) (l : Link) (k : Nat) : Nat :=
  let s := symbolAt file k
  if s.section_ = 0 then l.external s.name else l.base s.section_ + s.value

/-- The start of the section of the image a symbol is in. -/
def startOf (file : List Nat) (l : Link) (k : Nat) : Nat :=
  let s := symbolAt file k
  if s.section_ = 0 then l.externalStart s.name else l.start s.section_

/-- The number of the section of the image a symbol is in. -/
def indexOf (file : List Nat) (l : Link) (k : Nat) : Nat :=
  let s := symbolAt file k
  if s.section_ = 0 then l.externalIndex s.name else l.index s.section_

/-- Store a number of `n` bytes. -/
def put (m : Nat → Nat) (a n : Nat) (v : Int) : Nat → Nat :=
  fun x => if a ≤ x ∧ x < a + n then (v % 256 ^ n).toNat / 256 ^ (x - a) % 256 else m x

/-- Apply a relocation to the bytes of section `n`: ADDR64, ADDR32NB, REL32, SECTION, SECREL. Others are ignored. -/
def relocate (file : List Nat) (l : Link) (n : Nat) (m : Nat → Nat) (r : Relocation) : Nat → Nat :=
  if r.kind = 1 then put m r.offset 8 (number m 8 r.offset + address file l r.symbol)
  else if r.kind = 3 then put m r.offset 4 (number m 4 r.offset + address file l r.symbol - l.image)
  else if r.kind = 4 then put m r.offset 4 (number m 4 r.offset + address file l r.symbol - (l.base n + r.offset + 4))
  else if r.kind = 0xa then put m r.offset 2 (number m 2 r.offset + indexOf file l r.symbol)
  else if r.kind = 0xb then put m r.offset 4 (number m 4 r.offset + address file l r.symbol - startOf file l r.symbol)
  else m

/-- The bytes of a section in the file. -/
def raw (file : List Nat) (n : Nat) (o : Nat) : Nat :=
  let s := sectionAt file n
  if s.uninitialized then 0 else if o < s.size then byte file (s.pointer + o) else 0

/-- The bytes of a section after linking. -/
def linked (file : List Nat) (l : Link) (n : Nat) : Nat → Nat := (relocations file n).foldl (relocate file l n) (raw file n)

/-- The bytes from a symbol on, after linking. -/
def content (file : List Nat) (l : Link) (k : Nat) (o : Nat) : Nat :=
  linked file l (symbolAt file k).section_ ((symbolAt file k).value + o)

/-- Symbol `k` is defined by this object: in a section that exists, with a name, for other objects or not. -/
def Defined (file : List Nat) (k : Nat) (name : List Nat) (isStatic : Bool) : Prop :=
  k < symbolCount file ∧ (symbolAt file k).name = name ∧ 1 ≤ (symbolAt file k).section_ ∧ (symbolAt file k).section_ ≤ sectionCount file ∧
    (symbolAt file k).cls = (if isStatic then 3 else 2)

/-- Symbol `k` has to be defined by another object. -/
def Undefined (file : List Nat) (k : Nat) (name : List Nat) : Prop :=
  k < symbolCount file ∧ (symbolAt file k).name = name ∧ (symbolAt file k).section_ = 0 ∧ (symbolAt file k).value = 0 ∧ (symbolAt file k).cls = 2

/-- Symbol `k` is an object without initial value: the linker makes one for all objects. -/
def Tentative (file : List Nat) (k : Nat) (name : List Nat) (size : Nat) : Prop :=
  k < symbolCount file ∧ (symbolAt file k).name = name ∧ (symbolAt file k).section_ = 0 ∧ (symbolAt file k).value = size ∧ 0 < size ∧
    (symbolAt file k).cls = 2

/-- The section that symbol `k` is in. -/
def sectionOf (file : List Nat) (k : Nat) : Section := sectionAt file (symbolAt file k).section_

end Verif.Spec.Object
