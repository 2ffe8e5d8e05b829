/-!
# Model: base relocations

The writer of executables records a base relocation for every absolute patch, in a list of
blocks, one for each page (/repo/src/coff_writer.c 1601–1640, 1726–1752), and writes the blocks to the section `.reloc`
(/repo/src/coff_writer.c 1768–1802).
-/
namespace Verif.Model.BaseReloc

/-- `struct base_relocation_block` (/repo/src/coff_writer.c 1607–1615). -/
structure Block where
  page : Nat
  /-- `offset_in_page` of the nodes, in order. -/
  offsets : List Nat

/-- The search for the block, and the new node at its end; if there is no block, a new one is the last one of the list
(/repo/src/coff_writer.c 1733–1752). -/
def record (page offset : Nat) : List Block → List Block
  | [] => [⟨page, [offset]⟩]
  | b :: bs => if b.page = page then { b with offsets := b.offsets ++ [offset] } :: bs else b :: record page offset bs

/-- The relocation for the address `rva` (/repo/src/coff_writer.c 1726–1731). -/
def relocate (blocks : List Block) (rva : Nat) : List Block :=
  record (rva / 2 ^ 12 * 2 ^ 12) (rva % 2 ^ 12) blocks

/-- The block for the directory of thread local storage: the four addresses in it (/repo/src/coff_writer.c 1622–1640). -/
def tlsBlock (rva : Nat) : Block :=
  ⟨rva / 2 ^ 12 * 2 ^ 12, (List.range 4).map (fun i => rva % 2 ^ 12 + i * 8)⟩

/-- All blocks: the one for thread local storage, if there are variables of threads, then those of the patches
(/repo/src/coff_writer.c 1617–1758). -/
def blocks (tls : Option Nat) (patches : List Nat) : List Block :=
  patches.foldl relocate (match tls with | some rva => [tlsBlock rva] | none => [])

/-- `*push_struct(arena, u32) = v`. -/
def u32 (v : Nat) : List Nat := [v % 256, v / 256 % 256, v / 65536 % 256, v / 16777216 % 256]

/-- `*push_struct(arena, u16) = v`. -/
def u16 (v : Nat) : List Nat := [v % 256, v / 256 % 256]

/-- The bytes of a block (/repo/src/coff_writer.c 1774–1790). -/
def writeBlock (b : Block) : List Nat :=
  let count := b.offsets.length
  let count := if count % 2 = 1 then count + 1 else count
  u32 b.page ++ u32 (count * 2 + 8) ++ b.offsets.flatMap (fun o => u16 (10 * 2 ^ 12 ||| o)) ++
    (if b.offsets.length % 2 = 1 then u16 0 else [])

/-- The bytes of the section (/repo/src/coff_writer.c 1768–1791). -/
def write (bs : List Block) : List Nat := bs.flatMap writeBlock

end Verif.Model.BaseReloc
