import Verif.Model.Path
import Verif.Model.Image
import Verif.Spec.Include

/-!
# Model: include directives

The table of the files in the system include directories (/repo/src/main.c 4688–4815), the search for a file (/repo/src/preprocess.c 2729–2850) and `#pragma
once` (/repo/src/preprocess.c 3362–3392, 4559–4563).

Simplifications: there is one thread. Memory does not run out. What Windows says about files and directories does not change.
The capacity is a power of two and `x & (capacity - 1)` is written `x % capacity`; that sums wrap at 2^64 makes no difference then. That a file is loaded only once
(/repo/src/preprocess.c 2610–2726) is not modelled: a file is known by the path that is used to load it, which is how the table of files knows it.
-/
namespace Verif.Include
open Verif.Path (concatenate stripFileName canonicalizeSlashes)
open Verif.Spec.Include (Path Node)

/-- `hacky_canonicalize_file_for_case_insensitivity` (/repo/src/std.c 1530–1536). -/
def fold (s : Path) : Path :=
  s.map (fun c =>
    let c := if c = 92 then 47 else c
    if 65 ≤ c ∧ c ≤ 90 then c ||| 32 else c)

/-- What is known: the system include directories with what is in them, and the files that paths lead to. -/
structure World where
  directories : List (Path × List Node)
  disk : Path → Option Nat

/-- The entries of the table: include string and path (/repo/src/main.c 463–471). -/
abbrev Entries := Nat → Option (Path × Path)

/-- `system_include_table` (/repo/src/main.c 462–475). -/
structure Table where
  entries : Entries
  capacity : Nat
  count : Nat

/-- Write an entry (/repo/src/main.c 4764, 4794–4796). -/
def setEntry (entries : Entries) (i : Nat) (e : Path × Path) : Entries := fun j => if j = i then some e else entries j

/-- The search for a free entry when the table grows (/repo/src/main.c 4760–4767). -/
def place (entries : Entries) (capacity : Nat) (e : Path × Path) (hash : Nat) : Nat → Nat → Entries
  | _, 0 => entries
  | i, fuel + 1 => match entries ((hash + i) % capacity) with
    | some _ => place entries capacity e hash (i + 1) fuel
    | none => setEntry entries ((hash + i) % capacity) e

/-- The loop over the old entries (/repo/src/main.c 4755–4768). -/
def rehash (hash : Path → Nat) (old : Entries) (capacity : Nat) : Nat → Entries
  | 0 => fun _ => none
  | i + 1 => match old i with
    | none => rehash hash old capacity i
    | some e => place (rehash hash old capacity i) capacity e (hash e.1) 0 capacity

/-- Grow the table (/repo/src/main.c 4751–4772). -/
def grow (hash : Path → Nat) (t : Table) : Table :=
  if 2 * t.count > t.capacity then ⟨rehash hash t.entries (2 * t.capacity) t.capacity, 2 * t.capacity, t.count⟩ else t

/-- The loop that adds an entry, earlier entries are preferred (/repo/src/main.c 4790–4803). -/
def addEntry (t : Table) (e : Path × Path) (hash : Nat) : Nat → Nat → Table
  | _, 0 => t
  | i, fuel + 1 => match t.entries ((hash + i) % t.capacity) with
    | none => ⟨setEntry t.entries ((hash + i) % t.capacity) e, t.capacity, t.count + 1⟩
    | some e' => if e'.1 = e.1 then t else addEntry t e hash (i + 1) fuel

/-- Add a file. The include string is the end of the path, and case is removed in place (/repo/src/main.c 4751–4803). -/
def addFile (hash : Path → Nat) (root : Path) (t : Table) (path : Path) : Table :=
  let inc := fold (path.drop (root.length + 1))
  let t := grow hash t
  addEntry t (inc, path.take (root.length + 1) ++ inc) (hash inc) 0 t.capacity

/-- The files of a directory (/repo/src/main.c 4723–4745, 4774). -/
def files (d : Path) (ns : List Node) : List Path := ns.filterMap (fun n => match n with | .file n => some (d ++ 47 :: n) | .directory _ _ => none)

/-- `directory_list`: every directory is pushed to the front (/repo/src/main.c 4729–4743). -/
def push (d : Path) (ns : List Node) (stack : List (Path × List Node)) : List (Path × List Node) :=
  ns.foldl (fun stack n => match n with | .directory n ks => (d ++ 47 :: n, ks) :: stack | .file _ => stack) stack

/-- `while(directory_list)`, all files in their order (/repo/src/main.c 4704–4808). -/
def walk : Nat → List (Path × List Node) → List Path
  | 0, _ => []
  | _ + 1, [] => []
  | fuel + 1, (d, ns) :: stack => if d.length + 3 ≥ 260 then walk fuel stack else files d ns ++ walk fuel (push d ns stack)

mutual
/-- The number of directories, for the fuel of `walk` (/repo/src/main.c 4704). -/
def nodeSize : Node → Nat
  | .file _ => 0
  | .directory _ ns => 1 + nodesSize ns
def nodesSize : List Node → Nat
  | [] => 0
  | n :: ns => nodeSize n + nodesSize ns
end

/-- All files of a system include directory (/repo/src/main.c 4696–4809). -/
def filesOf (d : Path × List Node) : List Path := walk (nodesSize d.2 + 1) [d]

/-- The table (/repo/src/main.c 4688–4814). -/
def table (hash : Path → Nat) (w : World) : Table :=
  w.directories.foldl (fun t d => (filesOf d).foldl (addFile hash d.1) t) ⟨fun _ => none, 8, 0⟩

/-- The search in the table (/repo/src/preprocess.c 2805–2816). -/
def find (t : Table) (inc : Path) (hash : Nat) : Nat → Nat → Option Path
  | _, 0 => none
  | i, fuel + 1 => match t.entries ((hash + i) % t.capacity) with
    | none => none
    | some e => if e.1 = inc then some e.2 else find t inc hash (i + 1) fuel

/-- `get_or_load_file_by_walking_system_include_directories` without `include_next` (/repo/src/preprocess.c 2729–2764). -/
def walkDirectories (w : World) (inc : Path) : List Path → Option Path
  | [] => none
  | d :: ds => if (w.disk (concatenate d inc)).isSome then some (concatenate d inc) else walkDirectories w inc ds

/-- Does the path start with the directory, as far as both go (/repo/src/preprocess.c 2741–2750)? -/
def agrees : Path → Path → Bool
  | [], _ => true
  | _, [] => true
  | a :: as, b :: bs => a = b && agrees as bs

/-- `get_or_load_file_by_walking_system_include_directories` for `#include_next` (/repo/src/preprocess.c 2729–2764). -/
def walkNext (w : World) (parent inc : Path) : List Path → Option Path
  | [] => none
  | d :: ds => if agrees d parent then walkDirectories w inc ds else walkNext w parent inc ds

/-- The paths of the system include directories (/repo/src/main.c 369). -/
def World.roots (w : World) : List Path := w.directories.map Prod.fst

/-- `#include <>`, with the string already folded (/repo/src/preprocess.c 2796–2849): the path of the file. -/
def systemFolded (hash : Path → Nat) (w : World) (inc : Path) : Option Path :=
  match find (table hash w) inc (hash inc) 0 (table hash w).capacity with
  | some path => some path
  | none => walkDirectories w inc w.roots

/-- `#include <>` (/repo/src/preprocess.c 2766–2850). -/
def includeSystem (hash : Path → Nat) (w : World) (inc : Path) : Option Path := systemFolded hash w (fold inc)

/-- `#include ""` (/repo/src/preprocess.c 2766–2850). -/
def includeQuoted (hash : Path → Nat) (w : World) (parent inc : Path) : Option Path :=
  let path := canonicalizeSlashes (concatenate (stripFileName parent) (fold inc))
  if (w.disk path).isSome then some path else systemFolded hash w (fold inc)

/-- `#include_next`: the string is not folded (/repo/src/preprocess.c 4400–4416). -/
def includeNext (w : World) (parent inc : Path) : Option Path := walkNext w parent inc w.roots

/-- What happens in a compilation unit: a file is included, or there is a `#pragma once` in a file. -/
inductive Event where
  | include_ (path : Path)
  | once (path : Path)
deriving DecidableEq

/-- `pragma_once_file_list` and which includes had an effect (/repo/src/preprocess.c 3362–3392, 4559–4563; /repo/src/main.c 2744). -/
def run : List Path → List Event → List Bool
  | _, [] => []
  | list, .include_ path :: es => (!list.any (· == path)) :: run list es
  | list, .once path :: es => run (list ++ [path]) es

/-- `string_djb2_hash` (/repo/src/std.c 1303–1310). -/
def stringHash : Path → Nat := Verif.Model.Image.djb2

end Verif.Include
