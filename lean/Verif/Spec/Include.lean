/-!
# Specification: which file an include directive includes

Paths are lists of bytes, `/` is 47. `disk` says which file a path leads to, if any; files are numbers.
-/
namespace Verif.Spec.Include

abbrev Path := List Nat

/-- A directory with what is in it. -/
inductive Node where
  | file (name : Path)
  | directory (name : Path) (nodes : List Node)

/-- `e` with the nodes `ms` is the directory `d` with the nodes `ns`, or is inside of it. -/
inductive Below (d : Path) (ns : List Node) : Path → List Node → Prop where
  | here : Below d ns d ns
  | down {e : Path} {ms : List Node} {n : Path} {ks : List Node} : Below d ns e ms → Node.directory n ks ∈ ms → Below d ns (e ++ 47 :: n) ks

/-- The directory has, at some depth, a file with that path. -/
def HasFile (d : Path) (ns : List Node) (path : Path) : Prop := ∃ e ms n, Below d ns e ms ∧ Node.file n ∈ ms ∧ path = e ++ 47 :: n

/-- Case does not matter for file names, and `\` is `/`. -/
def lower (c : Nat) : Nat := if c = 92 then 47 else if 65 ≤ c ∧ c ≤ 90 then c + 32 else c

/-- The parts of a path. -/
def parts : Path → List Path
  | [] => [[]]
  | c :: s => if c = 47 then [] :: parts s else match parts s with
    | [] => [[c]]
    | p :: ps => (c :: p) :: ps

/-- A name of a file or directory: it has no separator and is not `.` or `..`. -/
def Name (n : Path) : Prop := n ≠ [] ∧ n ≠ [46] ∧ n ≠ [46, 46] ∧ 47 ∉ n ∧ 92 ∉ n

/-- A path that goes down only. -/
def Plain (s : Path) : Prop := ∀ p ∈ parts s, Name p

/-- The first directory that has the file. -/
def first (disk : Path → Option Nat) (directories : List Path) (inc : Path) : Option Nat :=
  directories.findSome? (fun d => disk (d ++ 47 :: inc))

/-- What has to be true of the system include directories and the disk. -/
structure Faithful (directories : List (Path × List Node)) (disk : Path → Option Nat) : Prop where
  /-- paths of directories do not end with `/` -/
  roots : ∀ d ∈ directories, d.1.getLast? ≠ some 47
  /-- the names in the directories are names -/
  named : ∀ d ∈ directories, ∀ e ms, Below d.1 d.2 e ms → (∀ n, Node.file n ∈ ms → Name n) ∧ ∀ n ks, Node.directory n ks ∈ ms → Name n
  /-- no directory has a path that is too long for the Windows functions that list directories -/
  short : ∀ d ∈ directories, ∀ e ms, Below d.1 d.2 e ms → e.length + 3 < 260
  /-- if a directory has a file, then every directory finds a file with that path, in lower case, exactly if it has a file with the path in any case -/
  listed : ∀ d ∈ directories, ∀ d' ∈ directories, ∀ s, HasFile d'.1 d'.2 (d'.1 ++ 47 :: s) →
    ((disk (d.1 ++ 47 :: s.map lower)).isSome ↔ ∃ s', HasFile d.1 d.2 (d.1 ++ 47 :: s') ∧ s'.map lower = s.map lower)

end Verif.Spec.Include
