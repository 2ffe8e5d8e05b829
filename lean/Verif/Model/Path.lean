/-!
# Model: file paths, `src/std.c:1514-1656`

A `struct string` is the list of its bytes. `/` is 47, `\` is 92, `.` is 46, `:` is 58. Copying into the arena and the zero
terminator are not modelled.
-/
namespace Verif.Path

/-- `u8_is_alpha`, `src/std.c:950-952`. -/
def isAlpha (c : Nat) : Bool := (decide (122 ≥ c) && decide (c ≥ 97)) || (decide (90 ≥ c) && decide (c ≥ 65)) || c == 95

/-- `path_is_absolute`, `src/std.c:1514-1517`. -/
def isAbsolute (path : List Nat) : Bool :=
  if path.length < 2 then false else isAlpha (path.getD 0 0) && path.getD 1 0 == 58

/-- `canonicalize_slashes`, `src/std.c:1523-1528`. -/
def canonicalizeSlashes (path : List Nat) : List Nat := path.map (fun c => if c = 92 then 47 else c)

/-- `for(i = n - 1; i >= 0; i--) if(p(data[i])) ...`: the first index found. -/
def scanBack (p : Nat → Bool) (s : List Nat) : Nat → Option Nat
  | 0 => none
  | i + 1 => if p (s.getD i 0) then some i else scanBack p s i

/-- The loop at the start of `concatenate_file_paths`, `src/std.c:1554-1565`: what is left and the number of
directories to pop. -/
def eatFront (pops : Nat) : List Nat → List Nat × Nat
  | 47 :: s => eatFront pops s
  | 46 :: 47 :: s => eatFront pops s
  | 46 :: 46 :: 47 :: s => eatFront (pops + 1) s
  | s => (s, pops)

/-- `src/std.c:1567-1572`. -/
def eatWhole (r : List Nat × Nat) : List Nat × Nat :=
  if r.1 = [46] then ([], r.2)
  else if r.1 = [46, 46] then ([], r.2 + 1)
  else r

/-- `while(amount > 2 && data[amount - 1] == '/') amount--`, `src/std.c:1577-1579` and 1592-1594. -/
def stripSlashes (s : List Nat) : List Nat :=
  if 2 < s.length ∧ s.getLast? = some 47 then stripSlashes s.dropLast else s
termination_by s.length
decreasing_by simp [List.length_dropLast]; omega

/-- One iteration of the loop `src/std.c:1574-1589`. -/
def popDirectory (s : List Nat) : List Nat :=
  let s := stripSlashes s
  match scanBack (· == 47) s (s.length - 1) with
  | some i => s.take (i + 1)
  | none => s

/-- The loop `src/std.c:1574-1589`. -/
def popDirectories : Nat → List Nat → List Nat
  | 0, s => s
  | n + 1, s => if s.length = 0 then s else popDirectories n (popDirectory s)

/-- `concatenate_file_paths`, `src/std.c:1550-1606`. -/
def concatenate (absolute relative : List Nat) : List Nat :=
  let r := eatWhole (eatFront 0 relative)
  let a := stripSlashes (popDirectories r.2 absolute)
  if r.1.length = 0 then a else a ++ 47 :: r.1

def isSlash (c : Nat) : Bool := c == 47 || c == 92

/-- The loop of `strip_file_extension` and `get_file_extension`, `src/std.c:1609-1615`: the index of the dot. -/
def findDot (s : List Nat) : Nat → Option Nat
  | 0 => none
  | i + 1 => if isSlash (s.getD i 0) then none else if s.getD i 0 = 46 then some i else findDot s i

/-- `strip_file_extension`, `src/std.c:1608-1617`. -/
def stripExtension (s : List Nat) : List Nat :=
  match findDot s s.length with
  | some i => s.take i
  | none => s

/-- `get_file_extension`, `src/std.c:1619-1627`. -/
def extension (s : List Nat) : List Nat :=
  match findDot s s.length with
  | some i => s.drop i
  | none => []

/-- `one_past_last_slash`, `src/std.c:1630-1636` and 1645-1651. -/
def onePastLastSlash (s : List Nat) : Nat :=
  match scanBack isSlash s s.length with
  | some i => i + 1
  | none => 0

/-- `strip_file_path`, `src/std.c:1629-1641`: the file name. -/
def stripFilePath (s : List Nat) : List Nat := s.drop (onePastLastSlash s)

/-- `strip_file_name`, `src/std.c:1644-1655`: the directory. -/
def stripFileName (s : List Nat) : List Nat := s.take (onePastLastSlash s)

end Verif.Path
