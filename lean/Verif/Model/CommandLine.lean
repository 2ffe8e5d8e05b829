/-!
# Model: splitting the command line, `src/windows.c:825-949`

Characters are bytes, as numbers. The output buffer is the list of the bytes written to it.
-/
namespace Verif.CommandLine

/-- `u8_is_whitespace_or_newline`, `src/std.c:957-969`. -/
def isSpace (c : Nat) : Bool := c == 32 || c == 9 || c == 11 || c == 12 || c == 10 || c == 13

/-- The length of the run of backslashes, `src/windows.c:866-870`. -/
def slashes : List Nat → Nat
  | 92 :: s => slashes s + 1
  | _ => 0

/-- What follows the run. -/
def afterSlashes : List Nat → List Nat
  | 92 :: s => afterSlashes s
  | s => s

theorem afterSlashes_length (s : List Nat) : (afterSlashes s).length ≤ s.length := by
  fun_induction afterSlashes s <;> simp_all
  omega

/-- `if(!in_argument) amount_of_arguments++`. -/
def begins (inArgument : Bool) : Nat := if inArgument then 0 else 1

/-- The loop of `windows_parse_command_line__internal`, `src/windows.c:853-921`, on the rest of the command line: the bytes
written and the number of arguments begun. The assertion `!in_quotes || in_argument` holds as `in_quotes` is only set
together with `in_argument`. -/
def loop (inQuotes inArgument : Bool) : List Nat → List Nat × Nat
  | [] => ([0], 0)
  | c :: s =>
    if c = 92 then
      let n := slashes s + 1
      let rest := afterSlashes s
      if rest.head? = some 34 then
        if n % 2 = 1 then
          let r := loop inQuotes true rest.tail
          (List.replicate (n / 2) 92 ++ 34 :: r.1, begins inArgument + r.2)
        else
          let r := loop inQuotes true rest
          (List.replicate (n / 2) 92 ++ r.1, begins inArgument + r.2)
      else
        let r := loop inQuotes true rest
        (List.replicate n 92 ++ r.1, begins inArgument + r.2)
    else if c = 34 then
      if inQuotes = false then
        let r := loop true true s
        (r.1, begins inArgument + r.2)
      else if s.head? = some 34 then
        let r := loop inQuotes inArgument s.tail
        (34 :: r.1, r.2)
      else loop false inArgument s
    else if isSpace c then
      if inQuotes then
        let r := loop inQuotes inArgument s
        (c :: r.1, r.2)
      else if inArgument then
        let r := loop inQuotes false s
        (0 :: r.1, r.2)
      else loop inQuotes inArgument s
    else
      let r := loop inQuotes true s
      (c :: r.1, begins inArgument + r.2)
termination_by s => s.length
decreasing_by
  all_goals simp_wf
  all_goals first
    | (have := afterSlashes_length s; omega)
    | omega

/-- `windows_parse_command_line__internal`. -/
def parse (commandLine : List Nat) : List Nat × Nat := loop false false commandLine

/-- The loop that fills `argv`, `src/windows.c:937-941`; `none` if it reads past the bytes written. -/
def argvLoop : Nat → List Nat → Option (List (List Nat))
  | 0, _ => some []
  | n + 1, buffer =>
    match buffer.dropWhile (· ≠ 0) with
    | [] => none
    | _ :: rest => (argvLoop n rest).map (buffer.takeWhile (· ≠ 0) :: ·)

/-- `windows_parse_command_line`, `src/windows.c:924-949`: the strings of `argv`. -/
def argv (commandLine : List Nat) : Option (List (List Nat)) :=
  argvLoop (parse commandLine).2 (parse commandLine).1

end Verif.CommandLine
