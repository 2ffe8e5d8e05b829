/-!
# Model: the choice of the entry point (`src/main.c:4058-4092`, `src/main.c:5034-5182`, `src/main.c:3561-3612`)

Simplifications:
* Names are strings; the table of global declarations is a function `decls`.
* Loading and parsing the implicit file in front of `main` is reduced to its name; it
  defines `_start` (`/repo/implicit/*.c`).
-/

namespace Verif.EntryPoint

/-- `enum output_file_type` without `OUTPUT_FILE_unset`, for which `none` is used (`src/main.c:355-362`). -/
inductive FileType | exe | dll | obj | efi
  deriving DecidableEq, Repr

/-- `enum subsystem` (`src/cli.c:135-139`); 0 is `none`. -/
inductive Subsystem | console | windows | efiApplication
  deriving DecidableEq, Repr

/-- The command-line options that matter here (`src/cli.c:212-217`). `outExtension` is the file extension of
`-out`. -/
structure Options where
  dll : Bool := false
  obj : Bool := false
  outExtension : Option String := none
  noEntry : Bool := false
  entry : Option String := none
  subsystem : Option Subsystem := none

/-- A global declaration (`src/main.c:5079-5083`, `src/main.c:3566-3611`). `defined`: `assign_expr` is set. -/
structure Decl where
  isFunction : Bool
  defined : Bool
  argumentCount : Nat := 0
  isDllimport : Bool := false
  isStatic : Bool := false
  isIntrinsic : Bool := false
  isInlineAsm : Bool := false

/-- A row of the table (`src/main.c:5042-5049`). -/
structure Row where
  fileType : FileType
  subsystem : Subsystem
  name : String
  preMain : Option String := none
  preMainNoArgs : Option String := none
  preMainEnvp : Option String := none

/-- `src/main.c:5049-5062`. -/
def table : List Row :=
  [ ⟨.exe, .console, "_start", none, none, none⟩,
    ⟨.exe, .console, "main", some "implicit/pre_main.c", some "implicit/pre_main_no_args.c", some "implicit/pre_main_envp.c"⟩,
    ⟨.exe, .console, "wmain", some "implicit/pre_wmain.c", some "implicit/pre_wmain_no_args.c", some "implicit/pre_wmain_envp.c"⟩,
    ⟨.exe, .windows, "WinMain", some "implicit/pre_WinMain.c", none, none⟩,
    ⟨.exe, .windows, "wWinMain", some "implicit/pre_wWinMain.c", none, none⟩,
    ⟨.dll, .windows, "DllMain", none, none, none⟩,
    ⟨.efi, .efiApplication, "_start", none, none, none⟩,
    ⟨.efi, .efiApplication, "efi_main", none, none, none⟩,
    ⟨.efi, .efiApplication, "EfiMain", none, none, none⟩ ]

/-- `globals`, as far as it is set here. `attempted` is the list of names for the error message. -/
structure Globals where
  fileType : Option FileType
  subsystem : Option Subsystem
  noEntry : Bool
  entryPoint : Option String := none
  preMain : Option String := none
  attempted : List String := []
  deriving DecidableEq

/-- The errors that stop the compiler at once (`src/main.c:4061-4064`, `src/main.c:4087-4090`,
`src/main.c:5104-5112`). -/
inductive Error | dllAndObj | entryAndNoEntry | preMainMissing (file : String)
  deriving DecidableEq

/-- `src/main.c:4058-4080`, after the check for both options. -/
def outputType (o : Options) : Option FileType :=
  let t : Option FileType := none
  let t := if o.dll then some .dll else t
  let t := if o.obj then some .obj else t
  let t := match t, o.outExtension with
    | none, some e =>
      if e = ".exe" then some .exe
      else if e = ".dll" then some .dll
      else if e = ".obj" then some .obj
      else if e = ".efi" then some .efi
      else none
    | t, _ => t
  if t.isNone && o.noEntry then some .dll else t

/-- `src/main.c:4058-4092`. -/
def options (o : Options) : Except Error Globals :=
  if o.dll && o.obj then .error .dllAndObj
  else
    let t := outputType o
    let sub := if o.subsystem.isNone && t = some .dll then some .windows else o.subsystem
    if o.entry.isSome && o.noEntry then .error .entryAndNoEntry
    else .ok { fileType := t, subsystem := sub, noEntry := o.noEntry || t = some .obj }

/-- The checks at the start of the loop (`src/main.c:5066-5068`). -/
def allowed (o : Options) (g : Globals) (r : Row) : Bool :=
  (g.fileType.isNone || g.fileType = some r.fileType) &&
  (g.subsystem.isNone || g.subsystem = some r.subsystem) &&
  (o.entry.isNone || o.entry = some r.name)

/-- The file in front of `main` (`src/main.c:5083-5096`). -/
def preMainFile (r : Row) (argumentCount : Nat) : Option String :=
  let f := match argumentCount with
    | 0 => r.preMainNoArgs
    | 2 => r.preMain
    | 3 => r.preMainEnvp
    | 4 => r.preMain
    | _ => none
  if f.isNone then r.preMain else f

/-- The names for the error message (`src/main.c:5072-5075`). -/
def attempt (o : Options) (r : Row) (g : Globals) : Globals :=
  if allowed o g r then { g with attempted := g.attempted ++ [r.name] } else g

/-- An iteration of the loop (`src/main.c:5066-5151`). `none`: `continue`. `exists_`: the files that exist. -/
def tryRow (o : Options) (decls : String → Option Decl) (exists_ : String → Bool) (r : Row) (g : Globals) :
    Option (Except Error Globals) :=
  let found (pre : Option String) (name : String) : Option (Except Error Globals) :=
    some (.ok { g with fileType := some r.fileType, subsystem := some r.subsystem,
                       entryPoint := some name, preMain := pre })
  if !allowed o g r then none
  else if o.entry.isNone then
    match decls r.name with
    | none => none
    | some d =>
      if !d.defined || !d.isFunction then none
      else if r.preMain.isNone then found none r.name
      else
        match preMainFile r d.argumentCount with
        | none => found none r.name
        | some f =>
          if !exists_ f then some (.error (.preMainMissing f)) else found (some f) "_start"
  else found none r.name

/-- The loop (`src/main.c:5064-5152`). -/
def loop (o : Options) (decls : String → Option Decl) (exists_ : String → Bool) :
    List Row → Globals → Except Error Globals
  | [], g => .ok g
  | r :: rows, g =>
    match tryRow o decls exists_ r (attempt o r g) with
    | none => loop o decls exists_ rows (attempt o r g)
    | some x => x

/-- After the loop (`src/main.c:5154-5170`). -/
def afterLoop (o : Options) (g : Globals) : Globals :=
  let g :=
    if g.entryPoint.isNone then
      if o.entry.isSome then { g with entryPoint := o.entry }
      else if g.fileType = some .dll then { g with noEntry := true }
      else g
    else g
  if g.fileType.isNone then { g with fileType := some .exe } else g

/-- The default subsystem (`src/main.c:5174-5182`). -/
def defaultSubsystem (g : Globals) : Globals :=
  if g.subsystem.isNone then
    match g.fileType with
    | some .obj => g
    | some .exe => { g with subsystem := some .console }
    | some .dll => { g with subsystem := some .windows }
    | some .efi => { g with subsystem := some .efiApplication }
    | none => g
  else g

/-- From the options to the chosen entry point (`src/main.c:4058-4092`, `src/main.c:5034-5182`). -/
def choose (o : Options) (decls : String → Option Decl) (exists_ : String → Bool) : Except Error Globals := do
  let g ← options o
  if g.noEntry then .ok (defaultSubsystem g)
  else
    let g ← loop o decls exists_ table g
    .ok (defaultSubsystem (afterLoop o g))

/-- The check when all declarations are known (`src/main.c:5357-5405`, `src/main.c:3561-3612`): `false` if an error is
reported. -/
def accepted (g : Globals) (decls : String → Option Decl) : Bool :=
  if g.noEntry then true
  else
    match g.entryPoint with
    | none => false
    | some e =>
      match decls e with
      | none => false
      | some d =>
        if !d.isFunction then false
        else if d.isDllimport then false
        else if d.isStatic then false
        else if d.isIntrinsic then false
        else if d.isInlineAsm then false
        else if !d.defined then false
        else true

end Verif.EntryPoint
