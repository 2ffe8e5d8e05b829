import Verif.Model.EntryPoint

/-!
# Spec: the canonical entry points, most preferred first

`-subsystem`'s help text (`src/cli.c:604-609`): `main` and `wmain` are console programs, `WinMain` and `wWinMain` are windows
programs. A program with `_start` needs no code in front of it. Dynamic libraries have `DllMain`, EFI applications
have `_start`, `efi_main` or `EfiMain`.
-/

namespace Verif.Spec.EntryPoint

open Verif.EntryPoint (FileType Subsystem)

def canonical : List (String × FileType × Subsystem) :=
  [ ("_start", .exe, .console), ("main", .exe, .console), ("wmain", .exe, .console),
    ("WinMain", .exe, .windows), ("wWinMain", .exe, .windows),
    ("DllMain", .dll, .windows),
    ("_start", .efi, .efiApplication), ("efi_main", .efi, .efiApplication), ("EfiMain", .efi, .efiApplication) ]

/-- Names that are started by code of their own, which is linked in front. -/
def needsStartCode : List String := ["main", "wmain", "WinMain", "wWinMain"]

end Verif.Spec.EntryPoint
