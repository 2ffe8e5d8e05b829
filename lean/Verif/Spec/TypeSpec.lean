import Verif.Model.TypeSpec

/-!
# Spec: the combinations of type specifiers of C11 6.7.2

The sets of type specifiers in paragraph 2 (without complex numbers), with the sizes of the target: `char` is signed,
`long` has 32 bits, `long double` is `double`. In addition the keywords `__int8` to
`__int64`, alone or with `signed` or `unsigned`.
-/

namespace Verif.Spec.TypeSpec

open Verif.TypeSpec (Ty)
open Verif.TypeSpec.Kw

def allowed : List (List Verif.TypeSpec.Kw × Ty) :=
  [ ([void], .void),
    ([char], .s8), ([signed, char], .s8), ([unsigned, char], .u8),
    ([short], .s16), ([signed, short], .s16), ([short, int], .s16), ([signed, short, int], .s16),
    ([unsigned, short], .u16), ([unsigned, short, int], .u16),
    ([int], .s32), ([signed], .s32), ([signed, int], .s32),
    ([unsigned], .u32), ([unsigned, int], .u32),
    ([long], .s32), ([signed, long], .s32), ([long, int], .s32), ([signed, long, int], .s32),
    ([unsigned, long], .u32), ([unsigned, long, int], .u32),
    ([long, long], .s64), ([signed, long, long], .s64), ([long, long, int], .s64), ([signed, long, long, int], .s64),
    ([unsigned, long, long], .u64), ([unsigned, long, long, int], .u64),
    ([float], .f32), ([double], .f64), ([long, double], .f64),
    ([Bool], .bool),
    ([int8], .s8), ([signed, int8], .s8), ([unsigned, int8], .u8),
    ([int16], .s16), ([signed, int16], .s16), ([unsigned, int16], .u16),
    ([int32], .s32), ([signed, int32], .s32), ([unsigned, int32], .u32),
    ([int64], .s64), ([signed, int64], .s64), ([unsigned, int64], .u64) ]

end Verif.Spec.TypeSpec
