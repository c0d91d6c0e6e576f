import Verif.Model.Float

/-!
# binary32 arithmetic with subnormal results replaced by zero

The library does not change the mode of the processor (`_mm_setcsr`, `fesetenv` do not occur in /repo/include). Programs that process
audio usually switch subnormal numbers off; the arithmetic of hiir/StageProcFpu.hpp:69-133 and hiir/StageProcSseV2.hpp:57-96 is then one
of the following two. Subnormal operands are used as they are; as no result is subnormal, these can only be input samples.
-/

namespace Panda

/-- Flush to zero as on x86 (bit FTZ of MXCSR): a result that is below `2^-126` after rounding to 24 bits becomes 0. Results from
`2^-126 (1 - 2^-25)` on are rounded to `2^-126` at least. (operations as in hiir/StageProcFpu.hpp:53-60) -/
def rndFtz (q : ℚ) : ℚ := if |q| < 2⁻¹ ^ 126 * (1 - 2⁻¹ ^ 25) then 0 else rnd32 q

/-- Flush to zero as on ARM (bit FZ of FPCR): a result that is below `2^-126` before rounding becomes 0. (operations as in hiir/StageProcFpu.hpp:53-60) -/
def rndFz (q : ℚ) : ℚ := if |q| < 2⁻¹ ^ 126 then 0 else rnd32 q

/-- binary32 with FTZ (x86). (operations as in hiir/StageProcFpu.hpp:53-60) -/
def binary32ftz : Format := { rnd := rndFtz, fits := binary32.fits }

/-- binary32 with FZ (ARM). (operations as in hiir/StageProcFpu.hpp:53-60) -/
def binary32fz : Format := { rnd := rndFz, fits := binary32.fits }

end Panda
