import Verif.Lemmas.ModePoly

/-! # Minimal polynomials of the spin-adapted doubles on all occupation masks

Each statement is about a finite table and is checked by the kernel; `mCheck_sound` transfers it to
Fock space and to arbitrary orbital indices. -/

namespace SQ

theorem check1 : mCheck X1 [4] 16 = true := by decide +kernel
theorem check2 : mCheck X2 [2, 1] 64 = true := by decide +kernel
theorem check3 : mCheck X3 [2, 1] 64 = true := by decide +kernel
theorem check4 : mCheck (X45 1) [4, 8, 2, 1] 256 = true := by decide +kernel
theorem check5 : mCheck (X45 (-1)) [24, 6, 4, 9, 1] 256 = true := by decide +kernel

end SQ
