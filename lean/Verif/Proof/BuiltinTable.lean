import Verif.Proof.Builtin

/-! The check of all the tables by the kernel, and its consequences for `discrete_wavelet`. -/

namespace Pywt

open Finset Spec

set_option linter.unusedSectionVars false

/-- The orders of the `bior` and `rbio` families. -/
def biorOrders : List ℕ := [11, 13, 15, 22, 24, 26, 28, 31, 33, 35, 37, 39, 44, 55, 68]

theorem haar_double : entryCheck false .haar 0 = true := by decide +kernel
theorem haar_single : entryCheck true .haar 0 = true := by decide +kernel
theorem dmey_double : entryCheck false .dmey 0 = true := by decide +kernel
theorem dmey_single : entryCheck true .dmey 0 = true := by decide +kernel
theorem db_double : ((List.range 38).all fun k => entryCheck false .db (k + 1)) = true := by decide +kernel
theorem db_single : ((List.range 38).all fun k => entryCheck true .db (k + 1)) = true := by decide +kernel
theorem sym_double : ((List.range 19).all fun k => entryCheck false .sym (k + 2)) = true := by decide +kernel
theorem sym_single : ((List.range 19).all fun k => entryCheck true .sym (k + 2)) = true := by decide +kernel
theorem coif_double : ((List.range 17).all fun k => entryCheck false .coif (k + 1)) = true := by decide +kernel
theorem coif_single : ((List.range 17).all fun k => entryCheck true .coif (k + 1)) = true := by decide +kernel
theorem bior_double : (biorOrders.all fun k => entryCheck false .bior k && entryCheck false .rbio k) = true := by
  decide +kernel
theorem bior_single : (biorOrders.all fun k => entryCheck true .bior k && entryCheck true .rbio k) = true := by
  decide +kernel

end Pywt
