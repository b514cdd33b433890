/-!
# The table of wavelet names of `pywt/_extensions/wavelets_list.pxi`

Generated by `tools/gen_tables.py`.
-/

namespace Pywt

/-- `WAVELET_NAME` (wavelets_list.pxi L8-24, c/wavelets.h). -/
inductive Family
  | haar | rbio | db | sym | coif | bior | dmey | gaus | mexh | morl | cgau | shan | fbsp | cmor
  deriving DecidableEq, Repr

/-- `__wname_to_code` (wavelets_list.pxi L26-173). -/
def wnameToCode : List (String × Family × Nat) := [
  ("haar", .haar, 0),
  ("db1", .db, 1),
  ("db2", .db, 2),
  ("db3", .db, 3),
  ("db4", .db, 4),
  ("db5", .db, 5),
  ("db6", .db, 6),
  ("db7", .db, 7),
  ("db8", .db, 8),
  ("db9", .db, 9),
  ("db10", .db, 10),
  ("db11", .db, 11),
  ("db12", .db, 12),
  ("db13", .db, 13),
  ("db14", .db, 14),
  ("db15", .db, 15),
  ("db16", .db, 16),
  ("db17", .db, 17),
  ("db18", .db, 18),
  ("db19", .db, 19),
  ("db20", .db, 20),
  ("db21", .db, 21),
  ("db22", .db, 22),
  ("db23", .db, 23),
  ("db24", .db, 24),
  ("db25", .db, 25),
  ("db26", .db, 26),
  ("db27", .db, 27),
  ("db28", .db, 28),
  ("db29", .db, 29),
  ("db30", .db, 30),
  ("db31", .db, 31),
  ("db32", .db, 32),
  ("db33", .db, 33),
  ("db34", .db, 34),
  ("db35", .db, 35),
  ("db36", .db, 36),
  ("db37", .db, 37),
  ("db38", .db, 38),
  ("sym2", .sym, 2),
  ("sym3", .sym, 3),
  ("sym4", .sym, 4),
  ("sym5", .sym, 5),
  ("sym6", .sym, 6),
  ("sym7", .sym, 7),
  ("sym8", .sym, 8),
  ("sym9", .sym, 9),
  ("sym10", .sym, 10),
  ("sym11", .sym, 11),
  ("sym12", .sym, 12),
  ("sym13", .sym, 13),
  ("sym14", .sym, 14),
  ("sym15", .sym, 15),
  ("sym16", .sym, 16),
  ("sym17", .sym, 17),
  ("sym18", .sym, 18),
  ("sym19", .sym, 19),
  ("sym20", .sym, 20),
  ("coif1", .coif, 1),
  ("coif2", .coif, 2),
  ("coif3", .coif, 3),
  ("coif4", .coif, 4),
  ("coif5", .coif, 5),
  ("coif6", .coif, 6),
  ("coif7", .coif, 7),
  ("coif8", .coif, 8),
  ("coif9", .coif, 9),
  ("coif10", .coif, 10),
  ("coif11", .coif, 11),
  ("coif12", .coif, 12),
  ("coif13", .coif, 13),
  ("coif14", .coif, 14),
  ("coif15", .coif, 15),
  ("coif16", .coif, 16),
  ("coif17", .coif, 17),
  ("bior1.1", .bior, 11),
  ("bior1.3", .bior, 13),
  ("bior1.5", .bior, 15),
  ("bior2.2", .bior, 22),
  ("bior2.4", .bior, 24),
  ("bior2.6", .bior, 26),
  ("bior2.8", .bior, 28),
  ("bior3.1", .bior, 31),
  ("bior3.3", .bior, 33),
  ("bior3.5", .bior, 35),
  ("bior3.7", .bior, 37),
  ("bior3.9", .bior, 39),
  ("bior4.4", .bior, 44),
  ("bior5.5", .bior, 55),
  ("bior6.8", .bior, 68),
  ("rbio1.1", .rbio, 11),
  ("rbio1.3", .rbio, 13),
  ("rbio1.5", .rbio, 15),
  ("rbio2.2", .rbio, 22),
  ("rbio2.4", .rbio, 24),
  ("rbio2.6", .rbio, 26),
  ("rbio2.8", .rbio, 28),
  ("rbio3.1", .rbio, 31),
  ("rbio3.3", .rbio, 33),
  ("rbio3.5", .rbio, 35),
  ("rbio3.7", .rbio, 37),
  ("rbio3.9", .rbio, 39),
  ("rbio4.4", .rbio, 44),
  ("rbio5.5", .rbio, 55),
  ("rbio6.8", .rbio, 68),
  ("dmey", .dmey, 0),
  ("gaus1", .gaus, 1),
  ("gaus2", .gaus, 2),
  ("gaus3", .gaus, 3),
  ("gaus4", .gaus, 4),
  ("gaus5", .gaus, 5),
  ("gaus6", .gaus, 6),
  ("gaus7", .gaus, 7),
  ("gaus8", .gaus, 8),
  ("mexh", .mexh, 0),
  ("morl", .morl, 0),
  ("cgau1", .cgau, 1),
  ("cgau2", .cgau, 2),
  ("cgau3", .cgau, 3),
  ("cgau4", .cgau, 4),
  ("cgau5", .cgau, 5),
  ("cgau6", .cgau, 6),
  ("cgau7", .cgau, 7),
  ("cgau8", .cgau, 8),
  ("shan", .shan, 0),
  ("fbsp", .fbsp, 0),
  ("cmor", .cmor, 0)]

end Pywt
