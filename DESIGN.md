# Formal model of PyWavelets in Lean 4

## 1. What is modelled, and how

The model is a set of small total functions that mirror the code branch by branch.
Every definition cites the file and lines it models.

| Layer | Lean module(s) | Code |
|---|---|---|
| checked C execution (bounds-checked reads and writes, checked `size_t` subtraction, fuelled loops) | `Verif/Model/C.lean` | the C language subset used by the kernels |
| convolution kernels, loop by loop | `Verif/Model/Conv.lean` | `c/convolution.template.c` |
| buffer lengths, levels | `Verif/Model/Common.lean` | `c/common.c` |
| per-level C drivers | `Verif/Model/Wt.lean` | `c/wt.template.c` |
| 1-D Python API | `Verif/Model/Dwt.lean` | `_dwt.py`, `_extensions/_dwt.pyx` |
| multilevel, SWT, MRA, n-D, packets, thresholds, filter banks, modes, CWT | `Verif/Model/*.lean` | the Python files of the same name |

* **Samples** live in an arbitrary module `M` over a commutative ring `R` of filter coefficients.
  `R = M = ℝ` gives real data; `R = ℝ, M = ℂ` gives complex data with real filters, which is
  what the templated C code does.  All arithmetic is exact, except in C61, C66 and C67, where it rounds.
* **Arrays** are `List M` (1-D).  n-D arrays are a shape together with an index function.
* **Exceptions** are values (`Except`).  A C read or write outside a buffer, a `size_t`
  subtraction that would wrap, and a loop that does not finish within its fuel are error values,
  so "the kernel returns `ok`" *is* memory safety, absence of wrap-around and termination.
* **Specifications** (`Verif/Spec/*.lean`) are written without reference to the model: signal
  extensions are functions `ℤ → M`, transforms are finite sums.

Module layout: `Verif/Spec` (specifications), `Verif/Model` (the code), `Verif/Proof` (helper lemmas),
`Verif/Props` (the property theorems, each followed by an `example` that meets its hypotheses).

## 2. Plan per property

| Id | Modelled | Proof |
|---|---|---|
| C01 | `downsampling_convolution` loop by loop, `dec_a/dec_d`, `dwt_single`, `dwt` | loop invariants relating the running sum to `Σ_{l<j} f[l]·ext(i-l)`; the kernel refines the sum |
| C02 | `downsampling_convolution_periodization` with `step`, `fstep` | same, with modular index invariant |
| C03 | all kernels in the checked C monad | consequence of the refinement theorems (`ok` results), explicit fuel bound |
| C04 | `dwt_buffer_length`, `dwt_coeff_len` | arithmetic |
| C05 | `upsampling_convolution_valid_sf(_periodization)`, `idwt` | kernel refinement, then sum re-indexing using the PR identities |
| C06 | `idwt` incl. `None` | kernel refinement; case analysis |
| C07 | as C01/C05 | naturality under linear maps of the specification sums |
| C08 | `wavedec`, `waverec` | induction on level with the trimming invariant |
| C09 | `wavedec`, `_check_level` | induction on level |
| C10 | `downcoef` | induction on level |
| C11 | `upsampling_convolution_full`, `upcoef` | kernel refinement, window arithmetic |
| C12, C13 | `size_log2`, `dwt_max_level`, `swt_max_level` | induction on the shift loop |
| C14–C16 | `swt`, `iswt` | kernel refinement with stride; phase decomposition, induction on level |
| C17 | as C05, C15, and the n-D and multilevel transforms | orthogonality gives adjointness; in n-D the sum over an array is the sum over its lines, axis by axis; levels by induction |
| C18–C20 | n-D arrays, `dwtn`, `idwtn`, `wavedecn`, `waverecn` | fibrewise reduction to 1-D, induction on axes and level |
| C21–C23 | shapes, slices, flat vectors | induction on level, interval arithmetic |
| C24 | `fswavedecn` | per-axis application of C08 |
| C25, C26 | `mra`, `mra2`, `mran` with their decimated and stationary transforms, `imra*` with a small heap for aliasing | naturality of the reconstruction under linear maps gives superposition; then C08/C15/C20/C46; negation for the in-place versions |
| C27, C28 | thresholding over an ordered field | case analysis |
| C29, C32 | `get_graycode_order`, `get_level` | induction |
| C30, C31 | packet tree as mutable tree, op histories | invariant by induction on operations |
| C33 | `pad` for signals and n-D arrays | equality with the extension window; n-D: induction on the axes, with the laws along lines as the only thing known about the extended array |
| C34 | `qmf`, `orthogonal_filter_bank`, table loader | sum re-indexing |
| C35 | the coefficient tables as exact decimals | `decide +kernel` over the whole table, lifted by an error-bound lemma |
| C36 | guards of each function | case analysis |
| C37–C39 | `_utils.py`, `_Modes`, `Wavelet.__cinit__` | case analysis |
| C40 | `cwt` (convolution method) with the integrated wavelet as a parameter | length arithmetic, linearity |
| C41, C43 | `dwt`, `idwt`, `wavedec`, `waverec` with `axis` on n-D data, C axis drivers with strides | line by line reduction to the 1-D theorems |
| C42 | C axis drivers on arbitrary memory layouts (`downcoef_axis`, `idwt_axis`) | the result depends only on the logical array |
| C44 | the nine extension modes, `dwtn` | uniqueness: the documented laws determine the bi-infinite signal; n-D existence because extending along one axis is linear and keeps the laws of the other axes |
| C45 | `swt` with `axis`, `swtn`, `swt2`, `swt_axis` on n-D arrays | refinement of the C axis driver line by line, induction on axes and levels |
| C46 | `iswt` with `axis`, `iswtn`, `iswt2` with their loops over residue classes and parities | one residue class and one combination of parities is an n-D inverse DWT; sum over parities; induction on levels |
| C47 | `iswtn` returning the caller's dicts as well | induction on levels; witness for the failing case |
| C48 | the packet methods on the map from paths to nodes, the constructors with and without data | the invariant "the nodes form a tree no deeper than `maxlevel`" holds after every operation; induction on paths for assignment and on the depth for the walk over the leaves |
| C49 | as C48, `reconstruct` of packets without data | the tree after the assignments has the nodes of the original one, with data at the leaves; induction from the leaves; witnesses for odd lengths |
| C50 | `__reduce__` as a call of the constructor | history independence (C30); witnesses for axes, assigned nodes and packets without data |
| C51 | `wavedecn`, `wavedec2`, `swtn`, `swt2` and their inverses for arbitrary coefficients | the program computes the specification sums, which are natural in linear maps of the samples; linear combinations are a linear map of pairs |
| C52 | the formulas of `cwt.template.c` over the reals, `cwt_psi_single`, `ContinuousWavelet.wavefun` | each formula is a polynomial times an exponential; derivatives by a recursion on coefficient lists, moments by integration by parts, energies by Gaussian moments; documented formulas as separate specification |
| C53 | `ContinuousWavelet.__cinit__` with the regular expression as a scanner, `continuous_wavelet`, `__reduce__` | the scanner on a concatenation of numbers and separators; the name table by evaluation; witnesses for signs, leading dots, exponents, zero frequencies |
| C54 | as C03, C05, C10, C24, C26 | perfect reconstruction says that a product of two 2×2 matrices of filters is the identity; over a commutative ring the product in the other order is too, which gives the biorthogonality relations; then dwt ∘ idwt is a convolution with a delta. n-D: axis by axis; levels by induction |
| C55 | `Wavelet.wavefun`, `get_keep_length`, `fix_output_length`, `get_right_extent_length`, `keep`, over the model of `upcoef` | the samples are the cascade (powers of the upsampling-and-filtering operator applied to a delta) as finitely supported functions on the integers; sums, residue class sums and inner products of translates are followed through one step of the cascade |
| C56 | `_integrate`, `integrate_wavelet`, `central_frequency` (the Fourier transform over ℂ), `scale2frequency`, `frequency2scale`, `cwt` from the wavelet object | `np.argmax` is the first maximum; conjugate symmetry of the transform of real samples puts the first peak into the lower half; C40 for the transform itself |
| C57 | polynomial signals (`IsPoly`), moments of filters; the window of samples of a coefficient (`InWindow`, `Interior`); the tables of all built-in wavelets | interior coefficients equal those of any bi-infinite signal that agrees on the window (induction over levels); polynomials are closed under filtering and resampling (binomial theorem); the moment conditions of all tables are checked by the kernel in exact integer arithmetic and transferred to ℝ |
| C58 | `wavedec`, `waverec` of C08/C09 | the same window lemma with a shifted bi-infinite signal; induction over the reconstruction loop with the set of influencing coefficients |
| C59 | a memory model: programs are trees of single memory operations (`Model/Heap`), blocks with an owner, NULL, freed, uninitialised and constant memory, allocations that fail as an oracle says; the C functions once more as such programs (`Model/HeapConv`, `Model/HeapWt`); threads as interleaved programs | each program refines the functional model (forward simulation, loop by loop); an invariant over schedules: every thread sees the memory it would see alone |
| C60 | the same, with wavelets made from tables and filter banks (`Model/HeapNames`) | the same simulation for an arbitrary oracle; the blocks a program holds are tracked exactly, so that leaks and double frees are excluded; evaluation of the failing cases |
| C61 | the kernels and the 1-D API on a type whose operations round (`Model/Float`); IEEE rounding to nearest as a function on the reals | a simulation between two runs of the kernels in two arithmetics (`Proof/Sim*`), which follows for each output the set of taps already added; instantiated with error bounds, with projections, with sign changes; sizes of the built-in filters by kernel evaluation |
| C62 | dtypes and casts of `dwt`, `idwt`, `downcoef`, `upcoef`, `swt`, `wavedec`, `waverec`, `iswt`, `dwtn`, `idwtn`, `iswtn`, `iswt2`, `coeffs_to_array`, `ravel_coeffs`, setting node data; a cast from complex to real applies `re` to the samples, a C function called with arrays of another dtype is an error | each function with dtypes is shown to be the function on values with a dtype attached, by induction over levels, axes and subbands; the dtypes are joined in a semilattice, decided over the whole table of dtypes |
| C63 | `wavedec`, `waverec`, `wavedecn`, `waverecn`, `threshold` as before | distances are energies of differences: linearity through naturality in the samples (pairs), energy preservation (C17) and surjectivity (C54); thresholding entry by entry, the best approximation by an exchange inequality summed over the entries; stability is the rounding analysis of C61 run with exact arithmetic and perturbed input |
| C64 | `swt`, `iswt`, `wavedec`, `waverec` as before; specification `Spec/Spin.lean` (`decimate`, `decimateAll`, `editAll`) | every array is read as its periodic continuation; one level of the à trous filter sampled at `r + 2^j·k` is one level of the decimated filter (induction over levels). For the inverse, the signal of offset `r` is embedded at the positions `r + 2^j·k`; one synthesis level of the embedded signal is one à trous synthesis level, and the embeddings of all offsets add up to `2^(l-j)` copies (induction over levels) |
| C65 | the coefficient tables (C35), `dwt`, `wavedec`, `waverec`; specification `Spec/NearOrth.lean` | the deviation of `idwt ∘ dwt` from the identity is a banded operator whose rows sum to at most `ε` (C35); mirrored filters make it symmetric, so the columns do too, and the Schur test bounds it in the Euclidean norm. Adjointness of analysis and synthesis turns this into energy bounds; levels by induction, edits by linearity and the triangle inequality |
| C66 | `swt`, `iswt` and the scaling of the filters on the type of C61, with rounded products and halves; specification `Spec/FloatSwt.lean` | the simulation of C61; the taps inserted by the à trous upsampling are zeros, so a product with one is 0 exactly and adding it changes nothing (rounding keeps machine numbers); level by level for the inverse, whose exact counterpart is within the reconstruction error of the signal; sizes of the built-in filters as in C61 |
| C67 | `dwtn`, `idwtn`, `dwt2`, `idwt2`, `wavedecn`, `waverecn`, `wavedec2`, `waverec2` on the type of C61; specification `Spec/FloatN.lean` | any relation between two sample types that the 1-D transform of each axis carries to its coefficients is carried through the n-D functions, keys, `None`s, cropping and errors included (`Proof/Sim*.lean`); instantiated with the error bound of C61 axis by axis and level by level. The exact inverse of the exact coefficients is within the reconstruction error of the array, shown for each axis in turn; sizes of the built-in filters as in C61 |
| C68 | `demo_signal`: names, checks of `n`, all twenty signals as vectors of reals with NumPy's rules for slices and broadcasting; lengths of `np.arange` with rounding; specification `Spec/Data.lean` | lengths step by step through the assignments; the number of times in any rounding from the error of each operation, in binary64 for powers of two and for the counterexamples by evaluating the IEEE rounding |
| C69 | the readers with the cache of `functools.cache` and writes to returned arrays | induction over the history |
| C70 | covers of the packet tree (`Cut`), with the packet model of C30 | induction over the cover, with the energy theorem C17 at every split; the leaf walk builds a cover |
| C71 | the transforms of C01, C09, C18, C20 with `Wavelet.inverse`; scalar products (`sprod`) | exchange of sums for one line, then induction over axes and levels; the cut to the signal length drops only products with nothing |
| C72 | the transforms of C63 and `threshold`; penalties (`penalty1`, `penalty0`) | one coefficient at a time (the proximal inequality), summed, and carried to signals by the isometry of C63 |
| C73 | `_check_level` with its warning (`Verif.Model.Warn`); windows of coefficients as in C58 | arithmetic of window ends; C58 for the equality in all modes |
| C74 | `swt` (C14) and `iswt` (C15) with `norm=True`, `inverse_filter_bank` (C71) | transpose of circular spread filtering by a shift of the sum, induction over the levels; least squares from the transpose and C17 |
| C75 | `swt` with its warning (`Verif.Model.NormWarn`), the built-in tables (C35) | energy of a spread filter from the autocorrelation of the signal; tables of squares checked by the kernel; the impulse as witness |
| C76 | `swt` (C14), `swt2` and `swtn` (C45) | energy and squared sum are split by every filter pair along every axis, induction over axes and levels |
| C77 | `swtn` and `swt2` with their warning (`Verif.Model.NormWarnN`), the built-in tables (C35) | case split over the argument forms; the bound of C75 on every line, summed over lines, axes and levels |
| C78 | `swtn`, `swt2`, `iswtn`, `iswt2` (C45, C46) | transpose of one line, summed over the lines of an axis, the axes, the subbands and the levels; then Pythagoras with the energy of C76 |
| C79 | `dwtn`, `wavedecn` (C12, C14) with the tables of C35 | energy of one line (C65) summed over the lines of an axis, then induction over the axes, the subbands and the levels |
| C80 | the packets of C30 with the tables of C35 | the energy bound of one decomposition (C65, C79), then induction over the cover of the tree as for C70 |
| C81 | `wavedecn`, `waverecn` with the tables of C35 | the synthesis is the transpose of the analysis (C71); Cauchy–Schwarz with the energy bound of C79 gives the norm of the synthesis; polarization of the same bound gives the round trip and the edits |
| C82 | `wavedec2`, `waverec2` | both are the cascades of `wavedecn` and `waverecn` with renamed subbands, for all modes; then C79 and C81 |
| C83 | `dwt`, `idwt`, `wavedec`, `waverec` in periodization | coefficients as sums over the periodic extension, on which a shift is a substitution; induction over the levels; a Haar signal as counterexample for odd shifts |
| C84 | `dwtn`, `wavedecn`, `wavedec2` of rolled arrays | rolls are operations on lines; along the same axis C83, along other axes matrices on different axes commute; induction over axes and levels |
| C85 | `Wavelet.symmetry`, `dwt`, `wavedec` of reversed signals | every extension mode commutes with reversal (case split on modes); symmetric filters by reflecting the sum; the tables of all wavelets flagged symmetric checked completely by the kernel |
| C86 | `dwtn`, `dwt2`, `wavedecn`, `wavedec2` of transposed arrays | an operation on the lines along an axis commutes with transposing, element by element; induction over axes and levels; for images analysis along two axes commutes (C19) |
| C87 | `swtn` of rolled arrays and `iswtn` of rolled coefficients | the filtering of a line with spread taps commutes with circular shifts; along other axes operations on lines commute; induction over axes and levels |
| C88 | `swtn` of transposed arrays and `iswtn` of transposed coefficients | an operation on the lines along an axis commutes with transposing (C86); induction over axes and levels |
| C89 | `waverecn` of transposed coefficients, any values | one level of synthesis commutes with transposing (as in C86), so does cutting the approximation to the shape of the details; induction over the levels |
| C90 | `idwtn` and `waverecn` of rolled coefficients, any values | periodized synthesis of a line doubles circular shifts; along other axes operations on lines commute; induction over axes and levels |
| C91 | `swt2` and `iswt2` of rolled and transposed images | from C87 and C88, the form of `swt2` and `iswt2` (C45, C46), and the fact that filtering along two axes commutes |
| C92 | packets of rolled and transposed data | the decompositions of a datum and of its rolled or transposed copy correspond part by part (C84, C86); induction over the path, and C30's invariant for the histories |
| C93 | `waverec2` of rolled and transposed coefficients, any values | from C89, C90 and the closed form of `waverec2`; synthesis along two axes commutes, induction over the levels |

## 3. Trusted base

**Kernel and axioms.**  Every theorem is checked by the kernel of Lean 4.33.0.  No axiom is added; no
`sorry`, `native_decide`, `bv_decide`, `implemented_by` or `unsafe` occurs.  The only axioms used are
Lean's own `propext`, `Quot.sound` and `Classical.choice`; `AXIOMS.md` (generated by
`tools/axioms.py` from `#print axioms`) lists them for every property theorem.  Finite tables are
decided with `decide +kernel`, i.e. by reduction in the kernel.

**That the model is the code.**  The model is a hand translation; each definition cites the lines it
translates.  Nothing was run.  The following conventions are part of what has to be trusted:

* C loops are `loop cond body fuel`; the fuel is larger than the number of iterations and running out
  of it is an error value.  `size_t` subtraction that would wrap is an error value, except where the
  wrapped number is passed to an allocation (`idwt_buffer_length`), where it is the allocation that
  fails.  `size_t` addition and multiplication do not wrap (sizes fit in memory).
* Pointer arithmetic is a list index; reads and writes outside are error values.  Allocation, `free`,
  NULL, uninitialised memory and `const` are modelled in a second model of the C code (`Model/Heap*`),
  proved to agree with the first one (C59, C60).  There a block is a list of cells, one value each, and a
  freed block is never handed out again.
* NumPy: `np.zeros`, slicing, slice assignment with broadcasting, `reshape`, `swapaxes`, `np.pad`,
  `np.convolve`, `np.diff`, `np.roll`, fancy indexing, `np.unique` have hand-written models with their
  documented meaning.  `np.pad` is the behaviour of current NumPy; releases before 1.26 differ for
  `wrap`/`reflect` pads wider than the signal.
* Python dicts are association lists; object identity is modelled only where aliasing matters
  (`imra*`, packet trees).

**Modelled code** (functions with theorems)

| File | Functions |
|---|---|
| `_extensions/c/convolution.template.c` | all five convolution functions |
| `_extensions/c/wt.template.c` | `downcoef_axis`, `idwt_axis`, `dec_a/d`, `rec_a/d`, `idwt`, `swt_`, `swt_a/d` |
| `_extensions/c/common.c` | `size_log2`, the buffer lengths, `dwt_max_level`, `swt_max_level` |
| `_extensions/c/wavelets.c`, `wavelets_coeffs.template.h` | the discrete tables and their loading |
| `_extensions/_dwt.pyx`, `_swt.pyx` | everything; the dtype dispatch of the 1-D functions and of `dwt_axis`, `idwt_axis` in `Verif.Model.DType` |
| `_extensions/_pywt.pyx` | `_check_dtype` |
| `_extensions/_pywt.pyx` | `Modes`, `wname_to_code`, `wavelist`, `families`, `Wavelet.__cinit__`, filter banks, `__reduce__`, `wavefun`; `ContinuousWavelet`, `DiscreteContinuousWavelet` |
| `_dwt.py`, `_multidim.py`, `_multilevel.py`, `_mra.py`, `_utils.py` | all functions |
| `_swt.py` | all functions |
| `_thresholding.py` | `threshold`, `threshold_firm` |
| `_wavelet_packets.py` | `get_graycode_order`, all node and packet classes |
| `_extensions/c/cwt.template.c`, `_extensions/_cwt.pyx` | all functions, over the reals |
| `_functions.py` | all functions |
| `_cwt.py` | all functions |
| `data/_wavelab_signals.py` | `demo_signal`; samples are exact, lengths rounded; NaN and infinities in samples are not modelled |
| `data/_readers.py` | the cache of the five readers; the contents of the files and the resampling in `nino` are not modelled |

**Not modelled**

* Floating point: overflow to infinity, NaN, signed zero, fused multiply-add, extended intermediate
  precision, rounding by casts.  Dtypes are modelled for C62 only; object arrays are not.  Rounding is
  modelled for `dwt`, `idwt`, `wavedec`, `waverec` (C61), `swt`, `iswt` (C66)
  and the one- and multi-level `n`-D and 2-D transforms and their inverses (C67); all other theorems are about exact
  arithmetic over a ring, an ordered field, `ℝ` or `ℂ`.
* The Python interpreter under threads (reference counts, the GIL around the Python layer).  The compiled
  functions, which run without the GIL, are modelled (C59); their steps interleave sequentially
  consistently, which `C59_no_data_race` justifies.
* `_doc_utils.py`, `conftest`, plotting, `__repr__`/`__str__`, deprecation
  warnings.

## 4. Where the code does not have a property

Each is proved as a negation with a witness; the property keeps a `_partial` theorem for the rest.

| Property | Behaviour | Theorem |
|---|---|---|
| C15 | `iswt` cannot invert an `swt` taken with `start_level > 0`: the start level is not recorded | `C15_start_level_not_inverted` |
| C21 | `wavedecn_shapes(level=None)` and `wavedecn(level=None)` use different default levels for wavelets of different lengths | `C21_shapes_default_level_disagree` |
| C22, C23 | a `None` detail array makes `coeffs_to_array` raise `AttributeError`, `ravel_coeffs` `ValueError` | `C22_missing_detail`, `C23_missing_detail` |
| C24 | axes that name one axis twice by different numbers are accepted by `fswavedecn` | `C24_repeated_axis_undetected` |
| C25 | without a level, `mran` and `mra2` with a stationary transform take the level from all extents, also those not transformed; an odd one makes it zero, and then `mran` raises `ValueError` | `C25_default_level_fails` |
| C26 | `imra2` and `imran` add in place into `mra_coeffs[0]` | `C26_imran_disturbs` |
| C27 | `threshold` soft with value <= 0, garrote with value = 0: a zero entry gives 0/0 | `C27_soft_undefined`, `C27_garrote_undefined` |
| C28 | `threshold_firm` restores large values only if one lies outside the first row of the index array | `C28_firm_wrong`, `C28_firm_undefined` |
| C31 | reading a missing child recomputes and overwrites an assigned sibling; `NodeND` does not trim odd sizes | `C30_assigned_data_lost`, `C31_reconstruct_nd_fails` |
| C32 | `get_level(0, order='freq')` returns an empty list | `C32_freq_level_zero` |
| C33 | `pad` with right width 0 in the modes smooth and antisymmetric; smooth extension of one sample; `pad([], 0, 'antisymmetric')` does not end | `C33_right_width_zero_fails`, `C33_smooth_single_fails`, `C33_empty_antisymmetric_hangs`, `C33_padn_right_width_zero_fails` |
| C35 | `dmey` is declared orthogonal but reconstructs only within 0.0067 | `C35_dmey_not_orthogonal` |
| C36 | `downcoef` does not terminate on one sample in the modes reflect and antireflect; `dwtn` does not check axis numbers beyond the dimension; parts `''` and `'ad'` are accepted; repeated axes by different numbers in `wavedecn` | `C36_downcoef_endless`, `C36_dwtn_axis_unchecked`, `C36_part_substring`, `C36_wavedecn_alias_accepted` |
| C38 | `Modes.from_object('modes')` returns something that is not a mode | `C38_attribute_accepted` |
| C39 | pickling or copying a custom `Wavelet` loses the flags | `C39_pickle_loses` |
| C40 | `cwt` ignores `axis` for 1-D data | `C40_axis_ignored` |
| C45 | `swtn` accepts levels that are not positive, `swt` does not | `C45_swtn_level_zero` |
| C46 | what `swtn` returns for level 0 is rejected by `iswtn` | `C46_level_zero_not_inverted` |
| C47 | when `iswtn` raises, the approximation is missing in the dict of that level | `C47_iswtn_error_loses_approx` |
| C49 | a packet rebuilt from its leaves does not know the sizes of the inner nodes: with odd sizes `reconstruct` raises `ValueError` or returns more samples than the original had | `C49_from_leaves_fails`, `C49_from_leaves_longer` |
| C50 | pickling a `WaveletPacket` forgets `axis` (the copy transforms the last axis) | `C50_axis_lost` |
| C50 | pickling keeps only the data of the root: assigned nodes are lost, and a packet built from its nodes comes back empty | `C50_assigned_lost`, `C50_leaves_lost` |
| C53 | in names, signs, a leading dot and exponents are skipped: `cmor.5-1` has the bandwidth 5, `cmor1e3` means bandwidth 1 and centre frequency 3 | `C53_number_formats` |
| C53 | a frequency that is zero is accepted in a name, but `wavefun` then raises `TypeError` | `C53_zero_frequency` |
| C53 | pickling or copying drops attributes (bounds, frequencies, order) set after creation | `C53_pickle_drops_edits` |
| C55 | a pickled or copied orthogonal wavelet loses the flag, and `wavefun` then returns five functions instead of three | `C55_pickle_changes_wavefun` |
| C56 | `cwt` with a discrete wavelet (`Wavelet` object or name, which its documentation accepts) raises `AttributeError` for `complex_cwt` | `C56_cwt_discrete_raises` |
| C56 | with an odd number of samples `2k+1` and the peak at `k` cycles, `central_frequency` returns `k+1` cycles | `C56_odd_peak` |
| C57 | `rbio3.1` declares `vanishing_moments_psi = 3`, but its analysis filter has one vanishing moment; `rbio5.5` declares 5 and has 4 (the numbers are those of the corresponding `bior` wavelet, whose analysis filter is the synthesis filter here) | `C57_rbio_misdeclared` |
| C60 | `Wavelet('haar')` dereferences NULL when its first allocation fails: `discrete_wavelet` uses the result of `discrete_wavelet(DB, 1)` unchecked | `C60_haar_null` |
| C60 | `Wavelet(name)` raises `ValueError("Invalid wavelet name.")` when memory is short, instead of `MemoryError` | `C60_wrong_exception` |
| C60 | `swt_axis` with more than one level ignores a failing allocation in the convolution and returns uninitialised arrays | `C60_swt_axis_unchecked` |
| C62 | `iswtn` and `iswt2` take the common dtype from the original approximation and the details of one level only: real details at a finer level drop the imaginary parts that came from complex details at a coarser level, single precision ones its precision | `C62_iswtn_drops`, `C62_iswtn_precision`, `C62_iswt2_drops` |
| C62 | `coeffs_to_array` and `ravel_coeffs` allocate with the dtype of the approximation and drop the imaginary parts of complex details | `C62_pack_drops` |
| C62 | `node[''] = other_node` looks up the dtype of the node object instead of its data, and so converts complex data to `float64` | `C62_set_node_drops` |
| C68 | every signal given by a formula in the time has `n + 1` samples for some `n`, e.g. 49: the length of `np.arange(1/n, 1 + 1/n, 1/n)` is rounded | `C68_one_too_many` |
| C68 | Piece-Regular and Piece-Polynomial raise for every `n` divisible by 5 (`f[-1::-1]` is the whole vector), Chirps for every `n > 15` not divisible by 8 and for `n < 8`, Riemann when rounding the root of `n` up leaves the vector (`n = 512`), HypChirps when `np.arange` gives one element too many (`n = 7`) | `C68_piece_length_partial`, `C68_piece_fails`, `C68_chirps_length_partial`, `C68_riemann_fails`, `C68_hypchirps_fails` |
| C69 | the readers return the cached array itself: what a program writes to it is returned by the next call | `C69_writes_leak` |
| C73 | the warning "all coefficients will experience boundary effects" is issued in cases where some do not | `C73_warning_overstates` |
| C75 | `swt(norm=True)` does not warn for `dmey`, whose energy is off by more than 0.2 per cent for an impulse; it warns for `bior1.1`, `rbio1.1` and orthogonal user banks, whose energy is kept | `C75_dmey_silent`, `C75_warning_overstates`, `C75_user_bank_warns` |

## 5. Testing the theorems against wrong programs

`seeded/LOG.jsonl` records every edit of the model that imitates a programming error, the theorems
that then fail to build, and the theorems that were added or tightened when an edit survived.
