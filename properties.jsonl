{"id": "C01", "title": "dwt equals filtering the extended signal and keeping every second sample", "statement": "For every accepted signal x, wavelet and non-periodization mode, dwt returns (cA, cD) where cA[o] = sum_j dec_lo[j]*ext(2o+1-j) and cD likewise with dec_hi, ext being the documented bi-infinite extension of x for that mode (zero, constant, symmetric, reflect, periodic, smooth, antisymmetric, antireflect).", "quantifier": "all signals of any length >= 1 (>= 2 for reflect/antireflect), all even filter lengths including filters much longer than the signal, all eight modes, real or complex samples", "why_tests_cant": "The C code has four loops and a per-mode branch in three of them; the branches taken depend on the relation between signal length, filter length and output index, an unbounded set of combinations.", "anchors": ["pywt/_extensions/c/convolution.template.c:downsampling_convolution", "pywt/_extensions/c/wt.template.c:dec_a,dec_d", "pywt/_extensions/_dwt.pyx:dwt_single", "pywt/_dwt.py:dwt"]}
{"id": "C02", "title": "dwt in periodization mode is circular filtering of the even-padded signal", "statement": "In periodization mode dwt returns ceil(N/2) coefficients; coefficient o is sum_j f[j]*y[(F/2+2o-j) mod len(y)] where y is x, with its last sample repeated once if N is odd.", "quantifier": "all signals of length >= 1, all even filter lengths (shorter or longer than the signal)", "why_tests_cant": "Wrap-around may happen any number of times, on either side, depending on N and F.", "anchors": ["pywt/_extensions/c/convolution.template.c:downsampling_convolution_periodization", "pywt/_extensions/c/common.c:dwt_buffer_length"]}
{"id": "C03", "title": "The convolution kernels never touch memory out of bounds, never wrap an index and always terminate", "statement": "For every input the Python layer lets through, the C convolution kernels read only inside the signal and filter, write only inside the output buffer allocated for them, never evaluate a size_t subtraction below zero, and every loop terminates; the output buffer is filled completely.", "quantifier": "all N, F, steps used by the library, modes, and SWT filter strides", "why_tests_cant": "An out-of-bounds access usually goes unnoticed by a test, and no test run shows absence for all sizes.", "anchors": ["pywt/_extensions/c/convolution.template.c", "pywt/_extensions/c/wt.template.c", "pywt/_extensions/c/common.c"]}
{"id": "C04", "title": "Coefficient array lengths are what dwt_coeff_len promises", "statement": "len(cA) = len(cD) = dwt_coeff_len(N, F, mode) = floor((N+F-1)/2), or ceil(N/2) in periodization mode; dwt_coeff_len rejects N < 1 and F < 1.", "quantifier": "all N, F and modes", "why_tests_cant": "Quantifies over all lengths.", "anchors": ["pywt/_extensions/c/common.c:dwt_buffer_length", "pywt/_extensions/_dwt.pyx:dwt_coeff_len,dwt_single", "pywt/_dwt.py:dwt_coeff_len"]}
{"id": "C05", "title": "idwt inverts dwt in every mode", "statement": "If the filter bank satisfies the perfect-reconstruction identities then idwt(*dwt(x, w, mode), w, mode) starts with x; it has exactly len(x) samples when len(x) is even and one extra sample when odd, that extra sample being the extension of x (last sample repeated in periodization mode).", "quantifier": "all signals, all perfect-reconstruction filter banks of any even length, all nine modes", "why_tests_cant": "Requires agreement of two independent index conventions for all lengths and filters.", "anchors": ["pywt/_extensions/c/convolution.template.c:upsampling_convolution_valid_sf,upsampling_convolution_valid_sf_periodization", "pywt/_extensions/c/wt.template.c:idwt", "pywt/_extensions/_dwt.pyx:idwt_single", "pywt/_dwt.py:idwt"]}
{"id": "C06", "title": "idwt computes the upsampled synthesis convolution, and treats None as zeros", "statement": "Outside periodization, idwt(cA, cD)[n] is the sum over k of cA[k]*rec_lo[n+F-2-2k] + cD[k]*rec_hi[n+F-2-2k], has 2L-F+2 samples, and replacing None by an all-zero array of the same length does not change the result; unequal lengths or None for both are rejected with ValueError.", "quantifier": "all coefficient arrays, filters, modes", "why_tests_cant": "All lengths and all None combinations for arbitrary data.", "anchors": ["pywt/_extensions/c/convolution.template.c:upsampling_convolution_valid_sf", "pywt/_extensions/c/wt.template.c:idwt", "pywt/_extensions/c/common.c:idwt_buffer_length", "pywt/_dwt.py:idwt", "pywt/_extensions/_dwt.pyx:idwt_single"]}
{"id": "C07", "title": "dwt and idwt are linear and treat complex data as real and imaginary parts", "statement": "For fixed wavelet and mode, dwt(a*x+b*y) = a*dwt(x)+b*dwt(y) and idwt likewise; the transform of complex data is the transform of the real part plus i times the transform of the imaginary part.", "quantifier": "all equal-length signals, all scalars, all modes, arrays of any length", "why_tests_cant": "Universally quantified algebraic law.", "anchors": ["pywt/_dwt.py:dwt,idwt", "pywt/_extensions/c/convolution.template.c"]}
{"id": "C08", "title": "waverec inverts wavedec", "statement": "For every level the API accepts, waverec(wavedec(x, w, mode, level), w, mode)[:len(x)] == x exactly in exact arithmetic, and the result has at most one extra trailing sample.", "quantifier": "all signals, levels (including level 0 and levels beyond the recommended maximum), perfect reconstruction filter banks, modes", "why_tests_cant": "Odd intermediate lengths at any subset of levels trigger the trimming branch; the number of patterns is exponential in the level.", "anchors": ["pywt/_multilevel.py:wavedec,waverec"]}
{"id": "C09", "title": "wavedec returns level+1 arrays of predictable lengths", "statement": "wavedec returns [cA_n, cD_n, ..., cD_1] with n = level (or dwt_max_level when None); cD_j and cA_n have lengths obtained by iterating dwt_coeff_len, negative levels are rejected.", "quantifier": "all signals, wavelets, modes and levels", "why_tests_cant": "All levels and lengths.", "anchors": ["pywt/_multilevel.py:wavedec,_check_level"]}
{"id": "C10", "title": "downcoef gives the same coefficients as the full transform", "statement": "downcoef('a', x, w, mode, n) = wavedec(...)[0] at level n and downcoef('d', x, w, mode, n) = the cD_n entry; both are lists of the same length as that entry.", "quantifier": "all signals, levels >= 1, wavelets, and modes for which every intermediate length is accepted", "why_tests_cant": "Two separate code paths (iterated C calls with manual buffers vs Python loop).", "anchors": ["pywt/_extensions/_dwt.pyx:downcoef", "pywt/_dwt.py:downcoef", "pywt/_multilevel.py:wavedec"]}
{"id": "C11", "title": "upcoef reconstructs the contribution of one subband", "statement": "upcoef of level 1 is the zero-padded full upsampled convolution; with take=n it returns exactly n central samples; the sum of upcoef('a', cA, take=N) and upcoef('d', cD, take=N) equals x for (cA,cD)=dwt(x) in any non-periodization mode.", "quantifier": "all coefficients, levels, filters, take values", "why_tests_cant": "All lengths and levels.", "anchors": ["pywt/_extensions/_dwt.pyx:upcoef", "pywt/_extensions/c/wt.template.c:rec_a,rec_d", "pywt/_extensions/c/convolution.template.c:upsampling_convolution_full", "pywt/_dwt.py:upcoef"]}
{"id": "C12", "title": "dwt_max_level is the number of useful decomposition levels", "statement": "dwt_max_level(n, F) is the largest L with (F-1)*2^L <= n (0 if there is none, or if F <= 1), so at every accepted level j < L the data is at least as long as required; F < 2 is rejected at the Python level.", "quantifier": "all data lengths and filter lengths", "why_tests_cant": "Integer log2 by shifting must be right for all sizes.", "anchors": ["pywt/_extensions/c/common.c:size_log2,dwt_max_level", "pywt/_extensions/_dwt.pyx:dwt_max_level", "pywt/_dwt.py:dwt_max_level"]}
{"id": "C13", "title": "swt_max_level is the 2-adic valuation", "statement": "swt_max_level(n) is the largest L such that 2^L divides n; input_len < 1 is rejected; swt rejects exactly the levels above it and non-even lengths.", "quantifier": "all lengths", "why_tests_cant": "All sizes.", "anchors": ["pywt/_extensions/c/common.c:swt_max_level", "pywt/_extensions/_swt.pyx:swt_max_level,swt"]}
{"id": "C14", "title": "swt computes undecimated circular filtering at every level", "statement": "Every array returned by swt has the length of the input, and level-j coefficients are circular correlations of the level j-1 approximation with the filter dilated by 2^(j-1).", "quantifier": "all even-length inputs divisible by 2^level, all levels and filters", "why_tests_cant": "All lengths, levels, filter lengths.", "anchors": ["pywt/_extensions/_swt.pyx:swt", "pywt/_extensions/c/wt.template.c:swt_", "pywt/_extensions/c/convolution.template.c:downsampling_convolution_periodization", "pywt/_swt.py:swt"]}
{"id": "C15", "title": "iswt inverts swt", "statement": "iswt(swt(x, w, level), w) = x, for both output conventions (trim_approx) and with norm=True.", "quantifier": "all signals with 2^level | len(x), perfect reconstruction filter banks", "why_tests_cant": "All levels and phases.", "anchors": ["pywt/_swt.py:swt,iswt"]}
{"id": "C16", "title": "swt is shift-equivariant", "statement": "Circularly shifting the input of swt by any amount circularly shifts every output array by the same amount.", "quantifier": "all signals, all shifts, all levels", "why_tests_cant": "All shifts and lengths.", "anchors": ["pywt/_swt.py:swt", "pywt/_extensions/_swt.pyx:swt"]}
{"id": "C17", "title": "Energy is preserved for orthogonal wavelets", "statement": "For an orthogonal filter bank, in periodization mode with even lengths, sum|x|^2 equals the total of |c|^2 over everything dwt, dwt2 or dwtn returns; the same for wavedec, wavedec2 and wavedecn when 2^level divides the lengths; idwt, idwtn, waverec and waverecn preserve the energy of arbitrary coefficients; for swt with norm=True and trim_approx=True the total energy of all returned arrays equals that of x.", "quantifier": "all signals and arrays, axes, levels, all orthogonal filter banks", "why_tests_cant": "Exact identity over all inputs; tests see floats only.", "anchors": ["pywt/_dwt.py:dwt", "pywt/_swt.py:swt", "pywt/_multidim.py:dwtn", "pywt/_multilevel.py:wavedec", "pywt/_multilevel.py:wavedecn"]}
{"id": "C18", "title": "dwtn/idwtn round trip over any axes", "statement": "idwtn(dwtn(x, w, mode, axes), w, mode, axes) restricted to the shape of x equals x; the coefficient dict has exactly the 2^n keys over {a,d} of length n, all of the same shape, the transformed shape.", "quantifier": "arrays of any dimension and shape, any list of distinct axes, per-axis wavelets and modes", "why_tests_cant": "All dimensions, shapes and axis choices.", "anchors": ["pywt/_multidim.py:dwtn,idwtn", "pywt/_extensions/_dwt.pyx:dwt_axis,idwt_axis"]}
{"id": "C19", "title": "Separable transforms commute: the order of axes does not matter", "statement": "dwtn coefficients for a key depend only on which axis has which letter, wavelet and mode: applying the per-axis transforms in any order gives the same array; dwt2 is dwtn with cA=aa, cH=da, cV=ad, cD=dd.", "quantifier": "all arrays and axis permutations", "why_tests_cant": "All shapes and permutations.", "anchors": ["pywt/_multidim.py:dwt2,dwtn"]}
{"id": "C20", "title": "waverecn/waverec2 invert wavedecn/wavedec2", "statement": "For any level, waverecn(wavedecn(x)) restricted to the shape of x equals x.", "quantifier": "all shapes, axes, levels, per-axis wavelets and modes", "why_tests_cant": "Per-axis trimming at each level independently.", "anchors": ["pywt/_multilevel.py:wavedecn,waverecn,wavedec2,waverec2,_match_coeff_dims"]}
{"id": "C21", "title": "wavedecn_shapes predicts the shapes wavedecn returns", "statement": "For an explicit level, wavedecn_shapes(shape, w, mode, level, axes) equals the shapes of wavedecn's output; wavedecn_size is the total number of coefficients.", "quantifier": "all shapes, levels, wavelets, modes, axes", "why_tests_cant": "All shapes and levels.", "anchors": ["pywt/_multilevel.py:wavedecn_shapes,wavedecn_size,wavedecn"]}
{"id": "C22", "title": "coeffs_to_array / array_to_coeffs round trip without overlap", "statement": "array_to_coeffs(*coeffs_to_array(c)) returns c for every coefficient list produced by wavedec/wavedec2/wavedecn: each subband is stored in its own box, boxes are disjoint and inside the array.", "quantifier": "all levels, dimensions and shapes of decompositions", "why_tests_cant": "Box disjointness for all shapes and levels.", "anchors": ["pywt/_multilevel.py:coeffs_to_array,array_to_coeffs,_determine_coeff_array_shape"]}
{"id": "C23", "title": "ravel_coeffs / unravel_coeffs round trip", "statement": "unravel_coeffs(*ravel_coeffs(c)) returns c for every coefficient list; the flat vector has wavedecn_size elements and is a concatenation in order.", "quantifier": "all coefficient lists (wavedec, wavedec2, wavedecn formats)", "why_tests_cant": "All levels and shapes.", "anchors": ["pywt/_multilevel.py:ravel_coeffs,unravel_coeffs"]}
{"id": "C24", "title": "fswavedecn / fswaverecn round trip", "statement": "fswaverecn(fswavedecn(x, w, mode, levels, axes)) restricted to x.shape equals x, and coefficient blocks are located by the slices the result object reports.", "quantifier": "all shapes, per-axis levels", "why_tests_cant": "Per-axis level combinations and trimming.", "anchors": ["pywt/_multilevel.py:fswavedecn,fswaverecn,FswavedecnResult"]}
{"id": "C25", "title": "The multiresolution analysis sums to the signal", "statement": "imra(mra(x, w, level, transform)) = x, and likewise for mra2/imra2 and mran/imran: the arrays returned by mra, mra2 and mran have the shape of the data, each is the inverse transform of the coefficients with all other arrays set to zero, and they add up to x, for the decimated ('dwt', 'dwt2', 'dwtn') and the stationary ('swt', 'swt2', 'swtn') transforms. Modes other than periodization are rejected with a stationary transform; what the forward transform raises is passed on. The default level of the stationary forms is the largest that divides all extents.", "quantifier": "all signals and n-D arrays, axes, levels and wavelets accepted", "why_tests_cant": "Relies on linearity and perfect reconstruction together at every level.", "anchors": ["pywt/_mra.py:mra,imra", "pywt/_mra.py:mra2,imra2", "pywt/_mra.py:mran,imran"]}
{"id": "C26", "title": "imra functions do not disturb their input", "statement": "Summing a multiresolution analysis leaves the caller's arrays unchanged, so calling the function again yields the same answer.", "quantifier": "all coefficient lists, any number of calls", "why_tests_cant": "Aliasing/history property.", "anchors": ["pywt/_mra.py:imra,imra2,imran"]}
{"id": "C27", "title": "Thresholding modes obey their defining equations", "statement": "threshold with hard keeps entries with |x| >= t and replaces all others by the substitute; soft shrinks magnitudes to max(|x|-t,0) keeping sign/phase; garrote gives x - t^2/x; greater and less keep exactly the entries on the stated side; output has the input's length; an unknown mode is rejected.", "quantifier": "all data, all thresholds, all substitutes", "why_tests_cant": "All reals including equality with the threshold.", "anchors": ["pywt/_thresholding.py:threshold,soft,hard,nn_garrote,greater,less"]}
{"id": "C28", "title": "Firm thresholding interpolates between soft and hard", "statement": "threshold_firm maps |x| <= low to 0, |x| >= high to x itself, and interpolates linearly in between, is odd and never increases the magnitude.", "quantifier": "all data arrays and 0 <= low < high", "why_tests_cant": "All positions of large values in the array.", "anchors": ["pywt/_thresholding.py:threshold_firm"]}
{"id": "C29", "title": "Gray-code order visits each subband once, changing one letter at a time", "statement": "get_graycode_order(n) is a permutation of all words of length n over {a,d}, and consecutive words differ in exactly one position.", "quantifier": "all levels n >= 1", "why_tests_cant": "2^n words for every n.", "anchors": ["pywt/_wavelet_packets.py:get_graycode_order"]}
{"id": "C30", "title": "Wavelet packet nodes hold the iterated transform of the root data", "statement": "After any sequence of node accesses, decompositions and get_level calls on an unmodified tree, node[path].data is the iterated downcoef of the data along path, whatever was accessed before.", "quantifier": "all access histories, paths and signals", "why_tests_cant": "History-dependent lazy construction.", "anchors": ["pywt/_wavelet_packets.py:BaseNode,Node,WaveletPacket"]}
{"id": "C31", "title": "Wavelet packet reconstruction returns the original data from any expanded tree", "statement": "After any sequence of accesses on an unmodified packet, reconstruct(update=False) on the root returns the original data; for every complete set of leaves it inverts the decomposition.", "quantifier": "all expansion histories", "why_tests_cant": "Trees of all shapes.", "anchors": ["pywt/_wavelet_packets.py:BaseNode.reconstruct,Node._reconstruct,WaveletPacket.reconstruct"]}
{"id": "C32", "title": "get_level enumerates the nodes of one level in the requested order", "statement": "get_level(n, order) returns the 2^n nodes of level n exactly once, in natural (lexicographic) order or in Gray-code frequency order.", "quantifier": "all levels", "why_tests_cant": "All levels.", "anchors": ["pywt/_wavelet_packets.py:WaveletPacket.get_level,get_graycode_order"]}
{"id": "C33", "title": "pad produces the extension dwt uses internally", "statement": "pad(x, n, mode) equals the window [-n, N+n) of the bi-infinite extension of the mode, so dwt of the padded signal in zero mode has dwt's coefficients in the middle. For arrays of any dimension pad returns the box that pad_widths asks for of the array extended along all axes.", "quantifier": "all signals, arrays of any dimension, pad widths in all their forms, modes", "why_tests_cant": "Pad widths beyond several periods.", "anchors": ["pywt/_dwt.py:pad"]}
{"id": "C34", "title": "orthogonal_filter_bank and built-in constructions give perfect reconstruction", "statement": "If the scaling filter is orthonormal to its even shifts, the four filters derived from it (by orthogonal_filter_bank, qmf or the C table loader) satisfy the perfect reconstruction identities; inverse_filter_bank of a perfect-reconstruction bank is again one, and rbio is the reversed bior bank.", "quantifier": "all even-length scaling filters", "why_tests_cant": "All filters.", "anchors": ["pywt/_functions.py:qmf,orthogonal_filter_bank", "pywt/_extensions/c/wavelets.c:discrete_wavelet", "pywt/_extensions/_pywt.pyx:Wavelet.inverse_filter_bank"]}
{"id": "C35", "title": "Every built-in discrete wavelet reconstructs up to a stated tolerance", "statement": "For every built-in discrete wavelet the tabulated coefficients satisfy the perfect-reconstruction identities up to a stated tolerance, hence |idwt(dwt(x))[n]-x[n]| is bounded by tolerance times the largest extended sample, in exact arithmetic.", "quantifier": "the whole table of built-in wavelets, all signals and modes", "why_tests_cant": "Tests use a few signals; the bound is for all.", "anchors": ["pywt/_extensions/c/wavelets_coeffs.template.h", "pywt/_extensions/c/wavelets.c"]}
{"id": "C36", "title": "Invalid calls are rejected before any computation", "statement": "Empty input, level < 1 for downcoef/upcoef/swt, unknown modes, size-1 data with reflect/antireflect, bad axes, mismatched coefficient shapes raise errors; conversely every other call returns a value.", "quantifier": "all argument combinations", "why_tests_cant": "Full input space of the guards.", "anchors": ["pywt/_dwt.py", "pywt/_extensions/_dwt.pyx", "pywt/_multilevel.py:_check_level", "pywt/_extensions/_swt.pyx"]}
{"id": "C37", "title": "Single or per-axis wavelets and modes are expanded consistently", "statement": "A single wavelet or mode, or a one-element sequence, is used for all axes; a sequence of the right length is used elementwise; any other length is rejected.", "quantifier": "all axes tuples and sequences", "why_tests_cant": "All lengths.", "anchors": ["pywt/_utils.py:_wavelets_per_axis,_modes_per_axis"]}
{"id": "C38", "title": "Mode names, numbers and deprecated aliases resolve consistently", "statement": "Modes.from_object maps each documented name to a distinct valid number, is the identity on valid numbers, rejects numbers out of range, and deprecated aliases resolve to the mode of the same position.", "quantifier": "all names and integers", "why_tests_cant": "All integers.", "anchors": ["pywt/_extensions/_pywt.pyx:_Modes", "pywt/_extensions/c/common.h:MODE"]}
{"id": "C39", "title": "Wavelet construction from a filter bank", "statement": "Wavelet(filter_bank=...) accepts exactly the banks with four 1-D filters of the same positive length; an odd length is padded to even by a trailing zero; filter_bank then returns the stored filters and round-trips.", "quantifier": "all filter banks", "why_tests_cant": "All lengths.", "anchors": ["pywt/_extensions/_pywt.pyx:Wavelet.__cinit__", "pywt/_extensions/c/wavelets.c:blank_discrete_wavelet"]}
{"id": "C40", "title": "cwt returns one row per scale, each as long as the data, and is linear in the data", "statement": "For each accepted scale the convolution is differentiated and cropped to exactly len(data) samples, or the call is rejected; the map data -> row is linear.", "quantifier": "all data, scales and integrated wavelets", "why_tests_cant": "All lengths.", "anchors": ["pywt/_cwt.py:cwt"]}
{"id": "C41", "title": "A transform along an axis is the 1-D transform of every line", "statement": "dwt(x, w, mode, axis) of an n-D array applies the 1-D dwt to each line of x along the axis, and idwt(cA, cD, w, mode, axis) the 1-D idwt to each pair of lines; negative axes count from the end; an axis outside the array raises AxisError.", "quantifier": "arrays of every dimension and shape, every axis, wavelet and mode", "why_tests_cant": "the C driver computes line offsets from shapes and strides with divisions and modulos for every dimension; tests sample a few shapes", "anchors": ["pywt/_dwt.py:dwt", "pywt/_dwt.py:idwt", "pywt/_extensions/_dwt.pyx:dwt_axis", "pywt/_extensions/_dwt.pyx:idwt_axis", "pywt/_extensions/c/wt.template.c:downcoef_axis", "pywt/_extensions/c/wt.template.c:idwt_axis"]}
{"id": "C42", "title": "The memory layout of the input does not matter", "statement": "A transposed, sliced, reversed or broadcast view gives the same result as a C-ordered copy of it, and no memory outside the array is read.", "quantifier": "all shapes, strides (also negative and zero) and base offsets whose elements lie inside their memory, all axes, wavelets and modes", "why_tests_cant": "there are infinitely many stride patterns", "anchors": ["pywt/_extensions/_dwt.pyx:dwt_axis", "pywt/_extensions/c/wt.template.c:downcoef_axis", "pywt/_extensions/c/common.h:ArrayInfo"]}
{"id": "C43", "title": "The multilevel transform along an axis is the 1-D multilevel transform of every line", "statement": "wavedec(x, w, mode, level, axis) of an n-D array returns level+1 arrays whose lines along the axis are what 1-D wavedec returns for the lines of x; waverec along the axis applies 1-D waverec to the lines of any compatible coefficient arrays, and inverts wavedec up to the extra sample of an odd length; level=None uses dwt_max_level of the length along the axis; unacceptable levels, axes and lengths are rejected.", "quantifier": "arrays of every dimension and shape, every axis, level, wavelet with perfect reconstruction (round trip) or any wavelet, every mode", "why_tests_cant": "dimension, shape, axis and depth are unbounded", "anchors": ["pywt/_multilevel.py:wavedec", "pywt/_multilevel.py:waverec", "pywt/_dwt.py:dwt", "pywt/_dwt.py:idwt"]}
{"id": "C44", "title": "Each extension mode is exactly what its documentation says", "statement": "For every mode and every signal the mode is defined for, exactly one bi-infinite signal satisfies the documented laws (zeros outside, edge value repeated, mirrored with or without the edge sample, with a change of sign, through the edge value, along the edge slope, periodic), and dwt returns the filtered and downsampled values of that signal. For arrays exactly one function of integer coordinates satisfies the laws along all lines, and dwtn returns its filtered and downsampled values.", "quantifier": "all modes, all signals, all filters", "why_tests_cant": "Infinitely many positions, signals shorter than the filter need several reflections.", "anchors": ["pywt/_extensions/c/convolution.template.c", "pywt/_extensions/_pywt.pyx:_Modes", "doc/source/ref/signal-extension-modes.rst"]}
{"id": "C45", "title": "The stationary transforms of n-D arrays filter along each axis", "statement": "swt(x, w, level, start_level, axis, trim_approx, norm) of an n-D array, in any memory layout, returns arrays of the shape of x whose lines along the axis are what 1-D swt returns for the lines of x. swtn and swt2 return, from the coarsest level on, all subbands of each level, obtained from the previous approximation by undecimated circular filtering along one axis after the other. They succeed exactly when every transformed axis is a non-zero multiple of 2^(start_level+level) long; axes out of range, repeated axes and lengths that do not fit are rejected.", "quantifier": "arrays of every dimension and shape, every choice and order of axes, wavelets per axis, levels, start levels, both output conventions, norm on and off", "why_tests_cant": "dimension, shape, axes, levels and filters are unbounded", "anchors": ["pywt/_swt.py:swt", "pywt/_swt.py:swtn", "pywt/_swt.py:swt2", "pywt/_extensions/_swt.pyx:swt_axis", "pywt/_extensions/c/wt.template.c:downcoef_axis"]}
{"id": "C46", "title": "iswt, iswt2 and iswtn compute the separable inverse and invert the stationary transforms", "statement": "iswt along an axis applies 1-D iswt to every line of any coefficients of one shape. iswtn and iswt2 compute, for arbitrary coefficients, level by level the sum of all subbands filtered with the synthesis filters along every axis, halved once per axis; keys missing in a dict count as zeros; iswt2 gives what iswtn gives. iswt(swt(x)) = x, iswtn(swtn(x)) = x and iswt2(swt2(x)) = x for every positive level, all axes, wavelets per axis with perfect reconstruction, both output conventions, with and without norm.", "quantifier": "all arrays, axes, levels, wavelets, output conventions and norms", "why_tests_cant": "dimension, shape, axes, levels and filters are unbounded; iswt2 and iswtn are separate implementations", "anchors": ["pywt/_swt.py:iswt", "pywt/_swt.py:iswt2", "pywt/_swt.py:iswtn"]}
{"id": "C47", "title": "iswtn leaves the caller's coefficients as they were", "statement": "After iswtn(coeffs, wavelet, axes, norm) every dict in coeffs has the same items as before the call.", "quantifier": "all coefficients, wavelets, axes, norms; successful and failing calls", "why_tests_cant": "the dicts are modified during the call; every exit path matters", "anchors": ["pywt/_swt.py:iswtn"]}
{"id": "C48", "title": "Assigning and deleting nodes of a wavelet packet does what it says", "statement": "After any sequence of reads, decompositions, reconstructions, assignments and deletions, the nodes of a wavelet packet form a tree no deeper than maxlevel. wp[path] = v succeeds exactly for paths of valid letters not longer than maxlevel; afterwards wp[path].data is v, missing ancestors exist without data, and every other node is as before. del wp[path] removes exactly the node and everything below it. get_leaf_nodes() lists exactly the existing nodes without children, once each, from left to right; get_leaf_nodes(decompose=True) lists all nodes of level maxlevel. maxlevel=None means the dwt_max_level of the shortest transformed axis.", "quantifier": "all packets (1-D, 2-D, n-D), with and without data, all histories of operations, all paths and values", "why_tests_cant": "histories, paths and depths are unbounded", "anchors": ["pywt/_wavelet_packets.py:BaseNode.__setitem__", "pywt/_wavelet_packets.py:BaseNode.__delitem__", "pywt/_wavelet_packets.py:BaseNode.get_leaf_nodes", "pywt/_wavelet_packets.py:WaveletPacket", "pywt/_wavelet_packets.py:WaveletPacket2D", "pywt/_wavelet_packets.py:WaveletPacketND"]}
{"id": "C49", "title": "A wavelet packet can be rebuilt from its leaves", "statement": "Assign the data of the leaves of an unmodified wavelet packet, in any order, to a new packet created with data=None and the same wavelet, mode, axes and maxlevel: its reconstruct() returns the original data.", "quantifier": "all data, wavelets with perfect reconstruction, modes, axes, depths, read-only histories and orders of assignment", "why_tests_cant": "data, depth, the set of decomposed nodes and the order are unbounded", "anchors": ["pywt/_wavelet_packets.py:BaseNode.get_leaf_nodes", "pywt/_wavelet_packets.py:BaseNode.reconstruct", "pywt/_wavelet_packets.py:WaveletPacket.reconstruct", "pywt/_wavelet_packets.py:WaveletPacket2D.reconstruct", "pywt/_wavelet_packets.py:WaveletPacketND.reconstruct"]}
{"id": "C50", "title": "Pickling a wavelet packet keeps it", "statement": "pickle.loads(pickle.dumps(wp)) is a packet that answers every read as wp does.", "quantifier": "all WaveletPacket and WaveletPacket2D objects, whatever was done with them", "why_tests_cant": "data, axes and histories are unbounded", "anchors": ["pywt/_wavelet_packets.py:WaveletPacket.__reduce__", "pywt/_wavelet_packets.py:WaveletPacket2D.__reduce__"]}
{"id": "C51", "title": "The n-D multilevel transforms are linear, also for edited coefficients", "statement": "For fixed wavelets, modes, axes and level, wavedecn, wavedec2, swtn and swt2 of p*x + q*y are p times those of x plus q times those of y, array by array. waverecn, waverec2, iswtn and iswt2 accept arbitrary coefficients whose shapes fit together, return the sum over all subbands of the upsampled and filtered arrays, and are linear in them; the reconstruction is the sum of the reconstructions from the single arrays; details left out of a dict count as zeros.", "quantifier": "all data, coefficients with fitting shapes, wavelets, modes, axes, levels, factors p and q, and sets of left-out details", "why_tests_cant": "data, shapes, number of axes and levels are unbounded; edited coefficients are not the transform of any array", "anchors": ["pywt/_multilevel.py:wavedecn,waverecn", "pywt/_multilevel.py:wavedec2,waverec2", "pywt/_swt.py:swtn,iswtn", "pywt/_swt.py:swt2,iswt2"]}
{"id": "C52", "title": "The continuous wavelets are the documented functions", "statement": "ContinuousWavelet(name).wavefun(level, length) returns the requested number of samples, on an equidistant grid from lower_bound to upper_bound, of the documented function: gausN and cgauN are a constant times the N-th derivative of exp(-t^2) and exp(-it)exp(-t^2), with energy one and N vanishing moments; mexh has energy one and two vanishing moments; morl, cmorB-C, shanB-C and fbspM-B-C are the formulas of the documentation with the parameters of the name; each has the (Hermitian) symmetry of its family; the absolute value of cmor integrates to one; the means of morl and cmor are given exactly (they are not zero).", "quantifier": "all continuous wavelet names in any spelling, all positive parameters, all bounds, levels and lengths", "why_tests_cant": "parameters, bounds and sample counts are unbounded; energy and moments are statements about integrals", "anchors": ["pywt/_extensions/c/cwt.template.c", "pywt/_extensions/_cwt.pyx:cwt_psi_single", "pywt/_extensions/_pywt.pyx:ContinuousWavelet.wavefun", "doc/source/ref/cwt.rst"]}
{"id": "C53", "title": "Names of continuous wavelets mean what they say", "statement": "ContinuousWavelet(name) accepts exactly the listed names, in any case, and names of the families cmor, shan and fbsp that hold two, two and three numbers; the numbers become bandwidth and centre frequency (and order), whatever separates them; any other count, or an order that is not a positive integer, raises ValueError; a family without parameters means the announced default; pickling or copying an object as created returns an equal one; wavefun rejects requests for no samples.", "quantifier": "all names (strings), all decimal numbers in them, all levels and lengths", "why_tests_cant": "names and numbers are unbounded", "anchors": ["pywt/_extensions/_pywt.pyx:ContinuousWavelet", "pywt/_extensions/_pywt.pyx:cwt_pattern", "pywt/_extensions/c/wavelets.c:continuous_wavelet"]}
{"id": "C54", "title": "Coefficients are recovered from their reconstruction", "statement": "In periodization mode the transforms are bijections: for a perfect-reconstruction wavelet dwt(idwt(cA, cD)) is (cA, cD) for any two sequences of one length, and likewise dwtn after idwtn, wavedec after waverec, wavedecn after waverecn and wavedec2 after waverec2 return the coefficients they were given. In every other mode dwt(idwt(cA, cD)) has the same coefficients more than half a filter away from the ends, hence all of them for filters of length 2; near the ends they may differ for longer filters.", "quantifier": "all coefficient arrays of matching lengths, all perfect-reconstruction filter banks, modes, axes, levels", "why_tests_cant": "an exact identity over all coefficients and filter banks", "anchors": ["pywt/_dwt.py:dwt", "pywt/_dwt.py:idwt", "pywt/_multidim.py:idwtn", "pywt/_multilevel.py:waverec", "pywt/_multilevel.py:waverecn", "pywt/_multilevel.py:waverec2"]}
{"id": "C55", "title": "Sampled scaling functions and wavelets satisfy the equations that define them", "statement": "Wavelet.wavefun(level) returns, for every level from one on (a lower one raises ValueError), functions sampled on the grid 0, 1/2^level, 2/2^level, ... of the support of the wavelet, all of the length of the grid and zero at its ends: [phi, psi, x] for a wavelet flagged orthogonal, else [phi_d, psi_d, phi_r, psi_r, x]. At level one they are the filters times sqrt(2); the samples at the next level follow from the two-scale equations phi(x) = sqrt(2) sum rec_lo[k] phi(2x-k), psi(x) = sqrt(2) sum rec_hi[k] phi(2x-k). If the filters have the usual sums, phi has integral one, psi integral zero, and the translates of phi add up to one. For an orthogonal bank the translates of phi and psi are orthonormal at every level; for a perfect-reconstruction bank the functions for decomposition and reconstruction are dual.", "quantifier": "all wavelets (filter banks of even length), all levels, all grid points and all integer translates", "why_tests_cant": "levels and filter banks are unbounded; the equations hold at every grid point", "anchors": ["pywt/_extensions/_pywt.pyx:Wavelet.wavefun", "pywt/_extensions/_pywt.pyx:get_keep_length", "pywt/_extensions/_pywt.pyx:keep", "pywt/_extensions/_dwt.pyx:upcoef"]}
{"id": "C56", "title": "Integrals and central frequencies of wavelets, and the transform that uses them", "statement": "integrate_wavelet returns the cumulative sums of the sampled wavelet times the grid distance, together with the grid, and the integral ends at zero if the wavelet filter sums to zero. central_frequency returns the number of cycles at the first highest peak of the discrete Fourier transform of the samples (other than the mean), a peak in the upper half of the frequencies counting as the negative one, divided by the length of the interval; it is positive and defined for every precision from one on. scale2frequency and frequency2scale are inverse to each other. cwt with a continuous wavelet correlates with the integral of the conjugate wavelet on 1024 points and returns for each scale the central frequency over scale and sampling period; it rejects exactly the scales up to 1023/1024 over the length of the interval. cwt accepts Wavelet objects.", "quantifier": "all discrete and continuous wavelets, precisions, scales, sampling periods, data, axes and methods", "why_tests_cant": "precisions, scales, wavelets and data are unbounded", "anchors": ["pywt/_functions.py:integrate_wavelet", "pywt/_functions.py:central_frequency", "pywt/_functions.py:scale2frequency", "pywt/_functions.py:frequency2scale", "pywt/_cwt.py:cwt"]}
{"id": "C57", "title": "Wavelets with vanishing moments suppress polynomials", "statement": "If the high-pass analysis filter has p vanishing moments, every detail coefficient of wavedec, of every level and in every mode, whose samples are those of a polynomial of degree below p is zero, whatever the rest of the signal is; the interior approximation coefficients of a polynomial signal are again samples of a polynomial of the same degree; swt has the same property away from the ends. A constant signal has equal coefficients throughout in all modes but zero and antisymmetric, with zero details if the filter has a vanishing moment; in the modes smooth and antireflect straight lines have no details at all for two vanishing moments. Every built-in discrete wavelet has the number of vanishing moments that vanishing_moments_psi declares, up to rounding of its table, and low-pass filters that sum to sqrt(2).", "quantifier": "all wavelets, signals, modes, levels, coefficient positions, degrees and polynomials; all built-in discrete wavelets in both precisions", "why_tests_cant": "the polynomials, signal lengths, levels and positions are unbounded; a test checks a few polynomials on a few lengths", "anchors": ["pywt/_extensions/_dwt.pyx: dwt_single", "pywt/_multilevel.py: wavedec", "pywt/_swt.py: swt", "pywt/_extensions/c/wavelets.c: discrete_wavelet (vanishing_moments_psi)", "pywt/_extensions/c/wavelets_coeffs.template.h", "pywt/_extensions/_pywt.pyx: Wavelet.vanishing_moments_psi"]}
{"id": "C58", "title": "Coefficients depend only on the samples they look at, and influence only the samples around them", "statement": "Coefficient k of level j of wavedec depends only on the (F-1)(2^j-1)+1 samples ending at 2^j(k+1)-1 (in periodization mode at 2^j k + (F/2)(2^j-1)) when they all belong to the signal, not on the mode, the length or the rest of the signal, and moving these samples by s*2^j moves the coefficient by s. Conversely, outside periodization, sample n of waverec depends only on the coefficients k of level j with n < 2^j(k+1) and 2^j k <= n + (F-2)(2^j-1).", "quantifier": "all wavelets, pairs of signals or coefficient lists, modes, levels, positions and shifts", "why_tests_cant": "a dependency on another sample could occur for any signal length, level and position; a test changes a few samples of a few signals", "anchors": ["pywt/_multilevel.py: wavedec, waverec", "pywt/_extensions/c/convolution.template.c: downsampling_convolution, downsampling_convolution_periodization, upsampling_convolution_valid_sf"]}
{"id": "C59", "title": "Transforms in parallel threads give the results they give alone", "statement": "Threads that call dwt, idwt, swt and the axis-wise transforms at the same time, on wavelet objects and arrays that they share and nobody modifies, behave as if each ran alone: whatever the order of their memory operations, nothing undefined happens, no two threads ever access the same memory with one of them changing it, the shared wavelets and arrays stay as they are, each call returns what it returns sequentially in arrays of its own, a thread finishes after a number of its own steps that does not depend on the others, and no memory but the returned arrays remains.", "quantifier": "all numbers of threads, call sequences, wavelets, arrays, schedules and allocation failures", "why_tests_cant": "a test sees a few of the possible interleavings; races show up rarely and under other schedulers", "anchors": ["pywt/tests/test_concurrent.py", "pywt/_extensions/_dwt.pyx: dwt_single, dwt_axis, idwt_single, idwt_axis (with nogil)", "pywt/_extensions/_swt.pyx: swt, swt_axis", "pywt/_extensions/c/convolution.template.c", "pywt/_extensions/c/wt.template.c"]}
{"id": "C60", "title": "When memory runs out, calls raise and leak nothing", "statement": "If any allocations fail during dwt, idwt, swt, the axis-wise transforms or the creation of a wavelet, the call raises MemoryError (or RuntimeError where the C function reports failure); it never crashes, never reads or returns uninitialised memory, never frees memory twice or memory that is not its own, and every block it allocated is freed. A wavelet that was created holds its filters in both precisions, and deallocating it frees all of its memory.", "quantifier": "all patterns of failing allocations, all arguments, all wavelets by name or by filter bank", "why_tests_cant": "allocation failures cannot be provoked one by one in ordinary tests, and a leak or a use of freed memory has no visible effect", "anchors": ["pywt/_extensions/c/wavelets.c: blank_discrete_wavelet, discrete_wavelet, free_discrete_wavelet", "pywt/_extensions/c/wt.template.c: downcoef_axis, idwt_axis, swt_", "pywt/_extensions/c/convolution.template.c", "pywt/_extensions/_pywt.pyx: Wavelet.__cinit__, __dealloc__", "pywt/_extensions/_dwt.pyx", "pywt/_extensions/_swt.pyx"]}
{"id": "C61", "title": "Rounding errors of the transforms are small and predictable", "statement": "dwt, idwt, wavedec and waverec computed in floating point succeed exactly when they do in exact arithmetic, and unless a result overflows every computed coefficient or sample is within an explicit bound of the exact one: a few times the number of filter taps in units of the last place, relative to the largest sample. In particular idwt(dwt(x)) with any built-in wavelet gives x up to the tolerance of its coefficients plus 10240 units of roundoff relative to the largest sample. On complex data the result is, bit for bit, that of the real and of the imaginary part; a change of sign of the data changes nothing but the sign of the result.", "quantifier": "all signals of any length and values, all filter banks, all modes, all levels, all binary floating-point formats (any rounding with relative error at most u and absolute error at most u times the smallest normal number)", "why_tests_cant": "tests compare with a tolerance on a few signals; the worst case over all signals, wavelets and orders of rounding cannot be found by sampling", "anchors": ["pywt/_extensions/c/convolution.template.c", "pywt/_extensions/c/wt.template.c", "pywt/_extensions/_dwt.pyx: dwt_single, idwt_single", "pywt/_dwt.py: dwt, idwt", "pywt/_multilevel.py: wavedec, waverec"]}
{"id": "C62", "title": "Data types: nothing is dropped by conversions", "statement": "The dtype of a result is the one the documentation promises: single precision (and half) data gives single precision results, complex data gives complex results of the same precision, and everything else (integers, booleans, lists) is computed in double precision; long double data is reduced to double precision. Where arrays of different dtypes are combined (idwt, waverec, idwtn, iswt, iswtn, iswt2) the result is complex exactly if one of them is, and not less precise than any of them (up to double precision). No imaginary part is ever dropped on the way, and the values are those of the transform of the values. A list of complex numbers is either transformed as complex data (wavedec) or refused with TypeError, never truncated. The same holds for packing coefficients into arrays and for data stored in packet nodes.", "quantifier": "all arrays of every dtype (bool, every integer, half to long double, complex64 to complex256) and all sequences, every combination of dtypes of the coefficients, all wavelets, modes, levels and axes", "why_tests_cant": "tests try one dtype at a time; the combinations over all levels and subbands of a decomposition are unboundedly many, and a lost imaginary part shows only in some of them", "anchors": ["pywt/_extensions/_pywt.pyx: _check_dtype", "pywt/_dwt.py: dwt, idwt, downcoef, upcoef", "pywt/_extensions/_dwt.pyx", "pywt/_extensions/_swt.pyx: swt", "pywt/_multidim.py: dwtn, idwtn", "pywt/_multilevel.py: wavedec, waverec, coeffs_to_array, ravel_coeffs", "pywt/_swt.py: iswt, iswt2, iswtn", "pywt/_wavelet_packets.py: BaseNode.__setitem__"]}
{"id": "C63", "title": "Edited coefficients: how far the reconstruction moves", "statement": "With an orthogonal wavelet in periodization mode and lengths divisible by 2^level, two signals (arrays) are exactly as far apart, in the Euclidean distance, as their coefficients. Hence for any coefficients that replace those of a signal (same lengths, or same keys and shapes), waverec / waverecn succeeds and the squared error of the result is the squared change of the coefficients. Denoising by threshold (soft, hard, garrote; a positive threshold for each array or none) gives a signal of at most the energy of the original whose squared distance from it is at most the sum of the squared thresholds over the entries; soft denoising never moves two signals apart; hard thresholding gives the best approximation among all reconstructions from at most as many non-zero coefficients. For every wavelet and every mode, changing samples by at most e changes every coefficient of wavedec by at most e times the levels-th power of a number that depends only on the filters and the mode, changes no length and no outcome, and the same holds for changes of the coefficients and the samples waverec returns.", "quantifier": "all signals and arrays, all edits of the coefficients, all thresholds, all orthogonal filter banks and levels; for stability all filter banks, modes, levels, error bounds", "why_tests_cant": "the claims compare with every possible edit of the coefficients and every other choice of the same number of coefficients; a test can try only a few", "anchors": ["pywt/_multilevel.py: wavedec, waverec, wavedecn, waverecn", "pywt/_thresholding.py: threshold, soft, hard, nn_garrote", "pywt/_extensions/c/convolution.template.c"]}
{"id": "C64", "title": "The stationary transform holds the decimated transforms of all shifts, and its inverse averages them", "statement": "For every wavelet, every level l and every signal accepted by swt, taking every 2^j-th coefficient of level j of swt, starting with coefficient r, gives exactly the coefficients that wavedec in periodization mode returns for the signal rolled by -r, for every integer r and in both output conventions. Conversely iswt of any coefficient arrays of equal length, edited or not, equals the average over r = 0, ..., 2^l - 1 of waverec of the coefficients decimated with offset r, rolled by r. So editing stationary coefficients one by one (thresholding, shrinking, zeroing levels) and inverting is cycle spinning: the average over all shifts of doing the same edit with the decimated transform.", "quantifier": "all wavelets with filters of equal even length, all levels, all signals whose length is divisible by 2^l, all integer shifts, all elementwise edits depending on the level", "why_tests_cant": "A test compares a few signals and shifts; the claim ranges over all lengths, levels, shifts, filters and all edits, and an off-by-one in the phase of a single level of either transform breaks it only for some of them.", "anchors": ["pywt/_swt.py: swt, iswt", "pywt/_extensions/_swt.pyx: swt", "pywt/_multilevel.py: wavedec, waverec", "pywt/_extensions/c/convolution.template.c: downsampling_convolution_periodization, upsampling_convolution_valid_sf_periodization"]}
{"id": "C65", "title": "The built-in orthogonal wavelets keep energies and distances up to their tolerance", "statement": "The filters of the built-in orthogonal wavelets are rounded decimals, so none of them is orthogonal exactly. For every built-in wavelet that says it is orthogonal, with t the tolerance to which its family reconstructs (3e-16 for haar, db and coif in double precision), in periodization mode and for lengths divisible by 2^l: one level of dwt changes the energy of any signal by at most t times the energy; l levels of wavedec multiply energies and squared distances by a factor between (1-t)^l and (1+t)^l; waverec of any coefficients multiplies energy by at most (1+t)^l; waverec of coefficients edited in any way is away from the signal by at most sqrt((1+t)^l) times the change of the coefficients plus ((1+t)^l - 1) times the norm of the signal. For l*t <= 1 this is at most 2*l*t of the energy and of the norm.", "quantifier": "all built-in orthogonal wavelets in single and double precision, all real signals with length divisible by 2^l, all levels, all edits of the coefficients; the general theorems for all filter banks with mirrored filters that reconstruct up to some tolerance", "why_tests_cant": "A test measures the error on sample signals; the worst signal for a wavelet is not among them, and the bound must hold for all lengths and all numbers of levels at once.", "anchors": ["pywt/_extensions/c/wavelets_coeffs.template.h", "pywt/_extensions/c/wavelets.c: discrete_wavelet", "pywt/_dwt.py: dwt, idwt", "pywt/_multilevel.py: wavedec, waverec"]}
{"id": "C66", "title": "Rounding errors of the stationary transform are small and predictable", "statement": "swt and iswt computed in floating point succeed whenever they do in exact arithmetic and nothing overflows, return coefficients of the same format and lengths, and every coefficient or sample is within an explicit bound of the exact one. The bound of a level does not grow with the upsampling of the filters: only taps that are not inserted zeros contribute. With norm=True the same holds for the filters after their coefficients have been multiplied by 1/sqrt(2) and rounded. iswt(swt(x)) with any built-in wavelet over n levels has as many samples as x, and each is within 32^n (max|x| + 128 k) (t + 1248 n u) of x, where t is the tolerance of the stored coefficients, u the unit roundoff and k the smallest normal number.", "quantifier": "all signals with a length divisible by 2^n, all filter banks, all numbers of levels, start levels and both formats (trim_approx), all binary floating-point formats (any rounding with relative error at most u and absolute error at most u times the smallest normal number that leaves machine numbers alone), all built-in discrete wavelets", "why_tests_cant": "tests compare with a tolerance on a few signals; the worst case over all signals, wavelets, levels and roundings cannot be found by sampling", "anchors": ["pywt/_swt.py: swt, iswt, _rescale_wavelet_filterbank", "pywt/_extensions/_swt.pyx: swt", "pywt/_extensions/c/wt.template.c: swt_", "pywt/_extensions/c/convolution.template.c: downsampling_convolution_periodization"]}
{"id": "C67", "title": "Rounding errors of the multidimensional transforms are small and predictable", "statement": "dwtn, idwtn, dwt2, idwt2, wavedecn, waverecn, wavedec2 and waverec2 computed in floating point succeed whenever they do in exact arithmetic and nothing overflows, return the same keys and shapes, and every coefficient or sample is within an explicit bound of the exact one that depends only on the filters of the axes, the number of levels and the largest sample. With built-in wavelets, possibly another one for each axis, waverecn(wavedecn(x)) over k axes and n levels returns an array with every transformed axis rounded up to even length in which each sample of x is reproduced within 32^(nk) (max|x| + 128 m) (t + 620 n k u), where t is the tolerance of the stored coefficients, u the unit roundoff and m the smallest normal number.", "quantifier": "all arrays of any number of dimensions, all filter banks and modes per axis, all choices of axes, all numbers of levels, all binary floating-point formats (any rounding with relative error at most u and absolute error at most u times the smallest normal number), all coefficients for the inverses (None included), all built-in discrete wavelets", "why_tests_cant": "tests compare with a tolerance on a few images; the worst case over all arrays, wavelets, axes, levels and roundings cannot be found by sampling", "anchors": ["pywt/_multidim.py: dwtn, idwtn, dwt2, idwt2", "pywt/_multilevel.py: wavedecn, waverecn, wavedec2, waverec2", "pywt/_extensions/_dwt.pyx: dwt_axis, idwt_axis", "pywt/_extensions/c/wt.template.c: downcoef_axis, idwt_axis"]}
{"id": "C68", "title": "demo_signal returns the signal it documents", "statement": "demo_signal('list') returns exactly the names demo_signal accepts; names are compared without regard to case and any other name is rejected with ValueError. A length below one or not integral is rejected; all signals but Gabor (512 samples) and sineoneoverx (1024) require a length and these two reject it. For every length n >= 1 a signal has n samples. Piece-Regular and Piece-Polynomial have mean zero, the oscillating signals stay within their amplitudes.", "quantifier": "all strings, all int and float arguments n, all lengths n, all floating-point roundings", "why_tests_cant": "the tests use one length for each signal; the number of samples depends on divisibility, on roots and on rounding", "anchors": ["pywt/data/_wavelab_signals.py: demo_signal, _implemented_signals"]}
{"id": "C69", "title": "The sample data do not depend on what a program did before", "statement": "aero(), ascent(), camera(), ecg() and nino() return the data of their files, whatever calls came before and whatever the program did with the arrays it got.", "quantifier": "all histories of calls of the readers and of writes to returned arrays", "why_tests_cant": "tests compare a few entries of the first result; they do not go through histories", "anchors": ["pywt/data/_readers.py: aero, ascent, camera, ecg, nino"]}
{"id": "C70", "title": "Packets of orthogonal wavelets keep the energy in every choice of nodes that covers the tree", "statement": "With orthogonal filters, mode='periodization' and sizes divisible by 2**n, take any set of packet nodes of depth at most n that covers the tree once (one level, the leaves, a best basis). The energies of their data sum to the energy of the input, whatever nodes were read, decomposed or reconstructed (without update) before. The nodes that get_leaf_nodes() returns are such a set. This holds for WaveletPacket, WaveletPacket2D and WaveletPacketND, for real and complex data.", "quantifier": "all orthogonal filter banks, all arrays with such sizes, all covers of the tree and all histories of operations that assign and delete nothing", "why_tests_cant": "the number of covers grows doubly exponentially with the depth, and tests compare a few levels of a few signals in floating point", "anchors": ["pywt/_wavelet_packets.py: WaveletPacket, WaveletPacket2D, WaveletPacketND, BaseNode.__getitem__, BaseNode.get_leaf_nodes", "pywt/_extensions/c/wt.template.c: dec_a, dec_d"]}
{"id": "C71", "title": "Reconstruction with the inverse filter bank is the transpose of the decomposition", "statement": "Take any filter bank w, and let w' = Wavelet(filter_bank=w.inverse_filter_bank). In mode 'zero', and in mode 'periodization' when the extents are divisible by 2**level, idwt, waverec, idwtn and waverecn with w', cut to the shape of the data, are the transposes of dwt, wavedec, dwtn and wavedecn with w: the scalar product of the coefficients of x with any coefficients c equals the scalar product of x with the reconstruction of c. w need not be orthogonal nor allow perfect reconstruction. In mode 'symmetric' this is false.", "quantifier": "all filter banks of even length, all arrays, coefficients, levels and lists of distinct axes, with a wavelet and mode per axis", "why_tests_cant": "a test compares the two products for a few random vectors and wavelets; solvers that use the pair as an operator and its adjoint need the identity for every vector", "anchors": ["pywt/_dwt.py: dwt, idwt", "pywt/_multilevel.py: wavedec, waverec, wavedecn, waverecn", "pywt/_multidim.py: dwtn, idwtn", "pywt/_extensions/_pywt.pyx: Wavelet.inverse_filter_bank"]}
{"id": "C72", "title": "Thresholding orthogonal wavelet coefficients solves the penalised least-squares problem", "statement": "Orthogonal filters, mode 'periodization', extents divisible by 2**level. Decompose x, threshold the coefficient arrays with pywt.threshold (a positive threshold t per array, or none) and reconstruct. With mode 'soft' the result is the one and only minimiser of ||z - x||^2 + 2 * sum of t |c| over the coefficients c of z, and any other z is worse by at least ||z - y||^2. With mode 'hard' it minimises ||z - x||^2 + sum of t^2 over the nonzero coefficients of z. Filling arrays with zeros instead gives the orthogonal projection: the closest signal whose coefficients in these arrays vanish.", "quantifier": "all orthogonal filter banks, signals, levels, thresholds and competitors z; soft and hard also for n-D arrays, any axes and a wavelet per axis", "why_tests_cant": "a test can compare the result with a few competitors, not with all signals", "anchors": ["pywt/_thresholding.py: threshold, soft, hard", "pywt/_multilevel.py: wavedec, waverec, wavedecn, waverecn"]}
{"id": "C73", "title": "The maximum level keeps one coefficient free of edge effects, and the warning about it is true", "statement": "At every level up to dwt_max_level at least one coefficient is free of edge effects: it is the same in all extension modes (other than periodization) for every signal. wavedec, wavedec2 and wavedecn warn exactly for levels above dwt_max_level of some transformed axis, never for level=None, and the warning does not change the result. The warning says that all coefficients will experience boundary effects: this is true of the last level if 2**level >= F - 1 for the filter length F, and false in general (for every F >= 4 it is issued for 2F - 3 samples at level 1, although coefficient F/2 - 1 is free of edge effects).", "quantifier": "all filter banks, signals, arrays, axes, modes and levels", "why_tests_cant": "tests check that a warning appears for a few lengths; whether its text is true is a statement about all signals and modes", "anchors": ["pywt/_multilevel.py: _check_level, wavedec, wavedec2, wavedecn", "pywt/_dwt.py: dwt_max_level"]}
{"id": "C74", "title": "iswt of edited coefficients is the signal whose stationary transform is closest to them", "statement": "With norm=True, iswt with the inverse filter bank (Wavelet.inverse_filter_bank) is the transpose of swt with trim_approx=True. Hence for an orthogonal wavelet, iswt of any coefficient arrays c of the right number and length is the unique signal y whose stationary transform is closest to c: for every signal z the squared distance of swt(z) to c is that of z to y plus that of swt(y) to c. So the reconstruction of edited coefficients is at most as far from the signal as the edited coefficients are from those of the signal.", "quantifier": "all filter banks (transpose) or all orthogonal filter banks (least squares), levels, signals whose length the level divides, and coefficient arrays of matching lengths", "why_tests_cant": "tests reconstruct unedited coefficients of a few signals; what happens to arrays that are not the transform of any signal must be settled for all of them", "anchors": ["pywt/_swt.py: swt, iswt", "pywt/_extensions/_swt.pyx: swt_axis, swt", "pywt/_extensions/_pywt.pyx: Wavelet.inverse_filter_bank"]}
{"id": "C75", "title": "What swt with norm=True says about energy is true", "statement": "swt with norm=True warns 'the wavelet is not orthogonal: the conditions for energy preservation are not satisfied' exactly if the wavelet is not flagged orthogonal, and the warning does not change the result. Without a warning, swt with trim_approx=True keeps the energy of the signal for every built-in wavelet up to 2*level*tolerance of its family. With a warning, the energy is really not kept: for every built-in wavelet it is issued for, except bior1.1 and rbio1.1, the impulse of any even length at least that of the filters gains at least 0.5 per cent. Findings: for dmey there is no warning although the impulse gains at least 0.2 per cent; bior1.1 and rbio1.1 (copies of the Haar wavelet) and every orthogonal filter bank given by the user cause the warning although the energy is kept.", "quantifier": "all built-in wavelets in both precisions, all user-made wavelets, all signals, lengths, levels and start levels", "why_tests_cant": "tests compare the energy for a few wavelets and signals and catch the warning for one wavelet; whether the message is true is a statement about all signals", "anchors": ["pywt/_swt.py: swt", "pywt/_extensions/c/wavelets.c: discrete_wavelet", "pywt/_extensions/_pywt.pyx: Wavelet.__cinit__"]}
{"id": "C76", "title": "The normalized stationary transforms conserve energy and partition the variance", "statement": "As the documentation of swt, swt2 and swtn says: with orthogonal wavelets, norm=True and trim_approx=True, the last approximation and all details together have the energy of the data, and their variances (numpy.var) add up to the variance of the data, for any number of levels, start level, axes and a wavelet per axis.", "quantifier": "all orthogonal filter banks, arrays of any number of dimensions, axes, levels and start levels", "why_tests_cant": "tests compare the sums for a few wavelets and random arrays", "anchors": ["pywt/_swt.py: swt, swt2, swtn"]}
{"id": "C77", "title": "What swtn and swt2 with norm=True say about energy", "statement": "swtn and swt2 warn exactly if norm=True is asked for and at least one of the wavelets given for the axes is not flagged orthogonal (whichever axis it is for); the warning does not change the result. Where there is no warning for built-in wavelets whose tables are exact up to tau, the energy of the approximation and all details (trim_approx=True) differs from the energy of the data by at most 2*d*l*tau of it, for l levels along d axes.", "quantifier": "all arrays, wavelets per axis, axes, levels, start levels, both precisions of the tables", "why_tests_cant": "tests check the warning for one biorthogonal wavelet and the energy for a few arrays", "anchors": ["pywt/_swt.py: swtn, swt2", "pywt/_extensions/c/wavelets_coeffs.template.h"]}
{"id": "C78", "title": "The n-D inverse stationary transforms solve the least-squares problem", "statement": "With norm=True, iswtn with the inverse filter banks is the transpose of swtn with trim_approx=True. Hence with orthogonal wavelets iswtn and iswt2 of arbitrary (say, thresholded) coefficients return the one array whose stationary transform is closest to these coefficients, and the reconstruction of edited coefficients is at most as far from the data as the edited coefficients are from the coefficients of the data.", "quantifier": "all filter banks per axis, arrays of any number of dimensions, axes, levels, and all coefficient arrays of the right shape", "why_tests_cant": "tests check round trips; an edited set of redundant coefficients is the transform of no array, so there is nothing to compare the result with", "anchors": ["pywt/_swt.py: swtn, swt2, iswtn, iswt2"]}
{"id": "C79", "title": "The built-in orthogonal wavelets keep the energy of arrays up to their tolerance", "statement": "With mode='periodization' and banks orthogonal up to eps on each of d axes, the subbands of dwtn have together between (1-eps)^d and (1+eps)^d times the energy of the array, and l levels of wavedecn between (1-eps)^(d*l) and (1+eps)^(d*l) times it, if the extents are multiples of 2^l. For the built-in wavelets flagged orthogonal, whose tables are exact up to tau, the energy changes by at most 2*d*l*tau of it.", "quantifier": "all real arrays of any number of dimensions, axes, a wavelet per axis, levels, both precisions of the tables", "why_tests_cant": "tests compare norms for a few wavelets and random arrays with a generous tolerance", "anchors": ["pywt/_multidim.py: dwtn", "pywt/_multilevel.py: wavedecn", "pywt/_extensions/c/wavelets_coeffs.template.h"]}
{"id": "C80", "title": "Packets of the built-in orthogonal wavelets keep the energy up to the tolerance of their tables", "statement": "With mode='periodization', a bank orthogonal up to eps and extents divisible by 2^n, the data of every choice of packet nodes of depth at most n that covers the tree once - in particular of the nodes returned by get_level and get_leaf_nodes - have together between (1-eps)^(d*n) and (1+eps)^(d*n) times the energy of the signal (d axes), for WaveletPacket, WaveletPacket2D and WaveletPacketND and after every history of reads, decompositions and reconstructions. For a built-in wavelet flagged orthogonal whose tables are exact up to tau the energy changes by at most 2*d*n*tau of it.", "quantifier": "all signals and arrays, covers of the tree, axes, histories that edit nothing, built-in orthogonal wavelets in both precisions", "why_tests_cant": "the number of covers grows doubly exponentially with the depth; tests look at one level of one random signal", "anchors": ["pywt/_wavelet_packets.py: WaveletPacket, WaveletPacket2D, WaveletPacketND, get_level, get_leaf_nodes"]}
{"id": "C81", "title": "Edited coefficients of arrays, for the built-in orthogonal wavelets", "statement": "With mode='periodization', banks orthogonal up to eps and extents divisible by 2^l along the d transformed axes: waverecn accepts coefficients of any values that have the layout of wavedecn(x, level=l), its result has the shape of x, and the energy of the result is at most (1+eps)^(d*l) times that of the coefficients. Squared distances of coefficients are between (1-eps)^(d*l) and (1+eps)^(d*l) times the squared distances of the arrays. The array rebuilt from edited coefficients is away from x by at most sqrt((1+eps)^(d*l)) times the change of the coefficients plus ((1+eps)^(d*l)-1) times the norm of x; without edits only the last term remains. For built-in wavelets flagged orthogonal with tables exact up to tau and d*l*tau <= 1, these are sqrt(1+2*d*l*tau) and 2*d*l*tau.", "quantifier": "all real arrays, axes, per-axis wavelets, levels, all edits of the coefficients, built-in orthogonal wavelets in both precisions", "why_tests_cant": "the worst edit for a wavelet is not among the samples of a test, and the bound must hold for all shapes, axes and levels at once", "anchors": ["pywt/_multilevel.py: wavedecn, waverecn", "pywt/_multidim.py: dwtn, idwtn", "pywt/_extensions/c/wavelets_coeffs.template.h"]}
{"id": "C82", "title": "Images: waverec2 is waverecn, and edited coefficients of images", "statement": "In every mode waverec2 of cA and triples (cH, cV, cD) returns the array that waverecn returns for cA and dicts with the same arrays under 'da', 'ad', 'dd'. With mode='periodization', banks orthogonal up to eps and sides divisible by 2^l: wavedec2 keeps the energy of an image up to the factors (1-eps)^(2l) and (1+eps)^(2l); waverec2 accepts coefficients of any values that have the layout of wavedec2(x, level=l), returns an array of the shape of x with at most (1+eps)^(2l) times their energy, and is away from x by at most sqrt((1+eps)^(2l)) times the change of the coefficients plus ((1+eps)^(2l)-1) times the norm of x. For built-in wavelets flagged orthogonal with tables exact up to tau and 2*l*tau <= 1 the factors are sqrt(1+4*l*tau) and 4*l*tau.", "quantifier": "all real images and arrays, pairs of axes, levels, all edits of the coefficients, built-in orthogonal wavelets in both precisions; the equality of waverec2 and waverecn for all modules, banks and modes", "why_tests_cant": "tests compare one decomposition and its inverse for sample images; the bound is for the worst edit of the worst image, at all sizes and levels", "anchors": ["pywt/_multilevel.py: wavedec2, waverec2, waverecn", "pywt/_multidim.py: dwt2, idwt2"]}
{"id": "C83", "title": "Circular shifts of the signal", "statement": "With mode='periodization': for a signal of even length, dwt of np.roll(x, 2c) is (np.roll(cA, c), np.roll(cD, c)), and idwt of both bands rolled by c is the result rolled by 2c. For a length divisible by 2^l, wavedec(np.roll(x, 2^l*c), level=l) is wavedec(x, level=l) with the approximation and the coarsest details rolled by c, and the details of each finer level rolled by twice as much as the level before; waverec of coefficients rolled in this way, of any values, is waverec rolled by 2^l*c. A shift by one sample has no such law: there is a signal whose approximation after the shift is no shift of the approximation.", "quantifier": "all signals over any module, filter banks of any even length, shifts (to either side), levels, coefficients", "why_tests_cant": "tests use a few signals without shifts; the law is for every bank, shift, length and level", "anchors": ["pywt/_dwt.py: dwt, idwt", "pywt/_multilevel.py: wavedec, waverec", "pywt/_extensions/c/convolution.template.c: downsampling_convolution_periodization, upsampling_convolution_valid_sf_periodization"]}
{"id": "C84", "title": "Rolled arrays in the decimated n-D transforms", "statement": "Let ax be a transformed axis with mode='periodization'; the wavelets, modes and extents of the other axes are free. If the extent along ax is even, every subband of dwtn(np.roll(x, 2c, ax)) is the subband of dwtn(x) rolled by c along ax. If it is divisible by 2^l, wavedecn(np.roll(x, 2^l*c, ax), level=l) and wavedec2 are the coefficients of x with the approximation and the coarsest details rolled by c along ax and the details of each finer level by twice as much as the level before. If ax is not transformed, wavedecn of the array rolled by any c is, for all modes and levels (given or default), the coefficients of x with every array rolled by c, and fails exactly when wavedecn(x) does.", "quantifier": "all arrays over any module, shapes, lists of axes, wavelets and modes per axis, shifts to either side, levels", "why_tests_cant": "tests use a few arrays without rolls; the law is for every shape, bank, mode of the other axes, shift and level", "anchors": ["pywt/_multidim.py: dwtn", "pywt/_multilevel.py: wavedecn, wavedec2"]}
{"id": "C85", "title": "Signals played backwards, and what symmetry == 'symmetric' promises", "statement": "Every built-in wavelet whose symmetry attribute is 'symmetric' has, in both precisions, decomposition filters that are exactly symmetric or antisymmetric, either both about the middle of the list (first kind) or half a sample after and before it (second kind). In every extension mode the extension of a reversed signal is the reversed extension. So with a wavelet of the first kind and a signal of even length dwt(x[::-1]) is (cA[::-1], -cD[::-1]) in every mode; with one of the second kind and odd length, in every mode except periodization, the approximation is cA[::-1] and the details without the last one are reversed. In general, a filter with f[s-j] = sigma*f[j] gives coefficient o of x[::-1] as sigma times coefficient o' of x whenever 2(o+o')+3 = N+s. wavedec with periodization, the first kind and length divisible by 2^l reverses all coefficient arrays and changes the sign of the details.", "quantifier": "all signals over any module, all nine modes, all banks with symmetric filters, all built-in wavelets flagged symmetric in both precisions, all levels", "why_tests_cant": "tests check the attribute as a string and no test reverses a signal; the law is for every signal, mode and length", "anchors": ["pywt/_extensions/c/wavelets.c: discrete_wavelet", "pywt/_extensions/_pywt.pyx: Wavelet.symmetry", "pywt/_dwt.py: dwt", "pywt/_multilevel.py: wavedec", "pywt/_extensions/c/convolution.template.c: downsampling_convolution"]}
{"id": "C86", "title": "Transposed arrays", "statement": "Let y = np.transpose(x, perm), and let the axes given for y be the same axes as those given for x, under their new numbers, in the same order, with the same wavelets and modes. Then every subband of dwtn(y) is the transposed subband of dwtn(x), and wavedecn(y), for all modes and levels (given or default), has every coefficient array transposed and fails exactly when wavedecn(x) fails. For images and one wavelet and mode: dwt2(x.T) is (cA.T, (cV.T, cH.T, cD.T)), horizontal and vertical details change places, and wavedec2(x.T) does the same at every level.", "quantifier": "all arrays over any module, shapes, permutations of the axes, lists of axes, wavelets and modes per axis, levels", "why_tests_cant": "tests compare transposes of a few 2-D arrays at most; the law is for every number of dimensions, permutation, mode and level", "anchors": ["pywt/_multidim.py: dwtn, dwt2", "pywt/_multilevel.py: wavedecn, wavedec2"]}
{"id": "C87", "title": "Stationary n-D transforms of rolled arrays", "statement": "Let y = np.roll(x, c, axis) for any integer c and any axis, transformed or not. Then swtn(y) has every coefficient array of swtn(x) rolled by the same c along the same axis, for all levels, start levels, per-axis wavelets, norm and both output conventions: no alignment of c is needed, unlike in the decimated transforms. Conversely, if all coefficient arrays given to iswtn (with any values, keys may be missing) are rolled by c along an axis, the result is rolled by c.", "quantifier": "all arrays over any module, numbers of dimensions, shapes that fit the level, shifts, axes, wavelets per axis, levels, edited coefficients", "why_tests_cant": "tests shift a few fixed arrays; shift invariance is a law for all arrays, shifts, axes and levels", "anchors": ["pywt/_swt.py: swtn, iswtn", "pywt/_extensions/c/wt.template.c: downcoef_axis", "pywt/_extensions/_swt.pyx: swt_axis"]}
{"id": "C88", "title": "Stationary n-D transforms of transposed arrays", "statement": "Let y = np.transpose(x, perm), and let the axes given for y be the same axes as those given for x under their new numbers, in the same order, with the same wavelets. Then every coefficient array of swtn(y) is the transposed coefficient array of swtn(x), for all levels, start levels, norm and both output conventions. Conversely, if all coefficient arrays given to iswtn (any values, keys may be missing) are transposed and the axes renumbered, the result is transposed.", "quantifier": "all arrays over any module, numbers of dimensions, shapes that fit the level, permutations of the axes, lists of axes, wavelets per axis, levels, edited coefficients", "why_tests_cant": "tests transform a few arrays along a few lists of axes; the law is for every permutation, number of dimensions and level", "anchors": ["pywt/_swt.py: swtn, iswtn", "pywt/_extensions/_swt.pyx: swt_axis"]}
{"id": "C89", "title": "Inverse transforms of transposed coefficients", "statement": "Take coefficients for waverecn with any values (edited, keys missing, approximations one sample longer than the details at a level), transpose all arrays by one permutation, and give the axes under their new numbers in the same order with the same wavelets and modes. Then waverecn succeeds for both and the result for the transposed coefficients is the transposed result. The same holds for idwtn, also with None values in the dict.", "quantifier": "all coefficient lists that fit together, over any module, number of dimensions, permutations of the axes, lists of axes, wavelets and modes per axis", "why_tests_cant": "tests invert a few unedited decompositions along a few axes; the law is for all coefficients, permutations and numbers of levels", "anchors": ["pywt/_multilevel.py: waverecn, _match_coeff_dims", "pywt/_multidim.py: idwtn"]}
{"id": "C90", "title": "Inverse transforms of rolled coefficients", "statement": "Take coefficients for idwtn or waverecn with any values (edited, keys missing). If all arrays given to idwtn are rolled by c along an axis, the result is rolled by 2c when the axis is transformed with mode='periodization', and by c when it is not transformed. For waverecn with l levels, if along a periodized axis the approximation and the coarsest details are rolled by c and the details of each finer level by twice as much as those before, the result is rolled by 2^l*c; along an axis that is not transformed a common roll of all arrays rolls the result. The axis must not be cut between levels; the modes and extents of the other axes are free.", "quantifier": "all coefficient lists that fit together, over any module, number of dimensions, integer shifts, axes, wavelets and modes per axis", "why_tests_cant": "tests invert a few unedited decompositions; the law is for all coefficients, shifts, axes and numbers of levels", "anchors": ["pywt/_multilevel.py: waverecn", "pywt/_multidim.py: idwtn", "pywt/_extensions/c/convolution.template.c: upsampling_convolution_valid_sf_periodization"]}
{"id": "C91", "title": "Stationary image transforms of rolled and transposed images", "statement": "swt2 of an image rolled by any number of samples along any axis has every coefficient array rolled in the same way, for all levels, start levels, norm and both output conventions; with one wavelet for both axes, swt2 of the transposed image has the approximations and diagonal details transposed, and the horizontal and vertical details transposed and exchanged. iswt2 of coefficients with any values obeys the same laws in the other direction.", "quantifier": "all images (also stacks with other axes) over any module, shapes that fit the level, shifts, axes, wavelets, levels, edited coefficients", "why_tests_cant": "tests shift or transpose a few images at most; the law is for all images, shifts and levels, and iswt2 has separate loops for 2-D data and for other data", "anchors": ["pywt/_swt.py: swt2, iswt2"]}
{"id": "C92", "title": "Wavelet packets of rolled and transposed data", "statement": "With mode 'periodization' and an extent that is a multiple of 2^l, the packet of data rolled by 2^l*c along a transformed axis has at every node of depth l the data of the same node of the packet of the original data, rolled by c; this holds for WaveletPacket, WaveletPacket2D and WaveletPacketND, and both packets have the same maximal level. For every mode, the packet of transposed data along the same axes (under their new numbers) has transposed data at every node; for WaveletPacket2D with both axes exchanged the letters h and v of the path are exchanged. What was read, decomposed or reconstructed before in either packet does not matter.", "quantifier": "all data over any module, filter banks, axes, paths of any length, shifts, permutations of the axes, and histories of reading operations on both packets", "why_tests_cant": "tests read a few nodes of a few signals; the law is for all data, paths, shifts and histories", "anchors": ["pywt/_wavelet_packets.py: WaveletPacket, WaveletPacket2D, WaveletPacketND, BaseNode.__getitem__", "pywt/_dwt.py: dwt", "pywt/_multidim.py: dwt2, dwtn"]}
{"id": "C93", "title": "Images from rolled and transposed coefficients", "statement": "waverec2 of coefficients with any values: along a transformed axis with mode 'periodization', rolling the approximation and the coarsest details by c and the details of every finer level by twice as much as those before rolls the image by 2^l*c. Transposing all coefficients and renumbering the axes transposes the image. Naming the two axes in the other order gives the same image if horizontal and vertical details are exchanged. With one wavelet and mode for both axes, transposing all coefficients and exchanging horizontal and vertical details transposes the image.", "quantifier": "all coefficient values over any module, numbers of levels, fitting shapes, filter banks, modes, axes, shifts and permutations of the axes", "why_tests_cant": "tests reconstruct a few images from unchanged coefficients; the law is for all edited coefficients, levels, shifts and permutations", "anchors": ["pywt/_multilevel.py: waverec2", "pywt/_multidim.py: idwt2, idwtn"]}
