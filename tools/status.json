{
 "C21": {
  "status": "partial",
  "note": "Explicit level: shapes and size agree for all arguments. level=None: agreement proved when all axes use filters of one length; for wavelets of different lengths the two functions disagree (C21_shapes_default_level_disagree proves it with a witness)."
 },
 "C25": {
  "status": "proved",
  "note": "mra, mra2 and mran with their decimated and stationary transforms, n-D, along any axes. The stationary forms assume a level of at least one; C25_default_level_fails shows that the default level can be zero and that mran then raises."
 },
 "C26": {
  "status": "partial",
  "note": "Proved for imra. False for imra2 and imran: they add in place into mra_coeffs[0] (C26_imran_disturbs proves that the first array changes and that a second call returns a different answer); C26_imran_partial states what does hold."
 },
 "C27": {
  "status": "partial",
  "note": "All modes proved for all data, thresholds and substitutes, except the value soft gives to a zero entry when value <= 0 and garrote gives to a zero entry when value = 0: there the code divides 0 by 0 (C27_soft_undefined, C27_garrote_undefined prove it)."
 },
 "C28": {
  "status": "partial",
  "note": "Proved when no entry is larger than value_high or some entry larger than value_high lies outside the first row. Otherwise false: C28_firm_wrong proves that the code then amplifies the large entries; C28_firm_undefined that value_high = value_low gives NaN at equality."
 },
 "C30": {
  "status": "proved",
  "note": "Trees with nothing assigned or deleted, as stated; 1-D, 2-D and n-D packets. C30_assigned_data_lost proves that data a user assigns to a node can be overwritten when a missing sibling is accessed."
 },
 "C31": {
  "status": "partial",
  "note": "Proved for WaveletPacket and WaveletPacket2D for all histories, sizes and modes. WaveletPacketND: proved when all sizes met are even (C31_reconstruct_nd_partial); for odd sizes the code raises (C31_reconstruct_nd_fails proves it)."
 },
 "C32": {
  "status": "partial",
  "note": "Proved for all levels in natural order (1-D, 2-D, n-D) and for levels >= 1 in frequency order (1-D, 2-D). At level 0 frequency order returns an empty list (C32_freq_level_zero proves it)."
 },
 "C38": {
  "status": "partial",
  "note": "Names, numbers, old aliases, idempotence and rejection of unknown strings and numbers proved. Not every string that is no mode name is rejected: from_object looks strings up as attributes, so e.g. 'modes' is accepted (C38_attribute_accepted proves it)."
 },
 "C39": {
  "status": "proved",
  "note": "C39_pickle_loses_properties proves in addition that pickling keeps name and filters but loses the orthogonal, biorthogonal, symmetry and family properties."
 },
 "C35": {
  "status": "proved",
  "note": "Filters as held in float and double precision; transform in exact arithmetic. Tolerances: 3e-16 haar/db/coif, 3e-11 sym, 2.1e-12 bior/rbio, 6.7e-3 dmey (double), 2e-7 (single). C35_dmey_not_orthogonal: the discrete Meyer wavelet is declared orthogonal but is not."
 },
 "C33": {
  "status": "partial",
  "note": "Proved for all signals and widths in seven of the nine modes. Smooth and antisymmetric: proved for right width >= 1 (smooth: two or more samples). With right width 0 pad raises for every signal (C33_right_width_zero_fails), and for one sample smooth pad is not the extension dwt uses (C33_smooth_single_fails). The same for arrays of any dimension. numpy.pad in its documented meaning; integer widths."
 },
 "C40": {
  "status": "proved",
  "note": "Data of any dimension, both methods; the integrated wavelet, its grid and the square root are arbitrary. Also the exact values and the agreement of the two methods. The returned frequencies are not modelled."
 },
 "C36": {
  "status": "partial",
  "note": "Decision theorems for dwt, idwt, downcoef, upcoef, swt, dwtn and rejection theorems for the n-D and multilevel functions (modes: C38; axis arguments: also C41, C43; levels: C09, C20). False in places, proved as negations: downcoef loops forever on one-sample signals in the modes reflect and antireflect (C36_downcoef_endless), dwtn does not check axis numbers beyond the dimension (C36_dwtn_axis_unchecked), repeated axes given by different numbers are not noticed (C36_wavedecn_alias_accepted), part '' and 'ad' are accepted (C36_part_substring)."
 },
 "C47": {
  "status": "partial",
  "note": "Proved for successful calls. False when the call raises: the approximation of the level is then missing in the caller's dict (C47_iswtn_error_loses_approx)."
 },
 "C46": {
  "status": "proved",
  "note": "start_level = 0 and level >= 1, as stated; level 0 is not inverted (C46_level_zero_not_inverted)."
 },
 "C49": {
  "status": "partial",
  "note": "Proved in 1-D, 2-D and n-D when every decomposed node has even sizes along the transformed axes (always so in periodization mode with sizes divisible by 2^maxlevel). False otherwise: C49_from_leaves_fails, C49_from_leaves_longer."
 },
 "C50": {
  "status": "partial",
  "note": "Proved for packets with data on the last axis (2-D: default axes) after read-only histories. False otherwise: C50_axis_lost, C50_assigned_lost, C50_leaves_lost. The wavelet is taken to be restored as it was."
 },
 "C53": {
  "status": "proved",
  "note": "For numbers written as digits with an optional fraction. C53_number_formats shows how other spellings are misread; C53_zero_frequency and C53_pickle_drops_edits record two more surprises."
 },
 "C55": {
  "status": "proved",
  "note": "C55_pickle_changes_wavefun shows that the orthogonal flag, which selects the form of the result, is lost by pickling."
 },
 "C56": {
  "status": "partial",
  "note": "False for cwt with discrete wavelets (C56_cwt_discrete_raises: AttributeError). C56_odd_peak: for an odd number of samples the highest frequency below one half is reported one cycle too high. The rest is proved."
 },
 "C57": {
  "status": "partial",
  "note": "False for rbio3.1 and rbio5.5, which declare more vanishing moments than their analysis filter has (C57_rbio_misdeclared); the theorems on the built-in wavelets exclude these two. The theorems on transforms hold for every wavelet."
 },
 "C59": {
  "status": "proved",
  "note": "dwt, idwt, swt, dwt_axis, idwt_axis and swt_axis for real dtypes, on shared wavelet objects and arrays that nobody writes to; any number of threads and calls, any interleaving of their memory operations, any failing allocations. The interpreter itself (reference counts, the GIL protecting the Python layer) is not modelled."
 },
 "C60": {
  "status": "partial",
  "note": "Proved for dwt, idwt, swt, dwt_axis, idwt_axis, swt_axis of one level, Wavelet(name) and Wavelet(name, filter_bank), for every pattern of failing allocations. False elsewhere: Wavelet('haar') dereferences NULL (C60_haar_null), Wavelet(name) raises ValueError instead of MemoryError (C60_wrong_exception), swt_axis of several levels returns uninitialised memory (C60_swt_axis_unchecked)."
 },
 "C61": {
  "status": "proved",
  "note": "For any rounding that satisfies the standard model of floating-point arithmetic; IEEE binary32 and binary64 with rounding to nearest are shown to. Each operation of the C source is rounded on its own, in the order of the source: no fused multiply-add, no extended precision. Infinities and NaN are excluded by an explicit no-overflow hypothesis."
 },
 "C62": {
  "status": "partial",
  "note": "Proved for dwt, idwt, downcoef, upcoef, swt, wavedec, waverec, iswt, dwtn and idwtn. False for iswtn and iswt2 (C62_iswtn_drops, C62_iswtn_precision, C62_iswt2_drops), coeffs_to_array and ravel_coeffs (C62_pack_drops), and for setting the data of a packet node to another node (C62_set_node_drops): they drop imaginary parts or precision. For these the _partial theorems give the cases where nothing is lost. Casts within the real or within the complex numbers are taken to keep values: their rounding is not modelled. Builds without C99 complex numbers are not modelled."
 },
 "C68": {
  "status": "partial",
  "note": "Names, checks of n, fixed lengths, means and magnitudes proved. The number of samples is n only for some n: exact conditions proved for Chirps, Piece-Regular, Piece-Polynomial, Riemann and HypChirps; the signals given by a formula have n or n+1 samples, n if n is a power of two. False in general: C68_one_too_many, C68_piece_fails, C68_riemann_fails, C68_hypchirps_fails."
 },
 "C69": {
  "status": "partial",
  "note": "Proved for histories without writes to returned arrays. False otherwise: C69_writes_leak."
 },
 "C70": {
  "status": "proved",
  "note": "C70_odd_size_fails shows that the divisibility hypothesis is needed."
 },
 "C71": {
  "status": "proved",
  "note": "C71_symmetric_not_adjoint shows that the claim does not extend to mode symmetric."
 },
 "C73": {
  "status": "partial",
  "note": "The limit and the conditions of the warnings are proved in full. The text of the warning is proved for the last level when 2^level >= F - 1 (C73_warning_true_partial) and false otherwise (C73_warning_overstates)."
 },
 "C75": {
  "status": "partial",
  "note": "The condition of the warning, the energy of all built-in wavelets up to their tolerance and the truth of the warning are proved. Where the message misleads (dmey silent; bior1.1, rbio1.1 and orthogonal user banks warned about) the theorems C75_dmey_silent, C75_warning_overstates and C75_user_bank_warns prove it."
 },
 "C77": {
  "status": "partial",
  "note": "The condition of the warning and the energy of all built-in wavelets up to their tolerance are proved for any number of axes. Missing: exact energy where there is no warning, which is false for dmey (C75_dmey_silent)."
 }
}