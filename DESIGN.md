# Formal model of sweep-design in Lean 4: design

Target: `/repo` (sweep-design 0.3.1, Python). The properties are listed in `properties.jsonl` (C01...).
Status per property and theorem names: `MANIFEST.json`.

## 1. Architecture of the model

Two layers.

* **Value layer** (`Verif/Py`, `Verif/Model`): pure functions mirroring the Python functions branch by branch,
  exceptions as values (`Except Err`). Axis coordinates live in an arbitrary linearly ordered field `K` with floor
  (executable at `ℚ`, instantiated at `ℝ` where trigonometry is needed), y values in a field `V` that is an algebra
  over `K` (`ℚ`, `ℝ`, `ℂ`). numpy/scipy primitives that the code calls (linspace, diff, cumulative trapezoid,
  interp1d, convolve, correlate, rfft, irfft, unwrap, tukey ...) are modelled in `Verif/Py` with a comment that cites
  what they model; primitives the code treats as black boxes (quad, EMD, scipy spectrogram,
  random, max_len_seq) are *parameters* with an explicitly stated contract (mostly: the length of their result).
* **Heap layer** (`Verif/Heap`): Python objects as cells of a heap (axes with their lazily cached arrays, y arrays,
  relation objects with class, captured methods and cached spectrum/signal), API calls as
  `Heap → Except Err α × Heap` so that effects persist when an exception is raised. The methods of `Config` are an
  arbitrary record of functions, so the heap theorems hold for every override and for every number type
  (also IEEE floats). Used for aliasing, mutation, caching and history properties.

`Verif/Spec` holds the small independent specification vocabulary used in theorem statements (sums, nearest point,
evenly spaced array, ...). `Verif/Props/*` holds only the property theorems and their non-vacuity examples; helper
lemmas live in `Verif/Lemmas/*`.

## 2. Simplifications common to the value layer

* Exact arithmetic instead of IEEE floats: statements such as "size equals" are about the exact quotient. What rounding
  does to axes, to the step of an array, to time zero, to `select_data` and to the sizes of results is the subject of C92–C96, on a second model of
  these functions with a rounding after every operation (`Model/FloatAxis.lean`); real samples of relations follow in
  C103–C105 (`Model/FloatValues.lean`), the number of bits of m-sequences in C117 (`Model/FloatCodes.lean`), sweeps from
  arrays on an axis in C132 (`Model/FloatSweep.lean`), the axes of spectra in C133 (`Model/FloatSpectral.lean`).
* Operations whose numpy result would contain inf/nan (division by zero, 0**-1, ...) return `Err.nonFinite` in the
  model: numpy would warn and return non-finite numbers, which exact arithmetic cannot represent. What the methods of `Relation` do with
  such samples is the subject of C136, on a model with the special values of IEEE 754 (`Model/Special.lean`).
  `ZeroDivisionError`/`OverflowError`/`ValueError` from a zero sample is `Err.zeroDivision`.
* A scalar division by zero is `Err.zeroDivision`, as for Python numbers. If an operand is a numpy float, numpy warns and goes on with inf
  or nan. In most places the next step then raises anyway: `round` or `math.ceil` of it (`ArrayAxis.array`, the step of
  `get_array_axis_from_array`, the numbers of segments and of samples per segment in `get_shuffle`, the time axis of `spectrum2signal`).
  In two places it does not: `f_t_linear_function` returns non-finite values, and an array description of one value on a longer axis whose
  ends are numpy floats is taken as that value at the first time and 0 elsewhere (`_extract_x_t`; `C50_one_value` is about Python numbers).
* Arrays are one-dimensional lists, except in `Model/Tables` (samples of two dimensions, C150). Axes of complex numbers have their own model (`Model/ComplexAxis`, C148), for class `Relation`.
* Object identity: the value layer takes the result of `r1.x == r2.x` (object identity, as ArrayAxis has no `__eq__`)
  as an explicit Boolean; the heap layer computes it.

## 3. Per-property plan

| id | modelled by | proof |
|---|---|---|
| C01 | heap layer, axis objects with caches, arbitrary array-building function | invariant by induction over histories (cache, if filled, holds the current array) |
| C02, C03 | `Axis.array` via Python `round` and `linspace` | lemmas on half-even rounding; induction-free index computation |
| C04, C05 | `axisFromArray` | rounding lemmas; witness `7/10` for the rejection |
| C06 | `commonX` | min/max lattice laws |
| C07 | `Rel.init` | case analysis |
| C08 | expression language over all operations, evaluator | structural induction |
| C09 | setter histories over a relation | induction |
| C10, C11 | `Rel.selectData` | window of an arithmetic progression is contiguous; rounding bound `< 1/2` |
| C12 | `Rel.getItem` | argmin specification by induction |
| C13–C17 | `integrate`, `diff` | prefix-sum induction; rounding lemma for `round (q-1)` |
| C18 | `getNorm` | sums of squares |
| C19–C21 | `interp1d` | characterisation of `searchsorted` on sorted arrays |
| C22–C26 | `equalize`, `operation` | from C19/C20 |
| C27 | `Rel.shift` | direct |
| C28–C30 | `convolve`, `correlate` | Finset sums; Cauchy–Schwarz for the peak; rounding |
| C31 | class/operand dispatch | case analysis |
| C32–C35 | heap layer | preorder "old objects keep their data", preserved by every call; freshness |
| C36–C38, C41 | `rfft`, `irfft` over ℝ/ℂ | orthogonality of roots of unity; Hermitian symmetry |
| C39, C40, C45, C46 | `unwrap`, `arg`, amplitude/phase | induction on unwrap: corrections are multiples of 2π |
| C42, C43 | sizes of transforms | arithmetic |
| C44, C56, C66 | heap layer | induction over histories / computation on heaps |
| C47–C50, C55 | `UncalculatedSweep` model, quad/Hilbert as parameters | unfolding; interpolation lemmas |
| C51 | composition of the above | trapezoid rule exact on lines |
| C52 | tukey model over ℝ | trigonometric bounds |
| C53 | get_shuffle, shuffle = arbitrary permutation | convexity |
| C54 | get_norm scaling | C18 |
| C57, C58 | freq2time laws | cumulative sums/products |
| C59–C62 | code functions | induction over code/periods |
| C63 | soft_clip | `sin` concavity |
| C64, C65 | correction functions, EMD = arbitrary length-preserving function | loop bound by induction, axis arithmetic |
| C67 | `_get_spectrogram` | arithmetic on shapes |
| C68 | f_t functions | field arithmetic |
| C69–C71 | `rfft` and `reorderByTime` | reindexing of finite sums, Parseval for the half spectrum |
| C72 | `correctSweep` with a window | arithmetic of the rounded step |
| C73 | heap layer with the value layer's arithmetic (`exactPrims`) | simulation: heap program and value function return related results |

| C74 | `signalConvolve`, `signalCorrelate`, `getSpectrum` | product of polynomials at roots of unity |
| C75 | `hilbert` by the exact DFT, `getFT`, `getAT` | weights of `k` and `n-k` add up to 2; `unwrap` steps are at most π |
| C76 | `getDwellSweep` | C54, C55 and the taper of C52 |
| C77 | `getConvolutionSweepAndCode`, `signalShift` | shift theorem of the DFT, positions modulo `n` |
| C78 | `spectrum2signal` without a time axis | length of the inverse DFT |
| C79 | `Spectrum.get_signal` then `Signal.get_spectrum`, time axis from 0 | the given values, imaginary parts lost at both ends |
| C80 | `Signal.get_reverse_signal` | circular convolution written as a sum; cosine series of the pulse |
| C81 | `Signal.add_phase`, `Signal.sub_phase` with a signal on the same axis | unit factors; energy by Parseval; exact inverse |
| C82 | `get_IMFs_emd`, `get_IMFs_ceemdan` | heap layer: one construction per array, `Safe` for the rest; sum by induction |
| C83 | `ArrayAxis.copy`, `ArrayAxis.array` | direct runs of the heap model; witness with an operator |
| C84 | heap layer with `fourier` (y values in ℂ, a signal holds real ones) | simulation as for C73; real arithmetic embedded in complex arithmetic (`Lemmas/ToComplex`); which objects a call touches (`Heap/Only`) for the caches |
| C85 | every call of the heap layer | `Only` (which objects a program may write to) and `Stays` (an object stays as it is), one lemma per operation |
| C86 | operators and `add_phase` on signals and spectra | the two runs are computed step by step |
| C87 | every history of calls and edits | invariant `Paired`, one lemma per operation (`Pairs`) |
| C88 | relations with more or fewer samples than axis points | direct runs of the value model; C73 for objects |
| C89 | sweep and generator objects of the heap layer with `exactGen` | simulation as for C73 (`Heap/RefineSweep`); freshness of the stored arrays |
| C90 | `get_spectrogram` with scipy's defaults (`Model/Spectro`), exact DFT | entry formula; Parseval folded to one side; the affine law |
| C91 | `Sweep` under `defaultPrims` | evenly spaced times and frequencies always make an axis; C47, C51, C54 for the rest |
| C92 | `Axis.flArray` | for every rounding with bounded relative error; `fl64` proved to be one; counting by the distance to the nearest integer |
| C93 | `flAxisFromArray` | the noise in `1 / dx` stays below one half; witness: times in seconds since 1970 |
| C94 | `flReorderByTime` | C92 for all points but the one at zero; rotation of the transform |
| C95 | `flSelectData` | C92 for all points but those at the bounds; every stretch of the axis is accepted |
| C96 | `Axis.flIntegrate`, `flDiff`, `flShift`, `flMirror`, `flSignalTime` | the quotient stays within a quarter of the right integer |
| C97 | `scipyMls` (scipy's taps and ring buffer) | the register computes a linear functional on powers of the root of its polynomial; the order of the root is computed in the kernel for all 31 registers; counting |
| C98 | every history of calls and edits | `Yields`: a method that ends in a constructor returns its class; classes are kept by every `Safe` program |
| C99 | `Rel.pyGetItem`, Python's sequence protocol (`seqIter`) | C12 for every position |
| C100 | `getSpectrum`, `getSignal` on a given axis object | which axis a program returns (`Returns`); objects keep their axis (`Safe`) |
| C101 | `aprInfo`, `AprSweep.init`, `AprSweep.call` without normalisation | `interp1d` on the stretched times |
| C102 | `Rel.shift` against every other operation | translation of `linspace`, selection masks, sorting and `interp1d`; equalities of results including errors |
| C103 | `Rel.flInterpAxis`, `Rel.flOperation` | a sample point is found by counting, so no arithmetic happens there; factors `1 + d` for the five roundings of a slope |
| C104 | `Rel.flIntegrate`, `flDiff`, `flNorm`, `flConv` | `Close u k a b S`: `b` stands for `a` after `k` roundings; sums by induction on how they were put together |
| C105 | `Rel.flGetItem` | distances up to a factor `1 ± u`; the first minimum is the only one when the margin is kept |
| C106 | `aprObjects`, `aprioriInit`, `aprioriCall` after a history | the run of the constructor taken apart; `Le` for what later runs keep; C44 for the cached objects; C89 for the call |
| C107 | every operation of the value layer, the generators | positions multiplied by `c` carried through each definition; equalities of results including errors |
| C108 | `segmentFrequencies`, `risingCos`, `joinSegments`, `getShuffle` | entry of the joined list by induction on the segments; C50 for the stretching |
| C109 | every operation of the value layer but powers, the generators | the factor carried through each definition; equalities of results including errors |
| C110 | `simpleFreq2time`, `proportionalFreq2time`, `dwell`, `AprSweep.init`, `AprSweep.call` | C109 for spectra and norms; stretching of times that start at 0 forgets their scale |
| C111 | `Rel.selectData`, `Rel.operation`, `Rel.exp`, `Rel.diff`, `Rel.integrate`, `Rel.getItem` | a window is `k` consecutive samples from the `i`-th on, decided by the axis alone; C13, C14 for the values |
| C112 | `Rel.signalAmplitude`, `Rel.signalPhase`, `Rel.signalShift` | the spectrum as a sum of samples with factors on the unit circle that do not depend on the samples (from C69) |
| C113 | `getCodeSweepSegments*`, `getMSequenceCode`, `getRelationMSequence*`, `axisFromArray`, `UncalculatedSweep.*`, `AprSweep.init`, `getLinearSweep`, `getShuffle`, `getDwellSweep`, `signal2spectrum` | following the first failing step; only the kind of exception is claimed |
| C114 | `Rel.max`, `Rel.min`, `Rel.interpolateExtrapolate`, `Rel.operation`, `Rel.oneIntegrate`, `Rel.integrate`, `Rel.getNorm`, `Rel.convolve`, `Rel.correlate` | from the pointwise descriptions of C20, C25, C28, C29; Cauchy-Schwarz for finite sums |
| C115 | `Rel.interpolateExtrapolate`, `Rel.oneIntegrate`, `Rel.max`, `Rel.min` | the broken line through finer points of a broken line is that line; trapezoids of the parts add up |
| C116 | `Rel.add`, `Rel.sub`, `Rel.mul`, `Rel.interpolateExtrapolate` | values on the grid extended by zero, axis ends as minima and maxima of grid indices |
| C117 | `flCeilLog2`, `flMSequenceCode`, `flRelationMSequence` | powers of two around the length; relative errors of a logarithm; the nearest double |
| C118 | heap layer: the nine functions of `prepared_sweeps` and the corrections (`Heap/Prepared`) | `Safe`, `OwnM` and `SweepOn` as for C32, C33, C56, one lemma per function |
| C119 | heap layer with `exactLib`: prepared sweeps, codes and corrections except convolution | simulation as for C73 and C89 (`Heap/RefinePrepared`, `Heap/RefineLibrary`); for dwell sweeps the normalised sweep is on an axis of its own (C56) |
| C120 | `Rel.convolve`, `Rel.diff` | the samples as coefficients of a polynomial; convolution is the product of polynomials |
| C121 | `Rel.correlate`, `Rel.signalCorrelate` | values of C29; inequality of the means with the first sample that is not zero left out |
| C122 | `UncalculatedSweep.call` | sine of a sum; distance of two sines at most that of their arguments |
| C123 | `getLinearSweep` | closed form of C51; phases that differ by whole periods |
| C124 | `Rel.getSpectrum` | C69; sums of roots of unity over a whole period |
| C125 | `getMSequenceCode`, `getCodeZinger`, `Rel.correlate` | values of C29; periodic code of C59; correlation round the circle of C97 |
| C126 | heap layer with `fourier`, `LibPrims`: phase operands, convolutions, zinger codes, segments, `get_convolution_sweep_and_code` | simulation as for C84 (`Heap/RefineSignals`); the value layer's sweeps reduced to their samples |
| C127 | `getCodeZingerSignal`, `getCodeSweepSegmentsSignal`, `getCodeSweepSegmentsSweep` | circular delay of C41 and C77; sums over a cycle |
| C128 | `Rel.signalShift` by any amount | spectrum of C79; inverse transform of C36; energy of C71 |
| C129 | `Rel.interpolateExtrapolate`, `Rel.integrate`, `Rel.oneIntegrate`, `Rel.getNorm`, `Rel.diff` on samples of a smooth function | Mathlib's derivative and interval integral of the function itself |
| C130 | `UncalculatedSweep.call` on sampled frequencies | the sweep of the frequency law itself (integral of Mathlib) |
| C131 | `Rel.mul` followed by `Rel.getSpectrum` | `fourierSum` of the factors; Fourier sums of Mathlib's complex exponential |
| C132 | `flArraySweep`, `flLinearSweep` | sine of the trapezoid sum (`cycles`) and the chirp, in real numbers |
| C133 | `flGetSpectrum`, `flGetSignalOn`, `flGetSignal` | lists of samples, `FrequencyAxis`, sums of squares |
| C134 | `Act`, `World`, `runSession` (`Heap/Session`) | objects before and after: `fieldsAt`, `partsAt`, `dataAt`, `counterpartAt`, classes; which axes and arrays are touched by hand |
| C135 | `NumRel`, `numOperation`, `NumRel.diff`, `integrate`, `getNorm` (`Model/IntSamples`) | ranges of the types as numbers, multiples of the number of numbers, exact integer results; agreement with `Rel.operation` and the rest of `Model/Relation` on the same numbers |
| C136 | `ERel`, `Ieee`, `ERel.withRel`, `withNum`, `interpAxis`, `diff`, `integrate`, `getNorm`, `conv`, `ieeeMax` (`Model/Special`) | `IsSum`, `IsDifference`, `IsProduct`, `IsQuotient`, `Between`: which pairs of samples give nan, inf and which number; agreement with `Model/Relation` on finite samples |
| C137 | `Rel.interpolateExtrapolate` followed by `Rel.getSpectrum` | `fourierSum` of the original signal at frequencies one new sampling rate apart; positions and samples as lists |
| C138 | `clsConv` for the class Spectrum (heap), `Rel.convolve` and `Rel.correlate` of `Rel.getSpectrum` | `spectrumOf` (what an operand means), `fourierSum`, positions and values as lists |
| C139 | `Rel.diff`, `Rel.integrate`, then `Rel.getSpectrum` | `phase` (e^{-2πi f t}), `fourierSum` of the signal and of the differences |
| C140 | `axisStr`, `relStr` (heap), `Rel.getItemComplex` | `nothingChanged` (every read of every old object), `NearestEven`, the number shown as a formula |
| C141 | `runSession` (heap) | `AllFit` (axis and y array there, same number), `Unused`, `TidySession` (which assignments are allowed); `dataAt`, `relLen` read the result |
| C142 | `Rel.pow`, `Rel.rpow`, `Rel.exp` with `PyPow ℝ`, `PyPow ℂ` | `a ^ n` for natural `n`, the real power of positive numbers, `exp`, `log` |
| C143 | `ERel.powNum`, `ERel.rpowNum`, `ERel.powRel`, `ERel.exp` (`Model/SpecialPow`) | `near` (the numbers a special value stands for, as a filter), `IsPower`, `IsPowerNum`, `IsExp`; `Between` (C136) for other axes |
| C144 | `numOperation` on booleans, `NumRel.diff`, `integrate`, `getNorm` (`Model/IntSamples`) | `truth` (0 and 1), or, and, `touched` (steps with a true sample); agreement with `Model/Relation` on the numbers 0 and 1 |
| C145 | `Rel.correlate`, `Rel.signalCorrelate` | `Recorded` (sum of delayed copies and noise), `overlap`, `energy`; values of C29, Cauchy–Schwarz |
| C146 | `Rel.getSpectrum`, `signal2spectrum` on axes with `end < start` | `played` (the same samples forwards), `opposite` frequencies, `phase`, `fourierSum` |
| C147 | `operation`, `convolve`, `correlate`, `selectData` on backward axes | C25, C10; falling grids |
| C148 | `Axis.arrayC`, `axisFromArrayC`, `Rel.getDataC`, .. , `Rel.correlateC` (`Model/ComplexAxis`) | a real axis laid along a line of the plane (`lay`, `along`, `laid`), `Ahead`, `EvenlySpaced`, `NearestEven` |
| C149 | `Rel.getSpectrumC`, `Rel.signalShiftC`, `Rel.signalCorrelateC`, .. , `SweepC.init`, `Sweep.operationC` (`Model/ComplexSamples`) | the signal of the real parts (`reals`), Fourier sum over the own times, `zext` |
| C150 | `NRel.make`, `NRel.integrate`, `NRel.selectData`, `NRel.interpAxis`, `NRel.operation`, .. , `NRel.getSpectrum` (`Model/Tables`) | the relation with the same samples in one dimension (`plain`), in a row (`inRow`), in a column (`inColumn`) |
| C151 | no new model | `Near`: one axis, corresponding samples differ by at most a given amount; `Within`: a bound of the samples; the bounds are written out in the statements |
| C152 | `softClip`, `softClipTimes`, `correctionPass` | `ClippedTimes`: the chain of calls of `soft_clip`; one call with another coefficient |
| C153 | `Rel.flShift`, `Rel.flEqualize`, `Rel.flOperation` | `WellResolved` and `RelErr` as in C95; the bounds and the values at the ends are written out in the statements |
| C154 | `Rel.flConv`, `Rel.flShift`, `Rel.flEqualize` | `LastLost`: the samples with the last one kept or replaced by zero; `SumsProducts` as in C104 |
| C155 | `flGetSpectrum`, `flGetSignal`, `Rel.flEqualize` | `LastLost` as in C154, `FftErr` as in C133 |
| C156 | `Rel.getData`, `Rel.selectData`, `Rel.shift`, `Rel.interpAxis`, `Rel.operation`, `Rel.diff`, `Rel.integrate`, `Rel.getNorm`, `Rel.convolve`, `Rel.correlate`, `Rel.getItem`, `Rel.getSpectrum` | `mirror`, `backwards`, `Reaches` |
| C157 | `Rel.flShift`, `Rel.flEqualize`, `Rel.flOperation` | `flShifts`: the calls one after the other; `way`: the sum of the distances; `WellResolved` and `RelErr` as in C95 |
| C158 | `defaultSpectrogramC`, `defaultSpectrogram` | `asComplex`: the same samples with dtype complex; `each`: samples through a function; `rowAt`: rows counted from the lower edge; `densityC`: the power density by its formula, with the window of C90; `tone`: a complex oscillation |
| C159 | `Rel.diff`, `Rel.integrate`, `Rel.oneIntegrate`, `Rel.getNorm`, `Rel.interpolateExtrapolate` | `sineWave`; `SampledOn`: samples of a function on whole steps; `tutorialSine` |
| C160 | `Rel.getSpectrum`, `Rel.signalAmplitude`, `Rel.add` | `sineWave`, `SampledOn`; `dirichlet`: a sum of cosines; `tutorialWave` |
| C161 | `Rel.getSpectrum`, `Rel.convolve`, `Rel.correlate` | `Tame`: bounded and of bounded slope; integrals of Mathlib; `tutorialShape` |
| C162 | `getLinearSweep`, `Rel.getNorm` | closed formula: half the number of steps, with a bound on the difference |
| C163 | `Rel.correlate`, `Rel.getItem`, `Rel.getNorm`, `Rel.add`, `Rel.sub`, `getLinearSweep` | sums of squares and products of the samples |
| C164 | `Exc.init`, `Exc.make`, `Exn.str`, `Exn.copy`, `operationFailed`, `sizesDiffer`, `notConverted`, `notEnough` (`Model/Exc`) | the texts written out; equal texts come from equal sizes or operations |
| C165 | `getType`, `newer`, `allowed` (`Model/HelpTypes`) | conditions on the three numbers of a release |
| C166 | `getLinearSweep`, `tukeyAT`, `Rel.getNorm` | inequalities between the samples and norms of two sweeps |
| C167 | `Rel.signalAmplitude`, `getMSequenceCode`, `scipyMls`, `Rel.make` | the correlation of the samples round the circle and cosines; the square root of 2^k |
| C168 | `Rel.getNorm` | sums of sine waves; squares of their amplitudes |
| C169 | `getCodeZinger`, `Rel.signalAmplitude`, `Rel.make` | amplitudes of two signals, numbers of frequencies |
| C170 | `UncalculatedSweep.init`, `UncalculatedSweep.call`, `getShuffle`, `tukeyAT`, `Rel.getNorm` | one common list of factors; inequalities between the samples and norms of two sweeps |
| C171 | `UncalculatedSweep.init`, `UncalculatedSweep.call`, `Rel.add` | one list of numbers for all amplitude descriptions; sums of lists |

No property of the list is "not expressible"; the ones that rest on black boxes (C47 with quad, C53 random,
C61 max_len_seq, C64/C65 EMD) quantify over every black box satisfying the stated contract.

## 4. Trusted base

* The Lean 4.33.0 kernel. Every theorem depends on at most the axioms `propext`, `Classical.choice`, `Quot.sound`
  (Mathlib's usual ones); no `sorry`, no own axiom, no `native_decide`. Examples are checked by kernel reduction
  (`decide +kernel`) or by applying the theorems.
* The faithfulness of the model to the code as read. No code was run. Every model definition cites the file and lines it
  transcribes; the numpy/scipy functions in `Verif/Py` are transcribed from their documented behaviour.
* The contracts of the black boxes below. They appear as hypotheses in the theorems, never as axioms.

### 4.1 What is modelled

| code (under `sweep_design/`) | model |
|---|---|
| `axis.py` | `Model/Axis` (values), `Model/FloatAxis` (with rounding), `Heap/Text` (printing), `Heap/Basic` (objects with their caches) |
| `relation.py`, `core.py` | `Model/Relation`, `Model/FloatValues` (with rounding), `Model/IntSamples` (integer samples), `Model/Special` (inf and nan), `Model/Tables` (samples of two dimensions), `Model/Iteration` (indexing by any object, iteration), `Heap/Text` (printing), `Heap/Basic`, `Heap/Calls` |
| `signal.py`, `spectrum.py` | `Model/Spectral`, `Model/ComplexSamples` (complex samples), `Model/FloatSpectral` (axes with rounding), `Model/SignalSpectra`, `Heap/Basic`, `Heap/Calls` (caches, conversion of operands, class of the result) |
| (what a user does with all of it) | `Heap/Calls` (methods and assignments), `Heap/Session` (also generators and library functions) |
| (no code) | `Heap/Vocabulary`: words of the statements, kept apart from what the model computes with |
| `config/*` | `ConfigIds`, `Methods`, `ConvMethods`, `Captured` in `Heap/Basic`: which method a name stands for, captured at construction |
| `defaults/methods.py` | `Model/Relation`, `Model/Spectral`, `Heap/Defaults` |
| `defaults/sweep_methods.py` | `Model/Sweep`, `Model/Aprior`, `Model/Hilbert` (`get_f_t`, `get_a_t`), `Model/Spectro` (`get_spectrogram`), `Heap/Defaults`, `Heap/Sweep`, `Heap/Aprior`, `Heap/ExactSweep` |
| `sweep.py`, `spectrogram.py` | `Model/Sweep`; constructor also in `Heap/Basic` |
| `uncalculated_sweep.py` | `Model/Sweep`, `Model/FloatSweep` (array descriptions with rounding), `Model/Aprior`, `Heap/Sweep`, `Heap/Aprior`, `Heap/ExactSweep` |
| `utility_functions/f_t.py`, `a_t.py` | `Model/Prepared`, `Model/FloatSweep` (`f_t_linear_array` with rounding) |
| `utility_functions/ftat_functions.py` | `Model/Aprior` |
| `utility_functions/source_sweep_correction.py`, `sweep_correction.py`, `emd_analyze.py` | `Model/Correction`, `Heap/Emd`, `Heap/Prepared` |
| `prepared_sweeps/linear_sweep.py`, `pseudorandom_shuffle.py`, `dwell_sweep.py` | `Model/Prepared`, `Model/Dwell`, `Heap/Prepared` |
| `prepared_sweeps/code_zinger.py`, `code_m_sequence.py`, `sweep_from_code.py` | `Model/Codes`, `Model/MSeq`, `Model/FloatCodes` (bits in floating point), `Heap/Prepared` |
| `exc.py` | `Err` in `Py/Basic` (the kinds); texts and copies in `Model/Exc` |
| `help_types.py` | `Model/HelpTypes` (`get_type`) |
| the numpy and scipy functions they call | `Verif/Py`; Tukey and Hann windows in `Model/Prepared` |

### 4.2 Black boxes and their contracts

All of them are arguments of the model, so a theorem without a contract holds for every choice.

| black box | name in the model | contract, where a theorem needs one |
|---|---|---|
| `scipy.integrate.quad` | `SweepPrims.quad` | none; `C47_exact_quadrature` assumes that it gives 0 on an interval of length 0 |
| `SweepConfig` entries for `get_f_t`, `get_a_t` | `SweepPrims.getFT`, `.getAT` | `PrimsWork`: they and the spectrogram method return a value for relations with a positive step (only in theorems that claim success; proved for the defaults, `defaultPrims_work`). The default ones are modelled exactly (`Model/Hilbert`, C75) |
| `SweepConfig` entry for the spectrogram (`scipy.signal.spectrogram`) | `SweepPrims.spectrogram` | `ScipyShape`: the shape of its result (`C67_short_sweeps`; proved for the default, `defaultPrims_shape`). The default one is modelled exactly for real samples (`Model/Spectro`, C90): window `('tukey', .25)`, overlap `nperseg // 8`, constant detrending, density scaling, one-sided |
| `ndarray.sum`, `np.convolve`, `np.correlate` with rounding (elsewhere they are modelled exactly) | `sum` of `Rel.flNorm`, `np` of `Rel.flConv` | `Sums`, `SumsProducts`: the terms are added with rounding, in any order (C104; `leftSum_sums`, `sumsProducts_rounded` give examples) |
| `math.log` in floating point | `ln` (C117 only) | `LibLog`: relative error of at most 2^-50; `CorrectlyRounded` on powers of two in `C117_double` |
| `np.sin`, `2 * np.pi` in floating point | `FlTrig` (C132 only) | `TrigErr`: absolute error `σ` of the sine for every argument, relative error `u` of `2π`; `C132_double` takes `σ = 2^-51` and proves the bound for numpy's constant |
| `np.fft.rfft`, `np.fft.irfft` in floating point (elsewhere they are modelled exactly) | `FlFft` (C133 only) | `FftShape`: the lengths of the results; `FftErr`: an error of at most `ε` times the norm of the exact result (`scaledFft_err` gives examples) |
| `random.shuffle` | `shuffle` | returns a permutation of its argument (C53) |
| `random.randint`, `max_len_seq` | `rand`, `mls` | `FullPeriod`: `2^n - 1` values for `n` bits (C61; proved for scipy's, `C97_full_period`). scipy's algorithm and its table of taps are written down in `Model/MSeq` from scipy 1.x, which is not in `/repo` (C97) |
| `PyEMD.EMD` | `emd` | `KeepsLength`: at least one array, each as long as the input (C64, C65, C72); any function that does not write into its argument, for `EMD` and `CEEMDAN` alike (C82) |
| number operations of the heap layer | `Prims`, `GenPrims`, `LibPrims` (windows, frequencies, `max_len_seq`, `soft_clip`; C118); `Transcendental` in C73; `fourier` in C84; `SweepNumbers` in C89 | none; `Derives` in C73, C84, C88, C89, C126 where new sweeps are constructed on the way; `AlwaysDescribed` in C126 says the same of the value layer |
| methods in `Config` and `SweepConfig` | `Methods`, `ConvMethods` | `GoodMethods`, `GoodConv`: they do not modify the objects they are given. `FreshMethods`, `FreshConvMethods`: axes they make are new. Both proved for the defaults. `C32_contract_needed` shows that the first cannot be dropped. `OnlyMethods`, `OnlySignals`: which relation objects they write to (C85). `PairMethods`, `PairConvMethods`: they return objects whose caches hold the other kind (C87). All proved for the defaults |
| `Config.integrate_function_method` | `GenPrims.intFun` | `GoodGen`: does not modify existing objects (C56) |

### 4.3 What is not modelled

* Float rounding except in C92–C96, which are about axes, C103–C105, which are about real samples of relations, C117,
  which is about the length of m-sequences, C132, which is about sweeps from arrays, C133 and C155, which are about the axes of spectra and of
  the signals made from them, and C153, C154 and C157, which are about relations whose ends come out a rounding apart; overflow,
  subnormal numbers; inf and nan (section 2) except in C136 and C143 (powers and `exp`), which are about the methods of `Relation` without
  rounding. That numpy calls `pow` of the C library and takes short cuts for the exponents 1, -1, 0, 0.5 and 2 is written down from numpy
  (C143). In these models every product and sum is rounded on its own (no fused
  multiply-add), and the formula of `np.interp` is written down from numpy, which is not in `/repo`. `Model/Codes` uses the exact
  logarithm of the code length; C117 (`Model/FloatCodes`) says what a floating point logarithm changes. That CPython computes
  `math.log(n, 2)` as `log(n) / log(2)` is written down from CPython.
* scipy's `interp1d` on a single complex sample gives nan; the model returns the sample, as for real ones.
* Axes from inputs that are not one-dimensional, samples of three or more dimensions, and samples of two dimensions outside C150
  (`Model/Tables`: class `Relation` with the default functions, `Signal.get_spectrum`; what numpy 1.23 and scipy 1.9 do with two dimensions is
  written down from those libraries). Axes of complex numbers outside `ArrayAxis` and `Relation` (signals, spectra,
  sweeps, heap layer). That numpy compares complex numbers by the real and then the imaginary part, that two Python complex numbers cannot
  be compared, and how `interp1d` works on complex positions is written down from numpy, CPython and scipy (C148).
* Signals and sweeps with complex samples outside C149 (`Model/ComplexSamples`, default configuration, no cached spectrum). That `rfft` casts
  complex arrays to real ones, `hilbert` rejects them and `spectrogram` becomes two-sided is written down from numpy 1.23 and scipy 1.9.
* Samples of other types than floats, outside C135 and C144. `Relation` keeps the type of the array it is given; the samples of the model
  are real or complex numbers, in C135 and C144 (`Model/IntSamples`) also integers of fixed width and booleans. That model is about
  `Relation` with the default methods; its rules are written down from numpy and scipy, conversion to floats is exact there, and `exp`,
  Python booleans as operands and Python ints outside `-2 ** 63` to `2 ** 64 - 1` are left out.
* A numpy scalar as left operand (`np.float64(2) * r`), which numpy handles before the relation is asked: as far as we know numpy lists the
  items of `r` to make an array, which does not end (`C99_no_list`); so `r.max() * r` would not return, `r * r.max()` does. Operands with
  `__array_ufunc__ = None`.
* A relation passed as `time` to `ApriorUncalculatedSweep`: the code iterates over it, which does not end (C99).
* Assignments to attributes other than `start`, `end`, `sample`; user subclasses.
* User callables that write into the array they are given.
* The type aliases of `help_types.py` (except which one `get_type` chooses, C165). Texts of exceptions that Python and numpy raise.
* C73, C84 and C88 cover objects of class `Sweep` when the methods that derive the descriptions of a new sweep succeed
  (`Derives`). C84 treats `add_phase` and `sub_phase` with a spectrum operand; C126 the operands of the other classes. Where a signal has a
  cached spectrum, C84 and C126 ask that it is the one of the current values; C44 says what happens otherwise.

## 5. Where the code differs from what one might expect

All of this is proved (theorem names start with the number given) unless it says otherwise.

* **C05** The default rounding of the step rejects some evenly spaced arrays, for example three points with step 0.7.
* **C15** `integrate` and `diff` raise `NotEqualError` when `(end - start) / sample` is half way between two integers, for
  one-point relations, and when the sample has the wrong sign.
* **C18** For complex values `get_norm` integrates `y*y`, not `|y|^2`, and can vanish on a non-zero relation. It is negative
  whenever the sample has not the sign of `end - start`.
* **C37** A signal with `m` points before time 0 comes back from its spectrum rotated left by `2m` positions.
* **C38** The statement needs the sample to be positive; the theorem has this as a hypothesis. For an odd number of points
  the signal comes back with one point less and another sample.
* **C42** `Signal.shift` does not move the time axis. Convolving or correlating two signals on the same axis from `a` to `b`
  raises `NotEqualError` for `b > 0`, `a != 0`.
* **C43** `get_spectrum` with an axis of three or more points as `frequency` always raises.
* **C49** A generator without time raises `BadInputError` even if its descriptions are relations. The branch of
  `get_info_from_ftat` that takes the time from them is never effective, because `_extract_x_t` returns the time it was
  given.
* **C50** On a time axis that does not start at 0 the values of an array description end up in other places.
* **C53** With rounding of the segment frequencies they may leave the band; the band theorems are about calls without
  rounding.
* **C55** Arithmetic on a sweep drops its description and a-priori signal; both descriptions are derived anew from the
  samples. This includes the multiplication inside `ApriorUncalculatedSweep.__call__`.
* **C56** The claim as listed holds of `UncalculatedSweep` and of a-priori sweeps that are not normalised. A normalised
  a-priori sweep is on a new axis object (`C56_apriori_normalised`). With a time argument the sweep is on the
  axis object given, or on a new one for an array (`C56_given_axis`, `C56_given_array`), not on the stored one.
* **C58** `dwell` without cutoff always raises `IndexError` on increasing frequencies.
* **C60** The first period of the Zinger code relation is counted twice.
* **C61** `get_m_sequence_code(L)` returns L-1 or L-2 values and raises for L <= 3. `get_relation_m_sequence` raises for axes
  of `2^k` or `2^k + 1` points. A start sequence of zeros given by the caller is changed in place.
* **C62** With a `Signal` or `Sweep` base the result keeps the axis of the base, whatever the length of the code.
* **C63** Between `limit * percent` and `limit` soft clipping amplifies. A negative limit flips the sign of the second column,
  so the claim about signs is proved for positive limits.
* **C64** Without `limit_iteration` the loop need not end: `C64_may_not_end` gives a decomposition for which no number of
  passes suffices.
* **C65** False with a start window, because the step of the window's axis is rounded (`C65_window_witness`, sample 0.7).
  Without window it is proved; with window `C65_window_partial` has the conditions on the rounded step, and **C72** says what
  happens otherwise.
* **C67** A spectrogram with a single time has an image of one column and a time axis of two points (the padded image is
  computed but not returned); every sweep of fewer than 480 samples is such a case. Rounding the step of the time axis may
  also change its number of points (`C67_rounding_witness`).
* **C74** A convolution of signals is placed on the symmetric axis of the correlation, so it stands `E*s` too early.
* **C75** The first value of `get_f_t` is 0 whatever the signal.
* **C76** `get_dwell_sweep` called with its defaults raises `BadInputError`: the a-priori data is not optional. The sweep it
  returns has lost its a-priori signal and the frequency law it was built from (C55).
* **C77** `get_convolution_sweep_and_code` returns the convolution rotated: the code `[1, 0]` and the base `[1, 2, 3]` give
  `[3, 0, 0, 1, 2]` on the axis from -2 to 2 (`C77_rotated_witness`). A code of one number raises `ValueError`.
* **C78** `get_signal` of a spectrum whose axis does not start at 0 treats it as if it did.
* **C79** the imaginary part of a spectrum at frequency 0 and at half the sampling rate is lost without a warning.
* **C80** `get_reverse_signal` with `frequency_start` above 0 does not return a signal in that band: the selected values are moved down
  to frequency 0 (`C80_band_moved`). This follows from C78/C79: `get_signal` forgets the frequencies.
* **C81** `Signal.add_phase` with a spectrum that has a phase at frequency 0 can turn a signal into silence (`C81_lost`).
* **C88** A signal that starts after 0 and has fewer samples than its (edited) axis gets a spectrum without any exception: the missing
  samples count as zeros before the others. A relation with one sample combines with an array of any length its axis has.
* **C90** The image and its axes need not fit: with the step 0.001 and at least 256 samples the image has 129 rows, the frequency
  axis 126 points (`C90_frequency_witness`). Times count from the first sample, whatever the start of the sweep.
* **C91** A relation on a descending axis is accepted, but a sweep on it may raise `ZeroDivisionError`
  (`C91_negative_witness`).
* **C93** Twelve times a microsecond apart, in seconds since 1970, are rejected: the spacing of doubles at 1.6e9 is 2^-22, the step
  found is 2^-20 (`C93_witness`). C93 has the bounds within which this cannot happen.
* **C94** On the axis from -0.1 to 0.5 in steps of 0.1, the sample at time zero counts as negative time, because its position is
  -2^-56; all values of the spectrum are turned by the angle of one sample (`C94_witness`, `C94_spectrum`).
* **C95** `select_data(0, 0.3)` on the axis 0, 0.1, ..., 1 leaves out the sample at 0.3, which stands at 0.30000000000000004
  (`C95_witness`). C10 holds for the rounded positions, not for the intended ones.
* **C97** The documentation asks for a start sequence of -1 and 1. Every such start counts as all ones, and the result has values 0 and
  1 (`C97_sign_start`).
* **C99** `for x, y in relation` never ends and asks for positions, not for sample numbers; `list(relation)` and `np.array(relation)`
  use up the memory, `x, y = relation` raises. `relation[np.int64(3)]` is `None`.
* **C106** An a-priori generator built from a signal whose spectrum is cached describes the samples of the time the spectrum was computed
  (`C106_stale`), while its energy is read anew at every call (`C106_later`). A plain relation as data is read as a spectrum.
* **C107** The constructor from an array of floats depends on the unit of time because it rounds the step (`C107_array_witness`); so does
  the default frequency `f(t) = t` of a generator.
* **C108** `get_shuffle` cuts two entries off its description and then stretches it over the whole time, so the last segment frequency is
  never reached and the segments do not lie where their lengths say.
* **C110** The default conversion method describes the amplitude by an energy (`get_norm`, not its root), so without normalisation data twice
  as loud make a sweep four times as loud; `proportional_freq2time` takes the root, `dwell` ignores the loudness.
* **C118** `get_relation_m_sequence` writes 1 into a `start_sequence` array of zeros that belongs to the caller. Linear and shuffled sweeps
  share the axis they are given, dwell sweeps do not; dwell sweeps lose their `a_prior_signal` in the product with the window. With
  `periods <= 1` `get_code_zinger_relation` returns its argument.
* **C119** For `get_dwell_sweep` the conversion method is arbitrary: a heap of the model holds samples of one type, real in C119, so the
  complex spectrum that `dwell` reads is not in it. What `dwell` makes of a spectrum is C58 and C76.
  `get_convolution_sweep_and_code`, zinger codes of signals and segments of signals or sweeps are in C126, where the heap holds complex
  numbers. C126 compares the samples and the axis of the sweeps, not their descriptions.
* **C127** `get_code_zinger_relation` and `get_code_sweep_segments` of a `Signal` or `Sweep` append nothing: `Signal.shift` is circular, so all
  copies are added up inside the base's own axis. The code `1, -1` of a signal that begins at zero is silent (`C127_silent`).
* **C128** Shifting a signal with an even number of samples by a fraction of a sample loses energy at half the sampling frequency; shifting
  back does not restore it (`C128_back`, `C128_energy`). With an odd number of samples nothing is lost.
* **C136** Dividing by zero raises nothing: the result holds inf and nan (`C136_division_witness`). One inf reaches its
  neighbours when the relation is resampled, integrated or differentiated, and is nan where it meets a zero in a product or convolution
  (`C136_spread_witness`). A relation of one sample nan has norm 0 (`C136_single_witness`).
* **C137** Resampling to a coarser axis does not filter: what lies above the new Nyquist frequency appears below it (`C137_alias_witness`).
* **C138** `Spectrum.convolve` of the spectra of two signals is not the spectrum of their product: it leaves out the negative frequencies and puts
  value `k` half the sampling rate too low (`C138_witness`).
* **C139** The times of `diff` lie half way between the samples, so prolonging its axis to zero meets a tie in `round`: for a signal from zero with
  an odd number of steps the spectrum of the differences is half a sample early, with an even number half a sample late
  (`C139_parity_witness`). In floating point the rounding error of `(end - start) / sample` decides instead of the parity.
* **C140** `print` of an axis or relation of one point raises `ValueError`: `__str__` asks for `actual_sample`, the minimum of no gaps.
* **C142** `(r + q).exp()` is not `r.exp() * q.exp()` when the axes differ: a relation counts as 0 outside its axis, and so does its exponential
  (`C142_other_axes`).
* **C143** `r ** 0.5` is numpy's square root, not the power: -0.0 stays -0.0 and -inf becomes nan, where the power is 0.0 and inf (`C143_witness`).
* **C144** The integral of a mask of booleans is half of what it should be where the mask stays true, and a mask minus itself raises
  `TypeFuncError` while on an equal axis that is another object it is 0 (`C144_witness`).
* **C146** A signal on a backward axis is transformed as if its samples were played forwards, so its phases are wrong while its amplitudes are
  right; near time zero, and always if it crosses zero, `get_spectrum` raises `ValueError` (`C146_witness`).
* **C147** Backward axes are accepted everywhere, but the sum of two relations on different backward axes only keeps the overlap,
  convolution cuts both operands to the shorter one, and `select_data()` without bounds raises `IndexError`.
* **C148** Complex axes work as the tests suppose as long as `sample` points along the line from `start` to `end`. A sample in another
  direction is accepted without complaint, then `diff` and `integrate` can refuse the relation and the norm is multiplied by a complex number
  (`C148_sideways`). Two relations on different axis objects made from Python complex numbers cannot be added, convolved or correlated
  (`TypeError`), those made from complex arrays can. The step of a complex array is not rounded, that of a real array is.
* **C149** `Signal` and `Sweep` document complex samples, but `get_spectrum`, `shift`, `add_phase`, `Signal.convolve` and `Signal.correlate`
  drop the imaginary parts, `sweep * 1j` raises `ValueError`, and a sweep with complex samples and both descriptions raises
  `ZeroDivisionError` at every sampling rate from 4 on (long sweeps: from about 2 on): `fftfreq` puts the negative frequencies last, so the step found in it is negative
  and is rounded to 1 / 0. At lower rates its frequency axis has one point (`C149_sweep_slow`).
* **C150** the constructor compares `y.size` with the size of the axis, so it accepts a row `(1, n)`, a column `(n, 1)` and any table with as
  many entries (files read with `scipy.io.loadmat` give rows and columns). Later calls then differ from those on the same samples in one
  dimension: `select_data` of a row raises `IndexError`, calculus of a column raises `NotEqualError`, the norm of two samples in a column is two
  zeros, the spectrum of a row exists only if its times do not include zero.
* **C152** the factor of a row in `soft_clip` is made from the first column, which `soft_clip` returns unchanged. The repetition in
  `get_correction_for_source` therefore only multiplies the exponent, and a row strictly between the linear and the hard limit, which is
  amplified by each call (C63), is amplified without bound over the passes. No disagreement with the statement, which says so.
* **C153** after `shift(a)` and `shift(-a)` the ends of an axis can be off by one rounding, and arithmetic with the original then takes the
  common axis, on which the shorter of the two relations has the value zero at that end. The difference there is the whole sample.
* **C154** `convolve` and `correlate` of two relations with equal step and number of samples drop the last sample of one of them if
  `end - start`, computed in doubles, differs between the two: 0.3, 0.4, 0.5 and 0.1, 0.2, 0.3 are such a pair.
* **C155** `signal.get_spectrum().get_signal()` can end one rounding away from `signal`; `signal - signal.get_spectrum().get_signal()` then
  has a whole sample at the end (0, 0.1, 0.2, 0.3).
* **C156** Reversing two records commutes with `convolve` only when they have the same length: `convolve` lengthens the shorter operand at its
  end. Of several nearest samples `r[v]` takes the first, so the reversed record gives another one (`C156_witness`, `C156_item`).
* **C157** ten shifts by 0.1 and one shift by 1 leave a relation on two different axes (0.9999999999999999 and 1.0), and their
  difference has a whole sample at that end. No disagreement with the statement, which says so.
* **C161** `convolve`, `correlate` and `get_spectrum` do not multiply by the sample: the convolution of the tutorial (cell 41) is a
  thousand times the integral. The axis of a convolution begins at -E, whatever the times of the operands.
* **C164**: the text of `TypeFuncError` ends with "did not complete with type": the line of `exc.py` that should add the types of the operands is
  a statement of its own. `NotEqualError` and `ConvertingError` keep only their text in `args`, so copying or unpickling them calls the
  constructor with one argument and raises `IndexError`; a copied `TypeFuncError` has its text nested in itself. That copies are made from
  the class and `args` is written down from CPython.
* **C165**: `pyproject.toml` allows numpy 1.19.1 to 1.19.5 with Python 3.8 and later, but then `help_types.py` imports `numpy.typing`, which came
  with 1.20, and the package cannot be imported. When `numpy.typing` came, and how packaging compares versions, is written down from
  those packages; versions other than final releases of three numbers are not modelled.
* **C167** `docs/prepared_sweep.ipynb` makes a signal from `get_m_sequence_code(time.size + 1)`. This works there (40001 points), and for
  every number of points that is not a power of two; for 4, 8, 16, … points the code is one value short and NotEqualError is raised.
* **C83** `ArrayAxis.copy` is shallow, so in-place writes into `x.array` reach operands and results of operations
  (`C83_witness`), although assignments to the axis do not (C32, C33).

## 6. Testing the theorems

`seeded/LOG.jsonl` records wrong programs: one edit of a model definition per line, the claim it breaks, the theorems that
failed to build with it, and the theorems tightened because of it. `failed` means that the theorem, or a lemma or example
it rests on, no longer builds; a proof may follow the text of a definition, so this alone does not show that the
statement became false. `expected` lists the properties that should fail. `survived` lists those of them that still
build (`all`: nothing failed). An edit is called `equivalent` only with the reason given there. Only modules of the expected properties were
rebuilt, unless none were named, so `failed` is not a complete list.

## 7. The project's own tests in the model

`Verif/Validation.lean` states what `/repo/tests` expects as theorems about the model, with the lines of the tests. The tests were read,
not run; the theorems show that the model answers as the tests demand, which is evidence that the model describes this code.

* Exact comparisons of numbers in `test_axis.py` and `test_relation.py` are theorems about doubles (`fl64`): axes from lists and from
  `linspace`, selection, items, slices, differentiation, integration, interpolation, `equalize`, `shift`, arithmetic. Two of these
  expectations only hold because of rounding and hold in the model for the same reason: `linspace(-3.0, 5.6, ..)` has 43 points instead
  of 44, and interpolation on `ArrayAxis(-0.1, 0.6, 0.05)` gives 0 instead of 10 at the third point, which is a negative double.
* The complex axis of `test_axis.py` is an example in `Props/ComplexAxis`, exact arithmetic.
* Assigned axis fields, `get_data` after them, `max`, `min`, wrong operand types: theorems about the heap layer, exact arithmetic.
* The 144 combinations of `test_uncalculated_sweep.py`, linear functions: value layer, exact arithmetic, toy black boxes.
* Not restated: tests that only check the class of a result (classes are C98), EMD, and the tests of
  prepared sweeps and corrections (C51 to C53, C58 to C65, C76, C77 are about those).

`Verif/Tutorial.lean` does the same for what `/repo/docs/tutorial.ipynb` has stored as output: 10001 points and the `actual_sample`
0.0009999999999994458 of `ArrayAxis(0., 10., 0.001)` are what the model with doubles gives; the norm 5000.0 is `C159_tutorial` and the
two peaks of cell 47 are `C160_tutorial`, both in exact arithmetic. Two sentences of the tutorial are false of the code: `shift(c)` is
`f(x - c)`, not `f(x + c)` (`shift_sign`, C27), and `actual_sample` is the smallest, not the commonest difference
(`actual_sample_smallest`). The listing of `simple_freq2time` in cell 71 has
the amplitude `sqrt(2 trapz(A^2, f))`; the code takes `get_norm` (the integral of the square divided by the sample, C18) without a root.
